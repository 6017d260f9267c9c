import Verif.Java.Code
import Verif.Core.NameGenProps
/-!
# C34: a native call keeps its Java arguments reachable
-/
namespace Flapi.JavaCode

open Flapi.JavaNames Flapi.NameGen

/-! ## Specification -/

/-- Texts separated by `", "`. -/
def commaJoin : List Text → Text
  | [] => []
  | [x] => x
  | x :: l => x ++ ", ".toList ++ commaJoin l

/-- The arguments whose Java object is converted to something else (for a class: its raw pointer) before the native call;
converted primitive values need no protection. -/
def protectedArgs : List (Info × Text) → List Text
  | [] => []
  | (a, x) :: l => (if a.conv.isSome ∧ a.name ∉ primitives then [x] else []) ++ protectedArgs l

/-- What is passed to the native function for the arguments: converted arguments are passed through their temporary. -/
inductive Passed : List (Info × Text) → (temps : List Text) → (passed : List Text) → (code : Text) → Prop where
  | nil : Passed [] [] [] []
  | direct {a x l ts ps c} (h : a.conv = none) (t : Passed l ts ps c) : Passed ((a, x) :: l) ts (x :: ps) c
  | conv {a x l ts ps c} (k : Conv) (v : Text) (h : a.conv = some k) (t : Passed l ts ps c) :
      Passed ((a, x) :: l) (v :: ts) (v :: ps) (convText k v x ++ c)

def stdCall : Text := "java.lang.ref.Reference.reachabilityFence(".toList

/-- A fence statement for the given variables. -/
def fenceStmt (f : Fence) (l : List Text) : Text :=
  match f with
  | .std => stdCall ++ commaJoin l ++ ");".toList
  | .gen _ => "JNIReachabilityFence.reachabilityFence".toList ++ dec l.length ++ '(' :: commaJoin l ++ ");".toList

/-- The text contains a fence call that has `x` among its arguments; if the fence is a generated one, it is declared with
exactly as many parameters as are passed. -/
def Fenced (f : Fence) (x : Text) (text : Text) : Prop :=
  ∃ l, x ∈ l ∧ fenceStmt f l <:+: text ∧
    match f with
    | .std => l.length = 1
    | .gen maxArgs => ∃ d ∈ fenceDecls maxArgs, d.1 = "reachabilityFence".toList ++ dec l.length ∧ d.2.length = l.length

/-! ## Lemmas -/

theorem convLoop_spec (l : List (Info × Text)) (n i : Nat) (known : List Text) (r : Loop)
    (h : convLoop n known i l = some r) (hn : i + l.length = n) :
    ∃ ts ps, Passed l ts ps r.conv ∧ r.call = commaJoin ps ∧ ts.Nodup ∧ (∀ t ∈ ts, t ∉ known) ∧
      r.protect = protectedArgs l := by
  induction l generalizing i known r with
  | nil =>
    simp only [convLoop, Option.some.injEq] at h
    subst h
    exact ⟨[], [], .nil, rfl, by simp, by simp, rfl⟩
  | cons q l ih =>
    obtain ⟨a, x⟩ := q
    rw [List.length_cons] at hn
    have sep : ∀ (v : Text) (ts ps : List Text) (c : Text), Passed l ts ps c →
        v ++ (if i ≠ n - 1 then ", ".toList else []) ++ commaJoin ps = commaJoin (v :: ps) := by
      intro v ts ps c hp
      have hlen : ps.length = l.length := by
        clear ih h hn
        induction hp with
        | nil => rfl
        | direct _ _ ih => simp [ih]
        | conv _ _ _ _ ih => simp [ih]
      cases ps with
      | nil =>
        simp only [List.length_nil] at hlen
        rw [if_neg (by omega)]
        simp [commaJoin]
      | cons p ps =>
        simp only [List.length_cons] at hlen
        rw [if_pos (by omega)]
        rfl
    rw [convLoop] at h
    cases hc : a.conv with
    | none =>
      rw [hc] at h
      simp only [Option.bind_eq_bind, Option.bind_eq_some_iff, Option.pure_def, Option.some.injEq] at h
      obtain ⟨r', hr', rfl⟩ := h
      obtain ⟨ts, ps, p1, p2, p3, p4, p5⟩ := ih (i + 1) known r' hr' (by omega)
      refine ⟨ts, x :: ps, .direct hc p1, ?_, p3, p4, ?_⟩
      · dsimp only; rw [p2]; exact sep x ts ps _ p1
      · simp [protectedArgs, hc, p5]
    | some k =>
      rw [hc] at h
      simp only [Option.bind_eq_bind, Option.bind_eq_some_iff, Option.pure_def, Option.some.injEq] at h
      obtain ⟨v, hv, r', hr', rfl⟩ := h
      obtain ⟨ts, ps, p1, p2, p3, p4, p5⟩ := ih (i + 1) (v :: known) r' hr' (by omega)
      refine ⟨v :: ts, v :: ps, .conv k v hc p1, ?_, ?_, ?_, ?_⟩
      · dsimp only; rw [p2]; exact sep v ts ps _ p1
      · rw [List.nodup_cons]
        exact ⟨fun hm => p4 v hm (by simp), p3⟩
      · intro t ht
        rw [List.mem_cons] at ht
        rcases ht with rfl | ht
        · exact C01_fresh _ _ _ hv
        · exact fun hm => p4 t ht (by simp [hm])
      · dsimp only
        rw [protectedArgs, p5]
        congr 1
        simp only [isPrimitive, hc, Option.isSome_some, true_and, Bool.not_eq_true', ← Bool.not_eq_true,
          List.contains_iff_mem]

/-- **C34**: each argument is passed once and in order, a converted one through its own temporary; the temporaries are
distinct from each other and from all argument names and reserved names. -/
theorem C34_call_arguments (f : Fence) (comma : Bool) (known : List Text) (s : Sig) (names : List Text)
    (hl : names.length = s.input.length) (conv args fence : Text) (h : convertCode f comma known s names = some (conv, args, fence)) :
    ∃ ts ps, Passed (s.input.zip names) ts ps conv ∧ ts.Nodup ∧ (∀ t ∈ ts, t ∉ known) ∧
      args = (if comma && !s.input.isEmpty then ", ".toList else []) ++ commaJoin ps := by
  unfold convertCode at h
  simp only [Option.bind_eq_bind, Option.bind_eq_some_iff, Option.pure_def, Option.some.injEq, Prod.mk.injEq] at h
  obtain ⟨r, hr, fc, hf, rfl, rfl, rfl⟩ := h
  obtain ⟨ts, ps, p1, p2, p3, p4, p5⟩ := convLoop_spec _ _ 0 known r hr (by simp [hl])
  exact ⟨ts, ps, p1, p3, p4, by rw [p2]⟩

theorem stdFences_keeps (l : List Text) (acc : Text) : acc <+: stdFences acc l := by
  induction l generalizing acc with
  | nil => exact List.prefix_rfl
  | cons x l ih =>
    rw [stdFences]
    refine List.IsPrefix.trans ?_ (ih _)
    split
    · rw [List.append_assoc, List.append_assoc]; exact List.prefix_append _ _
    · rw [List.append_assoc, List.append_assoc, List.append_assoc]; exact List.prefix_append _ _

theorem stdFences_mem (l : List Text) (acc : Text) (x : Text) (hx : x ∈ l) :
    (stdCall ++ x ++ ");".toList) <:+: stdFences acc l := by
  induction l generalizing acc with
  | nil => simp at hx
  | cons y l ih =>
    rw [stdFences]
    rw [List.mem_cons] at hx
    rcases hx with rfl | hx
    · refine List.IsInfix.trans ?_ (stdFences_keeps l _).isInfix
      generalize (if acc.isEmpty then acc else acc ++ ['\n']) = A
      have e : stdFence = indent ++ stdCall := by decide
      refine ⟨A ++ indent, [], ?_⟩
      rw [e]
      simp only [List.append_assoc, List.append_nil]
    · exact ih _ hx

theorem genArgs_false (l : List Text) : genArgs false l = if l = [] then [] else ", ".toList ++ commaJoin l := by
  induction l with
  | nil => rfl
  | cons x l ih =>
    rw [genArgs, ih]
    cases l with
    | nil => simp [commaJoin]
    | cons y l => simp [commaJoin]

theorem genArgs_true (l : List Text) : genArgs true l = commaJoin l := by
  cases l with
  | nil => rfl
  | cons x l =>
    rw [genArgs, genArgs_false]
    cases l with
    | nil => simp [commaJoin]
    | cons y l => simp [commaJoin]

theorem fenceCode_fenced (f : Fence) (l : List Text) (t : Text) (h : fenceCode f l = some t) (x : Text) (hx : x ∈ l) :
    Fenced f x t := by
  cases f with
  | std =>
    simp only [fenceCode, Option.some.injEq] at h
    subst h
    exact ⟨[x], by simp, stdFences_mem l [] x hx, rfl⟩
  | gen maxArgs =>
    simp only [fenceCode] at h
    split at h
    · simp at h
    · rename_i hle
      split at h
      · rename_i he
        rw [List.isEmpty_iff] at he
        subst he; simp at hx
      · simp only [Option.some.injEq] at h
        subst h
        refine ⟨l, hx, ?_, ?_⟩
        · have : fenceStmt (.gen maxArgs) l = "JNIReachabilityFence.reachabilityFence".toList ++ dec l.length ++
              '(' :: genArgs true l ++ ");".toList := by rw [genArgs_true]; rfl
          rw [this]
          have e : genFence ++ dec l.length ++ '(' :: genArgs true l ++ ");".toList = "\n        ".toList ++
              ("JNIReachabilityFence.reachabilityFence".toList ++ dec l.length ++ '(' :: genArgs true l ++ ");".toList) := by
            have : genFence = "\n        ".toList ++ "JNIReachabilityFence.reachabilityFence".toList := by decide
            rw [this]; simp only [List.append_assoc]
          rw [e]
          exact (List.suffix_append _ _).isInfix
        · refine ⟨("reachabilityFence".toList ++ dec l.length, fenceParams l.length), ?_, rfl, by simp [fenceParams]⟩
          unfold fenceDecls
          refine List.mem_map.2 ⟨l.length, ?_, rfl⟩
          rw [List.mem_range'_1]
          have : 0 < l.length := List.length_pos_of_mem hx
          omega

theorem Fenced.mono {f : Fence} {x t u : Text} (h : Fenced f x t) (htu : t <:+: u) : Fenced f x u := by
  obtain ⟨l, h1, h2, h3⟩ := h
  exact ⟨l, h1, h2.trans htu, h3⟩

theorem convertCode_fenced (f : Fence) (comma : Bool) (known : List Text) (s : Sig) (names : List Text)
    (hl : names.length = s.input.length) (conv args fence : Text) (h : convertCode f comma known s names = some (conv, args, fence))
    (x : Text) (hx : x ∈ protectedArgs (s.input.zip names)) : Fenced f x fence ∧ fence ≠ [] := by
  unfold convertCode at h
  simp only [Option.bind_eq_bind, Option.bind_eq_some_iff, Option.pure_def, Option.some.injEq, Prod.mk.injEq] at h
  obtain ⟨r, hr, fc, hf, rfl, rfl, rfl⟩ := h
  obtain ⟨ts, ps, p1, p2, p3, p4, p5⟩ := convLoop_spec _ _ 0 known r hr (by simp [hl])
  rw [p5] at hf
  have := fenceCode_fenced f _ _ hf x hx
  refine ⟨this, ?_⟩
  intro he
  obtain ⟨l, _, h2, _⟩ := this
  rw [he] at h2
  have := List.eq_nil_of_infix_nil h2
  cases f <;> · unfold fenceStmt at this; revert this; simp

/-- The call of the native function in a wrapper. -/
def callText (p : Parts) (selfArg : Text) : Text := p.func ++ '(' :: selfArg ++ p.args ++ ");".toList

/-- **C34**: in the body of a static wrapper, every converted object argument is passed to a reachability fence after the
native call. -/
theorem C34_static (f : Fence) (known : List Text) (s : Sig) (names : List Text) (hl : names.length = s.input.length)
    (p : Parts) (h : convertCode f false known s names = some (p.conv, p.args, p.fence)) :
    ∃ pre post, staticBody p = pre ++ callText p [] ++ post ∧
      ∀ x ∈ protectedArgs (s.input.zip names), Fenced f x post := by
  have hin : ∀ x ∈ protectedArgs (s.input.zip names), Fenced f x p.fencePart := by
    intro x hx
    obtain ⟨h1, h2⟩ := convertCode_fenced f false known s names hl _ _ _ h x hx
    refine h1.mono ?_
    unfold Parts.fencePart
    rw [if_neg (by rw [List.isEmpty_iff]; exact h2)]
    exact (List.prefix_append _ _).isInfix
  unfold staticBody
  generalize (if p.conv.isEmpty then [] else dropNl p.conv ++ ['\n']) = A
  by_cases hv : p.retType = "void".toList
  · refine ⟨A ++ indent, '\n' :: (p.fencePart ++ p.ret ++ "    }".toList), ?_, ?_⟩
    · rw [if_neg (by simpa using hv)]
      have e : ");\n".toList = ");".toList ++ ['\n'] := rfl
      rw [e]
      simp only [callText, List.append_assoc, List.cons_append, List.nil_append]
    · intro x hx
      refine (hin x hx).mono ⟨['\n'], p.ret ++ "    }".toList, ?_⟩
      simp only [List.append_assoc, List.cons_append, List.nil_append]
  · refine ⟨A ++ indent ++ p.assign, p.retConv ++ '\n' :: (p.fencePart ++ p.ret ++ "    }".toList), ?_, ?_⟩
    · rw [if_pos hv]
      simp only [callText, List.append_assoc, List.cons_append, List.nil_append]
    · intro x hx
      refine (hin x hx).mono ⟨p.retConv ++ ['\n'], p.ret ++ "    }".toList, ?_⟩
      simp only [List.append_assoc, List.cons_append, List.nil_append]

/-- **C34**: the same for instance methods (for the arguments; see the finding for the receiver). -/
theorem C34_method (f : Fence) (known : List Text) (s : Sig) (names : List Text) (hl : names.length = s.input.length)
    (p : Parts) (h : convertCode f true known s names = some (p.conv, p.args, p.fence)) :
    ∃ pre post, methodBody p = pre ++ callText p selfField ++ post ∧
      ∀ x ∈ protectedArgs (s.input.zip names), Fenced f x post := by
  have hin : ∀ x ∈ protectedArgs (s.input.zip names), Fenced f x p.fencePart := by
    intro x hx
    obtain ⟨h1, h2⟩ := convertCode_fenced f true known s names hl _ _ _ h x hx
    refine h1.mono ?_
    unfold Parts.fencePart
    rw [if_neg (by rw [List.isEmpty_iff]; exact h2)]
    exact (List.prefix_append _ _).isInfix
  unfold methodBody
  generalize (if p.conv.isEmpty then [] else (if p.conv.head? ≠ some '\n' then ['\n'] else []) ++ p.conv) = A
  by_cases hv : p.retType = "void".toList
  · refine ⟨A ++ '\n' :: indent, '\n' :: (p.fencePart ++ p.ret ++ "    }".toList), ?_, ?_⟩
    · rw [if_neg (by simpa using hv)]
      have e : ");\n".toList = ");".toList ++ ['\n'] := rfl
      rw [e]
      simp only [callText, List.append_assoc, List.cons_append, List.nil_append]
    · intro x hx
      refine (hin x hx).mono ⟨['\n'], p.ret ++ "    }".toList, ?_⟩
      simp only [List.append_assoc, List.cons_append, List.nil_append]
  · refine ⟨A ++ '\n' :: (indent ++ p.assign), p.retConv ++ '\n' :: (p.fencePart ++ p.ret ++ "    }".toList), ?_, ?_⟩
    · rw [if_pos hv]
      simp only [callText, List.append_assoc, List.cons_append, List.nil_append]
    · intro x hx
      refine (hin x hx).mono ⟨p.retConv ++ ['\n'], p.ret ++ "    }".toList, ?_⟩
      simp only [List.append_assoc, List.cons_append, List.nil_append]

/-- **C34**: the same for constructors (the native function is `init`). -/
theorem C34_constructor (f : Fence) (known : List Text) (s : Sig) (names : List Text) (hl : names.length = s.input.length)
    (p : Parts) (hp : p.func = "init".toList) (h : convertCode f false known s names = some (p.conv, p.args, p.fence)) :
    ∃ pre post, constructorBody p = pre ++ callText p [] ++ post ∧
      ∀ x ∈ protectedArgs (s.input.zip names), Fenced f x post := by
  unfold constructorBody
  generalize (if p.conv.isEmpty then [] else dropNl p.conv ++ ['\n']) = A
  refine ⟨A ++ indent ++ selfField ++ " = ".toList, p.fence ++ "\n    }".toList, ?_, ?_⟩
  · have e : " = init(".toList = " = ".toList ++ ("init".toList ++ ['(']) := by decide
    rw [e]
    unfold callText
    rw [hp]
    simp only [List.append_assoc, List.cons_append, List.nil_append]
  · intro x hx
    exact (convertCode_fenced f false known s names hl _ _ _ h x hx).1.mono (List.prefix_append _ _).isInfix

/-- **C34**: with generated fences, generation fails exactly when more arguments need protection than the largest fence takes
(fresh names are always found for fewer than 2^64 names). -/
theorem C34_too_many (maxArgs : Nat) (comma : Bool) (known : List Text) (s : Sig) (names : List Text)
    (hl : names.length = s.input.length) (hb : known.length + s.input.length < u64Max) :
    convertCode (.gen maxArgs) comma known s names = none ↔ maxArgs < (protectedArgs (s.input.zip names)).length := by
  have tot : ∀ (l : List (Info × Text)) (n i : Nat) (known : List Text), known.length + l.length < u64Max →
      ∃ r, convLoop n known i l = some r := by
    intro l
    induction l with
    | nil => intro n i known _; exact ⟨_, rfl⟩
    | cons q l ih =>
      intro n i known hk
      obtain ⟨a, x⟩ := q
      rw [List.length_cons] at hk
      cases hc : a.conv with
      | none =>
        obtain ⟨r, hr⟩ := ih n (i + 1) known (by omega)
        exact ⟨_, by rw [convLoop]; simp only [hc]; rw [hr]; rfl⟩
      | some k =>
        obtain ⟨v, hv⟩ := C01_total known ('a' :: dec i) (by omega)
        obtain ⟨r, hr⟩ := ih n (i + 1) (v :: known) (by simp only [List.length_cons]; omega)
        exact ⟨_, by rw [convLoop]; simp only [hc]; rw [hv]; simp only [Option.bind_eq_bind, Option.bind_some]; rw [hr]; rfl⟩
  obtain ⟨r, hr⟩ := tot (s.input.zip names) s.input.length 0 known (by simp [hl]; omega)
  obtain ⟨ts, ps, p1, p2, p3, p4, p5⟩ := convLoop_spec _ _ 0 known r hr (by simp [hl])
  unfold convertCode
  rw [hr]
  simp only [Option.bind_eq_bind, Option.bind_some, fenceCode, p5]
  split
  · rename_i hgt; simp; omega
  · rename_i hle
    split <;> simp <;> omega

/-- **C34**: the generated fence functions have distinct names, and each of them declares as many parameters as its number
says, all of type `Object` and with distinct names. -/
theorem C34_fence_declarations (maxArgs : Nat) :
    ((fenceDecls maxArgs).map (·.1)).Nodup ∧
    ∀ d ∈ fenceDecls maxArgs, ∃ n, 1 ≤ n ∧ n ≤ maxArgs ∧ d.1 = "reachabilityFence".toList ++ dec n ∧ d.2.length = n ∧
      d.2.Nodup ∧ ∀ p ∈ d.2, ∃ x, p = "Object ".toList ++ x := by
  have nd : ∀ (k : Text) (n : Nat), ((List.range' 1 n).map fun j => k ++ dec j).Nodup := fun k n =>
    List.Pairwise.map _ (fun a b hab h => hab (dec_injective (List.append_cancel_left h))) List.nodup_range'
  refine ⟨?_, ?_⟩
  · unfold fenceDecls
    rw [List.map_map]
    exact nd "reachabilityFence".toList maxArgs
  · intro d hd
    obtain ⟨n, hn, rfl⟩ := List.mem_map.1 hd
    rw [List.mem_range'_1] at hn
    refine ⟨n, hn.1, by omega, rfl, by simp [fenceParams], nd "Object ref".toList n, ?_⟩
    intro p hp
    obtain ⟨j, _, rfl⟩ := List.mem_map.1 hp
    exact ⟨"ref".toList ++ dec j, by
      rw [← List.append_assoc]; exact congrArg (· ++ dec j) (by decide : "Object ref".toList = "Object ".toList ++ "ref".toList)⟩

/-- **C34 (finding)**: the receiver's raw pointer is read for the native call but the receiver itself is in no fence, although
it is an object whose finaliser frees the native object. -/
theorem C34_finding_receiver_not_protected :
    methodBody ⟨"do_f".toList, [], [], [], "void".toList, [], "ret".toList, "convRet".toList, []⟩ =
      "\n        do_f(mNativeObj);\n    }".toList := by decide

/-! ## Non-vacuity -/

/-- `f(Foo a0, int b, Bar c)` where `Foo` and `Bar` are classes. -/
def sampleInput : Sig :=
  ⟨⟨"void".toList, none, none⟩,
   [⟨"Foo".toList, some ⟨"long".toList, none, "\n        long {to_var} = {from_var}.mNativeObj;".toList⟩, none⟩,
    ⟨"int".toList, none, none⟩,
    ⟨"Bar".toList, some ⟨"long".toList, none, "\n        long {to_var} = {from_var}.mNativeObj;".toList⟩, none⟩]⟩

def sampleNames : List Text := ["a0".toList, "b".toList, "c".toList]

example : convertCode .std false sampleNames sampleInput sampleNames =
    some ("\n        long a00 = a0.mNativeObj;\n        long a2 = c.mNativeObj;".toList, "a00, b, a2".toList,
      "        java.lang.ref.Reference.reachabilityFence(a0);\n        java.lang.ref.Reference.reachabilityFence(c);".toList) := by
  decide
example : convertCode (.gen 8) true sampleNames sampleInput sampleNames =
    some ("\n        long a00 = a0.mNativeObj;\n        long a2 = c.mNativeObj;".toList, ", a00, b, a2".toList,
      "\n        JNIReachabilityFence.reachabilityFence2(a0, c);".toList) := by decide
example : fenceDecls 2 = [("reachabilityFence1".toList, ["Object ref1".toList]),
    ("reachabilityFence2".toList, ["Object ref1".toList, "Object ref2".toList])] := by decide
example : convertCode (.gen 1) true sampleNames sampleInput sampleNames = none := by decide
example : protectedArgs (sampleInput.input.zip sampleNames) = ["a0".toList, "c".toList] := by decide

end Flapi.JavaCode
