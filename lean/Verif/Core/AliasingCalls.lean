import Verif.Core.AliasingProps
import Verif.Cpp.ClassLifeProps
import Verif.Java.LifeTheorems
/-!
# Which variables a C++ or Java program may use twice in a call (C89)
-/
namespace Flapi.Aliasing

/-! ## Specification -/

/-- C++: a variable occurs twice only as `&T` arguments. -/
def OnlyRead (us : List (Nat × Via)) : Prop := us.Pairwise fun a b => a.1 = b.1 → a.2 = .plain ∧ b.2 = .plain

/-- Java: a variable occurs again (the receiver counts as the last) only after arguments that are copied. -/
def OnlyCopied (us : List (Nat × Via)) : Prop := us.Pairwise fun a b => a.1 = b.1 → a.2 = .copy

/-- What arguments and receivers can be in C++. -/
def CppCall (args : List (Nat × Via)) (self : Option (Nat × Via)) : Prop :=
  (∀ u ∈ args, u.2 = .plain ∨ u.2 = .mutRef) ∧ ∀ u ∈ self, u.2 = .viaMut ∨ u.2 = .mutRef

/-- What arguments and receivers can be in Java. -/
def JavaCall (args : List (Nat × Via)) (self : Option (Nat × Via)) : Prop :=
  (∀ u ∈ args, u.2 = .viaMut ∨ u.2 = .mutRef ∨ u.2 = .copy) ∧ ∀ u ∈ self, u.2 = .viaMut ∨ u.2 = .mutRef

/-- A call with these variables as arguments and as receiver; `ptr`: the pointers in their wrapper objects. -/
def callWith (ptr : Nat → Nat) (args : List (Nat × Via)) (self : Option (Nat × Via)) : Call :=
  ⟨args.map fun u => (ptr u.1, u.2), self.map fun u => (ptr u.1, u.2)⟩

/-! ## Lemmas -/

theorem owners_two {n : Nat} {f : Nat → Option CppClass.Wrapper} {p x y : Nat} (hx : x < n) (hy : y < n) (hne : x ≠ y)
    (h1 : f x = some ⟨true, some p⟩) (h2 : f y = some ⟨true, some p⟩) : 2 ≤ CppClass.owners n f p := by
  have a := CppClass.owners_set n f x none p hx
  have b := CppClass.owners_set n (CppClass.setVar f x none) y none p hy
  rw [CppClass.setVar_ne _ _ _ _ hne.symm, if_pos h2] at b
  rw [if_pos h1] at a
  simp only [reduceCtorEq, if_false] at a b
  omega

theorem after_cases (a b : Via) : (∀ p, a.gives = some p → After p b) ↔ a = .copy ∨ (a = .plain ∧ b = .plain) ∨ (a = .viaMut ∧ b = .plain) := by
  cases a <;> cases b <;> simp [Via.gives, After]

theorem call_iff {s : Sys} (h : Reached s) (hf : s.frames = []) (ptr : Nat → Nat) (args : List (Nat × Via)) (self : Option (Nat × Via))
    (inj : ∀ u ∈ args ++ self.toList, ∀ w ∈ args ++ self.toList, ptr u.1 = ptr w.1 → u.1 = w.1) :
    (∃ s', step s (.enter (callWith ptr args self)) = some s') ↔ (args ++ self.toList).Pairwise fun a b => a.1 = b.1 →
      a.2 = .copy ∨ (a.2 = .plain ∧ b.2 = .plain) ∨ (a.2 = .viaMut ∧ b.2 = .plain) := by
  have hu : (callWith ptr args self).uses = (args ++ self.toList).map fun u => (ptr u.1, u.2) := by
    cases self <;> simp [callWith, Call.uses]
  rw [C89_call_defined h, hu]
  have h1 : Fits s.active ((args ++ self.toList).map fun u => (ptr u.1, u.2)) := by
    intro r hr
    unfold Sys.active at hr
    rw [hf] at hr
    cases hr
  rw [and_iff_right h1]
  unfold Compatible
  rw [List.pairwise_map]
  constructor
  · intro hp
    exact hp.imp fun {a b} hab e => (after_cases _ _).1 (hab (congrArg ptr e))
  · intro hp
    exact hp.imp_of_mem fun {a b} ha hb hab e => (after_cases _ _).2 (hab (inj a ha b hb e))

theorem via_mem {P Q : Via → Prop} {args : List (Nat × Via)} {self : Option (Nat × Via)} (h : (∀ u ∈ args, P u.2) ∧ ∀ u ∈ self, Q u.2) :
    ∀ u ∈ args ++ self.toList, P u.2 ∨ Q u.2 := by
  intro u hu
  rcases List.mem_append.1 hu with hu | hu
  · exact Or.inl (h.1 u hu)
  · exact Or.inr (h.2 u (Option.mem_toList.1 hu))

/-- The receiver is the last. -/
theorem pairwise_first {R S : Nat × Via → Nat × Via → Prop} {args : List (Nat × Via)} {self : Option (Nat × Via)}
    (h : ∀ a ∈ args, ∀ b ∈ args ++ self.toList, R a b ↔ S a b) : (args ++ self.toList).Pairwise R ↔ (args ++ self.toList).Pairwise S := by
  induction args with
  | nil => cases self <;> simp
  | cons a args ih =>
    rw [List.cons_append, List.pairwise_cons, List.pairwise_cons,
      ih fun a' ha b hb => h a' (List.mem_cons_of_mem _ ha) b (by rw [List.cons_append]; exact List.mem_cons_of_mem _ hb)]
    refine and_congr_left fun _ => ?_
    exact ⟨fun hh b hb => (h a (List.mem_cons_self ..) b (by rw [List.cons_append]; exact List.mem_cons_of_mem _ hb)).1 (hh b hb),
      fun hh b hb => (h a (List.mem_cons_self ..) b (by rw [List.cons_append]; exact List.mem_cons_of_mem _ hb)).2 (hh b hb)⟩

theorem pairwise_cpp {args : List (Nat × Via)} {self : Option (Nat × Via)} (h : CppCall args self) :
    ((args ++ self.toList).Pairwise fun a b => a.1 = b.1 → a.2 = .copy ∨ (a.2 = .plain ∧ b.2 = .plain) ∨ (a.2 = .viaMut ∧ b.2 = .plain)) ↔
      OnlyRead (args ++ self.toList) := by
  refine pairwise_first fun a ha b _ => ?_
  rcases h.1 a ha with e | e <;> simp [e]

theorem pairwise_java {args : List (Nat × Via)} {self : Option (Nat × Via)} (h : JavaCall args self) :
    ((args ++ self.toList).Pairwise fun a b => a.1 = b.1 → a.2 = .copy ∨ (a.2 = .plain ∧ b.2 = .plain) ∨ (a.2 = .viaMut ∧ b.2 = .plain)) ↔
      OnlyCopied (args ++ self.toList) := by
  refine pairwise_first fun a ha b hb => ?_
  have hb' : b.2 ≠ .plain := by
    rcases via_mem (P := fun v => v = .viaMut ∨ v = .mutRef ∨ v = .copy) (Q := fun v => v = .viaMut ∨ v = .mutRef) h b hb with (e | e | e) | e | e <;> simp [e]
  rcases h.1 a ha with e | e | e <;> simp [e, hb']

/-! ## Property theorems -/

/-- C89, C++: at any point of a C++ program, for a class whose objects are in boxes, a call outside callbacks, whose arguments and receiver are variables that own
objects, is defined exactly if no variable occurs twice, other than as `&T` arguments. -/
theorem C89_cpp (c : CppClass.Class) (hacc : c.accepted = true) (hbox : c.shared = false) (prog : List CppClass.Op) (v : CppClass.St)
    (hv : CppClass.run c CppClass.initial prog = .ok v) {s : Sys} (h : Reached s) (hf : s.frames = [])
    (ptr : Nat → Nat) (args : List (Nat × Via)) (self : Option (Nat × Via)) (hc : CppCall args self)
    (own : ∀ u ∈ args ++ self.toList, v.vars u.1 = some ⟨true, some (ptr u.1)⟩) :
    (∃ s', step s (.enter (callWith ptr args self)) = some s') ↔ OnlyRead (args ++ self.toList) := by
  refine (call_iff h hf ptr args self fun a ha b hb e => ?_).trans (pairwise_cpp hc)
  obtain ⟨n, _, hi⟩ := CppClass.reached_inv hacc hv 0
  apply Classical.byContradiction
  intro hne
  have h1 := own a ha
  have h2 := own b hb
  rw [← e] at h2
  obtain ⟨o, k, hc⟩ := CppClass.own_live hi h1
  have hk := hi.one hbox _ _ _ hc
  have hcnt := hi.cnt (ptr a.1)
  have := owners_two (CppClass.var_lt hi h1) (CppClass.var_lt hi h2) hne h1 h2
  simp only [CppClass.refs, hc, hbox] at hcnt
  omega

/-- C89, Java: under the conditions of C35, at any point of a program, a call outside callbacks is defined exactly if no wrapper object occurs again
after having been an argument that is not copied. -/
theorem C89_java {j j' : JavaLife.St} (h0 : JavaLife.Initial j) (hr : JavaLife.Run JavaLife.Tame j j') (ha : j'.mem.aborted = false)
    {s : Sys} (h : Reached s) (hf : s.frames = []) (args : List (Nat × Via)) (self : Option (Nat × Via)) (hc : JavaCall args self)
    (own : ∀ u ∈ args ++ self.toList, j'.mem.field u.1 ≠ 0) :
    (∃ s', step s (.enter (callWith j'.mem.field args self)) = some s') ↔ OnlyCopied (args ++ self.toList) :=
  (call_iff h hf _ args self fun a hm _ _ e =>
    ((JavaLife.good_run (fun _ _ h => h) (JavaLife.good_init h0) hr).inv ha).inj a.1 _ (own a hm) e).trans (pairwise_java hc)

/-- C89, finding: for classes with `#[derive(SmartPtrCopy)]` two variables share an object, so a call that gets different variables, one of them as `&mut T`, can
be undefined all the same. -/
theorem C89_finding_smart_ptr (c : CppClass.Class) (hacc : c.accepted = true) (hc : c.copy = .smartPtr) (v : CppClass.St) (x y p o k : Nat)
    (hx : v.vars x = some ⟨true, some p⟩) (hy : v.vars y = none) (hp : CppClass.cellAt v p = some (o, k)) {s : Sys} (h : Reached s) :
    ∃ v', CppClass.step c v (.copyCtor y x) = .ok v' ∧ ∀ ptr : Nat → Nat, v'.vars x = some ⟨true, some (ptr x)⟩ → v'.vars y = some ⟨true, some (ptr y)⟩ →
      ¬ ∃ s', step s (.enter (callWith ptr [(x, .mutRef), (y, .plain)] none)) = some s' := by
  obtain ⟨v', h1, h2, _, h4⟩ := CppClass.C42_copy c hacc v y x p o k true hx hy hp (by rw [hc]; decide)
  refine ⟨v', h1, fun ptr e1 e2 => ?_⟩
  rw [hc] at h4
  rw [h2, hx] at e1
  rw [h4.1] at e2
  have p1 : p = ptr x := by injection e1 with e; injection e with _ e; exact Option.some.inj e
  have p2 : p = ptr y := by injection e2 with e; injection e with _ e; exact Option.some.inj e
  rw [C89_call_defined h]
  rintro ⟨_, hcm⟩
  have := (List.pairwise_cons.1 hcm).1 (ptr y, .plain) (by simp [callWith, Call.uses]) (by show ptr x = ptr y; rw [← p1, ← p2]) .unique rfl
  cases this.1

/-! ## Non-vacuity -/

example : CppCall [(0, .plain), (0, .plain)] (some (1, .viaMut)) ∧ OnlyRead [(0, .plain), (0, .plain), (1, .viaMut)] ∧
    ¬ OnlyRead [(0, .plain), (0, .viaMut)] ∧ JavaCall [(0, .copy), (1, .viaMut)] (some (0, .mutRef)) ∧ OnlyCopied [(0, .copy), (1, .viaMut), (0, .mutRef)] := by
  refine ⟨⟨by simp, by simp⟩, by simp [OnlyRead], by simp [OnlyRead], ⟨by simp, by simp⟩, by simp [OnlyCopied]⟩

/-- The hypotheses of `C89_java` are met. -/
example : JavaLife.Initial ⟨⟨fun x => if x = 7 then 1 else 0, fun _ => none, 2, fun _ => 0, false, false⟩, fun _ => false, []⟩ :=
  ⟨rfl, by simp, by simp, fun x h => by (by_cases e : x = 7) <;> simp_all [JavaLife.Mem.live],
    fun x y h e => by
      by_cases e1 : x = 7 <;> by_cases e2 : y = 7 <;> simp_all,
    by simp, by simp, by simp⟩

/-- The hypotheses of `C89_cpp` are met: two variables of a boxed class, one of them used twice. -/
example : (match CppClass.run ⟨false, .cloneMethod⟩ CppClass.initial [.construct 0, .copyCtor 1 0] with
    | .ok v => (v.vars 0, v.vars 1)
    | _ => (none, none)) = (some ⟨true, some 0⟩, some ⟨true, some 1⟩) := by decide

example : (step initial (.enter (callWith id [(0, .plain), (0, .plain)] (some (1, .mutRef))))).isSome = true ∧
    (step initial (.enter (callWith id [(0, .plain), (1, .plain)] (some (1, .viaMut))))).isSome = false := by decide

example : Reached initial ∧ initial.frames = [] := ⟨⟨[], rfl⟩, rfl⟩

end Flapi.Aliasing
