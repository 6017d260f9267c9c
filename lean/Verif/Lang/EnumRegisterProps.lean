import Verif.Lang.EnumRegister
import Verif.Lang.RegisterProps
/-! # An exported enum can be used wherever its Rust type occurs (C79) -/
namespace Flapi.EnumRegister

open Flapi.Exported (lit)
open Flapi.Register
open Flapi.TMap (HasRule)
open Flapi.JavaNames (SigMap)

/-! ## Specification -/

/-- Everything the registration of an enum does in the C++ back end. -/
def cppCmds (e : EnumI) : List Cmd := cppTypeCmds e ++ cppFtCmds e
/-- The same for Java. -/
def javaCmds (e : EnumI) : List Cmd := javaTypeCmds e ++ javaFtCmds e

/-- No foreign type known so far stands for the Rust type of that name. -/
def Unclaimed (st : St) (n : Text) : Prop :=
  ∀ i, st.tm.names n = some i → ∀ dir, ∀ ft ∈ st.fts.ftypes, stands dir ft ≠ some i

/-! ## Lemmas -/

theorem reg_ok (st : St) (cs : List Cmd) (st' : St) : reg st cs = .ok st' ↔ run st cs = .ok st' := by
  unfold reg
  cases run st cs with
  | ok s => simp
  | error e => simp

theorem cpp_acc (items : List Enum.Item) : Enum.cppAccepted items = true ↔ items.length < 2 ^ 32 - 1 := by
  unfold Enum.cppAccepted; simp

theorem java_acc (items : List Enum.Item) : Enum.javaAccepted items = true ↔ items.length < 2 ^ 31 - 1 := by
  unfold Enum.javaAccepted; simp

theorem cppEnum_ok (ok : Bool) (st : St) (e : EnumI) (st' : St) :
    cppEnum ok st e = .ok st' ↔ e.items.length < 2 ^ 32 - 1 ∧ ok = true ∧ run st (cppCmds e) = .ok st' := by
  unfold cppEnum cppCmds
  rw [run_append, ← cpp_acc]
  by_cases h : Enum.cppAccepted e.items = true
  · rw [if_pos h]
    cases h1 : run st (cppTypeCmds e) with
    | error x => simp [reg, h1, Except.bind, bind]
    | ok s =>
      have : reg st (cppTypeCmds e) = .ok s := (reg_ok _ _ _).2 h1
      rw [this]
      cases ok with
      | true => simp only [bind, Except.bind, if_true, reg_ok, h, true_and]
      | false => simp [bind, Except.bind]
  · rw [if_neg h]; simp [h]

theorem javaEnum_ok (ok : Bool) (pkg : Text) (w : St × SigMap) (e : EnumI) (w' : St × SigMap) (hi : Inv w.1)
    (hj : w.1.tm.names (lit "jint") ≠ none) :
    javaEnum ok pkg w e = .ok w' ↔ e.items.length < 2 ^ 31 - 1 ∧ ok = true ∧ run w.1 (javaCmds e) = .ok w'.1 ∧
      w'.2 = JavaNames.register pkg w.2 (.enum e.name) := by
  unfold javaEnum javaCmds
  rw [run_append, ← java_acc]
  by_cases h : Enum.javaAccepted e.items = true
  · rw [if_pos h]
    cases h1 : run w.1 (javaTypeCmds e) with
    | error x => simp [reg, h1, Except.bind, bind]
    | ok s =>
      have h2 : reg w.1 (javaTypeCmds e) = .ok s := (reg_ok _ _ _).2 h1
      have h3 : s.tm.names jint.name ≠ none := by
        obtain ⟨i, hi'⟩ := Option.ne_none_iff_exists'.1 hj
        rw [show s.tm.names jint.name = some i from (run_done hi h1).ext.names _ _ hi']
        simp
      have h4 : ¬ (s.tm.names jint.name).isNone = true := by
        cases h5 : s.tm.names jint.name with
        | none => exact absurd h5 h3
        | some i => simp
      rw [h2]
      cases ok with
      | true =>
        simp only [bind, Except.bind, if_true, h, true_and, if_neg h4]
        cases h5 : run s (javaFtCmds e) with
        | error x => simp [reg, h5]
        | ok s' =>
          simp only [(reg_ok _ _ _).2 h5, Except.ok.injEq]
          constructor
          · rintro rfl; exact ⟨rfl, rfl⟩
          · rintro ⟨rfl, h⟩; rw [← h]
      | false => simp [bind, Except.bind]
  · rw [if_neg h]; simp [h]

theorem cppEnums_ok : ∀ (es : List EnumI) (st st' : St),
    cppEnums st es = .ok st' ↔ (∀ e ∈ es, e.items.length < 2 ^ 32 - 1) ∧ run st (es.flatMap cppCmds) = .ok st'
  | [], st, st' => by simp [cppEnums, run]
  | e :: es, st, st' => by
    show ((cppEnum true st e).bind fun s => cppEnums s es) = _ ↔ _
    rw [List.flatMap_cons, run_append]
    constructor
    · intro h
      cases h1 : cppEnum true st e with
      | error x => rw [h1] at h; cases h
      | ok s1 =>
        rw [h1] at h
        have h2 := (cppEnums_ok es s1 st').1 h
        have h3 := (cppEnum_ok true st e s1).1 h1
        refine ⟨fun x hx => ?_, by rw [h3.2.2]; exact h2.2⟩
        rcases List.mem_cons.1 hx with rfl | hx
        · exact h3.1
        · exact h2.1 x hx
    · rintro ⟨h1, h2⟩
      cases h3 : run st (cppCmds e) with
      | error x => rw [h3] at h2; cases h2
      | ok s1 =>
        rw [h3] at h2
        rw [(cppEnum_ok true st e s1).2 ⟨h1 e List.mem_cons_self, rfl, h3⟩]
        exact (cppEnums_ok es s1 st').2 ⟨fun x hx => h1 x (List.mem_cons_of_mem _ hx), h2⟩

theorem javaEnums_ok (pkg : Text) : ∀ (es : List EnumI) (w w' : St × SigMap), Inv w.1 → w.1.tm.names (lit "jint") ≠ none →
    (javaEnums pkg w es = .ok w' ↔ (∀ e ∈ es, e.items.length < 2 ^ 31 - 1) ∧ run w.1 (es.flatMap javaCmds) = .ok w'.1 ∧
      w'.2 = es.foldl (fun m e => JavaNames.register pkg m (.enum e.name)) w.2)
  | [], w, w', _, _ => by
    simp only [javaEnums, List.not_mem_nil, false_implies, implies_true, true_and, List.flatMap_nil, run, List.foldl_nil, Except.ok.injEq]
    constructor
    · rintro rfl; exact ⟨rfl, rfl⟩
    · rintro ⟨h1, h2⟩; exact Prod.ext h1 h2.symm
  | e :: es, w, w', hi, hj => by
    show ((javaEnum true pkg w e).bind fun s => javaEnums pkg s es) = _ ↔ _
    rw [List.flatMap_cons, run_append]
    have next : ∀ s1, run w.1 (javaCmds e) = .ok s1 → Inv s1 ∧ s1.tm.names (lit "jint") ≠ none := by
      intro s1 h1
      have d := run_done hi h1
      refine ⟨d.inv, ?_⟩
      obtain ⟨i, hi'⟩ := Option.ne_none_iff_exists'.1 hj
      rw [d.ext.names _ _ hi']; simp
    constructor
    · intro h
      cases h1 : javaEnum true pkg w e with
      | error x => rw [h1] at h; cases h
      | ok s1 =>
        rw [h1] at h
        have h3 := (javaEnum_ok true pkg w e s1 hi hj).1 h1
        obtain ⟨n1, n2⟩ := next _ h3.2.2.1
        have h2 := (javaEnums_ok pkg es s1 w' n1 n2).1 h
        refine ⟨fun x hx => ?_, by rw [h3.2.2.1]; exact h2.2.1, by rw [h2.2.2, h3.2.2.2]; rfl⟩
        rcases List.mem_cons.1 hx with rfl | hx
        · exact h3.1
        · exact h2.1 x hx
    · rintro ⟨h1, h2, h2'⟩
      cases h3 : run w.1 (javaCmds e) with
      | error x => rw [h3] at h2; cases h2
      | ok s1 =>
        rw [h3] at h2
        obtain ⟨n1, n2⟩ := next _ h3
        rw [(javaEnum_ok true pkg w e (s1, JavaNames.register pkg w.2 (.enum e.name)) hi hj).2 ⟨h1 e List.mem_cons_self, rfl, h3, rfl⟩]
        exact (javaEnums_ok pkg es _ w' n1 n2).2 ⟨fun x hx => h1 x (List.mem_cons_of_mem _ hx), h2, h2'⟩

theorem ftNames_cpp (es : List EnumI) : ftNames (es.flatMap cppCmds) = es.map (·.name) := by
  induction es with
  | nil => rfl
  | cons e es ih => rw [List.flatMap_cons, ftNames_append, ih]; rfl

theorem ftNames_java (es : List EnumI) : ftNames (es.flatMap javaCmds) = es.map (·.name) := by
  induction es with
  | nil => rfl
  | cons e es ih => rw [List.flatMap_cons, ftNames_append, ih]; rfl

theorem run_exists (st : St) (h : Inv st) (cs : List Cmd) :
    (∃ st', run st cs = .ok st') ↔ (∀ n ∈ ftNames cs, st.fts.findByName n = none) ∧ (ftNames cs).Nodup := by
  rcases run_spec cs h with ⟨h1, st', h2, _⟩ | ⟨h1, h2⟩
  · exact ⟨fun _ => h1, fun _ => ⟨st', h2⟩⟩
  · refine ⟨fun ⟨st', h3⟩ => ?_, fun h3 => absurd h3 h1⟩
    rw [h2] at h3; cases h3

theorem find_app {l m : List Cmd} {p : Cmd → Bool} {x : Cmd} (h : l.find? p = some x) : (l ++ m).find? p = some x := by
  rw [List.find?_append, h]; rfl

theorem find_cpp (e : EnumI) (dir : Select.Dir) : (cppCmds e).find? (fun c => decide (stdKey dir c = some e.name)) =
    some (.ftype e.src [] e.name [cppModule e] (some ⟨key e.name, some (u32, cppInto e)⟩) (some ⟨key e.name, some (u32, cppFrom)⟩)) := by
  have : (key e.name).name = e.name := rfl
  cases dir <;> simp [cppCmds, cppTypeCmds, cppFtCmds, stdKey, this]

theorem find_java (e : EnumI) (dir : Select.Dir) : (javaCmds e).find? (fun c => decide (stdKey dir c = some e.name)) =
    some (.ftype e.src [] e.name [] (some ⟨key e.name, some (jint, javaInto e)⟩) (some ⟨key e.name, some (jint, javaFrom)⟩)) := by
  have : (key e.name).name = e.name := rfl
  cases dir <;> simp [javaCmds, javaTypeCmds, javaFtCmds, stdKey, this]

theorem run_chain {st s st' : St} {l m : List Cmd} (h1 : run st l = .ok s) (h2 : run s m = .ok st') : run st (l ++ m) = .ok st' := by
  rw [run_append, h1]; exact h2

/-! ## C79 -/

/-- C++: enums declared one after the other are accepted exactly if each has fewer than 2³²-1 items, no foreign type has one of their
names and their names differ from each other. -/
theorem C79_cpp_accepted (st : St) (h : Inv st) (es : List EnumI) :
    (∃ st', cppEnums st es = .ok st') ↔ (∀ e ∈ es, e.items.length < 2 ^ 32 - 1) ∧ (∀ e ∈ es, st.fts.findByName e.name = none) ∧
      (es.map (·.name)).Nodup := by
  have h1 := run_exists st h (es.flatMap cppCmds)
  rw [ftNames_cpp] at h1
  simp only [List.mem_map, forall_exists_index, and_imp, forall_apply_eq_imp_iff₂] at h1
  rw [← h1]
  constructor
  · rintro ⟨st', hr⟩
    have := (cppEnums_ok es st st').1 hr
    exact ⟨this.1, st', this.2⟩
  · rintro ⟨h2, st', h3⟩
    exact ⟨st', (cppEnums_ok es st st').2 ⟨h2, h3⟩⟩

/-- Java: the same with fewer than 2³¹-1 items, if the type `jint` is known (it comes from the library that is always merged). -/
theorem C79_java_accepted (pkg : Text) (w : St × SigMap) (h : Inv w.1) (hj : w.1.tm.names (lit "jint") ≠ none) (es : List EnumI) :
    (∃ w', javaEnums pkg w es = .ok w') ↔ (∀ e ∈ es, e.items.length < 2 ^ 31 - 1) ∧ (∀ e ∈ es, w.1.fts.findByName e.name = none) ∧
      (es.map (·.name)).Nodup := by
  have h1 := run_exists w.1 h (es.flatMap javaCmds)
  rw [ftNames_java] at h1
  simp only [List.mem_map, forall_exists_index, and_imp, forall_apply_eq_imp_iff₂] at h1
  rw [← h1]
  constructor
  · rintro ⟨w', hr⟩
    have := (javaEnums_ok pkg es w w' h hj).1 hr
    exact ⟨this.1, w'.1, this.2.1⟩
  · rintro ⟨h2, st', h3⟩
    exact ⟨(st', _), (javaEnums_ok pkg es w (st', _) h hj).2 ⟨h2, h3, rfl⟩⟩

/-- C++: once the enum is generated, and whatever is registered after it, its Rust type is used as the C++ enum `Name` of header
`Name.hpp` in both directions; the number travels as `u32` and is cast to and from the enum on the C++ side. -/
theorem C79_cpp_lookup (P : Graph.PopFn) (st s st' : St) (h : Inv st) (e : EnumI) (hr : cppEnum true st e = .ok s) (later : List Cmd)
    (hl : run s later = .ok st') (hu : Unclaimed st e.name) :
    (∃ ft, chosen P st' true e.name = some ft ∧ ft.name.display = e.name ∧ ft.provided = [lit "\"" ++ e.name ++ lit ".hpp\""] ∧
      Goes st' ft.into e.name (lit "u32") (lit "static_cast<" ++ e.name ++ lit ">({from_var})")) ∧
    (∃ ft, chosen P st' false e.name = some ft ∧ ft.name.display = e.name ∧ ft.provided = [lit "\"" ++ e.name ++ lit ".hpp\""] ∧
      Goes st' ft.frm e.name (lit "u32") (lit "static_cast<uint32_t>({from_var})")) := by
  have hrun := run_chain ((cppEnum_ok true st e s).1 hr).2.2 hl
  have c1 : cppInto e = lit "static_cast<" ++ e.name ++ lit ">({from_var})" := by
    have : lit ">(" ++ (fv ++ lit ")") = lit ">({from_var})" := by unfold fv lit; decide
    simp only [cppInto, List.append_assoc, this]
  have c2 : cppFrom = lit "static_cast<uint32_t>({from_var})" := by unfold cppFrom fv lit; decide
  rw [← c1, ← c2]
  refine ⟨lookup_goes P h hrun true e.name (fun i hi => hu i hi true) rfl (find_app (find_cpp e true)),
    lookup_goes P h hrun false e.name (fun i hi => hu i hi false) rfl (find_app (find_cpp e false))⟩

/-- Java: the number travels as `jint` and is turned into a constant of the Java enum by `fromInt` and back by `getValue`. -/
theorem C79_java_lookup (P : Graph.PopFn) (pkg : Text) (w w' : St × SigMap) (st' : St) (h : Inv w.1)
    (hj : w.1.tm.names (lit "jint") ≠ none) (e : EnumI) (hr : javaEnum true pkg w e = .ok w') (later : List Cmd)
    (hl : run w'.1 later = .ok st') (hu : Unclaimed w.1 e.name) :
    (∃ ft, chosen P st' true e.name = some ft ∧ ft.name.display = e.name ∧ ft.provided = [] ∧
      Goes st' ft.into e.name (lit "jint") (lit "        " ++ e.name ++ lit " {to_var} = " ++ e.name ++ lit ".fromInt({from_var});")) ∧
    (∃ ft, chosen P st' false e.name = some ft ∧ ft.name.display = e.name ∧ ft.provided = [] ∧
      Goes st' ft.frm e.name (lit "jint") (lit "        int {to_var} = {from_var}.getValue();")) := by
  have hrun := run_chain ((javaEnum_ok true pkg w e w' h hj).1 hr).2.2.1 hl
  have c1 : javaInto e = lit "        " ++ e.name ++ lit " {to_var} = " ++ e.name ++ lit ".fromInt({from_var});" := by
    have h1 : lit ".fromInt(" ++ (fv ++ lit ");") = lit ".fromInt({from_var});" := by unfold fv lit; decide
    have h2 : ∀ x, lit " " ++ (tv ++ (lit " = " ++ x)) = lit " {to_var} = " ++ x := by
      intro x
      have : lit " " ++ (tv ++ lit " = ") = lit " {to_var} = " := by unfold tv lit; decide
      rw [← this]; simp only [List.append_assoc]
    simp only [javaInto, List.append_assoc, h1, h2]
  have c2 : javaFrom = lit "        int {to_var} = {from_var}.getValue();" := by unfold javaFrom tv fv lit; decide
  rw [← c1, ← c2]
  refine ⟨lookup_goes P h hrun true e.name (fun i hi => hu i hi true) rfl (find_app (find_java e true)),
    lookup_goes P h hrun false e.name (fun i hi => hu i hi false) rfl (find_app (find_java e false))⟩

/-- A type first named by the enum carries exactly the trait that lets it take part in the conversions of the library, and keeps it. -/
theorem C79_traits (st s st' : St) (h : Inv st) (e : EnumI) (hn : st.tm.names e.name = none) (later : List Cmd)
    (hl : run s later = .ok st') :
    (cppEnum true st e = .ok s → info st' e.name = some ⟨e.name, [lit "SwigForeignEnum"]⟩) ∧
    (∀ pkg t t', st.tm.names (lit "jint") ≠ none → javaEnum true pkg (st, t) e = .ok (s, t') →
      info st' e.name = some ⟨e.name, [lit "SwigForeignCLikeEnum"]⟩) := by
  constructor
  · intro hr
    have hrun : run st ([] ++ .alloc (key e.name) [lit "SwigForeignEnum"] :: (cppFtCmds e ++ later)) = .ok st' :=
      run_chain (l := cppCmds e) ((cppEnum_ok true st e s).1 hr).2.2 hl
    exact run_traits h [] _ (key e.name) [lit "SwigForeignEnum"] hrun hn (by simp)
  · intro pkg t t' hj hr
    have hrun : run st ([] ++ .alloc (key e.name) [lit "SwigForeignCLikeEnum"] :: (javaFtCmds e ++ later)) = .ok st' :=
      run_chain (l := javaCmds e) ((javaEnum_ok true pkg (st, t) e (s, t') h hj).1 hr).2.2.1 hl
    exact run_traits h [] _ (key e.name) [lit "SwigForeignCLikeEnum"] hrun hn (by simp)

/-- Registration of an enum leaves everything else alone. -/
theorem C79_frame (st s : St) (h : Inv st) (e : EnumI) :
    (cppEnum true st e = .ok s → Inv s ∧ st.fts.ftypes <+: s.fts.ftypes ∧ s.fts.ftypes.length = st.fts.ftypes.length + 1 ∧
      (∀ n i, st.tm.names n = some i → s.tm.names n = some i) ∧ (∀ n r, info st n = some r → info s n = some r) ∧
      (∀ x y c, HasRule s.tm x y c ↔ HasRule st.tm x y c)) ∧
    (∀ pkg t t', st.tm.names (lit "jint") ≠ none → javaEnum true pkg (st, t) e = .ok (s, t') →
      Inv s ∧ st.fts.ftypes <+: s.fts.ftypes ∧ s.fts.ftypes.length = st.fts.ftypes.length + 1 ∧
      (∀ n i, st.tm.names n = some i → s.tm.names n = some i) ∧ (∀ n r, info st n = some r → info s n = some r) ∧
      (∀ x y c, (x, y) ≠ (e.name, lit "jobject") → (HasRule s.tm x y c ↔ HasRule st.tm x y c))) := by
  constructor
  · intro hr
    have hd := run_done h ((cppEnum_ok true st e s).1 hr).2.2
    refine ⟨hd.inv, ⟨_, hd.fts.symm⟩, by rw [hd.fts, List.length_append]; rfl, hd.ext.names, fun n r hi => hd.ext.info h hi, fun x y c => ?_⟩
    exact hd.rules x y c
  · intro pkg t t' hj hr
    have hd := run_done h ((javaEnum_ok true pkg (st, t) e (s, t') h hj).1 hr).2.2.1
    refine ⟨hd.inv, ⟨_, hd.fts.symm⟩, by rw [hd.fts, List.length_append]; rfl, hd.ext.names, fun n r hi => hd.ext.info h hi, fun x y c hx => ?_⟩
    rw [hd.rules, over_other]
    intro w hm
    have hm' : (x, y, w) ∈ [((key e.name).name, jobject.name, javaObj)] := hm
    simp only [List.mem_singleton, Prod.mk.injEq] at hm'
    exact hx (by rw [hm'.1, hm'.2.1]; rfl)

/-- Java callbacks: a value of the enum is handed to Java as the object that `SwigFrom` for `jobject` makes of it, and `Name` has the
signature `Lpackage.Name;` from then on; other signatures stay. -/
theorem C79_java_callbacks (pkg : Text) (w w' : St × SigMap) (h : Inv w.1) (hj : w.1.tm.names (lit "jint") ≠ none) (e : EnumI)
    (hr : javaEnum true pkg w e = .ok w') :
    (∀ c, HasRule w'.1.tm e.name (lit "jobject") c ↔ c = lit "let mut {to_var}: jobject = <jobject>::swig_from({from_var}, env);") ∧
    SigMap.get w'.2 e.name = some (lit "L" ++ pkg ++ lit "." ++ e.name ++ lit ";") ∧
    (∀ n, n ≠ e.name → SigMap.get w'.2 n = SigMap.get w.2 n) := by
  have ho := (javaEnum_ok true pkg w e w' h hj).1 hr
  have hd := run_done h ho.2.2.1
  have c1 : javaObj = lit "let mut {to_var}: jobject = <jobject>::swig_from({from_var}, env);" := by
    unfold javaObj tv fv lit; decide
  refine ⟨fun c => ?_, ?_, fun n hn => ?_⟩
  · rw [hd.rules, ← c1]
    refine over_mem _ (rulesOf (javaCmds e)) e.name (lit "jobject") javaObj List.mem_cons_self ?_ c
    intro c' hc'
    have hm : (e.name, lit "jobject", c') ∈ [((key e.name).name, jobject.name, javaObj)] := hc'
    simp only [List.mem_singleton, Prod.mk.injEq] at hm
    exact hm.2.2
  · rw [ho.2.2.2]
    have : lit "L" ++ pkg ++ lit "." ++ e.name ++ lit ";" = 'L' :: JavaNames.classFullName pkg e.name ++ ";".toList := by
      unfold lit JavaNames.classFullName; simp
    rw [this]
    simp only [JavaNames.register, SigMap.get, SigMap.insert, List.lookup_cons, beq_self_eq_true]
  · rw [ho.2.2.2]
    have : (n == e.name) = false := by simpa using hn
    simp only [JavaNames.register, SigMap.get, SigMap.insert, List.lookup_cons, this]

/-- **Finding.**  If the Rust type of the enum was mentioned before (by a conversion rule or by a class), it keeps the traits it had:
without `SwigForeignEnum` the generic conversions of the library do not apply to it although the enum is accepted. -/
theorem C79_finding_mentioned_before (st s : St) (h : Inv st) (e : EnumI) (r : RInfo) (hi : info st e.name = some r)
    (hno : lit "SwigForeignEnum" ∉ r.traits) (hr : cppEnum true st e = .ok s) :
    ∃ r', info s e.name = some r' ∧ lit "SwigForeignEnum" ∉ r'.traits :=
  ⟨r, run_keeps_info h ((cppEnum_ok true st e s).1 hr).2.2 hi, hno⟩

/-- **Finding.**  An item declared before the enum cannot use it: the enum's type is not in the map, so no foreign type is found for it. -/
theorem C79_finding_declared_later (P : Graph.PopFn) (st : St) (e : EnumI) (hn : st.tm.names e.name = none) (dir : Select.Dir) :
    chosen P st dir e.name = none := by
  unfold chosen; rw [hn]; rfl

/-- **Finding.**  A class or another enum of the same name is detected only after the code and the header of the enum were generated and
written (over the header of the class): the error is that of the registration, not that of the code. -/
theorem C79_finding_refused_late (st : St) (h : Inv st) (e : EnumI) (hs : e.items.length < 2 ^ 32 - 1)
    (hd : st.fts.findByName e.name ≠ none) : cppEnum true st e = .error (.register .duplicate) ∧ cppEnum false st e = .error .code := by
  have h1 : ∃ s1, run st (cppTypeCmds e) = .ok s1 := by
    rw [run_exists st h]; simp [cppTypeCmds, ftNames]
  obtain ⟨s1, h1⟩ := h1
  have d1 := run_done h h1
  have h2 : run s1 (cppFtCmds e) = .error .duplicate := by
    rcases run_spec (cppFtCmds e) d1.inv with ⟨⟨h3, _⟩, _⟩ | ⟨_, h3⟩
    · exfalso
      have h4 : s1.fts.findByName e.name = none := h3 e.name (by simp [cppFtCmds, ftNames])
      exact hd ((d1.fnames e.name).1 h4).1
    · exact h3
  have h3 : reg st (cppTypeCmds e) = .ok s1 := (reg_ok _ _ _).2 h1
  constructor
  · have h4 : reg s1 (cppFtCmds e) = .error (.register .duplicate) := by unfold reg; rw [h2]
    simp only [cppEnum, if_pos ((cpp_acc e.items).2 hs), h3, bind, Except.bind, if_true, h4]
  · simp only [cppEnum, if_pos ((cpp_acc e.items).2 hs), h3, bind, Except.bind]; rfl

/-! ### Examples -/

/-- An empty type map. -/
def st0 : St := ⟨TMap.empty, FTypes.Storage.empty⟩

theorem st0_inv : Inv st0 := ⟨TMap.ok_empty, FTypes.consistent_empty, by intro ft hft; cases hft⟩

/-- `foreign_enum!(enum Color { RED = Color::Red, BLUE = Color::Blue })` -/
def color : EnumI := ⟨lit "Color", [⟨lit "RED", lit "Color::Red"⟩, ⟨lit "BLUE", lit "Color::Blue"⟩], some 1⟩
/-- Another one. -/
def size : EnumI := ⟨lit "Size", [⟨lit "BIG", lit "Size::Big"⟩], some 2⟩

/-- A type map that knows `jint`. -/
def st1 : St := (st0.node jint []).1
theorem st1_inv : Inv st1 := node_inv st0_inv jint []
theorem st1_jint : st1.tm.names (lit "jint") ≠ none := by
  rw [show st1.tm.names (lit "jint") = _ from node_names st0 jint []]; simp

example : ∃ st', cppEnums st0 [color, size] = .ok st' :=
  (C79_cpp_accepted st0 st0_inv [color, size]).2 ⟨by decide, by intro e _; rfl, by decide +kernel⟩
example : ¬ ∃ st', cppEnums st0 [color, size, color] = .ok st' := fun h =>
  absurd ((C79_cpp_accepted st0 st0_inv [color, size, color]).1 h).2.2 (by decide +kernel)
example : ∃ w', javaEnums (lit "org.x") (st1, []) [color, size] = .ok w' :=
  (C79_java_accepted (lit "org.x") (st1, []) st1_inv st1_jint [color, size]).2 ⟨by decide, by intro e _; rfl, by decide +kernel⟩

theorem two (st st' : St) (a b : EnumI) (h : cppEnums st [a, b] = .ok st') :
    ∃ s, cppEnum true st a = .ok s ∧ cppEnums s [b] = .ok st' := by
  have h' : ((cppEnum true st a).bind fun s => cppEnums s [b]) = .ok st' := h
  cases h1 : cppEnum true st a with
  | error x => rw [h1] at h'; cases h'
  | ok s => rw [h1] at h'; exact ⟨s, rfl, h'⟩

theorem one (st st' : St) (a : EnumI) (h : cppEnums st [a] = .ok st') : cppEnum true st a = .ok st' := by
  have h' := ((cppEnums_ok [a] st st').1 h)
  have h2 := h'.2
  rw [show [a].flatMap cppCmds = cppCmds a by simp] at h2
  exact (cppEnum_ok true st a st').2 ⟨h'.1 a (by simp), rfl, h2⟩

theorem st0_unclaimed (n : Text) : Unclaimed st0 n := by
  intro i hi; cases hi

/-- All hypotheses of the look-up theorems: `Color` in an empty type map, `Size` after it. -/
example (P : Graph.PopFn) : ∃ s st', cppEnum true st0 color = .ok s ∧ run s (cppCmds size) = .ok st' ∧
    ∃ ft, chosen P st' true color.name = some ft ∧ ft.name.display = color.name := by
  obtain ⟨st', h⟩ := (C79_cpp_accepted st0 st0_inv [color, size]).2 ⟨by decide, by intro e _; rfl, by decide +kernel⟩
  obtain ⟨s, h1, h2⟩ := two st0 st' color size h
  have h3 := ((cppEnum_ok true s size st').1 (one s st' size h2)).2.2
  obtain ⟨⟨ft, h4, h5, _⟩, _⟩ := C79_cpp_lookup P st0 s st' st0_inv color h1 (cppCmds size) h3 (st0_unclaimed _)
  exact ⟨s, st', h1, h3, ft, h4, h5⟩

/-- The first finding is not vacuous: a rule for `Color` came first. -/
example : ∃ s, cppEnum true (st0.node (key (lit "Color")) []).1 color = .ok s ∧
    ∃ r', info s color.name = some r' ∧ lit "SwigForeignEnum" ∉ r'.traits := by
  have hi := node_inv st0_inv (key (lit "Color")) []
  have h0 : ∃ s, cppEnums (st0.node (key (lit "Color")) []).1 [color] = .ok s :=
    (C79_cpp_accepted _ hi [color]).2 ⟨by decide, by intro e _; rfl, by decide +kernel⟩
  obtain ⟨s, hs⟩ := h0
  have h2 := one _ s color hs
  exact ⟨s, h2, C79_finding_mentioned_before _ s hi color ⟨lit "Color", []⟩ (by decide +kernel) (by simp) h2⟩

end Flapi.EnumRegister
