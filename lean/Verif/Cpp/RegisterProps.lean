import Verif.Cpp.Register
import Verif.Lang.RegisterProps
/-! # C++: which types a registered class can be used as (C63) -/
namespace Flapi.CppRegister

open Flapi.Exported (lit)
open Flapi.Register
open Flapi.TMap (HasRule)
open Flapi.FTypes (FType FRule)

/-! ## Specification -/

/-- The Rust types through which the objects of a class are used. -/
def tys (d : Desc) : List Text :=
  [d.thisTy, d.inner, d.selfTy, refOf d.inner, mutRefOf d.inner, refOf d.selfTy, mutRefOf d.selfTy, mutPtrOf d.inner]

/-- Different classes export different Rust types. -/
def Separate (cs : List Class) : Prop :=
  cs.Pairwise fun c c' => ∀ d d', c.desc = some d → c'.desc = some d' → ∀ t ∈ tys d, t ∉ tys d'

/-- The full C++ names a class occupies. -/
def cppNames (c : Class) : List Text :=
  match c.desc with
  | none => []
  | some d => [c.name ++ lit "Opaque *", lit "const " ++ c.name ++ lit "Opaque *", c.name, lit "const " ++ c.name ++ lit " &"] ++
      (if lit "PlainClass" ∈ c.derives then [] else [c.name ++ lit "Ref"]) ++ [c.name ++ lit " &"] ++
      (if d.selfTy ≠ d.thisTy then [lit "/**/" ++ c.name ++ lit " &", lit "/**/const " ++ c.name ++ lit " &"] else [])

/-- The requirements on a class that derives `SmartPtrCopy`: it is held by `Rc` or `Arc` and has no method called `clone`. -/
def CopyOk (c : Class) : Prop :=
  ∀ d, c.desc = some d → lit "SmartPtrCopy" ∈ c.derives →
    c.cloneMethod = false ∧ ∃ p, d.smart.map (·.1) = some p ∧ (p = lit "Rc" ∨ p = lit "Arc")

/-- A class is exported with objects. -/
def HasObjects (c : Class) : Prop := c.desc ≠ none

/-- Two classes cannot be exported together: they have the same name, or one is called like the reference type of the other. -/
def Clash (a b : Class) : Prop :=
  HasObjects a ∧ HasObjects b ∧ (a.name = b.name ∨ (lit "PlainClass" ∉ a.derives ∧ b.name = a.name ++ lit "Ref") ∨
    (lit "PlainClass" ∉ b.derives ∧ a.name = b.name ++ lit "Ref"))

/-- Everything one class registers. -/
def classCmds (c : Class) : List Cmd :=
  match c.desc with
  | some d => .alloc (key d.thisTy) c.traits :: (selfTypeCmds c d ++ [.alloc (key c.selfTyAsTy) []])
  | none => [.alloc (key c.selfTyAsTy) []]

/-! ## Lemmas -/

theorem check_ok (c : Class) (d : Desc) (hd : c.desc = some d) : check c d = .ok () ↔ CopyOk c := by
  unfold check CopyOk Class.has
  by_cases h : lit "SmartPtrCopy" ∈ c.derives
  · simp only [List.contains_iff_mem, h, if_true]
    have key : d.isShared = true ↔ ∃ p, d.smart.map (·.1) = some p ∧ (p = lit "Rc" ∨ p = lit "Arc") := by
      unfold Desc.isShared
      cases d.smart with
      | none => simp
      | some x => simp
    constructor
    · intro he d' hd' _
      rw [hd] at hd'; cases hd'
      split at he
      · rename_i h1
        split at he
        · cases he
        · rename_i h2; exact ⟨by simpa using h2, key.1 h1⟩
      · cases he
    · intro he
      obtain ⟨h1, h2⟩ := he d hd trivial
      rw [if_pos (key.2 h2), h1]; rfl
  · simp only [List.contains_iff_mem, h, if_false, false_implies, implies_true]

theorem registerClass_eq (st : St) (c : Class) (st' : St) :
    registerClass st c = .ok st' ↔ CopyOk c ∧ run st (classCmds c) = .ok st' := by
  cases hd : c.desc with
  | none =>
    have : CopyOk c := by intro d h; rw [hd] at h; cases h
    simp only [this, registerClass, classCmds, hd, true_and]
  | some d =>
    rw [← check_ok c d hd]
    have h1 : registerClass st c = (do let st1 ← run st [.alloc (key d.thisTy) c.traits]; check c d; run st1 (selfTypeCmds c d ++ [.alloc (key c.selfTyAsTy) []])) := by
      simp only [registerClass, hd]
    have h2 : classCmds c = .alloc (key d.thisTy) c.traits :: (selfTypeCmds c d ++ [.alloc (key c.selfTyAsTy) []]) := by
      simp only [classCmds, hd]
    rw [h1, h2]
    exact run_checked st (key d.thisTy) c.traits (check c d) (selfTypeCmds c d ++ [.alloc (key c.selfTyAsTy) []]) st'

theorem registerAll_eq : ∀ (cs : List Class) (st st' : St),
    registerAll st cs = .ok st' ↔ (∀ c ∈ cs, CopyOk c) ∧ run st (cs.flatMap classCmds) = .ok st'
  | [], st, st' => by simp [registerAll, run]
  | c :: cs, st, st' => by
    show ((registerClass st c).bind fun s => registerAll s cs) = _ ↔ _
    rw [List.flatMap_cons, run_append]
    constructor
    · intro h
      cases h1 : registerClass st c with
      | error e => rw [h1] at h; cases h
      | ok s1 =>
        rw [h1] at h
        have h2 := (registerAll_eq cs s1 st').1 h
        have h3 := (registerClass_eq st c s1).1 h1
        refine ⟨fun x hx => ?_, by rw [h3.2]; exact h2.2⟩
        rcases List.mem_cons.1 hx with rfl | hx
        · exact h3.1
        · exact h2.1 x hx
    · rintro ⟨h1, h2⟩
      cases h3 : run st (classCmds c) with
      | error e => rw [h3] at h2; cases h2
      | ok s1 =>
        rw [h3] at h2
        have h4 := (registerClass_eq st c s1).2 ⟨h1 c List.mem_cons_self, h3⟩
        rw [h4]
        exact (registerAll_eq cs s1 st').2 ⟨fun x hx => h1 x (List.mem_cons_of_mem _ hx), h2⟩

theorem ftNames_class (c : Class) : ftNames (classCmds c) = cppNames c := by
  unfold classCmds cppNames
  cases hd : c.desc with
  | none => rfl
  | some d =>
    have hp : c.has "PlainClass" = decide (lit "PlainClass" ∈ c.derives) := by simp [Class.has]
    simp only [selfTypeCmds, mainCmds, pointerCmds, ruleCmds, opaqueTy, hp]
    have h3 : lit "/**/const " = lit "/**/" ++ lit "const " := by unfold lit; decide
    by_cases h1 : lit "PlainClass" ∈ c.derives <;> by_cases h2 : d.selfTy = d.thisTy <;>
      simp [h1, h2, ftNames, List.append_assoc, ← lit_append] <;> simp only [h3, List.append_assoc]

theorem ftNames_all (cs : List Class) : ftNames (cs.flatMap classCmds) = cs.flatMap cppNames := by
  induction cs with
  | nil => rfl
  | cons c cs ih => rw [List.flatMap_cons, List.flatMap_cons, ftNames_append, ftNames_class, ih]

theorem nul_void (d : Desc) : Char.ofNat 0 ∈ (voidPtr d).name := by simp [Key.name, voidPtr, FTypes.makeUniqueIfNeed, FTypes.makeUnique]

theorem nul_const (d : Desc) : Char.ofNat 0 ∈ (constPtr d).name := by simp [Key.name, constPtr, FTypes.makeUniqueIfNeed, FTypes.makeUnique]

theorem tys_noNul {d : Desc} (h : OrdinaryDesc d) : ∀ t ∈ tys d, Char.ofNat 0 ∉ t := by
  intro t ht
  simp only [tys, List.mem_cons, List.not_mem_nil, or_false] at ht
  rcases ht with rfl | rfl | rfl | rfl | rfl | rfl | rfl | rfl
  · exact h.this.noNul
  · exact h.inner.noNul
  · exact h.self.noNul
  · exact refOf_noNul h.inner.noNul
  · exact mutRefOf_noNul h.inner.noNul
  · exact refOf_noNul h.self.noNul
  · exact mutRefOf_noNul h.self.noNul
  · exact mutPtrOf_noNul h.inner.noNul

/-- Types mentioned by the registration of a class. -/
theorem classKeys (c : Class) (x : Cmd) (hx : x ∈ classCmds c) (k : Key) (hk : k ∈ x.keys) :
    (∃ d, c.desc = some d ∧ (k = voidPtr d ∨ k = constPtr d ∨ ∃ t ∈ tys d, k = key t)) ∨
    (c.desc = none ∧ k = key (lit "()")) := by
  unfold classCmds at hx
  cases hd : c.desc with
  | none =>
    rw [hd] at hx
    simp only [List.mem_singleton] at hx
    subst hx
    simp only [Cmd.keys, List.mem_singleton] at hk
    exact Or.inr ⟨rfl, by rw [hk]; simp [Class.selfTyAsTy, hd]⟩
  | some d =>
    left
    rw [hd] at hx
    refine ⟨d, rfl, ?_⟩
    have hs : c.selfTyAsTy = d.selfTy := by simp [Class.selfTyAsTy, hd]
    have hiff : ∀ t, t ∈ tys d ↔ t = d.thisTy ∨ t = d.inner ∨ t = d.selfTy ∨ t = refOf d.inner ∨ t = mutRefOf d.inner ∨
        t = refOf d.selfTy ∨ t = mutRefOf d.selfTy ∨ t = mutPtrOf d.inner := by
      intro t; simp [tys]
    have h0 : ∀ l : List Cmd, (∀ x ∈ l, ∀ k ∈ x.keys, k ∈ voidPtr d :: constPtr d :: (tys d).map key) →
        ∀ x ∈ l, ∀ k ∈ x.keys, k = voidPtr d ∨ k = constPtr d ∨ ∃ t ∈ tys d, k = key t := by
      intro l h x hx k hk
      have := h x hx k hk
      simp only [List.mem_cons, List.mem_map] at this
      rcases this with h | h | ⟨t, h1, h2⟩
      · exact Or.inl h
      · exact Or.inr (Or.inl h)
      · exact Or.inr (Or.inr ⟨t, h1, h2.symm⟩)
    refine h0 _ ?_ x hx k hk
    rw [hs]
    clear hx hk x k h0 hiff hs hd
    simp only [selfTypeCmds, mainCmds, pointerCmds, ruleCmds]
    by_cases h1 : c.has "PlainClass" = true <;> by_cases h2 : d.selfTy = d.thisTy <;>
      simp [h1, h2, Cmd.keys, FRuleN.keys, tys]

theorem rulesOf_class (c : Class) (d : Desc) (hd : c.desc = some d) : rulesOf (classCmds c) = rulesOf (ruleCmds d) := by
  simp only [classCmds, hd, selfTypeCmds, mainCmds, pointerCmds]
  by_cases h1 : c.has "PlainClass" = true <;> by_cases h2 : d.selfTy = d.thisTy <;>
    simp [h1, h2, rulesOf_append, rulesOf]

/-- In a class with other types no foreign type stands for a given type. -/
theorem other_class {l : List Class} {d : Desc} (hs : ∀ c' ∈ l, ∀ d', c'.desc = some d' → ∀ t ∈ tys d', t ∉ tys d)
    (dir : Select.Dir) (n : Text) (hn : (n ∈ tys d ∧ Char.ofNat 0 ∉ n) ) :
    ∀ c' ∈ l, ∀ y ∈ classCmds c', decide (stdKey dir y = some n) = false := by
  intro c' hc' y hy
  simp only [decide_eq_false_iff_not]
  intro he
  obtain ⟨k, hk, hkn⟩ := stdKey_key he
  rcases classKeys c' y hy k hk with ⟨d', hd', h⟩ | ⟨hd', h⟩
  · have hsep := hs c' hc' d' hd'
    rcases h with rfl | rfl | ⟨t, ht, rfl⟩
    · exact hn.2 (hkn ▸ nul_void d')
    · exact hn.2 (hkn ▸ nul_const d')
    · have : t = n := hkn
      subst this
      exact hsep t ht hn.1
  · simp only [classCmds, hd', List.mem_singleton] at hy
    subst hy; cases he

/-! ## C63 -/

/-- Registration succeeds exactly if the `SmartPtrCopy` classes are held by `Rc` or `Arc` and have no `clone` method, and the C++ names
the classes occupy are free and different from each other. -/
theorem C63_accepted (st : St) (h : Inv st) (cs : List Class) :
    (∃ st', registerAll st cs = .ok st') ↔
      (∀ c ∈ cs, CopyOk c) ∧ (∀ n ∈ cs.flatMap cppNames, st.fts.findByName n = none) ∧ (cs.flatMap cppNames).Nodup := by
  rw [← ftNames_all]
  constructor
  · rintro ⟨st', hr⟩
    obtain ⟨h1, h2⟩ := (registerAll_eq cs st st').1 hr
    refine ⟨h1, ?_⟩
    rcases run_spec (cs.flatMap classCmds) h with ⟨h3, _⟩ | ⟨_, h4⟩
    · exact h3
    · rw [h4] at h2; cases h2
  · rintro ⟨h1, h2⟩
    rcases run_spec (cs.flatMap classCmds) h with ⟨_, st', h4, _⟩ | ⟨h3, _⟩
    · exact ⟨st', (registerAll_eq cs st st').2 ⟨h1, h4⟩⟩
    · exact absurd h2 h3

/-- What earlier registrations made is left alone: all foreign types stay (new ones come after them), known types keep what is known
about them, and only conversions of the registered classes change. -/
theorem C63_frame (st st' : St) (h : Inv st) (cs : List Class) (hr : registerAll st cs = .ok st') :
    Inv st' ∧ st.fts.ftypes <+: st'.fts.ftypes ∧ (∀ n i, st.tm.names n = some i → st'.tm.names n = some i) ∧
    (∀ n r, info st n = some r → info st' n = some r) ∧
    (∀ x y w, (∀ c ∈ cs, ∀ d, c.desc = some d → x ≠ (voidPtr d).name ∧ x ≠ (constPtr d).name ∧ y ≠ (voidPtr d).name ∧
        y ≠ (constPtr d).name ∧ (x, y) ≠ (mutPtrOf d.inner, d.thisTy)) →
      (HasRule st'.tm x y w ↔ HasRule st.tm x y w)) := by
  have hrun := ((registerAll_eq cs st st').1 hr).2
  have hd := run_done h hrun
  refine ⟨hd.inv, ⟨_, hd.fts.symm⟩, hd.ext.names, fun n r hi => hd.ext.info h hi, fun x y w hx => ?_⟩
  rw [hd.rules, over_other]
  intro w' hm
  obtain ⟨c, hc, hm⟩ := (mem_rules_flat classCmds).1 hm
  cases hdd : c.desc with
  | none => simp only [classCmds, hdd] at hm; cases hm
  | some d =>
    obtain ⟨h1, h2, h3, h4, h5⟩ := hx c hc d hdd
    rw [rulesOf_class c d hdd] at hm
    simp only [ruleCmds, rulesOf, List.mem_cons, List.not_mem_nil, or_false, Prod.mk.injEq] at hm
    rcases hm with hm | hm | hm | hm | hm | hm
    · exact h2 hm.1
    · exact h1 hm.1
    · exact h1 hm.1
    · exact h5 (by rw [hm.1, hm.2.1]; rfl)
    · exact h3 hm.2.1
    · exact h4 hm.2.1

/-- Objects, references to them and references to the `self` type are used as the C++ types of the class: objects as `Name` in both
directions (the C++ object gives its pointer away when it is passed by value), references as `const Name &` and `Name &` when they are
passed to Rust, and shared references as `NameRef` when Rust returns them (unless the class derives `PlainClass`).  This holds for any
number of classes, as long as no earlier class and no older foreign type stands for these Rust types. -/
theorem C63_lookup (P : Graph.PopFn) (st st' : St) (h : Inv st) (l m : List Class) (c : Class)
    (hr : registerAll st (l ++ c :: m) = .ok st') (d : Desc) (hd : c.desc = some d) (ho : OrdinaryDesc d)
    (hs : ∀ c' ∈ l, ∀ d', c'.desc = some d' → ∀ t ∈ tys d', t ∉ tys d)
    (hold : ∀ t ∈ tys d, ∀ i, st.tm.names t = some i → ∀ dir, ∀ ft ∈ st.fts.ftypes, stands dir ft ≠ some i) :
    (∃ ft, chosen P st' true d.thisTy = some ft ∧ ft.name.display = c.name ∧ ft.provided = [lit "\"" ++ c.name ++ lit ".hpp\""] ∧
      Goes st' ft.into d.thisTy (voidPtr d).name (c.name ++ lit "(static_cast<" ++ c.name ++ lit "Opaque *>({from_var}))")) ∧
    (∃ ft, chosen P st' false d.thisTy = some ft ∧ ft.name.display = c.name ∧ ft.provided = [lit "\"" ++ c.name ++ lit ".hpp\""] ∧
      Goes st' ft.frm d.thisTy (voidPtr d).name (lit "{from_var}.release()")) ∧
    (∃ ft, chosen P st' false (refOf d.inner) = some ft ∧ ft.name.display = lit "const " ++ c.name ++ lit " &" ∧ ft.provided = [lit "\"" ++ c.name ++ lit ".hpp\""] ∧
      Goes st' ft.frm (refOf d.inner) (constPtr d).name (lit "static_cast<const " ++ c.name ++ lit "Opaque *>({from_var})")) ∧
    (∃ ft, chosen P st' false (mutRefOf d.inner) = some ft ∧ ft.name.display = c.name ++ lit " &" ∧ ft.provided = [lit "\"" ++ c.name ++ lit ".hpp\""] ∧
      Goes st' ft.frm (mutRefOf d.inner) (voidPtr d).name (lit "static_cast<" ++ c.name ++ lit "Opaque *>({from_var})")) ∧
    (lit "PlainClass" ∉ c.derives →
      ∃ ft, chosen P st' true (refOf d.inner) = some ft ∧ ft.name.display = c.name ++ lit "Ref" ∧ ft.provided = [lit "\"" ++ c.name ++ lit ".hpp\""] ∧
        Goes st' ft.into (refOf d.inner) (constPtr d).name
          (c.name ++ lit "Ref{ static_cast<const " ++ c.name ++ lit "Opaque *>({from_var}) }")) ∧
    (d.selfTy ≠ d.thisTy →
      (∃ ft, chosen P st' false (refOf d.selfTy) = some ft ∧ ft.name.display = lit "const " ++ c.name ++ lit " &" ∧ ft.provided = [lit "\"" ++ c.name ++ lit ".hpp\""] ∧
        Goes st' ft.frm (refOf d.selfTy) (constPtr d).name (lit "static_cast<const " ++ c.name ++ lit "Opaque *>({from_var})")) ∧
      (∃ ft, chosen P st' false (mutRefOf d.selfTy) = some ft ∧ ft.name.display = c.name ++ lit " &" ∧ ft.provided = [lit "\"" ++ c.name ++ lit ".hpp\""] ∧
        Goes st' ft.frm (mutRefOf d.selfTy) (voidPtr d).name (lit "static_cast<" ++ c.name ++ lit "Opaque *>({from_var})"))) := by
  have hrun := ((registerAll_eq _ st st').1 hr).2
  have hno := tys_noNul ho
  have nv : ∀ t ∈ tys d, (voidPtr d).name ≠ t := fun t ht he => hno t ht (he ▸ nul_void d)
  have nc : ∀ t ∈ tys d, (constPtr d).name ≠ t := fun t ht he => hno t ht (he ▸ nul_const d)
  have go : ∀ (dir : Select.Dir) (n : Text), n ∈ tys d → ∀ x, (classCmds c).find? (fun c => decide (stdKey dir c = some n)) = some x →
      ((l ++ c :: m).flatMap classCmds).find? (fun c => decide (stdKey dir c = some n)) = some x := by
    intro dir n hn x hx
    exact find_flat classCmds _ l m c x (other_class hs dir n ⟨hn, hno n hn⟩) hx
  have mT : d.thisTy ∈ tys d := by simp [tys]
  have mRU : refOf d.inner ∈ tys d := by simp [tys]
  have mMU : mutRefOf d.inner ∈ tys d := by simp [tys]
  have mRS : refOf d.selfTy ∈ tys d := by simp [tys]
  have mMS : mutRefOf d.selfTy ∈ tys d := by simp [tys]
  have f1 : fv ++ lit "))" = lit "{from_var}))" := by unfold fv Template.fromVar lit; decide
  have f2 : fv ++ lit ".release()" = lit "{from_var}.release()" := by unfold fv Template.fromVar lit; decide
  have f3 : fv ++ lit ")" = lit "{from_var})" := by unfold fv Template.fromVar lit; decide
  have f4 : fv ++ lit ") }" = lit "{from_var}) }" := by unfold fv Template.fromVar lit; decide
  have g1 : lit "Opaque" ++ (lit " *>(" ++ lit "{from_var}))") = lit "Opaque *>({from_var}))" := by unfold lit; decide
  have g2 : lit "Opaque" ++ (lit " *>(" ++ lit "{from_var})") = lit "Opaque *>({from_var})" := by unfold lit; decide
  have g3 : lit "Opaque" ++ (lit " *>(" ++ lit "{from_var}) }") = lit "Opaque *>({from_var}) }" := by unfold lit; decide
  have w1 : c.name ++ lit "(static_cast<" ++ c.name ++ lit "Opaque *>({from_var}))" = wrapOut c := by
    simp only [wrapOut, opaqueTy, List.append_assoc, f1, g1]
  have w2 : lit "{from_var}.release()" = releaseIn := f2.symm
  have w3 : lit "static_cast<const " ++ c.name ++ lit "Opaque *>({from_var})" = castConstIn c := by
    simp only [castConstIn, opaqueTy, List.append_assoc, f3, g2]
  have w4 : lit "static_cast<" ++ c.name ++ lit "Opaque *>({from_var})" = castIn c := by
    simp only [castIn, opaqueTy, List.append_assoc, f3, g2]
  have w5 : c.name ++ lit "Ref{ static_cast<const " ++ c.name ++ lit "Opaque *>({from_var}) }" = wrapRefOut c := by
    simp only [wrapRefOut, opaqueTy, List.append_assoc, f4, g3]
  have kname : ∀ t, (key t).name = t := fun _ => rfl
  have e1 : d.thisTy ≠ refOf d.inner := ho.this.neRef
  have e2 : d.thisTy ≠ mutRefOf d.inner := ho.this.neMutRef
  have e3 : d.thisTy ≠ refOf d.selfTy := ho.this.neRef
  have e4 : d.thisTy ≠ mutRefOf d.selfTy := ho.this.neMutRef
  have e5 : refOf d.inner ≠ mutRefOf d.inner := refOf_ne_mut ho.inner
  have e6 : refOf d.inner ≠ mutRefOf d.selfTy := refOf_ne_mut ho.inner
  have e7 : mutRefOf d.inner ≠ refOf d.selfTy := (refOf_ne_mut ho.self).symm
  have e8 : mutRefOf d.selfTy ≠ refOf d.selfTy := (refOf_ne_mut ho.self).symm
  rw [w1, w2, w3, w4, w5]
  have hp1 := go true _ mT (.ftype c.src [] c.name (hpp c) (some ⟨key d.thisTy, some (voidPtr d, wrapOut c)⟩) (some ⟨key d.thisTy, some (voidPtr d, releaseIn)⟩))
    (by simp [classCmds, hd, selfTypeCmds, mainCmds, pointerCmds, ruleCmds, stdKey, kname, nv _ mT, nc _ mT, -List.find?_append])
  have hp2 := go false _ mT (.ftype c.src [] c.name (hpp c) (some ⟨key d.thisTy, some (voidPtr d, wrapOut c)⟩) (some ⟨key d.thisTy, some (voidPtr d, releaseIn)⟩))
    (by simp [classCmds, hd, selfTypeCmds, mainCmds, pointerCmds, ruleCmds, stdKey, kname, nv _ mT, nc _ mT, -List.find?_append])
  have hp3 := go false _ mRU (.ftype c.src [] (lit "const " ++ c.name ++ lit " &") (hpp c) none (some ⟨key (refOf d.inner), some (constPtr d, castConstIn c)⟩))
    (by simp [classCmds, hd, selfTypeCmds, mainCmds, pointerCmds, ruleCmds, stdKey, kname, nv _ mRU, nc _ mRU, e1, -List.find?_append])
  have hp4 := go false _ mMU (.ftype c.src [] (c.name ++ lit " &") (hpp c) none (some ⟨key (mutRefOf d.inner), some (voidPtr d, castIn c)⟩))
    (by by_cases hp : c.has "PlainClass" = true <;>
      simp [classCmds, hd, selfTypeCmds, mainCmds, pointerCmds, ruleCmds, stdKey, kname, nv _ mMU, nc _ mMU, e2, e5, hp, -List.find?_append])
  refine ⟨lookup_goes P h hrun true d.thisTy (fun i hi => hold _ mT i hi true) rfl hp1,
    lookup_goes P h hrun false d.thisTy (fun i hi => hold _ mT i hi false) rfl hp2,
    lookup_goes P h hrun false _ (fun i hi => hold _ mRU i hi false) rfl hp3,
    lookup_goes P h hrun false _ (fun i hi => hold _ mMU i hi false) rfl hp4, fun hpl => ?_, fun hst => ⟨?_, ?_⟩⟩
  · have hp : c.has "PlainClass" = false := by simp [Class.has, hpl]
    have hp5 := go true _ mRU (.ftype c.src [] (c.name ++ lit "Ref") (hpp c) (some ⟨key (refOf d.inner), some (constPtr d, wrapRefOut c)⟩) none)
      (by simp [classCmds, hd, selfTypeCmds, mainCmds, pointerCmds, ruleCmds, stdKey, kname, nv _ mRU, nc _ mRU, e1, hp, -List.find?_append])
    exact lookup_goes P h hrun true _ (fun i hi => hold _ mRU i hi true) rfl hp5
  · by_cases hsu : d.selfTy = d.inner
    · rw [hsu]
      exact lookup_goes P h hrun false _ (fun i hi => hold _ mRU i hi false) rfl hp3
    · have hne : refOf d.inner ≠ refOf d.selfTy := fun he => hsu (refOf_inj.1 he).symm
      have hp6 := go false _ mRS (.ftype c.src (lit "/**/") (lit "const " ++ c.name ++ lit " &") (hpp c) none (some ⟨key (refOf d.selfTy), some (constPtr d, castConstIn c)⟩))
        (by by_cases hp : c.has "PlainClass" = true <;>
          simp [classCmds, hd, selfTypeCmds, mainCmds, pointerCmds, ruleCmds, stdKey, kname, nv _ mRS, nc _ mRS, e3, e7, e8, hne, hst, hp, -List.find?_append])
      exact lookup_goes P h hrun false _ (fun i hi => hold _ mRS i hi false) rfl hp6
  · by_cases hsu : d.selfTy = d.inner
    · rw [hsu]
      exact lookup_goes P h hrun false _ (fun i hi => hold _ mMU i hi false) rfl hp4
    · have hne : mutRefOf d.inner ≠ mutRefOf d.selfTy := fun he => hsu (mutRefOf_inj.1 he).symm
      have hp7 := go false _ mMS (.ftype c.src (lit "/**/") (c.name ++ lit " &") (hpp c) none (some ⟨key (mutRefOf d.selfTy), some (voidPtr d, castIn c)⟩))
        (by by_cases hp : c.has "PlainClass" = true <;>
          simp [classCmds, hd, selfTypeCmds, mainCmds, pointerCmds, ruleCmds, stdKey, kname, nv _ mMS, nc _ mMS, e4, e6, hne, hst, hp, -List.find?_append])
      exact lookup_goes P h hrun false _ (fun i hi => hold _ mMS i hi false) rfl hp7

theorem void_ne_const (d d' : Desc) : (voidPtr d).name ≠ (constPtr d').name := by
  intro h
  have := congrArg (fun t : Text => t[2]?) h
  unfold Key.name voidPtr constPtr FTypes.makeUniqueIfNeed FTypes.makeUnique lit at this
  simp at this

theorem void_inj {d d' : Desc} (h : (voidPtr d).name = (voidPtr d').name) : d.thisTy = d'.thisTy := by
  simpa [Key.name, voidPtr, FTypes.makeUniqueIfNeed, FTypes.makeUnique] using h

theorem const_inj {d d' : Desc} (h : (constPtr d).name = (constPtr d').name) : d.thisTy = d'.thisTy := by
  simpa [Key.name, constPtr, FTypes.makeUniqueIfNeed, FTypes.makeUnique] using h

/-- Two different classes of the list have no type in common. -/
theorem Separate.ne {l m : List Class} {c c' : Class} {d d' : Desc} (hs : Separate (l ++ c :: m)) (hc : c' ∈ l ∨ c' ∈ m)
    (hd : c.desc = some d) (hd' : c'.desc = some d') : ∀ t ∈ tys d, t ∉ tys d' := by
  rw [Separate, List.pairwise_append, List.pairwise_cons] at hs
  intro t ht ht'
  rcases hc with hc | hc
  · exact hs.2.2 c' hc c List.mem_cons_self d' d hd' hd t ht' ht
  · exact hs.2.1.1 c' hc d d' hd hd' t ht ht'

/-- On the C side an object is `NameOpaque *`, a borrowed one `const NameOpaque *`, in both directions. -/
theorem C63_c_types (P : Graph.PopFn) (st st' : St) (h : Inv st) (cs : List Class) (hr : registerAll st cs = .ok st') (hs : Separate cs)
    (hall : ∀ c ∈ cs, ∀ d, c.desc = some d → OrdinaryDesc d) (c : Class) (hc : c ∈ cs) (d : Desc) (hd : c.desc = some d)
    (hold : ∀ t ∈ [(voidPtr d).name, (constPtr d).name], ∀ i, st.tm.names t = some i → ∀ dir, ∀ ft ∈ st.fts.ftypes, stands dir ft ≠ some i)
    (dir : Select.Dir) :
    (∃ ft, chosen P st' dir (voidPtr d).name = some ft ∧ ft.name.display = c.name ++ lit "Opaque *" ∧ ft.provided = [lit "\"c_" ++ c.name ++ lit ".h\""] ∧
      Direct st' (if dir then ft.into else ft.frm) (voidPtr d).name) ∧
    (∃ ft, chosen P st' dir (constPtr d).name = some ft ∧ ft.name.display = lit "const " ++ c.name ++ lit "Opaque *" ∧ ft.provided = [lit "\"c_" ++ c.name ++ lit ".h\""] ∧
      Direct st' (if dir then ft.into else ft.frm) (constPtr d).name) := by
  obtain ⟨l, m, rfl⟩ := List.append_of_mem hc
  have hrun := ((registerAll_eq _ st st').1 hr).2
  have go : ∀ (n : Text), (n = (voidPtr d).name ∨ n = (constPtr d).name) → ∀ x, (classCmds c).find? (fun c => decide (stdKey dir c = some n)) = some x →
      ((l ++ c :: m).flatMap classCmds).find? (fun c => decide (stdKey dir c = some n)) = some x := by
    intro n hn x hx
    refine find_flat classCmds _ l m c x ?_ hx
    intro c' hc' y hy
    simp only [decide_eq_false_iff_not]
    intro he
    obtain ⟨k, hk, hkn⟩ := stdKey_key he
    have hnul : Char.ofNat 0 ∈ n := by rcases hn with rfl | rfl; exact nul_void d; exact nul_const d
    rcases classKeys c' y hy k hk with ⟨d', hd', h⟩ | ⟨hd', h⟩
    · have hsep := hs.ne (Or.inl hc') hd hd' d.thisTy (by simp [tys])
      have hT : d.thisTy = d'.thisTy → False := fun he => hsep (by rw [he]; simp [tys])
      rcases h with rfl | rfl | ⟨t, ht, rfl⟩
      · rcases hn with rfl | rfl
        · exact hT (void_inj hkn.symm)
        · exact void_ne_const _ _ hkn
      · rcases hn with rfl | rfl
        · exact void_ne_const _ _ hkn.symm
        · exact hT (const_inj hkn.symm)
      · have : t = n := hkn
        subst this
        exact tys_noNul (hall c' (by simp [hc']) d' hd') t ht hnul
    · simp only [classCmds, hd', List.mem_singleton] at hy
      subst hy; cases he
  have g1 : c.name ++ lit "Opaque" ++ lit " *" = c.name ++ lit "Opaque *" := by
    rw [List.append_assoc]; congr 1; unfold lit; decide
  have g2 : lit "const " ++ opaqueTy c ++ lit " *" = lit "const " ++ c.name ++ lit "Opaque *" := by
    simp only [opaqueTy, List.append_assoc] at g1 ⊢
    rw [g1]
  have hp1 := go _ (Or.inl rfl) (.ftype c.src [] (c.name ++ lit "Opaque *") (ch c) (some ⟨voidPtr d, none⟩) (some ⟨voidPtr d, none⟩))
    (by rw [← g1]; simp [classCmds, hd, selfTypeCmds, mainCmds, pointerCmds, ruleCmds, stdKey, opaqueTy, -List.find?_append])
  have hp2 := go _ (Or.inr rfl) (.ftype c.src [] (lit "const " ++ c.name ++ lit "Opaque *") (ch c) (some ⟨constPtr d, none⟩) (some ⟨constPtr d, none⟩))
    (by rw [← g2]; simp [classCmds, hd, selfTypeCmds, mainCmds, pointerCmds, ruleCmds, stdKey, void_ne_const, -List.find?_append])
  exact ⟨lookup_direct P h hrun dir _ (fun i hi => hold _ (by simp) i hi dir) (k := voidPtr d) (by simp) hp1,
    lookup_direct P h hrun dir _ (fun i hi => hold _ (by simp) i hi dir) (k := constPtr d) (by simp) hp2⟩

/-- The Rust conversions of a class determine each other. -/
theorem rules_unique {d d' : Desc} (ho : OrdinaryDesc d) (ho' : OrdinaryDesc d') {a b w w' : Text} (h : (a, b, w) ∈ rulesOf (ruleCmds d))
    (h' : (a, b, w') ∈ rulesOf (ruleCmds d')) : (∃ t ∈ tys d, t ∈ tys d') ∧ (d = d' → w = w') := by
  have n1 := tys_noNul ho
  have n2 := tys_noNul ho'
  have kname : ∀ t, (key t).name = t := fun _ => rfl
  have m1 : ∀ d : Desc, refOf d.inner ∈ tys d := by intro d; simp [tys]
  have m2 : ∀ d : Desc, mutRefOf d.inner ∈ tys d := by intro d; simp [tys]
  have m3 : ∀ d : Desc, mutPtrOf d.inner ∈ tys d := by intro d; simp [tys]
  have m4 : ∀ d : Desc, d.thisTy ∈ tys d := by intro d; simp [tys]
  have hv : ∀ t ∈ tys d, t ≠ (voidPtr d').name := fun t ht he => n1 t ht (he ▸ nul_void d')
  have hk : ∀ t ∈ tys d, t ≠ (constPtr d').name := fun t ht he => n1 t ht (he ▸ nul_const d')
  have hv' : ∀ t ∈ tys d', t ≠ (voidPtr d).name := fun t ht he => n2 t ht (he ▸ nul_void d)
  have hk' : ∀ t ∈ tys d', t ≠ (constPtr d).name := fun t ht he => n2 t ht (he ▸ nul_const d)
  simp only [ruleCmds, rulesOf, List.mem_cons, List.not_mem_nil, or_false, Prod.mk.injEq, kname] at h h'
  have r1 : refOf d.inner ≠ mutRefOf d.inner := refOf_ne_mut ho.inner
  have r2 : refOf d.inner ≠ mutPtrOf d.inner := fun he => by have := congrArg List.head? he; rw [refOf_head, mutPtrOf_head] at this; simp at this
  have r3 : mutRefOf d.inner ≠ mutPtrOf d.inner := fun he => by have := congrArg List.head? he; rw [mutRefOf_head, mutPtrOf_head] at this; simp at this
  have r4 : d.thisTy ≠ refOf d.inner := ho.this.neRef
  have r5 : d.thisTy ≠ mutRefOf d.inner := ho.this.neMutRef
  have r6 : d.thisTy ≠ mutPtrOf d.inner := ho.this.nePtr
  rcases h with ⟨rfl, rfl, rfl⟩ | ⟨rfl, rfl, rfl⟩ | ⟨rfl, rfl, rfl⟩ | ⟨rfl, rfl, rfl⟩ | ⟨rfl, rfl, rfl⟩ | ⟨rfl, rfl, rfl⟩
  · rcases h' with ⟨e, f, rfl⟩ | ⟨e, f, rfl⟩ | ⟨e, f, rfl⟩ | ⟨e, f, rfl⟩ | ⟨e, f, rfl⟩ | ⟨e, f, rfl⟩
    · exact ⟨⟨_, m1 d, f ▸ m1 d'⟩, fun he => by rw [he]⟩
    · exact absurd e.symm (void_ne_const _ _)
    · exact absurd e.symm (void_ne_const _ _)
    · exact absurd e.symm (hk' _ (m3 d'))
    · exact absurd f (hv _ (m1 d))
    · exact absurd f (hk _ (m1 d))
  · rcases h' with ⟨e, f, rfl⟩ | ⟨e, f, rfl⟩ | ⟨e, f, rfl⟩ | ⟨e, f, rfl⟩ | ⟨e, f, rfl⟩ | ⟨e, f, rfl⟩
    · exact absurd e (void_ne_const _ _)
    · exact ⟨⟨_, m2 d, f ▸ m2 d'⟩, fun he => by rw [he]⟩
    · exact ⟨⟨_, m2 d, f ▸ m3 d'⟩, fun he => by subst he; exact absurd f r3⟩
    · exact absurd e.symm (hv' _ (m3 d'))
    · exact absurd f (hv _ (m2 d))
    · exact absurd f (hk _ (m2 d))
  · rcases h' with ⟨e, f, rfl⟩ | ⟨e, f, rfl⟩ | ⟨e, f, rfl⟩ | ⟨e, f, rfl⟩ | ⟨e, f, rfl⟩ | ⟨e, f, rfl⟩
    · exact absurd e (void_ne_const _ _)
    · exact ⟨⟨_, m3 d, f ▸ m2 d'⟩, fun he => by subst he; exact absurd f.symm r3⟩
    · exact ⟨⟨_, m3 d, f ▸ m3 d'⟩, fun he => by rw [he]⟩
    · exact absurd e.symm (hv' _ (m3 d'))
    · exact absurd f (hv _ (m3 d))
    · exact absurd f (hk _ (m3 d))
  · rcases h' with ⟨e, f, rfl⟩ | ⟨e, f, rfl⟩ | ⟨e, f, rfl⟩ | ⟨e, f, rfl⟩ | ⟨e, f, rfl⟩ | ⟨e, f, rfl⟩
    · exact absurd e (hk _ (m3 d))
    · exact absurd e (hv _ (m3 d))
    · exact absurd e (hv _ (m3 d))
    · exact ⟨⟨_, m3 d, e ▸ m3 d'⟩, fun he => by rw [he]⟩
    · exact absurd f (hv _ (m4 d))
    · exact absurd f (hk _ (m4 d))
  · rcases h' with ⟨e, f, rfl⟩ | ⟨e, f, rfl⟩ | ⟨e, f, rfl⟩ | ⟨e, f, rfl⟩ | ⟨e, f, rfl⟩ | ⟨e, f, rfl⟩
    · exact absurd e (hk _ (m4 d))
    · exact absurd e (hv _ (m4 d))
    · exact absurd e (hv _ (m4 d))
    · exact absurd f.symm (hv' _ (m4 d'))
    · exact ⟨⟨_, m4 d, e ▸ m4 d'⟩, fun he => by rw [he]⟩
    · exact absurd f (void_ne_const _ _)
  · rcases h' with ⟨e, f, rfl⟩ | ⟨e, f, rfl⟩ | ⟨e, f, rfl⟩ | ⟨e, f, rfl⟩ | ⟨e, f, rfl⟩ | ⟨e, f, rfl⟩
    · exact absurd e (hk _ (m1 d))
    · exact absurd e (hv _ (m1 d))
    · exact absurd e (hv _ (m1 d))
    · exact absurd f.symm (hk' _ (m4 d'))
    · exact absurd f.symm (void_ne_const _ _)
    · exact ⟨⟨_, m1 d, e ▸ m1 d'⟩, fun he => by rw [he]⟩

/-- The Rust side of every class has exactly the conversions it needs: a borrowed pointer becomes `&U`, a pointer becomes `&mut U` or,
through `*mut U`, an object, an object becomes a pointer and `&U` a borrowed pointer; no other class interferes. -/
theorem C63_conversions (st st' : St) (h : Inv st) (cs : List Class) (hr : registerAll st cs = .ok st') (hs : Separate cs)
    (hall : ∀ c ∈ cs, ∀ d, c.desc = some d → OrdinaryDesc d) (c : Class) (hc : c ∈ cs) (d : Desc) (hd : c.desc = some d) (w : Text) :
    (HasRule st'.tm (constPtr d).name (refOf d.inner) w ↔ w = borrowCode d) ∧
    (HasRule st'.tm (voidPtr d).name (mutRefOf d.inner) w ↔ w = borrowMutCode d) ∧
    (HasRule st'.tm (voidPtr d).name (mutPtrOf d.inner) w ↔ w = castCode d) ∧
    (HasRule st'.tm (mutPtrOf d.inner) d.thisTy w ↔ w = takeCode d) ∧
    (HasRule st'.tm d.thisTy (voidPtr d).name w ↔ w = giveCode d) ∧
    (HasRule st'.tm (refOf d.inner) (constPtr d).name w ↔ w = lendCode d) := by
  have hrun := ((registerAll_eq _ st st').1 hr).2
  have hdone := run_done h hrun
  have go : ∀ a b code, (a, b, code) ∈ rulesOf (ruleCmds d) → ∀ w, HasRule st'.tm a b w ↔ w = code := by
    intro a b code hm w
    rw [hdone.rules]
    refine over_mem _ _ a b code ((mem_rules_flat classCmds).2 ⟨c, hc, by rw [rulesOf_class c d hd]; exact hm⟩) ?_ w
    intro c' hc'
    obtain ⟨x, hx, hm'⟩ := (mem_rules_flat classCmds).1 hc'
    cases hxd : x.desc with
    | none => simp only [classCmds, hxd] at hm'; cases hm'
    | some d' =>
      rw [rulesOf_class x d' hxd] at hm'
      obtain ⟨⟨t, t1, t2⟩, hu⟩ := rules_unique (hall c hc d hd) (hall x hx d' hxd) hm hm'
      obtain ⟨l, m, rfl⟩ := List.append_of_mem hc
      rcases List.mem_append.1 hx with h1 | h1
      · exact absurd t2 (hs.ne (Or.inl h1) hd hxd t t1)
      · rcases List.mem_cons.1 h1 with rfl | h1
        · rw [hd] at hxd; cases hxd; exact (hu rfl).symm
        · exact absurd t2 (hs.ne (Or.inr h1) hd hxd t t1)
  refine ⟨go _ _ _ ?_ w, go _ _ _ ?_ w, go _ _ _ ?_ w, go _ _ _ ?_ w, go _ _ _ ?_ w, go _ _ _ ?_ w⟩ <;>
    simp [ruleCmds, rulesOf, Key.name, key, FTypes.makeUniqueIfNeed]

/-- The Rust type of a class that was not known before implements exactly: `SwigForeignClass`, `Clone` if the class derives `Clone` or
`Copy`, `Copy` and `SmartPtrCopy` if it derives them. -/
theorem C63_traits (st st' : St) (h : Inv st) (cs : List Class) (hr : registerAll st cs = .ok st') (hs : Separate cs)
    (c : Class) (hc : c ∈ cs) (d : Desc) (hd : c.desc = some d) (ho : OrdinaryDesc d) (hnew : st.tm.names d.thisTy = none)
    (hunit : d.thisTy ≠ lit "()") :
    ∃ r, info st' d.thisTy = some r ∧ r.tree = d.thisTy ∧ ∀ t, t ∈ r.traits ↔
      t = lit "SwigForeignClass" ∨ (t = lit "Clone" ∧ (lit "Clone" ∈ c.derives ∨ lit "Copy" ∈ c.derives)) ∨
      (t = lit "Copy" ∧ lit "Copy" ∈ c.derives) ∨ (t = lit "SmartPtrCopy" ∧ lit "SmartPtrCopy" ∈ c.derives) := by
  obtain ⟨l, m, rfl⟩ := List.append_of_mem hc
  have hrun := ((registerAll_eq _ st st').1 hr).2
  have hcl : classCmds c = .alloc (key d.thisTy) c.traits :: (selfTypeCmds c d ++ [.alloc (key c.selfTyAsTy) []]) := by
    simp only [classCmds, hd]
  rw [List.flatMap_append, List.flatMap_cons, hcl, List.cons_append] at hrun
  refine ⟨_, run_traits h _ _ (key d.thisTy) c.traits hrun hnew ?_, rfl, ?_⟩
  · intro x hx k hk he
    have he : k.name = d.thisTy := he
    obtain ⟨c', hc', hx⟩ := List.mem_flatMap.1 hx
    have hnul := ho.this.noNul
    rcases classKeys c' x hx k hk with ⟨d', hd', h⟩ | ⟨_, rfl⟩
    · rcases h with rfl | rfl | ⟨t, ht, rfl⟩
      · exact hnul (he ▸ nul_void d')
      · exact hnul (he ▸ nul_const d')
      · have he : t = d.thisTy := he
        subst he
        exact hs.ne (Or.inl hc') hd hd' d.thisTy (by simp [tys]) ht
    · exact hunit he.symm
  · intro t
    have hcl : c.has "Clone" = decide (lit "Clone" ∈ c.derives) := by simp [Class.has]
    have hcp : c.has "Copy" = decide (lit "Copy" ∈ c.derives) := by simp [Class.has]
    have hsp : c.has "SmartPtrCopy" = decide (lit "SmartPtrCopy" ∈ c.derives) := by simp [Class.has]
    simp only [Class.traits, hcl, hcp, hsp]
    by_cases h1 : lit "Clone" ∈ c.derives <;> by_cases h2 : lit "Copy" ∈ c.derives <;> by_cases h3 : lit "SmartPtrCopy" ∈ c.derives <;>
      simp [h1, h2, h3]

/-- **Finding.**  A type that was known before (because a `foreign_typemap!` rule or an earlier class mentions it) keeps the traits it
had: whatever the class derives, it is not recorded that its type is an exported class, `Clone` or `Copy`. -/
theorem C63_finding_known_type_keeps_traits (st st' : St) (h : Inv st) (cs : List Class) (hr : registerAll st cs = .ok st')
    (d : Desc) (r : RInfo) (hi : info st d.thisTy = some r) : info st' d.thisTy = some r :=
  run_keeps_info h ((registerAll_eq _ st st').1 hr).2 hi

/-- The Rust code of every conversion declares its result with the type it is registered for, and conversions from raw C pointers
check for null. -/
theorem C63_codes (d : Desc) (a b : Key) (w : Text) (h : Cmd.rule a b w ∈ ruleCmds d) :
    (lit "let {to_var}: " ++ b.ty) <:+: w ∧
    (a = voidPtr d ∨ a = constPtr d → lit "assert!(!{from_var}.is_null());" <:+: w) := by
  have t1 : lit "let {to_var}: " = lit "let " ++ tv ++ lit ": " := by unfold tv Template.toVar lit; decide
  have t2 : notNull = lit "assert!(!{from_var}.is_null());" ++ lit "\n" := by unfold notNull fv Template.fromVar lit; decide
  rw [t1]
  have inf : ∀ (p x q : Text), x <:+: p ++ (x ++ q) := fun p x q => ⟨p, q, by simp⟩
  have hty : ∀ t, (key t).ty = t := fun _ => rfl
  simp only [ruleCmds, List.mem_cons, List.not_mem_nil, or_false, reduceCtorEq, false_or, Cmd.rule.injEq] at h
  have hk : ∀ t, key t ≠ voidPtr d ∧ key t ≠ constPtr d := by intro t; simp [key, voidPtr, constPtr]
  rcases h with ⟨rfl, rfl, rfl⟩ | ⟨rfl, rfl, rfl⟩ | ⟨rfl, rfl, rfl⟩ | ⟨rfl, rfl, rfl⟩ | ⟨rfl, rfl, rfl⟩ | ⟨rfl, rfl, rfl⟩
  · rw [hty]
    refine ⟨⟨lit "\n    " ++ notNull ++ lit "    ", lit " = unsafe { &*(" ++ fv ++ lit " as *const " ++ d.inner ++ lit ") };\n", ?_⟩, fun _ =>
      ⟨lit "\n    ", lit "\n" ++ (lit "    let " ++ tv ++ lit ": " ++ refOf d.inner ++ lit " = unsafe { &*(" ++ fv ++ lit " as *const " ++ d.inner ++ lit ") };\n"), ?_⟩⟩
    · have : lit "    let " = lit "    " ++ lit "let " := by unfold lit; decide
      simp only [borrowCode, this, List.append_assoc]
    · simp only [borrowCode, t2, List.append_assoc]
  · rw [hty]
    refine ⟨⟨lit "\n    " ++ notNull ++ lit "    ", lit " = unsafe { &mut *(" ++ fv ++ lit " as *mut " ++ d.inner ++ lit ") };\n", ?_⟩, fun _ =>
      ⟨lit "\n    ", lit "\n" ++ (lit "    let " ++ tv ++ lit ": " ++ mutRefOf d.inner ++ lit " = unsafe { &mut *(" ++ fv ++ lit " as *mut " ++ d.inner ++ lit ") };\n"), ?_⟩⟩
    · have : lit "    let " = lit "    " ++ lit "let " := by unfold lit; decide
      simp only [borrowMutCode, this, List.append_assoc]
    · simp only [borrowMutCode, t2, List.append_assoc]
  · rw [hty]
    refine ⟨⟨lit "\n            " ++ notNull ++ lit "            ", lit " = " ++ fv ++ lit " as " ++ mutPtrOf d.inner ++ lit ";\n        ", ?_⟩, fun _ =>
      ⟨lit "\n            ", lit "\n" ++ (lit "            let " ++ tv ++ lit ": " ++ mutPtrOf d.inner ++ lit " = " ++ fv ++ lit " as " ++ mutPtrOf d.inner ++ lit ";\n        "), ?_⟩⟩
    · have : lit "            let " = lit "            " ++ lit "let " := by unfold lit; decide
      simp only [castCode, this, List.append_assoc]
    · simp only [castCode, t2, List.append_assoc]
  · rw [hty]
    refine ⟨?_, fun h => h.elim (fun h => absurd h (hk _).1) (fun h => absurd h (hk _).2)⟩
    unfold takeCode unpack
    have : lit "\n    let " = lit "\n    " ++ lit "let " := by unfold lit; decide
    cases d.smart with
    | some x =>
      refine ⟨lit "\n" ++ lit "\n    ", lit "  = unsafe { " ++ x.1 ++ lit "::from_raw(" ++ tv ++ lit ") };\n" ++ lit "\n", ?_⟩
      simp only [this, List.append_assoc]
    | none =>
      refine ⟨lit "\n" ++ (lit "\n    let " ++ tv ++ lit ": Box<" ++ d.thisTy ++ lit "> = unsafe { Box::from_raw(" ++ tv ++ lit ") };\n") ++ lit "\n    ",
        lit " = *" ++ tv ++ lit ";\n" ++ lit "\n" ++ lit "\n", ?_⟩
      simp only [this, List.append_assoc]
  · refine ⟨⟨[], lit " = <" ++ d.thisTy ++ lit ">::box_object(" ++ fv ++ lit ");", ?_⟩, fun h => h.elim (fun h => absurd h (hk _).1) (fun h => absurd h (hk _).2)⟩
    simp only [giveCode, List.append_assoc, List.nil_append]
  · refine ⟨⟨[], lit " = (" ++ fv ++ lit " as *const " ++ d.inner ++ lit ") as " ++ (constPtr d).ty ++ lit ";", ?_⟩, fun h => h.elim (fun h => absurd h (hk _).1) (fun h => absurd h (hk _).2)⟩
    simp only [lendCode, List.append_assoc, List.nil_append]

/-- The pointers handed to C++ are pointers to the type the object was put on the heap as (not to the smart pointer around it), and are
treated as such when they come back; a value given to C++ is put on the heap by `box_object` of the object type, and a value taken from
C++ is what the owner (`Box` or the smart pointer) rebuilt from that pointer gives. -/
theorem C63_pointee (d : Desc) :
    (lit "&*({from_var} as *const " ++ d.inner ++ lit ")") <:+: borrowCode d ∧
    (lit "&mut *({from_var} as *mut " ++ d.inner ++ lit ")") <:+: borrowMutCode d ∧
    (lit " = {from_var} as " ++ mutPtrOf d.inner ++ lit ";") <:+: castCode d ∧
    (lit " = <" ++ d.thisTy ++ lit ">::box_object({from_var});") <:+: giveCode d ∧
    (lit " = ({from_var} as *const " ++ d.inner ++ lit ") as ") <:+: lendCode d ∧
    (d.smart = none → (lit ": Box<" ++ d.thisTy ++ lit "> = unsafe { Box::from_raw({to_var}) };") <:+: takeCode d ∧
      (lit ": " ++ d.thisTy ++ lit " = *{to_var};") <:+: takeCode d) ∧
    (∀ p, d.smart.map (·.1) = some p → (lit "unsafe { " ++ p ++ lit "::from_raw({to_var}) };") <:+: takeCode d) := by
  have a1 : lit "&*({from_var} as *const " = lit "&*(" ++ fv ++ lit " as *const " := by unfold fv Template.fromVar lit; decide
  have a2 : lit " = unsafe { &*(" = lit " = unsafe { " ++ lit "&*(" := by unfold lit; decide
  have a3 : lit ") };\n" = lit ")" ++ lit " };\n" := by unfold lit; decide
  have b1 : lit "&mut *({from_var} as *mut " = lit "&mut *(" ++ fv ++ lit " as *mut " := by unfold fv Template.fromVar lit; decide
  have b2 : lit " = unsafe { &mut *(" = lit " = unsafe { " ++ lit "&mut *(" := by unfold lit; decide
  have c1 : lit " = {from_var} as " = lit " = " ++ fv ++ lit " as " := by unfold fv Template.fromVar lit; decide
  have c2 : lit ";\n        " = lit ";" ++ lit "\n        " := by unfold lit; decide
  have g1 : lit ">::box_object({from_var});" = lit ">::box_object(" ++ fv ++ lit ");" := by unfold fv Template.fromVar lit; decide
  have l1 : lit " = ({from_var} as *const " = lit " = (" ++ fv ++ lit " as *const " := by unfold fv Template.fromVar lit; decide
  have t1 : lit "> = unsafe { Box::from_raw({to_var}) };" = lit "> = unsafe { Box::from_raw(" ++ tv ++ lit ") };" := by
    unfold tv Template.toVar lit; decide
  have t2 : lit ") };\n" = lit ") };" ++ lit "\n" := by unfold lit; decide
  have t3 : lit ": Box<" = lit ": Box<" := rfl
  have t4 : lit " = *{to_var};" = lit " = *" ++ tv ++ lit ";" := by unfold tv Template.toVar lit; decide
  have t5 : lit ";\n" = lit ";" ++ lit "\n" := by unfold lit; decide
  have s1 : lit "::from_raw({to_var}) };" = lit "::from_raw(" ++ tv ++ lit ") };" := by unfold tv Template.toVar lit; decide
  have s2 : lit "  = unsafe { " = lit "  = " ++ lit "unsafe { " := by unfold lit; decide
  refine ⟨?_, ?_, ?_, ?_, ?_, fun h => ⟨?_, ?_⟩, fun p h => ?_⟩
  · refine ⟨lit "\n    " ++ notNull ++ lit "    let " ++ tv ++ lit ": " ++ refOf d.inner ++ lit " = unsafe { ", lit " };\n", ?_⟩
    simp only [borrowCode, a1, a2, a3, List.append_assoc]
  · refine ⟨lit "\n    " ++ notNull ++ lit "    let " ++ tv ++ lit ": " ++ mutRefOf d.inner ++ lit " = unsafe { ", lit " };\n", ?_⟩
    simp only [borrowMutCode, b1, b2, a3, List.append_assoc]
  · refine ⟨lit "\n            " ++ notNull ++ lit "            let " ++ tv ++ lit ": " ++ mutPtrOf d.inner, lit "\n        ", ?_⟩
    simp only [castCode, c1, c2, List.append_assoc]
  · refine ⟨lit "let " ++ tv ++ lit ": " ++ (voidPtr d).ty, [], ?_⟩
    simp only [giveCode, g1, List.append_assoc, List.append_nil]
  · refine ⟨lit "let " ++ tv ++ lit ": " ++ (constPtr d).ty, (constPtr d).ty ++ lit ";", ?_⟩
    simp only [lendCode, l1, List.append_assoc]
  · refine ⟨lit "\n" ++ lit "\n    let " ++ tv, lit "\n" ++ ((lit "\n    let " ++ tv ++ lit ": " ++ d.thisTy ++ lit " = *" ++ tv ++ lit ";\n") ++ lit "\n") ++ lit "\n", ?_⟩
    simp only [takeCode, unpack, h, t1, t2, List.append_assoc]
  · refine ⟨lit "\n" ++ (lit "\n    let " ++ tv ++ lit ": Box<" ++ d.thisTy ++ lit "> = unsafe { Box::from_raw(" ++ tv ++ lit ") };\n") ++ lit "\n    let " ++ tv, lit "\n" ++ lit "\n" ++ lit "\n", ?_⟩
    simp only [takeCode, unpack, h, t4, t5, List.append_assoc]
  · obtain ⟨x, hx, rfl⟩ := Option.map_eq_some_iff.1 h
    refine ⟨lit "\n" ++ lit "\n    let " ++ tv ++ lit ": " ++ d.thisTy ++ lit "  = ", lit "\n" ++ lit "\n", ?_⟩
    simp only [takeCode, unpack, hx, s1, s2, t2, List.append_assoc]

/-- The words of a text. -/
abbrev words : Text → List Text := cut ' '

theorem words_one {t : Text} (h : ' ' ∉ t) : words t = [t] := cut_one h

theorem words_app {a : Text} (b : Text) (h : ' ' ∉ a) : words (a ++ ' ' :: b) = a :: words b := cut_app b h

/-- The words of the C++ names. -/
theorem cppNames_map (c : Class) (hn : ' ' ∉ c.name) (d : Desc) (hd : c.desc = some d) : (cppNames c).map words =
    [[c.name ++ lit "Opaque", lit "*"], [lit "const", c.name ++ lit "Opaque", lit "*"], [c.name], [lit "const", c.name, lit "&"]] ++
    (if lit "PlainClass" ∈ c.derives then [] else [[c.name ++ lit "Ref"]]) ++ [[c.name, lit "&"]] ++
    (if d.selfTy ≠ d.thisTy then [[lit "/**/" ++ c.name, lit "&"], [lit "/**/const", c.name, lit "&"]] else []) := by
    simp only [cppNames, hd]
    have hO : ' ' ∉ c.name ++ lit "Opaque" := by simp only [List.mem_append, not_or]; exact ⟨hn, by unfold lit; decide⟩
    have hR : ' ' ∉ c.name ++ lit "Ref" := by simp only [List.mem_append, not_or]; exact ⟨hn, by unfold lit; decide⟩
    have hP : ' ' ∉ lit "/**/" ++ c.name := by simp only [List.mem_append, not_or]; exact ⟨by unfold lit; decide, hn⟩
    have hC : ' ' ∉ lit "const" := by unfold lit; decide
    have hC2 : ' ' ∉ lit "/**/const" := by unfold lit; decide
    have hs : ' ' ∉ lit "*" := by unfold lit; decide
    have ha : ' ' ∉ lit "&" := by unfold lit; decide
    have l1 : lit "Opaque *" = lit "Opaque" ++ ' ' :: lit "*" := by unfold lit; decide
    have l2 : lit "const " = lit "const" ++ ' ' :: [] := by unfold lit; decide
    have l3 : lit " &" = ' ' :: lit "&" := by unfold lit; decide
    have l4 : lit "/**/const " = lit "/**/const" ++ ' ' :: [] := by unfold lit; decide
    have w1 : words (c.name ++ lit "Opaque *") = [c.name ++ lit "Opaque", lit "*"] := by
      rw [l1, ← List.append_assoc, words_app _ hO, words_one hs]
    have w2 : words (lit "const " ++ c.name ++ lit "Opaque *") = [lit "const", c.name ++ lit "Opaque", lit "*"] := by
      rw [List.append_assoc, l2, List.append_assoc, List.cons_append, List.nil_append, words_app _ hC, w1]
    have w6 : words (c.name ++ lit " &") = [c.name, lit "&"] := by rw [l3, words_app _ hn, words_one ha]
    have w4 : words (lit "const " ++ c.name ++ lit " &") = [lit "const", c.name, lit "&"] := by
      rw [List.append_assoc, l2, List.append_assoc, List.cons_append, List.nil_append, words_app _ hC, w6]
    have w7 : words (lit "/**/" ++ c.name ++ lit " &") = [lit "/**/" ++ c.name, lit "&"] := by rw [l3, words_app _ hP, words_one ha]
    have w8 : words (lit "/**/const " ++ c.name ++ lit " &") = [lit "/**/const", c.name, lit "&"] := by
      rw [List.append_assoc, l4, List.append_assoc, List.cons_append, List.nil_append, words_app _ hC2, w6]
    have wr : words (c.name ++ lit "Ref") = [c.name ++ lit "Ref"] := words_one hR
    have wn : words c.name = [c.name] := words_one hn
    by_cases h1 : lit "PlainClass" ∈ c.derives <;> by_cases h2 : d.selfTy = d.thisTy <;>
      simp only [h1, h2, if_true, if_false, List.map_append, List.map_cons, List.map_nil, w1, w2, w4, w6, w7, w8, wr, wn, ne_eq, not_true_eq_false, not_false_eq_true]

theorem cppNames_words (c : Class) (hn : ' ' ∉ c.name) (x : Text) (hx : x ∈ cppNames c) : HasObjects c ∧
    (words x = [c.name ++ lit "Opaque", lit "*"] ∨ words x = [lit "const", c.name ++ lit "Opaque", lit "*"] ∨ words x = [c.name] ∨
     words x = [lit "const", c.name, lit "&"] ∨ (words x = [c.name ++ lit "Ref"] ∧ lit "PlainClass" ∉ c.derives) ∨
     words x = [c.name, lit "&"] ∨ words x = [lit "/**/" ++ c.name, lit "&"] ∨ words x = [lit "/**/const", c.name, lit "&"]) := by
  have hm : words x ∈ (cppNames c).map words := List.mem_map.2 ⟨x, hx, rfl⟩
  cases hd : c.desc with
  | none => simp [cppNames, hd] at hx
  | some d =>
    refine ⟨by simp [HasObjects, hd], ?_⟩
    rw [cppNames_map c hn d hd] at hm
    by_cases h1 : lit "PlainClass" ∈ c.derives <;> by_cases h2 : d.selfTy = d.thisTy <;>
      simp only [h1, h2, if_true, if_false, ne_eq, not_true_eq_false, not_false_eq_true, List.mem_append, List.mem_cons, List.not_mem_nil, or_false, and_true, and_false, false_or, or_assoc] at hm ⊢
    · rcases hm with h | h | h | h | h <;> simp only [h, true_or, or_true]
    · exact hm
    · rcases hm with h | h | h | h | h | h <;> simp only [h, true_or, or_true]
    · exact hm

/-- The C++ names of classes whose names are identifiers are different from each other exactly if no two classes clash. -/
theorem C63_names (cs : List Class) (hid : ∀ c ∈ cs, ' ' ∉ c.name ∧ '/' ∉ c.name) :
    (cs.flatMap cppNames).Nodup ↔ cs.Pairwise fun a b => ¬ Clash a b := by
  have d1 : lit "*" ≠ lit "&" := by unfold lit; decide
  have d2 : lit "const" ≠ lit "/**/const" := by unfold lit; decide
  have d3 : lit "Ref" ≠ [] := by unfold lit; decide
  have sl : '/' ∈ lit "/**/" := by unfold lit; decide
  have hslash : ∀ (a b : Text), '/' ∉ a → a ≠ lit "/**/" ++ b := fun a b h he => h (he ▸ List.mem_append.2 (Or.inl sl))
  unfold List.Nodup
  rw [List.pairwise_flatMap]
  constructor
  · rintro ⟨_, h⟩
    refine h.imp ?_
    intro a b h ⟨ha, hb, hc⟩
    obtain ⟨da, hda⟩ := Option.ne_none_iff_exists'.1 ha
    obtain ⟨db, hdb⟩ := Option.ne_none_iff_exists'.1 hb
    rcases hc with hc | ⟨hp, hc⟩ | ⟨hp, hc⟩
    · exact h a.name (by simp [cppNames, hda]) b.name (by simp [cppNames, hdb]) hc
    · exact h (a.name ++ lit "Ref") (by simp [cppNames, hda, hp]) b.name (by simp [cppNames, hdb]) hc.symm
    · exact h a.name (by simp [cppNames, hda]) (b.name ++ lit "Ref") (by simp [cppNames, hdb, hp]) hc
  · intro h
    constructor
    · intro c hc
      obtain ⟨hsp, hsl⟩ := hid c hc
      cases hd : c.desc with
      | none => simp [cppNames, hd]
      | some d =>
        have hnd : ((cppNames c).map words).Nodup := by
          rw [cppNames_map c hsp d hd]
          have s1 := hslash c.name c.name hsl
          by_cases h1 : lit "PlainClass" ∈ c.derives <;> by_cases h2 : d.selfTy = d.thisTy <;>
            simp [h1, h2, d1, d2, d3, d1.symm, s1]
        exact List.Pairwise.of_map words (fun x y h he => h (he ▸ rfl)) hnd
    · refine List.Pairwise.imp_of_mem ?_ h
      intro a b ha hb hn x hx y hy hxy
      subst hxy
      obtain ⟨sa, la⟩ := hid a ha
      obtain ⟨sb, lb⟩ := hid b hb
      obtain ⟨oa, wa⟩ := cppNames_words a sa x hx
      obtain ⟨ob, wb⟩ := cppNames_words b sb x hy
      have s1 := hslash a.name b.name la
      have s2 := hslash b.name a.name lb
      refine hn ⟨oa, ob, ?_⟩
      rcases wa with wa | wa | wa | wa | ⟨wa, pa⟩ | wa | wa | wa <;> rw [wa] at wb <;>
      rcases wb with wb | wb | wb | wb | ⟨wb, pb⟩ | wb | wb | wb <;>
      simp only [List.cons.injEq, List.append_cancel_right_eq, List.append_cancel_left_eq, and_true, true_and, reduceCtorEq, and_false, false_and, d1, d1.symm, d2, d2.symm, s1, s2.symm] at wb
      all_goals first | exact Or.inl wb | exact Or.inr (Or.inr ⟨pb, wb⟩) | exact Or.inr (Or.inl ⟨pa, wb.symm⟩)

/-- **Finding.**  If two classes export the same Rust type, the C++ type of the first is used for it in all functions: values of the
second class can be neither passed nor returned. -/
theorem C63_finding_same_type (P : Graph.PopFn) (st st' : St) (h : Inv st) (a b : Class) (d : Desc) (ha : a.desc = some d)
    (_hb : b.desc = some d) (hr : registerAll st [a, b] = .ok st') (ho : OrdinaryDesc d)
    (hold : ∀ t ∈ tys d, ∀ i, st.tm.names t = some i → ∀ dir, ∀ ft ∈ st.fts.ftypes, stands dir ft ≠ some i) :
    ∀ dir, ∃ ft, chosen P st' dir d.thisTy = some ft ∧ ft.name.display = a.name := by
  obtain ⟨⟨f1, h1, h2, _⟩, ⟨f2, h3, h4, _⟩, _⟩ := C63_lookup P st st' h [] [b] a hr d ha ho (by simp) hold
  intro dir
  cases dir with
  | true => exact ⟨f1, h1, h2⟩
  | false => exact ⟨f2, h3, h4⟩

/-! ### Examples -/

/-- An empty type map. -/
def st0 : St := ⟨TMap.empty, FTypes.Storage.empty⟩

theorem st0_inv : Inv st0 := ⟨TMap.ok_empty, FTypes.consistent_empty, by intro ft hft; cases hft⟩

/-- `class Foo { self_type Foo; constructor .. -> Foo; }` -/
def foo : Class := ⟨lit "Foo", [lit "Clone"], some ⟨lit "Foo", lit "Foo", lit "Foo", none⟩, false, some 1⟩
/-- `class Bar { self_type Bar; constructor .. -> Arc<Mutex<Bar>>; }` -/
def bar : Class := ⟨lit "Bar", [lit "SmartPtrCopy"],
  some ⟨lit "Arc < Mutex < Bar > >", lit "Arc < Mutex < Bar > >", lit "Bar", some (lit "Arc", lit "Mutex < Bar >")⟩, false, some 2⟩
/-- A class called like the reference type of `Foo`. -/
def fooRef : Class := ⟨lit "FooRef", [], some ⟨lit "Other", lit "Other", lit "Other", none⟩, false, none⟩
/-- Static methods only. -/
def util : Class := ⟨lit "Util", [], none, false, none⟩

/-- Is it accepted? -/
def accepted (cs : List Class) : Option Err := match registerAll st0 cs with | .ok _ => none | .error e => some e

example : accepted [foo, util, bar] = none := by decide +kernel
example : accepted [foo, fooRef] = some .duplicate := by decide +kernel
example : accepted [{ foo with derives := [lit "PlainClass"] }, fooRef] = none := by decide +kernel
example : accepted [{ foo with derives := [lit "SmartPtrCopy"] }] = some .notShared := by decide +kernel
example : accepted [{ bar with cloneMethod := true }] = some .hasClone := by decide +kernel

instance (t : Text) : Decidable (Ordinary t) :=
  if h : Char.ofNat 0 ∉ t ∧ t.head? ≠ some '&' ∧ t.head? ≠ some '*' ∧ t.head? ≠ some ' ' ∧ ¬ lit "mut " <+: t then
    isTrue ⟨h.1, h.2.1, h.2.2.1, h.2.2.2⟩
  else isFalse fun ⟨a, b, c, e⟩ => h ⟨a, b, c, e⟩

/-- The hypotheses of C63 hold for these classes. -/
theorem example_ordinary : ∀ c ∈ [foo, util, bar], ∀ d, c.desc = some d → OrdinaryDesc d := by
  intro c hc d hd
  simp only [List.mem_cons, List.not_mem_nil, or_false] at hc
  rcases hc with rfl | rfl | rfl
  · simp only [foo, Option.some.injEq] at hd
    subst hd
    exact ⟨by decide +kernel, by decide +kernel, by decide +kernel⟩
  · cases hd
  · simp only [bar, Option.some.injEq] at hd
    subst hd
    exact ⟨by decide +kernel, by decide +kernel, by decide +kernel⟩

theorem example_separate : Separate [foo, util, bar] := by
  have h : ∀ t ∈ tys ⟨lit "Foo", lit "Foo", lit "Foo", none⟩,
      t ∉ tys ⟨lit "Arc < Mutex < Bar > >", lit "Arc < Mutex < Bar > >", lit "Bar", some (lit "Arc", lit "Mutex < Bar >")⟩ := by decide +kernel
  simp only [Separate, List.pairwise_cons, List.mem_cons, List.not_mem_nil, or_false]
  refine ⟨?_, ?_, ?_⟩
  · rintro c (rfl | rfl) d d' hd hd'
    · cases hd'
    · cases hd; cases hd'; exact h
  · rintro c rfl d d' hd; cases hd
  · simp

/-- All hypotheses together: `Foo` and `Bar` registered in an empty type map. -/
example : ∃ st', registerAll st0 [foo, util, bar] = .ok st' ∧
    (∀ P, ∃ ft, chosen P st' true (lit "Foo") = some ft ∧ ft.name.display = lit "Foo") ∧
    (∀ P, ∃ ft, chosen P st' false (refOf (lit "Bar")) = some ft ∧ ft.name.display = lit "const Bar &") := by
  cases hr : registerAll st0 [foo, util, bar] with
  | error e =>
    have : accepted [foo, util, bar] = none := by decide +kernel
    simp [accepted, hr] at this
  | ok st' =>
    refine ⟨st', rfl, fun P => ?_, fun P => ?_⟩
    · obtain ⟨⟨ft, h1, h2, _⟩, _⟩ := C63_lookup P st0 st' st0_inv [] [util, bar] foo hr _ rfl
        (example_ordinary foo (by simp) _ rfl) (by simp) (by intro t _ i hi; cases hi)
      exact ⟨ft, h1, h2⟩
    · obtain ⟨_, _, _, _, _, h7⟩ := C63_lookup P st0 st' st0_inv [foo, util] [] bar hr _ rfl
        (example_ordinary bar (by simp) _ rfl) (by
          intro c' hc' d' hd' t ht ht'
          exact Separate.ne (l := [foo, util]) (m := []) (c := bar) example_separate (Or.inl hc') rfl hd' t ht' ht)
        (by intro t _ i hi; cases hi)
      obtain ⟨⟨ft, h1, h2, _⟩, _⟩ := h7 (by decide +kernel)
      refine ⟨ft, h1, h2.trans ?_⟩
      decide +kernel

/-- `C63_finding_same_type` is not vacuous: two classes for `Foo` are accepted. -/
example : accepted [foo, { foo with name := lit "Baz" }] = none := by decide +kernel

end Flapi.CppRegister
