import Verif.Java.Register
import Verif.Lang.RegisterProps
/-! # Java: which types a registered class can be used as (C64) -/
namespace Flapi.JavaRegister

open Flapi.Exported (lit)
open Flapi.Register
open Flapi.TMap (HasRule)
open Flapi.FTypes (FType FRule)

/-! ## Specification -/

/-- The Rust types through which the objects of a class are used. -/
def tys (d : Desc) : List Text :=
  [d.thisTy, d.inner, d.selfTy, refOf d.inner, mutRefOf d.inner, refOf d.selfTy, mutRefOf d.selfTy, d.ctorRet]

/-- Different classes export different Rust types. -/
def Separate (cs : List Class) : Prop :=
  cs.Pairwise fun c c' => ∀ d d', c.desc = some d → c'.desc = some d' → ∀ t ∈ tys d, t ∉ tys d'

/-- The object type, the referenced type and the `self` type are ordinary types and not those of JNI. -/
structure OrdinaryDesc' (d : Desc) : Prop extends OrdinaryDesc d where
  ret : Char.ofNat 0 ∉ d.ctorRet
  noLong : d.thisTy ≠ lit "jlong"
  noObj : d.thisTy ≠ lit "jobject"

/-- The full Java names a class occupies. -/
def javaNames (ann : Bool) (c : Class) : List Text :=
  match c.desc with
  | none => []
  | some d => [lit "/*" ++ c.name ++ lit "OutVal*/long", lit "/*" ++ c.name ++ lit "InVal*/long", annot ann ++ c.name,
      lit "/*ref*/" ++ annot ann ++ c.name, lit "/*mut ref*/" ++ annot ann ++ c.name] ++
      (if d.selfTy ≠ d.thisTy then [lit "/*ref 2*/" ++ annot ann ++ c.name, lit "/*mut ref 2*/" ++ annot ann ++ c.name] else [])

/-- A class that derives `SmartPtrCopy` is held by `Rc` or `Arc`. -/
def CopyOk (c : Class) : Prop :=
  ∀ d, c.desc = some d → lit "SmartPtrCopy" ∈ c.derives → ∃ p, d.smart.map (·.1) = some p ∧ (p = lit "Rc" ∨ p = lit "Arc")

/-- Everything one class registers. -/
def classCmds (ann : Bool) (c : Class) : List Cmd :=
  match c.desc with
  | some d => .alloc (key d.thisTy) c.traits :: (selfTypeCmds ann c d ++ [.alloc (key c.selfTyAsTy) []])
  | none => [.alloc (key c.selfTyAsTy) []]

/-! ## Lemmas -/

theorem check_ok (c : Class) (d : Desc) (hd : c.desc = some d) : check c d = .ok () ↔ CopyOk c := by
  unfold check CopyOk Class.has
  have key : d.isShared = true ↔ ∃ p, d.smart.map (·.1) = some p ∧ (p = lit "Rc" ∨ p = lit "Arc") := by
    unfold Desc.isShared
    cases d.smart with
    | none => simp
    | some x => simp
  by_cases h : lit "SmartPtrCopy" ∈ c.derives
  · simp only [List.contains_iff_mem, h, Bool.and_eq_true, Bool.not_eq_true', true_and]
    constructor
    · intro he d' hd' _
      rw [hd] at hd'; cases hd'
      split at he
      · cases he
      · rename_i h1; exact key.1 (by simpa using h1)
    · intro he
      rw [if_neg]
      simpa using key.2 (he d hd trivial)
  · simp [h]

theorem registerClass_eq (ann : Bool) (st : St) (c : Class) (st' : St) :
    registerClass ann st c = .ok st' ↔ CopyOk c ∧ run st (classCmds ann c) = .ok st' := by
  cases hd : c.desc with
  | none =>
    have : CopyOk c := by intro d h; rw [hd] at h; cases h
    simp only [this, registerClass, classCmds, hd, true_and]
  | some d =>
    rw [← check_ok c d hd]
    have h1 : registerClass ann st c = (do let st1 ← run st [.alloc (key d.thisTy) c.traits]; check c d; run st1 (selfTypeCmds ann c d ++ [.alloc (key c.selfTyAsTy) []])) := by
      simp only [registerClass, hd]
    have h2 : classCmds ann c = .alloc (key d.thisTy) c.traits :: (selfTypeCmds ann c d ++ [.alloc (key c.selfTyAsTy) []]) := by
      simp only [classCmds, hd]
    rw [h1, h2]
    exact run_checked st (key d.thisTy) c.traits (check c d) (selfTypeCmds ann c d ++ [.alloc (key c.selfTyAsTy) []]) st'

theorem registerAll_eq (ann : Bool) : ∀ (cs : List Class) (st st' : St),
    registerAll ann st cs = .ok st' ↔ (∀ c ∈ cs, CopyOk c) ∧ run st (cs.flatMap (classCmds ann)) = .ok st'
  | [], st, st' => by simp [registerAll, run]
  | c :: cs, st, st' => by
    show ((registerClass ann st c).bind fun s => registerAll ann s cs) = _ ↔ _
    rw [List.flatMap_cons, run_append]
    constructor
    · intro h
      cases h1 : registerClass ann st c with
      | error e => rw [h1] at h; cases h
      | ok s1 =>
        rw [h1] at h
        have h2 := (registerAll_eq ann cs s1 st').1 h
        have h3 := (registerClass_eq ann st c s1).1 h1
        refine ⟨fun x hx => ?_, by rw [h3.2]; exact h2.2⟩
        rcases List.mem_cons.1 hx with rfl | hx
        · exact h3.1
        · exact h2.1 x hx
    · rintro ⟨h1, h2⟩
      cases h3 : run st (classCmds ann c) with
      | error e => rw [h3] at h2; cases h2
      | ok s1 =>
        rw [h3] at h2
        have h4 := (registerClass_eq ann st c s1).2 ⟨h1 c List.mem_cons_self, h3⟩
        rw [h4]
        exact (registerAll_eq ann cs s1 st').2 ⟨fun x hx => h1 x (List.mem_cons_of_mem _ hx), h2⟩

theorem ftNames_class (ann : Bool) (c : Class) : ftNames (classCmds ann c) = javaNames ann c := by
  have g1 : lit "OutVal*/" ++ lit "long" = lit "OutVal*/long" := by unfold lit; decide
  have g2 : lit "InVal*/" ++ lit "long" = lit "InVal*/long" := by unfold lit; decide
  unfold classCmds javaNames
  cases hd : c.desc with
  | none => rfl
  | some d =>
    simp only [selfTypeCmds, mainCmds, ruleCmds, refType, outPre, inPre]
    by_cases h2 : d.selfTy = d.thisTy <;>
      simp [h2, ftNames, List.append_assoc, g1, g2]

theorem ftNames_all (ann : Bool) (cs : List Class) : ftNames (cs.flatMap (classCmds ann)) = cs.flatMap (javaNames ann) := by
  induction cs with
  | nil => rfl
  | cons c cs ih => rw [List.flatMap_cons, List.flatMap_cons, ftNames_append, ftNames_class, ih]

theorem nul_suffix (t s : Text) : Char.ofNat 0 ∈ (⟨t, some s⟩ : Key).name := by
  simp [Key.name, FTypes.makeUniqueIfNeed, FTypes.makeUnique]

theorem tys_noNul {d : Desc} (h : OrdinaryDesc' d) : ∀ t ∈ tys d, Char.ofNat 0 ∉ t := by
  intro t ht
  simp only [tys, List.mem_cons, List.not_mem_nil, or_false] at ht
  rcases ht with rfl | rfl | rfl | rfl | rfl | rfl | rfl | rfl
  · exact h.this.noNul
  · exact h.inner.noNul
  · exact h.self.noNul
  · exact refOf_noNul h.inner.noNul
  · exact mutRefOf_noNul h.inner.noNul
  · exact refOf_noNul h.self.noNul
  · exact mutRefOf_noNul h.self.noNul
  · exact h.ret

/-- Types mentioned by the registration of a class. -/
theorem classKeys (ann : Bool) (c : Class) (x : Cmd) (hx : x ∈ classCmds ann c) (k : Key) (hk : k ∈ x.keys) :
    (∃ d, c.desc = some d ∧ (k = outVal c ∨ k = inVal c ∨ k = jlong ∨ k = key (lit "jobject") ∨ k = ⟨lit "jobject", some d.thisTy⟩ ∨
      ∃ t ∈ tys d, k = key t)) ∨
    (c.desc = none ∧ k = key (lit "()")) := by
  unfold classCmds at hx
  cases hd : c.desc with
  | none =>
    rw [hd] at hx
    simp only [List.mem_singleton] at hx
    subst hx
    simp only [Cmd.keys, List.mem_singleton] at hk
    exact Or.inr ⟨rfl, by rw [hk]; simp [Class.selfTyAsTy, hd]⟩
  | some d =>
    left
    rw [hd] at hx
    refine ⟨d, rfl, ?_⟩
    have hs : c.selfTyAsTy = d.selfTy := by simp [Class.selfTyAsTy, hd]
    have h0 : ∀ l : List Cmd, (∀ x ∈ l, ∀ k ∈ x.keys, k ∈ outVal c :: inVal c :: jlong :: key (lit "jobject") ::
          ⟨lit "jobject", some d.thisTy⟩ :: (tys d).map key) →
        ∀ x ∈ l, ∀ k ∈ x.keys, k = outVal c ∨ k = inVal c ∨ k = jlong ∨ k = key (lit "jobject") ∨ k = ⟨lit "jobject", some d.thisTy⟩ ∨
          ∃ t ∈ tys d, k = key t := by
      intro l h x hx k hk
      have := h x hx k hk
      simp only [List.mem_cons, List.mem_map] at this
      rcases this with h | h | h | h | h | ⟨t, h1, h2⟩
      · exact Or.inl h
      · exact Or.inr (Or.inl h)
      · exact Or.inr (Or.inr (Or.inl h))
      · exact Or.inr (Or.inr (Or.inr (Or.inl h)))
      · exact Or.inr (Or.inr (Or.inr (Or.inr (Or.inl h))))
      · exact Or.inr (Or.inr (Or.inr (Or.inr (Or.inr ⟨t, h1, h2.symm⟩))))
    refine h0 _ ?_ x hx k hk
    rw [hs]
    clear hx hk x k h0 hs hd
    simp only [selfTypeCmds, mainCmds, ruleCmds, refType]
    by_cases h2 : d.selfTy = d.thisTy <;>
      simp [h2, Cmd.keys, FRuleN.keys, tys]

/-- The Rust types the foreign types of a class stand for. -/
theorem classStands (ann : Bool) (c : Class) (x : Cmd) (hx : x ∈ classCmds ann c) (dir : Select.Dir) (n : Text) (hn : stdKey dir x = some n) :
    ∃ d, c.desc = some d ∧ (n = (outVal c).name ∨ n = (inVal c).name ∨ n ∈ tys d) := by
  have kname : ∀ t, (key t).name = t := fun _ => rfl
  unfold classCmds at hx
  cases hd : c.desc with
  | none =>
    rw [hd] at hx
    simp only [List.mem_singleton] at hx
    subst hx; cases hn
  | some d =>
    rw [hd] at hx
    refine ⟨d, rfl, ?_⟩
    have h0 : ∀ l : List Cmd, (∀ x ∈ l, ∀ n, stdKey dir x = some n → n ∈ (outVal c).name :: (inVal c).name :: tys d) →
        ∀ x ∈ l, stdKey dir x = some n → n = (outVal c).name ∨ n = (inVal c).name ∨ n ∈ tys d := by
      intro l h x hx hn
      have := h x hx n hn
      simpa only [List.mem_cons] using this
    refine h0 _ ?_ x hx hn
    clear hx hn x h0 hd
    simp only [selfTypeCmds, mainCmds, ruleCmds, refType]
    cases dir <;> by_cases h2 : d.selfTy = d.thisTy <;>
      simp [h2, stdKey, tys, kname]

theorem rulesOf_class (ann : Bool) (c : Class) (d : Desc) (hd : c.desc = some d) : rulesOf (classCmds ann c) =
    [(lit "jlong", refOf d.inner, borrowCode d), (lit "jlong", mutRefOf d.inner, borrowMutCode d),
     (d.thisTy, lit "jobject", objectCode), (d.thisTy, (outVal c).name, giveCode d), ((inVal c).name, d.thisTy, inCode c d)] := by
  have kname : ∀ t, (key t).name = t := fun _ => rfl
  simp only [classCmds, hd, selfTypeCmds, mainCmds, ruleCmds, refType]
  by_cases h2 : d.selfTy = d.thisTy <;>
    simp [h2, rulesOf, kname, jlong]

/-- Two different classes of the list have no type in common. -/
theorem Separate.ne {l m : List Class} {c c' : Class} {d d' : Desc} (hs : Separate (l ++ c :: m)) (hc : c' ∈ l ∨ c' ∈ m)
    (hd : c.desc = some d) (hd' : c'.desc = some d') : ∀ t ∈ tys d, t ∉ tys d' := by
  rw [Separate, List.pairwise_append, List.pairwise_cons] at hs
  intro t ht ht'
  rcases hc with hc | hc
  · exact hs.2.2 c' hc c List.mem_cons_self d' d hd' hd t ht' ht
  · exact hs.2.1.1 c' hc d d' hd hd' t ht ht'

/-- In a class with other types no foreign type stands for a given type. -/
theorem other_class {ann : Bool} {l : List Class} {d : Desc} (hs : ∀ c' ∈ l, ∀ d', c'.desc = some d' → ∀ t ∈ tys d', t ∉ tys d)
    (dir : Select.Dir) (n : Text) (hn : (n ∈ tys d ∧ Char.ofNat 0 ∉ n) ) :
    ∀ c' ∈ l, ∀ y ∈ classCmds ann c', decide (stdKey dir y = some n) = false := by
  intro c' hc' y hy
  simp only [decide_eq_false_iff_not]
  intro he
  obtain ⟨d', hd', h⟩ := classStands ann c' y hy dir n he
  rcases h with rfl | rfl | h
  · exact hn.2 (nul_suffix _ _)
  · exact hn.2 (nul_suffix _ _)
  · exact hs c' hc' d' hd' n h hn.1

/-! ## C64 -/

/-- Registration succeeds exactly if the `SmartPtrCopy` classes are held by `Rc` or `Arc` and the Java names the classes occupy are free
and different from each other. -/
theorem C64_accepted (ann : Bool) (st : St) (h : Inv st) (cs : List Class) :
    (∃ st', registerAll ann st cs = .ok st') ↔
      (∀ c ∈ cs, CopyOk c) ∧ (∀ n ∈ cs.flatMap (javaNames ann), st.fts.findByName n = none) ∧ (cs.flatMap (javaNames ann)).Nodup := by
  rw [← ftNames_all]
  constructor
  · rintro ⟨st', hr⟩
    obtain ⟨h1, h2⟩ := (registerAll_eq ann cs st st').1 hr
    refine ⟨h1, ?_⟩
    rcases run_spec (cs.flatMap (classCmds ann)) h with ⟨h3, _⟩ | ⟨_, h4⟩
    · exact h3
    · rw [h4] at h2; cases h2
  · rintro ⟨h1, h2⟩
    rcases run_spec (cs.flatMap (classCmds ann)) h with ⟨_, st', h4, _⟩ | ⟨h3, _⟩
    · exact ⟨st', (registerAll_eq ann cs st st').2 ⟨h1, h4⟩⟩
    · exact absurd h2 h3

/-- What earlier registrations made is left alone: all foreign types stay (new ones come after them), known types keep what is known
about them, and only conversions of the registered classes change. -/
theorem C64_frame (ann : Bool) (st st' : St) (h : Inv st) (cs : List Class) (hr : registerAll ann st cs = .ok st') :
    Inv st' ∧ st.fts.ftypes <+: st'.fts.ftypes ∧ (∀ n i, st.tm.names n = some i → st'.tm.names n = some i) ∧
    (∀ n r, info st n = some r → info st' n = some r) ∧
    (∀ x y w, (∀ c ∈ cs, ∀ d, c.desc = some d → x ≠ d.thisTy ∧ y ≠ d.thisTy ∧ y ≠ refOf d.inner ∧ y ≠ mutRefOf d.inner) →
      (HasRule st'.tm x y w ↔ HasRule st.tm x y w)) := by
  have hrun := ((registerAll_eq ann cs st st').1 hr).2
  have hd := run_done h hrun
  refine ⟨hd.inv, ⟨_, hd.fts.symm⟩, hd.ext.names, fun n r hi => hd.ext.info h hi, fun x y w hx => ?_⟩
  rw [hd.rules, over_other]
  intro w' hm
  obtain ⟨c, hc, hm⟩ := (mem_rules_flat (classCmds ann)).1 hm
  cases hdd : c.desc with
  | none => simp only [classCmds, hdd] at hm; cases hm
  | some d =>
    obtain ⟨h1, h2, h3, h4⟩ := hx c hc d hdd
    rw [rulesOf_class ann c d hdd] at hm
    simp only [List.mem_cons, List.not_mem_nil, or_false, Prod.mk.injEq] at hm
    rcases hm with hm | hm | hm | hm | hm
    · exact h3 hm.2.1
    · exact h4 hm.2.1
    · exact h1 hm.1
    · exact h1 hm.1
    · exact h2 hm.2.1

/-- Objects and references to them are used as the Java class in functions: objects in both directions, references when they are passed
to Rust.  An object passed by value is read from the Java object as a `long`, and the Java object forgets it unless the class is
copied (`Copy` or `SmartPtrCopy`).  This holds for any number of classes, as long as no earlier class and no older foreign type stands
for these Rust types. -/
theorem C64_lookup (P : Graph.PopFn) (ann : Bool) (st st' : St) (h : Inv st) (l m : List Class) (c : Class)
    (hr : registerAll ann st (l ++ c :: m) = .ok st') (d : Desc) (hd : c.desc = some d) (ho : OrdinaryDesc' d)
    (hs : ∀ c' ∈ l, ∀ d', c'.desc = some d' → ∀ t ∈ tys d', t ∉ tys d)
    (hold : ∀ t ∈ tys d, ∀ i, st.tm.names t = some i → ∀ dir, ∀ ft ∈ st.fts.ftypes, stands dir ft ≠ some i) :
    (∃ ft, chosen P st' true d.thisTy = some ft ∧ ft.name.display = (if ann then lit "@NonNull " else []) ++ c.name ∧
      Goes st' ft.into d.thisTy (outVal c).name
        (lit "        " ++ c.name ++ lit " {to_var} = new " ++ c.name ++ lit "(InternalPointerMarker.RAW_PTR, {from_var});")) ∧
    (∃ ft, chosen P st' false d.thisTy = some ft ∧ ft.name.display = (if ann then lit "@NonNull " else []) ++ c.name ∧
      Goes st' ft.frm d.thisTy (inVal c).name (lit "\n        long {to_var} = {from_var}.mNativeObj;\n" ++
        (if lit "Copy" ∈ c.derives ∨ lit "SmartPtrCopy" ∈ c.derives then [] else lit "        {from_var}.mNativeObj = 0;\n"))) ∧
    (∀ t ∈ [refOf d.inner, mutRefOf d.inner] ++ (if d.selfTy ≠ d.thisTy then [refOf d.selfTy, mutRefOf d.selfTy] else []),
      ∃ ft, chosen P st' false t = some ft ∧ ft.name.display = (if ann then lit "@NonNull " else []) ++ c.name ∧
        Goes st' ft.frm t (lit "jlong") (lit "        long {to_var} = {from_var}.mNativeObj;")) := by
  have hrun := ((registerAll_eq ann _ st st').1 hr).2
  have hno := tys_noNul ho
  have nv : ∀ t ∈ tys d, (outVal c).name ≠ t := fun t ht he => hno t ht (he ▸ nul_suffix _ _)
  have nc : ∀ t ∈ tys d, (inVal c).name ≠ t := fun t ht he => hno t ht (he ▸ nul_suffix _ _)
  have go : ∀ (dir : Select.Dir) (n : Text), n ∈ tys d → ∀ x, (classCmds ann c).find? (fun c => decide (stdKey dir c = some n)) = some x →
      ((l ++ c :: m).flatMap (classCmds ann)).find? (fun c => decide (stdKey dir c = some n)) = some x := by
    intro dir n hn x hx
    exact find_flat (classCmds ann) _ l m c x (other_class hs dir n ⟨hn, hno n hn⟩) hx
  have mT : d.thisTy ∈ tys d := by simp [tys]
  have mRU : refOf d.inner ∈ tys d := by simp [tys]
  have mMU : mutRefOf d.inner ∈ tys d := by simp [tys]
  have mRS : refOf d.selfTy ∈ tys d := by simp [tys]
  have mMS : mutRefOf d.selfTy ∈ tys d := by simp [tys]
  have hann : (if ann then lit "@NonNull " else []) = annot ann := rfl
  have w1 : lit "        " ++ c.name ++ lit " {to_var} = new " ++ c.name ++ lit "(InternalPointerMarker.RAW_PTR, {from_var});" = wrapOut c := by
    have f1 : lit " {to_var} = new " = lit " " ++ tv ++ lit " = new " := by unfold tv Template.toVar lit; decide
    have f2 : lit "(InternalPointerMarker.RAW_PTR, {from_var});" = lit "(InternalPointerMarker.RAW_PTR, " ++ fv ++ lit ");" := by
      unfold fv Template.fromVar lit; decide
    simp only [wrapOut, f1, f2, List.append_assoc]
  have w2 : lit "\n        long {to_var} = {from_var}.mNativeObj;\n" ++
        (if lit "Copy" ∈ c.derives ∨ lit "SmartPtrCopy" ∈ c.derives then [] else lit "        {from_var}.mNativeObj = 0;\n") = readVal c := by
    have f1 : lit "\n        long {to_var} = {from_var}.mNativeObj;\n" = lit "\n        long " ++ tv ++ lit " = " ++ fv ++ lit ".mNativeObj;\n" := by
      unfold tv fv Template.toVar Template.fromVar lit; decide
    have f2 : lit "        {from_var}.mNativeObj = 0;\n" = lit "        " ++ fv ++ lit ".mNativeObj = 0;\n" := by
      unfold fv Template.fromVar lit; decide
    have hcp : c.has "Copy" = decide (lit "Copy" ∈ c.derives) := by simp [Class.has]
    have hsp : c.has "SmartPtrCopy" = decide (lit "SmartPtrCopy" ∈ c.derives) := by simp [Class.has]
    rw [readVal, ← f1, ← f2, hcp, hsp]
    by_cases h2 : lit "Copy" ∈ c.derives <;> by_cases h3 : lit "SmartPtrCopy" ∈ c.derives <;> simp [h2, h3]
  have w3 : lit "        long {to_var} = {from_var}.mNativeObj;" = readPtr := by
    unfold readPtr tv fv Template.toVar Template.fromVar lit; decide
  have kname : ∀ t, (key t).name = t := fun _ => rfl
  have e1 : d.thisTy ≠ refOf d.inner := ho.this.neRef
  have e2 : d.thisTy ≠ mutRefOf d.inner := ho.this.neMutRef
  have e3 : d.thisTy ≠ refOf d.selfTy := ho.this.neRef
  have e4 : d.thisTy ≠ mutRefOf d.selfTy := ho.this.neMutRef
  have e5 : refOf d.inner ≠ mutRefOf d.inner := refOf_ne_mut ho.inner
  have e6 : refOf d.inner ≠ mutRefOf d.selfTy := refOf_ne_mut ho.inner
  have e7 : mutRefOf d.inner ≠ refOf d.selfTy := (refOf_ne_mut ho.self).symm
  have e8 : mutRefOf d.selfTy ≠ refOf d.selfTy := (refOf_ne_mut ho.self).symm
  rw [w1, w2, w3, hann]
  have hp1 := go true _ mT (.ftype c.src [] (annot ann ++ c.name) [] (some ⟨key d.thisTy, some (outVal c, wrapOut c)⟩) (some ⟨key d.thisTy, some (inVal c, readVal c)⟩))
    (by simp [classCmds, hd, selfTypeCmds, mainCmds, ruleCmds, refType, stdKey, kname, nv _ mT, nc _ mT, -List.find?_append])
  have hp2 := go false _ mT (.ftype c.src [] (annot ann ++ c.name) [] (some ⟨key d.thisTy, some (outVal c, wrapOut c)⟩) (some ⟨key d.thisTy, some (inVal c, readVal c)⟩))
    (by simp [classCmds, hd, selfTypeCmds, mainCmds, ruleCmds, refType, stdKey, kname, nv _ mT, nc _ mT, -List.find?_append])
  have hp3 := go false _ mRU (.ftype c.src (lit "/*ref*/") (annot ann ++ c.name) [] none (some ⟨key (refOf d.inner), some (jlong, readPtr)⟩))
    (by simp [classCmds, hd, selfTypeCmds, mainCmds, ruleCmds, refType, stdKey, kname, nv _ mRU, nc _ mRU, e1, -List.find?_append])
  have hp4 := go false _ mMU (.ftype c.src (lit "/*mut ref*/") (annot ann ++ c.name) [] none (some ⟨key (mutRefOf d.inner), some (jlong, readPtr)⟩))
    (by simp [classCmds, hd, selfTypeCmds, mainCmds, ruleCmds, refType, stdKey, kname, nv _ mMU, nc _ mMU, e2, e5, -List.find?_append])
  have noMods : ∀ {P : FType Text → Prop} {Q : FType Text → Prop} {x : Option (FType Text)},
      (∃ ft, x = some ft ∧ P ft ∧ ft.provided = [] ∧ Q ft) → ∃ ft, x = some ft ∧ P ft ∧ Q ft :=
    fun ⟨ft, a, b, _, d⟩ => ⟨ft, a, b, d⟩
  have r3 := noMods (lookup_goes P h hrun false _ (fun i hi => hold _ mRU i hi false) rfl hp3)
  have r4 := noMods (lookup_goes P h hrun false _ (fun i hi => hold _ mMU i hi false) rfl hp4)
  refine ⟨noMods (lookup_goes P h hrun true d.thisTy (fun i hi => hold _ mT i hi true) rfl hp1),
    noMods (lookup_goes P h hrun false d.thisTy (fun i hi => hold _ mT i hi false) rfl hp2), ?_⟩
  intro t ht
  rcases List.mem_append.1 ht with ht | ht
  · simp only [List.mem_cons, List.not_mem_nil, or_false] at ht
    rcases ht with rfl | rfl
    · exact r3
    · exact r4
  · split at ht
    · rename_i hst
      simp only [List.mem_cons, List.not_mem_nil, or_false] at ht
      by_cases hsu : d.selfTy = d.inner
      · rw [hsu] at ht
        rcases ht with rfl | rfl
        · exact r3
        · exact r4
      · have hne : refOf d.inner ≠ refOf d.selfTy := fun he => hsu (refOf_inj.1 he).symm
        have hne' : mutRefOf d.inner ≠ mutRefOf d.selfTy := fun he => hsu (mutRefOf_inj.1 he).symm
        rcases ht with rfl | rfl
        · have hp6 := go false _ mRS (.ftype c.src (lit "/*mut ref 2*/") (annot ann ++ c.name) [] none (some ⟨key (refOf d.selfTy), some (jlong, readPtr)⟩))
            (by simp [classCmds, hd, selfTypeCmds, mainCmds, ruleCmds, refType, stdKey, kname, nv _ mRS, nc _ mRS, e3, e7, e8, hne, hst, -List.find?_append])
          exact noMods (lookup_goes P h hrun false _ (fun i hi => hold _ mRS i hi false) rfl hp6)
        · have hp7 := go false _ mMS (.ftype c.src (lit "/*ref 2*/") (annot ann ++ c.name) [] none (some ⟨key (mutRefOf d.selfTy), some (jlong, readPtr)⟩))
            (by simp [classCmds, hd, selfTypeCmds, mainCmds, ruleCmds, refType, stdKey, kname, nv _ mMS, nc _ mMS, e4, e6, hne', hst, -List.find?_append])
          exact noMods (lookup_goes P h hrun false _ (fun i hi => hold _ mMS i hi false) rfl hp7)
    · cases ht

/-- A class is exported with objects. -/
def HasObjects (c : Class) : Prop := c.desc ≠ none

/-- Cut at the asterisks. -/
theorem javaNames_map (ann : Bool) (c : Class) (hn : '*' ∉ c.name) (d : Desc) (hd : c.desc = some d) : (javaNames ann c).map (cut '*') =
    [[lit "/", c.name ++ lit "OutVal", lit "/long"], [lit "/", c.name ++ lit "InVal", lit "/long"], [annot ann ++ c.name],
     [lit "/", lit "ref", lit "/" ++ annot ann ++ c.name], [lit "/", lit "mut ref", lit "/" ++ annot ann ++ c.name]] ++
    (if d.selfTy ≠ d.thisTy then [[lit "/", lit "ref 2", lit "/" ++ annot ann ++ c.name], [lit "/", lit "mut ref 2", lit "/" ++ annot ann ++ c.name]]
     else []) := by
  have hs : '*' ∉ lit "/" := by unfold lit; decide
  have hl : '*' ∉ lit "/long" := by unfold lit; decide
  have ha : '*' ∉ annot ann := by cases ann <;> (unfold annot lit; decide)
  have hO : '*' ∉ c.name ++ lit "OutVal" := by simp only [List.mem_append, not_or]; exact ⟨hn, by unfold lit; decide⟩
  have hI : '*' ∉ c.name ++ lit "InVal" := by simp only [List.mem_append, not_or]; exact ⟨hn, by unfold lit; decide⟩
  have hN : '*' ∉ annot ann ++ c.name := by simp only [List.mem_append, not_or]; exact ⟨ha, hn⟩
  have hN2 : '*' ∉ lit "/" ++ annot ann ++ c.name := by simp only [List.mem_append, not_or]; exact ⟨⟨hs, ha⟩, hn⟩
  have r1 : '*' ∉ lit "ref" := by unfold lit; decide
  have r2 : '*' ∉ lit "mut ref" := by unfold lit; decide
  have r3 : '*' ∉ lit "ref 2" := by unfold lit; decide
  have r4 : '*' ∉ lit "mut ref 2" := by unfold lit; decide
  have l1 : lit "/*" = lit "/" ++ '*' :: [] := by unfold lit; decide
  have l2 : lit "OutVal*/long" = lit "OutVal" ++ '*' :: lit "/long" := by unfold lit; decide
  have l3 : lit "InVal*/long" = lit "InVal" ++ '*' :: lit "/long" := by unfold lit; decide
  have l4 : lit "/*ref*/" = lit "/" ++ '*' :: (lit "ref" ++ '*' :: lit "/") := by unfold lit; decide
  have l5 : lit "/*mut ref*/" = lit "/" ++ '*' :: (lit "mut ref" ++ '*' :: lit "/") := by unfold lit; decide
  have l6 : lit "/*ref 2*/" = lit "/" ++ '*' :: (lit "ref 2" ++ '*' :: lit "/") := by unfold lit; decide
  have l7 : lit "/*mut ref 2*/" = lit "/" ++ '*' :: (lit "mut ref 2" ++ '*' :: lit "/") := by unfold lit; decide
  have w1 : cut '*' (lit "/*" ++ c.name ++ lit "OutVal*/long") = [lit "/", c.name ++ lit "OutVal", lit "/long"] := by
    rw [l1, l2, List.append_assoc, List.append_assoc, List.cons_append, List.nil_append, cut_app _ hs, ← List.append_assoc, cut_app _ hO, cut_one hl]
  have w2 : cut '*' (lit "/*" ++ c.name ++ lit "InVal*/long") = [lit "/", c.name ++ lit "InVal", lit "/long"] := by
    rw [l1, l3, List.append_assoc, List.append_assoc, List.cons_append, List.nil_append, cut_app _ hs, ← List.append_assoc, cut_app _ hI, cut_one hl]
  have wr : ∀ (pre r : Text), pre = lit "/" ++ '*' :: (r ++ '*' :: lit "/") → '*' ∉ r →
      cut '*' (pre ++ annot ann ++ c.name) = [lit "/", r, lit "/" ++ annot ann ++ c.name] := by
    intro pre r hp hr
    rw [hp]
    simp only [List.append_assoc, List.cons_append]
    rw [cut_app _ hs, cut_app _ hr, cut_one]
    simpa only [List.append_assoc] using hN2
  simp only [javaNames, hd]
  by_cases h2 : d.selfTy = d.thisTy <;>
    simp only [h2, if_false, if_true, List.map_append, List.map_cons, List.map_nil, w1, w2, cut_one hN, wr _ _ l4 r1, wr _ _ l5 r2, wr _ _ l6 r3,
      wr _ _ l7 r4, ne_eq, not_true_eq_false, not_false_eq_true]

/-- The Java names of classes whose names are identifiers are different from each other exactly if the names of the classes that have
objects are. -/
theorem C64_names (ann : Bool) (cs : List Class) (hid : ∀ c ∈ cs, '*' ∉ c.name) :
    (cs.flatMap (javaNames ann)).Nodup ↔ cs.Pairwise fun a b => HasObjects a → HasObjects b → a.name ≠ b.name := by
  have e1 : ∀ (a b : Text), a ++ lit "OutVal" ≠ b ++ lit "InVal" := by
    intro a b he
    have := congrArg (fun t : Text => t.reverse[4]?) he
    unfold lit at this
    simp at this
  have e2 : ∀ (a : Text), ∀ r ∈ [lit "ref", lit "mut ref", lit "ref 2", lit "mut ref 2"],
      a ++ lit "OutVal" ≠ r ∧ a ++ lit "InVal" ≠ r := by
    intro a r hr
    constructor <;>
    · intro he
      have := congrArg List.getLast? he
      simp only [List.mem_cons, List.not_mem_nil, or_false] at hr
      rcases hr with rfl | rfl | rfl | rfl <;> (unfold lit at this; simp at this)
  have d1 : lit "ref" ≠ lit "mut ref" := by unfold lit; decide
  have d2 : lit "ref" ≠ lit "ref 2" := by unfold lit; decide
  have d3 : lit "ref" ≠ lit "mut ref 2" := by unfold lit; decide
  have d4 : lit "mut ref" ≠ lit "ref 2" := by unfold lit; decide
  have d5 : lit "mut ref" ≠ lit "mut ref 2" := by unfold lit; decide
  have d6 : lit "ref 2" ≠ lit "mut ref 2" := by unfold lit; decide
  unfold List.Nodup
  rw [List.pairwise_flatMap]
  constructor
  · rintro ⟨_, h⟩
    refine h.imp ?_
    intro a b h ha hb he
    obtain ⟨da, hda⟩ := Option.ne_none_iff_exists'.1 ha
    obtain ⟨db, hdb⟩ := Option.ne_none_iff_exists'.1 hb
    exact h (annot ann ++ a.name) (by simp [javaNames, hda]) (annot ann ++ b.name) (by simp [javaNames, hdb]) (by rw [he])
  · intro h
    constructor
    · intro c hc
      cases hd : c.desc with
      | none => simp [javaNames, hd]
      | some d =>
        have hnd : ((javaNames ann c).map (cut '*')).Nodup := by
          rw [javaNames_map ann c (hid c hc) d hd]
          have s1 := e1 c.name c.name
          have s2 := e2 c.name
          simp only [List.mem_cons, List.not_mem_nil, or_false, forall_eq_or_imp, forall_eq] at s2
          by_cases h2 : d.selfTy = d.thisTy <;>
            simp [h2, d1, d2, d3, d4, d5, d6, s1, s2]
        exact List.Pairwise.of_map (cut '*') (fun x y h he => h (he ▸ rfl)) hnd
    · refine List.Pairwise.imp_of_mem ?_ h
      intro a b ha hb hn x hx y hy hxy
      subst hxy
      cases hda : a.desc with
      | none => simp [javaNames, hda] at hx
      | some da =>
        cases hdb : b.desc with
        | none => simp [javaNames, hdb] at hy
        | some db =>
          refine hn (by simp [HasObjects, hda]) (by simp [HasObjects, hdb]) ?_
          have ma : cut '*' x ∈ (javaNames ann a).map (cut '*') := List.mem_map.2 ⟨x, hx, rfl⟩
          have mb : cut '*' x ∈ (javaNames ann b).map (cut '*') := List.mem_map.2 ⟨x, hy, rfl⟩
          rw [javaNames_map ann a (hid a ha) da hda] at ma
          rw [javaNames_map ann b (hid b hb) db hdb] at mb
          have form : ∀ (c : Class) (d : Desc), cut '*' x ∈ [[lit "/", c.name ++ lit "OutVal", lit "/long"], [lit "/", c.name ++ lit "InVal", lit "/long"], [annot ann ++ c.name],
              [lit "/", lit "ref", lit "/" ++ annot ann ++ c.name], [lit "/", lit "mut ref", lit "/" ++ annot ann ++ c.name]] ++
              (if d.selfTy ≠ d.thisTy then [[lit "/", lit "ref 2", lit "/" ++ annot ann ++ c.name], [lit "/", lit "mut ref 2", lit "/" ++ annot ann ++ c.name]] else []) →
              cut '*' x = [lit "/", c.name ++ lit "OutVal", lit "/long"] ∨ cut '*' x = [lit "/", c.name ++ lit "InVal", lit "/long"] ∨
              cut '*' x = [annot ann ++ c.name] ∨ ∃ r ∈ [lit "ref", lit "mut ref", lit "ref 2", lit "mut ref 2"], cut '*' x = [lit "/", r, lit "/" ++ annot ann ++ c.name] := by
            intro c d hm
            rcases List.mem_append.1 hm with hm | hm
            · simp only [List.mem_cons, List.not_mem_nil, or_false] at hm
              rcases hm with h | h | h | h | h
              · exact Or.inl h
              · exact Or.inr (Or.inl h)
              · exact Or.inr (Or.inr (Or.inl h))
              · exact Or.inr (Or.inr (Or.inr ⟨_, by simp, h⟩))
              · exact Or.inr (Or.inr (Or.inr ⟨_, by simp, h⟩))
            · split at hm
              · simp only [List.mem_cons, List.not_mem_nil, or_false] at hm
                rcases hm with h | h
                · exact Or.inr (Or.inr (Or.inr ⟨_, by simp, h⟩))
                · exact Or.inr (Or.inr (Or.inr ⟨_, by simp, h⟩))
              · cases hm
          rcases form a da ma with h1 | h1 | h1 | ⟨r, hr, h1⟩ <;> rw [h1] at form <;>
          rcases form b db (h1 ▸ mb) with h3 | h3 | h3 | ⟨r', hr', h3⟩ <;>
            simp only [List.cons.injEq, List.append_cancel_right_eq, List.append_cancel_left_eq, and_true, true_and, reduceCtorEq, and_false, false_and] at h3
          · exact h3
          · exact absurd h3 (e1 _ _)
          · exact absurd h3.1 (e2 _ r' hr').1
          · exact absurd h3.symm (e1 _ _)
          · exact h3
          · exact absurd h3.1 (e2 _ r' hr').2
          · exact h3
          · exact absurd h3.1.symm (e2 _ r hr).1
          · exact absurd h3.1.symm (e2 _ r hr).2
          · exact h3.2

theorem suffix_inj {t a b : Text} (h : (⟨t, some a⟩ : Key).name = (⟨t, some b⟩ : Key).name) : a = b := by
  simpa [Key.name, FTypes.makeUniqueIfNeed, FTypes.makeUnique] using h

theorem out_ne_in (a b : Class) : (outVal a).name ≠ (inVal b).name := by
  intro he
  have he := suffix_inj he
  have := congrArg (fun t : Text => t.reverse[4]?) he
  unfold lit at this
  simp at this

/-- The `long` an object is passed as is a type of its own: `long` in Java, one for each class and direction. -/
theorem C64_native_types (P : Graph.PopFn) (ann : Bool) (st st' : St) (h : Inv st) (cs : List Class) (hr : registerAll ann st cs = .ok st')
    (hall : ∀ c ∈ cs, ∀ d, c.desc = some d → OrdinaryDesc' d) (c : Class) (hc : c ∈ cs) (d : Desc) (hd : c.desc = some d)
    (hold : ∀ t ∈ [(outVal c).name, (inVal c).name], ∀ i, st.tm.names t = some i → ∀ dir, ∀ ft ∈ st.fts.ftypes, stands dir ft ≠ some i) :
    (∃ ft, chosen P st' true (outVal c).name = some ft ∧ ft.name.display = lit "long" ∧ Direct st' ft.into (outVal c).name) ∧
    (∃ ft, chosen P st' false (inVal c).name = some ft ∧ ft.name.display = lit "long" ∧ Direct st' ft.frm (inVal c).name) ∧
    (outVal c).name ≠ (inVal c).name ∧
    ∀ c' ∈ cs, c'.desc ≠ none → c'.name ≠ c.name →
      (outVal c').name ∉ [(outVal c).name, (inVal c).name] ∧ (inVal c').name ∉ [(outVal c).name, (inVal c).name] := by
  obtain ⟨l, m, rfl⟩ := List.append_of_mem hc
  have hrun := ((registerAll_eq ann _ st st').1 hr).2
  have hnd := ((C64_accepted ann st h _).1 ⟨st', hr⟩).2.2
  have hname : ∀ c' ∈ l, ∀ d', c'.desc = some d' → c'.name ≠ c.name := by
    intro c' hc' d' hd' he
    rw [List.flatMap_append, List.flatMap_cons] at hnd
    have := (List.nodup_append.1 hnd).2.2 (annot ann ++ c'.name) (List.mem_flatMap.2 ⟨c', hc', by simp [javaNames, hd']⟩)
      (annot ann ++ c.name) (List.mem_append.2 (Or.inl (by simp [javaNames, hd])))
    exact this (by rw [he])
  have hne : ∀ c', c'.name ≠ c.name → (outVal c').name ≠ (outVal c).name ∧ (inVal c').name ≠ (inVal c).name := by
    intro c' hn
    constructor
    · intro he
      have := suffix_inj he
      simp only [List.append_cancel_right_eq] at this
      exact hn this
    · intro he
      have := suffix_inj he
      simp only [List.append_cancel_right_eq] at this
      exact hn this
  have kname : ∀ t, (key t).name = t := fun _ => rfl
  have go : ∀ (dir : Select.Dir) (n : Text), (n = (outVal c).name ∨ n = (inVal c).name) → ∀ x, (classCmds ann c).find? (fun c => decide (stdKey dir c = some n)) = some x →
      ((l ++ c :: m).flatMap (classCmds ann)).find? (fun c => decide (stdKey dir c = some n)) = some x := by
    intro dir n hn x hx
    refine find_flat (classCmds ann) _ l m c x ?_ hx
    intro c' hc' y hy
    simp only [decide_eq_false_iff_not]
    intro he
    obtain ⟨d', hd', h⟩ := classStands ann c' y hy dir n he
    have hn1 := hne c' (hname c' hc' d' hd')
    rcases h with h | h | h
    · rcases hn with hn | hn
      · exact hn1.1 (h ▸ hn)
      · exact out_ne_in c' c (h ▸ hn)
    · rcases hn with hn | hn
      · exact out_ne_in c c' (h ▸ hn).symm
      · exact hn1.2 (h ▸ hn)
    · refine tys_noNul (hall c' (by simp [hc']) d' hd') n h ?_
      rcases hn with rfl | rfl
      · exact nul_suffix _ _
      · exact nul_suffix _ _
  have hp1 := go true _ (Or.inl rfl) (.ftype c.src (outPre c) (lit "long") [] (some ⟨outVal c, none⟩) none)
    (by simp [classCmds, hd, selfTypeCmds, mainCmds, ruleCmds, refType, stdKey, -List.find?_append])
  have hp2 := go false _ (Or.inr rfl) (.ftype c.src (inPre c) (lit "long") [] none (some ⟨inVal c, none⟩))
    (by simp [classCmds, hd, selfTypeCmds, mainCmds, ruleCmds, refType, stdKey, -List.find?_append])
  obtain ⟨f1, a1, a2, _, a3⟩ := lookup_direct P h hrun true _ (fun i hi => hold _ (by simp) i hi true) (k := outVal c) rfl hp1
  obtain ⟨f2, b1, b2, _, b3⟩ := lookup_direct P h hrun false _ (fun i hi => hold _ (by simp) i hi false) (k := inVal c) rfl hp2
  refine ⟨⟨f1, a1, a2, a3⟩, ⟨f2, b1, b2, b3⟩, out_ne_in c c, ?_⟩
  intro c' _ _ hn
  simp only [List.mem_cons, List.not_mem_nil, or_false, not_or]
  exact ⟨⟨(hne c' hn).1, out_ne_in _ _⟩, ⟨fun he => out_ne_in _ _ he.symm, (hne c' hn).2⟩⟩

/-- The Rust conversions of classes: two with the same types belong to classes with a common type, or are the same. -/
theorem rules_unique {ann : Bool} {c c' : Class} {d d' : Desc} (hd : c.desc = some d) (hd' : c'.desc = some d') (ho : OrdinaryDesc' d)
    (ho' : OrdinaryDesc' d') {a b w w' : Text} (h : (a, b, w) ∈ rulesOf (classCmds ann c)) (h' : (a, b, w') ∈ rulesOf (classCmds ann c')) :
    (∃ t ∈ tys d, t ∈ tys d') ∧ (c = c' → w = w') := by
  have n1 := tys_noNul ho
  have n2 := tys_noNul ho'
  have m1 : ∀ d : Desc, refOf d.inner ∈ tys d := by intro d; simp [tys]
  have m2 : ∀ d : Desc, mutRefOf d.inner ∈ tys d := by intro d; simp [tys]
  have m4 : ∀ d : Desc, d.thisTy ∈ tys d := by intro d; simp [tys]
  have jn : Char.ofNat 0 ∉ lit "jlong" := by unfold lit; decide
  have on : Char.ofNat 0 ∉ lit "jobject" := by unfold lit; decide
  have r1 : refOf d.inner ≠ mutRefOf d.inner := refOf_ne_mut ho.inner
  have r4 : d.thisTy ≠ refOf d.inner := ho.this.neRef
  have r5 : d.thisTy ≠ mutRefOf d.inner := ho.this.neMutRef
  have no : ∀ x : Class, ∀ t, Char.ofNat 0 ∉ t → t ≠ (outVal x).name := fun x t ht he => ht (he ▸ nul_suffix _ _)
  have ni : ∀ x : Class, ∀ t, Char.ofNat 0 ∉ t → t ≠ (inVal x).name := fun x t ht he => ht (he ▸ nul_suffix _ _)
  rw [rulesOf_class ann c d hd] at h
  rw [rulesOf_class ann c' d' hd'] at h'
  have heq : c = c' → d = d' := fun he => by subst he; rw [hd] at hd'; cases hd'; rfl
  simp only [List.mem_cons, List.not_mem_nil, or_false, Prod.mk.injEq] at h h'
  rcases h with ⟨rfl, rfl, rfl⟩ | ⟨rfl, rfl, rfl⟩ | ⟨rfl, rfl, rfl⟩ | ⟨rfl, rfl, rfl⟩ | ⟨rfl, rfl, rfl⟩
  · rcases h' with ⟨e, f, rfl⟩ | ⟨e, f, rfl⟩ | ⟨e, f, rfl⟩ | ⟨e, f, rfl⟩ | ⟨e, f, rfl⟩
    · exact ⟨⟨_, m1 d, f ▸ m1 d'⟩, fun he => by rw [heq he]⟩
    · exact ⟨⟨_, m1 d, f ▸ m2 d'⟩, fun he => by have := heq he; subst this; exact absurd f r1⟩
    · exact absurd e.symm ho'.noLong
    · exact absurd e.symm ho'.noLong
    · exact absurd e (ni _ _ jn)
  · rcases h' with ⟨e, f, rfl⟩ | ⟨e, f, rfl⟩ | ⟨e, f, rfl⟩ | ⟨e, f, rfl⟩ | ⟨e, f, rfl⟩
    · exact ⟨⟨_, m2 d, f ▸ m1 d'⟩, fun he => by have := heq he; subst this; exact absurd f.symm r1⟩
    · exact ⟨⟨_, m2 d, f ▸ m2 d'⟩, fun he => by rw [heq he]⟩
    · exact absurd e.symm ho'.noLong
    · exact absurd e.symm ho'.noLong
    · exact absurd e (ni _ _ jn)
  · rcases h' with ⟨e, f, rfl⟩ | ⟨e, f, rfl⟩ | ⟨e, f, rfl⟩ | ⟨e, f, rfl⟩ | ⟨e, f, rfl⟩
    · exact absurd e ho.noLong
    · exact absurd e ho.noLong
    · exact ⟨⟨_, m4 d, e ▸ m4 d'⟩, fun _ => rfl⟩
    · exact absurd f (no _ _ on)
    · exact absurd e (ni _ _ (n1 _ (m4 d)))
  · rcases h' with ⟨e, f, rfl⟩ | ⟨e, f, rfl⟩ | ⟨e, f, rfl⟩ | ⟨e, f, rfl⟩ | ⟨e, f, rfl⟩
    · exact absurd e ho.noLong
    · exact absurd e ho.noLong
    · exact absurd f.symm (no _ _ on)
    · exact ⟨⟨_, m4 d, e ▸ m4 d'⟩, fun he => by rw [heq he]⟩
    · exact absurd e (ni _ _ (n1 _ (m4 d)))
  · rcases h' with ⟨e, f, rfl⟩ | ⟨e, f, rfl⟩ | ⟨e, f, rfl⟩ | ⟨e, f, rfl⟩ | ⟨e, f, rfl⟩
    · exact absurd e.symm (ni _ _ jn)
    · exact absurd e.symm (ni _ _ jn)
    · exact absurd e.symm (ni _ _ (n2 _ (m4 d')))
    · exact absurd e.symm (ni _ _ (n2 _ (m4 d')))
    · exact ⟨⟨_, m4 d, f ▸ m4 d'⟩, fun he => by rw [heq he, he]⟩

/-- The Rust side of every class has exactly the conversions it needs: a `jlong` is borrowed as `&U` or `&mut U`, objects are given out
as `jlong` or `jobject` and taken, shared or copied from a `jlong`; no other class interferes. -/
theorem C64_conversions (ann : Bool) (st st' : St) (h : Inv st) (cs : List Class) (hr : registerAll ann st cs = .ok st') (hs : Separate cs)
    (hall : ∀ c ∈ cs, ∀ d, c.desc = some d → OrdinaryDesc' d) (c : Class) (hc : c ∈ cs) (d : Desc) (hd : c.desc = some d) (w : Text) :
    (HasRule st'.tm (lit "jlong") (refOf d.inner) w ↔ w = borrowCode d) ∧
    (HasRule st'.tm (lit "jlong") (mutRefOf d.inner) w ↔ w = borrowMutCode d) ∧
    (HasRule st'.tm d.thisTy (lit "jobject") w ↔ w = objectCode) ∧
    (HasRule st'.tm d.thisTy (outVal c).name w ↔ w = giveCode d) ∧
    (HasRule st'.tm (inVal c).name d.thisTy w ↔ w = inCode c d) := by
  have hrun := ((registerAll_eq ann _ st st').1 hr).2
  have hdone := run_done h hrun
  have go : ∀ a b code, (a, b, code) ∈ rulesOf (classCmds ann c) → ∀ w, HasRule st'.tm a b w ↔ w = code := by
    intro a b code hm w
    rw [hdone.rules]
    refine over_mem _ _ a b code ((mem_rules_flat (classCmds ann)).2 ⟨c, hc, hm⟩) ?_ w
    intro c' hc'
    obtain ⟨x, hx, hm'⟩ := (mem_rules_flat (classCmds ann)).1 hc'
    cases hxd : x.desc with
    | none => simp only [classCmds, hxd] at hm'; cases hm'
    | some d' =>
      obtain ⟨⟨t, t1, t2⟩, hu⟩ := rules_unique hd hxd (hall c hc d hd) (hall x hx d' hxd) hm hm'
      obtain ⟨l, m, rfl⟩ := List.append_of_mem hc
      rcases List.mem_append.1 hx with h1 | h1
      · exact absurd t2 (hs.ne (Or.inl h1) hd hxd t t1)
      · rcases List.mem_cons.1 h1 with rfl | h1
        · exact (hu rfl).symm
        · exact absurd t2 (hs.ne (Or.inr h1) hd hxd t t1)
  refine ⟨go _ _ _ ?_ w, go _ _ _ ?_ w, go _ _ _ ?_ w, go _ _ _ ?_ w, go _ _ _ ?_ w⟩ <;>
    rw [rulesOf_class ann c d hd] <;> simp

/-- The Rust type of a class that was not known before implements exactly: `SwigForeignClass`, `Clone` if the class derives `Clone` or
`Copy`, `Copy` and `SmartPtrCopy` if it derives them. -/
theorem C64_traits (ann : Bool) (st st' : St) (h : Inv st) (cs : List Class) (hr : registerAll ann st cs = .ok st') (hs : Separate cs)
    (c : Class) (hc : c ∈ cs) (d : Desc) (hd : c.desc = some d) (ho : OrdinaryDesc' d) (hnew : st.tm.names d.thisTy = none)
    (hunit : d.thisTy ≠ lit "()") :
    ∃ r, info st' d.thisTy = some r ∧ r.tree = d.thisTy ∧ ∀ t, t ∈ r.traits ↔
      t = lit "SwigForeignClass" ∨ (t = lit "Clone" ∧ (lit "Clone" ∈ c.derives ∨ lit "Copy" ∈ c.derives)) ∨
      (t = lit "Copy" ∧ lit "Copy" ∈ c.derives) ∨ (t = lit "SmartPtrCopy" ∧ lit "SmartPtrCopy" ∈ c.derives) := by
  obtain ⟨l, m, rfl⟩ := List.append_of_mem hc
  have hrun := ((registerAll_eq ann _ st st').1 hr).2
  have hcl : classCmds ann c = .alloc (key d.thisTy) c.traits :: (selfTypeCmds ann c d ++ [.alloc (key c.selfTyAsTy) []]) := by
    simp only [classCmds, hd]
  rw [List.flatMap_append, List.flatMap_cons, hcl, List.cons_append] at hrun
  refine ⟨_, run_traits h _ _ (key d.thisTy) c.traits hrun hnew ?_, rfl, ?_⟩
  · intro x hx k hk he
    have he : k.name = d.thisTy := he
    obtain ⟨c', hc', hx⟩ := List.mem_flatMap.1 hx
    have hnul := ho.this.noNul
    rcases classKeys ann c' x hx k hk with ⟨d', hd', h⟩ | ⟨_, rfl⟩
    · rcases h with rfl | rfl | rfl | rfl | rfl | ⟨t, ht, rfl⟩
      · exact hnul (he ▸ nul_suffix _ _)
      · exact hnul (he ▸ nul_suffix _ _)
      · exact ho.noLong he.symm
      · exact ho.noObj he.symm
      · exact hnul (he ▸ nul_suffix _ _)
      · have he : t = d.thisTy := he
        subst he
        exact hs.ne (Or.inl hc') hd hd' d.thisTy (by simp [tys]) ht
    · exact hunit he.symm
  · intro t
    have hcl : c.has "Clone" = decide (lit "Clone" ∈ c.derives) := by simp [Class.has]
    have hcp : c.has "Copy" = decide (lit "Copy" ∈ c.derives) := by simp [Class.has]
    have hsp : c.has "SmartPtrCopy" = decide (lit "SmartPtrCopy" ∈ c.derives) := by simp [Class.has]
    simp only [Class.traits, hcl, hcp, hsp]
    by_cases h1 : lit "Clone" ∈ c.derives <;> by_cases h2 : lit "Copy" ∈ c.derives <;> by_cases h3 : lit "SmartPtrCopy" ∈ c.derives <;>
      simp [h1, h2, h3]

/-- **Finding.**  A type that was known before keeps the traits it had: whatever the class derives, it is not recorded that its type is an
exported class, `Clone` or `Copy`. -/
theorem C64_finding_known_type_keeps_traits (ann : Bool) (st st' : St) (h : Inv st) (cs : List Class) (hr : registerAll ann st cs = .ok st')
    (d : Desc) (r : RInfo) (hi : info st d.thisTy = some r) : info st' d.thisTy = some r :=
  run_keeps_info h ((registerAll_eq ann _ st st').1 hr).2 hi

/-- Rust code that makes a pointer of a `jlong` and panics if it is null. -/
def CheckedPointer (ty code : Text) : Prop := (lit "jlong_to_pointer::<" ++ ty ++ lit ">({from_var}).as_mut().unwrap()") <:+: code

/-- All conversions from `jlong` panic on null pointers and treat the pointer as one to the type the object was put on the heap as (not
to the smart pointer around it); references are declared with their type, and results are put on the heap by `box_object` of the object type. -/
theorem C64_codes (c : Class) (d : Desc) :
    CheckedPointer d.inner (borrowCode d) ∧ (lit "let {to_var}: &" ++ d.inner ++ lit " = ") <:+: borrowCode d ∧
    CheckedPointer d.inner (borrowMutCode d) ∧ (lit "let {to_var}: &mut " ++ d.inner ++ lit " = ") <:+: borrowMutCode d ∧
    CheckedPointer d.inner (inCode c d) ∧
    (lit "let {to_var}: jlong = <" ++ d.thisTy ++ lit ">::box_object({from_var});") <:+: giveCode d ∧
    lit "let {to_var}: jobject = object_to_jobject(env, {from_var});" <:+: objectCode := by
  have mid : ∀ (a b x : Text), x <:+: a ++ (x ++ b) := fun a b x => ⟨a, b, by simp⟩
  have inl : ∀ (x a b : Text), x <:+: a → x <:+: a ++ b := fun x a b ⟨p, q, h⟩ => ⟨p, q ++ b, by rw [← h]; simp⟩
  have inr : ∀ (x a b : Text), x <:+: b → x <:+: a ++ b := fun x a b ⟨p, q, h⟩ => ⟨a ++ p, q, by rw [← h]; simp⟩
  have f0 : lit ">({from_var}).as_mut().unwrap()" = lit ">(" ++ fv ++ lit ").as_mut().unwrap()" := by
    unfold fv Template.fromVar lit; decide
  have f1 : lit "unsafe {\n            jlong_to_pointer::<" = lit "unsafe {\n            " ++ lit "jlong_to_pointer::<" := by unfold lit; decide
  have f2 : lit ").as_mut().unwrap()\n        };\n    " = lit ").as_mut().unwrap()" ++ lit "\n        };\n    " := by unfold lit; decide
  have ptr : CheckedPointer d.inner (fromLong d.inner) := by
    refine ⟨lit "unsafe {\n            ", lit "\n        };\n    ", ?_⟩
    simp only [fromLong, f0, f1, f2, List.append_assoc]
  have g1 : lit "let {to_var}: &" = lit "let " ++ tv ++ lit ": &" := by unfold tv Template.toVar lit; decide
  have g2 : lit "let {to_var}: &mut " = lit "let " ++ tv ++ lit ": &mut " := by unfold tv Template.toVar lit; decide
  have g3 : lit "\n        let " = lit "\n        " ++ lit "let " := by unfold lit; decide
  have g4 : lit "\n    let " = lit "\n    " ++ lit "let " := by unfold lit; decide
  have g5 : lit "let {to_var}: jlong = <" = lit "let " ++ tv ++ lit ": jlong = <" := by unfold tv Template.toVar lit; decide
  have g6 : lit ">::box_object({from_var});" = lit ">::box_object(" ++ fv ++ lit ");" := by unfold fv Template.fromVar lit; decide
  have g7 : lit ");\n" = lit ");" ++ lit "\n" := by unfold lit; decide
  have g8 : lit "let {to_var}: jobject = object_to_jobject(env, {from_var});" =
      lit "let " ++ tv ++ lit ": jobject = object_to_jobject(env, " ++ fv ++ lit ");" := by unfold tv fv Template.toVar Template.fromVar lit; decide +kernel
  refine ⟨inr _ _ _ ptr, ?_, inr _ _ _ ptr, ?_, ?_, ?_, ?_⟩
  · refine ⟨lit "\n        ", fromLong d.inner, ?_⟩
    simp only [borrowCode, g1, g3, List.append_assoc]
  · refine ⟨lit "\n        ", fromLong d.inner, ?_⟩
    simp only [borrowMutCode, g2, g3, List.append_assoc]
  · unfold inCode
    split
    · unfold shareCode
      iterate 10 apply inl
      exact inr _ _ _ ptr
    · split
      · unfold copyCode
        iterate 7 apply inl
        exact inr _ _ _ ptr
      · unfold takeCode
        iterate 2 apply inl
        exact inr _ _ _ ptr
  · refine ⟨lit "\n    ", lit "\n", ?_⟩
    simp only [giveCode, g4, g5, g6, g7, List.append_assoc]
  · refine ⟨lit "\n        ", lit "\n", ?_⟩
    simp only [objectCode, g3, g7, g8, List.append_assoc]

/-- Java gives an object away exactly if Rust takes it.  Passing an object of an ordinary class by value makes Java forget the pointer and
Rust rebuild the owner (`Box` or the smart pointer) of what it points to.  For `SmartPtrCopy` Java keeps the pointer and Rust clones the
smart pointer and forgets the rebuilt original; for `Copy` Java keeps the pointer and Rust copies the object behind it. -/
theorem C64_ownership (c : Class) (d : Desc) :
    (lit "Copy" ∉ c.derives → lit "SmartPtrCopy" ∉ c.derives →
      lit "{from_var}.mNativeObj = 0;" <:+: readVal c ∧
      (((d.smart.map (·.1)).getD (lit "Box")) ++ lit "::from_raw({to_var})") <:+: inCode c d ∧ ∃ pre, inCode c d = pre ++ unpack d ++ lit "\n    ") ∧
    (lit "SmartPtrCopy" ∈ c.derives →
      readVal c = lit "\n        long {to_var} = {from_var}.mNativeObj;\n" ∧
      ∃ pre, inCode c d = pre ++ unpack d ++ (lit "\n        let tmp: " ++ d.thisTy ++ lit " = {to_var};\n        let {to_var}: " ++ d.thisTy ++
        lit " = tmp.clone();\n        ::std::mem::forget(tmp);\n    ")) ∧
    (lit "Copy" ∈ c.derives → lit "SmartPtrCopy" ∉ c.derives →
      readVal c = lit "\n        long {to_var} = {from_var}.mNativeObj;\n" ∧
      inCode c d = lit "\n        let {to_var}: &" ++ d.inner ++ lit " = unsafe {\n            jlong_to_pointer::<" ++ d.inner ++
        lit ">({from_var}).as_mut().unwrap()\n        };\n        let {to_var}: " ++ d.inner ++ lit " = {to_var}.clone();\n    ") := by
  have hcp : c.has "Copy" = decide (lit "Copy" ∈ c.derives) := by simp [Class.has]
  have hsp : c.has "SmartPtrCopy" = decide (lit "SmartPtrCopy" ∈ c.derives) := by simp [Class.has]
  have f1 : lit "\n        long {to_var} = {from_var}.mNativeObj;\n" = lit "\n        long " ++ tv ++ lit " = " ++ fv ++ lit ".mNativeObj;\n" := by
    unfold tv fv Template.toVar Template.fromVar lit; decide
  have f2 : lit "{from_var}.mNativeObj = 0;" ++ lit "\n" = fv ++ lit ".mNativeObj = 0;\n" := by
    unfold fv Template.fromVar lit; decide
  refine ⟨fun h1 h2 => ?_, fun h2 => ?_, fun h1 h2 => ?_⟩
  · have hin : inCode c d = takeCode d := by simp only [inCode, hcp, hsp, h1, h2, decide_false, Bool.false_eq_true, if_false]
    refine ⟨?_, ?_, ?_⟩
    · refine ⟨(lit "\n        long " ++ tv ++ lit " = " ++ fv ++ lit ".mNativeObj;\n") ++ lit "        ", lit "\n", ?_⟩
      simp only [readVal, hcp, hsp, h1, h2, decide_false, Bool.not_false, Bool.and_self, if_true, List.append_assoc, f2]
    · rw [hin]
      have g : lit "::from_raw({to_var})" = lit "::from_raw(" ++ tv ++ lit ")" := by unfold tv Template.toVar lit; decide
      have g2 : lit ") };\n" = lit ")" ++ lit " };\n" := by unfold lit; decide
      have g3 : lit "> = unsafe { Box::from_raw(" = lit "> = unsafe { " ++ (lit "Box" ++ lit "::from_raw(") := by unfold lit; decide
      have hu : (((d.smart.map (·.1)).getD (lit "Box")) ++ lit "::from_raw({to_var})") <:+: unpack d := by
        unfold unpack
        cases d.smart with
        | some x =>
          refine ⟨lit "\n    let " ++ tv ++ lit ": " ++ d.thisTy ++ lit "  = unsafe { ", lit " };\n", ?_⟩
          simp only [Option.map_some, Option.getD_some, g, g2, List.append_assoc]
        | none =>
          refine ⟨lit "\n    let " ++ tv ++ lit ": Box<" ++ d.thisTy ++ lit "> = unsafe { ", lit " };\n" ++ (lit "\n    let " ++ tv ++ lit ": " ++ d.thisTy ++ lit " = *" ++ tv ++ lit ";\n") ++ lit "\n", ?_⟩
          simp only [Option.map_none, Option.getD_none, g, g2, g3, List.append_assoc]
      obtain ⟨p, q, h⟩ := hu
      refine ⟨lit "\n        let " ++ tv ++ lit ": *mut " ++ d.inner ++ lit " = " ++ fromLong d.inner ++ p, q ++ lit "\n    ", ?_⟩
      simp only [takeCode, ← h, List.append_assoc]
    · exact ⟨lit "\n        let " ++ tv ++ lit ": *mut " ++ d.inner ++ lit " = " ++ fromLong d.inner, by rw [hin, takeCode]⟩
  · have hin : inCode c d = shareCode d := by simp only [inCode, hsp, h2, decide_true, if_true]
    refine ⟨by simp only [readVal, hcp, hsp, h2, decide_true, Bool.not_true, Bool.and_false, Bool.false_eq_true, if_false, f1, List.append_nil], ?_⟩
    refine ⟨lit "\n        let " ++ tv ++ lit ": *mut " ++ d.inner ++ lit " = " ++ fromLong d.inner, ?_⟩
    have g : lit " = {to_var};\n        let {to_var}: " = lit " = " ++ tv ++ lit ";\n        let " ++ tv ++ lit ": " := by unfold tv Template.toVar lit; decide
    simp only [hin, shareCode, g, List.append_assoc]
  · have hin : inCode c d = copyCode d := by simp only [inCode, hcp, hsp, h1, h2, decide_true, decide_false, Bool.false_eq_true, if_false, if_true]
    refine ⟨by simp only [readVal, hcp, hsp, h1, decide_true, Bool.not_true, Bool.false_and, Bool.false_eq_true, if_false, f1, List.append_nil], ?_⟩
    have g1 : lit "\n        let {to_var}: &" = lit "\n        let " ++ tv ++ lit ": &" := by unfold tv Template.toVar lit; decide
    have g2 : lit ">({from_var}).as_mut().unwrap()\n        };\n        let {to_var}: " = lit ">(" ++ fv ++ lit ").as_mut().unwrap()\n        };\n    " ++ lit "    let " ++ tv ++ lit ": " := by
      unfold tv fv Template.toVar Template.fromVar lit; decide +kernel
    have g3 : lit " = {to_var}.clone();\n    " = lit " = " ++ tv ++ lit ".clone();\n    " := by unfold tv Template.toVar lit; decide
    have g4 : lit " = unsafe {\n            jlong_to_pointer::<" = lit " = " ++ lit "unsafe {\n            jlong_to_pointer::<" := by unfold lit; decide
    simp only [hin, copyCode, fromLong, g1, g2, g3, g4, List.append_assoc]

/-- **Finding.**  For a `Copy` class held by a smart pointer the code that should make the object type from a `jlong` declares (and makes)
a value of the type inside: passing such an object by value does not compile. -/
theorem C64_finding_copy_of_smart_pointer (ann : Bool) (st st' : St) (h : Inv st) (cs : List Class) (hr : registerAll ann st cs = .ok st')
    (hs : Separate cs) (hall : ∀ c ∈ cs, ∀ d, c.desc = some d → OrdinaryDesc' d) (c : Class) (hc : c ∈ cs) (d : Desc)
    (hd : c.desc = some d) (hcopy : lit "Copy" ∈ c.derives) (hsp : lit "SmartPtrCopy" ∉ c.derives) (p u : Text)
    (hsm : d.smart = some (p, u)) (w : Text) (hw : HasRule st'.tm (inVal c).name d.thisTy w) :
    (lit "let {to_var}: " ++ u ++ lit " = {to_var}.clone();\n    ") <:+ w := by
  obtain ⟨_, _, _, _, hc5⟩ := C64_conversions ann st st' h cs hr hs hall c hc d hd w
  rw [hc5.1 hw]
  have hcp : c.has "Copy" = true := by simp [Class.has, hcopy]
  have hspn : c.has "SmartPtrCopy" = false := by simp [Class.has, hsp]
  have hin : inCode c d = copyCode d := by simp only [inCode, hcp, hspn, Bool.false_eq_true, if_false, if_true]
  have hinner : d.inner = u := by simp [Desc.inner, hsm]
  have g1 : lit "let {to_var}: " = lit "let " ++ tv ++ lit ": " := by unfold tv Template.toVar lit; decide
  have g3 : lit " = {to_var}.clone();\n    " = lit " = " ++ tv ++ lit ".clone();\n    " := by unfold tv Template.toVar lit; decide
  have g4 : lit "    let " = lit "    " ++ lit "let " := by unfold lit; decide
  rw [hin, ← hinner]
  refine ⟨lit "\n        let " ++ tv ++ lit ": &" ++ d.inner ++ lit " = " ++ fromLong d.inner ++ lit "    ", ?_⟩
  simp only [copyCode, g1, g3, g4, List.append_assoc]

/-- **Finding.**  If two classes export the same Rust type, the Java class of the first is used for it in all functions: values of the
second class can be neither passed nor returned. -/
theorem C64_finding_same_type (P : Graph.PopFn) (ann : Bool) (st st' : St) (h : Inv st) (a b : Class) (d : Desc) (ha : a.desc = some d)
    (_hb : b.desc = some d) (hr : registerAll ann st [a, b] = .ok st') (ho : OrdinaryDesc' d)
    (hold : ∀ t ∈ tys d, ∀ i, st.tm.names t = some i → ∀ dir, ∀ ft ∈ st.fts.ftypes, stands dir ft ≠ some i) :
    ∀ dir, ∃ ft, chosen P st' dir d.thisTy = some ft ∧ ft.name.display = (if ann then lit "@NonNull " else []) ++ a.name := by
  obtain ⟨⟨f1, h1, h2, _⟩, ⟨f2, h3, h4, _⟩, _⟩ := C64_lookup P ann st st' h [] [b] a hr d ha ho (by simp) hold
  intro dir
  cases dir with
  | true => exact ⟨f1, h1, h2⟩
  | false => exact ⟨f2, h3, h4⟩

/-! ### Examples -/

/-- An empty type map. -/
def st0 : St := ⟨TMap.empty, FTypes.Storage.empty⟩

theorem st0_inv : Inv st0 := ⟨TMap.ok_empty, FTypes.consistent_empty, by intro ft hft; cases hft⟩

/-- `class Foo { self_type Foo; constructor .. -> Result<Foo, String>; }` -/
def foo : Class := ⟨lit "Foo", [lit "Clone"], some ⟨lit "Result < Foo , String >", lit "Foo", lit "Foo", none⟩, false, some 1⟩
/-- `class Bar { self_type Bar; constructor .. -> Arc<Mutex<Bar>>; }` -/
def bar : Class := ⟨lit "Bar", [lit "SmartPtrCopy"],
  some ⟨lit "Arc < Mutex < Bar > >", lit "Arc < Mutex < Bar > >", lit "Bar", some (lit "Arc", lit "Mutex < Bar >")⟩, false, some 2⟩
/-- Static methods only. -/
def util : Class := ⟨lit "Util", [], none, false, none⟩

/-- Is it accepted? -/
def accepted (ann : Bool) (cs : List Class) : Option Err := match registerAll ann st0 cs with | .ok _ => none | .error e => some e

example : accepted true [foo, util, bar] = none := by decide +kernel
example : accepted false [foo, util, { bar with name := lit "Foo" }] = some .duplicate := by decide +kernel
example : accepted false [foo, { util with name := lit "Foo" }] = none := by decide +kernel
example : accepted false [{ foo with derives := [lit "SmartPtrCopy"] }] = some .notShared := by decide +kernel
example : accepted false [{ bar with cloneMethod := true }] = none := by decide +kernel
example : accepted false [{ bar with derives := [lit "Copy"] }] = none := by decide +kernel
example : accepted false [foo, { foo with name := lit "Baz" }] = none := by decide +kernel

instance (t : Text) : Decidable (Ordinary t) :=
  if h : Char.ofNat 0 ∉ t ∧ t.head? ≠ some '&' ∧ t.head? ≠ some '*' ∧ t.head? ≠ some ' ' ∧ ¬ lit "mut " <+: t then
    isTrue ⟨h.1, h.2.1, h.2.2.1, h.2.2.2⟩
  else isFalse fun ⟨a, b, c, e⟩ => h ⟨a, b, c, e⟩

/-- The hypotheses of C64 hold for these classes. -/
theorem example_ordinary : ∀ c ∈ [foo, util, bar], ∀ d, c.desc = some d → OrdinaryDesc' d := by
  intro c hc d hd
  simp only [List.mem_cons, List.not_mem_nil, or_false] at hc
  rcases hc with rfl | rfl | rfl
  · simp only [foo, Option.some.injEq] at hd
    subst hd
    exact ⟨⟨by decide +kernel, by decide +kernel, by decide +kernel⟩, by decide +kernel, by decide +kernel, by decide +kernel⟩
  · cases hd
  · simp only [bar, Option.some.injEq] at hd
    subst hd
    exact ⟨⟨by decide +kernel, by decide +kernel, by decide +kernel⟩, by decide +kernel, by decide +kernel, by decide +kernel⟩

theorem example_separate : Separate [foo, util, bar] := by
  have h : ∀ t ∈ tys ⟨lit "Result < Foo , String >", lit "Foo", lit "Foo", none⟩,
      t ∉ tys ⟨lit "Arc < Mutex < Bar > >", lit "Arc < Mutex < Bar > >", lit "Bar", some (lit "Arc", lit "Mutex < Bar >")⟩ := by decide +kernel
  simp only [Separate, List.pairwise_cons, List.mem_cons, List.not_mem_nil, or_false]
  refine ⟨?_, ?_, ?_⟩
  · rintro c (rfl | rfl) d d' hd hd'
    · cases hd'
    · cases hd; cases hd'; exact h
  · rintro c rfl d d' hd; cases hd
  · simp

/-- All hypotheses together: `Foo` and `Bar` registered in an empty type map. -/
example : ∃ st', registerAll true st0 [foo, util, bar] = .ok st' ∧
    (∀ P, ∃ ft, chosen P st' true (lit "Foo") = some ft ∧ ft.name.display = lit "@NonNull Foo") ∧
    (∀ P, ∃ ft, chosen P st' false (refOf (lit "Bar")) = some ft ∧ ft.name.display = lit "@NonNull Bar") ∧
    (∀ P, ∃ ft, chosen P st' true (outVal bar).name = some ft ∧ ft.name.display = lit "long") ∧
    (∀ w, HasRule st'.tm (inVal foo).name (lit "Foo") w ↔ w = takeCode ⟨lit "Result < Foo , String >", lit "Foo", lit "Foo", none⟩) := by
  cases hr : registerAll true st0 [foo, util, bar] with
  | error e =>
    have : accepted true [foo, util, bar] = none := by decide +kernel
    simp [accepted, hr] at this
  | ok st' =>
    refine ⟨st', rfl, fun P => ?_, fun P => ?_, fun P => ?_, fun w => ?_⟩
    · obtain ⟨⟨ft, h1, h2, _⟩, _⟩ := C64_lookup P true st0 st' st0_inv [] [util, bar] foo hr _ rfl
        (example_ordinary foo (by simp) _ rfl) (by simp) (by intro t _ i hi; cases hi)
      exact ⟨ft, h1, h2.trans (by decide +kernel)⟩
    · obtain ⟨_, _, h7⟩ := C64_lookup P true st0 st' st0_inv [foo, util] [] bar hr _ rfl
        (example_ordinary bar (by simp) _ rfl) (by
          intro c' hc' d' hd' t ht ht'
          exact Separate.ne (l := [foo, util]) (m := []) (c := bar) example_separate (Or.inl hc') rfl hd' t ht' ht)
        (by intro t _ i hi; cases hi)
      obtain ⟨ft, h1, h2, _⟩ := h7 (refOf (lit "Bar")) (by decide +kernel)
      exact ⟨ft, h1, h2.trans (by decide +kernel)⟩
    · obtain ⟨⟨ft, h1, h2, _⟩, _⟩ := C64_native_types P true st0 st' st0_inv _ hr example_ordinary bar (by simp) _ rfl
        (by intro t _ i hi; cases hi)
      exact ⟨ft, h1, h2⟩
    · obtain ⟨_, _, _, _, h5⟩ := C64_conversions true st0 st' st0_inv _ hr example_separate example_ordinary foo (by simp) _ rfl w
      rw [h5]
      have : inCode foo ⟨lit "Result < Foo , String >", lit "Foo", lit "Foo", none⟩ = takeCode ⟨lit "Result < Foo , String >", lit "Foo", lit "Foo", none⟩ := by
        decide +kernel
      rw [this]

end Flapi.JavaRegister
