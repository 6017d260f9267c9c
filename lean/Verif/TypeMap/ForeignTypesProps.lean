import Verif.TypeMap.ForeignTypes
import Verif.TypeMap.MapInv
/-! # Foreign type storage over all histories (C15) and disambiguated names (C19) -/
namespace Flapi.FTypes
open Flapi
variable {κ : Type}

/-! ## Specification -/

/-- Name lookup and entry table agree. -/
def Consistent (s : Storage κ) : Prop :=
  ∀ n (i : Nat), s.findByName n = some i ↔ ∃ ft, s.ftypes[i]? = some ft ∧ ft.name.value = n

/-- Everything the generator does to the storage. -/
inductive Step : Storage κ → Storage κ → Prop
  | addNew (s : Storage κ) (ft : FType κ) : Step s (s.addNew ft).1
  | allocNew (s : Storage κ) (n : UName) (src : Option Nat) (t : Nat) : Step s (s.allocNew n src t).1
  | findOrAlloc (s : Storage κ) (n : UName) (src : Option Nat) : Step s (s.findOrAlloc n src).1
  | setInto (s : Storage κ) (i : Nat) (r : FRule κ) : Step s (s.modify i fun ft => { ft with into := some r })
  | setFrom (s : Storage κ) (i : Nat) (r : FRule κ) : Step s (s.modify i fun ft => { ft with frm := some r })
  | setProvided (s : Storage κ) (i : Nat) (p : List Text) : Step s (s.modify i fun ft => { ft with provided := p })
  | setPrefix (s : Storage κ) (i : Nat) (p : Option Text) (src : Option Nat) :
      Step s (s.modify i fun ft => (setUniquePrefix ft p src).1)
  | merge (s : Storage κ) (m : Nat → Option Nat) (new : List (FType κ)) : Step s (addNewFtypes m s new).1

/-- States reachable from the empty storage. -/
inductive Reachable : Storage κ → Prop
  | init : Reachable Storage.empty
  | step {s s' : Storage κ} (h : Reachable s) (hs : Step s s') : Reachable s'

/-! ## Lemmas -/

/-- What every operation preserves: known names keep their entry. -/
def Keeps (s s' : Storage κ) : Prop := ∀ n i, s.findByName n = some i → s'.findByName n = some i

theorem consistent_empty : Consistent (Storage.empty : Storage κ) := by
  intro n i; simp [Storage.empty, Storage.findByName]

theorem addNew_consistent {s : Storage κ} (h : Consistent s) (ft : FType κ) : Consistent (s.addNew ft).1 := by
  unfold Storage.addNew
  cases hn : s.names ft.name.value with
  | some j => exact h
  | none =>
    intro n i
    simp only [Storage.findByName, TMap.setName]
    by_cases hnn : n = ft.name.value
    · subst hnn
      rw [if_pos rfl]
      constructor
      · intro e; cases e; exact ⟨ft, by simp, rfl⟩
      · rintro ⟨ft', h1, h2⟩
        rcases Nat.lt_trichotomy i s.ftypes.length with hi | hi | hi
        · rw [List.getElem?_append_left hi] at h1
          have := (h _ i).2 ⟨ft', h1, h2⟩
          rw [Storage.findByName, hn] at this; cases this
        · rw [hi]
        · rw [List.getElem?_eq_none (by simp; omega)] at h1; cases h1
    · rw [if_neg hnn]
      have := h n i
      rw [Storage.findByName] at this
      rw [this]
      constructor
      · rintro ⟨ft', h1, h2⟩
        exact ⟨ft', by rw [List.getElem?_append_left (List.getElem?_eq_some_iff.1 h1).1]; exact h1, h2⟩
      · rintro ⟨ft', h1, h2⟩
        rcases Nat.lt_trichotomy i s.ftypes.length with hi | hi | hi
        · rw [List.getElem?_append_left hi] at h1; exact ⟨ft', h1, h2⟩
        · subst hi; simp at h1; subst h1; exact absurd h2.symm hnn
        · rw [List.getElem?_eq_none (by simp; omega)] at h1; cases h1

theorem addNew_keeps (s : Storage κ) (ft : FType κ) : Keeps s (s.addNew ft).1 := by
  intro n i h
  unfold Storage.addNew
  cases hn : s.names ft.name.value with
  | some j => exact h
  | none =>
    simp only [Storage.findByName, TMap.setName] at *
    rw [if_neg]; exact h
    rintro rfl; rw [hn] at h; cases h

theorem modify_consistent {s : Storage κ} (h : Consistent s) (i : Nat) (f : FType κ → FType κ)
    (hf : ∀ ft, (f ft).name.value = ft.name.value) : Consistent (s.modify i f) := by
  intro n k
  have := h n k
  simp only [Storage.findByName, Storage.modify, List.getElem?_modify] at *
  rw [this]
  cases hk : s.ftypes[k]? with
  | none => simp
  | some ft =>
    by_cases hik : i = k
    · subst hik; simp [hf]
    · simp [hik]

theorem setUniquePrefix_value (ft : FType κ) (p : Option Text) (src : Option Nat) :
    (setUniquePrefix ft p src).1.name.value = ft.name.value := by
  unfold setUniquePrefix
  dsimp only
  split
  · rfl
  · cases p with
    | none => rfl
    | some p =>
      dsimp only
      split
      · rename_i hp
        simp [UName.setNamePrefix, hp]
      · rfl

theorem mapFType_name {m : Nat → Option Nat} {ft ft' : FType κ} (h : mapFType m ft = some ft') : ft'.name = ft.name := by
  unfold mapFType at h
  split at h
  · cases h; rfl
  · cases h

theorem merge_spec (m : Nat → Option Nat) : ∀ (new : List (FType κ)) (s : Storage κ), Consistent s →
    Consistent (addNewFtypes m s new).1 ∧ Keeps s (addNewFtypes m s new).1 ∧ (addNewFtypes m s new).2 ≠ .err
  | [], s, h => ⟨h, fun _ _ x => x, by simp [addNewFtypes]⟩
  | ft :: fts, s, h => by
    unfold addNewFtypes
    cases hm : mapFType m ft with
    | none => exact ⟨h, fun _ _ x => x, by simp⟩
    | some ft' =>
      dsimp only
      cases hn : s.findByName ft'.name.value with
      | some i =>
        dsimp only
        have h1 := modify_consistent h i (fun our => ftypeMerge our ft') (fun _ => rfl)
        obtain ⟨g1, g2, g3⟩ := merge_spec m fts _ h1
        exact ⟨g1, fun n i hni => g2 n i hni, g3⟩
      | none =>
        dsimp only
        have h1 := addNew_consistent h ft'
        have h2 := addNew_keeps s ft'
        cases ha : s.addNew ft' with
        | mk s' o =>
          rw [ha] at h1 h2
          cases o with
          | none =>
            exfalso
            rw [Storage.findByName] at hn
            simp [Storage.addNew, hn] at ha
          | some _ =>
            obtain ⟨g1, g2, g3⟩ := merge_spec m fts _ h1
            exact ⟨g1, fun n i hni => g2 n i (h2 n i hni), g3⟩

theorem findOrAlloc_eq (s : Storage κ) (n : UName) (src : Option Nat) :
    (s.findOrAlloc n src).1 = (s.addNew ⟨n, src, [], none, none⟩).1 := by
  unfold Storage.findOrAlloc Storage.addNew
  cases hn : s.names n.value <;> rfl

theorem step_spec {s s' : Storage κ} (h : Consistent s) (hs : Step s s') : Consistent s' ∧ Keeps s s' := by
  cases hs with
  | addNew ft => exact ⟨addNew_consistent h ft, addNew_keeps s ft⟩
  | allocNew n src t => exact ⟨addNew_consistent h _, addNew_keeps s _⟩
  | findOrAlloc n src => rw [findOrAlloc_eq]; exact ⟨addNew_consistent h _, addNew_keeps s _⟩
  | setInto i r => exact ⟨modify_consistent h i _ (fun _ => rfl), fun _ _ x => x⟩
  | setFrom i r => exact ⟨modify_consistent h i _ (fun _ => rfl), fun _ _ x => x⟩
  | setProvided i r => exact ⟨modify_consistent h i _ (fun _ => rfl), fun _ _ x => x⟩
  | setPrefix i p src => exact ⟨modify_consistent h i _ (fun ft => setUniquePrefix_value ft p src), fun _ _ x => x⟩
  | merge m new => exact ⟨(merge_spec m new s h).1, (merge_spec m new s h).2.1⟩

/-! ## C15 -/

/-- In every reachable state a name finds an entry exactly if that entry carries the name; hence no two entries carry
the same name. -/
theorem C15_lookup_consistent (s : Storage κ) (h : Reachable s) :
    (∀ n (i : Nat), s.findByName n = some i ↔ ∃ ft, s.ftypes[i]? = some ft ∧ ft.name.value = n) ∧
    (s.ftypes.map fun ft => ft.name.value).Nodup := by
  have hc : Consistent s := by
    induction h with
    | init => exact consistent_empty
    | step _ hs ih => exact (step_spec ih hs).1
  refine ⟨hc, ?_⟩
  rw [List.nodup_iff_pairwise_ne, List.pairwise_iff_getElem]
  intro i j hi hj hij heq
  simp only [List.length_map] at hi hj
  have hi' := (hc s.ftypes[i].name.value i).2 ⟨_, by simp [hi], rfl⟩
  have hj' := (hc s.ftypes[j].name.value j).2 ⟨_, by simp [hj], rfl⟩
  simp only [List.getElem_map] at heq
  rw [heq, hj'] at hi'
  cases hi'; omega

/-- Adding a type under a known name is refused and changes nothing; under an unknown name it succeeds, the entry is
found under its name and all old entries are kept. -/
theorem C15_add_new (s : Storage κ) (h : Reachable s) (ft : FType κ) :
    ((∃ old ∈ s.ftypes, old.name.value = ft.name.value) → s.addNew ft = (s, none)) ∧
    ((¬ ∃ old ∈ s.ftypes, old.name.value = ft.name.value) →
      (s.addNew ft).2 = some s.ftypes.length ∧ (s.addNew ft).1.ftypes = s.ftypes ++ [ft] ∧
      (s.addNew ft).1.findByName ft.name.value = some s.ftypes.length ∧
      ∀ n, n ≠ ft.name.value → (s.addNew ft).1.findByName n = s.findByName n) := by
  have hc := (C15_lookup_consistent s h).1
  constructor
  · rintro ⟨old, ho, hv⟩
    obtain ⟨i, hi⟩ := List.mem_iff_getElem?.1 ho
    have := (hc ft.name.value i).2 ⟨old, hi, hv⟩
    rw [Storage.findByName] at this
    simp [Storage.addNew, this]
  · intro hno
    have hn : s.names ft.name.value = none := by
      cases hn : s.names ft.name.value with
      | none => rfl
      | some i =>
        obtain ⟨old, h1, h2⟩ := (hc ft.name.value i).1 hn
        exact absurd ⟨old, List.mem_of_getElem? h1, h2⟩ hno
    simp only [Storage.addNew, hn, Storage.findByName, TMap.setName]
    refine ⟨trivial, trivial, by simp, fun n hne => by simp [hne]⟩

/-- A handle, once obtained for a name, denotes that name in all later states. -/
theorem C15_handles_stable (s s' : Storage κ) (h : Reachable s) (hs : Step s s') (n : Text) (i : Nat)
    (hn : s.findByName n = some i) : s'.findByName n = some i :=
  (step_spec (C15_lookup_consistent s h).1 hs).2 n i hn

/-- `find_or_alloc` never panics and returns the handle of the requested name. -/
theorem C15_find_or_alloc (s : Storage κ) (n : UName) (src : Option Nat) :
    ∃ i, (s.findOrAlloc n src).2 = some i ∧ (s.findOrAlloc n src).1.findByName n.value = some i ∧
      ∀ m j, s.findByName m = some j → (s.findOrAlloc n src).1.findByName m = some j := by
  have hk : Keeps s (s.findOrAlloc n src).1 := by rw [findOrAlloc_eq]; exact addNew_keeps _ _
  unfold Storage.findOrAlloc at *
  cases hn : s.names n.value with
  | some i => exact ⟨i, rfl, hn, fun _ _ x => x⟩
  | none =>
    refine ⟨s.ftypes.length, by simp [Storage.addNew, hn], by simp [Storage.addNew, hn, Storage.findByName, TMap.setName], ?_⟩
    rw [hn] at hk; exact hk

/-- Merging freshly parsed foreign types never reports a duplicate; if no type index is unknown it succeeds, every merged
type is then found under its name. -/
theorem C15_merge (m : Nat → Option Nat) (s : Storage κ) (h : Reachable s) (new : List (FType κ)) :
    (addNewFtypes m s new).2 ≠ .err ∧
    ((∀ ft ∈ new, mapFType m ft ≠ none) → (addNewFtypes m s new).2 = .ok () ∧
      ∀ ft ∈ new, ∃ i, (addNewFtypes m s new).1.findByName ft.name.value = some i) := by
  have hc := (C15_lookup_consistent s h).1
  refine ⟨(merge_spec m new s hc).2.2, ?_⟩
  clear h
  induction new generalizing s with
  | nil => intro _; exact ⟨rfl, by simp⟩
  | cons ft fts ih =>
    intro hm
    cases hmf : mapFType m ft with
    | none => exact absurd hmf (hm ft (by simp))
    | some ft' =>
      have hname := mapFType_name hmf
      unfold addNewFtypes
      rw [hmf]; dsimp only
      cases hn : s.findByName ft'.name.value with
      | some i =>
        dsimp only
        have h1 := modify_consistent hc i (fun our => ftypeMerge our ft') (fun _ => rfl)
        obtain ⟨g1, g2⟩ := ih _ h1 (fun f hf => hm f (by simp [hf]))
        refine ⟨g1, ?_⟩
        intro f hf
        rcases List.mem_cons.1 hf with rfl | hf
        · refine ⟨i, (merge_spec m fts _ h1).2.1 _ _ ?_⟩
          rw [← hname]; exact hn
        · exact g2 f hf
      | none =>
        dsimp only
        have h1 := addNew_consistent hc ft'
        rw [Storage.findByName] at hn
        have ha : s.addNew ft' = (⟨s.ftypes ++ [ft'], TMap.setName s.names ft'.name.value s.ftypes.length⟩,
            some s.ftypes.length) := by simp [Storage.addNew, hn]
        rw [ha] at h1 ⊢
        obtain ⟨g1, g2⟩ := ih _ h1 (fun f hf => hm f (by simp [hf]))
        refine ⟨g1, ?_⟩
        intro f hf
        rcases List.mem_cons.1 hf with rfl | hf
        · refine ⟨s.ftypes.length, (merge_spec m fts _ h1).2.1 _ _ ?_⟩
          rw [← hname]; simp [Storage.findByName, TMap.setName]
        · exact g2 f hf

theorem merge_other (m : Nat → Option Nat) : ∀ (new : List (FType κ)) (s : Storage κ), Consistent s →
    ∀ (i : Nat) ft, s.ftypes[i]? = some ft → (∀ g ∈ new, g.name.value ≠ ft.name.value) →
    (addNewFtypes m s new).1.ftypes[i]? = some ft
  | [], _, _, _, _, h, _ => h
  | g :: new, s, hc, i, ft, h, hne => by
    unfold addNewFtypes
    cases hm : mapFType m g with
    | none => exact h
    | some g' =>
      have hname := mapFType_name hm
      dsimp only
      cases hn : s.findByName g'.name.value with
      | some j =>
        dsimp only
        refine merge_other m new _ (modify_consistent hc j (fun our => ftypeMerge our g') (fun _ => rfl)) i ft ?_ (fun x hx => hne x (by simp [hx]))
        have hij : j ≠ i := by
          rintro rfl
          obtain ⟨o, o1, o2⟩ := (hc _ _).1 hn
          rw [h] at o1; cases o1
          exact hne g (by simp) (by rw [← hname, o2])
        simp [Storage.modify, hij, h]
      | none =>
        dsimp only
        have h1 := addNew_consistent hc g'
        rw [Storage.findByName] at hn
        have ha : s.addNew g' = (⟨s.ftypes ++ [g'], TMap.setName s.names g'.name.value s.ftypes.length⟩,
            some s.ftypes.length) := by simp [Storage.addNew, hn]
        rw [ha] at h1 ⊢
        refine merge_other m new _ h1 i ft ?_ (fun x hx => hne x (by simp [hx]))
        show (s.ftypes ++ [g'])[i]? = some ft
        rw [List.getElem?_append_left (List.getElem?_eq_some_iff.1 h).1]; exact h

/-- After merging a table (whose foreign type names are pairwise different) the conversion rules given by the table are in
force, for each direction it gives; a direction it does not give keeps the old rule; types it does not mention are
unchanged. -/
theorem C15_merge_in_force (m : Nat → Option Nat) (s : Storage κ) (h : Reachable s) (new : List (FType κ))
    (hnd : (new.map fun ft => ft.name.value).Nodup) (hm : ∀ ft ∈ new, mapFType m ft ≠ none) :
    (∀ ft ∈ new, ∀ ft', mapFType m ft = some ft' → ∃ (i : Nat) (res : FType κ),
      (addNewFtypes m s new).1.ftypes[i]? = some res ∧ res.name.value = ft.name.value ∧
      res.into = ft'.into.or ((s.ftypes[i]?).bind (·.into)) ∧ res.frm = ft'.frm.or ((s.ftypes[i]?).bind (·.frm))) ∧
    (∀ (i : Nat) ft, s.ftypes[i]? = some ft → (∀ g ∈ new, g.name.value ≠ ft.name.value) →
      (addNewFtypes m s new).1.ftypes[i]? = some ft) := by
  have hc := (C15_lookup_consistent s h).1
  refine ⟨?_, merge_other m new s hc⟩
  -- generalise over the base storage: entries named in the rest of the list are those of `s`
  have gen : ∀ (new : List (FType κ)) (t : Storage κ), Consistent t → (new.map fun ft => ft.name.value).Nodup →
      (∀ ft ∈ new, mapFType m ft ≠ none) →
      (∀ ft ∈ new, ∀ (i : Nat), (∃ x, t.ftypes[i]? = some x ∧ x.name.value = ft.name.value) ∨ t.ftypes.length ≤ i →
        (s.ftypes[i]?) = t.ftypes[i]?) →
      ∀ ft ∈ new, ∀ ft', mapFType m ft = some ft' → ∃ (i : Nat) (res : FType κ),
      (addNewFtypes m t new).1.ftypes[i]? = some res ∧ res.name.value = ft.name.value ∧
      res.into = ft'.into.or ((s.ftypes[i]?).bind (·.into)) ∧ res.frm = ft'.frm.or ((s.ftypes[i]?).bind (·.frm)) := by
    intro new
    induction new with
    | nil => intro t _ _ _ _ ft hft; simp at hft
    | cons g new ih =>
      intro t htc hnd hm hst ft hft ft' hft'
      simp only [List.map_cons, List.nodup_cons, List.mem_map, not_exists, not_and] at hnd
      cases hg : mapFType m g with
      | none => exact absurd hg (hm g (by simp))
      | some g' =>
        have hname := mapFType_name hg
        unfold addNewFtypes
        rw [hg]; dsimp only
        cases hn : t.findByName g'.name.value with
        | some j =>
          dsimp only
          have h1 := modify_consistent htc j (fun our => ftypeMerge our g') (fun _ => rfl)
          obtain ⟨o, o1, o2⟩ := (htc _ _).1 hn
          rcases List.mem_cons.1 hft with rfl | hft
          · rw [hg] at hft'; cases hft'
            have hsj := hst ft (by simp) j (Or.inl ⟨o, o1, by rw [o2, hname]⟩)
            refine ⟨j, ftypeMerge o ft', ?_, by simp [ftypeMerge, o2, hname], ?_, ?_⟩
            · apply merge_other m new _ h1 j
              · simp [Storage.modify, o1]
              · intro x hx heq
                simp only [ftypeMerge, o2, hname] at heq
                exact hnd.1 x hx heq
            · rw [hsj, o1]; rfl
            · rw [hsj, o1]; rfl
          · refine ih _ h1 hnd.2 (fun x hx => hm x (by simp [hx])) ?_ ft hft ft' hft'
            intro f hf i hi
            have hij : j ≠ i ∨ t.ftypes.length ≤ i := by
              rcases hi with ⟨x, hx1, hx2⟩ | hi
              · left
                rintro rfl
                simp [Storage.modify, o1] at hx1
                subst hx1
                simp only [ftypeMerge, o2, hname] at hx2
                exact hnd.1 f hf hx2.symm
              · right; simpa [Storage.modify] using hi
            have hij : j ≠ i := by
              rcases hij with h | h
              · exact h
              · have := (List.getElem?_eq_some_iff.1 o1).1; omega
            have e : (t.modify j fun our => ftypeMerge our g').ftypes[i]? = t.ftypes[i]? := by
              simp [Storage.modify, hij]
            have e2 : (t.modify j fun our => ftypeMerge our g').ftypes.length = t.ftypes.length := by simp [Storage.modify]
            rw [e, e2] at hi
            rw [e]
            exact hst f (by simp [hf]) i hi
        | none =>
          dsimp only
          have h1 := addNew_consistent htc g'
          rw [Storage.findByName] at hn
          have ha : t.addNew g' = (⟨t.ftypes ++ [g'], TMap.setName t.names g'.name.value t.ftypes.length⟩,
              some t.ftypes.length) := by simp [Storage.addNew, hn]
          rw [ha] at h1 ⊢
          dsimp only
          have hl : s.ftypes[t.ftypes.length]? = none := by
            rw [hst g (by simp) _ (Or.inr (Nat.le_refl _))]; simp
          rcases List.mem_cons.1 hft with rfl | hft
          · rw [hg] at hft'; cases hft'
            refine ⟨t.ftypes.length, ft', ?_, by rw [hname], ?_, ?_⟩
            · apply merge_other m new _ h1
              · simp
              · intro x hx heq
                rw [hname] at heq
                exact hnd.1 x hx heq
            · rw [hl]; simp
            · rw [hl]; simp
          · refine ih _ h1 hnd.2 (fun x hx => hm x (by simp [hx])) ?_ ft hft ft' hft'
            intro f hf i hi
            rcases Nat.lt_trichotomy i t.ftypes.length with hlt | rfl | hgt
            · show _ = (t.ftypes ++ [g'])[i]?
              rw [List.getElem?_append_left hlt]
              refine hst f (by simp [hf]) i (Or.inl ?_)
              rcases hi with ⟨x, hx1, hx2⟩ | hi
              · simp only at hx1
                rw [List.getElem?_append_left hlt] at hx1
                exact ⟨x, hx1, hx2⟩
              · simp at hi; omega
            · exfalso
              rcases hi with ⟨x, hx1, hx2⟩ | hi
              · simp at hx1; subst hx1
                rw [hname] at hx2
                exact hnd.1 f hf hx2.symm
              · simp at hi; omega
            · have e1 := hst f (by simp [hf]) i (Or.inr (by omega))
              rw [e1, List.getElem?_eq_none (by omega), List.getElem?_eq_none (by simp; omega)]
  exact gen new s hc hnd hm (fun _ _ _ _ => rfl)

/-- Merging one type over an existing one: directions the new type defines replace the old ones, the others are kept. -/
theorem C15_merge_overrides (our ext : FType κ) :
    (ftypeMerge our ext).name = our.name ∧
    (∀ r, ext.into = some r → (ftypeMerge our ext).into = some r) ∧ (ext.into = none → (ftypeMerge our ext).into = our.into) ∧
    (∀ r, ext.frm = some r → (ftypeMerge our ext).frm = some r) ∧ (ext.frm = none → (ftypeMerge our ext).frm = our.frm) := by
  refine ⟨rfl, ?_, ?_, ?_, ?_⟩ <;> simp +contextual [ftypeMerge]

/-- The foreign type reported as directly representing a Rust type really is bound to it in both directions without
conversion code, and it is the first such; nothing is reported only if there is none. -/
theorem C15_related (fts : List (FType κ)) (ty : Nat) :
    (∀ i, findRelated fts ty = some i → ∃ ft, fts[i]? = some ft ∧ ft.into = some ⟨ty, none⟩ ∧ ft.frm = some ⟨ty, none⟩ ∧
      ∀ (j : Nat) ft', j < i → fts[j]? = some ft' → ¬ (ft'.into = some ⟨ty, none⟩ ∧ ft'.frm = some ⟨ty, none⟩)) ∧
    (findRelated fts ty = none → ∀ ft ∈ fts, ¬ (ft.into = some ⟨ty, none⟩ ∧ ft.frm = some ⟨ty, none⟩)) := by
  have key : ∀ ft : FType κ, directBinding ft ty = true ↔ (ft.into = some ⟨ty, none⟩ ∧ ft.frm = some ⟨ty, none⟩) := by
    intro ft
    constructor
    · intro h
      unfold directBinding at h
      split at h
      · rename_i a b h1 h2
        obtain ⟨rfl, rfl⟩ := of_decide_eq_true h
        exact ⟨h1, h2⟩
      · cases h
    · rintro ⟨h1, h2⟩; simp [directBinding, h1, h2]
  constructor
  · intro i h
    unfold findRelated at h
    rw [List.findIdx?_eq_some_iff_getElem] at h
    obtain ⟨hi, h1, h2⟩ := h
    rw [key] at h1
    refine ⟨fts[i], by simp [hi], h1.1, h1.2, ?_⟩
    intro j ft' hj hft' hc
    rw [← key] at hc
    have := h2 j hj
    rw [List.getElem?_eq_getElem (by omega)] at hft'
    cases hft'
    exact this hc
  · intro h ft hft hc
    unfold findRelated at h
    rw [List.findIdx?_eq_none_iff] at h
    rw [← key] at hc
    have := h ft hft
    rw [hc] at this; cases this

/-! ## C19 -/

theorem append_sep_inj {c : Char} : ∀ {a a' b b' : Text}, c ∉ a → c ∉ a' → a ++ c :: b = a' ++ c :: b' → a = a' ∧ b = b'
  | [], [], _, _, _, _, h => by simpa using h
  | [], x :: a', _, _, _, h2, h => by simp at h; exact absurd (by simp [h.1]) h2
  | x :: a, [], _, _, h1, _, h => by simp at h; exact absurd (by simp [h.1]) h1
  | x :: a, y :: a', b, b', h1, h2, h => by
    simp at h
    obtain ⟨rfl, h⟩ := h
    simp at h1 h2
    obtain ⟨h3, h4⟩ := append_sep_inj h1.2 h2.2 h
    exact ⟨by rw [h3], h4⟩

/-- Internal names of (name, optional suffix) pairs are pairwise different.  Type names printed from Rust tokens contain no
NUL character. -/
theorem C19_unique_names (n n' : Text) (s s' : Option Text) (hn : Char.ofNat 0 ∉ n) (hn' : Char.ofNat 0 ∉ n')
    (h : makeUniqueIfNeed n s = makeUniqueIfNeed n' s') : n = n' ∧ s = s' := by
  cases s with
  | none =>
    cases s' with
    | none => exact ⟨h, rfl⟩
    | some s' => simp only [makeUniqueIfNeed, makeUnique] at h; exact absurd (by simp [h]) hn
  | some s =>
    cases s' with
    | none => simp only [makeUniqueIfNeed, makeUnique] at h; exact absurd (by simp [← h]) hn'
    | some s' =>
      obtain ⟨h1, h2⟩ := append_sep_inj hn hn' h
      exact ⟨h1, by rw [h2]⟩

/-- Hence in the type map differently suffixed types are different types, and equal ones are the same type. -/
theorem C19_distinct_types {τ κ : Type} (norm : τ → Text) (hnorm : ∀ t, Char.ofNat 0 ∉ norm t) (tm : TMap.TM τ κ)
    (hok : TMap.Ok tm) (t t' : τ) (s s' : Option Text) :
    let r := findOrAllocSuffix norm tm t s
    let r' := findOrAllocSuffix norm r.1 t' s'
    r.2 = r'.2 ↔ norm t = norm t' ∧ s = s' := by
  intro r r'
  have ho1 : TMap.Ok r.1 := TMap.addNode_ok hok _
  have ho2 : TMap.Ok r'.1 := TMap.addNode_ok ho1 _
  have h1 : r'.1.names (makeUniqueIfNeed (norm t) s) = some r.2 := TMap.addNode_mono _ (TMap.addNode_names _)
  have h2 : r'.1.names (makeUniqueIfNeed (norm t') s') = some r'.2 := TMap.addNode_names _
  constructor
  · intro h
    rw [← h] at h2
    obtain ⟨a, a1, a2⟩ := ho2.valid _ _ h1
    obtain ⟨b, b1, b2⟩ := ho2.valid _ _ h2
    rw [a1] at b1; cases b1
    exact C19_unique_names _ _ _ _ (hnorm t) (hnorm t') (a2.symm.trans b2)
  · rintro ⟨h3, rfl⟩
    rw [h3, h2] at h1
    exact (Option.some_inj.1 h1).symm

/-- The printed name of a newly registered type does not depend on the suffix. -/
theorem C19_printed_name {τ κ : Type} (norm pr : τ → Text) (tm : TMap.TM τ κ) (t : τ) (s : Option Text)
    (hfresh : tm.names (makeUniqueIfNeed (norm t) s) = none) :
    ∃ r, (findOrAllocSuffix norm tm t s).1.g.nodes[(findOrAllocSuffix norm tm t s).2]? = some r ∧ typename pr r = pr t := by
  unfold findOrAllocSuffix TMap.addNode
  rw [hfresh]
  exact ⟨⟨makeUniqueIfNeed (norm t) s, t⟩, by simp [Graph.addNode], rfl⟩

/-- A foreign name made unique with a prefix is displayed without it; a wrong prefix is caught by an assertion. -/
theorem C19_foreign_display (pre n value : Text) :
    (∃ u, UName.new (pre ++ n) pre = some u ∧ u.display = n ∧ u.value = pre ++ n ∧
      (pre ≠ [] → u.uniquePrefix = some pre) ∧ (pre = [] → u.uniquePrefix = none)) ∧
    ((¬ ∃ r, value = pre ++ r) → UName.new value pre = none) := by
  constructor
  · refine ⟨⟨pre ++ n, pre.length⟩, ?_, ?_, rfl, ?_, ?_⟩
    · simp [UName.new]
    · simp [UName.display]
    · intro h
      have : 0 < pre.length := List.length_pos_iff.2 h
      simp [UName.uniquePrefix, this]
    · rintro rfl; rfl
  · intro h
    unfold UName.new
    rw [if_neg]
    intro hp
    obtain ⟨r, hr⟩ := List.isPrefixOf_iff_prefix.1 hp
    exact h ⟨r, hr.symm⟩

/-- Changing the unique prefix of a foreign type never panics, never changes the unique name itself, and a prefix in force
is always a genuine prefix, so the display name is a genuine suffix. -/
theorem C19_set_prefix (ft : FType κ) (p : Option Text) (src : Option Nat) (hw : ft.name.prefixLen ≤ ft.name.value.length) :
    let r := setUniquePrefix ft p src
    r.2 ≠ .panic ∧ r.1.name.value = ft.name.value ∧ r.1.name.prefixLen ≤ r.1.name.value.length ∧
    (∃ pre, r.1.name.value = pre ++ r.1.name.display) ∧
    (∀ q rest, p = some q → ft.name.value = q ++ rest → r.2 = .ok () → r.1.name.display = rest) := by
  intro r
  have hv : r.1.name.value = ft.name.value := setUniquePrefix_value ft p src
  have hp : r.2 ≠ .panic ∧ r.1.name.prefixLen ≤ r.1.name.value.length ∧
      (∀ q rest, p = some q → ft.name.value = q ++ rest → r.2 = .ok () → r.1.name.display = rest) := by
    show (setUniquePrefix ft p src).2 ≠ .panic ∧ _
    simp only [r, setUniquePrefix]
    split
    · exact ⟨by simp, hw, by simp⟩
    · cases p with
      | none => simp [UName.setNamePrefix]
      | some p =>
        dsimp only
        split
        · rename_i hp
          simp only [UName.setNamePrefix, hp, if_true]
          refine ⟨by simp, (List.isPrefixOf_iff_prefix.1 hp).length_le, ?_⟩
          intro q rest h1 h2 _
          cases h1
          simp [UName.display, h2]
        · rename_i hp
          refine ⟨by simp, hw, ?_⟩
          intro q rest h1 h2 _
          cases h1
          exact absurd (by rw [h2]; simp) hp
  exact ⟨hp.1, hv, hp.2.1, ⟨r.1.name.value.take r.1.name.prefixLen, by simp [UName.display]⟩, hp.2.2⟩

/-! ## Concrete cases -/

/-- Two foreign types. -/
def exStorage : Storage Nat := ((Storage.empty.allocNew ⟨['a'], 0⟩ none 3).1.findOrAlloc ⟨['x', 'b'], 1⟩ (some 2)).1

example : Reachable exStorage := .step (.step .init (.allocNew _ _ _ _)) (.findOrAlloc _ _ _)
example : exStorage.findByName ['x', 'b'] = some 1 ∧ findRelated exStorage.ftypes 3 = some 0 ∧
    (exStorage.allocNew ⟨['a'], 0⟩ none 4).2 = none := by decide
example : (addNewFtypes some exStorage [⟨⟨['a'], 0⟩, none, [], some ⟨7, none⟩, none⟩, ⟨⟨['c'], 0⟩, none, [], none, none⟩]).1.ftypes.map
    (fun f => (f.name.value, f.into.map (·.rustTy), f.frm.map (·.rustTy))) =
    [(['a'], some 7, some 3), (['x', 'b'], none, none), (['c'], none, none)] := by decide
example : makeUnique ['i'] ['x'] ≠ makeUnique ['j'] ['x'] ∧ makeUnique ['i'] ['x'] ≠ makeUnique ['i'] ['y'] := by decide
example : (setUniquePrefix (⟨⟨['x', 'b'], 0⟩, some 1, [], none, none⟩ : FType Nat) (some ['x']) (some 1)).1.name.display = ['b'] := by
  decide
example : (setUniquePrefix (⟨⟨['x', 'b'], 1⟩, some 1, [], none, none⟩ : FType Nat) none (some 1)).2 = .err := by decide

end Flapi.FTypes
