import Verif.Java.FindCache
/-!
# C32: cached JNI classes, methods and fields are consistent
-/
namespace Flapi.FindCache

/-! ## The scan -/

theorem mem_all (c : FindClass) (k : Kind) (x : Item) : (k, x) ∈ c.all ↔ x ∈ c.items k := by
  unfold FindClass.all FindClass.items
  cases k <;> simp

theorem items_push (c : FindClass) (k k' : Kind) (x : Item) :
    (c.push k x).items k' = if k' = k then c.items k ++ [x] else c.items k' := by
  cases k <;> cases k' <;> simp [FindClass.push, FindClass.items]

theorem push_id (c : FindClass) (k : Kind) (x : Item) : (c.push k x).id = c.id ∧ (c.push k x).path = c.path := by
  cases k <;> simp [FindClass.push]

theorem get_some {calls : List FindClass} {id : Text} {c : FindClass} (h : get calls id = some c) : c ∈ calls ∧ c.id = id := by
  unfold get at h
  exact ⟨List.mem_of_find?_eq_some h, by simpa using List.find?_some h⟩

theorem get_none {calls : List FindClass} {id : Text} (h : get calls id = none) : ∀ c ∈ calls, c.id ≠ id := by
  unfold get at h
  rw [List.find?_eq_none] at h
  simpa using h

theorem mem_put (calls : List FindClass) (c x : FindClass) (hn : (calls.map (·.id)).Nodup) :
    x ∈ put calls c ↔ x = c ∨ (x ∈ calls ∧ x.id ≠ c.id) := by
  induction calls with
  | nil => simp [put]
  | cons d l ih =>
    rw [List.map_cons, List.nodup_cons] at hn
    rw [put]
    split
    · rename_i h
      simp only [List.mem_cons]
      constructor
      · rintro (rfl | hx)
        · exact Or.inl rfl
        · refine Or.inr ⟨Or.inr hx, ?_⟩
          intro he
          exact hn.1 (List.mem_map.2 ⟨x, hx, he.trans h.symm⟩)
      · rintro (rfl | ⟨rfl | hx, hne⟩)
        · exact Or.inl rfl
        · exact absurd h hne
        · exact Or.inr hx
    · rename_i h
      rw [List.mem_cons, ih hn.2, List.mem_cons]
      constructor
      · rintro (rfl | rfl | ⟨hx, hne⟩)
        · exact Or.inr ⟨Or.inl rfl, h⟩
        · exact Or.inl rfl
        · exact Or.inr ⟨Or.inr hx, hne⟩
      · rintro (rfl | ⟨rfl | hx, hne⟩)
        · exact Or.inr (Or.inl rfl)
        · exact Or.inl rfl
        · exact Or.inr (Or.inr ⟨hx, hne⟩)

theorem put_keys (calls : List FindClass) (c : FindClass) (id : Text) :
    id ∈ (put calls c).map (·.id) ↔ id = c.id ∨ id ∈ calls.map (·.id) := by
  induction calls with
  | nil => simp [put]
  | cons d l ih =>
    rw [put]
    split
    · rename_i h; simp only [List.map_cons, List.mem_cons, h]; grind
    · simp only [List.map_cons, List.mem_cons, ih]; grind

theorem put_nodup (calls : List FindClass) (c : FindClass) (hn : (calls.map (·.id)).Nodup) :
    ((put calls c).map (·.id)).Nodup := by
  induction calls with
  | nil => simp [put]
  | cons d l ih =>
    rw [List.map_cons, List.nodup_cons] at hn
    rw [put]
    split
    · rename_i h
      rw [List.map_cons, List.nodup_cons, ← h]; exact hn
    · rename_i h
      rw [List.map_cons, List.nodup_cons, put_keys]
      exact ⟨fun e => e.elim h hn.1, ih hn.2⟩

/-- What is true of the table after the uses `us`. -/
structure Inv (us : List Use) (s : St) : Prop where
  keys : (s.calls.map (·.id)).Nodup
  classUsed : ∀ c ∈ s.calls, Use.findClass c.id c.path ∈ us
  itemUsed : ∀ c ∈ s.calls, ∀ k x, x ∈ c.items k → x.classId = c.id ∧ Use.member k x ∈ us
  classSeen : s.failed = false → ∀ id path, Use.findClass id path ∈ us → ∃ c ∈ s.calls, c.id = id ∧ c.path = path
  itemSeen : ∀ k x, Use.member k x ∈ us → ∃ c ∈ s.calls, c.id = x.classId ∧ x ∈ c.items k
  itemsOnce : ∀ c ∈ s.calls, ∀ k, (c.items k).Nodup
  oneId : ∀ c ∈ s.calls, ∀ k x y, x ∈ c.items k → y ∈ c.items k → x.name = y.name → x.sig = y.sig → x.id = y.id

theorem newClass_items (id path : Text) (k : Kind) : (newClass id path).items k = [] := by cases k <;> rfl

theorem step_inv (us : List Use) (s s' : St) (u : Use) (hs : Inv us s) (h : step s u = some s') : Inv (us ++ [u]) s' := by
  have hin : ∀ v, v ∈ us ++ [u] ↔ v ∈ us ∨ v = u := by simp
  cases u with
  | findClass id path =>
    have insert : ∀ (_ : ∀ c ∈ s.calls, c.id = id → c = newClass id path),
        Inv (us ++ [.findClass id path]) { s with calls := put s.calls (newClass id path) } := by
      intro hc
      have hm := fun x => mem_put s.calls (newClass id path) x hs.keys
      have hid : (newClass id path).id = id := rfl
      refine ⟨put_nodup _ _ hs.keys, ?_, ?_, ?_, ?_, ?_, ?_⟩
      · intro c h
        rcases (hm c).1 h with rfl | ⟨h, _⟩
        · exact (hin _).2 (Or.inr rfl)
        · exact (hin _).2 (Or.inl (hs.classUsed c h))
      · intro c h k x hx
        rcases (hm c).1 h with rfl | ⟨h, _⟩
        · rw [newClass_items] at hx; simp at hx
        · exact ⟨(hs.itemUsed c h k x hx).1, (hin _).2 (Or.inl (hs.itemUsed c h k x hx).2)⟩
      · intro hf i p hu
        rcases (hin _).1 hu with hu | hu
        · obtain ⟨c, hcm, e1, e2⟩ := hs.classSeen hf i p hu
          by_cases he : c.id = id
          · have := hc c hcm he
            exact ⟨newClass id path, (hm _).2 (Or.inl rfl), by rw [← this]; exact e1, by rw [← this]; exact e2⟩
          · exact ⟨c, (hm _).2 (Or.inr ⟨hcm, he⟩), e1, e2⟩
        · injection hu with e1 e2
          subst e1; subst e2
          exact ⟨_, (hm _).2 (Or.inl rfl), rfl, rfl⟩
      · intro k x hu
        rcases (hin _).1 hu with hu | hu
        · obtain ⟨c, hcm, e1, e2⟩ := hs.itemSeen k x hu
          by_cases he : c.id = id
          · have := hc c hcm he
            rw [this, newClass_items] at e2; simp at e2
          · exact ⟨c, (hm _).2 (Or.inr ⟨hcm, he⟩), e1, e2⟩
        · simp at hu
      · intro c h k
        rcases (hm c).1 h with rfl | ⟨h, _⟩
        · rw [newClass_items]; exact List.nodup_nil
        · exact hs.itemsOnce c h k
      · intro c h k x y hx
        rcases (hm c).1 h with rfl | ⟨h, _⟩
        · rw [newClass_items] at hx; simp at hx
        · exact hs.oneId c h k x y hx
    unfold step at h
    dsimp only at h
    split at h
    · rename_i c hg
      split at h
      · rename_i hne
        injection h with h; subst h
        refine ⟨hs.keys, ?_, ?_, ?_, ?_, hs.itemsOnce, hs.oneId⟩
        · exact fun c h => (hin _).2 (Or.inl (hs.classUsed c h))
        · exact fun c h k x hx => ⟨(hs.itemUsed c h k x hx).1, (hin _).2 (Or.inl (hs.itemUsed c h k x hx).2)⟩
        · intro hf; simp at hf
        · intro k x hu
          rcases (hin _).1 hu with hu | hu
          · exact hs.itemSeen k x hu
          · simp at hu
      · rename_i he
        simp only [ne_eq, Decidable.not_not] at he
        injection h with h; subst h
        obtain ⟨g1, g2⟩ := get_some hg
        refine insert ?_
        intro d hd hid
        have : d = c := by
          have hn := hs.keys
          rw [List.nodup_iff_pairwise_ne, List.pairwise_map] at hn
          rcases List.mem_iff_getElem.1 hd with ⟨i, hi, ei⟩
          rcases List.mem_iff_getElem.1 g1 with ⟨j, hj, ej⟩
          rw [List.pairwise_iff_getElem] at hn
          rcases Nat.lt_trichotomy i j with hl | hl | hl
          · exact absurd (by rw [ei, ej, hid, g2]) (hn i j hi hj hl)
          · subst hl; rw [← ei, ← ej]
          · exact absurd (by rw [ei, ej, hid, g2]) (hn j i hj hi hl)
        rw [this, he]
    · rename_i hg
      injection h with h; subst h
      exact insert fun c hc e => absurd e (get_none hg c hc)
  | member k x =>
    unfold step at h
    dsimp only at h
    split at h
    · simp at h
    · rename_i c hg
      obtain ⟨g1, g2⟩ := get_some hg
      split at h
      · simp at h
      · rename_i hconf
        have hconf' : ∀ e ∈ c.items k, e.name = x.name → e.sig = x.sig → x.id = e.id := by
          intro e he hn hsg
          apply Classical.byContradiction
          intro hne
          exact hconf (List.any_eq_true.2 ⟨e, he, by simp [hn, hsg, hne]⟩)
        split at h
        · rename_i hex
          injection h with h; subst h
          simp only [List.any_eq_true, decide_eq_true_eq, exists_eq_right] at hex
          refine ⟨hs.keys, ?_, ?_, ?_, ?_, hs.itemsOnce, hs.oneId⟩
          · exact fun c h => (hin _).2 (Or.inl (hs.classUsed c h))
          · exact fun c h k x hx => ⟨(hs.itemUsed c h k x hx).1, (hin _).2 (Or.inl (hs.itemUsed c h k x hx).2)⟩
          · intro hf i p hu
            rcases (hin _).1 hu with hu | hu
            · exact hs.classSeen hf i p hu
            · simp at hu
          · intro k' x' hu
            rcases (hin _).1 hu with hu | hu
            · exact hs.itemSeen k' x' hu
            · injection hu with e1 e2
              subst e1; subst e2
              exact ⟨c, g1, g2, hex⟩
        · rename_i hex
          simp only [List.any_eq_true, decide_eq_true_eq, exists_eq_right] at hex
          injection h with h; subst h
          have hid := (push_id c k x).1
          have hpath := (push_id c k x).2
          have hm := fun y => mem_put s.calls (c.push k x) y hs.keys
          have huniq : ∀ d ∈ s.calls, d.id = c.id → d = c := by
            intro d hd he
            have hn := hs.keys
            rw [List.nodup_iff_pairwise_ne, List.pairwise_map] at hn
            rcases List.mem_iff_getElem.1 hd with ⟨i, hi, ei⟩
            rcases List.mem_iff_getElem.1 g1 with ⟨j, hj, ej⟩
            rw [List.pairwise_iff_getElem] at hn
            rcases Nat.lt_trichotomy i j with hl | hl | hl
            · exact absurd (by rw [ei, ej, he]) (hn i j hi hj hl)
            · subst hl; rw [← ei, ← ej]
            · exact absurd (by rw [ei, ej, he]) (hn j i hj hi hl)
          have hitem : ∀ k' y, y ∈ (c.push k x).items k' ↔ y ∈ c.items k' ∨ (k' = k ∧ y = x) := by
            intro k' y
            rw [items_push]
            split
            · rename_i e; subst e; simp
            · rename_i e; simp [e]
          refine ⟨put_nodup _ _ hs.keys, ?_, ?_, ?_, ?_, ?_, ?_⟩
          · intro d h
            rcases (hm d).1 h with rfl | ⟨h, _⟩
            · rw [hid, hpath]; exact (hin _).2 (Or.inl (hs.classUsed c g1))
            · exact (hin _).2 (Or.inl (hs.classUsed d h))
          · intro d h k' y hy
            rcases (hm d).1 h with rfl | ⟨h, _⟩
            · rcases (hitem k' y).1 hy with hy | ⟨rfl, rfl⟩
              · rw [hid]
                exact ⟨(hs.itemUsed c g1 k' y hy).1, (hin _).2 (Or.inl (hs.itemUsed c g1 k' y hy).2)⟩
              · rw [hid]; exact ⟨g2.symm, (hin _).2 (Or.inr rfl)⟩
            · exact ⟨(hs.itemUsed d h k' y hy).1, (hin _).2 (Or.inl (hs.itemUsed d h k' y hy).2)⟩
          · intro hf i p hu
            rcases (hin _).1 hu with hu | hu
            · obtain ⟨d, hd, e1, e2⟩ := hs.classSeen hf i p hu
              by_cases he : d.id = c.id
              · have := huniq d hd he
                subst this
                exact ⟨_, (hm _).2 (Or.inl rfl), hid.trans e1, hpath.trans e2⟩
              · exact ⟨d, (hm _).2 (Or.inr ⟨hd, by rw [hid]; exact he⟩), e1, e2⟩
            · simp at hu
          · intro k' y hu
            rcases (hin _).1 hu with hu | hu
            · obtain ⟨d, hd, e1, e2⟩ := hs.itemSeen k' y hu
              by_cases he : d.id = c.id
              · have := huniq d hd he
                subst this
                exact ⟨_, (hm _).2 (Or.inl rfl), hid.trans e1, (hitem _ _).2 (Or.inl e2)⟩
              · exact ⟨d, (hm _).2 (Or.inr ⟨hd, by rw [hid]; exact he⟩), e1, e2⟩
            · injection hu with e1 e2
              subst e1; subst e2
              exact ⟨_, (hm _).2 (Or.inl rfl), hid.trans g2, (hitem _ _).2 (Or.inr ⟨rfl, rfl⟩)⟩
          · intro d h k'
            rcases (hm d).1 h with rfl | ⟨h, _⟩
            · rw [items_push]
              split
              · rw [List.nodup_append]
                refine ⟨hs.itemsOnce c g1 k, by simp, ?_⟩
                intro a ha b hb hab
                simp only [List.mem_singleton] at hb
                exact hex (by rw [← hb, ← hab]; exact ha)
              · exact hs.itemsOnce c g1 k'
            · exact hs.itemsOnce d h k'
          · intro d h k' y z hy hz hn hsg
            rcases (hm d).1 h with rfl | ⟨h, _⟩
            · rcases (hitem k' y).1 hy with hy' | ⟨e, e'⟩ <;> rcases (hitem k' z).1 hz with hz' | ⟨f, f'⟩
              · exact hs.oneId c g1 k' y z hy' hz' hn hsg
              · subst f f'; exact (hconf' y hy' hn hsg).symm
              · subst e e'; exact hconf' z hz' hn.symm hsg.symm
              · rw [e', f']
            · exact hs.oneId d h k' y z hy hz hn hsg

theorem run_inv (us vs : List Use) (s s' : St) (hs : Inv us s) (h : run s vs = some s') : Inv (us ++ vs) s' := by
  induction vs generalizing us s with
  | nil => simp only [run, Option.some.injEq] at h; subst h; simpa using hs
  | cons v l ih =>
    rw [run, Option.bind_eq_some_iff] at h
    obtain ⟨s1, h1, h2⟩ := h
    have := ih (us ++ [v]) s1 (step_inv us s s1 v hs h1) h2
    simpa using this

theorem init_inv : Inv [] ⟨[], false⟩ := ⟨by simp, by simp, by simp, by simp, by simp, by simp, by simp⟩

theorem collect_inv {us : List Use} {calls : List FindClass} (h : collect us = some calls) : Inv us ⟨calls, false⟩ := by
  unfold collect at h
  split at h
  · rename_i s hs
    split at h
    · simp at h
    · rename_i hf
      have := run_inv [] us _ s init_inv hs
      rw [List.nil_append] at this
      injection h with h
      have e : s = ⟨calls, false⟩ := by cases s; simp_all
      rw [← e]; exact this
  · simp at h

/-! ## Conflicting uses are refused -/

/-- **C32**: one id for two classes is refused. -/
theorem C32_class_conflict_refused (us : List Use) (id p q : Text) (h1 : Use.findClass id p ∈ us)
    (h2 : Use.findClass id q ∈ us) (hne : p ≠ q) : collect us = none := by
  cases h : collect us with
  | none => rfl
  | some calls =>
    have hi := collect_inv h
    obtain ⟨c, hc, e1, e2⟩ := hi.classSeen rfl id p h1
    obtain ⟨d, hd, f1, f2⟩ := hi.classSeen rfl id q h2
    exfalso
    have hn := hi.keys
    rw [List.nodup_iff_pairwise_ne, List.pairwise_map] at hn
    rcases List.mem_iff_getElem.1 hd with ⟨i, hi', ei⟩
    rcases List.mem_iff_getElem.1 hc with ⟨j, hj, ej⟩
    rw [List.pairwise_iff_getElem] at hn
    rcases Nat.lt_trichotomy i j with hl | hl | hl
    · exact hn i j hi' hj hl (by rw [ei, ej, e1, f1])
    · subst hl
      exact hne (by rw [← e2, ← f2, ← ei, ← ej])
    · exact hn j i hj hi' hl (by rw [ei, ej, e1, f1])

/-- **C32**: two ids for one member (same class, kind, name and signature) are refused. -/
theorem C32_member_conflict_refused (us : List Use) (k : Kind) (x y : Item) (h1 : Use.member k x ∈ us)
    (h2 : Use.member k y ∈ us) (hc : x.classId = y.classId) (hn : x.name = y.name) (hsg : x.sig = y.sig) (hne : x.id ≠ y.id) :
    collect us = none := by
  cases h : collect us with
  | none => rfl
  | some calls =>
    exfalso
    have hi := collect_inv h
    obtain ⟨c, hcm, e1, e2⟩ := hi.itemSeen k x h1
    obtain ⟨d, hd, f1, f2⟩ := hi.itemSeen k y h2
    have : c = d := by
      have hnk := hi.keys
      rw [List.nodup_iff_pairwise_ne, List.pairwise_map] at hnk
      rcases List.mem_iff_getElem.1 hd with ⟨i, hi', ei⟩
      rcases List.mem_iff_getElem.1 hcm with ⟨j, hj, ej⟩
      rw [List.pairwise_iff_getElem] at hnk
      rcases Nat.lt_trichotomy i j with hl | hl | hl
      · exact absurd (by rw [ei, ej, e1, f1, hc]) (hnk i j hi' hj hl)
      · subst hl; rw [← ei, ← ej]
      · exact absurd (by rw [ei, ej, e1, f1, hc]) (hnk j i hj hi' hl)
    subst this
    exact hne (hi.oneId c hcm k x y e2 f2 hn hsg)

theorem run_append (s : St) (us vs : List Use) : run s (us ++ vs) = (run s us).bind fun s => run s vs := by
  induction us generalizing s with
  | nil => rfl
  | cons u l ih =>
    rw [List.cons_append, run, run]
    cases step s u with
    | none => rfl
    | some s1 => simp only [Option.bind_some, ih]

/-- **C32**: a member of a class that was not requested before is refused. -/
theorem C32_unknown_class_refused (us vs : List Use) (k : Kind) (x : Item) (h : ∀ p, Use.findClass x.classId p ∉ us) :
    collect (us ++ .member k x :: vs) = none := by
  unfold collect
  have : run ⟨[], false⟩ (us ++ .member k x :: vs) = none := by
    rw [run_append]
    cases hr : run ⟨[], false⟩ us with
    | none => rfl
    | some s =>
      have hi := run_inv [] us _ s init_inv hr
      rw [List.nil_append] at hi
      simp only [Option.bind_some]
      rw [run]
      have : step s (.member k x) = none := by
        unfold step
        dsimp only
        cases hg : get s.calls x.classId with
        | none => rfl
        | some c =>
          obtain ⟨g1, g2⟩ := get_some hg
          exact absurd (g2 ▸ hi.classUsed c g1) (h c.path)
      rw [this]; rfl
  rw [this]

/-! ## Loading and unloading -/

theorem getIds_spec (jvm : Jvm) (cls : Nat) (l : List (Kind × Item)) (w w' : World) (h : getIds jvm cls w l = some w')
    (hn : (l.map (·.2.id)).Nodup) :
    w'.globals = w.globals ∧ w'.locals = w.locals ∧ w'.next = w.next ∧ w'.log = w.log ++ l.map (·.2.id) ∧
    (∀ v, v ∉ l.map (·.2.id) → w'.vars v = w.vars v) ∧
    (∀ kx ∈ l, ∃ m, jvm.lookup kx.1 cls kx.2.name kx.2.sig = some m ∧ w'.vars kx.2.id = .mem m) := by
  induction l generalizing w with
  | nil =>
    simp only [getIds, Option.some.injEq] at h
    subst h
    simp
  | cons x l ih =>
    rw [getIds, Option.bind_eq_some_iff] at h
    obtain ⟨w1, h1, h2⟩ := h
    rw [List.map_cons, List.nodup_cons] at hn
    obtain ⟨a1, a2, a3, a4, a5, a6⟩ := ih w1 h2 hn.2
    unfold getId at h1
    cases hl : jvm.lookup x.1 cls x.2.name x.2.sig with
    | none => rw [hl] at h1; simp at h1
    | some m =>
      rw [hl] at h1
      simp only [Option.some.injEq] at h1
      subst h1
      refine ⟨a1, a2, a3, by rw [a4]; simp [World.set], ?_, ?_⟩
      · intro v hv
        rw [List.map_cons, List.mem_cons, not_or] at hv
        rw [a5 v hv.2]
        simp [World.set, hv.1]
      · intro kx hkx
        rw [List.mem_cons] at hkx
        rcases hkx with rfl | hkx
        · exact ⟨m, hl, by rw [a5 _ hn.1]; simp [World.set]⟩
        · exact a6 kx hkx

theorem loadClass_spec (jvm : Jvm) (w w' : World) (c : FindClass) (h : loadClass jvm w c = some w')
    (hn : (c.id :: c.all.map (·.2.id)).Nodup) :
    ∃ cls, jvm.findClass c.path = some cls ∧ w'.globals = (w.next, cls) :: w.globals ∧ w'.next = w.next + 1 ∧
      w'.locals = w.locals ∧ w'.log = w.log ++ (c.id :: c.all.map (·.2.id)) ∧
      (∀ v, v ∉ c.id :: c.all.map (·.2.id) → w'.vars v = w.vars v) ∧ w'.vars c.id = .ref w.next ∧
      (∀ kx ∈ c.all, ∃ m, jvm.lookup kx.1 cls kx.2.name kx.2.sig = some m ∧ w'.vars kx.2.id = .mem m) := by
  unfold loadClass at h
  cases hf : jvm.findClass c.path with
  | none => rw [hf] at h; simp at h
  | some cls =>
    rw [hf] at h
    dsimp only at h
    split at h
    · rw [List.nodup_cons] at hn
      obtain ⟨a1, a2, a3, a4, a5, a6⟩ := getIds_spec jvm cls c.all _ w' h hn.2
      refine ⟨cls, rfl, a1, a3, by rw [a2]; simp [World.set], by rw [a4]; simp [World.set], ?_, ?_, a6⟩
      · intro v hv
        rw [List.mem_cons, not_or] at hv
        rw [a5 v hv.2]; simp [World.set, hv.1]
      · rw [a5 _ hn.1]; simp [World.set]
    · simp at h

theorem globalVars_cons (c : FindClass) (l : List FindClass) :
    globalVars (c :: l) = (c.id :: c.all.map (·.2.id)) ++ globalVars l := by
  simp [globalVars]

theorem load_spec (jvm : Jvm) (order : List FindClass) (w w' : World) (h : load jvm w order = some w')
    (hn : (globalVars order).Nodup) :
    w'.locals = w.locals ∧ w'.log = w.log ++ globalVars order ∧ (∀ v, v ∉ globalVars order → w'.vars v = w.vars v) ∧
    (∃ new, w'.globals = new ++ w.globals ∧ (∀ hc ∈ new, w.next ≤ hc.1 ∧ hc.1 < w'.next) ∧ w.next ≤ w'.next ∧
      (new.map (·.1)).Nodup ∧ (∀ hc ∈ new, ∃ c ∈ order, w'.vars c.id = .ref hc.1) ∧
      ∀ c ∈ order, ∃ hd cls, jvm.findClass c.path = some cls ∧ (hd, cls) ∈ new ∧ w'.vars c.id = .ref hd ∧
        ∀ kx ∈ c.all, ∃ m, jvm.lookup kx.1 cls kx.2.name kx.2.sig = some m ∧ w'.vars kx.2.id = .mem m) := by
  induction order generalizing w with
  | nil =>
    simp only [load, Option.some.injEq] at h
    subst h
    exact ⟨rfl, by simp [globalVars], by simp, [], by simp, by simp, by simp, by simp, by simp, by simp⟩
  | cons c l ih =>
    rw [load, Option.bind_eq_some_iff] at h
    obtain ⟨w1, h1, h2⟩ := h
    rw [globalVars_cons, List.nodup_append] at hn
    obtain ⟨n1, n2, n3⟩ := hn
    obtain ⟨cls, b1, b2, b3, b4, b5, b6, b7, b8⟩ := loadClass_spec jvm w w1 c h1 n1
    obtain ⟨a1, a2, a3, new, a4, a5, a6, a7, a8, a9⟩ := ih w1 h2 n2
    have keep : ∀ v ∈ c.id :: c.all.map (·.2.id), w'.vars v = w1.vars v :=
      fun v hv => a3 v fun hm => n3 v hv v hm rfl
    refine ⟨a1.trans b4, by rw [a2, b5, globalVars_cons, List.append_assoc], ?_, new ++ [(w.next, cls)], ?_, ?_, by omega, ?_, ?_, ?_⟩
    · intro v hv
      rw [globalVars_cons, List.mem_append, not_or] at hv
      rw [a3 v hv.2, b6 v hv.1]
    · rw [a4, b2]; simp
    · intro hc hm
      rw [List.mem_append] at hm
      rcases hm with hm | hm
      · have := a5 hc hm; omega
      · simp only [List.mem_singleton] at hm; subst hm; simp only; omega
    · rw [List.map_append, List.nodup_append]
      refine ⟨a7, by simp, ?_⟩
      intro a ha b hb hab
      obtain ⟨hc, hm, rfl⟩ := List.mem_map.1 ha
      simp only [List.map_cons, List.map_nil, List.mem_singleton] at hb
      have := (a5 hc hm).1
      omega
    · intro hc hm
      rw [List.mem_append] at hm
      rcases hm with hm | hm
      · obtain ⟨d, hd, e⟩ := a8 hc hm
        exact ⟨d, by simp [hd], e⟩
      · simp only [List.mem_singleton] at hm; subst hm
        exact ⟨c, by simp, by rw [keep c.id (by simp), b7]⟩
    · intro d hd
      rw [List.mem_cons] at hd
      rcases hd with rfl | hd
      · refine ⟨w.next, cls, b1, by simp, by rw [keep _ (by simp), b7], ?_⟩
        intro kx hkx
        obtain ⟨m, m1, m2⟩ := b8 kx hkx
        exact ⟨m, m1, by rw [keep _ (by simp only [List.mem_cons, List.mem_map]; exact Or.inr ⟨kx, hkx, rfl⟩), m2]⟩
      · obtain ⟨hd', cls', e1, e2, e3, e4⟩ := a9 d hd
        exact ⟨hd', cls', e1, by simp [e2], e3, e4⟩

theorem perm_globalVars {l m : List FindClass} (h : l.Perm m) : (globalVars l).Perm (globalVars m) := by
  unfold globalVars
  exact h.flatMap_right _

/-- **C32**: after a successful `JNI_OnLoad`, whatever the order in which the table is walked, every variable used by the
generated code holds a live global reference to the requested class, or the id of the member with the requested kind, name and
signature in the class requested under that class id; every used variable was written exactly once and no local reference is
left over.  (The hypothesis that the declared `static` items have distinct names is what rustc checks.) -/
theorem C32_load (us : List Use) (calls order : List FindClass) (h : collect us = some calls) (ho : order.Perm calls)
    (hn : (globalVars calls).Nodup) (jvm : Jvm) (w w' : World) (hlog : w.log = []) (hl : load jvm w order = some w') :
    w'.locals = w.locals ∧
    (∀ id path, Use.findClass id path ∈ us →
      ∃ hd cls, jvm.findClass path = some cls ∧ w'.vars id = .ref hd ∧ (hd, cls) ∈ w'.globals ∧ w'.log.count id = 1) ∧
    (∀ k x, Use.member k x ∈ us →
      ∃ path cls m, Use.findClass x.classId path ∈ us ∧ jvm.findClass path = some cls ∧
        jvm.lookup k cls x.name x.sig = some m ∧ w'.vars x.id = .mem m ∧ w'.log.count x.id = 1) := by
  have hi := collect_inv h
  have hno : (globalVars order).Nodup := (perm_globalVars ho).nodup_iff.2 hn
  obtain ⟨a1, a2, a3, new, a4, a5, a6, a7, a8, a9⟩ := load_spec jvm order w w' hl hno
  have one : ∀ v, v ∈ globalVars order → w'.log.count v = 1 := by
    intro v hv
    rw [a2, hlog, List.nil_append]
    have h1 := List.nodup_iff_count.1 hno v
    have h2 := List.count_pos_iff.2 hv
    omega
  refine ⟨a1, ?_, ?_⟩
  · intro id path hu
    obtain ⟨c, hc, rfl, rfl⟩ := hi.classSeen rfl id path hu
    have hco := ho.mem_iff.2 hc
    obtain ⟨hd, cls, e1, e2, e3, _⟩ := a9 c hco
    refine ⟨hd, cls, e1, e3, by rw [a4]; simp [e2], one _ ?_⟩
    unfold globalVars
    exact List.mem_flatMap.2 ⟨c, hco, by simp⟩
  · intro k x hu
    obtain ⟨c, hc, e1, e2⟩ := hi.itemSeen k x hu
    have hco := ho.mem_iff.2 hc
    obtain ⟨hd, cls, f1, f2, f3, f4⟩ := a9 c hco
    obtain ⟨m, m1, m2⟩ := f4 (k, x) ((mem_all c k x).2 e2)
    refine ⟨c.path, cls, m, e1 ▸ hi.classUsed c hc, f1, m1, m2, one _ ?_⟩
    unfold globalVars
    refine List.mem_flatMap.2 ⟨c, hco, List.mem_cons_of_mem _ (List.mem_map.2 ⟨(k, x), (mem_all c k x).2 e2, rfl⟩)⟩

theorem unload_spec (order : List FindClass) (w : World) (base new : List (Nat × Nat)) (hg : w.globals = new ++ base)
    (hk : (order.map (·.id)).Nodup) (hnd : (new.map (·.1)).Nodup) (hb : ∀ a ∈ new, ∀ b ∈ base, a.1 ≠ b.1)
    (hr : ∀ c ∈ order, ∃ hc ∈ new, w.vars c.id = .ref hc.1)
    (hinj : ∀ c ∈ order, ∀ d ∈ order, c.id ≠ d.id → w.vars c.id ≠ w.vars d.id)
    (hall : ∀ hc ∈ new, ∃ c ∈ order, w.vars c.id = .ref hc.1) :
    ∃ w', unload w order = some w' ∧ w'.globals = base ∧ ∀ c ∈ order, w'.vars c.id = .null := by
  induction order generalizing w new with
  | nil =>
    have : new = [] := by
      cases new with
      | nil => rfl
      | cons a l => obtain ⟨c, hc, _⟩ := hall a (by simp); simp at hc
    subst this
    exact ⟨w, rfl, by simpa using hg, by simp⟩
  | cons c l ih =>
    rw [List.map_cons, List.nodup_cons] at hk
    obtain ⟨hc, hcm, hv⟩ := hr c (by simp)
    have hstep : unloadClass w c =
        some (({ w with globals := w.globals.filter (·.1 ≠ hc.1) } : World).set c.id .null) := by
      unfold unloadClass
      rw [hv]
      dsimp only
      rw [if_pos]
      rw [hg, List.any_eq_true]
      exact ⟨hc, by simp [hcm], by simp⟩
    have hbase : base.filter (·.1 ≠ hc.1) = base := by
      rw [List.filter_eq_self]
      intro b hb'
      simpa using (hb hc hcm b hb').symm
    have hne : ∀ d ∈ l, d.id ≠ c.id := fun d hd he => hk.1 (List.mem_map.2 ⟨d, hd, he⟩)
    have hvars : ∀ d ∈ l, (({ w with globals := w.globals.filter (·.1 ≠ hc.1) } : World).set c.id .null).vars d.id =
        w.vars d.id := by
      intro d hd
      simp [World.set, hne d hd]
    obtain ⟨w', e1, e2, e3⟩ := ih (({ w with globals := w.globals.filter (·.1 ≠ hc.1) } : World).set c.id .null)
      (new.filter (·.1 ≠ hc.1))
      (by simp only [World.set]; rw [hg, List.filter_append, hbase]) hk.2
      (by
        rw [List.nodup_iff_pairwise_ne, List.pairwise_map] at hnd ⊢
        exact hnd.sublist List.filter_sublist)
      (fun a ha => hb a (List.mem_filter.1 ha).1)
      (by
        intro d hd
        obtain ⟨hc', h1, h2⟩ := hr d (by simp [hd])
        refine ⟨hc', ?_, by rw [hvars d hd, h2]⟩
        rw [List.mem_filter]
        refine ⟨h1, ?_⟩
        have := hinj d (by simp [hd]) c (by simp) (hne d hd)
        rw [h2, hv] at this
        simp only [ne_eq, decide_not, Bool.not_eq_true', decide_eq_false_iff_not]
        intro he
        exact this (by rw [he]))
      (by
        intro d hd e he hde
        rw [hvars d hd, hvars e he]
        exact hinj d (by simp [hd]) e (by simp [he]) hde)
      (by
        intro hc' hm
        rw [List.mem_filter] at hm
        obtain ⟨d, hd, hdv⟩ := hall hc' hm.1
        rw [List.mem_cons] at hd
        rcases hd with rfl | hd
        · exfalso
          rw [hv] at hdv
          injection hdv with e
          have := hm.2
          simp [e] at this
        · exact ⟨d, hd, by rw [hvars d hd, hdv]⟩)
    refine ⟨w', by rw [unload, hstep]; exact e1, e2, ?_⟩
    intro d hd
    rw [List.mem_cons] at hd
    rcases hd with rfl | hd
    · have : ∀ (o : List FindClass) (u u' : World), unload u o = some u' → (∀ e ∈ o, e.id ≠ d.id) →
          u'.vars d.id = u.vars d.id := by
        intro o
        induction o with
        | nil => intro u u' h _; simp only [unload, Option.some.injEq] at h; rw [h]
        | cons e o iho =>
          intro u u' h hd'
          rw [unload, Option.bind_eq_some_iff] at h
          obtain ⟨u1, g1, g2⟩ := h
          rw [iho u1 u' g2 (fun e he => hd' e (by simp [he]))]
          unfold unloadClass at g1
          split at g1
          · split at g1
            · simp only [Option.some.injEq] at g1
              rw [← g1]
              simp [World.set, (hd' e (by simp)).symm]
            · simp at g1
          · simp at g1
      rw [this l _ w' e1 hne]
      simp [World.set]
    · exact e3 d hd

/-- **C32**: a load followed by an unload (in any order of the table) deletes every global reference created by the load
exactly once, touches no other reference, and leaves no cached class reference behind. -/
theorem C32_unload (us : List Use) (calls order order' : List FindClass) (h : collect us = some calls) (ho : order.Perm calls)
    (ho' : order'.Perm calls) (hn : (globalVars calls).Nodup) (jvm : Jvm) (w w' : World)
    (hw : ∀ g ∈ w.globals, g.1 < w.next) (hl : load jvm w order = some w') :
    ∃ w'', unload w' order' = some w'' ∧ w''.globals = w.globals ∧
      ∀ id path, Use.findClass id path ∈ us → w''.vars id = .null := by
  have hi := collect_inv h
  have hno : (globalVars order).Nodup := (perm_globalVars ho).nodup_iff.2 hn
  obtain ⟨a1, a2, a3, new, a4, a5, a6, a7, a8, a9⟩ := load_spec jvm order w w' hl hno
  have hkeys : (order.map (·.id)).Nodup := (ho.map (·.id)).nodup_iff.2 hi.keys
  -- the handles of different classes differ
  have hinj : ∀ (o : List FindClass) (u u' : World), load jvm u o = some u' → (globalVars o).Nodup →
      ∀ c ∈ o, ∀ d ∈ o, c.id ≠ d.id → u'.vars c.id ≠ u'.vars d.id := by
    intro o
    induction o with
    | nil => simp
    | cons e o ih =>
      intro u u' hlo hno'
      rw [load, Option.bind_eq_some_iff] at hlo
      obtain ⟨u1, g1, g2⟩ := hlo
      rw [globalVars_cons, List.nodup_append] at hno'
      obtain ⟨n1, n2, n3⟩ := hno'
      obtain ⟨cls, b1, b2, b3, b4, b5, b6, b7, b8⟩ := loadClass_spec jvm u u1 e g1 n1
      obtain ⟨c1, c2, c3, new', c4, c5, c6, c7, c8, c9⟩ := load_spec jvm o u1 u' g2 n2
      have he : u'.vars e.id = .ref u.next := by
        rw [c3 _ (fun hm => n3 e.id (by simp) e.id hm rfl), b7]
      have other : ∀ d ∈ o, u'.vars d.id ≠ .ref u.next := by
        intro d hd heq
        obtain ⟨hd', _, _, e2, e3, _⟩ := c9 d hd
        rw [e3] at heq
        injection heq with heq
        have := (c5 _ e2).1
        simp only at this
        omega
      intro c hc d hd hcd
      rw [List.mem_cons] at hc hd
      rcases hc with rfl | hc <;> rcases hd with rfl | hd
      · exact absurd rfl hcd
      · rw [he]; exact (other d hd).symm
      · rw [he]; exact other c hc
      · exact ih u1 u' g2 n2 c hc d hd hcd
  have hmem : ∀ c, c ∈ order' ↔ c ∈ order := fun c => (ho'.trans ho.symm).mem_iff
  obtain ⟨w'', e1, e2, e3⟩ := unload_spec order' w' w.globals new a4
    ((ho'.map (·.id)).nodup_iff.2 hi.keys) a7
    (by
      intro a ha b hb
      have := (a5 a ha).1
      have := hw b hb
      omega)
    (by
      intro c hc
      obtain ⟨hd, cls, _, f2, f3, _⟩ := a9 c ((hmem c).1 hc)
      exact ⟨(hd, cls), f2, f3⟩)
    (fun c hc d hd => hinj order w w' hl hno c ((hmem c).1 hc) d ((hmem d).1 hd))
    (by
      intro hc hm
      obtain ⟨c, f1, f2⟩ := a8 hc hm
      exact ⟨c, (hmem c).2 f1, f2⟩)
  refine ⟨w'', e1, e2, ?_⟩
  intro id path hu
  obtain ⟨c, hc, rfl, rfl⟩ := hi.classSeen rfl id path hu
  exact e3 c (ho'.mem_iff.2 hc)

/-- **C32 (finding)**: requesting the same class with the same path again after one of its members was requested is refused,
although there is no conflict. -/
theorem C32_finding_spurious_refusal :
    collect [.findClass "C".toList "java/lang/Long".toList,
      .member .method ⟨"M".toList, "C".toList, "longValue".toList, "()J".toList⟩,
      .findClass "C".toList "java/lang/Long".toList] = none ∧
    (collect [.findClass "C".toList "java/lang/Long".toList, .findClass "C".toList "java/lang/Long".toList,
      .member .method ⟨"M".toList, "C".toList, "longValue".toList, "()J".toList⟩]).isSome := by decide

/-- **C32 (finding)**: one id for two different members is not refused by the generator: it declares the variable twice (an
error of rustc in the generated code). -/
theorem C32_finding_same_id :
    (collect [.findClass "C".toList "java/lang/Long".toList,
      .member .method ⟨"M".toList, "C".toList, "longValue".toList, "()J".toList⟩,
      .member .method ⟨"M".toList, "C".toList, "intValue".toList, "()I".toList⟩]).map globalVars =
    some ["C".toList, "M".toList, "M".toList] := by decide

/-! ## Non-vacuity -/

/-- Two classes, three members. -/
def sampleUses : List Use :=
  [.findClass "A".toList "a/A".toList, .findClass "B".toList "b/B".toList,
   .member .method ⟨"A_f".toList, "A".toList, "f".toList, "()V".toList⟩,
   .member .staticField ⟨"B_x".toList, "B".toList, "x".toList, "I".toList⟩,
   .member .method ⟨"A_f".toList, "A".toList, "f".toList, "()V".toList⟩]

def sampleJvm : Jvm := ⟨fun p => some p.length, fun _ c n _ => some (100 * c + n.length), fun _ => true⟩

def sampleWorld : World := ⟨fun _ => .null, [(0, 9)], 0, 1, []⟩

example : (collect sampleUses).map (fun c => (c.length, globalVars c)) =
    some (2, ["A".toList, "A_f".toList, "B".toList, "B_x".toList]) := by decide
example : (((collect sampleUses).bind fun c => load sampleJvm sampleWorld c).map fun w =>
    (w.vars "A".toList, w.vars "A_f".toList, w.vars "B_x".toList, w.globals)) =
    some (.ref 1, .mem 301, .mem 301, [(2, 3), (1, 3), (0, 9)]) := by decide
example : (((collect sampleUses).bind fun c => (load sampleJvm sampleWorld c).bind fun w => unload w c.reverse).map fun w =>
    w.globals) = some [(0, 9)] := by decide

end Flapi.FindCache
