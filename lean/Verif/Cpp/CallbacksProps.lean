import Verif.Cpp.Callbacks
import Verif.Core.NameGenProps
/-!
# C45: C++ callbacks

Whatever Rust calls reaches the virtual method of that name with the arguments in order; an object given to Rust is deleted once, when Rust drops it.
-/
namespace Flapi.CppCallback

/-! ## Specification -/

/-- What a field of the C struct contains according to its name. -/
def fieldOf (i : Interface) (s : Inst) (f : Text) : Option Slot := s[(rustFields i).idxOf f]?

/-- The program never clones the Rust struct. -/
def NoClone {V : Type} (ops : List (Op V)) : Prop := ∀ k, Op.clone k ∉ ops

/-- Rust still holds the struct of the given object. -/
def RustHas {V : Type} (i : Interface) (s : St V) (o : Nat) : Prop := ∃ k : Nat, s.held[k]? = some (some (toCInterface i o))

/-- Rust holds at `k` a struct lent by C++ with the object `o`. -/
def LentAt {V : Type} (i : Interface) (s : St V) (k o : Nat) : Prop := s.held[k]? = some (some (referenceToCInterface i o))

/-! ## Fields -/

theorem idxOf_inj {l : List Text} {f g : Text} (hf : f ∈ l) (h : l.idxOf f = l.idxOf g) : f = g := by
  have h1 := List.idxOf_lt_length_of_mem hf
  have h2 : l.idxOf g < l.length := h ▸ h1
  have e1 : l[l.idxOf f] = f := List.getElem_idxOf h1
  have e2 : l[l.idxOf g] = g := List.getElem_idxOf h2
  rw [← e1, ← e2]
  congr 1

theorem setField_length (fs : List Text) (s : Inst) (f : Text) (v : Slot) : (setField fs s f v).length = s.length := by simp [setField]

theorem setField_same {fs : List Text} {s : Inst} {f : Text} (v : Slot) (hf : f ∈ fs) (hl : s.length = fs.length) :
    (setField fs s f v)[fs.idxOf f]? = some v := by
  have h1 := List.idxOf_lt_length_of_mem hf
  unfold setField
  rw [List.getElem?_set]
  simp; omega

theorem setField_other {fs : List Text} {s : Inst} {f g : Text} (v : Slot) (hg : g ∈ fs) (hne : g ≠ f) :
    (setField fs s f v)[fs.idxOf g]? = s[fs.idxOf g]? := by
  unfold setField
  rw [List.getElem?_set]
  rw [if_neg]
  intro h
  exact hne (idxOf_inj hg h.symm)

theorem fillMethods_length (fs : List Text) (ms : List Method) (s : Inst) : (fillMethods fs ms s).length = s.length := by
  induction ms generalizing s with
  | nil => rfl
  | cons m ms ih => rw [fillMethods, ih, setField_length]

theorem fillMethods_other {fs : List Text} {ms : List Method} {s : Inst} {g : Text} (hg : g ∈ fs) (hne : g ∉ ms.map (·.name)) :
    (fillMethods fs ms s)[fs.idxOf g]? = s[fs.idxOf g]? := by
  induction ms generalizing s with
  | nil => rfl
  | cons m ms ih =>
    simp only [List.map_cons, List.mem_cons, not_or] at hne
    rw [fillMethods, ih hne.2, setField_other _ hg hne.1]

theorem fillMethods_same {fs : List Text} {ms : List Method} {s : Inst} (hl : s.length = fs.length) (hsub : ∀ m ∈ ms, m.name ∈ fs) {m : Method} (hm : m ∈ ms) :
    (fillMethods fs ms s)[fs.idxOf m.name]? = some (.fn (.method m.name)) := by
  induction ms generalizing s with
  | nil => cases hm
  | cons a ms ih =>
    rw [fillMethods]
    by_cases hin : m.name ∈ ms.map (·.name)
    · obtain ⟨m', hm', e⟩ := List.mem_map.1 hin
      have := ih (s := setField fs s a.name (.fn (.method a.name))) (by rw [setField_length, hl]) (fun x hx => hsub x (List.mem_cons_of_mem _ hx))
      by_cases hmm : m ∈ ms
      · exact this hmm
      · have e2 : m = a := by
          rcases List.mem_cons.1 hm with h | h
          · exact h
          · exact absurd h hmm
        clear this
        have key : ∀ (l : List Method) (s : Inst), s.length = fs.length → (∀ x ∈ l, x.name ∈ fs) → m.name ∈ l.map (·.name) →
            (fillMethods fs l s)[fs.idxOf m.name]? = some (.fn (.method m.name)) := by
          intro l
          induction l with
          | nil => intro s _ _ h; cases h
          | cons b l ih2 =>
            intro s hl hs hmem
            rw [fillMethods]
            by_cases h2 : m.name ∈ l.map (·.name)
            · exact ih2 _ (by rw [setField_length, hl]) (fun x hx => hs x (List.mem_cons_of_mem _ hx)) h2
            · rw [fillMethods_other (by rw [List.map_cons, List.mem_cons] at hmem; exact (hmem.resolve_right h2) ▸ hs b (List.mem_cons_self ..)) h2]
              rw [List.map_cons, List.mem_cons] at hmem
              have hb := hmem.resolve_right h2
              rw [hb]
              exact setField_same _ (hs b (List.mem_cons_self ..)) hl
        exact key ms _ (by rw [setField_length, hl]) (fun x hx => hsub x (List.mem_cons_of_mem _ hx)) hin
    · have e2 : m = a := by
        rcases List.mem_cons.1 hm with h | h
        · exact h
        · exact absurd (List.mem_map_of_mem h) hin
      subst e2
      rw [fillMethods_other (hsub m (List.mem_cons_self ..)) hin]
      exact setField_same _ (hsub m (List.mem_cons_self ..)) hl

theorem compiles_fields {i : Interface} (h : compiles i = true) : (cFields i).Nodup := by
  simp only [compiles, Bool.and_eq_true, decide_eq_true_eq] at h
  exact h.1.1

theorem compiles_rust {i : Interface} (h : compiles i = true) : (i.items.map (·.rustName)).Nodup := by
  simp only [compiles, Bool.and_eq_true, decide_eq_true_eq] at h
  exact h.1.2

theorem compiles_params {i : Interface} (h : compiles i = true) {m : Method} (hm : m ∈ i.items) : (cParams m).Nodup := by
  simp only [compiles, Bool.and_eq_true, List.all_eq_true, decide_eq_true_eq] at h
  exact h.2 m hm

theorem facts {i : Interface} (h : compiles i = true) :
    opaqueText ≠ derefField i ∧ opaqueText ∉ i.items.map (·.name) ∧ derefField i ∉ i.items.map (·.name) := by
  have := compiles_fields h
  simp only [cFields, List.nodup_cons, List.mem_cons, not_or] at this
  exact ⟨this.1.1, this.1.2, this.2.1⟩

theorem name_mem {i : Interface} {m : Method} (hm : m ∈ i.items) : m.name ∈ cFields i :=
  List.mem_cons_of_mem _ (List.mem_cons_of_mem _ (List.mem_map_of_mem hm))

/-- Rust reads from every field what the C++ side stored for it, in both kinds of struct. -/
theorem C45_layout (i : Interface) (h : compiles i = true) (o : Nat) :
    (fieldOf i (toCInterface i o) opaqueText = some (.ptr o) ∧ fieldOf i (toCInterface i o) (derefField i) = some (.fn .deref) ∧
      ∀ m ∈ i.items, fieldOf i (toCInterface i o) m.name = some (.fn (.method m.name))) ∧
    (fieldOf i (referenceToCInterface i o) opaqueText = some (.ptr o) ∧ fieldOf i (referenceToCInterface i o) (derefField i) = some (.fn .nothing) ∧
      ∀ m ∈ i.items, fieldOf i (referenceToCInterface i o) m.name = some (.fn (.method m.name))) := by
  obtain ⟨h1, h2, h3⟩ := facts h
  have ho : opaqueText ∈ cFields i := List.mem_cons_self ..
  have hd : derefField i ∈ cFields i := List.mem_cons_of_mem _ (List.mem_cons_self ..)
  have hb : (blank i).length = (cFields i).length := by simp [blank]
  have hr : rustFields i = cFields i := rfl
  have hn : ∀ m ∈ i.items, m.name ∈ cFields i := fun m hm => name_mem hm
  have hdm : ∀ m ∈ i.items, m.name ≠ derefField i := fun m hm e => h3 (e ▸ List.mem_map_of_mem hm)
  unfold fieldOf toCInterface referenceToCInterface
  rw [hr]
  refine ⟨⟨?_, ?_, ?_⟩, ?_, ?_, ?_⟩
  · dsimp only; rw [fillMethods_other ho h2, setField_other _ ho h1, setField_same _ ho hb]
  · dsimp only; rw [fillMethods_other hd h3, setField_same _ hd (by rw [setField_length, hb])]
  · intro m hm; exact fillMethods_same (by rw [setField_length, setField_length, hb]) hn hm
  · dsimp only; rw [setField_other _ ho h1, fillMethods_other ho h2, setField_same _ ho hb]
  · dsimp only; rw [setField_same _ hd (by rw [fillMethods_length, setField_length, hb])]
  · intro m hm; dsimp only; rw [setField_other _ (hn m hm) (hdm m hm)]; exact fillMethods_same (by rw [setField_length, hb]) hn hm

theorem to_inj {i : Interface} (h : compiles i = true) {o o' : Nat} (e : toCInterface i o = toCInterface i o') : o = o' := by
  have h1 := (C45_layout i h o).1.1
  rw [e, (C45_layout i h o').1.1] at h1
  simpa using h1.symm

theorem ref_inj {i : Interface} (h : compiles i = true) {o o' : Nat} (e : referenceToCInterface i o = referenceToCInterface i o') : o = o' := by
  have h1 := (C45_layout i h o).2.1
  rw [e, (C45_layout i h o').2.1] at h1
  simpa using h1.symm

theorem to_ne_ref {i : Interface} (h : compiles i = true) {o o' : Nat} : toCInterface i o ≠ referenceToCInterface i o' := by
  intro e
  have h1 := (C45_layout i h o).1.2.1
  rw [e, (C45_layout i h o').2.2.1] at h1
  simp at h1

/-! ## Calls -/

theorem lookup_zip {V : Type} {ks : List Text} {vs : List V} (hn : ks.Nodup) {j : Nat} (hj : j < ks.length) (hv : j < vs.length) :
    lookup (ks.zip vs) ks[j] = some vs[j] := by
  induction ks generalizing vs j with
  | nil => simp at hj
  | cons k ks ih =>
    cases vs with
    | nil => simp at hv
    | cons v vs =>
      cases j with
      | zero => simp [lookup]
      | succ j =>
        have hne : k ≠ ks[j]'(by simpa using hj) := by
          intro e
          exact (List.nodup_cons.1 hn).1 (e ▸ List.getElem_mem _)
        have := ih (vs := vs) (j := j) (List.nodup_cons.1 hn).2 (by simpa using hj) (by simpa using hv)
        simp only [lookup, List.zip_cons_cons, List.getElem_cons_succ] at this ⊢
        rw [List.find?_cons_of_neg (by simpa using hne)]
        exact this

theorem mapM_eq {A B : Type} {f : A → Option B} : ∀ {l : List A} {r : List B}, l.length = r.length →
    (∀ j (h1 : j < l.length) (h2 : j < r.length), f l[j] = some r[j]) → l.mapM f = some r
  | [], [], _, _ => rfl
  | [], _ :: _, h, _ => by simp at h
  | _ :: _, [], h, _ => by simp at h
  | a :: l, b :: r, h, hf => by
    have h0 : f a = some b := hf 0 (by simp) (by simp)
    have := mapM_eq (f := f) (l := l) (r := r) (by simpa using h) (fun j h1 h2 => hf (j + 1) (by simpa using h1) (by simpa using h2))
    rw [List.mapM_cons, h0, this]
    rfl

theorem aName_inj {a b : Nat} (h : aName a = aName b) : a = b := dec_injective (List.cons.inj h).2

theorem aNames_nodup (n : Nat) : ((List.range n).map aName).Nodup :=
  List.Pairwise.map _ (fun _ _ hab e => hab (aName_inj e)) List.nodup_range

theorem find_unique {l : List Method} {f : Method → Text} (hn : (l.map f).Nodup) {m : Method} (hm : m ∈ l) :
    l.find? (fun x => f x = f m) = some m := by
  induction l with
  | nil => cases hm
  | cons a l ih =>
    rw [List.map_cons, List.nodup_cons] at hn
    by_cases e : f a = f m
    · rcases List.mem_cons.1 hm with rfl | h
      · simp
      · exact absurd (e ▸ List.mem_map_of_mem h) hn.1
    · rw [List.find?_cons_of_neg (by simpa using e)]
      exact ih hn.2 ((List.mem_cons.1 hm).resolve_left (fun h => e (h ▸ rfl)))

theorem names_nodup {i : Interface} (h : compiles i = true) : (i.items.map (·.name)).Nodup := by
  have := compiles_fields h
  simp only [cFields, List.nodup_cons] at this
  exact this.2.2

theorem runMethod_spec {V : Type} {i : Interface} (h : compiles i = true) (s : St V) {m : Method} (hm : m ∈ i.items) (vals : List V)
    (hlen : vals.length = m.args.length) (hsmall : m.args.length < NameGen.u64Max) (o : Nat) :
    runMethod i s m.name (vals.map .val ++ [.ptr o]) =
      if o ∈ s.deleted ∨ s.made ≤ o then .ub else .ok { s with calls := s.calls ++ [(o, m.name, vals)] } := by
  have hargs : m.args.Nodup := by
    have := compiles_params h hm
    rw [cParams, List.nodup_append] at this
    exact this.1
  unfold runMethod
  rw [find_unique (f := (·.name)) (names_nodup h) hm]
  obtain ⟨r, hr⟩ := NameGen.C01_total m.args opaqueText hsmall
  simp only [hr]
  have hfresh := NameGen.C01_fresh _ _ _ hr
  have hnd : (m.args ++ [r]).Nodup := by
    rw [List.nodup_append]
    refine ⟨hargs, by simp, ?_⟩
    intro a ha b hb e
    simp only [List.mem_singleton] at hb
    exact hfresh (hb ▸ e ▸ ha)
  have h1 : lookup ((m.args ++ [r]).zip (vals.map CArg.val ++ [CArg.ptr o])) r = some (.ptr o) := by
    have := lookup_zip (vs := vals.map CArg.val ++ [CArg.ptr o]) hnd (j := m.args.length) (by simp) (by simp [hlen])
    rw [List.getElem_append_right (by simp)] at this
    rw [List.getElem_append_right (by simp [hlen])] at this
    simpa using this
  have h2 : m.args.mapM (fun a => (lookup ((m.args ++ [r]).zip (vals.map CArg.val ++ [CArg.ptr o])) a).bind CArg.val?) = some vals := by
    apply mapM_eq hlen.symm
    intro j hj1 hj2
    have := lookup_zip (vs := vals.map CArg.val ++ [CArg.ptr o]) hnd (j := j) (by simp; omega) (by simp; omega)
    rw [List.getElem_append_left hj1, List.getElem_append_left (by simpa using hj2)] at this
    rw [this]
    simp [CArg.val?]
  simp only [h1, h2, Option.bind_some, CArg.ptr?]

theorem callTrait_spec {V : Type} {i : Interface} (h : compiles i = true) (s : St V) {m : Method} (hm : m ∈ i.items) (vals : List V)
    (hlen : vals.length = m.args.length) (hsmall : m.args.length < NameGen.u64Max) (o : Nat) (inst : Inst)
    (hi : inst = toCInterface i o ∨ inst = referenceToCInterface i o) :
    callTrait i s inst m.rustName vals =
      if o ∈ s.deleted ∨ s.made ≤ o then .ub else .ok { s with calls := s.calls ++ [(o, m.name, vals)] } := by
  have hL := C45_layout i h o
  have ho : inst[(rustFields i).idxOf opaqueText]? = some (.ptr o) := by
    rcases hi with rfl | rfl
    · exact hL.1.1
    · exact hL.2.1
  have hmth : inst[(rustFields i).idxOf m.name]? = some (.fn (.method m.name)) := by
    rcases hi with rfl | rfl
    · exact hL.1.2.2 m hm
    · exact hL.2.2.2 m hm
  have ha : ((List.range vals.length).map aName).mapM (lookup (((List.range vals.length).map aName).zip vals)) = some vals := by
    apply mapM_eq (by simp)
    intro j h1 h2
    exact lookup_zip (aNames_nodup _) h1 h2
  unfold callTrait
  rw [find_unique (f := (·.rustName)) (compiles_rust h) hm]
  simp only [hlen, ne_eq, not_true_eq_false, if_false, ho, hmth]
  rw [hlen] at ha
  simp only [ha]
  exact runMethod_spec h s hm vals hlen hsmall o

/-- A function of the trait called on what C++ gave or lent runs, on that very object and if it is alive, the virtual method the interface names for
it, with the same arguments in the same order. -/
theorem C45_dispatch {V : Type} (i : Interface) (h : compiles i = true) (s : St V) (m : Method) (hm : m ∈ i.items) (vals : List V)
    (hlen : vals.length = m.args.length) (hsmall : m.args.length < NameGen.u64Max) (o k : Nat)
    (hk : s.held[k]? = some (some (toCInterface i o)) ∨ LentAt i s k o) (halive : o < s.made ∧ o ∉ s.deleted) :
    step i s (.call k m.rustName vals) = .ok { s with calls := s.calls ++ [(o, m.name, vals)] } := by
  have hn : ¬ (o ∈ s.deleted ∨ s.made ≤ o) := by
    rintro (h | h)
    · exact halive.2 h
    · omega
  rcases hk with hk | hk
  · simp only [step, hk]
    rw [callTrait_spec h s hm vals hlen hsmall o _ (.inl rfl), if_neg hn]
  · unfold LentAt at hk
    simp only [step, hk]
    rw [callTrait_spec h s hm vals hlen hsmall o _ (.inr rfl), if_neg hn]

/-! ## Life of the objects -/

structure Inv {V : Type} (i : Interface) (s : St V) : Prop where
  kinds : ∀ (k : Nat) (inst : Inst), s.held[k]? = some (some inst) →
    (∃ o, inst = toCInterface i o ∧ o < s.made ∧ o ∉ s.kept ∧ o ∉ s.deleted) ∨ (∃ o, inst = referenceToCInterface i o ∧ o ∈ s.kept)
  unique : ∀ (k k' o : Nat), s.held[k]? = some (some (toCInterface i o)) → s.held[k']? = some (some (toCInterface i o)) → k = k'
  kept : ∀ o ∈ s.kept, o < s.made
  del : ∀ o ∈ s.deleted, o < s.made
  once : s.deleted.Nodup
  owner : ∀ o < s.made, o ∉ s.kept → o ∉ s.deleted → RustHas i s o

theorem inv_initial {V : Type} (i : Interface) : Inv i (initial : St V) := by
  constructor <;> simp [initial]

theorem callTrait_cases {V : Type} {i : Interface} {s s' : St V} {inst : Inst} {f : Text} {vals : List V} (h : callTrait i s inst f vals = .ok s') :
    ∃ c, s' = { s with calls := c } := by
  unfold callTrait at h
  split at h
  · cases h
  · split at h
    · cases h
    · dsimp only at h
      split at h
      · unfold runMethod at h
        split at h
        · cases h
        · split at h
          · cases h
          · dsimp only at h
            split at h
            · split at h
              · cases h
              · cases h; exact ⟨_, rfl⟩
            · cases h
      · cases h

theorem dropInst_given {V : Type} {i : Interface} (h : compiles i = true) (s : St V) (o : Nat) :
    dropInst i s (toCInterface i o) = if o ∈ s.deleted ∨ s.made ≤ o then .ub else .ok { s with deleted := s.deleted ++ [o] } := by
  have hL := (C45_layout i h o).1
  unfold fieldOf at hL
  unfold dropInst
  rw [hL.1, hL.2.1]

theorem dropInst_lent {V : Type} {i : Interface} (h : compiles i = true) (s : St V) (o : Nat) :
    dropInst i s (referenceToCInterface i o) = .ok s := by
  have hL := (C45_layout i h o).2
  unfold fieldOf at hL
  unfold dropInst
  rw [hL.1, hL.2.1]

theorem inv_step {V : Type} {i : Interface} (h : compiles i = true) {s s' : St V} {op : Op V} (hop : ∀ k, op ≠ .clone k) (inv : Inv i s)
    (hs : step i s op = .ok s') : Inv i s' := by
  cases op with
  | give =>
    simp only [step, Res.ok.injEq] at hs
    subst hs
    constructor
    · intro k inst hk
      dsimp only at hk ⊢
      rw [List.getElem?_append] at hk
      split at hk
      · rcases inv.kinds k inst hk with ⟨o, e, h1, h2, h3⟩ | ⟨o, e, h1⟩
        · exact .inl ⟨o, e, by omega, h2, h3⟩
        · exact .inr ⟨o, e, h1⟩
      · left
        rw [List.getElem?_singleton] at hk
        split at hk
        · simp only [Option.some.injEq] at hk
          refine ⟨s.made, hk.symm, by omega, fun hc => ?_, fun hc => ?_⟩
          · have := inv.kept _ hc; omega
          · have := inv.del _ hc; omega
        · cases hk
    · intro k k' o hk hk'
      dsimp only at hk hk'
      rw [List.getElem?_append] at hk hk'
      have aux : ∀ k : Nat, s.held[k]? = some (some (toCInterface i s.made)) → False := by
        intro k hk
        rcases inv.kinds k _ hk with ⟨o, e, h1, _⟩ | ⟨o, e, _⟩
        · have := to_inj h e; omega
        · exact to_ne_ref h e
      split at hk <;> split at hk'
      · exact inv.unique k k' o hk hk'
      · rw [List.getElem?_singleton] at hk'
        split at hk'
        · simp only [Option.some.injEq] at hk'
          rw [← hk'] at hk
          exact (aux k hk).elim
        · cases hk'
      · rw [List.getElem?_singleton] at hk
        split at hk
        · simp only [Option.some.injEq] at hk
          rw [← hk] at hk'
          exact (aux k' hk').elim
        · cases hk
      · rw [List.getElem?_singleton] at hk hk'
        split at hk <;> split at hk'
        · omega
        · cases hk'
        · cases hk
        · cases hk
    · intro o ho; have := inv.kept o ho; dsimp only; omega
    · intro o ho; have := inv.del o ho; dsimp only; omega
    · exact inv.once
    · intro o ho hk hd
      dsimp only at ho hk hd
      by_cases e : o = s.made
      · subst e
        exact ⟨s.held.length, by simp⟩
      · obtain ⟨k, hk'⟩ := inv.owner o (by omega) hk hd
        exact ⟨k, by dsimp only; rw [List.getElem?_append_left (List.getElem?_eq_some_iff.1 hk').1]; exact hk'⟩
  | giveNull => simp [step] at hs
  | make =>
    simp only [step, Res.ok.injEq] at hs
    subst hs
    constructor
    · intro k inst hk
      rcases inv.kinds k inst hk with ⟨o, e, h1, h2, h3⟩ | ⟨o, e, h1⟩
      · exact .inl ⟨o, e, by dsimp only; omega, by simp only [List.mem_append, List.mem_singleton, not_or]; exact ⟨h2, by omega⟩, h3⟩
      · exact .inr ⟨o, e, by simp [h1]⟩
    · exact inv.unique
    · intro o ho
      simp only [List.mem_append, List.mem_singleton] at ho
      dsimp only
      rcases ho with ho | ho
      · have := inv.kept o ho; omega
      · omega
    · intro o ho; have := inv.del o ho; dsimp only; omega
    · exact inv.once
    · intro o ho hk hd
      simp only [List.mem_append, List.mem_singleton, not_or] at hk
      dsimp only at ho hd
      exact inv.owner o (by omega) hk.1 hd
  | lend o =>
    simp only [step] at hs
    split at hs
    · rename_i hc
      cases hs
      constructor
      · intro k inst hk
        dsimp only at hk ⊢
        rw [List.getElem?_append] at hk
        split at hk
        · exact inv.kinds k inst hk
        · rw [List.getElem?_singleton] at hk
          split at hk
          · simp only [Option.some.injEq] at hk
            exact .inr ⟨o, hk.symm, hc.1⟩
          · cases hk
      · intro k k' o' hk hk'
        have aux : ∀ k : Nat, (s.held ++ [some (referenceToCInterface i o)])[k]? = some (some (toCInterface i o')) → s.held[k]? = some (some (toCInterface i o')) := by
          intro k hk
          rw [List.getElem?_append] at hk
          split at hk
          · exact hk
          · rw [List.getElem?_singleton] at hk
            split at hk
            · simp only [Option.some.injEq] at hk
              exact (to_ne_ref h hk.symm).elim
            · cases hk
        exact inv.unique k k' o' (aux k hk) (aux k' hk')
      · exact inv.kept
      · exact inv.del
      · exact inv.once
      · intro o' ho hk hd
        obtain ⟨k, hk'⟩ := inv.owner o' ho hk hd
        exact ⟨k, by dsimp only; rw [List.getElem?_append_left (List.getElem?_eq_some_iff.1 hk').1]; exact hk'⟩
    · cases hs
  | delete o =>
    simp only [step] at hs
    split at hs
    · rename_i hc
      cases hs
      constructor
      · intro k inst hk
        rcases inv.kinds k inst hk with ⟨o', e, h1, h2, h3⟩ | ⟨o', e, h1⟩
        · refine .inl ⟨o', e, h1, h2, ?_⟩
          simp only [List.mem_append, List.mem_singleton, not_or]
          exact ⟨h3, fun e => h2 (e ▸ hc.1)⟩
        · exact .inr ⟨o', e, h1⟩
      · exact inv.unique
      · exact inv.kept
      · intro o' ho
        simp only [List.mem_append, List.mem_singleton] at ho
        rcases ho with ho | ho
        · exact inv.del o' ho
        · exact inv.kept o' (ho ▸ hc.1)
      · show (s.deleted ++ [o]).Nodup
        rw [List.nodup_append]
        refine ⟨inv.once, by simp, ?_⟩
        intro a ha b hb e
        simp only [List.mem_singleton] at hb
        exact hc.2 (hb ▸ e ▸ ha)
      · intro o' ho hk hd
        simp only [List.mem_append, not_or] at hd
        exact inv.owner o' ho hk hd.1
    · cases hs
  | call k f vals =>
    simp only [step] at hs
    split at hs
    · obtain ⟨c, e⟩ := callTrait_cases hs
      subst e
      exact ⟨inv.kinds, inv.unique, inv.kept, inv.del, inv.once, inv.owner⟩
    · cases hs
  | clone k => exact (hop k rfl).elim
  | drop k =>
    simp only [step] at hs
    split at hs
    · rename_i inst hk
      have hset : ∀ (k' : Nat) (x : Inst), (s.held.set k none)[k']? = some (some x) → k' ≠ k ∧ s.held[k']? = some (some x) := by
        intro k' x hx
        rw [List.getElem?_set] at hx
        split at hx
        · split at hx
          · cases hx
          · cases hx
        · rename_i hne
          exact ⟨fun e => hne e.symm, hx⟩
      rcases inv.kinds k inst hk with ⟨o, e, h1, h2, h3⟩ | ⟨o, e, h1⟩
      · subst e
        rw [dropInst_given h, if_neg (by rintro (h | h); exact h3 h; omega)] at hs
        cases hs
        constructor
        · intro k' inst' hk'
          obtain ⟨hne, hk2⟩ := hset k' inst' hk'
          rcases inv.kinds k' inst' hk2 with ⟨o', e, g1, g2, g3⟩ | ⟨o', e, g1⟩
          · refine .inl ⟨o', e, g1, g2, ?_⟩
            simp only [List.mem_append, List.mem_singleton, not_or]
            refine ⟨g3, fun eo => ?_⟩
            subst eo
            subst e
            exact hne (inv.unique k' k o' hk2 hk)
          · exact .inr ⟨o', e, g1⟩
        · intro a b o' ha hb
          exact inv.unique a b o' (hset a _ ha).2 (hset b _ hb).2
        · exact inv.kept
        · intro o' ho
          simp only [List.mem_append, List.mem_singleton] at ho
          rcases ho with ho | ho
          · exact inv.del o' ho
          · dsimp only; omega
        · show (s.deleted ++ [o]).Nodup
          rw [List.nodup_append]
          refine ⟨inv.once, by simp, ?_⟩
          intro a ha b hb e
          simp only [List.mem_singleton] at hb
          exact h3 (hb ▸ e ▸ ha)
        · intro o' ho hkp hd
          simp only [List.mem_append, List.mem_singleton, not_or] at hd
          obtain ⟨k', hk'⟩ := inv.owner o' ho hkp hd.1
          refine ⟨k', ?_⟩
          show (s.held.set k none)[k']? = _
          rw [List.getElem?_set, if_neg]
          · exact hk'
          · intro ek
            subst ek
            rw [hk] at hk'
            simp only [Option.some.injEq] at hk'
            exact hd.2 (to_inj h hk').symm
      · subst e
        rw [dropInst_lent h] at hs
        cases hs
        constructor
        · intro k' inst' hk'
          exact inv.kinds k' inst' (hset k' inst' hk').2
        · intro a b o' ha hb
          exact inv.unique a b o' (hset a _ ha).2 (hset b _ hb).2
        · exact inv.kept
        · exact inv.del
        · exact inv.once
        · intro o' ho hkp hd
          obtain ⟨k', hk'⟩ := inv.owner o' ho hkp hd
          refine ⟨k', ?_⟩
          show (s.held.set k none)[k']? = _
          rw [List.getElem?_set, if_neg]
          · exact hk'
          · intro ek
            subst ek
            rw [hk] at hk'
            simp only [Option.some.injEq] at hk'
            exact to_ne_ref h hk'.symm
    · cases hs

theorem inv_run {V : Type} {i : Interface} (h : compiles i = true) : ∀ {ops : List (Op V)} {s s' : St V}, NoClone ops → Inv i s → run i s ops = .ok s' → Inv i s'
  | [], s, s', _, inv, hr => by cases hr; exact inv
  | op :: ops, s, s', hn, inv, hr => by
    rw [run] at hr
    split at hr
    · rename_i s1 hs
      exact inv_run h (fun k hk => hn k (List.mem_cons_of_mem _ hk)) (inv_step h (fun k e => hn k (e ▸ List.mem_cons_self ..)) inv hs) hr
    · rename_i r hne
      rw [hr] at hne
      exact (hne _ rfl).elim

/-- As long as the struct itself is not cloned in Rust, no object is deleted twice, and an object given to Rust (`< made`, not `kept`) is deleted
exactly if Rust no longer holds it. -/
theorem C45_deleted_once {V : Type} (i : Interface) (h : compiles i = true) (ops : List (Op V)) (hn : NoClone ops) (s : St V)
    (hr : run i initial ops = .ok s) :
    s.deleted.Nodup ∧ ∀ o < s.made, o ∉ s.kept → (o ∈ s.deleted ↔ ¬ RustHas i s o) := by
  have inv := inv_run h hn (inv_initial i) hr
  refine ⟨inv.once, fun o ho hk => ⟨?_, ?_⟩⟩
  · rintro hd ⟨k, hk'⟩
    rcases inv.kinds k _ hk' with ⟨o', e, _, _, h3⟩ | ⟨o', e, _⟩
    · exact h3 (to_inj h e ▸ hd)
    · exact to_ne_ref h e
  · intro hn
    exact Classical.byContradiction fun hd => hn (inv.owner o ho hk hd)

/-- The only way to undefined behaviour without cloning the struct: Rust calls a function on an object C++ lent and then deleted. -/
theorem C45_no_ub {V : Type} (i : Interface) (h : compiles i = true) (hsmall : ∀ m ∈ i.items, m.args.length < NameGen.u64Max) (ops : List (Op V))
    (hn : NoClone ops) (hub : run i initial ops = .ub) :
    ∃ (pre suf : List (Op V)) (k : Nat) (f : Text) (vals : List V) (s : St V) (o : Nat), ops = pre ++ .call k f vals :: suf ∧ run i initial pre = .ok s ∧
      LentAt i s k o ∧ o ∈ s.kept ∧ o ∈ s.deleted := by
  have key : ∀ (ops : List (Op V)) (s0 : St V), NoClone ops → Inv i s0 → run i s0 ops = .ub →
      ∃ (pre suf : List (Op V)) (k : Nat) (f : Text) (vals : List V) (s : St V) (o : Nat), ops = pre ++ .call k f vals :: suf ∧ run i s0 pre = .ok s ∧
      LentAt i s k o ∧ o ∈ s.kept ∧ o ∈ s.deleted := by
    intro ops
    induction ops with
    | nil => intro s0 _ _ hr; cases hr
    | cons op ops ih =>
      intro s0 hn inv hr
      rw [run] at hr
      split at hr
      · rename_i s1 hs
        obtain ⟨pre, suf, k, f, vals, s, o, e, hp, rest⟩ := ih s1 (fun k hk => hn k (List.mem_cons_of_mem _ hk))
          (inv_step h (fun k e => hn k (e ▸ List.mem_cons_self ..)) inv hs) hr
        refine ⟨op :: pre, suf, k, f, vals, s, o, by rw [e]; rfl, ?_, rest⟩
        rw [run, hs]; exact hp
      · cases op with
        | give => simp [step] at hr
        | giveNull => simp [step] at hr
        | make => simp [step] at hr
        | lend o => simp only [step] at hr; split at hr <;> cases hr
        | delete o => simp only [step] at hr; split at hr <;> cases hr
        | clone k => simp only [step] at hr; split at hr <;> cases hr
        | drop k =>
          simp only [step] at hr
          split at hr
          · rename_i inst hk
            rcases inv.kinds k inst hk with ⟨o, e, h1, h2, h3⟩ | ⟨o, e, h1⟩
            · subst e
              rw [dropInst_given h, if_neg (by rintro (h | h); exact h3 h; omega)] at hr
              cases hr
            · subst e
              rw [dropInst_lent h] at hr
              cases hr
          · cases hr
        | call k f vals =>
          refine ⟨[], ops, k, f, vals, s0, ?_⟩
          simp only [step] at hr
          split at hr
          · rename_i inst hk
            have hf : ∃ m ∈ i.items, m.rustName = f ∧ vals.length = m.args.length := by
              unfold callTrait at hr
              split at hr
              · cases hr
              · rename_i m hm
                split at hr
                · cases hr
                · rename_i hl
                  exact ⟨m, List.mem_of_find?_eq_some hm, by simpa using List.find?_some hm, by omega⟩
            obtain ⟨m, hm, rfl, hl⟩ := hf
            rcases inv.kinds k inst hk with ⟨o, e, h1, h2, h3⟩ | ⟨o, e, h1⟩
            · rw [callTrait_spec h s0 hm vals hl (hsmall m hm) o inst (.inl e), if_neg (by rintro (h | h); exact h3 h; omega)] at hr
              cases hr
            · rw [callTrait_spec h s0 hm vals hl (hsmall m hm) o inst (.inr e)] at hr
              split at hr
              · rename_i hc
                have := inv.kept o h1
                exact ⟨o, rfl, rfl, by rw [LentAt, hk, e], h1, hc.resolve_right (by omega)⟩
              · cases hr
          · cases hr
  exact key ops initial hn (inv_initial i) hub

/-- Every run of the trait's functions on a given object before Rust drops it goes through: the calls recorded are exactly the calls made. -/
theorem C45_conversation {V : Type} (i : Interface) (h : compiles i = true) (hsmall : ∀ m ∈ i.items, m.args.length < NameGen.u64Max)
    (cs : List (Method × List V)) (hc : ∀ c ∈ cs, c.1 ∈ i.items ∧ c.2.length = c.1.args.length) :
    ∃ s : St V, run i initial (Op.give :: cs.map (fun c => Op.call 0 c.1.rustName c.2) ++ [.drop 0]) = .ok s ∧
      s.calls = cs.map (fun c => (0, c.1.name, c.2)) ∧ s.deleted = [0] := by
  have key : ∀ (cs : List (Method × List V)) (s : St V), (∀ c ∈ cs, c.1 ∈ i.items ∧ c.2.length = c.1.args.length) →
      s.held[0]? = some (some (toCInterface i 0)) → 0 < s.made → s.deleted = [] →
      ∃ s' : St V, run i s (cs.map (fun c => Op.call 0 c.1.rustName c.2) ++ [.drop 0]) = .ok s' ∧
        s'.calls = s.calls ++ cs.map (fun c => (0, c.1.name, c.2)) ∧ s'.deleted = [0] := by
    intro cs
    induction cs with
    | nil =>
      intro s _ hh hm hd
      refine ⟨{ s with deleted := s.deleted ++ [0], held := s.held.set 0 none }, ?_, by simp, by simp [hd]⟩
      simp only [List.map_nil, List.nil_append, run, step, hh]
      rw [dropInst_given h, if_neg (by rw [hd]; simp; omega)]
    | cons c cs ih =>
      intro s hc hh hm hd
      obtain ⟨hci, hcl⟩ := hc c (List.mem_cons_self ..)
      have hst := C45_dispatch i h s c.1 hci c.2 hcl (hsmall _ hci) 0 0 (.inl hh) ⟨hm, by rw [hd]; simp⟩
      obtain ⟨s', h1, h2, h3⟩ := ih { s with calls := s.calls ++ [(0, c.1.name, c.2)] } (fun x hx => hc x (List.mem_cons_of_mem _ hx)) hh hm hd
      refine ⟨s', ?_, ?_, h3⟩
      · rw [List.map_cons, List.cons_append, run, hst]
        exact h1
      · rw [h2]; simp
  obtain ⟨s', h1, h2, h3⟩ := key cs ⟨1, [], [], [some (toCInterface i 0)], []⟩ hc rfl (by simp) rfl
  refine ⟨s', ?_, by simpa using h2, h3⟩
  rw [List.cons_append, run]
  exact h1

/-! ## Findings and examples -/

/-- The observer of the examples: two methods, two and no arguments, renamed. -/
def sample : Interface :=
  ⟨"MyObserver".toList, [⟨"on_state_changed".toList, "onStateChanged".toList, ["item".toList, "is_ok".toList]⟩, ⟨"on_done".toList, "onDone".toList, []⟩]⟩

example : compiles sample = true := by decide
example : ∀ m ∈ sample.items, m.args.length < NameGen.u64Max := by decide

/-- Finding: the generated struct is `pub` and `Clone` and also has a destructor: cloned by Rust code and dropped twice, the C++ object is deleted
twice. -/
theorem C45_finding_clone : run sample (initial : St Nat) [.give, .clone 0, .drop 0, .drop 1] = .ub := by rfl

/-- Finding: an argument called `opaque` is fine in the C++ class (a fresh name is asked for) but the C header declares the parameter `opaque` again. -/
theorem C45_finding_opaque (i : Interface) (m : Method) (hm : m ∈ i.items) (ho : opaqueText ∈ m.args ∨ m.name = opaqueText) : compiles i = false := by
  cases hc : compiles i with
  | false => rfl
  | true =>
    rcases ho with ho | ho
    · have := compiles_params hc hm
      rw [cParams, List.nodup_append] at this
      exact (this.2.2 _ ho opaqueText (by simp) rfl).elim
    · exact ((facts hc).2.1 (ho ▸ List.mem_map_of_mem hm)).elim

/-- The generated code of a callback compiles exactly if no method is called `opaque` or like the field for the destructor, no argument is called `opaque`, and the
methods, as Rust and as C++ call them, and the arguments of each have different names. -/
theorem C45_compiles_iff (i : Interface) : compiles i = true ↔
    (∀ m ∈ i.items, m.name ≠ "opaque".toList ∧ m.name ≠ "C_".toList ++ i.name ++ "_deref".toList ∧ m.args.Nodup ∧ "opaque".toList ∉ m.args) ∧
    (i.items.map (·.name)).Nodup ∧ (i.items.map (·.rustName)).Nodup := by
  have ne : opaqueText ≠ derefField i := by
    intro h
    have h : some 'o' = some 'C' := congrArg List.head? h
    cases h
  have params : ∀ m : Method, (cParams m).Nodup ↔ m.args.Nodup ∧ opaqueText ∉ m.args := by
    intro m
    rw [cParams, List.nodup_append]
    constructor
    · intro ⟨h1, _, h3⟩
      exact ⟨h1, fun h => h3 _ h opaqueText (List.mem_singleton_self _) rfl⟩
    · intro ⟨h1, h2⟩
      refine ⟨h1, List.nodup_cons.2 ⟨fun h => (by cases h), List.nodup_nil⟩, fun a ha b hb e => ?_⟩
      rw [List.mem_singleton] at hb
      exact h2 (hb ▸ e ▸ ha)
  constructor
  · intro h
    obtain ⟨_, h2, h3⟩ := facts h
    refine ⟨fun m hm => ⟨fun e => h2 (List.mem_map.2 ⟨m, hm, e⟩), fun e => h3 (List.mem_map.2 ⟨m, hm, e⟩), (params m).1 (compiles_params h hm)⟩, names_nodup h, compiles_rust h⟩
  · intro ⟨h1, h2, h3⟩
    have hf : (cFields i).Nodup := by
      rw [cFields, List.nodup_cons, List.nodup_cons]
      refine ⟨fun h => ?_, fun h => ?_, h2⟩
      · rcases List.mem_cons.1 h with h | h
        · exact ne h
        · obtain ⟨m, hm, e⟩ := List.mem_map.1 h
          exact (h1 m hm).1 e
      · obtain ⟨m, hm, e⟩ := List.mem_map.1 h
        exact (h1 m hm).2.1 e
    simp only [compiles, Bool.and_eq_true, List.all_eq_true, decide_eq_true_eq]
    exact ⟨⟨hf, h3⟩, fun m hm => (params m).2 (h1 m hm).2.2⟩

/-- A lent object that died before the call is used. -/
theorem C45_lent_must_outlive : run sample (initial : St Nat) [.make, .lend 0, .delete 0, .call 0 "on_done".toList []] = .ub := by rfl

end Flapi.CppCallback
