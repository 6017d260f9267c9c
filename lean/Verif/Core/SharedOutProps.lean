import Verif.Core.SharedOut
/-! # Several generators writing to one output directory at the same time (C88) -/
namespace Flapi.SharedOut
open Flapi.FileCache

/-! ## Specification -/

/-- The processes generate the same: `F` says what belongs into each file. -/
def SameVersion {β : Type} (F : Path → List β) (jobs : List (List (Job β))) : Prop := ∀ l ∈ jobs, ∀ j ∈ l, j.cnt = F j.path

/-- The process is writing the file, and wrote `off` bytes of it. -/
def Proc.Writes {β : Type} (q : Proc β) (p : Path) (off : Nat) : Prop := ∃ j, q.phase = .writing j off ∧ j.path = p

/-- Some flush of the file returned `Ok`. -/
def Flushed {β : Type} (s : Sys β) (p : Path) : Prop := ∃ q ∈ s.procs, ∃ j ∈ q.done, j.path = p

/-- The process has nothing left to do. -/
def Proc.Finished {β : Type} (q : Proc β) : Prop := q.todo = [] ∧ q.phase = .idle

/-! ## Lemmas -/

theorem get_set {α : Type} {l : List α} {i j : Nat} {x y : α} (h : (l.set i x)[j]? = some y) : (j = i ∧ y = x) ∨ (j ≠ i ∧ l[j]? = some y) := by
  by_cases e : i = j
  · subst e
    rw [List.getElem?_set_self'] at h
    left
    refine ⟨rfl, ?_⟩
    cases hl : l[i]? with
    | none => rw [hl] at h; simp at h
    | some z => rw [hl] at h; simpa using h.symm
  · rw [List.getElem?_set_ne e] at h
    exact Or.inr ⟨fun e' => e e'.symm, h⟩

theorem mem_set_of {α : Type} {l : List α} {i : Nat} {x y : α} (h : y ∈ l.set i x) : y = x ∨ ∃ j, j ≠ i ∧ l[j]? = some y := by
  obtain ⟨j, hj⟩ := List.getElem?_of_mem h
  rcases get_set hj with ⟨_, e⟩ | ⟨e1, e2⟩
  · exact Or.inl e
  · exact Or.inr ⟨j, e1, e2⟩

theorem mem_set_self {α : Type} {l : List α} {i : Nat} {x t : α} (h : l[i]? = some t) : x ∈ l.set i x := by
  have hlt : i < l.length := by
    rcases Nat.lt_or_ge i l.length with h' | h'
    · exact h'
    · rw [List.getElem?_eq_none h'] at h; cases h
  exact List.mem_iff_getElem?.2 ⟨i, by rw [List.getElem?_set_self hlt]⟩

theorem mem_set_other {α : Type} {l : List α} {i j : Nat} {x y : α} (h : l[j]? = some y) (hne : j ≠ i) : y ∈ l.set i x :=
  List.mem_iff_getElem?.2 ⟨j, by rw [List.getElem?_set_ne (fun e => hne e.symm)]; exact h⟩

theorem pwrite_length {β : Type} (z : β) (c : List β) (off : Nat) (bs : List β) : (pwrite z c off bs).length = max c.length (off + bs.length) := by
  simp only [pwrite, List.length_append, List.length_take, List.length_replicate, List.length_drop]
  omega

theorem pwrite_in {β : Type} (z : β) (c : List β) (off : Nat) (bs : List β) (i : Nat) (h1 : off ≤ i) (h2 : i < off + bs.length) :
    (pwrite z c off bs)[i]? = bs[i - off]? := by
  unfold pwrite
  have hl : ((c ++ List.replicate (off - c.length) z).take off).length = off := by
    simp only [List.length_take, List.length_append, List.length_replicate]
    omega
  rw [List.append_assoc, List.getElem?_append_right (by omega), hl, List.getElem?_append_left (by omega)]

theorem pwrite_after {β : Type} (z : β) (c : List β) (off : Nat) (bs : List β) (i : Nat) (h : off + bs.length ≤ i) :
    (pwrite z c off bs)[i]? = c[i]? := by
  unfold pwrite
  have hl : ((c ++ List.replicate (off - c.length) z).take off).length = off := by
    simp only [List.length_take, List.length_append, List.length_replicate]
    omega
  rw [List.append_assoc, List.getElem?_append_right (by omega), hl, List.getElem?_append_right (by omega), List.getElem?_drop]
  congr 1
  omega

theorem pwrite_before {β : Type} (z : β) (c : List β) (off : Nat) (bs : List β) (i : Nat) (h : i < off) :
    (pwrite z c off bs)[i]? = some (c[i]?.getD z) := by
  unfold pwrite
  have hl : ((c ++ List.replicate (off - c.length) z).take off).length = off := by
    simp only [List.length_take, List.length_append, List.length_replicate]
    omega
  rw [List.append_assoc, List.getElem?_append_left (by omega), List.getElem?_take_of_lt h]
  by_cases hi : i < c.length
  · rw [List.getElem?_append_left hi, List.getElem?_eq_getElem hi]
    rfl
  · rw [List.getElem?_append_right (by omega), List.getElem?_replicate_of_lt (by omega), List.getElem?_eq_none (by omega)]
    rfl

/-- The file as it was before anything was written, or being written. -/
structure Touched {β : Type} (z : β) (f c : List β) (procs : List (Proc β)) (p : Path) : Prop where
  short : c.length ≤ f.length
  right : ∀ i, i < f.length → c[i]? = f[i]? ∨ ∃ q ∈ procs, ∃ off, q.Writes p off ∧ off ≤ i
  moment : ∀ i, i < c.length → c[i]? = f[i]? ∨ c[i]? = some z

/-- What holds of a process. -/
structure ProcOk {β : Type} (F : Path → List β) (q : Proc β) : Prop where
  todo : ∀ j ∈ q.todo, j.cnt = F j.path
  done : ∀ j ∈ q.done, j.cnt = F j.path
  reading : ∀ j buf, q.phase = .reading j buf → j.cnt = F j.path
  creating : ∀ j, q.phase = .creating j → j.cnt = F j.path
  writing : ∀ j off, q.phase = .writing j off → j.cnt = F j.path ∧ off ≤ j.cnt.length

/-- What holds of a file. -/
def FileOk {β : Type} (z : β) (F : Path → List β) (d0 : Disk β) (s : Sys β) (p : Path) : Prop :=
  (s.disk p = d0 p ∧ (∀ q ∈ s.procs, ∀ off, ¬ q.Writes p off) ∧
    (∀ q ∈ s.procs, ∀ j buf, q.phase = .reading j buf → j.path = p → ∃ c, d0 p = some c ∧ buf <+: c) ∧
    (Flushed s p → d0 p = some (F p))) ∨
  ∃ c, s.disk p = some c ∧ Touched z (F p) c s.procs p

theorem pstep_ok {β : Type} {z : β} {F : Path → List β} {d d' : Disk β} {q q' : Proc β} (h : PStep z d q d' q') (ok : ProcOk F q) :
    ProcOk F q' := by
  cases h with
  | «open» j l dn c h =>
    exact ⟨fun x hx => ok.todo x (List.mem_cons_of_mem _ hx), ok.done, by
      intro j' buf e
      simp only [Phase.reading.injEq] at e
      rw [← e.1]
      exact ok.todo j (List.mem_cons_self ..), by simp, by simp⟩
  | missing j l dn h =>
    exact ⟨fun x hx => ok.todo x (List.mem_cons_of_mem _ hx), ok.done, by simp, by
      intro j' e
      simp only [Phase.creating.injEq] at e
      rw [← e]
      exact ok.todo j (List.mem_cons_self ..), by simp⟩
  | read j l dn buf c n h hn hl =>
    exact ⟨ok.todo, ok.done, by
      intro j' buf' e
      simp only [Phase.reading.injEq] at e
      rw [← e.1]
      exact ok.reading j buf rfl, by simp, by simp⟩
  | same j l dn buf c h hl he =>
    refine ⟨ok.todo, ?_, by simp, by simp, by simp⟩
    intro x hx
    rcases List.mem_append.1 hx with hx | hx
    · exact ok.done x hx
    · rw [List.mem_singleton.1 hx]; exact ok.reading j buf rfl
  | differ j l dn buf c h hl he =>
    exact ⟨ok.todo, ok.done, by simp, by
      intro j' e
      simp only [Phase.creating.injEq] at e
      rw [← e]
      exact ok.reading j buf rfl, by simp⟩
  | create j l dn =>
    exact ⟨ok.todo, ok.done, by simp, by simp, by
      intro j' off e
      simp only [Phase.writing.injEq] at e
      obtain ⟨rfl, rfl⟩ := e
      exact ⟨ok.creating j rfl, Nat.zero_le _⟩⟩
  | write j l dn off n c h hn hl =>
    exact ⟨ok.todo, ok.done, by simp, by simp, by
      intro j' off' e
      simp only [Phase.writing.injEq] at e
      obtain ⟨rfl, rfl⟩ := e
      exact ⟨(ok.writing j off rfl).1, hl⟩⟩
  | close j l dn off h =>
    refine ⟨ok.todo, ?_, by simp, by simp, by simp⟩
    intro x hx
    rcases List.mem_append.1 hx with hx | hx
    · exact ok.done x hx
    · rw [List.mem_singleton.1 hx]; exact (ok.writing j off rfl).1

/-- The set of processes changes at one place: what becomes of a claim about a file that is not concerned. -/
theorem fileOk_quiet {β : Type} {z : β} {F : Path → List β} {d0 : Disk β} {s : Sys β} {p : Path} {i : Nat} {q q' : Proc β} {d' : Disk β}
    (hi : s.procs[i]? = some q) (h : FileOk z F d0 s p) (hd : d' p = s.disk p)
    (hw : ∀ off, q'.Writes p off → q.Writes p off) (hw' : ∀ off, q.Writes p off → off < (F p).length → q'.Writes p off)
    (hr : ∀ j buf, q'.phase = .reading j buf → j.path = p → ∀ c, s.disk p = some c → s.disk p = d0 p →
      (∀ j buf, q.phase = .reading j buf → j.path = p → buf <+: c) → buf <+: c)
    (hr' : ∀ j buf, q'.phase = .reading j buf → j.path = p → ∃ c, s.disk p = some c)
    (hf : ∀ j ∈ q'.done, j.path = p → j ∈ q.done ∨ (s.disk p = d0 p → (∀ off, ¬ q.Writes p off) →
      (∀ j buf, q.phase = .reading j buf → j.path = p → ∃ c, d0 p = some c ∧ buf <+: c) → d0 p = some (F p))) :
    FileOk z F d0 ⟨s.procs.set i q', d'⟩ p := by
  have hqm := List.mem_of_getElem? hi
  rcases h with ⟨h1, h2, h3, h4⟩ | ⟨c, hc, ht⟩
  · left
    refine ⟨hd.trans h1, ?_, ?_, ?_⟩
    · intro u hu off hwu
      rcases mem_set_of hu with rfl | ⟨j, _, hj⟩
      · exact h2 q hqm off (hw off hwu)
      · exact h2 u (List.mem_of_getElem? hj) off hwu
    · intro u hu j buf e hp
      rcases mem_set_of hu with rfl | ⟨k, _, hk⟩
      · obtain ⟨c, hc⟩ := hr' j buf e hp
        refine ⟨c, by rw [← h1]; exact hc, hr j buf e hp c hc h1 ?_⟩
        intro j' buf' e' hp'
        obtain ⟨c', hc', hb⟩ := h3 q hqm j' buf' e' hp'
        rw [← h1, hc] at hc'
        rw [Option.some.inj hc']
        exact hb
      · exact h3 u (List.mem_of_getElem? hk) j buf e hp
    · rintro ⟨u, hu, j, hj, hp⟩
      rcases mem_set_of hu with rfl | ⟨k, _, hk⟩
      · rcases hf j hj hp with hq | hq
        · exact h4 ⟨q, hqm, j, hq, hp⟩
        · exact hq h1 (h2 q hqm) (h3 q hqm)
      · exact h4 ⟨u, List.mem_of_getElem? hk, j, hj, hp⟩
  · right
    refine ⟨c, hd.trans hc, ht.short, ?_, ht.moment⟩
    intro k hk
    rcases ht.right k hk with e | ⟨u, hu, off, hwu, hle⟩
    · exact Or.inl e
    · right
      obtain ⟨m, hm⟩ := List.getElem?_of_mem hu
      by_cases e : m = i
      · subst e
        rw [hi] at hm
        cases hm
        exact ⟨q', mem_set_self hi, off, hw' off hwu (by omega), hle⟩
      · exact ⟨u, mem_set_other hm e, off, hwu, hle⟩

theorem step_file {β : Type} {z : β} {F : Path → List β} {d0 : Disk β} {s s' : Sys β} (h : Step z s s') (ok : ∀ q ∈ s.procs, ProcOk F q)
    (inv : ∀ p, FileOk z F d0 s p) : ∀ p, FileOk z F d0 s' p := by
  intro p
  cases h with
  | mk i q q' d' hi h =>
    have okq := ok q (List.mem_of_getElem? hi)
    cases h with
    | «open» j l dn c h =>
      refine fileOk_quiet hi (inv p) rfl (by simp [Proc.Writes]) (by simp [Proc.Writes]) ?_ ?_ (fun x hx _ => Or.inl hx)
      · intro j' buf e hp c' _ _ _
        simp only [Phase.reading.injEq] at e
        rw [← e.2]
        exact List.nil_prefix
      · intro j' buf e hp
        simp only [Phase.reading.injEq] at e
        rw [← hp, ← e.1]
        exact ⟨c, h⟩
    | missing j l dn h =>
      exact fileOk_quiet hi (inv p) rfl (by simp [Proc.Writes]) (by simp [Proc.Writes]) (by simp) (by simp) (fun x hx _ => Or.inl hx)
    | read j l dn buf c n h hn hl =>
      refine fileOk_quiet hi (inv p) rfl (by simp [Proc.Writes]) (by simp [Proc.Writes]) ?_ ?_ (fun x hx _ => Or.inl hx)
      · intro j' buf' e hp c' hc' _ hpre
        simp only [Phase.reading.injEq] at e
        obtain ⟨rfl, rfl⟩ := e
        have hb := hpre j buf rfl hp
        rw [hp, hc'] at h
        have hcc := Option.some.inj h
        subst hcc
        have hbt : buf = c'.take buf.length := List.prefix_iff_eq_take.1 hb
        have : buf ++ (c'.drop buf.length).take n = c'.take (buf.length + n) := by
          rw [List.take_add]
          rw [← hbt]
        rw [this]
        exact List.take_prefix _ _
      · intro j' buf' e hp
        simp only [Phase.reading.injEq] at e
        rw [← hp, ← e.1]
        exact ⟨c, h⟩
    | same j l dn buf c h hl he =>
      refine fileOk_quiet hi (inv p) rfl (by simp [Proc.Writes]) (by simp [Proc.Writes]) (by simp) (by simp) ?_
      intro x hx hp
      rcases List.mem_append.1 hx with hx | hx
      · exact Or.inl hx
      · right
        intro hd _ hr
        rw [List.mem_singleton.1 hx] at hp
        obtain ⟨c', hc', hb⟩ := hr j buf rfl hp
        rw [hp, hd, hc'] at h
        have hcc := Option.some.inj h
        subst hcc
        rw [hc']
        have : buf = c' := List.IsPrefix.eq_of_length_le hb hl
        rw [← this, he, okq.reading j buf rfl, hp]
    | differ j l dn buf c h hl he =>
      exact fileOk_quiet hi (inv p) rfl (by simp [Proc.Writes]) (by simp [Proc.Writes]) (by simp) (by simp) (fun x hx _ => Or.inl hx)
    | close j l dn off h =>
      by_cases hp : j.path = p
      · have hnu : ¬ (∀ q ∈ s.procs, ∀ off, ¬ q.Writes p off) := fun hx => hx _ (List.mem_of_getElem? hi) off ⟨j, rfl, hp⟩
        refine fileOk_quiet hi (inv p) rfl (by simp [Proc.Writes]) ?_ (by simp) (by simp) ?_
        · rintro off' ⟨j', e, _⟩ hlt
          simp only [Phase.writing.injEq] at e
          obtain ⟨rfl, rfl⟩ := e
          rw [h, (okq.writing j _ rfl).1, hp] at hlt
          omega
        · intro x hx hp'
          right
          intro _ hw _
          exact absurd ⟨j, rfl, hp⟩ (hw off)
      · refine fileOk_quiet hi (inv p) rfl (by simp [Proc.Writes]) ?_ (by simp) (by simp) ?_
        · rintro off' ⟨j', e, hp'⟩ _
          simp only [Phase.writing.injEq] at e
          rw [← e.1] at hp'
          exact absurd hp' hp
        · intro x hx hp'
          rcases List.mem_append.1 hx with hx | hx
          · exact Or.inl hx
          · rw [List.mem_singleton.1 hx] at hp'
            exact absurd hp' hp
    | create j l dn =>
      by_cases hp : p = j.path
      · right
        refine ⟨[], by simp [Disk.set, hp], Nat.zero_le _, ?_, by simp⟩
        intro k _
        exact Or.inr ⟨_, mem_set_self hi, 0, ⟨j, rfl, hp.symm⟩, Nat.zero_le _⟩
      · refine fileOk_quiet hi (inv p) (by simp [Disk.set, hp]) ?_ (by simp [Proc.Writes]) (by simp) (by simp) (fun x hx _ => Or.inl hx)
        rintro off ⟨j', e, hp'⟩
        simp only [Phase.writing.injEq] at e
        rw [← e.1] at hp'
        exact absurd hp'.symm hp
    | write j l dn off n c h hn hl =>
      by_cases hp : p = j.path
      · subst hp
        rcases inv j.path with ⟨_, h2, _⟩ | ⟨c', hc', ht⟩
        · exact absurd ⟨j, rfl, rfl⟩ (h2 _ (List.mem_of_getElem? hi) off)
        · rw [h] at hc'
          cases hc'
          right
          obtain ⟨hcnt, _⟩ := okq.writing j off rfl
          have hbl : ((j.cnt.drop off).take n).length = n := by
            simp only [List.length_take, List.length_drop]
            omega
          have hbs : ∀ k, off ≤ k → k < off + n → ((j.cnt.drop off).take n)[k - off]? = (F j.path)[k]? := by
            intro k h1 h2
            rw [List.getElem?_take_of_lt (by omega), List.getElem?_drop, ← hcnt]
            congr 1
            omega
          refine ⟨_, by simp [Disk.set]; rfl, ?_, ?_, ?_⟩
          · rw [pwrite_length, hbl, ← hcnt]
            have := ht.short
            rw [← hcnt] at this
            omega
          · intro k hk
            by_cases k1 : k < off
            · rw [pwrite_before _ _ _ _ _ k1]
              rcases ht.right k hk with e | ⟨u, hu, off', hwu, hle⟩
              · left
                rw [e]
                cases hfk : (F j.path)[k]? with
                | none => rw [List.getElem?_eq_none_iff] at hfk; omega
                | some b => rfl
              · right
                obtain ⟨m, hm⟩ := List.getElem?_of_mem hu
                by_cases e : m = i
                · subst e
                  rw [hi] at hm
                  cases hm
                  obtain ⟨j', e, _⟩ := hwu
                  simp only [Phase.writing.injEq] at e
                  omega
                · exact ⟨u, mem_set_other hm e, off', hwu, hle⟩
            · by_cases k2 : k < off + n
              · left
                rw [pwrite_in _ _ _ _ _ (by omega) (by omega)]
                exact hbs k (by omega) k2
              · rw [pwrite_after _ _ _ _ _ (by omega)]
                rcases ht.right k hk with e | ⟨u, hu, off', hwu, hle⟩
                · exact Or.inl e
                · right
                  obtain ⟨m, hm⟩ := List.getElem?_of_mem hu
                  by_cases e : m = i
                  · exact ⟨_, mem_set_self hi, off + n, ⟨j, rfl, rfl⟩, by omega⟩
                  · exact ⟨u, mem_set_other hm e, off', hwu, hle⟩
          · intro k hk
            by_cases k1 : k < off
            · rw [pwrite_before _ _ _ _ _ k1]
              by_cases hkc : k < c.length
              · rcases ht.moment k hkc with e | e
                · left
                  rw [e]
                  cases hfk : (F j.path)[k]? with
                  | none => rw [List.getElem?_eq_none_iff] at hfk; rw [← hcnt] at hfk; omega
                  | some b => rfl
                · right; rw [e]; rfl
              · right
                rw [List.getElem?_eq_none (by omega)]
                rfl
            · by_cases k2 : k < off + n
              · left
                rw [pwrite_in _ _ _ _ _ (by omega) (by omega)]
                exact hbs k (by omega) k2
              · rw [pwrite_after _ _ _ _ _ (by omega)]
                refine ht.moment k ?_
                rw [pwrite_length, hbl] at hk
                omega
      · refine fileOk_quiet hi (inv p) (by simp [Disk.set, hp]) ?_ ?_ (by simp) (by simp) (fun x hx _ => Or.inl hx)
        · rintro off' ⟨j', e, hp'⟩
          simp only [Phase.writing.injEq] at e
          rw [← e.1] at hp'
          exact absurd hp'.symm hp
        · rintro off' ⟨j', e, hp'⟩ _
          simp only [Phase.writing.injEq] at e
          rw [← e.1] at hp'
          exact absurd hp'.symm hp

theorem reach_inv {β : Type} {z : β} {F : Path → List β} {jobs : List (List (Job β))} (hj : SameVersion F jobs) {d0 : Disk β} {s : Sys β}
    (h : Reach z (initial jobs d0) s) : (∀ q ∈ s.procs, ProcOk F q) ∧ ∀ p, FileOk z F d0 s p := by
  induction h with
  | refl =>
    constructor
    · intro q hq
      obtain ⟨l, hl, rfl⟩ := List.mem_map.1 hq
      exact ⟨hj l hl, by simp, by simp, by simp, by simp⟩
    · intro p
      left
      refine ⟨rfl, ?_, ?_, ?_⟩
      · intro q hq off ⟨j, e, _⟩
        obtain ⟨l, hl, rfl⟩ := List.mem_map.1 hq
        cases e
      · intro q hq j buf e
        obtain ⟨l, hl, rfl⟩ := List.mem_map.1 hq
        cases e
      · rintro ⟨q, hq, j, hjd, _⟩
        obtain ⟨l, hl, rfl⟩ := List.mem_map.1 hq
        cases hjd
  | step _ h' ih =>
    refine ⟨?_, step_file h' ih.1 ih.2⟩
    cases h' with
    | mk i q q' d' hi h =>
      intro u hu
      rcases mem_set_of hu with rfl | ⟨j, _, hj⟩
      · exact pstep_ok h (ih.1 q (List.mem_of_getElem? hi))
      · exact ih.1 u (List.mem_of_getElem? hj)

/-! ## Theorems -/

/-- **C88**: when generators of the same version work on one output directory at the same time, under every schedule a file that some of them
flushed successfully and none is writing (any more) holds exactly what belongs there. -/
theorem C88_right_content {β : Type} (z : β) (F : Path → List β) (jobs : List (List (Job β))) (hj : SameVersion F jobs) (d0 : Disk β) (s : Sys β)
    (h : Reach z (initial jobs d0) s) (p : Path) (hf : Flushed s p) (hw : ∀ q ∈ s.procs, ∀ off, ¬ q.Writes p off) :
    s.disk p = some (F p) := by
  rcases (reach_inv hj h).2 p with ⟨h1, _, _, h4⟩ | ⟨c, hc, ht⟩
  · rw [h1]
    exact h4 hf
  · rw [hc]
    congr 1
    apply List.ext_getElem?
    intro i
    by_cases hi : i < (F p).length
    · rcases ht.right i hi with e | ⟨q, hq, off, hwq, _⟩
      · exact e
      · exact absurd hwq (hw q hq off)
    · rw [List.getElem?_eq_none (by have := ht.short; omega), List.getElem?_eq_none (by omega)]

/-- **C88**: at every moment the file is the old one, or no longer than the new one with every byte right or zero. -/
theorem C88_every_moment {β : Type} (z : β) (F : Path → List β) (jobs : List (List (Job β))) (hj : SameVersion F jobs) (d0 : Disk β) (s : Sys β)
    (h : Reach z (initial jobs d0) s) (p : Path) :
    s.disk p = d0 p ∨ ∃ c, s.disk p = some c ∧ c.length ≤ (F p).length ∧ ∀ i, i < c.length → c[i]? = (F p)[i]? ∨ c[i]? = some z := by
  rcases (reach_inv hj h).2 p with ⟨h1, _⟩ | ⟨c, hc, ht⟩
  · exact Or.inl h1
  · exact Or.inr ⟨c, hc, ht.short, ht.moment⟩

/-- The jobs of a process, those it made, the one it makes and those to come. -/
def Proc.jobs {β : Type} (q : Proc β) : List (Job β) :=
  q.done ++ (match q.phase with | .idle => [] | .reading j _ => [j] | .creating j => [j] | .writing j _ => [j]) ++ q.todo

theorem pstep_jobs {β : Type} {z : β} {d d' : Disk β} {q q' : Proc β} (h : PStep z d q d' q') : q'.jobs = q.jobs := by
  cases h <;> simp [Proc.jobs]

/-- **C88**: every process flushes its files in order, none is left out or repeated. -/
theorem C88_all_flushed {β : Type} (z : β) (jobs : List (List (Job β))) (d0 : Disk β) (s : Sys β) (h : Reach z (initial jobs d0) s) :
    s.procs.map Proc.jobs = jobs ∧ ∀ (i : Nat) (q : Proc β), s.procs[i]? = some q → q.Finished → jobs[i]? = some q.done := by
  have h1 : s.procs.map Proc.jobs = jobs := by
    induction h with
    | refl => simp [initial, Function.comp_def, Proc.jobs]
    | step _ h' ih =>
      cases h' with
      | mk i q q' d' hi h =>
        rw [← ih]
        apply List.ext_getElem?
        intro k
        rw [List.getElem?_map, List.getElem?_map]
        by_cases e : k = i
        · subst e
          have hlt : k < _ := (List.getElem?_eq_some_iff.1 hi).1
          rw [List.getElem?_set_self hlt, hi]
          simp [pstep_jobs h]
        · rw [List.getElem?_set_ne (fun e' => e e'.symm)]
  refine ⟨h1, ?_⟩
  intro i q hi hf
  have h2 := congrArg (fun l => l[i]?) h1
  simp only [List.getElem?_map, hi, Option.map_some] at h2
  rw [← h2]
  simp [Proc.jobs, hf.1, hf.2]

/-- **C88**: nobody ever waits: a process that is not finished can go on whatever the others do. -/
theorem C88_no_waiting {β : Type} [DecidableEq β] (z : β) (F : Path → List β) (jobs : List (List (Job β))) (hj : SameVersion F jobs) (d0 : Disk β) (s : Sys β)
    (h : Reach z (initial jobs d0) s) (i : Nat) (q : Proc β) (hi : s.procs[i]? = some q) (hf : ¬ q.Finished) :
    ∃ q' d', PStep z s.disk q d' q' ∧ Step z s ⟨s.procs.set i q', d'⟩ := by
  have hex : ∃ q' d', PStep z s.disk q d' q' := by
    have inv := reach_inv hj h
    have okq := inv.1 q (List.mem_of_getElem? hi)
    have hex : ∀ j, ((∃ buf, q.phase = .reading j buf) ∨ ∃ off, q.phase = .writing j off) → ∃ c, s.disk j.path = some c := by
      intro j hj
      rcases inv.2 j.path with ⟨h1, h2, h3, _⟩ | ⟨c, hc, _⟩
      · rcases hj with ⟨buf, e⟩ | ⟨off, e⟩
        · obtain ⟨c, hc, _⟩ := h3 q (List.mem_of_getElem? hi) j buf e rfl
          exact ⟨c, by rw [h1]; exact hc⟩
        · exact absurd ⟨j, e, rfl⟩ (h2 q (List.mem_of_getElem? hi) off)
      · exact ⟨c, hc⟩
    obtain ⟨todo, phase, dn⟩ := q
    cases phase with
    | idle =>
      cases todo with
      | nil => exact absurd ⟨rfl, rfl⟩ hf
      | cons j l =>
        cases hd : s.disk j.path with
        | none => exact ⟨_, _, .missing j l dn hd⟩
        | some c => exact ⟨_, _, .open j l dn c hd⟩
    | reading j buf =>
      obtain ⟨c, hc⟩ := hex j (Or.inl ⟨buf, rfl⟩)
      by_cases hl : c.length ≤ buf.length
      · by_cases he : buf = j.cnt
        · exact ⟨_, _, .same j todo dn buf c hc hl he⟩
        · exact ⟨_, _, .differ j todo dn buf c hc hl he⟩
      · exact ⟨_, _, .read j todo dn buf c 1 hc (by omega) (by omega)⟩
    | creating j => exact ⟨_, _, .create j todo dn⟩
    | writing j off =>
      obtain ⟨c, hc⟩ := hex j (Or.inr ⟨off, rfl⟩)
      by_cases hl : off = j.cnt.length
      · exact ⟨_, _, .close j todo dn off hl⟩
      · have := (okq.writing j off rfl).2
        exact ⟨_, _, .write j todo dn off 1 c hc (by omega) (by omega)⟩
  obtain ⟨q', d', hs⟩ := hex
  exact ⟨q', d', hs, .mk i q q' d' hi hs⟩

/-- The path is that of a job. -/
def Named {β : Type} (jobs : List (List (Job β))) (p : Path) : Prop := ∃ l ∈ jobs, ∃ j ∈ l, j.path = p

theorem current_named {β : Type} {z : β} {jobs : List (List (Job β))} {d0 : Disk β} {s : Sys β} (h : Reach z (initial jobs d0) s) {q : Proc β}
    (hq : q ∈ s.procs) {j : Job β} (hj : j ∈ q.jobs) : Named jobs j.path := by
  refine ⟨q.jobs, ?_, j, hj, rfl⟩
  have := (C88_all_flushed z jobs d0 s h).1
  rw [← this]
  exact List.mem_map_of_mem hq

/-- **C88**: no other file is touched. -/
theorem C88_others {β : Type} (z : β) (jobs : List (List (Job β))) (d0 : Disk β) (s : Sys β) (h : Reach z (initial jobs d0) s) (p : Path)
    (hp : ¬ Named jobs p) : s.disk p = d0 p := by
  induction h with
  | refl => rfl
  | @step s1 s2 h1 h' ih =>
    cases h' with
    | mk i q q' d' hi h =>
      have hnm : ∀ j ∈ q.jobs, p ≠ j.path := fun j hj e => hp (e ▸ current_named h1 (List.mem_of_getElem? hi) hj)
      cases h with
      | create j l dn => simpa [Disk.set, hnm j (by simp [Proc.jobs])] using ih
      | write j l dn off n c h hn hl => simpa [Disk.set, hnm j (by simp [Proc.jobs])] using ih
      | _ => exact ih

/-- **C88**: when every file already holds what belongs there, no process ever opens one for writing: nothing on the disk changes at any moment. -/
theorem C88_up_to_date {β : Type} (z : β) (F : Path → List β) (jobs : List (List (Job β))) (hj : SameVersion F jobs) (d0 : Disk β)
    (hd : ∀ p, Named jobs p → d0 p = some (F p)) (s : Sys β) (h : Reach z (initial jobs d0) s) :
    s.disk = d0 ∧ ∀ q ∈ s.procs, ∀ (j : Job β), q.phase ≠ .creating j ∧ ∀ off, q.phase ≠ .writing j off := by
  have key : s.disk = d0 ∧ ∀ q ∈ s.procs, (∀ j, q.phase ≠ .creating j ∧ ∀ off, q.phase ≠ .writing j off) ∧
      ∀ j buf, q.phase = .reading j buf → buf <+: F j.path := by
    induction h with
    | refl =>
      refine ⟨rfl, ?_⟩
      intro q hq
      obtain ⟨l, _, rfl⟩ := List.mem_map.1 hq
      simp
    | @step s1 s2 h1 h' ih =>
      obtain ⟨ihd, ihp⟩ := ih
      cases h' with
      | mk i q q' d' hi h =>
        have hq := List.mem_of_getElem? hi
        have hfile : ∀ j ∈ q.jobs, s1.disk j.path = some (F j.path) := fun j hj => by rw [ihd]; exact hd _ (current_named h1 hq hj)
        have okq := (reach_inv hj h1).1 q hq
        have goal : d' = d0 ∧ (∀ j, q'.phase ≠ .creating j ∧ ∀ off, q'.phase ≠ .writing j off) ∧
            ∀ j buf, q'.phase = .reading j buf → buf <+: F j.path := by
          cases h with
          | «open» j l dn c h =>
            refine ⟨ihd, by simp, ?_⟩
            intro j' buf e
            simp only [Phase.reading.injEq] at e
            rw [← e.2]
            exact List.nil_prefix
          | missing j l dn h =>
            rw [hfile j (by simp [Proc.jobs])] at h
            cases h
          | read j l dn buf c n h hn hl =>
            refine ⟨ihd, by simp, ?_⟩
            intro j' buf' e
            simp only [Phase.reading.injEq] at e
            obtain ⟨rfl, rfl⟩ := e
            have hb := (ihp _ hq).2 j buf rfl
            rw [hfile j (by simp [Proc.jobs])] at h
            have hcc := Option.some.inj h
            subst hcc
            have hbt := List.prefix_iff_eq_take.1 hb
            have : buf ++ ((F j.path).drop buf.length).take n = (F j.path).take (buf.length + n) := by
              rw [List.take_add]
              rw [← hbt]
            rw [this]
            exact List.take_prefix _ _
          | same j l dn buf c h hl he => exact ⟨ihd, by simp, by simp⟩
          | differ j l dn buf c h hl he =>
            have hb := (ihp _ hq).2 j buf rfl
            rw [hfile j (by simp [Proc.jobs])] at h
            have hcc := Option.some.inj h
            subst hcc
            have := List.IsPrefix.eq_of_length_le hb hl
            rw [okq.reading j buf rfl] at he
            exact absurd this he
          | create j l dn => exact absurd rfl ((ihp _ hq).1 j).1
          | write j l dn off n c h hn hl => exact absurd rfl (((ihp _ hq).1 j).2 off)
          | close j l dn off h => exact absurd rfl (((ihp _ hq).1 j).2 off)
        refine ⟨goal.1, ?_⟩
        intro u hu
        rcases mem_set_of hu with rfl | ⟨k, _, hk⟩
        · exact goal.2
        · exact ihp u (List.mem_of_getElem? hk)
  exact ⟨key.1, fun q hq => (key.2 q hq).1⟩

/-- **C88**: when all processes are finished, every file of every process holds what belongs there. -/
theorem C88_at_the_end {β : Type} (z : β) (F : Path → List β) (jobs : List (List (Job β))) (hj : SameVersion F jobs) (d0 : Disk β) (s : Sys β)
    (h : Reach z (initial jobs d0) s) (he : ∀ q ∈ s.procs, q.Finished) (p : Path) :
    s.disk p = (open Classical in if Named jobs p then some (F p) else d0 p) := by
  by_cases hn : Named jobs p
  · rw [if_pos hn]
    refine C88_right_content z F jobs hj d0 s h p ?_ ?_
    · obtain ⟨l, hl, j, hjl, e⟩ := hn
      have h1 := (C88_all_flushed z jobs d0 s h).1
      rw [← h1] at hl
      obtain ⟨q, hq, rfl⟩ := List.mem_map.1 hl
      refine ⟨q, hq, j, ?_, e⟩
      have hf := he q hq
      simpa [Proc.jobs, hf.1, hf.2] using hjl
    · rintro q hq off ⟨j, e, _⟩
      rw [(he q hq).2] at e
      cases e
  · rw [if_neg hn]
    exact C88_others z jobs d0 s h p hn

/-! ## Findings -/

/-- Steps of the processes numbered as in the list, each with the disk and process after it. -/
theorem reach_cons {β : Type} {z : β} {s s' s'' : Sys β} (h : Step z s s') (h' : Reach z s' s'') : Reach z s s'' := by
  induction h' with
  | refl => exact .step .refl h
  | step _ h2 ih => exact .step ih h2

/-- A process flushes a non-empty file that does not exist, alone. -/
theorem alone {β : Type} {z : β} (s : Sys β) (i : Nat) (j : Job β) (l dn : List (Job β)) (hi : s.procs[i]? = some ⟨j :: l, .idle, dn⟩)
    (hd : s.disk j.path = none) (hne : 0 < j.cnt.length) :
    Reach z s ⟨s.procs.set i ⟨l, .idle, dn ++ [j]⟩, s.disk.set j.path j.cnt⟩ := by
  have hlt : i < s.procs.length := (List.getElem?_eq_some_iff.1 hi).1
  have e1 := Step.mk i _ _ _ hi (PStep.missing (z := z) j l dn hd)
  have e2 := Step.mk (s := ⟨s.procs.set i ⟨l, .creating j, dn⟩, s.disk⟩) i _ _ _ (by simp [hlt]) (PStep.create (z := z) j l dn)
  have e3 := Step.mk (s := ⟨s.procs.set i ⟨l, .writing j 0, dn⟩, s.disk.set j.path []⟩) i _ _ _ (by simp [hlt])
    (PStep.write (z := z) j l dn 0 j.cnt.length [] (by simp [Disk.set]) hne (by omega))
  have e4 := Step.mk (s := ⟨s.procs.set i ⟨l, .writing j (0 + j.cnt.length), dn⟩, s.disk.set j.path j.cnt⟩) i _ _ _ (by simp [hlt])
    (PStep.close (z := z) j l dn (0 + j.cnt.length) (by omega))
  have hset : ((s.disk.set j.path []).set j.path (pwrite z [] 0 ((j.cnt.drop 0).take j.cnt.length))) = s.disk.set j.path j.cnt := by
    funext p
    by_cases e : p = j.path <;> simp [Disk.set, e, pwrite]
  simp only [List.set_set] at e2 e3 e4
  rw [hset] at e3
  exact reach_cons e1 (reach_cons e2 (reach_cons e3 (reach_cons e4 .refl)))

/-- **C88 (finding)**: files are replaced in place and without a lock.  With two generators of the same version a flush may have returned `Ok` to the
first one, and yet the file is empty at that moment, since the second one had found no file before and truncates it now. -/
theorem C88_finding_empty_after_success {β : Type} (z : β) (p : Path) (b : β) (l : List β) :
    ∃ s, Reach z (initial [[⟨p, b :: l⟩], [⟨p, b :: l⟩]] (fun _ => none)) s ∧
      s.procs[0]? = some ⟨[], .idle, [⟨p, b :: l⟩]⟩ ∧ s.disk p = some [] := by
  let j : Job β := ⟨p, b :: l⟩
  have h1 := Step.mk (z := z) (s := initial [[j], [j]] (fun _ => none)) 1 _ _ _ rfl (.missing j [] [] rfl)
  have h2 := alone (z := z) ⟨(initial [[j], [j]] (fun _ => none)).procs.set 1 ⟨[], .creating j, []⟩, fun _ => none⟩ 0 j [] [] rfl rfl (by simp [j])
  have h3 := Step.mk (z := z) (s := ⟨((initial [[j], [j]] (fun _ => none)).procs.set 1 ⟨[], .creating j, []⟩).set 0 ⟨[], .idle, [j]⟩,
    Disk.set (fun _ => none) p (b :: l)⟩) 1 _ _ _ rfl (.create j [] [])
  exact ⟨_, .step (reach_cons h1 h2) h3, rfl, by simp [Disk.set, j]⟩

/-- **C88 (finding)**: generators of different versions can leave a file that neither of them wrote: the shorter text over the longer one. -/
theorem C88_finding_mixed {β : Type} (z : β) (p : Path) (a b c : β) :
    ∃ s, Reach z (initial [[⟨p, [a, b]⟩], [⟨p, [c]⟩]] (fun _ => none)) s ∧ (∀ q ∈ s.procs, q.Finished) ∧ s.disk p = some [c, b] := by
  let j : Job β := ⟨p, [a, b]⟩
  let k : Job β := ⟨p, [c]⟩
  let st (x y : Proc β) (d : Disk β) : Sys β := ⟨[x, y], d⟩
  have h1 := Step.mk (z := z) (s := st ⟨[j], .idle, []⟩ ⟨[k], .idle, []⟩ (fun _ => none)) 1 _ _ _ rfl (.missing k [] [] rfl)
  have h2 := Step.mk (z := z) (s := st ⟨[j], .idle, []⟩ ⟨[], .creating k, []⟩ (fun _ => none)) 1 _ _ _ rfl (.create k [] [])
  have h3 := Step.mk (z := z) (s := st ⟨[j], .idle, []⟩ ⟨[], .writing k 0, []⟩ (Disk.set (fun _ => none) p [])) 0 _ _ _ rfl
    (.open j [] [] [] (by simp [st, Disk.set, j]))
  have h4 := Step.mk (z := z) (s := st ⟨[], .reading j [], []⟩ ⟨[], .writing k 0, []⟩ (Disk.set (fun _ => none) p [])) 0 _ _ _ rfl
    (.differ j [] [] [] [] (by simp [st, Disk.set, j]) (by simp) (by simp [j]))
  have h5 := Step.mk (z := z) (s := st ⟨[], .creating j, []⟩ ⟨[], .writing k 0, []⟩ (Disk.set (fun _ => none) p [])) 0 _ _ _ rfl (.create j [] [])
  have h6 := Step.mk (z := z) (s := st ⟨[], .writing j 0, []⟩ ⟨[], .writing k 0, []⟩ ((Disk.set (fun _ => none) p []).set p [])) 0 _ _ _ rfl
    (.write j [] [] 0 2 [] (by simp [st, Disk.set, j]) (by omega) (by simp [j]))
  have h7 := Step.mk (z := z) (s := st ⟨[], .writing j 2, []⟩ ⟨[], .writing k 0, []⟩ (((Disk.set (fun _ => none) p []).set p []).set p [a, b])) 1 _ _ _ rfl
    (.write k [] [] 0 1 [a, b] (by simp [st, Disk.set, k]) (by omega) (by simp [k]))
  have h8 := Step.mk (z := z) (s := st ⟨[], .writing j 2, []⟩ ⟨[], .writing k 1, []⟩
    ((((Disk.set (fun _ => none) p []).set p []).set p [a, b]).set p [c, b])) 0 _ _ _ rfl (.close j [] [] 2 rfl)
  have h9 := Step.mk (z := z) (s := st ⟨[], .idle, [j]⟩ ⟨[], .writing k 1, []⟩
    ((((Disk.set (fun _ => none) p []).set p []).set p [a, b]).set p [c, b])) 1 _ _ _ rfl (.close k [] [] 1 rfl)
  refine ⟨_, reach_cons h1 (reach_cons h2 (reach_cons h3 (reach_cons h4 (reach_cons h5 (reach_cons h6 (reach_cons h7 (reach_cons h8 (reach_cons h9 .refl)))))))),
    ?_, ?_⟩
  · intro q hq
    simp [st] at hq
    rcases hq with rfl | rfl <;> exact ⟨rfl, rfl⟩
  · simp [st, Disk.set]

/-! ## An end -/

/-- So many steps. -/
inductive Steps {β : Type} (z : β) (s : Sys β) : Nat → Sys β → Prop
  | refl : Steps z s 0 s
  | step {n : Nat} {s' s'' : Sys β} (h : Steps z s n s') (h' : Step z s' s'') : Steps z s (n + 1) s''

theorem Steps.reach {β : Type} {z : β} {s s' : Sys β} {n : Nat} (h : Steps z s n s') : Reach z s s' := by
  induction h with
  | refl => exact .refl
  | step _ h' ih => exact .step ih h'

/-- How long the file may get: as long as it was, or as long as it will be. -/
def longest {β : Type} (F : Path → List β) (d0 : Disk β) (p : Path) : Nat := max ((d0 p).getD []).length (F p).length

/-- How many steps the flush of a file takes at most, when every read and every write handles one byte. -/
def cost {β : Type} (F : Path → List β) (d0 : Disk β) (p : Path) : Nat := longest F d0 p + (F p).length + 4

/-- What is left of the flush. -/
def Phase.left {β : Type} (F : Path → List β) (d0 : Disk β) : Phase β → Nat
  | .idle => 0
  | .reading j buf => (longest F d0 j.path - buf.length) + (F j.path).length + 3
  | .creating j => (F j.path).length + 2
  | .writing j off => ((F j.path).length - off) + 1

/-- What is left of a process. -/
def Proc.left {β : Type} (F : Path → List β) (d0 : Disk β) (q : Proc β) : Nat := q.phase.left F d0 + (q.todo.map fun j => cost F d0 j.path).sum

theorem sum_set {α : Type} (f : α → Nat) : ∀ (l : List α) (i : Nat) (x y : α), l[i]? = some x → f y < f x → ((l.set i y).map f).sum < (l.map f).sum
  | [], _, _, _, h, _ => by simp at h
  | a :: l, 0, x, y, h, hlt => by
    simp only [List.getElem?_cons_zero, Option.some.injEq] at h
    subst h
    simp only [List.set_cons_zero, List.map_cons, List.sum_cons]
    omega
  | a :: l, i + 1, x, y, h, hlt => by
    simp only [List.getElem?_cons_succ] at h
    have := sum_set f l i x y h hlt
    simp only [List.set_cons_succ, List.map_cons, List.sum_cons]
    omega

theorem pstep_left {β : Type} {z : β} {F : Path → List β} {d0 d d' : Disk β} {q q' : Proc β} (h : PStep z d q d' q') (ok : ProcOk F q)
    (hd : ∀ p c, d p = some c → c.length ≤ longest F d0 p) : q'.left F d0 < q.left F d0 := by
  cases h with
  | «open» j l dn c h => simp [Proc.left, Phase.left, cost]
  | missing j l dn h => simp [Proc.left, Phase.left, cost]; omega
  | read j l dn buf c n h hn hl =>
    have := hd _ _ h
    simp only [Proc.left, Phase.left, List.length_append, List.length_take, List.length_drop]
    omega
  | same j l dn buf c h hl he => simp [Proc.left, Phase.left]
  | differ j l dn buf c h hl he => simp [Proc.left, Phase.left]; omega
  | create j l dn => simp [Proc.left, Phase.left]
  | write j l dn off n c h hn hl =>
    rw [(ok.writing j off rfl).1] at hl
    simp only [Proc.left, Phase.left]
    omega
  | close j l dn off h => simp [Proc.left, Phase.left]

/-- **C88**: under every schedule the processes are finished after at most so many steps: for each file of each process, the length of what was there
or belongs there, plus the length of what belongs there, plus four. -/
theorem C88_terminates {β : Type} (z : β) (F : Path → List β) (jobs : List (List (Job β))) (hj : SameVersion F jobs) (d0 : Disk β) (n : Nat) (s : Sys β)
    (h : Steps z (initial jobs d0) n s) :
    n ≤ (jobs.map fun l => (l.map fun j => max ((d0 j.path).getD []).length (F j.path).length + (F j.path).length + 4).sum).sum := by
  have key : n + (s.procs.map (Proc.left F d0)).sum ≤ ((initial jobs d0).procs.map (Proc.left F d0)).sum := by
    induction h with
    | refl => omega
    | @step n s1 s2 h1 h' ih =>
      have inv := reach_inv hj h1.reach
      cases h' with
      | mk i q q' d' hi h =>
        have := sum_set (Proc.left F d0) s1.procs i q q' hi (pstep_left h (inv.1 q (List.mem_of_getElem? hi)) (by
          intro p c hc
          unfold longest
          rcases C88_every_moment z F jobs hj d0 s1 h1.reach p with e | ⟨c', hc', hl, _⟩
          · rw [hc] at e
            rw [← e]
            simp
            omega
          · rw [hc] at hc'
            rw [Option.some.inj hc']
            omega))
        simp only at this ⊢
        omega
  have e : ((initial jobs d0).procs.map (Proc.left F d0)).sum =
      (jobs.map fun l => (l.map fun j => max ((d0 j.path).getD []).length (F j.path).length + (F j.path).length + 4).sum).sum := by
    simp [initial, Function.comp_def, Proc.left, Phase.left, cost, longest]
  omega

/-! ## Non-vacuity -/

example : SameVersion (fun _ => [1, 2]) [[⟨[], [1, 2]⟩], [⟨[], [1, 2]⟩, ⟨"a".toList, [1, 2]⟩]] := by
  intro l hl j hj
  simp at hl
  rcases hl with rfl | rfl <;> simp at hj
  · rw [hj]
  · rcases hj with rfl | rfl <;> rfl

/-- Two processes, the second one finds the file that the first one wrote. -/
example (p : Path) : ∃ s, Reach (0 : Nat) (initial [[⟨p, [5]⟩], [⟨p, [5]⟩]] (fun _ => none)) s ∧ (∀ q ∈ s.procs, q.Finished) ∧ s.disk p = some [5] := by
  let j : Job Nat := ⟨p, [5]⟩
  have h1 := alone (z := 0) (initial [[j], [j]] (fun _ => none)) 0 j [] [] rfl rfl (by simp [j])
  have h2 := Step.mk (z := 0) (s := ⟨[⟨[], .idle, [j]⟩, ⟨[j], .idle, []⟩], Disk.set (fun _ => none) p [5]⟩) 1 _ _ _ rfl
    (.open j [] [] [5] (by simp [Disk.set, j]))
  have h3 := Step.mk (z := 0) (s := ⟨[⟨[], .idle, [j]⟩, ⟨[], .reading j [], []⟩], Disk.set (fun _ => none) p [5]⟩) 1 _ _ _ rfl
    (.read j [] [] [] [5] 1 (by simp [Disk.set, j]) (by omega) (by simp))
  have h4 := Step.mk (z := 0) (s := ⟨[⟨[], .idle, [j]⟩, ⟨[], .reading j [5], []⟩], Disk.set (fun _ => none) p [5]⟩) 1 _ _ _ rfl
    (.same j [] [] [5] [5] (by simp [Disk.set, j]) (by simp) rfl)
  refine ⟨_, .step (.step (.step h1 h2) h3) h4, ?_, by simp [Disk.set]⟩
  intro q hq
  simp at hq
  rcases hq with rfl | rfl <;> exact ⟨rfl, rfl⟩

end Flapi.SharedOut
