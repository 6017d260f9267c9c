import Verif.Core.BackendRun
import Verif.Core.FileCacheProps
import Verif.Core.RemoveFilesProps
import Verif.Core.StrReplaceProps
/-!
# A run of a backend and the output directory (C78)
-/
namespace Flapi.BackendRun
open FileCache Flapi.StrReplace
variable {σ ε ι β : Type} [DecidableEq β]
set_option linter.unusedSectionVars false

/-! ## Specification

What a run computes does not depend on the disk. -/

/-- The items one after the other: the files of each up to and including the first that fails. -/
def emitItems (b : Backend σ ε ι β) : σ → List ι → List (Path × List β) × Except ε σ
  | s, [] => ([], .ok s)
  | s, i :: l =>
    match (b.generate s i).res with
    | .error e => ((b.generate s i).files, .error e)
    | .ok s' => ((b.generate s i).files ++ (emitItems b s' l).1, (emitItems b s' l).2)

/-- The whole computation: initialise, then register *all* classes, then generate all items in order. -/
def emitted (b : Backend σ ε ι β) (s0 : σ) (items : List ι) : List (Path × List β) × Except ε σ :=
  match (b.init s0).res with
  | .error e => ((b.init s0).files, .error e)
  | .ok s1 =>
    match (items.filter b.isClass).foldlM b.register s1 with
    | .error e => ((b.init s0).files, .error e)
    | .ok s2 => ((b.init s0).files ++ (emitItems b s2 items).1, (emitItems b s2 items).2)

/-- The content written last under a name. -/
def lastContent (l : List (Path × List β)) (p : Path) : Option (List β) := (l.reverse.find? fun f => f.1 = p).map (·.2)

/-- What must be in the file `p` after a successful run that ended in state `s`: the shared header of that name, else the file written
last under it. -/
def wanted (b : Backend σ ε ι β) (s0 : σ) (items : List ι) (s : σ) (p : Path) : Option (List β) :=
  (lastContent (b.shared s) p).or (lastContent (emitted b s0 items).1 p)

/-- Names of the generated files. -/
def generated (b : Backend σ ε ι β) (s0 : σ) (items : List ι) (s : σ) : List Path :=
  ((emitted b s0 items).1 ++ b.shared s).map (·.1)

/-- Walking a hash map yields its entries in some order; a listing contains all files. -/
structure World.Honest (w : World β) : Prop where
  ord : ∀ l, (w.ord l).Perm l
  ls : ∀ d l, w.ls d = some l → ∀ p, d p ≠ none → p ∈ l

/-- The keys of the map of shared headers are distinct, and a file that is generated is never stale. -/
structure Backend.Sane (b : Backend σ ε ι β) : Prop where
  keys : ∀ s, ((b.shared s).map (·.1)).Nodup
  stale : ∀ gen p, p ∈ gen → b.stale gen p = false
  /-- only which files were generated matters -/
  set : ∀ gen gen' p, (∀ q, q ∈ gen ↔ q ∈ gen') → b.stale gen p = b.stale gen' p

/-! ## Lemmas -/

theorem registerAll_eq (b : Backend σ ε ι β) (s : σ) (items : List ι) :
    registerAll b s items = (items.filter b.isClass).foldlM b.register s := by
  induction items generalizing s with
  | nil => rfl
  | cons i l ih =>
    rw [registerAll]
    by_cases h : b.isClass i = true
    · rw [if_pos h, List.filter_cons_of_pos h, List.foldlM_cons]
      cases hr : b.register s i with
      | error e => rfl
      | ok s' => exact ih s'
    · rw [if_neg h, List.filter_cons_of_neg h]
      exact ih s

theorem flushAll_append (w : World β) (fs : FS β) (l l' : List (Path × List β)) :
    flushAll w fs (l ++ l') =
      if (flushAll w fs l).2 = true then flushAll w (flushAll w fs l).1 l' else flushAll w fs l := by
  induction l generalizing fs with
  | nil => simp [flushAll]
  | cons a l ih =>
    obtain ⟨p, c⟩ := a
    simp only [List.cons_append, flushAll]
    split
    · exact ih _
    · simp

/-- The result of writing the files of a computation and then ending with its result. -/
def andThen (r : FS β × Bool) (res : Except ε σ) (k : FS β → σ → FS β × Except (Err ε) σ) : FS β × Except (Err ε) σ :=
  if r.2 = true then
    match res with
    | .ok s => k r.1 s
    | .error e => (r.1, .error (.gen e))
  else (r.1, .error .io)

theorem runStep_eq (w : World β) (fs : FS β) (s : Step σ ε β) :
    runStep w fs s = andThen (flushAll w fs s.files) s.res fun fs v => (fs, .ok v) := by
  unfold runStep andThen
  generalize flushAll w fs s.files = r
  obtain ⟨f, o⟩ := r
  cases o <;> cases s.res <;> rfl

theorem generateAll_eq (b : Backend σ ε ι β) (w : World β) (fs : FS β) (s : σ) (items : List ι) :
    generateAll b w fs s items =
      andThen (flushAll w fs (emitItems b s items).1) (emitItems b s items).2 fun fs v => (fs, .ok v) := by
  induction items generalizing fs s with
  | nil => rfl
  | cons i l ih =>
    rw [generateAll, runStep_eq, emitItems]
    cases hr : (b.generate s i).res with
    | error e =>
      simp only [andThen]
      by_cases ho : (flushAll w fs (b.generate s i).files).2 = true
      · simp [ho]
      · simp [ho]
    | ok s' =>
      simp only [andThen, flushAll_append]
      by_cases ho : (flushAll w fs (b.generate s i).files).2 = true
      · simp only [ho, if_true]
        rw [ih]
        rfl
      · simp [ho]

theorem run_eq (b : Backend σ ε ι β) (w : World β) (remove : Bool) (d : Disk β) (s0 : σ) (items : List ι) :
    run b w remove d s0 items =
      andThen (flushAll w ⟨d, [d], [], 0, []⟩ (emitted b s0 items).1) (emitted b s0 items).2 (finish b w remove) := by
  rw [run, runStep_eq, emitted]
  cases hr : (b.init s0).res with
  | error e =>
    simp only [andThen]
    by_cases ho : (flushAll w ⟨d, [d], [], 0, []⟩ (b.init s0).files).2 = true <;> simp [ho]
  | ok s1 =>
    simp only [registerAll_eq]
    cases hg : List.foldlM b.register s1 (List.filter b.isClass items) with
    | error e =>
      simp only [andThen]
      by_cases ho : (flushAll w ⟨d, [d], [], 0, []⟩ (b.init s0).files).2 = true <;> simp [ho, hg]
    | ok s2 =>
      simp only [andThen, flushAll_append]
      by_cases ho : (flushAll w ⟨d, [d], [], 0, []⟩ (b.init s0).files).2 = true
      · simp only [ho, if_true, hg, generateAll_eq, andThen]
        by_cases h2 : (flushAll w (flushAll w ⟨d, [d], [], 0, []⟩ (b.init s0).files).1 (emitItems b s2 items).1).2 = true
        · simp only [h2, if_true]
          cases (emitItems b s2 items).2 <;> rfl
        · simp [h2]
      · simp [ho]

theorem lastContent_append (l l' : List (Path × List β)) (p : Path) :
    lastContent (l ++ l') p = (lastContent l' p).or (lastContent l p) := by
  simp only [lastContent, List.reverse_append, List.find?_append]
  cases List.find? (fun f : Path × List β => decide (f.1 = p)) l'.reverse <;> rfl

theorem lastContent_cons (a : Path × List β) (l : List (Path × List β)) (p : Path) :
    lastContent (a :: l) p = (lastContent l p).or (if a.1 = p then some a.2 else none) := by
  have := lastContent_append [a] l p
  rw [List.singleton_append] at this
  rw [this]
  congr 1
  by_cases h : a.1 = p <;> simp [lastContent, h]

theorem lastContent_mem {l : List (Path × List β)} {p : Path} {c : List β} (h : lastContent l p = some c) : (p, c) ∈ l := by
  rw [lastContent, Option.map_eq_some_iff] at h
  obtain ⟨⟨q, c'⟩, h1, h2⟩ := h
  have h3 := List.find?_some h1
  have h4 := List.mem_of_find?_eq_some h1
  simp only [decide_eq_true_eq] at h3
  simp only at h2
  subst h2 h3
  exact List.mem_reverse.1 h4

theorem lastContent_none {l : List (Path × List β)} {p : Path} : lastContent l p = none ↔ p ∉ l.map (·.1) := by
  simp only [lastContent, Option.map_eq_none_iff, List.find?_eq_none, List.mem_reverse, decide_eq_true_eq, List.mem_map,
    not_exists, not_and]

theorem lastContent_nodup {l : List (Path × List β)} (h : (l.map (·.1)).Nodup) {p : Path} {c : List β} :
    lastContent l p = some c ↔ (p, c) ∈ l := by
  refine ⟨lastContent_mem, fun hm => ?_⟩
  cases hl : lastContent l p with
  | none => exact absurd (List.mem_map_of_mem (f := (·.1)) hm) (lastContent_none.1 hl)
  | some c' =>
    have h2 := lastContent_mem hl
    congr 1
    clear hl
    induction l with
    | nil => cases hm
    | cons a l ih =>
      rw [List.map_cons, List.nodup_cons] at h
      rcases List.mem_cons.1 hm with e | hm <;> rcases List.mem_cons.1 h2 with e2 | h2
      · rw [← e] at e2
        exact (Prod.mk.inj e2).2
      · exact absurd (List.mem_map_of_mem (f := (·.1)) h2) (by rw [← e] at h; exact h.1)
      · exact absurd (List.mem_map_of_mem (f := (·.1)) hm) (by rw [← e2] at h; exact h.1)
      · exact ih h.2 hm h2

theorem lastContent_perm {l l' : List (Path × List β)} (hp : l'.Perm l) (h : (l.map (·.1)).Nodup) (p : Path) :
    lastContent l' p = lastContent l p := by
  have h' : (l'.map (·.1)).Nodup := (hp.map _).nodup_iff.2 h
  apply Option.ext
  intro c
  rw [lastContent_nodup h, lastContent_nodup h', hp.mem_iff]

theorem final_mem_trace (ft : Faults) (d : Disk β) (c : Cache β) : (flush ft d c).final d ∈ (flush ft d c).trace := by
  rcases flush_cases ft d c with ⟨ok, he, _⟩ | ⟨n, he⟩ | ⟨he, _⟩
  · rw [he]; simp [Outcome.final]
  all_goals
    rw [he]
    simp only [Outcome.final]
    generalize writeTrace d c.path c.cnt _ = t
    cases hl : (d :: t).getLast? with
    | none => simp at hl
    | some y => simpa using List.mem_of_getLast? hl

/-- Writing some files that succeeds. -/
theorem flushAll_ok (w : World β) (fs fs' : FS β) (l : List (Path × List β)) (h : flushAll w fs l = (fs', true)) :
    (∀ p, fs'.disk p = (lastContent l p).or (fs.disk p)) ∧ fs'.gen = fs.gen ++ l.map (·.1) := by
  induction l generalizing fs with
  | nil =>
    rw [flushAll] at h
    cases h
    exact ⟨fun p => rfl, by simp⟩
  | cons a l ih =>
    obtain ⟨q, c⟩ := a
    rw [flushAll] at h
    try simp only at h
    by_cases ho : (flush (w.ft fs.n) fs.disk ⟨c, q, []⟩).ok = true
    · rw [if_pos ho] at h
      obtain ⟨h1, h2⟩ := ih _ h
      refine ⟨fun p => ?_, by rw [h2]; simp⟩
      rw [h1 p, lastContent_cons]
      simp only
      cases lastContent l p with
      | some v => rfl
      | none =>
        simp only [Option.none_or]
        by_cases hq : q = p
        · subst hq
          simp only [if_true]
          exact C05_success_content _ _ _ ho
        · simp only [hq, if_false, Option.none_or]
          exact C05_other_files_untouched _ _ _ _ (final_mem_trace _ _ _) p (fun e => hq e.symm)
    · rw [if_neg ho] at h
      cases h

/-- `x` is `d` except that some files of `l` hold a beginning of their content. -/
def Partly (l : List (Path × List β)) (d x : Disk β) : Prop :=
  ∀ p, x p = d p ∨ ∃ c k, (p, c) ∈ l ∧ x p = some (c.take k)

theorem Partly.trans {l l' : List (Path × List β)} {d x y : Disk β} (h : Partly l d x) (h' : Partly l' x y) :
    Partly (l ++ l') d y := by
  intro p
  rcases h' p with e | ⟨c, k, hm, e⟩
  · rw [e]
    rcases h p with e | ⟨c, k, hm, e⟩
    · exact .inl e
    · exact .inr ⟨c, k, List.mem_append_left _ hm, e⟩
  · exact .inr ⟨c, k, List.mem_append_right _ hm, e⟩

theorem flush_partly (ft : Faults) (d : Disk β) (p : Path) (c : List β) (x : Disk β) (hx : x ∈ (flush ft d ⟨c, p, []⟩).trace) :
    Partly [(p, c)] d x := by
  intro q
  by_cases hq : q = p
  · subst hq
    rcases C06_crash_old_or_prefix ft d ⟨c, q, []⟩ x hx with e | ⟨k, e⟩
    · exact .inl e
    · exact .inr ⟨c, k, by simp, e⟩
  · exact .inl (C05_other_files_untouched ft d ⟨c, p, []⟩ x hx q hq)

theorem flushAll_trace (w : World β) (fs : FS β) (l : List (Path × List β)) :
    Partly l fs.disk (flushAll w fs l).1.disk ∧
    (∀ x ∈ (flushAll w fs l).1.trace, x ∈ fs.trace ∨ Partly l fs.disk x) ∧
    (∀ o ∈ (flushAll w fs l).1.ops, o ∈ fs.ops ∨ ∃ p ∈ l.map (·.1), o = .write (.create p) ∨ o = .write (.append p)) ∧
    (fs.disk ∈ fs.trace → (flushAll w fs l).1.disk ∈ (flushAll w fs l).1.trace) := by
  induction l generalizing fs with
  | nil => exact ⟨fun p => .inl rfl, fun x hx => .inl hx, fun o ho => .inl ho, id⟩
  | cons a l ih =>
    obtain ⟨q, c⟩ := a
    rw [flushAll]
    try simp only
    have hops : ∀ o ∈ (flush (w.ft fs.n) fs.disk ⟨c, q, []⟩).ops.map Change.write, o = .write (.create q) ∨ o = .write (.append q) := by
      intro o ho
      obtain ⟨o', ho', rfl⟩ := List.mem_map.1 ho
      rcases flush_cases (w.ft fs.n) fs.disk ⟨c, q, []⟩ with ⟨ok, he, _⟩ | ⟨n, he⟩ | ⟨he, _⟩ <;> rw [he] at ho'
      · cases ho'
      all_goals
        simp only [List.mem_cons, List.not_mem_nil, or_false] at ho'
        rcases ho' with rfl | rfl
        · exact .inl rfl
        · exact .inr rfl
    have hfin := flush_partly (w.ft fs.n) fs.disk q c _ (final_mem_trace _ _ _)
    by_cases ho : (flush (w.ft fs.n) fs.disk ⟨c, q, []⟩).ok = true
    · rw [if_pos ho]
      obtain ⟨h1, h2, h3, h4⟩ := ih ⟨(flush (w.ft fs.n) fs.disk ⟨c, q, []⟩).final fs.disk,
        fs.trace ++ (flush (w.ft fs.n) fs.disk ⟨c, q, []⟩).trace,
        fs.ops ++ (flush (w.ft fs.n) fs.disk ⟨c, q, []⟩).ops.map .write, fs.n + 1, fs.gen ++ [q]⟩
      refine ⟨hfin.trans h1, fun x hx => ?_, fun o hoo => ?_, fun _ => h4 (List.mem_append_right _ (final_mem_trace _ _ _))⟩
      · rcases h2 x hx with h | h
        · rcases List.mem_append.1 h with h | h
          · exact .inl h
          · refine .inr (fun p => ?_)
            rcases flush_partly _ _ _ _ _ h p with e | ⟨c', k, hm, e⟩
            · exact .inl e
            · exact .inr ⟨c', k, by
                simp only [List.mem_cons, List.not_mem_nil, or_false] at hm
                exact List.mem_cons.2 (.inl hm), e⟩
        · exact .inr (hfin.trans h)
      · rcases h3 o hoo with h | ⟨p, hp, h⟩
        · rcases List.mem_append.1 h with h | h
          · exact .inl h
          · exact .inr ⟨q, by simp, hops o h⟩
        · exact .inr ⟨p, by simp only [List.map_cons, List.mem_cons]; exact .inr hp, h⟩
    · rw [if_neg ho]
      refine ⟨fun p => ?_, fun x hx => ?_, fun o hoo => ?_, fun _ => List.mem_append_right _ (final_mem_trace _ _ _)⟩
      · rcases hfin p with e | ⟨c', k, hm, e⟩
        · exact .inl e
        · exact .inr ⟨c', k, by
            simp only [List.mem_cons, List.not_mem_nil, or_false] at hm
            exact List.mem_cons.2 (.inl hm), e⟩
      · rcases List.mem_append.1 hx with h | h
        · exact .inl h
        · refine .inr (fun p => ?_)
          rcases flush_partly _ _ _ _ _ h p with e | ⟨c', k, hm, e⟩
          · exact .inl e
          · exact .inr ⟨c', k, by
              simp only [List.mem_cons, List.not_mem_nil, or_false] at hm
              exact List.mem_cons.2 (.inl hm), e⟩
      · rcases List.mem_append.1 hoo with h | h
        · exact .inl h
        · exact .inr ⟨q, by simp, hops o h⟩

/-- Writing what is there already changes nothing. -/
theorem flushAll_same (w : World β) (fs : FS β) (l : List (Path × List β)) (h : ∀ f ∈ l, fs.disk f.1 = some f.2)
    (ho : ∀ n, (w.ft n).openFails = false) :
    (flushAll w fs l).1.disk = fs.disk ∧ (flushAll w fs l).1.ops = fs.ops ∧
    ((∀ n, (w.ft n).readFails = false) → (flushAll w fs l).2 = true) := by
  induction l generalizing fs with
  | nil => exact ⟨rfl, rfl, fun _ => rfl⟩
  | cons a l ih =>
    obtain ⟨q, c⟩ := a
    rw [flushAll]
    try simp only
    have hq := h _ List.mem_cons_self
    simp only at hq
    by_cases hr : (w.ft fs.n).readFails = true
    · have e : flush (w.ft fs.n) fs.disk ⟨c, q, []⟩ = ⟨false, [fs.disk], []⟩ := by simp [flush, ho, hq, hr]
      rw [e]
      exact ⟨rfl, by simp, fun hn => by rw [hn] at hr; cases hr⟩
    · have e : flush (w.ft fs.n) fs.disk ⟨c, q, []⟩ = ⟨true, [fs.disk], []⟩ := by simp [flush, ho, hq, hr]
      rw [e]
      simp only [if_true]
      have := ih ⟨fs.disk, fs.trace ++ [fs.disk], fs.ops ++ ([] : List FsOp).map .write, fs.n + 1, fs.gen ++ [q]⟩
        (fun f hf => h f (List.mem_cons_of_mem _ hf))
      exact ⟨this.1, this.2.1.trans (by simp), this.2.2⟩

theorem flushAll_no_faults (w : World β) (fs : FS β) (l : List (Path × List β)) (h : ∀ n, w.ft n = {}) :
    (flushAll w fs l).2 = true := by
  induction l generalizing fs with
  | nil => rfl
  | cons a l ih =>
    obtain ⟨q, c⟩ := a
    rw [flushAll]
    simp only [h]
    rw [if_pos (C05_no_fault_success _ _)]
    exact ih _

theorem removeAll_gen (w : World β) (f : Path → Bool) (fs : FS β) (l : List Path) : (removeAll w f fs l).1.gen = fs.gen := by
  induction l generalizing fs with
  | nil => rfl
  | cons p l ih =>
    rw [removeAll]
    split
    · split
      · rw [ih]
      · rfl
    · exact ih _

theorem removeAll_spec (w : World β) (f : Path → Bool) (fs : FS β) (l : List Path) :
    ((removeAll w f fs l).2 = true → ∀ p, (removeAll w f fs l).1.disk p = if p ∈ l ∧ f p = true then none else fs.disk p) ∧
    (∀ x ∈ (removeAll w f fs l).1.trace, x ∈ fs.trace ∨ ∀ p, x p = fs.disk p ∨ (x p = none ∧ f p = true)) ∧
    (∀ p, (removeAll w f fs l).1.disk p = fs.disk p ∨ ((removeAll w f fs l).1.disk p = none ∧ f p = true)) ∧
    ((∀ p, w.rm p = true) → (removeAll w f fs l).2 = true) ∧
    (∀ o ∈ (removeAll w f fs l).1.ops, o ∈ fs.ops ∨ ∃ p ∈ l, f p = true ∧ o = .remove p) ∧
    ((∀ p ∈ l, f p = false) → removeAll w f fs l = (fs, true)) ∧
    (fs.disk ∈ fs.trace → (removeAll w f fs l).1.disk ∈ (removeAll w f fs l).1.trace) := by
  induction l generalizing fs with
  | nil =>
    refine ⟨fun _ p => by simp [removeAll], fun x hx => .inl hx, fun p => .inl rfl, fun _ => rfl, fun o ho => .inl ho, fun _ => rfl, id⟩
  | cons q l ih =>
    rw [removeAll]
    by_cases hf : f q = true
    · rw [if_pos hf]
      by_cases hr : w.rm q = true
      · rw [if_pos hr]
        simp only
        have ih := ih { fs with
          disk := fun p => if p = q then none else fs.disk p,
          trace := fs.trace ++ [fun p => if p = q then none else fs.disk p],
          ops := fs.ops ++ [.remove q] }
        simp only at ih
        obtain ⟨h1, h2, h3, h4, h5, h6, h7⟩ := ih
        refine ⟨fun hok p => ?_, fun x hx => ?_, fun p => ?_, h4, fun o ho => ?_, fun hn => ?_, fun _ => h7 (by simp)⟩
        · rw [h1 hok p]
          by_cases hp : p = q
          · subst hp
            simp [hf]
          · simp [hp]
        · rcases h2 x hx with h | h
          · rcases List.mem_append.1 h with h | h
            · exact .inl h
            · simp only [List.mem_cons, List.not_mem_nil, or_false] at h
              refine .inr (fun p => ?_)
              rw [h]
              by_cases hp : p = q
              · subst hp
                exact .inr ⟨by simp, hf⟩
              · exact .inl (by simp [hp])
          · refine .inr (fun p => ?_)
            rcases h p with e | e
            · rw [e]
              by_cases hp : p = q
              · subst hp
                exact .inr ⟨by simp, hf⟩
              · exact .inl (by simp [hp])
            · exact .inr e
        · rcases h3 p with e | e
          · rw [e]
            by_cases hp : p = q
            · subst hp
              exact .inr ⟨by simp, hf⟩
            · exact .inl (by simp [hp])
          · exact .inr e
        · rcases h5 o ho with h | ⟨p, hp, h⟩
          · rcases List.mem_append.1 h with h | h
            · exact .inl h
            · simp only [List.mem_cons, List.not_mem_nil, or_false] at h
              exact .inr ⟨q, by simp, hf, h⟩
          · exact .inr ⟨p, List.mem_cons_of_mem _ hp, h⟩
        · rw [hn q List.mem_cons_self] at hf
          cases hf
      · rw [if_neg hr]
        refine ⟨fun h => (nomatch h), fun x hx => .inl hx, fun p => .inl rfl, fun h => absurd (h q) hr, fun o ho => .inl ho, fun hn => ?_, id⟩
        rw [hn q List.mem_cons_self] at hf
        cases hf
    · rw [if_neg hf]
      obtain ⟨h1, h2, h3, h4, h5, h6, h7⟩ := ih fs
      refine ⟨fun hok p => ?_, h2, h3, h4, fun o ho => ?_, fun hn => h6 fun p hp => hn p (List.mem_cons_of_mem _ hp), h7⟩
      · rw [h1 hok p]
        by_cases hp : p = q
        · subst hp
          simp [hf]
        · simp [hp]
      · rcases h5 o ho with h | ⟨p, hp, h⟩
        · exact .inl h
        · exact .inr ⟨p, List.mem_cons_of_mem _ hp, h⟩

/-- The files of a run that got to its end, in the order they were written. -/
theorem finish_cases (b : Backend σ ε ι β) (w : World β) (remove : Bool) (fs : FS β) (s : σ) :
    ((flushAll w fs (w.ord (b.shared s))).2 = false ∧
      finish b w remove fs s = ((flushAll w fs (w.ord (b.shared s))).1, .error .io)) ∨
    (∃ fs', flushAll w fs (w.ord (b.shared s)) = (fs', true) ∧
      ((remove = false ∧ finish b w remove fs s = (fs', .ok s)) ∨
       (remove = true ∧ w.ls fs'.disk = none ∧ finish b w remove fs s = (fs', .error .io)) ∨
       (remove = true ∧ ∃ l, w.ls fs'.disk = some l ∧
          ((removeAll w (b.stale fs'.gen) fs' l).2 = true ∧
            finish b w remove fs s = ((removeAll w (b.stale fs'.gen) fs' l).1, .ok s) ∨
           (removeAll w (b.stale fs'.gen) fs' l).2 = false ∧
            finish b w remove fs s = ((removeAll w (b.stale fs'.gen) fs' l).1, .error .io))))) := by
  unfold finish
  generalize hr : flushAll w fs (w.ord (b.shared s)) = r
  obtain ⟨fs', o⟩ := r
  cases o with
  | false => exact .inl ⟨rfl, rfl⟩
  | true =>
    refine .inr ⟨fs', rfl, ?_⟩
    cases remove with
    | false => exact .inl ⟨rfl, rfl⟩
    | true =>
      refine .inr ?_
      cases hl : w.ls fs'.disk with
      | none => exact .inl ⟨rfl, rfl, by simp [hl]⟩
      | some l =>
        refine .inr ⟨rfl, l, rfl, ?_⟩
        generalize hq : removeAll w (b.stale fs'.gen) fs' l = q
        obtain ⟨fs'', o⟩ := q
        cases o with
        | true => exact .inl ⟨rfl, by simp [hl, hq]⟩
        | false => exact .inr ⟨rfl, by simp [hl, hq]⟩

/-- A run that wrote all files: what is on the disk then, and how it goes on. -/
theorem run_cases (b : Backend σ ε ι β) (w : World β) (remove : Bool) (d : Disk β) (s0 : σ) (items : List ι) :
    (∃ fs, flushAll w ⟨d, [d], [], 0, []⟩ (emitted b s0 items).1 = (fs, false) ∧ run b w remove d s0 items = (fs, .error .io)) ∨
    (∃ fs e, flushAll w ⟨d, [d], [], 0, []⟩ (emitted b s0 items).1 = (fs, true) ∧ (emitted b s0 items).2 = .error e ∧
      run b w remove d s0 items = (fs, .error (.gen e))) ∨
    (∃ fs s, flushAll w ⟨d, [d], [], 0, []⟩ (emitted b s0 items).1 = (fs, true) ∧ (emitted b s0 items).2 = .ok s ∧
      run b w remove d s0 items = finish b w remove fs s) := by
  rw [run_eq]
  unfold andThen
  generalize flushAll w ⟨d, [d], [], 0, []⟩ (emitted b s0 items).1 = r
  obtain ⟨fs, o⟩ := r
  cases o with
  | false => exact .inl ⟨fs, rfl, rfl⟩
  | true =>
    cases he : (emitted b s0 items).2 with
    | error e => exact .inr (.inl ⟨fs, e, rfl, rfl, rfl⟩)
    | ok s => exact .inr (.inr ⟨fs, s, rfl, rfl, rfl⟩)

theorem written_all (b : Backend σ ε ι β) (hb : b.Sane) (w : World β) (hw : w.Honest) (d : Disk β) (s0 : σ) (items : List ι)
    (s : σ) (fs fs' : FS β) (h1 : flushAll w ⟨d, [d], [], 0, []⟩ (emitted b s0 items).1 = (fs, true))
    (h2 : flushAll w fs (w.ord (b.shared s)) = (fs', true)) :
    (∀ p, fs'.disk p = (wanted b s0 items s p).or (d p)) ∧ (∀ p, p ∈ fs'.gen ↔ p ∈ generated b s0 items s) := by
  obtain ⟨a1, a2⟩ := flushAll_ok w _ _ _ h1
  obtain ⟨b1, b2⟩ := flushAll_ok w _ _ _ h2
  refine ⟨fun p => ?_, fun p => ?_⟩
  · rw [b1, a1, wanted, lastContent_perm (hw.ord _) (hb.keys s)]
    cases lastContent (b.shared s) p <;> rfl
  · rw [b2, a2, generated]
    simp only [List.nil_append, List.map_append, List.mem_append]
    rw [((hw.ord (b.shared s)).map (·.1)).mem_iff]

theorem wanted_generated (b : Backend σ ε ι β) (s0 : σ) (items : List ι) (s : σ) (p : Path) :
    wanted b s0 items s p = none ↔ p ∉ generated b s0 items s := by
  rw [wanted, generated, Option.or_eq_none_iff, lastContent_none, lastContent_none, List.map_append, List.mem_append]
  constructor
  · rintro ⟨h1, h2⟩ (h | h)
    · exact h2 h
    · exact h1 h
  · intro h
    exact ⟨fun h' => h (.inr h'), fun h' => h (.inl h')⟩

/-! ## Theorems -/

/-- C78: the outcome of a run is that of its computation, which registers all classes before it generates anything; the disk only
matters through I/O errors, and without them it does not matter at all. -/
theorem C78_result (b : Backend σ ε ι β) (w : World β) (remove : Bool) (d : Disk β) (s0 : σ) (items : List ι) :
    (∀ s, (run b w remove d s0 items).2 = .ok s → (emitted b s0 items).2 = .ok s) ∧
    (∀ e, (run b w remove d s0 items).2 = .error (.gen e) → (emitted b s0 items).2 = .error e) ∧
    ((∀ n, w.ft n = {}) → (∀ x, w.ls x ≠ none) → (∀ p, w.rm p = true) →
      (∀ s, (emitted b s0 items).2 = .ok s → (run b w remove d s0 items).2 = .ok s) ∧
      (∀ e, (emitted b s0 items).2 = .error e → (run b w remove d s0 items).2 = .error (.gen e))) := by
  rcases run_cases b w remove d s0 items with ⟨fs, h1, h2⟩ | ⟨fs, e, h1, h2, h3⟩ | ⟨fs, s, h1, h2, h3⟩
  · rw [h2]
    refine ⟨fun s h => (nomatch h), fun e h => (nomatch h), fun hf _ _ => ?_⟩
    have := flushAll_no_faults w ⟨d, [d], [], 0, []⟩ (emitted b s0 items).1 hf
    rw [h1] at this
    cases this
  · rw [h3, h2]
    refine ⟨fun s h => (nomatch h), fun e' h => ?_, fun _ _ _ => ⟨fun s h => (nomatch h), fun e' h => ?_⟩⟩ <;> cases h <;> rfl
  · rw [h3, h2]
    have hfin := finish_cases b w remove fs s
    refine ⟨fun s' h => ?_, fun e h => ?_, fun hf hl hr => ⟨fun s' h => ?_, fun e h => (nomatch h)⟩⟩
    · rcases hfin with ⟨_, e⟩ | ⟨fs', _, ⟨_, e⟩ | ⟨_, _, e⟩ | ⟨_, l, _, ⟨_, e⟩ | ⟨_, e⟩⟩⟩ <;> rw [e] at h <;> cases h <;> rfl
    · rcases hfin with ⟨_, e⟩ | ⟨fs', _, ⟨_, e⟩ | ⟨_, _, e⟩ | ⟨_, l, _, ⟨_, e⟩ | ⟨_, e⟩⟩⟩ <;> rw [e] at h <;> cases h
    · cases h
      rcases hfin with ⟨hh, e⟩ | ⟨fs', _, ⟨_, e⟩ | ⟨_, hh, e⟩ | ⟨_, l, _, ⟨_, e⟩ | ⟨hh, e⟩⟩⟩ <;> rw [e]
      · rw [flushAll_no_faults w _ _ hf] at hh
        cases hh
      · exact absurd hh (hl _)
      · rw [(removeAll_spec w _ fs' l).2.2.2.1 hr] at hh
        cases hh

/-- C78: after a successful run every generated file holds exactly what was generated for it; every other file is as before, except that with
removal switched on the stale ones are gone. -/
theorem C78_directory (b : Backend σ ε ι β) (hb : b.Sane) (w : World β) (hw : w.Honest) (remove : Bool) (d : Disk β) (s0 : σ)
    (items : List ι) (s : σ) (h : (run b w remove d s0 items).2 = .ok s) (p : Path) :
    (p ∈ generated b s0 items s → ∃ c, wanted b s0 items s p = some c ∧ (run b w remove d s0 items).1.disk p = some c) ∧
    (p ∉ generated b s0 items s → (run b w remove d s0 items).1.disk p =
      if remove = true ∧ b.stale (generated b s0 items s) p = true then none else d p) := by
  have hw2 := wanted_generated b s0 items s p
  rcases run_cases b w remove d s0 items with ⟨fs, h1, h2⟩ | ⟨fs, e, h1, h2, h3⟩ | ⟨fs, s', h1, h2, h3⟩
  · rw [h2] at h
    cases h
  · rw [h3] at h
    cases h
  · rw [h3] at h ⊢
    rcases finish_cases b w remove fs s' with ⟨_, e⟩ | ⟨fs', hf, ⟨hr, e⟩ | ⟨_, _, e⟩ | ⟨hr, l, hl, ⟨ho, e⟩ | ⟨_, e⟩⟩⟩ <;>
      rw [e] at h <;> cases h
    · obtain ⟨a1, a2⟩ := written_all b hb w hw d s0 items s fs fs' h1 hf
      rw [e]
      simp only [a1, hr]
      refine ⟨fun hp => ?_, fun hp => ?_⟩
      · cases hv : wanted b s0 items s p with
        | none => exact absurd hp (hw2.1 hv)
        | some c => exact ⟨c, rfl, rfl⟩
      · rw [hw2.2 hp]
        simp
    · obtain ⟨a1, a2⟩ := written_all b hb w hw d s0 items s fs fs' h1 hf
      rw [e]
      simp only [(removeAll_spec w _ fs' l).1 ho p, hb.set _ _ p a2]
      refine ⟨fun hp => ?_, fun hp => ?_⟩
      · rw [hb.stale _ _ hp]
        simp only [Bool.false_eq_true, and_false, if_false, a1]
        cases hv : wanted b s0 items s p with
        | none => exact absurd hp (hw2.1 hv)
        | some c => exact ⟨c, rfl, rfl⟩
      · rw [a1, hw2.2 hp]
        by_cases hs : b.stale (generated b s0 items s) p = true
        · simp only [hs, hr, and_true]
          by_cases hm : p ∈ l
          · simp [hm]
          · simp only [hm, if_false, if_true, Option.none_or]
            have := hw.ls _ _ hl p
            rw [a1, hw2.2 hp, Option.none_or] at this
            cases hd : d p with
            | none => rfl
            | some c => exact absurd (this (by rw [hd]; exact fun h => nomatch h)) hm
        · simp [hs]

/-- C78: two successful runs of the same generator agree on every generated file and, with removal on, on every file that could be stale,
whatever was in the output directory before (for example half-written files of runs that failed or were killed, or files of an earlier
version of the project), in whatever order hash maps and directories are walked. -/
theorem C78_history_independent (b : Backend σ ε ι β) (hb : b.Sane) (w w' : World β) (hw : w.Honest) (hw' : w'.Honest)
    (remove : Bool) (d d' : Disk β) (s0 : σ) (items : List ι) (s s' : σ)
    (h : (run b w remove d s0 items).2 = .ok s) (h' : (run b w' remove d' s0 items).2 = .ok s') :
    s = s' ∧ ∀ p, p ∈ generated b s0 items s ∨ (remove = true ∧ b.stale (generated b s0 items s) p = true) ∨ d p = d' p →
      (run b w remove d s0 items).1.disk p = (run b w' remove d' s0 items).1.disk p := by
  have e1 := (C78_result b w remove d s0 items).1 s h
  have e2 := (C78_result b w' remove d' s0 items).1 s' h'
  rw [e1] at e2
  cases e2
  refine ⟨rfl, fun p hp => ?_⟩
  obtain ⟨a1, a2⟩ := C78_directory b hb w hw remove d s0 items s h p
  obtain ⟨b1, b2⟩ := C78_directory b hb w' hw' remove d' s0 items s h' p
  by_cases hg : p ∈ generated b s0 items s
  · obtain ⟨c, hc, e⟩ := a1 hg
    obtain ⟨c', hc', e'⟩ := b1 hg
    rw [e, e', ← hc, hc']
  · rw [a2 hg, b2 hg]
    by_cases hs : remove = true ∧ b.stale (generated b s0 items s) p = true
    · rw [if_pos hs, if_pos hs]
    · rw [if_neg hs, if_neg hs]
      rcases hp with hp | hp | hp
      · exact absurd hp hg
      · exact absurd hp hs
      · exact hp

/-- C78: when no file is generated twice, running the generator again after a successful run writes and removes nothing (so no build system
sees a change), and it succeeds if the files can be read. -/
theorem C78_rerun_untouched (b : Backend σ ε ι β) (hb : b.Sane) (w w' : World β) (hw : w.Honest) (hw' : w'.Honest)
    (remove : Bool) (d : Disk β) (s0 : σ) (items : List ι) (s : σ) (h : (run b w remove d s0 items).2 = .ok s)
    (hd : (generated b s0 items s).Nodup) (ho : ∀ n, (w'.ft n).openFails = false)
    (hls : ∀ x l, w'.ls x = some l → ∀ p ∈ l, x p ≠ none) :
    (run b w' remove (run b w remove d s0 items).1.disk s0 items).1.ops = [] ∧
    (run b w' remove (run b w remove d s0 items).1.disk s0 items).1.disk = (run b w remove d s0 items).1.disk ∧
    ((∀ n, (w'.ft n).readFails = false) → (∀ x, w'.ls x ≠ none) →
      (run b w' remove (run b w remove d s0 items).1.disk s0 items).2 = .ok s) := by
  have hem := (C78_result b w remove d s0 items).1 s h
  have hdir := C78_directory b hb w hw remove d s0 items s h
  have hdisk : ∀ q : FS β × Except (Err ε) σ, run b w remove d s0 items = q → (∀ f ∈ (emitted b s0 items).1 ++ b.shared s, q.1.disk f.1 = some f.2) := by
    intro q hq f hf
    have hg : f.1 ∈ generated b s0 items s := List.mem_map_of_mem hf
    obtain ⟨c, hc, e⟩ := (hdir f.1).1 hg
    rw [hq] at e
    rw [e, ← hc, wanted, ← lastContent_append]
    exact (lastContent_nodup hd).2 hf
  have hgone : remove = true → ∀ p, b.stale (generated b s0 items s) p = true → (run b w remove d s0 items).1.disk p = none := by
    intro hr p hp
    have hg : p ∉ generated b s0 items s := fun hg => by
      rw [hb.stale _ _ hg] at hp
      cases hp
    rw [(hdir p).2 hg, if_pos ⟨hr, hp⟩]
  generalize hD : run b w remove d s0 items = q at *
  have hfiles := hdisk q rfl
  clear hdisk hdir h hD
  obtain ⟨c1, c2, c3⟩ := flushAll_same w' ⟨q.1.disk, [q.1.disk], [], 0, []⟩ (emitted b s0 items).1
    (fun f hf => hfiles f (List.mem_append_left _ hf)) ho
  rcases run_cases b w' remove q.1.disk s0 items with ⟨fs, h1, h2⟩ | ⟨fs, e, h1, h2, h3⟩ | ⟨fs, s', h1, h2, h3⟩
  · rw [h1] at c1 c2 c3
    rw [h2]
    refine ⟨c2, c1, fun hr _ => ?_⟩
    exact absurd (c3 hr) (by simp)
  · rw [hem] at h2
    cases h2
  · rw [h1] at c1 c2
    rw [hem] at h2
    cases h2
    rw [h3]
    obtain ⟨g1, g2, g3⟩ := flushAll_same w' fs (w'.ord (b.shared s))
      (fun f hf => by
        rw [c1]
        exact hfiles f (List.mem_append_right _ ((hw'.ord _).mem_iff.1 hf))) ho
    rcases finish_cases b w' remove fs s with ⟨hh, e⟩ | ⟨fs', hf, hrest⟩
    · rw [e]
      refine ⟨g2.trans c2, g1.trans c1, fun hr _ => ?_⟩
      rw [g3 hr] at hh
      cases hh
    · rw [hf] at g1 g2
      have hgen := (written_all b hb w' hw' q.1.disk s0 items s fs fs' h1 hf).2
      simp only at g1 g2 c1 c2
      rcases hrest with ⟨hr, e⟩ | ⟨hr, hl, e⟩ | ⟨hr, l, hl, hrest⟩
      · rw [e]
        exact ⟨g2.trans c2, g1.trans c1, fun _ _ => rfl⟩
      · rw [e]
        exact ⟨g2.trans c2, g1.trans c1, fun _ hn => absurd hl (hn _)⟩
      · have hno : ∀ p ∈ l, b.stale fs'.gen p = false := by
          intro p hp
          cases hst : b.stale fs'.gen p with
          | false => rfl
          | true =>
            rw [hb.set _ _ p hgen] at hst
            have := hls _ _ hl p hp
            rw [g1, c1] at this
            exact absurd (hgone hr p hst) this
        have hrm := (removeAll_spec w' (b.stale fs'.gen) fs' l).2.2.2.2.2.1 hno
        rcases hrest with ⟨_, e⟩ | ⟨hh, e⟩
        · rw [e, hrm]
          exact ⟨g2.trans c2, g1.trans c1, fun _ _ => rfl⟩
        · rw [hrm] at hh
          cases hh

/-- The disk states while files are being written and removed, of a run that has got past the writing. -/
theorem finish_trace (b : Backend σ ε ι β) (w : World β) (hw : w.Honest) (remove : Bool) (fs : FS β) (s : σ) :
    ∀ x ∈ (finish b w remove fs s).1.trace, x ∈ fs.trace ∨ Partly (b.shared s) fs.disk x ∨
      ∃ fs', flushAll w fs (w.ord (b.shared s)) = (fs', true) ∧ remove = true ∧
        ∀ p, x p = fs'.disk p ∨ (x p = none ∧ b.stale fs'.gen p = true) := by
  intro x hx
  have hsh : ∀ x, Partly (w.ord (b.shared s)) fs.disk x → Partly (b.shared s) fs.disk x := by
    intro x h p
    rcases h p with e | ⟨c, k, hm, e⟩
    · exact .inl e
    · exact .inr ⟨c, k, (hw.ord _).mem_iff.1 hm, e⟩
  have hft := (flushAll_trace w fs (w.ord (b.shared s))).2.1
  rcases finish_cases b w remove fs s with ⟨_, e⟩ | ⟨fs', hf, ⟨_, e⟩ | ⟨_, _, e⟩ | ⟨hr, l, hl, ⟨_, e⟩ | ⟨_, e⟩⟩⟩ <;> rw [e] at hx
  · exact (hft x hx).imp_right fun h => .inl (hsh x h)
  · rw [hf] at hft
    exact (hft x hx).imp_right fun h => .inl (hsh x h)
  · rw [hf] at hft
    exact (hft x hx).imp_right fun h => .inl (hsh x h)
  all_goals
    rcases (removeAll_spec w (b.stale fs'.gen) fs' l).2.1 x hx with h | h
    · rw [hf] at hft
      exact (hft x h).imp_right fun h => .inl (hsh x h)
    · exact .inr (.inr ⟨fs', hf, hr, h⟩)

/-- C78: at every moment of a run, successful or not, whatever I/O calls fail, the output directory differs from what it was only
(a) in files of the computation, which then hold a beginning of some content computed for them, shared headers only if all items were generated
without error, or (b) by stale files that are missing, which happens only with removal on, only after everything was generated without error, and
only while all generated files are complete. -/
theorem C78_every_moment (b : Backend σ ε ι β) (hb : b.Sane) (w : World β) (hw : w.Honest) (remove : Bool) (d : Disk β) (s0 : σ)
    (items : List ι) (x : Disk β) (hx : x ∈ (run b w remove d s0 items).1.trace) :
    (∀ p, x p = d p ∨ ∃ c k, x p = some (c.take k) ∧
      ((p, c) ∈ (emitted b s0 items).1 ∨ ∃ s, (emitted b s0 items).2 = .ok s ∧ (p, c) ∈ b.shared s)) ∨
    (remove = true ∧ ∃ s, (emitted b s0 items).2 = .ok s ∧ ∀ p,
      (p ∈ generated b s0 items s → x p = wanted b s0 items s p) ∧
      (p ∉ generated b s0 items s → x p = d p ∨ (x p = none ∧ b.stale (generated b s0 items s) p = true))) := by
  have hft := (flushAll_trace w ⟨d, [d], [], 0, []⟩ (emitted b s0 items).1).2.1
  have hdk := (flushAll_trace w ⟨d, [d], [], 0, []⟩ (emitted b s0 items).1).1
  have base : ∀ x, x ∈ [d] ∨ Partly (emitted b s0 items).1 d x →
      ∀ p, x p = d p ∨ ∃ c k, x p = some (c.take k) ∧
        ((p, c) ∈ (emitted b s0 items).1 ∨ ∃ s, (emitted b s0 items).2 = .ok s ∧ (p, c) ∈ b.shared s) := by
    intro x h p
    rcases h with h | h
    · simp only [List.mem_cons, List.not_mem_nil, or_false] at h
      rw [h]
      exact .inl rfl
    · rcases h p with e | ⟨c, k, hm, e⟩
      · exact .inl e
      · exact .inr ⟨c, k, e, .inl hm⟩
  rcases run_cases b w remove d s0 items with ⟨fs, h1, h2⟩ | ⟨fs, e, h1, h2, h3⟩ | ⟨fs, s, h1, h2, h3⟩
  · rw [h2] at hx
    rw [h1] at hft
    exact .inl (base x (hft x hx))
  · rw [h3] at hx
    rw [h1] at hft
    exact .inl (base x (hft x hx))
  · rw [h3] at hx
    rw [h1] at hft hdk
    rcases finish_trace b w hw remove fs s x hx with h | h | ⟨fs', hf, hr, h⟩
    · exact .inl (base x (hft x h))
    · refine .inl (fun p => ?_)
      rcases h p with e | ⟨c, k, hm, e⟩
      · rw [e]
        rcases hdk p with e | ⟨c, k, hm, e⟩
        · exact .inl e
        · exact .inr ⟨c, k, e, .inl hm⟩
      · exact .inr ⟨c, k, e, .inr ⟨s, h2, hm⟩⟩
    · refine .inr ⟨hr, s, h2, fun p => ?_⟩
      obtain ⟨a1, a2⟩ := written_all b hb w hw d s0 items s fs fs' h1 hf
      have hw2 := wanted_generated b s0 items s p
      refine ⟨fun hp => ?_, fun hp => ?_⟩
      · rcases h p with e | ⟨_, e⟩
        · rw [e, a1]
          cases hv : wanted b s0 items s p with
          | none => exact absurd hp (hw2.1 hv)
          | some c => rfl
        · rw [hb.stale _ _ ((a2 p).2 hp)] at e
          cases e
      · rcases h p with e | ⟨e1, e2⟩
        · refine .inl ?_
          rw [e, a1, hw2.2 hp]
          rfl
        · exact .inr ⟨e1, by rw [← hb.set _ _ p a2]; exact e2⟩

theorem cppStale_gen {gen : List Path} {p : Path} (h : p ∈ gen) : Stale.cppStale gen p = false := by
  unfold Stale.cppStale
  split
  · rw [List.contains_iff_mem.2 h]
    simp
  · rfl

theorem javaStale_gen {gen : List Path} {p : Path} (h : p ∈ gen) : Stale.javaStale gen p = false := by
  unfold Stale.javaStale
  split
  · rw [List.contains_iff_mem.2 h]
    simp
  · rfl

theorem contains_congr {gen gen' : List Path} {p : Path} (h : ∀ q, q ∈ gen ↔ q ∈ gen') : gen.contains p = gen'.contains p := by
  rw [Bool.eq_iff_iff, List.contains_iff_mem, List.contains_iff_mem]
  exact h p

theorem sane_cpp (b : Backend σ ε ι β) (hk : ∀ s, ((b.shared s).map (·.1)).Nodup) (hs : b.stale = Stale.cppStale) : b.Sane :=
  ⟨hk, fun _ _ h => by rw [hs]; exact cppStale_gen h, fun _ _ _ h => by rw [hs]; unfold Stale.cppStale; rw [contains_congr h]⟩

theorem sane_java (b : Backend σ ε ι β) (hk : ∀ s, ((b.shared s).map (·.1)).Nodup) (hs : b.stale = Stale.javaStale) : b.Sane :=
  ⟨hk, fun _ _ h => by rw [hs]; exact javaStale_gen h, fun _ _ _ h => by rw [hs]; unfold Stale.javaStale; rw [contains_congr h]⟩

/-- A C or C++ header by its name. -/
def IsHeader (p : Path) : Prop := Stale.HasExt p ['h'] ∨ Stale.HasExt p ['h', 'p', 'p']

theorem cppStale_iff (gen : List Path) (p : Path) : Stale.cppStale gen p = true ↔ IsHeader p ∧ p ∉ gen := by
  have e1 : "h".toList = ['h'] := by decide
  have e2 : "hpp".toList = ['h', 'p', 'p'] := by decide
  unfold Stale.cppStale IsHeader
  rw [← Stale.extension_iff p ['h'] (by decide), ← Stale.extension_iff p ['h', 'p', 'p'] (by decide), e1, e2]
  cases Stale.extension p with
  | none => simp
  | some v => simp

theorem javaStale_iff (gen : List Path) (p : Path) :
    Stale.javaStale gen p = true ↔ Stale.HasExt p ['j', 'a', 'v', 'a'] ∧ p ∉ gen := by
  have e1 : "java".toList = ['j', 'a', 'v', 'a'] := by decide
  unfold Stale.javaStale
  rw [← Stale.extension_iff p ['j', 'a', 'v', 'a'] (by decide), e1]
  cases Stale.extension p with
  | none => simp
  | some v => simp

/-- C78: after a successful C++ run with removal on, the headers in the output directory are exactly the generated ones; files that are no headers and
were not generated are as before. Without removal no file that was not generated changes. -/
theorem C78_cpp_headers (b : Backend σ ε ι β) (hk : ∀ s, ((b.shared s).map (·.1)).Nodup) (hs : b.stale = Stale.cppStale)
    (w : World β) (hw : w.Honest) (remove : Bool) (d : Disk β) (s0 : σ) (items : List ι) (s : σ)
    (h : (run b w remove d s0 items).2 = .ok s) (p : Path) :
    (p ∈ generated b s0 items s → (run b w remove d s0 items).1.disk p ≠ none) ∧
    (p ∉ generated b s0 items s → IsHeader p → remove = true → (run b w remove d s0 items).1.disk p = none) ∧
    (p ∉ generated b s0 items s → ¬ IsHeader p ∨ remove = false → (run b w remove d s0 items).1.disk p = d p) := by
  obtain ⟨h1, h2⟩ := C78_directory b (sane_cpp b hk hs) w hw remove d s0 items s h p
  refine ⟨fun hp => ?_, fun hp he hr => ?_, fun hp he => ?_⟩
  · obtain ⟨c, _, e⟩ := h1 hp
    rw [e]
    exact fun h => nomatch h
  · rw [h2 hp, hs, if_pos ⟨hr, (cppStale_iff _ _).2 ⟨he, hp⟩⟩]
  · rw [h2 hp, hs, if_neg]
    rintro ⟨hr, hst⟩
    rcases he with he | he
    · exact he ((cppStale_iff _ _).1 hst).1
    · rw [he] at hr
      cases hr

/-- C78: the same for Java. -/
theorem C78_java_classes (b : Backend σ ε ι β) (hk : ∀ s, ((b.shared s).map (·.1)).Nodup) (hs : b.stale = Stale.javaStale)
    (w : World β) (hw : w.Honest) (remove : Bool) (d : Disk β) (s0 : σ) (items : List ι) (s : σ)
    (h : (run b w remove d s0 items).2 = .ok s) (p : Path) :
    (p ∈ generated b s0 items s → (run b w remove d s0 items).1.disk p ≠ none) ∧
    (p ∉ generated b s0 items s → Stale.HasExt p ['j', 'a', 'v', 'a'] → remove = true →
      (run b w remove d s0 items).1.disk p = none) ∧
    (p ∉ generated b s0 items s → ¬ Stale.HasExt p ['j', 'a', 'v', 'a'] ∨ remove = false →
      (run b w remove d s0 items).1.disk p = d p) := by
  obtain ⟨h1, h2⟩ := C78_directory b (sane_java b hk hs) w hw remove d s0 items s h p
  refine ⟨fun hp => ?_, fun hp he hr => ?_, fun hp he => ?_⟩
  · obtain ⟨c, _, e⟩ := h1 hp
    rw [e]
    exact fun h => nomatch h
  · rw [h2 hp, hs, if_pos ⟨hr, (javaStale_iff _ _).2 ⟨he, hp⟩⟩]
  · rw [h2 hp, hs, if_neg]
    rintro ⟨hr, hst⟩
    rcases he with he | he
    · exact he ((javaStale_iff _ _).1 hst).1
    · rw [he] at hr
      cases hr

/-! ### Names of files -/

theorem app_inj_right {a b s : Text} : a ++ s = b ++ s ↔ a = b := List.append_left_inj s

theorem last_ne {a b s t : Text} {x y : Char} (hne : x ≠ y) : a ++ (s ++ [x]) ≠ b ++ (t ++ [y]) := by
  intro h
  rw [← List.append_assoc, ← List.append_assoc] at h
  have := congrArg List.getLast? h
  simp at this
  exact hne this

theorem eHpp : ".hpp".toList = ['.', 'h', 'p', 'p'] := by decide
theorem eH : ".h".toList = ['.', 'h'] := by decide
theorem eFwd : "_fwd.hpp".toList = ['_', 'f', 'w', 'd', '.', 'h', 'p', 'p'] := by decide
theorem eImpl : "_impl.hpp".toList = ['_', 'i', 'm', 'p', 'l', '.', 'h', 'p', 'p'] := by decide

theorem fwd_hpp {n m : Text} : n ++ "_fwd.hpp".toList = m ++ ".hpp".toList ↔ m = n ++ "_fwd".toList := by
  have : "_fwd.hpp".toList = "_fwd".toList ++ ".hpp".toList := by decide
  rw [this, ← List.append_assoc, List.append_left_inj]
  exact eq_comm
theorem impl_hpp {n m : Text} : n ++ "_impl.hpp".toList = m ++ ".hpp".toList ↔ m = n ++ "_impl".toList := by
  have : "_impl.hpp".toList = "_impl".toList ++ ".hpp".toList := by decide
  rw [this, ← List.append_assoc, List.append_left_inj]
  exact eq_comm
theorem impl_fwd {n m : Text} : n ++ "_impl.hpp".toList ≠ m ++ "_fwd.hpp".toList := by
  intro h
  have e : "_fwd.hpp".toList = "_fwd".toList ++ ".hpp".toList := by decide
  rw [e, ← List.append_assoc, impl_hpp] at h
  have e1 : "_fwd".toList = "_fw".toList ++ ['d'] := by decide
  have e2 : "_impl".toList = "_imp".toList ++ ['l'] := by decide
  rw [e1, e2] at h
  exact last_ne (by decide) h
theorem h_p {n m t : Text} : n ++ ".h".toList ≠ m ++ (t ++ ['p']) := by
  have e : ".h".toList = ['.'] ++ ['h'] := by decide
  rw [e]
  exact last_ne (by decide)
theorem pFwd : "_fwd.hpp".toList = "_fwd.hp".toList ++ ['p'] := by decide
theorem pImpl : "_impl.hpp".toList = "_impl.hp".toList ++ ['p'] := by decide
theorem pHpp : ".hpp".toList = ".hp".toList ++ ['p'] := by decide

/-- The kinds of file one item has. -/
theorem mem_cppFiles {sep : Bool} {k : Kind} {n : Text} {p : Path} :
    p ∈ cppFiles sep k n ↔ p = n ++ ".hpp".toList ∨ p = "c_".toList ++ n ++ ".h".toList ∨
      (k = .class ∧ (p = n ++ "_fwd.hpp".toList ∨ (sep = true ∧ p = n ++ "_impl.hpp".toList))) := by
  unfold cppFiles
  generalize n ++ ".hpp".toList = a
  generalize "c_".toList ++ n ++ ".h".toList = b
  generalize n ++ "_fwd.hpp".toList = c
  generalize n ++ "_impl.hpp".toList = e
  cases k <;> cases sep <;> simp <;> grind

/-- C78: which two items of a C++ project write the same file: items of the same name (whatever their kinds), or a class `X` and something called
`X_fwd` (or `X_impl`, with separate implementation headers). -/
theorem C78_cpp_clash (sep : Bool) (k k' : Kind) (n n' : Text) :
    (∃ p, p ∈ cppFiles sep k n ∧ p ∈ cppFiles sep k' n') ↔
      n = n' ∨ (k = .class ∧ (n' = n ++ "_fwd".toList ∨ (sep = true ∧ n' = n ++ "_impl".toList))) ∨
      (k' = .class ∧ (n = n' ++ "_fwd".toList ∨ (sep = true ∧ n = n' ++ "_impl".toList))) := by
  constructor
  · rintro ⟨p, h1, h2⟩
    rw [mem_cppFiles] at h1 h2
    rcases h1 with rfl | rfl | ⟨hk, rfl | ⟨hs, rfl⟩⟩ <;> rcases h2 with h | h | ⟨hk', h | ⟨hs', h⟩⟩
    · exact .inl (app_inj_right.1 h)
    · rw [pHpp] at h
      exact absurd h.symm h_p
    · exact .inr (.inr ⟨hk', .inl (fwd_hpp.1 h.symm)⟩)
    · exact .inr (.inr ⟨hk', .inr ⟨hs', impl_hpp.1 h.symm⟩⟩)
    · rw [pHpp] at h
      exact absurd h h_p
    · rw [List.append_left_inj, List.append_right_inj] at h
      exact .inl h
    · rw [pFwd] at h
      exact absurd h h_p
    · rw [pImpl] at h
      exact absurd h h_p
    · exact .inr (.inl ⟨hk, .inl (fwd_hpp.1 h)⟩)
    · rw [pFwd] at h
      exact absurd h.symm h_p
    · exact .inl (app_inj_right.1 h)
    · exact absurd h.symm impl_fwd
    · exact .inr (.inl ⟨hk, .inr ⟨hs, impl_hpp.1 h⟩⟩)
    · rw [pImpl] at h
      exact absurd h.symm h_p
    · exact absurd h impl_fwd
    · exact .inl (app_inj_right.1 h)
  · rintro (rfl | ⟨hk, h⟩ | ⟨hk, h⟩)
    · exact ⟨n ++ ".hpp".toList, mem_cppFiles.2 (.inl rfl), mem_cppFiles.2 (.inl rfl)⟩
    · refine ⟨n' ++ ".hpp".toList, mem_cppFiles.2 (.inr (.inr ⟨hk, ?_⟩)), mem_cppFiles.2 (.inl rfl)⟩
      rcases h with h | ⟨hs, h⟩
      · exact .inl (fwd_hpp.2 h).symm
      · exact .inr ⟨hs, (impl_hpp.2 h).symm⟩
    · refine ⟨n ++ ".hpp".toList, mem_cppFiles.2 (.inl rfl), mem_cppFiles.2 (.inr (.inr ⟨hk, ?_⟩))⟩
      rcases h with h | ⟨hs, h⟩
      · exact .inl (fwd_hpp.2 h).symm
      · exact .inr ⟨hs, (impl_hpp.2 h).symm⟩

/-- C78: no item writes a file twice. -/
theorem C78_cpp_own_files (sep : Bool) (k : Kind) (n : Text) : (cppFiles sep k n).Nodup := by
  have e1 : n ++ "_impl.hpp".toList ≠ n ++ "_fwd.hpp".toList := impl_fwd
  have e2 : n ++ "_impl.hpp".toList ≠ "c_".toList ++ n ++ ".h".toList := by rw [pImpl]; exact h_p.symm
  have e3 : n ++ "_impl.hpp".toList ≠ n ++ ".hpp".toList := by
    rw [Ne, impl_hpp]
    exact fun h => by have := congrArg List.length h; simp at this
  have e4 : n ++ "_fwd.hpp".toList ≠ "c_".toList ++ n ++ ".h".toList := by rw [pFwd]; exact h_p.symm
  have e5 : n ++ "_fwd.hpp".toList ≠ n ++ ".hpp".toList := by
    rw [Ne, fwd_hpp]
    exact fun h => by have := congrArg List.length h; simp at this
  have e6 : "c_".toList ++ n ++ ".h".toList ≠ n ++ ".hpp".toList := by rw [pHpp]; exact h_p
  unfold cppFiles
  generalize n ++ ".hpp".toList = a at *
  generalize "c_".toList ++ n ++ ".h".toList = b at *
  generalize n ++ "_fwd.hpp".toList = c at *
  generalize n ++ "_impl.hpp".toList = e at *
  cases k <;> cases sep <;> simp [*, Ne.symm e6]

/-- C78: two items of a Java project write the same file exactly when they have the same name; an item overwrites a file of the library exactly when
it is called like it. -/
theorem C78_java_clash (fence : Bool) (n n' : Text) :
    ((∃ p, p ∈ javaFiles n ∧ p ∈ javaFiles n') ↔ n = n') ∧
    ((∃ p, p ∈ javaFiles n ∧ p ∈ javaInitFiles fence) ↔
      n = "InternalPointerMarker".toList ∨ (fence = true ∧ n = "JNIReachabilityFence".toList)) := by
  have e1 : "InternalPointerMarker.java".toList = "InternalPointerMarker".toList ++ ".java".toList := by decide
  have e2 : "JNIReachabilityFence.java".toList = "JNIReachabilityFence".toList ++ ".java".toList := by decide
  unfold javaFiles javaInitFiles
  rw [e1, e2]
  generalize "InternalPointerMarker".toList = m
  generalize "JNIReachabilityFence".toList = f
  generalize ".java".toList = j
  refine ⟨⟨?_, ?_⟩, ?_⟩
  · rintro ⟨p, h1, h2⟩
    rw [List.mem_singleton] at h1 h2
    rw [h1] at h2
    exact List.append_cancel_right h2
  · rintro rfl
    exact ⟨_, List.mem_singleton.2 rfl, List.mem_singleton.2 rfl⟩
  · cases fence <;> simp

/-- C78: each helper file of the C++ library is written under its own name, in order; its text is the original cut at the leftmost occurrences of
`RUST_SWIG_USER_NAMESPACE` and put together with the user's namespace at each cut. -/
theorem C78_library_files (ns : Text) (code : List (Text × Text)) :
    (cppInitFiles ns code).map (·.1) = code.map (·.1) ∧
    ∀ (i : Nat) (n t : Text), code[i]? = some (n, t) → ∃ segs, LeftmostSplit "RUST_SWIG_USER_NAMESPACE".toList t segs ∧
      (cppInitFiles ns code)[i]? = some (n, glue ns ns segs) := by
  refine ⟨by simp only [cppInitFiles, List.map_map]; rfl, fun i n t h => ?_⟩
  obtain ⟨segs, h1, h2⟩ := C08_replace_first_and_other t "RUST_SWIG_USER_NAMESPACE".toList ns ns (by decide)
  rw [C08_same] at h2
  refine ⟨segs, h1, ?_⟩
  simp only [cppInitFiles, List.getElem?_map, h, Option.map_some]
  rw [h2]

/-! ### Findings and non-vacuity -/

/-- A small C++ backend: items are (kind, name); each file holds the number of its kind. -/
def demo : Backend Nat Text (Kind × Text) Nat where
  init s := ⟨[("lib.hpp".toList, [9])], .ok s⟩
  isClass i := i.1 = .class
  register s _ := .ok (s + 100)
  generate s i := ⟨(cppFiles false i.1 i.2).map fun p => (p, [match i.1 with | .class => 0 | .enum => 1 | .interface => 2, s]),
    if i.2 = ['!'] then .error "bad".toList else .ok (s + 1)⟩
  shared s := [("rust_str.h".toList, [s]), ("rust_vec.h".toList, [s])]
  stale := Stale.cppStale

/-- No faults. -/
def calm : World Nat := ⟨fun _ => {}, List.reverse, fun d => some (["old.h".toList, "A.hpp".toList, "note.txt".toList].filter fun p => (d p).isSome), fun _ => true⟩

/-- An output directory with a header of an earlier version. -/
def oldDir : Disk Nat := fun p => if p = "old.h".toList then some [7] else if p = "note.txt".toList then some [8] else none

/-- The state a run ended in, if it succeeded. -/
def okState {ε σ : Type} : Except (Err ε) σ → Option σ
  | .ok s => some s
  | .error _ => none

/-- The error of the generator a run ended with. -/
def genError {ε σ : Type} : Except (Err ε) σ → Option ε
  | .error (.gen e) => some e
  | _ => none

def demoRun : FS Nat × Except (Err Text) Nat := run demo calm true oldDir 0 [(.class, ['A']), (.enum, ['B'])]

example : okState demoRun.2 = some 102 ∧ demoRun.1.disk "old.h".toList = none ∧
    demoRun.1.disk "note.txt".toList = some [8] ∧ demoRun.1.disk "A.hpp".toList = some [0, 100] ∧
    demoRun.1.disk "B.hpp".toList = some [1, 101] ∧ demoRun.1.disk "rust_vec.h".toList = some [102] := by decide +kernel

example : (generated demo 0 [(.class, ['A']), (.enum, ['B'])] 102).Nodup := by decide +kernel
example : demo.Sane := sane_cpp demo (fun s => by simp only [demo, List.map_cons, List.map_nil]; decide) rfl

/-- C78, finding: a class with static methods only and an enum of the same name are accepted by the registration of types, but they share
`Foo.hpp` and `c_Foo.h`: the run succeeds, the header of the class is silently lost, and every further run rewrites the files although nothing
changed. -/
theorem C78_finding_same_name :
    okState (run demo calm true oldDir 0 [(.class, ['F']), (.enum, ['F'])]).2 = some 102 ∧
    (run demo calm true oldDir 0 [(.class, ['F']), (.enum, ['F'])]).1.disk "F.hpp".toList = some [1, 101] ∧
    (run demo calm true (run demo calm true oldDir 0 [(.class, ['F']), (.enum, ['F'])]).1.disk 0
      [(.class, ['F']), (.enum, ['F'])]).1.ops ≠ [] := by decide +kernel

/-- C78, finding: a failing run has already overwritten the headers of the items before the failing one, and of that item, while the shared headers
are still those of the earlier version. -/
theorem C78_finding_mixed_versions :
    let d := (run demo calm true oldDir 0 [(.enum, ['B'])]).1.disk
    let r := run demo calm true d 5 [(.enum, ['B']), (.enum, ['!'])]
    genError r.2 = some "bad".toList ∧
    r.1.disk "B.hpp".toList = some [1, 5] ∧ r.1.disk "rust_vec.h".toList = some [1] := by decide +kernel

end Flapi.BackendRun
