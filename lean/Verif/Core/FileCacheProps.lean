import Verif.Core.FileCache
/-!
# C05, C06 – flushing generated files
-/
namespace Flapi.FileCache
variable {β : Type} [DecidableEq β]
set_option linter.unusedSectionVars false

theorem writeTrace_last (d : Disk β) (p : Path) (cnt : List β) (n : Nat) (d0 d1 : Disk β) :
    ((d0 :: writeTrace d p cnt n).getLast?).getD d1 = d.set p (cnt.take n) := by
  simp only [writeTrace, List.range_succ, List.map_append, List.map_cons, List.map_nil]
  rw [← List.cons_append, List.getLast?_append]
  simp

theorem mem_writeTrace (d x : Disk β) (p : Path) (cnt : List β) (n : Nat) (h : x ∈ writeTrace d p cnt n) :
    ∃ k, x = d.set p (cnt.take k) := by
  obtain ⟨k, _, rfl⟩ := List.mem_map.1 h
  exact ⟨k, rfl⟩

/-- The possible shapes of a flush. -/
theorem flush_cases (ft : Faults) (d : Disk β) (c : Cache β) :
    (∃ ok, flush ft d c = ⟨ok, [d], []⟩ ∧ (ok = true → d c.path = some c.cnt)) ∨
    (∃ n, flush ft d c = ⟨false, d :: writeTrace d c.path c.cnt n, [.create c.path, .append c.path]⟩) ∨
    (flush ft d c = ⟨true, d :: writeTrace d c.path c.cnt c.cnt.length, [.create c.path, .append c.path]⟩ ∧
      (ft.openFails = true ∨ d c.path ≠ some c.cnt)) := by
  obtain ⟨o, r, cr, ws⟩ := ft
  cases o <;> cases r <;> cases cr <;> cases ws <;> cases hd : d c.path <;> simp [flush, hd]
  all_goals first
    | exact ⟨_, rfl⟩
    | (rename_i cur; by_cases h : cur = c.cnt <;> simp [h]; try exact ⟨_, rfl⟩)

/-- **C05 (content).** For every prior disk state and every pattern of I/O faults: a flush that reports success leaves
exactly the generated bytes in the target. -/
theorem C05_success_content (ft : Faults) (d : Disk β) (c : Cache β) (h : (flush ft d c).ok = true) :
    ((flush ft d c).final d) c.path = some c.cnt := by
  rcases flush_cases ft d c with ⟨ok, he, hd⟩ | ⟨n, he⟩ | ⟨he, _⟩
  · rw [he] at h ⊢
    simpa [Outcome.final] using hd h
  · rw [he] at h; simp at h
  · rw [he]
    simp only [Outcome.final, writeTrace_last]
    simp [Disk.set]

/-- **C05 (fault free runs succeed).** -/
theorem C05_no_fault_success (d : Disk β) (c : Cache β) : (flush {} d c).ok = true := by
  cases hd : d c.path with
  | none => simp [flush, hd]
  | some cur => by_cases h : cur = c.cnt <;> simp [flush, hd, h]

/-- **C05 (no needless write).** If the file already holds the generated bytes and can be read, no create/write call
is issued and the disk is untouched; conversely if it does not hold them the file is written. -/
theorem C05_no_needless_write (ft : Faults) (d : Disk β) (c : Cache β)
    (ho : ft.openFails = false) (hr : ft.readFails = false) :
    (d c.path = some c.cnt → (flush ft d c).ops = [] ∧ (flush ft d c).trace = [d] ∧ (flush ft d c).ok = true) ∧
    ((flush ft d c).ok = true → (flush ft d c).ops = [] → d c.path = some c.cnt) := by
  constructor
  · intro h
    simp [flush, ho, hr, h]
  · intro hok hops
    rcases flush_cases ft d c with ⟨ok, he, hd⟩ | ⟨n, he⟩ | ⟨he, _⟩
    · rw [he] at hok; exact hd hok
    · rw [he] at hops; simp at hops
    · rw [he] at hops; simp at hops

/-- **C05 (idempotence).** After a successful flush (whatever faults happened) a second flush of the same content issues
no write and changes nothing. -/
theorem C05_idempotent (ft ft2 : Faults) (d : Disk β) (c : Cache β) (h : (flush ft d c).ok = true)
    (ho : ft2.openFails = false) (hr : ft2.readFails = false) :
    (flush ft2 ((flush ft d c).final d) c).ops = [] ∧
    (flush ft2 ((flush ft d c).final d) c).trace = [(flush ft d c).final d] := by
  have := (C05_no_needless_write ft2 ((flush ft d c).final d) c ho hr).1 (C05_success_content ft d c h)
  exact ⟨this.1, this.2.1⟩

/-- **C05 (frame).** No other file is ever touched, at any moment of the flush. -/
theorem C05_other_files_untouched (ft : Faults) (d : Disk β) (c : Cache β) (x : Disk β)
    (hx : x ∈ (flush ft d c).trace) (q : Path) (hq : q ≠ c.path) : x q = d q := by
  rcases flush_cases ft d c with ⟨ok, he, hd⟩ | ⟨n, he⟩ | ⟨he, _⟩
  · rw [he] at hx; simp at hx; rw [hx]
  all_goals
    rw [he] at hx
    rcases List.mem_cons.1 hx with rfl | hx
    · rfl
    · obtain ⟨k, rfl⟩ := mem_writeTrace _ _ _ _ _ hx
      simp [Disk.set, hq]

/-- **C05 (in-memory content).** The content flushed is the concatenation of the writes since the last
`replace_content`/`take_content`; defining items does not influence it. -/
def specContent (init : List β) : List (Op β) → List β
  | [] => init
  | .write d :: ops => specContent (init ++ d) ops
  | .take :: ops => specContent [] ops
  | .replace b :: ops => specContent b ops
  | .define _ :: ops => specContent init ops

theorem C05_memory_content (c : Cache β) (ops : List (Op β)) :
    (ops.foldl step c).cnt = specContent c.cnt ops ∧ (ops.foldl step c).path = c.path := by
  induction ops generalizing c with
  | nil => simp [specContent]
  | cons op ops ih =>
    cases op <;> simp [List.foldl_cons, ih, step, specContent]

/-- **C05 (item registry).** An item counts as defined iff it was defined earlier in the history – contents being
taken or replaced in between does not matter. -/
theorem C05_defined_iff (p : Path) (reg : List Path) (ops : List (Op β)) (item : Text) :
    ((ops.foldl step (new p reg).1).isDefined item = true) ↔ Op.define item ∈ ops := by
  have gen : ∀ (ops : List (Op β)) (c : Cache β),
      ((ops.foldl step c).isDefined item = true) ↔ (item ∈ c.items ∨ Op.define item ∈ ops) := by
    intro ops
    induction ops with
    | nil => intro c; simp [Cache.isDefined]
    | cons op ops ih =>
      intro c
      rw [List.foldl_cons, ih]
      cases op with
      | define i =>
        simp only [step, List.mem_cons, Op.define.injEq]
        constructor
        · rintro ((h | h) | h)
          · exact Or.inr (Or.inl h)
          · exact Or.inl h
          · exact Or.inr (Or.inr h)
        · rintro (h | h | h)
          · exact Or.inl (Or.inr h)
          · exact Or.inl (Or.inl h)
          · exact Or.inr h
      | _ => simp [step]
  simpa [new] using gen ops (new p reg).1

/-- Starting the files `ps` one after the other, macroslib/src/file_cache.rs:32-43 (specification of a run). -/
def startAll : List Path → List Path → List (Cache β) × List Path
  | [], reg => ([], reg)
  | p :: ps, reg => let (c, reg) := new p reg; let (cs, reg) := startAll ps reg; (c :: cs, reg)

/-- **C05 (every file is registered).** However many files a run starts, each is empty at first and bound to its path, the registered
paths are those registered before followed by these, in order, and so every file that is ever written counts as generated for the clean
up of the directory (C28). -/
theorem C05_every_file_registered (ps reg : List Path) :
    (startAll (β := β) ps reg).2 = reg ++ ps ∧ (startAll (β := β) ps reg).1.map (·.path) = ps ∧
    (∀ c ∈ (startAll (β := β) ps reg).1, c.cnt = [] ∧ ∀ ops : List (Op β), (ops.foldl step c).path ∈ (startAll (β := β) ps reg).2) := by
  induction ps generalizing reg with
  | nil => simp [startAll]
  | cons p ps ih =>
    obtain ⟨h1, h2, h3⟩ := ih (reg ++ [p])
    refine ⟨?_, ?_, ?_⟩
    · simp only [startAll, new, h1, List.append_assoc, List.singleton_append]
    · simp only [startAll, new, List.map_cons, h2]
    · intro c hc
      simp only [startAll, new, List.mem_cons] at hc
      rcases hc with rfl | hc
      · refine ⟨rfl, fun ops => ?_⟩
        rw [(C05_memory_content _ ops).2]
        simp only [startAll, new, h1]
        simp
      · exact h3 c hc

/-- **C06 (crash states).** At every moment of the flush (every crash point, every fault) the target is either still
the old file or a prefix of the new content. -/
theorem C06_crash_old_or_prefix (ft : Faults) (d : Disk β) (c : Cache β) (x : Disk β)
    (hx : x ∈ (flush ft d c).trace) :
    x c.path = d c.path ∨ ∃ k, x c.path = some (c.cnt.take k) := by
  rcases flush_cases ft d c with ⟨ok, he, hd⟩ | ⟨n, he⟩ | ⟨he, _⟩
  · rw [he] at hx; simp at hx; rw [hx]; exact Or.inl rfl
  all_goals
    rw [he] at hx
    rcases List.mem_cons.1 hx with rfl | hx
    · exact Or.inl rfl
    · obtain ⟨k, rfl⟩ := mem_writeTrace _ _ _ _ _ hx
      exact Or.inr ⟨k, by simp [Disk.set]⟩

/-- **C06 (repair).** From every crash state, a later fault-free flush installs the complete content, and still
touches nothing else. -/
theorem C06_rerun_repairs (ft : Faults) (d : Disk β) (c : Cache β) (x : Disk β)
    (hx : x ∈ (flush ft d c).trace) :
    ((flush {} x c).final x) c.path = some c.cnt ∧ ∀ q, q ≠ c.path → ((flush {} x c).final x) q = d q := by
  refine ⟨C05_success_content {} x c (C05_no_fault_success x c), ?_⟩
  intro q hq
  have h1 := C05_other_files_untouched ft d c x hx q hq
  have h2 : ((flush {} x c).final x) ∈ (flush {} x c).trace := by
    rcases flush_cases {} x c with ⟨ok, he, _⟩ | ⟨n, he⟩ | ⟨he, _⟩
    · rw [he]; simp [Outcome.final]
    all_goals
      rw [he]
      simp only [Outcome.final]
      generalize writeTrace x c.path c.cnt _ = t
      cases hl : (x :: t).getLast? with
      | none => simp at hl
      | some y => simpa using List.mem_of_getLast? hl
  rw [C05_other_files_untouched {} x c _ h2 q hq, h1]

/-- **C06 (error means unreadable, uncreatable or truncated).** A flush reporting an error before `create` leaves the
disk as it was. -/
theorem C06_error_without_write (ft : Faults) (d : Disk β) (c : Cache β)
    (hops : (flush ft d c).ops = []) : (flush ft d c).final d = d := by
  rcases flush_cases ft d c with ⟨ok, he, _⟩ | ⟨n, he⟩ | ⟨he, _⟩
  · rw [he]; simp [Outcome.final]
  all_goals rw [he] at hops; simp at hops

/-- The claim one might expect: at every crash point the target is completely old or completely new. -/
def AtomicUpdate (β : Type) [DecidableEq β] : Prop :=
  ∀ (ft : Faults) (d : Disk β) (c : Cache β) (x : Disk β), x ∈ (flush ft d c).trace →
    x c.path = d c.path ∨ x c.path = some c.cnt

/-- **C06 (atomicity is false).** A crash between truncation and the end of the write leaves neither the old nor the
new file. -/
theorem C06_not_atomic : ¬ AtomicUpdate Nat := by
  intro h
  have := h {} (fun _ => some [9]) ⟨[1, 2], "p".toList, []⟩
    (Disk.set (fun _ => some [9]) "p".toList [1]) (by
      simp [flush, writeTrace, List.range_succ])
  simp [Disk.set] at this

/-! Non-vacuity -/
example : (flush {} (fun _ => none) (⟨[1, 2], "p".toList, []⟩ : Cache Nat)).ok = true ∧
    (flush {} (fun _ => none) (⟨[1, 2], "p".toList, []⟩ : Cache Nat)).trace.length = 4 := by decide
example : (flush { writeStop := some 1 } (fun _ => some [5]) (⟨[1, 2], "p".toList, []⟩ : Cache Nat)).ok = false := by
  decide
example : (flush { openFails := true } (fun _ => some [1, 2]) (⟨[1, 2], "p".toList, []⟩ : Cache Nat)).ops
    = [.create "p".toList, .append "p".toList] := by decide

end Flapi.FileCache
