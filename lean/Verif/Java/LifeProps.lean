import Verif.Java.Life
/-!
# C35: a native object is destroyed at most once from Java
-/
namespace Flapi.JavaLife

/-! ## Specification -/

def Op.isDelete : Op → Bool
  | .delete _ => true
  | _ => false

/-- The argument keeps a reference to the native object of `x` for the time of the call. -/
def Arg.borrows (a : Arg) (x : Obj) : Prop := a = .ref x ∨ a = .optRef (some x)

/-- The argument gives the native object of `x` away. -/
def Arg.gives (a : Arg) (x : Obj) : Prop := a = .value x ∨ a = .optValue (some x)

def Op.args : Op → List Arg
  | .new _ l => l
  | .call _ l => l
  | .delete _ => []

/-- No object is given away after being lent to the same call. -/
def Op.NoLendThenGive (o : Op) : Prop := o.args.Pairwise fun a b => ∀ x, a.borrows x → ¬ b.gives x

/-- Thread `t` may start `o` now: no other thread is inside an operation on one of its objects, unless both are `delete()`. -/
def Exclusive (s : St) (t : Nat) (o : Op) : Prop :=
  ∀ t' th, t' ≠ t → s.threads[t']? = some th → th.code ≠ [] →
    (o.isDelete = true ∧ th.cur.isDelete = true) ∨ ∀ x ∈ o.objs, x ∉ th.cur.objs

/-- Calls on one wrapper object do not overlap in time (calls of `delete()` may), and are free of lend-then-give. -/
def Tame (s : St) : Label → Prop
  | .start t o => Exclusive s t o ∧ o.NoLendThenGive
  | _ => True

/-- A state in which no thread is inside a call, nothing went wrong and each native object belongs to at most one wrapper. -/
structure Initial (s : St) : Prop where
  good : s.mem.bad = false
  idle : ∀ th ∈ s.threads, th.code = []
  unlocked : ∀ x, s.mem.lock x = none
  owned : ∀ x, s.mem.field x ≠ 0 → s.mem.live (s.mem.field x)
  inj : ∀ x y, s.mem.field x ≠ 0 → s.mem.field x = s.mem.field y → x = y
  once : ∀ a, s.mem.destroyed a ≤ 1
  fresh : ∀ a, s.mem.next ≤ a → s.mem.destroyed a = 0
  pos : 0 < s.mem.next

/-! ## Sequential correctness -/

theorem upd_same {β} (f : Nat → β) (k : Nat) (v : β) : upd f k v k = v := by simp [upd]
theorem upd_other {β} (f : Nat → β) {k n : Nat} (v : β) (h : n ≠ k) : upd f k v n = f n := by simp [upd, h]

/-- All wrappers in `W` are sound: they hold nothing or a live object. -/
def Sound (W : List Obj) (m : Mem) : Prop := ∀ x ∈ W, m.field x ≠ 0 → m.live (m.field x)

/-- Running `c` alone goes well and leaves the wrappers `W` sound. -/
def wp (W : List Obj) : List Instr → Mem → Regs → Prop
  | [], m, _ => Sound W m
  | .acquire _ :: _, _, _ => False
  | .release _ :: c, m, r => wp W c m r
  | .ifSet x :: c, m, r => x ∈ W ∧ if m.field x = 0 then Sound W m else wp W c m r
  | .load i x :: c, m, r => x ∈ W ∧ wp W c m (upd r i (m.field x))
  | .clear x :: c, m, r => x ∈ W ∧ wp W c { m with field := upd m.field x 0 } r
  | .npe :: _, m, _ => Sound W m
  | .deref i :: c, m, r => r i ≠ 0 → m.live (r i) ∧ wp W c m r
  | .derefOpt i :: c, m, r => (r i ≠ 0 → m.live (r i)) ∧ wp W c m r
  | .take i :: c, m, r => r i ≠ 0 → m.live (r i) ∧ wp W c (m.destroy (r i)) r
  | .takeOpt i :: c, m, r => if r i = 0 then wp W c m r else m.live (r i) ∧ wp W c (m.destroy (r i)) r
  | .fence _ :: c, m, r => wp W c m r
  | .create x _ :: c, m, _ => c = [] ∧ x ∈ W ∧ ∀ y ∈ W, y ≠ x → m.field y ≠ 0 → m.live (m.field y)

theorem live_destroy (m : Mem) (a b : Addr) : (m.destroy a).live b ↔ m.live b ∧ b ≠ a := by
  simp only [Mem.live, Mem.destroy, upd]
  by_cases h : b = a
  · simp [h]
  · simp [h]

/-- Two memories look the same to a thread that holds `W` and has the local variables `r`. -/
structure Agree (W : List Obj) (r : Regs) (m m' : Mem) : Prop where
  field : ∀ x ∈ W, m'.field x = m.field x
  regs : ∀ i, m'.live (r i) ↔ m.live (r i)
  objs : ∀ x ∈ W, m'.live (m.field x) ↔ m.live (m.field x)

theorem Agree.sound {W r m m'} (h : Agree W r m m') (hs : Sound W m) : Sound W m' := by
  intro x hx h0
  rw [h.field x hx] at h0 ⊢
  exact (h.objs x hx).2 (hs x hx h0)

theorem Agree.destroy {W r m m'} (h : Agree W r m m') (a : Addr) : Agree W r (m.destroy a) (m'.destroy a) := by
  refine ⟨h.field, fun i => ?_, fun x hx => ?_⟩
  · rw [live_destroy, live_destroy, h.regs]
  · rw [live_destroy, live_destroy]; exact and_congr_left fun _ => h.objs x hx

theorem wp_frame {W : List Obj} (c : List Instr) : ∀ {m m' : Mem} {r : Regs}, Agree W r m m' → wp W c m r → wp W c m' r := by
  induction c with
  | nil => intro m m' r h hw; exact h.sound hw
  | cons i c ih =>
    intro m m' r h hw
    cases i with
    | acquire x => exact hw
    | release x => exact ih h hw
    | fence x => exact ih h hw
    | npe => exact h.sound hw
    | ifSet x =>
      obtain ⟨hx, hw⟩ := hw
      refine ⟨hx, ?_⟩
      rw [h.field x hx]
      split
      · rename_i h0; rw [if_pos h0] at hw; exact h.sound hw
      · rename_i h0; rw [if_neg h0] at hw; exact ih h hw
    | load i x =>
      obtain ⟨hx, hw⟩ := hw
      refine ⟨hx, ?_⟩
      rw [h.field x hx]
      refine ih ⟨h.field, fun j => ?_, h.objs⟩ hw
      by_cases hj : j = i
      · subst hj; rw [upd_same]; exact h.objs x hx
      · rw [upd_other _ _ hj]; exact h.regs j
    | clear x =>
      obtain ⟨hx, hw⟩ := hw
      refine ⟨hx, ih (m := { m with field := upd m.field x 0 }) ⟨fun y hy => ?_, h.regs, fun y hy => ?_⟩ hw⟩
      · by_cases hyx : y = x
        · subst hyx; simp [upd]
        · simp [upd, hyx, h.field y hy]
      · by_cases hyx : y = x
        · subst hyx; simp [upd, Mem.live]
        · simpa [upd, hyx, Mem.live] using h.objs y hy
    | deref i => intro h0; exact ⟨(h.regs i).2 (hw h0).1, ih h (hw h0).2⟩
    | derefOpt i => exact ⟨fun h0 => (h.regs i).2 (hw.1 h0), ih h hw.2⟩
    | take i => intro h0; exact ⟨(h.regs i).2 (hw h0).1, ih (h.destroy _) (hw h0).2⟩
    | takeOpt i =>
      simp only [wp] at hw ⊢
      split
      · rename_i h0; rw [if_pos h0] at hw; exact ih h hw
      · rename_i h0; rw [if_neg h0] at hw; exact ⟨(h.regs i).2 hw.1, ih (h.destroy _) hw.2⟩
    | create x xs =>
      obtain ⟨hc, hx, hw⟩ := hw
      refine ⟨hc, hx, fun y hy hyx h0 => ?_⟩
      rw [h.field y hy] at h0 ⊢
      exact (h.objs y hy).2 (hw y hy hyx h0)

/-- What one action of a thread that holds `W` can do. -/
structure Effect (W : List Obj) (m : Mem) (r : Regs) (m' : Mem) (r' : Regs) : Prop where
  bad : m'.bad = m.bad
  next : m.next ≤ m'.next
  other : ∀ y, y ∉ W → m'.field y = m.field y
  field : ∀ y, m'.field y = m.field y ∨ m'.field y = 0 ∨ (m'.field y = m.next ∧ m'.next = m.next + 1 ∧ ∀ z, m'.field z = m.next → z = y)
  regs : ∀ i, r' i = r i ∨ ∃ x ∈ W, r' i = m.field x
  destroyed : ∀ a, m'.destroyed a = m.destroyed a ∨ (m.live a ∧ m'.destroyed a = m.destroyed a + 1 ∧ ∃ i, a = r i)

theorem Effect.same (W : List Obj) (m : Mem) (r : Regs) : Effect W m r m r :=
  ⟨rfl, Nat.le_refl _, fun _ _ => rfl, fun _ => .inl rfl, fun _ => .inl rfl, fun _ => .inl rfl⟩

theorem use_live {m : Mem} {a : Addr} (h : m.live a) : m.use a = m := by simp [Mem.use, h]

theorem Effect.takeOut {W : List Obj} {m : Mem} {r : Regs} (i : Nat) (h : m.live (r i)) : Effect W m r (m.destroy (r i)) r := by
  refine ⟨rfl, Nat.le_refl _, fun _ _ => rfl, fun _ => .inl rfl, fun _ => .inl rfl, fun a => ?_⟩
  by_cases ha : a = r i
  · subst ha; exact .inr ⟨h, by simp [Mem.destroy, upd], i, rfl⟩
  · exact .inl (by simp [Mem.destroy, upd, ha])

theorem exec_wp {W : List Obj} {t : Nat} {i : Instr} {c c' : List Instr} {m m' : Mem} {r r' : Regs}
    (hw : wp W (i :: c) m r) (he : exec t i m r c = some (m', r', c'))
    (hfresh : ∀ a, m.next ≤ a → m.destroyed a = 0) (hpos : 0 < m.next) (hlt : ∀ x, m.field x < m.next)
    (ha : m.aborted = false) :
    Effect W m r m' r' ∧ (m'.aborted = false → wp W c' m' r') := by
  cases i with
  | acquire x => exact hw.elim
  | release x =>
    simp only [exec, Option.some.injEq, Prod.mk.injEq] at he
    obtain ⟨rfl, rfl, rfl⟩ := he
    refine ⟨⟨rfl, Nat.le_refl _, fun _ _ => rfl, fun _ => .inl rfl, fun _ => .inl rfl, fun _ => .inl rfl⟩, fun _ => ?_⟩
    exact wp_frame c (m := m) ⟨fun _ _ => rfl, fun _ => Iff.rfl, fun _ _ => Iff.rfl⟩ hw
  | ifSet x =>
    simp only [exec, Option.some.injEq, Prod.mk.injEq] at he
    obtain ⟨rfl, rfl, rfl⟩ := he
    refine ⟨Effect.same .., fun _ => ?_⟩
    replace hw := hw.2
    split
    · rename_i h0; rw [if_pos h0] at hw; exact hw
    · rename_i h0; rw [if_neg h0] at hw; exact hw
  | load j x =>
    simp only [exec, Option.some.injEq, Prod.mk.injEq] at he
    obtain ⟨rfl, rfl, rfl⟩ := he
    refine ⟨⟨rfl, Nat.le_refl _, fun _ _ => rfl, fun _ => .inl rfl, fun k => ?_, fun _ => .inl rfl⟩, fun _ => hw.2⟩
    by_cases hk : k = j
    · subst hk; rw [upd_same]; exact .inr ⟨x, hw.1, rfl⟩
    · rw [upd_other _ _ hk]; exact .inl rfl
  | clear x =>
    simp only [exec, Option.some.injEq, Prod.mk.injEq] at he
    obtain ⟨rfl, rfl, rfl⟩ := he
    refine ⟨⟨rfl, Nat.le_refl _, fun y hy => ?_, fun y => ?_, fun _ => .inl rfl, fun _ => .inl rfl⟩, fun _ => hw.2⟩
    · exact upd_other _ _ fun h => hy (h ▸ hw.1)
    · by_cases hy : y = x
      · subst hy; exact .inr (.inl (upd_same ..))
      · exact .inl (upd_other _ _ hy)
  | npe =>
    simp only [exec, Option.some.injEq, Prod.mk.injEq] at he
    obtain ⟨rfl, rfl, rfl⟩ := he
    exact ⟨Effect.same .., fun _ => hw⟩
  | deref j =>
    simp only [exec, Option.some.injEq, Prod.mk.injEq] at he
    obtain ⟨rfl, rfl, rfl⟩ := he
    split
    · exact ⟨⟨rfl, Nat.le_refl _, fun _ _ => rfl, fun _ => .inl rfl, fun _ => .inl rfl, fun _ => .inl rfl⟩, fun h => by simp at h⟩
    · rename_i h0
      rw [use_live (hw h0).1]
      exact ⟨Effect.same .., fun _ => (hw h0).2⟩
  | derefOpt j =>
    simp only [exec, Option.some.injEq, Prod.mk.injEq] at he
    obtain ⟨rfl, rfl, rfl⟩ := he
    split
    · exact ⟨Effect.same .., fun _ => hw.2⟩
    · rename_i h0
      rw [use_live (hw.1 h0)]
      exact ⟨Effect.same .., fun _ => hw.2⟩
  | take j =>
    simp only [exec, Option.some.injEq, Prod.mk.injEq] at he
    obtain ⟨rfl, rfl, rfl⟩ := he
    split
    · exact ⟨⟨rfl, Nat.le_refl _, fun _ _ => rfl, fun _ => .inl rfl, fun _ => .inl rfl, fun _ => .inl rfl⟩, fun h => by simp at h⟩
    · rename_i h0
      rw [Mem.takeOut, use_live (hw h0).1]
      exact ⟨Effect.takeOut j (hw h0).1, fun _ => (hw h0).2⟩
  | takeOpt j =>
    simp only [exec, Option.some.injEq, Prod.mk.injEq] at he
    obtain ⟨rfl, rfl, rfl⟩ := he
    simp only [wp] at hw
    split
    · rename_i h0; rw [if_pos h0] at hw; exact ⟨Effect.same .., fun _ => hw⟩
    · rename_i h0; rw [if_neg h0] at hw
      rw [Mem.takeOut, use_live hw.1]
      exact ⟨Effect.takeOut j hw.1, fun _ => hw.2⟩
  | fence xs =>
    simp only [exec, Option.some.injEq, Prod.mk.injEq] at he
    obtain ⟨rfl, rfl, rfl⟩ := he
    exact ⟨Effect.same .., fun _ => hw⟩
  | create x xs =>
    simp only [exec, Option.some.injEq, Prod.mk.injEq] at he
    obtain ⟨rfl, rfl, rfl⟩ := he
    obtain ⟨rfl, hx, hw⟩ := hw
    refine ⟨⟨rfl, Nat.le_succ _, fun y hy => ?_, fun y => ?_, fun _ => .inl rfl, fun _ => .inl rfl⟩, fun _ y hy h0 => ?_⟩
    · exact upd_other _ _ fun h => hy (h ▸ hx)
    · by_cases hy : y = x
      · subst hy
        refine .inr (.inr ⟨upd_same .., rfl, fun z hz => ?_⟩)
        apply Classical.byContradiction
        intro hzy
        simp only [upd, hzy, if_false] at hz
        have := hlt z
        rw [hz] at this
        exact Nat.lt_irrefl _ this
      · exact .inl (upd_other _ _ hy)
    · by_cases hyx : y = x
      · subst hyx
        simp only [upd_same, Mem.live]
        exact ⟨Nat.ne_of_gt hpos, Nat.lt_succ_self _, hfresh _ (Nat.le_refl _)⟩
      · simp only [upd_other _ _ hyx] at h0 ⊢
        have := hw y hy hyx h0
        exact ⟨this.1, Nat.lt_succ_of_lt this.2.1, this.2.2⟩

/-! ## Sequential correctness of the generated calls -/

/-- Objects whose field is set to zero by the Java code for the arguments. -/
def givenObj : Arg → List Obj
  | .value x => [x]
  | .optValue (some x) => [x]
  | _ => []

def given (args : List Arg) : List Obj := args.flatMap givenObj

/-- Native part of a call: only tests, uses and frees of local variables. -/
inductive Native : Instr → Nat → Bool → Prop
  | deref (i) : Native (.deref i) i false
  | derefOpt (i) : Native (.derefOpt i) i false
  | take (i) : Native (.take i) i true
  | takeOpt (i) : Native (.takeOpt i) i true

/-- If every variable used is zero or live, nothing is used after it is freed, and the objects left in the fields are not freed, the
native part goes well. -/
theorem wp_native {W : List Obj} (tail : List Instr) : ∀ (l : List (Instr × Nat × Bool)) (m : Mem) (r : Regs),
    (∀ e ∈ l, Native e.1 e.2.1 e.2.2) →
    (∀ e ∈ l, r e.2.1 ≠ 0 → m.live (r e.2.1)) →
    l.Pairwise (fun e e' => e.2.2 = true → r e.2.1 ≠ 0 → r e'.2.1 ≠ r e.2.1) →
    (∀ m' : Mem, m'.field = m.field →
      (∀ a, m.live a → (∀ e ∈ l, e.2.2 = true → r e.2.1 ≠ a) → m'.live a) → wp W tail m' r) →
    wp W (l.map (·.1) ++ tail) m r := by
  intro l
  induction l with
  | nil => intro m r _ _ _ h; exact h m rfl fun a ha _ => ha
  | cons e l ih =>
    obtain ⟨i, k, b⟩ := e
    intro m r hn hl hp ht
    have hn' : ∀ e ∈ l, Native e.1 e.2.1 e.2.2 := fun e he => hn e (List.mem_cons_of_mem _ he)
    have hl' : ∀ e ∈ l, r e.2.1 ≠ 0 → m.live (r e.2.1) := fun e he => hl e (List.mem_cons_of_mem _ he)
    rw [List.pairwise_cons] at hp
    have hk : r k ≠ 0 → m.live (r k) := hl (i, k, b) List.mem_cons_self
    have hI : Native i k b := hn (i, k, b) List.mem_cons_self
    simp only [List.map_cons, List.cons_append]
    have hsame : (b = true → r k = 0) → wp W (l.map (·.1) ++ tail) m r := by
      intro hb
      refine ih m r hn' hl' hp.2 fun m' hf hm => ht m' hf fun a ha hx => ?_
      exact hm a ha fun e he => hx e (List.mem_cons_of_mem _ he)
    have hdes : b = true → r k ≠ 0 → wp W (l.map (·.1) ++ tail) (m.destroy (r k)) r := by
      intro hb h0
      refine ih (m.destroy (r k)) r hn' (fun e he h => ?_) hp.2 fun m' hf hm => ht m' hf fun a ha hx => ?_
      · rw [live_destroy]; exact ⟨hl' e he h, hp.1 e he hb h0⟩
      · refine hm a ?_ fun e he => hx e (List.mem_cons_of_mem _ he)
        rw [live_destroy]
        exact ⟨ha, fun h => hx (i, k, b) List.mem_cons_self hb h.symm⟩
    cases hI with
    | deref => intro h0; exact ⟨hk h0, hsame (by simp)⟩
    | derefOpt => exact ⟨hk, hsame (by simp)⟩
    | take => intro h0; exact ⟨hk h0, hdes rfl h0⟩
    | takeOpt =>
      simp only [wp]
      split
      · rename_i h0; exact hsame fun _ => h0
      · rename_i h0; exact ⟨hk h0, hdes rfl h0⟩

def clearAll (f : Obj → Addr) (xs : List Obj) : Obj → Addr := fun y => if y ∈ xs then 0 else f y

/-- Value of the local variable of argument `a` when the arguments `pre` come before it. -/
def Val (f : Obj → Addr) (pre : List Arg) (old : Addr) (a : Arg) (v : Addr) : Prop :=
  match a.objs with
  | x :: _ => v = if x ∈ given pre then 0 else f x
  | [] => v = old

theorem given_cons (a : Arg) (l : List Arg) : given (a :: l) = givenObj a ++ given l := rfl

theorem clearAll_cons (f : Obj → Addr) (a b : List Obj) : clearAll (clearAll f a) b = clearAll f (a ++ b) := by
  funext y
  simp only [clearAll, List.mem_append]
  by_cases h1 : y ∈ a <;> by_cases h2 : y ∈ b <;> simp [h1, h2]

theorem Val_cons {f : Obj → Addr} {a : Arg} {pre : List Arg} {old v : Addr} {b : Arg}
    (h : Val (clearAll f (givenObj a)) pre old b v) : Val f (a :: pre) old b v := by
  unfold Val at h ⊢
  cases hb : b.objs with
  | nil => simpa [hb] using h
  | cons x l =>
    rw [hb] at h
    simp only at h ⊢
    rw [h]
    simp only [given_cons, List.mem_append, clearAll]
    by_cases h1 : x ∈ givenObj a <;> by_cases h2 : x ∈ given pre <;> simp [h1, h2]

theorem sound_clearAll {W : List Obj} {m : Mem} (h : Sound W m) (xs : List Obj) : Sound W { m with field := clearAll m.field xs } := by
  intro x hx h0
  simp only [clearAll] at h0 ⊢
  by_cases hxs : x ∈ xs
  · simp [hxs] at h0
  · simp only [hxs, if_false] at h0 ⊢; exact h x hx h0

/-- One argument on the Java side. -/
theorem wp_javaArg {W : List Obj} {i : Nat} {a : Arg} {rest : List Instr} {m : Mem} {r : Regs}
    (hW : ∀ x ∈ a.objs, x ∈ W) (hs : Sound W m)
    (h : ∀ r', (∀ j, j ≠ i → r' j = r j) → Val m.field [] (r i) a (r' i) →
      wp W rest { m with field := clearAll m.field (givenObj a) } r') :
    wp W (javaArg i a ++ rest) m r := by
  have h0 : clearAll m.field [] = m.field := by funext y; simp [clearAll]
  have h1 : ∀ x, clearAll m.field [x] = upd m.field x 0 := by
    intro x; funext y; simp [clearAll, upd]
  have hu : ∀ v, ∀ j, j ≠ i → upd r i v j = r j := fun v j hj => upd_other r v hj
  cases a with
  | ref x =>
    refine ⟨hW x List.mem_cons_self, ?_⟩
    have := h (upd r i (m.field x)) (hu _) (by simp [Val, Arg.objs, given, upd])
    rw [show givenObj _ = [] from rfl, h0] at this; exact this
  | copy x =>
    refine ⟨hW x List.mem_cons_self, ?_⟩
    have := h (upd r i (m.field x)) (hu _) (by simp [Val, Arg.objs, given, upd])
    rw [show givenObj _ = [] from rfl, h0] at this; exact this
  | value x =>
    refine ⟨hW x List.mem_cons_self, hW x List.mem_cons_self, ?_⟩
    have := h (upd r i (m.field x)) (hu _) (by simp [Val, Arg.objs, given, upd])
    rw [show givenObj _ = [x] from rfl, h1] at this; exact this
  | optValue x =>
    cases x with
    | none => have := h r (fun _ _ => rfl) (by simp [Val, Arg.objs]); rw [show givenObj _ = [] from rfl, h0] at this; exact this
    | some x =>
      refine ⟨hW x List.mem_cons_self, hW x List.mem_cons_self, ?_⟩
      have := h (upd r i (m.field x)) (hu _) (by simp [Val, Arg.objs, given, upd])
      rw [show givenObj _ = [x] from rfl, h1] at this; exact this
  | optRef x =>
    cases x with
    | none => have := h r (fun _ _ => rfl) (by simp [Val, Arg.objs]); rw [show givenObj _ = [] from rfl, h0] at this; exact this
    | some x =>
      refine ⟨hW x List.mem_cons_self, ?_⟩
      have := h (upd r i (m.field x)) (hu _) (by simp [Val, Arg.objs, given, upd])
      rw [show givenObj _ = [] from rfl, h0] at this; exact this
  | null => exact hs

theorem wp_java {W : List Obj} {rest : List Instr} : ∀ (args : List Arg) (i : Nat) (m : Mem) (r : Regs),
    (∀ a ∈ args, ∀ x ∈ a.objs, x ∈ W) → Sound W m →
    (∀ r', (∀ j, j < i ∨ i + args.length ≤ j → r' j = r j) →
      (∀ p a, args[p]? = some a → Val m.field (args.take p) (r (i + p)) a (r' (i + p))) →
      wp W rest { m with field := clearAll m.field (given args) } r') →
    wp W (javaArgs i args ++ rest) m r := by
  intro args
  induction args with
  | nil =>
    intro i m r _ _ h
    have h0 : clearAll m.field (given []) = m.field := by funext y; simp [clearAll, given]
    have := h r (fun _ _ => rfl) (by simp)
    rwa [h0] at this
  | cons a l ih =>
    intro i m r hW hs h
    simp only [javaArgs, List.append_assoc]
    refine wp_javaArg (hW a List.mem_cons_self) hs fun r1 hr1 hv1 => ?_
    refine ih (i + 1) _ r1 (fun b hb => hW b (List.mem_cons_of_mem _ hb)) (sound_clearAll hs _) fun r2 hr2 hv2 => ?_
    have := h r2 ?_ ?_
    · simpa only [clearAll_cons, given_cons] using this
    · intro j hj
      simp only [List.length_cons] at hj
      rw [hr2 j (by omega), hr1 j (by omega)]
    · intro p b hb
      cases p with
      | zero =>
        simp only [List.getElem?_cons_zero, Option.some.injEq] at hb
        subst hb
        simpa only [Nat.add_zero, List.take_zero, hr2 i (by omega)] using hv1
      | succ p =>
        simp only [List.getElem?_cons_succ] at hb
        have h3 := Val_cons (hv2 p b hb)
        rw [hr1 (i + 1 + p) (by omega)] at h3
        have he : i + (p + 1) = i + 1 + p := by omega
        rw [he, List.take_succ_cons]
        exact h3

/-- The native actions of a call with the variable they use and whether they free it. -/
def convEv (i : Nat) : Arg → List (Instr × Nat × Bool)
  | .ref _ => [(.deref i, i, false)]
  | .value _ => [(.take i, i, true)]
  | .copy _ => [(.deref i, i, false)]
  | .optValue _ => [(.takeOpt i, i, true)]
  | .optRef _ => [(.derefOpt i, i, false)]
  | .null => []

def convEvs : Nat → List Arg → List (Instr × Nat × Bool)
  | _, [] => []
  | i, a :: l => convEv i a ++ convEvs (i + 1) l

def bodyEv (i : Nat) : Arg → List (Instr × Nat × Bool)
  | .ref _ => [(.deref i, i, false)]
  | .optRef _ => [(.derefOpt i, i, false)]
  | _ => []

def bodyEvs : Nat → List Arg → List (Instr × Nat × Bool)
  | _, [] => []
  | i, a :: l => bodyEv i a ++ bodyEvs (i + 1) l

theorem convEvs_map : ∀ (l : List Arg) (i : Nat), (convEvs i l).map (·.1) = nativeArgs i l
  | [], _ => rfl
  | a :: l, i => by
    rw [convEvs, nativeArgs, List.map_append, convEvs_map l]
    congr 1
    cases a <;> rfl

theorem bodyEvs_map : ∀ (l : List Arg) (i : Nat), (bodyEvs i l).map (·.1) = bodyArgs i l
  | [], _ => rfl
  | a :: l, i => by
    rw [bodyEvs, bodyArgs, List.map_append, bodyEvs_map l]
    congr 1
    cases a <;> rfl

theorem mem_convEvs {e : Instr × Nat × Bool} : ∀ {l : List Arg} {i : Nat}, e ∈ convEvs i l →
    ∃ p a, l[p]? = some a ∧ e ∈ convEv (i + p) a
  | [], _, h => by simp [convEvs] at h
  | a :: l, i, h => by
    rw [convEvs, List.mem_append] at h
    rcases h with h | h
    · exact ⟨0, a, rfl, h⟩
    · obtain ⟨p, b, hb, he⟩ := mem_convEvs h
      exact ⟨p + 1, b, hb, by rwa [Nat.add_assoc, Nat.add_comm 1] at he⟩

theorem mem_bodyEvs {e : Instr × Nat × Bool} : ∀ {l : List Arg} {i : Nat}, e ∈ bodyEvs i l →
    ∃ p a, l[p]? = some a ∧ e ∈ bodyEv (i + p) a
  | [], _, h => by simp [bodyEvs] at h
  | a :: l, i, h => by
    rw [bodyEvs, List.mem_append] at h
    rcases h with h | h
    · exact ⟨0, a, rfl, h⟩
    · obtain ⟨p, b, hb, he⟩ := mem_bodyEvs h
      exact ⟨p + 1, b, hb, by rwa [Nat.add_assoc, Nat.add_comm 1] at he⟩

theorem convEv_facts {e : Instr × Nat × Bool} {i : Nat} {a : Arg} (h : e ∈ convEv i a) :
    e.2.1 = i ∧ Native e.1 i e.2.2 ∧ (e.2.2 = true → (∃ x, a.gives x) ∨ a.objs = []) ∧ (∀ x, a.gives x → e.2.2 = true) := by
  cases a <;> simp only [convEv, List.mem_singleton, List.not_mem_nil] at h
  · subst h; exact ⟨rfl, .deref _, by simp, by simp [Arg.gives]⟩
  · subst h; exact ⟨rfl, .take _, fun _ => .inl ⟨_, .inl rfl⟩, by simp⟩
  · subst h; exact ⟨rfl, .deref _, by simp, by simp [Arg.gives]⟩
  · rename_i x
    subst h
    refine ⟨rfl, .takeOpt _, fun _ => ?_, by simp⟩
    cases x with
    | none => exact .inr rfl
    | some x => exact .inl ⟨x, .inr rfl⟩
  · subst h; exact ⟨rfl, .derefOpt _, by simp, by simp [Arg.gives]⟩

theorem bodyEv_facts {e : Instr × Nat × Bool} {i : Nat} {a : Arg} (h : e ∈ bodyEv i a) :
    e.2.1 = i ∧ Native e.1 i e.2.2 ∧ e.2.2 = false ∧ ((∃ x, a.borrows x) ∨ a.objs = []) ∧ (∀ x, ¬ a.gives x) := by
  cases a <;> simp only [bodyEv, List.mem_singleton, List.not_mem_nil] at h
  · subst h; exact ⟨rfl, .deref _, rfl, .inl ⟨_, .inl rfl⟩, by simp [Arg.gives]⟩
  · rename_i x
    subst h
    refine ⟨rfl, .derefOpt _, rfl, ?_, by simp [Arg.gives]⟩
    cases x with
    | none => exact .inr rfl
    | some x => exact .inl ⟨x, .inr rfl⟩

theorem convEvs_pairwise {R : Instr × Nat × Bool → Instr × Nat × Bool → Prop} : ∀ (l : List Arg) (i : Nat),
    (∀ p q a b e e', p < q → l[p]? = some a → l[q]? = some b → e ∈ convEv (i + p) a → e' ∈ convEv (i + q) b → R e e') →
    (convEvs i l).Pairwise R
  | [], _, _ => List.Pairwise.nil
  | a :: l, i, h => by
    rw [convEvs, List.pairwise_append]
    refine ⟨?_, convEvs_pairwise l (i + 1) fun p q x y e e' hpq hx hy he he' => ?_, fun e he e' he' => ?_⟩
    · cases a <;> simp [convEv]
    · exact h (p + 1) (q + 1) x y e e' (by omega) (by simpa using hx) (by simpa using hy)
        (by rwa [Nat.add_comm p 1, ← Nat.add_assoc]) (by rwa [Nat.add_comm q 1, ← Nat.add_assoc])
    · obtain ⟨q, b, hb, hq⟩ := mem_convEvs he'
      exact h 0 (q + 1) a b e e' (by omega) rfl (by simpa using hb) he (by rwa [Nat.add_comm q 1, ← Nat.add_assoc])

theorem gives_objs {a : Arg} {x : Obj} (h : a.gives x) : a.objs = [x] := by
  rcases h with rfl | rfl <;> rfl

theorem borrows_objs {a : Arg} {x : Obj} (h : a.borrows x) : a.objs = [x] := by
  rcases h with rfl | rfl <;> rfl

theorem gives_given {a : Arg} {x : Obj} (h : a.gives x) : givenObj a = [x] := by
  rcases h with rfl | rfl <;> rfl

theorem given_iff {args : List Arg} {x : Obj} : x ∈ given args ↔ ∃ a ∈ args, a.gives x := by
  simp only [given, List.mem_flatMap]
  constructor
  · rintro ⟨a, ha, hx⟩
    refine ⟨a, ha, ?_⟩
    cases a with
    | value y => simp only [givenObj, List.mem_singleton] at hx; subst hx; exact .inl rfl
    | optValue y =>
      cases y with
      | none => simp [givenObj] at hx
      | some y => simp only [givenObj, List.mem_singleton] at hx; subst hx; exact .inr rfl
    | ref y => simp [givenObj] at hx
    | copy y => simp [givenObj] at hx
    | optRef y => simp [givenObj] at hx
    | null => simp [givenObj] at hx
  · rintro ⟨a, ha, hx⟩
    exact ⟨a, ha, by rw [gives_given hx]; exact List.mem_singleton.2 rfl⟩

/-- A call on sound wrappers, alone, goes well. -/
theorem wp_call {W : List Obj} {tail : List Instr} {m : Mem} (args : List Arg) (hW : ∀ a ∈ args, ∀ x ∈ a.objs, x ∈ W)
    (hs : Sound W m) (hinj : ∀ x y, m.field x ≠ 0 → m.field x = m.field y → x = y)
    (hal : args.Pairwise fun a b => ∀ x, a.borrows x → ¬ b.gives x)
    (ht : ∀ (m' : Mem) (r : Regs), Sound W m' → wp W tail m' r) :
    wp W (callCode args ++ tail) m (fun _ => 0) := by
  rw [callCode, List.append_assoc]
  refine wp_java args 0 m _ hW hs fun r _ hv => ?_
  simp only [Nat.zero_add] at hv
  -- what the variable of an argument holds
  have hreg : ∀ p a, args[p]? = some a → r p ≠ 0 → ∃ x, a.objs = [x] ∧ x ∉ given (args.take p) ∧ r p = m.field x := by
    intro p a ha h0
    have h := hv p a ha
    unfold Val at h
    cases ho : a.objs with
    | nil => rw [ho] at h; exact absurd h h0
    | cons x l =>
      rw [ho] at h
      simp only at h
      have hl : l = [] := by
        clear h hv
        cases a with
        | optValue o => cases o <;> simp [Arg.objs] at ho; exact ho.2
        | optRef o => cases o <;> simp [Arg.objs] at ho; exact ho.2
        | null => simp [Arg.objs] at ho
        | _ => simp [Arg.objs] at ho; exact ho.2
      subst hl
      by_cases hg : x ∈ given (args.take p)
      · rw [if_pos hg] at h; exact absurd h h0
      · rw [if_neg hg] at h; exact ⟨x, rfl, hg, h⟩
  have hlive : ∀ p a, args[p]? = some a → r p ≠ 0 → m.live (r p) := by
    intro p a ha h0
    obtain ⟨x, hx, _, hr⟩ := hreg p a ha h0
    rw [hr]
    refine hs x (hW a (List.mem_of_getElem? ha) x (by rw [hx]; exact List.mem_singleton.2 rfl)) (by rw [← hr]; exact h0)
  -- a later variable never holds the address given away before
  have hlater : ∀ p q a b x, p < q → args[p]? = some a → args[q]? = some b → a.gives x → r p ≠ 0 → r q ≠ r p := by
    intro p q a b x hpq ha hb hg h0 he
    obtain ⟨y, hy, _, hr⟩ := hreg p a ha h0
    rw [gives_objs hg] at hy
    simp only [List.cons.injEq, and_true] at hy
    subst hy
    obtain ⟨z, hz, hzn, hrq⟩ := hreg q b hb (by rw [he]; exact h0)
    have hxz : x = z := hinj x z (by rw [← hr]; exact h0) (by rw [← hr, ← hrq, he])
    subst hxz
    refine hzn (given_iff.2 ⟨a, ?_, hg⟩)
    exact List.mem_of_getElem? (i := p) (by rw [List.getElem?_take_of_lt hpq]; exact ha)
  have hearlier : ∀ p q a b x, p < q → args[p]? = some a → args[q]? = some b → b.gives x → (∃ y, a.borrows y) → r q ≠ 0 → r p ≠ r q := by
    intro p q a b x hpq ha hb hg ⟨y, hy⟩ h0 he
    obtain ⟨z, hz, _, hr⟩ := hreg q b hb h0
    rw [gives_objs hg] at hz
    simp only [List.cons.injEq, and_true] at hz
    subst hz
    obtain ⟨w, hw, _, hrp⟩ := hreg p a ha (by rw [he]; exact h0)
    rw [borrows_objs hy] at hw
    simp only [List.cons.injEq, and_true] at hw
    subst hw
    have hxy : x = y := hinj x y (by rw [← hr]; exact h0) (by rw [← hr, ← hrp, he])
    subst hxy
    rw [List.pairwise_iff_getElem] at hal
    obtain ⟨hp, rfl⟩ := List.getElem?_eq_some_iff.1 ha
    obtain ⟨hq, rfl⟩ := List.getElem?_eq_some_iff.1 hb
    exact hal p q hp hq hpq x hy hg
  have key := wp_native (W := W) tail (convEvs 0 args ++ bodyEvs 0 args) { m with field := clearAll m.field (given args) } r
    ?_ ?_ ?_ ?_
  · rwa [List.map_append, convEvs_map, bodyEvs_map] at key
  · intro e he
    rcases List.mem_append.1 he with he | he
    · obtain ⟨p, a, _, h⟩ := mem_convEvs he
      obtain ⟨h1, h2, _⟩ := convEv_facts h
      rw [h1]; exact h2
    · obtain ⟨p, a, _, h⟩ := mem_bodyEvs he
      obtain ⟨h1, h2, _⟩ := bodyEv_facts h
      rw [h1]; exact h2
  · intro e he h0
    rcases List.mem_append.1 he with he | he
    · obtain ⟨p, a, ha, h⟩ := mem_convEvs he
      have h1 := (convEv_facts h).1
      rw [Nat.zero_add] at h1
      rw [h1] at h0 ⊢
      exact hlive p a ha h0
    · obtain ⟨p, a, ha, h⟩ := mem_bodyEvs he
      have h1 := (bodyEv_facts h).1
      rw [Nat.zero_add] at h1
      rw [h1] at h0 ⊢
      exact hlive p a ha h0
  · rw [List.pairwise_append]
    refine ⟨convEvs_pairwise args 0 ?_, ?_, ?_⟩
    · intro p q a b e e' hpq ha hb he he' hbt h0
      obtain ⟨h1, _, h3, _⟩ := convEv_facts he
      have h1' := (convEv_facts he').1
      rw [Nat.zero_add] at h1 h1'
      rw [h1] at h0 ⊢
      rw [h1']
      rcases h3 hbt with ⟨x, hx⟩ | hn
      · exact hlater p q a b x hpq ha hb hx h0
      · obtain ⟨x, hx, _⟩ := hreg p a ha h0
        rw [hn] at hx; cases hx
    · refine List.Pairwise.imp_of_mem (R := fun _ _ => True) ?_ (List.pairwise_of_forall fun _ _ => trivial)
      intro e e' he _ _ hbt
      obtain ⟨p, a, _, h⟩ := mem_bodyEvs he
      have := (bodyEv_facts h).2.2.1
      rw [this] at hbt; cases hbt
    · intro e he e' he' hbt h0
      obtain ⟨p, a, ha, h⟩ := mem_convEvs he
      obtain ⟨q, b, hb, h'⟩ := mem_bodyEvs he'
      obtain ⟨h1, _, h3, _⟩ := convEv_facts h
      obtain ⟨h1', _, _, h4', h5'⟩ := bodyEv_facts h'
      rw [Nat.zero_add] at h1 h1'
      rw [h1] at h0 ⊢
      rw [h1']
      rcases h3 hbt with ⟨x, hx⟩ | hn
      · rcases Nat.lt_trichotomy p q with hpq | hpq | hpq
        · exact hlater p q a b x hpq ha hb hx h0
        · subst hpq
          rw [ha, Option.some.injEq] at hb
          subst hb
          exact absurd hx (h5' x)
        · rcases h4' with hbo | hn
          · exact hearlier q p b a x hpq hb ha hx hbo h0
          · intro he0
            obtain ⟨y, hy, _⟩ := hreg q b hb (by rw [he0]; exact h0)
            rw [hn] at hy; cases hy
      · obtain ⟨x, hx, _⟩ := hreg p a ha h0
        rw [hn] at hx; cases hx
  · intro m' hf hm
    refine ht m' r fun x hx h0 => ?_
    rw [hf] at h0 ⊢
    have hf' : clearAll m.field (given args) x ≠ 0 := h0
    have hg : x ∉ given args := by
      intro hg; simp [clearAll, hg] at hf'
    have hfx : clearAll m.field (given args) x = m.field x := by simp [clearAll, hg]
    show m'.live (clearAll m.field (given args) x)
    rw [hfx] at hf' ⊢
    refine hm _ (hs x hx hf') fun e he hbt hea => ?_
    rcases List.mem_append.1 he with he | he
    · obtain ⟨p, a, ha, h⟩ := mem_convEvs he
      obtain ⟨h1, _, h3, _⟩ := convEv_facts h
      rw [Nat.zero_add] at h1
      rw [h1] at hea
      obtain ⟨y, hy, _, hr⟩ := hreg p a ha (by rw [hea]; exact hf')
      rcases h3 hbt with ⟨z, hz⟩ | hn
      · rw [gives_objs hz] at hy
        simp only [List.cons.injEq, and_true] at hy
        subst hy
        have : x = z := hinj x z hf' (by rw [← hr, hea])
        subst this
        exact hg (given_iff.2 ⟨a, List.mem_of_getElem? ha, hz⟩)
      · rw [hn] at hy; cases hy
    · obtain ⟨p, a, ha, h⟩ := mem_bodyEvs he
      have := (bodyEv_facts h).2.2.1
      rw [this] at hbt; cases hbt

end Flapi.JavaLife
