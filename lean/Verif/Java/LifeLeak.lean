import Verif.Java.LifeFindings
/-!
# C35: no native object is lost
-/
namespace Flapi.JavaLife

/-! ## Specification -/

/-- Every native object that was not destroyed belongs to a wrapper. -/
def NoLeak (m : Mem) : Prop := ∀ a, m.live a → ∃ x, m.field x = a

/-- Calls do not overlap in time as in `Tame`, and no wrapper argument is `null`. -/
def Careful (s : St) (l : Label) : Prop :=
  Tame s l ∧ match l with
    | .start _ o => .null ∉ o.args
    | _ => True

/-! ## Proof -/

/-- Running `c` alone leaves address `a` destroyed or in a field of a wrapper of `W`. -/
def acc (W : List Obj) (a : Addr) : List Instr → Mem → Regs → Prop
  | [], m, _ => ∃ y ∈ W, m.field y = a
  | .acquire _ :: _, _, _ => False
  | .release _ :: c, m, r => acc W a c m r
  | .ifSet x :: c, m, r => x ∈ W ∧ if m.field x = 0 then ∃ y ∈ W, m.field y = a else acc W a c m r
  | .load i x :: c, m, r => x ∈ W ∧ acc W a c m (upd r i (m.field x))
  | .clear x :: c, m, r => acc W a c { m with field := upd m.field x 0 } r
  | .npe :: _, m, _ => ∃ y ∈ W, m.field y = a
  | .deref _ :: c, m, r => acc W a c m r
  | .derefOpt _ :: c, m, r => acc W a c m r
  | .take i :: c, m, r => r i = a ∨ acc W a c m r
  | .takeOpt i :: c, m, r => r i = a ∨ acc W a c m r
  | .fence _ :: c, m, r => acc W a c m r
  | .create x _ :: c, m, _ => c = [] ∧ ∃ y ∈ W, y ≠ x ∧ m.field y = a

theorem acc_frame {W : List Obj} {a : Addr} (c : List Instr) : ∀ {m m' : Mem} {r : Regs}, (∀ x ∈ W, m'.field x = m.field x) →
    acc W a c m r → acc W a c m' r := by
  have hE : ∀ {m m' : Mem}, (∀ x ∈ W, m'.field x = m.field x) → (∃ y ∈ W, m.field y = a) → ∃ y ∈ W, m'.field y = a := by
    rintro m m' h ⟨y, hy, e⟩
    exact ⟨y, hy, by rw [h y hy, e]⟩
  induction c with
  | nil => intro m m' r h ha; exact hE h ha
  | cons i c ih =>
    intro m m' r h ha
    cases i with
    | acquire x => exact ha
    | release x => exact ih h ha
    | fence x => exact ih h ha
    | deref x => exact ih h ha
    | derefOpt x => exact ih h ha
    | npe => exact hE h ha
    | ifSet x =>
      obtain ⟨hx, ha⟩ := ha
      refine ⟨hx, ?_⟩
      rw [h x hx]
      split
      · rename_i h0; rw [if_pos h0] at ha; exact hE h ha
      · rename_i h0; rw [if_neg h0] at ha; exact ih h ha
    | load i x =>
      obtain ⟨hx, ha⟩ := ha
      refine ⟨hx, ?_⟩
      rw [h x hx]
      exact ih h ha
    | clear x =>
      refine ih (m := { m with field := upd m.field x 0 }) (fun y hy => ?_) ha
      by_cases hyx : y = x
      · subst hyx; simp [upd]
      · simp [upd, hyx, h y hy]
    | take i => exact ha.imp id (ih h)
    | takeOpt i => exact ha.imp id (ih h)
    | create x xs =>
      obtain ⟨hc, y, hy, hyx, e⟩ := ha
      exact ⟨hc, y, hy, hyx, by rw [h y hy, e]⟩

theorem use_field (m : Mem) (a : Addr) : (m.use a).field = m.field := by unfold Mem.use; split <;> rfl
theorem takeOut_field (m : Mem) (a : Addr) : (m.takeOut a).field = m.field := use_field m a
theorem takeOut_destroyed (m : Mem) (a : Addr) : (m.takeOut a).destroyed a ≠ 0 := by
  simp [Mem.takeOut, Mem.destroy, upd]

/-- One action keeps account of the address, unless it destroys it. -/
theorem acc_exec {W : List Obj} {a : Addr} {t : Nat} {i : Instr} {c c' : List Instr} {m m' : Mem} {r r' : Regs}
    (h : acc W a (i :: c) m r) (h0 : a ≠ 0) (he : exec t i m r c = some (m', r', c')) :
    m'.destroyed a ≠ 0 ∨ acc W a c' m' r' := by
  have fr : ∀ {c : List Instr} {m m' : Mem}, m'.field = m.field → acc W a c m r → acc W a c m' r :=
    fun e => acc_frame _ fun x _ => by rw [e]
  cases i with
  | acquire x => exact h.elim
  | ifSet x =>
    simp only [exec, Option.some.injEq, Prod.mk.injEq] at he
    obtain ⟨rfl, rfl, rfl⟩ := he
    right
    replace h := h.2
    split
    · rename_i hz; rw [if_pos hz] at h; exact h
    · rename_i hz; rw [if_neg hz] at h; exact h
  | release x =>
    simp only [exec, Option.some.injEq, Prod.mk.injEq] at he
    obtain ⟨rfl, rfl, rfl⟩ := he
    exact .inr (fr (m := m) rfl h)
  | load j x =>
    simp only [exec, Option.some.injEq, Prod.mk.injEq] at he
    obtain ⟨rfl, rfl, rfl⟩ := he
    exact .inr h.2
  | clear x =>
    simp only [exec, Option.some.injEq, Prod.mk.injEq] at he
    obtain ⟨rfl, rfl, rfl⟩ := he
    exact .inr h
  | npe =>
    simp only [exec, Option.some.injEq, Prod.mk.injEq] at he
    obtain ⟨rfl, rfl, rfl⟩ := he
    exact .inr h
  | deref j =>
    simp only [exec, Option.some.injEq, Prod.mk.injEq] at he
    obtain ⟨rfl, rfl, rfl⟩ := he
    refine .inr (fr ?_ h)
    split
    · rfl
    · exact use_field ..
  | derefOpt j =>
    simp only [exec, Option.some.injEq, Prod.mk.injEq] at he
    obtain ⟨rfl, rfl, rfl⟩ := he
    refine .inr (fr ?_ h)
    split
    · rfl
    · exact use_field ..
  | take j =>
    simp only [exec, Option.some.injEq, Prod.mk.injEq] at he
    obtain ⟨rfl, rfl, rfl⟩ := he
    rcases h with rfl | h
    · rw [if_neg h0]; exact .inl (takeOut_destroyed m _)
    · refine .inr (fr ?_ h)
      split
      · rfl
      · exact takeOut_field ..
  | takeOpt j =>
    simp only [exec, Option.some.injEq, Prod.mk.injEq] at he
    obtain ⟨rfl, rfl, rfl⟩ := he
    rcases h with rfl | h
    · rw [if_neg h0]; exact .inl (takeOut_destroyed m _)
    · refine .inr (fr ?_ h)
      split
      · rfl
      · exact takeOut_field ..
  | fence xs =>
    simp only [exec, Option.some.injEq, Prod.mk.injEq] at he
    obtain ⟨rfl, rfl, rfl⟩ := he
    exact .inr h
  | create x xs =>
    simp only [exec, Option.some.injEq, Prod.mk.injEq] at he
    obtain ⟨rfl, rfl, rfl⟩ := he
    obtain ⟨rfl, y, hy, hyx, e⟩ := h
    exact .inr ⟨y, hy, by simp [upd, hyx, e]⟩

/-- One argument on the Java side. -/
theorem acc_javaArg {W : List Obj} {ad : Addr} {i : Nat} {a : Arg} {rest : List Instr} {m : Mem} {r : Regs}
    (hW : ∀ x ∈ a.objs, x ∈ W) (hn : a ≠ .null)
    (h : ∀ r', (∀ j, j ≠ i → r' j = r j) → Val m.field [] (r i) a (r' i) →
      acc W ad rest { m with field := clearAll m.field (givenObj a) } r') :
    acc W ad (javaArg i a ++ rest) m r := by
  have h0 : clearAll m.field [] = m.field := by funext y; simp [clearAll]
  have h1 : ∀ x, clearAll m.field [x] = upd m.field x 0 := by
    intro x; funext y; simp [clearAll, upd]
  have hu : ∀ v, ∀ j, j ≠ i → upd r i v j = r j := fun v j hj => upd_other r v hj
  cases a with
  | ref x =>
    refine ⟨hW x List.mem_cons_self, ?_⟩
    have := h (upd r i (m.field x)) (hu _) (by simp [Val, Arg.objs, given, upd])
    rw [show givenObj _ = [] from rfl, h0] at this; exact this
  | copy x =>
    refine ⟨hW x List.mem_cons_self, ?_⟩
    have := h (upd r i (m.field x)) (hu _) (by simp [Val, Arg.objs, given, upd])
    rw [show givenObj _ = [] from rfl, h0] at this; exact this
  | value x =>
    refine ⟨hW x List.mem_cons_self, ?_⟩
    have := h (upd r i (m.field x)) (hu _) (by simp [Val, Arg.objs, given, upd])
    rw [show givenObj _ = [x] from rfl, h1] at this; exact this
  | optValue x =>
    cases x with
    | none => have := h r (fun _ _ => rfl) (by simp [Val, Arg.objs]); rw [show givenObj _ = [] from rfl, h0] at this; exact this
    | some x =>
      refine ⟨hW x List.mem_cons_self, ?_⟩
      have := h (upd r i (m.field x)) (hu _) (by simp [Val, Arg.objs, given, upd])
      rw [show givenObj _ = [x] from rfl, h1] at this; exact this
  | optRef x =>
    cases x with
    | none => have := h r (fun _ _ => rfl) (by simp [Val, Arg.objs]); rw [show givenObj _ = [] from rfl, h0] at this; exact this
    | some x =>
      refine ⟨hW x List.mem_cons_self, ?_⟩
      have := h (upd r i (m.field x)) (hu _) (by simp [Val, Arg.objs, given, upd])
      rw [show givenObj _ = [] from rfl, h0] at this; exact this
  | null => exact absurd rfl hn

theorem acc_java {W : List Obj} {ad : Addr} {rest : List Instr} : ∀ (args : List Arg) (i : Nat) (m : Mem) (r : Regs),
    (∀ a ∈ args, ∀ x ∈ a.objs, x ∈ W) → .null ∉ args →
    (∀ r', (∀ j, j < i ∨ i + args.length ≤ j → r' j = r j) →
      (∀ p a, args[p]? = some a → Val m.field (args.take p) (r (i + p)) a (r' (i + p))) →
      acc W ad rest { m with field := clearAll m.field (given args) } r') →
    acc W ad (javaArgs i args ++ rest) m r := by
  intro args
  induction args with
  | nil =>
    intro i m r _ _ h
    have h0 : clearAll m.field (given []) = m.field := by funext y; simp [clearAll, given]
    have := h r (fun _ _ => rfl) (by simp)
    rwa [h0] at this
  | cons a l ih =>
    intro i m r hW hs h
    simp only [javaArgs, List.append_assoc]
    refine acc_javaArg (hW a List.mem_cons_self) (fun e => hs (by rw [e]; exact List.mem_cons_self)) fun r1 hr1 hv1 => ?_
    refine ih (i + 1) _ r1 (fun b hb => hW b (List.mem_cons_of_mem _ hb)) (fun e => hs (List.mem_cons_of_mem _ e)) fun r2 hr2 hv2 => ?_
    have := h r2 ?_ ?_
    · simpa only [clearAll_cons, given_cons] using this
    · intro j hj
      simp only [List.length_cons] at hj
      rw [hr2 j (by omega), hr1 j (by omega)]
    · intro p b hb
      cases p with
      | zero =>
        simp only [List.getElem?_cons_zero, Option.some.injEq] at hb
        subst hb
        simpa only [Nat.add_zero, List.take_zero, hr2 i (by omega)] using hv1
      | succ p =>
        simp only [List.getElem?_cons_succ] at hb
        have h3 := Val_cons (hv2 p b hb)
        rw [hr1 (i + 1 + p) (by omega)] at h3
        have he : i + (p + 1) = i + 1 + p := by omega
        rw [he, List.take_succ_cons]
        exact h3

/-- The native part destroys the addresses it takes and leaves the fields alone. -/
theorem acc_native {W : List Obj} {ad : Addr} (tail : List Instr) (m : Mem) (r : Regs) : ∀ (l : List (Instr × Nat × Bool)),
    (∀ e ∈ l, Native e.1 e.2.1 e.2.2) → ((∃ e ∈ l, e.2.2 = true ∧ r e.2.1 = ad) ∨ acc W ad tail m r) →
    acc W ad (l.map (·.1) ++ tail) m r := by
  intro l
  induction l with
  | nil => rintro - (⟨e, he, _⟩ | h) <;> first | exact absurd he (List.not_mem_nil) | exact h
  | cons e l ih =>
    intro hn h
    have hn' : ∀ e ∈ l, Native e.1 e.2.1 e.2.2 := fun e he => hn e (List.mem_cons_of_mem _ he)
    have key : (e.2.2 = true ∧ r e.2.1 = ad) ∨ acc W ad (l.map (·.1) ++ tail) m r := by
      rcases h with ⟨e', he', h1, h2⟩ | h
      · rcases List.mem_cons.1 he' with rfl | he'
        · exact .inl ⟨h1, h2⟩
        · exact .inr (ih hn' (.inl ⟨e', he', h1, h2⟩))
      · exact .inr (ih hn' (.inr h))
    obtain ⟨i, k, b⟩ := e
    have hI : Native i k b := hn (i, k, b) List.mem_cons_self
    show acc W ad (i :: (l.map (·.1) ++ tail)) m r
    cases hI with
    | deref => rcases key with ⟨h, _⟩ | h; cases h; exact h
    | derefOpt => rcases key with ⟨h, _⟩ | h; cases h; exact h
    | take => exact key.imp And.right id
    | takeOpt => exact key.imp And.right id

theorem convEv_mem {a : Arg} {x : Obj} (h : a.gives x) (i : Nat) : ∃ e ∈ convEv i a, e.2.2 = true ∧ e.2.1 = i := by
  rcases h with rfl | rfl
  · exact ⟨_, List.mem_singleton.2 rfl, rfl, rfl⟩
  · exact ⟨_, List.mem_singleton.2 rfl, rfl, rfl⟩

theorem convEvs_mem {e : Instr × Nat × Bool} : ∀ {l : List Arg} {i p : Nat} {a : Arg}, l[p]? = some a → e ∈ convEv (i + p) a →
    e ∈ convEvs i l
  | [], _, _, _, h, _ => by simp at h
  | b :: l, i, 0, a, h, he => by
    simp only [List.getElem?_cons_zero, Option.some.injEq] at h
    subst h
    exact List.mem_append_left _ he
  | b :: l, i, p + 1, a, h, he =>
    List.mem_append_right _ (convEvs_mem (i := i + 1) (p := p) (by simpa using h) (by rwa [Nat.add_assoc, Nat.add_comm 1]))

/-- The first argument that gives `x` away. -/
theorem first_giver {x : Obj} : ∀ {args : List Arg}, x ∈ given args →
    ∃ p a, args[p]? = some a ∧ a.gives x ∧ x ∉ given (args.take p)
  | [], h => by simp [given] at h
  | a :: l, h => by
    by_cases hx : x ∈ givenObj a
    · refine ⟨0, a, rfl, ?_, by simp [given]⟩
      obtain ⟨b, hb, hg⟩ := given_iff.1 (show x ∈ given [a] by simpa [given] using hx)
      rw [List.mem_singleton.1 hb] at hg
      exact hg
    · rw [given_cons, List.mem_append] at h
      obtain ⟨p, b, hb, hg, hn⟩ := first_giver (h.resolve_left hx)
      refine ⟨p + 1, b, by simpa using hb, hg, ?_⟩
      rw [List.take_succ_cons, given_cons, List.mem_append]
      exact fun h => h.elim hx hn

/-- A call, alone, keeps account of the native object of each of its wrappers. -/
theorem acc_call {W : List Obj} {tail : List Instr} {m : Mem} (args : List Arg) (hW : ∀ a ∈ args, ∀ x ∈ a.objs, x ∈ W)
    (hn : .null ∉ args) (x : Obj)
    (ht : ∀ (m' : Mem) (r : Regs), m'.field x = m.field x → acc W (m.field x) tail m' r) :
    acc W (m.field x) (callCode args ++ tail) m (fun _ => 0) := by
  rw [callCode, List.append_assoc]
  refine acc_java args 0 m _ hW hn fun r _ hv => ?_
  simp only [Nat.zero_add] at hv
  have key := acc_native (W := W) (ad := m.field x) tail { m with field := clearAll m.field (given args) } r
    (convEvs 0 args ++ bodyEvs 0 args) ?_ ?_
  · rwa [List.map_append, convEvs_map, bodyEvs_map] at key
  · intro e he
    rcases List.mem_append.1 he with he | he
    · obtain ⟨p, a, _, h⟩ := mem_convEvs he
      obtain ⟨h1, h2, _⟩ := convEv_facts h
      rw [h1]; exact h2
    · obtain ⟨p, a, _, h⟩ := mem_bodyEvs he
      obtain ⟨h1, h2, _⟩ := bodyEv_facts h
      rw [h1]; exact h2
  · by_cases hg : x ∈ given args
    · obtain ⟨p, a, ha, hga, hnp⟩ := first_giver hg
      obtain ⟨e, he, h1, h2⟩ := convEv_mem hga (0 + p)
      refine .inl ⟨e, List.mem_append_left _ (convEvs_mem ha he), h1, ?_⟩
      have := hv p a ha
      unfold Val at this
      rw [gives_objs hga] at this
      simp only [if_neg hnp] at this
      rw [h2, Nat.zero_add]
      exact this
    · exact .inr (ht _ _ (by simp [clearAll, hg]))

theorem acc_start {m : Mem} (o : Op) (hd : o.isDelete = false) (hn : .null ∉ o.args) (x : Obj) (hx : x ∈ o.objs)
    (hnew : ∀ y args, o = .new y args → y ≠ x) :
    acc o.objs (m.field x) (compile o) m (fun _ => 0) := by
  cases o with
  | delete x => cases hd
  | call recv args =>
    refine acc_call _ ?_ ?_ x (fun m' r h => ⟨x, hx, h⟩)
    · intro a ha z hz
      cases recv with
      | none => exact List.mem_flatMap.2 ⟨a, ha, hz⟩
      | some y =>
        simp only [withRecv, List.mem_append, List.mem_singleton] at ha
        rcases ha with ha | rfl
        · exact List.mem_cons_of_mem _ (List.mem_flatMap.2 ⟨a, ha, hz⟩)
        · rw [List.mem_singleton.1 hz]; exact List.mem_cons_self
    · cases recv with
      | none => exact hn
      | some y =>
        have hn' : .null ∉ args := hn
        simpa [withRecv] using hn'
  | new y args =>
    refine acc_call _ ?_ hn x (fun m' r h => ⟨rfl, x, hx, fun e => hnew y args rfl e.symm, h⟩)
    intro a ha z hz
    exact List.mem_cons_of_mem _ (List.mem_flatMap.2 ⟨a, ha, hz⟩)

/-- No native object is lost, also while calls are running. -/
structure Kept (s : St) : Prop where
  /-- a wrapper that was not made yet is empty -/
  made : ∀ x, s.mem.field x ≠ 0 → s.made x = true
  creating : ∀ th ∈ s.threads, ∀ x xs, .create x xs ∈ th.code → s.made x = true
  kept : ∀ a, s.mem.live a →
    (∃ x, (∀ (t : Nat) (th : Thread), s.threads[t]? = some th → x ∉ th.holds) ∧ s.mem.field x = a) ∨
    ∃ (t : Nat) (th : Thread), s.threads[t]? = some th ∧ th.code ≠ [] ∧ ¬ th.waiting ∧ acc th.cur.objs a th.code s.mem th.regs

/-- After an action the object is live: it was live before, or the action has just made it. -/
theorem live_exec {t : Nat} {i : Instr} {c c' : List Instr} {m m' : Mem} {r r' : Regs} (he : exec t i m r c = some (m', r', c'))
    {a : Addr} (h : m'.live a) : m.live a ∨ ∃ x xs, i = .create x xs ∧ a = m.next ∧ m'.field x = a ∧ c' = c := by
  have mono : ∀ b, (m.takeOut b).live a → m.live a := by
    intro b h
    rw [Mem.takeOut, live_destroy] at h
    have := h.1
    unfold Mem.use at this
    split at this
    · exact this
    · exact this
  have muse : ∀ b, (m.use b).live a → m.live a := by
    intro b h
    unfold Mem.use at h
    split at h
    · exact h
    · exact h
  cases i with
  | acquire x =>
    simp only [exec] at he
    split at he
    · simp only [Option.some.injEq, Prod.mk.injEq] at he
      obtain ⟨rfl, rfl, rfl⟩ := he
      exact .inl h
    · cases he
  | create x xs =>
    simp only [exec, Option.some.injEq, Prod.mk.injEq] at he
    obtain ⟨rfl, rfl, rfl⟩ := he
    by_cases hn : a = m.next
    · exact .inr ⟨x, xs, rfl, hn, by simp [upd, hn], rfl⟩
    · refine .inl ⟨h.1, ?_, h.2.2⟩
      exact Nat.lt_of_le_of_ne (Nat.le_of_lt_succ h.2.1) hn
  | take j =>
    simp only [exec, Option.some.injEq, Prod.mk.injEq] at he
    obtain ⟨rfl, rfl, rfl⟩ := he
    split at h
    · exact .inl h
    · exact .inl (mono _ h)
  | takeOpt j =>
    simp only [exec, Option.some.injEq, Prod.mk.injEq] at he
    obtain ⟨rfl, rfl, rfl⟩ := he
    split at h
    · exact .inl h
    · exact .inl (mono _ h)
  | deref j =>
    simp only [exec, Option.some.injEq, Prod.mk.injEq] at he
    obtain ⟨rfl, rfl, rfl⟩ := he
    split at h
    · exact .inl h
    · exact .inl (muse _ h)
  | derefOpt j =>
    simp only [exec, Option.some.injEq, Prod.mk.injEq] at he
    obtain ⟨rfl, rfl, rfl⟩ := he
    split at h
    · exact .inl h
    · exact .inl (muse _ h)
  | _ =>
    simp only [exec, Option.some.injEq, Prod.mk.injEq] at he
    obtain ⟨rfl, rfl, rfl⟩ := he
    exact .inl h

/-- A field changes only to zero, or to the new object of a `create`. -/
theorem field_exec {t : Nat} {i : Instr} {c c' : List Instr} {m m' : Mem} {r r' : Regs} (he : exec t i m r c = some (m', r', c'))
    (x : Obj) : m'.field x = m.field x ∨ m'.field x = 0 ∨ ∃ xs, i = .create x xs := by
  cases i with
  | acquire y =>
    simp only [exec] at he
    split at he
    · simp only [Option.some.injEq, Prod.mk.injEq] at he
      obtain ⟨rfl, rfl, rfl⟩ := he
      exact .inl rfl
    · cases he
  | create y xs =>
    simp only [exec, Option.some.injEq, Prod.mk.injEq] at he
    obtain ⟨rfl, rfl, rfl⟩ := he
    by_cases hn : x = y
    · subst hn; exact .inr (.inr ⟨xs, rfl⟩)
    · exact .inl (upd_other _ _ hn)
  | clear y =>
    simp only [exec, Option.some.injEq, Prod.mk.injEq] at he
    obtain ⟨rfl, rfl, rfl⟩ := he
    by_cases hn : x = y
    · subst hn; exact .inr (.inl (upd_same ..))
    · exact .inl (upd_other _ _ hn)
  | take j =>
    simp only [exec, Option.some.injEq, Prod.mk.injEq] at he
    obtain ⟨rfl, rfl, rfl⟩ := he
    left
    split
    · rfl
    · rw [takeOut_field]
  | takeOpt j =>
    simp only [exec, Option.some.injEq, Prod.mk.injEq] at he
    obtain ⟨rfl, rfl, rfl⟩ := he
    left
    split
    · rfl
    · rw [takeOut_field]
  | deref j =>
    simp only [exec, Option.some.injEq, Prod.mk.injEq] at he
    obtain ⟨rfl, rfl, rfl⟩ := he
    left
    split
    · rfl
    · rw [use_field]
  | derefOpt j =>
    simp only [exec, Option.some.injEq, Prod.mk.injEq] at he
    obtain ⟨rfl, rfl, rfl⟩ := he
    left
    split
    · rfl
    · rw [use_field]
  | _ =>
    simp only [exec, Option.some.injEq, Prod.mk.injEq] at he
    obtain ⟨rfl, rfl, rfl⟩ := he
    exact .inl rfl

theorem create_native {i : Instr} {k : Nat} {b : Bool} (h : Native i k b) (x : Obj) (xs : List Obj) : i ≠ .create x xs := by
  cases h <;> simp

theorem javaArgs_create (x : Obj) (xs : List Obj) : ∀ (l : List Arg) (i : Nat), .create x xs ∉ javaArgs i l
  | [], _, h => by simp [javaArgs] at h
  | a :: l, i, h => by
    rw [javaArgs, List.mem_append] at h
    rcases h with h | h
    · cases a with
      | optValue o => cases o <;> simp [javaArg] at h
      | optRef o => cases o <;> simp [javaArg] at h
      | _ => simp [javaArg] at h
    · exact javaArgs_create x xs l _ h

/-- Only a constructor creates, and it creates its own object. -/
theorem compile_create (o : Op) (x : Obj) (xs : List Obj) (h : .create x xs ∈ compile o) : ∃ args, o = .new x args := by
  have hc : ∀ args, .create x xs ∉ callCode args := by
    intro args h
    simp only [callCode, List.mem_append] at h
    rcases h with h | h | h
    · exact javaArgs_create x xs _ _ h
    · rw [← convEvs_map, List.mem_map] at h
      obtain ⟨e, he, h⟩ := h
      obtain ⟨p, a, _, h'⟩ := mem_convEvs he
      exact create_native (convEv_facts h').2.1 x xs h
    · rw [← bodyEvs_map, List.mem_map] at h
      obtain ⟨e, he, h⟩ := h
      obtain ⟨p, a, _, h'⟩ := mem_bodyEvs he
      exact create_native (bodyEv_facts h').2.1 x xs h
  cases o with
  | delete y => simp [compile, deleteCode] at h
  | call recv args =>
    simp only [compile, List.mem_append, List.mem_singleton] at h
    rcases h with h | h
    · exact absurd h (hc _)
    · cases h
  | new y args =>
    simp only [compile, List.mem_append, List.mem_singleton] at h
    rcases h with h | h
    · exact absurd h (hc _)
    · cases h; exact ⟨args, rfl⟩

theorem kept_start {s : St} (hK : Kept s) {t : Nat} {th : Thread} {o : Op} {rest : List Op} (ht : s.threads[t]? = some th)
    (hc : th.code = []) (hcan : s.canStart o) (hn : .null ∉ o.args) :
    Kept { s with made := markMade s.made o, threads := s.threads.set t ⟨rest, o, compile o, fun _ => 0⟩ } := by
  have hmk : ∀ x, s.made x = true → markMade s.made o x = true := by
    intro x hx
    cases o with
    | new y args => simp only [markMade, upd]; split <;> first | rfl | exact hx
    | _ => exact hx
  refine ⟨fun x hx => hmk x (hK.made x hx), ?_, ?_⟩
  · intro th1 h1 x xs hx
    rcases List.mem_or_eq_of_mem_set h1 with h1 | rfl
    · exact hmk x (hK.creating th1 h1 x xs hx)
    · obtain ⟨args, rfl⟩ := compile_create o x xs hx
      simp [markMade, upd]
  · intro a hl
    rcases hK.kept a hl with ⟨x, hx, rfl⟩ | ⟨t1, th1, h1, hc1, hw1, hacc⟩
    · by_cases hxo : x ∈ Thread.holds ⟨rest, o, compile o, fun _ => 0⟩
      · obtain ⟨h1, h2, h3⟩ := holds_sub hxo
        have hd : o.isDelete = false := by
          cases hd : o.isDelete with
          | false => rfl
          | true => exact absurd ⟨hd, rfl⟩ h2
        refine .inr ⟨t, _, get_set_self ht, h1, h2, acc_start o hd hn x h3 ?_⟩
        rintro y args rfl rfl
        have : s.made y = true := hK.made y hl.1
        have h' : s.made y = false := hcan
        rw [this] at h'; cases h'
      · refine .inl ⟨x, fun t1 th1 h1 => ?_, rfl⟩
        rcases get_set h1 with ⟨rfl, rfl⟩ | ⟨_, k1⟩
        · exact hxo
        · exact hx t1 th1 k1
    · have htt : t1 ≠ t := by
        rintro rfl
        rw [ht, Option.some.injEq] at h1
        subst h1
        exact hc1 hc
      exact .inr ⟨t1, th1, by show (s.threads.set t _)[t1]? = _; rw [get_set_ne htt]; exact h1, hc1, hw1, hacc⟩

theorem kept_gc {s : St} (hK : Kept s) (x : Obj) :
    Kept { s with threads := s.threads ++ [⟨[.delete x], .delete x, [], fun _ => 0⟩] } := by
  refine ⟨hK.made, ?_, ?_⟩
  · intro th1 h1 y ys hy
    rcases List.mem_append.1 h1 with h1 | h1
    · exact hK.creating th1 h1 y ys hy
    · rw [List.mem_singleton.1 h1] at hy; cases hy
  · intro a hl
    rcases hK.kept a hl with ⟨y, hy, e⟩ | ⟨t1, th1, h1, hc1, hw1, hacc⟩
    · refine .inl ⟨y, fun t1 th1 h1 => ?_, e⟩
      rcases get_append h1 with h1 | rfl
      · exact hy t1 th1 h1
      · rw [holds_idle rfl]; simp
    · refine .inr ⟨t1, th1, ?_, hc1, hw1, hacc⟩
      have := (List.getElem?_eq_some_iff.1 h1).1
      show (s.threads ++ [_])[t1]? = _
      rw [List.getElem?_append_left this]; exact h1

theorem kept_exec {s : St} (hI : Inv s) (hK : Kept s) {t : Nat} {th : Thread} {i : Instr} {c c' : List Instr} {m' : Mem} {r' : Regs}
    (ha : s.mem.aborted = false) (ht : s.threads[t]? = some th) (hc : th.code = i :: c)
    (he : exec t i s.mem th.regs c = some (m', r', c')) :
    Kept { s with mem := m', threads := s.threads.set t { th with code := c', regs := r' } } := by
  have hcn : th.code ≠ [] := by rw [hc]; simp
  have hmem : th ∈ s.threads := List.mem_of_getElem? ht
  have hmade : ∀ x, m'.field x ≠ 0 → s.made x = true := by
    intro x hx
    rcases field_exec he x with h | h | ⟨xs, h⟩
    · exact hK.made x (by rw [← h]; exact hx)
    · exact absurd h hx
    · exact hK.creating th hmem x xs (by rw [hc, h]; exact List.mem_cons_self)
  have hcr : ∀ th1 ∈ s.threads.set t { th with code := c', regs := r' }, ∀ x xs, .create x xs ∈ th1.code → s.made x = true := by
    intro th1 h1 x xs hx
    rcases List.mem_or_eq_of_mem_set h1 with h1 | rfl
    · exact hK.creating th1 h1 x xs hx
    · rcases exec_code he with h | h | ⟨y, _, h⟩
      · refine hK.creating th hmem x xs ?_
        rw [hc]; exact List.mem_cons_of_mem _ (h ▸ hx)
      · rw [show ({ th with code := c', regs := r' } : Thread).code = c' from rfl, h] at hx; cases hx
      · rw [show ({ th with code := c', regs := r' } : Thread).code = c' from rfl, h] at hx; simp at hx
  refine ⟨hmade, hcr, ?_⟩
  by_cases hw : th.waiting
  · -- entering the synchronized part of `delete()`
    obtain ⟨y, hy⟩ := delete_of_isDelete hw.1
    have hcode := hw.2
    rw [hy, hc] at hcode
    simp only [compile, deleteCode, List.cons.injEq] at hcode
    obtain ⟨rfl, rfl⟩ := hcode
    simp only [exec] at he
    split at he
    · rename_i hl0
      simp only [Option.some.injEq, Prod.mk.injEq] at he
      obtain ⟨rfl, rfl, rfl⟩ := he
      have hnw : ¬ Thread.waiting { th with code := [.ifSet y, .load 0 y, .take 0, .clear y, .release y], regs := th.regs } := by
        simp [Thread.waiting, hy, compile, deleteCode]
      intro a hl
      rcases hK.kept a hl with ⟨x, hx, rfl⟩ | ⟨t1, th1, h1, hc1, hw1, hacc⟩
      · by_cases hxy : x = y
        · subst hxy
          refine .inr ⟨t, _, get_set_self ht, by simp, hnw, ?_⟩
          rw [hy]
          refine ⟨List.mem_singleton.2 rfl, ?_⟩
          show if s.mem.field x = 0 then _ else _
          rw [if_neg hl.1]
          exact ⟨List.mem_singleton.2 rfl, .inl (upd_same ..)⟩
        · refine .inl ⟨x, fun t1 th1 h1 => ?_, rfl⟩
          rcases get_set h1 with ⟨rfl, rfl⟩ | ⟨_, k1⟩
          · rw [holds_eq (by simp) hnw]
            show x ∉ th.cur.objs
            rw [hy]
            exact fun h => hxy (List.mem_singleton.1 h)
          · exact hx t1 th1 k1
      · have htt : t1 ≠ t := by
          rintro rfl
          rw [ht, Option.some.injEq] at h1
          subst h1
          exact hw1 hw
        exact .inr ⟨t1, th1, by show (s.threads.set t _)[t1]? = _; rw [get_set_ne htt]; exact h1, hc1, hw1,
          acc_frame _ (m := s.mem) (fun _ _ => rfl) hacc⟩
    · cases he
  · have hwp := hI.wps t th ht hcn hw
    rw [hc] at hwp
    have hE := (exec_wp hwp he hI.fresh hI.pos hI.fieldLt ha).1
    obtain ⟨hsh, hnw, _⟩ := shape_exec (hI.shape t th ht hcn) hw hc he
    have hW : th.holds = th.cur.objs := holds_eq hcn hw
    have hholds : ∀ x, x ∈ Thread.holds { th with code := c', regs := r' } → x ∈ th.holds := by
      intro x hx
      rw [hW]; exact (holds_sub hx).2.2
    -- when the operation ends, its wrappers are free
    have hend : ∀ a, acc th.cur.objs a c' m' r' →
        (∃ x, (∀ (t1 : Nat) (th1 : Thread), (s.threads.set t { th with code := c', regs := r' })[t1]? = some th1 → x ∉ th1.holds) ∧
          m'.field x = a) ∨
        ∃ (t1 : Nat) (th1 : Thread), (s.threads.set t { th with code := c', regs := r' })[t1]? = some th1 ∧ th1.code ≠ [] ∧ ¬ th1.waiting ∧
          acc th1.cur.objs a th1.code m' th1.regs := by
      intro a hacc
      by_cases hc0 : c' = []
      · subst hc0
        obtain ⟨y, hy, e⟩ := hacc
        refine .inl ⟨y, fun t1 th1 h1 => ?_, e⟩
        rcases get_set h1 with ⟨rfl, rfl⟩ | ⟨hne, k1⟩
        · rw [holds_idle rfl]; simp
        · exact hI.disjoint (fun h => hne h.symm) ht k1 (by rw [hW]; exact hy)
      · exact .inr ⟨t, _, get_set_self ht, hc0, hnw, hacc⟩
    intro a hl
    rcases live_exec he hl with hl' | ⟨x, xs, rfl, hax, hfx, hcc⟩
    · rcases hK.kept a hl' with ⟨x, hx, rfl⟩ | ⟨t1, th1, h1, hc1, hw1, hacc⟩
      · refine .inl ⟨x, fun t1 th1 h1 => ?_, ?_⟩
        · rcases get_set h1 with ⟨rfl, rfl⟩ | ⟨_, k1⟩
          · exact fun h => hx t1 th ht (hholds x h)
          · exact hx t1 th1 k1
        · exact hE.other x fun h => hx t th ht (by rw [hW]; exact h)
      · by_cases htt : t1 = t
        · subst htt
          rw [ht, Option.some.injEq] at h1
          subst h1
          rw [hc] at hacc
          rcases acc_exec hacc hl.1 he with hd | hacc'
          · exact absurd hl.2.2 hd
          · exact hend a hacc'
        · refine .inr ⟨t1, th1, by show (s.threads.set t _)[t1]? = _; rw [get_set_ne htt]; exact h1, hc1, hw1,
            acc_frame _ (fun y hy => ?_) hacc⟩
          refine hE.other y fun h => ?_
          exact hI.disjoint (fun h => htt h.symm) ht h1 (by rw [hW]; exact h) (by rw [holds_eq hc1 hw1]; exact hy)
    · have hc0 : c = [] := hwp.1
      refine hend a ?_
      rw [hcc, hc0]
      exact ⟨x, hwp.2.1, hfx⟩

theorem kept_step {s s' : St} {l : Label} (hg : Good s) (h : Kept s) (hs : Step s l s') (hk : Careful s l) : Kept s' := by
  cases hs with
  | start t th o rest ha hth hc htodo hcan => exact kept_start h hth hc hcan hk.2
  | exec t th i c m r c' ha hth hc he => exact kept_exec (hg.inv ha) h ha hth hc he
  | gc x ha hm hr => exact kept_gc h x

/-- **C35**: no native object is lost: if calls on one wrapper do not overlap (calls of `delete()` may), no call lends an object before
giving it away, no wrapper argument is `null` and no native code panicked, then whenever all threads are between two operations every
native object that is not destroyed belongs to exactly one wrapper, so that a later `delete()` or finaliser can destroy it; for every
program, number of threads, schedule and behaviour of the garbage collector. -/
theorem C35_no_leak {s s' : St} (h : Initial s) (hleak : NoLeak s.mem) (hmade : ∀ x, s.mem.field x ≠ 0 → s.made x = true)
    (hr : Run Careful s s') (hidle : ∀ th ∈ s'.threads, th.code = []) (ha : s'.mem.aborted = false) :
    ∀ a, s'.mem.live a → ∃ x, s'.mem.field x = a ∧ ∀ y, s'.mem.field y = a → y = x := by
  have : Good s' ∧ Kept s' := by
    clear hidle ha
    induction hr with
    | refl =>
      refine ⟨good_init h, hmade, ?_, ?_⟩
      · intro th hth x xs hx
        rw [h.idle th hth] at hx; cases hx
      · intro a hl
        obtain ⟨x, hx⟩ := hleak a hl
        refine .inl ⟨x, fun t th ht => ?_, hx⟩
        rw [holds_idle (h.idle th (List.mem_of_getElem? ht))]; simp
    | tail _ hs ho ih => exact ⟨good_step ih.1 hs ho.1, kept_step ih.1 ih.2 hs ho⟩
  obtain ⟨hg, hK⟩ := this
  intro a hl
  rcases hK.kept a hl with ⟨x, _, hx⟩ | ⟨t, th, ht, hc, _⟩
  · exact ⟨x, hx, fun y hy => (hg.inv ha).inj y x (by rw [hy]; exact hl.1) (by rw [hx, hy])⟩
  · exact absurd (hidle th (List.mem_of_getElem? ht)) hc

/-- **C35**: hence, once every wrapper is empty (deleted, finalised or given away), each native object has been destroyed exactly once. -/
theorem C35_all_destroyed {s s' : St} (h : Initial s) (hleak : NoLeak s.mem) (hmade : ∀ x, s.mem.field x ≠ 0 → s.made x = true)
    (hr : Run Careful s s') (hidle : ∀ th ∈ s'.threads, th.code = []) (ha : s'.mem.aborted = false)
    (hempty : ∀ x, s'.mem.field x = 0) : ∀ a, 1 ≤ a → a < s'.mem.next → s'.mem.destroyed a = 1 := by
  intro a h1 h2
  have hle : s'.mem.destroyed a ≤ 1 := by
    have : Run Tame s s' := by
      clear hidle ha hempty h2
      induction hr with
      | refl => exact .refl _
      | tail _ hs ho ih => exact .tail ih hs ho.1
    exact (C35_safe h this).2 a
  by_cases h0 : s'.mem.destroyed a = 0
  · obtain ⟨x, hx, _⟩ := C35_no_leak h hleak hmade hr hidle ha a ⟨Nat.ne_of_gt h1, h2, h0⟩
    rw [hempty x] at hx
    exact absurd hx.symm (Nat.ne_of_gt h1)
  · omega

/-- **C35**: in particular a single thread whose calls get no `null` and lend no object before giving it away loses nothing. -/
theorem C35_single_thread_no_leak {s s' : St} {th : Thread} (h : Initial s) (h1 : s.threads = [th])
    (h2 : ∀ o ∈ th.todo, o.NoLendThenGive ∧ .null ∉ o.args) (hleak : NoLeak s.mem)
    (hmade : ∀ x, s.mem.field x ≠ 0 → s.made x = true) (hr : Run NoGc s s') (hidle : ∀ th ∈ s'.threads, th.code = [])
    (ha : s'.mem.aborted = false) : ∀ a, s'.mem.live a → ∃ x, s'.mem.field x = a ∧ ∀ y, s'.mem.field y = a → y = x := by
  have key : Run Careful s s' ∧ Solo s' ∧ ∀ th ∈ s'.threads, ∀ o ∈ th.todo, .null ∉ o.args := by
    clear hidle ha
    induction hr with
    | refl =>
      refine ⟨.refl _, ⟨th, h1, fun o ho => (h2 o ho).1⟩, fun th' ht' o ho => ?_⟩
      rw [h1, List.mem_singleton] at ht'
      subst ht'
      exact (h2 o ho).2
    | tail _ hs ho ih =>
      obtain ⟨hrun, hso, hnull⟩ := ih
      obtain ⟨ht, hso'⟩ := solo_tame hso hs ho
      cases hs with
      | start t th1 o rest ha hth hc htodo hcan =>
        have hmem := List.mem_of_getElem? hth
        refine ⟨.tail hrun (.start _ t th1 o rest ha hth hc htodo hcan) ⟨ht, hnull th1 hmem o (by rw [htodo]; exact List.mem_cons_self)⟩,
          hso', fun th2 h2 o' ho' => ?_⟩
        rcases List.mem_or_eq_of_mem_set h2 with h2 | rfl
        · exact hnull th2 h2 o' ho'
        · exact hnull th1 hmem o' (by rw [htodo]; exact List.mem_cons_of_mem _ ho')
      | exec t th1 i c m r c' ha hth hc he =>
        refine ⟨.tail hrun (.exec _ t th1 i c m r c' ha hth hc he) ⟨trivial, trivial⟩, hso', fun th2 h2 o' ho' => ?_⟩
        rcases List.mem_or_eq_of_mem_set h2 with h2 | rfl
        · exact hnull th2 h2 o' ho'
        · exact hnull th1 (List.mem_of_getElem? hth) o' ho'
      | gc x => exact ho.elim
  exact C35_no_leak h hleak hmade key.1 hidle ha

/-! ## The hypotheses are met -/

example (progs : List (List Op)) : NoLeak (start2 progs).mem ∧ ∀ x, (start2 progs).mem.field x ≠ 0 → (start2 progs).made x = true := by
  constructor
  · intro a hl
    have h1 : a ≠ 0 := hl.1
    have h2 : a < 3 := hl.2.1
    by_cases h : a = 1
    · exact ⟨0, h.symm⟩
    · refine ⟨1, ?_⟩
      show (2 : Nat) = a
      have : ∀ n : Nat, n ≠ 0 → n < 3 → n ≠ 1 → 2 = n := by omega
      exact this a h1 h2 h
  · intro x hx
    show (x == 0 || x == 1) = true
    by_cases h0 : x = 0
    · simp [h0]
    · by_cases h1 : x = 1
      · simp [h1]
      · exact absurd (by simp [start2, h0, h1]) hx

example : ∀ o ∈ demo, .null ∉ o.args := by decide

/-- The single-thread demo (checked above to lend nothing before giving it away): all operations done, nothing panicked and all
wrappers are empty. -/
example : (runB (start2 [demo]) (th 38 0)).map (fun s => ([0, 1, 5].map s.mem.field, s.mem.aborted, s.threads.map (fun t => (t.code, t.todo))))
    = some ([0, 0, 0], false, [([], [])]) := by decide

end Flapi.JavaLife
