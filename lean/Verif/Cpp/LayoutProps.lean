import Verif.Cpp.Layout
/-!
# C72 – a passing layout test means that C and Rust agree on the structure
-/
namespace Flapi.Layout
variable {Ty CTy : Type}

/-! ## Specification: the layout a C compiler gives a structure or union -/

/-- `o` is the least multiple of `a` not below `n`. -/
def LeastMultiple (n a o : Nat) : Prop := a ∣ o ∧ n ≤ o ∧ ∀ k, a ∣ k → n ≤ k → o ≤ k

/-- Members of a C structure from position `cur` on, at the offsets `offs`, ending at `stop`: each at the first
suitably aligned offset after the end of the previous one. -/
def CPlaced (ctl : CTy → TL) : Nat → List (Text × CTy) → List Nat → Nat → Prop
  | cur, [], [], stop => stop = cur
  | cur, (_, t) :: l, o :: os, stop => LeastMultiple cur (ctl t).align o ∧ CPlaced ctl (o + (ctl t).size) l os stop
  | _, _, _, _ => False

/-- `m` is the largest element of `l`, at least `b`. -/
def Largest (b : Nat) (l : List Nat) (m : Nat) : Prop := (m = b ∨ m ∈ l) ∧ b ≤ m ∧ ∀ x ∈ l, x ≤ m

/-- Size, alignment and member offsets in C. -/
def CLayout (ctl : CTy → TL) (kind : Kind) (fields : List (Text × CTy)) (size align : Nat) (offs : List Nat) : Prop :=
  Largest 1 (fields.map fun f => (ctl f.2).align) align ∧
  match kind with
  | .struct => ∃ stop, CPlaced ctl 0 fields offs stop ∧ LeastMultiple stop align size
  | .union => offs = fields.map (fun _ => 0) ∧
    ∃ m, Largest 0 (fields.map fun f => (ctl f.2).size) m ∧ LeastMultiple m align size

/-! ## Helper lemmas -/

theorem roundUp_least (n a : Nat) (ha : 0 < a) : LeastMultiple n a (roundUp n a) := by
  unfold roundUp
  have hm := Nat.mod_lt n ha
  by_cases h : n % a = 0
  · rw [if_pos h]
    exact ⟨Nat.dvd_of_mod_eq_zero h, Nat.le_refl _, fun k _ hk => hk⟩
  · rw [if_neg h]
    have e : n + (a - n % a) = a * (n / a + 1) := by
      have := Nat.div_add_mod n a
      rw [Nat.mul_add, Nat.mul_one]; omega
    refine ⟨e ▸ Nat.dvd_mul_right a _, by omega, ?_⟩
    rintro k ⟨q, rfl⟩ hk
    rw [e]
    apply Nat.mul_le_mul_left
    have hd := Nat.div_add_mod n a
    rcases Nat.lt_or_ge (n / a) q with h' | h'
    · exact h'
    · have : a * q ≤ a * (n / a) := Nat.mul_le_mul_left a h'
      omega

theorem least_unique {n a o o' : Nat} (h : LeastMultiple n a o) (h' : LeastMultiple n a o') : o = o' :=
  Nat.le_antisymm (h.2.2 _ h'.1 h'.2.1) (h'.2.2 _ h.1 h.2.1)

theorem largest_unique {b m m' : Nat} {l : List Nat} (h : Largest b l m) (h' : Largest b l m') : m = m' := by
  obtain ⟨h1, h2, h3⟩ := h
  obtain ⟨g1, g2, g3⟩ := h'
  apply Nat.le_antisymm
  · rcases h1 with rfl | h1
    · exact g2
    · exact g3 _ h1
  · rcases g1 with rfl | g1
    · exact h2
    · exact h3 _ g1

theorem foldl_max_largest (f : Text × Ty → Nat) (l : List (Text × Ty)) : ∀ b,
    Largest b (l.map f) (l.foldl (fun a x => max a (f x)) b) := by
  induction l with
  | nil => intro b; exact ⟨.inl rfl, Nat.le_refl _, by simp⟩
  | cons x l ih =>
    intro b
    obtain ⟨h1, h2, h3⟩ := ih (max b (f x))
    simp only [List.foldl_cons, List.map_cons]
    refine ⟨?_, by omega, ?_⟩
    · rcases h1 with h1 | h1
      · rw [h1]
        rcases Nat.le_total b (f x) with h | h
        · right; rw [Nat.max_eq_right h]; simp
        · left; exact Nat.max_eq_left h
      · right; exact List.mem_cons_of_mem _ h1
    · intro y hy
      rcases List.mem_cons.1 hy with rfl | hy
      · omega
      · exact h3 y hy

theorem headerFields_rel (cty : Ty → Option CTy) (tl : Ty → TL) (ctl : CTy → TL)
    (hrep : ∀ t c, cty t = some c → ctl c = tl t) : ∀ (l : List (Text × Ty)) (h : List (Text × CTy)),
    headerFields cty l = some h →
    h.map (·.1) = l.map (·.1) ∧ h.map (fun f => ctl f.2) = l.map (fun f => tl f.2) := by
  intro l
  induction l with
  | nil => intro h hh; simp [headerFields] at hh; simp [hh]
  | cons x l ih =>
    intro h hh
    obtain ⟨n, t⟩ := x
    unfold headerFields at hh
    cases hc : cty t with
    | none => simp [hc] at hh
    | some c =>
      cases hr : headerFields cty l with
      | none => simp [hc, hr] at hh
      | some r =>
        simp only [hc, hr, Option.some.injEq] at hh
        subst hh
        obtain ⟨a, b⟩ := ih r hr
        simp [a, b, hrep t c hc]

theorem place_offsets (tl : Ty → TL) (ctl : CTy → TL) (hpos : ∀ t, 0 < (tl t).align) :
    ∀ (l : List (Text × Ty)) (h : List (Text × CTy)) (cur stop : Nat) (offs : List Nat),
    h.map (fun f => ctl f.2) = l.map (fun f => tl f.2) → CPlaced ctl cur h offs stop →
    (place tl cur l).map (·.2.2) = offs ∧ placeEnd tl cur l = stop := by
  intro l
  induction l with
  | nil =>
    intro h cur stop offs hm hp
    cases h with
    | cons y h => simp at hm
    | nil =>
      cases offs with
      | nil => exact ⟨rfl, hp.symm⟩
      | cons o os => exact hp.elim
  | cons x l ih =>
    intro h cur stop offs hm hp
    obtain ⟨n, t⟩ := x
    cases h with
    | nil => simp at hm
    | cons y h =>
      obtain ⟨n', c⟩ := y
      simp only [List.map_cons, List.cons.injEq] at hm
      obtain ⟨hc, hm⟩ := hm
      cases offs with
      | nil => exact hp.elim
      | cons o os =>
        obtain ⟨hl, hr⟩ := hp
        rw [hc] at hl hr
        have ho : o = roundUp cur (tl t).align := least_unique hl (roundUp_least _ _ (hpos t))
        subst ho
        obtain ⟨a, b⟩ := ih h _ _ _ hm hr
        exact ⟨by simp [place, a], by simp only [placeEnd]; exact b⟩

theorem place_fields (tl : Ty → TL) : ∀ (l : List (Text × Ty)) (cur : Nat),
    (place tl cur l).map (fun f => (f.1, f.2.1)) = l := by
  intro l
  induction l with
  | nil => intro cur; rfl
  | cons x l ih => intro cur; obtain ⟨n, t⟩ := x; simp [place, ih]

theorem fieldChecks_mem (l : List (Text × Ty)) (n : Text) (t : Ty) (h : (n, t) ∈ l) :
    Check.fieldType n t ∈ fieldChecks l ∧ Check.sameOffset n ∈ fieldChecks l := by
  induction l with
  | nil => simp at h
  | cons x l ih =>
    obtain ⟨m, u⟩ := x
    rcases List.mem_cons.1 h with h | h
    · cases h; simp [fieldChecks]
    · simp [fieldChecks, ih h]

theorem reprC_fields (tl : Ty → TL) (d : Decl Ty) : (reprC tl d).fields.map (fun f => (f.1, f.2.1)) = d.fields := by
  unfold reprC
  cases d.kind with
  | struct => exact place_fields tl _ _
  | union => simp only [List.map_map]; exact List.map_id' _ |>.symm ▸ (by simp [Function.comp_def])

theorem field_of_nodup (u : UserTy Ty) (hn : (u.fields.map (·.1)).Nodup) (i : Nat) (x : Text × Ty × Nat)
    (h : u.fields[i]? = some x) : u.field x.1 = some x.2 := by
  unfold UserTy.field
  have hmem : x ∈ u.fields := List.mem_of_getElem? h
  revert hmem hn
  generalize u.fields = l
  intro hn hmem
  induction l with
  | nil => simp at hmem
  | cons y l ih =>
    rw [List.map_cons, List.nodup_cons] at hn
    rcases List.mem_cons.1 hmem with rfl | hmem
    · simp
    · have hne : y.1 ≠ x.1 := fun he => hn.1 (he ▸ List.mem_map_of_mem (f := Prod.fst) hmem)
      rw [List.find?_cons]
      simp only [hne, decide_false]
      exact ih hn.2 hmem

/-- The header and the `#[repr(C)]` copy agree. -/
theorem reprC_agrees (tl : Ty → TL) (ctl : CTy → TL) (cty : Ty → Option CTy) (d : Decl Ty) (h : List (Text × CTy))
    (hh : headerFields cty d.fields = some h) (hrep : ∀ t c, cty t = some c → ctl c = tl t) (hpos : ∀ t, 0 < (tl t).align)
    (size align : Nat) (offs : List Nat) (hc : CLayout ctl d.kind h size align offs) :
    (reprC tl d).size = size ∧ (reprC tl d).align = align ∧ (reprC tl d).fields.map (·.2.2) = offs := by
  obtain ⟨_, hm⟩ := headerFields_rel cty tl ctl hrep _ _ hh
  obtain ⟨ha, hk⟩ := hc
  have hA : alignOf tl d.fields = align := by
    have e : h.map (fun f => (ctl f.2).align) = d.fields.map fun f => (tl f.2).align := by
      have := congrArg (List.map TL.align) hm
      simpa [Function.comp_def] using this
    rw [e] at ha
    exact largest_unique (foldl_max_largest (fun f => (tl f.2).align) d.fields 1) ha
  have hpa : 0 < align := ha.2.1
  unfold reprC
  cases hkind : d.kind with
  | struct =>
    rw [hkind] at hk
    obtain ⟨stop, hp, hl⟩ := hk
    obtain ⟨a, b⟩ := place_offsets tl ctl hpos _ _ _ _ _ hm hp
    refine ⟨?_, hA, a⟩
    simp only
    rw [hA, b]
    exact least_unique (roundUp_least _ _ hpa) hl
  | union =>
    rw [hkind] at hk
    obtain ⟨ho, m, hmx, hl⟩ := hk
    have hM : maxSize tl d.fields = m := by
      have e : h.map (fun f => (ctl f.2).size) = d.fields.map fun f => (tl f.2).size := by
        have := congrArg (List.map TL.size) hm
        simpa [Function.comp_def] using this
      rw [e] at hmx
      exact largest_unique (foldl_max_largest (fun f => (tl f.2).size) d.fields 0) hmx
    refine ⟨?_, hA, ?_⟩
    · simp only
      rw [hA, hM]
      exact least_unique (roundUp_least _ _ hpa) hl
    · rw [ho]
      have hlen : d.fields.length = h.length := by
        have := congrArg List.length hm; simpa using this.symm
      apply List.ext_getElem
      · simp [hlen]
      · intro i h1 h2; simp

/-! ## Theorems -/

/-- **C72 (a passing test is enough).** Let the header be accepted, let every C type chosen for a member have the size
and alignment of its Rust type, and let `size`, `align`, `offs` be the layout a C compiler gives the structure (or
union) in the header.  If the generated test passes for the user's Rust type – whatever else that type contains – then
the user's type has the same size and alignment, and every declared member exists in it, with the declared type and at
the offset it has in C. -/
theorem C72_test_implies_agreement [DecidableEq Ty] (tl : Ty → TL) (ctl : CTy → TL) (cty : Ty → Option CTy) (d : Decl Ty)
    (h : List (Text × CTy)) (hh : headerFields cty d.fields = some h) (hrep : ∀ t c, cty t = some c → ctl c = tl t)
    (hpos : ∀ t, 0 < (tl t).align) (hnames : (d.fields.map (·.1)).Nodup) (size align : Nat) (offs : List Nat)
    (hc : CLayout ctl d.kind h size align offs) (user : UserTy Ty) (hp : testPasses tl d user = true) :
    user.size = size ∧ user.align = align ∧
    ∀ (i : Nat) n t o, d.fields[i]? = some (n, t) → offs[i]? = some o → user.field n = some (t, o) := by
  obtain ⟨e1, e2, e3⟩ := reprC_agrees tl ctl cty d h hh hrep hpos size align offs hc
  unfold testPasses layoutTest at hp
  rw [List.all_eq_true] at hp
  have p1 := hp .sameSize (by simp)
  have p2 := hp .sameAlign (by simp)
  simp only [Check.passes, decide_eq_true_eq] at p1 p2
  refine ⟨by omega, by omega, ?_⟩
  intro i n t o hi ho
  have hmem : (n, t) ∈ d.fields := List.mem_of_getElem? hi
  obtain ⟨m1, m2⟩ := fieldChecks_mem _ _ _ hmem
  have p3 := hp _ (List.mem_cons_of_mem _ (List.mem_cons_of_mem _ m1))
  have p4 := hp _ (List.mem_cons_of_mem _ (List.mem_cons_of_mem _ m2))
  have hF := reprC_fields tl d
  have hnd : ((reprC tl d).fields.map (·.1)).Nodup := by
    have := congrArg (List.map Prod.fst) hF
    rw [List.map_map] at this
    have e : (Prod.fst ∘ fun f : Text × Ty × Nat => (f.1, f.2.1)) = (fun f => f.1) := rfl
    rw [e] at this
    rw [this]; exact hnames
  have hour : (reprC tl d).fields[i]? = some (n, t, o) := by
    have a1 : ((reprC tl d).fields.map (fun f => (f.1, f.2.1)))[i]? = some (n, t) := by rw [hF]; exact hi
    have a2 : ((reprC tl d).fields.map (·.2.2))[i]? = some o := by rw [e3]; exact ho
    rw [List.getElem?_map] at a1 a2
    cases hx : (reprC tl d).fields[i]? with
    | none => simp [hx] at a1
    | some x =>
      obtain ⟨a, b, c⟩ := x
      simp [hx] at a1 a2
      simp [a1, a2]
  have hfo := field_of_nodup _ hnd i _ hour
  simp only at hfo
  simp only [Check.passes] at p3 p4
  cases hu : user.field n with
  | none => simp [hu] at p3
  | some x =>
    obtain ⟨t', o'⟩ := x
    simp only [hu, hfo, decide_eq_true_eq] at p3 p4
    rw [p3, p4]

/-- **C72 (no false alarms).** If the user's type is itself laid out as the `#[repr(C)]` declaration says, the test
passes. -/
theorem C72_no_false_alarm [DecidableEq Ty] (tl : Ty → TL) (d : Decl Ty) (hnames : (d.fields.map (·.1)).Nodup) :
    testPasses tl d (reprC tl d) = true := by
  have hF := reprC_fields tl d
  have hnd : ((reprC tl d).fields.map (·.1)).Nodup := by
    have := congrArg (List.map Prod.fst) hF
    rw [List.map_map] at this
    have e : (Prod.fst ∘ fun f : Text × Ty × Nat => (f.1, f.2.1)) = (fun f => f.1) := rfl
    rw [e] at this
    rw [this]; exact hnames
  have hall : ∀ (l : List (Text × Ty)), (∀ x ∈ l, x ∈ d.fields) →
      (fieldChecks l).all (Check.passes (reprC tl d) (reprC tl d)) = true := by
    intro l
    induction l with
    | nil => intro _; rfl
    | cons x l ih =>
      intro hl
      obtain ⟨n, t⟩ := x
      have hm : (n, t) ∈ (reprC tl d).fields.map (fun f => (f.1, f.2.1)) := by rw [hF]; exact hl _ (by simp)
      obtain ⟨y, hy, he⟩ := List.mem_map.1 hm
      obtain ⟨i, hi, hyi⟩ := List.getElem_of_mem hy
      have hfo := field_of_nodup _ hnd i y (by rw [List.getElem?_eq_getElem hi, hyi])
      simp only [Prod.mk.injEq] at he
      rw [he.1] at hfo
      simp only [fieldChecks, List.all_cons, ih (fun z hz => hl z (List.mem_cons_of_mem _ hz)), Bool.and_true]
      simp [Check.passes, hfo, he.2]
  unfold testPasses layoutTest
  simp only [List.all_cons, hall d.fields (fun _ h => h), Bool.and_true]
  simp [Check.passes]

theorem cplaced_bounds (ctl : CTy → TL) : ∀ (h : List (Text × CTy)) (cur : Nat) (offs : List Nat) (stop : Nat),
    CPlaced ctl cur h offs stop →
    cur ≤ stop ∧
    (∀ (i : Nat) f o, h[i]? = some f → offs[i]? = some o → cur ≤ o ∧ o + (ctl f.2).size ≤ stop ∧ (ctl f.2).align ∣ o) ∧
    ∀ (i j : Nat) f g o p, i < j → h[i]? = some f → h[j]? = some g → offs[i]? = some o → offs[j]? = some p →
      o + (ctl f.2).size ≤ p := by
  intro h
  induction h with
  | nil =>
    intro cur offs stop hp
    cases offs with
    | nil => exact ⟨Nat.le_of_eq hp.symm, by simp, by simp⟩
    | cons o os => exact hp.elim
  | cons x h ih =>
    intro cur offs stop hp
    obtain ⟨n, t⟩ := x
    cases offs with
    | nil => exact hp.elim
    | cons o os =>
      obtain ⟨hl, hr⟩ := hp
      obtain ⟨i1, i2, i3⟩ := ih _ _ _ hr
      have hco := hl.2.1
      refine ⟨by omega, ?_, ?_⟩
      · intro i f o' hf ho'
        cases i with
        | zero =>
          simp at hf ho'; subst hf; subst ho'
          exact ⟨hco, i1, hl.1⟩
        | succ i =>
          have := i2 i f o' hf ho'
          exact ⟨by omega, this.2.1, this.2.2⟩
      · intro i j f g a b hij hf hg ha hb
        cases j with
        | zero => omega
        | succ j =>
          cases i with
          | zero =>
            simp at hf ha; subst hf; subst ha
            exact (i2 j g b hg hb).1
          | succ i => exact i3 i j f g a b (by omega) hf hg ha hb

/-- **C72 (members do not overlap).** In a structure that passes the test the declared members lie inside the user's
type, are suitably aligned, and no two of them overlap. -/
theorem C72_members_disjoint [DecidableEq Ty] (tl : Ty → TL) (ctl : CTy → TL) (cty : Ty → Option CTy) (d : Decl Ty)
    (h : List (Text × CTy)) (hh : headerFields cty d.fields = some h) (hrep : ∀ t c, cty t = some c → ctl c = tl t)
    (hpos : ∀ t, 0 < (tl t).align) (hnames : (d.fields.map (·.1)).Nodup) (hs : d.kind = .struct) (size align : Nat)
    (offs : List Nat) (hc : CLayout ctl d.kind h size align offs) (user : UserTy Ty) (hp : testPasses tl d user = true) :
    (∀ n t, (n, t) ∈ d.fields → ∃ o, user.field n = some (t, o) ∧ (tl t).align ∣ o ∧ o + (tl t).size ≤ user.size) ∧
    (∀ n n' t t' o o', (n, t) ∈ d.fields → (n', t') ∈ d.fields → n ≠ n' → user.field n = some (t, o) →
      user.field n' = some (t', o') → o + (tl t).size ≤ o' ∨ o' + (tl t').size ≤ o) := by
  have hag := C72_test_implies_agreement tl ctl cty d h hh hrep hpos hnames size align offs hc user hp
  obtain ⟨hn, hm⟩ := headerFields_rel cty tl ctl hrep _ _ hh
  obtain ⟨e1, e2, e3⟩ := reprC_agrees tl ctl cty d h hh hrep hpos size align offs hc
  have hF := reprC_fields tl d
  have hlen : offs.length = d.fields.length := by
    rw [← e3, ← hF]; simp
  have hlenh : h.length = d.fields.length := by
    have := congrArg List.length hn; simpa using this
  obtain ⟨ha, hk⟩ := hc
  rw [hs] at hk
  obtain ⟨stop, hpl, hl⟩ := hk
  obtain ⟨b1, b2, b3⟩ := cplaced_bounds ctl h 0 offs stop hpl
  have hidx : ∀ n t, (n, t) ∈ d.fields → ∃ (i : Nat) (g : Text × CTy) (o : Nat), d.fields[i]? = some (n, t) ∧ h[i]? = some g ∧
      offs[i]? = some o ∧ ctl g.2 = tl t := by
    intro n t hmem
    obtain ⟨i, hi, hx⟩ := List.getElem_of_mem hmem
    have hi' : i < h.length := by omega
    have hi'' : i < offs.length := by omega
    refine ⟨i, h[i], offs[i], by rw [List.getElem?_eq_getElem hi, hx], List.getElem?_eq_getElem hi',
      List.getElem?_eq_getElem hi'', ?_⟩
    have := congrArg (fun l => l[i]?) hm
    simp only [List.getElem?_map, List.getElem?_eq_getElem hi, List.getElem?_eq_getElem hi', Option.map_some,
      Option.some.injEq] at this
    rw [this, hx]
  constructor
  · intro n t hmem
    obtain ⟨i, g, o, hi, hg, ho, ht⟩ := hidx n t hmem
    have := b2 i g o hg ho
    rw [ht] at this
    refine ⟨o, hag.2.2 i n t o hi ho, this.2.2, ?_⟩
    have := hl.2.1
    have := hag.1
    omega
  · intro n n' t t' o o' hmem hmem' hne hu hu'
    obtain ⟨i, g, p, hi, hg, ho, ht⟩ := hidx n t hmem
    obtain ⟨j, g', p', hj, hg', ho', ht'⟩ := hidx n' t' hmem'
    have q1 := hag.2.2 i n t p hi ho
    have q2 := hag.2.2 j n' t' p' hj ho'
    rw [hu] at q1; rw [hu'] at q2
    simp only [Option.some.injEq, Prod.mk.injEq, true_and] at q1 q2
    subst q1; subst q2
    rcases Nat.lt_trichotomy i j with hij | hij | hij
    · left; have := b3 i j g g' o o' hij hg hg' ho ho'; rw [ht] at this; exact this
    · subst hij
      rw [hi] at hj; simp only [Option.some.injEq, Prod.mk.injEq] at hj
      exact absurd hj.1 hne
    · right; have := b3 j i g' g o' o hij hg' hg ho' ho; rw [ht'] at this; exact this

/-- **C72 (types defined by a rule).** Where the Rust type is emitted together with the C one, the emitted item has the
declared members, and compiled as `#[repr(C)]` it has the size, alignment and offsets of the C type.  (That the item
says `#[repr(C)]` is up to the rule: it is emitted as written, without a test.) -/
theorem C72_defined_type_agrees (tl : Ty → TL) (ctl : CTy → TL) (cty : Ty → Option CTy) (d d' : Decl Ty)
    (ho : rustOut .defineAlsoRustType d = .item d') (h : List (Text × CTy))
    (hh : headerFields cty d.fields = some h) (hrep : ∀ t c, cty t = some c → ctl c = tl t)
    (hpos : ∀ t, 0 < (tl t).align) (size align : Nat) (offs : List Nat) (hc : CLayout ctl d.kind h size align offs) :
    (reprC tl d').size = size ∧ (reprC tl d').align = align ∧
    (reprC tl d').fields.map (fun f => (f.1, f.2.1)) = d.fields ∧ (reprC tl d').fields.map (·.2.2) = offs := by
  simp only [rustOut, RustOut.item.injEq] at ho
  subst ho
  obtain ⟨a, b, c⟩ := reprC_agrees tl ctl cty d h hh hrep hpos size align offs hc
  exact ⟨a, b, reprC_fields tl d, c⟩

/-- **C72 (your own types are tested).** For a type the user defines, the test emitted is the one of the declaration. -/
theorem C72_own_types_tested [DecidableEq Ty] (tl : Ty → TL) (d : Decl Ty) (user : UserTy Ty) (checks : List (Check Ty))
    (ho : rustOut .defineOnlyCItem d = .test checks) (hp : checks.all (Check.passes (reprC tl d) user) = true) :
    testPasses tl d user = true := by
  simp only [rustOut, RustOut.test.injEq] at ho
  subst ho
  exact hp

/-! ## Findings and non-vacuity -/

/-- Demo types: `u8`, `u32` and one more `u8`-sized type. -/
inductive DTy | u8 | u32 | i8
deriving DecidableEq

def demoTl : DTy → TL
  | .u8 => ⟨1, 1⟩
  | .i8 => ⟨1, 1⟩
  | .u32 => ⟨4, 4⟩

/-- `struct S { a: u8, b: u32 }`. -/
def demoDecl : Decl DTy := ⟨.struct, "S".toList, [("a".toList, .u8), ("b".toList, .u32)]⟩

/-- **C72 (finding).** A user type with one more member hidden in the padding passes the test. -/
theorem C72_finding_hidden_member :
    testPasses demoTl demoDecl
      ⟨8, 4, [("a".toList, .u8, 0), ("hidden".toList, .i8, 1), ("b".toList, .u32, 4)]⟩ = true := by decide

/-- Reordered, retyped, missing or resized members are noticed. -/
example : testPasses demoTl demoDecl (reprC demoTl demoDecl) = true ∧
    testPasses demoTl demoDecl ⟨8, 4, [("b".toList, .u32, 0), ("a".toList, .u8, 4)]⟩ = false ∧
    testPasses demoTl demoDecl ⟨8, 4, [("a".toList, .i8, 0), ("b".toList, .u32, 4)]⟩ = false ∧
    testPasses demoTl demoDecl ⟨8, 4, [("a".toList, .u8, 0)]⟩ = false ∧
    testPasses demoTl demoDecl ⟨5, 1, [("a".toList, .u8, 0), ("b".toList, .u32, 1)]⟩ = false := by decide

/-- The hypotheses of the agreement theorem are met. -/
example : headerFields (fun t : DTy => some t) demoDecl.fields = some demoDecl.fields ∧
    CLayout demoTl .struct demoDecl.fields 8 4 [0, 4] := by
  refine ⟨rfl, ?_, 8, ?_, ?_⟩
  · exact ⟨by decide, by decide, by decide⟩
  · exact ⟨⟨by decide, by decide, fun k _ _ => Nat.zero_le _⟩, ⟨by decide, by decide, by
      rintro k ⟨q, rfl⟩ hk
      simp [demoTl] at hk ⊢; omega⟩, rfl⟩
  · exact ⟨by decide, by decide, fun k _ h => h⟩

end Flapi.Layout
