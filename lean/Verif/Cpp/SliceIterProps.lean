import Verif.Cpp.SliceIter
/-!
# Slices and iterators address the elements of the Rust slice (C41)
-/
namespace Flapi.SliceIter
variable {w : Nat}

/-! ## Specification -/

/-- What Rust guarantees for a slice of `len` elements of `sz` bytes at `base`: it does not wrap around the address space and has at most
`isize::MAX` bytes (for elements of size zero, `len` is still a word). -/
structure Region (w base len sz : Nat) : Prop where
  noWrap : base + len * sz < 2 ^ w
  half : len * sz < 2 ^ (w - 1)
  len : len < 2 ^ w

/-- Address of element `i`. -/
def elem (base sz i : Nat) : Nat := base + i * sz

/-- The iterator stands before element `i`. -/
def At (it : Iter w) (base sz i : Nat) : Prop := it.ptr.toNat = elem base sz i ∧ it.step.toNat = sz

/-! ## Lemmas -/

theorem at_iff (it : Iter w) (base sz i : Nat) (h : elem base sz i < 2 ^ w) (hs : sz < 2 ^ w) :
    At it base sz i ↔ it = ⟨BitVec.ofNat w (elem base sz i), BitVec.ofNat w sz⟩ := by
  cases it with
  | mk p s =>
    simp only [At, Iter.mk.injEq]
    constructor
    · rintro ⟨h1, h2⟩
      exact ⟨BitVec.eq_of_toNat_eq (by rw [h1, BitVec.toNat_ofNat, Nat.mod_eq_of_lt h]), BitVec.eq_of_toNat_eq (by rw [h2, BitVec.toNat_ofNat, Nat.mod_eq_of_lt hs])⟩
    · rintro ⟨rfl, rfl⟩
      exact ⟨by rw [BitVec.toNat_ofNat, Nat.mod_eq_of_lt h], by rw [BitVec.toNat_ofNat, Nat.mod_eq_of_lt hs]⟩

theorem elem_lt {base len sz : Nat} (h : Region w base len sz) {i : Nat} (hi : i ≤ len) : elem base sz i < 2 ^ w := by
  have := h.noWrap
  have h2 := Nat.mul_le_mul_right sz hi
  unfold elem
  omega

theorem sz_lt {base len sz : Nat} (h : Region w base len sz) (hl : 0 < len) : sz < 2 ^ w := by
  have := h.noWrap
  have h2 := Nat.le_mul_of_pos_left sz hl
  omega

/-- Moving by a signed number of elements, on machine words. -/
theorem scaled_add (p s : BitVec w) (a sz : Nat) (n : Int) (b : Nat) (hp : p.toNat = a) (hs : s.toNat = sz) (hb : (b : Int) = a + n * sz)
    (hlt : b < 2 ^ w) : (p + scaled n s).toNat = b := by
  have h1 : p = BitVec.ofInt w a := by
    rw [BitVec.ofInt_natCast]; exact BitVec.eq_of_toNat_eq (by rw [hp, BitVec.toNat_ofNat, ← hp, Nat.mod_eq_of_lt p.isLt])
  have h2 : s = BitVec.ofInt w sz := by
    rw [BitVec.ofInt_natCast]; exact BitVec.eq_of_toNat_eq (by rw [hs, BitVec.toNat_ofNat, ← hs, Nat.mod_eq_of_lt s.isLt])
  rw [h1, h2, scaled, ← BitVec.ofInt_mul, ← BitVec.ofInt_add, ← hb, BitVec.ofInt_natCast, BitVec.toNat_ofNat, Nat.mod_eq_of_lt hlt]

theorem scaled_neg (n : Int) (s : BitVec w) (p : BitVec w) : p - scaled n s = p + scaled (-n) s := by
  unfold scaled
  rw [BitVec.ofInt_neg, BitVec.neg_mul, BitVec.sub_eq_add_neg]

theorem elem_shift (base sz i j : Nat) (n : Int) (h : (j : Int) = i + n) : ((elem base sz j : Nat) : Int) = elem base sz i + n * sz := by
  unfold elem
  push_cast
  rw [h, Int.add_mul]
  omega

/-! ## Property theorems -/

/-- C41: `begin()` stands before element 0, `end()` behind the last one, `size()` is the number of elements and `slice[i]` is the address of
element `i`, refused for `i ≥ size()`. -/
theorem C41_slice (base len sz : Nat) (h : Region w base len sz) (hs : sz < 2 ^ w) :
    At (Slice.ofRust base len sz : Slice w).begin base sz 0 ∧ At (Slice.ofRust base len sz : Slice w).end base sz len ∧
    (Slice.ofRust base len sz : Slice w).size = len ∧ ((Slice.ofRust base len sz : Slice w).isEmpty = true ↔ len = 0) ∧
    ∀ i : BitVec w, (Slice.ofRust base len sz : Slice w).index i =
      if i.toNat < len then some (BitVec.ofNat w (elem base sz i.toNat)) else none := by
  have hb : base < 2 ^ w := by have := h.noWrap; omega
  have e1 : (BitVec.ofNat w base).toNat = base := by rw [BitVec.toNat_ofNat, Nat.mod_eq_of_lt hb]
  have e2 : (BitVec.ofNat w len).toNat = len := by rw [BitVec.toNat_ofNat, Nat.mod_eq_of_lt h.len]
  have e3 : (BitVec.ofNat w sz).toNat = sz := by rw [BitVec.toNat_ofNat, Nat.mod_eq_of_lt hs]
  have key : ∀ i, i ≤ len → (BitVec.ofNat w base + BitVec.ofNat w sz * BitVec.ofNat w i) = BitVec.ofNat w (elem base sz i) := by
    intro i hi
    apply BitVec.eq_of_toNat_eq
    simp only [BitVec.toNat_add, BitVec.toNat_mul, BitVec.toNat_ofNat, elem]
    simp only [← Nat.mul_mod, Nat.mod_mod, Nat.mod_add_mod, Nat.add_mod_mod]
    rw [Nat.mul_comm sz i]
  refine ⟨⟨?_, e3⟩, ⟨?_, e3⟩, e2, ?_, fun i => ?_⟩
  · simp only [Slice.begin, Slice.ofRust, e1, elem]; omega
  · simp only [Slice.end, Slice.ofRust]
    rw [key len (Nat.le_refl _), BitVec.toNat_ofNat, Nat.mod_eq_of_lt (elem_lt h (Nat.le_refl _))]
  · simp only [Slice.isEmpty, Slice.ofRust, beq_iff_eq]
    constructor
    · intro h0
      have := congrArg BitVec.toNat h0
      rw [e2] at this
      simpa using this
    · rintro rfl; rfl
  · unfold Slice.index Slice.ofRust
    simp only [BitVec.ult, e2, decide_eq_true_eq]
    split
    · rename_i hi
      have := key i.toNat (by omega)
      rw [BitVec.ofNat_toNat, BitVec.setWidth_eq] at this
      rw [this]
    · rfl

/-- C41: from position `i`, `++`, `--`, `+ n`, `+= n`, `- n`, `-= n` lead to the position they name, `it[n]` is the address of the element there
and `*it` of element `i` — for every signed `n` as long as the position stays inside the slice (or at its end). -/
theorem C41_moves (base len sz i : Nat) (h : Region w base len sz) (it : Iter w) (hi : i ≤ len) (ha : At it base sz i) :
    it.deref.toNat = elem base sz i ∧
    (i < len → At it.inc base sz (i + 1)) ∧
    (0 < i → At it.dec base sz (i - 1)) ∧
    ∀ (n : Int) (j : Nat), j ≤ len →
      ((j : Int) = i + n → At (it.add n) base sz j ∧ At (it.addAssign n) base sz j ∧ (it.at n).toNat = elem base sz j) ∧
      ((j : Int) = i - n → At (it.sub n) base sz j ∧ At (it.subAssign n) base sz j) := by
  have go : ∀ (n : Int) (j : Nat), j ≤ len → (j : Int) = i + n → (it.ptr + scaled n it.step).toNat = elem base sz j := fun n j hj hn =>
    scaled_add it.ptr it.step (elem base sz i) sz n (elem base sz j) ha.1 ha.2 (elem_shift base sz i j n hn) (elem_lt h hj)
  have one : scaled 1 it.step = it.step := by
    unfold scaled
    rw [show (1 : Int) = ((1 : Nat) : Int) from rfl, BitVec.ofInt_natCast, BitVec.one_mul]
  refine ⟨ha.1, fun hi' => ⟨?_, ha.2⟩, fun hi' => ⟨?_, ha.2⟩, fun n j hj => ⟨fun hn => ⟨⟨go n j hj hn, ha.2⟩, ⟨go n j hj hn, ha.2⟩, go n j hj hn⟩, fun hn => ?_⟩⟩
  · have := go 1 (i + 1) hi' (by push_cast; rfl)
    rw [one] at this
    exact this
  · have := go (-1) (i - 1) (by omega) (by omega)
    rw [← scaled_neg, one] at this
    exact this
  · have := go (-n) j hj (by omega)
    rw [← scaled_neg] at this
    exact ⟨⟨this, ha.2⟩, ⟨this, ha.2⟩⟩

/-- C41: comparisons order iterators by position (elements of non-zero size). -/
theorem C41_order (base len sz i j : Nat) (hz : 0 < sz) (a b : Iter w) (ha : At a base sz i) (hb : At b base sz j) :
    (a.lt b = true ↔ i < j) ∧ (a.gt b = true ↔ j < i) ∧ (a.le b = true ↔ i ≤ j) ∧ (a.ge b = true ↔ j ≤ i) ∧ (a.eq b = true ↔ i = j) ∧
    (a.ne b = true ↔ i ≠ j) := by
  have hlt : ∀ x y : Nat, elem base sz x < elem base sz y ↔ x < y := by
    intro x y
    unfold elem
    constructor
    · intro hh
      exact Nat.lt_of_mul_lt_mul_right (a := sz) (by omega)
    · intro hh
      have := Nat.mul_lt_mul_of_pos_right hh hz
      omega
  have heq : a.ptr = b.ptr ↔ i = j := by
    constructor
    · intro e
      have e' := congrArg BitVec.toNat e
      rw [ha.1, hb.1] at e'
      have h1 := hlt i j
      have h2 := hlt j i
      omega
    · rintro rfl
      exact BitVec.eq_of_toNat_eq (by rw [ha.1, hb.1])
  have h1 := hlt i j
  have h2 := hlt j i
  have l1 : a.lt b = true ↔ i < j := by simp only [Iter.lt, BitVec.ult, decide_eq_true_eq, ha.1, hb.1, h1]
  have l2 : a.gt b = true ↔ j < i := by simp only [Iter.gt, BitVec.ult, decide_eq_true_eq, ha.1, hb.1, h2]
  have l3 : a.eq b = true ↔ i = j := by simp only [Iter.eq, beq_iff_eq, heq]
  refine ⟨l1, l2, ?_, ?_, l3, ?_⟩
  · rw [Iter.le, Bool.not_eq_true', ← Bool.not_eq_true, l2]; omega
  · rw [Iter.ge, Bool.not_eq_true', ← Bool.not_eq_true, l1]; omega
  · rw [Iter.ne, Bool.not_eq_true', ← Bool.not_eq_true, l3]

/-- The word difference of two positions, forwards. -/
theorem diff_word (base sz i j : Nat) (a b : Iter w) (ha : At a base sz i) (hb : At b base sz j) :
    (a.ptr - b.ptr).toNat = (2 ^ w - elem base sz j + elem base sz i) % 2 ^ w := by
  rw [BitVec.toNat_sub, ha.1, hb.1]

/-- C41: `it_i - it_j` is the number of elements between them, when `i` is not before `j` (elements of non-zero size; for equal positions, of any
size). -/
theorem C41_difference (base len sz i j : Nat) (h : Region w base len sz) (a b : Iter w) (hij : j ≤ i) (hi : i ≤ len)
    (ha : At a base sz i) (hb : At b base sz j) (hz : 0 < sz ∨ i = j) : a.diff b = (i : Int) - j := by
  have hm : elem base sz i = elem base sz j + (i - j) * sz := by
    unfold elem
    rw [Nat.sub_mul]
    have := Nat.mul_le_mul_right sz hij
    omega
  have hlen : (i - j) * sz ≤ len * sz := Nat.mul_le_mul_right sz (by omega)
  have hhalf := h.half
  have hei := elem_lt h hi
  have hw : (a.ptr - b.ptr).toNat = (i - j) * sz := by
    rw [diff_word base sz i j a b ha hb]
    have : 2 ^ w - elem base sz j + elem base sz i = 2 ^ w + (i - j) * sz := by omega
    rw [this, Nat.add_mod_left, Nat.mod_eq_of_lt (by have := elem_lt h hi; omega)]
  unfold Iter.diff
  simp only
  by_cases hd : a.ptr - b.ptr = 0
  · simp only [hd, ne_eq, not_true_eq_false, if_false]
    rw [hd] at hw
    have h0 : (i - j) * sz = 0 := by simpa using hw.symm
    rcases Nat.mul_eq_zero.1 h0 with h1 | h1
    · omega
    · rcases hz with hz | hz <;> omega
  · simp only [ne_eq, hd, not_false_eq_true, if_true]
    have hpos : 0 < sz := by
      rcases hz with hz | hz
      · exact hz
      · exfalso
        subst hz
        apply hd
        apply BitVec.eq_of_toNat_eq
        rw [hw]; simp
    have hq : (BitVec.udiv (a.ptr - b.ptr) a.step).toNat = i - j := by
      show ((a.ptr - b.ptr) / a.step).toNat = i - j
      rw [BitVec.toNat_udiv, hw, ha.2, Nat.mul_div_cancel _ hpos]
    have hlt : 2 * (i - j) < 2 ^ w := by
      have h1 : (i - j) ≤ (i - j) * sz := Nat.le_mul_of_pos_right _ hpos
      cases w with
      | zero => simp only [Nat.pow_zero] at hhalf hei ⊢; omega
      | succ w => simp only [Nat.add_sub_cancel] at hhalf; rw [Nat.pow_succ]; omega
    rw [BitVec.toInt_eq_toNat_of_lt (by rw [hq]; exact hlt), hq]
    omega

/-- C41: `(it + n) - it == n` for every `n ≥ 0` that stays inside. -/
theorem C41_add_then_difference (base len sz i : Nat) (h : Region w base len sz) (hz : 0 < sz) (it : Iter w) (n : Nat) (hn : i + n ≤ len)
    (ha : At it base sz i) : (it.add n).diff it = n := by
  have h1 := (((C41_moves base len sz i h it (by omega) ha).2.2.2 n (i + n) hn).1 (by push_cast; rfl)).1
  rw [C41_difference base len sz (i + n) i h _ _ (by omega) hn h1 ha (.inl hz)]
  push_cast
  omega

/-- C41, finding: the difference is computed by an unsigned division, so a negative difference comes out as a huge positive number (for elements
of one byte it is right).  Exactly: `it_i - it_j` with `i < j` is `⌊2^w / size⌋ - (j - i)`. -/
theorem C41_finding_negative_difference (base len sz i j : Nat) (h : Region w base len sz) (hsz : 2 ≤ sz) (a b : Iter w) (hij : i < j) (hj : j ≤ len)
    (ha : At a base sz i) (hb : At b base sz j) :
    a.diff b = ((2 ^ w / sz - (j - i) : Nat) : Int) ∧ a.diff b ≠ (i : Int) - j := by
  have hm : elem base sz j = elem base sz i + (j - i) * sz := by
    unfold elem
    rw [Nat.sub_mul]
    have := Nat.mul_le_mul_right sz (Nat.le_of_lt hij)
    omega
  have hlen : (j - i) * sz ≤ len * sz := Nat.mul_le_mul_right sz (by omega)
  have hhalf := h.half
  have hej := elem_lt h hj
  have hpos : 0 < (j - i) * sz := Nat.mul_pos (by omega) (by omega)
  have hw : (a.ptr - b.ptr).toNat = 2 ^ w - (j - i) * sz := by
    rw [diff_word base sz i j a b ha hb]
    have : 2 ^ w - elem base sz j + elem base sz i = 2 ^ w - (j - i) * sz := by omega
    rw [this, Nat.mod_eq_of_lt (by omega)]
  have hq : (BitVec.udiv (a.ptr - b.ptr) a.step).toNat = 2 ^ w / sz - (j - i) := by
    show ((a.ptr - b.ptr) / a.step).toNat = _
    rw [BitVec.toNat_udiv, hw, ha.2]
    rw [Nat.mul_comm, Nat.sub_mul_div]
  have hd : a.ptr - b.ptr ≠ 0 := by
    intro e
    rw [e] at hw
    have : (0 : Nat) = 2 ^ w - (j - i) * sz := by simpa using hw
    have := elem_lt h hj
    omega
  have hlt : 2 * (2 ^ w / sz - (j - i)) < 2 ^ w := by
    have h1 : 2 ^ w / sz ≤ 2 ^ w / 2 := Nat.div_le_div_left hsz (by omega)
    have h2 : 2 * (2 ^ w / 2) ≤ 2 ^ w := by omega
    have h3 : 0 < 2 ^ w := Nat.two_pow_pos w
    have h4 : 0 < j - i := by omega
    by_cases h5 : j - i ≤ 2 ^ w / sz <;> omega
  have e : a.diff b = ((2 ^ w / sz - (j - i) : Nat) : Int) := by
    unfold Iter.diff
    simp only [ne_eq, hd, not_false_eq_true, if_true]
    rw [BitVec.toInt_eq_toNat_of_lt (by rw [hq]; exact hlt), hq]
  refine ⟨e, ?_⟩
  rw [e]
  omega

/-- C41: the loop from `begin()` to `end()` visits the elements in order, each once (elements of non-zero size). -/
theorem C41_loop (base len sz : Nat) (h : Region w base len sz) (hz : 0 < sz) (hs : sz < 2 ^ w) (fuel : Nat) (hf : len < fuel) :
    ∃ l, loop fuel (Slice.ofRust base len sz : Slice w).begin (Slice.ofRust base len sz : Slice w).end = some l ∧
      l.map BitVec.toNat = (List.range len).map (elem base sz) := by
  obtain ⟨hb, he, _⟩ := C41_slice base len sz h hs
  generalize (Slice.ofRust base len sz : Slice w).begin = it at hb ⊢
  generalize (Slice.ofRust base len sz : Slice w).end = e at he ⊢
  have key : ∀ (n i fuel : Nat) (it : Iter w), i + n = len → n < fuel → At it base sz i →
      ∃ l, loop fuel it e = some l ∧ l.map BitVec.toNat = (List.range' i n).map (elem base sz) := by
    intro n
    induction n with
    | zero =>
      intro i fuel it hi hf ha
      obtain ⟨f, rfl⟩ : ∃ f, fuel = f + 1 := ⟨fuel - 1, by omega⟩
      have hne : it.ne e = false := by
        rw [← Bool.not_eq_true, (C41_order base len sz i len hz it e ha he).2.2.2.2.2]; omega
      exact ⟨[], by simp [loop, hne], rfl⟩
    | succ n ih =>
      intro i fuel it hi hf ha
      obtain ⟨f, rfl⟩ : ∃ f, fuel = f + 1 := ⟨fuel - 1, by omega⟩
      have hne : it.ne e = true := by
        rw [(C41_order base len sz i len hz it e ha he).2.2.2.2.2]; omega
      have hm := C41_moves base len sz i h it (by omega) ha
      obtain ⟨l, h1, h2⟩ := ih (i + 1) f it.inc (by omega) (by omega) (hm.2.1 (by omega))
      refine ⟨it.deref :: l, by simp [loop, hne, h1], ?_⟩
      rw [List.map_cons, hm.1, h2, List.range'_succ, List.map_cons]
  obtain ⟨l, h1, h2⟩ := key len 0 fuel it (by omega) hf hb
  exact ⟨l, h1, by rw [h2, ← List.range_eq_range']⟩

/-- C41, finding: for elements of size zero `begin() == end()` whatever the length: the loop visits nothing although `size()` is `len`. -/
theorem C41_finding_zero_sized (base len : Nat) (h : Region w base len 0) (fuel : Nat) :
    (Slice.ofRust base len 0 : Slice w).size = len ∧
    loop (fuel + 1) (Slice.ofRust base len 0 : Slice w).begin (Slice.ofRust base len 0 : Slice w).end = some [] := by
  obtain ⟨_, _, h3, _⟩ := C41_slice (w := w) base len 0 h (Nat.two_pow_pos w)
  refine ⟨h3, ?_⟩
  have : (Slice.ofRust base len 0 : Slice w).begin.ne (Slice.ofRust base len 0 : Slice w).end = false := by
    simp [Iter.ne, Iter.eq, Slice.begin, Slice.end, Slice.ofRust]
  simp [loop, this]

/-- C41: after a move the target has the content of the source and the source is empty; other slices are untouched.  (A slice moved to itself
becomes empty.) -/
theorem C41_move (f : Nat → Slice w) (x y : Nat) :
    (x ≠ y → moveAssign f x y x = f y) ∧ (moveAssign f x y y).isEmpty = true ∧ (moveAssign f x y y).begin.eq (moveAssign f x y y).end = true ∧
    ∀ z, z ≠ x → z ≠ y → moveAssign f x y z = f z := by
  refine ⟨fun h => by simp [moveAssign, h], by simp [moveAssign, Slice.reset, Slice.isEmpty], by simp [moveAssign, Slice.reset, Slice.begin, Slice.end, Iter.eq],
    fun z h1 h2 => by simp [moveAssign, h1, h2]⟩

/-- Non-vacuity: three elements of 24 bytes on a 64 bit machine. -/
example : Region 64 4096 3 24 := ⟨by decide, by decide, by decide⟩

example : loop 5 (Slice.ofRust 4096 3 24 : Slice 64).begin (Slice.ofRust 4096 3 24 : Slice 64).end = some [4096, 4120, 4144] := by decide +kernel

/-- `begin() - end()` is not -3. -/
example : (Slice.ofRust 4096 3 24 : Slice 64).begin.diff (Slice.ofRust 4096 3 24 : Slice 64).end = 768614336404564647 := by decide +kernel

example : (Slice.ofRust 4096 3 24 : Slice 64).end.diff (Slice.ofRust 4096 3 24 : Slice 64).begin = 3 := by decide +kernel

end Flapi.SliceIter
