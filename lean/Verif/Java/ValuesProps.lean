import Verif.Java.Values
/-!
# Numbers cross the JNI border unchanged or are refused (C37), results become exceptions (C54)
-/
namespace Flapi.JavaValues

/-! ## Specification -/

/-- `n` is a value of the type. -/
def IntTy.has (t : IntTy) (n : Int) : Prop := ∃ v : BitVec t.width, t.val v = n

/-! ## Lemmas -/

theorem val_bounds (t : IntTy) (hw : 0 < t.width) (v : BitVec t.width) : t.min ≤ t.val v ∧ t.val v ≤ t.max := by
  obtain ⟨s, w⟩ := t
  cases s
  · simp only [IntTy.min, IntTy.val, IntTy.max, Bool.false_eq_true, if_false]
    have h := v.isLt
    have h2 : (1 : Nat) ≤ 2 ^ w := Nat.one_le_two_pow
    have h3 : ((2 ^ w : Nat) : Int) = 2 ^ w := by norm_cast
    dsimp only at v h ⊢
    omega
  · simp only [IntTy.min, IntTy.val, IntTy.max, if_true]
    dsimp only at v hw ⊢
    have h1 := @BitVec.le_toInt w v
    have h2 := @BitVec.toInt_lt w v
    omega

theorem ofInt_val (t : IntTy) (hw : 0 < t.width) (n : Int) (h1 : t.min ≤ n) (h2 : n ≤ t.max) : t.val (BitVec.ofInt t.width n) = n := by
  obtain ⟨s, w⟩ := t
  dsimp only at hw
  cases s
  · simp only [IntTy.min, IntTy.val, IntTy.max, Bool.false_eq_true, if_false] at h1 h2 ⊢
    have h3 : ((2 ^ w : Nat) : Int) = 2 ^ w := by norm_cast
    have hp : (0 : Int) < 2 ^ w := by have := Nat.two_pow_pos w; omega
    rw [BitVec.toNat_ofInt, h3, Int.toNat_of_nonneg (Int.emod_nonneg _ (by omega)), Int.emod_eq_of_lt h1 (by omega)]
  · simp only [IntTy.min, IntTy.val, IntTy.max, if_true] at h1 h2 ⊢
    rw [BitVec.toInt_ofInt]
    have h3 : ((2 ^ w : Nat) : Int) = 2 * 2 ^ (w - 1) := by
      obtain ⟨k, rfl⟩ : ∃ k, w = k + 1 := ⟨w - 1, by omega⟩
      simp [Nat.pow_succ, Int.mul_comm]
    apply Int.bmod_eq_of_le <;> omega

theorem has_iff (t : IntTy) (hw : 0 < t.width) (n : Int) : t.has n ↔ t.min ≤ n ∧ n ≤ t.max := by
  constructor
  · rintro ⟨v, rfl⟩; exact val_bounds t hw v
  · rintro ⟨h1, h2⟩; exact ⟨_, ofInt_val t hw n h1 h2⟩

theorem val_inj (t : IntTy) (v w : BitVec t.width) (h : t.val v = t.val w) : v = w := by
  unfold IntTy.val at h
  split at h
  · exact BitVec.eq_of_toInt_eq h
  · exact BitVec.eq_of_toNat_eq (by omega)

theorem tryFrom_some (s t : IntTy) (hw : 0 < t.width) (v : BitVec s.width) (w : BitVec t.width) (h : tryFrom s t v = some w) :
    t.val w = s.val v := by
  unfold tryFrom at h
  split at h
  · rename_i hb
    simp only [Option.some.injEq] at h
    rw [← h]
    exact ofInt_val t hw _ hb.1 hb.2
  · simp at h

theorem tryFrom_none (s t : IntTy) (hw : 0 < t.width) (v : BitVec s.width) : tryFrom s t v = none ↔ ¬ t.has (s.val v) := by
  rw [has_iff t hw]
  unfold tryFrom
  split <;> simp_all

theorem asCast_unsigned (w w' : Nat) (s' : Bool) (h : w < w') (v : BitVec w) :
    IntTy.val ⟨s', w'⟩ (asCast ⟨false, w⟩ ⟨s', w'⟩ v) = IntTy.val ⟨false, w⟩ v := by
  have h0 := v.isLt
  have h1 : 2 ^ w < 2 ^ w' := Nat.pow_lt_pow_right (by omega) h
  cases s'
  · simp only [IntTy.val, asCast, Bool.false_eq_true, if_false, BitVec.toNat_setWidth]
    rw [Nat.mod_eq_of_lt (by omega)]
  · simp only [IntTy.val, asCast, Bool.false_eq_true, if_false, if_true]
    rw [BitVec.toInt_eq_toNat_of_lt]
    · rw [BitVec.toNat_setWidth, Nat.mod_eq_of_lt (by omega)]
    · rw [BitVec.toNat_setWidth, Nat.mod_eq_of_lt (by omega)]
      have : 2 ^ (w + 1) ≤ 2 ^ w' := Nat.pow_le_pow_right (by omega) (by omega)
      rw [Nat.pow_succ] at this
      omega

theorem asCast_signed (w w' : Nat) (h : w ≤ w') (v : BitVec w) :
    IntTy.val ⟨true, w'⟩ (asCast ⟨true, w⟩ ⟨true, w'⟩ v) = IntTy.val ⟨true, w⟩ v := by
  simp only [IntTy.val, asCast, if_true]
  exact BitVec.toInt_signExtend_of_le h

/-! ## C37 -/

/-- **C37**: an integer given by Rust to Java arrives as the same number. -/
theorem C37_to_java_exact (pw : PtrWidth) (r : RInt) (v : BitVec (r.ty pw).width) (j : BitVec (r.jty pw).width)
    (h : toJava pw r v = some j) : (r.jty pw).val j = (r.ty pw).val v := by
  cases r
  · cases h; rfl
  · cases h; exact asCast_unsigned 8 16 true (by decide) v
  · cases h; rfl
  · cases h; exact asCast_unsigned 16 32 true (by decide) v
  · cases h; rfl
  · cases h; exact asCast_unsigned 32 64 true (by decide) v
  · cases h; rfl
  · exact tryFrom_some ⟨false, 64⟩ jlong (by decide) v j h
  · cases h
    cases pw
    · exact asCast_signed 32 32 (by decide) v
    · exact asCast_signed 64 64 (by decide) v
  · cases pw
    · cases h; exact asCast_unsigned 32 64 true (by decide) v
    · exact tryFrom_some ⟨false, 64⟩ jlong (by decide) v j h

/-- **C37**: it is refused (panic) only if the Java type has no such number. -/
theorem C37_to_java_refused_iff (pw : PtrWidth) (r : RInt) (v : BitVec (r.ty pw).width) :
    toJava pw r v = none ↔ ¬ (r.jty pw).has ((r.ty pw).val v) := by
  have hsome : ∀ j, toJava pw r v = some j → (toJava pw r v = none ↔ ¬ (r.jty pw).has ((r.ty pw).val v)) := by
    intro j h
    rw [h]
    have := C37_to_java_exact pw r v j h
    simp only [reduceCtorEq, false_iff, Classical.not_not]
    exact ⟨j, this⟩
  cases r
  all_goals first
    | exact hsome _ rfl
    | skip
  · exact tryFrom_none ⟨false, 64⟩ jlong (by decide) v
  · cases pw
    · exact hsome _ rfl
    · exact tryFrom_none ⟨false, 64⟩ jlong (by decide) v

/-- **C37**: an integer given by Java to Rust arrives as the same number. -/
theorem C37_from_java_exact (pw : PtrWidth) (r : RInt) (hr : r ≠ .isize) (j : BitVec (r.jty pw).width) (v : BitVec (r.ty pw).width)
    (h : fromJava pw r hr j = some v) : (r.ty pw).val v = (r.jty pw).val j := by
  cases r
  · cases h; rfl
  · exact tryFrom_some jshort ⟨false, 8⟩ (by decide) j v h
  · cases h; rfl
  · exact tryFrom_some jint ⟨false, 16⟩ (by decide) j v h
  · cases h; rfl
  · exact tryFrom_some jlong ⟨false, 32⟩ (by decide) j v h
  · cases h; rfl
  · exact tryFrom_some jlong ⟨false, 64⟩ (by decide) j v h
  · exact absurd rfl hr
  · exact tryFrom_some jlong ⟨false, pw.bits⟩ (by cases pw <;> decide) j v h

/-- **C37**: it is refused (panic) exactly if the Rust type has no such number. -/
theorem C37_from_java_refused_iff (pw : PtrWidth) (r : RInt) (hr : r ≠ .isize) (j : BitVec (r.jty pw).width) :
    fromJava pw r hr j = none ↔ ¬ (r.ty pw).has ((r.jty pw).val j) := by
  have hsome : ∀ v, fromJava pw r hr j = some v → (fromJava pw r hr j = none ↔ ¬ (r.ty pw).has ((r.jty pw).val j)) := by
    intro v h
    rw [h]
    have := C37_from_java_exact pw r hr j v h
    simp only [reduceCtorEq, false_iff, Classical.not_not]
    exact ⟨v, this⟩
  cases r
  · exact hsome _ rfl
  · exact tryFrom_none jshort ⟨false, 8⟩ (by decide) j
  · exact hsome _ rfl
  · exact tryFrom_none jint ⟨false, 16⟩ (by decide) j
  · exact hsome _ rfl
  · exact tryFrom_none jlong ⟨false, 32⟩ (by decide) j
  · exact hsome _ rfl
  · exact tryFrom_none jlong ⟨false, 64⟩ (by decide) j
  · exact absurd rfl hr
  · exact tryFrom_none jlong ⟨false, pw.bits⟩ (by cases pw <;> decide) j

/-- **C37**: what Java got from Rust, it can give back, and Rust sees the original. -/
theorem C37_round_trip (pw : PtrWidth) (r : RInt) (hr : r ≠ .isize) (v : BitVec (r.ty pw).width) (j : BitVec (r.jty pw).width)
    (h : toJava pw r v = some j) : fromJava pw r hr j = some v := by
  have h1 := C37_to_java_exact pw r v j h
  cases h2 : fromJava pw r hr j with
  | none =>
    rw [C37_from_java_refused_iff, h1] at h2
    exact absurd ⟨v, rfl⟩ h2
  | some w =>
    have h3 := C37_from_java_exact pw r hr j w h2
    rw [h1] at h3
    rw [val_inj _ _ _ h3]

/-- **C37**: `bool` round-trips, and every non-zero `jboolean` is true. -/
theorem C37_bool : (∀ b, boolFromJava (boolToJava b) = b) ∧ ∀ v, boolFromJava v = true ↔ v.toNat ≠ 0 := by
  refine ⟨by decide, fun v => ?_⟩
  simp only [boolFromJava, bne_iff_ne, ne_eq]
  constructor
  · intro h h2; exact h (BitVec.eq_of_toNat_eq (by simpa using h2))
  · rintro h rfl; exact h rfl

theorem pointer32 (p : BitVec 32) :
    BitVec.signExtend 32 (BitVec.setWidth 64 p) = p ∧ (BitVec.setWidth 64 p = 0#64 ↔ p = 0#32) := by
  have hp : p.toNat < 2 ^ 32 := p.isLt
  constructor
  · rw [BitVec.signExtend_eq_setWidth_of_le _ (by decide)]
    apply BitVec.eq_of_toNat_eq
    simp only [BitVec.toNat_setWidth]
    omega
  · constructor
    · intro h
      have := congrArg BitVec.toNat h
      simp only [BitVec.toNat_setWidth, BitVec.toNat_ofNat] at this
      exact BitVec.eq_of_toNat_eq (by simp only [BitVec.toNat_ofNat]; omega)
    · rintro rfl; rfl

theorem pointer64 (p : BitVec 64) :
    BitVec.signExtend 64 (BitVec.setWidth 64 p) = p ∧ (BitVec.setWidth 64 p = 0#64 ↔ p = 0#64) := by
  simp

/-- **C37**: an address stored in the Java object's `long` field and taken out again is the same address; only the null pointer is stored
as 0. -/
theorem C37_pointer (pw : PtrWidth) (p : BitVec pw.bits) :
    jlongToPointer pw (pointerToJlong pw p) = p ∧ (pointerToJlong pw p = 0 ↔ p = 0) := by
  cases pw
  · exact pointer32 p
  · exact pointer64 p

/-- **C37**: an optional object crosses as itself: Java sees an empty `Optional` exactly for `None`, otherwise a wrapper with the object's
address (addresses of objects are not null). -/
theorem C37_optional_object (pw : PtrWidth) (o : Option (BitVec pw.bits)) (hn : ∀ p, o = some p → p ≠ 0) :
    (javaOptional (optPtrToJlong pw o)).map (jlongToPointer pw) = o := by
  cases o with
  | none => rfl
  | some p =>
    have h := C37_pointer pw p
    have h2 : optPtrToJlong pw (some p) ≠ 0 := fun e => hn p rfl (h.2.1 e)
    simp only [javaOptional, h2, ne_eq, not_false_eq_true, if_true, Option.map_some]
    exact congrArg some h.1

/-- **C37**: an optional number arrives as the same number, `None` as an empty optional, `null` as `None`. -/
theorem C37_optional_number (o : OInt) (x : Option (BitVec o.ty.width)) :
    (optToJava o x).map o.jty.val = x.map o.ty.val ∧ ∀ (V : Type) (y : Option V), boxedToRust y = y := by
  constructor
  · cases o
    · cases x with
      | none => rfl
      | some v => exact congrArg some (asCast_signed 8 32 (by decide) v)
    · cases x with
      | none => rfl
      | some v => exact congrArg some (asCast_signed 16 32 (by decide) v)
    · rfl
    · rfl
  · intro V y; cases y <;> rfl

theorem mulU64_ok (b : Build) (x y : Nat) (h : x * y < 2 ^ 64) : mulU64 b x y = some (x * y) := by
  cases b
  · simp [mulU64, h]
  · exact congrArg some (Nat.mod_eq_of_lt h)

theorem addU64_ok (b : Build) (x y : Nat) (h : x + y < 2 ^ 64) : addU64 b x y = some (x + y) := by
  cases b
  · simp [addU64, h]
  · exact congrArg some (Nat.mod_eq_of_lt h)

/-- **C37**: a time after the epoch arrives as its number of milliseconds, rounded down, if that number fits a Java `long`; in a debug build
it is refused otherwise. -/
theorem C37_time (b : Build) (d : Duration) (hn : d.nanos < 1000000000) :
    (d.secs.toNat * 1000 + d.nanos / 1000000 < 2 ^ 63 →
      ∃ j, timeToJava b (some d) = some j ∧ jlong.val j = ((d.secs.toNat * 1000000000 + d.nanos) / 1000000 : Nat)) ∧
    (2 ^ 63 ≤ d.secs.toNat * 1000 + d.nanos / 1000000 → timeToJava .debug (some d) = none) ∧ timeToJava b none = none := by
  have hms : (d.secs.toNat * 1000000000 + d.nanos) / 1000000 = d.secs.toNat * 1000 + d.nanos / 1000000 := by omega
  refine ⟨fun h => ?_, fun h => ?_, rfl⟩
  · have e : timeToJava b (some d) = tryFrom ⟨false, 64⟩ jlong (BitVec.ofNat 64 (d.secs.toNat * 1000 + d.nanos / 1000000)) := by
      have h0 : d.secs.toNat * 1000 < 2 ^ 64 :=
        Nat.lt_of_le_of_lt (Nat.le_add_right _ (d.nanos / 1000000)) (Nat.lt_trans h (by decide))
      have h1 := mulU64_ok b d.secs.toNat 1000 h0
      have h2 := addU64_ok b (d.secs.toNat * 1000) (d.nanos / 1000000) (Nat.lt_trans h (by decide))
      show ((mulU64 b d.secs.toNat 1000).bind fun ms => (addU64 b ms (d.nanos / 1000000)).bind fun n =>
        tryFrom ⟨false, 64⟩ jlong (BitVec.ofNat 64 n)) = _
      rw [h1, Option.bind_some, h2, Option.bind_some]
    rw [e, hms]
    have hv : IntTy.val ⟨false, 64⟩ (BitVec.ofNat 64 (d.secs.toNat * 1000 + d.nanos / 1000000)) =
        ((d.secs.toNat * 1000 + d.nanos / 1000000 : Nat) : Int) := by
      simp only [IntTy.val, Bool.false_eq_true, if_false, BitVec.toNat_ofNat]
      rw [Nat.mod_eq_of_lt (by omega)]
    cases ht : tryFrom ⟨false, 64⟩ jlong (BitVec.ofNat 64 (d.secs.toNat * 1000 + d.nanos / 1000000)) with
    | none =>
      rw [tryFrom_none _ _ (by decide), has_iff _ (by decide), hv] at ht
      simp only [jlong, IntTy.min, IntTy.max, if_true] at ht
      omega
    | some j => exact ⟨j, rfl, by rw [tryFrom_some _ _ (by decide) _ _ ht, hv]⟩
  · have hs := d.secs.isLt
    simp only [timeToJava, Option.bind_eq_bind, Option.bind_some, mulU64, addU64]
    split
    · rename_i h1
      simp only [Option.bind_some]
      split
      · rename_i h2
        simp only [Option.bind_some]
        refine (tryFrom_none ⟨false, 64⟩ jlong (by decide) _).2 ?_
        rw [has_iff _ (by decide)]
        simp only [IntTy.val, Bool.false_eq_true, if_false, BitVec.toNat_ofNat, jlong, IntTy.min, IntTy.max, if_true]
        rw [Nat.mod_eq_of_lt h2]
        omega
      · rfl
    · rfl

/-- FINDING (C37): in a release build a far future time silently becomes another time: the multiplication of the seconds by 1000 wraps. -/
theorem C37_finding_time_wraps :
    timeToJava .release (some ⟨BitVec.ofNat 64 18446744073709552, 0⟩) = some 384 := by decide

/-- **C37**: every conversion of a `&[T]` element type to a Java array element is the identity on bits (listed here as the types of
equal width): `i8/i16/i32/i64` are the Java types themselves. -/
theorem C37_same_representation (pw : PtrWidth) (r : RInt) (hr : r = .i8 ∨ r = .i16 ∨ r = .i32 ∨ r = .i64) :
    r.ty pw = r.jty pw ∧ ∀ v : BitVec (r.ty pw).width, ∃ j : BitVec (r.jty pw).width, toJava pw r v = some j ∧ j.toNat = v.toNat := by
  rcases hr with rfl | rfl | rfl | rfl <;> exact ⟨rfl, fun v => ⟨v, rfl, rfl⟩⟩

/-! ## C54 -/

/-- **C54**: `Ok` never throws and delivers the converted value, `Err` throws with exactly the message and delivers no value; for an `Err`
message without NUL characters there is no panic. -/
theorem C54_result {T I} (conv : T → Option I) (r : Except Text T) :
    (∀ x v, r = .ok x → conv x = some v → resultToJava conv r = .value v) ∧
    (∀ msg, r = .error msg → Char.ofNat 0 ∉ msg → resultToJava conv r = .exception msg) ∧
    (∀ v, resultToJava conv r = .value v → ∃ x, r = .ok x ∧ conv x = some v) ∧
    (∀ msg, resultToJava conv r = .exception msg → r = .error msg) := by
  refine ⟨?_, ?_, ?_, ?_⟩
  · rintro x v rfl h; simp [resultToJava, h]
  · rintro msg rfl h; simp [resultToJava, jniThrow, h]
  · intro v h
    cases r with
    | ok x =>
      simp only [resultToJava] at h
      cases hc : conv x with
      | none => rw [hc] at h; cases h
      | some w => rw [hc] at h; cases h; exact ⟨x, rfl, hc⟩
    | error msg => simp only [resultToJava, jniThrow] at h; split at h <;> cases h
  · intro msg h
    cases r with
    | ok x =>
      simp only [resultToJava] at h
      cases hc : conv x with
      | none => rw [hc] at h; cases h
      | some w => rw [hc] at h; cases h
    | error m =>
      simp only [resultToJava, jniThrow] at h
      split at h
      · cases h
      · cases h; rfl

/-- FINDING (C54): an error message with a NUL character makes the native function panic instead of throwing. -/
theorem C54_finding_nul {T I} (conv : T → Option I) (a b : Text) :
    resultToJava conv (.error (a ++ Char.ofNat 0 :: b)) = .panic := by
  simp [resultToJava, jniThrow]

/-! ## Non-vacuity -/

example : tryFrom ⟨false, 64⟩ jlong (5 : BitVec 64) = some (5 : BitVec jlong.width) := by decide
example : (toJava .w64 .u64 (5 : BitVec 64)).isSome ∧ (toJava .w64 .u64 (BitVec.allOnes 64)).isNone := by decide
example : (fromJava .w32 .u8 (by decide) (BitVec.ofInt 16 (-1))).isNone ∧ (fromJava .w32 .u8 (by decide) (200 : BitVec 16)).isSome := by decide
example : timeToJava .debug (some ⟨1, 2500000⟩) = some 1002 := by decide
example : resultToJava (I := Nat) some (.error "bad".toList) = .exception "bad".toList := by decide

end Flapi.JavaValues
