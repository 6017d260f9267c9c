import Verif.Lang.Enum
/-!
# Enums across languages (C23, C24, C53)
-/
namespace Flapi.Enum

/-! ## Lemmas -/

theorem toArms_get {ι : Type} (cast : Nat → ι) (items : List Item) : ∀ (k i : Nat),
    (toArms cast k items)[i]? = items[i]?.map fun it => (it.rustName, cast (k + i)) := by
  induction items with
  | nil => intro k i; simp [toArms]
  | cons it its ih =>
    intro k i
    cases i with
    | zero => simp [toArms]
    | succ i => simp [toArms, ih]; cases its[i]? <;> simp; congr 1; omega

theorem matchVariant_nodup {ι : Type} (arms : List (Text × ι)) (hnd : (arms.map (·.1)).Nodup) :
    ∀ (i : Nat) v x, arms[i]? = some (v, x) → matchVariant arms v = some x := by
  induction arms with
  | nil => intro i v x h; simp at h
  | cons a arms ih =>
    obtain ⟨p, j⟩ := a
    intro i v x h
    rw [List.map_cons, List.nodup_cons] at hnd
    rw [matchVariant]
    cases i with
    | zero => simp at h; simp [h]
    | succ i =>
      simp only [List.getElem?_cons_succ] at h
      have hm : v ∈ arms.map (·.1) := List.mem_map.2 ⟨(v, x), List.mem_of_getElem? h, rfl⟩
      have : p ≠ v := by rintro rfl; exact hnd.1 hm
      rw [if_neg this]
      exact ih hnd.2 i v x h

theorem matchNumber_inj {ι : Type} [DecidableEq ι] (arms : List (Text × ι)) (hnd : (arms.map (·.2)).Nodup) :
    ∀ (i : Nat) v x, arms[i]? = some (v, x) → matchNumber arms x = some v := by
  induction arms with
  | nil => intro i v x h; simp at h
  | cons a arms ih =>
    obtain ⟨p, j⟩ := a
    intro i v x h
    rw [List.map_cons, List.nodup_cons] at hnd
    rw [matchNumber]
    cases i with
    | zero => simp at h; simp [h]
    | succ i =>
      simp only [List.getElem?_cons_succ] at h
      have hm : x ∈ arms.map (·.2) := List.mem_map.2 ⟨(v, x), List.mem_of_getElem? h, rfl⟩
      have : j ≠ x := by rintro rfl; exact hnd.1 hm
      rw [if_neg this]
      exact ih hnd.2 i v x h

theorem matchNumber_none {ι : Type} [DecidableEq ι] (arms : List (Text × ι)) (x : ι) :
    matchNumber arms x = none ↔ ∀ (i : Nat) v y, arms[i]? = some (v, y) → y ≠ x := by
  induction arms with
  | nil => simp [matchNumber]
  | cons a arms ih =>
    obtain ⟨p, j⟩ := a
    rw [matchNumber]
    split
    · rename_i h
      constructor
      · exact fun hh => nomatch hh
      · intro hh; exact absurd h (hh 0 p j rfl)
    · rename_i h
      rw [ih]
      constructor
      · intro hh i v y hi
        cases i with
        | zero => simp at hi; rw [← hi.2]; exact h
        | succ i => exact hh i v y hi
      · intro hh i v y hi; exact hh (i + 1) v y hi

theorem toArms_fst {ι : Type} (cast : Nat → ι) (items : List Item) : ∀ k, (toArms cast k items).map (·.1) = items.map (·.rustName) := by
  induction items with
  | nil => intro k; rfl
  | cons it its ih => intro k; simp [toArms, ih]

theorem toArms_snd_nodup {ι : Type} (cast : Nat → ι) (items : List Item) : ∀ k,
    (∀ a b, a < k + items.length → b < k + items.length → cast a = cast b → a = b) →
    ((toArms cast k items).map (·.2)).Nodup := by
  induction items with
  | nil => intro k _; simp [toArms]
  | cons it its ih =>
    intro k hinj
    rw [toArms, List.map_cons, List.nodup_cons]
    constructor
    · intro hm
      obtain ⟨⟨v, x⟩, hmem, hx⟩ := List.mem_map.1 hm
      obtain ⟨i, hi⟩ := List.getElem?_of_mem hmem
      rw [toArms_get] at hi
      cases hit : its[i]? with
      | none => rw [hit] at hi; cases hi
      | some it' =>
        rw [hit] at hi
        simp only [Option.map_some, Option.some.injEq, Prod.mk.injEq] at hi
        have hlt : i < its.length := by
          rw [List.getElem?_eq_some_iff] at hit; exact hit.1
        simp only at hx
        rw [← hi.2] at hx
        have := hinj (k + 1 + i) k (by simp; omega) (by simp) hx
        omega
    · exact ih (k + 1) fun a b ha hb => hinj a b (by simp; omega) (by simp; omega)

theorem asU32Cast_id {n : Nat} (h : n < 2 ^ 32) : asU32Cast n = n := Nat.mod_eq_of_lt h

theorem asI32Cast_id {n : Nat} (h : n < 2 ^ 31) : asI32Cast n = n := by
  unfold asI32Cast
  have : n % 2 ^ 32 = n := Nat.mod_eq_of_lt (by omega)
  simp [this, h]

theorem cppEnumerators_get (items : List Item) : ∀ (k i : Nat),
    (cppEnumerators k items)[i]? = items[i]?.map fun it => (it.name, k + i) := by
  induction items with
  | nil => intro k i; simp [cppEnumerators]
  | cons it its ih =>
    intro k i
    cases i with
    | zero => simp [cppEnumerators]
    | succ i => simp [cppEnumerators, ih]; cases its[i]? <;> simp; omega

theorem cEnumerators_get (e : Text) (items : List Item) : ∀ (k i : Nat),
    (cEnumerators e k items)[i]? = items[i]?.map fun it => (e ++ '_' :: it.name, k + i) := by
  induction items with
  | nil => intro k i; simp [cEnumerators]
  | cons it its ih =>
    intro k i
    cases i with
    | zero => simp [cEnumerators]
    | succ i => simp [cEnumerators, ih]; cases its[i]? <;> simp; omega

theorem constant_nodup (es : List (Text × Nat)) (hnd : (es.map (·.1)).Nodup) :
    ∀ (i : Nat) n x, es[i]? = some (n, x) → constant es n = some x := by
  induction es with
  | nil => intro i v x h; simp at h
  | cons a arms ih =>
    obtain ⟨p, j⟩ := a
    intro i v x h
    rw [List.map_cons, List.nodup_cons] at hnd
    rw [constant]
    cases i with
    | zero => simp at h; simp [h]
    | succ i =>
      simp only [List.getElem?_cons_succ] at h
      have hm : v ∈ arms.map (·.1) := List.mem_map.2 ⟨(v, x), List.mem_of_getElem? h, rfl⟩
      have : p ≠ v := by rintro rfl; exact hnd.1 hm
      rw [if_neg this]
      exact ih hnd.2 i v x h

theorem cppEnumerators_fst (items : List Item) : ∀ k, (cppEnumerators k items).map (·.1) = items.map (·.name) := by
  induction items with
  | nil => intro k; rfl
  | cons it its ih => intro k; simp [cppEnumerators, ih]

theorem cEnumerators_fst (e : Text) (items : List Item) : ∀ k,
    (cEnumerators e k items).map (·.1) = (items.map (·.name)).map fun n => e ++ '_' :: n := by
  induction items with
  | nil => intro k; rfl
  | cons it its ih => intro k; simp [cEnumerators, ih]

/-! ## C23: C++ -/

/-- **C23**: an enum whose items cannot be numbered with 32 bits is refused. -/
theorem C23_too_large_rejected (items : List Item) (h : 2 ^ 32 ≤ items.length) : cppAccepted items = false := by
  simp [cppAccepted]; omega

/-- **C23**: in an accepted enum, the item declared at position `i` has the value `i` in the C++ header, in the C header
and as the number its Rust variant is converted to; converting that number back gives the variant. -/
theorem C23_round_trip (enumName : Text) (items : List Item) (hacc : cppAccepted items = true)
    (hv : (items.map (·.rustName)).Nodup) (hn : (items.map (·.name)).Nodup) (i : Nat) (it : Item)
    (hi : items[i]? = some it) :
    constant (cppEnumerators 0 items) it.name = some i ∧
    constant (cEnumerators enumName 0 items) (enumName ++ '_' :: it.name) = some i ∧
    asU32 items it.rustName = some i ∧ fromU32 items i = some it.rustName := by
  have hlen : items.length < 2 ^ 32 := by
    simp only [cppAccepted, Bool.not_eq_true', decide_eq_false_iff_not, ge_iff_le, Nat.not_le] at hacc; omega
  have hil : i < items.length := (List.getElem?_eq_some_iff.1 hi).1
  have hc : asU32Cast (0 + i) = i := by rw [Nat.zero_add]; exact asU32Cast_id (by omega)
  have harm : (toArms asU32Cast 0 items)[i]? = some (it.rustName, i) := by rw [toArms_get, hi]; simp only [hc, Option.map_some]
  refine ⟨?_, ?_, ?_, ?_⟩
  · refine constant_nodup _ (by rw [cppEnumerators_fst]; exact hn) i _ _ ?_
    rw [cppEnumerators_get, hi]; simp
  · refine constant_nodup _ ?_ i _ _ ?_
    · rw [cEnumerators_fst]
      refine List.Pairwise.map _ ?_ hn
      intro a b hab he
      exact hab (by simpa using he)
    · rw [cEnumerators_get, hi]; simp
  · exact matchVariant_nodup _ (by rw [toArms_fst]; exact hv) i _ _ harm
  · refine matchNumber_inj _ (toArms_snd_nodup _ _ _ ?_) i _ _ harm
    intro a b ha hb h
    rw [asU32Cast_id (by omega), asU32Cast_id (by omega)] at h
    exact h

/-- **C23**: every number that is not the position of an item is rejected (panic), and no other is. -/
theorem C23_only_positions_accepted (items : List Item) (hacc : cppAccepted items = true) (x : Nat) :
    fromU32 items x = none ↔ items.length ≤ x := by
  have hlen : items.length < 2 ^ 32 := by
    simp only [cppAccepted, Bool.not_eq_true', decide_eq_false_iff_not, ge_iff_le, Nat.not_le] at hacc; omega
  unfold fromU32
  rw [matchNumber_none]
  constructor
  · intro h
    by_cases hx : items.length ≤ x
    · exact hx
    · have hi : items[x]? = some items[x] := List.getElem?_eq_getElem (by omega)
      have := h x items[x].rustName (asU32Cast (0 + x)) (by rw [toArms_get, hi]; rfl)
      rw [Nat.zero_add, asU32Cast_id (by omega)] at this
      exact absurd rfl this
  · intro h i v y hi hy
    rw [toArms_get] at hi
    cases hit : items[i]? with
    | none => rw [hit] at hi; cases hi
    | some it =>
      have hil : i < items.length := (List.getElem?_eq_some_iff.1 hit).1
      rw [hit] at hi
      simp only [Option.map_some, Option.some.injEq, Prod.mk.injEq, Nat.zero_add] at hi
      rw [asU32Cast_id (by omega)] at hi
      omega

/-- **C23 (finding)**: two items that stand for the same Rust variant are accepted; the second one does not survive the
round trip: it is read back as the first. -/
theorem C23_finding_alias_items :
    cppAccepted [⟨"A".toList, "E::X".toList⟩, ⟨"B".toList, "E::X".toList⟩] = true ∧
    fromU32 [⟨"A".toList, "E::X".toList⟩, ⟨"B".toList, "E::X".toList⟩] 1 = some "E::X".toList ∧
    asU32 [⟨"A".toList, "E::X".toList⟩, ⟨"B".toList, "E::X".toList⟩] "E::X".toList = some 0 := by decide

/-! ## C24: Java -/

theorem javaConstants_go (items : List Item) (k : Nat) (hn : (items.map (·.name)).Nodup) :
    ∀ (i : Nat) it, items[i]? = some it → getValue.go it.name (javaConstants k items) = some ((k + i : Nat) : Int) := by
  induction items generalizing k with
  | nil => intro i it h; simp at h
  | cons a items ih =>
    intro i it h
    rw [List.map_cons, List.nodup_cons] at hn
    rw [javaConstants, getValue.go]
    cases i with
    | zero => simp at h; simp [h]
    | succ i =>
      simp only [List.getElem?_cons_succ] at h
      have hm : it.name ∈ items.map (·.name) := List.mem_map.2 ⟨it, List.mem_of_getElem? h, rfl⟩
      have : a.name ≠ it.name := by intro e; rw [← e] at hm; exact hn.1 hm
      rw [if_neg this, ih (k + 1) hn.2 i it h]
      congr 1; omega

theorem javaCases_go (items : List Item) : ∀ (k i : Nat) it, items[i]? = some it →
    javaFromInt.go ((k + i : Nat) : Int) (javaCases k items) = some it.name := by
  induction items with
  | nil => intro k i it h; simp at h
  | cons a items ih =>
    intro k i it h
    rw [javaCases, javaFromInt.go]
    cases i with
    | zero => simp at h; simp [h]
    | succ i =>
      simp only [List.getElem?_cons_succ] at h
      rw [if_neg (by omega)]
      have := ih (k + 1) i it h
      rw [← this]; congr 1; omega

theorem javaCases_go_none (items : List Item) : ∀ (k : Nat) (x : Int),
    javaFromInt.go x (javaCases k items) = none ↔ x < k ∨ k + items.length ≤ x := by
  induction items with
  | nil => intro k x; simp [javaCases, javaFromInt.go]; omega
  | cons a items ih =>
    intro k x
    rw [javaCases, javaFromInt.go]
    split
    · rename_i h
      simp only [List.length_cons]
      constructor
      · exact fun hh => nomatch hh
      · intro hh; omega
    · rename_i h
      rw [ih]
      simp only [List.length_cons]
      omega

/-- **C24**: an enum with too many items for a Java `int` is refused. -/
theorem C24_too_large_rejected (items : List Item) (h : 2 ^ 31 ≤ items.length) : javaAccepted items = false := by
  simp [javaAccepted]; omega

/-- **C24**: the item declared at position `i` has the number `i` on both sides, and both sides invert it. -/
theorem C24_round_trip (items : List Item) (hacc : javaAccepted items = true)
    (hv : (items.map (·.rustName)).Nodup) (hn : (items.map (·.name)).Nodup) (i : Nat) (it : Item)
    (hi : items[i]? = some it) :
    getValue items it.name = some (i : Int) ∧ javaFromInt items i = some it.name ∧
    asJint items it.rustName = some (i : Int) ∧ fromJint items i = some it.rustName := by
  have hlen : items.length < 2 ^ 31 := by
    simp only [javaAccepted, Bool.not_eq_true', decide_eq_false_iff_not, ge_iff_le, Nat.not_le] at hacc; omega
  have hil : i < items.length := (List.getElem?_eq_some_iff.1 hi).1
  have hc : asI32Cast (0 + i) = i := by rw [Nat.zero_add]; exact asI32Cast_id (by omega)
  have harm : (toArms asI32Cast 0 items)[i]? = some (it.rustName, (i : Int)) := by
    rw [toArms_get, hi]; simp only [hc, Option.map_some]
  refine ⟨?_, ?_, ?_, ?_⟩
  · have := javaConstants_go items 0 hn i it hi
    simpa [getValue] using this
  · have := javaCases_go items 0 i it hi
    simpa [javaFromInt] using this
  · exact matchVariant_nodup _ (by rw [toArms_fst]; exact hv) i _ _ harm
  · refine matchNumber_inj _ (toArms_snd_nodup _ _ _ ?_) i _ _ harm
    intro a b ha hb h
    rw [asI32Cast_id (by omega), asI32Cast_id (by omega)] at h
    omega

/-- **C24**: all other integers are rejected on both sides: Java throws, Rust panics. -/
theorem C24_others_rejected (items : List Item) (hacc : javaAccepted items = true) (x : Int) :
    (javaFromInt items x = none ↔ x < 0 ∨ items.length ≤ x) ∧ (fromJint items x = none ↔ x < 0 ∨ items.length ≤ x) := by
  have hlen : items.length < 2 ^ 31 := by
    simp only [javaAccepted, Bool.not_eq_true', decide_eq_false_iff_not, ge_iff_le, Nat.not_le] at hacc; omega
  refine ⟨by have := javaCases_go_none items 0 x; simpa [javaFromInt] using this, ?_⟩
  unfold fromJint
  rw [matchNumber_none]
  constructor
  · intro h
    by_cases hx : 0 ≤ x ∧ x < items.length
    · obtain ⟨n, rfl⟩ : ∃ n : Nat, x = n := ⟨x.toNat, by omega⟩
      have hi : items[n]? = some items[n] := List.getElem?_eq_getElem (by omega)
      have := h n items[n].rustName (asI32Cast (0 + n)) (by rw [toArms_get, hi]; rfl)
      rw [Nat.zero_add, asI32Cast_id (by omega)] at this
      exact absurd rfl this
    · omega
  · intro h i v y hi hy
    rw [toArms_get] at hi
    cases hit : items[i]? with
    | none => rw [hit] at hi; cases hi
    | some it =>
      have hil : i < items.length := (List.getElem?_eq_some_iff.1 hit).1
      rw [hit] at hi
      simp only [Option.map_some, Option.some.injEq, Prod.mk.injEq, Nat.zero_add] at hi
      rw [asI32Cast_id (by omega)] at hi
      omega

/-- **C24**: an optional item survives both directions: Rust to Java and Java to Rust, present or absent. -/
theorem C24_option_round_trip (items : List Item) (hacc : javaAccepted items = true)
    (hv : (items.map (·.rustName)).Nodup) (hn : (items.map (·.name)).Nodup) (i : Nat) (it : Item)
    (hi : items[i]? = some it) :
    (optToJint items (some it.rustName)).bind (javaOptFromInt items) = some (some it.name) ∧
    (optToJint items none).bind (javaOptFromInt items) = some none ∧
    (javaOptToInt items (some it.name)).bind (optFromJint items) = some (some it.rustName) ∧
    (javaOptToInt items none).bind (optFromJint items) = some none := by
  obtain ⟨h1, h2, h3, h4⟩ := C24_round_trip items hacc hv hn i it hi
  have hne : ((i : Int) ≠ -1) := by omega
  simp [optToJint, javaOptToInt, javaOptFromInt, optFromJint, h1, h2, h3, h4, hne]

/-! ## C53: Python -/

/-- **C53**: if the discriminants are different as 32-bit numbers, the value Python sees for an item is read back as the
same variant. -/
theorem C53_round_trip (items : List PyItem) (hd : (items.map fun it => discrAsU32 it.discr).Nodup)
    (hn : (items.map (·.name)).Nodup) (it : PyItem) (hm : it ∈ items) :
    ∃ v, pyConstant items it.name = some v ∧ pyFromU32 items v = some it.rustName := by
  refine ⟨discrAsU32 it.discr, ?_, ?_⟩
  · induction items with
    | nil => simp at hm
    | cons a items ih =>
      rw [List.map_cons, List.nodup_cons] at hd hn
      rw [pyConstant]
      rcases List.mem_cons.1 hm with rfl | hm
      · simp
      · have : a.name ≠ it.name := by intro e; exact hn.1 (List.mem_map.2 ⟨it, hm, e.symm⟩)
        rw [if_neg this]; exact ih hd.2 hn.2 hm
  · clear hn
    induction items with
    | nil => simp at hm
    | cons a items ih =>
      rw [List.map_cons, List.nodup_cons] at hd
      rw [pyFromU32]
      rcases List.mem_cons.1 hm with rfl | hm
      · simp
      · have : discrAsU32 it.discr ≠ discrAsU32 a.discr := by
          intro e; exact hd.1 (List.mem_map.2 ⟨it, hm, e⟩)
        rw [if_neg this]; exact ih hd.2 hm

/-- **C53**: exactly the 32-bit discriminants of the listed items are accepted. -/
theorem C53_only_items_accepted (items : List PyItem) (v : Nat) :
    pyFromU32 items v = none ↔ ∀ it ∈ items, discrAsU32 it.discr ≠ v := by
  induction items with
  | nil => simp [pyFromU32]
  | cons a items ih =>
    rw [pyFromU32]
    split
    · rename_i h
      constructor
      · exact fun hh => nomatch hh
      · intro hh; exact absurd h.symm (hh a (by simp))
    · rename_i h
      rw [ih]
      simp only [List.forall_mem_cons]
      exact ⟨fun hh => ⟨fun e => h e.symm, hh⟩, fun hh => hh.2⟩

/-- **C53**: ordinary discriminants (non-negative, below 2³²) are their own value, so distinct variants stay distinct. -/
theorem C53_small_discriminants (d : Int) (h0 : 0 ≤ d) (h1 : d < 2 ^ 32) : (discrAsU32 d : Int) = d := by
  unfold discrAsU32
  rw [Int.emod_eq_of_lt h0 h1]
  omega

/-- **C53 (finding)**: with a 64-bit representation two different variants can share a Python value; the second is then
read back as the first. -/
theorem C53_finding_wide_discriminants :
    pyConstant [⟨"A".toList, "E::A".toList, 0⟩, ⟨"B".toList, "E::B".toList, 4294967296⟩] "B".toList = some 0 ∧
    pyFromU32 [⟨"A".toList, "E::A".toList, 0⟩, ⟨"B".toList, "E::B".toList, 4294967296⟩] 0 = some "E::A".toList := by decide

/-- **C53 (finding)**: Python uses the discriminant where C++ and Java use the position, so the number of one and the same
item differs between the languages. -/
theorem C53_finding_differs_from_cpp :
    pyConstant [⟨"A".toList, "E::A".toList, 5⟩] "A".toList = some 5 ∧ asU32 [⟨"A".toList, "E::A".toList⟩] "E::A".toList = some 0 := by
  decide

/-! ## Non-vacuity -/

/-- A sample enum. -/
def sample : List Item := [⟨"A".toList, "E::A".toList⟩, ⟨"B".toList, "E::B".toList⟩, ⟨"C".toList, "E::C".toList⟩]

example : cppAccepted sample = true ∧ javaAccepted sample = true ∧ (sample.map (·.rustName)).Nodup ∧
    (sample.map (·.name)).Nodup ∧ sample[2]? = some ⟨"C".toList, "E::C".toList⟩ := by decide
example : asU32 sample "E::C".toList = some 2 ∧ fromU32 sample 3 = none ∧ javaFromInt sample (-1) = none ∧
    optToJint sample none = some (-1) := by decide

end Flapi.Enum
