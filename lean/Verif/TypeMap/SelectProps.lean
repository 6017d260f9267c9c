import Verif.TypeMap.Select
import Verif.TypeMap.BuildProps
/-! # Selection of the foreign type (C16) -/
namespace Flapi.Select
open Graph TMap
variable {τ κ : Type}

/-! ## Specification -/

/-- Foreign type number `i` represents type `rty` by a chain of `n` conversions: from `rty` to the Rust side of the foreign
type when values go to the foreign language (`d = true`), from there to `rty` otherwise. -/
def Represents (g : Graph (RTy τ) κ) (fts : List FT) (d : Dir) (rty i n : Nat) : Prop :=
  ∃ (f : FT) (r : FRule) (p : List Nat), fts[i]? = some f ∧
    (match d with
      | true => f.into = some r ∧ IsPath g rty r.rustTy p
      | false => f.frm = some r ∧ IsPath g r.rustTy rty p) ∧ p.length = n

/-- The rules of all foreign types mention existing types. -/
def FtsOk (g : Graph (RTy τ) κ) (fts : List FT) : Prop :=
  ∀ f ∈ fts, ∀ r, f.into = some r ∨ f.frm = some r → r.rustTy < g.nodes.length

theorem FtsOk.rule {g : Graph (RTy τ) κ} {fts : List FT} (h : FtsOk g fts) (f : FT) (hf : f ∈ fts) (d : Dir) (r : FRule)
    (hr : ruleFor d f = some r) : r.rustTy < g.nodes.length := by
  cases d
  · exact h f hf r (Or.inr hr)
  · exact h f hf r (Or.inl hr)

/-- Best so far. -/
def BestOf (g : Graph (RTy τ) κ) (fts : List FT) (d : Dir) (rty : Nat) (m : Nat) : Option (Nat × Nat) → Prop
  | none => ∀ i n, i < m → ¬ Represents g fts d rty i n
  | some (n, i) => i < m ∧ Represents g fts d rty i n ∧
      ∀ j k, j < m → Represents g fts d rty j k → n ≤ k ∧ (j < i → n < k)

theorem fastStep_best (P : PopFn) (g : Graph (RTy τ) κ) (hwf : WF g) (fts : List FT) (d : Dir) (rty : Nat)
    (hr : rty < g.nodes.length) (hf : FtsOk g fts) (m : Nat) (f : FT) (hm : fts[m]? = some f) (acc : Option (Nat × Nat))
    (h : BestOf g fts d rty m acc) : BestOf g fts d rty (m + 1) (fastStep P g d rty acc (f, m)) := by
  have rep : ∀ n, Represents g fts d rty m n ↔ ∃ r p, ruleFor d f = some r ∧
      IsPath g (ends d rty r.rustTy).1 (ends d rty r.rustTy).2 p ∧ p.length = n := by
    intro n
    constructor
    · rintro ⟨f', r, p, h1, h2, h4⟩
      rw [hm] at h1; cases h1
      cases d
      · exact ⟨r, p, h2.1, h2.2, h4⟩
      · exact ⟨r, p, h2.1, h2.2, h4⟩
    · rintro ⟨r, p, h2, h3, h4⟩
      cases d
      · exact ⟨f, r, p, hm, ⟨h2, h3⟩, h4⟩
      · exact ⟨f, r, p, hm, ⟨h2, h3⟩, h4⟩
  have keep : (∀ n, ¬ Represents g fts d rty m n) → BestOf g fts d rty (m + 1) acc := by
    intro hno
    cases acc with
    | none =>
      intro i n hi hrep
      rcases Nat.lt_succ_iff_lt_or_eq.1 hi with hi | rfl
      · exact h i n hi hrep
      · exact hno n hrep
    | some x =>
      obtain ⟨h1, h2, h3⟩ := h
      refine ⟨by omega, h2, fun j k hj hrep => ?_⟩
      rcases Nat.lt_succ_iff_lt_or_eq.1 hj with hj | rfl
      · exact h3 j k hj hrep
      · exact absurd hrep (hno k)
  unfold fastStep
  simp only
  cases hrf : ruleFor d f with
  | none =>
    refine keep fun n hn => ?_
    obtain ⟨r, p, h1, _⟩ := (rep n).1 hn
    rw [hrf] at h1; cases h1
  | some r =>
    simp only
    have hrt := hf.rule f (List.mem_of_getElem? hm) d r hrf
    have hsrc : (ends d rty r.rustTy).1 < g.nodes.length := by unfold ends; split <;> assumption
    rcases findConversionPath_spec P (b := (ends d rty r.rustTy).2) hwf hsrc with ⟨p, h1, h2, h3⟩ | ⟨h1, h2⟩
    · rw [h1]
      simp only
      have hrepm : Represents g fts d rty m p.length := (rep _).2 ⟨r, p, hrf, h2, rfl⟩
      have hmin : ∀ k, Represents g fts d rty m k → p.length ≤ k := by
        intro k hk
        obtain ⟨r', q, e1, e2, e3⟩ := (rep k).1 hk
        rw [hrf] at e1; cases e1
        rw [← e3]; exact h3 q e2
      cases acc with
      | none =>
        refine ⟨by omega, hrepm, fun j k hj hrep => ?_⟩
        rcases Nat.lt_succ_iff_lt_or_eq.1 hj with hj | rfl
        · exact absurd hrep (h j k hj)
        · exact ⟨hmin k hrep, by omega⟩
      | some x =>
        obtain ⟨n0, i0⟩ := x
        obtain ⟨g1, g2, g3⟩ := h
        simp only
        split
        · rename_i hlt
          refine ⟨by omega, hrepm, fun j k hj hrep => ?_⟩
          rcases Nat.lt_succ_iff_lt_or_eq.1 hj with hj | rfl
          · have := (g3 j k hj hrep).1; omega
          · exact ⟨hmin k hrep, by omega⟩
        · rename_i hlt
          refine ⟨by omega, g2, fun j k hj hrep => ?_⟩
          rcases Nat.lt_succ_iff_lt_or_eq.1 hj with hj | rfl
          · exact g3 j k hj hrep
          · have := hmin k hrep; exact ⟨by omega, by omega⟩
    · rw [h1]
      refine keep fun n hn => ?_
      obtain ⟨r', q, e1, e2, _⟩ := (rep n).1 hn
      rw [hrf] at e1; cases e1
      exact h2 q e2

theorem fast_fold (P : PopFn) (g : Graph (RTy τ) κ) (hwf : WF g) (fts : List FT) (d : Dir) (rty : Nat)
    (hr : rty < g.nodes.length) (hf : FtsOk g fts) : ∀ (l : List FT) (m : Nat) (acc : Option (Nat × Nat)),
      fts.drop m = l → BestOf g fts d rty m acc →
      BestOf g fts d rty (m + l.length) ((l.zipIdx m).foldl (fastStep P g d rty) acc)
  | [], m, acc, _, h => by simpa using h
  | f :: l, m, acc, hd, h => by
    have hm : fts[m]? = some f := by
      have := congrArg (fun x => x[0]?) hd
      simpa using this
    have h1 := fastStep_best P g hwf fts d rty hr hf m f hm acc h
    have hd' : fts.drop (m + 1) = l := by
      have := congrArg List.tail hd
      simpa using this
    have := fast_fold P g hwf fts d rty hr hf l (m + 1) _ hd' h1
    simp only [List.zipIdx_cons, List.foldl_cons, List.length_cons]
    rw [show m + (l.length + 1) = m + 1 + l.length by omega]
    exact this

theorem fastSearch_best (P : PopFn) (g : Graph (RTy τ) κ) (hwf : WF g) (fts : List FT) (d : Dir) (rty : Nat)
    (hr : rty < g.nodes.length) (hf : FtsOk g fts) : BestOf g fts d rty fts.length (fastSearch P g fts d rty) := by
  have := fast_fold P g hwf fts d rty hr hf fts 0 none rfl (by intro i n hi; omega)
  simpa [fastSearch] using this

/-! ## C16 -/

/-- The foreign type selected among those reachable by existing conversions needs the fewest steps, and among those with
the same number of steps it is the one registered first. -/
theorem C16_minimal_first (P : PopFn) (g : Graph (RTy τ) κ) (hwf : WF g) (fts : List FT) (d : Dir) (rty n i : Nat)
    (hr : rty < g.nodes.length) (hf : FtsOk g fts) (h : fastSearch P g fts d rty = some (n, i)) :
    Represents g fts d rty i n ∧ ∀ j k, Represents g fts d rty j k → n ≤ k ∧ (j < i → n < k) := by
  have hb := fastSearch_best P g hwf fts d rty hr hf
  rw [h] at hb
  refine ⟨hb.2.1, fun j k hjk => hb.2.2 j k ?_ hjk⟩
  obtain ⟨f, _, _, h1, _⟩ := hjk
  exact (List.getElem?_eq_some_iff.1 h1).1

/-- Nothing is selected only if no foreign type is reachable. -/
theorem C16_none_iff (P : PopFn) (g : Graph (RTy τ) κ) (hwf : WF g) (fts : List FT) (d : Dir) (rty : Nat)
    (hr : rty < g.nodes.length) (hf : FtsOk g fts) :
    fastSearch P g fts d rty = none ↔ ∀ i n, ¬ Represents g fts d rty i n := by
  have hb := fastSearch_best P g hwf fts d rty hr hf
  constructor
  · intro h i n hrep
    rw [h] at hb
    obtain ⟨f, r, p, h1, h2⟩ := hrep
    exact hb i n (List.getElem?_eq_some_iff.1 h1).1 ⟨f, r, p, h1, h2⟩
  · intro h
    cases hx : fastSearch P g fts d rty with
    | none => rfl
    | some x => rw [hx] at hb; exact absurd hb.2.1 (h _ _)

/-- The selection does not depend on how the search breaks ties in its priority queue. -/
theorem C16_deterministic (P P' : PopFn) (g : Graph (RTy τ) κ) (hwf : WF g) (fts : List FT) (d : Dir) (rty : Nat)
    (hr : rty < g.nodes.length) (hf : FtsOk g fts) : fastSearch P g fts d rty = fastSearch P' g fts d rty := by
  cases h : fastSearch P g fts d rty with
  | none => exact ((C16_none_iff P' g hwf fts d rty hr hf).2 ((C16_none_iff P g hwf fts d rty hr hf).1 h)).symm
  | some x =>
    cases h' : fastSearch P' g fts d rty with
    | none => rw [(C16_none_iff P g hwf fts d rty hr hf).2 ((C16_none_iff P' g hwf fts d rty hr hf).1 h')] at h; cases h
    | some y =>
      obtain ⟨n, i⟩ := x
      obtain ⟨m, j⟩ := y
      obtain ⟨a1, a2⟩ := C16_minimal_first P g hwf fts d rty n i hr hf h
      obtain ⟨b1, b2⟩ := C16_minimal_first P' g hwf fts d rty m j hr hf h'
      have c1 := a2 j m b1
      have c2 := b2 i n a1
      have : i = j := by
        rcases lt_trichotomy i j with hlt | he | hgt
        · have := c2.2 hlt; omega
        · exact he
        · have := c1.2 hgt; omega
      subst this
      have : n = m := by omega
      subst this; rfl

/-- Once a type has been mapped by the fast search, repeating the request gives the same answer and changes nothing. -/
theorem C16_cached (P : PopFn) (ord : List Nat → List Nat) (rules : List (Rule τ κ)) (hints : SS τ κ → Dir → SS τ κ)
    (st st' : SS τ κ) (d fast fast' : Bool) (rty f : Nat) (hfast : fastSearch P st.tm.g st.fts d rty ≠ none)
    (h : mapToForeign P ord rules hints st d fast rty = some (some f, st')) :
    mapToForeign P ord rules hints st' d fast' rty = some (some f, st') := by
  unfold mapToForeign at h
  cases hc : (if d = true then st.toCache else st.fromCache) rty with
  | some f' =>
    rw [hc] at h; cases h
    unfold mapToForeign; rw [hc]
  | none =>
    rw [hc] at h
    cases hs : fastSearch P st.tm.g st.fts d rty with
    | none => exact absurd hs hfast
    | some x =>
      obtain ⟨n, i⟩ := x
      rw [hs] at h
      simp only [Option.some.injEq, Prod.mk.injEq] at h
      obtain ⟨rfl, rfl⟩ := h
      unfold mapToForeign
      cases d <;> simp [put]

/-! ### Deep search -/

theorem firstMinBy_spec : ∀ (l : List (Nat × Cand τ κ)) (x : Nat × Cand τ κ), firstMinBy l = some x →
    ∃ pre post, l = pre ++ x :: post ∧ (∀ y ∈ pre, x.1 < y.1) ∧ ∀ y ∈ post, x.1 ≤ y.1
  | [], _, h => by cases h
  | z :: r, x, h => by
    unfold firstMinBy at h
    cases hr : firstMinBy r with
    | none =>
      rw [hr] at h; cases h
      have : r = [] := by
        cases r with
        | nil => rfl
        | cons a b => unfold firstMinBy at hr; split at hr; cases hr; split at hr <;> cases hr
      exact ⟨[], [], by simp [this], by simp, by simp⟩
    | some y =>
      rw [hr] at h
      obtain ⟨pre, post, e1, e2, e3⟩ := firstMinBy_spec r y hr
      simp only at h
      split at h
      · cases h
        rename_i hlt
        refine ⟨z :: pre, post, by simp [e1], ?_, e3⟩
        intro w hw
        rcases List.mem_cons.1 hw with rfl | hw
        · exact hlt
        · exact e2 w hw
      · cases h
        rename_i hlt
        refine ⟨[], r, rfl, by simp, ?_⟩
        intro w hw
        rw [e1] at hw
        rcases List.mem_append.1 hw with hw | hw
        · have := e2 w hw; omega
        · rcases List.mem_cons.1 hw with rfl | hw
          · omega
          · have := e3 w hw; omega

theorem candKeys_map (P : PopFn) (ord : List Nat → List Nat) (rules : List (Rule τ κ)) (d : Dir) :
    ∀ (cs : List (Cand τ κ)) (tm tm' : TM τ κ) ks, candKeys P ord rules d tm cs = some (ks, tm') → ks.map (·.2) = cs
  | [], tm, tm', ks, h => by simp [candKeys] at h; simp [h.1]
  | c :: cs, tm, tm', ks, h => by
    unfold candKeys at h
    cases hk : candKey P ord rules d tm c with
    | none => rw [hk] at h; cases h
    | some x =>
      obtain ⟨k, tm1⟩ := x
      rw [hk] at h; simp only at h
      cases hr : candKeys P ord rules d tm1 cs with
      | none => rw [hr] at h; cases h
      | some y =>
        obtain ⟨ks', tm2⟩ := y
        rw [hr] at h; simp only [Option.some.injEq, Prod.mk.injEq] at h
        obtain ⟨rfl, rfl⟩ := h
        simp [candKeys_map P ord rules d cs tm1 tm2 ks' hr]

theorem deep_minimal_first (P : PopFn) (ord : List Nat → List Nat) (rules : List (Rule τ κ)) (tm tm' : TM τ κ)
    (fts : List FT) (d : Dir) (rty f : Nat) (h : deepSearch P ord rules tm fts d rty = some (some f, tm')) :
    ∃ cs tm1 pre post k c, deepen P ord rules tm d rty fts 1 maxTryBuildPathSteps = some cs ∧
      candKeys P ord rules d tm (retain cs) = some (pre ++ (k, c) :: post, tm1) ∧ c.ft = f ∧
      (∀ y ∈ pre, k < y.1) ∧ (∀ y ∈ post, k ≤ y.1) ∧ ((pre ++ (k, c) :: post).map (·.2)) = retain cs := by
  unfold deepSearch at h
  cases hd : deepen P ord rules tm d rty fts 1 maxTryBuildPathSteps with
  | none => rw [hd] at h; cases h
  | some cs =>
    rw [hd] at h; simp only at h
    cases hk : candKeys P ord rules d tm (retain cs) with
    | none => rw [hk] at h; cases h
    | some x =>
      obtain ⟨ks, tm1⟩ := x
      rw [hk] at h; simp only at h
      cases hm : firstMinBy ks with
      | none => rw [hm] at h; cases h
      | some kc =>
        obtain ⟨k, c⟩ := kc
        rw [hm] at h; simp only at h
        obtain ⟨pre, post, e1, e2, e3⟩ := firstMinBy_spec ks (k, c) hm
        cases hp : mergePath tm1 c.path.newEdges with
        | none => rw [hp] at h; cases h
        | some tm2 =>
          rw [hp] at h
          simp only [Option.some.injEq, Prod.mk.injEq] at h
          refine ⟨cs, tm1, pre, post, k, c, rfl, by rw [hk, e1], h.1, e2, e3, ?_⟩
          rw [← e1]; exact candKeys_map P ord rules d _ _ _ _ hk

theorem candidates_spec (P : PopFn) (ord : List Nat → List Nat) (hord : ∀ l, (ord l).Perm l) (rules : List (Rule τ κ))
    (tm : TM τ κ) (hok : Ok tm) (d : Dir) (rty n : Nat) (hr : rty < tm.g.nodes.length) :
    ∀ (l : List (FT × Nat)), (∀ x ∈ l, ∀ r, ruleFor d x.1 = some r → r.rustTy < tm.g.nodes.length) →
      ∃ cs, candidates P ord rules tm d rty n l = some cs ∧
        ∀ c ∈ cs, tryBuildPath P ord rules tm (ends d rty c.rustTy).1 (ends d rty c.rustTy).2 n = .some c.path tm.g ∧
          c.rustTy < tm.g.nodes.length ∧ ∃ x ∈ l, ∃ r, ruleFor d x.1 = some r ∧ c.inter = r.inter
  | [], _ => ⟨[], rfl, by simp⟩
  | (f, i) :: fs, hf => by
    obtain ⟨cs, h1, h2⟩ := candidates_spec P ord hord rules tm hok d rty n hr fs (fun x hx => hf x (by simp [hx]))
    have h2' : ∀ c ∈ cs, tryBuildPath P ord rules tm (ends d rty c.rustTy).1 (ends d rty c.rustTy).2 n = .some c.path tm.g ∧
          c.rustTy < tm.g.nodes.length ∧ ∃ x ∈ (f, i) :: fs, ∃ r, ruleFor d x.1 = some r ∧ c.inter = r.inter := by
      intro c hc
      obtain ⟨a, b, x, hx, r⟩ := h2 c hc
      exact ⟨a, b, x, by simp [hx], r⟩
    unfold candidates
    cases hrf : ruleFor d f with
    | none => exact ⟨cs, h1, h2'⟩
    | some r =>
      have hrt := hf (f, i) (by simp) r hrf
      simp only
      have e1 : (ends d rty r.rustTy).1 < tm.g.nodes.length := by unfold ends; split <;> assumption
      have e2 : (ends d rty r.rustTy).2 < tm.g.nodes.length := by unfold ends; split <;> assumption
      rcases C13_restored P ord hord rules tm hok _ _ n e1 e2 with ⟨p, hp⟩ | hp
      · rw [hp]; simp only; rw [h1]
        refine ⟨_, rfl, ?_⟩
        intro c hc
        rcases List.mem_cons.1 hc with rfl | hc
        · exact ⟨hp, hrt, (f, i), by simp, r, hrf, rfl⟩
        · exact h2' c hc
      · rw [hp]; exact ⟨cs, h1, h2'⟩

theorem deepen_spec (P : PopFn) (ord : List Nat → List Nat) (hord : ∀ l, (ord l).Perm l) (rules : List (Rule τ κ))
    (tm : TM τ κ) (hok : Ok tm) (d : Dir) (rty : Nat) (hr : rty < tm.g.nodes.length) (fts : List FT)
    (hf : FtsOk tm.g fts) : ∀ (k n : Nat), ∃ cs, deepen P ord rules tm d rty fts n k = some cs ∧
      ∀ c ∈ cs, (∃ m, tryBuildPath P ord rules tm (ends d rty c.rustTy).1 (ends d rty c.rustTy).2 m = .some c.path tm.g) ∧
        c.rustTy < tm.g.nodes.length ∧ ∃ f ∈ fts, ∃ r, ruleFor d f = some r ∧ c.inter = r.inter
  | 0, n => ⟨[], rfl, by simp⟩
  | k + 1, n => by
    unfold deepen
    obtain ⟨cs, h1, h2⟩ := candidates_spec P ord hord rules tm hok d rty n hr fts.zipIdx (by
      intro x hx r hxr
      exact hf.rule x.1 (by
        obtain ⟨a, b⟩ := x
        have := List.mem_zipIdx hx
        simp at this
        rw [this.2]; exact List.getElem_mem _) d r hxr)
    rw [h1]
    cases cs with
    | nil => exact deepen_spec P ord hord rules tm hok d rty hr fts hf k (n + 1)
    | cons c cs =>
      refine ⟨_, rfl, fun c' hc' => ?_⟩
      obtain ⟨a, b, x, hx, r, hr1, hr2⟩ := h2 c' hc'
      refine ⟨⟨n, a⟩, b, x.1, ?_, r, hr1, hr2⟩
      obtain ⟨a, b⟩ := x
      have := List.mem_zipIdx hx
      simp at this
      rw [this.2]; exact List.getElem_mem _

theorem candKeys_noInter (P : PopFn) (ord : List Nat → List Nat) (rules : List (Rule τ κ)) (d : Dir) (tm : TM τ κ) :
    ∀ (cs : List (Cand τ κ)), (∀ c ∈ cs, c.inter = none) →
      candKeys P ord rules d tm cs = some (cs.map fun c => (c.path.pathLen, c), tm)
  | [], _ => rfl
  | c :: cs, h => by
    unfold candKeys candKey
    rw [h c (by simp)]
    simp only [candKeys_noInter P ord rules d tm cs (fun x hx => h x (by simp [hx])), List.map_cons]

/-- Deep search never fails an internal assertion when no foreign type uses an intermediate type; the result keeps the type
map well-formed and all former types and rules. -/
theorem C16_deep_no_panic (P : PopFn) (ord : List Nat → List Nat) (hord : ∀ l, (ord l).Perm l) (rules : List (Rule τ κ))
    (tm : TM τ κ) (hok : Ok tm) (d : Dir) (rty : Nat) (hr : rty < tm.g.nodes.length) (fts : List FT)
    (hf : FtsOk tm.g fts) (hni : ∀ f ∈ fts, ∀ r, f.into = some r ∨ f.frm = some r → r.inter = none) :
    ∃ r tm', deepSearch P ord rules tm fts d rty = some (r, tm') ∧ Ok tm' ∧ Grows tm tm' := by
  unfold deepSearch
  obtain ⟨cs, h1, h2⟩ := deepen_spec P ord hord rules tm hok d rty hr fts hf maxTryBuildPathSteps 1
  rw [h1]
  simp only
  have hret : ∀ c ∈ retain cs, c ∈ cs := fun c hc => (List.mem_filter.1 hc).1
  rw [candKeys_noInter P ord rules d tm (retain cs) (by
    intro c hc
    obtain ⟨_, _, f, hf1, r, hr1, hr2⟩ := h2 c (hret c hc)
    rw [hr2]
    refine hni f hf1 r ?_
    cases d
    · exact Or.inr hr1
    · exact Or.inl hr1)]
  simp only
  cases hm : firstMinBy ((retain cs).map fun c => (c.path.pathLen, c)) with
  | none => exact ⟨none, tm, rfl, hok, Grows.refl _⟩
  | some x =>
    obtain ⟨k, c⟩ := x
    simp only
    obtain ⟨pre, post, e1, _, _⟩ := firstMinBy_spec _ _ hm
    have hc : c ∈ retain cs := by
      have : (k, c) ∈ (retain cs).map fun c => (c.path.pathLen, c) := by rw [e1]; simp
      obtain ⟨c', hc', he⟩ := List.mem_map.1 this
      simp at he; rw [← he.2]; exact hc'
    obtain ⟨⟨m, hb⟩, hlt, _⟩ := h2 c (hret c hc)
    have a1 : (ends d rty c.rustTy).1 < tm.g.nodes.length := by unfold ends; split <;> assumption
    have a2 : (ends d rty c.rustTy).2 < tm.g.nodes.length := by unfold ends; split <;> assumption
    obtain ⟨tm', m1, m2, m3, _⟩ := C48_built_path_genuine P ord hord rules tm hok _ _ m a1 a2 c.path _ hb
    rw [m1]
    exact ⟨some c.ft, tm', rfl, m2, m3⟩

/-! ### What the deep search selects -/

/-- The offer of one foreign type when chains may use at most `n` rounds of generic rules: the chain from the type to the
Rust side of the foreign type (or back), if one can be built. -/
def offer (P : PopFn) (ord : List Nat → List Nat) (rules : List (Rule τ κ)) (tm : TM τ κ) (d : Dir) (rty n : Nat)
    (x : FT × Nat) : Option (Cand τ κ) :=
  match (match d with | true => x.1.into | false => x.1.frm) with
  | none => none
  | some r =>
    match (match d with
      | true => tryBuildPath P ord rules tm rty r.rustTy n
      | false => tryBuildPath P ord rules tm r.rustTy rty n) with
    | .some p _ => some ⟨p, x.2, r.rustTy, r.inter⟩
    | _ => none

/-- `k` is the length of the whole conversion of an offer: its chain, plus (if the foreign type goes through a further Rust
type) the chain to that type as found in the map at that moment, which may have grown in between. -/
def Cost (P : PopFn) (ord : List Nat → List Nat) (rules : List (Rule τ κ)) (tm : TM τ κ) (d : Dir) (c : Cand τ κ) (k : Nat) :
    Prop :=
  match c.inter with
  | none => k = c.path.pathLen
  | some it => ∃ tm0 tm1 r, Grows tm tm0 ∧
      (match d with
        | true => findOrBuildPath P ord rules tm0 c.rustTy it
        | false => findOrBuildPath P ord rules tm0 it c.rustTy) = some (tm1, r) ∧
      k = c.path.pathLen + (match r with | .ok p => p.length | _ => 0)

theorem candidates_offer (P : PopFn) (ord : List Nat → List Nat) (rules : List (Rule τ κ)) (tm : TM τ κ) (d : Dir) (rty n : Nat) :
    ∀ (l : List (FT × Nat)) cs, candidates P ord rules tm d rty n l = some cs →
      l.filterMap (offer P ord rules tm d rty n) = cs
  | [], cs, h => by simp [candidates] at h; simp [h]
  | (f, i) :: fs, cs, h => by
    unfold candidates at h
    rw [List.filterMap_cons]
    cases hrf : ruleFor d f with
    | none =>
      rw [hrf] at h
      have : offer P ord rules tm d rty n (f, i) = none := by
        cases d <;> simp only [ruleFor] at hrf <;> unfold offer <;> simp only [Bool.false_eq_true, if_false, if_true] at hrf <;> simp [hrf]
      rw [this]; exact candidates_offer P ord rules tm d rty n fs cs h
    | some r =>
      rw [hrf] at h
      simp only at h
      have hoff : offer P ord rules tm d rty n (f, i) =
          (match tryBuildPath P ord rules tm (ends d rty r.rustTy).1 (ends d rty r.rustTy).2 n with
            | .some p _ => some ⟨p, i, r.rustTy, r.inter⟩
            | _ => none) := by
        cases d <;> simp only [ruleFor, Bool.false_eq_true, if_false, if_true] at hrf <;> unfold offer <;> simp [hrf, ends]
      rw [hoff]
      cases ht : tryBuildPath P ord rules tm (ends d rty r.rustTy).1 (ends d rty r.rustTy).2 n with
      | panic => rw [ht] at h; cases h
      | none g => rw [ht] at h; exact candidates_offer P ord rules tm d rty n fs cs h
      | some p g =>
        rw [ht] at h
        simp only [Option.map_eq_some_iff] at h
        obtain ⟨cs', h1, rfl⟩ := h
        simp only
        rw [candidates_offer P ord rules tm d rty n fs cs' h1]

theorem deepen_offer (P : PopFn) (ord : List Nat → List Nat) (rules : List (Rule τ κ)) (tm : TM τ κ) (d : Dir) (rty : Nat)
    (fts : List FT) : ∀ (k n : Nat) cs, deepen P ord rules tm d rty fts n k = some cs → cs ≠ [] →
      ∃ m, n ≤ m ∧ m < n + k ∧ (∀ j, n ≤ j → j < m → fts.zipIdx.filterMap (offer P ord rules tm d rty j) = []) ∧
        fts.zipIdx.filterMap (offer P ord rules tm d rty m) = cs
  | 0, n, cs, h, hne => by simp [deepen] at h; exact absurd h hne
  | k + 1, n, cs, h, hne => by
    unfold deepen at h
    cases hc : candidates P ord rules tm d rty n fts.zipIdx with
    | none => rw [hc] at h; cases h
    | some cs' =>
      rw [hc] at h
      have ho := candidates_offer P ord rules tm d rty n _ _ hc
      cases cs' with
      | nil =>
        simp only at h
        obtain ⟨m, a, b, c, e⟩ := deepen_offer P ord rules tm d rty fts k (n + 1) cs h hne
        refine ⟨m, by omega, by omega, fun j h1 h2 => ?_, e⟩
        rcases Nat.lt_or_ge n j with hj | hj
        · exact c j hj h2
        · rw [show j = n by omega]; exact ho
      | cons c cs' =>
        simp only [Option.some.injEq] at h
        subst h
        exact ⟨n, by omega, by omega, fun j h1 h2 => by omega, ho⟩

theorem candKeys_cost (P : PopFn) (ord : List Nat → List Nat) (hord : ∀ l, (ord l).Perm l) (rules : List (Rule τ κ)) (d : Dir)
    (tm : TM τ κ) : ∀ (cs : List (Cand τ κ)) (tm0 tm' : TM τ κ) ks, Ok tm0 → Grows tm tm0 →
      (∀ c ∈ cs, c.rustTy < tm.g.nodes.length ∧ ∀ t, c.inter = some t → t < tm.g.nodes.length) →
      candKeys P ord rules d tm0 cs = some (ks, tm') → ∀ x ∈ ks, Cost P ord rules tm d x.2 x.1
  | [], tm0, tm', ks, _, _, _, h => by simp [candKeys] at h; simp [h.1]
  | c :: cs, tm0, tm', ks, hok, hg, hb, h => by
    unfold candKeys at h
    cases hk : candKey P ord rules d tm0 c with
    | none => rw [hk] at h; cases h
    | some x =>
      obtain ⟨k, tm1⟩ := x
      rw [hk] at h; simp only at h
      have hstep : Ok tm1 ∧ Grows tm tm1 ∧ Cost P ord rules tm d c k := by
        unfold candKey at hk
        unfold Cost
        cases hi : c.inter with
        | none =>
          rw [hi] at hk
          simp only [Option.some.injEq, Prod.mk.injEq] at hk
          obtain ⟨e1, e2⟩ := hk
          subst e2
          exact ⟨hok, hg, e1.symm⟩
        | some it =>
          rw [hi] at hk
          simp only at hk
          have hlen := hg.1.len
          have l1 : c.rustTy < tm0.g.nodes.length := by have := (hb c (by simp)).1; omega
          have l2 : it < tm0.g.nodes.length := by have := (hb c (by simp)).2 it hi; omega
          have key : ∀ a b, a < tm0.g.nodes.length → b < tm0.g.nodes.length →
              (match findOrBuildPath P ord rules tm0 a b with
                | none => none
                | some (tm', PathRes.ok p) => some (c.path.pathLen + p.length, tm')
                | some (tm', .err) => some (c.path.pathLen, tm')
                | some (_, .panic) => none) = some (k, tm1) →
              Ok tm1 ∧ Grows tm tm1 ∧ ∃ r, findOrBuildPath P ord rules tm0 a b = some (tm1, r) ∧
                k = c.path.pathLen + (match r with | .ok p => p.length | _ => 0) := by
            intro a b ha hb' hm
            obtain ⟨tm2, r, f1, f2, f3, f4⟩ := C48_find_or_build P ord hord rules tm0 hok a b ha hb'
            rw [f1] at hm
            rcases f4 with ⟨p, rfl, _⟩ | ⟨rfl, _, _⟩
            · simp only [Option.some.injEq, Prod.mk.injEq] at hm
              obtain ⟨e1, e2⟩ := hm
              subst e2
              exact ⟨f2, hg.trans f3, .ok p, f1, e1.symm⟩
            · simp only [Option.some.injEq, Prod.mk.injEq] at hm
              obtain ⟨e1, e2⟩ := hm
              subst e2
              exact ⟨f2, hg.trans f3, .err, f1, by simp [e1]⟩
          cases d
          · simp only [Bool.false_eq_true, if_false] at hk
            obtain ⟨g1, g2, r, g3, g4⟩ := key _ _ l2 l1 hk
            exact ⟨g1, g2, tm0, tm1, r, hg, g3, g4⟩
          · simp only [if_true] at hk
            obtain ⟨g1, g2, r, g3, g4⟩ := key _ _ l1 l2 hk
            exact ⟨g1, g2, tm0, tm1, r, hg, g3, g4⟩
      cases hr : candKeys P ord rules d tm1 cs with
      | none => rw [hr] at h; cases h
      | some y =>
        obtain ⟨ks', tm2⟩ := y
        rw [hr] at h; simp only [Option.some.injEq, Prod.mk.injEq] at h
        obtain ⟨e1, e2⟩ := h
        subst e1
        intro x hx
        rcases List.mem_cons.1 hx with e | hx
        · rw [e]; exact hstep.2.2
        · exact candKeys_cost P ord hord rules d tm cs tm1 tm2 ks' hstep.1 hstep.2.1
            (fun c' hc' => hb c' (by simp [hc'])) hr x hx

/-- When conversions have to be built from generic rules: the search uses the smallest number of rounds (at most 7) with
which any foreign type can be reached; offers that are only intermediate types of other offers are dropped; among the others
the one with the shortest whole conversion is selected, and among equally short ones the one registered first. -/
theorem C16_deep_minimal_first (P : PopFn) (ord : List Nat → List Nat) (hord : ∀ l, (ord l).Perm l) (rules : List (Rule τ κ))
    (tm tm' : TM τ κ) (hok : Ok tm) (fts : List FT) (d : Dir) (rty f : Nat) (hr : rty < tm.g.nodes.length)
    (hf : FtsOk tm.g fts)
    (hi : ∀ f ∈ fts, ∀ r, f.into = some r ∨ f.frm = some r → ∀ t, r.inter = some t → t < tm.g.nodes.length)
    (h : deepSearch P ord rules tm fts d rty = some (some f, tm')) :
    ∃ n cs ks, 1 ≤ n ∧ n ≤ 7 ∧
      (∀ m, 1 ≤ m → m < n → fts.zipIdx.filterMap (offer P ord rules tm d rty m) = []) ∧
      fts.zipIdx.filterMap (offer P ord rules tm d rty n) = cs ∧
      ks.map (·.2) = cs.filter (fun c => decide (∀ c' ∈ cs, c'.inter ≠ some c.rustTy)) ∧
      (∀ x ∈ ks, Cost P ord rules tm d x.2 x.1) ∧
      ∃ pre post k c, ks = pre ++ (k, c) :: post ∧ c.ft = f ∧ (∀ y ∈ pre, k < y.1) ∧ (∀ y ∈ post, k ≤ y.1) := by
  obtain ⟨cs, tm1, pre, post, k, c, h1, h2, h3, h4, h5, h6⟩ := deep_minimal_first P ord rules tm tm' fts d rty f h
  have hret : retain cs = cs.filter (fun c => decide (∀ c' ∈ cs, c'.inter ≠ some c.rustTy)) := by
    unfold retain
    apply List.filter_congr
    intro x _
    rw [Bool.eq_iff_iff]
    simp only [Bool.not_eq_true', List.contains_eq_mem, decide_eq_false_iff_not, List.mem_filterMap, not_exists, not_and,
      decide_eq_true_eq]
  have hne : cs ≠ [] := by
    rintro rfl
    simp [retain] at h6
  obtain ⟨n, n1, n2, n3, n4⟩ := deepen_offer P ord rules tm d rty fts _ _ cs h1 hne
  refine ⟨n, cs, pre ++ (k, c) :: post, n1, by simp only [maxTryBuildPathSteps] at n2; omega, n3, n4, by rw [h6, hret], ?_,
    pre, post, k, c, rfl, h3, h4, h5⟩
  refine candKeys_cost P ord hord rules d tm _ tm tm1 _ hok (Grows.refl _) ?_ h2
  obtain ⟨cs2, k1, k2⟩ := deepen_spec P ord hord rules tm hok d rty hr fts hf maxTryBuildPathSteps 1
  rw [h1] at k1
  cases k1
  intro c' hc'
  have hmem : c' ∈ cs := (List.mem_filter.1 hc').1
  obtain ⟨_, b, f', hf', r, hr1, hr2⟩ := k2 c' hmem
  refine ⟨b, fun t ht => hi f' hf' r ?_ t (hr2 ▸ ht)⟩
  cases d
  · exact Or.inr hr1
  · exact Or.inl hr1

/-- The claim "deep search never fails an internal assertion", without the restriction on intermediate types. -/
def DeepNeverPanics : Prop :=
  ∀ (rules : List (Rule Unit Nat)) (tm : TM Unit Nat) (fts : List FT) (d : Dir) (rty : Nat), Ok tm →
    rty < tm.g.nodes.length → FtsOk tm.g fts →
    (∀ f ∈ fts, ∀ d r, ruleFor d f = some r → ∀ t, r.inter = some t → t < tm.g.nodes.length) →
    deepSearch firstMin id rules tm fts d rty ≠ none

/-- Types `T`, `X` (first foreign type), `Y` (second foreign type, with intermediate type `I`), and a rule `Y ⟶ T`. -/
def badTM : TM Unit Nat :=
  addRule (addNode (addNode (addNode (addNode empty ⟨['T'], ()⟩).1 ⟨['X'], ()⟩).1 ⟨['Y'], ()⟩).1 ⟨['I'], ()⟩).1 2 0 0
/-- A generic rule from one name to another. -/
def oneRule (a b : Text) : Rule Unit Nat := fun f _ _ => if f.name = a then some (⟨b, ()⟩, 0) else none
/-- `T ⟶ A ⟶ X`, `A ⟶ I`, `T ⟶ B ⟶ Y`. -/
def badRules : List (Rule Unit Nat) :=
  [oneRule ['T'] ['A'], oneRule ['A'] ['X'], oneRule ['A'] ['I'], oneRule ['T'] ['B'], oneRule ['B'] ['Y']]
/-- Two foreign types. -/
def badFts : List FT := [⟨some ⟨1, none⟩, none⟩, ⟨some ⟨2, some 3⟩, none⟩]

/-- Finding: evaluating the length of the second candidate's conversion to its intermediate type inserts the rule `T ⟶ A`
into the type map; inserting the chosen first candidate then hits `assert!(find_edge(..).is_none())`
(macroslib/src/typemap.rs:1141). -/
theorem C16_deep_can_panic : ¬ DeepNeverPanics := by
  intro h
  refine h badRules badTM badFts true 0 ?_ (by decide) ?_ ?_ (by decide)
  · exact addRule_ok (addNode_ok (addNode_ok (addNode_ok (addNode_ok ok_empty _) _) _) _) (by decide) (by decide) 0
  · intro f hf r hr
    simp only [badFts, List.mem_cons, List.not_mem_nil, or_false] at hf
    rcases hf with rfl | rfl <;> simp at hr <;> subst hr <;> decide
  · intro f hf d r hr t ht
    simp only [badFts, List.mem_cons, List.not_mem_nil, or_false] at hf
    rcases hf with rfl | rfl <;> cases d <;> simp [ruleFor] at hr <;> subst hr <;> simp at ht
    subst ht; decide

/-! ## Concrete cases -/

/-- A graph with chains `a ⟶ b ⟶ c` and `a ⟶ d`. -/
def exG2 : Graph (RTy Unit) Nat :=
  ⟨[⟨['a'], ()⟩, ⟨['b'], ()⟩, ⟨['c'], ()⟩, ⟨['d'], ()⟩], [⟨0, 1, 0⟩, ⟨1, 2, 0⟩, ⟨0, 3, 0⟩]⟩

example : fastSearch firstMin exG2 [⟨some ⟨2, none⟩, none⟩, ⟨some ⟨1, none⟩, none⟩, ⟨some ⟨3, none⟩, some ⟨0, none⟩⟩] true 0 =
    some (1, 1) := by decide

/-- Visible part. -/
def view (r : Option (Option Nat × TM Unit Nat)) : Option (Option Nat × Nat) := r.map fun x => (x.1, x.2.g.edges.length)

example : view (deepSearch firstMin id badRules badTM [⟨some ⟨1, none⟩, none⟩, ⟨some ⟨2, none⟩, none⟩] true 0) =
    some (some 0, 3) := by decide

end Flapi.Select
