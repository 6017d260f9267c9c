import Verif.TypeMap.MapType
import Verif.TypeMap.SelectProps
import Verif.TypeMap.GenericProps
import Verif.TypeMap.ForeignTypesProps
/-! # C65: which foreign type a Rust type gets -/
namespace Flapi.MapType
open Flapi Graph TMap Select

variable {κ : Type}

/-! ## Specification -/

/-- Foreign type number `f` represents the Rust type `ty` in direction `d`: there is a chain of `n` known conversions between `ty`
and the Rust type in the foreign type's rule for that direction. -/
def Rep (st : St κ) (d : Dir) (ty f n : Nat) : Prop :=
  ∃ (ft : FTypes.FType Text) (r : FTypes.FRule Text) (p : List Nat), st.ftypes[f]? = some ft ∧
    (match d with
      | true => ft.into = some r ∧ IsPath st.tm.g ty r.rustTy p
      | false => ft.frm = some r ∧ IsPath st.tm.g r.rustTy ty p) ∧ p.length = n

/-- The state is well formed: type map invariants (C14), rules mention existing types, remembered answers are right. -/
structure Good (st : St κ) : Prop where
  tm : TMap.Ok st.tm
  rule : ∀ ft ∈ st.ftypes, ∀ r, ft.into = some r ∨ ft.frm = some r → r.rustTy < st.tm.g.nodes.length ∧
    ∀ it, r.inter = some it → it.ty < st.tm.g.nodes.length
  to_ : ∀ ty f, st.toCache ty = some f → ∃ n, Rep st true ty f n
  from_ : ∀ ty f, st.fromCache ty = some f → ∃ n, Rep st false ty f n

/-- Types keep their names and numbers and no conversion is lost. -/
structure Keeps (a b : TM TyD κ) : Prop where
  len : a.g.nodes.length ≤ b.g.nodes.length
  path : ∀ x y p, IsPath a.g x y p → IsPath b.g x y p
  names : ∀ s i, a.names s = some i → b.names s = some i

/-- What is assumed of the parts left abstract: they keep states well formed and lose no conversion. -/
structure EnvOk (E : Env κ) : Prop where
  ord : ∀ l, (E.ord l).Perm l
  hints : ∀ st d, Good st → Good (E.hints st d) ∧ Keeps st.tm (E.hints st d).tm
  inst : ∀ st i m d st', Good st → E.inst st i m d = .ok st' → Good st' ∧ Keeps st.tm st'.tm
  err : ∀ st i m d e, E.inst st i m d = .err e → ∃ msg, e = .inst msg

/-! ## Deep search results are genuine -/

theorem Keeps.refl (a : TM TyD κ) : Keeps a a := ⟨Nat.le_refl _, fun _ _ _ h => h, fun _ _ h => h⟩
theorem Keeps.trans {a b c : TM TyD κ} (h : Keeps a b) (k : Keeps b c) : Keeps a c :=
  ⟨Nat.le_trans h.len k.len, fun x y p hp => k.path x y p (h.path x y p hp), fun s i hs => k.names s i (h.names s i hs)⟩
theorem Keeps.of {a b : TM TyD κ} (h : Grows a b) : Keeps a b := ⟨h.ext.len, fun _ _ _ hp => h.ext.path hp, h.names⟩

section Deep
variable {τ : Type}

theorem mergePath_of_some : ∀ (l : List (RTy τ × RTy τ × κ)) (tm tm' : TM τ κ), TMap.Ok tm → mergePath tm l = some tm' →
    TMap.Ok tm' ∧ Grows tm tm' ∧ ∀ x ∈ l, NAdj tm' x.1.name x.2.1.name
  | [], tm, tm', hok, h => by
    simp only [mergePath, Option.some.injEq] at h
    subst h
    exact ⟨hok, Grows.refl _, by simp⟩
  | (a, b, w) :: rest, tm, tm', hok, h => by
    unfold mergePath at h
    have hok1 := addNode_ok hok a
    have hok2 := addNode_ok hok1 b
    have hg1 := grows_addNode tm a
    have hg2 := grows_addNode (addNode tm a).1 b
    have hna : (addNode (addNode tm a).1 b).1.names a.name = some (addNode tm a).2 :=
      hg2.names _ _ (addNode_names a)
    have hnb : (addNode (addNode tm a).1 b).1.names b.name = some (addNode (addNode tm a).1 b).2 := addNode_names b
    simp only at h
    generalize addNode tm a = q1 at *
    obtain ⟨tm1, i⟩ := q1
    simp only at *
    generalize addNode tm1 b = q2 at *
    obtain ⟨tm2, j⟩ := q2
    simp only at *
    cases he : findEdge tm2.g i j with
    | some e => rw [he] at h; cases h
    | none =>
      rw [he] at h
      simp only at h
      have hok3 := addEdge_ok hok2 (hok2.lt hna) (hok2.lt hnb) w (findEdge_none.1 he)
      have hg3 : Grows tm2 { tm2 with g := (Graph.addEdge tm2.g i j w).1 } :=
        ⟨⟨⟨[], by simp [Graph.addEdge]⟩, [⟨i, j, w⟩], rfl⟩, fun _ _ h => h⟩
      obtain ⟨r2, r3, r4⟩ := mergePath_of_some rest _ tm' hok3 h
      refine ⟨r2, (hg1.trans (hg2.trans hg3)).trans r3, ?_⟩
      intro x hx
      rcases List.mem_cons.1 hx with rfl | hx
      · exact NAdj.grows r3 ⟨i, j, hna, hnb, ⟨i, j, w⟩, by simp [Graph.addEdge], rfl, rfl⟩
      · exact r4 x hx

theorem built_path_later (P : PopFn) (ord : List Nat → List Nat) (hord : ∀ l, (ord l).Perm l)
    (rules : List (Rule τ κ)) (tm tm1 tm' : TM τ κ) (hok : TMap.Ok tm) (a b n : Nat) (ha : a < tm.g.nodes.length)
    (hb : b < tm.g.nodes.length) (p : PossiblePath τ κ) (g : Graph (RTy τ) κ)
    (h : tryBuildPath P ord rules tm a b n = .some p g) (hg : Grows tm tm1) (hok1 : TMap.Ok tm1)
    (hm : mergePath tm1 p.newEdges = some tm') :
    TMap.Ok tm' ∧ Grows tm1 tm' ∧ ∃ q, IsPath tm'.g a b q := by
  unfold tryBuildPath at h
  rw [List.getElem?_eq_getElem hb] at h
  simp only at h
  have hgood := tryRounds_good P ord hord rules (goal := b) (goalTy := tm.g.nodes[b]) n (snapNew tm) [a]
    (snapInv_new hok) ha (by simp; exact ⟨[], rfl⟩)
  cases hx : tryRounds P ord rules a b tm.g.nodes[b] n (snapNew tm) [a] with
  | cont s m => rw [hx] at h; cases h
  | panic => rw [hx] at h; cases h
  | found s path =>
    rw [hx] at h hgood
    obtain ⟨hs, hext, hpath, hmin⟩ := hgood
    simp only [BuildRes.some.injEq] at h
    obtain ⟨rfl, rfl⟩ := h
    obtain ⟨m2, m3, m4⟩ := mergePath_of_some _ tm1 tm' hok1 hm
    refine ⟨m2, m3, ?_⟩
    have hra := List.getElem?_eq_getElem ha
    have hrb := List.getElem?_eq_getElem hb
    have hext : Ext tm.g s.g := hext
    have hgg := hg.trans m3
    obtain ⟨q0, hq0, hl⟩ := transfer_path hs hgg hok m2 m4 path a b a b _ _ (fun e he => he) hpath
      (hext.node hra) (hext.node hrb) (hgg.names _ _ (hok.byName _ _ hra)) (hgg.names _ _ (hok.byName _ _ hrb))
    exact ⟨q0, hq0⟩

theorem candKeys_grows (P : PopFn) (ord : List Nat → List Nat) (hord : ∀ l, (ord l).Perm l) (rules : List (Rule τ κ)) (d : Dir) :
    ∀ (cs : List (Cand τ κ)) (tm tm' : TM τ κ) ks, TMap.Ok tm →
      (∀ c ∈ cs, c.rustTy < tm.g.nodes.length ∧ ∀ t, c.inter = some t → t < tm.g.nodes.length) →
      candKeys P ord rules d tm cs = some (ks, tm') → TMap.Ok tm' ∧ Grows tm tm'
  | [], tm, tm', ks, hok, _, h => by
    simp only [candKeys, Option.some.injEq, Prod.mk.injEq] at h
    rw [← h.2]; exact ⟨hok, Grows.refl _⟩
  | c :: cs, tm, tm', ks, hok, hb, h => by
    unfold candKeys at h
    cases hk : candKey P ord rules d tm c with
    | none => rw [hk] at h; cases h
    | some x =>
      obtain ⟨k, tm1⟩ := x
      rw [hk] at h; simp only at h
      have hstep : TMap.Ok tm1 ∧ Grows tm tm1 := by
        unfold candKey at hk
        cases hi : c.inter with
        | none =>
          rw [hi] at hk
          simp only [Option.some.injEq, Prod.mk.injEq] at hk
          rw [← hk.2]; exact ⟨hok, Grows.refl _⟩
        | some it =>
          rw [hi] at hk
          simp only at hk
          have l1 := (hb c (by simp)).1
          have l2 := (hb c (by simp)).2 it hi
          cases d
          · simp only [Bool.false_eq_true, if_false] at hk
            obtain ⟨tm2, r, f1, f2, f3, f4⟩ := C48_find_or_build P ord hord rules tm hok it c.rustTy l2 l1
            rw [f1] at hk
            rcases f4 with ⟨p, rfl, _⟩ | ⟨rfl, _, _⟩
            all_goals
              simp only [Option.some.injEq, Prod.mk.injEq] at hk
              rw [← hk.2]; exact ⟨f2, f3⟩
          · simp only [if_true] at hk
            obtain ⟨tm2, r, f1, f2, f3, f4⟩ := C48_find_or_build P ord hord rules tm hok c.rustTy it l1 l2
            rw [f1] at hk
            rcases f4 with ⟨p, rfl, _⟩ | ⟨rfl, _, _⟩
            all_goals
              simp only [Option.some.injEq, Prod.mk.injEq] at hk
              rw [← hk.2]; exact ⟨f2, f3⟩
      cases hr : candKeys P ord rules d tm1 cs with
      | none => rw [hr] at h; cases h
      | some y =>
        obtain ⟨ks', tm2⟩ := y
        rw [hr] at h; simp only [Option.some.injEq, Prod.mk.injEq] at h
        have hlen := hstep.2.ext.len
        obtain ⟨e1, e2⟩ := candKeys_grows P ord hord rules d cs tm1 tm2 ks' hstep.1
          (fun c' hc' => ⟨Nat.lt_of_lt_of_le (hb c' (by simp [hc'])).1 hlen,
            fun t ht => Nat.lt_of_lt_of_le ((hb c' (by simp [hc'])).2 t ht) hlen⟩) hr
        rw [← h.2]; exact ⟨e1, hstep.2.trans e2⟩

/-- **C16/C65**: what the deep search selects is convertible afterwards: the type map keeps everything and contains a chain between
the type and the selected foreign type's Rust type. -/
theorem C16_deep_genuine (P : PopFn) (ord : List Nat → List Nat) (hord : ∀ l, (ord l).Perm l) (rules : List (Rule τ κ))
    (tm tm' : TM τ κ) (hok : TMap.Ok tm) (fts : List FT) (d : Dir) (rty : Nat) (r : Option Nat) (hr : rty < tm.g.nodes.length)
    (hf : FtsOk tm.g fts)
    (hi : ∀ f ∈ fts, ∀ r, f.into = some r ∨ f.frm = some r → ∀ t, r.inter = some t → t < tm.g.nodes.length)
    (h : deepSearch P ord rules tm fts d rty = some (r, tm')) :
    TMap.Ok tm' ∧ Grows tm tm' ∧ ∀ f, r = some f → ∃ n, Represents tm'.g fts d rty f n := by
  unfold deepSearch at h
  obtain ⟨cs, h1, h2⟩ := deepen_spec P ord hord rules tm hok d rty hr fts hf maxTryBuildPathSteps 1
  rw [h1] at h
  simp only at h
  have hb : ∀ c ∈ retain cs, c.rustTy < tm.g.nodes.length ∧ ∀ t, c.inter = some t → t < tm.g.nodes.length := by
    intro c hc
    obtain ⟨_, b, f, hf1, r, hr1, hr2⟩ := h2 c (List.mem_filter.1 hc).1
    refine ⟨b, fun t ht => hi f hf1 r ?_ t (hr2 ▸ ht)⟩
    cases d
    · exact Or.inr hr1
    · exact Or.inl hr1
  cases hk : candKeys P ord rules d tm (retain cs) with
  | none => rw [hk] at h; cases h
  | some x =>
    obtain ⟨ks, tm1⟩ := x
    rw [hk] at h; simp only at h
    obtain ⟨hok1, hg1⟩ := candKeys_grows P ord hord rules d _ tm tm1 ks hok hb hk
    cases hm : firstMinBy ks with
    | none =>
      rw [hm] at h
      simp only [Option.some.injEq, Prod.mk.injEq] at h
      rw [← h.1, ← h.2]
      exact ⟨hok1, hg1, by simp⟩
    | some kc =>
      obtain ⟨k, c⟩ := kc
      rw [hm] at h; simp only at h
      cases hp : mergePath tm1 c.path.newEdges with
      | none => rw [hp] at h; cases h
      | some tm2 =>
        rw [hp] at h
        simp only [Option.some.injEq, Prod.mk.injEq] at h
        obtain ⟨rfl, rfl⟩ := h
        obtain ⟨pre, post, e1, _, _⟩ := firstMinBy_spec ks (k, c) hm
        have hc : c ∈ retain cs := by
          have e2 := candKeys_map P ord rules d _ _ _ _ hk
          rw [e1] at e2
          rw [← e2]; simp
        have hc' : c ∈ cs := (List.mem_filter.1 hc).1
        obtain ⟨n, -, -, -, n4⟩ := deepen_offer P ord rules tm d rty fts _ _ cs h1 (by rintro rfl; simp at hc')
        rw [← n4, List.mem_filterMap] at hc'
        obtain ⟨⟨f, i⟩, hx, ho⟩ := hc'
        have hfi : fts[i]? = some f := by
          have := List.mem_zipIdx hx
          simp only [Nat.zero_add, Nat.sub_zero] at this
          rw [this.2.2]; exact List.getElem?_eq_getElem _
        have hfm : f ∈ fts := List.mem_of_getElem? hfi
        unfold offer at ho
        cases d
        · simp only at ho
          cases hrf : f.frm with
          | none => rw [hrf] at ho; cases ho
          | some r =>
            rw [hrf] at ho; simp only at ho
            have hrl := hf f hfm r (Or.inr hrf)
            cases ht : tryBuildPath P ord rules tm r.rustTy rty n with
            | panic => rw [ht] at ho; cases ho
            | none g => rw [ht] at ho; cases ho
            | some p g =>
              rw [ht] at ho
              simp only [Option.some.injEq] at ho
              subst ho
              obtain ⟨q1, q2, q, hq⟩ := built_path_later P ord hord rules tm tm1 tm2 hok _ _ n hrl hr p g ht hg1 hok1 hp
              exact ⟨q1, hg1.trans q2, fun f' hf' => ⟨_, f, r, q, by cases hf'; exact hfi, ⟨hrf, hq⟩, rfl⟩⟩
        · simp only at ho
          cases hrf : f.into with
          | none => rw [hrf] at ho; cases ho
          | some r =>
            rw [hrf] at ho; simp only at ho
            have hrl := hf f hfm r (Or.inl hrf)
            cases ht : tryBuildPath P ord rules tm rty r.rustTy n with
            | panic => rw [ht] at ho; cases ho
            | none g => rw [ht] at ho; cases ho
            | some p g =>
              rw [ht] at ho
              simp only [Option.some.injEq] at ho
              subst ho
              obtain ⟨q1, q2, q, hq⟩ := built_path_later P ord hord rules tm tm1 tm2 hok _ _ n hr hrl p g ht hg1 hok1 hp
              exact ⟨q1, hg1.trans q2, fun f' hf' => ⟨_, f, r, q, by cases hf'; exact hfi, ⟨hrf, hq⟩, rfl⟩⟩
end Deep

/-! ## The searches -/

theorem rep_iff (st : St κ) (d : Dir) (ty f n : Nat) : Rep st d ty f n ↔ Represents st.tm.g st.fts d ty f n := by
  constructor
  · rintro ⟨ft, r, p, h1, h2, h3⟩
    refine ⟨bareFt ft, bare r, p, by simp [St.fts, h1], ?_, h3⟩
    cases d
    · exact ⟨by simp [bareFt, h2.1], h2.2⟩
    · exact ⟨by simp [bareFt, h2.1], h2.2⟩
  · rintro ⟨ft, r, p, h1, h2, h3⟩
    simp only [St.fts, List.getElem?_map, Option.map_eq_some_iff] at h1
    obtain ⟨ft, h1, rfl⟩ := h1
    cases d
    · simp only [bareFt, Option.map_eq_some_iff] at h2
      obtain ⟨⟨r, h2, rfl⟩, h4⟩ := h2
      exact ⟨ft, r, p, h1, ⟨h2, h4⟩, h3⟩
    · simp only [bareFt, Option.map_eq_some_iff] at h2
      obtain ⟨⟨r, h2, rfl⟩, h4⟩ := h2
      exact ⟨ft, r, p, h1, ⟨h2, h4⟩, h3⟩

theorem Good.fts {st : St κ} (h : Good st) : FtsOk st.tm.g st.fts := by
  intro f hf r hr
  simp only [St.fts, List.mem_map] at hf
  obtain ⟨ft, hft, rfl⟩ := hf
  simp only [bareFt, Option.map_eq_some_iff] at hr
  rcases hr with ⟨r, hr, rfl⟩ | ⟨r, hr, rfl⟩
  · exact (h.rule ft hft r (Or.inl hr)).1
  · exact (h.rule ft hft r (Or.inr hr)).1

theorem Good.inter {st : St κ} (h : Good st) : ∀ f ∈ st.fts, ∀ r, f.into = some r ∨ f.frm = some r → ∀ t, r.inter = some t →
    t < st.tm.g.nodes.length := by
  intro f hf r hr t ht
  simp only [St.fts, List.mem_map] at hf
  obtain ⟨ft, hft, rfl⟩ := hf
  simp only [bareFt, Option.map_eq_some_iff] at hr
  rcases hr with ⟨r, hr, rfl⟩ | ⟨r, hr, rfl⟩
  all_goals
    simp only [bare, Option.map_eq_some_iff] at ht
    obtain ⟨it, hit, rfl⟩ := ht
  · exact (h.rule ft hft r (Or.inl hr)).2 it hit
  · exact (h.rule ft hft r (Or.inr hr)).2 it hit

theorem Rep.mono {a b : St κ} {d : Dir} {ty f n : Nat} (h : Rep a d ty f n) (hf : b.ftypes = a.ftypes) (hp : Keeps a.tm b.tm) :
    Rep b d ty f n := by
  obtain ⟨ft, r, p, h1, h2, h3⟩ := h
  refine ⟨ft, r, p, by rw [hf]; exact h1, ?_, h3⟩
  cases d
  · exact ⟨h2.1, hp.path _ _ _ h2.2⟩
  · exact ⟨h2.1, hp.path _ _ _ h2.2⟩

theorem Good.grow {st : St κ} (h : Good st) (tm : TM TyD κ) (hok : TMap.Ok tm) (hk : Keeps st.tm tm) : Good { st with tm := tm } := by
  refine ⟨hok, ?_, ?_, ?_⟩
  · intro ft hft r hr
    obtain ⟨a, b⟩ := h.rule ft hft r hr
    exact ⟨Nat.lt_of_lt_of_le a hk.len, fun it hit => Nat.lt_of_lt_of_le (b it hit) hk.len⟩
  · intro ty f hc
    obtain ⟨n, hn⟩ := h.to_ ty f hc
    exact ⟨n, hn.mono rfl hk⟩
  · intro ty f hc
    obtain ⟨n, hn⟩ := h.from_ ty f hc
    exact ⟨n, hn.mono rfl hk⟩

/-- What remembering an answer changes. -/
def remember (st : St κ) (d : Dir) (ty f : Nat) : St κ :=
  match d with
  | true => { st with toCache := put st.toCache ty f }
  | false => { st with fromCache := put st.fromCache ty f }

/-- The remembered answer for a type and direction. -/
def remembered (st : St κ) (d : Dir) (ty : Nat) : Option Nat :=
  match d with
  | true => st.toCache ty
  | false => st.fromCache ty

theorem Good.remembered {st : St κ} (h : Good st) {d : Dir} {ty f : Nat} (hc : remembered st d ty = some f) :
    ∃ n, Rep st d ty f n := by
  cases d
  · exact h.from_ ty f hc
  · exact h.to_ ty f hc

theorem Good.remember {st : St κ} (h : Good st) (d : Dir) (ty f n : Nat) (hr : Rep st d ty f n) : Good (remember st d ty f) := by
  have tr : ∀ d' t g k, Rep st d' t g k → Rep (MapType.remember st d ty f) d' t g k := by
    intro d' t g k hk
    cases d <;> exact hk
  cases d
  · refine ⟨h.tm, h.rule, fun t g hg => ?_, fun t g hg => ?_⟩
    · obtain ⟨k, hk⟩ := h.to_ t g hg; exact ⟨k, tr _ _ _ _ hk⟩
    · simp only [MapType.remember, put] at hg
      split at hg
      · rename_i e; cases hg; subst e; exact ⟨n, tr _ _ _ _ hr⟩
      · obtain ⟨k, hk⟩ := h.from_ t g hg; exact ⟨k, tr _ _ _ _ hk⟩
  · refine ⟨h.tm, h.rule, fun t g hg => ?_, fun t g hg => ?_⟩
    · simp only [MapType.remember, put] at hg
      split at hg
      · rename_i e; cases hg; subst e; exact ⟨n, tr _ _ _ _ hr⟩
      · obtain ⟨k, hk⟩ := h.to_ t g hg; exact ⟨k, tr _ _ _ _ hk⟩
    · obtain ⟨k, hk⟩ := h.from_ t g hg; exact ⟨k, tr _ _ _ _ hk⟩

theorem search_unfold (E : Env κ) (st : St κ) (d fast : Bool) (ty : Nat) :
    search E st d fast ty =
      match remembered st d ty with
      | some f => some (some f, st)
      | none =>
        match fastSearch E.P st.tm.g st.fts d ty with
        | some (_, f) => some (some f, remember st d ty f)
        | none =>
          if fast then some (none, st)
          else
            match deepSearch E.P E.ord E.rules (E.hints st d).tm (E.hints st d).fts d ty with
            | none => none
            | some (r, tm) => some (r, { E.hints st d with tm := tm }) := by
  cases d <;> rfl

theorem search_ok {E : Env κ} (hE : EnvOk E) {st st' : St κ} (hg : Good st) {d fast : Bool} {ty : Nat}
    (hty : ty < st.tm.g.nodes.length) {r : Option Nat} (h : search E st d fast ty = some (r, st')) :
    Good st' ∧ Keeps st.tm st'.tm ∧ (∀ f, r = some f → ∃ n, Rep st' d ty f n) ∧
      (r = none → (∀ f n, ¬ Rep st d ty f n) ∧ (fast = true → st' = st)) := by
  rw [search_unfold] at h
  cases hc : remembered st d ty with
  | some f =>
    rw [hc] at h
    simp only [Option.some.injEq, Prod.mk.injEq] at h
    obtain ⟨rfl, rfl⟩ := h
    refine ⟨hg, Keeps.refl _, fun g hg' => ?_, by simp⟩
    cases hg'
    exact hg.remembered hc
  | none =>
    rw [hc] at h
    simp only at h
    cases hf : fastSearch E.P st.tm.g st.fts d ty with
    | some x =>
      obtain ⟨n, f⟩ := x
      rw [hf] at h
      simp only [Option.some.injEq, Prod.mk.injEq] at h
      obtain ⟨rfl, rfl⟩ := h
      have hrep := (C16_minimal_first E.P st.tm.g hg.tm.wf st.fts d ty n f hty hg.fts hf).1
      have hr := (rep_iff st d ty f n).2 hrep
      refine ⟨hg.remember d ty f n hr, ?_, fun g hg' => ?_, by simp⟩
      · cases d <;> exact Keeps.refl _
      · cases hg'
        refine ⟨n, hr.mono ?_ ?_⟩
        · cases d <;> rfl
        · cases d <;> exact Keeps.refl _
    | none =>
      rw [hf] at h
      have hno : ∀ f n, ¬ Rep st d ty f n := by
        intro f n hr
        exact (C16_none_iff E.P st.tm.g hg.tm.wf st.fts d ty hty hg.fts).1 hf f n ((rep_iff st d ty f n).1 hr)
      cases fast with
      | true =>
        simp only [if_true, Option.some.injEq, Prod.mk.injEq] at h
        obtain ⟨rfl, rfl⟩ := h
        exact ⟨hg, Keeps.refl _, by simp, fun _ => ⟨hno, fun _ => rfl⟩⟩
      | false =>
        simp only [Bool.false_eq_true, if_false] at h
        obtain ⟨hg1, hk1⟩ := hE.hints st d hg
        cases hd : deepSearch E.P E.ord E.rules (E.hints st d).tm (E.hints st d).fts d ty with
        | none => rw [hd] at h; cases h
        | some x =>
          obtain ⟨r1, tm⟩ := x
          rw [hd] at h
          simp only [Option.some.injEq, Prod.mk.injEq] at h
          obtain ⟨rfl, rfl⟩ := h
          obtain ⟨e1, e2, e3⟩ := C16_deep_genuine E.P E.ord hE.ord E.rules (E.hints st d).tm tm hg1.tm (E.hints st d).fts d ty r1
            (Nat.lt_of_lt_of_le hty hk1.len) hg1.fts hg1.inter hd
          refine ⟨hg1.grow tm e1 (Keeps.of e2), hk1.trans (Keeps.of e2), fun f hf' => ?_, fun hr => ⟨hno, by simp⟩⟩
          obtain ⟨n, hn⟩ := e3 f hf'
          exact ⟨n, (rep_iff _ d ty f n).2 hn⟩

theorem finish_ok {E : Env κ} (hE : EnvOk E) {st st' : St κ} (hg : Good st) {d : Bool} {ty f : Nat}
    (hty : ty < st.tm.g.nodes.length) (h : finish E st d ty = .ok (f, st')) :
    Good st' ∧ Keeps st.tm st'.tm ∧ ∃ n, Rep st' d ty f n := by
  unfold finish at h
  split at h
  · cases h
  · cases h
  · rename_i g st2 hs
    simp only [Res.ok.injEq, Prod.mk.injEq] at h
    obtain ⟨rfl, rfl⟩ := h
    obtain ⟨a, b, c, -⟩ := search_ok hE hg hty hs
    exact ⟨a, b, c _ rfl⟩

theorem finish_err {E : Env κ} (hE : EnvOk E) {st : St κ} (hg : Good st) {d : Bool} {ty : Nat} {e : Er}
    (hty : ty < st.tm.g.nodes.length) (h : finish E st d ty = .err e) :
    e = .noConversion ty d ∧ ∀ f n, ¬ Rep st d ty f n := by
  unfold finish at h
  split at h
  · cases h
  · rename_i st2 hs
    simp only [Res.err.injEq] at h
    obtain ⟨-, -, -, c⟩ := search_ok hE hg hty hs
    exact ⟨h.symm, (c rfl).1⟩
  · cases h

theorem doMap_ok {E : Env κ} (hE : EnvOk E) {st st' : St κ} (hg : Good st) {d : Bool} {ty f : Nat}
    (h : doMap E st d ty = .ok (f, st')) : Good st' ∧ Keeps st.tm st'.tm ∧ ∃ n, Rep st' d ty f n := by
  unfold doMap at h
  cases hn : st.tm.g.nodes[ty]? with
  | none => rw [hn] at h; cases h
  | some r =>
    have hty := (List.getElem?_eq_some_iff.1 hn).1
    rw [hn] at h
    simp only at h
    cases hs : search E st d true ty with
    | none => rw [hs] at h; cases h
    | some x =>
      obtain ⟨o, st1⟩ := x
      obtain ⟨a, b, c, e⟩ := search_ok hE hg hty hs
      rw [hs] at h
      cases o with
      | some g =>
        simp only [Res.ok.injEq, Prod.mk.injEq] at h
        obtain ⟨rfl, rfl⟩ := h
        exact ⟨a, b, c _ rfl⟩
      | none =>
        simp only at h
        obtain rfl := (e rfl).2 rfl
        unfold generic at h
        split at h
        · cases h
        · exact finish_ok hE hg hty h
        · split at h
          · cases h
          · split at h
            · rename_i st2 hi
              obtain ⟨i1, i2⟩ := hE.inst _ _ _ _ _ hg hi
              obtain ⟨f1, f2, f3⟩ := finish_ok hE i1 (Nat.lt_of_lt_of_le hty i2.len) h
              exact ⟨f1, i2.trans f2, f3⟩
            · cases h
            · cases h
            · cases h

/-! ## C65: precedence -/

/-- **C65**: conversions that are already known decide first: if some foreign type represents the Rust type, then the one with the
shortest chain of conversions is used, and of equally short ones the one registered first; generic rules are not looked at, nothing
is added, and only the answer is remembered.  Nothing but the known conversions matters (`E`, `E'` arbitrary). -/
theorem C65_known_first (E : Env κ) (st : St κ) (hg : Good st) (d : Dir) (ty g k : Nat) (hty : ty < st.tm.g.nodes.length)
    (hc : remembered st d ty = none) (hrep : Rep st d ty g k) :
    ∃ f n, doMap E st d ty = .ok (f, remember st d ty f) ∧ Rep st d ty f n ∧
      ∀ f' n', Rep st d ty f' n' → n ≤ n' ∧ (f' < f → n < n') := by
  cases hf : fastSearch E.P st.tm.g st.fts d ty with
  | none =>
    exact absurd ((rep_iff st d ty g k).1 hrep) ((C16_none_iff E.P st.tm.g hg.tm.wf st.fts d ty hty hg.fts).1 hf g k)
  | some x =>
    obtain ⟨n, f⟩ := x
    obtain ⟨h1, h2⟩ := C16_minimal_first E.P st.tm.g hg.tm.wf st.fts d ty n f hty hg.fts hf
    refine ⟨f, n, ?_, (rep_iff st d ty f n).2 h1, fun f' n' h => h2 f' n' ((rep_iff st d ty f' n').1 h)⟩
    unfold doMap
    rw [List.getElem?_eq_getElem hty, search_unfold, hc]
    simp only [hf]

/-- **C65**: an answer given before is given again, and the state stays as it is. -/
theorem C65_remembered (E : Env κ) (st : St κ) (d : Dir) (ty f : Nat) (hty : ty < st.tm.g.nodes.length)
    (hc : remembered st d ty = some f) : doMap E st d ty = .ok (f, st) := by
  unfold doMap
  rw [List.getElem?_eq_getElem hty, search_unfold, hc]

/-! ## C65: generic rules -/

attribute [local irreducible] reprC

/-- Type `v` is known and known to implement the trait with path `l`/`s`; for C++ the name `SwigTypeIsReprC` instead means that some
foreign type stands for `v` in both directions without conversion code. -/
def KnownTrait (E : Env κ) (st : St κ) (v : Ast.Ty) (l : Bool) (s : Ast.Segs) : Prop :=
  ∃ i r, st.tm.names (E.nm v) = some i ∧ st.tm.g.nodes[i]? = some r ∧
    (E.java = false ∧ l = false ∧ s = .cons reprC .none .nil → ∃ ft ∈ st.ftypes, ft.into = some ⟨i, none⟩ ∧ ft.frm = some ⟨i, none⟩) ∧
    (¬ (E.java = false ∧ l = false ∧ s = .cons reprC .none .nil) → l = false ∧ ∃ id ∈ r.ty.impls, s = .cons id .none .nil)

/-- The rule fits the type `t` with values `m` for its parameters: its Rust type for the direction matches, and every parameter with
trait bounds has a value that is known to implement them. -/
def Fits (E : Env κ) (st : St κ) (d : Dir) (t : Ast.Ty) (g : GRule) (m : Ast.TyMap) : Prop :=
  ∃ p, (g.simple = some p ∨ (g.simple = none ∧ (if d then g.ltr else g.rtl) = some p)) ∧
    Ast.matchTy t p (Ast.fresh (g.params.map (·.1))) = (true, m) ∧
    ∀ k l s, Ast.Generic.Requires ⟨p, p, g.params, g.wh, none, none⟩ k l s → ∃ v, m.get k = some (some v) ∧ KnownTrait E st v l s

/-- `where` predicates constrain single names only. -/
def PlainWhere (g : GRule) : Prop := ∀ t b, (t, b) ∈ g.wh → ∃ k, t.normName = [.ident k]

theorem side_iff (g : GRule) (d : Dir) (p : Ast.Ty) :
    g.side d = some p ↔ (g.simple = some p ∨ (g.simple = none ∧ (if d then g.ltr else g.rtl) = some p)) := by
  unfold GRule.side
  cases g.simple <;> simp

theorem related_iff (st : St κ) (i : Nat) :
    hasRelated st i = true ↔ ∃ ft ∈ st.ftypes, ft.into = some ⟨i, none⟩ ∧ ft.frm = some ⟨i, none⟩ := by
  unfold hasRelated
  have h := FTypes.C15_related st.ftypes i
  cases hf : FTypes.findRelated st.ftypes i with
  | none =>
    simp only [Option.isSome_none, Bool.false_eq_true, false_iff, not_exists, not_and]
    intro ft hft h1 h2
    exact h.2 hf ft hft ⟨h1, h2⟩
  | some j =>
    obtain ⟨ft, h1, h2, h3, -⟩ := h.1 j hf
    simp only [Option.isSome_some, true_iff]
    exact ⟨ft, List.mem_of_getElem? h1, h2, h3⟩

theorem hasTrait_iff (java : Bool) (st : St κ) (i : Nat) (impls : List Text) (p : Ast.TPath) : hasTrait java st i impls p = true ↔
    (java = false ∧ p.lead = false ∧ p.segs = .cons reprC .none .nil →
      ∃ ft ∈ st.ftypes, ft.into = some ⟨i, none⟩ ∧ ft.frm = some ⟨i, none⟩) ∧
    (¬ (java = false ∧ p.lead = false ∧ p.segs = .cons reprC .none .nil) →
      p.lead = false ∧ ∃ id ∈ impls, p.segs = .cons id .none .nil) := by
  have hc : (!java && p.isIdent reprC) = true ↔ (java = false ∧ p.lead = false ∧ p.segs = .cons reprC .none .nil) := by
    rw [Bool.and_eq_true, Ast.isIdent_iff, Bool.not_eq_true']
  unfold hasTrait
  rw [← hc, ← related_iff st i]
  by_cases hx : (!java && p.isIdent reprC) = true
  · rw [if_pos hx]
    exact ⟨fun h => ⟨fun _ => h, fun h' => absurd hx h'⟩, fun h => h.1 hx⟩
  · rw [if_neg hx, List.any_eq_true]
    constructor
    · rintro ⟨id, h1, h2⟩
      rw [Ast.isIdent_iff] at h2
      exact ⟨fun h => absurd h hx, fun _ => ⟨h2.1, id, h1, h2.2⟩⟩
    · rintro ⟨-, h⟩
      obtain ⟨h1, id, h2, h3⟩ := h hx
      exact ⟨id, h2, (Ast.isIdent_iff p id).2 ⟨h1, h3⟩⟩

theorem implTraits_iff (E : Env κ) (st : St κ) (v : Ast.Ty) (ps : List Ast.TPath) (hne : ps ≠ []) :
    implTraits E st v ps = true ↔ ∀ p ∈ ps, KnownTrait E st v p.lead p.segs := by
  unfold implTraits KnownTrait
  cases hn : st.tm.names (E.nm v) with
  | none =>
    simp only [Bool.false_eq_true, false_iff]
    obtain ⟨p, r, rfl⟩ := List.exists_cons_of_ne_nil hne
    intro h
    obtain ⟨i, r, h1, -⟩ := h p (by simp)
    cases h1
  | some i =>
    cases hr : st.tm.g.nodes[i]? with
    | none =>
      simp only [hr, Bool.false_eq_true, false_iff]
      obtain ⟨p, r, rfl⟩ := List.exists_cons_of_ne_nil hne
      intro h
      obtain ⟨i', r, h1, h2, -⟩ := h p (by simp)
      cases h1
      rw [hr] at h2; cases h2
    | some r =>
      simp only [hr, List.all_eq_true]
      refine forall_congr' fun p => forall_congr' fun _ => ?_
      have key : hasTrait E.java st i r.ty.impls p = true ↔
          (E.java = false ∧ p.lead = false ∧ p.segs = .cons reprC .none .nil →
            ∃ ft ∈ st.ftypes, ft.into = some ⟨i, none⟩ ∧ ft.frm = some ⟨i, none⟩) ∧
          (¬ (E.java = false ∧ p.lead = false ∧ p.segs = .cons reprC .none .nil) →
            p.lead = false ∧ ∃ id ∈ r.ty.impls, p.segs = .cons id .none .nil) := hasTrait_iff E.java st i r.ty.impls p
      rw [key]
      constructor
      · intro h; exact ⟨i, r, rfl, hr, h⟩
      · rintro ⟨i', r', h1, h2, h3⟩
        cases h1
        rw [hr] at h2; cases h2
        exact h3

theorem bounds_iff (E : Env κ) (st : St κ) (g : GRule) (p : Ast.Ty) (m : Ast.TyMap) (bs : List (Text × List Ast.TPath))
    (hb : Ast.getTraitBounds (g.gen p) = some bs) :
    bs.all (boundOk E st m) = true ↔
    ∀ k l s, Ast.Generic.Requires ⟨p, p, g.params, g.wh, none, none⟩ k l s → ∃ v, m.get k = some (some v) ∧ KnownTrait E st v l s := by
  simp only [Ast.getTraitBounds, Option.map_eq_some_iff] at hb
  obtain ⟨wb, hw, rfl⟩ := hb
  have hmem : ∀ e : Text × List Ast.TPath, e ∈ Ast.inlineBounds (g.gen p).params ++ wb ↔
      (∃ b, (e.1, b) ∈ g.params ∧ e.2 = Ast.traitNames b [] ∧ e.2 ≠ []) ∨
      ∃ t b, (t, b) ∈ g.wh ∧ t.normName = [.ident e.1] ∧ e.2 = Ast.traitNames b [] ∧ e.2 ≠ [] := by
    intro e
    rw [List.mem_append, Ast.mem_inlineBounds, Ast.mem_whereBounds _ _ hw]
    rfl
  rw [List.all_eq_true]
  constructor
  · intro h k l s hr
    have go : ∀ b : Ast.Bounds, b.Requires l s → (k, Ast.traitNames b []) ∈ Ast.inlineBounds (g.gen p).params ++ wb →
        ∃ v, m.get k = some (some v) ∧ KnownTrait E st v l s := by
      intro b hb hm
      have h1 := h _ hm
      unfold boundOk at h1
      split at h1
      · rename_i v hv
        have hmem : (⟨l, s⟩ : Ast.TPath) ∈ Ast.traitNames b [] := (Ast.mem_traitNames b [] ⟨l, s⟩).2 (Or.inr hb)
        exact ⟨v, hv, (implTraits_iff E st v _ (List.ne_nil_of_mem hmem)).1 h1 _ hmem⟩
      · cases h1
    rcases hr with ⟨b, h1, h2⟩ | ⟨t, b, h1, h2, h3⟩
    · refine go b h2 ((hmem _).2 (Or.inl ⟨b, h1, rfl, ?_⟩))
      exact List.ne_nil_of_mem ((Ast.mem_traitNames b [] ⟨l, s⟩).2 (Or.inr h2))
    · refine go b h3 ((hmem _).2 (Or.inr ⟨t, b, h1, h2, rfl, ?_⟩))
      exact List.ne_nil_of_mem ((Ast.mem_traitNames b [] ⟨l, s⟩).2 (Or.inr h3))
  · intro h e he
    have go : ∀ b : Ast.Bounds, e.2 = Ast.traitNames b [] → e.2 ≠ [] →
        (∀ l s, b.Requires l s → Ast.Generic.Requires ⟨p, p, g.params, g.wh, none, none⟩ e.1 l s) →
        boundOk E st m e = true := by
      intro b hb hne hreq
      have hall : ∀ q ∈ e.2, ∃ v, m.get e.1 = some (some v) ∧ KnownTrait E st v q.lead q.segs := by
        intro q hq
        rw [hb, Ast.mem_traitNames] at hq
        rcases hq with hq | hq
        · simp at hq
        · exact h _ _ _ (hreq _ _ hq)
      obtain ⟨q, r, hqr⟩ := List.exists_cons_of_ne_nil hne
      obtain ⟨v, hv, -⟩ := hall q (by rw [hqr]; simp)
      unfold boundOk
      rw [hv]
      refine (implTraits_iff E st v e.2 hne).2 fun q hq => ?_
      obtain ⟨v', hv', hk⟩ := hall q hq
      rw [hv] at hv'; cases hv'
      exact hk
    rcases (hmem e).1 he with ⟨b, h1, h2, h3⟩ | ⟨t, b, h1, h2, h3, h4⟩
    · exact go b h2 h3 fun l s hr => Or.inl ⟨b, h1, hr⟩
    · exact go b h3 h4 fun l s hr => Or.inr ⟨t, b, h1, h2, hr⟩

theorem plainWhere_some {g : GRule} (h : PlainWhere g) (p : Ast.Ty) : ∃ bs, Ast.getTraitBounds (g.gen p) = some bs := by
  have : ∀ l : List (Ast.Ty × Ast.Bounds), (∀ t b, (t, b) ∈ l → ∃ k, t.normName = [.ident k]) → ∃ bs, Ast.whereBounds l = some bs := by
    intro l
    induction l with
    | nil => intro _; exact ⟨[], rfl⟩
    | cons a l ih =>
      intro hl
      obtain ⟨t, b⟩ := a
      obtain ⟨k, hk⟩ := hl t b (by simp)
      obtain ⟨bs, hbs⟩ := ih fun t b h => hl t b (by simp [h])
      have hp := (Ast.paramKey_iff t k).2 hk
      simp only [Ast.whereBounds, hp, hbs]
      exact ⟨_, rfl⟩
  obtain ⟨bs, hbs⟩ := this g.wh h
  exact ⟨Ast.inlineBounds g.params ++ bs, by simp only [Ast.getTraitBounds, GRule.gen, hbs, Option.map_some]⟩

theorem applies_iff (E : Env κ) (st : St κ) (d : Dir) (t : Ast.Ty) (g : GRule) (hw : PlainWhere g) :
    (∀ m, applies E st d t g = .yes m ↔ Fits E st d t g m) ∧ (applies E st d t g = .no ↔ ∀ m, ¬ Fits E st d t g m) := by
  have hfr : ∀ q : List (Text × Ast.Bounds), (SubstMap.ofList (q.map fun q => (q.1, none)) : Ast.TyMap) = Ast.fresh (q.map (·.1)) := by
    intro q; simp [Ast.fresh, List.map_map, Function.comp_def]
  have hyes : ∀ m, applies E st d t g = .yes m ↔ Fits E st d t g m := by
    intro m
    unfold applies Fits
    rw [hfr]
    cases hs : g.side d with
    | none =>
      simp only [reduceCtorEq, false_iff]
      rintro ⟨p, h1, -⟩
      rw [(side_iff g d p).2 h1] at hs; cases hs
    | some p =>
      simp only
      obtain ⟨bs, hbs⟩ := plainWhere_some hw p
      have uniq : ∀ p', (g.simple = some p' ∨ (g.simple = none ∧ (if d then g.ltr else g.rtl) = some p')) ↔ p' = p := by
        intro p'
        rw [← side_iff, hs]; simp [eq_comm]
      simp only [uniq, exists_eq_left]
      cases hm : Ast.matchTy t p (Ast.fresh (g.params.map (·.1))) with
      | mk b m' =>
        cases b with
        | false => simp
        | true =>
          simp only [hbs, Prod.mk.injEq, true_and]
          rw [← bounds_iff E st g p m bs hbs]
          by_cases hb : bs.all (boundOk E st m') = true
          · rw [if_pos hb]
            simp only [App.yes.injEq]
            constructor
            · rintro rfl; exact ⟨rfl, hb⟩
            · exact fun h => h.1
          · rw [if_neg hb]
            simp only [reduceCtorEq, false_iff, not_and]
            rintro rfl
            exact hb
  refine ⟨hyes, ?_⟩
  constructor
  · intro h m hf
    rw [(hyes m).2 hf] at h; cases h
  · intro h
    cases ha : applies E st d t g with
    | no => rfl
    | yes m => exact absurd ((hyes m).1 ha) (h m)
    | panic =>
      exfalso
      unfold applies at ha
      split at ha
      · cases ha
      · rename_i p _
        split at ha
        · cases ha
        · obtain ⟨bs, hbs⟩ := plainWhere_some hw p
          rw [hbs] at ha
          simp only at ha
          split at ha <;> cases ha

theorem pick_first (E : Env κ) (st : St κ) (d : Dir) (t : Ast.Ty) : ∀ (gs : List GRule) (i0 i : Nat) (g : GRule) (m : Ast.TyMap),
    (∀ g ∈ gs, PlainWhere g) → gs[i]? = some g → Fits E st d t g m → (∀ j g', j < i → gs[j]? = some g' → ∀ m', ¬ Fits E st d t g' m') →
    pick E st d t i0 gs = .rule (i0 + i) m
  | [], _, _, _, _, _, h, _, _ => by simp at h
  | x :: gs, i0, 0, g, m, hw, h, hf, _ => by
    simp only [List.getElem?_cons_zero, Option.some.injEq] at h
    subst h
    unfold pick
    rw [((applies_iff E st d t x (hw x (by simp))).1 m).2 hf]
    rfl
  | x :: gs, i0, i + 1, g, m, hw, h, hf, hno => by
    unfold pick
    rw [(applies_iff E st d t x (hw x (by simp))).2.2 (hno 0 x (by omega) rfl)]
    simp only
    rw [pick_first E st d t gs (i0 + 1) i g m (fun g hg => hw g (by simp [hg])) (by simpa using h) hf
      (fun j g' hj hg' => hno (j + 1) g' (by omega) (by simpa using hg'))]
    congr 1; omega

theorem pick_none (E : Env κ) (st : St κ) (d : Dir) (t : Ast.Ty) : ∀ (gs : List GRule) (i0 : Nat),
    (∀ g ∈ gs, PlainWhere g) → (∀ g ∈ gs, ∀ m, ¬ Fits E st d t g m) → pick E st d t i0 gs = .none
  | [], _, _, _ => rfl
  | x :: gs, i0, hw, hno => by
    unfold pick
    rw [(applies_iff E st d t x (hw x (by simp))).2.2 (hno x (by simp))]
    exact pick_none E st d t gs (i0 + 1) (fun g hg => hw g (by simp [hg])) (fun g hg => hno g (by simp [hg]))

theorem doMap_generic (E : Env κ) (st : St κ) (hg : Good st) (d : Dir) (ty : Nat) (r : RTy TyD) (hr : st.tm.g.nodes[ty]? = some r)
    (hc : remembered st d ty = none) (hno : ∀ f n, ¬ Rep st d ty f n) : doMap E st d ty = generic E st d ty r.ty.ty := by
  have hty := (List.getElem?_eq_some_iff.1 hr).1
  have hf : fastSearch E.P st.tm.g st.fts d ty = none :=
    (C16_none_iff E.P st.tm.g hg.tm.wf st.fts d ty hty hg.fts).2 fun f n h => hno f n ((rep_iff st d ty f n).2 h)
  unfold doMap
  rw [hr, search_unfold, hc]
  simp only [hf, if_true]

/-- **C65**: if no known conversion leads to a foreign type, the first generic rule (in the order of registration) that fits the
type is instantiated, with the values found for its parameters, and no other; a failing instantiation fails the mapping; in Java a
rule that defines C types is refused; and if the instance makes the type representable, the shortest, earliest representation in
the extended state is used. -/
theorem C65_first_generic (E : Env κ) (st : St κ) (hg : Good st) (hw : ∀ g ∈ E.grules, PlainWhere g) (d : Dir) (ty : Nat)
    (t : RTy TyD) (ht : st.tm.g.nodes[ty]? = some t) (hc : remembered st d ty = none) (hno : ∀ f n, ¬ Rep st d ty f n)
    (i : Nat) (g : GRule) (m : Ast.TyMap) (hi : E.grules[i]? = some g) (hfit : Fits E st d t.ty.ty g m)
    (hfirst : ∀ j g', j < i → E.grules[j]? = some g' → ∀ m', ¬ Fits E st d t.ty.ty g' m') :
    (E.java = true → g.cTypes = true → doMap E st d ty = .err (.cTypes i)) ∧
    (¬ (E.java = true ∧ g.cTypes = true) →
      (∀ e, E.inst st i m d = .err e → doMap E st d ty = .err e) ∧
      (∀ st' f n, E.inst st i m d = .ok st' → Good st' → ty < st'.tm.g.nodes.length → remembered st' d ty = none → Rep st' d ty f n →
        ∃ f n, doMap E st d ty = .ok (f, remember st' d ty f) ∧ Rep st' d ty f n ∧
          ∀ f' n', Rep st' d ty f' n' → n ≤ n' ∧ (f' < f → n < n'))) := by
  rw [doMap_generic E st hg d ty t ht hc hno]
  unfold generic
  rw [pick_first E st d t.ty.ty E.grules 0 i g m hw hi hfit hfirst, Nat.zero_add]
  simp only [hi, Option.map_some]
  refine ⟨fun h1 h2 => by simp [h1, h2], fun hn => ?_⟩
  have hcond : ¬ ((E.java && some g.cTypes == some true) = true) := by
    intro h
    rw [Bool.and_eq_true] at h
    exact hn ⟨h.1, by simpa using h.2⟩
  rw [if_neg hcond]
  refine ⟨fun e he => by rw [he], fun st' f n hs hg' hty' hc' hrep => ?_⟩
  rw [hs]
  simp only
  cases hf : fastSearch E.P st'.tm.g st'.fts d ty with
  | none =>
    exact absurd ((rep_iff st' d ty f n).1 hrep) ((C16_none_iff E.P st'.tm.g hg'.tm.wf st'.fts d ty hty' hg'.fts).1 hf f n)
  | some x =>
    obtain ⟨k, f⟩ := x
    obtain ⟨h1, h2⟩ := C16_minimal_first E.P st'.tm.g hg'.tm.wf st'.fts d ty k f hty' hg'.fts hf
    refine ⟨f, k, ?_, (rep_iff st' d ty f k).2 h1, fun f' n' h => h2 f' n' ((rep_iff st' d ty f' n').1 h)⟩
    unfold finish
    rw [search_unfold, hc']
    simp only [hf]

/-- **C65**: whenever a generic rule fits, the rule's Rust type with the found values in place of the parameters is the given type
(up to reference lifetimes, qualified selves and leading `::`), if the given type mentions no type named like a parameter. -/
theorem C65_fits_sound (E : Env κ) (st : St κ) (d : Dir) (t : Ast.Ty) (g : GRule) (m : Ast.TyMap) (h : Fits E st d t g m)
    (hp : ∀ p ∈ [g.simple, g.ltr, g.rtl], ∀ q, p = some q → q.okPat (g.params.map (·.1)) = true)
    (hf : t.free (g.params.map (·.1)) = true) :
    ∃ p, (g.simple = some p ∨ g.simple = none ∧ (if d then g.ltr else g.rtl) = some p) ∧ (p.subst m).erase = t.erase := by
  obtain ⟨p, h1, h2, -⟩ := h
  refine ⟨p, h1, Ast.C17_match_sound _ p t m h2 ?_ hf⟩
  rcases h1 with h1 | ⟨-, h1⟩
  · exact hp g.simple (by simp) p h1
  · cases d
    · exact hp g.rtl (by simp) p h1
    · exact hp g.ltr (by simp) p h1

/-- **C65**: a generic rule fits every instance of its Rust type whose parameter values are known to implement the traits asked for
(the conditions on the pattern are those of C17). -/
theorem C65_instance_fits (E : Env κ) (st : St κ) (d : Dir) (g : GRule) (p : Ast.Ty) (σ : Ast.TyMap)
    (hside : g.simple = some p ∨ g.simple = none ∧ (if d then g.ltr else g.rtl) = some p)
    (hσ : ∀ k, σ.get k ≠ none → k ∈ g.params.map (·.1))
    (hfree : (p.subst σ).free (g.params.map (·.1)) = true)
    (hfull : p.full (g.params.map (·.1)) = true) (hlin : Ast.Lin [] (p.occ (g.params.map (·.1))))
    (hocc : ∀ k ∈ g.params.map (·.1), ∃ b, (k, b) ∈ p.occ (g.params.map (·.1)))
    (hkeys : ∀ k l s, Ast.Generic.Requires ⟨p, p, g.params, g.wh, none, none⟩ k l s → ∃ v, σ.get k = some (some v) ∧ KnownTrait E st v l s) :
    ∃ m, Fits E st d (p.subst σ) g m ∧ ∀ k, m.get k = σ.get k := by
  have h := Ast.C17_conv_complete (fun _ => []) ⟨p, p, g.params.map fun q => (q.1, .nil), [], none, none⟩ ⟨p.subst σ, [], []⟩ none
    (fun _ => none) σ [] (by simpa [Ast.Generic.names, List.map_map, Function.comp_def] using hσ) rfl
    (by simpa [Ast.Generic.names, List.map_map, Function.comp_def] using hfree)
    (by simpa [Ast.Generic.names, List.map_map, Function.comp_def] using hfull)
    (by simpa [Ast.Generic.names, List.map_map, Function.comp_def] using hlin)
    (by simpa [Ast.Generic.names, List.map_map, Function.comp_def] using hocc)
    (by
      have : ∀ l : List (Text × Ast.Bounds), Ast.inlineBounds (l.map fun q => (q.1, Ast.Bounds.nil)) = [] := by
        intro l
        induction l with
        | nil => rfl
        | cons a l ih => simp only [List.map_cons, Ast.inlineBounds, Ast.traitNames, if_true, ih]
      simp only [Ast.getTraitBounds, Ast.whereBounds, Option.map_some, this, List.append_nil])
    (by
      intro k v _ l s hr
      rcases hr with ⟨b, hb, hb2⟩ | ⟨t, b, hb, _⟩
      · simp only [List.mem_map, Prod.mk.injEq] at hb
        obtain ⟨_, _, _, rfl⟩ := hb
        exact absurd hb2 (by simp [Ast.Bounds.Requires])
      · simp at hb) rfl rfl
  obtain ⟨m, h1, h2⟩ := h
  have hm : Ast.matchTy (p.subst σ) p (Ast.fresh (g.params.map (·.1))) = (true, m) := by
    unfold Ast.isConvPossible at h1
    have hn : (SubstMap.ofList ((g.params.map fun q => (q.1, Ast.Bounds.nil)).map fun q => (q.1, none)) : Ast.TyMap) =
        Ast.fresh (g.params.map (·.1)) := by
      simp [Ast.fresh, List.map_map, Function.comp_def]
    simp only [hn] at h1
    cases hx : Ast.matchTy (p.subst σ) p (Ast.fresh (g.params.map (·.1))) with
    | mk b m' =>
      rw [hx] at h1
      cases b with
      | false => simp at h1
      | true =>
        simp only at h1
        split at h1
        · cases h1
        · split at h1
          · cases h1
          · split at h1
            · split at h1
              · cases h1
              · simp only [Ast.useGoal, Ast.finishConv, Ast.finishTo, Ast.Conv.yes.injEq] at h1
                rw [h1.2.2]
            · simp only [Ast.useGoal, Ast.finishConv, Ast.finishTo, Ast.Conv.yes.injEq] at h1
              rw [h1.2.2]
  refine ⟨m, ⟨p, hside, hm, ?_⟩, h2⟩
  intro k l s hr
  obtain ⟨v, hv, hk⟩ := hkeys k l s hr
  exact ⟨v, by rw [h2]; exact hv, hk⟩

/-! ## C65: the result of a mapping -/

/-- Foreign type `ft` (number `f`, with rule `r` for direction `d`) represents `ty` by a chain of known conversions. -/
def Chosen (st : St κ) (d : Dir) (ty f : Nat) (ft : FTypes.FType Text) (r : FTypes.FRule Text) : Prop :=
  st.ftypes[f]? = some ft ∧
    match d with
    | true => ft.into = some r ∧ ∃ p, IsPath st.tm.g ty r.rustTy p
    | false => ft.frm = some r ∧ ∃ p, IsPath st.tm.g r.rustTy ty p

/-- The name of the foreign type that users of the generated code see. -/
def shown (java : Bool) (i : Info) : FTypes.UName :=
  match java, i.conv with
  | false, some c => c.1
  | _, _ => i.name

/-- The name of the foreign type that crosses the language boundary. -/
def wire (java : Bool) (i : Info) : FTypes.UName :=
  match java, i.conv with
  | true, some c => c.1
  | _, _ => i.name

/-- The mapping without foreign conversion code: the boundary uses the Rust type of the foreign type's rule. -/
def Direct (java : Bool) (st : St κ) (d : Dir) (ty : Nat) (i : Info) : Prop :=
  ∃ f ft r, Chosen st d ty f ft r ∧ r.inter = none ∧
    shown java i = ft.name ∧ wire java i = ft.name ∧ i.rt = r.rustTy ∧ i.conv = none ∧ i.mods = ft.provided ∧ i.i2o = false

/-- The mapping with conversion code in the foreign language: the boundary uses the intermediate Rust type of the rule, which is
itself exactly the Rust type of a foreign type without conversion code. -/
def Via (java : Bool) (st1 st2 : St κ) (d : Dir) (ty : Nat) (i : Info) : Prop :=
  ∃ f ft r it g gt rg, Chosen st1 d ty f ft r ∧ r.inter = some it ∧
    Chosen st2 d it.ty g gt rg ∧ rg.inter = none ∧ rg.rustTy = it.ty ∧
    shown java i = ft.name ∧ wire java i = gt.name ∧ i.rt = it.ty ∧ i.conv.map (·.2) = some it.code ∧
    (java = false → i.mods = ft.provided ++ gt.provided ∧ i.i2o = it.inputToOutput) ∧
    (java = true → ft.provided = [] ∧ gt.provided = [] ∧ it.inputToOutput = false)

theorem chosen_of {st : St κ} {d : Dir} {ty f n : Nat} {ft : FTypes.FType Text} {r : FTypes.FRule Text} (h : Rep st d ty f n)
    (h1 : st.ftypes[f]? = some ft) (h2 : ruleOf d ft = some r) : Chosen st d ty f ft r := by
  obtain ⟨ft', r', p, a, b, -⟩ := h
  rw [h1] at a; cases a
  refine ⟨h1, ?_⟩
  cases d
  · simp only [ruleOf, Bool.false_eq_true, if_false] at h2
    rw [h2] at b
    exact ⟨h2, p, by have := b.1; cases this; exact b.2⟩
  · simp only [ruleOf, if_true] at h2
    rw [h2] at b
    exact ⟨h2, p, by have := b.1; cases this; exact b.2⟩

theorem mapType_succ (E : Env κ) (n : Nat) (st : St κ) (ty : Nat) (d : Dir) (i : Info) (st' : St κ)
    (h : mapType E (n + 1) st ty d = .ok (i, st')) :
    ∃ f st1 ft r, doMap E st d ty = .ok (f, st1) ∧ st1.ftypes[f]? = some ft ∧ (E.java = true → ft.provided = []) ∧
      ruleOf d ft = some r ∧
      ((r.inter = none ∧ i = ⟨ft.name, r.rustTy, none, ft.provided, false⟩ ∧ st' = st1) ∨
        ∃ it i0, r.inter = some it ∧ (E.java = true → it.inputToOutput = false) ∧ mapType E n st1 it.ty d = .ok (i0, st') ∧
          i0.conv = none ∧ it.ty = i0.rt ∧ i = combine E.java ft it i0) := by
  unfold mapType at h
  cases hd : doMap E st d ty with
  | err e => rw [hd] at h; cases h
  | panic => rw [hd] at h; cases h
  | out => rw [hd] at h; cases h
  | ok x =>
    obtain ⟨f, st1⟩ := x
    rw [hd] at h
    simp only at h
    cases hf : st1.ftypes[f]? with
    | none => rw [hf] at h; cases h
    | some ft =>
      rw [hf] at h
      simp only at h
      split at h
      · cases h
      · rename_i hj
        have hj' : E.java = true → ft.provided = [] := by
          intro hj1
          simp only [hj1, Bool.true_and, Bool.not_eq_true', Bool.not_eq_false, List.isEmpty_iff] at hj
          exact hj
        cases hr : ruleOf d ft with
        | none => rw [hr] at h; cases h
        | some r =>
          rw [hr] at h
          simp only at h
          refine ⟨f, st1, ft, r, rfl, hf, hj', hr, ?_⟩
          cases hi : r.inter with
          | none =>
            rw [hi] at h
            simp only [Res.ok.injEq, Prod.mk.injEq] at h
            exact Or.inl ⟨rfl, h.1.symm, h.2.symm⟩
          | some it =>
            rw [hi] at h
            simp only at h
            split at h
            · cases h
            · rename_i hio
              cases hm : mapType E n st1 it.ty d with
              | err e => rw [hm] at h; cases h
              | panic => rw [hm] at h; cases h
              | out => rw [hm] at h; cases h
              | ok y =>
                obtain ⟨i0, st2⟩ := y
                rw [hm] at h
                simp only at h
                split at h
                · cases h
                · rename_i hc
                  simp only [Res.ok.injEq, Prod.mk.injEq] at h
                  obtain ⟨rfl, rfl⟩ := h
                  simp only [Bool.or_eq_true, bne_iff_ne, ne_eq, not_or, Bool.not_eq_true, Option.isSome_eq_false_iff,
                    Option.isNone_iff_eq_none, Classical.not_not] at hc
                  refine Or.inr ⟨it, i0, rfl, ?_, hm, hc.1, hc.2, rfl⟩
                  intro hj1
                  simpa [hj1] using hio

/-- **C65**: what a successful mapping reports.  The state stays well formed, keeps all types and conversions, and the report
describes a foreign type that represents the type in this state: either directly, or with foreign conversion code, in which case
the Rust type at the boundary is the rule's intermediate type, which is exactly the Rust type of a foreign type without conversion
code. -/
theorem C65_result {E : Env κ} (hE : EnvOk E) : ∀ (n : Nat) (st st' : St κ) (ty : Nat) (d : Dir) (i : Info), Good st →
    mapType E n st ty d = .ok (i, st') →
    Good st' ∧ Keeps st.tm st'.tm ∧
      (Direct E.java st' d ty i ∨ ∃ st1, Keeps st.tm st1.tm ∧ Keeps st1.tm st'.tm ∧ Via E.java st1 st' d ty i)
  | 0, _, _, _, _, _, _, h => by cases h
  | n + 1, st, st', ty, d, i, hg, h => by
    obtain ⟨f, st1, ft, r, h1, h2, h3, h4, h5⟩ := mapType_succ E n st ty d i st' h
    obtain ⟨g1, g2, k, g3⟩ := doMap_ok hE hg h1
    have hch := chosen_of g3 h2 h4
    rcases h5 with ⟨e1, rfl, rfl⟩ | ⟨it, i0, e1, e2, e3, e4, e5, rfl⟩
    · refine ⟨g1, g2, Or.inl ⟨f, ft, r, hch, e1, ?_, ?_, rfl, rfl, rfl, rfl⟩⟩
      · unfold shown; split <;> simp_all
      · unfold wire; split <;> simp_all
    · obtain ⟨q1, q2, q3⟩ := C65_result hE n st1 st' it.ty d i0 g1 e3
      have hdir : Direct E.java st' d it.ty i0 := by
        rcases q3 with q3 | ⟨st2, -, -, _, _, _, it', _, _, _, -, -, -, -, -, -, -, -, q5, -⟩
        · exact q3
        · rw [e4] at q5; cases q5
      obtain ⟨g, gt, rg, w1, w2, w3, w4, w5, w6, w7, w8⟩ := hdir
      have w9 : i0.name = gt.name := by
        unfold wire at w4
        rw [e4] at w4
        cases hj : E.java <;> rw [hj] at w4 <;> exact w4
      refine ⟨q1, g2.trans q2, Or.inr ⟨st1, g2, q2, f, ft, r, it, g, gt, rg, hch, e1, w1, w2, by rw [← w5, ← e5], ?_⟩⟩
      cases hj : E.java with
      | false => exact ⟨rfl, w9, rfl, rfl, fun _ => ⟨by simp [combine, w7], rfl⟩, by simp⟩
      | true =>
        refine ⟨rfl, w9, rfl, rfl, by simp, fun _ => ⟨h3 hj, ?_, e2 hj⟩⟩
        cases n with
        | zero => cases e3
        | succ n =>
          obtain ⟨f', st1', ft', r', u1, u2, u3, u4, u5⟩ := mapType_succ E n st1 it.ty d i0 st' e3
          rcases u5 with ⟨-, rfl, -⟩ | ⟨it', i0', -, -, -, -, -, rfl⟩
          · have := u3 hj
            simp only at w7
            rw [← w7]; exact this
          · simp [combine, hj] at e4


/-- **C65**: the result does not depend on the allowance for recursion. -/
theorem C65_fuel (E : Env κ) : ∀ (n k : Nat) (st : St κ) (ty : Nat) (d : Dir), mapType E n st ty d ≠ .out →
    mapType E (n + k) st ty d = mapType E n st ty d
  | 0, _, _, _, _, h => absurd rfl h
  | n + 1, k, st, ty, d, h => by
    rw [show n + 1 + k = (n + k) + 1 by omega]
    unfold mapType at h ⊢
    cases hd : doMap E st d ty with
    | err e => rfl
    | panic => rfl
    | out => rfl
    | ok x =>
      obtain ⟨f, st1⟩ := x
      rw [hd] at h
      simp only at h ⊢
      cases hf : st1.ftypes[f]? with
      | none => rfl
      | some ft =>
        rw [hf] at h
        simp only at h ⊢
        by_cases hj : (E.java && !ft.provided.isEmpty) = true
        · rw [if_pos hj, if_pos hj]
        · rw [if_neg hj] at h ⊢
          rw [if_neg hj]
          cases hr : ruleOf d ft with
          | none => rfl
          | some r =>
            rw [hr] at h
            simp only at h ⊢
            cases hi : r.inter with
            | none => rfl
            | some it =>
              rw [hi] at h
              simp only at h ⊢
              by_cases hio : (E.java && it.inputToOutput) = true
              · rw [if_pos hio, if_pos hio]
              · rw [if_neg hio] at h ⊢
                rw [if_neg hio]
                have hne : mapType E n st1 it.ty d ≠ .out := by
                  intro ho; rw [ho] at h; exact h rfl
                rw [C65_fuel E n k st1 it.ty d hne]

theorem generic_err {E : Env κ} (hE : EnvOk E) {st : St κ} (hg : Good st) {d : Bool} {ty : Nat} {t : Ast.Ty} {ty' : Nat} {d' : Dir}
    (hty : ty < st.tm.g.nodes.length) (h : generic E st d ty t = .err (.noConversion ty' d')) :
    ty' = ty ∧ d' = d ∧ ∃ st1, Good st1 ∧ Keeps st.tm st1.tm ∧ ∀ f n, ¬ Rep st1 d ty f n := by
  unfold generic at h
  split at h
  · cases h
  · obtain ⟨a, b⟩ := finish_err hE hg hty h
    cases a
    exact ⟨rfl, rfl, st, hg, Keeps.refl _, b⟩
  · split at h
    · cases h
    · split at h
      · rename_i st2 hi
        obtain ⟨i1, i2⟩ := hE.inst _ _ _ _ _ hg hi
        obtain ⟨a, b⟩ := finish_err hE i1 (Nat.lt_of_lt_of_le hty i2.len) h
        cases a
        exact ⟨rfl, rfl, st2, i1, i2, b⟩
      · rename_i e he
        obtain ⟨msg, rfl⟩ := hE.err _ _ _ _ _ he
        cases h
      · cases h
      · cases h

/-- **C65**: the diagnostic "do not know conversion" is given only for a type that no known foreign type represents, even after a
fitting generic rule (if any) was instantiated; and it is about the wanted direction. -/
theorem C65_no_conversion {E : Env κ} (hE : EnvOk E) : ∀ (n : Nat) (st : St κ) (ty ty' : Nat) (d d' : Dir), Good st →
    mapType E n st ty d = .err (.noConversion ty' d') →
    d' = d ∧ ∃ st1, Good st1 ∧ Keeps st.tm st1.tm ∧ ∀ f k, ¬ Rep st1 d ty' f k
  | 0, _, _, _, _, _, _, h => by cases h
  | n + 1, st, ty, ty', d, d', hg, h => by
    unfold mapType at h
    cases hd : doMap E st d ty with
    | err e =>
      rw [hd] at h
      simp only [Res.err.injEq] at h
      subst h
      unfold doMap at hd
      cases hn : st.tm.g.nodes[ty]? with
      | none => rw [hn] at hd; cases hd
      | some r =>
        have hty := (List.getElem?_eq_some_iff.1 hn).1
        rw [hn] at hd
        simp only at hd
        cases hs : search E st d true ty with
        | none => rw [hs] at hd; cases hd
        | some x =>
          obtain ⟨o, st1⟩ := x
          rw [hs] at hd
          cases o with
          | some g => cases hd
          | none =>
            obtain ⟨-, -, -, e⟩ := search_ok hE hg hty hs
            obtain rfl := (e rfl).2 rfl
            obtain ⟨rfl, rfl, w⟩ := generic_err hE hg hty hd
            exact ⟨rfl, w⟩
    | panic => rw [hd] at h; cases h
    | out => rw [hd] at h; cases h
    | ok x =>
      obtain ⟨f, st1⟩ := x
      obtain ⟨g1, g2, -⟩ := doMap_ok hE hg hd
      rw [hd] at h
      simp only at h
      split at h
      · cases h
      · split at h
        · cases h
        · split at h
          · cases h
          · split at h
            · cases h
            · rename_i it _
              split at h
              · cases h
              · cases hm : mapType E n st1 it.ty d with
                | err e =>
                  rw [hm] at h
                  simp only [Res.err.injEq] at h
                  subst h
                  obtain ⟨w1, st2, w2, w3, w4⟩ := C65_no_conversion hE n st1 it.ty ty' d d' g1 hm
                  exact ⟨w1, st2, w2, g2.trans w3, w4⟩
                | panic => rw [hm] at h; cases h
                | out => rw [hm] at h; cases h
                | ok y =>
                  obtain ⟨i0, st2⟩ := y
                  rw [hm] at h
                  simp only at h
                  split at h <;> cases h

/-! ## C65: stability -/

/-- `b` differs from `a` only in that more answers are remembered. -/
structure Same (a b : St κ) : Prop where
  tm : b.tm = a.tm
  ftypes : b.ftypes = a.ftypes
  more : ∀ d ty f, remembered a d ty = some f → remembered b d ty = some f

theorem Same.refl (a : St κ) : Same a a := ⟨rfl, rfl, fun _ _ _ h => h⟩
theorem Same.trans {a b c : St κ} (h : Same a b) (k : Same b c) : Same a c :=
  ⟨k.tm.trans h.tm, k.ftypes.trans h.ftypes, fun d t f hf => k.more d t f (h.more d t f hf)⟩

theorem same_remember (st : St κ) (d : Dir) (ty f : Nat) (hc : remembered st d ty = none) :
    Same st (remember st d ty f) ∧ remembered (remember st d ty f) d ty = some f := by
  refine ⟨⟨by cases d <;> rfl, by cases d <;> rfl, ?_⟩, by cases d <;> simp [remember, remembered, put]⟩
  intro d' t g hg
  cases d <;> cases d' <;> simp only [remember, remembered, put] at hg hc ⊢
  · split
    · rename_i e; subst e; rw [hc] at hg; cases hg
    · exact hg
  · exact hg
  · exact hg
  · split
    · rename_i e; subst e; rw [hc] at hg; cases hg
    · exact hg

/-- Every intermediate type is represented by some foreign type. -/
def Covered (st : St κ) (d : Dir) : Prop :=
  ∀ ft ∈ st.ftypes, ∀ (r : FTypes.FRule Text) (it : FTypes.Inter Text), (match d with | true => ft.into | false => ft.frm) = some r → r.inter = some it →
    ∃ f n, Rep st d it.ty f n

theorem Same.rep {a b : St κ} (h : Same a b) {d : Dir} {ty f n : Nat} (hr : Rep a d ty f n) : Rep b d ty f n := by
  refine hr.mono h.ftypes ?_
  rw [h.tm]; exact Keeps.refl _

theorem Same.covered {a b : St κ} (h : Same a b) {d : Dir} (hc : Covered a d) : Covered b d := by
  intro ft hft r it hr hi
  rw [h.ftypes] at hft
  obtain ⟨f, n, hn⟩ := hc ft hft r it hr hi
  exact ⟨f, n, h.rep hn⟩

/-- **C65**: when the conversions are all known beforehand (the type and every intermediate type are represented), mapping a type
adds nothing but remembered answers, and mapping it again in any later state of that kind gives the same report. -/
theorem C65_stable (E : Env κ) : ∀ (n : Nat) (st st' : St κ) (ty g k : Nat) (d : Dir) (i : Info), Good st → Covered st d →
    Rep st d ty g k → mapType E n st ty d = .ok (i, st') →
    Same st st' ∧ ∀ st'', Same st' st'' → mapType E n st'' ty d = .ok (i, st'')
  | 0, _, _, _, _, _, _, _, _, _, _, h => by cases h
  | n + 1, st, st', ty, g, k, d, i, hg, hcov, hrep, h => by
    obtain ⟨f, st1, ft, r, h1, h2, h3, h4, h5⟩ := mapType_succ E n st ty d i st' h
    have hty : ty < st.tm.g.nodes.length := by
      unfold doMap at h1
      cases hn : st.tm.g.nodes[ty]? with
      | none => rw [hn] at h1; cases h1
      | some r => exact (List.getElem?_eq_some_iff.1 hn).1
    have hs : Same st st1 ∧ remembered st1 d ty = some f ∧ Good st1 := by
      cases hc : remembered st d ty with
      | some f' =>
        rw [C65_remembered E st d ty f' hty hc] at h1
        simp only [Res.ok.injEq, Prod.mk.injEq] at h1
        obtain ⟨rfl, rfl⟩ := h1
        exact ⟨Same.refl _, hc, hg⟩
      | none =>
        obtain ⟨f', n', e1, e2, -⟩ := C65_known_first E st hg d ty g k hty hc hrep
        rw [e1] at h1
        simp only [Res.ok.injEq, Prod.mk.injEq] at h1
        obtain ⟨rfl, rfl⟩ := h1
        obtain ⟨a, b⟩ := same_remember st d ty f' hc
        exact ⟨a, b, hg.remember d ty f' n' e2⟩
    obtain ⟨hs1, hs2, hg1⟩ := hs
    -- a second call in a later state
    have again : ∀ st'', Same st1 st'' → doMap E st'' d ty = .ok (f, st'') ∧ st''.ftypes[f]? = some ft := by
      intro st'' hsa
      refine ⟨C65_remembered E st'' d ty f ?_ (hsa.more d ty f hs2), by rw [hsa.ftypes]; exact h2⟩
      rw [hsa.tm, hs1.tm]; exact hty
    have hjn : ¬ ((E.java && !ft.provided.isEmpty) = true) := by
      intro hj
      rw [Bool.and_eq_true] at hj
      rw [h3 hj.1] at hj
      simp at hj
    rcases h5 with ⟨e1, rfl, rfl⟩ | ⟨it, i0, e1, e2, e3, e4, e5, rfl⟩
    · refine ⟨hs1, fun st'' hsa => ?_⟩
      obtain ⟨a1, a2⟩ := again st'' hsa
      unfold mapType
      rw [a1]
      simp only [a2]
      rw [if_neg hjn]
      simp only [h4, e1]
    · have hcov1 := hs1.covered hcov
      obtain ⟨g', k', hrep'⟩ := hcov1 ft (List.mem_of_getElem? h2) r it (by cases d <;> simpa [ruleOf] using h4) e1
      obtain ⟨w1, w2⟩ := C65_stable E n st1 st' it.ty g' k' d i0 hg1 hcov1 hrep' e3
      refine ⟨hs1.trans w1, fun st'' hsa => ?_⟩
      obtain ⟨a1, a2⟩ := again st'' (w1.trans hsa)
      have hio : ¬ ((E.java && it.inputToOutput) = true) := by
        intro hj
        rw [Bool.and_eq_true] at hj
        rw [e2 hj.1] at hj
        simp at hj
      unfold mapType
      rw [a1]
      simp only [a2]
      rw [if_neg hjn]
      simp only [h4, e1]
      rw [if_neg hio, w2 st'' hsa]
      simp [e4, e5]

/-! ## Findings -/

/-- The claim that mapping ends whenever the conversions are known. -/
def AlwaysEnds : Prop := ∀ (E : Env Nat) (st : St Nat) (ty g k : Nat) (d : Dir), Good st → Rep st d ty g k →
  ∃ n, mapType E n st ty d ≠ .out

/-- A type without traits. -/
def tyd (c : Char) : RTy TyD := ⟨[c], ⟨Ast.nam [c], []⟩⟩

/-- An environment without generic rules of any kind. -/
def env0 (java : Bool) (rules : List (Rule TyD Nat)) : Env Nat :=
  { P := firstMin, ord := id, rules := rules, nm := fun _ => [], grules := [], java := java, hints := fun st _ => st,
    inst := fun _ _ _ _ => .panic }

/-- One type `T` and a foreign type whose rule takes `T` to the intermediate type `T`. -/
def loopSt : St Nat :=
  { tm := (addNode TMap.empty (tyd 'T')).1
    ftypes := [⟨⟨['F'], 0⟩, none, [], some ⟨0, some ⟨false, 0, ['c'], none⟩⟩, none⟩]
    toCache := fun _ => none
    fromCache := fun _ => none }

theorem loop_doMap (java : Bool) (st : St Nat) (h : doMap (env0 java []) st true 0 = .ok (0, st)) (hf : st.ftypes = loopSt.ftypes) :
    ∀ n, mapType (env0 java []) n st 0 true = .out
  | 0 => rfl
  | n + 1 => by
    have ih := loop_doMap java st h hf n
    unfold mapType
    rw [h]
    simp only [hf]
    have e : loopSt.ftypes[0]? = some ⟨⟨['F'], 0⟩, none, [], some ⟨0, some ⟨false, 0, ['c'], none⟩⟩, none⟩ := rfl
    simp only [e, ruleOf, if_true]
    rw [ih]
    cases java <;> rfl

/-- FINDING: a foreign type whose intermediate type is the Rust type itself (`foreign_typemap!` accepts it) sends `map_type` into
an endless recursion in both back ends: the mapping never ends, it does not report an error. -/
theorem C65_finding_endless : ¬ AlwaysEnds := by
  intro h
  have hgood : Good loopSt := by
    refine ⟨addNode_ok ok_empty _, ?_, fun _ _ h => (by cases h), fun _ _ h => (by cases h)⟩
    intro ft hft r hr
    simp only [loopSt, List.mem_singleton] at hft
    subst hft
    simp only [reduceCtorEq, or_false, Option.some.injEq] at hr
    subst hr
    exact ⟨by decide, by intro it hit; simp only [Option.some.injEq] at hit; subst hit; decide⟩
  have hrep : Rep loopSt true 0 0 0 :=
    ⟨⟨⟨['F'], 0⟩, none, [], some ⟨0, some ⟨false, 0, ['c'], none⟩⟩, none⟩, ⟨0, some ⟨false, 0, ['c'], none⟩⟩, [], rfl, ⟨rfl, rfl⟩, rfl⟩
  obtain ⟨n, hn⟩ := h (env0 true []) loopSt 0 0 0 true hgood hrep
  apply hn
  have h1 : doMap (env0 true []) loopSt true 0 = .ok (0, remember loopSt true 0 0) := by
    have hs : search (env0 true []) loopSt true true 0 = some (some 0, remember loopSt true 0 0) := rfl
    have hn : loopSt.tm.g.nodes[0]? = some (tyd 'T') := rfl
    unfold doMap
    rw [hn]
    simp only [hs]
  cases n with
  | zero => rfl
  | succ n =>
    have h2 : doMap (env0 true []) (remember loopSt true 0 0) true 0 = .ok (0, remember loopSt true 0 0) :=
      C65_remembered _ _ true 0 0 (by decide) rfl
    have h3 := loop_doMap true (remember loopSt true 0 0) h2 rfl n
    unfold mapType
    rw [h1]
    have e : (remember loopSt true 0 0).ftypes[0]? = some ⟨⟨['F'], 0⟩, none, [], some ⟨0, some ⟨false, 0, ['c'], none⟩⟩, none⟩ := rfl
    simp only [e, ruleOf, if_true]
    rw [h3]
    rfl

/-- Types `T`, `A`, `X` with the conversions `A ⟶ X` and `X ⟶ A`; the foreign type `FA` stands for `A`, the foreign type `FX` for `X`
with intermediate type `A`; a generic conversion leads from `T` to `A`. -/
def histSt : St Nat :=
  { tm := addRule (addRule (addNode (addNode (addNode TMap.empty (tyd 'T')).1 (tyd 'A')).1 (tyd 'X')).1 1 2 0) 2 1 0
    ftypes := [⟨⟨['F', 'A'], 0⟩, none, [], some ⟨1, none⟩, none⟩,
      ⟨⟨['F', 'X'], 0⟩, none, [], some ⟨2, some ⟨false, 1, ['c'], none⟩⟩, none⟩]
    toCache := fun _ => none
    fromCache := fun _ => none }

/-- The generic conversion from `T` to `A`. -/
def histRule : Rule TyD Nat := fun f _ _ => if f.name = ['T'] then some (tyd 'A', 1) else none

/-- The names shown by two mappings in a row. -/
def twice (E : Env Nat) (st : St Nat) (ty : Nat) (d : Dir) : Option (Text × Text) :=
  match mapType E 3 st ty d with
  | .ok (i, st1) => match mapType E 3 st1 ty d with
    | .ok (j, _) => some ((shown E.java i).value, (shown E.java j).value)
    | _ => none
  | _ => none

/-- FINDING: the same Rust type can be mapped to different foreign types at its first and at its second use.  The first use builds
`T ⟶ A ⟶ X` from the generic conversion and drops `FA`, because `A` is the intermediate type of `FX`; that leaves `T ⟶ A` in the map,
so from then on the fast search finds `FA`, which is nearer. -/
theorem C65_finding_history (java : Bool) :
    twice (env0 java [histRule]) histSt 0 true = some (['F', 'X'], ['F', 'A']) := by
  cases java <;> decide +kernel

/-! ## Concrete cases -/

theorem env0_ok (java : Bool) (rules : List (Rule TyD Nat)) : EnvOk (env0 java rules) :=
  ⟨fun _ => List.Perm.refl _, fun st _ h => ⟨h, Keeps.refl _⟩, fun _ _ _ _ _ _ h => (by cases h), fun _ _ _ _ _ h => (by cases h)⟩

theorem histSt_good : Good histSt := by
  refine ⟨?_, ?_, fun _ _ h => (by cases h), fun _ _ h => (by cases h)⟩
  · exact addRule_ok (addRule_ok (addNode_ok (addNode_ok (addNode_ok ok_empty _) _) _) (by decide) (by decide) 0)
      (by decide) (by decide) 0
  · intro ft hft r hr
    simp only [histSt, List.mem_cons, List.not_mem_nil, or_false] at hft
    rcases hft with rfl | rfl
    · simp only [reduceCtorEq, or_false, Option.some.injEq] at hr
      subst hr
      exact ⟨by decide, by simp⟩
    · simp only [reduceCtorEq, or_false, Option.some.injEq] at hr
      subst hr
      exact ⟨by decide, by intro it hit; simp only [Option.some.injEq] at hit; subst hit; decide⟩

/-- The visible part of a mapping: shown name, boundary name, Rust type at the boundary, converter code. -/
def view (java : Bool) (r : Res (Info × St Nat)) : Option (Text × Text × Nat × Option Text) :=
  match r with
  | .ok (i, _) => some ((shown java i).value, (wire java i).value, i.rt, i.conv.map (·.2))
  | _ => none

-- `X` is shown as `FX`; the boundary uses `A`, that is `FA`, and the foreign code `c`
example : view false (mapType (env0 false []) 2 histSt 2 true) = some (['F', 'X'], ['F', 'A'], 1, some ['c']) := by decide +kernel
example : view true (mapType (env0 true []) 2 histSt 2 true) = some (['F', 'X'], ['F', 'A'], 1, some ['c']) := by decide +kernel
example : view true (mapType (env0 true []) 2 histSt 1 true) = some (['F', 'A'], ['F', 'A'], 1, none) := by decide +kernel
-- there is no way from a foreign type to `T`
example : (match mapType (env0 true []) 2 histSt 0 false with | .err (.noConversion 0 false) => true | _ => false) = true := by
  decide +kernel
-- the hypotheses of `C65_stable` hold for `X`
example : Covered histSt true ∧ Rep histSt true 2 1 0 := by
  refine ⟨?_, _, _, [], rfl, ⟨rfl, rfl⟩, rfl⟩
  intro ft hft r it hr hi
  simp only [histSt, List.mem_cons, List.not_mem_nil, or_false] at hft
  rcases hft with rfl | rfl
  · simp only [Option.some.injEq] at hr; subst hr; cases hi
  · simp only [Option.some.injEq] at hr; subst hr
    simp only [Option.some.injEq] at hi; subst hi
    exact ⟨0, 0, _, _, [], rfl, ⟨rfl, rfl⟩, rfl⟩

/-- The generic rules `V<T>` with `T: Tr`, and `V<T>` without bound. -/
def exRules : List GRule :=
  [{ simple := none, rtl := none, ltr := some (Ast.app1 ['V'] (Ast.nam ['T'])),
     params := [(['T'], .trait false false (.cons ['R'] .none .nil) .nil)] },
   { simple := some (Ast.app1 ['V'] (Ast.nam ['T'])), rtl := none, ltr := none, params := [(['T'], .nil)] }]

/-- A state that knows `V<X>`, `V<Y>`, `X` (which implements `R`) and `Y`. -/
def exSt : St Nat :=
  { tm := (addNode (addNode (addNode (addNode TMap.empty ⟨['1'], ⟨Ast.app1 ['V'] (Ast.nam ['X']), []⟩⟩).1
      ⟨['2'], ⟨Ast.app1 ['V'] (Ast.nam ['Y']), []⟩⟩).1 ⟨['X'], ⟨Ast.nam ['X'], [['R']]⟩⟩).1 ⟨['Y'], ⟨Ast.nam ['Y'], []⟩⟩).1
    ftypes := []
    toCache := fun _ => none
    fromCache := fun _ => none }

/-- The normalised name of a one-segment path. -/
def exNm : Ast.Ty → Text
  | .path _ _ (.cons k _ .nil) => k
  | _ => []

/-- With the rules above; an instance adds a foreign type for the type itself. -/
def exEnv : Env Nat :=
  { env0 false [] with
    nm := exNm, grules := exRules
    inst := fun st i _ d => .ok { st with ftypes := st.ftypes ++ [⟨⟨['I', Char.ofNat (48 + i)], 0⟩, none, [],
      (if d then some ⟨if i = 0 then 0 else 1, none⟩ else none), none⟩] } }

-- `V<X>` fits the rule with the bound, `V<Y>` only the other one
example : view false (mapType exEnv 2 exSt 0 true) = some (['I', '0'], ['I', '0'], 0, none) := by decide +kernel
example : view false (mapType exEnv 2 exSt 1 true) = some (['I', '1'], ['I', '1'], 1, none) := by decide +kernel

end Flapi.MapType
