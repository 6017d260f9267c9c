import Verif.TypeMap.Generic
import Verif.TypeMap.MatchComplete
/-! # Applicability of generic conversion rules (C17) -/
namespace Flapi.Ast
open Flapi

/-! ## Matching never rebinds a parameter, whatever its outcome -/

/-- What every match (successful or not) does to the map. -/
structure Mono (m m' : TyMap) : Prop where
  le : Le m m'
  dom : ∀ k, m'.get k ≠ none ↔ m.get k ≠ none
  keys : m'.inner.map (·.1) = m.inner.map (·.1)

theorem Mono.refl (m : TyMap) : Mono m m := ⟨Le.refl m, fun _ => Iff.rfl, rfl⟩
theorem Mono.trans {a b c : TyMap} (h : Mono a b) (k : Mono b c) : Mono a c :=
  ⟨h.le.trans k.le, fun x => (k.dom x).trans (h.dom x), k.keys.trans h.keys⟩

theorem setMut_keys (m : TyMap) (k : Text) (v : Option Ty) : (m.setMut k v).inner.map (·.1) = m.inner.map (·.1) := by
  unfold SubstMap.Map.setMut
  split
  · rename_i l h; exact SubstMap.setFirst_keys _ _ _ _ h
  · rfl

theorem Mono.bind {m : TyMap} {k : Text} {t : Ty} (h : m.get k = some none) : Mono m (m.setMut k (some t)) := by
  have hn : m.get k ≠ none := by simp [h]
  refine ⟨?_, ?_, setMut_keys _ _ _⟩
  · intro x v hx
    rw [setMut_get _ _ _ _ hn]
    by_cases e : x = k
    · subst e; rw [h] at hx; simp at hx
    · simpa [e] using hx
  · intro x
    rw [setMut_get _ _ _ _ hn]
    by_cases e : x = k
    · subst e; simp [h]
    · simp [e]

theorem bindPath_mono {s1 t m m'} (h : bindPath s1 t m = some m') : Mono m m' := by
  obtain ⟨id, a, rfl, hg, rfl⟩ := bindPath_some h
  exact Mono.bind hg

theorem fallback_mono (p t : Ty) (m : TyMap) : Mono m (fallback p t m).2 := by
  unfold fallback
  split
  · split
    · rename_i h; exact bindPath_mono h
    · exact Mono.refl m
  · exact Mono.refl m

theorem inside_mono (p t : Ty) (m : TyMap) : Mono m (inside p t m).2 := by
  unfold inside
  split
  · split
    · exact Mono.refl m
    · rename_i h; exact Mono.bind h
    · exact Mono.refl m
  · exact Mono.refl m

theorem matchPath_mono (s2 s1 : Segs) (t : Ty) (m : TyMap) (k : Bool × TyMap) (hk : Mono m k.2) :
    Mono m (matchPath s2 s1 t m k).2 := by
  unfold matchPath
  split
  · rename_i h; exact bindPath_mono h
  · split
    · exact hk
    · exact Mono.refl m

/-- Continue with `f` on success. -/
theorem seq_mono {m : TyMap} {r : Bool × TyMap} {f : TyMap → Bool × TyMap} (h : Mono m r.2) (hf : Mono r.2 (f r.2).2) :
    Mono m (match r with | (true, m') => f m' | r => r).2 := by
  obtain ⟨b, m'⟩ := r
  cases b
  · exact h
  · exact h.trans hf

mutual
theorem mono : ∀ (t p : Ty) (m : TyMap), Mono m (matchTy t p m).2
  | .path q2 l2 s2, p, m => by
    cases p with
    | path => simp only [matchTy]; exact matchPath_mono _ _ _ _ _ (monoS s2 _ m)
    | _ => simp only [matchTy]; exact fallback_mono _ _ _
  | .ref l2 m2 e2, p, m => by
    cases p with
    | ref =>
      simp only [matchTy]
      split
      · exact mono e2 _ m
      · exact Mono.refl m
    | _ => simp only [matchTy]; exact fallback_mono _ _ _
  | .ptr m2 e2, p, m => by
    cases p with
    | ptr =>
      simp only [matchTy]
      split
      · exact mono e2 _ m
      · exact Mono.refl m
    | _ => simp only [matchTy]; exact fallback_mono _ _ _
  | .slice e2, p, m => by
    cases p with
    | slice => simp only [matchTy]; exact mono e2 _ m
    | _ => simp only [matchTy]; exact fallback_mono _ _ _
  | .tuple e2, p, m => by
    cases p with
    | tuple =>
      simp only [matchTy]
      split
      · exact monoL e2 _ m
      · exact Mono.refl m
    | _ => simp only [matchTy]; exact fallback_mono _ _ _
  | .implTrait b2, p, m => by
    cases p with
    | implTrait =>
      simp only [matchTy]
      split
      · exact monoB b2 _ _ m
      · exact Mono.refl m
    | _ => simp only [matchTy]; exact fallback_mono _ _ _
  | .bareFn h2 lts2 i2 o2, p, m => by
    cases p with
    | bareFn =>
      simp only [matchTy]
      split
      · exact seq_mono (f := fun m' => matchRet o2 _ m') (monoI i2 _ m) (monoR o2 _ _)
      · exact Mono.refl m
    | _ => simp only [matchTy]; exact fallback_mono _ _ _
  | .traitObj .., p, m => by rw [matchTy]; exact fallback_mono _ _ _
  | .array .., p, m => by rw [matchTy]; exact fallback_mono _ _ _
  | .paren .., p, m => by rw [matchTy]; exact fallback_mono _ _ _
  | .other .., p, m => by rw [matchTy]; exact fallback_mono _ _ _
theorem monoL : ∀ (t p : Tys) (m : TyMap), Mono m (matchTys t p m).2
  | .cons t ts, .cons p ps, m => by
    rw [matchTys]; exact seq_mono (f := fun m' => matchTys ts ps m') (mono t p m) (monoL ts ps _)
  | .nil, _, m => by simp [matchTys]; exact Mono.refl m
  | .cons .., .nil, m => by simp [matchTys]; exact Mono.refl m
theorem monoI : ∀ (t p : Tys) (m : TyMap), Mono m (matchTysIn t p m).2
  | .cons t ts, .cons p ps, m => by
    rw [matchTysIn]
    exact seq_mono (f := fun m' => matchTysIn ts ps m') ((inside_mono p t m).trans (mono t _ _)) (monoI ts ps _)
  | .nil, _, m => by simp [matchTysIn]; exact Mono.refl m
  | .cons .., .nil, m => by simp [matchTysIn]; exact Mono.refl m
theorem monoS : ∀ (t p : Segs) (m : TyMap), Mono m (matchSegs t p m).2
  | .cons i2 a2 r2, .cons i1 a1 r1, m => by
    rw [matchSegs]
    split
    · exact seq_mono (f := fun m' => matchSegs r2 r1 m') (monoA a2 a1 m) (monoS r2 r1 _)
    · exact Mono.refl m
  | .nil, _, m => by simp [matchSegs]; exact Mono.refl m
  | .cons .., .nil, m => by simp [matchSegs]; exact Mono.refl m
theorem monoA : ∀ (t p : Args) (m : TyMap), Mono m (matchArgs t p m).2
  | .angle g2, .angle g1, m => by
    rw [matchArgs]
    split
    · exact monoG g2 g1 m
    · exact Mono.refl m
  | .parens i2 o2, .parens i1 o1, m => by
    rw [matchArgs]
    split
    · exact seq_mono (f := fun m' => matchRet o2 o1 m') (monoI i2 i1 m) (monoR o2 o1 _)
    · exact Mono.refl m
  | .none, p, m => by cases p <;> simp [matchArgs] <;> exact Mono.refl m
  | .angle _, .none, m => by simp [matchArgs]; exact Mono.refl m
  | .angle _, .parens .., m => by simp [matchArgs]; exact Mono.refl m
  | .parens .., .none, m => by simp [matchArgs]; exact Mono.refl m
  | .parens .., .angle .., m => by simp [matchArgs]; exact Mono.refl m
theorem monoG : ∀ (t p : GArgs) (m : TyMap), Mono m (matchG t p m).2
  | .nil, p, m => by cases p <;> simp [matchG] <;> exact Mono.refl m
  | .ty t r2, p, m => by
    cases p with
    | ty p r1 =>
      rw [matchG]
      exact seq_mono (f := fun m' => matchG r2 r1 m') ((inside_mono p t m).trans (mono t _ _)) (monoG r2 r1 _)
    | _ => simp [matchG]; exact Mono.refl m
  | .lt l2 r2, p, m => by
    cases p with
    | lt l1 r1 =>
      rw [matchG]
      split
      · exact monoG r2 r1 m
      · exact Mono.refl m
    | _ => simp [matchG]; exact Mono.refl m
  | .assoc i2 t2 r2, p, m => by
    cases p with
    | assoc i1 t1 r1 =>
      rw [matchG]
      split
      · exact monoG r2 r1 m
      · exact Mono.refl m
    | _ => simp [matchG]; exact Mono.refl m
  | .const l2 r2, p, m => by
    cases p with
    | const l1 r1 =>
      rw [matchG]
      split
      · exact monoG r2 r1 m
      · exact Mono.refl m
    | _ => simp [matchG]; exact Mono.refl m
theorem monoR : ∀ (t p : Ret) (m : TyMap), Mono m (matchRet t p m).2
  | .default, p, m => by cases p <;> simp [matchRet] <;> exact Mono.refl m
  | .ty t, .default, m => by simp [matchRet]; exact Mono.refl m
  | .ty t, .ty p, m => by rw [matchRet]; exact (inside_mono p t m).trans (mono t _ _)
theorem monoB : ∀ (t p : Bounds) (ty2 : Ty) (m : TyMap), Mono m (matchBounds t p ty2 m).2
  | .nil, p, _, m => by cases p <;> simp [matchBounds] <;> exact Mono.refl m
  | .trait may2 l2 s2 r2, p, ty2, m => by
    cases p with
    | trait may1 l1 s1 r1 =>
      rw [matchBounds]
      split
      · exact seq_mono (f := fun m' => matchBounds r2 r1 ty2 m') (matchPath_mono _ _ _ _ _ (monoS s2 s1 m)) (monoB r2 r1 ty2 _)
      · exact Mono.refl m
    | _ => simp [matchBounds]; exact Mono.refl m
  | .lt l2 r2, p, ty2, m => by
    cases p with
    | lt l1 r1 => rw [matchBounds]; exact monoB r2 r1 ty2 m
    | _ => simp [matchBounds]; exact Mono.refl m
end

/-! ## The initial map -/

/-- The names of a rule's type parameters. -/
def Generic.names (g : Generic) : List Text := g.params.map (·.1)

/-- The substitution map the search starts from: every parameter listed, none bound. -/
def fresh (P : List Text) : TyMap := SubstMap.ofList (P.map fun k => (k, none))

theorem foldl_get (l : List Text) (m : TyMap) (k : Text) :
    ((l.map fun k => ((k, none) : Text × Option Ty)).foldl (fun m it => m.insert it.1 it.2) m).get k =
    if k ∈ l then some none else m.get k := by
  induction l generalizing m with
  | nil => simp
  | cons a l ih =>
    simp only [List.map_cons, List.foldl_cons]
    rw [ih]
    have := SubstMap.step_get m (.insert a none) k
    simp only [SubstMap.step, SubstMap.specStep] at this
    rw [this]
    by_cases h1 : k ∈ l <;> by_cases h2 : k = a <;> simp [h1, h2]

theorem fresh_get (P : List Text) (k : Text) : (fresh P).get k = if k ∈ P then some none else none := by
  have := foldl_get P {} k
  rw [fresh, SubstMap.ofList, this]
  by_cases h : k ∈ P <;> simp [h, SubstMap.Map.get]

theorem fresh_st (P : List Text) : St P (fresh P) := by
  constructor
  · intro k h; rw [fresh_get] at h; by_cases hk : k ∈ P <;> simp_all
  · intro k v h; rw [fresh_get] at h; by_cases hk : k ∈ P <;> simp_all

/-! ## Trait bounds, said independently of the code -/

/-- The list of bounds requires the trait with this path. -/
def Bounds.Requires (l : Bool) (s : Segs) : Bounds → Prop
  | .nil => False
  | .trait _ l' s' r => (l = l' ∧ s = s') ∨ r.Requires l s
  | .lt _ r => r.Requires l s

/-- The rule requires of its parameter `k` the trait with this path, in the parameter list or in the `where` clause. -/
def Generic.Requires (g : Generic) (k : Text) (l : Bool) (s : Segs) : Prop :=
  (∃ b, (k, b) ∈ g.params ∧ b.Requires l s) ∨ ∃ t b, (t, b) ∈ g.wh ∧ t.normName = [.ident k] ∧ b.Requires l s

/-- The type is known (under its normalised name) and is known to implement the trait; only traits named by one plain
identifier can be known. -/
def Implements (nm : Ty → Text) (others : Text → Option RTy) (v : Ty) (l : Bool) (s : Segs) : Prop :=
  ∃ rt, others (nm v) = some rt ∧ l = false ∧ ∃ id ∈ rt.impls, s = .cons id .none .nil

theorem mem_traitNames (b : Bounds) : ∀ (acc : List TPath) (p : TPath),
    p ∈ traitNames b acc ↔ p ∈ acc ∨ b.Requires p.lead p.segs := by
  intro acc p
  match b with
  | .nil => simp [traitNames, Bounds.Requires]
  | .lt _ r => rw [traitNames, mem_traitNames r, Bounds.Requires]
  | .trait _ l s r =>
    rw [traitNames, mem_traitNames r, Bounds.Requires]
    obtain ⟨pl, ps⟩ := p
    by_cases h : (⟨l, s⟩ : TPath) ∈ acc
    · simp only [h, if_true]
      constructor
      · rintro (h | h)
        · exact .inl h
        · exact .inr (.inr h)
      · rintro (h | ⟨rfl, rfl⟩ | h)
        · exact .inl h
        · exact .inl (by assumption)
        · exact .inr h
    · simp only [h, if_false, List.mem_append, List.mem_singleton, TPath.mk.injEq]
      constructor
      · rintro ((h | h) | h)
        · exact .inl h
        · exact .inr (.inl h)
        · exact .inr (.inr h)
      · rintro (h | h | h)
        · exact .inl (.inl h)
        · exact .inl (.inr h)
        · exact .inr h

theorem paramKey_iff (t : Ty) (k : Text) : t.paramKey = some k ↔ t.normName = [.ident k] := by
  unfold Ty.paramKey
  split
  · rename_i k' h; rw [h]; simp
  · rename_i h
    constructor
    · simp
    · intro e; exact absurd e (h k)

theorem mem_inlineBounds (l : List (Text × Bounds)) (e : Text × List TPath) :
    e ∈ inlineBounds l ↔ ∃ b, (e.1, b) ∈ l ∧ e.2 = traitNames b [] ∧ e.2 ≠ [] := by
  induction l with
  | nil => simp [inlineBounds]
  | cons a l ih =>
    obtain ⟨k, b⟩ := a
    obtain ⟨ek, en⟩ := e
    simp only [inlineBounds] at ih ⊢
    split
    · rename_i h0
      rw [ih]
      constructor
      · rintro ⟨c, h1, h2, h3⟩; exact ⟨c, by simp [h1], h2, h3⟩
      · rintro ⟨c, h1, h2, h3⟩
        rcases List.mem_cons.1 h1 with h | h
        · simp only [Prod.mk.injEq] at h
          rw [h.2, h0] at h2
          exact absurd h2 h3
        · exact ⟨c, h, h2, h3⟩
    · rename_i h0
      rw [List.mem_cons, ih]
      constructor
      · rintro (h | ⟨c, h1, h2, h3⟩)
        · simp only [Prod.mk.injEq] at h
          exact ⟨b, by simp [h.1], h.2, by simpa [h.2] using h0⟩
        · exact ⟨c, by simp [h1], h2, h3⟩
      · rintro ⟨c, h1, h2, h3⟩
        rcases List.mem_cons.1 h1 with h | h
        · simp only [Prod.mk.injEq] at h
          exact .inl (by simp [h.1, h2, h.2])
        · exact .inr ⟨c, h, h2, h3⟩

theorem mem_whereBounds (l : List (Ty × Bounds)) : ∀ (bs : List (Text × List TPath)), whereBounds l = some bs →
    ∀ e : Text × List TPath, e ∈ bs ↔ ∃ t b, (t, b) ∈ l ∧ t.normName = [.ident e.1] ∧ e.2 = traitNames b [] ∧ e.2 ≠ [] := by
  induction l with
  | nil => intro bs h e; simp [whereBounds] at h; subst h; simp
  | cons a l ih =>
    obtain ⟨t, b⟩ := a
    intro bs h e
    obtain ⟨ek, en⟩ := e
    simp only [whereBounds] at h
    split at h
    · rename_i k l' hk hl
      simp only [Option.some.injEq] at h
      have ih := ih l' hl (ek, en)
      rw [paramKey_iff] at hk
      subst h
      split
      · rename_i h0
        rw [ih]
        constructor
        · rintro ⟨t', c, h1, h2, h3⟩; exact ⟨t', c, by simp [h1], h2, h3⟩
        · rintro ⟨t', c, h1, h2, h3, h4⟩
          rcases List.mem_cons.1 h1 with h | h
          · simp only [Prod.mk.injEq] at h
            dsimp only at h3 h4
            rw [h.2, h0] at h3
            exact absurd h3 h4
          · exact ⟨t', c, h, h2, h3, h4⟩
      · rename_i h0
        rw [List.mem_cons, ih]
        constructor
        · rintro (h | ⟨t', c, h1, h2, h3⟩)
          · simp only [Prod.mk.injEq] at h
            exact ⟨t, b, by simp, by simp [h.1, hk], h.2, by simpa [h.2] using h0⟩
          · exact ⟨t', c, by simp [h1], h2, h3⟩
        · rintro ⟨t', c, h1, h2, h3, h4⟩
          rcases List.mem_cons.1 h1 with h | h
          · simp only [Prod.mk.injEq] at h
            refine .inl ?_
            dsimp only at h2 h3
            rw [h.1, hk] at h2
            simp only [List.cons.injEq, Tok.ident.injEq, and_true] at h2
            simp [h2, h3, h.2]
          · exact .inr ⟨t', c, h, h2, h3, h4⟩
    · simp at h

theorem isIdent_iff (p : TPath) (id : Text) : p.isIdent id = true ↔ p.lead = false ∧ p.segs = .cons id .none .nil := by
  simp [TPath.isIdent]

/-- A check that passes for an entry of the list of bounds says that every trait of the entry is implemented. -/
theorem containsSubset_iff (nm : Ty → Text) (others : Text → Option RTy) (v : Ty) (rt : RTy) (hr : others (nm v) = some rt)
    (req : List TPath) : containsSubset rt.impls req = true ↔ ∀ p ∈ req, Implements nm others v p.lead p.segs := by
  simp only [containsSubset, List.all_eq_true, List.any_eq_true, isIdent_iff, Implements, hr, Option.some.injEq]
  constructor
  · intro h p hp
    obtain ⟨id, h1, h2, h3⟩ := h p hp
    exact ⟨rt, rfl, h2, id, h1, h3⟩
  · intro h p hp
    obtain ⟨_, rfl, h2, id, h1, h3⟩ := h p hp
    exact ⟨id, h1, h2, h3⟩

/-- The check succeeds if every required trait is implemented. -/
theorem satisfies_of (nm : Ty → Text) (g : Generic) (others : Text → Option RTy) (bs : List (Text × List TPath))
    (hbs : getTraitBounds g = some bs) (k : Text) (v : Ty) (h : ∀ l s, g.Requires k l s → Implements nm others v l s) :
    satisfies nm bs others k v = true := by
  simp only [getTraitBounds, Option.map_eq_some_iff] at hbs
  obtain ⟨wb, hw, rfl⟩ := hbs
  unfold satisfies
  split
  · rfl
  · rename_i e he
    have hk := List.find?_some he
    simp only [decide_eq_true_eq] at hk
    have hm := List.mem_of_find?_eq_some he
    have hreq : (∀ p ∈ e.2, Implements nm others v p.lead p.segs) ∧ e.2 ≠ [] := by
      rcases List.mem_append.1 hm with hm | hm
      · obtain ⟨b, h1, h2, h3⟩ := (mem_inlineBounds _ _).1 hm
        refine ⟨fun p hp => h _ _ (.inl ⟨b, hk ▸ h1, ?_⟩), h3⟩
        rw [h2, mem_traitNames] at hp
        simpa using hp
      · obtain ⟨t, b, h1, h2, h3, h4⟩ := (mem_whereBounds _ _ hw _).1 hm
        refine ⟨fun p hp => h _ _ (.inr ⟨t, b, h1, hk ▸ h2, ?_⟩), h4⟩
        rw [h3, mem_traitNames] at hp
        simpa using hp
    obtain ⟨h1, h2⟩ := hreq
    split
    · rename_i ho
      obtain ⟨p, hp⟩ := List.exists_mem_of_ne_nil _ h2
      obtain ⟨rt, hrt, _⟩ := h1 p hp
      rw [ho] at hrt
      simp at hrt
    · rename_i rt hrt
      exact (containsSubset_iff nm others v rt hrt e.2).2 h1

/-- A passed check, for a parameter whose bounds are all written in one place: every required trait is implemented. -/
theorem satisfies_imp (nm : Ty → Text) (g : Generic) (others : Text → Option RTy) (bs : List (Text × List TPath))
    (hbs : getTraitBounds g = some bs) (k : Text) (v : Ty)
    (hone : ∀ e₁ ∈ bs, ∀ e₂ ∈ bs, e₁.1 = k → e₂.1 = k → e₁ = e₂) (h : satisfies nm bs others k v = true) :
    ∀ l s, g.Requires k l s → Implements nm others v l s := by
  intro l s hr
  have hbs' := hbs
  simp only [getTraitBounds, Option.map_eq_some_iff] at hbs
  obtain ⟨wb, hw, rfl⟩ := hbs
  have hex : ∃ e ∈ inlineBounds g.params ++ wb, e.1 = k ∧ (⟨l, s⟩ : TPath) ∈ e.2 := by
    rcases hr with ⟨b, h1, h2⟩ | ⟨t, b, h1, h2, h3⟩
    · have hp : (⟨l, s⟩ : TPath) ∈ traitNames b [] := by rw [mem_traitNames]; exact .inr h2
      exact ⟨(k, traitNames b []), List.mem_append_left _ ((mem_inlineBounds _ _).2 ⟨b, h1, rfl, List.ne_nil_of_mem hp⟩), rfl, hp⟩
    · have hp : (⟨l, s⟩ : TPath) ∈ traitNames b [] := by rw [mem_traitNames]; exact .inr h3
      exact ⟨(k, traitNames b []),
        List.mem_append_right _ ((mem_whereBounds _ _ hw _).2 ⟨t, b, h1, h2, rfl, List.ne_nil_of_mem hp⟩), rfl, hp⟩
  obtain ⟨e, he, hk, hp⟩ := hex
  unfold satisfies at h
  split at h
  · rename_i hn
    have := (List.find?_eq_none.1 hn) e he
    simp [hk] at this
  · rename_i e' he'
    have hk' := List.find?_some he'
    simp only [decide_eq_true_eq] at hk'
    have : e' = e := hone e' (List.mem_of_find?_eq_some he') e he hk' hk
    subst this
    split at h
    · simp at h
    · rename_i rt hrt
      exact (containsSubset_iff nm others v rt hrt e'.2).1 h _ hp

/-! ## Soundness -/

/-- If a concrete type matches a pattern then substituting the reported values in the pattern gives that type, up to what
`erase` forgets (reference lifetimes, qualified selves, leading `::`), provided the concrete type does not itself mention a type
named like a parameter. -/
theorem C17_match_sound (P : List Text) (p t : Ty) (m : TyMap) (h : matchTy t p (fresh P) = (true, m)) (hp : p.okPat P = true)
    (ht : t.free P = true) : (p.subst m).erase = t.erase := by
  obtain ⟨g1, g2, g3⟩ := sound P t p (fresh P) m h hp ht (fresh_st P)
  exact g3 m (Le.refl m) g1.keys

theorem m0_eq (g : Generic) : (SubstMap.ofList (g.params.map fun p => (p.1, none)) : TyMap) = fresh g.names := by
  simp [fresh, Generic.names, List.map_map, Function.comp_def]

theorem useGoal_mono (g : Generic) (goal : Option RTy) (m : TyMap) (hd : ∀ k, m.get k ≠ none → k ∈ g.names) :
    Le m (useGoal g goal m) ∧ ∀ k, (useGoal g goal m).get k ≠ none → k ∈ g.names := by
  unfold useGoal
  split
  · exact ⟨Le.refl m, hd⟩
  · rename_i gt
    have hm := mono gt.ty g.toTy m
    have hd' : ∀ k, (matchTy gt.ty g.toTy m).2.get k ≠ none → k ∈ g.names := fun k hk => hd k ((hm.dom k).1 hk)
    dsimp only
    split
    · rename_i hc
      obtain ⟨_, hlen, hnone⟩ := hc
      split
      · rename_i p hp
        generalize (matchTy gt.ty g.toTy m).2 = m' at hm hd' hlen hnone ⊢
        obtain ⟨inner⟩ := m'
        match inner, hlen with
        | [(k, v)], _ =>
          simp at hnone
          subst hnone
          have hnob : ∀ k v, m.get k ≠ some (some v) := by
            intro x w hx
            have := hm.le x w hx
            rw [SubstMap.get_cons] at this
            by_cases e : k = x <;> simp [e, SubstMap.Map.get] at this
          refine ⟨fun x w hx => absurd hx (hnob x w), ?_⟩
          intro x hx
          by_cases e : k = p.1
          · have hpk : p.1 ∈ g.names := by
              simp only [Generic.names]
              exact List.mem_map_of_mem (List.mem_of_mem_head? (by simp [hp]))
            have : (SubstMap.Map.setMut ⟨[(k, none)]⟩ p.1 (some gt.ty) : TyMap).inner.map (·.1) = [k] := setMut_keys _ _ _
            have hx' : x ∈ (SubstMap.Map.setMut ⟨[(k, none)]⟩ p.1 (some gt.ty) : TyMap).inner.map (·.1) := by
              have := (SubstMap.get_none_iff x (SubstMap.Map.setMut ⟨[(k, none)]⟩ p.1 (some gt.ty) : TyMap).inner)
              by_cases hmem : x ∈ (SubstMap.Map.setMut ⟨[(k, none)]⟩ p.1 (some gt.ty) : TyMap).inner.map (·.1)
              · exact hmem
              · exact absurd (this.2 hmem) hx
            rw [this] at hx'
            simp at hx'
            rw [hx', e]; exact hpk
          · have : (SubstMap.Map.setMut ⟨[(k, none)]⟩ p.1 (some gt.ty) : TyMap) = ⟨[(k, none)]⟩ := by
              simp [SubstMap.Map.setMut, SubstMap.setFirst, e]
            rw [this] at hx
            exact hd' x hx
      · exact ⟨hm.le, hd'⟩
    · exact ⟨hm.le, hd'⟩

/-- The result of applying a rule: the substitution reported, applied to the rule's source pattern, gives the source type; applied
to the rule's target pattern it gives the reported target type; and every bound value passed the trait check of its parameter. -/
theorem C17_conv_sound (nm : Ty → Text) (g : Generic) (ty : RTy) (goal : Option RTy) (others : Text → Option RTy)
    (toTy : Ty) (name : Text) (m : TyMap) (h : isConvPossible nm g ty goal others = .yes toTy name m)
    (hp : g.fromTy.okPat g.names = true) (ht : ty.ty.free g.names = true) :
    (g.fromTy.subst m).erase = ty.ty.erase ∧ toTy = g.toTy.subst m ∧
    ∃ bs, getTraitBounds g = some bs ∧ ∀ k v, m.get k = some (some v) → satisfies nm bs others k v = true := by
  have hall : ∀ bs (m : TyMap), checkAll nm bs others m = true → ∀ k v, m.get k = some (some v) →
      satisfies nm bs others k v = true := by
    intro bs m hc k v hk
    simp only [checkAll, List.all_eq_true] at hc
    simp only [SubstMap.Map.get, Option.map_eq_some_iff] at hk
    obtain ⟨it, h1, h2⟩ := hk
    have h3 := List.find?_some h1
    simp at h3
    have h4 := hc it (List.mem_of_find?_eq_some h1)
    rw [h2] at h4
    rw [← h3]
    exact h4
  have hto : ∀ m2, finishTo nm g m2 = .yes toTy name m → m = m2 ∧ toTy = g.toTy.subst m2 := by
    intro m2 h
    unfold finishTo at h
    split at h
    · simp at h; exact ⟨h.2.2.symm, h.1.symm⟩
    · split at h
      · simp at h
      · simp at h; exact ⟨h.2.2.symm, h.1.symm⟩
  have hfin : ∀ m2, finishConv nm g ty m2 = .yes toTy name m → m = m2 ∧ toTy = g.toTy.subst m2 := by
    intro m2 h
    unfold finishConv at h
    split at h
    · exact hto m2 h
    · split at h
      · simp at h
      · exact hto m2 h
      · split at h
        · simp at h
        · exact hto m2 h
  unfold isConvPossible at h
  rw [m0_eq] at h
  split at h
  · simp at h
  · rename_i m1 hm1
    obtain ⟨g1, g2, g3⟩ := sound g.names ty.ty g.fromTy _ m1 hm1 hp ht (fresh_st _)
    split at h
    · simp at h
    · rename_i bs hbs
      split at h
      · simp at h
      · rename_i hc1
        simp at hc1
        split at h
        · split at h
          · simp at h
          · rename_i hc2
            simp at hc2
            obtain ⟨k1, k2⟩ := useGoal_mono g goal m1 g1.keys
            obtain ⟨rfl, rfl⟩ := hfin _ h
            exact ⟨g3 _ k1 k2, rfl, bs, hbs, hall bs _ hc2⟩
        · obtain ⟨rfl, rfl⟩ := hfin _ h
          exact ⟨g3 _ (Le.refl _) g1.keys, rfl, bs, hbs, hall bs _ hc1⟩

/-- **C17**: the trait bounds written on a rule hold for the types it is applied to: if the rule applies and the bounds of parameter `k`
are written in one place (inline or in one `where` predicate), then the type found for `k` is known to implement each of them. -/
theorem C17_bounds_hold (nm : Ty → Text) (g : Generic) (ty : RTy) (goal : Option RTy) (others : Text → Option RTy)
    (toTy : Ty) (name : Text) (m : TyMap) (h : isConvPossible nm g ty goal others = .yes toTy name m)
    (hp : g.fromTy.okPat g.names = true) (ht : ty.ty.free g.names = true) (k : Text) (v : Ty) (hk : m.get k = some (some v))
    (hnd : g.names.Nodup)
    (hone : (∀ t b, (t, b) ∈ g.wh → t.normName ≠ [.ident k]) ∨
      ((∀ b l s, (k, b) ∈ g.params → ¬ b.Requires l s) ∧
        ∀ t b t' b', (t, b) ∈ g.wh → (t', b') ∈ g.wh → t.normName = [.ident k] → t'.normName = [.ident k] → b = b')) :
    ∀ l s, g.Requires k l s → Implements nm others v l s := by
  obtain ⟨-, -, bs, hbs, hsat⟩ := C17_conv_sound nm g ty goal others toTy name m h hp ht
  refine satisfies_imp nm g others bs hbs k v ?_ (hsat k v hk)
  have hbs' := hbs
  simp only [getTraitBounds, Option.map_eq_some_iff] at hbs'
  obtain ⟨wb, hw, rfl⟩ := hbs'
  rintro ⟨k1, n1⟩ h1 ⟨k2, n2⟩ h2 (rfl : k1 = k) (rfl : k2 = k1)
  simp only [List.mem_append, mem_inlineBounds, mem_whereBounds _ _ hw] at h1 h2
  have hreq : ∀ b, (k2, b) ∈ g.params → traitNames b [] ≠ [] → ∃ l s, b.Requires l s := by
    intro b _ hb
    obtain ⟨p, hp⟩ := List.exists_mem_of_ne_nil _ hb
    rw [mem_traitNames] at hp
    exact ⟨p.lead, p.segs, by simpa using hp⟩
  rcases h1 with ⟨b1, a1, e1, f1⟩ | ⟨t1, b1, a1, c1, e1, f1⟩ <;> rcases h2 with ⟨b2, a2, e2, f2⟩ | ⟨t2, b2, a2, c2, e2, f2⟩
  · have : b1 = b2 := by
      have hfun : ∀ (l : List (Text × Bounds)), (l.map (·.1)).Nodup → (k2, b1) ∈ l → (k2, b2) ∈ l → b1 = b2 := by
        intro l
        induction l with
        | nil => simp
        | cons a l ih =>
          intro hn h1 h2
          simp only [List.map_cons, List.nodup_cons] at hn
          rcases List.mem_cons.1 h1 with rfl | h3
          · rcases List.mem_cons.1 h2 with h2 | h2
            · exact (Prod.mk.inj h2).2.symm
            · exact absurd (List.mem_map_of_mem (f := (·.1)) h2) hn.1
          · rcases List.mem_cons.1 h2 with h2 | h2
            · subst h2; exact absurd (List.mem_map_of_mem (f := fun z : Text × Bounds => z.1) h3) hn.1
            · exact ih hn.2 h3 h2
      exact hfun g.params hnd a1 a2
    simp only [e1, e2, this]
  · rcases hone with hone | hone
    · exact absurd c2 (hone _ _ a2)
    · obtain ⟨l, s, hls⟩ := hreq b1 a1 (by rw [← e1]; exact f1)
      exact absurd hls (hone.1 b1 l s a1)
  · rcases hone with hone | hone
    · exact absurd c1 (hone _ _ a1)
    · obtain ⟨l, s, hls⟩ := hreq b2 a2 (by rw [← e2]; exact f2)
      exact absurd hls (hone.1 b2 l s a2)
  · rcases hone with hone | hone
    · exact absurd c1 (hone _ _ a1)
    · simp only [e1, e2, hone.2 _ _ _ _ a1 a2 c1 c2]

/-! ## Completeness -/

mutual
theorem subst_congr (m m' : TyMap) (h : ∀ t, m.look t = m'.look t) : ∀ t : Ty, t.subst m = t.subst m'
  | .path q l s => by simp [Ty.subst, h, substS_congr m m' h s]
  | .ref l mt e => by simp [Ty.subst, h, subst_congr m m' h e]
  | .ptr mt e => by simp [Ty.subst, h, subst_congr m m' h e]
  | .slice e => by simp [Ty.subst, h, subst_congr m m' h e]
  | .tuple e => by simp [Ty.subst, h, substL_congr m m' h e]
  | .implTrait b => by simp [Ty.subst, h, substB_congr m m' h b]
  | .traitObj d b => by simp [Ty.subst, h, substB_congr m m' h b]
  | .bareFn hd l i o => by simp [Ty.subst, h, substL_congr m m' h i, substR_congr m m' h o]
  | .array e n => by simp [Ty.subst, h, subst_congr m m' h e]
  | .paren e => by simp [Ty.subst, h, subst_congr m m' h e]
  | .other t => by simp [Ty.subst, h]
theorem substL_congr (m m' : TyMap) (h : ∀ t, m.look t = m'.look t) : ∀ t : Tys, t.subst m = t.subst m'
  | .nil => by simp [Tys.subst]
  | .cons a t => by simp [Tys.subst, subst_congr m m' h a, substL_congr m m' h t]
theorem substS_congr (m m' : TyMap) (h : ∀ t, m.look t = m'.look t) : ∀ t : Segs, t.subst m = t.subst m'
  | .nil => by simp [Segs.subst]
  | .cons i a r => by simp [Segs.subst, substA_congr m m' h a, substS_congr m m' h r]
theorem substA_congr (m m' : TyMap) (h : ∀ t, m.look t = m'.look t) : ∀ t : Args, t.subst m = t.subst m'
  | .none => by simp [Args.subst]
  | .angle g => by simp [Args.subst, substG_congr m m' h g]
  | .parens i o => by simp [Args.subst, substL_congr m m' h i, substR_congr m m' h o]
theorem substG_congr (m m' : TyMap) (h : ∀ t, m.look t = m'.look t) : ∀ t : GArgs, t.subst m = t.subst m'
  | .nil => by simp [GArgs.subst]
  | .ty t r => by simp [GArgs.subst, subst_congr m m' h t, substG_congr m m' h r]
  | .lt l r => by simp [GArgs.subst, substG_congr m m' h r]
  | .assoc i t r => by simp [GArgs.subst, subst_congr m m' h t, substG_congr m m' h r]
  | .const c r => by simp [GArgs.subst, substG_congr m m' h r]
theorem substR_congr (m m' : TyMap) (h : ∀ t, m.look t = m'.look t) : ∀ t : Ret, t.subst m = t.subst m'
  | .default => by simp [Ret.subst]
  | .ty t => by simp [Ret.subst, subst_congr m m' h t]
theorem substB_congr (m m' : TyMap) (h : ∀ t, m.look t = m'.look t) : ∀ t : Bounds, t.subst m = t.subst m'
  | .nil => by simp [Bounds.subst]
  | .trait may l s r => by simp [Bounds.subst, substS_congr m m' h s, substB_congr m m' h r]
  | .lt l r => by simp [Bounds.subst, substB_congr m m' h r]
end

theorem get_of_mem (l : List (Text × Option Ty)) (hn : (l.map (·.1)).Nodup) (it : Text × Option Ty) (h : it ∈ l) :
    (SubstMap.Map.mk l : TyMap).get it.1 = some it.2 := by
  induction l with
  | nil => simp at h
  | cons a l ih =>
    obtain ⟨a, va⟩ := a
    rw [SubstMap.get_cons]
    simp at hn
    rcases List.mem_cons.1 h with rfl | h
    · simp
    · have : a ≠ it.1 := by intro e; subst e; exact hn.1 it.2 (by assumption)
      simp only [this, if_false]
      exact ih hn.2 h

theorem fresh_nodup (P : List Text) : ((fresh P).inner.map (·.1)).Nodup := by
  have : ∀ (l : List (Text × Option Ty)) (m : TyMap), (m.inner.map (·.1)).Nodup →
      ((l.foldl (fun m it => SubstMap.Map.insert m it.1 it.2) m).inner.map (·.1)).Nodup := by
    intro l
    induction l with
    | nil => intro m h; exact h
    | cons a l ih => intro m h; exact ih _ (SubstMap.step_nodup m (.insert a.1 a.2) h)
  exact this _ _ (by simp)

/-- Every instance of a rule's source pattern is recognised: if the type is the pattern with parameters replaced by `σ`, the
parameters' trait bounds hold, every parameter occurs in the pattern, none occurs inside an array, parentheses, a trait object or an
associated type, and one that stands alone at a tuple, reference or slice position has not occurred before, then the rule applies
and yields the target pattern with the same replacement. -/
theorem C17_conv_complete (nm : Ty → Text) (g : Generic) (ty : RTy) (goal : Option RTy) (others : Text → Option RTy)
    (σ : TyMap) (bs : List (Text × List TPath))
    (hσ : ∀ k, σ.get k ≠ none → k ∈ g.names)
    (hty : ty.ty = g.fromTy.subst σ) (hfree : ty.ty.free g.names = true)
    (hfull : g.fromTy.full g.names = true) (hlin : Lin [] (g.fromTy.occ g.names))
    (hocc : ∀ k ∈ g.names, ∃ d, (k, d) ∈ g.fromTy.occ g.names)
    (hbs : getTraitBounds g = some bs)
    (himp : ∀ k v, σ.get k = some (some v) → ∀ l s, g.Requires k l s → Implements nm others v l s)
    (hh1 : g.toHint = none) (hh2 : g.fromHint = none) :
    ∃ m, isConvPossible nm g ty goal others = .yes (g.toTy.subst σ) (nm (g.toTy.subst σ)) m ∧ ∀ k, m.get k = σ.get k := by
  have hsat : ∀ k v, σ.get k = some (some v) → satisfies nm bs others k v = true :=
    fun k v hk => satisfies_of nm g others bs hbs k v (himp k v hk)
  have hdom : Dom g.names (fresh g.names) := by
    intro k; rw [fresh_get]; by_cases h : k ∈ g.names <;> simp [h]
  have hnob : ∀ k v, (fresh g.names).get k ≠ some (some v) := by
    intro k v; rw [fresh_get]; by_cases h : k ∈ g.names <;> simp [h]
  have hpre : Pre g.names σ (fresh g.names) [] (g.fromTy.occ g.names) :=
    ⟨hdom, fun k v h => absurd h (hnob k v), fun k v h => absurd h (hnob k v), hlin⟩
  obtain ⟨m, h1, h2⟩ := complete g.names σ hσ g.fromTy (fresh g.names) [] hfull (by rw [← hty]; exact hfree) hpre
  have hget : ∀ k, m.get k = σ.get k := by
    intro k
    by_cases hk : k ∈ g.names
    · obtain ⟨d, hd⟩ := hocc k hk
      obtain ⟨v, hv⟩ := h2.all k d hd
      rw [hv, h2.le k v hv]
    · have e1 : m.get k = none := by
        cases e : m.get k with
        | none => rfl
        | some x => exact absurd ((h2.dom k).1 (by simp [e])) hk
      have e2 : σ.get k = none := by
        cases e : σ.get k with
        | none => rfl
        | some x => exact absurd (hσ k (by simp [e])) hk
      rw [e1, e2]
  have hbound : ∀ it ∈ m.inner, ∃ v, it.2 = some v ∧ m.get it.1 = some (some v) := by
    intro it hit
    have hnd : (m.inner.map (·.1)).Nodup := by
      have := mono (g.fromTy.subst σ) g.fromTy (fresh g.names)
      rw [h1] at this
      rw [this.keys]; exact fresh_nodup _
    have hg : m.get it.1 = some it.2 := get_of_mem m.inner hnd it hit
    have hk : it.1 ∈ g.names := (h2.dom _).1 (by simp [hg])
    obtain ⟨d, hd⟩ := hocc _ hk
    obtain ⟨v, hv⟩ := h2.all _ d hd
    rw [hg] at hv
    simp at hv
    exact ⟨v, hv, by rw [hg, hv]⟩
  have hc : checkAll nm bs others m = true := by
    simp only [checkAll, List.all_eq_true]
    intro it hit
    obtain ⟨v, e, hg⟩ := hbound it hit
    rw [e]
    exact hsat _ _ (by rw [← hget]; exact hg)
  have hu : hasUnbound m = false := by
    simp only [hasUnbound, List.any_eq_false]
    intro it hit
    obtain ⟨v, e, _⟩ := hbound it hit
    simp [e]
  have hs : g.toTy.subst m = g.toTy.subst σ := by
    refine subst_congr m σ (fun t => ?_) g.toTy
    simp only [TyMap.look, hget]
  refine ⟨m, ?_, hget⟩
  unfold isConvPossible
  rw [m0_eq, hty, h1]
  simp only [hbs, hc, hu, finishConv, finishTo, hh1, hh2, hs, FTypes.makeUniqueIfNeed]
  simp

/-! ## Consequences and limits (findings) -/

/-- A named type without arguments. -/
def nam (s : Text) : Ty := .path none false (.cons s .none .nil)
/-- `X<a>` -/
def app1 (x : Text) (a : Ty) : Ty := .path none false (.cons x (.angle (.ty a .nil)) .nil)
/-- `X<a, b>` -/
def app2 (x : Text) (a b : Ty) : Ty := .path none false (.cons x (.angle (.ty a (.ty b .nil))) .nil)
/-- `(a, b)` -/
def pair (a b : Ty) : Ty := .tuple (.cons a (.cons b .nil))
def kT : Text := ['T']
def kE : Text := ['E']

/-- `if_option_return_some_type`: macroslib/src/typemap/ast.rs:974-982. -/
def ifOptionReturnSome (opt : Text) (ty : RTy) : Option Ty :=
  match isConvPossible (fun _ => []) ⟨app1 opt (nam kT), nam kT, [(kT, .nil)], [], none, none⟩ ty none (fun _ => none) with
  | .yes t _ _ => some t
  | _ => none

/-- `if_result_return_ok_err_types`: macroslib/src/typemap/ast.rs:984-1007. -/
def ifResultReturnOkErr (res : Text) (ty : RTy) : Option (Ty × Ty) :=
  let conv (to_ : Ty) := match isConvPossible (fun _ => []) ⟨app2 res (nam kT) (nam kE), to_, [(kT, .nil), (kE, .nil)], [], none, none⟩ ty none
      (fun _ => none) with
    | .yes t _ _ => some t
    | _ => none
  match conv (nam kT), conv (nam kE) with
  | some a, some b => some (a, b)
  | _, _ => none

theorem substMap_get1 (k x : Text) (v : Option Ty) : (SubstMap.Map.mk [(k, v)] : TyMap).get x = if k = x then some v else none := by
  rw [SubstMap.get_cons]; rfl

/-- `Option<X>` is recognised as an option of exactly `X`, for every type `X` that does not mention a type called `T`. -/
theorem C17_option_inner (opt : Text) (ho : opt ≠ kT) (x : Ty) (name : Text) (impls : List Text) (hx : x.free [kT] = true) :
    ifOptionReturnSome opt ⟨app1 opt x, name, impls⟩ = some x := by
  have hk : (nam kT).paramKey = some kT := by decide
  have hl : TyMap.look ⟨[(kT, some x)]⟩ (nam kT) = some x := by simp [TyMap.look, hk, substMap_get1]
  have hs : (nam kT).subst ⟨[(kT, some x)]⟩ = x := by
    simp only [nam] at hl ⊢; rw [Ty.subst, hl]; rfl
  have hlo : TyMap.look ⟨[(kT, some x)]⟩ (app1 opt (nam kT)) = none := by
    refine path_subst_none (P := [kT]) ?_ ?_
    · intro k hk; rw [substMap_get1] at hk; by_cases e : kT = k <;> simp_all
    · simp [Segs.single, ho]
  obtain ⟨m, h, _⟩ := C17_conv_complete (fun _ => []) ⟨app1 opt (nam kT), nam kT, [(kT, .nil)], [], none, none⟩
    ⟨app1 opt x, name, impls⟩ none (fun _ => none) ⟨[(kT, some x)]⟩ []
    (by intro k hk; rw [substMap_get1] at hk; by_cases e : kT = k <;> simp_all [Generic.names])
    (by simp only [app1] at hlo ⊢; rw [Ty.subst, hlo]; simp [Segs.subst, Args.subst, GArgs.subst, hs])
    (by simp [app1, Ty.free, Segs.single, Segs.free, Args.free, GArgs.free, Generic.names, ho, hx])
    (by simp [app1, Ty.full, Segs.single, Segs.full, Args.full, GArgs.full, Generic.names, ho, Ty.isParam, hk])
    (by
      simp [app1, Ty.occ, Segs.single, Segs.occ, Args.occ, GArgs.occ, Generic.names, ho, Ty.isParam, hk]
      intro a k b e
      cases a <;> simp at e)
    (by simp [app1, Ty.occ, Segs.single, Segs.occ, Args.occ, GArgs.occ, Generic.names, ho, Ty.isParam, hk])
    (by simp [getTraitBounds, whereBounds, inlineBounds, traitNames])
    (by
      rintro k v _ l s (⟨b, hb, hr⟩ | ⟨t, b, hb, -⟩)
      · simp only [List.mem_singleton, Prod.mk.injEq] at hb; rw [hb.2] at hr; exact hr.elim
      · simp at hb) rfl rfl
  rw [hs] at h
  unfold ifOptionReturnSome
  rw [h]

/-- FINDING. A parameter used twice as a tuple element is never recognised, although the type is an instance of the pattern:
`(T, T)` does not match `(X, X)`. -/
theorem C17_repeated_param_in_tuple_rejected (x : Text) (hx : x ≠ kT) :
    (pair (nam kT) (nam kT)).subst ⟨[(kT, some (nam x))]⟩ = pair (nam x) (nam x) ∧
    (matchTy (pair (nam x) (nam x)) (pair (nam kT) (nam kT)) (fresh [kT])).1 = false := by
  have hk : (nam kT).paramKey = some kT := by decide
  have hl : TyMap.look ⟨[(kT, some (nam x))]⟩ (nam kT) = some (nam x) := by simp [TyMap.look, hk, substMap_get1]
  have hs : (nam kT).subst ⟨[(kT, some (nam x))]⟩ = nam x := by
    simp only [nam] at hl ⊢; rw [Ty.subst, hl]; rfl
  have hf : fresh [kT] = ⟨[(kT, none)]⟩ := rfl
  have hx' : kT ≠ x := fun e => hx e.symm
  constructor
  · have : TyMap.look ⟨[(kT, some (nam x))]⟩ (pair (nam kT) (nam kT)) = none := by simp [TyMap.look, pair, paramKey_other]
    simp only [pair] at this ⊢; rw [Ty.subst, this]; simp [Tys.subst, hs]
  · simp [hf, pair, nam, matchTy, matchTys, matchPath, bindPath, substMap_get1, SubstMap.Map.setMut, SubstMap.setFirst, Tys.len,
      Segs.len, matchSegs, hx']

/-- FINDING (capture). If the concrete type mentions a user type that has the parameter's name, a type that is no instance of the
pattern is accepted: `(X, T)` matches the pattern `(T, T)` with `T = X`. -/
theorem C17_capture_unsound (x : Text) (hx : x ≠ kT) :
    matchTy (pair (nam x) (nam kT)) (pair (nam kT) (nam kT)) (fresh [kT]) = (true, ⟨[(kT, some (nam x))]⟩) ∧
    ((pair (nam kT) (nam kT)).subst ⟨[(kT, some (nam x))]⟩).erase ≠ (pair (nam x) (nam kT)).erase := by
  have hf : fresh [kT] = ⟨[(kT, none)]⟩ := rfl
  constructor
  · simp [hf, pair, nam, matchTy, matchTys, matchPath, bindPath, substMap_get1, SubstMap.Map.setMut, SubstMap.setFirst, Tys.len,
      Segs.len, matchSegs, matchArgs]
  · rw [(C17_repeated_param_in_tuple_rejected x hx).1]
    simp [pair, nam, Ty.erase, Tys.erase, Segs.erase, Args.erase, hx]

/-- FINDING. Parameters inside an array type are never bound: `[T; n]` matches no `[X; n]`. -/
theorem C17_array_param_rejected (e n : Text) (x : Ty) (hx : x ≠ nam e) (P : List Text) :
    (matchTy (.array x n) (.array (nam e) n) (fresh P)).1 = false := by
  have : nam e ≠ x := fun h => hx h.symm
  simp [matchTy, fallback, this]

/-- FINDING. Only the first entry for a parameter in the list of trait bounds is checked: with `<T: A> where T: B` a type that
implements `A` only is accepted. -/
theorem C17_second_bound_entry_ignored (a b : Text) (x : Text) (hx : x ≠ kT) (nm : Ty → Text) :
    ∃ m, isConvPossible nm ⟨app1 ['V'] (nam kT), nam kT, [(kT, .trait false false (.cons a .none .nil) .nil)],
      [(nam kT, .trait false false (.cons b .none .nil) .nil)], none, none⟩
      ⟨app1 ['V'] (nam x), [], []⟩ none (fun _ => some ⟨nam x, [], [a]⟩) = .yes (nam x) (nm (nam x)) m := by
  have hk : (nam kT).paramKey = some kT := by decide
  have hl : TyMap.look ⟨[(kT, some (nam x))]⟩ (nam kT) = some (nam x) := by simp [TyMap.look, hk, substMap_get1]
  have hs : (nam kT).subst ⟨[(kT, some (nam x))]⟩ = nam x := by
    simp only [nam] at hl ⊢; rw [Ty.subst, hl]; rfl
  have hfr : fresh [kT] = ⟨[(kT, none)]⟩ := rfl
  have hV : ¬ kT = ['V'] := by decide
  have hm : matchTy (app1 ['V'] (nam x)) (app1 ['V'] (nam kT)) (fresh [kT]) = (true, ⟨[(kT, some (nam x))]⟩) := by
    have hin : inside (nam kT) (nam x) ⟨[(kT, none)]⟩ = (nam x, ⟨[(kT, some (nam x))]⟩) := by
      simp [inside, hk, substMap_get1, SubstMap.Map.setMut, SubstMap.setFirst]
    have hx' : kT ≠ x := fun e => hx e.symm
    have hr : matchTy (nam x) (nam x) ⟨[(kT, some (nam x))]⟩ = (true, ⟨[(kT, some (nam x))]⟩) :=
      matchTy_refl [kT] _ (by intro k hk; rw [substMap_get1] at hk; by_cases e : kT = k <;> simp_all) _
        (by simp [nam, Ty.free, Segs.single, hx, Segs.free, Args.free])
    simp [hfr, app1, matchTy, matchPath, bindPath, substMap_get1, hV, Segs.len, matchSegs, matchArgs, GArgs.len, matchG, hin, hr]
  refine ⟨⟨[(kT, some (nam x))]⟩, ?_⟩
  unfold isConvPossible
  rw [m0_eq]
  simp only [Generic.names, List.map_cons, List.map_nil]
  rw [hm]
  simp [getTraitBounds, whereBounds, hk, traitNames, inlineBounds, checkAll, satisfies, containsSubset, TPath.isIdent, hasUnbound,
    finishConv, finishTo, hs, FTypes.makeUniqueIfNeed]

/-- FINDING. A parameter that occurs in the target only leaks into the result when no goal is given: `From -> Box<T>` applied to
`From` yields the type `Box<T>` with the raw parameter. -/
theorem C17_unbound_param_leaks (nm : Ty → Text) (others : Text → Option RTy) (name : Text) (impls : List Text) :
    ∃ m, isConvPossible nm ⟨nam ['j'], app1 ['B'] (nam kT), [(kT, .nil)], [], none, none⟩ ⟨nam ['j'], name, impls⟩ none others =
      .yes (app1 ['B'] (nam kT)) (nm (app1 ['B'] (nam kT))) m := by
  have hm : matchTy (nam ['j']) (nam ['j']) (fresh [kT]) = (true, ⟨[(kT, none)]⟩) := by
    have : fresh [kT] = ⟨[(kT, none)]⟩ := rfl
    rw [this]
    exact matchTy_refl [kT] _ (by intro k hk; rw [substMap_get1] at hk; by_cases e : kT = k <;> simp_all) _ (by decide)
  have hs : (app1 ['B'] (nam kT)).subst ⟨[(kT, none)]⟩ = app1 ['B'] (nam kT) := by
    have h0 : ∀ t, TyMap.look ⟨[(kT, none)]⟩ t = none := by
      intro t
      simp only [TyMap.look]
      split
      · rw [substMap_get1]; split <;> rfl
      · rfl
    simp [app1, nam, Ty.subst, h0, Segs.subst, Args.subst, GArgs.subst]
  refine ⟨⟨[(kT, none)]⟩, ?_⟩
  unfold isConvPossible
  rw [m0_eq]
  simp only [Generic.names, List.map_cons, List.map_nil]
  rw [hm]
  simp [getTraitBounds, whereBounds, traitNames, inlineBounds, checkAll, hasUnbound, useGoal, finishConv, finishTo, hs,
    FTypes.makeUniqueIfNeed]

/-- FINDING. A `where` clause on anything but a bare parameter makes every successful match panic. -/
theorem C17_where_on_compound_type_panics (nm : Ty → Text) (g : Generic) (ty : RTy) (goal : Option RTy) (others : Text → Option RTy)
    (t : Ty) (b : Bounds) (hw : (t, b) ∈ g.wh) (hk : t.paramKey = none)
    (hm : (matchTy ty.ty g.fromTy (fresh g.names)).1 = true) : isConvPossible nm g ty goal others = .panic := by
  have hnone : ∀ l : List (Ty × Bounds), (t, b) ∈ l → whereBounds l = none := by
    intro l
    induction l with
    | nil => simp
    | cons a l ih =>
      intro h
      obtain ⟨a, c⟩ := a
      simp only [whereBounds]
      rcases List.mem_cons.1 h with h | h
      · simp at h; rw [← h.1, hk]
      · rw [ih h]; split <;> simp_all
  unfold isConvPossible
  rw [m0_eq]
  split
  · rename_i h; rw [h] at hm; simp at hm
  · simp [getTraitBounds, hnone _ hw]

/-! ### Non-vacuity -/

/-- `Result<T, E>` against `Result<(u8, T2), String>`. -/
example : (matchTy (app2 ['R'] (pair (nam ['u']) (nam ['v'])) (nam ['S'])) (app2 ['R'] (nam kT) (nam kE)) (fresh [kT, kE])).1 = true ∧
    (app2 ['R'] (nam kT) (nam kE)).okPat [kT, kE] = true ∧
    (app2 ['R'] (pair (nam ['u']) (nam ['v'])) (nam ['S'])).free [kT, kE] = true ∧
    ifResultReturnOkErr ['R'] ⟨app2 ['R'] (pair (nam ['u']) (nam ['v'])) (nam ['S']), [], []⟩ =
      some (pair (nam ['u']) (nam ['v']), nam ['S']) := by decide
/-- A repeated parameter inside `<..>` is compared: `P<T, T>` matches `P<u, u>` and not `P<u, v>`. -/
example : (matchTy (app2 ['P'] (nam ['u']) (nam ['u'])) (app2 ['P'] (nam kT) (nam kT)) (fresh [kT])).1 = true ∧
    (matchTy (app2 ['P'] (nam ['u']) (nam ['v'])) (app2 ['P'] (nam kT) (nam kT)) (fresh [kT])).1 = false ∧
    (app2 ['P'] (nam kT) (nam kT)).full [kT] = true ∧
    (app2 ['P'] (nam kT) (nam kT)).occ [kT] = [(kT, false), (kT, false)] := by decide
example : (Ty.ref none false (nam kT)).paramKey = none := by decide
/-- A rule with an inline bound, applied to a type that implements the trait: the hypotheses of `C17_bounds_hold`. -/
example : ∃ m, isConvPossible (fun _ => []) ⟨app1 ['V'] (nam kT), nam kT, [(kT, .trait false false (.cons ['C'] .none .nil) .nil)], [], none, none⟩
    ⟨app1 ['V'] (nam ['u']), [], []⟩ none (fun _ => some ⟨nam ['u'], [], [['C']]⟩) = .yes (nam ['u']) [] m ∧
    m.get kT = some (some (nam ['u'])) ∧ (app1 ['V'] (nam kT)).okPat [kT] = true ∧ (app1 ['V'] (nam ['u'])).free [kT] = true :=
  ⟨⟨[(kT, some (nam ['u']))]⟩, rfl, rfl, by decide, by decide⟩

end Flapi.Ast
