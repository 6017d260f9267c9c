import Verif.TypeMap.MatchProps
/-! # Completeness of generic rule matching (C17) -/
namespace Flapi.Ast
open Flapi

/-! ## Specification: patterns for which matching is complete -/

/-- The key of an argument type is a parameter. -/
def Ty.isParam (P : List Text) (t : Ty) : Option Text :=
  match t.paramKey with
  | some k => if k ∈ P then some k else none
  | none => none

/-- The path's only identifier. -/
def Segs.headId : Segs → Text
  | .cons i _ _ => i
  | .nil => []

mutual
/-- Occurrences of parameters, in order; `true`: at a position where the code binds but does not compare (top, reference, pointer,
slice or tuple element); `false`: directly as a generic argument, function input or result. -/
def Ty.occ (P : List Text) : Ty → List (Text × Bool)
  | .path _ _ s => if s.single P then [(s.headId, true)] else s.occ P
  | .ref _ _ e => e.occ P
  | .ptr _ e => e.occ P
  | .slice e => e.occ P
  | .tuple es => es.occ P
  | .implTrait b => b.occ P
  | .bareFn _ _ i o => i.occIn P ++ o.occ P
  | _ => []
/-- Elements of a tuple. -/
def Tys.occ (P : List Text) : Tys → List (Text × Bool)
  | .nil => []
  | .cons h t => h.occ P ++ t.occ P
/-- Inputs of a function. -/
def Tys.occIn (P : List Text) : Tys → List (Text × Bool)
  | .nil => []
  | .cons h t => (match h.isParam P with | some k => [(k, false)] | none => h.occ P) ++ t.occIn P
/-- See `Ty.occ`. -/
def Segs.occ (P : List Text) : Segs → List (Text × Bool)
  | .nil => []
  | .cons _ a r => a.occ P ++ r.occ P
/-- See `Ty.occ`. -/
def Args.occ (P : List Text) : Args → List (Text × Bool)
  | .none => []
  | .angle g => g.occ P
  | .parens i o => i.occIn P ++ o.occ P
/-- See `Ty.occ`. -/
def GArgs.occ (P : List Text) : GArgs → List (Text × Bool)
  | .nil => []
  | .ty t r => (match t.isParam P with | some k => [(k, false)] | none => t.occ P) ++ r.occ P
  | .lt _ r => r.occ P
  | .assoc _ _ r => r.occ P
  | .const _ r => r.occ P
/-- See `Ty.occ`. -/
def Ret.occ (P : List Text) : Ret → List (Text × Bool)
  | .default => []
  | .ty t => match t.isParam P with | some k => [(k, false)] | none => t.occ P
/-- See `Ty.occ`. -/
def Bounds.occ (P : List Text) : Bounds → List (Text × Bool)
  | .nil => []
  | .trait _ _ s r => s.occ P ++ r.occ P
  | .lt _ r => r.occ P
end

mutual
/-- Parameters are used as in `okPat`, and not inside arrays, parentheses, trait objects or associated types. -/
def Ty.full (P : List Text) : Ty → Bool
  | .path q l s => if s.single P then (Ty.path q l s).paramKey.isSome else s.full P
  | .ref _ _ e => e.full P
  | .ptr _ e => e.full P
  | .slice e => e.full P
  | .tuple es => es.full P
  | .implTrait b => b.full P
  | .bareFn _ _ i o => i.fullIn P && o.full P
  | .traitObj d b => (Ty.traitObj d b).free P
  | .array e n => (Ty.array e n).free P
  | .paren e => (Ty.paren e).free P
  | .other _ => true
/-- See `Ty.full`. -/
def Tys.full (P : List Text) : Tys → Bool
  | .nil => true
  | .cons h t => h.full P && t.full P
/-- See `Ty.full`. -/
def Tys.fullIn (P : List Text) : Tys → Bool
  | .nil => true
  | .cons h t => ((h.isParam P).isSome || h.full P) && t.fullIn P
/-- See `Ty.full`. -/
def Segs.full (P : List Text) : Segs → Bool
  | .nil => true
  | .cons _ a r => a.full P && r.full P
/-- See `Ty.full`. -/
def Args.full (P : List Text) : Args → Bool
  | .none => true
  | .angle g => g.full P
  | .parens i o => i.fullIn P && o.full P
/-- See `Ty.full`. -/
def GArgs.full (P : List Text) : GArgs → Bool
  | .nil => true
  | .ty t r => ((t.isParam P).isSome || t.full P) && r.full P
  | .lt _ r => r.full P
  | .assoc _ t r => t.free P && r.full P
  | .const _ r => r.full P
/-- See `Ty.full`. -/
def Ret.full (P : List Text) : Ret → Bool
  | .default => true
  | .ty t => (t.isParam P).isSome || t.full P
/-- See `Ty.full`. -/
def Bounds.full (P : List Text) : Bounds → Bool
  | .nil => true
  | .trait _ _ s r => !s.single P && s.full P && r.full P
  | .lt _ r => r.full P
end

/-- A parameter at a bind-only position has not occurred before. -/
def Lin (seen : List Text) (o : List (Text × Bool)) : Prop :=
  ∀ a k b, o = a ++ (k, true) :: b → k ∉ seen ∧ k ∉ a.map (·.1)

theorem Lin.left {seen x y} (h : Lin seen (x ++ y)) : Lin seen x := by
  intro a k b e
  exact h a k (b ++ y) (by rw [e]; simp)

theorem Lin.right {seen x y} (h : Lin seen (x ++ y)) : Lin (seen ++ x.map (·.1)) y := by
  intro a k b e
  have := h (x ++ a) k b (by rw [e]; simp)
  simp only [List.map_append, List.mem_append, not_or] at this ⊢
  exact ⟨⟨this.1, this.2.1⟩, this.2.2⟩

/-! ## Lemmas -/

/-- The domain of the map is `P`. -/
def Dom (P : List Text) (m : TyMap) : Prop := ∀ k, m.get k ≠ none ↔ k ∈ P

/-- Bound parameters are among `seen`. -/
def BoundIn (m : TyMap) (seen : List Text) : Prop := ∀ k v, m.get k = some (some v) → k ∈ seen

theorem fallback_refl (P : List Text) (t : Ty) (m : TyMap) (hk : ∀ k, m.get k ≠ none → k ∈ P) (h : t.free P = true) :
    fallback t t m = (true, m) := by
  unfold fallback
  split
  · rename_i q l s
    have : bindPath s (.path q l s) m = none := by
      cases hb : bindPath s (.path q l s) m with
      | none => rfl
      | some x =>
        obtain ⟨id, a, rfl, hg, _⟩ := bindPath_some hb
        have := hk id (by simp [hg])
        simp [Ty.free, Segs.single, this] at h
    rw [this]; simp
  · simp

theorem inside_free (P : List Text) (t t2 : Ty) (m : TyMap) (hk : ∀ k, m.get k ≠ none → k ∈ P) (h : t.free P = true) :
    inside t t2 m = (t, m) := by
  have := keyOut_of_free h
  simp only [Ty.keyOut] at this
  unfold inside
  split at this
  · rename_i k e
    rw [e]
    simp only [decide_eq_true_eq] at this
    cases hg : m.get k with
    | none => simp [hg]
    | some v => exact absurd (hk k (by simp [hg])) this
  · rename_i e; rw [e]

theorem bindPath_free (P : List Text) (s : Segs) (t : Ty) (m : TyMap) (hk : ∀ k, m.get k ≠ none → k ∈ P) (h : s.single P = false) :
    bindPath s t m = none := by
  cases hb : bindPath s t m with
  | none => rfl
  | some x =>
    obtain ⟨id, a, rfl, hg, _⟩ := bindPath_some hb
    have := hk id (by simp [hg])
    simp [Segs.single, this] at h

mutual
theorem matchTy_refl (P : List Text) (m : TyMap) (hk : ∀ k, m.get k ≠ none → k ∈ P) :
    ∀ t : Ty, t.free P = true → matchTy t t m = (true, m)
  | .path q l s, h => by
    have h' : s.single P = false ∧ s.free P = true := by simpa [Ty.free] using h
    simp [matchTy, matchPath, bindPath_free P s _ m hk h'.1, matchSegs_refl P m hk s h'.2]
  | .ref l mt e, h => by simp [matchTy, matchTy_refl P m hk e (by simpa [Ty.free] using h)]
  | .ptr mt e, h => by simp [matchTy, matchTy_refl P m hk e (by simpa [Ty.free] using h)]
  | .slice e, h => by simp [matchTy, matchTy_refl P m hk e (by simpa [Ty.free] using h)]
  | .tuple es, h => by simp [matchTy, matchTys_refl P m hk es (by simpa [Ty.free] using h)]
  | .implTrait b, h => by simp [matchTy, matchBounds_refl P m hk b _ (by simpa [Ty.free] using h)]
  | .bareFn hd l i o, h => by
    have h' : i.free P = true ∧ o.free P = true := by simpa [Ty.free] using h
    simp [matchTy, matchTysIn_refl P m hk i h'.1, matchRet_refl P m hk o h'.2]
  | .traitObj d b, h => by rw [matchTy]; exact fallback_refl P _ m hk h
  | .array e n, h => by rw [matchTy]; exact fallback_refl P _ m hk h
  | .paren e, h => by rw [matchTy]; exact fallback_refl P _ m hk h
  | .other t, h => by rw [matchTy]; exact fallback_refl P _ m hk h
theorem matchTys_refl (P : List Text) (m : TyMap) (hk : ∀ k, m.get k ≠ none → k ∈ P) :
    ∀ t : Tys, t.free P = true → matchTys t t m = (true, m)
  | .nil, _ => by simp [matchTys]
  | .cons a t, h => by
    simp [Tys.free] at h
    simp [matchTys, matchTy_refl P m hk a h.1, matchTys_refl P m hk t h.2]
theorem matchTysIn_refl (P : List Text) (m : TyMap) (hk : ∀ k, m.get k ≠ none → k ∈ P) :
    ∀ t : Tys, t.free P = true → matchTysIn t t m = (true, m)
  | .nil, _ => by simp [matchTysIn]
  | .cons a t, h => by
    simp [Tys.free] at h
    simp [matchTysIn, inside_free P a a m hk h.1, matchTy_refl P m hk a h.1, matchTysIn_refl P m hk t h.2]
theorem matchSegs_refl (P : List Text) (m : TyMap) (hk : ∀ k, m.get k ≠ none → k ∈ P) :
    ∀ t : Segs, t.free P = true → matchSegs t t m = (true, m)
  | .nil, _ => by simp [matchSegs]
  | .cons i a r, h => by
    simp [Segs.free] at h
    simp [matchSegs, matchArgs_refl P m hk a h.1, matchSegs_refl P m hk r h.2]
theorem matchArgs_refl (P : List Text) (m : TyMap) (hk : ∀ k, m.get k ≠ none → k ∈ P) :
    ∀ t : Args, t.free P = true → matchArgs t t m = (true, m)
  | .none, _ => by simp [matchArgs]
  | .angle g, h => by simp [matchArgs, matchG_refl P m hk g (by simpa [Args.free] using h)]
  | .parens i o, h => by
    simp [Args.free] at h
    simp [matchArgs, matchTysIn_refl P m hk i h.1, matchRet_refl P m hk o h.2]
theorem matchG_refl (P : List Text) (m : TyMap) (hk : ∀ k, m.get k ≠ none → k ∈ P) :
    ∀ t : GArgs, t.free P = true → matchG t t m = (true, m)
  | .nil, _ => by simp [matchG]
  | .ty t r, h => by
    simp [GArgs.free] at h
    simp [matchG, inside_free P t t m hk h.1, matchTy_refl P m hk t h.1, matchG_refl P m hk r h.2]
  | .lt l r, h => by
    simp [GArgs.free] at h
    simp [matchG, matchG_refl P m hk r h]
  | .assoc i t r, h => by
    simp [GArgs.free] at h
    simp [matchG, matchG_refl P m hk r h.2]
  | .const l r, h => by
    simp [GArgs.free] at h
    simp [matchG, matchG_refl P m hk r h]
theorem matchRet_refl (P : List Text) (m : TyMap) (hk : ∀ k, m.get k ≠ none → k ∈ P) :
    ∀ t : Ret, t.free P = true → matchRet t t m = (true, m)
  | .default, _ => by simp [matchRet]
  | .ty t, h => by
    simp [Ret.free] at h
    simp [matchRet, inside_free P t t m hk h, matchTy_refl P m hk t h]
theorem matchBounds_refl (P : List Text) (m : TyMap) (hk : ∀ k, m.get k ≠ none → k ∈ P) :
    ∀ (t : Bounds) (ty2 : Ty), t.free P = true → matchBounds t t ty2 m = (true, m)
  | .nil, _, _ => by simp [matchBounds]
  | .trait may l s r, ty2, h => by
    simp [Bounds.free] at h
    simp [matchBounds, matchPath, bindPath_free P s _ m hk h.1.1, matchSegs_refl P m hk s h.1.2,
      matchBounds_refl P m hk r ty2 h.2]
  | .lt l r, ty2, h => by
    simp [Bounds.free] at h
    simp [matchBounds, matchBounds_refl P m hk r ty2 h]
end

/-- State before a sub-match. -/
structure Pre (P : List Text) (σ m : TyMap) (seen : List Text) (o : List (Text × Bool)) : Prop where
  dom : Dom P m
  le : Le m σ
  bnd : BoundIn m seen
  lin : Lin seen o

/-- State after a successful sub-match. -/
structure Post (P : List Text) (σ m m' : TyMap) (seen : List Text) (o : List (Text × Bool)) : Prop where
  dom : Dom P m'
  le : Le m' σ
  mono : Le m m'
  bnd : BoundIn m' (seen ++ o.map (·.1))
  all : ∀ k d, (k, d) ∈ o → ∃ v, m'.get k = some (some v)

theorem Pre.left {P σ m seen x y} (h : Pre P σ m seen (x ++ y)) : Pre P σ m seen x :=
  ⟨h.dom, h.le, h.bnd, h.lin.left⟩

theorem Post.pre {P σ m m' seen x y} (h : Pre P σ m seen (x ++ y)) (p : Post P σ m m' seen x) :
    Pre P σ m' (seen ++ x.map (·.1)) y := ⟨p.dom, p.le, p.bnd, h.lin.right⟩

theorem Post.trans {P σ m m1 m2 seen x y} (p : Post P σ m m1 seen x) (q : Post P σ m1 m2 (seen ++ x.map (·.1)) y) :
    Post P σ m m2 seen (x ++ y) where
  dom := q.dom
  le := q.le
  mono := p.mono.trans q.mono
  bnd := by have := q.bnd; simpa [List.append_assoc] using this
  all := by
    intro k d hk
    rcases List.mem_append.1 hk with hk | hk
    · obtain ⟨v, hv⟩ := p.all k d hk
      exact ⟨v, q.mono k v hv⟩
    · exact q.all k d hk

theorem Pre.refl' {P σ m seen o} (h : Pre P σ m seen o) : Post P σ m m seen [] :=
  ⟨h.dom, h.le, Le.refl m, by simpa using h.bnd, by simp⟩

theorem dom_set {P} {m : TyMap} {k v} (h : Dom P m) (hk : k ∈ P) : Dom P (m.setMut k v) := by
  intro x
  rw [setMut_get _ _ _ _ ((h k).2 hk)]
  by_cases e : x = k
  · subst e; simp [hk]
  · simp [e, h x]

theorem post_bind {P σ m seen k d t} (h : Pre P σ m seen [(k, d)]) (hk : k ∈ P) (hσ : σ.get k = some (some t))
    (hm : m.get k = some none) : Post P σ m (m.setMut k (some t)) seen [(k, d)] := by
  have hn : m.get k ≠ none := by simp [hm]
  refine ⟨dom_set h.dom hk, ?_, ?_, ?_, ?_⟩
  · intro x v hx
    rw [setMut_get _ _ _ _ hn] at hx
    by_cases e : x = k
    · simp [e] at hx; subst hx; rw [e]; exact hσ
    · simp [e] at hx; exact h.le x v hx
  · intro x v hx
    rw [setMut_get _ _ _ _ hn]
    by_cases e : x = k
    · subst e; rw [hm] at hx; simp at hx
    · simpa [e] using hx
  · intro x v hx
    rw [setMut_get _ _ _ _ hn] at hx
    by_cases e : x = k
    · simp [e]
    · simp [e] at hx
      have := h.bnd x v hx
      simp [this]
  · intro x d' hx
    simp at hx
    exact ⟨t, by rw [hx.1]; simp [setMut_get _ _ _ _ hn]⟩

theorem matchTy_bind (t : Ty) (q : Option Text) (l : Bool) (s : Segs) (m m' : TyMap) (h : bindPath s t m = some m') :
    matchTy t (.path q l s) m = (true, m') := by
  cases t <;> simp [matchTy, matchPath, fallback, h]

theorem paramKey_toks {t : Ty} {k : Text} (h : t.paramKey = some k) : t.normName = [.ident k] := by
  unfold Ty.paramKey at h
  split at h
  · rename_i k' e; simp at h; rw [e, h]
  · simp at h

theorem subst_param {P : List Text} {σ : TyMap} {p : Ty} {k : Text} (hk : p.paramKey = some k) (hkP : k ∈ P)
    (hf : (p.subst σ).free P = true) : σ.get k = some (some (p.subst σ)) := by
  have hnone : σ.look p = none → False := by
    intro hl
    have h2 : (p.subst σ).keyOut P = true := keyOut_of_free hf
    cases p with
    | path q l s =>
      obtain ⟨a, rfl⟩ := paramKey_path hk
      rw [Ty.subst, hl] at hf
      simp [Ty.free, Segs.subst, Segs.single, hkP] at hf
    | traitObj d b =>
      have hb : ∃ s, b = .trait false false (.cons k s .nil) .nil ∧ s.stripLt.stripDyn = .none := by
        have hk := paramKey_toks hk
        simp only [Ty.normName, Ty.norm, Ty.stripLt, Ty.stripDyn, Ty.toks, optTok] at hk
        cases b with
        | nil => simp [Bounds.stripLt, Bounds.stripDyn, Bounds.toks] at hk
        | lt l r => cases r <;> simp [Bounds.stripLt, Bounds.stripDyn, Bounds.toks] at hk
        | trait may l s r =>
          have hplus : r.stripLt.stripDyn ≠ .nil → False := by
            intro hr
            have : Tok.plus ∈ [Tok.ident k] := by
              rw [← hk]
              simp only [Bounds.stripLt, Bounds.stripDyn]
              generalize r.stripLt.stripDyn = r' at hr
              cases r' <;> simp_all [Bounds.toks]
            simp at this
          cases r with
          | trait => exact (hplus (by simp [Bounds.stripLt, Bounds.stripDyn])).elim
          | lt => exact (hplus (by simp [Bounds.stripLt, Bounds.stripDyn])).elim
          | nil =>
            cases may <;> cases l <;> simp [Bounds.stripLt, Bounds.stripDyn, Bounds.toks, optTok] at hk
            cases s with
            | nil => simp [Segs.stripLt, Segs.stripDyn, Segs.toks] at hk
            | cons i a r =>
              cases r with
              | cons => simp [Segs.stripLt, Segs.stripDyn, Segs.toks] at hk
              | nil =>
                simp [Segs.stripLt, Segs.stripDyn, Segs.toks] at hk
                cases ha : a.stripLt.stripDyn with
                | none => exact ⟨a, by rw [hk.1], ha⟩
                | _ => rw [ha] at hk; simp [Args.toks] at hk
      obtain ⟨a, rfl, ha⟩ := hb
      rw [Ty.subst, hl] at hf
      simp [Ty.free, Bounds.free, Bounds.subst, Segs.subst, Segs.single, hkP] at hf
    | _ => simp [paramKey_other] at hk
  cases hg : σ.look p with
  | none => exact (hnone hg).elim
  | some v =>
    have : p.subst σ = v := by cases p <;> simp [Ty.subst, hg]
    rw [this]
    simp only [TyMap.look, hk] at hg
    cases hh : σ.get k with
    | none => simp [hh] at hg
    | some x => cases x <;> simp_all

theorem inside_post {P : List Text} {σ m : TyMap} {seen : List Text} {p : Ty} {k : Text} (hi : p.isParam P = some k)
    (hf : (p.subst σ).free P = true) (h : Pre P σ m seen [(k, false)]) :
    ∃ m', matchTy (p.subst σ) (inside p (p.subst σ) m).1 (inside p (p.subst σ) m).2 = (true, m') ∧
      Post P σ m m' seen [(k, false)] := by
  unfold Ty.isParam at hi
  split at hi
  · rename_i k' hk
    split at hi
    · rename_i hkP
      simp at hi; subst hi
      have hσ := subst_param (σ := σ) hk hkP hf
      have hd := (h.dom k').2 hkP
      unfold inside
      rw [hk]
      dsimp only
      cases hg : m.get k' with
      | none => exact absurd hg hd
      | some x =>
        cases x with
        | none =>
          have hp := post_bind h hkP hσ hg
          refine ⟨_, matchTy_refl P _ (fun x hx => (hp.dom x).1 hx) _ hf, hp⟩
        | some x =>
          have hx : x = p.subst σ := by have := h.le _ _ hg; rw [hσ] at this; simp at this; exact this.symm
          subst hx
          refine ⟨_, matchTy_refl P _ (fun x hx => (h.dom x).1 hx) _ hf, ⟨h.dom, h.le, Le.refl m, ?_, ?_⟩⟩
          · intro x v hx; have := h.bnd x v hx; simp [this]
          · intro x d hx; simp at hx; exact ⟨_, by rw [hx.1]; exact hg⟩
    · simp at hi
  · simp at hi

theorem inside_skip {P : List Text} {m : TyMap} {p t : Ty} (hi : p.isParam P = none) (hd : Dom P m) : inside p t m = (p, m) := by
  unfold inside
  unfold Ty.isParam at hi
  cases hk : p.paramKey with
  | none => rfl
  | some k =>
    rw [hk] at hi
    simp at hi
    have : m.get k = none := by
      cases hg : m.get k with
      | none => rfl
      | some v => exact absurd ((hd k).1 (by simp [hg])) hi
    simp [this]

theorem substS_len (σ : TyMap) : ∀ s : Segs, (s.subst σ).len = s.len
  | .nil => rfl
  | .cons i a r => by simp [Segs.subst, Segs.len, substS_len σ r]
theorem substL_len (σ : TyMap) : ∀ s : Tys, (s.subst σ).len = s.len
  | .nil => rfl
  | .cons a r => by simp [Tys.subst, Tys.len, substL_len σ r]
theorem substG_len (σ : TyMap) : ∀ s : GArgs, (s.subst σ).len = s.len
  | .nil => rfl
  | .ty t r => by simp [GArgs.subst, GArgs.len, substG_len σ r]
  | .lt t r => by simp [GArgs.subst, GArgs.len, substG_len σ r]
  | .assoc i t r => by simp [GArgs.subst, GArgs.len, substG_len σ r]
  | .const t r => by simp [GArgs.subst, GArgs.len, substG_len σ r]
theorem substB_len (σ : TyMap) : ∀ s : Bounds, (s.subst σ).len = s.len
  | .nil => rfl
  | .trait m l s r => by simp [Bounds.subst, Bounds.len, substB_len σ r]
  | .lt l r => by simp [Bounds.subst, Bounds.len, substB_len σ r]

mutual
theorem complete (P : List Text) (σ : TyMap) (hσ : ∀ k, σ.get k ≠ none → k ∈ P) : ∀ (p : Ty) (m : TyMap) (seen : List Text),
    p.full P = true → (p.subst σ).free P = true → Pre P σ m seen (p.occ P) →
    ∃ m', matchTy (p.subst σ) p m = (true, m') ∧ Post P σ m m' seen (p.occ P)
  | .path q l s, m, seen, hp, hf, h => by
    cases hs : s.single P with
    | true =>
      simp [Ty.full, hs] at hp
      obtain ⟨k, hk⟩ := Option.isSome_iff_exists.1 hp
      obtain ⟨a, rfl⟩ := paramKey_path hk
      have hkP : k ∈ P := by simpa [Segs.single] using hs
      have hv := subst_param hk hkP hf
      simp only [Ty.occ, hs, if_true, Segs.headId] at h ⊢
      have hm : m.get k = some none := by
        cases hg : m.get k with
        | none => exact absurd hg ((h.dom k).2 hkP)
        | some x =>
          cases x with
          | none => rfl
          | some v =>
            have h1 := h.bnd k v hg
            have h2 := h.lin [] k [] rfl
            exact absurd h1 h2.1
      exact ⟨_, matchTy_bind _ _ _ _ _ _ (by simp [bindPath, hm]), post_bind h hkP hv hm⟩
    | false =>
      have hl : σ.look (.path q l s) = none := path_subst_none hσ hs
      have hp' : s.full P = true := by simpa [Ty.full, hs] using hp
      rw [Ty.subst, hl, Option.getD_none] at hf ⊢
      have hf' : (s.subst σ).single P = false ∧ (s.subst σ).free P = true := by simpa [Ty.free] using hf
      simp only [Ty.occ, hs, Bool.false_eq_true, if_false] at h ⊢
      obtain ⟨m', h1, h2⟩ := completeS P σ hσ s m seen hp' hf'.2 h
      refine ⟨m', ?_, h2⟩
      simp [matchTy, matchPath, bindPath_free P s _ m (fun k hk => (h.dom k).1 hk) hs, substS_len, h1]
  | .ref l mt e, m, seen, hp, hf, h => by
    have hl : σ.look (.ref l mt e) = none := by simp [TyMap.look, paramKey_other]
    rw [Ty.subst, hl, Option.getD_none] at hf ⊢
    obtain ⟨m', h1, h2⟩ := complete P σ hσ e m seen (by simpa [Ty.full] using hp) (by simpa [Ty.free] using hf)
      (by simpa only [Ty.occ] using h)
    exact ⟨m', by simp [matchTy, h1], by simpa only [Ty.occ] using h2⟩
  | .ptr mt e, m, seen, hp, hf, h => by
    have hl : σ.look (.ptr mt e) = none := by simp [TyMap.look, paramKey_other]
    rw [Ty.subst, hl, Option.getD_none] at hf ⊢
    obtain ⟨m', h1, h2⟩ := complete P σ hσ e m seen (by simpa [Ty.full] using hp) (by simpa [Ty.free] using hf)
      (by simpa only [Ty.occ] using h)
    exact ⟨m', by simp [matchTy, h1], by simpa only [Ty.occ] using h2⟩
  | .slice e, m, seen, hp, hf, h => by
    have hl : σ.look (.slice e) = none := by simp [TyMap.look, paramKey_other]
    rw [Ty.subst, hl, Option.getD_none] at hf ⊢
    obtain ⟨m', h1, h2⟩ := complete P σ hσ e m seen (by simpa [Ty.full] using hp) (by simpa [Ty.free] using hf)
      (by simpa only [Ty.occ] using h)
    exact ⟨m', by simp [matchTy, h1], by simpa only [Ty.occ] using h2⟩
  | .tuple e, m, seen, hp, hf, h => by
    have hl : σ.look (.tuple e) = none := by simp [TyMap.look, paramKey_other]
    rw [Ty.subst, hl, Option.getD_none] at hf ⊢
    obtain ⟨m', h1, h2⟩ := completeL P σ hσ e m seen (by simpa [Ty.full] using hp) (by simpa [Ty.free] using hf)
      (by simpa only [Ty.occ] using h)
    exact ⟨m', by simp [matchTy, h1, substL_len], by simpa only [Ty.occ] using h2⟩
  | .implTrait b, m, seen, hp, hf, h => by
    have hl : σ.look (.implTrait b) = none := by simp [TyMap.look, paramKey_other]
    rw [Ty.subst, hl, Option.getD_none] at hf ⊢
    obtain ⟨m', h1, h2⟩ := completeB P σ hσ b (.implTrait (b.subst σ)) m seen (by simpa [Ty.full] using hp) (by simpa [Ty.free] using hf)
      (by simpa only [Ty.occ] using h)
    exact ⟨m', by simp [matchTy, h1, substB_len], by simpa only [Ty.occ] using h2⟩
  | .bareFn hd l i o, m, seen, hp, hf, h => by
    have hl : σ.look (.bareFn hd l i o) = none := by simp [TyMap.look, paramKey_other]
    rw [Ty.subst, hl, Option.getD_none] at hf ⊢
    simp [Ty.full] at hp
    simp [Ty.free] at hf
    simp only [Ty.occ] at h ⊢
    obtain ⟨m1, h1, h2⟩ := completeI P σ hσ i m seen hp.1 hf.1 h.left
    obtain ⟨m2, k1, k2⟩ := completeR P σ hσ o m1 _ hp.2 hf.2 (h2.pre h)
    exact ⟨m2, by simp [matchTy, h1, k1, substL_len], h2.trans k2⟩
  | .traitObj d b, m, seen, hp, hf, h => by
    simp only [Ty.full] at hp
    rw [subst_free P σ hσ _ hp] at hf ⊢
    exact ⟨m, matchTy_refl P m (fun k hk => (h.dom k).1 hk) _ hp, h.refl'⟩
  | .array e n, m, seen, hp, hf, h => by
    simp only [Ty.full] at hp
    rw [subst_free P σ hσ _ hp] at hf ⊢
    exact ⟨m, matchTy_refl P m (fun k hk => (h.dom k).1 hk) _ hp, h.refl'⟩
  | .paren e, m, seen, hp, hf, h => by
    simp only [Ty.full] at hp
    rw [subst_free P σ hσ _ hp] at hf ⊢
    exact ⟨m, matchTy_refl P m (fun k hk => (h.dom k).1 hk) _ hp, h.refl'⟩
  | .other t, m, seen, hp, hf, h => by
    have hp : (Ty.other t).free P = true := rfl
    rw [subst_free P σ hσ _ hp] at hf ⊢
    exact ⟨m, matchTy_refl P m (fun k hk => (h.dom k).1 hk) _ hp, h.refl'⟩
theorem completeL (P : List Text) (σ : TyMap) (hσ : ∀ k, σ.get k ≠ none → k ∈ P) : ∀ (p : Tys) (m : TyMap) (seen : List Text),
    p.full P = true → (p.subst σ).free P = true → Pre P σ m seen (p.occ P) →
    ∃ m', matchTys (p.subst σ) p m = (true, m') ∧ Post P σ m m' seen (p.occ P)
  | .nil, m, seen, hp, hf, h => ⟨m, by simp [Tys.subst, matchTys], h.refl'⟩
  | .cons a t, m, seen, hp, hf, h => by
    simp [Tys.full] at hp
    simp [Tys.subst, Tys.free] at hf
    simp only [Tys.occ] at h ⊢
    obtain ⟨m1, h1, h2⟩ := complete P σ hσ a m seen hp.1 hf.1 h.left
    obtain ⟨m2, k1, k2⟩ := completeL P σ hσ t m1 _ hp.2 hf.2 (h2.pre h)
    exact ⟨m2, by simp [Tys.subst, matchTys, h1, k1], h2.trans k2⟩
theorem completeI (P : List Text) (σ : TyMap) (hσ : ∀ k, σ.get k ≠ none → k ∈ P) : ∀ (p : Tys) (m : TyMap) (seen : List Text),
    p.fullIn P = true → (p.subst σ).free P = true → Pre P σ m seen (p.occIn P) →
    ∃ m', matchTysIn (p.subst σ) p m = (true, m') ∧ Post P σ m m' seen (p.occIn P)
  | .nil, m, seen, hp, hf, h => ⟨m, by simp [Tys.subst, matchTysIn], h.refl'⟩
  | .cons a t, m, seen, hp, hf, h => by
    simp [Tys.fullIn] at hp
    simp [Tys.subst, Tys.free] at hf
    simp only [Tys.occIn] at h ⊢
    cases hi : a.isParam P with
    | some k =>
      rw [hi] at h
      dsimp only at h ⊢
      obtain ⟨m1, h1, h2⟩ := inside_post hi hf.1 h.left
      obtain ⟨m2, k1, k2⟩ := completeI P σ hσ t m1 _ hp.2 hf.2 (h2.pre h)
      exact ⟨m2, by simp [Tys.subst, matchTysIn, h1, k1], h2.trans k2⟩
    | none =>
      rw [hi] at h
      dsimp only at h ⊢
      obtain ⟨m1, h1, h2⟩ := complete P σ hσ a m seen (by simpa [hi] using hp.1) hf.1 h.left
      obtain ⟨m2, k1, k2⟩ := completeI P σ hσ t m1 _ hp.2 hf.2 (h2.pre h)
      exact ⟨m2, by simp [Tys.subst, matchTysIn, inside_skip hi h.dom, h1, k1], h2.trans k2⟩
theorem completeS (P : List Text) (σ : TyMap) (hσ : ∀ k, σ.get k ≠ none → k ∈ P) : ∀ (p : Segs) (m : TyMap) (seen : List Text),
    p.full P = true → (p.subst σ).free P = true → Pre P σ m seen (p.occ P) →
    ∃ m', matchSegs (p.subst σ) p m = (true, m') ∧ Post P σ m m' seen (p.occ P)
  | .nil, m, seen, hp, hf, h => ⟨m, by simp [Segs.subst, matchSegs], h.refl'⟩
  | .cons i a r, m, seen, hp, hf, h => by
    simp [Segs.full] at hp
    simp [Segs.subst, Segs.free] at hf
    simp only [Segs.occ] at h ⊢
    obtain ⟨m1, h1, h2⟩ := completeA P σ hσ a m seen hp.1 hf.1 h.left
    obtain ⟨m2, k1, k2⟩ := completeS P σ hσ r m1 _ hp.2 hf.2 (h2.pre h)
    exact ⟨m2, by simp [Segs.subst, matchSegs, h1, k1], h2.trans k2⟩
theorem completeA (P : List Text) (σ : TyMap) (hσ : ∀ k, σ.get k ≠ none → k ∈ P) : ∀ (p : Args) (m : TyMap) (seen : List Text),
    p.full P = true → (p.subst σ).free P = true → Pre P σ m seen (p.occ P) →
    ∃ m', matchArgs (p.subst σ) p m = (true, m') ∧ Post P σ m m' seen (p.occ P)
  | .none, m, seen, hp, hf, h => ⟨m, by simp [Args.subst, matchArgs], h.refl'⟩
  | .angle g, m, seen, hp, hf, h => by
    obtain ⟨m', h1, h2⟩ := completeG P σ hσ g m seen (by simpa [Args.full] using hp) (by simpa [Args.subst, Args.free] using hf)
      (by simpa only [Args.occ] using h)
    exact ⟨m', by simp [Args.subst, matchArgs, h1, substG_len], by simpa only [Args.occ] using h2⟩
  | .parens i o, m, seen, hp, hf, h => by
    simp [Args.full] at hp
    simp [Args.subst, Args.free] at hf
    simp only [Args.occ] at h ⊢
    obtain ⟨m1, h1, h2⟩ := completeI P σ hσ i m seen hp.1 hf.1 h.left
    obtain ⟨m2, k1, k2⟩ := completeR P σ hσ o m1 _ hp.2 hf.2 (h2.pre h)
    exact ⟨m2, by simp [Args.subst, matchArgs, h1, k1, substL_len], h2.trans k2⟩
theorem completeG (P : List Text) (σ : TyMap) (hσ : ∀ k, σ.get k ≠ none → k ∈ P) : ∀ (p : GArgs) (m : TyMap) (seen : List Text),
    p.full P = true → (p.subst σ).free P = true → Pre P σ m seen (p.occ P) →
    ∃ m', matchG (p.subst σ) p m = (true, m') ∧ Post P σ m m' seen (p.occ P)
  | .nil, m, seen, hp, hf, h => ⟨m, by simp [GArgs.subst, matchG], h.refl'⟩
  | .ty a t, m, seen, hp, hf, h => by
    simp [GArgs.full] at hp
    simp [GArgs.subst, GArgs.free] at hf
    simp only [GArgs.occ] at h ⊢
    cases hi : a.isParam P with
    | some k =>
      rw [hi] at h
      dsimp only at h ⊢
      obtain ⟨m1, h1, h2⟩ := inside_post hi hf.1 h.left
      obtain ⟨m2, k1, k2⟩ := completeG P σ hσ t m1 _ hp.2 hf.2 (h2.pre h)
      exact ⟨m2, by simp [GArgs.subst, matchG, h1, k1], h2.trans k2⟩
    | none =>
      rw [hi] at h
      dsimp only at h ⊢
      obtain ⟨m1, h1, h2⟩ := complete P σ hσ a m seen (by simpa [hi] using hp.1) hf.1 h.left
      obtain ⟨m2, k1, k2⟩ := completeG P σ hσ t m1 _ hp.2 hf.2 (h2.pre h)
      exact ⟨m2, by simp [GArgs.subst, matchG, inside_skip hi h.dom, h1, k1], h2.trans k2⟩
  | .lt l t, m, seen, hp, hf, h => by
    obtain ⟨m', h1, h2⟩ := completeG P σ hσ t m seen (by simpa [GArgs.full] using hp) (by simpa [GArgs.subst, GArgs.free] using hf)
      (by simpa only [GArgs.occ] using h)
    exact ⟨m', by simp [GArgs.subst, matchG, h1], by simpa only [GArgs.occ] using h2⟩
  | .assoc i a t, m, seen, hp, hf, h => by
    simp [GArgs.full] at hp
    simp [GArgs.subst, GArgs.free] at hf
    obtain ⟨m', h1, h2⟩ := completeG P σ hσ t m seen hp.2 hf.2 (by simpa only [GArgs.occ] using h)
    exact ⟨m', by simp [GArgs.subst, matchG, h1, subst_free P σ hσ a hp.1], by simpa only [GArgs.occ] using h2⟩
  | .const c t, m, seen, hp, hf, h => by
    obtain ⟨m', h1, h2⟩ := completeG P σ hσ t m seen (by simpa [GArgs.full] using hp) (by simpa [GArgs.subst, GArgs.free] using hf)
      (by simpa only [GArgs.occ] using h)
    exact ⟨m', by simp [GArgs.subst, matchG, h1], by simpa only [GArgs.occ] using h2⟩
theorem completeR (P : List Text) (σ : TyMap) (hσ : ∀ k, σ.get k ≠ none → k ∈ P) : ∀ (p : Ret) (m : TyMap) (seen : List Text),
    p.full P = true → (p.subst σ).free P = true → Pre P σ m seen (p.occ P) →
    ∃ m', matchRet (p.subst σ) p m = (true, m') ∧ Post P σ m m' seen (p.occ P)
  | .default, m, seen, hp, hf, h => ⟨m, by simp [Ret.subst, matchRet], h.refl'⟩
  | .ty a, m, seen, hp, hf, h => by
    simp [Ret.full] at hp
    simp [Ret.subst, Ret.free] at hf
    simp only [Ret.occ] at h ⊢
    cases hi : a.isParam P with
    | some k =>
      rw [hi] at h
      dsimp only at h ⊢
      obtain ⟨m1, h1, h2⟩ := inside_post hi hf h
      exact ⟨m1, by simp [Ret.subst, matchRet, h1], h2⟩
    | none =>
      rw [hi] at h
      dsimp only at h ⊢
      obtain ⟨m1, h1, h2⟩ := complete P σ hσ a m seen (by simpa [hi] using hp) hf h
      exact ⟨m1, by simp [Ret.subst, matchRet, inside_skip hi h.dom, h1], h2⟩
theorem completeB (P : List Text) (σ : TyMap) (hσ : ∀ k, σ.get k ≠ none → k ∈ P) : ∀ (p : Bounds) (ty2 : Ty) (m : TyMap) (seen : List Text),
    p.full P = true → (p.subst σ).free P = true → Pre P σ m seen (p.occ P) →
    ∃ m', matchBounds (p.subst σ) p ty2 m = (true, m') ∧ Post P σ m m' seen (p.occ P)
  | .nil, _, m, seen, hp, hf, h => ⟨m, by simp [Bounds.subst, matchBounds], h.refl'⟩
  | .trait may l s r, ty2, m, seen, hp, hf, h => by
    simp [Bounds.full] at hp
    simp [Bounds.subst, Bounds.free] at hf
    simp only [Bounds.occ] at h ⊢
    obtain ⟨m1, h1, h2⟩ := completeS P σ hσ s m seen hp.1.2 hf.1.2 h.left
    obtain ⟨m2, k1, k2⟩ := completeB P σ hσ r ty2 m1 _ hp.2 hf.2 (h2.pre h)
    refine ⟨m2, ?_, h2.trans k2⟩
    simp [Bounds.subst, matchBounds, matchPath, bindPath_free P s ty2 m (fun k hk => (h.dom k).1 hk) hp.1.1, substS_len, h1, k1]
  | .lt l t, ty2, m, seen, hp, hf, h => by
    obtain ⟨m', h1, h2⟩ := completeB P σ hσ t ty2 m seen (by simpa [Bounds.full] using hp) (by simpa [Bounds.subst, Bounds.free] using hf)
      (by simpa only [Bounds.occ] using h)
    exact ⟨m', by simp [Bounds.subst, matchBounds, h1], by simpa only [Bounds.occ] using h2⟩
end

end Flapi.Ast
