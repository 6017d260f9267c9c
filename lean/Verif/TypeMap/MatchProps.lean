import Verif.TypeMap.Match
import Verif.Core.SubstMapProps
/-! # Matching of generic rules (C17) -/
namespace Flapi.Ast
open Flapi

/-! ## Specification -/

mutual
/-- Forget what matching deliberately ignores: reference lifetimes, qualified selves, leading `::`, `for<..>` binders and which
lifetime a bound names. -/
def Ty.erase : Ty → Ty
  | .path _ _ s => .path none false s.erase
  | .ref _ m e => .ref none m e.erase
  | .ptr m e => .ptr m e.erase
  | .slice e => .slice e.erase
  | .tuple es => .tuple es.erase
  | .implTrait b => .implTrait b.erase
  | .traitObj d b => .traitObj d b.erase
  | .bareFn h _ i o => .bareFn h [] i.erase o.erase
  | .array e n => .array e.erase n
  | .paren e => .paren e.erase
  | .other t => .other t
/-- See `Ty.erase`. -/
def Tys.erase : Tys → Tys
  | .nil => .nil
  | .cons h t => .cons h.erase t.erase
/-- See `Ty.erase`. -/
def Segs.erase : Segs → Segs
  | .nil => .nil
  | .cons i a r => .cons i a.erase r.erase
/-- See `Ty.erase`. -/
def Args.erase : Args → Args
  | .none => .none
  | .angle g => .angle g.erase
  | .parens i o => .parens i.erase o.erase
/-- See `Ty.erase`. -/
def GArgs.erase : GArgs → GArgs
  | .nil => .nil
  | .ty t r => .ty t.erase r.erase
  | .lt l r => .lt l r.erase
  | .assoc i t r => .assoc i t.erase r.erase
  | .const c r => .const c r.erase
/-- See `Ty.erase`. -/
def Ret.erase : Ret → Ret
  | .default => .default
  | .ty t => .ty t.erase
/-- See `Ty.erase`. -/
def Bounds.erase : Bounds → Bounds
  | .nil => .nil
  | .trait m _ s r => .trait m false s.erase r.erase
  | .lt _ r => .lt [] r.erase
end

/-- The path is one segment whose name is in `P`. -/
def Segs.single (P : List Text) : Segs → Bool
  | .cons id _ .nil => decide (id ∈ P)
  | _ => false

/-- The printed type is not a name in `P`. -/
def Ty.keyOut (P : List Text) (t : Ty) : Bool :=
  match t.paramKey with
  | some k => decide (k ∉ P)
  | none => true

mutual
/-- No type or trait named like a parameter in `P` occurs (as a one-segment path). -/
def Ty.free (P : List Text) : Ty → Bool
  | .path _ _ s => !s.single P && s.free P
  | .ref _ _ e => e.free P
  | .ptr _ e => e.free P
  | .slice e => e.free P
  | .tuple es => es.free P
  | .implTrait b => b.free P
  | .traitObj d b => (Ty.traitObj d b).keyOut P && b.free P
  | .bareFn _ _ i o => i.free P && o.free P
  | .array e _ => e.free P
  | .paren e => e.free P
  | .other _ => true
/-- See `Ty.free`. -/
def Tys.free (P : List Text) : Tys → Bool
  | .nil => true
  | .cons h t => h.free P && t.free P
/-- See `Ty.free`. -/
def Segs.free (P : List Text) : Segs → Bool
  | .nil => true
  | .cons _ a r => a.free P && r.free P
/-- See `Ty.free`. -/
def Args.free (P : List Text) : Args → Bool
  | .none => true
  | .angle g => g.free P
  | .parens i o => i.free P && o.free P
/-- See `Ty.free`. -/
def GArgs.free (P : List Text) : GArgs → Bool
  | .nil => true
  | .ty t r => t.free P && r.free P
  | .lt _ r => r.free P
  | .assoc _ t r => t.free P && r.free P
  | .const _ r => r.free P
/-- See `Ty.free`. -/
def Ret.free (P : List Text) : Ret → Bool
  | .default => true
  | .ty t => t.free P
/-- See `Ty.free`. -/
def Bounds.free (P : List Text) : Bounds → Bool
  | .nil => true
  | .trait _ _ s r => !s.single P && s.free P && r.free P
  | .lt _ r => r.free P
end

mutual
/-- Parameters are used as types: never with non-lifetime arguments (`T<u8>`), after `::`, with a qualified self, or as a trait. -/
def Ty.okPat (P : List Text) : Ty → Bool
  | .path q l s => if s.single P then (Ty.path q l s).paramKey.isSome else s.okPat P
  | .ref _ _ e => e.okPat P
  | .ptr _ e => e.okPat P
  | .slice e => e.okPat P
  | .tuple es => es.okPat P
  | .implTrait b => b.okPat P
  | .bareFn _ _ i o => i.okPat P && o.okPat P
  | _ => true
/-- See `Ty.okPat`. -/
def Tys.okPat (P : List Text) : Tys → Bool
  | .nil => true
  | .cons h t => h.okPat P && t.okPat P
/-- See `Ty.okPat`. -/
def Segs.okPat (P : List Text) : Segs → Bool
  | .nil => true
  | .cons _ a r => a.okPat P && r.okPat P
/-- See `Ty.okPat`. -/
def Args.okPat (P : List Text) : Args → Bool
  | .none => true
  | .angle g => g.okPat P
  | .parens i o => i.okPat P && o.okPat P
/-- See `Ty.okPat`. -/
def GArgs.okPat (P : List Text) : GArgs → Bool
  | .nil => true
  | .ty t r => t.okPat P && r.okPat P
  | .lt _ r => r.okPat P
  | .assoc _ _ r => r.okPat P
  | .const _ r => r.okPat P
/-- See `Ty.okPat`. -/
def Ret.okPat (P : List Text) : Ret → Bool
  | .default => true
  | .ty t => t.okPat P
/-- See `Ty.okPat`. -/
def Bounds.okPat (P : List Text) : Bounds → Bool
  | .nil => true
  | .trait _ _ s r => !s.single P && s.okPat P && r.okPat P
  | .lt _ r => r.okPat P
end

/-- The keys of the map are parameters in `P` and its values mention none of them. -/
structure St (P : List Text) (m : TyMap) : Prop where
  keys : ∀ k, m.get k ≠ none → k ∈ P
  vals : ∀ k v, m.get k = some (some v) → v.free P = true

/-- Every binding of `m` is a binding of `m'`. -/
def Le (m m' : TyMap) : Prop := ∀ k v, m.get k = some (some v) → m'.get k = some (some v)

/-! ## Lemmas -/

theorem Le.refl (m : TyMap) : Le m m := fun _ _ h => h
theorem Le.trans {a b c : TyMap} (h : Le a b) (k : Le b c) : Le a c := fun x v e => k x v (h x v e)

theorem setMut_get (m : TyMap) (k x : Text) (v : Option Ty) (h : m.get k ≠ none) :
    (m.setMut k v).get x = if x = k then some v else m.get x := by
  have := SubstMap.step_get m (.setMut k v) x
  simp only [SubstMap.step, SubstMap.specStep] at this
  rw [this]
  by_cases hx : x = k
  · subst hx; cases hg : m.get x <;> simp_all
  · simp [hx]

theorem st_set {P m k t} (h : St P m) (hk : m.get k = some none) (ht : t.free P = true) :
    St P (m.setMut k (some t)) ∧ Le m (m.setMut k (some t)) ∧ (m.setMut k (some t)).get k = some (some t) := by
  have hn : m.get k ≠ none := by simp [hk]
  refine ⟨⟨?_, ?_⟩, ?_, by simp [setMut_get _ _ _ _ hn]⟩
  · intro x hx
    rw [setMut_get _ _ _ _ hn] at hx
    by_cases e : x = k
    · subst e; exact h.keys _ hn
    · simp [e] at hx; exact h.keys _ hx
  · intro x v hx
    rw [setMut_get _ _ _ _ hn] at hx
    by_cases e : x = k
    · simp [e] at hx; rw [← hx]; exact ht
    · simp [e] at hx; exact h.vals _ _ hx
  · intro x v hx
    rw [setMut_get _ _ _ _ hn]
    by_cases e : x = k
    · subst e; rw [hk] at hx; simp at hx
    · simpa [e] using hx

theorem paramKey_path {q l s k} (h : (Ty.path q l s).paramKey = some k) : ∃ a, s = .cons k a .nil := by
  simp only [Ty.paramKey, Ty.normName, Ty.norm, Ty.stripLt, Ty.stripDyn, Ty.toks] at h
  cases s with
  | nil => cases q <;> cases l <;> simp [optTok, Segs.stripLt, Segs.stripDyn, Segs.toks] at h
  | cons i a r =>
    cases r with
    | nil =>
      cases q <;> cases l <;> simp [optTok, Segs.stripLt, Segs.stripDyn, Segs.toks] at h <;> split at h <;> simp_all
    | cons j b r =>
      cases q <;> cases l <;> simp [optTok, Segs.stripLt, Segs.stripDyn, Segs.toks] at h <;> split at h <;> simp_all

theorem paramKey_other (t : Ty) (h1 : ∀ q l s, t ≠ .path q l s) (h2 : ∀ d b, t ≠ .traitObj d b) : t.paramKey = none := by
  cases t with
  | path => exact absurd rfl (h1 _ _ _)
  | traitObj => exact absurd rfl (h2 _ _)
  | bareFn h l i o => by_cases hl : l = [] <;> simp [Ty.paramKey, Ty.normName, Ty.norm, Ty.stripLt, Ty.stripDyn, Ty.toks, hl]
  | _ => simp [Ty.paramKey, Ty.normName, Ty.norm, Ty.stripLt, Ty.stripDyn, Ty.toks]

theorem keyOut_of_free {P t} (h : Ty.free P t = true) : t.keyOut P = true := by
  cases t with
  | path q l s =>
    simp only [Ty.keyOut]
    split
    · rename_i k hk
      obtain ⟨a, rfl⟩ := paramKey_path hk
      simp [Ty.free, Segs.single] at h
      simpa using h.1
    · rfl
  | traitObj d b => simp [Ty.free] at h; exact h.1
  | _ => simp [Ty.keyOut, paramKey_other]

theorem look_free {P} {m : TyMap} {t : Ty} (hk : ∀ k, m.get k ≠ none → k ∈ P) (h : Ty.free P t = true) : m.look t = none := by
  have := keyOut_of_free h
  simp only [Ty.keyOut] at this
  simp only [TyMap.look]
  split at this
  · rename_i k e
    have hk' : m.get k = none := by
      simp at this
      cases hg : m.get k with
      | none => rfl
      | some v => exact absurd (hk k (by simp [hg])) this
    simp [e, hk']
  · rename_i e; rw [e]

mutual
theorem subst_free (P : List Text) (m : TyMap) (hk : ∀ k, m.get k ≠ none → k ∈ P) : ∀ t : Ty, t.free P = true → t.subst m = t
  | .path q l s, h => by
    have h' : s.free P = true := by simp [Ty.free] at h; exact h.2
    rw [Ty.subst, look_free hk h, substS_free P m hk s h', Option.getD_none]
  | .ref l mt e, h => by
    rw [Ty.subst, look_free hk h, subst_free P m hk e (by simpa [Ty.free] using h), Option.getD_none]
  | .ptr mt e, h => by
    rw [Ty.subst, look_free hk h, subst_free P m hk e (by simpa [Ty.free] using h), Option.getD_none]
  | .slice e, h => by
    rw [Ty.subst, look_free hk h, subst_free P m hk e (by simpa [Ty.free] using h), Option.getD_none]
  | .tuple e, h => by
    rw [Ty.subst, look_free hk h, substL_free P m hk e (by simpa [Ty.free] using h), Option.getD_none]
  | .implTrait b, h => by
    rw [Ty.subst, look_free hk h, substB_free P m hk b (by simpa [Ty.free] using h), Option.getD_none]
  | .traitObj d b, h => by
    have h' : b.free P = true := by simp [Ty.free] at h; exact h.2
    rw [Ty.subst, look_free hk h, substB_free P m hk b h', Option.getD_none]
  | .bareFn hd l i o, h => by
    have h' : i.free P = true ∧ o.free P = true := by simpa [Ty.free] using h
    rw [Ty.subst, look_free hk h, substL_free P m hk i h'.1, substR_free P m hk o h'.2, Option.getD_none]
  | .array e n, h => by
    rw [Ty.subst, look_free hk h, subst_free P m hk e (by simpa [Ty.free] using h), Option.getD_none]
  | .paren e, h => by
    rw [Ty.subst, look_free hk h, subst_free P m hk e (by simpa [Ty.free] using h), Option.getD_none]
  | .other t, h => by rw [Ty.subst, look_free hk h, Option.getD_none]
theorem substL_free (P : List Text) (m : TyMap) (hk : ∀ k, m.get k ≠ none → k ∈ P) : ∀ t : Tys, t.free P = true → t.subst m = t
  | .nil, _ => rfl
  | .cons a t, h => by
    simp [Tys.free] at h
    simp [Tys.subst, subst_free P m hk a h.1, substL_free P m hk t h.2]
theorem substS_free (P : List Text) (m : TyMap) (hk : ∀ k, m.get k ≠ none → k ∈ P) : ∀ t : Segs, t.free P = true → t.subst m = t
  | .nil, _ => rfl
  | .cons i a r, h => by
    simp [Segs.free] at h
    simp [Segs.subst, substA_free P m hk a h.1, substS_free P m hk r h.2]
theorem substA_free (P : List Text) (m : TyMap) (hk : ∀ k, m.get k ≠ none → k ∈ P) : ∀ t : Args, t.free P = true → t.subst m = t
  | .none, _ => rfl
  | .angle g, h => by simp [Args.subst, substG_free P m hk g (by simpa [Args.free] using h)]
  | .parens i o, h => by
    simp [Args.free] at h
    simp [Args.subst, substL_free P m hk i h.1, substR_free P m hk o h.2]
theorem substG_free (P : List Text) (m : TyMap) (hk : ∀ k, m.get k ≠ none → k ∈ P) : ∀ t : GArgs, t.free P = true → t.subst m = t
  | .nil, _ => rfl
  | .ty t r, h => by
    simp [GArgs.free] at h
    simp [GArgs.subst, subst_free P m hk t h.1, substG_free P m hk r h.2]
  | .lt l r, h => by
    simp [GArgs.free] at h
    simp [GArgs.subst, substG_free P m hk r h]
  | .assoc i t r, h => by
    simp [GArgs.free] at h
    simp [GArgs.subst, subst_free P m hk t h.1, substG_free P m hk r h.2]
  | .const l r, h => by
    simp [GArgs.free] at h
    simp [GArgs.subst, substG_free P m hk r h]
theorem substR_free (P : List Text) (m : TyMap) (hk : ∀ k, m.get k ≠ none → k ∈ P) : ∀ t : Ret, t.free P = true → t.subst m = t
  | .default, _ => rfl
  | .ty t, h => by simp [Ret.subst, subst_free P m hk t (by simpa [Ret.free] using h)]
theorem substB_free (P : List Text) (m : TyMap) (hk : ∀ k, m.get k ≠ none → k ∈ P) : ∀ t : Bounds, t.free P = true → t.subst m = t
  | .nil, _ => rfl
  | .trait may l s r, h => by
    simp [Bounds.free] at h
    simp [Bounds.subst, substS_free P m hk s h.1.2, substB_free P m hk r h.2]
  | .lt l r, h => by
    simp [Bounds.free] at h
    simp [Bounds.subst, substB_free P m hk r h]
end

mutual
theorem ok_of_free (P : List Text) : ∀ t : Ty, t.free P = true → t.okPat P = true
  | .path q l s, h => by
    simp [Ty.free] at h
    simp [Ty.okPat, h.1, okS_of_free P s h.2]
  | .ref l m e, h => by simpa [Ty.okPat] using ok_of_free P e (by simpa [Ty.free] using h)
  | .ptr m e, h => by simpa [Ty.okPat] using ok_of_free P e (by simpa [Ty.free] using h)
  | .slice e, h => by simpa [Ty.okPat] using ok_of_free P e (by simpa [Ty.free] using h)
  | .tuple e, h => by simpa [Ty.okPat] using okL_of_free P e (by simpa [Ty.free] using h)
  | .implTrait b, h => by simpa [Ty.okPat] using okB_of_free P b (by simpa [Ty.free] using h)
  | .bareFn hd l i o, h => by
    simp [Ty.free] at h
    simp [Ty.okPat, okL_of_free P i h.1, okR_of_free P o h.2]
  | .traitObj .., _ => rfl
  | .array .., _ => rfl
  | .paren .., _ => rfl
  | .other .., _ => rfl
theorem okL_of_free (P : List Text) : ∀ t : Tys, t.free P = true → t.okPat P = true
  | .nil, _ => rfl
  | .cons a t, h => by
    simp [Tys.free] at h
    simp [Tys.okPat, ok_of_free P a h.1, okL_of_free P t h.2]
theorem okS_of_free (P : List Text) : ∀ t : Segs, t.free P = true → t.okPat P = true
  | .nil, _ => rfl
  | .cons i a r, h => by
    simp [Segs.free] at h
    simp [Segs.okPat, okA_of_free P a h.1, okS_of_free P r h.2]
theorem okA_of_free (P : List Text) : ∀ t : Args, t.free P = true → t.okPat P = true
  | .none, _ => rfl
  | .angle g, h => by simpa [Args.okPat] using okG_of_free P g (by simpa [Args.free] using h)
  | .parens i o, h => by
    simp [Args.free] at h
    simp [Args.okPat, okL_of_free P i h.1, okR_of_free P o h.2]
theorem okG_of_free (P : List Text) : ∀ t : GArgs, t.free P = true → t.okPat P = true
  | .nil, _ => rfl
  | .ty t r, h => by
    simp [GArgs.free] at h
    simp [GArgs.okPat, ok_of_free P t h.1, okG_of_free P r h.2]
  | .lt l r, h => by simpa [GArgs.okPat] using okG_of_free P r (by simpa [GArgs.free] using h)
  | .assoc i t r, h => by
    simp [GArgs.free] at h
    simpa [GArgs.okPat] using okG_of_free P r h.2
  | .const l r, h => by simpa [GArgs.okPat] using okG_of_free P r (by simpa [GArgs.free] using h)
theorem okR_of_free (P : List Text) : ∀ t : Ret, t.free P = true → t.okPat P = true
  | .default, _ => rfl
  | .ty t, h => by simpa [Ret.okPat] using ok_of_free P t (by simpa [Ret.free] using h)
theorem okB_of_free (P : List Text) : ∀ t : Bounds, t.free P = true → t.okPat P = true
  | .nil, _ => rfl
  | .trait may l s r, h => by
    simp [Bounds.free] at h
    simp [Bounds.okPat, h.1.1, okS_of_free P s h.1.2, okB_of_free P r h.2]
  | .lt l r, h => by simpa [Bounds.okPat] using okB_of_free P r (by simpa [Bounds.free] using h)
end

/-! ### Soundness of matching -/

/-- What a successful match guarantees. -/
def Good (P : List Text) (m m' : TyMap) (q : TyMap → Prop) : Prop :=
  St P m' ∧ Le m m' ∧ ∀ m'', Le m' m'' → (∀ k, m''.get k ≠ none → k ∈ P) → q m''

theorem inside_good {P : List Text} {m : TyMap} {p t : Ty} (hp : p.okPat P = true) (ht : t.free P = true) (hm : St P m) :
    St P (inside p t m).2 ∧ Le m (inside p t m).2 ∧ (inside p t m).1.okPat P = true ∧
    ∀ m'', Le (inside p t m).2 m'' → (∀ k, m''.get k ≠ none → k ∈ P) →
      ((inside p t m).1.subst m'').erase = t.erase → (p.subst m'').erase = t.erase := by
  have hsub : ∀ (k : Text) (m'' : TyMap) (v : Ty), p.paramKey = some k → m''.get k = some (some v) → p.subst m'' = v := by
    intro k m'' v hk hv
    have : m''.look p = some v := by simp [TyMap.look, hk, hv]
    cases p <;> simp [Ty.subst, this]
  unfold inside
  cases hk : p.paramKey with
  | none => exact ⟨hm, Le.refl m, hp, fun _ _ _ h => h⟩
  | some k =>
    simp only
    cases hg : m.get k with
    | none => exact ⟨hm, Le.refl m, hp, fun _ _ _ h => h⟩
    | some x =>
      cases x with
      | none =>
        obtain ⟨h1, h2, h3⟩ := st_set hm hg ht
        refine ⟨h1, h2, ok_of_free P t ht, fun m'' hle hkeys _ => ?_⟩
        rw [hsub k m'' t hk (hle _ _ h3)]
      | some x =>
        have hx := hm.vals k x hg
        refine ⟨hm, Le.refl m, ok_of_free P x hx, fun m'' hle hkeys h => ?_⟩
        rw [hsub k m'' x hk (hle _ _ hg)]
        simpa [subst_free P m'' hkeys x hx] using h

theorem bindPath_some {s1 t m m'} (h : bindPath s1 t m = some m') :
    ∃ id a, s1 = .cons id a .nil ∧ m.get id = some none ∧ m' = m.setMut id (some t) := by
  unfold bindPath at h
  split at h
  · rename_i id a
    split at h
    · rename_i hg; simp at h; exact ⟨id, a, rfl, hg, h.symm⟩
    · simp at h
  · simp at h

theorem bind_good {P : List Text} {m m' : TyMap} {t : Ty} {q l s1} (hp : (Ty.path q l s1).okPat P = true)
    (ht : t.free P = true) (hm : St P m) (h : bindPath s1 t m = some m') :
    Good P m m' (fun m'' => ((Ty.path q l s1).subst m'').erase = t.erase) := by
  obtain ⟨id, a, rfl, hg, rfl⟩ := bindPath_some h
  obtain ⟨h1, h2, h3⟩ := st_set hm hg ht
  refine ⟨h1, h2, fun m'' hle hkeys => ?_⟩
  have hid : id ∈ P := hm.keys id (by simp [hg])
  have hk : (Ty.path q l (.cons id a .nil)).paramKey.isSome := by simpa [Ty.okPat, Segs.single, hid] using hp
  obtain ⟨k, hk⟩ := Option.isSome_iff_exists.1 hk
  obtain ⟨b, hb⟩ := paramKey_path hk
  simp at hb
  have : m''.look (.path q l (.cons id a .nil)) = some t := by
    simp [TyMap.look, hk, ← hb.1, hle _ _ h3]
  dsimp only
  rw [Ty.subst, this]; rfl

theorem fallback_good {P : List Text} {m m' : TyMap} {p t : Ty} (hp : p.okPat P = true) (ht : t.free P = true) (hm : St P m)
    (h : fallback p t m = (true, m')) : Good P m m' (fun m'' => (p.subst m'').erase = t.erase) := by
  have heq : ∀ {p : Ty}, (decide (p = t), m) = (true, m') → Good P m m' (fun m'' => (p.subst m'').erase = t.erase) := by
    intro p h
    simp at h
    obtain ⟨rfl, rfl⟩ := h
    exact ⟨hm, Le.refl m, fun m'' _ hk => by dsimp only; rw [subst_free P m'' hk p ht]⟩
  unfold fallback at h
  split at h
  · rename_i s1
    split at h
    · rename_i m1 hb
      simp at h; subst h
      exact bind_good hp ht hm hb
    · exact heq h
  · exact heq h

theorem path_subst_none {P : List Text} {q l s} {m : TyMap} (hk : ∀ k, m.get k ≠ none → k ∈ P) (hs : s.single P = false) :
    m.look (.path q l s) = none := by
  simp only [TyMap.look]
  split
  · rename_i k e
    obtain ⟨a, rfl⟩ := paramKey_path e
    simp [Segs.single] at hs
    cases hg : m.get k with
    | none => rfl
    | some v => exact absurd (hk k (by simp [hg])) hs
  · rfl

theorem single_len {P : List Text} {s s2 : Segs} (h : s.single P = true) (hl : s.len = s2.len) : ∃ i a j b, s = .cons i a .nil ∧ i ∈ P ∧
    s2 = .cons j b .nil := by
  cases s with
  | nil => simp [Segs.single] at h
  | cons i a r =>
    cases r with
    | nil =>
      cases s2 with
      | nil => simp [Segs.len] at hl
      | cons j b r2 =>
        cases r2 with
        | nil => exact ⟨i, a, j, b, rfl, by simpa [Segs.single] using h, rfl⟩
        | cons => simp [Segs.len] at hl
    | cons => simp [Segs.single] at h

mutual
theorem sound (P : List Text) : ∀ (t p : Ty) (m m' : TyMap), matchTy t p m = (true, m') → p.okPat P = true → t.free P = true →
    St P m → Good P m m' (fun m'' => (p.subst m'').erase = t.erase)
  | .path q2 l2 s2, p, m, m', h, hp, ht, hm => by
    cases p with
    | path q l s1 =>
      simp only [matchTy, matchPath] at h
      split at h
      · rename_i m1 hb
        simp at h; subst h
        exact bind_good hp ht hm hb
      · split at h
        · rename_i hl
          have ht' : s2.single P = false ∧ s2.free P = true := by simpa [Ty.free] using ht
          have hs : s1.single P = false := by
            cases hs : s1.single P with
            | false => rfl
            | true =>
              exfalso
              obtain ⟨i, a, j, b, rfl, hi, rfl⟩ := single_len hs hl
              simp only [matchSegs] at h
              split at h
              · rename_i e; subst e; simp [Segs.single, hi] at ht'
              · simp at h
          have hp' : s1.okPat P = true := by simpa [Ty.okPat, hs] using hp
          obtain ⟨g1, g2, g3⟩ := soundS P s2 s1 m m' h hl hp' ht'.2 hm
          refine ⟨g1, g2, fun m'' hle hk => ?_⟩
          have := g3 m'' hle hk
          dsimp only
          rw [Ty.subst, path_subst_none hk hs]
          simp [Ty.erase, this]
        · simp at h
    | _ => exact fallback_good hp ht hm (by simpa only [matchTy] using h)
  | .ref l2 m2 e2, p, m, m', h, hp, ht, hm => by
    cases p with
    | ref l m1 e1 =>
      simp only [matchTy] at h
      split at h
      · rename_i e; subst e
        obtain ⟨g1, g2, g3⟩ := sound P e2 e1 m m' h (by simpa [Ty.okPat] using hp) (by simpa [Ty.free] using ht) hm
        refine ⟨g1, g2, fun m'' hle hk => ?_⟩
        have hl : m''.look (.ref l m1 e1) = none := by simp [TyMap.look, paramKey_other]
        dsimp only
        rw [Ty.subst, hl]
        simp [Ty.erase, g3 m'' hle hk]
      · simp at h
    | _ => exact fallback_good hp ht hm (by simpa only [matchTy] using h)
  | .ptr m2 e2, p, m, m', h, hp, ht, hm => by
    cases p with
    | ptr m1 e1 =>
      simp only [matchTy] at h
      split at h
      · rename_i e; subst e
        obtain ⟨g1, g2, g3⟩ := sound P e2 e1 m m' h (by simpa [Ty.okPat] using hp) (by simpa [Ty.free] using ht) hm
        refine ⟨g1, g2, fun m'' hle hk => ?_⟩
        have hl : m''.look (.ptr m1 e1) = none := by simp [TyMap.look, paramKey_other]
        dsimp only
        rw [Ty.subst, hl]
        simp [Ty.erase, g3 m'' hle hk]
      · simp at h
    | _ => exact fallback_good hp ht hm (by simpa only [matchTy] using h)
  | .slice e2, p, m, m', h, hp, ht, hm => by
    cases p with
    | slice e1 =>
      simp only [matchTy] at h
      obtain ⟨g1, g2, g3⟩ := sound P e2 e1 m m' h (by simpa [Ty.okPat] using hp) (by simpa [Ty.free] using ht) hm
      refine ⟨g1, g2, fun m'' hle hk => ?_⟩
      have hl : m''.look (.slice e1) = none := by simp [TyMap.look, paramKey_other]
      dsimp only
      rw [Ty.subst, hl]
      simp [Ty.erase, g3 m'' hle hk]
    | _ => exact fallback_good hp ht hm (by simpa only [matchTy] using h)
  | .tuple e2, p, m, m', h, hp, ht, hm => by
    cases p with
    | tuple e1 =>
      simp only [matchTy] at h
      split at h
      · rename_i e
        obtain ⟨g1, g2, g3⟩ := soundL P e2 e1 m m' h e (by simpa [Ty.okPat] using hp) (by simpa [Ty.free] using ht) hm
        refine ⟨g1, g2, fun m'' hle hk => ?_⟩
        have hl : m''.look (.tuple e1) = none := by simp [TyMap.look, paramKey_other]
        dsimp only
        rw [Ty.subst, hl]
        simp [Ty.erase, g3 m'' hle hk]
      · simp at h
    | _ => exact fallback_good hp ht hm (by simpa only [matchTy] using h)
  | .implTrait b2, p, m, m', h, hp, ht, hm => by
    cases p with
    | implTrait b1 =>
      simp only [matchTy] at h
      split at h
      · rename_i e
        obtain ⟨g1, g2, g3⟩ := soundB P b2 b1 (.implTrait b2) m m' h e (by simpa [Ty.okPat] using hp)
          (by simpa [Ty.free] using ht) hm
        refine ⟨g1, g2, fun m'' hle hk => ?_⟩
        have hl : m''.look (.implTrait b1) = none := by simp [TyMap.look, paramKey_other]
        dsimp only
        rw [Ty.subst, hl]
        simp [Ty.erase, g3 m'' hle hk]
      · simp at h
    | _ => exact fallback_good hp ht hm (by simpa only [matchTy] using h)
  | .bareFn h2 lts2 i2 o2, p, m, m', h, hp, ht, hm => by
    cases p with
    | bareFn h1 lts1 i1 o1 =>
      simp only [matchTy] at h
      split at h
      · rename_i e
        simp [Ty.okPat] at hp
        simp [Ty.free] at ht
        split at h
        · rename_i m1 h1'
          obtain ⟨g1, g2, g3⟩ := soundI P i2 i1 m m1 h1' e.2 hp.1 ht.1 hm
          obtain ⟨k1, k2, k3⟩ := soundR P o2 o1 m1 m' h hp.2 ht.2 g1
          refine ⟨k1, g2.trans k2, fun m'' hle hk => ?_⟩
          have hl : m''.look (.bareFn h1 lts1 i1 o1) = none := by simp [TyMap.look, paramKey_other]
          dsimp only
          rw [Ty.subst, hl]
          simp [Ty.erase, e.1, g3 m'' (k2.trans hle) hk, k3 m'' hle hk]
        · rename_i hr
          exact absurd h (hr m')
      · simp at h
    | _ => exact fallback_good hp ht hm (by simpa only [matchTy] using h)
  | .traitObj d2 b2, p, m, m', h, hp, ht, hm => fallback_good hp ht hm (by simpa only [matchTy] using h)
  | .array e2 n2, p, m, m', h, hp, ht, hm => fallback_good hp ht hm (by simpa only [matchTy] using h)
  | .paren e2, p, m, m', h, hp, ht, hm => fallback_good hp ht hm (by simpa only [matchTy] using h)
  | .other t2, p, m, m', h, hp, ht, hm => fallback_good hp ht hm (by simpa only [matchTy] using h)
theorem soundL (P : List Text) : ∀ (t p : Tys) (m m' : TyMap), matchTys t p m = (true, m') → p.len = t.len → p.okPat P = true →
    t.free P = true → St P m → Good P m m' (fun m'' => (p.subst m'').erase = t.erase)
  | .nil, .nil, m, m', h, _, _, _, hm => by
    simp [matchTys] at h; subst h; exact ⟨hm, Le.refl m, fun _ _ _ => rfl⟩
  | .nil, .cons .., _, _, _, hl, _, _, _ => by simp [Tys.len] at hl
  | .cons .., .nil, _, _, _, hl, _, _, _ => by simp [Tys.len] at hl
  | .cons t ts, .cons p ps, m, m', h, hl, hp, ht, hm => by
    simp only [matchTys] at h
    simp [Tys.okPat] at hp
    simp [Tys.free] at ht
    simp [Tys.len] at hl
    split at h
    · rename_i m1 h1
      obtain ⟨g1, g2, g3⟩ := sound P t p m m1 h1 hp.1 ht.1 hm
      obtain ⟨k1, k2, k3⟩ := soundL P ts ps m1 m' h hl hp.2 ht.2 g1
      exact ⟨k1, g2.trans k2, fun m'' hle hk => by simp [Tys.subst, Tys.erase, g3 m'' (k2.trans hle) hk, k3 m'' hle hk]⟩
    · rename_i hr; exact absurd h (hr m')
theorem soundI (P : List Text) : ∀ (t p : Tys) (m m' : TyMap), matchTysIn t p m = (true, m') → p.len = t.len → p.okPat P = true →
    t.free P = true → St P m → Good P m m' (fun m'' => (p.subst m'').erase = t.erase)
  | .nil, .nil, m, m', h, _, _, _, hm => by
    simp [matchTysIn] at h; subst h; exact ⟨hm, Le.refl m, fun _ _ _ => rfl⟩
  | .nil, .cons .., _, _, _, hl, _, _, _ => by simp [Tys.len] at hl
  | .cons .., .nil, _, _, _, hl, _, _, _ => by simp [Tys.len] at hl
  | .cons t ts, .cons p ps, m, m', h, hl, hp, ht, hm => by
    simp only [matchTysIn] at h
    simp [Tys.okPat] at hp
    simp [Tys.free] at ht
    simp [Tys.len] at hl
    split at h
    · rename_i m1 h1
      obtain ⟨i1, i2, i3, i4⟩ := inside_good hp.1 ht.1 hm
      obtain ⟨g1, g2, g3⟩ := sound P t _ _ m1 h1 i3 ht.1 i1
      obtain ⟨k1, k2, k3⟩ := soundI P ts ps m1 m' h hl hp.2 ht.2 g1
      refine ⟨k1, i2.trans (g2.trans k2), fun m'' hle hk => ?_⟩
      have := i4 m'' (g2.trans (k2.trans hle)) hk (g3 m'' (k2.trans hle) hk)
      simp [Tys.subst, Tys.erase, this, k3 m'' hle hk]
    · rename_i hr; exact absurd h (hr m')
theorem soundS (P : List Text) : ∀ (t p : Segs) (m m' : TyMap), matchSegs t p m = (true, m') → p.len = t.len → p.okPat P = true →
    t.free P = true → St P m → Good P m m' (fun m'' => (p.subst m'').erase = t.erase)
  | .nil, .nil, m, m', h, _, _, _, hm => by
    simp [matchSegs] at h; subst h; exact ⟨hm, Le.refl m, fun _ _ _ => rfl⟩
  | .nil, .cons .., _, _, _, hl, _, _, _ => by simp [Segs.len] at hl
  | .cons .., .nil, _, _, _, hl, _, _, _ => by simp [Segs.len] at hl
  | .cons j a2 r2, .cons i a1 r1, m, m', h, hl, hp, ht, hm => by
    simp only [matchSegs] at h
    simp [Segs.okPat] at hp
    simp [Segs.free] at ht
    simp [Segs.len] at hl
    split at h
    · rename_i e; subst e
      split at h
      · rename_i m1 h1
        obtain ⟨g1, g2, g3⟩ := soundA P a2 a1 m m1 h1 hp.1 ht.1 hm
        obtain ⟨k1, k2, k3⟩ := soundS P r2 r1 m1 m' h hl hp.2 ht.2 g1
        exact ⟨k1, g2.trans k2, fun m'' hle hk => by simp [Segs.subst, Segs.erase, g3 m'' (k2.trans hle) hk, k3 m'' hle hk]⟩
      · rename_i hr; exact absurd h (hr m')
    · simp at h
theorem soundA (P : List Text) : ∀ (t p : Args) (m m' : TyMap), matchArgs t p m = (true, m') → p.okPat P = true →
    t.free P = true → St P m → Good P m m' (fun m'' => (p.subst m'').erase = t.erase)
  | .angle g2, .angle g1, m, m', h, hp, ht, hm => by
    simp only [matchArgs] at h
    split at h
    · rename_i e
      obtain ⟨k1, k2, k3⟩ := soundG P g2 g1 m m' h e (by simpa [Args.okPat] using hp) (by simpa [Args.free] using ht) hm
      exact ⟨k1, k2, fun m'' hle hk => by simp [Args.subst, Args.erase, k3 m'' hle hk]⟩
    · simp at h
  | .parens i2 o2, .parens i1 o1, m, m', h, hp, ht, hm => by
    simp only [matchArgs] at h
    simp [Args.okPat] at hp
    simp [Args.free] at ht
    split at h
    · rename_i e
      split at h
      · rename_i m1 h1
        obtain ⟨g1, g2, g3⟩ := soundI P i2 i1 m m1 h1 e hp.1 ht.1 hm
        obtain ⟨k1, k2, k3⟩ := soundR P o2 o1 m1 m' h hp.2 ht.2 g1
        exact ⟨k1, g2.trans k2, fun m'' hle hk => by simp [Args.subst, Args.erase, g3 m'' (k2.trans hle) hk, k3 m'' hle hk]⟩
      · rename_i hr; exact absurd h (hr m')
    · simp at h
  | .none, a1, m, m', h, _, ht, hm => by
    cases a1 <;> simp [matchArgs] at h
    subst h; exact ⟨hm, Le.refl m, fun _ _ _ => rfl⟩
  | .angle g2, .none, m, m', h, _, ht, hm => by simp [matchArgs] at h
  | .angle g2, .parens .., m, m', h, _, ht, hm => by simp [matchArgs] at h
  | .parens i2 o2, .none, m, m', h, _, ht, hm => by simp [matchArgs] at h
  | .parens i2 o2, .angle .., m, m', h, _, ht, hm => by simp [matchArgs] at h
theorem soundG (P : List Text) : ∀ (t p : GArgs) (m m' : TyMap), matchG t p m = (true, m') → p.len = t.len → p.okPat P = true →
    t.free P = true → St P m → Good P m m' (fun m'' => (p.subst m'').erase = t.erase)
  | .nil, p, m, m', h, hl, _, _, hm => by
    cases p <;> simp [GArgs.len] at hl
    simp [matchG] at h; subst h; exact ⟨hm, Le.refl m, fun _ _ _ => rfl⟩
  | .ty t r2, p, m, m', h, hl, hp, ht, hm => by
    cases p <;> simp [matchG] at h <;> simp [GArgs.len] at hl
    rename_i p r1
    simp [GArgs.okPat] at hp
    simp [GArgs.free] at ht
    split at h
    · rename_i m1 h1
      obtain ⟨i1, i2, i3, i4⟩ := inside_good hp.1 ht.1 hm
      obtain ⟨g1, g2, g3⟩ := sound P t _ _ m1 h1 i3 ht.1 i1
      obtain ⟨k1, k2, k3⟩ := soundG P r2 r1 m1 m' h hl hp.2 ht.2 g1
      refine ⟨k1, i2.trans (g2.trans k2), fun m'' hle hk => ?_⟩
      have := i4 m'' (g2.trans (k2.trans hle)) hk (g3 m'' (k2.trans hle) hk)
      simp [GArgs.subst, GArgs.erase, this, k3 m'' hle hk]
    · rename_i hr; exact absurd h (hr m')
  | .lt l2 r2, p, m, m', h, hl, hp, ht, hm => by
    cases p <;> simp [matchG] at h <;> simp [GArgs.len] at hl
    rename_i l1 r1
    simp [GArgs.okPat] at hp
    simp [GArgs.free] at ht
    split at h
    · rename_i e; subst e
      obtain ⟨k1, k2, k3⟩ := soundG P r2 r1 m m' h hl hp ht hm
      exact ⟨k1, k2, fun m'' hle hk => by simp [GArgs.subst, GArgs.erase, k3 m'' hle hk]⟩
    · simp at h
  | .assoc i2 t2 r2, p, m, m', h, hl, hp, ht, hm => by
    cases p <;> simp [matchG] at h <;> simp [GArgs.len] at hl
    rename_i i1 t1 r1
    simp [GArgs.okPat] at hp
    simp [GArgs.free] at ht
    split at h
    · rename_i e; obtain ⟨rfl, rfl⟩ := e
      obtain ⟨k1, k2, k3⟩ := soundG P r2 r1 m m' h hl hp ht.2 hm
      exact ⟨k1, k2, fun m'' hle hk => by
        simp [GArgs.subst, GArgs.erase, k3 m'' hle hk, subst_free P m'' hk t1 ht.1]⟩
    · simp at h
  | .const c2 r2, p, m, m', h, hl, hp, ht, hm => by
    cases p <;> simp [matchG] at h <;> simp [GArgs.len] at hl
    rename_i l1 r1
    simp [GArgs.okPat] at hp
    simp [GArgs.free] at ht
    split at h
    · rename_i e; subst e
      obtain ⟨k1, k2, k3⟩ := soundG P r2 r1 m m' h hl hp ht hm
      exact ⟨k1, k2, fun m'' hle hk => by simp [GArgs.subst, GArgs.erase, k3 m'' hle hk]⟩
    · simp at h
theorem soundR (P : List Text) : ∀ (t p : Ret) (m m' : TyMap), matchRet t p m = (true, m') → p.okPat P = true →
    t.free P = true → St P m → Good P m m' (fun m'' => (p.subst m'').erase = t.erase)
  | .default, .default, m, m', h, _, _, hm => by
    simp [matchRet] at h; subst h; exact ⟨hm, Le.refl m, fun _ _ _ => rfl⟩
  | .default, .ty _, _, _, h, _, _, _ => by simp [matchRet] at h
  | .ty _, .default, _, _, h, _, _, _ => by simp [matchRet] at h
  | .ty t, .ty p, m, m', h, hp, ht, hm => by
    simp only [matchRet] at h
    simp [Ret.okPat] at hp
    simp [Ret.free] at ht
    obtain ⟨i1, i2, i3, i4⟩ := inside_good hp ht hm
    obtain ⟨g1, g2, g3⟩ := sound P t _ _ m' h i3 ht i1
    refine ⟨g1, i2.trans g2, fun m'' hle hk => ?_⟩
    have := i4 m'' (g2.trans hle) hk (g3 m'' hle hk)
    simp [Ret.subst, Ret.erase, this]
theorem soundB (P : List Text) : ∀ (t p : Bounds) (ty2 : Ty) (m m' : TyMap), matchBounds t p ty2 m = (true, m') → p.len = t.len →
    p.okPat P = true → t.free P = true → St P m → Good P m m' (fun m'' => (p.subst m'').erase = t.erase)
  | .nil, p, _, m, m', h, hl, _, _, hm => by
    cases p <;> simp [Bounds.len] at hl
    simp [matchBounds] at h; subst h; exact ⟨hm, Le.refl m, fun _ _ _ => rfl⟩
  | .trait may2 l2 s2 r2, p, ty2, m, m', h, hl, hp, ht, hm => by
    cases p <;> simp only [matchBounds] at h <;> simp [Bounds.len] at hl
    · rename_i may1 l1 s1 r1
      simp [Bounds.okPat] at hp
      simp [Bounds.free] at ht
      split at h
      · rename_i e; subst e
        have hnb : bindPath s1 ty2 m = none := by
          cases hb : bindPath s1 ty2 m with
          | none => rfl
          | some x =>
            obtain ⟨id, a, rfl, hg, _⟩ := bindPath_some hb
            have := hm.keys id (by simp [hg])
            simp [Segs.single, this] at hp
        split at h
        · rename_i m1 h1
          simp only [matchPath, hnb] at h1
          split at h1
          · rename_i hsl
            obtain ⟨g1, g2, g3⟩ := soundS P s2 s1 m m1 h1 hsl hp.1.2 ht.1.2 hm
            obtain ⟨k1, k2, k3⟩ := soundB P r2 r1 ty2 m1 m' h hl hp.2 ht.2 g1
            exact ⟨k1, g2.trans k2, fun m'' hle hk => by
              simp [Bounds.subst, Bounds.erase, g3 m'' (k2.trans hle) hk, k3 m'' hle hk]⟩
          · simp at h1
        · rename_i hr; exact absurd h (hr m')
      · simp at h
    · simp at h
  | .lt l2 r2, p, ty2, m, m', h, hl, hp, ht, hm => by
    cases p <;> simp only [matchBounds] at h <;> simp [Bounds.len] at hl
    · simp at h
    · rename_i l1 r1
      simp [Bounds.okPat] at hp
      simp [Bounds.free] at ht
      obtain ⟨k1, k2, k3⟩ := soundB P r2 r1 ty2 m m' h hl hp ht hm
      exact ⟨k1, k2, fun m'' hle hk => by simp [Bounds.subst, Bounds.erase, k3 m'' hle hk]⟩
end

end Flapi.Ast
