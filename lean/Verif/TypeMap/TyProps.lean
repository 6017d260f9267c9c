import Verif.TypeMap.Ty
/-! # Normalisation of types (C18) -/
namespace Flapi.Ast
open Flapi

/-! ## Specification: types that differ only in erasable lifetimes and the `dyn` keyword -/

/-- Only lifetimes in an argument list. -/
inductive OnlyLts : GArgs → Prop
  | nil : OnlyLts .nil
  | lt (l : Text) {g : GArgs} : OnlyLts g → OnlyLts (.lt l g)

mutual
/-- The two types are equal except for lifetimes of references, lifetimes in `<..>` lists and the `dyn` keyword. -/
inductive Same : Ty → Ty → Prop
  | path {q l s s'} : SameS s s' → Same (.path q l s) (.path q l s')
  | ref {l l' m e e'} : Same e e' → Same (.ref l m e) (.ref l' m e')
  | ptr {m e e'} : Same e e' → Same (.ptr m e) (.ptr m e')
  | slice {e e'} : Same e e' → Same (.slice e) (.slice e')
  | tuple {e e'} : SameL e e' → Same (.tuple e) (.tuple e')
  | implTrait {b b'} : SameB b b' → Same (.implTrait b) (.implTrait b')
  | traitObj {d d' b b'} : SameB b b' → Same (.traitObj d b) (.traitObj d' b')
  | bareFn {h l i i' o o'} : SameL i i' → SameR o o' → Same (.bareFn h l i o) (.bareFn h l i' o')
  | array {e e' n} : Same e e' → Same (.array e n) (.array e' n)
  | paren {e e'} : Same e e' → Same (.paren e) (.paren e')
  | other {t} : Same (.other t) (.other t)
/-- See `Same`. -/
inductive SameL : Tys → Tys → Prop
  | nil : SameL .nil .nil
  | cons {h h' t t'} : Same h h' → SameL t t' → SameL (.cons h t) (.cons h' t')
/-- See `Same`. -/
inductive SameS : Segs → Segs → Prop
  | nil : SameS .nil .nil
  | cons {i a a' r r'} : SameA a a' → SameS r r' → SameS (.cons i a r) (.cons i a' r')
/-- See `Same`; `X<'a>` and `X` are the same. -/
inductive SameA : Args → Args → Prop
  | none : SameA .none .none
  | angle {g g'} : SameG g g' → SameA (.angle g) (.angle g')
  | dropL {g} : OnlyLts g → SameA (.angle g) .none
  | dropR {g} : OnlyLts g → SameA .none (.angle g)
  | parens {i i' o o'} : SameL i i' → SameR o o' → SameA (.parens i o) (.parens i' o')
/-- See `Same`. -/
inductive SameG : GArgs → GArgs → Prop
  | nil : SameG .nil .nil
  | ty {t t' r r'} : Same t t' → SameG r r' → SameG (.ty t r) (.ty t' r')
  | assoc {i t t' r r'} : Same t t' → SameG r r' → SameG (.assoc i t r) (.assoc i t' r')
  | const {c r r'} : SameG r r' → SameG (.const c r) (.const c r')
  | ltL {l r r'} : SameG r r' → SameG (.lt l r) r'
  | ltR {l r r'} : SameG r r' → SameG r (.lt l r')
/-- See `Same`. -/
inductive SameR : Ret → Ret → Prop
  | default : SameR .default .default
  | ty {t t'} : Same t t' → SameR (.ty t) (.ty t')
/-- See `Same`. -/
inductive SameB : Bounds → Bounds → Prop
  | nil : SameB .nil .nil
  | trait {m l s s' r r'} : SameS s s' → SameB r r' → SameB (.trait m l s r) (.trait m l s' r')
  | lt {l r r'} : SameB r r' → SameB (.lt l r) (.lt l r')
end

/-! ## Lemmas -/

theorem args_norm (g : GArgs) : (Args.angle g).stripLt.stripDyn =
    match g.stripLt.stripDyn with | .nil => .none | g => .angle g := by
  simp only [Args.stripLt]
  cases h : g.stripLt <;> simp [Args.stripDyn, GArgs.stripDyn]

theorem onlyLts_iff : ∀ g : GArgs, OnlyLts g ↔ g.stripLt.stripDyn = .nil
  | .nil => ⟨fun _ => rfl, fun _ => .nil⟩
  | .lt l r => ⟨fun h => by cases h; rename_i h; exact (onlyLts_iff r).1 h, fun h => .lt l ((onlyLts_iff r).2 h)⟩
  | .ty t r => ⟨fun h => (nomatch h), fun h => by simp [GArgs.stripLt, GArgs.stripDyn] at h⟩
  | .assoc i t r => ⟨fun h => (nomatch h), fun h => by simp [GArgs.stripLt, GArgs.stripDyn] at h⟩
  | .const c r => ⟨fun h => (nomatch h), fun h => by simp [GArgs.stripLt, GArgs.stripDyn] at h⟩

mutual
theorem same_norm : ∀ {t t' : Ty}, Same t t' → t.stripLt.stripDyn = t'.stripLt.stripDyn
  | _, _, .path h => by simp [Ty.stripLt, Ty.stripDyn, sameS_norm h]
  | _, _, .ref h => by simp [Ty.stripLt, Ty.stripDyn, same_norm h]
  | _, _, .ptr h => by simp [Ty.stripLt, Ty.stripDyn, same_norm h]
  | _, _, .slice h => by simp [Ty.stripLt, Ty.stripDyn, same_norm h]
  | _, _, .tuple h => by simp [Ty.stripLt, Ty.stripDyn, sameL_norm h]
  | _, _, .implTrait h => by simp [Ty.stripLt, Ty.stripDyn, sameB_norm h]
  | _, _, .traitObj h => by simp [Ty.stripLt, Ty.stripDyn, sameB_norm h]
  | _, _, .bareFn h k => by simp [Ty.stripLt, Ty.stripDyn, sameL_norm h, sameR_norm k]
  | _, _, .array h => by simp [Ty.stripLt, Ty.stripDyn, same_norm h]
  | _, _, .paren h => by simp [Ty.stripLt, Ty.stripDyn, same_norm h]
  | _, _, .other => rfl
theorem sameL_norm : ∀ {t t' : Tys}, SameL t t' → t.stripLt.stripDyn = t'.stripLt.stripDyn
  | _, _, .nil => rfl
  | _, _, .cons h k => by simp [Tys.stripLt, Tys.stripDyn, same_norm h, sameL_norm k]
theorem sameS_norm : ∀ {t t' : Segs}, SameS t t' → t.stripLt.stripDyn = t'.stripLt.stripDyn
  | _, _, .nil => rfl
  | _, _, .cons h k => by simp [Segs.stripLt, Segs.stripDyn, sameA_norm h, sameS_norm k]
theorem sameA_norm : ∀ {t t' : Args}, SameA t t' → t.stripLt.stripDyn = t'.stripLt.stripDyn
  | _, _, .none => rfl
  | _, _, .angle h => by rw [args_norm, args_norm, sameG_norm h]
  | _, _, .dropL h => by rw [args_norm, (onlyLts_iff _).1 h]; rfl
  | _, _, .dropR h => by rw [args_norm, (onlyLts_iff _).1 h]; rfl
  | _, _, .parens h k => by simp [Args.stripLt, Args.stripDyn, sameL_norm h, sameR_norm k]
theorem sameG_norm : ∀ {t t' : GArgs}, SameG t t' → t.stripLt.stripDyn = t'.stripLt.stripDyn
  | _, _, .nil => rfl
  | _, _, .ty h k => by simp [GArgs.stripLt, GArgs.stripDyn, same_norm h, sameG_norm k]
  | _, _, .assoc h k => by simp [GArgs.stripLt, GArgs.stripDyn, same_norm h, sameG_norm k]
  | _, _, .const k => by simp [GArgs.stripLt, GArgs.stripDyn, sameG_norm k]
  | _, _, .ltL k => by simp [GArgs.stripLt, sameG_norm k]
  | _, _, .ltR k => by simp [GArgs.stripLt, sameG_norm k]
theorem sameR_norm : ∀ {t t' : Ret}, SameR t t' → t.stripLt.stripDyn = t'.stripLt.stripDyn
  | _, _, .default => rfl
  | _, _, .ty h => by simp [Ret.stripLt, Ret.stripDyn, same_norm h]
theorem sameB_norm : ∀ {t t' : Bounds}, SameB t t' → t.stripLt.stripDyn = t'.stripLt.stripDyn
  | _, _, .nil => rfl
  | _, _, .trait h k => by simp [Bounds.stripLt, Bounds.stripDyn, sameS_norm h, sameB_norm k]
  | _, _, .lt k => by simp [Bounds.stripLt, Bounds.stripDyn, sameB_norm k]
end

mutual
theorem norm_same : ∀ (t t' : Ty), t.stripLt.stripDyn = t'.stripLt.stripDyn → Same t t'
  | .path q l s, t', h => by
    cases t' <;> simp [Ty.stripLt, Ty.stripDyn] at h
    obtain ⟨rfl, rfl, h⟩ := h; exact .path (norm_sameS s _ h)
  | .ref l m e, t', h => by
    cases t' <;> simp [Ty.stripLt, Ty.stripDyn] at h
    obtain ⟨rfl, h⟩ := h; exact .ref (norm_same e _ h)
  | .ptr m e, t', h => by
    cases t' <;> simp [Ty.stripLt, Ty.stripDyn] at h
    obtain ⟨rfl, h⟩ := h; exact .ptr (norm_same e _ h)
  | .slice e, t', h => by
    cases t' <;> simp [Ty.stripLt, Ty.stripDyn] at h
    exact .slice (norm_same e _ h)
  | .tuple es, t', h => by
    cases t' <;> simp [Ty.stripLt, Ty.stripDyn] at h
    exact .tuple (norm_sameL es _ h)
  | .implTrait b, t', h => by
    cases t' <;> simp [Ty.stripLt, Ty.stripDyn] at h
    exact .implTrait (norm_sameB b _ h)
  | .traitObj d b, t', h => by
    cases t' <;> simp [Ty.stripLt, Ty.stripDyn] at h
    exact .traitObj (norm_sameB b _ h)
  | .bareFn hd l i o, t', h => by
    cases t' <;> simp [Ty.stripLt, Ty.stripDyn] at h
    obtain ⟨rfl, rfl, h, k⟩ := h; exact .bareFn (norm_sameL i _ h) (norm_sameR o _ k)
  | .array e n, t', h => by
    cases t' <;> simp [Ty.stripLt, Ty.stripDyn] at h
    obtain ⟨h, rfl⟩ := h; exact .array (norm_same e _ h)
  | .paren e, t', h => by
    cases t' <;> simp [Ty.stripLt, Ty.stripDyn] at h
    exact .paren (norm_same e _ h)
  | .other t, t', h => by
    cases t' <;> simp [Ty.stripLt, Ty.stripDyn] at h
    subst h; exact .other
theorem norm_sameL : ∀ (t t' : Tys), t.stripLt.stripDyn = t'.stripLt.stripDyn → SameL t t'
  | .nil, t', h => by cases t' <;> simp [Tys.stripLt, Tys.stripDyn] at h; exact .nil
  | .cons a t, t', h => by
    cases t' <;> simp [Tys.stripLt, Tys.stripDyn] at h
    exact .cons (norm_same a _ h.1) (norm_sameL t _ h.2)
theorem norm_sameS : ∀ (t t' : Segs), t.stripLt.stripDyn = t'.stripLt.stripDyn → SameS t t'
  | .nil, t', h => by cases t' <;> simp [Segs.stripLt, Segs.stripDyn] at h; exact .nil
  | .cons i a r, t', h => by
    cases t' <;> simp [Segs.stripLt, Segs.stripDyn] at h
    obtain ⟨rfl, h, k⟩ := h
    exact .cons (norm_sameA a _ h) (norm_sameS r _ k)
theorem norm_sameA : ∀ (t t' : Args), t.stripLt.stripDyn = t'.stripLt.stripDyn → SameA t t'
  | .none, .none, _ => .none
  | .none, .angle g, h => by
    rw [args_norm] at h
    cases hg : g.stripLt.stripDyn with
    | nil => exact .dropR ((onlyLts_iff g).2 hg)
    | _ => rw [hg] at h; simp [Args.stripLt, Args.stripDyn] at h
  | .none, .parens i o, h => by simp [Args.stripLt, Args.stripDyn] at h
  | .angle g, .none, h => by
    rw [args_norm] at h
    cases hg : g.stripLt.stripDyn with
    | nil => exact .dropL ((onlyLts_iff g).2 hg)
    | _ => rw [hg] at h; simp [Args.stripLt, Args.stripDyn] at h
  | .angle g, .angle g', h => by
    rw [args_norm, args_norm] at h
    refine .angle (norm_sameG g g' ?_)
    cases hg : g.stripLt.stripDyn <;> cases hg' : g'.stripLt.stripDyn <;> rw [hg, hg'] at h <;> simp_all
  | .angle g, .parens i o, h => by
    rw [args_norm] at h
    cases hg : g.stripLt.stripDyn <;> rw [hg] at h <;> simp [Args.stripLt, Args.stripDyn] at h
  | .parens i o, .none, h => by simp [Args.stripLt, Args.stripDyn] at h
  | .parens i o, .angle g, h => by
    rw [args_norm] at h
    cases hg : g.stripLt.stripDyn <;> rw [hg] at h <;> simp [Args.stripLt, Args.stripDyn] at h
  | .parens i o, .parens i' o', h => by
    simp [Args.stripLt, Args.stripDyn] at h
    exact .parens (norm_sameL i _ h.1) (norm_sameR o _ h.2)
theorem norm_sameG : ∀ (t t' : GArgs), t.stripLt.stripDyn = t'.stripLt.stripDyn → SameG t t'
  | .lt l r, t', h => .ltL (norm_sameG r t' h)
  | .nil, .nil, _ => .nil
  | .nil, .lt l r, h => .ltR (norm_sameG .nil r h)
  | .nil, .ty .., h => by simp [GArgs.stripLt, GArgs.stripDyn] at h
  | .nil, .assoc .., h => by simp [GArgs.stripLt, GArgs.stripDyn] at h
  | .nil, .const .., h => by simp [GArgs.stripLt, GArgs.stripDyn] at h
  | .ty t r, .lt l r', h => .ltR (norm_sameG (.ty t r) r' h)
  | .ty t r, .ty t2 r2, h => by
    simp [GArgs.stripLt, GArgs.stripDyn] at h
    exact .ty (norm_same t _ h.1) (norm_sameG r _ h.2)
  | .ty .., .nil, h => by simp [GArgs.stripLt, GArgs.stripDyn] at h
  | .ty .., .assoc .., h => by simp [GArgs.stripLt, GArgs.stripDyn] at h
  | .ty .., .const .., h => by simp [GArgs.stripLt, GArgs.stripDyn] at h
  | .assoc i t r, .lt l r', h => .ltR (norm_sameG (.assoc i t r) r' h)
  | .assoc i t r, .assoc i2 t2 r2, h => by
    simp [GArgs.stripLt, GArgs.stripDyn] at h
    obtain ⟨rfl, h, k⟩ := h
    exact .assoc (norm_same t _ h) (norm_sameG r _ k)
  | .assoc .., .nil, h => by simp [GArgs.stripLt, GArgs.stripDyn] at h
  | .assoc .., .ty .., h => by simp [GArgs.stripLt, GArgs.stripDyn] at h
  | .assoc .., .const .., h => by simp [GArgs.stripLt, GArgs.stripDyn] at h
  | .const c r, .lt l r', h => .ltR (norm_sameG (.const c r) r' h)
  | .const c r, .const c2 r2, h => by
    simp [GArgs.stripLt, GArgs.stripDyn] at h
    obtain ⟨rfl, k⟩ := h
    exact .const (norm_sameG r _ k)
  | .const .., .nil, h => by simp [GArgs.stripLt, GArgs.stripDyn] at h
  | .const .., .ty .., h => by simp [GArgs.stripLt, GArgs.stripDyn] at h
  | .const .., .assoc .., h => by simp [GArgs.stripLt, GArgs.stripDyn] at h
theorem norm_sameR : ∀ (t t' : Ret), t.stripLt.stripDyn = t'.stripLt.stripDyn → SameR t t'
  | .default, t', h => by cases t' <;> simp [Ret.stripLt, Ret.stripDyn] at h; exact .default
  | .ty t, t', h => by
    cases t' <;> simp [Ret.stripLt, Ret.stripDyn] at h
    exact .ty (norm_same t _ h)
theorem norm_sameB : ∀ (t t' : Bounds), t.stripLt.stripDyn = t'.stripLt.stripDyn → SameB t t'
  | .nil, t', h => by cases t' <;> simp [Bounds.stripLt, Bounds.stripDyn] at h; exact .nil
  | .trait m l s r, t', h => by
    cases t' <;> simp [Bounds.stripLt, Bounds.stripDyn] at h
    obtain ⟨rfl, rfl, h, k⟩ := h
    exact .trait (norm_sameS s _ h) (norm_sameB r _ k)
  | .lt l r, t', h => by
    cases t' <;> simp [Bounds.stripLt, Bounds.stripDyn] at h
    obtain ⟨rfl, k⟩ := h
    exact .lt (norm_sameB r _ k)
end

mutual
theorem norm_norm : ∀ t : Ty, t.stripLt.stripDyn.stripLt.stripDyn = t.stripLt.stripDyn
  | .path q l s => by simp [Ty.stripLt, Ty.stripDyn, norm_normS s]
  | .ref l m e => by simp [Ty.stripLt, Ty.stripDyn, norm_norm e]
  | .ptr m e => by simp [Ty.stripLt, Ty.stripDyn, norm_norm e]
  | .slice e => by simp [Ty.stripLt, Ty.stripDyn, norm_norm e]
  | .tuple es => by simp [Ty.stripLt, Ty.stripDyn, norm_normL es]
  | .implTrait b => by simp [Ty.stripLt, Ty.stripDyn, norm_normB b]
  | .traitObj d b => by simp [Ty.stripLt, Ty.stripDyn, norm_normB b]
  | .bareFn h l i o => by simp [Ty.stripLt, Ty.stripDyn, norm_normL i, norm_normR o]
  | .array e n => by simp [Ty.stripLt, Ty.stripDyn, norm_norm e]
  | .paren e => by simp [Ty.stripLt, Ty.stripDyn, norm_norm e]
  | .other t => rfl
theorem norm_normL : ∀ t : Tys, t.stripLt.stripDyn.stripLt.stripDyn = t.stripLt.stripDyn
  | .nil => rfl
  | .cons h t => by simp [Tys.stripLt, Tys.stripDyn, norm_norm h, norm_normL t]
theorem norm_normS : ∀ t : Segs, t.stripLt.stripDyn.stripLt.stripDyn = t.stripLt.stripDyn
  | .nil => rfl
  | .cons i a r => by simp [Segs.stripLt, Segs.stripDyn, norm_normA a, norm_normS r]
theorem norm_normA : ∀ t : Args, t.stripLt.stripDyn.stripLt.stripDyn = t.stripLt.stripDyn
  | .none => rfl
  | .angle g => by
    have ih := norm_normG g
    rw [args_norm]
    cases hg : g.stripLt.stripDyn <;> rw [hg] at ih
    · rfl
    all_goals (dsimp only; rw [args_norm, ih])
  | .parens i o => by simp [Args.stripLt, Args.stripDyn, norm_normL i, norm_normR o]
theorem norm_normG : ∀ t : GArgs, t.stripLt.stripDyn.stripLt.stripDyn = t.stripLt.stripDyn
  | .nil => rfl
  | .ty t r => by simp [GArgs.stripLt, GArgs.stripDyn, norm_norm t, norm_normG r]
  | .lt l r => by simp [GArgs.stripLt, norm_normG r]
  | .assoc i t r => by simp [GArgs.stripLt, GArgs.stripDyn, norm_norm t, norm_normG r]
  | .const c r => by simp [GArgs.stripLt, GArgs.stripDyn, norm_normG r]
theorem norm_normR : ∀ t : Ret, t.stripLt.stripDyn.stripLt.stripDyn = t.stripLt.stripDyn
  | .default => rfl
  | .ty t => by simp [Ret.stripLt, Ret.stripDyn, norm_norm t]
theorem norm_normB : ∀ t : Bounds, t.stripLt.stripDyn.stripLt.stripDyn = t.stripLt.stripDyn
  | .nil => rfl
  | .trait m l s r => by simp [Bounds.stripLt, Bounds.stripDyn, norm_normS s, norm_normB r]
  | .lt l r => by simp [Bounds.stripLt, Bounds.stripDyn, norm_normB r]
end

/-! ## Printing is unambiguous (without trait bounds) -/

/-- Not `(..) -> ..`. -/
def Args.noParens : Args → Bool
  | .parens .. => false
  | _ => true

mutual
/-- No `dyn`/`impl` bounds and no `for<..>` binder; paths have at least one segment. -/
def Ty.plain : Ty → Bool
  | .path _ _ .nil => false
  | .path _ _ s => s.plain
  | .ref _ _ e => e.plain
  | .ptr _ e => e.plain
  | .slice e => e.plain
  | .tuple es => es.plain
  | .implTrait _ => false
  | .traitObj _ _ => false
  | .bareFn _ l i o => decide (l = []) && i.plain && o.plain
  | .array e _ => e.plain
  | .paren e => e.plain
  | .other _ => true
/-- See `Ty.plain`. -/
def Tys.plain : Tys → Bool
  | .nil => true
  | .cons h t => h.plain && t.plain
/-- See `Ty.plain`; `Fn(..) -> T` only as the last segment. -/
def Segs.plain : Segs → Bool
  | .nil => true
  | .cons _ a .nil => a.plain
  | .cons _ a r => a.plain && a.noParens && r.plain
/-- See `Ty.plain`. -/
def Args.plain : Args → Bool
  | .none => true
  | .angle g => g.plain
  | .parens i o => i.plain && o.plain
/-- See `Ty.plain`. -/
def GArgs.plain : GArgs → Bool
  | .nil => true
  | .ty t r => t.plain && r.plain
  | .lt _ r => r.plain
  | .assoc _ t r => t.plain && r.plain
  | .const _ r => r.plain
/-- See `Ty.plain`. -/
def Ret.plain : Ret → Bool
  | .default => true
  | .ty t => t.plain
end

/-- What can follow a complete type: not a token that would continue it. -/
def Stop : List Tok → Prop
  | .colon2 :: _ => False
  | .lt :: _ => False
  | .lparen :: _ => False
  | .arrow :: _ => False
  | .eq :: _ => False
  | _ => True

/-- What can start a type. -/
def Tok.starts : Tok → Bool
  | .qself _ | .colon2 | .ident _ | .amp | .star | .lbrack | .lparen | .header _ | .keyword _ => true
  | _ => false

/-- Tokens of a list of types or of generic arguments are empty or start like a type, a lifetime or a constant. -/
def Tok.gstarts : Tok → Bool
  | .lifetime _ | .konst _ => true
  | t => t.starts

theorem segs_head (s : Segs) (h : s ≠ .nil) : ∃ i r, s.toks = .ident i :: r := by
  cases s with
  | nil => simp at h
  | cons i a r => cases r <;> simp [Segs.toks]

theorem ty_head (t : Ty) (h : t.plain) : ∃ k r, t.toks = k :: r ∧ k.starts := by
  cases t with
  | path q l s =>
    have hs : s ≠ .nil := by rintro rfl; simp [Ty.plain] at h
    obtain ⟨i, r, e⟩ := segs_head s hs
    cases q <;> cases l <;> simp [Ty.toks, optTok, e, Tok.starts]
  | implTrait | traitObj => simp [Ty.plain] at h
  | _ => simp [Ty.toks, Tok.starts]

/-- Tokens after the first segment. -/
def Segs.tail' : Segs → List Tok
  | .nil => []
  | r => .colon2 :: r.toks

theorem segs_toks (i : Text) (a : Args) (r : Segs) : (Segs.cons i a r).toks =
    .ident i :: a.toks ++ r.tail' := by
  cases r <;> simp [Segs.toks, Segs.tail']

theorem plain_path {q l s} (h : (Ty.path q l s).plain) : s ≠ .nil ∧ s.plain := by
  cases s <;> simp_all [Ty.plain]

/-- A type never looks like the tokens `k` if `k` does not start a type. -/
theorem ty_not {t : Ty} (h : t.plain) {r r' : List Tok} {k : Tok} (hk : k.starts = false) : t.toks ++ r ≠ k :: r' := by
  obtain ⟨k', x, e, h'⟩ := ty_head t h
  rw [e]; intro hh; simp at hh; rw [hh.1, hk] at h'; simp at h'

theorem args_nil_stop {a : Args} {x y : List Tok} (hy : Stop y) (h : a.toks ++ x = y) : a = .none := by
  cases a with
  | none => rfl
  | _ => rw [← h] at hy; simp [Args.toks, Stop] at hy

/-- A path type followed by a comma is not `ident =`. -/
theorem ty_not_eq {t : Ty} (h : t.plain) {r r' : List Tok} {i : Text} (hr : Stop r) :
    t.toks ++ r ≠ .ident i :: .eq :: r' := by
  intro e
  cases t with
  | path q l s =>
    cases q <;> cases l <;> simp [Ty.toks, optTok] at e
    obtain ⟨hn, hp⟩ := plain_path h
    cases s with
    | nil => exact hn rfl
    | cons j a s' =>
      rw [segs_toks] at e
      simp at e
      obtain ⟨_, e⟩ := e
      cases a <;> simp [Args.toks] at e
      cases s' <;> simp [Segs.tail'] at e
      · subst e; simp [Stop] at hr
  | implTrait | traitObj => simp [Ty.plain] at h
  | _ => simp [Ty.toks] at e

/-- What follows the arguments of a path segment. -/
def Fol (a : Args) (x : List Tok) : Prop := Stop x ∨ ((∃ y, x = .colon2 :: y) ∧ a.noParens = true)

theorem fol_not {a : Args} {x : List Tok} (h : Fol a x) (k : Tok) (hk : k = .lt ∨ k = .lparen ∨ k = .arrow) (y : List Tok) :
    x ≠ k :: y := by
  rintro rfl
  rcases h with h | ⟨⟨y, e⟩, _⟩
  · rcases hk with rfl | rfl | rfl <;> simp [Stop] at h
  · rcases hk with rfl | rfl | rfl <;> simp at e

theorem segs_plain_cons {i : Text} {a : Args} {r : Segs} (h : (Segs.cons i a r).plain) (x : List Tok) (hx : Stop x) :
    a.plain ∧ r.plain ∧ Fol a (r.tail' ++ x) := by
  cases r with
  | nil => simp [Segs.plain, Segs.tail'] at h ⊢; exact ⟨h, .inl hx⟩
  | cons j b r => simp [Segs.plain, Segs.tail'] at h ⊢; exact ⟨h.1.1, h.2, .inr ⟨⟨_, rfl⟩, h.1.2⟩⟩

mutual
theorem toks_inj : ∀ (t t' : Ty) (r r' : List Tok), t.plain → t'.plain → Stop r → Stop r' →
    t.toks ++ r = t'.toks ++ r' → t = t' ∧ r = r'
  | .path q l s, t', r, r', h, h', hr, hr', e => by
    obtain ⟨hn, hp⟩ := plain_path h
    have hd := segs_head s hn
    cases t' with
    | path q' l' s' =>
      obtain ⟨hn', hp'⟩ := plain_path h'
      have hd' := segs_head s' hn'
      have key : q = q' ∧ l = l' ∧ s.toks ++ r = s'.toks ++ r' := by
        obtain ⟨i, x, e1⟩ := hd
        obtain ⟨i', x', e1'⟩ := hd'
        rw [e1, e1']
        cases q <;> cases q' <;> cases l <;> cases l' <;> simp [Ty.toks, optTok, e1, e1'] at e ⊢ <;> simp_all
      obtain ⟨rfl, rfl, k⟩ := key
      obtain ⟨rfl, k2⟩ := toksS_inj s s' r r' hn hn' hp hp' hr hr' k
      exact ⟨rfl, k2⟩
    | implTrait | traitObj => simp [Ty.plain] at h'
    | _ =>
      obtain ⟨i, x, e1⟩ := hd
      cases q <;> cases l <;> simp [Ty.toks, optTok, e1] at e
  | .ref l m a, t', r, r', h, h', hr, hr', e => by
    cases t' with
    | ref l' m' a' =>
      simp only [Ty.plain] at h h'
      have key : l = l' ∧ m = m' ∧ a.toks ++ r = a'.toks ++ r' := by
        obtain ⟨k, x, e1, hk⟩ := ty_head a h
        obtain ⟨k', x', e1', hk'⟩ := ty_head a' h'
        rw [e1, e1']
        cases l <;> cases l' <;> cases m <;> cases m' <;> simp [Ty.toks, optTok, e1, e1'] at e ⊢ <;>
          first
          | exact e
          | (obtain ⟨e2, e3⟩ := e; subst e2; simp [Tok.starts] at hk hk'; done)
          | (obtain ⟨e2, e3, e4⟩ := e; subst e3; simp [Tok.starts] at hk hk'; done)
          | (obtain ⟨e2, e3, e4⟩ := e; subst e2; simp [Tok.starts] at hk hk'; done)
          | simp_all [Tok.starts]
      obtain ⟨rfl, rfl, k⟩ := key
      obtain ⟨rfl, k2⟩ := toks_inj a a' r r' h h' hr hr' k
      exact ⟨rfl, k2⟩
    | implTrait | traitObj => simp [Ty.plain] at h'
    | path q l s =>
      obtain ⟨i, x, e1⟩ := segs_head s (plain_path h').1
      cases q <;> cases l <;> simp [Ty.toks, optTok, e1] at e
    | _ => simp [Ty.toks] at e
  | .ptr m a, t', r, r', h, h', hr, hr', e => by
    cases t' with
    | ptr m' a' =>
      simp only [Ty.plain] at h h'
      simp [Ty.toks] at e
      have hm : m = m' := by cases m <;> cases m' <;> simp at e ⊢
      subst hm
      obtain ⟨rfl, k⟩ := toks_inj a a' r r' h h' hr hr' e.2
      exact ⟨rfl, k⟩
    | implTrait | traitObj => simp [Ty.plain] at h'
    | path q l s =>
      obtain ⟨i, x, e1⟩ := segs_head s (plain_path h').1
      cases q <;> cases l <;> simp [Ty.toks, optTok, e1] at e
    | _ => simp [Ty.toks] at e
  | .slice a, t', r, r', h, h', hr, hr', e => by
    cases t' with
    | slice a' =>
      simp only [Ty.plain] at h h'
      simp [Ty.toks] at e
      obtain ⟨rfl, k⟩ := toks_inj a a' (.rbrack :: r) (.rbrack :: r') h h' (by simp [Stop]) (by simp [Stop]) e
      exact ⟨rfl, by simpa using k⟩
    | array a' n =>
      simp only [Ty.plain] at h h'
      simp [Ty.toks] at e
      obtain ⟨rfl, k⟩ := toks_inj a a' (.rbrack :: r) _ h h' (by simp [Stop]) (by simp [Stop]) e
      simp at k
    | implTrait | traitObj => simp [Ty.plain] at h'
    | path q l s =>
      obtain ⟨i, x, e1⟩ := segs_head s (plain_path h').1
      cases q <;> cases l <;> simp [Ty.toks, optTok, e1] at e
    | _ => simp [Ty.toks] at e
  | .array a n, t', r, r', h, h', hr, hr', e => by
    cases t' with
    | slice a' =>
      simp only [Ty.plain] at h h'
      simp [Ty.toks] at e
      obtain ⟨rfl, k⟩ := toks_inj a a' _ (.rbrack :: r') h h' (by simp [Stop]) (by simp [Stop]) e
      simp at k
    | array a' n =>
      simp only [Ty.plain] at h h'
      simp [Ty.toks] at e
      obtain ⟨rfl, k⟩ := toks_inj a a' _ _ h h' (by simp [Stop]) (by simp [Stop]) e
      simp at k
      exact ⟨by rw [k.1], k.2⟩
    | implTrait | traitObj => simp [Ty.plain] at h'
    | path q l s =>
      obtain ⟨i, x, e1⟩ := segs_head s (plain_path h').1
      cases q <;> cases l <;> simp [Ty.toks, optTok, e1] at e
    | _ => simp [Ty.toks] at e
  | .tuple es, t', r, r', h, h', hr, hr', e => by
    cases t' with
    | tuple es' =>
      simp only [Ty.plain] at h h'
      simp [Ty.toks] at e
      obtain ⟨rfl, k⟩ := toksL_inj es es' r r' h h' e
      exact ⟨rfl, k⟩
    | paren a' =>
      simp only [Ty.plain] at h h'
      simp [Ty.toks] at e
      cases es with
      | nil => exact absurd e.symm (ty_not h' (by simp [Tok.starts]))
      | cons a t =>
        simp [Tys.plain] at h
        simp [Tys.toks] at e
        obtain ⟨_, k⟩ := toks_inj a a' _ _ h.1 h' (by simp [Stop]) (by simp [Stop]) e
        simp at k
    | implTrait | traitObj => simp [Ty.plain] at h'
    | path q l s =>
      obtain ⟨i, x, e1⟩ := segs_head s (plain_path h').1
      cases q <;> cases l <;> simp [Ty.toks, optTok, e1] at e
    | _ => simp [Ty.toks] at e
  | .paren a, t', r, r', h, h', hr, hr', e => by
    cases t' with
    | tuple es' =>
      simp only [Ty.plain] at h h'
      simp [Ty.toks] at e
      cases es' with
      | nil => exact absurd e (ty_not h (by simp [Tok.starts]))
      | cons a' t =>
        simp [Tys.plain] at h'
        simp [Tys.toks] at e
        obtain ⟨_, k⟩ := toks_inj a a' _ _ h h'.1 (by simp [Stop]) (by simp [Stop]) e
        simp at k
    | paren a' =>
      simp only [Ty.plain] at h h'
      simp [Ty.toks] at e
      obtain ⟨rfl, k⟩ := toks_inj a a' _ _ h h' (by simp [Stop]) (by simp [Stop]) e
      exact ⟨rfl, by simpa using k⟩
    | implTrait | traitObj => simp [Ty.plain] at h'
    | path q l s =>
      obtain ⟨i, x, e1⟩ := segs_head s (plain_path h').1
      cases q <;> cases l <;> simp [Ty.toks, optTok, e1] at e
    | _ => simp [Ty.toks] at e
  | .bareFn hd l i o, t', r, r', h, h', hr, hr', e => by
    cases t' with
    | bareFn hd' l' i' o' =>
      simp [Ty.plain] at h h'
      obtain ⟨⟨rfl, hi⟩, ho⟩ := h
      obtain ⟨⟨rfl, hi'⟩, ho'⟩ := h'
      simp [Ty.toks] at e
      obtain ⟨rfl, e⟩ := e
      obtain ⟨rfl, k⟩ := toksL_inj i i' _ _ hi hi' e
      obtain ⟨rfl, k2⟩ := toksR_inj o o' _ _ ho ho' hr hr' k
      exact ⟨rfl, k2⟩
    | implTrait | traitObj => simp [Ty.plain] at h'
    | path q l s =>
      obtain ⟨i, x, e1⟩ := segs_head s (plain_path h').1
      cases q <;> cases l <;> simp [Ty.toks, optTok, e1] at e
    | _ => simp [Ty.toks] at e
  | .other w, t', r, r', h, h', hr, hr', e => by
    cases t' with
    | other w' => simpa [Ty.toks] using e
    | implTrait | traitObj => simp [Ty.plain] at h'
    | path q l s =>
      obtain ⟨i, x, e1⟩ := segs_head s (plain_path h').1
      cases q <;> cases l <;> simp [Ty.toks, optTok, e1] at e
    | _ => simp [Ty.toks] at e
  | .implTrait _, _, _, _, h, _, _, _, _ => by simp [Ty.plain] at h
  | .traitObj _ _, _, _, _, h, _, _, _, _ => by simp [Ty.plain] at h
theorem toksL_inj : ∀ (t t' : Tys) (r r' : List Tok), t.plain → t'.plain →
    t.toks ++ .rparen :: r = t'.toks ++ .rparen :: r' → t = t' ∧ r = r'
  | .nil, .nil, _, _, _, _, e => by simpa [Tys.toks] using e
  | .nil, .cons a t, _, _, _, h', e => by
    simp [Tys.plain] at h'
    simp [Tys.toks] at e
    exact absurd e.symm (ty_not h'.1 (by simp [Tok.starts]))
  | .cons a t, .nil, _, _, h, _, e => by
    simp [Tys.plain] at h
    simp [Tys.toks] at e
    exact absurd e (ty_not h.1 (by simp [Tok.starts]))
  | .cons a t, .cons a' t', r, r', h, h', e => by
    simp [Tys.plain] at h h'
    simp [Tys.toks] at e
    obtain ⟨rfl, k⟩ := toks_inj a a' _ _ h.1 h'.1 (by simp [Stop]) (by simp [Stop]) e
    simp at k
    obtain ⟨rfl, k2⟩ := toksL_inj t t' r r' h.2 h'.2 k
    exact ⟨rfl, k2⟩
theorem toksS_inj : ∀ (t t' : Segs) (r r' : List Tok), t ≠ .nil → t' ≠ .nil → t.plain → t'.plain → Stop r → Stop r' →
    t.toks ++ r = t'.toks ++ r' → t = t' ∧ r = r'
  | .nil, _, _, _, hn, _, _, _, _, _, _ => absurd rfl hn
  | .cons i a s, .nil, _, _, _, hn, _, _, _, _, _ => absurd rfl hn
  | .cons i a s, .cons i' a' s', r, r', _, _, h, h', hr, hr', e => by
    rw [segs_toks, segs_toks] at e
    simp at e
    obtain ⟨rfl, e⟩ := e
    obtain ⟨ha, hs, hf⟩ := segs_plain_cons h r hr
    obtain ⟨ha', hs', hf'⟩ := segs_plain_cons h' r' hr'
    obtain ⟨rfl, k⟩ := toksA_inj a a' _ _ ha ha' hf hf' e
    cases s with
    | nil =>
      cases s' with
      | nil => exact ⟨rfl, by simpa [Segs.tail'] using k⟩
      | cons => simp [Segs.tail'] at k; subst k; simp [Stop] at hr
    | cons j b s =>
      cases s' with
      | nil => simp [Segs.tail'] at k; subst k; simp [Stop] at hr'
      | cons j' b' s' =>
        simp only [Segs.tail', List.cons_append, List.cons.injEq, true_and] at k
        obtain ⟨e2, k⟩ := toksS_inj (.cons j b s) (.cons j' b' s') r r' (by simp) (by simp) hs hs' hr hr' k
        rw [e2]
        exact ⟨rfl, k⟩
theorem toksA_inj : ∀ (t t' : Args) (r r' : List Tok), t.plain → t'.plain → Fol t r → Fol t' r' →
    t.toks ++ r = t'.toks ++ r' → t = t' ∧ r = r'
  | .none, .none, _, _, _, _, _, _, e => by simpa [Args.toks] using e
  | .none, .angle g, _, _, _, _, hf, _, e => by
    simp [Args.toks] at e; exact absurd e (fol_not hf _ (.inl rfl) _)
  | .none, .parens i o, _, _, _, _, hf, _, e => by
    simp [Args.toks] at e; exact absurd e (fol_not hf _ (.inr (.inl rfl)) _)
  | .angle g, .none, _, _, _, _, _, hf, e => by
    simp [Args.toks] at e; exact absurd e.symm (fol_not hf _ (.inl rfl) _)
  | .parens i o, .none, _, _, _, _, _, hf, e => by
    simp [Args.toks] at e; exact absurd e.symm (fol_not hf _ (.inr (.inl rfl)) _)
  | .angle g, .parens i o, _, _, _, _, _, _, e => by simp [Args.toks] at e
  | .parens i o, .angle g, _, _, _, _, _, _, e => by simp [Args.toks] at e
  | .angle g, .angle g', r, r', h, h', _, _, e => by
    simp [Args.toks] at e
    simp only [Args.plain] at h h'
    obtain ⟨rfl, k⟩ := toksG_inj g g' r r' h h' e
    exact ⟨rfl, k⟩
  | .parens i o, .parens i' o', r, r', h, h', hf, hf', e => by
    simp [Args.toks] at e
    simp [Args.plain] at h h'
    obtain ⟨rfl, k⟩ := toksL_inj i i' _ _ h.1 h'.1 e
    have hr : Stop r := by rcases hf with hf | ⟨_, hf⟩; exact hf; simp [Args.noParens] at hf
    have hr' : Stop r' := by rcases hf' with hf | ⟨_, hf⟩; exact hf; simp [Args.noParens] at hf
    obtain ⟨rfl, k2⟩ := toksR_inj o o' _ _ h.2 h'.2 hr hr' k
    exact ⟨rfl, k2⟩
theorem toksG_inj : ∀ (t t' : GArgs) (r r' : List Tok), t.plain → t'.plain →
    t.toks ++ .gt :: r = t'.toks ++ .gt :: r' → t = t' ∧ r = r'
  | .nil, t', r, r', h, h', e => by
    cases t' with
    | nil => simpa [GArgs.toks] using e
    | ty a x =>
      simp [GArgs.plain] at h'
      simp [GArgs.toks] at e
      exact absurd e.symm (ty_not h'.1 (by simp [Tok.starts]))
    | _ => simp [GArgs.toks] at e
  | .ty a x, t', r, r', h, h', e => by
    simp [GArgs.plain] at h
    cases t' with
    | nil =>
      simp [GArgs.toks] at e
      exact absurd e (ty_not h.1 (by simp [Tok.starts]))
    | lt l y =>
      simp [GArgs.toks] at e
      exact absurd e (ty_not h.1 (by simp [Tok.starts]))
    | const c y =>
      simp [GArgs.toks] at e
      exact absurd e (ty_not h.1 (by simp [Tok.starts]))
    | assoc i b y =>
      simp [GArgs.toks] at e
      exact absurd e (ty_not_eq h.1 (by simp [Stop]))
    | ty b y =>
      simp [GArgs.plain] at h'
      simp [GArgs.toks] at e
      obtain ⟨rfl, k⟩ := toks_inj a b _ _ h.1 h'.1 (by simp [Stop]) (by simp [Stop]) e
      simp at k
      obtain ⟨rfl, k2⟩ := toksG_inj x y r r' h.2 h'.2 k
      exact ⟨rfl, k2⟩
  | .lt l x, t', r, r', h, h', e => by
    simp [GArgs.plain] at h
    cases t' with
    | ty b y =>
      simp [GArgs.plain] at h'
      simp [GArgs.toks] at e
      exact absurd e.symm (ty_not h'.1 (by simp [Tok.starts]))
    | lt l' y =>
      simp [GArgs.plain] at h'
      simp [GArgs.toks] at e
      obtain ⟨rfl, e⟩ := e
      obtain ⟨rfl, k⟩ := toksG_inj x y r r' h h' e
      exact ⟨rfl, k⟩
    | _ => simp [GArgs.toks] at e
  | .const l x, t', r, r', h, h', e => by
    simp [GArgs.plain] at h
    cases t' with
    | ty b y =>
      simp [GArgs.plain] at h'
      simp [GArgs.toks] at e
      exact absurd e.symm (ty_not h'.1 (by simp [Tok.starts]))
    | const l' y =>
      simp [GArgs.plain] at h'
      simp [GArgs.toks] at e
      obtain ⟨rfl, e⟩ := e
      obtain ⟨rfl, k⟩ := toksG_inj x y r r' h h' e
      exact ⟨rfl, k⟩
    | _ => simp [GArgs.toks] at e
  | .assoc i a x, t', r, r', h, h', e => by
    simp [GArgs.plain] at h
    cases t' with
    | ty b y =>
      simp [GArgs.plain] at h'
      simp [GArgs.toks] at e
      exact absurd e.symm (ty_not_eq h'.1 (by simp [Stop]))
    | assoc i' b y =>
      simp [GArgs.plain] at h'
      simp [GArgs.toks] at e
      obtain ⟨rfl, e⟩ := e
      obtain ⟨rfl, k⟩ := toks_inj a b _ _ h.1 h'.1 (by simp [Stop]) (by simp [Stop]) e
      simp at k
      obtain ⟨rfl, k2⟩ := toksG_inj x y r r' h.2 h'.2 k
      exact ⟨rfl, k2⟩
    | _ => simp [GArgs.toks] at e
theorem toksR_inj : ∀ (t t' : Ret) (r r' : List Tok), t.plain → t'.plain → Stop r → Stop r' →
    t.toks ++ r = t'.toks ++ r' → t = t' ∧ r = r'
  | .default, .default, _, _, _, _, _, _, e => by simpa [Ret.toks] using e
  | .default, .ty t, _, _, _, _, hr, _, e => by
    simp [Ret.toks] at e; subst e; simp [Stop] at hr
  | .ty t, .default, _, _, _, _, _, hr, e => by
    simp [Ret.toks] at e; subst e; simp [Stop] at hr
  | .ty t, .ty t', r, r', h, h', hr, hr', e => by
    simp [Ret.toks] at e
    obtain ⟨rfl, k⟩ := toks_inj t t' r r' h h' hr hr' e
    exact ⟨rfl, k⟩
end

mutual
theorem plain_norm : ∀ t : Ty, t.plain → t.stripLt.stripDyn.plain
  | .path q l s, h => by
    obtain ⟨hn, hp⟩ := plain_path h
    have := plain_normS s hp
    cases s with
    | nil => simp at hn
    | cons i a r => simpa [Ty.stripLt, Ty.stripDyn, Ty.plain, Segs.stripLt, Segs.stripDyn] using this
  | .ref l m e, h => by simpa [Ty.stripLt, Ty.stripDyn, Ty.plain] using plain_norm e (by simpa [Ty.plain] using h)
  | .ptr m e, h => by simpa [Ty.stripLt, Ty.stripDyn, Ty.plain] using plain_norm e (by simpa [Ty.plain] using h)
  | .slice e, h => by simpa [Ty.stripLt, Ty.stripDyn, Ty.plain] using plain_norm e (by simpa [Ty.plain] using h)
  | .tuple es, h => by simpa [Ty.stripLt, Ty.stripDyn, Ty.plain] using plain_normL es (by simpa [Ty.plain] using h)
  | .implTrait b, h => by simp [Ty.plain] at h
  | .traitObj d b, h => by simp [Ty.plain] at h
  | .bareFn hd l i o, h => by
    simp [Ty.plain] at h
    simp [Ty.stripLt, Ty.stripDyn, Ty.plain, h.1.1, plain_normL i h.1.2, plain_normR o h.2]
  | .array e n, h => by simpa [Ty.stripLt, Ty.stripDyn, Ty.plain] using plain_norm e (by simpa [Ty.plain] using h)
  | .paren e, h => by simpa [Ty.stripLt, Ty.stripDyn, Ty.plain] using plain_norm e (by simpa [Ty.plain] using h)
  | .other t, h => rfl
theorem plain_normL : ∀ t : Tys, t.plain → t.stripLt.stripDyn.plain
  | .nil, _ => rfl
  | .cons a t, h => by
    simp [Tys.plain] at h
    simp [Tys.stripLt, Tys.stripDyn, Tys.plain, plain_norm a h.1, plain_normL t h.2]
theorem plain_normS : ∀ t : Segs, t.plain → t.stripLt.stripDyn.plain
  | .nil, _ => rfl
  | .cons i a .nil, h => by
    simp [Segs.plain] at h
    simp [Segs.stripLt, Segs.stripDyn, Segs.plain, plain_normA a h]
  | .cons i a (.cons j b r), h => by
    simp [Segs.plain] at h
    have h2 := plain_normS (.cons j b r) h.2
    have h3 : a.stripLt.stripDyn.noParens = true := by
      cases a with
      | none => rfl
      | angle g => rw [args_norm]; split <;> rfl
      | parens => simp [Args.noParens] at h
    simp only [Segs.stripLt, Segs.stripDyn] at h2 ⊢
    simp [Segs.plain, plain_normA a h.1.1, h2, h3]
theorem plain_normA : ∀ t : Args, t.plain → t.stripLt.stripDyn.plain
  | .none, _ => rfl
  | .angle g, h => by
    have := plain_normG g (by simpa [Args.plain] using h)
    rw [args_norm]
    split
    · rfl
    · simpa [Args.plain] using this
  | .parens i o, h => by
    simp [Args.plain] at h
    simp [Args.stripLt, Args.stripDyn, Args.plain, plain_normL i h.1, plain_normR o h.2]
theorem plain_normG : ∀ t : GArgs, t.plain → t.stripLt.stripDyn.plain
  | .nil, _ => rfl
  | .ty a r, h => by
    simp [GArgs.plain] at h
    simp [GArgs.stripLt, GArgs.stripDyn, GArgs.plain, plain_norm a h.1, plain_normG r h.2]
  | .lt _ r, h => by
    simp [GArgs.plain] at h
    simp [GArgs.stripLt, plain_normG r h]
  | .assoc i a r, h => by
    simp [GArgs.plain] at h
    simp [GArgs.stripLt, GArgs.stripDyn, GArgs.plain, plain_norm a h.1, plain_normG r h.2]
  | .const c r, h => by
    simp [GArgs.plain] at h
    simp [GArgs.stripLt, GArgs.stripDyn, GArgs.plain, plain_normG r h]
theorem plain_normR : ∀ t : Ret, t.plain → t.stripLt.stripDyn.plain
  | .default, _ => rfl
  | .ty t, h => by simpa [Ret.stripLt, Ret.stripDyn, Ret.plain] using plain_norm t (by simpa [Ret.plain] using h)
end

/-! ## Theorems -/

/-- Normalising twice is normalising once. -/
theorem C18_idempotent (t : Ty) : t.norm.norm = t.norm ∧ t.norm.normName = t.normName :=
  ⟨norm_norm t, by simp [Ty.normName, Ty.norm, norm_norm]⟩

/-- Two types have the same normalised tree exactly if they differ only in reference lifetimes, lifetimes in `<..>` lists
and the `dyn` keyword. -/
theorem C18_norm_iff_same (t t' : Ty) : t.norm = t'.norm ↔ Same t t' :=
  ⟨norm_same t t', same_norm⟩

/-- Hence types that differ only so get the same normalised name. -/
theorem C18_same_name {t t' : Ty} (h : Same t t') : t.normName = t'.normName := by
  simp [Ty.normName, Ty.norm, same_norm h]

/-- For types without trait bounds (`dyn`/`impl`) and `for<..>` binders the normalised name identifies exactly the types that
differ only in lifetimes: printing is unambiguous. -/
theorem C18_name_iff {t t' : Ty} (h : t.plain) (h' : t'.plain) : t.normName = t'.normName ↔ Same t t' := by
  constructor
  · intro e
    have := toks_inj t.norm t'.norm [] [] (plain_norm t h) (plain_norm t' h') (by simp [Stop]) (by simp [Stop])
      (by simpa [Ty.normName] using e)
    exact norm_same t t' this.1
  · exact C18_same_name

/-! ### No lifetime is left in the name of a type without trait bounds -/

/-- A token that is not a lifetime. -/
def Tok.noLt : Tok → Bool
  | .lifetime _ => false
  | _ => true

mutual
theorem noLt : ∀ t : Ty, t.plain → ∀ k ∈ t.stripLt.stripDyn.toks, k.noLt
  | .path q l s, h, k, hk => by
    have ih := noLtS s (plain_path h).2 k
    cases q <;> cases l <;> simp [Ty.stripLt, Ty.stripDyn, Ty.toks, optTok] at hk
    · exact ih hk
    · rcases hk with rfl | hk; rfl; exact ih hk
    · rcases hk with rfl | hk; rfl; exact ih hk
    · rcases hk with rfl | rfl | hk; rfl; rfl; exact ih hk
  | .ref l m e, h, k, hk => by
    have ih := noLt e (by simpa [Ty.plain] using h) k
    cases m <;> simp [Ty.stripLt, Ty.stripDyn, Ty.toks, optTok] at hk <;> rcases hk with rfl | hk <;>
      first | rfl | exact ih ‹_› | (rcases hk with rfl | hk <;> first | rfl | exact ih ‹_›)
  | .ptr m e, h, k, hk => by
    have ih := noLt e (by simpa [Ty.plain] using h) k
    cases m <;> simp [Ty.stripLt, Ty.stripDyn, Ty.toks] at hk <;> rcases hk with rfl | rfl | hk <;>
      first | rfl | exact ih ‹_›
  | .slice e, h, k, hk => by
    have ih := noLt e (by simpa [Ty.plain] using h) k
    simp [Ty.stripLt, Ty.stripDyn, Ty.toks] at hk
    rcases hk with rfl | hk | rfl <;> first | rfl | exact ih ‹_›
  | .tuple es, h, k, hk => by
    have ih := noLtL es (by simpa [Ty.plain] using h) k
    simp [Ty.stripLt, Ty.stripDyn, Ty.toks] at hk
    rcases hk with rfl | hk | rfl <;> first | rfl | exact ih ‹_›
  | .implTrait b, h, _, _ => by simp [Ty.plain] at h
  | .traitObj d b, h, _, _ => by simp [Ty.plain] at h
  | .bareFn hd l i o, h, k, hk => by
    simp [Ty.plain] at h
    have ih := noLtL i h.1.2 k
    have ih2 := noLtR o h.2 k
    simp [Ty.stripLt, Ty.stripDyn, Ty.toks, h.1.1] at hk
    rcases hk with rfl | rfl | rfl | hk | rfl | hk <;> first | rfl | exact ih ‹_› | exact ih2 ‹_›
  | .array e n, h, k, hk => by
    have ih := noLt e (by simpa [Ty.plain] using h) k
    simp [Ty.stripLt, Ty.stripDyn, Ty.toks] at hk
    rcases hk with rfl | hk | rfl | rfl | rfl <;> first | rfl | exact ih ‹_›
  | .paren e, h, k, hk => by
    have ih := noLt e (by simpa [Ty.plain] using h) k
    simp [Ty.stripLt, Ty.stripDyn, Ty.toks] at hk
    rcases hk with rfl | hk | rfl <;> first | rfl | exact ih ‹_›
  | .other t, h, k, hk => by
    simp [Ty.stripLt, Ty.stripDyn, Ty.toks] at hk; subst hk; rfl
theorem noLtL : ∀ t : Tys, t.plain → ∀ k ∈ t.stripLt.stripDyn.toks, k.noLt
  | .nil, _, k, hk => by simp [Tys.stripLt, Tys.stripDyn, Tys.toks] at hk
  | .cons a t, h, k, hk => by
    simp [Tys.plain] at h
    have ih := noLt a h.1 k
    have ih2 := noLtL t h.2 k
    simp [Tys.stripLt, Tys.stripDyn, Tys.toks] at hk
    rcases hk with hk | rfl | hk <;> first | rfl | exact ih ‹_› | exact ih2 ‹_›
theorem noLtS : ∀ t : Segs, t.plain → ∀ k ∈ t.stripLt.stripDyn.toks, k.noLt
  | .nil, _, k, hk => by simp [Segs.stripLt, Segs.stripDyn, Segs.toks] at hk
  | .cons i a .nil, h, k, hk => by
    simp [Segs.plain] at h
    have ih := noLtA a h k
    simp [Segs.stripLt, Segs.stripDyn, Segs.toks] at hk
    rcases hk with rfl | hk <;> first | rfl | exact ih ‹_›
  | .cons i a (.cons j b r), h, k, hk => by
    simp [Segs.plain] at h
    have ih := noLtA a h.1.1 k
    have ih2 := noLtS (.cons j b r) h.2 k
    simp only [Segs.stripLt, Segs.stripDyn, Segs.toks] at hk ih2
    simp at hk
    rcases hk with rfl | hk | rfl | hk <;> first | rfl | exact ih ‹_› | exact ih2 ‹_›
theorem noLtA : ∀ t : Args, t.plain → ∀ k ∈ t.stripLt.stripDyn.toks, k.noLt
  | .none, _, k, hk => by simp [Args.stripLt, Args.stripDyn, Args.toks] at hk
  | .angle g, h, k, hk => by
    have ih := noLtG g (by simpa [Args.plain] using h) k
    rw [args_norm] at hk
    split at hk
    · simp [Args.toks] at hk
    · simp [Args.toks] at hk
      rcases hk with rfl | hk | rfl <;> first | rfl | exact ih ‹_›
  | .parens i o, h, k, hk => by
    simp [Args.plain] at h
    have ih := noLtL i h.1 k
    have ih2 := noLtR o h.2 k
    simp [Args.stripLt, Args.stripDyn, Args.toks] at hk
    rcases hk with rfl | hk | rfl | hk <;> first | rfl | exact ih ‹_› | exact ih2 ‹_›
theorem noLtG : ∀ t : GArgs, t.plain → ∀ k ∈ t.stripLt.stripDyn.toks, k.noLt
  | .nil, _, k, hk => by simp [GArgs.stripLt, GArgs.stripDyn, GArgs.toks] at hk
  | .ty a r, h, k, hk => by
    simp [GArgs.plain] at h
    have ih := noLt a h.1 k
    have ih2 := noLtG r h.2 k
    simp [GArgs.stripLt, GArgs.stripDyn, GArgs.toks] at hk
    rcases hk with hk | rfl | hk <;> first | rfl | exact ih ‹_› | exact ih2 ‹_›
  | .lt _ r, h, k, hk => by
    simp [GArgs.plain] at h
    exact noLtG r h k (by simpa [GArgs.stripLt] using hk)
  | .assoc i a r, h, k, hk => by
    simp [GArgs.plain] at h
    have ih := noLt a h.1 k
    have ih2 := noLtG r h.2 k
    simp [GArgs.stripLt, GArgs.stripDyn, GArgs.toks] at hk
    rcases hk with rfl | rfl | hk | rfl | hk <;> first | rfl | exact ih ‹_› | exact ih2 ‹_›
  | .const c r, h, k, hk => by
    simp [GArgs.plain] at h
    have ih2 := noLtG r h k
    simp [GArgs.stripLt, GArgs.stripDyn, GArgs.toks] at hk
    rcases hk with rfl | rfl | hk <;> first | rfl | exact ih2 ‹_›
theorem noLtR : ∀ t : Ret, t.plain → ∀ k ∈ t.stripLt.stripDyn.toks, k.noLt
  | .default, _, k, hk => by simp [Ret.stripLt, Ret.stripDyn, Ret.toks] at hk
  | .ty t, h, k, hk => by
    simp [Ret.plain] at h
    have ih := noLt t h k
    simp [Ret.stripLt, Ret.stripDyn, Ret.toks] at hk
    rcases hk with rfl | hk <;> first | rfl | exact ih ‹_›
end

/-- The normalised name of a type without trait bounds contains no lifetime at all. -/
theorem C18_no_lifetimes {t : Ty} (h : t.plain) (l : Text) : Tok.lifetime l ∉ t.normName :=
  fun hk => by simpa [Tok.noLt] using noLt t h _ hk

/-! ### Limits (findings) -/

/-- A one-segment path type. -/
def Ty.named (s : Text) : Ty := .path none false (.cons s .none .nil)

/-- FINDING. Lifetimes in bounds survive: `dyn Foo + 'a` and `dyn Foo + 'b` (and `dyn Foo`) get different names, so "types that
differ in lifetimes only are identified" fails for trait objects. -/
theorem C18_bound_lifetimes_kept (a b : Text) (h : a ≠ b) (foo : Text) :
    (Ty.traitObj true (.trait false false (.cons foo .none .nil) (.lt a .nil))).normName ≠
    (Ty.traitObj true (.trait false false (.cons foo .none .nil) (.lt b .nil))).normName := by
  simp [Ty.normName, Ty.norm, Ty.stripLt, Ty.stripDyn, Bounds.stripLt, Bounds.stripDyn, Segs.stripLt, Segs.stripDyn,
    Args.stripLt, Args.stripDyn, Ty.toks, Bounds.toks, Segs.toks, Args.toks, h]

/-- FINDING. `dyn Foo` and the path type `Foo` get the same normalised name, for every `Foo`. -/
theorem C18_dyn_collides_with_path (foo : Text) :
    (Ty.traitObj true (.trait false false (.cons foo .none .nil) .nil)).normName = (Ty.named foo).normName := by
  simp [Ty.normName, Ty.norm, Ty.named, Ty.stripLt, Ty.stripDyn, Bounds.stripLt, Bounds.stripDyn, Segs.stripLt, Segs.stripDyn,
    Args.stripLt, Args.stripDyn, Ty.toks, Bounds.toks, Segs.toks, Args.toks, optTok]

/-! ### Non-vacuity -/

/-- `&'a Foo<'a, u8>` -/
def exTy (l : Text) : Ty :=
  .ref (some l) false (.path none false (.cons "Foo".toList (.angle (.lt l (.ty (.named "u8".toList) .nil))) .nil))

example : (exTy ['a']).plain ∧ (exTy ['a']) ≠ (exTy ['b']) ∧ (exTy ['a']).normName = (exTy ['b']).normName ∧
    (exTy ['a']).normName = [.amp, .ident "Foo".toList, .lt, .ident "u8".toList, .comma, .gt] := by decide
/-- `X<'a>` becomes `X`. -/
example : (Ty.path none false (.cons ['X'] (.angle (.lt ['a'] .nil)) .nil)).normName = (Ty.named ['X']).normName := by decide

end Flapi.Ast
