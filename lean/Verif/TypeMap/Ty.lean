import Verif.Base.Text
/-!
# Rust type syntax, lifetime stripping and normalised names (model)

`syn::Type` trees.  Simplifications: attributes and spans are dropped; a qualified-self (`<X as Trait>::Y`) is kept as opaque
text; `for<'a>` binders of trait bounds and parameter names of bare functions are dropped; constant generic
arguments and array lengths are opaque text; `Type::Group` is transparent.
-/
namespace Flapi.Ast
open Flapi

mutual
/-- `syn::Type`. -/
inductive Ty where
  | path (q : Option Text) (lead : Bool) (segs : Segs)
  | ref (lt : Option Text) (mt : Bool) (e : Ty)
  | ptr (mt : Bool) (e : Ty)
  | slice (e : Ty)
  | tuple (es : Tys)
  | implTrait (bs : Bounds)
  | traitObj (dyn : Bool) (bs : Bounds)
  /-- `hdr`: abi, unsafety and variadic marker; `lts`: `for<..>` binder. -/
  | bareFn (hdr : Text) (lts : List Text) (ins : Tys) (out : Ret)
  | array (e : Ty) (len : Text)
  | paren (e : Ty)
  /-- never, infer, macro, verbatim -/
  | other (tok : Text)
deriving DecidableEq
/-- A list of types. -/
inductive Tys where
  | nil
  | cons (h : Ty) (t : Tys)
deriving DecidableEq
/-- `Punctuated<PathSegment, ::>`. -/
inductive Segs where
  | nil
  | cons (id : Text) (a : Args) (rest : Segs)
deriving DecidableEq
/-- `syn::PathArguments`. -/
inductive Args where
  | none
  | angle (gs : GArgs)
  | parens (ins : Tys) (out : Ret)
deriving DecidableEq
/-- A list of `syn::GenericArgument`. -/
inductive GArgs where
  | nil
  | ty (t : Ty) (rest : GArgs)
  | lt (l : Text) (rest : GArgs)
  | assoc (id : Text) (t : Ty) (rest : GArgs)
  | const (tok : Text) (rest : GArgs)
deriving DecidableEq
/-- `syn::ReturnType`. -/
inductive Ret where
  | default
  | ty (t : Ty)
deriving DecidableEq
/-- A list of `syn::TypeParamBound`; `may`: the `?` modifier. -/
inductive Bounds where
  | nil
  | trait (may lead : Bool) (segs : Segs) (rest : Bounds)
  | lt (l : Text) (rest : Bounds)
deriving DecidableEq
end

mutual
/-- `StripLifetime` / `strip_lifetimes`: macroslib/src/typemap/ast.rs:257-295. -/
def Ty.stripLt : Ty → Ty
  | .path q l s => .path q l s.stripLt
  | .ref _ m e => .ref none m e.stripLt
  | .ptr m e => .ptr m e.stripLt
  | .slice e => .slice e.stripLt
  | .tuple es => .tuple es.stripLt
  | .implTrait b => .implTrait b.stripLt
  | .traitObj d b => .traitObj d b.stripLt
  | .bareFn h l i o => .bareFn h l i.stripLt o.stripLt
  | .array e n => .array e.stripLt n
  | .paren e => .paren e.stripLt
  | .other t => .other t
/-- See `Ty.stripLt`. -/
def Tys.stripLt : Tys → Tys
  | .nil => .nil
  | .cons h t => .cons h.stripLt t.stripLt
/-- See `Ty.stripLt`. -/
def Segs.stripLt : Segs → Segs
  | .nil => .nil
  | .cons i a r => .cons i a.stripLt r.stripLt
/-- `visit_path_arguments_mut`: an argument list that becomes empty disappears (macroslib/src/typemap/ast.rs:276-289). -/
def Args.stripLt : Args → Args
  | .none => .none
  | .angle gs =>
    match gs.stripLt with
    | .nil => .none
    | g => .angle g
  | .parens i o => .parens i.stripLt o.stripLt
/-- `visit_angle_bracketed_generic_arguments_mut`: lifetimes are filtered out (macroslib/src/typemap/ast.rs:263-275). -/
def GArgs.stripLt : GArgs → GArgs
  | .nil => .nil
  | .ty t r => .ty t.stripLt r.stripLt
  | .lt _ r => r.stripLt
  | .assoc i t r => .assoc i t.stripLt r.stripLt
  | .const c r => .const c r.stripLt
/-- See `Ty.stripLt`. -/
def Ret.stripLt : Ret → Ret
  | .default => .default
  | .ty t => .ty t.stripLt
/-- Bounds are visited by the default visitor, which keeps lifetime bounds. -/
def Bounds.stripLt : Bounds → Bounds
  | .nil => .nil
  | .trait m l s r => .trait m l s.stripLt r.stripLt
  | .lt l r => .lt l r.stripLt
end

mutual
/-- `StripDynKeyword`: macroslib/src/typemap/ast.rs:306-314. -/
def Ty.stripDyn : Ty → Ty
  | .path q l s => .path q l s.stripDyn
  | .ref l m e => .ref l m e.stripDyn
  | .ptr m e => .ptr m e.stripDyn
  | .slice e => .slice e.stripDyn
  | .tuple es => .tuple es.stripDyn
  | .implTrait b => .implTrait b.stripDyn
  | .traitObj _ b => .traitObj false b.stripDyn
  | .bareFn h l i o => .bareFn h l i.stripDyn o.stripDyn
  | .array e n => .array e.stripDyn n
  | .paren e => .paren e.stripDyn
  | .other t => .other t
/-- See `Ty.stripDyn`. -/
def Tys.stripDyn : Tys → Tys
  | .nil => .nil
  | .cons h t => .cons h.stripDyn t.stripDyn
/-- See `Ty.stripDyn`. -/
def Segs.stripDyn : Segs → Segs
  | .nil => .nil
  | .cons i a r => .cons i a.stripDyn r.stripDyn
/-- See `Ty.stripDyn`. -/
def Args.stripDyn : Args → Args
  | .none => .none
  | .angle gs => .angle gs.stripDyn
  | .parens i o => .parens i.stripDyn o.stripDyn
/-- See `Ty.stripDyn`. -/
def GArgs.stripDyn : GArgs → GArgs
  | .nil => .nil
  | .ty t r => .ty t.stripDyn r.stripDyn
  | .lt l r => .lt l r.stripDyn
  | .assoc i t r => .assoc i t.stripDyn r.stripDyn
  | .const c r => .const c r.stripDyn
/-- See `Ty.stripDyn`. -/
def Ret.stripDyn : Ret → Ret
  | .default => .default
  | .ty t => .ty t.stripDyn
/-- See `Ty.stripDyn`. -/
def Bounds.stripDyn : Bounds → Bounds
  | .nil => .nil
  | .trait m l s r => .trait m l s.stripDyn r.stripDyn
  | .lt l r => .lt l r.stripDyn
end

/-- A token of a printed type. -/
inductive Tok where
  | ident (s : Text)
  | lifetime (s : Text)
  /-- opaque text of: a qualified self, a keyword type, a function header, a constant, an array length -/
  | qself (s : Text) | keyword (s : Text) | header (s : Text) | konst (s : Text) | len (s : Text)
  | colon2 | lt | gt | comma | amp | mut_ | star | const_ | lbrack | rbrack | lparen | rparen | semi | plus | question | dyn_ | impl_
  | fn_ | for_ | arrow | eq
deriving DecidableEq, Repr

/-- `if b { x }`. -/
def optTok (b : Bool) (t : Tok) : List Tok := if b then [t] else []

mutual
/-- `ToTokens for Type`: the token stream printed for a type (`into_token_stream()`, macroslib/src/typemap/ast.rs:318). -/
def Ty.toks : Ty → List Tok
  | .path q l s => (match q with | some t => [.qself t] | none => []) ++ optTok l .colon2 ++ s.toks
  | .ref l m e => .amp :: (match l with | some t => [.lifetime t] | none => []) ++ optTok m .mut_ ++ e.toks
  | .ptr m e => .star :: (if m then .mut_ else .const_) :: e.toks
  | .slice e => .lbrack :: e.toks ++ [.rbrack]
  | .tuple es => .lparen :: es.toks ++ [.rparen]
  | .implTrait b => .impl_ :: b.toks
  | .traitObj d b => optTok d .dyn_ ++ b.toks
  | .bareFn h l i o => .header h :: (if l = [] then [] else .for_ :: .lt :: l.map .lifetime ++ [.gt]) ++
      .fn_ :: .lparen :: i.toks ++ [.rparen] ++ o.toks
  | .array e n => .lbrack :: e.toks ++ [.semi, .len n, .rbrack]
  | .paren e => .lparen :: e.toks ++ [.rparen]
  | .other t => [.keyword t]
/-- Types each followed by a comma (a one-element tuple has one; the separator of longer lists is not observable here). -/
def Tys.toks : Tys → List Tok
  | .nil => []
  | .cons h t => h.toks ++ .comma :: t.toks
/-- Segments joined by `::`. -/
def Segs.toks : Segs → List Tok
  | .nil => []
  | .cons i a .nil => .ident i :: a.toks
  | .cons i a r => .ident i :: a.toks ++ .colon2 :: r.toks
/-- See `Ty.toks`. -/
def Args.toks : Args → List Tok
  | .none => []
  | .angle gs => .lt :: gs.toks ++ [.gt]
  | .parens i o => .lparen :: i.toks ++ [.rparen] ++ o.toks
/-- See `Ty.toks`. -/
def GArgs.toks : GArgs → List Tok
  | .nil => []
  | .ty t r => t.toks ++ .comma :: r.toks
  | .lt l r => .lifetime l :: .comma :: r.toks
  | .assoc i t r => .ident i :: .eq :: t.toks ++ .comma :: r.toks
  | .const c r => .konst c :: .comma :: r.toks
/-- See `Ty.toks`. -/
def Ret.toks : Ret → List Tok
  | .default => []
  | .ty t => .arrow :: t.toks
/-- Bounds joined by `+`. -/
def Bounds.toks : Bounds → List Tok
  | .nil => []
  | .trait m l s .nil => optTok m .question ++ optTok l .colon2 ++ s.toks
  | .trait m l s r => optTok m .question ++ optTok l .colon2 ++ s.toks ++ .plus :: r.toks
  | .lt l .nil => [.lifetime l]
  | .lt l r => .lifetime l :: .plus :: r.toks
end

/-- The tree whose print is the normalised name. -/
def Ty.norm (t : Ty) : Ty := t.stripLt.stripDyn

/-- `normalize_type`: macroslib/src/typemap/ast.rs:297-319 (the thread-local cache is keyed by the whole type, hence
unobservable). -/
def Ty.normName (t : Ty) : List Tok := t.norm.toks

end Flapi.Ast
