import Verif.TypeMap.RuleTokens
import Verif.TypeMap.RuleParseProps
import Verif.Lang.TokenParseProps
/-!
# A `foreign_typemap!` is accepted exactly in its documented form, and read as written (C76)
-/
namespace Flapi.RuleTokens

open Flapi.TokenParse
open Flapi.RuleParse (Line RLine FLine Rule Res addLine addLines)
variable {τ γ κ : Type}

/-! ## Specification: the rule as it is written

The words `kwRType`, `kwFType`, `kwModule`, ... stand for "r_type", "f_type", "module", ... (see the model). -/

/-- What is assumed of `syn`: its parsers read a prefix, an item is not empty, and the names of the macros are ordinary Rust identifiers. -/
structure RLaws (O : Syn τ) (E : Ext γ κ) : Prop where
  ty : ∀ toks t r, O.ty toks = some (t, r) → ∃ pre, toks = pre ++ r
  gen : ∀ toks g r, E.gen toks = some (g, r) → ∃ pre, toks = pre ++ r
  item : ∀ toks x r, E.item toks = some (x, r) → ∃ t pre, toks = t :: (pre ++ r)
  words : ∀ w ∈ ["define_c_type", "foreign_code", "foreigner_code", "generic_alias", "swig_concat_idents", "swig_i_type",
    "swig_f_type"], O.reserved w.toList = false

/-- `$name:` or nothing. -/
def writeVar : Option Text → List Tok
  | none => []
  | some n => [.p '$', .id n, .p ':']

/-- The name is a Rust identifier. -/
def VarOk (O : Syn τ) (v : Option Text) : Prop := ∀ n, v = some n → O.reserved n = false

/-- Code in braces, or nothing. -/
def writeCode : Option (List Tok) → List Tok
  | none => []
  | some ts => [.grp .brace ts]

/-- `=>` or `<=`. -/
def writeArrow (right : Bool) : Tok := .other (if right then fatArrow else leArrow)

/-- The conversion of an `r_type` line: the arrow, the tokens of the type on the right and the code, if any. -/
structure SrcConv where
  right : Bool
  type : List Tok
  code : Option (List Tok)

def writeConv : Option SrcConv → List Tok
  | none => []
  | some c => writeArrow c.right :: (c.type ++ writeCode c.code)

/-- A string literal or nothing. -/
def writeStr : Option Text → List Tok
  | none => []
  | some s => [.str s]

/-- The conversion of an `f_type` line: the arrow, the foreign name and the code, if any. -/
structure SrcFConv where
  right : Bool
  name : Text
  code : Option Text

def writeFConv : Option SrcFConv → List Tok
  | none => []
  | some c => writeArrow c.right :: .str c.name :: writeStr c.code

/-- Comma separated string literals, with a last comma or not. -/
def writeStrs (trailing : Bool) : List Text → List Tok
  | [] => []
  | [s] => .str s :: (if trailing then [.p ','] else [])
  | s :: l => .str s :: .p ',' :: writeStrs trailing l

/-- A parameter of an `f_type` line as written: a `Param` and, for a list of modules, whether a comma ends it. -/
def writeParam : Param × Bool → List Tok
  | (.modules l, tr) => [.p ',', .id kwReqModules, .p '=', .grp .bracket (writeStrs tr l)]
  | (.option s, _) => [.p ',', .id kwOption, .p '=', .str s]
  | (.inputToOutput, _) => [.p ',', .id kwInputToOutput]
  | (.uniquePrefix s, _) => [.p ',', .id kwUniquePrefix, .p '=', .str s]
  | (.temporary n, _) => [.p ',', .p '$', .id n, .p ':', .id kwTemporary]

/-- Its names are Rust identifiers. -/
def ParamOk (O : Syn τ) (p : Param) : Prop := ∀ n, p = .temporary n → O.reserved n = false

def Param.modulesOf : Param → List Text
  | .modules l => l
  | _ => []
def Param.optionOf : Param → Option Text
  | .option s => some s
  | _ => none
def Param.prefixOf : Param → Option Text
  | .uniquePrefix s => some s
  | _ => none
def Param.temporaryOf : Param → Option Text
  | .temporary n => some n
  | _ => none

/-- An item that `define_c_type!` accepts, and what is kept of it: a `#[repr(C)]` struct or union, a `#[no_mangle]` `extern "C"`
function, a `#[no_mangle]` static. -/
inductive CItemOk : SynItem κ → κ → Prop where
  | struct (x : κ) : CItemOk (.struct true x) x
  | union (x : κ) : CItemOk (.union true x) x
  | fn (x : κ) : CItemOk (.fn true (some (some "C".toList)) x) x
  | static (x : κ) : CItemOk (.static true x) x

/-- The items of `define_c_type!` written one after the other, each a non-empty piece of tokens. -/
def writePiece (p : Tok × List Tok) : List Tok := p.1 :: p.2
def CItemsMean (E : Ext γ κ) (ps : List (Tok × List Tok)) (l : List κ) : Prop :=
  BodyMeans writePiece (fun rest p x => ∃ it, E.item (writePiece p ++ rest) = some (it, rest) ∧ CItemOk it x) ps l

/-- A line of a rule as written. -/
inductive SrcLine where
  /-- `($var: r_type) <generics> left => right { code };` -/
  | rType (var : Option Text) (gen : Option (List Tok)) (left : List Tok) (conv : Option SrcConv)
  /-- `($var: f_type, params) "left" => "right" "code";` -/
  | fType (var : Option Text) (params : List (Param × Bool)) (left : Option Text) (conv : Option SrcFConv)
  /-- `define_c_type!(module = "m"; items);` -/
  | define (d : Delim) (m : Text) (items : List Tok)
  /-- `foreign_code!(module = "m"; option = "o"; "code");` -/
  | code (d : Delim) (deprecated : Bool) (m : Text) (option : Option Text) (text : Text)
  /-- `generic_alias!(name = value);` -/
  | alias (d : Delim) (name : Text) (value : List Tok)

/-- `option = "o";` or nothing. -/
def writeOption : Option Text → List Tok
  | none => []
  | some o => [.id kwOption, .p '=', .str o, .p ';']

/-- `name!(..);` -/
def writeMacro (w : Text) (d : Delim) (ts : List Tok) : List Tok := [.id w, .p '!', .grp d ts, .p ';']

/-- The tokens of a line. -/
def SrcLine.write : SrcLine → List Tok
  | .rType var gen left conv =>
    .grp .paren (writeVar var ++ [.id kwRType]) :: (gen.getD [] ++ (left ++ (writeConv conv ++ [.p ';'])))
  | .fType var ps left conv =>
    .grp .paren (writeVar var ++ .id kwFType :: ps.flatMap writeParam) :: (writeStr left ++ (writeFConv conv ++ [.p ';']))
  | .define d m items => writeMacro kwDefineCType d (.id kwModule :: .p '=' :: .str m :: .p ';' :: items)
  | .code d deprecated m o c =>
    writeMacro (if deprecated then kwForeignerCode else kwForeignCode) d
      (.id kwModule :: .p '=' :: .str m :: .p ';' :: (writeOption o ++ [.str c]))
  | .alias d n v => writeMacro kwGenericAlias d (.id n :: .p '=' :: v)

/-- The tokens begin with the character `<`: a lone `<`, or a longer mark such as `<=` or `<<`. -/
def Angle (toks : List Tok) : Prop := (∃ r, toks = .p '<' :: r) ∨ ∃ s r, toks = .other ('<' :: s) :: r

/-- The generic parameters, when `rest` follows them. -/
def GenMeans (E : Ext γ κ) (rest : List Tok) : Option (List Tok) → Option γ → Prop
  | none, g => g = none ∧ ¬ Angle rest
  | some ts, g => ∃ v, g = some v ∧ Angle (ts ++ rest) ∧ E.gen (ts ++ rest) = some (v, rest)

/-- The conversion of an `r_type` line, when `rest` follows it: the type on the right and the text of the code. -/
def ConvMeans (O : Syn τ) (E : Ext γ κ) (rest : List Tok) : Option SrcConv → Option (Bool × τ) → Option Text → Prop
  | none, a, b => a = none ∧ b = none
  | some c, a, b => (∃ t, a = some (c.right, t) ∧
      O.ty (c.type ++ (writeCode c.code ++ rest)) = some (t, writeCode c.code ++ rest)) ∧ b = c.code.map E.text

/-- What a line means when `rest` follows it. -/
def SrcLine.Means (O : Syn τ) (E : Ext γ κ) (rest : List Tok) : SrcLine → TLine τ γ κ → Prop
  | .rType var gen left conv, l => ∃ g t arrow body, l = .rType ⟨var, g, t, arrow, body⟩ ∧ VarOk O var ∧
      GenMeans E (left ++ (writeConv conv ++ .p ';' :: rest)) gen g ∧
      O.ty (left ++ (writeConv conv ++ .p ';' :: rest)) = some (t, writeConv conv ++ .p ';' :: rest) ∧
      ConvMeans O E (.p ';' :: rest) conv arrow body
  | .fType var ps left conv, l => VarOk O var ∧ (∀ p ∈ ps, ParamOk O p.1) ∧
      l = .fType { var := var, option := ((ps.map (·.1)).filterMap Param.optionOf).getLast?,
                   mods := (ps.map (·.1)).flatMap Param.modulesOf,
                   inputToOutput := decide (.inputToOutput ∈ ps.map (·.1)),
                   uniquePrefix := ((ps.map (·.1)).filterMap Param.prefixOf).getLast?,
                   temporaries := (ps.map (·.1)).filterMap Param.temporaryOf,
                   left := left, arrow := conv.map fun c => (c.right, c.name), body := conv.bind (·.code) }
  | .define _ m items, l =>
      (∃ ps xs, items = ps.flatMap writePiece ∧ CItemsMean E ps xs ∧ l = .cItems (m, xs)) ∨
      (¬ ∃ ps xs, items = ps.flatMap writePiece ∧ CItemsMean E ps xs) ∧ l = .genericCItems (m, items)
  | .code _ _ m o c, l => l = .code m o c
  | .alias _ n v, l => O.reserved n = false ∧ l = .alias (n, v)

/-! ## Small readers -/

theorem litStr_iff (toks r : List Tok) (s : Text) : litStr toks = some (s, r) ↔ toks = .str s :: r := by
  unfold litStr
  split
  · simp
  · rename_i h
    constructor
    · intro e; cases e
    · intro e; exact absurd e (h _ _)

theorem setting_iff (w : Text) (toks r : List Tok) (s : Text) : setting w toks = some (s, r) ↔ toks = .id w :: .p '=' :: .str s :: r := by
  simp only [setting, Option.bind_eq_bind, Option.bind_eq_some_iff]
  constructor
  · rintro ⟨r1, h1, r2, h2, h3⟩
    rw [keyword_iff] at h1
    rw [punct_iff] at h2
    rw [litStr_iff] at h3
    subst h1 h2 h3
    rfl
  · rintro rfl
    exact ⟨_, (keyword_iff _ _ _).2 rfl, _, (punct_iff _ _ _).2 rfl, (litStr_iff _ _ _).2 rfl⟩

theorem varPart_inv (O : Syn τ) (toks r : List Tok) (v : Option Text) (h : varPart O toks = some (v, r)) :
    toks = writeVar v ++ r ∧ VarOk O v := by
  unfold varPart at h
  split at h
  · simp only [Option.bind_eq_bind, Option.bind_eq_some_iff, Option.pure_def] at h
    obtain ⟨⟨n, r1⟩, h1, r2, h2, h3⟩ := h
    obtain ⟨e1, hn⟩ := (ident_iff _ _ _ _).1 h1
    have e2 := (punct_iff _ _ _).1 h2
    simp at h3
    obtain ⟨rfl, rfl⟩ := h3
    simp only [] at e2
    subst e1 e2
    exact ⟨rfl, by intro m hm; cases hm; exact hn⟩
  · simp at h
    obtain ⟨rfl, rfl⟩ := h
    exact ⟨rfl, by intro m hm; cases hm⟩

theorem varPart_read (O : Syn τ) (w : Text) (r : List Tok) (v : Option Text) (h : VarOk O v) :
    varPart O (writeVar v ++ .id w :: r) = some (v, .id w :: r) := by
  cases v with
  | none => rfl
  | some n =>
    have h1 : ident O (.id n :: .p ':' :: .id w :: r) = some (n, .p ':' :: .id w :: r) := (ident_iff _ _ _ _).2 ⟨rfl, h n rfl⟩
    have h2 := (punct_iff ':' (.p ':' :: .id w :: r) _).2 rfl
    simp [writeVar, varPart, h1, h2]

theorem startsLt_iff (toks : List Tok) : startsLt toks = true ↔ Angle toks := by
  unfold startsLt Angle
  split
  · simp
  · simp
  · rename_i h1 h2
    simp only [Bool.false_eq_true, false_iff, not_or, not_exists]
    exact ⟨h1, h2⟩

theorem genPart_iff (O : Syn τ) (E : Ext γ κ) (L : RLaws O E) (toks r : List Tok) (g : Option γ) :
    genPart E toks = some (g, r) ↔ ∃ gs : Option (List Tok), GenMeans E r gs g ∧ toks = gs.getD [] ++ r := by
  unfold genPart
  constructor
  · intro h
    split at h
    · rename_i hl
      cases he : E.gen toks with
      | none => rw [he] at h; simp at h
      | some x =>
        rw [he] at h
        simp at h
        obtain ⟨rfl, rfl⟩ := h
        obtain ⟨pre, rfl⟩ := L.gen _ x.1 x.2 he
        exact ⟨some pre, ⟨_, rfl, (startsLt_iff _).1 hl, he⟩, rfl⟩
    · rename_i hl
      simp at h
      obtain ⟨rfl, rfl⟩ := h
      exact ⟨none, ⟨rfl, fun h => hl ((startsLt_iff _).2 h)⟩, rfl⟩
  · rintro ⟨gs, h, rfl⟩
    cases gs with
    | none => obtain ⟨rfl, h⟩ := h; simp [startsLt_iff, h]
    | some ts => obtain ⟨v, rfl, h1, h2⟩ := h; simp [startsLt_iff, h1, h2]

theorem bodyPart_end (E : Ext γ κ) (b : Bool) (r : List Tok) : bodyPart E b (.p ';' :: r) = (none, .p ';' :: r) := rfl

theorem arrow_ne : fatArrow ≠ leArrow := by decide

/-- What stands before a semicolon, read as conversion and code. -/
theorem conv_iff (O : Syn τ) (E : Ext γ κ) (L : RLaws O E) (toks r : List Tok) (a : Option (Bool × τ)) (b : Option Text) :
    (∃ q, arrowPart O.ty toks = some (a, q) ∧ bodyPart E a.isSome q = (b, .p ';' :: r)) ↔
      ∃ c : Option SrcConv, ConvMeans O E (.p ';' :: r) c a b ∧ toks = writeConv c ++ .p ';' :: r := by
  have hb : ∀ (q : List Tok), bodyPart E true q = (b, .p ';' :: r) → ∃ c : Option (List Tok), q = writeCode c ++ .p ';' :: r ∧ b = c.map E.text := by
    intro q hq
    unfold bodyPart at hq
    split at hq
    · rename_i ts q
      simp at hq
      obtain ⟨rfl, rfl⟩ := hq
      exact ⟨some ts, rfl, rfl⟩
    · simp at hq
      obtain ⟨rfl, rfl⟩ := hq
      exact ⟨none, rfl, rfl⟩
  have hb' : ∀ c : Option (List Tok), bodyPart E true (writeCode c ++ .p ';' :: r) = (c.map E.text, .p ';' :: r) := by
    intro c; cases c <;> rfl
  have go : ∀ (d : Bool) (q1 : List Tok) (x : τ) (q : List Tok), O.ty q1 = some (x, q) →
      bodyPart E true q = (b, .p ';' :: r) → a = some (d, x) →
      ∃ c : Option SrcConv, ConvMeans O E (.p ';' :: r) c a b ∧ writeArrow d :: q1 = writeConv c ++ .p ';' :: r := by
    intro d q1 x q h1 h2 h3
    obtain ⟨c, rfl, rfl⟩ := hb q h2
    obtain ⟨pre, rfl⟩ := L.ty _ _ _ h1
    exact ⟨some ⟨d, pre, c⟩, ⟨⟨x, h3, h1⟩, rfl⟩, by simp [writeConv]⟩
  constructor
  · rintro ⟨q, h1, h2⟩
    unfold arrowPart at h1
    split at h1
    · rename_i s q1
      split at h1
      · rename_i hs
        subst hs
        cases ht : O.ty q1 with
        | none => rw [ht] at h1; simp at h1
        | some x =>
          rw [ht] at h1
          simp at h1
          obtain ⟨rfl, rfl⟩ := h1
          exact go true _ _ _ ht h2 rfl
      · split at h1
        · rename_i hs
          subst hs
          cases ht : O.ty q1 with
          | none => rw [ht] at h1; simp at h1
          | some x =>
            rw [ht] at h1
            simp at h1
            obtain ⟨rfl, rfl⟩ := h1
            exact go false _ _ _ ht h2 rfl
        · simp at h1
          obtain ⟨rfl, rfl⟩ := h1
          simp [bodyPart] at h2
    · simp at h1
      obtain ⟨rfl, rfl⟩ := h1
      have : toks = .p ';' :: r ∧ b = none := by
        unfold bodyPart at h2
        split at h2 <;> simp at h2 <;> simp [h2]
      obtain ⟨rfl, rfl⟩ := this
      exact ⟨none, ⟨rfl, rfl⟩, rfl⟩
  · rintro ⟨c, h, rfl⟩
    cases c with
    | none =>
      obtain ⟨rfl, rfl⟩ := h
      exact ⟨.p ';' :: r, rfl, rfl⟩
    | some c =>
      obtain ⟨⟨t, rfl, h1⟩, rfl⟩ := h
      refine ⟨writeCode c.code ++ .p ';' :: r, ?_, hb' _⟩
      have e : writeConv (some c) ++ .p ';' :: r = writeArrow c.right :: (c.type ++ (writeCode c.code ++ .p ';' :: r)) := by
        simp [writeConv]
      rw [e]
      cases hd : c.right with
      | true => simp [writeArrow, arrowPart, h1]
      | false => simp [writeArrow, arrowPart, h1, arrow_ne.symm]

theorem rLine_iff (O : Syn τ) (E : Ext γ κ) (L : RLaws O E) (var : Option Text) (toks r : List Tok) (l : RLine τ γ) :
    rLine O E var toks = some (l, .p ';' :: r) ↔ ∃ gen left conv g t arrow body, l = ⟨var, g, t, arrow, body⟩ ∧
      GenMeans E (left ++ (writeConv conv ++ .p ';' :: r)) gen g ∧
      O.ty (left ++ (writeConv conv ++ .p ';' :: r)) = some (t, writeConv conv ++ .p ';' :: r) ∧
      ConvMeans O E (.p ';' :: r) conv arrow body ∧
      toks = gen.getD [] ++ (left ++ (writeConv conv ++ .p ';' :: r)) := by
  constructor
  · intro h
    simp only [rLine, Option.bind_eq_bind, Option.bind_eq_some_iff, Option.pure_def] at h
    obtain ⟨⟨g, r1⟩, h1, ⟨t, r2⟩, h2, ⟨arrow, r3⟩, h3, h4⟩ := h
    simp at h4
    obtain ⟨rfl, h4⟩ := h4
    obtain ⟨conv, hc, rfl⟩ := (conv_iff O E L r2 r arrow _).1 ⟨r3, h3, Prod.ext rfl h4⟩
    obtain ⟨left, rfl⟩ := L.ty _ _ _ h2
    obtain ⟨gen, hg, rfl⟩ := (genPart_iff O E L _ _ _).1 h1
    exact ⟨gen, left, conv, g, t, arrow, _, rfl, hg, h2, hc, rfl⟩
  · rintro ⟨gen, left, conv, g, t, arrow, body, rfl, hg, h2, hc, rfl⟩
    have h1 := (genPart_iff O E L _ _ _).2 ⟨gen, hg, rfl⟩
    obtain ⟨q, h3, h4⟩ := (conv_iff O E L _ _ _ _).2 ⟨conv, hc, rfl⟩
    simp only [rLine, h1, Option.bind_eq_bind, Option.bind_some, h2, h3, h4, Option.pure_def]

/-! ## `f_type` -/

theorem strs_inv (toks : List Tok) (l : List Text) (h : strs toks = some l) : ∃ tr, toks = writeStrs tr l := by
  induction toks using strs.induct generalizing l with
  | case1 => simp [strs] at h; subst h; exact ⟨false, rfl⟩
  | case2 s => simp [strs] at h; subst h; exact ⟨false, rfl⟩
  | case3 s r ih =>
    rw [strs] at h
    cases hr : strs r with
    | none => rw [hr] at h; simp at h
    | some l' =>
      rw [hr] at h
      simp at h
      subst h
      obtain ⟨tr, rfl⟩ := ih l' hr
      cases l' with
      | nil => exact ⟨true, rfl⟩
      | cons a l' => exact ⟨tr, rfl⟩
  | case4 t h1 h2 h3 =>
    unfold strs at h
    split at h
    · exact absurd rfl h1
    · exact absurd rfl (h2 _)
    · exact absurd rfl (h3 _ _)
    · cases h

theorem strs_read (tr : Bool) (l : List Text) : strs (writeStrs tr l) = some l := by
  induction l with
  | nil => rfl
  | cons s l ih =>
    cases l with
    | nil => cases tr <;> rfl
    | cons a l =>
      have : writeStrs tr (s :: a :: l) = .str s :: .p ',' :: writeStrs tr (a :: l) := rfl
      rw [this, strs, ih]; rfl

theorem param_inv (O : Syn τ) (toks r : List Tok) (x : Param) (h : param O toks = some (x, r)) :
    ParamOk O x ∧ ∃ tr, .p ',' :: toks = writeParam (x, tr) ++ r := by
  unfold param at h
  split at h
  · rename_i w q
    split at h
    · rename_i hw
      subst hw
      simp only [Option.bind_eq_bind, Option.bind_eq_some_iff, Option.pure_def] at h
      obtain ⟨r1, h1, ⟨ins, r2⟩, h2, l, h3, h4⟩ := h
      simp at h4
      obtain ⟨rfl, rfl⟩ := h4
      have e1 := (punct_iff _ _ _).1 h1
      have e2 := (group_iff _ _ _ _).1 h2
      obtain ⟨tr, e3⟩ := strs_inv _ _ h3
      simp only [] at e3
      subst e1 e2 e3
      exact ⟨(by intro n hn; cases hn), tr, rfl⟩
    · split at h
      · rename_i hw
        subst hw
        simp only [Option.bind_eq_bind, Option.bind_eq_some_iff, Option.pure_def] at h
        obtain ⟨r1, h1, ⟨s, r2⟩, h2, h4⟩ := h
        simp at h4
        obtain ⟨rfl, rfl⟩ := h4
        have e1 := (punct_iff _ _ _).1 h1
        have e2 := (litStr_iff _ _ _).1 h2
        subst e1 e2
        exact ⟨(by intro n hn; cases hn), false, rfl⟩
      · split at h
        · rename_i hw
          subst hw
          simp at h
          obtain ⟨rfl, rfl⟩ := h
          exact ⟨(by intro n hn; cases hn), false, rfl⟩
        · split at h
          · rename_i hw
            subst hw
            simp only [Option.bind_eq_bind, Option.bind_eq_some_iff, Option.pure_def] at h
            obtain ⟨r1, h1, ⟨s, r2⟩, h2, h4⟩ := h
            simp at h4
            obtain ⟨rfl, rfl⟩ := h4
            have e1 := (punct_iff _ _ _).1 h1
            have e2 := (litStr_iff _ _ _).1 h2
            subst e1 e2
            exact ⟨(by intro n hn; cases hn), false, rfl⟩
          · cases h
  · simp only [Option.bind_eq_bind, Option.bind_eq_some_iff, Option.pure_def] at h
    obtain ⟨⟨n, r1⟩, h1, r2, h2, r3, h3, h4⟩ := h
    simp at h4
    obtain ⟨rfl, rfl⟩ := h4
    obtain ⟨e1, hn⟩ := (ident_iff _ _ _ _).1 h1
    have e2 := (punct_iff _ _ _).1 h2
    have e3 := (keyword_iff _ _ _).1 h3
    simp only [] at e2
    subst e1 e2 e3
    exact ⟨(by intro m hm; cases hm; exact hn), false, rfl⟩
  · cases h

theorem param_read (O : Syn τ) (r : List Tok) (x : Param) (tr : Bool) (h : ParamOk O x) :
    param O ((writeParam (x, tr)).tail ++ r) = some (x, r) := by
  cases x with
  | modules l =>
    have e : (writeParam (.modules l, tr)).tail ++ r = .id kwReqModules :: .p '=' :: .grp .bracket (writeStrs tr l) :: r := rfl
    rw [e]
    simp [param, punct, group, strs_read]
  | option s =>
    have e : (writeParam (.option s, tr)).tail ++ r = .id kwOption :: .p '=' :: .str s :: r := rfl
    have n1 : kwOption ≠ kwReqModules := by decide
    rw [e]
    simp [param, punct, litStr, n1]
  | inputToOutput =>
    have e : (writeParam (.inputToOutput, tr)).tail ++ r = .id kwInputToOutput :: r := rfl
    have n1 : kwInputToOutput ≠ kwReqModules := by decide
    have n2 : kwInputToOutput ≠ kwOption := by decide
    rw [e]
    simp [param, n1, n2]
  | uniquePrefix s =>
    have e : (writeParam (.uniquePrefix s, tr)).tail ++ r = .id kwUniquePrefix :: .p '=' :: .str s :: r := rfl
    have n1 : kwUniquePrefix ≠ kwReqModules := by decide
    have n2 : kwUniquePrefix ≠ kwOption := by decide
    have n3 : kwUniquePrefix ≠ kwInputToOutput := by decide
    rw [e]
    simp [param, punct, litStr, n1, n2, n3]
  | temporary n =>
    have e : (writeParam (.temporary n, tr)).tail ++ r = .p '$' :: .id n :: .p ':' :: .id kwTemporary :: r := rfl
    have h1 := (ident_iff O (.id n :: .p ':' :: .id kwTemporary :: r) _ _).2 ⟨rfl, h n rfl⟩
    rw [e]
    simp [param, h1, punct, keyword]

theorem params_inv (O : Syn τ) (n : Nat) (toks r : List Tok) (xs : List Param) (h : params O n toks = some (xs, r)) :
    ∃ ps : List (Param × Bool), ps.map (·.1) = xs ∧ (∀ p ∈ ps, ParamOk O p.1) ∧ toks = ps.flatMap writeParam ++ r := by
  induction n generalizing toks xs r with
  | zero => simp [params] at h; obtain ⟨rfl, rfl⟩ := h; exact ⟨[], rfl, by simp, rfl⟩
  | succ n ih =>
    unfold params at h
    split at h
    · exact absurd ‹_ = Nat.zero› (by simp)
    · rename_i q hh
      cases hh
      simp only [Option.bind_eq_bind, Option.bind_eq_some_iff, Option.pure_def] at h
      obtain ⟨⟨x, r1⟩, h1, ⟨ys, r2⟩, h2, h3⟩ := h
      simp at h3
      obtain ⟨rfl, rfl⟩ := h3
      obtain ⟨hx, tr, e⟩ := param_inv O _ _ _ h1
      obtain ⟨ps, rfl, hp, rfl⟩ := ih _ _ _ h2
      refine ⟨(x, tr) :: ps, rfl, ?_, ?_⟩
      · intro p hp'
        rcases List.mem_cons.1 hp' with rfl | hp'
        · exact hx
        · exact hp p hp'
      · rw [e]; simp
    · simp at h; obtain ⟨rfl, rfl⟩ := h; exact ⟨[], rfl, by simp, rfl⟩

theorem params_read (O : Syn τ) (ps : List (Param × Bool)) (h : ∀ p ∈ ps, ParamOk O p.1) (n : Nat)
    (hn : (ps.flatMap writeParam).length ≤ n) : params O n (ps.flatMap writeParam) = some (ps.map (·.1), []) := by
  induction ps generalizing n with
  | nil => cases n <;> rfl
  | cons p ps ih =>
    have e : (p :: ps).flatMap writeParam = .p ',' :: ((writeParam (p.1, p.2)).tail ++ ps.flatMap writeParam) := by
      obtain ⟨x, tr⟩ := p
      cases x <;> simp [writeParam]
    rw [e] at hn ⊢
    cases n with
    | zero => simp at hn
    | succ n =>
      have h1 := param_read O (ps.flatMap writeParam) p.1 p.2 (h p (by simp))
      have h2 := ih (fun q hq => h q (by simp [hq])) n (by rw [List.length_cons, List.length_append] at hn; omega)
      simp [params, h1, h2]

theorem fold_params (ps : List Param) (l : FLine) : ps.foldl addParam l =
    { l with option := (ps.filterMap Param.optionOf).getLast?.or l.option, mods := l.mods ++ ps.flatMap Param.modulesOf,
             inputToOutput := l.inputToOutput || decide (.inputToOutput ∈ ps),
             uniquePrefix := (ps.filterMap Param.prefixOf).getLast?.or l.uniquePrefix,
             temporaries := l.temporaries ++ ps.filterMap Param.temporaryOf } := by
  induction ps generalizing l with
  | nil => simp
  | cons p ps ih =>
    rw [List.foldl_cons, ih]
    have key : ∀ (s : Text) (l : List Text), ((s :: l).getLast?) = l.getLast?.or (some s) := by
      intro s l; cases l <;> simp [List.getLast?_cons]
    cases p <;> simp [addParam, Param.optionOf, Param.modulesOf, Param.prefixOf, Param.temporaryOf, key, Option.or_assoc, List.filterMap_cons]

theorem optStr_write (s : Option Text) (r : List Tok) (hr : ∀ x q, r ≠ .str x :: q) : optStr (writeStr s ++ r) = (s, r) := by
  cases s with
  | some s => rfl
  | none =>
    simp only [writeStr, List.nil_append]
    unfold optStr
    split
    · exact absurd rfl (hr _ _)
    · rfl

theorem optStr_inv (toks : List Tok) : toks = writeStr (optStr toks).1 ++ (optStr toks).2 := by
  unfold optStr; split <;> rfl

theorem fconv_iff (toks r : List Tok) (a : Option (Bool × Text)) (b : Option Text) :
    (∃ q, arrowPart litStr toks = some (a, q) ∧ (if a.isSome then optStr q else (none, q)) = (b, .p ';' :: r)) ↔
      ∃ c : Option SrcFConv, a = c.map (fun c => (c.right, c.name)) ∧ b = c.bind (·.code) ∧ toks = writeFConv c ++ .p ';' :: r := by
  have go : ∀ (d : Bool) (q1 q : List Tok) (x : Text), litStr q1 = some (x, q) → optStr q = (b, .p ';' :: r) → a = some (d, x) →
      ∃ c : Option SrcFConv, a = c.map (fun c => (c.right, c.name)) ∧ b = c.bind (·.code) ∧
        writeArrow d :: q1 = writeFConv c ++ .p ';' :: r := by
    intro d q1 q x h1 h2 h3
    have e1 := (litStr_iff _ _ _).1 h1
    have e2 := optStr_inv q
    rw [h2] at e2
    simp only [] at e2
    subst e1 e2
    exact ⟨some ⟨d, x, b⟩, h3, rfl, by simp [writeFConv]⟩
  constructor
  · rintro ⟨q, h1, h2⟩
    unfold arrowPart at h1
    split at h1
    · rename_i s q1
      split at h1
      · rename_i hs
        subst hs
        cases ht : litStr q1 with
        | none => rw [ht] at h1; simp at h1
        | some x =>
          rw [ht] at h1
          simp at h1
          obtain ⟨rfl, rfl⟩ := h1
          exact go true _ _ _ ht h2 rfl
      · split at h1
        · rename_i hs
          subst hs
          cases ht : litStr q1 with
          | none => rw [ht] at h1; simp at h1
          | some x =>
            rw [ht] at h1
            simp at h1
            obtain ⟨rfl, rfl⟩ := h1
            exact go false _ _ _ ht h2 rfl
        · simp at h1
          obtain ⟨rfl, rfl⟩ := h1
          simp at h2
    · simp at h1
      obtain ⟨rfl, rfl⟩ := h1
      simp at h2
      obtain ⟨rfl, rfl⟩ := h2
      exact ⟨none, rfl, rfl, rfl⟩
  · rintro ⟨c, rfl, rfl, rfl⟩
    cases c with
    | none => exact ⟨.p ';' :: r, rfl, rfl⟩
    | some c =>
      refine ⟨writeStr c.code ++ .p ';' :: r, ?_, ?_⟩
      · have e : writeFConv (some c) ++ .p ';' :: r = writeArrow c.right :: .str c.name :: (writeStr c.code ++ .p ';' :: r) := by
          simp [writeFConv]
        rw [e]
        cases hd : c.right with
        | true => simp [writeArrow, arrowPart, litStr, hd]
        | false => simp [writeArrow, arrowPart, litStr, hd, arrow_ne.symm]
      · have := optStr_write c.code (.p ';' :: r) (by intro x q h; cases h)
        simpa using this

theorem fLine_iff (var : Option Text) (ps : List Param) (toks r : List Tok) (l : FLine) :
    fLine var ps toks = some (l, .p ';' :: r) ↔ ∃ (left : Option Text) (c : Option SrcFConv),
      toks = writeStr left ++ (writeFConv c ++ .p ';' :: r) ∧
      l = ps.foldl addParam ⟨var, none, [], false, none, [], left, c.map (fun c => (c.right, c.name)), c.bind (·.code)⟩ := by
  constructor
  · intro h
    simp only [fLine, Option.bind_eq_bind, Option.bind_eq_some_iff, Option.pure_def] at h
    obtain ⟨⟨a, q⟩, h1, h2⟩ := h
    simp at h2
    obtain ⟨rfl, h2⟩ := h2
    obtain ⟨c, rfl, hb, e⟩ := (fconv_iff _ r a _).1 ⟨q, h1, Prod.ext rfl h2⟩
    refine ⟨(optStr toks).1, c, ?_, ?_⟩
    · rw [← e]; exact optStr_inv toks
    · exact congrArg (fun b => ps.foldl addParam ⟨var, none, [], false, none, [], (optStr toks).1,
        c.map (fun c => (c.right, c.name)), b⟩) hb
  · rintro ⟨left, c, rfl, rfl⟩
    obtain ⟨q, h1, h2⟩ := (fconv_iff _ r _ _).2 ⟨c, rfl, rfl, rfl⟩
    have h0 : optStr (writeStr left ++ (writeFConv c ++ .p ';' :: r)) = (left, writeFConv c ++ .p ';' :: r) := by
      refine optStr_write _ _ ?_
      intro x q h
      cases c <;> simp [writeFConv, writeArrow] at h
    simp only [fLine, h0, h1, Option.bind_eq_bind, Option.bind_some, h2, Option.pure_def]

/-! ## Macros -/

theorem macroCall_iff (O : Syn τ) (toks r ts : List Tok) (p : Path) :
    macroCall O toks = some (p, ts, r) ↔ PathOk O p ∧ ∃ d, toks = writePath p ++ .p '!' :: .grp d ts :: r := by
  constructor
  · intro h
    simp only [macroCall, Option.bind_eq_bind, Option.bind_eq_some_iff] at h
    obtain ⟨⟨p', r1⟩, h1, r2, h2, h3⟩ := h
    split at h3
    · simp at h3
      obtain ⟨rfl, rfl, rfl⟩ := h3
      have e2 := (punct_iff _ _ _).1 h2
      obtain ⟨hp, e1, _⟩ := (path_iff O _ _ _).1 h1
      simp only [] at e2
      subst e1 e2
      exact ⟨hp, _, rfl⟩
    · cases h3
  · rintro ⟨hp, d, rfl⟩
    have h1 := (path_iff O (writePath p ++ .p '!' :: .grp d ts :: r) p (.p '!' :: .grp d ts :: r)).2 ⟨hp, rfl, trivial⟩
    simp [macroCall, h1, punct]

theorem isIdent_iff (p : Path) (w : Text) : isIdent p w = true ↔ p = ⟨false, [w]⟩ := by
  obtain ⟨l, s⟩ := p
  cases l <;> simp [isIdent]

theorem citem_iff (it : SynItem κ) (x : κ) : citem it = some x ↔ CItemOk it x := by
  constructor
  · intro h
    cases it with
    | struct b y => cases b <;> simp [citem] at h; subst h; exact .struct _
    | union b y => cases b <;> simp [citem] at h; subst h; exact .union _
    | fn b a y =>
      cases b
      · simp [citem] at h
      · simp only [citem, if_true] at h
        split at h
        · rename_i ha
          subst ha
          cases h
          exact .fn _
        · cases h
    | static b y => cases b <;> simp [citem] at h; subst h; exact .static _
    | other => simp [citem] at h
  · intro h
    cases h with
    | fn => simp [citem, abiC]
    | _ => simp [citem]

theorem citems_iff (O : Syn τ) (E : Ext γ κ) (L : RLaws O E) (toks : List Tok) (l : List κ) :
    many (citemRound E) toks.length toks = some l ↔ ∃ ps, CItemsMean E ps l ∧ toks = ps.flatMap writePiece := by
  refine many_body _ _ _ ?_ (by intro s; simp [writePiece]) _ _
  intro toks r x
  constructor
  · intro h
    simp only [citemRound, Option.bind_eq_some_iff, Option.map_eq_some_iff] at h
    obtain ⟨⟨it, r1⟩, h1, y, h2, h3⟩ := h
    cases h3
    obtain ⟨t, pre, rfl⟩ := L.item _ _ _ h1
    exact ⟨(t, pre), ⟨it, h1, (citem_iff _ _).1 h2⟩, rfl⟩
  · rintro ⟨p, ⟨it, h1, h2⟩, rfl⟩
    simp [citemRound, h1, (citem_iff _ _).2 h2]

theorem moduleHead (toks r : List Tok) (m : Text) :
    (∃ q, setting kwModule toks = some (m, q) ∧ punct ';' q = some r) ↔ toks = .id kwModule :: .p '=' :: .str m :: .p ';' :: r := by
  constructor
  · rintro ⟨q, h1, h2⟩
    have e1 := (setting_iff _ _ _ _).1 h1
    have e2 := (punct_iff _ _ _).1 h2
    subst e1 e2; rfl
  · rintro rfl
    exact ⟨_, (setting_iff _ _ _ _).2 rfl, (punct_iff _ _ _).2 rfl⟩

theorem cItems_iff (O : Syn τ) (E : Ext γ κ) (L : RLaws O E) (ts : List Tok) (m : Text) (l : List κ) :
    cItems E ts = some (m, l) ↔ ∃ ps, CItemsMean E ps l ∧ ts = .id kwModule :: .p '=' :: .str m :: .p ';' :: ps.flatMap writePiece := by
  constructor
  · intro h
    simp only [cItems, Option.bind_eq_bind, Option.bind_eq_some_iff, Option.pure_def] at h
    obtain ⟨⟨m', r1⟩, h1, r2, h2, l', h3, h4⟩ := h
    cases h4
    obtain ⟨ps, hp, rfl⟩ := (citems_iff O E L _ _).1 h3
    exact ⟨ps, hp, (moduleHead _ _ _).1 ⟨r1, h1, h2⟩⟩
  · rintro ⟨ps, hp, rfl⟩
    obtain ⟨q, h1, h2⟩ := (moduleHead _ (ps.flatMap writePiece) m).2 rfl
    have h3 := (citems_iff O E L _ _).2 ⟨ps, hp, rfl⟩
    simp only [cItems, h1, h2, h3, Option.bind_eq_bind, Option.bind_some, Option.pure_def]

theorem genericCItems_iff (ts r : List Tok) (m : Text) :
    genericCItems ts = some (m, r) ↔ ts = .id kwModule :: .p '=' :: .str m :: .p ';' :: r := by
  constructor
  · intro h
    simp only [genericCItems, Option.bind_eq_bind, Option.bind_eq_some_iff, Option.pure_def] at h
    obtain ⟨⟨m', r1⟩, h1, r2, h2, h3⟩ := h
    cases h3
    exact (moduleHead _ _ _).1 ⟨r1, h1, h2⟩
  · intro e
    obtain ⟨q, h1, h2⟩ := (moduleHead _ r m).2 e
    simp only [genericCItems, h1, h2, Option.bind_eq_bind, Option.bind_some, Option.pure_def]

theorem codeOption_inv (toks r : List Tok) (o : Option Text) (h : codeOption toks = some (o, r)) : toks = writeOption o ++ r := by
  unfold codeOption at h
  split at h
  · split at h
    · rename_i hw
      subst hw
      simp only [Option.bind_eq_bind, Option.bind_eq_some_iff, Option.pure_def] at h
      obtain ⟨⟨s, r1⟩, h1, r2, h2, h3⟩ := h
      cases h3
      have e1 := (setting_iff _ _ _ _).1 h1
      have e2 := (punct_iff _ _ _).1 h2
      simp only [] at e1 e2
      rw [e1, e2]; rfl
    · cases h; rfl
  · cases h; rfl

theorem codeOption_read (o : Option Text) (c : Text) (r : List Tok) : codeOption (writeOption o ++ .str c :: r) = some (o, .str c :: r) := by
  cases o with
  | none => rfl
  | some o => simp [writeOption, codeOption, setting, keyword, punct, litStr]

theorem foreignCode_iff (ts : List Tok) (m : Text) (o : Option Text) (c : Text) :
    foreignCode ts = some (m, o, c) ↔ ts = .id kwModule :: .p '=' :: .str m :: .p ';' :: (writeOption o ++ [.str c]) := by
  constructor
  · intro h
    simp only [foreignCode, Option.bind_eq_bind, Option.bind_eq_some_iff] at h
    obtain ⟨⟨m', r1⟩, h1, r2, h2, ⟨o', r3⟩, h3, ⟨c', r4⟩, h4, h5⟩ := h
    split at h5
    · rename_i he
      simp only [] at he
      cases h5
      have e3 := codeOption_inv _ _ _ h3
      have e4 := (litStr_iff _ _ _).1 h4
      simp only [] at e4
      rw [(moduleHead _ _ _).1 ⟨r1, h1, h2⟩, e3, e4, he]
    · cases h5
  · intro e
    obtain ⟨q, h1, h2⟩ := (moduleHead _ _ m).2 e
    simp only [foreignCode, h1, h2, Option.bind_eq_bind, Option.bind_some, codeOption_read, litStr]
    rfl

theorem genericAlias_iff (O : Syn τ) (ts r : List Tok) (n : Text) :
    genericAlias O ts = some (n, r) ↔ ts = .id n :: .p '=' :: r ∧ O.reserved n = false := by
  constructor
  · intro h
    simp only [genericAlias, Option.bind_eq_bind, Option.bind_eq_some_iff, Option.pure_def] at h
    obtain ⟨⟨m', r1⟩, h1, r2, h2, h3⟩ := h
    cases h3
    obtain ⟨e1, hn⟩ := (ident_iff _ _ _ _).1 h1
    have e2 := (punct_iff _ _ _).1 h2
    simp only [] at e2
    rw [e1, e2]
    exact ⟨rfl, hn⟩
  · rintro ⟨rfl, h⟩
    have h1 := (ident_iff O (.id n :: .p '=' :: r) _ _).2 ⟨rfl, h⟩
    simp [genericAlias, h1, punct]

/-! ## Lines -/

/-- A line with its semicolon and nothing left over in parentheses; a macro must be a known one. -/
def lineSemi (O : Syn τ) (E : Ext γ κ) (toks : List Tok) : Option (TLine τ γ κ × List Tok) :=
  match line O E toks with
  | some (.unknownMacro, _, _) => none
  | some (l, [], r) => (punct ';' r).map fun q => (l, q)
  | _ => none

theorem lineSemi_inv' (O : Syn τ) (E : Ext γ κ) (toks r : List Tok) (l : TLine τ γ κ) :
    lineSemi O E toks = some (l, r) ↔ line O E toks = some (l, [], .p ';' :: r) ∧ l ≠ .unknownMacro := by
  unfold lineSemi
  constructor
  · intro h
    split at h
    · cases h
    · rename_i l' q hu he
      simp only [Option.map_eq_some_iff] at h
      obtain ⟨q', h1, h2⟩ := h
      cases h2
      have := (punct_iff _ _ _).1 h1
      subst this
      refine ⟨he, ?_⟩
      rintro rfl
      first | exact hu _ _ he | exact hu rfl | exact hu
    · cases h
  · rintro ⟨h, hu⟩
    rw [h]
    cases l <;> first | exact absurd rfl hu | rfl

theorem word_ne : kwRType ≠ kwFType ∧ kwForeignCode ≠ kwDefineCType ∧ kwForeignerCode ≠ kwDefineCType ∧
    kwGenericAlias ≠ kwDefineCType ∧ kwGenericAlias ≠ kwForeignCode ∧ kwGenericAlias ≠ kwForeignerCode := by decide

theorem ruleLine_iff (O : Syn τ) (E : Ext γ κ) (L : RLaws O E) (var : Option Text) (inside toks r : List Tok) (l : TLine τ γ κ)
    (hv : VarOk O var) :
    ruleLine O E var inside toks = some (l, [], .p ';' :: r) ↔
      ∃ s : SrcLine, s.Means O E r l ∧ .grp .paren (writeVar var ++ inside) :: toks = s.write ++ r ∧
        ((∃ g a c, s = .rType var g a c) ∨ ∃ ps a c, s = .fType var ps a c) := by
  constructor
  · intro h
    unfold ruleLine at h
    split at h
    · rename_i w ps
      split at h
      · rename_i hw
        subst hw
        cases ps with
        | cons p ps => cases h
        | nil =>
          simp only [Option.map_eq_some_iff] at h
          obtain ⟨⟨x, q⟩, h1, h2⟩ := h
          simp at h2
          obtain ⟨rfl, rfl⟩ := h2
          obtain ⟨gen, left, conv, g, t, arrow, body, rfl, hg, ht, hc, rfl⟩ := (rLine_iff O E L _ _ _ _).1 h1
          exact ⟨.rType var gen left conv, ⟨g, t, arrow, body, rfl, hv, hg, ht, hc⟩, by simp [SrcLine.write],
            .inl ⟨gen, left, conv, rfl⟩⟩
      · split at h
        · rename_i hw
          subst hw
          simp only [Option.bind_eq_some_iff, Option.map_eq_some_iff] at h
          obtain ⟨⟨xs, q⟩, h1, ⟨y, q2⟩, h2, h3⟩ := h
          simp at h3
          obtain ⟨rfl, rfl, rfl⟩ := h3
          obtain ⟨srcs, rfl, hp, rfl⟩ := params_inv O _ _ _ _ h1
          obtain ⟨left, c, rfl, rfl⟩ := (fLine_iff _ _ _ _ _).1 h2
          refine ⟨.fType var srcs left c, ⟨hv, hp, ?_⟩, by simp [SrcLine.write], .inr ⟨srcs, left, c, rfl⟩⟩
          rw [fold_params]
          simp
        · cases h
    · cases h
  · rintro ⟨s, hm, e, hs⟩
    rcases hs with ⟨gen, left, conv, rfl⟩ | ⟨ps, left, c, rfl⟩
    · obtain ⟨g, t, arrow, body, rfl, _, hg, ht, hc⟩ := hm
      simp only [SrcLine.write, List.cons_append, List.append_assoc, List.nil_append, List.cons.injEq, Tok.grp.injEq, true_and,
        List.append_cancel_left_eq] at e
      obtain ⟨rfl, rfl⟩ := e
      have h1 := (rLine_iff O E L var _ r _).2 ⟨gen, left, conv, g, t, arrow, body, rfl, hg, ht, hc, rfl⟩
      simp [ruleLine, h1]
    · obtain ⟨_, hp, rfl⟩ := hm
      simp only [SrcLine.write, List.cons_append, List.append_assoc, List.nil_append, List.cons.injEq, Tok.grp.injEq, true_and,
        List.append_cancel_left_eq] at e
      obtain ⟨rfl, rfl⟩ := e
      have h1 := params_read O ps hp _ (Nat.le_refl _)
      have h2 := (fLine_iff var (ps.map (·.1)) _ r _).2 ⟨left, c, rfl, rfl⟩
      have n1 : kwFType ≠ kwRType := word_ne.1.symm
      simp only [ruleLine, if_neg n1, if_true, h1, Option.bind_some, h2, Option.map_some]
      rw [fold_params]
      simp

theorem macroLine_iff (O : Syn τ) (E : Ext γ κ) (L : RLaws O E) (p : Path) (d : Delim) (ts r : List Tok) (l : TLine τ γ κ) :
    (macroLine O E p ts = some l ∧ l ≠ .unknownMacro) ↔
      ∃ s : SrcLine, s.Means O E r l ∧ ∃ w, p = ⟨false, [w]⟩ ∧ s.write = writeMacro w d ts := by
  obtain ⟨_, n1, n2, n3, n4, n5⟩ := word_ne
  constructor
  · rintro ⟨h, hu⟩
    unfold macroLine at h
    split at h
    · rename_i hw
      have hp := (isIdent_iff _ _).1 hw
      subst hp
      split at h
      · rename_i c hc
        cases h
        obtain ⟨m, xs⟩ := c
        obtain ⟨ps, h1, rfl⟩ := (cItems_iff O E L _ _ _).1 hc
        exact ⟨.define d m _, .inl ⟨ps, xs, rfl, h1, rfl⟩, _, rfl, rfl⟩
      · rename_i hc
        simp only [Option.map_eq_some_iff] at h
        obtain ⟨⟨m, q⟩, h1, h2⟩ := h
        cases h2
        have e := (genericCItems_iff _ _ _).1 h1
        subst e
        refine ⟨.define d m q, .inr ⟨?_, rfl⟩, _, rfl, rfl⟩
        rintro ⟨ps, xs, rfl, h3⟩
        rw [(cItems_iff O E L _ m xs).2 ⟨ps, h3, rfl⟩] at hc
        cases hc
    · split at h
      · rename_i hw
        simp only [Bool.or_eq_true, isIdent_iff] at hw
        simp only [Option.map_eq_some_iff] at h
        obtain ⟨⟨m, o, c⟩, h1, h2⟩ := h
        cases h2
        have e := (foreignCode_iff _ _ _ _).1 h1
        subst e
        rcases hw with rfl | rfl
        · exact ⟨.code d false m o c, rfl, _, rfl, rfl⟩
        · exact ⟨.code d true m o c, rfl, _, rfl, rfl⟩
      · split at h
        · rename_i hw
          have hp := (isIdent_iff _ _).1 hw
          subst hp
          simp only [Option.map_eq_some_iff] at h
          obtain ⟨⟨n, v⟩, h1, h2⟩ := h
          cases h2
          obtain ⟨e, hn⟩ := (genericAlias_iff O _ _ _).1 h1
          subst e
          exact ⟨.alias d n v, ⟨hn, rfl⟩, _, rfl, rfl⟩
        · cases h
          exact absurd rfl hu
  · rintro ⟨s, hm, w, rfl, hw⟩
    cases s with
    | rType v g a c => simp [SrcLine.write, writeMacro] at hw
    | fType v g a c => simp [SrcLine.write, writeMacro] at hw
    | define d' m items =>
      simp [SrcLine.write, writeMacro] at hw
      obtain ⟨rfl, rfl, rfl⟩ := hw
      have hi : isIdent ⟨false, [kwDefineCType]⟩ kwDefineCType = true := (isIdent_iff _ _).2 rfl
      rcases hm with ⟨ps, xs, rfl, hc, rfl⟩ | ⟨hc, rfl⟩
      · have h1 := (cItems_iff O E L _ m xs).2 ⟨ps, hc, rfl⟩
        refine ⟨?_, by simp⟩
        simp only [macroLine, hi, if_true, h1]
      · have h1 : cItems E (.id kwModule :: .p '=' :: .str m :: .p ';' :: items) = none := by
          cases hx : cItems E (.id kwModule :: .p '=' :: .str m :: .p ';' :: items) with
          | none => rfl
          | some x =>
            obtain ⟨m', xs⟩ := x
            obtain ⟨ps, h1, h2⟩ := (cItems_iff O E L _ _ _).1 hx
            simp at h2
            exact absurd ⟨ps, xs, h2.2, h1⟩ hc
        have h2 := (genericCItems_iff (.id kwModule :: .p '=' :: .str m :: .p ';' :: items) items m).2 rfl
        refine ⟨?_, by simp⟩
        simp only [macroLine, hi, if_true, h1, h2, Option.map_some]
    | code d' dep m o c =>
      simp only [SrcLine.write, writeMacro, List.cons.injEq, Tok.id.injEq, Tok.grp.injEq, true_and, and_true] at hw
      obtain ⟨rfl, rfl, rfl⟩ := hw
      have hm' : l = .code m o c := hm
      subst hm'
      have h1 := (foreignCode_iff _ m o c).2 rfl
      refine ⟨?_, by simp⟩
      have hi1 : isIdent ⟨false, [if dep then kwForeignerCode else kwForeignCode]⟩ kwDefineCType = false := by
        cases dep <;> decide
      have hi2 : (isIdent ⟨false, [if dep then kwForeignerCode else kwForeignCode]⟩ kwForeignCode ||
          isIdent ⟨false, [if dep then kwForeignerCode else kwForeignCode]⟩ kwForeignerCode) = true := by
        cases dep <;> decide
      simp only [macroLine, hi1, hi2, if_true, Bool.false_eq_true, if_false, h1, Option.map_some]
    | alias d' n v =>
      simp only [SrcLine.write, writeMacro, List.cons.injEq, Tok.id.injEq, Tok.grp.injEq, true_and, and_true] at hw
      obtain ⟨rfl, rfl, rfl⟩ := hw
      obtain ⟨hn, rfl⟩ := hm
      have h1 := (genericAlias_iff O _ v n).2 ⟨rfl, hn⟩
      refine ⟨?_, by simp⟩
      have hi1 : isIdent ⟨false, [kwGenericAlias]⟩ kwDefineCType = false := by decide
      have hi2 : (isIdent ⟨false, [kwGenericAlias]⟩ kwForeignCode || isIdent ⟨false, [kwGenericAlias]⟩ kwForeignerCode) = false := by
        decide
      have hi3 : isIdent ⟨false, [kwGenericAlias]⟩ kwGenericAlias = true := by decide
      simp only [macroLine, hi1, hi2, hi3, if_true, Bool.false_eq_true, if_false, h1, Option.map_some]

theorem pathOk_word (O : Syn τ) (E : Ext γ κ) (L : RLaws O E) (s : SrcLine) (w : Text) (d : Delim) (ts : List Tok)
    (h : s.write = writeMacro w d ts) : PathOk O ⟨false, [w]⟩ := by
  have key : ∀ v : Text, O.reserved v = false → PathOk O ⟨false, [v]⟩ := by
    intro v hv
    refine ⟨by simp, ?_⟩
    intro n hn
    simp at hn
    subst hn
    simp [isSeg, hv]
  cases s with
  | rType v g a c => simp [SrcLine.write, writeMacro] at h
  | fType v g a c => simp [SrcLine.write, writeMacro] at h
  | define d' m items =>
    simp only [SrcLine.write, writeMacro, List.cons.injEq, Tok.id.injEq] at h
    rw [← h.1]
    exact key _ (L.words "define_c_type" (by simp))
  | code d' dep m o c =>
    simp only [SrcLine.write, writeMacro, List.cons.injEq, Tok.id.injEq] at h
    rw [← h.1]
    cases dep
    · exact key _ (L.words "foreign_code" (by simp))
    · exact key _ (L.words "foreigner_code" (by simp))
  | alias d' n v =>
    simp only [SrcLine.write, writeMacro, List.cons.injEq, Tok.id.injEq] at h
    rw [← h.1]
    exact key _ (L.words "generic_alias" (by simp))

theorem macro_write (s : SrcLine) : (∃ w d ts, s.write = writeMacro w d ts) ∨ (∃ v g a c, s = .rType v g a c) ∨ ∃ v ps a c, s = .fType v ps a c := by
  cases s with
  | rType v g a c => exact .inr (.inl ⟨v, g, a, c, rfl⟩)
  | fType v g a c => exact .inr (.inr ⟨v, g, a, c, rfl⟩)
  | define => exact .inl ⟨_, _, _, rfl⟩
  | code => exact .inl ⟨_, _, _, rfl⟩
  | alias => exact .inl ⟨_, _, _, rfl⟩

theorem line_paren (O : Syn τ) (E : Ext γ κ) (inside r : List Tok) :
    line O E (.grp .paren inside :: r) = (varPart O inside).bind fun x => ruleLine O E x.1 x.2 r := rfl

theorem lineSemi_iff (O : Syn τ) (E : Ext γ κ) (L : RLaws O E) (toks r : List Tok) (l : TLine τ γ κ) :
    lineSemi O E toks = some (l, r) ↔ ∃ s : SrcLine, s.Means O E r l ∧ toks = s.write ++ r := by
  rw [lineSemi_inv']
  constructor
  · rintro ⟨h, hu⟩
    unfold line at h
    split at h
    · rename_i inside q
      simp only [Option.bind_eq_some_iff] at h
      obtain ⟨⟨var, ins⟩, h1, h2⟩ := h
      obtain ⟨rfl, hv⟩ := varPart_inv O _ _ _ h1
      obtain ⟨s, hm, e, _⟩ := (ruleLine_iff O E L var ins q r l hv).1 h2
      exact ⟨s, hm, e⟩
    · simp only [Option.bind_eq_some_iff, Option.map_eq_some_iff] at h
      obtain ⟨⟨p, ts, q⟩, h1, l', h2, h3⟩ := h
      simp at h3
      obtain ⟨rfl, rfl⟩ := h3
      obtain ⟨hp, d, rfl⟩ := (macroCall_iff O _ _ _ _).1 h1
      obtain ⟨s, hm, w, hw, hs⟩ := (macroLine_iff O E L p d ts r l').1 ⟨h2, hu⟩
      try simp only [] at hw hs
      subst hw
      refine ⟨s, hm, ?_⟩
      rw [hs]
      simp [writePath, writeSegs, writeMacro]
  · rintro ⟨s, hm, rfl⟩
    rcases macro_write s with ⟨w, d, ts, hs⟩ | ⟨v, g, a, c, rfl⟩ | ⟨v, ps, a, c, rfl⟩
    · have hp := pathOk_word O E L s w d ts hs
      obtain ⟨h2, hu⟩ := (macroLine_iff O E L ⟨false, [w]⟩ d ts r l).2 ⟨s, hm, w, rfl, hs⟩
      refine ⟨?_, hu⟩
      have e : s.write ++ r = writePath ⟨false, [w]⟩ ++ .p '!' :: .grp d ts :: (.p ';' :: r) := by
        rw [hs]; simp [writePath, writeSegs, writeMacro]
      have h1 := (macroCall_iff O (s.write ++ r) (.p ';' :: r) ts ⟨false, [w]⟩).2 ⟨hp, d, e⟩
      have e' : s.write ++ r = .id w :: .p '!' :: .grp d ts :: (.p ';' :: r) := by rw [e]; rfl
      rw [e'] at h1 ⊢
      simp only [line, h1, Option.bind_some, h2, Option.map_some]
    · have hv : VarOk O v := by obtain ⟨_, _, _, _, _, h, _⟩ := hm; exact h
      have hu : l ≠ .unknownMacro := by obtain ⟨_, _, _, _, rfl, _⟩ := hm; simp
      have h1 := (ruleLine_iff O E L v [.id kwRType] (g.getD [] ++ (a ++ (writeConv c ++ .p ';' :: r))) r l hv).2
        ⟨_, hm, by simp [SrcLine.write], .inl ⟨g, a, c, rfl⟩⟩
      refine ⟨?_, hu⟩
      have e : (SrcLine.rType v g a c).write ++ r =
        .grp .paren (writeVar v ++ .id kwRType :: []) :: (g.getD [] ++ (a ++ (writeConv c ++ .p ';' :: r))) := by simp [SrcLine.write]
      rw [e, line_paren, varPart_read O _ _ _ hv]
      exact h1
    · have hv : VarOk O v := hm.1
      have hu : l ≠ .unknownMacro := by rw [hm.2.2]; simp
      have h1 := (ruleLine_iff O E L v (.id kwFType :: ps.flatMap writeParam) (writeStr a ++ (writeFConv c ++ .p ';' :: r)) r l hv).2
        ⟨_, hm, by simp [SrcLine.write], .inr ⟨ps, a, c, rfl⟩⟩
      refine ⟨?_, hu⟩
      have e : (SrcLine.fType v ps a c).write ++ r =
        .grp .paren (writeVar v ++ .id kwFType :: ps.flatMap writeParam) :: (writeStr a ++ (writeFConv c ++ .p ';' :: r)) := by
        simp [SrcLine.write]
      rw [e, line_paren, varPart_read O _ _ _ hv]
      exact h1

theorem SrcLine.write_ne (s : SrcLine) : s.write ≠ [] := by cases s <;> simp [SrcLine.write, writeMacro]

/-! ## Rules -/

variable [DecidableEq γ]

theorem rounds_left (O : Syn τ) (E : Ext γ κ) (gap : Text) (n : Nat) (r0 r : TRule τ γ κ) (left : Bool) (toks : List Tok)
    (h : rounds O E gap n r0 left toks = .ok (r, false)) : left = false := by
  induction n generalizing r0 left toks with
  | zero =>
    cases toks with
    | nil => simp [rounds] at h; exact h.2
    | cons t ts => simp [rounds] at h
  | succ n ih =>
    cases toks with
    | nil => simp [rounds] at h; exact h.2
    | cons t ts =>
      simp only [rounds] at h
      split at h
      · cases h
      · rename_i l over rest _
        cases ha : addLine gap r0 l with
        | err => rw [ha] at h; simp [Res.bind] at h
        | panic => rw [ha] at h; simp [Res.bind] at h
        | ok r1 =>
          rw [ha] at h
          simp only [Res.bind] at h
          split at h
          · cases h
          · have := ih _ _ _ h
            simp at this
            exact this.1

theorem rounds_inv (O : Syn τ) (E : Ext γ κ) (gap : Text) (n : Nat) (r0 r : TRule τ γ κ) (toks : List Tok)
    (h : rounds O E gap n r0 false toks = .ok (r, false)) : ∃ ls, Reads (lineSemi O E) toks ls ∧ addLines gap r0 ls = .ok r := by
  induction n generalizing r0 toks with
  | zero =>
    cases toks with
    | nil => simp [rounds] at h; exact ⟨[], .nil, by rw [h]; rfl⟩
    | cons t ts => simp [rounds] at h
  | succ n ih =>
    cases toks with
    | nil => simp [rounds] at h; exact ⟨[], .nil, by rw [h]; rfl⟩
    | cons t ts =>
      simp only [rounds] at h
      split at h
      · cases h
      · rename_i l over rest hl
        cases ha : addLine gap r0 l with
        | err => rw [ha] at h; simp [Res.bind] at h
        | panic => rw [ha] at h; simp [Res.bind] at h
        | ok r1 =>
          rw [ha] at h
          simp only [Res.bind] at h
          split at h
          · cases h
          · rename_i q hq
            have hover := rounds_left O E gap _ _ _ _ _ h
            have : over = [] := by simpa using hover
            subst this
            have e := (punct_iff _ _ _).1 hq
            subst e
            obtain ⟨ls, h1, h2⟩ := ih _ _ h
            have hu : l ≠ .unknownMacro := by
              rintro rfl
              simp [addLine] at ha
            refine ⟨l :: ls, .cons ((lineSemi_inv' O E _ _ _).2 ⟨hl, hu⟩) h1, ?_⟩
            simp only [addLines, ha, Res.bind, h2]

theorem rounds_read (O : Syn τ) (E : Ext γ κ) (L : RLaws O E) (gap : Text) (toks : List Tok) (ls : List (TLine τ γ κ))
    (hr : Reads (lineSemi O E) toks ls) (n : Nat) (hn : toks.length ≤ n) (r0 r : TRule τ γ κ) (h : addLines gap r0 ls = .ok r) :
    rounds O E gap n r0 false toks = .ok (r, false) := by
  induction hr generalizing n r0 with
  | nil => cases h; cases n <;> rfl
  | @cons toks q l ls hl _ ih =>
    obtain ⟨s, _, hs⟩ := (lineSemi_iff O E L _ _ _).1 hl
    have hlen : q.length < toks.length := by
      have := List.length_pos_iff.2 (SrcLine.write_ne s)
      rw [hs]; simp; omega
    obtain ⟨h1, _⟩ := (lineSemi_inv' O E _ _ _).1 hl
    cases toks with
    | nil => simp at hlen
    | cons t ts =>
      cases n with
      | zero => simp at hn
      | succ n =>
        cases ha : addLine gap r0 l with
        | err => simp [addLines, ha, Res.bind] at h
        | panic => simp [addLines, ha, Res.bind] at h
        | ok r1 =>
          simp only [addLines, ha, Res.bind] at h
          have := ih n (by simp at hlen hn; omega) r1 h
          simp only [rounds, h1, ha, Res.bind, punct, if_true, List.isEmpty_nil, Bool.not_true, Bool.or_false, this]

/-- **C76**: a `foreign_typemap!` is accepted exactly if it is a sequence of lines of the five forms, each ended by a semicolon, whose
lines make a rule (C27); and the rule holds what the lines say, as written. -/
theorem C76_rule (O : Syn τ) (E : Ext γ κ) (L : RLaws O E) (gap : Text) (toks : List Tok) (r : TRule τ γ κ) :
    parseRule O E gap toks = .ok r ↔ ∃ (ss : List SrcLine) (ls : List (TLine τ γ κ)),
      toks = ss.flatMap SrcLine.write ∧ BodyMeans SrcLine.write (SrcLine.Means O E) ss ls ∧
      ls ≠ [] ∧ RuleParse.Fit gap ls ∧
      ((∃ l ∈ ls, (RuleParse.aliasOf l).isSome ∨ (RuleParse.gcOf l).isSome) → ∃ l ∈ ls, (RuleParse.genOf l).isSome) ∧
      r = RuleParse.content gap ls := by
  have hb := fun toks ls => reads_body (lineSemi O E) SrcLine.write (SrcLine.Means O E)
    (fun t r e => lineSemi_iff O E L t r e) toks ls
  constructor
  · intro h
    unfold parseRule at h
    cases hr : rounds O E gap toks.length {} false toks with
    | err => rw [hr] at h; simp [Res.bind] at h
    | panic => rw [hr] at h; simp [Res.bind] at h
    | ok x =>
      obtain ⟨r', left⟩ := x
      rw [hr] at h
      simp only [Res.bind, ending] at h
      split at h; · cases h
      rename_i h1
      split at h; · cases h
      rename_i h2
      split at h; · cases h
      rename_i h3
      split at h; · cases h
      rename_i h4
      cases h
      have : left = false := by simpa using h4
      subst this
      obtain ⟨ls, hls, ha⟩ := rounds_inv O E gap _ _ _ _ hr
      obtain ⟨ss, hss, rfl⟩ := (hb _ _).1 hls
      refine ⟨ss, ls, rfl, hss, ?_⟩
      refine (RuleParse.C27_parse gap ls _).1 ?_
      have hne : ls.isEmpty = false := by
        cases hss with
        | nil => simp at h1
        | cons => rfl
      unfold RuleParse.parse
      rw [ha]
      simp only [Res.bind, hne, Bool.false_eq_true, if_false, if_neg h2, if_neg h3]
  · rintro ⟨ss, ls, rfl, hss, h⟩
    have hp := (RuleParse.C27_parse gap ls r).2 h
    have hls := (hb _ _).2 ⟨ss, hss, rfl⟩
    unfold RuleParse.parse at hp
    cases ha : addLines gap {} ls with
    | err => rw [ha] at hp; simp [Res.bind] at hp
    | panic => rw [ha] at hp; simp [Res.bind] at hp
    | ok r' =>
      rw [ha] at hp
      simp only [Res.bind] at hp
      split at hp; · cases hp
      rename_i h1
      split at hp; · cases hp
      rename_i h2
      split at hp; · cases hp
      rename_i h3
      cases hp
      have hr := rounds_read O E L gap _ _ hls _ (Nat.le_refl _) _ _ ha
      have hne : (ss.flatMap SrcLine.write).isEmpty = false := by
        cases hss with
        | nil => simp at h1
        | @cons s _ _ _ _ _ =>
          have := SrcLine.write_ne s
          cases hw : s.write with
          | nil => exact absurd hw this
          | cons => simp [hw]
      unfold parseRule
      rw [hr]
      simp only [Res.bind, ending, hne, Bool.false_eq_true, if_false, if_neg h2, if_neg h3]

/-! ## C items -/

omit [DecidableEq γ] in
theorem body_split (O : Syn τ) (E : Ext γ κ) (ss : List SrcLine) (ls : List (TLine τ γ κ))
    (h : BodyMeans SrcLine.write (SrcLine.Means O E) ss ls) (l : TLine τ γ κ) (hl : l ∈ ls) :
    ∃ (s : SrcLine) (rest pre post : List Tok), ss.flatMap SrcLine.write = pre ++ (s.write ++ post) ∧ s.Means O E rest l := by
  induction h with
  | nil => simp at hl
  | @cons s x ss ls hm _ ih =>
    rcases List.mem_cons.1 hl with rfl | hl
    · exact ⟨s, _, [], ss.flatMap SrcLine.write, by simp, hm⟩
    · obtain ⟨s', rest, pre, post, e, h⟩ := ih hl
      exact ⟨s', rest, s.write ++ pre, post, by simp [e], h⟩

/-- **C76**: the C items of an accepted rule are those of its `define_c_type!`, all of them structs or unions with `#[repr(C)]`,
`extern "C"` functions with `#[no_mangle]` or statics with `#[no_mangle]`; C items that are not of this form are kept unread only in a
rule with generic parameters. -/
theorem C76_c_items (O : Syn τ) (E : Ext γ κ) (L : RLaws O E) (gap : Text) (toks : List Tok) (r : TRule τ γ κ)
    (h : parseRule O E gap toks = .ok r) :
    (∀ m xs, r.cTypes = some (m, xs) → ∃ d ps pre post,
      toks = pre ++ (writeMacro kwDefineCType d (.id kwModule :: .p '=' :: .str m :: .p ';' :: ps.flatMap writePiece) ++ post) ∧
      CItemsMean E ps xs) ∧
    (r.genericCTypes.isSome → r.generics.isSome) := by
  obtain ⟨ss, ls, rfl, hb, _, _, hg, rfl⟩ := (C76_rule O E L gap toks r).1 h
  constructor
  · intro m xs hc
    have hmem : (m, xs) ∈ ls.filterMap RuleParse.cOf := List.mem_of_mem_head? (by simpa [RuleParse.content] using hc)
    obtain ⟨l, hl, hlc⟩ := List.mem_filterMap.1 hmem
    obtain ⟨s, rest, pre, post, e, hm⟩ := body_split O E ss ls hb l hl
    cases l with
    | cItems c =>
      simp [RuleParse.cOf] at hlc
      subst hlc
      cases s with
      | rType v g a c => obtain ⟨_, _, _, _, h, _⟩ := hm; cases h
      | fType v g a c => cases hm.2.2
      | define d m' items =>
        rcases hm with ⟨ps, xs', rfl, h1, h2⟩ | ⟨_, h2⟩
        · cases h2
          exact ⟨d, ps, pre, post, e, h1⟩
        · cases h2
      | code d dep m o c => cases hm
      | alias d n v => cases hm.2
    | _ => simp [RuleParse.cOf] at hlc
  · intro hs
    have hs' : (ls.filterMap RuleParse.gcOf).head?.isSome = true := hs
    obtain ⟨c, hc⟩ := Option.isSome_iff_exists.1 hs'
    obtain ⟨l, hl, hlc⟩ := List.mem_filterMap.1 (List.mem_of_mem_head? hc)
    obtain ⟨l', hl', hg'⟩ := hg ⟨l, hl, .inr (by rw [hlc]; rfl)⟩
    obtain ⟨g, hgg⟩ := Option.isSome_iff_exists.1 hg'
    have : g ∈ ls.filterMap RuleParse.genOf := List.mem_filterMap.2 ⟨l', hl', hgg⟩
    show (ls.filterMap RuleParse.genOf).head?.isSome = true
    cases hx : ls.filterMap RuleParse.genOf with
    | nil => rw [hx] at this; simp at this
    | cons a l => rfl

/-! ## Panics -/

omit [DecidableEq γ] in
theorem arrowPart_suffix {α : Type} (read : List Tok → Option (α × List Tok))
    (hr : ∀ toks x r, read toks = some (x, r) → ∃ pre, toks = pre ++ r) (toks r : List Tok) (a : Option (Bool × α))
    (h : arrowPart read toks = some (a, r)) : ∃ pre, toks = pre ++ r := by
  unfold arrowPart at h
  split at h
  · rename_i s q
    split at h
    · simp only [Option.map_eq_some_iff] at h
      obtain ⟨⟨x, r1⟩, h1, h2⟩ := h
      cases h2
      obtain ⟨pre, rfl⟩ := hr _ _ _ h1
      exact ⟨.other s :: pre, rfl⟩
    · split at h
      · simp only [Option.map_eq_some_iff] at h
        obtain ⟨⟨x, r1⟩, h1, h2⟩ := h
        cases h2
        obtain ⟨pre, rfl⟩ := hr _ _ _ h1
        exact ⟨.other s :: pre, rfl⟩
      · cases h; exact ⟨[], rfl⟩
  · cases h; exact ⟨[], rfl⟩

omit [DecidableEq γ] in
theorem bodyPart_mem (E : Ext γ κ) (b : Bool) (toks r : List Tok) (t : Text) (h : bodyPart E b toks = (some t, r)) :
    ∃ ts, .grp .brace ts ∈ toks ∧ t = E.text ts := by
  unfold bodyPart at h
  split at h
  · rename_i ts q
    cases b
    · simp at h
    · simp at h; exact ⟨ts, by simp, h.1.symm⟩
  · simp at h

omit [DecidableEq γ] in
theorem rLine_body (O : Syn τ) (E : Ext γ κ) (L : RLaws O E) (var : Option Text) (toks r : List Tok) (l : RLine τ γ) (b : Text)
    (h : rLine O E var toks = some (l, r)) (hb : l.body = some b) : ∃ ts, .grp .brace ts ∈ toks ∧ b = E.text ts := by
  simp only [rLine, Option.bind_eq_bind, Option.bind_eq_some_iff, Option.pure_def] at h
  obtain ⟨⟨g, r1⟩, h1, ⟨t, r2⟩, h2, ⟨arrow, r3⟩, h3, h4⟩ := h
  cases h4
  obtain ⟨gs, _, e1⟩ := (genPart_iff O E L _ _ _).1 h1
  obtain ⟨p2, e2⟩ := L.ty _ _ _ h2
  obtain ⟨p3, e3⟩ := arrowPart_suffix O.ty L.ty _ _ _ h3
  obtain ⟨ts, hm, e⟩ := bodyPart_mem E arrow.isSome r3 _ b (Prod.ext hb rfl)
  refine ⟨ts, ?_, e⟩
  simp only [] at e2 e3
  rw [e1, e2, e3]
  simp [hm]

omit [DecidableEq γ] in
theorem line_body (O : Syn τ) (E : Ext γ κ) (L : RLaws O E) (toks over r : List Tok) (l : RLine τ γ) (b : Text)
    (h : line O E toks = some (.rType l, over, r)) (hb : l.body = some b) : ∃ ts, .grp .brace ts ∈ toks ∧ b = E.text ts := by
  unfold line at h
  split at h
  · simp only [Option.bind_eq_some_iff] at h
    obtain ⟨⟨var, ins⟩, _, h2⟩ := h
    unfold ruleLine at h2
    split at h2
    · split at h2
      · split at h2
        · simp only [Option.map_eq_some_iff] at h2
          obtain ⟨⟨x, q⟩, h3, h4⟩ := h2
          cases h4
          obtain ⟨ts, hm, e⟩ := rLine_body O E L _ _ _ _ b h3 hb
          exact ⟨ts, by simp [hm], e⟩
        · cases h2
      · split at h2
        · simp only [Option.bind_eq_some_iff, Option.map_eq_some_iff] at h2
          obtain ⟨_, _, _, _, h3⟩ := h2
          cases h3
        · cases h2
    · cases h2
  · simp only [Option.bind_eq_some_iff, Option.map_eq_some_iff] at h
    obtain ⟨⟨p, ts, q⟩, _, l', h2, h3⟩ := h
    cases h3
    unfold macroLine at h2
    split at h2
    · split at h2
      · cases h2
      · simp at h2
    · split at h2
      · simp at h2
      · split at h2
        · simp at h2
        · cases h2

omit [DecidableEq γ] in
theorem line_suffix (O : Syn τ) (E : Ext γ κ) (L : RLaws O E) (toks over r : List Tok) (l : TLine τ γ κ)
    (h : line O E toks = some (l, over, r)) : ∃ pre, toks = pre ++ r := by
  have hb : ∀ (b : Bool) (q : List Tok), ∃ pre, q = pre ++ (bodyPart E b q).2 := by
    intro b q
    unfold bodyPart
    split
    · rename_i ts q
      cases b
      · exact ⟨[], rfl⟩
      · exact ⟨[.grp .brace ts], rfl⟩
    · exact ⟨[], rfl⟩
  unfold line at h
  split at h
  · rename_i inside q
    simp only [Option.bind_eq_some_iff] at h
    obtain ⟨⟨var, ins⟩, _, h2⟩ := h
    unfold ruleLine at h2
    split at h2
    · split at h2
      · split at h2
        · simp only [Option.map_eq_some_iff] at h2
          obtain ⟨⟨x, q'⟩, h3, h4⟩ := h2
          cases h4
          simp only [rLine, Option.bind_eq_bind, Option.bind_eq_some_iff, Option.pure_def] at h3
          obtain ⟨⟨g, r1⟩, h1, ⟨t, r2⟩, h2, ⟨arrow, r3⟩, h3, h4⟩ := h3
          cases h4
          obtain ⟨gs, _, e1⟩ := (genPart_iff O E L _ _ _).1 h1
          obtain ⟨p2, e2⟩ := L.ty _ _ _ h2
          obtain ⟨p3, e3⟩ := arrowPart_suffix O.ty L.ty _ _ _ h3
          obtain ⟨p4, e4⟩ := hb arrow.isSome r3
          simp only [] at e2 e3
          refine ⟨.grp .paren inside :: (gs.getD [] ++ (p2 ++ (p3 ++ p4))), ?_⟩
          rw [e1, e2, e3]
          simp only [List.cons_append, List.append_assoc]
          rw [← e4]
        · cases h2
      · split at h2
        · simp only [Option.bind_eq_some_iff, Option.map_eq_some_iff] at h2
          obtain ⟨⟨xs, q2⟩, _, ⟨y, q3⟩, h3, h4⟩ := h2
          cases h4
          simp only [fLine, Option.bind_eq_bind, Option.bind_eq_some_iff, Option.pure_def] at h3
          obtain ⟨⟨a, q4⟩, h1, h2⟩ := h3
          simp only [Option.some.injEq, Prod.mk.injEq] at h2
          obtain ⟨_, h2⟩ := h2
          obtain ⟨p1, e1⟩ := arrowPart_suffix litStr (fun t x r h => ⟨[.str x], (litStr_iff _ _ _).1 h⟩) _ _ _ h1
          have : ∃ p2, q4 = p2 ++ q3 := by
            rw [← h2]
            split
            · exact ⟨_, optStr_inv q4⟩
            · exact ⟨[], rfl⟩
          obtain ⟨p2, rfl⟩ := this
          refine ⟨.grp .paren inside :: (writeStr (optStr q).1 ++ (p1 ++ p2)), ?_⟩
          simp only [List.cons_append, List.append_assoc]
          rw [← e1, ← optStr_inv q]
        · cases h2
    · cases h2
  · simp only [Option.bind_eq_some_iff, Option.map_eq_some_iff] at h
    obtain ⟨⟨p, ts, q⟩, h1, l', _, h3⟩ := h
    cases h3
    obtain ⟨_, d, rfl⟩ := (macroCall_iff O _ _ _ _).1 h1
    exact ⟨writePath p ++ [.p '!', .grp d ts], by simp⟩

theorem addLine_panic (gap : Text) (r : TRule τ γ κ) (l : TLine τ γ κ) (h : addLine gap r l = .panic) :
    ∃ x b, l = .rType x ∧ x.body = some b ∧ RuleParse.rCode gap x.var b = .panic := by
  cases l with
  | rType x =>
    simp only [addLine, RuleParse.addR] at h
    cases hg : RuleParse.addGenerics r.generics x.generics with
    | err => rw [hg] at h; simp [Res.bind] at h
    | panic =>
      exfalso
      unfold RuleParse.addGenerics at hg
      split at hg
      · cases hg
      · split at hg
        · cases hg
        · split at hg <;> cases hg
    | ok g =>
      rw [hg] at h
      simp only [Res.bind] at h
      cases hc : RuleParse.lineCode gap x.var x.arrow.isSome x.body with
      | err => rw [hc] at h; simp [Res.bind] at h
      | panic =>
        cases hb : x.body with
        | none => rw [hb] at hc; simp [RuleParse.lineCode] at hc
        | some b =>
          rw [hb] at hc
          simp only [RuleParse.lineCode] at hc
          split at hc
          · refine ⟨x, b, rfl, hb, ?_⟩
            cases hr : RuleParse.rCode gap x.var b with
            | ok c => rw [hr] at hc; simp [Res.bind] at hc
            | err => rw [hr] at hc; simp [Res.bind] at hc
            | panic => rfl
          · cases hc
      | ok c =>
        exfalso
        rw [hc] at h
        simp only [Res.bind] at h
        split at h <;> split at h <;> cases h
  | fType x =>
    exfalso
    simp only [addLine, RuleParse.addF] at h
    split at h; · cases h
    split at h; · cases h
    cases hc : RuleParse.fCodeOf x with
    | err => rw [hc] at h; simp [Res.bind] at h
    | panic =>
      unfold RuleParse.fCodeOf at hc
      split at hc
      · cases hc
      · split at hc
        · split at hc <;> cases hc
        · cases hc
    | ok c =>
      rw [hc] at h
      simp only [Res.bind] at h
      split at h
      · split at h; · cases h
        split at h <;> cases h
      · split at h <;> cases h
      · split at h; · cases h
        split at h <;> cases h
  | cItems c => simp only [addLine] at h; split at h <;> cases h
  | genericCItems c => simp only [addLine] at h; split at h <;> cases h
  | code m o c => cases h
  | alias a => cases h
  | unknownMacro => cases h

/-- **C76**: reading a rule ends in a rule or an error message, except for the one panic of C27: code in braces for which filling in the
placeholders goes wrong. -/
theorem C76_panic (O : Syn τ) (E : Ext γ κ) (L : RLaws O E) (gap : Text) (toks : List Tok) (h : parseRule O E gap toks = .panic) :
    ∃ ts v, .grp .brace ts ∈ toks ∧ RuleParse.rCode gap v (E.text ts) = .panic := by
  have key : ∀ (n : Nat) (r0 : TRule τ γ κ) (left : Bool) (toks : List Tok), rounds O E gap n r0 left toks = .panic →
      ∃ ts v, .grp .brace ts ∈ toks ∧ RuleParse.rCode gap v (E.text ts) = .panic := by
    intro n
    induction n with
    | zero => intro r0 left toks h; cases toks <;> simp [rounds] at h
    | succ n ih =>
      intro r0 left toks h
      cases toks with
      | nil => simp [rounds] at h
      | cons t ts =>
        simp only [rounds] at h
        split at h
        · cases h
        · rename_i l over rest hl
          cases ha : addLine gap r0 l with
          | err => rw [ha] at h; simp [Res.bind] at h
          | panic =>
            obtain ⟨x, b, rfl, hb, hp⟩ := addLine_panic gap r0 l ha
            obtain ⟨bs, hm, rfl⟩ := line_body O E L _ _ _ _ _ hl hb
            exact ⟨bs, _, hm, hp⟩
          | ok r1 =>
            rw [ha] at h
            simp only [Res.bind] at h
            split at h
            · cases h
            · rename_i q hq
              obtain ⟨bs, v, hm, hp⟩ := ih _ _ _ h
              refine ⟨bs, v, ?_, hp⟩
              have e := (punct_iff _ _ _).1 hq
              obtain ⟨pre, hpre⟩ := line_suffix O E L _ _ _ _ hl
              rw [hpre, e]
              simp [hm]
  unfold parseRule at h
  cases hr : rounds O E gap toks.length {} false toks with
  | err => rw [hr] at h; simp [Res.bind] at h
  | panic => exact key _ _ _ _ hr
  | ok x =>
    rw [hr] at h
    simp only [Res.bind, ending] at h
    split at h; · cases h
    split at h; · cases h
    split at h; · cases h
    split at h <;> cases h

/-! ## Values of aliases -/

/-- Comma separated items, a last comma allowed. -/
inductive Items (R : List Tok → Inst.Item → Prop) : List Tok → List Inst.Item → Prop where
  | nil : Items R [] []
  | last {ts i} : R ts i → Items R ts [i]
  | cons {ts i r l} : R ts i → Items R r l → Items R (ts ++ .p ',' :: r) (i :: l)

/-- What the value of an alias may be: a name, `swig_concat_idents!(items)`, `swig_i_type!(T)`, `swig_i_type!(T, x)` or `swig_f_type!(T)`. -/
inductive ItemMeans (O : Syn τ) : List Tok → Inst.Item → Prop where
  | ident (n : Text) : O.reserved n = false → ItemMeans O [.id n] (.ident n)
  | concat (d : Delim) (ts : List Tok) (l : List Inst.Item) : Items (ItemMeans O) ts l →
      ItemMeans O [.id kwConcat, .p '!', .grp d ts] (.concat l)
  | iType (d : Delim) (ts : List Tok) (a : Text) : DeriveList O ts [a] → ItemMeans O [.id kwIType, .p '!', .grp d ts] (.iType a none)
  | iType2 (d : Delim) (ts : List Tok) (a b : Text) : DeriveList O ts [a, b] →
      ItemMeans O [.id kwIType, .p '!', .grp d ts] (.iType a (some b))
  | fType (d : Delim) (a : Text) : O.reserved a = false → ItemMeans O [.id kwSwigFType, .p '!', .grp d [.id a]] (.fType a)

omit [DecidableEq γ] in
theorem sepBy_inv (item : List Tok → Option (Inst.Item × List Tok)) (R : List Tok → Inst.Item → Prop)
    (hi : ∀ toks x r, item toks = some (x, r) → ∃ pre, toks = pre ++ r ∧ R pre x) (n : Nat) (toks : List Tok) (l : List Inst.Item)
    (h : sepBy item n toks = some l) : Items R toks l := by
  induction n generalizing toks l with
  | zero =>
    cases toks with
    | nil => simp [sepBy] at h; subst h; exact .nil
    | cons t ts => simp [sepBy] at h
  | succ n ih =>
    cases toks with
    | nil => simp [sepBy] at h; subst h; exact .nil
    | cons t ts =>
      simp only [sepBy] at h
      split at h
      · cases h
      · rename_i x hx
        cases h
        obtain ⟨pre, e, hr⟩ := hi _ _ _ hx
        rw [e, List.append_nil]
        exact .last hr
      · rename_i x r hx
        simp only [Option.map_eq_some_iff] at h
        obtain ⟨l', h1, rfl⟩ := h
        obtain ⟨pre, e, hr⟩ := hi _ _ _ hx
        rw [e]
        exact .cons hr (ih _ _ h1)
      · cases h

omit [DecidableEq γ] in
theorem aliasItem_inv (O : Syn τ) (n : Nat) : ∀ (toks : List Tok) (i : Inst.Item) (r : List Tok), aliasItem O n toks = some (i, r) →
    ∃ pre, toks = pre ++ r ∧ ItemMeans O pre i := by
  induction n with
  | zero => intro toks i r h; simp [aliasItem] at h
  | succ n ih =>
    intro toks i r h
    simp only [aliasItem] at h
    split at h
    · rename_i p ts q hm
      obtain ⟨_, d, rfl⟩ := (macroCall_iff O _ _ _ _).1 hm
      split at h
      · rename_i hw
        have hp := (isIdent_iff _ _).1 hw
        subst hp
        simp only [Option.map_eq_some_iff] at h
        obtain ⟨l, h1, h2⟩ := h
        cases h2
        exact ⟨[.id kwConcat, .p '!', .grp d ts], rfl, .concat d ts l (sepBy_inv _ _ ih _ _ _ h1)⟩
      · split at h
        · rename_i hw
          have hp := (isIdent_iff _ _).1 hw
          subst hp
          simp only [Option.map_eq_some_iff, Option.bind_eq_some_iff] at h
          obtain ⟨x, ⟨l, h1, h3⟩, h2⟩ := h
          cases h2
          have hl := (idents_iff O _ _).1 h1
          unfold iTypeArgs at h3
          split at h3
          · cases h3; exact ⟨_, rfl, .iType d ts _ hl⟩
          · cases h3; exact ⟨_, rfl, .iType2 d ts _ _ hl⟩
          · cases h3
        · split at h
          · rename_i hw
            have hp := (isIdent_iff _ _).1 hw
            subst hp
            split at h
            · rename_i a ha
              cases h
              obtain ⟨rfl, hn⟩ := (ident_iff O _ _ _).1 ha
              exact ⟨_, rfl, .fType d a hn⟩
            · cases h
          · cases h
    · simp only [Option.map_eq_some_iff] at h
      obtain ⟨⟨a, q⟩, h1, h2⟩ := h
      cases h2
      obtain ⟨rfl, hn⟩ := (ident_iff O _ _ _).1 h1
      exact ⟨[.id a], rfl, .ident a hn⟩

/-- What may follow an item. -/
def ItemEnd (r : List Tok) : Prop := r = [] ∨ ∃ q, r = .p ',' :: q

omit [DecidableEq γ] in
theorem macroCall_ident (O : Syn τ) (n : Text) (r : List Tok) (h : ItemEnd r) : macroCall O (.id n :: r) = none := by
  cases hm : macroCall O (.id n :: r) with
  | none => rfl
  | some x =>
    exfalso
    obtain ⟨p, ts, q⟩ := x
    simp only [macroCall, Option.bind_eq_bind, Option.bind_eq_some_iff] at hm
    obtain ⟨⟨p', r1⟩, h1, r2, h2, _⟩ := hm
    have e2 := (punct_iff _ _ _).1 h2
    simp only [] at e2
    subst e2
    rcases h with rfl | ⟨q', rfl⟩
    · simp only [path, segs] at h1
      split at h1 <;> simp at h1
    · simp only [path, segs] at h1
      split at h1 <;> simp at h1

omit [DecidableEq γ] in
theorem depths_append (a b : List Tok) : depths (a ++ b) = max (depths a) (depths b) := by
  induction a with
  | nil => simp [depths]
  | cons t ts ih => simp [depths, ih, Nat.max_assoc]

omit [DecidableEq γ] in
theorem sepBy_read (item : List Tok → Option (Inst.Item × List Tok)) (R : List Tok → Inst.Item → Prop) (n : Nat)
    (hi : ∀ pre x r, R pre x → depths pre < n → ItemEnd r → item (pre ++ r) = some (x, r))
    (hne : ∀ pre x, R pre x → pre ≠ [])
    (toks : List Tok) (l : List Inst.Item) (h : Items R toks l) (hd : depths toks < n) (m : Nat) (hm : toks.length ≤ m) :
    sepBy item m toks = some l := by
  induction h generalizing m with
  | nil => cases m <;> rfl
  | @last ts i hr =>
    have h1 := hi ts i [] hr hd (.inl rfl)
    rw [List.append_nil] at h1
    cases ts with
    | nil => exact absurd rfl (hne _ _ hr)
    | cons t ts =>
      cases m with
      | zero => simp at hm
      | succ m => simp only [sepBy, h1]
  | @cons ts i r l hr _ ih =>
    have hd' : depths ts < n ∧ depths r < n := by
      rw [depths_append] at hd
      simp only [depths] at hd
      omega
    have h1 := hi ts i (.p ',' :: r) hr hd'.1 (.inr ⟨_, rfl⟩)
    cases ts with
    | nil => exact absurd rfl (hne _ _ hr)
    | cons t ts =>
      cases m with
      | zero => simp at hm
      | succ m =>
        have h2 := ih hd'.2 m (by simp at hm; omega)
        rw [List.cons_append] at h1 ⊢
        simp only [sepBy, h1, h2, Option.map_some]

omit [DecidableEq γ] in
theorem ItemMeans.ne (O : Syn τ) (pre : List Tok) (i : Inst.Item) (h : ItemMeans O pre i) : pre ≠ [] := by cases h <;> simp

omit [DecidableEq γ] in
theorem macroCall_word (O : Syn τ) (w : Text) (hw : O.reserved w = false) (d : Delim) (ts r : List Tok) :
    macroCall O ([.id w, .p '!', .grp d ts] ++ r) = some (⟨false, [w]⟩, ts, r) := by
  refine (macroCall_iff O _ _ _ _).2 ⟨⟨by simp, ?_⟩, d, rfl⟩
  intro n hn
  simp at hn
  subst hn
  simp [isSeg, hw]

omit [DecidableEq γ] in
theorem aliasItem_read (O : Syn τ) (E : Ext γ κ) (L : RLaws O E) (n : Nat) : ∀ (pre : List Tok) (i : Inst.Item) (r : List Tok),
    ItemMeans O pre i → depths pre < n → ItemEnd r → aliasItem O n (pre ++ r) = some (i, r) := by
  have w1 : O.reserved kwConcat = false := L.words "swig_concat_idents" (by simp)
  have w2 : O.reserved kwIType = false := L.words "swig_i_type" (by simp)
  have w3 : O.reserved kwSwigFType = false := L.words "swig_f_type" (by simp)
  have i11 : isIdent ⟨false, [kwConcat]⟩ kwConcat = true := by decide
  have i21 : isIdent ⟨false, [kwIType]⟩ kwConcat = false := by decide
  have i22 : isIdent ⟨false, [kwIType]⟩ kwIType = true := by decide
  have i31 : isIdent ⟨false, [kwSwigFType]⟩ kwConcat = false := by decide
  have i32 : isIdent ⟨false, [kwSwigFType]⟩ kwIType = false := by decide
  have i33 : isIdent ⟨false, [kwSwigFType]⟩ kwSwigFType = true := by decide
  induction n with
  | zero => intro pre i r _ h; omega
  | succ n ih =>
    intro pre i r h hd hr
    cases h with
    | ident a ha =>
      have h1 := (ident_iff O (.id a :: r) a r).2 ⟨rfl, ha⟩
      simp only [List.cons_append, List.nil_append, aliasItem, macroCall_ident O a r hr, h1, Option.map_some]
    | concat d ts l hl =>
      have h1 := sepBy_read (aliasItem O n) (ItemMeans O) n ih (ItemMeans.ne O) ts l hl
        (by simp only [depths, depth] at hd; omega) _ (Nat.le_refl _)
      simp only [aliasItem, macroCall_word O _ w1, i11, if_true, h1, Option.map_some]
    | iType d ts a ha =>
      have h1 := (idents_iff O _ _).2 ha
      simp only [aliasItem, macroCall_word O _ w2, i21, i22, if_true, Bool.false_eq_true, if_false, h1, Option.bind_some, iTypeArgs,
        Option.map_some]
    | iType2 d ts a b ha =>
      have h1 := (idents_iff O _ _).2 ha
      simp only [aliasItem, macroCall_word O _ w2, i21, i22, if_true, Bool.false_eq_true, if_false, h1, Option.bind_some, iTypeArgs,
        Option.map_some]
    | fType d a ha =>
      have h1 := (ident_iff O [.id a] a []).2 ⟨rfl, ha⟩
      simp only [aliasItem, macroCall_word O _ w3, i31, i32, i33, if_true, Bool.false_eq_true, if_false, h1]

omit [DecidableEq γ] in
/-- **C76**: the value of an alias is accepted (when the rule is used, C59) exactly in these forms, nested without bound. -/
theorem C76_alias (O : Syn τ) (E : Ext γ κ) (L : RLaws O E) (toks : List Tok) (i : Inst.Item) :
    aliasValue O toks = some i ↔ ItemMeans O toks i := by
  unfold aliasValue
  constructor
  · intro h
    split at h
    · rename_i j hj
      cases h
      obtain ⟨pre, e, hm⟩ := aliasItem_inv O _ _ _ _ hj
      rw [e, List.append_nil]
      exact hm
    · cases h
  · intro h
    have := aliasItem_read O E L (depths toks + 1) toks i [] h (by omega) (.inl rfl)
    rw [List.append_nil] at this
    rw [this]

/-! ## Instances -/

/-- A small `syn`: a type is one identifier; generic parameters are `<T>`; an item is `struct X`, with `repr` in front when it is
`#[repr(C)]`; code is printed as the names in it, each followed by a space, and `$` as `$`. -/
def exExt : Ext Text Text where
  gen
    | .p '<' :: .id n :: .p '>' :: r => some (n, r)
    | _ => none
  item
    | .id k :: .id n :: r => if k = "repr".toList then some (.struct true n, r) else if k = "struct".toList then some (.struct false n, r) else none
    | _ => none
  text ts := ts.flatMap fun
    | .id n => n ++ [' ']
    | .p c => [c]
    | _ => []

theorem exRLaws : RLaws exSyn exExt where
  ty := exLaws.ty
  gen toks g r h := by
    simp only [exExt] at h
    split at h
    · cases h; exact ⟨[.p '<', .id _, .p '>'], rfl⟩
    · cases h
  item toks x r h := by
    simp only [exExt] at h
    split at h
    · rename_i k n q
      split at h
      · cases h; exact ⟨_, [_], rfl⟩
      · split at h
        · cases h; exact ⟨_, [_], rfl⟩
        · cases h
    · cases h
  words := by decide

/-- `($p:r_type) A => B { $out = $p ; };` -/
def exR : List Tok :=
  [.grp .paren [.p '$', .id "p".toList, .p ':', .id "r_type".toList], .id "A".toList, .other "=>".toList, .id "B".toList,
   .grp .brace [.p '$', .id "out".toList, .p '=', .p '$', .id "p".toList, .p ';'], .p ';']

/-- `($p:f_type, req_modules = ["m", "n",], option = "x", $t:temporary) => "X" "$out = $p";` -/
def exF : List Tok :=
  [.grp .paren [.p '$', .id "p".toList, .p ':', .id "f_type".toList, .p ',', .id "req_modules".toList, .p '=',
     .grp .bracket [.str "m".toList, .p ',', .str "n".toList, .p ','], .p ',', .id "option".toList, .p '=', .str "x".toList,
     .p ',', .p '$', .id "t".toList, .p ':', .id "temporary".toList],
   .other "=>".toList, .str "X".toList, .str "$out = $p".toList, .p ';']

/-- `define_c_type!(module = "m"; repr S);` and the same with a struct that is not `#[repr(C)]`. -/
def exC (k : Text) : List Tok :=
  [.id "define_c_type".toList, .p '!', .grp .paren [.id "module".toList, .p '=', .str "m".toList, .p ';', .id k, .id "S".toList], .p ';']

/-- `($p:r_type) <T> A;` -/
def exG : List Tok :=
  [.grp .paren [.id "r_type".toList], .p '<', .id "T".toList, .p '>', .id "A".toList, .p ';']

def Res.isOk {α : Type} : Res α → Bool
  | .ok _ => true
  | _ => false

def ruleCTypes : Res (TRule Text Text Text) → Option (Text × List Text)
  | .ok r => r.cTypes
  | _ => none

/-- Both kinds of rule with C items are accepted. -/
example : Res.isOk (parseRule exSyn exExt [] (exR ++ exF ++ exC "repr".toList)) = true ∧
    ruleCTypes (parseRule exSyn exExt [] (exR ++ exF ++ exC "repr".toList)) = some ("m".toList, ["S".toList]) := by decide +kernel

/-- Twice the same direction, a line without semicolon, and tokens left over in the parentheses of an `f_type` line are refused. -/
example : Res.isOk (parseRule exSyn exExt [] (exR ++ exR)) = false ∧
    Res.isOk (parseRule exSyn exExt [] exR.dropLast) = false ∧
    Res.isOk (parseRule exSyn exExt [] [.grp .paren [.id "f_type".toList, .id "x".toList], .str "X".toList, .p ';']) = false ∧
    Res.isOk (parseRule exSyn exExt [] [.grp .paren [.id "f_type".toList], .str "X".toList, .p ';']) = true := by decide +kernel

/-- **C76 (finding)**: a struct without `#[repr(C)]` in `define_c_type!` is reported in a plain rule (with the message that the rule is
not generic), but in a rule with generic parameters it is accepted as "generic C items" and only looked at when the rule is used. -/
theorem C76_finding_c_items_unread : Res.isOk (parseRule exSyn exExt [] (exR ++ exC "struct".toList)) = false ∧
    Res.isOk (parseRule exSyn exExt [] (exG ++ exC "struct".toList)) = true ∧
    ruleCTypes (parseRule exSyn exExt [] (exG ++ exC "struct".toList)) = none := by decide +kernel

/-- **C76 (finding)**: the value of an alias is not looked at either: `generic_alias!(N = swig_i_type!());` is accepted, although it is
no value (`C76_alias`). -/
theorem C76_finding_alias_unread :
    Res.isOk (parseRule exSyn exExt [] (exG ++ [.id "generic_alias".toList, .p '!',
      .grp .paren [.id "N".toList, .p '=', .id "swig_i_type".toList, .p '!', .grp .paren []], .p ';'])) = true ∧
    (aliasValue exSyn [.id "swig_i_type".toList, .p '!', .grp .paren []]).isNone = true := by decide +kernel

/-- **C76 (finding)**: a parameter given twice is not reported: of two options (or two prefixes) the last one counts. -/
theorem C76_finding_param_twice : parseRule exSyn exExt [] [.grp .paren [.id "f_type".toList, .p ',', .id "option".toList, .p '=',
      .str "a".toList, .p ',', .id "option".toList, .p '=', .str "b".toList], .str "X".toList, .p ';'] =
    .ok { fLR := [⟨[], some "b".toList, .onlyLeft "X".toList, false, none, none⟩] } := by rfl

/-- A value: `swig_concat_idents!(A, swig_i_type!(T), swig_f_type!(T),)`. -/
example : (aliasValue exSyn [.id "swig_concat_idents".toList, .p '!', .grp .paren [.id "A".toList, .p ',', .id "swig_i_type".toList, .p '!',
    .grp .paren [.id "T".toList], .p ',', .id "swig_f_type".toList, .p '!', .grp .paren [.id "T".toList], .p ',']]).isSome = true := by
  decide +kernel

end Flapi.RuleTokens
