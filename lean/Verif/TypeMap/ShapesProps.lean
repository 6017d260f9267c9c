import Verif.TypeMap.Shapes
/-! # Special shapes of types are recognised exactly (C85) -/
namespace Flapi.Shapes
open Flapi Flapi.Ast

/-! ## Specification -/

/-- `t` is written `name<x>`, possibly with `::` in front or a qualified self. -/
def IsApp1 (name : Text) (t x : Ty) : Prop := ∃ q l, t = .path q l (.cons name (.angle (.ty x .nil)) .nil)
/-- `t` is written `name<x, y>`, likewise. -/
def IsApp2 (name : Text) (t x y : Ty) : Prop := ∃ q l, t = .path q l (.cons name (.angle (.ty x (.ty y .nil))) .nil)
/-- A shared or exclusive reference to a slice of `x`. -/
def IsSlice (t : Ty) (mt : Bool) (x : Ty) : Prop := ∃ lt, t = .ref lt mt (.slice x)

/-- The lifetimes written in a token sequence, in order. -/
def written : List Tok → List Text
  | [] => []
  | .lifetime l :: r => l :: written r
  | _ :: r => written r

/-- The tokens after `impl<` up to the closing bracket, and the rest. -/
def splitHead : List Tok → Option (List Tok × List Tok)
  | .impl_ :: .lt :: r => some (r.takeWhile (· ≠ .gt), (r.dropWhile (· ≠ .gt)).drop 1)
  | _ => none

def kwStatic : Text := ['s', 't', 'a', 't', 'i', 'c']
def kwAnon : Text := ['_']

/-- What the compiler asks of the head of an implementation: the declared lifetimes differ, none is `'static` or `'_`, and every
lifetime written in the rest is declared, `'static` or `'_`. -/
def HeadOk (declared rest : List Text) : Prop :=
  declared.Nodup ∧ kwStatic ∉ declared ∧ kwAnon ∉ declared ∧ ∀ l ∈ rest, l ∈ declared ∨ l = kwStatic ∨ l = kwAnon

/-! ## One argument -/

/-- The map with `T` unbound. -/
def un1 : TyMap := ⟨[(kT, none)]⟩
/-- The map with `T` bound. -/
def bd1 (x : Ty) : TyMap := ⟨[(kT, some x)]⟩

theorem un1_get (k : Text) : un1.get k = if kT = k then some none else none := substMap_get1 _ _ _
theorem bd1_get (x : Ty) (k : Text) : (bd1 x).get k = if kT = k then some (some x) else none := substMap_get1 _ _ _
theorem set_un1 (x : Ty) : un1.setMut kT (some x) = bd1 x := by
  simp [un1, bd1, SubstMap.Map.setMut, SubstMap.setFirst]
theorem keyT : (nam kT).paramKey = some kT := by decide
theorem keyE : (nam kE).paramKey = some kE := by decide

theorem subst_bd1 (x : Ty) : (nam kT).subst (bd1 x) = x := by
  have hl : TyMap.look (bd1 x) (nam kT) = some x := by simp [TyMap.look, keyT, bd1_get]
  simp only [nam] at hl ⊢
  rw [Ty.subst, hl]; rfl

theorem mono_bd1 {x : Ty} {m : TyMap} (h : Mono (bd1 x) m) : m = bd1 x := by
  have hk := h.keys
  have hl := h.le kT x (by simp [bd1_get])
  rcases m with ⟨l⟩
  simp only [bd1, List.map_cons, List.map_nil] at hk
  match l, hk with
  | [(k, v)], hk =>
    simp only [List.map_cons, List.map_nil, List.cons.injEq, and_true] at hk
    subst hk
    rw [substMap_get1] at hl
    simp at hl
    rw [hl]; rfl

theorem bind1 {n : Text} (hn : n ≠ kT) (a : Args) (t : Ty) : bindPath (.cons n a .nil) t un1 = none := by
  have : ¬ kT = n := fun e => hn e.symm
  simp [bindPath, un1_get, this]

theorem match1_no {n : Text} (hn : n ≠ kT) {b : Ty} (h : ∀ x, ¬ IsApp1 n b x) : (matchTy b (app1 n (nam kT)) un1).1 = false := by
  have hb := bind1 hn (.angle (.ty (nam kT) .nil))
  cases b
  case path q l s =>
    simp only [matchTy, app1, matchPath, hb]
    split
    · rename_i hlen
      cases s with
      | nil => simp [Segs.len] at hlen
      | cons i a r =>
        cases r with
        | cons _ _ _ => simp [Segs.len] at hlen
        | nil =>
          simp only [matchSegs]
          split
          · rename_i hi
            cases a with
            | none => simp [matchArgs]
            | parens i o => simp [matchArgs]
            | angle g =>
              simp only [matchArgs]
              split
              · rename_i hg
                cases g with
                | nil => simp [GArgs.len] at hg
                | ty x r =>
                  cases r with
                  | nil => exact absurd ⟨q, l, by rw [hi]⟩ (h x)
                  | _ => simp [GArgs.len] at hg
                | _ => simp [GArgs.len, matchG] at hg
              · rename_i hx
                rcases hq : (if (GArgs.ty (nam kT) GArgs.nil).len = g.len then matchG g (GArgs.ty (nam kT) GArgs.nil) un1
                  else (false, un1)) with ⟨a, m⟩
                cases a with
                | false => rfl
                | true => exact (hx m hq).elim
          · rfl
    · rfl
  all_goals simp [matchTy, app1, fallback, hb]

theorem match1 {n : Text} (hn : n ≠ kT) {b x : Ty} (h : IsApp1 n b x) (m : TyMap)
    (hm : matchTy b (app1 n (nam kT)) un1 = (true, m)) : m = bd1 x := by
  obtain ⟨q, l, rfl⟩ := h
  have hb := bind1 hn (.angle (.ty (nam kT) .nil))
  have hin : inside (nam kT) x un1 = (x, bd1 x) := by simp [inside, keyT, un1_get, set_un1]
  simp only [matchTy, app1, matchPath, hb, Segs.len, if_true, matchSegs, matchArgs, GArgs.len, matchG, hin] at hm
  have h1 := mono x x (bd1 x)
  rcases hx : matchTy x x (bd1 x) with ⟨a, m'⟩
  rw [hx] at hm h1
  cases a with
  | false => simp at hm
  | true =>
    simp [matchG, matchSegs] at hm
    rw [← hm]
    exact mono_bd1 h1

theorem match1_free {n : Text} (hn : n ≠ kT) {b x : Ty} (h : IsApp1 n b x) (hf : x.free [kT] = true) :
    matchTy b (app1 n (nam kT)) un1 = (true, bd1 x) := by
  obtain ⟨q, l, rfl⟩ := h
  have hb := bind1 hn (.angle (.ty (nam kT) .nil))
  have hin : inside (nam kT) x un1 = (x, bd1 x) := by simp [inside, keyT, un1_get, set_un1]
  have hr : matchTy x x (bd1 x) = (true, bd1 x) := by
    refine matchTy_refl [kT] _ ?_ x hf
    intro k hk
    rw [bd1_get] at hk
    by_cases e : kT = k
    · simp [e]
    · simp [e] at hk
  simp [matchTy, app1, matchPath, hb, Segs.len, matchSegs, matchArgs, GArgs.len, matchG, hin, hr]

theorem m01 : (SubstMap.ofList ([(kT, Bounds.nil)].map fun p => (p.1, none)) : TyMap) = un1 := rfl

theorem conv1_yes (n : Text) (ty : RTy) (x : Ty) (h : matchTy ty.ty (app1 n (nam kT)) un1 = (true, bd1 x)) :
    isConvPossible (fun _ => []) ⟨app1 n (nam kT), nam kT, [(kT, .nil)], [], none, none⟩ ty none (fun _ => none) =
      .yes x [] (bd1 x) := by
  unfold isConvPossible
  simp only []
  rw [m01, h]
  have := subst_bd1 x
  simp [getTraitBounds, whereBounds, inlineBounds, traitNames, checkAll, satisfies, hasUnbound, finishConv, finishTo,
    FTypes.makeUniqueIfNeed, this]
  simp [bd1]

theorem conv1_no (n : Text) (ty : RTy) (h : (matchTy ty.ty (app1 n (nam kT)) un1).1 = false) :
    isConvPossible (fun _ => []) ⟨app1 n (nam kT), nam kT, [(kT, .nil)], [], none, none⟩ ty none (fun _ => none) = .no := by
  unfold isConvPossible
  simp only []
  rw [m01]
  split
  · rfl
  · rename_i h'; rw [h'] at h; cases h

theorem one_only {n : Text} (hn : n ≠ kT) (ty : RTy) (x : Ty) (h : smartPointerInner ty n = some x) : IsApp1 n ty.ty x := by
  unfold smartPointerInner at h
  by_cases hs : ∃ y, IsApp1 n ty.ty y
  · obtain ⟨y, hy⟩ := hs
    rcases hm : matchTy ty.ty (app1 n (nam kT)) un1 with ⟨a, m⟩
    cases a with
    | false => rw [conv1_no n ty (by rw [hm])] at h; simp at h
    | true =>
      have := match1 hn hy m hm
      rw [this] at hm
      rw [conv1_yes n ty y hm] at h
      simp only [Option.some.injEq] at h
      rw [← h]; exact hy
  · rw [conv1_no n ty (match1_no hn (fun y hy => hs ⟨y, hy⟩))] at h; simp at h

theorem one_all {n : Text} (hn : n ≠ kT) (ty : RTy) (x : Ty) (h : IsApp1 n ty.ty x) (hf : x.free [kT] = true) :
    smartPointerInner ty n = some x := by
  unfold smartPointerInner
  rw [conv1_yes n ty x (match1_free hn h hf)]

/-! ## Two arguments -/

/-- The map of `T` and `E`. -/
def mp2 (x y : Option Ty) : TyMap := ⟨[(kT, x), (kE, y)]⟩

theorem mp2_get (x y : Option Ty) (k : Text) : (mp2 x y).get k = if kT = k then some x else if kE = k then some y else none := by
  unfold mp2
  rw [SubstMap.get_cons, substMap_get1]

theorem mp2_keys {x y : Option Ty} (k : Text) (h : (mp2 x y).get k ≠ none) : k ∈ [kT, kE] := by
  rw [mp2_get] at h
  by_cases e : kT = k
  · simp [e]
  · by_cases e' : kE = k
    · simp [e']
    · simp [e, e'] at h

theorem neTE : ¬ kT = kE := by decide

theorem set_T (x : Ty) : (mp2 none none).setMut kT (some x) = mp2 (some x) none := by
  simp [mp2, SubstMap.Map.setMut, SubstMap.setFirst]
theorem set_E (x y : Ty) : (mp2 (some x) none).setMut kE (some y) = mp2 (some x) (some y) := by
  simp [mp2, SubstMap.Map.setMut, SubstMap.setFirst, neTE]

theorem bind2 {n : Text} (h1 : n ≠ kT) (h2 : n ≠ kE) (a : Args) (t : Ty) : bindPath (.cons n a .nil) t (mp2 none none) = none := by
  have e1 : ¬ kT = n := fun e => h1 e.symm
  have e2 : ¬ kE = n := fun e => h2 e.symm
  simp [bindPath, mp2_get, e1, e2]

theorem subst_T (x y : Ty) : (nam kT).subst (mp2 (some x) (some y)) = x := by
  have hl : TyMap.look (mp2 (some x) (some y)) (nam kT) = some x := by simp [TyMap.look, keyT, mp2_get]
  simp only [nam] at hl ⊢
  rw [Ty.subst, hl]; rfl

theorem subst_E (x y : Ty) : (nam kE).subst (mp2 (some x) (some y)) = y := by
  have hl : TyMap.look (mp2 (some x) (some y)) (nam kE) = some y := by simp [TyMap.look, keyE, mp2_get, neTE]
  simp only [nam] at hl ⊢
  rw [Ty.subst, hl]; rfl

theorem match2_no {n : Text} (h1 : n ≠ kT) (h2 : n ≠ kE) {b : Ty} (h : ∀ x y, ¬ IsApp2 n b x y) :
    (matchTy b (app2 n (nam kT) (nam kE)) (mp2 none none)).1 = false := by
  have hb := bind2 h1 h2 (.angle (.ty (nam kT) (.ty (nam kE) .nil)))
  have hG : ∀ (m : TyMap) (q l) (g : GArgs), b = .path q l (.cons n (.angle g) .nil) →
      (GArgs.ty (nam kT) (.ty (nam kE) .nil)).len = g.len → (matchG g (.ty (nam kT) (.ty (nam kE) .nil)) m).1 = false := by
    intro m q l g e hg
    cases g with
    | nil => simp [GArgs.len] at hg
    | ty x r =>
      cases r with
      | nil => simp [GArgs.len] at hg
      | ty y r' =>
        cases r' with
        | nil => exact absurd ⟨q, l, e⟩ (h x y)
        | _ => simp [GArgs.len] at hg
      | _ =>
        simp only [matchG]
        split
        · simp [matchG]
        · rename_i hx
          rcases hq : matchTy x (inside (nam kT) x m).1 (inside (nam kT) x m).2 with ⟨a, m'⟩
          cases a with
          | false => rfl
          | true => exact (hx m' hq).elim
    | _ => simp [matchG]
  cases b
  case path q l s =>
    simp only [matchTy, app2, matchPath, hb]
    split
    · rename_i hlen
      cases s with
      | nil => simp [Segs.len] at hlen
      | cons i a r =>
        cases r with
        | cons _ _ _ => simp [Segs.len] at hlen
        | nil =>
          simp only [matchSegs]
          split
          · rename_i hi
            subst hi
            cases a with
            | none => simp [matchArgs]
            | parens i o => simp [matchArgs]
            | angle g =>
              have key : (matchArgs (.angle g) (.angle (.ty (nam kT) (.ty (nam kE) .nil))) (mp2 none none)).1 = false := by
                simp only [matchArgs]
                split
                · rename_i hg
                  exact hG _ q l g rfl hg
                · rfl
              split
              · rename_i e
                rw [e] at key; cases key
              · exact key
          · rfl
    · rfl
  all_goals simp [matchTy, app2, fallback, hb]

theorem match2_free {n : Text} (h1 : n ≠ kT) (h2 : n ≠ kE) {b x y : Ty} (h : IsApp2 n b x y) (hx : x.free [kT, kE] = true)
    (hy : y.free [kT, kE] = true) :
    matchTy b (app2 n (nam kT) (nam kE)) (mp2 none none) = (true, mp2 (some x) (some y)) := by
  obtain ⟨q, l, rfl⟩ := h
  have hb := bind2 h1 h2 (.angle (.ty (nam kT) (.ty (nam kE) .nil)))
  have hin : inside (nam kT) x (mp2 none none) = (x, mp2 (some x) none) := by simp [inside, keyT, mp2_get, set_T]
  have hin2 : inside (nam kE) y (mp2 (some x) none) = (y, mp2 (some x) (some y)) := by simp [inside, keyE, mp2_get, neTE, set_E]
  have hr : matchTy x x (mp2 (some x) none) = (true, mp2 (some x) none) := matchTy_refl [kT, kE] _ mp2_keys x hx
  have hr2 : matchTy y y (mp2 (some x) (some y)) = (true, mp2 (some x) (some y)) := matchTy_refl [kT, kE] _ mp2_keys y hy
  simp [matchTy, app2, matchPath, hb, Segs.len, matchSegs, matchArgs, GArgs.len, matchG, hin, hr, hin2, hr2]

theorem m02 : (SubstMap.ofList ([(kT, Bounds.nil), (kE, Bounds.nil)].map fun p => (p.1, none)) : TyMap) = mp2 none none := rfl
theorem m02' : (SubstMap.ofList [(kT, none), (kE, none)] : TyMap) = mp2 none none := rfl

theorem conv2_yes (n : Text) (ty : RTy) (to_ x y : Ty)
    (h : matchTy ty.ty (app2 n (nam kT) (nam kE)) (mp2 none none) = (true, mp2 (some x) (some y))) :
    isConvPossible (fun _ => []) ⟨app2 n (nam kT) (nam kE), to_, [(kT, .nil), (kE, .nil)], [], none, none⟩ ty none (fun _ => none) =
      .yes (to_.subst (mp2 (some x) (some y))) [] (mp2 (some x) (some y)) := by
  unfold isConvPossible
  simp only []
  rw [m02, h]
  simp [getTraitBounds, whereBounds, inlineBounds, traitNames, checkAll, satisfies, hasUnbound, finishConv, finishTo,
    FTypes.makeUniqueIfNeed]
  simp [mp2]

theorem conv2_no (n : Text) (ty : RTy) (to_ : Ty) (h : (matchTy ty.ty (app2 n (nam kT) (nam kE)) (mp2 none none)).1 = false) :
    isConvPossible (fun _ => []) ⟨app2 n (nam kT) (nam kE), to_, [(kT, .nil), (kE, .nil)], [], none, none⟩ ty none (fun _ => none) =
      .no := by
  unfold isConvPossible
  simp only []
  rw [m02]
  split
  · rfl
  · rename_i h'; rw [h'] at h; cases h

/-! ## Lifetimes -/

theorem written_append (a b : List Tok) : written (a ++ b) = written a ++ written b := by
  induction a with
  | nil => rfl
  | cons t a ih => cases t <;> simp [written, ih]

theorem written_map (l : List Text) : written (l.map .lifetime) = l := by
  induction l with
  | nil => rfl
  | cons t a ih => simp [written, ih]

theorem written_opt (b : Bool) (t : Tok) (h : written [t] = []) : written (optTok b t) = [] := by
  cases b
  · rfl
  · exact h

mutual
theorem wTy : ∀ t : Ty, written t.toks = tyLifetimes t
  | .path q l s => by
    have := wSegs s
    cases q <;> cases l <;> simp [Ty.toks, tyLifetimes, written, written_append, optTok, this]
  | .ref l m e => by
    have := wTy e
    cases l <;> cases m <;> simp [Ty.toks, tyLifetimes, written, written_append, optTok, this]
  | .ptr m e => by
    have := wTy e
    cases m <;> simp [Ty.toks, tyLifetimes, written, this]
  | .slice e => by simp [Ty.toks, tyLifetimes, written, written_append, wTy e]
  | .tuple es => by simp [Ty.toks, tyLifetimes, written, written_append, wTys es]
  | .implTrait b => by simp [Ty.toks, tyLifetimes, written, wBounds b]
  | .traitObj d b => by
    have := wBounds b
    cases d <;> simp [Ty.toks, tyLifetimes, written, optTok, this]
  | .bareFn h l i o => by
    have h1 := wTys i
    have h2 := wRet o
    by_cases e : l = []
    · subst e; simp [Ty.toks, tyLifetimes, written, written_append, h1, h2]
    · simp [Ty.toks, tyLifetimes, written, written_append, h1, h2, e, written_map]
  | .array e n => by simp [Ty.toks, tyLifetimes, written, written_append, wTy e]
  | .paren e => by simp [Ty.toks, tyLifetimes, written, written_append, wTy e]
  | .other t => by simp [Ty.toks, tyLifetimes, written]
theorem wTys : ∀ t : Tys, written t.toks = tysLifetimes t
  | .nil => by simp [Tys.toks, tysLifetimes, written]
  | .cons h t => by simp [Tys.toks, tysLifetimes, written, written_append, wTy h, wTys t]
theorem wSegs : ∀ t : Segs, written t.toks = segsLifetimes t
  | .nil => by simp [Segs.toks, segsLifetimes, written]
  | .cons i a .nil => by simp [Segs.toks, segsLifetimes, written, wArgs a]
  | .cons i a (.cons j b r) => by
    have := wSegs (.cons j b r)
    simp [Segs.toks, written, written_append, wArgs a] at this ⊢
    rw [this]; simp [segsLifetimes]
theorem wArgs : ∀ t : Args, written t.toks = argsLifetimes t
  | .none => by simp [Args.toks, argsLifetimes, written]
  | .angle g => by simp [Args.toks, argsLifetimes, written, written_append, wG g]
  | .parens i o => by simp [Args.toks, argsLifetimes, written, written_append, wTys i, wRet o]
theorem wG : ∀ t : GArgs, written t.toks = gargsLifetimes t
  | .nil => by simp [GArgs.toks, gargsLifetimes, written]
  | .ty t r => by simp [GArgs.toks, gargsLifetimes, written, written_append, wTy t, wG r]
  | .lt l r => by simp [GArgs.toks, gargsLifetimes, written, wG r]
  | .assoc i t r => by simp [GArgs.toks, gargsLifetimes, written, written_append, wTy t, wG r]
  | .const c r => by simp [GArgs.toks, gargsLifetimes, written, wG r]
theorem wRet : ∀ t : Ret, written t.toks = retLifetimes t
  | .default => by simp [Ret.toks, retLifetimes, written]
  | .ty t => by simp [Ret.toks, retLifetimes, written, wTy t]
theorem wBounds : ∀ t : Bounds, written t.toks = boundsLifetimes t
  | .nil => by simp [Bounds.toks, boundsLifetimes, written]
  | .trait m l s .nil => by
    have := wSegs s
    cases m <;> cases l <;> simp [Bounds.toks, boundsLifetimes, written, written_append, optTok, this]
  | .trait m l s (.trait m' l' s' r) => by
    have h1 := wSegs s
    have h2 := wBounds (.trait m' l' s' r)
    rw [Bounds.toks, written_append, written_append, written_append, h1, written_opt m _ rfl, written_opt l _ rfl]
    simp only [written, h2]; simp [boundsLifetimes]
    simp
  | .trait m l s (.lt l' r) => by
    have h1 := wSegs s
    have h2 := wBounds (.lt l' r)
    rw [Bounds.toks, written_append, written_append, written_append, h1, written_opt m _ rfl, written_opt l _ rfl]
    simp only [written, h2]; simp [boundsLifetimes]
    simp
  | .lt l .nil => by simp [Bounds.toks, boundsLifetimes, written]
  | .lt l (.trait m' l' s' r) => by
    have h2 := wBounds (.trait m' l' s' r)
    rw [Bounds.toks]
    · simp only [written, h2]; simp [boundsLifetimes]
    · simp
  | .lt l (.lt l' r) => by
    have h2 := wBounds (.lt l' r)
    rw [Bounds.toks]
    · simp only [written, h2]; simp [boundsLifetimes]
    · simp
end

theorem written_commas (l : List Text) : written (commas l) = l := by
  induction l with
  | nil => rfl
  | cons a l ih =>
    cases l with
    | nil => rfl
    | cons b l => simp only [commas, written] at ih ⊢; rw [ih]

theorem commas_noGt (l : List Text) : ∀ t ∈ commas l, t ≠ .gt := by
  induction l with
  | nil => simp [commas]
  | cons a l ih =>
    cases l with
    | nil => simp [commas]
    | cons b l => intro t ht; simp only [commas, List.mem_cons] at ht ih ⊢; rcases ht with rfl | rfl | ht
                  · simp
                  · simp
                  · exact ih t (by simpa [commas] using ht)

theorem split_commas (l : List Text) (r : List Tok) :
    (commas l ++ .gt :: r).takeWhile (· ≠ .gt) = commas l ∧ ((commas l ++ .gt :: r).dropWhile (· ≠ .gt)).drop 1 = r := by
  have h := commas_noGt l
  generalize commas l = c at h
  induction c with
  | nil => simp
  | cons a c ih =>
    have ha := h a (by simp)
    have := ih (fun t ht => h t (by simp [ht]))
    simp only [List.cons_append, List.takeWhile_cons, List.dropWhile_cons, ha, ne_eq, not_false_eq_true, decide_true, if_true]
    exact ⟨by rw [this.1], this.2⟩

/-! ## The properties -/

/-- A type is taken for a smart pointer `name<x>` only if it is written so, and then exactly `x` is returned. -/
theorem C85_pointer_only {name : Text} (hn : name ≠ kT) (ty : RTy) (x : Ty) (h : smartPointerInner ty name = some x) :
    IsApp1 name ty.ty x := one_only hn ty x h

/-- Every type written `name<x>` is recognised, if `x` mentions no type called `T`. -/
theorem C85_pointer_all {name : Text} (hn : name ≠ kT) (ty : RTy) (x : Ty) (h : IsApp1 name ty.ty x) (hx : x.free [kT] = true) :
    smartPointerInner ty name = some x := one_all hn ty x h hx

/-- The same for options. -/
theorem C85_option {opt : Text} (hn : opt ≠ kT) (ty : RTy) (x : Ty) :
    (ifOptionReturnSome opt ty = some x → IsApp1 opt ty.ty x) ∧
    (IsApp1 opt ty.ty x → x.free [kT] = true → ifOptionReturnSome opt ty = some x) :=
  ⟨one_only hn ty x, one_all hn ty x⟩

/-- The same for vectors. -/
theorem C85_vec {vec : Text} (hn : vec ≠ kT) (ty : RTy) (x : Ty) :
    (ifVecReturnElem vec ty = some x → IsApp1 vec ty.ty x) ∧
    (IsApp1 vec ty.ty x → x.free [kT] = true → ifVecReturnElem vec ty = some x) :=
  ⟨one_only hn ty x, one_all hn ty x⟩

/-- A type is taken for a result only if it is written `name<a, b>`. -/
theorem C85_result_only {res : Text} (h1 : res ≠ kT) (h2 : res ≠ kE) (ty : RTy) (p : Ty × Ty)
    (h : ifResultReturnOkErr res ty = some p) : ∃ a b, IsApp2 res ty.ty a b := by
  refine Classical.byContradiction fun hno => ?_
  have hm := match2_no h1 h2 (b := ty.ty) (fun x y hxy => hno ⟨x, y, hxy⟩)
  unfold ifResultReturnOkErr at h
  simp only [conv2_no res ty _ hm] at h
  cases h

/-- Every type written `name<a, b>` is taken for the result with exactly these types, if they mention no type called `T` or `E`. -/
theorem C85_result_all {res : Text} (h1 : res ≠ kT) (h2 : res ≠ kE) (ty : RTy) (a b : Ty) (h : IsApp2 res ty.ty a b)
    (ha : a.free [kT, kE] = true) (hb : b.free [kT, kE] = true) : ifResultReturnOkErr res ty = some (a, b) := by
  unfold ifResultReturnOkErr
  have hm := match2_free h1 h2 h ha hb
  simp only [conv2_yes res ty _ a b hm, subst_T, subst_E]

/-- The variant that works on syntax: only types written `name<a, b>` are recognised, and every one is, with `a`. -/
theorem C85_result_type {res : Text} (h1 : res ≠ kT) (h2 : res ≠ kE) (t : Ty) :
    (∀ x, ifTyResultReturnOk res t = some x → ∃ a b, IsApp2 res t a b) ∧
    (∀ a b, IsApp2 res t a b → a.free [kT, kE] = true → b.free [kT, kE] = true → ifTyResultReturnOk res t = some a) := by
  constructor
  · intro x h
    refine Classical.byContradiction fun hno => ?_
    have hm := match2_no h1 h2 (b := t) (fun x y hxy => hno ⟨x, y, hxy⟩)
    unfold ifTyResultReturnOk at h
    rw [m02'] at h
    split at h
    · rename_i e; rw [e] at hm; cases hm
    · cases h
  · intro a b h ha hb
    unfold ifTyResultReturnOk
    rw [m02', match2_free h1 h2 h ha hb]
    simp only [subst_T]

/-- The two recognisers of results agree wherever the types mention no type called `T` or `E`: one gives the first component of what
the other gives. -/
theorem C85_results_agree {res : Text} (h1 : res ≠ kT) (h2 : res ≠ kE) (ty : RTy) (hf : ty.ty.free [kT, kE] = true) :
    ifTyResultReturnOk res ty.ty = (ifResultReturnOkErr res ty).map (·.1) := by
  by_cases h : ∃ a b, IsApp2 res ty.ty a b
  · obtain ⟨a, b, h⟩ := h
    have hab : a.free [kT, kE] = true ∧ b.free [kT, kE] = true := by
      obtain ⟨q, l, e⟩ := h
      rw [e] at hf
      simp only [Ty.free, Segs.free, Args.free, GArgs.free, Bool.and_eq_true, Bool.and_true] at hf
      exact ⟨hf.2.1, hf.2.2⟩
    rw [C85_result_all h1 h2 ty a b h hab.1 hab.2, (C85_result_type h1 h2 ty.ty).2 a b h hab.1 hab.2]; rfl
  · cases e : ifResultReturnOkErr res ty with
    | some p => exact absurd (C85_result_only h1 h2 ty p e) h
    | none =>
      cases e' : ifTyResultReturnOk res ty.ty with
      | some x => exact absurd ((C85_result_type h1 h2 ty.ty).1 x e') h
      | none => rfl

/-- A slice is recognised exactly when the type is a reference to a slice, exclusive ones only where they are accepted. -/
theorem C85_slice (t : Ty) (acceptMut : Bool) (x : Ty) :
    ifTypeSliceReturnElem t acceptMut = some x ↔ IsSlice t false x ∨ acceptMut = true ∧ IsSlice t true x := by
  unfold IsSlice
  cases t with
  | ref lt mt e =>
    cases mt <;> cases acceptMut <;> cases e <;> simp [ifTypeSliceReturnElem]
  | _ => simp [ifTypeSliceReturnElem]

/-- The list of lifetimes of a type is the list of the lifetimes written in it, in order and with repetitions. -/
theorem C85_lifetimes (t : Ty) : tyLifetimes t = written t.toks := (wTy t).symm

/-- The head of the implementation declares exactly the lifetimes written in the type: no lifetime is left undeclared, and the head is
accepted if and only if the type repeats no lifetime and does not write `'static` or `'_`. -/
theorem C85_head (t : Ty) : ∃ d r, splitHead (implHead t) = some (d, r) ∧ written d = written t.toks ∧ written r = written t.toks ∧
    (HeadOk (written d) (written r) ↔ (written t.toks).Nodup ∧ kwStatic ∉ written t.toks ∧ kwAnon ∉ written t.toks) := by
  refine ⟨commas (tyLifetimes t), [.ident "SwigForeignClass".toList, .for_] ++ t.toks, ?_, ?_, ?_, ?_⟩
  · have h := split_commas (tyLifetimes t) ([.ident "SwigForeignClass".toList, .for_] ++ t.toks)
    have e : implHead t = .impl_ :: .lt :: (commas (tyLifetimes t) ++ .gt :: ([.ident "SwigForeignClass".toList, .for_] ++ t.toks)) := by
      unfold implHead
      generalize "SwigForeignClass".toList = z
      simp
    rw [e]
    simp only [splitHead, h.1, h.2]
  · rw [written_commas, C85_lifetimes]
  · generalize "SwigForeignClass".toList = z
    simp [written]
  · have e : written ([Tok.ident "SwigForeignClass".toList, .for_] ++ t.toks) = written t.toks := by
      generalize "SwigForeignClass".toList = z
      simp [written]
    rw [e, written_commas, C85_lifetimes]
    unfold HeadOk
    exact ⟨fun h => ⟨h.1, h.2.1, h.2.2.1⟩, fun h => ⟨h.1, h.2.1, h.2.2, fun l hl => Or.inl hl⟩⟩

/-! ## Findings -/

/-- FINDING. A type written with a module path, like `std::result::Result<A, B>` or `std::rc::Rc<X>`, has none of the special
shapes. -/
theorem C85_finding_qualified (n m : Text) (hT : n ≠ kT) (hE : n ≠ kE) (a b : Args) (q : Option Text) (l : Bool)
    (name : Text) (impls : List Text) :
    let ty : RTy := ⟨.path q l (.cons m a (.cons n b .nil)), name, impls⟩
    smartPointerInner ty n = none ∧ ifResultReturnOkErr n ty = none := by
  intro ty
  constructor
  · cases h : smartPointerInner ty n with
    | none => rfl
    | some x => obtain ⟨q', l', e⟩ := C85_pointer_only hT ty x h; simp [ty] at e
  · cases h : ifResultReturnOkErr n ty with
    | none => rfl
    | some p => obtain ⟨x, y, q', l', e⟩ := C85_result_only hT hE ty p h; simp [ty] at e

/-- FINDING. A user's type called `T` hides the shape: `Option<v<T>>` is not an option, for every `v`. -/
theorem C85_finding_user_T (opt v : Text) (ho : opt ≠ kT) (hv : v ≠ kT) (name : Text) (impls : List Text) :
    ifOptionReturnSome opt ⟨app1 opt (app1 v (nam kT)), name, impls⟩ = none := by
  have hv' : ¬ v = kT := hv
  have hv'' : ¬ kT = v := fun e => hv e.symm
  have hb := bind1 ho (.angle (.ty (nam kT) .nil))
  have hin : inside (nam kT) (app1 v (nam kT)) un1 = (app1 v (nam kT), bd1 (app1 v (nam kT))) := by
    simp [inside, keyT, un1_get, set_un1]
  have hb2 : ∀ x t, bindPath (.cons v (.angle (.ty (nam kT) .nil)) .nil) t (bd1 x) = none := by
    intro x t; simp [bindPath, bd1_get, hv'']
  have hin2 : ∀ x t, inside (nam kT) t (bd1 x) = (x, bd1 x) := by intro x t; simp [inside, keyT, bd1_get]
  have hno : (matchTy (app1 v (nam kT)) (app1 v (nam kT)) (bd1 (app1 v (nam kT)))).1 = false := by
    have h3 : (matchTy (nam kT) (app1 v (nam kT)) (bd1 (app1 v (nam kT)))).1 = false := by
      simp [nam, app1, matchTy, matchPath, bindPath, bd1_get, hv'', Segs.len, matchSegs, hv']
    rcases hq : matchTy (nam kT) (app1 v (nam kT)) (bd1 (app1 v (nam kT))) with ⟨c, m⟩
    rw [hq] at h3
    simp only at h3
    subst h3
    have : matchTy (app1 v (nam kT)) (app1 v (nam kT)) (bd1 (app1 v (nam kT))) = (false, m) := by
      conv => lhs; unfold app1
      simp only [matchTy, matchPath, hb2, Segs.len, if_true, matchSegs, matchArgs, matchG, hin2]
      have : Ty.path none false (.cons v (.angle (.ty (nam kT) .nil)) .nil) = app1 v (nam kT) := rfl
      rw [this, hq]
    rw [this]
  have hm : (matchTy (app1 opt (app1 v (nam kT))) (app1 opt (nam kT)) un1).1 = false := by
    rcases hq : matchTy (app1 v (nam kT)) (app1 v (nam kT)) (bd1 (app1 v (nam kT))) with ⟨c, m⟩
    rw [hq] at hno
    simp only at hno
    subst hno
    have e1 : app1 opt (app1 v (nam kT)) = .path none false (.cons opt (.angle (.ty (app1 v (nam kT)) .nil)) .nil) := rfl
    have e2 : app1 opt (nam kT) = .path none false (.cons opt (.angle (.ty (nam kT) .nil)) .nil) := rfl
    rw [e1, e2]
    simp only [matchTy, matchPath, hb, Segs.len, if_true, matchSegs, matchArgs, matchG, hin, hq, GArgs.len]
  unfold ifOptionReturnSome
  rw [conv1_no opt _ hm]

/-- FINDING. A class whose type repeats a lifetime gets an implementation that declares it twice, and one that writes `'static` gets one
that declares `'static`; neither compiles. -/
theorem C85_finding_repeated_lifetime (n a : Text) :
    ¬ HeadOk (tyLifetimes (.path none false (.cons n (.angle (.lt a (.lt a .nil))) .nil)))
      (written (Ty.toks (.path none false (.cons n (.angle (.lt a (.lt a .nil))) .nil)))) ∧
    ¬ HeadOk (tyLifetimes (.path none false (.cons n (.angle (.lt kwStatic .nil)) .nil)))
      (written (Ty.toks (.path none false (.cons n (.angle (.lt kwStatic .nil)) .nil)))) := by
  simp [HeadOk, tyLifetimes, segsLifetimes, argsLifetimes, gargsLifetimes]

/-! ## Examples -/

def kwFoo : Text := ['F', 'o', 'o']
def kwOption : Text := ['O', 'p', 't', 'i', 'o', 'n']
def kwResult : Text := ['R', 'e', 's', 'u', 'l', 't']
def kwStr : Text := ['S', 't', 'r']

example : ifOptionReturnSome kwOption ⟨app1 kwOption (app1 kwFoo (nam kwStr)), [], []⟩ = some (app1 kwFoo (nam kwStr)) :=
  (C85_option (by decide) _ _).2 ⟨none, false, rfl⟩ (by decide)

example : ifResultReturnOkErr kwResult ⟨app2 kwResult (app1 kwFoo (nam kwStr)) (nam kwStr), [], []⟩ =
    some (app1 kwFoo (nam kwStr), nam kwStr) :=
  C85_result_all (by decide) (by decide) _ _ _ ⟨none, false, rfl⟩ (by decide) (by decide)

example : ifTyResultReturnOk kwResult (app2 kwResult (app1 kwFoo (nam kwStr)) (nam kwStr)) = some (app1 kwFoo (nam kwStr)) := by decide

example : smartPointerInner ⟨app2 kwFoo (nam kwStr) (nam kwStr), [], []⟩ kwFoo = none := by decide

example : ifTypeSliceReturnElem (.ref none true (.slice (nam kwStr))) false = none ∧
    ifTypeSliceReturnElem (.ref none true (.slice (nam kwStr))) true = some (nam kwStr) := by decide

/-- A type like `Foo<'a, Foo<'b>>`. -/
def twoLts : Ty := .path none false (.cons kwFoo (.angle (.lt ['a'] (.ty (.path none false (.cons kwFoo (.angle (.lt ['b'] .nil)) .nil))
  .nil))) .nil)

example : HeadOk (tyLifetimes twoLts) (written twoLts.toks) := by
  have : tyLifetimes twoLts = [['a'], ['b']] ∧ written twoLts.toks = [['a'], ['b']] := by decide
  rw [this.1, this.2]
  unfold HeadOk
  decide

end Flapi.Shapes
