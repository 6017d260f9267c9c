import Verif.Python.Eval
import Verif.Python.CallProps
/-!
# Python: results arrive as Rust returned them (C57)
-/
namespace Flapi.Py

/-! ## Specification -/

/-- The values a Rust function of the given result type returns.  (`tail`: the remaining components of a tuple.)  Variants of enums are listed ones. -/
inductive Returns (env : Env) (heap : List Int) : Bool → RTy → Val → Prop where
  | unit : Returns env heap false .unit .nil
  | prim (t : RTy) (n : Int) : supported t = true → Returns env heap false t (.prim n)
  | object (t : RTy) (p : Ptr) (c : Nat) (x : Int) : classOf t = Option.some (.none, p, c) → p.isShared = false → Returns env heap false t (.data x)
  | shared (t : RTy) (p : Ptr) (c a : Nat) : classOf t = Option.some (.none, p, c) → p.isShared = true → a < heap.length → Returns env heap false t (.handle a)
  | objectLent (t : RTy) (r : Refr) (p : Ptr) (c : Nat) (x : Int) : classOf t = Option.some (r, p, c) → r ≠ .none → p.isShared = false →
      Returns env heap false t (.lent (.data x))
  | sharedLent (t : RTy) (r : Refr) (p : Ptr) (c a : Nat) : classOf t = Option.some (r, p, c) → r ≠ .none → p.isShared = true → a < heap.length →
      Returns env heap false t (.lent (.handle a))
  | enumerator (e i : Nat) : i < (env.discr e).length → Returns env heap false (.enm e) (.enm e i)
  | none (t : RTy) : Returns env heap false (.opt t) .none
  | some (t : RTy) (v : Val) : Returns env heap false t v → Returns env heap false (.opt t) (.some v)
  | nil (t : RTy) : Returns env heap false (.vec t) .nil
  | cons (t : RTy) (v l : Val) : Returns env heap false t v → Returns env heap false (.vec t) l → Returns env heap false (.vec t) (.cons v l)
  | slice (t : RTy) (v : Val) : Returns env heap false (.vec t) v → Returns env heap false (.ref (.slice t)) (.lent v)
  | ok (t err : RTy) (v : Val) : Returns env heap false t v → Returns env heap false (.res t err) (.okv v)
  | err (t err : RTy) (m : Int) : Returns env heap false (.res t err) (.errv m)
  | ref (t : RTy) (v : Val) : classOf (.ref t) = Option.none → Returns env heap false t v → Returns env heap false (.ref t) (.lent v)
  | refMut (t : RTy) (v : Val) : classOf (.refMut t) = Option.none → Returns env heap false t v → Returns env heap false (.refMut t) (.lent v)
  | tnil : Returns env heap true .unit .nil
  | tcons (tail : Bool) (a r : RTy) (v l : Val) : Returns env heap false a v → Returns env heap true r l → Returns env heap tail (.tcons a r) (.cons v l)

/-- What Python receives: numbers and strings as they are, the number of the variant, lists and tuples in order, `None` for `()`; for an object by value
or by reference a new Python object (cell number at least `old`) with the same content; for an `Arc` a Python object of the same Rust object. -/
inductive Shows (env : Env) (old : Nat) (heap : List Int) : Bool → RTy → Val → Val → Prop where
  | unit (v : Val) : Shows env old heap false .unit v .none
  | prim (t : RTy) (n : Int) : supported t = true → Shows env old heap false t (.prim n) (.prim n)
  | object (t : RTy) (r : Refr) (p : Ptr) (c : Nat) (v : Val) (x : Int) (a : Nat) : classOf t = Option.some (r, p, c) → p.isShared = false →
      v = (if r = .none then .data x else .lent (.data x)) → old ≤ a → heap[a]? = Option.some x → Shows env old heap false t v (.ref a)
  | shared (t : RTy) (r : Refr) (p : Ptr) (c a : Nat) (v : Val) : classOf t = Option.some (r, p, c) → p.isShared = true →
      v = (if r = .none then .handle a else .lent (.handle a)) → Shows env old heap false t v (.ref a)
  | enumerator (e i : Nat) (d : Int) : (env.discr e)[i]? = Option.some d → Shows env old heap false (.enm e) (.enm e i) (.prim (asU32 d))
  | none (t : RTy) : Shows env old heap false (.opt t) .none .none
  | some (t : RTy) (v w : Val) : Shows env old heap false t v w → Shows env old heap false (.opt t) (.some v) (.some w)
  | nil (t : RTy) : Shows env old heap false (.vec t) .nil .nil
  | cons (t : RTy) (v l w m : Val) : Shows env old heap false t v w → Shows env old heap false (.vec t) l m →
      Shows env old heap false (.vec t) (.cons v l) (.cons w m)
  | slice (t : RTy) (v w : Val) : Shows env old heap false (.vec t) v w → Shows env old heap false (.ref (.slice t)) (.lent v) w
  | ok (t err : RTy) (v w : Val) : Shows env old heap false t v w → Shows env old heap false (.res t err) (.okv v) w
  | ref (t : RTy) (v w : Val) : classOf (.ref t) = Option.none → Shows env old heap false t v w → Shows env old heap false (.ref t) (.lent v) w
  | refMut (t : RTy) (v w : Val) : classOf (.refMut t) = Option.none → Shows env old heap false t v w → Shows env old heap false (.refMut t) (.lent v) w
  | tnil : Shows env old heap true .unit .nil .nil
  | tcons (tail : Bool) (a r : RTy) (v l w m : Val) : Shows env old heap false a v w → Shows env old heap true r l m →
      Shows env old heap tail (.tcons a r) (.cons v l) (.cons w m)

/-- The errors in a result, in order. -/
def errs : Val → List Int
  | .errv m => [m]
  | .some v => errs v
  | .lent v => errs v
  | .okv v => errs v
  | .cons v l => errs v ++ errs l
  | _ => []

/-- The contents of the objects in a result that are not in an `Arc`, in order. -/
def datas : Val → List Int
  | .data x => [x]
  | .some v => datas v
  | .lent v => datas v
  | .okv v => datas v
  | .cons v l => datas v ++ datas l
  | _ => []

/-! ## Lemmas -/

theorem Shows.mono {env : Env} {old old' : Nat} {heap more : List Int} {tail : Bool} {t : RTy} {v w : Val} (ho : old ≤ old')
    (h : Shows env old' heap tail t v w) : Shows env old (heap ++ more) tail t v w := by
  induction h with
  | unit v => exact .unit v
  | prim t n h => exact .prim t n h
  | object t r p c v x a h1 h2 h3 h4 h5 =>
    refine .object t r p c v x a h1 h2 h3 (by omega) ?_
    rw [List.getElem?_append_left (List.getElem?_eq_some_iff.1 h5).1]
    exact h5
  | shared t r p c a v h1 h2 h3 => exact .shared t r p c a v h1 h2 h3
  | enumerator e i d h => exact .enumerator e i d h
  | none t => exact .none t
  | some t v w _ ih => exact .some t v w ih
  | nil t => exact .nil t
  | cons t v l w m _ _ ih1 ih2 => exact .cons t v l w m ih1 ih2
  | slice t v w _ ih => exact .slice t v w ih
  | ok t e v w _ ih => exact .ok t e v w ih
  | ref t v w h _ ih => exact .ref t v w h ih
  | refMut t v w h _ ih => exact .refMut t v w h ih
  | tnil => exact .tnil
  | tcons tail a r v l w m _ _ ih1 ih2 => exact .tcons tail a r v l w m ih1 ih2

theorem Returns.grow {env : Env} {heap more : List Int} {tail : Bool} {t : RTy} {v : Val} (h : Returns env heap tail t v) :
    Returns env (heap ++ more) tail t v := by
  induction h with
  | unit => exact .unit
  | prim t n h => exact .prim t n h
  | object t p c x h1 h2 => exact .object t p c x h1 h2
  | shared t p c a h1 h2 h3 => exact .shared t p c a h1 h2 (by simp; omega)
  | objectLent t r p c x h1 h2 h3 => exact .objectLent t r p c x h1 h2 h3
  | sharedLent t r p c a h1 h2 h3 h4 => exact .sharedLent t r p c a h1 h2 h3 (by simp; omega)
  | enumerator e i h => exact .enumerator e i h
  | none t => exact .none t
  | some t v _ ih => exact .some t v ih
  | nil t => exact .nil t
  | cons t v l _ _ ih1 ih2 => exact .cons t v l ih1 ih2
  | slice t v _ ih => exact .slice t v ih
  | ok t e v _ ih => exact .ok t e v ih
  | err t e m => exact .err t e m
  | ref t v h _ ih => exact .ref t v h ih
  | refMut t v h _ ih => exact .refMut t v h ih
  | tnil => exact .tnil
  | tcons tail a r v l _ _ ih1 ih2 => exact .tcons tail a r v l ih1 ih2

/-- What is proved of the evaluation of a result. -/
def GoodR (env : Env) (heap : List Int) (tail : Bool) (t : RTy) (v : Val) : ROut → Prop
  | .ok w h => errs v = [] ∧ h = heap ++ datas v ∧ Shows env heap.length h tail t v w
  | .raise m => (errs v).head? = some m
  | .stuck => False

theorem retClass_good (env : Env) {t : RTy} {r : Refr} {p : Ptr} {c : Nat} (hc : classOf t = some (r, p, c)) {call : RExp} {P : RTy} {e : RExp}
    (hg : retClass env r p c call = some (P, e)) (heap : List Int) (var v : Val) (hcall : evalR env call heap var = .ok v heap)
    (hv : Returns env heap false t v) : GoodR env heap false t v (evalR env e heap var) := by
  -- the value without the reference
  obtain ⟨u, hu, hvu⟩ : ∃ u, (u = (if r = .none then v else u) ∧ (r = .none ∨ v = .lent u)) ∧
      ((∃ x, u = .data x ∧ p.isShared = false) ∨ (∃ a, u = .handle a ∧ p.isShared = true)) := by
    cases hv with
    | unit => simp [classOf, unref, smart] at hc
    | prim _ n hs =>
      unfold supported at hs
      split at hs
      · simp [classOf, unref, smart] at hc
      · simp [classOf, unref, smart] at hc
      · cases hs
    | object _ p' c' x h1 h2 =>
      rw [hc] at h1; simp at h1
      exact ⟨.data x, ⟨by simp [h1], .inl h1.1⟩, .inl ⟨x, rfl, by rw [h1.2.1]; exact h2⟩⟩
    | shared _ p' c' a h1 h2 =>
      rw [hc] at h1; simp at h1
      exact ⟨.handle a, ⟨by simp [h1], .inl h1.1⟩, .inr ⟨a, rfl, by rw [h1.2.1]; exact h2⟩⟩
    | objectLent _ r' p' c' x h1 h2 h3 =>
      rw [hc] at h1; simp at h1
      exact ⟨.data x, ⟨by rw [if_neg (h1.1 ▸ h2)], .inr rfl⟩, .inl ⟨x, rfl, by rw [h1.2.1]; exact h3⟩⟩
    | sharedLent _ r' p' c' a h1 h2 h3 =>
      rw [hc] at h1; simp at h1
      exact ⟨.handle a, ⟨by rw [if_neg (h1.1 ▸ h2)], .inr rfl⟩, .inr ⟨a, rfl, by rw [h1.2.1]; exact h3⟩⟩
    | enumerator => simp [classOf, unref, smart] at hc
    | none => simp [classOf, unref, smart] at hc
    | some => simp [classOf, unref, smart] at hc
    | nil => simp [classOf, unref, smart] at hc
    | cons => simp [classOf, unref, smart] at hc
    | slice => simp [classOf, unref, smart] at hc
    | ok => simp [classOf, unref, smart] at hc
    | err => simp [classOf, unref, smart] at hc
    | ref _ _ h => rw [hc] at h; cases h
    | refMut _ _ h => rw [hc] at h; cases h
    | tcons => simp [classOf, unref, smart] at hc
  unfold retClass at hg
  dsimp only at hg
  rw [Option.bind_eq_some_iff] at hg
  obtain ⟨call', hcl, hwr⟩ := hg
  rw [Option.map_eq_some_iff] at hwr
  obtain ⟨wr, hwr, heq⟩ := hwr
  simp only [Prod.mk.injEq] at heq
  obtain ⟨_, rfl⟩ := heq
  have hcall' : evalR env call' heap var = .ok u heap := by
    by_cases hr : r = .none
    · subst hr
      simp only [ne_eq, not_true_eq_false, if_false, Option.some.injEq] at hcl
      subst hcl
      rw [hcall]
      simp only [if_true] at hu
      rw [hu.1]
    · have hlent := hu.2.resolve_left hr
      rw [if_pos hr] at hcl
      split at hcl
      · cases hcl
      · split at hcl
        · simp only [Option.some.injEq] at hcl
          subst hcl
          simp only [evalR, hcall, ROut.bind, hlent]
        · cases hcl
  have hwrap : evalR env wr heap var = .ok u heap := by
    unfold wrapFor at hwr
    split at hwr <;> simp only [Option.some.injEq, reduceCtorEq] at hwr <;> subst hwr <;> simpa only [evalR] using hcall'
  have hdat : ∀ x, u = .data x → errs v = [] ∧ datas v = [x] ∧ v = (if r = .none then .data x else .lent (.data x)) := by
    rintro x rfl
    by_cases hr : r = .none
    · subst hr
      simp only [if_true] at hu
      rw [← hu.1]
      exact ⟨rfl, rfl, rfl⟩
    · rw [hu.2.resolve_left hr, if_neg hr]
      exact ⟨rfl, rfl, rfl⟩
  have hhan : ∀ a, u = .handle a → errs v = [] ∧ datas v = [] ∧ v = (if r = .none then .handle a else .lent (.handle a)) := by
    rintro a rfl
    by_cases hr : r = .none
    · subst hr
      simp only [if_true] at hu
      rw [← hu.1]
      exact ⟨rfl, rfl, rfl⟩
    · rw [hu.2.resolve_left hr, if_neg hr]
      exact ⟨rfl, rfl, rfl⟩
  rcases hvu with ⟨x, rfl, hp⟩ | ⟨a, rfl, hp⟩
  · obtain ⟨h1, h2, h3⟩ := hdat x rfl
    simp only [evalR, hwrap, ROut.bind]
    refine ⟨h1, by rw [h2], .object t r p c v x _ hc hp h3 (Nat.le_refl _) (by simp)⟩
  · obtain ⟨h1, h2, h3⟩ := hhan a rfl
    simp only [evalR, hwrap, ROut.bind]
    exact ⟨h1, by rw [h2]; simp, .shared t r p c a v hc hp h3⟩

theorem mapValsR_good (env : Env) (t : RTy) (f : List Int → Val → ROut)
    (hf : ∀ h w, Returns env h false t w → GoodR env h false t w (f h w)) (v : Val) :
    ∀ heap, Returns env heap false (.vec t) v → GoodR env heap false (.vec t) v (mapValsR f heap v) := by
  induction v with
  | nil => intro heap _; exact ⟨rfl, by simp [datas], .nil _⟩
  | cons x l _ ih =>
    intro heap hv
    cases hv with
    | cons _ _ _ hx hl =>
      have h1 := hf heap x hx
      simp only [mapValsR]
      cases hfx : f heap x with
      | stuck => rw [hfx] at h1; exact h1.elim
      | raise m =>
        rw [hfx] at h1
        simp only [ROut.bind, GoodR] at h1 ⊢
        simp only [errs, List.head?_append, h1, Option.some_or]
      | ok w h =>
        rw [hfx] at h1
        obtain ⟨he, rfl, hs⟩ := h1
        have h2 := ih (heap ++ datas x) hl.grow
        simp only [ROut.bind]
        cases hm : mapValsR f (heap ++ datas x) l with
        | stuck => rw [hm] at h2; exact h2.elim
        | raise m =>
          rw [hm] at h2
          simp only [GoodR] at h2 ⊢
          simp only [errs, he, List.nil_append, h2]
        | ok m h =>
          rw [hm] at h2
          obtain ⟨he2, rfl, hs2⟩ := h2
          refine ⟨by simp [errs, he, he2], by simp [datas], .cons _ _ _ _ _ (hs.mono (Nat.le_refl _)) ?_⟩
          have := hs2.mono (old := heap.length) (more := []) (by simp)
          simpa using this
  | _ =>
    intro heap hv
    exfalso
    have h1 : classOf (.vec t) = none := rfl
    have h2 : supported (.vec t) = false := rfl
    cases hv <;> simp_all

mutual
theorem genRet_good (env : Env) (t : RTy) (call : RExp) (P : RTy) (e : RExp) (h : genRet env t call = some (P, e)) (heap : List Int) (var v : Val)
    (hcall : evalR env call heap var = .ok v heap) (hv : Returns env heap false t v) : GoodR env heap false t v (evalR env e heap var) := by
  rw [genRet.eq_def] at h
  split at h
  · rename_i hun
    subst hun
    simp only [Option.some.injEq, Prod.mk.injEq] at h
    obtain ⟨rfl, rfl⟩ := h
    have hnil : v = .nil := by
      have h1 : classOf .unit = none := rfl
      have h2 : supported .unit = false := rfl
      cases hv <;> simp_all
    subst hnil
    simp only [evalR, hcall, ROut.bind]
    exact ⟨rfl, by simp [datas], .unit _⟩
  · rename_i hun
    split at h
    · rename_i hs
      simp only [Option.some.injEq, Prod.mk.injEq] at h
      obtain ⟨rfl, rfl⟩ := h
      rw [hcall]
      have hcl : classOf t = none := by
        unfold supported at hs
        split at hs
        · rfl
        · rfl
        · cases hs
      cases hv with
      | prim _ n _ => exact ⟨rfl, by simp [datas], .prim _ _ hs⟩
      | ref u v hc hv' =>
        unfold supported at hs
        split at hs
        · rename_i hh; cases hh
        · rename_i hh
          cases hh
          exfalso
          have h2 : supported .str = false := rfl
          have h1 : classOf .str = none := rfl
          cases hv' <;> simp_all
        · cases hs
      | _ => simp_all [supported]
    · rename_i hs
      split at h
      · rename_i r p c hc
        exact retClass_good env hc h heap var v hcall hv
      · rename_i hc
        split at h
        · rename_i en
          split at h
          · simp only [Option.some.injEq, Prod.mk.injEq] at h
            obtain ⟨rfl, rfl⟩ := h
            cases hv with
            | enumerator _ i hi =>
              simp only [evalR, hcall, ROut.bind]
              have : (env.discr en)[i]? = some (env.discr en)[i] := List.getElem?_eq_getElem hi
              rw [this]
              exact ⟨rfl, by simp [datas], .enumerator _ _ _ this⟩
            | _ => simp_all [supported]
          · cases h
        · rename_i u
          rw [Option.map_eq_some_iff] at h
          obtain ⟨⟨p', e'⟩, h1, h2⟩ := h
          simp only [Prod.mk.injEq] at h2
          obtain ⟨rfl, rfl⟩ := h2
          cases hv with
          | none =>
            simp only [evalR, hcall, ROut.bind]
            exact ⟨rfl, by simp [datas], .none _⟩
          | some _ w hw =>
            have ih := genRet_good env u .call p' e' h1 heap w w rfl hw
            simp only [evalR, hcall, ROut.bind]
            cases he : evalR env e' heap w with
            | stuck => rw [he] at ih; exact ih
            | raise m => rw [he] at ih; exact ih
            | ok w' h' =>
              rw [he] at ih
              exact ⟨ih.1, ih.2.1, .some _ _ _ ih.2.2⟩
          | _ => simp_all [supported]
        · rename_i u
          rw [Option.map_eq_some_iff] at h
          obtain ⟨⟨p', e'⟩, h1, h2⟩ := h
          simp only [Prod.mk.injEq] at h2
          obtain ⟨rfl, rfl⟩ := h2
          cases hv with
          | slice _ w hw =>
            have ih := mapValsR_good env u (fun h w => evalR env e' h w) (fun h w hw => genRet_good env u .call p' e' h1 h w w rfl hw) w heap hw
            simp only [evalR, hcall, ROut.bind]
            cases he : mapValsR (fun h w => evalR env e' h w) heap w with
            | stuck => rw [he] at ih; exact ih
            | raise m => rw [he] at ih; exact ih
            | ok w' h' =>
              rw [he] at ih
              exact ⟨ih.1, ih.2.1, .slice _ _ _ ih.2.2⟩
          | ref _ w _ hw =>
            exfalso
            have h2 : supported (.slice u) = false := rfl
            have h1 : classOf (.slice u) = none := rfl
            cases hw <;> simp_all
          | _ => simp_all [supported]
        · rename_i u
          rw [Option.map_eq_some_iff] at h
          obtain ⟨⟨p', e'⟩, h1, h2⟩ := h
          simp only [Prod.mk.injEq] at h2
          obtain ⟨rfl, rfl⟩ := h2
          simp only [evalR, hcall, ROut.bind]
          exact mapValsR_good env u (fun h w => evalR env e' h w) (fun h w hw => genRet_good env u .call p' e' h1 h w w rfl hw) v heap hv
        · rename_i a b
          rw [Option.map_eq_some_iff] at h
          obtain ⟨⟨p', e'⟩, h1, h2⟩ := h
          simp only [Prod.mk.injEq] at h2
          obtain ⟨rfl, rfl⟩ := h2
          cases hv with
          | ok _ _ w hw =>
            have ih := genRet_good env a .call p' e' h1 heap w w rfl hw
            simp only [evalR, hcall, ROut.bind]
            cases he : evalR env e' heap w with
            | stuck => rw [he] at ih; exact ih
            | raise m => rw [he] at ih; exact ih
            | ok w' h' =>
              rw [he] at ih
              exact ⟨ih.1, ih.2.1, .ok _ _ _ _ ih.2.2⟩
          | err _ _ m =>
            simp only [evalR, hcall, ROut.bind]
            rfl
          | _ => simp_all [supported]
        · rename_i u hsl
          cases hv with
          | ref _ w hcu hw =>
            have ih := genRet_good env u (.clone call) P e h heap var w (by simp [evalR, hcall, ROut.bind]) hw
            cases he : evalR env e heap var with
            | stuck => rw [he] at ih; exact ih
            | raise m => rw [he] at ih; exact ih
            | ok w' h' =>
              rw [he] at ih
              exact ⟨ih.1, ih.2.1, .ref _ _ _ hcu ih.2.2⟩
          | slice u' => exact (hsl _ rfl).elim
          | _ => simp_all [supported]
        · rename_i u
          cases hv with
          | refMut _ w hcu hw =>
            have ih := genRet_good env u (.clone call) P e h heap var w (by simp [evalR, hcall, ROut.bind]) hw
            cases he : evalR env e heap var with
            | stuck => rw [he] at ih; exact ih
            | raise m => rw [he] at ih; exact ih
            | ok w' h' =>
              rw [he] at ih
              exact ⟨ih.1, ih.2.1, .refMut _ _ _ hcu ih.2.2⟩
          | _ => simp_all [supported]
        · rename_i a r
          rw [Option.bind_eq_some_iff] at h
          obtain ⟨⟨p', e'⟩, h1, h2⟩ := h
          rw [Option.map_eq_some_iff] at h2
          obtain ⟨⟨ps, es⟩, h2, h3⟩ := h2
          simp only [Prod.mk.injEq] at h3
          obtain ⟨rfl, rfl⟩ := h3
          have : evalR env (.tuple call (.tcons e' es)) heap var = evalR env (.tcons e' es) heap v := by
            simp only [evalR, hcall, ROut.bind]
          rw [this]
          cases hv with
          | tcons _ _ _ x l hx hl =>
            have ih := genRet_good env a .call p' e' h1 heap x x rfl hx
            simp only [evalR]
            cases he : evalR env e' heap x with
            | stuck => rw [he] at ih; exact ih.elim
            | raise m =>
              rw [he] at ih
              simp only [ROut.bind, GoodR] at ih ⊢
              simp only [errs, List.head?_append, ih, Option.some_or]
            | ok w h =>
              rw [he] at ih
              obtain ⟨he1, rfl, hs1⟩ := ih
              have ih2 := genTail_good env r ps es h2 (heap ++ datas x) l hl.grow
              simp only [ROut.bind]
              cases hm : evalR env es (heap ++ datas x) l with
              | stuck => rw [hm] at ih2; exact ih2.elim
              | raise m =>
                rw [hm] at ih2
                simp only [GoodR] at ih2 ⊢
                simp only [errs, he1, List.nil_append, ih2]
              | ok m h =>
                rw [hm] at ih2
                obtain ⟨he2, rfl, hs2⟩ := ih2
                refine ⟨by simp [errs, he1, he2], by simp [datas], .tcons _ _ _ _ _ _ _ (hs1.mono (Nat.le_refl _)) ?_⟩
                have := hs2.mono (old := heap.length) (more := []) (by simp)
                simpa using this
          | _ => simp_all [supported]
        · cases h
termination_by sizeOf t
decreasing_by all_goals (simp_wf; subst_vars; simp; try omega)

theorem genTail_good (env : Env) (t P : RTy) (e : RExp) (h : genRet.genTail env t = some (P, e)) (heap : List Int) (v : Val)
    (hv : Returns env heap true t v) : GoodR env heap true t v (evalR env e heap v) := by
  rw [genRet.genTail.eq_def] at h
  split at h
  · simp only [Option.some.injEq, Prod.mk.injEq] at h
    obtain ⟨rfl, rfl⟩ := h
    cases hv
    exact ⟨rfl, by simp [datas], .tnil⟩
  · rename_i a r
    rw [Option.bind_eq_some_iff] at h
    obtain ⟨⟨p', e'⟩, h1, h2⟩ := h
    rw [Option.map_eq_some_iff] at h2
    obtain ⟨⟨ps, es⟩, h2, h3⟩ := h2
    simp only [Prod.mk.injEq] at h3
    obtain ⟨rfl, rfl⟩ := h3
    cases hv with
    | tcons _ _ _ x l hx hl =>
      have ih := genRet_good env a .call p' e' h1 heap x x rfl hx
      simp only [evalR]
      cases he : evalR env e' heap x with
      | stuck => rw [he] at ih; exact ih.elim
      | raise m =>
        rw [he] at ih
        simp only [ROut.bind, GoodR] at ih ⊢
        simp only [errs, List.head?_append, ih, Option.some_or]
      | ok w h =>
        rw [he] at ih
        obtain ⟨he1, rfl, hs1⟩ := ih
        have ih2 := genTail_good env r ps es h2 (heap ++ datas x) l hl.grow
        simp only [ROut.bind]
        cases hm : evalR env es (heap ++ datas x) l with
        | stuck => rw [hm] at ih2; exact ih2.elim
        | raise m =>
          rw [hm] at ih2
          simp only [GoodR] at ih2 ⊢
          simp only [errs, he1, List.nil_append, ih2]
        | ok m h =>
          rw [hm] at ih2
          obtain ⟨he2, rfl, hs2⟩ := ih2
          refine ⟨by simp [errs, he1, he2], by simp [datas], .tcons _ _ _ _ _ _ _ (hs1.mono (Nat.le_refl _)) ?_⟩
          have := hs2.mono (old := heap.length) (more := []) (by simp)
          simpa using this
  · cases h
termination_by sizeOf t
decreasing_by all_goals (simp_wf; subst_vars; simp; try omega)
end

/-! ## Theorems -/

/-- Whatever a Rust function returns: if it contains no error, Python receives it (every object that is not in an `Arc` in a cell of its own, nothing else
changed); otherwise the first error is raised. -/
theorem C57_results (env : Env) (t P : RTy) (e : RExp) (h : genRet env t .call = some (P, e)) (heap : List Int) (v : Val)
    (hv : Returns env heap false t v) :
    (errs v = [] → ∃ w, evalR env e heap v = .ok w (heap ++ datas v) ∧ Shows env heap.length (heap ++ datas v) false t v w) ∧
    (∀ m, (errs v).head? = some m → evalR env e heap v = .raise m) := by
  have := genRet_good env t .call P e h heap v v rfl hv
  cases hr : evalR env e heap v with
  | stuck => rw [hr] at this; exact this.elim
  | raise m =>
    rw [hr] at this
    simp only [GoodR] at this
    refine ⟨fun he => ?_, fun m' hm => ?_⟩
    · rw [he] at this; cases this
    · rw [this] at hm; simp at hm; rw [hm]
  | ok w h' =>
    rw [hr] at this
    obtain ⟨h1, rfl, h3⟩ := this
    refine ⟨fun _ => ⟨w, rfl, h3⟩, fun m hm => ?_⟩
    rw [h1] at hm; cases hm

/-- Types made of numbers, strings, enums, exported classes, `Option` and `Vec`. -/
def plain : RTy → Bool
  | .opt t => plain t
  | .vec t => plain t
  | .prim _ => true
  | .ref .str => true
  | .cls _ => true
  | .enm _ => true
  | _ => false

/-- What came out of Rust, passed back to an argument of the same type, is the same value again: numbers, variants, lists, and the content of objects. -/
theorem C57_round_trip (env : Env) (old : Nat) (heap : List Int) (t : RTy) (hp : plain t = true) (v w : Val)
    (h : Shows env old heap false t v w) : Denotes env heap t w v := by
  generalize ht : false = tail at h
  induction h with
  | unit => cases hp
  | prim t n hs => exact .prim _ _ hs
  | object t r p c v x a hc hsh hv _ hx =>
    obtain ⟨u, hu, hpp⟩ := classOf_cases hc
    have : t = .cls c ∧ r = .none := by
      rcases hu with ⟨rfl, rfl⟩ | ⟨rfl, rfl⟩ | ⟨rfl, rfl⟩ <;> rcases hpp with ⟨rfl, rfl⟩ | ⟨rfl, rfl⟩ | ⟨rfl, rfl⟩ | ⟨rfl, rfl⟩ | ⟨rfl, rfl⟩ <;>
        first | exact ⟨rfl, rfl⟩ | (simp [plain] at hp)
    obtain ⟨rfl, rfl⟩ := this
    rw [if_pos rfl] at hv
    subst hv
    exact .byValue _ _ _ hx
  | shared t r p c a v hc hsh hv =>
    exfalso
    obtain ⟨u, hu, hpp⟩ := classOf_cases hc
    rcases hu with ⟨rfl, rfl⟩ | ⟨rfl, rfl⟩ | ⟨rfl, rfl⟩ <;> rcases hpp with ⟨rfl, rfl⟩ | ⟨rfl, rfl⟩ | ⟨rfl, rfl⟩ | ⟨rfl, rfl⟩ | ⟨rfl, rfl⟩ <;>
        first | (simp [Ptr.isShared] at hsh; done) | (simp [plain] at hp; done)
  | enumerator e i d hd => exact .enumerator _ _ _ hd
  | none t => exact .none _
  | some t v w _ ih => exact .some _ _ _ (ih hp rfl)
  | nil t => exact .nil _
  | cons t v l w m _ _ ih1 ih2 => exact .cons _ _ _ _ _ (ih1 hp rfl) (ih2 hp rfl)
  | ref t v w hc h _ =>
    exfalso
    have : t = .str := by
      cases t <;> simp [plain] at hp <;> rfl
    subst this
    generalize hu : RTy.str = u at h
    cases h <;> simp_all [classOf, unref, smart, supported]
    all_goals (subst hu; simp_all [classOf, unref, smart, supported])
  | _ => first | (simp [plain] at hp; done) | cases ht

/-- Python does not see how deep an `Option` is nested: `Some(None)` and `None` are both `None`, and so are `Some(())` and `None`. -/
theorem C57_finding_nested_option :
    erase (.some .none) = erase .none ∧
    ∃ (e : RExp), genRet demo (.opt .unit) .call = some (.opt .pyObject, e) ∧
      (∃ w, evalR demo e [] (.some .nil) = .ok w [] ∧ erase w = .none) ∧ (∃ w, evalR demo e [] .none = .ok w [] ∧ erase w = .none) := by
  exact ⟨rfl, _, rfl, ⟨_, rfl, rfl⟩, ⟨_, rfl, rfl⟩⟩

/-- No `Option` directly in an `Option`. -/
def noNested : RTy → Bool
  | .opt t =>
    match t with
    | .opt _ => false
    | t => noNested t
  | .vec t => noNested t
  | _ => true

theorem erase_eq_none {heap : List Int} {t : RTy} {w : Val} (h : Fits heap t w) (ht : ∀ u, t ≠ .opt u) : erase w ≠ .none := by
  cases h <;> simp_all [erase]

/-- With no `Option` directly in an `Option`, what Python passes says which value of the declared Python type is meant. -/
theorem C57_unambiguous (heap : List Int) (t : RTy) (hn : noNested t = true) (w w' : Val) (h : Fits heap t w) (h' : Fits heap t w')
    (he : erase w = erase w') : w = w' := by
  induction h generalizing w' with
  | prim p n => cases h'; simpa [erase] using he
  | str n => cases h'; simpa [erase] using he
  | obj c a ha => cases h'; simpa [erase] using he
  | objRef c a ha => cases h'; simpa [erase] using he
  | none t =>
    cases h' with
    | none => rfl
    | some _ v hv =>
      exfalso
      refine erase_eq_none hv ?_ ?_
      · rintro u rfl
        simp [noNested] at hn
      · simpa [erase] using he.symm
  | some t v hv ih =>
    have ht : ∀ u, t ≠ .opt u := by
      rintro u rfl
      simp [noNested] at hn
    have hn' : noNested t = true := by
      cases t <;> simp_all [noNested]
    cases h' with
    | none => exact (erase_eq_none hv ht (by simpa [erase] using he)).elim
    | some _ v' hv' => rw [ih hn' v' hv' (by simpa [erase] using he)]
  | nil t =>
    cases h' with
    | nil => rfl
    | cons _ v l _ _ => simp [erase] at he
  | cons t v l _ _ ih1 ih2 =>
    cases h' with
    | nil => simp [erase] at he
    | cons _ v' l' hv' hl' =>
      simp only [erase, Val.cons.injEq] at he
      rw [ih1 (by simpa [noNested] using hn) v' hv' he.1, ih2 hn l' hl' he.2]

example : noNested (.vec (.opt (.prim .i32))) = true ∧ Fits [] (.vec (.opt (.prim .i32))) (.cons .none (.cons (.some (.prim 3)) .nil)) :=
  ⟨rfl, .cons _ _ _ (.none _) (.cons _ _ _ (.some _ _ (.prim _ _)) (.nil _))⟩

/-- A list of optional objects comes back, in order, each object in a cell of its own. -/
example : ∃ P e, genRet demo (.vec (.opt (.cls 0))) .call = some (P, e) ∧
    evalR demo e [10] (.cons (.some (.data 7)) (.cons .none (.cons (.some (.data 8)) .nil))) =
      .ok (.cons (.some (.ref 1)) (.cons .none (.cons (.some (.ref 2)) .nil))) [10, 7, 8] := ⟨_, _, rfl, by decide⟩

/-- The first error of a tuple is raised. -/
example : ∃ P e, genRet demo (.tcons (.res (.prim .i32) (.other 0)) (.tcons (.res (.prim .i32) (.other 0)) .unit)) .call = some (P, e) ∧
    evalR demo e [] (.cons (.okv (.prim 1)) (.cons (.errv 5) .nil)) = .raise 5 := ⟨_, _, rfl, by decide⟩

end Flapi.Py
