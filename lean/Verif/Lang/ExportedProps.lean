import Verif.Lang.Exported
/-!
# Exported Rust functions: what a call does (specification and lemmas for C61 and C62)
-/
namespace Flapi.Exported

/-! ## Specification -/

/-- Conversions of the arguments, from left to right. -/
def convAll {S V} (w : World S V) : List Text → List V → M S V (List V)
  | k :: ks, v :: vs => do
    let x ← w.conv k v
    let xs ← convAll w ks vs
    pure (x :: xs)
  | _, _ => pure []

/-- What the user wrote for a method: a function or an inline block. -/
def userCode {S V} (w : World S V) (m : Method) (vs : List V) : M S V V :=
  match m.inlineBlock with
  | some b => w.block b vs
  | none => w.call m.path vs

/-- The conversion of the result. -/
def outConv {S V} (w : World S V) : Option Text → V → M S V V
  | some k, v => w.conv k v
  | none, v => pure v

/-- The Rust signature of an item. -/
def RItem.signature : RItem → Option (Text × List (Text × Text) × Text)
  | .fn f => some (f.name, f.params, f.ret)
  | _ => none

/-- A constructor that only says that there is none. -/
def Method.isEmptyCtor (m : Method) : Bool := m.variant = .ctor && m.isDummy

/-- The codes the type map gave for converting the arguments of a method: one for each, each for exactly the pair of types of
its argument. -/
def ArgCodes {σ I} (tm : TypeMap σ I) (m : Method) (g : Sig I) (codes : List Text) : Prop :=
  codes.length = m.args.length ∧
  ∀ (j : Nat) (a : Text × Text) (t : FTy I) (k : Text), m.args[j]? = some a → g.input[j]? = some t → codes[j]? = some k →
    ∃ sa r d sb, tm.convert sa t.rust a.2 a.1 r = some (d, k, sb)

/-- The code the type map gave for converting the result of a method, if it has one. -/
def OutCode {σ I} (tm : TypeMap σ I) (m : Method) (g : Sig I) (ko : Option Text) : Prop :=
  ko.isSome = m.output.isSome ∧ ∀ k ty, ko = some k → m.output = some ty →
    ∃ sa v d sb, tm.convert sa ty g.output.rust v g.output.rust = some (d, k, sb)

/-! ## Lemmas -/

theorem bind_ok {α β} {x : Except Err α} {f : α → Except Err β} {b : β} :
    (x >>= f) = .ok b ↔ ∃ a, x = .ok a ∧ f a = .ok b := by
  cases x with
  | error e => simp [bind, Except.bind]
  | ok a => simp [bind, Except.bind]

theorem orErr_ok {α} {e : Err} {x : Option α} {a : α} : orErr e x = .ok a ↔ x = some a := by
  cases x <;> simp [orErr]

theorem support_sig (l : List Text) : (l.map RItem.support).filterMap RItem.signature = [] := by
  induction l with
  | nil => rfl
  | cons a l ih => rw [List.map_cons, List.filterMap_cons]; simpa [RItem.signature] using ih

theorem signatures_flatten (rss : List (List RItem)) :
    (rss.flatten).filterMap RItem.signature = (rss.map fun r => r.filterMap RItem.signature).flatten := by
  induction rss with
  | nil => rfl
  | cons r rss ih => simp [List.filterMap_append, ih]

theorem mapArgs_ok {σ I} {tm : TypeMap σ I} : ∀ (as : List (Text × Text)) (s s' : σ) (ts : List (FTy I)),
    mapArgs tm s as = .ok (ts, s') → ts.length = as.length ∧
      ∀ (i : Nat) (a : Text × Text), as[i]? = some a → ∃ t s1 s2, ts[i]? = some t ∧ tm.mapType s1 true a.2 = some (t, s2) := by
  intro as
  induction as with
  | nil =>
    intro s s' ts h
    simp only [mapArgs, Except.ok.injEq, Prod.mk.injEq] at h
    simp [← h.1]
  | cons a as ih =>
    intro s s' ts h
    obtain ⟨n, ty⟩ := a
    simp only [mapArgs, bind_ok, orErr_ok, Prod.exists, Except.ok.injEq, Prod.mk.injEq] at h
    obtain ⟨t, s1, h1, ts', s2, h2, rfl, rfl⟩ := h
    obtain ⟨hl, hi⟩ := ih _ _ _ h2
    refine ⟨by simp [hl], ?_⟩
    intro i a ha
    cases i with
    | zero =>
      simp only [List.getElem?_cons_zero, Option.some.injEq] at ha
      subst ha
      exact ⟨t, _, _, rfl, h1⟩
    | succ i => exact hi i a (by simpa using ha)

/-- SPECIFICATION: the type `fr` of the reference made from the object pointer (to the exported type `obj`) and the type `tt` the
user's method takes (`self` being `slf`): shared references for `&self`, unique ones for `&mut self`. -/
def SelfRef (v : SelfVar) (obj slf fr tt : Text) : Prop :=
  v = .rptr ∧ fr = lit "& " ++ obj ∧ tt = lit "& " ++ slf ∨ v = .rptrMut ∧ fr = lit "& mut " ++ obj ∧ tt = lit "& mut " ++ slf

theorem suitable_ref {v : SelfVar} {obj slf fr tt : Text} (h : suitableTypes v obj slf = .ok (fr, tt)) : SelfRef v obj slf fr tt := by
  unfold suitableTypes at h
  split at h
  · cases h
  · cases h
  · cases h; exact Or.inl ⟨rfl, rfl, rfl⟩
  · cases h; exact Or.inr ⟨rfl, rfl, rfl⟩

theorem rustArgs_names {I} (m : Method) (g : Sig I) (hl : g.input.length = m.args.length) :
    (rustArgs m g).map (·.1) = m.argNames := by
  rw [rustArgs, List.map_map]
  exact List.map_snd_zip (by rw [Method.argNames, List.length_map]; omega)

/-! ### Environments -/

theorem set_same {V} (env : Text → V) (x : Text) (v : V) : set env x v x = v := by simp [set]
theorem set_other {V} (env : Text → V) {x y : Text} (v : V) (h : y ≠ x) : set env x v y = env y := by simp [set, h]

theorem bindAll_other {V} : ∀ (ps : List Text) (vs : List V) (env : Text → V) (y : Text), y ∉ ps →
    bindAll env ps vs y = env y := by
  intro ps
  induction ps with
  | nil => intro vs env y _; cases vs <;> rfl
  | cons p ps ih =>
    intro vs env y hy
    cases vs with
    | nil => rfl
    | cons v vs =>
      simp only [List.mem_cons, not_or] at hy
      rw [bindAll, ih vs _ y hy.2, set_other _ _ hy.1]

theorem bindAll_names {V} : ∀ (ps : List Text) (vs : List V) (env : Text → V), ps.Nodup →
    vs.length = ps.length → ps.map (bindAll env ps vs) = vs := by
  intro ps
  induction ps with
  | nil => intro vs env _ hl; cases vs <;> simp_all
  | cons p ps ih =>
    intro vs env hn hl
    cases vs with
    | nil => simp at hl
    | cons v vs =>
      simp only [List.nodup_cons] at hn
      simp only [List.map_cons, bindAll]
      rw [bindAll_other _ _ _ _ hn.1, set_same]
      congr 1
      exact ih vs _ hn.2 (by simpa using hl)

theorem bindAll_append {V} : ∀ (ps qs : List Text) (us vs : List V) (env : Text → V), us.length = ps.length →
    bindAll env (ps ++ qs) (us ++ vs) = bindAll (bindAll env ps us) qs vs := by
  intro ps
  induction ps with
  | nil => intro qs us vs env hl; cases us <;> simp_all [bindAll]
  | cons p ps ih =>
    intro qs us vs env hl
    cases us with
    | nil => simp at hl
    | cons u us => simp only [List.cons_append, bindAll]; exact ih qs us vs _ (by simpa using hl)

/-! ### Bodies -/

theorem runBody_cons {S V} (w : World S V) (env : Text → V) (s : RStmt) {l : List RStmt} (hl : l ≠ []) :
    runBody w env (s :: l) = exec w env s >>= fun env => runBody w env l := by
  cases l with
  | nil => exact absurd rfl hl
  | cons a l => rfl

theorem runBody_append {S V} (w : World S V) : ∀ (l k : List RStmt) (env : Text → V), k ≠ [] →
    runBody w env (l ++ k) = l.foldlM (exec w) env >>= fun env => runBody w env k := by
  intro l
  induction l with
  | nil => intro k env _; simp
  | cons s l ih =>
    intro k env hk
    rw [List.cons_append, runBody_cons _ _ _ (by simp [hk]), List.foldlM_cons, bind_assoc]
    congr 1
    funext env'
    exact ih k env' hk

theorem convAll_congr {S V β} (w : World S V) (f g : List V → M S V β) : ∀ (ks : List Text) (vs : List V), ks.length = vs.length →
    (∀ xs, xs.length = ks.length → f xs = g xs) → (convAll w ks vs >>= f) = (convAll w ks vs >>= g) := by
  intro ks
  induction ks generalizing f g with
  | nil => intro vs _ h; simp only [convAll, pure_bind]; exact h [] rfl
  | cons k ks ih =>
    intro vs hl h
    cases vs with
    | nil => simp at hl
    | cons v vs =>
      simp only [convAll, bind_assoc, pure_bind]
      congr 1
      funext x
      exact ih (fun xs => f (x :: xs)) (fun xs => g (x :: xs)) vs (by simpa using hl) fun xs hx => h _ (by simp [hx])

/-- The conversion statements. -/
def convStmts (ns codes : List Text) : List RStmt := (ns.zip codes).map fun p => RStmt.conv p.1 p.2

theorem run_convs {S V} (w : World S V) : ∀ (ns codes : List Text) (env : Text → V), ns.Nodup → codes.length = ns.length →
    (convStmts ns codes).foldlM (exec w) env = convAll w codes (ns.map env) >>= fun xs => pure (bindAll env ns xs) := by
  intro ns
  induction ns with
  | nil => intro codes env _ hl; cases codes <;> simp_all [convStmts, convAll, bindAll]
  | cons n ns ih =>
    intro codes env hn hl
    cases codes with
    | nil => simp at hl
    | cons k codes =>
      rw [List.nodup_cons] at hn
      have e : convStmts (n :: ns) (k :: codes) = .conv n k :: convStmts ns codes := rfl
      rw [e, List.foldlM_cons]
      simp only [exec, List.map_cons, convAll, bind_assoc, pure_bind, bindAll]
      congr 1
      funext x
      rw [ih codes _ hn.2 (by simpa using hl)]
      have : ns.map (set env n x) = ns.map env := List.map_congr_left fun y hy => set_other _ _ (fun e => hn.1 (e ▸ hy))
      rw [this]

theorem exec_call {S V} (w : World S V) (m : Method) (env : Text → V) (x ty : Text) :
    exec w env (.call x ty m.call) = userCode w m (m.vars.map env) >>= fun v => pure (set env x v) := by
  unfold Method.call userCode
  cases m.inlineBlock with
  | some b => rfl
  | none => rfl

/-- The statements converting the result. -/
def outStmts (var : Text) (ko : Option Text) : List RStmt := (ko.map fun k => RStmt.conv var k).toList

theorem run_out {S V} (w : World S V) (env : Text → V) (var : Text) (ko : Option Text) :
    runBody w env (outStmts var ko ++ [.result var]) = outConv w ko (env var) := by
  cases ko with
  | none => simp [outStmts, runBody, tailValue, outConv]
  | some k => simp [outStmts, runBody, tailValue, outConv, exec, set_same]

theorem convInputs_ok {σ I} {tm : TypeMap σ I} {ret : Text} : ∀ (as : List (Text × Text)) (ts : List (FTy I)) (s s' : σ)
    (ds : List Text) (cs : List RStmt), ts.length = as.length → convInputs tm ret s as ts = .ok (ds, cs, s') →
    ∃ codes : List Text, codes.length = as.length ∧ cs = convStmts (as.map (·.1)) codes ∧
      ∀ (i : Nat) (a : Text × Text) (t : FTy I) (k : Text), as[i]? = some a → ts[i]? = some t → codes[i]? = some k →
        ∃ sa d sb, tm.convert sa t.rust a.2 a.1 ret = some (d, k, sb) := by
  intro as
  induction as with
  | nil =>
    intro ts s s' ds cs _ h
    simp only [convInputs, Except.ok.injEq, Prod.mk.injEq] at h
    obtain ⟨_, rfl, _⟩ := h
    exact ⟨[], rfl, rfl, by simp⟩
  | cons a as ih =>
    intro ts s s' ds cs hl h
    cases ts with
    | nil => simp at hl
    | cons t ts =>
      obtain ⟨n, ty⟩ := a
      simp only [convInputs, bind_ok, orErr_ok, Prod.exists, Except.ok.injEq, Prod.mk.injEq] at h
      obtain ⟨d, k, s1, h1, ds', cs', s2, h2, rfl, rfl, rfl⟩ := h
      obtain ⟨codes, e1, rfl, e3⟩ := ih ts _ _ _ _ (by simpa using hl) h2
      refine ⟨k :: codes, by simp [e1], rfl, ?_⟩
      intro i a' t' k' ha ht hk
      cases i with
      | zero =>
        simp only [List.getElem?_cons_zero, Option.some.injEq] at ha ht hk
        subst ha ht hk
        exact ⟨_, _, _, h1⟩
      | succ i => exact e3 i a' t' k' (by simpa using ha) (by simpa using ht) (by simpa using hk)

theorem inputs_ok {σ I} {tm : TypeMap σ I} {ret : Text} {m : Method} {g : Sig I} {s s' : σ} {ds : List Text} {cs : List RStmt}
    (hl : g.input.length = m.args.length) (h : convInputs tm ret s m.args g.input = .ok (ds, cs, s')) :
    ∃ codes, ArgCodes tm m g codes ∧ cs = convStmts m.argNames codes := by
  obtain ⟨codes, e1, e2, e3⟩ := convInputs_ok _ _ _ _ _ _ hl h
  refine ⟨codes, ⟨e1, fun j a t k ha ht hk => ?_⟩, e2⟩
  obtain ⟨x, y, z, e⟩ := e3 j a t k ha ht hk
  exact ⟨x, _, y, z, e⟩

theorem output_ok {σ I} {tm : TypeMap σ I} {s s' : σ} {m : Method} {g : Sig I} {var : Text} {ds : List Text} {cs : List RStmt}
    (h : convOutput tm s m g.output var = .ok (ds, cs, s')) : ∃ ko, OutCode tm m g ko ∧ cs = outStmts var ko := by
  unfold convOutput at h
  cases ho : m.output with
  | none =>
    rw [ho] at h
    cases h
    exact ⟨none, ⟨by simp [ho], by simp⟩, rfl⟩
  | some ty =>
    rw [ho] at h
    simp only [bind_ok, orErr_ok, Prod.exists, Except.ok.injEq, Prod.mk.injEq] at h
    obtain ⟨d, k, s1, h1, rfl, rfl, rfl⟩ := h
    refine ⟨some k, ⟨by simp [ho], ?_⟩, rfl⟩
    intro k' ty' hk hty
    rw [ho] at hty
    cases hk; cases hty
    exact ⟨_, _, _, _, h1⟩

/-! ### Whole functions -/

theorem map_bindAll {V} (ns : List Text) (env : Text → V) (xs : List V) (hn : ns.Nodup) (hl : xs.length = ns.length) :
    ns.map (bindAll env ns xs) = xs := bindAll_names ns xs env hn hl

/-- A function without object. -/
theorem run_static {S V} (w : World S V) (env : Text → V) (m : Method) (codes : List Text) (ko : Option Text) (ret ty : Text)
    (vs : List V) (hv : m.variant.isMethod = false) (hn : m.argNames.Nodup) (hc : codes.length = m.argNames.length)
    (he : m.argNames.map env = vs) :
    runBody w env (convStmts m.argNames codes ++ [.call ret ty m.call] ++ outStmts ret ko ++ [.result ret]) =
      (do let xs ← convAll w codes vs
          let r ← userCode w m xs
          outConv w ko r) := by
  have hl : codes.length = vs.length := by rw [hc, ← he, List.length_map]
  rw [List.append_assoc, List.append_assoc, runBody_append _ _ _ _ (by simp), run_convs w _ _ _ hn hc, he, bind_assoc]
  refine convAll_congr w _ _ codes vs hl fun xs hx => ?_
  rw [pure_bind, List.singleton_append, runBody_cons _ _ _ (by simp), exec_call, bind_assoc]
  have : m.vars = m.argNames := by simp [Method.vars, hv]
  rw [this, map_bindAll _ _ _ hn (by rw [hx, hc])]
  congr 1
  funext r
  rw [pure_bind, run_out, set_same]

/-- A function with an object. -/
theorem run_method {S V} (w : World S V) (env : Text → V) (m : Method) (codes : List Text) (ko : Option Text) (ret ty fr kt : Text)
    (obj : V) (vs : List V) (hv : m.variant.isMethod = true) (hn : m.argNames.Nodup) (hc : codes.length = m.argNames.length)
    (ht : thisW ∉ m.argNames) (he : m.argNames.map env = vs) (ho : env thisW = obj) :
    runBody w env (convStmts m.argNames codes ++ [.refThis fr, .conv thisW kt, .call ret ty m.call] ++ outStmts ret ko ++
        [.result ret]) =
      (do let xs ← convAll w codes vs
          let o ← w.deref obj
          let o ← w.conv kt o
          let r ← userCode w m (o :: xs)
          outConv w ko r) := by
  have hl : codes.length = vs.length := by rw [hc, ← he, List.length_map]
  rw [List.append_assoc, List.append_assoc, runBody_append _ _ _ _ (by simp), run_convs w _ _ _ hn hc, he, bind_assoc]
  refine convAll_congr w _ _ codes vs hl fun xs hx => ?_
  have e : ([.refThis fr, .conv thisW kt, .call ret ty m.call] ++ (outStmts ret ko ++ [.result ret]) : List RStmt) =
      .refThis fr :: .conv thisW kt :: .call ret ty m.call :: (outStmts ret ko ++ [.result ret]) := rfl
  rw [pure_bind, e, runBody_cons _ _ _ (by simp)]
  simp only [exec, bind_assoc, pure_bind]
  rw [bindAll_other _ _ _ _ ht, ho]
  congr 1
  funext o
  rw [runBody_cons _ _ _ (by simp)]
  simp only [exec, bind_assoc, pure_bind, set_same]
  congr 1
  funext o'
  rw [runBody_cons _ _ _ (by simp), exec_call, bind_assoc]
  have e2 : m.vars.map (set (set (bindAll env m.argNames xs) thisW o) thisW o') = o' :: xs := by
    simp only [Method.vars, hv, if_true, List.map_cons, set_same, List.cons.injEq, true_and]
    rw [← map_bindAll m.argNames env xs hn (by rw [hx, hc])]
    rw [map_bindAll m.argNames env xs hn (by rw [hx, hc])]
    conv => rhs; rw [← map_bindAll m.argNames env xs hn (by rw [hx, hc])]
    refine List.map_congr_left fun y hy => ?_
    have hne : y ≠ thisW := fun e => ht (e ▸ hy)
    rw [set_other _ _ hne, set_other _ _ hne]
  rw [e2]
  congr 1
  funext r
  rw [pure_bind, run_out, set_same]

/-- A constructor; `boxed` tells whether the object is then moved to the heap. -/
theorem run_ctor {S V} (w : World S V) (env : Text → V) (m : Method) (codes : List Text) (ty kt : Text) (h : Option Holder)
    (vs : List V) (hv : m.variant.isMethod = false) (hn : m.argNames.Nodup) (hc : codes.length = m.argNames.length)
    (he : m.argNames.map env = vs) :
    runBody w env (convStmts m.argNames codes ++ ([.call thisW ty m.call, .conv thisW kt] ++ (h.map RStmt.toHeap).toList ++ [.thisPtr])) =
      (do let xs ← convAll w codes vs
          let r ← userCode w m xs
          let r ← w.conv kt r
          match h with
          | some h => w.toHeap h r
          | none => pure r) := by
  have hl : codes.length = vs.length := by rw [hc, ← he, List.length_map]
  rw [runBody_append _ _ _ _ (by simp), run_convs w _ _ _ hn hc, he, bind_assoc]
  refine convAll_congr w _ _ codes vs hl fun xs hx => ?_
  have e : ([.call thisW ty m.call, .conv thisW kt] ++ (h.map RStmt.toHeap).toList ++ [.thisPtr] : List RStmt) =
      .call thisW ty m.call :: .conv thisW kt :: ((h.map RStmt.toHeap).toList ++ [.thisPtr]) := by simp
  rw [pure_bind, e, runBody_cons _ _ _ (by simp), exec_call, bind_assoc]
  have : m.vars = m.argNames := by simp [Method.vars, hv]
  rw [this, map_bindAll _ _ _ hn (by rw [hx, hc])]
  congr 1
  funext r
  rw [pure_bind, runBody_cons _ _ _ (by simp)]
  simp only [exec, bind_assoc, pure_bind, set_same]
  congr 1
  funext r'
  cases h with
  | none => simp [runBody, tailValue, set_same]
  | some h => simp [runBody, tailValue, exec, set_same]

end Flapi.Exported
