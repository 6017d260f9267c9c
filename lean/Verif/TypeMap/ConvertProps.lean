import Verif.TypeMap.Convert
import Verif.TypeMap.BuildProps
/-! # Conversion code chains values (C11); support code is emitted once (C12) -/
namespace Flapi.Convert
open Graph TMap Template
variable {τ : Type}

/-! ## Specification -/

/-- One generated statement: apply the conversion of edge `edge` to variable `src`, bind the result to `dst`. -/
structure Stmt where
  edge : Nat
  src : Text
  dst : Text
  ty : Text

/-- Values of variables. -/
abbrev Env (V : Type) := Text → V

/-- Executing a statement, when edge `e` denotes the function `sem e`. -/
def exec {V} (sem : Nat → V → V) (env : Env V) (s : Stmt) : Env V :=
  fun x => if x = s.dst then sem s.edge (env s.src) else env x

/-- The text of a statement: the template of the edge's rule instantiated. -/
def stmtText (g : Graph (RTy τ) EdgeW) (ret : Text) (s : Stmt) : Text :=
  match g.edges[s.edge]? with
  | some ed => ed.w.code.generateCode s.dst s.src s.ty ret
  | none => []

/-- Value of a conversion chain: the composition of the conversions of its edges. -/
def chain {V} (sem : Nat → V → V) (path : List Nat) (v : V) : V := path.foldl (fun v e => sem e v) v

/-! ## C11 -/

theorem convLoop_stmts (tyname : τ → Text) (g : Graph (RTy τ) EdgeW) (hwf : WF g) (out ret : Text) :
    ∀ (path : List Nat) (cells : Cells) (cur : Text) (a b : Nat), IsPath g a b path →
    ∃ (r : Out) (stmts : List Stmt), convLoop tyname g out ret cells cur path = some r ∧ r.code = (stmts.map (stmtText g ret)).flatten ∧
      stmts.map (·.edge) = path ∧ (∀ s ∈ stmts, s.dst = out) ∧
      (stmts.map (·.src)) = (if path.isEmpty then [] else cur :: List.replicate (path.length - 1) out) ∧
      (∀ s ∈ stmts, ∃ ed t, g.edges[s.edge]? = some ed ∧ g.nodes[ed.dst]? = some t ∧ s.ty = tyname t.ty)
  | [], cells, cur, a, b, _ => ⟨⟨[], [], cells⟩, [], rfl, rfl, rfl, by simp, by simp, by simp⟩
  | e :: es, cells, cur, a, b, ⟨ed, h1, h2, h3⟩ => by
    have hd := (hwf ed (List.mem_of_getElem? h1)).2
    have hd' := List.getElem?_eq_getElem hd
    obtain ⟨r, stmts, k1, k2, k3, k4, k5, k6⟩ := convLoop_stmts tyname g hwf out ret es (clear cells ed.w.dep) out _ b h3
    refine ⟨⟨takeDep cells ed.w.dep ++ r.deps,
      ed.w.code.generateCode out cur (tyname (g.nodes[ed.dst]).ty) ret ++ r.code, r.cells⟩,
      ⟨e, cur, out, tyname (g.nodes[ed.dst]).ty⟩ :: stmts, ?_, ?_, ?_, ?_, ?_, ?_⟩
    · unfold convLoop; rw [h1]; simp only; rw [hd']; simp only; rw [k1]
    · simp [stmtText, h1, k2]
    · simp [k3]
    · intro s hs
      rcases List.mem_cons.1 hs with rfl | hs
      · rfl
      · exact k4 s hs
    · simp only [List.map_cons, k5]
      cases es with
      | nil => simp
      | cons x xs => simp [List.replicate_succ]
    · intro s hs
      rcases List.mem_cons.1 hs with rfl | hs
      · exact ⟨ed, _, h1, hd', rfl⟩
      · exact k6 s hs

theorem exec_chain {V} (sem : Nat → V → V) (out : Text) : ∀ (stmts : List Stmt) (cur : Text) (env : Env V),
    (∀ s ∈ stmts, s.dst = out) →
    stmts.map (·.src) = (if stmts.isEmpty then [] else cur :: List.replicate (stmts.length - 1) out) →
    stmts ≠ [] → (stmts.foldl (exec sem) env) out = chain sem (stmts.map (·.edge)) (env cur)
  | [], _, _, _, _, h => absurd rfl h
  | [s], cur, env, hd, hs, _ => by
    simp at hs; simp [chain, exec, hd s (by simp), hs]
  | s :: t :: r, cur, env, hd, hs, _ => by
    simp only [List.map_cons, List.isEmpty_cons, Bool.false_eq_true, if_false, List.length_cons, Nat.add_sub_cancel,
      List.replicate_succ, List.cons.injEq] at hs
    obtain ⟨h1, h2, h3⟩ := hs
    have ih := exec_chain sem out (t :: r) out (exec sem env s) (fun x hx => hd x (by simp [hx]))
      (by simp [h2, h3]) (by simp)
    rw [List.foldl_cons, ih]
    simp [chain, exec, hd s (by simp), h1]

/-- C11: a successful conversion request is realised by a genuine chain `path` of rules from type `a` to type `b`.  If the
chain is empty, the code copies the input variable to the output variable (or nothing is emitted when they are the same).
Otherwise the code is the concatenation of one statement per rule of the chain, in order, and executing these statements,
whatever the rules mean, leaves in the output variable the composition of the rules applied to the value of the input
variable; each statement's declared type is the type its rule leads to. -/
theorem C11_chain (tyname : τ → Text) (P : PopFn) (ord : List Nat → List Nat) (hord : ∀ l, (ord l).Perm l)
    (rules : List (Rule τ EdgeW)) (st : CS τ) (hok : Ok st.tm) (a b : Nat) (ha : a < st.tm.g.nodes.length)
    (hb : b < st.tm.g.nodes.length) (inVar out ret : Text) (deps : List (Nat × Text)) (code : Text) (st' : CS τ)
    (h : convertRustTypes tyname P ord rules st a b inVar out ret = .ok deps code st') :
    ∃ path, IsPath st'.tm.g a b path ∧
      ((path = [] ∧ a = b ∧ code = (if inVar = out then [] else copyCode inVar out)) ∨
       (path ≠ [] ∧ ∃ stmts : List Stmt, code = (stmts.map (stmtText st'.tm.g ret)).flatten ∧ stmts.map (·.edge) = path ∧
        (∀ V (sem : Nat → V → V) (env : Env V), (stmts.foldl (exec sem) env) out = chain sem path (env inVar)) ∧
        (∀ s ∈ stmts, s.dst = out ∧ ∃ ed t, st'.tm.g.edges[s.edge]? = some ed ∧ st'.tm.g.nodes[ed.dst]? = some t ∧
          s.ty = tyname t.ty))) := by
  unfold convertRustTypes at h
  obtain ⟨tm', r, h1, h2, h3, h4⟩ := C48_find_or_build P ord hord rules st.tm hok a b ha hb
  rw [h1] at h
  rcases h4 with ⟨p, rfl, hp⟩ | ⟨rfl, _⟩
  · simp only at h
    split at h
    · rename_i hc
      obtain ⟨hc1, hc2⟩ := hc
      have hp0 : p = [] := by simpa using hc1
      subst hp0
      simp only [ConvRes.ok.injEq] at h
      obtain ⟨rfl, rfl, rfl⟩ := h
      exact ⟨[], hp, Or.inl ⟨rfl, hp, by simp [hc2]⟩⟩
    · rename_i hc
      obtain ⟨r, stmts, k1, k2, k3, k4, k5, k6⟩ := convLoop_stmts tyname tm'.g h2.wf out ret p st.cells inVar a b hp
      rw [k1] at h
      simp only [ConvRes.ok.injEq] at h
      obtain ⟨rfl, rfl, rfl⟩ := h
      refine ⟨p, hp, ?_⟩
      cases p with
      | nil =>
        left
        have : inVar = out := by simpa using hc
        have hs : stmts = [] := by simpa using k3
        refine ⟨rfl, hp, ?_⟩
        simp [this, k2, hs]
      | cons e es =>
        right
        refine ⟨by simp, stmts, k2, k3, ?_, ?_⟩
        · intro V sem env
          rw [← k3]
          have hlen : stmts.length = (e :: es).length := by rw [← k3]; simp
          apply exec_chain sem out stmts inVar env k4
          · rw [k5]; cases stmts with
            | nil => simp at hlen
            | cons x xs => simp at hlen ⊢; rw [hlen]
          · rintro rfl; simp at hlen
        · intro s hs; exact ⟨k4 s hs, k6 s hs⟩
  · simp only at h; cases h

/-! ## C12 -/

/-- The support-code cells of the rules used by a request in a given state. -/
def usedCells (P : PopFn) (ord : List Nat → List Nat) (rules : List (Rule τ EdgeW)) (st : CS τ) (q : Req) : List Nat :=
  match findOrBuildPath P ord rules st.tm q.a q.b with
  | some (tm, .ok path) => path.filterMap fun e => (tm.g.edges[e]?).map (·.w.dep)
  | _ => []

theorem convLoop_deps (tyname : τ → Text) (g : Graph (RTy τ) EdgeW) (out ret : Text) :
    ∀ (path : List Nat) (cells : Cells) (cur : Text) (r : Out), convLoop tyname g out ret cells cur path = some r →
      (r.deps.map (·.1)).Nodup ∧
      (∀ c d, (c, d) ∈ r.deps ↔ (c ∈ path.filterMap (fun e => (g.edges[e]?).map (·.w.dep)) ∧ cells c = some d)) ∧
      (∀ c, r.cells c = if c ∈ path.filterMap (fun e => (g.edges[e]?).map (·.w.dep)) then none else cells c)
  | [], cells, cur, r, h => by
    simp [convLoop] at h; subst h; simp
  | e :: es, cells, cur, r, h => by
    unfold convLoop at h
    cases he : g.edges[e]? with
    | none => rw [he] at h; cases h
    | some ed =>
      rw [he] at h; simp only at h
      cases hn : g.nodes[ed.dst]? with
      | none => rw [hn] at h; cases h
      | some t =>
        rw [hn] at h; simp only at h
        cases hr : convLoop tyname g out ret (clear cells ed.w.dep) out es with
        | none => rw [hr] at h; cases h
        | some r' =>
          rw [hr] at h
          simp only [Option.some.injEq] at h
          obtain ⟨k1, k2, k3⟩ := convLoop_deps tyname g out ret es _ _ r' hr
          subst h
          simp only [List.filterMap_cons, he, Option.map_some]
          generalize List.filterMap (fun e => Option.map (fun x => x.w.dep) g.edges[e]?) es = U at *
          refine ⟨?_, ?_, ?_⟩
          · unfold takeDep
            cases hc : cells ed.w.dep with
            | none => simpa using k1
            | some d =>
              simp only [List.singleton_append, List.map_cons, List.nodup_cons]
              refine ⟨?_, k1⟩
              intro hm
              obtain ⟨⟨c, d'⟩, hm, hcc⟩ := List.mem_map.1 hm
              simp only at hcc; subst hcc
              have := ((k2 _ _).1 hm).2
              simp [clear] at this
          · intro c d
            rw [List.mem_append, k2]
            by_cases hcc : c = ed.w.dep
            · subst hcc
              unfold takeDep
              cases hc : cells ed.w.dep with
              | none => simp [clear]
              | some d' => simp [clear, eq_comm]
            · have h0 : (c, d) ∉ takeDep cells ed.w.dep := by
                unfold takeDep
                cases cells ed.w.dep with
                | none => simp
                | some d' => simp [hcc]
              simp only [h0, false_or, clear, hcc, if_false, List.mem_cons]
          · intro c
            rw [k3]
            by_cases hcc : c = ed.w.dep
            · simp [hcc, clear]
            · simp [hcc, clear]

/-- One request. -/
theorem convert_deps (tyname : τ → Text) (P : PopFn) (ord : List Nat → List Nat) (rules : List (Rule τ EdgeW)) (st : CS τ)
    (q : Req) (deps : List (Nat × Text)) (code : Text) (st' : CS τ)
    (h : convertRustTypes tyname P ord rules st q.a q.b q.inVar q.out q.ret = .ok deps code st') :
    (deps.map (·.1)).Nodup ∧ (∀ c d, (c, d) ∈ deps ↔ (c ∈ usedCells P ord rules st q ∧ st.cells c = some d)) ∧
    (∀ c, st'.cells c = if c ∈ usedCells P ord rules st q then none else st.cells c) := by
  unfold convertRustTypes at h
  unfold usedCells
  cases hf : findOrBuildPath P ord rules st.tm q.a q.b with
  | none => rw [hf] at h; cases h
  | some x =>
    obtain ⟨tm, r⟩ := x
    rw [hf] at h
    cases r with
    | panic => cases h
    | err => cases h
    | ok path =>
      simp only at h ⊢
      split at h
      · rename_i hc
        have hp0 : path = [] := by simpa using hc.1
        subst hp0
        simp only [ConvRes.ok.injEq] at h
        obtain ⟨rfl, rfl, rfl⟩ := h
        simp
      · cases hl : convLoop tyname tm.g q.out q.ret st.cells q.inVar path with
        | none => rw [hl] at h; cases h
        | some r =>
          rw [hl] at h
          simp only [ConvRes.ok.injEq] at h
          obtain ⟨rfl, rfl, rfl⟩ := h
          exact convLoop_deps tyname tm.g q.out q.ret path st.cells q.inVar r hl

theorem usedCells_err (tyname : τ → Text) (P : PopFn) (ord : List Nat → List Nat) (rules : List (Rule τ EdgeW)) (st st' : CS τ)
    (q : Req) (h : convertRustTypes tyname P ord rules st q.a q.b q.inVar q.out q.ret = .err st') :
    usedCells P ord rules st q = [] ∧ st'.cells = st.cells := by
  unfold convertRustTypes at h
  unfold usedCells
  cases hf : findOrBuildPath P ord rules st.tm q.a q.b with
  | none => rw [hf] at h; cases h
  | some x =>
    obtain ⟨tm, r⟩ := x
    rw [hf] at h
    cases r with
    | panic => cases h
    | err => cases h; exact ⟨rfl, rfl⟩
    | ok path =>
      simp only at h
      split at h
      · cases h
      · cases hl : convLoop tyname tm.g q.out q.ret st.cells q.inVar path with
        | none => rw [hl] at h; cases h
        | some r => rw [hl] at h; cases h

/-- The state before each request of a history. -/
def statesBefore (tyname : τ → Text) (P : PopFn) (ord : List Nat → List Nat) (rules : List (Rule τ EdgeW)) :
    CS τ → List Req → List (CS τ)
  | _, [] => []
  | st, q :: qs =>
    st :: match convertRustTypes tyname P ord rules st q.a q.b q.inVar q.out q.ret with
      | .panic => []
      | .err st' => statesBefore tyname P ord rules st' qs
      | .ok _ _ st' => statesBefore tyname P ord rules st' qs

theorem many_spec (tyname : τ → Text) (P : PopFn) (ord : List Nat → List Nat) (rules : List (Rule τ EdgeW)) :
    ∀ (qs : List Req) (st st' : CS τ) (outs : List (List (Nat × Text))),
      convertMany tyname P ord rules st qs = some (outs, st') →
      (outs.flatten.map (·.1)).Nodup ∧ outs.length = qs.length ∧ (statesBefore tyname P ord rules st qs).length = qs.length ∧
      (∀ x ∈ outs.flatten, st.cells x.1 = some x.2) ∧
      ∀ (i : Nat) out q s, outs[i]? = some out → qs[i]? = some q → (statesBefore tyname P ord rules st qs)[i]? = some s →
        ∀ c d, (c, d) ∈ out ↔ (st.cells c = some d ∧ c ∈ usedCells P ord rules s q ∧
          ∀ (j : Nat) q' s', j < i → qs[j]? = some q' → (statesBefore tyname P ord rules st qs)[j]? = some s' →
            c ∉ usedCells P ord rules s' q')
  | [], st, st', outs, h => by
    simp [convertMany] at h; obtain ⟨rfl, rfl⟩ := h
    simp [statesBefore]
  | q :: qs, st, st', outs, h => by
    unfold convertMany at h
    unfold statesBefore
    cases hc : convertRustTypes tyname P ord rules st q.a q.b q.inVar q.out q.ret with
    | panic => rw [hc] at h; cases h
    | err st1 =>
      rw [hc] at h
      simp only [Option.map_eq_some_iff] at h
      obtain ⟨⟨o1, s1⟩, h1, h2⟩ := h
      simp only [Prod.mk.injEq] at h2
      obtain ⟨rfl, rfl⟩ := h2
      obtain ⟨u1, u2⟩ := usedCells_err tyname P ord rules st st1 q hc
      obtain ⟨k1, k2, k2', k3, k4⟩ := many_spec tyname P ord rules qs st1 s1 o1 h1
      refine ⟨by simpa using k1, by simp [k2], by simp [k2'], by rw [← u2]; simpa using k3, ?_⟩
      intro i out q' s hi hq hs c d
      cases i with
      | zero =>
        simp at hi hq hs; subst hi hq hs
        simp [u1]
      | succ i =>
        simp only [List.getElem?_cons_succ] at hi hq hs
        rw [k4 i out q' s hi hq hs c d, u2]
        refine and_congr Iff.rfl (and_congr Iff.rfl ?_)
        constructor
        · intro hall j q2 s2 hj hq2 hs2
          cases j with
          | zero => simp at hq2 hs2; subst hq2 hs2; simp [u1]
          | succ j => exact hall j q2 s2 (by omega) (by simpa using hq2) (by simpa using hs2)
        · intro hall j q2 s2 hj hq2 hs2
          exact hall (j + 1) q2 s2 (by omega) (by simpa using hq2) (by simpa using hs2)
    | ok deps code st1 =>
      rw [hc] at h
      simp only [Option.map_eq_some_iff] at h
      obtain ⟨⟨o1, s1⟩, h1, h2⟩ := h
      simp only [Prod.mk.injEq] at h2
      obtain ⟨rfl, rfl⟩ := h2
      obtain ⟨d1, d2, d3⟩ := convert_deps tyname P ord rules st q deps code st1 hc
      obtain ⟨k1, k2, k2', k3, k4⟩ := many_spec tyname P ord rules qs st1 s1 o1 h1
      refine ⟨?_, by simp [k2], by simp [k2'], ?_, ?_⟩
      · simp only [List.flatten_cons, List.map_append]
        rw [List.nodup_append]
        refine ⟨d1, k1, ?_⟩
        intro x hx y hy hxy
        subst hxy
        obtain ⟨⟨c, d⟩, hm, rfl⟩ := List.mem_map.1 hx
        obtain ⟨⟨c', d'⟩, hm', hcc⟩ := List.mem_map.1 hy
        simp only at hcc; subst hcc
        have h5 := k3 _ hm'
        simp only at h5
        rw [d3] at h5
        have := ((d2 c' d).1 hm).1
        simp [this] at h5
      · intro x hx
        rw [List.flatten_cons, List.mem_append] at hx
        rcases hx with hx | hx
        · exact ((d2 x.1 x.2).1 hx).2
        · have := k3 x hx
          rw [d3] at this
          split at this
          · cases this
          · exact this
      · intro i out q' s hi hq hs c d
        cases i with
        | zero =>
          simp at hi hq hs; subst hi hq hs
          rw [d2]; simp [and_comm]
        | succ i =>
          simp only [List.getElem?_cons_succ] at hi hq hs
          rw [k4 i out q' s hi hq hs c d, d3]
          by_cases hu : c ∈ usedCells P ord rules st q
          · simp only [hu, if_true]
            constructor
            · rintro ⟨h, _⟩; cases h
            · rintro ⟨_, _, hall⟩
              exact absurd hu (hall 0 q st (by omega) (by simp) (by simp))
          · simp only [hu, if_false]
            refine and_congr Iff.rfl (and_congr Iff.rfl ?_)
            constructor
            · intro hall j q2 s2 hj hq2 hs2
              cases j with
              | zero => simp at hq2 hs2; subst hq2 hs2; exact hu
              | succ j => exact hall j q2 s2 (by omega) (by simpa using hq2) (by simpa using hs2)
            · intro hall j q2 s2 hj hq2 hs2
              exact hall (j + 1) q2 s2 (by omega) (by simpa using hq2) (by simpa using hs2)

/-- C12: over any history of conversion requests the support code of a rule is emitted at most once, and only text that
was attached to the rule is emitted. -/
theorem C12_at_most_once (tyname : τ → Text) (P : PopFn) (ord : List Nat → List Nat) (rules : List (Rule τ EdgeW))
    (qs : List Req) (st st' : CS τ) (outs : List (List (Nat × Text)))
    (h : convertMany tyname P ord rules st qs = some (outs, st')) :
    (outs.flatten.map (·.1)).Nodup ∧ ∀ x ∈ outs.flatten, st.cells x.1 = some x.2 :=
  let ⟨a, _, _, b, _⟩ := many_spec tyname P ord rules qs st st' outs h
  ⟨a, b⟩

/-- C12: the support code of a rule is emitted by exactly the first request that uses the rule. -/
theorem C12_at_first_use (tyname : τ → Text) (P : PopFn) (ord : List Nat → List Nat) (rules : List (Rule τ EdgeW))
    (qs : List Req) (st st' : CS τ) (outs : List (List (Nat × Text)))
    (h : convertMany tyname P ord rules st qs = some (outs, st')) (i : Nat) (hi : i < qs.length) :
    ∃ out s, outs[i]? = some out ∧ (statesBefore tyname P ord rules st qs)[i]? = some s ∧
      ∀ c d, (c, d) ∈ out ↔ (st.cells c = some d ∧ c ∈ usedCells P ord rules s qs[i] ∧
        ∀ (j : Nat) q' s', j < i → qs[j]? = some q' → (statesBefore tyname P ord rules st qs)[j]? = some s' →
          c ∉ usedCells P ord rules s' q') := by
  obtain ⟨_, h2, h3, _, h5⟩ := many_spec tyname P ord rules qs st st' outs h
  have ho : i < outs.length := by omega
  have hs : i < (statesBefore tyname P ord rules st qs).length := by omega
  exact ⟨_, _, List.getElem?_eq_getElem ho, List.getElem?_eq_getElem hs,
    h5 i _ _ _ (List.getElem?_eq_getElem ho) (List.getElem?_eq_getElem hi) (List.getElem?_eq_getElem hs)⟩

/-! ## A concrete case -/

/-- `a ⟶ b ⟶ c`, both rules with support code 7 and 8. -/
def exCS : CS Text :=
  { tm := addRule (addRule (addNode (addNode (addNode empty ⟨['a'], ['A']⟩).1 ⟨['b'], ['B']⟩).1 ⟨['c'], ['C']⟩).1
      0 1 ⟨⟨"let {to_var}:{to_var_type}=f({from_var});".toList, []⟩, 7⟩)
      1 2 ⟨⟨"let {to_var}:{to_var_type}=g({from_var});".toList, []⟩, 8⟩
    cells := fun i => if i = 7 then some ['P'] else if i = 8 then some ['Q'] else none }

/-- The visible part of a result. -/
def ConvRes.view : ConvRes τ → Option (List (Nat × Text) × Text)
  | .ok d c _ => some (d, c)
  | _ => none

example : (convertRustTypes id firstMin id [] exCS 0 2 ['x'] ['y'] ['r']).view =
    some ([(7, ['P']), (8, ['Q'])], "    let y:B=f(x);\n    let y:C=g(y);\n".toList) := by decide
example : (convertMany id firstMin id [] exCS
    [⟨1, 2, ['x'], ['y'], []⟩, ⟨0, 0, ['x'], ['y'], []⟩, ⟨2, 0, ['x'], ['y'], []⟩, ⟨0, 2, ['x'], ['y'], []⟩]).map (·.1) =
    some [[(8, ['Q'])], [], [], [(7, ['P'])]] := by decide

end Flapi.Convert
