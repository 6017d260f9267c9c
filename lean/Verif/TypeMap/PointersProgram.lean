import Verif.TypeMap.PointersProps
/-! # The code written for a pointer conversion, and what it does (C81) -/
namespace Flapi.Pointers
open Flapi.Ast Flapi.Template Flapi.Builtin

/-! ## Specification -/

/-- A line `let mut out: ty = …src…;` of the generated code. -/
structure Line where
  form : PForm
  src : Text
  ty : Ty × List Text

/-- The line as it is written; `tyname` prints types. -/
def Line.text (tyname : Ty × List Text → Text) (out : Text) (l : Line) : Text := kwIndent ++ l.form.stmt out (tyname l.ty) l.src ++ kwNl

/-- The values of the variables in scope. -/
abbrev Env := Text → Option PVal

/-- The lines compile and run: each reads a variable that exists, its value has the declared type (up to lifetimes) and shadows the variable
`out`; `rs` is what is locked or borrowed on the way. -/
inductive Exec (out : Text) : List Line → Env → List (Nat × Mode) → Env → Prop
  | nil (env : Env) : Exec out [] env [] env
  | cons {l : Line} {ls : List Line} {env env' : Env} {v : PVal} {r : Option (Nat × Mode) × PVal} {rs : List (Nat × Mode)}
      (hv : env l.src = some v) (he : l.form.eval v = some r) (ht : r.2.HasTy l.ty.1.norm)
      (h : Exec out ls (fun x => if x = out then some r.2 else env x) rs env') : Exec out (l :: ls) env (r.1.toList ++ rs) env'

/-! ## Lemmas -/

theorem loop_lines (tyname : Ty × List Text → Text) (hty : ∀ t, '{' ∉ tyname t) (g : Graph.Graph (TMap.RTy (Ty × List Text)) Convert.EdgeW)
    (hwf : ∀ e ∈ g.edges, e.src < g.nodes.length ∧ e.dst < g.nodes.length) (out ret : Text) (ho : '{' ∉ out) (hr : '{' ∉ ret)
    (hstep : ∀ (e : Nat) ed, g.edges[e]? = some ed → ∀ x y, g.nodes[ed.src]? = some x → g.nodes[ed.dst]? = some y →
        ∃ f, PStep x.ty.1.norm y.ty.1.norm f ∧ CodeIs g e f)
    (b : Nat) (B : TMap.RTy (Ty × List Text)) (hb : g.nodes[b]? = some B) :
    ∀ (p : List Nat) (a : Nat) (A : TMap.RTy (Ty × List Text)) (cells : Convert.Cells) (cur : Text), Graph.IsPath g a b p →
      g.nodes[a]? = some A → '{' ∉ cur →
      ∃ r lines, Convert.convLoop tyname g out ret cells cur p = some r ∧ r.code = (lines.map (Line.text tyname out)).flatten ∧
        ∀ (env : Env) v, env cur = some v → v.HasTy A.ty.1.norm →
          ∃ rs env' v', Exec out lines env rs env' ∧ env' (if p = [] then cur else out) = some v' ∧ v'.HasTy B.ty.1.norm ∧
            v'.object = v.object ∧ (v'.canWrite → v.canWrite) ∧ ∀ x, x ≠ out → env' x = env x
  | [], a, A, cells, cur, hp, hA, hc => by
    have : a = b := hp
    subst this
    rw [hA] at hb; cases hb
    exact ⟨⟨[], [], cells⟩, [], rfl, rfl, fun env v hv ht => ⟨[], env, v, .nil _, by simpa using hv, ht, rfl, fun h => h, fun _ _ => rfl⟩⟩
  | e :: es, a, A, cells, cur, hp, hA, hc => by
    obtain ⟨ed, h1, rfl, h3⟩ := hp
    have hlt := (hwf ed (List.mem_of_getElem? h1)).2
    obtain ⟨f, hs, ed', he', hcode⟩ := hstep e ed h1 A _ hA (List.getElem?_eq_getElem hlt)
    rw [h1] at he'; cases he'
    obtain ⟨r, lines, k1, k2, k3⟩ := loop_lines tyname hty g hwf out ret ho hr hstep b B hb es ed.dst g.nodes[ed.dst] (Convert.clear cells ed.w.dep)
      out h3 (List.getElem?_eq_getElem hlt) ho
    have hgen : ed.w.code.generateCode out cur (tyname g.nodes[ed.dst].ty) ret = Line.text tyname out ⟨f, cur, g.nodes[ed.dst].ty⟩ := by
      have := C81_code f ed.w.code.params out cur (tyname g.nodes[ed.dst].ty) ret (by
        intro n hn
        simp only [List.mem_cons, List.not_mem_nil, or_false] at hn
        rcases hn with rfl | rfl | rfl | rfl
        · exact ho
        · exact hc
        · exact hty _
        · exact hr)
      rw [← hcode] at this
      exact this
    refine ⟨⟨Convert.takeDep cells ed.w.dep ++ r.deps, ed.w.code.generateCode out cur (tyname g.nodes[ed.dst].ty) ret ++ r.code, r.cells⟩,
      ⟨f, cur, g.nodes[ed.dst].ty⟩ :: lines, ?_, ?_, ?_⟩
    · simp only [Convert.convLoop, h1, List.getElem?_eq_getElem hlt, k1]
    · simp only [List.map_cons, List.flatten_cons, hgen, k2]
    · intro env v hv ht
      obtain ⟨r1, v1, e1, t1, o1, w1⟩ := step_value hs v ht
      obtain ⟨rs, env', v', x1, x2, x3, x4, x5, x6⟩ := k3 (fun x => if x = out then some v1 else env x) v1 (by simp) t1
      refine ⟨r1.toList ++ rs, env', v', .cons (r := (r1, v1)) hv e1 t1 x1, ?_, x3, x4.trans o1, fun h => w1 (x5 h), fun x hx => ?_⟩
      · have : (if es = [] then out else out) = out := by split <;> rfl
        rw [this] at x2
        simpa using x2
      · rw [x6 x hx]; simp [hx]

/-! ## C81 -/

/-- **C81**: the text the generator writes to convert variable `inVar` of one type into variable `out` of another consists of complete lines
that compile and run one after the other: each reads what the former one wrote, has the declared type, and at the end `out` holds a value of the wanted type that
leads to the very object `inVar` led to, allows changing it only if `inVar` did, and no other variable is touched. -/
theorem C81_program (u : Macro.Unicode) (nm : Ty → Text) (hnm : ∀ t t', t.plain = true → t'.plain = true → nm t = nm t' → Same t t')
    (cell : Nat) (P : Graph.PopFn) (ord : List Nat → List Nat) (hord : ∀ l, (ord l).Perm l) (tyname : Ty × List Text → Text)
    (hty : ∀ t, '{' ∉ tyname t) (st st' : Convert.CS (Ty × List Text)) (hok : TMap.Ok st.tm) (hno : st.tm.g.edges = [])
    (hn : Builtin.Named nm st.tm.g) (a b : Nat) (hab : a ≠ b) (A B : TMap.RTy (Ty × List Text)) (ha : st.tm.g.nodes[a]? = some A)
    (hb : st.tm.g.nodes[b]? = some B) (inVar out ret : Text) (hv : ∀ n ∈ [inVar, out, ret], '{' ∉ n) (deps : List (Nat × Text)) (code : Text)
    (h : Convert.convertRustTypes tyname P ord (rules u nm cell) st a b inVar out ret = .ok deps code st') :
    ∃ lines : List Line, code = (lines.map (Line.text tyname out)).flatten ∧
      ∀ (env : Env) v, env inVar = some v → v.HasTy A.ty.1.norm →
        ∃ rs env' v', Exec out lines env rs env' ∧ env' out = some v' ∧ v'.HasTy B.ty.1.norm ∧ v'.object = v.object ∧
          (v'.canWrite → v.canWrite) ∧ ∀ x, x ≠ out → env' x = env x := by
  unfold Convert.convertRustTypes at h
  cases hf : TMap.findOrBuildPath P ord (rules u nm cell) st.tm a b with
  | none => rw [hf] at h; cases h
  | some q =>
    obtain ⟨tm, res⟩ := q
    rw [hf] at h
    cases res with
    | panic => cases h
    | err => cases h
    | ok p =>
      simp only at h
      obtain ⟨hpath, hok2, hA, hB, hstep⟩ := search_edges u nm hnm cell P ord hord st.tm tm hok hno hn a b A B ha hb p hf
      have hp : p ≠ [] := by rintro rfl; exact hab hpath
      have : ¬ (p.isEmpty = true ∧ inVar ≠ out) := by
        intro hc
        exact hp (List.isEmpty_iff.1 hc.1)
      rw [if_neg this] at h
      obtain ⟨r, lines, k1, k2, k3⟩ := loop_lines tyname hty tm.g hok2.wf out ret (hv out (by simp)) (hv ret (by simp)) hstep b B hB p a A
        st.cells inVar hpath hA (hv inVar (by simp))
      rw [k1] at h
      simp only [Convert.ConvRes.ok.injEq] at h
      obtain ⟨_, rfl, _⟩ := h
      refine ⟨lines, k2, ?_⟩
      intro env v h1 h2
      obtain ⟨rs, env', v', x1, x2, x3, x4, x5, x6⟩ := k3 env v h1 h2
      rw [if_neg hp] at x2
      exact ⟨rs, env', v', x1, x2, x3, x4, x5, x6⟩

/-! ### Not vacuous -/

/-- Names for printing. -/
def exTyName (t : Ty × List Text) : Text := exNm t.1

/-- Code written to go from `Arc<Mutex<F>>` in `this` to `&mut F` in `a0`. -/
def exCode : Option Text :=
  match Convert.convertRustTypes exTyName Graph.firstMin id (rules GenericCode.plain exNm 0)
      ⟨exMap (wrap kwArc (wrap kwMutex tyF)) (.ref none true tyF), fun _ => none⟩ 0 1 ['x'] ['y'] [] with
  | .ok _ c _ => some c
  | _ => none

example : exCode = some (Line.text exTyName ['y'] ⟨.deref false, ['x'], (shared (wrap kwMutex tyF), [])⟩ ++
    Line.text exTyName ['y'] ⟨.lock, ['y'], (wrap kwMutexGuard tyF, [])⟩ ++ Line.text exTyName ['y'] ⟨.deref true, ['y'], (excl tyF, [])⟩) := by
  decide +kernel

end Flapi.Pointers
