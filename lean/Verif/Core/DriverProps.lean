import Verif.Core.Driver
import Verif.Core.ExpandProps
import Verif.Core.SourceRegistryProps
/-!
# C70 – configuring and running the generator
-/
namespace Flapi.Driver
open SourceRegistry Expand FileCache
variable {F G σ ε C E I : Type}

/-! ## Specification: what a chain of builder calls asks for -/

/-- The type maps merged, in call order. -/
def mergesOf (cs : List (Call F G)) : List SourceCode := cs.filterMap fun | .merge id code => some ⟨id, code⟩ | _ => none
/-- The pointer widths set, in call order. -/
def widthsOf (cs : List (Call F G)) : List Nat := cs.filterMap fun | .width n => some n | _ => none
/-- The settings of rustfmt, in call order. -/
def rustfmtsOf (cs : List (Call F G)) : List Bool := cs.filterMap fun | .rustfmt b => some b | _ => none
/-- The settings of "remove files", in call order. -/
def removesOf (cs : List (Call F G)) : List Bool := cs.filterMap fun | .removeFiles b => some b | _ => none
/-- The class callbacks, in call order. -/
def classesOf (cs : List (Call F G)) : List (Text × F) := cs.filterMap fun | .classCb n f => some (n, f) | _ => none
/-- The enum callbacks, in call order. -/
def enumsOf (cs : List (Call F G)) : List (Text × F) := cs.filterMap fun | .enumCb n f => some (n, f) | _ => none
/-- The method callbacks, in call order. -/
def methodsOf (cs : List (Call F G)) : List (Text × G) := cs.filterMap fun | .methodCb n f => some (n, f) | _ => none

/-- The last value set, or the default. -/
def lastOr {α : Type} (l : List α) (dflt : α) : α := l.getLast?.getD dflt

/-- The generator a user expects from `Generator::new` followed by the calls. -/
def Configured (t : Texts) (envWidth : Option Nat) (lang : Lang) (cs : List (Call F G)) (g : Gen F G) : Prop :=
  g.lang = lang ∧ g.reg = builtin t lang :: mergesOf cs ∧
  g.sources = (List.range (1 + (mergesOf cs).length)).map some ∧
  g.width = lastOr (widthsOf cs) (envWidth.getD 0) ∧ g.rustfmt = lastOr (rustfmtsOf cs) false ∧
  g.removeFiles = lastOr (removesOf cs) false ∧
  g.classCbs = classesOf cs ∧ g.enumCbs = enumsOf cs ∧ g.methodCbs = methodsOf cs

/-- When a chain of calls is accepted: no two type maps (the built-in one included) share their name, no two callbacks
of one kind share theirs, and no class callback takes a reserved name. -/
def Acceptable (t : Texts) (lang : Lang) (cs : List (Call F G)) : Prop :=
  ((builtin t lang :: mergesOf cs).map (·.idOfCode)).Nodup ∧
  ((classesOf cs).map (·.1)).Nodup ∧ (∀ x ∈ classesOf cs, x.1 ∉ knownClassDerives) ∧
  ((enumsOf cs).map (·.1)).Nodup ∧ ((methodsOf cs).map (·.1)).Nodup

/-- Merging type maps one after another, each under its own id. -/
def mergeSpec (b : Back F G σ ε C E I) (w : Nat) : Nat → σ → List Text → Except ε σ
  | _, m, [] => .ok m
  | k, m, code :: l => match b.merge m (some k) code w with
    | .error e => .error e
    | .ok m => mergeSpec b w (k + 1) m l

/-! ## Helper lemmas -/

theorem lastOr_cons {α : Type} (x : α) (l : List α) (d : α) : lastOr (x :: l) d = lastOr l x := by
  cases l with
  | nil => rfl
  | cons y l => simp [lastOr, List.getLast?_cons]

theorem register_some {r r' : Registry} {s : SourceCode} {id : SourceId} (h : register r s = some (id, r')) :
    id = some r.length ∧ r' = r ++ [s] ∧ s.idOfCode ∉ r.map (·.idOfCode) := by
  unfold register at h
  split at h
  · simp at h
  · rename_i hn
    simp at h
    refine ⟨h.1.symm, h.2.symm, ?_⟩
    intro hm
    obtain ⟨x, hx, he⟩ := List.mem_map.1 hm
    exact hn (List.any_eq_true.2 ⟨x, hx, by simp [he]⟩)

theorem register_isSome {r : Registry} {s : SourceCode} (h : s.idOfCode ∉ r.map (·.idOfCode)) :
    register r s = some (some r.length, r ++ [s]) := by
  unfold register
  rw [if_neg]
  intro ha
  obtain ⟨x, hx, he⟩ := List.any_eq_true.1 ha
  exact h (List.mem_map.2 ⟨x, hx, by simpa using he⟩)

theorem hasKey_iff {α : Type} (l : List (Text × α)) (k : Text) : hasKey l k = true ↔ k ∈ l.map (·.1) := by
  simp [hasKey]

theorem configure_some (cs : List (Call F G)) : ∀ (g g' : Gen F G), configure g cs = some g' →
    g'.lang = g.lang ∧ g'.reg = g.reg ++ mergesOf cs ∧
    g'.sources = g.sources ++ (List.range' g.reg.length (mergesOf cs).length).map some ∧
    g'.width = lastOr (widthsOf cs) g.width ∧ g'.rustfmt = lastOr (rustfmtsOf cs) g.rustfmt ∧
    g'.removeFiles = lastOr (removesOf cs) g.removeFiles ∧
    g'.classCbs = g.classCbs ++ classesOf cs ∧ g'.enumCbs = g.enumCbs ++ enumsOf cs ∧
    g'.methodCbs = g.methodCbs ++ methodsOf cs := by
  induction cs with
  | nil =>
    intro g g' h
    simp [configure] at h; subst h
    simp [mergesOf, widthsOf, rustfmtsOf, removesOf, classesOf, enumsOf, methodsOf, lastOr]
  | cons c cs ih =>
    intro g g' h
    unfold configure at h
    cases hc : call g c with
    | none => simp [hc] at h
    | some g1 =>
      simp only [hc] at h
      have := ih g1 g' h
      cases c with
      | width n =>
        simp [call] at hc; subst hc
        simpa [mergesOf, widthsOf, rustfmtsOf, removesOf, classesOf, enumsOf, methodsOf, lastOr_cons] using this
      | rustfmt n =>
        simp [call] at hc; subst hc
        simpa [mergesOf, widthsOf, rustfmtsOf, removesOf, classesOf, enumsOf, methodsOf, lastOr_cons] using this
      | removeFiles n =>
        simp [call] at hc; subst hc
        simpa [mergesOf, widthsOf, rustfmtsOf, removesOf, classesOf, enumsOf, methodsOf, lastOr_cons] using this
      | merge id code =>
        simp only [call, Option.bind_eq_bind, Option.bind_eq_some_iff, Option.pure_def, Option.some.injEq, Prod.exists] at hc
        obtain ⟨i, r, hr, hc⟩ := hc
        subst hc
        obtain ⟨rfl, rfl, _⟩ := register_some hr
        simpa [mergesOf, widthsOf, rustfmtsOf, removesOf, classesOf, enumsOf, methodsOf, lastOr_cons, List.range'_succ] using this
      | classCb n f =>
        simp only [call] at hc
        split at hc
        · simp at hc
        split at hc
        · simp at hc
        simp at hc; subst hc
        simpa [mergesOf, widthsOf, rustfmtsOf, removesOf, classesOf, enumsOf, methodsOf, lastOr_cons] using this
      | enumCb n f =>
        simp only [call] at hc
        split at hc
        · simp at hc
        simp at hc; subst hc
        simpa [mergesOf, widthsOf, rustfmtsOf, removesOf, classesOf, enumsOf, methodsOf, lastOr_cons] using this
      | methodCb n f =>
        simp only [call] at hc
        split at hc
        · simp at hc
        simp at hc; subst hc
        simpa [mergesOf, widthsOf, rustfmtsOf, removesOf, classesOf, enumsOf, methodsOf, lastOr_cons] using this

/-- When a chain of calls on top of `g` is accepted. -/
def AcceptableAt (g : Gen F G) (cs : List (Call F G)) : Prop :=
  ((g.reg ++ mergesOf cs).map (·.idOfCode)).Nodup ∧
  ((g.classCbs ++ classesOf cs).map (·.1)).Nodup ∧ (∀ x ∈ classesOf cs, x.1 ∉ knownClassDerives) ∧
  ((g.enumCbs ++ enumsOf cs).map (·.1)).Nodup ∧ ((g.methodCbs ++ methodsOf cs).map (·.1)).Nodup

theorem nodup_prefix {α β : Type} (f : α → β) (l m : List α) (x : α) (h : ((l ++ (x :: m)).map f).Nodup) :
    f x ∉ l.map f := by
  intro hx
  rw [List.map_append, List.nodup_append] at h
  exact h.2.2 (f x) hx (f x) (by simp) rfl

theorem configure_isSome (cs : List (Call F G)) : ∀ (g : Gen F G), (g.reg.map (·.idOfCode)).Nodup →
    (g.classCbs.map (·.1)).Nodup → (g.enumCbs.map (·.1)).Nodup → (g.methodCbs.map (·.1)).Nodup →
    ((configure g cs).isSome ↔ AcceptableAt g cs) := by
  induction cs with
  | nil =>
    intro g h1 h2 h3 h4
    simp [configure, AcceptableAt, mergesOf, classesOf, enumsOf, methodsOf] at *
    exact ⟨h1, h2, h3, h4⟩
  | cons c cs ih =>
    intro g h1 h2 h3 h4
    unfold configure
    cases c with
    | width n =>
      simp only [call]
      exact ih _ h1 h2 h3 h4
    | rustfmt n =>
      simp only [call]
      exact ih _ h1 h2 h3 h4
    | removeFiles n =>
      simp only [call]
      exact ih _ h1 h2 h3 h4
    | merge id code =>
      have e1 : mergesOf (Call.merge id code :: cs) = ⟨id, code⟩ :: mergesOf cs := rfl
      by_cases hd : id ∈ g.reg.map (·.idOfCode)
      · have hn : call g (.merge id code) = none := by
          cases hr : register g.reg ⟨id, code⟩ with
          | none => simp [call, hr]
          | some x => exact absurd hd (register_some (id := x.1) (r' := x.2) hr).2.2
        rw [hn]
        simp only [Option.isSome_none, Bool.false_eq_true, false_iff]
        intro ha
        exact nodup_prefix _ _ _ _ (e1 ▸ ha.1) hd
      · have hr := register_isSome (r := g.reg) (s := ⟨id, code⟩) hd
        have hn : call g (.merge id code) =
            some { g with reg := g.reg ++ [⟨id, code⟩], sources := g.sources ++ [some g.reg.length] } := by
          simp [call, hr]
        rw [hn]
        have := ih { g with reg := g.reg ++ [⟨id, code⟩], sources := g.sources ++ [some g.reg.length] }
          (by
            rw [List.map_append, List.nodup_append]
            refine ⟨h1, by simp, ?_⟩
            intro a ha b hb
            simp at hb; subst hb
            rintro rfl; exact hd ha) h2 h3 h4
        refine this.trans ?_
        simp only [AcceptableAt, e1, List.append_assoc, List.singleton_append]
        exact Iff.rfl
    | classCb n f =>
      have e1 : classesOf (Call.classCb (G := G) n f :: cs) = (n, f) :: classesOf cs := rfl
      simp only [call]
      by_cases hk : n ∈ knownClassDerives
      · have hk' : knownClassDerives.contains n = true := by simpa using hk
        rw [if_pos hk']
        simp only [Option.isSome_none, Bool.false_eq_true, false_iff]
        intro ha
        exact ha.2.2.1 (n, f) (by rw [e1]; simp) hk
      · rw [if_neg (by simpa using hk)]
        by_cases hd : hasKey g.classCbs n = true
        · rw [if_pos hd]
          simp only [Option.isSome_none, Bool.false_eq_true, false_iff]
          intro ha
          exact nodup_prefix _ _ _ _ (e1 ▸ ha.2.1) ((hasKey_iff _ _).1 hd)
        · rw [if_neg hd]
          have := ih { g with classCbs := g.classCbs ++ [(n, f)] } h1
            (by
              rw [List.map_append, List.nodup_append]
              refine ⟨h2, by simp, ?_⟩
              intro a ha b hb
              simp at hb; subst hb
              rintro rfl; exact hd ((hasKey_iff _ _).2 ha)) h3 h4
          refine this.trans ?_
          simp only [AcceptableAt, e1, List.append_assoc, List.singleton_append, List.forall_mem_cons, hk, not_false_eq_true, true_and]
          exact Iff.rfl
    | enumCb n f =>
      have e1 : enumsOf (Call.enumCb (G := G) n f :: cs) = (n, f) :: enumsOf cs := rfl
      simp only [call]
      by_cases hd : hasKey g.enumCbs n = true
      · rw [if_pos hd]
        simp only [Option.isSome_none, Bool.false_eq_true, false_iff]
        intro ha
        exact nodup_prefix _ _ _ _ (e1 ▸ ha.2.2.2.1) ((hasKey_iff _ _).1 hd)
      · rw [if_neg hd]
        have := ih { g with enumCbs := g.enumCbs ++ [(n, f)] } h1 h2
          (by
            rw [List.map_append, List.nodup_append]
            refine ⟨h3, by simp, ?_⟩
            intro a ha b hb
            simp at hb; subst hb
            rintro rfl; exact hd ((hasKey_iff _ _).2 ha)) h4
        refine this.trans ?_
        simp only [AcceptableAt, e1, List.append_assoc, List.singleton_append]
        exact Iff.rfl
    | methodCb n f =>
      have e1 : methodsOf (Call.methodCb (F := F) n f :: cs) = (n, f) :: methodsOf cs := rfl
      simp only [call]
      by_cases hd : hasKey g.methodCbs n = true
      · rw [if_pos hd]
        simp only [Option.isSome_none, Bool.false_eq_true, false_iff]
        intro ha
        exact nodup_prefix _ _ _ _ (e1 ▸ ha.2.2.2.2) ((hasKey_iff _ _).1 hd)
      · rw [if_neg hd]
        have := ih { g with methodCbs := g.methodCbs ++ [(n, f)] } h1 h2 h3
          (by
            rw [List.map_append, List.nodup_append]
            refine ⟨h4, by simp, ?_⟩
            intro a ha b hb
            simp at hb; subst hb
            rintro rfl; exact hd ((hasKey_iff _ _).2 ha))
        refine this.trans ?_
        simp only [AcceptableAt, e1, List.append_assoc, List.singleton_append]
        exact Iff.rfl

theorem new_eq (t : Texts) (w : Option Nat) (lang : Lang) :
    (new t w lang : Option (Gen F G)) = some ⟨lang, [builtin t lang], [some 0], w.getD 0, false, false, [], [], []⟩ := by
  simp [new, register]

/-! ## The builder -/

/-- **C70 (what is configured).** Whatever the calls and however they are interleaved, an accepted chain of builder calls
yields exactly the generator asked for: the built-in type map first and then the merged ones in call order, each under
its own id; the last value set of each option (or its default: the width found in the environment, formatting and
removing files off); and every callback registered. -/
theorem C70_configured (t : Texts) (envWidth : Option Nat) (lang : Lang) (cs : List (Call F G)) (g : Gen F G)
    (h : ((new t envWidth lang).bind fun g => configure g cs) = some g) : Configured t envWidth lang cs g := by
  rw [new_eq] at h
  obtain ⟨h1, h2, h3, h4, h5, h6, h7, h8, h9⟩ := configure_some cs _ g h
  refine ⟨h1, h2, ?_, h4, h5, h6, h7, h8, h9⟩
  rw [h3, List.range_eq_range', Nat.add_comm, List.range'_succ]
  rfl

/-- **C70 (when the configuration is refused).** A chain of builder calls panics exactly if two type maps share their
name (the built-in table's name counts), two callbacks of the same kind share theirs, or a class callback uses one of
the five reserved names. -/
theorem C70_configure_accepted (t : Texts) (envWidth : Option Nat) (lang : Lang) (cs : List (Call F G)) :
    ((new t envWidth lang).bind fun g => configure g cs).isSome ↔ Acceptable t lang cs := by
  rw [new_eq]
  exact configure_isSome cs _ (by simp) (by simp) (by simp) (by simp)

/-- The result of configuring depends on each kind of call separately. -/
theorem configured_unique {t : Texts} {w : Option Nat} {lang : Lang} {cs : List (Call F G)} {g g' : Gen F G}
    (h : Configured t w lang cs g) (h' : Configured t w lang cs g') : g = g' := by
  obtain ⟨a1, a2, a3, a4, a5, a6, a7, a8, a9⟩ := h
  obtain ⟨b1, b2, b3, b4, b5, b6, b7, b8, b9⟩ := h'
  cases g; cases g'
  simp_all

/-- **C70 (order of unrelated calls).** Two chains of calls that agree on each kind of call separately configure the same
generator (or are both refused): only the order of calls of one kind matters. -/
theorem C70_order_irrelevant (t : Texts) (envWidth : Option Nat) (lang : Lang) (cs cs' : List (Call F G))
    (h1 : mergesOf cs = mergesOf cs') (h2 : widthsOf cs = widthsOf cs') (h3 : rustfmtsOf cs = rustfmtsOf cs')
    (h4 : removesOf cs = removesOf cs') (h5 : classesOf cs = classesOf cs') (h6 : enumsOf cs = enumsOf cs')
    (h7 : methodsOf cs = methodsOf cs') :
    ((new t envWidth lang).bind fun g => configure g cs) = ((new t envWidth lang).bind fun g => configure g cs') := by
  have hA : Acceptable t lang cs ↔ Acceptable t lang cs' := by simp [Acceptable, h1, h5, h6, h7]
  have hC : ∀ g, Configured t envWidth lang cs g ↔ Configured t envWidth lang cs' g := by
    intro g; simp [Configured, h1, h2, h3, h4, h5, h6, h7]
  have e1 := C70_configure_accepted t envWidth lang cs
  have e2 := C70_configure_accepted t envWidth lang cs'
  have f1 := C70_configured t envWidth lang cs
  have f2 := C70_configured t envWidth lang cs'
  cases hx : ((new t envWidth lang).bind fun g => configure g cs) with
  | none =>
    cases hy : ((new t envWidth lang).bind fun g => configure g cs') with
    | none => rfl
    | some g' =>
      rw [hx] at e1; rw [hy] at e2
      exact absurd (e1.2 (hA.2 (e2.1 rfl))) (by simp)
  | some g =>
    cases hy : ((new t envWidth lang).bind fun g => configure g cs') with
    | none =>
      rw [hx] at e1; rw [hy] at e2
      exact absurd (e2.2 (hA.1 (e1.1 rfl))) (by simp)
    | some g' => rw [configured_unique ((hC g).1 (f1 g hx)) (f2 g' hy)]

/-- **C70 (annotation import).** `use_null_annotation` accepts exactly the imports of something called `NonNull`, and
takes the package it comes from. -/
theorem C70_null_annotation (imp pkg : Text) : useNullAnnotation imp = some pkg ↔ imp = pkg ++ ".NonNull".toList := by
  unfold useNullAnnotation
  generalize ".NonNull".toList = s
  simp only
  by_cases hs : s.isSuffixOf imp = true
  · rw [if_pos hs]
    obtain ⟨p, rfl⟩ := List.isSuffixOf_iff_suffix.1 hs
    simp
  · rw [if_neg hs]
    simp only [reduceCtorEq, false_iff]
    rintro rfl
    exact hs (List.isSuffixOf_iff_suffix.2 ⟨pkg, rfl⟩)

theorem repl_self (pat : Text) (hp : pat ≠ []) (cs : Text) : ∀ n, n = cs.length → ∀ m, repl pat pat pat m 0 cs = cs := by
  intro n
  induction n using Nat.strongRecOn generalizing cs with
  | _ n ih =>
    intro hn m
    cases cs with
    | nil => simp [repl, hp]
    | cons c cs =>
      by_cases hm : pat <+: c :: cs
      · obtain ⟨r, hr⟩ := hm
        rw [← hr, repl_match pat pat pat hp]
        have hl : r.length < n := by
          have : (pat ++ r).length = n := by rw [hr, hn]
          have h0 : 0 < pat.length := List.length_pos_iff.2 hp
          simp at this; omega
        rw [ih r.length hl r rfl]
        simp
      · unfold repl
        rw [if_neg (by simpa using hm), ih cs.length (by simp [hn]) cs rfl]

theorem strReplace_self (pat src : Text) (hp : pat ≠ []) : strReplace src pat pat = src := by
  rw [strReplace_eq_repl src pat pat hp]
  exact repl_self pat hp src _ rfl _

/-- **C70 (default package of `Optional`).** With the default package the built-in Java table is used as it is. -/
theorem C70_default_optional_package (code : Text) : optionalCode "java.util".toList code = code := by
  have e1 : "java.util".toList ++ ".Optional".toList = optDots := by decide
  have e2 : slashed "java.util".toList ++ "/Optional".toList = optSlashes := by decide
  unfold optionalCode
  rw [e1, e2, strReplace_self _ _ (by decide), strReplace_self _ _ (by decide)]

/-! ## Running -/

theorem readAll_some (crateName : Text) (read : Path → Option Text) (ps : List Path) :
    ∀ (reg : Registry) (ids : List SourceId) (reg' : Registry), readAll crateName read reg ps = some (ids, reg') →
    ∃ codes : List Text, ps.map read = codes.map some ∧
      reg' = reg ++ (ps.zip codes).map (fun x => ⟨fileId crateName x.1, x.2⟩) ∧
      ids = (List.range' reg.length ps.length).map some := by
  induction ps with
  | nil => intro reg ids reg' h; simp [readAll] at h; exact ⟨[], by simp [h]⟩
  | cons p ps ih =>
    intro reg ids reg' h
    unfold readAll at h
    cases hr : read p with
    | none => simp [hr] at h
    | some code =>
      simp only [hr] at h
      cases hg : register reg ⟨fileId crateName p, code⟩ with
      | none => simp [hg] at h
      | some x =>
        obtain ⟨id, r1⟩ := x
        simp only [hg] at h
        obtain ⟨rfl, rfl, _⟩ := register_some hg
        cases ha : readAll crateName read (reg ++ [⟨fileId crateName p, code⟩]) ps with
        | none => simp [ha] at h
        | some y =>
          obtain ⟨ids2, r2⟩ := y
          simp only [ha, Option.some.injEq, Prod.mk.injEq] at h
          obtain ⟨rfl, rfl⟩ := h
          obtain ⟨codes, c1, c2, c3⟩ := ih _ _ _ ha
          refine ⟨code :: codes, by simp [hr, c1], by simp [c2], by simp [c3, List.range'_succ]⟩

theorem readAll_isSome (crateName : Text) (read : Path → Option Text) (ps : List Path) :
    ∀ (reg : Registry), (reg.map (·.idOfCode)).Nodup →
    ((readAll crateName read reg ps).isSome ↔
      (∀ p ∈ ps, (read p).isSome) ∧ (reg.map (·.idOfCode) ++ ps.map (fileId crateName)).Nodup) := by
  induction ps with
  | nil => intro reg h; simpa [readAll] using h
  | cons p ps ih =>
    intro reg h
    unfold readAll
    cases hr : read p with
    | none => simp [hr]
    | some code =>
      simp only
      by_cases hd : fileId crateName p ∈ reg.map (·.idOfCode)
      · cases hg : register reg ⟨fileId crateName p, code⟩ with
        | some x => exact absurd hd (register_some (id := x.1) (r' := x.2) hg).2.2
        | none =>
          simp only [Option.isSome_none, Bool.false_eq_true, false_iff, not_and]
          intro _ hnd
          rw [List.map_cons, List.nodup_append] at hnd
          exact hnd.2.2 _ hd _ (by simp) rfl
      · rw [register_isSome (r := reg) (s := ⟨fileId crateName p, code⟩) hd]
        simp only
        have := ih (reg ++ [⟨fileId crateName p, code⟩]) (by
          rw [List.map_append, List.nodup_append]
          refine ⟨h, by simp, ?_⟩
          intro a ha b hb
          simp at hb; subst hb
          rintro rfl; exact hd ha)
        cases hx : readAll crateName read (reg ++ [⟨fileId crateName p, code⟩]) ps with
        | none =>
          rw [hx] at this
          simp only [Option.isSome_none, Bool.false_eq_true, false_iff, List.map_append, List.map_cons, List.map_nil,
            List.append_assoc, List.singleton_append] at this
          simp [hr] at this ⊢
          exact this
        | some y =>
          rw [hx] at this
          simp only [Option.isSome_some, true_iff, List.map_append, List.map_cons, List.map_nil,
            List.append_assoc, List.singleton_append] at this
          simp [hr] at this ⊢
          exact this

theorem mergeAll_eq (b : Back F G σ ε C E I) (w : Nat) (l : List SourceCode) :
    ∀ (pre post : Registry) (m : σ),
    mergeAll b (pre ++ l ++ post) w m ((List.range' pre.length l.length).map some) =
      some (mergeSpec b w pre.length m (l.map (·.code))) := by
  induction l with
  | nil => intro pre post m; simp [mergeAll, mergeSpec]
  | cons s l ih =>
    intro pre post m
    simp only [List.length_cons, List.range'_succ, List.map_cons]
    unfold mergeAll mergeSpec
    have hs : src (pre ++ (s :: l) ++ post) (some pre.length) = some s.code := by simp [src, srcWithId]
    rw [hs]
    simp only
    cases b.merge m (some pre.length) s.code w with
    | error e => rfl
    | ok m' =>
      simp only
      have := ih (pre ++ [s]) post m'
      simpa using this

theorem parseAll_eq (b : Back F G σ ε C E I) (l : List SourceCode) : ∀ (pre : Registry),
    parseAll b (pre ++ l) ((List.range' pre.length l.length).map some) =
      some ((l.zipIdx pre.length).map fun x => b.parseFile (some x.2) x.1.code) := by
  induction l with
  | nil => intro pre; simp [parseAll]
  | cons s l ih =>
    intro pre
    simp only [List.length_cons, List.range'_succ, List.map_cons]
    unfold parseAll
    have hs : src (pre ++ (s :: l)) (some pre.length) = some s.code := by simp [src, srcWithId]
    have := ih (pre ++ [s])
    simp only [List.append_assoc, List.singleton_append, List.length_append, List.length_cons, List.length_nil, Nat.zero_add] at this
    rw [hs, this]
    rfl

/-- The files as the run sees them: file number `i` is parsed under the id that follows the type maps. -/
def parsedFiles (b : Back F G σ ε C E I) (typeMaps : Nat) (codes : List Text) : List (Except ε (List Item)) :=
  (codes.zipIdx typeMaps).map fun x => b.parseFile (some x.2) x.1

/-- The type map before the source files are looked at: the built-in table and the user's, in this order. -/
def loaded (b : Back F G σ ε C E I) (w : Nat) (typeMaps : List SourceCode) : Except ε (σ × List Text) :=
  match mergeSpec b w 0 b.emptyMap (typeMaps.map (·.code)) with
  | .error e => .error e
  | .ok m => if b.isEmpty m then .error b.noConversions else .ok (b.takeUtils m)

theorem zipIdx_map_code (crateName : Text) (srcs : List Path) : ∀ (codes : List Text) (k : Nat), srcs.length = codes.length →
    (((srcs.zip codes).map (fun x => (⟨fileId crateName x.1, x.2⟩ : SourceCode))).zipIdx k).map (fun x => (x.2, x.1.code)) =
    (codes.zipIdx k).map (fun x => (x.2, x.1)) := by
  induction srcs with
  | nil => intro codes k h; cases codes with | nil => rfl | cons c l => simp at h
  | cons p ps ih =>
    intro codes k h
    cases codes with
    | nil => simp at h
    | cons c codes => simp [List.zipIdx_cons, ih codes (k + 1) (by simpa using h)]

/-- The run once all files are read. -/
theorem runStr_eq (b : Back F G σ ε C E I) (ft : Faults) (g : Gen F G) (typeMaps files : List SourceCode)
    (hreg : g.reg = typeMaps ++ files) (hs : g.sources = (List.range typeMaps.length).map some)
    (dst : Path) (d : Disk Char) :
    runStr b ft g ((List.range' typeMaps.length files.length).map some) dst d =
      (if g.width = 0 then ⟨.panic, d, none⟩ else
        let utils := loaded b g.width typeMaps
        let parsed := parsedFiles b typeMaps.length (files.map (·.code))
        let r := expandStr (envOf b g) ft g.width (mapOf b utils) (utils.map (·.2)) parsed dst d
        ⟨r.1, r.2, backendInput (envOf b g) g.width utils parsed⟩) := by
  unfold runStr
  by_cases hw : g.width = 0
  · rw [if_pos hw, if_pos hw]
  · rw [if_neg hw, if_neg hw]
    have hi : initTypesMap b g = some (loaded b g.width typeMaps) := by
      unfold initTypesMap loaded
      have := mergeAll_eq b g.width typeMaps [] files b.emptyMap
      simp only [List.nil_append, List.length_nil] at this
      rw [hreg, hs, List.range_eq_range', this]
      cases mergeSpec b g.width 0 b.emptyMap (typeMaps.map (·.code)) with
      | error e => rfl
      | ok m => simp only; split <;> rfl
    have hp : parseAll b g.reg ((List.range' typeMaps.length files.length).map some) =
        some (parsedFiles b typeMaps.length (files.map (·.code))) := by
      rw [hreg, parseAll_eq]
      simp [parsedFiles, List.zipIdx_map]
    rw [hi, hp]

/-- A generator made by the builder. -/
def Built (t : Texts) (envWidth : Option Nat) (lang : Lang) (cs : List (Call F G)) (g : Gen F G) : Prop :=
  ((new t envWidth lang).bind fun g => configure g cs) = some g

/-- **C70 (what a run does).** A run on source files reads all of them, merges the built-in type map and then the
user's in call order, parses the source files in the order given, each under its own id (counted after the type maps),
and proceeds with exactly these (see C29 for what happens then); without a known pointer width it panics before doing
anything. -/
theorem C70_run (b : Back F G σ ε C E I) (ft : Faults) (read : Path → Option Text) (t : Texts) (envWidth : Option Nat)
    (lang : Lang) (cs : List (Call F G)) (g : Gen F G) (hg : Built t envWidth lang cs g) (crateName : Text)
    (srcs : List Path) (codes : List Text) (hr : srcs.map read = codes.map some)
    (hn : ((builtin t lang :: mergesOf cs).map (·.idOfCode) ++ srcs.map (fileId crateName)).Nodup)
    (dst : Path) (d : Disk Char) :
    expandMany b ft read g crateName srcs dst d =
      if g.width = 0 then ⟨.panic, d, none⟩ else
        let utils := loaded b g.width (builtin t lang :: mergesOf cs)
        let parsed := parsedFiles b (1 + (mergesOf cs).length) codes
        let r := expandStr (envOf b g) ft g.width (mapOf b utils) (utils.map (·.2)) parsed dst d
        ⟨r.1, r.2, backendInput (envOf b g) g.width utils parsed⟩ := by
  obtain ⟨h1, h2, h3, -⟩ := C70_configured t envWidth lang cs g hg
  have hreg : (g.reg.map (·.idOfCode)).Nodup := by
    rw [h2]; exact (List.nodup_append.1 hn).1
  have hsome := (readAll_isSome crateName read srcs g.reg hreg).2 (by
    refine ⟨?_, by rw [h2]; exact hn⟩
    intro p hp
    have : read p ∈ srcs.map read := List.mem_map_of_mem hp
    rw [hr] at this
    obtain ⟨c, _, hc⟩ := List.mem_map.1 this
    simp [← hc])
  obtain ⟨⟨ids, reg'⟩, hx⟩ := Option.isSome_iff_exists.1 hsome
  obtain ⟨codes', c1, c2, c3⟩ := readAll_some crateName read srcs _ _ _ hx
  have hcc : codes' = codes := by
    have : codes'.map some = codes.map some := by rw [← c1, hr]
    exact (List.map_inj_right (by intro a b; simp)).1 this
  subst hcc
  have hlen : srcs.length = codes'.length := by
    have := congrArg List.length hr; simpa using this
  unfold expandMany
  rw [hx]
  simp only
  subst c3
  have hlen2 : ((srcs.zip codes').map (fun x => (⟨fileId crateName x.1, x.2⟩ : SourceCode))).length = srcs.length := by
    simp [hlen]
  have e := runStr_eq b ft { g with reg := reg' } (builtin t lang :: mergesOf cs)
    ((srcs.zip codes').map (fun x => ⟨fileId crateName x.1, x.2⟩)) (by simp only; rw [c2, h2])
    (by simp only; rw [h3]; simp [Nat.add_comm]) dst d
  rw [hlen2] at e
  have hmap : ((srcs.zip codes').map (fun x => (⟨fileId crateName x.1, x.2⟩ : SourceCode))).map (·.code) = codes' := by
    rw [List.map_map]
    have : ((fun x : SourceCode => x.code) ∘ fun x : Path × Text => (⟨fileId crateName x.1, x.2⟩ : SourceCode)) = Prod.snd := rfl
    rw [this, List.map_snd_zip (by omega)]
  rw [hmap] at e
  rw [h2]
  have hl : (builtin t lang :: mergesOf cs).length = 1 + (mergesOf cs).length := by simp [Nat.add_comm]
  rw [hl] at e ⊢
  exact e

/-- **C70 (ids name the right file).** The id under which source file number `i` is parsed – the one its diagnostics carry
– is looked up to that file's name and text, and the ids of the type maps to theirs. -/
theorem C70_ids_name_files (read : Path → Option Text) (t : Texts) (envWidth : Option Nat)
    (lang : Lang) (cs : List (Call F G)) (g : Gen F G) (hg : Built t envWidth lang cs g) (crateName : Text)
    (srcs : List Path) (ids : List SourceId) (reg : Registry) (h : readAll crateName read g.reg srcs = some (ids, reg)) :
    (∀ (i : Nat) p, srcs[i]? = some p → ∃ code, read p = some code ∧
      srcWithId reg (some (1 + (mergesOf cs).length + i)) = some ⟨fileId crateName p, code⟩) ∧
    srcWithId reg (some 0) = some (builtin t lang) ∧
    (∀ (k : Nat) s, (mergesOf cs)[k]? = some s → srcWithId reg (some (1 + k)) = some s) := by
  obtain ⟨h1, h2, h3, -⟩ := C70_configured t envWidth lang cs g hg
  obtain ⟨codes, c1, c2, c3⟩ := readAll_some crateName read srcs _ _ _ h
  subst c2
  rw [h2]
  refine ⟨?_, by simp [srcWithId], ?_⟩
  · intro i p hi
    have hri : (srcs.map read)[i]? = some (read p) := by simp [hi]
    rw [c1] at hri
    simp only [List.getElem?_map, Option.map_eq_some_iff] at hri
    obtain ⟨code, hc, he⟩ := hri
    refine ⟨code, he.symm, ?_⟩
    simp only [srcWithId]
    rw [List.getElem?_append_right (by simp; omega)]
    have : 1 + (mergesOf cs).length + i - (builtin t lang :: mergesOf cs).length = i := by simp; omega
    rw [this]
    have hz : (srcs.zip codes)[i]? = some (p, code) := List.getElem?_zip_eq_some.2 ⟨hi, hc⟩
    simp [hz]
  · intro k s hk
    have hlt : k < (mergesOf cs).length := by
      rcases Nat.lt_or_ge k (mergesOf cs).length with h | h
      · exact h
      · simp [List.getElem?_eq_none h] at hk
    simp only [srcWithId]
    rw [List.getElem?_append_left (by simp; omega), Nat.add_comm, List.getElem?_cons_succ]
    exact hk

/-- **C70 (one file).** `expand` is `expand_many` on that one file. -/
theorem C70_expand_one (b : Back F G σ ε C E I) (ft : Faults) (read : Path → Option Text) (g : Gen F G) (crateName : Text)
    (source : Path) (dst : Path) (d : Disk Char) :
    expand b ft read g crateName source dst d = expandMany b ft read g crateName [source] dst d := by
  unfold expand expandMany readAll readAll
  cases read source with
  | none => rfl
  | some code =>
    simp only
    cases register g.reg ⟨fileId crateName source, code⟩ with
    | none => rfl
    | some x => rfl

/-- **C70 (unreadable or repeated files).** If one of the source files cannot be read, or a file is listed twice, or a
file's id clashes with that of a type map, the run panics before it starts: the disk is as before and the backend –
which writes the foreign files – was not called. -/
theorem C70_bad_input (b : Back F G σ ε C E I) (ft : Faults) (read : Path → Option Text) (t : Texts)
    (envWidth : Option Nat) (lang : Lang) (cs : List (Call F G)) (g : Gen F G) (hg : Built t envWidth lang cs g)
    (crateName : Text) (srcs : List Path)
    (hbad : (∃ p ∈ srcs, read p = none) ∨
      ¬ ((builtin t lang :: mergesOf cs).map (·.idOfCode) ++ srcs.map (fileId crateName)).Nodup)
    (dst : Path) (d : Disk Char) :
    expandMany b ft read g crateName srcs dst d = ⟨.panic, d, none⟩ := by
  obtain ⟨h1, h2, h3, -⟩ := C70_configured t envWidth lang cs g hg
  have hok := (C70_configure_accepted t envWidth lang cs).1 (by rw [show _ = some g from hg]; rfl)
  have hx : readAll crateName read g.reg srcs = none := by
    have hi := readAll_isSome crateName read srcs g.reg (by rw [h2]; exact hok.1)
    cases he : readAll crateName read g.reg srcs with
    | none => rfl
    | some x =>
      rw [he, h2] at hi
      obtain ⟨ha, hb⟩ := hi.1 rfl
      rcases hbad with ⟨p, hp, hpn⟩ | hbad
      · exact absurd (ha p hp) (by simp [hpn])
      · exact absurd hb hbad
  unfold expandMany
  rw [hx]

theorem produce_of_no_backend (env : Env σ ε C E I) (w : Nat) (utils : Except ε (σ × List Text)) (m0 : σ)
    (hm : ∀ x, utils = .ok x → m0 = x.1) (files : List (Except ε (List Item)))
    (h : backendInput env w utils files = none) :
    ∃ r, r ≠ Result.ok ∧ produce env w m0 (utils.map (·.2)) files = .inl r := by
  unfold backendInput at h
  unfold produce
  by_cases hw : w = 0
  · rw [if_pos hw]; exact ⟨_, by simp, rfl⟩
  · rw [if_neg hw] at h ⊢
    cases utils with
    | error e => exact ⟨.err e, by simp, rfl⟩
    | ok x =>
      obtain ⟨m, us⟩ := x
      simp only at h
      rw [hm _ rfl]
      simp only [Except.map]
      cases hs : stepFiles env ⟨us.flatten, m, []⟩ files with
      | error e => exact ⟨.err e, by simp, rfl⟩
      | ok st => simp [hs] at h

theorem runStr_no_backend (b : Back F G σ ε C E I) (ft : Faults) (g : Gen F G) (ids : List SourceId) (dst : Path)
    (d : Disk Char) (h : (runStr b ft g ids dst d).backend = none) :
    (runStr b ft g ids dst d).result ≠ .ok ∧ (runStr b ft g ids dst d).disk = d := by
  unfold runStr at h ⊢
  by_cases hw : g.width = 0
  · rw [if_pos hw]; exact ⟨by simp, rfl⟩
  · rw [if_neg hw] at h ⊢
    cases hi : initTypesMap b g with
    | none => exact ⟨by simp, rfl⟩
    | some utils =>
      cases hp : parseAll b g.reg ids with
      | none => exact ⟨by simp, rfl⟩
      | some files =>
        rw [hi, hp] at h
        simp only at h ⊢
        obtain ⟨r, hr, he⟩ := produce_of_no_backend (envOf b g) g.width utils
          (mapOf b utils) (by rintro x rfl; rfl) files h
        unfold expandStr
        rw [he]
        exact ⟨hr, rfl⟩

/-- **C70 (mistakes are found before anything is written).** Unless every type map was merged and every macro of every
source file was accepted, the backend – which writes the foreign files – is not called, the run does not succeed and
the disk is as before. -/
theorem C70_nothing_written_early (b : Back F G σ ε C E I) (ft : Faults) (read : Path → Option Text) (g : Gen F G)
    (crateName : Text) (srcs : List Path) (dst : Path) (d : Disk Char)
    (h : (expandMany b ft read g crateName srcs dst d).backend = none) :
    (expandMany b ft read g crateName srcs dst d).result ≠ .ok ∧ (expandMany b ft read g crateName srcs dst d).disk = d := by
  unfold expandMany at h ⊢
  cases hx : readAll crateName read g.reg srcs with
  | none => exact ⟨by simp, rfl⟩
  | some y =>
    rw [hx] at h
    exact runStr_no_backend b ft _ _ dst d h

/-- **C70 (what the backend gets).** When the backend is called, every type map was merged, and it gets all declarations
of all files in order with the type map that results from the type maps in order followed by the items of all files in
order. -/
theorem C70_backend_input (b : Back F G σ ε C E I) (ft : Faults) (read : Path → Option Text) (t : Texts)
    (envWidth : Option Nat) (lang : Lang) (cs : List (Call F G)) (g : Gen F G) (hg : Built t envWidth lang cs g)
    (crateName : Text) (srcs : List Path) (codes : List Text) (hr : srcs.map read = codes.map some)
    (hn : ((builtin t lang :: mergesOf cs).map (·.idOfCode) ++ srcs.map (fileId crateName)).Nodup)
    (dst : Path) (d : Disk Char) (m : σ) (todo : List (Expandable C E I))
    (h : (expandMany b ft read g crateName srcs dst d).backend = some (m, todo)) :
    ∃ m0, g.width ≠ 0 ∧
      mergeSpec b g.width 0 b.emptyMap ((builtin t lang :: mergesOf cs).map (·.code)) = .ok m0 ∧ b.isEmpty m0 = false ∧
      (∀ f ∈ parsedFiles b (1 + (mergesOf cs).length) codes, ∃ l, f = .ok l) ∧
      m = (allItems (parsedFiles b (1 + (mergesOf cs).length) codes)).foldl (mapEffect (envOf b g)) (b.takeUtils m0).1 ∧
      todo = (allItems (parsedFiles b (1 + (mergesOf cs).length) codes)).filterMap (declared (envOf b g)) := by
  rw [C70_run b ft read t envWidth lang cs g hg crateName srcs codes hr hn dst d] at h
  by_cases hw : g.width = 0
  · rw [if_pos hw] at h; simp at h
  · rw [if_neg hw] at h
    simp only [backendInput, if_neg hw] at h
    unfold loaded at h
    cases hm : mergeSpec b g.width 0 b.emptyMap ((builtin t lang :: mergesOf cs).map (·.code)) with
    | error e => rw [hm] at h; simp at h
    | ok m0 =>
      simp only [hm] at h
      cases he : b.isEmpty m0 with
      | true => simp [he] at h
      | false =>
        simp only [he, Bool.false_eq_true, if_false] at h
        cases hs : stepFiles (envOf b g) ⟨(b.takeUtils m0).2.flatten, (b.takeUtils m0).1, []⟩
            (parsedFiles b (1 + (mergesOf cs).length) codes) with
        | error e => rw [hs] at h; simp at h
        | ok st =>
          rw [hs] at h
          simp only [Option.some.injEq, Prod.mk.injEq] at h
          obtain ⟨_, h2, h3⟩ := stepFiles_ok _ _ _ _ hs
          have h4 := stepFiles_map _ _ _ _ hs
          refine ⟨m0, hw, rfl, he, h3, ?_, ?_⟩
          · rw [← h.1, h4]
          · rw [← h.2, h2]; rfl

/-! ## Non-vacuity -/

/-- A tiny instance: the type map is the list of texts merged, every file has one ordinary item. -/
def demoBack : Back Unit Unit (List (SourceId × Text)) Text Unit Unit Unit where
  emptyMap := []
  merge m id code _ := if code = "bad".toList then .error "syntax".toList else .ok (m ++ [(id, code)])
  isEmpty m := m.isEmpty
  noConversions := "empty".toList
  takeUtils m := (m, ["U".toList])
  parseFile id code := .ok [.other code, .mac nForeignEnum "E".toList (dec (id.getD 0))]
  env _ := { parseClass := fun _ => .ok (), registerClass := fun m _ => m, parseEnum := fun _ => .ok (),
             parseInterface := fun _ => .ok (), parseTypemap := fun m _ => .ok m, expandItems := fun m _ => .ok (m, []),
             postProcess := fun _ s => .ok s, missingTokens := id, rustfmt := none }
  runRustfmt s := .inr (some 0, s)

/-- The calls of a build script. -/
def demoCalls : List (Call Unit Unit) :=
  [.merge "a".toList "A".toList, .rustfmt true, .classCb "serde".toList (), .width 64, .merge "b".toList "B".toList,
   .rustfmt false]

/-- Two files. -/
def demoRead : Path → Option Text := fun p => if p = "x".toList then some "fn x".toList else if p = "y".toList then some "fn y".toList else none

def demoTexts : Texts := ⟨"J".toList, "C".toList, "P".toList⟩

example : (((new demoTexts (some 32) .cpp).bind fun g => configure g demoCalls).map
    fun g => (g.reg.map (·.code), g.sources, g.width, g.rustfmt)) =
    some (["C".toList, "A".toList, "B".toList], [some 0, some 1, some 2], 64, false) := by decide +kernel

example : Acceptable demoTexts .cpp demoCalls := by
  unfold Acceptable; decide +kernel

example : ((new demoTexts (some 32) .cpp).bind fun g => configure g
    (demoCalls ++ [.merge "cpp-include.rs".toList []])).isNone ∧
  ((new demoTexts (some 32) .cpp).bind fun g => configure g (demoCalls ++ [.classCb "Clone".toList ()])).isNone ∧
  ((new demoTexts (some 32) .cpp).bind fun g => configure g (demoCalls ++ [.classCb "serde".toList ()])).isNone ∧
  ((new demoTexts (some 32) .cpp).bind fun g => configure g (demoCalls ++ [.enumCb "serde".toList ()])).isSome := by
  decide +kernel

/-- The whole run on two files. -/
def demoRun : Option (Run (List (SourceId × Text)) Text Unit Unit Unit) :=
  ((new demoTexts none .cpp).bind fun g => configure g demoCalls).map fun g =>
    expandMany demoBack {} demoRead g "crate".toList ["x".toList, "y".toList] "out".toList (fun _ => none)

example : demoRun.map (·.result) = some .ok ∧ (demoRun.bind (·.disk "out".toList)) = some "Ufn x\nfn y\n".toList ∧
    (demoRun.bind (·.backend)).map (·.1) = some [(some 0, "C".toList), (some 1, "A".toList), (some 2, "B".toList)] ∧
    (demoRun.bind (·.backend)).map (·.2.length) = some 2 := by
  refine ⟨?_, ?_, ?_, ?_⟩ <;> decide +kernel

/-- An unreadable file, and a file given twice. -/
example : (((new demoTexts none .cpp).bind fun g => configure g demoCalls).map fun g =>
    ((expandMany demoBack {} demoRead g "crate".toList ["x".toList, "z".toList] "out".toList (fun _ => none)).result,
     (expandMany demoBack {} demoRead g "crate".toList ["x".toList, "x".toList] "out".toList (fun _ => none)).result)) =
    some (.panic, .panic) := by decide +kernel

/-- Another package for `Optional`. -/
example : optionalCode "java8.util".toList "import java.util.Optional; \"java/util/OptionalLong\"".toList =
    "import java8.util.Optional; \"java8/util/OptionalLong\"".toList := by decide +kernel

end Flapi.Driver
