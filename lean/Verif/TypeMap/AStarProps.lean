import Verif.TypeMap.GraphSpec
import Mathlib.Data.List.Chain
import Mathlib.Order.Basic
/-! # The conversion search is sound, shortest, complete and terminates -/
namespace Flapi.Graph
variable {ν ε : Type}

/-- Loop invariant of `astar` while the node `u` is being expanded and the edges to `pend` are still to be relaxed. -/
structure Inv (g : Graph ν ε) (start goal d u : Nat) (pend : List Nat) (st : AState) : Prop where
  s0 : st.scores start = some 0
  predStart : st.pred start = none
  key : ∀ x ∈ st.heap, ∃ k, st.scores x.2 = some k ∧ x.1 = k + heur start x.2
  nodup : (st.heap.map (·.2)).Nodup
  inHeap : ∀ v k, st.scores v = some k → st.est v = none → v ∈ st.heap.map (·.2)
  fresh : ∀ v ∈ st.heap.map (·.2), st.est v = none
  lvl : ∀ v ∈ st.heap.map (·.2), ∀ k, st.scores v = some k → d ≤ k ∧ k ≤ d + 1
  vis : ∀ v, st.est v ≠ none → ∃ k, st.scores v = some k ∧ k ≤ d
  nbr : ∀ v k w, st.est v ≠ none → st.scores v = some k → Adj g v w →
    (v = u ∧ w ∈ pend) ∨ ∃ k', st.scores w = some k' ∧ k' ≤ k + 1
  pr : ∀ v k, st.scores v = some k → v ≠ start →
    ∃ w j, st.pred v = some w ∧ st.scores w = some j ∧ k = j + 1 ∧ Adj g w v
  bound : ∀ v, st.scores v ≠ none → v < g.nodes.length
  goal : st.est goal = none

theorem inv_init (g : Graph ν ε) (start goal : Nat) (hs : start < g.nodes.length) :
    Inv g start goal 0 start [] (astarInit start) := by
  constructor <;> simp [astarInit, upd, heur]
  · exact hs

theorem relax1_inv {g : Graph ν ε} {start goal d u w : Nat} {pend : List Nat} {st : AState}
    (hwf : WF g) (h : Inv g start goal d u (w :: pend) st) (hu : st.scores u = some d)
    (hadj : Adj g u w) :
    Inv g start goal d u pend (relax1 start u d st w) ∧
    (relax1 start u d st w).scores u = some d ∧ (relax1 start u d st w).est = st.est := by
  unfold relax1
  have scored : ∀ k, st.scores w = some k → k ≤ d + 1 := by
    intro k hk
    by_cases he : st.est w = none
    · exact (h.lvl w (h.inHeap w k hk he) k hk).2
    · obtain ⟨k', h1, h2⟩ := h.vis w he
      rw [hk] at h1; cases h1; omega
  cases hsc : st.scores w with
  | some old =>
    simp only [scored old hsc, if_true]
    refine ⟨{ h with nbr := ?_ }, hu, trivial⟩
    intro v k x hv hk hx
    rcases h.nbr v k x hv hk hx with ⟨rfl, hm⟩ | h'
    · rcases List.mem_cons.1 hm with rfl | hm
      · right; refine ⟨old, hsc, ?_⟩
        have := scored old hsc
        rw [hu] at hk; cases hk; omega
      · left; exact ⟨rfl, hm⟩
    · right; exact h'
  | none =>
    have hws : w ≠ start := by rintro rfl; rw [h.s0] at hsc; cases hsc
    have hwu : u ≠ w := by rintro rfl; rw [hu] at hsc; cases hsc
    have hew : st.est w = none := by
      by_cases he : st.est w = none
      · exact he
      · obtain ⟨k, hk, _⟩ := h.vis w he; rw [hsc] at hk; cases hk
    have hnh : w ∉ st.heap.map (·.2) := by
      intro hm
      obtain ⟨x, hx, rfl⟩ := List.mem_map.1 hm
      obtain ⟨k, hk, _⟩ := h.key x hx
      rw [hsc] at hk; cases hk
    have keep : ∀ v k, st.scores v = some k → upd st.scores w (d + 1) v = some k := by
      intro v k hk; unfold upd; split
      · subst_vars; rw [hsc] at hk; cases hk
      · exact hk
    simp only []
    refine ⟨?_, keep u d hu, trivial⟩
    constructor
    · exact keep _ _ h.s0
    · simp [upd, hws.symm, h.predStart]
    · intro x hx
      rcases List.mem_cons.1 hx with rfl | hx
      · exact ⟨d + 1, by simp [upd], rfl⟩
      · obtain ⟨k, hk, h2⟩ := h.key x hx
        exact ⟨k, keep _ _ hk, h2⟩
    · simp only [List.map_cons, List.nodup_cons]
      exact ⟨hnh, h.nodup⟩
    · intro v k hk he
      simp only [List.map_cons, List.mem_cons]
      by_cases hvw : v = w
      · left; exact hvw
      · right; simp [upd, hvw] at hk; exact h.inHeap v k hk he
    · intro v hv
      simp only [List.map_cons, List.mem_cons] at hv
      rcases hv with rfl | hv
      · exact hew
      · exact h.fresh v hv
    · intro v hv k hk
      simp only [List.map_cons, List.mem_cons] at hv
      rcases hv with rfl | hv
      · simp [upd] at hk; omega
      · have hne : v ≠ w := fun e => hnh (e ▸ hv)
        simp [upd, hne] at hk
        exact h.lvl v hv k hk
    · intro v he
      obtain ⟨k, hk, h2⟩ := h.vis v he
      exact ⟨k, keep _ _ hk, h2⟩
    · intro v k x he hk hx
      have hvw : v ≠ w := by
        rintro rfl; exact he hew
      simp [upd, hvw] at hk
      by_cases hxw : x = w
      · right; subst hxw
        refine ⟨d + 1, by simp [upd], ?_⟩
        rcases h.nbr v k x he hk hx with ⟨rfl, _⟩ | ⟨k', hk', _⟩
        · rw [hu] at hk; cases hk; omega
        · rw [hsc] at hk'; cases hk'
      · rcases h.nbr v k x he hk hx with ⟨rfl, hm⟩ | ⟨k', hk', h2⟩
        · left; refine ⟨rfl, ?_⟩
          rcases List.mem_cons.1 hm with e | hm
          · exact absurd e hxw
          · exact hm
        · right; exact ⟨k', keep _ _ hk', h2⟩
    · intro v k hk hvs
      by_cases hvw : v = w
      · subst hvw
        simp [upd] at hk
        exact ⟨u, d, by simp [upd], keep _ _ hu, hk.symm, hadj⟩
      · simp [upd, hvw] at hk
        obtain ⟨x, j, h1, h2, h3, h4⟩ := h.pr v k hk hvs
        exact ⟨x, j, by simp [upd, hvw, h1], keep _ _ h2, h3, h4⟩
    · intro v hv
      by_cases hvw : v = w
      · subst hvw
        obtain ⟨e, he, _, h2⟩ := hadj
        rw [← h2]; exact (hwf e he).2
      · simp [upd, hvw] at hv
        exact h.bound v hv
    · exact h.goal

theorem relax_inv {g : Graph ν ε} {start goal d u : Nat} (hwf : WF g) :
    ∀ (pend : List Nat) (st : AState), Inv g start goal d u pend st → st.scores u = some d →
      (∀ w ∈ pend, Adj g u w) →
      Inv g start goal d u [] (pend.foldl (relax1 start u d) st) ∧
      (pend.foldl (relax1 start u d) st).est = st.est
  | [], _, h, _, _ => ⟨h, rfl⟩
  | w :: pend, st, h, hu, ha => by
    obtain ⟨h1, h2, h3⟩ := relax1_inv hwf h hu (ha w (by simp))
    obtain ⟨h4, h5⟩ := relax_inv hwf pend _ h1 h2 (fun x hx => ha x (by simp [hx]))
    exact ⟨h4, h5.trans h3⟩

/-- Any chain to a node is witnessed by the scores, or blocked by a heap node that is nearer. -/
theorem path_scored {g : Graph ν ε} {start goal d u : Nat} {st : AState}
    (h : Inv g start goal d u [] st) : ∀ (p : List Nat) (a b k : Nat), IsPath g a b p →
      st.scores a = some k →
      (∃ k', st.scores b = some k' ∧ k' ≤ k + p.length) ∨
      (∃ x ∈ st.heap, ∃ k', st.scores x.2 = some k' ∧ k' ≤ k + p.length)
  | [], a, b, k, hp, hk => by cases hp; exact Or.inl ⟨k, hk, by simp⟩
  | e :: p, a, b, k, ⟨ed, h1, h2, h3⟩, hk => by
    by_cases he : st.est a = none
    · obtain ⟨x, hx, rfl⟩ := List.mem_map.1 (h.inHeap a k hk he)
      exact Or.inr ⟨x, hx, k, hk, by omega⟩
    · have hadj : Adj g a ed.dst := ⟨ed, List.mem_of_getElem? h1, h2, rfl⟩
      rcases h.nbr a k ed.dst he hk hadj with ⟨_, hm⟩ | ⟨k', hk', hle⟩
      · cases hm
      · rcases path_scored h p ed.dst b k' h3 hk' with ⟨k2, h4, h5⟩ | ⟨x, hx, k2, h4, h5⟩
        · exact Or.inl ⟨k2, h4, by simp; omega⟩
        · exact Or.inr ⟨x, hx, k2, h4, by simp; omega⟩

theorem reconstruct_ok {g : Graph ν ε} {start goal d u : Nat} {st : AState}
    (h : Inv g start goal d u [] st) : ∀ (k v n : Nat) (acc : List Nat), st.scores v = some k → k < n →
      ∃ p, reconstruct st.pred n v acc = some (p ++ v :: acc) ∧ p.length = k ∧
        (p ++ [v]).head? = some start ∧ (p ++ [v]).IsChain (Adj g)
  | k, v, 0, _, _, hn => by omega
  | k, v, n + 1, acc, hk, hn => by
    unfold reconstruct
    by_cases hv : v = start
    · subst hv
      rw [h.predStart]
      rw [h.s0] at hk; cases hk
      exact ⟨[], by simp, rfl, by simp, by simp⟩
    · obtain ⟨w, j, h1, h2, h3, h4⟩ := h.pr v k hk hv
      rw [h1]
      subst h3
      obtain ⟨p, e1, e2, e3, e4⟩ := reconstruct_ok h j w n (v :: acc) h2 (by omega)
      refine ⟨p ++ [w], by simp [e1], by simp [e2], ?_, ?_⟩
      · rw [List.append_assoc]; cases p <;> simp_all
      · rw [List.append_assoc]
        have : p ++ ([w] ++ [v]) = (p ++ [w]) ++ [v] := by simp
        rw [this, List.isChain_append]
        refine ⟨e4, by simp, ?_⟩
        intro x hx y hy
        simp at hx hy; subst hx hy; exact h4

/-- Number of nodes not yet expanded. -/
def unvisited (g : Graph ν ε) (st : AState) : Nat :=
  ((List.range g.nodes.length).filter (fun v => (st.est v).isNone)).length

theorem score_lt {g : Graph ν ε} {start goal d u : Nat} {st : AState}
    (h : Inv g start goal d u [] st) : ∀ (k v : Nat), st.scores v = some k →
      ∃ l : List Nat, l.Nodup ∧ l.length = k + 1 ∧ (∀ x ∈ l, x < g.nodes.length) ∧
        (∀ x ∈ l, ∃ j, st.scores x = some j ∧ j ≤ k)
  | 0, v, hk => ⟨[v], by simp, rfl, by simpa using h.bound v (by simp [hk]), by simp [hk]⟩
  | k + 1, v, hk => by
    have hv : v ≠ start := by rintro rfl; rw [h.s0] at hk; cases hk
    obtain ⟨w, j, h1, h2, h3, h4⟩ := h.pr v _ hk hv
    obtain rfl : j = k := by omega
    obtain ⟨l, a1, a2, a3, a4⟩ := score_lt h j w h2
    refine ⟨v :: l, ?_, by simp [a2], ?_, ?_⟩
    · rw [List.nodup_cons]; refine ⟨?_, a1⟩
      intro hm
      obtain ⟨i, hi, hle⟩ := a4 v hm
      rw [hk] at hi; cases hi; omega
    · intro x hx
      rcases List.mem_cons.1 hx with rfl | hx
      · exact h.bound x (by simp [hk])
      · exact a3 x hx
    · intro x hx
      rcases List.mem_cons.1 hx with rfl | hx
      · exact ⟨j + 1, hk, le_rfl⟩
      · obtain ⟨i, hi, hle⟩ := a4 x hx
        exact ⟨i, hi, by omega⟩

theorem length_le_of_nodup_lt {l : List Nat} {n : Nat} (h : l.Nodup) (hb : ∀ x ∈ l, x < n) : l.length ≤ n := by
  have := length_le_of_nodup_subset l (List.range n) h (fun x hx => by simpa using hb x hx)
  simpa using this

/-- Result of the search loop from any state satisfying the invariant. -/
theorem loop_spec (P : PopFn) {g : Graph ν ε} {start goal : Nat} (hwf : WF g) :
    ∀ (n d u : Nat) (st : AState), Inv g start goal d u [] st → unvisited g st < n →
      (∃ p, astarLoop P g start goal n st = .found p ∧ p.head? = some start ∧ p.getLast? = some goal ∧
        p.IsChain (Adj g) ∧ ∀ q, IsPath g start goal q → p.length ≤ q.length + 1) ∨
      (astarLoop P g start goal n st = .notFound ∧ ∀ q, ¬ IsPath g start goal q)
  | 0, _, _, _, _, hf => by omega
  | n + 1, d, u, st, h, hf => by
    unfold astarLoop
    by_cases hh : st.heap = []
    · right
      rw [hh, P.pop_nil]
      refine ⟨rfl, fun q hq => ?_⟩
      rcases path_scored h q start goal 0 hq h.s0 with ⟨k, hk, _⟩ | ⟨x, hx, _⟩
      · have := h.inHeap goal k hk h.goal
        rw [hh] at this; simp at this
      · rw [hh] at hx; cases hx
    · obtain ⟨⟨es, node⟩, r, hpop, hperm, hmin⟩ := P.pop_spec st.heap hh
      rw [hpop]
      have hmemh : (es, node) ∈ st.heap := hperm.symm.subset (by simp)
      have hmem : node ∈ st.heap.map (·.2) := List.mem_map.2 ⟨_, hmemh, rfl⟩
      obtain ⟨k0, hk0, hes⟩ := h.key _ hmemh
      simp only at hk0 hes
      -- the popped node has the least score
      have hleast : ∀ x ∈ st.heap, ∀ k, st.scores x.2 = some k → k0 ≤ k := by
        intro x hx k hk
        obtain ⟨k', hk', hkey⟩ := h.key x hx
        rw [hk] at hk'; cases hk'
        have := hmin x hx
        simp only [hes, hkey, heur] at this
        by_cases h1 : x.2 = start
        · rw [h1, h.s0] at hk; cases hk
          split at this
          · simp at this; omega
          · simp at this
        · split at this <;> simp at this
          · subst_vars; rw [h.s0] at hk0; cases hk0; omega
          · omega
      by_cases hg : node = goal
      · left
        subst hg
        simp only [if_true]
        obtain ⟨l, a1, a2, a3, _⟩ := score_lt h k0 node hk0
        have hb := length_le_of_nodup_lt a1 a3
        obtain ⟨p, e1, e2, e3, e4⟩ := reconstruct_ok h k0 node (g.nodes.length + 1) [] hk0 (by omega)
        rw [e1]
        refine ⟨_, rfl, e3, by simp, e4, ?_⟩
        intro q hq
        simp [e2]
        rcases path_scored h q start node 0 hq h.s0 with ⟨k, hk, hle⟩ | ⟨x, hx, k, hk, hle⟩
        · rw [hk0] at hk; cases hk; omega
        · have := hleast x hx k hk; omega
      · simp only [hg, if_false]
        have hne := h.fresh node hmem
        rw [hne]
        simp only [Bool.false_eq_true, if_false]
        simp only [hk0, Option.getD_some]
        have hd := h.lvl node hmem k0 hk0
        have hnd : (node :: r.map (·.2)).Nodup := by
          have := (hperm.map (·.2)).nodup_iff.1 h.nodup
          simpa using this
        have hsub : ∀ x, x ∈ r.map (·.2) → x ∈ st.heap.map (·.2) := by
          intro x hx
          exact (hperm.map (·.2)).symm.subset (by simp only [List.map_cons, List.mem_cons]; exact Or.inr hx)
        have hinv : Inv g start goal k0 node (neighbors g node)
            { heap := r, scores := st.scores, est := upd st.est node es, pred := st.pred } := by
          constructor
          · exact h.s0
          · exact h.predStart
          · intro x hx; exact h.key x (hperm.symm.subset (by simp [hx]))
          · exact (List.nodup_cons.1 hnd).2
          · intro v k hk he
            by_cases hv : v = node
            · subst hv; simp [upd] at he
            · simp [upd, hv] at he
              have := (hperm.map (·.2)).subset (h.inHeap v k hk he)
              simp only [List.map_cons, List.mem_cons, hv, false_or] at this
              exact this
          · intro v hv
            have hvn : v ≠ node := fun e => (List.nodup_cons.1 hnd).1 (e ▸ hv)
            simp [upd, hvn]
            exact h.fresh v (hsub v hv)
          · intro v hv k hk
            have := h.lvl v (hsub v hv) k hk
            obtain ⟨x, hx, rfl⟩ := List.mem_map.1 (hsub v hv)
            have := hleast x hx k hk
            omega
          · intro v he
            by_cases hv : v = node
            · subst hv; exact ⟨k0, hk0, le_rfl⟩
            · simp [upd, hv] at he
              obtain ⟨k, hk, hle⟩ := h.vis v he
              exact ⟨k, hk, by omega⟩
          · intro v k w he hk hadj
            by_cases hv : v = node
            · subst hv; left; exact ⟨rfl, mem_neighbors.2 hadj⟩
            · simp [upd, hv] at he
              rcases h.nbr v k w he hk hadj with ⟨_, hm⟩ | h'
              · cases hm
              · right; exact h'
          · exact h.pr
          · exact h.bound
          · simp [upd, Ne.symm hg, h.goal]
        obtain ⟨h1, h2⟩ := relax_inv hwf _ _ hinv hk0 (fun w hw => mem_neighbors.1 hw)
        refine loop_spec P hwf n k0 node _ h1 ?_
        have : unvisited g (List.foldl (relax1 start node k0)
            { heap := r, scores := st.scores, est := upd st.est node es, pred := st.pred } (neighbors g node))
            < unvisited g st := by
          unfold unvisited
          rw [h2]
          simp only
          have hnl : node < g.nodes.length := h.bound node (by simp [hk0])
          have hsubl : List.Sublist ((List.range g.nodes.length).filter (fun v => (upd st.est node es v).isNone))
              ((List.range g.nodes.length).filter (fun v => (st.est v).isNone)) := by
            apply List.monotone_filter_right
            intro v hv
            unfold upd at hv
            split at hv <;> simp_all
          refine lt_of_le_of_ne hsubl.length_le fun heq => ?_
          have := hsubl.eq_of_length heq
          have hm : node ∈ (List.range g.nodes.length).filter (fun v => (st.est v).isNone) := by
            simp [hnl, hne]
          rw [← this] at hm
          simp [upd] at hm
        omega

theorem edgesOfNodes_spec {g : Graph ν ε} : ∀ (p : List Nat) (a b : Nat), p.head? = some a → p.getLast? = some b →
    p.IsChain (Adj g) → ∃ es, edgesOfNodes g p = some es ∧ IsPath g a b es ∧ es.length + 1 = p.length
  | [], _, _, h, _, _ => by simp at h
  | [x], a, b, h, h2, _ => by
    simp at h h2; subst h h2
    exact ⟨[], rfl, rfl, rfl⟩
  | x :: y :: r, a, b, h, h2, hc => by
    simp at h; subst h
    rw [List.isChain_cons_cons] at hc
    obtain ⟨es, e1, e2, e3⟩ := edgesOfNodes_spec (y :: r) y b rfl (by simpa using h2) hc.2
    unfold edgesOfNodes
    cases hf : findEdge g x y with
    | none => exact absurd hc.1 (findEdge_none.1 hf)
    | some i =>
      obtain ⟨e, g1, g2, g3⟩ := findEdge_some hf
      refine ⟨i :: es, by simp [e1], ⟨e, g1, g2, g3 ▸ e2⟩, by simp at e3 ⊢; omega⟩

theorem findConversionPath_spec (P : PopFn) {g : Graph ν ε} {a b : Nat} (hwf : WF g) (ha : a < g.nodes.length) :
    (∃ p, findConversionPath P g a b = .ok p ∧ IsPath g a b p ∧ ∀ q, IsPath g a b q → p.length ≤ q.length) ∨
    (findConversionPath P g a b = .err ∧ ∀ q, ¬ IsPath g a b q) := by
  have hu : unvisited g (astarInit a) < g.nodes.length + 1 := by
    unfold unvisited
    have := List.length_filter_le (fun v => ((astarInit a).est v).isNone) (List.range g.nodes.length)
    simp at this ⊢
    omega
  unfold findConversionPath astar
  rcases loop_spec P hwf _ 0 a _ (inv_init g a b ha) hu with ⟨p, h1, h2, h3, h4, h5⟩ | ⟨h1, h2⟩
  · left
    obtain ⟨es, e1, e2, e3⟩ := edgesOfNodes_spec p a b h2 h3 h4
    rw [h1]; simp only [e1]
    refine ⟨es, rfl, e2, fun q hq => ?_⟩
    have := h5 q hq; omega
  · right
    rw [h1]; exact ⟨rfl, h2⟩

/-! ## C10 -/

/-- A conversion that is found is a genuine chain of conversions from the source to the target type. -/
theorem C10_sound (P : PopFn) (g : Graph ν ε) (a b : Nat) (p : List Nat) (hwf : WF g) (ha : a < g.nodes.length)
    (h : findPath P g a b = .ok p) : IsPath g a b p := by
  unfold findPath at h
  split at h
  · cases h; assumption
  · rcases findConversionPath_spec P (b := b) hwf ha with ⟨p', h1, h2, _⟩ | ⟨h1, _⟩
    · rw [h1] at h; cases h; exact h2
    · rw [h1] at h; cases h

/-- No chain is shorter than the one found. -/
theorem C10_shortest (P : PopFn) (g : Graph ν ε) (a b : Nat) (p q : List Nat) (hwf : WF g) (ha : a < g.nodes.length)
    (h : findPath P g a b = .ok p) (hq : IsPath g a b q) : p.length ≤ q.length := by
  unfold findPath at h
  split at h
  · cases h; simp
  · rcases findConversionPath_spec P (b := b) hwf ha with ⟨p', h1, _, h2⟩ | ⟨h1, _⟩
    · rw [h1] at h; cases h; exact h2 q hq
    · rw [h1] at h; cases h

/-- If some chain exists, a chain is found. -/
theorem C10_complete (P : PopFn) (g : Graph ν ε) (a b : Nat) (q : List Nat) (hwf : WF g) (ha : a < g.nodes.length)
    (hq : IsPath g a b q) : ∃ p, findPath P g a b = .ok p := by
  unfold findPath
  split
  · exact ⟨[], rfl⟩
  · rcases findConversionPath_spec P (b := b) hwf ha with ⟨p', h1, _, _⟩ | ⟨_, h2⟩
    · exact ⟨p', h1⟩
    · exact absurd hq (h2 q)

/-- An error is reported exactly if no chain exists; the search neither loops for ever nor panics. -/
theorem C10_error_iff (P : PopFn) (g : Graph ν ε) (a b : Nat) (hwf : WF g) (ha : a < g.nodes.length) :
    (findPath P g a b = .err ↔ ∀ q, ¬ IsPath g a b q) ∧ findPath P g a b ≠ .panic := by
  unfold findPath
  split
  · rename_i hab
    exact ⟨⟨fun h => by (cases h), fun h => absurd hab (h [])⟩, by simp⟩
  · rcases findConversionPath_spec P (b := b) hwf ha with ⟨p', h1, h2, _⟩ | ⟨h1, h2⟩
    · rw [h1]; exact ⟨⟨fun h => by (cases h), fun h => absurd h2 (h p')⟩, by simp⟩
    · rw [h1]; exact ⟨⟨fun _ => h2, fun _ => rfl⟩, by simp⟩

/-- The choice among equally good heap entries never changes the number of steps found. -/
theorem C10_length_deterministic (P P' : PopFn) (g : Graph ν ε) (a b : Nat) (p p' : List Nat) (hwf : WF g)
    (ha : a < g.nodes.length) (h : findPath P g a b = .ok p) (h' : findPath P' g a b = .ok p') :
    p.length = p'.length :=
  le_antisymm (C10_shortest P g a b p p' hwf ha h (C10_sound P' g a b p' hwf ha h'))
    (C10_shortest P' g a b p' p hwf ha h' (C10_sound P g a b p hwf ha h))

/-! ## A concrete case -/

/-- First minimal element. -/
def minIdx : List (Nat × Nat) → Option ((Nat × Nat) × List (Nat × Nat))
  | [] => none
  | x :: r => match minIdx r with
    | none => some (x, [])
    | some (m, r') => if x.1 ≤ m.1 then some (x, r) else some (m, x :: r')

theorem minIdx_spec : ∀ h : List (Nat × Nat), h ≠ [] →
    ∃ x r, minIdx h = some (x, r) ∧ h.Perm (x :: r) ∧ ∀ y ∈ h, x.1 ≤ y.1
  | [], h => absurd rfl h
  | [x], _ => ⟨x, [], rfl, .refl _, by simp⟩
  | x :: y :: r, _ => by
    obtain ⟨m, r', h1, h2, h3⟩ := minIdx_spec (y :: r) (by simp)
    unfold minIdx; rw [h1]
    by_cases hc : x.1 ≤ m.1
    · refine ⟨x, y :: r, by simp [hc], .refl _, ?_⟩
      intro z hz
      rcases List.mem_cons.1 hz with rfl | hz
      · exact le_rfl
      · exact hc.trans (h3 z hz)
    · refine ⟨m, x :: r', by simp [hc], (h2.cons x).trans (.swap ..), ?_⟩
      intro z hz
      rcases List.mem_cons.1 hz with rfl | hz
      · omega
      · exact h3 z hz

/-- A pop function exists. -/
def firstMin : PopFn := ⟨minIdx, rfl, minIdx_spec⟩

/-- Five types; the long way 0→1→2→4 and the short way 0→3→4, cycles 2→0, 3→0. -/
def exG : Graph Nat Nat :=
  ⟨[10, 11, 12, 13, 14], [⟨0, 1, 0⟩, ⟨1, 2, 0⟩, ⟨2, 4, 0⟩, ⟨2, 0, 0⟩, ⟨0, 3, 0⟩, ⟨3, 0, 0⟩, ⟨3, 4, 0⟩]⟩

example : WF exG := by unfold WF; decide
example : findPath firstMin exG 0 4 = .ok [4, 6] := by decide
example : findPath firstMin exG 4 0 = .err := by decide

end Flapi.Graph
