import Verif.Cpp.HeaderGraph
import Verif.Cpp.ArgsProps
/-!
# C83: what a C++ program sees when it includes generated headers
-/
namespace Flapi.HeaderGraph

open Flapi.Cpp (TypeInfo MethodSig Converter requiredIncludes classIncludes retainUnique collectIncludes C22_exactly_needed C22_first_use_order
  mem_collect retainUnique_spec Needs)

/-! ## Specification -/

/-- What must stand before a line for a compiler to accept it.  C functions: the opaque types they mention.  A class: for the classes its
members mention a declaration or definition, or the class itself.  Member functions: the definitions of those classes. -/
def Fine (us : List Entity) (before : List Item) : Item → Prop
  | .cfuns x => ∀ u ∈ us, u.name = x → ∀ y ∈ u.cNames, .typedef y ∈ before
  | .cls x => ∀ u ∈ us, u.name = x → ∀ y ∈ u.cppNames, y = x ∨ .decl y ∈ before ∨ .cls y ∈ before
  | .impl x => ∀ u ∈ us, u.name = x → ∀ y ∈ u.cppNames, .cls y ∈ before
  | _ => True

/-- Every line finds what it needs before it. -/
def AllFine (us : List Entity) (out : List Item) : Prop := ∀ p i q, out = p ++ i :: q → Fine us p i

/-- A list of names contains `y` before any `x`. -/
def First (y x : Text) (l : List Text) : Prop := ∀ p q, l = p ++ x :: q → y ∈ p

/-- A type names the headers of what it mentions; and the C header of an item is named after its C++ header. -/
def Honest (us : List Entity) (t : Ty) : Prop :=
  (∀ y ∈ t.cpp, hppName y ∈ t.info.modules) ∧ (∀ y ∈ t.c, y ∈ t.cpp ∧ chName y ∈ t.info.modules) ∧
    ∀ u ∈ us, First (hppName u.name) (chName u.name) t.info.modules

/-- Well-formed declarations: header names do not clash; the mentioned classes are declared; types are honest; only classes with objects
are mentioned by opaque type. -/
structure WellFormed (separate : Bool) (us : List Entity) : Prop where
  names : (us.map (·.name)).Nodup
  noClash : ((files separate us).map (·.1)).Nodup
  declared : ∀ u ∈ us, ∀ y ∈ u.cppNames, ∃ w ∈ us, w.name = y
  opaqueDeclared : ∀ u ∈ us, ∀ y ∈ u.cNames, ∃ w ∈ us, w.name = y ∧ w.iface = false ∧ w.staticOnly = false
  honest : ∀ u ∈ us, ∀ s ∈ u.sigs, ∀ t ∈ s.types, Honest us t
  known : ∀ u ∈ us, ∀ s ∈ u.sigs, ∀ t ∈ s.types, ∀ w ∈ us, hppName w.name ∈ t.info.modules → w.name ∈ t.cpp
  fwdFree : ∀ u ∈ us, ∀ s ∈ u.sigs, ∀ t ∈ s.types, ∀ w ∈ us, w.iface = false →
    fwdName w.name ∉ t.info.modules ∧ (separate = true → implName w.name ∉ t.info.modules)

/-! ## The preprocessor in general -/

section general

variable {fs : List (Text × List Item)}

theorem runPre_sound : ∀ (k : Nat) (is : List Item) (v out v' : _), runPre fs k is v = some (out, v') → Pre fs is v out v' := by
  intro k
  induction k with
  | zero =>
    intro is v out v' h
    cases is with
    | nil =>
      simp only [runPre, Option.some.injEq, Prod.mk.injEq] at h
      obtain ⟨rfl, rfl⟩ := h
      exact .nil _
    | cons i is => simp [runPre] at h
  | succ k ih =>
    intro is v out v' h
    cases is with
    | nil =>
      simp only [runPre, Option.some.injEq, Prod.mk.injEq] at h
      obtain ⟨rfl, rfl⟩ := h
      exact .nil _
    | cons i is =>
      by_cases hi : i.isInclude = false
      · have h' : (runPre fs k is v).bind (fun p => some (i :: p.1, p.2)) = some (out, v') := by
          cases i <;> first | exact h | cases hi
        rw [Option.bind_eq_some_iff] at h'
        obtain ⟨⟨o, w⟩, h1, h2⟩ := h'
        simp only [Option.some.injEq, Prod.mk.injEq] at h2
        obtain ⟨rfl, rfl⟩ := h2
        exact .keep hi (ih _ _ _ _ h1)
      · cases i with
        | incl n =>
          rw [runPre] at h
          cases hc : content fs n with
          | none =>
            rw [hc] at h
            exact .foreign hc (ih _ _ _ _ h)
          | some body =>
            rw [hc] at h
            by_cases hm : n ∈ v
            · simp only [if_pos hm] at h
              exact .seen hm (ih _ _ _ _ h)
            · simp only [if_neg hm, Option.bind_eq_bind, Option.bind_eq_some_iff, Prod.exists, Option.some.injEq, Prod.mk.injEq] at h
              obtain ⟨o1, v1, h1, o2, v2, h2, rfl, rfl⟩ := h
              exact .enter hm hc (ih _ _ _ _ h1) (ih _ _ _ _ h2)
        | _ => exact absurd rfl hi

theorem Pre.mono {is : List Item} {v out v' : _} (h : Pre fs is v out v') : ∀ n ∈ v, n ∈ v' := by
  induction h with
  | nil => exact fun _ h => h
  | keep _ _ ih => exact ih
  | foreign _ _ ih => exact ih
  | seen _ _ ih => exact ih
  | enter _ _ _ _ ih1 ih2 => exact fun n hn => ih2 n (ih1 n (List.mem_cons_of_mem _ hn))

/-- All included headers are seen afterwards. -/
theorem Pre.included {is : List Item} {v out v' : _} (h : Pre fs is v out v') :
    ∀ n, .incl n ∈ is → content fs n ≠ none → n ∈ v' := by
  induction h with
  | nil => intro n hn; cases hn
  | keep hi _ ih =>
    intro n hn hc
    rcases List.mem_cons.1 hn with rfl | hn
    · cases hi
    · exact ih n hn hc
  | foreign hf _ ih =>
    intro n hn hc
    rcases List.mem_cons.1 hn with h | hn
    · cases h; exact absurd hf hc
    · exact ih n hn hc
  | seen hs hp ih =>
    intro n hn hc
    rcases List.mem_cons.1 hn with h | hn
    · cases h; exact hp.mono _ hs
    · exact ih n hn hc
  | enter _ _ h1 h2 _ ih2 =>
    intro n hn hc
    rcases List.mem_cons.1 hn with h | hn
    · cases h; exact h2.mono _ (h1.mono _ (by simp))
    · exact ih2 n hn hc

/-- The lines that are not includes are kept. -/
theorem Pre.kept {is : List Item} {v out v' : _} (h : Pre fs is v out v') : ∀ i ∈ is, i.isInclude = false → i ∈ out := by
  induction h with
  | nil => intro i hi; cases hi
  | keep _ _ ih =>
    intro i hi hn
    rcases List.mem_cons.1 hi with rfl | hi
    · simp
    · exact List.mem_cons_of_mem _ (ih i hi hn)
  | foreign _ _ ih =>
    intro i hi hn
    rcases List.mem_cons.1 hi with rfl | hi
    · cases hn
    · exact ih i hi hn
  | seen _ _ ih =>
    intro i hi hn
    rcases List.mem_cons.1 hi with rfl | hi
    · cases hn
    · exact ih i hi hn
  | enter _ _ _ _ _ ih2 =>
    intro i hi hn
    rcases List.mem_cons.1 hi with rfl | hi
    · cases hn
    · exact List.mem_append_right _ (ih2 i hi hn)

/-- A header seen now but not before: its lines are in the output and what it includes is seen. -/
theorem Pre.done {is : List Item} {v out v' : _} (h : Pre fs is v out v') :
    ∀ n ∈ v', n ∉ v → ∃ body, content fs n = some body ∧ (∀ i ∈ body, i.isInclude = false → i ∈ out) ∧
      ∀ m, .incl m ∈ body → content fs m ≠ none → m ∈ v' := by
  induction h with
  | nil => intro n hn hv; exact absurd hn hv
  | keep _ _ ih =>
    intro n hn hv
    obtain ⟨b, h1, h2, h3⟩ := ih n hn hv
    exact ⟨b, h1, fun i hi hn => List.mem_cons_of_mem _ (h2 i hi hn), h3⟩
  | foreign _ _ ih => exact ih
  | seen _ _ ih => exact ih
  | @enter n is body v o1 v1 o2 v2 hv hc h1 h2 ih1 ih2 =>
    intro m hm hmv
    by_cases hm1 : m ∈ v1
    · by_cases hmn : m = n
      · subst hmn
        exact ⟨body, hc, fun i hi hn => List.mem_append_left _ (h1.kept i hi hn), fun k hk hf => h2.mono _ (h1.included k hk hf)⟩
      · obtain ⟨b, e1, e2, e3⟩ := ih1 m hm1 (by simp [hmn, hmv])
        exact ⟨b, e1, fun i hi hn => List.mem_append_left _ (e2 i hi hn), fun k hk hf => h2.mono _ (e3 k hk hf)⟩
    · obtain ⟨b, e1, e2, e3⟩ := ih2 m hm hm1
      exact ⟨b, e1, fun i hi hn => List.mem_append_right _ (e2 i hi hn), e3⟩

/-- The expansion of two groups of lines. -/
theorem Pre.split : ∀ {a b : List Item} {v out v' : _}, Pre fs (a ++ b) v out v' →
    ∃ o1 v1 o2, Pre fs a v o1 v1 ∧ Pre fs b v1 o2 v' ∧ out = o1 ++ o2 := by
  intro a
  induction a with
  | nil => intro b v out v' h; exact ⟨[], v, out, .nil _, h, rfl⟩
  | cons i a ih =>
    intro b v out v' h
    cases h with
    | keep hi h =>
      obtain ⟨o1, v1, o2, h1, h2, rfl⟩ := ih h
      exact ⟨i :: o1, v1, o2, .keep hi h1, h2, rfl⟩
    | foreign hc h =>
      obtain ⟨o1, v1, o2, h1, h2, rfl⟩ := ih h
      exact ⟨o1, v1, o2, .foreign hc h1, h2, rfl⟩
    | seen hm h =>
      obtain ⟨o1, v1, o2, h1, h2, rfl⟩ := ih h
      exact ⟨o1, v1, o2, .seen hm h1, h2, rfl⟩
    | enter hm hc hb h =>
      obtain ⟨o1, v1, o2, h1, h2, rfl⟩ := ih h
      exact ⟨_, v1, o2, .enter hm hc hb h1, h2, by rw [List.append_assoc]⟩

/-- Where a line of the output comes from. -/
theorem Pre.origin {is : List Item} {v out v' : _} (h : Pre fs is v out v') :
    ∀ i ∈ out, i.isInclude = false ∧ (i ∈ is ∨ ∃ n body, n ∉ v ∧ n ∈ v' ∧ content fs n = some body ∧ i ∈ body) := by
  induction h with
  | nil => intro i hi; cases hi
  | keep hi _ ih =>
    intro j hj
    rcases List.mem_cons.1 hj with rfl | hj
    · exact ⟨hi, Or.inl (by simp)⟩
    · obtain ⟨h1, h2⟩ := ih j hj
      exact ⟨h1, h2.imp (fun h => List.mem_cons_of_mem _ h) id⟩
  | foreign _ _ ih =>
    intro j hj
    obtain ⟨h1, h2⟩ := ih j hj
    exact ⟨h1, h2.imp (fun h => List.mem_cons_of_mem _ h) id⟩
  | seen _ _ ih =>
    intro j hj
    obtain ⟨h1, h2⟩ := ih j hj
    exact ⟨h1, h2.imp (fun h => List.mem_cons_of_mem _ h) id⟩
  | @enter n is body v o1 v1 o2 v2 hv hc p1 p2 ih1 ih2 =>
    intro j hj
    rcases List.mem_append.1 hj with hj | hj
    · obtain ⟨h1, h2⟩ := ih1 j hj
      refine ⟨h1, Or.inr ?_⟩
      rcases h2 with h2 | ⟨m, b, hm, hm', h2, h3⟩
      · exact ⟨n, body, hv, p2.mono _ (p1.mono _ (by simp)), hc, h2⟩
      · exact ⟨m, b, fun hh => hm (by simp [hh]), p2.mono _ hm', h2, h3⟩
    · obtain ⟨h1, h2⟩ := ih2 j hj
      refine ⟨h1, h2.imp (fun h => List.mem_cons_of_mem _ h) ?_⟩
      rintro ⟨m, b, hm, hm', h2, h3⟩
      exact ⟨m, b, fun hh => hm (p1.mono _ (by simp [hh])), hm', h2, h3⟩

/-- The preprocessor always comes to an end, whatever the headers include. -/
theorem Pre.exists : ∀ (k : Nat) (v : List Text), ((fs.map (·.1)).filter (· ∉ v)).length ≤ k → ∀ is : List Item,
    ∃ out v', Pre fs is v out v' := by
  intro k
  induction k with
  | zero =>
    intro v hk is
    induction is with
    | nil => exact ⟨_, _, .nil _⟩
    | cons i is ih =>
      obtain ⟨o, v', h⟩ := ih
      by_cases hi : i.isInclude = false
      · exact ⟨_, _, .keep hi h⟩
      · cases i with
        | incl n =>
          cases hc : content fs n with
          | none => exact ⟨_, _, .foreign hc h⟩
          | some b =>
            refine ⟨_, _, .seen ?_ h⟩
            unfold content at hc
            simp only [Option.map_eq_some_iff] at hc
            obtain ⟨p, hp, rfl⟩ := hc
            by_cases hv : n ∈ v
            · exact hv
            · have h1 := List.mem_of_find?_eq_some hp
              have h2 : p.1 = n := by simpa using List.find?_some hp
              have : p.1 ∈ (fs.map (·.1)).filter (· ∉ v) := by
                rw [List.mem_filter]; exact ⟨List.mem_map.2 ⟨p, h1, rfl⟩, by simpa [h2] using hv⟩
              have := List.length_pos_of_mem this
              omega
        | _ => exact absurd rfl hi
  | succ k ihk =>
    intro v hk is
    induction is generalizing v with
    | nil => exact ⟨_, _, .nil _⟩
    | cons i is ih =>
      by_cases hi : i.isInclude = false
      · obtain ⟨o, v', h⟩ := ih v hk
        exact ⟨_, _, .keep hi h⟩
      · cases i with
        | incl n =>
          cases hc : content fs n with
          | none =>
            obtain ⟨o, v', h⟩ := ih v hk
            exact ⟨_, _, .foreign hc h⟩
          | some b =>
            by_cases hv : n ∈ v
            · obtain ⟨o, v', h⟩ := ih v hk
              exact ⟨_, _, .seen hv h⟩
            · have hmem : n ∈ fs.map (·.1) := by
                unfold content at hc
                simp only [Option.map_eq_some_iff] at hc
                obtain ⟨p, hp, rfl⟩ := hc
                exact List.mem_map.2 ⟨p, List.mem_of_find?_eq_some hp, by simpa using List.find?_some hp⟩
              have hlt : ((fs.map (·.1)).filter (· ∉ n :: v)).length < ((fs.map (·.1)).filter (· ∉ v)).length := by
                have e : (fs.map (·.1)).filter (· ∉ n :: v) = ((fs.map (·.1)).filter (· ∉ v)).filter (· ≠ n) := by
                  rw [List.filter_filter]
                  apply List.filter_congr
                  intro x _
                  simp
                rw [e]
                have hin : n ∈ (fs.map (·.1)).filter (· ∉ v) := by
                  rw [List.mem_filter]; exact ⟨hmem, by simpa using hv⟩
                exact List.length_filter_lt_length_iff_exists.2 ⟨n, hin, by simp⟩
              obtain ⟨o1, v1, h1⟩ := ihk (n :: v) (by omega) b
              have hk2 : ((fs.map (·.1)).filter (· ∉ v1)).length ≤ k := by
                have : ((fs.map (·.1)).filter (· ∉ v1)).length ≤ ((fs.map (·.1)).filter (· ∉ n :: v)).length := by
                  rw [← List.countP_eq_length_filter, ← List.countP_eq_length_filter]
                  apply List.countP_mono_left
                  intro x _ hx
                  simp only [decide_eq_true_eq] at hx ⊢
                  exact fun hh => hx (h1.mono _ hh)
                omega
              obtain ⟨o2, v2, h2⟩ := ihk v1 hk2 is
              exact ⟨_, _, .enter hv hc h1 h2⟩
        | _ => exact absurd rfl hi

/-- It has only one result. -/
theorem Pre.det {is : List Item} {v out v' : _} (h : Pre fs is v out v') : ∀ {out2 v2 : _}, Pre fs is v out2 v2 → out = out2 ∧ v' = v2 := by
  induction h with
  | nil => intro o2 v2 h; cases h; exact ⟨rfl, rfl⟩
  | keep hi _ ih =>
    intro o2 v2 h
    cases h with
    | keep _ h => obtain ⟨rfl, rfl⟩ := ih h; exact ⟨rfl, rfl⟩
    | foreign _ _ => cases hi
    | seen _ _ => cases hi
    | enter _ _ _ _ => cases hi
  | foreign hc _ ih =>
    intro o2 v2 h
    cases h with
    | keep hi _ => cases hi
    | foreign _ h => exact ih h
    | seen _ h => exact ih h
    | enter _ h _ _ => rw [hc] at h; cases h
  | seen hm _ ih =>
    intro o2 v2 h
    cases h with
    | keep hi _ => cases hi
    | foreign _ h => exact ih h
    | seen _ h => exact ih h
    | enter h _ _ _ => exact absurd hm h
  | enter hm hc _ _ ih1 ih2 =>
    intro o2 v2 h
    cases h with
    | keep hi _ => cases hi
    | foreign h _ => rw [hc] at h; cases h
    | seen h _ => exact absurd h hm
    | enter _ hc' h1 h2 =>
      rw [hc] at hc'
      cases hc'
      obtain ⟨rfl, rfl⟩ := ih1 h1
      obtain ⟨rfl, rfl⟩ := ih2 h2
      exact ⟨rfl, rfl⟩

end general

/-! ## Headers without circular inclusion -/

section acyclic

variable {fs : List (Text × List Item)} {us : List Entity}

theorem Fine.mono {a b : List Item} {i : Item} (h : Fine us a i) (hs : ∀ j ∈ a, j ∈ b) : Fine us b i := by
  cases i with
  | cfuns x => exact fun u hu hn y hy => hs _ (h u hu hn y hy)
  | cls x => exact fun u hu hn y hy => (h u hu hn y hy).imp id (fun h => h.imp (hs _) (hs _))
  | impl x => exact fun u hu hn y hy => hs _ (h u hu hn y hy)
  | _ => trivial

/-- Headers seen whose rank is below `r` are complete: their lines are there and their includes were seen. -/
def Complete (fs : List (Text × List Item)) (rk : Text → Nat) (r : Nat) (v : List Text) (pre : List Item) : Prop :=
  ∀ n ∈ v, rk n < r → ∀ body, content fs n = some body → (∀ i ∈ body, i.isInclude = false → i ∈ pre) ∧
    ∀ m, .incl m ∈ body → content fs m ≠ none → m ∈ v

/-- After the lines `p` of a header of rank `r`, `Q` holds of what is there. -/
def After (fs : List (Text × List Item)) (rk : Text → Nat) (r : Nat) (p : List Item) (Q : List Item → Prop) : Prop :=
  ∀ (v : List Text) (pre : List Item), Complete fs rk r v pre → (∀ n, .incl n ∈ p → content fs n ≠ none → n ∈ v) →
    (∀ j ∈ p, j.isInclude = false → j ∈ pre) → Q pre

/-- A header without includes. -/
def Leaf (fs : List (Text × List Item)) (n : Text) : Prop := ∃ body, content fs n = some body ∧ ∀ i ∈ body, i.isInclude = false

/-- Lines of a header of rank `r` are in a good order. -/
structure Good (fs : List (Text × List Item)) (us : List Entity) (rk : Text → Nat) (r : Nat) (is : List Item) : Prop where
  below : ∀ n, .incl n ∈ is → content fs n ≠ none → rk n < r
  line : ∀ p i q, is = p ++ i :: q → i.isInclude = false → After fs rk r p fun pre => Fine us pre i
  leaf : ∀ p n q body, is = p ++ .incl n :: q → content fs n = some body → (∀ i ∈ body, i.isInclude = false) →
    After fs rk r p fun pre => ∀ b1 i b2, body = b1 ++ i :: b2 → Fine us (pre ++ b1) i

theorem Pre.plain {is : List Item} {v out v' : _} (h : Pre fs is v out v') (hp : ∀ i ∈ is, i.isInclude = false) : out = is ∧ v' = v := by
  induction h with
  | nil => exact ⟨rfl, rfl⟩
  | keep _ _ ih =>
    obtain ⟨rfl, rfl⟩ := ih fun i hi => hp i (List.mem_cons_of_mem _ hi)
    exact ⟨rfl, rfl⟩
  | foreign _ _ _ => exact absurd (hp _ List.mem_cons_self) (by simp [Item.isInclude])
  | seen _ _ _ => exact absurd (hp _ List.mem_cons_self) (by simp [Item.isInclude])
  | enter _ _ _ _ _ _ => exact absurd (hp _ List.mem_cons_self) (by simp [Item.isInclude])

theorem append_eq_split {α} {a b p q : List α} {x : α} (h : a ++ b = p ++ x :: q) :
    (∃ a2, a = p ++ x :: a2 ∧ q = a2 ++ b) ∨ ∃ p2, p = a ++ p2 ∧ b = p2 ++ x :: q := by
  rcases List.append_eq_append_iff.1 h with ⟨c, h1, h2⟩ | ⟨c, h1, h2⟩
  · exact Or.inr ⟨c, h1, h2⟩
  · cases c with
    | nil => exact Or.inr ⟨[], by simpa using h1.symm, by simpa using h2.symm⟩
    | cons y c =>
      simp only [List.cons_append, List.cons.injEq] at h2
      obtain ⟨rfl, rfl⟩ := h2
      exact Or.inl ⟨c, h1, rfl⟩

theorem Complete.step {rk : Text → Nat} {r : Nat} {is : List Item} {v out v' : _} {pre : List Item} (h : Pre fs is v out v')
    (hc : Complete fs rk r v pre) : Complete fs rk r v' (pre ++ out) := by
  intro n hn hr body hb
  by_cases hv : n ∈ v
  · obtain ⟨h1, h2⟩ := hc n hv hr body hb
    exact ⟨fun i hi hh => List.mem_append_left _ (h1 i hi hh), fun m hm hf => h.mono _ (h2 m hm hf)⟩
  · obtain ⟨b, h1, h2, h3⟩ := h.done n hn hv
    rw [hb] at h1
    cases h1
    exact ⟨fun i hi hh => List.mem_append_right _ (h2 i hi hh), h3⟩

/-- Good headers give an output where every line finds what it needs. -/
theorem Pre.fine {rk : Text → Nat} (hfs : ∀ n body, content fs n = some body → (∃ m, .incl m ∈ body) → Good fs us rk (rk n) body)
    {is : List Item} {v out v' : _} (h : Pre fs is v out v') : ∀ (a : List Item) (r : Nat) (pre : List Item), Good fs us rk r (a ++ is) →
      Complete fs rk r v pre → (∀ n, .incl n ∈ a → content fs n ≠ none → n ∈ v) → (∀ i ∈ a, i.isInclude = false → i ∈ pre) →
      ∀ p i q, out = p ++ i :: q → Fine us (pre ++ p) i := by
  induction h with
  | nil => intro a r pre _ _ _ _ p i q h; exact absurd h (by simp)
  | @keep j is v out v' hj hp ih =>
    intro a r pre hg hc ha ha2 p i q he
    have hnext := ih (a ++ [j]) r (pre ++ [j]) (by simpa using hg)
      (fun n hn hr body hb => ⟨fun i hi hh => List.mem_append_left _ ((hc n hn hr body hb).1 i hi hh), (hc n hn hr body hb).2⟩)
      (by
        intro n hn hf
        rcases List.mem_append.1 hn with hn | hn
        · exact ha n hn hf
        · rw [List.mem_singleton] at hn; subst hn; cases hj)
      (by
        intro i hi hh
        rcases List.mem_append.1 hi with hi | hi
        · exact List.mem_append_left _ (ha2 i hi hh)
        · exact List.mem_append_right _ hi)
    cases p with
    | nil =>
      simp only [List.nil_append, List.cons.injEq] at he
      obtain ⟨rfl, rfl⟩ := he
      rw [List.append_nil]
      exact hg.line a j is rfl hj v pre hc ha ha2
    | cons x p =>
      simp only [List.cons_append, List.cons.injEq] at he
      obtain ⟨rfl, he⟩ := he
      have := hnext p i q he
      simpa using this
  | @foreign n is v out v' hf hp ih =>
    intro a r pre hg hc ha ha2
    refine ih (a ++ [.incl n]) r pre (by simpa using hg) hc ?_ ?_
    · intro m hm hmf
      rcases List.mem_append.1 hm with hm | hm
      · exact ha m hm hmf
      · rw [List.mem_singleton] at hm; cases hm; exact absurd hf hmf
    · intro i hi hh
      rcases List.mem_append.1 hi with hi | hi
      · exact ha2 i hi hh
      · rw [List.mem_singleton] at hi; subst hi; cases hh
  | @seen n is v out v' hs hp ih =>
    intro a r pre hg hc ha ha2
    refine ih (a ++ [.incl n]) r pre (by simpa using hg) hc ?_ ?_
    · intro m hm hmf
      rcases List.mem_append.1 hm with hm | hm
      · exact ha m hm hmf
      · rw [List.mem_singleton] at hm; cases hm; exact hs
    · intro i hi hh
      rcases List.mem_append.1 hi with hi | hi
      · exact ha2 i hi hh
      · rw [List.mem_singleton] at hi; subst hi; cases hh
  | @enter n is body v o1 v1 o2 v2 hv hb h1 h2 ih1 ih2 =>
    intro a r pre hg hc ha ha2 p i q he
    have hnr : rk n < r := hg.below n (by simp) (by rw [hb]; simp)
    rcases append_eq_split he with ⟨o1', he, _⟩ | ⟨p2, hp2, he⟩
    · by_cases hl : ∃ m, .incl m ∈ body
      · refine ih1 [] (rk n) pre (hfs n body hb hl) ?_ (by simp) (by simp) p i o1' he
        intro m hm hmr b hmb
        rcases List.mem_cons.1 hm with rfl | hm
        · exact absurd hmr (Nat.lt_irrefl _)
        · obtain ⟨e1, e2⟩ := hc m hm (Nat.lt_trans hmr hnr) b hmb
          exact ⟨e1, fun k hk hf => List.mem_cons_of_mem _ (e2 k hk hf)⟩
      · have hleaf : ∀ i ∈ body, i.isInclude = false := by
          intro i hi
          cases i with
          | incl m => exact absurd ⟨m, hi⟩ hl
          | _ => rfl
        obtain ⟨rfl, _⟩ := h1.plain hleaf
        exact hg.leaf a n is o1 rfl hb hleaf v pre hc ha ha2 p i o1' he
    · have hc1 : Complete fs rk r v1 (pre ++ o1) := by
        have hpre : Pre fs [.incl n] v (o1 ++ []) v1 := .enter hv hb h1 (.nil _)
        rw [List.append_nil] at hpre
        exact hc.step hpre
      have := ih2 (a ++ [.incl n]) r (pre ++ o1) (by simpa using hg) hc1 ?_ ?_ p2 i q he
      · rw [hp2]; simpa using this
      · intro m hm hmf
        rcases List.mem_append.1 hm with hm | hm
        · exact h1.mono _ (List.mem_cons_of_mem _ (ha m hm hmf))
        · rw [List.mem_singleton] at hm; cases hm; exact h1.mono _ (by simp)
      · intro i hi hh
        rcases List.mem_append.1 hi with hi | hi
        · exact List.mem_append_left _ (ha2 i hi hh)
        · rw [List.mem_singleton] at hi; subst hi; cases hh

end acyclic

/-! ## The generated headers -/

section generated

variable {sep : Bool} {us : List Entity}

theorem content_mem {fs : List (Text × List Item)} {n : Text} {b : List Item} (h : content fs n = some b) : (n, b) ∈ fs := by
  unfold content at h
  simp only [Option.map_eq_some_iff] at h
  obtain ⟨p, hp, rfl⟩ := h
  have h2 : p.1 = n := by simpa using List.find?_some hp
  subst h2
  exact List.mem_of_find?_eq_some hp

theorem content_of_mem : ∀ {fs : List (Text × List Item)}, (fs.map (·.1)).Nodup → ∀ {n : Text} {b : List Item}, (n, b) ∈ fs →
    content fs n = some b := by
  intro fs
  induction fs with
  | nil => intro _ n b h; cases h
  | cons p fs ih =>
    intro hnd n b h
    rw [List.map_cons, List.nodup_cons] at hnd
    unfold content
    rw [List.find?_cons]
    rcases List.mem_cons.1 h with h | h
    · subst h; simp
    · have hne : p.1 ≠ n := by
        rintro rfl
        exact hnd.1 (List.mem_map.2 ⟨_, h, rfl⟩)
      simp only [hne, decide_false]
      exact ih hnd.2 h

theorem mem_files {n : Text} {b : List Item} : (n, b) ∈ files sep us ↔ ∃ u ∈ us, (n = chName u.name ∧ b = chFile u) ∨
    (n = hppName u.name ∧ b = hppFile sep u) ∨ (u.iface = false ∧ n = fwdName u.name ∧ b = [.decl u.name]) ∨
      (u.iface = false ∧ sep = true ∧ n = implName u.name ∧ b = [.incl (hppName u.name), .impl u.name]) := by
  unfold files unitFiles
  simp only [List.mem_flatMap]
  constructor
  · rintro ⟨u, hu, h⟩
    refine ⟨u, hu, ?_⟩
    cases hi : u.iface <;> cases hs : sep <;> simp [hi, hs] at h ⊢ <;> exact h
  · rintro ⟨u, hu, h⟩
    refine ⟨u, hu, ?_⟩
    cases hi : u.iface <;> cases hs : sep <;> simp [hi, hs] at h ⊢ <;> exact h

/-- The rank of a header by what it holds. -/
def bodyRank (rank : Text → Nat) : List Item → Nat
  | [] => 0
  | .cls x :: _ => rank x + 1
  | .impl x :: _ => rank x + 2
  | _ :: l => bodyRank rank l

theorem bodyRank_incl (rank : Text → Nat) (l : List Text) (b : List Item) : bodyRank rank (l.map .incl ++ b) = bodyRank rank b := by
  induction l with
  | nil => rfl
  | cons x l ih => exact ih

theorem bodyRank_ch (rank : Text → Nat) (u : Entity) : bodyRank rank (chFile u) = 0 := by
  unfold chFile
  split <;> rfl

theorem bodyRank_hpp (rank : Text → Nat) (u : Entity) : bodyRank rank (hppFile sep u) = rank u.name + 1 := by
  unfold hppFile
  rw [bodyRank_incl]
  show bodyRank rank (if u.iface || !sep then [.cls u.name, .impl u.name] else [.cls u.name]) = _
  split <;> rfl

/-- The rank of a header by name. -/
def fileRank (fs : List (Text × List Item)) (rank : Text → Nat) (n : Text) : Nat := ((content fs n).map (bodyRank rank)).getD 0

variable (hw : WellFormed sep us)
include hw

theorem content_ch {u : Entity} (hu : u ∈ us) : content (files sep us) (chName u.name) = some (chFile u) :=
  content_of_mem hw.noClash (mem_files.2 ⟨u, hu, Or.inl ⟨rfl, rfl⟩⟩)

theorem content_hpp {u : Entity} (hu : u ∈ us) : content (files sep us) (hppName u.name) = some (hppFile sep u) :=
  content_of_mem hw.noClash (mem_files.2 ⟨u, hu, Or.inr (Or.inl ⟨rfl, rfl⟩)⟩)

theorem entity_eq {u w : Entity} (hu : u ∈ us) (hw' : w ∈ us) (h : u.name = w.name) : u = w := by
  have := hw.names
  clear hw
  revert u w
  induction us with
  | nil => intro u w hu; cases hu
  | cons x l ih =>
    intro u w hu hw' h
    rw [List.map_cons, List.nodup_cons] at this
    rcases List.mem_cons.1 hu with hu | hu <;> rcases List.mem_cons.1 hw' with hw' | hw'
    · rw [hu, hw']
    · exact absurd (List.mem_map.2 ⟨w, hw', by rw [← hu]; exact h.symm⟩) this.1
    · exact absurd (List.mem_map.2 ⟨u, hu, by rw [← hw']; exact h⟩) this.1
    · exact ih this.2 hu hw' h

omit hw in
theorem mem_includes {u : Entity} {n : Text} : n ∈ includesOf u ↔
    (∃ s ∈ u.sigs, ∃ t ∈ s.types, n ∈ t.info.modules) ∧ (u.iface = true ∨ (n ≠ hppName u.name ∧ n ≠ chName u.name)) := by
  have h1 : (∃ m ∈ u.sigs.map Sig.plain, Needs m n) ↔ ∃ s ∈ u.sigs, ∃ t ∈ s.types, n ∈ t.info.modules := by
    constructor
    · rintro ⟨m, hm, h⟩
      obtain ⟨s, hs, rfl⟩ := List.mem_map.1 hm
      refine ⟨s, hs, ?_⟩
      unfold Needs Sig.plain at h
      unfold Sig.types
      rcases h with h | ⟨t, ht, h⟩
      · exact ⟨s.output, by simp, h⟩
      · obtain ⟨t', ht', rfl⟩ := List.mem_map.1 ht
        exact ⟨t', by simp [ht'], h⟩
    · rintro ⟨s, hs, t, ht, h⟩
      refine ⟨s.plain, List.mem_map.2 ⟨s, hs, rfl⟩, ?_⟩
      unfold Needs Sig.plain
      unfold Sig.types at ht
      rcases List.mem_append.1 ht with ht | ht
      · exact Or.inr ⟨t.info, List.mem_map.2 ⟨t, ht, rfl⟩, h⟩
      · rw [List.mem_singleton] at ht; subst ht; exact Or.inl h
  unfold includesOf
  cases hi : u.iface with
  | true =>
    simp only [if_true, true_or, and_true]
    rw [← h1, requiredIncludes, (retainUnique_spec _ _).2.1, mem_collect]
    simp
  | false =>
    simp only [Bool.false_eq_true, if_false, false_or]
    rw [C22_exactly_needed, h1]
    rfl

omit hw in
theorem First.append {x y : Text} {a b : List Text} (h1 : First y x a) (h2 : First y x b) : First y x (a ++ b) := by
  intro p q h
  rcases append_eq_split h with ⟨a2, h, _⟩ | ⟨p2, rfl, h'⟩
  · exact h1 p a2 h
  · exact List.mem_append_right _ (h2 p2 q h')

omit hw in
theorem First.flatMap {α} {x y : Text} {f : α → List Text} : ∀ {l : List α}, (∀ a ∈ l, First y x (f a)) → First y x (l.flatMap f) := by
  intro l
  induction l with
  | nil => intro _ p q h; exact absurd h (by simp)
  | cons a l ih =>
    intro h
    rw [List.flatMap_cons]
    exact (h a (by simp)).append (ih fun b hb => h b (by simp [hb]))

omit hw in
theorem First.unique {x y : Text} : ∀ {l seen : List Text}, First y x l → ∀ p q, retainUnique seen l = p ++ x :: q → y ∈ p ∨ y ∈ seen := by
  intro l
  induction l with
  | nil => intro seen _ p q h; exact absurd h (by simp [retainUnique])
  | cons a l ih =>
    intro seen hf p q h
    rw [retainUnique] at h
    by_cases hay : a = y
    · by_cases ha : seen.contains a = true
      · exact Or.inr (by simpa [hay] using ha)
      · rw [if_neg ha] at h
        cases p with
        | nil =>
          simp only [List.nil_append, List.cons.injEq] at h
          exact absurd (hf [] l (by rw [h.1]; rfl)) (by simp)
        | cons b p =>
          simp only [List.cons_append, List.cons.injEq] at h
          exact Or.inl (by rw [← h.1, hay]; simp)
    · have hf' : First y x l := by
        intro p q h
        have := hf (a :: p) q (by rw [h]; rfl)
        rcases List.mem_cons.1 this with rfl | this
        · exact absurd rfl hay
        · exact this
      by_cases ha : seen.contains a = true
      · rw [if_pos ha] at h
        exact ih hf' p q h
      · rw [if_neg ha] at h
        cases p with
        | nil =>
          simp only [List.nil_append, List.cons.injEq] at h
          exact absurd (hf [] l (by rw [h.1]; rfl)) (by simp)
        | cons b p =>
          simp only [List.cons_append, List.cons.injEq] at h
          rcases ih hf' p q h.2 with h' | h'
          · exact Or.inl (by simp [h'])
          · rcases List.mem_cons.1 h' with rfl | h'
            · exact absurd rfl hay
            · exact Or.inr h'

omit hw in
theorem First.filter {x y : Text} {f : Text → Bool} (hy : f y = true) : ∀ {l : List Text}, First y x l → First y x (l.filter f) := by
  intro l h p q he
  rw [List.filter_eq_append_iff] at he
  obtain ⟨l1, l2, rfl, rfl, h2⟩ := he
  rw [List.filter_eq_cons_iff] at h2
  obtain ⟨l3, l4, rfl, hn, _, rfl⟩ := h2
  have := h (l1 ++ l3) l4 (by simp)
  rw [List.mem_filter]
  refine ⟨?_, hy⟩
  rcases List.mem_append.1 this with this | this
  · exact this
  · exact absurd hy (by simpa using hn y this)

theorem hpp_ne_ch {u w : Entity} (hu : u ∈ us) (hwu : w ∈ us) : hppName w.name ≠ chName u.name := by
  intro h
  have h1 := content_hpp hw hwu
  rw [h, content_ch hw hu] at h1
  simp only [Option.some.injEq] at h1
  have : Item.incl (chName w.name) ∈ chFile u := by rw [h1]; unfold hppFile; simp
  unfold chFile at this
  split at this <;> simp at this

omit hw in
theorem hppName_inj {a b : Text} (h : hppName a = hppName b) : a = b := by
  unfold hppName at h
  simpa using h

omit hw in
theorem chName_inj {a b : Text} (h : chName a = chName b) : a = b := by
  unfold chName at h
  simpa using h

/-- The C header of another item is included after its C++ header. -/
theorem includes_first {u w : Entity} (hu : u ∈ us) (hwu : w ∈ us) : First (hppName w.name) (chName w.name) (includesOf u) := by
  have h0 : First (hppName w.name) (chName w.name) (collectIncludes (u.sigs.map Sig.plain)) := by
    have e : collectIncludes (u.sigs.map Sig.plain) = u.sigs.flatMap fun s => s.types.flatMap (·.info.modules) := by
      generalize u.sigs = l
      induction l with
      | nil => rfl
      | cons s l ih =>
        rw [List.map_cons, collectIncludes, ih, List.flatMap_cons]
        congr 1
        unfold Sig.types Sig.plain
        rw [List.flatMap_append, List.flatMap_map]
        simp
    rw [e]
    exact First.flatMap fun s hs => First.flatMap fun t ht => (hw.honest u hu s hs t ht).2.2 w hwu
  have h1 : First (hppName w.name) (chName w.name) (requiredIncludes (u.sigs.map Sig.plain)) := by
    intro p q h
    rcases h0.unique p q h with h | h
    · exact h
    · cases h
  unfold includesOf
  cases hi : u.iface with
  | true => exact h1
  | false =>
    simp only [Bool.false_eq_true, if_false]
    by_cases hn : w.name = u.name
    · intro p q h
      have : chName w.name ∈ classIncludes u.name (u.sigs.map Sig.plain) := by rw [h]; simp
      rw [C22_exactly_needed] at this
      exact absurd (by rw [hn]; rfl) this.2.2
    · refine First.filter ?_ h1
      simp only [Bool.and_eq_true, bne_iff_ne]
      exact ⟨fun h => hn (hppName_inj h), fun h => hpp_ne_ch hw hu hwu h⟩

/-- Which generated headers include nothing. -/
theorem leaf_cases {n : Text} {b : List Item} (h : content (files sep us) n = some b) (hl : ∀ i ∈ b, i.isInclude = false) :
    ∃ u ∈ us, (n = chName u.name ∧ b = chFile u) ∨ (u.iface = false ∧ n = fwdName u.name ∧ b = [.decl u.name]) := by
  obtain ⟨u, hu, h | h | h | h⟩ := mem_files.1 (content_mem h)
  · exact ⟨u, hu, Or.inl h⟩
  · exact absurd (hl (.incl (chName u.name)) (by rw [h.2]; unfold hppFile; simp)) (by simp [Item.isInclude])
  · exact ⟨u, hu, Or.inr h⟩
  · exact absurd (hl (.incl (hppName u.name)) (by rw [h.2.2.2]; simp)) (by simp [Item.isInclude])

/-- What an item mentions is included by its header, or is the class itself. -/
theorem includes_cpp {u : Entity} (hu : u ∈ us) {y : Text} (hy : y ∈ u.cppNames) :
    (y = u.name ∧ u.iface = false) ∨ hppName y ∈ includesOf u := by
  unfold Entity.cppNames at hy
  simp only [List.mem_flatMap] at hy
  obtain ⟨s, hs, t, ht, hy'⟩ := hy
  by_cases hn : y = u.name ∧ u.iface = false
  · exact Or.inl hn
  · refine Or.inr (mem_includes.2 ⟨⟨s, hs, t, ht, (hw.honest u hu s hs t ht).1 y hy'⟩, ?_⟩)
    cases hi : u.iface with
    | true => exact Or.inl rfl
    | false =>
      refine Or.inr ⟨fun h => hn ⟨hppName_inj h, hi⟩, ?_⟩
      obtain ⟨w, hw', rfl⟩ := hw.declared u hu y (by
        unfold Entity.cppNames; simp only [List.mem_flatMap]; exact ⟨s, hs, t, ht, hy'⟩)
      exact hpp_ne_ch hw hu hw'

/-- The same for the opaque types. -/
theorem includes_c {u : Entity} (hu : u ∈ us) {y : Text} (hy : y ∈ u.cNames) :
    (y = u.name ∧ u.iface = false ∧ u.staticOnly = false) ∨ chName y ∈ includesOf u := by
  obtain ⟨w, hwu, hwn, hwi, hws⟩ := hw.opaqueDeclared u hu y hy
  unfold Entity.cNames at hy
  simp only [List.mem_flatMap] at hy
  obtain ⟨s, hs, t, ht, hy'⟩ := hy
  by_cases hn : y = u.name
  · have e := entity_eq hw hwu hu (by rw [hwn, hn])
    subst e
    exact Or.inl ⟨hn, hwi, hws⟩
  · refine Or.inr (mem_includes.2 ⟨⟨s, hs, t, ht, ((hw.honest u hu s hs t ht).2.1 y hy').2⟩, ?_⟩)
    refine Or.inr ⟨?_, fun h => hn (chName_inj h)⟩
    rw [← hwn]
    exact fun h => hpp_ne_ch hw hwu hu h.symm

omit hw in
/-- The lines of the C header of `u` after everything its C functions mention. -/
theorem ch_fine {u : Entity} (hne : ∀ w ∈ us, w.name = u.name → w = u) (pre : List Item)
    (h : ∀ y ∈ u.cNames, (y = u.name ∧ u.iface = false ∧ u.staticOnly = false) ∨ .typedef y ∈ pre) :
    ∀ b1 i b2, chFile u = b1 ++ i :: b2 → Fine us (pre ++ b1) i := by
  intro b1 i b2 he
  have hi : i ∈ chFile u := by rw [he]; simp
  cases i with
  | cfuns x =>
    intro w hw' hn y hy
    have hx : x = u.name := by
      unfold chFile at hi
      split at hi <;> simpa using hi
    subst hx
    have := hne w hw' hn
    subst this
    rcases h y hy with ⟨rfl, h1, h2⟩ | h
    · unfold chFile at he
      rw [h1, h2] at he
      simp only [Bool.or_self, Bool.false_eq_true, if_false, List.cons_append, List.nil_append] at he
      cases b1 with
      | nil => simp at he
      | cons a b1 =>
        simp only [List.cons_append, List.cons.injEq] at he
        rw [← he.1]
        simp
    · exact List.mem_append_left _ h
  | cls x =>
    unfold chFile at hi
    split at hi <;> simp at hi
  | impl x =>
    unfold chFile at hi
    split at hi <;> simp at hi
  | _ => trivial

/-- There is no circle among the C++ headers. -/
def NoCircle (rank : Text → Nat) (us : List Entity) : Prop :=
  ∀ u ∈ us, ∀ y ∈ u.cppNames, (y = u.name ∧ u.iface = false) ∨ rank y < rank u.name

theorem includes_rank {rank : Text → Nat} (hr : NoCircle rank us) {u : Entity} (hu : u ∈ us) {n : Text} (hn : n ∈ includesOf u)
    (hc : content (files sep us) n ≠ none) : fileRank (files sep us) rank n < rank u.name + 1 := by
  obtain ⟨b, hb⟩ := Option.ne_none_iff_exists'.1 hc
  obtain ⟨⟨s, hs, t, ht, hm⟩, hown⟩ := mem_includes.1 hn
  have hf : fileRank (files sep us) rank n = bodyRank rank b := by unfold fileRank; rw [hb]; rfl
  rw [hf]
  obtain ⟨w, hwu, h | h | h | h⟩ := mem_files.1 (content_mem hb)
  · rw [h.2, bodyRank_ch]; omega
  · obtain ⟨rfl, rfl⟩ := h
    rw [bodyRank_hpp]
    have hk := hw.known u hu s hs t ht w hwu hm
    have hmem : w.name ∈ u.cppNames := by
      unfold Entity.cppNames; simp only [List.mem_flatMap]; exact ⟨s, hs, t, ht, hk⟩
    rcases hr u hu _ hmem with ⟨h1, h2⟩ | h
    · rcases hown with h | h
      · rw [h2] at h; cases h
      · exact absurd (by rw [h1]) h.1
    · omega
  · obtain ⟨hwi, rfl, _⟩ := h
    exact absurd hm (hw.fwdFree u hu s hs t ht w hwu hwi).1
  · obtain ⟨hwi, hse, rfl, _⟩ := h
    exact absurd hm ((hw.fwdFree u hu s hs t ht w hwu hwi).2 hse)

omit hw in
theorem map_incl_split {l : List Text} {tl p q : List Item} {i : Item} (h : l.map Item.incl ++ tl = p ++ i :: q) :
    (∃ l1 n l2, l = l1 ++ n :: l2 ∧ p = l1.map .incl ∧ i = .incl n) ∨ ∃ p2, p = l.map .incl ++ p2 ∧ tl = p2 ++ i :: q := by
  rcases append_eq_split h with ⟨a2, h', _⟩ | h
  · left
    clear h
    rw [List.map_eq_append_iff] at h'
    obtain ⟨l1, l3, rfl, rfl, h'⟩ := h'
    rw [List.map_eq_cons_iff] at h'
    obtain ⟨n, l2, rfl, rfl, _⟩ := h'
    exact ⟨l1, n, l2, rfl, rfl, rfl⟩
  · exact Or.inr h

/-- Every C++ header is in a good order. -/
theorem hpp_good {rank : Text → Nat} (hr : NoCircle rank us) {u : Entity} (hu : u ∈ us) :
    Good (files sep us) us (fileRank (files sep us) rank) (rank u.name + 1) (hppFile sep u) := by
  have hne : ∀ w ∈ us, w.name = u.name → w = u := fun w hw' h => entity_eq hw hw' hu h
  have hch0 : fileRank (files sep us) rank (chName u.name) = 0 := by
    unfold fileRank; rw [content_ch hw hu]; exact bodyRank_ch rank u
  -- what is there after all includes
  have hcpp : ∀ (v : List Text) (pre : List Item), Complete (files sep us) (fileRank (files sep us) rank) (rank u.name + 1) v pre →
      (∀ n, n ∈ includesOf u → content (files sep us) n ≠ none → n ∈ v) → ∀ y ∈ u.cppNames, (y = u.name ∧ u.iface = false) ∨ .cls y ∈ pre := by
    intro v pre hc hv y hy
    obtain ⟨w, hwu, rfl⟩ := hw.declared u hu y hy
    rcases includes_cpp hw hu hy with h | h
    · exact Or.inl h
    · right
      have hcon := content_hpp hw hwu
      have hnn : content (files sep us) (hppName w.name) ≠ none := by rw [hcon]; simp
      have := (hc _ (hv _ h hnn) (includes_rank hw hr hu h hnn) _ hcon).1 (.cls w.name)
      refine this ?_ rfl
      unfold hppFile
      split <;> simp
  have hopq : ∀ (w : Entity), w ∈ us → ∀ (v : List Text) (pre : List Item),
      Complete (files sep us) (fileRank (files sep us) rank) (rank u.name + 1) v pre →
      (∀ n, n ∈ includesOf w → content (files sep us) n ≠ none → n ∈ v) →
      ∀ y ∈ w.cNames, (y = w.name ∧ w.iface = false ∧ w.staticOnly = false) ∨ .typedef y ∈ pre := by
    intro w hwu v pre hc hv y hy
    rcases includes_c hw hwu hy with h | h
    · exact Or.inl h
    · right
      obtain ⟨z, hz, rfl, hzi, hzs⟩ := hw.opaqueDeclared w hwu y hy
      have hcon := content_ch hw hz
      have hnn : content (files sep us) (chName z.name) ≠ none := by rw [hcon]; simp
      refine (hc _ (hv _ h hnn) ?_ _ hcon).1 (.typedef z.name) ?_ rfl
      · unfold fileRank; rw [hcon]; simp [bodyRank_ch]
      · unfold chFile; simp [hzi, hzs]
  refine ⟨?_, ?_, ?_⟩
  · intro n hn hc
    unfold hppFile at hn
    rcases List.mem_append.1 hn with hn | hn
    · obtain ⟨m, hm, e⟩ := List.mem_map.1 hn
      cases e
      exact includes_rank hw hr hu hm hc
    · have : n = chName u.name := by
        split at hn <;> simpa using hn
      rw [this, hch0]; omega
  · intro p i q he hi v pre hc hv hp
    unfold hppFile at he
    rcases map_incl_split he with ⟨_, _, _, _, _, rfl⟩ | ⟨p2, rfl, he'⟩
    · cases hi
    · have hv' : ∀ n, n ∈ includesOf u → content (files sep us) n ≠ none → n ∈ v := fun n hn hc =>
        hv n (List.mem_append_left _ (List.mem_map.2 ⟨n, hn, rfl⟩)) hc
      have hall := hcpp v pre hc hv'
      cases p2 with
      | nil =>
        simp only [List.nil_append, List.cons.injEq] at he'
        rw [← he'.1] at hi; cases hi
      | cons a p2 =>
        simp only [List.cons_append, List.cons.injEq] at he'
        obtain ⟨rfl, he'⟩ := he'
        have hcases : (i = .cls u.name) ∨ (i = .impl u.name ∧ .cls u.name ∈ p2) := by
          split at he'
          · cases p2 with
            | nil => simp only [List.nil_append, List.cons.injEq] at he'; exact Or.inl he'.1.symm
            | cons b p2 =>
              cases p2 with
              | nil =>
                simp only [List.cons_append, List.nil_append, List.cons.injEq] at he'
                exact Or.inr ⟨he'.2.1.symm, by simp [he'.1]⟩
              | cons c p2 =>
                simp at he'
          · cases p2 with
            | nil => simp only [List.nil_append, List.cons.injEq] at he'; exact Or.inl he'.1.symm
            | cons b p2 => simp at he'
        rcases hcases with rfl | ⟨rfl, hcl⟩
        · intro w hw' hn y hy
          have := hne w hw' hn
          subst this
          rcases hall y hy with h | h
          · exact Or.inl h.1
          · exact Or.inr (Or.inr h)
        · intro w hw' hn y hy
          have := hne w hw' hn
          subst this
          rcases hall y hy with h | h
          · rw [h.1]
            exact hp _ (List.mem_append_right _ (List.mem_cons_of_mem _ hcl)) rfl
          · exact h
  · intro p n q body he hb hl v pre hc hv hp b1 i b2 hbe
    unfold hppFile at he
    rcases map_incl_split he with ⟨l1, m, l2, hl12, rfl, e⟩ | ⟨p2, rfl, he'⟩
    · cases e
      have hmem : n ∈ includesOf u := by rw [hl12]; simp
      obtain ⟨⟨s, hs, t, ht, hm⟩, _⟩ := mem_includes.1 hmem
      obtain ⟨w, hwu, h | h⟩ := leaf_cases hw hb hl
      · obtain ⟨rfl, rfl⟩ := h
        have hfirst := includes_first hw hu hwu l1 l2 hl12
        have hcon := content_hpp hw hwu
        have hnn : content (files sep us) (hppName w.name) ≠ none := by rw [hcon]; simp
        have hin : hppName w.name ∈ includesOf u := by rw [hl12]; simp [hfirst]
        have hv1 : hppName w.name ∈ v := hv _ (List.mem_map.2 ⟨_, hfirst, rfl⟩) hnn
        have hcl := (hc _ hv1 (includes_rank hw hr hu hin hnn) _ hcon).2
        refine ch_fine (fun z hz h => entity_eq hw hz hwu h) pre ?_ b1 i b2 hbe
        refine hopq w hwu v pre hc fun k hk hkc => hcl k ?_ hkc
        unfold hppFile
        exact List.mem_append_left _ (List.mem_map.2 ⟨k, hk, rfl⟩)
      · obtain ⟨hwi, rfl, _⟩ := h
        exact absurd hm (hw.fwdFree u hu s hs t ht w hwu hwi).1
    · cases p2 with
      | nil =>
        simp only [List.nil_append, List.cons.injEq, Item.incl.injEq] at he'
        obtain ⟨rfl, _⟩ := he'
        rw [content_ch hw hu] at hb
        cases hb
        refine ch_fine hne pre ?_ b1 i b2 hbe
        exact hopq u hu v pre hc fun k hk hkc => hv k (List.mem_append_left _ (List.mem_map.2 ⟨k, hk, rfl⟩)) hkc
      | cons a p2 =>
        simp only [List.cons_append, List.cons.injEq] at he'
        obtain ⟨rfl, he'⟩ := he'
        exfalso
        have : Item.incl n ∈ (if u.iface || !sep then [Item.cls u.name, .impl u.name] else [.cls u.name]) := by rw [he']; simp
        split at this <;> simp at this

/-- A header with implementations only is in a good order. -/
theorem impl_good {rank : Text → Nat} (hr : NoCircle rank us) {u : Entity} (hu : u ∈ us) :
    Good (files sep us) us (fileRank (files sep us) rank) (rank u.name + 2) [.incl (hppName u.name), .impl u.name] := by
  have hcon := content_hpp hw hu
  have hrk : fileRank (files sep us) rank (hppName u.name) = rank u.name + 1 := by
    unfold fileRank; rw [hcon]; exact bodyRank_hpp rank u
  refine ⟨?_, ?_, ?_⟩
  · intro n hn _
    simp only [List.mem_cons, Item.incl.injEq, reduceCtorEq, List.not_mem_nil, or_false] at hn
    rw [hn, hrk]; omega
  · intro p i q he hi v pre hc hv hp
    cases p with
    | nil =>
      simp only [List.nil_append, List.cons.injEq] at he
      rw [← he.1] at hi; cases hi
    | cons a p =>
      simp only [List.cons_append, List.cons.injEq] at he
      obtain ⟨rfl, he⟩ := he
      cases p with
      | cons b p => simp at he
      | nil =>
        simp only [List.nil_append, List.cons.injEq] at he
        obtain ⟨rfl, _⟩ := he
        intro w hw' hn y hy
        have := entity_eq hw hw' hu hn
        subst this
        have hin : hppName w.name ∈ v := hv _ (by simp) (by rw [hcon]; simp)
        obtain ⟨h1, h2⟩ := hc _ hin (by rw [hrk]; omega) _ hcon
        obtain ⟨z, hz, rfl⟩ := hw.declared w hu y hy
        rcases includes_cpp hw hu hy with h | h
        · rw [h.1]
          refine h1 _ ?_ rfl
          unfold hppFile
          split <;> simp
        · have hcz := content_hpp hw hz
          have hnn : content (files sep us) (hppName z.name) ≠ none := by rw [hcz]; simp
          have hz' : hppName z.name ∈ v := by
            refine h2 _ ?_ hnn
            unfold hppFile
            exact List.mem_append_left _ (List.mem_map.2 ⟨_, h, rfl⟩)
          have hlt := includes_rank hw hr hu h hnn
          refine (hc _ hz' (by omega) _ hcz).1 _ ?_ rfl
          unfold hppFile
          split <;> simp
  · intro p n q body he hb hl
    exfalso
    have hn : n = hppName u.name := by
      have : Item.incl n ∈ [Item.incl (hppName u.name), .impl u.name] := by rw [he]; simp
      simpa using this
    subst hn
    rw [hcon] at hb
    cases hb
    exact absurd (hl (.incl (chName u.name)) (by unfold hppFile; simp)) (by simp [Item.isInclude])

/-- All headers that include something are in a good order. -/
theorem all_good {rank : Text → Nat} (hr : NoCircle rank us) (n : Text) (body : List Item) (hb : content (files sep us) n = some body)
    (hi : ∃ m, .incl m ∈ body) : Good (files sep us) us (fileRank (files sep us) rank) (fileRank (files sep us) rank n) body := by
  have hf : fileRank (files sep us) rank n = bodyRank rank body := by unfold fileRank; rw [hb]; rfl
  rw [hf]
  obtain ⟨u, hu, h | h | h | h⟩ := mem_files.1 (content_mem hb)
  · obtain ⟨_, rfl⟩ := h
    obtain ⟨m, hm⟩ := hi
    unfold chFile at hm
    split at hm <;> simp at hm
  · obtain ⟨_, rfl⟩ := h
    rw [bodyRank_hpp]
    exact hpp_good hw hr hu
  · obtain ⟨_, _, rfl⟩ := h
    obtain ⟨m, hm⟩ := hi
    simp at hm
  · obtain ⟨_, _, _, rfl⟩ := h
    exact impl_good hw hr hu

end generated

/-! ## Theorems -/

/-- A program that includes some of the generated C++ headers, in some order. -/
def Source (sep : Bool) (us : List Entity) (src : List Item) : Prop := ∀ i ∈ src, ∃ u ∈ us,
  i = .incl (hppName u.name) ∨ (u.iface = false ∧ i = .incl (fwdName u.name)) ∨ (u.iface = false ∧ sep = true ∧ i = .incl (implName u.name))

/-- **C83**: whatever the headers include, the preprocessor comes to an end, with one result. -/
theorem C83_ends (sep : Bool) (us : List Entity) (src : List Item) :
    ∃ out v, Pre (files sep us) src [] out v ∧ ∀ out' v', Pre (files sep us) src [] out' v' → out' = out ∧ v' = v := by
  obtain ⟨out, v, h⟩ := Pre.exists (fs := files sep us) _ [] (Nat.le_refl _) src
  exact ⟨out, v, h, fun o' v' h' => h'.det h⟩

/-- **C83**: a program that includes generated C++ headers in any order gets, for every item whose headers it sees, the C and C++ classes
and functions it asked for; and if no class or interface mentions itself through others, every line finds what it needs before it. -/
theorem C83_compiles {sep : Bool} {us : List Entity} (hw : WellFormed sep us) (rank : Text → Nat)
    (hr : ∀ u ∈ us, ∀ y ∈ u.cppNames, (y = u.name ∧ u.iface = false) ∨ rank y < rank u.name)
    {src out : List Item} {v : List Text} (hs : Source sep us src) (h : Pre (files sep us) src [] out v) :
    AllFine us out ∧ ∀ u ∈ us, .incl (hppName u.name) ∈ src → .cls u.name ∈ out ∧ .cfuns u.name ∈ out := by
  refine ⟨?_, ?_⟩
  · obtain ⟨r, hrr⟩ : ∃ r, ∀ n, .incl n ∈ src → fileRank (files sep us) rank n < r := by
      clear h hs
      induction src with
      | nil => exact ⟨0, fun n hn => by cases hn⟩
      | cons i src ih =>
        obtain ⟨r, hr⟩ := ih
        cases i with
        | incl m =>
          refine ⟨r + fileRank (files sep us) rank m + 1, fun n hn => ?_⟩
          rcases List.mem_cons.1 hn with h | hn
          · cases h; omega
          · have := hr n hn; omega
        | _ =>
          refine ⟨r, fun n hn => ?_⟩
          rcases List.mem_cons.1 hn with h | hn
          · cases h
          · exact hr n hn
    have hg : Good (files sep us) us (fileRank (files sep us) rank) r ([] ++ src) := by
      refine ⟨fun n hn _ => hrr n hn, ?_, ?_⟩
      · intro p i q he hi
        obtain ⟨u, _, h | h | h⟩ := hs i (by rw [← List.nil_append src, he]; simp)
        · rw [h] at hi; cases hi
        · rw [h.2] at hi; cases hi
        · rw [h.2.2] at hi; cases hi
      · intro p n q body he hb hl v pre _ _ _ b1 i b2 hbe
        obtain ⟨u, hu, h⟩ := hs (.incl n) (by rw [← List.nil_append src, he]; simp)
        obtain ⟨w, hwu, h' | h'⟩ := leaf_cases hw hb hl
        · exfalso
          obtain ⟨rfl, rfl⟩ := h'
          have hno : ∀ m, Item.incl m ∉ chFile w := by
            intro m hm; have := hl _ hm; cases this
          rcases h with h | h | h
          · simp only [Item.incl.injEq] at h
            rw [h, content_hpp hw hu] at hb
            simp only [Option.some.injEq] at hb
            exact hno (chName u.name) (by rw [← hb]; unfold hppFile; simp)
          · have hc : content (files sep us) (fwdName u.name) = some [.decl u.name] :=
              content_of_mem hw.noClash (mem_files.2 ⟨u, hu, Or.inr (Or.inr (Or.inl ⟨h.1, rfl, rfl⟩))⟩)
            have h2 := h.2
            simp only [Item.incl.injEq] at h2
            rw [h2, hc] at hb
            simp only [Option.some.injEq] at hb
            unfold chFile at hb
            split at hb <;> simp at hb
          · have hc : content (files sep us) (implName u.name) = some [.incl (hppName u.name), .impl u.name] :=
              content_of_mem hw.noClash (mem_files.2 ⟨u, hu, Or.inr (Or.inr (Or.inr ⟨h.1, h.2.1, rfl, rfl⟩))⟩)
            have h2 := h.2.2
            simp only [Item.incl.injEq] at h2
            rw [h2, hc] at hb
            simp only [Option.some.injEq] at hb
            exact hno (hppName u.name) (by rw [← hb]; simp)
        · obtain ⟨_, _, rfl⟩ := h'
          have hi : i ∈ [Item.decl w.name] := by rw [hbe]; simp
          rw [List.mem_singleton] at hi
          subst hi
          trivial
    intro p i q he
    have := h.fine (all_good hw hr) [] r [] hg (fun n hn => by cases hn) (by simp) (by simp) p i q he
    simpa using this
  · intro u hu hin
    have hcon := content_hpp hw hu
    have hv : hppName u.name ∈ v := h.included _ hin (by rw [hcon]; simp)
    obtain ⟨b, h1, h2, h3⟩ := h.done _ hv (by simp)
    rw [hcon] at h1
    cases h1
    refine ⟨h2 _ (by unfold hppFile; split <;> simp) rfl, ?_⟩
    have hcc := content_ch hw hu
    have hv2 : chName u.name ∈ v := h3 _ (by unfold hppFile; simp) (by rw [hcc]; simp)
    obtain ⟨b, h1, h2, _⟩ := h.done _ hv2 (by simp)
    rw [hcc] at h1
    cases h1
    exact h2 _ (by unfold chFile; split <;> simp) rfl

/-! ### Each header once -/

theorem Pre.once {fs : List (Text × List Item)} (hnd : ∀ n b, content fs n = some b → (b.filter fun i => !i.isInclude).Nodup)
    (hdis : ∀ n m b c, content fs n = some b → content fs m = some c → n ≠ m → ∀ i ∈ b, i.isInclude = false → i ∉ c)
    {is : List Item} {v out v' : _} (h : Pre fs is v out v') : (is.filter fun i => !i.isInclude).Nodup →
      (∀ i ∈ is, i.isInclude = false → ∀ m c, m ∉ v → content fs m = some c → i ∉ c) → out.Nodup := by
  induction h with
  | nil => intro _ _; exact List.nodup_nil
  | @keep i is v out v' hi hp ih =>
    intro h1 h2
    rw [List.filter_cons, if_pos (by simp [hi]), List.nodup_cons] at h1
    rw [List.nodup_cons]
    refine ⟨?_, ih h1.2 fun j hj => h2 j (List.mem_cons_of_mem _ hj)⟩
    intro hm
    obtain ⟨_, h | ⟨n, b, hn, _, hb, hib⟩⟩ := hp.origin i hm
    · exact h1.1 (List.mem_filter.2 ⟨h, by simp [hi]⟩)
    · exact h2 i (by simp) hi n b hn hb hib
  | foreign _ _ ih =>
    intro h1 h2
    exact ih (by simpa [List.filter_cons, Item.isInclude] using h1) fun j hj => h2 j (List.mem_cons_of_mem _ hj)
  | seen _ _ ih =>
    intro h1 h2
    exact ih (by simpa [List.filter_cons, Item.isInclude] using h1) fun j hj => h2 j (List.mem_cons_of_mem _ hj)
  | @enter n is body v o1 v1 o2 v2 hv hb hp1 hp2 ih1 ih2 =>
    intro h1 h2
    rw [List.nodup_append]
    refine ⟨ih1 (hnd n body hb) ?_, ih2 (by simpa [List.filter_cons, Item.isInclude] using h1) ?_, ?_⟩
    · intro i hi hii m c hm hc
      exact hdis n m body c hb hc (by rintro rfl; exact hm (by simp)) i hi hii
    · intro j hj hjj m c hm hc
      exact h2 j (List.mem_cons_of_mem _ hj) hjj m c (fun hh => hm (hp1.mono _ (by simp [hh]))) hc
    · intro a ha b hb' hab
      subst hab
      obtain ⟨haf, h3⟩ := hp1.origin a ha
      obtain ⟨_, h4⟩ := hp2.origin a hb'
      have hsrc : ∃ m c, m ∉ v ∧ m ∈ v1 ∧ content fs m = some c ∧ a ∈ c := by
        rcases h3 with h3 | ⟨m, c, hm, hm1, hc, hac⟩
        · exact ⟨n, body, hv, hp1.mono _ (by simp), hb, h3⟩
        · exact ⟨m, c, fun hh => hm (by simp [hh]), hm1, hc, hac⟩
      obtain ⟨m, c, hm, hm1, hc, hac⟩ := hsrc
      rcases h4 with h4 | ⟨k, d, hk, _, hd, had⟩
      · exact h2 a (List.mem_cons_of_mem _ h4) haf m c hm hc hac
      · exact hdis m k c d hc hd (by rintro rfl; exact hk hm1) a hac haf had

/-- **C83**: no declaration or definition is seen twice, however often the headers are included and whatever they include. -/
theorem C83_once {sep : Bool} {us : List Entity} (hw : WellFormed sep us) {src out : List Item} {v : List Text}
    (hs : Source sep us src) (h : Pre (files sep us) src [] out v) : out.Nodup := by
  have hkind : ∀ n b, content (files sep us) n = some b → ∃ u ∈ us, (n = chName u.name ∧ b = chFile u) ∨
      (n = hppName u.name ∧ b = hppFile sep u) ∨ (u.iface = false ∧ n = fwdName u.name ∧ b = [.decl u.name]) ∨
      (u.iface = false ∧ sep = true ∧ n = implName u.name ∧ b = [.incl (hppName u.name), .impl u.name]) :=
    fun n b hb => mem_files.1 (content_mem hb)
  have hfil : ∀ u : Entity, (hppFile sep u).filter (fun i => !i.isInclude) =
      if u.iface || !sep then [.cls u.name, .impl u.name] else [.cls u.name] := by
    intro u
    unfold hppFile
    rw [List.filter_append, List.filter_cons, if_neg (by simp [Item.isInclude])]
    have : ((includesOf u).map Item.incl).filter (fun i => !i.isInclude) = [] := by
      rw [List.filter_eq_nil_iff]
      intro a ha
      obtain ⟨x, _, rfl⟩ := List.mem_map.1 ha
      simp [Item.isInclude]
    rw [this, List.nil_append]
    split <;> simp [Item.isInclude]
  have hmemh : ∀ (u : Entity) (i : Item), i ∈ hppFile sep u → i.isInclude = false →
      i = .cls u.name ∨ (i = .impl u.name ∧ (u.iface || !sep) = true) := by
    intro u i hi hii
    have : i ∈ (hppFile sep u).filter (fun i => !i.isInclude) := List.mem_filter.2 ⟨hi, by simp [hii]⟩
    rw [hfil] at this
    split at this
    · rename_i hc
      simp only [List.mem_cons, List.not_mem_nil, or_false] at this
      exact this.imp id fun h => ⟨h, hc⟩
    · simp only [List.mem_cons, List.not_mem_nil, or_false] at this
      exact Or.inl this
  have hmemc : ∀ (u : Entity) (i : Item), i ∈ chFile u → i = .typedef u.name ∨ i = .cfuns u.name := by
    intro u i hi
    unfold chFile at hi
    split at hi <;> simp at hi
    · exact Or.inr hi
    · exact hi
  refine h.once ?_ ?_ ?_ ?_
  · intro n b hb
    obtain ⟨u, hu, ⟨_, rfl⟩ | ⟨_, rfl⟩ | ⟨_, _, rfl⟩ | ⟨_, _, _, rfl⟩⟩ := hkind n b hb
    · unfold chFile
      split <;> simp [List.filter_cons, Item.isInclude]
    · rw [hfil]
      split <;> simp
    · simp [List.filter_cons, Item.isInclude]
    · simp [List.filter_cons, Item.isInclude]
  · intro n m b c hb hc hnm i hi hii hic
    obtain ⟨u, hu, ⟨rfl, rfl⟩ | ⟨rfl, rfl⟩ | ⟨ui, rfl, rfl⟩ | ⟨ui, hsep, rfl, rfl⟩⟩ := hkind n b hb <;>
      obtain ⟨w, hwu, ⟨rfl, rfl⟩ | ⟨rfl, rfl⟩ | ⟨wi, rfl, rfl⟩ | ⟨wi, hsep', rfl, rfl⟩⟩ := hkind m c hc
    · rcases hmemc u i hi with rfl | rfl <;> rcases hmemc w _ hic with h | h
      · simp only [Item.typedef.injEq] at h; rw [h] at hnm; exact hnm rfl
      · simp at h
      · simp at h
      · simp only [Item.cfuns.injEq] at h; rw [h] at hnm; exact hnm rfl
    · rcases hmemc u i hi with rfl | rfl <;> rcases hmemh w _ hic rfl with h | h <;> simp at h
    · rcases hmemc u i hi with rfl | rfl <;> simp at hic
    · rcases hmemc u i hi with rfl | rfl <;> simp at hic
    · rcases hmemh u i hi hii with rfl | ⟨rfl, _⟩ <;> rcases hmemc w _ hic with h | h <;> cases h
    · rcases hmemh u i hi hii with rfl | ⟨rfl, _⟩ <;> rcases hmemh w _ hic rfl with h | h
      · simp only [Item.cls.injEq] at h; rw [h] at hnm; exact hnm rfl
      · simp at h
      · simp at h
      · have := h.1; simp only [Item.impl.injEq] at this; rw [this] at hnm; exact hnm rfl
    · rcases hmemh u i hi hii with rfl | ⟨rfl, _⟩ <;> simp at hic
    · rcases hmemh u i hi hii with rfl | ⟨rfl, hc'⟩
      · simp at hic
      · simp only [List.mem_cons, Item.impl.injEq, reduceCtorEq, List.not_mem_nil, or_false, false_or] at hic
        have := entity_eq hw hu hwu hic
        subst this
        rw [wi, hsep'] at hc'
        cases hc'
    · simp only [List.mem_singleton] at hi
      subst hi
      rcases hmemc w _ hic with h | h <;> cases h
    · simp only [List.mem_singleton] at hi
      subst hi
      rcases hmemh w _ hic rfl with h | h <;> simp at h
    · simp only [List.mem_singleton] at hi hic
      rw [hi] at hic
      simp only [Item.decl.injEq] at hic
      rw [hic] at hnm
      exact hnm rfl
    · simp only [List.mem_singleton] at hi
      subst hi
      simp at hic
    · simp only [List.mem_cons, List.not_mem_nil, or_false] at hi
      rcases hi with rfl | rfl
      · cases hii
      · rcases hmemc w _ hic with h | h <;> cases h
    · simp only [List.mem_cons, List.not_mem_nil, or_false] at hi
      rcases hi with rfl | rfl
      · cases hii
      · rcases hmemh w _ hic rfl with h | ⟨h, hc'⟩
        · cases h
        · simp only [Item.impl.injEq] at h
          have := entity_eq hw hu hwu h
          subst this
          rw [ui, hsep] at hc'
          cases hc'
    · simp only [List.mem_cons, List.not_mem_nil, or_false] at hi
      rcases hi with rfl | rfl
      · cases hii
      · simp at hic
    · simp only [List.mem_cons, List.not_mem_nil, or_false] at hi
      rcases hi with rfl | rfl
      · cases hii
      · simp only [List.mem_cons, Item.impl.injEq, reduceCtorEq, List.not_mem_nil, or_false, false_or] at hic
        rw [hic] at hnm
        exact hnm rfl
  · have : src.filter (fun i => !i.isInclude) = [] := by
      rw [List.filter_eq_nil_iff]
      intro a ha
      obtain ⟨u, _, h | h | h⟩ := hs a ha
      · rw [h]; simp [Item.isInclude]
      · rw [h.2]; simp [Item.isInclude]
      · rw [h.2.2]; simp [Item.isInclude]
    rw [this]
    exact List.nodup_nil
  · intro i hi hii
    obtain ⟨u, _, h | h | h⟩ := hs i hi
    · rw [h] at hii; cases hii
    · rw [h.2] at hii; cases hii
    · rw [h.2.2] at hii; cases hii

/-! ### Circular references -/

/-- A line of generated code that is no implementation is fine when all classes are declared and all opaque types are defined. -/
theorem fine_of_declared {us : List Entity} {pre : List Item} {i : Item} (hd : ∀ u ∈ us, ∀ y ∈ u.cppNames, .decl y ∈ pre)
    (ho : ∀ u ∈ us, ∀ y ∈ u.cNames, .typedef y ∈ pre) (hi : ∀ x, i ≠ .impl x) : Fine us pre i := by
  cases i with
  | cfuns x => exact fun u hu _ y hy => ho u hu y hy
  | cls x => exact fun u hu _ y hy => Or.inr (Or.inl (hd u hu y hy))
  | impl x => exact absurd rfl (hi x)
  | _ => trivial

/-- Without interfaces and with separate implementations, what a class header includes holds no implementations. -/
theorem no_impl {us : List Entity} (hw : WellFormed true us) (hc : ∀ u ∈ us, u.iface = false) {is : List Item} {v out v' : _}
    (h : Pre (files true us) is v out v') : (∀ n, .incl n ∈ is → (∃ u ∈ us, n = hppName u.name ∨ n = chName u.name) ∨ content (files true us) n = none) →
      (∀ x, .impl x ∉ is) → ∀ x, .impl x ∉ out := by
  induction h with
  | nil => intro _ _ x hx; cases hx
  | @keep i is v out v' hi hp ih =>
    intro h1 h2 x hx
    rcases List.mem_cons.1 hx with hx | hx
    · exact h2 x (by simp [hx])
    · exact ih (fun n hn => h1 n (by simp [hn])) (fun x hx => h2 x (by simp [hx])) x hx
  | foreign _ _ ih => exact fun h1 h2 => ih (fun n hn => h1 n (by simp [hn])) fun x hx => h2 x (by simp [hx])
  | seen _ _ ih => exact fun h1 h2 => ih (fun n hn => h1 n (by simp [hn])) fun x hx => h2 x (by simp [hx])
  | @enter n is body v o1 v1 o2 v2 hv hb hp1 hp2 ih1 ih2 =>
    intro h1 h2 x hx
    rcases List.mem_append.1 hx with hx | hx
    · rcases h1 n (by simp) with ⟨u, hu, rfl | rfl⟩ | hno
      · rw [content_hpp hw hu] at hb
        cases hb
        refine ih1 ?_ ?_ x hx
        · intro m hm
          unfold hppFile at hm
          rcases List.mem_append.1 hm with hm | hm
          · obtain ⟨k, hk, e⟩ := List.mem_map.1 hm
            cases e
            obtain ⟨⟨s, hs, t, ht, hmod⟩, _⟩ := mem_includes.1 hk
            cases hcm : content (files true us) m with
            | none => exact Or.inr rfl
            | some b =>
              left
              obtain ⟨w, hwu, h | h | h | h⟩ := mem_files.1 (content_mem hcm)
              · exact ⟨w, hwu, Or.inr h.1⟩
              · exact ⟨w, hwu, Or.inl h.1⟩
              · obtain ⟨hwi, rfl, _⟩ := h
                exact absurd hmod (hw.fwdFree u hu s hs t ht w hwu hwi).1
              · obtain ⟨hwi, hse, rfl, _⟩ := h
                exact absurd hmod ((hw.fwdFree u hu s hs t ht w hwu hwi).2 hse)
          · rw [hc u hu] at hm
            simp only [Bool.false_or, Bool.not_true, Bool.false_eq_true, if_false, List.mem_cons, Item.incl.injEq, reduceCtorEq,
              List.not_mem_nil, or_false] at hm
            exact Or.inl ⟨u, hu, Or.inr hm⟩
        · intro y hy
          unfold hppFile at hy
          rw [hc u hu] at hy
          rcases List.mem_append.1 hy with hy | hy
          · obtain ⟨_, _, e⟩ := List.mem_map.1 hy
            cases e
          · simp at hy
      · rw [content_ch hw hu] at hb
        cases hb
        refine ih1 ?_ ?_ x hx
        · intro m hm
          unfold chFile at hm
          split at hm <;> simp at hm
        · intro y hy
          unfold chFile at hy
          split at hy <;> simp at hy
      · rw [hno] at hb; cases hb
    · exact ih2 (fun n hn => h1 n (by simp [hn])) (fun x hx => h2 x (by simp [hx])) x hx

/-- The includes of the headers seen so far were seen too (headers with implementations aside). -/
def Closed (us : List Entity) (v : List Text) (pre : List Item) : Prop :=
  ∀ u ∈ us, hppName u.name ∈ v → .cls u.name ∈ pre ∧ ∀ n ∈ includesOf u, content (files true us) n ≠ none → n ∈ v

theorem Closed.step {us : List Entity} (hw : WellFormed true us) {is : List Item} {v out v' : _} {pre : List Item}
    (h : Pre (files true us) is v out v') (hc : Closed us v pre) : Closed us v' (pre ++ out) := by
  intro u hu hin
  by_cases hv : hppName u.name ∈ v
  · obtain ⟨h1, h2⟩ := hc u hu hv
    exact ⟨List.mem_append_left _ h1, fun n hn hf => h.mono _ (h2 n hn hf)⟩
  · obtain ⟨b, h1, h2, h3⟩ := h.done _ hin hv
    rw [content_hpp hw hu] at h1
    cases h1
    refine ⟨List.mem_append_right _ (h2 _ (by unfold hppFile; split <;> simp) rfl), fun n hn hf => h3 n ?_ hf⟩
    unfold hppFile
    exact List.mem_append_left _ (List.mem_map.2 ⟨n, hn, rfl⟩)

/-- Once all classes are declared and all opaque types defined, any further headers can be included. -/
theorem circular_rest {us : List Entity} (hw : WellFormed true us) (hif : ∀ u ∈ us, u.iface = false) :
    ∀ (src : List Item) (v : List Text) (out : List Item) (v' : List Text) (pre : List Item), Source true us src →
      Pre (files true us) src v out v' → Closed us v pre → (∀ u ∈ us, ∀ y ∈ u.cppNames, .decl y ∈ pre) →
      (∀ u ∈ us, ∀ y ∈ u.cNames, .typedef y ∈ pre) → ∀ p i q, out = p ++ i :: q → Fine us (pre ++ p) i := by
  intro src
  induction src with
  | nil =>
    intro v out v' pre _ h _ _ _ p i q he
    cases h
    simp at he
  | cons j src ih =>
    intro v out v' pre hs h hcl hd ho p i q he
    have hs' : Source true us src := fun k hk => hs k (by simp [hk])
    obtain ⟨o1, v1, o2, h1, h2, rfl⟩ := Pre.split (a := [j]) (b := src) h
    have hcl1 := hcl.step hw h1
    rcases append_eq_split he with ⟨a2, he1, _⟩ | ⟨p2, rfl, he2⟩
    · have hplain : (∀ x, i ≠ .impl x) → Fine us (pre ++ p) i := fun hi =>
        (fine_of_declared hd ho hi).mono fun k hk => List.mem_append_left _ hk
      obtain ⟨u, hu, rfl | ⟨_, rfl⟩ | ⟨_, _, rfl⟩⟩ := hs j (by simp)
      · refine hplain ?_
        rintro x rfl
        refine no_impl hw hif h1 ?_ (by simp) x (by rw [he1]; simp)
        intro n hn
        simp only [List.mem_singleton, Item.incl.injEq] at hn
        exact Or.inl ⟨u, hu, Or.inl hn⟩
      · refine hplain ?_
        rintro x rfl
        have hcf : content (files true us) (fwdName u.name) = some [.decl u.name] :=
          content_of_mem hw.noClash (mem_files.2 ⟨u, hu, Or.inr (Or.inr (Or.inl ⟨hif u hu, rfl, rfl⟩))⟩)
        obtain ⟨_, h | ⟨n, b, _, hn, hb, hx⟩⟩ := h1.origin (.impl x) (by rw [he1]; simp)
        · simp at h
        · cases h1 with
          | foreign h _ => rw [hcf] at h; cases h
          | seen _ h => cases h; simp at he1
          | keep hk _ => cases hk
          | enter _ hb2 hbody hnil =>
            rw [hcf] at hb2
            cases hb2
            cases hnil
            obtain ⟨rfl, _⟩ := hbody.plain (by simp [Item.isInclude])
            have : Item.impl x ∈ [Item.decl u.name] ++ [] := by rw [he1]; simp
            simp at this
      · have hci : content (files true us) (implName u.name) = some [.incl (hppName u.name), .impl u.name] :=
          content_of_mem hw.noClash (mem_files.2 ⟨u, hu, Or.inr (Or.inr (Or.inr ⟨hif u hu, rfl, rfl, rfl⟩))⟩)
        cases h1 with
        | foreign h _ => rw [hci] at h; cases h
        | seen _ h => cases h; simp at he1
        | keep hk _ => cases hk
        | @enter _ _ _ _ o3 v3 _ _ hnv hb2 hbody hnil =>
          rw [hci] at hb2
          cases hb2
          cases hnil
          rw [List.append_nil] at he1
          obtain ⟨o4, v4, o5, h4, h5, rfl⟩ := Pre.split (a := [.incl (hppName u.name)]) (b := [.impl u.name]) hbody
          obtain ⟨rfl, rfl⟩ := h5.plain (by simp [Item.isInclude])
          have hcl0 : Closed us (implName u.name :: v) pre := by
            intro w hwu hin
            rcases List.mem_cons.1 hin with hin | hin
            · exfalso
              have := content_hpp hw hwu
              rw [hin, hci] at this
              simp only [Option.some.injEq] at this
              have hm : Item.cls w.name ∈ [Item.incl (hppName u.name), Item.impl u.name] := by
                rw [this]; unfold hppFile; split <;> simp
              simp at hm
            · obtain ⟨e1, e2⟩ := hcl w hwu hin
              exact ⟨e1, fun n hn hf => List.mem_cons_of_mem _ (e2 n hn hf)⟩
          have hcl4 := hcl0.step hw h4
          rcases append_eq_split he1 with ⟨a3, he3, _⟩ | ⟨p3, rfl, he3⟩
          · refine hplain ?_
            rintro x rfl
            refine no_impl hw hif h4 ?_ (by simp) x (by rw [he3]; simp)
            intro n hn
            simp only [List.mem_singleton, Item.incl.injEq] at hn
            exact Or.inl ⟨u, hu, Or.inl hn⟩
          · cases p3 with
            | cons a p3 => simp at he3
            | nil =>
              simp only [List.nil_append, List.cons.injEq] at he3
              obtain ⟨rfl, _⟩ := he3
              rw [List.append_nil]
              intro w hwu hn y hy
              have := entity_eq hw hwu hu hn
              subst this
              have hin : hppName w.name ∈ v1 := h4.included _ (by simp) (by rw [content_hpp hw hwu]; simp)
              obtain ⟨e1, e2⟩ := hcl4 w hwu hin
              rcases includes_cpp hw hwu hy with h | h
              · rw [h.1]; exact e1
              · obtain ⟨z, hz, rfl⟩ := hw.declared w hwu y hy
                exact (hcl4 z hz (e2 _ h (by rw [content_hpp hw hz]; simp))).1
    · have := ih v1 o2 v' (pre ++ o1) hs' h2 hcl1 (fun u hu y hy => List.mem_append_left _ (hd u hu y hy))
        (fun u hu y hy => List.mem_append_left _ (ho u hu y hy)) p2 i q he2
      simpa using this

/-- A list of classes in which every class comes after those its C functions mention. -/
def InOrder (us order : List Entity) : Prop := (∀ u, u ∈ order ↔ u ∈ us) ∧
  ∀ a u b, order = a ++ u :: b → ∀ y ∈ u.cNames, y = u.name ∨ ∃ w ∈ a, w.name = y

theorem c_phase {us : List Entity} (hw : WellFormed true us) (order : List Entity) (hord : InOrder us order) :
    ∀ (rest done : List Entity), order = done ++ rest → ∀ (v : List Text) (out : List Item) (v' : List Text) (pre : List Item),
      (∀ w ∈ us, chName w.name ∈ v → w ∈ done) →
      (∀ w ∈ done, w.iface = false → w.staticOnly = false → .typedef w.name ∈ pre) →
      Pre (files true us) (rest.map fun u => .incl (chName u.name)) v out v' →
      (∀ p i q, out = p ++ i :: q → Fine us (pre ++ p) i) ∧
        ∀ w ∈ order, w.iface = false → w.staticOnly = false → .typedef w.name ∈ pre ++ out := by
  intro rest
  induction rest with
  | nil =>
    intro done ho v out v' pre _ ht h
    cases h
    rw [List.append_nil] at ho
    subst ho
    exact ⟨fun p i q he => absurd he (by simp), fun w hw' h1 h2 => by simpa using ht w hw' h1 h2⟩
  | cons u rest ih =>
    intro done ho v out v' pre hdone ht h
    have huo : u ∈ order := by rw [ho]; simp
    have hu : u ∈ us := (hord.1 u).1 huo
    have hcon := content_ch hw hu
    have ho' : order = (done ++ [u]) ++ rest := by rw [ho]; simp
    rw [List.map_cons] at h
    cases h with
    | foreign h _ => rw [hcon] at h; cases h
    | keep hk _ => cases hk
    | seen hv h =>
      have hud := hdone u hu hv
      refine ih (done ++ [u]) ho' v out v' pre ?_ ?_ h
      · intro w hwu hin; exact List.mem_append_left _ (hdone w hwu hin)
      · intro w hw' h1 h2
        rcases List.mem_append.1 hw' with hw' | hw'
        · exact ht w hw' h1 h2
        · rw [List.mem_singleton] at hw'; subst hw'; exact ht w hud h1 h2
    | @enter _ _ body _ o1 v1 o2 _ hv hb h1 h2 =>
      rw [hcon] at hb
      cases hb
      have hpl : ∀ i ∈ chFile u, i.isInclude = false := by
        intro i hi
        unfold chFile at hi
        split at hi <;> simp at hi
        · subst hi; rfl
        · rcases hi with rfl | rfl <;> rfl
      obtain ⟨rfl, rfl⟩ := h1.plain hpl
      have hfine : ∀ b1 i b2, chFile u = b1 ++ i :: b2 → Fine us (pre ++ b1) i := by
        refine ch_fine (fun w hw' hn => entity_eq hw hw' hu hn) pre ?_
        intro y hy
        obtain ⟨z, hz, hzn, hzi, hzs⟩ := hw.opaqueDeclared u hu y hy
        rcases hord.2 done u rest ho y hy with rfl | ⟨w, hwd, rfl⟩
        · have := entity_eq hw hz hu hzn
          subst this
          exact Or.inl ⟨rfl, hzi, hzs⟩
        · have hwu : w ∈ us := (hord.1 w).1 (by rw [ho]; simp [hwd])
          have := entity_eq hw hz hwu hzn
          subst this
          exact Or.inr (ht z hwd hzi hzs)
      have hrest := ih (done ++ [u]) ho' (chName u.name :: v) o2 v' (pre ++ chFile u) ?_ ?_ h2
      · refine ⟨?_, fun w hw' a b => by simpa using hrest.2 w hw' a b⟩
        intro p i q he
        rcases append_eq_split he with ⟨a2, he1, _⟩ | ⟨p2, rfl, he2⟩
        · exact hfine p i a2 he1
        · simpa using hrest.1 p2 i q he2
      · intro w hwu hin
        rcases List.mem_cons.1 hin with hin | hin
        · have := entity_eq hw hwu hu (chName_inj hin)
          subst this
          simp
        · exact List.mem_append_left _ (hdone w hwu hin)
      · intro w hw' hwi hws
        rcases List.mem_append.1 hw' with hw' | hw'
        · exact List.mem_append_left _ (ht w hw' hwi hws)
        · rw [List.mem_singleton] at hw'; subst hw'
          refine List.mem_append_right _ ?_
          unfold chFile
          simp [hwi, hws]

theorem fwd_phase {us : List Entity} (hw : WellFormed true us) (hif : ∀ u ∈ us, u.iface = false) : ∀ (l : List Entity), (∀ u ∈ l, u ∈ us) →
    ∀ (v : List Text) (out : List Item) (v' : List Text), Pre (files true us) (l.map fun u => .incl (fwdName u.name)) v out v' →
      (∀ i ∈ out, ∃ x, i = .decl x) ∧ ∀ n ∈ v', n ∈ v ∨ ∃ u ∈ us, n = fwdName u.name := by
  intro l
  induction l with
  | nil =>
    intro _ v out v' h
    cases h
    exact ⟨(fun i hi => absurd hi (by simp)), fun n hn => Or.inl hn⟩
  | cons u l ih =>
    intro hl v out v' h
    have hu := hl u (by simp)
    have hcf : content (files true us) (fwdName u.name) = some [.decl u.name] :=
      content_of_mem hw.noClash (mem_files.2 ⟨u, hu, Or.inr (Or.inr (Or.inl ⟨hif u hu, rfl, rfl⟩))⟩)
    rw [List.map_cons] at h
    cases h with
    | foreign h _ => rw [hcf] at h; cases h
    | keep hk _ => cases hk
    | seen _ h => exact ih (fun w hw' => hl w (by simp [hw'])) v out v' h
    | enter hv hb h1 h2 =>
      rw [hcf] at hb
      cases hb
      obtain ⟨rfl, rfl⟩ := h1.plain (by simp [Item.isInclude])
      obtain ⟨e1, e2⟩ := ih (fun w hw' => hl w (by simp [hw'])) _ _ v' h2
      refine ⟨?_, ?_⟩
      · intro i hi
        rcases List.mem_append.1 hi with hi | hi
        · rw [List.mem_singleton] at hi; exact ⟨_, hi⟩
        · exact e1 i hi
      · intro n hn
        rcases e2 n hn with h | h
        · rcases List.mem_cons.1 h with rfl | h
          · exact Or.inr ⟨u, hu, rfl⟩
          · exact Or.inl h
        · exact Or.inr h

/-- **C83**: with separate headers for implementations, classes may mention each other in circles: a program that first includes the
`_fwd.hpp` headers of all classes and then the C headers in an order in which each comes after those it mentions can include all other
headers in any order, and every line finds what it needs before it. -/
theorem C83_circular {us : List Entity} (hw : WellFormed true us) (hif : ∀ u ∈ us, u.iface = false) (order : List Entity)
    (hord : InOrder us order) {src out : List Item} {v : List Text} (hs : Source true us src)
    (h : Pre (files true us) (us.map (fun u => .incl (fwdName u.name)) ++ order.map (fun u => .incl (chName u.name)) ++ src) [] out v) :
    AllFine us out := by
  obtain ⟨o12, v2, o3, h12, h3, rfl⟩ := Pre.split h
  obtain ⟨o1, v1, o2, h1, h2, rfl⟩ := Pre.split h12
  obtain ⟨d1, d2⟩ := fwd_phase hw hif us (fun _ h => h) _ _ _ h1
  have hdecl : ∀ u ∈ us, .decl u.name ∈ o1 := by
    intro u hu
    have hcf : content (files true us) (fwdName u.name) = some [.decl u.name] :=
      content_of_mem hw.noClash (mem_files.2 ⟨u, hu, Or.inr (Or.inr (Or.inl ⟨hif u hu, rfl, rfl⟩))⟩)
    have hin := h1.included (fwdName u.name) (List.mem_map.2 ⟨u, hu, rfl⟩) (by rw [hcf]; simp)
    obtain ⟨b, e1, e2, _⟩ := h1.done _ hin (by simp)
    rw [hcf] at e1
    cases e1
    exact e2 _ (by simp) rfl
  have hc2 := c_phase hw order hord order [] rfl v1 o2 v2 o1 (by
    intro w hwu hin
    exfalso
    rcases d2 _ hin with h | ⟨u, hu, h⟩
    · cases h
    · have hcf : content (files true us) (fwdName u.name) = some [.decl u.name] :=
        content_of_mem hw.noClash (mem_files.2 ⟨u, hu, Or.inr (Or.inr (Or.inl ⟨hif u hu, rfl, rfl⟩))⟩)
      rw [← h, content_ch hw hwu] at hcf
      simp only [Option.some.injEq] at hcf
      unfold chFile at hcf
      split at hcf <;> simp at hcf) (by simp) h2
  have hd : ∀ u ∈ us, ∀ y ∈ u.cppNames, .decl y ∈ o1 ++ o2 := by
    intro u hu y hy
    obtain ⟨w, hw', rfl⟩ := hw.declared u hu y hy
    exact List.mem_append_left _ (hdecl w hw')
  have ho : ∀ u ∈ us, ∀ y ∈ u.cNames, .typedef y ∈ o1 ++ o2 := by
    intro u hu y hy
    obtain ⟨w, hw', rfl, h1, h2⟩ := hw.opaqueDeclared u hu y hy
    exact hc2.2 w ((hord.1 w).2 hw') h1 h2
  have hcl : Closed us v2 (o1 ++ o2) := by
    have h0 : Closed us [] [] := fun u _ h => by cases h
    have := (h0.step hw h1).step hw h2
    simpa using this
  intro p i q he
  rcases append_eq_split he with ⟨a2, he1, _⟩ | ⟨p2, rfl, he2⟩
  · rcases append_eq_split he1 with ⟨a3, he3, _⟩ | ⟨p3, rfl, he3⟩
    · obtain ⟨x, rfl⟩ := d1 i (by rw [he3]; simp)
      trivial
    · exact hc2.1 p3 i a2 he3
  · exact circular_rest hw hif src v2 o3 v _ hs h3 hcl hd ho p2 i q he2

/-! ### What does not work -/

/-- Every `A y` is directly followed by `B y`. -/
def Adjacent (A B : Text → Item) (l : List Item) : Prop := ∀ p q y, l = p ++ A y :: q → ∃ q', q = B y :: q'

theorem Pre.head {fs : List (Text × List Item)} {l : List Item} {v out v' : _} (h : Pre fs l v out v') :
    ∀ i is, l = i :: is → i.isInclude = false → ∃ o, out = i :: o := by
  cases h with
  | nil => intro i is h; cases h
  | keep hi h =>
    intro i is he _
    simp only [List.cons.injEq] at he
    exact ⟨_, by rw [he.1]⟩
  | foreign _ _ => intro i is he hi; simp only [List.cons.injEq] at he; rw [← he.1] at hi; cases hi
  | seen _ _ => intro i is he hi; simp only [List.cons.injEq] at he; rw [← he.1] at hi; cases hi
  | enter _ _ _ _ => intro i is he hi; simp only [List.cons.injEq] at he; rw [← he.1] at hi; cases hi

theorem Pre.adjacent {fs : List (Text × List Item)} {A B : Text → Item} (hA : ∀ y, (A y).isInclude = false)
    (hB : ∀ y, (B y).isInclude = false) (hfs : ∀ n b, content fs n = some b → Adjacent A B b) {is : List Item} {v out v' : _}
    (h : Pre fs is v out v') : Adjacent A B is → Adjacent A B out := by
  induction h with
  | nil => intro _ p q y h; exact absurd h (by simp)
  | @keep i is v out v' hi hp ih =>
    intro hs p q y he
    have hs' : Adjacent A B is := fun p q y h => hs (i :: p) q y (by rw [h]; rfl)
    cases p with
    | nil =>
      simp only [List.nil_append, List.cons.injEq] at he
      obtain ⟨rfl, rfl⟩ := he
      obtain ⟨q', rfl⟩ := hs [] is y rfl
      exact hp.head _ _ rfl (hB y)
    | cons a p =>
      simp only [List.cons_append, List.cons.injEq] at he
      exact ih hs' p q y he.2
  | foreign _ _ ih => exact fun hs => ih fun p q y h => hs (_ :: p) q y (by rw [h]; rfl)
  | seen _ _ ih => exact fun hs => ih fun p q y h => hs (_ :: p) q y (by rw [h]; rfl)
  | @enter n is body v o1 v1 o2 v2 hv hb hp1 hp2 ih1 ih2 =>
    intro hs p q y he
    have e1 := ih1 (hfs n body hb)
    have e2 := ih2 fun p q y h => hs (.incl n :: p) q y (by rw [h]; rfl)
    rcases append_eq_split he with ⟨a2, h1, rfl⟩ | ⟨p2, rfl, h2⟩
    · obtain ⟨q', rfl⟩ := e1 p a2 y h1
      exact ⟨_, rfl⟩
    · exact e2 p2 q y h2

/-- Nothing is before itself. -/
theorem no_circle {A B : Text → Item} {M : Text → Text → Prop} {out : List Item} (hinj : ∀ x y, B x = B y → x = y) (hadj : Adjacent A B out)
    (hM : ∀ x y p q, M x y → out = p ++ B x :: q → A y ∈ p) (hne : ∀ x y, M x y → x ≠ y) {x : Text} (hx : B x ∈ out) :
    ¬ Relation.TransGen M x x := by
  have step : ∀ x y, B x ∈ out → M x y → B y ∈ out ∧ out.idxOf (B y) < out.idxOf (B x) := by
    intro x y hx hm
    obtain ⟨p, q, he, hnp⟩ := List.eq_append_cons_of_mem hx
    have hA := hM x y p q hm he
    obtain ⟨p1, p2, hp, _⟩ := List.eq_append_cons_of_mem hA
    obtain ⟨q', hq⟩ := hadj p1 (p2 ++ B x :: q) y (by rw [he, hp]; simp)
    have hin : B y ∈ p := by
      cases p2 with
      | nil =>
        simp only [List.nil_append, List.cons.injEq] at hq
        exact absurd (hinj x y hq.1) (hne x y hm)
      | cons b p2 =>
        simp only [List.cons_append, List.cons.injEq] at hq
        rw [hp, hq.1]
        simp
    refine ⟨by rw [he]; simp [hin], ?_⟩
    have e1 : out.idxOf (B x) = p.length := by
      rw [he, List.idxOf_append, if_neg hnp, List.idxOf_cons_self]
      simp
    have e2 : out.idxOf (B y) = p.idxOf (B y) := by rw [he, List.idxOf_append, if_pos hin]
    rw [e1, e2]
    exact List.idxOf_lt_length_of_mem hin
  have trans : ∀ x y, B x ∈ out → Relation.TransGen M x y → B y ∈ out ∧ out.idxOf (B y) < out.idxOf (B x) := by
    intro x y hx ht
    induction ht with
    | single h => exact step _ _ hx h
    | tail _ h ih =>
      obtain ⟨h1, h2⟩ := ih
      obtain ⟨h3, h4⟩ := step _ _ h1 h
      exact ⟨h3, Nat.lt_trans h4 h2⟩
  intro ht
  exact Nat.lt_irrefl _ (trans x x hx ht).2

/-- `x` mentions `y` by the given names. -/
def Mentions (names : Entity → List Text) (us : List Entity) (x y : Text) : Prop := (∃ u ∈ us, u.name = x ∧ y ∈ names u) ∧ x ≠ y

/-- **C83**, what does not work: classes whose functions take or return each other in a circle.  However a program includes the headers,
and with separate implementations or not, some C function stands before an opaque type it mentions. -/
theorem C83_finding_c_circle {sep : Bool} {us : List Entity} (hw : WellFormed sep us) {src out : List Item} {v : List Text}
    (hs : ∀ i ∈ src, i.isInclude = true) (h : Pre (files sep us) src [] out v) {x : Text}
    (hx : Relation.TransGen (Mentions Entity.cNames us) x x) (hin : .cfuns x ∈ out) : ¬ AllFine us out := by
  intro hf
  have hno : Adjacent Item.typedef Item.cfuns src := by
    intro p q y he
    exact absurd (hs (.typedef y) (by rw [he]; simp)) (by simp [Item.isInclude])
  have hadj : Adjacent Item.typedef Item.cfuns out := by
    refine h.adjacent (fun _ => rfl) (fun _ => rfl) ?_ hno
    intro n b hb p q y he
    obtain ⟨u, hu, ⟨_, rfl⟩ | ⟨_, rfl⟩ | ⟨_, _, rfl⟩ | ⟨_, _, _, rfl⟩⟩ := mem_files.1 (content_mem hb)
    · unfold chFile at he
      split at he
      · cases p with
        | nil => simp at he
        | cons a p => simp at he
      · cases p with
        | nil =>
          simp only [List.cons_append, List.nil_append, List.cons.injEq, Item.typedef.injEq] at he
          exact ⟨[], by rw [← he.2, he.1]⟩
        | cons a p =>
          cases p with
          | nil => simp at he
          | cons b p => simp at he
    · exfalso
      have : Item.typedef y ∈ hppFile sep u := by rw [he]; simp
      unfold hppFile at this
      split at this <;> simp at this
    · exfalso
      have : Item.typedef y ∈ [Item.decl u.name] := by rw [he]; simp
      simp at this
    · exfalso
      have : Item.typedef y ∈ [Item.incl (hppName u.name), Item.impl u.name] := by rw [he]; simp
      simp at this
  refine no_circle (A := Item.typedef) (B := Item.cfuns) (M := Mentions Entity.cNames us) (fun a b h => by simpa using h) hadj ?_
    (fun a b h => h.2) hin hx
  rintro a b p q ⟨⟨u, hu, rfl, hb⟩, _⟩ he
  exact hf p _ q he u hu rfl b hb

/-- **C83**, what does not work: without separate implementations, classes whose members mention each other in a circle (also inside a
container).  Some member function stands before a class it uses. -/
theorem C83_finding_inline_circle {us : List Entity} {src out : List Item} {v : List Text} (hw : WellFormed false us)
    (hs : ∀ i ∈ src, i.isInclude = true) (h : Pre (files false us) src [] out v) {x : Text}
    (hx : Relation.TransGen (Mentions Entity.cppNames us) x x) (hin : .impl x ∈ out) : ¬ AllFine us out := by
  intro hf
  have hno : Adjacent Item.cls Item.impl src := by
    intro p q y he
    exact absurd (hs (.cls y) (by rw [he]; simp)) (by simp [Item.isInclude])
  have hadj : Adjacent Item.cls Item.impl out := by
    refine h.adjacent (fun _ => rfl) (fun _ => rfl) ?_ hno
    intro n b hb p q y he
    obtain ⟨u, hu, ⟨_, rfl⟩ | ⟨_, rfl⟩ | ⟨_, _, rfl⟩ | ⟨_, hc, _, rfl⟩⟩ := mem_files.1 (content_mem hb)
    · exfalso
      have : Item.cls y ∈ chFile u := by rw [he]; simp
      unfold chFile at this
      split at this <;> simp at this
    · unfold hppFile at he
      rcases map_incl_split he with ⟨_, _, _, _, _, h⟩ | ⟨p2, rfl, he'⟩
      · cases h
      · simp only [Bool.not_false, Bool.or_true, if_true] at he'
        cases p2 with
        | nil => simp at he'
        | cons a p2 =>
          simp only [List.cons_append, List.cons.injEq] at he'
          obtain ⟨_, he'⟩ := he'
          cases p2 with
          | nil =>
            simp only [List.nil_append, List.cons.injEq, Item.cls.injEq] at he'
            exact ⟨[], by rw [← he'.2, he'.1]⟩
          | cons b p2 =>
            cases p2 with
            | nil => simp at he'
            | cons c p2 => simp at he'
    · exfalso
      have : Item.cls y ∈ [Item.decl u.name] := by rw [he]; simp
      simp at this
    · cases hc
  refine no_circle (A := Item.cls) (B := Item.impl) (M := Mentions Entity.cppNames us) (fun a b h => by simpa using h) hadj ?_
    (fun a b h => h.2) hin hx
  rintro a b p q ⟨⟨u, hu, rfl, hb⟩, _⟩ he
  exact hf p _ q he u hu rfl b hb

/-- **C83**, what does not work: a class with a method that takes a callback interface whose methods take the class, with separate
implementations or not: interfaces have no `_fwd.hpp`, and their member functions are always in the class body. -/
theorem C83_finding_callback_circle {sep : Bool} {us : List Entity} (hw : WellFormed sep us) {src out : List Item} {v : List Text}
    (hs : ∀ i ∈ src, i.isInclude = true) (h : Pre (files sep us) src [] out v) {i c : Entity} (hi : i ∈ us) (hc : c ∈ us)
    (hif : i.iface = true) (hcf : c.iface = false) (h1 : i.name ∈ c.cppNames) (h2 : c.name ∈ i.cppNames) (hin : .cls c.name ∈ out) :
    ¬ AllFine us out := by
  intro hf
  have hne : i.name ≠ c.name := by
    intro h
    have := entity_eq hw hi hc h
    subst this
    rw [hif] at hcf
    cases hcf
  obtain ⟨p, q, he, hnp⟩ := List.eq_append_cons_of_mem hin
  have hnodecl : .decl i.name ∉ out := by
    intro hm
    obtain ⟨_, h | ⟨n, b, _, _, hb, hib⟩⟩ := h.origin _ hm
    · have := hs _ h; cases this
    · obtain ⟨u, hu, ⟨_, rfl⟩ | ⟨_, rfl⟩ | ⟨huf, _, rfl⟩ | ⟨_, _, _, rfl⟩⟩ := mem_files.1 (content_mem hb)
      · unfold chFile at hib
        split at hib <;> simp at hib
      · unfold hppFile at hib
        split at hib <;> simp at hib
      · simp only [List.mem_singleton, Item.decl.injEq] at hib
        have := entity_eq hw hi hu hib
        subst this
        rw [hif] at huf
        cases huf
      · simp at hib
  have hcls : .cls i.name ∈ p := by
    rcases hf p _ q he c hc rfl _ h1 with h | h | h
    · exact absurd h hne
    · exact absurd (by rw [he]; simp [h]) hnodecl
    · exact h
  -- the interface's member functions are in the output before the class
  have hadj : ∀ a b, out = a ++ .cls i.name :: b → ∃ b', b = .impl i.name :: b' := by
    intro a b hab
    have key : Adjacent (fun _ => Item.cls i.name) (fun _ => Item.impl i.name) out := by
      refine h.adjacent (fun _ => rfl) (fun _ => rfl) ?_ ?_
      · intro n b hb p q _ he
        obtain ⟨u, hu, ⟨_, rfl⟩ | ⟨_, rfl⟩ | ⟨_, _, rfl⟩ | ⟨_, _, _, rfl⟩⟩ := mem_files.1 (content_mem hb)
        · exfalso
          have : Item.cls i.name ∈ chFile u := by rw [he]; simp
          unfold chFile at this
          split at this <;> simp at this
        · have hmem : Item.cls i.name ∈ hppFile sep u := by rw [he]; simp
          have hun : i.name = u.name := by
            unfold hppFile at hmem
            split at hmem <;> simpa using hmem
          have := entity_eq hw hi hu hun
          subst this
          unfold hppFile at he
          rcases map_incl_split he with ⟨_, _, _, _, _, h⟩ | ⟨p2, rfl, he'⟩
          · cases h
          · rw [hif] at he'
            simp only [Bool.true_or, if_true] at he'
            cases p2 with
            | nil => simp at he'
            | cons a p2 =>
              simp only [List.cons_append, List.cons.injEq] at he'
              obtain ⟨_, he'⟩ := he'
              cases p2 with
              | nil =>
                simp only [List.nil_append, List.cons.injEq, true_and] at he'
                exact ⟨[], by rw [← he']⟩
              | cons b p2 =>
                cases p2 with
                | nil => simp at he'
                | cons c p2 => simp at he'
        · exfalso
          have : Item.cls i.name ∈ [Item.decl u.name] := by rw [he]; simp
          simp at this
        · exfalso
          have : Item.cls i.name ∈ [Item.incl (hppName u.name), Item.impl u.name] := by rw [he]; simp
          simp at this
      · intro p q _ he
        exact absurd (hs (.cls i.name) (by rw [he]; simp)) (by simp [Item.isInclude])
    exact key a b [] hab
  obtain ⟨a, b, hp, _⟩ := List.eq_append_cons_of_mem hcls
  obtain ⟨b', hb'⟩ := hadj a (b ++ .cls c.name :: q) (by rw [he, hp]; simp)
  cases b with
  | nil => simp at hb'
  | cons x b =>
    simp only [List.cons_append, List.cons.injEq] at hb'
    obtain ⟨rfl, _⟩ := hb'
    have hneed := hf (a ++ [.cls i.name]) (.impl i.name) (b ++ .cls c.name :: q) (by rw [he, hp]; simp) i hi rfl _ h2
    have : Item.cls c.name ∈ p := by
      rw [hp]
      rcases List.mem_append.1 hneed with h | h
      · simp [h]
      · rw [List.mem_singleton] at h
        simp only [Item.cls.injEq] at h
        exact absurd h.symm hne
    exact hnp this

/-! ### The types the generator makes -/

/-- Headers that are not generated from a class or interface. -/
def Foreign (sep : Bool) (us : List Entity) (ms : List Text) : Prop := ∀ m ∈ ms, m ∉ (files sep us).map (·.1)

/-- The types of signatures: types without generated classes; a class, by value or reference; a callback; a container of objects of a class,
which is a C struct with untyped pointers. -/
inductive TypeKind (sep : Bool) (us : List Entity) : Ty → Prop where
  | plain {info : TypeInfo} : Foreign sep us info.modules → TypeKind sep us ⟨info, [], []⟩
  | cls {c : Entity} (typename cname : Text) (code : Flapi.Template.TypeConvCode) : c ∈ us → c.iface = false → c.staticOnly = false →
      TypeKind sep us (classTy c.name typename cname code)
  | callback {i : Entity} (typename cname : Text) (code : Flapi.Template.TypeConvCode) : i ∈ us → i.iface = true →
      Foreign sep us ["<memory>".toList, "<utility>".toList] → TypeKind sep us (ifaceTy i.name typename cname code)
  | container {c : Entity} {info : TypeInfo} {ms1 ms2 : List Text} : c ∈ us → c.iface = false → info.modules = ms1 ++ hppName c.name :: ms2 →
      Foreign sep us ms1 → Foreign sep us ms2 → TypeKind sep us ⟨info, [c.name], []⟩

theorem First.of_not_mem {x y : Text} {l : List Text} (h : x ∉ l) : First y x l := by
  intro p q he
  exact absurd (by rw [he]; simp) h

theorem First.cons {x y z : Text} {l : List Text} (hne : z ≠ x) (h : z = y ∨ First y x l) : First y x (z :: l) := by
  intro p q he
  cases p with
  | nil => simp only [List.nil_append, List.cons.injEq] at he; exact absurd he.1 hne
  | cons a p =>
    simp only [List.cons_append, List.cons.injEq] at he
    obtain ⟨rfl, he⟩ := he
    rcases h with rfl | h
    · simp
    · exact List.mem_cons_of_mem _ (h p q he)

/-- **C83**: declarations whose header names do not clash and whose types are of these kinds are well-formed. -/
theorem C83_well_formed {sep : Bool} {us : List Entity} (hn : (us.map (·.name)).Nodup) (hnc : ((files sep us).map (·.1)).Nodup)
    (hk : ∀ u ∈ us, ∀ s ∈ u.sigs, ∀ t ∈ s.types, TypeKind sep us t) : WellFormed sep us := by
  have mem_ch : ∀ u ∈ us, chName u.name ∈ (files sep us).map (·.1) := fun u hu =>
    List.mem_map.2 ⟨_, mem_files.2 ⟨u, hu, Or.inl ⟨rfl, rfl⟩⟩, rfl⟩
  have mem_hpp : ∀ u ∈ us, hppName u.name ∈ (files sep us).map (·.1) := fun u hu =>
    List.mem_map.2 ⟨_, mem_files.2 ⟨u, hu, Or.inr (Or.inl ⟨rfl, rfl⟩)⟩, rfl⟩
  have hch : ∀ u ∈ us, content (files sep us) (chName u.name) = some (chFile u) := fun u hu =>
    content_of_mem hnc (mem_files.2 ⟨u, hu, Or.inl ⟨rfl, rfl⟩⟩)
  have hhpp : ∀ u ∈ us, content (files sep us) (hppName u.name) = some (hppFile sep u) := fun u hu =>
    content_of_mem hnc (mem_files.2 ⟨u, hu, Or.inr (Or.inl ⟨rfl, rfl⟩)⟩)
  have hne : ∀ u ∈ us, ∀ w ∈ us, hppName w.name ≠ chName u.name := by
    intro u hu w hwu h
    have h1 := hhpp w hwu
    rw [h, hch u hu] at h1
    simp only [Option.some.injEq] at h1
    have : Item.incl (chName w.name) ∈ chFile u := by rw [h1]; unfold hppFile; simp
    unfold chFile at this
    split at this <;> simp at this
  -- the other two headers of a class are none of these
  have hother : ∀ w ∈ us, w.iface = false → ∀ n, (n = fwdName w.name ∨ (sep = true ∧ n = implName w.name)) →
      n ∈ (files sep us).map (·.1) ∧ ∀ u ∈ us, n ≠ hppName u.name ∧ n ≠ chName u.name := by
    intro w hwu hwi n h
    rcases h with rfl | ⟨hs, rfl⟩
    · have hm : (fwdName w.name, [Item.decl w.name]) ∈ files sep us := mem_files.2 ⟨w, hwu, Or.inr (Or.inr (Or.inl ⟨hwi, rfl, rfl⟩))⟩
      refine ⟨List.mem_map.2 ⟨_, hm, rfl⟩, fun u hu => ⟨fun h => ?_, fun h => ?_⟩⟩
      · have := content_of_mem hnc hm
        rw [h, hhpp u hu] at this
        simp only [Option.some.injEq] at this
        have h2 : Item.incl (chName u.name) ∈ [Item.decl w.name] := by rw [← this]; unfold hppFile; simp
        simp at h2
      · have := content_of_mem hnc hm
        rw [h, hch u hu] at this
        simp only [Option.some.injEq] at this
        unfold chFile at this
        split at this <;> simp at this
    · have hm : (implName w.name, [Item.incl (hppName w.name), .impl w.name]) ∈ files sep us :=
        mem_files.2 ⟨w, hwu, Or.inr (Or.inr (Or.inr ⟨hwi, hs, rfl, rfl⟩))⟩
      refine ⟨List.mem_map.2 ⟨_, hm, rfl⟩, fun u hu => ⟨fun h => ?_, fun h => ?_⟩⟩
      · have := content_of_mem hnc hm
        rw [h, hhpp u hu] at this
        simp only [Option.some.injEq] at this
        have h2 : Item.cls u.name ∈ [Item.incl (hppName w.name), .impl w.name] := by rw [← this]; unfold hppFile; split <;> simp
        simp at h2
      · have := content_of_mem hnc hm
        rw [h, hch u hu] at this
        simp only [Option.some.injEq] at this
        unfold chFile at this
        split at this <;> simp at this
  have all : ∀ t, TypeKind sep us t → Honest us t ∧ (∀ w ∈ us, hppName w.name ∈ t.info.modules → w.name ∈ t.cpp) ∧
      (∀ w ∈ us, w.iface = false → fwdName w.name ∉ t.info.modules ∧ (sep = true → implName w.name ∉ t.info.modules)) ∧
      (∀ y ∈ t.cpp, ∃ w ∈ us, w.name = y) ∧ ∀ y ∈ t.c, ∃ w ∈ us, w.name = y ∧ w.iface = false ∧ w.staticOnly = false := by
    intro t ht
    cases ht with
    | @plain info hf =>
      refine ⟨⟨by simp, by simp, fun u hu => First.of_not_mem fun h => hf _ h (mem_ch u hu)⟩, fun w hwu h => absurd (mem_hpp w hwu) (hf _ h),
        fun w hwu hwi => ⟨fun h => hf _ h (hother w hwu hwi _ (Or.inl rfl)).1, fun hs h => hf _ h (hother w hwu hwi _ (Or.inr ⟨hs, rfl⟩)).1⟩,
        by simp, by simp⟩
    | @cls c tn cn code hc hi hs =>
      refine ⟨⟨by simp [classTy], by simp [classTy], ?_⟩, ?_, ?_, ?_, ?_⟩
      · intro u hu
        show First _ _ [hppName c.name, chName c.name]
        refine First.cons (hne u hu c hc) ?_
        by_cases h : c.name = u.name
        · exact Or.inl (by rw [h])
        · exact Or.inr (First.of_not_mem (by simpa using fun hh => h (chName_inj hh).symm))
      · intro w hwu h
        simp only [classTy, List.mem_cons, List.not_mem_nil, or_false] at h ⊢
        rcases h with h | h
        · exact hppName_inj h
        · exact absurd h (hne c hc w hwu)
      · intro w hwu hwi
        simp only [classTy, List.mem_cons, List.not_mem_nil, or_false, not_or]
        exact ⟨(hother w hwu hwi _ (Or.inl rfl)).2 c hc, fun hs => (hother w hwu hwi _ (Or.inr ⟨hs, rfl⟩)).2 c hc⟩
      · intro y hy
        simp only [classTy, List.mem_singleton] at hy
        exact ⟨c, hc, hy.symm⟩
      · intro y hy
        simp only [classTy, List.mem_singleton] at hy
        exact ⟨c, hc, hy.symm, hi, hs⟩
    | @callback i tn cn code hc hi hf =>
      refine ⟨⟨by simp [ifaceTy], by simp [ifaceTy], ?_⟩, ?_, ?_, ?_, ?_⟩
      · intro u hu
        show First _ _ [hppName i.name, "<memory>".toList, "<utility>".toList, chName i.name]
        refine First.cons (hne u hu i hc) ?_
        by_cases h : i.name = u.name
        · exact Or.inl (by rw [h])
        · refine Or.inr (First.of_not_mem ?_)
          intro hm
          rcases List.mem_cons.1 hm with hm | hm
          · exact hf _ (by rw [hm]; simp) (mem_ch u hu)
          · rcases List.mem_cons.1 hm with hm | hm
            · exact hf _ (by rw [hm]; simp) (mem_ch u hu)
            · exact h (chName_inj (List.mem_singleton.1 hm)).symm
      · intro w hwu h
        have h' : hppName w.name ∈ [hppName i.name, "<memory>".toList, "<utility>".toList, chName i.name] := h
        show w.name ∈ [i.name]
        rcases List.mem_cons.1 h' with h' | h'
        · rw [hppName_inj h']; simp
        · rcases List.mem_cons.1 h' with hm | hm
          · exact absurd (mem_hpp w hwu) (hf _ (by rw [hm]; simp))
          · rcases List.mem_cons.1 hm with hm | hm
            · exact absurd (mem_hpp w hwu) (hf _ (by rw [hm]; simp))
            · exact absurd (List.mem_singleton.1 hm) (hne i hc w hwu)
      · intro w hwu hwi
        have key : ∀ n, (n = fwdName w.name ∨ (sep = true ∧ n = implName w.name)) →
            n ∉ [hppName i.name, "<memory>".toList, "<utility>".toList, chName i.name] := by
          intro n hn hm
          obtain ⟨e1, e2⟩ := hother w hwu hwi n hn
          rcases List.mem_cons.1 hm with hm | hm
          · exact (e2 i hc).1 hm
          · rcases List.mem_cons.1 hm with hm | hm
            · exact hf _ (by rw [hm]; simp) e1
            · rcases List.mem_cons.1 hm with hm | hm
              · exact hf _ (by rw [hm]; simp) e1
              · exact (e2 i hc).2 (List.mem_singleton.1 hm)
        exact ⟨key _ (Or.inl rfl), fun hs => key _ (Or.inr ⟨hs, rfl⟩)⟩
      · intro y hy
        simp only [ifaceTy, List.mem_singleton] at hy
        exact ⟨i, hc, hy.symm⟩
      · intro y hy
        simp [ifaceTy] at hy
    | @container c info ms1 ms2 hc hi hm hf1 hf2 =>
      refine ⟨⟨by simp [hm], by simp, ?_⟩, ?_, ?_, ?_, by simp⟩
      · intro u hu
        refine First.of_not_mem ?_
        show chName u.name ∉ info.modules
        rw [hm]
        intro h
        rcases List.mem_append.1 h with h | h
        · exact hf1 _ h (mem_ch u hu)
        · rcases List.mem_cons.1 h with h | h
          · exact hne u hu c hc h.symm
          · exact hf2 _ h (mem_ch u hu)
      · intro w hwu h
        have h : hppName w.name ∈ info.modules := h
        rw [hm] at h
        rcases List.mem_append.1 h with h | h
        · exact absurd (mem_hpp w hwu) (hf1 _ h)
        · rcases List.mem_cons.1 h with h | h
          · rw [hppName_inj h]; simp
          · exact absurd (mem_hpp w hwu) (hf2 _ h)
      · intro w hwu hwi
        have key : ∀ n, (n = fwdName w.name ∨ (sep = true ∧ n = implName w.name)) → n ∉ info.modules := by
          intro n hn h
          obtain ⟨e1, e2⟩ := hother w hwu hwi n hn
          rw [hm] at h
          rcases List.mem_append.1 h with h | h
          · exact hf1 _ h e1
          · rcases List.mem_cons.1 h with h | h
            · exact (e2 c hc).1 h
            · exact hf2 _ h e1
        exact ⟨key _ (Or.inl rfl), fun hs => key _ (Or.inr ⟨hs, rfl⟩)⟩
      · intro y hy
        exact ⟨c, hc, (List.mem_singleton.1 hy).symm⟩
  refine ⟨hn, hnc, ?_, ?_, fun u hu s hs t ht => (all t (hk u hu s hs t ht)).1, fun u hu s hs t ht => (all t (hk u hu s hs t ht)).2.1,
    fun u hu s hs t ht => (all t (hk u hu s hs t ht)).2.2.1⟩
  · intro u hu y hy
    unfold Entity.cppNames at hy
    simp only [List.mem_flatMap] at hy
    obtain ⟨s, hs, t, ht, hy'⟩ := hy
    exact (all t (hk u hu s hs t ht)).2.2.2.1 y hy'
  · intro u hu y hy
    unfold Entity.cNames at hy
    simp only [List.mem_flatMap] at hy
    obtain ⟨s, hs, t, ht, hy'⟩ := hy
    exact (all t (hk u hu s hs t ht)).2.2.2.2 y hy'

/-- **C83**, what does not work: the header of a class `X_fwd`, or of a class `X_impl` with separate implementations, has the name of a
header of the class `X`. -/
theorem C83_finding_names (x : Text) : hppName (x ++ "_fwd".toList) = fwdName x ∧ hppName (x ++ "_impl".toList) = implName x := by
  have e1 : "_fwd.hpp\"".toList = "_fwd".toList ++ ".hpp\"".toList := by decide
  have e2 : "_impl.hpp\"".toList = "_impl".toList ++ ".hpp\"".toList := by decide
  unfold hppName fwdName implName
  rw [e1, e2, List.append_assoc, List.append_assoc]
  exact ⟨rfl, rfl⟩

/-! ### Examples -/

section examples

/-- A converter. -/
def exCode : Flapi.Template.TypeConvCode := ⟨[], []⟩

/-- `int32_t`. -/
def exInt : Ty := ⟨⟨"int32_t".toList, ["<stdint.h>".toList], none, false⟩, [], []⟩

/-- `const X &`. -/
def exRef (x : Text) : Ty := classTy x x x exCode

/-- A container of `X`. -/
def exVec (x : Text) : Ty := ⟨⟨"CRustForeignVec".toList, ["\"rust_foreign_vec_impl.hpp\"".toList, hppName x], some ⟨x, exCode⟩, false⟩, [x], []⟩

/-- A class with one function. -/
def exClass (x : Char) (t : Ty) : Entity := ⟨[x], false, false, [⟨[t], exInt⟩]⟩

/-- An interface with one method. -/
def exIface (x : Char) (t : Ty) : Entity := ⟨[x], true, false, [⟨[t], exInt⟩]⟩

/-- `B` takes `A`, the interface `I` takes `A`, `C` holds `B`s and has a function with the interface. -/
def exGood : List Entity := [exClass 'A' (exVec ['A']), exClass 'B' (exRef ['A']), exIface 'I' (exRef ['A']),
  ⟨['C'], false, false, [⟨[exVec ['B'], ifaceTy ['I'] [] [] exCode], exInt⟩]⟩]

theorem exGood_wf (sep : Bool) : WellFormed sep exGood := by
  have hf : ∀ sep, Foreign sep exGood ["<stdint.h>".toList, "\"rust_foreign_vec_impl.hpp\"".toList, "<memory>".toList, "<utility>".toList] := by
    intro sep m hm
    cases sep <;> revert m <;> decide +kernel
  have hint : TypeKind sep exGood exInt := .plain fun m hm => hf sep m (by
    have : m ∈ ["<stdint.h>".toList] := hm
    rw [List.mem_singleton] at this
    rw [this]; simp)
  have hvec : ∀ c ∈ exGood, c.iface = false → TypeKind sep exGood (exVec c.name) := fun c hc hi =>
    .container (ms1 := ["\"rust_foreign_vec_impl.hpp\"".toList]) (ms2 := []) hc hi rfl
      (fun m hm => hf sep m (by rw [List.mem_singleton] at hm; rw [hm]; simp)) (fun m hm => by cases hm)
  have hA : exClass 'A' (exVec ['A']) ∈ exGood := List.mem_cons_self
  have hB : exClass 'B' (exRef ['A']) ∈ exGood := List.mem_cons_of_mem _ List.mem_cons_self
  have hI : exIface 'I' (exRef ['A']) ∈ exGood := List.mem_cons_of_mem _ (List.mem_cons_of_mem _ List.mem_cons_self)
  refine C83_well_formed (by decide) (by cases sep <;> decide +kernel) ?_
  intro u hu s hs t ht
  have hcases : t = exInt ∨ t = exVec ['A'] ∨ t = exRef ['A'] ∨ t = exVec ['B'] ∨ t = ifaceTy ['I'] [] [] exCode := by
    simp only [exGood, List.mem_cons, List.not_mem_nil, or_false] at hu
    rcases hu with rfl | rfl | rfl | rfl <;> simp only [exClass, exIface, List.mem_singleton] at hs <;> subst hs <;>
      simp only [Sig.types, List.cons_append, List.nil_append, List.mem_cons, List.not_mem_nil, or_false] at ht
    · rcases ht with rfl | rfl <;> simp
    · rcases ht with rfl | rfl <;> simp
    · rcases ht with rfl | rfl <;> simp
    · rcases ht with rfl | rfl | rfl <;> simp
  rcases hcases with rfl | rfl | rfl | rfl | rfl
  · exact hint
  · exact hvec _ hA rfl
  · exact .cls _ _ _ hA rfl rfl
  · exact hvec _ hB rfl
  · exact .callback _ _ _ hI rfl (fun m hm => hf sep m (by
      simp only [List.mem_cons, List.not_mem_nil, or_false] at hm
      rcases hm with rfl | rfl <;> simp))

/-- The ranks of the example. -/
def exRank (x : Text) : Nat := if x = ['A'] then 0 else if x = ['C'] then 2 else 1

example : ∀ u ∈ exGood, ∀ y ∈ u.cppNames, (y = u.name ∧ u.iface = false) ∨ exRank y < exRank u.name := by decide

example : Source false exGood [.incl (hppName ['C']), .incl (hppName ['B'])] := by
  intro i hi
  simp only [List.mem_cons, List.not_mem_nil, or_false] at hi
  rcases hi with rfl | rfl
  · exact ⟨_, List.mem_cons_of_mem _ (List.mem_cons_of_mem _ (List.mem_cons_of_mem _ List.mem_cons_self)), Or.inl rfl⟩
  · exact ⟨_, List.mem_cons_of_mem _ List.mem_cons_self, Or.inl rfl⟩

example : (runPre (files false exGood) 30 [.incl (hppName ['C']), .incl (hppName ['B'])] []).map (·.1) = some
    [.typedef ['A'], .cfuns ['A'], .cls ['A'], .impl ['A'], .typedef ['B'], .cfuns ['B'], .cls ['B'], .impl ['B'],
     .cfuns ['I'], .cls ['I'], .impl ['I'], .typedef ['C'], .cfuns ['C'], .cls ['C'], .impl ['C']] := by decide +kernel

/-- `A` holds `B`s, `B` takes `A`: a circle among the C++ classes but not among the opaque types. -/
def exCircle : List Entity := [exClass 'A' (exVec ['B']), exClass 'B' (exRef ['A'])]

example : InOrder exCircle exCircle := by
  refine ⟨fun _ => Iff.rfl, ?_⟩
  intro a u b h y hy
  cases a with
  | nil =>
    simp only [exCircle, List.nil_append, List.cons.injEq] at h
    rw [← h.1] at hy
    have e : (exClass 'A' (exVec ['B'])).cNames = [] := rfl
    rw [e] at hy
    cases hy
  | cons x a =>
    simp only [exCircle, List.cons_append, List.cons.injEq] at h
    cases a with
    | nil =>
      simp only [List.nil_append, List.cons.injEq] at h
      rw [← h.2.1] at hy
      have : y = ['A'] := by
        have e : (exClass 'B' (exRef ['A'])).cNames = [['A']] := rfl
        rw [e] at hy
        exact List.mem_singleton.1 hy
      exact Or.inr ⟨x, by simp, by rw [← h.1, this]; rfl⟩
    | cons z a => simp at h

example : (runPre (files true exCircle) 30 [.incl (fwdName ['A']), .incl (fwdName ['B']), .incl (chName ['A']), .incl (chName ['B']),
      .incl (implName ['A']), .incl (implName ['B'])] []).map (·.1) = some
    [.decl ['A'], .decl ['B'], .typedef ['A'], .cfuns ['A'], .typedef ['B'], .cfuns ['B'], .cls ['B'], .cls ['A'], .impl ['A'], .impl ['B']] := by
  decide +kernel

/-- Without separate implementations the same classes do not work: `B` is implemented before `A` is defined. -/
example : (runPre (files false exCircle) 30 [.incl (fwdName ['A']), .incl (fwdName ['B']), .incl (hppName ['A'])] []).map (·.1) = some
    [.decl ['A'], .decl ['B'], .typedef ['A'], .cfuns ['A'], .typedef ['B'], .cfuns ['B'], .cls ['B'], .impl ['B'], .cls ['A'], .impl ['A']] := by
  decide +kernel

example : Relation.TransGen (Mentions Entity.cppNames exCircle) ['A'] ['A'] :=
  .tail (.single ⟨⟨_, List.mem_cons_self, rfl, by decide⟩, by decide⟩ : Relation.TransGen _ _ ['B'])
    ⟨⟨_, List.mem_cons_of_mem _ List.mem_cons_self, rfl, by decide⟩, by decide⟩

example : Relation.TransGen (Mentions Entity.cNames [exClass 'A' (exRef ['B']), exClass 'B' (exRef ['A'])]) ['A'] ['A'] :=
  .tail (.single ⟨⟨_, List.mem_cons_self, rfl, by decide⟩, by decide⟩ : Relation.TransGen _ _ ['B'])
    ⟨⟨_, List.mem_cons_of_mem _ List.mem_cons_self, rfl, by decide⟩, by decide⟩

/-- The C headers alone matter too: with three classes and no circle among the opaque types, the C header of `X` comes before the type
`YOpaque` it mentions unless the program includes the C headers first. -/
example : (runPre (files true [exClass 'X' (exRef ['Y']), exClass 'Y' (exVec ['Z']), exClass 'Z' (exRef ['X'])]) 30
      [.incl (fwdName ['X']), .incl (fwdName ['Y']), .incl (fwdName ['Z']), .incl (hppName ['X'])] []).map (·.1) = some
    [.decl ['X'], .decl ['Y'], .decl ['Z'], .typedef ['X'], .cfuns ['X'], .typedef ['Z'], .cfuns ['Z'], .cls ['Z'], .typedef ['Y'], .cfuns ['Y'],
     .cls ['Y'], .cls ['X']] := by
  decide +kernel

/-- A class that takes a callback whose method takes the class. -/
def exObserver : List Entity := [exIface 'I' (exRef ['A']), exClass 'A' (ifaceTy ['I'] [] [] exCode)]

example : ['I'] ∈ (exClass 'A' (ifaceTy ['I'] [] [] exCode)).cppNames ∧ ['A'] ∈ (exIface 'I' (exRef ['A'])).cppNames := by decide

example : (runPre (files true exObserver) 30 [.incl (fwdName ['A']), .incl (hppName ['A'])] []).map (·.1) = some
    [.decl ['A'], .typedef ['A'], .cfuns ['A'], .cfuns ['I'], .cls ['I'], .impl ['I'], .cls ['A']] := by decide +kernel

end examples

end Flapi.HeaderGraph
