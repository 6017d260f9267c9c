import Verif.Base.Text
/-!
# String search and replacement (model of the std functions used)

Positions are counted in characters; Rust counts bytes, but UTF-8 is self-synchronising so the matches are the same.
-/
namespace Flapi

/-- `str::match_indices(pat)` (std, used at macroslib/src/str_replace.rs:5): start positions of the non-overlapping
matches found from left to right.  `skip` is the number of characters of the current match still to be passed over.
The empty pattern matches at every boundary including the end. -/
def matchFrom (pat : Text) : (pos skip : Nat) → Text → List Nat
  | pos, _, [] => if pat = [] then [pos] else []
  | pos, 0, c :: cs =>
    if pat.isPrefixOf (c :: cs) then pos :: matchFrom pat (pos + 1) (pat.length - 1) cs
    else matchFrom pat (pos + 1) 0 cs
  | pos, skip + 1, _ :: cs => matchFrom pat (pos + 1) skip cs

def matchIndices (pat src : Text) : List Nat := matchFrom pat 0 0 src

/-- `src.get_unchecked(a..b)`. -/
def slice (src : Text) (a b : Nat) : Text := (src.drop a).take (b - a)

/-- The `for` loop of `replace_first_and_other`: macroslib/src/str_replace.rs:2-16. -/
def replaceLoop (src pat first other : Text) : List Nat → (lastEnd : Nat) → (matched : Bool) → (result : Text) → Text
  | [], lastEnd, _, result => result ++ slice src lastEnd src.length
  | start :: rest, lastEnd, matched, result =>
    let result := result ++ slice src lastEnd start
    let result := result ++ (if matched then other else first)
    replaceLoop src pat first other rest (start + pat.length) true result

/-- `replace_first_and_other(src, from, first, other)`: macroslib/src/str_replace.rs:1-17. -/
def replaceFirstAndOther (src pat first other : Text) : Text :=
  replaceLoop src pat first other (matchIndices pat src) 0 false []

/-- `str::replace(from, to)` (std): same loop with the same text for every match. -/
def strReplace (src pat to : Text) : Text := replaceFirstAndOther src pat to to

/-- `str::contains(pat)` (std). -/
def strContains (src pat : Text) : Bool := !(matchIndices pat src).isEmpty

/-! ## Direct recursion equal to the loop (proof device) -/

def repl (pat first other : Text) : (matched : Bool) → (skip : Nat) → Text → Text
  | m, _, [] => if pat = [] then (if m then other else first) else []
  | m, 0, c :: cs =>
    if pat.isPrefixOf (c :: cs) then
      (if m then other else first) ++
        (if pat = [] then c :: repl pat first other true 0 cs else repl pat first other true (pat.length - 1) cs)
    else c :: repl pat first other m 0 cs
  | m, skip + 1, _ :: cs => repl pat first other m skip cs

theorem slice_self (src : Text) (a : Nat) : slice src a a = [] := by simp [slice]

theorem slice_snoc (pre cs : Text) (c : Char) (L : Nat) (h : L ≤ pre.length) :
    slice (pre ++ c :: cs) L (pre.length + 1) = slice (pre ++ c :: cs) L pre.length ++ [c] := by
  unfold slice
  have e : pre ++ c :: cs = (pre ++ [c]) ++ cs := by simp
  rw [List.drop_append_of_le_length h]
  have h1 : pre.length + 1 - L = (pre.drop L).length + 1 := by simp; omega
  have h2 : pre.length - L = (pre.drop L).length := by simp
  rw [h1, h2, List.take_length_add_append]
  simp

theorem replaceLoop_acc (src pat first other : Text) (l : List Nat) (L : Nat) (m : Bool) (R : Text) :
    replaceLoop src pat first other l L m R = R ++ replaceLoop src pat first other l L m [] := by
  induction l generalizing L m R with
  | nil => simp [replaceLoop]
  | cons s l ih =>
    unfold replaceLoop
    simp only
    rw [ih, ih (R := [] ++ slice src L s ++ _)]
    simp

theorem replaceLoop_eq_repl (pat first other : Text) (hp : pat ≠ []) :
    ∀ (cs pre : Text) (skip L : Nat) (m : Bool), (skip = 0 ∧ L ≤ pre.length) ∨ L = pre.length + skip →
      replaceLoop (pre ++ cs) pat first other (matchFrom pat pre.length skip cs) L m []
        = slice (pre ++ cs) L pre.length ++ repl pat first other m skip cs := by
  intro cs
  induction cs with
  | nil =>
    intro pre skip L m h
    simp [matchFrom, hp, replaceLoop, repl]
  | cons c cs ih =>
    intro pre skip L m h
    have e : pre ++ c :: cs = (pre ++ [c]) ++ cs := by simp
    have el : pre.length + 1 = (pre ++ [c]).length := by simp
    cases skip with
    | zero =>
      have hL : L ≤ pre.length := by omega
      unfold matchFrom repl
      split
      · rename_i hm
        rw [replaceLoop, replaceLoop_acc, e, el, ih]
        · rw [← el]
          have : (pre.length + 1 - (pre.length + pat.length)) = 0 := by
            have := List.length_pos_iff.2 hp
            omega
          simp [slice, this]
        · right
          have := List.length_pos_iff.2 hp
          simp; omega
      · rw [e, el, ih _ _ _ _ (by left; simp; omega), ← el, ← e, slice_snoc _ _ _ _ hL]
        simp
    | succ k =>
      have hL : L = pre.length + (k + 1) := by omega
      unfold matchFrom repl
      rw [e, el, ih _ _ _ _ (by right; simp; omega), ← el]
      have h1 : pre.length + 1 - L = 0 := by omega
      have h2 : pre.length - L = 0 := by omega
      simp [slice, h1, h2]

/-- For a non-empty pattern the two formulations agree. -/
theorem replaceFirstAndOther_eq_repl (src pat first other : Text) (hp : pat ≠ []) :
    replaceFirstAndOther src pat first other = repl pat first other false 0 src := by
  have := replaceLoop_eq_repl pat first other hp src [] 0 0 false (by simp)
  simpa [replaceFirstAndOther, matchIndices, slice] using this

theorem repl_skip (pat first other : Text) (_hp : pat ≠ []) (m : Bool) (k : Nat) (cs : Text) :
    repl pat first other m k cs = repl pat first other m 0 (cs.drop k) := by
  induction cs generalizing k with
  | nil => cases k <;> simp [repl]
  | cons c cs ih =>
    cases k with
    | zero => simp
    | succ k => simp [repl, ih]

/-- The pattern at the current position is replaced. -/
theorem repl_match (pat first other : Text) (hp : pat ≠ []) (m : Bool) (rest : Text) :
    repl pat first other m 0 (pat ++ rest) = (if m then other else first) ++ repl pat first other true 0 rest := by
  cases pat with
  | nil => exact absurd rfl hp
  | cons p ps =>
    have hpre : List.isPrefixOf (p :: ps) (p :: (ps ++ rest)) = true := by
      rw [List.isPrefixOf_iff_prefix]; exact ⟨rest, by simp⟩
    rw [List.cons_append, repl, if_pos hpre]
    simp [repl_skip _ _ _ hp]

/-- A text that can neither contain the pattern nor overlap with the beginning of a match. -/
def Inert (pat x : Text) : Prop := ∀ s, s ≠ [] → s <:+ x → ¬ pat <+: s ∧ ¬ s <+: pat

theorem repl_inert (pat first other : Text) (m : Bool) (x rest : Text) (hx : Inert pat x) :
    repl pat first other m 0 (x ++ rest) = x ++ repl pat first other m 0 rest := by
  induction x with
  | nil => simp
  | cons c x ih =>
    have h0 := hx (c :: x) (by simp) (List.suffix_refl _)
    have hnp : ¬ List.isPrefixOf pat (c :: (x ++ rest)) = true := by
      rw [List.isPrefixOf_iff_prefix]
      intro h
      rw [← List.cons_append] at h
      rcases List.prefix_or_prefix_of_prefix h (List.prefix_append (c :: x) rest) with h | h
      · exact h0.1 h
      · exact h0.2 h
    rw [List.cons_append, repl, if_neg hnp, ih]
    · rfl
    · intro s hs hsuf
      exact hx s hs (hsuf.trans (List.suffix_cons c x))

theorem strReplace_eq_repl (src pat to : Text) (hp : pat ≠ []) :
    strReplace src pat to = repl pat to to false 0 src := replaceFirstAndOther_eq_repl _ _ _ _ hp

theorem repl_same_matched (pat to : Text) (m m' : Bool) (k : Nat) (cs : Text) :
    repl pat to to m k cs = repl pat to to m' k cs := by
  induction cs generalizing m m' k with
  | nil => simp [repl]
  | cons c cs ih =>
    cases k with
    | zero => unfold repl; split <;> simp [ih m m']
    | succ k => unfold repl; exact ih m m' k

theorem strReplace_nil (pat to : Text) (hp : pat ≠ []) : strReplace [] pat to = [] := by
  rw [strReplace_eq_repl _ _ _ hp]; simp [repl, hp]

theorem strReplace_match (pat to rest : Text) (hp : pat ≠ []) :
    strReplace (pat ++ rest) pat to = to ++ strReplace rest pat to := by
  rw [strReplace_eq_repl _ _ _ hp, strReplace_eq_repl _ _ _ hp, repl_match _ _ _ hp]
  simp [repl_same_matched pat to true false]

theorem strReplace_inert (pat to x rest : Text) (hp : pat ≠ []) (hx : Inert pat x) :
    strReplace (x ++ rest) pat to = x ++ strReplace rest pat to := by
  rw [strReplace_eq_repl _ _ _ hp, strReplace_eq_repl _ _ _ hp, repl_inert _ _ _ _ _ _ hx]

/-- Replacing a pattern that does not occur changes nothing. -/
theorem strReplace_absent (src pat to : Text) (h : ¬ pat <:+: src) : strReplace src pat to = src := by
  have hp : pat ≠ [] := by rintro rfl; exact h List.nil_infix
  rw [strReplace_eq_repl _ _ _ hp]
  induction src with
  | nil => simp [repl, hp]
  | cons c cs ih =>
    have hnp : ¬ List.isPrefixOf pat (c :: cs) = true := by
      rw [List.isPrefixOf_iff_prefix]
      exact fun hh => h hh.isInfix
    rw [repl, if_neg hnp, ih]
    exact fun hh => h (hh.trans (List.suffix_cons c cs).isInfix)

theorem strContains_iff (src pat : Text) : strContains src pat = true ↔ pat <:+: src := by
  have gen : ∀ (cs : Text) (pos : Nat), matchFrom pat pos 0 cs = [] ↔ ¬ pat <:+: cs := by
    intro cs
    induction cs with
    | nil =>
      intro pos
      by_cases hp : pat = [] <;> simp [matchFrom, hp]
    | cons c cs ih =>
      intro pos
      unfold matchFrom
      split
      · rename_i h
        rw [List.isPrefixOf_iff_prefix] at h
        simp [h.isInfix]
      · rename_i h
        rw [List.isPrefixOf_iff_prefix] at h
        rw [ih, List.infix_cons_iff]
        simp [h]
  unfold strContains matchIndices
  have := gen src 0
  cases hm : matchFrom pat 0 0 src with
  | nil => simp [this.1 hm]
  | cons a l =>
    simp only [List.isEmpty_cons, Bool.not_false, true_iff]
    exact Classical.byContradiction fun hn => by simp [this.2 hn] at hm

end Flapi
