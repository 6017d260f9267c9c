import Verif.Base.Replace
/-!
# C08 – replacing the first and the subsequent occurrences
-/
namespace Flapi.StrReplace

/-! ## Specification -/

/-- `LeftmostSplit pat src segs`: `src` is cut at the non-overlapping occurrences of `pat` found from left to right;
`segs` are the texts between them.  In the `cons` case no occurrence starts before the end of `seg`. -/
inductive LeftmostSplit (pat : Text) : Text → List Text → Prop
  | last (s : Text) : (¬ pat <:+: s) → LeftmostSplit pat s [s]
  | cons (seg rest : Text) (segs : List Text) :
      (∀ i, i < seg.length → ¬ pat <+: (seg ++ pat ++ rest).drop i) →
      LeftmostSplit pat rest segs → LeftmostSplit pat (seg ++ pat ++ rest) (seg :: segs)

/-- Glue segments together with `first` after the first segment and `other` after each later one. -/
def glue (first other : Text) : List Text → Text
  | [] => []
  | [s] => s
  | s :: segs => s ++ first ++ glue other other segs

/-! ## Helper lemmas -/

/-- The segments computed by the scan. -/
def segments (pat : Text) : (skip : Nat) → Text → Text → List Text
  | _, cur, [] => [cur]
  | 0, cur, c :: cs => if pat.isPrefixOf (c :: cs) then cur :: segments pat (pat.length - 1) [] cs
      else segments pat 0 (cur ++ [c]) cs
  | skip + 1, cur, _ :: cs => segments pat skip cur cs

theorem segments_ne_nil (pat : Text) (cs : Text) : ∀ k cur, segments pat k cur cs ≠ [] := by
  induction cs with
  | nil => intro k cur; cases k <;> simp [segments]
  | cons c cs ih =>
    intro k cur
    cases k with
    | zero => unfold segments; split <;> simp [ih]
    | succ k => unfold segments; exact ih k cur

theorem segments_skip (pat : Text) (cs : Text) : ∀ k cur, segments pat k cur cs = segments pat 0 cur (cs.drop k) := by
  induction cs with
  | nil => intro k cur; cases k <;> simp [segments]
  | cons c cs ih =>
    intro k cur
    cases k with
    | zero => simp
    | succ k => simp [segments, ih]

theorem glue_segments (pat first other : Text) (hp : pat ≠ []) (cs : Text) : ∀ (k : Nat) (cur : Text) (m : Bool),
    glue (if m then other else first) other (segments pat k cur cs)
      = cur ++ repl pat first other m k cs := by
  induction cs with
  | nil => intro k cur m; cases k <;> simp [segments, glue, repl, hp]
  | cons c cs ih =>
    intro k cur m
    cases k with
    | zero =>
      unfold segments repl
      by_cases hc : List.isPrefixOf pat (c :: cs) = true
      · rw [if_pos hc, if_pos hc]
        have := ih (pat.length - 1) [] true
        simp only [if_true, List.nil_append] at this
        cases hs : segments pat (pat.length - 1) [] cs with
        | nil => exact absurd hs (segments_ne_nil _ _ _ _)
        | cons s ss =>
          rw [hs] at this
          simp only [glue, this, hp, if_false, List.append_assoc]
      · rw [if_neg hc, if_neg hc, ih]; simp
    | succ k => unfold segments repl; exact ih k cur m

theorem segments_split (pat : Text) (hp : pat ≠ []) : ∀ (n : Nat) (cs cur : Text), cs.length ≤ n →
    (∀ i, i < cur.length → ¬ pat <+: (cur ++ cs).drop i) →
    LeftmostSplit pat (cur ++ cs) (segments pat 0 cur cs) := by
  intro n
  induction n with
  | zero =>
    intro cs cur hn hcur
    have : cs = [] := by simpa using hn
    subst this
    simp only [segments, List.append_nil] at *
    refine .last _ ?_
    rintro ⟨a, b, h⟩
    by_cases ha : a.length < cur.length
    · exact hcur a.length ha ⟨b, by rw [← h]; simp⟩
    · have := congrArg List.length h
      have h2 := List.length_pos_iff.2 hp
      simp at this; omega
  | succ n ih =>
    intro cs cur hn hcur
    cases cs with
    | nil => exact ih [] cur (by simp) hcur
    | cons c cs =>
      unfold segments
      split
      · rename_i hm
        rw [List.isPrefixOf_iff_prefix] at hm
        obtain ⟨rest, hr⟩ := hm
        have hdrop : cs.drop (pat.length - 1) = rest := by
          have h2 := List.length_pos_iff.2 hp
          have : (c :: cs).drop pat.length = rest := by rw [← hr]; simp
          rw [← this]
          cases hpl : pat.length with
          | zero => omega
          | succ k => simp
        rw [segments_skip, hdrop, ← hr, ← List.append_assoc]
        refine .cons cur rest _ ?_ ?_
        · intro i hi
          have := hcur i hi
          rw [← hr, ← List.append_assoc] at this
          exact this
        · have hl : rest.length ≤ n := by
            have := congrArg List.length hr
            have h2 := List.length_pos_iff.2 hp
            simp at this hn; omega
          simpa using ih rest [] hl (by simp)
      · rename_i hm
        rw [List.isPrefixOf_iff_prefix] at hm
        have e : cur ++ c :: cs = (cur ++ [c]) ++ cs := by simp
        rw [e]
        refine ih cs (cur ++ [c]) (by simpa using hn) ?_
        intro i hi
        rw [← e]
        by_cases hi' : i < cur.length
        · exact hcur i hi'
        · have : i = cur.length := by simp at hi; omega
          subst this
          simpa using hm

/-! ## Property theorems -/

/-- **C08.** For every text and every non-empty pattern: the source is cut at its leftmost non-overlapping occurrences,
the first one is replaced by `first`, all later ones by `other`, and the text in between is kept. -/
theorem C08_replace_first_and_other (src pat first other : Text) (hp : pat ≠ []) :
    ∃ segs, LeftmostSplit pat src segs ∧ replaceFirstAndOther src pat first other = glue first other segs := by
  refine ⟨segments pat 0 [] src, ?_, ?_⟩
  · simpa using segments_split pat hp src.length src [] (Nat.le_refl _) (by simp)
  · have := glue_segments pat first other hp src 0 [] false
    rw [replaceFirstAndOther_eq_repl _ _ _ _ hp]
    simpa using this.symm

/-- The decomposition in the specification is unique, so C08 determines the result. -/
theorem C08_split_unique (pat : Text) (src : Text) (s1 s2 : List Text)
    (h1 : LeftmostSplit pat src s1) (h2 : LeftmostSplit pat src s2) : s1 = s2 := by
  induction h1 generalizing s2 with
  | last s hs =>
    cases h2 with
    | last _ _ => rfl
    | cons seg rest segs _ _ => exact absurd ⟨seg, rest, rfl⟩ hs
  | cons seg rest segs hf _ ih =>
    generalize hsrc : seg ++ pat ++ rest = src at h2
    cases h2 with
    | last _ hs => exact absurd ⟨seg, rest, hsrc⟩ hs
    | cons seg2 rest2 segs2 hf2 h2' =>
      have hlen : seg.length = seg2.length := by
        rcases Nat.lt_trichotomy seg.length seg2.length with h | h | h
        · exact absurd ⟨rest, by rw [← hsrc]; simp⟩ (hf2 seg.length h)
        · exact h
        · refine absurd ⟨rest2, ?_⟩ (hf seg2.length h)
          rw [hsrc]; simp
      have e1 : seg = seg2 := by
        rw [List.append_assoc, List.append_assoc] at hsrc
        exact List.append_inj_left hsrc hlen
      subst e1
      have e2 : rest = rest2 := by
        rw [List.append_assoc, List.append_assoc] at hsrc
        exact List.append_cancel_left (List.append_cancel_left hsrc)
      subst e2
      rw [ih _ h2']

/-- **C08 (absent pattern).** Identity when the pattern does not occur. -/
theorem C08_absent (src pat first other : Text) (h : ¬ pat <:+: src) :
    replaceFirstAndOther src pat first other = src := by
  have hp : pat ≠ [] := by rintro rfl; exact h List.nil_infix
  obtain ⟨segs, hs, he⟩ := C08_replace_first_and_other src pat first other hp
  have := C08_split_unique pat src _ _ hs (.last src h)
  subst this
  simpa [glue] using he

/-- **C08 (same replacement).** With equal replacements it is the plain global replacement. -/
theorem C08_same (src pat to : Text) : replaceFirstAndOther src pat to to = strReplace src pat to := rfl

/-! Non-vacuity: two occurrences, overlapping candidates. -/
example : replaceFirstAndOther "a$out;$out=$out".toList "$out".toList "T".toList "v".toList
    = "aT;v=v".toList := by decide
example : replaceFirstAndOther "aaaa a".toList "aa".toList "X".toList "y".toList = "Xy a".toList := by decide

end Flapi.StrReplace
