import Verif.TypeMap.RuleParse
/-!
# Reading a `foreign_typemap!` rule loses nothing (C27)
-/
namespace Flapi.RuleParse
open Flapi Flapi.Template
variable {τ γ ω ι α : Type}

/-! ## Specification: what a rule says -/

/-- The code of an `r_type` line. -/
def codeR (gap : Text) (l : RLine τ γ) : Option TypeConvCode :=
  match l.body with
  | none => none
  | some b => match rCode gap l.var b with | .ok c => some c | _ => none

/-- The code of an `f_type` line. -/
def codeF (l : FLine) : Option TypeConvCode :=
  match l.body, l.var with
  | some b, some v => some (fromTypemapString b v l.temporaries)
  | _, _ => none

/-- The conversion to the right (or the mere mention of a type) an `r_type` line asks for. -/
def rRight (gap : Text) : Line τ γ ω ι α → Option (RRule τ)
  | .rType l =>
    match l.arrow with
    | some (true, t) => some ⟨l.left, some t, codeR gap l⟩
    | none => some ⟨l.left, none, none⟩
    | _ => none
  | _ => none

/-- The conversion to the left an `r_type` line asks for. -/
def rLeft (gap : Text) : Line τ γ ω ι α → Option (RRule τ)
  | .rType l =>
    match l.arrow with
    | some (false, t) => some ⟨l.left, some t, codeR gap l⟩
    | _ => none
  | _ => none

/-- The same for `f_type` lines. -/
def fRight : Line τ γ ω ι α → Option FRule
  | .fType l =>
    match l.arrow, l.left with
    | some (true, t), none => some ⟨l.mods, l.option, .onlyRight t, l.inputToOutput, l.uniquePrefix, codeF l⟩
    | some (true, t), some u => some ⟨l.mods, l.option, .both u t, l.inputToOutput, l.uniquePrefix, codeF l⟩
    | none, some u => some ⟨l.mods, l.option, .onlyLeft u, l.inputToOutput, l.uniquePrefix, none⟩
    | _, _ => none
  | _ => none

def fLeft : Line τ γ ω ι α → Option FRule
  | .fType l =>
    match l.arrow, l.left with
    | some (false, t), none => some ⟨l.mods, l.option, .onlyRight t, l.inputToOutput, l.uniquePrefix, codeF l⟩
    | some (false, t), some u => some ⟨l.mods, l.option, .both u t, l.inputToOutput, l.uniquePrefix, codeF l⟩
    | _, _ => none
  | _ => none

def genOf : Line τ γ ω ι α → Option γ
  | .rType l => l.generics
  | _ => none

def cOf : Line τ γ ω ι α → Option ω
  | .cItems c => some c
  | _ => none

def gcOf : Line τ γ ω ι α → Option ι
  | .genericCItems c => some c
  | _ => none

def codeOf : Line τ γ ω ι α → Option FCode
  | .code m o c => some ⟨m, o, c⟩
  | _ => none

def aliasOf : Line τ γ ω ι α → Option α
  | .alias a => some a
  | _ => none

/-- A line that is all right by itself. -/
def LineOk (gap : Text) : Line τ γ ω ι α → Prop
  | .rType l => l.body.isSome → l.arrow.isSome ∧ (codeR gap l).isSome
  | .fType l =>
    l.temporaries.Nodup ∧ (l.arrow = none → l.left.isSome) ∧ (l.body.isSome → l.arrow.isSome ∧ l.var.isSome) ∧
    (l.inputToOutput = true → ∀ t, l.arrow ≠ some (true, t)) ∧
    (∀ p, l.uniquePrefix = some p → ∃ t, p <+: t ∧ (l.left = some t ∨ ∃ d, l.arrow = some (d, t)))
  | .unknownMacro => False
  | _ => True

/-- Lines that fit together. -/
structure Fit (gap : Text) (ls : List (Line τ γ ω ι α)) : Prop where
  lines : ∀ l ∈ ls, LineOk gap l
  right : (ls.filterMap (rRight gap)).length ≤ 1
  left : (ls.filterMap (rLeft gap)).length ≤ 1
  optRight : ((ls.filterMap fRight).map (·.option)).Nodup
  optLeft : ((ls.filterMap fLeft).map (·.option)).Nodup
  cTypes : (ls.filterMap cOf).length + (ls.filterMap gcOf).length ≤ 1
  generics : ∀ g ∈ ls.filterMap genOf, ∀ g' ∈ ls.filterMap genOf, g = g'

/-- Everything the lines say. -/
def content (gap : Text) (ls : List (Line τ γ ω ι α)) : Rule τ γ ω ι α where
  generics := (ls.filterMap genOf).head?
  rLR := (ls.filterMap (rRight gap)).head?
  rRL := (ls.filterMap (rLeft gap)).head?
  fLR := ls.filterMap fRight
  fRL := ls.filterMap fLeft
  cTypes := (ls.filterMap cOf).head?
  genericCTypes := (ls.filterMap gcOf).head?
  fCode := ls.filterMap codeOf
  aliases := ls.filterMap aliasOf

/-! ## Lemmas -/

theorem res_bind_ok {β δ : Type} {r : Res β} {f : β → Res δ} {d : δ} : r.bind f = .ok d ↔ ∃ b, r = .ok b ∧ f b = .ok d := by
  cases r <;> simp [Res.bind]

theorem temporariesOk_iff (l : List Text) : ∀ seen : List Text, temporariesOk seen l = true ↔ l.Nodup ∧ ∀ t ∈ l, t ∉ seen := by
  induction l with
  | nil => intro seen; simp [temporariesOk]
  | cons t l ih =>
    intro seen
    unfold temporariesOk
    split
    · rename_i h
      simp [h]
    · rename_i h
      rw [ih]
      simp only [List.nodup_cons, List.mem_append, List.mem_singleton, not_or, List.mem_cons, forall_eq_or_imp]
      constructor
      · rintro ⟨h1, h2⟩
        exact ⟨⟨fun hm => (h2 t hm).2.1 rfl, h1⟩, h, fun x hx => (h2 x hx).1⟩
      · rintro ⟨⟨h1, h2⟩, _, h3⟩
        exact ⟨h2, fun x hx => ⟨h3 x hx, fun (e : x = t) => h1 (e ▸ hx), by simp⟩⟩

theorem prefixOk_iff (l : FLine) (h : l.arrow = none → l.left.isSome) :
    prefixOk l = true ↔ ∀ p, l.uniquePrefix = some p → ∃ t, p <+: t ∧ (l.left = some t ∨ ∃ d, l.arrow = some (d, t)) := by
  unfold prefixOk
  cases hp : l.uniquePrefix with
  | none => simp
  | some p =>
    cases ha : l.arrow with
    | none =>
      cases hl : l.left with
      | none => rw [hl] at h; simp [ha] at h
      | some u => simp
    | some dt =>
      obtain ⟨d, t⟩ := dt
      cases hl : l.left with
      | none => simp
      | some u =>
        simp only [Bool.or_eq_true, List.isPrefixOf_iff_prefix]
        constructor
        · rintro (h | h) p' hp'
          · cases hp'; exact ⟨t, h, .inr ⟨d, rfl⟩⟩
          · cases hp'; exact ⟨u, h, .inl rfl⟩
        · intro h
          obtain ⟨x, hx, hy⟩ := h p rfl
          rcases hy with hy | ⟨_, hy⟩
          · cases hy; exact .inr hx
          · cases hy; exact .inl hx

theorem fCodeOf_ok (l : FLine) (c : Option TypeConvCode) :
    fCodeOf l = .ok c ↔ (l.body.isSome → l.arrow.isSome ∧ l.var.isSome) ∧ c = codeF l := by
  unfold fCodeOf codeF
  cases l.body <;> cases l.arrow <;> cases l.var <;> simp <;> exact eq_comm

theorem lineCode_ok (gap : Text) (l : RLine τ γ) (c : Option TypeConvCode) :
    lineCode gap l.var l.arrow.isSome l.body = .ok c ↔ (l.body.isSome → l.arrow.isSome ∧ (codeR gap l).isSome) ∧ c = codeR gap l := by
  unfold lineCode codeR
  cases hb : l.body with
  | none => simp; exact eq_comm
  | some b =>
    cases l.arrow with
    | none => simp
    | some a =>
      cases hr : rCode gap l.var b <;> simp [Res.bind, hr]
      exact eq_comm

theorem addGenerics_ok [DecidableEq γ] (l : List γ) (new : Option γ) (g : Option γ) (h : ∀ x ∈ l, ∀ y ∈ l, x = y) :
    addGenerics l.head? new = .ok g ↔ (∀ x ∈ l ++ new.toList, ∀ y ∈ l ++ new.toList, x = y) ∧ g = (l ++ new.toList).head? := by
  unfold addGenerics
  cases new with
  | none =>
    simp only [Option.toList_none, List.append_nil, Res.ok.injEq]
    exact ⟨fun e => ⟨h, e.symm⟩, fun e => e.2.symm⟩
  | some n =>
    cases l with
    | nil => simp; exact eq_comm
    | cons p l =>
      simp only [List.head?_cons, Option.toList_some, List.cons_append]
      by_cases hpn : p = n
      · subst hpn
        rw [if_pos rfl]
        constructor
        · intro e
          refine ⟨?_, by simp at e; exact e.symm⟩
          intro x hx y hy
          have key : ∀ z ∈ p :: (l ++ [p]), z = p := by
            intro z hz
            rcases List.mem_cons.1 hz with rfl | hz
            · rfl
            · rcases List.mem_append.1 hz with hz | hz
              · exact h z (List.mem_cons_of_mem _ hz) p List.mem_cons_self
              · simpa using hz
          rw [key x hx, key y hy]
        · rintro ⟨_, rfl⟩
          rfl
      · rw [if_neg hpn]
        constructor
        · intro e; cases e
        · rintro ⟨hh, _⟩
          exact (hpn (hh p (by simp) n (by simp))).elim

theorem fit_init {gap : Text} {ls : List (Line τ γ ω ι α)} {l : Line τ γ ω ι α} (h : Fit gap (ls ++ [l])) : Fit gap ls := by
  obtain ⟨h1, h2, h3, h4, h5, h6, h7⟩ := h
  simp only [List.filterMap_append, List.map_append, List.length_append] at h2 h3 h4 h5 h6 h7
  refine ⟨fun x hx => h1 x (by simp [hx]), by omega, by omega, (List.nodup_append.1 h4).1, (List.nodup_append.1 h5).1, by omega, ?_⟩
  intro g hg g' hg'
  exact h7 g (List.mem_append_left _ hg) g' (List.mem_append_left _ hg')

theorem head_none_iff {β : Type} (l : List β) : l.head?.isSome = false ↔ l = [] := by cases l <;> simp

theorem head_snoc {β : Type} (l : List β) (x : β) (h : (l ++ [x]).length ≤ 1) : l = [] := by
  cases l with
  | nil => rfl
  | cons a l => simp at h

theorem filterMap_snoc {β δ : Type} (f : β → Option δ) (ls : List β) (l : β) : (ls ++ [l]).filterMap f = ls.filterMap f ++ (f l).toList := by
  rw [List.filterMap_append]
  cases h : f l <;> simp [h]

theorem nodup_snoc {β : Type} (l : List β) (x : β) : (l ++ [x]).Nodup ↔ l.Nodup ∧ x ∉ l := by
  rw [List.nodup_append]
  constructor
  · rintro ⟨h1, _, h3⟩
    exact ⟨h1, fun hx => h3 x hx x (by simp) rfl⟩
  · rintro ⟨h1, h2⟩
    refine ⟨h1, by simp, ?_⟩
    intro a ha b hb e
    simp at hb
    exact h2 (hb ▸ e ▸ ha)

theorem not_any_option (l : List FRule) (o : Option Text) : (l.any fun x => decide (x.option = o)) = false ↔ o ∉ l.map (·.option) := by
  simp only [List.any_eq_false, decide_eq_true_eq, List.mem_map, not_exists, not_and]

/-- `Fit` for one more line, in terms of what was there. -/
theorem fit_snoc (gap : Text) (ls : List (Line τ γ ω ι α)) (hf : Fit gap ls) (l : Line τ γ ω ι α) :
    Fit gap (ls ++ [l]) ↔ LineOk gap l ∧ (ls.filterMap (rRight gap) ++ (rRight gap l).toList).length ≤ 1 ∧
      (ls.filterMap (rLeft gap) ++ (rLeft gap l).toList).length ≤ 1 ∧
      ((ls.filterMap fRight ++ (fRight l).toList).map (·.option)).Nodup ∧ ((ls.filterMap fLeft ++ (fLeft l).toList).map (·.option)).Nodup ∧
      (ls.filterMap cOf ++ (cOf l).toList).length + (ls.filterMap gcOf ++ (gcOf l).toList).length ≤ 1 ∧
      ∀ g ∈ ls.filterMap genOf ++ (genOf l).toList, ∀ g' ∈ ls.filterMap genOf ++ (genOf l).toList, g = g' := by
  constructor
  · rintro ⟨h1, h2, h3, h4, h5, h6, h7⟩
    simp only [filterMap_snoc] at h2 h3 h4 h5 h6 h7
    exact ⟨h1 l (by simp), h2, h3, h4, h5, h6, h7⟩
  · rintro ⟨h1, h2, h3, h4, h5, h6, h7⟩
    refine ⟨?_, ?_, ?_, ?_, ?_, ?_, ?_⟩
    · intro x hx
      rcases List.mem_append.1 hx with hx | hx
      · exact hf.lines x hx
      · simp at hx; exact hx ▸ h1
    all_goals simpa only [filterMap_snoc] using (by assumption)

/-- One more line. -/
theorem addLine_ok [DecidableEq γ] (gap : Text) (ls : List (Line τ γ ω ι α)) (hf : Fit gap ls) (l : Line τ γ ω ι α) (r : Rule τ γ ω ι α) :
    addLine gap (content gap ls) l = .ok r ↔ Fit gap (ls ++ [l]) ∧ r = content gap (ls ++ [l]) := by
  rw [fit_snoc gap ls hf l]
  have hR := hf.right
  have hL := hf.left
  have hoR := hf.optRight
  have hoL := hf.optLeft
  have hc := hf.cTypes
  have hg := hf.generics
  unfold content
  simp only [filterMap_snoc]
  generalize hA : ls.filterMap genOf = A at *
  generalize hB : ls.filterMap (rRight gap) = B at *
  generalize hC : ls.filterMap (rLeft gap) = C at *
  generalize hD : ls.filterMap fRight = D at *
  generalize hE : ls.filterMap fLeft = E at *
  generalize hF : ls.filterMap cOf = F at *
  generalize hG : ls.filterMap gcOf = G at *
  generalize hH : ls.filterMap codeOf = H at *
  generalize hI : ls.filterMap aliasOf = I at *
  clear hA hB hC hD hE hF hG hH hI hf
  cases l with
  | unknownMacro => simp [addLine, LineOk]
  | code m o c =>
    simp only [addLine, Res.ok.injEq, LineOk, rRight, rLeft, fRight, fLeft, genOf, cOf, gcOf, codeOf, aliasOf, Option.toList_none, Option.toList_some, List.append_nil]
    exact ⟨fun e => ⟨⟨trivial, hR, hL, hoR, hoL, hc, hg⟩, e.symm⟩, fun e => e.2.symm⟩
  | alias a =>
    simp only [addLine, Res.ok.injEq, LineOk, rRight, rLeft, fRight, fLeft, genOf, cOf, gcOf, codeOf, aliasOf, Option.toList_none, Option.toList_some, List.append_nil]
    exact ⟨fun e => ⟨⟨trivial, hR, hL, hoR, hoL, hc, hg⟩, e.symm⟩, fun e => e.2.symm⟩
  | cItems c =>
    simp only [addLine, LineOk, rRight, rLeft, fRight, fLeft, genOf, cOf, gcOf, codeOf, aliasOf, Option.toList_none, Option.toList_some, List.append_nil]
    cases F with
    | cons a F => simp; intro _ _ _ _ h; omega
    | nil =>
      cases G with
      | cons a G => simp; intro _ _ _ _ h; omega
      | nil =>
        simp only [List.head?_nil, Option.isSome_none, Bool.or_self, Bool.false_eq_true, if_false, Res.ok.injEq]
        exact ⟨fun e => ⟨⟨trivial, hR, hL, hoR, hoL, by simp, hg⟩, e.symm⟩, fun e => e.2.symm⟩
  | genericCItems c =>
    simp only [addLine, LineOk, rRight, rLeft, fRight, fLeft, genOf, cOf, gcOf, codeOf, aliasOf, Option.toList_none, Option.toList_some, List.append_nil]
    cases F with
    | cons a F => simp; intro _ _ _ _ h; omega
    | nil =>
      cases G with
      | cons a G => simp
      | nil =>
        simp only [List.head?_nil, Option.isSome_none, Bool.or_self, Bool.false_eq_true, if_false, Res.ok.injEq]
        exact ⟨fun e => ⟨⟨trivial, hR, hL, hoR, hoL, by simp, hg⟩, e.symm⟩, fun e => e.2.symm⟩
  | rType l =>
    simp only [addLine, addR, LineOk, fRight, fLeft, genOf, cOf, gcOf, codeOf, aliasOf, Option.toList_none, List.append_nil]
    rw [res_bind_ok]
    simp only [addGenerics_ok A l.generics _ hg, res_bind_ok, lineCode_ok]
    have one : ∀ (X : List (RRule τ)) (x : RRule τ), X.head?.isSome = false ↔ (X ++ [x]).length ≤ 1 := by
      intro X x
      cases X <;> simp
    cases ha : l.arrow with
    | none =>
      simp only [rRight, rLeft, ha, Option.toList_some, Option.toList_none, List.append_nil]
      by_cases hb : B.head?.isSome = true
      · simp only [hb, if_true]
        constructor
        · rintro ⟨_, _, _, _, h⟩; cases h
        · rintro ⟨⟨_, h, _⟩, _⟩
          rw [← one] at h
          rw [h] at hb; cases hb
      · simp only [Bool.not_eq_true] at hb
        have hB : B = [] := (head_none_iff B).1 hb
        subst hB
        simp only [List.head?_nil, Option.isSome_none, Bool.false_eq_true, if_false, Res.ok.injEq]
        constructor
        · rintro ⟨_, ⟨hg1, rfl⟩, _, ⟨hb1, rfl⟩, rfl⟩
          exact ⟨⟨hb1, by simp, hL, hoR, hoL, hc, hg1⟩, rfl⟩
        · rintro ⟨⟨hb1, _, _, _, _, _, hg1⟩, rfl⟩
          exact ⟨_, ⟨hg1, rfl⟩, _, ⟨hb1, rfl⟩, rfl⟩
    | some dt =>
      obtain ⟨d, t⟩ := dt
      cases d with
      | true =>
        simp only [rRight, rLeft, ha, Option.toList_some, Option.toList_none, List.append_nil]
        by_cases hb : B.head?.isSome = true
        · simp only [hb, if_true]
          constructor
          · rintro ⟨_, _, _, _, h⟩; cases h
          · rintro ⟨⟨_, h, _⟩, _⟩
            rw [← one] at h
            rw [h] at hb; cases hb
        · simp only [Bool.not_eq_true] at hb
          have hB : B = [] := (head_none_iff B).1 hb
          subst hB
          simp only [List.head?_nil, Option.isSome_none, Bool.false_eq_true, if_false, Res.ok.injEq]
          constructor
          · rintro ⟨_, ⟨hg1, rfl⟩, _, ⟨hb1, rfl⟩, rfl⟩
            exact ⟨⟨hb1, by simp, hL, hoR, hoL, hc, hg1⟩, rfl⟩
          · rintro ⟨⟨hb1, _, _, _, _, _, hg1⟩, rfl⟩
            exact ⟨_, ⟨hg1, rfl⟩, _, ⟨hb1, rfl⟩, rfl⟩
      | false =>
        simp only [rRight, rLeft, ha, Option.toList_some, Option.toList_none, List.append_nil]
        by_cases hb : C.head?.isSome = true
        · simp only [hb, if_true]
          constructor
          · rintro ⟨_, _, _, _, h⟩; cases h
          · rintro ⟨⟨_, _, h, _⟩, _⟩
            rw [← one] at h
            rw [h] at hb; cases hb
        · simp only [Bool.not_eq_true] at hb
          have hB : C = [] := (head_none_iff C).1 hb
          subst hB
          simp only [List.head?_nil, Option.isSome_none, Bool.false_eq_true, if_false, Res.ok.injEq]
          constructor
          · rintro ⟨_, ⟨hg1, rfl⟩, _, ⟨hb1, rfl⟩, rfl⟩
            exact ⟨⟨hb1, hR, by simp, hoR, hoL, hc, hg1⟩, rfl⟩
          · rintro ⟨⟨hb1, _, _, _, _, _, hg1⟩, rfl⟩
            exact ⟨_, ⟨hg1, rfl⟩, _, ⟨hb1, rfl⟩, rfl⟩
  | fType l =>
    simp only [addLine, addF, rRight, rLeft, genOf, cOf, gcOf, codeOf, aliasOf, Option.toList_none, List.append_nil]
    by_cases hok : LineOk gap (Line.fType l : Line τ γ ω ι α)
    · obtain ⟨ht, hlft, hbody, hio, hpre⟩ := hok
      have h1 : temporariesOk [] l.temporaries = true := (temporariesOk_iff _ _).2 ⟨ht, by simp⟩
      have h2 : prefixOk l = true := (prefixOk_iff l hlft).2 hpre
      have h3 : fCodeOf l = .ok (codeF l) := (fCodeOf_ok l _).2 ⟨hbody, rfl⟩
      have hok' : LineOk gap (Line.fType l : Line τ γ ω ι α) := ⟨ht, hlft, hbody, hio, hpre⟩
      simp only [h1, h2, h3, Bool.not_true, Bool.false_eq_true, if_false, Res.bind]
      cases ha : l.arrow with
      | none =>
        cases hl : l.left with
        | none => rw [hl] at hlft; simp [ha] at hlft
        | some u =>
          simp only [fRight, fLeft, ha, hl, Option.toList_some, Option.toList_none, List.append_nil, List.map_append, List.map_cons, List.map_nil,
            nodup_snoc]
          by_cases hany : (D.any fun x => decide (x.option = l.option)) = true
          · have : l.option ∈ D.map (·.option) := Classical.byContradiction fun hc => by rw [← not_any_option] at hc; rw [hc] at hany; cases hany
            simp [hany, this]
          · simp only [Bool.not_eq_true] at hany
            have hn := (not_any_option D l.option).1 hany
            simp only [hany, Bool.false_eq_true, if_false, Res.ok.injEq]
            exact ⟨fun e => ⟨⟨hok', hR, hL, ⟨hoR, hn⟩, hoL, hc, hg⟩, e.symm⟩, fun e => e.2.symm⟩
      | some dt =>
        obtain ⟨d, t⟩ := dt
        cases d with
        | true =>
          have hio' : l.inputToOutput = false := by
            cases hi : l.inputToOutput with
            | false => rfl
            | true => exact (hio hi t ha).elim
          have hfr : fRight (Line.fType l : Line τ γ ω ι α) = some ⟨l.mods, l.option, pairOf l.left t, l.inputToOutput, l.uniquePrefix, codeF l⟩ := by
            cases hl : l.left <;> simp [fRight, ha, hl, pairOf]
          have hfl : fLeft (Line.fType l : Line τ γ ω ι α) = none := by cases hl : l.left <;> simp [fLeft, ha]
          simp only [hfr, hfl, Option.toList_some, Option.toList_none, List.append_nil, List.map_append, List.map_cons, List.map_nil, nodup_snoc]
          by_cases hany : (D.any fun x => decide (x.option = l.option)) = true
          · have : l.option ∈ D.map (·.option) := Classical.byContradiction fun hc => by rw [← not_any_option] at hc; rw [hc] at hany; cases hany
            simp [hany, this]
          · simp only [Bool.not_eq_true] at hany
            have hn := (not_any_option D l.option).1 hany
            simp only [hany, Bool.false_eq_true, if_false, Res.ok.injEq, hio']
            exact ⟨fun e => ⟨⟨hok', hR, hL, ⟨hoR, hn⟩, hoL, hc, hg⟩, e.symm⟩, fun e => e.2.symm⟩
        | false =>
          have hfr : fLeft (Line.fType l : Line τ γ ω ι α) = some ⟨l.mods, l.option, pairOf l.left t, l.inputToOutput, l.uniquePrefix, codeF l⟩ := by
            cases hl : l.left <;> simp [fLeft, ha, hl, pairOf]
          have hfl : fRight (Line.fType l : Line τ γ ω ι α) = none := by cases hl : l.left <;> simp [fRight, ha]
          simp only [hfr, hfl, Option.toList_some, Option.toList_none, List.append_nil, List.map_append, List.map_cons, List.map_nil, nodup_snoc]
          by_cases hany : (E.any fun x => decide (x.option = l.option)) = true
          · have : l.option ∈ E.map (·.option) := Classical.byContradiction fun hc => by rw [← not_any_option] at hc; rw [hc] at hany; cases hany
            simp [hany, this]
          · simp only [Bool.not_eq_true] at hany
            have hn := (not_any_option E l.option).1 hany
            simp only [hany, Bool.false_eq_true, if_false, Res.ok.injEq]
            exact ⟨fun e => ⟨⟨hok', hR, hL, hoR, ⟨hoL, hn⟩, hc, hg⟩, e.symm⟩, fun e => e.2.symm⟩
    · constructor
      · intro h
        exfalso
        apply hok
        split at h
        · cases h
        · rename_i h1
          split at h
          · cases h
          · rename_i h2
            rw [res_bind_ok] at h
            obtain ⟨code, hcode, h⟩ := h
            simp only [Bool.not_eq_true, Bool.not_eq_false'] at h1 h2
            have hlft : l.arrow = none → l.left.isSome = true := by
              intro ha
              rw [ha] at h
              dsimp only at h
              split at h
              · cases h
              · split at h
                · cases h
                · rename_i hl; simp [hl]
            refine ⟨((temporariesOk_iff _ _).1 (by simpa using h1)).1, hlft, ((fCodeOf_ok l _).1 hcode).1, ?_, (prefixOk_iff l hlft).1 (by simpa using h2)⟩
            intro hio t ha
            rw [ha] at h
            dsimp only at h
            split at h
            · cases h
            · simp [hio] at h
      · rintro ⟨⟨h, _⟩, _⟩
        exact (hok h).elim

theorem addLines_ok [DecidableEq γ] (gap : Text) (rs : List (Line τ γ ω ι α)) (r : Rule τ γ ω ι α) :
    addLines gap {} rs = .ok r ↔ Fit gap rs ∧ r = content gap rs := by
  have snoc : ∀ (ls : List (Line τ γ ω ι α)) (l : Line τ γ ω ι α) (r0 : Rule τ γ ω ι α),
      addLines gap r0 (ls ++ [l]) = (addLines gap r0 ls).bind fun r => addLine gap r l := by
    intro ls l
    induction ls with
    | nil =>
      intro r0
      simp only [List.nil_append, addLines, Res.bind]
      cases addLine gap r0 l <;> rfl
    | cons x ls ih =>
      intro r0
      simp only [List.cons_append, addLines]
      cases addLine gap r0 x with
      | ok r1 => exact ih r1
      | err => rfl
      | panic => rfl
  have gen : ∀ (xs : List (Line τ γ ω ι α)) (r : Rule τ γ ω ι α), addLines gap {} xs.reverse = .ok r ↔ Fit gap xs.reverse ∧ r = content gap xs.reverse := by
    intro xs
    induction xs with
    | nil =>
      intro r
      simp only [List.reverse_nil, addLines, Res.ok.injEq]
      constructor
      · rintro rfl
        exact ⟨⟨by simp, by simp, by simp, by simp, by simp, by simp, by simp⟩, rfl⟩
      · rintro ⟨_, rfl⟩
        rfl
    | cons x xs ih =>
      intro r
      rw [List.reverse_cons, snoc, res_bind_ok]
      constructor
      · rintro ⟨r1, h1, h2⟩
        obtain ⟨hf, rfl⟩ := (ih r1).1 h1
        exact (addLine_ok gap _ hf x r).1 h2
      · rintro ⟨hf, rfl⟩
        exact ⟨_, (ih _).2 ⟨fit_init hf, rfl⟩, (addLine_ok gap _ (fit_init hf) x _).2 ⟨hf, rfl⟩⟩
  have := gen rs.reverse r
  rwa [List.reverse_reverse] at this

/-! ## Theorems: reading -/

/-- A rule is accepted exactly if it has at least one line, its lines fit together, and aliases and generic C items come with generic parameters; and then it
contains exactly what its lines say, in order. -/
theorem C27_parse [DecidableEq γ] (gap : Text) (ls : List (Line τ γ ω ι α)) (r : Rule τ γ ω ι α) :
    parse gap ls = .ok r ↔ ls ≠ [] ∧ Fit gap ls ∧
      ((∃ l ∈ ls, (aliasOf l).isSome ∨ (gcOf l).isSome) → ∃ l ∈ ls, (genOf l).isSome) ∧ r = content gap ls := by
  unfold parse
  rw [res_bind_ok]
  have gens : ∀ {β : Type} (f : Line τ γ ω ι α → Option β), (ls.filterMap f = [] ↔ ¬ ∃ l ∈ ls, (f l).isSome) := by
    intro β f
    rw [List.filterMap_eq_nil_iff]
    simp only [not_exists, not_and, Bool.not_eq_true, Option.isSome_eq_false_iff, Option.isNone_iff_eq_none]
  have hd : ∀ {β : Type} (l : List β), l.head?.isNone = true ↔ l = [] := by intro β l; cases l <;> simp
  have hs : ∀ {β : Type} (l : List β), l.head?.isSome = true ↔ ¬ l = [] := by intro β l; cases l <;> simp
  constructor
  · rintro ⟨r0, h, hr⟩
    obtain ⟨hf, rfl⟩ := (addLines_ok gap ls r0).1 h
    split at hr
    · cases hr
    · rename_i h0
      split at hr
      · cases hr
      · rename_i h1
        split at hr
        · cases hr
        · rename_i h2
          cases hr
          refine ⟨by simpa using h0, hf, ?_, rfl⟩
          intro hex
          simp only [content, Bool.and_eq_true, Bool.not_eq_true', List.isEmpty_eq_false_iff, hd, hs, not_and, gens] at h1 h2
          apply Classical.byContradiction
          intro hno
          obtain ⟨l, hl, hx | hx⟩ := hex
          · exact h1 (by rw [ne_eq, gens]; exact fun h => h ⟨l, hl, hx⟩) hno
          · exact h2 (fun h => h ⟨l, hl, hx⟩) hno
  · rintro ⟨hne, hf, hgen, rfl⟩
    refine ⟨content gap ls, (addLines_ok gap ls _).2 ⟨hf, rfl⟩, ?_⟩
    rw [if_neg (by simpa using hne), if_neg, if_neg]
    · simp only [content, Bool.and_eq_true, hs, hd, not_and]
      intro h h'
      rw [gens] at h h'
      apply h
      intro ⟨l, hl, hx⟩
      exact h' (hgen ⟨l, hl, .inr hx⟩)
    · simp only [content, Bool.and_eq_true, Bool.not_eq_true', List.isEmpty_eq_false_iff, hd, not_and]
      intro h h'
      rw [ne_eq, gens] at h
      rw [gens] at h'
      apply h
      intro ⟨l, hl, hx⟩
      exact h' (hgen ⟨l, hl, .inl hx⟩)

/-- A rule that is not converted into a plain generic conversion stays as it is. -/
theorem C27_unconverted (r r' : Rule τ γ ω ι α) (h : tryInto r = .inr r') : r' = r := by
  unfold tryInto at h
  split at h
  · cases h; rfl
  · obtain ⟨g, a, b, c, d, e, f, x, y⟩ := r
    dsimp only at h
    split at h
    · cases h; simp_all
    · split at h <;> cases h <;> simp_all

/-- A rule is converted exactly if it consists of generic parameters and one Rust conversion with code, and all of these are kept, with the direction. -/
theorem C27_converted (r : Rule τ γ ω ι α) (e : Edge τ γ) :
    tryInto r = .inl e ↔
      r = { generics := some e.generics, rLR := some ⟨e.fromTy, some e.toTy, some e.code⟩ } ∨
      r = { generics := some e.generics, rRL := some ⟨e.toTy, some e.fromTy, some e.code⟩ } := by
  constructor
  · intro h
    obtain ⟨g, a, b, c, d, x, y, f, z⟩ := r
    unfold tryInto at h
    split at h
    · cases h
    · rename_i hemp
      simp only [Bool.or_eq_true, Bool.not_eq_true', List.isEmpty_eq_false_iff, not_or, Option.not_isSome_iff_eq_none, ne_eq, Classical.not_not] at hemp
      obtain ⟨⟨⟨⟨⟨rfl, rfl⟩, rfl⟩, rfl⟩, rfl⟩, rfl⟩ := hemp
      dsimp only at h
      split at h
      · cases h
      · split at h <;> cases h
        · exact .inl rfl
        · exact .inr rfl
  · rintro (rfl | rfl) <;> rfl

/-- Filing the rules of a file: each rule goes to exactly one place, unchanged and in order. -/
theorem C27_filed (rs : List (Rule τ γ ω ι α)) :
    let s := fileAll {} rs
    s.edges = rs.filterMap (fun r => match tryInto r with | .inl e => some e | .inr _ => none) ∧
    s.genericRules = rs.filter (fun r => r.generics.isSome && (match tryInto r with | .inl _ => false | .inr _ => true)) ∧
    s.notMerged = rs.filter (fun r => r.generics.isNone && r.backendData) ∧
    s.merged = rs.filter (fun r => r.generics.isNone && !r.backendData) := by
  have gen : ∀ (s : Store τ γ ω ι α), 
      (fileAll s rs).edges = s.edges ++ rs.filterMap (fun r => match tryInto r with | .inl e => some e | .inr _ => none) ∧
      (fileAll s rs).genericRules = s.genericRules ++ rs.filter (fun r => r.generics.isSome && (match tryInto r with | .inl _ => false | .inr _ => true)) ∧
      (fileAll s rs).notMerged = s.notMerged ++ rs.filter (fun r => r.generics.isNone && r.backendData) ∧
      (fileAll s rs).merged = s.merged ++ rs.filter (fun r => r.generics.isNone && !r.backendData) := by
    induction rs with
    | nil => intro s; simp [fileAll]
    | cons r rs ih =>
      intro s
      have hs : fileAll s (r :: rs) = fileAll (file s r) rs := rfl
      rw [hs]
      obtain ⟨h1, h2, h3, h4⟩ := ih (file s r)
      rw [h1, h2, h3, h4]
      unfold file
      cases hg : r.generics with
      | some g =>
        simp only [Option.isSome_some, if_true]
        cases ht : tryInto r with
        | inl e => simp [ht, hg]
        | inr r' =>
          have := C27_unconverted r r' ht
          subst this
          simp [ht, hg]
      | none =>
        have ht : ∃ r', tryInto r = .inr r' := by
          unfold tryInto
          split
          · exact ⟨_, rfl⟩
          · rw [hg]; exact ⟨_, rfl⟩
        obtain ⟨r', ht⟩ := ht
        simp only [Option.isSome_none, Bool.false_eq_true, if_false]
        by_cases hb : r.backendData = true
        · simp [hb, ht, hg]
        · simp only [Bool.not_eq_true] at hb
          simp [hb, ht, hg]
  simpa using gen {}

/-! ## The code of a conversion -/

/-- The code in the body of an `r_type` line: text without `$`, and the three placeholders. -/
inductive Piece where
  | lit (t : Text)
  | var
  | out
  | outNoType
  deriving DecidableEq

/-- How it is written. -/
def Piece.write (gap v : Text) : Piece → Text
  | .lit t => t
  | .var => dollar gap v
  | .out => dollar gap outName
  | .outNoType => dollar gap outNoTypeName

/-- What it should become: the variable to convert; the declaration of the result, with its type (`$out`) or without (`$out_no_type`). -/
def Piece.mean : Piece → Text
  | .lit t => t
  | .var => fromVar
  | .out => letMutTyped
  | .outNoType => letMut

def write (gap v : Text) (ps : List Piece) : Text := ps.flatMap (Piece.write gap v)
def mean (ps : List Piece) : Text := ps.flatMap Piece.mean

/-- No match of `P` begins in `x` when `rest` follows. -/
def Passes (P x rest : Text) : Prop := ∀ s, s ≠ [] → s <:+ x → ¬ P <+: s ++ rest

theorem _root_.Flapi.Inert.passes {P x : Text} (h : Inert P x) (rest : Text) : Passes P x rest := by
  intro s hs hsuf hp
  rcases List.prefix_or_prefix_of_prefix hp (List.prefix_append s rest) with h' | h'
  · exact (h s hs hsuf).1 h'
  · exact (h s hs hsuf).2 h'

theorem Passes.tail {P x rest : Text} {c : Char} (h : Passes P (c :: x) rest) : Passes P x rest :=
  fun s hs hsuf => h s hs (hsuf.trans (List.suffix_cons c x))

theorem infix_passes {P x rest : Text} (hx : Passes P x rest) : P <:+: x ++ rest ↔ P <:+: rest := by
  induction x with
  | nil => simp
  | cons c x ih =>
    rw [List.cons_append, List.infix_cons_iff, ih hx.tail]
    have := hx (c :: x) (by simp) (List.suffix_refl _)
    exact ⟨fun h => h.resolve_left this, .inr⟩

theorem strReplace_passes {P to x rest : Text} (hP : P ≠ []) (hx : Passes P x rest) : strReplace (x ++ rest) P to = x ++ strReplace rest P to := by
  rw [strReplace_eq_repl _ _ _ hP, strReplace_eq_repl _ _ _ hP]
  induction x with
  | nil => rfl
  | cons c x ih =>
    have h0 := hx (c :: x) (by simp) (List.suffix_refl _)
    rw [List.cons_append, repl, if_neg, ih hx.tail]
    · rfl
    · rw [List.isPrefixOf_iff_prefix]
      exact h0

/-- Replacing one kind of chunk. -/
theorem replace_chunks {β : Type} (ps : List β) (f g : β → Text) (P to : Text) (hP : P ≠ [])
    (h : ∀ a p b, ps = a ++ p :: b → (f p = P ∧ g p = to) ∨ (Passes P (f p) (b.flatMap f) ∧ g p = f p)) :
    strReplace (ps.flatMap f) P to = ps.flatMap g := by
  induction ps with
  | nil => exact strReplace_nil P to hP
  | cons p ps ih =>
    have ih := ih fun a q b hq => h (p :: a) q b (by rw [hq]; rfl)
    rw [List.flatMap_cons, List.flatMap_cons]
    rcases h [] p ps rfl with ⟨h1, h2⟩ | ⟨h1, h2⟩
    · rw [h1, strReplace_match P to _ hP, ih, h2]
    · rw [strReplace_passes hP h1, ih, h2]

theorem contains_chunks {β : Type} (ps : List β) (f : β → Text) (P : Text) (hP : P ≠ [])
    (h : ∀ a p b, ps = a ++ p :: b → f p = P ∨ Passes P (f p) (b.flatMap f)) : strContains (ps.flatMap f) P = true ↔ ∃ p ∈ ps, f p = P := by
  rw [strContains_iff]
  induction ps with
  | nil => simp [hP]
  | cons p ps ih =>
    have ih := ih fun a q b hq => h (p :: a) q b (by rw [hq]; rfl)
    rw [List.flatMap_cons]
    by_cases hp : f p = P
    · rw [hp]
      exact ⟨fun _ => ⟨p, List.mem_cons_self, hp⟩, fun _ => (List.prefix_append P _).isInfix⟩
    · rw [infix_passes ((h [] p ps rfl).resolve_left hp), ih]
      simp [hp]

theorem inert_lit {P' t : Text} (ht : '$' ∉ t) : Inert ('$' :: P') t := by
  intro s hs hsuf
  have hns : '$' ∉ s := fun h => ht (hsuf.subset h)
  constructor
  · intro h
    exact hns (h.subset (by simp))
  · intro h
    cases s with
    | nil => exact hs rfl
    | cons c s =>
      rw [List.cons_prefix_cons] at h
      exact hns (by simp [h.1])

theorem inert_dollar {a b : Text} (hb : '$' ∉ b) (h1 : ¬ a <+: b) (h2 : ¬ b <+: a) : Inert ('$' :: a) ('$' :: b) := by
  intro s hs hsuf
  rcases List.suffix_cons_iff.1 hsuf with rfl | hsuf
  · simp [List.cons_prefix_cons, h1, h2]
  · exact inert_lit hb s hs hsuf

theorem dollar_inert {gap a b : Text} (hg : '$' ∉ gap) (hb : '$' ∉ b) (h1 : ¬ a <+: b) (h2 : ¬ b <+: a) : Inert (dollar gap a) (dollar gap b) := by
  apply inert_dollar
  · simp [hg, hb]
  · exact fun h => h1 ((List.prefix_append_right_inj gap).1 h)
  · exact fun h => h2 ((List.prefix_append_right_inj gap).1 h)

theorem out_prefix : outName <+: outNoTypeName := ⟨['_', 'n', 'o', '_', 't', 'y', 'p', 'e'], rfl⟩

theorem foundParams_both {code : Text} (h1 : toVar <:+: code) (h2 : fromVar <:+: code) : TypeConvCode.new2 code = some ⟨code, [toVar, fromVar]⟩ := by
  simp [TypeConvCode.new2, foundParams, (strContains_iff _ _).2 h1, (strContains_iff _ _).2 h2]

theorem toVar_letMut : toVar <:+: letMut := by
  unfold letMut
  exact (List.suffix_append _ _).isInfix

theorem toVar_letMutTyped : toVar <:+: letMutTyped := by
  unfold letMutTyped
  exact toVar_letMut.trans ⟨[], ": ".toList ++ toVarType, by simp only [List.nil_append, List.append_assoc]⟩

theorem chunk_infix {β : Type} {ps : List β} {f : β → Text} {p : β} {x : Text} (hp : p ∈ ps) (hx : x <:+: f p) : x <:+: ps.flatMap f := by
  obtain ⟨a, b, rfl⟩ := List.append_of_mem hp
  rw [List.flatMap_append, List.flatMap_cons]
  exact hx.trans ⟨a.flatMap f, b.flatMap f, by simp⟩

/-- The names of the placeholders do not run into each other: the name of the variable is no beginning of `out_no_type`, and `out` no beginning of it. -/
def NamesApart (v : Text) : Prop := ¬ v <+: outNoTypeName ∧ ¬ outName <+: v

/-- Text between placeholders: not empty, without `$`, not continuing the name before it. -/
def Plain (t : Text) : Prop := '$' ∉ t ∧ t ≠ [] ∧ t.head? ≠ some '_'

/-- After `$out` comes no `_`. -/
theorem out_passes {gap rest : Text} (hg : '$' ∉ gap) (hr : rest.head? ≠ some '_') : Passes (dollar gap outNoTypeName) (dollar gap outName) rest := by
  intro s hs hsuf
  rcases List.suffix_cons_iff.1 hsuf with rfl | hsuf
  · intro h
    have h' : dollar gap outName ++ ['_', 'n', 'o', '_', 't', 'y', 'p', 'e'] <+: dollar gap outName ++ rest := by
      have e : dollar gap outName ++ ['_', 'n', 'o', '_', 't', 'y', 'p', 'e'] = dollar gap outNoTypeName := by simp [dollar, outName, outNoTypeName]
      rw [e]; exact h
    rw [List.prefix_append_right_inj] at h'
    cases rest with
    | nil => simp at h'
    | cons c r =>
      rw [List.cons_prefix_cons] at h'
      exact hr (by simp [← h'.1])
  · intro h
    cases s with
    | nil => exact hs rfl
    | cons c s =>
      have h' : '$' :: (gap ++ outNoTypeName) <+: c :: (s ++ rest) := h
      rw [List.cons_prefix_cons] at h'
      have : c ∈ gap ++ outName := hsuf.subset (by simp)
      rw [← h'.1] at this
      simp only [List.mem_append, hg, false_or] at this
      revert this; decide

/-- The code of a Rust conversion: accepted exactly if the variable and one of the two result placeholders occur; then every placeholder is replaced by what it
stands for and the rest of the text is kept.  Except: where `$out_no_type` occurs, `$out` is left as it is. -/
theorem C27_code (gap v : Text) (ps : List Piece) (hgap : '$' ∉ gap) (hv : '$' ∉ v) (hlit : ∀ t, .lit t ∈ ps → Plain t) (hn : NamesApart v) :
    rCode gap (some v) (write gap v ps) =
      if .var ∈ ps ∧ (.out ∈ ps ∨ .outNoType ∈ ps) then
        .ok ⟨if .outNoType ∈ ps then ps.flatMap (fun p => if p = .out then p.write gap v else p.mean) else mean ps, [toVar, fromVar]⟩
      else .err := by
  have hov : ¬ v <+: outName := fun h => hn.1 (h.trans out_prefix)
  have hno : ¬ outNoTypeName <+: v := fun h => hn.2 (out_prefix.trans h)
  have hd : '$' ∉ outName := by decide
  have hd' : '$' ∉ outNoTypeName := by decide
  have hfv : '$' ∉ fromVar := by decide
  have ne : ∀ a, dollar gap a ≠ [] := fun a h => by cases h
  have inj : ∀ a b, dollar gap a = dollar gap b → a = b := by
    intro a b h
    simpa [dollar] using h
  have hvne : dollar gap v ≠ dollar gap outName := fun h => hov (inj _ _ h ▸ List.prefix_refl _)
  have hvne' : dollar gap v ≠ dollar gap outNoTypeName := fun h => hn.1 (inj _ _ h ▸ List.prefix_refl _)
  have hone : dollar gap outName ≠ dollar gap outNoTypeName := fun h => by have := inj _ _ h; revert this; decide
  have hdol : ∀ a, '$' ∈ dollar gap a := fun a => by simp [dollar]
  -- the texts of the three stages, and the first character of each chunk
  let f1 : Piece → Text := fun p => if p = .var then fromVar else p.write gap v
  have head : ∀ (f : Piece → Text), (∀ p ∈ ps, (f p).head? ≠ some '_' ∧ f p ≠ []) → ∀ a p b, ps = a ++ p :: b → (b.flatMap f).head? ≠ some '_' := by
    intro f hf a p b hab
    cases b with
    | nil => simp
    | cons q b =>
      have := hf q (by rw [hab]; simp)
      rw [List.flatMap_cons]
      cases hq : f q with
      | nil => exact (this.2 hq).elim
      | cons c r => rw [hq] at this; simpa using this.1
  have hw : ∀ p ∈ ps, (p.write gap v).head? ≠ some '_' ∧ p.write gap v ≠ [] := by
    intro p hp
    cases p with
    | lit t => exact ⟨(hlit t hp).2.2, (hlit t hp).2.1⟩
    | _ => simp [Piece.write, dollar]
  have hf1 : ∀ p ∈ ps, (f1 p).head? ≠ some '_' ∧ f1 p ≠ [] := by
    intro p hp
    by_cases e : p = .var
    · subst e; simp only [f1, if_true]; decide
    · simp only [f1, if_neg e]; exact hw p hp
  -- where the placeholders occur
  have cv : strContains (write gap v ps) (dollar gap v) = true ↔ .var ∈ ps := by
    unfold write
    rw [contains_chunks ps (Piece.write gap v) _ (ne v)]
    · constructor
      · rintro ⟨p, hp, he⟩
        cases p with
        | lit t => exact ((hlit t hp).1 (by rw [Piece.write] at he; rw [he]; exact hdol v)).elim
        | var => exact hp
        | out => exact (hvne he.symm).elim
        | outNoType => exact (hvne' he.symm).elim
      · exact fun h => ⟨_, h, rfl⟩
    · intro a p b hab
      have hp : p ∈ ps := by rw [hab]; simp
      cases p with
      | lit t => exact .inr ((inert_lit (hlit t hp).1).passes _)
      | var => exact .inl rfl
      | out => exact .inr ((dollar_inert hgap hd hov hn.2).passes _)
      | outNoType => exact .inr ((dollar_inert hgap hd' hn.1 hno).passes _)
  have cn : strContains (write gap v ps) (dollar gap outNoTypeName) = true ↔ .outNoType ∈ ps := by
    unfold write
    rw [contains_chunks ps (Piece.write gap v) _ (ne _)]
    · constructor
      · rintro ⟨p, hp, he⟩
        cases p with
        | lit t => exact ((hlit t hp).1 (by rw [Piece.write] at he; rw [he]; exact hdol _)).elim
        | var => exact (hvne' he).elim
        | out => exact (hone he).elim
        | outNoType => exact hp
      · exact fun h => ⟨_, h, rfl⟩
    · intro a p b hab
      have hp : p ∈ ps := by rw [hab]; simp
      cases p with
      | lit t => exact .inr ((inert_lit (hlit t hp).1).passes _)
      | var => exact .inr ((dollar_inert hgap hv hno hn.1).passes _)
      | out => exact .inr (out_passes hgap (head _ hw a _ b hab))
      | outNoType => exact .inl rfl
  have co : .outNoType ∉ ps → (strContains (write gap v ps) (dollar gap outName) = true ↔ .out ∈ ps) := by
    intro hno'
    unfold write
    rw [contains_chunks ps (Piece.write gap v) _ (ne _)]
    · constructor
      · rintro ⟨p, hp, he⟩
        cases p with
        | lit t => exact ((hlit t hp).1 (by rw [Piece.write] at he; rw [he]; exact hdol _)).elim
        | var => exact (hvne he).elim
        | out => exact hp
        | outNoType => exact (hone he.symm).elim
      · exact fun h => ⟨_, h, rfl⟩
    · intro a p b hab
      have hp : p ∈ ps := by rw [hab]; simp
      cases p with
      | lit t => exact .inr ((inert_lit (hlit t hp).1).passes _)
      | var => exact .inr ((dollar_inert hgap hv hn.2 hov).passes _)
      | out => exact .inl rfl
      | outNoType => exact (hno' hp).elim
  -- the replacements
  have r1 : strReplace (write gap v ps) (dollar gap v) fromVar = ps.flatMap f1 := by
    unfold write
    apply replace_chunks _ _ _ _ _ (ne v)
    intro a p b hab
    have hp : p ∈ ps := by rw [hab]; simp
    cases p with
    | lit t => exact .inr ⟨(inert_lit (hlit t hp).1).passes _, rfl⟩
    | var => exact .inl ⟨rfl, rfl⟩
    | out => exact .inr ⟨(dollar_inert hgap hd hov hn.2).passes _, rfl⟩
    | outNoType => exact .inr ⟨(dollar_inert hgap hd' hn.1 hno).passes _, rfl⟩
  have r2 : strReplace (ps.flatMap f1) (dollar gap outNoTypeName) letMut = ps.flatMap (fun p => if p = .out then p.write gap v else p.mean) := by
    apply replace_chunks _ _ _ _ _ (ne _)
    intro a p b hab
    have hp : p ∈ ps := by rw [hab]; simp
    cases p with
    | lit t => exact .inr ⟨(inert_lit (hlit t hp).1).passes _, rfl⟩
    | var => exact .inr ⟨(inert_lit hfv).passes _, rfl⟩
    | out => exact .inr ⟨out_passes hgap (head _ hf1 a _ b hab), rfl⟩
    | outNoType => exact .inl ⟨rfl, rfl⟩
  have r3 : .outNoType ∉ ps → strReplace (ps.flatMap f1) (dollar gap outName) letMutTyped = mean ps := by
    intro hno'
    apply replace_chunks _ _ _ _ _ (ne _)
    intro a p b hab
    have hp : p ∈ ps := by rw [hab]; simp
    cases p with
    | lit t => exact .inr ⟨(inert_lit (hlit t hp).1).passes _, rfl⟩
    | var => exact .inr ⟨(inert_lit hfv).passes _, rfl⟩
    | out => exact .inl ⟨rfl, rfl⟩
    | outNoType => exact (hno' hp).elim
  unfold rCode
  dsimp only
  by_cases hvar : Piece.var ∈ ps
  · by_cases hnt : Piece.outNoType ∈ ps
    · rw [if_pos (c := Piece.var ∈ ps ∧ _) ⟨hvar, .inr hnt⟩, if_pos hnt]
      simp only [cv.2 hvar, cn.2 hnt, Bool.or_true, Bool.and_self, if_true, r1, r2]
      rw [foundParams_both]
      · exact chunk_infix (f := fun p => if p = .out then p.write gap v else p.mean) hnt toVar_letMut
      · exact chunk_infix (f := fun p => if p = .out then p.write gap v else p.mean) hvar (List.infix_refl fromVar)
    · have hcn : strContains (write gap v ps) (dollar gap outNoTypeName) = false := by
        cases h : strContains (write gap v ps) (dollar gap outNoTypeName) with
        | false => rfl
        | true => exact (hnt (cn.1 h)).elim
      by_cases ho : Piece.out ∈ ps
      · rw [if_pos (c := Piece.var ∈ ps ∧ _) ⟨hvar, .inl ho⟩, if_neg hnt]
        simp only [cv.2 hvar, (co hnt).2 ho, hcn, Bool.or_false, Bool.and_self, if_true, Bool.false_eq_true, if_false, r1, r3 hnt]
        rw [foundParams_both]
        · unfold mean
          exact chunk_infix ho toVar_letMutTyped
        · unfold mean
          exact chunk_infix hvar (List.infix_refl fromVar)
      · have hco : strContains (write gap v ps) (dollar gap outName) = false := by
          cases h : strContains (write gap v ps) (dollar gap outName) with
          | false => rfl
          | true => exact (ho ((co hnt).1 h)).elim
        rw [if_neg (c := Piece.var ∈ ps ∧ _) (by simp [ho, hnt])]
        simp [hcn, hco]
  · have hcv : strContains (write gap v ps) (dollar gap v) = false := by
      cases h : strContains (write gap v ps) (dollar gap v) with
      | false => rfl
      | true => exact (hvar (cv.1 h)).elim
    rw [if_neg (c := Piece.var ∈ ps ∧ _) (by simp [hvar])]
    simp [hcv]

/-- Finding: a variable called `o` (or `ou`, `out`): reading the rule panics. -/
theorem C27_finding_panic : rCode [' '] (some ['o']) (write [' '] ['o'] [.out, .lit " = ".toList, .var, .lit ";".toList]) = .panic := by decide +kernel

/-- Finding: a variable whose name begins with `out`: its occurrence passes for the result and reading the rule panics. -/
theorem C27_finding_panic_long :
    rCode [' '] (some "output".toList) (write [' '] "output".toList [.lit "f(".toList, .var, .lit ");".toList]) = .panic := by decide +kernel

/-- Finding: next to `$out_no_type`, `$out` goes into the generated code as it is. -/
theorem C27_finding_out_left (gap v : Text) (ps : List Piece) (hgap : '$' ∉ gap) (hv : '$' ∉ v) (hlit : ∀ t, .lit t ∈ ps → Plain t) (hn : NamesApart v)
    (h1 : .var ∈ ps) (h2 : .outNoType ∈ ps) (h3 : .out ∈ ps) : ∃ c, rCode gap (some v) (write gap v ps) = .ok c ∧ dollar gap outName <:+: c.code := by
  rw [C27_code gap v ps hgap hv hlit hn, if_pos ⟨h1, .inr h2⟩, if_pos h2]
  exact ⟨_, rfl, chunk_infix h3 (by simp only [if_true]; exact List.infix_refl _)⟩

example : NamesApart "x".toList ∧ Plain " = f(".toList ∧
    rCode [' '] (some "x".toList) (write [' '] "x".toList [.out, .lit " = f(".toList, .var, .lit ");".toList]) =
      .ok ⟨"let mut {to_var}: {to_var_type} = f({from_var});".toList, [toVar, fromVar]⟩ := by
  refine ⟨⟨?_, ?_⟩, ⟨?_, ?_, ?_⟩, by decide +kernel⟩
  · rw [← List.isPrefixOf_iff_prefix]; decide
  · rw [← List.isPrefixOf_iff_prefix]; decide
  · decide
  · decide
  · decide

/-- A rule with a conversion each way and two conditional foreign types. -/
example : ∃ r : Rule Nat Nat Nat Nat Nat, parse [' ']
      [.rType ⟨some "x".toList, none, 1, some (true, 2), some (write [' '] "x".toList [.out, .lit " = ".toList, .var])⟩,
       .rType ⟨none, none, 1, some (false, 2), none⟩,
       .fType ⟨none, some "A".toList, [], false, none, [], none, some (true, "int".toList), none⟩,
       .fType ⟨none, some "B".toList, [], false, none, [], none, some (true, "long".toList), none⟩,
       .code "m".toList none "text".toList] = .ok r ∧ r.fLR.length = 2 ∧ r.rLR.isSome ∧ r.rRL.isSome ∧ r.fCode.length = 1 ∧ r.backendData = true :=
  ⟨_, rfl, by decide +kernel, by decide +kernel, by decide +kernel, by decide +kernel, by decide +kernel⟩

/-- A generic rule that becomes a plain generic conversion. -/
example : ∃ (r : Rule Nat Nat Nat Nat Nat) (e : Edge Nat Nat), parse [' ']
      [.rType ⟨some "x".toList, some 7, 1, some (false, 2), some (write [' '] "x".toList [.out, .lit " = ".toList, .var])⟩] = .ok r ∧
      tryInto r = .inl e ∧ e.fromTy = 2 ∧ e.toTy = 1 := ⟨_, _, rfl, rfl, rfl, rfl⟩

end Flapi.RuleParse
