import Verif.Cpp.RegisterProps
/-! # C++: results of `PlainClass` classes (C63) -/
namespace Flapi.Register

open Flapi.Exported (lit)
open Flapi.FTypes (FType FRule)
open Flapi.TMap (HasRule)

/-- The foreign types that stand for a Rust type come from the operations that make them. -/
theorem stands_new {st st' : St} (h : Inv st) {cs : List Cmd} (hr : run st cs = .ok st') (dir : Select.Dir) {n : Text} {i : Nat}
    (hi : st'.tm.names n = some i) (hold : ∀ i, st.tm.names n = some i → ∀ ft ∈ st.fts.ftypes, stands dir ft ≠ some i) :
    (∀ ft ∈ st.fts.ftypes, stands dir ft ≠ some i) ∧
    ∀ c ft, c ∈ cs → mkF (ix st') c = some ft → (stands dir ft = some i ↔ stdKey dir c = some n) := by
  have hd := run_done h hr
  have hix : ix st' n = i := by simp [ix, hi]
  refine ⟨fun f hf => ?_, fun c ft hc hft => ?_⟩
  · cases h1 : st.tm.names n with
    | some j =>
      have := hd.ext.names _ _ h1
      rw [hi] at this; cases this
      exact hold i h1 f hf
    | none =>
      intro hs
      have hlt : i < st.tm.g.nodes.length := by
        cases dir with
        | true =>
          simp only [stands, if_true, Option.map_eq_some_iff] at hs
          obtain ⟨r, r1, r2⟩ := hs
          rw [← r2]; exact h.known f hf r (Or.inl r1)
        | false =>
          simp only [stands, Bool.false_eq_true, if_false, Option.map_eq_some_iff] at hs
          obtain ⟨r, r1, r2⟩ := hs
          rw [← r2]; exact h.known f hf r (Or.inr r1)
      obtain ⟨q, hq⟩ : ∃ q, st.tm.g.nodes[i]? = some q := ⟨_, List.getElem?_eq_getElem hlt⟩
      obtain ⟨x, hx⟩ := hd.ext.nodes
      obtain ⟨r, r1, r2⟩ := hd.inv.ok.valid _ _ hi
      rw [hx, List.getElem?_append_left hlt, hq] at r1
      cases r1
      have := h.ok.byName i q hq
      rw [r2, h1] at this; cases this
  · rw [stands_mkF hft]
    cases hk : stdKey dir c with
    | none => simp
    | some q =>
      simp only [Option.map_some, Option.some.injEq]
      obtain ⟨k, hkk, rfl⟩ := stdKey_key hk
      have hq := hd.keys c hc k hkk
      constructor
      · intro he
        exact ix_inj hd.inv hq (by rw [hi]; simp) (by rw [he, hix])
      · rintro rfl; exact hix

/-- If no foreign type stands for the Rust type of a result, and its only conversion goes to another Rust type, then the first foreign
type that stands for that one is chosen. -/
theorem chosen_via (P : Graph.PopFn) {st st' : St} (h : Inv st) {cs : List Cmd} (hr : run st cs = .ok st') (n m : Text) (w : Text)
    (hw : HasRule st'.tm n m w) (honly : ∀ y w, HasRule st'.tm n y w → y = m)
    (holdn : ∀ i, st.tm.names n = some i → ∀ ft ∈ st.fts.ftypes, stands true ft ≠ some i)
    (holdm : ∀ i, st.tm.names m = some i → ∀ ft ∈ st.fts.ftypes, stands true ft ≠ some i)
    (hn : ∀ c ∈ cs, stdKey true c ≠ some n) (c : Cmd)
    (hp : cs.find? (fun c => decide (stdKey true c = some m)) = some c) : chosen P st' true n = mkF (ix st') c := by
  have hd := run_done h hr
  obtain ⟨hc, as, bs, rfl, has⟩ := List.find?_eq_some_iff_append.1 hp
  simp only [decide_eq_true_eq] at hc
  obtain ⟨i, k, hi, hk, e, he, hes, hed, _⟩ := hw
  obtain ⟨ft, hft⟩ : ∃ ft, mkF (ix st') c = some ft := by
    cases c with
    | alloc => cases hc
    | rule => cases hc
    | ftype => exact ⟨_, rfl⟩
  have hfts : st'.fts.ftypes = (st.fts.ftypes ++ as.filterMap (mkF (ix st'))) ++ ft :: bs.filterMap (mkF (ix st')) := by
    rw [hd.fts, made_eq, List.filterMap_append, List.filterMap_cons, hft]
    simp
  obtain ⟨on, nn⟩ := stands_new h hr true hi holdn
  obtain ⟨om, nm⟩ := stands_new h hr true hk holdm
  have none_n : ∀ f ∈ st'.fts.ftypes, stands true f ≠ some i := by
    intro f hf
    rw [hfts] at hf
    have new : ∀ x ∈ as ++ c :: bs, mkF (ix st') x = some f → stands true f ≠ some i := fun x hx hxf hs =>
      hn x hx ((nn x f hx hxf).1 hs)
    simp only [List.mem_append, List.mem_cons, List.mem_filterMap] at hf
    rcases hf with (hf | ⟨x, hx, hxf⟩) | rfl | ⟨x, hx, hxf⟩
    · exact on f hf
    · exact new x (by simp [hx]) hxf
    · exact new c (by simp) hft
    · exact new x (by simp [hx]) hxf
  have first_m : ∀ f ∈ st.fts.ftypes ++ as.filterMap (mkF (ix st')), stands true f ≠ some k := by
    intro f hf
    rcases List.mem_append.1 hf with hf | hf
    · exact om f hf
    · obtain ⟨x, hx, hxf⟩ := List.mem_filterMap.1 hf
      intro hs
      have := (nm x f (by simp [hx]) hxf).1 hs
      have hx := has x hx
      simp [this] at hx
  have hftm : stands true ft = some k := (nm c ft (by simp) hft).2 hc
  have hix : ∀ ed ∈ st'.tm.g.edges, ed.src = i → ed.dst = k := by
    intro ed hed his
    have hlt := (hd.inv.ok.wf ed hed).2
    obtain ⟨q, hq⟩ : ∃ q, st'.tm.g.nodes[ed.dst]? = some q := ⟨_, List.getElem?_eq_getElem hlt⟩
    have hq' := hd.inv.ok.byName _ _ hq
    have := honly q.name ed.w ⟨i, ed.dst, hi, hq', ed, hed, his, rfl, rfl⟩
    rw [this, hk] at hq'
    exact (Option.some.inj hq').symm
  generalize st.fts.ftypes ++ as.filterMap (mkF (ix st')) = L at hfts first_m
  generalize bs.filterMap (mkF (ix st')) = R at hfts
  have hfo : Select.FtsOk st'.tm.g (st'.fts.ftypes.map view) := by
    intro f hf r hr
    obtain ⟨q, hq, rfl⟩ := List.mem_map.1 hf
    have := hd.inv.known q hq
    simp only [view, Option.map_eq_some_iff] at hr
    rcases hr with ⟨x, hx, rfl⟩ | ⟨x, hx, rfl⟩
    · exact this x (Or.inl hx)
    · exact this x (Or.inr hx)
  have hbest := Select.fastSearch_best P st'.tm.g hd.inv.ok.wf (st'.fts.ftypes.map view) true i (hd.inv.ok.lt hi) hfo
  have hget : st'.fts.ftypes[L.length]? = some ft := by rw [hfts]; simp
  have hll : L.length < (st'.fts.ftypes.map view).length := by rw [List.length_map, hfts]; simp
  obtain ⟨p, hp'⟩ := List.getElem?_of_mem he
  have hrep : Select.Represents st'.tm.g (st'.fts.ftypes.map view) true i L.length 1 := by
    have hv : (st'.fts.ftypes.map view)[L.length]? = some (view ft) := by rw [List.getElem?_map, hget]; rfl
    simp only [stands, if_true, Option.map_eq_some_iff] at hftm
    obtain ⟨r, hr, hrk⟩ := hftm
    refine ⟨view ft, ⟨r.rustTy, r.inter.map (·.ty)⟩, [p], hv, ⟨by simp [view, hr], e, hp', hes, ?_⟩, rfl⟩
    rw [hed]; exact hrk.symm
  have hstand : ∀ (j : Nat) (z : Select.FT) (r : Select.FRule), (st'.fts.ftypes.map view)[j]? = some z → z.into = some r →
      ∃ q, st'.fts.ftypes[j]? = some q ∧ stands true q = some r.rustTy := by
    intro j z r hz hr
    rw [List.getElem?_map, Option.map_eq_some_iff] at hz
    obtain ⟨q, hq, rfl⟩ := hz
    refine ⟨q, hq, ?_⟩
    simp only [view, Option.map_eq_some_iff] at hr
    obtain ⟨x, hx, rfl⟩ := hr
    simp [stands, hx]
  cases hf : Select.fastSearch P st'.tm.g (st'.fts.ftypes.map view) true i with
  | none => rw [hf] at hbest; exact absurd hrep (hbest _ _ hll)
  | some r =>
    obtain ⟨len, j⟩ := r
    rw [hf] at hbest
    obtain ⟨hj, hrj, hmin⟩ := hbest
    have h1 := hmin _ _ hll hrep
    obtain ⟨z, r, pth, e1, ⟨e2, e3⟩, e4⟩ := hrj
    obtain ⟨q, hq, hqs⟩ := hstand j z r e1 e2
    have hjl : j = L.length := by
      match pth, e3, e4 with
      | [], e3, _ =>
        have : i = r.rustTy := e3
        exact absurd (this ▸ hqs) (none_n q (List.mem_of_getElem? hq))
      | e :: [], e3, e4 =>
        obtain ⟨ed, ed1, ed2, ed3⟩ := e3
        have hdk := hix ed (List.mem_of_getElem? ed1) ed2
        have hrk : r.rustTy = k := by rw [← hdk]; exact (show ed.dst = r.rustTy from ed3).symm
        rw [hrk] at hqs
        have hlen : len = 1 := e4.symm
        have hnl : ¬ L.length < j := fun hlt => by have := h1.2 hlt; omega
        have hnj : ¬ j < L.length := by
          intro hlt
          rw [hfts, List.getElem?_append_left hlt] at hq
          exact first_m q (List.mem_of_getElem? hq) hqs
        omega
      | _ :: _ :: rest, _, e4 => simp at e4; omega
    subst hjl
    simp only [chosen, hi, Option.bind_some, hf, hft]
    exact hget

end Flapi.Register

namespace Flapi.CppRegister

open Flapi.Exported (lit)
open Flapi.Register
open Flapi.TMap (HasRule)

/-- **Finding.**  A reference `&U` that Rust returns has no C++ class if the class derives `PlainClass`: it is the bare C pointer
`const NameOpaque *` of the C header. -/
theorem C63_finding_plain_class (P : Graph.PopFn) (st st' : St) (h : Inv st) (cs : List Class) (hr : registerAll st cs = .ok st')
    (hs : Separate cs) (hall : ∀ c ∈ cs, ∀ d, c.desc = some d → OrdinaryDesc d) (c : Class) (hc : c ∈ cs) (d : Desc)
    (hd : c.desc = some d) (hp : lit "PlainClass" ∈ c.derives) (hnew : ∀ y w, ¬ HasRule st.tm (refOf d.inner) y w)
    (hold : ∀ t ∈ [refOf d.inner, (constPtr d).name], ∀ i, st.tm.names t = some i → ∀ ft ∈ st.fts.ftypes, stands true ft ≠ some i) :
    ∃ ft, chosen P st' true (refOf d.inner) = some ft ∧ ft.name.display = lit "const " ++ c.name ++ lit "Opaque *" ∧
      ft.provided = [lit "\"c_" ++ c.name ++ lit ".h\""] := by
  have hrun := ((registerAll_eq _ st st').1 hr).2
  have hdone := run_done h hrun
  have ho := hall c hc d hd
  have hw := (C63_conversions st st' h cs hr hs hall c hc d hd (lendCode d)).2.2.2.2.2.2 rfl
  have mRU : refOf d.inner ∈ tys d := by simp [tys]
  have sep : ∀ c' ∈ cs, ∀ d', c'.desc = some d' → (∃ t ∈ tys d, t ∈ tys d') → c' = c := by
    intro c' hc' d' hd' ⟨t, ht, ht'⟩
    obtain ⟨l, m, rfl⟩ := List.append_of_mem hc
    rcases List.mem_append.1 hc' with h1 | h1
    · exact absurd ht' (hs.ne (Or.inl h1) hd hd' t ht)
    · rcases List.mem_cons.1 h1 with rfl | h1
      · rfl
      · exact absurd ht' (hs.ne (Or.inr h1) hd hd' t ht)
  have nul : Char.ofNat 0 ∉ refOf d.inner := tys_noNul ho _ mRU
  have honly : ∀ y w, HasRule st'.tm (refOf d.inner) y w → y = (constPtr d).name := by
    intro y w hy
    by_cases hym : y = (constPtr d).name
    · exact hym
    · exfalso
      rw [hdone.rules, over_other] at hy
      · exact hnew y w hy
      · intro w' hm
        obtain ⟨x, hx, hm⟩ := (mem_rules_flat classCmds).1 hm
        cases hxd : x.desc with
        | none => simp only [classCmds, hxd] at hm; cases hm
        | some d' =>
          rw [rulesOf_class x d' hxd] at hm
          have same : (∃ t ∈ tys d, t ∈ tys d') → d' = d := by
            intro hex
            have := sep x hx d' hxd hex
            subst this
            rw [hd] at hxd; cases hxd; rfl
          simp only [ruleCmds, rulesOf, List.mem_cons, List.not_mem_nil, or_false, Prod.mk.injEq] at hm
          rcases hm with hm | hm | hm | hm | hm | hm
          · exact nul (hm.1 ▸ nul_const d')
          · exact nul (hm.1 ▸ nul_void d')
          · exact nul (hm.1 ▸ nul_void d')
          · have := congrArg List.head? (show refOf d.inner = mutPtrOf d'.inner from hm.1)
            rw [refOf_head, mutPtrOf_head] at this
            simp at this
          · exact (hall x hx d' hxd).this.neRef (show refOf d.inner = d'.thisTy from hm.1).symm
          · have he : refOf d.inner = refOf d'.inner := hm.1
            have := same ⟨_, mRU, by simp [tys, he]⟩
            subst this
            exact hym hm.2.1
  have plain : c.has "PlainClass" = true := by simp [Class.has, hp]
  have hn : ∀ x ∈ cs.flatMap classCmds, stdKey true x ≠ some (refOf d.inner) := by
    intro x hx he
    obtain ⟨c', hc', hx⟩ := List.mem_flatMap.1 hx
    obtain ⟨k, hk, hkn⟩ := stdKey_key he
    rcases classKeys c' x hx k hk with ⟨d', hd', h⟩ | ⟨hd', h⟩
    · rcases h with rfl | rfl | ⟨t, ht, rfl⟩
      · exact nul (hkn ▸ nul_void d')
      · exact nul (hkn ▸ nul_const d')
      · have hkn : t = refOf d.inner := hkn
        have := sep c' hc' d' hd' ⟨_, mRU, hkn ▸ ht⟩
        subst this
        rw [hd] at hd'; cases hd'
        have e1 : d.thisTy ≠ refOf d.inner := ho.this.neRef
        have nv : (voidPtr d).name ≠ refOf d.inner := fun he => nul (he ▸ nul_void d)
        have nc : (constPtr d).name ≠ refOf d.inner := fun he => nul (he ▸ nul_const d)
        have kname : ∀ t, (key t).name = t := fun _ => rfl
        have : (classCmds c').find? (fun c => decide (stdKey true c = some (refOf d.inner))) = none := by
          by_cases hst : d.selfTy = d.thisTy <;>
          simp [classCmds, hd, selfTypeCmds, mainCmds, pointerCmds, ruleCmds, stdKey, kname, nv, nc, e1, plain, hst]
        rw [List.find?_eq_none] at this
        have := this x hx
        simp [he] at this
    · simp only [classCmds, hd', List.mem_singleton] at hx
      subst hx; cases he
  obtain ⟨l, m, rfl⟩ := List.append_of_mem hc
  have hfind : ((l ++ c :: m).flatMap classCmds).find? (fun c => decide (stdKey true c = some (constPtr d).name)) =
      some (.ftype c.src [] (lit "const " ++ opaqueTy c ++ lit " *") (ch c) (some ⟨constPtr d, none⟩) (some ⟨constPtr d, none⟩)) := by
    refine find_flat classCmds _ l m c _ ?_
      (by simp [classCmds, hd, selfTypeCmds, mainCmds, pointerCmds, ruleCmds, stdKey, void_ne_const, -List.find?_append])
    intro c' hc' y hy
    simp only [decide_eq_false_iff_not]
    intro he
    obtain ⟨k, hk, hkn⟩ := stdKey_key he
    rcases classKeys c' y hy k hk with ⟨d', hd', h⟩ | ⟨hd', h⟩
    · have hsep := hs.ne (Or.inl hc') hd hd' d.thisTy (by simp [tys])
      rcases h with rfl | rfl | ⟨t, ht, rfl⟩
      · exact void_ne_const _ _ hkn
      · exact hsep (by rw [const_inj hkn.symm]; simp [tys])
      · have : t = (constPtr d).name := hkn
        subst this
        exact tys_noNul (hall c' (by simp [hc']) d' hd') _ ht (nul_const d)
    · simp only [classCmds, hd', List.mem_singleton] at hy
      subst hy; cases he
  have hch := chosen_via P h hrun _ _ _ hw honly (fun i hi => hold _ (by simp) i hi) (fun i hi => hold _ (by simp) i hi) hn _ hfind
  refine ⟨_, hch, ?_, rfl⟩
  have g1 : lit "Opaque" ++ lit " *" = lit "Opaque *" := by unfold lit; decide
  simp [FTypes.UName.display, opaqueTy, g1]

/-- The hypotheses of the finding hold for a class `Foo` derived `PlainClass`. -/
example : ∃ st', registerAll st0 [{ foo with derives := [lit "PlainClass"] }] = .ok st' ∧
    ∀ P, ∃ ft, chosen P st' true (refOf (lit "Foo")) = some ft ∧ ft.name.display = lit "const FooOpaque *" := by
  cases hr : registerAll st0 [{ foo with derives := [lit "PlainClass"] }] with
  | error e =>
    have : accepted [{ foo with derives := [lit "PlainClass"] }] = none := by decide +kernel
    simp [accepted, hr] at this
  | ok st' =>
    refine ⟨st', rfl, fun P => ?_⟩
    obtain ⟨ft, h1, h2, _⟩ := C63_finding_plain_class P st0 st' st0_inv _ hr (by simp [Separate]) (by
        intro c hc d hd
        simp only [List.mem_singleton] at hc
        subst hc
        exact example_ordinary foo (by simp) d hd) _ (List.mem_singleton.2 rfl) _ rfl (by simp)
      (by rintro y w ⟨i, _, hi, _⟩; cases hi) (by intro t _ i hi; cases hi)
    refine ⟨ft, h1, h2.trans ?_⟩
    decide +kernel

end Flapi.CppRegister
