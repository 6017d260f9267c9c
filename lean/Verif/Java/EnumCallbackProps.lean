import Verif.Java.EnumCallback
import Verif.Java.FindCacheProps
import Verif.Lang.EnumProps
/-!
# Enum values and objects handed to Java as references (properties, C73)
-/
namespace Flapi.EnumCallback
open Flapi Flapi.FindCache

variable {Obj : Type}

/-! ## Specification -/

/-- The name of a Java class as the virtual machine wants it: the parts of the package and the class, separated by `/`. -/
def vmName (pkgParts : List Text) (name : Text) : Text := pkgParts.flatMap (fun p => p ++ ['/']) ++ name

/-- A dotted package name. -/
def dottedPkg : List Text → Text
  | [] => []
  | [p] => p
  | p :: q :: l => p ++ '.' :: dottedPkg (q :: l)

/-- A Java virtual machine: what a static field holds is determined by class and field name, and a field id obtained by name
leads to the field of that name. -/
def Faithful (j : Java Obj) (value : Nat → Text → Option Obj) : Prop :=
  ∀ cls n sig f, j.jvm.lookup .staticField cls n sig = some f → j.getStatic cls f = value cls n

/-- The variables declared for one item of the interface. -/
def vars (upper : Text → Text) : Decl → List Text
  | .enum name items => enumVar upper name :: items.map fun it => itemVar upper name it.name
  | .cls name => [classVar upper name, ptrVar upper name]

/-! ## Class names -/

theorem jniPath_eq (pkg name : Text) : jniPath pkg name =
    (pkg.map fun c => if c = '.' then '/' else c) ++ '/' :: (name.map fun c => if c = '.' then '/' else c) := by
  simp [jniPath]

theorem map_plain (t : Text) (h : '.' ∉ t) : (t.map fun c => if c = '.' then '/' else c) = t := by
  induction t with
  | nil => rfl
  | cons c l ih =>
    simp only [List.mem_cons, not_or] at h
    rw [List.map_cons, ih h.2, if_neg (fun e => h.1 e.symm)]

theorem dotted_path (parts : List Text) (hne : parts ≠ []) (hp : ∀ p ∈ parts, '.' ∉ p) :
    (dottedPkg parts).map (fun c => if c = '.' then '/' else c) ++ ['/'] = parts.flatMap fun p => p ++ ['/'] := by
  induction parts with
  | nil => exact absurd rfl hne
  | cons p l ih =>
    cases l with
    | nil => simp only [dottedPkg, List.flatMap_cons, List.flatMap_nil, List.append_nil]; rw [map_plain p (hp p (by simp))]
    | cons q l =>
      have := ih (by simp) (fun x hx => hp x (List.mem_cons_of_mem _ hx))
      rw [List.flatMap_cons, ← this]
      simp only [dottedPkg, List.map_append, List.map_cons]
      rw [map_plain p (hp p (by simp))]
      simp

/-- **C73 (class names).** The class looked up for an item is the one with its name in the configured package, in the notation
of the virtual machine. -/
theorem C73_class_name (parts : List Text) (name : Text) (hne : parts ≠ []) (hp : ∀ p ∈ parts, '.' ∉ p) (hn : '.' ∉ name) :
    jniPath (dottedPkg parts) name = vmName parts name := by
  rw [jniPath_eq, map_plain name hn, vmName, ← dotted_path parts hne hp]
  simp

/-! ## Live references -/

theorem getIds_globals (jvm : Jvm) (cls : Nat) : ∀ (l : List (Kind × Item)) (w w' : World), getIds jvm cls w l = some w' →
    w'.globals = w.globals ∧ w'.next = w.next := by
  intro l
  induction l with
  | nil => intro w w' h; rw [getIds, Option.some.injEq] at h; subst h; exact ⟨rfl, rfl⟩
  | cons x l ih =>
    intro w w' h
    rw [getIds, Option.bind_eq_some_iff] at h
    obtain ⟨w1, h1, h2⟩ := h
    unfold getId at h1
    split at h1
    · cases h1
    · injection h1 with h1
      obtain ⟨e1, e2⟩ := ih _ _ h2
      subst h1
      exact ⟨e1, e2⟩

/-- Handles are distinct and smaller than the next one. -/
def Fresh (w : World) : Prop := (w.globals.map (·.1)).Nodup ∧ ∀ g ∈ w.globals, g.1 < w.next

theorem loadClass_fresh (jvm : Jvm) (w w' : World) (c : FindClass) (hf : Fresh w) (h : loadClass jvm w c = some w') :
    Fresh w' := by
  unfold loadClass at h
  split at h
  · cases h
  · rename_i cls hc
    simp only at h
    split at h
    · obtain ⟨e1, e2⟩ := getIds_globals _ _ _ _ _ h
      simp only [World.set] at e1 e2
      unfold Fresh
      rw [e1, e2]
      obtain ⟨f1, f2⟩ := hf
      refine ⟨?_, ?_⟩
      · rw [List.map_cons, List.nodup_cons]
        refine ⟨?_, f1⟩
        intro hm
        obtain ⟨g, hg, he⟩ := List.mem_map.1 hm
        have := f2 g hg
        omega
      · intro g hg
        rcases List.mem_cons.1 hg with rfl | hg
        · simp
        · have := f2 g hg; omega
    · cases h

theorem load_fresh (jvm : Jvm) : ∀ (l : List FindClass) (w w' : World), Fresh w → load jvm w l = some w' → Fresh w' := by
  intro l
  induction l with
  | nil => intro w w' hf h; rw [load, Option.some.injEq] at h; subst h; exact hf
  | cons c l ih =>
    intro w w' hf h
    rw [load, Option.bind_eq_some_iff] at h
    obtain ⟨w1, h1, h2⟩ := h
    exact ih _ _ (loadClass_fresh _ _ _ _ hf h1) h2

theorem find_handle (l : List (Nat × Nat)) (hn : (l.map (·.1)).Nodup) (h c : Nat) (hm : (h, c) ∈ l) :
    l.find? (·.1 = h) = some (h, c) := by
  induction l with
  | nil => cases hm
  | cons x l ih =>
    rw [List.map_cons, List.nodup_cons] at hn
    rcases List.mem_cons.1 hm with rfl | hm
    · simp
    · have hne : x.1 ≠ h := by
        rintro rfl
        exact hn.1 (List.mem_map.2 ⟨_, hm, rfl⟩)
      rw [List.find?_cons_of_neg (by simpa using hne)]
      exact ih hn.2 hm

/-! ## Values -/

theorem arms_match (upper : Text → Text) (name : Text) (items : List Enum.Item) (hv : (items.map (·.rustName)).Nodup)
    (it : Enum.Item) (hi : it ∈ items) :
    Enum.matchVariant (arms upper name items) it.rustName = some (itemVar upper name it.name) := by
  obtain ⟨i, hi⟩ := List.mem_iff_getElem?.1 hi
  refine Enum.matchVariant_nodup (arms upper name items) ?_ i _ _ ?_
  · unfold arms; rw [List.map_map]; exact hv
  · unfold arms; rw [List.getElem?_map, hi]; rfl

/-- **C73 (enum values).** When the library has been loaded, a Rust enum value handed to Java becomes the value of the static
field with the name of its item in the Java class of the enum — the class found under its name in the configured package —
whatever else the library contains and in whatever order the cache is filled. -/
theorem C73_enum_value (upper : Text → Text) (pkg name : Text) (items : List Enum.Item) (us : List Use)
    (calls order : List FindClass) (hus : ∀ u ∈ uses upper pkg (.enum name items), u ∈ us)
    (hcol : collect us = some calls) (ho : order.Perm calls) (hdecl : (globalVars calls).Nodup)
    (j : Java Obj) (value : Nat → Text → Option Obj) (hj : Faithful j value)
    (w w' : World) (hlog : w.log = []) (hg : w.globals = []) (hl : load j.jvm w order = some w')
    (hv : (items.map (·.rustName)).Nodup) (it : Enum.Item) (hi : it ∈ items) :
    ∃ cls, j.jvm.findClass (jniPath pkg name) = some cls ∧
      enumToJobject upper j w' name items it.rustName = value cls it.name := by
  obtain ⟨_, hcls, hmem⟩ := C32_load us calls order hcol ho hdecl j.jvm w w' hlog hl
  obtain ⟨hd, cls, a1, a2, a3, a4⟩ := hcls (enumVar upper name) (jniPath pkg name) (hus _ (by simp [uses]))
  obtain ⟨path, cls', f, b1, b2, b3, b4, b5⟩ := hmem .staticField
    ⟨itemVar upper name it.name, enumVar upper name, it.name, enumSig pkg name⟩
    (hus _ (by simp only [uses, List.mem_cons, List.mem_map]; exact Or.inr ⟨it, hi, rfl⟩))
  simp only at b1 b3 b4
  -- one path per class variable
  have hpath : path = jniPath pkg name := by
    by_cases he : path = jniPath pkg name
    · exact he
    · have := C32_class_conflict_refused us (enumVar upper name) path (jniPath pkg name) b1 (hus _ (by simp [uses])) he
      rw [hcol] at this; cases this
  rw [hpath, a1] at b2
  injection b2 with b2
  subst b2
  refine ⟨cls, a1, ?_⟩
  have hfresh := load_fresh j.jvm order w w' ⟨by simp [hg], by simp [hg]⟩ hl
  have hc : asClass w' (enumVar upper name) = some cls := by
    unfold asClass
    rw [a2]
    simp only
    rw [find_handle _ hfresh.1 _ _ a3]
    rfl
  unfold enumToJobject
  rw [hc]
  simp only
  rw [arms_match upper name items hv it hi]
  simp only
  have hf : asField w' (itemVar upper name it.name) = some f := by unfold asField; rw [b4]
  rw [hf]
  exact hj _ _ _ _ b3

/-- **C73 (both ways agree).** The Java constant that arrives in a callback is the one Java would get if the same value had been
returned as a number. -/
theorem C73_same_as_by_number (upper : Text → Text) (pkg name : Text) (items : List Enum.Item) (us : List Use)
    (calls order : List FindClass) (hus : ∀ u ∈ uses upper pkg (.enum name items), u ∈ us)
    (hcol : collect us = some calls) (ho : order.Perm calls) (hdecl : (globalVars calls).Nodup)
    (j : Java Obj) (value : Nat → Text → Option Obj) (hj : Faithful j value)
    (w w' : World) (hlog : w.log = []) (hg : w.globals = []) (hl : load j.jvm w order = some w')
    (hv : (items.map (·.rustName)).Nodup) (hnm : (items.map (·.name)).Nodup) (hacc : Enum.javaAccepted items = true)
    (it : Enum.Item) (hi : it ∈ items) :
    ∃ cls n x, j.jvm.findClass (jniPath pkg name) = some cls ∧ Enum.asJint items it.rustName = some x ∧
      Enum.javaFromInt items x = some n ∧ enumToJobject upper j w' name items it.rustName = value cls n := by
  obtain ⟨cls, h1, h2⟩ := C73_enum_value upper pkg name items us calls order hus hcol ho hdecl j value hj w w' hlog hg hl hv it hi
  obtain ⟨i, hii⟩ := List.mem_iff_getElem?.1 hi
  obtain ⟨_, r2, r3, _⟩ := Enum.C24_round_trip items hacc hv hnm i it hii
  exact ⟨cls, it.name, i, h1, r3, r2, h2⟩

/-! ## The generated pieces are accepted together -/

/-- The table entry of one item. -/
def entry (upper : Text → Text) (pkg : Text) : Decl → FindClass
  | .enum name items => ⟨enumVar upper name, jniPath pkg name, [], [],
      items.map fun it => ⟨itemVar upper name it.name, enumVar upper name, it.name, enumSig pkg name⟩, []⟩
  | .cls name => ⟨classVar upper name, jniPath pkg name, [], [], [],
      [⟨ptrVar upper name, classVar upper name, selfField, "J".toList⟩]⟩

theorem get_append_last (calls : List FindClass) (c : FindClass) (h : ∀ d ∈ calls, d.id ≠ c.id) :
    FindCache.get (calls ++ [c]) c.id = some c := by
  unfold FindCache.get
  rw [List.find?_append, List.find?_eq_none.2 (fun d hd => by simpa using h d hd)]
  simp

theorem put_append_last (calls : List FindClass) (c c' : FindClass) (hid : c'.id = c.id) (h : ∀ d ∈ calls, d.id ≠ c.id) :
    put (calls ++ [c]) c' = calls ++ [c'] := by
  induction calls with
  | nil => simp [put, hid]
  | cons d l ih =>
    rw [List.cons_append, put, if_neg (by rw [hid]; exact h d (by simp)), ih (fun x hx => h x (by simp [hx]))]
    rfl

theorem put_new (calls : List FindClass) (c : FindClass) (h : ∀ d ∈ calls, d.id ≠ c.id) : put calls c = calls ++ [c] := by
  induction calls with
  | nil => rfl
  | cons d l ih => rw [put, if_neg (h d (by simp)), ih (fun x hx => h x (by simp [hx]))]; rfl

theorem run_append (s : St) (a b : List Use) : run s (a ++ b) = (run s a).bind fun s => run s b := by
  induction a generalizing s with
  | nil => rfl
  | cons u a ih =>
    rw [List.cons_append, run, run]
    cases step s u with
    | none => rfl
    | some s1 => exact ih s1

theorem step_member (s : St) (k : Kind) (x : Item) (c : FindClass) (hg : FindCache.get s.calls x.classId = some c)
    (h1 : ∀ e ∈ c.items k, e.id ≠ x.id) (h2 : ∀ e ∈ c.items k, e.name ≠ x.name) :
    step s (.member k x) = some { s with calls := put s.calls (c.push k x) } := by
  have a1 : (c.items k).any (fun e => e.name = x.name && e.sig = x.sig && x.id ≠ e.id) = false := by
    rw [List.any_eq_false]
    intro e he
    simp [h2 e he]
  have a2 : (c.items k).any (fun e => e = x) = false := by
    rw [List.any_eq_false]
    intro e he
    simp only [decide_eq_true_eq]
    rintro rfl
    exact h1 e he rfl
  unfold step
  simp only [hg, a1, a2, Bool.false_eq_true, if_false]

theorem run_items (upper : Text → Text) (pkg name : Text) (calls : List FindClass)
    (h : ∀ d ∈ calls, d.id ≠ enumVar upper name) : ∀ (todo done : List Enum.Item),
    ((done ++ todo).map fun it => itemVar upper name it.name).Nodup →
    run ⟨calls ++ [entry upper pkg (.enum name done)], false⟩ (todo.map (itemUse upper pkg name)) =
      some ⟨calls ++ [entry upper pkg (.enum name (done ++ todo))], false⟩ := by
  intro todo
  induction todo with
  | nil => intro done _; simp [run]
  | cons it l ih =>
    intro done hn
    have hnew : ∀ x ∈ done, itemVar upper name x.name ≠ itemVar upper name it.name := by
      intro x hx he
      rw [List.map_append, List.nodup_append] at hn
      exact hn.2.2 _ (List.mem_map.2 ⟨x, hx, rfl⟩) _ (List.mem_map.2 ⟨it, by simp, rfl⟩) he
    rw [List.map_cons, run]
    have hstep : step ⟨calls ++ [entry upper pkg (.enum name done)], false⟩ (itemUse upper pkg name it) =
        some ⟨calls ++ [entry upper pkg (.enum name (done ++ [it]))], false⟩ := by
      have hg := get_append_last calls (entry upper pkg (.enum name done)) h
      rw [itemUse, step_member _ _ _ (entry upper pkg (.enum name done)) hg]
      · simp only
        rw [put_append_last calls (entry upper pkg (.enum name done)) _ (push_id _ _ _).1 h]
        simp [entry, FindClass.push]
      · intro e he
        simp only [entry, FindClass.items] at he
        obtain ⟨x, hx, rfl⟩ := List.mem_map.1 he
        exact hnew x hx
      · intro e he hc
        simp only [entry, FindClass.items] at he
        obtain ⟨x, hx, rfl⟩ := List.mem_map.1 he
        simp only at hc
        exact hnew x hx (by rw [hc])
    rw [hstep]
    simp only [Option.bind_some]
    have := ih (done ++ [it]) (by simpa using hn)
    simpa using this

theorem run_decl (upper : Text → Text) (pkg : Text) (d : Decl) (calls : List FindClass)
    (h : ∀ c ∈ calls, c.id ≠ (entry upper pkg d).id) (hn : (vars upper d).Nodup) :
    run ⟨calls, false⟩ (uses upper pkg d) = some ⟨calls ++ [entry upper pkg d], false⟩ := by
  have hget : ∀ id, (∀ c ∈ calls, c.id ≠ id) → FindCache.get calls id = none := by
    intro id hid
    unfold FindCache.get
    exact List.find?_eq_none.2 (fun d hd => by simpa using hid d hd)
  cases d with
  | enum name items =>
    replace h : ∀ c ∈ calls, c.id ≠ enumVar upper name := h
    have hstep : step ⟨calls, false⟩ (.findClass (enumVar upper name) (jniPath pkg name)) =
        some ⟨calls ++ [entry upper pkg (.enum name [])], false⟩ := by
      unfold step
      simp only
      rw [hget _ h]
      simp only
      rw [put_new _ _ h]
      rfl
    simp only [uses, run]
    rw [hstep]
    simp only [Option.bind_some]
    have := run_items upper pkg name calls h items [] (by
      simp only [vars, List.nodup_cons] at hn
      simpa using hn.2)
    simpa using this
  | cls name =>
    replace h : ∀ c ∈ calls, c.id ≠ classVar upper name := h
    have hstep : step ⟨calls, false⟩ (.findClass (classVar upper name) (jniPath pkg name)) =
        some ⟨calls ++ [newClass (classVar upper name) (jniPath pkg name)], false⟩ := by
      unfold step
      simp only
      rw [hget _ h]
      simp only
      rw [put_new _ _ h]
    simp only [uses, run]
    rw [hstep]
    simp only [Option.bind_some]
    have hstep2 : step ⟨calls ++ [newClass (classVar upper name) (jniPath pkg name)], false⟩
        (.member .field ⟨ptrVar upper name, classVar upper name, selfField, "J".toList⟩) =
        some ⟨calls ++ [entry upper pkg (.cls name)], false⟩ := by
      have hg := get_append_last calls (newClass (classVar upper name) (jniPath pkg name)) h
      rw [step_member _ _ _ _ hg (by simp [newClass, FindClass.items]) (by simp [newClass, FindClass.items])]
      simp only
      rw [put_append_last calls _ _ (push_id _ _ _).1 h]
      rfl
    rw [hstep2]
    rfl

theorem entry_vars (upper : Text → Text) (pkg : Text) (d : Decl) :
    (entry upper pkg d).id :: (entry upper pkg d).all.map (·.2.id) = vars upper d := by
  cases d <;> simp [entry, FindClass.all, vars]

theorem vars_head (upper : Text → Text) (pkg : Text) (d : Decl) : (entry upper pkg d).id ∈ vars upper d := by
  rw [← entry_vars upper pkg d]; simp

theorem run_decls (upper : Text → Text) (pkg : Text) : ∀ (todo done : List Decl),
    ((done ++ todo).flatMap (vars upper)).Nodup →
    run ⟨done.map (entry upper pkg), false⟩ (todo.flatMap (uses upper pkg)) =
      some ⟨(done ++ todo).map (entry upper pkg), false⟩ := by
  intro todo
  induction todo with
  | nil => intro done _; simp [run]
  | cons d l ih =>
    intro done hn
    rw [List.flatMap_cons, run_append]
    have hn' := hn
    rw [List.flatMap_append, List.nodup_append, List.flatMap_cons, List.nodup_append] at hn'
    rw [run_decl upper pkg d _ ?_ hn'.2.1.1]
    · simp only [Option.bind_some]
      have := ih (done ++ [d]) (by simpa using hn)
      simpa using this
    · intro c hc he
      obtain ⟨e, hem, rfl⟩ := List.mem_map.1 hc
      refine hn'.2.2 _ (List.mem_flatMap.2 ⟨e, hem, vars_head upper pkg e⟩) _ ?_ rfl
      rw [he]
      exact List.mem_append_left _ (vars_head upper pkg d)

/-- **C73 (accepted together).** The code generated for any number of enums and classes whose variables have different names is
accepted by the scan, and exactly these variables are declared, so the hypotheses of the other statements hold. -/
theorem C73_accepted (upper : Text → Text) (pkg : Text) (decls : List Decl) (hn : (decls.flatMap (vars upper)).Nodup) :
    ∃ calls, collect (decls.flatMap (uses upper pkg)) = some calls ∧ globalVars calls = decls.flatMap (vars upper) ∧
      (globalVars calls).Nodup := by
  have h := run_decls upper pkg decls [] (by simpa using hn)
  have e : globalVars (decls.map (entry upper pkg)) = decls.flatMap (vars upper) := by
    unfold globalVars
    rw [List.flatMap_map]
    congr 1
    funext d
    exact entry_vars upper pkg d
  refine ⟨decls.map (entry upper pkg), ?_, e, by rw [e]; exact hn⟩
  unfold collect
  simp only [List.map_nil, List.nil_append] at h
  rw [h]
  rfl

/-! ## Objects -/

/-- **C73 (objects).** An object handed to Java as a reference becomes a new Java object whose `mNativeObj` is the address of
exactly that Rust object; no other Java or Rust object changes, and one local reference is created. -/
theorem C73_object {T : Type} (x : T) (s : Jni.Jvm T) :
    ∃ a p s', objectToJobject x s = .ok (a, s') ∧ s'.heap[a]? = some (.obj p) ∧ 0 < p ∧
      s'.natives[p - 1]? = some x ∧
      (∀ b o, s.heap[b]? = some o → s'.heap[b]? = some o ∧ b ≠ a) ∧
      (∀ n y, s.natives[n]? = some y → s'.natives[n]? = some y ∧ n ≠ p - 1) ∧
      s'.locals = a :: s.locals ∧ s'.pins = s.pins := by
  refine ⟨s.heap.length, s.natives.length + 1,
    { Jni.addLocal { s with heap := s.heap ++ [Jni.JObj.obj 0] } s.heap.length with
      natives := s.natives ++ [x], heap := (s.heap ++ [Jni.JObj.obj 0]).set s.heap.length (Jni.JObj.obj (s.natives.length + 1)) }, ?_, ?_, by omega,
    ?_, ?_, ?_, rfl, rfl⟩
  · unfold objectToJobject
    show Jni.M.bind _ _ _ = _
    simp only [Jni.M.bind, Jni.alloc, bind, Jni.boxObject, Jni.setLongField, Jni.addLocal, pure, Jni.M.pure]
    rw [List.getElem?_append_right (Nat.le_refl _)]
    simp
  · simp
  · simp
  · intro b o hb
    have hlt := (List.getElem?_eq_some_iff.1 hb).1
    refine ⟨?_, by omega⟩
    rw [List.getElem?_set_ne (by omega), List.getElem?_append_left hlt, hb]
  · intro n y hy
    have hlt := (List.getElem?_eq_some_iff.1 hy).1
    refine ⟨?_, by omega⟩
    rw [List.getElem?_append_left hlt, hy]

/-- **C73 (the field of a class).** After loading, the field id used by `object_to_jobject` is the one of the `long` field
`mNativeObj` of the Java class with the name of the foreign class. -/
theorem C73_class_field (upper : Text → Text) (pkg name : Text) (us : List Use) (calls order : List FindClass)
    (hus : ∀ u ∈ uses upper pkg (.cls name), u ∈ us) (hcol : collect us = some calls) (ho : order.Perm calls)
    (hdecl : (globalVars calls).Nodup) (jvm : Jvm) (w w' : World) (hlog : w.log = []) (hg : w.globals = [])
    (hl : load jvm w order = some w') :
    ∃ cls f, jvm.findClass (jniPath pkg name) = some cls ∧ asClass w' (classVar upper name) = some cls ∧
      jvm.lookup .field cls "mNativeObj".toList "J".toList = some f ∧ asField w' (ptrVar upper name) = some f := by
  obtain ⟨_, hcls, hmem⟩ := C32_load us calls order hcol ho hdecl jvm w w' hlog hl
  obtain ⟨hd, cls, a1, a2, a3, a4⟩ := hcls (classVar upper name) (jniPath pkg name) (hus _ (by simp [uses]))
  obtain ⟨path, cls', f, b1, b2, b3, b4, b5⟩ := hmem .field
    ⟨ptrVar upper name, classVar upper name, selfField, "J".toList⟩ (hus _ (by simp [uses]))
  simp only at b1 b3 b4
  have hpath : path = jniPath pkg name := by
    by_cases he : path = jniPath pkg name
    · exact he
    · have := C32_class_conflict_refused us (classVar upper name) path (jniPath pkg name) b1 (hus _ (by simp [uses])) he
      rw [hcol] at this; cases this
  rw [hpath, a1] at b2
  injection b2 with b2
  subst b2
  have hfresh := load_fresh jvm order w w' ⟨by simp [hg], by simp [hg]⟩ hl
  refine ⟨cls, f, a1, ?_, b3, ?_⟩
  · unfold asClass
    rw [a2]
    simp only
    rw [find_handle _ hfresh.1 _ _ a3]
    rfl
  · unfold asField; rw [b4]

/-! ## Findings -/

/-- ASCII upper case, for the examples. -/
def asciiUpper (t : Text) : Text := t.map Char.toUpper

/-- **C73 (finding).** Two items of one enum that differ only in case (`Ab` and `AB`, both legal in Java and Rust) make the
generated Rust code declare the same variable twice, which rustc refuses. -/
theorem C73_finding_item_case :
    (collect (uses asciiUpper "p".toList (.enum "E".toList [⟨"Ab".toList, "E::Ab".toList⟩, ⟨"AB".toList, "E::AB".toList⟩]))).map
      (fun calls => decide (globalVars calls).Nodup) = some false := by decide

/-- **C73 (finding).** The variable of item `B_C` of enum `A` is the one of item `C` of enum `A_B`. -/
theorem C73_finding_underscore :
    itemVar asciiUpper "A".toList "B_C".toList = itemVar asciiUpper "A_B".toList "C".toList ∧
    (collect (uses asciiUpper "p".toList (.enum "A".toList [⟨"B_C".toList, "A::BC".toList⟩]) ++
      uses asciiUpper "p".toList (.enum "A_B".toList [⟨"C".toList, "AB::C".toList⟩]))).map
      (fun calls => decide (globalVars calls).Nodup) = some false := by decide

/-- **C73 (finding).** Two classes (or enums) whose names differ only in case make the generator give up. -/
theorem C73_finding_class_case :
    collect (uses asciiUpper "p".toList (.cls "Ab".toList) ++ uses asciiUpper "p".toList (.cls "AB".toList)) = none ∧
    collect (uses asciiUpper "p".toList (.enum "Ab".toList [⟨"X".toList, "Ab::X".toList⟩]) ++
      uses asciiUpper "p".toList (.enum "AB".toList [⟨"X".toList, "AB::X".toList⟩])) = none := by decide

/-! ## Non-vacuity -/

def demoDecls : List Decl :=
  [.enum "Color".toList [⟨"RED".toList, "Color::Red".toList⟩, ⟨"BLUE".toList, "Color::Blue".toList⟩], .cls "Foo".toList]

example : (demoDecls.flatMap (vars asciiUpper)).Nodup := by decide

example : jniPath "org.example".toList "Color".toList = "org/example/Color".toList := by decide

/-- A virtual machine with the two classes, loaded: both variants arrive as the right constants. -/
def demoJava : Java Text where
  jvm := ⟨fun p => if p = "p/Color".toList then some 1 else if p = "p/Foo".toList then some 2 else none,
    fun k c n _ => match k, c with
      | .staticField, 1 => if n = "RED".toList then some 10 else if n = "BLUE".toList then some 11 else none
      | .field, 2 => some 20
      | _, _ => none, fun _ => true⟩
  getStatic := fun c f => if c = 1 ∧ f = 10 then some "RED".toList else if c = 1 ∧ f = 11 then some "BLUE".toList else none

example : ((collect (demoDecls.flatMap (uses asciiUpper "p".toList))).bind fun calls =>
    (load demoJava.jvm ⟨fun _ => .null, [], 0, 0, []⟩ calls).bind fun w =>
      enumToJobject asciiUpper demoJava w "Color".toList
        [⟨"RED".toList, "Color::Red".toList⟩, ⟨"BLUE".toList, "Color::Blue".toList⟩] "Color::Blue".toList) =
    some "BLUE".toList := by decide

example : Faithful demoJava fun c n => if c = 1 ∧ (n = "RED".toList ∨ n = "BLUE".toList) then some n else none := by
  intro cls n sig f h
  simp only [demoJava] at h ⊢
  split at h
  · rename_i h1
    split at h
    · rename_i e; injection h with h; subst h; subst e; decide
    · split at h
      · rename_i e; injection h with h; subst h; subst e; decide
      · cases h
  · rename_i h1; cases h1
  · cases h

end Flapi.EnumCallback
