import Verif.Geometry.History

/-!
# C84: shapes and profiles as objects

Source: `/repo/weldx/geometry.py` 82-103 (`_to_list`), 895-910 (`Shape.__init__`), 1075-1088 (`add_segments`), 1090-1179 (changes in place),
1216-1298 (`reflect`, `reflect_across_line`, `transform`, `translate`), 1307-1326 (`Profile.__init__`), 1355-1371 (`add_shapes`).

Simplifications: as in `Model.lean`. Segments, lists of segments, shapes and profiles have an identity; a shape holds a reference to a list,
which is the list that was passed to the constructor. `copy.deepcopy` copies the list and every segment in it once; segment number `i` gets
the new number `next + i`. The list of shapes of a profile is made by the constructor and not shared.
-/

namespace Weldx.Geo.Objects

open Weldx.Geo

/-- all objects. `next`: the numbers of segments are smaller; `lists`: list objects with segments; `shapes`: the list `_segments` of each shape;
`profiles`: the shapes of each profile. -/
structure World where
  store : ℕ → Seg
  next : ℕ
  lists : List (List ℕ)
  shapes : List ℕ
  profiles : List (List ℕ)

/-- the segments of a shape -/
def World.segs (w : World) (x : ℕ) : List ℕ :=
  match w.shapes[x]? with
  | none => []
  | some l => (w.lists[l]?).getD []

/-- changes of a shape in place: `apply_translation`, `apply_transformation`, `apply_reflection`, `apply_reflection_across_line` -/
inductive Op
  | translation (v : V)
  | transformation (m : M)
  | reflection (n : V) (d : ℝ)
  | reflectionAcrossLine (a b : V)

/-- the method -/
noncomputable def Op.run : Op → Py GErr ShState Unit
  | .translation v => applyTranslation v
  | .transformation m => applyTransformation m
  | .reflection n d => applyReflection n d
  | .reflectionAcrossLine a b => applyReflectionAcrossLine a b

/-- call the method of a shape -/
noncomputable def inPlace (x : ℕ) (op : Op) : Py GErr World Unit := fun w =>
  match op.run ⟨w.store, w.segs x⟩ with
  | .ok _ s => .ok () { w with store := s.store }
  | .err e s => .err e { w with store := s.store }

/-- `Shape(segments)` for a list object, 895-910: the list is stored, not copied -/
noncomputable def newShape (l : ℕ) : Py GErr World ℕ := fun w =>
  match checkConnected (((w.lists[l]?).getD []).map w.store) with
  | .error e => .err e w
  | .ok _ => .ok w.shapes.length { w with shapes := w.shapes ++ [l] }

/-- `add_segments` with a list object, 1075-1088: the list of the shape is extended in place -/
noncomputable def addTo (x l : ℕ) : Py GErr World Unit := fun w =>
  match w.shapes[x]? with
  | none => .ok () w
  | some k =>
    match addSegments ((w.lists[l]?).getD []) ⟨w.store, (w.lists[k]?).getD []⟩ with
    | .err e _ => .err e w
    | .ok _ s => .ok () { w with lists := w.lists.set k s.segs }

/-- `copy.deepcopy(self)` -/
def deepcopy (w : World) (x : ℕ) : World where
  store := fun i => if w.next ≤ i then w.store (i - w.next) else w.store i
  next := w.next + w.next
  lists := w.lists ++ [(w.segs x).map (w.next + ·)]
  shapes := w.shapes ++ [w.lists.length]
  profiles := w.profiles

/-- `translate`, `transform`, `reflect`, `reflect_across_line`, 1216-1298: the number of the new shape -/
noncomputable def copied (x : ℕ) (op : Op) : Py GErr World ℕ := fun w =>
  match inPlace w.shapes.length op (deepcopy w x) with
  | .ok _ w' => .ok w.shapes.length w'
  | .err e w' => .err e w'

/-- argument of `Profile` and `add_shapes`: one object or a list of objects; `none` is an object that is no shape -/
inductive ShapeArg | one (x : Option ℕ) | list (l : List (Option ℕ))

/-- 1364-1365 -/
def ShapeArg.toList : ShapeArg → List (Option ℕ)
  | .one x => [x]
  | .list l => l

/-- 1355-1371 `add_shapes` -/
def addShapes (p : ℕ) (a : ShapeArg) : Py GErr World Unit := fun w =>
  if a.toList.all Option.isSome then
    .ok () { w with profiles := w.profiles.set p ((w.profiles[p]?).getD [] ++ a.toList.filterMap id) }
  else .err .typeError w

/-- 1307-1326 `Profile(shapes)` -/
def newProfile (a : ShapeArg) : Py GErr World ℕ := fun w =>
  match addShapes w.profiles.length a { w with profiles := w.profiles ++ [[]] } with
  | .ok _ w' => .ok w.profiles.length w'
  | .err e _ => .err e w

/-! ### Specification -/

/-- what a shape looks like -/
def World.look (w : World) (x : ℕ) : List Seg := (w.segs x).map w.store

/-- all references are valid -/
structure World.Ok (w : World) : Prop where
  lists : ∀ l ∈ w.lists, ∀ i ∈ l, i < w.next
  shapes : ∀ k ∈ w.shapes, k < w.lists.length

/-- two shapes share no segment -/
def World.Apart (w : World) (x y : ℕ) : Prop := ∀ i ∈ w.segs x, i ∉ w.segs y

/-- outcomes agree: both return or both raise the same exception -/
inductive Same {σ τ α β : Type} : Res GErr σ α → Res GErr τ β → Prop
  | ok {a b s t} : Same (.ok a s) (.ok b t)
  | err {e s t} : Same (.err e s) (.err e t)

/-! ### Methods work on the segments of the shape only -/

/-- The method changes only the segments of the shape, and acts in the same way on a copy. -/
structure Local (op : Py GErr ShState Unit) : Prop where
  segs : ∀ s, (op s).state.segs = s.segs
  frame : ∀ s i, i ∉ s.segs → (op s).state.store i = s.store i
  sim : ∀ (f : ℕ → ℕ) (s s' : ShState), f.Injective → s'.segs = s.segs.map f → (∀ i ∈ s.segs, s'.store (f i) = s.store i) →
    Same (op s) (op s') ∧ ∀ i ∈ s.segs, (op s').state.store (f i) = (op s).state.store i

theorem Local.bind {a b : Py GErr ShState Unit} (ha : Local a) (hb : Local b) : Local (a >>= fun _ => b) := by
  refine ⟨fun s => ?_, fun s i hi => ?_, fun f s s' hf hs hst => ?_⟩
  · have := ha.segs s
    rw [Py.bind_apply]
    cases h : a s with
    | ok u t =>
      rw [h] at this
      simp only [Res.state_ok] at this
      simp only [hb.segs t, this]
    | err e t => rw [h] at this; exact this
  · have h1 := ha.segs s
    have h2 := ha.frame s i hi
    rw [Py.bind_apply]
    cases h : a s with
    | ok u t =>
      rw [h] at h1 h2
      simp only [Res.state_ok] at h1 h2
      simp only [hb.frame t i (by rw [h1]; exact hi), h2]
    | err e t => rw [h] at h2; exact h2
  · obtain ⟨hS, hT⟩ := ha.sim f s s' hf hs hst
    have h1 := ha.segs s
    have h2 := ha.segs s'
    rw [Py.bind_apply, Py.bind_apply]
    cases h : a s with
    | ok u t =>
      cases h' : a s' with
      | err e t' => rw [h, h'] at hS; cases hS
      | ok u' t' =>
        rw [h] at h1 hT; rw [h'] at h2 hT
        simp only [Res.state_ok] at h1 h2 hT
        have := hb.sim f t t' hf (by rw [h1, h2, hs]) (by rw [h1]; exact hT)
        rw [h1] at this
        exact this
    | err e t =>
      cases h' : a s' with
      | ok u' t' => rw [h, h'] at hS; cases hS
      | err e' t' =>
        rw [h, h'] at hS; cases hS
        rw [h, h'] at hT
        exact ⟨.err, hT⟩

theorem local_raise (e : GErr) : Local (Py.raise e) :=
  ⟨fun _ => rfl, fun _ _ _ => rfl, fun _ _ _ _ _ h => ⟨.err, h⟩⟩

theorem translate_frame (v : V) : ∀ (l : List ℕ) (st : ℕ → Seg) (i : ℕ), i ∉ l →
    (l.foldl (fun st i => Function.update st i ((st i).translate v)) st) i = st i
  | [], _, _, _ => rfl
  | j :: l, st, i, hi => by
    simp only [List.mem_cons, not_or] at hi
    rw [List.foldl_cons, translate_frame v l _ i hi.2, Function.update_of_ne hi.1]

theorem translate_sim (v : V) {f : ℕ → ℕ} (hf : f.Injective) (all : List ℕ) : ∀ (l : List ℕ) (st st' : ℕ → Seg), l ⊆ all →
    (∀ i ∈ all, st' (f i) = st i) → ∀ i ∈ all, ((l.map f).foldl (fun st i => Function.update st i ((st i).translate v)) st') (f i) =
      (l.foldl (fun st i => Function.update st i ((st i).translate v)) st) i
  | [], _, _, _, h => h
  | j :: l, st, st', hl, h => by
    rw [List.map_cons, List.foldl_cons, List.foldl_cons]
    refine translate_sim v hf all l _ _ (fun x hx => hl (by simp [hx])) fun i hi => ?_
    by_cases hij : i = j
    · subst hij; simp [h i hi]
    · rw [Function.update_of_ne hij, Function.update_of_ne (fun e => hij (hf e)), h i hi]

theorem local_translation (v : V) : Local (applyTranslation v) := by
  refine ⟨fun _ => rfl, fun s i hi => translate_frame v s.segs s.store i hi, fun f s s' hf hs hst => ⟨.ok, ?_⟩⟩
  have := translate_sim v hf s.segs s.segs s.store s'.store (fun _ h => h) hst
  simp only [applyTranslation, Res.state_ok, hs]
  exact this

theorem transform_segs (m : M) : ∀ (l : List ℕ) (s : ShState), (transformAll m l s).state.segs = s.segs
  | [], s => rfl
  | j :: l, s => by
    simp only [transformAll]
    cases (s.store j).transform m with
    | ok u x => exact transform_segs m l _
    | err e x => rfl

theorem transform_frame (m : M) : ∀ (l : List ℕ) (s : ShState) (i : ℕ), i ∉ l → (transformAll m l s).state.store i = s.store i
  | [], s, _, _ => rfl
  | j :: l, s, i, hi => by
    simp only [List.mem_cons, not_or] at hi
    simp only [transformAll]
    cases (s.store j).transform m with
    | ok u x => simp only; rw [transform_frame m l _ i hi.2]; exact Function.update_of_ne hi.1 _ _
    | err e x => exact Function.update_of_ne hi.1 _ _

theorem transform_sim (m : M) {f : ℕ → ℕ} (hf : f.Injective) (all : List ℕ) : ∀ (l : List ℕ) (s s' : ShState), l ⊆ all →
    (∀ i ∈ all, s'.store (f i) = s.store i) →
    Same (transformAll m l s) (transformAll m (l.map f) s') ∧
      ∀ i ∈ all, (transformAll m (l.map f) s').state.store (f i) = (transformAll m l s).state.store i
  | [], _, _, _, h => ⟨.ok, h⟩
  | j :: l, s, s', hl, h => by
    have hj := h j (hl (by simp))
    have hu : ∀ x, ∀ i ∈ all, Function.update s'.store (f j) x (f i) = Function.update s.store j x i := fun x i hi => by
      by_cases hij : i = j
      · subst hij; simp
      · rw [Function.update_of_ne hij, Function.update_of_ne (fun e => hij (hf e)), h i hi]
    simp only [transformAll, List.map_cons, hj]
    cases (s.store j).transform m with
    | ok u x => exact transform_sim m hf all l _ _ (fun y hy => hl (by simp [hy])) (hu x)
    | err e x => exact ⟨.err, hu x⟩

theorem local_transformation (m : M) : Local (applyTransformation m) := by
  refine ⟨fun s => transform_segs m s.segs s, fun s i hi => transform_frame m s.segs s i hi, fun f s s' hf hs hst => ?_⟩
  have := transform_sim m hf s.segs s.segs s s' (fun _ h => h) hst
  rw [← hs] at this
  exact this

theorem local_reflection (n : V) (d : ℝ) : Local (applyReflection n d) := by
  unfold applyReflection
  split
  · exact local_raise _
  · exact (local_translation _).bind ((local_transformation _).bind (local_translation _))

theorem local_run (op : Op) : Local op.run := by
  cases op with
  | translation v => exact local_translation v
  | transformation m => exact local_transformation m
  | reflection n d => exact local_reflection n d
  | reflectionAcrossLine a b =>
    simp only [Op.run]
    unfold applyReflectionAcrossLine
    split
    · exact local_raise _
    · exact local_reflection _ _

theorem inPlace_state (x : ℕ) (op : Op) (w : World) :
    (inPlace x op w).state = { w with store := (op.run ⟨w.store, w.segs x⟩).state.store } := by
  unfold inPlace
  cases op.run ⟨w.store, w.segs x⟩ <;> rfl

/-! ### Changes in place -/

/-- **C84** (changes in place): a method that moves a shape changes only segments of this shape, whether it raises or not. All shapes that
share no segment with it look the same as before, and no list, shape or profile changes its members. -/
theorem C84_in_place (x : ℕ) (op : Op) (w : World) :
    (∀ i, i ∉ w.segs x → (inPlace x op w).state.store i = w.store i) ∧
    (∀ y, w.Apart y x → (inPlace x op w).state.look y = w.look y) ∧
    (inPlace x op w).state.lists = w.lists ∧ (inPlace x op w).state.shapes = w.shapes ∧
    (inPlace x op w).state.profiles = w.profiles := by
  rw [inPlace_state]
  have hf : ∀ i, i ∉ w.segs x → (op.run ⟨w.store, w.segs x⟩).state.store i = w.store i := (local_run op).frame ⟨w.store, w.segs x⟩
  refine ⟨hf, fun y hy => ?_, rfl, rfl, rfl⟩
  exact List.map_congr_left fun i hi => hf i (hy i hi)

/-- changes of shapes in place, one after the other; exceptions do not end the sequence -/
noncomputable def history (w : World) (cs : List (ℕ × Op)) : World := cs.foldl (fun w c => (inPlace c.1 c.2 w).state) w

/-- **C84** (histories): a shape keeps its form as long as only shapes are moved that share no segment with it. -/
theorem C84_history (y : ℕ) : ∀ (cs : List (ℕ × Op)) (w : World), (∀ c ∈ cs, w.Apart y c.1) → (history w cs).look y = w.look y
  | [], _, _ => rfl
  | c :: cs, w, h => by
    have h1 := C84_in_place c.1 c.2 w
    have hsegs : ∀ x, (inPlace c.1 c.2 w).state.segs x = w.segs x := fun x => by
      simp only [World.segs, h1.2.2.1, h1.2.2.2.1]
    have := C84_history y cs (inPlace c.1 c.2 w).state fun d hd => by
      unfold World.Apart
      rw [hsegs, hsegs]
      exact h d (by simp [hd])
    exact this.trans (h1.2.1 y (h c (by simp)))

/-! ### Copies -/

theorem segs_mem {w : World} (hw : w.Ok) {x i : ℕ} (hi : i ∈ w.segs x) : i < w.next := by
  unfold World.segs at hi
  cases hx : w.shapes[x]? with
  | none => simp [hx] at hi
  | some k =>
    rw [hx] at hi
    cases hk : w.lists[k]? with
    | none => simp [hk] at hi
    | some l =>
      simp only [hk, Option.getD_some] at hi
      exact hw.lists l (List.mem_of_getElem? hk) i hi

theorem deepcopy_segs_old {w : World} (hw : w.Ok) (x : ℕ) {y : ℕ} (hy : y < w.shapes.length) : (deepcopy w x).segs y = w.segs y := by
  unfold World.segs deepcopy
  simp only [List.getElem?_append_left hy, List.getElem?_eq_getElem hy]
  rw [List.getElem?_append_left (hw.shapes _ (List.getElem_mem hy))]

theorem deepcopy_segs_new (w : World) (x : ℕ) : (deepcopy w x).segs w.shapes.length = (w.segs x).map (w.next + ·) := by
  conv_lhs => unfold World.segs deepcopy
  simp

theorem deepcopy_look_old {w : World} (hw : w.Ok) (x : ℕ) {y : ℕ} (hy : y < w.shapes.length) : (deepcopy w x).look y = w.look y := by
  unfold World.look
  rw [deepcopy_segs_old hw x hy]
  refine List.map_congr_left fun i hi => ?_
  have := segs_mem hw hi
  simp [deepcopy, Nat.not_le.2 this]

theorem copied_state (x : ℕ) (op : Op) (w : World) :
    (copied x op w).state = (inPlace w.shapes.length op (deepcopy w x)).state := by
  unfold copied
  cases inPlace w.shapes.length op (deepcopy w x) <;> rfl

/-- **C84** (copies leave everything as it was): `translate`, `transform`, `reflect` and `reflect_across_line` change no object that existed
before, not even if they raise. -/
theorem C84_copy_frame (x : ℕ) (op : Op) {w : World} (hw : w.Ok) :
    (∀ i, i < w.next → (copied x op w).state.store i = w.store i) ∧
    (∀ k, k < w.lists.length → (copied x op w).state.lists[k]? = w.lists[k]?) ∧
    (∀ y, y < w.shapes.length → (copied x op w).state.shapes[y]? = w.shapes[y]? ∧ (copied x op w).state.look y = w.look y) ∧
    (copied x op w).state.profiles = w.profiles := by
  rw [copied_state]
  obtain ⟨h1, h2, h3, h4, h5⟩ := C84_in_place w.shapes.length op (deepcopy w x)
  refine ⟨fun i hi => ?_, fun k hk => ?_, fun y hy => ⟨?_, ?_⟩, h5⟩
  · rw [h1 i]
    · simp [deepcopy, Nat.not_le.2 hi]
    · rw [deepcopy_segs_new]
      intro hm
      obtain ⟨j, -, rfl⟩ := List.mem_map.1 hm
      omega
  · rw [h3]
    simp [deepcopy, List.getElem?_append_left hk]
  · rw [h4]
    simp [deepcopy, List.getElem?_append_left hy]
  · rw [h2 y, deepcopy_look_old hw x hy]
    intro i hi
    rw [deepcopy_segs_old hw x hy] at hi
    rw [deepcopy_segs_new]
    intro hm
    obtain ⟨j, -, rfl⟩ := List.mem_map.1 hm
    have := segs_mem hw hi
    omega

/-- **C84** (what a copy looks like): exactly like the shape itself after the corresponding change in place, and an exception is raised
exactly if the change in place raises it. -/
theorem C84_copy_value (x : ℕ) (op : Op) {w : World} (hw : w.Ok) :
    Same (inPlace x op w) (copied x op w) ∧ (copied x op w).state.look w.shapes.length = (inPlace x op w).state.look x := by
  have hsim := (local_run op).sim (w.next + ·) ⟨w.store, w.segs x⟩ ⟨(deepcopy w x).store, (deepcopy w x).segs w.shapes.length⟩
    (fun a b h => by simpa using h) (deepcopy_segs_new w x) (fun i _ => by simp [deepcopy])
  constructor
  · have hs := hsim.1
    unfold copied inPlace
    cases h : op.run ⟨w.store, w.segs x⟩ with
    | ok u s =>
      cases h' : op.run ⟨(deepcopy w x).store, (deepcopy w x).segs w.shapes.length⟩ with
      | ok u' s' => exact .ok
      | err e s' => rw [h, h'] at hs; cases hs
    | err e s =>
      cases h' : op.run ⟨(deepcopy w x).store, (deepcopy w x).segs w.shapes.length⟩ with
      | ok u' s' => rw [h, h'] at hs; cases hs
      | err e' s' => rw [h, h'] at hs; cases hs; exact .err
  · rw [copied_state, inPlace_state, inPlace_state]
    have e1 : ∀ st : ℕ → Seg, ({ deepcopy w x with store := st } : World).look w.shapes.length = ((w.segs x).map (w.next + ·)).map st := by
      intro st
      unfold World.look
      rw [← deepcopy_segs_new w x]; rfl
    have e2 : ∀ st : ℕ → Seg, ({ w with store := st } : World).look x = (w.segs x).map st := fun st => rfl
    rw [e1, e2, List.map_map]
    exact List.map_congr_left fun i hi => hsim.2 i hi

/-- **C84** (copies are independent): the new shape shares no segment with any other shape; moving shapes that existed before never changes
the copy, and moving the copy never changes the others. -/
theorem C84_copy_independent (x : ℕ) (op : Op) {w w' : World} (hw : w.Ok) {n : ℕ} (h : copied x op w = .ok n w') :
    n = w.shapes.length ∧ w'.Ok ∧ (∀ y, y < n → w'.Apart n y ∧ w'.Apart y n) ∧
    (∀ cs : List (ℕ × Op), (∀ c ∈ cs, c.1 < n) → (history w' cs).look n = w'.look n) ∧
    (∀ cs : List (ℕ × Op), (∀ c ∈ cs, c.1 = n) → ∀ y, y < n → (history w' cs).look y = w.look y) := by
  have hst : w' = (copied x op w).state := by rw [h]; rfl
  have hn : n = w.shapes.length := by
    unfold copied at h
    cases hi : inPlace w.shapes.length op (deepcopy w x) with
    | ok u s => rw [hi] at h; cases h; rfl
    | err e s => rw [hi] at h; cases h
  subst hn
  have hsegs : ∀ y, w'.segs y = (deepcopy w x).segs y := by
    intro y
    rw [hst, copied_state, inPlace_state]; rfl
  have hap : ∀ y, y < w.shapes.length → w'.Apart w.shapes.length y ∧ w'.Apart y w.shapes.length := by
    intro y hy
    constructor
    · intro i hi hi'
      rw [hsegs, deepcopy_segs_new] at hi
      rw [hsegs, deepcopy_segs_old hw x hy] at hi'
      obtain ⟨j, -, rfl⟩ := List.mem_map.1 hi
      have := segs_mem hw hi'
      omega
    · intro i hi hi'
      rw [hsegs, deepcopy_segs_new] at hi'
      rw [hsegs, deepcopy_segs_old hw x hy] at hi
      obtain ⟨j, -, rfl⟩ := List.mem_map.1 hi'
      have := segs_mem hw hi
      omega
  refine ⟨rfl, ?_, hap, ?_, ?_⟩
  · rw [hst, copied_state, inPlace_state]
    constructor
    · intro l hl i hi
      simp only [deepcopy, List.mem_append, List.mem_singleton] at hl ⊢
      rcases hl with hl | rfl
      · have := hw.lists l hl i hi; omega
      · obtain ⟨j, hj, rfl⟩ := List.mem_map.1 hi
        have := segs_mem hw hj; omega
    · intro k hk
      simp only [deepcopy, List.mem_append, List.mem_singleton, List.length_append, List.length_singleton] at hk ⊢
      rcases hk with hk | rfl
      · have := hw.shapes k hk; omega
      · omega
  · exact fun cs hcs => C84_history _ cs w' fun c hc => (hap c.1 (hcs c hc)).1
  · intro cs hcs y hy
    rw [C84_history y cs w' fun c hc => by rw [hcs c hc]; exact (hap y hy).2, hst]
    exact ((C84_copy_frame x op hw).2.2.1 y hy).2

/-! ### Adding segments -/

/-- **C84** (`add_segments`): an accepted call extends the list object of the shape by the passed segments. A shape looks different
afterwards only if it holds the same list object; all shapes with this list object get the new segments. -/
theorem C84_add {x l : ℕ} {w w' : World} (h : addTo x l w = .ok () w') :
    w'.store = w.store ∧ w'.shapes = w.shapes ∧ w'.profiles = w.profiles ∧
    (∀ y, w.shapes[y]? ≠ w.shapes[x]? → w'.look y = w.look y) ∧
    (∀ y k, w.shapes[y]? = some k → w.shapes[x]? = some k → k < w.lists.length →
      w'.look y = w.look y ++ ((w.lists[l]?).getD []).map w.store ∧ w'.lists[k]? = some (w.segs y ++ (w.lists[l]?).getD [])) := by
  unfold addTo at h
  cases hx : w.shapes[x]? with
  | none =>
    rw [hx] at h; cases h
    exact ⟨rfl, rfl, rfl, fun _ _ => rfl, fun y k hy hk => by simp at hk⟩
  | some k =>
    rw [hx] at h
    simp only at h
    cases ha : addSegments ((w.lists[l]?).getD []) ⟨w.store, (w.lists[k]?).getD []⟩ with
    | err e s => rw [ha] at h; cases h
    | ok u s =>
      rw [ha] at h; cases h
      have hs : s.segs = (w.lists[k]?).getD [] ++ (w.lists[l]?).getD [] := by
        unfold addSegments at ha
        simp only [Py.get_bind] at ha
        revert ha
        cases ((w.lists[k]?).getD []).getLast? with
        | none =>
          simp only [Py.pure_bind']
          rw [Py.bind_apply]
          cases checkConnected (((w.lists[l]?).getD []).map w.store) with
          | error e => intro ha; simp [Py.lift] at ha
          | ok u => intro ha; simp only [Py.lift_ok, Py.modify_apply, Res.ok.injEq] at ha; rw [← ha.2]
        | some z =>
          cases (w.lists[l]?).getD [] with
          | nil => intro ha; simp at ha
          | cons y t =>
            simp only
            rw [Py.bind_apply]
            cases checkConnected [w.store z, w.store y] with
            | error e => intro ha; simp [Py.lift] at ha
            | ok u =>
              simp only [Py.lift_ok]
              rw [Py.bind_apply]
              cases checkConnected ((y :: t).map w.store) with
              | error e => intro ha; simp [Py.lift] at ha
              | ok u => intro ha; simp only [Py.lift_ok, Py.modify_apply, Res.ok.injEq] at ha; rw [← ha.2]
      refine ⟨rfl, rfl, rfl, fun y hy => ?_, fun y k' hy hk hlt => ?_⟩
      · have : (World.mk w.store w.next (w.lists.set k s.segs) w.shapes w.profiles).segs y = w.segs y := by
          unfold World.segs
          simp only
          cases hy' : w.shapes[y]? with
          | none => rfl
          | some k' =>
            have hne : k ≠ k' := by
              rintro rfl
              exact hy hy'
            simp only [List.getElem?_set_ne hne]
        unfold World.look
        rw [this]
      · cases hk
        have hsg : w.segs y = (w.lists[k]?).getD [] := by simp [World.segs, hy]
        refine ⟨?_, ?_⟩
        · unfold World.look
          rw [hsg]
          have : (World.mk w.store w.next (w.lists.set k s.segs) w.shapes w.profiles).segs y = s.segs := by
            simp [World.segs, hy, hlt]
          rw [this, hs, List.map_append]
        · simp only [List.getElem?_set_self hlt, hs, hsg]

/-- **C84** (`add_segments`, refused): nothing changes. -/
theorem C84_add_refused {x l : ℕ} {w w' : World} {e : GErr} (h : addTo x l w = .err e w') : w' = w := by
  unfold addTo at h
  cases hx : w.shapes[x]? with
  | none => rw [hx] at h; cases h
  | some k =>
    rw [hx] at h
    simp only at h
    cases ha : addSegments ((w.lists[l]?).getD []) ⟨w.store, (w.lists[k]?).getD []⟩ with
    | ok u s => rw [ha] at h; cases h
    | err e s => rw [ha] at h; cases h; rfl

/-- **C84** (copies, adding segments): a copy has its own list, so that adding segments to the copy changes no other shape, and adding
segments to another shape does not change the copy. -/
theorem C84_copy_add (x : ℕ) (op : Op) {w w' w'' : World} (hw : w.Ok) {n : ℕ} (h : copied x op w = .ok n w') {y l : ℕ} (hy : y < n) :
    (addTo n l w' = .ok () w'' → w''.look y = w'.look y) ∧ (addTo y l w' = .ok () w'' → w''.look n = w'.look n) := by
  have hst : w' = (copied x op w).state := by rw [h]; rfl
  obtain ⟨rfl, -⟩ := C84_copy_independent x op hw h
  have hne : w'.shapes[y]? ≠ w'.shapes[w.shapes.length]? := by
    have h1 : w'.shapes = w.shapes ++ [w.lists.length] := by rw [hst, copied_state, inPlace_state]; rfl
    rw [h1, List.getElem?_append_left hy, List.getElem?_eq_getElem hy]
    simp only [List.getElem?_concat_length, ne_eq, Option.some.injEq]
    have := hw.shapes _ (List.getElem_mem hy)
    omega
  exact ⟨fun ha => (C84_add ha).2.2.2.1 y hne, fun ha => (C84_add ha).2.2.2.1 _ hne.symm⟩

/-! ### Profiles -/

/-- **C84** (profiles): `add_shapes` appends the shapes in their order to this profile and changes no other profile and no shape; if there is
an object that is no shape, nothing changes. -/
theorem C84_profile_add {p : ℕ} {a : ShapeArg} {w : World} (hp : p < w.profiles.length) :
    if none ∈ a.toList then addShapes p a w = .err .typeError w
    else ∃ l w', addShapes p a w = .ok () w' ∧ l.map some = a.toList ∧ w'.profiles[p]? = some (w.profiles[p] ++ l) ∧
      (∀ q, q ≠ p → w'.profiles[q]? = w.profiles[q]?) ∧ w'.store = w.store ∧ w'.lists = w.lists ∧ w'.shapes = w.shapes := by
  have hall : a.toList.all Option.isSome = true ↔ none ∉ a.toList := by
    rw [List.all_eq_true]
    constructor
    · intro h hn; exact absurd (h none hn) (by simp)
    · intro h x hx
      cases x with
      | none => exact absurd hx h
      | some x => rfl
  by_cases hn : none ∈ a.toList
  · rw [if_pos hn]
    unfold addShapes
    rw [if_neg (fun h => hall.1 h hn)]
  · rw [if_neg hn]
    refine ⟨a.toList.filterMap id, { w with profiles := w.profiles.set p ((w.profiles[p]?).getD [] ++ a.toList.filterMap id) },
      by unfold addShapes; rw [if_pos (hall.2 hn)], ?_, ?_, fun q hq => ?_, rfl, rfl, rfl⟩
    · generalize a.toList = l at hn
      induction l with
      | nil => rfl
      | cons x t ih =>
        cases x with
        | none => simp at hn
        | some x =>
          simp only [List.mem_cons, not_or] at hn
          simp only [List.filterMap_cons, id, List.map_cons]
          rw [show List.filterMap (fun x => x) t = List.filterMap id t from rfl, ih hn.2]
    · simp [hp]
    · simp only
      rw [List.getElem?_set_ne (fun e => hq e.symm)]

/-- **C84** (new profiles): a profile consists of exactly the passed shapes; it has its own list, so that the profile does not change when
other profiles are made or extended. Nothing is made if an object is no shape. -/
theorem C84_profile_new (a : ShapeArg) (w : World) :
    if none ∈ a.toList then newProfile a w = .err .typeError w
    else ∃ l w', newProfile a w = .ok w.profiles.length w' ∧ l.map some = a.toList ∧ w'.profiles = w.profiles ++ [l] ∧
      w'.store = w.store ∧ w'.lists = w.lists ∧ w'.shapes = w.shapes := by
  have h := C84_profile_add (p := w.profiles.length) (a := a) (w := { w with profiles := w.profiles ++ [[]] }) (by simp)
  by_cases hn : none ∈ a.toList
  · rw [if_pos hn] at h ⊢
    unfold newProfile; rw [h]
  · rw [if_neg hn] at h ⊢
    obtain ⟨l, w', e, hl, hp, hq, h1, h2, h3⟩ := h
    refine ⟨l, w', by unfold newProfile; rw [e], hl, ?_, h1, h2, h3⟩
    have hlen : w'.profiles.length = w.profiles.length + 1 := by
      unfold addShapes at e
      split at e
      · cases e; simp
      · cases e
    refine List.ext_getElem? fun q => ?_
    by_cases hqp : q = w.profiles.length
    · subst hqp; rw [hp]; simp
    · rw [hq q hqp]
      rcases lt_or_gt_of_ne hqp with hlt | hgt
      · rw [List.getElem?_append_left hlt, List.getElem?_append_left hlt]
      · rw [List.getElem?_eq_none (by simp; omega), List.getElem?_eq_none (by simp; omega)]

/-! ### Examples and counterexamples -/

/-- a line from (0, 0) to (1, 0), one from (1, 0) to (1, 1), and one from (1, 1) to (2, 2) -/
noncomputable def exStore : ℕ → Seg
  | 0 => ln ![0, 0] ![1, 0]
  | 1 => ln ![1, 0] ![1, 1]
  | _ => ln ![1, 1] ![2, 2]

/-- two shapes from the same list object 0 with the first two lines; list 1 has the third line -/
noncomputable def exShared : World := ⟨exStore, 3, [[0, 1], [2]], [0, 0], []⟩

/-- two shapes from different list objects that share the line number 1 -/
noncomputable def exSegment : World := ⟨exStore, 3, [[0, 1], [1, 2]], [0, 1], []⟩

example : exShared.Ok ∧ exSegment.Ok := by
  refine ⟨⟨?_, ?_⟩, ?_, ?_⟩ <;> simp [exShared, exSegment]

/-- **C84.** A shape is made from a list exactly if its segments are connected; nothing else changes. -/
theorem C84_shape_new (l : ℕ) (w : World) :
    (Linked Close (((w.lists[l]?).getD []).map w.store) →
      ∃ w', newShape l w = .ok w.shapes.length w' ∧ w'.shapes = w.shapes ++ [l] ∧ w'.store = w.store ∧ w'.lists = w.lists ∧
        w'.profiles = w.profiles ∧ w'.look w.shapes.length = ((w.lists[l]?).getD []).map w.store) ∧
    (¬ Linked Close (((w.lists[l]?).getD []).map w.store) → ∃ e, newShape l w = .err e w) := by
  constructor
  · intro h
    rw [← checkConnected_iff] at h
    refine ⟨{ w with shapes := w.shapes ++ [l] }, by simp only [newShape, h], rfl, rfl, rfl, rfl, ?_⟩
    simp [World.look, World.segs]
  · intro h
    rw [← checkConnected_iff] at h
    unfold newShape
    cases hc : checkConnected (((w.lists[l]?).getD []).map w.store) with
    | error e => exact ⟨e, rfl⟩
    | ok u => exact absurd hc h

/-- both shapes of `exShared` are made by the constructor from one list -/
theorem exShared_made : ∃ w w', newShape 0 ⟨exStore, 3, [[0, 1], [2]], [], []⟩ = .ok 0 w ∧ newShape 0 w = .ok 1 w' ∧ w' = exShared := by
  have hc : checkConnected ([0, 1].map exStore) = .ok () := by
    rw [checkConnected_iff]
    simp only [List.map_cons, List.map_nil, exStore]
    exact linked_cons.2 ⟨close_ln.2 (vectorIsClose_refl _), linked_one _⟩
  refine ⟨⟨exStore, 3, [[0, 1], [2]], [0], []⟩, exShared, ?_, ?_, rfl⟩
  · unfold newShape
    simp only [List.getElem?_cons_zero, Option.getD_some]
    rw [hc]; rfl
  · unfold newShape
    simp only [List.getElem?_cons_zero, Option.getD_some]
    rw [hc]; rfl

/-- Adding segments to a shape can change another shape: both were made from the same list. -/
theorem C84_add_counterexample :
    ∃ w w' : World, w.Ok ∧ addTo 0 1 w = .ok () w' ∧ (w.look 1).length = 2 ∧ (w'.look 1).length = 3 := by
  have h1 : checkConnected [exStore 1, exStore 2] = .ok () := by
    rw [checkConnected_iff]
    exact linked_cons.2 ⟨close_ln.2 (vectorIsClose_refl _), linked_one _⟩
  have h2 : checkConnected ([2].map exStore) = .ok () := by
    rw [checkConnected_iff]; exact linked_one _
  refine ⟨exShared, ⟨exStore, 3, [[0, 1, 2], [2]], [0, 0], []⟩, by constructor <;> simp [exShared], ?_, rfl, rfl⟩
  simp only [addTo, exShared, List.getElem?_cons_zero, List.getElem?_cons_succ, Option.getD_some, addSegments, Py.get_bind,
    List.getLast?_cons_cons, List.getLast?_singleton, h1, Py.lift_ok_bind, h2, Py.modify_apply]
  rfl

/-- Moving a shape can change another shape, which is then not connected any more: both contain the same segment. -/
theorem C84_in_place_counterexample :
    ∃ (w : World) (v : V), w.Ok ∧ Linked Close (w.look 1) ∧ ¬ Linked Close ((inPlace 0 (.translation v) w).state.look 1) := by
  refine ⟨exSegment, ![5, 0], by constructor <;> simp [exSegment], ?_, ?_⟩
  · exact linked_cons.2 ⟨close_ln.2 (vectorIsClose_refl _), linked_one _⟩
  · intro h
    have hl : (inPlace 0 (.translation ![5, 0]) exSegment).state.look 1 =
        [(ln ![1, 0] ![1, 1]).translate ![5, 0], ln ![1, 1] ![2, 2]] := by
      rw [inPlace_state]
      simp [World.look, World.segs, exSegment, Op.run, applyTranslation, exStore, Function.update]
    rw [hl] at h
    have hc := (linked_cons.1 h).1
    simp only [ln, Seg.translate] at hc
    have : vectorIsClose (![1, 1] + ![5, 0]) ![1, 1] := by
      have := hc
      simpa [Close, Seg.pointEnd, Seg.pointStart, Seg.point, clip] using this
    have h0 := this.1
    simp [isclose] at h0
    norm_num at h0

/-- a copy in `exShared` that is moved -/
example : ∃ n w', copied 0 (.translation ![5, 0]) exShared = .ok n w' ∧ n = 2 ∧ w'.look 2 ≠ w'.look 0 := by
  refine ⟨_, _, rfl, rfl, ?_⟩
  intro h
  have h0 := congrArg (fun l => l.head?) h
  simp [World.look, World.segs, exShared, deepcopy, exStore, Function.update, ln, Seg.translate] at h0

end Weldx.Geo.Objects
