import Verif.Csm.DataLemmas
import Verif.Frame.Group

/-!
# C05 - C13, C56: the coordinate system manager

All theorems are about `Reachable` managers: every state that any sequence of API calls can produce.
-/

set_option linter.unusedSectionVars false
set_option linter.unusedSimpArgs false

namespace Weldx.Csm
variable {N S D L : Type} [DecidableEq N] [LcsLike S]

/-! ### A concrete manager used in the examples

```
      0
     / \
    1   4
   / \
  2   3
```
-/

/-- a quarter turn about z as stored system -/
def qz : Frame ℤ := ⟨quarterZ, quarterZ_orthonormal⟩
/-- a quarter turn about x as stored system -/
def qx : Frame ℤ := ⟨quarterX, quarterX_orthonormal⟩

/-- the manager drawn above, with data `100` at system 2 -/
def demo : Csm ℕ (Frame ℤ) (List (Vec3 ℤ)) :=
  (assignData (L := Frame ℤ) Except.ok Frame.act [![1, 0, 0], ![0, 2, 0]] 100 2 none
    (addCs 4 0 qx false true
      (addCs 3 1 qz true true
        (addCs 2 1 qx true true
          (addCs 1 0 qz true true (init 0 7 none)).state).state).state).state).state

theorem demo_reachable : Reachable demo :=
  .assignData _ _ _ _ _ _ (.addCs _ _ _ _ _ (.addCs _ _ _ _ _ (.addCs _ _ _ _ _ (.addCs _ _ _ _ _
    (.init _ _ _)))))

example : demo.names = [0, 1, 2, 3, 4] ∧ demo.dataNames = [100] := by decide

/-- static systems always evaluate to themselves -/
theorem static_coherent {K : Type} [CommRing K] (m : Csm N (Frame K) D) :
    m.Coherent (L := Frame K) Except.ok := fun _ _ s _ => ⟨s, rfl, fun _ => rfl⟩

/-! ### C05 -/

/-- **C05.** After any sequence of calls the systems form a tree that contains the root: names are
distinct, links go both ways between existing systems, and any two systems are joined by exactly one
path without repetition. -/
theorem C05_tree {m : Csm N S D} (h : Reachable m) :
    m.root ∈ m.names ∧ m.names.Nodup ∧
    (∀ a b, m.Adj a b → a ∈ m.names ∧ b ∈ m.names ∧ a ≠ b ∧ m.Adj b a) ∧
    (∀ a ∈ m.names, ∀ b ∈ m.names, ∃! p, SimplePath m.Adj a b p) := by
  have I := h.inv
  refine ⟨I.root_mem, I.nodesNodup, fun a b hab => ⟨I.tree.mem _ _ hab, I.tree.mem_right _ _ hab,
    fun e => I.tree.irrefl a (by simpa [← e] using hab), I.tree.symm _ _ hab⟩, fun a ha b hb => ?_⟩
  obtain ⟨p, hp⟩ := I.tree.exists_path a b ha hb
  exact ⟨p, hp, fun q hq => I.tree.path_unique _ _ _ _ hq hp⟩

/-- **C05.** For every link exactly one of the two directions was supplied by the user, by exactly one
system, and the other direction stores its inverse (or nothing, for systems given by a `TimeSeries`). -/
theorem C05_links {m : Csm N S D} (h : Reachable m) {a b : N} (hab : m.Adj a b) :
    (∃! s, m.Supplied a b s ∨ m.Supplied b a s) ∧
    (∀ s, m.Supplied a b s → (∀ s', ¬ m.Supplied b a s') ∧
      m.edge? b a = some ⟨false, if LcsLike.isSeries s then none else some (LcsLike.invert s)⟩) := by
  have I := h.inv
  have key : ∀ a b s, m.Supplied a b s → (∀ s', ¬ m.Supplied b a s') ∧
      m.edge? b a = some ⟨false, reverseOf s⟩ := by
    intro a b s hs
    obtain ⟨e', he', hp⟩ := I.paired _ _ _ hs
    have h2 := Dict.get?_of_mem I.edgesNodup he'
    have he'' : e' = ⟨false, reverseOf s⟩ := by
      rcases hp with ⟨s', h, h'⟩ | ⟨s', h, h'⟩
      · cases h; exact h'
      · cases h'
    subst he''
    refine ⟨fun s' hs' => ?_, h2⟩
    have := h2.symm.trans (Dict.get?_of_mem I.edgesNodup hs')
    simp at this
  have uniq : ∀ a b s s', m.Supplied a b s → m.Supplied a b s' → s' = s := by
    intro a b s s' h h'
    have := (Dict.get?_of_mem I.edgesNodup h').symm.trans (Dict.get?_of_mem I.edgesNodup h)
    simpa using this
  refine ⟨?_, fun s hs => key a b s hs⟩
  obtain ⟨s, hs⟩ := (adj_iff_supplied I).1 hab
  refine ⟨s, hs, fun s' hs' => ?_⟩
  rcases hs with hs | hs <;> rcases hs' with hs' | hs'
  · exact uniq _ _ _ _ hs hs'
  · exact absurd hs' ((key _ _ _ hs).1 s')
  · exact absurd hs' ((key _ _ _ hs).1 s')
  · exact uniq _ _ _ _ hs hs'

example : Reachable demo ∧ demo.Adj 2 1 ∧ ¬ demo.Adj 2 3 ∧
    SimplePath demo.Adj 2 4 [2, 1, 0, 4] :=
  ⟨demo_reachable, by unfold Adj; decide, by unfold Adj; decide,
    .cons (by unfold Adj; decide) (.cons (by unfold Adj; decide) (.cons (by unfold Adj; decide)
      (.nil _))), by decide⟩

/-! ### C06, C07 -/

section
variable [Group L] (ev : S → Except CsmError L)

/-- **C06.** `get_cs` between existing systems always succeeds, and its result is the composition of the
supplied relations along the path - and along any other walk between the two systems. -/
theorem C06_get_cs_path {m : Csm N S D} (h : Reachable m) (C : m.Coherent ev) {a b : N}
    (ha : a ∈ m.names) (hb : b ∈ m.names) :
    ∃ x p, m.getCs ev a (some b) = .ok x ∧ SimplePath m.Adj a b p ∧ PathProduct ev m p x ∧
      ∀ q, Walk m.Adj a b q → PathProduct ev m q x := by
  have I := h.inv
  obtain ⟨p, hp⟩ := I.tree.exists_path a b ha hb
  obtain ⟨G, hG⟩ := exists_potential I C
  refine ⟨m.prodVal ev p, p, getCs_eq_prod I C ha hb hp, hp, prodVal_pathProduct I C hp.1,
    fun q hq => ?_⟩
  have := prodVal_pathProduct I C hq
  rwa [prodVal_eq hG hq, ← prodVal_eq hG hp.1] at this

/-- **C06.** The composition along a walk is unique, so the previous theorem determines the result. -/
theorem C06_composition_unique {m : Csm N S D} (h : Reachable m) {p : List N} {x y : L}
    (hx : PathProduct ev m p x) (hy : PathProduct ev m p y) : x = y := pathProduct_unique h.inv hx hy

/-- **C06.** Two managers with the same supplied relations give the same answers: neither the order in
which systems were added, nor the root, nor what else was attached matters. -/
theorem C06_order_independent {m m' : Csm N S D} (h : Reachable m) (h' : Reachable m')
    (C : m.Coherent ev) (hs : ∀ a b s, m.Supplied a b s ↔ m'.Supplied a b s) {a b : N}
    (ha : a ∈ m.names) (hb : b ∈ m.names) (ha' : a ∈ m'.names) (hb' : b ∈ m'.names) :
    m'.getCs ev a (some b) = m.getCs ev a (some b) := by
  obtain ⟨p, hp⟩ := h.inv.tree.exists_path a b ha hb
  exact getCs_congr h.inv h'.inv C (fun a b s hs' => C a b s ((hs a b s).2 hs')) ha hb ha' hb' hp
    fun x _ y _ s => (hs x y s).1

/-- **C06.** Asking for an unknown system is an error, and leaving out the reference system means
asking for the parent; the root has none, which is an error. -/
theorem C06_missing_and_default {m : Csm N S D} (h : Reachable m) {a b : N} :
    (a ∉ m.names ∨ b ∉ m.names → m.getCs ev a (some b) = .error .valueError) ∧
    m.getCs ev m.root none = .error .valueError ∧
    (∀ p, m.getParent a = .ok (some p) → m.getCs ev a none = m.getCs ev a (some p)) := by
  refine ⟨getCs_missing, ?_, fun p hp => ?_⟩
  · simp only [getCs, getParent_root]; rfl
  · simp only [getCs, hp]; rfl

/-- **C07.** Identity, inverse and chain law of `get_cs`. -/
theorem C07_group_laws {m : Csm N S D} (h : Reachable m) (C : m.Coherent ev) {a b c : N}
    (ha : a ∈ m.names) (hb : b ∈ m.names) (hc : c ∈ m.names) :
    m.getCs ev a (some a) = .ok 1 ∧
    ∃ x y, m.getCs ev a (some b) = .ok x ∧ m.getCs ev b (some a) = .ok x⁻¹ ∧
      m.getCs ev b (some c) = .ok y ∧ m.getCs ev a (some c) = .ok (x * y) := by
  have I := h.inv
  obtain ⟨G, hG⟩ := exists_potential I C
  refine ⟨by rw [getCs_potential I C hG ha ha]; simp, G a * (G b)⁻¹, G b * (G c)⁻¹,
    getCs_potential I C hG ha hb, ?_, getCs_potential I C hG hb hc, ?_⟩
  · rw [getCs_potential I C hG hb ha]; congr 1; group
  · rw [getCs_potential I C hG ha hc]; congr 1; group

/-- **C08.** Transforming data there and back returns the data; going through an intermediate system
is the same as going directly. `act` is any way to apply coordinate systems to data that respects
composition (`a + b` applies `a` first, C01). -/
theorem C08_transform_data {m : Csm N S D} (h : Reachable m) (C : m.Coherent ev) (act : L → D → D)
    (act_one : ∀ d, act 1 d = d) (act_mul : ∀ x y d, act (x * y) d = act y (act x d))
    {a b c : N} (ha : a ∈ m.names) (hb : b ∈ m.names) (hc : c ∈ m.names) (d : D) :
    ∃ d', m.transformData ev act d a b = .ok d' ∧ m.transformData ev act d' b a = .ok d ∧
      ∃ d'', m.transformData ev act d' b c = .ok d'' ∧ m.transformData ev act d a c = .ok d'' := by
  obtain ⟨_, x, y, h1, h2, h3, h4⟩ := C07_group_laws ev h C ha hb hc
  refine ⟨act x d, ?_, ?_, act y (act x d), ?_, ?_⟩
  · simp only [transformData, h1]; rfl
  · simp only [transformData, h2]
    show Except.ok _ = _
    rw [← act_mul]; simp [act_one]
  · simp only [transformData, h3]; rfl
  · simp only [transformData, h4]
    show Except.ok _ = _
    rw [act_mul]

end

/-- **C08.** For static systems and point lists: each point is kept, in order; distances between points
do not change; there-and-back is the identity. -/
theorem C08_points {K : Type} [CommRing K] {m : Csm N (Frame K) (List (Vec3 K))} (h : Reachable m)
    {a b : N} (ha : a ∈ m.names) (hb : b ∈ m.names) (pts : List (Vec3 K)) :
    ∃ f : Frame K, m.getCs (L := Frame K) Except.ok a (some b) = .ok f ∧
      m.transformData (L := Frame K) Except.ok Frame.act pts a b = .ok (pts.map f.1.toParent) ∧
      (∀ p q, distSq (f.1.toParent p) (f.1.toParent q) = distSq p q) ∧
      m.transformData (L := Frame K) Except.ok Frame.act (pts.map f.1.toParent) b a = .ok pts := by
  obtain ⟨_, x, _, h1, _⟩ := C07_group_laws (L := Frame K) Except.ok h (static_coherent m) ha hb hb
  obtain ⟨d', h2, h3, _⟩ := C08_transform_data (L := Frame K) Except.ok h (static_coherent m) Frame.act
    Frame.act_one Frame.act_mul ha hb hb pts
  have : d' = pts.map x.1.toParent := by
    simp only [transformData, h1] at h2
    have h2 : Except.ok (Frame.act x pts) = Except.ok d' := h2
    injection h2 with h2; exact h2.symm
  subst this
  exact ⟨x, h1, h2, fun p q => (C03_isometry x.1 x.2 p q 0).2, h3⟩

/-- C06/C07/C08 instance: a transformation across four systems of the demo manager. -/
example : ∃ f : Frame ℤ, demo.getCs (L := Frame ℤ) Except.ok 2 (some 4) = .ok f ∧
    f.1.toParent ![1, 0, 0] = ![-4, 2, 3] ∧ f ≠ 1 := by
  obtain ⟨f, h⟩ : ∃ f, demo.getCs (L := Frame ℤ) Except.ok 2 (some 4) = .ok f := ⟨_, rfl⟩
  have h' : f.1.toParent ![1, 0, 0] = ![-4, 2, 3] := by
    have : ∀ g : Frame ℤ, Except.ok (ε := CsmError) f = .ok g → f = g := fun g h => by injection h
    rw [this _ (h.symm.trans (by rfl : _ = Except.ok (qx * qz * qx)))]
    decide
  refine ⟨f, h, h', ?_⟩
  rintro rfl
  exact absurd (congrFun h' 0) (by decide)

/-! ### C09 -/

/-- **C09.** The parent is the next system on the path to the root; only the root has none; asking for
an unknown system is an error. -/
theorem C09_parent {m : Csm N S D} (h : Reachable m) (n : N) :
    (n = m.root → m.getParent n = .ok none) ∧
    (n ∈ m.names → n ≠ m.root → ∃ p rest, m.getParent n = .ok (some p) ∧
      SimplePath m.Adj n m.root (n :: p :: rest)) ∧
    (n ∉ m.names → m.getParent n = .error .valueError) := by
  have I := h.inv
  refine ⟨fun e => e ▸ getParent_root m, fun hn hr => ?_, fun hn => ?_⟩
  · obtain ⟨par, ht, T⟩ := I.tree.treeOn I.root_mem
    obtain ⟨p, hp⟩ := I.tree.exists_path n m.root hn I.root_mem
    obtain ⟨_, _, t, rfl, hs⟩ := T.first_step hp (not_desc_root n hr)
    obtain ⟨u, rfl⟩ := hs.1.head_eq
    exact ⟨par n, u, getParent_eq I T hn hr, hp⟩
  · have hr : n ≠ m.root := fun e => hn (e ▸ I.root_mem)
    simp only [getParent, if_neg hr, checkExists_err hn]; rfl

/-- **C09.** `a` is the parent of `b` exactly if `b` is a direct child of `a`. -/
theorem C09_parent_child {m : Csm N S D} (h : Reachable m) {a b : N} (ha : a ∈ m.names)
    (hb : b ∈ m.names) : ∃ l, m.directChildren a = .ok l ∧ l.Nodup ∧
      (b ∈ l ↔ m.getParent b = .ok (some a)) := by
  have I := h.inv
  obtain ⟨par, ht, T⟩ := I.tree.treeOn I.root_mem
  obtain ⟨l, hl, hn, hm⟩ := directChildren_spec I T ha
  refine ⟨l, hl, hn, ?_⟩
  rw [hm]
  by_cases hr : b = m.root
  · subst hr; rw [getParent_root]; simp
  · rw [getParent_eq I T hb hr]; simp [hb, hr]

/-- **C09.** The neighbours of a system are its parent and its direct children, each listed once; being
neighbours is symmetric; `is_neighbor_of` agrees with `neighbors`. -/
theorem C09_neighbors {m : Csm N S D} (h : Reachable m) {a : N} (ha : a ∈ m.names) :
    ∃ l, m.neighbors a = .ok l ∧ l.Nodup ∧ ∀ b ∈ m.names,
      (b ∈ l ↔ (m.getParent a = .ok (some b) ∨ m.getParent b = .ok (some a))) ∧
      m.isNeighborOf a b = .ok (decide (b ∈ l)) ∧ m.isNeighborOf a b = m.isNeighborOf b a := by
  have I := h.inv
  obtain ⟨par, ht, T⟩ := I.tree.treeOn I.root_mem
  refine ⟨m.succs a, neighbors_ok m ha, nodup_succs I.edgesNodup a, fun b hb => ⟨?_, ?_, ?_⟩⟩
  · have key : ∀ x y, x ∈ m.names → (m.getParent x = .ok (some y) ↔
        (x ∈ m.names ∧ x ≠ m.root ∧ par x = y)) := by
      intro x y hx
      by_cases hr : x = m.root
      · subst hr; rw [getParent_root]; simp
      · rw [getParent_eq I T hx hr]; simp [hx, hr]
    rw [mem_succs, T.adj_iff, key a b ha, key b a hb]
  · exact isNeighborOf_ok ha hb
  · rw [isNeighborOf_ok ha hb, isNeighborOf_ok hb ha]
    congr 1
    rw [decide_eq_decide, mem_succs, mem_succs]
    exact ⟨I.tree.symm _ _, I.tree.symm _ _⟩

/-- **C09.** The recursive child query returns exactly the systems whose path to the root contains the
given one, each once. In particular its loop ends. -/
theorem C09_all_children {m : Csm N S D} (h : Reachable m) {n : N} (hn : n ∈ m.names) :
    ∃ l, m.allChildren n = .ok l ∧ l.Nodup ∧ ∀ x ∈ m.names, (x ∈ l ↔ m.Below n x) := by
  have I := h.inv
  obtain ⟨par, ht, T⟩ := I.tree.treeOn I.root_mem
  obtain ⟨l, hl, hnd, hm⟩ := allChildren_spec I T hn
  exact ⟨l, hl, hnd, fun x hx => by rw [hm, below_iff I T hx]; simp [hx]⟩

/-- **C09.** No question about an unknown system is answered: neighbours, children, parent and neighbourhood raise a `ValueError`. -/
theorem C09_unknown {m : Csm N S D} (h : Reachable m) {n : N} (hn : n ∉ m.names) (b : N) :
    m.neighbors n = .error .valueError ∧ m.directChildren n = .error .valueError ∧ m.allChildren n = .error .valueError ∧
      m.getParent n = .error .valueError ∧ m.isNeighborOf n b = .error .valueError ∧ m.isNeighborOf b n = .error .valueError := by
  have e : m.neighbors n = .error .valueError := by simp only [neighbors, checkExists_err hn]; rfl
  have e2 : m.directChildren n = .error .valueError := by simp only [directChildren, e]; rfl
  refine ⟨e, e2, by simp only [allChildren, e2]; rfl, ?_, isNeighborOf_err (.inl hn), isNeighborOf_err (.inr hn)⟩
  have hr : n ≠ m.root := fun hr => hn (hr ▸ h.inv.root_mem)
  simp only [getParent, if_neg hr, checkExists_err hn]; rfl

example : demo.neighbors 77 = .error .valueError ∧ demo.getParent 77 = .error .valueError := ⟨rfl, rfl⟩

example : demo.getParent 3 = .ok (some 1) ∧ demo.directChildren 0 = .ok [1, 4] ∧
    demo.allChildren 0 = .ok [1, 4, 2, 3] ∧ demo.neighbors 1 = .ok [0, 2, 3] :=
  ⟨rfl, rfl, rfl, rfl⟩

/-! ### C10 -/

/-- **C10.** When `delete_cs` succeeds on an existing system, exactly this system and everything below it
is gone; the data of all other systems and the root are unchanged. -/
theorem C10_delete_exact {m m' : Csm N S D} (h : Reachable m) {n : N} {b : Bool} (hn : n ∈ m.names)
    (hd : deleteCs n b m = .ok () m') :
    (∀ x, x ∈ m'.names ↔ x ∈ m.names ∧ x ≠ n ∧ ¬ m.Below n x) ∧
    (∀ x ∈ m'.names, Dict.get? m'.nodes x = Dict.get? m.nodes x) ∧
    m'.root = m.root ∧ m'.refTime = m.refTime ∧ m'.name = m.name := by
  have I := h.inv
  rcases deleteCs_cases I n b with ⟨h1, _⟩ | ⟨_, h1⟩ | ⟨_, _, _, _, h1⟩ | ⟨_, hr, _, del, rem, hdel, _, h1⟩
  · exact absurd hn h1
  · rw [h1] at hd; cases hd
  · rw [h1] at hd; cases hd
  rw [h1] at hd; cases hd
  have hV : ∀ x, x ∈ (m.without del).names ↔ x ∈ m.names ∧ x ≠ n ∧ ¬ m.Below n x := by
    intro x
    rw [mem_names_without, hdel]
    tauto
  refine ⟨hV, fun x hx => ?_, rfl, rfl, rfl⟩
  have hx' : x ∉ del := (mem_names_without.1 (show x ∈ (m.without del).names from hx)).2
  show Dict.get? (m.nodes.filter (fun e => e.1 ∉ del)) x = _
  rw [Dict.get?_filter (p := fun x => x ∉ del)]; simp [hx']

/-- **C10.** A successful `delete_cs` keeps all relations between the remaining systems. -/
theorem C10_delete_keeps_relations [Group L] (ev : S → Except CsmError L) {m m' : Csm N S D}
    (h : Reachable m) (C : m.Coherent ev) {n : N} {b : Bool}
    (hd : deleteCs n b m = .ok () m') {x y : N} (hx : x ∈ m'.names) (hy : y ∈ m'.names) :
    m'.getCs ev x (some y) = m.getCs ev x (some y) := by
  have I := h.inv
  have I' := I.deleteCs n b
  rw [hd, Res.state_ok] at I'
  rcases deleteCs_cases I n b with ⟨_, h1⟩ | ⟨_, h1⟩ | ⟨_, _, _, _, h1⟩ | ⟨_, hr, _, del, rem, hdel, _, h1⟩
  · rw [h1] at hd; cases hd; rfl
  · rw [h1] at hd; cases hd
  · rw [h1] at hd; cases hd
  rw [h1] at hd; cases hd
  have hsup : ∀ a b s, Supplied ({ m.without del with
      subs := m.subs.filter (fun s => s.name ∉ rem) } : Csm N S D) a b s → m.Supplied a b s := by
    intro a b s hs
    exact (List.mem_filter.1 hs).1
  obtain ⟨p, hp⟩ := I'.tree.exists_path x y hx hy
  exact (getCs_congr I' I (fun a b s hs => C a b s (hsup a b s hs)) C hx hy
    (mem_names_without.1 (show x ∈ (m.without del).names from hx)).1
    (mem_names_without.1 (show y ∈ (m.without del).names from hy)).1 hp
    (fun a _ b _ s => hsup a b s)).symm

/-- **C10.** When `delete_cs` succeeds: with the flag for every system but the root; without it only for
systems that have nothing below them. Unknown names are ignored, the root is refused. -/
theorem C10_delete_succeeds {m : Csm N S D} (h : Reachable m) (n : N) (b : Bool) :
    (∃ m', deleteCs n b m = .ok () m') ↔
      n ≠ m.root ∧ (b = true ∨ n ∉ m.names ∨ ∀ x ∈ m.names, ¬ m.Below n x) := by
  have I := h.inv
  rcases deleteCs_cases I n b with ⟨hn, h1⟩ | ⟨hn, h1⟩ | ⟨hn, hr, hb, ⟨x, hx, hx'⟩, h1⟩ |
    ⟨hn, hr, hb, del, rem, hdel, _, h1⟩
  · rw [h1]
    refine ⟨fun _ => ⟨fun e => hn (e ▸ I.root_mem), .inr (.inl hn)⟩, fun _ => ⟨m, rfl⟩⟩
  · rw [h1]; simp [hn]
  · rw [h1]
    simp only [reduceCtorEq, exists_false, false_iff, not_and, not_or, hb, not_false_eq_true,
      Bool.false_eq_true, true_and, not_not, hn]
    exact fun _ hall => hall x hx hx'
  · rw [h1]
    refine ⟨fun _ => ⟨hr, ?_⟩, fun _ => ⟨_, rfl⟩⟩
    rcases hb with hb | hb
    · exact .inl hb
    · exact .inr (.inr hb)

/-- **C10.** The graph refuses to remove a node that it does not have; `delete_cs` never gets there. -/
theorem C10_remove_missing {m : Csm N S D} {n : N} (hn : n ∉ m.names) : removeNode n m = .err .nxError m := by
  have : m.has n = false := by
    by_contra h
    exact hn (has_iff.1 (by simpa using h))
  simp [removeNode, this, Py.ite_apply]

theorem affectedNames_mem {m : Csm N S D} (I : Inv m) (n : N) : ∀ (l : List (SubInfo N)) (r : List N),
    (∀ s ∈ l, s.root ∈ m.names) → m.affectedNames n l = .ok r → ∀ x, x ∈ r ↔
      ∃ s ∈ l, s.name = x ∧ (n ∈ s.members ∨ ∃ p, SimplePath m.Adj s.root m.root p ∧ n ∈ p) := by
  intro l
  induction l with
  | nil => intro r _ h x; simp only [affectedNames] at h; cases h; simp
  | cons s t ih =>
    intro r hroot h x
    obtain ⟨p, hp⟩ := I.tree.exists_path s.root m.root (hroot s (by simp)) I.root_mem
    have hsp := (shortestPath_iff I (hroot s (by simp)) I.root_mem).2 hp
    obtain ⟨b, hb, hb'⟩ : ∃ b, m.subAffected n s = .ok b ∧ (b = true ↔
        (n ∈ s.members ∨ ∃ p, SimplePath m.Adj s.root m.root p ∧ n ∈ p)) := by
      by_cases hmem : n ∈ s.members
      · exact ⟨true, by simp only [subAffected, if_pos hmem], by simp [hmem]⟩
      · refine ⟨decide (n ∈ p), by simp only [subAffected, if_neg hmem, hsp], ?_⟩
        simp only [decide_eq_true_eq, hmem, false_or]
        exact ⟨fun h => ⟨p, hp, h⟩, fun ⟨q, hq, h⟩ => I.tree.path_unique _ _ _ _ hq hp ▸ h⟩
    simp only [affectedNames, hb] at h
    cases hr : m.affectedNames n t with
    | error e => rw [hr] at h; cases h
    | ok r' =>
      rw [hr] at h
      have h : Except.ok (if b then s.name :: r' else r') = Except.ok r := h
      injection h with h
      subst h
      have := ih r' (fun s hs => hroot s (by simp [hs])) hr x
      simp only [List.mem_cons, exists_eq_or_imp, ← hb']
      cases b <;> simp [this, eq_comm]

/-- **C10.** `delete_cs` forgets exactly those subsystem records whose name belongs to a subsystem that
contained the deleted system or is attached below it. -/
theorem C10_delete_records {m m' : Csm N S D} (h : Reachable m) {n : N} {b : Bool} (hn : n ∈ m.names)
    (hd : deleteCs n b m = .ok () m') (s : SubInfo N) :
    s ∈ m'.subs ↔ s ∈ m.subs ∧ ∀ s' ∈ m.subs, s'.name = s.name →
      n ∉ s'.members ∧ ∀ p, SimplePath m.Adj s'.root m.root p → n ∉ p := by
  have I := h.inv
  rcases deleteCs_cases I n b with ⟨h1, _⟩ | ⟨_, h1⟩ | ⟨_, _, _, _, h1⟩ | ⟨_, hr, _, del, rem, hdel, hrem, h1⟩
  · exact absurd hn h1
  · rw [h1] at hd; cases hd
  · rw [h1] at hd; cases hd
  rw [h1] at hd; cases hd
  have hm := affectedNames_mem I n m.subs rem (fun s hs => by
    have := I.subs_ok s hs
    cases this with
    | mk nd sb rm => exact sb _ rm) hrem
  simp only [List.mem_filter, decide_eq_true_eq, hm]
  refine and_congr_right fun _ => ?_
  push Not
  rfl

example : ∃ m', deleteCs 1 true demo = .ok () m' ∧ m'.names = [0, 4] := ⟨_, rfl, by decide⟩
example : deleteCs 1 false demo = .err .weldxException demo ∧
    deleteCs 0 true demo = .err .valueError demo := ⟨rfl, rfl⟩

/-! ### C11 -/

/-- **C11.** `add_cs`, `delete_cs`, `assign_data` and `merge` leave the manager as it was when they
raise. -/
theorem C11_rejected_unchanged {m o : Csm N S D} (h : Reachable m) :
    (∀ n ref s dir lsc, (addCs n ref s dir lsc m).Raised → (addCs n ref s dir lsc m).state = m) ∧
    (∀ n b, (deleteCs n b m).Raised → (deleteCs n b m).state = m) ∧
    (∀ (L : Type) (_ : Group L) (ev : S → Except CsmError L) act data d ref target,
      (assignData ev act data d ref target m).Raised →
        (assignData ev act data d ref target m).state = m) ∧
    ((merge o m).Raised → (merge o m).state = m) := by
  have I := h.inv
  refine ⟨fun n ref s dir lsc hr => ?_, fun n b hr => ?_, fun L _ ev act data d ref target hr => ?_,
    fun hr => ?_⟩
  · rcases addCs_cases I n ref s dir lsc with ⟨h, _⟩ | ⟨h, _⟩ | ⟨_, _, h⟩ | ⟨_, _, _, h⟩ <;>
      rw [h] at hr ⊢ <;> first | rfl | exact absurd hr (Res.raised_ok _ _)
  · rcases deleteCs_cases I n b with ⟨_, h⟩ | ⟨_, h⟩ | ⟨_, _, _, _, h⟩ | ⟨_, _, _, _, _, _, _, h⟩ <;>
      rw [h] at hr ⊢ <;> first | rfl | exact absurd hr (Res.raised_ok _ _)
  · rcases assignData_cases ev act data d ref target m with ⟨e, h⟩ | ⟨_, _, _, _, _, _, _, h⟩ <;>
      rw [h] at hr ⊢ <;> first | rfl | exact absurd hr (Res.raised_ok _ _)
  · rcases merge_cases m o with ⟨e, h⟩ | ⟨_, _, _, _, _, _, _, _, _, _, h⟩ <;>
      rw [h] at hr ⊢ <;> first | rfl | exact absurd hr (Res.raised_ok _ _)

example : (addCs 2 3 qx true true demo).Raised ∧ (addCs 9 8 qx true true demo).Raised ∧
    (deleteCs 1 false demo).Raised ∧
    (assignData (L := Frame ℤ) Except.ok Frame.act [] 100 1 none demo).Raised ∧
    (merge demo demo).Raised := ⟨trivial, trivial, trivial, trivial, trivial⟩

/-- **C11** (partial: systems, relations and data are unchanged; the records about subsystems may lose
the data name, see the counterexample). A rejected `delete_data` only happens for unknown names. -/
theorem C11_delete_data_partial {m : Csm N S D} (h : Reachable m) {d : N}
    (hr : (deleteData d m).Raised) :
    d ∉ m.dataNames ∧ (deleteData d m).state = { m with subs := m.subs.map (SubInfo.discard d) } ∧
    ((∀ s ∈ m.subs, d ∉ s.data) → (deleteData d m).state = m) := by
  rcases deleteData_cases d h.inv with ⟨h1, h2⟩ | ⟨_, _, _, _, h2⟩
  · rw [h2]
    refine ⟨h1, rfl, fun hs => ?_⟩
    have : m.subs.map (SubInfo.discard d) = m.subs := by
      conv_rhs => rw [← List.map_id m.subs]
      refine List.map_congr_left fun s hs' => ?_
      cases s with
      | mk a b c t mem dat ss =>
        simp only [SubInfo.discard, id]
        congr 1
        refine List.filter_eq_self.2 fun x hx => ?_
        have := hs _ hs'
        simp only [decide_eq_true_eq]
        rintro rfl
        exact this hx
    show { m with subs := m.subs.map (SubInfo.discard d) } = m
    rw [this]
  · rw [h2] at hr; exact absurd hr (Res.raised_ok _ _)

/-- static systems without any content, for counterexamples -/
instance : LcsLike Unit := ⟨id, fun _ => false, fun _ => false, fun _ => none⟩
/-- trivial evaluation -/
def unitEv : Unit → Except CsmError Unit := fun _ => .ok ()

/-- inner manager with data `10` at its root `2` -/
def inner : Csm ℕ Unit Unit := (assignData unitEv (fun _ d => d) () 10 2 none (init 2 202 none)).state
/-- outer manager `1 - 2` with the inner one merged -/
def outer : Csm ℕ Unit Unit := (merge inner (addCs 2 1 () true true (init 1 201 none)).state).state
/-- manager `0 - 1` with the outer one merged, then data `10` deleted -/
def nested : Csm ℕ Unit Unit :=
  (deleteData 10 (merge outer (addCs 1 0 () true true (init 0 200 none)).state).state).state

theorem nested_reachable : Reachable nested :=
  .deleteData _ (.merge (.addCs _ _ _ _ _ (.init _ _ _)) (.merge (.addCs _ _ _ _ _ (.init _ _ _))
    (.assignData _ _ _ _ _ _ (.init _ _ _))))

/-- **C11, counterexample.** `delete_data` can raise and still change the manager: after a nested merge
and a deletion of the data in the outer manager, the extracted subsystem still lists the name in its
own subsystem record; deleting it there raises `ValueError` but drops it from the record. -/
theorem C11_delete_data_counterexample :
    ∃ m : Csm ℕ Unit Unit, Reachable m ∧ ∃ d, (deleteData d m).Raised ∧ (deleteData d m).state ≠ m := by
  obtain ⟨l, hl⟩ : ∃ l, nested.subsystems = .ok l := ⟨_, rfl⟩
  have hl' : ∃ o ∈ l, (deleteData 10 o).Raised ∧ (deleteData 10 o).state ≠ o := by
    have : l = (match nested.subsystems with | .ok l => l | .error _ => []) := by rw [hl]
    rw [this]
    refine ⟨_, List.mem_singleton.2 rfl, trivial, fun h => ?_⟩
    exact absurd (congrArg (fun m : Csm ℕ Unit Unit => m.subs.map SubInfo.data) h) (by decide)
  obtain ⟨o, ho, h⟩ := hl'
  exact ⟨o, .subsystem nested_reachable hl ho, 10, h⟩

/-- **C11.** `remove_subsystems`, `unmerge` and `subsystems` never raise. -/
theorem C11_subsystem_calls_succeed {m : Csm N S D} (h : Reachable m) :
    ¬ (removeSubsystems m).Raised ∧ ¬ (unmerge m).Raised ∧ ∃ l, m.subsystems = .ok l := by
  obtain ⟨ns, del, h1, _⟩ := removeSubsystems_ok h.inv
  obtain ⟨l, hl, _⟩ := subsystems_ok h.inv
  refine ⟨by rw [h1]; exact Res.raised_ok _ _, ?_, l, hl⟩
  simp only [unmerge, Py.get_bind, hl, Py.lift_ok_bind]
  rw [Py.bind_ok h1]; exact Res.raised_ok _ _

/-! ### C12 -/

theorem supplied_link {m : Csm N S D} (I : Inv m) {n ref : N} {s : S} (hne : n ≠ ref) {a b : N}
    {s' : S} : ((a, b), ⟨true, some s'⟩) ∈ linkEdges m.edges n ref s ↔
      (a = n ∧ b = ref ∧ s' = s) ∨ ((a, b) ≠ (n, ref) ∧ (a, b) ≠ (ref, n) ∧ m.Supplied a b s') := by
  rw [mem_linkEdges I.edgesNodup]
  simp only [Prod.mk.injEq, Edge.mk.injEq, Option.some.injEq, ne_eq, Supplied]
  constructor
  · rintro (⟨_, h, _⟩ | ⟨_, ⟨rfl, rfl⟩, _, rfl⟩ | ⟨h1, h2, h3⟩)
    · cases h
    · exact .inl ⟨rfl, rfl, rfl⟩
    · exact .inr ⟨h2, h1, h3⟩
  · rintro (⟨rfl, rfl, rfl⟩ | ⟨h1, h2, h3⟩)
    · exact .inr (.inl ⟨fun h => hne h.1, ⟨rfl, rfl⟩, trivial, rfl⟩)
    · exact .inr (.inr ⟨h2, h1, h3⟩)

/-- **C12.** Every successful `add_cs(n, ref, s)`: afterwards `get_cs(n, ref)` is `s` (its inverse if the
flag says that `s` describes `ref` in `n`), and every other answer whose path does not use the link
between `n` and `ref` is unchanged. This covers adding new systems and replacing relations. -/
theorem C12_add_changes_only_link [Group L] (ev : S → Except CsmError L) {m m' : Csm N S D}
    (h : Reachable m) (C : m.Coherent ev) {n ref : N} {s : S} {x : L} (hx : ev s = .ok x)
    (hi : LcsLike.isSeries s = false → ev (LcsLike.invert s) = .ok x⁻¹) {dir lsc : Bool}
    (ha : addCs n ref s dir lsc m = .ok () m') :
    m'.getCs ev n (some ref) = .ok (if dir && lsc then x else x⁻¹) ∧
    (∀ a b p, a ∈ m.names → b ∈ m.names → SimplePath m.Adj a b p → ¬ (n ∈ p ∧ ref ∈ p) →
      m'.getCs ev a (some b) = m.getCs ev a (some b)) ∧
    m'.Coherent ev := by
  have I := h.inv
  have I' := I.addCs n ref s dir lsc
  rw [ha, Res.state_ok] at I'
  -- facts common to both ways to succeed
  have hm' : m'.edges = linkEdges m.edges (addDir n ref dir lsc).1 (addDir n ref dir lsc).2 s ∧
      n ≠ ref ∧ n ∈ m'.names ∧ ref ∈ m'.names ∧ (∀ x ∈ m.names, x ∈ m'.names) := by
    rcases addCs_cases I n ref s dir lsc with ⟨h, _⟩ | ⟨h, _⟩ | ⟨_, hadj, h⟩ | ⟨_, hn, hr, h⟩
    · rw [h] at ha; cases ha
    · rw [h] at ha; cases ha
    · rw [h] at ha; cases ha
      exact ⟨rfl, fun e => I.tree.irrefl n (by simpa [← e] using hadj), I.tree.mem _ _ hadj,
        I.tree.mem_right _ _ hadj, fun _ h => h⟩
    · rw [h] at ha; cases ha
      refine ⟨rfl, fun e => hn (e ▸ hr), ?_, ?_, fun x hx => ?_⟩ <;> simp [names] at * <;> tauto
  obtain ⟨hedges, hne, hnm, hrm, hsub⟩ := hm'
  have hne' := addDir_ne (dir := dir) (lsc := lsc) hne
  have hsup : ∀ a b s', m'.Supplied a b s' ↔
      (a = (addDir n ref dir lsc).1 ∧ b = (addDir n ref dir lsc).2 ∧ s' = s) ∨
      ((a, b) ≠ ((addDir n ref dir lsc).1, (addDir n ref dir lsc).2) ∧
        (a, b) ≠ ((addDir n ref dir lsc).2, (addDir n ref dir lsc).1) ∧ m.Supplied a b s') := by
    intro a b s'; rw [Supplied, hedges]; exact supplied_link I hne'
  have C' : m'.Coherent ev := by
    intro a b s' hs'
    rcases (hsup a b s').1 hs' with ⟨_, _, rfl⟩ | ⟨_, _, h3⟩
    · exact ⟨x, hx, hi⟩
    · exact C a b s' h3
  refine ⟨?_, ?_, C'⟩
  · have hlink : m'.Supplied (addDir n ref dir lsc).1 (addDir n ref dir lsc).2 s :=
      (hsup _ _ _).2 (.inl ⟨rfl, rfl, rfl⟩)
    have hadj : m'.Adj n ref := by
      rw [adj_iff_supplied I']
      refine ⟨s, ?_⟩
      simp only [addDir] at hlink
      split at hlink
      · exact .inl hlink
      · exact .inr hlink
    have hp : SimplePath m'.Adj n ref [n, ref] := ⟨.cons hadj (.nil _), by simp [hne]⟩
    rw [getCs_eq_prod I' C' hnm hrm hp]
    obtain ⟨h1, h2⟩ := csOnEdge_pair I' hlink hx hi
    simp only [prodVal, mul_one]
    simp only [addDir] at h1 h2
    split
    · rename_i hd; simp only [hd, if_true] at h1; rw [linkVal_of h1]
    · rename_i hd; simp only [hd] at h2; simp at h2; rw [linkVal_of h2]
  · intro a b p ha' hb' hp hnot
    refine getCs_congr I I' C C' ha' hb' (hsub a ha') (hsub b hb') hp ?_
    intro u hu v hv s' hs'
    refine (hsup u v s').2 (.inr ⟨?_, ?_, hs'⟩) <;>
    · rw [ne_eq, Prod.mk.injEq]
      rintro ⟨rfl, rfl⟩
      simp only [addDir] at hu hv
      split at hu <;> exact hnot (by simp_all)

/-- **C12.** Adding a new system changes no existing answer and no attached data. -/
theorem C12_new_system [Group L] (ev : S → Except CsmError L) {m m' : Csm N S D}
    (h : Reachable m) (C : m.Coherent ev) {n ref : N} {s : S} {x : L} (hx : ev s = .ok x)
    (hi : LcsLike.isSeries s = false → ev (LcsLike.invert s) = .ok x⁻¹) {dir lsc : Bool}
    (hn : n ∉ m.names) (ha : addCs n ref s dir lsc m = .ok () m') :
    m'.names = m.names ++ [n] ∧ m'.dataNames = m.dataNames ∧ m'.getParent n = .ok (some ref) ∧
    (∀ a ∈ m.names, ∀ b ∈ m.names, m'.getCs ev a (some b) = m.getCs ev a (some b)) := by
  have I := h.inv
  obtain ⟨_, h2, _⟩ := C12_add_changes_only_link ev h C hx hi ha
  have I' := I.addCs n ref s dir lsc
  rw [ha, Res.state_ok] at I'
  have hq : m'.root = m.root ∧ m'.names = m.names ++ [n] ∧ m'.dataNames = m.dataNames ∧
      ref ∈ m.names ∧ ∀ a b, m'.Adj a b ↔ m.Adj a b ∨ (a, b) = (n, ref) ∨ (a, b) = (ref, n) := by
    rcases addCs_cases I n ref s dir lsc with ⟨h, _⟩ | ⟨h, _⟩ | ⟨_, hadj, h⟩ | ⟨_, hn, hr, h⟩
    · rw [h] at ha; cases ha
    · rw [h] at ha; cases ha
    · exact absurd (I.tree.mem _ _ hadj) hn
    · rw [h] at ha; cases ha
      refine ⟨rfl, by simp [names], by simp [dataNames], hr, fun a b => ?_⟩
      simp only [Adj, keys_linkEdges, addDir_keys]
  obtain ⟨hroot, hnames, hdata, hr, hadj⟩ := hq
  refine ⟨hnames, hdata, ?_, fun a ha' b hb' => ?_⟩
  · obtain ⟨par, ht, T⟩ := I'.tree.treeOn I'.root_mem
    have hnm : n ∈ m'.names := by simp [hnames]
    have hnr : n ≠ m'.root := by rw [hroot]; exact fun e => hn (e ▸ I.root_mem)
    rw [getParent_eq I' T hnm hnr]
    have := (hadj _ _).1 (T.adj_par hnm hnr)
    rcases this with h | h | h
    · exact absurd (I.tree.mem _ _ h) hn
    · cases h; rfl
    · simp at h; exact absurd (h.1 ▸ hr) hn
  · obtain ⟨p, hp⟩ := I.tree.exists_path a b ha' hb'
    exact h2 a b p ha' hb' hp fun h => hn (walk_mem I hp.1 ha' n h.1)

example : ∃ m', addCs 2 1 () false true outer = .ok () m' ∧ m'.names = outer.names ∧
    m'.edge? 1 2 = some ⟨true, some ()⟩ ∧ m'.edge? 2 1 = some ⟨false, some ()⟩ ∧
    outer.edge? 2 1 = some ⟨true, some ()⟩ := ⟨_, rfl, rfl, rfl, rfl, rfl⟩

/-- **C12.** `add_cs` is accepted exactly if the time references fit and `ref` exists and, for an
existing `n`, is its neighbour. -/
theorem C12_add_succeeds {m : Csm N S D} (h : Reachable m) (n ref : N) (s : S) (dir lsc : Bool) :
    (∃ m', addCs n ref s dir lsc m = .ok () m') ↔
      m.addCsRejected s = false ∧ ref ∈ m.names ∧ (n ∈ m.names → m.Adj n ref) := by
  have I := h.inv
  rcases addCs_cases I n ref s dir lsc with ⟨h, h'⟩ | ⟨h, h'⟩ | ⟨h1, h2, h⟩ | ⟨h1, h2, h3, h⟩
  · rw [h]; simp [h']
  · rw [h]
    simp only [reduceCtorEq, exists_false, false_iff]
    tauto
  · rw [h]
    exact ⟨fun _ => ⟨h1, I.tree.mem_right _ _ h2, fun _ => h2⟩, fun _ => ⟨_, rfl⟩⟩
  · rw [h]
    exact ⟨fun _ => ⟨h1, h3, fun h => absurd h h2⟩, fun _ => ⟨_, rfl⟩⟩

/-! ### C13 -/

/-- **C13.** In every reachable manager each data name occurs once; `get_data`, `get_data_system_name`
(both use `findData`), `has_data` and `data_names` agree. -/
theorem C13_data_consistent {m : Csm N S D} (h : Reachable m) (d : N) :
    m.dataNames.Nodup ∧
    (d ∈ m.dataNames ↔ ∃ r, m.findData d = .ok r) ∧
    (∀ cs ∈ m.names, m.hasData cs d = .ok true ↔ ∃ v, m.findData d = .ok (cs, v)) ∧
    (∀ cs v, m.findData d = .ok (cs, v) → cs ∈ m.names) := by
  have I := h.inv
  refine ⟨I.dataNodup, ⟨findData_ok I, fun ⟨r, hr⟩ => ?_⟩, fun cs hcs => ?_, fun cs v hv => ?_⟩
  · by_contra hd
    rw [findData_error I hd] at hr; cases hr
  · obtain ⟨ds, hds⟩ := Dict.get?_isSome.2 hcs
    simp only [hasData, hds]
    constructor
    · intro hd
      have : d ∈ Dict.keys ds := by simpa using hd
      obtain ⟨v, hv⟩ := Dict.get?_isSome.2 this
      exact ⟨v, (findData_iff I).2 ⟨ds, hds, hv⟩⟩
    · rintro ⟨v, hv⟩
      obtain ⟨ds', h1, h2⟩ := (findData_iff I).1 hv
      rw [hds] at h1; cases h1
      have := Dict.get?_isSome.1 ⟨v, h2⟩
      simp [this]
  · obtain ⟨ds, h1, _⟩ := (findData_iff I).1 hv
    exact Dict.get?_isSome.1 ⟨_, h1⟩

/-- **C13.** `has_data` of an unknown system raises a `KeyError` instead of answering; of a known system it always answers. -/
theorem C13_has_data_unknown (m : Csm N S D) (cs d : N) :
    (m.hasData cs d = .error .keyError ↔ cs ∉ m.names) ∧ (cs ∈ m.names → ∃ b, m.hasData cs d = .ok b) := by
  unfold hasData
  cases hg : Dict.get? m.nodes cs with
  | none =>
    have : cs ∉ m.names := fun hc => by
      obtain ⟨ds, hds⟩ := Dict.get?_isSome.2 hc
      rw [hg] at hds; cases hds
    exact ⟨by simp [this], fun hc => absurd hc this⟩
  | some ds =>
    have : cs ∈ m.names := Dict.get?_isSome.1 ⟨_, hg⟩
    exact ⟨by simp [this], fun _ => ⟨_, rfl⟩⟩

/-- **C13.** A successful `assign_data` stores the data (transformed to the target system if one is
given) under the name; all other names keep their data; no relation changes. -/
theorem C13_assign [Group L] (ev : S → Except CsmError L) (act : L → D → D) {m m' : Csm N S D}
    (h : Reachable m) {data : D} {d ref : N} {target : Option N}
    (ha : assignData ev act data d ref target m = .ok () m') :
    d ∉ m.dataNames ∧
    (target = none → m'.findData d = .ok (ref, data)) ∧
    (∀ t, target = some t → ∃ data', m.transformData ev act data ref t = .ok data' ∧
      m'.findData d = .ok (t, data')) ∧
    (∀ d', d' ≠ d → m'.findData d' = m.findData d') ∧
    m'.edges = m.edges ∧ m'.names = m.names := by
  have I := h.inv
  have I' := I.assignData ev act data d ref target
  rw [ha, Res.state_ok] at I'
  rcases assignData_cases ev act data d ref target m with ⟨e, h⟩ | ⟨cs, data', ds, hd, hcs, hds, hdat, h⟩
  · rw [h] at ha; cases ha
  rw [h] at ha; cases ha
  have hfind : ({ m with nodes := Dict.set m.nodes cs (Dict.set ds d data') } : Csm N S D).findData d
      = .ok (cs, data') :=
    (findData_iff I').2 ⟨Dict.set ds d data', by simp [Dict.get?_set], by simp [Dict.get?_set]⟩
  refine ⟨hd, fun ht => ?_, fun t ht => ?_, fun d' hd' => ?_, rfl, ?_⟩
  · subst ht
    rcases hdat with ⟨_, rfl⟩ | ⟨t, ht, _⟩
    · rw [hfind, hcs]; rfl
    · cases ht
  · subst ht
    rcases hdat with ⟨ht, _⟩ | ⟨t', ht, htr⟩
    · cases ht
    · cases ht; exact ⟨data', htr, by rw [hfind, hcs]; rfl⟩
  · refine findData_congr I I' fun c v => ?_
    simp only [Dict.get?_set]
    constructor
    · rintro ⟨x, hx, hv⟩
      by_cases hc : c = cs
      · subst hc
        rw [hds] at hx; cases hx
        exact ⟨_, if_pos rfl, by rw [Dict.get?_set, if_neg hd']; exact hv⟩
      · exact ⟨x, by rw [if_neg hc]; exact hx, hv⟩
    · rintro ⟨x, hx, hv⟩
      by_cases hc : c = cs
      · subst hc
        rw [if_pos rfl] at hx; cases hx
        rw [Dict.get?_set, if_neg hd'] at hv
        exact ⟨ds, hds, hv⟩
      · rw [if_neg hc] at hx; exact ⟨x, hx, hv⟩
  · exact Dict.keys_set_of_mem (Dict.get?_isSome.1 ⟨_, hds⟩)

/-- **C13.** `delete_data` succeeds exactly for existing names; it removes this name and nothing else. -/
theorem C13_delete {m : Csm N S D} (h : Reachable m) (d : N) :
    (d ∈ m.dataNames ↔ ∃ m', deleteData d m = .ok () m') ∧
    (∀ m', deleteData d m = .ok () m' → m'.findData d = .error .keyError ∧ d ∉ m'.dataNames ∧
      (∀ d', d' ≠ d → m'.findData d' = m.findData d') ∧ m'.edges = m.edges ∧ m'.names = m.names) := by
  have I := h.inv
  have I' := I.deleteData d
  rcases deleteData_cases d I with ⟨h1, h2⟩ | ⟨cs, ds, hds, hd, h2⟩
  · rw [h2]
    exact ⟨by simp [h1], fun m' hm => by cases hm⟩
  · refine ⟨⟨fun _ => ⟨_, h2⟩, fun _ => (mem_dataNames I.nodesNodup).2 ⟨cs, ds, hds, hd⟩⟩, ?_⟩
    intro m' hm
    rw [h2] at hm I'
    rw [Res.state_ok] at I'
    cases hm
    have hnot : d ∉ ({ m with
        nodes := Dict.set m.nodes cs (Dict.erase ds d),
        subs := m.subs.map (SubInfo.discard d) } : Csm N S D).dataNames := by
      intro hd'
      obtain ⟨n, x, hx, hdx⟩ := (mem_dataNames I'.nodesNodup).1 hd'
      simp only [Dict.get?_set] at hx
      split at hx
      · cases hx
        rw [Dict.keys_erase] at hdx; simp at hdx
      · rename_i hne
        exact hne (I.dataProps.2 n cs x ds d hx hds hdx hd)
    refine ⟨findData_error I' hnot, hnot, fun d' hd' => ?_, rfl,
      Dict.keys_set_of_mem (Dict.get?_isSome.1 ⟨_, hds⟩)⟩
    refine findData_congr I I' fun c v => ?_
    simp only [Dict.get?_set]
    constructor
    · rintro ⟨x, hx, hv⟩
      by_cases hc : c = cs
      · subst hc
        rw [hds] at hx; cases hx
        exact ⟨_, if_pos rfl, by rw [Dict.get?_erase, if_neg hd']; exact hv⟩
      · exact ⟨x, by rw [if_neg hc]; exact hx, hv⟩
    · rintro ⟨x, hx, hv⟩
      by_cases hc : c = cs
      · subst hc
        rw [if_pos rfl] at hx; cases hx
        rw [Dict.get?_erase, if_neg hd'] at hv
        exact ⟨ds, hds, hv⟩
      · rw [if_neg hc] at hx; exact ⟨x, hx, hv⟩

/-- **C13.** `get_data` returns the stored data, transformed if another system is asked for. -/
theorem C13_get_data [Group L] (ev : S → Except CsmError L) (act : L → D → D)
    (act_one : ∀ d, act 1 d = d) {m : Csm N S D} (h : Reachable m) (C : m.Coherent ev) {d cs : N}
    {v : D} (hf : m.findData d = .ok (cs, v)) :
    m.getData ev act d none = .ok v ∧
    ∀ t ∈ m.names, m.getData ev act d (some t) = m.transformData ev act v cs t := by
  refine ⟨by simp only [getData, hf]; rfl, fun t ht => ?_⟩
  simp only [getData, hf]
  show (if t = cs then _ else _) = _
  split
  · rename_i e; subst e
    simp only [transformData, (C07_group_laws ev h C ht ht ht).1]
    show _ = Except.ok (act 1 v)
    rw [act_one]
  · rfl

example : demo.findData 100 = .ok (2, [![1, 0, 0], ![0, 2, 0]]) ∧ demo.hasData 2 100 = .ok true ∧
    demo.hasData 1 100 = .ok false ∧ ∃ m', deleteData 100 demo = .ok () m' ∧ m'.dataNames = [] :=
  ⟨rfl, rfl, rfl, _, rfl, rfl⟩

/-! ### C56 -/

/-- **C56.** Extracting the subsystems never fails, gives one manager for each record, and each of
them is again a tree with its own root (it is `Reachable`, so all theorems of this file apply to it),
made of systems and links of the manager. -/
theorem C56_subsystems {m : Csm N S D} (h : Reachable m) :
    ∃ l, m.subsystems = .ok l ∧ l.length = m.subs.length ∧ ∀ o ∈ l, Reachable o ∧
      (∀ x ∈ o.names, x ∈ m.names) ∧ (∀ a b, o.Adj a b ↔ a ∈ o.names ∧ b ∈ o.names ∧ m.Adj a b) ∧
      (∀ a b s, o.Supplied a b s → m.Supplied a b s) := by
  have I := h.inv
  obtain ⟨l, hl, hf⟩ := subsystems_ok I
  refine ⟨l, hl, hf.length_eq.symm, fun o ho => ⟨.subsystem h hl ho, ?_⟩⟩
  obtain ⟨sub, hs, ds, hds, rfl⟩ := forall₂_mem_right hf ho
  have hok := I.subs_ok sub hs
  cases hok with
  | mk nd sb rm cm rc cn nested =>
  have hkeys : Dict.keys (m.nodes.filter (fun e => e.1 ∈ sub.members)) =
      m.names.filter (fun x => x ∈ sub.members) := Dict.keys_filter (p := fun x => x ∈ sub.members)
  have hcmem : sub.common ∈ Dict.keys (m.nodes.filter (fun e => e.1 ∈ sub.members)) := by
    rw [hkeys]; simp [sb _ cm, cm]
  have hnames : (m.part sub ds).names = m.names.filter (fun x => x ∈ sub.members) := by
    show Dict.keys _ = _
    rw [← hkeys]
    exact Dict.keys_set_of_mem hcmem
  refine ⟨fun x hx => ?_, fun a b => ?_, fun a b s hs' => ?_⟩
  · rw [hnames] at hx; exact (List.mem_filter.1 hx).1
  · have : Dict.keys (m.part sub ds).edges = (Dict.keys m.edges).filter
        (fun k => k.1 ∈ sub.members ∧ k.2 ∈ sub.members) :=
      Dict.keys_filter (p := fun k : N × N => k.1 ∈ sub.members ∧ k.2 ∈ sub.members)
    show (a, b) ∈ Dict.keys (m.part sub ds).edges ↔ _
    rw [this, hnames]
    simp only [List.mem_filter, decide_eq_true_eq, Adj]
    constructor
    · rintro ⟨h1, h2, h3⟩; exact ⟨⟨sb _ h2, h2⟩, ⟨sb _ h3, h3⟩, h1⟩
    · rintro ⟨⟨_, h2⟩, ⟨_, h3⟩, h1⟩; exact ⟨h1, h2, h3⟩
  · exact (List.mem_filter.1 hs').1

example : Reachable nested ∧ nested.subs.length = 1 ∧ nested.names = [0, 1, 2] :=
  ⟨nested_reachable, rfl, by decide⟩

end Weldx.Csm
