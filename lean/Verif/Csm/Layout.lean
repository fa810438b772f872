import Verif.Csm.Props
import Mathlib.Data.Rat.Defs
import Mathlib.Tactic.Linarith
import Mathlib.Tactic.FieldSimp
import Mathlib.Tactic.Positivity
import Mathlib.Algebra.Order.Field.Rat

/-!
# The drawing of the graph of systems (C89)

Source: `/repo/weldx/transformations/cs_manager.py` 1431-1462 (`_get_tree_positions_for_plot`) and 1485-1503 (the arrows in `plot_graph`).

Simplifications: positions are exact fractions; the `while` loop has a bound of iterations, exceeding it is the error `diverge`. What
networkx and matplotlib do with positions and lists of edges is not part of the model.
-/

set_option linter.unusedSectionVars false

namespace Weldx.Csm
variable {N S D : Type} [DecidableEq N]

/-! ### model -/

/-- an entry of `meta_data`: position and boundaries -/
structure Box where
  x : ℚ
  y : ℤ
  lo : ℚ
  hi : ℚ

/-- 1449-1455: the `i`-th of `k` children -/
def Box.child (b : Box) (level : ℤ) (k i : ℕ) : Box :=
  let delta := (b.hi - b.lo) / k
  ⟨b.lo + (i + 1 / 2) * delta, -level, b.lo + i * delta, b.lo + (i + 1) * delta⟩

/-- 1449-1455: the loop over the children -/
def placeChildren (b : Box) (level : ℤ) (k : ℕ) : List N → ℕ → List (N × Box) → List (N × Box)
  | [], _, d => d
  | c :: t, i, d => placeChildren b level k t (i + 1) (Dict.set d c (b.child level k i))

/-- 1440-1456: the loop over the systems of one level; the result has the systems of the next one -/
def placeLevel (m : Csm N S D) (level : ℤ) : List N → List (N × Box) → List N → Except CsmError (List (N × Box) × List N)
  | [], d, next => .ok (d, next)
  | n :: t, d, next => do
    let children ← m.directChildren n
    if children = [] then m.placeLevel level t d next
    else match Dict.get? d n with
      | none => .error .keyError
      | some b => m.placeLevel level t (placeChildren b level children.length children 0 d) (next ++ children)

/-- 1438-1459: the `while` loop -/
def placeLoop (m : Csm N S D) : ℕ → ℤ → List N → List (N × Box) → Except CsmError (List (N × Box))
  | _, _, [], d => .ok d
  | 0, _, _ :: _, _ => .error .diverge
  | k + 1, level, c :: t, d => do
    let r ← m.placeLevel level (c :: t) d []
    m.placeLoop k (level + 1) r.2 r.1

/-- `_get_tree_positions_for_plot`, 1431-1462 -/
def positions (m : Csm N S D) : Except CsmError (List (N × (ℚ × ℤ))) := do
  let d ← m.placeLoop (m.nodes.length + 1) 1 [m.root] [(m.root, ⟨1, 0, 0, 2⟩)]
  .ok (d.map fun e => (e.1, (e.2.x, e.2.y)))

/-- 1488-1490: the arrows -/
def arrows (m : Csm N S D) : List ((N × N) × Edge S) := m.edges.filter fun e => !e.2.defined

/-- `_is_edge_time_dependent`, 1492-1497 -/
def edgeTimed [LcsLike S] (e : Edge S) : Bool := match e.transformation with
  | none => true
  | some s => LcsLike.isTimeDependent s

/-- 1500: arrows with the colour of time dependent systems -/
def timedArrows [LcsLike S] (m : Csm N S D) : List (N × N) := (m.arrows.filter fun e => edgeTimed e.2).map Prod.fst
/-- 1501: the other arrows -/
def staticArrows [LcsLike S] (m : Csm N S D) : List (N × N) := (m.arrows.map Prod.fst).filter fun e => e ∉ m.timedArrows

/-! ### lemmas -/

theorem placeChildren_eq (b : Box) (level : ℤ) (k : ℕ) (l : List N) (i : ℕ) (d : List (N × Box)) (hn : l.Nodup)
    (hd : ∀ c ∈ l, c ∉ Dict.keys d) :
    placeChildren b level k l i d = d ++ l.zipIdx.map fun e => (e.1, b.child level k (i + e.2)) := by
  induction l generalizing i d with
  | nil => simp [placeChildren]
  | cons c t ih =>
    rw [List.nodup_cons] at hn
    rw [placeChildren, Dict.set_of_not_mem (hd c (by simp)), ih (i + 1) _ hn.2]
    · rw [List.zipIdx_cons, List.map_cons, List.append_assoc]
      congr 1
      simp only [List.singleton_append, Nat.add_zero, zero_add]
      congr 1
      rw [List.zipIdx_succ]
      simp [Nat.add_comm, Nat.add_left_comm]
    · intro x hx hm
      rw [Dict.keys_append, List.mem_append] at hm
      rcases hm with hm | hm
      · exact hd x (by simp [hx]) hm
      · simp at hm
        exact hn.1 (hm ▸ hx)

section Tree
variable [LcsLike S] {m : Csm N S D} {par : N → N} {h : N → Nat}

local notation "V" => fun x => x ∈ m.names

/-- boxes of the children of the listed systems -/
def entries (ch : N → List N) (d : List (N × Box)) (level : ℤ) (l : List N) : List (N × Box) :=
  l.flatMap fun n => match Dict.get? d n with
    | none => []
    | some b => (ch n).zipIdx.map fun e => (e.1, b.child level (ch n).length e.2)

theorem placeLevel_eq {ch : N → List N} {level : ℤ} (l : List N) (d0 d : List (N × Box)) (next : List N)
    (hch : ∀ n ∈ l, m.directChildren n = .ok (ch n)) (hl : ∀ n ∈ l, Dict.get? d n = Dict.get? d0 n ∧ n ∈ Dict.keys d0)
    (hn : (l.flatMap ch).Nodup) (hd : ∀ c ∈ l.flatMap ch, c ∉ Dict.keys d) (hdl : ∀ n ∈ l, n ∉ l.flatMap ch) :
    m.placeLevel level l d next = .ok (d ++ entries ch d0 level l, next ++ l.flatMap ch) := by
  induction l generalizing d next with
  | nil => simp [placeLevel, entries]
  | cons n t ih =>
    rw [List.flatMap_cons] at hn hd hdl
    obtain ⟨hn1, hn2, hn3⟩ := List.nodup_append.1 hn
    have hg := hl n (by simp)
    obtain ⟨b, hb⟩ := Dict.get?_isSome.2 hg.2
    have hent : entries ch d0 level (n :: t) = ((ch n).zipIdx.map fun e => (e.1, b.child level (ch n).length e.2)) ++ entries ch d0 level t := by
      simp only [entries, List.flatMap_cons, hb]
    rw [placeLevel, hch n (by simp)]
    simp only [bind, Except.bind]
    by_cases he : ch n = []
    · rw [if_pos he, ih d next (fun x hx => hch x (by simp [hx])) (fun x hx => hl x (by simp [hx])) hn2
        (fun c hc => hd c (by simp [hc])) (fun x hx hm => hdl x (by simp [hx]) (by simp [hm])), hent]
      simp [he]
    · rw [if_neg he, hg.1, hb]
      simp only
      rw [placeChildren_eq b level _ _ 0 d hn1 fun c hc => hd c (by simp [hc])]
      simp only [Nat.zero_add]
      rw [ih _ _ (fun x hx => hch x (by simp [hx])) ?_ hn2 ?_ (fun x hx hm => hdl x (by simp [hx]) (by simp [hm])), hent]
      · simp
      · intro x hx
        refine ⟨?_, (hl x (by simp [hx])).2⟩
        rw [← (hl x (by simp [hx])).1, Dict.get?_append]
        have hmem : x ∈ Dict.keys d := by
          obtain ⟨v, hv⟩ := Dict.get?_isSome.2 (hl x (by simp [hx])).2
          exact Dict.get?_isSome.1 ⟨v, by rw [(hl x (by simp [hx])).1, hv]⟩
        obtain ⟨v, hv⟩ := Dict.get?_isSome.2 hmem
        simp [hv]
      · intro c hc hm
        rw [Dict.keys_append, List.mem_append] at hm
        rcases hm with hm | hm
        · exact hd c (by simp [hc]) hm
        · obtain ⟨v, hv⟩ := Dict.mem_keys_iff.1 hm
          obtain ⟨e, he, he'⟩ := List.mem_map.1 hv
          have : c ∈ ch n := by
            have e1 : e.1 = c := congrArg Prod.fst he'
            rw [← e1]
            exact List.fst_mem_of_mem_zipIdx he
          exact hn3 c this c hc rfl

theorem keys_entries {ch : N → List N} {d : List (N × Box)} {level : ℤ} (l : List N) (hl : ∀ n ∈ l, n ∈ Dict.keys d) :
    Dict.keys (entries ch d level l) = l.flatMap ch := by
  induction l with
  | nil => rfl
  | cons n t ih =>
    obtain ⟨b, hb⟩ := Dict.get?_isSome.2 (hl n (by simp))
    have := ih fun x hx => hl x (by simp [hx])
    simp only [entries, List.flatMap_cons, hb] at this ⊢
    rw [Dict.keys_append, this]
    congr 1
    simp [Dict.keys, Function.comp_def, List.zipIdx_map_fst]

theorem mem_entries {ch : N → List N} {d : List (N × Box)} {level : ℤ} {l : List N} {n c : N} {b : Box} {i : ℕ} (hn : n ∈ l)
    (hb : Dict.get? d n = some b) (hc : (ch n)[i]? = some c) : (c, b.child level (ch n).length i) ∈ entries ch d level l := by
  refine List.mem_flatMap.2 ⟨n, hn, ?_⟩
  simp only [hb]
  exact List.mem_map.2 ⟨(c, i), List.mk_mem_zipIdx_iff_getElem?.2 hc, rfl⟩

/-- direct children, if there is no error -/
def childList (m : Csm N S D) (n : N) : List N := match m.directChildren n with
  | .ok l => l
  | .error _ => []

theorem childList_spec (I : Inv m) (T : TreeOn V m.Adj m.root par h) {n : N} (hn : n ∈ m.names) :
    m.directChildren n = .ok (m.childList n) ∧ (m.childList n).Nodup ∧ ∀ x, x ∈ m.childList n ↔ x ∈ m.names ∧ x ≠ m.root ∧ par x = n := by
  obtain ⟨l, h1, h2, h3⟩ := directChildren_spec I T hn
  have : m.childList n = l := by simp only [childList, h1]
  rw [this]
  exact ⟨h1, h2, h3⟩

/-- the boxes of the children are made of the box of the system -/
def Placed (m : Csm N S D) (d : List (N × Box)) (n : N) : Prop :=
  ∀ i c, (m.childList n)[i]? = some c → ∃ b, Dict.get? d n = some b ∧ Dict.get? d c = some (b.child (1 - b.y) (m.childList n).length i)

theorem placeLoop_spec (I : Inv m) (T : TreeOn V m.Adj m.root par h) (fuel : ℕ) (level : ℤ) (cur : List N) (d : List (N × Box))
    (hk : (Dict.keys d).Nodup) (hc : cur.Nodup) (hcd : ∀ x ∈ cur, x ∈ Dict.keys d) (hdn : ∀ x ∈ Dict.keys d, x ∈ m.names)
    (hr : Dict.get? d m.root = some ⟨1, 0, 0, 2⟩) (hpar : ∀ x ∈ Dict.keys d, x ≠ m.root → par x ∈ Dict.keys d ∧ par x ∉ cur)
    (hp : ∀ n ∈ Dict.keys d, n ∉ cur → Placed m d n) (hy : ∀ n ∈ cur, ∃ b, Dict.get? d n = some b ∧ b.y = 1 - level)
    (hf : m.names.length + cur.length ≤ fuel + (Dict.keys d).length) :
    ∃ r, m.placeLoop fuel level cur d = .ok r ∧ (Dict.keys r).Nodup ∧ (∀ x ∈ Dict.keys r, x ∈ m.names) ∧
      Dict.get? r m.root = some ⟨1, 0, 0, 2⟩ ∧ ∀ n ∈ Dict.keys r, Placed m r n := by
  induction fuel generalizing level cur d with
  | zero =>
    have hle : (Dict.keys d).length ≤ m.names.length := (List.subperm_of_subset hk hdn).length_le
    have hc0 : cur = [] := by
      cases cur with
      | nil => rfl
      | cons c t => simp at hf; omega
    subst hc0
    exact ⟨d, by simp [placeLoop], hk, hdn, hr, fun n hn => hp n hn (by simp)⟩
  | succ k ih =>
    by_cases hc0 : cur = []
    · subst hc0
      exact ⟨d, by simp [placeLoop], hk, hdn, hr, fun n hn => hp n hn (by simp)⟩
    have hcn : ∀ x ∈ cur, x ∈ m.names := fun x hx => hdn x (hcd x hx)
    have hmem : ∀ x, x ∈ cur.flatMap m.childList ↔ x ∈ m.names ∧ x ≠ m.root ∧ par x ∈ cur := by
      intro x
      rw [List.mem_flatMap]
      constructor
      · rintro ⟨n, hn, hx⟩
        obtain ⟨h1, h2, rfl⟩ := ((childList_spec I T (hcn n hn)).2.2 x).1 hx
        exact ⟨h1, h2, hn⟩
      · rintro ⟨h1, h2, h3⟩
        exact ⟨par x, h3, ((childList_spec I T (hcn _ h3)).2.2 x).2 ⟨h1, h2, rfl⟩⟩
    have hnd : (cur.flatMap m.childList).Nodup := by
      refine List.nodup_flatMap.2 ⟨fun n hn => (childList_spec I T (hcn n hn)).2.1, ?_⟩
      refine hc.imp_of_mem fun {a b} ha hb hab => List.disjoint_left.2 fun x hx hx' => hab ?_
      rw [← (((childList_spec I T (hcn a ha)).2.2 x).1 hx).2.2, ← (((childList_spec I T (hcn b hb)).2.2 x).1 hx').2.2]
    have hfresh : ∀ x ∈ cur.flatMap m.childList, x ∉ Dict.keys d := fun x hx hxd =>
      (hpar x hxd ((hmem x).1 hx).2.1).2 ((hmem x).1 hx).2.2
    have hstep : m.placeLoop (k + 1) level cur d =
        m.placeLoop k (level + 1) (cur.flatMap m.childList) (d ++ entries m.childList d level cur) := by
      obtain ⟨c, t, rfl⟩ := List.exists_cons_of_ne_nil hc0
      rw [placeLoop, placeLevel_eq (c :: t) d d [] (fun n hn => (childList_spec I T (hcn n hn)).1) (fun n hn => ⟨rfl, hcd n hn⟩) hnd hfresh
        (fun n hn hm => hfresh n hm (hcd n hn))]
      rfl
    have hke : Dict.keys (d ++ entries m.childList d level cur) = Dict.keys d ++ cur.flatMap m.childList := by
      rw [Dict.keys_append, keys_entries _ hcd]
    have hkn : (Dict.keys (d ++ entries m.childList d level cur)).Nodup := by
      rw [hke]
      exact List.Nodup.append hk hnd (List.disjoint_left.2 fun x hx hx' => hfresh x hx' hx)
    have hold : ∀ {x b}, Dict.get? d x = some b → Dict.get? (d ++ entries m.childList d level cur) x = some b := by
      intro x b hx
      rw [Dict.get?_append, hx]
      rfl
    have hnew : ∀ {n c i b}, n ∈ cur → Dict.get? d n = some b → (m.childList n)[i]? = some c →
        Dict.get? (d ++ entries m.childList d level cur) c = some (b.child level (m.childList n).length i) := fun hn hb hc =>
      Dict.get?_of_mem hkn (List.mem_append_right _ (mem_entries hn hb hc))
    rw [hstep]
    refine ih (level + 1) _ _ hkn hnd ?_ ?_ (hold hr) ?_ ?_ ?_ ?_
    · intro x hx; rw [hke]; simp [hx]
    · intro x hx
      rw [hke, List.mem_append] at hx
      rcases hx with hx | hx
      · exact hdn x hx
      · exact ((hmem x).1 hx).1
    · intro x hx hxr
      rw [hke, List.mem_append] at hx ⊢
      rcases hx with hx | hx
      · refine ⟨.inl (hpar x hx hxr).1, fun hm => hfresh _ hm (hpar x hx hxr).1⟩
      · exact ⟨.inl (hcd _ ((hmem x).1 hx).2.2), fun hm => hfresh _ hm (hcd _ ((hmem x).1 hx).2.2)⟩
    · intro n hn hnn i c hic
      rw [hke, List.mem_append] at hn
      have hn' := hn.resolve_right hnn
      by_cases hcur : n ∈ cur
      · obtain ⟨b, hb, hby⟩ := hy n hcur
        refine ⟨b, hold hb, ?_⟩
        rw [hnew hcur hb hic, hby]
        congr 2
        ring
      · obtain ⟨b, hb, hb'⟩ := hp n hn' hcur i c hic
        exact ⟨b, hold hb, hold hb'⟩
    · intro x hx
      obtain ⟨n, hn, hxn⟩ := List.mem_flatMap.1 hx
      obtain ⟨i, hi⟩ := List.mem_iff_getElem?.1 hxn
      obtain ⟨b, hb, _⟩ := hy n hn
      refine ⟨_, hnew hn hb hi, ?_⟩
      simp only [Box.child]
      ring
    · rw [hke, List.length_append]
      have : 1 ≤ cur.length := List.length_pos_iff.2 hc0
      omega

/-- a complete layout of the tree -/
structure Layout (m : Csm N S D) (par : N → N) (box : N → Box) : Prop where
  root : box m.root = ⟨1, 0, 0, 2⟩
  step : ∀ c ∈ m.names, c ≠ m.root → ∃ i, (m.childList (par c))[i]? = some c ∧
    box c = (box (par c)).child (1 - (box (par c)).y) (m.childList (par c)).length i

theorem positions_layout (I : Inv m) (T : TreeOn V m.Adj m.root par h) :
    ∃ r, m.placeLoop (m.nodes.length + 1) 1 [m.root] [(m.root, ⟨1, 0, 0, 2⟩)] = .ok r ∧ (Dict.keys r).Nodup ∧
      (∀ x, x ∈ Dict.keys r ↔ x ∈ m.names) ∧ Layout m par fun n => (Dict.get? r n).getD ⟨0, 0, 0, 0⟩ := by
  obtain ⟨r, h1, h2, h3, h4, h5⟩ := placeLoop_spec I T (m.nodes.length + 1) 1 [m.root] [(m.root, ⟨1, 0, 0, 2⟩)] (by simp) (by simp)
    (by simp) (by simpa using I.root_mem) (by simp [Dict.get?]) (by simp) (by simp) (by simp [Dict.get?]) (by simp [names, Dict.keys])
  have hall : ∀ k x, h x ≤ k → x ∈ m.names → x ∈ Dict.keys r := by
    intro k
    induction k with
    | zero =>
      intro x hx hn
      by_cases hxr : x = m.root
      · subst hxr; exact Dict.get?_isSome.1 ⟨_, h4⟩
      · have := T.par_lt x hn hxr; omega
    | succ k ih =>
      intro x hx hn
      by_cases hxr : x = m.root
      · subst hxr; exact Dict.get?_isSome.1 ⟨_, h4⟩
      · have hlt := T.par_lt x hn hxr
        have hpn := T.par_mem x hn hxr
        have hp := ih (par x) (by omega) hpn
        obtain ⟨i, hi⟩ := List.mem_iff_getElem?.1 (((childList_spec I T hpn).2.2 x).2 ⟨hn, hxr, rfl⟩)
        obtain ⟨b, _, hb⟩ := h5 _ hp i x hi
        exact Dict.get?_isSome.1 ⟨_, hb⟩
  refine ⟨r, h1, h2, fun x => ⟨h3 x, fun hx => hall _ x le_rfl hx⟩, by simp [h4], fun c hc hcr => ?_⟩
  have hpn := T.par_mem c hc hcr
  obtain ⟨i, hi⟩ := List.mem_iff_getElem?.1 (((childList_spec I T hpn).2.2 c).2 ⟨hc, hcr, rfl⟩)
  obtain ⟨b, hb, hb'⟩ := h5 _ (hall _ _ le_rfl hpn) i c hi
  exact ⟨i, hi, by simp [hb, hb']⟩

variable {box : N → Box}

theorem Layout.inside (L : Layout m par box) {c : N} (hc : c ∈ m.names) (hr : c ≠ m.root) (hb : (box (par c)).lo < (box (par c)).hi) :
    (box (par c)).lo ≤ (box c).lo ∧ (box c).hi ≤ (box (par c)).hi ∧ (box c).lo < (box c).x ∧ (box c).x < (box c).hi := by
  obtain ⟨i, hi, e⟩ := L.step c hc hr
  have hlt : i < (m.childList (par c)).length := (List.getElem?_eq_some_iff.1 hi).1
  set b := box (par c)
  set k := (m.childList (par c)).length
  have hk : (0 : ℚ) < k := by exact_mod_cast (by omega : 0 < k)
  have hd : 0 < (b.hi - b.lo) / k := div_pos (by linarith) hk
  have hsum : k * ((b.hi - b.lo) / k) = b.hi - b.lo := by field_simp
  have hik : ((i : ℚ) + 1) ≤ k := by exact_mod_cast hlt
  have hi0 : (0 : ℚ) ≤ i := by exact_mod_cast Nat.zero_le i
  rw [e]
  simp only [Box.child]
  refine ⟨by nlinarith, by nlinarith, by nlinarith, by nlinarith⟩

theorem Layout.box_pos (L : Layout m par box) (T : TreeOn V m.Adj m.root par h) {n : N} (hn : n ∈ m.names) :
    0 ≤ (box n).lo ∧ (box n).lo < (box n).x ∧ (box n).x < (box n).hi ∧ (box n).hi ≤ 2 := by
  obtain ⟨k, hk⟩ : ∃ k, h n = k := ⟨_, rfl⟩
  induction k using Nat.strong_induction_on generalizing n with
  | _ k ih =>
    by_cases hr : n = m.root
    · subst hr; rw [L.root]; norm_num
    · have hp := ih (h (par n)) (by have := T.par_lt n hn hr; omega) (T.par_mem n hn hr) rfl
      have := L.inside hn hr (hp.2.1.trans hp.2.2.1)
      exact ⟨hp.1.trans this.1, this.2.2.1, this.2.2.2, this.2.1.trans hp.2.2.2⟩

theorem Layout.level (L : Layout m par box) {n : N} (hn : n ∈ m.names) (hr : n ≠ m.root) : (box n).y = (box (par n)).y - 1 := by
  obtain ⟨i, _, e⟩ := L.step n hn hr
  rw [e]
  simp only [Box.child]
  ring

theorem Layout.level_le (L : Layout m par box) (T : TreeOn V m.Adj m.root par h) {n : N} (hn : n ∈ m.names) : (box n).y ≤ 0 := by
  obtain ⟨k, hk⟩ : ∃ k, h n = k := ⟨_, rfl⟩
  induction k using Nat.strong_induction_on generalizing n with
  | _ k ih =>
    by_cases hr : n = m.root
    · subst hr; rw [L.root]
    · have hp := ih (h (par n)) (by have := T.par_lt n hn hr; omega) (T.par_mem n hn hr) rfl
      rw [L.level hn hr]
      omega

theorem Layout.disjoint (L : Layout m par box) (T : TreeOn V m.Adj m.root par h) {a b : N} (ha : a ∈ m.names) (hb : b ∈ m.names) (hab : a ≠ b)
    (hy : (box a).y = (box b).y) : (box a).hi ≤ (box b).lo ∨ (box b).hi ≤ (box a).lo := by
  obtain ⟨k, hk⟩ : ∃ k, h a = k := ⟨_, rfl⟩
  induction k using Nat.strong_induction_on generalizing a b with
  | _ k ih =>
    by_cases hra : a = m.root
    · have hrb : b ≠ m.root := fun e => hab (hra.trans e.symm)
      have h1 := L.level hb hrb
      have h2 := L.level_le T (T.par_mem b hb hrb)
      rw [hra, L.root] at hy
      simp only at hy
      omega
    by_cases hrb : b = m.root
    · have h1 := L.level ha hra
      have h2 := L.level_le T (T.par_mem a ha hra)
      rw [hrb, L.root] at hy
      simp only at hy
      omega
    have hpa := T.par_mem a ha hra
    have hpb := T.par_mem b hb hrb
    have pa := L.box_pos T hpa
    have pb := L.box_pos T hpb
    have ia := L.inside ha hra (pa.2.1.trans pa.2.2.1)
    have ib := L.inside hb hrb (pb.2.1.trans pb.2.2.1)
    by_cases hpp : par a = par b
    · obtain ⟨i, hi, ea⟩ := L.step a ha hra
      obtain ⟨j, hj, eb⟩ := L.step b hb hrb
      rw [hpp] at hi ea
      have hk : (0 : ℚ) < (m.childList (par b)).length := by
        have := (List.getElem?_eq_some_iff.1 hi).1
        exact_mod_cast (by omega : 0 < (m.childList (par b)).length)
      have hd : 0 < ((box (par b)).hi - (box (par b)).lo) / (m.childList (par b)).length := div_pos (by linarith) hk
      rw [ea, eb]
      simp only [Box.child]
      rcases Nat.lt_trichotomy i j with hij | hij | hij
      · have : (i : ℚ) + 1 ≤ j := by exact_mod_cast hij
        exact .inl (by nlinarith)
      · subst hij; rw [hi] at hj; exact absurd (Option.some.inj hj) hab
      · have : (j : ℚ) + 1 ≤ i := by exact_mod_cast hij
        exact .inr (by nlinarith)
    · have hy' : (box (par a)).y = (box (par b)).y := by
        have h1 := L.level ha hra
        have h2 := L.level hb hrb
        omega
      rcases ih (h (par a)) (by have := T.par_lt a ha hra; omega) hpa hpb hpp hy' rfl with e | e
      · exact .inl (by linarith [ia.2.1, ib.1])
      · exact .inr (by linarith [ib.2.1, ia.1])

end Tree

/-! ### properties -/

variable [LcsLike S]

theorem positions_of {m : Csm N S D} {par : N → N} {h : N → Nat} (I : Inv m) (T : TreeOn (fun x => x ∈ m.names) m.Adj m.root par h) :
    ∃ pos box, m.positions = .ok pos ∧ (Dict.keys pos).Nodup ∧ (∀ n, n ∈ Dict.keys pos ↔ n ∈ m.names) ∧
      (∀ n ∈ m.names, Dict.get? pos n = some ((box n).x, (box n).y)) ∧ Layout m par box := by
  obtain ⟨r, h1, h2, h3, h4⟩ := positions_layout I T
  have hk : Dict.keys (r.map fun e => (e.1, (e.2.x, e.2.y))) = Dict.keys r := by simp [Dict.keys, Function.comp_def]
  refine ⟨r.map fun e => (e.1, (e.2.x, e.2.y)), _, ?_, hk ▸ h2, fun n => by rw [hk, h3], fun n hn => ?_, h4⟩
  · simp only [positions, h1]; rfl
  · obtain ⟨b, hb⟩ := Dict.get?_isSome.2 ((h3 n).2 hn)
    refine Dict.get?_of_mem (hk ▸ h2) (List.mem_map.2 ⟨(n, b), Dict.mem_of_get? hb, ?_⟩)
    simp [hb]

/-- **C89** every system gets one position, and the computation ends; the root is on top -/
theorem C89_all {m : Csm N S D} (hm : Reachable m) : ∃ pos, m.positions = .ok pos ∧ (Dict.keys pos).Nodup ∧
    (∀ n, n ∈ Dict.keys pos ↔ n ∈ m.names) ∧ Dict.get? pos m.root = some (1, 0) := by
  have I := hm.inv
  obtain ⟨par, ht, T⟩ := I.tree.treeOn I.root_mem
  obtain ⟨pos, box, h1, h2, h3, h4, L⟩ := positions_of I T
  exact ⟨pos, h1, h2, h3, by rw [h4 _ I.root_mem, L.root]⟩

/-- **C89** a system is one level below its parent -/
theorem C89_level {m : Csm N S D} (hm : Reachable m) {pos : List (N × (ℚ × ℤ))} (hp : m.positions = .ok pos) {n p : N} (hn : n ∈ m.names)
    (hpar : m.getParent n = .ok (some p)) : ∃ x x' y, Dict.get? pos p = some (x, y) ∧ Dict.get? pos n = some (x', y - 1) := by
  have I := hm.inv
  obtain ⟨par, ht, T⟩ := I.tree.treeOn I.root_mem
  obtain ⟨pos', box, h1, h2, h3, h4, L⟩ := positions_of I T
  rw [h1] at hp; cases hp
  have hr : n ≠ m.root := by rintro rfl; rw [getParent_root] at hpar; cases hpar
  rw [getParent_eq I T hn hr] at hpar
  cases hpar
  exact ⟨_, _, _, h4 _ (T.par_mem n hn hr), by rw [h4 _ hn, L.level hn hr]⟩

/-- **C89** no two systems have the same position -/
theorem C89_distinct {m : Csm N S D} (hm : Reachable m) {pos : List (N × (ℚ × ℤ))} (hp : m.positions = .ok pos) {a b : N} (ha : a ∈ m.names)
    (hb : b ∈ m.names) (hab : a ≠ b) : Dict.get? pos a ≠ Dict.get? pos b := by
  have I := hm.inv
  obtain ⟨par, ht, T⟩ := I.tree.treeOn I.root_mem
  obtain ⟨pos', box, h1, h2, h3, h4, L⟩ := positions_of I T
  rw [h1] at hp; cases hp
  rw [h4 a ha, h4 b hb]
  intro e
  simp only [Option.some.injEq, Prod.mk.injEq] at e
  have pa := L.box_pos T ha
  have pb := L.box_pos T hb
  rcases L.disjoint T ha hb hab e.2 with h | h
  · linarith [pa.2.2.1, pb.2.1, e.1]
  · linarith [pa.2.1, pb.2.2.1, e.1]

/-- **C89** all positions are between the left and the right boundary -/
theorem C89_width {m : Csm N S D} (hm : Reachable m) {pos : List (N × (ℚ × ℤ))} (hp : m.positions = .ok pos) {n : N} (hn : n ∈ m.names) :
    ∃ x y, Dict.get? pos n = some (x, y) ∧ 0 < x ∧ x < 2 ∧ y ≤ 0 := by
  have I := hm.inv
  obtain ⟨par, ht, T⟩ := I.tree.treeOn I.root_mem
  obtain ⟨pos', box, h1, h2, h3, h4, L⟩ := positions_of I T
  rw [h1] at hp; cases hp
  have pa := L.box_pos T hn
  exact ⟨_, _, h4 n hn, by linarith, by linarith, L.level_le T hn⟩

theorem Layout.desc {m : Csm N S D} {par : N → N} {h : N → Nat} {box : N → Box} (L : Layout m par box)
    (T : TreeOn (fun x => x ∈ m.names) m.Adj m.root par h) {a c : N} (hd : Desc (fun x => x ∈ m.names) m.root par a c) :
    (box a).lo ≤ (box c).lo ∧ (box c).hi ≤ (box a).hi := by
  induction hd with
  | refl => exact ⟨le_rfl, le_rfl⟩
  | @step y h1 h2 _ ih =>
    have pb := L.box_pos T (T.par_mem y h1 h2)
    have := L.inside h1 h2 (pb.2.1.trans pb.2.2.1)
    exact ⟨ih.1.trans this.1, this.2.1.trans ih.2⟩

/-- **C89** if a system is left of another one on the same level, everything below it is left of everything below the other one: links
do not cross -/
theorem C89_planar {m : Csm N S D} (hm : Reachable m) {pos : List (N × (ℚ × ℤ))} (hp : m.positions = .ok pos) {a b c d : N} (ha : a ∈ m.names)
    (hb : b ∈ m.names) {xa xb xc xd : ℚ} {y yc yd : ℤ} (pa : Dict.get? pos a = some (xa, y)) (pb : Dict.get? pos b = some (xb, y))
    (hlt : xa < xb) (hc : m.Below a c) (hd : m.Below b d) (hcn : c ∈ m.names) (hdn : d ∈ m.names) (pc : Dict.get? pos c = some (xc, yc))
    (pd : Dict.get? pos d = some (xd, yd)) : xc < xd := by
  have I := hm.inv
  obtain ⟨par, ht, T⟩ := I.tree.treeOn I.root_mem
  obtain ⟨pos', box, h1, h2, h3, h4, L⟩ := positions_of I T
  rw [h1] at hp; cases hp
  rw [h4 a ha] at pa
  rw [h4 b hb] at pb
  rw [h4 c hcn] at pc
  rw [h4 d hdn] at pd
  cases pc; cases pd
  simp only [Option.some.injEq, Prod.mk.injEq] at pa pb
  have hab : a ≠ b := by
    rintro rfl
    linarith [pa.1, pb.1]
  have dc := L.desc T ((below_iff I T hcn).1 hc).2
  have dd := L.desc T ((below_iff I T hdn).1 hd).2
  have qa := L.box_pos T ha
  have qb := L.box_pos T hb
  have qc := L.box_pos T hcn
  have qd := L.box_pos T hdn
  rcases L.disjoint T ha hb hab (pa.2.trans pb.2.symm) with h | h
  · linarith
  · linarith

/-- **C89** an arrow points from a system to another one exactly if the second one was described by the user in the first one -/
theorem C89_arrow {m : Csm N S D} (hm : Reachable m) (a b : N) : (b, a) ∈ m.arrows.map Prod.fst ↔ ∃ s, m.Supplied a b s := by
  have I := hm.inv
  constructor
  · intro h
    obtain ⟨⟨e1, e⟩, he, rfl⟩ := List.mem_map.1 h
    obtain ⟨he1, he2⟩ := List.mem_filter.1 he
    obtain ⟨e', he', hp⟩ := I.paired _ _ _ he1
    rcases hp with ⟨s, rfl, _⟩ | ⟨s, rfl, _⟩
    · simp at he2
    · exact ⟨s, he'⟩
  · rintro ⟨s, hs⟩
    obtain ⟨e', he', hp⟩ := I.paired _ _ _ hs
    rcases hp with ⟨s', _, rfl⟩ | ⟨s', rfl, h⟩
    · exact List.mem_map.2 ⟨_, List.mem_filter.2 ⟨he', by simp⟩, rfl⟩
    · simp at h

/-- **C89** every link is drawn as one arrow -/
theorem C89_once {m : Csm N S D} (hm : Reachable m) {a b : N} (hab : m.Adj a b) :
    (((a, b) ∈ m.arrows.map Prod.fst ∧ (b, a) ∉ m.arrows.map Prod.fst) ∨ ((a, b) ∉ m.arrows.map Prod.fst ∧ (b, a) ∈ m.arrows.map Prod.fst)) ∧
    (m.arrows.map Prod.fst).Nodup := by
  have I := hm.inv
  have hnd : (m.arrows.map Prod.fst).Nodup := I.edgesNodup.sublist (List.filter_sublist.map _)
  refine ⟨?_, hnd⟩
  obtain ⟨e, he⟩ := Dict.mem_keys_iff.1 hab
  obtain ⟨e', he', hp⟩ := I.paired _ _ _ he
  have uniq : ∀ {x y : N} {f g : Edge S}, ((x, y), f) ∈ m.edges → ((x, y), g) ∈ m.edges → f = g := fun hf hg => by
    have := Dict.get?_of_mem I.edgesNodup hf
    rw [Dict.get?_of_mem I.edgesNodup hg] at this
    exact (Option.some.inj this).symm
  have hmem : ∀ {x y : N} {f : Edge S}, ((x, y), f) ∈ m.edges → ((x, y) ∈ m.arrows.map Prod.fst ↔ f.defined = false) := by
    intro x y f hf
    constructor
    · intro h
      obtain ⟨⟨_, g⟩, hg, rfl⟩ := List.mem_map.1 h
      obtain ⟨hg1, hg2⟩ := List.mem_filter.1 hg
      rw [uniq hf hg1]
      simpa using hg2
    · intro h
      exact List.mem_map.2 ⟨_, List.mem_filter.2 ⟨hf, by simp [h]⟩, rfl⟩
  rw [hmem he, hmem he']
  rcases hp with ⟨s, rfl, rfl⟩ | ⟨s, rfl, rfl⟩ <;> simp

/-- **C89** arrows have the colour of time dependent systems exactly if the supplied system depends on time, as long as inversion does not
change that and systems that are given as expressions depend on time -/
theorem C89_colour {m : Csm N S D} (hm : Reachable m) (hinv : ∀ s : S, LcsLike.isTimeDependent (LcsLike.invert s) = LcsLike.isTimeDependent s)
    (hser : ∀ s : S, LcsLike.isSeries s = true → LcsLike.isTimeDependent s = true) (a b : N) :
    ((b, a) ∈ m.timedArrows ↔ ∃ s, m.Supplied a b s ∧ LcsLike.isTimeDependent s = true) ∧
    ((b, a) ∈ m.staticArrows ↔ ∃ s, m.Supplied a b s ∧ LcsLike.isTimeDependent s = false) := by
  have I := hm.inv
  have uniq : ∀ {x y : N} {f g : Edge S}, ((x, y), f) ∈ m.edges → ((x, y), g) ∈ m.edges → f = g := fun hf hg => by
    have := Dict.get?_of_mem I.edgesNodup hf
    rw [Dict.get?_of_mem I.edgesNodup hg] at this
    exact (Option.some.inj this).symm
  have hcol : ∀ s : S, edgeTimed ⟨false, reverseOf s⟩ = LcsLike.isTimeDependent s := by
    intro s
    unfold edgeTimed reverseOf
    cases h : LcsLike.isSeries s with
    | true => simp [hser s h]
    | false => simp [hinv]
  have h1 : (b, a) ∈ m.timedArrows ↔ ∃ s, m.Supplied a b s ∧ LcsLike.isTimeDependent s = true := by
    constructor
    · intro h
      obtain ⟨⟨e1, e⟩, he, rfl⟩ := List.mem_map.1 h
      obtain ⟨he1, he2⟩ := List.mem_filter.1 he
      obtain ⟨he3, he4⟩ := List.mem_filter.1 he1
      obtain ⟨e', he', hp⟩ := I.paired _ _ _ he3
      rcases hp with ⟨s, rfl, _⟩ | ⟨s, rfl, rfl⟩
      · simp at he4
      · exact ⟨s, he', by rw [← hcol]; exact he2⟩
    · rintro ⟨s, hs, ht⟩
      obtain ⟨e', he', hp⟩ := I.paired _ _ _ hs
      rcases hp with ⟨s', h', rfl⟩ | ⟨s', rfl, h⟩
      · cases h'
        exact List.mem_map.2 ⟨_, List.mem_filter.2 ⟨List.mem_filter.2 ⟨he', by simp⟩, by simp only; rw [hcol, ht]⟩, rfl⟩
      · simp at h
  refine ⟨h1, ?_⟩
  rw [staticArrows, List.mem_filter, C89_arrow hm a b, decide_eq_true_iff, h1]
  constructor
  · rintro ⟨⟨s, hs⟩, hn⟩
    refine ⟨s, hs, ?_⟩
    cases ht : LcsLike.isTimeDependent s with
    | false => rfl
    | true => exact absurd ⟨s, hs, ht⟩ hn
  · rintro ⟨s, hs, ht⟩
    refine ⟨⟨s, hs⟩, ?_⟩
    rintro ⟨s', hs', ht'⟩
    have := uniq hs hs'
    simp only [Edge.mk.injEq, Option.some.injEq, true_and] at this
    rw [this, ht'] at ht
    cases ht

/-- the positions of the tree of `Props` -/
example : Reachable demo ∧ demo.positions = .ok [(0, (1, 0)), (1, (1 / 2, -1)), (4, (3 / 2, -1)), (2, (1 / 4, -2)), (3, (3 / 4, -2))] ∧
    demo.arrows.map Prod.fst = [(0, 1), (1, 2), (1, 3), (4, 0)] ∧ demo.Below 1 2 ∧ demo.getParent 2 = .ok (some 1) := by
  refine ⟨demo_reachable, by decide +kernel, by decide +kernel, ⟨by decide, [2, 1, 0], ?_, by simp⟩, by rfl⟩
  have h21 : demo.Adj 2 1 := show (2, 1) ∈ Dict.keys demo.edges by decide +kernel
  have h10 : demo.Adj 1 0 := show (1, 0) ∈ Dict.keys demo.edges by decide +kernel
  exact ⟨.cons h21 (.cons h10 (.nil _)), by decide⟩

/-- fixed systems, discrete and continuous time dependence -/
inductive Motion
  | fixed | samples | series
  deriving DecidableEq

instance : LcsLike Motion := ⟨id, fun s => s == .series, fun s => s != .fixed, fun _ => none⟩

/-- one system of each sort -/
def moving : Csm ℕ Motion Unit :=
  (addCs 3 1 .series false true (addCs 2 0 .samples true true (addCs 1 0 .fixed true true (init 0 7 none)).state).state).state

example : Reachable moving ∧ (∀ s : Motion, LcsLike.isTimeDependent (LcsLike.invert s) = LcsLike.isTimeDependent s) ∧
    (∀ s : Motion, LcsLike.isSeries s = true → LcsLike.isTimeDependent s = true) ∧
    moving.timedArrows = [(0, 2), (3, 1)] ∧ moving.staticArrows = [(0, 1)] := by
  refine ⟨.addCs _ _ _ _ _ (.addCs _ _ _ _ _ (.addCs _ _ _ _ _ (.init _ _ _))), fun s => rfl, ?_, by decide +kernel, by decide +kernel⟩
  intro s
  cases s <;> decide

end Weldx.Csm
