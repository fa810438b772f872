import Verif.Csm.SerialLemmas

/-!
# The tree written to the file contains the whole manager
-/

set_option linter.unusedSectionVars false

namespace Weldx.Csm
variable {N S D : Type} [DecidableEq N] [LcsLike S]

theorem mem_definedEdges {m : Csm N S D} {k : N × N} {e : Edge S} :
    (k, e) ∈ m.definedEdges ↔ (k, e) ∈ m.edges ∧ e.defined = true := by
  simp [definedEdges]

/-- every link is supplied in exactly one direction -/
theorem adj_defined {m : Csm N S D} (I : Inv m) {a b : N} (h : m.Adj a b) :
    (∃ e, ((a, b), e) ∈ m.definedEdges) ∨ ∃ e, ((b, a), e) ∈ m.definedEdges := by
  obtain ⟨e, he⟩ := Dict.mem_keys_iff.1 h
  obtain ⟨e', he', hp⟩ := I.paired _ _ _ he
  rcases hp with ⟨s, rfl, rfl⟩ | ⟨s, rfl, rfl⟩
  · exact .inl ⟨_, mem_definedEdges.2 ⟨he, rfl⟩⟩
  · exact .inr ⟨_, mem_definedEdges.2 ⟨he', rfl⟩⟩

theorem defined_once {m : Csm N S D} (I : Inv m) {a b : N} {e e' : Edge S} (h : ((a, b), e) ∈ m.definedEdges)
    (h' : ((b, a), e') ∈ m.definedEdges) : False := by
  rw [mem_definedEdges] at h h'
  obtain ⟨e'', he'', hp⟩ := I.paired _ _ _ h.1
  have := (Dict.get?_of_mem I.edgesNodup he'').symm.trans (Dict.get?_of_mem I.edgesNodup h'.1)
  cases this
  rcases hp with ⟨s, rfl, rfl⟩ | ⟨s, rfl, rfl⟩
  · simp at h'
  · simp at h

theorem adj_of_defined {m : Csm N S D} {a b : N} {e : Edge S} (h : ((a, b), e) ∈ m.definedEdges) : m.Adj a b :=
  Dict.mem_keys_of_mem (mem_definedEdges.1 h).1

section
variable {m : Csm N S D} {r : N} {par : N → N} {h : N → Nat}

local notation "V" => (fun x => x ∈ m.names)

/-- the parent of a system, seen from the first system -/
def parentOpt (r : N) (par : N → N) (n : N) : Option N := if n = r then none else some (par n)

theorem mem_treeLinks (I : Inv m) (T : TreeOn V m.Adj r par h) {n : N} {f : Bool} {e : Edge S} {c : N} :
    (f, e, c) ∈ m.treeLinks n (parentOpt r par n) ↔ c ∈ m.names ∧ c ≠ r ∧ par c = n ∧
      ((if f then (n, c) else (c, n)), e) ∈ m.definedEdges := by
  have key : m.Adj n c → (some c ≠ parentOpt r par n ↔ c ∈ m.names ∧ c ≠ r ∧ par c = n) := by
    intro hadj
    rcases (T.adj_iff n c).1 hadj with ⟨h1, h2, h3⟩ | ⟨h1, h2, h3⟩
    · constructor
      · intro h'
        exact absurd (by rw [parentOpt, if_neg h2, h3]) h'
      · rintro ⟨h4, h5, h6⟩
        have l1 := T.par_lt n h1 h2
        have l2 := T.par_lt c h4 h5
        rw [h3] at l1; rw [h6] at l2
        omega
    · refine ⟨fun _ => ⟨h1, h2, h3⟩, fun _ => ?_⟩
      unfold parentOpt
      split
      · simp
      · rename_i hn
        intro e'
        have e'' : c = par n := by injection e'
        have hnm : n ∈ m.names := by rw [← h3]; exact T.par_mem c h1 h2
        have l1 := T.par_lt n hnm hn
        have l2 := T.par_lt c h1 h2
        rw [h3] at l2
        rw [← e''] at l1
        omega
  have hadj' : ((if f then (n, c) else (c, n)), e) ∈ m.definedEdges → m.Adj n c := by
    intro h'
    cases f
    · exact I.tree.symm _ _ (adj_of_defined (by simpa using h'))
    · exact adj_of_defined (by simpa using h')
  have main : (f, e, c) ∈ m.treeLinks n (parentOpt r par n) ↔
      ((if f then (n, c) else (c, n)), e) ∈ m.definedEdges ∧ some c ≠ parentOpt r par n := by
    unfold treeLinks
    rw [List.mem_append, List.mem_map, List.mem_map]
    constructor
    · rintro (⟨⟨⟨a, b⟩, e'⟩, h1, h2⟩ | ⟨⟨⟨a, b⟩, e'⟩, h1, h2⟩)
      · rw [List.mem_filter] at h1
        simp only [decide_eq_true_eq] at h1
        simp only [Prod.mk.injEq] at h2
        obtain ⟨rfl, rfl, rfl⟩ := h2
        obtain ⟨h3, rfl, h4⟩ := h1
        exact ⟨by simpa using h3, h4⟩
      · rw [List.mem_filter] at h1
        simp only [decide_eq_true_eq] at h1
        simp only [Prod.mk.injEq] at h2
        obtain ⟨rfl, rfl, rfl⟩ := h2
        obtain ⟨h3, rfl, h4⟩ := h1
        exact ⟨by simpa using h3, h4⟩
    · rintro ⟨h1, h2⟩
      cases f
      · right
        exact ⟨((c, n), e), List.mem_filter.2 ⟨by simpa using h1, by simpa using h2⟩, rfl⟩
      · left
        exact ⟨((n, c), e), List.mem_filter.2 ⟨by simpa using h1, by simpa using h2⟩, rfl⟩
  rw [main]
  constructor
  · rintro ⟨h1, h2⟩
    obtain ⟨a, b, c'⟩ := (key (hadj' h1)).1 h2
    exact ⟨a, b, c', h1⟩
  · rintro ⟨a, b, c', h1⟩
    exact ⟨h1, (key (hadj' h1)).2 ⟨a, b, c'⟩⟩

theorem buildEdges_ok (f : N → Except CsmError (DiNode N S D)) (tr : N → DiNode N S D) :
    ∀ l : List (Bool × Edge S × N), (∀ x ∈ l, f x.2.2 = .ok (tr x.2.2)) →
    ∃ es, buildEdges f l = .ok es ∧ es.toList = l.map fun x => (x.1, x.2.1, tr x.2.2)
  | [], _ => ⟨.nil, rfl, rfl⟩
  | (d, e, c) :: t, hl => by
    obtain ⟨es, h1, h2⟩ := buildEdges_ok f tr t fun x hx => hl x (List.mem_cons_of_mem _ hx)
    refine ⟨.cons d e (tr c) es, ?_, ?_⟩
    · have := hl (d, e, c) (List.mem_cons_self ..)
      simp only at this
      simp only [buildEdges, this, h1]
    · simp [DiEdges.toList, h2]

/-- the tree built for a system describes everything at and below it -/
structure Represents (m : Csm N S D) (r : N) (par : N → N) (n : N) (t : DiNode N S D) : Prop where
  name : t.name = n
  nodes : ∀ x ds, (x, ds) ∈ t.nodeList ↔ (x, ds) ∈ m.nodes ∧ Desc (fun x => x ∈ m.names) r par n x
  edges : ∀ a b e, ((a, b), e) ∈ t.edgeList ↔ ((a, b), e) ∈ m.definedEdges ∧
    Desc (fun x => x ∈ m.names) r par n a ∧ Desc (fun x => x ∈ m.names) r par n b

open Classical in
/-- number of systems at and below `n` -/
noncomputable def countBelow (m : Csm N S D) (r : N) (par : N → N) (n : N) : Nat :=
  (m.names.filter fun x => decide (Desc (fun x => x ∈ m.names) r par n x)).length

theorem desc_antisymm (T : TreeOn V m.Adj r par h) {a b : N} (h1 : Desc V r par a b) (h2 : Desc V r par b a) : a = b := by
  rcases T.desc_le h1 with e | e
  · exact e
  · rcases T.desc_le h2 with e' | e'
    · exact e'.symm
    · omega

theorem countBelow_lt (T : TreeOn V m.Adj r par h) (hn : m.names.Nodup) {c : N} (hc : c ∈ m.names) (hr : c ≠ r) :
    countBelow m r par c < countBelow m r par (par c) := by
  classical
  unfold countBelow
  have hsub : (par c :: m.names.filter fun x => decide (Desc V r par c x)) ⊆ m.names.filter fun x => decide (Desc V r par (par c) x) := by
    intro x hx
    rcases List.mem_cons.1 hx with rfl | hx
    · exact List.mem_filter.2 ⟨T.par_mem c hc hr, by simpa using Desc.refl⟩
    · obtain ⟨h1, h2⟩ := List.mem_filter.1 hx
      simp only [decide_eq_true_eq] at h2
      refine List.mem_filter.2 ⟨h1, ?_⟩
      simp only [decide_eq_true_eq]
      exact Desc.trans (.step hc hr .refl) h2
  have hnd : (par c :: m.names.filter fun x => decide (Desc V r par c x)).Nodup := by
    refine List.nodup_cons.2 ⟨fun hx => ?_, hn.filter _⟩
    have := (List.mem_filter.1 hx).2
    simp only [decide_eq_true_eq] at this
    rcases T.desc_le this with e | e
    · have := T.par_lt c hc hr
      rw [← e] at this; omega
    · have := T.par_lt c hc hr
      omega
  have := (List.subperm_of_subset hnd hsub).length_le
  simpa using this

theorem buildTree_ok (I : Inv m) (T : TreeOn V m.Adj r par h) : ∀ (k : ℕ) (n : N), n ∈ m.names →
    countBelow m r par n ≤ k → ∃ t, m.buildTree k n (parentOpt r par n) = .ok t ∧ Represents m r par n t := by
  intro k
  induction k with
  | zero =>
    intro n hn hk
    exfalso
    classical
    have : n ∈ m.names.filter fun x => decide (Desc V r par n x) :=
      List.mem_filter.2 ⟨hn, by simpa using Desc.refl⟩
    unfold countBelow at hk
    have := List.length_pos_of_mem this
    omega
  | succ k ih =>
    intro n hn hk
    have hch : ∀ c, ∃ t, c ∈ m.names → c ≠ r → par c = n →
        m.buildTree k c (some n) = .ok t ∧ Represents m r par c t := by
      intro c
      by_cases hc : c ∈ m.names ∧ c ≠ r ∧ par c = n
      · obtain ⟨h1, h2, h3⟩ := hc
        have hl := countBelow_lt T I.nodesNodup h1 h2
        rw [h3] at hl
        obtain ⟨t, ht, hR⟩ := ih c h1 (by omega)
        refine ⟨t, fun _ _ _ => ⟨?_, hR⟩⟩
        rw [parentOpt, if_neg h2, h3] at ht
        exact ht
      · obtain ⟨ds, hds⟩ := Dict.get?_isSome.2 hn
        exact ⟨.mk n ds .nil, fun a b c => absurd ⟨a, b, c⟩ hc⟩
    choose tr htr using hch
    obtain ⟨es, hes, hl⟩ := buildEdges_ok (fun c => m.buildTree k c (some n)) tr (m.treeLinks n (parentOpt r par n))
      (fun x hx => by
        obtain ⟨f, e, c⟩ := x
        obtain ⟨h1, h2, h3, -⟩ := (mem_treeLinks I T).1 hx
        exact (htr c h1 h2 h3).1)
    obtain ⟨ds, hds⟩ := Dict.get?_isSome.2 hn
    have hmem : ∀ f e t, (f, e, t) ∈ es.toList ↔ ∃ c, c ∈ m.names ∧ c ≠ r ∧ par c = n ∧ t = tr c ∧
        ((if f then (n, c) else (c, n)), e) ∈ m.definedEdges := by
      intro f e t
      rw [hl, List.mem_map]
      constructor
      · rintro ⟨⟨f', e', c⟩, h1, h2⟩
        simp only [Prod.mk.injEq] at h2
        obtain ⟨rfl, rfl, rfl⟩ := h2
        obtain ⟨a, b, c', d⟩ := (mem_treeLinks I T).1 h1
        exact ⟨c, a, b, c', rfl, d⟩
      · rintro ⟨c, a, b, c', rfl, d⟩
        exact ⟨(f, e, c), (mem_treeLinks I T).2 ⟨a, b, c', d⟩, rfl⟩
    -- children exist for all child systems
    have hlink : ∀ c, c ∈ m.names → c ≠ r → par c = n → ∃ (f : Bool) (e : Edge S), ((if f then (n, c) else (c, n)), e) ∈ m.definedEdges := by
      intro c h1 h2 h3
      rcases adj_defined I (T.adj_par h1 h2) with ⟨e, he⟩ | ⟨e, he⟩
      · exact ⟨false, e, by simpa [h3] using he⟩
      · exact ⟨true, e, by simpa [h3] using he⟩
    have hdesc : ∀ x, x ∈ m.names → (Desc V r par n x ↔ x = n ∨ ∃ c, c ∈ m.names ∧ c ≠ r ∧ par c = n ∧ Desc V r par c x) := by
      intro x _
      constructor
      · intro hd
        induction hd with
        | refl => exact .inl rfl
        | @step y hy hyr hd ih =>
          rcases ih (T.par_mem y hy hyr) with e | ⟨c, h1, h2, h3, h4⟩
          · exact .inr ⟨y, hy, hyr, e, .refl⟩
          · exact .inr ⟨c, h1, h2, h3, .step hy hyr h4⟩
      · rintro (rfl | ⟨c, h1, h2, h3, h4⟩)
        · exact .refl
        · exact Desc.trans (.step h1 h2 (h3 ▸ .refl)) h4
    refine ⟨.mk n ds es, by simp only [buildTree, hes, hds], rfl, fun x d => ?_, fun a b e => ?_⟩
    · simp only [DiNode.nodeList, List.mem_cons, DiEdges.mem_nodeList]
      constructor
      · rintro (hx | ⟨f, a, t, h1, h2⟩)
        · cases hx; exact ⟨Dict.mem_of_get? hds, .refl⟩
        · obtain ⟨c, c1, c2, c3, rfl, c4⟩ := (hmem f a t).1 h1
          obtain ⟨h3, h4⟩ := ((htr c c1 c2 c3).2.nodes x d).1 h2
          exact ⟨h3, Desc.trans (.step c1 c2 (c3 ▸ .refl)) h4⟩
      · rintro ⟨h1, h2⟩
        rcases (hdesc x (Dict.mem_keys_of_mem h1)).1 h2 with rfl | ⟨c, c1, c2, c3, c4⟩
        · left
          have := Dict.get?_of_mem I.nodesNodup h1
          rw [this] at hds; cases hds; rfl
        · obtain ⟨f, e, hfe⟩ := hlink c c1 c2 c3
          exact .inr ⟨f, e, tr c, (hmem f e _).2 ⟨c, c1, c2, c3, rfl, hfe⟩, ((htr c c1 c2 c3).2.nodes x d).2 ⟨h1, c4⟩⟩
    · simp only [DiNode.edgeList, DiEdges.mem_edgeList]
      constructor
      · rintro ⟨f, a', t, h1, h2⟩
        obtain ⟨c, c1, c2, c3, rfl, c4⟩ := (hmem f a' t).1 h1
        have hR := (htr c c1 c2 c3).2
        have hnc : Desc V r par n c := .step c1 c2 (c3 ▸ .refl)
        rcases h2 with h2 | h2
        · rw [hR.name] at h2
          rw [h2]
          refine ⟨c4, ?_⟩
          have h2' : (a, b) = (if f then (n, c) else (c, n)) := congrArg Prod.fst h2
          cases f
          · simp only [Bool.false_eq_true, if_false, Prod.mk.injEq] at h2'
            obtain ⟨rfl, rfl⟩ := h2'
            exact ⟨hnc, .refl⟩
          · simp only [if_true, Prod.mk.injEq] at h2'
            obtain ⟨rfl, rfl⟩ := h2'
            exact ⟨.refl, hnc⟩
        · obtain ⟨h3, h4, h5⟩ := (hR.edges a b e).1 h2
          exact ⟨h3, Desc.trans hnc h4, Desc.trans hnc h5⟩
      · rintro ⟨h1, h2, h3⟩
        have hadj := adj_of_defined h1
        have ha := T.mem_left _ _ hadj
        have hb := T.mem_left _ _ (T.symm _ _ hadj)
        have low : ∀ x y, x ∈ m.names → x ≠ r → par x = y → Desc V r par n y →
            (y = n ∨ ∃ c, c ∈ m.names ∧ c ≠ r ∧ par c = n ∧ Desc V r par c x ∧ Desc V r par c y) := by
          intro x y hx hxr hxy hd
          have hy : y ∈ m.names := by rw [← hxy]; exact T.par_mem x hx hxr
          rcases (hdesc y hy).1 hd with e' | ⟨c, c1, c2, c3, c4⟩
          · exact .inl e'
          · exact .inr ⟨c, c1, c2, c3, .step hx hxr (hxy ▸ c4), c4⟩
        rcases (T.adj_iff a b).1 hadj with ⟨p1, p2, p3⟩ | ⟨p1, p2, p3⟩
        · rcases low a b p1 p2 p3 h3 with rfl | ⟨c, c1, c2, c3, c4, c5⟩
          · exact ⟨false, e, tr a, (hmem _ _ _).2 ⟨a, p1, p2, p3, rfl, by simpa using h1⟩, .inl (by
              rw [(htr a p1 p2 p3).2.name]; simp)⟩
          · obtain ⟨f, e', hfe⟩ := hlink c c1 c2 c3
            exact ⟨f, e', tr c, (hmem _ _ _).2 ⟨c, c1, c2, c3, rfl, hfe⟩, .inr (((htr c c1 c2 c3).2.edges a b e).2 ⟨h1, c4, c5⟩)⟩
        · rcases low b a p1 p2 p3 h2 with rfl | ⟨c, c1, c2, c3, c4, c5⟩
          · exact ⟨true, e, tr b, (hmem _ _ _).2 ⟨b, p1, p2, p3, rfl, by simpa using h1⟩, .inl (by
              rw [(htr b p1 p2 p3).2.name]; simp)⟩
          · obtain ⟨f, e', hfe⟩ := hlink c c1 c2 c3
            exact ⟨f, e', tr c, (hmem _ _ _).2 ⟨c, c1, c2, c3, rfl, hfe⟩, .inr (((htr c c1 c2 c3).2.edges a b e).2 ⟨h1, c5, c4⟩)⟩

/-! ### The check that the graph is a tree -/

theorem mem_grow {es : List ((N × N) × Edge S)} {l : List N} {x : N} (hx : x ∈ l) : x ∈ grow es l :=
  List.mem_append_left _ hx

theorem mem_grow_iter {es : List ((N × N) × Edge S)} {l : List N} {x : N} (hx : x ∈ l) (k : ℕ) : x ∈ (grow es)^[k] l := by
  induction k generalizing l with
  | zero => exact hx
  | succ k ih => rw [Function.iterate_succ_apply]; exact ih (mem_grow hx)

theorem grow_step (I : Inv m) {l : List N} {a b : N} (ha : a ∈ l) (hab : m.Adj a b) : b ∈ grow m.definedEdges l := by
  unfold grow
  rcases adj_defined I hab with ⟨e, he⟩ | ⟨e, he⟩
  · exact List.mem_append_right _ (List.mem_filterMap.2 ⟨_, he, by simp [ha]⟩)
  · by_cases hb : b ∈ l
    · exact List.mem_append_left _ hb
    · exact List.mem_append_right _ (List.mem_filterMap.2 ⟨_, he, by simp [ha, hb]⟩)

theorem grow_walk (I : Inv m) {a b : N} {p : List N} (w : Walk m.Adj a b p) : ∀ (l : List N) (k : ℕ), a ∈ l → p.length ≤ k + 1 →
    b ∈ (grow m.definedEdges)^[k] l := by
  induction w with
  | nil a => intro l k ha _; exact mem_grow_iter ha k
  | @cons a c b p hac w ih =>
    intro l k ha hk
    cases k with
    | zero =>
      obtain ⟨t, rfl⟩ := w.head_eq
      simp at hk
    | succ k =>
      rw [Function.iterate_succ_apply]
      exact ih _ k (grow_step I ha hac) (by simpa using hk)

theorem connected_check (I : Inv m) (hr : r ∈ m.names) :
    (m.names.all fun x => decide (x ∈ (grow m.definedEdges)^[m.names.length] [r])) = true := by
  rw [List.all_eq_true]
  intro x hx
  rw [decide_eq_true_eq]
  obtain ⟨p, hp⟩ := I.tree.exists_path r x hr hx
  refine grow_walk I hp.1 [r] _ (by simp) ?_
  have hsub : p ⊆ m.names := fun y hy => walk_mem I hp.1 hr y hy
  have := (List.subperm_of_subset hp.2 hsub).length_le
  omega

/-- the lower end of a link -/
noncomputable def lowerEnd (r : N) (par : N → N) (e : (N × N) × Edge S) : N :=
  open Classical in if e.1.1 ≠ r ∧ par e.1.1 = e.1.2 then e.1.1 else e.1.2

theorem lowerEnd_spec (T : TreeOn V m.Adj r par h) {a b : N} {e : Edge S} (he : ((a, b), e) ∈ m.definedEdges) :
    lowerEnd r par ((a, b), e) ∈ m.names ∧ lowerEnd r par ((a, b), e) ≠ r ∧
      ((a, b) = (lowerEnd r par ((a, b), e), par (lowerEnd r par ((a, b), e))) ∨
       (a, b) = (par (lowerEnd r par ((a, b), e)), lowerEnd r par ((a, b), e))) := by
  unfold lowerEnd
  have hadj := adj_of_defined he
  split
  · rename_i h'
    simp only at h'
    exact ⟨T.mem_left _ _ hadj, h'.1, .inl (by simp [h'.2])⟩
  · rename_i h'
    simp only at h'
    rcases (T.adj_iff a b).1 hadj with ⟨p1, p2, p3⟩ | ⟨p1, p2, p3⟩
    · exact absurd ⟨p2, p3⟩ h'
    · exact ⟨p1, p2, .inr (by simp [p3])⟩

theorem edge_count (I : Inv m) (T : TreeOn V m.Adj r par h) : m.definedEdges.length + 1 = m.names.length := by
  classical
  have hnd : (m.definedEdges.map (lowerEnd r par)).Nodup := by
    rw [List.Nodup, List.pairwise_map]
    have hk : m.definedEdges.Pairwise (fun x y => x.1 ≠ y.1) :=
      (List.pairwise_map.1 I.edgesNodup).filter _
    refine List.Pairwise.imp_of_mem ?_ hk
    rintro ⟨⟨a, b⟩, e⟩ ⟨⟨a', b'⟩, e'⟩ h1 h2 hne heq
    obtain ⟨-, -, s1⟩ := lowerEnd_spec T h1
    obtain ⟨-, -, s2⟩ := lowerEnd_spec T h2
    rw [← heq] at s2
    rcases s1 with s1 | s1 <;> rcases s2 with s2 | s2
    · exact hne (s1.trans s2.symm)
    · generalize lowerEnd r par ((a, b), e) = u at s1 s2
      simp only [Prod.mk.injEq] at s1 s2
      obtain ⟨rfl, rfl⟩ := s1
      obtain ⟨rfl, rfl⟩ := s2
      exact defined_once I h1 h2
    · generalize lowerEnd r par ((a, b), e) = u at s1 s2
      simp only [Prod.mk.injEq] at s1 s2
      obtain ⟨rfl, rfl⟩ := s1
      obtain ⟨rfl, rfl⟩ := s2
      exact defined_once I h1 h2
    · exact hne (s1.trans s2.symm)
  have hmem : ∀ x, x ∈ m.definedEdges.map (lowerEnd r par) ↔ x ∈ m.names.erase r := by
    intro x
    rw [List.Nodup.mem_erase_iff I.nodesNodup, List.mem_map]
    constructor
    · rintro ⟨⟨⟨a, b⟩, e⟩, h1, rfl⟩
      obtain ⟨s1, s2, -⟩ := lowerEnd_spec T h1
      exact ⟨s2, s1⟩
    · rintro ⟨h1, h2⟩
      have hlow : ∀ a b e, ((a, b), e) ∈ m.definedEdges → ((a, b) = (x, par x) ∨ (a, b) = (par x, x)) →
          lowerEnd r par ((a, b), e) = x := by
        intro a b e he hab
        obtain ⟨s1, s2, s3⟩ := lowerEnd_spec T he
        generalize lowerEnd r par ((a, b), e) = u at s1 s2 s3
        have l1 := T.par_lt x h2 h1
        have l2 := T.par_lt u s1 s2
        rcases hab with hab | hab <;> rcases s3 with s3 | s3 <;> rw [hab] at s3 <;> simp only [Prod.mk.injEq] at s3
        · exact s3.1.symm
        · rw [← s3.1] at l2
          rw [s3.2] at l1
          omega
        · rw [s3.1] at l1
          rw [← s3.2] at l2
          omega
        · exact s3.2.symm
      rcases adj_defined I (T.adj_par h2 h1) with ⟨e, he⟩ | ⟨e, he⟩
      · exact ⟨_, he, hlow _ _ _ he (.inl rfl)⟩
      · exact ⟨_, he, hlow _ _ _ he (.inr rfl)⟩
  have hp := (List.perm_ext_iff_of_nodup hnd (I.nodesNodup.erase r)).2 hmem
  have hl := hp.length_eq
  rw [List.length_map, List.length_erase_of_mem T.root_mem] at hl
  have := List.length_pos_of_mem T.root_mem
  omega

end

/-- with at least two systems, each has a supplied edge -/
theorem write_nodes {m : Csm N S D} (I : Inv m) (h2 : 2 ≤ m.names.length) :
    (m.nodes.filter fun x => m.definedEdges.any fun e => decide (e.1.1 = x.1) || decide (e.1.2 = x.1)) = m.nodes := by
  rw [List.filter_eq_self]
  rintro ⟨x, ds⟩ hx
  have hxn : x ∈ m.names := Dict.mem_keys_of_mem hx
  have hex : ∃ y ∈ m.names, y ≠ x := by
    by_contra hno
    push Not at hno
    have hsub : m.names ⊆ [x] := fun y hy => by simp [hno y hy]
    have := (List.subperm_of_subset I.nodesNodup hsub).length_le
    simp at this
    omega
  obtain ⟨y, hy, hyx⟩ := hex
  obtain ⟨p, hp⟩ := I.tree.exists_path x y hxn hy
  obtain ⟨c, t, -, hadj, -⟩ := hp.tail (Ne.symm hyx)
  rw [List.any_eq_true]
  rcases adj_defined I hadj with ⟨e, he⟩ | ⟨e, he⟩
  · exact ⟨_, he, by simp⟩
  · exact ⟨_, he, by simp⟩

end Weldx.Csm
