import Verif.Csm.Spec

/-!
# Lemmas about the queries of the coordinate system manager
-/

set_option linter.unusedSectionVars false

namespace Weldx.Csm
variable {N S D L : Type} [DecidableEq N]

theorem mem_succs {m : Csm N S D} {a b : N} : b ∈ m.succs a ↔ m.Adj a b := by
  simp only [succs, Adj, List.mem_map, List.mem_filter, Dict.keys]
  constructor
  · rintro ⟨⟨⟨x, y⟩, e⟩, ⟨h1, h2⟩, h3⟩
    simp at h2 h3; subst h2 h3
    exact ⟨_, h1, rfl⟩
  · rintro ⟨⟨⟨x, y⟩, e⟩, h1, h2⟩
    cases h2
    exact ⟨_, ⟨h1, by simp⟩, rfl⟩

theorem nodup_succs {m : Csm N S D} (h : (Dict.keys m.edges).Nodup) (a : N) : (m.succs a).Nodup := by
  simp only [succs]
  have h2 : (m.edges.filter (fun e => e.1.1 = a)).Pairwise (fun x y => x.1 ≠ y.1) := by
    have := (List.pairwise_map.1 h)
    exact this.filter _
  rw [List.Nodup, List.pairwise_map]
  refine List.Pairwise.imp_of_mem ?_ h2
  rintro ⟨⟨x, y⟩, e⟩ ⟨⟨x', y'⟩, e'⟩ hx hy hne
  simp only [List.mem_filter, decide_eq_true_eq] at hx hy
  intro heq
  exact hne (by simp only at *; rw [hx.2, hy.2, heq])

theorem has_iff {m : Csm N S D} {n : N} : m.has n = true ↔ n ∈ m.names := by simp [has]

theorem checkExists_ok {m : Csm N S D} {n : N} (h : n ∈ m.names) : m.checkExists n = .ok () := by
  simp [checkExists, has, h]

theorem checkExists_err {m : Csm N S D} {n : N} (h : n ∉ m.names) :
    m.checkExists n = .error .valueError := by
  simp [checkExists, has, h]

/-! ### Shortest path -/

theorem walk_link {adj : N → N → Prop} {a b x y : N} {l r : List N}
    (w : Walk adj a b (l ++ x :: y :: r)) : adj x y := by
  generalize hp : l ++ x :: y :: r = p at w
  induction w generalizing l with
  | nil a =>
    have := congrArg List.length hp; simp at this; omega
  | @cons a b' c p' h w ih =>
    cases l with
    | nil =>
      simp at hp
      obtain ⟨rfl, rfl⟩ := hp
      obtain ⟨t, ht⟩ := w.head_eq
      cases ht
      exact h
    | cons z l =>
      simp at hp
      exact ih hp.2

theorem searchPath_sound {m : Csm N S D} {s t : N} : ∀ k ps p,
    (∀ q ∈ ps, ∃ x r, q = x :: r ∧ SimplePath m.Adj s x q.reverse) →
    m.searchPath t k ps = some p → SimplePath m.Adj s t p := by
  intro k
  induction k with
  | zero => intro ps p _ h; simp [searchPath] at h
  | succ k ih =>
    intro ps p hps h
    simp only [searchPath] at h
    split at h
    · rename_i q hq
      have hm := List.mem_of_find?_eq_some hq
      have hp := List.find?_some hq
      obtain ⟨x, r, rfl, hx⟩ := hps _ hm
      simp at hp; subst hp
      cases h; exact hx
    · refine ih _ p ?_ h
      intro q hq
      simp only [extendPaths, List.mem_flatMap] at hq
      obtain ⟨q0, hq0, hq⟩ := hq
      obtain ⟨x, r, rfl, hx⟩ := hps _ hq0
      simp only [List.mem_map, List.mem_filter, decide_eq_true_eq] at hq
      obtain ⟨y, ⟨hy, hny⟩, rfl⟩ := hq
      refine ⟨y, x :: r, rfl, ?_, ?_⟩
      · rw [List.reverse_cons]; exact hx.1.snoc (mem_succs.1 hy)
      · rw [List.nodup_reverse, List.nodup_cons]; exact ⟨hny, List.nodup_reverse.1 hx.2⟩

theorem searchPath_complete {m : Csm N S D} {s t : N} : ∀ k ps q1 rest,
    SimplePath m.Adj s t (q1 ++ rest) → q1.reverse ∈ ps → q1 ≠ [] → rest.length < k →
    ∃ p, m.searchPath t k ps = some p := by
  intro k
  induction k with
  | zero => intro ps q1 rest _ _ _ h; omega
  | succ k ih =>
    intro ps q1 rest hp hq hne hlt
    simp only [searchPath]
    split
    · exact ⟨_, rfl⟩
    · rename_i hnone
      cases rest with
      | nil =>
        exfalso
        have := List.find?_eq_none.1 hnone _ hq
        rw [List.append_nil] at hp
        have hl := hp.1.getLast
        apply this
        rw [List.head?_reverse, List.getLast?_eq_getLast_of_ne_nil hne]
        simp only [hl, decide_true]
      | cons y rest =>
        obtain ⟨x, r, hr⟩ : ∃ x r, q1.reverse = x :: r := by
          cases h : q1.reverse with
          | nil => exact absurd (by simpa using h) hne
          | cons x r => exact ⟨x, r, rfl⟩
        have hq1 : q1 = r.reverse ++ [x] := by
          have := congrArg List.reverse hr; simpa using this
        refine ih _ (q1 ++ [y]) rest (by simpa using hp) ?_ (by simp) (by simp at hlt; omega)
        rw [List.reverse_append, hr]
        simp only [extendPaths, List.mem_flatMap]
        refine ⟨x :: r, hr ▸ hq, ?_⟩
        simp only [List.mem_map, List.mem_filter, decide_eq_true_eq]
        refine ⟨y, ⟨?_, ?_⟩, by simp⟩
        · rw [mem_succs]
          have := hp.1
          rw [hq1, List.append_assoc] at this
          exact walk_link this
        · intro hy
          have := hp.2
          rw [List.nodup_append] at this
          have hmem : y ∈ q1 := by rw [hq1]; simpa [or_comm] using hy
          exact this.2.2 y hmem y (by simp) rfl

theorem walk_mem {m : Csm N S D} [LcsLike S] (I : Inv m) {a b : N} {p : List N}
    (w : Walk m.Adj a b p) (ha : a ∈ m.names) : ∀ x ∈ p, x ∈ m.names :=
  w.all_of_step (P := fun x => x ∈ m.names) ha fun _ _ _ _ _ h => I.tree.mem_right _ _ h

/-- In a well-formed manager `shortest_path` finds the only path. -/
theorem shortestPath_iff [LcsLike S] {m : Csm N S D} (I : Inv m) {a b : N} (ha : a ∈ m.names)
    (hb : b ∈ m.names) {p : List N} : m.shortestPath a b = some p ↔ SimplePath m.Adj a b p := by
  have sound : ∀ p, m.shortestPath a b = some p → SimplePath m.Adj a b p := by
    intro p h
    simp only [shortestPath, ha, hb, and_self, if_true] at h
    exact searchPath_sound _ _ _ (by
      intro q hq; simp at hq; subst hq
      exact ⟨a, [], rfl, .nil _, by simp⟩) h
  refine ⟨sound p, fun h => ?_⟩
  obtain ⟨t, rfl⟩ := h.1.head_eq
  have hlen : (a :: t).length ≤ m.names.length :=
    (List.subperm_of_subset h.2 (walk_mem I h.1 ha)).length_le
  have : ∃ p, m.shortestPath a b = some p := by
    simp only [shortestPath, ha, hb, and_self, if_true]
    refine searchPath_complete _ _ [a] t h (by simp) (by simp) ?_
    simp [names, Dict.keys] at hlen; omega
  obtain ⟨q, hq⟩ := this
  rw [hq, I.tree.path_unique _ _ _ _ h (sound q hq)]

theorem shortestPath_none [LcsLike S] {m : Csm N S D} {a b : N} (h : a ∉ m.names ∨ b ∉ m.names) :
    m.shortestPath a b = none := by
  simp only [shortestPath]; rw [if_neg]; tauto

/-! ### Parent and children -/

section Tree
variable [LcsLike S] {m : Csm N S D} {par : N → N} {h : N → Nat}

local notation "V" => fun x => x ∈ m.names

theorem not_desc_root (c : N) (hc : c ≠ m.root) : ¬ Desc V m.root par c m.root := fun d => by
  rcases d.inv with e | ⟨_, h2, _⟩
  · exact hc e.symm
  · exact h2 rfl

theorem getParent_root (m : Csm N S D) : m.getParent m.root = .ok none := by simp [getParent]

theorem getParent_eq (I : Inv m) (T : TreeOn V m.Adj m.root par h) {n : N} (hn : n ∈ m.names)
    (hr : n ≠ m.root) : m.getParent n = .ok (some (par n)) := by
  obtain ⟨p, hp⟩ := I.tree.exists_path n m.root hn I.root_mem
  have hs := (shortestPath_iff I hn I.root_mem).2 hp
  obtain ⟨h1, h2, t, rfl, ht⟩ := T.first_step hp (not_desc_root n hr)
  obtain ⟨u, rfl⟩ := ht.1.head_eq
  simp only [getParent, if_neg hr, checkExists_ok hn, hs]
  rfl

theorem neighbors_ok (m : Csm N S D) {n : N} (hn : n ∈ m.names) : m.neighbors n = .ok (m.succs n) := by
  simp only [neighbors, checkExists_ok hn]; rfl

/-- direct children = neighbours except the parent -/
theorem directChildren_spec (I : Inv m) (T : TreeOn V m.Adj m.root par h) {n : N}
    (hn : n ∈ m.names) : ∃ l, m.directChildren n = .ok l ∧ l.Nodup ∧
      ∀ x, x ∈ l ↔ x ∈ m.names ∧ x ≠ m.root ∧ par x = n := by
  have key : ∀ x, m.Adj n x ∧ (n ≠ m.root → x ≠ par n) ↔ x ∈ m.names ∧ x ≠ m.root ∧ par x = n := by
    intro x
    rw [T.adj_iff]
    constructor
    · rintro ⟨⟨h1, h2, h3⟩ | h1, h4⟩
      · exact absurd h3.symm (h4 h2)
      · exact h1
    · intro hx
      refine ⟨.inr hx, fun hr e => ?_⟩
      have h1 := T.par_lt x hx.1 hx.2.1
      have h2 := T.par_lt n hn hr
      rw [hx.2.2] at h1
      rw [← e] at h2; omega
  simp only [directChildren, neighbors_ok m hn]
  by_cases hs : m.succs n = []
  · refine ⟨[], ?_, by simp, fun x => ?_⟩
    · show (if m.succs n = [] then _ else _) = _
      rw [if_pos hs]
    · rw [← key, ← mem_succs, hs]; simp
  · by_cases hr : n = m.root
    · refine ⟨m.succs n, ?_, nodup_succs I.edgesNodup n, fun x => ?_⟩
      · show (if m.succs n = [] then _ else _) = _
        rw [if_neg hs, hr, getParent_root]
        show Except.ok _ = _
        congr 1; simp
      · rw [← key, mem_succs]; simp [hr]
    · refine ⟨(m.succs n).filter (fun c => some c ≠ some (par n)), ?_,
        (nodup_succs I.edgesNodup n).filter _, fun x => ?_⟩
      · show (if m.succs n = [] then _ else _) = _
        rw [if_neg hs, getParent_eq I T hn hr]; rfl
      · rw [← key, List.mem_filter, mem_succs]; simp [hr]

theorem childrenOf_spec (I : Inv m) (T : TreeOn V m.Adj m.root par h) : ∀ l : List N,
    l.Nodup → (∀ x ∈ l, x ∈ m.names) → ∃ r, m.childrenOf l = .ok r ∧ r.Nodup ∧
      ∀ x, x ∈ r ↔ x ∈ m.names ∧ x ≠ m.root ∧ par x ∈ l := by
  intro l
  induction l with
  | nil => intro _ _; exact ⟨[], rfl, by simp, by simp⟩
  | cons c t ih =>
    intro hn hm
    rw [List.nodup_cons] at hn
    obtain ⟨a, ha, han, ham⟩ := directChildren_spec I T (hm c (by simp))
    obtain ⟨b, hb, hbn, hbm⟩ := ih hn.2 fun x hx => hm x (by simp [hx])
    refine ⟨a ++ b, by simp only [childrenOf, ha, hb]; rfl, ?_, ?_⟩
    · refine List.Nodup.append han hbn (List.disjoint_left.2 fun x hx hx' => ?_)
      rw [ham] at hx; rw [hbm] at hx'
      exact hn.1 (hx.2.2 ▸ hx'.2.2)
    · intro x
      rw [List.mem_append, ham, hbm, List.mem_cons]
      tauto

/-- the `while` loop ends and collects everything below `n` -/
theorem childrenLoop_spec (I : Inv m) (T : TreeOn V m.Adj m.root par h) {n : N} (hn : n ∈ m.names) :
    ∀ fuel cur all, cur.Nodup → all.Nodup → (∀ x ∈ cur, x ∈ all) →
      (∀ x ∈ all, x ∈ m.names ∧ x ≠ n ∧ Desc V m.root par n x) →
      (∀ x ∈ all, par x = n ∨ par x ∈ all) →
      (∀ x ∈ all, par x ∉ cur) →
      (∀ x, x ∈ m.names → x ≠ m.root → (par x = n ∨ par x ∈ all) → x ∈ all ∨ par x ∈ cur) →
      m.names.length + cur.length ≤ fuel + all.length →
      ∃ l, m.childrenLoop fuel cur all = .ok l ∧ l.Nodup ∧
        ∀ x, x ∈ l ↔ x ∈ m.names ∧ x ≠ n ∧ Desc V m.root par n x := by
  intro fuel
  induction fuel with
  | zero =>
    intro cur all hcn han hca hall hpar hdis hcl hlen
    have hle : all.length ≤ m.names.length :=
      (List.subperm_of_subset han fun x hx => (hall x hx).1).length_le
    have hc : cur = [] := by
      cases cur with
      | nil => rfl
      | cons c t => simp at hlen; omega
    subst hc
    refine ⟨all, by simp [childrenLoop], han, fun x => ⟨hall x, ?_⟩⟩
    rintro ⟨hx, hne, d⟩
    have : x = n ∨ x ∈ all := by
      clear hne
      induction d with
      | refl => exact .inl rfl
      | @step y h1 h2 _ ih =>
        have := hcl y h1 h2 (ih (T.par_mem y h1 h2))
        exact .inr (by simpa using this)
    exact this.resolve_left hne
  | succ k ih =>
    intro cur all hcn han hca hall hpar hdis hcl hlen
    cases hcur : cur with
    | nil =>
      subst hcur
      refine ⟨all, by simp [childrenLoop], han, fun x => ⟨hall x, ?_⟩⟩
      rintro ⟨hx, hne, d⟩
      have : x = n ∨ x ∈ all := by
        clear hne
        induction d with
        | refl => exact .inl rfl
        | @step y h1 h2 _ ih =>
          have := hcl y h1 h2 (ih (T.par_mem y h1 h2))
          exact .inr (by simpa using this)
      exact this.resolve_left hne
    | cons c t =>
      obtain ⟨new, hnew, hnn, hnm⟩ := childrenOf_spec I T cur hcn fun x hx => (hall x (hca x hx)).1
      rw [← hcur]
      have hdisj : ∀ x ∈ new, x ∉ all := fun x hx hxa => hdis x hxa ((hnm x).1 hx).2.2
      have hloop : m.childrenLoop (k + 1) cur all = m.childrenLoop k new (all ++ new) := by
        rw [hcur] at hnew ⊢; simp only [childrenLoop, hnew]; rfl
      rw [hloop]
      have hnewdesc : ∀ x ∈ new, x ∈ m.names ∧ x ≠ n ∧ Desc V m.root par n x := by
        intro x hx
        obtain ⟨h1, h2, h3⟩ := (hnm x).1 hx
        obtain ⟨h4, h5, h6⟩ := hall _ (hca _ h3)
        refine ⟨h1, ?_, .step h1 h2 h6⟩
        rintro rfl
        have := T.par_lt x h1 h2
        rcases T.desc_le h6 with e | e
        · exact h5 e.symm
        · omega
      refine ih new (all ++ new) hnn (List.Nodup.append han hnn
        (List.disjoint_left.2 fun x hx hx' => hdisj x hx' hx)) (by simp +contextual) ?_ ?_ ?_ ?_ ?_
      · intro x hx
        rcases List.mem_append.1 hx with hx | hx
        · exact hall x hx
        · exact hnewdesc x hx
      · intro x hx
        rcases List.mem_append.1 hx with hx | hx
        · rcases hpar x hx with h' | h'
          · exact .inl h'
          · exact .inr (by simp [h'])
        · exact .inr (by simp [hca _ ((hnm x).1 hx).2.2])
      · intro x hx hx'
        rcases List.mem_append.1 hx with hx | hx
        · rcases hpar x hx with h' | h'
          · exact (hnewdesc _ hx').2.1 h'
          · exact hdis _ h' ((hnm _).1 hx').2.2
        · exact hdisj _ hx' (hca _ ((hnm x).1 hx).2.2)
      · intro x h1 h2 h3
        have h3' : (par x = n ∨ par x ∈ all) ∨ par x ∈ new := by
          rcases h3 with h3 | h3
          · exact .inl (.inl h3)
          · rcases List.mem_append.1 h3 with h3 | h3
            · exact .inl (.inr h3)
            · exact .inr h3
        rcases h3' with h3 | h3
        · rcases hcl x h1 h2 h3 with h4 | h4
          · exact .inl (by simp [h4])
          · exact .inl (by simp [(hnm x).2 ⟨h1, h2, h4⟩])
        · exact .inr h3
      · have : 1 ≤ cur.length := by rw [hcur]; simp
        simp; omega

theorem allChildren_spec (I : Inv m) (T : TreeOn V m.Adj m.root par h) {n : N} (hn : n ∈ m.names) :
    ∃ l, m.allChildren n = .ok l ∧ l.Nodup ∧
      ∀ x, x ∈ l ↔ x ∈ m.names ∧ x ≠ n ∧ Desc V m.root par n x := by
  obtain ⟨cur, hc, hcn, hcm⟩ := directChildren_spec I T hn
  have hcd : ∀ x ∈ cur, x ∈ m.names ∧ x ≠ n ∧ Desc V m.root par n x := by
    intro x hx
    obtain ⟨h1, h2, h3⟩ := (hcm x).1 hx
    refine ⟨h1, ?_, .step h1 h2 (h3 ▸ .refl)⟩
    rintro rfl
    have := T.par_lt x h1 h2
    rw [h3] at this; omega
  have := childrenLoop_spec I T hn m.nodes.length cur cur hcn hcn (fun _ h => h) hcd
    (fun x hx => .inl ((hcm x).1 hx).2.2)
    (fun x hx hx' => (hcd _ hx').2.1 ((hcm x).1 hx).2.2)
    (fun x h1 h2 h3 => by
      rcases h3 with h3 | h3
      · exact .inl ((hcm x).2 ⟨h1, h2, h3⟩)
      · exact .inr h3)
    (by simp [names, Dict.keys])
  obtain ⟨l, h1, h2, h3⟩ := this
  exact ⟨l, by simp only [allChildren, hc]; exact h1, h2, h3⟩

/-- `Below` in terms of parent pointers -/
theorem below_iff (I : Inv m) (T : TreeOn V m.Adj m.root par h) {c x : N} (hx : x ∈ m.names) :
    m.Below c x ↔ x ≠ c ∧ Desc V m.root par c x := by
  obtain ⟨p, hp⟩ := I.tree.exists_path x m.root hx I.root_mem
  constructor
  · rintro ⟨h1, q, hq, hc⟩
    exact ⟨h1, (T.mem_path_root hq).1 hc⟩
  · rintro ⟨h1, d⟩
    exact ⟨h1, p, hp, (T.mem_path_root hp).2 d⟩

end Tree
end Weldx.Csm
