import Verif.Csm.Lemmas
import Mathlib.Data.List.Pairwise

/-!
# Every operation keeps the manager well-formed
-/

set_option linter.unusedSectionVars false
set_option linter.unusedSimpArgs false

namespace Weldx

theorem IsTree.congr {N : Type} {V V' : N → Prop} {adj adj' : N → N → Prop} (T : IsTree V adj)
    (hV : ∀ x, V x ↔ V' x) (ha : ∀ x y, adj x y ↔ adj' x y) : IsTree V' adj' := by
  have h1 : V = V' := funext fun x => propext (hV x)
  have h2 : adj = adj' := funext fun x => funext fun y => propext (ha x y)
  subst h1 h2; exact T

namespace Csm
variable {N S D L : Type} [DecidableEq N] [LcsLike S]

theorem SubOK.subset' {adj : N → N → Prop} {V : N → Prop} {r : N} {sub : SubInfo N}
    (h : SubOK adj V r sub) : ∀ x ∈ sub.members, V x := by cases h; assumption

theorem SubOK.transfer {adj adj' : N → N → Prop} {V V' : N → Prop} {r : N} {sub : SubInfo N}
    (h : SubOK adj V r sub) (hV : ∀ x ∈ sub.members, V' x)
    (ha : ∀ x ∈ sub.members, ∀ y ∈ sub.members, adj x y → adj' x y) : SubOK adj' V' r sub := by
  induction h generalizing V' with
  | mk nd sb rm cm rc cn nested ih =>
    refine .mk nd hV rm cm rc (fun x hx => ?_) (fun s hs => ?_)
    · obtain ⟨p, hp, hm⟩ := cn x hx
      exact ⟨p, hp.mono fun x hx y hy => ha x (hm x hx) y (hm y hy), hm⟩
    · have hss := (nested s hs).subset'
      exact ih s hs hss fun x hx y hy => ha x (hss x hx) y (hss y hy)

theorem SubOK.discard {adj : N → N → Prop} {V : N → Prop} {r d : N} {sub : SubInfo N}
    (h : SubOK adj V r sub) : SubOK adj V r (sub.discard d) := by
  cases sub; cases h with
  | mk nd sb rm cm rc cn nested => exact .mk nd sb rm cm rc cn nested

/-! ### data names -/

theorem mem_dataNames {m : Csm N S D} (hn : m.names.Nodup) {d : N} : d ∈ m.dataNames ↔
    ∃ n ds, Dict.get? m.nodes n = some ds ∧ d ∈ Dict.keys ds := by
  simp only [dataNames, List.mem_flatMap, Prod.exists]
  constructor
  · rintro ⟨n, ds, h, hd⟩; exact ⟨n, ds, (Dict.get?_iff_mem hn).2 h, hd⟩
  · rintro ⟨n, ds, h, hd⟩; exact ⟨n, ds, Dict.mem_of_get? h, hd⟩

theorem dataNodup_iff {m : Csm N S D} (hn : m.names.Nodup) : m.dataNames.Nodup ↔
    (∀ n ds, Dict.get? m.nodes n = some ds → (Dict.keys ds).Nodup) ∧
    (∀ n n' ds ds' d, Dict.get? m.nodes n = some ds → Dict.get? m.nodes n' = some ds' →
      d ∈ Dict.keys ds → d ∈ Dict.keys ds' → n = n') := by
  have hnn : m.nodes.Nodup := List.Nodup.of_map _ hn
  rw [dataNames, List.nodup_flatMap]
  constructor
  · rintro ⟨h1, h2⟩
    refine ⟨fun n ds h => h1 _ (Dict.mem_of_get? h), fun n n' ds ds' d h h' hd hd' => ?_⟩
    by_contra hne
    have : Std.Symm (Function.onFun List.Disjoint fun e : N × List (N × D) => Dict.keys e.2) :=
      ⟨fun _ _ h _ a b => h b a⟩
    have := h2.forall (Dict.mem_of_get? h) (Dict.mem_of_get? h')
      (fun e => hne (by cases e; rfl))
    exact this hd hd'
  · rintro ⟨h1, h2⟩
    refine ⟨fun x hx => h1 x.1 x.2 (Dict.get?_of_mem hn hx), ?_⟩
    refine List.Nodup.pairwise_of_forall_ne hnn ?_
    rintro ⟨n, ds⟩ hx ⟨n', ds'⟩ hx' hne
    refine List.disjoint_left.2 fun d hd hd' => hne ?_
    have := h2 n n' ds ds' d (Dict.get?_of_mem hn hx) (Dict.get?_of_mem hn hx') hd hd'
    subst this
    have e := (Dict.get?_of_mem hn hx).symm.trans (Dict.get?_of_mem hn hx')
    cases e; rfl

/-! ### creation -/

theorem Inv.init (root name : N) (refTime : Option Int) :
    Inv (Csm.init root name refTime : Csm N S D) where
  nodesNodup := by simp [Csm.init, names]
  edgesNodup := by simp [Csm.init]
  root_mem := by simp [Csm.init, names]
  tree := by
    refine ⟨?_, ?_, ?_, ?_, ?_⟩
    · intro a h; simp [Adj, Csm.init] at h
    · intro a b h; simp [Adj, Csm.init] at h
    · intro a b h; simp [Adj, Csm.init] at h
    · intro a b ha hb
      simp [Csm.init, names] at ha hb
      subst ha hb
      exact ⟨[_], .nil _, by simp⟩
    · intro a b p q hp hq
      have : ∀ p, SimplePath (Csm.init root name refTime : Csm N S D).Adj a b p → a = b := by
        intro p hp
        by_contra hne
        obtain ⟨c, t, _, h, _⟩ := hp.tail hne
        simp [Adj, Csm.init] at h
      have e := this p hp
      subst e
      rw [hp.refl_eq, hq.refl_eq]
  paired := by simp [Csm.init]
  dataNodup := by simp [Csm.init, dataNames]
  subs_ok := by simp [Csm.init]

/-! ### add_cs -/

/-- edges after storing `s` for the link from `a` to `b` -/
def linkEdges (es : List ((N × N) × Edge S)) (a b : N) (s : S) : List ((N × N) × Edge S) :=
  Dict.set (Dict.set es (a, b) ⟨true, some s⟩) (b, a) ⟨false, reverseOf s⟩

theorem mem_linkEdges {es : List ((N × N) × Edge S)} (hn : (Dict.keys es).Nodup) {a b : N} {s : S}
    {x y : N} {e : Edge S} : ((x, y), e) ∈ linkEdges es a b s ↔
      ((x, y) = (b, a) ∧ e = ⟨false, reverseOf s⟩) ∨
      ((x, y) ≠ (b, a) ∧ (x, y) = (a, b) ∧ e = ⟨true, some s⟩) ∨
      ((x, y) ≠ (b, a) ∧ (x, y) ≠ (a, b) ∧ ((x, y), e) ∈ es) := by
  rw [linkEdges, Dict.mem_set (Dict.nodup_keys_set hn), Dict.mem_set hn]; tauto

theorem keys_linkEdges {es : List ((N × N) × Edge S)} {a b : N} {s : S} {k : N × N} :
    k ∈ Dict.keys (linkEdges es a b s) ↔ k ∈ Dict.keys es ∨ k = (a, b) ∨ k = (b, a) := by
  rw [linkEdges, Dict.mem_keys_set, Dict.mem_keys_set]; tauto

theorem nodup_linkEdges {es : List ((N × N) × Edge S)} (hn : (Dict.keys es).Nodup) {a b : N} {s : S} :
    (Dict.keys (linkEdges es a b s)).Nodup := Dict.nodup_keys_set (Dict.nodup_keys_set hn)

theorem paired_linkEdges {es : List ((N × N) × Edge S)} (hn : (Dict.keys es).Nodup) {a b : N} {s : S}
    (hab : a ≠ b)
    (hp : ∀ a b e, ((a, b), e) ∈ es → ∃ e', ((b, a), e') ∈ es ∧ Paired e e') :
    ∀ x y e, ((x, y), e) ∈ linkEdges es a b s →
      ∃ e', ((y, x), e') ∈ linkEdges es a b s ∧ Paired e e' := by
  intro x y e he
  simp only [mem_linkEdges hn, Prod.mk.injEq, ne_eq] at *
  rcases he with ⟨⟨rfl, rfl⟩, rfl⟩ | ⟨_, ⟨rfl, rfl⟩, rfl⟩ | ⟨h1, h2, h3⟩
  · exact ⟨⟨true, some s⟩, .inr (.inl ⟨fun h => hab h.1, ⟨rfl, rfl⟩, rfl⟩), .inr ⟨s, rfl, rfl⟩⟩
  · exact ⟨⟨false, reverseOf s⟩, .inl ⟨⟨rfl, rfl⟩, rfl⟩, .inl ⟨s, rfl, rfl⟩⟩
  · obtain ⟨e', he', hpr⟩ := hp _ _ _ h3
    exact ⟨e', .inr (.inr ⟨fun h => h2 ⟨h.2, h.1⟩, fun h => h1 ⟨h.2, h.1⟩, he'⟩), hpr⟩

/-- direction in which `add_cs` stores the system -/
def addDir (n ref : N) (dir lsc : Bool) : N × N := if dir && lsc then (n, ref) else (ref, n)

theorem addEdges_apply (a b : N) (s : S) (m : Csm N S D) :
    addEdges a b s m = .ok () { m with edges := linkEdges m.edges a b s } := rfl

theorem updateLcs_apply {a b : N} {s : S} {m : Csm N S D} (h1 : m.Adj a b) (h2 : m.Adj b a) :
    updateLcs a b s m = .ok () { m with edges := linkEdges m.edges a b s } := by
  obtain ⟨e1, he1⟩ := Dict.get?_isSome.2 h1
  have h2' : (b, a) ∈ Dict.keys (Dict.set m.edges (a, b) ⟨true, some s⟩) :=
    Dict.mem_keys_set.2 (.inl h2)
  obtain ⟨e2, he2⟩ := Dict.get?_isSome.2 h2'
  simp [updateLcs, edge?, he1, Py.ite_apply, he2, linkEdges]

theorem isNeighborOf_ok {m : Csm N S D} {a b : N} (ha : a ∈ m.names) (hb : b ∈ m.names) :
    m.isNeighborOf a b = .ok (decide (b ∈ m.succs a)) := by
  simp only [isNeighborOf, checkExists_ok ha, checkExists_ok hb, neighbors_ok m ha]; rfl

theorem isNeighborOf_err {m : Csm N S D} {a b : N} (h : a ∉ m.names ∨ b ∉ m.names) :
    m.isNeighborOf a b = .error .valueError := by
  by_cases ha : a ∈ m.names
  · simp only [isNeighborOf, checkExists_ok ha, checkExists_err (h.resolve_left (not_not.2 ha))]; rfl
  · simp only [isNeighborOf, checkExists_err ha]; rfl

/-- What `add_cs` can do. -/
theorem addCs_cases {m : Csm N S D} (I : Inv m) (n ref : N) (s : S) (dir lsc : Bool) :
    (addCs n ref s dir lsc m = .err .weldxException m ∧ m.addCsRejected s = true) ∨
    (addCs n ref s dir lsc m = .err .valueError m ∧
      (ref ∉ m.names ∨ (n ∈ m.names ∧ ¬ m.Adj n ref))) ∨
    (m.addCsRejected s = false ∧ m.Adj n ref ∧ addCs n ref s dir lsc m = .ok ()
      { m with edges := linkEdges m.edges (addDir n ref dir lsc).1 (addDir n ref dir lsc).2 s }) ∨
    (m.addCsRejected s = false ∧ n ∉ m.names ∧ ref ∈ m.names ∧ addCs n ref s dir lsc m = .ok ()
      { m with
        nodes := m.nodes ++ [(n, [])]
        edges := linkEdges m.edges (addDir n ref dir lsc).1 (addDir n ref dir lsc).2 s }) := by
  have hdir : (if !lsc && dir then lsc else dir) = (dir && lsc) := by cases dir <;> cases lsc <;> rfl
  simp only [addCs, hdir, Py.get_bind, Py.ite_apply, Py.raise_apply]
  by_cases hrej : m.addCsRejected s = true
  · left; simp [hrej]
  · right
    rw [if_neg hrej]
    have hrej' : m.addCsRejected s = false := by simpa using hrej
    by_cases hn : n ∈ m.names
    · rw [if_pos (has_iff.2 hn)]
      by_cases hr : ref ∈ m.names
      · rw [isNeighborOf_ok hn hr, Py.lift_ok_bind]
        by_cases hadj : m.Adj n ref
        · right; left
          refine ⟨hrej', hadj, ?_⟩
          have hs := mem_succs.2 hadj
          simp only [hs, decide_true, Bool.not_true, Bool.false_eq_true, if_false]
          cases hd : (dir && lsc)
          · simp [addDir, hd, updateLcs_apply (I.tree.symm _ _ hadj) hadj]
          · simp [addDir, hd, updateLcs_apply hadj (I.tree.symm _ _ hadj)]
        · left
          have hs : ref ∉ m.succs n := fun h => hadj (mem_succs.1 h)
          simp [hs, hn, hadj]
      · left; rw [isNeighborOf_err (.inr hr), Py.lift_error_bind]; exact ⟨rfl, .inl hr⟩
    · rw [if_neg (fun h => hn (has_iff.1 h))]
      by_cases hr : ref ∈ m.names
      · right; right
        refine ⟨hrej', hn, hr, ?_⟩
        rw [checkExists_ok hr, Py.lift_ok_bind]
        have hadd : addNode n m = .ok () { m with nodes := m.nodes ++ [(n, [])] } := by
          have : m.has n = false := by simpa [has] using hn
          simp [addNode, this, Py.ite_apply, Dict.set_of_not_mem hn]
        rw [Py.bind_ok hadd]
        cases hd : (dir && lsc) <;> simp [addDir, hd, addEdges_apply]
      · left; rw [checkExists_err hr, Py.lift_error_bind]; exact ⟨rfl, .inl hr⟩

theorem addDir_ne {n ref : N} {dir lsc : Bool} (h : n ≠ ref) :
    (addDir n ref dir lsc).1 ≠ (addDir n ref dir lsc).2 := by
  simp only [addDir]; split
  · exact h
  · exact h.symm

theorem addDir_keys {n ref : N} {dir lsc : Bool} {k : N × N} :
    (k = ((addDir n ref dir lsc).1, (addDir n ref dir lsc).2) ∨
      k = ((addDir n ref dir lsc).2, (addDir n ref dir lsc).1)) ↔ (k = (n, ref) ∨ k = (ref, n)) := by
  simp only [addDir]; split <;> tauto

theorem Inv.addCs {m : Csm N S D} (I : Inv m) (n ref : N) (s : S) (dir lsc : Bool) :
    Inv (Csm.addCs n ref s dir lsc m).state := by
  rcases addCs_cases I n ref s dir lsc with ⟨h, _⟩ | ⟨h, _⟩ | ⟨_, hadj, h⟩ | ⟨_, hn, hr, h⟩
  · rw [h, Res.state_err]; exact I
  · rw [h, Res.state_err]; exact I
  · rw [h, Res.state_ok]
    have hne : n ≠ ref := fun e => I.tree.irrefl n (by simpa [e] using hadj)
    have hA : ∀ x y, m.Adj x y ↔ ({ m with
          edges := linkEdges m.edges (addDir n ref dir lsc).1 (addDir n ref dir lsc).2 s } :
        Csm N S D).Adj x y := by
      intro x y
      simp only [Adj, keys_linkEdges, addDir_keys]
      constructor
      · exact .inl
      · rintro (h | h | h)
        · exact h
        · cases h; exact hadj
        · cases h; exact I.tree.symm _ _ hadj
    exact {
      nodesNodup := I.nodesNodup
      edgesNodup := nodup_linkEdges I.edgesNodup
      root_mem := I.root_mem
      tree := I.tree.congr (fun _ => Iff.rfl) hA
      paired := paired_linkEdges I.edgesNodup (addDir_ne hne) I.paired
      dataNodup := I.dataNodup
      subs_ok := fun s' hs => (I.subs_ok s' hs).transfer (I.subs_ok s' hs).subset'
        fun x _ y _ h => (hA x y).1 h }
  · rw [h, Res.state_ok]
    have hne : n ≠ ref := fun e => hn (e ▸ hr)
    have hA : ∀ x y, (m.Adj x y ∨ (x = n ∧ y = ref) ∨ (x = ref ∧ y = n)) ↔
        ({ m with
          nodes := m.nodes ++ [(n, [])]
          edges := linkEdges m.edges (addDir n ref dir lsc).1 (addDir n ref dir lsc).2 s } :
        Csm N S D).Adj x y := by
      intro x y
      simp only [Adj, keys_linkEdges, addDir_keys]
      simp only [Prod.mk.injEq]
    have hV : ∀ x, (x ∈ m.names ∨ x = n) ↔ x ∈ Dict.keys (m.nodes ++ [(n, [])]) := by
      intro x; simp [names]
    exact {
      nodesNodup := by
        show (Dict.keys (m.nodes ++ [(n, [])])).Nodup
        have := Dict.nodup_keys_set (k := n) (v := ([] : List (N × D))) I.nodesNodup
        rwa [Dict.set_of_not_mem hn] at this
      edgesNodup := nodup_linkEdges I.edgesNodup
      root_mem := (hV _).1 (.inl I.root_mem)
      tree := (I.tree.addLeaf hn hr).congr hV hA
      paired := paired_linkEdges I.edgesNodup (addDir_ne hne) I.paired
      dataNodup := by
        have := I.dataNodup
        simpa [dataNames] using this
      subs_ok := fun s' hs => (I.subs_ok s' hs).transfer
        (fun x hx => (hV x).1 (.inl ((I.subs_ok s' hs).subset' x hx)))
        fun x _ y _ h => (hA x y).1 (.inl h) }

/-! ### delete_cs -/

/-- the manager without the listed systems -/
def without (m : Csm N S D) (l : List N) : Csm N S D :=
  { m with nodes := m.nodes.filter (fun e => e.1 ∉ l),
           edges := m.edges.filter (fun e => e.1.1 ∉ l ∧ e.1.2 ∉ l) }

theorem removeNode_apply {m : Csm N S D} {n : N} (h : n ∈ m.names) :
    removeNode n m = .ok () (m.without [n]) := by
  have : m.has n = true := has_iff.2 h
  simp [removeNode, this, Py.ite_apply, without, Dict.erase]

theorem without_without (m : Csm N S D) (l l' : List N) :
    (m.without l).without l' = m.without (l ++ l') := by
  simp only [without, List.filter_filter, Csm.mk.injEq, true_and]
  refine ⟨List.filter_congr fun x _ => ?_, List.filter_congr fun x _ => ?_, trivial⟩
  · simp [Bool.and_comm]
  · simp only [decide_not, Bool.decide_and, List.mem_append, not_or]
    cases decide (x.1.1 ∈ l) <;> cases decide (x.1.2 ∈ l) <;> cases decide (x.1.1 ∈ l') <;>
      cases decide (x.1.2 ∈ l') <;> rfl

theorem mem_names_without {m : Csm N S D} {l : List N} {x : N} :
    x ∈ (m.without l).names ↔ x ∈ m.names ∧ x ∉ l := by
  have : (m.without l).names = m.names.filter (fun x => x ∉ l) :=
    Dict.keys_filter (p := fun x => x ∉ l)
  rw [this]; simp

theorem removeNodes_apply : ∀ (l : List N) (m : Csm N S D), l.Nodup → (∀ x ∈ l, x ∈ m.names) →
    removeNodes l m = .ok () (m.without l) := by
  intro l
  induction l with
  | nil => intro m _ _; simp [removeNodes, without]
  | cons n t ih =>
    intro m hn hm
    rw [List.nodup_cons] at hn
    simp only [removeNodes]
    rw [Py.bind_ok (removeNode_apply (hm n (by simp))), ih _ hn.2, without_without]
    · rfl
    · intro x hx
      rw [mem_names_without]
      exact ⟨hm x (by simp [hx]), by simp; rintro rfl; exact hn.1 hx⟩

theorem adj_without {m : Csm N S D} {l : List N} {x y : N} :
    (m.without l).Adj x y ↔ m.Adj x y ∧ x ∉ l ∧ y ∉ l := by
  have : Dict.keys (m.without l).edges = (Dict.keys m.edges).filter (fun k => k.1 ∉ l ∧ k.2 ∉ l) :=
    Dict.keys_filter (p := fun k : N × N => k.1 ∉ l ∧ k.2 ∉ l)
  rw [Adj, this]; simp [Adj]

theorem get?_filter_sub {m : Csm N S D} {P : N → Bool} {n : N} {ds : List (N × D)}
    (h : Dict.get? (m.nodes.filter (fun e => P e.1)) n = some ds) :
    P n = true ∧ Dict.get? m.nodes n = some ds := by
  rw [Dict.get?_filter] at h; split at h
  · exact ⟨by assumption, h⟩
  · cases h

theorem affectedNames_ok {m : Csm N S D} (I : Inv m) (n : N) : ∀ l : List (SubInfo N),
    (∀ s ∈ l, SubOK m.Adj (fun x => x ∈ m.names) m.root s) →
    ∃ r, m.affectedNames n l = .ok r ∧ ∀ s ∈ l, (s.name ∉ r →
      n ∉ s.members ∧ ∀ p, SimplePath m.Adj s.root m.root p → n ∉ p) := by
  intro l
  induction l with
  | nil => intro _; exact ⟨[], rfl, by simp⟩
  | cons s t ih =>
    intro hok
    obtain ⟨r, hr, hm⟩ := ih fun x hx => hok x (by simp [hx])
    have hs := hok s (by simp)
    have hroot : s.root ∈ m.names := by
      cases hs with
      | mk nd sb rm => exact sb _ rm
    obtain ⟨p, hp⟩ := I.tree.exists_path s.root m.root hroot I.root_mem
    have hsp := (shortestPath_iff I hroot I.root_mem).2 hp
    by_cases hmem : n ∈ s.members
    · refine ⟨s.name :: r, by simp only [affectedNames, subAffected, if_pos hmem, hr]; rfl, ?_⟩
      intro s' hs' hnot
      rw [List.mem_cons, not_or] at hnot
      rcases List.mem_cons.1 hs' with rfl | hs'
      · exact absurd rfl hnot.1
      · exact hm s' hs' hnot.2
    · by_cases hpath : n ∈ p
      · refine ⟨s.name :: r, by
          simp only [affectedNames, subAffected, if_neg hmem, hsp, hr, hpath, decide_true]; rfl, ?_⟩
        intro s' hs' hnot
        rw [List.mem_cons, not_or] at hnot
        rcases List.mem_cons.1 hs' with rfl | hs'
        · exact absurd rfl hnot.1
        · exact hm s' hs' hnot.2
      · refine ⟨r, by
          simp only [affectedNames, subAffected, if_neg hmem, hsp, hr, hpath, decide_false]; rfl, ?_⟩
        intro s' hs' hnot
        rcases List.mem_cons.1 hs' with rfl | hs'
        · exact ⟨hmem, fun q hq => by rwa [I.tree.path_unique _ _ _ _ hq hp]⟩
        · exact hm s' hs' hnot

/-- What `delete_cs` can do. -/
theorem deleteCs_cases {m : Csm N S D} (I : Inv m) (n : N) (b : Bool) :
    (n ∉ m.names ∧ deleteCs n b m = .ok () m) ∨
    (n = m.root ∧ deleteCs n b m = .err .valueError m) ∨
    (n ∈ m.names ∧ n ≠ m.root ∧ b = false ∧ (∃ x ∈ m.names, m.Below n x) ∧
      deleteCs n b m = .err .weldxException m) ∨
    (n ∈ m.names ∧ n ≠ m.root ∧ (b = true ∨ ∀ x ∈ m.names, ¬ m.Below n x) ∧ ∃ del rem,
      (∀ x, x ∈ del ↔ x ∈ m.names ∧ (x = n ∨ m.Below n x)) ∧
      m.affectedNames n m.subs = .ok rem ∧
      deleteCs n b m =
        .ok () { m.without del with subs := m.subs.filter (fun s => s.name ∉ rem) }) := by
  by_cases hn : n ∈ m.names
  swap
  · left
    have : m.has n = false := by simpa [has] using hn
    simp [deleteCs, this, hn, Py.ite_apply]
  right
  have hhas : m.has n = true := has_iff.2 hn
  by_cases hr : n = m.root
  · left; refine ⟨hr, ?_⟩
    subst hr
    simp [deleteCs, hhas, Py.ite_apply]
  right
  obtain ⟨par, h, T⟩ := I.tree.treeOn I.root_mem
  obtain ⟨l, hl, hln, hlm⟩ := allChildren_spec I T hn
  have hlb : ∀ x, x ∈ l ↔ x ∈ m.names ∧ m.Below n x := by
    intro x; rw [hlm]
    constructor
    · rintro ⟨h1, h2⟩; exact ⟨h1, (below_iff I T h1).2 h2⟩
    · rintro ⟨h1, h2⟩; exact ⟨h1, (below_iff I T h1).1 h2⟩
  by_cases hc : b = false ∧ l ≠ []
  · left
    obtain ⟨rfl, hne⟩ := hc
    obtain ⟨x, hx⟩ := List.exists_mem_of_ne_nil l hne
    refine ⟨hn, hr, rfl, ⟨x, ((hlb x).1 hx).1, ((hlb x).1 hx).2⟩, ?_⟩
    have : 0 < l.length := List.length_pos_iff.2 hne
    simp [deleteCs, hhas, Py.ite_apply, hr, hl, this]
  · right
    obtain ⟨rem, hrem, _⟩ := affectedNames_ok I n m.subs I.subs_ok
    have hcond : (!b && decide (l.length > 0)) = false := by
      cases b with
      | true => rfl
      | false =>
        have : l = [] := by by_contra h; exact hc ⟨rfl, h⟩
        simp [this]
    have hb : b = true ∨ ∀ x ∈ m.names, ¬ m.Below n x := by
      cases b with
      | true => exact .inl rfl
      | false =>
        have : l = [] := by by_contra h; exact hc ⟨rfl, h⟩
        right; intro x hx hb
        have := (hlb x).2 ⟨hx, hb⟩; simp_all
    refine ⟨hn, hr, hb, l ++ [n], rem, ?_, hrem, ?_⟩
    · intro x
      simp only [List.mem_append, hlb, List.mem_singleton]
      constructor
      · rintro (⟨h1, h2⟩ | rfl)
        · exact ⟨h1, .inr h2⟩
        · exact ⟨hn, .inl rfl⟩
      · rintro ⟨h1, rfl | h2⟩
        · exact .inr rfl
        · exact .inl ⟨h1, h2⟩
    · have hmid : ∀ m' : Csm N S D, m'.nodes = m.nodes →
          (if b = true then removeNodes l else pure ()) m' = .ok () (m'.without l) := by
        intro m' hm'
        rcases b with _ | _
        · have : l = [] := by by_contra h; exact hc ⟨rfl, h⟩
          subst this
          simp [without]
        · simp only [if_true]
          exact removeNodes_apply l m' hln fun x hx => by
            have := ((hlb x).1 hx).1
            simpa [names, hm'] using this
      have hfin : ∀ m' : Csm N S D, m'.nodes = m.nodes →
          ((if b = true then removeNodes l else pure ()) >>= fun _ => removeNode n) m' =
            .ok () (m'.without (l ++ [n])) := by
        intro m' hm'
        rw [Py.bind_ok (hmid _ hm'), removeNode_apply, without_without]
        rw [mem_names_without]
        refine ⟨by simpa [names, hm'] using hn, fun h => ?_⟩
        exact ((hlb n).1 h).2.1 rfl
      have e : deleteCs n b m = ((if b = true then removeNodes l else pure ()) >>=
          fun _ => removeNode n) { m with subs := m.subs.filter (fun s => s.name ∉ rem) } := by
        simp only [deleteCs, Py.get_bind, Py.ite_apply, hhas, Bool.not_true, Bool.false_eq_true,
          if_false, hr, hl, Py.lift_ok_bind, hcond, hrem, Py.modify_bind]
        cases b <;> rfl
      exact e.trans (hfin _ rfl)

theorem Inv.deleteCs {m : Csm N S D} (I : Inv m) (n : N) (b : Bool) :
    Inv (Csm.deleteCs n b m).state := by
  rcases deleteCs_cases I n b with ⟨_, h⟩ | ⟨_, h⟩ | ⟨_, _, _, _, h⟩ | ⟨hn, hr, _, del, rem, hdel, hrem, h⟩
  · rw [h]; exact I
  · rw [h]; exact I
  · rw [h]; exact I
  · rw [h, Res.state_ok]
    obtain ⟨par, ht, T⟩ := I.tree.treeOn I.root_mem
    have hd : ∀ x ∈ m.names, (x ∈ del ↔ Desc (fun x => x ∈ m.names) m.root par n x) := by
      intro x hx
      rw [hdel]
      constructor
      · rintro ⟨_, rfl | hb⟩
        · exact .refl
        · exact ((below_iff I T hx).1 hb).2
      · intro d
        refine ⟨hx, ?_⟩
        by_cases e : x = n
        · exact .inl e
        · exact .inr ((below_iff I T hx).2 ⟨e, d⟩)
    have hA : ∀ x y, (m.Adj x y ∧ ¬ Desc (fun x => x ∈ m.names) m.root par n x ∧
        ¬ Desc (fun x => x ∈ m.names) m.root par n y) ↔ (m.without del).Adj x y := by
      intro x y
      rw [adj_without]
      constructor
      · rintro ⟨h1, h2, h3⟩
        exact ⟨h1, fun h => h2 ((hd _ (I.tree.mem _ _ h1)).1 h),
          fun h => h3 ((hd _ (I.tree.mem_right _ _ h1)).1 h)⟩
      · rintro ⟨h1, h2, h3⟩
        exact ⟨h1, fun h => h2 ((hd _ (I.tree.mem _ _ h1)).2 h),
          fun h => h3 ((hd _ (I.tree.mem_right _ _ h1)).2 h)⟩
    have hV : ∀ x, (x ∈ m.names ∧ ¬ Desc (fun x => x ∈ m.names) m.root par n x) ↔
        x ∈ (m.without del).names := by
      intro x; rw [mem_names_without]
      constructor
      · rintro ⟨h1, h2⟩; exact ⟨h1, fun h => h2 ((hd x h1).1 h)⟩
      · rintro ⟨h1, h2⟩; exact ⟨h1, fun h => h2 ((hd x h1).2 h)⟩
    have hnames : (m.without del).names = m.names.filter (fun x => x ∉ del) :=
      Dict.keys_filter (p := fun x => x ∉ del)
    have hedges : Dict.keys (m.without del).edges =
        (Dict.keys m.edges).filter (fun k => k.1 ∉ del ∧ k.2 ∉ del) :=
      Dict.keys_filter (p := fun k : N × N => k.1 ∉ del ∧ k.2 ∉ del)
    exact {
      nodesNodup := by
        show (m.without del).names.Nodup
        rw [hnames]; exact I.nodesNodup.filter _
      edgesNodup := by
        show (Dict.keys (m.without del).edges).Nodup
        rw [hedges]; exact I.edgesNodup.filter _
      root_mem := (hV _).1 ⟨I.root_mem, not_desc_root n hr⟩
      tree := ((T.prune hr).isTree).congr hV hA
      paired := by
        intro a b e he
        simp only [without, List.mem_filter, decide_eq_true_eq] at he
        obtain ⟨e', he', hp⟩ := I.paired _ _ _ he.1
        refine ⟨e', ?_, hp⟩
        simp only [without, List.mem_filter, decide_eq_true_eq]
        exact ⟨he', he.2.2, he.2.1⟩
      dataNodup := by
        have hnn : (m.without del).names.Nodup := by rw [hnames]; exact I.nodesNodup.filter _
        obtain ⟨h1, h2⟩ := (dataNodup_iff I.nodesNodup).1 I.dataNodup
        exact (dataNodup_iff (m := m.without del) hnn).2 ⟨fun n ds h => h1 n ds (get?_filter_sub
          (P := fun x => x ∉ del) h).2, fun n n' ds ds' d h h' => h2 n n' ds ds' d
          (get?_filter_sub (P := fun x => x ∉ del) h).2 (get?_filter_sub (P := fun x => x ∉ del) h').2⟩
      subs_ok := by
        intro s hs
        simp only [List.mem_filter, decide_eq_true_eq] at hs
        obtain ⟨r, hr', hm⟩ := affectedNames_ok I n m.subs I.subs_ok
        rw [hrem] at hr'; cases hr'
        obtain ⟨hnm, hnp⟩ := hm s hs.1 hs.2
        have hok := I.subs_ok s hs.1
        -- no member of the subsystem lies below the deleted system
        have hdisj : ∀ x ∈ s.members, ¬ Desc (fun x => x ∈ m.names) m.root par n x := by
          intro x hx hdx
          cases hok with
          | mk nd sb rm cm rc cn nested =>
            obtain ⟨p, hp, hpm⟩ := cn x hx
            have := hp.all_of_step (P := fun y => Desc (fun x => x ∈ m.names) m.root par n y) hdx
              (fun y hy z _ hdy hyz => T.desc_closed hdy hyz (by
                rintro ⟨rfl, _⟩; exact hnm (hpm _ hy))) s.root hp.end_mem
            obtain ⟨q, hq⟩ := I.tree.exists_path s.root m.root (sb _ rm) I.root_mem
            exact hnp q hq ((T.mem_path_root hq).2 this)
        refine hok.transfer (fun x hx => (hV x).1 ⟨hok.subset' x hx, hdisj x hx⟩)
          fun x hx y hy h => (hA x y).1 ⟨h, hdisj x hx, hdisj y hy⟩ }

end Csm
end Weldx
