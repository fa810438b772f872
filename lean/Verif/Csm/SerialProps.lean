import Verif.Csm.SerialTree

/-!
# C18: a manager survives serialisation
-/

set_option linter.unusedSectionVars false

namespace Weldx.Csm
variable {N S D L : Type} [DecidableEq N] [LcsLike S]

/-- the same systems, data and relations, but possibly another root -/
structure SameUpToRoot (m m' : Csm N S D) : Prop where
  name : m'.name = m.name
  refTime : m'.refTime = m.refTime
  subs : m'.subs = m.subs
  nodesNodup : m'.names.Nodup
  edgesNodup : (Dict.keys m'.edges).Nodup
  nodes : ∀ n, Dict.get? m'.nodes n = Dict.get? m.nodes n
  edges : ∀ x, x ∈ m'.edges ↔ x ∈ m.edges

theorem SameUpToRoot.names {m m' : Csm N S D} (h : SameUpToRoot m m') (n : N) : n ∈ m'.names ↔ n ∈ m.names :=
  mem_keys_of_get? (h.nodes n)

theorem SameUpToRoot.adj {m m' : Csm N S D} (h : SameUpToRoot m m') (a b : N) : m'.Adj a b ↔ m.Adj a b := by
  simp only [Adj, Dict.mem_keys_iff, h.edges]

theorem SameUpToRoot.sameAs {m m' : Csm N S D} (h : SameUpToRoot m m') (hr : m'.root = m.root) : SameAs m m' where
  name := h.name
  root := hr
  refTime := h.refTime
  subs := h.subs
  systems := h.names
  relations _ _ _ := h.edges _
  data n d v := by simp only [StoredAt, h.nodes]

theorem SameUpToRoot.inv {m m' : Csm N S D} (h : SameUpToRoot m m') (I : Inv m) (hr : m'.root ∈ m.names)
    (hs : ∀ s ∈ m.subs, SubOK m.Adj (fun x => x ∈ m.names) m'.root s) : Inv m' where
  nodesNodup := h.nodesNodup
  edgesNodup := h.edgesNodup
  root_mem := (h.names _).2 hr
  tree := I.tree.congr (fun x => (h.names x).symm) fun x y => (h.adj x y).symm
  paired a b e he := by
    obtain ⟨e', h1, h2⟩ := I.paired a b e ((h.edges _).1 he)
    exact ⟨e', (h.edges _).2 h1, h2⟩
  dataNodup := by
    rw [dataNodup_iff h.nodesNodup]
    simp only [h.nodes]
    exact (dataNodup_iff I.nodesNodup).1 I.dataNodup
  subs_ok s hsm := by
    rw [h.subs] at hsm
    exact (hs s hsm).transfer (fun x hx => (h.names x).2 ((hs s hsm).subset' x hx)) fun x _ y _ hxy => (h.adj x y).2 hxy

/-- Managers with the same content give the same answers. -/
theorem same_answers [Group L] (ev : S → Except CsmError L) {m m' : Csm N S D}
    (I : Inv m) (I' : Inv m') (C : m.Coherent ev) (hs : SameAs m m') :
    (∀ a b, m'.getCs ev a (some b) = m.getCs ev a (some b)) ∧
    (∀ n, m'.getParent n = m.getParent n) ∧
    (∀ n, m'.getCs ev n none = m.getCs ev n none) ∧
    (∀ d, m'.findData d = m.findData d) := by
  have hadj : ∀ a b, m'.Adj a b ↔ m.Adj a b := by
    intro a b
    rw [adj_iff_supplied I, adj_iff_supplied I']
    simp only [hs.relations]
  have h1 : ∀ a b, m'.getCs ev a (some b) = m.getCs ev a (some b) := fun a b => by
    by_cases hab : a ∈ m.names ∧ b ∈ m.names
    · obtain ⟨p, hp⟩ := I.tree.exists_path a b hab.1 hab.2
      exact getCs_congr I I' C (fun a b s hs' => C a b s ((hs.relations a b s).1 hs')) hab.1 hab.2
        ((hs.systems a).2 hab.1) ((hs.systems b).2 hab.2) hp fun x _ y _ s => (hs.relations x y s).2
    · have h1 : a ∉ m.names ∨ b ∉ m.names := by tauto
      have h2 : a ∉ m'.names ∨ b ∉ m'.names := by rwa [hs.systems, hs.systems]
      rw [getCs_missing h1, getCs_missing h2]
  have h2 : ∀ n, m'.getParent n = m.getParent n := fun n => by
    by_cases hr : n = m.root
    · have hr' : n = m'.root := by rw [hs.root, hr]
      have a1 := getParent_root m
      have a2 := getParent_root m'
      rw [← hr] at a1; rw [← hr'] at a2
      rw [a1, a2]
    · by_cases hn : n ∈ m.names
      · obtain ⟨par, h, T⟩ := I.tree.treeOn I.root_mem
        have T' : TreeOn (fun x => x ∈ m'.names) m'.Adj m'.root par h := by
          have e1 : (fun x => x ∈ m'.names) = fun x => x ∈ m.names := funext fun x => propext (hs.systems x)
          have e2 : m'.Adj = m.Adj := funext fun a => funext fun b => propext (hadj a b)
          rw [e1, e2, hs.root]; exact T
        rw [getParent_eq I T hn hr, getParent_eq I' T' ((hs.systems n).2 hn) (by rwa [hs.root])]
      · have hn' : n ∉ m'.names := by rwa [hs.systems]
        simp only [getParent, if_neg hr, hs.root, checkExists_err hn, checkExists_err hn']
        rfl
  refine ⟨h1, h2, fun n => ?_, fun d => findData_congr I I' fun cs v => (hs.data cs d v).symm⟩
  simp only [getCs, h2]
  cases hp : m.getParent n with
  | error e => rfl
  | ok p =>
    cases p with
    | none => rfl
    | some p => exact h1 n p

/-! ### Round trip -/

/-- No supplied system is described by an expression. -/
def NoSeries (m : Csm N S D) : Prop := ∀ a b s, m.Supplied a b s → LcsLike.isSeries s = false

/-- what `build_graph` makes of the written tree -/
theorem write_build {m : Csm N S D} (I : Inv m) (h2 : 2 ≤ m.names.length) :
    ∃ t r, m.write = .ok ⟨m.name, m.refTime, t, m.subs⟩ ∧ m.names.head? = some r ∧
      (Dict.keys (t.build ([], [])).1).Nodup ∧ (Dict.keys (t.build ([], [])).1).head? = some r ∧
      (∀ n, Dict.get? (t.build ([], [])).1 n = Dict.get? m.nodes n) ∧ (Dict.keys (t.build ([], [])).2).Nodup ∧
      (∀ a b e, ((a, b), e) ∈ (t.build ([], [])).2 ↔ ((a, b), e) ∈ m.edges ∧ e.defined = true) := by
  obtain ⟨r, l, hl⟩ : ∃ r l, m.names = r :: l := by
    cases hn : m.names with
    | nil => rw [hn] at h2; simp at h2
    | cons r l => exact ⟨r, l, rfl⟩
  have hr : r ∈ m.names := by rw [hl]; simp
  obtain ⟨par, ht, T⟩ := I.tree.treeOn hr
  have hcount : countBelow m r par r ≤ m.names.length := List.length_filter_le _ _
  obtain ⟨t, htree, R⟩ := buildTree_ok I T m.names.length r hr hcount
  rw [parentOpt, if_pos rfl] at htree
  have hw : m.write = .ok ⟨m.name, m.refTime, t, m.subs⟩ := by
    have e : ({ m with nodes := m.nodes } : Csm N S D) = m := rfl
    simp only [write, write_nodes I h2, e, hl, nxIsTree]
    rw [← hl, connected_check I hr, if_pos (by simp [edge_count I T])]
    simp only [htree]
  have hall : ∀ x, x ∈ m.names → Desc (fun x => x ∈ m.names) r par r x := fun x hx => T.desc_root hx
  have hA := t.build_nodes (M := m.nodes) I.nodesNodup ([], []) fun x hx => ((R.nodes x.1 x.2).1 hx).1
  have hE := t.build_edges ([], [])
  obtain ⟨hEn, hEm⟩ := mem_update_part (M := m.edges) I.edgesNodup t.edgeList [] (by simp) (by simp)
    fun x hx => (mem_definedEdges.1 ((R.edges x.1.1 x.1.2 x.2).1 hx).1).1
  rw [← hE] at hEn hEm
  refine ⟨t, r, hw, by rw [hl]; rfl, hA.nodup (by simp), ?_, ?_, hEn, ?_⟩
  · obtain ⟨n, d, es'⟩ := t
    have : n = r := R.name
    subst this
    have hB := es'.build_nodes (M := m.nodes) I.nodesNodup n (Dict.set [] n d, []) (by simp [Dict.set]) fun x hx =>
      ((R.nodes x.1 x.2).1 (List.mem_cons_of_mem _ hx)).1
    exact hB.head n (by simp [Dict.set])
  · intro n
    by_cases hn : n ∈ m.names
    · obtain ⟨ds, hds⟩ := Dict.get?_isSome.2 hn
      rw [hds]
      exact hA.new _ _ ((R.nodes n ds).2 ⟨Dict.mem_of_get? hds, hall n hn⟩)
    · rw [hA.old n]
      · rw [Dict.get?_eq_none.2 hn]; rfl
      · intro hk
        obtain ⟨ds, hds⟩ := Dict.mem_keys_iff.1 hk
        exact hn (Dict.mem_keys_of_mem ((R.nodes n ds).1 hds).1)
  · intro a b e
    rw [hEm, R.edges, mem_definedEdges]
    constructor
    · rintro (h' | ⟨h', -⟩)
      · cases h'
      · exact h'
    · intro h'
      have hadj : m.Adj a b := Dict.mem_keys_of_mem h'.1
      exact .inr ⟨h', hall _ (T.mem_left _ _ hadj), hall _ (T.mem_left _ _ (T.symm _ _ hadj))⟩

/-- writing and reading a well-formed manager -/
theorem content_of_inv {m : Csm N S D} (I : Inv m) (h2 : 2 ≤ m.names.length) (hser : m.NoSeries) :
    ∃ d m', m.write = .ok d ∧ read d = .ok m' ∧ SameUpToRoot m m' ∧ m.names.head? = some m'.root := by
  obtain ⟨t, r, hw, hr, hNn, hhead, hget, hEn, hEm'⟩ := write_build I h2
  have hrev : ∀ a b e, ((a, b), e) ∈ (t.build ([], [])).2 → ∃ s, e.transformation = some s ∧ LcsLike.isSeries s = false ∧
      ((b, a), (⟨false, some (LcsLike.invert s)⟩ : Edge S)) ∈ m.edges := by
    intro a b e he
    obtain ⟨h1, h3⟩ := (hEm' a b e).1 he
    obtain ⟨e', he', hp⟩ := I.paired _ _ _ h1
    rcases hp with ⟨s, rfl, rfl⟩ | ⟨s, rfl, rfl⟩
    · have := hser a b s h1
      refine ⟨s, rfl, this, ?_⟩
      simpa [reverseOf, this] using he'
    · simp at h3
  obtain ⟨es, hes, hesn, hesm⟩ := addReverse_part (M := m.edges) I.edgesNodup (t.build ([], [])).2 (t.build ([], [])).2 hEn
    (fun x hx => ((hEm' x.1.1 x.1.2 x.2).1 hx).1) hrev
  cases hk : Dict.keys (t.build ([], [])).1 with
  | nil => rw [hk] at hhead; cases hhead
  | cons r' l' =>
    rw [hk] at hhead
    have hrr : r' = r := by simpa using hhead
    subst hrr
    refine ⟨_, { name := m.name, root := r', refTime := m.refTime, nodes := (t.build ([], [])).1, edges := es, subs := m.subs }, hw,
      by simp only [read, hes, hk], ⟨rfl, rfl, rfl, hNn, hesn, hget, fun x => ?_⟩, hr⟩
    obtain ⟨⟨a, b⟩, e⟩ := x
    show ((a, b), e) ∈ es ↔ _
    rw [hesm, hEm']
    constructor
    · rintro (h' | ⟨a', b', e', s, h1, h3, h4⟩)
      · exact h'.1
      · obtain ⟨s', h5, -, h6⟩ := hrev _ _ _ h1
        rw [h3] at h5; cases h5
        rw [h4]; exact h6
    · intro he
      obtain ⟨e', he', hp⟩ := I.paired _ _ _ he
      rcases hp with ⟨s, rfl, rfl⟩ | ⟨s, rfl, rfl⟩
      · exact .inl ⟨he, rfl⟩
      · right
        refine ⟨b, a, _, s, (hEm' _ _ _).2 ⟨he', rfl⟩, rfl, ?_⟩
        simp [reverseOf, hser b a s he']

/-- **C18.** A manager with at least two systems, none of them described by an expression, can be written and read again: the result
has the same name, reference time, systems, data, relations and subsystems. Its root is the system listed first. -/
theorem C18_content {m : Csm N S D} (h : Reachable m) (h2 : 2 ≤ m.names.length) (hser : m.NoSeries) :
    ∃ d m', m.write = .ok d ∧ read d = .ok m' ∧ SameUpToRoot m m' ∧ m.names.head? = some m'.root :=
  content_of_inv h.inv h2 hser

theorem addReverse_series {M : List ((N × N) × Edge S)} (hM : (Dict.keys M).Nodup) :
    ∀ (l cur : List ((N × N) × Edge S)), (Dict.keys cur).Nodup → (∀ x ∈ cur, x ∈ M ∧ x.2.transformation ≠ none) →
    (∀ a b e, ((a, b), e) ∈ l → ∃ s, e.transformation = some s ∧ ((b, a), ⟨false, reverseOf s⟩) ∈ M) →
    (∃ a b e s, ((a, b), e) ∈ l ∧ e.transformation = some s ∧ LcsLike.isSeries s = true) →
    addReverse l cur = .error .weldxException
  | [], _, _, _, _, h => by
    obtain ⟨_, _, _, _, h, _⟩ := h
    cases h
  | ((a, b), e) :: t, cur, hc, h1, h2, h3 => by
    obtain ⟨s, hs, hmem⟩ := h2 a b e (List.mem_cons_self ..)
    have ht : ∀ a b e, ((a, b), e) ∈ t → ∃ s, e.transformation = some s ∧ ((b, a), ⟨false, reverseOf s⟩) ∈ M :=
      fun a b e h => h2 a b e (List.mem_cons_of_mem _ h)
    by_cases hser : LcsLike.isSeries s = true
    · have hk : (b, a) ∉ Dict.keys cur := by
        intro hk
        obtain ⟨v, hv⟩ := Dict.mem_keys_iff.1 hk
        have e1 := Dict.get?_of_mem hM (h1 _ hv).1
        have e2 := Dict.get?_of_mem hM hmem
        rw [e1] at e2; cases e2
        exact (h1 _ hv).2 (by simp [reverseOf, hser])
      rw [addReverse, if_neg hk, hs, invertOf, if_pos hser]
    · have h3' : ∃ a b e s, ((a, b), e) ∈ t ∧ e.transformation = some s ∧ LcsLike.isSeries s = true := by
        obtain ⟨a', b', e', s', h4, h5, h6⟩ := h3
        rcases List.mem_cons.1 h4 with h4 | h4
        · cases h4
          rw [hs] at h5; cases h5
          exact absurd h6 hser
        · exact ⟨a', b', e', s', h4, h5, h6⟩
      rw [addReverse]
      split
      · exact addReverse_series hM t cur hc h1 ht h3'
      · rename_i hk
        rw [hs, invertOf, if_neg hser]
        refine addReverse_series hM t _ (Dict.nodup_keys_set hc) (fun x hx => ?_) ht h3'
        rw [Dict.set_of_not_mem hk] at hx
        rcases List.mem_append.1 hx with hx | hx
        · exact h1 _ hx
        · rw [List.mem_singleton.1 hx]
          refine ⟨?_, by simp⟩
          have : LcsLike.isSeries s = false := by simpa using hser
          simpa [reverseOf, this] using hmem

/-- **C18 fails** for systems described by an expression: such a manager can be written, but reading it raises an exception. -/
theorem C18_series_counterexample {m : Csm N S D} (h : Reachable m) (h2 : 2 ≤ m.names.length) (hser : ¬ m.NoSeries) :
    ∃ d, m.write = .ok d ∧ read d = .error .weldxException := by
  have I := h.inv
  obtain ⟨t, r, hw, -, -, -, -, hEn, hEm⟩ := write_build I h2
  refine ⟨_, hw, ?_⟩
  have hdef : ∀ a b e, ((a, b), e) ∈ (t.build ([], [])).2 → ∃ s, e = ⟨true, some s⟩ ∧
      ((b, a), (⟨false, reverseOf s⟩ : Edge S)) ∈ m.edges := by
    intro a b e he
    obtain ⟨h1, h3⟩ := (hEm a b e).1 he
    obtain ⟨e', he', hp⟩ := I.paired _ _ _ h1
    rcases hp with ⟨s, rfl, rfl⟩ | ⟨s, rfl, rfl⟩
    · exact ⟨s, rfl, he'⟩
    · simp at h3
  have := addReverse_series (M := m.edges) I.edgesNodup (t.build ([], [])).2 (t.build ([], [])).2 hEn
    (fun x hx => ⟨((hEm x.1.1 x.1.2 x.2).1 hx).1, by
      obtain ⟨s, hs, -⟩ := hdef x.1.1 x.1.2 x.2 hx
      rw [hs]; simp⟩)
    (fun a b e he => by
      obtain ⟨s, rfl, hs⟩ := hdef a b e he
      exact ⟨s, rfl, hs⟩)
    (by
      unfold NoSeries at hser
      push Not at hser
      obtain ⟨a, b, s, h1, h3⟩ := hser
      exact ⟨a, b, _, s, (hEm _ _ _).2 ⟨h1, rfl⟩, rfl, by simpa using h3⟩)
  simp only [read, this]

/-- A graph with another number of supplied relations than a tree has is refused. -/
theorem C18_not_tree {m : Csm N S D} (hall : ∀ n ∈ m.names, ∃ e ∈ m.definedEdges, e.1.1 = n ∨ e.1.2 = n) (hne : m.names ≠ [])
    (hc : m.definedEdges.length + 1 ≠ m.names.length) : m.write = .error .valueError := by
  have hf : m.nodes.filter (fun x => m.definedEdges.any fun e => decide (e.1.1 = x.1) || decide (e.1.2 = x.1)) = m.nodes := by
    rw [List.filter_eq_self]
    intro x hx
    obtain ⟨e, he, h⟩ := hall x.1 (Dict.mem_keys_of_mem hx)
    rw [List.any_eq_true]
    exact ⟨e, he, by simpa using h⟩
  have e : ({ m with nodes := m.nodes } : Csm N S D) = m := rfl
  obtain ⟨r, l, hl⟩ := List.exists_cons_of_ne_nil hne
  simp only [write, hf, e, hl, nxIsTree]
  rw [if_neg]
  intro h
  rw [Bool.and_eq_true, decide_eq_true_eq] at h
  exact hc (h.1.trans (by rw [hl]))

/-- **C18 fails** for managers with a single system, whatever data it holds: they cannot be written. -/
theorem C18_single_counterexample {m : Csm N S D} (h : m.definedEdges = []) : m.write = .error .nxError := by
  simp [write, h, names]

/-- **C18.** If the root is listed first, the manager read from the file is well-formed and has the same content, so that it gives the
same answers to all queries. -/
theorem C18_roundtrip [Group L] (ev : S → Except CsmError L) {m : Csm N S D} (h : Reachable m) (h2 : 2 ≤ m.names.length)
    (hser : m.NoSeries) (hroot : m.names.head? = some m.root) (C : m.Coherent ev) :
    ∃ d m', m.write = .ok d ∧ read d = .ok m' ∧ SameAs m m' ∧ Inv m' ∧
      (∀ a b, m'.getCs ev a (some b) = m.getCs ev a (some b)) ∧ (∀ n, m'.getParent n = m.getParent n) ∧
      (∀ n, m'.getCs ev n none = m.getCs ev n none) ∧ (∀ d, m'.findData d = m.findData d) := by
  obtain ⟨d, m', h1, h3, h4, h5⟩ := C18_content h h2 hser
  have hr : m'.root = m.root := by
    rw [hroot] at h5; simpa using h5.symm
  have I' := h4.inv h.inv (by rw [hr]; exact h.inv.root_mem) (by rw [hr]; exact h.inv.subs_ok)
  have hs := h4.sameAs hr
  exact ⟨d, m', h1, h3, hs, I', same_answers ev h.inv I' C hs⟩

/-- Managers built without extracting subsystems: created by the user and changed by any calls. -/
inductive Built : Csm N S D → Prop
  | init (root name : N) (refTime : Option Int) : Built (Csm.init root name refTime)
  | addCs {m} (n ref : N) (s : S) (dir lsc : Bool) : Built m → Built (Csm.addCs n ref s dir lsc m).state
  | deleteCs {m} (n : N) (b : Bool) : Built m → Built (Csm.deleteCs n b m).state
  | assignData {m} {L : Type} [Group L] (ev : S → Except CsmError L) (act : L → D → D) (data : D)
      (d ref : N) (target : Option N) : Built m → Built (Csm.assignData ev act data d ref target m).state
  | deleteData {m} (d : N) : Built m → Built (Csm.deleteData d m).state
  | merge {m o} : Built m → Reachable o → Built (Csm.merge o m).state
  | removeSubsystems {m} : Built m → Built (Csm.removeSubsystems m).state
  | unmerge {m} : Built m → Built (Csm.unmerge m).state

theorem Built.reachable {m : Csm N S D} (h : Built m) : Reachable m := by
  induction h with
  | init => exact .init _ _ _
  | addCs n ref s dir lsc _ ih => exact .addCs _ _ _ _ _ ih
  | deleteCs n b _ ih => exact .deleteCs _ _ ih
  | assignData ev act data d ref target _ ih => exact .assignData _ _ _ _ _ _ ih
  | deleteData d _ ih => exact .deleteData _ ih
  | merge _ ho ih => exact .merge ih ho
  | removeSubsystems _ ih => exact .removeSubsystems ih
  | unmerge _ ih => exact .unmerge ih

theorem head_filter {l : List N} {r : N} {p : N → Bool} (h : l.head? = some r) (hp : p r = true) :
    (l.filter p).head? = some r := by
  cases l with
  | nil => cases h
  | cons a l =>
    have : a = r := by simpa using h
    subst this
    simp [List.filter_cons, hp]

theorem head_append {l l' : List N} {r : N} (h : l.head? = some r) : (l ++ l').head? = some r := by
  cases l with
  | nil => cases h
  | cons a l => exact h

theorem head_update (d e : List (N × List (N × D))) {r : N} (h : (Dict.keys d).head? = some r) :
    (Dict.keys (Dict.update d e)).head? = some r := by
  induction e generalizing d with
  | nil => exact h
  | cons x t ih => exact ih (Dict.set d x.1 x.2) (head_set h)

theorem deleteCs_head {m : Csm N S D} (I : Inv m) (n : N) (b : Bool) (hr : m.names.head? = some m.root) :
    (Csm.deleteCs n b m).state.names.head? = some (Csm.deleteCs n b m).state.root := by
  rcases deleteCs_cases I n b with ⟨_, h⟩ | ⟨_, h⟩ | ⟨_, _, _, _, h⟩ | ⟨hn, hne, _, del, rem, hdel, hrem, h⟩
  · rw [h]; exact hr
  · rw [h]; exact hr
  · rw [h]; exact hr
  · rw [h, Res.state_ok]
    show (Dict.keys (m.nodes.filter fun e => decide (e.1 ∉ del))).head? = some m.root
    rw [Dict.keys_filter (p := fun x => decide (x ∉ del))]
    refine head_filter hr ?_
    rw [decide_eq_true_eq, hdel]
    rintro ⟨-, e | ⟨hne', p, hp, hmem⟩⟩
    · exact hne e.symm
    · rw [hp.refl_eq] at hmem
      simp at hmem
      exact hne' hmem.symm

theorem deleteAll_head : ∀ (l : List N) {m : Csm N S D}, Inv m → m.names.head? = some m.root →
    (Csm.deleteAll l m).state.names.head? = some (Csm.deleteAll l m).state.root := by
  intro l
  induction l with
  | nil => intro m _ h; exact h
  | cons n t ih =>
    intro m I h
    simp only [Csm.deleteAll]
    rw [Py.bind_apply]
    have h1 := deleteCs_head I n true h
    have I1 := I.deleteCs n true
    cases hd : Csm.deleteCs n true m with
    | ok a s => rw [hd] at h1 I1; exact ih I1 h1
    | err e s => rw [hd] at h1 I1; exact h1

theorem removeSubsystems_head {m : Csm N S D} (I : Inv m) (h : m.names.head? = some m.root) :
    (Csm.removeSubsystems m).state.names.head? = some (Csm.removeSubsystems m).state.root := by
  obtain ⟨ns, l, h1, I', -, h3⟩ := removeSubsystems_eq I
  rw [h1]
  refine deleteAll_head l I' ?_
  show (Dict.keys ns).head? = some m.root
  rw [h3]; exact h

/-- In a manager built by the user the root is listed first. -/
theorem Built.root_first {m : Csm N S D} (h : Built m) : m.names.head? = some m.root := by
  induction h with
  | init => rfl
  | @addCs m n ref s dir lsc hb ih =>
    rcases addCs_cases hb.reachable.inv n ref s dir lsc with ⟨h, _⟩ | ⟨h, _⟩ | ⟨_, _, h⟩ | ⟨_, _, _, h⟩
    · rw [h]; exact ih
    · rw [h]; exact ih
    · rw [h]; exact ih
    · rw [h, Res.state_ok]
      show (Dict.keys (m.nodes ++ [(n, [])])).head? = some m.root
      rw [Dict.keys_append]; exact head_append ih
  | deleteCs n b hb ih => exact deleteCs_head hb.reachable.inv n b ih
  | @assignData m L _ ev act data d ref target hb ih =>
    rcases assignData_cases ev act data d ref target m with ⟨e, h⟩ | ⟨cs, data', ds, -, -, -, -, h⟩
    · rw [h]; exact ih
    · rw [h, Res.state_ok]; exact head_set ih
  | @deleteData m d hb ih =>
    rcases deleteData_cases d hb.reachable.inv with ⟨-, h⟩ | ⟨cs, ds, -, -, h⟩
    · rw [h]; exact ih
    · rw [h, Res.state_ok]; exact head_set ih
  | @merge m o hb ho ih =>
    rcases merge_cases m o with ⟨e, h⟩ | ⟨c, dm, dn, -, -, -, -, -, -, -, h⟩
    · rw [h]; exact ih
    · rw [h, Res.state_ok]; exact head_set (head_update _ _ ih)
  | removeSubsystems hb ih => exact removeSubsystems_head hb.reachable.inv ih
  | @unmerge m hb ih =>
    obtain ⟨l, hl, _⟩ := subsystems_ok hb.reachable.inv
    simp only [Csm.unmerge, Py.get_bind, hl, Py.lift_ok_bind]
    have h' := removeSubsystems_head hb.reachable.inv ih
    rw [Py.bind_apply]
    cases h : Csm.removeSubsystems m with
    | ok a s => rw [h] at h'; exact h'
    | err e s => rw [h] at h'; exact h'

/-- **C18.** Every manager built by the user that has at least two systems and no expressions survives serialisation. -/
theorem C18_built [Group L] (ev : S → Except CsmError L) {m : Csm N S D} (h : Built m) (h2 : 2 ≤ m.names.length)
    (hser : m.NoSeries) (C : m.Coherent ev) :
    ∃ d m', m.write = .ok d ∧ read d = .ok m' ∧ SameAs m m' ∧ Inv m' ∧
      (∀ a b, m'.getCs ev a (some b) = m.getCs ev a (some b)) ∧ (∀ n, m'.getParent n = m.getParent n) ∧
      (∀ n, m'.getCs ev n none = m.getCs ev n none) ∧ (∀ d, m'.findData d = m.findData d) :=
  C18_roundtrip ev h.reachable h2 hser h.root_first C

theorem demo_built : Built demo := .assignData _ _ _ _ _ _ (.addCs _ _ _ _ _ (.addCs _ _ _ _ _ (.addCs _ _ _ _ _ (.addCs _ _ _ _ _ (.init _ _ _)))))

example : ∃ d m', demo.write = .ok d ∧ read d = .ok m' ∧ SameAs demo m' := by
  obtain ⟨d, m', h1, h2, h3, -⟩ := C18_built (L := Frame ℤ) Except.ok demo_built (by decide) (fun _ _ _ _ => rfl) (static_coherent demo)
  exact ⟨d, m', h1, h2, h3⟩

/-- a fixed system or one described by an expression -/
inductive FixedOrSeries
  | fixed | series

instance : LcsLike FixedOrSeries := ⟨id, fun | .fixed => false | .series => true, fun _ => false, fun _ => none⟩

/-- one system described by an expression below the root -/
def exprDemo : Csm ℕ FixedOrSeries Unit := (addCs 1 0 .series true true (init 0 100 none)).state

example : ∃ d, exprDemo.write = .ok d ∧ read d = .error .weldxException :=
  C18_series_counterexample (.addCs _ _ _ _ _ (.init _ _ _)) (by decide) fun h => by
    have := h 1 0 .series (List.mem_cons_self ..)
    cases this

example : (init 0 100 none : Csm ℕ Unit Unit).write = .error .nxError := C18_single_counterexample rfl

/-- three systems with a supplied relation between each two of them -/
example : ({ name := 100, root := 0, refTime := none, nodes := [(0, []), (1, []), (2, [])], subs := [],
             edges := [((1, 0), ⟨true, some ()⟩), ((2, 1), ⟨true, some ()⟩), ((0, 2), ⟨true, some ()⟩)] } : Csm ℕ Unit Unit).write
    = .error .valueError := C18_not_tree (by decide) (by decide) (by decide)

/-! ### The root of extracted subsystems -/

/-- systems `0 - 1` -/
def rootA : Csm ℕ Unit Unit := (addCs 1 0 () true true (init 0 100 none)).state
/-- systems `1 - 2` with root 2 -/
def rootB : Csm ℕ Unit Unit := (addCs 1 2 () true true (init 2 101 none)).state

/-- the subsystem extracted from `rootA` after merging `rootB` -/
def rootC : Csm ℕ Unit Unit :=
  { name := 101, root := 2, refTime := none, nodes := [(1, []), (2, [])], subs := [],
    edges := [((1, 2), ⟨true, some ()⟩), ((2, 1), ⟨false, some ()⟩)] }

/-- **C18 fails** for extracted subsystems: the root of the subsystem is not the system listed first. Systems 1 and 2 with root 2
come back with root 1, and the parent of 1 is lost. -/
theorem C18_root_counterexample : Reachable rootC ∧ 2 ≤ rootC.names.length ∧ rootC.NoSeries ∧ ∃ d m',
    rootC.write = .ok d ∧ read d = .ok m' ∧ rootC.getParent 1 = .ok (some 2) ∧ m'.getParent 1 = .ok none := by
  have hR : Reachable (merge rootB rootA).state := .merge (.addCs _ _ _ _ _ (.init _ _ _)) (.addCs _ _ _ _ _ (.init _ _ _))
  have hl : (merge rootB rootA).state.subsystems = .ok [rootC] := rfl
  exact ⟨.subsystem hR hl (by simp), by decide, fun _ _ _ _ => rfl, _, _, rfl, rfl, by decide, by decide⟩

end Weldx.Csm
