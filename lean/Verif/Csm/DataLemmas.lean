import Verif.Csm.Transform

/-!
# Lemmas about data lookup, deletion of several systems, failure of `remove_subsystems`
-/

set_option linter.unusedSectionVars false
set_option linter.unusedSimpArgs false

namespace Weldx.Csm
variable {N S D L : Type} [DecidableEq N] [LcsLike S]

theorem findData_iff {m : Csm N S D} (I : Inv m) {d cs : N} {v : D} :
    m.findData d = .ok (cs, v) ↔
      ∃ ds, Dict.get? m.nodes cs = some ds ∧ Dict.get? ds d = some v := by
  obtain ⟨h1, h2⟩ := I.dataProps
  simp only [findData]
  cases hf : m.nodes.findSome? (fun e => (Dict.get? e.2 d).map (fun v => (e.1, v))) with
  | none =>
    simp only [reduceCtorEq, false_iff, not_exists, not_and]
    intro ds hds hv
    rw [List.findSome?_eq_none_iff] at hf
    have := hf _ (Dict.mem_of_get? hds)
    simp [hv] at this
  | some r =>
    obtain ⟨e, he, hr⟩ := List.exists_of_findSome?_eq_some hf
    obtain ⟨v', hv', rfl⟩ := Option.map_eq_some_iff.1 hr
    have hge := Dict.get?_of_mem I.nodesNodup he
    constructor
    · intro h
      cases h
      exact ⟨e.2, hge, hv'⟩
    · rintro ⟨ds, hds, hv⟩
      have : cs = e.1 := h2 cs e.1 ds e.2 d hds hge (Dict.get?_isSome.1 ⟨_, hv⟩)
        (Dict.get?_isSome.1 ⟨_, hv'⟩)
      subst this
      have e2 := hds.symm.trans hge
      cases e2
      rw [hv] at hv'; cases hv'; rfl

theorem findData_error {m : Csm N S D} (I : Inv m) {d : N} (h : d ∉ m.dataNames) :
    m.findData d = .error .keyError := by
  cases hf : m.findData d with
  | ok r =>
    obtain ⟨cs, v⟩ := r
    obtain ⟨ds, h1, h2⟩ := (findData_iff I).1 hf
    exact absurd ((mem_dataNames I.nodesNodup).2 ⟨cs, ds, h1, Dict.get?_isSome.1 ⟨_, h2⟩⟩) h
  | error e =>
    simp only [findData] at hf
    split at hf
    · cases hf
    · cases hf; rfl

theorem findData_ok {m : Csm N S D} (I : Inv m) {d : N} (h : d ∈ m.dataNames) :
    ∃ r, m.findData d = .ok r := by
  obtain ⟨n, ds, h1, h2⟩ := (mem_dataNames I.nodesNodup).1 h
  obtain ⟨v, hv⟩ := Dict.get?_isSome.2 h2
  exact ⟨(n, v), (findData_iff I).2 ⟨ds, h1, hv⟩⟩

/-- `find` gives the same answer if the stored data agree -/
theorem findData_congr {m m' : Csm N S D} (I : Inv m) (I' : Inv m') {d : N}
    (h : ∀ cs v, (∃ ds, Dict.get? m.nodes cs = some ds ∧ Dict.get? ds d = some v) ↔
      (∃ ds, Dict.get? m'.nodes cs = some ds ∧ Dict.get? ds d = some v)) :
    m'.findData d = m.findData d := by
  cases hf : m.findData d with
  | ok r =>
    obtain ⟨cs, v⟩ := r
    rw [findData_iff I, h] at hf
    exact (findData_iff I').2 hf
  | error e =>
    have hd : d ∉ m.dataNames := fun hd => by
      obtain ⟨r, hr⟩ := findData_ok I hd
      rw [hr] at hf; cases hf
    rw [findData_error I hd] at hf; cases hf
    apply findData_error I'
    intro hd'
    obtain ⟨⟨cs, v⟩, hr⟩ := findData_ok I' hd'
    rw [findData_iff I', ← h] at hr
    obtain ⟨ds, h1, h2⟩ := hr
    exact hd ((mem_dataNames I.nodesNodup).2 ⟨cs, ds, h1, Dict.get?_isSome.1 ⟨_, h2⟩⟩)

/-- Below does not change for the remaining systems -/
theorem below_without {m m' : Csm N S D} (I : Inv m) (I' : Inv m') {l : List N}
    (hn : m'.nodes = (m.without l).nodes) (he : m'.edges = (m.without l).edges)
    (hr : m'.root = m.root) {c x : N} (hx : x ∈ m'.names) : m'.Below c x ↔ m.Below c x := by
  have hadj : ∀ a b, m'.Adj a b → m.Adj a b := by
    intro a b h
    have : (m.without l).Adj a b := by simpa [Adj, he] using h
    exact (adj_without.1 this).1
  have hxm : x ∈ m.names := by
    have : x ∈ (m.without l).names := by simpa [names, hn] using hx
    exact (mem_names_without.1 this).1
  obtain ⟨p, hp⟩ := I'.tree.exists_path x m'.root hx I'.root_mem
  have hp' : SimplePath m.Adj x m.root p := ⟨hr ▸ hp.1.mono fun a _ b _ h => hadj a b h, hp.2⟩
  constructor
  · rintro ⟨h1, q, hq, hc⟩
    rw [I'.tree.path_unique _ _ _ _ hq hp] at hc
    exact ⟨h1, p, hp', hc⟩
  · rintro ⟨h1, q, hq, hc⟩
    rw [I.tree.path_unique _ _ _ _ hq hp'] at hc
    exact ⟨h1, p, hp, hc⟩

/-- deleting several systems with everything below them -/
theorem deleteAll_spec : ∀ (l : List N) {m : Csm N S D}, Inv m → m.subs = [] →
    (∀ x ∈ l, x ≠ m.root) → ∃ del, Csm.deleteAll l m = .ok () (m.without del) ∧
      ∀ x, x ∈ del ↔ x ∈ m.names ∧ ∃ y ∈ l, x = y ∨ (y ∈ m.names ∧ m.Below y x) := by
  intro l
  induction l with
  | nil => intro m _ _ _; exact ⟨[], by simp [Csm.deleteAll, without], by simp⟩
  | cons n t ih =>
    intro m I hs hr
    have hnr : n ≠ m.root := hr n (by simp)
    simp only [Csm.deleteAll]
    by_cases hn : n ∈ m.names
    · rcases deleteCs_cases I n true with ⟨h1, _⟩ | ⟨h1, _⟩ | ⟨_, _, h1, _⟩ | ⟨_, _, _, del, rem, hdel, _, h⟩
      · exact absurd hn h1
      · exact absurd h1 hnr
      · cases h1
      · have hI := I.deleteCs n true
        rw [h, Res.state_ok] at hI
        have hst : ({ m.without del with subs := m.subs.filter (fun s => s.name ∉ rem) } : Csm N S D)
            = m.without del := by simp [without, hs]
        rw [hst] at hI h
        rw [Py.bind_ok h]
        obtain ⟨del', hd', hm'⟩ := ih hI (by simp [without, hs]) (fun x hx => by
          show x ≠ m.root; exact hr x (by simp [hx]))
        refine ⟨del ++ del', by rw [hd', without_without], fun x => ?_⟩
        rw [List.mem_append, hdel, hm', mem_names_without]
        have hb : ∀ y, x ∈ m.names → x ∉ del → ((m.without del).Below y x ↔ m.Below y x) :=
          fun y h1 h2 => below_without I hI rfl rfl rfl (mem_names_without.2 ⟨h1, h2⟩)
        constructor
        · rintro (⟨h1, h2⟩ | ⟨⟨h1, h2⟩, y, hy, h3⟩)
          · refine ⟨h1, n, by simp, ?_⟩
            rcases h2 with h2 | h2
            · exact .inl h2
            · exact .inr ⟨hn, h2⟩
          · refine ⟨h1, y, by simp [hy], ?_⟩
            rcases h3 with h3 | ⟨h3, h4⟩
            · exact .inl h3
            · exact .inr ⟨(mem_names_without.1 h3).1, (hb y h1 h2).1 h4⟩
        · rintro ⟨h1, y, hy, h2⟩
          by_cases hxd : x ∈ del
          · exact .inl ((hdel x).1 hxd)
          · rcases List.mem_cons.1 hy with rfl | hy
            · left
              rcases h2 with h2 | h2
              · exact ⟨h1, .inl h2⟩
              · exact ⟨h1, .inr h2.2⟩
            · right
              refine ⟨⟨h1, hxd⟩, y, hy, ?_⟩
              rcases h2 with h2 | ⟨h2, h3⟩
              · exact .inl h2
              · refine .inr ⟨mem_names_without.2 ⟨h2, fun hyd => hxd ?_⟩, (hb y h1 hxd).2 h3⟩
                -- below something below `n`
                obtain ⟨par, ht, T⟩ := I.tree.treeOn I.root_mem
                have d1 := ((below_iff I T h1).1 h3).2
                rw [hdel] at hyd ⊢
                refine ⟨h1, ?_⟩
                by_cases hxn : x = n
                · exact .inl hxn
                · right
                  refine (below_iff I T h1).2 ⟨hxn, ?_⟩
                  rcases hyd.2 with e | hb'
                  · exact e ▸ d1
                  · exact .trans ((below_iff I T h2).1 hb').2 d1
    · have h : Csm.deleteCs n true m = .ok () m := by
        rcases deleteCs_cases I n true with ⟨_, h⟩ | ⟨h1, _⟩ | ⟨h1, _⟩ | ⟨h1, _⟩
        · exact h
        · exact absurd h1 hnr
        · exact absurd h1 hn
        · exact absurd h1 hn
      rw [Py.bind_ok h]
      obtain ⟨del, hd, hm⟩ := ih I hs fun x hx => hr x (by simp [hx])
      refine ⟨del, hd, fun x => ?_⟩
      rw [hm]
      constructor
      · rintro ⟨h1, y, hy, h2⟩; exact ⟨h1, y, by simp [hy], h2⟩
      · rintro ⟨h1, y, hy, h2⟩
        rcases List.mem_cons.1 hy with rfl | hy
        · rcases h2 with rfl | ⟨h2, _⟩
          · exact absurd h1 hn
          · exact absurd h2 hn
        · exact ⟨h1, y, hy, h2⟩

/-- the systems collected for deletion -/
theorem removeSubsLoop_mem : ∀ (subs : List (SubInfo N)) (acc l : List N) (m m' : Csm N S D),
    removeSubsLoop subs acc m = .ok l m' → ∀ x, x ∈ l ↔ x ∈ acc ∨
      ∃ s ∈ subs, x ∈ s.members ∧ m.Adj s.common x := by
  intro subs
  induction subs with
  | nil =>
    intro acc l m m' h x
    simp only [removeSubsLoop, Py.pure_apply] at h
    cases h; simp
  | cons sub t ih =>
    intro acc l m m' h x
    simp only [removeSubsLoop, Py.get_bind] at h
    cases h1 : m.subCommonNeighbors sub with
    | error e => rw [h1, Py.lift_error_bind] at h; cases h
    | ok ns =>
      rw [h1, Py.lift_ok_bind] at h
      cases h2 : m.subCommonData sub with
      | error e => rw [h2, Py.lift_error_bind] at h; cases h
      | ok drop =>
        rw [h2, Py.lift_ok_bind] at h
        cases h3 : Dict.get? m.nodes sub.common with
        | none => rw [h3] at h; cases h
        | some ds =>
          rw [h3] at h
          simp only [Py.modify_bind] at h
          rw [ih _ _ _ _ h]
          have hns : ∀ y, y ∈ ns ↔ y ∈ sub.members ∧ m.Adj sub.common y := by
            intro y
            simp only [subCommonNeighbors] at h1
            split at h1
            · cases h1; rw [List.mem_filter, mem_succs]; simp [and_comm]
            · cases h1
          rw [List.mem_append, hns]
          simp only [List.mem_cons, exists_eq_or_imp]
          rw [or_assoc]; rfl

theorem removeSubsystems_ok {m : Csm N S D} (I : Inv m) : ∃ ns del,
    removeSubsystems m = .ok () ({ m with nodes := ns, subs := [] }.without del) ∧
    Inv { m with nodes := ns, subs := [] } ∧ Dict.keys ns = m.names ∧
    (∃ l, removeSubsLoop m.subs [] m = .ok l { m with nodes := ns }) ∧
    ∀ x, x ∈ del ↔ x ∈ m.names ∧ ∃ s ∈ m.subs, ∃ y ∈ s.members, m.Adj s.common y ∧
      (x = y ∨ m.Below y x) := by
  obtain ⟨ns, l, h1, I', h2, h3⟩ := removeSubsystems_eq I
  have hl := removeSubsLoop_mem _ _ _ _ _ h2
  have hroot : ∀ x ∈ l, x ≠ m.root := by
    rintro x hx rfl
    obtain ⟨s, hs, hm, ha⟩ := by simpa using (hl _).1 hx
    have hok := I.subs_ok s hs
    cases hok with
    | mk nd sb rm cm rc cn nested =>
      rw [← rc hm] at ha
      exact I.tree.irrefl _ ha
  obtain ⟨del, hd, hm⟩ := deleteAll_spec l I' rfl hroot
  refine ⟨ns, del, h1.trans hd, I', h3, ⟨l, h2⟩, fun x => ?_⟩
  rw [hm]
  have hnames : ({ m with nodes := ns, subs := [] } : Csm N S D).names = m.names := h3
  rw [hnames]
  constructor
  · rintro ⟨h1, y, hy, h2⟩
    obtain ⟨s, hs, hm, ha⟩ := by simpa using (hl _).1 hy
    refine ⟨h1, s, hs, y, hm, ha, ?_⟩
    rcases h2 with h2 | h2
    · exact .inl h2
    · exact .inr h2.2
  · rintro ⟨h1, s, hs, y, hy, ha, h2⟩
    refine ⟨h1, y, (hl y).2 (.inr ⟨s, hs, hy, ha⟩), ?_⟩
    rcases h2 with h2 | h2
    · exact .inl h2
    · exact .inr ⟨(I.subs_ok s hs).subset' y hy, h2⟩

end Weldx.Csm
