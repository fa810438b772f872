import Verif.Csm.Equality

/-!
# C57: equality of managers
-/

set_option linter.unusedSectionVars false

namespace Weldx.Csm
variable {N S D L V : Type} [DecidableEq N] [LcsLike S]


theorem keysDiffer_false {truthy : N → Bool} {a b : List N} : keysDiffer truthy a b = false ↔
    (∀ k ∈ b, truthy k = true → k ∈ a) ∧ ∀ k ∈ a, truthy k = true → k ∈ b := by
  simp only [keysDiffer, Bool.or_eq_false_iff, List.any_eq_false, Bool.and_eq_true, decide_eq_true_eq, not_and]
  constructor
  · rintro ⟨h1, h2⟩
    exact ⟨fun k hk ht => by_contra fun h => h1 k hk h ht, fun k hk ht => by_contra fun h => h2 k hk h ht⟩
  · rintro ⟨h1, h2⟩
    exact ⟨fun k hk h ht => h (h1 k hk ht), fun k hk h ht => h (h2 k hk ht)⟩

theorem cmpFlat_iff {truthy : N → Bool} {eqV : V → V → Bool} {a b : List (N × V)} : cmpFlat truthy eqV a b = true ↔
    a = [] ∨ ((∀ k ∈ Dict.keys b, truthy k = true → k ∈ Dict.keys a) ∧
      ∀ k v, (k, v) ∈ a → ∃ w, Dict.get? b k = some w ∧ eqV v w = true) := by
  have item : ∀ k v, cmpItem truthy eqV a b (k, v) = true ↔ ∃ w, Dict.get? b k = some w ∧ eqV v w = true ∧
      keysDiffer truthy (Dict.keys a) (Dict.keys b) = false := by
    intro k v
    unfold cmpItem
    simp only
    split
    · rename_i h; simp [h]
    · rename_i w h; simp [h, and_comm]
  simp only [cmpFlat, List.all_eq_true]
  constructor
  · intro h
    cases a with
    | nil => exact .inl rfl
    | cons x t =>
      right
      obtain ⟨w, -, -, h1⟩ := (item x.1 x.2).1 (h x (List.mem_cons_self ..))
      refine ⟨(keysDiffer_false.1 h1).1, fun k v hkv => ?_⟩
      obtain ⟨w, h2, h3, -⟩ := (item k v).1 (h _ hkv)
      exact ⟨w, h2, h3⟩
  · rintro (rfl | ⟨h1, h2⟩)
    · intro x hx; cases hx
    · rintro ⟨k, v⟩ hkv
      obtain ⟨w, h3, h4⟩ := h2 k v hkv
      refine (item k v).2 ⟨w, h3, h4, keysDiffer_false.2 ⟨h1, fun k' hk' _ => ?_⟩⟩
      obtain ⟨v', hv'⟩ := Dict.mem_keys_iff.1 hk'
      obtain ⟨w', h5, -⟩ := h2 k' v' hv'
      exact Dict.get?_isSome.1 ⟨w', h5⟩

theorem cmpFlat_refl {truthy : N → Bool} {eqV : V → V → Bool} {a : List (N × V)} (ha : (Dict.keys a).Nodup)
    (h : ∀ x ∈ a, eqV x.2 x.2 = true) : cmpFlat truthy eqV a a = true :=
  cmpFlat_iff.2 (.inr ⟨fun _ hk _ => hk, fun k v hkv => ⟨v, Dict.get?_of_mem ha hkv, h _ hkv⟩⟩)

theorem cmpFlat_symm {truthy : N → Bool} {eqV : V → V → Bool} {a b : List (N × V)} (ha : (Dict.keys a).Nodup)
    (hb : (Dict.keys b).Nodup) (hs : ∀ v w, eqV v w = true → eqV w v = true) (ht : ∀ k ∈ Dict.keys b, truthy k = true)
    (he : a = [] → b = []) (h : cmpFlat truthy eqV a b = true) : cmpFlat truthy eqV b a = true := by
  rw [cmpFlat_iff] at h ⊢
  rcases h with h | ⟨h1, h2⟩
  · exact .inl (he h)
  · refine .inr ⟨fun k hk _ => ?_, fun k w hkw => ?_⟩
    · obtain ⟨v, hv⟩ := Dict.mem_keys_iff.1 hk
      obtain ⟨w, hw, -⟩ := h2 k v hv
      exact Dict.get?_isSome.1 ⟨w, hw⟩
    · have hk := Dict.mem_keys_of_mem hkw
      obtain ⟨v, hv⟩ := Dict.mem_keys_iff.1 (h1 k hk (ht k hk))
      obtain ⟨w', hw', hvw⟩ := h2 k v hv
      rw [Dict.get?_of_mem hb hkw] at hw'; cases hw'
      exact ⟨v, Dict.get?_of_mem ha hv, hs _ _ hvw⟩

theorem setEq_iff {a b : List N} : setEq a b = true ↔ ∀ x, x ∈ a ↔ x ∈ b := by
  simp only [setEq, Bool.and_eq_true, List.all_eq_true, decide_eq_true_eq]
  exact ⟨fun h x => ⟨h.1 x, h.2 x⟩, fun h => ⟨fun x => (h x).1, fun x => (h x).2⟩⟩

mutual
theorem eqInfo_refl : ∀ s : SubInfo N, eqInfo s s = true
  | .mk n r c t ms ds ss => by
    have := eqInfos_refl ss
    simp [eqInfo, SubInfo.name, SubInfo.root, SubInfo.common, SubInfo.timeRef, SubInfo.members, SubInfo.data, SubInfo.subs,
      setEq_iff, this]
theorem eqInfos_refl : ∀ l : List (SubInfo N), eqInfos l l = true
  | [] => by simp [eqInfos]
  | s :: t => by simp [eqInfos, eqInfo_refl s, eqInfos_refl t]
end

theorem subsDict_nodup (m : Csm N S D) : (Dict.keys m.subsDict).Nodup := Dict.nodup_keys_update (by simp)

theorem subsDict_nil {m : Csm N S D} : m.subsDict = [] ↔ m.subs = [] := by
  constructor
  · intro h
    cases hs : m.subs with
    | nil => rfl
    | cons s t =>
      have : s.name ∈ Dict.keys m.subsDict := by
        rw [subsDict, Dict.mem_keys_update, hs]
        right; simp
      rw [h] at this; cases this
  · intro h; simp [subsDict, h, Dict.update]

/-- what the comparison says -/
theorem eq_iff {truthy : N → Bool} {eqS : S → S → Bool} {eqD : D → D → Bool} {m o : Csm N S D} :
    eq truthy eqS eqD m o = true ↔ m.name = o.name ∧ m.refTime = o.refTime ∧ m.names.length = o.names.length ∧
      cmpFlat truthy eqInfo m.subsDict o.subsDict = true ∧
      (∀ n ds, (n, ds) ∈ m.nodes → ∃ ds', Dict.get? o.nodes n = some ds' ∧ cmpData truthy eqD ds ds' = true) ∧
      ∀ k e, (k, e) ∈ m.edges → ∃ e', Dict.get? o.edges k = some e' ∧ cmpEdge eqS e e' = true := by
  simp only [eq, Bool.and_eq_true, decide_eq_true_eq, List.all_eq_true, names, Dict.keys, List.length_map, Prod.forall, and_assoc]
  refine and_congr_right fun _ => and_congr_right fun _ => and_congr_right fun _ => and_congr_right fun _ => and_congr ?_ ?_
  · refine forall_congr' fun n => forall_congr' fun ds => forall_congr' fun _ => ?_
    split
    · rename_i h; simp [h]
    · rename_i h; simp [h]
  · refine forall_congr' fun a => forall_congr' fun b => forall_congr' fun e => forall_congr' fun _ => ?_
    split
    · rename_i h; simp [h]
    · rename_i h; simp [h]

theorem cmpEdge_iff {eqS : S → S → Bool} {e e' : Edge S} : cmpEdge eqS e e' = true ↔ e.defined = e'.defined ∧
    ((e.transformation = none ∧ e'.transformation = none) ∨
      ∃ s s', e.transformation = some s ∧ e'.transformation = some s' ∧ eqS s s' = true) := by
  obtain ⟨f, t⟩ := e
  obtain ⟨f', t'⟩ := e'
  cases t <;> cases t' <;> simp [cmpEdge]

/-- **C57.** Every manager equals itself. -/
theorem C57_reflexive {truthy : N → Bool} {eqS : S → S → Bool} {eqD : D → D → Bool} (hS : ∀ s, eqS s s = true)
    (hD : ∀ v, eqD v v = true) {m : Csm N S D} (h : Reachable m) : eq truthy eqS eqD m m = true := by
  have I := h.inv
  refine eq_iff.2 ⟨rfl, rfl, rfl, cmpFlat_refl m.subsDict_nodup fun x _ => eqInfo_refl x.2, fun n ds hn => ?_, fun k e hk => ?_⟩
  · have hg := Dict.get?_of_mem I.nodesNodup hn
    refine ⟨ds, hg, ?_⟩
    unfold cmpData
    split
    · assumption
    · exact cmpFlat_refl (((dataNodup_iff I.nodesNodup).1 I.dataNodup).1 n ds hg) fun x _ => hD x.2
  · refine ⟨e, Dict.get?_of_mem I.edgesNodup hk, cmpEdge_iff.2 ⟨rfl, ?_⟩⟩
    cases h : e.transformation with
    | none => exact .inl ⟨rfl, rfl⟩
    | some s => exact .inr ⟨s, s, rfl, rfl, hS s⟩

/-- Two trees on the same systems, one of which contains the other, are equal. -/
theorem tree_eq_of_sub {V : N → Prop} {adj adj' : N → N → Prop} (T : IsTree V adj) (T' : IsTree V adj')
    (h : ∀ a b, adj a b → adj' a b) (a b : N) : adj' a b ↔ adj a b := by
  refine ⟨fun hab => ?_, h a b⟩
  have hne : a ≠ b := fun e => T'.irrefl a (by rw [← e] at hab; exact hab)
  obtain ⟨p, hp⟩ := T.exists_path a b (T'.mem _ _ hab) (T'.mem _ _ (T'.symm _ _ hab))
  have h1 : SimplePath adj' a b p := ⟨hp.1.mono fun x _ y _ => h x y, hp.2⟩
  have h2 : SimplePath adj' a b [a, b] := ⟨.cons hab (.nil b), by simp [hne]⟩
  have := T'.path_unique _ _ _ _ h1 h2
  subst this
  have hw := hp.1
  cases hw with
  | cons h3 h4 =>
    cases h4 with
    | nil => exact h3
    | cons _ h5 => cases h5

theorem eq_names {truthy : N → Bool} {eqS : S → S → Bool} {eqD : D → D → Bool} {m o : Csm N S D} (I : Inv m) (_ : Inv o)
    (h : eq truthy eqS eqD m o = true) (n : N) : n ∈ o.names ↔ n ∈ m.names := by
  obtain ⟨-, -, h3, -, h5, -⟩ := eq_iff.1 h
  have hsub : m.names ⊆ o.names := by
    intro x hx
    obtain ⟨ds, hds⟩ := Dict.mem_keys_iff.1 hx
    obtain ⟨ds', h', -⟩ := h5 _ _ hds
    exact Dict.get?_isSome.1 ⟨_, h'⟩
  have := (I.nodesNodup.subperm hsub).perm_of_length_le (by rw [h3])
  exact this.mem_iff.symm

theorem eq_adj {truthy : N → Bool} {eqS : S → S → Bool} {eqD : D → D → Bool} {m o : Csm N S D} (I : Inv m) (J : Inv o)
    (h : eq truthy eqS eqD m o = true) (a b : N) : o.Adj a b ↔ m.Adj a b := by
  obtain ⟨-, -, -, -, -, h6⟩ := eq_iff.1 h
  refine tree_eq_of_sub I.tree (J.tree.congr (eq_names I J h) fun _ _ => Iff.rfl) (fun a b hab => ?_) a b
  obtain ⟨e, he⟩ := Dict.mem_keys_iff.1 hab
  obtain ⟨e', h', -⟩ := h6 _ _ he
  exact Dict.get?_isSome.1 ⟨_, h'⟩

/-- **C57.** Managers that compare equal have the same systems, the same relations in the same direction, and the same data under
all names except the empty one. -/
theorem C57_content {truthy : N → Bool} {eqS : S → S → Bool} {eqD : D → D → Bool} {m o : Csm N S D} (hm : Reachable m)
    (ho : Reachable o) (h : eq truthy eqS eqD m o = true) :
    o.name = m.name ∧ o.refTime = m.refTime ∧ (∀ n, n ∈ o.names ↔ n ∈ m.names) ∧
    (∀ a b s, m.Supplied a b s → ∃ s', o.Supplied a b s' ∧ eqS s s' = true) ∧
    (∀ a b s', o.Supplied a b s' → ∃ s, m.Supplied a b s ∧ eqS s s' = true) ∧
    (∀ n d v, m.StoredAt n d v → ∃ v', o.StoredAt n d v' ∧ eqD v v' = true) ∧
    (∀ n d v', o.StoredAt n d v' → truthy d = true → ∃ v, m.StoredAt n d v ∧ eqD v v' = true) := by
  have I := hm.inv
  have J := ho.inv
  have hn := eq_names I J h
  have ha := eq_adj I J h
  obtain ⟨h1, h2, -, -, h5, h6⟩ := eq_iff.1 h
  have hdata : ∀ n, ∀ ds, Dict.get? m.nodes n = some ds → ∃ ds', Dict.get? o.nodes n = some ds' ∧
      cmpData truthy eqD ds ds' = true := fun n ds hds => h5 _ _ (Dict.mem_of_get? hds)
  refine ⟨h1.symm, h2.symm, hn, fun a b s hs => ?_, fun a b s' hs => ?_, fun n d v hv => ?_, fun n d v' hv ht => ?_⟩
  · obtain ⟨e', h7, h8⟩ := h6 _ _ hs
    obtain ⟨f', t'⟩ := e'
    obtain ⟨h9, h10⟩ := cmpEdge_iff.1 h8
    rcases h10 with ⟨h10, -⟩ | ⟨s1, s', h10, h11, h12⟩
    · cases h10
    · cases h10; cases h9; cases h11
      exact ⟨s', Dict.mem_of_get? h7, h12⟩
  · obtain ⟨e, he⟩ := Dict.mem_keys_iff.1 ((ha a b).1 (Dict.mem_keys_of_mem hs))
    obtain ⟨e', h7, h8⟩ := h6 _ _ he
    rw [Dict.get?_of_mem J.edgesNodup hs] at h7
    cases h7
    obtain ⟨f, t⟩ := e
    obtain ⟨h9, h10⟩ := cmpEdge_iff.1 h8
    rcases h10 with ⟨-, h10⟩ | ⟨s, s1, h10, h11, h12⟩
    · cases h10
    · cases h11; cases h10; cases h9
      exact ⟨s, he, h12⟩
  · obtain ⟨ds, h7, h8⟩ := hv
    obtain ⟨ds', h9, h10⟩ := hdata n ds h7
    unfold cmpData at h10
    split at h10
    · rename_i he
      rw [List.isEmpty_iff] at he
      subst he; cases h8
    · rcases cmpFlat_iff.1 h10 with h11 | ⟨-, h11⟩
      · subst h11; cases h8
      · obtain ⟨w, hw1, hw2⟩ := h11 d v (Dict.mem_of_get? h8)
        exact ⟨w, ⟨ds', h9, hw1⟩, hw2⟩
  · obtain ⟨ds', h7, h8⟩ := hv
    obtain ⟨ds, hds⟩ := Dict.get?_isSome.2 ((hn n).1 (Dict.get?_isSome.1 ⟨_, h7⟩))
    obtain ⟨ds1, h9, h10⟩ := hdata n ds hds
    rw [h7] at h9; cases h9
    unfold cmpData at h10
    split at h10
    · rw [List.isEmpty_iff] at h10
      subst h10; cases h8
    · rename_i he
      rcases cmpFlat_iff.1 h10 with h11 | ⟨h11, h12⟩
      · subst h11; simp at he
      · obtain ⟨v, hv⟩ := Dict.mem_keys_iff.1 (h11 d (Dict.get?_isSome.1 ⟨_, h8⟩) ht)
        obtain ⟨w, hw1, hw2⟩ := h12 d v hv
        rw [h8] at hw1; cases hw1
        exact ⟨v, ⟨ds, hds, Dict.get?_of_mem (((dataNodup_iff I.nodesNodup).1 I.dataNodup).1 n ds hds) hv⟩, hw2⟩

/-- **C57.** Equality is symmetric if all data names are non-empty and the comparison of the subsystem records is symmetric. -/
theorem C57_symmetric {truthy : N → Bool} {eqS : S → S → Bool} {eqD : D → D → Bool} {m o : Csm N S D} (hm : Reachable m)
    (ho : Reachable o) (hS : ∀ s s', eqS s s' = true → eqS s' s = true) (hD : ∀ v w, eqD v w = true → eqD w v = true)
    (ht : ∀ d ∈ o.dataNames, truthy d = true) (h : eq truthy eqS eqD m o = true) :
    eq truthy eqS eqD o m = true ↔ cmpFlat truthy eqInfo o.subsDict m.subsDict = true := by
  have I := hm.inv
  have J := ho.inv
  have hn := eq_names I J h
  have ha := eq_adj I J h
  obtain ⟨h1, h2, h3, -, h5, h6⟩ := eq_iff.1 h
  refine ⟨fun h' => (eq_iff.1 h').2.2.2.1, fun hsub => eq_iff.2 ⟨h1.symm, h2.symm, h3.symm, hsub, fun n ds' hds' => ?_,
    fun k e' he' => ?_⟩⟩
  · obtain ⟨ds, hds⟩ := Dict.get?_isSome.2 ((hn n).1 (Dict.mem_keys_of_mem hds'))
    obtain ⟨ds1, h9, h10⟩ := h5 _ _ (Dict.mem_of_get? hds)
    rw [Dict.get?_of_mem J.nodesNodup hds'] at h9; cases h9
    refine ⟨ds, hds, ?_⟩
    unfold cmpData at h10 ⊢
    split at h10
    · rename_i he
      rw [if_pos h10]; exact he
    · rename_i he
      have he' : ds' ≠ [] := by
        rintro rfl
        rcases cmpFlat_iff.1 h10 with h11 | ⟨-, h11⟩
        · subst h11; simp at he
        · cases ds with
          | nil => simp at he
          | cons x t =>
            obtain ⟨w, hw, -⟩ := h11 x.1 x.2 (List.mem_cons_self ..)
            cases hw
      rw [if_neg (by simpa using he')]
      refine cmpFlat_symm (((dataNodup_iff I.nodesNodup).1 I.dataNodup).1 n ds hds)
        (((dataNodup_iff J.nodesNodup).1 J.dataNodup).1 n ds' (Dict.get?_of_mem J.nodesNodup hds')) hD (fun d hd => ht d ?_)
        (fun e => ?_) h10
      · exact (mem_dataNames J.nodesNodup).2 ⟨n, ds', Dict.get?_of_mem J.nodesNodup hds', hd⟩
      · subst e; simp at he
  · obtain ⟨a, b⟩ := k
    obtain ⟨e, he⟩ := Dict.mem_keys_iff.1 ((ha a b).1 (Dict.mem_keys_of_mem he'))
    obtain ⟨e1, h7, h8⟩ := h6 _ _ he
    rw [Dict.get?_of_mem J.edgesNodup he'] at h7; cases h7
    refine ⟨e, Dict.get?_of_mem I.edgesNodup he, cmpEdge_iff.2 ?_⟩
    obtain ⟨h9, h10⟩ := cmpEdge_iff.1 h8
    refine ⟨h9.symm, ?_⟩
    rcases h10 with ⟨h10, h11⟩ | ⟨s, s', h10, h11, h12⟩
    · exact .inl ⟨h11, h10⟩
    · exact .inr ⟨s', s, h11, h10, hS _ _ h12⟩

theorem eqInfos_symm_flat : ∀ l l' : List (SubInfo N), l.length = l'.length → (∀ s ∈ l, ∀ t ∈ l', eqInfo s t = true → eqInfo t s = true) →
    eqInfos l l' = true → eqInfos l' l = true
  | [], [], _, _, _ => by simp [eqInfos]
  | s :: t, y :: u, hl, h, he => by
    simp only [eqInfos, Bool.and_eq_true] at he ⊢
    exact ⟨h s (by simp) y (by simp) he.1, eqInfos_symm_flat t u (by simpa using hl)
      (fun a ha b hb => h a (by simp [ha]) b (by simp [hb])) he.2⟩

/-- The comparison of records without nested records is symmetric. -/
theorem eqInfo_symm_flat {s t : SubInfo N} (ht : t.subs = []) (h : eqInfo s t = true) : eqInfo t s = true := by
  obtain ⟨n, r, c, tr, ms, ds, ss⟩ := s
  obtain ⟨n', r', c', tr', ms', ds', ss'⟩ := t
  simp only [SubInfo.subs] at ht
  subst ht
  simp only [eqInfo, Bool.and_eq_true, decide_eq_true_eq, setEq_iff] at h ⊢
  obtain ⟨⟨⟨⟨⟨⟨⟨h1, h2⟩, h3⟩, h4⟩, h5⟩, h6⟩, -⟩, -⟩ := h
  exact ⟨⟨⟨⟨⟨⟨⟨h1.symm, h2.symm⟩, h3.symm⟩, h4.symm⟩, fun x => (h5 x).symm⟩, fun x => (h6 x).symm⟩, by simp⟩, by simp [eqInfos]⟩

/-- **C57.** Equality is symmetric for managers without subsystems. -/
theorem C57_symmetric_plain {truthy : N → Bool} {eqS : S → S → Bool} {eqD : D → D → Bool} {m o : Csm N S D} (hm : Reachable m)
    (ho : Reachable o) (hS : ∀ s s', eqS s s' = true → eqS s' s = true) (hD : ∀ v w, eqD v w = true → eqD w v = true)
    (ht : ∀ d ∈ o.dataNames, truthy d = true) (hsub : o.subs = []) (h : eq truthy eqS eqD m o = true) :
    eq truthy eqS eqD o m = true := by
  rw [C57_symmetric hm ho hS hD ht h, subsDict_nil.2 hsub]
  rfl

/-- the entries of the dictionary are the records under their names -/
theorem subsDict_mem {m : Csm N S D} {k : N} {s : SubInfo N} (h : (k, s) ∈ m.subsDict) : s ∈ m.subs ∧ k = s.name := by
  have : ∀ (l : List (SubInfo N)) (d : List (N × SubInfo N)) k s,
      (k, s) ∈ Dict.update d (l.map fun s => (s.name, s)) → (Dict.keys d).Nodup → (s ∈ l ∧ k = s.name) ∨ (k, s) ∈ d := by
    intro l
    induction l with
    | nil => intro d k s h _; exact .inr h
    | cons x t ih =>
      intro d k s h hd
      rcases ih (Dict.set d x.name x) k s h (Dict.nodup_keys_set hd) with h' | h'
      · exact .inl ⟨by simp [h'.1], h'.2⟩
      · rcases (Dict.mem_set hd).1 h' with h' | h'
        · exact .inl (by obtain ⟨rfl, rfl⟩ := h'; simp)
        · exact .inr h'.2
  rcases this m.subs [] k s h (by simp) with h' | h'
  · exact h'
  · cases h'

/-- **C57.** Equality is symmetric for managers with subsystems that have no subsystems themselves, if both have subsystems or
none has. -/
theorem C57_symmetric_subs {truthy : N → Bool} {eqS : S → S → Bool} {eqD : D → D → Bool} {m o : Csm N S D} (hm : Reachable m)
    (ho : Reachable o) (hS : ∀ s s', eqS s s' = true → eqS s' s = true) (hD : ∀ v w, eqD v w = true → eqD w v = true)
    (ht : ∀ d ∈ o.dataNames, truthy d = true) (hts : ∀ s ∈ o.subs, truthy s.name = true) (hsub : m.subs = [] → o.subs = [])
    (hflat : ∀ s ∈ o.subs, s.subs = []) (h : eq truthy eqS eqD m o = true) : eq truthy eqS eqD o m = true := by
  rw [C57_symmetric hm ho hS hD ht h]
  have hc := (eq_iff.1 h).2.2.2.1
  have hval := fun k s => subsDict_mem (m := o) (k := k) (s := s)
  rw [cmpFlat_iff] at hc ⊢
  rcases hc with hc | ⟨h1, h2⟩
  · exact .inl (subsDict_nil.2 (hsub (subsDict_nil.1 hc)))
  · right
    refine ⟨fun k hk _ => ?_, fun k w hkw => ?_⟩
    · obtain ⟨v, hv⟩ := Dict.mem_keys_iff.1 hk
      obtain ⟨w, hw, -⟩ := h2 k v hv
      exact Dict.get?_isSome.1 ⟨w, hw⟩
    · obtain ⟨hw1, hw2⟩ := hval k w hkw
      obtain ⟨v, hv⟩ := Dict.mem_keys_iff.1 (h1 k (Dict.mem_keys_of_mem hkw) (by rw [hw2]; exact hts w hw1))
      obtain ⟨w', hw', hvw⟩ := h2 k v hv
      rw [Dict.get?_of_mem o.subsDict_nodup hkw] at hw'; cases hw'
      exact ⟨v, Dict.get?_of_mem m.subsDict_nodup hv, eqInfo_symm_flat (hflat w hw1) hvw⟩

mutual
/-- wherever the first record contains no records, the second one contains none either -/
def NoMore : SubInfo N → SubInfo N → Prop
  | .mk _ _ _ _ _ _ ss, y => (ss = [] → y.subs = []) ∧ NoMores ss y.subs
/-- the same for records at the same place of two lists -/
def NoMores : List (SubInfo N) → List (SubInfo N) → Prop
  | s :: t, y :: u => NoMore s y ∧ NoMores t u
  | _, _ => True
end

mutual
theorem eqInfo_symm_iff : ∀ x y : SubInfo N, eqInfo x y = true → (eqInfo y x = true ↔ NoMore x y)
  | .mk n r c t ms ds ss, .mk n' r' c' t' ms' ds' ss', h => by
    simp only [eqInfo, NoMore, Bool.and_eq_true, Bool.or_eq_true, decide_eq_true_eq, setEq_iff, List.isEmpty_iff] at h ⊢
    simp only [SubInfo.name, SubInfo.root, SubInfo.common, SubInfo.timeRef, SubInfo.members, SubInfo.data, SubInfo.subs] at h ⊢
    obtain ⟨⟨⟨⟨⟨⟨⟨h1, h2⟩, h3⟩, h4⟩, h5⟩, h6⟩, h7⟩, h8⟩ := h
    have ih := eqInfos_symm_iff ss ss' h8
    constructor
    · rintro ⟨⟨-, h9⟩, h10⟩
      have h0 : ss = [] → ss' = [] := by
        rintro rfl
        rcases h9 with h9 | h9
        · exact h9
        · simpa using h9
      refine ⟨h0, ?_⟩
      rcases h7 with rfl | h7
      · simp [NoMores]
      · exact (ih h7).1 h10
    · rintro ⟨h9, h10⟩
      have hl : ss.length = ss'.length := by
        rcases h7 with h7 | h7
        · rw [h9 h7, h7]
        · exact h7
      exact ⟨⟨⟨⟨⟨⟨⟨h1.symm, h2.symm⟩, h3.symm⟩, h4.symm⟩, fun x => (h5 x).symm⟩, fun x => (h6 x).symm⟩, .inr hl.symm⟩,
        (ih hl).2 h10⟩
theorem eqInfos_symm_iff : ∀ l l' : List (SubInfo N), eqInfos l l' = true → l.length = l'.length →
    (eqInfos l' l = true ↔ NoMores l l')
  | [], [], _, _ => by simp [eqInfos, NoMores]
  | s :: t, y :: u, h, hl => by
    simp only [eqInfos, NoMores, Bool.and_eq_true] at h ⊢
    rw [eqInfo_symm_iff s y h.1, eqInfos_symm_iff t u h.2 (by simpa using hl)]
  | [], _ :: _, _, hl => by simp at hl
  | _ :: _, [], _, hl => by simp at hl
end

/-- **C57.** When equality is symmetric: if `m == o`, then `o == m` exactly if `m` and its subsystems, at any depth, have
subsystems wherever `o` and its subsystems have some. (That they have the same ones then follows from `m == o`.) -/
theorem C57_symmetric_iff {truthy : N → Bool} {eqS : S → S → Bool} {eqD : D → D → Bool} {m o : Csm N S D} (hm : Reachable m)
    (ho : Reachable o) (hS : ∀ s s', eqS s s' = true → eqS s' s = true) (hD : ∀ v w, eqD v w = true → eqD w v = true)
    (ht : ∀ d ∈ o.dataNames, truthy d = true) (hts : ∀ s ∈ o.subs, truthy s.name = true) (h : eq truthy eqS eqD m o = true) :
    eq truthy eqS eqD o m = true ↔ (m.subs = [] → o.subs = []) ∧
      ∀ k s s', Dict.get? m.subsDict k = some s → Dict.get? o.subsDict k = some s' → NoMore s s' := by
  rw [C57_symmetric hm ho hS hD ht h]
  have hc := (eq_iff.1 h).2.2.2.1
  rw [cmpFlat_iff] at hc ⊢
  constructor
  · intro h'
    refine ⟨fun hs => ?_, fun k s s' hk hk' => ?_⟩
    · rcases h' with h' | ⟨-, h'⟩
      · exact subsDict_nil.1 h'
      · by_contra hne
        rw [← subsDict_nil] at hne hs
        obtain ⟨x, t, hx⟩ := List.exists_cons_of_ne_nil hne
        obtain ⟨w, hw, -⟩ := h' x.1 x.2 (by rw [hx]; exact List.mem_cons_self ..)
        rw [hs] at hw
        cases hw
    · rcases h' with h' | ⟨-, h'⟩
      · rw [h'] at hk'
        cases hk'
      · rcases hc with hc | ⟨-, hc⟩
        · rw [hc] at hk
          cases hk
        · obtain ⟨w, hw, hw'⟩ := hc k s (Dict.mem_of_get? hk)
          rw [hk'] at hw
          cases hw
          obtain ⟨v, hv, hv'⟩ := h' k s' (Dict.mem_of_get? hk')
          rw [hk] at hv
          cases hv
          exact (eqInfo_symm_iff s s' hw').1 hv'
  · rintro ⟨hsub, hno⟩
    rcases hc with hc | ⟨h1, h2⟩
    · exact .inl (subsDict_nil.2 (hsub (subsDict_nil.1 hc)))
    · right
      refine ⟨fun k hk _ => ?_, fun k w hkw => ?_⟩
      · obtain ⟨v, hv⟩ := Dict.mem_keys_iff.1 hk
        obtain ⟨w, hw, -⟩ := h2 k v hv
        exact Dict.get?_isSome.1 ⟨w, hw⟩
      · obtain ⟨hw1, hw2⟩ := subsDict_mem hkw
        obtain ⟨v, hv⟩ := Dict.mem_keys_iff.1 (h1 k (Dict.mem_keys_of_mem hkw) (by rw [hw2]; exact hts w hw1))
        obtain ⟨w', hw', hvw⟩ := h2 k v hv
        have hw'' := Dict.get?_of_mem o.subsDict_nodup hkw
        rw [hw''] at hw'
        cases hw'
        have hv' := Dict.get?_of_mem m.subsDict_nodup hv
        exact ⟨v, hv', (eqInfo_symm_iff v w hvw).2 (hno k v w hv' hw'')⟩

theorem cmpFlat_trans {truthy : N → Bool} {eqV : V → V → Bool} {a b c : List (N × V)}
    (ht : ∀ u v w, eqV u v = true → eqV v w = true → eqV u w = true) (h : cmpFlat truthy eqV a b = true)
    (h' : cmpFlat truthy eqV b c = true) : cmpFlat truthy eqV a c = true := by
  rw [cmpFlat_iff] at h h' ⊢
  rcases h with h | ⟨h1, h2⟩
  · exact .inl h
  · by_cases ha : a = []
    · exact .inl ha
    · right
      rcases h' with rfl | ⟨h3, h4⟩
      · cases a with
        | nil => exact absurd rfl ha
        | cons x t =>
          obtain ⟨w, hw, -⟩ := h2 x.1 x.2 (List.mem_cons_self ..)
          cases hw
      · refine ⟨fun k hk hkt => h1 k (h3 k hk hkt) hkt, fun k v hv => ?_⟩
        obtain ⟨w, h5, h6⟩ := h2 k v hv
        obtain ⟨x, h7, h8⟩ := h4 k w (Dict.mem_of_get? h5)
        exact ⟨x, h7, ht _ _ _ h6 h8⟩

mutual
theorem eqInfo_trans : ∀ a b c : SubInfo N, eqInfo a b = true → eqInfo b c = true → eqInfo a c = true
  | .mk n r cm t ms ds ss, .mk n' r' cm' t' ms' ds' ss', c, h, h' => by
    simp only [eqInfo, Bool.and_eq_true, Bool.or_eq_true, decide_eq_true_eq, setEq_iff, List.isEmpty_iff] at h h' ⊢
    obtain ⟨⟨⟨⟨⟨⟨⟨h1, h2⟩, h3⟩, h4⟩, h5⟩, h6⟩, h7⟩, h8⟩ := h
    obtain ⟨⟨⟨⟨⟨⟨⟨k1, k2⟩, k3⟩, k4⟩, k5⟩, k6⟩, k7⟩, k8⟩ := h'
    refine ⟨⟨⟨⟨⟨⟨⟨h1.trans k1, h2.trans k2⟩, h3.trans k3⟩, h4.trans k4⟩, fun x => (h5 x).trans (k5 x)⟩,
      fun x => (h6 x).trans (k6 x)⟩, ?_⟩, eqInfos_trans ss ss' c.subs h8 k8⟩
    rcases h7 with h7 | h7
    · exact .inl h7
    · rcases k7 with k7 | k7
      · left
        simp only [SubInfo.subs, k7, List.length_nil, List.length_eq_zero_iff] at h7
        exact h7
      · exact .inr (h7.trans k7)
theorem eqInfos_trans : ∀ a b c : List (SubInfo N), eqInfos a b = true → eqInfos b c = true → eqInfos a c = true
  | [], _, _, _, _ => by simp [eqInfos]
  | _ :: _, [], _, h, _ => by simp [eqInfos] at h
  | _ :: _, _ :: _, [], _, h => by simp [eqInfos] at h
  | x :: a, y :: b, z :: c, h, h' => by
    simp only [eqInfos, Bool.and_eq_true] at h h' ⊢
    exact ⟨eqInfo_trans x y z h.1 h'.1, eqInfos_trans a b c h.2 h'.2⟩
end

/-- **C57.** Equality is transitive. -/
theorem C57_transitive {truthy : N → Bool} {eqS : S → S → Bool} {eqD : D → D → Bool} {m o q : Csm N S D}
    (hS : ∀ a b c, eqS a b = true → eqS b c = true → eqS a c = true)
    (hD : ∀ a b c, eqD a b = true → eqD b c = true → eqD a c = true)
    (h : eq truthy eqS eqD m o = true) (h' : eq truthy eqS eqD o q = true) : eq truthy eqS eqD m q = true := by
  obtain ⟨h1, h2, h3, h4, h5, h6⟩ := eq_iff.1 h
  obtain ⟨k1, k2, k3, k4, k5, k6⟩ := eq_iff.1 h'
  refine eq_iff.2 ⟨h1.trans k1, h2.trans k2, h3.trans k3, cmpFlat_trans eqInfo_trans h4 k4, fun n ds hn => ?_, fun k e hk => ?_⟩
  · obtain ⟨ds', h7, h8⟩ := h5 n ds hn
    obtain ⟨ds'', k7, k8⟩ := k5 n ds' (Dict.mem_of_get? h7)
    refine ⟨ds'', k7, ?_⟩
    unfold cmpData at h8 k8 ⊢
    by_cases he : ds.isEmpty = true
    · rw [if_pos he] at h8 ⊢
      rwa [if_pos h8] at k8
    · rw [if_neg he] at h8 ⊢
      by_cases he' : ds'.isEmpty = true
      · exfalso
        rw [List.isEmpty_iff] at he he'
        subst he'
        rcases cmpFlat_iff.1 h8 with h9 | ⟨-, h9⟩
        · exact he h9
        · cases ds with
          | nil => exact he rfl
          | cons x t =>
            obtain ⟨w, hw, -⟩ := h9 x.1 x.2 (List.mem_cons_self ..)
            cases hw
      · rw [if_neg he'] at k8
        exact cmpFlat_trans hD h8 k8
  · obtain ⟨e', h7, h8⟩ := h6 k e hk
    obtain ⟨e'', k7, k8⟩ := k6 k e' (Dict.mem_of_get? h7)
    refine ⟨e'', k7, ?_⟩
    rw [cmpEdge_iff] at h8 k8 ⊢
    refine ⟨h8.1.trans k8.1, ?_⟩
    rcases h8.2 with ⟨a1, a2⟩ | ⟨s, s', a1, a2, a3⟩
    · rcases k8.2 with ⟨b1, b2⟩ | ⟨t, t', b1, b2, b3⟩
      · exact .inl ⟨a1, b2⟩
      · rw [a2] at b1; cases b1
    · rcases k8.2 with ⟨b1, b2⟩ | ⟨t, t', b1, b2, b3⟩
      · rw [a2] at b1; cases b1
      · rw [a2] at b1; cases b1
        exact .inr ⟨s, t', a1, b2, hS _ _ _ a3 b3⟩

/-- `get_cs` only depends on the values of the supplied relations. -/
theorem getCs_congr_ev [Group L] {ev : S → Except CsmError L} {m m' : Csm N S D} (I : Inv m) (I' : Inv m')
    (C : m.Coherent ev) (C' : m'.Coherent ev) (hn : ∀ n, n ∈ m'.names ↔ n ∈ m.names)
    (hs : ∀ x y s, m.Supplied x y s → ∃ s', m'.Supplied x y s' ∧ ev s' = ev s) (a b : N) :
    m'.getCs ev a (some b) = m.getCs ev a (some b) := by
  by_cases hab : a ∈ m.names ∧ b ∈ m.names
  · obtain ⟨ha, hb⟩ := hab
    obtain ⟨p, hp⟩ := I.tree.exists_path a b ha hb
    have hadj : ∀ x ∈ p, ∀ y ∈ p, m.Adj x y → m'.Adj x y := by
      intro x _ y _ h
      obtain ⟨s, h | h⟩ := (adj_iff_supplied I).1 h
      · obtain ⟨s', h', -⟩ := hs x y s h
        exact (adj_iff_supplied I').2 ⟨s', .inl h'⟩
      · obtain ⟨s', h', -⟩ := hs y x s h
        exact (adj_iff_supplied I').2 ⟨s', .inr h'⟩
    have hp' : SimplePath m'.Adj a b p := ⟨hp.1.mono hadj, hp.2⟩
    rw [getCs_eq_prod I C ha hb hp, getCs_eq_prod I' C' ((hn a).2 ha) ((hn b).2 hb) hp']
    congr 1
    have h1 := prodVal_pathProduct I C hp.1
    have h2 := prodVal_pathProduct I' C' hp'.1
    refine pathProduct_unique I' h2 ?_
    have : ∀ {q x}, PathProduct ev m q x → PathProduct ev m' q x := by
      intro q x h
      induction h with
      | single a => exact .single a
      | @cons a b q x y hr _ ih =>
        refine .cons ?_ ih
        rcases hr with ⟨s, h, hx⟩ | ⟨s, h, hx⟩
        · obtain ⟨s', h', he⟩ := hs _ _ _ h
          exact .inl ⟨s', h', by rw [he]; exact hx⟩
        · obtain ⟨s', h', he⟩ := hs _ _ _ h
          exact .inr ⟨s', h', by rw [he]; exact hx⟩
    exact this h1
  · have h1 : a ∉ m.names ∨ b ∉ m.names := by tauto
    have h2 : a ∉ m'.names ∨ b ∉ m'.names := by rwa [hn, hn]
    rw [getCs_missing h1, getCs_missing h2]

theorem getParent_congr {m m' : Csm N S D} (I : Inv m) (I' : Inv m') (hr : m'.root = m.root)
    (hn : ∀ n, n ∈ m'.names ↔ n ∈ m.names) (ha : ∀ a b, m'.Adj a b ↔ m.Adj a b) (n : N) : m'.getParent n = m.getParent n := by
  by_cases hr1 : n = m.root
  · have hr' : n = m'.root := by rw [hr, hr1]
    have a1 := getParent_root m
    have a2 := getParent_root m'
    rw [← hr1] at a1; rw [← hr'] at a2
    rw [a1, a2]
  · by_cases hn1 : n ∈ m.names
    · obtain ⟨par, h, T⟩ := I.tree.treeOn I.root_mem
      have T' : TreeOn (fun x => x ∈ m'.names) m'.Adj m'.root par h := by
        have e1 : (fun x => x ∈ m'.names) = fun x => x ∈ m.names := funext fun x => propext (hn x)
        have e2 : m'.Adj = m.Adj := funext fun a => funext fun b => propext (ha a b)
        rw [e1, e2, hr]; exact T
      rw [getParent_eq I T hn1 hr1, getParent_eq I' T' ((hn n).2 hn1) (by rwa [hr])]
    · have hn' : n ∉ m'.names := by rwa [hn]
      simp only [getParent, if_neg hr1, hr, checkExists_err hn1, checkExists_err hn']
      rfl

/-- **C57.** Managers that compare equal answer questions about the relation of two systems equally. If they have the same root,
this is also true for questions about parents and relations to parents. Data with a non-empty name is found in the same place. -/
theorem C57_answers [Group L] (ev : S → Except CsmError L) {truthy : N → Bool} {eqS : S → S → Bool} {eqD : D → D → Bool}
    {m o : Csm N S D} (hm : Reachable m) (ho : Reachable o) (Cm : m.Coherent ev) (Co : o.Coherent ev)
    (hS : ∀ s s', eqS s s' = true → ev s' = ev s) (h : eq truthy eqS eqD m o = true) :
    (∀ a b, o.getCs ev a (some b) = m.getCs ev a (some b)) ∧
    (o.root = m.root → (∀ n, o.getParent n = m.getParent n) ∧ ∀ n, o.getCs ev n none = m.getCs ev n none) ∧
    (∀ d n v, m.findData d = .ok (n, v) → ∃ v', o.findData d = .ok (n, v') ∧ eqD v v' = true) ∧
    (∀ d n v', truthy d = true → o.findData d = .ok (n, v') → ∃ v, m.findData d = .ok (n, v) ∧ eqD v v' = true) := by
  have I := hm.inv
  have J := ho.inv
  obtain ⟨-, -, hn, h1, -, h3, h4⟩ := C57_content hm ho h
  have hcs : ∀ a b, o.getCs ev a (some b) = m.getCs ev a (some b) :=
    getCs_congr_ev I J Cm Co hn fun x y s hs => by
      obtain ⟨s', h5, h6⟩ := h1 x y s hs
      exact ⟨s', h5, hS _ _ h6⟩
  refine ⟨hcs, fun hr => ?_, fun d n v hd => ?_, fun d n v' ht hd => ?_⟩
  · have hp := getParent_congr I J hr hn (eq_adj I J h)
    refine ⟨hp, fun n => ?_⟩
    simp only [getCs, hp]
    cases m.getParent n with
    | error e => rfl
    | ok p =>
      cases p with
      | none => rfl
      | some p => exact hcs n p
  · obtain ⟨v', h5, h6⟩ := h3 n d v ((findData_iff I).1 hd)
    exact ⟨v', (findData_iff J).2 h5, h6⟩
  · obtain ⟨v, h5, h6⟩ := h4 n d v' ((findData_iff J).1 hd) ht
    exact ⟨v, (findData_iff I).2 h5, h6⟩

/-! ### Examples and counterexamples -/

/-- comparison in the examples: the name 0 stands for the empty string -/
abbrev eqN {S D : Type} [DecidableEq S] [DecidableEq D] (m o : Csm ℕ S D) : Bool :=
  eq (fun n => decide (n ≠ 0)) (fun a b => decide (a = b)) (fun a b => decide (a = b)) m o

/-- systems `1 - 2 - 3` with root 1 -/
def eqA : Csm ℕ Unit ℕ := (addCs 3 2 () true true (addCs 2 1 () true true (init 1 9 none)).state).state
/-- the same relations with root 3 -/
def eqB : Csm ℕ Unit ℕ := (addCs 1 2 () false true (addCs 2 3 () false true (init 3 9 none)).state).state

theorem eqA_reachable : Reachable eqA := .addCs _ _ _ _ _ (.addCs _ _ _ _ _ (.init _ _ _))
theorem eqB_reachable : Reachable eqB := .addCs _ _ _ _ _ (.addCs _ _ _ _ _ (.init _ _ _))

/-- **C57 fails**: the root is not compared. Two equal managers give different answers to questions about parents. -/
theorem C57_root_counterexample : Reachable eqA ∧ Reachable eqB ∧ eqN eqA eqB = true ∧ eqN eqB eqA = true ∧
    eqA.getParent 2 = .ok (some 1) ∧ eqB.getParent 2 = .ok (some 3) :=
  ⟨eqA_reachable, eqB_reachable, by decide, by decide, by decide, by decide⟩

/-- the manager `2 - 3` named 8 -/
def eqSub : Csm ℕ Unit ℕ := (addCs 3 2 () true true (init 2 8 none)).state
/-- systems `1 - 2 - 3`, of which `2 - 3` is a subsystem -/
def eqC : Csm ℕ Unit ℕ := (merge eqSub (addCs 2 1 () true true (init 1 9 none)).state).state

theorem eqC_reachable : Reachable eqC := .merge (.addCs _ _ _ _ _ (.init _ _ _)) (.addCs _ _ _ _ _ (.init _ _ _))

/-- **C57 fails**: subsystems of the right operand are not noticed if the left operand has none, so equality is not symmetric. -/
theorem C57_subsystem_counterexample : Reachable eqA ∧ Reachable eqC ∧ eqN eqA eqC = true ∧ eqN eqC eqA = false :=
  ⟨eqA_reachable, eqC_reachable, by decide, by decide⟩

/-- systems `5 - 1 - 2 - 3`, of which `1 - 2 - 3` is a subsystem -/
def eqE : Csm ℕ Unit ℕ := (merge eqA (addCs 1 5 () true true (init 5 10 none)).state).state
/-- the same with the subsystem `2 - 3` of the subsystem -/
def eqF : Csm ℕ Unit ℕ := (merge eqC (addCs 1 5 () true true (init 5 10 none)).state).state

theorem eqE_reachable : Reachable eqE := .merge (.addCs _ _ _ _ _ (.init _ _ _)) eqA_reachable
theorem eqF_reachable : Reachable eqF := .merge (.addCs _ _ _ _ _ (.init _ _ _)) eqC_reachable

/-- **C57 fails**: the same for subsystems of subsystems; with subsystems at the same places, equality is symmetric -/
theorem C57_nested_counterexample : Reachable eqE ∧ Reachable eqF ∧ eqE.subs.length = 1 ∧ eqF.subs.length = 1 ∧
    eqN eqE eqF = true ∧ eqN eqF eqE = false :=
  ⟨eqE_reachable, eqF_reachable, by decide, by decide, by decide, by decide⟩

example : eqN eqF eqF = true := by
  refine (C57_symmetric_iff eqF_reachable eqF_reachable (by simp) (by simp) (by decide) (by decide) (by decide)).2
    ⟨id, fun k s s' h h' => ?_⟩
  rw [h] at h'
  cases h'
  exact (eqInfo_symm_iff s s (eqInfo_refl s)).1 (eqInfo_refl s)

/-- `eqA` with data -/
def eqD1 : Csm ℕ Unit ℕ := (assignData (L := Multiplicative (Fin 1)) (fun _ => .ok 1) (fun _ v => v) 5 7 2 none eqA).state
/-- `eqA` with further data, whose name is empty -/
def eqD2 : Csm ℕ Unit ℕ := (assignData (L := Multiplicative (Fin 1)) (fun _ => .ok 1) (fun _ v => v) 6 0 2 none eqD1).state

/-- **C57 fails**: data of the right operand with an empty name is not noticed. -/
theorem C57_data_counterexample : Reachable eqD1 ∧ Reachable eqD2 ∧ eqN eqD1 eqD2 = true ∧ eqN eqD2 eqD1 = false ∧
    eqD1.findData 0 = .error .keyError ∧ eqD2.findData 0 = .ok (2, 6) :=
  ⟨.assignData _ _ _ _ _ _ eqA_reachable, .assignData _ _ _ _ _ _ (.assignData _ _ _ _ _ _ eqA_reachable),
    by decide, by decide, by decide, by decide⟩

example : eqN eqD1 eqD1 = true := C57_reflexive (by simp) (by simp) (.assignData _ _ _ _ _ _ eqA_reachable)

example : ∀ n d v, eqD1.StoredAt n d v → ∃ v', eqD2.StoredAt n d v' ∧ decide (v = v') = true :=
  (C57_content (.assignData _ _ _ _ _ _ eqA_reachable) (.assignData _ _ _ _ _ _ (.assignData _ _ _ _ _ _ eqA_reachable))
    (show eqN eqD1 eqD2 = true by decide)).2.2.2.2.2.1

example (a b : ℕ) : eqB.getCs (L := Multiplicative (Fin 1)) (fun _ => .ok 1) a (some b) = eqA.getCs (fun _ => .ok 1) a (some b) :=
  (C57_answers _ eqA_reachable eqB_reachable (fun _ _ _ _ => ⟨1, rfl, fun _ => rfl⟩) (fun _ _ _ _ => ⟨1, rfl, fun _ => rfl⟩)
    (fun _ _ _ => rfl) (show eqN eqA eqB = true by decide)).1 a b

example : eqN eqB eqC = true := C57_transitive (o := eqA) (by simp) (by simp) (by decide) (by decide)

example : eqN eqB eqA = true := C57_symmetric_plain eqA_reachable eqB_reachable (by simp) (by simp) (by decide) rfl (by decide)

end Weldx.Csm
