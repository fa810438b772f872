import Verif.Csm.Props
import Verif.Csm.MergeSpec

/-!
# Lemmas about merging and taking apart
-/

set_option linter.unusedSectionVars false
set_option linter.unusedSimpArgs false

namespace Weldx.Csm
variable {N S D L : Type} [DecidableEq N] [LcsLike S]

theorem StoredAt.name_mem {m : Csm N S D} {n d : N} {v : D} (h : m.StoredAt n d v) : n ∈ m.names := by
  obtain ⟨ds, h1, _⟩ := h
  exact Dict.get?_isSome.1 ⟨_, h1⟩

theorem StoredAt.data_mem {m : Csm N S D} (I : Inv m) {n d : N} {v : D} (h : m.StoredAt n d v) :
    d ∈ m.dataNames := by
  obtain ⟨ds, h1, h2⟩ := h
  exact (mem_dataNames I.nodesNodup).2 ⟨n, ds, h1, Dict.get?_isSome.1 ⟨_, h2⟩⟩

theorem mem_dataNames_stored {m : Csm N S D} (I : Inv m) {d : N} :
    d ∈ m.dataNames ↔ ∃ n v, m.StoredAt n d v := by
  constructor
  · intro h
    obtain ⟨n, ds, h1, h2⟩ := (mem_dataNames I.nodesNodup).1 h
    obtain ⟨v, hv⟩ := Dict.get?_isSome.2 h2
    exact ⟨n, v, ds, h1, hv⟩
  · rintro ⟨n, v, h⟩; exact h.data_mem I

theorem edge_mem {m : Csm N S D} (I : Inv m) {a b : N} {e : Edge S} (h : ((a, b), e) ∈ m.edges) :
    a ∈ m.names ∧ b ∈ m.names ∧ a ≠ b := by
  have hadj : m.Adj a b := Dict.mem_keys_of_mem h
  exact ⟨I.tree.mem _ _ hadj, I.tree.mem_right _ _ hadj, fun e => I.tree.irrefl a (by
    simpa [← e] using hadj)⟩

/-- everything that a successful merge does -/
structure MergeEffect (m o m' : Csm N S D) (c : N) : Prop where
  rejected : m.mergeRejected o = false
  common_left : c ∈ m.names
  common_right : c ∈ o.names
  only_common : ∀ x, x ∈ m.names → x ∈ o.names → x = c
  data_disjoint : ∀ d ∈ o.dataNames, d ∉ m.dataNames
  name : m'.name = m.name
  root : m'.root = m.root
  refTime : m'.refTime = m.refTime
  systems : ∀ n, n ∈ m'.names ↔ n ∈ m.names ∨ n ∈ o.names
  edges : ∀ a b e, ((a, b), e) ∈ m'.edges ↔ ((a, b), e) ∈ m.edges ∨ ((a, b), e) ∈ o.edges
  data : ∀ n d v, m'.StoredAt n d v ↔ m.StoredAt n d v ∨ o.StoredAt n d v
  subs : m'.subs = m.subs ++ [.mk o.name o.root c o.refTime o.names o.dataNames o.subs]

theorem merge_effect {m o m' : Csm N S D} (I : Inv m) (J : Inv o) (h : merge o m = .ok () m') :
    ∃ c, MergeEffect m o m' c := by
  rcases merge_cases m o with ⟨e, he⟩ | ⟨c, dm, dn, hrej, hcm, hco, hone, hdd, hdm, hdn, he⟩
  · rw [he] at h; cases h
  rw [he] at h; cases h
  refine ⟨c, hrej, hcm, hco, hone, hdd, rfl, rfl, rfl, ?_, ?_, ?_, rfl⟩
  · intro n
    show n ∈ Dict.keys _ ↔ _
    rw [Dict.keys_set_of_mem (by rw [Dict.mem_keys_update]; exact .inl hcm), Dict.mem_keys_update]
    rfl
  · intro a b e
    show _ ∈ Dict.update m.edges o.edges ↔ _
    rw [mem_update I.edgesNodup J.edgesNodup]
    constructor
    · rintro (h | ⟨_, h⟩)
      · exact .inr h
      · exact .inl h
    · rintro (h | h)
      · refine .inr ⟨fun hk => ?_, h⟩
        obtain ⟨e', he'⟩ := Dict.mem_keys_iff.1 hk
        obtain ⟨h1, h2, h3⟩ := edge_mem I h
        obtain ⟨h4, h5, _⟩ := edge_mem J he'
        exact h3 ((hone _ h1 h4).trans (hone _ h2 h5).symm)
      · exact .inl h
  · intro n d v
    have J1 := J.dataProps.1 c dn hdn
    simp only [StoredAt, Dict.get?_set]
    by_cases hn : n = c
    · subst hn
      simp only [if_true, Option.some.injEq, exists_eq_left', hdm, hdn]
      rw [Dict.get?_update J1]
      cases h : Dict.get? dn d with
      | none => simp
      | some w =>
        have hd : d ∉ Dict.keys dm := fun hk => hdd d
          ((mem_dataNames J.nodesNodup).2 ⟨n, dn, hdn, Dict.get?_isSome.1 ⟨_, h⟩⟩)
          ((mem_dataNames I.nodesNodup).2 ⟨n, dm, hdm, hk⟩)
        rw [← Dict.get?_eq_none] at hd
        simp [hd]
    · simp only [if_neg hn]
      rw [Dict.get?_update J.nodesNodup]
      cases ho : Dict.get? o.nodes n with
      | none => simp
      | some ds =>
        have : Dict.get? m.nodes n = none := Dict.get?_eq_none.2 fun hk =>
          hn (hone n hk (Dict.get?_isSome.1 ⟨_, ho⟩))
        simp [this]

/-- The state after merging the managers `ps` (each with its merge point) into `m₀`. -/
structure Merged (m₀ : Csm N S D) (ps : List (Csm N S D × N)) (m : Csm N S D) : Prop where
  inv : Inv m
  name : m.name = m₀.name
  root : m.root = m₀.root
  refTime : m.refTime = m₀.refTime
  systems : ∀ n, n ∈ m.names ↔ n ∈ m₀.names ∨ ∃ p ∈ ps, n ∈ p.1.names
  edges : ∀ a b e, ((a, b), e) ∈ m.edges ↔ ((a, b), e) ∈ m₀.edges ∨ ∃ p ∈ ps, ((a, b), e) ∈ p.1.edges
  data : ∀ n d v, m.StoredAt n d v ↔ m₀.StoredAt n d v ∨ ∃ p ∈ ps, p.1.StoredAt n d v
  subs : m.subs = ps.map fun p => .mk p.1.name p.1.root p.2 p.1.refTime p.1.names p.1.dataNames p.1.subs
  invs : ∀ p ∈ ps, Inv p.1
  commons : ∀ p ∈ ps, p.2 ∈ p.1.names
  original : ∀ p ∈ ps, (∀ x ∈ m₀.names, x ∈ p.1.names → x = p.2) ∧
    ∀ d ∈ p.1.dataNames, d ∉ m₀.dataNames
  pairs : ps.Pairwise fun p q => (∀ x ∈ p.1.names, x ∈ q.1.names → x = q.2) ∧
    ∀ d ∈ q.1.dataNames, d ∉ p.1.dataNames

theorem Merged.start {m : Csm N S D} (I : Inv m) (hs : m.subs = []) : Merged m [] m := by
  constructor <;> simp [I, hs]

theorem Merged.snoc {m₀ m m' o : Csm N S D} {ps : List (Csm N S D × N)} (I₀ : Inv m₀)
    (M : Merged m₀ ps m) (J : Inv o) (h : merge o m = .ok () m') :
    ∃ c, Merged m₀ (ps ++ [(o, c)]) m' := by
  obtain ⟨c, E⟩ := merge_effect M.inv J h
  have I' := M.inv.merge J
  rw [h, Res.state_ok] at I'
  refine ⟨c, ?_⟩
  have hdm : ∀ d, d ∈ m₀.dataNames → d ∈ m.dataNames := fun d hd => by
    obtain ⟨n, v, hv⟩ := (mem_dataNames_stored I₀).1 hd
    exact ((M.data n d v).2 (.inl hv)).data_mem M.inv
  have hdp : ∀ p ∈ ps, ∀ d, d ∈ p.1.dataNames → d ∈ m.dataNames := fun p hp d hd => by
    obtain ⟨n, v, hv⟩ := (mem_dataNames_stored (M.invs p hp)).1 hd
    exact ((M.data n d v).2 (.inr ⟨p, hp, hv⟩)).data_mem M.inv
  exact {
    inv := I'
    name := E.name.trans M.name
    root := E.root.trans M.root
    refTime := E.refTime.trans M.refTime
    systems := fun n => by rw [E.systems, M.systems]; simp [or_assoc]
    edges := fun a b e => by rw [E.edges, M.edges]; simp [or_assoc]
    data := fun n d v => by rw [E.data, M.data]; simp [or_assoc]
    subs := by rw [E.subs, M.subs]; simp
    invs := fun p hp => by
      rcases List.mem_append.1 hp with hp | hp
      · exact M.invs p hp
      · simp at hp; subst hp; exact J
    commons := fun p hp => by
      rcases List.mem_append.1 hp with hp | hp
      · exact M.commons p hp
      · simp at hp; subst hp; exact E.common_right
    original := fun p hp => by
      rcases List.mem_append.1 hp with hp | hp
      · exact M.original p hp
      · simp at hp; subst hp
        exact ⟨fun x hx hx' => E.only_common x ((M.systems x).2 (.inl hx)) hx',
          fun d hd hd' => E.data_disjoint d hd (hdm d hd')⟩
    pairs := by
      rw [List.pairwise_append]
      refine ⟨M.pairs, by simp, fun p hp q hq => ?_⟩
      simp at hq; subst hq
      exact ⟨fun x hx hx' => E.only_common x ((M.systems x).2 (.inr ⟨p, hp, hx⟩)) hx',
        fun d hd hd' => E.data_disjoint d hd (hdp p hp d hd')⟩ }

theorem Merged.all {m₀ : Csm N S D} (I₀ : Inv m₀) : ∀ (os : List (Csm N S D)) (m m' : Csm N S D)
    (ps : List (Csm N S D × N)), Merged m₀ ps m → (∀ o ∈ os, Inv o) → mergeAll os m = .ok () m' →
    ∃ qs, qs.map Prod.fst = ps.map Prod.fst ++ os ∧ Merged m₀ qs m' := by
  intro os
  induction os with
  | nil =>
    intro m m' ps M _ h
    simp only [mergeAll, Py.pure_apply] at h
    cases h
    exact ⟨ps, by simp, M⟩
  | cons o t ih =>
    intro m m' ps M hJ h
    simp only [mergeAll] at h
    cases hm : merge o m with
    | err e s => rw [Py.bind_err hm] at h; cases h
    | ok u m1 =>
      rw [Py.bind_ok hm] at h
      obtain ⟨c, M1⟩ := M.snoc I₀ (hJ o (by simp)) hm
      obtain ⟨qs, hq, M2⟩ := ih m1 m' _ M1 (fun o ho => hJ o (by simp [ho])) h
      exact ⟨qs, by simpa using hq, M2⟩

/-! ### extraction -/

theorem sameAs_part {m o : Csm N S D} {c : N} {ds : List (N × D)} (I : Inv m) (J : Inv o)
    (hc : c ∈ o.names) (hds : Dict.get? m.nodes c = some ds)
    (hnames : ∀ n ∈ o.names, n ∈ m.names)
    (hedges : ∀ a ∈ o.names, ∀ b ∈ o.names, ∀ e, ((a, b), e) ∈ m.edges ↔ ((a, b), e) ∈ o.edges)
    (hdata : ∀ n ∈ o.names, n ≠ c → ∀ d v, m.StoredAt n d v ↔ o.StoredAt n d v)
    (hcdata : ∀ d v, (m.StoredAt c d v ∧ d ∈ o.dataNames) ↔ o.StoredAt c d v) :
    SameAs o (m.part (.mk o.name o.root c o.refTime o.names o.dataNames o.subs) ds) := by
  have hkeys : Dict.keys (m.nodes.filter (fun e => e.1 ∈ o.names)) =
      m.names.filter (fun x => x ∈ o.names) := Dict.keys_filter (p := fun x => x ∈ o.names)
  refine ⟨rfl, rfl, rfl, rfl, fun n => ?_, fun a b s => ?_, fun n d v => ?_⟩
  · show n ∈ Dict.keys (Dict.set (m.nodes.filter (fun e => e.1 ∈ o.names)) c _) ↔ _
    rw [Dict.keys_set_of_mem (by rw [hkeys]; simp [hc, hnames c hc]), hkeys]
    simp; exact hnames n
  · show _ ∈ m.edges.filter (fun e => e.1.1 ∈ o.names ∧ e.1.2 ∈ o.names) ↔ _
    simp only [List.mem_filter, decide_eq_true_eq]
    constructor
    · rintro ⟨h, ha, hb⟩; exact (hedges a ha b hb _).1 h
    · intro h
      obtain ⟨ha, hb, _⟩ := edge_mem J h
      exact ⟨(hedges a ha b hb _).2 h, ha, hb⟩
  · show (∃ x, Dict.get? (Dict.set (m.nodes.filter (fun e => e.1 ∈ o.names)) c
      (ds.filter (fun e => e.1 ∈ o.dataNames))) n = some x ∧ _) ↔ _
    rw [Dict.get?_set]
    by_cases hn : n = c
    · subst hn
      rw [← hcdata]
      simp only [if_true, Option.some.injEq, exists_eq_left', StoredAt, hds]
      rw [Dict.get?_filter (p := fun x => x ∈ o.dataNames)]
      by_cases hd : d ∈ o.dataNames <;> simp [hd]
    · rw [if_neg hn, Dict.get?_filter (p := fun x => x ∈ o.names)]
      by_cases hno : n ∈ o.names
      · rw [← hdata n hno hn]
        simp only [hno, decide_true, if_true, StoredAt]
      · simp only [hno, decide_false, Bool.false_eq_true, if_false, reduceCtorEq, false_and,
          exists_false, false_iff]
        exact fun h => hno h.name_mem

/-- data left after the first loop of `remove_subsystems` -/
theorem removeSubsLoop_data : ∀ (subs : List (SubInfo N)) (acc l : List N) (m m' : Csm N S D),
    removeSubsLoop subs acc m = .ok l m' → ∀ n d v, m'.StoredAt n d v ↔ m.StoredAt n d v ∧
      ¬ ∃ s ∈ subs, s.common = n ∧ d ∈ s.data := by
  intro subs
  induction subs with
  | nil =>
    intro acc l m m' h n d v
    simp only [removeSubsLoop, Py.pure_apply] at h
    cases h; simp
  | cons sub t ih =>
    intro acc l m m' h n d v
    simp only [removeSubsLoop, Py.get_bind] at h
    cases h1 : m.subCommonNeighbors sub with
    | error e => rw [h1, Py.lift_error_bind] at h; cases h
    | ok ns =>
      rw [h1, Py.lift_ok_bind] at h
      cases h2 : m.subCommonData sub with
      | error e => rw [h2, Py.lift_error_bind] at h; cases h
      | ok drop =>
        rw [h2, Py.lift_ok_bind] at h
        cases h3 : Dict.get? m.nodes sub.common with
        | none => rw [h3] at h; cases h
        | some ds =>
          rw [h3] at h
          simp only [Py.modify_bind] at h
          rw [ih _ _ _ _ h]
          have hdrop : ∀ x ∈ Dict.keys ds, x ∈ drop ↔ x ∈ sub.data := by
            intro x hx
            simp only [subCommonData, h3] at h2
            cases h2; simp [hx]
          have key : StoredAt ({ m with
              nodes := Dict.set m.nodes sub.common (ds.filter (fun e => e.1 ∉ drop)) } : Csm N S D)
              n d v ↔
              m.StoredAt n d v ∧ ¬ (sub.common = n ∧ d ∈ sub.data) := by
            simp only [StoredAt, Dict.get?_set]
            by_cases hn : n = sub.common
            · subst hn
              simp only [if_true, Option.some.injEq, exists_eq_left', h3, true_and]
              rw [Dict.get?_filter (p := fun x => x ∉ drop)]
              constructor
              · intro hv
                split at hv
                · rename_i hnd
                  refine ⟨hv, fun hd => ?_⟩
                  have := (hdrop d (Dict.get?_isSome.1 ⟨_, hv⟩)).2 hd
                  simp [this] at hnd
                · cases hv
              · rintro ⟨hv, hd⟩
                rw [if_pos]
                · exact hv
                · simp only [decide_eq_true_eq]
                  exact fun hd' => hd ((hdrop d (Dict.get?_isSome.1 ⟨_, hv⟩)).1 hd')
            · rw [if_neg hn]
              constructor
              · exact fun h => ⟨h, fun e => hn e.1.symm⟩
              · exact fun h => h.1
          rw [key]
          simp only [List.mem_cons, exists_eq_or_imp, not_or]
          tauto

/-! ### restoring -/

/-- A walk from outside into a set of systems enters it by some link. -/
theorem walk_enter {adj : N → N → Prop} {P : N → Prop} {a b : N} {p : List N} (w : Walk adj a b p)
    (ha : ¬ P a) (hb : P b) : ∃ u ∈ p, ∃ v ∈ p, ¬ P u ∧ P v ∧ adj u v := by
  induction w with
  | nil => exact absurd hb ha
  | @cons a c b p' h w ih =>
    by_cases hc : P c
    · exact ⟨a, by simp, c, by simp [w.start_mem], ha, hc, h⟩
    · obtain ⟨u, hu, v, hv, h1⟩ := ih hc hb
      exact ⟨u, by simp [hu], v, by simp [hv], h1⟩

theorem Merged.extract {m₀ m : Csm N S D} {ps : List (Csm N S D × N)} (M : Merged m₀ ps m)
    (I₀ : Inv m₀) {l r : List (Csm N S D × N)} {p : Csm N S D × N} (hps : ps = l ++ p :: r)
    (hlate : ∀ q ∈ r, ∀ n d v, n ∉ m₀.names → n ∈ p.1.names → ¬ q.1.StoredAt n d v)
    {ds : List (N × D)} (hds : Dict.get? m.nodes p.2 = some ds) :
    SameAs p.1 (m.part (.mk p.1.name p.1.root p.2 p.1.refTime p.1.names p.1.dataNames p.1.subs) ds) := by
  have hp : p ∈ ps := by simp [hps]
  have J := M.invs p hp
  have hpairs := M.pairs
  rw [hps, List.pairwise_append, List.pairwise_cons] at hpairs
  obtain ⟨_, ⟨hpr, _⟩, hlp⟩ := hpairs
  have hlp : ∀ q ∈ l, _ := fun q hq => hlp q hq p (by simp)
  have hmem : ∀ q, q ∈ ps ↔ q ∈ l ∨ q = p ∨ q ∈ r := by simp [hps]
  refine sameAs_part M.inv J (M.commons p hp) hds (fun n hn => (M.systems n).2 (.inr ⟨p, hp, hn⟩))
    ?_ ?_ ?_
  · intro a ha b hb e
    rw [M.edges]
    constructor
    · rintro (h | ⟨q, hq, h⟩)
      · obtain ⟨h1, h2, h3⟩ := edge_mem I₀ h
        exact absurd (((M.original p hp).1 a h1 ha).trans ((M.original p hp).1 b h2 hb).symm) h3
      · obtain ⟨h1, h2, h3⟩ := edge_mem (M.invs q hq) h
        rcases (hmem q).1 hq with hq | rfl | hq
        · exact absurd (((hlp q hq).1 a h1 ha).trans ((hlp q hq).1 b h2 hb).symm) h3
        · exact h
        · exact absurd (((hpr q hq).1 a ha h1).trans ((hpr q hq).1 b hb h2).symm) h3
    · exact fun h => .inr ⟨p, hp, h⟩
  · intro n hn hnc d v
    rw [M.data]
    constructor
    · rintro (h | ⟨q, hq, h⟩)
      · exact absurd ((M.original p hp).1 n h.name_mem hn) hnc
      · rcases (hmem q).1 hq with hq' | rfl | hq'
        · exact absurd ((hlp q hq').1 n h.name_mem hn) hnc
        · exact h
        · by_cases h0 : n ∈ m₀.names
          · exact absurd ((M.original p hp).1 n h0 hn) hnc
          · exact absurd h (hlate q hq' n d v h0 hn)
    · exact fun h => .inr ⟨p, hp, h⟩
  · intro d v
    rw [M.data]
    constructor
    · rintro ⟨h | ⟨q, hq, h⟩, hd⟩
      · exact absurd (h.data_mem I₀) ((M.original p hp).2 d hd)
      · rcases (hmem q).1 hq with hq' | rfl | hq'
        · exact absurd (h.data_mem (M.invs q hq)) ((hlp q hq').2 d hd)
        · exact h
        · exact absurd hd ((hpr q hq').2 d (h.data_mem (M.invs q hq)))
    · exact fun h => ⟨.inr ⟨p, hp, h⟩, h.data_mem J⟩

theorem Merged.restore {m₀ m : Csm N S D} {ps : List (Csm N S D × N)} (M : Merged m₀ ps m)
    (I₀ : Inv m₀) (hs : m₀.subs = []) :
    ∃ m', removeSubsystems m = .ok () m' ∧ SameAs m₀ m' := by
  obtain ⟨ns, del, h1, I', hk, ⟨l, hl⟩, hdel⟩ := removeSubsystems_ok M.inv
  have hdat := removeSubsLoop_data _ _ _ _ _ hl
  refine ⟨_, h1, ?_⟩
  have hAdj0 : ∀ a b, m₀.Adj a b → m.Adj a b := by
    intro a b h
    obtain ⟨e, he⟩ := Dict.mem_keys_iff.1 h
    exact Dict.mem_keys_of_mem ((M.edges a b e).2 (.inl he))
  have hsub : ∀ s, s ∈ m.subs ↔ ∃ p ∈ ps, s = .mk p.1.name p.1.root p.2 p.1.refTime p.1.names
      p.1.dataNames p.1.subs := by
    intro s; rw [M.subs]; simp [eq_comm]
  -- exactly the systems of the merged managers are deleted
  have hd : ∀ x, x ∈ m.names → (x ∉ del ↔ x ∈ m₀.names) := by
    intro x hx
    constructor
    · intro hxd
      by_contra hx0
      obtain ⟨p, hp⟩ := M.inv.tree.exists_path x m.root hx M.inv.root_mem
      obtain ⟨u, hu, v, hv, hu0, hv0, huv⟩ := walk_enter (P := fun x => x ∈ m₀.names) hp.1 hx0
        (M.root ▸ I₀.root_mem)
      obtain ⟨e, he⟩ := Dict.mem_keys_iff.1 huv
      rcases (M.edges u v e).1 he with he | ⟨q, hq, he⟩
      · exact hu0 (edge_mem I₀ he).1
      · obtain ⟨h1, h2, _⟩ := edge_mem (M.invs q hq) he
        have hvc := (M.original q hq).1 v hv0 h2
        refine hxd ((hdel x).2 ⟨hx, _, (hsub _).2 ⟨q, hq, rfl⟩, u, h1, ?_, ?_⟩)
        · show m.Adj q.2 u
          rw [← hvc]; exact M.inv.tree.symm _ _ huv
        · by_cases hxu : x = u
          · exact .inl hxu
          · exact .inr ⟨hxu, p, hp, hu⟩
    · intro hx0 hxd
      obtain ⟨_, s, hs', y, hy, hadj, hxy⟩ := (hdel x).1 hxd
      obtain ⟨q, hq, rfl⟩ := (hsub s).1 hs'
      have hy0 : y ∉ m₀.names := by
        intro hy0
        have : y = q.2 := (M.original q hq).1 y hy0 hy
        rw [this] at hadj
        exact M.inv.tree.irrefl _ hadj
      rcases hxy with rfl | ⟨hxy, p, hp, hyp⟩
      · exact hy0 hx0
      · obtain ⟨p', hp'⟩ := I₀.tree.exists_path x m₀.root hx0 I₀.root_mem
        have hp'' : SimplePath m.Adj x m.root p' :=
          ⟨M.root ▸ hp'.1.mono fun a _ b _ h => hAdj0 a b h, hp'.2⟩
        rw [M.inv.tree.path_unique _ _ _ _ hp hp''] at hyp
        exact hy0 (walk_mem I₀ hp'.1 hx0 y hyp)
  have hin : ∀ x, x ∈ m₀.names → x ∈ m.names := fun x hx => (M.systems x).2 (.inl hx)
  refine ⟨M.name, M.root, M.refTime, by simp [hs, without], fun n => ?_, fun a b s => ?_,
    fun n d v => ?_⟩
  · rw [mem_names_without]
    show n ∈ Dict.keys ns ∧ _ ↔ _
    rw [hk]
    exact ⟨fun ⟨h1, h2⟩ => (hd n h1).1 h2, fun h => ⟨hin n h, (hd n (hin n h)).2 h⟩⟩
  · show _ ∈ m.edges.filter _ ↔ _
    simp only [List.mem_filter, decide_eq_true_eq]
    constructor
    · rintro ⟨h, ha, hb⟩
      obtain ⟨h1, h2, h3⟩ := edge_mem M.inv h
      rcases (M.edges a b _).1 h with he | ⟨q, hq, he⟩
      · exact he
      · obtain ⟨h4, h5, _⟩ := edge_mem (M.invs q hq) he
        exact absurd (((M.original q hq).1 a ((hd a h1).1 ha) h4).trans
          ((M.original q hq).1 b ((hd b h2).1 hb) h5).symm) h3
    · intro h
      obtain ⟨h1, h2, _⟩ := edge_mem I₀ h
      exact ⟨(M.edges a b _).2 (.inl h), (hd a (hin a h1)).2 h1, (hd b (hin b h2)).2 h2⟩
  · show (∃ ds, Dict.get? (ns.filter (fun e => e.1 ∉ del)) n = some ds ∧ _) ↔ _
    rw [Dict.get?_filter (p := fun x => x ∉ del)]
    have hdat' : (∃ ds, Dict.get? ns n = some ds ∧ Dict.get? ds d = some v) ↔ _ := hdat n d v
    constructor
    · rintro ⟨ds, h1, h2⟩
      split at h1
      · rename_i hnd
        simp only [decide_eq_true_eq] at hnd
        obtain ⟨h3, h4⟩ := hdat'.1 ⟨ds, h1, h2⟩
        have hn0 := (hd n h3.name_mem).1 hnd
        rcases (M.data n d v).1 h3 with h5 | ⟨q, hq, h5⟩
        · exact h5
        · exact absurd ⟨_, (hsub _).2 ⟨q, hq, rfl⟩, ((M.original q hq).1 n hn0 h5.name_mem).symm,
            h5.data_mem (M.invs q hq)⟩ h4
      · cases h1
    · intro h
      obtain ⟨ds, h1, h2⟩ := hdat'.2 ⟨(M.data n d v).2 (.inl h), by
        rintro ⟨s, hs', _, hds⟩
        obtain ⟨q, hq, rfl⟩ := (hsub s).1 hs'
        exact (M.original q hq).2 d hds (h.data_mem I₀)⟩
      refine ⟨ds, ?_, h2⟩
      rw [if_pos]
      · exact h1
      · simpa using (hd n (hin n h.name_mem)).2 h.name_mem

end Weldx.Csm
