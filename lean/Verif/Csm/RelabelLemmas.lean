import Verif.Csm.Relabel

/-!
# Facts about renaming
-/

set_option linter.unusedSectionVars false

namespace Weldx.Csm
variable {N S D L : Type} [DecidableEq N] [LcsLike S]

/-- links only connect existing systems -/
def Closed (m : Csm N S D) : Prop := ∀ a b, m.Adj a b → a ∈ m.names ∧ b ∈ m.names

theorem Inv.closed {m : Csm N S D} (I : Inv m) : m.Closed :=
  fun a b h => ⟨I.tree.mem a b h, I.tree.mem b a (I.tree.symm a b h)⟩

theorem Renamed.mem_names {ρ : N → N} {m m' : Csm N S D} (R : Renamed ρ m m') (n' : N) :
    n' ∈ m'.names ↔ ∃ n ∈ m.names, ρ n = n' := by
  rw [names, ← Dict.get?_isSome]
  simp only [R.nodes]
  constructor
  · rintro ⟨ds, n, h1, h2⟩
    exact ⟨n, Dict.get?_isSome.1 ⟨_, h1⟩, h2⟩
  · rintro ⟨n, h1, h2⟩
    obtain ⟨ds, hds⟩ := Dict.get?_isSome.2 h1
    exact ⟨ds, n, hds, h2⟩

theorem Renamed.adj {ρ : N → N} {m m' : Csm N S D} (R : Renamed ρ m m') (a' b' : N) :
    m'.Adj a' b' ↔ ∃ a b, m.Adj a b ∧ ρ a = a' ∧ ρ b = b' := by
  simp only [Adj, Dict.mem_keys_iff, R.edges]
  constructor
  · rintro ⟨e, a, b, h1, h2⟩; exact ⟨a, b, ⟨e, h1⟩, h2⟩
  · rintro ⟨a, b, ⟨e, h1⟩, h2⟩; exact ⟨e, a, b, h1, h2⟩

theorem Renamed.closed {ρ : N → N} {m m' : Csm N S D} (R : Renamed ρ m m') (h : m.Closed) : m'.Closed := by
  intro a' b' hab
  obtain ⟨a, b, h1, rfl, rfl⟩ := (R.adj a' b').1 hab
  obtain ⟨h2, h3⟩ := h a b h1
  exact ⟨(R.mem_names _).2 ⟨a, h2, rfl⟩, (R.mem_names _).2 ⟨b, h3, rfl⟩⟩

theorem Renamed.congr {ρ σ : N → N} {m m' : Csm N S D} (R : Renamed ρ m m') (hc : m.Closed) (h : ∀ n ∈ m.names, ρ n = σ n) :
    Renamed σ m m' where
  name := R.name
  refTime := R.refTime
  subs := R.subs
  nodesNodup := R.nodesNodup
  edgesNodup := R.edgesNodup
  nodes n' ds := by
    rw [R.nodes]
    refine exists_congr fun n => and_congr_right fun hn => ?_
    rw [h n (Dict.get?_isSome.1 ⟨_, hn⟩)]
  edges a' b' e := by
    rw [R.edges]
    refine exists_congr fun a => exists_congr fun b => and_congr_right fun hab => ?_
    obtain ⟨h1, h2⟩ := hc a b (Dict.mem_keys_of_mem hab)
    rw [h a h1, h b h2]

theorem Renamed.trans {ρ σ : N → N} {m m' m'' : Csm N S D} (R : Renamed ρ m m') (R' : Renamed σ m' m'') :
    Renamed (fun n => σ (ρ n)) m m'' where
  name := R'.name.trans R.name
  refTime := R'.refTime.trans R.refTime
  subs := R'.subs.trans R.subs
  nodesNodup := R'.nodesNodup
  edgesNodup := R'.edgesNodup
  nodes n' ds := by
    rw [R'.nodes]
    constructor
    · rintro ⟨n, h1, rfl⟩
      obtain ⟨x, h2, rfl⟩ := (R.nodes _ _).1 h1
      exact ⟨x, h2, rfl⟩
    · rintro ⟨x, h1, rfl⟩
      exact ⟨ρ x, (R.nodes _ _).2 ⟨x, h1, rfl⟩, rfl⟩
  edges a' b' e := by
    rw [R'.edges]
    constructor
    · rintro ⟨a, b, h1, rfl, rfl⟩
      obtain ⟨x, y, h2, rfl, rfl⟩ := (R.edges _ _ _).1 h1
      exact ⟨x, y, h2, rfl, rfl⟩
    · rintro ⟨x, y, h1, rfl, rfl⟩
      exact ⟨ρ x, ρ y, (R.edges _ _ _).2 ⟨x, y, h1, rfl, rfl⟩, rfl, rfl⟩

theorem Renamed.refl {m : Csm N S D} (h1 : m.names.Nodup) (h2 : (Dict.keys m.edges).Nodup) : Renamed (fun n => n) m m where
  name := rfl
  refTime := rfl
  subs := rfl
  nodesNodup := h1
  edgesNodup := h2
  nodes n' ds := by simp
  edges a' b' e := by
    constructor
    · intro h; exact ⟨a', b', h, rfl, rfl⟩
    · rintro ⟨a, b, h, rfl, rfl⟩; exact h

theorem set_self {K V : Type} [DecidableEq K] {d : List (K × V)} {k : K} {v : V} (h : Dict.get? d k = some v) : Dict.set d k v = d := by
  induction d with
  | nil => cases h
  | cons x t ih =>
    obtain ⟨k', v'⟩ := x
    simp only [Dict.get?, Dict.set] at h ⊢
    split
    · rename_i hk
      rw [if_pos hk] at h
      cases h; subst hk; rfl
    · rename_i hk
      rw [if_neg hk] at h
      rw [ih h]

/-- Entries of an update: later ones win. If the new entries agree with each other, all of them are present. -/
theorem mem_update_consistent {K V : Type} [DecidableEq K] : ∀ (e d : List (K × V)), (Dict.keys d).Nodup →
    (∀ x ∈ e, x.1 ∉ Dict.keys d) → (∀ x ∈ e, ∀ y ∈ e, x.1 = y.1 → x.2 = y.2) →
    ∀ x, x ∈ Dict.update d e ↔ x ∈ d ∨ x ∈ e := by
  intro e
  induction e using List.reverseRecOn with
  | nil => intro d _ _ _ x; simp [Dict.update]
  | append_singleton l y ih =>
    intro d hd h1 h2 x
    have h1' : ∀ x ∈ l, x.1 ∉ Dict.keys d := fun x hx => h1 x (by simp [hx])
    have h2' : ∀ x ∈ l, ∀ y ∈ l, x.1 = y.1 → x.2 = y.2 := fun x hx y hy => h2 x (by simp [hx]) y (by simp [hy])
    have hstep : Dict.update d (l ++ [y]) = Dict.set (Dict.update d l) y.1 y.2 := by simp [Dict.update, List.foldl_append]
    rw [hstep]
    have hn : (Dict.keys (Dict.update d l)).Nodup := Dict.nodup_keys_update hd
    obtain ⟨k, v⟩ := x
    rw [Dict.mem_set hn, ih d hd h1' h2', List.mem_append, List.mem_singleton]
    constructor
    · rintro (⟨rfl, rfl⟩ | ⟨_, h | h⟩)
      · exact .inr (.inr rfl)
      · exact .inl h
      · exact .inr (.inl h)
    · rintro (h | h | h)
      · right
        refine ⟨fun e => h1 y (by simp) (by rw [← e]; exact Dict.mem_keys_of_mem h), .inl h⟩
      · by_cases e : k = y.1
        · left
          exact ⟨e, h2 (k, v) (by simp [h]) y (by simp) e⟩
        · exact .inr ⟨e, .inr h⟩
      · left; rw [← h]; simp

/-- Renaming one system to a new name. -/
theorem relabelStep_renamed {mp : List (N × N)} {m : Csm N S D} {old new : N} (hn : m.names.Nodup)
    (he : (Dict.keys m.edges).Nodup) (hc : m.Closed) (hold : old ∈ m.names) (hnew : new ∉ m.names)
    (hm : Dict.get? mp old = some new) :
    Renamed (fun n => if n = old then new else n) m (relabelStep mp m old) ∧ (relabelStep mp m old).root = m.root := by
  obtain ⟨ds, hds⟩ := Dict.get?_isSome.2 hold
  have hne : new ≠ old := fun e => hnew (e ▸ hold)
  have hnadj : ∀ a b e, ((a, b), e) ∈ m.edges → a ≠ new ∧ b ≠ new := fun a b e h => by
    obtain ⟨h1, h2⟩ := hc a b (Dict.mem_keys_of_mem h)
    exact ⟨fun e => hnew (e ▸ h1), fun e => hnew (e ▸ h2)⟩
  simp only [relabelStep, hm, hds, if_neg hne]
  have hset : Dict.set m.nodes new ds = m.nodes ++ [(new, ds)] := Dict.set_of_not_mem hnew
  have hsn : (Dict.keys (Dict.set m.nodes new ds)).Nodup := Dict.nodup_keys_set hn
  have hfn : (Dict.keys (m.edges.filter fun x => x.1.1 ≠ old ∧ x.1.2 ≠ old)).Nodup := he.sublist (List.filter_sublist.map _)
  refine ⟨⟨rfl, rfl, rfl, ?_, Dict.nodup_keys_update hfn, fun n' ds' => ?_, fun a' b' e => ?_⟩, trivial⟩
  · show (Dict.keys (Dict.erase _ _)).Nodup
    rw [Dict.keys_erase]; exact hsn.filter _
  · show Dict.get? (Dict.erase (Dict.set m.nodes new ds) old) n' = some ds' ↔ _
    rw [Dict.get?_erase, Dict.get?_set]
    by_cases h1 : n' = old
    · subst h1
      rw [if_pos rfl]
      simp only [reduceCtorEq, false_iff, not_exists, not_and]
      intro n hn' h
      split at h
      · exact hne h
      · rename_i h'; exact h' h
    · rw [if_neg h1]
      by_cases h2 : n' = new
      · subst h2
        rw [if_pos rfl]
        constructor
        · intro h; cases h
          exact ⟨old, hds, if_pos rfl⟩
        · rintro ⟨n, h3, h4⟩
          split at h4
          · rename_i h5; subst h5; rw [hds] at h3; exact h3
          · subst h4
            exact absurd (Dict.get?_isSome.1 ⟨_, h3⟩) hnew
      · rw [if_neg h2]
        constructor
        · intro h; exact ⟨n', h, if_neg h1⟩
        · rintro ⟨n, h3, h4⟩
          split at h4
          · exact absurd h4.symm h2
          · subst h4; exact h3
  · rw [mem_update_consistent _ _ hfn]
    · constructor
      · rintro (h | h)
        · rw [List.mem_filter] at h
          have h2 := of_decide_eq_true h.2
          exact ⟨a', b', h.1, if_neg h2.1, if_neg h2.2⟩
        · rcases List.mem_append.1 h with h | h
          · obtain ⟨⟨⟨a, b⟩, e1⟩, h1, h2⟩ := List.mem_map.1 h
            rw [List.mem_filter] at h1
            have h3 : a = old := of_decide_eq_true h1.2
            cases h2
            exact ⟨a, b, h1.1, if_pos h3, rfl⟩
          · obtain ⟨⟨⟨a, b⟩, e1⟩, h1, h2⟩ := List.mem_map.1 h
            rw [List.mem_filter] at h1
            have h3 : b = old := of_decide_eq_true h1.2
            cases h2
            exact ⟨a, b, h1.1, rfl, if_pos h3⟩
      · rintro ⟨a, b, h, rfl, rfl⟩
        by_cases ha : a = old
        · right
          refine List.mem_append.2 (.inl (List.mem_map.2 ⟨((a, b), e), List.mem_filter.2 ⟨h, by simpa using ha⟩, ?_⟩))
          simp [ha]
        · by_cases hb : b = old
          · right
            refine List.mem_append.2 (.inr (List.mem_map.2 ⟨((a, b), e), List.mem_filter.2 ⟨h, by simpa using hb⟩, ?_⟩))
            simp [hb]
          · left
            rw [if_neg ha, if_neg hb]
            exact List.mem_filter.2 ⟨h, by simp [ha, hb]⟩
    · intro x hx hk
      obtain ⟨v, hv⟩ := Dict.mem_keys_iff.1 hk
      rw [List.mem_filter] at hv
      have := hnadj x.1.1 x.1.2 v hv.1
      rcases List.mem_append.1 hx with h | h
      · obtain ⟨y, -, h2⟩ := List.mem_map.1 h
        exact this.1 (by rw [← h2])
      · obtain ⟨y, -, h2⟩ := List.mem_map.1 h
        exact this.2 (by rw [← h2])
    · -- the same link moved twice is a link from the system to itself
      have key : ∀ x ∈ (m.edges.filter fun x => x.1.1 = old).map (fun x => ((new, if x.1.2 = old then new else x.1.2), x.2)) ++
          (m.edges.filter fun x => x.1.2 = old).map (fun x => ((if x.1.1 = old then new else x.1.1, new), x.2)),
          ∃ a b, ((a, b), x.2) ∈ m.edges ∧ (if a = old then new else a) = x.1.1 ∧ (if b = old then new else b) = x.1.2 := by
        intro x hx
        rcases List.mem_append.1 hx with h | h
        · obtain ⟨⟨⟨a, b⟩, e1⟩, h1, h2⟩ := List.mem_map.1 h
          rw [List.mem_filter] at h1
          have h3 : a = old := of_decide_eq_true h1.2
          subst h2
          exact ⟨a, b, h1.1, if_pos h3, rfl⟩
        · obtain ⟨⟨⟨a, b⟩, e1⟩, h1, h2⟩ := List.mem_map.1 h
          rw [List.mem_filter] at h1
          have h3 : b = old := of_decide_eq_true h1.2
          subst h2
          exact ⟨a, b, h1.1, rfl, if_pos h3⟩
      have inj : ∀ a b, a ≠ new → b ≠ new → (if a = old then new else a) = (if b = old then new else b) → a = b := by
        intro a b ha hb h
        split at h
        · split at h
          · rename_i h1 h2; rw [h1, h2]
          · exact absurd h.symm hb
        · split at h
          · exact absurd h ha
          · exact h
      intro x hx y hy hxy
      obtain ⟨a, b, h1, h2, h3⟩ := key x hx
      obtain ⟨c, d, h4, h5, h6⟩ := key y hy
      have n1 := hnadj _ _ _ h1
      have n2 := hnadj _ _ _ h4
      rw [← hxy] at h5 h6
      have e1 := inj a c n1.1 n2.1 (h2.trans h5.symm)
      have e2 := inj b d n1.2 n2.2 (h3.trans h6.symm)
      subst e1 e2
      have g1 := Dict.get?_of_mem he h1
      have g2 := Dict.get?_of_mem he h4
      rw [g1] at g2
      exact Option.some.inj g2

/-- what is needed of the order: new names that are old names of systems have been renamed before -/
def StepOk (mp : List (N × N)) (V : List N) (l : List N) : Prop :=
  ∀ p a q, l = p ++ a :: q → ∀ b, (a, b) ∈ mp → a ≠ b → b ∈ Dict.keys mp → (b ∈ V → b ∈ p) ∧ b ∉ q

theorem rename_of_get? {mp : List (N × N)} {a b : N} (h : Dict.get? mp a = some b) : rename mp a = b := by simp [rename, h]

theorem rename_of_not_mem {mp : List (N × N)} {a : N} (h : a ∉ Dict.keys mp) : rename mp a = a := by
  simp [rename, Dict.get?_eq_none.2 h]

theorem relabel_loop {mp : List (N × N)} {m : Csm N S D} (hn : m.names.Nodup) (he : (Dict.keys m.edges).Nodup) (hc : m.Closed)
    (hinj : ∀ a ∈ m.names, ∀ b ∈ m.names, rename mp a = rename mp b → a = b) {l : List N} (hl : l.Nodup)
    (hs : StepOk mp m.names l) : ∀ (t p : List N) (m1 : Csm N S D), l = p ++ t →
    Renamed (fun n => if n ∈ p then rename mp n else n) m m1 →
    Renamed (fun n => if n ∈ l then rename mp n else n) m (t.foldl (relabelStep mp) m1) ∧
      (t.foldl (relabelStep mp) m1).root = m1.root := by
  intro t
  induction t with
  | nil =>
    intro p m1 hp R
    rw [List.append_nil] at hp
    subst hp
    exact ⟨R, rfl⟩
  | cons old t ih =>
    intro p m1 hp R
    rw [List.foldl_cons]
    have hp' : l = (p ++ [old]) ++ t := by rw [hp]; simp
    have holdp : old ∉ p := by
      intro h
      rw [hp] at hl
      exact (List.nodup_append.1 hl).2.2 _ h _ (List.mem_cons_self ..) rfl
    have hcl := R.closed hc
    have cont : ∀ m2 : Csm N S D, Renamed (fun n => if n ∈ p ++ [old] then rename mp n else n) m m2 → m2.root = m1.root →
        Renamed (fun n => if n ∈ l then rename mp n else n) m (t.foldl (relabelStep mp) m2) ∧
      (t.foldl (relabelStep mp) m2).root = m1.root := fun m2 R2 hr => by
      obtain ⟨a1, a2⟩ := ih _ m2 hp' R2
      exact ⟨a1, a2.trans hr⟩
    -- the loop does nothing for names without effect
    have same : (old ∈ m.names → rename mp old = old) → relabelStep mp m1 old = m1 →
        Renamed (fun n => if n ∈ l then rename mp n else n) m (t.foldl (relabelStep mp) (relabelStep mp m1 old)) ∧
      (t.foldl (relabelStep mp) (relabelStep mp m1 old)).root = m1.root := by
      intro h1 h2
      rw [h2]
      refine cont m1 (R.congr hc fun n hnm => ?_) rfl
      by_cases h3 : n ∈ p
      · simp [h3]
      · by_cases h4 : n = old
        · subst h4; simp [h3, h1 hnm]
        · simp [h3, h4]
    cases hm : Dict.get? mp old with
    | none =>
      exact same (fun _ => rename_of_not_mem (Dict.get?_eq_none.1 hm)) (by simp only [relabelStep, hm])
    | some new =>
      have hkey : old ∈ Dict.keys mp := Dict.get?_isSome.1 ⟨_, hm⟩
      by_cases hold : old ∈ m1.names
      · obtain ⟨n, hnm, hno⟩ := (R.mem_names old).1 hold
        have hn' : n = old := by
          by_cases hnp : n ∈ p
          · exfalso
            rw [if_pos hnp] at hno
            have hne : n ≠ old := fun e => holdp (e ▸ hnp)
            have hmn : (n, old) ∈ mp := by
              by_cases hk : n ∈ Dict.keys mp
              · obtain ⟨v, hv⟩ := Dict.get?_isSome.2 hk
                rw [rename_of_get? hv] at hno
                subst hno
                exact Dict.mem_of_get? hv
              · rw [rename_of_not_mem hk] at hno
                exact absurd hno hne
            obtain ⟨p1, q1, rfl⟩ := List.append_of_mem hnp
            exact (hs p1 n (q1 ++ old :: t) (by rw [hp]; simp) old hmn hne hkey).2 (by simp)
          · rwa [if_neg hnp] at hno
        subst hn'
        by_cases hne : new = n
        · subst hne
          obtain ⟨ds, hds⟩ := Dict.get?_isSome.2 hold
          refine same (fun _ => rename_of_get? hm) ?_
          simp only [relabelStep, hm, hds, if_true, set_self hds]
        · have hnew : new ∉ m1.names := by
            intro hnew
            obtain ⟨x, hx, hxn⟩ := (R.mem_names new).1 hnew
            by_cases hxp : x ∈ p
            · rw [if_pos hxp, ← rename_of_get? hm] at hxn
              exact holdp (hinj x hx n hnm hxn ▸ hxp)
            · rw [if_neg hxp] at hxn
              subst hxn
              by_cases hk : x ∈ Dict.keys mp
              · exact hxp ((hs p n t hp x (Dict.mem_of_get? hm) (Ne.symm hne) hk).1 hx)
              · have : rename mp x = rename mp n := by rw [rename_of_not_mem hk, rename_of_get? hm]
                exact hne (hinj x hx n hnm this)
          obtain ⟨R2, hr⟩ := relabelStep_renamed R.nodesNodup R.edgesNodup hcl hold hnew hm
          refine cont _ ((R.trans R2).congr hc fun x hx => ?_) hr
          by_cases hxp : x ∈ p
          · simp only [hxp, if_true, List.mem_append, true_or]
            refine if_neg fun e => ?_
            -- a renamed system is not called `n`
            have hne2 : x ≠ n := fun e => holdp (e ▸ hxp)
            have hmn : (x, n) ∈ mp := by
              by_cases hk : x ∈ Dict.keys mp
              · obtain ⟨v, hv⟩ := Dict.get?_isSome.2 hk
                rw [rename_of_get? hv] at e
                subst e
                exact Dict.mem_of_get? hv
              · rw [rename_of_not_mem hk] at e
                exact absurd e hne2
            obtain ⟨p1, q1, rfl⟩ := List.append_of_mem hxp
            exact (hs p1 x (q1 ++ n :: t) (by rw [hp]; simp) n hmn hne2 hkey).2 (by simp)
          · by_cases hxn : x = n
            · subst hxn; simp [hxp, rename_of_get? hm]
            · simp [hxp, hxn]
      · refine same (fun hmem => ?_) (by simp only [relabelStep, hm, Dict.get?_eq_none.2 hold])
        exact absurd ((R.mem_names old).2 ⟨old, hmem, if_neg holdp⟩) hold

theorem stepOk_order {topo : List (N × N) → Option (List N)} (ht : TopoOk topo) {mp : List (N × N)} {m : Csm N S D}
    (hn : m.names.Nodup) {l : List N} (h : relabelOrder topo mp m = some l) :
    l.Nodup ∧ StepOk mp m.names l ∧ ∀ n ∈ m.names, n ∈ Dict.keys mp → n ∈ l := by
  unfold relabelOrder at h
  split at h
  · cases hto : topo mp with
    | none => rw [hto] at h; cases h
    | some l' =>
      rw [hto] at h
      cases h
      have T := ht mp
      rw [hto] at T
      have hnd := List.nodup_reverse.2 T.nodup
      refine ⟨hnd, fun p a q hl b hab hne hbk => ?_, fun n _ hk => List.mem_reverse.2 ((T.mem n).2 (.inl hk))⟩
      obtain ⟨p', q', hl', hb⟩ := T.before a b hab hne
      have e : p ++ a :: q = q'.reverse ++ a :: p'.reverse := by
        rw [← hl, hl']; simp
      have hbp : b ∈ p := by
        have hap : a ∉ p := by
          intro h
          rw [hl] at hnd
          exact (List.nodup_append.1 hnd).2.2 _ h _ (List.mem_cons_self ..) rfl
        have haq : a ∉ q := by
          rw [hl] at hnd
          exact (List.nodup_cons.1 (List.nodup_append.1 hnd).2.1).1
        have := (List.append_cons_inj_of_notMem hap haq).1 e
        rw [this.1]; simpa using hb
      refine ⟨fun _ => hbp, fun hq => ?_⟩
      rw [hl] at hnd
      exact (List.nodup_append.1 hnd).2.2 _ hbp _ (List.mem_cons_of_mem _ hq) rfl
  · rename_i hov
    cases h
    refine ⟨hn.filter _, fun p a q hl b hab hne hbk => ?_, fun n hnm hk => List.mem_filter.2 ⟨hnm, by simpa using hk⟩⟩
    exfalso
    apply hov
    rw [List.any_eq_true]
    exact ⟨b, hbk, by simpa using ⟨a, hab⟩⟩

end Weldx.Csm
