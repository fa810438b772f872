import Verif.Csm.RelabelLemmas
import Mathlib.Data.List.Sort

/-!
# C17: renaming systems only changes names
-/

set_option linter.unusedSectionVars false

namespace Weldx.Csm
variable {N S D L : Type} [DecidableEq N] [LcsLike S]

/-! ### Renamed trees -/

theorem walk_map {adj adj' : N → N → Prop} {ρ : N → N} (h : ∀ a b, adj a b → adj' (ρ a) (ρ b)) {a b : N} {p : List N}
    (w : Walk adj a b p) : Walk adj' (ρ a) (ρ b) (p.map ρ) := by
  induction w with
  | nil a => exact .nil _
  | cons h1 _ ih => exact .cons (h _ _ h1) ih

theorem walk_pull {V : N → Prop} {adj adj' : N → N → Prop} {ρ : N → N} (hi : ∀ a b, V a → V b → ρ a = ρ b → a = b)
    (hV : ∀ a b, adj a b → V a ∧ V b) (h : ∀ a' b', adj' a' b' → ∃ a b, adj a b ∧ ρ a = a' ∧ ρ b = b')
    {a' b' : N} {p' : List N} (w : Walk adj' a' b' p') : ∀ a, V a → ρ a = a' →
    ∃ b p, V b ∧ Walk adj a b p ∧ ρ b = b' ∧ p' = p.map ρ := by
  induction w with
  | nil a' => intro a hVa ha; exact ⟨a, [a], hVa, .nil a, ha, by simp [ha]⟩
  | cons h1 _ ih =>
    intro a hVa ha
    obtain ⟨x, y, hxy, hx, hy⟩ := h _ _ h1
    obtain ⟨hVx, hVy⟩ := hV _ _ hxy
    have := hi x a hVx hVa (hx.trans ha.symm)
    subst this
    obtain ⟨b, p, hVb, hw, hb, hp⟩ := ih y hVy hy
    exact ⟨b, x :: p, hVb, .cons hxy hw, hb, by simp [hp, ha]⟩

theorem isTree_rename {V V' : N → Prop} {adj adj' : N → N → Prop} {ρ : N → N} (T : IsTree V adj)
    (hi : ∀ a b, V a → V b → ρ a = ρ b → a = b) (hV : ∀ x', V' x' ↔ ∃ x, V x ∧ ρ x = x')
    (ha : ∀ a' b', adj' a' b' ↔ ∃ a b, adj a b ∧ ρ a = a' ∧ ρ b = b') : IsTree V' adj' := by
  have hVadj : ∀ a b, adj a b → V a ∧ V b := fun a b h => ⟨T.mem _ _ h, T.mem _ _ (T.symm _ _ h)⟩
  constructor
  · intro a' h
    obtain ⟨a, b, h1, h2, h3⟩ := (ha a' a').1 h
    have := hi a b (hVadj _ _ h1).1 (hVadj _ _ h1).2 (h2.trans h3.symm)
    subst this
    exact T.irrefl _ h1
  · intro a' b' h
    obtain ⟨a, b, h1, h2, h3⟩ := (ha a' b').1 h
    exact (ha _ _).2 ⟨b, a, T.symm _ _ h1, h3, h2⟩
  · intro a' b' h
    obtain ⟨a, b, h1, h2, h3⟩ := (ha a' b').1 h
    exact (hV _).2 ⟨a, T.mem _ _ h1, h2⟩
  · intro a' b' h1 h2
    obtain ⟨a, ha1, rfl⟩ := (hV _).1 h1
    obtain ⟨b, hb1, rfl⟩ := (hV _).1 h2
    obtain ⟨p, hp⟩ := T.exists_path a b ha1 hb1
    refine ⟨p.map ρ, walk_map (fun x y h => (ha _ _).2 ⟨x, y, h, rfl, rfl⟩) hp.1, ?_⟩
    have hmem : ∀ x ∈ p, V x := by
      have : ∀ {a b p}, Walk adj a b p → V a → ∀ x ∈ p, V x := by
        intro a b p w
        induction w with
        | nil a => intro h x hx; simp at hx; rw [hx]; exact h
        | cons h _ ih =>
          intro hVa x hx
          rcases List.mem_cons.1 hx with hx | hx
          · rw [hx]; exact hVa
          · exact ih (hVadj _ _ h).2 x hx
      exact this hp.1 ha1
    rw [List.Nodup, List.pairwise_map]
    exact List.Pairwise.imp_of_mem (fun {x y} hx hy hxy e => hxy (hi x y (hmem x hx) (hmem y hy) e)) hp.2
  · intro a' b' p' q' hp hq
    by_cases hV' : V' a'
    · obtain ⟨a, hVa, rfl⟩ := (hV _).1 hV'
      obtain ⟨b, p, hVb, hw, hb, rfl⟩ := walk_pull hi hVadj (fun a' b' h => (ha a' b').1 h) hp.1 a hVa rfl
      obtain ⟨b2, q, hVb2, hw2, hb2, rfl⟩ := walk_pull hi hVadj (fun a' b' h => (ha a' b').1 h) hq.1 a hVa rfl
      have := hi b b2 hVb hVb2 (hb.trans hb2.symm)
      subst this
      rw [T.path_unique a b p q ⟨hw, hp.2.of_map _⟩ ⟨hw2, hq.2.of_map _⟩]
    · have single : ∀ {b' p'}, Walk adj' a' b' p' → b' = a' ∧ p' = [a'] := by
        intro b' p' w
        cases w with
        | nil => exact ⟨rfl, rfl⟩
        | cons h _ =>
          obtain ⟨a, b, h1, h2, -⟩ := (ha _ _).1 h
          exact absurd ((hV _).2 ⟨a, T.mem _ _ h1, h2⟩) hV'
      rw [(single hp.1).2, (single hq.1).2]

theorem Renamed.inv {ρ : N → N} {m m' : Csm N S D} (R : Renamed ρ m m') (I : Inv m) (hsub : m.subs = [])
    (hi : ∀ a ∈ m.names, ∀ b ∈ m.names, ρ a = ρ b → a = b) (hr : m'.root = ρ m.root) : Inv m' where
  nodesNodup := R.nodesNodup
  edgesNodup := R.edgesNodup
  root_mem := by rw [hr]; exact (R.mem_names _).2 ⟨_, I.root_mem, rfl⟩
  tree := isTree_rename I.tree (fun a b ha hb => hi a ha b hb) (fun x' => by rw [R.mem_names]) R.adj
  paired a' b' e h := by
    obtain ⟨a, b, h1, rfl, rfl⟩ := (R.edges _ _ _).1 h
    obtain ⟨e', h2, h3⟩ := I.paired a b e h1
    exact ⟨e', (R.edges _ _ _).2 ⟨b, a, h2, rfl, rfl⟩, h3⟩
  dataNodup := by
    rw [dataNodup_iff R.nodesNodup]
    obtain ⟨h1, h2⟩ := (dataNodup_iff I.nodesNodup).1 I.dataNodup
    constructor
    · intro n' ds h
      obtain ⟨n, h3, -⟩ := (R.nodes _ _).1 h
      exact h1 n ds h3
    · intro n1 n2 ds1 ds2 d h3 h4 h5 h6
      obtain ⟨x, h7, rfl⟩ := (R.nodes _ _).1 h3
      obtain ⟨y, h8, rfl⟩ := (R.nodes _ _).1 h4
      rw [h2 x y ds1 ds2 d h7 h8 h5 h6]
  subs_ok s hs := by rw [R.subs, hsub] at hs; cases hs

/-- A renamed manager gives the renamed answers. -/
theorem Renamed.answers [Group L] (ev : S → Except CsmError L) {ρ : N → N} {m m' : Csm N S D} (R : Renamed ρ m m') (I : Inv m)
    (I' : Inv m') (C : m.Coherent ev) (hi : ∀ a ∈ m.names, ∀ b ∈ m.names, ρ a = ρ b → a = b) (hr : m'.root = ρ m.root) :
    (∀ a ∈ m.names, ∀ b ∈ m.names, m'.getCs ev (ρ a) (some (ρ b)) = m.getCs ev a (some b)) ∧
    (∀ n ∈ m.names, m'.getParent (ρ n) = (m.getParent n).map (Option.map ρ)) ∧
    (∀ d, m'.findData d = (m.findData d).map fun x => (ρ x.1, x.2)) := by
  have hsup : ∀ a b s, m.Supplied a b s → m'.Supplied (ρ a) (ρ b) s := fun a b s h => (R.edges _ _ _).2 ⟨a, b, h, rfl, rfl⟩
  have hadj : ∀ a b, m.Adj a b → m'.Adj (ρ a) (ρ b) := fun a b h => (R.adj _ _).2 ⟨a, b, h, rfl, rfl⟩
  have hpath : ∀ a ∈ m.names, ∀ b p, SimplePath m.Adj a b p → SimplePath m'.Adj (ρ a) (ρ b) (p.map ρ) := by
    intro a ha b p hp
    refine ⟨walk_map hadj hp.1, ?_⟩
    have hmem : ∀ {a b p}, Walk m.Adj a b p → a ∈ m.names → ∀ x ∈ p, x ∈ m.names := by
      intro a b p w
      induction w with
      | nil a => intro h x hx; simp at hx; rw [hx]; exact h
      | cons h _ ih =>
        intro hVa x hx
        rcases List.mem_cons.1 hx with hx | hx
        · rw [hx]; exact hVa
        · exact ih (I.closed _ _ h).2 x hx
    rw [List.Nodup, List.pairwise_map]
    exact List.Pairwise.imp_of_mem (fun {x y} hx hy hxy e => hxy (hi x (hmem hp.1 ha x hx) y (hmem hp.1 ha y hy) e)) hp.2
  have C' : m'.Coherent ev := by
    intro a' b' s h
    obtain ⟨a, b, h1, -, -⟩ := (R.edges _ _ _).1 h
    exact C a b s h1
  have hmem : ∀ a ∈ m.names, ρ a ∈ m'.names := fun a ha => (R.mem_names _).2 ⟨a, ha, rfl⟩
  refine ⟨fun a ha b hb => ?_, fun n hn => ?_, fun d => ?_⟩
  · obtain ⟨p, hp⟩ := I.tree.exists_path a b ha hb
    have hp' := hpath a ha b p hp
    rw [getCs_eq_prod I C ha hb hp, getCs_eq_prod I' C' (hmem a ha) (hmem b hb) hp']
    congr 1
    refine pathProduct_unique I' (prodVal_pathProduct I' C' hp'.1) ?_
    have : ∀ {q x}, PathProduct ev m q x → PathProduct ev m' (q.map ρ) x := by
      intro q x h
      induction h with
      | single a => exact .single _
      | @cons a b q x y hr _ ih =>
        refine .cons ?_ ih
        rcases hr with ⟨s, h, hx⟩ | ⟨s, h, hx⟩
        · exact .inl ⟨s, hsup _ _ _ h, hx⟩
        · exact .inr ⟨s, hsup _ _ _ h, hx⟩
    exact this (prodVal_pathProduct I C hp.1)
  · by_cases hroot : n = m.root
    · subst hroot
      rw [getParent_root, ← hr, getParent_root]; rfl
    · have hroot' : ρ n ≠ m'.root := by
        rw [hr]; exact fun e => hroot (hi n hn _ I.root_mem e)
      obtain ⟨p, hp⟩ := I.tree.exists_path n m.root hn I.root_mem
      have hp' := hpath n hn _ p hp
      rw [← hr] at hp'
      have s1 := (shortestPath_iff I hn I.root_mem).2 hp
      have s2 := (shortestPath_iff I' (hmem n hn) I'.root_mem).2 hp'
      simp only [getParent, if_neg hroot, if_neg hroot', checkExists_ok hn, checkExists_ok (hmem n hn), s1, s2]
      cases p with
      | nil => rfl
      | cons x t =>
        cases t with
        | nil => rfl
        | cons y u => rfl
  · cases hf : m.findData d with
    | ok r =>
      obtain ⟨n, v⟩ := r
      obtain ⟨ds, h1, h2⟩ := (findData_iff I).1 hf
      exact (findData_iff I').2 ⟨ds, (R.nodes _ _).2 ⟨n, h1, rfl⟩, h2⟩
    | error e =>
      have he : e = .keyError := by
        simp only [findData] at hf
        split at hf
        · cases hf
        · cases hf; rfl
      subst he
      refine findData_error I' fun hd => ?_
      obtain ⟨n', ds, h1, h2⟩ := (mem_dataNames I'.nodesNodup).1 hd
      obtain ⟨n, h3, -⟩ := (R.nodes _ _).1 h1
      obtain ⟨r, hr⟩ := findData_ok I ((mem_dataNames I.nodesNodup).2 ⟨n, ds, h3, h2⟩)
      rw [hf] at hr; cases hr

/-! ### Mappings that can be carried out -/

/-- A mapping without cycles can be sorted. -/
theorem topoOrder_of_rank {mp : List (N × N)} (rank : N → Nat) (h : ∀ a b, (a, b) ∈ mp → a ≠ b → rank b < rank a) :
    ∃ l, TopoOrder mp l := by
  let all := (Dict.keys mp ++ mp.map Prod.snd).dedup
  let l := all.insertionSort fun x y => rank y ≤ rank x
  have hperm : l.Perm all := List.perm_insertionSort _ _
  have hmem : ∀ x, x ∈ l ↔ x ∈ Dict.keys mp ∨ x ∈ mp.map Prod.snd := by
    intro x
    rw [hperm.mem_iff, List.mem_dedup, List.mem_append]
  have hsort : l.Pairwise fun x y => rank y ≤ rank x :=
    haveI : Std.Total (fun x y : N => rank y ≤ rank x) := ⟨fun x y => Nat.le_total _ _⟩
    haveI : IsTrans N (fun x y : N => rank y ≤ rank x) := ⟨fun x y z h1 h2 => Nat.le_trans h2 h1⟩
    List.pairwise_insertionSort _ _
  refine ⟨l, hperm.nodup_iff.2 (List.nodup_dedup _), hmem, fun a b hab hne => ?_⟩
  have ha : a ∈ l := (hmem a).2 (.inl (Dict.mem_keys_of_mem hab))
  have hb : b ∈ l := (hmem b).2 (.inr (List.mem_map.2 ⟨_, hab, rfl⟩))
  obtain ⟨p, q, hl⟩ := List.append_of_mem ha
  refine ⟨p, q, hl, ?_⟩
  rw [hl] at hb hsort
  rcases List.mem_append.1 hb with hb | hb
  · have := (List.pairwise_append.1 hsort).2.2 b hb a (List.mem_cons_self ..)
    have := h a b hab hne
    omega
  · rcases List.mem_cons.1 hb with hb | hb
    · exact absurd hb.symm hne
    · exact hb

/-- there is a function that sorts as required -/
noncomputable def anyTopo (mp : List (N × N)) : Option (List N) :=
  open Classical in if h : ∃ l, TopoOrder mp l then some h.choose else none

theorem anyTopo_ok : TopoOk (anyTopo (N := N)) := by
  intro mp
  unfold anyTopo
  by_cases h : ∃ l, TopoOrder mp l
  · rw [dif_pos h]; exact h.choose_spec
  · rw [dif_neg h]; exact h

/-- **C17.** A mapping without cycles that gives different names to different systems renames a manager without subsystems: the
result is the manager with the new names. -/
theorem C17_rename {topo : List (N × N) → Option (List N)} (ht : TopoOk topo) {m : Csm N S D} (h : Reachable m) (hsub : m.subs = [])
    {mp : List (N × N)} (hinj : ∀ a ∈ m.names, ∀ b ∈ m.names, rename mp a = rename mp b → a = b)
    (rank : N → Nat) (hrank : ∀ a b, (a, b) ∈ mp → a ≠ b → rank b < rank a) :
    ∃ m', relabel topo mp m = .ok () m' ∧ Renamed (rename mp) m m' ∧ m'.root = rename mp m.root ∧ Inv m' := by
  have I := h.inv
  have hs : m.subsystems = .ok [] := by simp [subsystems, hsub]; rfl
  have hroot : ∀ r, relabelOrder topo mp { m with root := r } = relabelOrder topo mp m := fun _ => rfl
  obtain ⟨l, hl⟩ : ∃ l, relabelOrder topo mp m = some l := by
    unfold relabelOrder
    split
    · have := ht mp
      cases hto : topo mp with
      | none => rw [hto] at this; exact absurd (topoOrder_of_rank rank hrank) this
      | some l => exact ⟨_, rfl⟩
    · exact ⟨_, rfl⟩
  obtain ⟨hnd, hstep, hall⟩ := stepOk_order ht I.nodesNodup hl
  have run : ∀ r, Renamed (rename mp) m (l.foldl (relabelStep mp) { m with root := r }) ∧
      (l.foldl (relabelStep mp) { m with root := r }).root = r := by
    intro r
    have R0 : Renamed (fun n => if n ∈ ([] : List N) then rename mp n else n) m { m with root := r } := by
      have := Renamed.refl (m := m) I.nodesNodup I.edgesNodup
      exact ⟨rfl, rfl, rfl, this.nodesNodup, this.edgesNodup, by simpa using this.nodes, by simpa using this.edges⟩
    obtain ⟨R, hr⟩ := relabel_loop I.nodesNodup I.edgesNodup I.closed hinj hnd hstep l [] _ rfl R0
    refine ⟨R.congr I.closed fun n hn => ?_, hr⟩
    by_cases hnl : n ∈ l
    · rw [if_pos hnl]
    · rw [if_neg hnl, rename_of_not_mem fun hk => hnl (hall n hn hk)]
  obtain ⟨R, hr⟩ := run (rename mp m.root)
  refine ⟨_, ?_, R, hr, R.inv I hsub hinj hr⟩
  simp only [relabel, Py.get_bind, hs, Py.lift_ok_bind]
  cases hm : Dict.get? mp m.root with
  | none =>
    have : rename mp m.root = m.root := by simp [rename, hm]
    rw [this]
    have e : ({ m with root := m.root } : Csm N S D) = m := rfl
    rw [e]
    simp [hl, Py.bind_apply, Py.get, Py.modify]
  | some r =>
    have : rename mp m.root = r := rename_of_get? hm
    rw [this]
    simp [Py.bind_apply, Py.get, Py.modify, hroot, hl]

/-- **C17.** After such a renaming all questions get the same answers, with the new names. -/
theorem C17_answers [Group L] (ev : S → Except CsmError L) {topo : List (N × N) → Option (List N)} (ht : TopoOk topo)
    {m : Csm N S D} (h : Reachable m) (hsub : m.subs = []) (C : m.Coherent ev)
    {mp : List (N × N)} (hinj : ∀ a ∈ m.names, ∀ b ∈ m.names, rename mp a = rename mp b → a = b)
    (rank : N → Nat) (hrank : ∀ a b, (a, b) ∈ mp → a ≠ b → rank b < rank a) :
    ∃ m', relabel topo mp m = .ok () m' ∧
      (∀ n', n' ∈ m'.names ↔ ∃ n ∈ m.names, rename mp n = n') ∧
      (∀ a ∈ m.names, ∀ b ∈ m.names, m'.getCs ev (rename mp a) (some (rename mp b)) = m.getCs ev a (some b)) ∧
      (∀ n ∈ m.names, m'.getParent (rename mp n) = (m.getParent n).map (Option.map (rename mp))) ∧
      (∀ d, m'.findData d = (m.findData d).map fun x => (rename mp x.1, x.2)) := by
  obtain ⟨m', h1, R, hr, I'⟩ := C17_rename ht h hsub hinj rank hrank
  exact ⟨m', h1, R.mem_names, R.answers ev h.inv I' C hinj hr⟩

/-- **C17.** Managers with subsystems are never renamed: the call raises without a change. -/
theorem C17_subsystems {topo : List (N × N) → Option (List N)} {m : Csm N S D} (h : Reachable m) (hsub : m.subs ≠ [])
    (mp : List (N × N)) : relabel topo mp m = .err .notImplemented m := by
  obtain ⟨l, hl, hlen⟩ := subsystems_ok h.inv
  have hne : l ≠ [] := by
    rintro rfl
    cases hlen' : m.subs with
    | nil => exact hsub hlen'
    | cons x t => rw [hlen'] at hlen; cases hlen
  simp only [relabel, Py.get_bind, hl, Py.lift_ok_bind]
  rw [if_pos (by simpa using hne)]
  rfl

/-- **C17 fails** for mappings with a cycle: the call raises, but the root has been renamed already. -/
theorem C17_cycle {topo : List (N × N) → Option (List N)} (ht : TopoOk topo) {m : Csm N S D} (hsub : m.subs = [])
    {mp : List (N × N)} (hcyc : ¬ ∃ l, TopoOrder mp l) :
    relabel topo mp m = .err .nxError { m with root := rename mp m.root } := by
  have hs : m.subsystems = .ok [] := by simp [subsystems, hsub]; rfl
  have hto : topo mp = none := by
    have := ht mp
    cases h : topo mp with
    | none => rfl
    | some l => rw [h] at this; exact absurd ⟨l, this⟩ hcyc
  have hord : ∀ r, relabelOrder topo mp { m with root := r } = none := by
    intro r
    unfold relabelOrder
    rw [hto]
    split
    · rfl
    · rename_i hov
      exfalso
      refine hcyc (topoOrder_of_rank (fun x => if x ∈ Dict.keys mp then 1 else 0) fun a b hab _ => ?_)
      have ha := Dict.mem_keys_of_mem hab
      have hb : b ∉ Dict.keys mp := by
        intro hb
        apply hov
        rw [List.any_eq_true]
        exact ⟨b, hb, by simpa using ⟨a, hab⟩⟩
      simp [ha, hb]
  simp only [relabel, Py.get_bind, hs, Py.lift_ok_bind]
  cases hm : Dict.get? mp m.root with
  | none =>
    have : rename mp m.root = m.root := by simp [rename, hm]
    rw [this]
    have := hord m.root
    have e : ({ m with root := m.root } : Csm N S D) = m := rfl
    rw [e] at this ⊢
    simp [this, Py.bind_apply, Py.get, Py.raise]
  | some r =>
    have : rename mp m.root = r := rename_of_get? hm
    rw [this]
    simp [hord, Py.bind_apply, Py.get, Py.modify, Py.raise]

/-- **C17 fails**: exchanging the names of the root and of a name that is not used raises, and leaves a manager whose root does not
exist. -/
theorem C17_cycle_counterexample {topo : List (N × N) → Option (List N)} (ht : TopoOk topo) {m : Csm N S D} (h : Reachable m)
    (hsub : m.subs = []) {x : N} (hx : x ∉ m.names) :
    relabel topo [(m.root, x), (x, m.root)] m = .err .nxError { m with root := x } ∧ ¬ Inv { m with root := x } := by
  have hne : m.root ≠ x := fun e => hx (e ▸ h.inv.root_mem)
  refine ⟨?_, fun I => hx I.root_mem⟩
  rw [C17_cycle ht hsub]
  · simp [rename, Dict.get?]
  · rintro ⟨l, hl⟩
    obtain ⟨p, q, h1, h2⟩ := hl.before m.root x (by simp) hne
    obtain ⟨p', q', h3, h4⟩ := hl.before x m.root (by simp) (Ne.symm hne)
    have hnd := hl.nodup
    obtain ⟨q1, q2, rfl⟩ := List.append_of_mem h2
    have hx1 : x ∉ p ++ m.root :: q1 := by
      rw [h1, show p ++ m.root :: (q1 ++ x :: q2) = (p ++ m.root :: q1) ++ x :: q2 by simp] at hnd
      exact fun h => (List.nodup_append.1 hnd).2.2 _ h _ (List.mem_cons_self ..) rfl
    have hx2 : x ∉ q2 := by
      rw [h1, show p ++ m.root :: (q1 ++ x :: q2) = (p ++ m.root :: q1) ++ x :: q2 by simp] at hnd
      exact (List.nodup_cons.1 (List.nodup_append.1 hnd).2.1).1
    have e : (p ++ m.root :: q1) ++ x :: q2 = p' ++ x :: q' := by rw [← h3, h1]; simp
    have := ((List.append_cons_inj_of_notMem hx1 hx2).1 e).2.2
    rw [h1] at hnd
    have hr : m.root ∈ q1 ++ x :: q2 := by rw [this]; simp [h4]
    exact (List.nodup_cons.1 (List.nodup_append.1 hnd).2.1).1 hr

theorem filter_eq_singleton {l : List N} {a : N} (hn : l.Nodup) (h : a ∈ l) : l.filter (· = a) = [a] := by
  induction l with
  | nil => cases h
  | cons x t ih =>
    rw [List.nodup_cons] at hn
    by_cases hx : x = a
    · subst hx
      have : t.filter (· = x) = [] := by
        rw [List.filter_eq_nil_iff]
        intro y hy
        simp only [decide_eq_true_eq]
        exact fun e => hn.1 (e ▸ hy)
      simp [this]
    · rcases List.mem_cons.1 h with h | h
      · exact absurd h.symm hx
      · simp [hx, ih hn.2 h]

/-- **C17 fails** if a system gets the name of another one: the call succeeds, the other system disappears with all its data, and its
data is not found any more. If the two were neighbours, a link from the system to itself remains. -/
theorem C17_collision_counterexample {topo : List (N × N) → Option (List N)} {m : Csm N S D} (h : Reachable m) (hsub : m.subs = [])
    {a b : N} (ha : a ∈ m.names) (hb : b ∈ m.names) (hab : a ≠ b) :
    ∃ m', relabel topo [(a, b)] m = .ok () m' ∧ m'.names = m.names.filter (· ≠ a) ∧
      Dict.get? m'.nodes b = Dict.get? m.nodes a ∧ (∀ d v, m.StoredAt b d v → ∀ n v', ¬ m'.StoredAt n d v') ∧
      (m.Adj a b → m'.Adj b b) := by
  have I := h.inv
  have hs : m.subsystems = .ok [] := by simp [subsystems, hsub]; rfl
  obtain ⟨ds, hds⟩ := Dict.get?_isSome.2 ha
  have hfilter : m.names.filter (fun n => n ∈ Dict.keys [(a, b)]) = [a] := by
    have : (m.names.filter fun n => n ∈ Dict.keys [(a, b)]) = m.names.filter (· = a) := by simp
    rw [this]
    exact filter_eq_singleton I.nodesNodup ha
  have hord : ∀ r, relabelOrder topo [(a, b)] { m with root := r } = some [a] := by
    intro r
    have : ((Dict.keys [(a, b)]).any fun k => decide (k ∈ [(a, b)].map Prod.snd)) = false := by simp [hab]
    unfold relabelOrder
    rw [this]
    simp only [Bool.false_eq_true, if_false, Option.some.injEq]
    exact hfilter
  have hmap : Dict.get? [(a, b)] a = some b := by simp [Dict.get?]
  have hne : b ≠ a := Ne.symm hab
  have run : ∃ r, relabel topo [(a, b)] m = .ok () (relabelStep [(a, b)] { m with root := r } a) := by
    simp only [relabel, Py.get_bind, hs, Py.lift_ok_bind]
    cases hm : Dict.get? [(a, b)] m.root with
    | none =>
      refine ⟨m.root, ?_⟩
      have e : ({ m with root := m.root } : Csm N S D) = m := rfl
      have := hord m.root
      rw [e] at this ⊢
      simp [this, Py.bind_apply, Py.get, Py.modify]
    | some r =>
      refine ⟨r, ?_⟩
      simp [hord, Py.bind_apply, Py.get, Py.modify]
  obtain ⟨r, hr⟩ := run
  refine ⟨_, hr, ?_⟩
  simp only [relabelStep, hmap, hds, if_neg hne]
  have hget : ∀ n, Dict.get? (Dict.erase (Dict.set m.nodes b ds) a) n =
      if n = a then none else if n = b then some ds else Dict.get? m.nodes n := fun n => by
    rw [Dict.get?_erase, Dict.get?_set]
  refine ⟨?_, ?_, ?_, fun hadj => ?_⟩
  · show Dict.keys (Dict.erase (Dict.set m.nodes b ds) a) = _
    rw [Dict.keys_erase, Dict.keys_set_of_mem hb]; rfl
  · rw [hget, if_neg hne, if_pos rfl]
  · rintro d v ⟨db, hb1, hb2⟩ n v' ⟨dn, hn1, hn2⟩
    rw [hget] at hn1
    have uniq := ((dataNodup_iff I.nodesNodup).1 I.dataNodup).2
    have k1 := Dict.get?_isSome.1 ⟨_, hb2⟩
    have k2 := Dict.get?_isSome.1 ⟨_, hn2⟩
    split at hn1
    · cases hn1
    · split at hn1
      · cases hn1
        exact hab (uniq a b _ _ d hds hb1 k2 k1)
      · rename_i h1 h2
        exact h2 (uniq n b _ _ d hn1 hb1 k2 k1)
  · obtain ⟨e, he⟩ := Dict.mem_keys_iff.1 hadj
    show (b, b) ∈ Dict.keys (Dict.update _ _)
    rw [Dict.mem_keys_update]
    right
    refine Dict.mem_keys_iff.2 ⟨e, List.mem_append.2 (.inl (List.mem_map.2 ⟨((a, b), e), List.mem_filter.2 ⟨he, by simp⟩, ?_⟩))⟩
    simp [hne]

/-! ### Examples -/

/-- systems 1, 2, 3 become 2, 3, 4 -/
example : ∃ m', relabel anyTopo [(1, 2), (2, 3), (3, 4)] eqD1 = .ok () m' ∧ m'.root = 2 ∧ 4 ∈ m'.names ∧ 1 ∉ m'.names := by
  obtain ⟨m', h1, R, h2, -⟩ := C17_rename anyTopo_ok (.assignData _ _ _ _ _ _ eqA_reachable : Reachable eqD1) rfl
    (mp := [(1, 2), (2, 3), (3, 4)]) (by decide) (fun n => 10 - n) (by
      intro a b h _
      simp only [List.mem_cons, Prod.mk.injEq, List.not_mem_nil, or_false] at h
      omega)
  refine ⟨m', h1, h2, (R.mem_names 4).2 ⟨3, by decide, by decide⟩, fun h => ?_⟩
  obtain ⟨n, hn, hn'⟩ := (R.mem_names 1).1 h
  revert hn'
  have : n = 1 ∨ n = 2 ∨ n = 3 := by
    have h3 : eqD1.names = [1, 2, 3] := by decide
    have hn : n ∈ eqD1.names := hn
    rw [h3] at hn
    simpa using hn
  rcases this with rfl | rfl | rfl <;> decide

example : relabel (anyTopo) [(1, 7)] eqC = .err .notImplemented eqC := C17_subsystems eqC_reachable (by decide) _

example : relabel anyTopo [(1, 7), (7, 1)] eqA = .err .nxError { eqA with root := 7 } :=
  (C17_cycle_counterexample anyTopo_ok eqA_reachable rfl (x := 7) (by decide)).1

example : ∃ m', relabel anyTopo [(1, 2)] eqD1 = .ok () m' ∧ m'.names = [2, 3] ∧ ∀ n v, ¬ m'.StoredAt n 7 v := by
  obtain ⟨m', h1, h2, -, h3, -⟩ := C17_collision_counterexample (topo := anyTopo) (.assignData _ _ _ _ _ _ eqA_reachable : Reachable eqD1)
    rfl (a := 1) (b := 2) (by decide) (by decide) (by decide)
  exact ⟨m', h1, by rw [h2]; decide, h3 7 5 ⟨_, rfl, rfl⟩⟩

end Weldx.Csm
