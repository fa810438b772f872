import Verif.Csm.Unmerge

/-!
# C97: `unmerge` after changes made since the merge
-/

set_option linter.unusedSectionVars false
set_option linter.unusedSimpArgs false

namespace Weldx.Csm
variable {N S D L : Type} [DecidableEq N] [LcsLike S]

theorem returned_part {m : Csm N S D} {s : SubInfo N} (I : Inv m) (hs : s ∈ m.subs)
    {ds : List (N × D)} (hds : Dict.get? m.nodes s.common = some ds) : Returned m s (m.part s ds) := by
  have hok := I.subs_ok s hs
  have hcm : s.common ∈ s.members := by cases hok; assumption
  have hsub : ∀ x ∈ s.members, x ∈ m.names := hok.subset'
  have hkeys : Dict.keys (m.nodes.filter (fun e => e.1 ∈ s.members)) =
      m.names.filter (fun x => x ∈ s.members) := Dict.keys_filter (p := fun x => x ∈ s.members)
  refine ⟨rfl, rfl, rfl, rfl, fun n => ?_, fun a b x => ?_, fun n d v => ?_⟩
  · show n ∈ Dict.keys (Dict.set (m.nodes.filter (fun e => e.1 ∈ s.members)) s.common _) ↔ _
    rw [Dict.keys_set_of_mem (by rw [hkeys]; simp [hcm, hsub _ hcm]), hkeys]
    simp; exact hsub n
  · show _ ∈ m.edges.filter (fun e => e.1.1 ∈ s.members ∧ e.1.2 ∈ s.members) ↔ _
    simp only [List.mem_filter, decide_eq_true_eq, Supplied]
    tauto
  · show (∃ x, Dict.get? (Dict.set (m.nodes.filter (fun e => e.1 ∈ s.members)) s.common
      (ds.filter (fun e => e.1 ∈ s.data))) n = some x ∧ _) ↔ _
    rw [Dict.get?_set]
    by_cases hn : n = s.common
    · subst hn
      simp only [if_true, Option.some.injEq, exists_eq_left', StoredAt, hds, hcm, true_and]
      rw [Dict.get?_filter (p := fun x => x ∈ s.data)]
      by_cases hd : d ∈ s.data <;> simp [hd]
    · rw [if_neg hn, Dict.get?_filter (p := fun x => x ∈ s.members)]
      by_cases hno : n ∈ s.members <;> simp [hno, hn, StoredAt]

theorem via_iff {m : Csm N S D} (I : Inv m) {n y : N} (hn : n ∈ m.names) :
    m.Via n y ↔ n = y ∨ m.Below y n := by
  constructor
  · rintro ⟨p, hp, hy⟩
    by_cases h : n = y
    · exact .inl h
    · exact .inr ⟨h, p, hp, hy⟩
  · rintro (rfl | ⟨_, p, hp, hy⟩)
    · obtain ⟨p, hp⟩ := I.tree.exists_path n m.root hn I.root_mem
      exact ⟨p, hp, hp.1.start_mem⟩
    · exact ⟨p, hp, hy⟩

theorem mem_foldl_filter {α : Type} (f : α → List N) (l : List α) (r : List N) (n : N) :
    n ∈ l.foldl (fun r o => r.filter (fun n => n ∉ f o)) r ↔ n ∈ r ∧ ∀ o ∈ l, n ∉ f o := by
  induction l generalizing r with
  | nil => simp
  | cons a t ih => rw [List.foldl_cons, ih]; simp [and_assoc]

/-- What `unmerge` does to any manager. -/
theorem unmergeWarn_ok {m : Csm N S D} (I : Inv m) : ∃ l lost m',
    unmergeWarn m = .ok (l, lost) m' ∧ unmerge m = .ok l m' ∧ List.Forall₂ (Returned m) m.subs l ∧
    Remaining m m' ∧
    ∀ n, n ∈ lost ↔ n ∈ m.names ∧ ¬ m.Kept n ∧ ∀ s ∈ m.subs, n ∉ s.members := by
  obtain ⟨ns, del, h1, I', hk, ⟨k, hl⟩, hdel⟩ := removeSubsystems_ok I
  obtain ⟨l, hs, hf⟩ := subsystems_ok I
  have hdat := removeSubsLoop_data _ _ _ _ _ hl
  have hR : List.Forall₂ (Returned m) m.subs l := by
    have : ∀ (a : List (SubInfo N)) (b : List (Csm N S D)), (∀ s ∈ a, s ∈ m.subs) →
        List.Forall₂ (fun sub o => ∃ ds, Dict.get? m.nodes sub.common = some ds ∧ o = m.part sub ds) a b →
        List.Forall₂ (Returned m) a b := by
      intro a b ha h
      induction h with
      | nil => exact .nil
      | cons h _ ih =>
        obtain ⟨ds, hds, rfl⟩ := h
        exact .cons (returned_part I (ha _ (by simp)) hds) (ih fun s hs => ha s (by simp [hs]))
    exact this _ _ (fun _ h => h) hf
  have hd : ∀ x, x ∈ m.names → (x ∉ del ↔ m.Kept x) := by
    intro x hx
    rw [hdel]
    simp only [Kept, hx, true_and]
    push Not
    refine forall₂_congr fun s _ => forall₂_congr fun y _ => forall_congr' fun _ => ?_
    rw [via_iff I hx]; tauto
  have hnm : ∀ n, n ∈ (({ m with nodes := ns, subs := [] } : Csm N S D).without del).names ↔ m.Kept n := by
    intro n
    rw [mem_names_without]
    show n ∈ Dict.keys ns ∧ _ ↔ _
    rw [hk]
    exact ⟨fun ⟨h1, h2⟩ => (hd n h1).1 h2, fun h => ⟨h.1, (hd n h.1).2 h⟩⟩
  refine ⟨l, l.foldl (fun rem o => rem.filter (fun n => n ∉ o.names)) (m.names.filter (fun n =>
      n ∉ (({ m with nodes := ns, subs := [] } : Csm N S D).without del).names)),
    ({ m with nodes := ns, subs := [] } : Csm N S D).without del, ?_, ?_, hR, ⟨rfl, rfl, rfl, rfl, hnm, fun a b x => ?_, fun n d v => ?_⟩, fun n => ?_⟩
  · simp only [unmergeWarn, Py.get_bind, hs, Py.lift_ok_bind]
    rw [Py.bind_ok h1]; rfl
  · simp only [unmerge, Py.get_bind, hs, Py.lift_ok_bind]
    rw [Py.bind_ok h1]; rfl
  · show _ ∈ m.edges.filter _ ↔ _
    simp only [List.mem_filter, decide_eq_true_eq]
    constructor
    · rintro ⟨h, ha, hb⟩
      obtain ⟨h1, h2, _⟩ := edge_mem I h
      exact ⟨(hd a h1).1 ha, (hd b h2).1 hb, h⟩
    · rintro ⟨ha, hb, h⟩
      exact ⟨h, (hd a ha.1).2 ha, (hd b hb.1).2 hb⟩
  · show (∃ ds, Dict.get? (ns.filter (fun e => e.1 ∉ del)) n = some ds ∧ _) ↔ _
    rw [Dict.get?_filter (p := fun x => x ∉ del), ← hdat n d v]
    show _ ↔ _ ∧ ∃ ds, Dict.get? ns n = some ds ∧ _
    constructor
    · rintro ⟨ds, h1, h2⟩
      split at h1
      · next h =>
        have hn : n ∈ m.names := by rw [← hk]; exact Dict.get?_isSome.1 ⟨ds, h1⟩
        exact ⟨(hd n hn).1 (by simpa using h), ds, h1, h2⟩
      · cases h1
    · rintro ⟨hK, ds, h1, h2⟩
      exact ⟨ds, by simp [(hd n hK.1).2 hK, h1], h2⟩
  · rw [mem_foldl_filter (fun o : Csm N S D => o.names)]
    simp only [List.mem_filter, decide_eq_true_eq, hnm, and_assoc]
    refine and_congr_right fun hn => and_congr_right fun _ => ?_
    constructor
    · intro h s hs hm
      obtain ⟨o, ho, R⟩ := forall₂_mem_right hR.flip hs
      exact h o ho ((R.systems n).2 hm)
    · intro h o ho hm
      obtain ⟨s, hs, R⟩ := forall₂_mem_right hR ho
      exact h s hs ((R.systems n).1 hm)

/-! ### statements -/

/-- **C97.** For every manager, whatever happened since the merges, `unmerge` succeeds; it returns one
manager for each recorded merge, with the systems that were merged and the relations and data they have
now; the manager keeps exactly the systems whose path to the root does not enter a merged manager; the
warning lists exactly the systems that are in none of the results. -/
theorem C97_unmerge {m : Csm N S D} (h : Reachable m) : ∃ l lost m',
    unmergeWarn m = .ok (l, lost) m' ∧ unmerge m = .ok l m' ∧ List.Forall₂ (Returned m) m.subs l ∧
    Remaining m m' ∧
    ∀ n, n ∈ lost ↔ n ∈ m.names ∧ n ∉ m'.names ∧ ∀ o ∈ l, n ∉ o.names := by
  obtain ⟨l, lost, m', h1, h2, h3, h4, h5⟩ := unmergeWarn_ok h.inv
  refine ⟨l, lost, m', h1, h2, h3, h4, fun n => ?_⟩
  rw [h5, h4.systems]
  refine and_congr_right fun _ => and_congr_right fun _ => ?_
  constructor
  · intro h o ho hm
    obtain ⟨s, hs, R⟩ := forall₂_mem_right h3 ho
    exact h s hs ((R.systems n).1 hm)
  · intro h s hs hm
    obtain ⟨o, ho, R⟩ := forall₂_mem_right h3.flip hs
    exact h o ho ((R.systems n).2 hm)

/-- **C97.** The root stays in the manager. -/
theorem C97_root {m : Csm N S D} (h : Reachable m) : m.Kept m.root := by
  have I := h.inv
  refine ⟨I.root_mem, fun s hs y hy ha ⟨p, hp, hyp⟩ => ?_⟩
  rw [hp.refl_eq, List.mem_singleton] at hyp
  subst hyp
  cases I.subs_ok s hs with
  | mk nd sb rm cm rc cn nested =>
    rw [← rc hy] at ha
    exact I.tree.irrefl _ ha

theorem via_parent {m : Csm N S D} (I : Inv m) {n p y : N} {rest : List N}
    (hp : SimplePath m.Adj n m.root (n :: p :: rest)) : m.Via n y ↔ y = n ∨ m.Via p y := by
  have hp' : SimplePath m.Adj p m.root (p :: rest) := by
    obtain ⟨w, hn⟩ := hp
    cases w with
    | cons h w =>
      have := w.head_eq
      obtain ⟨t, ht⟩ := this
      cases ht
      exact ⟨w, (List.nodup_cons.1 hn).2⟩
  constructor
  · rintro ⟨q, hq, hy⟩
    rw [I.tree.path_unique _ _ _ _ hq hp] at hy
    rcases List.mem_cons.1 hy with rfl | hy
    · exact .inl rfl
    · exact .inr ⟨_, hp', hy⟩
  · rintro (rfl | ⟨q, hq, hy⟩)
    · exact ⟨_, hp, by simp⟩
    · rw [I.tree.path_unique _ _ _ _ hq hp'] at hy
      exact ⟨_, hp, List.mem_cons_of_mem _ hy⟩

/-- **C97.** A system that was in none of the merged managers shares the fate of its parent: it stays
exactly if the parent stays. -/
theorem C97_parent {m : Csm N S D} (h : Reachable m) {n p : N} (hn : ∀ s ∈ m.subs, n ∉ s.members)
    (hp : m.getParent n = .ok (some p)) : m.Kept n ↔ m.Kept p := by
  have I := h.inv
  have C := C09_parent h n
  by_cases hr : n = m.root
  · rw [C.1 hr] at hp; cases hp
  by_cases hm : n ∈ m.names
  swap
  · rw [C.2.2 hm] at hp; cases hp
  obtain ⟨p', rest, h1, h2⟩ := C.2.1 hm hr
  rw [h1] at hp; cases hp
  have hpm : p ∈ m.names := walk_mem I h2.1 hm p (by simp)
  simp only [Kept, hm, hpm, true_and]
  refine forall₂_congr fun s hs => forall₂_congr fun y hy => forall_congr' fun _ => ?_
  rw [via_parent I h2, not_or]
  exact and_iff_right fun e => hn s hs (e ▸ hy)

/-- **C97.** So the warning lists exactly the systems in none of the merged managers whose parent is
listed or does not stay. -/
theorem C97_lost_parent {m : Csm N S D} (h : Reachable m) {n p : N} (hn : ∀ s ∈ m.subs, n ∉ s.members)
    (hp : m.getParent n = .ok (some p)) {l lost m'} (hu : unmergeWarn m = .ok (l, lost) m') :
    n ∈ lost ↔ p ∉ m'.names := by
  obtain ⟨l', lost', m'', h1, -, -, h4, h5⟩ := unmergeWarn_ok h.inv
  rw [h1] at hu; cases hu
  have hm : n ∈ m.names := by
    by_contra hm
    rw [(C09_parent h n).2.2 hm] at hp; cases hp
  rw [h5, h4.systems, C97_parent h hn hp]
  exact ⟨fun h => h.2.1, fun h => ⟨hm, h, hn⟩⟩

theorem via_mono {m m' : Csm N S D} (I : Inv m) (I' : Inv m') (hr : m'.root = m.root)
    (ha : ∀ a b, m.Adj a b → m'.Adj a b) {n y : N} (hn : n ∈ m.names) : m'.Via n y ↔ m.Via n y := by
  obtain ⟨p, hp⟩ := I.tree.exists_path n m.root hn I.root_mem
  have hp' : SimplePath m'.Adj n m'.root p := hr ▸ ⟨hp.1.mono fun a _ b _ h => ha a b h, hp.2⟩
  constructor
  · rintro ⟨q, hq, hy⟩
    rw [I'.tree.path_unique _ _ _ _ hq hp'] at hy
    exact ⟨p, hp, hy⟩
  · rintro ⟨q, hq, hy⟩
    rw [I.tree.path_unique _ _ _ _ hq hp] at hy
    exact ⟨p, hp', hy⟩

theorem via_mem {m : Csm N S D} (I : Inv m) {n y : N} (hn : n ∈ m.names) (h : m.Via n y) :
    y ∈ m.names := by
  obtain ⟨p, hp, hy⟩ := h
  exact walk_mem I hp.1 hn y hy

/-- **C97.** Adding a system below `ref` changes no fate, the records stay, and the new system stays
exactly if `ref` does and is returned with none of the merged managers. -/
theorem C97_add {m m' : Csm N S D} (h : Reachable m) {n ref : N} {s : S} {dir lsc : Bool}
    (hn : n ∉ m.names) (ha : addCs n ref s dir lsc m = .ok () m') :
    m'.subs = m.subs ∧ (∀ x ∈ m.names, m'.Kept x ↔ m.Kept x) ∧ (m'.Kept n ↔ m.Kept ref) ∧
    ∀ s ∈ m'.subs, n ∉ s.members := by
  have I := h.inv
  have h' : Reachable m' := by
    have := Reachable.addCs n ref s dir lsc h
    rwa [ha] at this
  have I' := h'.inv
  have hq : m'.root = m.root ∧ m'.names = m.names ++ [n] ∧ m'.subs = m.subs ∧
      ref ∈ m.names ∧ ∀ a b, m'.Adj a b ↔ m.Adj a b ∨ (a, b) = (n, ref) ∨ (a, b) = (ref, n) := by
    rcases addCs_cases I n ref s dir lsc with ⟨h, _⟩ | ⟨h, _⟩ | ⟨_, hadj, h⟩ | ⟨_, hn, hr, h⟩
    · rw [h] at ha; cases ha
    · rw [h] at ha; cases ha
    · exact absurd (I.tree.mem _ _ hadj) hn
    · rw [h] at ha; cases ha
      refine ⟨rfl, by simp [names], rfl, hr, fun a b => ?_⟩
      simp only [Adj, keys_linkEdges, addDir_keys]
  obtain ⟨hroot, hnames, hsubs, hr, hadj⟩ := hq
  have hmem : ∀ s ∈ m'.subs, n ∉ s.members := fun s hs hm =>
    hn ((I.subs_ok s (hsubs ▸ hs)).subset' n hm)
  have hsame : ∀ x ∈ m.names, m'.Kept x ↔ m.Kept x := by
    intro x hx
    have hx' : x ∈ m'.names := by simp [hnames, hx]
    simp only [Kept, hx, hx', true_and, hsubs]
    refine forall₂_congr fun s hs => forall₂_congr fun y hy => ?_
    rw [via_mono I I' hroot (fun a b h => (hadj a b).2 (.inl h)) hx]
    have hy' : y ≠ n := fun e => hmem s (hsubs ▸ hs) (e ▸ hy)
    have hc : s.common ≠ n := by
      intro e
      have hok := I.subs_ok s hs
      cases hok with
      | mk nd sb rm cm rc cn nested => exact hmem s (hsubs ▸ hs) (e ▸ cm)
    have : m'.Adj s.common y ↔ m.Adj s.common y := by
      rw [hadj]; simp [hy', hc]
    rw [this]
  refine ⟨hsubs, hsame, ?_, hmem⟩
  have hp : m'.getParent n = .ok (some ref) := by
    obtain ⟨par, ht, T⟩ := I'.tree.treeOn I'.root_mem
    have hnm : n ∈ m'.names := by simp [hnames]
    have hnr : n ≠ m'.root := by rw [hroot]; exact fun e => hn (e ▸ I.root_mem)
    rw [getParent_eq I' T hnm hnr]
    have := (hadj _ _).1 (T.adj_par hnm hnr)
    rcases this with h | h | h
    · exact absurd (I.tree.mem _ _ h) hn
    · cases h; rfl
    · simp at h; exact absurd (h.1 ▸ hr) hn
  rw [C97_parent h' hmem hp, hsame ref hr]

/-- same systems, links and records, so the same fate -/
theorem kept_congr {m m' : Csm N S D} (hr : m'.root = m.root) (hn : ∀ x, x ∈ m'.names ↔ x ∈ m.names)
    (ha : ∀ a b, m'.Adj a b ↔ m.Adj a b) (hs : m'.subs.map (fun s => (s.common, s.members)) =
      m.subs.map (fun s => (s.common, s.members))) (x : N) : m'.Kept x ↔ m.Kept x := by
  have hA : m'.Adj = m.Adj := by funext a b; exact propext (ha a b)
  have key : ∀ k : Csm N S D, k.Kept x ↔ x ∈ k.names ∧
      ∀ c ∈ k.subs.map (fun s => (s.common, s.members)), ∀ y ∈ c.2, k.Adj c.1 y →
        ¬ ∃ p, SimplePath k.Adj x k.root p ∧ y ∈ p := by
    intro k
    simp only [Kept, Via, List.mem_map, forall_exists_index, and_imp, forall_apply_eq_imp_iff₂]
  rw [key, key, hs, hn, hA, hr]

/-- **C97.** Replacing the relation of two neighbours changes no fate and no record. -/
theorem C97_update {m m' : Csm N S D} (h : Reachable m) {n ref : N} {s : S} {dir lsc : Bool}
    (hn : n ∈ m.names) (ha : addCs n ref s dir lsc m = .ok () m') :
    m'.subs = m.subs ∧ ∀ x, m'.Kept x ↔ m.Kept x := by
  rcases addCs_cases h.inv n ref s dir lsc with ⟨h, _⟩ | ⟨h, _⟩ | ⟨_, hadj, h'⟩ | ⟨_, hn', _⟩
  · rw [h] at ha; cases ha
  · rw [h] at ha; cases ha
  · rw [h'] at ha; cases ha
    refine ⟨rfl, kept_congr rfl (fun _ => Iff.rfl) (fun a b => ?_) rfl⟩
    simp only [Adj, keys_linkEdges, addDir_keys]
    constructor
    · rintro (h | h | h)
      · exact h
      · cases h; exact hadj
      · cases h; exact h.inv.tree.symm _ _ hadj
    · exact .inl
  · exact absurd hn hn'

/-- **C97.** Attaching data changes no fate and no record. -/
theorem C97_assign [Group L] (ev : S → Except CsmError L) (act : L → D → D) (m : Csm N S D)
    (data : D) (d ref : N) (target : Option N) :
    (assignData ev act data d ref target m).state.subs = m.subs ∧
    ∀ x, (assignData ev act data d ref target m).state.Kept x ↔ m.Kept x := by
  rcases assignData_cases ev act data d ref target m with ⟨e, h⟩ | ⟨cs, data', ds, hd, hcs, hds, hdat, h⟩
  · rw [h]; exact ⟨rfl, fun _ => Iff.rfl⟩
  · rw [h]
    refine ⟨rfl, kept_congr rfl (fun x => ?_) (fun _ _ => Iff.rfl) rfl⟩
    show x ∈ Dict.keys (Dict.set m.nodes cs _) ↔ _
    rw [Dict.keys_set_of_mem (Dict.get?_isSome.1 ⟨_, hds⟩)]; rfl

/-- **C97.** Deleting data changes no fate; the records only lose the name of the data. -/
theorem C97_delete_data {m : Csm N S D} (h : Reachable m) (d : N) :
    (deleteData d m).state.subs = m.subs.map (SubInfo.discard d) ∧
    ∀ x, (deleteData d m).state.Kept x ↔ m.Kept x := by
  have hd : ∀ s : SubInfo N, (SubInfo.discard d s).common = s.common ∧
      (SubInfo.discard d s).members = s.members := by rintro ⟨⟩; exact ⟨rfl, rfl⟩
  have hm : (m.subs.map (SubInfo.discard d)).map (fun s => (s.common, s.members)) =
      m.subs.map (fun s => (s.common, s.members)) := by
    rw [List.map_map]
    exact List.map_congr_left fun s _ => by simp [hd s]
  rcases deleteData_cases d h.inv with ⟨_, h2⟩ | ⟨cs, ds, hds, _, h2⟩
  · rw [h2]; exact ⟨rfl, kept_congr rfl (fun _ => Iff.rfl) (fun _ _ => Iff.rfl) hm⟩
  · rw [h2]
    refine ⟨rfl, kept_congr rfl (fun x => ?_) (fun _ _ => Iff.rfl) hm⟩
    show x ∈ Dict.keys (Dict.set m.nodes cs _) ↔ _
    rw [Dict.keys_set_of_mem (Dict.get?_isSome.1 ⟨_, hds⟩)]; rfl

/-- **C97.** Deleting systems drops no system that would have stayed, apart from the deleted ones. The
systems of a merged manager whose record is dropped can only become part of the manager itself; if no
record is dropped, no fate changes. -/
theorem C97_delete {m : Csm N S D} (h : Reachable m) (n : N) (b : Bool) :
    (∀ x ∈ (deleteCs n b m).state.names, m.Kept x → (deleteCs n b m).state.Kept x) ∧
    ((deleteCs n b m).state.subs = m.subs → ∀ x ∈ (deleteCs n b m).state.names,
      (m.Kept x ↔ (deleteCs n b m).state.Kept x)) := by
  have I := h.inv
  have I' := (Reachable.deleteCs n b h).inv
  rcases deleteCs_cases I n b with ⟨_, h1⟩ | ⟨_, h1⟩ | ⟨_, _, _, _, h1⟩ | ⟨_, _, _, del, rem, hdel, _, h1⟩
  · rw [h1]; exact ⟨fun _ _ h => h, fun _ _ _ => Iff.rfl⟩
  · rw [h1]; exact ⟨fun _ _ h => h, fun _ _ _ => Iff.rfl⟩
  · rw [h1]; exact ⟨fun _ _ h => h, fun _ _ _ => Iff.rfl⟩
  rw [h1] at I' ⊢
  simp only [Res.state_ok] at I' ⊢
  generalize hm' : ({ m.without del with subs := m.subs.filter (fun s => s.name ∉ rem) } : Csm N S D)
    = m' at I' ⊢
  have hroot : m.root = m'.root := by rw [← hm']; rfl
  have hsub : ∀ s ∈ m'.subs, s ∈ m.subs := by rw [← hm']; exact fun s hs => (List.mem_filter.1 hs).1
  have hnm : ∀ x, x ∈ m'.names ↔ x ∈ m.names ∧ x ∉ del := by
    rw [← hm']; exact fun x => mem_names_without
  have hadj : ∀ a b, m'.Adj a b ↔ m.Adj a b ∧ a ∉ del ∧ b ∉ del := by
    rw [← hm']; exact fun a b => adj_without
  have key : ∀ x ∈ m'.names, m'.Kept x ↔
      ∀ s ∈ m'.subs, ∀ y ∈ s.members, m.Adj s.common y → ¬ m.Via x y := by
    intro x hx
    simp only [Kept, hx, true_and]
    refine forall₂_congr fun s hs => forall₂_congr fun y hy => ?_
    rw [via_mono I' I hroot (fun a b h => ((hadj a b).1 h).1) hx]
    have hy' := ((hnm y).1 ((I'.subs_ok s hs).subset' y hy)).2
    have hc : s.common ∉ del := by
      have hok := I'.subs_ok s hs
      cases hok with
      | mk nd sb rm cm rc cn nested => exact ((hnm _).1 (sb _ cm)).2
    rw [hadj]; simp [hy', hc]
  refine ⟨fun x hx hk => (key x hx).2 fun s hs => hk.2 s (hsub s hs), fun e x hx => ?_⟩
  have e' : m'.subs = m.subs := by rw [← hm']; exact e
  rw [key x hx, e']
  exact and_iff_right ((hnm x).1 hx).1

/-- **C97.** Merging another manager changes no fate of the present systems; its other systems do not
stay. -/
theorem C97_merge {m o m' : Csm N S D} (hm : Reachable m) (ho : Reachable o)
    (h : merge o m = .ok () m') : (∀ x ∈ m.names, m'.Kept x ↔ m.Kept x) ∧
    ∀ x ∈ o.names, x ∉ m.names → x ∈ m'.names ∧ ¬ m'.Kept x := by
  have I := hm.inv
  have J := ho.inv
  have I' : Inv m' := by
    have := (Reachable.merge hm ho).inv
    rwa [h] at this
  obtain ⟨c, M⟩ := merge_effect I J h
  have hadj : ∀ a b, m'.Adj a b ↔ m.Adj a b ∨ o.Adj a b := by
    intro a b
    constructor
    · intro h
      obtain ⟨e, he⟩ := Dict.mem_keys_iff.1 h
      rcases (M.edges a b e).1 he with he | he
      · exact .inl (Dict.mem_keys_of_mem he)
      · exact .inr (Dict.mem_keys_of_mem he)
    · rintro (h | h)
      · obtain ⟨e, he⟩ := Dict.mem_keys_iff.1 h
        exact Dict.mem_keys_of_mem ((M.edges a b e).2 (.inl he))
      · obtain ⟨e, he⟩ := Dict.mem_keys_iff.1 h
        exact Dict.mem_keys_of_mem ((M.edges a b e).2 (.inr he))
  constructor
  · intro x hx
    have hx' := (M.systems x).2 (.inl hx)
    simp only [Kept, hx, hx', true_and, M.subs, List.mem_append, List.mem_singleton]
    have hvia : ∀ y, m'.Via x y ↔ m.Via x y := fun y =>
      via_mono I I' M.root (fun a b h => (hadj a b).2 (.inl h)) hx
    constructor
    · intro H s hs y hy ha hv
      exact H s (.inl hs) y hy ((hadj _ _).2 (.inl ha)) ((hvia y).2 hv)
    · rintro H s (hs | rfl) y hy ha hv
      · rcases (hadj _ _).1 ha with ha | ha
        · exact H s hs y hy ha ((hvia y).1 hv)
        · have h1 : s.common ∈ m.names := by
            have hok := I.subs_ok s hs
            cases hok with
            | mk nd sb rm cm rc cn nested => exact sb _ cm
          have h2 := M.only_common _ h1 (J.tree.mem _ _ ha)
          have h3 := M.only_common _ ((I.subs_ok s hs).subset' y hy) (J.tree.mem_right _ _ ha)
          rw [h2, h3] at ha
          exact J.tree.irrefl _ ha
      · have hym := via_mem I hx ((hvia y).1 hv)
        have h3 := M.only_common _ hym hy
        rw [h3] at ha
        exact I'.tree.irrefl _ ha
  · intro x hx hxm
    have hx' := (M.systems x).2 (.inr hx)
    refine ⟨hx', fun hk => ?_⟩
    obtain ⟨p, hp⟩ := I'.tree.exists_path x m'.root hx' I'.root_mem
    obtain ⟨u, hu, v, hv, hu0, hv0, huv⟩ := walk_enter (P := fun x => x ∈ m.names) hp.1 hxm
      (M.root ▸ I.root_mem)
    rcases (hadj u v).1 huv with huv' | huv'
    · exact hu0 (I.tree.mem _ _ huv')
    · have hvc := M.only_common v hv0 (J.tree.mem_right _ _ huv')
      refine hk.2 (.mk o.name o.root c o.refTime o.names o.dataNames o.subs)
        (by rw [M.subs]; exact List.mem_append_right _ (List.mem_singleton.2 rfl)) u
        (J.tree.mem _ _ huv') ?_ ⟨p, hp, hu⟩
      show m'.Adj c u
      rw [← hvc]; exact I'.tree.symm _ _ huv

/-- **C97.** A system added below a system that came with the merged manager is in none of the results
of `unmerge`, which says so in its warning. -/
theorem C97_added_lost {m o m₁ m₂ : Csm N S D} (hm : Reachable m) (ho : Reachable o)
    (h₁ : merge o m = .ok () m₁) {n ref : N} {s : S} {dir lsc : Bool} (hn : n ∉ m₁.names)
    (hr : ref ∈ o.names) (hr' : ref ∉ m.names) (h₂ : addCs n ref s dir lsc m₁ = .ok () m₂) :
    ∃ l lost m₃, unmergeWarn m₂ = .ok (l, lost) m₃ ∧ n ∈ lost ∧ n ∉ m₃.names ∧ ∀ o ∈ l, n ∉ o.names := by
  have r₁ : Reachable m₁ := by
    have := Reachable.merge hm ho
    rwa [h₁] at this
  have r₂ : Reachable m₂ := by
    have := Reachable.addCs n ref s dir lsc r₁
    rwa [h₂] at this
  obtain ⟨hs, hk, hkn, hmem⟩ := C97_add r₁ hn h₂
  obtain ⟨l, lost, m₃, h3, -, h5, h6, h7⟩ := C97_unmerge r₂
  have hnot : ¬ m₂.Kept n := by rw [hkn]; exact ((C97_merge hm ho h₁).2 ref hr hr').2
  have a : n ∉ m₃.names := by rw [h6.systems]; exact hnot
  have b : ∀ o ∈ l, n ∉ o.names := by
    intro o ho hno
    obtain ⟨s, hs, R⟩ := forall₂_mem_right h5 ho
    exact hmem s hs ((R.systems n).1 hno)
  have c : n ∈ m₂.names := by
    rcases addCs_cases r₁.inv n ref s dir lsc with ⟨h, _⟩ | ⟨h, _⟩ | ⟨_, hadj, h⟩ | ⟨_, _, _, h⟩
    · rw [h] at h₂; cases h₂
    · rw [h] at h₂; cases h₂
    · exact absurd (r₁.inv.tree.mem _ _ hadj) hn
    · rw [h] at h₂; cases h₂; simp [names]
  exact ⟨l, lost, m₃, h3, (h7 n).2 ⟨c, a, b⟩, a, b⟩

/-- **C97.** A system added below a system that was there before the merge (in particular below the
merge point) stays in the manager, together with its relation, and is returned with no other. -/
theorem C97_added_kept {m o m₁ m₂ : Csm N S D} (hm : Reachable m) (ho : Reachable o)
    (h₁ : merge o m = .ok () m₁) {n ref : N} {s : S} {dir lsc : Bool} (hn : n ∉ m₁.names)
    (hr : m.Kept ref) (h₂ : addCs n ref s dir lsc m₁ = .ok () m₂) :
    ∃ l lost m₃, unmergeWarn m₂ = .ok (l, lost) m₃ ∧ n ∉ lost ∧ n ∈ m₃.names ∧
      (∀ x, m₃.Supplied n ref x ↔ m₂.Supplied n ref x) ∧
      (∀ x, m₃.Supplied ref n x ↔ m₂.Supplied ref n x) ∧ ∀ o ∈ l, n ∉ o.names := by
  have r₁ : Reachable m₁ := by
    have := Reachable.merge hm ho
    rwa [h₁] at this
  have r₂ : Reachable m₂ := by
    have := Reachable.addCs n ref s dir lsc r₁
    rwa [h₂] at this
  obtain ⟨hs, hk, hkn, hmem⟩ := C97_add r₁ hn h₂
  obtain ⟨l, lost, m₃, h3, -, h5, h6, h7⟩ := C97_unmerge r₂
  have hr₁ : m₁.Kept ref := ((C97_merge hm ho h₁).1 ref hr.1).2 hr
  have hr₂ : m₂.Kept ref := (hk ref hr₁.1).2 hr₁
  have hn₂ : m₂.Kept n := hkn.2 hr₁
  have a : n ∈ m₃.names := (h6.systems n).2 hn₂
  refine ⟨l, lost, m₃, h3, fun hl => ((h7 n).1 hl).2.1 a, a, fun x => ?_, fun x => ?_, ?_⟩
  · rw [h6.relations]; tauto
  · rw [h6.relations]; tauto
  · intro o ho hno
    obtain ⟨s, hs, R⟩ := forall₂_mem_right h5 ho
    exact hmem s hs ((R.systems n).1 hno)

/-- **C97.** The data that is in one of the results: that of the systems that stay, and that of the
merged systems, where a merge point only brings the data it was merged with. -/
theorem C97_data {m : Csm N S D} (h : Reachable m) {l m'} (hu : unmerge m = .ok l m') (n d : N) (v : D) :
    (m'.StoredAt n d v ∨ ∃ o ∈ l, o.StoredAt n d v) ↔ m.StoredAt n d v ∧
      (m.Kept n ∨ ∃ s ∈ m.subs, n ∈ s.members ∧ (n = s.common → d ∈ s.data)) := by
  obtain ⟨l', lost, m'', -, h2, h3, h4, -⟩ := C97_unmerge h
  rw [h2] at hu; cases hu
  constructor
  · rintro (h | ⟨o, ho, h⟩)
    · have := (h4.data n d v).1 h
      exact ⟨this.2.1, .inl this.1⟩
    · obtain ⟨s, hs, R⟩ := forall₂_mem_right h3 ho
      have := (R.data n d v).1 h
      exact ⟨this.2.1, .inr ⟨s, hs, this.1, this.2.2⟩⟩
  · have hret : ∀ s ∈ m.subs, n ∈ s.members → (n = s.common → d ∈ s.data) → m.StoredAt n d v →
        ∃ o ∈ l, o.StoredAt n d v := by
      intro s hs hm hd hv
      obtain ⟨o, ho, R⟩ := forall₂_mem_right h3.flip hs
      exact ⟨o, ho, (R.data n d v).2 ⟨hm, hv, hd⟩⟩
    rintro ⟨hv, hk | ⟨s, hs, hm, hd⟩⟩
    · by_cases hc : ∃ s ∈ m.subs, s.common = n ∧ d ∈ s.data
      · obtain ⟨s, hs, rfl, hd⟩ := hc
        refine .inr (hret s hs ?_ (fun _ => hd) hv)
        have hok := h.inv.subs_ok s hs
        cases hok; assumption
      · exact .inl ((h4.data n d v).2 ⟨hk, hv, hc⟩)
    · exact .inr (hret s hs hm hd hv)

/-! ### the docstring -/

/-- manager `1 - 2` -/
def lostB : Csm ℕ Unit Unit := (addCs 2 1 () true true (init 1 102 none)).state
/-- `0 - 1` with `1 - 2` merged, then `3` added below `2` and `4` below the merge point `1` -/
def lostM : Csm ℕ Unit Unit :=
  (addCs 4 1 () true true (addCs 3 2 () true true (merge lostB leakA).state).state).state

theorem lostM_reachable : Reachable lostM :=
  .addCs _ _ _ _ _ (.addCs _ _ _ _ _ (.merge (.addCs _ _ _ _ _ (.init _ _ _))
    (.addCs _ _ _ _ _ (.init _ _ _))))

/-- **C97, counterexample.** The docstring of `unmerge` says that systems added after a merge are not
lost. They are if their parent came with the merged manager. -/
theorem C97_docstring_counterexample : ∃ m : Csm ℕ Unit Unit, Reachable m ∧ ∃ l lost m',
    unmergeWarn m = .ok (l, lost) m' ∧ lost = [3] ∧ m'.names = [0, 1, 4] ∧
    l.map (·.names) = [[1, 2]] :=
  ⟨lostM, lostM_reachable, _, _, _, rfl, rfl, rfl, rfl⟩

/-- `0 - 1` with `1 - 2` merged, then `3` added below `2`, with data `10`, and `3 - 5` merged at `3` -/
def silentM : Csm ℕ Unit Unit :=
  (merge (addCs 5 3 () true true (init 3 103 none)).state
    (assignData unitEv (fun _ d => d) () 10 3 none
      (addCs 3 2 () true true (merge lostB leakA).state).state).state).state

theorem silentM_reachable : Reachable silentM :=
  .merge (.assignData _ _ _ _ _ _ (.addCs _ _ _ _ _ (.merge (.addCs _ _ _ _ _ (.init _ _ _))
    (.addCs _ _ _ _ _ (.init _ _ _))))) (.addCs _ _ _ _ _ (.init _ _ _))

/-- **C97, counterexample.** Data can be lost without a warning: the added system `3` is a merge point
itself, so it is returned with the manager merged there, but its own data and its relation to its parent
are in none of the results. -/
theorem C97_silent_counterexample : ∃ m : Csm ℕ Unit Unit, Reachable m ∧ m.StoredAt 3 10 () ∧
    m.Supplied 3 2 () ∧ ∃ l m', unmergeWarn m = .ok (l, []) m' ∧ m'.dataNames = [] ∧
    m'.names = [0, 1] ∧ l.map (·.dataNames) = [[], []] ∧ l.map (·.names) = [[1, 2], [3, 5]] :=
  ⟨silentM, silentM_reachable, ⟨_, rfl, rfl⟩, Dict.mem_of_get? rfl, _, _, rfl, rfl, rfl, rfl, rfl⟩

example : ∃ m₁ m₂, Reachable leakA ∧ Reachable lostB ∧ merge lostB leakA = .ok () m₁ ∧ 3 ∉ m₁.names ∧
    2 ∈ lostB.names ∧ 2 ∉ leakA.names ∧ addCs 3 2 () true true m₁ = .ok () m₂ :=
  ⟨_, _, .addCs _ _ _ _ _ (.init _ _ _), .addCs _ _ _ _ _ (.init _ _ _), rfl, by decide, by decide,
    by decide, rfl⟩

example : leakA.Kept 1 := ⟨by decide, fun s hs => by cases hs⟩

example : (∀ s ∈ lostM.subs, 3 ∉ s.members) ∧ lostM.getParent 3 = .ok (some 2) ∧
    lostM.getParent 4 = .ok (some 1) := by
  refine ⟨fun s hs => ?_, by rfl, by rfl⟩
  rcases List.mem_singleton.1 (show s ∈ [_] from hs) with rfl
  decide

end Weldx.Csm
