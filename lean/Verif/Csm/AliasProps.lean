import Verif.Csm.Alias

/-!
# C19: what two managers share after a merge
-/

set_option linter.unusedSectionVars false

namespace Weldx.Csm
variable {N S D : Type} [DecidableEq N] [LcsLike S]

/-! ### Maps over the values of a dictionary -/

theorem keys_mapVal {K A B : Type} (f : A → B) (d : List (K × A)) : Dict.keys (d.map fun x => (x.1, f x.2)) = Dict.keys d := by
  simp [Dict.keys, Function.comp_def]

theorem get?_mapVal {K A B : Type} [DecidableEq K] (f : A → B) (d : List (K × A)) (k : K) :
    Dict.get? (d.map fun x => (x.1, f x.2)) k = (Dict.get? d k).map f := by
  induction d with
  | nil => rfl
  | cons e d ih =>
    obtain ⟨a, v⟩ := e
    by_cases h : a = k
    · simp [Dict.get?, h]
    · simp [Dict.get?, h, ih]

theorem set_mapVal {K A B : Type} [DecidableEq K] (f : A → B) (d : List (K × A)) (k : K) (v : A) :
    (Dict.set d k v).map (fun x => (x.1, f x.2)) = Dict.set (d.map fun x => (x.1, f x.2)) k (f v) := by
  induction d with
  | nil => rfl
  | cons e d ih =>
    obtain ⟨a, w⟩ := e
    by_cases h : a = k
    · simp [Dict.set, h]
    · simp [Dict.set, h, ih]

theorem update_mapVal {K A B : Type} [DecidableEq K] (f : A → B) (d e : List (K × A)) :
    (Dict.update d e).map (fun x => (x.1, f x.2)) = Dict.update (d.map fun x => (x.1, f x.2)) (e.map fun x => (x.1, f x.2)) := by
  induction e generalizing d with
  | nil => rfl
  | cons x e ih =>
    have := ih (Dict.set d x.1 x.2)
    simp only [Dict.update, List.foldl_cons, List.map_cons] at this ⊢
    rw [this, set_mapVal]

theorem filter_eq_of_nodup {l : List N} {c : N} (hl : l.Nodup) (hc : c ∈ l) : l.filter (fun n => n = c) = [c] := by
  induction l with
  | nil => simp at hc
  | cons a l ih =>
    rw [List.nodup_cons] at hl
    by_cases h : a = c
    · have : l.filter (fun n => n = c) = [] := by
        rw [List.filter_eq_nil_iff]
        intro x hx e
        exact hl.1 (by rw [h, ← of_decide_eq_true e]; exact hx)
      simp [h, this]
    · simp only [List.mem_cons] at hc
      simp [h, ih hl.2 (hc.resolve_left fun e => h e.symm)]

theorem nodup_loc_inj {K : Type} {d : List (K × Nat)} (hd : (d.map Prod.snd).Nodup) {a b : K} {l : Nat} (h1 : (a, l) ∈ d)
    (h2 : (b, l) ∈ d) : a = b := by
  have := List.inj_on_of_nodup_map hd h1 h2 rfl
  exact congrArg Prod.fst this

theorem not_nodup_flatMap {A B : Type} (f : A → List B) {l : List A} {a b : A} {x : B} (ha : a ∈ l) (hb : b ∈ l) (hab : a ≠ b)
    (hxa : x ∈ f a) (hxb : x ∈ f b) : ¬ (l.flatMap f).Nodup := by
  intro h
  rw [List.nodup_flatMap] at h
  obtain ⟨i, hi, rfl⟩ := List.getElem_of_mem ha
  obtain ⟨j, hj, rfl⟩ := List.getElem_of_mem hb
  rcases Nat.lt_trichotomy i j with hij | rfl | hij
  · exact List.pairwise_iff_getElem.mp h.2 i j hi hj hij hxa hxb
  · exact hab rfl
  · exact List.pairwise_iff_getElem.mp h.2 j i hj hi hij hxb hxa

/-! ### Views -/

@[simp] theorem put_self {A : Type} (f : Nat → A) (l : Nat) (v : A) : put f l v l = v := by simp [put]

theorem put_ne {A : Type} (f : Nat → A) {l x : Nat} (v : A) (h : x ≠ l) : put f l v x = f x := by simp [put, h]

@[simp] theorem view_names (h : Heap N D) (m : HCsm N S) : (h.view m).names = m.names := keys_mapVal _ _

theorem view_get? (h : Heap N D) (m : HCsm N S) (n : N) : Dict.get? (h.view m).nodes n = (Dict.get? m.nodes n).map h.dict :=
  get?_mapVal _ _ _

/-- the data of one system, as seen through a manager -/
def Heap.dataAt (h : Heap N D) (m : HCsm N S) (n : N) : Option (List (N × D)) := Dict.get? (h.view m).nodes n

/-- Views depend on the objects of the manager only. -/
theorem view_congr {h h' : Heap N D} {m : HCsm N S} (hd : ∀ x ∈ m.nodes, h'.dict x.2 = h.dict x.2)
    (hl : h'.list m.subs = h.list m.subs) (hi : ∀ i ∈ h.list m.subs, h'.info i = h.info i) : h'.view m = h.view m := by
  have h1 : m.nodes.map (fun x => (x.1, h'.dict x.2)) = m.nodes.map (fun x => (x.1, h.dict x.2)) :=
    List.map_congr_left fun x hx => by rw [hd x hx]
  have h2 : (h'.list m.subs).map (fun i => (h'.info i).value) = (h.list m.subs).map (fun i => (h.info i).value) := by
    rw [hl]; exact List.map_congr_left fun i hi' => by rw [hi i hi']
  simp only [Heap.view, h1, h2]

/-- Same dictionary, same data: whatever happens. -/
theorem dataAt_congr {m o : HCsm N S} {n : N} (h : Dict.get? m.nodes n = Dict.get? o.nodes n) (hp : Heap N D) :
    hp.dataAt m n = hp.dataAt o n := by
  simp only [Heap.dataAt, view_get?, h]

/-! ### Merging -/

/-- The only common system. -/
def OnlyCommon (c : N) (m o : HCsm N S) : Prop := c ∈ m.names ∧ c ∈ o.names ∧ ∀ x, x ∈ m.names → x ∈ o.names → x = c

theorem hMerge_cases {o : HCsm N S} {h h' : Heap N D} {m m' : HCsm N S} (hm : m.names.Nodup) (hr : hMerge o (h, m) = .ok () (h', m')) :
    ∃ c lm lo p, OnlyCommon c m o ∧ (∀ d ∈ (h.view o).dataNames, d ∉ (h.view m).dataNames) ∧
      Dict.get? m.nodes c = some lm ∧ Dict.get? o.nodes c = some lo ∧ merge (h.view o) (h.view m) = .ok () p ∧
      p.nodes = Dict.set (Dict.update (h.view m).nodes (h.view o).nodes) c (Dict.update (h.dict lm) (h.dict lo)) ∧
      p.edges = Dict.update m.edges o.edges ∧ p.root = m.root ∧
      h' = { dict := put h.dict h.next (Dict.update (h.dict lm) (h.dict lo))
             info := put h.info h.next ⟨o.name, o.root, c, o.refTime, o.names, (h.view o).dataNames, o.subs⟩
             list := put h.list m.subs (h.list m.subs ++ [h.next])
             next := h.next + 1 } ∧
      m' = { m with nodes := Dict.set (Dict.update m.nodes o.nodes) c h.next, edges := Dict.update m.edges o.edges } := by
  rcases merge_cases (h.view m) (h.view o) with ⟨e, he⟩ | ⟨c, dm, dn, -, hc1, hc2, hc3, hdat, hg1, hg2, hp⟩
  · rw [hMerge, he] at hr; cases hr
  · rw [view_names] at hc1 hc2
    simp only [view_names] at hc3
    obtain ⟨lm, hlm⟩ := Dict.get?_isSome.mpr (show c ∈ Dict.keys m.nodes from hc1)
    obtain ⟨lo, hlo⟩ := Dict.get?_isSome.mpr (show c ∈ Dict.keys o.nodes from hc2)
    have hf : m.names.filter (fun n => n ∈ o.names) = [c] := by
      have h1 : m.names.filter (fun n => n ∈ o.names) = m.names.filter (fun n => n = c) := by
        refine List.filter_congr fun x hx => ?_
        by_cases hxc : x = c
        · simp [hxc, hc2]
        · have : x ∉ o.names := fun hxo => hxc (hc3 x hx hxo)
          simp [hxc, this]
      rw [h1]
      exact filter_eq_of_nodup hm hc1
    rw [view_get?, hlm] at hg1
    rw [view_get?, hlo] at hg2
    simp only [Option.map_some, Option.some.injEq] at hg1 hg2
    subst hg1; subst hg2
    simp only [hMerge, hp, hf, hlm, hlo, Res.ok.injEq, Prod.mk.injEq, true_and] at hr
    exact ⟨c, lm, lo, _, ⟨hc1, hc2, hc3⟩, hdat, hlm, hlo, hp, rfl, rfl, rfl, hr.1.symm, hr.2.symm⟩

/-- Which dictionary each system of the merged manager refers to. -/
theorem merge_loc {m o : HCsm N S} (ho : o.names.Nodup) {c : N} {l : Nat} (n : N) :
    Dict.get? (Dict.set (Dict.update m.nodes o.nodes) c l) n =
      if n = c then some l else if n ∈ o.names then Dict.get? o.nodes n else Dict.get? m.nodes n := by
  rw [Dict.get?_set]
  by_cases hn : n = c
  · simp [hn]
  · simp only [hn, if_false]
    rw [Dict.get?_update ho]
    by_cases ho' : n ∈ o.names
    · obtain ⟨v, hv⟩ := Dict.get?_isSome.mpr (show n ∈ Dict.keys o.nodes from ho')
      simp [ho', hv]
    · have : Dict.get? o.nodes n = none := Dict.get?_eq_none.mpr ho'
      simp [ho', this]

/-- **Merging, as seen from outside**: the merged manager shows what the merge of the contents gives, the other one is unchanged. -/
theorem C19_merge {h h' : Heap N D} {m m' o : HCsm N S} (hm : HOk h m) (ho : HOk h o) (ha : Apart h m o)
    (hr : hMerge o (h, m) = .ok () (h', m')) :
    (∃ p, merge (h.view o) (h.view m) = .ok () p ∧ (h'.view m').nodes = p.nodes ∧ (h'.view m').edges = p.edges ∧
      (h'.view m').root = p.root) ∧ h'.view o = h.view o := by
  obtain ⟨c, lm, lo, p, -, -, -, -, hp, hpn, hpe, hpr, rfl, rfl⟩ := hMerge_cases hm.names hr
  refine ⟨⟨p, hp, ?_, hpe.symm, hpr.symm⟩, ?_⟩
  · have hv : ∀ (l : List (N × Nat)), (∀ x ∈ l, x.2 < h.next) →
        l.map (fun x => (x.1, put h.dict h.next (Dict.update (h.dict lm) (h.dict lo)) x.2)) = l.map (fun x => (x.1, h.dict x.2)) :=
      fun l hl => List.map_congr_left fun x hx => by rw [put_ne _ _ (Nat.ne_of_lt (hl x hx))]
    rw [hpn]
    simp only [Heap.view]
    rw [set_mapVal, update_mapVal, hv _ hm.used, hv _ ho.used, put_self]
  · refine view_congr (fun x hx => put_ne _ _ (Nat.ne_of_lt (ho.used x hx))) (put_ne _ _ fun e => ha.lists e.symm) fun i hi => ?_
    exact put_ne _ _ (Nat.ne_of_lt (ho.infos i hi))

/-- **C19.** The record of the merged-in manager has its name, root, reference time, systems and data, and the common system. -/
theorem C19_new_record {h h' : Heap N D} {m m' o : HCsm N S} (hm : HOk h m)
    (hr : hMerge o (h, m) = .ok () (h', m')) {c : N} (hc : OnlyCommon c m o) :
    ∃ s, (h'.view m').subs = (h.view m).subs ++ [s] ∧ s.name = o.name ∧ s.root = o.root ∧ s.common = c ∧ s.timeRef = o.refTime ∧
      s.members = o.names ∧ s.data = (h.view o).dataNames := by
  obtain ⟨c', lm, lo, p, hc', -, -, -, -, -, -, -, rfl, rfl⟩ := hMerge_cases hm.names hr
  have : c' = c := hc.2.2 c' hc'.1 hc'.2.1
  subst this
  refine ⟨.mk o.name o.root c' o.refTime o.names (h.view o).dataNames [], ?_, rfl, rfl, rfl, rfl, rfl, rfl⟩
  simp only [Heap.view, put_self, List.map_append, List.map_cons, List.map_nil]
  congr 1
  · exact List.map_congr_left fun i hi => by rw [put_ne _ _ (Nat.ne_of_lt (hm.infos i hi))]

/-- **C19, negation in general**: every system of the merged-in manager but the common one has one dictionary for both managers. Whatever
both of them do with their data afterwards, each shows what the other one shows. -/
theorem C19_shared {h h' h'' : Heap N D} {m m' o : HCsm N S} (hm : HOk h m) (ho : HOk h o)
    (hr : hMerge o (h, m) = .ok () (h', m')) (_ : DataOps m' o h' h'') {c n : N} (hc : OnlyCommon c m o) (hn : n ∈ o.names)
    (hnc : n ≠ c) : h''.dataAt m' n = h''.dataAt o n := by
  obtain ⟨c', lm, lo, p, hc', -, -, -, -, -, -, -, rfl, rfl⟩ := hMerge_cases hm.names hr
  have : c' = c := hc.2.2 c' hc'.1 hc'.2.1
  subst this
  refine dataAt_congr ?_ _
  simp only [merge_loc ho.names, hnc, hn, if_true, if_false]

/-! ### Data operations -/

theorem hAssign_ok {h : Heap N D} {m : HCsm N S} {v : D} {d n : N} (hd : d ∉ (h.view m).dataNames) (hn : n ∈ m.names) :
    ∃ l, Dict.get? m.nodes n = some l ∧
      hAssign v d n (h, m) = .ok () ({ h with dict := put h.dict l (Dict.set (h.dict l) d v) }, m) := by
  obtain ⟨l, hl⟩ := Dict.get?_isSome.mpr (show n ∈ Dict.keys m.nodes from hn)
  exact ⟨l, hl, by simp only [hAssign, hd, hl, if_false]⟩

/-- Data operations change dictionaries of the manager only. -/
theorem DataOp.dict {m : HCsm N S} {h h' : Heap N D} (op : DataOp m h h') {l : Nat} (hl : ∀ x ∈ m.nodes, x.2 ≠ l) :
    h'.dict l = h.dict l := by
  cases op with
  | assign v d ref =>
    simp only [hAssign]
    split
    · rfl
    · split
      · rfl
      · rename_i l' hl'
        exact put_ne _ _ fun e => hl _ (Dict.mem_of_get? hl') e.symm
  | delete d =>
    simp only [hDeleteData]
    split
    · rfl
    · rename_i n l' hl'
      exact put_ne _ _ fun e => hl _ (List.mem_of_find?_eq_some hl') e.symm

/-- A history of data operations of one manager -/
abbrev OwnOps (m : HCsm N S) : Heap N D → Heap N D → Prop := DataOps m m

theorem OwnOps.dict {m : HCsm N S} {h h' : Heap N D} (ops : OwnOps m h h') {l : Nat} (hl : ∀ x ∈ m.nodes, x.2 ≠ l) :
    h'.dict l = h.dict l := by
  induction ops with
  | refl => rfl
  | left _ op ih => rw [op.dict hl, ih]
  | right _ op ih => rw [op.dict hl, ih]

/-- **What stays apart**: the data that `o` assigns and deletes never changes the data of the merged manager at the common system or at
systems that `o` does not have; the data operations of the merged manager never change what `o` has at the common system. -/
theorem C19_apart {h h' : Heap N D} {m m' o : HCsm N S} (hm : HOk h m) (ho : HOk h o) (ha : Apart h m o)
    (hr : hMerge o (h, m) = .ok () (h', m')) {c : N} (hc : OnlyCommon c m o) :
    (∀ h'' n, OwnOps o h' h'' → n = c ∨ n ∉ o.names → h''.dataAt m' n = h'.dataAt m' n) ∧
      ∀ h'', OwnOps m' h' h'' → h''.dataAt o c = h'.dataAt o c := by
  obtain ⟨c', lm, lo, p, hc', -, hlm, hlo, -, -, -, -, rfl, rfl⟩ := hMerge_cases hm.names hr
  have : c' = c := hc.2.2 c' hc'.1 hc'.2.1
  subst this
  refine ⟨fun h'' n ops hn => ?_, fun h'' ops => ?_⟩
  · simp only [Heap.dataAt, view_get?, merge_loc ho.names]
    by_cases hnc : n = c'
    · simp only [hnc, if_true, Option.map_some]
      rw [ops.dict fun x hx => Nat.ne_of_lt (ho.used x hx)]
    · have hno : n ∉ o.names := hn.resolve_left hnc
      simp only [hnc, hno, if_false]
      cases hg : Dict.get? m.nodes n with
      | none => rfl
      | some l =>
        simp only [Option.map_some]
        rw [ops.dict fun x hx e => ha.dicts _ (Dict.mem_of_get? hg) x hx e.symm]
  · simp only [Heap.dataAt, view_get?, hlo, Option.map_some]
    rw [ops.dict]
    rintro ⟨x, l⟩ hx rfl
    have hnd : (Dict.keys (Dict.set (Dict.update m.nodes o.nodes) c' h.next)).Nodup :=
      Dict.nodup_keys_set (Dict.nodup_keys_update hm.names)
    have hg := Dict.get?_of_mem hnd hx
    rw [merge_loc ho.names] at hg
    by_cases hxc : x = c'
    · simp only [hxc, if_true, Option.some.injEq] at hg
      exact absurd hg.symm (Nat.ne_of_lt (ho.used _ (Dict.mem_of_get? hlo)))
    · simp only [hxc, if_false] at hg
      by_cases hxo : x ∈ o.names
      · simp only [hxo, if_true] at hg
        exact hxc (nodup_loc_inj ho.locs (Dict.mem_of_get? hg) (Dict.mem_of_get? hlo))
      · simp only [hxo, if_false] at hg
        exact ha.dicts _ (Dict.mem_of_get? hg) _ (Dict.mem_of_get? hlo) rfl

/-- **Assigning data is seen by both**: a value that `o` gets at one of its other systems after the merge is a value of the merged
manager, which did not have it. -/
theorem C19_assign {h h' : Heap N D} {m m' o : HCsm N S} (hm : HOk h m) (ho : HOk h o) (hr : hMerge o (h, m) = .ok () (h', m'))
    {c n d : N} {v : D} (hc : OnlyCommon c m o) (hn : n ∈ o.names) (hnc : n ≠ c) (hd : d ∉ (h'.view o).dataNames) :
    ∃ h'', hAssign v d n (h', o) = .ok () (h'', o) ∧ (h''.view m').StoredAt n d v ∧ ∀ w, ¬ (h'.view m').StoredAt n d w := by
  obtain ⟨l, hl, he⟩ := hAssign_ok (v := v) hd hn
  refine ⟨_, he, ?_⟩
  have hs := fun h'' hops => C19_shared (h'' := h'') hm ho hr hops hc hn hnc
  have h1 := hs _ (.right (.refl _) (.assign h' v d n))
  rw [he] at h1
  have h0 := hs _ (.refl _)
  simp only [Res.state_ok, Heap.dataAt, view_get?, hl, Option.map_some, put_self] at h0 h1
  refine ⟨?_, ?_⟩
  · refine ⟨_, by rw [view_get?]; exact h1, ?_⟩
    rw [Dict.get?_set]; simp
  · rintro w ⟨ds, hds, hw⟩
    rw [view_get?, h0] at hds
    cases hds
    refine hd ?_
    rw [Csm.dataNames, List.mem_flatMap]
    exact ⟨(n, h'.dict l), List.mem_map.mpr ⟨(n, l), Dict.mem_of_get? hl, rfl⟩, Dict.mem_keys_of_mem (Dict.mem_of_get? hw)⟩

/-- **Deleting data is seen by both**: data that `o` deletes is missing in the merged manager as well. -/
theorem C19_delete {h h' h'' : Heap N D} {m m' o o' : HCsm N S} (hm : HOk h m) (ho : HOk h o) (hr : hMerge o (h, m) = .ok () (h', m'))
    {c n d : N} (hc : OnlyCommon c m o) (hn : n ∈ o.names) (hnc : n ≠ c) (hu : (h'.view o).dataNames.Nodup)
    (hs : ∃ v, (h'.view m').StoredAt n d v) (hdel : hDeleteData d (h', o) = .ok () (h'', o')) :
    ∀ v, ¬ (h''.view m').StoredAt n d v := by
  have h0 := C19_shared hm ho hr (.refl _) hc hn hnc
  have h1 := C19_shared hm ho hr (.right (.refl _) (.delete h' d)) hc hn hnc
  rw [hdel] at h1
  obtain ⟨v, ds, hds, hv⟩ := hs
  rw [← Heap.dataAt, h0, Heap.dataAt, view_get?] at hds
  obtain ⟨l, hl, rfl⟩ := Option.map_eq_some_iff.mp hds
  have hmem : d ∈ Dict.keys (h'.dict l) := Dict.mem_keys_of_mem (Dict.mem_of_get? hv)
  rintro w ⟨ds', hds', hw⟩
  simp only [Res.state_ok] at h1
  rw [← Heap.dataAt, h1, Heap.dataAt, view_get?, hl, Option.map_some, Option.some.injEq] at hds'
  subst hds'
  simp only [hDeleteData] at hdel
  split at hdel
  · cases hdel
  · rename_i x l' hf
    simp only [Res.ok.injEq, Prod.mk.injEq, true_and] at hdel
    obtain ⟨rfl, -⟩ := hdel
    have hx := List.mem_of_find?_eq_some hf
    have hd' : d ∈ Dict.keys (h'.dict l') := by simpa [Heap.discard] using List.find?_some hf
    have hxl : x = n := by
      by_contra hne
      refine not_nodup_flatMap (fun y : N × Nat => Dict.keys (h'.dict y.2)) hx (Dict.mem_of_get? hl) (fun e => hne (congrArg Prod.fst e))
        hd' hmem ?_
      simpa [Csm.dataNames, Heap.view, List.flatMap_map] using hu
    subst hxl
    have : l' = l := by
      have := Dict.get?_of_mem ho.names hx
      rw [hl] at this
      exact (Option.some.inj this).symm
    subst this
    simp only [put_self, Heap.discard] at hw
    have := Dict.mem_of_get? hw
    rw [Dict.mem_erase] at this
    exact this.2 rfl

/-- **Names of data are no longer unique**: `assign_data` of `o` only looks at the names in `o`. A name that the merged manager uses at a
system of its own gets a second meaning there. -/
theorem C19_duplicate {h h' : Heap N D} {m m' o : HCsm N S} (hm : HOk h m) (ho : HOk h o) (ha : Apart h m o)
    (hr : hMerge o (h, m) = .ok () (h', m')) {c n k d : N} {v w : D} (hc : OnlyCommon c m o) (hn : n ∈ o.names) (hnc : n ≠ c)
    (hk : k ∉ o.names) (hw : (h'.view m').StoredAt k d w) (hd : d ∉ (h'.view o).dataNames) :
    ∃ h'', hAssign v d n (h', o) = .ok () (h'', o) ∧ (h''.view m').StoredAt k d w ∧ (h''.view m').StoredAt n d v ∧ n ≠ k ∧
      ¬ (h''.view m').dataNames.Nodup := by
  obtain ⟨h'', he, h1, -⟩ := C19_assign (v := v) hm ho hr hc hn hnc hd
  have hop : OwnOps o h' h'' := .right (.refl _) (by have := DataOp.assign (m := o) h' v d n; rw [he] at this; exact this)
  have h2 := (C19_apart hm ho ha hr hc).1 h'' k hop (.inr hk)
  have hk' : (h''.view m').StoredAt k d w := by
    obtain ⟨ds, hds, hdw⟩ := hw
    exact ⟨ds, by rw [← Heap.dataAt, h2]; exact hds, hdw⟩
  have hnk : n ≠ k := fun e => hk (e ▸ hn)
  refine ⟨h'', he, hk', h1, hnk, fun hu => ?_⟩
  obtain ⟨d1, e1, f1⟩ := hk'
  obtain ⟨d2, e2, f2⟩ := h1
  exact not_nodup_flatMap (fun y : N × List (N × D) => Dict.keys y.2) (Dict.mem_of_get? e2) (Dict.mem_of_get? e1)
    (fun e => hnk (congrArg Prod.fst e)) (Dict.mem_keys_of_mem (Dict.mem_of_get? f2)) (Dict.mem_keys_of_mem (Dict.mem_of_get? f1)) hu

/-! ### Systems and further merges -/

/-- **Systems are not shared**: `add_cs` and `delete_cs` of any manager change no other manager, even if both share data. -/
theorem C19_systems {h : Heap N D} {m o : HCsm N S} (hm : HOk h m) :
    (∀ n ref s dir lsc, (hAddCs n ref s dir lsc (h, o)).state.1.view m = h.view m) ∧
      ∀ n b, (hDeleteCs n b (h, o)).state.1.view m = h.view m := by
  refine ⟨fun n ref s dir lsc => ?_, fun n b => ?_⟩
  · simp only [hAddCs]
    split
    · rfl
    · split
      · rfl
      · exact view_congr (fun x hx => put_ne _ _ (Nat.ne_of_lt (hm.used x hx))) rfl fun _ _ => rfl
  · simp only [hDeleteCs]
    split
    · rfl
    · split
      · rfl
      · exact view_congr (fun _ _ => rfl) (put_ne _ _ (Nat.ne_of_lt hm.subs)) fun _ _ => rfl

/-- Merging gives a manager with dictionaries of its own for its own purposes. -/
theorem HOk.merge {h h' : Heap N D} {m m' o : HCsm N S} (hm : HOk h m) (ho : HOk h o) (ha : Apart h m o)
    (hr : hMerge o (h, m) = .ok () (h', m')) : HOk h' m' ∧ HOk h' o := by
  obtain ⟨c, lm, lo, p, hc, -, hlm, hlo, -, -, -, -, rfl, rfl⟩ := hMerge_cases hm.names hr
  have hnd : (Dict.keys (Dict.set (Dict.update m.nodes o.nodes) c h.next)).Nodup :=
    Dict.nodup_keys_set (Dict.nodup_keys_update hm.names)
  have hloc : ∀ {x l}, (x, l) ∈ Dict.set (Dict.update m.nodes o.nodes) c h.next →
      (x = c ∧ l = h.next) ∨ (x ≠ c ∧ (x, l) ∈ o.nodes) ∨ (x ≠ c ∧ (x, l) ∈ m.nodes) := by
    intro x l hx
    have hg := Dict.get?_of_mem hnd hx
    rw [merge_loc ho.names] at hg
    split at hg
    · exact .inl ⟨by assumption, (Option.some.inj hg).symm⟩
    · split at hg
      · exact .inr (.inl ⟨by assumption, Dict.mem_of_get? hg⟩)
      · exact .inr (.inr ⟨by assumption, Dict.mem_of_get? hg⟩)
  refine ⟨⟨hnd, ?_, ?_, Nat.lt_succ_of_lt hm.subs, ?_⟩, ⟨ho.names, ho.locs, fun x hx => Nat.lt_succ_of_lt (ho.used x hx),
    Nat.lt_succ_of_lt ho.subs, ?_⟩⟩
  · refine List.Nodup.map_on ?_ (List.Nodup.of_map Prod.fst hnd)
    rintro ⟨x, l⟩ hx ⟨y, l'⟩ hy (rfl : l = l')
    have : x = y := by
      rcases hloc hx with ⟨rfl, rfl⟩ | ⟨_, h1⟩ | ⟨_, h1⟩ <;> rcases hloc hy with ⟨rfl, h2⟩ | ⟨_, h2⟩ | ⟨_, h2⟩
      · rfl
      · exact absurd (ho.used _ h2) (lt_irrefl _)
      · exact absurd (hm.used _ h2) (lt_irrefl _)
      · subst h2; exact absurd (ho.used _ h1) (lt_irrefl _)
      · exact nodup_loc_inj ho.locs h1 h2
      · exact ha.dicts _ h2 _ h1 rfl |>.elim
      · subst h2; exact absurd (hm.used _ h1) (lt_irrefl _)
      · exact ha.dicts _ h1 _ h2 rfl |>.elim
      · exact nodup_loc_inj hm.locs h1 h2
    rw [this]
  · rintro ⟨x, l⟩ hx
    rcases hloc hx with ⟨rfl, rfl⟩ | ⟨_, h1⟩ | ⟨_, h1⟩
    · exact Nat.lt_succ_self _
    · exact Nat.lt_succ_of_lt (ho.used _ h1)
    · exact Nat.lt_succ_of_lt (hm.used _ h1)
  · intro i hi
    simp only [put_self, List.mem_append, List.mem_singleton] at hi
    rcases hi with hi | rfl
    · exact Nat.lt_succ_of_lt (hm.infos i hi)
    · exact Nat.lt_succ_self _
  · intro i hi
    simp only at hi
    rw [put_ne _ _ fun e => ha.lists e.symm] at hi
    exact Nat.lt_succ_of_lt (ho.infos i hi)

/-- **Further merges are shared in part**: when `o` takes in another manager `x`, the merged manager keeps its systems and data, but its
record of `o` gets a nested record of `x`, with systems that the merged manager does not have. -/
theorem C19_records {h h' h'' : Heap N D} {m m' o o' x : HCsm N S} (hm : HOk h m) (ho : HOk h o) (ha : Apart h m o)
    (hr : hMerge o (h, m) = .ok () (h', m')) (hr' : hMerge x (h', o) = .ok () (h'', o')) :
    (h''.view m') = (h'.view m') ∧ ∃ i ∈ h''.list m'.subs, (h''.info i).name = o.name ∧ (h''.info i).members = o.names ∧
      h''.list (h''.info i).subs = h'.list (h'.info i).subs ++ [h'.next] ∧ (h''.info h'.next).members = x.names := by
  obtain ⟨hm', ho'⟩ := hm.merge ho ha hr
  obtain ⟨c2, lm2, lo2, p2, -, -, -, -, -, -, -, -, h2, -⟩ := hMerge_cases ho'.names hr'
  obtain ⟨c, lm, lo, p, hc, -, hlm, hlo, -, -, -, -, h1, m1⟩ := hMerge_cases hm.names hr
  have hne : m'.subs ≠ o.subs := by rw [m1]; exact ha.lists
  have hi1 : h'.info h.next = ⟨o.name, o.root, c, o.refTime, o.names, (h.view o).dataNames, o.subs⟩ := by rw [h1]; exact put_self _ _ _
  have hl1 : h'.list m'.subs = h.list m.subs ++ [h.next] := by rw [h1, m1]; exact put_self _ _ _
  have hn1 : h'.next = h.next + 1 := by rw [h1]
  have hi2 : h''.info h.next = h'.info h.next := by
    rw [h2]; exact put_ne _ _ (by rw [hn1]; exact Nat.ne_of_lt (Nat.lt_succ_self _))
  refine ⟨?_, h.next, ?_, ?_, ?_, ?_, ?_⟩
  · rw [h2]
    exact view_congr (fun y hy => put_ne _ _ (Nat.ne_of_lt (hm'.used y hy))) (put_ne _ _ hne)
      fun i hi => put_ne _ _ (Nat.ne_of_lt (hm'.infos i hi))
  · have : h''.list m'.subs = h'.list m'.subs := by rw [h2]; exact put_ne _ _ hne
    rw [this, hl1]; simp
  · rw [hi2, hi1]
  · rw [hi2, hi1]
  · rw [hi2, hi1, h2]; exact put_self _ _ _
  · rw [h2]; simp

/-! ### Two small managers -/

/-- the manager `m` has the systems `0` and `1`, the manager `o` has `1` and `2`; `m` stores the data `10` at `0` -/
def aliasHeap : Heap ℕ ℕ where
  dict := fun l => if l = 0 then [(10, 5)] else []
  info := fun _ => ⟨0, 0, 0, none, [], [], 0⟩
  list := fun _ => []
  next := 8
def aliasM : HCsm ℕ Unit := ⟨100, 0, none, [(0, 0), (1, 1)], [((1, 0), ⟨true, some ()⟩), ((0, 1), ⟨false, some ()⟩)], 4⟩
def aliasO : HCsm ℕ Unit := ⟨101, 1, none, [(1, 2), (2, 3)], [((2, 1), ⟨true, some ()⟩), ((1, 2), ⟨false, some ()⟩)], 5⟩
def aliasX : HCsm ℕ Unit := ⟨102, 2, none, [(2, 6)], [], 7⟩

theorem aliasM_ok : HOk aliasHeap aliasM := ⟨by decide, by decide, by decide, by decide, by decide⟩
theorem aliasO_ok : HOk aliasHeap aliasO := ⟨by decide, by decide, by decide, by decide, by decide⟩
theorem alias_apart : Apart aliasHeap aliasM aliasO := ⟨by decide, by decide, by decide⟩
theorem alias_common : OnlyCommon 1 aliasM aliasO := by
  refine ⟨by decide, by decide, fun x h1 h2 => ?_⟩
  simp [HCsm.names, aliasM, aliasO, Dict.keys] at h1 h2
  omega

/-- the state after `m.merge(o)` -/
def aliasMerged : Heap ℕ ℕ × HCsm ℕ Unit := (hMerge aliasO (aliasHeap, aliasM)).state

theorem alias_merge : hMerge aliasO (aliasHeap, aliasM) = .ok () aliasMerged := rfl

/-- `o.assign_data(7, "10", "2")` gives `m` a second value with the name `10` -/
example : ∃ h'', hAssign 7 10 2 (aliasMerged.1, aliasO) = .ok () (h'', aliasO) ∧ (h''.view aliasMerged.2).StoredAt 0 10 5 ∧
    (h''.view aliasMerged.2).StoredAt 2 10 7 ∧ 2 ≠ 0 ∧ ¬ (h''.view aliasMerged.2).dataNames.Nodup :=
  C19_duplicate aliasM_ok aliasO_ok alias_apart alias_merge alias_common (by decide) (by decide) (by decide) ⟨[(10, 5)], rfl, rfl⟩ (by decide)

/-- after `o.merge(x)` the record of `o` in `m` has a nested record -/
example : ∃ h'' o', hMerge aliasX (aliasMerged.1, aliasO) = .ok () (h'', o') ∧ h''.view aliasMerged.2 = aliasMerged.1.view aliasMerged.2 ∧
    ∃ i ∈ h''.list aliasMerged.2.subs, h''.list (h''.info i).subs = aliasMerged.1.list (aliasMerged.1.info i).subs ++ [aliasMerged.1.next] := by
  obtain ⟨h1, i, h2, -, -, h3, -⟩ := C19_records (x := aliasX) aliasM_ok aliasO_ok alias_apart alias_merge rfl
  exact ⟨_, _, rfl, h1, i, h2, h3⟩

/-- `o` has the systems 1 and 2, and its root is 1 -/
example : ∃ s, (aliasMerged.1.view aliasMerged.2).subs = [s] ∧ s.root = 1 ∧ s.common = 1 ∧ s.members = [1, 2] := by
  obtain ⟨s, h1, -, h2, h3, -, h4, -⟩ := C19_new_record aliasM_ok alias_merge alias_common
  exact ⟨s, h1, h2, h3, h4⟩

end Weldx.Csm
