import Verif.Storage.Dataclass
import Mathlib.Data.List.Pairwise
import Mathlib.Data.List.Forall2

/-!
# C85: objects stored with generated converters keep their attributes, and what saving does to the object
-/

namespace Weldx.Dc

variable {L : Type}

/-! ## Specification -/

/-- an attribute after saving: lists of strings are sorted, everything else is as it was -/
inductive SavedAs : TVal L → TVal L → Prop
  | same {v : TVal L} (h : ∀ l, v = .list l → ∃ x ∈ l, ∀ s, x ≠ .str s) : SavedAs v v
  | sorted {l l' : List String} (hp : l.Perm l') (hs : l'.Pairwise (· ≤ ·)) : SavedAs (.list (l.map .str)) (.list (l'.map .str))

/-- all list objects that are used exist -/
def Heap.Valid (h : Heap L) : Prop := ∀ a ∈ h.objs, ∀ k r, (k, Val.list r) ∈ a → r < h.lists.length

/-! ## Lemmas -/

theorem strings_some {l : List (Item L)} {s : List String} : strings l = some s ↔ l = s.map .str := by
  induction l generalizing s with
  | nil => cases s <;> simp [strings]
  | cons x l ih =>
    cases x with
    | null => cases s <;> simp [strings]
    | leaf y => cases s <;> simp [strings]
    | str a =>
      cases s with
      | nil => simp [strings]
      | cons b s =>
        simp only [strings, Option.map_eq_some_iff, List.map_cons, List.cons.injEq, Item.str.injEq]
        constructor
        · rintro ⟨t, ht, rfl, rfl⟩
          exact ⟨rfl, ih.1 ht⟩
        · rintro ⟨rfl, ht⟩
          exact ⟨s, ih.2 ht, rfl, rfl⟩

theorem strings_none {l : List (Item L)} : strings l = none ↔ ∃ x ∈ l, ∀ s, x ≠ .str s := by
  induction l with
  | nil => simp [strings]
  | cons x l ih =>
    cases x with
    | null => simp [strings]
    | leaf y => simp [strings]
    | str a => simp [strings, ih]

theorem sort_perm (l : List String) : l.Perm (l.mergeSort fun a b => decide (a ≤ b)) := (List.mergeSort_perm _ _).symm

theorem sort_pairwise (l : List String) : (l.mergeSort fun a b => decide (a ≤ b)).Pairwise (· ≤ ·) := by
  have := List.pairwise_mergeSort (le := fun a b : String => decide (a ≤ b))
    (by intro a b c; simp only [decide_eq_true_eq]; exact le_trans) (by intro a b; simpa using le_total a b) l
  exact this.imp (by simp)

theorem items_mono {h h' : Heap L} {n : List (List (Item L))} (hl : h'.lists = h.lists ++ n) {r : ℕ} (hr : r < h.lists.length) :
    h'.items r = h.items r := by
  simp only [Heap.items, hl, List.getElem?_append_left hr]

theorem value_mono {h h' : Heap L} {n : List (List (Item L))} (hl : h'.lists = h.lists ++ n) {v : Val L}
    (hv : ∀ r, v = .list r → r < h.lists.length) : h'.value v = h.value v := by
  cases v with
  | list r => simp only [Heap.value, items_mono hl (hv r rfl)]
  | _ => rfl

theorem sortVal_spec (h : Heap L) (v : Val L) (hv : ∀ r, v = .list r → r < h.lists.length) :
    ∃ n, (sortVal h v).1.lists = h.lists ++ n ∧ (sortVal h v).1.objs = h.objs ∧
      (∀ r, (sortVal h v).2 = .list r → r < (sortVal h v).1.lists.length) ∧
      SavedAs (h.value v) ((sortVal h v).1.value (sortVal h v).2) ∧
      (∀ r, (sortVal h v).2 = .list r → (∀ x ∈ (sortVal h v).1.items r, ∃ s, x = .str s) →
        h.lists.length ≤ r) := by
  cases v with
  | null => exact ⟨[], by simp [sortVal], rfl, by simp [sortVal], .same (by simp [Heap.value]), by simp [sortVal]⟩
  | str s => exact ⟨[], by simp [sortVal], rfl, by simp [sortVal], .same (by simp [Heap.value]), by simp [sortVal]⟩
  | leaf y => exact ⟨[], by simp [sortVal], rfl, by simp [sortVal], .same (by simp [Heap.value]), by simp [sortVal]⟩
  | list r =>
    cases hs : strings (h.items r) with
    | none =>
      have e : sortVal h (.list r) = (h, .list r) := by simp only [sortVal, hs]
      rw [e]
      refine ⟨[], by simp, rfl, hv, .same ?_, ?_⟩
      · intro l hl
        simp only [Heap.value, TVal.list.injEq] at hl
        rw [← hl]
        exact strings_none.1 hs
      · intro r' hr hx
        simp only [Val.list.injEq] at hr
        subst hr
        obtain ⟨x, hm, hn⟩ := strings_none.1 hs
        obtain ⟨s, rfl⟩ := hx x hm
        exact absurd rfl (hn s)
    | some l =>
      have e : sortVal h (.list r) = ({ h with lists := h.lists ++ [(l.mergeSort fun a b => decide (a ≤ b)).map .str] },
          .list h.lists.length) := by simp only [sortVal, hs]
      rw [e]
      refine ⟨[(l.mergeSort fun a b => decide (a ≤ b)).map .str], rfl, rfl, ?_, ?_, ?_⟩
      · intro r' hr
        simp only [Val.list.injEq] at hr
        simp [← hr]
      · simp only [Heap.value]
        rw [strings_some.1 hs]
        have : ({ h with lists := h.lists ++ [(l.mergeSort fun a b => decide (a ≤ b)).map .str] } : Heap L).items h.lists.length
            = (l.mergeSort fun a b => decide (a ≤ b)).map .str := by simp [Heap.items]
        rw [this]
        exact .sorted (sort_perm l) (sort_pairwise l)
      · intro r' hr _
        simp only [Val.list.injEq] at hr
        exact hr.le

/-- the references to lists of strings -/
def Fresh (h : Heap L) (lo : ℕ) (a : List (String × Val L)) : Prop :=
  ∀ k r, (k, Val.list r) ∈ a → (∀ x ∈ h.items r, ∃ s, x = .str s) → lo ≤ r

theorem sortAttrs_spec (h : Heap L) (a : List (String × Val L)) (ha : ∀ k r, (k, Val.list r) ∈ a → r < h.lists.length) :
    ∃ n, (sortAttrs h a).1.lists = h.lists ++ n ∧ (sortAttrs h a).1.objs = h.objs ∧
      (∀ k r, (k, Val.list r) ∈ (sortAttrs h a).2 → r < (sortAttrs h a).1.lists.length) ∧
      List.Forall₂ (fun e e' => e.1 = e'.1 ∧ SavedAs (h.value e.2) ((sortAttrs h a).1.value e'.2)) a (sortAttrs h a).2 ∧
      Fresh (sortAttrs h a).1 h.lists.length (sortAttrs h a).2 ∧
      (sortAttrs h a).2.Pairwise (fun e e' => ∀ r, e.2 = .list r → e'.2 = .list r →
        (∀ x ∈ (sortAttrs h a).1.items r, ∃ s, x = .str s) → False) := by
  induction a generalizing h with
  | nil => exact ⟨[], by simp [sortAttrs], rfl, by simp [sortAttrs], by simp [sortAttrs], by simp [sortAttrs, Fresh], by simp [sortAttrs]⟩
  | cons e t ih =>
    obtain ⟨k, v⟩ := e
    obtain ⟨n₁, h1, h2, h3, h4, h5⟩ := sortVal_spec h v (fun r hr => ha k r (by rw [hr]; simp))
    have ht : ∀ k r, (k, Val.list r) ∈ t → r < (sortVal h v).1.lists.length := by
      intro k' r hr
      rw [h1]
      have := ha k' r (List.mem_cons_of_mem _ hr)
      simp only [List.length_append]
      omega
    obtain ⟨n₂, g1, g2, g3, g4, g5, g6⟩ := ih (sortVal h v).1 ht
    have e : sortAttrs h ((k, v) :: t) =
        ((sortAttrs (sortVal h v).1 t).1, (k, (sortVal h v).2) :: (sortAttrs (sortVal h v).1 t).2) := rfl
    rw [e]
    refine ⟨n₁ ++ n₂, by rw [g1, h1, List.append_assoc], by rw [g2, h2], ?_, ?_, ?_, ?_⟩
    · intro k' r hr
      simp only [List.mem_cons, Prod.mk.injEq] at hr
      rcases hr with ⟨rfl, hr⟩ | hr
      · have := h3 r hr.symm
        simp only [g1, List.length_append]
        omega
      · exact g3 k' r hr
    · refine List.Forall₂.cons ⟨rfl, ?_⟩ ?_
      · simp only
        rw [value_mono g1 h3]
        exact h4
      · have key : ∀ (a b : List (String × Val L)) (P Q : String × Val L → String × Val L → Prop),
            (∀ e ∈ a, ∀ e', P e e' → Q e e') → List.Forall₂ P a b → List.Forall₂ Q a b := by
          intro a b P Q hPQ hf
          induction hf with
          | nil => exact .nil
          | cons hx _ ih' =>
            exact .cons (hPQ _ (by simp) _ hx) (ih' (fun e he => hPQ e (List.mem_cons_of_mem _ he)))
        refine key _ _ _ _ ?_ g4
        rintro ⟨k', w⟩ he e' ⟨q1, q2⟩
        refine ⟨q1, ?_⟩
        simp only at q2 ⊢
        rwa [value_mono h1 (fun r hr => ha k' r (by rw [← hr]; exact List.mem_cons_of_mem _ he))] at q2
    · intro k' r hr hx
      simp only [List.mem_cons, Prod.mk.injEq] at hr
      rcases hr with ⟨rfl, hr⟩ | hr
      · rw [items_mono g1 (h3 r hr.symm)] at hx
        exact h5 r hr.symm hx
      · have := g5 k' r hr hx
        rw [h1] at this
        simp only [List.length_append] at this
        omega
    · refine List.Pairwise.cons ?_ g6
      rintro ⟨k', w⟩ he r hr hw hx
      simp only at hr hw
      subst hw
      have := g5 k' r he hx
      have := h3 r hr
      omega

/-- the object after sorting -/
theorem save_sort (c : Cls L) (hc : c.sort = true) (h : Heap L) (o : ℕ) :
    (save c h o).1 = { (sortAttrs h (h.attrs o)).1 with objs := (sortAttrs h (h.attrs o)).1.objs.set o (sortAttrs h (h.attrs o)).2 } := by
  simp only [save, hc, if_true]

theorem Heap.Valid.attrs {h : Heap L} (hv : h.Valid) (o : ℕ) : ∀ k r, (k, Val.list r) ∈ h.attrs o → r < h.lists.length := by
  intro k r hr
  unfold Heap.attrs at hr
  cases ho : h.objs[o]? with
  | none => simp [ho] at hr
  | some a =>
    rw [ho] at hr
    exact hv a (List.mem_of_getElem? ho) k r hr

theorem attrs_save (c : Cls L) (hc : c.sort = true) (h : Heap L) (o : ℕ) (ho : o < h.objs.length) (hv : h.Valid) :
    (save c h o).1.attrs o = (sortAttrs h (h.attrs o)).2 := by
  obtain ⟨n, _, h2, _⟩ := sortAttrs_spec h (h.attrs o) (hv.attrs o)
  rw [save_sort c hc]
  generalize sortAttrs h (h.attrs o) = x at *
  simp [Heap.attrs, h2, ho]

/-- strings that are sorted are not changed -/
theorem SavedAs.fixed {v w u : TVal L} (h1 : SavedAs v w) (h2 : SavedAs w u) : u = w := by
  cases h1 with
  | same hn =>
    cases h2 with
    | same _ => rfl
    | sorted hp hs =>
      obtain ⟨x, hx, hx'⟩ := hn _ rfl
      obtain ⟨s, _, rfl⟩ := List.mem_map.1 hx
      exact absurd rfl (hx' s)
  | @sorted l l' hp hs =>
    generalize hw : TVal.list (l'.map Item.str) = w at h2
    cases h2 with
    | same _ => rfl
    | @sorted a b hp' hs' =>
      have e : l'.map (Item.str (L := L)) = a.map .str := by simpa using hw
      have inj : Function.Injective (Item.str (L := L)) := fun a b h => by simpa using h
      have := (List.map_injective_iff.2 inj) e
      subst this
      rw [List.Perm.eq_of_pairwise (le := (· ≤ ·)) (fun a b _ _ h h' => le_antisymm h h') hs hs' hp']


/-! ## Saving -/

/-- **C85**: what saving does to an object: every list of strings is sorted, in the object itself. -/
theorem C85_saved (c : Cls L) (hc : c.sort = true) (h : Heap L) (o : ℕ) (ho : o < h.objs.length) (hv : h.Valid) :
    List.Forall₂ (fun e e' => e.1 = e'.1 ∧ SavedAs e.2 e'.2) (h.look o) ((save c h o).1.look o) := by
  obtain ⟨n, h1, h2, h3, h4, h5, h6⟩ := sortAttrs_spec h (h.attrs o) (hv.attrs o)
  simp only [Heap.look, attrs_save c hc h o ho hv, List.forall₂_map_left_iff, List.forall₂_map_right_iff]
  have : (save c h o).1.value = (sortAttrs h (h.attrs o)).1.value := by
    rw [save_sort c hc]
    funext v
    cases v <;> rfl
  rw [this]
  exact h4

/-- **C85**: the lists that exist, the other objects and their attributes are not changed. -/
theorem C85_others (c : Cls L) (h : Heap L) (o : ℕ) (hv : h.Valid) :
    (∀ r < h.lists.length, (save c h o).1.items r = h.items r) ∧
      ∀ p, p ≠ o → (save c h o).1.attrs p = h.attrs p ∧ (save c h o).1.look p = h.look p := by
  obtain ⟨n, h1, h2, -⟩ := sortAttrs_spec h (h.attrs o) (hv.attrs o)
  have hl : ∃ n, (save c h o).1.lists = h.lists ++ n := by
    cases hc : c.sort with
    | false => exact ⟨[], by simp [save, hc]⟩
    | true => exact ⟨n, by rw [save_sort c hc]; exact h1⟩
  obtain ⟨n', hl⟩ := hl
  have ha : ∀ p, p ≠ o → (save c h o).1.attrs p = h.attrs p := by
    intro p hp
    cases hc : c.sort with
    | false => simp [save, hc]
    | true =>
      rw [save_sort c hc]
      simp only [Heap.attrs] at h2 ⊢
      rw [h2, List.getElem?_set_ne (Ne.symm hp)]
  refine ⟨fun r hr => items_mono hl hr, fun p hp => ⟨ha p hp, ?_⟩⟩
  simp only [Heap.look, ha p hp]
  refine List.map_congr_left fun e he => ?_
  rw [value_mono hl (fun r hr => hv.attrs p e.1 r (by rw [← hr]; exact he))]

/-- **C85**: afterwards no list of strings is shared with another object or with another attribute. -/
theorem C85_unshared (c : Cls L) (hc : c.sort = true) (h : Heap L) (o : ℕ) (ho : o < h.objs.length) (hv : h.Valid)
    (k : String) (r : ℕ) (hk : (k, Val.list r) ∈ (save c h o).1.attrs o)
    (hs : ∀ x ∈ (save c h o).1.items r, ∃ s, x = .str s) :
    h.lists.length ≤ r ∧ (∀ p k', p ≠ o → (k', Val.list r) ∉ (save c h o).1.attrs p) ∧
      ∀ k', (k', Val.list r) ∈ (save c h o).1.attrs o → k' = k := by
  obtain ⟨n, h1, h2, h3, h4, h5, h6⟩ := sortAttrs_spec h (h.attrs o) (hv.attrs o)
  have hi : (save c h o).1.items = (sortAttrs h (h.attrs o)).1.items := by
    rw [save_sort c hc]
    rfl
  rw [hi] at hs
  rw [attrs_save c hc h o ho hv] at hk ⊢
  have hr := h5 k r hk hs
  refine ⟨hr, fun p k' hp hk' => ?_, fun k' hk' => ?_⟩
  · rw [((C85_others c h o hv).2 p hp).1] at hk'
    have := hv.attrs p k' r hk'
    omega
  · by_contra hne
    have sym : Std.Symm (fun e e' : String × Val L => ∀ r, e.2 = .list r → e'.2 = .list r →
        (∀ x ∈ (sortAttrs h (h.attrs o)).1.items r, ∃ s, x = .str s) → False) :=
      ⟨fun a b hab r h1 h2 h3 => hab r h2 h1 h3⟩
    exact h6.forall hk' hk (by simpa using hne) r rfl rfl hs

/-- **C85**: without sorting, saving changes nothing. -/
theorem C85_unsorted (c : Cls L) (hc : c.sort = false) (h : Heap L) (o : ℕ) : (save c h o).1 = h := by
  simp [save, hc]

/-- all references are still valid -/
theorem save_valid (c : Cls L) (h : Heap L) (o : ℕ) (hv : h.Valid) : (save c h o).1.Valid := by
  cases hc : c.sort with
  | false => rw [C85_unsorted c hc]; exact hv
  | true =>
    obtain ⟨n, h1, h2, h3, -⟩ := sortAttrs_spec h (h.attrs o) (hv.attrs o)
    rw [save_sort c hc]
    intro a ha k r hr
    simp only at ha ⊢
    rcases List.mem_or_eq_of_mem_set ha with ha | rfl
    · rw [h2] at ha
      have := hv a ha k r hr
      rw [h1, List.length_append]
      omega
    · exact h3 k r hr

theorem objs_save (c : Cls L) (h : Heap L) (o : ℕ) (hv : h.Valid) : (save c h o).1.objs.length = h.objs.length := by
  cases hc : c.sort with
  | false => rw [C85_unsorted c hc]
  | true =>
    obtain ⟨n, h1, h2, h3, -⟩ := sortAttrs_spec h (h.attrs o) (hv.attrs o)
    rw [save_sort c hc]
    simp [h2]

theorem tree_save (c : Cls L) (h : Heap L) (o : ℕ) : (save c h o).2 = stripTree ((save c h o).1.look o) := rfl

/-- **C85**: saving a second time changes no value and writes the same. -/
theorem C85_again (c : Cls L) (h : Heap L) (o : ℕ) (ho : o < h.objs.length) (hv : h.Valid) :
    (save c (save c h o).1 o).1.look o = (save c h o).1.look o ∧ (save c (save c h o).1 o).2 = (save c h o).2 := by
  have key : (save c (save c h o).1 o).1.look o = (save c h o).1.look o := by
    cases hc : c.sort with
    | false => rw [C85_unsorted c hc]
    | true =>
      have a1 := C85_saved c hc h o ho hv
      have a2 := C85_saved c hc (save c h o).1 o (by rw [objs_save c h o hv]; exact ho) (save_valid c h o hv)
      generalize h.look o = x at a1
      generalize (save c h o).1.look o = y at a1 a2 ⊢
      generalize (save c (save c h o).1 o).1.look o = z at a2 ⊢
      induction a1 generalizing z with
      | nil => cases a2; rfl
      | cons p1 _ ih =>
        cases a2 with
        | cons p2 q2 =>
          rw [ih _ q2]
          congr 1
          exact Prod.ext p2.1.symm (p1.2.fixed p2.2)
  exact ⟨key, by rw [tree_save, tree_save, key]⟩

/-- **C85**: what is written: the attributes that are not `None`, without items that are `None`. -/
theorem C85_tree (c : Cls L) (h : Heap L) (o : ℕ) (k : String) (v : TVal L) :
    (k, v) ∈ (save c h o).2 ↔ ∃ u, (k, u) ∈ (save c h o).1.look o ∧ u ≠ .null ∧
      ((∀ l, u ≠ .list l) ∧ v = u ∨ ∃ l, u = .list l ∧ v = .list (l.filter (fun x => x.some?))) := by
  rw [tree_save]
  simp only [stripTree, List.mem_map, List.mem_filter, Prod.mk.injEq, Prod.exists]
  constructor
  · rintro ⟨k', u, ⟨hm, hs⟩, rfl, rfl⟩
    refine ⟨u, hm, ?_, ?_⟩
    · rintro rfl
      simp [TVal.some?] at hs
    · cases u <;> simp [TVal.strip]
  · rintro ⟨u, hm, hn, hu⟩
    refine ⟨k, u, ⟨hm, ?_⟩, rfl, ?_⟩
    · cases u <;> simp_all [TVal.some?]
    · rcases hu with ⟨hl, rfl⟩ | ⟨l, rfl, rfl⟩
      · cases v with
        | list l => exact absurd rfl (hl l)
        | _ => rfl
      · rfl

/-! ## Reading -/

theorem keys_look (h : Heap L) (o : ℕ) : Dict.keys (h.look o) = Dict.keys (h.attrs o) := by
  simp [Dict.keys, Heap.look, Function.comp_def]

theorem keys_look_save (c : Cls L) (h : Heap L) (o : ℕ) (ho : o < h.objs.length) (hv : h.Valid) :
    Dict.keys ((save c h o).1.look o) = Dict.keys (h.look o) := by
  cases hc : c.sort with
  | false => rw [C85_unsorted c hc]
  | true =>
    have a1 := C85_saved c hc h o ho hv
    generalize h.look o = x at a1
    generalize (save c h o).1.look o = y at a1
    induction a1 with
    | nil => rfl
    | cons p _ ih => simp only [Dict.keys_cons, ih, p.1]

theorem keys_stripTree_sublist (a : List (String × TVal L)) : (Dict.keys (stripTree a)).Sublist (Dict.keys a) := by
  have : Dict.keys (stripTree a) = Dict.keys (a.filter fun e => e.2.some?) := by
    simp [Dict.keys, stripTree, Function.comp_def]
  rw [this]
  exact List.filter_sublist.map _

theorem mem_stripTree {a : List (String × TVal L)} {k : String} {w : TVal L} :
    (k, w) ∈ stripTree a ↔ ∃ v, (k, v) ∈ a ∧ v ≠ .null ∧ w = v.strip := by
  simp only [stripTree, List.mem_map, List.mem_filter, Prod.mk.injEq, Prod.exists]
  constructor
  · rintro ⟨k', u, ⟨hm, hs⟩, rfl, rfl⟩
    exact ⟨u, hm, by rintro rfl; simp [TVal.some?] at hs, rfl⟩
  · rintro ⟨u, hm, hn, rfl⟩
    exact ⟨k, u, ⟨hm, by cases u <;> simp_all [TVal.some?]⟩, rfl, rfl⟩

theorem fill_ok (fs : List (String × Option (TVal L))) (t : List (String × TVal L)) (hf : (Dict.keys fs).Nodup)
    (hd : ∀ k d, (k, d) ∈ fs → ((Dict.get? t k).or d).isSome) :
    ∃ a, fill fs t = .ok a ∧ Dict.keys a = Dict.keys fs ∧ ∀ k d, (k, d) ∈ fs → Dict.get? a k = (Dict.get? t k).or d := by
  induction fs with
  | nil => exact ⟨[], rfl, rfl, by simp⟩
  | cons e fs ih =>
    obtain ⟨k, d⟩ := e
    simp only [Dict.keys_cons, List.nodup_cons] at hf
    obtain ⟨a, h1, h2, h3⟩ := ih hf.2 (fun k' d' h => hd k' d' (List.mem_cons_of_mem _ h))
    obtain ⟨v, hv⟩ := Option.isSome_iff_exists.1 (hd k d (by simp))
    refine ⟨(k, v) :: a, by simp only [fill, hv, h1], by simp [h2], ?_⟩
    intro k' d' hm
    simp only [List.mem_cons, Prod.mk.injEq] at hm
    rcases hm with ⟨rfl, rfl⟩ | hm
    · simp [Dict.get?, hv]
    · have hne : k ≠ k' := by
        rintro rfl
        exact hf.1 (Dict.mem_keys_of_mem hm)
      simp only [Dict.get?, hne, if_false]
      exact h3 k' d' hm

theorem mem_dropMeta {t : List (String × TVal L)} {k : String} {v : TVal L} :
    (k, v) ∈ dropMeta t ↔ (k, v) ∈ t ∧ k ∉ metaKeys := by
  simp [dropMeta]

theorem mem_takeMeta {truth : L → Bool} {t : List (String × TVal L)} {k : String} {v : TVal L} :
    (k, v) ∈ takeMeta truth t ↔ (k, v) ∈ t ∧ k ∈ metaKeys ∧ v.truth truth = true := by
  simp [takeMeta]

/-- what a class has to be like so that its stored objects can be read: the constructor and `from_yaml_tree_mod` leave the values alone -/
structure Plain (c : Cls L) (t : List (String × TVal L)) : Prop where
  fields : (Dict.keys c.fields).Nodup
  metas : ∀ k ∈ metaKeys, k ∉ Dict.keys c.fields
  mod : c.mod (dropMeta t) = dropMeta t
  post : ∀ a, fill c.fields (dropMeta t) = .ok a → c.post a = .ok a

/-- **C85**: what is read from a saved object: attributes that are `None` get the default of the field, metadata is kept if it is not
empty, all other fields are as they were written. -/
theorem C85_loaded (c : Cls L) (truth : L → Bool) (h : Heap L) (o : ℕ) (ho : o < h.objs.length) (hv : h.Valid)
    (hn : (Dict.keys (h.attrs o)).Nodup) (hp : Plain c (save c h o).2)
    (known : ∀ k v, (k, v) ∈ (save c h o).1.look o → v ≠ .null → k ∈ Dict.keys c.fields ∨ k ∈ metaKeys)
    (hd : ∀ k d, (k, d) ∈ c.fields → (∃ v, (k, v) ∈ (save c h o).1.look o ∧ v ≠ .null) ∨ d ≠ none) :
    ∃ b, load c truth (save c h o).2 = .ok b ∧
      (∀ k, k ∈ Dict.keys b → k ∈ Dict.keys c.fields ∨ k ∈ metaKeys) ∧
      (∀ k d, (k, d) ∈ c.fields → ∃ w, Dict.get? b k = some w ∧
        ((∃ v, (k, v) ∈ (save c h o).1.look o ∧ v ≠ .null ∧ w = v.strip) ∨
          ((∀ v, (k, v) ∈ (save c h o).1.look o → v = .null) ∧ d = some w))) ∧
      ∀ k ∈ metaKeys, ∀ w, Dict.get? b k = some w ↔
        ∃ v, (k, v) ∈ (save c h o).1.look o ∧ v ≠ .null ∧ w = v.strip ∧ w.truth truth = true := by
  have hnl : (Dict.keys ((save c h o).1.look o)).Nodup := by
    rw [keys_look_save c h o ho hv, keys_look]
    exact hn
  rw [tree_save] at hp ⊢
  generalize (save c h o).1.look o = a at *
  have hnt : (Dict.keys (stripTree a)).Nodup := hnl.sublist (keys_stripTree_sublist a)
  have hnd : (Dict.keys (dropMeta (stripTree a))).Nodup := hnt.sublist (List.filter_sublist.map _)
  have hnm : (Dict.keys (takeMeta truth (stripTree a))).Nodup := hnt.sublist (List.filter_sublist.map _)
  have notMeta : ∀ k d, (k, d) ∈ c.fields → k ∉ metaKeys := fun k d hk hm => hp.metas k hm (Dict.mem_keys_of_mem hk)
  have some_of : ∀ k d, (k, d) ∈ c.fields → ∀ v, (k, v) ∈ a → v ≠ .null →
      Dict.get? (dropMeta (stripTree a)) k = some v.strip := by
    intro k d hk v hv' hv0
    exact Dict.get?_of_mem hnd (mem_dropMeta.2 ⟨mem_stripTree.2 ⟨v, hv', hv0, rfl⟩, notMeta k d hk⟩)
  obtain ⟨b, hb, hkb, hgb⟩ := fill_ok c.fields (dropMeta (stripTree a)) hp.fields (by
    intro k d hk
    rcases hd k d hk with ⟨v, hv', hv0⟩ | hd'
    · rw [some_of k d hk v hv' hv0]
      simp
    · cases d with
      | none => exact absurd rfl hd'
      | some d => cases Dict.get? (dropMeta (stripTree a)) k <;> simp)
  have hall : ∀ e ∈ dropMeta (stripTree a), e.1 ∈ Dict.keys c.fields := by
    rintro ⟨k, w⟩ he
    obtain ⟨he, hk⟩ := mem_dropMeta.1 he
    obtain ⟨v, hv', hv0, -⟩ := mem_stripTree.1 he
    exact (known k v hv' hv0).resolve_right hk
  refine ⟨Dict.update b (takeMeta truth (stripTree a)), ?_, ?_, ?_, ?_⟩
  · simp only [load, construct, hp.mod, if_pos hall, hb, hp.post b hb]
  · intro k hk
    rcases Dict.mem_keys_update.1 hk with hk | hk
    · rw [hkb] at hk
      exact .inl hk
    · obtain ⟨v, hv'⟩ := Dict.mem_keys_iff.1 hk
      exact .inr (mem_takeMeta.1 hv').2.1
  · intro k d hk
    have hm : Dict.get? (takeMeta truth (stripTree a)) k = none := by
      rw [Dict.get?_eq_none]
      intro hk'
      obtain ⟨v, hv'⟩ := Dict.mem_keys_iff.1 hk'
      exact notMeta k d hk (mem_takeMeta.1 hv').2.1
    rw [Dict.get?_update hnm, hm, Option.none_or, hgb k d hk]
    by_cases hx : ∃ v, (k, v) ∈ a ∧ v ≠ .null
    · obtain ⟨v, hv', hv0⟩ := hx
      exact ⟨v.strip, by rw [some_of k d hk v hv' hv0]; rfl, .inl ⟨v, hv', hv0, rfl⟩⟩
    · have hnone : Dict.get? (dropMeta (stripTree a)) k = none := by
        rw [Dict.get?_eq_none]
        intro hk'
        obtain ⟨v, hv'⟩ := Dict.mem_keys_iff.1 hk'
        obtain ⟨u, hu, hu0, -⟩ := mem_stripTree.1 (mem_dropMeta.1 hv').1
        exact hx ⟨u, hu, hu0⟩
      rcases hd k d hk with h' | h'
      · exact absurd h' hx
      · cases d with
        | none => exact absurd rfl h'
        | some d =>
          refine ⟨d, by rw [hnone]; rfl, .inr ⟨fun v hv' => ?_, rfl⟩⟩
          by_contra h0
          exact hx ⟨v, hv', h0⟩
  · intro k hk w
    have hb' : Dict.get? b k = none := by
      rw [Dict.get?_eq_none, hkb]
      exact hp.metas k hk
    rw [Dict.get?_update hnm, hb', Option.or_none, Dict.get?_iff_mem hnm, mem_takeMeta, mem_stripTree]
    constructor
    · rintro ⟨⟨v, h1, h2, h3⟩, -, h4⟩
      exact ⟨v, h1, h2, h3, h4⟩
    · rintro ⟨v, h1, h2, h3, h4⟩
      exact ⟨⟨v, h1, h2, h3⟩, hk, h4⟩

/-- a value is not changed by sorting and removal of `None` -/
def Kept (v : TVal L) : Prop :=
  (∀ l, v = .list l → .null ∉ l) ∧ ∀ l : List String, v = .list (l.map .str) → l.Pairwise (· ≤ ·)

theorem SavedAs.of_kept {v w : TVal L} (hv : Kept v) (h : SavedAs v w) : w = v := by
  cases h with
  | same _ => rfl
  | sorted hp hs => rw [List.Perm.eq_of_pairwise (le := (· ≤ ·)) (fun a b _ _ h h' => le_antisymm h h') (hv.2 _ rfl) hs hp]

theorem Kept.strip {v : TVal L} (hv : Kept v) : v.strip = v := by
  cases v with
  | list l =>
    simp only [TVal.strip, TVal.list.injEq, List.filter_eq_self]
    intro x hx
    cases x with
    | null => exact absurd hx (hv.1 l rfl)
    | _ => rfl
  | _ => rfl

/-- nothing happens to the attributes if their lists of strings are sorted -/
theorem look_save_kept (c : Cls L) (h : Heap L) (o : ℕ) (ho : o < h.objs.length) (hv : h.Valid)
    (hk : ∀ k v, (k, v) ∈ h.look o → Kept v) : (save c h o).1.look o = h.look o := by
  cases hc : c.sort with
  | false => rw [C85_unsorted c hc]
  | true =>
    have a1 := C85_saved c hc h o ho hv
    generalize h.look o = x at a1 hk
    generalize (save c h o).1.look o = y at a1
    induction a1 with
    | nil => rfl
    | @cons e e' _ _ p _ ih =>
      rw [ih (fun k v hm => hk k v (List.mem_cons_of_mem _ hm))]
      congr 1
      exact Prod.ext p.1.symm (p.2.of_kept (hk e.1 e.2 (by simp)))

/-- **C85**: an object whose lists of strings are sorted, that has no attributes beside its fields and metadata, and for which `None` only
appears where it is the default, is read back with the same attributes. -/
theorem C85_roundtrip_partial (c : Cls L) (truth : L → Bool) (h : Heap L) (o : ℕ) (ho : o < h.objs.length) (hv : h.Valid)
    (hn : (Dict.keys (h.attrs o)).Nodup) (hp : Plain c (save c h o).2) (hk : ∀ k v, (k, v) ∈ h.look o → Kept v)
    (known : ∀ k v, (k, v) ∈ h.look o → k ∈ Dict.keys c.fields ∨ k ∈ metaKeys)
    (all : ∀ k ∈ Dict.keys c.fields, k ∈ Dict.keys (h.attrs o))
    (null : ∀ k d, (k, d) ∈ c.fields → (k, .null) ∈ h.look o → d = some .null)
    (metas : ∀ k ∈ metaKeys, ∀ v, (k, v) ∈ h.look o → v ≠ .null ∧ v.truth truth = true) :
    ∃ b, load c truth (save c h o).2 = .ok b ∧ ∀ k, Dict.get? b k = Dict.get? (h.look o) k := by
  have e := look_save_kept c h o ho hv hk
  have hnl : (Dict.keys (h.look o)).Nodup := by rw [keys_look]; exact hn
  have attr : ∀ k d, (k, d) ∈ c.fields → ∃ v, (k, v) ∈ h.look o := by
    intro k d hkd
    have := all k (Dict.mem_keys_of_mem hkd)
    rw [← keys_look] at this
    exact Dict.mem_keys_iff.1 this
  obtain ⟨b, hb, h1, h2, h3⟩ := C85_loaded c truth h o ho hv hn hp
    (by rw [e]; exact fun k v hm _ => known k v hm)
    (by
      rw [e]
      intro k d hkd
      obtain ⟨v, hm⟩ := attr k d hkd
      by_cases h0 : v = .null
      · right
        rw [null k d hkd (h0 ▸ hm)]
        simp
      · exact .inl ⟨v, hm, h0⟩)
  rw [e] at h2 h3
  refine ⟨b, hb, fun k => ?_⟩
  by_cases hkf : k ∈ Dict.keys c.fields
  · obtain ⟨d, hkd⟩ := Dict.mem_keys_iff.1 hkf
    obtain ⟨w, hw, hc⟩ := h2 k d hkd
    rw [hw]
    symm
    rcases hc with ⟨v, hm, h0, rfl⟩ | ⟨hall, hdw⟩
    · rw [(hk k v hm).strip]
      exact Dict.get?_of_mem hnl hm
    · obtain ⟨v, hm⟩ := attr k d hkd
      have h0 := hall v hm
      subst h0
      have := null k d hkd hm
      rw [hdw] at this
      simp only [Option.some.injEq] at this
      rw [this]
      exact Dict.get?_of_mem hnl hm
  · by_cases hkm : k ∈ metaKeys
    · cases hg : Dict.get? (h.look o) k with
      | some v =>
        have hm := Dict.mem_of_get? hg
        obtain ⟨h0, ht⟩ := metas k hkm v hm
        exact (h3 k hkm v).2 ⟨v, hm, h0, (hk k v hm).strip.symm, ht⟩
      | none =>
        cases hgb : Dict.get? b k with
        | none => rfl
        | some w =>
          obtain ⟨v, hm, -⟩ := (h3 k hkm w).1 hgb
          rw [Dict.get?_eq_none] at hg
          exact absurd (Dict.mem_keys_of_mem hm) hg
    · have n1 : Dict.get? b k = none := by
        rw [Dict.get?_eq_none]
        intro hm
        rcases h1 k hm with h' | h'
        · exact hkf h'
        · exact hkm h'
      have n2 : Dict.get? (h.look o) k = none := by
        rw [Dict.get?_eq_none]
        intro hm
        obtain ⟨v, hm⟩ := Dict.mem_keys_iff.1 hm
        rcases known k v hm with h' | h'
        · exact hkf h'
        · exact hkm h'
      rw [n1, n2]

/-- **C85**: an object with an attribute beside its fields and metadata is saved, but can not be read. -/
theorem C85_extra (c : Cls L) (truth : L → Bool) (h : Heap L) (o : ℕ) (k : String) (v : TVal L)
    (hm : (k, v) ∈ (save c h o).1.look o) (h0 : v ≠ .null) (hf : k ∉ Dict.keys c.fields) (hk : k ∉ metaKeys)
    (hmod : ∀ t : List (String × TVal L), ∀ e ∈ t, e ∈ c.mod t) : load c truth (save c h o).2 = .error .typeError := by
  have : ¬ ∀ e ∈ c.mod (dropMeta (save c h o).2), e.1 ∈ Dict.keys c.fields := by
    intro hall
    refine hf (hall (k, v.strip) (hmod _ _ (mem_dropMeta.2 ⟨?_, hk⟩)))
    rw [tree_save]
    exact mem_stripTree.2 ⟨v, hm, h0, rfl⟩
  simp only [load, construct, if_neg this]

theorem SavedAs.unique {v w w' : TVal L} (h : SavedAs v w) (h' : SavedAs v w') : w = w' := by
  cases h with
  | same hn =>
    cases h' with
    | same _ => rfl
    | sorted hp hs =>
      obtain ⟨x, hx, hx'⟩ := hn _ rfl
      obtain ⟨s, _, rfl⟩ := List.mem_map.1 hx
      exact absurd rfl (hx' s)
  | @sorted l l' hp hs =>
    generalize hv : TVal.list (l.map (Item.str (L := L))) = v at h'
    cases h' with
    | same hn =>
      obtain ⟨x, hx, hx'⟩ := hn _ hv.symm
      obtain ⟨s, _, rfl⟩ := List.mem_map.1 hx
      exact absurd rfl (hx' s)
    | @sorted a b hp' hs' =>
      have inj : Function.Injective (Item.str (L := L)) := fun a b h => by simpa using h
      have := (List.map_injective_iff.2 inj) (by simpa using hv : l.map (Item.str (L := L)) = a.map .str)
      subst this
      rw [List.Perm.eq_of_pairwise (le := (· ≤ ·)) (fun a b _ _ h h' => le_antisymm h h') hs hs' (hp.symm.trans hp')]

theorem SavedAs.strings {l : List String} {w : TVal L} (h : SavedAs (.list (l.map .str)) w) :
    ∃ l' : List String, w = .list (l'.map .str) ∧ l'.Pairwise (· ≤ ·) := by
  generalize hv : TVal.list (l.map (Item.str (L := L))) = v at h
  cases h with
  | same hn =>
    obtain ⟨x, hx, hx'⟩ := hn _ hv.symm
    obtain ⟨s, _, rfl⟩ := List.mem_map.1 hx
    exact absurd rfl (hx' s)
  | sorted hp hs => exact ⟨_, rfl, hs⟩

/-- **C85**: saving an object with a list of strings that is not sorted changes this object. -/
theorem C85_changed (c : Cls L) (hc : c.sort = true) (h : Heap L) (o : ℕ) (ho : o < h.objs.length) (hv : h.Valid) (k : String)
    (l : List String) (hk : (k, TVal.list (l.map .str)) ∈ h.look o) (hl : ¬ l.Pairwise (· ≤ ·)) :
    (save c h o).1.look o ≠ h.look o := by
  intro e
  have a1 := C85_saved c hc h o ho hv
  rw [e] at a1
  have a2 : ∀ x : List (String × TVal L), List.Forall₂ (fun e e' => e.1 = e'.1 ∧ SavedAs e.2 e'.2) x x →
      ∀ y ∈ x, SavedAs y.2 y.2 := by
    intro x hx
    induction x with
    | nil => simp
    | cons a x ih =>
      cases hx with
      | cons p q =>
        intro y hy
        rcases List.mem_cons.1 hy with rfl | hy
        · exact p.2
        · exact ih q y hy
  have := a2 _ a1 _ hk
  obtain ⟨l', e', hs⟩ := this.strings
  have inj : Function.Injective (Item.str (L := L)) := fun a b h => by simpa using h
  have := (List.map_injective_iff.2 inj) (by simpa using e' : l.map (Item.str (L := L)) = l'.map .str)
  subst this
  exact hl hs

/-! ## Measurement equipment -/

theorem itemNames_leaf (name : L → Option String) (l : List L) : itemNames name (.list (l.map .leaf)) = l.mapM name := by
  simp only [itemNames]
  induction l with
  | nil => rfl
  | cons x l ih => simp only [List.map_cons, List.mapM_cons, ih]

theorem kept_leaf (l : List L) : Kept (.list (l.map .leaf)) := by
  constructor
  · intro m hm
    simp only [TVal.list.injEq] at hm
    subst hm
    simp
  · intro m hm
    cases m with
    | nil => exact .nil
    | cons a m =>
      cases l with
      | nil => simp at hm
      | cons b l => simp at hm

/-- **C85**: equipment with distinct names of sources and transformations is saved and read without a change. -/
theorem C85_equipment (name : L → Option String) (truth : L → Bool) (h : Heap L) (o : ℕ) (ho : o < h.objs.length) (hv : h.Valid)
    (n : String) (src tr : List L) (s t : List String)
    (hl : h.look o = [("name", .str n), ("sources", .list (src.map .leaf)), ("transformations", .list (tr.map .leaf))])
    (hs : src.mapM name = some s) (hsn : s.Nodup) (ht : tr.mapM name = some t) (htn : t.Nodup) :
    (save (equipment name) h o).1.look o = h.look o ∧
      ∃ b, load (equipment name) truth (save (equipment name) h o).2 = .ok b ∧ ∀ k, Dict.get? b k = Dict.get? (h.look o) k := by
  have hk : ∀ k v, (k, v) ∈ h.look o → Kept v := by
    rw [hl]
    intro k v hm
    simp only [List.mem_cons, Prod.mk.injEq, List.not_mem_nil, or_false] at hm
    rcases hm with ⟨-, rfl⟩ | ⟨-, rfl⟩ | ⟨-, rfl⟩
    · exact ⟨by simp, by simp⟩
    · exact kept_leaf src
    · exact kept_leaf tr
  have e := look_save_kept (equipment name) h o ho hv hk
  refine ⟨e, ?_⟩
  have ek : Dict.keys (h.attrs o) = ["name", "sources", "transformations"] := by
    rw [← keys_look, hl]
    rfl
  have etree : (save (equipment name) h o).2 = h.look o := by
    rw [tree_save, e, hl]
    simp [stripTree, TVal.some?, (kept_leaf src).strip, (kept_leaf tr).strip, TVal.strip, Item.some?]
  have edrop : dropMeta (h.look o) = h.look o := by
    rw [hl]
    simp [dropMeta, metaKeys]
  refine C85_roundtrip_partial (equipment name) truth h o ho hv (by rw [ek]; decide) ?_ hk ?_ ?_ ?_ ?_
  · refine ⟨by simp [equipment, Dict.keys], by simp [equipment, Dict.keys, metaKeys], ?_, ?_⟩
    · rw [etree, edrop, hl]
      simp [equipment, Dict.keys]
    · rw [etree, edrop]
      intro a ha
      have g1 : Dict.get? (h.look o) "name" = some (.str n) := by simp [hl, Dict.get?]
      have g2 : Dict.get? (h.look o) "sources" = some (.list (src.map .leaf)) := by simp [hl, Dict.get?]
      have g3 : Dict.get? (h.look o) "transformations" = some (.list (tr.map .leaf)) := by simp [hl, Dict.get?]
      simp only [equipment, fill, g1, g2, g3, Option.some_or, Except.ok.injEq] at ha
      have a2 : Dict.get? a "sources" = some (.list (src.map .leaf)) := by simp [← ha, Dict.get?]
      have a3 : Dict.get? a "transformations" = some (.list (tr.map .leaf)) := by simp [← ha, Dict.get?]
      simp only [equipment, equipmentPost, a2, a3, Option.getD_some, itemNames_leaf, hs, ht, hsn, htn, not_true_eq_false, if_false]
  · rw [hl]
    intro k v hm
    simp only [List.mem_cons, Prod.mk.injEq, List.not_mem_nil, or_false] at hm
    rcases hm with ⟨rfl, -⟩ | ⟨rfl, -⟩ | ⟨rfl, -⟩ <;> simp [equipment, Dict.keys]
  · rw [ek]
    simp [equipment, Dict.keys]
  · rw [hl]
    simp
  · rw [hl]
    intro k hk v hm
    simp only [metaKeys, List.mem_cons, List.not_mem_nil, or_false] at hk
    simp only [List.mem_cons, Prod.mk.injEq, List.not_mem_nil, or_false] at hm
    rcases hk with rfl | rfl <;> simp at hm

/-- **C85**: a file with equipment that has no `sources`, which the schema allows, can not be read. -/
theorem C85_equipment_sources (name : L → Option String) (truth : L → Bool) (t : List (String × TVal L))
    (ht : "sources" ∉ Dict.keys t) : load (equipment name) truth t = .error .typeError := by
  have hd : "sources" ∉ Dict.keys (dropMeta t) := fun hm => by
    obtain ⟨v, hv⟩ := Dict.mem_keys_iff.1 hm
    exact ht (Dict.mem_keys_of_mem (mem_dropMeta.1 hv).1)
  have hmod : (equipment name).mod (dropMeta t) = dropMeta t ++ [("sources", .null)] := by
    simp [equipment, hd]
  have hg : Dict.get? (dropMeta t ++ [("sources", .null)]) "sources" = some TVal.null := by
    rw [Dict.get?_append, Dict.get?_eq_none.2 hd]
    rfl
  have hc : construct (equipment name) (dropMeta t ++ [("sources", .null)]) = .error .typeError := by
    unfold construct
    split
    · simp only [equipment, fill, hg, Option.some_or]
      cases h1 : (Dict.get? (dropMeta t ++ [("sources", TVal.null)]) "name").or none with
      | none => rfl
      | some x =>
        cases h2 : (Dict.get? (dropMeta t ++ [("sources", TVal.null)]) "transformations").or (some (.list [])) with
        | none => rfl
        | some y => simp [equipmentPost, Dict.get?, itemNames]
    · rfl
  simp only [load, hmod, hc]

theorem fill_missing {fs : List (String × Option (TVal L))} {t : List (String × TVal L)} {k : String} (hk : (k, none) ∈ fs)
    (ht : k ∉ Dict.keys t) : fill fs t = .error .typeError := by
  induction fs with
  | nil => cases hk
  | cons e fs ih =>
    obtain ⟨k', d⟩ := e
    rcases List.mem_cons.1 hk with h | h
    · cases h
      simp only [fill, Dict.get?_eq_none.2 ht, Option.or_none]
    · simp only [fill]
      cases (Dict.get? t k').or d with
      | none => rfl
      | some v => simp only [ih h]

/-- **C85**: a file without a field that has no default can not be read. -/
theorem C85_missing (c : Cls L) (truth : L → Bool) (t : List (String × TVal L)) (k : String) (hk : (k, none) ∈ c.fields)
    (hm : c.mod = id) (ht : k ∉ Dict.keys t) : load c truth t = .error .typeError := by
  have hd : k ∉ Dict.keys (dropMeta t) := fun hm => by
    obtain ⟨v, hv⟩ := Dict.mem_keys_iff.1 hm
    exact ht (Dict.mem_keys_of_mem (mem_dropMeta.1 hv).1)
  have hc : construct c (dropMeta t) = .error .typeError := by
    unfold construct
    split
    · rw [fill_missing hk hd]
    · rfl
  simp only [load, hm, id_eq, hc]

example : load (⟨true, [("x", none)], id, .ok⟩ : Cls ℕ) (fun _ => true) [] = .error .typeError :=
  C85_missing _ _ _ "x" (by simp) rfl (by simp [Dict.keys])

/-- **C85**: equipment with two sources or two transformations of the same name is refused. -/
theorem C85_equipment_names (name : L → Option String) (truth : L → Bool) (n : String) (src tr : List L) (s t : List String)
    (hs : src.mapM name = some s) (ht : tr.mapM name = some t) (h : ¬ (s.Nodup ∧ t.Nodup)) :
    load (equipment name) truth [("name", .str n), ("sources", .list (src.map .leaf)), ("transformations", .list (tr.map .leaf))] =
      .error .valueError := by
  have e1 : ∀ l : List L, itemNames name (.list (l.map .leaf)) = l.mapM name := by
    intro l
    simp only [itemNames, List.mapM_map]
    rfl
  have hd : dropMeta [("name", TVal.str n), ("sources", .list (src.map .leaf)), ("transformations", .list (tr.map .leaf))] =
      [("name", .str n), ("sources", .list (src.map .leaf)), ("transformations", .list (tr.map .leaf))] := by
    simp [dropMeta, metaKeys]
  have hc : construct (equipment name) [("name", TVal.str n), ("sources", .list (src.map .leaf)), ("transformations", .list (tr.map .leaf))] =
      .error .valueError := by
    simp only [construct, equipment, Dict.keys, fill, Dict.get?]
    have g1 : Dict.get? [("name", TVal.str n), ("sources", .list (src.map .leaf)), ("transformations", .list (tr.map .leaf))] "sources" =
      some (TVal.list (src.map Item.leaf)) := by simp [Dict.get?]
    have g2 : Dict.get? [("name", TVal.str n), ("sources", .list (src.map .leaf)), ("transformations", .list (tr.map .leaf))]
      "transformations" = some (TVal.list (tr.map Item.leaf)) := by simp [Dict.get?]
    simp [equipmentPost, g1, g2, e1, hs, ht]
    intro h1 h2
    exact absurd ⟨h1, h2⟩ h
  have hm : (equipment name).mod [("name", TVal.str n), ("sources", .list (src.map .leaf)), ("transformations", .list (tr.map .leaf))] =
      [("name", TVal.str n), ("sources", .list (src.map .leaf)), ("transformations", .list (tr.map .leaf))] := by
    simp [equipment, Dict.keys]
  simp only [load, hd, hm, hc]

example : load (equipment fun n : ℕ => some (toString (n / 2))) (fun _ => true)
    [("name", .str "e"), ("sources", .list ([0, 1].map .leaf)), ("transformations", .list ([].map .leaf))] = .error .valueError :=
  C85_equipment_names _ _ "e" [0, 1] [] ["0", "0"] [] rfl rfl (by decide)

/-- two objects share a list of strings -/
def sharedHeap : Heap ℕ := ⟨[[.str "b", .str "a"]], [[("x", .list 0)], [("x", .list 0)]]⟩

/-- a class with one field -/
def oneField : Cls ℕ := ⟨true, [("x", none)], id, .ok⟩

/-- **C85**: saving one of two objects that share a list changes its order and ends the sharing. -/
theorem C85_shared_counterexample :
    sharedHeap.attrs 0 = sharedHeap.attrs 1 ∧ (save oneField sharedHeap 0).1.look 0 ≠ sharedHeap.look 0 ∧
      (save oneField sharedHeap 0).1.look 1 = sharedHeap.look 1 ∧
      (save oneField sharedHeap 0).1.attrs 0 ≠ (save oneField sharedHeap 0).1.attrs 1 := by
  have hv : sharedHeap.Valid := by
    intro a ha k r hr
    simp only [sharedHeap, List.mem_cons, List.not_mem_nil, or_false, or_self] at ha
    subst ha
    simp at hr
    simp [sharedHeap, hr]
  have h1 := C85_changed oneField rfl sharedHeap 0 (by simp [sharedHeap]) hv "x" ["b", "a"] (by simp [Heap.look, Heap.attrs, sharedHeap, Heap.value, Heap.items])
    (by simp)
  have h2 := ((C85_others oneField sharedHeap 0 hv).2 1 (by decide)).2
  refine ⟨rfl, h1, h2, fun e => h1 ?_⟩
  have : (save oneField sharedHeap 0).1.look 0 = (save oneField sharedHeap 0).1.look 1 := by
    simp only [Heap.look, e]
  rw [this, h2]
  rfl

/-- an object with an attribute that is no field -/
def extraHeap : Heap ℕ := ⟨[], [[("x", .leaf 1), ("note", .str "n")]]⟩

/-- **C85**: an attribute that is added to an object is written, and the file can not be read. -/
theorem C85_extra_counterexample : load oneField (fun _ => true) (save oneField extraHeap 0).2 = .error .typeError :=
  C85_extra oneField _ extraHeap 0 "note" (.str "n")
    (by simp [save, oneField, extraHeap, Heap.attrs, Heap.look, sortAttrs, sortVal, Heap.value]) (by simp) (by simp [oneField, Dict.keys])
    (by decide) (by simp [oneField])

/-- a class with a default -/
def withDefault : Cls ℕ := ⟨true, [("x", some (.leaf 5))], id, .ok⟩

/-- **C85**: an attribute that is `None` is read as the default. -/
theorem C85_default_counterexample :
    load withDefault (fun _ => true) (save withDefault ⟨[], [[("x", .null)]]⟩ 0).2 = .ok [("x", .leaf 5)] := by
  simp [save, withDefault, Heap.attrs, Heap.look, sortAttrs, sortVal, Heap.value, stripTree, TVal.some?, load, dropMeta, takeMeta, construct,
    fill, Dict.get?, Dict.update]

/-! ## Arc welding processes -/

/-- **C85**: a process is created from its name or its abbreviation, and both agree. -/
theorem C85_arc (s : String) (p : Process) :
    Process.init s = .ok p ↔ (p.name, p.abbreviation) ∈ nameToAbbr ∧ (s = p.name ∨ s = p.abbreviation) := by
  have t1 : (Dict.keys nameToAbbr).Nodup := by decide +kernel
  have t2 : (Dict.keys abbrToName).Nodup := by decide +kernel
  have t3 : ∀ e ∈ nameToAbbr, (e.2, e.1) ∈ abbrToName := by decide +kernel
  have t4 : ∀ e ∈ abbrToName, (e.2, e.1) ∈ nameToAbbr := by decide +kernel
  have t5 : ∀ e ∈ abbrToName, e.1 ∉ Dict.keys nameToAbbr := by decide +kernel
  obtain ⟨n, a⟩ := p
  unfold Process.init
  constructor
  · intro h
    cases h1 : Dict.get? nameToAbbr s with
    | some x =>
      simp only [h1, Except.ok.injEq, Process.mk.injEq] at h
      obtain ⟨rfl, rfl⟩ := h
      exact ⟨Dict.mem_of_get? h1, .inl rfl⟩
    | none =>
      cases h2 : Dict.get? abbrToName s with
      | some x =>
        simp only [h1, h2, Except.ok.injEq, Process.mk.injEq] at h
        obtain ⟨rfl, rfl⟩ := h
        exact ⟨t4 _ (Dict.mem_of_get? h2), .inr rfl⟩
      | none => simp [h1, h2] at h
  · rintro ⟨hm, hs⟩
    simp only at hm hs
    rcases hs with rfl | rfl
    · simp only [Dict.get?_of_mem t1 hm]
    · have h2 := t3 _ hm
      simp only at h2
      have h1 : Dict.get? nameToAbbr s = none := Dict.get?_eq_none.2 (t5 _ h2)
      simp only [h1, Dict.get?_of_mem t2 h2]

/-- **C85**: a stored process is read as it was; a file in which name and abbreviation do not agree is read by its name. -/
theorem C85_arc_read (s : String) (p : Process) (h : Process.init s = .ok p) :
    Process.read p = .ok p ∧ ∀ a, Process.read ⟨p.name, a⟩ = .ok p := by
  have h' : Process.init p.name = .ok p := (C85_arc p.name p).2 ⟨((C85_arc s p).1 h).1, .inl rfl⟩
  exact ⟨h', fun _ => h'⟩

example : Process.init "GMAW" = .ok ⟨"gasMetalArcWelding", "GMAW"⟩ := by
  rw [C85_arc]
  decide +kernel

example : Process.read ⟨"gasMetalArcWelding", "SAW"⟩ = .ok ⟨"gasMetalArcWelding", "GMAW"⟩ :=
  (C85_arc_read "GMAW" ⟨"gasMetalArcWelding", "GMAW"⟩ ((C85_arc _ _).2 (by decide +kernel))).2 "SAW"

/-! ## Examples -/

/-- an instance of equipment with two sources -/
def exHeap : Heap ℕ := ⟨[[.leaf 1, .leaf 2], []], [[("name", .str "e"), ("sources", .list 0), ("transformations", .list 1)]]⟩

theorem exHeap_valid : exHeap.Valid := by
  intro a ha k r hr
  simp only [exHeap, List.mem_cons, List.not_mem_nil, or_false] at ha
  subst ha
  simp at hr
  rcases hr with ⟨-, rfl⟩ | ⟨-, rfl⟩ <;> simp [exHeap]

example : ∃ b, load (equipment fun n => some (if n = 1 then "a" else "b")) (fun _ => true)
    (save (equipment fun n => some (if n = 1 then "a" else "b")) exHeap 0).2 = .ok b ∧
      ∀ k, Dict.get? b k = Dict.get? (exHeap.look 0) k :=
  (C85_equipment (fun n => some (if n = 1 then "a" else "b")) (fun _ => true) exHeap 0 (by simp [exHeap]) exHeap_valid "e" [1, 2] [] ["a", "b"] []
    (by simp [exHeap, Heap.look, Heap.attrs, Heap.value, Heap.items]) (by simp) (by decide +kernel) (by simp) (by simp)).2

/-- an object with metadata, a list of strings and a value that is `None` -/
def exHeap₂ : Heap ℕ := ⟨[[.str "b", .str "a"]],
  [[("x", .list 0), ("y", .null), ("wx_user", .leaf 3)]]⟩

/-- a class with two fields -/
def twoFields : Cls ℕ := ⟨true, [("x", none), ("y", some (.leaf 7))], id, .ok⟩

theorem exHeap₂_valid : exHeap₂.Valid := by
  intro a ha k r hr
  simp only [exHeap₂, List.mem_cons, List.not_mem_nil, or_false] at ha
  subst ha
  simp at hr
  simp [exHeap₂, hr]

theorem exHeap₂_look : (save twoFields exHeap₂ 0).1.look 0 = [("x", .list [.str "a", .str "b"]), ("y", .null), ("wx_user", .leaf 3)] := by
  have h := C85_saved twoFields rfl exHeap₂ 0 (by simp [exHeap₂]) exHeap₂_valid
  have e : exHeap₂.look 0 = [("x", .list [.str "b", .str "a"]), ("y", .null), ("wx_user", .leaf 3)] := by
    simp [exHeap₂, Heap.look, Heap.attrs, Heap.value, Heap.items]
  rw [e] at h
  generalize (save twoFields exHeap₂ 0).1.look 0 = z at h
  cases h with
  | @cons _ a _ za p h =>
  cases h with
  | @cons _ b _ zb q h =>
  cases h with
  | @cons _ c _ zc r h =>
  cases h
  obtain ⟨a1, a2⟩ := a
  obtain ⟨b1, b2⟩ := b
  obtain ⟨c1, c2⟩ := c
  obtain ⟨p1, p2⟩ := p
  obtain ⟨q1, q2⟩ := q
  obtain ⟨r1, r2⟩ := r
  simp only at p1 p2 q1 q2 r1 r2
  subst p1 q1 r1
  have ha : a2 = .list [.str "a", .str "b"] :=
    p2.unique (.sorted (l := ["b", "a"]) (l' := ["a", "b"]) (List.Perm.swap _ _ _) (by simp))
  cases q2
  cases r2
  rw [ha]

example : ∃ b, load twoFields (fun _ => true) (save twoFields exHeap₂ 0).2 = .ok b ∧ Dict.get? b "y" = some (.leaf 7) ∧
    Dict.get? b "x" = some (.list [.str "a", .str "b"]) ∧ Dict.get? b "wx_user" = some (.leaf 3) := by
  obtain ⟨b, hb, -, h2, h3⟩ := C85_loaded twoFields (fun _ => true) exHeap₂ 0 (by simp [exHeap₂]) exHeap₂_valid
    (by simp [exHeap₂, Heap.attrs, Dict.keys])
    ⟨by simp [twoFields, Dict.keys], by simp [twoFields, Dict.keys, metaKeys], rfl, fun _ _ => rfl⟩
    (by
      rw [exHeap₂_look]
      simp only [twoFields, Dict.keys, metaKeys, List.mem_cons, Prod.mk.injEq, List.not_mem_nil, or_false, List.map_cons, List.map_nil]
      rintro k v (⟨rfl, -⟩ | ⟨rfl, -⟩ | ⟨rfl, -⟩) _ <;> simp)
    (by
      rw [exHeap₂_look]
      simp only [twoFields, List.mem_cons, Prod.mk.injEq, List.not_mem_nil, or_false]
      rintro k d (⟨rfl, rfl⟩ | ⟨rfl, rfl⟩)
      · exact .inl ⟨_, .inl ⟨rfl, rfl⟩, by simp⟩
      · simp)
  rw [exHeap₂_look] at h2 h3
  refine ⟨b, hb, ?_, ?_, ?_⟩
  · obtain ⟨w, hw, h | h⟩ := h2 "y" (some (.leaf 7)) (by simp [twoFields])
    · simp at h
    · simp only [Option.some.injEq] at h
      rw [hw, ← h.2]
  · obtain ⟨w, hw, h | h⟩ := h2 "x" none (by simp [twoFields])
    · simp at h
      rw [hw, h]
      rfl
    · simp at h
  · exact (h3 "wx_user" (by decide) _).2 ⟨.leaf 3, by simp, by simp, rfl, rfl⟩

end Weldx.Dc
