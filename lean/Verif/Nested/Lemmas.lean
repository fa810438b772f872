import Verif.Nested.Spec
import Mathlib.Data.List.Nodup
import Mathlib.Data.List.Basic
import Mathlib.Data.List.Range

namespace Weldx.Nested
variable {A : Type}

theorem getPath_append (v : Value A) (p : List Key) (k : Key) :
    getPath v (p ++ [k]) = match getPath v p with
      | .ok w => (match index w k with | .ok x => .ok x | .error _ => .error .lookup)
      | .error _ => .error .lookup := by
  induction p generalizing v with
  | nil => simp only [List.nil_append, getPath]; cases index v k <;> rfl
  | cons q p ih =>
    simp only [List.cons_append, getPath]
    cases index v q with
    | error e => rfl
    | ok w => exact ih w

theorem getPath_snoc {v w x : Value A} {p : List Key} {k : Key} (h : getPath v p = .ok w) (hi : index w k = .ok x) :
    getPath v (p ++ [k]) = .ok x := by rw [getPath_append, h]; simp only [hi]

mutual
/-- `y` contains all leaves of the first value at the same place -/
def Covers : Value A → Value A → Prop
  | .leaf l, y => y = .leaf l
  | .cont _ _ es, y => CoversEntries es y
def CoversEntries : Entries A → Value A → Prop
  | .nil, _ => True
  | .cons k v es, y => (∃ z, index y k = .ok z ∧ Covers v z) ∧ CoversEntries es y
end

theorem coversEntries_iff : ∀ (es : Entries A) (y : Value A), CoversEntries es y ↔
    ∀ k v, (k, v) ∈ es.toList → ∃ z, index y k = .ok z ∧ Covers v z
  | .nil, y => by simp [CoversEntries, Entries.toList]
  | .cons k v es, y => by
    simp only [CoversEntries, Entries.toList, List.mem_cons, coversEntries_iff es y]
    constructor
    · rintro ⟨h1, h2⟩ k' v' (h | h)
      · cases h; exact h1
      · exact h2 _ _ h
    · exact fun h => ⟨h _ _ (.inl rfl), fun k' v' h' => h _ _ (.inr h')⟩

theorem sameEntries_iff (K : Kind → Kind → Prop) : ∀ (es es' : Entries A), SameEntries K es es' ↔
    ∀ k v, (k, v) ∈ es.toList → ∃ w, (k, w) ∈ es'.toList ∧ Same K v w
  | .nil, y => by simp [SameEntries, Entries.toList]
  | .cons k v es, y => by
    simp only [SameEntries, Entries.toList, List.mem_cons, sameEntries_iff K es y]
    constructor
    · rintro ⟨h1, h2⟩ k' v' (h | h)
      · cases h; exact h1
      · exact h2 _ _ h
    · exact fun h => ⟨h _ _ (.inl rfl), fun k' v' h' => h _ _ (.inr h')⟩

theorem wfEntries_iff : ∀ (es : Entries A), WFEntries es ↔ ∀ k v, (k, v) ∈ es.toList → WF v
  | .nil => by simp [WFEntries, Entries.toList]
  | .cons k v es => by
    simp only [WFEntries, Entries.toList, List.mem_cons, wfEntries_iff es]
    constructor
    · rintro ⟨h1, h2⟩ k' v' (h | h)
      · cases h; exact h1
      · exact h2 _ _ h
    · exact fun h => ⟨h _ _ (.inl rfl), fun k' v' h' => h _ _ (.inr h')⟩

/-- keys that a well formed container may have -/
def Key.NonNeg (k : Key) : Prop := ∀ n, k = .int n → 0 ≤ n

theorem WF.nonNeg {i : Nat} {kd : Kind} {es : Entries A} (h : WF (.cont i kd es)) {k : Key} (hk : k ∈ Dict.keys es.toList) :
    k.NonNeg := by
  simp only [WF] at h
  rintro n rfl; exact h.2.1 n hk

theorem index_iff {i : Nat} {kd : Kind} {es : Entries A} (h : WF (.cont i kd es)) {k : Key} (hk : k.NonNeg)
    {z : Value A} : index (.cont i kd es) k = .ok z ↔ (k, z) ∈ es.toList := by
  simp only [WF] at h
  have key : ∀ k', (match Dict.get? es.toList k' with
      | some v => (.ok v : Except CErr (Value A)) | none => .error .lookup) = .ok z ↔ (k', z) ∈ es.toList := by
    intro k'
    rw [← Dict.get?_iff_mem h.1]
    cases Dict.get? es.toList k' <;> simp
  have seq : kd ≠ .dict → ((match k with
      | .int n => (match Dict.get? es.toList (.int (if n < 0 then n + es.length else n)) with
        | some v => (.ok v : Except CErr (Value A))
        | none => .error .lookup)
      | .str _ => .error .typeError) = .ok z ↔ (k, z) ∈ es.toList) := by
    intro hd
    cases k with
    | int n =>
      have : ¬ n < 0 := by have := hk n rfl; omega
      simp only [this, if_false]
      exact key _
    | str s =>
      simp only [reduceCtorEq, false_iff]
      intro hm
      have := Dict.mem_keys_of_mem hm
      rw [h.2.2.1 hd] at this
      simp at this
  cases kd with
  | dict => simp only [index]; exact key k
  | list => rw [← seq (by simp)]; cases k <;> rfl
  | tuple => rw [← seq (by simp)]; cases k <;> rfl

theorem visit_ok [DecidableEq A] {a b v : Value A} {p : List Key} {k : Key} (h : visit a b p k v = .ok ()) :
    ∃ y z, getPath b p = .ok y ∧ index y k = .ok z ∧ (∀ l, v = .leaf l → z = .leaf l) := by
  unfold visit at h
  cases ha : getPath a p with
  | error e => simp only [ha, bind, Except.bind] at h; cases h
  | ok ds =>
    cases hb : getPath b p with
    | error e => simp only [ha, hb, bind, Except.bind] at h; cases h
    | ok ods =>
      cases hi : index ods k with
      | error e => simp only [ha, hb, hi, bind, Except.bind] at h; cases h
      | ok ov =>
        refine ⟨_, _, rfl, hi, ?_⟩
        rintro l rfl
        simp only [ha, hb, hi, bind, Except.bind, entered, Bool.false_eq_true, if_false] at h
        have hc : compare (.leaf l) ov = true := by
          by_contra hc
          simp only [hc, if_false] at h
          repeat' split at h
          all_goals cases h
        cases ov with
        | leaf l' => simp only [compare, decide_eq_true_eq] at hc; rw [hc]
        | cont i kd es => cases hc

mutual
theorem walkValue_covers [DecidableEq A] (a b : Value A) : ∀ (v : Value A) (p : List Key) (k : Key) (r r' : List Nat),
    walkValue a b p k r v = .ok r' → (ids v).Nodup → (∀ i ∈ ids v, i ∉ r) →
    (∃ y z, getPath b p = .ok y ∧ index y k = .ok z ∧ Covers v z) ∧ (∀ i ∈ r', i ∈ r ∨ i ∈ ids v)
  | .leaf l, p, k, r, r', h, hn, hd => by
    simp only [walkValue, bind, Except.bind] at h
    split at h
    · cases h
    · rename_i hv
      cases h
      obtain ⟨y, z, h1, h2, h3⟩ := visit_ok hv
      exact ⟨⟨y, z, h1, h2, h3 l rfl⟩, fun i hi => .inl hi⟩
  | .cont i kd es, p, k, r, r', h, hn, hd => by
    have hi : i ∉ r := hd i (by simp [ids])
    simp only [ids, List.nodup_cons] at hn
    simp only [walkValue, hi, if_false, bind, Except.bind] at h
    split at h
    · cases h
    · rename_i r1 hw
      split at h
      · cases h
      · rename_i hv
        cases h
        obtain ⟨y, z, h1, h2, -⟩ := visit_ok hv
        obtain ⟨h3, h4⟩ := walkEntries_covers a b es (p ++ [k]) (i :: r) r' hw hn.2 (by
          intro j hj hm
          rcases List.mem_cons.1 hm with rfl | hm
          · exact hn.1 hj
          · exact hd j (by simp [ids, hj]) hm)
        refine ⟨⟨y, z, h1, h2, ?_⟩, ?_⟩
        · simp only [Covers]
          exact h3 z (getPath_snoc h1 h2)
        · intro j hj
          rcases h4 j hj with h | h
          · rcases List.mem_cons.1 h with rfl | h
            · exact .inr (by simp [ids])
            · exact .inl h
          · exact .inr (by simp [ids, h])
theorem walkEntries_covers [DecidableEq A] (a b : Value A) : ∀ (es : Entries A) (p : List Key) (r r' : List Nat),
    walkEntries a b p r es = .ok r' → (idsEntries es).Nodup → (∀ i ∈ idsEntries es, i ∉ r) →
    (∀ y, getPath b p = .ok y → CoversEntries es y) ∧ (∀ i ∈ r', i ∈ r ∨ i ∈ idsEntries es)
  | .nil, p, r, r', h, hn, hd => by
    simp only [walkEntries] at h; cases h
    exact ⟨fun _ _ => by simp [CoversEntries], fun i hi => .inl hi⟩
  | .cons k v es, p, r, r', h, hn, hd => by
    simp only [idsEntries, List.nodup_append] at hn
    simp only [walkEntries, bind, Except.bind] at h
    split at h
    · cases h
    · rename_i r1 hw
      obtain ⟨⟨y, z, h1, h2, h3⟩, h4⟩ := walkValue_covers a b v p k r r1 hw hn.1
        (fun i hi => hd i (by simp [idsEntries, hi]))
      obtain ⟨h5, h6⟩ := walkEntries_covers a b es p r1 r' h hn.2.1 (by
        intro i hi hm
        rcases h4 i hm with h | h
        · exact hd i (by simp [idsEntries, hi]) h
        · exact hn.2.2 i h i hi rfl)
      refine ⟨?_, ?_⟩
      · intro y' hy'
        rw [h1] at hy'; cases hy'
        simp only [CoversEntries]
        exact ⟨⟨z, h2, h3⟩, h5 y h1⟩
      · intro i hi
        rcases h6 i hi with h | h
        · rcases h4 i h with h | h
          · exact .inl h
          · exact .inr (by simp [idsEntries, h])
        · exact .inr (by simp [idsEntries, h])
end

/-- What the result `True` means: everything in `a` is found in `b`. -/
theorem compareNested_covers [DecidableEq A] {a b : Value A} (hs : NoSharing a) (h : compareNested a b = .ok true) :
    Covers a b := by
  unfold compareNested at h
  cases a with
  | leaf l =>
    simp only at h
    cases b with
    | leaf l' => cases h
    | cont i kd es => cases kd <;> cases h
  | cont i kd es =>
    simp only at h
    cases hw : walkEntries (.cont i kd es) b [] [i] es with
    | error e => rw [hw] at h; cases e <;> cases h
    | ok r =>
      unfold NoSharing at hs
      simp only [ids, List.nodup_cons] at hs
      exact (walkEntries_covers _ b es [] [i] r hw hs.2 (by
        intro j hj hm
        obtain rfl := List.mem_singleton.1 hm
        exact hs.1 hj)).1 b rfl

mutual
theorem same_of_covers : ∀ (v y : Value A), WF v → WF y → Covers v y → Covers y v → Same (fun _ _ => True) v y
  | .leaf l, y, _, _, h, _ => by simpa only [Same, Covers] using h
  | .cont i kd es, .leaf l, _, _, _, h => by simp only [Covers] at h; cases h
  | .cont i kd es, .cont j kd' es', hv, hy, h, h' => by
    simp only [Covers, coversEntries_iff] at h h'
    simp only [Same]
    have wv := (wfEntries_iff es).1 (by simp only [WF] at hv; exact hv.2.2.2)
    have wy := (wfEntries_iff es').1 (by simp only [WF] at hy; exact hy.2.2.2)
    refine ⟨j, kd', es', rfl, trivial, ?_, sameEntries_of_covers es es' ?_⟩
    · intro k hk
      obtain ⟨w, hw⟩ := Dict.mem_keys_iff.1 hk
      obtain ⟨z, hz, -⟩ := h' k w hw
      exact Dict.mem_keys_of_mem ((index_iff hv (hy.nonNeg hk)).1 hz)
    · intro k v hm
      obtain ⟨z, hz, hc⟩ := h k v hm
      have hk := hv.nonNeg (Dict.mem_keys_of_mem hm)
      have hz' := (index_iff hy hk).1 hz
      obtain ⟨v', hv', hc'⟩ := h' k z hz'
      have := (index_iff hv hk).2 hm
      rw [this] at hv'; cases hv'
      exact ⟨z, hz', hc, hc', wv k v hm, wy k z hz'⟩
theorem sameEntries_of_covers : ∀ (es es' : Entries A), (∀ k v, (k, v) ∈ es.toList →
    ∃ z, (k, z) ∈ es'.toList ∧ Covers v z ∧ Covers z v ∧ WF v ∧ WF z) → SameEntries (fun _ _ => True) es es'
  | .nil, _, _ => by simp only [SameEntries]
  | .cons k v es, es', h => by
    simp only [SameEntries]
    obtain ⟨z, h1, h2, h3, h4, h5⟩ := h k v (by simp [Entries.toList])
    exact ⟨⟨z, h1, same_of_covers v z h4 h5 h2 h3⟩,
      sameEntries_of_covers es es' fun k' v' h' => h k' v' (by simp [Entries.toList, h'])⟩
end

theorem keys_length {es es' : Entries A} (h : (Dict.keys es.toList).Nodup) (h' : (Dict.keys es'.toList).Nodup)
    (h1 : ∀ k, k ∈ Dict.keys es'.toList ↔ k ∈ Dict.keys es.toList) : es'.length = es.length := by
  have := ((List.perm_ext_iff_of_nodup h' h).2 h1).length_eq
  simpa [Dict.keys, Entries.length] using this

theorem visit_complete [DecidableEq A] {a b : Value A} {p : List Key} {ia ib : Nat} {kd : Kind} {ea eb : Entries A}
    (ha : getPath a p = .ok (.cont ia kd ea)) (hb : getPath b p = .ok (.cont ib kd eb))
    (wa : WF (.cont ia kd ea)) (wb : WF (.cont ib kd eb)) (hk : ∀ k, k ∈ Dict.keys eb.toList ↔ k ∈ Dict.keys ea.toList)
    {k : Key} {v w : Value A} (hw : (k, w) ∈ eb.toList) (hs : Same (· = ·) v w) :
    visit a b p k v = .ok () := by
  have hi := (index_iff wb (wb.nonNeg (Dict.mem_keys_of_mem hw))).2 hw
  unfold visit
  simp only [ha, hb, hi, bind, Except.bind]
  split
  · rfl
  · rename_i he
    have wa' := wa
    have wb' := wb
    simp only [WF] at wa' wb'
    have hlen := keys_length wa'.1 wb'.1 hk
    have hcmp : compare v w = true := by
      cases v with
      | leaf l => simp only [Same] at hs; subst hs; simp [compare]
      | cont i kd' es =>
        cases kd' with
        | list => exact absurd rfl he
        | tuple => exact absurd rfl he
        | dict =>
          simp only [entered, Bool.not_eq_true, Bool.not_eq_false'] at he
          simp only [Same] at hs
          obtain ⟨j, kd2, es', rfl, rfl, h2, h3⟩ := hs
          simp only [compare, he, Bool.true_and]
          rw [List.isEmpty_iff] at he
          rw [he] at h2
          cases hes : es'.toList with
          | nil => rfl
          | cons x xs => exact absurd (h2 x.1 (by rw [hes]; simp)) (by simp)
    simp only [hcmp, if_true]
    cases kd with
    | dict =>
      simp only [seqLength, checkKeys]
      have h1 : ((Dict.keys eb.toList).any fun k => decide (k ∉ Dict.keys ea.toList) && k.truthy) = false := by
        rw [List.any_eq_false]; intro x hx; simp [(hk x).1 hx]
      have h2 : ((Dict.keys ea.toList).any fun k => decide (k ∉ Dict.keys eb.toList) && k.truthy) = false := by
        rw [List.any_eq_false]; intro x hx; simp [(hk x).2 hx]
      simp only [h1, h2, Bool.or_self, Bool.false_eq_true, if_false]
    | list => simp only [seqLength, contLength, hlen, ne_eq, not_true_eq_false, if_false, checkKeys]
    | tuple => simp only [seqLength, contLength, hlen, ne_eq, not_true_eq_false, if_false, checkKeys]

theorem Same.keys {i j : Nat} {kd kd' : Kind} {es es' : Entries A} {K : Kind → Kind → Prop}
    (h : Same K (.cont i kd es) (.cont j kd' es')) (k : Key) : k ∈ Dict.keys es'.toList ↔ k ∈ Dict.keys es.toList := by
  simp only [Same] at h
  obtain ⟨_, _, _, h0, h1, h2, h3⟩ := h
  cases h0
  refine ⟨h2 k, fun hk => ?_⟩
  obtain ⟨v, hv⟩ := Dict.mem_keys_iff.1 hk
  obtain ⟨w, hw, -⟩ := (sameEntries_iff _ _ _).1 h3 k v hv
  exact Dict.mem_keys_of_mem hw

mutual
theorem walkValue_complete [DecidableEq A] (a b : Value A) : ∀ (v w : Value A) (p : List Key) (k : Key) (r : List Nat)
    (ia ib : Nat) (kd : Kind) (ea eb : Entries A), getPath a p = .ok (.cont ia kd ea) →
    getPath b p = .ok (.cont ib kd eb) → WF (.cont ia kd ea) → WF (.cont ib kd eb) →
    (∀ k, k ∈ Dict.keys eb.toList ↔ k ∈ Dict.keys ea.toList) → (k, v) ∈ ea.toList → (k, w) ∈ eb.toList →
    Same (· = ·) v w → ∃ r', walkValue a b p k r v = .ok r'
  | .leaf l, w, p, k, r, ia, ib, kd, ea, eb, ha, hb, wa, wb, hk, hv, hw, hs => by
    have := visit_complete ha hb wa wb hk hw hs
    exact ⟨r, by simp only [walkValue, this, bind, Except.bind]⟩
  | .cont i kd1 es, w, p, k, r, ia, ib, kd, ea, eb, ha, hb, wa, wb, hk, hv, hw, hs => by
    have hvis := visit_complete ha hb wa wb hk hw hs
    by_cases hi : i ∈ r
    · exact ⟨r, by simp only [walkValue, hvis, hi, if_true, bind, Except.bind]⟩
    · have hs' := hs
      simp only [Same] at hs'
      obtain ⟨j, kd2, es', rfl, rfl, h2, h3⟩ := hs'
      have wva : WF (.cont i kd1 es) := (wfEntries_iff ea).1 (by simp only [WF] at wa; exact wa.2.2.2) _ _ hv
      have wvb : WF (.cont j kd1 es') := (wfEntries_iff eb).1 (by simp only [WF] at wb; exact wb.2.2.2) _ _ hw
      obtain ⟨r', hr'⟩ := walkEntries_complete a b es (p ++ [k]) (i :: r) i j kd1 es es'
        (getPath_snoc ha ((index_iff wa (wa.nonNeg (Dict.mem_keys_of_mem hv))).2 hv))
        (getPath_snoc hb ((index_iff wb (wb.nonNeg (Dict.mem_keys_of_mem hw))).2 hw)) wva wvb hs.keys
        (fun _ h => h) h3
      exact ⟨r', by simp only [walkValue, hvis, hi, if_false, hr', bind, Except.bind]⟩
theorem walkEntries_complete [DecidableEq A] (a b : Value A) : ∀ (es : Entries A) (p : List Key) (r : List Nat)
    (ia ib : Nat) (kd : Kind) (ea eb : Entries A), getPath a p = .ok (.cont ia kd ea) →
    getPath b p = .ok (.cont ib kd eb) → WF (.cont ia kd ea) → WF (.cont ib kd eb) →
    (∀ k, k ∈ Dict.keys eb.toList ↔ k ∈ Dict.keys ea.toList) → (∀ x, x ∈ es.toList → x ∈ ea.toList) →
    SameEntries (· = ·) es eb → ∃ r', walkEntries a b p r es = .ok r'
  | .nil, p, r, ia, ib, kd, ea, eb, ha, hb, wa, wb, hk, hv, hs => ⟨r, by simp only [walkEntries]⟩
  | .cons k v es, p, r, ia, ib, kd, ea, eb, ha, hb, wa, wb, hk, hv, hs => by
    simp only [SameEntries] at hs
    obtain ⟨⟨w, hw, h1⟩, h2⟩ := hs
    obtain ⟨r1, hr1⟩ := walkValue_complete a b v w p k r ia ib kd ea eb ha hb wa wb hk
      (hv _ (by simp [Entries.toList])) hw h1
    obtain ⟨r2, hr2⟩ := walkEntries_complete a b es p r1 ia ib kd ea eb ha hb wa wb hk
      (fun x hx => hv x (by simp [Entries.toList, hx])) h2
    exact ⟨r2, by simp only [walkEntries, hr1, hr2, bind, Except.bind]⟩
end

end Weldx.Nested
