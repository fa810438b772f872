import Verif.Trace.Segments

/-!
# Traces: segments join continuously (C44)
-/

namespace Weldx.Tr

open Matrix
open Weldx.Geo (clip npRound)

/-! ### specification -/

/-- length of the first `k` segments -/
noncomputable def before (segs : List TSeg) (k : ℕ) : ℝ := ((segs.take k).map TSeg.length).sum

/-- the systems at the joints: each segment is attached to the end of the one before -/
inductive Joint (segs : List TSeg) (start : Lcs ℝ) : ℕ → Lcs ℝ → Prop
  | zero : Joint segs start 0 start
  | succ {k f s e} (hf : Joint segs start k f) (hs : segs[k]? = some s) (he : s.lcs 1 = .ok e) :
    Joint segs start (k + 1) (e.add f)

/-! ### lookup tables -/

theorem before_zero (segs : List TSeg) : before segs 0 = 0 := by simp [before]

theorem before_cons (s : TSeg) (l : List TSeg) (k : ℕ) : before (s :: l) (k + 1) = s.length + before l k := by
  simp [before]

theorem before_succ {segs : List TSeg} {k : ℕ} {s : TSeg} (h : segs[k]? = some s) :
    before segs (k + 1) = before segs k + s.length := by
  unfold before
  rw [List.take_add_one, h]
  simp

theorem before_all (segs : List TSeg) : before segs segs.length = (segs.map TSeg.length).sum := by simp [before]

structure Lookups (segs : List TSeg) (cs : Lcs ℝ) (t : ℝ) (a : List (Lcs ℝ)) (b c : List ℝ) : Prop where
  lenA : a.length = segs.length + 1
  lenB : b.length = segs.length + 1
  segLen : c = segs.map TSeg.length
  first : a[0]? = some cs
  next : ∀ k s, segs[k]? = some s → ∃ e f, a[k]? = some f ∧ s.lcs 1 = .ok e ∧ a[k + 1]? = some (e.add f)
  total : ∀ k, k ≤ segs.length → b[k]? = some (t + before segs k)

theorem createLookups_spec : ∀ (segs : List TSeg) (cs : Lcs ℝ) (t : ℝ) {a : List (Lcs ℝ)} {b c : List ℝ},
    createLookups segs cs t = .ok (a, b, c) → Lookups segs cs t a b c
  | [], cs, t, a, b, c, h => by
    simp only [createLookups, Except.ok.injEq, Prod.mk.injEq] at h
    obtain ⟨rfl, rfl, rfl⟩ := h
    exact ⟨rfl, rfl, rfl, rfl, by simp, by intro k hk; simp at hk; subst hk; simp [before]⟩
  | s :: l, cs, t, a, b, c, h => by
    simp only [createLookups, bind, Except.bind] at h
    split at h
    · cases h
    · rename_i e he
      split at h
      · cases h
      · rename_i x hx
        obtain ⟨a', b', c'⟩ := x
        simp only [Except.ok.injEq, Prod.mk.injEq] at h
        obtain ⟨rfl, rfl, rfl⟩ := h
        have ih := createLookups_spec l _ _ hx
        refine ⟨by simp [ih.lenA], by simp [ih.lenB], by simp [ih.segLen], rfl, ?_, ?_⟩
        · intro k s' hs
          cases k with
          | zero =>
            simp only [List.getElem?_cons_zero, Option.some.injEq] at hs
            subst hs
            exact ⟨e, cs, rfl, he, by rw [List.getElem?_cons_succ]; exact ih.first⟩
          | succ k =>
            rw [List.getElem?_cons_succ] at hs
            obtain ⟨e', f, h1, h2, h3⟩ := ih.next k s' hs
            exact ⟨e', f, by rw [List.getElem?_cons_succ]; exact h1, h2, by rw [List.getElem?_cons_succ]; exact h3⟩
        · intro k hk
          cases k with
          | zero => simp [before]
          | succ k =>
            rw [List.getElem?_cons_succ, ih.total k (by simpa using hk), before_cons]
            congr 1
            ring

theorem createLookups_ok : ∀ (segs : List TSeg) (cs : Lcs ℝ) (t : ℝ), (∀ s ∈ segs, IsHorizontal s) →
    ∃ x, createLookups segs cs t = .ok x
  | [], cs, t, _ => ⟨_, rfl⟩
  | s :: l, cs, t, h => by
    obtain ⟨f, hf, -⟩ := (h s (by simp)).lcs_ok 1
    obtain ⟨x, hx⟩ := createLookups_ok l (f.add cs) (t + s.length) (fun s hs => h s (by simp [hs]))
    simp only [createLookups, hf, hx, bind, Except.bind]
    exact ⟨_, rfl⟩

/-- the tables of a trace -/
structure IsTrace (segs : List TSeg) (start : Lcs ℝ) (t : Trace) : Prop where
  segs_eq : t.segs = segs
  tables : Lookups segs start 0 t.lookup t.total t.segLen
  length_eq : t.length = before segs segs.length
  length_pos : 0 < t.length

theorem mkTrace_spec {segs : List TSeg} {start : Lcs ℝ} {t : Trace} (h : mkTrace segs start = .ok t) : IsTrace segs start t := by
  simp only [mkTrace, bind, Except.bind] at h
  split at h
  · cases h
  · rename_i x hx
    obtain ⟨a, b, c⟩ := x
    have hl := createLookups_spec _ _ _ hx
    simp only at h
    split at h
    · cases h
    · rename_i hp
      cases h
      refine ⟨rfl, hl, ?_, not_le.1 hp⟩
      unfold Trace.length
      have := hl.total segs.length le_rfl
      rw [zero_add] at this
      have hb := hl.lenB
      show b.getLastD 0 = _
      rw [List.getLastD_eq_getLast?, List.getLast?_eq_getElem?, hb, Nat.add_sub_cancel, this]
      rfl

/-- **C44.** A trace of linear and radial segments is accepted if it has at least one segment. -/
theorem C44_accepted (segs : List TSeg) (start : Lcs ℝ) (h : ∀ s ∈ segs, IsHorizontal s) :
    (∃ t, mkTrace segs start = .ok t) ↔ segs ≠ [] := by
  obtain ⟨⟨a, b, c⟩, hx⟩ := createLookups_ok segs start 0 h
  have hl := createLookups_spec _ _ _ hx
  have hlen : b.getLastD 0 = before segs segs.length := by
    have := hl.total segs.length le_rfl
    rw [zero_add] at this
    rw [List.getLastD_eq_getLast?, List.getLast?_eq_getElem?, hl.lenB, Nat.add_sub_cancel, this]
    rfl
  have hpos : ∀ l : List TSeg, (∀ s ∈ l, IsHorizontal s) → l ≠ [] → 0 < (l.map TSeg.length).sum := by
    intro l
    induction l with
    | nil => intro _ h; exact absurd rfl h
    | cons s l ih =>
      intro hl _
      have h1 := (hl s (by simp)).length_pos
      by_cases hn : l = []
      · subst hn; simpa using h1
      · have := ih (fun s hs => hl s (by simp [hs])) hn
        simp only [List.map_cons, List.sum_cons]; linarith
  simp only [mkTrace, hx, bind, Except.bind, Trace.length, hlen, before_all]
  constructor
  · rintro ⟨t, ht⟩ rfl
    simp at ht
  · intro hn
    rw [if_neg (not_le.2 (hpos segs h hn))]
    exact ⟨_, rfl⟩

/-- the joints are the entries of the lookup table -/
theorem joint_iff {segs : List TSeg} {start : Lcs ℝ} {t : Trace} (h : IsTrace segs start t) {k : ℕ} {f : Lcs ℝ} :
    Joint segs start k f ↔ t.lookup[k]? = some f := by
  constructor
  · intro hj
    induction hj with
    | zero => exact h.tables.first
    | succ hf hs he ih =>
      obtain ⟨e', f', h1, h2, h3⟩ := h.tables.next _ _ hs
      rw [ih] at h1
      cases h1
      rw [he] at h2
      cases h2
      exact h3
  · intro hk
    induction k generalizing f with
    | zero => rw [h.tables.first] at hk; cases hk; exact .zero
    | succ k ih =>
      have hlt : k + 1 < t.lookup.length := (List.getElem?_eq_some_iff.1 hk).1
      rw [h.tables.lenA] at hlt
      have hs : segs[k]? = some segs[k] := List.getElem?_eq_getElem (by omega)
      obtain ⟨e', f', h1, h2, h3⟩ := h.tables.next _ _ hs
      rw [hk] at h3
      cases h3
      exact .succ (ih h1) hs h2

theorem joint_unique {segs : List TSeg} {start : Lcs ℝ} {t : Trace} (h : IsTrace segs start t) {k : ℕ} {f g : Lcs ℝ}
    (hf : Joint segs start k f) (hg : Joint segs start k g) : f = g := by
  rw [joint_iff h] at hf hg
  rw [hf] at hg
  exact Option.some.inj hg

theorem joint_exists {segs : List TSeg} {start : Lcs ℝ} {t : Trace} (h : IsTrace segs start t) {k : ℕ} (hk : k ≤ segs.length) :
    ∃ f, Joint segs start k f := by
  have : k < t.lookup.length := by rw [h.tables.lenA]; omega
  exact ⟨_, (joint_iff h).2 (List.getElem?_eq_getElem this)⟩

/-! ### segment index -/

theorem firstIdx_eq {p : ℝ} : ∀ {l : List ℝ} {i m : ℕ} {t : ℝ}, l[m]? = some t → p ≤ t →
    (∀ m' t', m' < m → l[m']? = some t' → t' < p) → firstIdx p l i = some (i + m)
  | [], i, m, t, h, _, _ => by simp at h
  | x :: l, i, 0, t, h, hp, _ => by
    simp only [List.getElem?_cons_zero, Option.some.injEq] at h
    subst h
    simp [firstIdx, hp]
  | x :: l, i, m + 1, t, h, hp, hlt => by
    have hx := hlt 0 x (by omega) rfl
    simp only [firstIdx, if_neg (not_le.2 hx)]
    rw [firstIdx_eq (m := m) (by simpa using h) hp (fun m' t' hm ht => hlt (m' + 1) t' (by omega) (by simpa using ht))]
    congr 1
    omega

theorem firstIdx_none {p : ℝ} : ∀ {l : List ℝ} {i : ℕ}, (∀ t ∈ l, t < p) → firstIdx p l i = none
  | [], _, _ => rfl
  | x :: l, i, h => by
    simp only [firstIdx, if_neg (not_le.2 (h x (by simp)))]
    exact firstIdx_none fun t ht => h t (by simp [ht])

theorem before_mono {segs : List TSeg} (h : ∀ s ∈ segs, IsHorizontal s) {i j : ℕ} (hij : i ≤ j) : before segs i ≤ before segs j := by
  induction j with
  | zero => have : i = 0 := by omega
            rw [this]
  | succ j ih =>
    by_cases hj : i = j + 1
    · rw [hj]
    · refine le_trans (ih (by omega)) ?_
      by_cases hlt : j < segs.length
      · rw [before_succ (List.getElem?_eq_getElem hlt)]
        have := (h _ (List.getElem_mem hlt)).length_pos
        linarith
      · unfold before
        rw [List.take_of_length_le (by omega), List.take_of_length_le (by omega)]

theorem index_eq {segs : List TSeg} {start : Lcs ℝ} {t : Trace} (h : IsTrace segs start t) (hs : ∀ s ∈ segs, IsHorizontal s)
    {k : ℕ} {p : ℝ} (hk : k < segs.length) (h0 : k = 0 ∨ before segs k < p) (h1 : p ≤ before segs (k + 1) ∨ k + 1 = segs.length) :
    t.segmentIndex p = k := by
  have htab := h.tables
  -- the clipped position
  have c0 : k = 0 ∨ before segs k < clip p 0 t.length := by
    rcases h0 with h0 | h0
    · exact .inl h0
    · refine .inr ?_
      unfold clip
      refine lt_min (lt_of_lt_of_le h0 (le_max_left _ _)) ?_
      rw [h.length_eq]
      refine lt_of_lt_of_le ?_ (before_mono hs (show k + 1 ≤ segs.length from hk))
      rw [before_succ (List.getElem?_eq_getElem hk)]
      have := (hs _ (List.getElem_mem hk)).length_pos
      linarith
  have c1 : clip p 0 t.length ≤ before segs (k + 1) := by
    rcases h1 with h1 | h1
    · unfold clip
      refine le_trans (min_le_left _ _) (max_le h1 ?_)
      have := before_mono hs (Nat.zero_le (k + 1))
      rwa [before_zero] at this
    · rw [h1, ← h.length_eq]
      exact min_le_right _ _
  have hget : ∀ m, m + 1 < segs.length → t.total.tail.dropLast[m]? = some (before segs (m + 1)) := by
    intro m hm
    rw [List.getElem?_dropLast, if_pos (by rw [List.length_tail, htab.lenB]; omega), List.getElem?_tail,
      htab.total _ (by omega), zero_add]
  unfold Trace.segmentIndex
  simp only
  rw [h.segs_eq]
  by_cases hlast : k + 1 = segs.length
  · -- last segment
    rw [firstIdx_none]
    · simp only [Option.getD_none]; omega
    · intro x hx
      obtain ⟨m, hm⟩ := List.mem_iff_getElem?.1 hx
      have hm' : m + 1 < segs.length := by
        have := (List.getElem?_eq_some_iff.1 hm).1
        rw [List.length_dropLast, List.length_tail, htab.lenB] at this
        omega
      rw [hget m hm'] at hm
      cases hm
      rcases c0 with c0 | c0
      · omega
      · exact lt_of_le_of_lt (before_mono hs (by omega)) c0
  · rw [firstIdx_eq (m := k) (hget k (by omega)) c1]
    · simp
    · intro m' t' hm' ht
      rw [hget m' (by omega)] at ht
      cases ht
      rcases c0 with c0 | c0
      · omega
      · exact lt_of_le_of_lt (before_mono hs (by omega)) c0

theorem segmentCs_eq {segs : List TSeg} {start : Lcs ℝ} {t : Trace} (h : IsTrace segs start t) {k : ℕ} {s : TSeg} {f g : Lcs ℝ}
    {p : ℝ} (hk : segs[k]? = some s) (hf : Joint segs start k f) (hg : s.lcs ((p - before segs k) / s.length) = .ok g) :
    t.segmentCs k p = .ok (g.add f) := by
  have hlt := (List.getElem?_eq_some_iff.1 hk).1
  unfold Trace.segmentCs
  have e1 := h.tables.total k (by omega)
  rw [zero_add] at e1
  have e2 : t.segLen[k]? = some s.length := by rw [h.tables.segLen, List.getElem?_map, hk]; rfl
  rw [h.segs_eq, hk, e1, e2, (joint_iff h).1 hf]
  simp only [hg, bind, Except.bind]

theorem default_add (f : Lcs ℝ) : Lcs.default.add f = f := by
  ext i j <;> simp [Lcs.add, Lcs.default]

/-- **C44.** The local system at any position of a trace: for every segment `k` and every position on it, including both of
its ends, it is the system of this segment attached to the joint before the segment. In particular the two formulas agree at
the joint of two segments. -/
theorem C44_position {segs : List TSeg} {start : Lcs ℝ} {t : Trace} (ht : mkTrace segs start = .ok t)
    (hs : ∀ s ∈ segs, IsHorizontal s) {k : ℕ} {s : TSeg} (hk : segs[k]? = some s) {p : ℝ} (h0 : before segs k ≤ p)
    (h1 : p ≤ before segs (k + 1)) {f g : Lcs ℝ} (hf : Joint segs start k f)
    (hg : s.lcs ((p - before segs k) / s.length) = .ok g) : t.localCs p = .ok (g.add f) := by
  have h := mkTrace_spec ht
  have hlt := (List.getElem?_eq_some_iff.1 hk).1
  unfold Trace.localCs
  by_cases hkp : k = 0 ∨ before segs k < p
  · rw [index_eq h hs hlt hkp (.inl h1)]
    exact segmentCs_eq h hk hf hg
  · rw [not_or] at hkp
    obtain ⟨j, rfl⟩ : ∃ j, k = j + 1 := ⟨k - 1, by omega⟩
    have hp : p = before segs (j + 1) := le_antisymm (not_lt.1 hkp.2) h0
    cases hf with
    | @succ _ f' s' e hf' hs' he =>
      have hpos := (hs s' (List.mem_of_getElem? hs')).length_pos
      have hb := before_succ hs'
      rw [index_eq h hs (k := j) (by omega) (.inr (by linarith)) (.inl hp.le)]
      rw [hp, sub_self, zero_div, (hs s (List.mem_of_getElem? hk)).lcs_zero] at hg
      cases hg
      rw [default_add]
      refine segmentCs_eq h hs' hf' ?_
      rw [show (p - before segs j) / s'.length = 1 by rw [hp, hb, add_sub_cancel_left, div_self hpos.ne']]
      exact he

/-- **C44.** At the beginning the system is the start system. -/
theorem C44_start {segs : List TSeg} {start : Lcs ℝ} {t : Trace} (ht : mkTrace segs start = .ok t)
    (hs : ∀ s ∈ segs, IsHorizontal s) : t.localCs 0 = .ok start := by
  have hne := (C44_accepted segs start hs).1 ⟨t, ht⟩
  obtain ⟨s, l, rfl⟩ := List.exists_cons_of_ne_nil hne
  have hh := hs s (by simp)
  have hb : before (s :: l) 1 = s.length := by simp [before]
  have := C44_position ht hs (k := 0) (s := s) rfl (p := 0) (by rw [before_zero]) (by rw [hb]; exact hh.length_pos.le)
    .zero (by rw [before_zero, sub_self, zero_div]; exact hh.lcs_zero)
  rwa [default_add] at this

/-- **C44.** At the end of segment `k` the system is the joint, which is also the system at the start of the next segment; at
the end of the trace it is the last joint. -/
theorem C44_joint {segs : List TSeg} {start : Lcs ℝ} {t : Trace} (ht : mkTrace segs start = .ok t)
    (hs : ∀ s ∈ segs, IsHorizontal s) {k : ℕ} (hk : k ≤ segs.length) {f : Lcs ℝ} (hf : Joint segs start k f) :
    t.localCs (before segs k) = .ok f := by
  cases hf with
  | zero => rw [before_zero]; exact C44_start ht hs
  | @succ j f' s e hf' hj he =>
    have hpos := (hs s (List.mem_of_getElem? hj)).length_pos
    have hb := before_succ hj
    refine C44_position ht hs hj (by linarith) le_rfl hf' ?_
    rw [hb, add_sub_cancel_left, div_self hpos.ne']
    exact he

/-- **C44.** The length of the trace is the sum of the lengths of its segments. -/
theorem C44_length {segs : List TSeg} {start : Lcs ℝ} {t : Trace} (ht : mkTrace segs start = .ok t) :
    t.length = (segs.map TSeg.length).sum := by
  rw [(mkTrace_spec ht).length_eq, before_all]

/-- every position lies on a segment -/
theorem find_segment {segs : List TSeg} {start : Lcs ℝ} {t : Trace} (h : IsTrace segs start t) {p : ℝ} (h0 : 0 ≤ p)
    (h1 : p ≤ t.length) : ∃ k s, segs[k]? = some s ∧ before segs k ≤ p ∧ p ≤ before segs (k + 1) := by
  have hn : segs.length ≠ 0 := by
    intro hn
    have := h.length_pos
    rw [h.length_eq, hn, before_zero] at this
    exact lt_irrefl _ this
  rw [h.length_eq] at h1
  have key : ∀ n, n ≤ segs.length → n ≠ 0 → p ≤ before segs n →
      ∃ k s, segs[k]? = some s ∧ before segs k ≤ p ∧ p ≤ before segs (k + 1) := by
    intro n
    induction n with
    | zero => intro _ h; exact absurd rfl h
    | succ n ih =>
      intro hle _ hp
      by_cases hb : before segs n ≤ p
      · exact ⟨n, segs[n], List.getElem?_eq_getElem (by omega), hb, hp⟩
      · by_cases hz : n = 0
        · subst hz; rw [before_zero] at hb; exact absurd h0 hb
        · exact ih (by omega) hz (not_le.1 hb).le
  exact key segs.length le_rfl hn h1

/-- **C44.** Every position on the trace has a system, and it differs from the start system only by a rotation about the
`z`-axis of the start system and a shift in its `x`-`y`-plane. -/
theorem C44_plane {segs : List TSeg} {start : Lcs ℝ} {t : Trace} (ht : mkTrace segs start = .ok t)
    (hs : ∀ s ∈ segs, IsHorizontal s) {p : ℝ} (h0 : 0 ≤ p) (h1 : p ≤ t.length) :
    ∃ g, Planar g ∧ t.localCs p = .ok (g.add start) := by
  have h := mkTrace_spec ht
  have hj : ∀ k f, Joint segs start k f → ∃ g, Planar g ∧ f = g.add start := by
    intro k f hf
    induction hf with
    | zero => exact ⟨_, planar_default, (default_add _).symm⟩
    | succ hf hs' he ih =>
      obtain ⟨g, hg, rfl⟩ := ih
      obtain ⟨e', he', hp⟩ := (hs _ (List.mem_of_getElem? hs')).lcs_ok 1
      rw [he] at he'
      cases he'
      exact ⟨_, hp.add hg, (C01_add_assoc _ _ _).symm⟩
  obtain ⟨k, s, hk, hb0, hb1⟩ := find_segment h h0 h1
  have hlt := (List.getElem?_eq_some_iff.1 hk).1
  obtain ⟨f, hf⟩ := joint_exists h (k := k) (by omega)
  obtain ⟨g, hg, hp⟩ := (hs s (List.mem_of_getElem? hk)).lcs_ok ((p - before segs k) / s.length)
  obtain ⟨g', hg', rfl⟩ := hj k f hf
  exact ⟨g.add g', hp.add hg', by rw [C44_position ht hs hk hb0 hb1 hf hg, C01_add_assoc]⟩

end Weldx.Tr
