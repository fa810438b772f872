import Verif.Csm.InterpTime

/-!
# Properties of the interpolation of a whole manager (C70)
-/

set_option linter.unusedSectionVars false

namespace Weldx.Csm
variable {N S D : Type} [DecidableEq N] [LcsTime S]

/-! ### Specification -/

/-- all edges refer to existing objects -/
def Bounded (h : LHeap S) (m : Csm N Nat D) : Prop :=
  ∀ a b e l, m.edge? a b = some e → e.transformation = some l → l < h.next

/-- `b` is the parent of `a`: a neighbour that is on the way to the root -/
def Parent (m : Csm N S D) (a b : N) : Prop := m.Adj a b ∧ m.Below b a

/-- the edges that should be interpolated: those between a listed system and its parent, or all -/
def Affected (m : Csm N S D) (affected : Option (List N)) (a b : N) : Prop := match affected with
  | none => m.Adj a b
  | some cs => (a ∈ cs ∧ m.Parent a b) ∨ (b ∈ cs ∧ m.Parent b a)

/-! ### One step and the loops -/

theorem resetIn_idem (r : Option Int) (s : S) : resetIn r (resetIn r s) = resetIn r s := by
  unfold resetIn
  cases r with
  | none => cases LcsLike.refTime s <;> simp
  | some r =>
    cases h : LcsLike.refTime s with
    | some x => simp [h]
    | none =>
      simp only
      cases h' : LcsLike.refTime (LcsTime.reset r s) with
      | some x => rfl
      | none => exact LcsTime.reset_reset r s

/-- interpolating the result once more changes nothing -/
def Again (interp : S → Except TimeError (Option S)) (r : Option Int) (s : S) : Prop := ∀ o, interp (resetIn r s) = .ok o →
  ∃ o', interp (resetIn r (o.getD (resetIn r s))) = .ok o' ∧ o'.getD (resetIn r (o.getD (resetIn r s))) = o.getD (resetIn r s)

/-- the same for all systems on edges of a list -/
def AgainOn (interp : S → Except TimeError (Option S)) (h : LHeap S) (m : Csm N Nat D) (ks : List (Option N × Option N)) : Prop :=
  ∀ a b l, (some a, some b) ∈ ks → m.edge? a b = some ⟨true, some l⟩ → Again interp m.refTime (h.obj l)

/-- location of the system on an edge that is interpolated -/
def Touched (m : Csm N Nat D) (ks : List (Option N × Option N)) (l : Nat) : Prop :=
  ∃ a b, (some a, some b) ∈ ks ∧ m.edge? a b = some ⟨true, some l⟩

/-- effect of the first loop -/
structure Step1 (interp : S → Except TimeError (Option S)) (ks : List (Option N × Option N)) (h : LHeap S) (m : Csm N Nat D)
    (h' : LHeap S) (m' : Csm N Nat D) : Prop where
  frame : m' = { m with edges := m'.edges }
  keys : Dict.keys m'.edges = Dict.keys m.edges
  grow : h.next ≤ h'.next
  bounded : Bounded h' m'
  oldHit : ∀ l, Touched m ks l → h'.obj l = resetIn m.refTime (h.obj l)
  oldMiss : ∀ l < h.next, ¬ Touched m ks l → h'.obj l = h.obj l
  hit : ∀ a b l, (some a, some b) ∈ ks → m.edge? a b = some ⟨true, some l⟩ → ∃ o l',
    interp (resetIn m.refTime (h.obj l)) = .ok o ∧ m'.edge? a b = some ⟨true, some l'⟩ ∧
      h'.obj l' = o.getD (resetIn m.refTime (h.obj l)) ∧ ((o = none ∧ l' = l) ∨ h.next ≤ l')
  miss : ∀ a b e, m.edge? a b = some e → ((some a, some b) ∉ ks ∨ e.defined = false) → m'.edge? a b = some e
  full : ∀ a b, (some a, some b) ∈ ks → m.edge? a b ≠ some ⟨true, none⟩

/-- the first loop does not raise for this edge -/
def Ready1 (interp : S → Except TimeError (Option S)) (h : LHeap S) (m : Csm N Nat D) (k : Option N × Option N) : Prop :=
  ∃ a b e, k = (some a, some b) ∧ m.edge? a b = some e ∧ (e.defined = true → ∃ l o, e.transformation = some l ∧
    interp (resetIn m.refTime (h.obj l)) = .ok o)

theorem edge?_setEdge (m : Csm N Nat D) (k : N × N) (d : Bool) (l : Nat) (a b : N) :
    (m.setEdge k d l).edge? a b = if (a, b) = k then some ⟨d, some l⟩ else m.edge? a b := by
  unfold edge? setEdge
  exact Dict.get?_set

theorem keys_setEdge {m : Csm N Nat D} {a b : N} {e : Edge Nat} (h : m.edge? a b = some e) (d : Bool) (l : Nat) :
    Dict.keys (m.setEdge (a, b) d l).edges = Dict.keys m.edges :=
  Dict.keys_set_of_mem (Dict.get?_isSome.1 ⟨e, h⟩)

theorem interpEdge_ok {interp : S → Except TimeError (Option S)} {h : LHeap S} {m : Csm N Nat D} (hb : Bounded h m)
    {k : Option N × Option N} (hr : Ready1 interp h m k) :
    ∃ h' m', interpEdge interp k (h, m) = .ok () (h', m') ∧ Step1 interp [k] h m h' m' := by
  obtain ⟨a, b, e, rfl, he, hd⟩ := hr
  obtain ⟨d, t⟩ := e
  have hE : m.edgeAt (some a, some b) = some ((a, b), ⟨d, t⟩) := by simp [edgeAt, he]
  cases d with
  | false =>
    refine ⟨h, m, by simp [interpEdge, hE], rfl, rfl, le_rfl, hb, ?_, fun l _ _ => rfl, ?_, fun a b e he _ => he, ?_⟩
    · rintro l ⟨x, y, hxy, hl⟩
      simp only [List.mem_singleton, Prod.mk.injEq, Option.some.injEq] at hxy
      rw [hxy.1, hxy.2, he] at hl
      cases hl
    · intro x y l hxy hl
      simp only [List.mem_singleton, Prod.mk.injEq, Option.some.injEq] at hxy
      rw [hxy.1, hxy.2, he] at hl
      cases hl
    · intro x y hxy hl
      simp only [List.mem_singleton, Prod.mk.injEq, Option.some.injEq] at hxy
      rw [hxy.1, hxy.2, he] at hl
      cases hl
  | true =>
    obtain ⟨l, o, ht, ho⟩ := hd rfl
    simp only at ht
    subst ht
    have hl := hb a b _ l he rfl
    have htouch : ∀ l', Touched m [(some a, some b)] l' ↔ l' = l := by
      intro l'
      constructor
      · rintro ⟨x, y, hxy, hl'⟩
        simp only [List.mem_singleton, Prod.mk.injEq, Option.some.injEq] at hxy
        rw [hxy.1, hxy.2, he] at hl'
        cases hl'; rfl
      · rintro rfl
        exact ⟨a, b, by simp, he⟩
    have hput : (h.put l (resetIn m.refTime (h.obj l))).obj l = resetIn m.refTime (h.obj l) := by simp [LHeap.put]
    have hfull : ∀ x y, (some x, some y) ∈ [((some a, some b) : Option N × Option N)] → m.edge? x y ≠ some ⟨true, none⟩ := by
      intro x y hxy hl
      simp only [List.mem_singleton, Prod.mk.injEq, Option.some.injEq] at hxy
      rw [hxy.1, hxy.2, he] at hl
      cases hl
    cases o with
    | none =>
      refine ⟨h.put l (resetIn m.refTime (h.obj l)), m.setEdge (a, b) true l, ?_, rfl, keys_setEdge he _ _, le_rfl, ?_, ?_, ?_, ?_, ?_, hfull⟩
      · simp only [interpEdge, hE, if_true, hput, ho]
      · intro x y e' l' h1 h2
        rw [edge?_setEdge] at h1
        split at h1
        · cases h1; cases h2; exact hl
        · exact hb x y e' l' h1 h2
      · intro l' h'
        rw [(htouch l').1 h', hput]
      · intro l' _ h'
        have : l' ≠ l := fun e => h' ((htouch l').2 e)
        simp [LHeap.put, this]
      · intro x y l' hxy hl'
        simp only [List.mem_singleton, Prod.mk.injEq, Option.some.injEq] at hxy
        obtain ⟨rfl, rfl⟩ := hxy
        rw [he] at hl'
        cases hl'
        exact ⟨none, l, ho, by rw [edge?_setEdge, if_pos rfl], hput, .inl ⟨rfl, rfl⟩⟩
      · intro x y e' h1 h2
        rw [edge?_setEdge]
        split
        · rename_i hxy
          simp only [Prod.mk.injEq] at hxy
          obtain ⟨rfl, rfl⟩ := hxy
          rw [he] at h1
          cases h1
          rcases h2 with h2 | h2
          · simp at h2
          · cases h2
        · exact h1
    | some s =>
      have hn : l ≠ h.next := hl.ne
      refine ⟨(h.put l (resetIn m.refTime (h.obj l))).alloc s, m.setEdge (a, b) true h.next, ?_, rfl, keys_setEdge he _ _,
        Nat.le_succ _, ?_, ?_, ?_, ?_, ?_, hfull⟩
      · simp only [interpEdge, hE, if_true, hput, ho]
        rfl
      · intro x y e' l' h1 h2
        rw [edge?_setEdge] at h1
        split at h1
        · cases h1; cases h2; exact Nat.lt_succ_self _
        · exact Nat.lt_succ_of_lt (hb x y e' l' h1 h2)
      · intro l' h'
        rw [(htouch l').1 h']
        simp [LHeap.alloc, LHeap.put, hn]
      · intro l' h1 h'
        have : l' ≠ l := fun e => h' ((htouch l').2 e)
        simp [LHeap.alloc, LHeap.put, this, h1.ne]
      · intro x y l' hxy hl'
        simp only [List.mem_singleton, Prod.mk.injEq, Option.some.injEq] at hxy
        obtain ⟨rfl, rfl⟩ := hxy
        rw [he] at hl'
        cases hl'
        exact ⟨some s, h.next, ho, by rw [edge?_setEdge, if_pos rfl], by simp [LHeap.alloc, LHeap.put], .inr le_rfl⟩
      · intro x y e' h1 h2
        rw [edge?_setEdge]
        split
        · rename_i hxy
          simp only [Prod.mk.injEq] at hxy
          obtain ⟨rfl, rfl⟩ := hxy
          rw [he] at h1
          cases h1
          rcases h2 with h2 | h2
          · simp at h2
          · cases h2
        · exact h1

theorem ready1_of_ok {interp : S → Except TimeError (Option S)} {h h' : LHeap S} {m m' : Csm N Nat D} {k : Option N × Option N}
    (hk : interpEdge interp k (h, m) = .ok () (h', m')) : Ready1 interp h m k := by
  obtain ⟨a, b⟩ := k
  cases a with
  | none => simp [interpEdge, edgeAt] at hk
  | some a =>
    cases b with
    | none => simp [interpEdge, edgeAt] at hk
    | some b =>
      cases he : m.edge? a b with
      | none => simp [interpEdge, edgeAt, he] at hk
      | some e =>
        refine ⟨a, b, e, rfl, he, ?_⟩
        intro hd
        obtain ⟨d, t⟩ := e
        simp only at hd
        subst hd
        cases t with
        | none => simp [interpEdge, edgeAt, he] at hk
        | some l =>
          have hput : (h.put l (resetIn m.refTime (h.obj l))).obj l = resetIn m.refTime (h.obj l) := by simp [LHeap.put]
          cases ho : interp (resetIn m.refTime (h.obj l)) with
          | error x => simp [interpEdge, edgeAt, he, hput, ho] at hk
          | ok o => exact ⟨l, o, rfl, ho⟩

/-- the effect on an edge that is treated later -/
theorem Step1.transfer {interp : S → Except TimeError (Option S)} {h h' : LHeap S} {m m' : Csm N Nat D}
    {ks : List (Option N × Option N)} (hs : Step1 interp ks h m h' m') (hb : Bounded h m) {a b : N} (hk : (some a, some b) ∉ ks)
    {e : Edge Nat} (he : m.edge? a b = some e) {l : Nat} (hl : e.transformation = some l) :
    resetIn m.refTime (h'.obj l) = resetIn m.refTime (h.obj l) := by
  have hlt := hb a b e l he hl
  by_cases ht : Touched m ks l
  · rw [hs.oldHit l ht, resetIn_idem]
  · rw [hs.oldMiss l hlt ht]

theorem Step1.refTime {interp : S → Except TimeError (Option S)} {h h' : LHeap S} {m m' : Csm N Nat D}
    {ks : List (Option N × Option N)} (hs : Step1 interp ks h m h' m') : m'.refTime = m.refTime := by rw [hs.frame]

theorem Step1.edge_iff {interp : S → Except TimeError (Option S)} {h h' : LHeap S} {m m' : Csm N Nat D}
    {ks : List (Option N × Option N)} (hs : Step1 interp ks h m h' m') {a b : N} (hk : (some a, some b) ∉ ks) :
    m'.edge? a b = m.edge? a b := by
  cases he : m.edge? a b with
  | some e => exact hs.miss a b e he (.inl hk)
  | none =>
    unfold edge? at he ⊢
    rw [Dict.get?_eq_none] at he ⊢
    rwa [hs.keys]

theorem Step1.ready {interp : S → Except TimeError (Option S)} {h h' : LHeap S} {m m' : Csm N Nat D}
    {ks : List (Option N × Option N)} (hs : Step1 interp ks h m h' m') (hb : Bounded h m) {k : Option N × Option N} (hk : k ∉ ks) :
    Ready1 interp h' m' k ↔ Ready1 interp h m k := by
  unfold Ready1
  constructor
  · rintro ⟨a, b, e, rfl, he, hd⟩
    rw [hs.edge_iff hk] at he
    refine ⟨a, b, e, rfl, he, fun h => ?_⟩
    obtain ⟨l, o, h1, h2⟩ := hd h
    rw [hs.refTime, hs.transfer hb hk he h1] at h2
    exact ⟨l, o, h1, h2⟩
  · rintro ⟨a, b, e, rfl, he, hd⟩
    refine ⟨a, b, e, rfl, (hs.edge_iff hk).trans he, fun h => ?_⟩
    obtain ⟨l, o, h1, h2⟩ := hd h
    refine ⟨l, o, h1, ?_⟩
    rw [hs.refTime, hs.transfer hb hk he h1]
    exact h2

theorem Step1.cons {interp : S → Except TimeError (Option S)} {h h₁ h' : LHeap S} {m m₁ m' : Csm N Nat D} (hb : Bounded h m)
    {k : Option N × Option N} {ks : List (Option N × Option N)} (hk : k ∉ ks ∨ AgainOn interp h m [k]) (s1 : Step1 interp [k] h m h₁ m₁)
    (s2 : Step1 interp ks h₁ m₁ h' m') : Step1 interp (k :: ks) h m h' m' := by
  have hr := s1.refTime
  have hlt : ∀ {ks : List (Option N × Option N)} {l}, Touched m ks l → l < h.next := fun ⟨a, b, _, h2⟩ => hb a b _ _ h2 rfl
  have hback : ∀ l < h.next, Touched m₁ ks l → Touched m [k] l ∨ Touched m ks l := by
    rintro l hl ⟨a, b, h1, h2⟩
    by_cases hab : (some a, some b) ∈ [k]
    · left
      obtain ⟨e, he⟩ : ∃ e, m.edge? a b = some e := by
        apply Dict.get?_isSome.2
        rw [← s1.keys]
        exact Dict.get?_isSome.1 ⟨_, h2⟩
      obtain ⟨d, t⟩ := e
      cases d with
      | false => rw [s1.miss a b _ he (.inr rfl)] at h2; cases h2
      | true =>
        cases t with
        | none => exact absurd he (s1.full a b hab)
        | some l₀ =>
          obtain ⟨o, l', h3, h4, h5, h6⟩ := s1.hit a b l₀ hab he
          rw [h2] at h4
          cases h4
          rcases h6 with ⟨-, rfl⟩ | h6
          · exact ⟨a, b, hab, he⟩
          · omega
    · exact .inr ⟨a, b, h1, (s1.edge_iff hab) ▸ h2⟩
  have hforth : ∀ l, Touched m ks l → ¬ Touched m [k] l → Touched m₁ ks l := by
    rintro l ⟨a, b, h1, h2⟩ h3
    have hab : (some a, some b) ∉ [k] := fun h => h3 ⟨a, b, h, h2⟩
    exact ⟨a, b, h1, (s1.edge_iff hab).trans h2⟩
  have hcons : ∀ l, Touched m (k :: ks) l ↔ Touched m [k] l ∨ Touched m ks l := by
    intro l
    constructor
    · rintro ⟨a, b, h1, h2⟩
      rcases List.mem_cons.1 h1 with h1 | h1
      · exact .inl ⟨a, b, by simp [h1], h2⟩
      · exact .inr ⟨a, b, h1, h2⟩
    · rintro (⟨a, b, h1, h2⟩ | ⟨a, b, h1, h2⟩)
      · exact ⟨a, b, List.mem_cons.2 (.inl (List.mem_singleton.1 h1)), h2⟩
      · exact ⟨a, b, List.mem_cons_of_mem _ h1, h2⟩
  have hobj : ∀ l < h₁.next, h'.obj l = h₁.obj l ∨ h'.obj l = resetIn m.refTime (h₁.obj l) := by
    intro l hl
    by_cases h2 : Touched m₁ ks l
    · exact .inr (by rw [s2.oldHit l h2, hr])
    · exact .inl (s2.oldMiss l hl h2)
  refine ⟨?_, s2.keys.trans s1.keys, s1.grow.trans s2.grow, s2.bounded, ?_, ?_, ?_, ?_, ?_⟩
  · conv_lhs => rw [s2.frame]
    rw [s1.frame]
  · intro l hl
    by_cases h1 : Touched m [k] l
    · rcases hobj l ((hlt h1).trans_le s1.grow) with h2 | h2
      · rw [h2, s1.oldHit l h1]
      · rw [h2, s1.oldHit l h1, resetIn_idem]
    · have h2 := ((hcons l).1 hl).resolve_left h1
      rw [s2.oldHit l (hforth l h2 h1), hr, s1.oldMiss l (hlt h2) h1]
  · intro l hlt' hl
    rw [s2.oldMiss l (hlt'.trans_le s1.grow) (fun h => hl ((hcons l).2 (hback l hlt' h))),
      s1.oldMiss l hlt' (fun h => hl ((hcons l).2 (.inl h)))]
  · intro a b l hmem he
    by_cases hk1 : (some a, some b) ∈ [k]
    · obtain ⟨o, l', h1, h2, h3, h5⟩ := s1.hit a b l hk1 he
      have hl' := s1.bounded a b _ l' h2 rfl
      by_cases hks : (some a, some b) ∈ ks
      · have hag : Again interp m.refTime (h.obj l) := by
          rcases hk with hk | hk
          · rw [List.mem_singleton] at hk1
            exact absurd (hk1 ▸ hks) hk
          · exact hk a b l hk1 he
        obtain ⟨o', h6, h7⟩ := hag o h1
        obtain ⟨o'', l₂, g1, g2, g3, g4⟩ := s2.hit a b l' hks h2
        rw [hr, h3, h6] at g1
        cases g1
        rw [hr, h3, h7] at g3
        refine ⟨o, l₂, h1, g2, g3, ?_⟩
        rcases g4 with ⟨-, rfl⟩ | g4
        · exact h5
        · exact .inr (s1.grow.trans g4)
      · refine ⟨o, l', h1, s2.miss a b _ h2 (.inl hks), ?_, h5⟩
        by_cases h4 : Touched m₁ ks l'
        · rcases h5 with ⟨rfl, rfl⟩ | h5
          · rw [s2.oldHit l' h4, hr, h3]
            exact resetIn_idem _ _
          · exfalso
            obtain ⟨x, y, h6, h7⟩ := h4
            have hxy : (some x, some y) ∉ [k] := by
              intro h
              rw [List.mem_singleton] at h hk1
              rw [← hk1] at h
              exact hks (h ▸ h6)
            rw [s1.edge_iff hxy] at h7
            have := hb x y _ l' h7 rfl
            omega
        · rw [s2.oldMiss l' hl' h4]
          exact h3
    · have hks : (some a, some b) ∈ ks := by
        rcases List.mem_cons.1 hmem with h | h
        · exact absurd (by simp [h]) hk1
        · exact h
      obtain ⟨o, l', h1, h2, h3, h4⟩ := s2.hit a b l hks ((s1.edge_iff hk1).trans he)
      have := s1.transfer hb hk1 he rfl
      rw [hr, this] at h1 h3
      exact ⟨o, l', h1, h2, h3, h4.imp id s1.grow.trans⟩
  · intro a b e he hm
    have h1 : (some a, some b) ∉ [k] ∨ e.defined = false := hm.imp (fun h h' => h (List.mem_cons.2 (.inl (List.mem_singleton.1 h')))) id
    have h2 : (some a, some b) ∉ ks ∨ e.defined = false := hm.imp (fun h h' => h (List.mem_cons_of_mem _ h')) id
    exact s2.miss a b e (s1.miss a b e he h1) h2
  · intro a b hmem he
    by_cases hk1 : (some a, some b) ∈ [k]
    · exact s1.full a b hk1 he
    · refine s2.full a b ?_ ((s1.edge_iff hk1).trans he)
      rcases List.mem_cons.1 hmem with h | h
      · exact absurd (by simp [h]) hk1
      · exact h

/-- the condition for the rest of the list -/
theorem Step1.again {interp : S → Except TimeError (Option S)} {h h₁ : LHeap S} {m m₁ : Csm N Nat D} (hb : Bounded h m)
    {k : Option N × Option N} {ks : List (Option N × Option N)} (s1 : Step1 interp [k] h m h₁ m₁) (ha : AgainOn interp h m (k :: ks)) :
    AgainOn interp h₁ m₁ ks := by
  intro a b l hab he o ho
  rw [s1.refTime] at ho ⊢
  by_cases hk1 : (some a, some b) ∈ [k]
  · obtain ⟨e, he₀⟩ : ∃ e, m.edge? a b = some e := by
      apply Dict.get?_isSome.2
      rw [← s1.keys]
      exact Dict.get?_isSome.1 ⟨_, he⟩
    obtain ⟨d, t⟩ := e
    cases d with
    | false => rw [s1.miss a b _ he₀ (.inr rfl)] at he; cases he
    | true =>
      cases t with
      | none => exact absurd he₀ (s1.full a b hk1)
      | some l₀ =>
        obtain ⟨o₁, l', h3, h4, h5, h6⟩ := s1.hit a b l₀ hk1 he₀
        rw [he] at h4
        cases h4
        obtain ⟨o', h7, h8⟩ := ha a b l₀ (List.mem_cons_of_mem _ hab) he₀ o₁ h3
        rw [h5, h7] at ho
        cases ho
        rw [h5, h8]
        exact ⟨_, h7, h8⟩
  · have he' := (s1.edge_iff hk1) ▸ he
    have := s1.transfer hb hk1 he' rfl
    rw [this] at ho ⊢
    exact ha a b l (List.mem_cons_of_mem _ hab) he' o ho

/-- after a step the same edge can be treated again -/
theorem Step1.ready_again {interp : S → Except TimeError (Option S)} {h h₁ : LHeap S} {m m₁ : Csm N Nat D}
    {k : Option N × Option N} (s1 : Step1 interp [k] h m h₁ m₁) (hr : Ready1 interp h m k) (ha : AgainOn interp h m [k]) :
    Ready1 interp h₁ m₁ k := by
  obtain ⟨a, b, ⟨d, t⟩, rfl, he, hd⟩ := hr
  cases d with
  | false => exact ⟨a, b, _, rfl, s1.miss a b _ he (.inr rfl), fun h => by cases h⟩
  | true =>
    obtain ⟨l, o, rfl, ho⟩ := hd rfl
    obtain ⟨o₁, l', h3, h4, h5, h6⟩ := s1.hit a b l (by simp) he
    obtain ⟨o', h7, h8⟩ := ha a b l (by simp) he o₁ h3
    exact ⟨a, b, _, rfl, h4, fun _ => ⟨l', o', rfl, by rw [s1.refTime, h5]; exact h7⟩⟩

/-- no edge twice, or treating an edge again changes nothing -/
def Fine (interp : S → Except TimeError (Option S)) (h : LHeap S) (m : Csm N Nat D) (ks : List (Option N × Option N)) : Prop :=
  ks.Nodup ∨ AgainOn interp h m ks

theorem Fine.head {interp : S → Except TimeError (Option S)} {h : LHeap S} {m : Csm N Nat D} {k : Option N × Option N}
    {ks : List (Option N × Option N)} (hf : Fine interp h m (k :: ks)) : k ∉ ks ∨ AgainOn interp h m [k] := by
  rcases hf with hf | hf
  · exact .inl (List.nodup_cons.1 hf).1
  · exact .inr fun a b l hab => hf a b l (by rw [List.mem_singleton] at hab; simp [hab])

theorem Fine.tail {interp : S → Except TimeError (Option S)} {h h₁ : LHeap S} {m m₁ : Csm N Nat D} (hb : Bounded h m)
    {k : Option N × Option N} {ks : List (Option N × Option N)} (hf : Fine interp h m (k :: ks)) (s1 : Step1 interp [k] h m h₁ m₁) :
    Fine interp h₁ m₁ ks := hf.imp (fun h => (List.nodup_cons.1 h).2) (s1.again hb)

theorem loop1_ok {interp : S → Except TimeError (Option S)} : ∀ {ks : List (Option N × Option N)}
    {h : LHeap S} {m : Csm N Nat D}, Fine interp h m ks → Bounded h m → (∀ k ∈ ks, Ready1 interp h m k) →
    ∃ h' m', forEdges (interpEdge interp) ks (h, m) = .ok () (h', m') ∧ Step1 interp ks h m h' m'
  | [], h, m, _, hb, _ => ⟨h, m, rfl, rfl, rfl, le_rfl, hb, by rintro l ⟨_, _, h, _⟩; simp at h, fun _ _ _ => rfl,
      by intro _ _ _ h; simp at h, fun _ _ _ h _ => h, by intro _ _ h; simp at h⟩
  | k :: ks, h, m, hn, hb, hr => by
    obtain ⟨h₁, m₁, e1, s1⟩ := interpEdge_ok hb (hr k (by simp))
    obtain ⟨h', m', e2, s2⟩ := loop1_ok (hn.tail hb s1) s1.bounded (fun k' hk' => by
      by_cases hkk : k' = k
      · subst hkk
        rcases hn.head with h | h
        · exact absurd hk' h
        · exact s1.ready_again (hr k' (by simp)) h
      · exact (s1.ready hb (by rwa [List.mem_singleton])).2 (hr k' (by simp [hk'])))
    refine ⟨h', m', ?_, s1.cons hb hn.head s2⟩
    unfold forEdges
    rw [Py.bind_ok e1]
    exact e2

theorem ready_of_loop1 {interp : S → Except TimeError (Option S)} : ∀ {ks : List (Option N × Option N)}
    {h h' : LHeap S} {m m' : Csm N Nat D}, Bounded h m → forEdges (interpEdge interp) ks (h, m) = .ok () (h', m') →
    ∀ k ∈ ks, Ready1 interp h m k
  | [], _, _, _, _, _, _ => by simp
  | k :: ks, h, h', m, m', hb, hl => by
    unfold forEdges at hl
    rw [Py.bind_apply] at hl
    split at hl
    · rename_i u st he
      obtain ⟨h₁, m₁⟩ := st
      have r1 := ready1_of_ok he
      obtain ⟨h₂, m₂, e1, s1⟩ := interpEdge_ok hb r1
      rw [e1] at he
      cases he
      have := ready_of_loop1 s1.bounded hl
      intro k' hk'
      by_cases hkk : k' = k
      · subst hkk
        exact r1
      · refine (s1.ready hb (by rwa [List.mem_singleton])).1 (this k' ?_)
        rcases List.mem_cons.1 hk' with h | h
        · exact absurd h hkk
        · exact h
    · cases hl

/-! ### The second loop -/

/-- effect of the second loop -/
structure Step2 (ks : List (Option N × Option N)) (h : LHeap S) (m : Csm N Nat D) (h' : LHeap S) (m' : Csm N Nat D) : Prop where
  frame : m' = { m with edges := m'.edges }
  keys : Dict.keys m'.edges = Dict.keys m.edges
  grow : h.next ≤ h'.next
  bounded : Bounded h' m'
  old : ∀ l < h.next, h'.obj l = h.obj l
  hit : ∀ a b e, (some a, some b) ∈ ks → m.edge? a b = some e → e.defined = false → ∃ d l l', m.edge? b a = some ⟨d, some l⟩ ∧
    LcsLike.isSeries (h.obj l) = false ∧ m'.edge? a b = some ⟨false, some l'⟩ ∧ h'.obj l' = LcsLike.invert (h.obj l)
  miss : ∀ a b e, m.edge? a b = some e → ((some a, some b) ∉ ks ∨ e.defined = true) → m'.edge? a b = some e

/-- the second loop does not raise for this edge -/
def Ready2 (h : LHeap S) (m : Csm N Nat D) (k : Option N × Option N) : Prop :=
  ∃ a b e, k = (some a, some b) ∧ m.edge? a b = some e ∧ (e.defined = false → ∃ d l, m.edge? b a = some ⟨d, some l⟩ ∧
    LcsLike.isSeries (h.obj l) = false)

/-- the reverse of an edge that is not defined is defined -/
def Opposite (m : Csm N Nat D) : Prop :=
  ∀ a b e, m.edge? a b = some e → e.defined = false → ∃ e', m.edge? b a = some e' ∧ e'.defined = true

theorem invertEdge_ok {h : LHeap S} {m : Csm N Nat D} (hb : Bounded h m) {k : Option N × Option N} (hr : Ready2 h m k) :
    ∃ h' m', invertEdge k (h, m) = .ok () (h', m') ∧ Step2 [k] h m h' m' := by
  obtain ⟨a, b, e, rfl, he, hd⟩ := hr
  obtain ⟨d, t⟩ := e
  have hE : m.edgeAt (some a, some b) = some ((a, b), ⟨d, t⟩) := by simp [edgeAt, he]
  cases d with
  | true =>
    refine ⟨h, m, by simp [invertEdge, hE], rfl, rfl, le_rfl, hb, fun l _ => rfl, ?_, fun a b e he _ => he⟩
    intro x y e' hxy h1 h2
    simp only [List.mem_singleton, Prod.mk.injEq, Option.some.injEq] at hxy
    rw [hxy.1, hxy.2, he] at h1
    cases h1
    cases h2
  | false =>
    obtain ⟨d', l, hrev, hs⟩ := hd rfl
    have hl := hb b a _ l hrev rfl
    refine ⟨h.alloc (LcsLike.invert (h.obj l)), m.setEdge (a, b) false h.next, ?_, rfl, keys_setEdge he _ _, Nat.le_succ _, ?_,
      ?_, ?_, ?_⟩
    · simp [invertEdge, hE, hrev, hs]
    · intro x y e' l' h1 h2
      rw [edge?_setEdge] at h1
      split at h1
      · cases h1; cases h2; exact Nat.lt_succ_self _
      · exact Nat.lt_succ_of_lt (hb x y e' l' h1 h2)
    · intro l' h1
      simp [LHeap.alloc, h1.ne]
    · intro x y e' hxy h1 h2
      simp only [List.mem_singleton, Prod.mk.injEq, Option.some.injEq] at hxy
      obtain ⟨rfl, rfl⟩ := hxy
      exact ⟨d', l, h.next, hrev, hs, by rw [edge?_setEdge, if_pos rfl], by simp [LHeap.alloc]⟩
    · intro x y e' h1 h2
      rw [edge?_setEdge]
      split
      · rename_i hxy
        simp only [Prod.mk.injEq] at hxy
        obtain ⟨rfl, rfl⟩ := hxy
        rw [he] at h1
        cases h1
        rcases h2 with h2 | h2
        · simp at h2
        · cases h2
      · exact h1

theorem ready2_of_ok {h h' : LHeap S} {m m' : Csm N Nat D} {k : Option N × Option N}
    (hk : invertEdge k (h, m) = .ok () (h', m')) : Ready2 h m k := by
  obtain ⟨a, b⟩ := k
  cases a with
  | none => simp [invertEdge, edgeAt] at hk
  | some a =>
    cases b with
    | none => simp [invertEdge, edgeAt] at hk
    | some b =>
      cases he : m.edge? a b with
      | none => simp [invertEdge, edgeAt, he] at hk
      | some e =>
        refine ⟨a, b, e, rfl, he, ?_⟩
        intro hd
        obtain ⟨d, t⟩ := e
        simp only at hd
        subst hd
        cases hr : m.edge? b a with
        | none => simp [invertEdge, edgeAt, he, hr] at hk
        | some e' =>
          obtain ⟨d', t'⟩ := e'
          cases t' with
          | none => simp [invertEdge, edgeAt, he, hr] at hk
          | some l =>
            refine ⟨d', l, rfl, ?_⟩
            by_contra hs
            simp [invertEdge, edgeAt, he, hr, Bool.not_eq_false _ ▸ hs] at hk

theorem Step2.edge_iff {h h' : LHeap S} {m m' : Csm N Nat D} {ks : List (Option N × Option N)} (hs : Step2 ks h m h' m') {a b : N}
    (hk : (some a, some b) ∉ ks ∨ ∀ e, m.edge? a b = some e → e.defined = true) : m'.edge? a b = m.edge? a b := by
  cases he : m.edge? a b with
  | some e => exact hs.miss a b e he (hk.imp id fun h => h e he)
  | none =>
    unfold edge? at he ⊢
    rw [Dict.get?_eq_none] at he ⊢
    rwa [hs.keys]

theorem Step2.opposite {h h' : LHeap S} {m m' : Csm N Nat D} {ks : List (Option N × Option N)} (hs : Step2 ks h m h' m')
    (ho : Opposite m) : Opposite m' := by
  intro a b e he hd
  have : ∃ e₀, m.edge? a b = some e₀ := by
    apply Dict.get?_isSome.2
    rw [← hs.keys]
    exact Dict.get?_isSome.1 ⟨e, he⟩
  obtain ⟨e₀, h0⟩ := this
  cases hd0 : e₀.defined with
  | true =>
    rw [hs.miss a b e₀ h0 (.inr hd0)] at he
    cases he
    rw [hd] at hd0
    cases hd0
  | false =>
    obtain ⟨e', h1, h2⟩ := ho a b e₀ h0 hd0
    exact ⟨e', hs.miss b a e' h1 (.inr h2), h2⟩

theorem Step2.ready {h h' : LHeap S} {m m' : Csm N Nat D} {ks : List (Option N × Option N)} (hs : Step2 ks h m h' m')
    (hb : Bounded h m) (ho : Opposite m) {k : Option N × Option N} (hk : k ∉ ks) : Ready2 h' m' k ↔ Ready2 h m k := by
  unfold Ready2
  have key : ∀ {a b : N} {e : Edge Nat}, m.edge? a b = some e → e.defined = false → m'.edge? b a = m.edge? b a := by
    intro a b e he hd
    refine hs.edge_iff (.inr fun e' he' => ?_)
    obtain ⟨e'', h1, h2⟩ := ho a b e he hd
    rw [he'] at h1
    cases h1
    exact h2
  constructor
  · rintro ⟨a, b, e, rfl, he, hd⟩
    rw [hs.edge_iff (.inl hk)] at he
    refine ⟨a, b, e, rfl, he, fun h => ?_⟩
    obtain ⟨d, l, h1, h2⟩ := hd h
    rw [key he h] at h1
    rw [hs.old l (hb b a _ l h1 rfl)] at h2
    exact ⟨d, l, h1, h2⟩
  · rintro ⟨a, b, e, rfl, he, hd⟩
    refine ⟨a, b, e, rfl, (hs.edge_iff (.inl hk)).trans he, fun h => ?_⟩
    obtain ⟨d, l, h1, h2⟩ := hd h
    refine ⟨d, l, (key he h).trans h1, ?_⟩
    rw [hs.old l (hb b a _ l h1 rfl)]
    exact h2

theorem Step2.cons {h h₁ h' : LHeap S} {m m₁ m' : Csm N Nat D} (hb : Bounded h m) (ho : Opposite m)
    {k : Option N × Option N} {ks : List (Option N × Option N)} (s1 : Step2 [k] h m h₁ m₁)
    (s2 : Step2 ks h₁ m₁ h' m') : Step2 (k :: ks) h m h' m' := by
  refine ⟨?_, s2.keys.trans s1.keys, s1.grow.trans s2.grow, s2.bounded, ?_, ?_, ?_⟩
  · conv_lhs => rw [s2.frame]
    rw [s1.frame]
  · intro l hl
    rw [s2.old l (hl.trans_le s1.grow), s1.old l hl]
  · intro a b e hmem he hd
    by_cases hks : (some a, some b) ∈ ks
    · obtain ⟨e₁, he₁, hd₁⟩ : ∃ e₁, m₁.edge? a b = some e₁ ∧ e₁.defined = false := by
        by_cases hk1 : (some a, some b) ∈ [k]
        · obtain ⟨_, _, l', _, _, h3, _⟩ := s1.hit a b e hk1 he hd
          exact ⟨_, h3, rfl⟩
        · exact ⟨e, (s1.edge_iff (.inl hk1)).trans he, hd⟩
      obtain ⟨d, l, l', h1, h2, h3, h4⟩ := s2.hit a b e₁ hks he₁ hd₁
      have hrev : m₁.edge? b a = m.edge? b a := by
        refine s1.edge_iff (.inr fun e' he' => ?_)
        obtain ⟨e'', h1, h2⟩ := ho a b e he hd
        rw [he'] at h1
        cases h1
        exact h2
      rw [hrev] at h1
      have := s1.old l (hb b a _ l h1 rfl)
      rw [this] at h2 h4
      exact ⟨d, l, l', h1, h2, h3, h4⟩
    · have hk1 : (some a, some b) ∈ [k] := by
        rcases List.mem_cons.1 hmem with h | h
        · simp [h]
        · exact absurd h hks
      obtain ⟨d, l, l', h1, h2, h3, h4⟩ := s1.hit a b e hk1 he hd
      refine ⟨d, l, l', h1, h2, s2.miss a b _ h3 (.inl hks), ?_⟩
      rw [s2.old l' (s1.bounded a b _ l' h3 rfl)]
      exact h4
  · intro a b e he hm
    have h1 : (some a, some b) ∉ [k] ∨ e.defined = true := hm.imp (fun h h' => h (List.mem_cons.2 (.inl (List.mem_singleton.1 h')))) id
    have h2 : (some a, some b) ∉ ks ∨ e.defined = true := hm.imp (fun h h' => h (List.mem_cons_of_mem _ h')) id
    exact s2.miss a b e (s1.miss a b e he h1) h2

/-- after a step the same edge can be treated again -/
theorem Step2.ready_again {h h₁ : LHeap S} {m m₁ : Csm N Nat D} (hb : Bounded h m) (ho : Opposite m) {k : Option N × Option N}
    (s1 : Step2 [k] h m h₁ m₁) (hr : Ready2 h m k) : Ready2 h₁ m₁ k := by
  obtain ⟨a, b, ⟨d, t⟩, rfl, he, hd⟩ := hr
  cases d with
  | true => exact ⟨a, b, _, rfl, s1.miss a b _ he (.inr rfl), fun h => by cases h⟩
  | false =>
    obtain ⟨d, l, l', h1, h2, h3, h4⟩ := s1.hit a b _ (by simp) he rfl
    have hrev : m₁.edge? b a = m.edge? b a := by
      refine s1.edge_iff (.inr fun e' he' => ?_)
      obtain ⟨e'', h1, h2⟩ := ho a b _ he rfl
      rw [he'] at h1
      cases h1
      exact h2
    exact ⟨a, b, _, rfl, h3, fun _ => ⟨d, l, hrev.trans h1, by rw [s1.old l (hb b a _ l h1 rfl)]; exact h2⟩⟩

theorem loop2_ok : ∀ {ks : List (Option N × Option N)}
    {h : LHeap S} {m : Csm N Nat D}, Bounded h m → Opposite m → (∀ k ∈ ks, Ready2 h m k) →
    ∃ h' m', forEdges invertEdge ks (h, m) = .ok () (h', m') ∧ Step2 ks h m h' m'
  | [], h, m, hb, _, _ => ⟨h, m, rfl, rfl, rfl, le_rfl, hb, fun _ _ => rfl, by intro _ _ _ h; simp at h, fun _ _ _ h _ => h⟩
  | k :: ks, h, m, hb, ho, hr => by
    obtain ⟨h₁, m₁, e1, s1⟩ := invertEdge_ok hb (hr k (by simp))
    obtain ⟨h', m', e2, s2⟩ := loop2_ok (ks := ks) s1.bounded (s1.opposite ho) (fun k' hk' => by
      by_cases hkk : k' = k
      · subst hkk
        exact s1.ready_again hb ho (hr k' (by simp))
      · exact (s1.ready hb ho (by rwa [List.mem_singleton])).2 (hr k' (by simp [hk'])))
    refine ⟨h', m', ?_, s1.cons hb ho s2⟩
    unfold forEdges
    rw [Py.bind_ok e1]
    exact e2

theorem ready_of_loop2 : ∀ {ks : List (Option N × Option N)}
    {h h' : LHeap S} {m m' : Csm N Nat D}, Bounded h m → Opposite m → forEdges invertEdge ks (h, m) = .ok () (h', m') →
    ∀ k ∈ ks, Ready2 h m k
  | [], _, _, _, _, _, _, _ => by simp
  | k :: ks, h, h', m, m', hb, ho, hl => by
    unfold forEdges at hl
    rw [Py.bind_apply] at hl
    split at hl
    · rename_i u st he
      obtain ⟨h₁, m₁⟩ := st
      have r1 := ready2_of_ok he
      obtain ⟨h₂, m₂, e1, s1⟩ := invertEdge_ok hb r1
      rw [e1] at he
      cases he
      have := ready_of_loop2 s1.bounded (s1.opposite ho) hl
      intro k' hk'
      by_cases hkk : k' = k
      · subst hkk
        exact r1
      · refine (s1.ready hb ho (by rwa [List.mem_singleton])).1 (this k' ?_)
        rcases List.mem_cons.1 hk' with h | h
        · exact absurd h hkk
        · exact h
    · cases hl

/-! ### The view of a manager -/

theorem view_edge? (h : LHeap S) (m : Csm N Nat D) (a b : N) :
    (h.view m).edge? a b = (m.edge? a b).map fun e => ⟨e.defined, e.transformation.map h.obj⟩ := by
  unfold edge? LHeap.view
  simp only
  induction m.edges with
  | nil => rfl
  | cons e t ih =>
    obtain ⟨k, e⟩ := e
    simp only [List.map_cons, Dict.get?]
    split
    · rfl
    · exact ih

theorem view_keys (h : LHeap S) (m : Csm N Nat D) : Dict.keys (h.view m).edges = Dict.keys m.edges := by
  simp [LHeap.view, Dict.keys]

theorem mem_edges_iff {M : Csm N S D} (hn : (Dict.keys M.edges).Nodup) {a b : N} {e : Edge S} :
    ((a, b), e) ∈ M.edges ↔ M.edge? a b = some e := (Dict.get?_iff_mem hn).symm

theorem view_supplied {h : LHeap S} {m : Csm N Nat D} (hn : (Dict.keys m.edges).Nodup) {a b : N} {s : S} :
    (h.view m).Supplied a b s ↔ ∃ l, m.edge? a b = some ⟨true, some l⟩ ∧ h.obj l = s := by
  unfold Supplied
  rw [mem_edges_iff (by rwa [view_keys]), view_edge?]
  constructor
  · intro hs
    obtain ⟨e, he, h1⟩ := Option.map_eq_some_iff.1 hs
    obtain ⟨d, t⟩ := e
    simp only [Edge.mk.injEq] at h1
    obtain ⟨rfl, h2⟩ := h1
    obtain ⟨l, rfl, h3⟩ := Option.map_eq_some_iff.1 h2
    exact ⟨l, he, h3⟩
  · rintro ⟨l, he, rfl⟩
    rw [he]
    rfl

theorem view_adj {h : LHeap S} {m : Csm N Nat D} {a b : N} : (h.view m).Adj a b ↔ ∃ e, m.edge? a b = some e := by
  unfold Adj
  rw [view_keys]
  exact Dict.get?_isSome.symm

theorem opposite_of_inv {h : LHeap S} {m : Csm N Nat D} (I : Inv (h.view m)) : Opposite m := by
  intro a b e he hd
  have hn := I.edgesNodup
  have h1 : ((a, b), (⟨e.defined, e.transformation.map h.obj⟩ : Edge S)) ∈ (h.view m).edges := by
    rw [mem_edges_iff hn, view_edge?, he]
    rfl
  obtain ⟨e', h2, h3⟩ := I.paired a b _ h1
  rw [mem_edges_iff hn, view_edge?] at h2
  obtain ⟨e₀, h4, rfl⟩ := Option.map_eq_some_iff.1 h2
  refine ⟨e₀, h4, ?_⟩
  rcases h3 with ⟨s, h3, _⟩ | ⟨s, h3, _⟩
  · have := congrArg Edge.defined h3
    simp only [hd] at this
    cases this
  · exact congrArg Edge.defined h3

theorem Step1.opposite {interp : S → Except TimeError (Option S)} {h h' : LHeap S} {m m' : Csm N Nat D}
    {ks : List (Option N × Option N)} (hs : Step1 interp ks h m h' m') (ho : Opposite m)
    (hl : ∀ a b e, m.edge? a b = some e → e.defined = true → e.transformation ≠ none) : Opposite m' := by
  have key : ∀ a b e, m.edge? a b = some e → ∃ e', m'.edge? a b = some e' ∧ e'.defined = e.defined := by
    intro a b e he
    by_cases hk : (some a, some b) ∈ ks
    · obtain ⟨d, t⟩ := e
      cases d with
      | false => exact ⟨_, hs.miss a b _ he (.inr rfl), rfl⟩
      | true =>
        obtain ⟨l, rfl⟩ := Option.ne_none_iff_exists'.1 (hl a b _ he rfl)
        obtain ⟨o, l', _, h2, _⟩ := hs.hit a b l hk he
        exact ⟨_, h2, rfl⟩
    · exact ⟨e, hs.miss a b e he (.inl hk), rfl⟩
  intro a b e he hd
  obtain ⟨e₀, h0⟩ : ∃ e₀, m.edge? a b = some e₀ := by
    apply Dict.get?_isSome.2
    rw [← hs.keys]
    exact Dict.get?_isSome.1 ⟨e, he⟩
  obtain ⟨e', h1, h2⟩ := key a b e₀ h0
  rw [he] at h1
  cases h1
  obtain ⟨e₁, h3, h4⟩ := ho a b e₀ h0 (by rw [← h2, hd])
  obtain ⟨e₂, h5, h6⟩ := key b a e₁ h3
  exact ⟨e₂, h5, h6.trans h4⟩

theorem transformation_of_inv {h : LHeap S} {m : Csm N Nat D} (I : Inv (h.view m)) {a b : N} {e : Edge Nat}
    (he : m.edge? a b = some e) (hd : e.defined = true) : ∃ l, e = ⟨true, some l⟩ := by
  have hn := I.edgesNodup
  have h1 : ((a, b), (⟨e.defined, e.transformation.map h.obj⟩ : Edge S)) ∈ (h.view m).edges := by
    rw [mem_edges_iff hn, view_edge?, he]
    rfl
  obtain ⟨e', _, h3⟩ := I.paired a b _ h1
  obtain ⟨d, t⟩ := e
  simp only at hd
  subst hd
  rcases h3 with ⟨s, h3, _⟩ | ⟨s, _, h3⟩
  · simp only [Edge.mk.injEq, true_and] at h3
    obtain ⟨l, rfl, _⟩ := Option.map_eq_some_iff.1 h3
    exact ⟨l, rfl⟩
  · cases h3

/-! ### The affected edges -/

section Tree
variable {M : Csm N S D} {par : N → N} {ht : N → Nat}

theorem parent_iff (I : Inv M) (T : TreeOn (fun x => x ∈ M.names) M.Adj M.root par ht) {a b : N} :
    M.Parent a b ↔ a ∈ M.names ∧ a ≠ M.root ∧ par a = b := by
  unfold Parent
  constructor
  · rintro ⟨h1, h2⟩
    have ha := T.mem_left a b h1
    obtain ⟨h3, h4⟩ := (below_iff I T ha).1 h2
    rcases (T.adj_iff a b).1 h1 with h | ⟨h5, h6, h7⟩
    · exact h
    · have := T.par_lt b h5 h6
      rw [h7] at this
      rcases T.desc_le h4 with h | h
      · exact absurd h.symm h3
      · omega
  · rintro ⟨h1, h2, rfl⟩
    refine ⟨T.adj_par h1 h2, (below_iff I T h1).2 ⟨?_, .step h1 h2 .refl⟩⟩
    intro h
    have := T.par_lt a h1 h2
    rw [← h] at this
    omega

theorem listedEdges_ok (I : Inv M) (T : TreeOn (fun x => x ∈ M.names) M.Adj M.root par ht) : ∀ {cs : List N},
    (∀ c ∈ cs, c ∈ M.names ∧ c ≠ M.root) →
      M.listedEdges cs = .ok (cs.flatMap fun c => [(some c, some (par c)), (some (par c), some c)])
  | [], _ => rfl
  | c :: t, h => by
    have h1 := getParent_eq I T (h c (by simp)).1 (h c (by simp)).2
    have h2 := listedEdges_ok I T (cs := t) (fun c hc => h c (by simp [hc]))
    simp only [listedEdges, h1, h2, bind, Except.bind, List.flatMap_cons, List.cons_append, List.nil_append]

theorem listedEdges_unknown (I : Inv M) (T : TreeOn (fun x => x ∈ M.names) M.Adj M.root par ht) : ∀ {cs : List N},
    (∃ c ∈ cs, c ∉ M.names) → M.listedEdges cs = .error .valueError
  | [], h => by simp at h
  | c :: t, h => by
    by_cases hc : c ∈ M.names
    · obtain ⟨c', h1, h2⟩ := h
      have ht' : ∃ c ∈ t, c ∉ M.names := by
        rcases List.mem_cons.1 h1 with rfl | h1
        · exact absurd hc h2
        · exact ⟨c', h1, h2⟩
      have ih := listedEdges_unknown I T ht'
      by_cases hr : c = M.root
      · simp only [listedEdges, hr, getParent_root, ih, bind, Except.bind]
      · simp only [listedEdges, getParent_eq I T hc hr, ih, bind, Except.bind]
    · have hr : c ≠ M.root := fun e => hc (e ▸ I.root_mem)
      have : M.getParent c = .error .valueError := by
        simp only [getParent, if_neg hr, checkExists_err hc, bind, Except.bind]
      simp only [listedEdges, this, bind, Except.bind]

theorem listedEdges_root : ∀ {cs : List N} {ks : List (Option N × Option N)}, M.root ∈ cs → M.listedEdges cs = .ok ks →
    (some M.root, none) ∈ ks
  | [], _, h, _ => by simp at h
  | c :: t, ks, h, hk => by
    simp only [listedEdges, bind, Except.bind] at hk
    split at hk
    · cases hk
    · rename_i p hp
      split at hk
      · cases hk
      · rename_i r hr
        cases hk
        rcases List.mem_cons.1 h with h | h
        · subst h
          rw [getParent_root] at hp
          cases hp
          simp
        · have := listedEdges_root h hr
          simp [this]

/-- the list of edges for valid arguments -/
theorem affectedEdges_ok (I : Inv M) {affected : Option (List N)}
    (hv : ∀ cs, affected = some cs → ∀ c ∈ cs, c ∈ M.names ∧ c ≠ M.root) :
    ∃ ks, M.affectedEdges affected = .ok ks ∧ ((∀ cs, affected = some cs → cs.Nodup) → ks.Nodup) ∧ (∀ a b, (some a, some b) ∈ ks ↔ M.Affected affected a b) ∧
      ∀ k ∈ ks, ∃ a b, k = (some a, some b) := by
  obtain ⟨par, ht, T⟩ := I.tree.treeOn I.root_mem
  cases affected with
  | none =>
    refine ⟨_, rfl, fun _ => ?_, ?_, ?_⟩
    · have := I.edgesNodup
      unfold Dict.keys at this
      rw [show (M.edges.map fun e => (some e.1.1, some e.1.2)) = (M.edges.map Prod.fst).map (fun k => (some k.1, some k.2)) by simp]
      exact this.map (fun x y h => by
        obtain ⟨a, b⟩ := x
        obtain ⟨c, d⟩ := y
        simpa using h)
    · intro a b
      simp only [Affected, Adj, Dict.keys, List.mem_map, Prod.mk.injEq, Option.some.injEq]
      constructor
      · rintro ⟨e, he, h1, h2⟩
        exact ⟨e, he, by rw [← h1, ← h2]⟩
      · rintro ⟨e, he, h⟩
        exact ⟨e, he, by rw [h], by rw [h]⟩
    · intro k hk
      obtain ⟨e, _, rfl⟩ := List.mem_map.1 hk
      exact ⟨_, _, rfl⟩
  | some cs =>
    have hcs := hv cs rfl
    refine ⟨_, listedEdges_ok I T hcs, fun hn => ?_, ?_, ?_⟩
    · rw [List.nodup_flatMap]
      have hne : ∀ c ∈ cs, par c ≠ c := fun c hc h => by
        have := T.par_lt c (hcs c hc).1 (hcs c hc).2
        rw [h] at this
        omega
      refine ⟨fun c hc => ?_, ?_⟩
      · have := hne c hc
        simp only [List.nodup_cons, List.mem_singleton, Prod.mk.injEq, Option.some.injEq, List.not_mem_nil, not_false_eq_true,
          List.nodup_nil, and_true]
        exact fun h => this h.2
      · refine (hn cs rfl).imp_of_mem ?_
        intro c c' hc hc' hcc
        rw [Function.onFun, List.disjoint_left]
        have h1 := T.par_lt c (hcs c hc).1 (hcs c hc).2
        have h2 := T.par_lt c' (hcs c' hc').1 (hcs c' hc').2
        have hcyc : ¬ (c = par c' ∧ par c = c') := by
          rintro ⟨e1, e2⟩
          rw [← e1] at h2
          rw [e2] at h1
          omega
        intro k hk hk'
        simp only [List.mem_cons, List.not_mem_nil, or_false] at hk hk'
        rcases hk with rfl | rfl <;> rcases hk' with h | h <;> simp only [Prod.mk.injEq, Option.some.injEq] at h
        · exact hcc h.1
        · exact hcyc h
        · exact hcyc ⟨h.2, h.1⟩
        · exact hcc h.2
    · intro a b
      simp only [Affected, parent_iff I T, List.mem_flatMap, List.mem_cons, Prod.mk.injEq, Option.some.injEq, List.not_mem_nil,
        or_false]
      constructor
      · rintro ⟨c, hc, ⟨rfl, rfl⟩ | ⟨rfl, rfl⟩⟩
        · exact .inl ⟨hc, (hcs _ hc).1, (hcs _ hc).2, rfl⟩
        · exact .inr ⟨hc, (hcs _ hc).1, (hcs _ hc).2, rfl⟩
      · rintro (⟨hc, _, _, rfl⟩ | ⟨hc, _, _, rfl⟩)
        · exact ⟨a, hc, .inl ⟨rfl, rfl⟩⟩
        · exact ⟨b, hc, .inr ⟨rfl, rfl⟩⟩
    · intro k hk
      obtain ⟨c, _, hk⟩ := List.mem_flatMap.1 hk
      simp only [List.mem_cons, List.not_mem_nil, or_false] at hk
      rcases hk with rfl | rfl <;> exact ⟨_, _, rfl⟩

theorem affected_symm (I : Inv M) {affected : Option (List N)} {a b : N} (h : M.Affected affected a b) :
    M.Affected affected b a := by
  cases affected with
  | none => exact I.tree.symm a b h
  | some cs => exact h.symm

theorem affected_adj (I : Inv M) {affected : Option (List N)} {a b : N} (h : M.Affected affected a b) : M.Adj a b := by
  cases affected with
  | none => exact h
  | some cs =>
    rcases h with h | h
    · exact h.2.1
    · exact I.tree.symm b a h.2.1

end Tree

theorem loop1_none {interp : S → Except TimeError (Option S)} {x : Option N} : ∀ {ks : List (Option N × Option N)},
    (x, none) ∈ ks → ∀ {h h' : LHeap S} {m m' : Csm N Nat D}, forEdges (interpEdge interp) ks (h, m) ≠ .ok () (h', m')
  | [], hk, _, _, _, _ => by simp at hk
  | k :: ks, hk, h, h', m, m' => by
    intro hl
    unfold forEdges at hl
    rw [Py.bind_apply] at hl
    split at hl
    · rename_i u st he
      obtain ⟨h₁, m₁⟩ := st
      rcases List.mem_cons.1 hk with rfl | hk
      · have : m.edgeAt (x, none) = none := by cases x <;> rfl
        simp [interpEdge, this] at he
      · exact loop1_none hk hl
    · cases hl

/-! ### The theorems -/

/-- no system is listed twice, or interpolating a system again at the same times changes nothing -/
def Harmless (interp : S → Except TimeError (Option S)) (h : LHeap S) (m : Csm N Nat D) (affected : Option (List N)) : Prop :=
  (∀ cs, affected = some cs → cs.Nodup) ∨
    ∀ a b s, (h.view m).Affected affected a b → (h.view m).Supplied a b s → Again interp m.refTime s

theorem Harmless.fine {interp : S → Except TimeError (Option S)} {h : LHeap S} {m : Csm N Nat D} (I : Inv (h.view m))
    {affected : Option (List N)} (hn : Harmless interp h m affected) {ks : List (Option N × Option N)}
    (hks : (∀ cs, affected = some cs → cs.Nodup) → ks.Nodup)
    (hka : ∀ a b, (some a, some b) ∈ ks ↔ (h.view m).Affected affected a b) : Fine interp h m ks := by
  have hkn : (Dict.keys m.edges).Nodup := by rw [← view_keys h]; exact I.edgesNodup
  refine hn.imp hks fun hn a b l hab he => hn a b _ ((hka a b).1 hab) ((view_supplied hkn).2 ⟨l, he, rfl⟩)

/-- both loops -/
theorem interpTime_run {interp : S → Except TimeError (Option S)} {h : LHeap S} {m : Csm N Nat D} (I : Inv (h.view m))
    (hb : Bounded h m) {affected : Option (List N)} (hn : Harmless interp h m affected)
    (hv : ∀ cs, affected = some cs → ∀ c ∈ cs, c ∈ m.names ∧ c ≠ m.root)
    (hi : ∀ a b s, (h.view m).Affected affected a b → (h.view m).Supplied a b s → ∃ o, interp (resetIn m.refTime s) = .ok o ∧
      LcsLike.isSeries (o.getD (resetIn m.refTime s)) = false) :
    ∃ ks h₁ m₁ h' m', (∀ a b, (some a, some b) ∈ ks ↔ (h.view m).Affected affected a b) ∧ Step1 interp ks h m h₁ m₁ ∧
      Step2 ks h₁ m₁ h' m' ∧ interpTime interp affected (h, m) = .ok () (h', m') := by
  have hkn : (Dict.keys m.edges).Nodup := by rw [← view_keys h]; exact I.edgesNodup
  obtain ⟨ks, hk, hknd, hka, hks⟩ := affectedEdges_ok I hv
  have hex : ∀ a b, (some a, some b) ∈ ks → ∃ e, m.edge? a b = some e := fun a b h =>
    view_adj.1 (affected_adj I ((hka a b).1 h))
  obtain ⟨h₁, m₁, e1, s1⟩ := loop1_ok (interp := interp) (hn.fine I hknd hka) hb (by
    intro k hkk
    obtain ⟨a, b, rfl⟩ := hks k hkk
    obtain ⟨e, he⟩ := hex a b hkk
    refine ⟨a, b, e, rfl, he, fun hd => ?_⟩
    obtain ⟨l, rfl⟩ := transformation_of_inv I he hd
    obtain ⟨o, ho, _⟩ := hi a b (h.obj l) ((hka a b).1 hkk) ((view_supplied hkn).2 ⟨l, he, rfl⟩)
    exact ⟨l, o, rfl, ho⟩)
  have ho := opposite_of_inv I
  have ho1 := s1.opposite ho (fun a b e he hd => by
    obtain ⟨l, rfl⟩ := transformation_of_inv I he hd
    simp)
  obtain ⟨h', m', e2, s2⟩ := loop2_ok (ks := ks) s1.bounded ho1 (by
    intro k hkk
    obtain ⟨a, b, rfl⟩ := hks k hkk
    obtain ⟨e, he⟩ := hex a b hkk
    cases hd : e.defined with
    | true =>
      obtain ⟨l, rfl⟩ := transformation_of_inv I he hd
      obtain ⟨o, l', _, h2, _⟩ := s1.hit a b l hkk he
      exact ⟨a, b, _, rfl, h2, fun h => by cases h⟩
    | false =>
      refine ⟨a, b, e, rfl, s1.miss a b e he (.inr hd), fun _ => ?_⟩
      obtain ⟨e', h1, h2⟩ := ho a b e he hd
      obtain ⟨l, rfl⟩ := transformation_of_inv I h1 h2
      have hmem := (hka b a).2 (affected_symm I ((hka a b).1 hkk))
      obtain ⟨o, l', h3, h4, h5, _⟩ := s1.hit b a l hmem h1
      refine ⟨true, l', h4, ?_⟩
      obtain ⟨o', h6, h7⟩ := hi b a (h.obj l) ((hka b a).1 hmem) ((view_supplied hkn).2 ⟨l, h1, rfl⟩)
      rw [h3] at h6
      cases h6
      rw [h5, h7])
  refine ⟨ks, h₁, m₁, h', m', hka, s1, s2, ?_⟩
  simp only [interpTime, hk]
  rw [Py.bind_ok e1]
  exact e2

/-- a call that returns was called with known systems other than the root -/
theorem interpTime_valid {interp : S → Except TimeError (Option S)} {h h' : LHeap S} {m m' : Csm N Nat D} (I : Inv (h.view m))
    {affected : Option (List N)} (hr : interpTime interp affected (h, m) = .ok () (h', m')) :
    ∀ cs, affected = some cs → ∀ c ∈ cs, c ∈ m.names ∧ c ≠ m.root := by
  obtain ⟨par, ht, T⟩ := I.tree.treeOn I.root_mem
  unfold interpTime at hr
  simp only at hr
  rintro cs rfl c hc
  by_contra hcon
  by_cases hcm : c ∈ m.names
  · have hroot : c = m.root := by
      by_contra h
      exact hcon ⟨hcm, h⟩
    subst hroot
    simp only [affectedEdges] at hr
    cases hl : (h.view m).listedEdges cs with
    | error e => simp [hl] at hr
    | ok ks =>
      simp only [hl] at hr
      have hmem := listedEdges_root (M := h.view m) hc hl
      rw [Py.bind_apply] at hr
      split at hr
      · rename_i u st he
        obtain ⟨h₁, m₁⟩ := st
        exact loop1_none hmem he
      · cases hr
  · have := listedEdges_unknown I T (cs := cs) ⟨c, hc, hcm⟩
    simp [affectedEdges, this] at hr

/-- a call that returns has interpolated all systems on affected edges -/
theorem interpTime_ready {interp : S → Except TimeError (Option S)} {h h' : LHeap S} {m m' : Csm N Nat D} (I : Inv (h.view m))
    (hb : Bounded h m) {affected : Option (List N)}
    (hr : interpTime interp affected (h, m) = .ok () (h', m')) {a b : N} {s : S} (ha : (h.view m).Affected affected a b)
    (hs : (h.view m).Supplied a b s) : ∃ o, interp (resetIn m.refTime s) = .ok o := by
  have hkn : (Dict.keys m.edges).Nodup := by rw [← view_keys h]; exact I.edgesNodup
  obtain ⟨ks, hk, -, hka, -⟩ := affectedEdges_ok I (interpTime_valid I hr)
  unfold interpTime at hr
  simp only [hk] at hr
  rw [Py.bind_apply] at hr
  split at hr
  · rename_i u st he
    obtain ⟨h₁, m₁⟩ := st
    obtain ⟨x, y, e, hxy, h1, h2⟩ := ready_of_loop1 hb he _ ((hka a b).2 ha)
    simp only [Prod.mk.injEq, Option.some.injEq] at hxy
    obtain ⟨rfl, rfl⟩ := hxy
    obtain ⟨l, hl, rfl⟩ := (view_supplied hkn).1 hs
    rw [hl] at h1
    cases h1
    obtain ⟨l', o, h3, h4⟩ := h2 rfl
    cases h3
    exact ⟨o, h4⟩
  · cases hr

/-- **C70** (success): `interp_time` in place returns exactly if all listed systems exist and are not the root, all systems on the
affected edges can be interpolated, and no expression is left (which is the case without a time). -/
theorem C70_ok_iff {interp : S → Except TimeError (Option S)} {h : LHeap S} {m : Csm N Nat D} (I : Inv (h.view m))
    (hb : Bounded h m) {affected : Option (List N)} (hn : Harmless interp h m affected) :
    (∃ h' m', interpTime interp affected (h, m) = .ok () (h', m')) ↔
      (∀ cs, affected = some cs → ∀ c ∈ cs, c ∈ m.names ∧ c ≠ m.root) ∧
      ∀ a b s, (h.view m).Affected affected a b → (h.view m).Supplied a b s → ∃ o, interp (resetIn m.refTime s) = .ok o ∧
        LcsLike.isSeries (o.getD (resetIn m.refTime s)) = false := by
  have hkn : (Dict.keys m.edges).Nodup := by rw [← view_keys h]; exact I.edgesNodup
  constructor
  · rintro ⟨h', m', hr⟩
    have hv := interpTime_valid I hr
    unfold interpTime at hr
    simp only at hr
    refine ⟨hv, ?_⟩
    obtain ⟨ks, hk, hknd, hka, hks⟩ := affectedEdges_ok I hv
    simp only [hk] at hr
    rw [Py.bind_apply] at hr
    split at hr
    · rename_i u st he
      obtain ⟨h₁, m₁⟩ := st
      have hready := ready_of_loop1 hb he
      obtain ⟨h₂, m₂, e1, s1⟩ := loop1_ok (hn.fine I hknd hka) hb hready
      rw [e1] at he
      cases he
      have ho := opposite_of_inv I
      have ho1 := s1.opposite ho (fun a b e he hd => by
        obtain ⟨l, rfl⟩ := transformation_of_inv I he hd
        simp)
      have hready2 := ready_of_loop2 s1.bounded ho1 hr
      intro a b s haff hs
      obtain ⟨l, hl, rfl⟩ := (view_supplied hkn).1 hs
      obtain ⟨o, l', h1, h2, h3, _⟩ := s1.hit a b l ((hka a b).2 haff) hl
      refine ⟨o, h1, ?_⟩
      obtain ⟨x, y, e, hxy, h4, h5⟩ := hready2 (some b, some a) ((hka b a).2 (affected_symm I haff))
      simp only [Prod.mk.injEq, Option.some.injEq] at hxy
      obtain ⟨rfl, rfl⟩ := hxy
      have hd : e.defined = false := by
        by_contra hd
        have hd : e.defined = true := by simpa using hd
        -- both directions would be defined
        have hsup : ((a, b), (⟨true, some (h.obj l)⟩ : Edge S)) ∈ (h.view m).edges := hs
        obtain ⟨e', h6, h7⟩ := I.paired a b _ hsup
        rw [mem_edges_iff I.edgesNodup, view_edge?] at h6
        obtain ⟨e₀, h8, rfl⟩ := Option.map_eq_some_iff.1 h6
        have hd0 : e₀.defined = false := by
          rcases h7 with ⟨s, _, h7⟩ | ⟨s, _, h7⟩
          · exact congrArg Edge.defined h7
          · cases h7
        rw [s1.miss b a e₀ h8 (.inr hd0)] at h4
        cases h4
        rw [hd0] at hd
        cases hd
      obtain ⟨d, l₂, h6, h7⟩ := h5 hd
      rw [h2] at h6
      cases h6
      rw [← h3, h7]
    · cases hr
  · rintro ⟨hv, hi⟩
    obtain ⟨ks, h₁, m₁, h', m', _, _, _, hr⟩ := interpTime_run I hb hn hv hi
    exact ⟨h', m', hr⟩

/-- **C70** (result): names, data, subsystems, reference time and links of the manager stay. The system supplied on an affected
link becomes its interpolation (after a missing reference time was set to the one of the manager) and the other direction becomes
the inverse of this. Other links stay, except for reference times of systems that are also used on affected links. Objects that are
not on affected links are not changed. -/
theorem C70_result {interp : S → Except TimeError (Option S)} {h h' : LHeap S} {m m' : Csm N Nat D} (I : Inv (h.view m))
    (hb : Bounded h m) {affected : Option (List N)} (hn : Harmless interp h m affected)
    (hr : interpTime interp affected (h, m) = .ok () (h', m')) :
    Bounded h' m' ∧ m' = { m with edges := m'.edges } ∧ Dict.keys m'.edges = Dict.keys m.edges ∧
    (∀ a b s, (h.view m).Affected affected a b → (h.view m).Supplied a b s → ∃ s', interp (resetIn m.refTime s) = .ok s' ∧
      (h'.view m').Supplied a b (s'.getD (resetIn m.refTime s)) ∧
      (h'.view m').edge? b a = some ⟨false, some (LcsLike.invert (s'.getD (resetIn m.refTime s)))⟩ ∧
      LcsLike.isSeries (s'.getD (resetIn m.refTime s)) = false) ∧
    (∀ a b e, ¬ (h.view m).Affected affected a b → m.edge? a b = some e → m'.edge? a b = some e) ∧
    ∀ l < h.next,
      ((∃ a b, (h.view m).Affected affected a b ∧ m.edge? a b = some ⟨true, some l⟩) ∧ h'.obj l = resetIn m.refTime (h.obj l)) ∨
      ((¬ ∃ a b, (h.view m).Affected affected a b ∧ m.edge? a b = some ⟨true, some l⟩) ∧ h'.obj l = h.obj l) := by
  have hkn : (Dict.keys m.edges).Nodup := by rw [← view_keys h]; exact I.edgesNodup
  obtain ⟨hv, hi⟩ := (C70_ok_iff I hb hn).1 ⟨h', m', hr⟩
  obtain ⟨ks, h₁, m₁, h₂, m₂, hka, s1, s2, hr'⟩ := interpTime_run I hb hn hv hi
  rw [hr] at hr'
  cases hr'
  have hkn' : (Dict.keys m'.edges).Nodup := by rw [s2.keys, s1.keys]; exact hkn
  refine ⟨s2.bounded, ?_, s2.keys.trans s1.keys, ?_, ?_, ?_⟩
  · conv_lhs => rw [s2.frame]
    rw [s1.frame]
  · intro a b s haff hs
    obtain ⟨l, hl, rfl⟩ := (view_supplied hkn).1 hs
    obtain ⟨o, l', h1, h2, h3, _⟩ := s1.hit a b l ((hka a b).2 haff) hl
    have h4 := s2.miss a b _ h2 (.inr rfl)
    have h5 : h'.obj l' = h₁.obj l' := s2.old l' (s1.bounded a b _ l' h2 rfl)
    obtain ⟨o', h6, h7⟩ := hi a b (h.obj l) haff hs
    rw [h1] at h6
    cases h6
    refine ⟨o, h1, (view_supplied hkn').2 ⟨l', h4, h5.trans h3⟩, ?_, h7⟩
    -- the other direction
    have hsup : ((a, b), (⟨true, some (h.obj l)⟩ : Edge S)) ∈ (h.view m).edges := hs
    obtain ⟨e', h6, h8⟩ := I.paired a b _ hsup
    rw [mem_edges_iff I.edgesNodup, view_edge?] at h6
    obtain ⟨e₀, h9, rfl⟩ := Option.map_eq_some_iff.1 h6
    have hd0 : e₀.defined = false := by
      rcases h8 with ⟨s, _, h8⟩ | ⟨s, _, h8⟩
      · exact congrArg Edge.defined h8
      · cases h8
    obtain ⟨d, l₁, l₂, h10, h11, h12, h13⟩ := s2.hit b a e₀ ((hka b a).2 (affected_symm I haff)) (s1.miss b a e₀ h9 (.inr hd0)) hd0
    rw [h2] at h10
    cases h10
    rw [view_edge?, h12]
    simp only [Option.map_some, h13, h3]
  · intro a b e hna he
    have hk : (some a, some b) ∉ ks := fun h => hna ((hka a b).1 h)
    exact s2.miss a b e (s1.miss a b e he (.inl hk)) (.inl hk)
  · intro l hl
    have ht : Touched m ks l ↔ ∃ a b, (h.view m).Affected affected a b ∧ m.edge? a b = some ⟨true, some l⟩ := by
      unfold Touched
      simp only [hka]
    rw [← ht, s2.old l (hl.trans_le s1.grow)]
    by_cases h : Touched m ks l
    · exact .inl ⟨h, s1.oldHit l h⟩
    · exact .inr ⟨h, s1.oldMiss l hl h⟩

/-- **C70** (validity): the result is a valid manager again, with inverse directions on all links, if the systems on affected links
are not used on other links too. -/
theorem C70_inv {interp : S → Except TimeError (Option S)} {h h' : LHeap S} {m m' : Csm N Nat D} (I : Inv (h.view m))
    (hb : Bounded h m) {affected : Option (List N)} (hn : Harmless interp h m affected)
    (hs : ∀ a b l a' b' e, (h.view m).Affected affected a b → m.edge? a b = some ⟨true, some l⟩ → m.edge? a' b' = some e →
      e.transformation = some l → (h.view m).Affected affected a' b')
    (hr : interpTime interp affected (h, m) = .ok () (h', m')) : Inv (h'.view m') := by
  have hkn : (Dict.keys m.edges).Nodup := by rw [← view_keys h]; exact I.edgesNodup
  obtain ⟨hb', hf, hk, h1, h2, h3⟩ := C70_result I hb hn hr
  have hkn' : (Dict.keys m'.edges).Nodup := by rw [hk]; exact hkn
  have hadj : (h'.view m').Adj = (h.view m).Adj := by
    funext a b
    unfold Adj
    rw [view_keys, view_keys, hk]
  have hnames : (h'.view m').names = (h.view m).names := by
    show Dict.keys m'.nodes = Dict.keys m.nodes
    rw [hf]
  have hroot : (h'.view m').root = (h.view m).root := by
    show m'.root = m.root
    rw [hf]
  have hsubs : (h'.view m').subs = (h.view m).subs := by
    show m'.subs = m.subs
    rw [hf]
  have hdata : (h'.view m').dataNames = (h.view m).dataNames := by
    unfold dataNames
    show m'.nodes.flatMap _ = m.nodes.flatMap _
    rw [hf]
  refine ⟨hnames ▸ I.nodesNodup, by rw [view_keys]; exact hkn', by rw [hroot, hnames]; exact I.root_mem, ?_, ?_,
    hdata ▸ I.dataNodup, ?_⟩
  · rw [hadj, hnames]; exact I.tree
  · intro a b e he
    simp only [mem_edges_iff (M := h'.view m') (by rwa [view_keys])] at he ⊢
    have hab : (h.view m).Adj a b := by
      rw [← hadj]
      unfold Adj
      rw [← Dict.get?_isSome]
      exact ⟨e, he⟩
    -- the pair before
    obtain ⟨e₀, he₀⟩ := view_adj.1 hab
    have hm₀ : ((a, b), (⟨e₀.defined, e₀.transformation.map h.obj⟩ : Edge S)) ∈ (h.view m).edges := by
      rw [mem_edges_iff I.edgesNodup, view_edge?, he₀]
      rfl
    obtain ⟨e₁, hm₁, hp⟩ := I.paired a b _ hm₀
    by_cases haff : (h.view m).Affected affected a b
    · rcases hp with ⟨s, hp, hq⟩ | ⟨s, hp, hq⟩
      · rw [hp] at hm₀
        obtain ⟨s', _, h5, h6, h7⟩ := h1 a b s haff hm₀
        rw [Supplied, mem_edges_iff (by rwa [view_keys]), he] at h5
        cases h5
        exact ⟨_, h6, .inl ⟨_, rfl, by simp [reverseOf, h7]⟩⟩
      · rw [hp] at hm₁
        obtain ⟨s', _, h5, h6, h7⟩ := h1 b a s (affected_symm I haff) hm₁
        rw [Supplied, mem_edges_iff (by rwa [view_keys])] at h5
        rw [he] at h6
        cases h6
        exact ⟨_, h5, .inr ⟨_, rfl, by simp [reverseOf, h7]⟩⟩
    · -- nothing changes on other links
      have hsame : ∀ x y, (h.view m).Adj x y → ¬ (h.view m).Affected affected x y →
          (h'.view m').edge? x y = (h.view m).edge? x y := by
        intro x y hxy hnaff
        obtain ⟨e, he⟩ := view_adj.1 hxy
        rw [view_edge?, view_edge?, h2 x y e hnaff he, he]
        obtain ⟨d, t⟩ := e
        cases t with
        | none => rfl
        | some l =>
          simp only [Option.map_some, Option.some.injEq, Edge.mk.injEq, true_and]
          rcases h3 l (hb x y _ l he rfl) with ⟨⟨a', b', h4, h5⟩, _⟩ | ⟨_, h4⟩
          · exact absurd (hs a' b' l x y _ h4 h5 he rfl) hnaff
          · exact h4
      have hba : (h.view m).Adj b a := I.tree.symm a b hab
      have hnba : ¬ (h.view m).Affected affected b a := fun h => haff (affected_symm I h)
      rw [hsame a b hab haff, view_edge?, he₀] at he
      cases he
      refine ⟨e₁, ?_, hp⟩
      rw [hsame b a hba hnba]
      rwa [mem_edges_iff I.edgesNodup] at hm₁
  · intro s hsm
    rw [hadj, hnames, hroot]
    rw [hsubs] at hsm
    exact I.subs_ok s hsm

/-- all links affected: no condition on shared systems -/
theorem C70_inv_all {interp : S → Except TimeError (Option S)} {h h' : LHeap S} {m m' : Csm N Nat D} (I : Inv (h.view m))
    (hb : Bounded h m) (hr : interpTime interp none (h, m) = .ok () (h', m')) : Inv (h'.view m') :=
  C70_inv (affected := none) I hb (.inl fun _ h => by cases h) (fun _ _ _ _ _ _ _ _ h' _ => view_adj.2 ⟨_, h'⟩) hr

/-- **C70** (unknown system): a `ValueError`, and nothing is changed -/
theorem C70_unknown {interp : S → Except TimeError (Option S)} {h : LHeap S} {m : Csm N Nat D} (I : Inv (h.view m))
    {cs : List N} {c : N} (hc : c ∈ cs) (hu : c ∉ m.names) :
    interpTime interp (some cs) (h, m) = .err (.csm .valueError) (h, m) := by
  obtain ⟨par, ht, T⟩ := I.tree.treeOn I.root_mem
  have := listedEdges_unknown I T (cs := cs) ⟨c, hc, hu⟩
  simp only [interpTime, affectedEdges, this]

theorem listedEdges_append {S : Type} (M : Csm N S D) {ks' : List (Option N × Option N)} : ∀ {cs cs' : List N} {ks},
    M.listedEdges cs = .ok ks → M.listedEdges cs' = .ok ks' → M.listedEdges (cs ++ cs') = .ok (ks ++ ks')
  | [], cs', ks, h, h' => by cases h; simpa using h'
  | c :: t, cs', ks, h, h' => by
    simp only [listedEdges, bind, Except.bind] at h
    split at h
    · cases h
    · rename_i p hp
      split at h
      · cases h
      · rename_i r hr
        cases h
        have ih := listedEdges_append M hr h'
        simp only [List.cons_append, listedEdges, hp, bind, Except.bind]
        rw [ih]

theorem forEdges_append {f : Option N × Option N → LCmd N S D Unit} {ks' : List (Option N × Option N)} :
    ∀ {ks : List (Option N × Option N)} {st st'}, forEdges f ks st = .ok () st' → forEdges f (ks ++ ks') st = forEdges f ks' st'
  | [], st, st', h => by
    cases h
    rfl
  | k :: ks, st, st', h => by
    unfold forEdges at h
    rw [Py.bind_apply] at h
    split at h
    · rename_i u st₁ he
      rw [List.cons_append, forEdges, Py.bind_apply, he]
      exact forEdges_append h
    · cases h

/-- **C70** (counterexample): if the root is listed, the call fails with a `KeyError` after the links of the systems before it were
changed, but only in the supplied direction. The other direction still refers to the old system. -/
theorem C70_root {interp : S → Except TimeError (Option S)} {h : LHeap S} {m : Csm N Nat D} (I : Inv (h.view m))
    (hb : Bounded h m) {cs cs' : List N} (hn : Harmless interp h m (some cs)) (hv : ∀ c ∈ cs, c ∈ m.names ∧ c ≠ m.root) (hv' : ∀ c ∈ cs', c ∈ m.names)
    (hi : ∀ a b s, (h.view m).Affected (some cs) a b → (h.view m).Supplied a b s → ∃ o, interp (resetIn m.refTime s) = .ok o) :
    ∃ h' m', interpTime interp (some (cs ++ m.root :: cs')) (h, m) = .err (.csm .keyError) (h', m') ∧
      ∀ a b s, (h.view m).Affected (some cs) a b → (h.view m).Supplied a b s → ∃ o, interp (resetIn m.refTime s) = .ok o ∧
        (h'.view m').Supplied a b (o.getD (resetIn m.refTime s)) ∧ m'.edge? b a = m.edge? b a ∧
        ∀ l, m.edge? b a = some ⟨false, some l⟩ → (∀ a b, m.edge? a b ≠ some ⟨true, some l⟩) → h'.obj l = h.obj l := by
  have hkn : (Dict.keys m.edges).Nodup := by rw [← view_keys h]; exact I.edgesNodup
  obtain ⟨par, ht, T⟩ := I.tree.treeOn I.root_mem
  obtain ⟨ks, hk, hknd, hka, hks⟩ := affectedEdges_ok I (affected := some cs)
    (fun _ h => by cases h; exact hv)
  obtain ⟨ks', hk'⟩ : ∃ ks', (h.view m).listedEdges cs' = .ok ks' := by
    have : ∀ cs' : List N, (∀ c ∈ cs', c ∈ (h.view m).names) → ∃ ks', (h.view m).listedEdges cs' = .ok ks' := by
      intro cs'
      induction cs' with
      | nil => exact fun _ => ⟨_, rfl⟩
      | cons c t ih =>
        intro hc
        obtain ⟨r, hr⟩ := ih (fun c h => hc c (by simp [h]))
        by_cases hroot : c = (h.view m).root
        · refine ⟨(some c, none) :: (none, some c) :: r, ?_⟩
          subst hroot
          simp only [listedEdges, getParent_root, bind, Except.bind]
          rw [hr]
        · refine ⟨(some c, some (par c)) :: (some (par c), some c) :: r, ?_⟩
          simp only [listedEdges, getParent_eq I T (hc c (by simp)) hroot, bind, Except.bind]
          rw [hr]
    exact this cs' hv'
  have hk2 : (h.view m).listedEdges (m.root :: cs') = .ok ((some m.root, none) :: (none, some m.root) :: ks') := by
    have := getParent_root (h.view m)
    simp only [listedEdges, show m.root = (h.view m).root from rfl, this, hk', bind, Except.bind]
  have hex : ∀ a b, (some a, some b) ∈ ks → ∃ e, m.edge? a b = some e := fun a b h =>
    view_adj.1 (affected_adj I ((hka a b).1 h))
  obtain ⟨h₁, m₁, e1, s1⟩ := loop1_ok (interp := interp) (hn.fine I hknd hka) hb (by
    intro k hkk
    obtain ⟨a, b, rfl⟩ := hks k hkk
    obtain ⟨e, he⟩ := hex a b hkk
    refine ⟨a, b, e, rfl, he, fun hd => ?_⟩
    obtain ⟨l, rfl⟩ := transformation_of_inv I he hd
    obtain ⟨o, ho⟩ := hi a b (h.obj l) ((hka a b).1 hkk) ((view_supplied hkn).2 ⟨l, he, rfl⟩)
    exact ⟨l, o, rfl, ho⟩)
  refine ⟨h₁, m₁, ?_, ?_⟩
  · have hl : (h.view m).affectedEdges (some (cs ++ m.root :: cs')) =
        .ok (ks ++ (some m.root, none) :: (none, some m.root) :: ks') := listedEdges_append _ hk hk2
    have hE : forEdges (interpEdge interp) (ks ++ (some m.root, none) :: (none, some m.root) :: ks') (h, m) =
        .err (.csm .keyError) (h₁, m₁) := by
      rw [forEdges_append e1, forEdges, Py.bind_apply]
      have : m₁.edgeAt (some m.root, none) = none := rfl
      simp only [interpEdge, this]
    simp only [interpTime, hl]
    rw [Py.bind_apply, hE]
  · intro a b s haff hs
    obtain ⟨l, hl, rfl⟩ := (view_supplied hkn).1 hs
    obtain ⟨o, l', h1, h2, h3, _⟩ := s1.hit a b l ((hka a b).2 haff) hl
    have hkn₁ : (Dict.keys m₁.edges).Nodup := by rw [s1.keys]; exact hkn
    refine ⟨o, h1, (view_supplied hkn₁).2 ⟨l', h2, h3⟩, ?_, ?_⟩
    · have hsup : ((a, b), (⟨true, some (h.obj l)⟩ : Edge S)) ∈ (h.view m).edges := hs
      obtain ⟨e', h6, h8⟩ := I.paired a b _ hsup
      rw [mem_edges_iff I.edgesNodup, view_edge?] at h6
      obtain ⟨e₀, h9, rfl⟩ := Option.map_eq_some_iff.1 h6
      have hd0 : e₀.defined = false := by
        rcases h8 with ⟨s, _, h8⟩ | ⟨s, _, h8⟩
        · exact congrArg Edge.defined h8
        · cases h8
      rw [h9]
      exact s1.miss b a e₀ h9 (.inr hd0)
    · intro l₂ h4 h5
      exact s1.oldMiss l₂ (hb b a _ l₂ h4 rfl) (fun ⟨x, y, _, h6⟩ => h5 x y h6)

/-! ### Not in place -/

section Copy

theorem copy_edge? (h : LHeap S) (m : Csm N Nat D) (a b : N) :
    (deepCopy h m).2.edge? a b = (m.edge? a b).map fun e => ⟨e.defined, e.transformation.map (· + h.next)⟩ := by
  unfold edge? deepCopy
  simp only
  induction m.edges with
  | nil => rfl
  | cons e t ih =>
    obtain ⟨k, e⟩ := e
    simp only [List.map_cons, Dict.get?]
    split
    · rfl
    · exact ih

theorem copy_obj (h : LHeap S) (m : Csm N Nat D) (l : Nat) : (deepCopy h m).1.obj (l + h.next) = h.obj l := by
  simp [deepCopy]

theorem copy_old (h : LHeap S) (m : Csm N Nat D) {l : Nat} (hl : l < h.next) : (deepCopy h m).1.obj l = h.obj l := by
  simp [deepCopy, hl]

/-- the copy looks like the original -/
theorem copy_view (h : LHeap S) (m : Csm N Nat D) : (deepCopy h m).1.view (deepCopy h m).2 = h.view m := by
  unfold LHeap.view
  simp only [deepCopy, List.map_map, Csm.mk.injEq, true_and, and_true]
  apply List.map_congr_left
  rintro ⟨k, d, t⟩ _
  cases t with
  | none => rfl
  | some l => simp

theorem copy_bounded {h : LHeap S} {m : Csm N Nat D} (hb : Bounded h m) : Bounded (deepCopy h m).1 (deepCopy h m).2 := by
  intro a b e l he hl
  rw [copy_edge?] at he
  obtain ⟨e₀, h1, rfl⟩ := Option.map_eq_some_iff.1 he
  obtain ⟨l₀, h2, rfl⟩ := Option.map_eq_some_iff.1 hl
  have := hb a b e₀ l₀ h1 h2
  simp only [deepCopy]
  omega

/-- the manager uses no object of `P`, and these objects exist -/
def Separate (P : Nat → Prop) (h : LHeap S) (m : Csm N Nat D) : Prop :=
  (∀ a b e l, m.edge? a b = some e → e.transformation = some l → ¬ P l) ∧ ∀ l, P l → l < h.next

/-- objects of `P` stay -/
def Retains (P : Nat → Prop) (h : LHeap S) (st : LHeap S × Csm N Nat D) : Prop :=
  Separate P st.1 st.2 ∧ ∀ l, P l → st.1.obj l = h.obj l

theorem edgeAt_spec {m : Csm N Nat D} {k : Option N × Option N} {ab : N × N} {e : Edge Nat} (h : m.edgeAt k = some (ab, e)) :
    m.edge? ab.1 ab.2 = some e := by
  obtain ⟨x, y⟩ := k
  cases x with
  | none => cases h
  | some a => cases y with
    | none => cases h
    | some b =>
      simp only [edgeAt, Option.map_eq_some_iff, Prod.mk.injEq] at h
      obtain ⟨e', h1, rfl, rfl⟩ := h
      exact h1

theorem Separate.setEdge {P : Nat → Prop} {h h' : LHeap S} {m : Csm N Nat D} (ha : Separate P h m) {k : N × N} {d : Bool} {l : Nat}
    (hl : ¬ P l) (hn : h.next ≤ h'.next) : Separate P h' (m.setEdge k d l) := by
  refine ⟨fun a b e l' he hl' => ?_, fun l' h' => (ha.2 l' h').trans_le hn⟩
  rw [edge?_setEdge] at he
  split at he
  · cases he; cases hl'; exact hl
  · exact ha.1 a b e l' he hl'

theorem keeps_interpEdge {interp : S → Except TimeError (Option S)} {P : Nat → Prop} {h : LHeap S} {m : Csm N Nat D}
    (ha : Separate P h m) (k : Option N × Option N) : Retains P h (interpEdge interp k (h, m)).state := by
  unfold interpEdge
  simp only
  cases hE : m.edgeAt k with
  | none => exact ⟨ha, fun _ _ => rfl⟩
  | some x =>
    obtain ⟨ab, d, t⟩ := x
    have he := edgeAt_spec hE
    cases d with
    | false => exact ⟨ha, fun _ _ => rfl⟩
    | true =>
      cases t with
      | none => exact ⟨ha, fun _ _ => rfl⟩
      | some l =>
        have hl : ¬ P l := ha.1 _ _ _ l he rfl
        have hput : ∀ x, P x → (h.put l (resetIn m.refTime (h.obj l))).obj x = h.obj x := by
          intro x hx
          have : x ≠ l := fun e => hl (e ▸ hx)
          simp [LHeap.put, this]
        simp only [if_true]
        split
        · exact ⟨ha, hput⟩
        · exact ⟨ha.setEdge hl le_rfl, hput⟩
        · rename_i s _
          have hn : ¬ P h.next := fun hp => absurd (ha.2 _ hp) (lt_irrefl _)
          refine ⟨ha.setEdge hn (Nat.le_succ _), fun x hx => ?_⟩
          have : x ≠ h.next := fun e => hn (e ▸ hx)
          show (if x = h.next then s else _) = _
          rw [if_neg this]
          exact hput x hx

theorem keeps_invertEdge {P : Nat → Prop} {h : LHeap S} {m : Csm N Nat D} (ha : Separate P h m) (k : Option N × Option N) :
    Retains P h (invertEdge k (h, m)).state := by
  unfold invertEdge
  simp only
  split
  · exact ⟨ha, fun _ _ => rfl⟩
  · split
    · exact ⟨ha, fun _ _ => rfl⟩
    · split
      · exact ⟨ha, fun _ _ => rfl⟩
      · split
        · exact ⟨ha, fun _ _ => rfl⟩
        · split
          · exact ⟨ha, fun _ _ => rfl⟩
          · have hn : ¬ P h.next := fun hp => absurd (ha.2 _ hp) (lt_irrefl _)
            refine ⟨ha.setEdge hn (Nat.le_succ _), fun x hx => ?_⟩
            have : x ≠ h.next := fun e => hn (e ▸ hx)
            simp [LHeap.alloc, this, Res.state]

theorem keeps_forEdges {P : Nat → Prop} {f : Option N × Option N → LCmd N S D Unit}
    (hf : ∀ k (h : LHeap S) (m : Csm N Nat D), Separate P h m → Retains P h (f k (h, m)).state) :
    ∀ (ks : List (Option N × Option N)) {h : LHeap S} {m : Csm N Nat D}, Separate P h m → Retains P h (forEdges f ks (h, m)).state
  | [], _, _, ha => ⟨ha, fun _ _ => rfl⟩
  | k :: ks, h, m, ha => by
    have h1 := hf k h m ha
    rw [forEdges, Py.bind_apply]
    split
    · rename_i u st he
      obtain ⟨h₁, m₁⟩ := st
      rw [he] at h1
      have h2 := keeps_forEdges hf ks h1.1
      exact ⟨h2.1, fun l hl => (h2.2 l hl).trans (h1.2 l hl)⟩
    · rename_i e st he
      rw [he] at h1
      exact h1

theorem keeps_interpTime {interp : S → Except TimeError (Option S)} {P : Nat → Prop} {h : LHeap S} {m : Csm N Nat D}
    (ha : Separate P h m) (affected : Option (List N)) : Retains P h (interpTime interp affected (h, m)).state := by
  unfold interpTime
  simp only
  split
  · exact ⟨ha, fun _ _ => rfl⟩
  · rename_i ks _
    have h1 := keeps_forEdges (fun k _ _ ha => keeps_interpEdge (interp := interp) ha k) ks ha
    rw [Py.bind_apply]
    split
    · rename_i u st he
      obtain ⟨h₁, m₁⟩ := st
      rw [he] at h1
      have h2 := keeps_forEdges (fun k _ _ ha => keeps_invertEdge ha k) ks h1.1
      exact ⟨h2.1, fun l hl => (h2.2 l hl).trans (h1.2 l hl)⟩
    · rename_i e st he
      rw [he] at h1
      exact h1

/-- **C70** (not in place, original): no object that existed before is changed, whether the call succeeds or not -/
theorem C70_original {interp : S → Except TimeError (Option S)} (h : LHeap S) (m : Csm N Nat D) (affected : Option (List N))
    {l : Nat} (hl : l < h.next) : (interpTimeCopy interp affected h m).state.1.obj l = h.obj l := by
  have ha : Separate (fun l => l < h.next) (deepCopy h m).1 (deepCopy h m).2 := by
    refine ⟨fun a b e l he hl => ?_, fun l hl => ?_⟩
    · rw [copy_edge?] at he
      obtain ⟨e₀, h1, rfl⟩ := Option.map_eq_some_iff.1 he
      obtain ⟨l₀, h2, rfl⟩ := Option.map_eq_some_iff.1 hl
      omega
    · simp only [deepCopy]
      omega
  exact ((keeps_interpTime (interp := interp) ha affected).2 l hl).trans (copy_old h m hl)

/-- in place, other managers: objects that the manager does not refer to are not changed -/
theorem C70_others {interp : S → Except TimeError (Option S)} {h : LHeap S} {m : Csm N Nat D} (affected : Option (List N))
    {l : Nat} (hl : l < h.next) (ha : ∀ a b e, m.edge? a b = some e → e.transformation ≠ some l) :
    (interpTime interp affected (h, m)).state.1.obj l = h.obj l :=
  (keeps_interpTime (interp := interp) (P := (· = l)) ⟨fun a b e l' he h' e' => ha a b e he (e' ▸ h'), fun _ h => h ▸ hl⟩ affected).2
    l rfl

theorem dict_ext {K V : Type} [DecidableEq K] : ∀ {d e : List (K × V)}, (Dict.keys d).Nodup → Dict.keys d = Dict.keys e →
    (∀ k ∈ Dict.keys d, Dict.get? d k = Dict.get? e k) → d = e
  | [], [], _, _, _ => rfl
  | [], _ :: _, _, h, _ => by simp at h
  | _ :: _, [], _, h, _ => by simp at h
  | (k, v) :: d, (k', v') :: e, hn, hk, hg => by
    simp only [Dict.keys_cons, List.cons.injEq, List.nodup_cons] at hk hn
    obtain ⟨rfl, hk⟩ := hk
    have h0 := hg k (by simp)
    simp only [Dict.get?, if_true, Option.some.injEq] at h0
    subst h0
    rw [dict_ext hn.2 hk]
    intro x hx
    have := hg x (by simp [hx])
    have hne : k ≠ x := fun e => hn.1 (e ▸ hx)
    simpa [Dict.get?, hne] using this

/-- **C70** (not in place, result): the call succeeds exactly if the one in place does, and the resulting managers look the same -/
theorem C70_copy {interp : S → Except TimeError (Option S)} {h : LHeap S} {m : Csm N Nat D} (I : Inv (h.view m))
    (hb : Bounded h m) {affected : Option (List N)} (hn : Harmless interp h m affected) :
    ((∃ st, interpTimeCopy interp affected h m = .ok () st) ↔ ∃ st, interpTime interp affected (h, m) = .ok () st) ∧
    ∀ h₁ m₁ h₂ m₂, interpTimeCopy interp affected h m = .ok () (h₁, m₁) → interpTime interp affected (h, m) = .ok () (h₂, m₂) →
      h₁.view m₁ = h₂.view m₂ := by
  have hv := copy_view h m
  have I' : Inv ((deepCopy h m).1.view (deepCopy h m).2) := hv ▸ I
  have hb' := copy_bounded hb
  have hn' : Harmless interp (deepCopy h m).1 (deepCopy h m).2 affected := by
    unfold Harmless
    rw [hv]
    exact hn
  constructor
  · have h1 := C70_ok_iff (interp := interp) I' hb' hn'
    have h2 := C70_ok_iff (interp := interp) I hb hn
    rw [hv] at h1
    constructor
    · rintro ⟨⟨a, b⟩, h⟩
      obtain ⟨a, b, h⟩ := h2.2 (h1.1 ⟨a, b, h⟩)
      exact ⟨_, h⟩
    · rintro ⟨⟨a, b⟩, h⟩
      obtain ⟨a, b, h⟩ := h1.2 (h2.1 ⟨a, b, h⟩)
      exact ⟨_, h⟩
  · intro h₁ m₁ h₂ m₂ r1 r2
    obtain ⟨_, f1, k1, s1, u1, o1⟩ := C70_result I' hb' hn' r1
    obtain ⟨_, f2, k2, s2, u2, o2⟩ := C70_result I hb hn r2
    rw [hv] at s1 u1 o1
    have hkn : (Dict.keys m.edges).Nodup := by rw [← view_keys h]; exact I.edgesNodup
    have hkc : Dict.keys (deepCopy h m).2.edges = Dict.keys m.edges := by simp [deepCopy, Dict.keys]
    have hkey : Dict.keys (h₁.view m₁).edges = Dict.keys (h₂.view m₂).edges := by
      rw [view_keys, view_keys, k1, k2, hkc]
    have hn1 : (Dict.keys (h₁.view m₁).edges).Nodup := by rw [view_keys, k1, hkc]; exact hkn
    have hedge : ∀ a b, (h.view m).Adj a b → (h₁.view m₁).edge? a b = (h₂.view m₂).edge? a b := by
      intro a b hab
      obtain ⟨e, he⟩ := view_adj.1 hab
      by_cases haff : (h.view m).Affected affected a b
      · have hm₀ : ((a, b), (⟨e.defined, e.transformation.map h.obj⟩ : Edge S)) ∈ (h.view m).edges := by
          rw [mem_edges_iff I.edgesNodup, view_edge?, he]
          rfl
        obtain ⟨e₁, hm₁, hp⟩ := I.paired a b _ hm₀
        rcases hp with ⟨s, hp, hq⟩ | ⟨s, hp, hq⟩
        · rw [hp] at hm₀
          obtain ⟨x, x1, x2, _⟩ := s1 a b s haff hm₀
          obtain ⟨y, y1, y2, _⟩ := s2 a b s haff hm₀
          have : (deepCopy h m).2.refTime = m.refTime := rfl
          rw [this, y1] at x1
          cases x1
          rw [Supplied, mem_edges_iff hn1] at x2
          rw [Supplied, mem_edges_iff (hkey ▸ hn1)] at y2
          rw [x2, y2]
          rfl
        · rw [hp] at hm₁
          obtain ⟨x, x1, _, x2, _⟩ := s1 b a s (affected_symm I haff) hm₁
          obtain ⟨y, y1, _, y2, _⟩ := s2 b a s (affected_symm I haff) hm₁
          have : (deepCopy h m).2.refTime = m.refTime := rfl
          rw [this, y1] at x1
          cases x1
          rw [x2, y2]
          rfl
      · have hc : (deepCopy h m).2.edge? a b = some ⟨e.defined, e.transformation.map (· + h.next)⟩ := by
          rw [copy_edge?, he]
          rfl
        rw [view_edge?, view_edge?, u1 a b _ haff hc, u2 a b _ haff he]
        obtain ⟨d, t⟩ := e
        cases t with
        | none => rfl
        | some l =>
          have hl := hb a b _ l he rfl
          have hl' : l + h.next < (deepCopy h m).1.next := by
            simp only [deepCopy]
            omega
          have htouch : (∃ a b, (h.view m).Affected affected a b ∧ (deepCopy h m).2.edge? a b = some ⟨true, some (l + h.next)⟩) ↔
              ∃ a b, (h.view m).Affected affected a b ∧ m.edge? a b = some ⟨true, some l⟩ := by
            constructor
            · rintro ⟨x, y, h1, h2⟩
              rw [copy_edge?] at h2
              obtain ⟨⟨d', t'⟩, h3, h4⟩ := Option.map_eq_some_iff.1 h2
              simp only [Edge.mk.injEq] at h4
              obtain ⟨rfl, h4⟩ := h4
              obtain ⟨l₀, rfl, h5⟩ := Option.map_eq_some_iff.1 h4
              have : l₀ = l := by omega
              subst this
              exact ⟨x, y, h1, h3⟩
            · rintro ⟨x, y, h1, h2⟩
              exact ⟨x, y, h1, by rw [copy_edge?, h2]; rfl⟩
          have c1 := o1 (l + h.next) hl'
          have c2 := o2 l hl
          rw [htouch, copy_obj] at c1
          have : h₁.obj (l + h.next) = h₂.obj l := by
            rcases c1 with ⟨p, c1⟩ | ⟨p, c1⟩ <;> rcases c2 with ⟨q, c2⟩ | ⟨q, c2⟩
            · rw [c1, c2]; rfl
            · exact absurd p q
            · exact absurd q p
            · rw [c1, c2]
          simp [this]
    have hE : (h₁.view m₁).edges = (h₂.view m₂).edges := by
      apply dict_ext hn1 hkey
      rintro ⟨a, b⟩ hk
      apply hedge
      unfold Adj
      rw [view_keys] at hk ⊢
      rw [k1, hkc] at hk
      exact hk
    have e1 : h₁.view m₁ = { h.view m with edges := (h₁.view m₁).edges } := by
      conv_lhs => rw [f1]
      rfl
    have e2 : h₂.view m₂ = { h.view m with edges := (h₂.view m₂).edges } := by
      conv_lhs => rw [f2]
      rfl
    rw [e1, e2, hE]

/-- **C70** (repetitions): if interpolating a system again at the same times changes nothing, a list in which systems are repeated or
ordered in another way has the same effect. -/
theorem C70_repeat {interp : S → Except TimeError (Option S)} {h : LHeap S} {m : Csm N Nat D} (I : Inv (h.view m))
    (hb : Bounded h m) {cs cs' : List N} (hc : ∀ c, c ∈ cs ↔ c ∈ cs') (hn : Harmless interp h m (some cs))
    (hn' : Harmless interp h m (some cs')) :
    ((∃ st, interpTime interp (some cs) (h, m) = .ok () st) ↔ ∃ st, interpTime interp (some cs') (h, m) = .ok () st) ∧
    ∀ h₁ m₁ h₂ m₂, interpTime interp (some cs) (h, m) = .ok () (h₁, m₁) → interpTime interp (some cs') (h, m) = .ok () (h₂, m₂) →
      h₁.view m₁ = h₂.view m₂ := by
  have haf : ∀ a b, (h.view m).Affected (some cs) a b ↔ (h.view m).Affected (some cs') a b := by
    intro a b
    simp only [Affected, hc]
  constructor
  · have h1 := C70_ok_iff (interp := interp) I hb hn
    have h2 := C70_ok_iff (interp := interp) I hb hn'
    simp only [haf, Option.some.injEq, forall_eq', hc] at h1 h2
    constructor
    · rintro ⟨⟨a, b⟩, h⟩
      obtain ⟨a, b, h⟩ := h2.2 (h1.1 ⟨a, b, h⟩)
      exact ⟨_, h⟩
    · rintro ⟨⟨a, b⟩, h⟩
      obtain ⟨a, b, h⟩ := h1.2 (h2.1 ⟨a, b, h⟩)
      exact ⟨_, h⟩
  · intro h₁ m₁ h₂ m₂ r1 r2
    obtain ⟨_, f1, k1, s1, u1, o1⟩ := C70_result I hb hn r1
    obtain ⟨_, f2, k2, s2, u2, o2⟩ := C70_result I hb hn' r2
    simp only [← haf] at s2 u2 o2
    have hkn : (Dict.keys m.edges).Nodup := by rw [← view_keys h]; exact I.edgesNodup
    have hkey : Dict.keys (h₁.view m₁).edges = Dict.keys (h₂.view m₂).edges := by rw [view_keys, view_keys, k1, k2]
    have hn1 : (Dict.keys (h₁.view m₁).edges).Nodup := by rw [view_keys, k1]; exact hkn
    have hedge : ∀ a b, (h.view m).Adj a b → (h₁.view m₁).edge? a b = (h₂.view m₂).edge? a b := by
      intro a b hab
      obtain ⟨e, he⟩ := view_adj.1 hab
      by_cases haff : (h.view m).Affected (some cs) a b
      · have hm₀ : ((a, b), (⟨e.defined, e.transformation.map h.obj⟩ : Edge S)) ∈ (h.view m).edges := by
          rw [mem_edges_iff I.edgesNodup, view_edge?, he]
          rfl
        obtain ⟨e₁, hm₁, hp⟩ := I.paired a b _ hm₀
        rcases hp with ⟨s, hp, hq⟩ | ⟨s, hp, hq⟩
        · rw [hp] at hm₀
          obtain ⟨x, x1, x2, _⟩ := s1 a b s haff hm₀
          obtain ⟨y, y1, y2, _⟩ := s2 a b s haff hm₀
          rw [y1] at x1
          cases x1
          rw [Supplied, mem_edges_iff hn1] at x2
          rw [Supplied, mem_edges_iff (hkey ▸ hn1)] at y2
          rw [x2, y2]
        · rw [hp] at hm₁
          obtain ⟨x, x1, _, x2, _⟩ := s1 b a s (affected_symm I haff) hm₁
          obtain ⟨y, y1, _, y2, _⟩ := s2 b a s (affected_symm I haff) hm₁
          rw [y1] at x1
          cases x1
          rw [x2, y2]
      · rw [view_edge?, view_edge?, u1 a b _ haff he, u2 a b _ haff he]
        obtain ⟨d, t⟩ := e
        cases t with
        | none => rfl
        | some l =>
          have hl := hb a b _ l he rfl
          have c1 := o1 l hl
          have c2 := o2 l hl
          have : h₁.obj l = h₂.obj l := by
            rcases c1 with ⟨p, c1⟩ | ⟨p, c1⟩ <;> rcases c2 with ⟨q, c2⟩ | ⟨q, c2⟩
            · rw [c1, c2]
            · exact absurd p q
            · exact absurd q p
            · rw [c1, c2]
          simp [this]
    have hE : (h₁.view m₁).edges = (h₂.view m₂).edges := by
      apply dict_ext hn1 hkey
      rintro ⟨a, b⟩ hk
      apply hedge
      unfold Adj
      rw [view_keys] at hk ⊢
      rw [k1] at hk
      exact hk
    have e1 : h₁.view m₁ = { h.view m with edges := (h₁.view m₁).edges } := by
      conv_lhs => rw [f1]
      rfl
    have e2 : h₂.view m₂ = { h.view m with edges := (h₂.view m₂).edges } := by
      conv_lhs => rw [f2]
      rfl
    rw [e1, e2, hE]

end Copy

end Weldx.Csm
