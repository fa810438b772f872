import Verif.Csm.Invariant2
import Mathlib.Tactic.Group

/-!
# Lemmas about `get_cs`
-/

set_option linter.unusedSectionVars false
set_option linter.unusedSimpArgs false

namespace Weldx.Csm
variable {N S D L : Type} [DecidableEq N] [LcsLike S] [Group L]

/-- value returned for one link (1 if it fails) -/
def linkVal (ev : S → Except CsmError L) (m : Csm N S D) (a b : N) : L :=
  match m.csOnEdge ev a b with
  | .ok x => x
  | .error _ => 1

theorem linkVal_of {ev : S → Except CsmError L} {m : Csm N S D} {a b : N} {x : L}
    (h : m.csOnEdge ev a b = .ok x) : m.linkVal ev a b = x := by simp [linkVal, h]

theorem csOnEdge_pair {ev : S → Except CsmError L} {m : Csm N S D} (I : Inv m) {a b : N} {s : S}
    {x : L} (hs : m.Supplied a b s) (hx : ev s = .ok x)
    (hi : LcsLike.isSeries s = false → ev (LcsLike.invert s) = .ok x⁻¹) :
    m.csOnEdge ev a b = .ok x ∧ m.csOnEdge ev b a = .ok x⁻¹ := by
  obtain ⟨e', he', hp⟩ := I.paired _ _ _ hs
  have h1 := Dict.get?_of_mem I.edgesNodup hs
  have h2 := Dict.get?_of_mem I.edgesNodup he'
  have he'' : e' = ⟨false, reverseOf s⟩ := by
    rcases hp with ⟨s', h, h'⟩ | ⟨s', h, h'⟩
    · cases h; exact h'
    · cases h'
  subst he''
  constructor
  · simp [csOnEdge, edge?, h1, hx]
  · cases hser : LcsLike.isSeries s
    · simp [csOnEdge, edge?, h2, reverseOf, hser, hi hser]
    · simp [csOnEdge, edge?, h1, h2, reverseOf, hser, hx, Except.map]

theorem link_spec {ev : S → Except CsmError L} {m : Csm N S D} (I : Inv m) (C : m.Coherent ev)
    {a b : N} (h : m.Adj a b) : m.csOnEdge ev a b = .ok (m.linkVal ev a b) ∧
      m.linkVal ev b a = (m.linkVal ev a b)⁻¹ ∧ m.Relation ev a b (m.linkVal ev a b) := by
  obtain ⟨e, he⟩ := Dict.mem_keys_iff.1 h
  obtain ⟨e', he', hp⟩ := I.paired _ _ _ he
  rcases hp with ⟨s, rfl, rfl⟩ | ⟨s, rfl, rfl⟩
  · obtain ⟨x, hx, hi⟩ := C a b s he
    obtain ⟨h1, h2⟩ := csOnEdge_pair I he hx hi
    rw [linkVal_of h1, linkVal_of h2]
    exact ⟨h1, rfl, .inl ⟨s, he, hx⟩⟩
  · obtain ⟨x, hx, hi⟩ := C b a s he'
    obtain ⟨h1, h2⟩ := csOnEdge_pair I he' hx hi
    rw [linkVal_of h1, linkVal_of h2]
    exact ⟨h2, by simp, .inr ⟨s, he', by simpa using hx⟩⟩

/-- the relation given by the supplied systems is unique -/
theorem relation_unique {ev : S → Except CsmError L} {m : Csm N S D} (I : Inv m) {a b : N} {x y : L}
    (hx : m.Relation ev a b x) (hy : m.Relation ev a b y) : x = y := by
  have key : ∀ {a b s s'}, m.Supplied a b s → m.Supplied a b s' → s = s' := by
    intro a b s s' h h'
    have := (Dict.get?_of_mem I.edgesNodup h).symm.trans (Dict.get?_of_mem I.edgesNodup h')
    simpa using this
  have key2 : ∀ {a b s s'}, m.Supplied a b s → m.Supplied b a s' → False := by
    intro a b s s' h h'
    obtain ⟨e', he', hp⟩ := I.paired _ _ _ h
    have := (Dict.get?_of_mem I.edgesNodup he').symm.trans (Dict.get?_of_mem I.edgesNodup h')
    cases this
    rcases hp with ⟨s'', h1, h2⟩ | ⟨s'', h1, h2⟩
    · cases h2
    · cases h2
  rcases hx with ⟨s, hs, hx⟩ | ⟨s, hs, hx⟩ <;> rcases hy with ⟨s', hs', hy⟩ | ⟨s', hs', hy⟩
  · cases key hs hs'; rw [hx] at hy; cases hy; rfl
  · exact (key2 hs hs').elim
  · exact (key2 hs' hs).elim
  · cases key hs hs'; rw [hx] at hy
    have : x⁻¹ = y⁻¹ := by injection hy
    simpa using this

/-- product of the link values along a list of systems -/
def prodVal (ev : S → Except CsmError L) (m : Csm N S D) : List N → L
  | [] => 1
  | [_] => 1
  | a :: b :: r => m.linkVal ev a b * prodVal ev m (b :: r)

theorem composePath_eq {ev : S → Except CsmError L} {m : Csm N S D} (I : Inv m) (C : m.Coherent ev)
    {a b : N} {p : List N} (w : Walk m.Adj a b p) (acc : L) :
    m.composePath ev acc a p.tail = .ok (acc * m.prodVal ev p) := by
  induction w generalizing acc with
  | nil a => simp [composePath, prodVal]
  | @cons a c b p' h w ih =>
    obtain ⟨t, rfl⟩ := w.head_eq
    simp only [List.tail_cons] at ih ⊢
    simp only [composePath, (link_spec I C h).1]
    show m.composePath ev (acc * m.linkVal ev a c) c t = _
    rw [ih]; simp [prodVal, mul_assoc]

theorem getCs_eq_prod {ev : S → Except CsmError L} {m : Csm N S D} (I : Inv m) (C : m.Coherent ev)
    {a b : N} (ha : a ∈ m.names) (hb : b ∈ m.names) {p : List N} (hp : SimplePath m.Adj a b p) :
    m.getCs ev a (some b) = .ok (m.prodVal ev p) := by
  simp only [getCs]
  show (m.checkExists a >>= fun _ => m.checkExists b >>= fun _ => _) = _
  rw [checkExists_ok ha, checkExists_ok hb]
  show (if a = b then _ else _) = _
  by_cases hab : a = b
  · subst hab
    rw [if_pos rfl, hp.refl_eq]; rfl
  · rw [if_neg hab, (shortestPath_iff I ha hb).2 hp]
    obtain ⟨c, t, rfl, hac, ht, _⟩ := hp.tail hab
    obtain ⟨u, rfl⟩ := ht.1.head_eq
    show (m.csOnEdge ev a c >>= fun x => m.composePath ev x c u) = _
    rw [(link_spec I C hac).1]
    exact composePath_eq I C ht.1 _

/-- There is a consistent assignment of absolute positions. -/
theorem exists_potential {ev : S → Except CsmError L} {m : Csm N S D} (I : Inv m) (C : m.Coherent ev) :
    ∃ G : N → L, ∀ a b, m.Adj a b → m.linkVal ev a b = G a * (G b)⁻¹ := by
  classical
  obtain ⟨par, h, T⟩ := I.tree.treeOn I.root_mem
  have hex : ∀ k, ∃ G : N → L, ∀ n, n ∈ m.names → n ≠ m.root → h n ≤ k →
      G n = m.linkVal ev n (par n) * G (par n) := by
    intro k
    induction k with
    | zero => exact ⟨fun _ => 1, fun n hn hr hk => by have := T.par_lt n hn hr; omega⟩
    | succ k ih =>
      obtain ⟨G, hG⟩ := ih
      refine ⟨fun n => if h n ≤ k then G n else m.linkVal ev n (par n) * G (par n), ?_⟩
      intro n hn hr hk
      have hlt := T.par_lt n hn hr
      have hp : h (par n) ≤ k := by omega
      simp only [hp, if_true]
      split
      · exact hG n hn hr (by assumption)
      · rfl
  -- a bound on the height of all systems
  obtain ⟨k, hk⟩ : ∃ k, ∀ n ∈ m.names, h n ≤ k := by
    have : ∀ l : List N, ∃ k, ∀ n ∈ l, h n ≤ k := by
      intro l
      induction l with
      | nil => exact ⟨0, by simp⟩
      | cons a t ih =>
        obtain ⟨k, hk⟩ := ih
        refine ⟨max k (h a), fun n hn => ?_⟩
        rcases List.mem_cons.1 hn with rfl | hn
        · exact le_max_right _ _
        · exact (hk n hn).trans (le_max_left _ _)
    exact this m.names
  obtain ⟨G, hG⟩ := hex k
  refine ⟨G, fun a b hab => ?_⟩
  rcases (T.adj_iff a b).1 hab with ⟨h1, h2, rfl⟩ | ⟨h1, h2, rfl⟩
  · rw [hG a h1 h2 (hk a h1)]; group
  · rw [hG b h1 h2 (hk b h1), (link_spec I C hab).2.1]; group

theorem prodVal_eq {ev : S → Except CsmError L} {m : Csm N S D} {G : N → L}
    (hG : ∀ a b, m.Adj a b → m.linkVal ev a b = G a * (G b)⁻¹) {a b : N} {p : List N}
    (w : Walk m.Adj a b p) : m.prodVal ev p = G a * (G b)⁻¹ := by
  induction w with
  | nil => simp [prodVal]
  | @cons a c b p' h w ih =>
    obtain ⟨t, rfl⟩ := w.head_eq
    rw [prodVal, ih, hG _ _ h]; group

theorem getCs_potential {ev : S → Except CsmError L} {m : Csm N S D} (I : Inv m) (C : m.Coherent ev)
    {G : N → L} (hG : ∀ a b, m.Adj a b → m.linkVal ev a b = G a * (G b)⁻¹) {a b : N}
    (ha : a ∈ m.names) (hb : b ∈ m.names) : m.getCs ev a (some b) = .ok (G a * (G b)⁻¹) := by
  obtain ⟨p, hp⟩ := I.tree.exists_path a b ha hb
  rw [getCs_eq_prod I C ha hb hp, prodVal_eq hG hp.1]

theorem prodVal_pathProduct {ev : S → Except CsmError L} {m : Csm N S D} (I : Inv m)
    (C : m.Coherent ev) {a b : N} {p : List N} (w : Walk m.Adj a b p) :
    PathProduct ev m p (m.prodVal ev p) := by
  induction w with
  | nil a => exact .single a
  | @cons a c b p' h w ih =>
    obtain ⟨t, rfl⟩ := w.head_eq
    exact .cons (link_spec I C h).2.2 ih

theorem pathProduct_unique {ev : S → Except CsmError L} {m : Csm N S D} (I : Inv m) {p : List N}
    {x y : L} (hx : PathProduct ev m p x) (hy : PathProduct ev m p y) : x = y := by
  induction hx generalizing y with
  | single a => cases hy; rfl
  | cons hr _ ih =>
    cases hy with
    | cons hr' hy' => rw [relation_unique I hr hr', ih hy']

theorem getCs_missing {ev : S → Except CsmError L} {m : Csm N S D} {a b : N}
    (h : a ∉ m.names ∨ b ∉ m.names) : m.getCs ev a (some b) = .error .valueError := by
  simp only [getCs]
  show (m.checkExists a >>= fun _ => m.checkExists b >>= fun _ => _) = _
  by_cases ha : a ∈ m.names
  · rw [checkExists_ok ha, checkExists_err (h.resolve_left (not_not.2 ha))]; rfl
  · rw [checkExists_err ha]; rfl

/-- Two managers with the same supplied relations have the same links. -/
theorem adj_iff_supplied {m : Csm N S D} (I : Inv m) {a b : N} :
    m.Adj a b ↔ ∃ s, m.Supplied a b s ∨ m.Supplied b a s := by
  constructor
  · intro h
    obtain ⟨e, he⟩ := Dict.mem_keys_iff.1 h
    obtain ⟨e', he', hp⟩ := I.paired _ _ _ he
    rcases hp with ⟨s, rfl, _⟩ | ⟨s, rfl, _⟩
    · exact ⟨s, .inl he⟩
    · exact ⟨s, .inr he'⟩
  · rintro ⟨s, h | h⟩
    · exact Dict.mem_keys_of_mem h
    · exact I.tree.symm _ _ (Dict.mem_keys_of_mem h)

/-- `get_cs` only depends on the supplied relations along the path. -/
theorem getCs_congr {ev : S → Except CsmError L} {m m' : Csm N S D} (I : Inv m) (I' : Inv m')
    (C : m.Coherent ev) (C' : m'.Coherent ev) {a b : N} {p : List N} (ha : a ∈ m.names)
    (hb : b ∈ m.names) (ha' : a ∈ m'.names) (hb' : b ∈ m'.names) (hp : SimplePath m.Adj a b p)
    (hs : ∀ x ∈ p, ∀ y ∈ p, ∀ s, m.Supplied x y s → m'.Supplied x y s) :
    m'.getCs ev a (some b) = m.getCs ev a (some b) := by
  have hadj : ∀ x ∈ p, ∀ y ∈ p, m.Adj x y → m'.Adj x y := by
    intro x hx y hy h
    obtain ⟨s, h | h⟩ := (adj_iff_supplied I).1 h
    · exact (adj_iff_supplied I').2 ⟨s, .inl (hs x hx y hy s h)⟩
    · exact (adj_iff_supplied I').2 ⟨s, .inr (hs y hy x hx s h)⟩
  have hp' : SimplePath m'.Adj a b p := ⟨hp.1.mono hadj, hp.2⟩
  rw [getCs_eq_prod I C ha hb hp, getCs_eq_prod I' C' ha' hb' hp']
  congr 1
  have h1 := prodVal_pathProduct I C hp.1
  have h2 := prodVal_pathProduct I' C' hp'.1
  refine pathProduct_unique I' h2 ?_
  -- transfer the product
  have : ∀ {q x}, PathProduct ev m q x → (∀ y ∈ q, y ∈ p) → PathProduct ev m' q x := by
    intro q x h
    induction h with
    | single a => intro _; exact .single a
    | @cons a b q x y hr _ ih =>
      intro hq
      have hap := hq a (by simp)
      have hbp := hq b (by simp)
      refine .cons ?_ (ih fun y hy => hq y (by simp at hy ⊢; tauto))
      rcases hr with ⟨s, h, hx⟩ | ⟨s, h, hx⟩
      · exact .inl ⟨s, hs a hap b hbp s h, hx⟩
      · exact .inr ⟨s, hs b hbp a hap s h, hx⟩
  exact this h1 fun _ h => h

end Weldx.Csm
