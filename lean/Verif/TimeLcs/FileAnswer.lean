import Verif.TimeLcs.NamedTime

/-!
# The answers of managers without a time and of managers in files (C101, C102)

Source: `/repo/weldx/transformations/cs_manager.py` 1064-1246 (`get_cs`), 1660-1707 (`time_union`).

The values of `queryAt` and `queryDefault` (`Verif/TimeLcs/FileQuery.lean`) and of `getAlways` (`Verif/TimeLcs/NamedTime.lean`).
-/

set_option linter.unusedSectionVars false

namespace Weldx

open Ip Matrix Csm TLcs

namespace Csm
variable {N D : Type} [DecidableEq N]

/-! ### specification -/

/-- the manager with the same systems as they are used in `Verif/TimeLcs/Manager.lean` -/
noncomputable def plain (m : Csm N ULcs D) : Csm N UEdge D :=
  { name := m.name, root := m.root, refTime := m.refTime, nodes := m.nodes, subs := m.subs,
    edges := m.edges.map fun x => (x.1, x.2.map fun u => ⟨u.unit, .discrete u.sys⟩) }

/-! ### lemmas -/

theorem plain_keys (m : Csm N ULcs D) : Dict.keys m.plain.edges = Dict.keys m.edges := by
  unfold Dict.keys plain
  rw [List.map_map]
  rfl

theorem plain_adj (m : Csm N ULcs D) : m.plain.Adj = m.Adj := by
  funext a b
  unfold Adj
  rw [plain_keys]

theorem plain_edge (m : Csm N ULcs D) (a b : N) : m.plain.edge? a b = (m.edge? a b).map (Edge.map fun u => ⟨u.unit, .discrete u.sys⟩) := by
  unfold edge? plain
  dsimp only
  induction m.edges with
  | nil => rfl
  | cons x l ih =>
    obtain ⟨k, e⟩ := x
    simp only [List.map_cons, Dict.get?]
    split
    · rfl
    · exact ih

theorem plain_inv {m : Csm N ULcs D} (I : Inv m) : Inv m.plain where
  nodesNodup := I.nodesNodup
  edgesNodup := by rw [plain_keys]; exact I.edgesNodup
  root_mem := I.root_mem
  tree := by rw [plain_adj]; exact I.tree
  paired := by
    intro a b e h
    obtain ⟨⟨k, x⟩, h1, h2⟩ := List.mem_map.1 h
    cases h2
    obtain ⟨e', h3, h4⟩ := I.paired a b x h1
    refine ⟨e'.map fun u => ⟨u.unit, .discrete u.sys⟩, List.mem_map.2 ⟨_, h3, rfl⟩, ?_⟩
    rcases h4 with ⟨s, rfl, rfl⟩ | ⟨s, rfl, rfl⟩
    · exact .inl ⟨_, rfl, rfl⟩
    · exact .inr ⟨_, rfl, rfl⟩
  dataNodup := I.dataNodup
  subs_ok := by rw [plain_adj]; exact I.subs_ok

theorem plain_supplied {m : Csm N ULcs D} {a b : N} {e : UEdge} :
    m.plain.Supplied a b e ↔ ∃ u, m.Supplied a b u ∧ e = ⟨u.unit, .discrete u.sys⟩ := by
  unfold Supplied plain
  rw [List.mem_map]
  constructor
  · rintro ⟨⟨k, d, t⟩, h1, h2⟩
    cases t with
    | none => simp [Edge.map] at h2
    | some u =>
      simp only [Edge.map, Option.map_some, Prod.mk.injEq, Edge.mk.injEq, Option.some.injEq] at h2
      obtain ⟨rfl, rfl, rfl⟩ := h2
      exact ⟨u, h1, rfl⟩
  · rintro ⟨u, h, rfl⟩
    exact ⟨_, h, rfl⟩

theorem plain_link (m : Csm N ULcs D) (a b : N) {u : ULcs} {d : Bool} (h : m.edge? a b = some ⟨d, some u⟩) :
    m.plain.linkOn a b = m.storedLink a b := by
  unfold linkOn storedLink
  rw [plain_edge, h]
  rfl

theorem plain_links {m : Csm N ULcs D} (I : Inv m) {a b : N} {p : List N} (h : Walk m.Adj a b p) : m.plain.linksOn p = m.pathLinks p := by
  induction h with
  | nil a => rfl
  | @cons a c b p hac hw ih =>
    obtain ⟨q, rfl⟩ := hw.head_eq
    obtain ⟨x, hx⟩ := Dict.mem_keys_iff.1 hac
    obtain ⟨x', hx', hp⟩ := I.paired a c x hx
    have : ∃ u d, m.edge? a c = some ⟨d, some u⟩ := by
      unfold edge?
      rw [Dict.get?_of_mem I.edgesNodup hx]
      rcases hp with ⟨e, rfl, rfl⟩ | ⟨e, rfl, rfl⟩
      · exact ⟨_, _, rfl⟩
      · exact ⟨_, _, rfl⟩
    obtain ⟨u, d, hu⟩ := this
    simp only [linksOn, pathLinks, plain_link m a c hu, ih]
    rfl

theorem plain_getAt (S : Slerp) {m : Csm N ULcs D} (I : Inv m) {a b : N} (ha : a ∈ m.names) (hb : b ∈ m.names) (time : Time)
    (timeRef : Option Int) : m.queryAt S a b time timeRef = m.plain.getAt S a b time timeRef := by
  obtain ⟨p, hp⟩ := I.tree.exists_path a b ha hb
  have hp' : SimplePath m.plain.Adj a b p := by rw [plain_adj]; exact hp
  unfold queryAt getAt
  rw [(shortestPath_iff I ha hb).2 hp, (shortestPath_iff (plain_inv I) ha hb).2 hp']
  simp only [plain_links I hp.1]
  rfl

theorem scale_csmClock (k : ℝ) (r : Option Int) (e : TEdge) : (e.scale k).csmClock r = e.csmClock r := by cases e <;> rfl

theorem scale_dep (k : ℝ) (e : TEdge) : (e.scale k).dependent = e.dependent := by
  cases e with
  | discrete c => exact TLcs.scale_dependent k c
  | expression e i => rfl

theorem scale_times (k : ℝ) (e : TEdge) : (e.scale k).frame.times = e.frame.times := by cases e <;> rfl

/-- the answer along a path without a time -/
theorem always_links {S : Slerp} (hS : SlerpOk S) {csmRef minRef : Option Int} {abs : Bool} {es : List UEdge}
    (he : ∀ e ∈ es, Sound csmRef abs e) (hdisc : (∀ e ∈ es, e.mag.frame.times = none) → ∀ e ∈ es, ∃ c, e.mag = .discrete c) (hm : csmRef = none → minRef.isSome = true → abs = true) :
    ∃ s, getCsDefaultU S csmRef minRef es = .ok s ∧
      (s.mag.dependent = true → s.mm.WF ∧ s.mag.clock.Pairwise (· < ·) ∧ ∀ x, x ∈ s.mag.clock ↔ ∃ e ∈ es, x ∈ e.mag.csmClock csmRef) ∧
      ∀ x, ((∃ e ∈ es, x ∈ e.mag.csmClock csmRef) ∨ ∀ e ∈ es, e.mag.dependent = false) →
        ∀ fs, List.Forall₂ (fun e g => TEdge.AtCsm S csmRef e x g) (es.map UEdge.mm) fs →
          ∃ f, (∀ g, s.mm.At S x g ↔ g = f) ∧ ∀ p, f.toParent p = along fs p := by
  have hw : ∀ e ∈ es.map UEdge.mm, e.WF := fun e h => by
    obtain ⟨e, h', rfl⟩ := List.mem_map.1 h
    exact (he e h').wf
  have hk : Kinds csmRef minRef (es.map UEdge.mm) := fun hc => ⟨abs, hm hc, fun e h hd => by
    obtain ⟨e, h', rfl⟩ := List.mem_map.1 h
    exact (he e h').kind_mm hd hc⟩
  have h99 := (C99_get_cs_default S csmRef minRef (es := es) (fun e h => (he e h).unit) fun hT => by
    rw [← timeUnion_mm] at hT
    rcases timeUnion_spec hw hk with ⟨_, h0⟩ | ⟨u, hu, _⟩
    · exact hdisc fun e h => by rw [← scale_times e.unit]; exact h0 _ (List.mem_map_of_mem h)
    · rw [hu] at hT; cases hT).1
  have clocks : ∀ x, (∃ e ∈ es.map UEdge.mm, x ∈ e.csmClock csmRef) ↔ ∃ e ∈ es, x ∈ e.mag.csmClock csmRef := fun x => by
    simp only [List.mem_map, exists_exists_and_eq_and]
    constructor
    · rintro ⟨e, h1, h2⟩
      exact ⟨e, h1, by rwa [UEdge.mm, scale_csmClock] at h2⟩
    · rintro ⟨e, h1, h2⟩
      exact ⟨e, h1, by rwa [UEdge.mm, scale_csmClock]⟩
  have ok : ∀ r, getCsDefault S csmRef minRef (es.map UEdge.mm) = .ok r → ∃ s, getCsDefaultU S csmRef minRef es = .ok s ∧ s.mm = r := by
    intro r hr
    rw [hr] at h99
    cases hc : getCsDefaultU S csmRef minRef es with
    | error x => rw [hc] at h99; cases h99
    | ok c => rw [hc] at h99; exact ⟨c, rfl, by injection h99⟩
  by_cases hne : ∃ e ∈ es.map UEdge.mm, e.frame.times ≠ none
  · obtain ⟨r, hr, rw', rc, rat⟩ := C62_default hS hw hk hne
    obtain ⟨s, hs, rfl⟩ := ok r hr
    refine ⟨s, hs, fun hd => ?_, fun x hx fs hf => ?_⟩
    · obtain ⟨k1, k2⟩ := rc (by rw [UTLcs.mm, TLcs.scale_dependent]; exact hd)
      exact ⟨rw', k1, fun x => (k2 x).trans (clocks x)⟩
    · rcases hx with hx | hx
      · obtain ⟨f, f1, f2⟩ := rat x ((clocks x).2 hx) fs hf
        exact ⟨f, fun g => ⟨fun hg => TLcs.At_unique hS rw' hg f1, fun e => e ▸ f1⟩, f2⟩
      · exfalso
        obtain ⟨e, h1, h2⟩ := hne
        obtain ⟨e, h1', rfl⟩ := List.mem_map.1 h1
        rcases frame_time (he e h1').wf with k | k
        · exact h2 k.1
        · have := k.2.1
          rw [UEdge.mm, scale_dep, hx e h1'] at this
          cases this
  · push Not at hne
    replace hdisc := hdisc fun e h => by rw [← scale_times e.unit]; exact hne _ (List.mem_map_of_mem h)
    obtain ⟨cs, hcs, hall⟩ : ∃ cs : List TLcs, es.map UEdge.mm = cs.map .discrete ∧ ∀ c ∈ cs, c.WF ∧ c.times = none := by
      clear ok clocks h99 hk
      induction es with
      | nil => exact ⟨[], rfl, by simp⟩
      | cons e es ih =>
        obtain ⟨cs, i1, i2⟩ := ih (fun e' h' => he e' (by simp [h']))
          (fun e' h' => hw e' (by simp only [List.map_cons, List.mem_cons]; exact .inr h'))
          (fun e' h' => hne e' (by simp only [List.map_cons, List.mem_cons]; exact .inr h')) (fun e' h' => hdisc e' (by simp [h']))
        obtain ⟨c, hc⟩ := hdisc e (by simp)
        have hmm : e.mm = .discrete (c.scale e.unit) := by rw [UEdge.mm, hc]; rfl
        refine ⟨c.scale e.unit :: cs, by rw [List.map_cons, List.map_cons, i1, hmm], ?_⟩
        intro c' hc'
        rcases List.mem_cons.1 hc' with rfl | hc'
        · have h1 := hw e.mm (by simp)
          have h2 := hne e.mm (by simp)
          rw [hmm] at h1 h2
          exact ⟨h1.1, h2⟩
        · exact i2 c' hc'
    obtain ⟨r, hr, hd, hat⟩ := C62_static (S := S) (csmRef := csmRef) (minRef := minRef) hall
    rw [← hcs] at hr
    obtain ⟨s, hs, rfl⟩ := ok r hr
    refine ⟨s, hs, fun h => ?_, fun x _ fs hf => ?_⟩
    · rw [UTLcs.mm, TLcs.scale_dependent, h] at hd; cases hd
    · rw [hcs, List.forall₂_map_left_iff] at hf
      have key : ∀ (cs : List TLcs) fs, (∀ c ∈ cs, c.WF ∧ c.times = none) →
          List.Forall₂ (fun c g => TEdge.AtCsm S csmRef (.discrete c) x g) cs fs → List.Forall₂ (fun e g => TLcs.At S e x g) cs fs := by
        intro cs fs hall hf
        induction hf with
        | nil => exact .nil
        | @cons c f cs fs hcf _ ih =>
          refine .cons ?_ (ih fun c' h' => hall c' (by simp [h']))
          obtain ⟨h1, h2⟩ := hall c (by simp)
          have hstat : c.dependent = false := by
            by_contra hd
            exact TLcs.times_some h1 (by simpa using hd) h2
          obtain ⟨v, _, _, hv⟩ := TLcs.At_static (S := S) hstat
          obtain ⟨y, hy, _⟩ := TEdge.csm_cases csmRef (.discrete c) x
          have := (hy S f).1 hcf
          exact (hv x f).2 ((hv y f).1 this)
      obtain ⟨f, f1, f2⟩ := hat x fs (key cs fs hall hf)
      obtain ⟨v, _, _, hv⟩ := TLcs.At_static (S := S) hd
      have e := (hv x f).1 f1
      subst e
      exact ⟨f, fun g => hv x g, f2⟩

/-- the systems on a path and the supplied relations -/
theorem mem_links {m : Csm N UEdge D} (I : Inv m) {P : UEdge → Prop} (hP : ∀ e, P e.reverse ↔ P e) {a b : N} {p : List N} (h : Walk m.Adj a b p)
    {es : List UEdge} (hl : m.linksOn p = some es) :
    (∃ e ∈ es, P e) ↔ ∃ x y e, [x, y] <:+: p ∧ (m.Supplied x y e ∨ m.Supplied y x e) ∧ P e := by
  induction h generalizing es with
  | nil a =>
    have : es = [] := by simpa [linksOn] using hl.symm
    subst this
    constructor
    · rintro ⟨_, h, _⟩; cases h
    · rintro ⟨x, y, _, h, _⟩
      have := h.length_le
      simp at this
  | @cons a c b p hac hw ih =>
    obtain ⟨q, rfl⟩ := hw.head_eq
    have uniq : ∀ {a b : N} {e e' : UEdge}, m.Supplied a b e → m.Supplied a b e' → e' = e := fun {a b e e'} h h' => by
      have := (Dict.get?_of_mem I.edgesNodup h').symm.trans (Dict.get?_of_mem I.edgesNodup h)
      simpa using this
    have other : ∀ {a b : N} {e e' : UEdge}, m.Supplied a b e → m.Supplied b a e' → False := fun {a b e e'} h h' => by
      obtain ⟨k, hk, hp⟩ := I.paired _ _ _ h
      have := (Dict.get?_of_mem I.edgesNodup hk).symm.trans (Dict.get?_of_mem I.edgesNodup h')
      cases this
      rcases hp with ⟨s, h1, h2⟩ | ⟨s, h1, h2⟩
      · cases h2
      · cases h2
    obtain ⟨e, hlk⟩ := linkOn_spec I hac
    obtain ⟨e', hl', hs, hPe⟩ : ∃ e', m.linkOn a c = some e' ∧ (∀ e'', (m.Supplied a c e'' ∨ m.Supplied c a e'') ↔ e'' = e) ∧ (P e' ↔ P e) := by
      rcases hlk with ⟨h1, h2⟩ | ⟨h1, h2⟩
      · refine ⟨e, h2, fun e'' => ⟨?_, fun h => h ▸ .inl h1⟩, Iff.rfl⟩
        rintro (k | k)
        · exact uniq h1 k
        · exact (other h1 k).elim
      · refine ⟨_, h2, fun e'' => ⟨?_, fun h => h ▸ .inr h1⟩, hP e⟩
        rintro (k | k)
        · exact (other h1 k).elim
        · exact uniq h1 k
    obtain ⟨es', hes⟩ : ∃ es', m.linksOn (c :: q) = some es' := by
      simp only [linksOn, hl'] at hl
      cases hk : m.linksOn (c :: q) with
      | none => rw [hk] at hl; cases hl
      | some k => exact ⟨k, rfl⟩
    have : es = e' :: es' := by
      simp only [linksOn, hl', hes] at hl
      simpa using hl.symm
    subst this
    simp only [List.mem_cons, exists_eq_or_imp, ih hes, hPe, List.infix_cons_iff (a := a)]
    constructor
    · rintro (h | ⟨x, y, k, h1, h2, h3⟩)
      · exact ⟨a, c, e, .inl ⟨q, rfl⟩, (hs e).2 rfl, h⟩
      · exact ⟨x, y, k, .inr h1, h2, h3⟩
    · rintro ⟨x, y, k, h1 | h1, h2, h3⟩
      · obtain ⟨z, hz⟩ := h1
        have hz : x :: y :: z = a :: c :: q := hz
        cases hz
        exact .inl ((hs k).1 h2 ▸ h3)
      · exact .inr ⟨x, y, k, h1, h2, h3⟩

theorem reverse_csmClock (r : Option Int) (e : UEdge) : e.reverse.mag.csmClock r = e.mag.csmClock r := by
  obtain ⟨u, mag⟩ := e
  cases mag <;> rfl

theorem firstRef_abs {m : Csm N UEdge D} {abs : Bool} (hu : ∀ a b e, m.Supplied a b e → Sound m.refTime abs e) (hr : m.refTime = none)
    (hm : m.firstRef.isSome = true) : abs = true := by
  obtain ⟨x, hx⟩ := Option.isSome_iff_exists.1 hm
  have := List.min?_mem hx
  rw [List.mem_filterMap] at this
  obtain ⟨e, k1, k2⟩ := this
  obtain ⟨k1, k3⟩ := List.mem_filter.1 k1
  obtain ⟨a, b, hs⟩ := mem_supplied k1
  rw [← (hu a b e hs).kind k3 hr]
  show (LcsLike.refTime e).isSome = true
  rw [k2]; rfl

/-- a time of one of the relations on a path -/
def OnPath (m : Csm N UEdge D) (p : List N) (x : Int) : Prop :=
  ∃ a b e, [a, b] <:+: p ∧ (m.Supplied a b e ∨ m.Supplied b a e) ∧ x ∈ e.mag.csmClock m.refTime

/-- no relation on a path depends on time -/
def StillPath (m : Csm N UEdge D) (p : List N) : Prop :=
  ∀ a b e, [a, b] <:+: p → (m.Supplied a b e ∨ m.Supplied b a e) → e.mag.dependent = false

/-- a path on which a relation has times or no relation is given by an expression -/
def Answerable (m : Csm N UEdge D) (p : List N) : Prop :=
  (∃ x, m.OnPath p x) ∨ ∀ a b e, [a, b] <:+: p → (m.Supplied a b e ∨ m.Supplied b a e) → ∃ c, e.mag = .discrete c

theorem csmClock_nil {r : Option Int} {e : TEdge} (h : e.frame.times = none) : e.csmClock r = [] := by
  have : e.frame.clock = [] := by rw [TLcs.clock, h]; rfl
  unfold TEdge.csmClock
  rw [this]
  split <;> rfl

theorem answerable_links {m : Csm N UEdge D} (I : Inv m) {a b : N} {p : List N} (hp : Walk m.Adj a b p) {es : List UEdge}
    (hl : m.linksOn p = some es) (h : m.Answerable p) (ht : ∀ e ∈ es, e.mag.frame.times = none) : ∀ e ∈ es, ∃ c, e.mag = .discrete c := by
  rcases h with ⟨x, hx⟩ | h
  · obtain ⟨e, h1, h2⟩ := (mem_links I (P := fun e => x ∈ e.mag.csmClock m.refTime) (fun e => by rw [reverse_csmClock]) hp hl).2 hx
    rw [csmClock_nil (ht e h1)] at h2
    cases h2
  · by_contra hc
    push Not at hc
    obtain ⟨x, y, e, k0, k1, k2⟩ := (mem_links I (P := fun e => ∀ c, e.mag ≠ .discrete c) (fun e => by
      obtain ⟨u, mag⟩ := e
      cases mag with
      | discrete c => simp [UEdge.reverse, TEdge.reverse]
      | expression c i => simp [UEdge.reverse, TEdge.reverse]) hp hl).1 hc
    obtain ⟨c, hc⟩ := h _ _ _ k0 k1
    exact k2 c hc

theorem always_answer {S : Slerp} (hS : SlerpOk S) {m : Csm N UEdge D} (I : Inv m) {a b : N} (ha : a ∈ m.names) (hb : b ∈ m.names)
    {abs : Bool} (hu : ∀ a b e, m.Supplied a b e → Sound m.refTime abs e) (hans : ∀ p, SimplePath m.Adj a b p → m.Answerable p) :
    ∃ s p, m.getAlways S a b = .ok s ∧ SimplePath m.Adj a b p ∧
      (s.mag.dependent = true → s.mm.WF ∧ s.mag.clock.Pairwise (· < ·) ∧ ∀ x, x ∈ s.mag.clock ↔ m.OnPath p x) ∧
      ∀ x, m.OnPath p x ∨ m.StillPath p →
        ∃ f, (∀ g, s.mm.At S x g ↔ g = f) ∧ (∃ F, Direct S m x p F) ∧ ∀ F, Direct S m x p F → ∀ q, f.toParent q = F q := by
  have hh : ¬(¬ m.has a = true ∨ ¬ m.has b = true) := by simp [Csm.has, ha, hb]
  unfold getAlways
  rw [if_neg hh]
  obtain ⟨p, hp⟩ := I.tree.exists_path a b ha hb
  by_cases hab : a = b
  · rw [if_pos hab]
    subst hab
    rw [hp.refl_eq] at hp
    refine ⟨_, [a], rfl, hp, (fun h => by cases h), fun x _ => ?_⟩
    have g : UTLcs.default.mm.At S x Lcs.default := by
      refine ⟨.static, ?_⟩
      have : UTLcs.default.mm.coord = .static 0 := by
        simp [UTLcs.mm, UTLcs.default, TLcs.scale, Comp.map]
      rw [this]
      exact .static
    refine ⟨Lcs.default, fun k => ⟨fun hk => TLcs.At_unique hS default_wf hk g, fun e => e ▸ g⟩, ⟨_, .here a⟩, fun F hF q => ?_⟩
    cases hF
    funext i
    fin_cases i <;> simp [Lcs.default, Lcs.toParent]
  · rw [if_neg hab]
    obtain ⟨es, h1, h2, h3, h4⟩ := linksOn_spec (S := S) I hu hp.1
    obtain ⟨s, hs, hck, h5⟩ := always_links hS h2 (answerable_links I hp.1 h1 (hans p hp)) (minRef := m.firstRef) (firstRef_abs hu)
    have hon : ∀ x, (∃ e ∈ es, x ∈ e.mag.csmClock m.refTime) ↔ m.OnPath p x := fun x =>
      mem_links I (P := fun e => x ∈ e.mag.csmClock m.refTime) (fun e => by rw [reverse_csmClock]) hp.1 h1
    refine ⟨s, p, ?_, hp, fun h => ⟨(hck h).1, (hck h).2.1, fun x => ((hck h).2.2 x).trans (hon x)⟩, fun x hx => ?_⟩
    · rw [(shortestPath_iff I ha hb).2 hp]
      simp only [h1, hs]
    · have hx' : (∃ e ∈ es, x ∈ e.mag.csmClock m.refTime) ∨ ∀ e ∈ es, e.mag.dependent = false := by
        rcases hx with hx | hx
        · exact .inl ((hon x).2 hx)
        · refine .inr ?_
          by_contra hc
          push Not at hc
          obtain ⟨y, z, e, k0, k1, k2⟩ := (mem_links I (P := fun e => e.mag.dependent ≠ false) (fun e => by
            show e.mag.reverse.dependent ≠ false ↔ _
            rw [TEdge.reverse_dependent]) hp.1 h1).1 hc
          exact k2 (hx y z e k0 k1)
      obtain ⟨fs, f1, f2⟩ := h3 x
      obtain ⟨f, hf, fp⟩ := h5 x hx' fs f1
      refine ⟨f, hf, ⟨_, f2⟩, fun F hF q => ?_⟩
      obtain ⟨gs, g1, rfl⟩ := h4 x F hF
      obtain ⟨g, hg, gp⟩ := h5 x hx' gs g1
      rw [(hg f).1 ((hf f).2 rfl), gp]

/-- **C102** without a time: the answer has the times of the systems on the path, and at each of them it is the composition of these
systems. If none of them depends on time, it is their composition at all times. If no system of the path has times, none of them may be
given by an expression; see `C102_no_time_expression` for such paths. -/
theorem C102_no_time_partial {S : Slerp} (hS : SlerpOk S) {m : Csm N UEdge D} (h : Reachable m) {a b : N} (ha : a ∈ m.names) (hb : b ∈ m.names)
    {abs : Bool} (hu : ∀ a b e, m.Supplied a b e → Sound m.refTime abs e) (hans : ∀ p, SimplePath m.Adj a b p → m.Answerable p) :
    ∃ s p, m.getAlways S a b = .ok s ∧ SimplePath m.Adj a b p ∧
      (s.mag.dependent = true → s.mag.clock.Pairwise (· < ·) ∧ ∀ x, x ∈ s.mag.clock ↔ m.OnPath p x) ∧
      ∀ x, m.OnPath p x ∨ m.StillPath p →
        ∃ f, (∀ g, s.mm.At S x g ↔ g = f) ∧ (∃ F, Direct S m x p F) ∧ ∀ F, Direct S m x p F → ∀ q, f.toParent q = F q := by
  obtain ⟨s, p, h1, h2, h3, h4⟩ := always_answer hS h.inv ha hb hu hans
  exact ⟨s, p, h1, h2, fun hd => (h3 hd).2, h4⟩

/-! ### managers in files -/

theorem plain_sound {refTime : Option Int} {abs : Bool} {u : ULcs} (h : u.Made)
    (hk : u.sys.dependent = true → refTime = none → u.sys.ref.isSome = abs) : Sound refTime abs ⟨u.unit, .discrete u.sys⟩ where
  wf := ⟨h.wf.scale _, fun hd => h.still (by rw [TLcs.scale_dependent] at hd; exact hd)⟩
  unit := h.unit
  kind := hk

theorem plain_lcs (m : Csm N ULcs D) : m.plain.firstRef = m.earliestRef := by
  have : m.plain.lcs = m.lcs.map fun u => (⟨u.unit, .discrete u.sys⟩ : UEdge) := by
    unfold lcs plain
    dsimp only
    rw [List.filterMap_map, List.map_filterMap]
    refine List.filterMap_congr fun x _ => ?_
    obtain ⟨k, d, t⟩ := x
    cases d <;> rfl
  unfold firstRef earliestRef lcsTimeDependent
  rw [this, List.filter_map, List.filterMap_map]
  rfl

theorem plain_always (S : Slerp) {m : Csm N ULcs D} (I : Inv m) {a b : N} (ha : a ∈ m.names) (hb : b ∈ m.names) :
    m.queryDefault S a b = m.plain.getAlways S a b := by
  obtain ⟨p, hp⟩ := I.tree.exists_path a b ha hb
  have hp' : SimplePath m.plain.Adj a b p := by rw [plain_adj]; exact hp
  unfold queryDefault getAlways
  rw [(shortestPath_iff I ha hb).2 hp, (shortestPath_iff (plain_inv I) ha hb).2 hp', plain_lcs]
  simp only [plain_links I hp.1]
  rfl

/-- **C101.** The answers that are compared are those of C102, for the written manager and for the manager that was read: at each
requested time they are the composition of the systems on the path. -/
theorem C101_answer {S : Slerp} (hS : SlerpOk S) {m : Csm N ULcs D} (h : Reachable m) {a b : N} (ha : a ∈ m.names) (hb : b ∈ m.names)
    {time t : Time} {timeRef : Option Int} (ht : time.ofTime (timeRef.or m.refTime) = .ok t) (hta : t.vals.Pairwise (· < ·))
    (hne : t.vals ≠ []) (hu : ∀ a b u, m.Supplied a b u → u.Made ∧ (u.sys.dependent = true → m.refTime = none → u.sys.ref.isSome = t.abs)) :
    ∃ s p, m.queryAt S a b time timeRef = .ok s ∧ SimplePath m.Adj a b p ∧ (s.mag.dependent = true → s.mag.clock = t.vals) ∧
      ∀ x ∈ t.vals, ∃ f, (∀ g, s.mm.At S x g ↔ g = f) ∧ (∃ F, Direct S m.plain x p F) ∧
        ∀ F, Direct S m.plain x p F → ∀ q, f.toParent q = F q := by
  obtain ⟨s, p, h1, _, h2, h3, h4⟩ := path_answer hS (plain_inv h.inv) (a := a) (b := b) ha hb (time := time) (t := t) (timeRef := timeRef) ht hta hne
    (fun x y e he => by
      obtain ⟨u, hs, rfl⟩ := plain_supplied.1 he
      exact plain_sound (hu _ _ _ hs).1 (hu _ _ _ hs).2)
  rw [plain_adj] at h3
  exact ⟨s, p, by rw [plain_getAt S h.inv ha hb]; exact h1, h3, h2, h4⟩

/-- **C101.** The same without a time. -/
theorem C101_answer_default {S : Slerp} (hS : SlerpOk S) {m : Csm N ULcs D} (h : Reachable m) {a b : N} (ha : a ∈ m.names) (hb : b ∈ m.names)
    {abs : Bool} (hu : ∀ a b u, m.Supplied a b u → u.Made ∧ (u.sys.dependent = true → m.refTime = none → u.sys.ref.isSome = abs)) :
    ∃ s p, m.queryDefault S a b = .ok s ∧ SimplePath m.Adj a b p ∧
      (s.mag.dependent = true → s.mag.clock.Pairwise (· < ·) ∧ ∀ x, x ∈ s.mag.clock ↔ m.plain.OnPath p x) ∧
      ∀ x, m.plain.OnPath p x ∨ m.plain.StillPath p → ∃ f, (∀ g, s.mm.At S x g ↔ g = f) ∧ (∃ F, Direct S m.plain x p F) ∧
        ∀ F, Direct S m.plain x p F → ∀ q, f.toParent q = F q := by
  obtain ⟨s, p, h1, h3, h2, h4⟩ := always_answer hS (plain_inv h.inv) (a := a) (b := b) ha hb (abs := abs)
    (fun x y e he => by
      obtain ⟨u, hs, rfl⟩ := plain_supplied.1 he
      exact plain_sound (hu _ _ _ hs).1 (hu _ _ _ hs).2)
    (fun p _ => .inr fun x y e _ he => by
      rcases he with he | he
      · obtain ⟨u, hs, rfl⟩ := plain_supplied.1 he
        exact ⟨_, rfl⟩
      · obtain ⟨u, hs, rfl⟩ := plain_supplied.1 he
        exact ⟨_, rfl⟩)
  rw [plain_adj] at h3
  exact ⟨s, p, by rw [plain_always S h.inv ha hb]; exact h1, h3, fun hd => (h2 hd).2, h4⟩

end Csm

namespace FileDemo

theorem cell_supplied {a b : ℕ} {u : ULcs} (h : cell.Supplied a b u) : (a = 1 ∧ b = 0 ∧ u = robot) ∨ (a = 2 ∧ b = 1 ∧ u = torch) := by
  unfold Supplied at h
  rw [cell_edges] at h
  simp only [List.mem_cons, Prod.mk.injEq, Edge.mk.injEq, List.not_mem_nil, or_false, Option.some.injEq] at h
  rcases h with h | h | h | h
  · exact .inl ⟨h.1.1, h.1.2, h.2.2⟩
  · cases h.2.1
  · exact .inr ⟨h.1.1, h.1.2, h.2.2⟩
  · cases h.2.1

/-- the hypotheses of `C101_answer`, `C101_answer_default` and `C102_no_time_partial`: the torch in the hall, whose times are those of the robot -/
example : Reachable cell ∧ 2 ∈ cell.names ∧ 0 ∈ cell.names ∧
    (∀ a b u, cell.Supplied a b u → u.Made ∧ (u.sys.dependent = true → cell.refTime = none → u.sys.ref.isSome = false)) ∧
    Reachable cell.plain ∧ (∀ a b e, cell.plain.Supplied a b e → Sound cell.plain.refTime false e ∧ ∃ c, e.mag = .discrete c) ∧
    (∀ p, cell.plain.Answerable p) ∧ ∀ x, cell.plain.OnPath [2, 1, 0] x ↔ x = 0 ∨ x = 10 := by
  have sup : ∀ a b u, cell.Supplied a b u → u.Made ∧ (u.sys.dependent = true → cell.refTime = none → u.sys.ref.isSome = false) := by
    intro a b u h
    rcases cell_supplied h with ⟨_, _, rfl⟩ | ⟨_, _, rfl⟩
    · exact ⟨made_series (by norm_num), fun _ _ => rfl⟩
    · exact ⟨made_static (by norm_num), fun h => by cases h⟩
  have pe : cell.plain = (addCs 2 1 ⟨1000, .discrete torch.sys⟩ true true
      (addCs 1 0 ⟨10, .discrete robot.sys⟩ true true (init 0 100 none)).state).state := rfl
  refine ⟨.addCs _ _ _ _ _ (.addCs _ _ _ _ _ (.init _ _ _)), ?_, ?_, sup, ?_, fun a b e h => ?_, fun p => .inr fun a b e _ h => ?_, fun x => ⟨?_, ?_⟩⟩
  · show 2 ∈ [0, 1, 2]; simp
  · show 0 ∈ [0, 1, 2]; simp
  · rw [pe]; exact .addCs _ _ _ _ _ (.addCs _ _ _ _ _ (.init _ _ _))
  · obtain ⟨u, hs, rfl⟩ := plain_supplied.1 h
    exact ⟨plain_sound (sup _ _ _ hs).1 (sup _ _ _ hs).2, _, rfl⟩
  · rcases h with h | h
    · obtain ⟨u, _, rfl⟩ := plain_supplied.1 h
      exact ⟨_, rfl⟩
    · obtain ⟨u, _, rfl⟩ := plain_supplied.1 h
      exact ⟨_, rfl⟩
  · rintro ⟨a, b, e, _, h2, h3⟩
    have : ∀ a b, cell.plain.Supplied a b e → x = 0 ∨ x = 10 := by
      intro a b h
      obtain ⟨u, hs, rfl⟩ := plain_supplied.1 h
      rcases cell_supplied hs with ⟨_, _, rfl⟩ | ⟨_, _, rfl⟩
      · exact List.mem_pair.1 h3
      · cases h3
    exact h2.elim (this a b) (this b a)
  · intro h
    refine ⟨1, 0, ⟨10, .discrete robot.sys⟩, ⟨[2], [], rfl⟩, .inl (plain_supplied.2 ⟨robot, ?_, rfl⟩), List.mem_pair.2 h⟩
    unfold Supplied
    rw [cell_edges]
    simp

end FileDemo
end Weldx
