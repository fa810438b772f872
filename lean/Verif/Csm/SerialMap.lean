import Verif.Csm.SerialProps

/-!
# Managers in files together with the coordinate systems (C101)

Source: `/repo/weldx/tags/core/transformations/coordinate_system_hierarchy.py` 15-35, `/repo/weldx/tags/core/graph.py` 68-151.

`Verif/Csm/Serial.lean` assumes that the file keeps coordinate systems exactly. Here every system is converted on its own when it
is written and when it is read (`to_yaml_tree` and `from_yaml_tree` of its converter).

Simplifications: otherwise as in `Verif/Csm/Serial.lean`.
-/

set_option linter.unusedSectionVars false

namespace Weldx.Csm
variable {N S T D E : Type} [DecidableEq N]

/-! ### model -/

/-- the attributes of an edge with a converted system -/
def _root_.Weldx.Edge.mapM (f : S → Except E T) (e : Edge S) : Except E (Edge T) := match e.transformation with
  | none => .ok ⟨e.defined, none⟩
  | some s => match f s with
    | .error x => .error x
    | .ok t => .ok ⟨e.defined, some t⟩

mutual
/-- the tree with converted systems -/
def DiNode.mapM (f : S → Except E T) : DiNode N S D → Except E (DiNode N T D)
  | .mk n d es => match es.mapM f with
    | .error x => .error x
    | .ok es => .ok (.mk n d es)
/-- the edges with converted systems -/
def DiEdges.mapM (f : S → Except E T) : DiEdges N S D → Except E (DiEdges N T D)
  | .nil => .ok .nil
  | .cons fwd a t r => match Edge.mapM f a with
    | .error x => .error x
    | .ok a => match t.mapM f with
      | .error x => .error x
      | .ok t => match r.mapM f with
        | .error x => .error x
        | .ok r => .ok (.cons fwd a t r)
end

/-- the document with converted systems -/
def Doc.mapM (f : S → Except E T) (d : Doc N S D) : Except E (Doc N T D) := match d.graph.mapM f with
  | .error x => .error x
  | .ok g => .ok ⟨d.name, d.refTime, g, d.subs⟩

/-- writing a manager, `coordinate_system_hierarchy.py` 15-26, and all its systems -/
def writeFile (w : S → Except E T) (m : Csm N S D) : Except (CsmError ⊕ E) (Doc N T D) := match m.write with
  | .error x => .error (.inl x)
  | .ok d => match d.mapM w with
    | .error x => .error (.inr x)
    | .ok d => .ok d

/-- reading all systems and the manager, `coordinate_system_hierarchy.py` 28-35 -/
def readFile [LcsLike S] (r : T → Except E S) (d : Doc N T D) : Except (CsmError ⊕ E) (Csm N S D) := match d.mapM r with
  | .error x => .error (.inr x)
  | .ok d => match read d with
    | .error x => .error (.inl x)
    | .ok m => .ok m

/-! ### specification -/

/-- the same manager with other systems: `g s` instead of the supplied system `s`, and what belongs to it in the other direction -/
def rewritten [LcsLike S] (g : S → S) (m : Csm N S D) : Csm N S D :=
  { m with edges := m.edges.map fun x => (x.1, if x.2.defined then ⟨true, x.2.transformation.map g⟩
      else ⟨false, ((Dict.get? m.edges (x.1.2, x.1.1)).bind Edge.transformation).bind fun s => reverseOf (g s)⟩) }

/-! ### maps of trees -/

/-- an edge with another system -/
def _root_.Weldx.Edge.map (g : S → T) (e : Edge S) : Edge T := ⟨e.defined, e.transformation.map g⟩

mutual
/-- a tree with other systems -/
def DiNode.map (g : S → T) : DiNode N S D → DiNode N T D
  | .mk n d es => .mk n d (es.map g)
/-- edges with other systems -/
def DiEdges.map (g : S → T) : DiEdges N S D → DiEdges N T D
  | .nil => .nil
  | .cons fwd a t r => .cons fwd (a.map g) (t.map g) (r.map g)
end

mutual
/-- all systems of a tree -/
def DiNode.All (P : S → Prop) : DiNode N S D → Prop
  | .mk _ _ es => es.All P
/-- all systems of edges -/
def DiEdges.All (P : S → Prop) : DiEdges N S D → Prop
  | .nil => True
  | .cons _ a t r => (∀ s, a.transformation = some s → P s) ∧ t.All P ∧ r.All P
end

theorem _root_.Weldx.Edge.mapM_all {w : S → Except E T} {r : T → Except E S} {g : S → S} {e : Edge S}
    (h : ∀ s, e.transformation = some s → ∃ t, w s = .ok t ∧ r t = .ok (g s)) :
    ∃ e', Edge.mapM w e = .ok e' ∧ Edge.mapM r e' = .ok (e.map g) := by
  obtain ⟨d, t⟩ := e
  cases t with
  | none => exact ⟨⟨d, none⟩, rfl, rfl⟩
  | some s =>
    obtain ⟨t, h1, h2⟩ := h s rfl
    exact ⟨⟨d, some t⟩, by simp only [Edge.mapM, h1], by simp only [Edge.mapM, h2, Edge.map, Option.map]⟩

mutual
theorem DiNode.mapM_all {w : S → Except E T} {r : T → Except E S} {g : S → S} : ∀ n : DiNode N S D,
    n.All (fun s => ∃ t, w s = .ok t ∧ r t = .ok (g s)) → ∃ n', n.mapM w = .ok n' ∧ n'.mapM r = .ok (n.map g)
  | .mk n d es, h => by
    obtain ⟨es', h1, h2⟩ := es.mapM_all h
    exact ⟨.mk n d es', by simp only [DiNode.mapM, h1], by simp only [DiNode.mapM, h2, DiNode.map]⟩
theorem DiEdges.mapM_all {w : S → Except E T} {r : T → Except E S} {g : S → S} : ∀ es : DiEdges N S D,
    es.All (fun s => ∃ t, w s = .ok t ∧ r t = .ok (g s)) → ∃ es', es.mapM w = .ok es' ∧ es'.mapM r = .ok (es.map g)
  | .nil, _ => ⟨.nil, rfl, rfl⟩
  | .cons fwd a t l, h => by
    obtain ⟨ha, ht, hl⟩ := h
    obtain ⟨a', a1, a2⟩ := Edge.mapM_all ha
    obtain ⟨t', t1, t2⟩ := t.mapM_all ht
    obtain ⟨l', l1, l2⟩ := l.mapM_all hl
    exact ⟨.cons fwd a' t' l', by simp only [DiEdges.mapM, a1, t1, l1], by simp only [DiEdges.mapM, a2, t2, l2, DiEdges.map]⟩
end

theorem buildEdges_all {P : S → Prop} {f : N → Except CsmError (DiNode N S D)} (hf : ∀ c t, f c = .ok t → t.All P) :
    ∀ (l : List (Bool × Edge S × N)) (es : DiEdges N S D), (∀ x ∈ l, ∀ s, x.2.1.transformation = some s → P s) →
      buildEdges f l = .ok es → es.All P
  | [], es, _, h => by cases h; trivial
  | (d, e, c) :: t, es, hl, h => by
    unfold buildEdges at h
    cases hc : f c with
    | error x => rw [hc] at h; cases h
    | ok v =>
      rw [hc] at h
      dsimp only at h
      cases ht : buildEdges f t with
      | error x => rw [ht] at h; cases h
      | ok r =>
        rw [ht] at h
        cases h
        exact ⟨hl _ (List.mem_cons_self ..), hf c v hc, buildEdges_all hf t r (fun x hx => hl x (List.mem_cons_of_mem _ hx)) ht⟩

theorem buildTree_all {m : Csm N S D} {P : S → Prop} (hP : ∀ x ∈ m.definedEdges, ∀ s, x.2.transformation = some s → P s) :
    ∀ k n p t, m.buildTree k n p = .ok t → t.All P
  | 0, _, _, _, h => by cases h
  | k + 1, n, p, t, h => by
    unfold buildTree at h
    cases hb : buildEdges (fun c => buildTree m k c (some n)) (m.treeLinks n p) with
    | error x => rw [hb] at h; cases h
    | ok es =>
      rw [hb] at h
      dsimp only at h
      cases hd : Dict.get? m.nodes n with
      | none => rw [hd] at h; cases h
      | some ds =>
        rw [hd] at h
        cases h
        refine buildEdges_all (fun c t ht => buildTree_all hP k c (some n) t ht) _ es (fun x hx s hs => ?_) hb
        unfold treeLinks at hx
        rcases List.mem_append.1 hx with hx | hx
        · obtain ⟨y, hy, rfl⟩ := List.mem_map.1 hx
          exact hP y (List.mem_filter.1 hy).1 s hs
        · obtain ⟨y, hy, rfl⟩ := List.mem_map.1 hx
          exact hP y (List.mem_filter.1 hy).1 s hs

/-! ### managers with other systems -/

section
variable [LcsLike S] (g : S → S) (m : Csm N S D)

theorem rewritten_keys : Dict.keys (m.rewritten g).edges = Dict.keys m.edges := by
  simp [rewritten, Dict.keys, List.map_map, Function.comp_def]

theorem rewritten_names : (m.rewritten g).names = m.names := rfl

theorem rewritten_adj (a b : N) : (m.rewritten g).Adj a b ↔ m.Adj a b := by unfold Adj; rw [rewritten_keys]

theorem rewritten_defined : (m.rewritten g).definedEdges = m.definedEdges.map fun x => (x.1, x.2.map g) := by
  unfold definedEdges rewritten
  dsimp only
  rw [List.filter_map]
  have : ((fun e : (N × N) × Edge S => e.2.defined) ∘ fun x : (N × N) × Edge S => (x.1, if x.2.defined = true then (⟨true, x.2.transformation.map g⟩ : Edge S)
      else ⟨false, ((Dict.get? m.edges (x.1.2, x.1.1)).bind Edge.transformation).bind fun s => reverseOf (g s)⟩)) =
      fun e => e.2.defined := by
    funext x
    dsimp only [Function.comp]
    by_cases h : x.2.defined = true
    · rw [if_pos h, h]
    · rw [if_neg h]; simpa using h
  rw [this]
  refine List.map_congr_left fun x hx => ?_
  have hd : x.2.defined = true := (List.mem_filter.1 hx).2
  rw [if_pos hd, Edge.map, hd]

theorem rewritten_links (n : N) (p : Option N) :
    (m.rewritten g).treeLinks n p = (m.treeLinks n p).map fun x => (x.1, x.2.1.map g, x.2.2) := by
  unfold treeLinks
  rw [rewritten_defined, List.map_append]
  simp only [List.filter_map, List.map_map, Function.comp_def]

theorem buildEdges_map (f f' : N → Except CsmError (DiNode N S D)) (hf : ∀ c, f' c = (f c).map (DiNode.map g)) :
    ∀ l : List (Bool × Edge S × N), buildEdges f' (l.map fun x => (x.1, x.2.1.map g, x.2.2)) = (buildEdges f l).map (DiEdges.map g)
  | [] => rfl
  | (d, e, c) :: t => by
    simp only [List.map_cons, buildEdges, hf]
    cases f c with
    | error x => rfl
    | ok v =>
      simp only [Except.map]
      rw [buildEdges_map f f' hf t]
      cases buildEdges f t with
      | error x => rfl
      | ok r => rfl

theorem rewritten_tree : ∀ k n p, (m.rewritten g).buildTree k n p = (m.buildTree k n p).map (DiNode.map g)
  | 0, _, _ => rfl
  | k + 1, n, p => by
    simp only [buildTree]
    rw [rewritten_links, buildEdges_map g _ _ (fun c => rewritten_tree k c (some n))]
    cases buildEdges (fun c => m.buildTree k c (some n)) (m.treeLinks n p) with
    | error x => rfl
    | ok es =>
      simp only [Except.map]
      show (match Dict.get? m.nodes n with
        | none => _
        | some ds => _) = _
      cases Dict.get? m.nodes n <;> rfl

theorem grow_map (es : List ((N × N) × Edge S)) (l : List N) : grow (es.map fun x => (x.1, x.2.map g)) l = grow es l := by
  simp only [grow, List.filterMap_map, Function.comp_def]

theorem rewritten_isTree (x : N) : (m.rewritten g).nxIsTree x = m.nxIsTree x := by
  have : grow (m.definedEdges.map fun x => (x.1, x.2.map g)) = grow m.definedEdges := funext (grow_map g _)
  simp only [nxIsTree, rewritten_defined, List.length_map, rewritten_names, this]

theorem rewritten_write : (m.rewritten g).write =
    m.write.map fun d => ⟨d.name, d.refTime, d.graph.map g, d.subs⟩ := by
  have e : ∀ ns, ({ m.rewritten g with nodes := ns } : Csm N S D) = ({ m with nodes := ns } : Csm N S D).rewritten g := fun _ => rfl
  have hf : (m.rewritten g).nodes.filter (fun x => (m.rewritten g).definedEdges.any fun e => decide (e.1.1 = x.1) || decide (e.1.2 = x.1)) =
      m.nodes.filter fun x => m.definedEdges.any fun e => decide (e.1.1 = x.1) || decide (e.1.2 = x.1) := by
    rw [rewritten_defined]
    simp only [List.any_map, Function.comp_def]
    rfl
  unfold write
  dsimp only
  rw [hf, e]
  generalize (m.nodes.filter fun x => m.definedEdges.any fun e => decide (e.1.1 = x.1) || decide (e.1.2 = x.1)) = ns
  rw [rewritten_names]
  cases Csm.names ({ m with nodes := ns } : Csm N S D) with
  | nil => rfl
  | cons first l =>
    dsimp only
    rw [rewritten_isTree]
    split
    · rw [rewritten_tree]
      cases Csm.buildTree ({ m with nodes := ns } : Csm N S D) (first :: l).length first none <;> rfl
    · rfl

theorem rewritten_paired (I : Inv m) (a b : N) (e : Edge S) (h : ((a, b), e) ∈ m.edges) :
    ∃ s, (e = ⟨true, some s⟩ ∧ ((a, b), ⟨true, some (g s)⟩) ∈ (m.rewritten g).edges ∧
        ((b, a), ⟨false, reverseOf (g s)⟩) ∈ (m.rewritten g).edges ∧ ((b, a), ⟨false, reverseOf s⟩) ∈ m.edges) ∨
      (e = ⟨false, reverseOf s⟩ ∧ ((b, a), ⟨true, some (g s)⟩) ∈ (m.rewritten g).edges ∧
        ((a, b), ⟨false, reverseOf (g s)⟩) ∈ (m.rewritten g).edges ∧ ((b, a), ⟨true, some s⟩) ∈ m.edges) := by
  have key : ∀ a b s, ((a, b), (⟨true, some s⟩ : Edge S)) ∈ m.edges → ∀ e', ((b, a), (⟨false, e'⟩ : Edge S)) ∈ m.edges →
      ((a, b), (⟨true, some (g s)⟩ : Edge S)) ∈ (m.rewritten g).edges ∧
        ((b, a), (⟨false, reverseOf (g s)⟩ : Edge S)) ∈ (m.rewritten g).edges := by
    intro a b s h e' h'
    refine ⟨List.mem_map.2 ⟨_, h, rfl⟩, List.mem_map.2 ⟨_, h', ?_⟩⟩
    dsimp only
    rw [Dict.get?_of_mem I.edgesNodup h]
    rfl
  obtain ⟨e', h', hp⟩ := I.paired a b e h
  rcases hp with ⟨s, rfl, rfl⟩ | ⟨s, rfl, rfl⟩
  · exact ⟨s, .inl ⟨rfl, (key a b s h _ h').1, (key a b s h _ h').2, h'⟩⟩
  · exact ⟨s, .inr ⟨rfl, (key b a s h' _ h).1, (key b a s h' _ h).2, h'⟩⟩

theorem rewritten_inv (I : Inv m) : Inv (m.rewritten g) where
  nodesNodup := I.nodesNodup
  edgesNodup := by rw [rewritten_keys]; exact I.edgesNodup
  root_mem := I.root_mem
  tree := I.tree.congr (fun _ => Iff.rfl) fun x y => (rewritten_adj g m x y).symm
  paired a b e he := by
    have hn : (Dict.keys (m.rewritten g).edges).Nodup := by rw [rewritten_keys]; exact I.edgesNodup
    have hk : (a, b) ∈ Dict.keys m.edges := by rw [← rewritten_keys g]; exact Dict.mem_keys_of_mem he
    obtain ⟨e0, h0⟩ := Dict.mem_keys_iff.1 hk
    obtain ⟨s, h | h⟩ := rewritten_paired g m I a b e0 h0
    · have : e = ⟨true, some (g s)⟩ := by
        have := (Dict.get?_of_mem hn he).symm.trans (Dict.get?_of_mem hn h.2.1)
        injection this
      exact ⟨_, h.2.2.1, .inl ⟨g s, this, rfl⟩⟩
    · have : e = ⟨false, reverseOf (g s)⟩ := by
        have := (Dict.get?_of_mem hn he).symm.trans (Dict.get?_of_mem hn h.2.2.1)
        injection this
      exact ⟨_, h.2.1, .inr ⟨g s, rfl, this⟩⟩
  dataNodup := I.dataNodup
  subs_ok s hs := by
    have : (m.rewritten g).Adj = m.Adj := funext fun a => funext fun b => propext (rewritten_adj g m a b)
    rw [this]; exact I.subs_ok s hs

end

/-- **C101.** A manager with two or more systems, none of them described by an expression, is written and read as the same manager
with the systems that are read in place of the written ones: names, reference time, data, relations and subsystem records are
the same. -/
theorem C101_structure [LcsLike S] {w : S → Except E T} {r : T → Except E S} {g : S → S} {m : Csm N S D} (h : Reachable m)
    (h2 : 2 ≤ m.names.length)
    (hc : ∀ a b s, m.Supplied a b s → (∃ t, w s = .ok t ∧ r t = .ok (g s)) ∧ LcsLike.isSeries (g s) = false) :
    ∃ d m', writeFile w m = .ok d ∧ readFile r d = .ok m' ∧ SameUpToRoot (m.rewritten g) m' ∧ m.names.head? = some m'.root := by
  have I := h.inv
  have J := rewritten_inv g m I
  have hser : (m.rewritten g).NoSeries := by
    intro a b s hs
    have hk : (a, b) ∈ Dict.keys m.edges := by rw [← rewritten_keys g]; exact Dict.mem_keys_of_mem hs
    obtain ⟨e0, h0⟩ := Dict.mem_keys_iff.1 hk
    obtain ⟨s', h' | h'⟩ := rewritten_paired g m I a b e0 h0
    · have := (Dict.get?_of_mem J.edgesNodup hs).symm.trans (Dict.get?_of_mem J.edgesNodup h'.2.1)
      have e : s = g s' := by simpa using this
      rw [e]
      rw [h'.1] at h0
      exact (hc a b s' h0).2
    · have := (Dict.get?_of_mem J.edgesNodup hs).symm.trans (Dict.get?_of_mem J.edgesNodup h'.2.2.1)
      simp at this
  obtain ⟨d', m', hw, hr, hsame, hroot⟩ := content_of_inv J h2 hser
  rw [rewritten_write] at hw
  cases hd : m.write with
  | error x => rw [hd] at hw; cases hw
  | ok d =>
    rw [hd] at hw
    have hd' : d' = ⟨d.name, d.refTime, d.graph.map g, d.subs⟩ := by
      have := hw; simp only [Except.map] at this; injection this with this; exact this.symm
    have hall : d.graph.All (fun s => ∃ t, w s = .ok t ∧ r t = .ok (g s)) := by
      have hP : ∀ x ∈ m.definedEdges, ∀ s, x.2.transformation = some s → ∃ t, w s = .ok t ∧ r t = .ok (g s) := by
        intro x hx s hs
        obtain ⟨⟨a, b⟩, e⟩ := x
        obtain ⟨h1, h3⟩ := List.mem_filter.1 hx
        obtain ⟨df, tr⟩ := e
        dsimp only at hs h3
        subst hs
        have h3' : df = true := h3
        subst h3'
        exact (hc a b s h1).1
      unfold write at hd
      dsimp only at hd
      split at hd
      · cases hd
      · split at hd
        · split at hd
          · cases hd
          · rename_i t ht
            cases hd
            refine buildTree_all (m := { m with nodes := _ }) ?_ _ _ _ _ ht
            exact hP
        · cases hd
    obtain ⟨g', g1, g2⟩ := d.graph.mapM_all hall
    refine ⟨⟨d.name, d.refTime, g', d.subs⟩, m', ?_, ?_, hsame, hroot⟩
    · simp only [writeFile, hd, Doc.mapM, g1]
    · simp only [readFile, Doc.mapM, g2]
      rw [← hd', hr]

end Weldx.Csm
