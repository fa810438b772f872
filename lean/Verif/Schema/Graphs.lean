import Verif.Schema.Frames

/-!
# Graphs, measurement chains and hierarchies of coordinate systems in the schemas (C91)
-/

set_option linter.unusedSimpArgs false
set_option linter.unusedSectionVars false

namespace Weldx.Schema
variable {D : Type} [DecidableEq D] {E : Env D} {rf : String → Y → R}

/-! ### Directed graphs -/

/-- names that can be written: only UUIDs of version 4 -/
def NodeName.Good : NodeName → Prop
  | .uuid s => uuidPattern s.toList = true
  | _ => True

mutual
/-- graphs that can be written -/
def GNode.Good (E : Env D) : GNode → Prop
  | .mk n a es => n.Good ∧ AccAttrs E a ∧ GNode.GoodEdges E es
/-- edges -/
def GNode.GoodEdges (E : Env D) : List (Bool × List (String × Y) × GNode) → Prop
  | [] => True
  | (_, a, g) :: es => AccAttrs E a ∧ g.Good E ∧ GNode.GoodEdges E es
end

theorem uuid_acc {s : String} : Acc E (.str (some (wx "uuid")) s) ↔ uuidPattern s.toList = true := by
  refine acc_tagged (s := Weldx.Schema.uuid) rfl fun rf => ?_
  simp [Weldx.Schema.uuid, Ty.test, tagTest, Y.tag, Pat.test, wx]

theorem nonempty_acc {a : List (String × Y)} : (∀ y ∈ nonempty a, Acc E y) ↔ AccAttrs E a := by
  unfold nonempty
  split
  · rename_i h; subst h; simp [AccAttrs]
  · simp [AccAttrs]

theorem nonempty_type {a : List (String × Y)} {y : Y} (h : nonempty a = some y) : Ty.test .object y = true := by
  unfold nonempty at h
  split at h
  · simp at h
  · cases h; rfl

theorem name_acc {n : NodeName} : (∀ y ∈ n.tree, Acc E y) ↔ n.Good := by
  cases n <;> simp [NodeName.tree, NodeName.Good, uuid_acc]

@[simp] theorem tag_node {g : GNode} : g.tree.tag = some (wx "core/graph/di_node") := by cases g; rfl
@[simp] theorem tag_edge {d : Bool} {a : List (String × Y)} {y : Y} : (edgeTree d a y).tag = some (wx "core/graph/di_edge") := rfl
@[simp] theorem tag_graph {g : GNode} : (graphTree g).tag = some (wx "core/graph/di_graph") := rfl

theorem edge_acc {d : Bool} {a : List (String × Y)} {g : GNode} : Acc E (edgeTree d a g.tree) ↔ AccAttrs E a ∧ Acc E g.tree := by
  rw [edgeTree, acc_obj (P := True) (s := coreGraphDiEdge) rfl fun rf => ?_]
  · simp [-Prod.exists, -Prod.forall]
    have := nonempty_acc (E := E) (a := a)
    simp only [Option.mem_def] at this
    rw [this]; tauto
  · simp only [coreGraphDiEdge, ok_all_cons, ok_all_nil, and_true, iff_true]
    rw [ok_prop_obj (by simp), ok_prop_obj (by simp), ok_prop_obj (by simp), ok_required_obj (by simp)]
    simp only [field]
    refine ⟨by simp, ?_, ?_, ?_, by simp [field]⟩
    · cases d <;> simp [Ty.test]
    · simp [tagTest, Pat.test, wx]
    · simp; intro v hv; exact nonempty_type hv

theorem edges_tag {es : List (Bool × List (String × Y) × GNode)} : ∀ y ∈ GNode.edges es, tagTest [.any "core/graph/di_edge"] y = true := by
  induction es with
  | nil => simp [GNode.edges]
  | cons e es ih =>
    obtain ⟨d, a, g⟩ := e
    simp only [GNode.edges, List.forall_mem_cons]
    exact ⟨by simp [tagTest, Pat.test, wx], ih⟩

/-- the list of the edges, if there are any -/
def edgesTree (es : List (Bool × List (String × Y) × GNode)) : Option Y := match es with
  | [] => none
  | e :: es => some (.list none (GNode.edges (e :: es)))

theorem node_tree {n : NodeName} {a : List (String × Y)} {es : List (Bool × List (String × Y) × GNode)} : (GNode.mk n a es).tree =
    obj (wx "core/graph/di_node") [("name", n.tree), ("edges", edgesTree es), ("attributes", nonempty a)] := by
  cases es <;> simp [GNode.tree, edgesTree]

theorem edgesTree_some {es : List (Bool × List (String × Y) × GNode)} {y : Y} (h : edgesTree es = some y) : y = .list none (GNode.edges es) := by
  cases es with
  | nil => simp [edgesTree] at h
  | cons e es => simp [edgesTree] at h; exact h.symm

theorem node_acc {n : NodeName} {a : List (String × Y)} {es : List (Bool × List (String × Y) × GNode)} :
    Acc E (GNode.mk n a es).tree ↔ n.Good ∧ AccAttrs E a ∧ ∀ y ∈ GNode.edges es, Acc E y := by
  rw [node_tree, acc_obj (P := True) (s := coreGraphDiNode) rfl fun rf => ?_]
  · have h1 := nonempty_acc (E := E) (a := a)
    have h2 := name_acc (E := E) (n := n)
    have h3 : (∀ y ∈ edgesTree es, Acc E y) ↔ ∀ y ∈ GNode.edges es, Acc E y := by
      cases es <;> simp [edgesTree, GNode.edges]
    simp only [List.forall_mem_cons, true_and, h1, h2, h3]
    simp; tauto
  · simp only [coreGraphDiNode, ok_all_cons, ok_all_nil, and_true, iff_true]
    rw [ok_prop_obj (by simp), ok_prop_obj (by simp), ok_prop_obj (by simp)]
    simp only [field]
    refine ⟨by simp, ?_, ?_, ?_⟩
    · cases n <;> simp [NodeName.tree, ok_anyOf_cons]
    · simp
      intro v hv
      rw [edgesTree_some hv]
      exact ⟨rfl, by rw [ok_items]; intro y hy; rw [ok_tag]; exact edges_tag y hy⟩
    · simp; intro v hv; exact nonempty_type hv

mutual
theorem GNode.acc_iff : ∀ g : GNode, Acc E g.tree ↔ g.Good E
  | .mk n a es => by rw [node_acc, GNode.Good, GNode.acc_edges es]
theorem GNode.acc_edges : ∀ es : List (Bool × List (String × Y) × GNode), (∀ y ∈ GNode.edges es, Acc E y) ↔ GNode.GoodEdges E es
  | [] => by simp [GNode.edges, GNode.GoodEdges]
  | (d, a, g) :: es => by
    simp only [GNode.edges, List.forall_mem_cons, GNode.GoodEdges, edge_acc, GNode.acc_edges es, GNode.acc_iff g, and_assoc]
end

@[simp] theorem graph_acc {g : GNode} : Acc E (graphTree g) ↔ g.Good E := by
  rw [graphTree, acc_obj (P := True) (s := coreGraphDiGraph) rfl fun rf => ?_]
  · simp [GNode.acc_iff]
  · simp [coreGraphDiGraph, ok_prop_obj, ok_required_obj, field, tagTest, Pat.test, wx]

/-! ### Measurements -/

/-- errors that can be written: there is a deviation, and it is real -/
def MError.Good (e : MError) : Prop := match e.deviation with
  | none => False
  | some (.inl n) => n.Real
  | some (.inr q) => q.mag.Real

theorem Num.number_iff {n : Num} : check E rf (.type .number) n.tree = .ok ↔ n.Real := by
  cases n <;> simp [Num.Real, Num.tree, Ty.test]

@[simp] theorem tag_error {e : MError} : e.tree.tag = some (wx "measurement/error") := rfl

theorem Num.not_qty {n : Num} : check E rf (.tag (.any "units/quantity")) n.tree ≠ .ok := by
  cases n <;> simp [Num.tree, tagTest, Pat.test, Y.tag, wx]

@[simp] theorem MError.acc {e : MError} : Acc E e.tree ↔ e.Good := by
  cases hd : e.deviation with
  | none =>
    rw [MError.tree, acc_obj (P := False) (s := measurementError) rfl fun rf => ?_]
    · simp [MError.Good, hd]
    · simp [measurementError, hd, ok_required_obj, field]
  | some x =>
    cases x with
    | inl n =>
      rw [MError.tree, acc_obj (P := n.Real) (s := measurementError) rfl fun rf => ?_]
      · simp [MError.Good, hd]
      · have h1 := Num.number_iff (E := E) (rf := rf) (n := n)
        have h2 := Num.not_qty (E := E) (rf := rf) (n := n)
        simp only [measurementError, ok_all_cons, ok_all_nil, and_true]
        rw [ok_prop_obj (by simp), ok_required_obj (by simp)]
        simp only [field, hd, reduceIte, Option.map_some, Option.some.injEq, forall_eq']
        rw [ok_oneOf_two (by safe) (by safe), h1]
        simp [field, h2]
    | inr q =>
      rw [MError.tree, acc_obj (P := True) (s := measurementError) rfl fun rf => ?_]
      · simp [MError.Good, hd]
      · simp only [measurementError, ok_all_cons, ok_all_nil, and_true]
        rw [ok_prop_obj (by simp), ok_required_obj (by simp)]
        simp only [field, hd, reduceIte, Option.map_some, Option.some.injEq, forall_eq']
        rw [ok_oneOf_two (by safe) (by safe)]
        simp [field, tagTest, Pat.test, Qty.tree, Ty.test, obj, wx, Y.tag]

/-- signals that can be written -/
def MSignal.Good (E : Env D) (s : MSignal) : Prop := ∀ d ∈ s.data, d.Good E

@[simp] theorem tag_signal {s : MSignal} : s.tree.tag = some (wx "measurement/signal") := rfl

@[simp] theorem MSignal.acc {s : MSignal} : Acc E s.tree ↔ s.Good E := by
  rw [MSignal.tree, acc_obj (P := True) (s := measurementSignal) rfl fun rf => ?_]
  · simp [MSignal.Good]
  · simp only [measurementSignal, ok_all_cons, ok_all_nil, and_true]
    rw [ok_prop_obj (by simp), ok_prop_obj (by simp), ok_prop_obj (by simp), ok_required_obj (by simp)]
    cases s.analog <;> simp [field, tagTest, Pat.test]

/-- transformations that can be written: there is an error with a deviation, and the function has real parameters -/
def MTrans.Good (t : MTrans) : Prop := (∃ e ∈ t.error, e.Good) ∧ ∀ f ∈ t.func, f.Good

@[simp] theorem tag_trans {t : MTrans} : t.tree.tag = some (wx "measurement/signal_transformation") := rfl

@[simp] theorem MTrans.acc {t : MTrans} : Acc E t.tree ↔ t.Good := by
  rw [MTrans.tree, acc_obj (P := t.error.isSome = true) (s := measurementSignalTransformation) rfl fun rf => ?_]
  · have h : ∀ x : Option TypeTrans, ∀ y ∈ x.map fun x => txt x.text, Acc E y := by
      intro x y hy
      cases x <;> simp at hy
      subst hy; simp
    simp only [List.forall_mem_cons, h, true_and]
    simp [MTrans.Good]
    cases t.error <;> simp
  · simp only [measurementSignalTransformation, ok_all_cons, ok_all_nil, and_true]
    rw [ok_prop_obj (by simp), ok_prop_obj (by simp), ok_prop_obj (by simp), ok_prop_obj (by simp), ok_anyOf_two (by safe),
      ok_required_obj (by simp), ok_required_obj (by simp)]
    have hg := t.given
    have ht : ∀ x : TypeTrans, x.text ∈ ["AA", "AD", "DA", "DD"] := by intro x; cases x <;> simp [TypeTrans.text]
    have ht2 : ∀ v, (t.type.map fun x => txt x.text) = some v → check E rf (.all [.type .string, .enum ["AA", "AD", "DA", "DD"]]) v = .ok := by
      intro v hv
      cases hx : t.type with
      | none => simp [hx] at hv
      | some x =>
        rw [hx] at hv
        simp only [Option.map_some, Option.some.injEq] at hv
        rw [← hv]
        simp only [ok_all_cons, ok_all_nil, and_true, ok_type, ok_enum, txt]
        exact ⟨rfl, ht x⟩
    simp only [List.forall_mem_cons, List.not_mem_nil, false_imp_iff, implies_true, and_true]
    simp [field, tagTest, Pat.test, -ok_all_cons]
    simp at ht2
    cases t.error <;> simp [hg]
    exact ht2

/-- sources that can be written -/
def MSource.Good (E : Env D) (s : MSource) : Prop := s.signal.Good E ∧ ∀ e ∈ s.error, e.Good

@[simp] theorem tag_source {s : MSource} : s.tree.tag = some (wx "measurement/source") := rfl

@[simp] theorem MSource.acc {s : MSource} : Acc E s.tree ↔ s.Good E := by
  rw [MSource.tree, acc_obj (P := True) (s := measurementSource) rfl fun rf => ?_]
  · simp [MSource.Good]
  · simp [measurementSource, ok_prop_obj, ok_required_obj, field, tagTest, Pat.test]

/-- equipment that can be written -/
def MEquipment.Good (E : Env D) (m : MEquipment) : Prop := (∀ s ∈ m.sources, s.Good E) ∧ ∀ t ∈ m.transformations, t.Good

@[simp] theorem tag_equipment {m : MEquipment} : m.tree.tag = some (wx "equipment/measurement_equipment") := rfl

@[simp] theorem MEquipment.acc {m : MEquipment} : Acc E m.tree ↔ m.Good E := by
  rw [MEquipment.tree, acc_obj (P := True) (s := equipmentMeasurementEquipment) rfl fun rf => ?_]
  · simp [MEquipment.Good]
  · simp [equipmentMeasurementEquipment, ok_prop_obj, ok_required_obj, field, tagTest, Pat.test]

/-! ### Measurement chains -/

mutual
/-- no branches -/
def MTree.Linear : MTree → Prop
  | .mk _ _ es => es.length ≤ 1 ∧ MTree.LinearAll es
/-- no branches in the remaining chains -/
def MTree.LinearAll : List (MTrans × Option MEquipment × MTree) → Prop
  | [] => True
  | (_, _, m) :: es => m.Linear ∧ MTree.LinearAll es
end

mutual
/-- depth of the tree -/
def MTree.depth : MTree → Nat
  | .mk _ _ es => MTree.depths es + 1
/-- the largest depth -/
def MTree.depths : List (MTrans × Option MEquipment × MTree) → Nat
  | [] => 0
  | (_, _, m) :: es => max m.depth (MTree.depths es)
end

mutual
/-- the parts can be written -/
def MTree.Parts (E : Env D) : MTree → Prop
  | .mk n s es => n.Good ∧ s.Good E ∧ MTree.PartsAll E es
/-- the parts of the remaining chains can be written -/
def MTree.PartsAll (E : Env D) : List (MTrans × Option MEquipment × MTree) → Prop
  | [] => True
  | (t, q, m) :: es => t.Good ∧ (∀ x ∈ q, x.Good E) ∧ m.Parts E ∧ MTree.PartsAll E es
end

mutual
theorem MTree.graph_good : ∀ m : MTree, m.graph.Good E ↔ m.Parts E
  | .mk n s es => by
    rw [MTree.graph, GNode.Good, MTree.Parts, MTree.graphs_good es]
    simp [AccAttrs]
theorem MTree.graphs_good : ∀ es : List (MTrans × Option MEquipment × MTree), GNode.GoodEdges E (MTree.graphs es) ↔ MTree.PartsAll E es
  | [] => by simp [MTree.graphs, GNode.GoodEdges, MTree.PartsAll]
  | (t, q, m) :: es => by
    rw [MTree.graphs, GNode.GoodEdges, MTree.PartsAll, MTree.graphs_good es, MTree.graph_good m]
    cases q <;> simp [AccAttrs, entries, and_assoc]
end

theorem refs_node {k : Nat} {y : Y} : refs E defs (k + 1) "signal_node" y = check E (refs E defs k) signalNode y := by
  simp [refs, defs]
theorem refs_edge {k : Nat} {y : Y} : refs E defs (k + 1) "signal_transform_edge" y = check E (refs E defs k) signalTransformEdge y := by
  simp [refs, defs]

theorem edges_length {es : List (Bool × List (String × Y) × GNode)} : (GNode.edges es).length = es.length := by
  induction es with
  | nil => rfl
  | cons e es ih => obtain ⟨d, a, g⟩ := e; simp [GNode.edges, ih]

theorem graphs_length {es : List (MTrans × Option MEquipment × MTree)} : (MTree.graphs es).length = es.length := by
  induction es with
  | nil => rfl
  | cons e es ih => obtain ⟨d, a, g⟩ := e; simp [MTree.graphs, ih]

theorem forall_edgesTree {es : List (Bool × List (String × Y) × GNode)} {P : Y → Prop} (h0 : P (.list none [])) :
    (∀ v, edgesTree es = some v → P v) ↔ P (.list none (GNode.edges es)) := by
  cases es <;> simp [edgesTree, GNode.edges, h0]

/-- the node of a signal -/
theorem signal_node_step {n : NodeName} {s : MSignal} {es : List (Bool × List (String × Y) × GNode)} :
    check E rf signalNode (GNode.mk n [("signal", s.tree)] es).tree = .ok ↔
      es.length ≤ 1 ∧ ∀ y ∈ GNode.edges es, rf "signal_transform_edge" y = .ok := by
  rw [node_tree]
  simp only [signalNode, ok_all_cons, ok_all_nil, and_true]
  rw [ok_prop_obj (by simp), ok_prop_obj (by simp), ok_required_obj (by simp)]
  simp only [field]
  simp only [String.reduceEq, reduceIte]
  rw [forall_edgesTree (P := fun v => check E rf (.all [.type .array, .items (.ref "signal_transform_edge"), .maxItems 1]) v = .ok) (by simp)]
  simp [field, tagTest, Pat.test, tag_obj, nonempty, ok_prop, Y.get, Dict.get?, edges_length, and_comm]

/-- the edge of a transformation -/
theorem signal_edge_step {t : MTrans} {q : Option MEquipment} {y : Y} :
    check E rf signalTransformEdge (edgeTree true (entries [("transformation", some t.tree), ("equipment", q.map MEquipment.tree)]) y) = .ok ↔
      rf "signal_node" y = .ok := by
  rw [edgeTree]
  simp only [signalTransformEdge, ok_all_cons, ok_all_nil, and_true]
  rw [ok_prop_obj (by simp), ok_prop_obj (by simp), ok_prop_obj (by simp), ok_required_obj (by simp)]
  cases q <;> simp [field, tagTest, Pat.test, tag_obj, nonempty, ok_prop, Y.get, Dict.get?, entries]

mutual
theorem signal_node : ∀ (m : MTree) (k : Nat), 2 * m.depth ≤ k → (refs E defs k "signal_node" m.graph.tree = .ok ↔ m.Linear)
  | .mk n s es, k, h => by
    obtain ⟨k, rfl⟩ : ∃ j, k = j + 2 := ⟨k - 2, by simp [MTree.depth] at h; omega⟩
    rw [refs_node, MTree.graph, signal_node_step, signal_edges es k (by simp [MTree.depth] at h; omega), graphs_length, MTree.Linear]
theorem signal_edges : ∀ (es : List (MTrans × Option MEquipment × MTree)) (k : Nat), 2 * MTree.depths es ≤ k →
    ((∀ y ∈ GNode.edges (MTree.graphs es), refs E defs (k + 1) "signal_transform_edge" y = .ok) ↔ MTree.LinearAll es)
  | [], k, _ => by simp [MTree.graphs, GNode.edges, MTree.LinearAll]
  | (t, q, m) :: es, k, h => by
    simp only [MTree.graphs, GNode.edges, List.forall_mem_cons, MTree.LinearAll, refs_edge, signal_edge_step]
    rw [signal_node m k (by simp [MTree.depths] at h; omega)]
    have := signal_edges es k (by simp [MTree.depths] at h; omega)
    simp only [refs_edge] at this
    rw [this]
end

/-- measurement chains that can be written: without branches -/
def MChain.Good (E : Env D) (c : MChain) : Prop := c.source.Good E ∧ (∀ q ∈ c.equipment, q.Good E) ∧ c.root.Linear ∧ c.root.Parts E

/-- the result for all large budgets -/
theorem valid_from {s : S} {y : Y} {P : Prop} (k₀ : Nat) (h : ∀ k, k₀ ≤ k → (check E (refs E defs k) s y = .ok ↔ P)) : Valid E defs s y ↔ P := by
  constructor
  · rintro ⟨k, hk⟩
    exact (h (max k k₀) (Nat.le_max_right ..)).1 (hk _ (Nat.le_max_left ..))
  · intro hp
    exact ⟨k₀, fun k hk => (h k hk).2 hp⟩

@[simp] theorem tag_chain {c : MChain} : c.tree.tag = some (wx "measurement/measurement_chain") := rfl

theorem root_get {g : GNode} : (graphTree g).get "root_node" = some g.tree := by
  rw [graphTree, obj_get (by simp)]; simp [field]

@[simp] theorem test_graph {g : GNode} : Ty.test .object (graphTree g) = true := rfl

@[simp] theorem MChain.acc {c : MChain} : Acc E c.tree ↔ c.Good E := by
  rw [MChain.tree, acc_obj_valid (s := measurementMeasurementChain) rfl,
    valid_from (P := c.root.Linear) (2 * c.root.depth) fun k hk => ?_]
  · simp [MChain.Good, MTree.graph_good]
    tauto
  · simp only [measurementMeasurementChain, ok_all_cons, ok_all_nil, and_true]
    rw [ok_prop_obj (by simp), ok_prop_obj (by simp), ok_prop_obj (by simp), ok_prop_obj (by simp), ok_required_obj (by simp)]
    have h1 := signal_node (E := E) c.root k hk
    simp only [List.forall_mem_cons, List.not_mem_nil, false_imp_iff, implies_true, and_true]
    simp [field, tagTest, Pat.test, ok_prop, root_get, h1]

/-- measurements that can be written -/
def Meas.Good (E : Env D) (m : Meas) : Prop := (∀ d ∈ m.data, d.Good E) ∧ ∀ c ∈ m.chain, c.Good E

@[simp] theorem Meas.acc {m : Meas} : Acc E m.tree ↔ m.Good E := by
  rw [Meas.tree, acc_obj (P := True) (s := measurementMeasurement) rfl fun rf => ?_]
  · simp [Meas.Good]
  · simp only [measurementMeasurement, ok_all_cons, ok_all_nil, and_true]
    rw [ok_prop_obj (by simp), ok_prop_obj (by simp), ok_prop_obj (by simp), ok_required_obj (by simp)]
    simp only [List.forall_mem_cons, List.not_mem_nil, false_imp_iff, implies_true, and_true]
    simp [field, tagTest, Pat.test]

/-! ### Hierarchies of coordinate systems -/

/-- data that can be written -/
def CData.Good (E : Env D) : CData → Prop
  | .array a => a.Good E
  | .spatial s => s.Good E

/-- is it an array? -/
def CData.isArray : CData → Bool
  | .array _ => true
  | .spatial _ => false

theorem CData.acc {d : CData} : Acc E d.tree ↔ d.Good E := by cases d <;> simp [CData.tree, CData.Good]

mutual
/-- at each system the data are either all arrays or all spatial data -/
def CTree.Uniform : CTree → Prop
  | .mk _ d es => (∃ b : Bool, ∀ p ∈ d, p.2.isArray = b) ∧ CTree.UniformAll es
/-- for the remaining systems -/
def CTree.UniformAll : List (Bool × Lcs × CTree) → Prop
  | [] => True
  | (_, _, c) :: es => c.Uniform ∧ CTree.UniformAll es
end

mutual
/-- the parts can be written -/
def CTree.Parts (E : Env D) : CTree → Prop
  | .mk _ d es => (∀ p ∈ d, p.2.Good E) ∧ CTree.PartsAll E es
/-- the remaining parts can be written -/
def CTree.PartsAll (E : Env D) : List (Bool × Lcs × CTree) → Prop
  | [] => True
  | (_, l, c) :: es => l.Good E ∧ c.Parts E ∧ CTree.PartsAll E es
end

mutual
/-- depth of the tree -/
def CTree.depth : CTree → Nat
  | .mk _ _ es => CTree.depths es + 1
/-- the largest depth -/
def CTree.depths : List (Bool × Lcs × CTree) → Nat
  | [] => 0
  | (_, _, c) :: es => max c.depth (CTree.depths es)
end

mutual
theorem CTree.graph_good : ∀ c : CTree, c.graph.Good E ↔ c.Parts E
  | .mk n d es => by
    rw [CTree.graph, GNode.Good, CTree.Parts, CTree.graphs_good es]
    simp [AccAttrs, NodeName.Good, CData.acc, -Prod.exists, -Prod.forall]
theorem CTree.graphs_good : ∀ es : List (Bool × Lcs × CTree), GNode.GoodEdges E (CTree.graphs es) ↔ CTree.PartsAll E es
  | [] => by simp [CTree.graphs, GNode.GoodEdges, CTree.PartsAll]
  | (t, q, m) :: es => by
    rw [CTree.graphs, GNode.GoodEdges, CTree.PartsAll, CTree.graphs_good es, CTree.graph_good m]
    simp [AccAttrs]
end

theorem refs_cs {k : Nat} {y : Y} : refs E defs (k + 1) "coordinate_system_node" y = check E (refs E defs k) coordinateSystemNode y := by
  simp [refs, defs]
theorem refs_ct {k : Nat} {y : Y} :
    refs E defs (k + 1) "coordinate_transformation_edge" y = check E (refs E defs k) coordinateTransformationEdge y := by
  simp [refs, defs]
theorem refs_sub {k : Nat} {y : Y} : refs E defs (k + 1) "subsystem_info" y = check E (refs E defs k) subsystemInfo y := by
  simp [refs, defs]

theorem data_uniform {d : List (String × CData)} : check E rf (.anyOf [.propTag [.any "core/data_array"],
    .propTag [.any "core/geometry/spatial_data"]]) (.map none (d.map fun p => (p.1, p.2.tree))) = .ok ↔ ∃ b : Bool, ∀ p ∈ d, p.2.isArray = b := by
  have h1 : ∀ c : CData, tagTest [.any "core/data_array"] c.tree = true ↔ c.isArray = true := by
    intro c; cases c <;> simp [CData.tree, CData.isArray, tagTest, Pat.test]
  have h2 : ∀ c : CData, tagTest [.any "core/geometry/spatial_data"] c.tree = true ↔ c.isArray = false := by
    intro c; cases c <;> simp [CData.tree, CData.isArray, tagTest, Pat.test]
  rw [ok_anyOf_two propTag_noCrash, ok_propTag, ok_propTag]
  simp only [List.forall_mem_map, h1, h2, Bool.exists_bool]
  exact or_comm

/-- the node of a coordinate system -/
theorem cs_node_step {n : String} {d : List (String × CData)} {es : List (Bool × List (String × Y) × GNode)} :
    check E rf coordinateSystemNode (GNode.mk (.text n) [("data", .map none (d.map fun p => (p.1, p.2.tree)))] es).tree = .ok ↔
      (∃ b : Bool, ∀ p ∈ d, p.2.isArray = b) ∧ ∀ y ∈ GNode.edges es, rf "coordinate_transformation_edge" y = .ok := by
  rw [node_tree]
  simp only [coordinateSystemNode, ok_all_cons, ok_all_nil, and_true]
  rw [ok_prop_obj (by simp), ok_prop_obj (by simp), ok_required_obj (by simp)]
  simp only [field]
  simp only [String.reduceEq, reduceIte]
  rw [forall_edgesTree (P := fun v => check E rf (.all [.type .array, .items (.ref "coordinate_transformation_edge")]) v = .ok) (by simp), ← data_uniform (E := E) (rf := rf)]
  simp [field, tagTest, Pat.test, tag_obj, nonempty, ok_prop, Y.get, Dict.get?, -Prod.exists, -Prod.forall]

/-- the edge of a transformation -/
theorem cs_edge_step {b : Bool} {l : Lcs} {y : Y} :
    check E rf coordinateTransformationEdge (edgeTree b [("transformation", l.tree), ("defined", .bool true)] y) = .ok ↔
      rf "coordinate_system_node" y = .ok := by
  rw [edgeTree]
  simp only [coordinateTransformationEdge, ok_all_cons, ok_all_nil, and_true]
  rw [ok_prop_obj (by simp), ok_prop_obj (by simp), ok_required_obj (by simp)]
  simp [field, tagTest, Pat.test, tag_obj, nonempty, ok_prop, Y.get, Dict.get?]

mutual
theorem cs_node : ∀ (c : CTree) (k : Nat), 2 * c.depth ≤ k → (refs E defs k "coordinate_system_node" c.graph.tree = .ok ↔ c.Uniform)
  | .mk n d es, k, h => by
    obtain ⟨k, rfl⟩ : ∃ j, k = j + 2 := ⟨k - 2, by simp [CTree.depth] at h; omega⟩
    rw [refs_cs, CTree.graph, cs_node_step, cs_edges es k (by simp [CTree.depth] at h; omega), CTree.Uniform]
theorem cs_edges : ∀ (es : List (Bool × Lcs × CTree)) (k : Nat), 2 * CTree.depths es ≤ k →
    ((∀ y ∈ GNode.edges (CTree.graphs es), refs E defs (k + 1) "coordinate_transformation_edge" y = .ok) ↔ CTree.UniformAll es)
  | [], k, _ => by simp [CTree.graphs, GNode.edges, CTree.UniformAll]
  | (t, q, m) :: es, k, h => by
    simp only [CTree.graphs, GNode.edges, List.forall_mem_cons, CTree.UniformAll, refs_ct, cs_edge_step]
    rw [cs_node m k (by simp [CTree.depths] at h; omega)]
    have := cs_edges es k (by simp [CTree.depths] at h; omega)
    simp only [refs_ct] at this
    rw [this]
end

mutual
/-- depth of the subsystems -/
def SubInfo.depth : SubInfo → Nat
  | .mk _ _ _ _ _ _ s => SubInfo.depths s + 1
/-- the largest depth -/
def SubInfo.depths : List SubInfo → Nat
  | [] => 0
  | s :: l => max s.depth (SubInfo.depths l)
end

mutual
theorem SubInfo.acc : ∀ s : SubInfo, Acc E s.tree
  | .mk n r c o m d s => by
    have := SubInfo.accs s
    rw [SubInfo.tree, acc_map]
    intro e he
    have he := mem_entries.1 he
    simp only [List.mem_cons, Prod.mk.injEq, Option.some.injEq, List.not_mem_nil, or_false] at he
    rcases he with ⟨_, h⟩ | ⟨_, h⟩ | ⟨_, h⟩ | ⟨_, h⟩ | ⟨_, h⟩ | ⟨_, h⟩ | ⟨_, h⟩
    · rw [h]; simp
    · cases r <;> simp at h; rw [h]; simp
    · rw [h]; simp
    · rw [h]; simp
    · rw [h, acc_list]; exact this
    · rw [h]; simp
    · rw [h]; simp
theorem SubInfo.accs : ∀ l : List SubInfo, ∀ y ∈ SubInfo.trees l, Acc E y
  | [] => by simp [SubInfo.trees]
  | s :: l => by
    simp only [SubInfo.trees, List.forall_mem_cons]
    exact ⟨SubInfo.acc s, SubInfo.accs l⟩
end

mutual
theorem sub_ok : ∀ (s : SubInfo) (k : Nat), s.depth ≤ k → check E (refs E defs k) (.all [.type .object, .prop "name" (.type .string),
    .prop "reference_time" (.tag (.any "time/timestamp")), .prop "common_node" (.type .string), .prop "root_node" (.type .string),
    .prop "members" (.all [.type .array, .items (.type .string)]), .prop "data" (.all [.type .array, .items (.type .string)]),
    .prop "subsystems" (.ref "subsystem_info")]) s.tree = .ok
  | .mk n r c o m d s, k, h => by
    have h1 := subs_ok s k (by simp [SubInfo.depth] at h; omega)
    have hg : ∀ x, (Y.map none (entries [("name", some (txt n)), ("reference_time", r.map Stamp.tree), ("common_node", some (txt c)),
      ("root_node", some (txt o)), ("subsystems", some (.list none (SubInfo.trees s))), ("members", some (txts m)), ("data", some (txts d))])).get x =
      field [("name", some (txt n)), ("reference_time", r.map Stamp.tree), ("common_node", some (txt c)),
      ("root_node", some (txt o)), ("subsystems", some (.list none (SubInfo.trees s))), ("members", some (txts m)), ("data", some (txts d))] x :=
      fun x => entries_get (by simp) x
    have ht : ∀ l : List String, ∀ y ∈ l.map txt, Ty.test .string y = true := by
      intro l y hy
      obtain ⟨x, -, rfl⟩ := List.mem_map.1 hy
      rfl
    rw [SubInfo.tree]
    simp only [ok_all_cons, ok_all_nil, and_true, ok_prop, hg]
    simp [field, tagTest, Pat.test, h1, txts, -List.mem_map]
    exact ⟨ht m, ht d⟩
theorem subs_ok : ∀ (l : List SubInfo) (k : Nat), SubInfo.depths l < k → refs E defs k "subsystem_info" (.list none (SubInfo.trees l)) = .ok
  | l, 0, h => by omega
  | l, k + 1, h => by
    rw [refs_sub, subsystemInfo]
    rw [ok_all_cons, ok_all_cons, ok_items]
    exact ⟨by simp, subs_items l k (by omega), ok_all_nil⟩
theorem subs_items : ∀ (l : List SubInfo) (k : Nat), SubInfo.depths l ≤ k → ∀ y ∈ SubInfo.trees l, check E (refs E defs k)
    (.all [.type .object, .prop "name" (.type .string),
    .prop "reference_time" (.tag (.any "time/timestamp")), .prop "common_node" (.type .string), .prop "root_node" (.type .string),
    .prop "members" (.all [.type .array, .items (.type .string)]), .prop "data" (.all [.type .array, .items (.type .string)]),
    .prop "subsystems" (.ref "subsystem_info")]) y = .ok
  | [], _, _ => by simp [SubInfo.trees]
  | s :: l, k, h => by
    simp only [SubInfo.trees, List.forall_mem_cons]
    exact ⟨sub_ok s k (by simp [SubInfo.depths] at h; omega), subs_items l k (by simp [SubInfo.depths] at h; omega)⟩
end

/-- hierarchies that can be written -/
def Csm.Good (E : Env D) (c : Csm) : Prop := c.root.Uniform ∧ c.root.Parts E

@[simp] theorem Csm.acc {c : Csm} : Acc E c.tree ↔ c.Good E := by
  rw [Csm.tree, acc_obj_valid (s := coreTransformationsCoordinateSystemHierarchy) rfl,
    valid_from (P := c.root.Uniform) (max (2 * c.root.depth) (SubInfo.depths c.subs + 1)) fun k hk => ?_]
  · have := SubInfo.accs (E := E) c.subs
    simp [Csm.Good, CTree.graph_good]
    intro _ _
    exact this
  · have h1 := cs_node (E := E) c.root k (by omega)
    have h2 := subs_ok (E := E) c.subs k (by omega)
    simp only [coreTransformationsCoordinateSystemHierarchy, ok_all_cons, ok_all_nil, and_true]
    rw [ok_prop_obj (by simp), ok_prop_obj (by simp), ok_prop_obj (by simp), ok_prop_obj (by simp), ok_required_obj (by simp)]
    simp only [List.forall_mem_cons, List.not_mem_nil, false_imp_iff, implies_true, and_true]
    simp [field, tagTest, Pat.test, ok_prop, root_get, h1, h2]

end Weldx.Schema
