import Verif.Schema.Graphs

/-!
# Grooves, processes and AWS classes in the schemas (C91)
-/

set_option linter.unusedSimpArgs false
set_option linter.unusedSectionVars false

namespace Weldx.Schema
variable {D : Type} [DecidableEq D] {E : Env D} {rf : String → Y → R}

/-! ### Grooves -/

/-- the unit of an attribute in the schemas -/
def attrUnit (a : String) : String :=
  if a ∈ ["alpha", "beta", "alpha_1", "alpha_2", "beta_1", "beta_2"] then "deg" else "mm"

/-- the attributes that the schemas require -/
def GrooveKind.required : GrooveKind → List String
  | .I => ["t", "b"]
  | .V => ["t", "alpha", "b", "c"]
  | .VV => ["t", "alpha", "beta", "b", "c", "h"]
  | .UV => ["t", "alpha", "beta", "R", "b", "h"]
  | .U => ["t", "beta", "R", "b", "c"]
  | .HV => ["t", "beta", "b", "c"]
  | .HU => ["t", "beta", "R", "b", "c"]
  | .DV => ["t", "alpha_1", "alpha_2", "b", "c"]
  | .DU => ["t", "beta_1", "beta_2", "R", "R2", "b", "c"]
  | .DHV => ["t", "beta_1", "beta_2", "b", "c"]
  | .DHU => ["t", "beta_1", "beta_2", "b", "c"]
  | .FF => ["t_1"]

/-- the check of an attribute -/
def grvProp (a : String) : S := .prop a (.all [.tag (.any "units/quantity"), .unit (attrUnit a)])

/-- the order of the properties in the files -/
def GrooveKind.props : GrooveKind → List String
  | .I => ["t", "b"]
  | .V => ["t", "alpha", "b", "c"]
  | .VV => ["t", "alpha", "beta", "b", "c", "h"]
  | .UV => ["t", "alpha", "beta", "R", "b", "h"]
  | .U => ["t", "beta", "R", "b", "c"]
  | .HV => ["t", "beta", "b", "c"]
  | .HU => ["t", "beta", "R", "b", "c"]
  | .DV => ["t", "alpha_1", "alpha_2", "b", "c", "h1", "h2"]
  | .DU => ["t", "beta_1", "beta_2", "R", "R2", "b", "c", "h1", "h2"]
  | .DHV => ["t", "beta_1", "beta_2", "b", "c", "h1", "h2"]
  | .DHU => ["t", "beta_1", "beta_2", "R", "R2", "b", "c", "h1", "h2"]
  | .FF => ["t_1", "t_2", "alpha", "b", "e"]

/-- the schema of a kind of grooves -/
def GrooveKind.schema (k : GrooveKind) : S := .all (.type .object :: k.props.map grvProp ++ [.required k.required])

theorem groove_schema (k : GrooveKind) : schemaOf (wx ("groove/iso_9692_1_2013_12/" ++ k.text)) = some k.schema := by
  cases k <;> rfl

/-- grooves that can be written: the required attributes are given, lengths are lengths and angles are angles -/
def Grv.Good (E : Env D) (g : Grv) : Prop := (∀ a ∈ g.kind.required, (g.attr a).isSome = true) ∧
  ∀ a ∈ g.kind.names, ∀ q ∈ g.attr a, q.mag.Real ∧ SameDim E q.units (attrUnit a)

theorem props_perm (k : GrooveKind) : ∀ a, a ∈ k.props ↔ a ∈ k.names := by
  intro a; cases k <;> simp [GrooveKind.props, GrooveKind.names] <;> tauto

theorem names_nodup (k : GrooveKind) : (k.names ++ ["code_number"]).Nodup := by
  cases k <;> simp [GrooveKind.names]

theorem attrs_nodup (k : GrooveKind) (f : String → Option Y) (o : Option Y) :
    ((k.names.map (fun a => (a, f a)) ++ [("code_number", o)]).map Prod.fst).Nodup := by
  have := names_nodup k
  simpa [Function.comp_def] using this

theorem required_names (k : GrooveKind) : ∀ a ∈ k.required, a ∈ k.names := by
  cases k <;> simp [GrooveKind.names, GrooveKind.required]

theorem field_attrs {l : List String} {f : String → Option Y} {m : List (String × Option Y)} {a : String} (h : a ∈ l) :
    field (l.map (fun a => (a, f a)) ++ m) a = f a := by
  induction l with
  | nil => simp at h
  | cons b t ih =>
    by_cases hb : b = a
    · simp [field, hb]
    · simp only [List.map_cons, List.cons_append, field, hb, if_false]
      exact ih (by simpa [Ne.symm hb] using h)

theorem Grv.check_iff {g : Grv} : check E rf g.kind.schema g.tree = .ok ↔ (∀ a ∈ g.kind.required, (g.attr a).isSome = true) ∧
    ∀ a ∈ g.kind.names, ∀ q ∈ g.attr a, SameDim E q.units (attrUnit a) := by
  have hn := fun o : Option Y => attrs_nodup g.kind (fun a => (g.attr a).map Qty.tree) o
  rw [GrooveKind.schema, ok_all, Grv.tree]
  simp only [List.mem_cons, List.mem_append, List.mem_map, List.not_mem_nil, or_false]
  constructor
  · intro h
    refine ⟨fun a ha => ?_, fun a ha q hq => ?_⟩
    · have h1 := h (.required g.kind.required) (by simp)
      rw [ok_required_obj (hn _)] at h1
      have h1 := h1 a ha
      rw [field_attrs (required_names _ a ha)] at h1
      simpa using h1
    · have h1 := h (grvProp a) (.inl (.inr ⟨a, (props_perm _ a).2 ha, rfl⟩))
      rw [grvProp, ok_prop_obj (hn _), field_attrs ha] at h1
      have h1 := h1 q.tree (by rw [Option.mem_def.1 hq]; rfl)
      simp only [ok_all_cons, ok_unit, Qty.unit_iff] at h1
      exact h1.2.1
  · rintro ⟨h1, h2⟩ s ((rfl | ⟨a, ha, rfl⟩) | rfl)
    · rfl
    · have ha := (props_perm _ a).1 ha
      rw [grvProp, ok_prop_obj (hn _), field_attrs ha]
      intro v hv
      obtain ⟨q, hq, rfl⟩ := Option.map_eq_some_iff.1 hv
      simp only [ok_all_cons, ok_all_nil, ok_unit, Qty.unit_iff, ok_tag]
      exact ⟨by simp [tagTest, Pat.test], h2 a ha q hq, trivial⟩
    · rw [ok_required_obj (hn _)]
      intro a ha
      rw [field_attrs (required_names _ a ha)]
      simpa using h1 a ha

@[simp] theorem Grv.acc {g : Grv} : Acc E g.tree ↔ g.Good E := by
  have h : ∀ rf : String → Y → R, check E rf g.kind.schema g.tree = .ok ↔ _ := fun rf => Grv.check_iff
  rw [Grv.tree] at h ⊢
  rw [acc_obj (s := g.kind.schema) (groove_schema _) h]
  simp only [List.mem_append, List.mem_map, List.mem_singleton]
  constructor
  · rintro ⟨⟨h1, h2⟩, h3⟩
    refine ⟨h1, fun a ha q hq => ⟨?_, h2 a ha q hq⟩⟩
    have := h3 (a, (g.attr a).map Qty.tree) (.inl ⟨a, ha, rfl⟩) q.tree (by simp [Option.mem_def.1 hq])
    simpa using this
  · rintro ⟨h1, h2⟩
    refine ⟨⟨h1, fun a ha q hq => (h2 a ha q hq).2⟩, ?_⟩
    rintro e (⟨a, ha, rfl⟩ | rfl) y hy
    · obtain ⟨q, hq, rfl⟩ := Option.map_eq_some_iff.1 hy
      simpa using (h2 a ha q hq).1
    · obtain ⟨c, -, rfl⟩ := Option.map_eq_some_iff.1 hy
      cases c <;> simp

/-! ### AWS classes: processes -/

/-- the gases of the schema -/
def gases : List String := ["argon", "carbon dioxide", "helium", "hydrogen", "oxygen"]

/-- a component that can be written -/
def Gas.Good (E : Env D) (g : Gas) : Prop := g.name ∈ gases ∧ SameDim E g.percentage.units "percent" ∧ g.percentage.mag.Real

theorem Gas.check_iff {g : Gas} : check E rf awsProcessGasComponent g.tree = .ok ↔ g.name ∈ gases ∧ SameDim E g.percentage.units "percent" := by
  rw [Gas.tree]
  simp only [awsProcessGasComponent, ok_all_cons, ok_all_nil, and_true]
  rw [ok_prop_obj (by simp), ok_prop_obj (by simp), ok_required_obj (by simp)]
  simp [field, tagTest, Pat.test, gases, Qty.unit_iff]

@[simp] theorem Gas.acc {g : Gas} : Acc E g.tree ↔ g.Good E := by
  have h : ∀ rf : String → Y → R, check E rf awsProcessGasComponent g.tree = .ok ↔ _ := fun rf => Gas.check_iff
  rw [Gas.tree] at h ⊢
  rw [acc_obj (s := awsProcessGasComponent) rfl h]
  simp [Gas.Good, and_assoc]

/-- a type of gas that can be written -/
def GasType.Good (E : Env D) (g : GasType) : Prop := ∀ c ∈ g.components, c.Good E

theorem GasType.check_iff {g : GasType} : check E rf awsProcessShieldingGasType g.tree = .ok ↔
    ∀ c ∈ g.components, c.name ∈ gases ∧ SameDim E c.percentage.units "percent" := by
  rw [GasType.tree]
  simp only [awsProcessShieldingGasType, ok_all_cons, ok_all_nil, and_true]
  rw [ok_prop_obj (by simp), ok_prop_obj (by simp), ok_prop_obj (by simp), ok_required_obj (by simp)]
  simp [field, tagTest, Pat.test, Gas.check_iff]

@[simp] theorem GasType.acc {g : GasType} : Acc E g.tree ↔ g.Good E := by
  have h : ∀ rf : String → Y → R, check E rf awsProcessShieldingGasType g.tree = .ok ↔ _ := fun rf => GasType.check_iff
  rw [GasType.tree] at h ⊢
  rw [acc_obj (s := awsProcessShieldingGasType) rfl h]
  simp [GasType.Good, Gas.Good]
  intro h c hc
  exact ⟨(h c hc).1, (h c hc).2.1⟩

/-- gases of a procedure that can be written -/
def GasProc.Good (E : Env D) (g : GasProc) : Prop := g.torch.Good E ∧ g.torchFlow.mag.Real ∧ (∀ b ∈ g.backing, b.Good E) ∧
  (∀ q ∈ g.backingFlow, q.mag.Real) ∧ (∀ b ∈ g.trailing, b.Good E) ∧ ∀ q ∈ g.trailingFlow, q.mag.Real

theorem GasProc.check_iff {g : GasProc} : check E rf awsProcessShieldingGasForProcedure g.tree = .ok ↔
    check E rf awsProcessShieldingGasType g.torch.tree = .ok ∧ (∀ b ∈ g.backing, check E rf awsProcessShieldingGasType b.tree = .ok) ∧
      ∀ b ∈ g.trailing, check E rf awsProcessShieldingGasType b.tree = .ok := by
  rw [GasProc.tree]
  simp only [awsProcessShieldingGasForProcedure, ok_all_cons, ok_all_nil, and_true]
  rw [ok_prop_obj (by simp), ok_prop_obj (by simp), ok_prop_obj (by simp), ok_prop_obj (by simp), ok_prop_obj (by simp),
    ok_prop_obj (by simp), ok_prop_obj (by simp), ok_prop_obj (by simp), ok_prop_obj (by simp), ok_required_obj (by simp)]
  simp only [List.forall_mem_cons, List.not_mem_nil, false_imp_iff, implies_true, and_true]
  have hb : ∀ o : Option Bool, ∀ v, o.map Y.bool = some v → check E rf (.type .boolean) v = .ok := by
    intro o v hv; cases o <;> simp at hv; subst hv; simp
  simp [field, tagTest, Pat.test, -ok_type, hb]
  simp
  intro _
  constructor
  · tauto
  · rintro ⟨h1, h2⟩
    refine ⟨?_, h1, ?_, h2⟩ <;> rintro v (⟨-, rfl⟩ | ⟨-, rfl⟩) <;> rfl

@[simp] theorem GasProc.acc {g : GasProc} : Acc E g.tree ↔ g.Good E := by
  have h : ∀ rf : String → Y → R, check E rf awsProcessShieldingGasForProcedure g.tree = .ok ↔ _ := fun rf => GasProc.check_iff
  simp only [GasType.check_iff] at h
  rw [GasProc.tree] at h ⊢
  rw [acc_obj (s := awsProcessShieldingGasForProcedure) rfl h]
  have hb : ∀ o : Option Bool, ∀ y ∈ o.map Y.bool, Acc E y := by
    intro o y hy; cases o <;> simp at hy; subst hy; simp
  have hl : ∀ b : GasType, b.Good E → ∀ c ∈ b.components, c.name ∈ gases ∧ SameDim E c.percentage.units "percent" :=
    fun b hb c hc => ⟨(hb c hc).1, (hb c hc).2.1⟩
  simp only [List.forall_mem_cons, hb, true_and]
  simp [GasProc.Good]
  constructor
  · rintro ⟨-, h⟩; tauto
  · intro h
    refine ⟨⟨hl _ h.1, fun b hb => hl b (h.2.2.1 b hb), fun b hb => hl b (h.2.2.2.2.1 b hb)⟩, ?_⟩
    refine ⟨h.1, h.2.1, ?_, h.2.2.1, h.2.2.2.1, ?_, h.2.2.2.2⟩ <;> rintro y (⟨-, rfl⟩ | ⟨-, rfl⟩) <;> simp

/-- the names of the schema -/
def arcNames : List String := ["atomicHydrogenWelding", "bareMetalArcWelding", "carbonArcWelding",
    "carbonArcWeldingGas", "carbonArcWeldingShielded", "electrogasWelding", "electroSlagWelding", "gasMetalArcWelding",
    "gasTungstenArcWelding", "plasmaArcWelding", "shieldedMetalArcWelding", "studArcWelding", "submergedArcWelding",
    "submergedArcWeldingSeries"]

/-- the abbreviations of the schema -/
def arcAbbreviations : List String := ["AHW", "BMAW", "CAW", "CAW-G", "CAW-S", "EGW",
    "ESW", "GMAW", "GTAW", "PAW", "SMAW", "SW", "SAW", "SAW-S"]

@[simp] theorem arc_acc {n a : String} : Acc E (arcTree n a) ↔ n ∈ arcNames ∧ a ∈ arcAbbreviations := by
  rw [arcTree, acc_obj (P := n ∈ arcNames ∧ a ∈ arcAbbreviations) (s := awsProcessArcWeldingProcess) rfl fun rf => ?_]
  · simp
  · simp only [awsProcessArcWeldingProcess, ok_all_cons, ok_all_nil, and_true]
    rw [ok_prop_obj (by simp), ok_prop_obj (by simp), ok_required_obj (by simp)]
    simp only [List.forall_mem_cons, List.not_mem_nil, false_imp_iff, implies_true, and_true]
    simp [field, arcNames, arcAbbreviations]

/-! ### AWS classes: design -/

/-- a base metal that can be written -/
def Metal.Good (m : Metal) : Prop := m.thickness.mag.Real ∧ ∀ d ∈ m.diameter, d.Real

/-- a penetration that can be written -/
def Penetration.Local (p : Penetration) : Prop := (p.complete = "completePenetration" ∨ p.complete = "partialPenetration") ∧
  (∀ n ∈ p.grooveSize, n.Real) ∧ (∀ n ∈ p.incomplete, n.Real) ∧ (∀ n ∈ p.size, n.Real) ∧ (∀ n ∈ p.sizeE1, n.Real) ∧
  (∀ n ∈ p.sizeE2, n.Real) ∧ ∀ n ∈ p.depth, n.Real

/-- a penetration that can be written -/
def Penetration.Good (p : Penetration) : Prop := p.Local ∧ p.root.mag.Real

theorem Num.test_iff {n : Num} : Ty.test .number n.tree = true ↔ n.Real := by
  cases n <;> simp [Num.Real, Num.tree, Ty.test]

theorem Penetration.check_iff {p : Penetration} : check E rf awsDesignJointPenetration p.tree = .ok ↔ p.Local := by
  rw [Penetration.tree]
  simp only [awsDesignJointPenetration, ok_all_cons, ok_all_nil, and_true]
  rw [ok_prop_obj (by simp), ok_prop_obj (by simp), ok_prop_obj (by simp), ok_prop_obj (by simp), ok_prop_obj (by simp),
    ok_prop_obj (by simp), ok_prop_obj (by simp), ok_prop_obj (by simp), ok_required_obj (by simp)]
  simp only [List.forall_mem_cons, List.not_mem_nil, false_imp_iff, implies_true, and_true]
  simp [field, tagTest, Pat.test, Num.test_iff, Penetration.Local]

@[simp] theorem Penetration.acc {p : Penetration} : Acc E p.tree ↔ p.Good := by
  have h : ∀ rf : String → Y → R, check E rf awsDesignJointPenetration p.tree = .ok ↔ _ := fun rf => Penetration.check_iff
  rw [Penetration.tree] at h ⊢
  rw [acc_obj (s := awsDesignJointPenetration) rfl h]
  simp [Penetration.Good]

/-- details that can be written: the design has to be a groove -/
def Details.Good (E : Env D) (d : Details) : Prop := match d.design with
  | .text _ => False
  | .groove g => g.Good E ∧ d.sizes.mag.Real

/-- is the design a groove? -/
def Design.isGroove : Design → Prop
  | .text _ => False
  | .groove _ => True

theorem groove_tag {g : Grv} : tagTest [.groove] g.tree = true := by
  rw [Grv.tree]; cases g.kind <;> rfl

theorem Details.check_iff {d : Details} : check E rf awsDesignWeldDetails d.tree = .ok ↔ d.design.isGroove := by
  rw [Details.tree]
  simp only [awsDesignWeldDetails, ok_all_cons, ok_all_nil, and_true]
  rw [ok_prop_obj (by simp), ok_prop_obj (by simp), ok_prop_obj (by simp), ok_required_obj (by simp)]
  simp only [List.forall_mem_cons, List.not_mem_nil, false_imp_iff, implies_true, and_true]
  cases hd : d.design with
  | text s => simp [field, tagTest, Pat.test, Design.tree, Design.isGroove, Y.tag]
  | groove g =>
    have := groove_tag (g := g)
    simp [field, Design.tree, Design.isGroove, this]
    simp [tagTest, Pat.test]

@[simp] theorem Details.acc {d : Details} : Acc E d.tree ↔ d.Good E := by
  have h : ∀ rf : String → Y → R, check E rf awsDesignWeldDetails d.tree = .ok ↔ _ := fun rf => Details.check_iff
  rw [Details.tree] at h ⊢
  rw [acc_obj (s := awsDesignWeldDetails) rfl h]
  cases hd : d.design <;> simp [Details.Good, hd, Design.isGroove, Design.tree]

/-- the types of joints of the schema -/
def joints : List String := ["butt_joint", "corner_joint", "t_joint", "lap_joint",
    "edge_joint", "flanged_butt_joint", "flanged_corner_joint", "flanged_t_joint", "flanged_lap_joint", "flanged_edge_joint"]

/-- the types of welds of the schema -/
def welds : List String := ["groove", "fillet", "plug", "slot", "spot", "seam", "flange", "stud", "surfacing",
    "upset", "flash", "bevelGroove", "flareBevelGroove", "doubleBevelGroove", "jGroove", "singleJGroove", "uGroove", "singleUGroove",
    "doubleUGroove", "vGroove", "flareVGroove", "singleVGroove", "doubleVGroove", "squareGroove", "edgeFlange", "braze"]

/-- a connection that can be written -/
def Conn.Good (E : Env D) (c : Conn) : Prop := c.joint ∈ joints ∧ c.weld ∈ welds ∧ c.penetration.Good ∧ c.details.Good E

theorem Conn.check_iff {c : Conn} : check E rf awsDesignConnection c.tree = .ok ↔ c.joint ∈ joints ∧ c.weld ∈ welds ∧
    c.penetration.Local ∧ c.details.design.isGroove := by
  rw [Conn.tree]
  simp only [awsDesignConnection, ok_all_cons, ok_all_nil, and_true]
  rw [ok_prop_obj (by simp), ok_prop_obj (by simp), ok_prop_obj (by simp), ok_prop_obj (by simp), ok_required_obj (by simp)]
  simp only [List.forall_mem_cons, List.not_mem_nil, false_imp_iff, implies_true, and_true]
  simp [field, Penetration.check_iff, Details.check_iff, joints, welds]

@[simp] theorem Conn.acc {c : Conn} : Acc E c.tree ↔ c.Good E := by
  have h : ∀ rf : String → Y → R, check E rf awsDesignConnection c.tree = .ok ↔ _ := fun rf => Conn.check_iff
  rw [Conn.tree] at h ⊢
  rw [acc_obj (s := awsDesignConnection) rfl h]
  simp [Conn.Good, Penetration.Good]
  have : c.details.Good E → c.details.design.isGroove := by
    unfold Details.Good; cases c.details.design <;> simp [Design.isGroove]
  tauto

theorem workpiece_check {g : String} : check E rf awsDesignWorkpiece (workpieceTree g) = .ok := by
  rw [workpieceTree]
  simp [awsDesignWorkpiece, ok_prop_obj, ok_required_obj, field]

@[simp] theorem workpiece_acc {g : String} : Acc E (workpieceTree g) := by
  refine (acc_obj (P := True) (s := awsDesignWorkpiece) rfl fun rf => ?_).2 ⟨trivial, by simp⟩
  simpa [workpieceTree] using workpiece_check

theorem Assembly.check_iff {a : Assembly} : check E rf awsDesignSubAssembly a.tree = .ok ↔ check E rf awsDesignConnection a.connection.tree = .ok := by
  rw [Assembly.tree]
  simp only [awsDesignSubAssembly, ok_all_cons, ok_all_nil, and_true]
  rw [ok_prop_obj (by simp), ok_prop_obj (by simp), ok_required_obj (by simp)]
  simp only [List.forall_mem_cons, List.not_mem_nil, false_imp_iff, implies_true, and_true]
  simp [field, workpiece_check]

@[simp] theorem Assembly.acc {a : Assembly} : Acc E a.tree ↔ a.connection.Good E := by
  have h : ∀ rf : String → Y → R, check E rf awsDesignSubAssembly a.tree = .ok ↔ _ := fun rf => Assembly.check_iff.trans Conn.check_iff
  rw [Assembly.tree] at h ⊢
  rw [acc_obj (s := awsDesignSubAssembly) rfl h]
  simp [Conn.Good, Penetration.Good]
  have : a.connection.details.Good E → a.connection.details.design.isGroove := by
    unfold Details.Good; cases a.connection.details.design <;> simp [Design.isGroove]
  tauto

@[simp] theorem weldment_acc {l : List Assembly} : Acc E (weldmentTree l) ↔ ∀ a ∈ l, a.connection.Good E := by
  rw [weldmentTree, acc_obj (P := ∀ a ∈ l, a.connection.joint ∈ joints ∧ a.connection.weld ∈ welds ∧
    a.connection.penetration.Local ∧ a.connection.details.design.isGroove) (s := awsDesignWeldment) rfl fun rf => ?_]
  · simp [Conn.Good, Penetration.Good]
    intro h a ha
    have := h a ha
    have hg : a.connection.details.Good E → a.connection.details.design.isGroove := by
      unfold Details.Good; cases a.connection.details.design <;> simp [Design.isGroove]
    tauto
  · simp only [awsDesignWeldment, ok_all_cons, ok_all_nil, and_true]
    rw [ok_prop_obj (by simp), ok_required_obj (by simp)]
    simp only [List.forall_mem_cons, List.not_mem_nil, false_imp_iff, implies_true, and_true]
    simp [field, Assembly.check_iff, Conn.check_iff]

set_option maxHeartbeats 1000000 in
@[simp] theorem Metal.acc {m : Metal} : Acc E m.tree ↔ m.Good := by
  rw [Metal.tree, acc_obj (P := ∀ d ∈ m.diameter, d.Real) (s := awsDesignBaseMetal) rfl fun rf => ?_]
  · simp [Metal.Good, and_comm]
  · simp only [awsDesignBaseMetal, ok_all_cons, ok_all_nil, and_true]
    simp only [ok_prop_obj (t := wx "aws/design/base_metal") (E := E) (rf := rf) (fs := [("common_name", some (txt m.name)), ("product_form", some (txt m.form)),
  ("thickness", some m.thickness.tree), ("m_number", m.mNumber.map txt), ("group_number", m.groupNumber.map txt),
  ("diameter", m.diameter.map Num.tree), ("specification_number", m.specNumber.map txt), ("specification_version", m.specVersion.map txt),
  ("specification_organization", m.specOrganization.map txt), ("UNS_number", m.uns.map txt), ("CAS_number", m.cas.map txt),
  ("heat_lot_identification", m.heat.map txt), ("composition", m.composition.map txt), ("manufacturing_history", m.manufacturing.map txt),
  ("service_history", m.service.map txt), ("applied_coating_specification", m.coating.map txt)]) (by simp)]
    rw [ok_required_obj (by simp)]
    simp only [List.forall_mem_cons, List.not_mem_nil, false_imp_iff, implies_true, and_true]
    simp [field, tagTest, Pat.test, Num.test_iff]

/-! ### Processes -/

theorem get_params {l : List (String × Series)} {k : String} :
    Dict.get? (l.map fun q => (q.1, q.2.tree)) k = (Dict.get? l k).map Series.tree := by
  induction l with
  | nil => rfl
  | cons a t ih =>
    simp only [List.map_cons, Dict.get?]
    split
    · rfl
    · exact ih

/-- a parameter is given with the dimension of a unit -/
def Gmaw.Has (E : Env D) (p : Gmaw) (k u : String) : Prop := ∃ s, Dict.get? p.params k = some s ∧ SameDim E s.units u

/-- what is common to all processes -/
def Gmaw.Parts (E : Env D) (p : Gmaw) : Prop := (∀ q ∈ p.params, q.2.Good E) ∧ ∀ m ∈ p.info, AccAttrs E m

theorem Gmaw.base_ok {p : Gmaw} : check E rf processGMAW p.tree = .ok := by
  rw [Gmaw.tree]
  simp only [processGMAW, ok_all_cons, ok_all_nil, and_true]
  rw [ok_prop_obj (by simp), ok_prop_obj (by simp), ok_prop_obj (by simp), ok_prop_obj (by simp), ok_prop_obj (by simp),
    ok_required_obj (by simp)]
  simp only [List.forall_mem_cons, List.not_mem_nil, false_imp_iff, implies_true, and_true]
  simp [field, tagTest, Pat.test, -Prod.exists, -Prod.forall]

theorem Gmaw.parts_iff {p : Gmaw} : (∀ e ∈ [("base_process", some (txt p.baseProcess)),
    ("manufacturer", some (txt p.manufacturer)), ("power_source", some (txt p.powerSource)),
    ("parameters", some (.map none (p.params.map fun q => (q.1, q.2.tree)))), ("tag", some (txt p.tag)), ("meta", p.info.map (.map none))],
    ∀ y ∈ e.2, Acc E y) ↔ p.Parts E := by
  simp [Gmaw.Parts, AccAttrs, -Prod.exists, -Prod.forall]

/-- A process with the tag `GMAW` can be written iff its parameters and the further information can be written. -/
theorem Gmaw.acc_gmaw {p : Gmaw} (h : p.tag = "GMAW") : Acc E p.tree ↔ p.Parts E := by
  have hb : ∀ rf : String → Y → R, check E rf processGMAW p.tree = .ok ↔ True := fun rf => by simp [Gmaw.base_ok]
  rw [Gmaw.tree] at hb ⊢
  rw [acc_obj (s := processGMAW) (by rw [h]; rfl) hb, Gmaw.parts_iff]
  simp

theorem param_iff {l : List (String × Series)} {k u : String} : check E rf (.prop k (.all [.tag (.any "core/time_series"), .unit u]))
    (.map none (l.map fun q => (q.1, q.2.tree))) = .ok ↔ ∀ s, Dict.get? l k = some s → SameDim E s.units u := by
  rw [ok_prop_map, get_params]
  constructor
  · intro h s hs
    have := h s.tree (by rw [hs]; rfl)
    simp only [ok_all_cons, ok_unit, Series.unit_iff] at this
    exact this.2.1
  · intro h v hv
    obtain ⟨s, hs, rfl⟩ := Option.map_eq_some_iff.1 hv
    simp only [ok_all_cons, ok_all_nil, ok_unit, Series.unit_iff, ok_tag]
    exact ⟨by simp [tagTest, Pat.test], h s hs, trivial⟩

theorem required_iff {l : List (String × Series)} {ks : List String} : check E rf (.required ks)
    (.map none (l.map fun q => (q.1, q.2.tree))) = .ok ↔ ∀ k ∈ ks, (Dict.get? l k).isSome = true := by
  rw [ok_required]
  simp only [get_params, Option.isSome_map]

theorem Gmaw.has_iff {p : Gmaw} {k u : String} : p.Has E k u ↔ (Dict.get? p.params k).isSome = true ∧ ∀ s, Dict.get? p.params k = some s → SameDim E s.units u := by
  unfold Gmaw.Has
  cases Dict.get? p.params k <;> simp

theorem Gmaw.get_base {p : Gmaw} : p.tree.get "base_process" = some (txt p.baseProcess) := by
  rw [Gmaw.tree, obj_get (by simp)]; simp [field]
theorem Gmaw.get_params {p : Gmaw} : p.tree.get "parameters" = some (.map none (p.params.map fun q => (q.1, q.2.tree))) := by
  rw [Gmaw.tree, obj_get (by simp)]; simp [field]
theorem Gmaw.get_meta {p : Gmaw} : p.tree.get "meta" = p.info.map (.map none) := by
  rw [Gmaw.tree, obj_get (by simp)]; simp [field]
theorem Gmaw.object {p : Gmaw} : Ty.test .object p.tree = true := rfl

/-- A process with the tag `CLOOS/spray_arc` needs a base process and four parameters. -/
theorem Gmaw.acc_spray {p : Gmaw} (h : p.tag = "CLOOS/spray_arc") : Acc E p.tree ↔ p.Parts E ∧ p.baseProcess = "spray" ∧
    p.Has E "wire_feedrate" "m/s" ∧ p.Has E "voltage" "V" ∧ p.Has E "impedance" "percent" ∧ p.Has E "characteristic" "V/A" := by
  have hb : ∀ rf : String → Y → R, check E rf processCLOOSSprayArc p.tree = .ok ↔ p.baseProcess = "spray" ∧
      p.Has E "wire_feedrate" "m/s" ∧ p.Has E "voltage" "V" ∧ p.Has E "impedance" "percent" ∧ p.Has E "characteristic" "V/A" := by
    intro rf
    have := Gmaw.base_ok (E := E) (rf := rf) (p := p)
    unfold processGMAW at this
    unfold processCLOOSSprayArc
    rw [ok_all_cons, ok_all_cons, and_iff_right this]
    simp only [ok_all_cons, ok_all_nil, and_true]
    rw [ok_prop (k := "base_process"), ok_prop (k := "parameters"), ok_prop (k := "parameters")]
    simp only [Gmaw.get_base, Gmaw.get_params, Option.some.injEq, forall_eq', ok_all_cons, ok_all_nil, and_true, param_iff, required_iff,
      Gmaw.has_iff, ok_type, Gmaw.object, true_and, test_map]
    simp [Ty.test]
    tauto
  rw [Gmaw.tree] at hb ⊢
  rw [acc_obj (s := processCLOOSSprayArc) (by rw [h]; rfl) hb, Gmaw.parts_iff]
  tauto

/-- the parameters of a pulsed process -/
def Gmaw.Pulse (E : Env D) (p : Gmaw) (k u mod : String) : Prop := p.Has E "wire_feedrate" "m/s" ∧ p.Has E k u ∧
  p.Has E "pulse_duration" "s" ∧ p.Has E "pulse_frequency" "Hz" ∧ p.Has E "base_current" "A" ∧
  ∀ m ∈ p.info, ∃ t, Dict.get? m "modulation" = some (.str t mod)

theorem Series.units_eq {s : Series} : s.tree.units E = match E.parse s.units with
    | some d => .some d
    | none => .crash := by
  cases s <;> (simp only [Series.tree, obj, Y.units, Y.baseUnits]; rw [entries_get (by simp)]; simp [field, unitTree, Y.text, Series.units]; rfl)

theorem Series.unit_noCrash {s : Series} {u : String} (h : (E.parse s.units).isSome = true) (hu : (E.parse u).isSome = true) :
    unitR E u s.tree ≠ .crash := by
  unfold unitR
  rw [Series.units_eq]
  obtain ⟨d, hd⟩ := Option.isSome_iff_exists.1 h
  obtain ⟨e, he⟩ := Option.isSome_iff_exists.1 hu
  simp only [hd, he]
  simp

theorem param_noCrash {l : List (String × Series)} (hl : ∀ q ∈ l, (E.parse q.2.units).isSome = true) {k u : String} (hu : (E.parse u).isSome = true) :
    check E rf (.prop k (.all [.tag (.any "core/time_series"), .unit u])) (.map none (l.map fun q => (q.1, q.2.tree))) ≠ .crash := by
  refine prop_noCrash fun v hv => ?_
  change Dict.get? _ _ = _ at hv
  rw [Weldx.Schema.get_params] at hv
  obtain ⟨s, hs, rfl⟩ := Option.map_eq_some_iff.1 hv
  refine allR_noCrash ?_
  simp only [List.forall_mem_cons]
  refine ⟨by safe, ?_, by simp⟩
  simp only [check]
  exact Series.unit_noCrash (hl (k, s) (Dict.mem_of_get? hs)) hu

/-- an alternative of the pulsed process -/
def pulseAlt (k u mod : String) : S := .all [.type .object,
    .prop "base_process" (.all [.type .string, .enum ["pulse"]]), .prop "parameters" (.all [.type .object,
    .prop "wire_feedrate" (.all [.tag (.any "core/time_series"), .unit "m/s"]),
    .prop k (.all [.tag (.any "core/time_series"), .unit u]),
    .prop "pulse_duration" (.all [.tag (.any "core/time_series"), .unit "s"]),
    .prop "pulse_frequency" (.all [.tag (.any "core/time_series"), .unit "Hz"]),
    .prop "base_current" (.all [.tag (.any "core/time_series"), .unit "A"]), .required ["wire_feedrate", k,
    "pulse_duration", "pulse_frequency", "base_current"]]), .prop "meta" (.all [.type .object, .prop "modulation" (.all [.type .string,
    .enum [mod]]), .required ["modulation"]])]

theorem pulseAlt_iff {p : Gmaw} {k u mod : String} : check E rf (pulseAlt k u mod) p.tree = .ok ↔ p.baseProcess = "pulse" ∧ p.Pulse E k u mod := by
  unfold pulseAlt
  simp only [ok_all_cons, ok_all_nil, and_true]
  rw [ok_prop (k := "base_process"), ok_prop (k := "parameters"), ok_prop (k := "meta")]
  have hm : (∀ v, p.info.map (Y.map none) = some v → check E rf (.all [.type .object, .prop "modulation" (.all [.type .string,
    .enum [mod]]), .required ["modulation"]]) v = .ok) ↔ ∀ m ∈ p.info, ∃ t, Dict.get? m "modulation" = some (.str t mod) := by
    cases p.info with
    | none => simp
    | some m =>
      simp only [Option.map_some, Option.some.injEq, forall_eq', Option.mem_def, ok_all_cons, ok_all_nil, and_true, ok_prop_map, ok_required]
      cases hg : Dict.get? m "modulation" with
      | none => simp [hg]
      | some v => cases v <;> simp [hg, Ty.test, check]
  rw [Gmaw.get_meta, hm]
  simp only [Gmaw.get_base, Gmaw.get_params, Option.some.injEq, forall_eq', ok_all_cons, ok_all_nil, and_true, param_iff, required_iff,
      Gmaw.has_iff, ok_type, Gmaw.object, true_and, test_map, Gmaw.Pulse]
  simp [Ty.test]
  tauto

theorem pulseAlt_noCrash {p : Gmaw} (hl : ∀ q ∈ p.params, (E.parse q.2.units).isSome = true)
    (hE : ∀ u ∈ ["m/s", "V", "s", "Hz", "A"], (E.parse u).isSome = true) {k u mod : String} (hu : (E.parse u).isSome = true) :
    check E rf (pulseAlt k u mod) p.tree ≠ .crash := by
  unfold pulseAlt
  simp only [List.forall_mem_cons] at hE
  refine allR_noCrash ?_
  simp only [List.forall_mem_cons]
  refine ⟨by safe, by safe, prop_noCrash fun v hv => ?_, by safe, by simp⟩
  rw [Gmaw.get_params] at hv
  obtain rfl := Option.some.inj hv
  refine allR_noCrash ?_
  simp only [List.forall_mem_cons]
  exact ⟨by safe, param_noCrash hl hE.1, param_noCrash hl hu, param_noCrash hl hE.2.2.1, param_noCrash hl hE.2.2.2.1,
    param_noCrash hl hE.2.2.2.2.1, by safe, by simp⟩

/-- A process with the tag `CLOOS/pulse` needs the parameters of exactly one of the modulations. -/
theorem Gmaw.acc_pulse {p : Gmaw} (h : p.tag = "CLOOS/pulse") (hl : ∀ q ∈ p.params, (E.parse q.2.units).isSome = true)
    (hE : ∀ u ∈ ["m/s", "V", "s", "Hz", "A"], (E.parse u).isSome = true) : Acc E p.tree ↔ p.Parts E ∧ p.baseProcess = "pulse" ∧
    (p.Pulse E "pulse_voltage" "V" "UI" ∧ ¬ p.Pulse E "pulse_current" "A" "II" ∨
      ¬ p.Pulse E "pulse_voltage" "V" "UI" ∧ p.Pulse E "pulse_current" "A" "II") := by
  have hb : ∀ rf : String → Y → R, check E rf processCLOOSPulse p.tree = .ok ↔ p.baseProcess = "pulse" ∧
    (p.Pulse E "pulse_voltage" "V" "UI" ∧ ¬ p.Pulse E "pulse_current" "A" "II" ∨
      ¬ p.Pulse E "pulse_voltage" "V" "UI" ∧ p.Pulse E "pulse_current" "A" "II") := by
    intro rf
    have hd : processCLOOSPulse = .all [processGMAW, .oneOf [pulseAlt "pulse_voltage" "V" "UI", pulseAlt "pulse_current" "A" "II"]] := rfl
    have hE' := hE
    simp only [List.forall_mem_cons] at hE'
    rw [hd, ok_all_cons, and_iff_right Gmaw.base_ok, ok_all_cons, ok_oneOf_two (pulseAlt_noCrash hl hE hE'.2.1)
      (pulseAlt_noCrash hl hE hE'.2.2.2.2.1), ne_eq, ne_eq, pulseAlt_iff, pulseAlt_iff]
    simp only [ok_all_nil, and_true]
    tauto
  rw [Gmaw.tree] at hb ⊢
  rw [acc_obj (s := processCLOOSPulse) (by rw [h]; rfl) hb, Gmaw.parts_iff]
  tauto

end Weldx.Schema
