import Verif.Base.Py
import Verif.Base.Dict
import Mathlib.Algebra.Group.Basic

/-!
# Model of `weldx.measurement`

Source: `/repo/weldx/measurement.py`.

Signals and graphs are mutable Python objects that can be shared, so they live in a heap (`World`) and are
referred to by number: two measurement chains that are built from the same `SignalSource` share its signal,
and `from_dict(to_dict(mc))` shares the graph. Simplifications: a `MathematicalExpression` is represented by
its number of variables and by the unit it returns for an input unit (or that it raises); units form a
commutative group (offset units are left out) with a compatibility test; errors, shapes and meta data of
transformations are left out; measured data is an opaque value.
-/

namespace Weldx.Meas

/-- exceptions; `noObject` marks a reference that does not exist, which can not happen in Python -/
inductive MErr
  | keyError | valueError | indexError | noObject
  deriving DecidableEq, Repr

/-- the two valid values of `Signal.signal_type`, `measurement.py` 44-45 -/
inductive Ty
  | analog | digital
  deriving DecidableEq, Repr

/-- the type as string -/
def Ty.chars : Ty → List Char
  | .analog => ['a', 'n', 'a', 'l', 'o', 'g']
  | .digital => ['d', 'i', 'g', 'i', 't', 'a', 'l']

/-- units with `pint.Unit.is_compatible_with` -/
class UnitSystem (U : Type) extends CommGroup U where
  compatible : U → U → Bool

/-- What the chain uses of a `MathematicalExpression`: `len(get_variable_names())` and the unit of the
result of `evaluate` for a quantity of the given unit (`none`: an exception is raised). -/
structure Func (U : Type) where
  nvars : Nat
  unit : U → Option U

/-- `Signal`, `measurement.py` 34-46 -/
structure Signal (U D : Type) where
  ty : Ty
  units : U
  data : Option D

/-- `SignalTransformation`, `measurement.py` 88-97, created by `mkTransformation` -/
structure Transformation (U : Type) where
  name : String
  func : Option (Func U)
  ty : Option (Ty × Ty)

/-- `SignalSource`, `measurement.py` 124-129; `sig` refers to the signal object -/
structure Source where
  name : String
  sig : Nat
  deriving DecidableEq

/-- `MeasurementEquipment`, `measurement.py` 132-138 -/
structure Equipment (U : Type) where
  name : String
  sources : List Source
  transformations : List (Transformation U)

/-- attributes of an edge of the graph -/
structure EdgeData (U : Type) where
  transformation : Transformation U
  equipment : Option (Equipment U)

/-- `MeasurementChain._graph`: a `networkx.DiGraph`. Nodes carry a reference to a signal. -/
structure Graph (U : Type) where
  nodes : List (String × Nat)
  edges : List ((String × String) × EdgeData U)

/-- attributes of a `MeasurementChain`, `measurement.py` 263-267 -/
structure Chain (U : Type) where
  name : String
  source : Source
  equipment : Option (Equipment U)
  prev : String
  graph : Nat

/-- All objects of the program. -/
structure World (U D : Type) where
  sigs : List (Signal U D)
  graphs : List (Graph U)
  chains : List (Chain U)

variable {U D : Type}

/-- `type_transformation.upper()` and the check against the four valid strings, `measurement.py` 102-107 -/
def parseType (s : List Char) : Except MErr (Ty × Ty) :=
  match s.map Char.toUpper with
  | ['A', 'A'] => .ok (.analog, .analog)
  | ['A', 'D'] => .ok (.analog, .digital)
  | ['D', 'A'] => .ok (.digital, .analog)
  | ['D', 'D'] => .ok (.digital, .digital)
  | _ => .error .valueError

/-- `SignalTransformation.__post_init__`, `measurement.py` 99-120 -/
def mkTransformation (name : String) (func : Option (Func U)) (type : Option (List Char)) :
    Except MErr (Transformation U) := do
  let ty ← match type with
    | some s => (parseType s).map some
    | none => .ok none
  if func.isNone && ty.isNone then .error .valueError
  else match func with
    | some f => if f.nvars ≠ 1 then .error .valueError else .ok ⟨name, func, ty⟩
    | none => .ok ⟨name, func, ty⟩

/-- `_determine_output_signal_type`, `measurement.py` 492-519 -/
def determineType (tt : Option (Ty × Ty)) (input : Ty) : Except MErr Ty :=
  match tt with
  | some (i, o) => if input ≠ i then .error .valueError else .ok o
  | none => .ok input

/-- `_determine_output_signal_unit`, `measurement.py` 522-556 -/
def determineUnit (func : Option (Func U)) (input : U) : Except MErr U :=
  match func with
  | some f =>
    if f.nvars ≠ 1 then .error .valueError
    else match f.unit input with
      | some u => .ok u
      | none => .error .valueError
  | none => .ok input

/-- `_determine_output_signal`, `measurement.py` 459-490 -/
def determineOutput (tr : Transformation U) (input : Signal U D) (data : Option D) :
    Except MErr (Signal U D) := do
  let ty ← determineType tr.ty input.ty
  let u ← determineUnit tr.func input.units
  .ok ⟨ty, u, data⟩

/-- `_check_and_get_node_name`, `measurement.py` 445-454 -/
def checkNode (ch : Chain U) (g : Graph U) : Option String → Except MErr String
  | none => .ok ch.prev
  | some n => if n ∈ Dict.keys g.nodes then .ok n else .error .keyError

namespace World

/-- the chain object with number `c` and its graph -/
def chainGraph (w : World U D) (c : Nat) : Except MErr (Chain U × Graph U) :=
  match w.chains[c]? with
  | some ch => match w.graphs[ch.graph]? with
    | some g => .ok (ch, g)
    | none => .error .noObject
  | none => .error .noObject

/-- `self._graph.nodes[n]["signal"]`: reference and content -/
def signalAt (w : World U D) (g : Graph U) (n : String) : Except MErr (Nat × Signal U D) :=
  match Dict.get? g.nodes n with
  | some r => match w.sigs[r]? with
    | some s => .ok (r, s)
    | none => .error .noObject
  | none => .error .keyError

end World

/-- creating a `Signal` -/
def newSignal (ty : Ty) (u : U) (data : Option D) : Py MErr (World U D) Nat := do
  let w ← Py.get
  Py.modify fun w => { w with sigs := w.sigs ++ [⟨ty, u, data⟩] }
  pure w.sigs.length

/-- `MeasurementChain.__init__`, `measurement.py` 224-271: the graph consists of the source signal (the
object of the source itself), data is added to it with `add_signal_data`. The object does not exist if that
raises. `from_equipment` sets the equipment afterwards. -/
def newChain (name : String) (src : Source) (equipment : Option (Equipment U)) (data : Option D) :
    Py MErr (World U D) Nat := do
  let w ← Py.get
  let g : Graph U := ⟨[(src.name, src.sig)], []⟩
  let (r, s) ← Py.lift (w.signalAt g src.name)
  match data with
  | some d =>
    if s.data.isSome then Py.raise .keyError
    else Py.modify fun w => { w with sigs := w.sigs.set r { s with data := some d } }
  | none => pure ()
  Py.modify fun w =>
    { w with graphs := w.graphs ++ [g], chains := w.chains ++ [⟨name, src, equipment, src.name, w.graphs.length⟩] }
  pure w.chains.length

/-- `from_equipment`, `measurement.py` 345-359, and `get_source`, 153-170 -/
def fromEquipment (name : String) (e : Equipment U) (sourceName : Option String) :
    Py MErr (World U D) Nat := do
  let src ← match e.sources with
    | _ :: _ :: _ => match sourceName with
      | none => Py.raise .valueError
      | some n => match e.sources.find? (fun s => s.name = n) with
        | some s => pure s
        | none => Py.raise .keyError
    | [s] => pure s
    | [] => Py.raise .valueError
  newChain name src (some e) none

/-- `add_signal_data`, `measurement.py` 579-595, with `_raise_if_data_exist`, 558-565 -/
def addSignalData (c : Nat) (data : D) (source : Option String) : Py MErr (World U D) Unit := do
  let w ← Py.get
  let (ch, g) ← Py.lift (w.chainGraph c)
  let n ← Py.lift (checkNode ch g source)
  let (r, s) ← Py.lift (w.signalAt g n)
  if s.data.isSome then Py.raise .keyError
  else Py.modify fun w => { w with sigs := w.sigs.set r { s with data := some data } }

/-- `add_transformation`, `measurement.py` 597-666, with `_add_signal`, 424-443 -/
def addTransformation (c : Nat) (tr : Transformation U) (data : Option D) (input : Option String) :
    Py MErr (World U D) Unit := do
  let w ← Py.get
  let (ch, g) ← Py.lift (w.chainGraph c)
  let n ← Py.lift (checkNode ch g input)
  let (_, s) ← Py.lift (w.signalAt g n)
  let out ← Py.lift (determineOutput tr s data)
  if tr.name ∈ Dict.keys g.nodes then Py.raise .keyError
  else Py.modify fun w =>
    { sigs := w.sigs ++ [out]
      graphs := w.graphs.set ch.graph
        ⟨Dict.set g.nodes tr.name w.sigs.length, Dict.set g.edges (n, tr.name) ⟨tr, none⟩⟩
      chains := w.chains.set c { ch with prev := tr.name } }

/-- `add_transformation_from_equipment`, `measurement.py` 730-753, and `get_transformation` of the
equipment, 184-201 -/
def addFromEquipment (c : Nat) (e : Equipment U) (data : Option D) (input : Option String)
    (trName : Option String) : Py MErr (World U D) Unit := do
  let tr ← match e.transformations with
    | _ :: _ :: _ => match trName with
      | none => Py.raise .valueError
      | some n => match e.transformations.find? (fun t => t.name = n) with
        | some t => pure t
        | none => Py.raise .keyError
    | [t] => pure t
    | [] => Py.raise .valueError
  let w ← Py.get
  let (ch, g) ← Py.lift (w.chainGraph c)
  let n ← Py.lift (checkNode ch g input)
  addTransformation c tr data (some n)
  let w ← Py.get
  let (ch, g) ← Py.lift (w.chainGraph c)
  match Dict.get? g.edges (n, ch.prev) with
  | some ed => Py.modify fun w =>
      { w with graphs := w.graphs.set ch.graph ⟨g.nodes, Dict.set g.edges (n, ch.prev) { ed with equipment := some e }⟩ }
  | none => Py.raise .keyError

/-- the unit conversion `a*x` with `a = 1 out/inp`, `measurement.py` 846-850 -/
def conversion [UnitSystem U] (out inp : U) : Func U := ⟨1, fun x => some (out / inp * x)⟩

/-- `create_transformation`, `measurement.py` 822-855. Types are strings of which only the first letter is
used (834); the first letter of an empty string is an `IndexError`. -/
def createTransformation [UnitSystem U] (c : Nat) (name : String) (outType : Option (List Char))
    (outUnit : Option U) (func : Option (Func U)) (data : Option D) (input : Option String) :
    Py MErr (World U D) Unit := do
  let w ← Py.get
  let (ch, g) ← Py.lift (w.chainGraph c)
  let n ← Py.lift (checkNode ch g input)
  let (_, s) ← Py.lift (w.signalAt g n)
  let outType := outType.getD s.ty.chars
  match s.ty.chars.head?, outType.head? with
  | some a, some b =>
    let func ← match outUnit with
      | some u => match func with
        | some f => do
          let v ← Py.lift (determineUnit (some f) s.units)
          if UnitSystem.compatible u v then pure (some f) else Py.raise .valueError
        | none => pure (some (conversion u s.units))
      | none => pure func
    let tr ← Py.lift (mkTransformation name func (some [a, b]))
    addTransformation c tr data (some n)
  | _, _ => Py.raise .indexError

/-- `DiGraph.successors` -/
def Graph.succs (g : Graph U) (n : String) : List String :=
  (g.edges.filter (fun e => e.1.1 = n)).map (fun e => e.1.2)

/-- `from_dict(mc.to_dict())`, `measurement.py` 287-304 and 1050-1064. The new object uses the same graph
object; its last added signal is the first signal without successors. -/
def fromDict (c : Nat) : Py MErr (World U D) Nat := do
  let w ← Py.get
  let (ch, g) ← Py.lift (w.chainGraph c)
  let prev := match (Dict.keys g.nodes).find? (fun n => (g.succs n).length = 0) with
    | some n => n
    | none => ch.source.name
  Py.modify fun w => { w with chains := w.chains ++ [⟨ch.name, ch.source, ch.equipment, prev, ch.graph⟩] }
  pure w.chains.length

/-! ### queries -/

/-- order of `graph.edges` in networkx: by source node -/
def Graph.edgeView (g : Graph U) : List ((String × String) × EdgeData U) :=
  (Dict.keys g.nodes).flatMap fun n => g.edges.filter (fun e => e.1.1 = n)

/-- `get_signal`, `measurement.py` 879-894 -/
def getSignal (w : World U D) (c : Nat) (n : String) : Except MErr (Signal U D) := do
  let (_, g) ← w.chainGraph c
  if n ∈ Dict.keys g.nodes then (w.signalAt g n).map Prod.snd else .error .keyError

/-- `get_signal_data`, `measurement.py` 896-916 -/
def getSignalData (w : World U D) (c : Nat) (n : Option String) : Except MErr D := do
  let (ch, g) ← w.chainGraph c
  let n ← checkNode ch g n
  let (_, s) ← w.signalAt g n
  match s.data with
  | some d => .ok d
  | none => .error .keyError

/-- `get_transformation`, `measurement.py` 918-936 -/
def getTransformation (w : World U D) (c : Nat) (n : String) : Except MErr (Transformation U) := do
  let (_, g) ← w.chainGraph c
  match g.edgeView.find? (fun e => e.1.2 = n) with
  | some e => .ok e.2.transformation
  | none => .error .keyError

/-- `get_equipment`, `measurement.py` 857-877 -/
def getEquipment (w : World U D) (c : Nat) (n : String) : Except MErr (Option (Equipment U)) := do
  let (ch, g) ← w.chainGraph c
  if n = ch.source.name then .ok ch.equipment
  else match g.edgeView.find? (fun e => e.1.2 = n) with
    | some e => .ok e.2.equipment
    | none => .error .keyError

/-- `transformation_names`, `measurement.py` 1093-1105 -/
def transformationNames (w : World U D) (c : Nat) : Except MErr (List String) := do
  let (_, g) ← w.chainGraph c
  .ok (g.edgeView.map fun e => e.2.transformation.name)

/-! ### histories -/

/-- the calls that create or change objects -/
inductive Op (U D : Type)
  | newSignal (ty : Ty) (u : U) (data : Option D)
  | newChain (name : String) (src : Source) (data : Option D)
  | fromEquipment (name : String) (e : Equipment U) (sourceName : Option String)
  | addSignalData (c : Nat) (data : D) (source : Option String)
  | addTransformation (c : Nat) (tr : Transformation U) (data : Option D) (input : Option String)
  | addFromEquipment (c : Nat) (e : Equipment U) (data : Option D) (input trName : Option String)
  | createTransformation (c : Nat) (name : String) (outType : Option (List Char)) (outUnit : Option U)
      (func : Option (Func U)) (data : Option D) (input : Option String)
  | fromDict (c : Nat)

/-- run a call -/
def run [UnitSystem U] : Op U D → Py MErr (World U D) Unit
  | .newSignal ty u d => do let _ ← newSignal ty u d
  | .newChain n s d => do let _ ← newChain n s none d
  | .fromEquipment n e s => do let _ ← fromEquipment n e s
  | .addSignalData c d s => addSignalData c d s
  | .addTransformation c tr d i => addTransformation c tr d i
  | .addFromEquipment c e d i n => addFromEquipment c e d i n
  | .createTransformation c n t u f d i => createTransformation c n t u f d i
  | .fromDict c => do let _ ← fromDict c

/-- the objects after a history of calls, successful or not -/
def runAll [UnitSystem U] (ops : List (Op U D)) : World U D :=
  ops.foldl (fun w op => (run op w).state) ⟨[], [], []⟩

end Weldx.Meas
