import Verif.Groove.Model

/-!
# Front face grooves, creation and storage of grooves (C74)

Source: `/repo/weldx/welding/groove/iso_9692_1.py` 1341-1600 (`FFGroove`), 1653-1951 (`get_groove` and the mappings of the
classes); `/repo/weldx/tags/groove/iso_9692_1.py` 28-36 (converter).

Simplifications: as in `Verif.Groove.Model`; a missing parameter that is used is a `TypeError` before any shape is made (in the
code a shape of zero size could be reported first). Quantities are numbers of millimetres and radians, the checks of their
dimensions are not modelled.
-/

namespace Weldx.Groove

open Weldx.Geo

/-- the code numbers that `FFGroove.to_profile` knows, 1591-1596 -/
inductive FFCode
  | c112 | c113 | c212 | c311 | c312 | c313 | c411 | c412 | c413
  deriving DecidableEq, Repr

/-- 1406-1429 -/
def ff112 (w t1 : ℝ) : List (List Geo.V) :=
  [[![0, 0], ![2 * w + t1, 0], ![2 * w + t1, t1], ![0, t1], ![0, 0]],
   [![w, 0], ![w + t1, 0], ![w + t1, -w], ![w, -w], ![w, 0]]]

/-- 1431-1466 -/
noncomputable def ff311 (w t1 t2 alpha b : ℝ) : List (List Geo.V) :=
  let w := if w < t1 + 1 then t1 + w else w
  let x1 := Real.cos alpha * w
  let y1 := Real.sin alpha * w
  let x2 := Real.cos (alpha + Real.pi / 2) * t1
  let y2 := Real.sin (alpha + Real.pi / 2) * t1
  let x3 := x1 + x2
  let y3 := y1 + y2
  [[![t1 + x1, y1], ![t1, 0], ![t1 + x2, y2], ![t1 + x3, y3]],
   [![w, -b], ![0, -b], ![0, -t2 - b], ![w, -t2 - b]]]

/-- 1468-1490 -/
def ff312 (w t1 t2 b : ℝ) : List (List Geo.V) :=
  [[![0, 0], ![w, 0], ![w, t1], ![0, t1]],
   [![0, -b], ![2 * w, -b], ![2 * w, -t2 - b], ![0, -t2 - b]]]

/-- 1492-1527 -/
noncomputable def ff313 (w t1 t2 alpha b : ℝ) : List (List Geo.V) :=
  let x := Real.sin (alpha + Real.pi / 2) * b + b
  let y := Real.cos (alpha + Real.pi / 2) * b
  let x1 := Real.sin alpha * t2 + x
  let y1 := Real.cos alpha * t2 + y
  let x2 := Real.sin (alpha + Real.pi / 2) * (b + w) + b
  let y2 := Real.cos (alpha + Real.pi / 2) * (b + w)
  let x3 := x1 + x2 - x
  let y3 := y1 + y2 - y
  [[![-w, 0], ![0, 0], ![0, t1], ![-w, t1]],
   [![x3, y3], ![x1, y1], ![x, y], ![x2, y2]]]

/-- 1529-1564 -/
noncomputable def ff412 (w t1 t2 alpha e : ℝ) : List (List Geo.V) :=
  let x1 := Real.sin alpha * e
  let y1 := Real.cos alpha * e
  let x2 := Real.sin (alpha + Real.pi) * (t2 - e)
  let y2 := Real.cos (alpha + Real.pi) * (t2 - e)
  let x3 := x2 + Real.sin (alpha + Real.pi / 2) * w
  let y3 := y2 + Real.cos (alpha + Real.pi / 2) * w
  let x4 := x1 + Real.sin (alpha + Real.pi / 2) * w
  let y4 := y1 + Real.cos (alpha + Real.pi / 2) * w
  [[![-w, 0], ![0, 0], ![0, t1], ![-w, t1]],
   [![x4, y4], ![x1, y1], ![x2, y2], ![x3, y3]]]

/-- 1566-1589 -/
def ff413 (w t1 t2 b : ℝ) : List (List Geo.V) :=
  [[![0, w], ![0, 0], ![t1, 0], ![t1, w]],
   [![-w, -b], ![t1 + w, -b], ![t1 + w, -t2 - b], ![-w, -t2 - b], ![-w, -b]]]

/-- the points of both shapes; `code` is `none` for other strings and a missing code number -/
noncomputable def ffPoints (code : Option FFCode) (w t1 : ℝ) (t2 alpha b e : Option ℝ) : Except GErr (List (List Geo.V)) :=
  match code with
  | none => .error .valueError
  | some .c112 => .ok (ff112 w t1)
  | some .c113 => .ok (ff112 w t1)
  | some .c212 => .ok (ff112 w t1)
  | some .c311 => match t2, alpha, b with
    | some t2, some alpha, some b => .ok (ff311 w t1 t2 alpha b)
    | _, _, _ => .error .typeError
  | some .c312 => match t2, b with
    | some t2, some b => .ok (ff312 w t1 t2 b)
    | _, _ => .error .typeError
  | some .c313 => match t2, alpha, b with
    | some t2, some alpha, some b => .ok (ff313 w t1 t2 alpha b)
    | _, _, _ => .error .typeError
  | some .c411 => match t2, alpha, b with
    | some t2, some alpha, some b => .ok (ff313 w t1 t2 alpha b)
    | _, _, _ => .error .typeError
  | some .c412 => match t2, alpha, e with
    | some t2, some alpha, some e => .ok (ff412 w t1 t2 alpha e)
    | _, _, _ => .error .typeError
  | some .c413 => match t2, b with
    | some t2, some b => .ok (ff413 w t1 t2 b)
    | _, _ => .error .typeError

/-- all shapes of a profile from their points -/
noncomputable def polylines : List (List Geo.V) → Except GErr Profile
  | [] => .ok []
  | ps :: r =>
    match polyline ps with
    | .error e => .error e
    | .ok l => match polylines r with
      | .error e => .error e
      | .ok ls => .ok (l :: ls)

/-- `FFGroove.to_profile`, 1391-1596 -/
noncomputable def profileFF (code : Option FFCode) (w t1 : ℝ) (t2 alpha b e : Option ℝ) : Except GErr Profile :=
  match ffPoints code w t1 t2 alpha b e with
  | .error err => .error err
  | .ok pts => polylines pts

/-! ### creation and storage -/

/-- the names of the classes, 1653-1655 -/
inductive GrooveType
  | I | V | VV | UV | U | HV | HU | DV | DU | DHV | DHU | FF
  deriving DecidableEq, Repr

/-- the keyword arguments of `get_groove`, 1658-1674 -/
structure Args where
  workpieceThickness : Option ℝ := none
  workpieceThickness2 : Option ℝ := none
  rootGap : Option ℝ := none
  rootFace : Option ℝ := none
  rootFace2 : Option ℝ := none
  rootFace3 : Option ℝ := none
  bevelRadius : Option ℝ := none
  bevelRadius2 : Option ℝ := none
  bevelAngle : Option ℝ := none
  bevelAngle2 : Option ℝ := none
  grooveAngle : Option ℝ := none
  grooveAngle2 : Option ℝ := none
  specialDepth : Option ℝ := none

/-- a field without default value: the constructor raises `TypeError` if it is missing -/
def required : Option ℝ → Except GErr ℝ
  | some x => .ok x
  | none => .error .typeError

/-- the constructors with the mappings of the classes, 257, 316-321, 409-416, 501-508, 597-603, 709-711, 812-818, 928-936,
1051-1061, 1170-1178, 1282-1292, 1382-1389 -/
noncomputable def construct (k : GrooveType) (a : Args) : Except GErr Groove := match k with
  | .I => do .ok (.I (← required a.workpieceThickness) (a.rootGap.getD 0))
  | .V => do .ok (.V (← required a.workpieceThickness) (← required a.grooveAngle) (a.rootFace.getD 0) (a.rootGap.getD 0))
  | .VV => do .ok (.VV (← required a.workpieceThickness) (← required a.grooveAngle) (← required a.bevelAngle)
      (← required a.rootFace2) (a.rootFace.getD 0) (a.rootGap.getD 0))
  | .UV => do .ok (.UV (← required a.workpieceThickness) (← required a.grooveAngle) (← required a.bevelAngle)
      (← required a.bevelRadius) (a.rootFace.getD 0) (a.rootGap.getD 0))
  | .U => do .ok (.U (← required a.workpieceThickness) (← required a.bevelAngle) (← required a.bevelRadius)
      (a.rootFace.getD 0) (a.rootGap.getD 0))
  | .HV => do .ok (.HV (← required a.workpieceThickness) (← required a.bevelAngle) (a.rootFace.getD 0) (a.rootGap.getD 0))
  | .HU => do .ok (.HU (← required a.workpieceThickness) (← required a.bevelAngle) (← required a.bevelRadius)
      (a.rootFace.getD 0) (a.rootGap.getD 0))
  | .DV => do .ok (.DV (← required a.workpieceThickness) (← required a.grooveAngle) (← required a.grooveAngle2)
      (a.rootFace.getD 0) a.rootFace2 a.rootFace3 (a.rootGap.getD 0))
  | .DU => do .ok (.DU (← required a.workpieceThickness) (← required a.bevelAngle) (← required a.bevelAngle2)
      (← required a.bevelRadius) (← required a.bevelRadius2) (a.rootFace.getD 3) a.rootFace2 a.rootFace3 (a.rootGap.getD 0))
  | .DHV => do .ok (.DHV (← required a.workpieceThickness) (← required a.bevelAngle) (← required a.bevelAngle2)
      (a.rootFace.getD 0) a.rootFace2 a.rootFace3 (a.rootGap.getD 0))
  | .DHU => do .ok (.DHU (← required a.workpieceThickness) (← required a.bevelAngle) (← required a.bevelAngle2)
      (← required a.bevelRadius) (← required a.bevelRadius2) (a.rootFace.getD 0) a.rootFace2 a.rootFace3 (a.rootGap.getD 0))
  | .FF => do .ok (.FF (← required a.workpieceThickness) a.workpieceThickness2 a.grooveAngle a.rootGap a.specialDepth)

/-- `get_groove`, 1940-1951 -/
noncomputable def getGroove (k : GrooveType) (a : Args) : Except GErr Groove := do postInit (← construct k a)

/-- the tree of a groove: its attributes without those that are missing, with the class name in the tag -/
structure GrooveTree where
  kind : GrooveType
  attrs : List (String × ℝ)

/-- an attribute that may be missing -/
def attr (n : String) : Option ℝ → List (String × ℝ)
  | some x => [(n, x)]
  | none => []

/-- `to_yaml_tree`, `tags/groove/iso_9692_1.py` 28-30 -/
def Groove.write : Groove → GrooveTree
  | .I t b => ⟨.I, [("t", t), ("b", b)]⟩
  | .V t alpha c b => ⟨.V, [("t", t), ("alpha", alpha), ("c", c), ("b", b)]⟩
  | .VV t alpha beta h c b => ⟨.VV, [("t", t), ("alpha", alpha), ("beta", beta), ("h", h), ("c", c), ("b", b)]⟩
  | .UV t alpha beta R h b => ⟨.UV, [("t", t), ("alpha", alpha), ("beta", beta), ("R", R), ("h", h), ("b", b)]⟩
  | .U t beta R c b => ⟨.U, [("t", t), ("beta", beta), ("R", R), ("c", c), ("b", b)]⟩
  | .HV t beta c b => ⟨.HV, [("t", t), ("beta", beta), ("c", c), ("b", b)]⟩
  | .HU t beta R c b => ⟨.HU, [("t", t), ("beta", beta), ("R", R), ("c", c), ("b", b)]⟩
  | .DV t a1 a2 c h1 h2 b => ⟨.DV, [("t", t), ("alpha_1", a1), ("alpha_2", a2), ("c", c)] ++ attr "h1" h1 ++ attr "h2" h2 ++ [("b", b)]⟩
  | .DU t b1 b2 R R2 c h1 h2 b =>
    ⟨.DU, [("t", t), ("beta_1", b1), ("beta_2", b2), ("R", R), ("R2", R2), ("c", c)] ++ attr "h1" h1 ++ attr "h2" h2 ++ [("b", b)]⟩
  | .DHV t b1 b2 c h1 h2 b => ⟨.DHV, [("t", t), ("beta_1", b1), ("beta_2", b2), ("c", c)] ++ attr "h1" h1 ++ attr "h2" h2 ++ [("b", b)]⟩
  | .DHU t b1 b2 R R2 c h1 h2 b =>
    ⟨.DHU, [("t", t), ("beta_1", b1), ("beta_2", b2), ("R", R), ("R2", R2), ("c", c)] ++ attr "h1" h1 ++ attr "h2" h2 ++ [("b", b)]⟩
  | .FF t1 t2 alpha b e => ⟨.FF, [("t_1", t1)] ++ attr "t_2" t2 ++ attr "alpha" alpha ++ attr "b" b ++ attr "e" e⟩

/-- `_groove_name_to_type[groove_name](**node)`, `tags/groove/iso_9692_1.py` 32-36: the constructor with the fields of the class -/
noncomputable def GrooveTree.read (t : GrooveTree) : Except GErr Groove :=
  let f : String → Option ℝ := fun n => t.attrs.lookup n
  (match t.kind with
  | .I => do .ok (.I (← required (f "t")) ((f "b").getD 0))
  | .V => do .ok (.V (← required (f "t")) (← required (f "alpha")) ((f "c").getD 0) ((f "b").getD 0))
  | .VV => do .ok (.VV (← required (f "t")) (← required (f "alpha")) (← required (f "beta")) (← required (f "h")) ((f "c").getD 0)
      ((f "b").getD 0))
  | .UV => do .ok (.UV (← required (f "t")) (← required (f "alpha")) (← required (f "beta")) (← required (f "R")) ((f "h").getD 0)
      ((f "b").getD 0))
  | .U => do .ok (.U (← required (f "t")) (← required (f "beta")) (← required (f "R")) ((f "c").getD 0) ((f "b").getD 0))
  | .HV => do .ok (.HV (← required (f "t")) (← required (f "beta")) ((f "c").getD 0) ((f "b").getD 0))
  | .HU => do .ok (.HU (← required (f "t")) (← required (f "beta")) (← required (f "R")) ((f "c").getD 0) ((f "b").getD 0))
  | .DV => do .ok (.DV (← required (f "t")) (← required (f "alpha_1")) (← required (f "alpha_2")) ((f "c").getD 0) (f "h1") (f "h2")
      ((f "b").getD 0))
  | .DU => do .ok (.DU (← required (f "t")) (← required (f "beta_1")) (← required (f "beta_2")) (← required (f "R"))
      (← required (f "R2")) ((f "c").getD 3) (f "h1") (f "h2") ((f "b").getD 0))
  | .DHV => do .ok (.DHV (← required (f "t")) (← required (f "beta_1")) (← required (f "beta_2")) ((f "c").getD 0) (f "h1") (f "h2")
      ((f "b").getD 0))
  | .DHU => do .ok (.DHU (← required (f "t")) (← required (f "beta_1")) (← required (f "beta_2")) (← required (f "R"))
      (← required (f "R2")) ((f "c").getD 0) (f "h1") (f "h2") ((f "b").getD 0))
  | .FF => do .ok (.FF (← required (f "t_1")) (f "t_2") (f "alpha") (f "b") (f "e")) : Except GErr Groove) >>= postInit

end Weldx.Groove
