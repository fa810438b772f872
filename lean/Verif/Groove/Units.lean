import Verif.Groove.Front
import Verif.Geometry.Units

/-!
# Grooves with units (C100)

Source: `/repo/weldx/welding/groove/iso_9692_1.py` 39-47, 90-98, 198-232 (base class), 234-1600 (the groove classes),
1603-1650 (`_helperfunction`); `/repo/weldx/util/util.py` 84-134 (`ureg_check_class`); `/repo/weldx/welding/util.py` 59-86.

`Verif/Groove/Model.lean` and `Front.lean` use numbers of millimetres and radians. Here each parameter is a quantity: a
magnitude and the size of its unit in millimetres (lengths) or radians (angles). Behaviour of pint that is modelled: sums,
differences, `np.append` and `np.stack` have the unit of their first quantity (numbers in them have to be zero); comparisons are
made in a common unit; `np.sin`, `np.cos` and `np.tan` convert to radians, as does the sum of an angle and a number;
`Q_(quantity, mm)` converts; `UREG.wraps` in `add_line_segments` converts to millimetres (`geometry.py` 1033).

Simplifications: `_helperfunction` slices the coordinates before they are stacked and converted, here all are stacked and
converted at once (both are done for each entry). Segments are those of the model in millimetres because every segment of a
groove is created in millimetres (1630-1638, 1646 and `add_line_segments`). Angles have dimensions of angles; what happens to
accepted parameters of a wrong dimension after the constructor is not modelled.
-/

namespace Weldx.Groove

open Weldx.Geo

/-- a length or an angle -/
abbrev Q := Qty ℝ

namespace Q

/-- the sum has the unit of the first term -/
noncomputable def add (p q : Q) : Q := ⟨p.unit, p.mag + (q.conv p.unit).mag⟩
/-- the difference has the unit of the first term -/
noncomputable def sub (p q : Q) : Q := ⟨p.unit, p.mag - (q.conv p.unit).mag⟩
/-- `-q` -/
def neg (q : Q) : Q := ⟨q.unit, -q.mag⟩
/-- the product of a number and a quantity -/
def mul (c : ℝ) (q : Q) : Q := ⟨q.unit, c * q.mag⟩
/-- `q / 2` -/
noncomputable def half (q : Q) : Q := ⟨q.unit, q.mag / 2⟩
/-- comparison of two quantities -/
def le (p q : Q) : Prop := p.unit * p.mag ≤ q.unit * q.mag
/-- comparison of two quantities -/
def lt (p q : Q) : Prop := p.unit * p.mag < q.unit * q.mag
/-- `np.sqrt(p**2 - q**2)` -/
noncomputable def sqrtSubSq (p q : Q) : Q := ⟨p.unit, √(p.mag ^ 2 - (q.unit ^ 2 / p.unit ^ 2) * q.mag ^ 2)⟩

end Q

/-- the number that trigonometric functions get -/
noncomputable def rad (a : Q) : ℝ := a.unit * a.mag

/-- an entry of a tuple: the number zero or a quantity -/
inductive Item
  | zero
  | q (x : Q)

/-- its magnitude in a unit -/
noncomputable def Item.magIn (u : ℝ) : Item → ℝ
  | .zero => 0
  | .q x => (x.conv u).mag

/-- the unit of the first quantity; without any quantity the numbers are dimensionless and zero in every unit -/
def firstUnit : List Item → ℝ
  | [] => 1
  | .zero :: l => firstUnit l
  | .q x :: _ => x.unit

/-- `np.stack(items)`, `np.append` of single values -/
noncomputable def stack (l : List Item) : Qty (List ℝ) := ⟨firstUnit l, l.map (Item.magIn (firstUnit l))⟩

/-- `np.append(values, items)` with an array of quantities -/
noncomputable def append (a : Qty (List ℝ)) (l : List Item) : Qty (List ℝ) := ⟨a.unit, a.mag ++ l.map (Item.magIn a.unit)⟩

/-- `.max()` of the stacked values -/
noncomputable def maxU (l : List Item) : Q := ⟨(stack l).unit, maxOf (stack l).mag⟩
/-- `.min()` of the stacked values -/
noncomputable def minU (l : List Item) : Q := ⟨(stack l).unit, minOf (stack l).mag⟩

/-- one millimetre -/
def oneMm : Q := ⟨1, 1⟩
/-- `Q_([0, 0], "mm")` -/
def zerosMm : Qty (List ℝ) := ⟨1, [0, 0]⟩

/-- `Q_(np.vstack((x, y)), mm)` in 1630-1638 and 1643-1646: the unit of `x`, then millimetres -/
noncomputable def pointsMm (x y : Qty (List ℝ)) : List Geo.V :=
  List.zipWith (fun a b => ![x.unit * a, x.unit * (y.unit / x.unit * b)]) x.mag y.mag

/-- the number of millimetres of `np.append(-b / 2, 0)` -/
noncomputable def halfGap (b : Q) : ℝ := ((b.half.neg).conv 1).mag

/-- `_translate_reflect`, 223-232 -/
noncomputable def translateReflectU (b : Q) (ks : List Kind) (x y : Qty (List ℝ)) : Except GErr Profile :=
  match shapeOf ks (pointsMm x y) with
  | .error e => .error e
  | .ok l => match reflectY (moveBy ![halfGap b, 0] l) with
    | .error e => .error e
    | .ok r => .ok [moveBy ![halfGap b, 0] l, r]

/-- an array of points: `np.stack` of rows from `np.append`; the unit is the one of the first quantity in the first row that
contains one -/
noncomputable def rows (l : List (Item × Item)) : Qty (List Geo.V) :=
  let u := firstUnit (l.flatMap fun r => [r.1, r.2])
  ⟨u, l.map fun r => ![Item.magIn u r.1, Item.magIn u r.2]⟩

/-- `Shape().add_line_segments(rows)`: `UREG.wraps` converts to millimetres -/
noncomputable def polylineU (l : List (Item × Item)) : Except GErr (List Seg) :=
  polyline ((rows l).mag.map fun p => (rows l).unit • p)

/-- the straight workpiece of the half grooves, 761-770, 871-880, 1209-1217, 1324-1332 -/
noncomputable def straightU (w b t : Q) : Except GErr (List Seg) :=
  polylineU [(.q (w.neg.sub b.half), .zero), (.q b.half.neg, .zero), (.q b.half.neg, .q t), (.q (w.neg.sub b.half), .q t)]

/-- the half grooves -/
noncomputable def halfProfileU (w b t : Q) (ks : List Kind) (x y : Qty (List ℝ)) : Except GErr Profile :=
  match shapeOf ks (pointsMm x y) with
  | .error e => .error e
  | .ok l => match reflectY (moveBy ![halfGap b, 0] l) with
    | .error e => .error e
    | .ok r => match straightU w b t with
      | .error e => .error e
      | .ok h => .ok [h, r]

open Classical in
/-- `if width <= edge + 1mm: width = width + edge` -/
noncomputable def widenU (w edge : Q) : Q := if w.le (edge.add oneMm) then w.add edge else w

open Classical in
/-- `if width <= -edge + 1mm: width = width - edge`, where `edge` is a minimum -/
noncomputable def widenMinU (w edge : Q) : Q := if w.le (edge.neg.add oneMm) then w.sub edge else w

open Classical in
/-- `if c != 0: np.append(values, entry)` -/
noncomputable def rootU (c : Q) (a : Qty (List ℝ)) (i : Item) : Qty (List ℝ) := if c.mag ≠ 0 then append a [i] else a

open Classical in
/-- `if c != 0: segment_list.append("line")` -/
noncomputable def rootKindU (c : Q) : List Kind := if c.mag ≠ 0 then [.line] else []

/-- 260-279 -/
noncomputable def profileIU (w t b : Q) : Except GErr Profile :=
  translateReflectU b [.line, .line, .line] (stack [.q w.neg, .zero, .zero, .q w.neg]) (stack [.zero, .zero, .q t, .q t])

/-- 323-366 -/
noncomputable def profileVU (w t alpha c b : Q) : Except GErr Profile :=
  let s := (t.sub c).mul (Real.tan (rad alpha.half))
  let w := widenMinU w (minU [.q s.neg, .zero])
  let x := append (rootU c (stack [.q w.neg, .zero]) .zero) [.q s.neg, .q w.neg]
  let y := append (rootU c zerosMm (.q c)) [.q t, .q t]
  translateReflectU b ([.line] ++ rootKindU c ++ [.line, .line]) x y

/-- 418-458 -/
noncomputable def profileVVU (w t alpha beta h c b : Q) : Except GErr Profile :=
  let s1 := (h.sub c).mul (Real.tan (rad alpha.half))
  let s2 := (t.sub h).mul (Real.tan (rad beta))
  let w := widenMinU w (minU [.q (s1.add s2).neg, .zero])
  let x := append (rootU c (stack [.q w.neg, .zero]) .zero) [.q s1.neg, .q (s1.neg.sub s2), .q w.neg]
  let y := append (rootU c zerosMm (.q c)) [.q (h.add c), .q t, .q t]
  translateReflectU b ([.line] ++ rootKindU c ++ [.line, .line, .line]) x y

/-- 510-557 -/
noncomputable def profileUVU (w t alpha beta R h b : Q) : Except GErr Profile :=
  let x1 := h.mul (Real.tan (rad alpha.half))
  let ym := h.add (R.sqrtSubSq x1)
  let xArc := (R.mul (Real.cos (rad beta))).neg
  let yArc := ym.sub (R.mul (Real.sin (rad beta)))
  let xEnd := xArc.sub ((t.sub yArc).mul (Real.tan (rad beta)))
  let w := widenU w (maxU [.q xEnd.neg, .zero])
  let x := stack [.q w.neg, .zero, .q x1.neg, .zero, .q xArc, .q xEnd, .q w.neg]
  let y := stack [.zero, .zero, .q h, .q ym, .q yArc, .q t, .q t]
  translateReflectU b [.line, .line, .arc, .line, .line] x y

/-- the width of the U grooves, 626-638 and 840-848 -/
noncomputable def widthUU (w t beta R c : Q) : Q :=
  let x := R.mul (Real.cos (rad beta))
  let y := R.mul (Real.sin (rad beta))
  let s := (t.sub ((c.add R).sub y)).mul (Real.tan (rad beta))
  widenU w (maxU [.q (x.add s), .zero])

/-- the x values of the U grooves, 643-671 and 850-860 -/
noncomputable def xUU (w t beta R c : Q) : Qty (List ℝ) :=
  let x := R.mul (Real.cos (rad beta))
  let y := R.mul (Real.sin (rad beta))
  let s := (t.sub ((c.add R).sub y)).mul (Real.tan (rad beta))
  let w := widthUU w t beta R c
  append (rootU c (stack [.q w.neg, .zero]) .zero) [.zero, .q x.neg, .q (x.neg.sub s), .q w.neg]

/-- the y values of the U grooves -/
noncomputable def yUU (t beta R c : Q) : Qty (List ℝ) :=
  let y := R.mul (Real.sin (rad beta))
  append (rootU c zerosMm (.q c)) [.q (c.add R), .q ((c.add R).sub y), .q t, .q t]

/-- their segments -/
noncomputable def kindsUU (c : Q) : List Kind := [.line] ++ rootKindU c ++ [.arc, .line, .line]

/-- 605-673 -/
noncomputable def profileUU (w t beta R c b : Q) : Except GErr Profile :=
  translateReflectU b (kindsUU c) (xUU w t beta R c) (yUU t beta R c)

/-- 713-772 -/
noncomputable def profileHVU (w t beta c b : Q) : Except GErr Profile :=
  let s := (t.sub c).mul (Real.tan (rad beta))
  let w := widenMinU w (minU [.q s.neg, .zero])
  let x := append (rootU c (stack [.q w.neg, .zero]) .zero) [.q s.neg, .q w.neg]
  let y := append (rootU c zerosMm (.q c)) [.q t, .q t]
  halfProfileU w b t ([.line] ++ rootKindU c ++ [.line, .line]) x y

/-- 820-882 -/
noncomputable def profileHUU (w t beta R c b : Q) : Except GErr Profile :=
  halfProfileU (widthUU w t beta R c) b t (kindsUU c) (xUU w t beta R c) (yUU t beta R c)

/-- 942-988 -/
noncomputable def profileDVU (w t alpha1 alpha2 c h1 h2 b : Q) : Except GErr Profile :=
  let su := h1.mul (Real.tan (rad alpha1.half))
  let sl := h2.mul (Real.tan (rad alpha2.half))
  let w := widenMinU w (minU [.q su.neg, .q sl.neg, .zero])
  let x := append (rootU c (stack [.q w.neg, .q sl.neg, .zero]) .zero) [.q su.neg, .q w.neg]
  let y := append (rootU c (stack [.zero, .zero, .q h2]) (.q (h2.add c))) [.q t, .q t]
  translateReflectU b ([.line, .line] ++ rootKindU c ++ [.line, .line]) x y

/-- 1067-1124 -/
noncomputable def profileDUU (w t beta1 beta2 R R2 c h1 h2 b : Q) : Except GErr Profile :=
  let xu := R.mul (Real.cos (rad beta1))
  let yu := R.mul (Real.sin (rad beta1))
  let su := (h1.sub (R.sub yu)).mul (Real.tan (rad beta1))
  let xl := R2.mul (Real.cos (rad beta2))
  let yl := R2.mul (Real.sin (rad beta2))
  let sl := (h2.sub (R2.sub yl)).mul (Real.tan (rad beta2))
  let w := widenU w (maxU [.q (xu.add su), .q (xl.add sl), .zero])
  let x := append (rootU c (stack [.q w.neg, .q (sl.add xl).neg, .q xl.neg, .zero, .zero]) .zero)
    [.zero, .q xu.neg, .q (su.add xu).neg, .q w.neg]
  let y := append (rootU c (stack [.zero, .zero, .q (h2.sub (R2.sub yl)), .q (h2.sub R2), .q h2]) (.q (h1.add c)))
    [.q ((h2.add c).add R), .q (t.sub (h1.sub (R.sub yu))), .q t, .q t]
  translateReflectU b ([.line, .line, .arc] ++ rootKindU c ++ [.arc, .line, .line]) x y

/-- 1184-1219 -/
noncomputable def profileDHVU (w t beta1 beta2 c h1 h2 b : Q) : Except GErr Profile :=
  match profileDVU w t (beta1.mul 2) (beta2.mul 2) c h1 h2 b with
  | .error e => .error e
  | .ok p => match straightU w b t with
    | .error e => .error e
    | .ok h => .ok [h, p.getD 1 []]

/-- 1298-1334 -/
noncomputable def profileDHUU (w t beta1 beta2 R R2 c h1 h2 b : Q) : Except GErr Profile :=
  match profileDUU w t beta1 beta2 R R2 c h1 h2 b with
  | .error e => .error e
  | .ok p => match straightU w b t with
    | .error e => .error e
    | .ok h => .ok [h, p.getD 1 []]

/-! ### front face grooves -/

/-- 1406-1429 -/
noncomputable def ff112U (w t1 : Q) : List (List (Item × Item)) :=
  let l := (w.mul 2).add t1
  [[(.zero, .zero), (.q l, .zero), (.q l, .q t1), (.zero, .q t1), (.zero, .zero)],
   [(.q w, .zero), (.q (w.add t1), .zero), (.q (w.add t1), .q w.neg), (.q w, .q w.neg), (.q w, .zero)]]

open Classical in
/-- 1431-1466 -/
noncomputable def ff311U (w t1 t2 alpha b : Q) : List (List (Item × Item)) :=
  let w := if w.lt (t1.add oneMm) then t1.add w else w
  let x1 := w.mul (Real.cos (rad alpha))
  let y1 := w.mul (Real.sin (rad alpha))
  let x2 := t1.mul (Real.cos (rad alpha + Real.pi / 2))
  let y2 := t1.mul (Real.sin (rad alpha + Real.pi / 2))
  let x3 := x1.add x2
  let y3 := y1.add y2
  [[(.q (t1.add x1), .q y1), (.q t1, .zero), (.q (t1.add x2), .q y2), (.q (t1.add x3), .q y3)],
   [(.q w, .q b.neg), (.zero, .q b.neg), (.zero, .q (t2.neg.sub b)), (.q w, .q (t2.neg.sub b))]]

/-- 1468-1490 -/
noncomputable def ff312U (w t1 t2 b : Q) : List (List (Item × Item)) :=
  [[(.zero, .zero), (.q w, .zero), (.q w, .q t1), (.zero, .q t1)],
   [(.zero, .q b.neg), (.q (w.mul 2), .q b.neg), (.q (w.mul 2), .q (t2.neg.sub b)), (.zero, .q (t2.neg.sub b))]]

/-- 1492-1527 -/
noncomputable def ff313U (w t1 t2 alpha b : Q) : List (List (Item × Item)) :=
  let x := (b.mul (Real.sin (rad alpha + Real.pi / 2))).add b
  let y := b.mul (Real.cos (rad alpha + Real.pi / 2))
  let x1 := (t2.mul (Real.sin (rad alpha))).add x
  let y1 := (t2.mul (Real.cos (rad alpha))).add y
  let x2 := ((b.add w).mul (Real.sin (rad alpha + Real.pi / 2))).add b
  let y2 := (b.add w).mul (Real.cos (rad alpha + Real.pi / 2))
  let x3 := (x1.add x2).sub x
  let y3 := (y1.add y2).sub y
  [[(.q w.neg, .zero), (.zero, .zero), (.zero, .q t1), (.q w.neg, .q t1)],
   [(.q x3, .q y3), (.q x1, .q y1), (.q x, .q y), (.q x2, .q y2)]]

/-- 1529-1564 -/
noncomputable def ff412U (w t1 t2 alpha e : Q) : List (List (Item × Item)) :=
  let x1 := e.mul (Real.sin (rad alpha))
  let y1 := e.mul (Real.cos (rad alpha))
  let x2 := (t2.sub e).mul (Real.sin (rad alpha + Real.pi))
  let y2 := (t2.sub e).mul (Real.cos (rad alpha + Real.pi))
  let x3 := x2.add (w.mul (Real.sin (rad alpha + Real.pi / 2)))
  let y3 := y2.add (w.mul (Real.cos (rad alpha + Real.pi / 2)))
  let x4 := x1.add (w.mul (Real.sin (rad alpha + Real.pi / 2)))
  let y4 := y1.add (w.mul (Real.cos (rad alpha + Real.pi / 2)))
  [[(.q w.neg, .zero), (.zero, .zero), (.zero, .q t1), (.q w.neg, .q t1)],
   [(.q x4, .q y4), (.q x1, .q y1), (.q x2, .q y2), (.q x3, .q y3)]]

/-- 1566-1589 -/
noncomputable def ff413U (w t1 t2 b : Q) : List (List (Item × Item)) :=
  [[(.zero, .q w), (.zero, .zero), (.q t1, .zero), (.q t1, .q w)],
   [(.q w.neg, .q b.neg), (.q (t1.add w), .q b.neg), (.q (t1.add w), .q (t2.neg.sub b)), (.q w.neg, .q (t2.neg.sub b)),
    (.q w.neg, .q b.neg)]]

/-- the points of both shapes -/
noncomputable def ffPointsU (code : Option FFCode) (w t1 : Q) (t2 alpha b e : Option Q) :
    Except GErr (List (List (Item × Item))) :=
  match code with
  | none => .error .valueError
  | some .c112 => .ok (ff112U w t1)
  | some .c113 => .ok (ff112U w t1)
  | some .c212 => .ok (ff112U w t1)
  | some .c311 => match t2, alpha, b with
    | some t2, some alpha, some b => .ok (ff311U w t1 t2 alpha b)
    | _, _, _ => .error .typeError
  | some .c312 => match t2, b with
    | some t2, some b => .ok (ff312U w t1 t2 b)
    | _, _ => .error .typeError
  | some .c313 => match t2, alpha, b with
    | some t2, some alpha, some b => .ok (ff313U w t1 t2 alpha b)
    | _, _, _ => .error .typeError
  | some .c411 => match t2, alpha, b with
    | some t2, some alpha, some b => .ok (ff313U w t1 t2 alpha b)
    | _, _, _ => .error .typeError
  | some .c412 => match t2, alpha, e with
    | some t2, some alpha, some e => .ok (ff412U w t1 t2 alpha e)
    | _, _, _ => .error .typeError
  | some .c413 => match t2, b with
    | some t2, some b => .ok (ff413U w t1 t2 b)
    | _, _ => .error .typeError

/-- all shapes of a profile from their rows -/
noncomputable def polylinesU : List (List (Item × Item)) → Except GErr Profile
  | [] => .ok []
  | ps :: r =>
    match polylineU ps with
    | .error e => .error e
    | .ok l => match polylinesU r with
      | .error e => .error e
      | .ok ls => .ok (l :: ls)

/-- `FFGroove.to_profile`, 1391-1596 -/
noncomputable def profileFFU (code : Option FFCode) (w t1 : Q) (t2 alpha b e : Option Q) : Except GErr Profile :=
  match ffPointsU code w t1 t2 alpha b e with
  | .error err => .error err
  | .ok pts => polylinesU pts

/-! ### grooves -/

/-- the groove classes with quantities -/
inductive GrooveU
  | I (t b : Q)
  | V (t alpha c b : Q)
  | VV (t alpha beta h c b : Q)
  | UV (t alpha beta R h b : Q)
  | U (t beta R c b : Q)
  | HV (t beta c b : Q)
  | HU (t beta R c b : Q)
  | DV (t alpha1 alpha2 c : Q) (h1 h2 : Option Q) (b : Q)
  | DU (t beta1 beta2 R R2 c : Q) (h1 h2 : Option Q) (b : Q)
  | DHV (t beta1 beta2 c : Q) (h1 h2 : Option Q) (b : Q)
  | DHU (t beta1 beta2 R R2 c : Q) (h1 h2 : Option Q) (b : Q)
  | FF (t1 : Q) (t2 alpha b e : Option Q) (code : Option FFCode)

/-- 96-98 -/
def GrooveU.parameters : GrooveU → List Q
  | .I t b => [t, b]
  | .V t alpha c b => [t, alpha, c, b]
  | .VV t alpha beta h c b => [t, alpha, beta, h, c, b]
  | .UV t alpha beta R h b => [t, alpha, beta, R, h, b]
  | .U t beta R c b => [t, beta, R, c, b]
  | .HV t beta c b => [t, beta, c, b]
  | .HU t beta R c b => [t, beta, R, c, b]
  | .DV t a1 a2 c h1 h2 b => [t, a1, a2, c] ++ h1.toList ++ h2.toList ++ [b]
  | .DU t b1 b2 R R2 c h1 h2 b => [t, b1, b2, R, R2, c] ++ h1.toList ++ h2.toList ++ [b]
  | .DHV t b1 b2 c h1 h2 b => [t, b1, b2, c] ++ h1.toList ++ h2.toList ++ [b]
  | .DHU t b1 b2 R R2 c h1 h2 b => [t, b1, b2, R, R2, c] ++ h1.toList ++ h2.toList ++ [b]
  | .FF t1 t2 alpha b e _ => [t1] ++ t2.toList ++ alpha.toList ++ b.toList ++ e.toList

/-- 39-47: `_set_default_heights` -/
noncomputable def defaultHeightsU (t c : Q) : Option Q → Option Q → Option Q × Option Q
  | none, none => (some (t.sub c).half, some (t.sub c).half)
  | some h1, none => (some h1, some h1)
  | none, some h2 => (some h2, some h2)
  | some h1, some h2 => (some h1, some h2)

open Classical in
/-- 90-94; the quantity is compared with zero -/
noncomputable def checkParametersU (g : GrooveU) : Except GErr GrooveU :=
  if ∀ x ∈ g.parameters, ¬ x.mag < 0 then .ok g else .error .valueError

/-- `__post_init__` -/
noncomputable def postInitU : GrooveU → Except GErr GrooveU
  | .DV t a1 a2 c h1 h2 b => let h := defaultHeightsU t c h1 h2; .ok (.DV t a1 a2 c h.1 h.2 b)
  | .DU t b1 b2 R R2 c h1 h2 b => let h := defaultHeightsU t c h1 h2; .ok (.DU t b1 b2 R R2 c h.1 h.2 b)
  | .DHV t b1 b2 c h1 h2 b => let h := defaultHeightsU t c h1 h2; .ok (.DHV t b1 b2 c h.1 h.2 b)
  | .DHU t b1 b2 R R2 c h1 h2 b => let h := defaultHeightsU t c h1 h2; .ok (.DHU t b1 b2 R R2 c h.1 h.2 b)
  | g => checkParametersU g

/-- `to_profile(width)` -/
noncomputable def GrooveU.profile (w : Q) : GrooveU → Except GErr Profile
  | .I t b => profileIU w t b
  | .V t alpha c b => profileVU w t alpha c b
  | .VV t alpha beta h c b => profileVVU w t alpha beta h c b
  | .UV t alpha beta R h b => profileUVU w t alpha beta R h b
  | .U t beta R c b => profileUU w t beta R c b
  | .HV t beta c b => profileHVU w t beta c b
  | .HU t beta R c b => profileHUU w t beta R c b
  | .DV t a1 a2 c (some h1) (some h2) b => profileDVU w t a1 a2 c h1 h2 b
  | .DU t b1 b2 R R2 c (some h1) (some h2) b => profileDUU w t b1 b2 R R2 c h1 h2 b
  | .DHV t b1 b2 c (some h1) (some h2) b => profileDHVU w t b1 b2 c h1 h2 b
  | .DHU t b1 b2 R R2 c (some h1) (some h2) b => profileDHUU w t b1 b2 R R2 c h1 h2 b
  | .FF t1 t2 alpha b e code => profileFFU code w t1 t2 alpha b e
  | .DV .. => .error .typeError
  | .DU .. => .error .typeError
  | .DHV .. => .error .typeError
  | .DHU .. => .error .typeError

/-- `Q_(n, "mm")` -/
def ofMm (x : ℝ) : Q := ⟨1, x⟩

/-- `cross_sect_area` in square millimetres: the default widths and the methods of the classes; all segments are in
millimetres, so `.m` is the number of millimetres -/
noncomputable def GrooveU.area : GrooveU → Except GErr ℝ
  | .I t b => areaFromProfile ((GrooveU.I t b).profile (ofMm 5))
  | .V t alpha c b => areaFromProfile ((GrooveU.V t alpha c b).profile (ofMm 2))
  | .VV t alpha beta h c b => areaFromProfile ((GrooveU.VV t alpha beta h c b).profile (ofMm 5))
  | .UV t alpha beta R h b => areaInterpolated ((GrooveU.UV t alpha beta R h b).profile (ofMm 2))
  | .U t beta R c b => areaInterpolated ((GrooveU.U t beta R c b).profile (ofMm 3))
  | .HV t beta c b => areaFromProfile ((GrooveU.HV t beta c b).profile (ofMm 5))
  | .HU t beta R c b => areaInterpolated ((GrooveU.HU t beta R c b).profile (ofMm 5))
  | .DV t a1 a2 c h1 h2 b => areaFromProfile ((GrooveU.DV t a1 a2 c h1 h2 b).profile (ofMm 5))
  | .DU t b1 b2 R R2 c h1 h2 b => areaInterpolated ((GrooveU.DU t b1 b2 R R2 c h1 h2 b).profile (ofMm 5))
  | .DHV t b1 b2 c h1 h2 b => areaFromProfile ((GrooveU.DHV t b1 b2 c h1 h2 b).profile (ofMm 5))
  | .DHU t b1 b2 R R2 c h1 h2 b => areaInterpolated ((GrooveU.DHU t b1 b2 R R2 c h1 h2 b).profile (ofMm 5))
  | .FF .. => .error .notImplemented

/-- `compute_welding_speed`, `welding/util.py` 59-86, in the unit wire feed times squared wire diameter per mm², before the unit
is reduced; units of speed are in millimetres per second -/
noncomputable def GrooveU.speed (g : GrooveU) (wireFeed wireDiameter : Q) : Except GErr Q :=
  match g.area with
  | .error e => .error e
  | .ok a => if a = 0 then .error .valueError
    else .ok ⟨wireDiameter.unit ^ 2 * wireFeed.unit, Real.pi / 4 * wireDiameter.mag ^ 2 * wireFeed.mag / a⟩

/-! ### the check of dimensions -/

/-- dimensions of quantities; angles are dimensionless -/
inductive Dim
  | length | angle | other (n : Nat)
  deriving DecidableEq

/-- the arguments of `ureg_check_class` without the last one for the code number (in `FFGroove` the one before the last two),
234, 286, 373, 465, 564, 680, 779, 889, 995-1006, 1131, 1226-1237, 1341-1348 -/
def declared : GrooveType → List (Option Dim)
  | .I => [some .length, some .length]
  | .V => [some .length, some .angle, some .length, some .length]
  | .VV => [some .length, some .angle, some .angle, some .length, some .length, some .length]
  | .UV => [some .length, some .angle, some .angle, some .length, some .length, some .length]
  | .U => [some .length, some .angle, some .length, some .length, some .length]
  | .HV => [some .length, some .angle, some .length, some .length]
  | .HU => [some .length, some .angle, some .length, some .length, some .length]
  | .DV => [some .length, some .angle, some .angle, some .length, none, none, some .length]
  | .DU => [some .length, some .angle, some .angle, some .length, some .length, some .length, none, none, some .length]
  | .DHV => [some .length, some .angle, some .angle, some .length, none, none, some .length]
  | .DHU => [some .length, some .angle, some .angle, some .length, some .length, some .length, none, none, some .length]
  | .FF => [some .length, none, none, none, none]

/-- `ureg_check_class`, `util.py` 119-134: pint checks the arguments for which a dimension is given, in the order of the
parameters; `true` if the constructor is called. A missing optional argument is only in unchecked places. -/
def checkDims : List (Option Dim) → List (Option Dim) → Bool
  | [], _ => true
  | none :: ds, _ :: as => checkDims ds as
  | some d :: ds, a :: as => a == some d && checkDims ds as
  | _ :: _, [] => false

/-! ### Specification -/

/-- the same groove in millimetres and radians -/
noncomputable def GrooveU.mm : GrooveU → Groove
  | .I t b => .I t.mm b.mm
  | .V t alpha c b => .V t.mm alpha.mm c.mm b.mm
  | .VV t alpha beta h c b => .VV t.mm alpha.mm beta.mm h.mm c.mm b.mm
  | .UV t alpha beta R h b => .UV t.mm alpha.mm beta.mm R.mm h.mm b.mm
  | .U t beta R c b => .U t.mm beta.mm R.mm c.mm b.mm
  | .HV t beta c b => .HV t.mm beta.mm c.mm b.mm
  | .HU t beta R c b => .HU t.mm beta.mm R.mm c.mm b.mm
  | .DV t a1 a2 c h1 h2 b => .DV t.mm a1.mm a2.mm c.mm (h1.map Qty.mm) (h2.map Qty.mm) b.mm
  | .DU t b1 b2 R R2 c h1 h2 b => .DU t.mm b1.mm b2.mm R.mm R2.mm c.mm (h1.map Qty.mm) (h2.map Qty.mm) b.mm
  | .DHV t b1 b2 c h1 h2 b => .DHV t.mm b1.mm b2.mm c.mm (h1.map Qty.mm) (h2.map Qty.mm) b.mm
  | .DHU t b1 b2 R R2 c h1 h2 b => .DHU t.mm b1.mm b2.mm R.mm R2.mm c.mm (h1.map Qty.mm) (h2.map Qty.mm) b.mm
  | .FF t1 t2 alpha b e _ => .FF t1.mm (t2.map Qty.mm) (alpha.map Qty.mm) (b.map Qty.mm) (e.map Qty.mm)

/-- the code number of front face grooves -/
def GrooveU.code : GrooveU → Option FFCode
  | .FF _ _ _ _ _ code => code
  | _ => none

/-- the profile of a groove given in millimetres and radians -/
noncomputable def profileMm (w : ℝ) (code : Option FFCode) : Groove → Except GErr Profile
  | .I t b => profileI w t b
  | .V t alpha c b => profileV w t alpha c b
  | .VV t alpha beta h c b => profileVV w t alpha beta h c b
  | .UV t alpha beta R h b => profileUV w t alpha beta R h b
  | .U t beta R c b => profileU w t beta R c b
  | .HV t beta c b => profileHV w t beta c b
  | .HU t beta R c b => profileHU w t beta R c b
  | .DV t a1 a2 c (some h1) (some h2) b => profileDV w t a1 a2 c h1 h2 b
  | .DU t b1 b2 R R2 c (some h1) (some h2) b => profileDU w t b1 b2 R R2 c h1 h2 b
  | .DHV t b1 b2 c (some h1) (some h2) b => profileDHV w t b1 b2 c h1 h2 b
  | .DHU t b1 b2 R R2 c (some h1) (some h2) b => profileDHU w t b1 b2 R R2 c h1 h2 b
  | .FF t1 t2 alpha b e => profileFF code w t1 t2 alpha b e
  | .DV .. => .error .typeError
  | .DU .. => .error .typeError
  | .DHV .. => .error .typeError
  | .DHU .. => .error .typeError

/-- units are positive -/
def GrooveU.Ok (g : GrooveU) : Prop := ∀ x ∈ g.parameters, 0 < x.unit

/-- the dimensions that the parameters of a class should have, in the order of the fields -/
def meant : GrooveType → List Dim
  | .I => [.length, .length]
  | .V => [.length, .angle, .length, .length]
  | .VV => [.length, .angle, .angle, .length, .length, .length]
  | .UV => [.length, .angle, .angle, .length, .length, .length]
  | .U => [.length, .angle, .length, .length, .length]
  | .HV => [.length, .angle, .length, .length]
  | .HU => [.length, .angle, .length, .length, .length]
  | .DV => [.length, .angle, .angle, .length, .length, .length, .length]
  | .DU => [.length, .angle, .angle, .length, .length, .length, .length, .length, .length]
  | .DHV => [.length, .angle, .angle, .length, .length, .length, .length]
  | .DHU => [.length, .angle, .angle, .length, .length, .length, .length, .length, .length]
  | .FF => [.length, .length, .angle, .length, .length]

end Weldx.Groove
