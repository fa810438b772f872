import Verif.Frame.Group

/-!
# Matrix operations on arrays with named dimensions (C79)

Source: `/repo/weldx/util/xarray.py` 40-56 (`mat_vec_mul`), 59-80 (`_swap_list_items`), 83-103 (`xr_transpose_matrix_data`), 106-175
(`xr_matmul`), 178-199 (`xr_is_orthogonal_matrix`); their use in `/repo/weldx/transformations/local_cs.py` 203-211 (`__add__`), 790-801
(`invert`) and `/repo/weldx/transformations/cs_manager.py` 1754-1757 (`transform_data`).

An array is a list of dimensions (name and length, in the order of the memory) with a function from indices (one for each name) to values.
Modelled: the checks of `xr.apply_ufunc` (missing core dimensions, core dimensions of other arguments, different lengths, changed
lengths), broadcasting by names, and the order of the dimensions of the result. Simplifications: values are elements of a ring, the
coordinates of shared dimensions are equal (`join="exact"` raises otherwise), products of two matrices or of a matrix and a vector only,
`np.allclose` is equality, all dimensions of
matrices have coordinates (`xr_is_orthogonal_matrix` reads them).
-/

namespace Weldx.Lab

open Matrix

variable {K : Type}

inductive LErr
  | value
deriving DecidableEq

/-- an array with named dimensions -/
structure LArr (K : Type) where
  dims : List (String × ℕ)
  val : (String → ℕ) → K

def LArr.names (a : LArr K) : List String := a.dims.map Prod.fst

/-- length of a dimension -/
def LArr.size (a : LArr K) (d : String) : Option ℕ := Dict.get? a.dims d

def LArr.shape (a : LArr K) : List ℕ := a.dims.map Prod.snd

/-! ## Transposition -/

/-- `_swap_list_items`, `xarray.py` 59-80 -/
def swapItems (l : List String) (x y : String) : Except LErr (List String) :=
  if x ∈ l ∧ y ∈ l then
    let a := l.idxOf x
    let b := l.idxOf y
    .ok ((l.set b (l.getD a "")).set a (l.getD b ""))
  else .error .value

/-- `da.transpose(*names)`: the dimensions in another order -/
def LArr.transpose (a : LArr K) (order : List String) : LArr K :=
  ⟨order.map fun d => (d, (a.size d).getD 0), a.val⟩

/-- `da.copy(data=d.data)`: the data of another array, without its names -/
def LArr.copyData (a d : LArr K) : Except LErr (LArr K) :=
  if d.shape = a.shape then .ok ⟨a.dims, fun i => d.val fun n => i (a.names.getD (d.names.idxOf n) "")⟩ else .error .value

/-- `xr_transpose_matrix_data`, `xarray.py` 83-103 -/
def transposeMatrix (a : LArr K) (x y : String) : Except LErr (LArr K) := do
  let i ← swapItems a.names x y
  a.copyData (a.transpose i)

/-! ## Products -/

/-- an index with another value for one name -/
def upd (i : String → ℕ) (d : String) (k : ℕ) : String → ℕ := fun n => if n = d then k else i n

/-- names of the dimensions that are not core dimensions, in the order of their first use -/
def loopNames (a b : LArr K) (core : List String) : List String :=
  (a.names ++ b.names.filter (fun n => n ∉ a.names)).filter (fun n => n ∉ core)

/-- length of a dimension of one of the arguments -/
def sizeOf (a b : LArr K) (d : String) : Option ℕ := (a.size d).orElse fun _ => b.size d

/-- the checks of `apply_ufunc`: all core dimensions exist, an argument has no core dimension of others except its own, lengths agree -/
def checkArgs (a b : LArr K) (cA cB out : List String) : Bool :=
  cA.all (· ∈ a.names) && cB.all (· ∈ b.names) &&
  a.names.all (fun n => n ∈ cA || n ∉ cA ++ cB ++ out) && b.names.all (fun n => n ∈ cB || n ∉ cA ++ cB ++ out) &&
  a.names.all (fun n => n ∉ b.names || a.size n == b.size n)

/-- the length of an output dimension must not differ from the one of an input dimension of this name -/
def checkOut (a b : LArr K) (out : List (String × ℕ)) : Bool :=
  out.all fun e => match sizeOf a b e.1 with
    | some n => n == e.2
    | none => true

/-- `xr.apply_ufunc` with `np.matmul` or `mat_vec_mul` -/
def applyMul [Semiring K] (a b : LArr K) (cA cB out : List String) (vec : Bool) : Except LErr (LArr K) :=
  if checkArgs a b cA cB out then
    let loop := (loopNames a b (cA ++ cB ++ out)).map fun d => (d, (sizeOf a b d).getD 0)
    match cA, cB, out, vec with
    | [p, q], [r, s], [x, y], false =>
      let n := (a.size q).getD 0
      let o := [(x, (a.size p).getD 0), (y, (b.size s).getD 0)]
      if a.size q = b.size r ∧ checkOut a b o then
        .ok ⟨loop ++ o, fun i => ((List.range n).map fun k => a.val (upd (upd i p (i x)) q k) * b.val (upd (upd i r k) s (i y))).sum⟩
      else .error .value
    | [p, q], [r], [x], true =>
      let n := (a.size q).getD 0
      let o := [(x, (a.size p).getD 0)]
      if a.size q = b.size r ∧ checkOut a b o then
        .ok ⟨loop ++ o, fun i => ((List.range n).map fun k => a.val (upd (upd i p (i x)) q k) * b.val (upd i r k)).sum⟩
      else .error .value
    | _, _, _, _ => .error .value
  else .error .value

/-- `xr_matmul`, `xarray.py` 106-175 -/
def xrMatmul [Semiring K] (a b : LArr K) (dimsA : List String) (dimsB dimsOut : Option (List String) := none)
    (transA transB : Bool := false) : Except LErr (LArr K) :=
  let dB := dimsB.getD dimsA
  let out := dimsOut.getD (if dimsA.length ≤ dB.length then dimsA else dB)
  applyMul a b (if transA then dimsA.reverse else dimsA) (if transB then dB.reverse else dB) out (decide (dimsA.length > dB.length))

/-- `a + b` with broadcasting -/
def addArr [Add K] (a b : LArr K) : Except LErr (LArr K) :=
  if a.names.all (fun n => n ∉ b.names || a.size n == b.size n) then
    .ok ⟨a.dims ++ b.dims.filter (fun e => e.1 ∉ a.names), fun i => a.val i + b.val i⟩
  else .error .value

/-- `a * -1` -/
def negArr [Neg K] (a : LArr K) : LArr K := ⟨a.dims, fun i => - a.val i⟩

/-- all indices within the lengths of the dimensions -/
def LArr.inRange (a : LArr K) (i : String → ℕ) : Prop := ∀ e ∈ a.dims, i e.1 < e.2

/-- `xr_is_orthogonal_matrix`, `xarray.py` 178-199: whether the product with the transposed array is the unit matrix everywhere -/
def isOrthogonal [Semiring K] (a : LArr K) (x y : String) : Except LErr Prop :=
  if x ∈ a.names ∧ y ∈ a.names then do
    let r ← xrMatmul a a [x, y] none none false true
    .ok (∀ i, r.inRange i → r.val i = if i x = i y then 1 else 0)
  else .error .value

/-! ## Coordinate systems -/

/-- `__add__`, `local_cs.py` 203-211: orientation and coordinates of two systems, the times are equal -/
def addLab [Semiring K] (oL cL oR cR : LArr K) : Except LErr (LArr K × LArr K) := do
  let o ← xrMatmul oR oL ["c", "v"]
  let c ← xrMatmul oR cL ["c", "v"] (some ["c"])
  let c' ← addArr c cR
  .ok (o, c')

/-- `invert`, `local_cs.py` 790-801 -/
def invertLab [Ring K] (o c : LArr K) : Except LErr (LArr K × LArr K) := do
  let o' ← transposeMatrix o "c" "v"
  let c' ← xrMatmul o (negArr c) ["c", "v"] (some ["c"]) none true
  .ok (o', c')

/-- `transform_data`, `cs_manager.py` 1754-1757 -/
def transformLab [Semiring K] (o c data : LArr K) : Except LErr (LArr K) := do
  let m ← xrMatmul o data ["c", "v"] (some ["c"]) (some ["c"])
  addArr m c

end Weldx.Lab
