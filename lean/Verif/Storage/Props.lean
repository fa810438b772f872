import Mathlib.Data.List.Basic
import Mathlib.Data.List.Zip
import Mathlib.Tactic.NormNum
import Mathlib.Algebra.Order.Ring.Int
import Verif.Storage.Model

/-!
# Storage of arrays, data sets and quantities: properties (C77)

Specification: `NdArr.Ok` (the values fit to shape and data type), `Storable` (no scalar truth values and texts), `pyType` (the data type
of a scalar after it has been a Python object), `restored`.
-/

namespace Weldx.Sto

variable {F U A : Type}

/-! ## Specification -/

/-- a value of the data type -/
def DType.holds : DType → Cell F → Prop
  | .float _, .float _ => True
  | .int b, .int z => b ≤ 64 ∧ -bound ≤ z ∧ z < bound
  | .uint b, .int z => b ≤ 64 ∧ 0 ≤ z ∧ z < 2 ^ b
  | .bool, .bool _ => True
  | .datetime, .time _ => True
  | .timedelta, .time _ => True
  | .str, .str _ => True
  | _, _ => False

/-- the number of values is the product of the lengths, all values have the data type -/
def NdArr.Ok (a : NdArr F) : Prop := a.cells.length = a.shape.prod ∧ ∀ c ∈ a.cells, a.dtype.holds c

/-- scalars are numbers or times -/
def Storable (a : NdArr F) : Prop := a.shape = [] → a.dtype ≠ .bool ∧ a.dtype ≠ .str

/-- data type of a value that has been a Python object -/
def pyType : Cell F → DType
  | .float _ => .float 64
  | .int z => if z < bound then .int 64 else .uint 64
  | .bool _ => .bool
  | .time _ => .datetime
  | .str _ => .str

/-- the data type after storage: only the one of scalar numbers can change -/
def restoredType (a : NdArr F) : DType := match a.shape, a.cells with
  | [], [c] => if a.dtype.isTime then a.dtype else pyType c
  | _, _ => a.dtype

/-- the array after storage -/
def restored (a : NdArr F) : NdArr F := { a with dtype := restoredType a }

/-- the array has the data type of the corresponding Python object, or it is not a scalar number -/
def Kept (a : NdArr F) : Prop := restoredType a = a.dtype

/-! ## Arrays without names -/

theorem ok_scalar {a : NdArr F} (h : a.Ok) (hs : a.shape = []) : ∃ c, a.cells = [c] := by
  have := h.1
  rw [hs, List.prod_nil, List.length_eq_one_iff] at this
  exact this

theorem isTime_holds {d : DType} (h : d.isTime = true) {c : Cell F} (hc : d.holds c) : ∃ z, c = .time z := by
  cases d <;> cases h <;> cases c <;> first | exact ⟨_, rfl⟩ | exact hc.elim

theorem toTime_toInt {d : DType} (h : d.isTime = true) {l : List (Cell F)} (hl : ∀ c ∈ l, d.holds c) :
    (l.map Cell.toInt).map Cell.toTime = l := by
  induction l with
  | nil => rfl
  | cons c t ih =>
    obtain ⟨z, rfl⟩ := isTime_holds h (hl c List.mem_cons_self)
    rw [List.map_cons, List.map_cons, ih fun c hc => hl c (List.mem_cons_of_mem _ hc)]
    rfl

theorem ofPython_eq (c : Cell F) : ofPython c = ⟨pyType c, [], [c]⟩ := by
  cases c <;> rfl

/-- writing and reading the data of a variable -/
theorem data_roundtrip {a : NdArr F} (h : a.Ok) :
    (if a.dtype.isTime then NdArr.mk a.dtype (store (convertTime a)).toArr.shape
        ((store (convertTime a)).toArr.cells.map Cell.toTime) else (store (convertTime a)).toArr) = restored a := by
  obtain ⟨d, s, l⟩ := a
  by_cases ht : d.isTime = true
  · have e : (l.map Cell.toInt).map Cell.toTime = l := toTime_toInt ht h.2
    simp only [convertTime, ht, if_true, restored, restoredType]
    cases s with
    | nil =>
      obtain ⟨c, rfl⟩ := ok_scalar h rfl
      obtain ⟨z, rfl⟩ := isTime_holds ht (h.2 c (by simp))
      rfl
    | cons n s =>
      simp only [store, Stored.toArr]
      rw [e]
  · simp only [convertTime, ht, restored, restoredType]
    cases s with
    | nil =>
      obtain ⟨c, rfl⟩ := ok_scalar h rfl
      simp [store, Stored.toArr, ofPython_eq]
    | cons n s => rfl

theorem valid_iff {a : NdArr F} (h : a.Ok) : (store (convertTime a)).valid = true ↔ Storable a := by
  obtain ⟨d, s, l⟩ := a
  cases s with
  | cons n s =>
    have : Storable (⟨d, n :: s, l⟩ : NdArr F) := fun h => by cases h
    simp only [this, iff_true]
    unfold convertTime
    split <;> rfl
  | nil =>
    obtain ⟨c, rfl⟩ := ok_scalar h rfl
    have hc := h.2 c (by simp)
    simp only [Storable, true_imp_iff]
    cases d <;> cases c <;>
      first
        | exact hc.elim
        | simp [convertTime, DType.isTime, store, Stored.valid, Cell.toInt]

/-! ## Variables -/

def XVar.Ok (v : XVar F U A) : Prop := v.data.Ok ∧ v.dims.length = v.data.shape.length

/-- the variable after storage -/
def XVar.restored (v : XVar F U A) : XVar F U A := { v with data := Sto.restored v.data }

theorem writeVar_ok {n : String} {v : XVar F U A} (h : v.Ok) :
    (∃ t, writeVar n v = .ok t ∧ readVar t = (n, v.restored)) ∨ writeVar n v = .error .schema ∧ ¬ Storable v.data := by
  by_cases hv : (store (convertTime v.data)).valid = true
  · refine .inl ⟨⟨n, v.dims, v.data.dtype, store (convertTime v.data), if v.attrs.isEmpty then none else some v.attrs, v.units⟩, ?_, ?_⟩
    · simp only [writeVar, hv, if_true]
    · simp only [readVar]
      rw [data_roundtrip h.1]
      unfold XVar.restored
      congr 1
      cases hx : v.attrs with
      | nil => simp
      | cons a t => simp
  · refine .inr ⟨?_, fun h' => hv ((valid_iff h.1).2 h')⟩
    simp only [writeVar, hv]
    rfl

/-- **C77.** A variable can be written exactly if its data is storable. It keeps its name, dimensions, shape, values, unit, and attributes;
only the data type of scalars can change. -/
theorem C77_variable {n : String} {v : XVar F U A} (h : v.Ok) :
    ((∃ t, writeVar n v = .ok t) ↔ Storable v.data) ∧ ∀ t, writeVar n v = .ok t → ∃ r, readVar t = (n, r) ∧
      r.dims = v.dims ∧ r.data.shape = v.data.shape ∧ r.data.cells = v.data.cells ∧ r.units = v.units ∧ r.attrs = v.attrs ∧
      (r.data.dtype = v.data.dtype ↔ Kept v.data) := by
  rcases writeVar_ok (n := n) h with ⟨t, h1, h2⟩ | ⟨h1, h2⟩
  · refine ⟨⟨fun _ => ?_, fun _ => ⟨t, h1⟩⟩, ?_⟩
    · rw [← valid_iff h.1]
      by_contra hv
      simp only [writeVar, hv] at h1
      cases h1
    · intro t' ht
      rw [h1] at ht
      cases ht
      exact ⟨_, h2, rfl, rfl, rfl, rfl, rfl, Iff.rfl⟩
  · refine ⟨⟨?_, fun h => (h2 h).elim⟩, ?_⟩
    · rintro ⟨t, ht⟩
      rw [h1] at ht
      cases ht
    · intro t ht
      rw [h1] at ht
      cases ht

/-- **C77.** Arrays that are no scalars keep their data type, and times keep it always. Scalars of a number type get the one of Python. -/
theorem C77_kept {a : NdArr F} (h : a.Ok) : Kept a ↔ (a.shape = [] → a.dtype.isTime = false → a.dtype = .float 64 ∨ a.dtype = .bool ∨
    a.dtype = .str ∨ a.dtype = .int 64 ∨ a.dtype = .uint 64 ∧ ∃ z : ℤ, a.cells = [.int z] ∧ bound ≤ z) := by
  obtain ⟨d, s, l⟩ := a
  cases s with
  | cons n s =>
    constructor
    · intro _ h
      cases h
    · intro _
      rfl
  | nil =>
    obtain ⟨c, rfl⟩ := ok_scalar h rfl
    have hc := h.2 c (by simp)
    simp only [Kept, restoredType, true_imp_iff]
    cases d <;> cases c <;> first | exact hc.elim | skip
    · simp [DType.isTime, pyType, eq_comm]
    · rename_i b z
      have h1 : z < bound := hc.2.2
      simp [DType.isTime, pyType, h1, eq_comm]
    · rename_i b z
      by_cases h1 : z < bound
      · simp [DType.isTime, pyType, h1]
      · have h1' : bound ≤ z := not_lt.1 h1
        simp only [DType.isTime, pyType, h1]
        simp [eq_comm, h1']
    · simp [DType.isTime, pyType]
    · simp [DType.isTime]
    · simp [DType.isTime]
    · simp [DType.isTime, pyType]

/-! ## Arrays with coordinates -/

/-- the array after storage -/
def XArr.restored (a : XArr F U A) : XArr F U A :=
  ⟨none, a.main.restored, a.coords.map fun e => (e.1, e.2.restored)⟩

/-- the array could have been created: dimensions and coordinates fit to the data -/
structure XArr.Ok (a : XArr F U A) : Prop where
  main : a.main.Ok
  coords : ∀ e ∈ a.coords, e.2.Ok
  names : (Dict.keys a.coords).Nodup
  fits : ∀ e ∈ a.coords, ∀ p ∈ e.2.sizes, Dict.get? a.main.sizes p.1 = some p.2
  index : ∀ e ∈ a.coords, ∀ s, Dict.get? a.main.sizes e.1 = some s → e.2.data.shape = [s]

/-- all data is storable -/
def XArr.Storable (a : XArr F U A) : Prop := Sto.Storable a.main.data ∧ ∀ e ∈ a.coords, Sto.Storable e.2.data

theorem mapM_ok {l : List (String × XVar F U A)} (h : ∀ e ∈ l, e.2.Ok) :
    (∃ ts, l.mapM (fun e => writeVar e.1 e.2) = .ok ts ∧ ts.map readVar = l.map (fun e => (e.1, e.2.restored)) ∧
      ∀ e ∈ l, Storable e.2.data) ∨
    l.mapM (fun e => writeVar e.1 e.2) = .error .schema ∧ ¬ ∀ e ∈ l, Storable e.2.data := by
  induction l with
  | nil => exact .inl ⟨[], rfl, rfl, fun e h => by cases h⟩
  | cons e l ih =>
    have ih := ih fun e he => h e (List.mem_cons_of_mem _ he)
    rcases writeVar_ok (n := e.1) (h e List.mem_cons_self) with ⟨t, h1, h2⟩ | ⟨h1, h2⟩
    · have hst : Storable e.2.data := ((C77_variable (n := e.1) (h e List.mem_cons_self)).1).1 ⟨t, h1⟩
      rcases ih with ⟨ts, h3, h4, h5⟩ | ⟨h3, h4⟩
      · refine .inl ⟨t :: ts, ?_, ?_, ?_⟩
        · rw [List.mapM_cons, h1, h3]; rfl
        · rw [List.map_cons, h2, h4]; rfl
        · intro x hx
          rcases List.mem_cons.1 hx with rfl | hx
          · exact hst
          · exact h5 x hx
      · refine .inr ⟨?_, fun hh => h4 fun x hx => hh x (List.mem_cons_of_mem _ hx)⟩
        rw [List.mapM_cons, h1, h3]; rfl
    · refine .inr ⟨?_, fun hh => h2 (hh e List.mem_cons_self)⟩
      rw [List.mapM_cons, h1]; rfl

theorem keys_restored (l : List (String × XVar F U A)) : Dict.keys (l.map fun e => (e.1, e.2.restored)) = Dict.keys l := by
  simp [Dict.keys, Function.comp_def]

theorem update_nil {l : List (String × XVar F U A)} (h : (Dict.keys l).Nodup) : Dict.update [] l = l := by
  have := Dict.update_of_disjoint (d := []) h (by intro k _ hk; cases hk)
  simpa using this

theorem mkArr_restored {a : XArr F U A} (h : a.Ok) :
    mkArr a.main.restored (a.coords.map fun e => (e.1, e.2.restored)) = .ok a.restored := by
  have hc : ∀ e ∈ a.coords, checkCoord a.main.restored (e.1, e.2.restored) = true := by
    intro e he
    have h1 := (h.coords e he).2
    have h2 := h.fits e he
    have h3 := h.index e he
    have hs : a.main.restored.sizes = a.main.sizes := rfl
    have hs' : e.2.restored.sizes = e.2.sizes := rfl
    simp only [checkCoord, hs, hs', Bool.and_eq_true, beq_iff_eq, List.all_eq_true]
    refine ⟨⟨h1, h2⟩, ?_⟩
    split
    · rename_i s hx
      exact beq_iff_eq.2 (h3 s hx)
    · rfl
  have hm : (a.main.restored.dims.length == a.main.restored.data.shape.length) = true := beq_iff_eq.2 h.main.2
  have hall : (a.coords.map fun e => (e.1, e.2.restored)).all (checkCoord a.main.restored) = true := by
    rw [List.all_eq_true]
    intro x hx
    obtain ⟨e, he, rfl⟩ := List.mem_map.1 hx
    exact hc e he
  simp only [mkArr, hm, hall, Bool.and_self, if_true]
  rfl

/-- **C77.** An array can be written exactly if its data and coordinates are storable. What is written can be read, and the result is the
array without its name and with the Python types of scalars. -/
theorem C77_array {a : XArr F U A} (h : a.Ok) :
    ((∃ t, writeArr a = .ok t) ↔ a.Storable) ∧ ∀ t, writeArr a = .ok t → readArr t = .ok a.restored := by
  rcases mapM_ok h.coords with ⟨ts, h1, h2, h3⟩ | ⟨h1, h2⟩
  · rcases writeVar_ok (n := "data") (v := { a.main with attrs := [] }) h.main with ⟨t, h4, h5⟩ | ⟨h4, h5⟩
    · have hw : writeArr a = .ok ⟨a.main.attrs, ts, t⟩ := by
        simp only [writeArr, h1, h4, bind, Except.bind]
      refine ⟨⟨fun _ => ⟨?_, h3⟩, fun _ => ⟨_, hw⟩⟩, ?_⟩
      · exact ((C77_variable (n := "data") (v := { a.main with attrs := [] }) h.main).1).1 ⟨t, h4⟩
      · intro t' ht
        rw [hw] at ht
        cases ht
        simp only [readArr, h5]
        rw [h2, update_nil (by rw [keys_restored]; exact h.names)]
        exact mkArr_restored h
    · have hw : writeArr a = .error .schema := by
        simp only [writeArr, h1, h4, bind, Except.bind]
      refine ⟨⟨?_, fun hh => (h5 hh.1).elim⟩, ?_⟩
      · rintro ⟨t, ht⟩; rw [hw] at ht; cases ht
      · intro t ht; rw [hw] at ht; cases ht
  · have hw : writeArr a = .error .schema := by
      simp only [writeArr, h1, bind, Except.bind]
    refine ⟨⟨?_, fun hh => (h2 hh.2).elim⟩, ?_⟩
    · rintro ⟨t, ht⟩; rw [hw] at ht; cases ht
    · intro t ht; rw [hw] at ht; cases ht

theorem restored_eq_iff (a : NdArr F) : restored a = a ↔ Kept a := by
  obtain ⟨d, s, l⟩ := a
  simp [restored, Kept]

theorem XVar.restored_eq_iff (v : XVar F U A) : v.restored = v ↔ Kept v.data := by
  obtain ⟨d, x, u, at'⟩ := v
  simp [XVar.restored, Sto.restored_eq_iff]

/-- **C77.** The array that is read is the one that was written exactly if it has no name and no scalar changes its data type. -/
theorem C77_array_same {a : XArr F U A} (h : a.Ok) {t : ArrTree F U A} (ht : writeArr a = .ok t) :
    readArr t = .ok a ↔ a.name = none ∧ Kept a.main.data ∧ ∀ e ∈ a.coords, Kept e.2.data := by
  rw [(C77_array h).2 t ht]
  obtain ⟨n, m, cs⟩ := a
  have hl : ∀ l : List (String × XVar F U A), l.map (fun e => (e.1, e.2.restored)) = l ↔ ∀ e ∈ l, Kept e.2.data := by
    intro l
    induction l with
    | nil => simp
    | cons e l ih => 
      obtain ⟨k, v⟩ := e
      simp [ih, XVar.restored_eq_iff]
  simp only [XArr.restored, Except.ok.injEq, XArr.mk.injEq, XVar.restored_eq_iff, hl, eq_comm (a := none)]

/-- **C77.** Values, dimensions, units, attributes, and coordinates never change. -/
theorem C77_array_values {a b : XArr F U A} (h : a.Ok) {t : ArrTree F U A} (ht : writeArr a = .ok t) (hr : readArr t = .ok b) :
    b.main.dims = a.main.dims ∧ b.main.data.shape = a.main.data.shape ∧ b.main.data.cells = a.main.data.cells ∧
      b.main.units = a.main.units ∧ b.main.attrs = a.main.attrs ∧ Dict.keys b.coords = Dict.keys a.coords ∧
      ∀ k v, Dict.get? a.coords k = some v → ∃ w, Dict.get? b.coords k = some w ∧ w.dims = v.dims ∧ w.data.shape = v.data.shape ∧
        w.data.cells = v.data.cells ∧ w.units = v.units ∧ w.attrs = v.attrs := by
  rw [(C77_array h).2 t ht] at hr
  cases hr
  refine ⟨rfl, rfl, rfl, rfl, rfl, keys_restored _, ?_⟩
  intro k v hk
  have hm := Dict.mem_of_get? hk
  refine ⟨v.restored, ?_, rfl, rfl, rfl, rfl, rfl⟩
  refine Dict.get?_of_mem ?_ (List.mem_map.2 ⟨_, hm, rfl⟩)
  exact (keys_restored a.coords).symm ▸ h.names

theorem restoredType_idem {a : NdArr F} (h : a.Ok) : Kept (restored a) := by
  obtain ⟨d, s, l⟩ := a
  cases s with
  | cons n s => rfl
  | nil =>
    obtain ⟨c, rfl⟩ := ok_scalar h rfl
    have hc := h.2 c (by simp)
    cases d <;> cases c <;> first | exact hc.elim | skip
    all_goals simp [Kept, restored, restoredType, pyType, DType.isTime]
    all_goals intros; split_ifs at * <;> simp_all

theorem restored_ok {a : NdArr F} (h : a.Ok) : (restored a).Ok := by
  obtain ⟨d, s, l⟩ := a
  refine ⟨h.1, ?_⟩
  intro c hc
  cases s with
  | cons n s => exact h.2 c hc
  | nil =>
    obtain ⟨c', rfl⟩ := ok_scalar h rfl
    have hc' := h.2 c' (by simp)
    simp only [restored, List.mem_singleton] at hc
    subst hc
    cases d <;> cases c <;> first | exact hc'.elim | skip
    · exact trivial
    · have h1 := hc'.2.2
      simp only [restored, restoredType, DType.isTime, pyType, h1, if_true]
      exact ⟨le_refl _, hc'.2⟩
    · rename_i b z
      obtain ⟨hb, h0, h1⟩ := hc'
      simp only [restored, restoredType, DType.isTime, pyType]
      by_cases h2 : z < bound
      · simp only [h2, if_true]
        exact ⟨le_refl _, le_trans (by norm_num [bound]) h0, h2⟩
      · simp only [h2, if_false]
        refine ⟨le_refl _, h0, lt_of_lt_of_le h1 ?_⟩
        exact pow_le_pow_right₀ (by norm_num) hb
    · exact trivial
    · exact trivial
    · exact trivial
    · exact trivial

theorem restored_storable {a : NdArr F} (h : a.Ok) (hs : Storable a) : Storable (restored a) := by
  obtain ⟨d, s, l⟩ := a
  intro h0
  obtain ⟨c, rfl⟩ := ok_scalar h h0
  have hc := h.2 c (by simp)
  have := hs h0
  simp only [restored] at h0
  subst h0
  cases d <;> cases c <;> first | exact hc.elim | skip
  all_goals simp [restored, restoredType, pyType, DType.isTime] at this ⊢
  all_goals split_ifs <;> simp

theorem XVar.restored_ok {v : XVar F U A} (h : v.Ok) : v.restored.Ok := ⟨Sto.restored_ok h.1, h.2⟩

theorem XArr.restored_ok {a : XArr F U A} (h : a.Ok) : a.restored.Ok where
  main := XVar.restored_ok h.main
  coords := by
    intro e he
    obtain ⟨e', he', rfl⟩ := List.mem_map.1 he
    exact XVar.restored_ok (h.coords e' he')
  names := by
    simp only [XArr.restored]
    rw [keys_restored]
    exact h.names
  fits := by
    intro e he
    obtain ⟨e', he', rfl⟩ := List.mem_map.1 he
    exact h.fits e' he'
  index := by
    intro e he
    obtain ⟨e', he', rfl⟩ := List.mem_map.1 he
    exact h.index e' he'

/-- **C77.** An array that has been read can be written again, and then nothing changes any more. -/
theorem C77_array_again {a b : XArr F U A} (h : a.Ok) {t : ArrTree F U A} (ht : writeArr a = .ok t) (hr : readArr t = .ok b) :
    ∃ t', writeArr b = .ok t' ∧ readArr t' = .ok b := by
  have hst := ((C77_array h).1).1 ⟨t, ht⟩
  rw [(C77_array h).2 t ht] at hr
  cases hr
  have hb := XArr.restored_ok h
  obtain ⟨t', ht'⟩ := ((C77_array hb).1).2 ⟨restored_storable h.main.1 hst.1, by
    intro e he
    obtain ⟨e', he', rfl⟩ := List.mem_map.1 he
    exact restored_storable (h.coords e' he').1 (hst.2 e' he')⟩
  refine ⟨t', ht', (C77_array_same hb ht').2 ⟨rfl, restoredType_idem h.main.1, ?_⟩⟩
  intro e he
  obtain ⟨e', he', rfl⟩ := List.mem_map.1 he
  exact restoredType_idem (h.coords e' he').1

/-! ## Data sets -/

/-- the data set could have been created -/
structure XSet.Ok (a : XSet F U A) : Prop where
  vars : ∀ e ∈ a.vars, e.2.Ok
  coords : ∀ e ∈ a.coords, e.2.Ok
  varNames : (Dict.keys a.vars).Nodup
  coordNames : (Dict.keys a.coords).Nodup
  made : mkSet a.vars a.coords a.attrs = .ok a

def XSet.Storable (a : XSet F U A) : Prop := (∀ e ∈ a.vars, Sto.Storable e.2.data) ∧ ∀ e ∈ a.coords, Sto.Storable e.2.data

def XSet.restored (a : XSet F U A) : XSet F U A :=
  ⟨a.vars.map fun e => (e.1, e.2.restored), a.coords.map fun e => (e.1, e.2.restored), a.attrs⟩

theorem sizesOf_restored (l : List (String × XVar F U A)) : sizesOf (l.map fun e => (e.1, e.2.restored)) = sizesOf l := by
  unfold sizesOf
  rw [List.foldl_map]
  rfl

theorem mkSet_restored {a : XSet F U A} (h : a.Ok) :
    mkSet (a.vars.map fun e => (e.1, e.2.restored)) (a.coords.map fun e => (e.1, e.2.restored)) a.attrs = .ok a.restored := by
  have hm := h.made
  simp only [mkSet] at hm ⊢
  rw [← List.map_append, sizesOf_restored]
  split at hm
  · rename_i hc
    rw [if_pos]
    · rfl
    · rw [List.all_map, List.all_map, List.all_map, keys_restored]
      exact hc
  · cases hm

/-- **C77.** A data set can be written exactly if all of its variables are storable. The result of reading is the data set with the Python
types of scalars. -/
theorem C77_set {a : XSet F U A} (h : a.Ok) :
    ((∃ t, writeSet a = .ok t) ↔ a.Storable) ∧ ∀ t, writeSet a = .ok t → readSet t = .ok a.restored := by
  rcases mapM_ok h.coords with ⟨ts, h1, h2, h3⟩ | ⟨h1, h2⟩
  · rcases mapM_ok h.vars with ⟨ts', h4, h5, h6⟩ | ⟨h4, h5⟩
    · have hw : writeSet a = .ok ⟨a.attrs, ts, sizesOf (a.vars ++ a.coords), ts'⟩ := by
        simp only [writeSet, h1, h4, bind, Except.bind]
      refine ⟨⟨fun _ => ⟨h6, h3⟩, fun _ => ⟨_, hw⟩⟩, ?_⟩
      intro t ht
      rw [hw] at ht
      cases ht
      simp only [readSet]
      rw [h2, h5, update_nil (by rw [keys_restored]; exact h.varNames), update_nil (by rw [keys_restored]; exact h.coordNames)]
      exact mkSet_restored h
    · have hw : writeSet a = .error .schema := by
        simp only [writeSet, h1, h4, bind, Except.bind]
      refine ⟨⟨?_, fun hh => (h5 hh.1).elim⟩, ?_⟩
      · rintro ⟨t, ht⟩; rw [hw] at ht; cases ht
      · intro t ht; rw [hw] at ht; cases ht
  · have hw : writeSet a = .error .schema := by
      simp only [writeSet, h1, bind, Except.bind]
    refine ⟨⟨?_, fun hh => (h2 hh.2).elim⟩, ?_⟩
    · rintro ⟨t, ht⟩; rw [hw] at ht; cases ht
    · intro t ht; rw [hw] at ht; cases ht

/-- **C77.** The data set that is read is the one that was written exactly if no scalar changes its data type. -/
theorem C77_set_same {a : XSet F U A} (h : a.Ok) {t : SetTree F U A} (ht : writeSet a = .ok t) :
    readSet t = .ok a ↔ (∀ e ∈ a.vars, Kept e.2.data) ∧ ∀ e ∈ a.coords, Kept e.2.data := by
  rw [(C77_set h).2 t ht]
  obtain ⟨vs, cs, at'⟩ := a
  have hl : ∀ l : List (String × XVar F U A), l.map (fun e => (e.1, e.2.restored)) = l ↔ ∀ e ∈ l, Kept e.2.data := by
    intro l
    induction l with
    | nil => simp
    | cons e l ih =>
      obtain ⟨k, v⟩ := e
      simp [ih, XVar.restored_eq_iff]
  simp only [XSet.restored, Except.ok.injEq, XSet.mk.injEq, hl, and_true]

theorem sizes_mem_foldl (l : List (String × XVar F U A)) (acc : List (String × ℕ)) (d : String) :
    d ∈ Dict.keys (l.foldl (fun acc e => Dict.update acc e.2.sizes) acc) ↔ d ∈ Dict.keys acc ∨ ∃ e ∈ l, d ∈ Dict.keys e.2.sizes := by
  induction l generalizing acc with
  | nil => simp
  | cons e l ih =>
    rw [List.foldl_cons, ih, Dict.mem_keys_update]
    simp only [List.mem_cons, exists_eq_or_imp, or_assoc]

theorem keys_sizes {v : XVar F U A} (h : v.Ok) : Dict.keys v.sizes = v.dims := by
  unfold Dict.keys XVar.sizes
  exact List.map_fst_zip (le_of_eq h.2)

/-- **C77.** The stored dimensions are those of the variables with their lengths. -/
theorem C77_set_dimensions {a : XSet F U A} (h : a.Ok) {t : SetTree F U A} (ht : writeSet a = .ok t) :
    (∀ d, d ∈ Dict.keys t.dimensions ↔ ∃ e ∈ a.vars ++ a.coords, d ∈ e.2.dims) ∧
      ∀ e ∈ a.vars ++ a.coords, ∀ p ∈ e.2.sizes, Dict.get? t.dimensions p.1 = some p.2 := by
  have hd : t.dimensions = sizesOf (a.vars ++ a.coords) := by
    simp only [writeSet, bind, Except.bind] at ht
    split at ht
    · cases ht
    · split at ht
      · cases ht
      · cases ht; rfl
  have hok : ∀ e ∈ a.vars ++ a.coords, e.2.Ok := by
    intro e he
    rcases List.mem_append.1 he with he | he
    · exact h.vars e he
    · exact h.coords e he
  rw [hd]
  constructor
  · intro d
    unfold sizesOf
    rw [sizes_mem_foldl]
    constructor
    · rintro (h0 | ⟨e, he, h1⟩)
      · cases h0
      · rw [keys_sizes (hok e he)] at h1
        exact ⟨e, he, h1⟩
    · rintro ⟨e, he, h1⟩
      rw [← keys_sizes (hok e he)] at h1
      exact .inr ⟨e, he, h1⟩
  · have hm := h.made
    simp only [mkSet] at hm
    split at hm
    · rename_i hc
      simp only [Bool.and_eq_true] at hc
      have := List.all_eq_true.1 hc.1.1
      intro e he p hp
      have := this e he
      simp only [Bool.and_eq_true, List.all_eq_true, beq_iff_eq] at this
      exact this.2 p hp
    · cases hm

/-! ## Quantities -/

/-- **C77.** A quantity can be written exactly if it is a number or an array, it keeps unit, shape, and values, and all except scalars keep
the data type. -/
theorem C77_quantity {q : Qty F U} (h : q.value.Ok) (hn : q.value.dtype.isTime = false) :
    ((∃ t, writeQty q = .ok t) ↔ Storable q.value) ∧ ∀ t, writeQty q = .ok t → readQty t = ⟨restored q.value, q.units⟩ := by
  obtain ⟨a, u⟩ := q
  have e : convertTime a = a := by simp [convertTime, hn]
  have hv := valid_iff h
  have hr := data_roundtrip h
  simp only [e, hn] at hv hr
  constructor
  · rw [← hv]
    simp only [writeQty]
    split <;> simp_all
  · intro t ht
    simp only [writeQty] at ht
    split at ht
    · cases ht
      simp only [readQty]
      exact congrArg (Qty.mk · u) hr
    · cases ht

/-! ## Comparison -/

/-- the same dimensions, values, units, and attributes; data types are not compared -/
def XVar.Identical (v w : XVar F U A) : Prop := v.dims = w.dims ∧ v.data.shape = w.data.shape ∧ v.data.cells = w.data.cells ∧
  v.units = w.units ∧ v.attrs = w.attrs

/-- `DataArray.identical` -/
def XArr.Identical (a b : XArr F U A) : Prop := a.name = b.name ∧ a.main.Identical b.main ∧
  (∀ k, k ∈ Dict.keys a.coords ↔ k ∈ Dict.keys b.coords) ∧
  ∀ k v w, Dict.get? a.coords k = some v → Dict.get? b.coords k = some w → v.Identical w

theorem get?_restored (l : List (String × XVar F U A)) (k : String) :
    Dict.get? (l.map fun e => (e.1, e.2.restored)) k = (Dict.get? l k).map XVar.restored := by
  induction l with
  | nil => rfl
  | cons e l ih =>
    obtain ⟨a, b⟩ := e
    simp only [List.map_cons, Dict.get?]
    split
    · rfl
    · exact ih

/-- **C77.** `identical` finds no difference exactly if the array has no name. -/
theorem C77_array_identical {a : XArr F U A} (h : a.Ok) {t : ArrTree F U A} (ht : writeArr a = .ok t) :
    ∃ b, readArr t = .ok b ∧ (b.Identical a ↔ a.name = none) := by
  refine ⟨_, (C77_array h).2 t ht, ?_⟩
  constructor
  · intro hi
    exact hi.1.symm
  · intro hn
    refine ⟨hn.symm, ⟨rfl, rfl, rfl, rfl, rfl⟩, ?_, ?_⟩
    · intro k
      simp only [XArr.restored]
      rw [keys_restored]
    · intro k v w hv hw
      simp only [XArr.restored] at hv
      rw [get?_restored, hw] at hv
      cases hv
      exact ⟨rfl, rfl, rfl, rfl, rfl⟩

/-! ## What is lost -/

/-- **C77, refutation.** The name of an array is lost. -/
theorem C77_name_lost {a : XArr F U A} (h : a.Ok) {n : String} (hn : a.name = some n) {t : ArrTree F U A} (ht : writeArr a = .ok t) :
    readArr t ≠ .ok a := by
  rw [Ne, C77_array_same h ht, hn]
  rintro ⟨h, _⟩
  cases h

/-- **C77, refutation.** Scalars of shorter number types change their data type. -/
theorem C77_scalar_type : ∃ v : XVar ℤ String String, v.Ok ∧ Storable v.data ∧ ∀ n t, writeVar n v = .ok t → (readVar t).2 ≠ v := by
  refine ⟨⟨[], ⟨.float 32, [], [.float 1]⟩, none, []⟩, ⟨⟨rfl, by simp [DType.holds]⟩, rfl⟩, by simp [Storable], ?_⟩
  intro n t ht
  cases ht
  simp [readVar, store, convertTime, DType.isTime, Stored.toArr, ofPython]

/-- **C77, refutation.** Scalar truth values can not be written. -/
theorem C77_scalar_bool (b : Bool) (u : Option U) (at' : List (String × A)) (n : String) :
    (⟨[], ⟨.bool, [], [.bool b]⟩, u, at'⟩ : XVar F U A).Ok ∧ writeVar n (⟨[], ⟨.bool, [], [.bool b]⟩, u, at'⟩ : XVar F U A) = .error .schema :=
  ⟨⟨⟨rfl, by simp [DType.holds]⟩, rfl⟩, rfl⟩

/-- **C77.** Scalar integers of 64 bits keep their data type; unsigned ones only if they are too large for signed integers. -/
theorem C77_integers (z : ℤ) :
    (-2 ^ 63 ≤ z → z < 2 ^ 63 → (⟨.int 64, [], [.int z]⟩ : NdArr F).Ok ∧ Kept (⟨.int 64, [], [.int z]⟩ : NdArr F)) ∧
    (0 ≤ z → z < 2 ^ 64 → (⟨.uint 64, [], [.int z]⟩ : NdArr F).Ok ∧ (Kept (⟨.uint 64, [], [.int z]⟩ : NdArr F) ↔ 2 ^ 63 ≤ z)) := by
  constructor
  · intro h1 h2
    have h : (⟨.int 64, [], [.int z]⟩ : NdArr F).Ok := by
      refine ⟨rfl, ?_⟩
      simp only [List.mem_singleton, forall_eq, DType.holds, bound]
      exact ⟨le_rfl, h1, h2⟩
    refine ⟨h, (C77_kept h).2 ?_⟩
    intro _ _
    exact .inr (.inr (.inr (.inl rfl)))
  · intro h1 h2
    have h : (⟨.uint 64, [], [.int z]⟩ : NdArr F).Ok := by
      refine ⟨rfl, ?_⟩
      simp only [List.mem_singleton, forall_eq, DType.holds]
      exact ⟨le_rfl, h1, h2⟩
    refine ⟨h, ?_⟩
    rw [C77_kept h]
    constructor
    · intro hk
      rcases hk rfl rfl with hk | hk | hk | hk | ⟨_, w, hw, hb⟩
      · cases hk
      · cases hk
      · cases hk
      · cases hk
      · cases hw
        exact hb
    · intro hz _ _
      exact .inr (.inr (.inr (.inr ⟨rfl, z, rfl, hz⟩)))

/-- **C77.** A file with a coordinate whose dimensions do not fit to those of the data can not be read. -/
theorem C77_misfit (at' : List (String × A)) (c d : VarTree F U A)
    (h : ∃ p ∈ (readVar c).2.sizes, Dict.get? (readVar d).2.sizes p.1 ≠ some p.2) : readArr ⟨at', [c], d⟩ = .error .value := by
  obtain ⟨p, hp, hn⟩ := h
  unfold readArr mkArr
  rw [if_neg]
  intro hc
  simp only [Bool.and_eq_true, List.all_eq_true] at hc
  have h1 := hc.2 (readVar c) (by simp [Dict.update, Dict.set])
  simp only [checkCoord, Bool.and_eq_true, List.all_eq_true] at h1
  exact hn (eq_of_beq (h1.1.2 p hp))

/-- the hypothesis of `C77_misfit` can be met: three times for two values -/
example : ∃ (c d : VarTree ℤ String String) , writeVar "time" ⟨["time"], ⟨.timedelta, [3], [.time 0, .time 1, .time 2]⟩, none, []⟩ = .ok c ∧
    writeVar "data" ⟨["time"], ⟨.float 64, [2], [.float 0, .float 1]⟩, none, []⟩ = .ok d ∧
    ∃ p ∈ (readVar c).2.sizes, Dict.get? (readVar d).2.sizes p.1 ≠ some p.2 :=
  ⟨_, _, rfl, rfl, ("time", 3), by simp [readVar, XVar.sizes, store, convertTime, DType.isTime, Stored.toArr],
    by simp [readVar, XVar.sizes, store, convertTime, DType.isTime, Stored.toArr, Dict.get?]⟩

namespace Demo

/-- two values at two times, in volt -/
def arr : XArr ℤ String String :=
  ⟨none, ⟨["time"], ⟨.float 32, [2], [.float 3, .float 4]⟩, some "V", [("author", "me")]⟩,
    [("time", ⟨["time"], ⟨.timedelta, [2], [.time 0, .time 1000]⟩, none, [("time_ref", "2020-01-01")]⟩),
     ("start", ⟨[], ⟨.datetime, [], [.time 5]⟩, none, []⟩)]⟩

theorem arr_ok : arr.Ok where
  main := ⟨⟨rfl, by simp [arr, DType.holds]⟩, rfl⟩
  coords := by
    intro e he
    simp only [arr, List.mem_cons, List.not_mem_nil, or_false] at he
    rcases he with rfl | rfl
    · exact ⟨⟨rfl, by simp [DType.holds]⟩, rfl⟩
    · exact ⟨⟨rfl, by simp [DType.holds]⟩, rfl⟩
  names := by simp [arr, Dict.keys]
  fits := by
    intro e he
    simp only [arr, List.mem_cons, List.not_mem_nil, or_false] at he
    rcases he with rfl | rfl <;> simp [XVar.sizes, arr, Dict.get?]
  index := by
    intro e he
    simp only [arr, List.mem_cons, List.not_mem_nil, or_false] at he
    rcases he with rfl | rfl <;> simp [XVar.sizes, arr, Dict.get?]

theorem arr_storable : arr.Storable := by
  refine ⟨by simp [arr, Storable], ?_⟩
  intro e he
  simp only [arr, List.mem_cons, List.not_mem_nil, or_false] at he
  rcases he with rfl | rfl <;> simp [Storable]

/-- C77: the array is unchanged -/
example : ∃ t, writeArr arr = .ok t ∧ readArr t = .ok arr := by
  obtain ⟨t, ht⟩ := ((C77_array arr_ok).1).2 arr_storable
  refine ⟨t, ht, (C77_array_same arr_ok ht).2 ⟨rfl, rfl, ?_⟩⟩
  intro e he
  simp only [arr, List.mem_cons, List.not_mem_nil, or_false] at he
  rcases he with rfl | rfl <;> rfl

/-- C77: with a name it is not -/
example : ∃ t, writeArr { arr with name := some "U" } = .ok t ∧ readArr t ≠ .ok { arr with name := some "U" } := by
  have hok : ({ arr with name := some "U" } : XArr ℤ String String).Ok := ⟨arr_ok.main, arr_ok.coords, arr_ok.names, arr_ok.fits, arr_ok.index⟩
  obtain ⟨t, ht⟩ := ((C77_array hok).1).2 arr_storable
  exact ⟨t, ht, C77_name_lost hok rfl ht⟩

/-- a data set with a scalar and an array -/
def set : XSet ℤ String String := ⟨[("a", arr.main), ("b", ⟨[], ⟨.int 32, [], [.int 7]⟩, none, []⟩)], arr.coords, []⟩

theorem set_ok : set.Ok where
  vars := by
    intro e he
    simp only [set, List.mem_cons, List.not_mem_nil, or_false] at he
    rcases he with rfl | rfl
    · exact arr_ok.main
    · exact ⟨⟨rfl, by simp [DType.holds, bound]⟩, rfl⟩
  coords := arr_ok.coords
  varNames := by simp [set, Dict.keys]
  coordNames := arr_ok.names
  made := by
    simp only [mkSet]
    exact if_pos rfl

/-- C77: the scalar of the data set changes its type -/
example : ∃ t, writeSet set = .ok t ∧ readSet t ≠ .ok set := by
  obtain ⟨t, ht⟩ := ((C77_set set_ok).1).2 ⟨by
    intro e he
    simp only [set, List.mem_cons, List.not_mem_nil, or_false] at he
    rcases he with rfl | rfl <;> simp [arr, Storable], arr_storable.2⟩
  refine ⟨t, ht, ?_⟩
  rw [Ne, C77_set_same set_ok ht]
  rintro ⟨h, _⟩
  have := h _ (List.mem_cons_of_mem _ List.mem_cons_self)
  simp [Kept, restoredType, DType.isTime, pyType, bound] at this

end Demo

end Weldx.Sto
