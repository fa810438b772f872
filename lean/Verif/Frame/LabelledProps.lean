import Verif.Frame.Labelled
import Verif.Frame.Lemmas
import Mathlib.Data.List.Nodup
import Mathlib.Tactic.Abel

/-!
# Matrix operations on arrays with named dimensions: properties (C79)
-/

namespace Weldx.Lab

open Matrix

variable {K : Type}

/-! ## Specification: matrices and vectors inside of arrays -/

/-- the names of dimensions are distinct and values depend on nothing but the indices of the dimensions -/
def LArr.Ok (a : LArr K) : Prop := a.names.Nodup ∧ ∀ i j : String → ℕ, (∀ n ∈ a.names, i n = j n) → a.val i = a.val j

/-- the index `i`, moved along two dimensions -/
def at2 (i : String → ℕ) (x y : String) (r c : ℕ) : String → ℕ := fun n => if n = y then c else if n = x then r else i n

/-- the matrix with rows along `x` and columns along `y` at the position `i` of the other dimensions -/
def mat (a : LArr K) (x y : String) (i : String → ℕ) (m n : ℕ) : Matrix (Fin m) (Fin n) K := Matrix.of fun r c => a.val (at2 i x y r c)

/-- the vector along `x` -/
def vec (a : LArr K) (x : String) (i : String → ℕ) (m : ℕ) : Fin m → K := fun r => a.val fun n => if n = x then r else i n

/-! ## Transposition -/

def sw (x y n : String) : String := if n = x then y else if n = y then x else n

theorem sw_sw (x y n : String) : sw x y (sw x y n) = n := by
  unfold sw; split_ifs <;> simp_all

theorem sw_inj (x y : String) : Function.Injective (sw x y) := fun a b h => by rw [← sw_sw x y a, h, sw_sw]

theorem swapItems_eq {l : List String} (hl : l.Nodup) {x y : String} (hx : x ∈ l) (hy : y ∈ l) :
    swapItems l x y = .ok (l.map (sw x y)) := by
  unfold swapItems
  rw [if_pos ⟨hx, hy⟩]
  show Except.ok _ = Except.ok _
  congr 1
  have ha := List.idxOf_lt_length_iff.mpr hx
  have hb := List.idxOf_lt_length_iff.mpr hy
  apply List.ext_getElem
  · simp
  · intro k h1 h2
    have hk : k < l.length := by simpa using h2
    have e1 : l.getD (l.idxOf x) "" = x := by simp [List.getD_eq_getElem?_getD, List.getElem?_eq_getElem ha]
    have e2 : l.getD (l.idxOf y) "" = y := by simp [List.getD_eq_getElem?_getD, List.getElem?_eq_getElem hb]
    have k1 : l.idxOf x = k ↔ l[k] = x := by
      constructor
      · rintro rfl; exact List.getElem_idxOf ha
      · intro e; rw [← e]; exact hl.idxOf_getElem k hk
    have k2 : l.idxOf y = k ↔ l[k] = y := by
      constructor
      · rintro rfl; exact List.getElem_idxOf hb
      · intro e; rw [← e]; exact hl.idxOf_getElem k hk
    simp only [List.getElem_set, e1, e2, k1, k2, List.getElem_map, sw]

theorem idxOf_map {f : String → String} (hf : Function.Injective f) (l : List String) (n : String) :
    (l.map f).idxOf (f n) = l.idxOf n := by
  induction l with
  | nil => rfl
  | cons h t ih =>
    by_cases hh : h = n
    · subst hh; simp
    · rw [List.map_cons, List.idxOf_cons_ne _ (fun e => hh (hf e)), List.idxOf_cons_ne _ hh, ih]

theorem size_mem {a : LArr K} {d : String} : (a.size d).isSome ↔ d ∈ a.names := by
  unfold LArr.size LArr.names
  induction a.dims with
  | nil => simp [Dict.get?]
  | cons e t ih =>
    by_cases h : e.1 = d
    · simp [Dict.get?, h]
    · simp only [Dict.get?, h, if_false, ih, List.map_cons, List.mem_cons]
      constructor
      · exact Or.inr
      · rintro (h' | h')
        · exact absurd h'.symm h
        · exact h'

theorem shape_eq {l : List (String × ℕ)} (hl : (l.map Prod.fst).Nodup) :
    l.map Prod.snd = (l.map Prod.fst).map fun d => (Dict.get? l d).getD 0 := by
  induction l with
  | nil => rfl
  | cons e t ih =>
    simp only [List.map_cons, List.nodup_cons] at hl ⊢
    congr 1
    · simp [Dict.get?]
    · rw [ih hl.2]
      apply List.map_congr_left
      intro d hd
      have : e.1 ≠ d := fun h => hl.1 (h ▸ hd)
      simp [Dict.get?, this]

theorem getD_idxOf {l : List String} {n : String} (h : n ∈ l) : l.getD (l.idxOf n) "" = n := by
  simp [List.getD_eq_getElem?_getD, List.getElem?_eq_getElem (List.idxOf_lt_length_iff.mpr h)]

theorem transpose_eq {a : LArr K} (ha : a.Ok) {x y : String} (hx : x ∈ a.names) (hy : y ∈ a.names) :
    transposeMatrix a x y =
      if a.size x = a.size y then .ok ⟨a.dims, fun i => a.val fun n => i (a.names.getD ((a.names.map (sw x y)).idxOf n) "")⟩
      else .error .value := by
  have hs : (a.transpose (a.names.map (sw x y))).names = a.names.map (sw x y) := by
    simp [LArr.transpose, LArr.names, List.map_map, Function.comp_def]
  have hshape : (a.transpose (a.names.map (sw x y))).shape = a.shape ↔ a.size x = a.size y := by
    have : a.shape = a.names.map fun d => (a.size d).getD 0 := shape_eq ha.1
    rw [this]
    simp only [LArr.transpose, LArr.shape, List.map_map, Function.comp_def]
    rw [List.map_inj_left]
    constructor
    · intro h
      have := h x hx
      simp only [sw, if_true] at this
      obtain ⟨u, hu⟩ := Option.isSome_iff_exists.mp (size_mem.mpr hx)
      obtain ⟨v, hv⟩ := Option.isSome_iff_exists.mp (size_mem.mpr hy)
      rw [hu, hv] at this ⊢
      simpa using this.symm
    · intro h d _
      unfold sw
      split_ifs with h1 h2
      · rw [h1, h]
      · rw [h2, h]
      · rfl
  unfold transposeMatrix
  rw [swapItems_eq ha.1 hx hy]
  show LArr.copyData a _ = _
  unfold LArr.copyData
  by_cases h : a.size x = a.size y
  · rw [if_pos (hshape.mpr h), if_pos h, hs]; rfl
  · rw [if_neg (fun e => h (hshape.mp e)), if_neg h]

/-- **C79**: `xr_transpose_matrix_data` needs both dimensions with the same length (else it raises a `ValueError`); the result has the
dimensions of the argument, in the same order, and its matrices are the transposed matrices at every position of the other dimensions. -/
theorem C79_transpose (a : LArr K) (ha : a.Ok) (x y : String) :
    ((∃ r, transposeMatrix a x y = .ok r) ↔ x ∈ a.names ∧ y ∈ a.names ∧ a.size x = a.size y) ∧
    ∀ r, transposeMatrix a x y = .ok r → r.dims = a.dims ∧ r.Ok ∧
      (x ≠ y → ∀ i n, mat r x y i n n = (mat a x y i n n)ᵀ) := by
  by_cases h : x ∈ a.names ∧ y ∈ a.names
  · rw [transpose_eq ha h.1 h.2]
    by_cases hs : a.size x = a.size y
    · rw [if_pos hs]
      have key : ∀ n ∈ a.names, a.names.getD ((a.names.map (sw x y)).idxOf n) "" = sw x y n := by
        intro n hn
        have : n = sw x y (sw x y n) := (sw_sw x y n).symm
        conv_lhs => rw [this]
        rw [idxOf_map (sw_inj x y), getD_idxOf]
        unfold sw
        split_ifs
        · exact h.2
        · exact h.1
        · exact hn
      refine ⟨⟨fun _ => ⟨h.1, h.2, hs⟩, fun _ => ⟨_, rfl⟩⟩, ?_⟩
      intro r hr
      cases hr
      refine ⟨rfl, ⟨ha.1, ?_⟩, ?_⟩
      · intro i j hij
        apply ha.2
        intro n hn
        simp only [key n hn]
        apply hij
        show sw x y n ∈ a.names
        unfold sw
        split_ifs
        · exact h.2
        · exact h.1
        · exact hn
      · intro hxy i n
        ext r c
        simp only [mat, Matrix.of_apply, Matrix.transpose_apply]
        apply ha.2
        intro d hd
        simp only [key d hd, at2, sw]
        split_ifs <;> simp_all
    · rw [if_neg hs]
      refine ⟨⟨fun ⟨_, h⟩ => (by cases h), fun h' => absurd h'.2.2 hs⟩, fun _ h => by cases h⟩
  · have : transposeMatrix a x y = .error .value := by
      unfold transposeMatrix swapItems
      rw [if_neg h]
      rfl
    rw [this]
    exact ⟨⟨fun ⟨_, h⟩ => (by cases h), fun h' => absurd ⟨h'.1, h'.2.1⟩ h⟩, fun _ h => by cases h⟩

/-! ## Products -/

theorem mem_loop {a b : LArr K} {core : List String} {n : String} :
    n ∈ loopNames a b core ↔ (n ∈ a.names ∨ n ∈ b.names) ∧ n ∉ core := by
  unfold loopNames
  simp only [List.mem_filter, List.mem_append, decide_eq_true_eq]
  tauto

theorem nodup_loop {a b : LArr K} (ha : a.Ok) (hb : b.Ok) (core : List String) : (loopNames a b core).Nodup := by
  unfold loopNames
  apply List.Nodup.filter
  rw [List.nodup_append]
  refine ⟨ha.1, hb.1.filter _, ?_⟩
  rintro n hn m hm rfl
  simp only [List.mem_filter, decide_eq_true_eq] at hm
  exact hm.2 hn

theorem names_map (l : List String) (f : String → ℕ) : (l.map fun d => (d, f d)).map Prod.fst = l := by
  simp [List.map_map, Function.comp_def]

theorem sum_range_fin [AddCommMonoid K] (n : ℕ) (f : ℕ → K) : ((List.range n).map f).sum = ∑ k : Fin n, f k := by
  induction n with
  | zero => simp
  | succ n ih => rw [List.range_succ, List.map_append, List.sum_append, ih, Fin.sum_univ_castSucc]; simp

/-- the checks of `apply_ufunc`, in words: every argument has its own core dimensions and no others, shared dimensions have equal lengths -/
theorem checkArgs_iff {a b : LArr K} {cA cB out : List String} :
    checkArgs a b cA cB out = true ↔ (∀ n ∈ cA, n ∈ a.names) ∧ (∀ n ∈ cB, n ∈ b.names) ∧
      (∀ n ∈ a.names, n ∈ cA ∨ (n ∉ cA ∧ n ∉ cB ∧ n ∉ out)) ∧ (∀ n ∈ b.names, n ∈ cB ∨ (n ∉ cA ∧ n ∉ cB ∧ n ∉ out)) ∧
      ∀ n ∈ a.names, n ∈ b.names → a.size n = b.size n := by
  unfold checkArgs
  simp only [Bool.and_eq_true, List.all_eq_true, Bool.or_eq_true, decide_eq_true_eq, beq_iff_eq, List.mem_append, not_or, and_assoc,
    imp_iff_not_or]

/-- one matrix product at every position: arbitrary names of the dimensions -/
theorem apply_mat [Semiring K] {a b c : LArr K} (ha : a.Ok) (hb : b.Ok) {p q r s x y : String} (hpq : p ≠ q) (hrs : r ≠ s) (hxy : x ≠ y)
    (h : applyMul a b [p, q] [r, s] [x, y] false = .ok c) :
    c.Ok ∧ c.dims = (loopNames a b [p, q, r, s, x, y]).map (fun d => (d, (sizeOf a b d).getD 0)) ++
      [(x, (a.size p).getD 0), (y, (b.size s).getD 0)] ∧
    ∃ n, a.size q = some n ∧ b.size r = some n ∧
      ∀ i m l, mat c x y i m l = mat a p q i m n * mat b r s i n l := by
  unfold applyMul at h
  by_cases hc : checkArgs a b [p, q] [r, s] [x, y] = true
  · simp only [hc, if_true] at h
    split_ifs at h with hq
    rw [checkArgs_iff] at hc
    obtain ⟨c1, c2, c3, c4, c5⟩ := hc
    obtain ⟨n, hn⟩ := Option.isSome_iff_exists.mp (size_mem.mpr (c1 q (by simp)))
    cases h
    have hnames : ((loopNames a b ([p, q] ++ [r, s] ++ [x, y])).map (fun d => (d, (sizeOf a b d).getD 0))).map Prod.fst =
      loopNames a b [p, q, r, s, x, y] := names_map _ _
    refine ⟨⟨?_, ?_⟩, ?_, n, hn, hq.1 ▸ hn, ?_⟩
    · simp only [LArr.names, List.map_append, hnames, List.map_cons, List.map_nil]
      rw [List.nodup_append]
      refine ⟨nodup_loop ha hb _, by simp [hxy], ?_⟩
      rintro u hu v hv rfl
      rw [mem_loop] at hu
      simp only [List.mem_cons, List.not_mem_nil, or_false] at hu hv
      tauto
    · intro i j hij
      simp only [LArr.names, List.map_append, hnames, List.map_cons, List.map_nil, List.mem_append, mem_loop, List.mem_cons,
        List.not_mem_nil, or_false] at hij
      refine congrArg List.sum (List.map_congr_left ?_)
      intro k _
      have hx := hij x (by simp)
      have hy := hij y (by simp)
      congr 1
      · apply ha.2
        intro d hd
        unfold upd
        have := c3 d hd
        simp only [List.mem_cons, List.not_mem_nil, or_false] at this
        split_ifs
        · rfl
        · exact hx
        · apply hij; left; refine ⟨.inl hd, ?_⟩; tauto
      · apply hb.2
        intro d hd
        unfold upd
        have := c4 d hd
        simp only [List.mem_cons, List.not_mem_nil, or_false] at this
        split_ifs
        · exact hy
        · rfl
        · apply hij; left; refine ⟨.inr hd, ?_⟩; tauto
    · rfl
    · intro i m l
      ext u v
      simp only [mat, Matrix.of_apply, Matrix.mul_apply, hn, Option.getD_some, sum_range_fin]
      apply Finset.sum_congr rfl
      intro k _
      congr 1
      · apply ha.2
        intro d hd
        have := c3 d hd
        simp only [List.mem_cons, List.not_mem_nil, or_false] at this
        unfold upd at2
        split_ifs <;> simp_all
      · apply hb.2
        intro d hd
        have := c4 d hd
        simp only [List.mem_cons, List.not_mem_nil, or_false] at this
        unfold upd at2
        split_ifs <;> simp_all
  · simp only [hc] at h
    cases h

/-- a matrix times a vector at every position -/
theorem apply_vec [Semiring K] {a b c : LArr K} (ha : a.Ok) (hb : b.Ok) {p q r x : String} (hpq : p ≠ q)
    (h : applyMul a b [p, q] [r] [x] true = .ok c) :
    c.Ok ∧ c.dims = (loopNames a b [p, q, r, x]).map (fun d => (d, (sizeOf a b d).getD 0)) ++ [(x, (a.size p).getD 0)] ∧
    ∃ n, a.size q = some n ∧ b.size r = some n ∧
      ∀ i m, vec c x i m = mat a p q i m n *ᵥ vec b r i n := by
  unfold applyMul at h
  by_cases hc : checkArgs a b [p, q] [r] [x] = true
  · simp only [hc, if_true] at h
    split_ifs at h with hq
    rw [checkArgs_iff] at hc
    obtain ⟨c1, c2, c3, c4, c5⟩ := hc
    obtain ⟨n, hn⟩ := Option.isSome_iff_exists.mp (size_mem.mpr (c1 q (by simp)))
    cases h
    have hnames : ((loopNames a b ([p, q] ++ [r] ++ [x])).map (fun d => (d, (sizeOf a b d).getD 0))).map Prod.fst =
      loopNames a b [p, q, r, x] := names_map _ _
    refine ⟨⟨?_, ?_⟩, ?_, n, hn, hq.1 ▸ hn, ?_⟩
    · simp only [LArr.names, List.map_append, hnames, List.map_cons, List.map_nil]
      rw [List.nodup_append]
      refine ⟨nodup_loop ha hb _, by simp, ?_⟩
      rintro u hu v hv rfl
      rw [mem_loop] at hu
      simp only [List.mem_cons, List.not_mem_nil, or_false] at hu hv
      tauto
    · intro i j hij
      simp only [LArr.names, List.map_append, hnames, List.map_cons, List.map_nil, List.mem_append, mem_loop, List.mem_cons,
        List.not_mem_nil, or_false] at hij
      refine congrArg List.sum (List.map_congr_left ?_)
      intro k _
      have hx := hij x (by simp)
      congr 1
      · apply ha.2
        intro d hd
        unfold upd
        have := c3 d hd
        simp only [List.mem_cons, List.not_mem_nil, or_false] at this
        split_ifs
        · rfl
        · exact hx
        · apply hij; left; refine ⟨.inl hd, ?_⟩; tauto
      · apply hb.2
        intro d hd
        unfold upd
        have := c4 d hd
        simp only [List.mem_cons, List.not_mem_nil, or_false] at this
        split_ifs
        · rfl
        · apply hij; left; refine ⟨.inr hd, ?_⟩; tauto
    · rfl
    · intro i m
      ext u
      simp only [mat, vec, Matrix.of_apply, Matrix.mulVec, dotProduct, hn, Option.getD_some, sum_range_fin]
      apply Finset.sum_congr rfl
      intro k _
      congr 1
      · apply ha.2
        intro d hd
        have := c3 d hd
        simp only [List.mem_cons, List.not_mem_nil, or_false] at this
        unfold upd at2
        split_ifs <;> simp_all
      · apply hb.2
        intro d hd
        have := c4 d hd
        simp only [List.mem_cons, List.not_mem_nil, or_false] at this
        unfold upd
        split_ifs <;> simp_all
  · simp only [hc] at h
    cases h

theorem mat_swap (a : LArr K) {x y : String} (h : x ≠ y) (i : String → ℕ) (m n : ℕ) : mat a y x i n m = (mat a x y i m n)ᵀ := by
  ext r c
  simp only [mat, Matrix.of_apply, Matrix.transpose_apply]
  congr 1
  funext d
  unfold at2
  split_ifs <;> simp_all

/-- **C79**: `xr_matmul` with two dimensions for both arguments is the product of the matrices (transposed as the flags say) at every
position of the other dimensions, for any names and any order of the dimensions in memory. -/
theorem C79_matmul [Semiring K] (a b c : LArr K) (ha : a.Ok) (hb : b.Ok) (p q r s x y : String) (hpq : p ≠ q) (hrs : r ≠ s) (hxy : x ≠ y)
    (tA tB : Bool) (h : xrMatmul a b [p, q] (some [r, s]) (some [x, y]) tA tB = .ok c) :
    c.Ok ∧ ∃ n, a.size (if tA then p else q) = some n ∧ b.size (if tB then s else r) = some n ∧
      ∀ i m l, mat c x y i m l = (if tA then (mat a p q i n m)ᵀ else mat a p q i m n) * (if tB then (mat b r s i l n)ᵀ else mat b r s i n l) := by
  unfold xrMatmul at h
  cases tA <;> cases tB <;> simp only [Option.getD_some, List.reverse_cons, List.reverse_nil, List.nil_append, List.cons_append, List.length_cons,
    List.length_nil, gt_iff_lt, lt_irrefl, decide_false, if_true, Bool.false_eq_true, if_false] at h ⊢
  · obtain ⟨h1, -, n, h2, h3, h4⟩ := apply_mat ha hb hpq hrs hxy h
    exact ⟨h1, n, h2, h3, h4⟩
  · obtain ⟨h1, -, n, h2, h3, h4⟩ := apply_mat ha hb hpq hrs.symm hxy h
    refine ⟨h1, n, h2, h3, fun i m l => ?_⟩
    rw [h4, mat_swap b hrs]
  · obtain ⟨h1, -, n, h2, h3, h4⟩ := apply_mat ha hb hpq.symm hrs hxy h
    refine ⟨h1, n, h2, h3, fun i m l => ?_⟩
    rw [h4, mat_swap a hpq]
  · obtain ⟨h1, -, n, h2, h3, h4⟩ := apply_mat ha hb hpq.symm hrs.symm hxy h
    refine ⟨h1, n, h2, h3, fun i m l => ?_⟩
    rw [h4, mat_swap a hpq, mat_swap b hrs]

/-- **C79**: with one dimension for the second argument it is the product of a matrix and a vector at every position. -/
theorem C79_matvec [Semiring K] (a b c : LArr K) (ha : a.Ok) (hb : b.Ok) (p q r x : String) (hpq : p ≠ q) (tA tB : Bool)
    (h : xrMatmul a b [p, q] (some [r]) (some [x]) tA tB = .ok c) :
    c.Ok ∧ ∃ n, a.size (if tA then p else q) = some n ∧ b.size r = some n ∧
      ∀ i m, vec c x i m = (if tA then (mat a p q i n m)ᵀ else mat a p q i m n) *ᵥ vec b r i n := by
  unfold xrMatmul at h
  cases tA <;> cases tB <;> simp only [Option.getD_some, List.reverse_cons, List.reverse_nil, List.nil_append, List.cons_append, List.length_cons,
    List.length_nil, gt_iff_lt, Nat.lt_add_one, decide_true, if_true, Bool.false_eq_true, if_false, zero_add] at h ⊢
  iterate 2
    obtain ⟨h1, -, n, h2, h3, h4⟩ := apply_vec ha hb hpq h
    exact ⟨h1, n, h2, h3, h4⟩
  iterate 2
    obtain ⟨h1, -, n, h2, h3, h4⟩ := apply_vec ha hb hpq.symm h
    refine ⟨h1, n, h2, h3, fun i m => ?_⟩
    rw [h4, mat_swap a hpq]

/-! ## Defaults -/

/-- dimensions of both arrays have the same length -/
def Agree (a b : LArr K) : Prop := ∀ d m n, a.size d = some m → b.size d = some n → m = n

theorem agree_iff {a b : LArr K} : Agree a b ↔ ∀ n ∈ a.names, n ∈ b.names → a.size n = b.size n := by
  constructor
  · intro h n h1 h2
    obtain ⟨u, hu⟩ := Option.isSome_iff_exists.mp (size_mem.mpr h1)
    obtain ⟨v, hv⟩ := Option.isSome_iff_exists.mp (size_mem.mpr h2)
    rw [hu, hv, h n u v hu hv]
  · intro h d m n h1 h2
    have := h d (size_mem.mp (by rw [h1]; rfl)) (size_mem.mp (by rw [h2]; rfl))
    rw [h1, h2] at this
    exact Option.some.inj this

theorem size_some {a : LArr K} {d : String} {n : ℕ} (h : a.size d = some n) : d ∈ a.names := size_mem.mp (by rw [h]; rfl)

theorem sizeOf_left {a b : LArr K} {d : String} {n : ℕ} (h : a.size d = some n) : sizeOf a b d = some n := by
  unfold sizeOf; rw [h]; rfl

/-- **C79**: the default names are meant for square matrices: with the names of the matrix in both arguments, the product exists if and
only if both arguments have both dimensions, all of the same length, and the other shared dimensions have equal lengths. A `ValueError`
is raised otherwise. -/
theorem C79_square [Semiring K] (a b : LArr K) (x y : String) (hxy : x ≠ y) (tA tB : Bool) :
    (∃ c, xrMatmul a b [x, y] none none tA tB = .ok c) ↔
      (∃ n, a.size x = some n ∧ a.size y = some n ∧ b.size x = some n ∧ b.size y = some n) ∧ Agree a b := by
  rw [agree_iff]
  constructor
  · rintro ⟨c, h⟩
    unfold xrMatmul applyMul at h
    cases tA <;> cases tB <;> simp only [Option.getD_none, List.reverse_cons, List.reverse_nil, List.nil_append, List.cons_append,
      List.length_cons, List.length_nil, gt_iff_lt, lt_irrefl, decide_false, if_true, Bool.false_eq_true, if_false, le_refl] at h <;>
    · split_ifs at h with hc hq
      rw [checkArgs_iff] at hc
      obtain ⟨c1, c2, c3, c4, c5⟩ := hc
      refine ⟨?_, c5⟩
      obtain ⟨m, hm⟩ := Option.isSome_iff_exists.mp (size_mem.mpr (c1 x (by simp)))
      obtain ⟨n, hn⟩ := Option.isSome_iff_exists.mp (size_mem.mpr (c1 y (by simp)))
      have e1 := c5 x (c1 x (by simp)) (c2 x (by simp))
      have e2 := c5 y (c1 y (by simp)) (c2 y (by simp))
      simp only [checkOut, List.all_cons, List.all_nil, sizeOf_left hm, sizeOf_left hn] at hq
      rw [← e1, ← e2, hm, hn] at *
      simp only [Option.getD_some, Bool.and_true, Bool.and_eq_true, beq_iff_eq, Option.some.injEq] at hq
      obtain ⟨u, v⟩ := hq
      have mn : m = n := by omega
      subst mn
      exact ⟨m, rfl, rfl, rfl, rfl⟩
  · rintro ⟨⟨n, h1, h2, h3, h4⟩, h5⟩
    have ck : ∀ cA cB : List String, (∀ d, d ∈ cA ↔ d = x ∨ d = y) → (∀ d, d ∈ cB ↔ d = x ∨ d = y) → checkArgs a b cA cB [x, y] = true := by
      intro cA cB hA hB
      rw [checkArgs_iff]
      refine ⟨?_, ?_, ?_, ?_, h5⟩
      · intro d hd
        rcases (hA d).mp hd with rfl | rfl
        · exact size_some h1
        · exact size_some h2
      · intro d hd
        rcases (hB d).mp hd with rfl | rfl
        · exact size_some h3
        · exact size_some h4
      all_goals
        intro d _
        simp only [hA, hB, List.mem_cons, List.not_mem_nil, or_false]
        tauto
    have c1 := ck [x, y] [x, y] (by simp) (by simp)
    have c2 := ck [x, y] [y, x] (by simp) (by simp [or_comm])
    have c3 := ck [y, x] [x, y] (by simp [or_comm]) (by simp)
    have c4 := ck [y, x] [y, x] (by simp [or_comm]) (by simp [or_comm])
    unfold xrMatmul applyMul
    cases tA <;> cases tB <;> simp [c1, c2, c3, c4, h1, h2, h3, h4, checkOut, sizeOf]

/-- **C79**: a matrix times a vector along the first of its dimensions: the vector must not have the second dimension. -/
theorem C79_square_vec [Semiring K] (a b : LArr K) (x y : String) (hxy : x ≠ y) (tA : Bool) (out : Option (List String))
    (ho : out = none ∨ out = some [x]) :
    (∃ c, xrMatmul a b [x, y] (some [x]) out tA = .ok c) ↔
      (∃ n, a.size x = some n ∧ a.size y = some n ∧ b.size x = some n) ∧ y ∉ b.names ∧ Agree a b := by
  have e : xrMatmul a b [x, y] (some [x]) out tA = xrMatmul a b [x, y] (some [x]) none tA := by
    rcases ho with rfl | rfl
    · rfl
    · simp [xrMatmul]
  rw [e, agree_iff]
  constructor
  · rintro ⟨c, h⟩
    unfold xrMatmul applyMul at h
    cases tA <;> simp only [Option.getD_none, Option.getD_some, List.reverse_cons, List.reverse_nil, List.nil_append, List.cons_append,
      List.length_cons, List.length_nil, gt_iff_lt, decide_true, if_true, Bool.false_eq_true, if_false, zero_add,
      show ¬ (1 + 1 ≤ 1) by omega, show (1 < 1 + 1) by omega] at h <;>
    · split_ifs at h with hc hq
      rw [checkArgs_iff] at hc
      obtain ⟨c1, c2, c3, c4, c5⟩ := hc
      refine ⟨?_, ?_, c5⟩
      · obtain ⟨m, hm⟩ := Option.isSome_iff_exists.mp (size_mem.mpr (c1 x (by simp)))
        obtain ⟨n, hn⟩ := Option.isSome_iff_exists.mp (size_mem.mpr (c1 y (by simp)))
        have e1 := c5 x (c1 x (by simp)) (c2 x (by simp))
        simp only [checkOut, List.all_cons, List.all_nil, sizeOf_left hm] at hq
        rw [← e1, hm, hn] at *
        simp only [Option.getD_some, Bool.and_true, Bool.and_eq_true, beq_iff_eq, Option.some.injEq] at hq
        obtain ⟨u, v⟩ := hq
        have mn : m = n := by omega
        subst mn
        exact ⟨m, rfl, rfl, rfl⟩
      · intro hy
        have := c4 y hy
        simp [hxy.symm] at this
  · rintro ⟨⟨n, h1, h2, h3⟩, h4, h5⟩
    have ck : ∀ cA : List String, (∀ d, d ∈ cA ↔ d = x ∨ d = y) → checkArgs a b cA [x] [x] = true := by
      intro cA hA
      rw [checkArgs_iff]
      refine ⟨?_, ?_, ?_, ?_, h5⟩
      · intro d hd
        rcases (hA d).mp hd with rfl | rfl
        · exact size_some h1
        · exact size_some h2
      · intro d hd
        rw [List.mem_singleton.mp hd]
        exact size_some h3
      · intro d _
        simp only [hA, List.mem_cons, List.not_mem_nil, or_false]
        tauto
      · intro d hd
        have : d ≠ y := fun e => h4 (e ▸ hd)
        simp only [hA, List.mem_cons, List.not_mem_nil, or_false]
        tauto
    have c1 := ck [x, y] (by simp)
    have c2 := ck [y, x] (by simp [or_comm])
    unfold xrMatmul applyMul
    cases tA <;> simp [c1, c2, h1, h2, h3, checkOut, sizeOf]

theorem get?_append (l o : List (String × ℕ)) (d : String) : Dict.get? (l ++ o) d = (Dict.get? l d).orElse fun _ => Dict.get? o d := by
  induction l with
  | nil => rfl
  | cons e t ih =>
    by_cases h : e.1 = d
    · simp [Dict.get?, h]
    · simp [Dict.get?, h, ih]

theorem get?_map (l : List String) (f : String → ℕ) (d : String) : Dict.get? (l.map fun d => (d, f d)) d = if d ∈ l then some (f d) else none := by
  induction l with
  | nil => rfl
  | cons e t ih =>
    by_cases h : e = d
    · simp [Dict.get?, h]
    · simp [Dict.get?, h, ih, Ne.symm h]

theorem sizeOf_getD {a b : LArr K} {d : String} (h : d ∈ a.names ∨ d ∈ b.names) : some ((sizeOf a b d).getD 0) = sizeOf a b d := by
  unfold sizeOf
  rcases ha : a.size d with _ | m
  · rcases h with h | h
    · exact absurd (size_mem.mpr h) (by simp [ha])
    · obtain ⟨v, hv⟩ := Option.isSome_iff_exists.mp (size_mem.mpr h)
      simp [hv]
  · simp

theorem sizeOf_none {a b : LArr K} {d : String} (h : ¬ (d ∈ a.names ∨ d ∈ b.names)) : sizeOf a b d = none := by
  unfold sizeOf
  rcases ha : a.size d with _ | m
  · rcases hb : b.size d with _ | n
    · rfl
    · exact absurd (.inr (size_some hb)) h
  · exact absurd (.inl (size_some ha)) h

/-- length of a dimension in one of the arguments (of the first that has it) -/
def size2 (a b : LArr K) (d : String) : Option ℕ := if d ∈ a.names then a.size d else b.size d

theorem sizeOf_eq (a b : LArr K) (d : String) : sizeOf a b d = size2 a b d := by
  unfold sizeOf size2
  rcases ha : a.size d with _ | m
  · have : d ∉ a.names := fun h => by have := size_mem.mpr h; rw [ha] at this; cases this
    simp [this]
  · simp [size_some ha]

/-- **C79**: the result of the default product: square matrices of the same length, every other dimension of the arguments with its
length, and the matrices are products. -/
theorem C79_square_result [Semiring K] (a b c : LArr K) (ha : a.Ok) (hb : b.Ok) (x y : String) (hxy : x ≠ y) (tA tB : Bool)
    (h : xrMatmul a b [x, y] none none tA tB = .ok c) :
    c.Ok ∧ (∀ d, c.size d = size2 a b d) ∧ ∃ n, c.size x = some n ∧ c.size y = some n ∧
      ∀ i, mat c x y i n n = (if tA then (mat a x y i n n)ᵀ else mat a x y i n n) * (if tB then (mat b x y i n n)ᵀ else mat b x y i n n) := by
  obtain ⟨⟨n, s1, s2, s3, s4⟩, -⟩ := (C79_square a b x y hxy tA tB).mp ⟨c, h⟩
  have h' : xrMatmul a b [x, y] (some [x, y]) (some [x, y]) tA tB = .ok c := by rw [← h]; simp [xrMatmul]
  obtain ⟨ok, n', e1, -, e3⟩ := C79_matmul a b c ha hb x y x y x y hxy hxy hxy tA tB h'
  have : n' = n := by
    cases tA <;> simp only [if_true, Bool.false_eq_true, if_false, s1, s2, Option.some.injEq] at e1 <;> exact e1.symm
  subst this
  have hs : ∀ d, c.size d = size2 a b d := by
    intro d
    have key : ∀ (p q r s : String), applyMul a b [p, q] [r, s] [x, y] false = .ok c → p ≠ q → r ≠ s → a.size p = some n' → b.size s = some n' →
        (∀ d, d ∉ [p, q, r, s, x, y] ↔ d ≠ x ∧ d ≠ y) → c.size d = size2 a b d := by
      intro p q r s hk hpq hrs hp hs hd
      obtain ⟨-, hdims, -⟩ := apply_mat ha hb hpq hrs hxy hk
      unfold LArr.size
      rw [hdims, get?_append, get?_map, ← sizeOf_eq, hp, hs]
      simp only [mem_loop, hd]
      by_cases hx : d = x
      · subst hx; simp [Dict.get?, sizeOf_left s1]
      · by_cases hy : d = y
        · subst hy; simp [Dict.get?, sizeOf_left s2, hxy]
        · by_cases hm : d ∈ a.names ∨ d ∈ b.names
          · rw [if_pos ⟨hm, hx, hy⟩, ← sizeOf_getD hm]; rfl
          · simp [hx, hy, hm, Dict.get?, sizeOf_none hm, Ne.symm hx, Ne.symm hy]
    unfold xrMatmul at h
    cases tA <;> cases tB <;> simp only [Option.getD_none, List.reverse_cons, List.reverse_nil, List.nil_append, List.cons_append,
      List.length_cons, List.length_nil, gt_iff_lt, lt_irrefl, decide_false, if_true, Bool.false_eq_true, if_false, le_refl] at h
    · exact key _ _ _ _ h hxy hxy s1 s4 (by simp; tauto)
    · exact key _ _ _ _ h hxy hxy.symm s1 s3 (by simp; tauto)
    · exact key _ _ _ _ h hxy.symm hxy s2 s4 (by simp; tauto)
    · exact key _ _ _ _ h hxy.symm hxy.symm s2 s3 (by simp; tauto)
  refine ⟨ok, hs, n', ?_, ?_, fun i => e3 i n' n'⟩
  · rw [hs]; simp [size2, size_some s1, s1]
  · rw [hs]; simp [size2, size_some s2, s2]

/-- **C79**: the result of the default product with a vector: it has all dimensions of the arguments except the second one of the matrix. -/
theorem C79_square_vec_result [Semiring K] (a b c : LArr K) (ha : a.Ok) (hb : b.Ok) (x y : String) (hxy : x ≠ y) (tA : Bool)
    (out : Option (List String)) (ho : out = none ∨ out = some [x])
    (h : xrMatmul a b [x, y] (some [x]) out tA = .ok c) :
    c.Ok ∧ (∀ d, c.size d = if d = y then none else size2 a b d) ∧ ∃ n, c.size x = some n ∧
      ∀ i, vec c x i n = (if tA then (mat a x y i n n)ᵀ else mat a x y i n n) *ᵥ vec b x i n := by
  obtain ⟨⟨n, s1, s2, s3⟩, hy, -⟩ := (C79_square_vec a b x y hxy tA out ho).mp ⟨c, h⟩
  have h' : xrMatmul a b [x, y] (some [x]) (some [x]) tA = .ok c := by
    rw [← h]
    rcases ho with rfl | rfl
    · simp [xrMatmul]
    · rfl
  obtain ⟨ok, n', e1, -, e3⟩ := C79_matvec a b c ha hb x y x x hxy tA false h'
  have : n' = n := by
    cases tA <;> simp only [if_true, Bool.false_eq_true, if_false, s1, s2, Option.some.injEq] at e1 <;> exact e1.symm
  subst this
  have hs : ∀ d, c.size d = if d = y then none else size2 a b d := by
    intro d
    have key : ∀ (p q : String), applyMul a b [p, q] [x] [x] true = .ok c → p ≠ q → a.size p = some n' →
        (∀ d, d ∉ [p, q, x, x] ↔ d ≠ x ∧ d ≠ y) → c.size d = if d = y then none else size2 a b d := by
      intro p q hk hpq hp hd
      obtain ⟨-, hdims, -⟩ := apply_vec ha hb hpq hk
      unfold LArr.size
      rw [hdims, get?_append, get?_map, ← sizeOf_eq, hp]
      simp only [mem_loop, hd]
      by_cases hx : d = x
      · subst hx; simp [Dict.get?, sizeOf_left s1, hxy]
      · by_cases hy : d = y
        · subst hy; simp [Dict.get?, hxy]
        · by_cases hm : d ∈ a.names ∨ d ∈ b.names
          · rw [if_pos ⟨hm, hx, hy⟩, if_neg hy, ← sizeOf_getD hm]; rfl
          · simp [hx, hy, hm, Dict.get?, sizeOf_none hm, Ne.symm hx]
    unfold xrMatmul at h'
    cases tA <;> simp only [Option.getD_some, List.reverse_cons, List.reverse_nil, List.nil_append, List.cons_append,
      List.length_cons, List.length_nil, gt_iff_lt, Nat.lt_add_one, decide_true, if_true, Bool.false_eq_true, if_false, zero_add] at h'
    · exact key _ _ h' hxy s1 (by simp; tauto)
    · exact key _ _ h' hxy.symm s2 (by simp; tauto)
  refine ⟨ok, hs, n', ?_, fun i => e3 i n'⟩
  rw [hs]; simp [size2, size_some s1, s1, hxy]

/-! ## Orthogonality -/

/-- **C79**: `xr_is_orthogonal_matrix` answers for square matrices only (a `ValueError` is raised otherwise), and the answer is yes if
and only if the product of each matrix and its transpose is the unit matrix. -/
theorem C79_orthogonal [Semiring K] (a : LArr K) (ha : a.Ok) (x y : String) (hxy : x ≠ y) :
    ((∃ P, isOrthogonal a x y = .ok P) ↔ ∃ n, a.size x = some n ∧ a.size y = some n) ∧
    ∀ P n, isOrthogonal a x y = .ok P → a.size x = some n →
      (P ↔ ∀ i : String → ℕ, (∀ d m, d ≠ x → d ≠ y → a.size d = some m → i d < m) → mat a x y i n n * (mat a x y i n n)ᵀ = 1) := by
  have agr : Agree a a := fun d m n h1 h2 => Option.some.inj (h1.symm.trans h2)
  constructor
  · constructor
    · rintro ⟨P, h⟩
      unfold isOrthogonal at h
      split_ifs at h
      cases hm : xrMatmul a a [x, y] none none false true with
      | error e => rw [hm] at h; cases h
      | ok r =>
        obtain ⟨⟨n, h1, h2, -⟩, -⟩ := (C79_square a a x y hxy false true).mp ⟨r, hm⟩
        exact ⟨n, h1, h2⟩
    · rintro ⟨n, h1, h2⟩
      obtain ⟨r, hr⟩ := (C79_square a a x y hxy false true).mpr ⟨⟨n, h1, h2, h1, h2⟩, agr⟩
      unfold isOrthogonal
      rw [if_pos ⟨size_some h1, size_some h2⟩, hr]
      exact ⟨_, rfl⟩
  · intro P n h hn
    unfold isOrthogonal at h
    split_ifs at h
    cases hm : xrMatmul a a [x, y] none none false true with
    | error e => rw [hm] at h; cases h
    | ok r =>
      rw [hm] at h
      have hP : P = _ := (Except.ok.inj h).symm
      rw [hP]
      obtain ⟨ok, hs, m, hx, hy, hmat⟩ := C79_square_result a a r ha ha x y hxy false true hm
      have hs' : ∀ d, r.size d = a.size d := by
        intro d; rw [hs, size2]; split_ifs <;> rfl
      have : m = n := by rw [hs', hn] at hx; exact (Option.some.inj hx).symm
      subst this
      simp only [Bool.false_eq_true, if_false, if_true] at hmat
      have hin : ∀ i, r.inRange i ↔ ∀ d k, a.size d = some k → i d < k := by
        intro i
        constructor
        · intro hi d k hd
          have : (d, k) ∈ r.dims := by
            rw [← hs'] at hd
            unfold LArr.size at hd
            exact Dict.mem_of_get? hd
          exact hi _ this
        · intro hi e he
          apply hi
          rw [← hs']
          exact Dict.get?_of_mem ok.1 he
      constructor
      · intro hp i hi
        rw [← hmat i]
        ext u v
        have := hp (at2 i x y u v) ((hin _).mpr ?_)
        · rw [mat, Matrix.of_apply, this]
          simp [at2, hxy, Matrix.one_apply, Fin.ext_iff]
        · intro d k hd
          unfold at2
          split_ifs with h1 h2
          · subst h1; rw [← hs', hy] at hd; cases hd; exact v.2
          · subst h2; rw [hn] at hd; cases hd; exact u.2
          · exact hi d k h2 h1 hd
      · intro hp i hi
        have hi' := (hin i).mp hi
        have := congrFun (congrFun ((hmat i).trans (hp i fun d k _ _ hd => hi' d k hd)) ⟨i x, hi' x _ hn⟩) ⟨i y, hi' y _ ((hs' y).symm.trans hy)⟩
        rw [mat, Matrix.of_apply, Matrix.one_apply] at this
        have e : at2 i x y (i x) (i y) = i := by
          funext d; unfold at2; split_ifs <;> simp_all
        simp only [e, Fin.ext_iff] at this
        exact this

/-! ## Coordinate systems -/

/-- an array of orientations: matrices with rows `c` and columns `v` -/
def IsOri (o : LArr K) : Prop := o.Ok ∧ o.size "c" = some 3 ∧ o.size "v" = some 3

/-- an array of points: vectors along `c` and no dimension `v` -/
def IsCoord (c : LArr K) : Prop := c.Ok ∧ c.size "c" = some 3 ∧ "v" ∉ c.names

/-- the coordinate system at a position of the other dimensions -/
def lcsAt (o c : LArr K) (i : String → ℕ) : Lcs K := ⟨mat o "c" "v" i 3 3, vec c "c" i 3⟩

theorem cv : ("c" : String) ≠ "v" := by decide

theorem agree_symm {a b : LArr K} (h : Agree a b) : Agree b a := fun d m n h1 h2 => (h d n m h2 h1).symm

theorem not_mem_of_size {a : LArr K} {d : String} : a.size d = none ↔ d ∉ a.names := by
  rw [← size_mem]; cases a.size d <;> simp

theorem size2_cases {a b : LArr K} {d : String} {m : ℕ} (h : size2 a b d = some m) : a.size d = some m ∨ b.size d = some m := by
  unfold size2 at h
  split_ifs at h
  · exact .inl h
  · exact .inr h

theorem addArr_ok [Add K] {a b : LArr K} (ha : a.Ok) (hb : b.Ok) (h : Agree a b) :
    ∃ c, addArr a b = .ok c ∧ c.Ok ∧ (∀ d, c.size d = size2 a b d) ∧ (∀ i, c.val i = a.val i + b.val i) := by
  have hk : a.names.all (fun n => n ∉ b.names || a.size n == b.size n) = true := by
    rw [agree_iff] at h
    simp only [List.all_eq_true, Bool.or_eq_true, decide_eq_true_eq, beq_iff_eq]
    intro n hn
    by_cases hb : n ∈ b.names
    · exact .inr (h n hn hb)
    · exact .inl hb
  unfold addArr
  rw [if_pos hk]
  refine ⟨_, rfl, ⟨?_, ?_⟩, ?_, fun i => rfl⟩
  · unfold LArr.names
    simp only [List.map_append]
    rw [List.nodup_append]
    refine ⟨ha.1, ?_, ?_⟩
    · exact (List.filter_sublist.map Prod.fst).nodup hb.1
    · rintro u hu v hv rfl
      obtain ⟨e, he, rfl⟩ := List.mem_map.mp hv
      simp only [List.mem_filter, decide_eq_true_eq] at he
      exact he.2 hu
  · intro i j hij
    have hij' : ∀ n, n ∈ a.names ∨ n ∈ b.names → i n = j n := by
      intro n hn
      apply hij
      unfold LArr.names
      rw [List.map_append, List.mem_append]
      by_cases h' : n ∈ a.names
      · exact .inl h'
      · right
        obtain ⟨e, he, rfl⟩ := List.mem_map.mp (hn.resolve_left h')
        refine List.mem_map.mpr ⟨e, ?_, rfl⟩
        simp only [List.mem_filter, decide_eq_true_eq]
        exact ⟨he, h'⟩
    show a.val i + b.val i = a.val j + b.val j
    rw [ha.2 i j fun n hn => hij' n (.inl hn), hb.2 i j fun n hn => hij' n (.inr hn)]
  · intro d
    show Dict.get? _ d = _
    rw [get?_append]
    unfold size2
    split_ifs with h'
    · obtain ⟨u, hu⟩ := Option.isSome_iff_exists.mp (size_mem.mpr h')
      have : Dict.get? a.dims d = some u := hu
      rw [this, hu]; rfl
    · have : Dict.get? a.dims d = none := not_mem_of_size.mpr h'
      rw [this]
      show Dict.get? (b.dims.filter _) d = Dict.get? b.dims d
      induction b.dims with
      | nil => rfl
      | cons e t ih =>
        by_cases he : e.1 = d
        · rw [List.filter_cons_of_pos (by simpa [he] using h')]; simp [Dict.get?, he]
        · by_cases hm : e.1 ∈ a.names
          · rw [List.filter_cons_of_neg (by simpa using hm), ih]; simp [Dict.get?, he]
          · rw [List.filter_cons_of_pos (by simpa using hm)]; simp only [Dict.get?, he, if_false]; exact ih

/-- **C79**: the sum of two systems, given by arrays with any further dimensions (in particular the time) in any order: at every position
the sum of the systems at this position. -/
theorem C79_add {K : Type} [CommRing K] (oL cL oR cR : LArr K) (h1 : IsOri oL) (h2 : IsCoord cL) (h3 : IsOri oR) (h4 : IsCoord cR)
    (a1 : Agree oR oL) (a2 : Agree oR cL) (a3 : Agree oR cR) (a4 : Agree cL cR) :
    ∃ o c, addLab oL cL oR cR = .ok (o, c) ∧ IsOri o ∧ IsCoord c ∧
      (∀ d, o.size d = size2 oR oL d) ∧ (∀ d, d ≠ "v" → c.size d = if d ∈ oR.names then oR.size d else size2 cL cR d) ∧
      ∀ i, lcsAt o c i = (lcsAt oL cL i).add (lcsAt oR cR i) := by
  obtain ⟨o, ho⟩ := (C79_square oR oL "c" "v" cv false false).mpr ⟨⟨3, h3.2.1, h3.2.2, h1.2.1, h1.2.2⟩, a1⟩
  obtain ⟨m, hm⟩ := (C79_square_vec oR cL "c" "v" cv false none (.inl rfl)).mpr ⟨⟨3, h3.2.1, h3.2.2, h2.2.1⟩, h2.2.2, a2⟩
  obtain ⟨ok1, s1, n1, x1, y1, r1⟩ := C79_square_result oR oL o h3.1 h1.1 "c" "v" cv false false ho
  obtain ⟨ok2, s2, n2, x2, r2⟩ := C79_square_vec_result oR cL m h3.1 h2.1 "c" "v" cv false none (.inl rfl) hm
  have e1 : n1 = 3 := by rw [s1, size2, if_pos (size_some h3.2.1), h3.2.1] at x1; exact (Option.some.inj x1).symm
  have e2 : n2 = 3 := by rw [s2, if_neg cv, size2, if_pos (size_some h3.2.1), h3.2.1] at x2; exact (Option.some.inj x2).symm
  subst e1; subst e2
  have am : Agree m cR := by
    intro d u v hu hv
    rw [s2] at hu
    split_ifs at hu
    rcases size2_cases hu with hu | hu
    · exact a3 d u v hu hv
    · exact a4 d u v hu hv
  obtain ⟨c, hc, ok3, s3, v3⟩ := addArr_ok ok2 h4.1 am
  refine ⟨o, c, ?_, ⟨ok1, x1, y1⟩, ⟨ok3, ?_, ?_⟩, s1, ?_, ?_⟩
  · unfold addLab
    rw [ho, hm]
    show (do let c' ← addArr m cR; .ok (o, c')) = _
    rw [hc]; rfl
  · rw [s3, size2, if_pos (size_some x2), x2]
  · rw [← not_mem_of_size, s3, size2]
    have : m.size "v" = none := by rw [s2, if_pos rfl]
    rw [if_neg (not_mem_of_size.mp this)]
    exact not_mem_of_size.mpr h4.2.2
  · intro d hd
    rw [s3]
    have hmd := s2 d
    rw [if_neg hd] at hmd
    unfold size2 at hmd ⊢
    by_cases q1 : d ∈ oR.names
    · rw [if_pos q1] at hmd ⊢
      have : d ∈ m.names := size_mem.mp (by rw [hmd]; exact size_mem.mpr q1)
      rw [if_pos this, hmd]
    · rw [if_neg q1] at hmd ⊢
      by_cases q2 : d ∈ cL.names
      · have : d ∈ m.names := size_mem.mp (by rw [hmd]; exact size_mem.mpr q2)
        rw [if_pos this, if_pos q2, hmd]
      · have : d ∉ m.names := not_mem_of_size.mp (by rw [hmd]; exact not_mem_of_size.mpr q2)
        rw [if_neg this, if_neg q2]
  · intro i
    have e3 : vec c "c" i 3 = vec m "c" i 3 + vec cR "c" i 3 := by
      funext k; exact v3 _
    ext u v
    · exact congrFun (congrFun (r1 i) u) v
    · exact congrFun (e3.trans (by rw [r2 i]; rfl)) u

/-- **C79**: the inverse of a system, at every position. -/
theorem C79_invert {K : Type} [CommRing K] (o c : LArr K) (h1 : IsOri o) (h2 : IsCoord c) (h3 : Agree o c) :
    ∃ o' c', invertLab o c = .ok (o', c') ∧ IsOri o' ∧ IsCoord c' ∧ o'.dims = o.dims ∧
      (∀ d, d ≠ "v" → c'.size d = size2 o c d) ∧ ∀ i, lcsAt o' c' i = (lcsAt o c i).invert := by
  obtain ⟨o', ho⟩ := (C79_transpose o h1.1 "c" "v").1.mpr ⟨size_some h1.2.1, size_some h1.2.2, by rw [h1.2.1, h1.2.2]⟩
  obtain ⟨t1, t2, t3⟩ := (C79_transpose o h1.1 "c" "v").2 o' ho
  have nOk : (negArr c).Ok := ⟨h2.1.1, fun i j h => congrArg (fun z => -z) (h2.1.2 i j h)⟩
  obtain ⟨m, hm⟩ := (C79_square_vec o (negArr c) "c" "v" cv true none (.inl rfl)).mpr ⟨⟨3, h1.2.1, h1.2.2, h2.2.1⟩, h2.2.2, h3⟩
  obtain ⟨ok2, s2, n2, x2, r2⟩ := C79_square_vec_result o (negArr c) m h1.1 nOk "c" "v" cv true none (.inl rfl) hm
  have e2 : n2 = 3 := by rw [s2, if_neg cv, size2, if_pos (size_some h1.2.1), h1.2.1] at x2; exact (Option.some.inj x2).symm
  subst e2
  have sz : ∀ d, o'.size d = o.size d := fun d => by unfold LArr.size; rw [t1]
  refine ⟨o', m, ?_, ⟨t2, (sz _).trans h1.2.1, (sz _).trans h1.2.2⟩, ⟨ok2, x2, ?_⟩, t1, ?_, ?_⟩
  · unfold invertLab
    rw [ho, hm]; rfl
  · rw [← not_mem_of_size, s2, if_pos rfl]
  · intro d hd
    rw [s2, if_neg hd]; rfl
  · intro i
    ext u v
    · exact congrFun (congrFun (t3 cv i 3) u) v
    · exact congrFun (r2 i) u

/-- **C79**: `transform_data` moves every point of the data, at every position of the other dimensions of data and system. -/
theorem C79_transform {K : Type} [CommRing K] (o c data : LArr K) (h1 : IsOri o) (h2 : IsCoord c) (h3 : IsCoord data)
    (a1 : Agree o data) (a2 : Agree o c) (a3 : Agree data c) :
    ∃ r, transformLab o c data = .ok r ∧ IsCoord r ∧ (∀ d, d ≠ "v" → r.size d = if d ∈ o.names then o.size d else size2 data c d) ∧
      ∀ i, vec r "c" i 3 = (lcsAt o c i).toParent (vec data "c" i 3) := by
  obtain ⟨m, hm⟩ := (C79_square_vec o data "c" "v" cv false (some ["c"]) (.inr rfl)).mpr ⟨⟨3, h1.2.1, h1.2.2, h3.2.1⟩, h3.2.2, a1⟩
  obtain ⟨ok2, s2, n2, x2, r2⟩ := C79_square_vec_result o data m h1.1 h3.1 "c" "v" cv false (some ["c"]) (.inr rfl) hm
  have e2 : n2 = 3 := by rw [s2, if_neg cv, size2, if_pos (size_some h1.2.1), h1.2.1] at x2; exact (Option.some.inj x2).symm
  subst e2
  have am : Agree m c := by
    intro d u v hu hv
    rw [s2] at hu
    split_ifs at hu
    rcases size2_cases hu with hu | hu
    · exact a2 d u v hu hv
    · exact a3 d u v hu hv
  obtain ⟨r, hr, ok3, s3, v3⟩ := addArr_ok ok2 h2.1 am
  refine ⟨r, ?_, ⟨ok3, ?_, ?_⟩, ?_, ?_⟩
  · unfold transformLab
    rw [hm]
    exact hr
  · rw [s3, size2, if_pos (size_some x2), x2]
  · rw [← not_mem_of_size, s3, size2]
    have : m.size "v" = none := by rw [s2, if_pos rfl]
    rw [if_neg (not_mem_of_size.mp this)]
    exact not_mem_of_size.mpr h2.2.2
  · intro d hd
    rw [s3]
    have hmd := s2 d
    rw [if_neg hd] at hmd
    unfold size2 at hmd ⊢
    by_cases q1 : d ∈ o.names
    · rw [if_pos q1] at hmd ⊢
      have : d ∈ m.names := size_mem.mp (by rw [hmd]; exact size_mem.mpr q1)
      rw [if_pos this, hmd]
    · rw [if_neg q1] at hmd ⊢
      by_cases q2 : d ∈ data.names
      · have : d ∈ m.names := size_mem.mp (by rw [hmd]; exact size_mem.mpr q2)
        rw [if_pos this, if_pos q2, hmd]
      · have : d ∉ m.names := not_mem_of_size.mp (by rw [hmd]; exact not_mem_of_size.mpr q2)
        rw [if_neg this, if_neg q2]
  · intro i
    rw [Lcs.toParent_eq]
    funext k
    show r.val _ = _
    rw [v3]
    have := congrFun (r2 i) k
    simp only [Bool.false_eq_true, if_false] at this
    show vec m "c" i 3 k + vec c "c" i 3 k = _
    rw [this]
    rfl

/-- **C79**: `transform_data` rejects data with a dimension called `v` and data whose dimension `c` has another length than three. -/
theorem C79_transform_rejects {K : Type} [CommRing K] (o c data : LArr K) (h1 : IsOri o)
    (h : "v" ∈ data.names ∨ data.size "c" ≠ some 3) : transformLab o c data = .error .value := by
  have : ¬ ∃ m, xrMatmul o data ["c", "v"] (some ["c"]) (some ["c"]) = .ok m := by
    rw [C79_square_vec o data "c" "v" cv false (some ["c"]) (.inr rfl)]
    rintro ⟨⟨n, e1, e2, e3⟩, h4, -⟩
    rw [h1.2.1] at e1
    rcases h with h | h
    · exact h4 h
    · exact h (e3.trans e1.symm)
  unfold transformLab
  cases hm : xrMatmul o data ["c", "v"] (some ["c"]) (some ["c"]) with
  | error e => cases e; rfl
  | ok m => exact absurd ⟨m, hm⟩ this

/-! ## Examples -/

/-- an orientation that turns by a quarter around the z-axis between two times; the columns come first in memory -/
def exOri : LArr ℤ := ⟨[("v", 3), ("time", 2), ("c", 3)], fun i =>
  if i "time" = 0 then (if i "c" = i "v" then 1 else 0)
  else if i "c" = 0 ∧ i "v" = 1 then -1 else if i "c" = 1 ∧ i "v" = 0 then 1 else if i "c" = 2 ∧ i "v" = 2 then 1 else 0⟩

/-- four points on a line -/
def exData : LArr ℤ := ⟨[("n", 4), ("c", 3)], fun i => if i "c" = 0 then i "n" else 5⟩

/-- coordinates that move with the time -/
def exCoord : LArr ℤ := ⟨[("c", 3), ("time", 2)], fun i => if i "c" = 2 then 10 * i "time" else 0⟩

theorem exOri_ok : IsOri exOri := by
  refine ⟨⟨by decide, fun i j h => ?_⟩, rfl, rfl⟩
  have h1 := h "v" (by decide)
  have h2 := h "time" (by decide)
  have h3 := h "c" (by decide)
  simp only [exOri, h1, h2, h3]

theorem exData_ok : IsCoord exData := by
  refine ⟨⟨by decide, fun i j h => ?_⟩, rfl, by decide⟩
  have h1 := h "n" (by decide)
  have h3 := h "c" (by decide)
  simp only [exData, h1, h3]

theorem exCoord_ok : IsCoord exCoord := by
  refine ⟨⟨by decide, fun i j h => ?_⟩, rfl, by decide⟩
  have h1 := h "time" (by decide)
  have h3 := h "c" (by decide)
  simp only [exCoord, h1, h3]

theorem exAgree {a b : LArr ℤ} (h : a.names.all (fun n => n ∉ b.names || a.size n == b.size n) = true) : Agree a b := by
  rw [agree_iff]
  intro n h1 h2
  have := List.all_eq_true.mp h n h1
  simpa [h2] using this

/-- Data without a time in a system that moves: at the second time the point `(3, 5, 5)` is at `(-5, 3, 15)`. -/
example : ∃ r, transformLab exOri exCoord exData = .ok r ∧ r.size "time" = some 2 ∧ r.size "n" = some 4 ∧
    vec r "c" (fun d => if d = "time" then 1 else 3) 3 = ![-5, 3, 15] := by
  obtain ⟨r, h1, h2, h3, h4⟩ := C79_transform exOri exCoord exData exOri_ok exCoord_ok exData_ok (exAgree (by decide)) (exAgree (by decide))
    (exAgree (by decide))
  refine ⟨r, h1, (h3 _ (by decide)).trans (by decide), (h3 _ (by decide)).trans (by decide), ?_⟩
  rw [h4]
  funext k
  fin_cases k <;> simp [Lcs.toParent, lcsAt, mat, vec, at2, exOri, exData, exCoord]

/-- The sum of a moving and a turning system. -/
example : ∃ o c, addLab exOri exCoord exOri exCoord = .ok (o, c) ∧ IsOri o ∧ IsCoord c :=
  let ⟨o, c, h1, h2, h3, _⟩ := C79_add exOri exCoord exOri exCoord exOri_ok exCoord_ok exOri_ok exCoord_ok (exAgree (by decide))
    (exAgree (by decide)) (exAgree (by decide)) (exAgree (by decide))
  ⟨o, c, h1, h2, h3⟩

/-- The inverse of a turning system. -/
example : ∃ o c, invertLab exOri exCoord = .ok (o, c) ∧ o.dims = exOri.dims :=
  let ⟨o, c, h1, _, _, h4, _⟩ := C79_invert exOri exCoord exOri_ok exCoord_ok (exAgree (by decide))
  ⟨o, c, h1, h4⟩

/-- An array with matrices of two rows and three columns. -/
def exRect : LArr ℤ := ⟨[("x", 2), ("y", 3)], fun i => i "x" + 2 * i "y"⟩

/-- It has no product with itself, no transposed data and no answer about orthogonality: the default names are for square matrices. -/
example : (∀ c tA tB, xrMatmul exRect exRect ["x", "y"] none none tA tB ≠ .ok c) ∧ (∀ c, transposeMatrix exRect "x" "y" ≠ .ok c) := by
  have ok : exRect.Ok := ⟨by decide, fun i j h => by
    have h1 := h "x" (by decide)
    have h3 := h "y" (by decide)
    simp only [exRect, h1, h3]⟩
  constructor
  · intro c tA tB h
    obtain ⟨⟨n, h1, h2, -⟩, -⟩ := (C79_square exRect exRect "x" "y" (by decide) tA tB).mp ⟨c, h⟩
    have h3 : exRect.size "x" = some 2 := rfl
    have h4 : exRect.size "y" = some 3 := rfl
    rw [h3] at h1; rw [h4] at h2
    cases h1; cases h2
  · intro c h
    have := ((C79_transpose exRect ok "x" "y").1.mp ⟨c, h⟩).2.2
    revert this
    decide

/-- With names for all dimensions the product with the transposed matrices exists. -/
example : ∃ c, xrMatmul exRect exRect ["x", "y"] (some ["x", "y"]) (some ["p", "q"]) false true = .ok c ∧ c.names = ["p", "q"] := ⟨_, rfl, rfl⟩

end Weldx.Lab
