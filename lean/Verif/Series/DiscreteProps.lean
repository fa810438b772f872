import Verif.Series.Discrete

/-!
# Properties of the evaluation of discrete generic series (C64)
-/

namespace Weldx.Ds
open Function

theorem below_eq {cs : List ℝ} {x : ℝ} {n : ℕ} (hn : n ≤ cs.length) (h1 : ∀ i, i < n → cs.getD i 0 ≤ x)
    (h2 : n < cs.length → x < cs.getD n 0) : below cs x = n := by
  induction cs generalizing n with
  | nil => simp at hn; simp [below, hn]
  | cons c t ih =>
    rw [below_cons]
    cases n with
    | zero =>
      have := h2 (by simp)
      simp only [List.getD_cons_zero] at this
      rw [if_neg (by linarith)]
    | succ n =>
      have h0 := h1 0 (by omega)
      simp only [List.getD_cons_zero] at h0
      rw [if_pos h0, ih (n := n) (by simpa using hn)]
      · intro i hi
        simpa using h1 (i + 1) (by omega)
      · intro hl
        simpa using h2 (by simpa using hl)

theorem asc_lt {cs : List ℝ} (h : cs.Pairwise (· < ·)) {i j : ℕ} (hij : i < j) (hj : j < cs.length) :
    cs.getD i 0 < cs.getD j 0 := by
  rw [List.getD_eq_getElem _ _ (by omega : i < cs.length), List.getD_eq_getElem _ _ hj]
  exact List.pairwise_iff_getElem.1 h i j _ _ hij

theorem asc_le {cs : List ℝ} (h : cs.Pairwise (· < ·)) {i j : ℕ} (hij : i ≤ j) (hj : j < cs.length) :
    cs.getD i 0 ≤ cs.getD j 0 := by
  rcases Nat.lt_or_eq_of_le hij with h1 | rfl
  · exact (asc_lt h h1 hj).le
  · exact le_refl _

theorem below_between {cs : List ℝ} (h : cs.Pairwise (· < ·)) {x : ℝ} {i : ℕ} (hi : i < cs.length)
    (h1 : cs.getD i 0 ≤ x) (h2 : i + 1 < cs.length → x < cs.getD (i + 1) 0) : below cs x = i + 1 :=
  below_eq (by omega) (fun k hk => le_trans (asc_le h (by omega) hi) h1) h2

/-- the value of a method for given samples -/
noncomputable def wsum (ws : List (ℝ × ℕ)) (f : ℕ → ℝ) : ℝ := (ws.map fun w => w.1 * f w.2).sum

theorem wsum_grid (m : Method) {cs : List ℝ} (h : cs.Pairwise (· < ·)) {j : ℕ} (hj : j < cs.length) (f : ℕ → ℝ) :
    wsum (weights m cs (cs.getD j 0)) f = f j := by
  have hb := below_between h hj (le_refl _) (fun hl => asc_lt h (Nat.lt_succ_self j) hl)
  unfold wsum weights
  simp only [hb, Nat.succ_ne_zero, if_false, Nat.add_sub_cancel]
  by_cases hl : j + 1 = cs.length
  · simp [hl]
  · simp only [hl, if_false]
    have := asc_lt h (Nat.lt_succ_self j) (show j + 1 < cs.length by omega)
    cases m with
    | step => simp
    | nearest =>
      simp only [sub_self]
      rw [if_pos (by simp only [Nat.succ_eq_add_one] at this; linarith)]
      simp
    | linear => simp

theorem wsum_before (m : Method) {cs : List ℝ} (f : ℕ → ℝ) {x : ℝ} (hx : x < cs.getD 0 0) (hne : cs ≠ []) :
    wsum (weights m cs x) f = f 0 := by
  have hb : below cs x = 0 := below_eq (Nat.zero_le _) (by simp) (fun _ => hx)
  simp [wsum, weights, hb]

theorem wsum_after (m : Method) {cs : List ℝ} (h : cs.Pairwise (· < ·)) (f : ℕ → ℝ) {x : ℝ} (hne : cs ≠ [])
    (hx : cs.getD (cs.length - 1) 0 ≤ x) : wsum (weights m cs x) f = f (cs.length - 1) := by
  have hl : 0 < cs.length := List.length_pos_iff.2 hne
  have hb := below_between h (show cs.length - 1 < cs.length by omega) hx (by omega)
  have : below cs x = cs.length := by omega
  simp [wsum, weights, this, hne]

theorem wsum_linear {cs : List ℝ} (h : cs.Pairwise (· < ·)) (f : ℕ → ℝ) {x : ℝ} {i : ℕ} (hi : i + 1 < cs.length)
    (h1 : cs.getD i 0 ≤ x) (h2 : x ≤ cs.getD (i + 1) 0) :
    wsum (weights .linear cs x) f = f i + (f (i + 1) - f i) * ((x - cs.getD i 0) / (cs.getD (i + 1) 0 - cs.getD i 0)) := by
  have hlt := asc_lt h (Nat.lt_succ_self i) hi
  rcases lt_or_eq_of_le h2 with h2 | h2
  · have hb := below_between h (show i < cs.length by omega) h1 (fun _ => h2)
    have hne : i + 1 ≠ cs.length := by omega
    simp only [wsum, weights, hb, Nat.succ_ne_zero, if_false, hne, Nat.add_sub_cancel, List.map_cons, List.map_nil,
      List.sum_cons, List.sum_nil]
    ring
  · rw [h2, wsum_grid .linear h hi]
    rw [div_self (by simp only [Nat.succ_eq_add_one] at hlt; linarith)]
    ring

theorem wsum_step {cs : List ℝ} (h : cs.Pairwise (· < ·)) (f : ℕ → ℝ) {x : ℝ} {i : ℕ} (hi : i + 1 < cs.length)
    (h1 : cs.getD i 0 ≤ x) (h2 : x < cs.getD (i + 1) 0) : wsum (weights .step cs x) f = f i := by
  have hb := below_between h (show i < cs.length by omega) h1 (fun _ => h2)
  have hne : i + 1 ≠ cs.length := by omega
  simp [wsum, weights, hb, hne]

theorem wsum_nearest {cs : List ℝ} (h : cs.Pairwise (· < ·)) (f : ℕ → ℝ) {x : ℝ} {i : ℕ} (hi : i + 1 < cs.length)
    (h1 : cs.getD i 0 ≤ x) (h2 : x < cs.getD (i + 1) 0) :
    wsum (weights .nearest cs x) f = if x - cs.getD i 0 ≤ cs.getD (i + 1) 0 - x then f i else f (i + 1) := by
  have hb := below_between h (show i < cs.length by omega) h1 (fun _ => h2)
  have hne : i + 1 ≠ cs.length := by omega
  simp only [wsum, weights, hb, Nat.succ_ne_zero, if_false, hne, Nat.add_sub_cancel]
  split <;> simp

theorem wsum_bounds {ws : List (ℝ × ℕ)} {f : ℕ → ℝ} {lo hi : ℝ} (h1 : (ws.map (·.1)).sum = 1) (h2 : ∀ w ∈ ws, 0 ≤ w.1)
    (h3 : ∀ w ∈ ws, lo ≤ f w.2 ∧ f w.2 ≤ hi) : lo ≤ wsum ws f ∧ wsum ws f ≤ hi := by
  have key : ∀ ws : List (ℝ × ℕ), (∀ w ∈ ws, 0 ≤ w.1) → (∀ w ∈ ws, lo ≤ f w.2 ∧ f w.2 ≤ hi) →
      lo * (ws.map (·.1)).sum ≤ wsum ws f ∧ wsum ws f ≤ hi * (ws.map (·.1)).sum := by
    intro ws
    induction ws with
    | nil => simp [wsum]
    | cons w t ih =>
      intro h2 h3
      obtain ⟨i1, i2⟩ := ih (fun w hw => h2 w (List.mem_cons_of_mem _ hw)) (fun w hw => h3 w (List.mem_cons_of_mem _ hw))
      obtain ⟨l1, l2⟩ := h3 w (by simp)
      have h0 := h2 w (by simp)
      simp only [wsum, List.map_cons, List.sum_cons] at i1 i2 ⊢
      constructor <;> nlinarith
  have := key ws h2 h3
  rwa [h1, mul_one, mul_one] at this

theorem interp1_val {m : Method} {a : Arr} {d : String} {cs xs : List ℝ} (h : Dict.get? a.dims d = some cs) (ix : String → ℕ) :
    (interp1 m a d xs).val ix = wsum (weights m cs (xs.getD (ix d) 0)) (fun i => a.val (update ix d i)) := by
  simp [interp1, h, wsum]

theorem interp1_dims {m : Method} {a : Arr} {d : String} {cs xs : List ℝ} (h : Dict.get? a.dims d = some cs) :
    (interp1 m a d xs).dims = Dict.set a.dims d xs := by
  simp [interp1, h]

theorem set_comm {d : List (String × List ℝ)} {k l : String} {v w : List ℝ} (hk : k ∈ Dict.keys d) (hl : l ∈ Dict.keys d)
    (hne : k ≠ l) : Dict.set (Dict.set d k v) l w = Dict.set (Dict.set d l w) k v := by
  induction d with
  | nil => simp at hk
  | cons e t ih =>
    obtain ⟨k', v'⟩ := e
    simp only [Dict.keys_cons, List.mem_cons] at hk hl
    by_cases h1 : k' = k
    · have h2 : k' ≠ l := fun h => hne (h1.symm.trans h)
      simp [Dict.set, h1, hne]
    · by_cases h2 : k' = l
      · simp [Dict.set, h2, Ne.symm hne]
      · simp only [Dict.set, h1, h2, if_false]
        rw [ih (hk.resolve_left (fun h => h1 h.symm)) (hl.resolve_left (fun h => h2 h.symm))]

theorem interp1_comm {m m' : Method} {a : Arr} {d e : String} {xs ys : List ℝ} (hd : d ∈ Dict.keys a.dims)
    (he : e ∈ Dict.keys a.dims) (hne : d ≠ e) :
    interp1 m' (interp1 m a d xs) e ys = interp1 m (interp1 m' a e ys) d xs := by
  obtain ⟨cd, hcd⟩ := Dict.get?_isSome.2 hd
  obtain ⟨ce, hce⟩ := Dict.get?_isSome.2 he
  have h1 : Dict.get? (interp1 m a d xs).dims e = some ce := by
    rw [interp1_dims hcd, Dict.get?_set, if_neg (Ne.symm hne), hce]
  have h2 : Dict.get? (interp1 m' a e ys).dims d = some cd := by
    rw [interp1_dims hce, Dict.get?_set, if_neg hne, hcd]
  have hdims : (interp1 m' (interp1 m a d xs) e ys).dims = (interp1 m (interp1 m' a e ys) d xs).dims := by
    rw [interp1_dims h1, interp1_dims h2, interp1_dims hcd, interp1_dims hce, set_comm hd he hne]
  have hval : (interp1 m' (interp1 m a d xs) e ys).val = (interp1 m (interp1 m' a e ys) d xs).val := by
    funext ix
    rw [interp1_val h1, interp1_val h2]
    simp only [wsum, interp1_val hcd, interp1_val hce, update_of_ne hne, update_of_ne (Ne.symm hne)]
    simp only [← List.sum_map_mul_left]
    rw [sum_comm']
    congr 1
    refine List.map_congr_left fun v _ => ?_
    congr 1
    refine List.map_congr_left fun w _ => ?_
    rw [update_comm hne]
    ring
  cases hA : interp1 m' (interp1 m a d xs) e ys
  cases hB : interp1 m (interp1 m' a e ys) d xs
  rw [hA, hB] at hdims hval
  simp only at hdims hval
  rw [hdims, hval]

theorem interp1_keys {m : Method} {a : Arr} {d : String} {xs : List ℝ} :
    Dict.keys (interp1 m a d xs).dims = Dict.keys a.dims := by
  cases h : Dict.get? a.dims d with
  | none => simp [interp1, h]
  | some cs => rw [interp1_dims h, Dict.keys_set_of_mem (Dict.get?_isSome.1 ⟨cs, h⟩)]

theorem interp_keys {m : Method} {a : Arr} {kw : List (String × List ℝ)} :
    Dict.keys (interp m a kw).dims = Dict.keys a.dims := by
  induction kw generalizing a with
  | nil => rfl
  | cons e t ih =>
    show Dict.keys (interp m (interp1 m a e.1 e.2) t).dims = _
    rw [ih, interp1_keys]

theorem interp_cons {m : Method} {a : Arr} {e : String × List ℝ} {kw : List (String × List ℝ)} :
    interp m a (e :: kw) = interp m (interp1 m a e.1 e.2) kw := rfl

theorem interp_append {m : Method} {a : Arr} {k l : List (String × List ℝ)} : interp m a (k ++ l) = interp m (interp m a k) l := by
  simp [interp, List.foldl_append]

theorem interp_perm {m : Method} {a : Arr} {kw kw' : List (String × List ℝ)} (h : kw.Perm kw') (hn : (Dict.keys kw).Nodup)
    (hk : ∀ e ∈ kw, e.1 ∈ Dict.keys a.dims) : interp m a kw = interp m a kw' := by
  induction h generalizing a with
  | nil => rfl
  | cons e _ ih =>
    rw [interp_cons, interp_cons]
    exact ih (List.nodup_cons.1 hn).2 (fun f hf => by rw [interp1_keys]; exact hk f (List.mem_cons_of_mem _ hf))
  | swap e f t =>
    simp only [interp_cons]
    rw [interp1_comm (hk f (by simp)) (hk e (by simp))]
    simp only [Dict.keys_cons, List.nodup_cons, List.mem_cons, not_or] at hn
    exact hn.1.1
  | trans h1 _ ih1 ih2 =>
    rw [ih1 hn hk]
    exact ih2 ((h1.map Prod.fst).nodup_iff.1 hn) (fun e he => hk e (h1.mem_iff.2 he))

/-- dimension not interpolated keeps coordinates -/
theorem interp_get {m : Method} {a : Arr} {kw : List (String × List ℝ)} (hn : (Dict.keys kw).Nodup)
    (hk : ∀ e ∈ kw, e.1 ∈ Dict.keys a.dims) (d : String) :
    Dict.get? (interp m a kw).dims d = (Dict.get? kw d).or (Dict.get? a.dims d) := by
  induction kw generalizing a with
  | nil => rfl
  | cons e t ih =>
    obtain ⟨k, v⟩ := e
    rw [interp_cons, ih (List.nodup_cons.1 hn).2 (fun f hf => by rw [interp1_keys]; exact hk f (List.mem_cons_of_mem _ hf))]
    obtain ⟨cs, hcs⟩ := Dict.get?_isSome.2 (hk (k, v) (by simp))
    simp only at hcs
    simp only [interp1_dims hcs, Dict.get?_set, Dict.get?]
    by_cases h : k = d
    · subst h
      have : Dict.get? t k = none := Dict.get?_eq_none.2 (List.nodup_cons.1 hn).1
      simp [this]
    · simp [h, Ne.symm h]

/-! ### Theorems -/

/-- C64: exactly the coordinates of known dimensions are accepted. -/
theorem C64_accepts (s : Series) (kw : List (String × List ℝ)) :
    (∃ r, evaluate s kw = .ok r) ↔ ∀ e ∈ kw, e.1 ∈ Dict.keys s.arr.dims := by
  unfold evaluate
  constructor
  · rintro ⟨r, h⟩
    split at h
    · rename_i hk; simpa using hk
    · cases h
  · intro h
    rw [if_pos (by simpa using h)]
    exact ⟨_, rfl⟩

/-- C64: the result has the same dimensions in the same order; the evaluated ones have the requested coordinates. -/
theorem C64_dims (s r : Series) (kw : List (String × List ℝ)) (hn : (Dict.keys kw).Nodup) (h : evaluate s kw = .ok r) :
    Dict.keys r.arr.dims = Dict.keys s.arr.dims ∧
      ∀ d, Dict.get? r.arr.dims d = (Dict.get? kw d).or (Dict.get? s.arr.dims d) := by
  have hk := (C64_accepts s kw).1 ⟨r, h⟩
  unfold evaluate at h
  rw [if_pos (by simpa using hk)] at h
  cases h
  exact ⟨interp_keys, interp_get hn hk⟩

/-- C64: the values of a series evaluated along one dimension. Outside the range the first or the last value is used, inside
the method decides. -/
theorem C64_value (s r : Series) (d : String) (cs xs : List ℝ) (hd : Dict.get? s.arr.dims d = some cs) (hw : s.arr.WF)
    (h : evaluate s [(d, xs)] = .ok r) (ix : String → ℕ) :
    let x := xs.getD (ix d) 0
    let f := fun i => s.arr.val (update ix d i)
    (x < cs.getD 0 0 → r.arr.val ix = f 0) ∧
    (cs.getD (cs.length - 1) 0 ≤ x → r.arr.val ix = f (cs.length - 1)) ∧
    ∀ i, i + 1 < cs.length → cs.getD i 0 ≤ x → x < cs.getD (i + 1) 0 →
      (s.method = .linear → r.arr.val ix = f i + (f (i + 1) - f i) * ((x - cs.getD i 0) / (cs.getD (i + 1) 0 - cs.getD i 0))) ∧
      (s.method = .step → r.arr.val ix = f i) ∧
      (s.method = .nearest → r.arr.val ix = if x - cs.getD i 0 ≤ cs.getD (i + 1) 0 - x then f i else f (i + 1)) := by
  have ha := hw.asc _ (Dict.mem_of_get? hd)
  have hne := hw.ne _ (Dict.mem_of_get? hd)
  have hk := (C64_accepts s _).1 ⟨r, h⟩
  unfold evaluate at h
  rw [if_pos (by simpa using hk)] at h
  cases h
  simp only [interp, List.foldl_cons, List.foldl_nil, interp1_val hd]
  refine ⟨fun hx => wsum_before _ _ hx hne, fun hx => wsum_after _ ha _ hne hx, fun i hi h1 h2 => ⟨?_, ?_, ?_⟩⟩
  · intro hm; rw [hm]; exact wsum_linear ha _ hi h1 h2.le
  · intro hm; rw [hm]; exact wsum_step ha _ hi h1 h2
  · intro hm; rw [hm]; exact wsum_nearest ha _ hi h1 h2

/-- C64: the order of the arguments of `evaluate` is not relevant. -/
theorem C64_order (s : Series) (kw kw' : List (String × List ℝ)) (hn : (Dict.keys kw).Nodup) (hp : kw.Perm kw') :
    evaluate s kw = evaluate s kw' := by
  unfold evaluate
  by_cases hk : ∀ e ∈ kw, e.1 ∈ Dict.keys s.arr.dims
  · rw [if_pos (by simpa using hk), if_pos (by simpa using fun e he => hk e (hp.mem_iff.2 he)), interp_perm hp hn hk]
  · rw [if_neg (by simpa using hk), if_neg]
    intro hc
    apply hk
    intro e he
    simp only [List.all_eq_true, decide_eq_true_eq] at hc
    exact hc e (hp.mem_iff.1 he)

/-- C64: for series with linear interpolation, the evaluation can be done in steps. -/
theorem C64_steps (s : Series) (k l : List (String × List ℝ)) (hm : s.method = .linear) :
    (evaluate s k).bind (fun r => evaluate r l) = evaluate s (k ++ l) := by
  unfold evaluate
  by_cases hk : ∀ e ∈ k, e.1 ∈ Dict.keys s.arr.dims
  · rw [if_pos (by simpa using hk)]
    simp only [Except.bind, interp_keys]
    by_cases hl : ∀ e ∈ l, e.1 ∈ Dict.keys s.arr.dims
    · rw [if_pos (by simpa using hl), if_pos]
      · rw [interp_append, hm]
      · simp only [List.all_append, Bool.and_eq_true, List.all_eq_true, decide_eq_true_eq]
        exact ⟨hk, hl⟩
    · rw [if_neg (by simpa using hl), if_neg]
      simp only [List.all_append, Bool.and_eq_true, List.all_eq_true, decide_eq_true_eq, not_and]
      exact fun _ => hl
  · rw [if_neg (by simpa using hk), if_neg]
    · rfl
    · simp only [List.all_append, Bool.and_eq_true, List.all_eq_true, decide_eq_true_eq, not_and]
      exact fun h => absurd h hk

/-- C64: what an evaluation in two steps gives for any method: the second step is linear. -/
theorem C64_steps_general (s : Series) (k l : List (String × List ℝ)) (hk : ∀ e ∈ k ++ l, e.1 ∈ Dict.keys s.arr.dims) :
    (evaluate s k).bind (fun r => evaluate r l) = .ok ⟨interp .linear (interp s.method s.arr k) l, .linear⟩ := by
  unfold evaluate
  rw [if_pos (by simpa using fun e he => hk e (List.mem_append_left _ he))]
  simp only [Except.bind, interp_keys]
  rw [if_pos (by simpa using fun e he => hk e (List.mem_append_right _ he))]

theorem interp_grid {m : Method} {a : Arr} (kw : List (String × List ℝ)) (hn : (Dict.keys kw).Nodup)
    (hasc : ∀ e ∈ kw, ∀ cs, Dict.get? a.dims e.1 = some cs → cs.Pairwise (· < ·))
    (hk : ∀ e ∈ kw, e.1 ∈ Dict.keys a.dims) (ix j : String → ℕ)
    (hj : ∀ e ∈ kw, ∀ cs, Dict.get? a.dims e.1 = some cs → j e.1 < cs.length ∧ e.2.getD (ix e.1) 0 = cs.getD (j e.1) 0)
    (ho : ∀ d, d ∉ Dict.keys kw → ix d = j d) :
    (interp m a kw).val ix = a.val j := by
  induction kw generalizing a ix with
  | nil =>
    have : ix = j := funext fun d => ho d (by simp)
    rw [this]; rfl
  | cons e t ih =>
    have hnn := List.nodup_cons.1 hn
    have hk1 : ∀ f ∈ t, f.1 ∈ Dict.keys a.dims := fun f hf => hk f (List.mem_cons_of_mem _ hf)
    -- interpolate `e` last
    have hp : (e :: t).Perm (t ++ [e]) := (List.perm_append_singleton e t).symm
    rw [interp_perm hp hn hk, interp_append]
    obtain ⟨cs, hcs⟩ := Dict.get?_isSome.2 (hk e (by simp))
    have hcs' : Dict.get? (interp m a t).dims e.1 = some cs := by
      rw [interp_get hnn.2 hk1, Dict.get?_eq_none.2 hnn.1, hcs]; rfl
    show (interp1 m (interp m a t) e.1 e.2).val ix = _
    rw [interp1_val hcs', (hj e (by simp) cs hcs).2, wsum_grid m (hasc e (by simp) cs hcs) (hj e (by simp) cs hcs).1]
    refine ih hnn.2 (fun f hf => hasc f (List.mem_cons_of_mem _ hf)) hk1 _ ?_ ?_
    · intro f hf c hc
      have hfe : f.1 ≠ e.1 := fun h => hnn.1 (h ▸ List.mem_map_of_mem hf)
      rw [update_of_ne hfe]
      exact hj f (List.mem_cons_of_mem _ hf) c hc
    · intro d hd
      by_cases hde : d = e.1
      · subst hde; simp
      · rw [update_of_ne hde]
        exact ho d (by simp only [Dict.keys_cons, List.mem_cons, not_or]; exact ⟨hde, hd⟩)

/-- C64: at the stored coordinates the stored values are returned, for every method and any number of dimensions. -/
theorem C64_grid (s r : Series) (kw : List (String × List ℝ)) (hw : s.arr.WF) (hn : (Dict.keys kw).Nodup)
    (h : evaluate s kw = .ok r) (ix j : String → ℕ)
    (hj : ∀ d xs cs, (d, xs) ∈ kw → Dict.get? s.arr.dims d = some cs → j d < cs.length ∧ xs.getD (ix d) 0 = cs.getD (j d) 0)
    (ho : ∀ d, d ∉ Dict.keys kw → ix d = j d) : r.arr.val ix = s.arr.val j := by
  have hk := (C64_accepts s _).1 ⟨r, h⟩
  unfold evaluate at h
  rw [if_pos (by simpa using hk)] at h
  cases h
  exact interp_grid kw hn (fun e _ cs hcs => hw.asc _ (Dict.mem_of_get? hcs)) hk ix j (fun e he cs hcs => hj e.1 e.2 cs he hcs) ho

theorem interp_bounds {m : Method} {a : Arr} {lo hi : ℝ} (kw : List (String × List ℝ)) (hn : (Dict.keys kw).Nodup)
    (hne : ∀ e ∈ kw, ∀ cs, Dict.get? a.dims e.1 = some cs → cs ≠ [])
    (hk : ∀ e ∈ kw, e.1 ∈ Dict.keys a.dims) (hb : ∀ ix, Inside a ix → lo ≤ a.val ix ∧ a.val ix ≤ hi) (ix : String → ℕ)
    (hi' : ∀ d cs, d ∉ Dict.keys kw → Dict.get? a.dims d = some cs → ix d < cs.length) :
    lo ≤ (interp m a kw).val ix ∧ (interp m a kw).val ix ≤ hi := by
  induction kw generalizing ix with
  | nil => exact hb ix (fun d cs h => hi' d cs (by simp) h)
  | cons e t ih =>
    have hnn := List.nodup_cons.1 hn
    have hk1 : ∀ f ∈ t, f.1 ∈ Dict.keys a.dims := fun f hf => hk f (List.mem_cons_of_mem _ hf)
    have hp : (e :: t).Perm (t ++ [e]) := (List.perm_append_singleton e t).symm
    rw [interp_perm hp hn hk, interp_append]
    obtain ⟨cs, hcs⟩ := Dict.get?_isSome.2 (hk e (by simp))
    have hcs' : Dict.get? (interp m a t).dims e.1 = some cs := by
      rw [interp_get hnn.2 hk1, Dict.get?_eq_none.2 hnn.1, hcs]; rfl
    show lo ≤ (interp1 m (interp m a t) e.1 e.2).val ix ∧ (interp1 m (interp m a t) e.1 e.2).val ix ≤ hi
    rw [interp1_val hcs']
    have hws := weights_sum m cs (e.2.getD (ix e.1) 0)
    refine wsum_bounds hws.1 hws.2 (fun w hw => ?_)
    refine ih hnn.2 (fun f hf => hne f (List.mem_cons_of_mem _ hf)) hk1 _ (fun d c hd hc => ?_)
    by_cases hde : d = e.1
    · subst hde
      rw [hcs] at hc
      cases hc
      rw [update_self]
      exact weights_congr w hw (hne e (by simp) cs hcs)
    · rw [update_of_ne hde]
      exact hi' d c (by simp only [Dict.keys_cons, List.mem_cons, not_or]; exact ⟨hde, hd⟩) hc

/-- C64: no value leaves the range of the stored values, wherever and in however many dimensions the series is evaluated. -/
theorem C64_bounds (s r : Series) (kw : List (String × List ℝ)) (hw : s.arr.WF) (hn : (Dict.keys kw).Nodup)
    (h : evaluate s kw = .ok r) {lo hi : ℝ} (hb : ∀ ix, Inside s.arr ix → lo ≤ s.arr.val ix ∧ s.arr.val ix ≤ hi)
    (ix : String → ℕ) (hix : Inside r.arr ix) : lo ≤ r.arr.val ix ∧ r.arr.val ix ≤ hi := by
  have hk := (C64_accepts s _).1 ⟨r, h⟩
  have hd := (C64_dims s r kw hn h).2
  unfold evaluate at h
  rw [if_pos (by simpa using hk)] at h
  cases h
  refine interp_bounds kw hn (fun e _ cs hcs => hw.ne _ (Dict.mem_of_get? hcs)) hk hb ix (fun d cs hdk hcs => ?_)
  refine hix d cs ?_
  rw [hd d, Dict.get?_eq_none.2 hdk, hcs]; rfl

/-- a table of two rows and two columns -/
noncomputable def exArr : Arr := ⟨[("x", [0, 1]), ("y", [0, 2])], fun ix => (ix "x" : ℝ) + 10 * (ix "y" : ℝ)⟩

theorem exArr_wf : exArr.WF := by
  refine ⟨by decide, ?_, ?_, ?_⟩
  · intro e he
    simp only [exArr, List.mem_cons, List.not_mem_nil, or_false] at he
    rcases he with rfl | rfl <;> simp
  · intro e he
    simp only [exArr, List.mem_cons, List.not_mem_nil, or_false] at he
    rcases he with rfl | rfl <;> simp
  · intro ix iy h
    simp only [exArr] at h ⊢
    rw [h "x" (by decide), h "y" (by decide)]

/-- C64: a series with the method "step" that is evaluated in two steps is interpolated linearly in the second one. -/
theorem C64_method_lost : ∃ (s : Series) (k l : List (String × List ℝ)), s.arr.WF ∧
    (Dict.keys (k ++ l)).Nodup ∧ (∀ e ∈ k ++ l, e.1 ∈ Dict.keys s.arr.dims) ∧
    (evaluate s k).bind (fun r => evaluate r l) ≠ evaluate s (k ++ l) := by
  refine ⟨⟨exArr, .step⟩, [("x", [0])], [("y", [1])], exArr_wf, by decide, by decide, ?_⟩
  intro hc
  rw [C64_steps_general _ _ _ (by decide)] at hc
  unfold evaluate at hc
  rw [if_pos (by decide)] at hc
  injection hc with hc
  have hv := congrFun (congrArg (fun s : Series => s.arr.val) hc) (fun _ => 0)
  have hx : Dict.get? exArr.dims "x" = some [0, 1] := rfl
  have hy : ∀ m, Dict.get? (interp1 m exArr "x" [0]).dims "y" = some [0, 2] := fun m => rfl
  simp only [interp, List.cons_append, List.nil_append, List.foldl_cons, List.foldl_nil] at hv
  rw [interp1_val (hy _), interp1_val (hy _)] at hv
  rw [wsum_linear (i := 0) (by simp) _ (by simp) (by simp) (by simp), wsum_step (i := 0) (by simp) _ (by simp) (by simp) (by simp)] at hv
  simp only [interp1_val hx] at hv
  have hg : ∀ f, wsum (weights .step [0, 1] ([(0 : ℝ)].getD 0 0)) f = f 0 := fun f => wsum_grid .step (cs := [0, 1]) (by simp) (j := 0) (by simp) f
  have e1 : ∀ i, update (fun _ : String => 0) "y" i "x" = 0 := fun i => by simp
  simp only [e1, hg] at hv
  norm_num [exArr] at hv
  rw [update_of_ne (by decide), update_self] at hv
  omega

/-- the hypotheses hold for a table evaluated in both dimensions, partly outside of the table: the values stay in the range -/
example : ∃ r, evaluate ⟨exArr, .linear⟩ [("y", [-1, 1]), ("x", [1])] = .ok r ∧
    ∀ ix, Inside r.arr ix → 0 ≤ r.arr.val ix ∧ r.arr.val ix ≤ 11 := by
  obtain ⟨r, hr⟩ := (C64_accepts ⟨exArr, .linear⟩ [("y", [-1, 1]), ("x", [1])]).2 (by decide)
  refine ⟨r, hr, fun ix hix => C64_bounds _ r _ exArr_wf (by decide) hr ?_ ix hix⟩
  intro iy hy
  have h1 := hy "x" [0, 1] rfl
  have h2 := hy "y" [0, 2] rfl
  simp only [List.length_cons, List.length_nil] at h1 h2
  have h1' : (iy "x" : ℝ) ≤ 1 := by exact_mod_cast (by omega : iy "x" ≤ 1)
  have h2' : (iy "y" : ℝ) ≤ 1 := by exact_mod_cast (by omega : iy "y" ≤ 1)
  have h3 : (0 : ℝ) ≤ iy "x" := Nat.cast_nonneg _
  have h4 : (0 : ℝ) ≤ iy "y" := Nat.cast_nonneg _
  simp only [exArr]
  constructor <;> linarith

/-- a value between the columns -/
example : ∃ r, evaluate ⟨exArr, .linear⟩ [("y", [1])] = .ok r ∧ r.arr.val (fun _ => 0) = 5 := by
  obtain ⟨r, hr⟩ := (C64_accepts ⟨exArr, .linear⟩ [("y", [1])]).2 (by decide)
  refine ⟨r, hr, ?_⟩
  have h := ((C64_value _ r "y" [0, 2] [1] rfl exArr_wf hr (fun _ => 0)).2.2 0 (by simp) (by simp) (by simp)).1 rfl
  rw [h]
  simp [exArr]
  norm_num

end Weldx.Ds
