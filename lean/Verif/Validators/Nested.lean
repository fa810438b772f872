import Verif.Validators.Lemmas

/-!
# Lemmas about nested shapes and about exceptions of the validator
-/

set_option linter.unusedSimpArgs false

namespace Weldx.Val

theorem nodeShape_eq (n : Node) : NodeShape n = n.shape := by cases n <;> rfl

theorem parseKey_eq {k name : List Char} {o : Bool} (h : KeyName k name o) : parseKey k = .ok (name, o) := by
  cases h with
  | opt name h =>
    have : ('(' :: name ++ [')']).getLast? = some ')' := by simp only [List.getLast?_concat]
    unfold parseKey
    rw [if_pos ⟨rfl, this⟩]
    simp [h]
  | plain k h =>
    unfold parseKey
    rw [if_neg]
    rintro ⟨h1, h2⟩
    cases k with
    | nil => simp at h1
    | cons a t =>
      simp only [List.head?_cons, Option.some.injEq] at h1
      subst h1
      rcases List.eq_nil_or_concat t with rfl | ⟨m, b, rfl⟩
      · simp at h2
      · rw [List.concat_eq_append, ← List.cons_append, List.getLast?_concat] at h2
        cases h2
        exact h ⟨m, by simp⟩

theorem KeyName.unique {k a b : List Char} {o o' : Bool} (h : KeyName k a o) (h' : KeyName k b o') :
    a = b ∧ o = o' := by
  have := (parseKey_eq h).symm.trans (parseKey_eq h')
  simpa using this

theorem get_eq {n : Node} (h : n ≠ .number) (k : List Char) : n.get k = .ok (n.child k) := by
  cases n with
  | number => exact absurd rfl h
  | mapping s es => rfl
  | other => rfl

theorem mergeVars_sound : ∀ {xs d d' : List (Item × Int)}, mergeVars d xs = some d' →
    (Good d → Good xs → Good d') ∧ ∀ σ, Agrees σ d' → Agrees σ d ∧ Agrees σ xs := by
  intro xs
  induction xs with
  | nil => intro d d' h; simp only [mergeVars, Option.some.injEq] at h; subst h; exact ⟨fun h _ => h, fun σ h => ⟨h, .nil⟩⟩
  | cons x xs ih =>
    obtain ⟨k, v⟩ := x
    intro d d' h
    have gtail : Good ((k, v) :: xs) → Good xs ∧ ∃ y, k = .str y := fun hx =>
      ⟨⟨(List.nodup_cons.1 hx.1).2, fun k hk => hx.2 k (List.mem_cons_of_mem _ hk)⟩, hx.2 k (by simp)⟩
    simp only [mergeVars] at h
    split at h
    · rename_i hg
      have hnm := Dict.get?_eq_none.1 hg
      obtain ⟨h1, h2⟩ := ih h
      rw [Dict.set_of_not_mem hnm] at h1 h2
      refine ⟨fun hd hx => h1 ⟨?_, ?_⟩ (gtail hx).1, fun σ ha => ?_⟩
      · rw [Dict.keys_append]; exact List.nodup_append.2 ⟨hd.1, by simp, by
          intro a ha b hb; simp at hb; subst hb; rintro rfl; exact hnm ha⟩
      · intro k' hk
        rw [Dict.keys_append, List.mem_append] at hk
        rcases hk with hk | hk
        · exact hd.2 k' hk
        · simp at hk; subst hk; exact (gtail hx).2
      · obtain ⟨h3, h4⟩ := h2 σ ha
        refine ⟨fun k w hk => h3 k w (by simp [hk]), fun k' w hk => ?_⟩
        rcases List.mem_cons.1 hk with hk | hk
        · cases hk; exact h3 k v (by simp)
        · exact h4 k' w hk
    · rename_i w hg
      split at h
      · cases h
      · rename_i hne
        simp only [ne_eq, not_not] at hne
        subst hne
        obtain ⟨h1, h2⟩ := ih h
        refine ⟨fun hd hx => h1 hd (gtail hx).1, fun σ ha => ?_⟩
        obtain ⟨h3, h4⟩ := h2 σ ha
        refine ⟨h3, fun k' w' hk => ?_⟩
        rcases List.mem_cons.1 hk with hk | hk
        · cases hk; exact h3 k w (Dict.mem_of_get? hg)
        · exact h4 k' w' hk

theorem mergeVars_complete {σ : List Char → Int} : ∀ {xs d : List (Item × Int)}, Agrees σ d → Agrees σ xs →
    ∃ d', mergeVars d xs = some d' ∧ Agrees σ d' := by
  intro xs
  induction xs with
  | nil => intro d h _; exact ⟨d, rfl, h⟩
  | cons x xs ih =>
    obtain ⟨k, v⟩ := x
    intro d h1 h2
    have h2' : Agrees σ xs := fun k w hk => h2 k w (List.mem_cons_of_mem _ hk)
    obtain ⟨y, rfl, hy⟩ := h2 k v (by simp)
    simp only [mergeVars]
    split
    · rename_i hg
      rw [Dict.set_of_not_mem (Dict.get?_eq_none.1 hg)]
      refine ih ?_ h2'
      intro k w hk
      rcases List.mem_append.1 hk with hk | hk
      · exact h1 k w hk
      · simp at hk; obtain ⟨rfl, rfl⟩ := hk; exact ⟨y, rfl, hy⟩
    · rename_i w hg
      obtain ⟨z, hz, hw⟩ := h1 _ _ (Dict.mem_of_get? hg)
      cases hz
      have : w = v := hw.symm.trans hy
      simp only [this, ne_eq, not_true, if_false]
      exact ih h1 h2'

/-- condition on the pattern of a node -/
def LeafOk (σ : List Char → Int) (p : Pattern) (o : Bool) (n : Node) : Prop :=
  match n.shape with
  | some s => p.MatchesWith σ s
  | none => o = true

theorem validateInstance_sound {l : List Item} {p : Pattern} (h : WritesPattern l p) {n : Node} {o : Bool}
    {d : List (Item × Int)} (hd : validateInstance n l o = .ok (some d)) :
    Good d ∧ ∀ σ, Agrees σ d → LeafOk σ p o n := by
  unfold validateInstance at hd
  unfold LeafOk
  cases hs : n.shape with
  | none =>
    simp only [hs] at hd ⊢
    cases o with
    | false => cases hd
    | true => cases hd; exact ⟨.nil, fun _ _ => rfl⟩
  | some s =>
    simp only [hs] at hd ⊢
    cases hv : validateShape s l with
    | error x => rw [hv] at hd; cases hd
    | ok d' => rw [hv] at hd; cases hd; exact validateShape_sound h hv

theorem validateInstance_complete {l : List Item} {p : Pattern} (h : WritesPattern l p) {n : Node} {o : Bool}
    {σ : List Char → Int} (hok : LeafOk σ p o n) : ∃ d, validateInstance n l o = .ok (some d) ∧ Agrees σ d := by
  unfold validateInstance
  unfold LeafOk at hok
  cases hs : n.shape with
  | none =>
    simp only [hs] at hok ⊢
    subst hok
    exact ⟨[], rfl, .nil⟩
  | some s =>
    simp only [hs] at hok ⊢
    obtain ⟨d, hd, ha⟩ := validateShape_complete h hok
    exact ⟨d, by rw [hd]; rfl, ha⟩

theorem inline_ok (s : List Char) :
    ['(', '['] <+: ('(' :: '[' :: s ++ [']', ')']) ∧ [']', ')'] <:+ ('(' :: '[' :: s ++ [']', ')']) ∧
    (('(' :: '[' :: s ++ [']', ')']).drop 2).dropLast.dropLast = s := by
  refine ⟨⟨s ++ [']', ')'], by simp⟩, ⟨'(' :: '[' :: s, by simp⟩, ?_⟩
  have : ('(' :: '[' :: s ++ [']', ')']).drop 2 = (s ++ [']']) ++ [')'] := by simp
  rw [this, List.dropLast_concat, List.dropLast_concat]

theorem inline_inj {s t : List Char} (h : '(' :: '[' :: s ++ [']', ')'] = '(' :: '[' :: t ++ [']', ')']) : s = t := by
  simpa using h

mutual
theorem validate_sound : ∀ (e : Exp), WellFormed e → ∀ (n : Node) (o : Bool) (d : List (Item × Int)),
    validate n o e = .ok (some d) → Good d ∧ ∀ σ, Agrees σ d →
      ∀ e' o' n', Belongs false e o n e' o' n' → Satisfies σ e' o' n'
  | .shape l, hw, n, o, d, h => by
    cases hw with
    | shape l p hp =>
    simp only [validate] at h
    refine ⟨(validateInstance_sound hp h).1, fun σ ha e' o' n' hb => ?_⟩
    cases hb with
    | here => intro p' hp'; exact (validateInstance_sound hp' h).2 σ ha
  | .inline t, hw, n, o, d, h => by
    cases hw with
    | inline s p hp =>
    obtain ⟨i1, i2, i3⟩ := inline_ok s
    simp only [validate, i1, i2, and_self, if_true, i3] at h
    refine ⟨(validateInstance_sound hp h).1, fun σ ha e' o' n' hb => ?_⟩
    cases hb with
    | here =>
      intro s' p' hs' hp'
      obtain rfl := inline_inj hs'
      have := (validateInstance_sound hp' h).2 σ ha
      unfold LeafOk at this
      rw [nodeShape_eq]
      cases hn : n.shape with
      | none => trivial
      | some s => rw [hn] at this; exact this
  | .dict es, hw, n, o, d, h => by
    cases hw with
    | dict es hk hw =>
    simp only [validate] at h
    obtain ⟨h1, h2⟩ := validateAll_sound es hk hw n [] d h
    refine ⟨h1 .nil, fun σ ha e' o' n' hb => ?_⟩
    obtain ⟨_, h3, h4⟩ := h2 σ ha
    cases hb with
    | here => exact h3
    | down es o n pre post k name e o1 c e' o' n' hes hpre hkn hc hb =>
      exact h4 pre k e post hes (hpre rfl) name o1 c hkn hc e' o' n' hb
  | .other, hw, _, _, _, _ => by cases hw
theorem validateAll_sound : ∀ (es : Exps), (∀ x ∈ es.toList, ∃ name o, KeyName x.1 name o) →
    (∀ x ∈ es.toList, WellFormed x.2) → ∀ (n : Node) (d d' : List (Item × Int)),
    validateAll n d es = .ok (some d') → (Good d → Good d') ∧ ∀ σ, Agrees σ d' → Agrees σ d ∧
      (es.toList = [] ∨ n ≠ .number) ∧
      ∀ pre k e post, es.toList = pre ++ (k, e) :: post → (∀ x ∈ pre, Present x.1 n) → ∀ name o1 c,
        KeyName k name o1 → n.child name = some c → ∀ e' o' n', Belongs false e o1 c e' o' n' → Satisfies σ e' o' n'
  | .nil, _, _, n, d, d', h => by
    simp only [validateAll, Except.ok.injEq, Option.some.injEq] at h
    subst h
    exact ⟨id, fun σ ha => ⟨ha, .inl rfl, fun pre k e post hes => by simp [Exps.toList] at hes⟩⟩
  | .cons k0 e0 es, hk, hw, n, d, d', h => by
    obtain ⟨name0, o0, hk0⟩ := hk (k0, e0) (by simp [Exps.toList])
    simp only [validateAll, parseKey_eq hk0] at h
    have hn : n ≠ .number := by rintro rfl; cases h
    rw [get_eq hn] at h
    cases hc0 : n.child name0 with
    | none =>
      rw [hc0] at h
      simp only [Except.ok.injEq, Option.some.injEq] at h
      subst h
      refine ⟨id, fun σ ha => ⟨ha, .inr hn, fun pre k e post hes hpre name o1 c hkn hc => ?_⟩⟩
      exfalso
      cases pre with
      | nil =>
        simp only [Exps.toList, List.nil_append, List.cons.injEq, Prod.mk.injEq] at hes
        obtain ⟨⟨rfl, rfl⟩, _⟩ := hes
        obtain ⟨rfl, rfl⟩ := hkn.unique hk0
        rw [hc0] at hc; cases hc
      | cons x pre =>
        simp only [Exps.toList, List.cons_append, List.cons.injEq] at hes
        obtain ⟨rfl, _⟩ := hes
        obtain ⟨nm, o, c', hkk, hcc⟩ := hpre _ (List.mem_cons_self)
        obtain ⟨rfl, rfl⟩ := hkk.unique hk0
        rw [hc0] at hcc; cases hcc
    | some c0 =>
      rw [hc0] at h
      simp only at h
      cases hv : validate c0 o0 e0 with
      | error x => rw [hv] at h; cases h
      | ok r =>
        rw [hv] at h
        cases r with
        | none => cases h
        | some d1 =>
          simp only at h
          cases hm : mergeVars d d1 with
          | none => rw [hm] at h; cases h
          | some d2 =>
            rw [hm] at h
            simp only at h
            obtain ⟨v1, v2⟩ := validate_sound e0 (hw (k0, e0) (by simp [Exps.toList])) c0 o0 d1 hv
            obtain ⟨m1, m2⟩ := mergeVars_sound hm
            obtain ⟨a1, a2⟩ := validateAll_sound es (fun x hx => hk x (by simp [Exps.toList, hx]))
              (fun x hx => hw x (by simp [Exps.toList, hx])) n d2 d' h
            refine ⟨fun hd => a1 (m1 hd v1), fun σ ha => ?_⟩
            obtain ⟨b1, b2, b3⟩ := a2 σ ha
            obtain ⟨b4, b5⟩ := m2 σ b1
            refine ⟨b4, .inr hn, fun pre k e post hes hpre name o1 c hkn hc => ?_⟩
            cases pre with
            | nil =>
              simp only [Exps.toList, List.nil_append, List.cons.injEq, Prod.mk.injEq] at hes
              obtain ⟨⟨rfl, rfl⟩, _⟩ := hes
              obtain ⟨rfl, rfl⟩ := hkn.unique hk0
              rw [hc0] at hc; cases hc
              exact v2 σ b5
            | cons x pre =>
              simp only [Exps.toList, List.cons_append, List.cons.injEq] at hes
              obtain ⟨rfl, hes⟩ := hes
              exact b3 pre k e post hes (fun x hx => hpre x (List.mem_cons_of_mem _ hx)) name o1 c hkn hc
end

mutual
theorem validate_complete {σ : List Char → Int} : ∀ (e : Exp), WellFormed e → ∀ (n : Node) (o : Bool),
    (∀ e' o' n', Belongs false e o n e' o' n' → Satisfies σ e' o' n') →
    ∃ d, validate n o e = .ok (some d) ∧ Agrees σ d
  | .shape l, hw, n, o, h => by
    cases hw with
    | shape l p hp =>
    simp only [validate]
    exact validateInstance_complete hp (h _ _ _ (.here _ _ _) p hp)
  | .inline t, hw, n, o, h => by
    cases hw with
    | inline s p hp =>
    obtain ⟨i1, i2, i3⟩ := inline_ok s
    simp only [validate, i1, i2, and_self, if_true, i3]
    refine validateInstance_complete hp ?_
    have := h _ _ _ (.here _ _ _) s p rfl hp
    rw [nodeShape_eq] at this
    unfold LeafOk
    cases hn : n.shape with
    | none => rfl
    | some s => rw [hn] at this; exact this
  | .dict es, hw, n, o, h => by
    cases hw with
    | dict es hk hw =>
    simp only [validate]
    exact validateAll_complete es hk hw n [] .nil (h _ _ _ (.here _ _ _))
      (fun pre k e post hes hpre name o1 c hkn hc e' o' n' hb =>
        h e' o' n' (.down es o n pre post k name e o1 c e' o' n' hes (fun _ => hpre) hkn hc hb))
  | .other, hw, _, _, _ => by cases hw
theorem validateAll_complete {σ : List Char → Int} : ∀ (es : Exps),
    (∀ x ∈ es.toList, ∃ name o, KeyName x.1 name o) →
    (∀ x ∈ es.toList, WellFormed x.2) → ∀ (n : Node) (d : List (Item × Int)), Agrees σ d →
    (es.toList = [] ∨ n ≠ .number) →
    (∀ pre k e post, es.toList = pre ++ (k, e) :: post → (∀ x ∈ pre, Present x.1 n) → ∀ name o1 c,
      KeyName k name o1 → n.child name = some c → ∀ e' o' n', Belongs false e o1 c e' o' n' → Satisfies σ e' o' n') →
    ∃ d', validateAll n d es = .ok (some d') ∧ Agrees σ d'
  | .nil, _, _, n, d, ha, _, _ => ⟨d, by simp [validateAll], ha⟩
  | .cons k0 e0 es, hk, hw, n, d, ha, hn, h => by
    obtain ⟨name0, o0, hk0⟩ := hk (k0, e0) (by simp [Exps.toList])
    have hn : n ≠ .number := by
      rcases hn with hn | hn
      · simp [Exps.toList] at hn
      · exact hn
    simp only [validateAll, parseKey_eq hk0, get_eq hn]
    cases hc0 : n.child name0 with
    | none => exact ⟨d, rfl, ha⟩
    | some c0 =>
      simp only
      obtain ⟨d1, hv, ha1⟩ := validate_complete e0 (hw (k0, e0) (by simp [Exps.toList])) c0 o0
        (fun e' o' n' hb => h [] k0 e0 es.toList rfl (by simp) name0 o0 c0 hk0 hc0 e' o' n' hb)
      obtain ⟨d2, hm, ha2⟩ := mergeVars_complete ha ha1
      simp only [hv, hm]
      refine validateAll_complete es (fun x hx => hk x (by simp [Exps.toList, hx]))
        (fun x hx => hw x (by simp [Exps.toList, hx])) n d2 ha2 (.inr hn) ?_
      intro pre k e post hes hpre
      refine h ((k0, e0) :: pre) k e post (by simp [Exps.toList, hes]) ?_
      intro x hx
      rcases List.mem_cons.1 hx with rfl | hx
      · exact ⟨name0, o0, c0, hk0, hc0⟩
      · exact hpre x hx
end

/-! ### exceptions -/

/-- a dimension at position `i` can be compared without exception -/
def Safe (shape : List Int) (i : Nat) (D : Dim) : Prop :=
  (∀ lo, D = .range lo none → ∀ v ∈ shape, (lo : Int) ≤ v) ∧ ((∃ x, D = .var x) → i < shape.length)

theorem compare_safe {s : List Char} {D : Dim} (h : WritesDim s D) (hv : ∀ x, D ≠ .var x) {v : Int}
    (h0 : 0 ≤ v) (hlo : ∀ lo, D = .range lo none → (lo : Int) ≤ v) : ∃ b, compare v s = .ok b := by
  have hn : ¬ v < 0 := by omega
  cases h with
  | var s h h0 hn => exact absurd rfl (hv s)
  | fixed s h =>
    have ht : '~' ∉ s := not_tilde_of_digits (.inr h)
    unfold compare
    simp only [ht, if_false, isNumeric_iff.2 h, if_true, hn]
    exact ⟨_, rfl⟩
  | range l r hl hr hle =>
    have hl' := not_tilde_of_digits hl
    have hr' := not_tilde_of_digits hr
    have hm : '~' ∈ l ++ '~' :: r := by simp
    unfold compare
    simp only [hm, if_true, split_one hl' hr', limit_eq hl, limit_eq hr, bind, Except.bind, hn, if_false]
    have hl0 : (if l = [] then (0 : Int) else (value l : Int)) = value l := by
      split
      · subst l; rfl
      · rfl
    rw [hl0]
    by_cases hr0 : r = []
    · have := hlo (value l) (by simp [hr0])
      have hng : ¬ ((value l : Int) > v) := by omega
      simp only [hr0, if_true, hng, if_false]
      exact ⟨_, rfl⟩
    · have := hle hr0
      have hng : ¬ ((value l : Int) > value r) := by omega
      simp only [hr0, if_false, hng]
      exact ⟨_, rfl⟩

theorem checkDim_safe {shape : List Int} (h0 : ∀ v ∈ shape, 0 ≤ v) {i : Nat} {d : List (Item × Int)} {e : Item}
    {D : Dim} (hp : Prep e D) (hs : Safe shape i D) : ∃ r, checkDim shape i d e = .ok r := by
  unfold checkDim
  split
  · rename_i hvar
    have hi := hs.2 ((isVar hp.1).1 hvar)
    have hv : shape[i]? = some shape[i] := by simp [hi]
    rw [hv]
    split
    · exact ⟨_, rfl⟩
    · dsimp only; split <;> exact ⟨_, rfl⟩
  · rename_i hvar
    rw [isVar hp.1] at hvar
    cases hv : shape[i]? with
    | none => exact ⟨_, rfl⟩
    | some v =>
      have hmem := List.mem_of_getElem? hv
      obtain ⟨b, hb⟩ := compare_safe hp.1 (fun x hx => hvar ⟨x, hx⟩) (h0 v hmem) (fun lo hlo => hs.1 lo hlo v hmem)
      simp only [hb]
      cases b <;> exact ⟨_, rfl⟩

theorem loop_opts_safe {shape : List Int} (h0 : ∀ v ∈ shape, 0 ≤ v) {ell : Bool} {ld : List Item}
    (hld : PrepDots ell ld) : ∀ {lo : List Item} {os : List Dim} {i : Nat} {d : List (Item × Int)},
      List.Forall₂ PrepOpt lo os → (∀ D ∈ os, ∀ l, D = .range l none → ∀ v ∈ shape, (l : Int) ≤ v) →
      ∃ r, compareLoop shape i d (lo ++ ld) = .ok r := by
  intro lo
  induction lo with
  | nil =>
    intro os i d h hs
    cases ell with
    | false => cases (show ld = [] from hld); exact ⟨_, rfl⟩
    | true =>
      cases (show ld = [.str ['.', '.', '.']] from hld)
      have hd : hasDots (Item.str ['.', '.', '.']).chars = true := by decide
      simp only [List.nil_append, compareLoop, hd, if_true]
      exact ⟨_, rfl⟩
  | cons e lo ih =>
    intro os i d h hs
    cases h with
    | cons he h =>
    rename_i o os
    obtain ⟨f1, f2, t, f3, f4, f5⟩ := he.facts
    simp only [List.cons_append, compareLoop, f1, Bool.false_eq_true, if_false, f2, true_and, if_true, f3,
      Option.map_some]
    have hs' : ∀ D ∈ os, ∀ l, D = .range l none → ∀ v ∈ shape, (l : Int) ≤ v :=
      fun D hD => hs D (List.mem_cons_of_mem _ hD)
    by_cases hi : i < shape.length
    · simp only [hi, not_true, if_false]
      obtain ⟨r, hr⟩ := checkDim_safe h0 (i := i) (d := d) f4 ⟨hs o List.mem_cons_self, fun _ => hi⟩
      simp only [hr]
      cases r with
      | none => exact ⟨_, rfl⟩
      | some d1 => exact ih h hs'
    · simp only [hi, not_false_eq_true, if_true]
      exact ih h hs'

theorem loop_safe {shape : List Int} (h0 : ∀ v ∈ shape, 0 ≤ v) {ell : Bool} {ld lo : List Item} {os : List Dim}
    (hld : PrepDots ell ld) (ho : List.Forall₂ PrepOpt lo os)
    (hos : ∀ D ∈ os, ∀ l, D = .range l none → ∀ v ∈ shape, (l : Int) ≤ v) :
    ∀ {lf : List Item} {fs : List Dim} {i : Nat} {d : List (Item × Int)}, List.Forall₂ Prep lf fs →
      (∀ D ∈ fs, ∀ l, D = .range l none → ∀ v ∈ shape, (l : Int) ≤ v) →
      (i + fs.length ≤ shape.length ∨ ∀ x, .var x ∉ fs) →
      ∃ r, compareLoop shape i d (lf ++ lo ++ ld) = .ok r := by
  intro lf
  induction lf with
  | nil => intro fs i d h hs _; cases h; exact loop_opts_safe h0 hld ho hos
  | cons e lf ih =>
    intro fs i d h hs hvar
    cases h with
    | cons he h =>
    rename_i f fs
    obtain ⟨f1, f2⟩ := he.facts
    simp only [List.cons_append, compareLoop, f1, Bool.false_eq_true, if_false, f2, false_and]
    obtain ⟨r, hr⟩ := checkDim_safe h0 (i := i) (d := d) he ⟨hs f List.mem_cons_self, fun ⟨x, hx⟩ => by
      rcases hvar with hvar | hvar
      · simp only [List.length_cons] at hvar; omega
      · exact absurd (by rw [hx]; simp) (hvar x)⟩
    simp only [hr]
    cases r with
    | none => exact ⟨_, rfl⟩
    | some d1 =>
      refine ih h (fun D hD => hs D (List.mem_cons_of_mem _ hD)) ?_
      rcases hvar with hvar | hvar
      · left; simp only [List.length_cons] at hvar; omega
      · right; intro x hx; exact hvar x (List.mem_cons_of_mem _ hx)

theorem validateShape_safe {l : List Item} {p : Pattern} (h : WritesPattern l p) {s : List Int}
    (h0 : ∀ v ∈ s, 0 ≤ v) (hr : ∀ lo : Nat, .range lo none ∈ p.fixed ++ p.opts → ∀ v ∈ s, (lo : Int) ≤ v)
    (hv : p.fixed.length ≤ s.length ∨ ∀ x, .var x ∉ p.fixed) :
    (∃ d, validateShape s l = .ok d) ∨ validateShape s l = .error .validationError := by
  obtain ⟨lf, lo, ld, h1, h2, h3, h4⟩ := prepare_writes h s
  have hmem : ∀ v, v ∈ (if p.front then s.reverse else s) ↔ v ∈ s := by intro v; split <;> simp
  have hlen : (if p.front then s.reverse else s).length = s.length := by split <;> simp
  have hf : ∀ D, D ∈ (if p.front then p.fixed.reverse else p.fixed) ↔ D ∈ p.fixed := by intro D; split <;> simp
  have hfl : (if p.front then p.fixed.reverse else p.fixed).length = p.fixed.length := by split <;> simp
  have ho : ∀ D, D ∈ (if p.front then p.opts.reverse else p.opts) ↔ D ∈ p.opts := by intro D; split <;> simp
  obtain ⟨r, hl⟩ := loop_safe (shape := if p.front then s.reverse else s) (i := 0) (d := [])
    (fun v hv => h0 v ((hmem v).1 hv)) h3 h2
    (fun D hD l hl v hv => by subst hl; exact hr l (List.mem_append_right _ ((ho _).1 hD)) v ((hmem v).1 hv)) h1
    (fun D hD l hl v hv => by subst hl; exact hr l (List.mem_append_left _ ((hf _).1 hD)) v ((hmem v).1 hv))
    (by
      rcases hv with hv | hv
      · left; rw [hlen, hfl]; omega
      · right; intro x hx; exact hv x ((hf _).1 hx))
  unfold validateShape compareLists
  simp only [h4, bind, Except.bind, validateExpected_all h3 h2 h1, hl]
  cases r with
  | none => exact .inr rfl
  | some x =>
    obtain ⟨d, b⟩ := x
    by_cases hc : (if p.front then s.reverse else s).length > (lf ++ lo ++ ld).length ∧ ¬ b = true
    · right; simp only [hc]; rfl
    · left; exact ⟨d, by simp only [if_neg hc]⟩

end Weldx.Val
