import Mathlib.Data.List.Nodup
import Mathlib.Tactic.Common
import Mathlib.Tactic.Linarith

/-!
# Trees given by a set of nodes and an adjacency relation

General graph theory, independent of the manager.
-/

namespace Weldx
variable {N : Type}

/-- `p` lists the nodes of a walk from `a` to `b`. -/
inductive Walk (adj : N → N → Prop) : N → N → List N → Prop
  | nil (a : N) : Walk adj a a [a]
  | cons {a b c : N} {p : List N} : adj a b → Walk adj b c p → Walk adj a c (a :: p)

/-- A walk that visits no node twice. -/
def SimplePath (adj : N → N → Prop) (a b : N) (p : List N) : Prop := Walk adj a b p ∧ p.Nodup

/-- The undirected graph on the nodes `V` is a tree: links go both ways and connect nodes of `V`, and
any two nodes are joined by exactly one path. -/
structure IsTree (V : N → Prop) (adj : N → N → Prop) : Prop where
  irrefl : ∀ a, ¬ adj a a
  symm : ∀ a b, adj a b → adj b a
  mem : ∀ a b, adj a b → V a
  exists_path : ∀ a b, V a → V b → ∃ p, SimplePath adj a b p
  path_unique : ∀ a b p q, SimplePath adj a b p → SimplePath adj a b q → p = q

/-- Parent pointers with decreasing height: technical description of a rooted tree. -/
structure TreeOn (V : N → Prop) (adj : N → N → Prop) (r : N) (par : N → N) (h : N → Nat) : Prop where
  root_mem : V r
  par_mem : ∀ n, V n → n ≠ r → V (par n)
  par_lt : ∀ n, V n → n ≠ r → h (par n) < h n
  adj_iff : ∀ a b, adj a b ↔ (V a ∧ a ≠ r ∧ par a = b) ∨ (V b ∧ b ≠ r ∧ par b = a)

/-- `x` is `c` or lies below `c`. -/
inductive Desc (V : N → Prop) (r : N) (par : N → N) (c : N) : N → Prop
  | refl : Desc V r par c c
  | step {y : N} : V y → y ≠ r → Desc V r par c (par y) → Desc V r par c y

namespace Walk
variable {adj : N → N → Prop} {a b c : N} {p q : List N}

theorem head_eq (w : Walk adj a b p) : ∃ t, p = a :: t := by
  cases w <;> exact ⟨_, rfl⟩

theorem start_mem (w : Walk adj a b p) : a ∈ p := by
  obtain ⟨t, rfl⟩ := w.head_eq; simp

theorem end_mem (w : Walk adj a b p) : b ∈ p := by
  induction w with
  | nil => simp
  | cons _ _ ih => exact List.mem_cons_of_mem _ ih

theorem ne_nil (w : Walk adj a b p) : p ≠ [] := by
  obtain ⟨t, rfl⟩ := w.head_eq; simp

theorem getLast (w : Walk adj a b p) : p.getLast w.ne_nil = b := by
  induction w with
  | nil => rfl
  | cons _ w ih => rw [List.getLast_cons w.ne_nil]; exact ih

theorem snoc (w : Walk adj a b p) (h : adj b c) : Walk adj a c (p ++ [c]) := by
  induction w with
  | nil => exact .cons h (.nil _)
  | cons hab _ ih => exact .cons hab (ih h)

theorem reverse (hs : ∀ x y, adj x y → adj y x) (w : Walk adj a b p) : Walk adj b a p.reverse := by
  induction w with
  | nil => exact .nil _
  | cons hab _ ih => rw [List.reverse_cons]; exact ih.snoc (hs _ _ hab)

theorem append (w : Walk adj a b p) (w' : Walk adj b c q) : ∃ s, Walk adj a c s ∧ ∀ x ∈ s, x ∈ p ∨ x ∈ q := by
  induction w with
  | nil => exact ⟨q, w', fun x hx => .inr hx⟩
  | cons hab _ ih =>
    obtain ⟨s, hs, hm⟩ := ih w'
    refine ⟨_, .cons hab hs, fun x hx => ?_⟩
    rcases List.mem_cons.1 hx with rfl | hx
    · simp
    · rcases hm x hx with h | h <;> simp [h]

/-- the part of a walk that starts at one of its nodes -/
theorem suffix (w : Walk adj a b p) (hc : c ∈ p) : ∃ s, Walk adj c b s ∧ s <:+ p := by
  induction w with
  | nil => simp at hc; subst hc; exact ⟨_, .nil _, List.suffix_refl _⟩
  | @cons a b' _ p' hab w ih =>
    by_cases h : c = a
    · subst h; exact ⟨_, .cons hab w, List.suffix_refl _⟩
    · obtain ⟨s, hs, hsuf⟩ := ih ((List.mem_cons.1 hc).resolve_left h)
      exact ⟨s, hs, hsuf.trans (List.suffix_cons _ _)⟩

/-- the part of a walk that ends at one of its nodes -/
theorem pref (w : Walk adj a b p) (hc : c ∈ p) : ∃ s, Walk adj a c s ∧ s <+: p := by
  induction w with
  | nil => simp at hc; subst hc; exact ⟨_, .nil _, List.prefix_refl _⟩
  | @cons a b' _ p' hab w ih =>
    by_cases h : c = a
    · subst h
      exact ⟨[c], .nil _, ⟨p', rfl⟩⟩
    · obtain ⟨s, hs, hpre⟩ := ih ((List.mem_cons.1 hc).resolve_left h)
      exact ⟨a :: s, .cons hab hs, (List.prefix_cons_inj a).2 hpre⟩

theorem mono {adj' : N → N → Prop} (w : Walk adj a b p)
    (h : ∀ x ∈ p, ∀ y ∈ p, adj x y → adj' x y) : Walk adj' a b p := by
  induction w with
  | nil => exact .nil _
  | cons hab w ih =>
    refine .cons (h _ (by simp) _ (by simp [w.start_mem]) hab) (ih ?_)
    exact fun x hx y hy => h x (List.mem_cons_of_mem _ hx) y (List.mem_cons_of_mem _ hy)

/-- every walk contains a simple path -/
theorem toSimple [DecidableEq N] (w : Walk adj a b p) :
    ∃ q, SimplePath adj a b q ∧ ∀ x ∈ q, x ∈ p := by
  induction w with
  | nil a => exact ⟨[a], ⟨.nil _, by simp⟩, fun x hx => hx⟩
  | @cons a b' c p' hab w ih =>
    obtain ⟨q, ⟨hq, hn⟩, hm⟩ := ih
    by_cases h : a ∈ q
    · obtain ⟨s, hs, hsuf⟩ := hq.suffix h
      exact ⟨s, ⟨hs, hn.sublist hsuf.sublist⟩, fun x hx =>
        List.mem_cons_of_mem _ (hm x (hsuf.sublist.subset hx))⟩
    · exact ⟨a :: q, ⟨.cons hab hq, List.nodup_cons.2 ⟨h, hn⟩⟩, fun x hx => by
        rcases List.mem_cons.1 hx with rfl | hx
        · simp
        · exact List.mem_cons_of_mem _ (hm x hx)⟩

/-- a property preserved by links holds along a walk -/
theorem all_of_step {P : N → Prop} (w : Walk adj a b p) (ha : P a)
    (hstep : ∀ x ∈ p, ∀ y ∈ p, P x → adj x y → P y) : ∀ x ∈ p, P x := by
  induction w with
  | nil => simpa using ha
  | cons hab w ih =>
    intro x hx
    rcases List.mem_cons.1 hx with rfl | hx
    · exact ha
    · refine ih (hstep _ (by simp) _ (by simp [w.start_mem]) ha hab) ?_ x hx
      exact fun x hx y hy => hstep x (List.mem_cons_of_mem _ hx) y (List.mem_cons_of_mem _ hy)

end Walk

namespace SimplePath
variable {adj : N → N → Prop} {a b c : N} {p q : List N}

theorem refl_eq (h : SimplePath adj a a p) : p = [a] := by
  obtain ⟨w, hn⟩ := h
  cases w with
  | nil => rfl
  | cons _ w' => exact absurd w'.end_mem (List.nodup_cons.1 hn).1

theorem reverse (hs : ∀ x y, adj x y → adj y x) (h : SimplePath adj a b p) :
    SimplePath adj b a p.reverse := ⟨h.1.reverse hs, List.nodup_reverse.2 h.2⟩

theorem tail (h : SimplePath adj a b p) (hab : a ≠ b) :
    ∃ c t, p = a :: t ∧ adj a c ∧ SimplePath adj c b t ∧ a ∉ t := by
  obtain ⟨w, hn⟩ := h
  cases w with
  | nil => exact absurd rfl hab
  | @cons _ c _ p' h w =>
    rw [List.nodup_cons] at hn
    exact ⟨c, p', rfl, h, ⟨w, hn.2⟩, hn.1⟩

end SimplePath

namespace Desc
variable {V : N → Prop} {r c x : N} {par : N → N}

theorem inv (h : Desc V r par c x) : x = c ∨ (V x ∧ x ≠ r ∧ Desc V r par c (par x)) := by
  cases h with
  | refl => exact .inl rfl
  | step h1 h2 h3 => exact .inr ⟨h1, h2, h3⟩

theorem trans {y : N} (h1 : Desc V r par c x) (h2 : Desc V r par x y) : Desc V r par c y := by
  induction h2 with
  | refl => exact h1
  | step a b _ ih => exact .step a b ih

end Desc

namespace TreeOn
variable {V : N → Prop} {adj : N → N → Prop} {r : N} {par : N → N} {h : N → Nat}

theorem symm (T : TreeOn V adj r par h) (a b : N) (hab : adj a b) : adj b a := by
  rw [T.adj_iff] at *; exact hab.symm

theorem mem_left (T : TreeOn V adj r par h) (a b : N) (hab : adj a b) : V a := by
  rw [T.adj_iff] at hab
  rcases hab with ⟨h1, _⟩ | ⟨h1, h2, h3⟩
  · exact h1
  · exact h3 ▸ T.par_mem _ h1 h2

theorem irrefl (T : TreeOn V adj r par h) (a : N) : ¬ adj a a := by
  rw [T.adj_iff]
  rintro (⟨h1, h2, h3⟩ | ⟨h1, h2, h3⟩) <;>
  · have := T.par_lt a h1 h2; rw [h3] at this; omega

theorem adj_par (T : TreeOn V adj r par h) {n : N} (hn : V n) (hr : n ≠ r) : adj n (par n) :=
  (T.adj_iff _ _).2 (.inl ⟨hn, hr, rfl⟩)

theorem desc_root (T : TreeOn V adj r par h) {n : N} (hn : V n) : Desc V r par r n := by
  induction hk : h n using Nat.strong_induction_on generalizing n with
  | _ k ih =>
    by_cases hr : n = r
    · subst hr; exact .refl
    · exact .step hn hr (ih _ (hk ▸ T.par_lt n hn hr) (T.par_mem n hn hr) rfl)

theorem desc_le (T : TreeOn V adj r par h) {c n : N} (d : Desc V r par c n) : c = n ∨ h c < h n := by
  induction d with
  | refl => exact .inl rfl
  | @step y a b _ ih =>
    right
    have := T.par_lt y a b
    rcases ih with h' | h'
    · rw [h']; exact this
    · omega

theorem desc_mem (T : TreeOn V adj r par h) {c n : N} (d : Desc V r par c n) (hn : V n) : V c := by
  induction d with
  | refl => exact hn
  | step a b _ ih => exact ih (T.par_mem _ a b)

theorem walk_up (T : TreeOn V adj r par h) {c n : N} (d : Desc V r par c n) :
    ∃ p, Walk adj n c p ∧ ∀ x ∈ p, Desc V r par c x := by
  induction d with
  | refl => exact ⟨[c], .nil _, by simp; exact .refl⟩
  | @step y a b d ih =>
    obtain ⟨p, hp, hm⟩ := ih
    refine ⟨y :: p, .cons (T.adj_par a b) hp, fun x hx => ?_⟩
    rcases List.mem_cons.1 hx with rfl | hx
    · exact .step a b d
    · exact hm x hx

/-- a link leaves the part below `c` only from `c` to its parent -/
theorem desc_closed (T : TreeOn V adj r par h) {c x y : N} (hx : Desc V r par c x)
    (hxy : adj x y) (hy : ¬ (x = c ∧ c ≠ r ∧ y = par c)) : Desc V r par c y := by
  rcases (T.adj_iff x y).1 hxy with ⟨h1, h2, h3⟩ | ⟨h1, h2, h3⟩
  · rcases hx.inv with rfl | ⟨_, _, h4⟩
    · exact absurd ⟨rfl, h2, h3.symm⟩ hy
    · exact h3 ▸ h4
  · exact .step h1 h2 (h3 ▸ hx)

/-- a simple path to a node that is not below its start goes to the parent first -/
theorem first_step (T : TreeOn V adj r par h) {a b : N} {p : List N} (hp : SimplePath adj a b p)
    (hd : ¬ Desc V r par a b) :
    V a ∧ a ≠ r ∧ ∃ t, p = a :: t ∧ SimplePath adj (par a) b t := by
  have hab : a ≠ b := fun e => hd (e ▸ .refl)
  obtain ⟨c, t, rfl, hac, ht, hnot⟩ := hp.tail hab
  rcases (T.adj_iff a c).1 hac with ⟨h1, h2, h3⟩ | ⟨h1, h2, h3⟩
  · exact ⟨h1, h2, t, rfl, h3 ▸ ht⟩
  · exfalso
    have := ht.1.all_of_step (P := fun x => Desc V r par c x) .refl (by
      intro x hx y hy hdx hxy
      refine T.desc_closed hdx hxy ?_
      rintro ⟨rfl, _, rfl⟩
      exact hnot (h3 ▸ hy)) b ht.1.end_mem
    exact hd (.trans (.step h1 h2 (h3 ▸ .refl)) this)

theorem path_unique (T : TreeOn V adj r par h) : ∀ a b p q,
    SimplePath adj a b p → SimplePath adj a b q → p = q := by
  have main : ∀ k a b p q, h a + h b ≤ k → SimplePath adj a b p → SimplePath adj a b q → p = q := by
    intro k
    induction k with
    | zero =>
      intro a b p q hk hp hq
      by_cases hab : a = b
      · subst hab; rw [hp.refl_eq, hq.refl_eq]
      · have hd : ¬ Desc V r par a b := fun d => by
          rcases T.desc_le d with h' | h'
          · exact hab h'
          · omega
        obtain ⟨h1, h2, _⟩ := T.first_step hp hd
        have := T.par_lt a h1 h2; omega
    | succ k ih =>
      -- the case where the path leaves `a` upwards
      have key : ∀ a b p q, h a + h b ≤ k + 1 → ¬ Desc V r par a b →
          SimplePath adj a b p → SimplePath adj a b q → p = q := by
        intro a b p q hk hd hp hq
        obtain ⟨h1, h2, t, rfl, ht⟩ := T.first_step hp hd
        obtain ⟨_, _, s, rfl, hs⟩ := T.first_step hq hd
        have := T.par_lt a h1 h2
        rw [ih (par a) b t s (by omega) ht hs]
      intro a b p q hk hp hq
      by_cases hab : a = b
      · subst hab; rw [hp.refl_eq, hq.refl_eq]
      · by_cases hd : Desc V r par a b
        · have hlt : h a < h b := (T.desc_le hd).resolve_left hab
          have hd' : ¬ Desc V r par b a := fun d => by
            rcases T.desc_le d with h' | h'
            · exact hab h'.symm
            · omega
          have := key b a _ _ (by omega) hd' (hp.reverse T.symm) (hq.reverse T.symm)
          simpa using this
        · exact key a b p q hk hd hp hq
  exact fun a b p q => main _ a b p q le_rfl

theorem connected (T : TreeOn V adj r par h) [DecidableEq N] {a b : N} (ha : V a) (hb : V b) :
    ∃ p, SimplePath adj a b p := by
  obtain ⟨p, hp, _⟩ := T.walk_up (T.desc_root ha)
  obtain ⟨q, hq, _⟩ := T.walk_up (T.desc_root hb)
  obtain ⟨s, hs, _⟩ := hp.append (hq.reverse T.symm)
  obtain ⟨t, ht, _⟩ := hs.toSimple
  exact ⟨t, ht⟩

theorem isTree (T : TreeOn V adj r par h) [DecidableEq N] : IsTree V adj :=
  ⟨T.irrefl, T.symm, T.mem_left, fun _ _ => T.connected, T.path_unique⟩

/-- the path from `a` to `c` above it stays below `c` -/
theorem path_up_desc (T : TreeOn V adj r par h) [DecidableEq N] {a c : N} {p : List N}
    (d : Desc V r par c a) (hp : SimplePath adj a c p) : ∀ x ∈ p, Desc V r par c x := by
  obtain ⟨q, hq, hm⟩ := T.walk_up d
  obtain ⟨s, hs, hms⟩ := hq.toSimple
  rw [T.path_unique _ _ _ _ hp hs]
  exact fun x hx => hm x (hms x hx)

/-- the systems on the path to the root are exactly the ancestors -/
theorem mem_path_root (T : TreeOn V adj r par h) {a x : N} {p : List N}
    (hp : SimplePath adj a r p) : x ∈ p ↔ Desc V r par x a := by
  induction hk : h a using Nat.strong_induction_on generalizing a p with
  | _ k ih =>
    by_cases har : a = r
    · subst har
      rw [hp.refl_eq]
      constructor
      · intro hx; simp at hx; subst hx; exact .refl
      · intro d; rcases d.inv with e | ⟨_, h2, _⟩
        · simp [e]
        · exact absurd rfl h2
    · have hd : ¬ Desc V r par a r := fun d => by
        rcases d.inv with e | ⟨_, h2, _⟩
        · exact har e.symm
        · exact h2 rfl
      obtain ⟨h1, h2, t, rfl, ht⟩ := T.first_step hp hd
      rw [List.mem_cons, ih _ (hk ▸ T.par_lt a h1 h2) ht rfl]
      constructor
      · rintro (rfl | d)
        · exact .refl
        · exact .step h1 h2 d
      · intro d
        rcases d.inv with e | ⟨_, _, d⟩
        · exact .inl e.symm
        · exact .inr d

end TreeOn

namespace IsTree
variable {V : N → Prop} {adj : N → N → Prop}

theorem mem_right (T : IsTree V adj) (a b : N) (h : adj a b) : V b := T.mem _ _ (T.symm _ _ h)

/-- Any node of a tree can serve as its root. -/
theorem treeOn (T : IsTree V adj) {r : N} (hr : V r) : ∃ par h, TreeOn V adj r par h := by
  classical
  have hex : ∀ n, ∃ p, V n → SimplePath adj n r p := fun n => by
    by_cases hn : V n
    · obtain ⟨p, hp⟩ := T.exists_path n r hn hr
      exact ⟨p, fun _ => hp⟩
    · exact ⟨[], fun h => absurd h hn⟩
  choose path hpath using hex
  -- the second node on the path to the root
  let par : N → N := fun n => match path n with
    | _ :: y :: _ => y
    | _ => n
  have hpar : ∀ n, V n → n ≠ r → adj n (par n) ∧ path n = n :: path (par n) := by
    intro n hn hnr
    obtain ⟨c, t, e, hac, ht, _⟩ := (hpath n hn).tail hnr
    obtain ⟨t', rfl⟩ := ht.1.head_eq
    have hp : par n = c := by simp only [par, e]
    have hc : V c := T.mem_right _ _ hac
    rw [hp, e, T.path_unique _ _ _ _ (hpath c hc) ht]
    exact ⟨hac, rfl⟩
  refine ⟨par, fun n => (path n).length, hr, fun n hn hnr => T.mem_right _ _ (hpar n hn hnr).1,
    fun n hn hnr => ?_, fun a b => ⟨fun hab => ?_, ?_⟩⟩
  · show (path (par n)).length < (path n).length
    rw [(hpar n hn hnr).2]; simp
  · have ha := T.mem _ _ hab
    have hb := T.mem_right _ _ hab
    have hne : a ≠ b := fun e => T.irrefl a (e ▸ hab)
    by_cases hmem : b ∈ path a
    · left
      have har : a ≠ r := by
        rintro rfl
        rw [(hpath a ha).refl_eq] at hmem
        simp at hmem; exact hne hmem.symm
      obtain ⟨s, hs, hpre⟩ := (hpath a ha).1.pref hmem
      have hs' : SimplePath adj a b s := ⟨hs, (hpath a ha).2.sublist hpre.sublist⟩
      have : s = [a, b] := T.path_unique _ _ _ _ hs' ⟨.cons hab (.nil _), by simp [hne]⟩
      refine ⟨ha, har, ?_⟩
      obtain ⟨u, hu⟩ := hpre
      rw [this] at hu
      simp only [par, ← hu]; rfl
    · right
      have hbr : b ≠ r := fun e => hmem (e ▸ (hpath a ha).1.end_mem)
      have hsp : SimplePath adj b r (b :: path a) :=
        ⟨.cons (T.symm _ _ hab) (hpath a ha).1, List.nodup_cons.2 ⟨hmem, (hpath a ha).2⟩⟩
      refine ⟨hb, hbr, ?_⟩
      obtain ⟨t, ht⟩ := (hpath a ha).1.head_eq
      have := T.path_unique _ _ _ _ (hpath b hb) hsp
      simp only [par, this, ht]
  · rintro (⟨h1, h2, rfl⟩ | ⟨h1, h2, rfl⟩)
    · exact (hpar a h1 h2).1
    · exact T.symm _ _ (hpar b h1 h2).1

/-- A connected part of a tree is a tree. -/
theorem restrict [DecidableEq N] (T : IsTree V adj) {W : N → Prop}
    (hc : ∀ a b, W a → W b → ∃ p, Walk adj a b p ∧ ∀ x ∈ p, W x) :
    IsTree W (fun a b => W a ∧ W b ∧ adj a b) where
  irrefl a h := T.irrefl a h.2.2
  symm a b h := ⟨h.2.1, h.1, T.symm _ _ h.2.2⟩
  mem a b h := h.1
  exists_path a b ha hb := by
    obtain ⟨p, hp, hm⟩ := hc a b ha hb
    obtain ⟨q, hq, _⟩ := (hp.mono (adj' := fun a b => W a ∧ W b ∧ adj a b)
      fun x hx y hy h => ⟨hm x hx, hm y hy, h⟩).toSimple
    exact ⟨q, hq⟩
  path_unique a b p q hp hq := T.path_unique a b p q
    ⟨hp.1.mono fun _ _ _ _ h => h.2.2, hp.2⟩ ⟨hq.1.mono fun _ _ _ _ h => h.2.2, hq.2⟩

/-- Two trees that share exactly one node form a tree. -/
theorem glue [DecidableEq N] {V₁ V₂ : N → Prop} {adj₁ adj₂ : N → N → Prop} (T₁ : IsTree V₁ adj₁)
    (T₂ : IsTree V₂ adj₂) {c : N} (h₁ : V₁ c) (h₂ : V₂ c) (hi : ∀ x, V₁ x → V₂ x → x = c) :
    IsTree (fun x => V₁ x ∨ V₂ x) (fun a b => adj₁ a b ∨ adj₂ a b) := by
  classical
  obtain ⟨par₁, ht₁, R₁⟩ := T₁.treeOn h₁
  obtain ⟨par₂, ht₂, R₂⟩ := T₂.treeOn h₂
  have key : TreeOn (fun x => V₁ x ∨ V₂ x) (fun a b => adj₁ a b ∨ adj₂ a b) c
      (fun x => if V₁ x then par₁ x else par₂ x)
      (fun x => if V₁ x then ht₁ x else ht₁ c + ht₂ x) := by
    refine ⟨.inl h₁, fun n hn hc => ?_, fun n hn hc => ?_, fun a b => ?_⟩
    · by_cases h : V₁ n
      · simp only [h, if_true]; exact .inl (R₁.par_mem n h hc)
      · simp only [h, if_false]; exact .inr (R₂.par_mem n (hn.resolve_left h) hc)
    · by_cases h : V₁ n
      · simp only [h, if_true, R₁.par_mem n h hc]; exact R₁.par_lt n h hc
      · have hn2 := hn.resolve_left h
        have hm := R₂.par_mem n hn2 hc
        have hl := R₂.par_lt n hn2 hc
        simp only [h, if_false]
        by_cases h' : V₁ (par₂ n)
        · rw [if_pos h', hi _ h' hm]; omega
        · rw [if_neg h']; omega
    · rw [R₁.adj_iff, R₂.adj_iff]
      have aux : ∀ x y, ((V₁ x ∨ V₂ x) ∧ x ≠ c ∧ (if V₁ x then par₁ x else par₂ x) = y) ↔
          (V₁ x ∧ x ≠ c ∧ par₁ x = y) ∨ (V₂ x ∧ x ≠ c ∧ par₂ x = y) := by
        intro x y
        by_cases h : V₁ x
        · simp only [h, if_true, true_or, true_and]
          constructor
          · exact .inl
          · rintro (h' | ⟨h1, h2, _⟩)
            · exact h'
            · exact absurd (hi x h h1) h2
        · simp only [h, if_false, false_or, false_and]
      rw [aux, aux]; tauto
  exact key.isTree

/-- Adding a leaf to a tree gives a tree. -/
theorem addLeaf [DecidableEq N] (T : IsTree V adj) {n ref : N} (hn : ¬ V n) (hr : V ref) :
    IsTree (fun x => V x ∨ x = n) (fun a b => adj a b ∨ (a = n ∧ b = ref) ∨ (a = ref ∧ b = n)) := by
  have hne : n ≠ ref := fun e => hn (e ▸ hr)
  have T₂ : TreeOn (fun x => x = ref ∨ x = n) (fun a b => (a = n ∧ b = ref) ∨ (a = ref ∧ b = n)) ref
      (fun _ => ref) (fun x => if x = n then 1 else 0) := by
    refine ⟨.inl rfl, fun _ _ _ => .inl rfl, fun x hx hx' => ?_, fun a b => ?_⟩
    · have := hx.resolve_left hx'; subst this; simp [Ne.symm hne]
    · constructor
      · rintro (⟨rfl, rfl⟩ | ⟨rfl, rfl⟩)
        · exact .inl ⟨.inr rfl, hne, rfl⟩
        · exact .inr ⟨.inr rfl, hne, rfl⟩
      · rintro (⟨h1, h2, h3⟩ | ⟨h1, h2, h3⟩)
        · exact .inl ⟨h1.resolve_left h2, h3.symm⟩
        · exact .inr ⟨h3.symm, h1.resolve_left h2⟩
  have := T.glue T₂.isTree hr (.inl rfl) (fun x h1 h2 => h2.resolve_right fun e => hn (e ▸ h1))
  have e : (fun x => V x ∨ x = n) = (fun x => V x ∨ x = ref ∨ x = n) := by
    funext x
    refine propext ⟨?_, ?_⟩
    · rintro (h | h)
      · exact .inl h
      · exact .inr (.inr h)
    · rintro (h | h | h)
      · exact .inl h
      · exact .inl (h ▸ hr)
      · exact .inr h
  rw [e]; exact this

end IsTree

/-- Removing everything at and below `c` from a tree leaves a tree. -/
theorem TreeOn.prune {V : N → Prop} {adj : N → N → Prop} {r : N} {par : N → N} {h : N → Nat}
    (T : TreeOn V adj r par h) {c : N} (hc : c ≠ r) :
    TreeOn (fun x => V x ∧ ¬ Desc V r par c x)
      (fun a b => adj a b ∧ ¬ Desc V r par c a ∧ ¬ Desc V r par c b) r par h := by
  have hup : ∀ n, V n → n ≠ r → ¬ Desc V r par c n → ¬ Desc V r par c (par n) :=
    fun n hn hr hd d => hd (.step hn hr d)
  refine ⟨⟨T.root_mem, fun d => ?_⟩, fun n hn hr => ⟨T.par_mem n hn.1 hr, hup n hn.1 hr hn.2⟩,
    fun n hn hr => T.par_lt n hn.1 hr, fun a b => ?_⟩
  · rcases d.inv with e | ⟨_, h2, _⟩
    · exact hc e.symm
    · exact h2 rfl
  · rw [T.adj_iff]
    constructor
    · rintro ⟨⟨h1, h2, h3⟩ | ⟨h1, h2, h3⟩, h4, h5⟩
      · exact .inl ⟨⟨h1, h4⟩, h2, h3⟩
      · exact .inr ⟨⟨h1, h5⟩, h2, h3⟩
    · rintro (⟨⟨h1, h4⟩, h2, rfl⟩ | ⟨⟨h1, h4⟩, h2, rfl⟩)
      · exact ⟨.inl ⟨h1, h2, rfl⟩, h4, hup a h1 h2 h4⟩
      · exact ⟨.inr ⟨h1, h2, rfl⟩, hup b h1 h2 h4, h4⟩

end Weldx
