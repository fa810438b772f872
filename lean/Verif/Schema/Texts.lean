import Verif.Schema.Meta

/-!
# The patterns of texts (C91)

Independent meanings of the two regular expressions in the schema files: `uuid-0.1.0.yaml` (last line) and
`time/timestamp-0.1.0.yaml` (`pattern`).
-/

namespace Weldx.Schema

theorem startsWith_iff {ps : List (Char → Bool)} : ∀ {s : List Char}, startsWith ps s = true ↔
    ∃ b c, s = b ++ c ∧ List.Forall₂ (fun p x => p x = true) ps b := by
  induction ps with
  | nil => exact fun {s} => ⟨fun _ => ⟨[], s, rfl, .nil⟩, fun _ => by simp [startsWith]⟩
  | cons p ps ih =>
    intro s
    cases s with
    | nil =>
      simp only [startsWith, Bool.false_eq_true, false_iff, not_exists, not_and]
      intro b c h hf
      cases hf
      simp at h
    | cons x s =>
      simp only [startsWith, Bool.and_eq_true, ih]
      constructor
      · rintro ⟨h, b, c, rfl, hf⟩
        exact ⟨x :: b, c, rfl, .cons h hf⟩
      · rintro ⟨b, c, h, hf⟩
        cases hf with
        | cons h1 h2 =>
          simp only [List.cons_append, List.cons.injEq] at h
          exact ⟨h.1 ▸ h1, _, c, h.2, h2⟩

/-- `re.search`: the classes are met somewhere in the text. -/
theorem search_iff {ps : List (Char → Bool)} : ∀ {s : List Char}, search ps s = true ↔
    ∃ a b c, s = a ++ b ++ c ∧ List.Forall₂ (fun p x => p x = true) ps b
  | [] => by
    simp only [search, startsWith_iff]
    constructor
    · rintro ⟨b, c, h, hf⟩
      exact ⟨[], b, c, h, hf⟩
    · rintro ⟨a, b, c, h, hf⟩
      rw [List.append_assoc] at h
      exact ⟨b, c, (List.append_eq_nil_iff.1 h.symm).2.symm, hf⟩
  | x :: s => by
    simp only [search, Bool.or_eq_true, startsWith_iff, search_iff (s := s)]
    constructor
    · rintro (⟨b, c, h, hf⟩ | ⟨a, b, c, h, hf⟩)
      · exact ⟨[], b, c, h, hf⟩
      · exact ⟨x :: a, b, c, by rw [h]; rfl, hf⟩
    · rintro ⟨a, b, c, h, hf⟩
      cases a with
      | nil => exact .inl ⟨b, c, h, hf⟩
      | cons y a =>
        simp only [List.cons_append, List.cons.injEq] at h
        exact .inr ⟨a, b, c, h.2, hf⟩

theorem forall₂_replicate {p : Char → Bool} : ∀ {n : ℕ} {l : List Char},
    List.Forall₂ (fun (q : Char → Bool) x => q x = true) (List.replicate n p) l ↔ l.length = n ∧ ∀ x ∈ l, p x = true
  | 0, l => by
    rw [List.replicate_zero, List.forall₂_nil_left_iff]
    constructor
    · rintro rfl; simp
    · intro h; exact List.length_eq_zero_iff.1 h.1
  | n + 1, [] => by simp [List.replicate_succ]
  | n + 1, x :: l => by
    rw [List.replicate_succ, List.forall₂_cons, forall₂_replicate (n := n)]
    simp only [List.length_cons, List.mem_cons, forall_eq_or_imp, Nat.add_right_cancel_iff]
    tauto

theorem forall₂_append_left {ps qs : List (Char → Bool)} {s : List Char} :
    List.Forall₂ (fun (q : Char → Bool) x => q x = true) (ps ++ qs) s ↔ ∃ a b, s = a ++ b ∧
      List.Forall₂ (fun (q : Char → Bool) x => q x = true) ps a ∧ List.Forall₂ (fun (q : Char → Bool) x => q x = true) qs b := by
  constructor
  · intro h
    refine ⟨s.take ps.length, s.drop ps.length, (List.take_append_drop _ _).symm, ?_, ?_⟩
    · have := List.forall₂_take ps.length h
      rwa [List.take_left] at this
    · have := List.forall₂_drop ps.length h
      rwa [List.drop_left] at this
  · rintro ⟨a, b, rfl, h1, h2⟩
    exact List.rel_append h1 h2

/-- a hexadecimal digit in lower case -/
def Hex (c : Char) : Prop := ('0' ≤ c ∧ c ≤ '9') ∨ ('a' ≤ c ∧ c ≤ 'f')

theorem isHex_iff {c : Char} : isHex c = true ↔ Hex c := by simp [isHex, between, Hex]

/-- `n` hexadecimal digits -/
def Hexes (n : ℕ) (l : List Char) : Prop := l.length = n ∧ ∀ c ∈ l, Hex c

theorem hexes_iff {n : ℕ} {l : List Char} :
    List.Forall₂ (fun (q : Char → Bool) x => q x = true) (List.replicate n isHex) l ↔ Hexes n l := by
  rw [forall₂_replicate]
  simp only [isHex_iff, Hexes]

/-- **C91.** The names of nodes of a measurement chain graph that are written as identifiers are accepted exactly if they are version 4
UUIDs of the variant of RFC 4122, in lower case. -/
theorem C91_uuid {s : List Char} : uuidPattern s = true ↔ ∃ a b c d e v, s = a ++ '-' :: b ++ '-' :: '4' :: c ++ '-' :: v :: d ++ '-' :: e ∧
    Hexes 8 a ∧ Hexes 4 b ∧ Hexes 3 c ∧ v ∈ ['8', '9', 'a', 'b'] ∧ Hexes 3 d ∧ Hexes 12 e := by
  have hv : ∀ v : Char, (between '8' '9' v || between 'a' 'b' v) = true ↔ v ∈ ['8', '9', 'a', 'b'] := by
    intro v
    simp only [between, Bool.or_eq_true, Bool.and_eq_true, decide_eq_true_eq, List.mem_cons, List.not_mem_nil, or_false, Char.le_def,
      Char.ext_iff, UInt32.le_iff_toNat_le, ← UInt32.toNat_inj]
    have e1 : '8'.val.toNat = 56 := rfl
    have e2 : '9'.val.toNat = 57 := rfl
    have e3 : 'a'.val.toNat = 97 := rfl
    have e4 : 'b'.val.toNat = 98 := rfl
    rw [e1, e2, e3, e4]
    omega
  unfold uuidPattern
  rw [Bool.and_eq_true, decide_eq_true_eq, startsWith_iff]
  simp only [List.append_assoc, List.cons_append, List.nil_append, forall₂_append_left, hexes_iff, List.forall₂_cons_left_iff, is,
    decide_eq_true_eq, hv]
  constructor
  · rintro ⟨hl, _, r, rfl, a, _, rfl, ha, _, _, rfl, ⟨b, _, rfl, hb, _, _, rfl, ⟨_, _, rfl, ⟨c, _, rfl, hc, _, _, rfl,
      ⟨v, _, hv, ⟨d, _, rfl, hd, _, e, rfl, he, rfl⟩, rfl⟩, rfl⟩, rfl⟩, rfl⟩, rfl⟩
    have hr : r = [] := by
      have h1 := ha.1; have h2 := hb.1; have h3 := hc.1; have h4 := hd.1; have h5 := he.1
      simp only [List.length_append, List.length_cons] at hl
      exact List.length_eq_zero_iff.1 (by omega)
    subst hr
    exact ⟨a, b, c, d, e, v, by simp, ha, hb, hc, hv, hd, he⟩
  · rintro ⟨a, b, c, d, e, v, rfl, ha, hb, hc, hv, hd, he⟩
    refine ⟨?_, _, [], (List.append_nil _).symm, a, _, rfl, ha, _, _, rfl, ⟨b, _, rfl, hb, _, _, rfl, ⟨_, _, rfl, ⟨c, _, rfl, hc, _, _, rfl,
      ⟨v, _, hv, ⟨d, _, rfl, hd, _, e, rfl, he, rfl⟩, rfl⟩, rfl⟩, rfl⟩, rfl⟩, rfl⟩
    have h1 := ha.1; have h2 := hb.1; have h3 := hc.1; have h4 := hd.1; have h5 := he.1
    simp only [List.length_append, List.length_cons]
    omega

example : uuidPattern "448414c4-da7a-4832-9219-5e6042c2e96e".toList = true ∧
    uuidPattern "448414c4-da7a-4832-9219-5e6042c2e96e0".toList = false := by decide +kernel

/-- a decimal digit -/
def Dig (c : Char) : Prop := '0' ≤ c ∧ c ≤ '9'

/-- the text `b` occurs in `s` -/
def Occurs (b s : List Char) : Prop := ∃ a c, s = a ++ b ++ c

/-- **C91.** What the pattern of timestamps accepts: five alternatives anywhere in the text, because the bars of the pattern are not
inside of the brackets. -/
theorem C91_timestamp {s : List Char} : timestampPattern s = true ↔
    (∃ y₁ y₂ y₃ y₄ m, Dig y₁ ∧ Dig y₂ ∧ Dig y₃ ∧ Dig y₄ ∧ ('1' ≤ m ∧ m ≤ '9') ∧ Occurs [y₁, y₂, y₃, y₄, '-', '0', m] s) ∨
    (∃ m d, ('0' ≤ m ∧ m ≤ '2') ∧ ('1' ≤ d ∧ d ≤ '9') ∧ Occurs ['1', m, '-', '0', d] s) ∨
    (∃ d₁ d₂, ('1' ≤ d₁ ∧ d₁ ≤ '2') ∧ Dig d₂ ∧ Occurs [d₁, d₂] s) ∨
    (∃ d t h₁ h₂, ('0' ≤ d ∧ d ≤ '1') ∧ (t = 'T' ∨ t = ' ') ∧ ('0' ≤ h₁ ∧ h₁ ≤ '1') ∧ Dig h₂ ∧ Occurs ['3', d, t, h₁, h₂] s) ∨
    ∃ h m₁ m₂ s₁ s₂, ('0' ≤ h ∧ h ≤ '4') ∧ ('0' ≤ m₁ ∧ m₁ ≤ '5') ∧ Dig m₂ ∧ ('0' ≤ s₁ ∧ s₁ ≤ '5') ∧ Dig s₂ ∧
      Occurs ['2', h, ':', m₁, m₂, ':', s₁, s₂] s := by
  unfold timestampPattern
  simp only [Bool.or_eq_true, search_iff, List.forall₂_cons_left_iff, List.forall₂_nil_left_iff, is, between, Bool.and_eq_true,
    decide_eq_true_eq, or_assoc]
  refine or_congr ?_ (or_congr ?_ (or_congr ?_ (or_congr ?_ ?_)))
  · constructor
    · rintro ⟨a, _, c, h, y₁, _, h1, ⟨y₂, _, h2, ⟨y₃, _, h3, ⟨y₄, _, h4, ⟨_, _, rfl, ⟨_, _, rfl, ⟨m, _, h5, rfl, rfl⟩, rfl⟩, rfl⟩, rfl⟩, rfl⟩, rfl⟩, rfl⟩
      exact ⟨y₁, y₂, y₃, y₄, m, h1, h2, h3, h4, h5, a, c, h⟩
    · rintro ⟨y₁, y₂, y₃, y₄, m, h1, h2, h3, h4, h5, a, c, h⟩
      exact ⟨a, _, c, h, y₁, _, h1, ⟨y₂, _, h2, ⟨y₃, _, h3, ⟨y₄, _, h4, ⟨_, _, rfl, ⟨_, _, rfl, ⟨m, _, h5, rfl, rfl⟩, rfl⟩, rfl⟩, rfl⟩, rfl⟩, rfl⟩, rfl⟩
  · constructor
    · rintro ⟨a, _, c, h, _, _, rfl, ⟨m, _, h1, ⟨_, _, rfl, ⟨_, _, rfl, ⟨d, _, h2, rfl, rfl⟩, rfl⟩, rfl⟩, rfl⟩, rfl⟩
      exact ⟨m, d, h1, h2, a, c, h⟩
    · rintro ⟨m, d, h1, h2, a, c, h⟩
      exact ⟨a, _, c, h, _, _, rfl, ⟨m, _, h1, ⟨_, _, rfl, ⟨_, _, rfl, ⟨d, _, h2, rfl, rfl⟩, rfl⟩, rfl⟩, rfl⟩, rfl⟩
  · constructor
    · rintro ⟨a, _, c, h, m, _, h1, ⟨d, _, h2, rfl, rfl⟩, rfl⟩
      exact ⟨m, d, h1, h2, a, c, h⟩
    · rintro ⟨m, d, h1, h2, a, c, h⟩
      exact ⟨a, _, c, h, m, _, h1, ⟨d, _, h2, rfl, rfl⟩, rfl⟩
  · constructor
    · rintro ⟨a, _, c, h, _, _, rfl, ⟨d, _, h1, ⟨t, _, h2, ⟨x, _, h3, ⟨y, _, h4, rfl, rfl⟩, rfl⟩, rfl⟩, rfl⟩, rfl⟩
      exact ⟨d, t, x, y, h1, h2, h3, h4, a, c, h⟩
    · rintro ⟨d, t, x, y, h1, h2, h3, h4, a, c, h⟩
      exact ⟨a, _, c, h, _, _, rfl, ⟨d, _, h1, ⟨t, _, h2, ⟨x, _, h3, ⟨y, _, h4, rfl, rfl⟩, rfl⟩, rfl⟩, rfl⟩, rfl⟩
  · constructor
    · rintro ⟨a, _, c, h, _, _, rfl, ⟨d, _, h1, ⟨_, _, rfl, ⟨m, _, h2, ⟨n, _, h3, ⟨_, _, rfl, ⟨x, _, h4, ⟨y, _, h5, rfl, rfl⟩, rfl⟩, rfl⟩, rfl⟩, rfl⟩, rfl⟩, rfl⟩, rfl⟩
      exact ⟨d, m, n, x, y, h1, h2, h3, h4, h5, a, c, h⟩
    · rintro ⟨d, m, n, x, y, h1, h2, h3, h4, h5, a, c, h⟩
      exact ⟨a, _, c, h, _, _, rfl, ⟨d, _, h1, ⟨_, _, rfl, ⟨m, _, h2, ⟨n, _, h3, ⟨_, _, rfl, ⟨x, _, h4, ⟨y, _, h5, rfl, rfl⟩, rfl⟩, rfl⟩, rfl⟩, rfl⟩, rfl⟩, rfl⟩, rfl⟩

example : timestampPattern "2020-01-01T12:00:00+01:00".toList = true ∧ timestampPattern "0999-1".toList = false := by decide +kernel

variable {D : Type} [DecidableEq D] {E : Env D}

/-- **C91 fails** for timestamps in the other direction: a text that is no timestamp is accepted. -/
theorem C91_timestamp_counterexample : Acc E (.str (some (wx "time/timestamp")) "room 12") ∧
    ¬ Acc E (.str (some (wx "time/timestamp")) "tomorrow") := by
  have h : ∀ s : String, Acc E (.str (some (wx "time/timestamp")) s) ↔ timestampPattern s.toList = true := fun s =>
    acc_tagged (s := timeTimestamp) rfl fun rf => by
      simp [timeTimestamp, Ty.test]
  rw [h, h]
  decide +kernel

end Weldx.Schema
