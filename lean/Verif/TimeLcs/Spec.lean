import Verif.TimeLcs.Model
import Verif.Interp.Props
import Verif.Frame.Props

/-!
# The value of a time dependent system at a time
-/

namespace Weldx

open Ip Matrix

/-! ### specification -/

/-- what is required of the mixture of two values: it gives its ends and keeps a property of the values -/
structure MixOk {V : Type} (good : V → Prop) (mix : V → V → ℝ → V) : Prop where
  zero : ∀ a b, good a → good b → mix a b 0 = a
  one : ∀ a b, good a → good b → mix a b 1 = b
  closed : ∀ a b w, good a → good b → good (mix a b w)

/-- proper rotations, the matrices accepted by scipy -/
def Rotation (A : Mat3 ℝ) : Prop := A * Aᵀ = 1 ∧ A.det = 1

/-- what is assumed of scipy's interpolation of rotations -/
abbrev SlerpOk (S : Slerp) : Prop := MixOk Rotation S

/-- values of one variable -/
inductive CompAt {V : Type} (mix : V → V → ℝ → V) (ts : List Int) : Comp V → Int → V → Prop
  | static {v : V} {t : Int} : CompAt mix ts (.static v) t v
  | series {l : List V} {t : Int} {v : V} : Value mix (ts.zip l) t v → CompAt mix ts (.series l) t v

namespace TLcs

/-- the points in time of a system: time stamps if it has a reference time, time deltas otherwise -/
def clock (c : TLcs) : List Int := (c.times.getD []).map (· + c.ref.getD 0)

/-- `f` is the static system that the time dependent system `c` gives at the time `t` -/
def At (S : Slerp) (c : TLcs) (t : Int) (f : Lcs ℝ) : Prop :=
  CompAt S c.clock c.orient t f.orientation ∧ CompAt linMix c.clock c.coord t f.coordinates

/-- values of a variable -/
def CompAll {V : Type} (P : V → Prop) : Comp V → Prop
  | .static v => P v
  | .series l => ∀ v ∈ l, P v

/-- the lengths fit -/
def CompLen {V : Type} (n : ℕ) : Comp V → Prop
  | .static _ => True
  | .series l => l.length = n

/-- data sets that the constructor creates: series have at least two strictly increasing times, all orientations are
rotations, and the reference time belongs to the times -/
structure WF (c : TLcs) : Prop where
  series : c.dependent = true → ∃ l, c.times = some l ∧ 2 ≤ l.length ∧ l.Pairwise (· < ·) ∧ CompLen l.length c.orient ∧
    CompLen l.length c.coord
  label : c.dependent = false → c.times = none ∨ ∃ x, c.times = some [x]
  ref : c.times = none → c.ref = none
  rot : CompAll Rotation c.orient

end TLcs

/-! ### values -/

theorem linMix_ok {V : Type} [AddCommGroup V] [Module ℝ V] : MixOk (fun _ : V => True) linMix :=
  ⟨fun a b _ _ => by simp [linMix], fun a b _ _ => by simp [linMix], fun _ _ _ _ _ => trivial⟩

section values
variable {V : Type} {good : V → Prop} {mix : V → V → ℝ → V}

theorem MixOk.ends (h : MixOk good mix) {s : Series V} (hs : ∀ p ∈ s, good p.2) : Ends mix s :=
  ⟨fun p hp q hq => h.zero _ _ (hs p hp) (hs q hq), fun p hp q hq => h.one _ _ (hs p hp) (hs q hq)⟩

theorem MixOk.value (h : MixOk good mix) {s : Series V} (hs : ∀ p ∈ s, good p.2) {t : Int} {v : V} (hv : Value mix s t v) :
    good v := by
  cases hv with
  | before hp _ => exact hs _ (List.mem_of_mem_head? hp)
  | after hp _ => exact hs _ (List.mem_of_getLast? hp)
  | between hp hq _ _ => exact h.closed _ _ _ (hs _ (List.mem_of_getElem? hp)) (hs _ (List.mem_of_getElem? hq))

theorem zip_asc {ts : List Int} (h : ts.Pairwise (· < ·)) (l : List V) : Ascending (ts.zip l) := by
  unfold Ascending
  induction ts generalizing l with
  | nil => simp
  | cons t ts ih =>
    cases l with
    | nil => simp
    | cons v l =>
      rw [List.zip_cons_cons, List.pairwise_cons]
      refine ⟨?_, ih (List.pairwise_cons.1 h).2 l⟩
      intro p hp
      exact (List.pairwise_cons.1 h).1 _ (List.of_mem_zip (a := p.1) (b := p.2) hp).1

theorem zip_good {ts : List Int} {l : List V} (h : ∀ v ∈ l, good v) : ∀ p ∈ ts.zip l, good p.2 := fun p hp =>
  h _ (List.of_mem_zip (a := p.1) (b := p.2) hp).2

/-- the value at a sample -/
theorem value_at_sample (hm : MixOk good mix) {ts : List Int} (h : ts.Pairwise (· < ·)) {l : List V} (hl : ∀ v ∈ l, good v)
    {k : ℕ} {t : Int} {v : V} (ht : ts[k]? = some t) (hv : l[k]? = some v) (w : V) : Value mix (ts.zip l) t w ↔ w = v := by
  have hmem : (t, v) ∈ ts.zip l := by
    apply List.mem_of_getElem? (i := k)
    rw [List.getElem?_zip_eq_some]
    exact ⟨ht, hv⟩
  have ha := zip_asc h l
  have he := hm.ends (zip_good (ts := ts) hl)
  constructor
  · exact fun hw => value_sample ha he hmem hw
  · intro hw
    obtain ⟨u, hu⟩ := value_exists mix ha (List.ne_nil_of_mem hmem) t
    rw [hw, ← value_sample ha he hmem hu]
    exact hu

theorem compAt_unique (hm : MixOk good mix) {ts : List Int} (h : ts.Pairwise (· < ·)) {k : Comp V} (hk : TLcs.CompAll good k)
    {t : Int} {v w : V} (hv : CompAt mix ts k t v) (hw : CompAt mix ts k t w) : v = w := by
  cases hv with
  | static => cases hw; rfl
  | series hv => cases hw with
    | series hw => exact value_unique (zip_asc h _) (hm.ends (zip_good hk)) hv hw

theorem compAt_exists {ts : List Int} (h : ts.Pairwise (· < ·)) (hne : ts ≠ []) {k : Comp V} (hk : TLcs.CompLen ts.length k)
    (t : Int) : ∃ v, CompAt mix ts k t v := by
  cases k with
  | static v => exact ⟨v, .static⟩
  | series l =>
    obtain ⟨v, hv⟩ := value_exists mix (zip_asc h l) (by
      rw [Ne, List.zip_eq_nil_iff]
      rintro (h | rfl)
      · exact hne h
      · simp only [TLcs.CompLen, List.length_nil] at hk
        exact hne (List.length_eq_zero_iff.1 hk.symm)) t
    exact ⟨v, .series hv⟩

theorem compAt_good (hm : MixOk good mix) {ts : List Int} {k : Comp V} (hk : TLcs.CompAll good k) {t : Int} {v : V}
    (hv : CompAt mix ts k t v) : good v := by
  cases hv with
  | static => exact hk
  | series hv => exact hm.value (zip_good hk) hv

end values

namespace TLcs

theorem clock_asc {c : TLcs} (h : c.WF) : c.clock.Pairwise (· < ·) := by
  unfold clock
  rw [List.pairwise_map]
  by_cases hd : c.dependent = true
  · obtain ⟨l, hl, _, ha, _⟩ := h.series hd
    rw [hl]
    exact ha.imp fun h => by simpa using h
  · rcases h.label (by simpa using hd) with h | ⟨x, h⟩ <;> rw [h] <;> simp

theorem clock_of_times {c : TLcs} {l : List Int} (h : c.times = some l) : c.clock = l.map (· + c.ref.getD 0) := by
  rw [clock, h]; rfl

theorem clock_length {c : TLcs} {l : List Int} (h : c.times = some l) : c.clock.length = l.length := by
  rw [clock_of_times h, List.length_map]

/-- a system has one value at any time -/
theorem At_unique {S : Slerp} (hS : SlerpOk S) {c : TLcs} (h : c.WF) {t : Int} {f g : Lcs ℝ} (hf : c.At S t f)
    (hg : c.At S t g) : f = g := by
  have hc : CompAll (fun _ : Vec3 ℝ => True) c.coord := by
    cases c.coord <;> simp [CompAll]
  exact Lcs.ext (compAt_unique hS (clock_asc h) h.rot hf.1 hg.1) (compAt_unique linMix_ok (clock_asc h) hc hf.2 hg.2)

theorem At_exists (S : Slerp) {c : TLcs} (h : c.WF) (t : Int) : ∃ f, c.At S t f := by
  by_cases hd : c.dependent = true
  · obtain ⟨l, hl, h2, ha, h3, h4⟩ := h.series hd
    have hn : c.clock.length = l.length := clock_length hl
    have hne : c.clock ≠ [] := by rw [Ne, ← List.length_eq_zero_iff]; omega
    obtain ⟨R, hR⟩ := compAt_exists (mix := S) (clock_asc h) hne (hn ▸ h3) t
    obtain ⟨T, hT⟩ := compAt_exists (mix := linMix) (clock_asc h) hne (hn ▸ h4) t
    exact ⟨⟨R, T⟩, hR, hT⟩
  · unfold dependent at hd
    unfold At
    cases ho : c.orient with
    | series l => rw [ho] at hd; simp [Comp.isSeries] at hd
    | static R => cases hk : c.coord with
      | series l => rw [hk] at hd; simp [Comp.isSeries] at hd
      | static T => exact ⟨⟨R, T⟩, .static, .static⟩

/-- its orientation is a rotation -/
theorem At_rotation {S : Slerp} (hS : SlerpOk S) {c : TLcs} (h : c.WF) {t : Int} {f : Lcs ℝ} (hf : c.At S t f) :
    Rotation f.orientation := compAt_good hS h.rot hf.1

end TLcs
end Weldx
