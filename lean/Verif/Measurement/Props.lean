import Verif.Measurement.Invariant
import Mathlib.Algebra.Group.TypeTags.Basic
import Mathlib.Algebra.Group.Int.Defs

/-!
# C28 - C31: measurement chains
-/

set_option linter.unusedSimpArgs false

namespace Weldx.Meas
variable {U D : Type}

/-! ### an example history

A source with an analog signal in volt (units are the integers, written multiplicatively: exponents of
volt), an AD conversion, a filter and a second transformation of the source signal. -/

instance : UnitSystem (Multiplicative ℤ) where
  compatible a b := decide (a.toAdd = b.toAdd)

/-- volt -/
def volt : Multiplicative ℤ := Multiplicative.ofAdd 1
/-- `5/V * x` -/
def toCounts : Func (Multiplicative ℤ) := ⟨1, fun u => some (volt⁻¹ * u)⟩

/-- source, AD conversion, filter (from the AD signal), scaling (from the source), data for the filter -/
def demoOps : List (Op (Multiplicative ℤ) Nat) :=
  [ .newSignal .analog volt none,
    .newChain "chain" ⟨"src", 0⟩ none,
    .createTransformation 0 "ad" (some ['d', 'i', 'g', 'i', 't', 'a', 'l']) none (some toCounts) (some 7) none,
    .addTransformation 0 ⟨"filter", none, some (.digital, .digital)⟩ none none,
    .createTransformation 0 "scale" none (some (volt * volt)) none none (some "src"),
    -- rejected: name exists, wrong input type, unknown signal, data exists
    .addTransformation 0 ⟨"ad", none, some (.analog, .analog)⟩ none (some "src"),
    .addTransformation 0 ⟨"x", none, some (.digital, .digital)⟩ none (some "src"),
    .addSignalData 0 1 (some "unknown"),
    .addSignalData 0 1 (some "ad"),
    .addSignalData 0 2 (some "filter") ]

/-- the objects after the example history -/
def demo : World (Multiplicative ℤ) Nat := runAll demoOps

/-! ### C28 -/

/-- **C28.** After any history of calls, successful or not, the signals and transformations of every
measurement chain form a tree that starts at its source: names are unique, each signal except the one of
the source is produced by exactly one transformation, which has the same name, and is reachable from the
source; the signal used by default exists. -/
theorem C28_tree [UnitSystem U] (ops : List (Op U D)) (c : Nat) (ch : Chain U)
    (h : (runAll ops).chains[c]? = some ch) :
    ∃ g, (runAll ops).chainGraph c = .ok (ch, g) ∧ IsTree g ch.source.name ∧
      ch.prev ∈ Dict.keys g.nodes ∧
      ∀ n ∈ Dict.keys g.nodes, ∃ s, SignalOf (runAll ops).sigs g n s := by
  obtain ⟨g, h1, h2, h3, h4⟩ := runAll_inv ops c ch h
  refine ⟨g, chainGraph_ok.2 ⟨h, h1⟩, h2.tree, h3, fun n hn => ?_⟩
  obtain ⟨r, hr⟩ := Dict.get?_isSome.2 hn
  have := h2.refs n r hr
  exact ⟨(runAll ops).sigs[r], r, hr, by simp [this]⟩

theorem mem_edgeView {g : Graph U} {src : String} (h : IsTree g src) {x : (String × String) × EdgeData U} :
    x ∈ g.edgeView ↔ x ∈ g.edges := by
  obtain ⟨⟨a, b⟩, e⟩ := x
  simp only [Graph.edgeView, List.mem_flatMap, List.mem_filter, decide_eq_true_eq]
  constructor
  · rintro ⟨n, _, h1, _⟩; exact h1
  · intro h1; exact ⟨a, (h.ends a b ⟨e, h1⟩).1, h1, rfl⟩

/-- **C28.** The queries agree with this: `get_signal` succeeds exactly for existing names,
`get_transformation` returns the one transformation that produces the signal, and raises exactly for the
source and for unknown names; the transformation has the requested name. -/
theorem C28_queries [UnitSystem U] (ops : List (Op U D)) (c : Nat) (ch : Chain U) (g : Graph U)
    (h : (runAll ops).chainGraph c = .ok (ch, g)) (n : String) :
    (n ∈ Dict.keys g.nodes → ∃ s, SignalOf (runAll ops).sigs g n s ∧ getSignal (runAll ops) c n = .ok s) ∧
    (n ∉ Dict.keys g.nodes → getSignal (runAll ops) c n = .error .keyError) ∧
    (n ∈ Dict.keys g.nodes → n ≠ ch.source.name → ∃ a e, ((a, n), e) ∈ g.edges ∧
      getTransformation (runAll ops) c n = .ok e.transformation ∧ e.transformation.name = n) ∧
    (n ∉ Dict.keys g.nodes ∨ n = ch.source.name → getTransformation (runAll ops) c n = .error .keyError) := by
  obtain ⟨hc, hg⟩ := chainGraph_ok.1 h
  obtain ⟨g', h1, h2, h3, h4⟩ := runAll_inv ops c ch hc
  rw [hg] at h1; cases h1
  refine ⟨fun hn => ?_, fun hn => ?_, fun hn hne => ?_, fun hn => ?_⟩
  · obtain ⟨r, hr⟩ := Dict.get?_isSome.2 hn
    have hlt := h2.refs n r hr
    have hs : (runAll ops).sigs[r]? = some (runAll ops).sigs[r] := by simp [hlt]
    refine ⟨_, ⟨r, hr, hs⟩, ?_⟩
    have := signalAt_ok.2 ⟨hr, hs⟩
    simp only [getSignal, h, bind, Except.bind, hn, if_true, this]; rfl
  · simp only [getSignal, h, bind, Except.bind, hn, if_false]
  · obtain ⟨a, e, e1, e2, e3⟩ := h2.tree.produced n hn hne
    refine ⟨a, e, e1, ?_, e2⟩
    cases hf : g.edgeView.find? (fun e => e.1.2 = n) with
    | none =>
      exfalso
      have := List.find?_eq_none.1 hf _ ((mem_edgeView h2.tree).2 e1)
      simp at this
    | some x =>
      have hx := (mem_edgeView h2.tree).1 (List.mem_of_find?_eq_some hf)
      have hx2 := List.find?_some hf
      obtain ⟨⟨a', b⟩, e'⟩ := x
      simp only [decide_eq_true_eq] at hx2
      subst hx2
      obtain ⟨_, rfl⟩ := e3 a' e' hx
      simp only [getTransformation, h, bind, Except.bind, hf]
  · have : g.edgeView.find? (fun e => e.1.2 = n) = none := by
      rw [List.find?_eq_none]
      rintro ⟨⟨a, b⟩, e⟩ hx
      simp only [decide_eq_true_eq]
      rintro rfl
      have hx := (mem_edgeView h2.tree).1 hx
      rcases hn with hn | hn
      · exact hn (h2.tree.ends a b ⟨e, hx⟩).2
      · subst hn; exact h2.tree.source_no_input a ⟨e, hx⟩
    simp only [getTransformation, h, bind, Except.bind, this]

/-- **C28.** A successful `add_transformation` adds one signal with a new name, produced by the passed
transformation from the requested signal (from the last added one by default), and the new signal becomes the
one that is used by default. It fits to the passed data, everything else stays. -/
theorem C28_add {w w' : World U D} {c : Nat} {tr : Transformation U} {data : Option D} {input : Option String}
    (h : addTransformation c tr data input w = .ok () w') :
    ∃ ch g n s out g', w.chainGraph c = .ok (ch, g) ∧ (input = some n ∨ input = none ∧ n = ch.prev) ∧
      getSignal w c n = .ok s ∧ Fits tr s out ∧ out.data = data ∧
      w'.chainGraph c = .ok ({ ch with prev := tr.name }, g') ∧
      Dict.keys g'.nodes = Dict.keys g.nodes ++ [tr.name] ∧ tr.name ∉ Dict.keys g.nodes ∧
      (∀ m, m ≠ tr.name → Dict.get? g'.nodes m = Dict.get? g.nodes m) ∧
      Dict.get? g'.nodes tr.name = some w.sigs.length ∧ w'.sigs = w.sigs ++ [out] ∧
      Dict.get? g'.edges (n, tr.name) = some ⟨tr, none⟩ ∧
      (∀ k, k ≠ (n, tr.name) → Dict.get? g'.edges k = Dict.get? g.edges k) ∧
      (∀ c', c' ≠ c → w'.chains[c']? = w.chains[c']?) ∧
      (∀ i, i ≠ ch.graph → w'.graphs[i]? = w.graphs[i]?) := by
  rcases addTransformation_cases c tr data input w with ⟨x, hx⟩ | ⟨ch, g, n, r, s, out, hc, hg, hn, hr, hs, ho, hf, hw⟩
  · rw [hx] at h; cases h
  rw [hw] at h; cases h
  have hcg := chainGraph_ok.2 ⟨hc, hg⟩
  obtain ⟨hfit, hdata⟩ := determineOutput_fits ho
  have hk : n ∈ Dict.keys g.nodes := Dict.get?_isSome.1 ⟨r, hr⟩
  have hsig : getSignal w c n = .ok s := by
    have := signalAt_ok.2 ⟨hr, hs⟩
    simp only [getSignal, hcg, bind, Except.bind, hk, if_true, this]; rfl
  refine ⟨ch, g, n, s, out, _, hcg, ?_, hsig, hfit, hdata, chainGraph_ok.2 (addedWorld_chain hc hg), ?_, hf, ?_, ?_,
    rfl, ?_, ?_, ?_, ?_⟩
  · rcases checkNode_cases hn with ⟨h1, h2⟩ | ⟨h1, _⟩
    · exact .inr ⟨h1, h2⟩
    · exact .inl h1
  · simp only [Dict.set_of_not_mem hf]; simp [Dict.keys]
  · intro m hm; simp [Dict.get?_set, hm, Ne.symm hm]
  · simp [Dict.get?_set]
  · simp [Dict.get?_set]
  · intro k hk; simp [Dict.get?_set, hk, Ne.symm hk]
  · intro c' hc'; exact List.getElem?_set_ne (Ne.symm hc')
  · intro i hi; exact List.getElem?_set_ne (Ne.symm hi)

/-- **C28.** The number that creating a signal returns refers to exactly this signal; the others stay. -/
theorem C28_new_signal (ty : Ty) (u : U) (data : Option D) (w : World U D) :
    ∃ r w', newSignal ty u data w = .ok r w' ∧ w'.sigs[r]? = some ⟨ty, u, data⟩ ∧
      (∀ i, i ≠ r → w'.sigs[i]? = w.sigs[i]?) ∧ w'.graphs = w.graphs ∧ w'.chains = w.chains := by
  refine ⟨w.sigs.length, _, rfl, by simp, fun i hi => ?_, rfl, rfl⟩
  by_cases h : i < w.sigs.length
  · simp [List.getElem?_append_left h]
  · have : w.sigs.length + 1 ≤ i := by omega
    rw [List.getElem?_eq_none (by simpa using this), List.getElem?_eq_none (by omega)]

/-- **C28.** `get_equipment` returns the equipment of the source for its name and for each other signal the one that belongs to the
transformation that produces it; it raises for unknown names. -/
theorem C28_get_equipment [UnitSystem U] (ops : List (Op U D)) (c : Nat) (ch : Chain U) (g : Graph U)
    (h : (runAll ops).chainGraph c = .ok (ch, g)) :
    getEquipment (runAll ops) c ch.source.name = .ok ch.equipment ∧
    (∀ a n e, ((a, n), e) ∈ g.edges → getEquipment (runAll ops) c n = .ok e.equipment) ∧
    ∀ n, n ∉ Dict.keys g.nodes → getEquipment (runAll ops) c n = .error .keyError := by
  obtain ⟨hc, hg⟩ := chainGraph_ok.1 h
  obtain ⟨g', h1, h2, h3, h4⟩ := runAll_inv ops c ch hc
  rw [hg] at h1; cases h1
  refine ⟨by simp only [getEquipment, h, bind, Except.bind, if_true], fun a n e he => ?_, fun n hn => ?_⟩
  · have hne : n ≠ ch.source.name := by rintro rfl; exact h2.tree.source_no_input a ⟨e, he⟩
    obtain ⟨a0, e0, _, _, e3⟩ := h2.tree.produced n (h2.tree.ends a n ⟨e, he⟩).2 hne
    cases hf : g.edgeView.find? (fun e => e.1.2 = n) with
    | none =>
      exfalso
      have := List.find?_eq_none.1 hf _ ((mem_edgeView h2.tree).2 he)
      simp at this
    | some x =>
      have hx := (mem_edgeView h2.tree).1 (List.mem_of_find?_eq_some hf)
      have hx2 := List.find?_some hf
      obtain ⟨⟨a', b⟩, e'⟩ := x
      simp only [decide_eq_true_eq] at hx2
      subst hx2
      have i1 := e3 a' e' hx
      have i2 := e3 a e he
      simp only [getEquipment, h, bind, Except.bind, hne, if_false, hf, i1.2, i2.2]
  · have hne : n ≠ ch.source.name := by rintro rfl; exact hn h2.tree.source_mem
    have : g.edgeView.find? (fun e => e.1.2 = n) = none := by
      rw [List.find?_eq_none]
      rintro ⟨⟨a, b⟩, e⟩ hx
      simp only [decide_eq_true_eq]
      rintro rfl
      exact hn (h2.tree.ends a b ⟨e, (mem_edgeView h2.tree).1 hx⟩).2
    simp only [getEquipment, h, bind, Except.bind, hne, if_false, this]

/-- **C28.** The names of the transformations are exactly the names of all signals except that of the source. -/
theorem C28_transformation_names [UnitSystem U] (ops : List (Op U D)) (c : Nat) (ch : Chain U) (g : Graph U)
    (h : (runAll ops).chainGraph c = .ok (ch, g)) :
    ∃ l, transformationNames (runAll ops) c = .ok l ∧
      ∀ n, n ∈ l ↔ n ∈ Dict.keys g.nodes ∧ n ≠ ch.source.name := by
  obtain ⟨hc, hg⟩ := chainGraph_ok.1 h
  obtain ⟨g', h1, h2, h3, h4⟩ := runAll_inv ops c ch hc
  rw [hg] at h1; cases h1
  refine ⟨_, by simp only [transformationNames, h, bind, Except.bind]; rfl, fun n => ?_⟩
  simp only [List.mem_map]
  constructor
  · rintro ⟨⟨⟨a, b⟩, e⟩, hx, rfl⟩
    have hx := (mem_edgeView h2.tree).1 hx
    have hb : b ∈ Dict.keys g.nodes := (h2.tree.ends a b ⟨e, hx⟩).2
    have hne : b ≠ ch.source.name := by rintro rfl; exact h2.tree.source_no_input a ⟨e, hx⟩
    obtain ⟨a0, e0, _, e2, e3⟩ := h2.tree.produced b hb hne
    obtain ⟨_, rfl⟩ := e3 a e hx
    simp only [e2]; exact ⟨hb, hne⟩
  · rintro ⟨hn, hne⟩
    obtain ⟨a0, e0, e1, e2, _⟩ := h2.tree.produced n hn hne
    exact ⟨_, (mem_edgeView h2.tree).2 e1, e2⟩

/-- the names of the example -/
example : transformationNames demo 0 = .ok ["ad", "scale", "filter"] := rfl

/-- the example has one chain with four signals and three transformations -/
example : ∃ ch g, demo.chainGraph 0 = .ok (ch, g) ∧ Dict.keys g.nodes = ["src", "ad", "filter", "scale"] ∧
    Dict.keys g.edges = [("src", "ad"), ("ad", "filter"), ("src", "scale")] ∧ ch.prev = "scale" :=
  ⟨_, _, rfl, rfl, rfl, rfl⟩

/-! ### C29 -/

/-- **C29.** After any history, each transformation of each chain fits to its input and output signal: the
type letters are the types of the signals, and the unit of the output is the one the function returns for
the unit of the input (the unit of the input if there is no function). -/
theorem C29_types_and_units [UnitSystem U] (ops : List (Op U D)) (c : Nat) (ch : Chain U) (g : Graph U)
    (h : (runAll ops).chainGraph c = .ok (ch, g)) (a b : String) (e : EdgeData U)
    (he : ((a, b), e) ∈ g.edges) :
    ∃ sa sb, getSignal (runAll ops) c a = .ok sa ∧ getSignal (runAll ops) c b = .ok sb ∧
      Fits e.transformation sa sb := by
  obtain ⟨hc, hg⟩ := chainGraph_ok.1 h
  obtain ⟨g', h1, h2, h3, h4⟩ := runAll_inv ops c ch hc
  rw [hg] at h1; cases h1
  obtain ⟨sa, sb, ⟨ra, ka, la⟩, ⟨rb, kb, lb⟩, hf⟩ := h2.fits a b e he
  have q := C28_queries ops c ch g h
  obtain ⟨sa', ⟨ra', ka', la'⟩, hsa⟩ := (q a).1 (h2.tree.ends a b ⟨e, he⟩).1
  obtain ⟨sb', ⟨rb', kb', lb'⟩, hsb⟩ := (q b).1 (h2.tree.ends a b ⟨e, he⟩).2
  rw [ka] at ka'; cases ka'; rw [la] at la'; cases la'
  rw [kb] at kb'; cases kb'; rw [lb] at lb'; cases lb'
  exact ⟨sa, sb, hsa, hsb, hf⟩

/-- the letter of a type in `type_transformation` -/
def letter : Ty → Char
  | .analog => 'A'
  | .digital => 'D'

theorem parseType_letters {a b : Char} {i o : Ty} (h : parseType [a, b] = .ok (i, o)) :
    a.toUpper = letter i ∧ b.toUpper = letter o := by
  unfold parseType at h
  simp only [List.map_cons, List.map_nil] at h
  split at h <;> simp_all <;> (obtain ⟨rfl, rfl⟩ := h; simp [letter])

theorem mkTransformation_ok {name : String} {f : Option (Func U)} {s : List Char} {tr : Transformation U}
    (h : mkTransformation name f (some s) = .ok tr) :
    ∃ io, parseType s = .ok io ∧ tr = ⟨name, f, some io⟩ ∧ ∀ f0, f = some f0 → f0.nvars = 1 := by
  cases hp : parseType s with
  | error e => simp [mkTransformation, hp, Except.map, bind, Except.bind] at h
  | ok io =>
    simp only [mkTransformation, hp, Except.map, bind, Except.bind, Option.isNone_some, Bool.and_false,
      Bool.false_eq_true, if_false] at h
    cases f with
    | none => cases h; exact ⟨io, rfl, rfl, fun _ h => by cases h⟩
    | some f0 =>
      simp only at h
      split at h
      · cases h
      · rename_i hn
        cases h
        exact ⟨io, rfl, rfl, fun f1 h1 => by cases h1; simpa using hn⟩

/-- **C29.** `create_transformation`: the new signal gets the requested type (the type of the input signal
if none is requested); if a unit but no function is given it gets this unit; if a function is given it gets
the unit of the function, which is compatible to a unit given in addition; otherwise the unit of the input;
and it carries the passed data. -/
theorem C29_create [UnitSystem U] (ops : List (Op U D)) (c : Nat) (name : String) (ot : Option Ty)
    (ou : Option U) (f : Option (Func U)) (data : Option D) (input : String) (w' : World U D)
    (h : createTransformation c name (ot.map Ty.chars) ou f data (some input) (runAll ops) = .ok () w') :
    ∃ sa sb, getSignal (runAll ops) c input = .ok sa ∧ getSignal w' c name = .ok sb ∧
      sb.data = data ∧ sb.ty = ot.getD sa.ty ∧
      (match f, ou with
        | none, none => sb.units = sa.units
        | none, some u => sb.units = u
        | some f, none => f.unit sa.units = some sb.units
        | some f, some u => f.unit sa.units = some sb.units ∧ UnitSystem.compatible u sb.units = true) := by
  rcases createTransformation_cases c name (ot.map Ty.chars) ou f data (some input) (runAll ops) with ⟨x, hx⟩ |
    ⟨ch, g, n, r, s, a, b, f', tr, out, hc, hg, hn, hr, hs, ha, hb, hcase, hm, ho, hf, hw⟩
  · rw [hx] at h; cases h
  rw [hw] at h; cases h
  have hnn : n = input := by
    rcases checkNode_cases hn with ⟨h, _⟩ | ⟨h, _⟩
    · cases h
    · simpa using h.symm
  subst hnn
  obtain ⟨io, hp, rfl, hvars⟩ := mkTransformation_ok hm
  obtain ⟨i, o⟩ := io
  have hcg := chainGraph_ok.2 ⟨hc, hg⟩
  have hsa : getSignal (runAll ops) c n = .ok s := by
    have hk : n ∈ Dict.keys g.nodes := Dict.get?_isSome.1 ⟨r, hr⟩
    have := signalAt_ok.2 ⟨hr, hs⟩
    simp only [getSignal, hcg, bind, Except.bind, hk, if_true, this]; rfl
  have hsb : getSignal (addedWorld (runAll ops) c ch g n ⟨name, f', some (i, o)⟩ out) c name = .ok out := by
    have hcg' := chainGraph_ok.2 (addedWorld_chain (n := n) (tr := ⟨name, f', some (i, o)⟩) (out := out) hc hg)
    have hr' : Dict.get? (Dict.set g.nodes name (runAll ops).sigs.length) name = some (runAll ops).sigs.length := by
      simp [Dict.get?_set]
    have hk : name ∈ Dict.keys (Dict.set g.nodes name (runAll ops).sigs.length) := Dict.get?_isSome.1 ⟨_, hr'⟩
    have := (signalAt_ok (w := addedWorld (runAll ops) c ch g n ⟨name, f', some (i, o)⟩ out)
      (g := ⟨Dict.set g.nodes name (runAll ops).sigs.length,
        Dict.set g.edges (n, name) ⟨⟨name, f', some (i, o)⟩, none⟩⟩) (s := out)).2 ⟨hr', by simp [addedWorld]⟩
    simp only [getSignal, hcg', bind, Except.bind, hk, if_true, this]; rfl
  obtain ⟨⟨hty, hun⟩, hdata⟩ := determineOutput_fits ho
  refine ⟨s, out, hsa, hsb, hdata, ?_, ?_⟩
  · have hl := parseType_letters hp
    have h2 : out.ty = o := hty.2
    rw [h2]
    have hb' : (ot.getD s.ty).chars.head? = some b := by
      rw [← hb]; cases ot <;> rfl
    have h3 := hl.2
    generalize ot.getD s.ty = t at hb'
    cases t <;> cases o <;> simp [Ty.chars] at hb' ⊢ <;> subst hb' <;> exact absurd h3 (by decide)
  · rcases hcase with ⟨rfl, rfl⟩ | ⟨u, rfl, rfl, rfl⟩ | ⟨u, f0, v, rfl, rfl, rfl, hv, hcomp⟩
    · cases f' with
      | none => exact hun
      | some f0 => exact hun
    · simp only [conversion, Option.some.injEq] at hun ⊢
      rw [← hun]; simp
    · refine ⟨hun, ?_⟩
      have hun' : f0.unit s.units = some out.units := hun
      simp only [determineUnit, hun'] at hv
      split at hv
      · cases hv
      · cases hv; exact hcomp

/-- the scaled signal of the example has the requested unit and the type of its input; the AD conversion
changes the type and takes the unit of the function -/
example : (∃ s, getSignal demo 0 "scale" = .ok s ∧ s.ty = .analog ∧ s.units = volt * volt) ∧
    ∃ s, getSignal demo 0 "ad" = .ok s ∧ s.ty = .digital ∧ s.units = 1 := ⟨⟨_, rfl, rfl, rfl⟩, _, rfl, rfl, rfl⟩

/-- Only the first letter of the type is looked at: a misspelt type is accepted. -/
example : ∃ w', createTransformation 0 "t" (some ['d', 'o', 'g']) none none none none demo = .ok () w' :=
  ⟨_, rfl⟩

/-! ### C30 -/

/-- **C30.** A successful `add_signal_data` attaches the data to a signal that had none; afterwards the data
is returned for it. All other signals and all chains stay as they are. -/
theorem C30_attach {w w' : World U D} {c : Nat} {data : D} {src : Option String}
    (h : addSignalData c data src w = .ok () w') :
    ∃ ch g n r, w.chainGraph c = .ok (ch, g) ∧ (src = some n ∨ src = none ∧ n = ch.prev) ∧
      Dict.get? g.nodes n = some r ∧
      getSignalData w c src = .error .keyError ∧ getSignalData w' c src = .ok data ∧
      w'.graphs = w.graphs ∧ w'.chains = w.chains ∧ (∀ i, i ≠ r → w'.sigs[i]? = w.sigs[i]?) := by
  rcases addSignalData_cases c data src w with ⟨e, he⟩ | ⟨ch, g, n, r, s, hc, hg, hn, hr, hs, hd, hw⟩
  · rw [he] at h; cases h
  rw [hw] at h; cases h
  have hcg := chainGraph_ok.2 ⟨hc, hg⟩
  refine ⟨ch, g, n, r, hcg, ?_, hr, ?_, ?_, rfl, rfl, fun i hi => ?_⟩
  · rcases checkNode_cases hn with ⟨h1, h2⟩ | ⟨h1, _⟩
    · exact .inr ⟨h1, h2⟩
    · exact .inl h1
  · have := signalAt_ok.2 ⟨hr, hs⟩
    simp only [getSignalData, hcg, bind, Except.bind, hn, this, hd]
  · have hcg' : World.chainGraph { w with sigs := w.sigs.set r { s with data := some data } } c = .ok (ch, g) :=
      chainGraph_ok.2 ⟨hc, hg⟩
    have := (signalAt_ok (w := { w with sigs := w.sigs.set r { s with data := some data } })
      (s := { s with data := some data })).2 ⟨hr, by simp [lt_of_getElem? hs]⟩
    simp only [getSignalData, hcg', bind, Except.bind, hn, this]
  · exact List.getElem?_set_ne (Ne.symm hi)

/-- **C30.** Data can be attached exactly to existing signals without data. -/
theorem C30_attach_iff [UnitSystem U] (ops : List (Op U D)) (c : Nat) (ch : Chain U) (g : Graph U)
    (hcg : (runAll ops).chainGraph c = .ok (ch, g)) (data : D) (n : String) :
    (∃ w', addSignalData c data (some n) (runAll ops) = .ok () w') ↔
      ∃ s, getSignal (runAll ops) c n = .ok s ∧ s.data = none := by
  constructor
  · rintro ⟨w', h⟩
    rcases addSignalData_cases c data (some n) (runAll ops) with ⟨e, he⟩ | ⟨ch', g', n', r, s, hc, hg, hn, hr, hs, hd, hw⟩
    · rw [he] at h; cases h
    · rcases checkNode_cases hn with ⟨h1, _⟩ | ⟨h1, hk⟩
      · cases h1
      · cases h1
        refine ⟨s, ?_, hd⟩
        have h1 := chainGraph_ok.2 ⟨hc, hg⟩
        have := signalAt_ok.2 ⟨hr, hs⟩
        simp only [getSignal, h1, bind, Except.bind, hk, if_true, this]; rfl
  · rintro ⟨s, hs, hd⟩
    simp only [getSignal, hcg, bind, Except.bind] at hs
    split at hs
    · rename_i hk
      cases hsa : (runAll ops).signalAt g n with
      | error e => rw [hsa] at hs; cases hs
      | ok p =>
        obtain ⟨r, s'⟩ := p
        rw [hsa] at hs; cases hs
        refine ⟨{ (runAll ops) with
          sigs := (runAll ops).sigs.set r { s' with data := some data } }, ?_⟩
        · simp only [Except.map] at hd
          unfold addSignalData
          rw [Py.get_bind, hcg, Py.lift_ok_bind]
          dsimp only
          rw [checkNode_some hk, Py.lift_ok_bind, hsa, Py.lift_ok_bind]
          dsimp only
          have : s'.data = none := hd
          rw [this]
          rfl
    · cases hs

/-- **C30.** No call changes or removes data that is attached to a signal, or changes type or unit of a
signal, or detaches a name from its signal; in particular the data returned for a name stays the same. -/
theorem C30_never_overwritten [UnitSystem U] (op : Op U D) (w : World U D) :
    (∀ (i : Nat) s, w.sigs[i]? = some s → ∃ s', (run op w).state.sigs[i]? = some s' ∧ s'.ty = s.ty ∧
      s'.units = s.units ∧ (s.data ≠ none → s' = s)) ∧
    (∀ c n d, getSignalData w c (some n) = .ok d → getSignalData (run op w).state c (some n) = .ok d) := by
  have hk : Keeps w (run op w).state := by
    rcases run_cases op w with ⟨e, he⟩ | ⟨w', hw', hs⟩
    · rw [he]; exact .refl _
    · rw [hw']; exact Steps.keeps hs
  refine ⟨hk.sigs.2, fun c n d h => ?_⟩
  unfold getSignalData at h ⊢
  cases h1 : w.chainGraph c with
  | error e => rw [h1] at h; cases h
  | ok p =>
    obtain ⟨ch, g⟩ := p
    rw [h1] at h
    obtain ⟨ch', g', h2, _, _, _, h3⟩ := hk.chains c ch g h1
    simp only [bind, Except.bind] at h ⊢
    cases h4 : checkNode ch g (some n) with
    | error e => rw [h4] at h; cases h
    | ok m =>
      rw [h4] at h
      rcases checkNode_cases h4 with ⟨h5, _⟩ | ⟨h5, h6⟩
      · cases h5
      cases h5
      cases h7 : w.signalAt g n with
      | error e => simp only [h7] at h; cases h
      | ok p =>
        obtain ⟨r, s⟩ := p
        obtain ⟨h8, h9⟩ := signalAt_ok.1 h7
        simp only [h7] at h
        cases hd : s.data with
        | none => rw [hd] at h; cases h
        | some d' =>
          rw [hd] at h; cases h
          obtain ⟨s', k1, _, _, k2⟩ := hk.sigs.2 r s h9
          have := k2 (by rw [hd]; simp)
          subst this
          have h10 := h3 n r h8
          have h11 := signalAt_ok.2 ⟨h10, k1⟩
          simp only [h2, checkNode_some (Dict.get?_isSome.1 ⟨r, h10⟩), h11, hd]

/-- **C30.** A rejected call changes nothing. -/
theorem C30_rejected_unchanged [UnitSystem U] (op : Op U D) (w : World U D) (h : (run op w).Raised) :
    (run op w).state = w := by
  rcases run_cases op w with ⟨e, he⟩ | ⟨w', hw', _⟩
  · rw [he]; rfl
  · rw [hw'] at h; exact absurd h (by simp)

example : getSignalData demo 0 (some "filter") = .ok 2 ∧ getSignalData demo 0 (some "ad") = .ok 7 ∧
    (run (.addSignalData 0 1 (some "ad")) demo).Raised := ⟨rfl, rfl, trivial⟩

/-! ### C31 -/

/-- The full statement: the restored chain is the same object content. -/
def RoundTrip (w : World U D) (c : Nat) : Prop :=
  ∃ i w', fromDict c w = .ok i w' ∧ w'.chains[i]? = w.chains[c]?

/-- `n` is a signal that no transformation uses as input. -/
def Unused (g : Graph U) (n : String) : Prop := n ∈ Dict.keys g.nodes ∧ ∀ b, ¬ Feeds g n b

theorem succs_nil {g : Graph U} {n : String} : (g.succs n).length = 0 ↔ ∀ b, ¬ Feeds g n b := by
  simp only [Graph.succs, List.length_map, List.length_eq_zero_iff, List.filter_eq_nil_iff,
    decide_eq_true_eq, Feeds, not_exists]
  constructor
  · intro h b e he; exact h _ he rfl
  · rintro h ⟨⟨a, b⟩, e⟩ he rfl; exact h b e he

/-- **C31 (partial).** `from_dict(to_dict(mc))` returns an object with the same name, source, equipment,
signals and transformations. If the last added signal is the only one that is not used as input, as in any
chain without branches, the object is identical, so that each call behaves the same (see
`C31_same_behaviour`). Missing: for chains with branches the signal used by default differs,
see `C31_counterexample`. -/
theorem C31_round_trip_partial [UnitSystem U] (ops : List (Op U D)) (c : Nat) (ch : Chain U)
    (hc : (runAll ops).chains[c]? = some ch) :
    ∃ g i w' ch', (runAll ops).chainGraph c = .ok (ch, g) ∧ fromDict c (runAll ops) = .ok i w' ∧
      w'.chains[i]? = some ch' ∧ w'.sigs = (runAll ops).sigs ∧ w'.graphs = (runAll ops).graphs ∧
      ch'.name = ch.name ∧ ch'.source = ch.source ∧ ch'.equipment = ch.equipment ∧ ch'.graph = ch.graph ∧
      (Unused g ch.prev → (∀ n, Unused g n → n = ch.prev) → RoundTrip (runAll ops) c) := by
  obtain ⟨g, h1, h2, h3, h4⟩ := runAll_inv ops c ch hc
  rcases fromDict_cases c (runAll ops) with ⟨x, hx⟩ | ⟨ch0, g0, hc0, hg0, hw⟩
  · exfalso
    simp only [fromDict, Py.get_bind, chainGraph_ok.2 ⟨hc, h1⟩, Py.lift_ok_bind, Py.modify_bind] at hx
    cases hx
  rw [hc] at hc0; cases hc0
  rw [h1] at hg0; cases hg0
  refine ⟨g, _, _, _, chainGraph_ok.2 ⟨hc, h1⟩, hw, List.getElem?_concat_length, rfl, rfl, rfl, rfl, rfl, rfl, fun hu honly => ?_⟩
  refine ⟨_, _, hw, ?_⟩
  rw [hc]
  simp only [List.getElem?_append_right (Nat.le_refl _), Nat.sub_self, List.getElem?_cons_zero]
  have : (Dict.keys g.nodes).find? (fun n => (g.succs n).length = 0) = some ch.prev := by
    cases hf : (Dict.keys g.nodes).find? (fun n => (g.succs n).length = 0) with
    | none =>
      have := List.find?_eq_none.1 hf _ hu.1
      rw [decide_eq_true_eq, succs_nil] at this
      exact absurd hu.2 this
    | some n =>
      have h5 := List.mem_of_find?_eq_some hf
      have h6 := List.find?_some hf
      rw [decide_eq_true_eq, succs_nil] at h6
      rw [honly n ⟨h5, h6⟩]
  rw [this]

/-- **C31 fails** for chains with branches: in the example (with a further signal that is derived from the
source) the restored chain uses `ad` by default instead of `scale`. -/
theorem C31_counterexample : ∃ (ops : List (Op (Multiplicative ℤ) Nat)) (c i : Nat) (w' : World _ _),
    fromDict c (runAll ops) = .ok i w' ∧ ¬ RoundTrip (runAll ops) c ∧
    getSignalData w' c none = .ok 2 ∧ getSignalData w' i none = .ok 1 := by
  let ops : List (Op (Multiplicative ℤ) Nat) :=
    [ .newSignal .analog volt none,
      .newChain "chain" ⟨"src", 0⟩ none,
      .addTransformation 0 ⟨"a", none, some (.analog, .analog)⟩ (some 1) none,
      .addTransformation 0 ⟨"b", none, some (.analog, .analog)⟩ (some 2) (some "src") ]
  refine ⟨ops, 0, 1, _, rfl, ?_, rfl, rfl⟩
  rintro ⟨i, w', h, h'⟩
  cases h
  have : ("a" : String) = "b" := congrArg (fun o : Option (Chain (Multiplicative ℤ)) =>
    match o with | some c => c.prev | none => "") h'
  exact absurd this (by decide)

/-- equal outcome for two chains: same result, same signals and graphs, same record of the chain -/
def SameOutcome (c i : Nat) (x y : Res MErr (World U D) Unit) : Prop :=
  (∀ e, (∃ s, x = .err e s) ↔ ∃ s, y = .err e s) ∧ x.state.sigs = y.state.sigs ∧
  x.state.graphs = y.state.graphs ∧ x.state.chains[c]? = y.state.chains[i]?

theorem SameOutcome.err {w : World U D} {c i : Nat} {e : MErr} (h : w.chains[c]? = w.chains[i]?) :
    SameOutcome c i (.err e w) (.err e w) := ⟨fun _ => Iff.rfl, rfl, rfl, h⟩

theorem chainGraph_congr {w : World U D} {c i : Nat} (h : w.chains[c]? = w.chains[i]?) :
    w.chainGraph c = w.chainGraph i := by
  unfold World.chainGraph; rw [h]

theorem addTransformation_same {w : World U D} {c i : Nat} (h : w.chains[c]? = w.chains[i]?)
    (tr : Transformation U) (d : Option D) (input : Option String) :
    SameOutcome c i (addTransformation c tr d input w) (addTransformation i tr d input w) := by
  unfold addTransformation
  rw [Py.get_bind, Py.get_bind, chainGraph_congr h]
  cases h1 : w.chainGraph i with
  | error e => exact .err h
  | ok p =>
    obtain ⟨ch, g⟩ := p
    obtain ⟨hi, hg⟩ := chainGraph_ok.1 h1
    simp only [Py.lift_ok_bind]
    cases h2 : checkNode ch g input with
    | error e => exact .err h
    | ok n =>
      simp only [Py.lift_ok_bind]
      cases h3 : w.signalAt g n with
      | error e => exact .err h
      | ok p =>
        obtain ⟨r, s⟩ := p
        simp only [Py.lift_ok_bind]
        cases h4 : determineOutput tr s d with
        | error e => exact .err h
        | ok out =>
          simp only [Py.lift_ok_bind]
          by_cases hf : tr.name ∈ Dict.keys g.nodes
          · simp only [if_pos hf]; exact .err h
          · simp only [if_neg hf]
            refine ⟨fun e => ⟨?_, ?_⟩, rfl, rfl, ?_⟩
            · rintro ⟨_, hx⟩; cases hx
            · rintro ⟨_, hx⟩; cases hx
            · have hc := h.trans hi
              simp [Res.state, lt_of_getElem? hc, lt_of_getElem? hi]

/-- **C31.** Two chain objects with the same content (as after a successful round trip) behave the same:
every query returns the same, and every call on one of them has the same outcome as on the other. -/
theorem C31_same_behaviour [UnitSystem U] {w : World U D} {c i : Nat} (h : w.chains[c]? = w.chains[i]?) :
    (∀ n, getSignal w c n = getSignal w i n) ∧ (∀ n, getSignalData w c n = getSignalData w i n) ∧
    (∀ n, getTransformation w c n = getTransformation w i n) ∧ (∀ n, getEquipment w c n = getEquipment w i n) ∧
    (transformationNames w c = transformationNames w i) ∧
    (∀ d s, SameOutcome c i (addSignalData c d s w) (addSignalData i d s w)) ∧
    (∀ tr d s, SameOutcome c i (addTransformation c tr d s w) (addTransformation i tr d s w)) ∧
    (∀ n t u f d s, SameOutcome c i (createTransformation c n t u f d s w) (createTransformation i n t u f d s w)) := by
  have hcg := chainGraph_congr h
  refine ⟨fun n => ?_, fun n => ?_, fun n => ?_, fun n => ?_, ?_, fun d s => ?_, fun tr d s => ?_,
    fun nm t u f d s => ?_⟩
  · simp only [getSignal, hcg]
  · simp only [getSignalData, hcg]
  · simp only [getTransformation, hcg]
  · simp only [getEquipment, hcg]
  · simp only [transformationNames, hcg]
  · rcases addSignalData_cases i d s w with ⟨e, he⟩ | ⟨ch, g, n, r, sg, hc, hg, hn, hr, hs, hd, hw⟩
    · have : addSignalData c d s w = addSignalData i d s w := by
        unfold addSignalData; rw [Py.get_bind, Py.get_bind, hcg]
      rw [this, he]; exact .err h
    · have : addSignalData c d s w = addSignalData i d s w := by
        unfold addSignalData; rw [Py.get_bind, Py.get_bind, hcg]
      rw [this, hw]
      exact ⟨fun e => ⟨fun hx => (by obtain ⟨_, hx⟩ := hx; cases hx), fun hx => (by obtain ⟨_, hx⟩ := hx; cases hx)⟩, rfl, rfl, h⟩
  · exact addTransformation_same h tr d s
  · unfold createTransformation
    rw [Py.get_bind, Py.get_bind, hcg]
    cases h1 : w.chainGraph i with
    | error e => exact .err h
    | ok p =>
      obtain ⟨ch, g⟩ := p
      simp only [Py.lift_ok_bind]
      cases h2 : checkNode ch g s with
      | error e => exact .err h
      | ok n =>
        simp only [Py.lift_ok_bind]
        cases h3 : w.signalAt g n with
        | error e => exact .err h
        | ok p =>
          obtain ⟨r, sg⟩ := p
          simp only [Py.lift_ok_bind]
          have fin : ∀ (f' : Option (Func U)) (a b : Char), SameOutcome c i
              ((do let tr ← Py.lift (mkTransformation nm f' (some [a, b]))
                   addTransformation c tr d (some n) : Py MErr (World U D) Unit) w)
              ((do let tr ← Py.lift (mkTransformation nm f' (some [a, b]))
                   addTransformation i tr d (some n) : Py MErr (World U D) Unit) w) := by
            intro f' a b
            cases hm : mkTransformation nm f' (some [a, b]) with
            | error e => exact .err h
            | ok tr => exact addTransformation_same h tr d (some n)
          cases ha : sg.ty.chars.head? with
          | none => exact .err h
          | some a =>
          cases hb : (t.getD sg.ty.chars).head? with
          | none => exact .err h
          | some b =>
          dsimp only
          cases u with
          | none => exact fin f a b
          | some u =>
            cases f with
            | none => exact fin _ a b
            | some f0 =>
              dsimp only
              cases hv : determineUnit (some f0) sg.units with
              | error e => exact .err h
              | ok v =>
                simp only [Py.lift_ok_bind]
                by_cases hcomp : UnitSystem.compatible u v = true
                · simp only [if_pos hcomp]; exact fin _ a b
                · simp only [if_neg hcomp]; exact .err h

end Weldx.Meas
