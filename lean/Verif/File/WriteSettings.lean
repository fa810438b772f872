import Mathlib.Data.List.Basic
import Mathlib.Tactic.Use

/-!
# The settings of written files (C119)

Source: `/repo/weldx/asdf/file.py` 237-247 (the settings in `WeldxFile.__init__`), 365-377 (`_config_context`), 379-402 (`_write_tree`),
518-546 (`close`, `sync`), 798-808 (`copy`), 846-893 (`write_to`).

The model returns the keyword arguments and the threshold with which `asdf` writes a file. Simplifications: `libDefault` is the list of
arguments and defaults in the docstring of `write_to`, other arguments of `asdf` are left out; what `asdf` does with the settings is not
modelled; `config_context` of `asdf` makes a copy of the options and drops it at the end, also after an exception; the options are a
dictionary, which can have any key.
-/

namespace Weldx.WriteSettings

/-! ### model -/

/-- values of settings -/
inductive Value
  | none
  | text (s : String)
  | bool (b : Bool)
  | num (n : ℕ)
  deriving DecidableEq

/-- keyword arguments; the keys are different -/
abbrev Kw := List (String × Value)

/-- the options in `asdf.config` -/
abbrev Config := String → Option Value

/-- the arguments of the library and their defaults, `file.py` 866-873 -/
def libDefault (k : String) : Value :=
  if k = "all_array_compression" then .text "input"
  else if k = "pad_blocks" then .bool false
  else if k = "include_block_index" then .bool true
  else .none

def thresholdKey : String := "array_inline_threshold"

/-- what the library gets: keyword arguments and the threshold in the options -/
structure Call where
  passed : Kw
  threshold : Option Value

/-- the value of an argument of the library -/
def Call.effective (c : Call) (k : String) : Value := (c.passed.lookup k).getD (libDefault k)

/-- `_write_kwargs` and `_array_inline_threshold` -/
structure Settings where
  writeKw : Kw
  threshold : Value

/-- the constructor, `file.py` 237-247 -/
def construct (writeKwargs : Option Kw) (compression threshold : Value) : Settings where
  writeKw := match writeKwargs with
    | Option.none => [("all_array_compression", compression)]
    | some kw => kw
  threshold := threshold

/-- the options inside of the context, `file.py` 368-376 -/
def options (s : Settings) (kw : Kw) (cfg : Config) : Config :=
  let kw := match kw.lookup thresholdKey with
    | Option.none | some .none => (thresholdKey, s.threshold) :: kw
    | some _ => kw
  fun k => match kw.lookup k with
    | Option.none => cfg k
    | some v => some v

/-- `_config_context`, `file.py` 365-377: the options at the end, and the result of the block -/
def withOptions {R : Type} (s : Settings) (kw : Kw) (cfg : Config) (body : Config → R) : Config × R := (cfg, body (options s kw cfg))

/-- `_write_tree`, `file.py` 379-402; the same arguments are used for new and for existing files -/
def create (s : Settings) (cfg : Config) : Config × Call := withOptions s [] cfg fun c => ⟨s.writeKw, c thresholdKey⟩

/-- the named arguments of `sync`, `file.py` 529-536 -/
def syncNames : List String := ["all_array_storage", "all_array_compression", "pad_blocks", "include_block_index", "version"]

/-- their defaults, `file.py` 529-536 -/
def syncDefault (k : String) : Value :=
  if k = "all_array_compression" then .text "input"
  else if k = "pad_blocks" then .bool false
  else if k = "include_block_index" then .bool true
  else .none

/-- `sync`, `file.py` 529-546: named arguments go to the library, all others become options -/
def sync (s : Settings) (args : Kw) (cfg : Config) : Config × Call :=
  withOptions s (args.filter fun a => a.1 ∉ syncNames) cfg fun c =>
    ⟨syncNames.map fun k => (k, (args.lookup k).getD (syncDefault k)), c thresholdKey⟩

/-- the writing in `close`, `file.py` 518-521 -/
def close (s : Settings) (cfg : Config) : Config × Call := sync s s.writeKw cfg

/-- `write_to`, `file.py` 846-893 -/
def writeTo (s : Settings) (threshold : Value) (args : Kw) (cfg : Config) : Config × Call :=
  let args := if args.isEmpty then s.writeKw else args
  withOptions s [(thresholdKey, threshold)] cfg fun c => ⟨args, c thresholdKey⟩

/-- `copy`, `file.py` 798-808: the writing, and the settings of the new file -/
def copy (s : Settings) (cfg : Config) : (Config × Call) × Settings :=
  (writeTo s .none [] cfg, construct (some s.writeKw) (.text "input") s.threshold)

/-! ### specification -/

/-- the arguments of `AsdfFile.update` -/
def Named (k : String) : Prop :=
  k = "all_array_storage" ∨ k = "all_array_compression" ∨ k = "pad_blocks" ∨ k = "include_block_index" ∨ k = "version"

/-- the value that an argument should have: the one of the call, or else the one of the constructor, or else the default of the library -/
inductive Wanted (s : Settings) (args : Kw) (k : String) : Value → Prop
  | call {v} : args.lookup k = some v → Wanted s args k v
  | file {v} : args.lookup k = Option.none → s.writeKw.lookup k = some v → Wanted s args k v
  | library : args.lookup k = Option.none → s.writeKw.lookup k = Option.none → Wanted s args k (libDefault k)

/-! ### lemmas -/

theorem mem_syncNames (k : String) : k ∈ syncNames ↔ Named k := by simp [syncNames, Named]

theorem wanted_iff (s : Settings) (args : Kw) (k : String) (v : Value) :
    Wanted s args k v ↔ v = (args.lookup k).getD ((s.writeKw.lookup k).getD (libDefault k)) := by
  constructor
  · rintro (h | ⟨h, h'⟩ | ⟨h, h'⟩) <;> simp [*]
  · rintro rfl
    cases h : args.lookup k with
    | some v => exact .call h
    | none => cases h' : s.writeKw.lookup k with
      | some v => exact .file h h'
      | none => exact .library h h'

theorem lookup_names (f : String → Value) {k : String} : ∀ {l : List String}, k ∈ l → (l.map fun k => (k, f k)).lookup k = some (f k)
  | a :: l, h => by
    rw [List.map_cons, List.lookup_cons]
    by_cases ha : k = a
    · subst ha; simp
    · have : (k == a) = false := by simpa using ha
      rw [this]
      exact lookup_names f ((List.mem_cons.1 h).resolve_left ha)

theorem sync_effective (s : Settings) (args : Kw) (cfg : Config) {k : String} (hk : k ∈ syncNames) :
    (sync s args cfg).2.effective k = (args.lookup k).getD (libDefault k) := by
  show ((syncNames.map fun k => (k, (args.lookup k).getD (syncDefault k))).lookup k).getD _ = _
  rw [lookup_names _ hk]
  rfl

theorem getD_eq_getD (o : Option Value) (a b : Value) : o.getD a = o.getD b ↔ o ≠ Option.none ∨ a = b := by cases o <;> simp

theorem default_eq (s : Settings) (k : String) : libDefault k = (s.writeKw.lookup k).getD (libDefault k) ↔
    ∀ v, s.writeKw.lookup k = some v → v = libDefault k := by
  cases s.writeKw.lookup k with
  | none => simp
  | some v => simp [eq_comm]

/-! ### theorems -/

/-- **C119, constructor.** A new file is written with the settings of the constructor. -/
theorem C119_create (s : Settings) (cfg : Config) (k : String) : Wanted s [] k ((create s cfg).2.effective k) ∧
    (create s cfg).2.threshold = some s.threshold := by
  refine ⟨(wanted_iff ..).2 rfl, ?_⟩
  simp [create, withOptions, options]

/-- **C119, `close`.** The named arguments of `sync` are those of the constructor. All others are not passed to the library. -/
theorem C119_close (s : Settings) (cfg : Config) (k : String) : (Named k → Wanted s [] k ((close s cfg).2.effective k)) ∧
    (¬ Named k → (close s cfg).2.effective k = libDefault k) := by
  rw [← mem_syncNames]
  refine ⟨fun hk => (wanted_iff ..).2 (sync_effective s _ cfg hk), fun hk => ?_⟩
  have : (close s cfg).2.passed.lookup k = Option.none := by
    rw [List.lookup_eq_none_iff]
    intro a ha
    obtain ⟨b, hb, rfl⟩ := List.mem_map.1 ha
    simp only [bne_iff_ne, ne_eq]
    rintro rfl
    exact hk hb
  unfold Call.effective
  rw [this]
  rfl

/-- **C119, `sync`.** An argument is as wanted exactly if it is given in the call or the constructor does not change the default. -/
theorem C119_sync (s : Settings) (args : Kw) (cfg : Config) {k : String} (hk : Named k) :
    Wanted s args k ((sync s args cfg).2.effective k) ↔ args.lookup k ≠ Option.none ∨ ∀ v, s.writeKw.lookup k = some v → v = libDefault k := by
  rw [wanted_iff, sync_effective s args cfg ((mem_syncNames k).2 hk), getD_eq_getD, default_eq]

/-- **C119, `write_to`.** An argument is as wanted exactly if it is given in the call, no argument at all is given, or the constructor does not
change the default. -/
theorem C119_write_to (s : Settings) (thr : Value) (args : Kw) (cfg : Config) (k : String) :
    Wanted s args k ((writeTo s thr args cfg).2.effective k) ↔
      args.lookup k ≠ Option.none ∨ args = [] ∨ ∀ v, s.writeKw.lookup k = some v → v = libDefault k := by
  rw [wanted_iff]
  cases args with
  | nil => exact iff_of_true rfl (.inr (.inl rfl))
  | cons a l =>
    show ((a :: l).lookup k).getD (libDefault k) = _ ↔ _
    rw [getD_eq_getD, default_eq]
    simp

/-- **C119, `copy`.** The copy is written with the settings of the constructor, and has the same settings. -/
theorem C119_copy (s : Settings) (cfg : Config) (k : String) : Wanted s [] k ((copy s cfg).1.2.effective k) ∧ (copy s cfg).2 = s ∧
    (copy s cfg).1.2.threshold = some s.threshold := by
  refine ⟨(C119_write_to s .none [] cfg k).2 (.inr (.inl rfl)), rfl, ?_⟩
  simp [copy, writeTo, withOptions, options]

theorem lookup_filter (args : Kw) : (args.filter fun a => a.1 ∉ syncNames).lookup thresholdKey = args.lookup thresholdKey := by
  induction args with
  | nil => rfl
  | cons a l ih =>
    obtain ⟨k, v⟩ := a
    by_cases hk : k ∈ syncNames
    · rw [List.filter_cons_of_neg (by simpa using hk), ih, List.lookup_cons]
      have : (thresholdKey == k) = false := by
        rw [beq_eq_false_iff_ne]
        rintro rfl
        exact absurd hk (by simp [thresholdKey, syncNames])
      rw [this]
    · rw [List.filter_cons_of_pos (by simpa using hk), List.lookup_cons, List.lookup_cons, ih]

theorem options_threshold (s : Settings) (kw : Kw) (cfg : Config) : options s kw cfg thresholdKey =
    match kw.lookup thresholdKey with
    | Option.none | some .none => some s.threshold
    | some v => some v := by
  unfold options
  cases h : kw.lookup thresholdKey with
  | none => simp
  | some v => cases v <;> simp [h]

/-- **C119, threshold.** The threshold of `sync` and `write_to` is the one of the call, and the one of the constructor if the call has none or
`None`. The options of the library are the same as before after each method. -/
theorem C119_threshold (s : Settings) (cfg : Config) (args : Kw) (thr : Value) :
    ((sync s args cfg).2.threshold = match args.lookup thresholdKey with
      | Option.none | some .none => some s.threshold
      | some v => some v) ∧
    ((writeTo s thr args cfg).2.threshold = if thr = .none then some s.threshold else some thr) ∧
    (create s cfg).1 = cfg ∧ (close s cfg).1 = cfg ∧ (sync s args cfg).1 = cfg ∧ (writeTo s thr args cfg).1 = cfg := by
  refine ⟨?_, ?_, rfl, rfl, rfl, rfl⟩
  · show options s _ cfg thresholdKey = _
    rw [options_threshold, lookup_filter]
  · show options s _ cfg thresholdKey = _
    rw [options_threshold]
    cases thr <;> simp

/-- **C119 is false.** The file is created with a compression. `sync` without arguments does not use it, and neither does `write_to` with
another argument. An argument of the constructor that `sync` does not name is lost when the file is closed. -/
theorem C119_counterexample (t : Value) (cfg : Config) {v : Value} (hv : v ≠ .text "input") {w : Value} (hw : w ≠ .none) (p : Value)
    {s₁ s₂ : Settings} (h₁ : s₁ = construct Option.none v t) (h₂ : s₂ = construct (some [("auto_inline", w)]) v t) :
    ((create s₁ cfg).2.effective "all_array_compression" = v ∧
      ¬ Wanted s₁ [] "all_array_compression" ((sync s₁ [] cfg).2.effective "all_array_compression") ∧
      ¬ Wanted s₁ [("pad_blocks", p)] "all_array_compression"
        ((writeTo s₁ .none [("pad_blocks", p)] cfg).2.effective "all_array_compression")) ∧
    ((create s₂ cfg).2.effective "auto_inline" = w ∧ ¬ Wanted s₂ [] "auto_inline" ((close s₂ cfg).2.effective "auto_inline")) := by
  subst h₁ h₂
  refine ⟨⟨rfl, ?_, ?_⟩, rfl, ?_⟩
  · rw [C119_sync _ _ _ (by simp [Named])]
    rintro (h | h)
    · exact h rfl
    · exact hv (h v rfl)
  · rw [C119_write_to]
    rintro (h | h | h)
    · exact h rfl
    · cases h
    · exact hv (h v rfl)
  · rw [(C119_close _ cfg _).2 (by simp [Named]), wanted_iff]
    exact fun h => hw h.symm

/-- the hypotheses hold: a file with compression that is closed and copied, and saved with the default compression by `sync` -/
example (cfg : Config) : let s := construct Option.none (.text "zlib") (.num 10)
    (close s cfg).2.effective "all_array_compression" = .text "zlib" ∧ (copy s cfg).1.2.effective "all_array_compression" = .text "zlib" ∧
    (sync s [] cfg).2.effective "all_array_compression" = .text "input" ∧
    (sync s [(thresholdKey, .num 3)] cfg).2.threshold = some (.num 3) := by
  refine ⟨?_, rfl, ?_, ?_⟩
  · exact sync_effective _ _ _ (by simp [syncNames])
  · exact sync_effective _ _ _ (by simp [syncNames])
  · rw [(C119_threshold _ _ _ .none).1]
    simp

example (cfg : Config) (t : Value) := C119_counterexample t cfg (v := .text "zlib") (by simp) (w := .num 5) (by simp) (.bool true) rfl rfl

end Weldx.WriteSettings
