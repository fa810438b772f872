import Mathlib.Tactic.Common
import Mathlib.Data.List.Basic

/-!
# Hashes of external files (C41)

Source: `/repo/weldx/util/external_file.py` 66-99 (`calculate_hash`), 101-110 (`get_file_content`);
`/repo/weldx/tags/core/file.py` 24-47 (`to_yaml_tree`), 49-69 (`from_yaml_tree`).

Simplifications: a hash algorithm of `hashlib` is a machine that reads the bytes one after the other; `algs name` is
`hash_mapping[name.upper()]`; of the attributes only those about the content are kept; the file on disk is its content at the time of the call; the
conversion of the content to an array of `uint8` and back is the identity.
-/

namespace Weldx.File

/-- a `hashlib` object: state, step for one byte, and `hexdigest` -/
structure Hash where
  State : Type
  init : State
  byte : State → UInt8 → State
  digest : State → String

/-- `hashing_class.update(data)` -/
def Hash.update (h : Hash) (s : h.State) (data : List UInt8) : h.State := data.foldl h.byte s

/-- the hash of a sequence of bytes -/
def Hash.of (h : Hash) (data : List UInt8) : String := h.digest (h.update h.init data)

/-- `file.read(n)`: at most `n` bytes, all bytes if `n` is negative; the second component is the rest -/
def readN (n : Int) (s : List UInt8) : List UInt8 × List UInt8 :=
  if n < 0 then (s, []) else (s.take n.toNat, s.drop n.toNat)

theorem readN_eq (n : Int) (s : List UInt8) : (readN n s).1 ++ (readN n s).2 = s := by
  unfold readN
  split <;> simp

theorem readN_pos {n : Int} {s : List UInt8} (h : (readN n s).1 ≠ []) : (readN n s).2.length < s.length := by
  have := congrArg List.length (readN_eq n s)
  rw [List.length_append] at this
  have := List.length_pos_iff.2 h
  omega

/-- external_file.py 93-98: the loop that reads chunks -/
def hashLoop (h : Hash) (n : Int) (st : h.State) (s : List UInt8) : h.State :=
  if hd : (readN n s).1 = [] then st else hashLoop h n (h.update st (readN n s).1) (readN n s).2
termination_by s.length
decreasing_by exact readN_pos hd

/-- `calculate_hash` of a file -/
def hashFile (h : Hash) (n : Int) (s : List UInt8) : String := h.digest (hashLoop h n h.init s)

/-- the exceptions -/
inductive Err
  | keyError | weldxException | fileError
deriving DecidableEq

/-- an `ExternalFile`: the content of the file at `path` (if the path is set), the buffer, the hash and the algorithm -/
structure ExtFile where
  path : Option (List UInt8)
  buffer : Option (List UInt8)
  hash : Option String
  algorithm : String
  saveContent : Bool

/-- the parts of the tree about the content -/
structure Node where
  content : Option (List UInt8)
  contentHash : Option (String × String)

/-- `hash_mapping[algorithm.upper()]` for a buffer -/
def hashBuffer (algs : String → Option Hash) (alg : String) (s : List UInt8) : Except Err String :=
  match algs alg with
  | none => .error .keyError
  | some h => .ok (h.of s)

/-- `hash_mapping[algorithm.upper()]` for a path, with the default chunk size -/
def hashPath (algs : String → Option Hash) (alg : String) (s : List UInt8) : Except Err String :=
  match algs alg with
  | none => .error .keyError
  | some h => .ok (hashFile h 65536 s)

/-- file.py 34-37: the buffer after the content has been read for saving -/
def savedBuffer (f : ExtFile) : Except Err (Option (List UInt8)) :=
  if f.saveContent then
    match f.buffer with
    | some b => .ok (some b)
    | none =>
      match f.path with
      | none => .error .fileError
      | some s => .ok (some s)
  else .ok f.buffer

/-- file.py 39-43: the hash that is stored -/
def storedHash (algs : String → Option Hash) (f : ExtFile) (buffer : Option (List UInt8)) : Except Err (Option String) :=
  match buffer with
  | some b =>
    match hashBuffer algs f.algorithm b with
    | .error e => .error e
    | .ok v => .ok (some v)
  | none =>
    match f.hash, f.path with
    | none, some s =>
      match hashPath algs f.algorithm s with
      | .error e => .error e
      | .ok v => .ok (some v)
    | v, _ => .ok v

/-- file.py 24-47 `to_yaml_tree` -/
def toTree (algs : String → Option Hash) (f : ExtFile) : Except Err Node :=
  match savedBuffer f with
  | .error e => .error e
  | .ok b =>
    match storedHash algs f b with
    | .error e => .error e
    | .ok v => .ok ⟨if f.saveContent then b else none, v.map fun v => (f.algorithm, v)⟩

/-- file.py 49-69 `from_yaml_tree`; the algorithm of a file without hash is the default of the class -/
def fromTree (algs : String → Option Hash) (n : Node) : Except Err ExtFile :=
  match n.content with
  | none =>
    match n.contentHash with
    | none => .ok ⟨none, none, none, "SHA-256", false⟩
    | some (a, v) => .ok ⟨none, none, some v, a, false⟩
  | some b =>
    match n.contentHash with
    | none => .error .keyError
    | some (a, v) =>
      match hashBuffer algs a b with
      | .error e => .error e
      | .ok w => if w ≠ v then .error .weldxException else .ok ⟨none, some b, some v, a, false⟩

/-! ## C41 -/

theorem update_append (h : Hash) (s : h.State) (a b : List UInt8) : h.update (h.update s a) b = h.update s (a ++ b) := by
  simp [Hash.update]

theorem hashLoop_spec (h : Hash) {n : Int} (hn : n ≠ 0) (st : h.State) (s : List UInt8) :
    hashLoop h n st s = h.update st s := by
  induction hl : s.length using Nat.strongRecOn generalizing s st with
  | ind len ih =>
    subst hl
    rw [hashLoop]
    split
    · rename_i hd
      have hs : s = [] := by
        unfold readN at hd
        split at hd
        · exact hd
        · cases s with
          | nil => rfl
          | cons b t =>
            obtain ⟨k, hk⟩ : ∃ k, n.toNat = k + 1 := ⟨n.toNat - 1, by omega⟩
            rw [hk] at hd
            simp at hd
      subst hs
      rfl
    · rename_i hd
      rw [ih _ (readN_pos hd) _ _ rfl, update_append, readN_eq]

/-- **C41** (chunks): for every chunk size except zero the hash of a file is the hash of its whole content, as it is calculated for
a buffer. -/
theorem C41_chunks (h : Hash) {n : Int} (hn : n ≠ 0) (s : List UInt8) : hashFile h n s = h.of s := by
  unfold hashFile Hash.of
  rw [hashLoop_spec h hn]

/-- **C41** (chunk size zero): nothing is read, all files have the hash of the empty file. -/
theorem C41_chunk_zero (h : Hash) (s : List UInt8) : hashFile h 0 s = h.of [] := by
  unfold hashFile Hash.of
  rw [hashLoop, dif_pos (by simp [readN])]
  rfl

/-- **C41** (reading): a tree with content is read only if it has a hash and this is the hash of the content; the buffer is then the
content. All other trees with content raise. -/
theorem C41_read {algs : String → Option Hash} {n : Node} {b : List UInt8} (hb : n.content = some b) :
    (∀ f, fromTree algs n = .ok f →
      ∃ a v h, n.contentHash = some (a, v) ∧ algs a = some h ∧ h.of b = v ∧ f.buffer = some b ∧ f.hash = some v) ∧
    ∀ a v h, n.contentHash = some (a, v) → algs a = some h →
      fromTree algs n = if h.of b = v then .ok ⟨none, some b, some v, a, false⟩ else .error .weldxException := by
  constructor
  · intro f hf
    simp only [fromTree, hb] at hf
    rcases hc : n.contentHash with _ | ⟨a, v⟩
    · rw [hc] at hf; cases hf
    · rw [hc] at hf
      simp only [hashBuffer] at hf
      cases ha : algs a with
      | none => rw [ha] at hf; cases hf
      | some h =>
        rw [ha] at hf
        simp only at hf
        split at hf
        · cases hf
        · rename_i hw
          cases hf
          exact ⟨a, v, h, rfl, ha, not_not.1 hw, rfl, rfl⟩
  · intro a v h hc ha
    simp only [fromTree, hb, hc, hashBuffer, ha]
    by_cases hw : h.of b = v <;> simp [hw]

/-- **C41** (changed content): content that has a different hash than the content that was written is not read. -/
theorem C41_changed {algs : String → Option Hash} {f : ExtFile} {n : Node} {b b' : List UInt8} {h : Hash}
    (hw : toTree algs f = .ok n) (hb : n.content = some b) (ha : algs f.algorithm = some h) (hne : h.of b' ≠ h.of b) :
    fromTree algs ⟨some b', n.contentHash⟩ = .error .weldxException := by
  unfold toTree at hw
  cases hs : savedBuffer f with
  | error e => rw [hs] at hw; cases hw
  | ok c =>
    rw [hs] at hw
    simp only at hw
    cases hv : storedHash algs f c with
    | error e => rw [hv] at hw; cases hw
    | ok v =>
      rw [hv] at hw
      cases hw
      simp only at hb
      split at hb
      · subst hb
        simp only [storedHash, hashBuffer, ha] at hv
        cases hv
        simp [fromTree, hashBuffer, ha, hne]
      · cases hb

/-- **C41** (round trip): a file written with its content can be read, and has the same content and hash as before. -/
theorem C41_roundtrip {algs : String → Option Hash} {f : ExtFile} {h : Hash} {s : List UInt8}
    (hsave : f.saveContent = true) (hs : f.buffer = some s ∨ (f.buffer = none ∧ f.path = some s))
    (ha : algs f.algorithm = some h) :
    ∃ n g, toTree algs f = .ok n ∧ fromTree algs n = .ok g ∧ g.buffer = some s ∧ g.hash = some (h.of s) ∧
      g.algorithm = f.algorithm := by
  have hb : savedBuffer f = .ok (some s) := by
    unfold savedBuffer
    rcases hs with hs | ⟨h1, h2⟩
    · simp [hsave, hs]
    · simp [hsave, h1, h2]
  refine ⟨⟨some s, some (f.algorithm, h.of s)⟩, ⟨none, some s, some (h.of s), f.algorithm, false⟩, ?_, ?_, rfl, rfl, rfl⟩
  · simp only [toTree, hb, storedHash, hashBuffer, ha, hsave]
    rfl
  · simp [fromTree, hashBuffer, ha]

/-- **C41** (old hashes): if the content is not stored and no buffer is present, a hash that the object already has is written as it
is, whatever the file contains now. -/
theorem C41_stale {algs : String → Option Hash} {f : ExtFile} {v : String} (hsave : f.saveContent = false)
    (hb : f.buffer = none) (hv : f.hash = some v) : toTree algs f = .ok ⟨none, some (f.algorithm, v)⟩ := by
  simp [toTree, savedBuffer, storedHash, hsave, hb, hv]

/-! ### Examples -/

/-- the sum of the bytes as hash -/
def sumHash : Hash := ⟨ℕ, 0, fun s b => s + b.toNat, fun s => toString s⟩

/-- the algorithm names -/
def algorithms (name : String) : Option Hash := if name = "SHA-256" then some sumHash else none

example : hashFile sumHash 2 [1, 2, 3, 4, 5] = sumHash.of [1, 2, 3, 4, 5] := C41_chunks _ (by decide) _

example : toTree algorithms ⟨some [1, 2], none, none, "SHA-256", true⟩ =
    .ok ⟨some [1, 2], some ("SHA-256", sumHash.of [1, 2])⟩ := by
  simp [toTree, savedBuffer, storedHash, hashBuffer, algorithms]

/-- **C41** (default chunks): the hash of a file with the default chunk size is the hash of its content. -/
theorem C41_path {algs : String → Option Hash} {a : String} {s : List UInt8} : hashPath algs a s = hashBuffer algs a s := by
  unfold hashPath hashBuffer
  cases algs a with
  | none => rfl
  | some h => simp only [C41_chunks h (show (65536 : Int) ≠ 0 by decide)]

/-- **C41** (without content): the hash and the algorithm are read as they are stored, and nothing is checked. -/
theorem C41_read_hash {algs : String → Option Hash} {n : Node} (hc : n.content = none) :
    ∃ f, fromTree algs n = .ok f ∧ f.buffer = none ∧ f.hash = n.contentHash.map Prod.snd ∧
      f.algorithm = (n.contentHash.map Prod.fst).getD "SHA-256" := by
  obtain ⟨c, h⟩ := n
  simp only at hc
  subst hc
  cases h with
  | none => exact ⟨_, rfl, rfl, rfl, rfl⟩
  | some p => exact ⟨_, rfl, rfl, rfl, rfl⟩

end Weldx.File
