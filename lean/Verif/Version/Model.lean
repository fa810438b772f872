import Mathlib.Data.List.Lex
import Mathlib.Data.Char
import Mathlib.Data.Prod.Lex
import Verif.Base.Dict

/-!
# Versions of tags and of quality standards (C39, C55)

Source: `/repo/weldx/asdf/util.py` 544-588 (`get_highest_tag_version`), `/repo/weldx/asdf/types.py` 99-100 (`select_tag`),
`/repo/weldx/config.py` 20-72 (`QualityStandard.__init__`), 103-134 (`get_mappings`).

Simplifications: strings are lists of characters; a `packaging.version.Version` is its release part (numbers separated by points;
no pre-release, no local version, no leading `v`); the pattern is a predicate on tags; the files of a quality standard are their
name, version and parsed content.
-/

namespace Weldx.Ver

/-- the exceptions -/
inductive Err
  | invalidVersion | valueError | keyError
deriving DecidableEq

/-- characters up to the last `-` and after it, if there is one -/
def rpart? : List Char → Option (List Char × List Char)
  | [] => none
  | c :: t =>
    match rpart? t with
    | some (a, b) => some (c :: a, b)
    | none => if c = '-' then some ([], t) else none

/-- `t.rpartition("-")`: first and last component -/
def rpartition (s : List Char) : List Char × List Char := (rpart? s).getD ([], s)

/-- the value of a string of digits -/
def number? (s : List Char) : Option ℕ :=
  if s ≠ [] ∧ ∀ c ∈ s, c.isDigit then some (s.foldl (fun n c => 10 * n + (c.toNat - 48)) 0) else none

/-- `s.split(".")` -/
def splitPoints : List Char → List (List Char)
  | [] => [[]]
  | c :: t =>
    if c = '.' then [] :: splitPoints t
    else
      match splitPoints t with
      | [] => [[c]]
      | h :: r => (c :: h) :: r

/-- all elements, if there are all -/
def allSome {α : Type} : List (Option α) → Option (List α)
  | [] => some []
  | none :: _ => none
  | some a :: t => (allSome t).map (a :: ·)

/-- `Version(text)`: `none` is `InvalidVersion` -/
def version? (s : List Char) : Option (List ℕ) := allSome ((splitPoints s).map number?)

/-- the sort key of a `Version`: the numbers without trailing zeros (packaging `_cmpkey`) -/
def key : List ℕ → List ℕ
  | [] => []
  | x :: t => if x = 0 ∧ key t = [] then [] else x :: key t

/-- the version of a tag -/
def tagVersion? (t : List Char) : Option (List ℕ) := version? (rpartition t).2

/-- the sort key of a tag; tags without version do not occur when this is used -/
def tagKey (t : List Char) : List ℕ := key ((tagVersion? t).getD [])

/-- util.py 575-588 `get_highest_tag_version` -/
def highest (pattern : List Char → Bool) (all : List (List Char)) : Except Err (Option (List Char)) :=
  if all.filter pattern = [] then .ok none
  else if ∃ t ∈ all.filter pattern, tagVersion? t = none then .error .invalidVersion
  else
    match ((all.filter pattern).mergeSort fun a b => tagKey a ≤ tagKey b).getLast? with
    | none => .ok none
    | some top =>
      if ∀ t ∈ all.filter pattern, (rpartition top).1 <+: t then .ok (some top) else .error .valueError

/-- types.py 99-100 `select_tag`: `sorted(tags)[-1]` -/
def selectTag (tags : List (List Char)) : Option (List Char) := (tags.mergeSort fun a b => a ≤ b).getLast?

/-! ## Quality standards -/

/-- a version of `asdf.versioning` with three numbers; compared lexicographically -/
abbrev V3 := ℕ ×ₗ ℕ ×ₗ ℕ

/-- a manifest file: name of the standard, version, and what is stored for it (`manifest_file_mapping`, `schema_file_mapping`) -/
structure Manifest (C : Type) where
  name : String
  version : V3
  content : C

/-- `QualityStandard` -/
structure Standard (C : Type) where
  name : Option String
  maxVersion : Option V3
  versions : List (V3 × C)

/-- config.py 48-72: one step of the loop over the manifest files -/
def Standard.add {C : Type} (s : Standard C) (m : Manifest C) : Except Err (Standard C) :=
  match s.name, s.maxVersion with
  | some n, some v =>
    if m.name ≠ n then .error .valueError
    else .ok ⟨some n, some (if v < m.version then m.version else v), Dict.set s.versions m.version m.content⟩
  | _, _ => .ok ⟨some m.name, some m.version, Dict.set s.versions m.version m.content⟩

/-- the loop -/
def Standard.addAll {C : Type} (s : Standard C) : List (Manifest C) → Except Err (Standard C)
  | [] => .ok s
  | m :: t =>
    match s.add m with
    | .error e => .error e
    | .ok s' => s'.addAll t

/-- config.py 20-72: the constructor -/
def Standard.create {C : Type} (ms : List (Manifest C)) : Except Err (Standard C) := Standard.addAll ⟨none, none, []⟩ ms

/-- config.py 118-123: the content for a requested version; `none` requests the latest one -/
def Standard.getMappings {C : Type} (s : Standard C) (v : Option V3) : Except Err C :=
  match v.or s.maxVersion with
  | none => .error .keyError
  | some w =>
    match Dict.get? s.versions w with
    | none => .error .keyError
    | some c => .ok c

end Weldx.Ver
