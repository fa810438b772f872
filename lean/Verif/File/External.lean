import Verif.File.Hash
import Mathlib.Data.List.SplitOn
import Mathlib.Data.List.Intervals
import Mathlib.Data.Int.Notation

/-!
# External files: attributes, storage and export (C81)

Source: `/repo/weldx/util/external_file.py` 16-62 (`ExternalFile`, `__post_init__`), 101-131 (`get_file_content`, `write_to`);
`/repo/weldx/tags/core/file.py` 24-69; `/repo/weldx/schemas/weldx.bam.de/weldx/core/file-0.1.0.yaml`.

Simplifications: a path is the list of its parts; an absolute path starts at the root of the file system. Text is a list of characters. The file
system maps absolute paths to files; links do not exist. `mimetypes.guess_type` and the host name belong to the file system. Values `None` are
not written to a file (ASDF). Of the schema the rules about `content_hash.algorithm` and about required properties are modelled. Time stamps
are numbers.
-/

namespace Weldx.File

/-- text -/
abbrev Text := List Char

/-- a path: absolute or not, and its parts -/
structure Path where
  absolute : Bool
  parts : List Text
deriving DecidableEq

/-- `path.name` -/
def Path.name (p : Path) : Text := p.parts.getLast?.getD []

/-- `path.suffixes`: nothing if the name ends with a dot; dots at the start do not count -/
def suffixes (name : Text) : List Text :=
  if name.getLast? = some '.' then [] else ((name.dropWhile (· == '.')).splitOn '.').tail.map ('.' :: ·)

/-- external_file.py 47: `"".join(self.path.suffixes)[1:]` -/
def suffixOf (name : Text) : Text := (suffixes name).flatten.drop 1

/-- a file: content and times -/
structure OnDisk where
  content : List UInt8
  ctime : ℤ
  mtime : ℤ

/-- the file system as seen by the program -/
structure World where
  files : List Text → Option OnDisk
  isDir : List Text → Bool
  cwd : List Text
  host : Text
  mime : Text → Option Text

/-- `path.absolute()` -/
def World.abs (w : World) (p : Path) : List Text := if p.absolute then p.parts else w.cwd ++ p.parts

/-- an `ExternalFile` -/
structure External where
  path : Option Path := none
  filename : Option Text := none
  suffix : Option Text := none
  mimetype : Option Text := none
  directory : Option (List Text) := none
  hostname : Option Text := none
  created : Option ℤ := none
  modified : Option ℤ := none
  size : Option ℕ := none
  algorithm : String := "SHA-256"
  hash : Option String := none
  saveContent : Bool := false
  buffer : Option (List UInt8) := none

/-- the exceptions -/
inductive XErr
  | keyError | weldxException | valueError | attributeError | fileNotFound | validationError
deriving DecidableEq

/-- the keys of `hash_mapping` -/
def supported (a : String) : Bool := a = "MD5" || a = "SHA-256"

/-- 38-62: the attributes if there is a path -/
def External.filled (w : World) (f : External) (p : Path) (d : OnDisk) : External :=
  { f with
    filename := some p.name
    suffix := some (suffixOf p.name)
    directory := some (w.abs ⟨p.absolute, p.parts.dropLast⟩)
    mimetype := w.mime p.name
    hostname := some (f.hostname.getD w.host)
    size := some d.content.length
    created := some d.ctime
    modified := some d.mtime
    algorithm := f.algorithm.toUpper }

/-- 38-62 -/
def External.init (w : World) (f : External) : Except XErr External :=
  match f.path with
  | none => .ok f
  | some p =>
    match w.files (w.abs p) with
    | none => .error .valueError
    | some d => if supported f.algorithm.toUpper then .ok (f.filled w p d) else .error .valueError

/-- 101-110 -/
def External.content (w : World) (f : External) : Except XErr (List UInt8) :=
  match f.path with
  | none => .error .attributeError
  | some p =>
    match w.files (w.abs p) with
    | none => .error .fileNotFound
    | some d => .ok d.content

/-- the name `None` is written as text -/
def fileText : Option Text → Text
  | none => "None".toList
  | some n => n

/-- the parts of `Path(f"{directory}/{filename}")`: empty parts and single dots are left out -/
def target (dir : Path) (name : Text) : Path :=
  ⟨dir.absolute, dir.parts ++ (name.splitOn '/').filter fun p => p ≠ [] ∧ p ≠ ['.']⟩

/-- the operating system follows `..` to the directory above -/
def resolve : List Text → List Text → List Text
  | acc, [] => acc.reverse
  | acc, p :: r => if p = ['.', '.'] then resolve acc.tail r else resolve (p :: acc) r

/-- 121-131 -/
def External.writeTo (w : World) (now : ℤ) (f : External) (dir : Path) : Except XErr World := do
  let b ← match f.buffer with
    | some b => .ok b
    | none => f.content w
  let p := resolve [] (w.abs (target dir (fileText f.filename)))
  if w.isDir p.dropLast ∧ ¬ w.isDir p then
    .ok { w with files := fun q => if q = p then some ⟨b, now, now⟩ else w.files q }
  else .error .fileNotFound

/-- what is written to a file -/
structure FileTree where
  filename : Option Text
  suffix : Option Text
  mimetype : Option Text
  directory : Option (List Text)
  hostname : Option Text
  created : Option ℤ
  modified : Option ℤ
  size : Option ℕ
  content : Option (List UInt8)
  contentHash : Option (String × String)

/-- `hash_mapping[algorithm.upper()]` -/
def mapping (md5 sha : Hash) (a : String) : Option Hash :=
  if a.toUpper = "MD5" then some md5 else if a.toUpper = "SHA-256" then some sha else none

/-- the exceptions of the functions for hashes -/
def ofErr : Err → XErr
  | .keyError => .keyError
  | .weldxException => .weldxException
  | .fileError => .fileNotFound

/-- the attributes about the content; the path is replaced by what is found there -/
def External.part (w : World) (f : External) : ExtFile :=
  ⟨f.path.bind fun p => (w.files (w.abs p)).map OnDisk.content, f.buffer, f.hash, f.algorithm, f.saveContent⟩

/-- file.py 24-47. The file is read if the content is saved without buffer, or if there is a path and no buffer and no hash. -/
def External.toTree (md5 sha : Hash) (w : World) (f : External) : Except XErr FileTree :=
  if f.saveContent = true ∧ f.buffer = none ∧ f.path = none then .error .attributeError
  else if f.buffer = none ∧ (f.saveContent = true ∨ f.hash = none) ∧ (∃ p, f.path = some p ∧ w.files (w.abs p) = none) then
    .error .fileNotFound
  else match File.toTree (mapping md5 sha) (f.part w) with
    | .error e => .error (ofErr e)
    | .ok n => .ok ⟨f.filename, f.suffix, f.mimetype, f.directory, f.hostname, f.created, f.modified, f.size, n.content, n.contentHash⟩

/-- the rules of the schema -/
def FileTree.valid (t : FileTree) : Prop :=
  (∀ c, t.contentHash = some c → c.1 = "MD5" ∨ c.1 = "SHA-256") ∧
    ((t.filename.isSome ∧ t.content.isSome ∧ t.contentHash.isSome) ∨ (t.filename.isSome ∧ t.hostname.isSome))

/-- file.py 49-69 -/
def External.ofTree (md5 sha : Hash) (w : World) (t : FileTree) : Except XErr External :=
  match File.fromTree (mapping md5 sha) ⟨t.content, t.contentHash⟩ with
  | .error e => .error (ofErr e)
  | .ok g =>
    External.init w
      { filename := t.filename
        suffix := t.suffix
        mimetype := t.mimetype
        directory := t.directory
        hostname := t.hostname
        created := t.created
        modified := t.modified
        size := t.size
        algorithm := g.algorithm
        hash := g.hash
        buffer := g.buffer }

open Classical in
/-- writing checks the schema -/
noncomputable def External.save (md5 sha : Hash) (w : World) (f : External) : Except XErr FileTree :=
  match f.toTree md5 sha w with
  | .error e => .error e
  | .ok t => if t.valid then .ok t else .error .validationError

end Weldx.File
