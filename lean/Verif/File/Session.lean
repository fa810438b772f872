import Mathlib.Logic.Function.Basic
import Mathlib.Tactic.Common

/-!
# Opening, changing, saving and copying files: `weldx.WeldxFile` (C63)

Source: `/repo/weldx/asdf/file.py` 218-306 (`__init__`), 308-336 (`_handle_file_input`), 338-362 (`_handle_custom_schema`), 381-404
(`_write_tree`), 424-452 (`_handle_path`), 503-541 (`close`, `sync`), 747-753 (`custom_schema`), 764-812 (`copy`), 848-898
(`write_to`).

Simplifications.
* A file or buffer has the tree of a valid ASDF file as content, or `n` other bytes. The tree is the part that the user sees (the
  mapping interface and the protected keys are modelled in `Protected.lean`); writing stores the whole tree.
* `asdf` validates a tree with a custom schema when it is read or assigned (`Lib.accept`), and perhaps when it is written
  (`Lib.acceptW`, which may be constantly true). Both are parameters.
* schemas are already resolved to paths (341-353); compression, inline thresholds and history entries are left out.
* `update` raises if the file handle is closed or not writable. `write_to` and `copy` of a closed `WeldxFile` are not modelled: they
  raise here.
* The dictionary `asdffile_kwargs` is an object with an identity, because the constructor changes it in place (251, 279, 291); only
  its entry "custom_schema" is modelled.
-/

namespace Weldx.File.Session

variable {S V : Type}

/-- content that is stored in a file -/
abbrev Tree (V : Type) := List (String × V)

/-- modes that pass the check 254-257 -/
inductive Mode | r | rw
  deriving DecidableEq

/-- where bytes are stored: a path of the file system or a buffer -/
inductive Loc | path (p : String) | buf (n : ℕ)
  deriving DecidableEq

/-- the bytes: an ASDF file with this tree, or `n` bytes that are no ASDF file -/
inductive Content (V : Type) | asdf (t : Tree V) | raw (n : ℕ)

/-- first argument of `WeldxFile`, `write_to` and `copy`: nothing, a path, or an open file handle or buffer. `w`: the handle supports
writing. -/
inductive Input | none | path (p : String) | handle (l : Loc) (w : Bool)

/-- the argument `custom_schema` -/
inductive SchemaArg (S : Type) | none | one (s : S) | pair (r w : Option S)

/-- exceptions -/
inductive Err | runtime | fileExists | validation | value
  deriving DecidableEq

/-- behaviour of the asdf library: trees that pass the validation with a custom schema when they are read or assigned, and when they are
written -/
structure Lib (S V : Type) where
  accept : Option S → Tree V → Bool
  acceptW : Option S → Tree V → Bool

/-- a `WeldxFile` object. `fdW`: the handle of the asdf file can be written. `handleS`: the schema of the asdf file object. `kw`: identity
of `asdffile_kwargs`. -/
structure Wx (S V : Type) where
  loc : Loc
  mode : Mode
  sync : Bool
  readS : Option S
  writeS : Option S
  handleS : Option S
  kw : ℕ
  fdW : Bool
  closed : Bool
  tree : Tree V

/-- files, buffers and `asdffile_kwargs` objects -/
structure World (S V : Type) where
  store : Loc → Option (Content V)
  kws : ℕ → Option S
  nextBuf : ℕ
  nextKw : ℕ

/-- write content -/
def World.put (w : World S V) (l : Loc) (c : Content V) : World S V :=
  { w with store := fun l' => if l' = l then some c else w.store l' }

/-- set or remove `asdffile_kwargs["custom_schema"]` -/
def World.putKw (w : World S V) (k : ℕ) (s : Option S) : World S V :=
  { w with kws := fun k' => if k' = k then s else w.kws k' }

/-- arguments of the constructor; `kw = none` is the default of `asdffile_kwargs` -/
structure Args (S V : Type) where
  input : Input
  mode : Mode
  tree : Option (Tree V)
  sync : Bool
  schema : SchemaArg S
  kw : Option ℕ

/-- 338-362 `_handle_custom_schema` -/
def schemas : SchemaArg S → Option S × Option S
  | .none => (none, none)
  | .one s => (some s, some s)
  | .pair r w => (r, w)

/-- 424-452 `_handle_path`: the location and whether the file was created; a new file is created empty (448) -/
def handlePath (w : World S V) (p : String) : Mode → World S V × Except Err (Loc × Bool)
  | .r => match w.store (.path p) with
    | none => (w, .error .runtime)
    | some _ => (w, .ok (.path p, false))
  | .rw => match w.store (.path p) with
    | none => (w.put (.path p) (.raw 0), .ok (.path p, true))
    | some (.asdf _) => (w, .ok (.path p, false))
    | some (.raw _) => (w, .error .fileExists)

/-- 308-336 `_handle_file_input` -/
def handleInput (w : World S V) (m : Mode) : Input → World S V × Except Err (Loc × Bool)
  | .none => ({ (w.put (.buf w.nextBuf) (.raw 0)) with nextBuf := w.nextBuf + 1 }, .ok (.buf w.nextBuf, true))
  | .path p => handlePath w p m
  | .handle l wr =>
    (w, .ok (l, match m, wr, w.store l with
      | .rw, true, some (.raw 0) => true
      | _, _, _ => false))

/-- the handle supports writing -/
def Input.writable : Input → Bool
  | .handle _ w => w
  | _ => true

/-- `bool(tree)` -/
def truthy : Option (Tree V) → Bool
  | none => false
  | some t => !t.isEmpty

/-- 286-294 and 401: `asdf.open` with a schema; the tree that was read -/
def openAsdf (lib : Lib S V) (w : World S V) (l : Loc) (m : Mode) (wr : Bool) (s : Option S) : Except Err (Tree V) :=
  if m = .rw ∧ wr = false then .error .value else
  match w.store l with
  | some (.asdf t) => if lib.accept s t then .ok t else .error .validation
  | _ => .error .value

/-- 277-299: write or read the tree, after the file was prepared. Returns the schema of the asdf file, if its handle is writable, and
the tree. -/
def load (lib : Lib S V) (w : World S V) (a : Args S V) (rs ws : Option S) (l : Loc) (created : Bool) :
    World S V × Except Err (Option S × Bool × Tree V) :=
  if truthy a.tree || created then
    let t := a.tree.getD []
    if created then
      if lib.accept ws t && lib.acceptW ws t then (w.put l (.asdf t), .ok (ws, true, t)) else (w, .error .validation)
    else
      match openAsdf lib w l .rw a.input.writable ws with
      | .error e => (w, .error e)
      | .ok _ =>
        if lib.accept ws t && lib.acceptW ws t then (w.put l (.asdf t), .ok (ws, true, t)) else (w, .error .validation)
  else
    match openAsdf lib w l a.mode a.input.writable rs with
    | .error e => (w, .error e)
    | .ok t => (w, .ok (rs, decide (a.mode = .rw), t))

/-- 278-279 and 290-291: the entry "custom_schema" of `asdffile_kwargs` is set in place, if there is a schema -/
def setKw (w : World S V) (k : ℕ) (s : Option S) : World S V :=
  match s with
  | none => w
  | some s => w.putKw k (some s)

/-- 246-247: a new dictionary, unless one is given -/
def takeKw (w : World S V) : Option ℕ → World S V × ℕ
  | some k => (w, k)
  | none => ({ (w.putKw w.nextKw none) with nextKw := w.nextKw + 1 }, w.nextKw)

/-- 218-306 `WeldxFile.__init__` -/
def openWx (lib : Lib S V) (w : World S V) (a : Args S V) : World S V × Except Err (Wx S V) :=
  let (w, k) := takeKw w a.kw
  -- 250-252: an entry "custom_schema" is removed and replaces the argument
  let sc := match w.kws k with
    | some s => .one s
    | none => a.schema
  let w := w.putKw k none
  let (rs, ws) := schemas sc
  if truthy a.tree ∧ a.mode ≠ .rw then (w, .error .runtime) else
  match handleInput w a.mode a.input with
  | (w, .error e) => (w, .error e)
  | (w, .ok (l, created)) =>
    let w := setKw w k (if truthy a.tree || created then ws else rs)
    match load lib w a rs ws l created with
    | (w, .error e) => (w, .error e)
    | (w, .ok (hs, fdW, t)) =>
      (w, .ok ⟨l, a.mode, a.sync && decide (a.mode = .rw), rs, ws, hs, k, fdW, false, t⟩)

/-- 521-541 `sync` -/
def syncWx (lib : Lib S V) (w : World S V) (f : Wx S V) : World S V × Except Err Unit :=
  if f.closed then (w, .error .value)
  else if !f.fdW then (w, .error .value)
  else if lib.acceptW f.handleS f.tree then (w.put f.loc (.asdf f.tree), .ok ())
  else (w, .error .validation)

/-- 510-519 `close`, also called by `__exit__` -/
def closeWx (lib : Lib S V) (w : World S V) (f : Wx S V) : World S V × Wx S V × Except Err Unit :=
  match if decide (f.mode = .rw) && f.sync then syncWx lib w f else (w, .ok ()) with
  | (w, .error e) => (w, f, .error e)
  | (w, .ok _) => if f.closed then (w, f, .error .runtime) else (w, { f with closed := true }, .ok ())

/-- 848-898 `write_to` to a path, a handle, or a new buffer -/
def writeTo (lib : Lib S V) (w : World S V) (f : Wx S V) (i : Input) : World S V × Except Err Input :=
  if f.closed || !i.writable then (w, .error .value)
  else if lib.acceptW f.handleS f.tree then
    match i with
    | .none => ({ (w.put (.buf w.nextBuf) (.asdf f.tree)) with nextBuf := w.nextBuf + 1 }, .ok (.handle (.buf w.nextBuf) true))
    | .path p => (w.put (.path p) (.asdf f.tree), .ok (.path p))
    | .handle l wr => (w.put l (.asdf f.tree), .ok (.handle l wr))
  else (w, .error .validation)

/-- 747-753 `custom_schema` -/
def customSchema [DecidableEq S] (f : Wx S V) : SchemaArg S :=
  if f.readS = f.writeS then
    match f.readS with
    | none => .none
    | some s => .one s
  else .pair f.readS f.writeS

/-- 784-793: a path is opened for writing first; `FileExistsError` is ignored with `overwrite` -/
def copyTarget (w : World S V) (overwrite : Bool) : Input → World S V × Except Err Input
  | .path p => match handlePath w p .rw with
    | (w, .ok (l, _)) => (w, .ok (.handle l true))
    | (w, .error e) => if overwrite then (w, .ok (.path p)) else (w, .error e)
  | i => (w, .ok i)

/-- 764-812 `copy` -/
def copyWx [DecidableEq S] (lib : Lib S V) (w : World S V) (f : Wx S V) (i : Input) (overwrite : Bool) :
    World S V × Except Err (Wx S V) :=
  match copyTarget w overwrite i with
  | (w, .error e) => (w, .error e)
  | (w, .ok i) =>
    match writeTo lib w f i with
    | (w, .error e) => (w, .error e)
    | (w, .ok i) => openWx lib w ⟨i, f.mode, none, f.sync, customSchema f, some f.kw⟩

/-! ### Sessions -/

/-- a session: the world and all `WeldxFile` objects that were made -/
structure State (S V : Type) where
  world : World S V
  files : List (Wx S V)

/-- the calls; `set i t`: changes through the mapping interface give file `i` the tree `t` -/
inductive Cmd (S V : Type)
  | open (a : Args S V)
  | set (i : ℕ) (t : Tree V)
  | sync (i : ℕ)
  | close (i : ℕ)
  | writeTo (i : ℕ) (d : Input)
  | copy (i : ℕ) (d : Input) (overwrite : Bool)

/-- result: an exception or nothing of interest -/
abbrev Out := Except Err Unit

/-- add a file that was made -/
def made (fs : List (Wx S V)) : World S V × Except Err (Wx S V) → State S V × Out
  | (w, .ok f) => (⟨w, fs ++ [f]⟩, .ok ())
  | (w, .error e) => (⟨w, fs⟩, .error e)

/-- one call; calls on files that do not exist do nothing -/
def step [DecidableEq S] (lib : Lib S V) (s : State S V) : Cmd S V → State S V × Out
  | .open a => made s.files (openWx lib s.world a)
  | .set i t => match s.files[i]? with
    | none => (s, .ok ())
    | some f => (⟨s.world, s.files.set i { f with tree := t }⟩, .ok ())
  | .sync i => match s.files[i]? with
    | none => (s, .ok ())
    | some f => match syncWx lib s.world f with
      | (w, o) => (⟨w, s.files⟩, o)
  | .close i => match s.files[i]? with
    | none => (s, .ok ())
    | some f => match closeWx lib s.world f with
      | (w, f, o) => (⟨w, s.files.set i f⟩, o)
  | .writeTo i d => match s.files[i]? with
    | none => (s, .ok ())
    | some f => match writeTo lib s.world f d with
      | (w, .ok _) => (⟨w, s.files⟩, .ok ())
      | (w, .error e) => (⟨w, s.files⟩, .error e)
  | .copy i d o => match s.files[i]? with
    | none => (s, .ok ())
    | some f => made s.files (copyWx lib s.world f d o)

/-- a sequence of calls; exceptions do not end the session -/
def run [DecidableEq S] (lib : Lib S V) (s : State S V) (cs : List (Cmd S V)) : State S V :=
  cs.foldl (fun s c => (step lib s c).1) s

end Weldx.File.Session
