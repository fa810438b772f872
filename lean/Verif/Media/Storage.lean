import Verif.Media.Props
import Verif.File.ExternalProps

/-!
# Media files: creation and storage (C81)

Source: `/repo/weldx/util/media_file.py` 86-121 (`__init__`, `_init_from_path`), 123-158 (`_init_from_sequence`, `_wrap_data_array`),
166-189 (`_get_video_metadata`), 191-243; `/repo/weldx/tags/core/media_file.py` 17-44.

Simplifications: a frame is an element of any type with a width and a height. Reading a video is a function of the content of the file, which gives
the frames, the stream and the duration of the first frame. Frames per second are numbers in `1/s` (a quantity is converted when it is read).
Time stamps are numbers. The file system and external files are those of `File/External.lean`.
-/

namespace Weldx.Media

open Weldx.File

/-- what the libraries read from a video file -/
structure Decoded (F : Type) where
  frames : List F
  stream : Stream
  firstDuration : Option ℤ

/-- a data array: frames and, if there is one, the coordinate `frames` in seconds -/
structure Arr (F : Type) where
  frames : List F
  times : Option (List ℚ)

/-- what a media file was created from -/
inductive Source (F : Type)
  | path (p : Path)
  | list (l : List F)
  | array (a : Arr F)

/-- the argument `reference_time` -/
inductive RefArg
  | none
  | stamp (t : ℤ)
  | other

/-- a `MediaFile` -/
structure Media (F : Type) where
  source : Source F
  data : Arr F
  fps : ℚ
  /-- the number of frames of the metadata -/
  nframes : Option ℤ
  resolution : ℕ × ℕ
  reference : Option ℤ

/-- the exceptions -/
inductive MErr
  | valueError | fileNotFound | unknownFormat | runtimeError | indexError | zeroDivision | keyError | external (e : XErr)
deriving DecidableEq

/-- `_from_file` -/
def Source.fromFile {F : Type} : Source F → Bool
  | .path _ => true
  | _ => false

/-- exceptions of the functions for streams -/
def ofMediaErr : MediaErr → MErr
  | .valueError => .valueError

/-- 113-120 -/
def refFrom (mtime : ℤ) : RefArg → Except MErr ℤ
  | .none => .ok mtime
  | .stamp t => .ok t
  | .other => .error .valueError

variable {F : Type} (size : F → ℕ × ℕ) (decode : List UInt8 → Option (Decoded F))

/-- 101-121 with 166-189 -/
def initPath (w : World) (p : Path) (ref : RefArg) : Except MErr (Media F) :=
  match w.files (w.abs p) with
  | none => .error .fileNotFound
  | some d =>
    match decode d.content with
    | none => .error .unknownFormat
    | some v =>
      match v.frames.head? with
      | none => .error .runtimeError
      | some f =>
        match frameRate v.stream with
        | .error e => .error (ofMediaErr e)
        | .ok fps =>
          match frameCount v.firstDuration v.stream with
          | .error e => .error (ofMediaErr e)
          | .ok n =>
            match refFrom d.mtime ref with
            | .error e => .error e
            | .ok r => .ok ⟨.path p, ⟨v.frames, some (frameTimes v.frames.length fps)⟩, fps, n, size f, some r⟩

/-- 137-141 -/
def refOf : RefArg → Except MErr (Option ℤ)
  | .none => .ok none
  | .stamp t => .ok (some t)
  | .other => .error .valueError

/-- 147-158: a data array is taken as it is -/
def wrap (fps : ℚ) : Source F → Except MErr (Arr F)
  | .array a => .ok a
  | .list l => if fps = 0 then .error .zeroDivision else .ok ⟨l, some (frameTimes l.length fps)⟩
  | .path _ => .error .valueError

/-- the frames of a sequence -/
def Source.frames : Source F → List F
  | .array a => a.frames
  | .list l => l
  | .path _ => []

/-- 123-145 -/
def initSequence (fps : Option ℚ) (s : Source F) (ref : RefArg) : Except MErr (Media F) :=
  match fps with
  | none => .error .valueError
  | some fps =>
    match s.frames.head? with
    | none => .error .indexError
    | some f =>
      match refOf ref with
      | .error e => .error e
      | .ok r =>
        match wrap fps s with
        | .error e => .error e
        | .ok a => .ok ⟨s, a, fps, some s.frames.length, size f, r⟩

/-- 86-99: the frames per second are not used for a path -/
def init (w : World) (s : Source F) (ref : RefArg) (fps : Option ℚ) : Except MErr (Media F) :=
  match s with
  | .path p => initPath size decode w p ref
  | s => initSequence size fps s ref

/-- 218-227: `file` of a media file that was created from a path -/
def file (w : World) (p : Path) : Except MErr External :=
  match External.init w { path := some p } with
  | .error e => .error (.external e)
  | .ok f => .ok f

/-- what is written -/
structure MTree (F : Type) where
  reference : Option ℤ
  fps : Option ℚ
  nFrames : ℕ
  resolution : ℕ × ℕ
  file : Option FileTree
  data : Option (Arr F)

/-- media_file.py (tags) 17-29 -/
noncomputable def toTree (md5 sha : Hash) (w : World) (m : Media F) : Except MErr (MTree F) :=
  match m.source with
  | .path p =>
    match file w p with
    | .error e => .error e
    | .ok f =>
      match f.save md5 sha w with
      | .error e => .error (.external e)
      | .ok t => .ok ⟨m.reference, some m.fps, m.data.frames.length, m.resolution, some t, none⟩
  | _ => .ok ⟨m.reference, some m.fps, m.data.frames.length, m.resolution, none, some m.data⟩

/-- an argument from the file -/
def refArg : Option ℤ → RefArg
  | none => .none
  | some t => .stamp t

/-- media_file.py (tags) 31-44; directory and name of a file without them are `None`, which is no path -/
noncomputable def ofTree (md5 sha : Hash) (w : World) (t : MTree F) : Except MErr (Media F) :=
  match t.data, t.file with
  | some a, _ =>
    match t.fps with
    | none => .error .keyError
    | some fps => init size decode w (.array a) (refArg t.reference) (some fps)
  | none, some ft =>
    match External.ofTree md5 sha w ft with
    | .error e => .error (.external e)
    | .ok f =>
      match f.directory, f.filename with
      | some d, some n =>
        match t.fps with
        | none => .error .keyError
        | some fps => init size decode w (.path ⟨true, d ++ [n]⟩) (refArg t.reference) (some fps)
      | _, _ => .error .valueError
  | none, none => .error .runtimeError

/-! ## C81 -/

/-- **C81** (media from memory): frames, number of frames, resolution and reference time are those that were passed; the frames per second
must be given. A data array is taken as it is: its times are not compared with the frames per second. -/
theorem C81_media_sequence {w : World} {s : Source F} {ref : RefArg} {fps : Option ℚ} {m : Media F} (hs : s.fromFile = false)
    (h : init size decode w s ref fps = .ok m) :
    ∃ q f, fps = some q ∧ m.fps = q ∧ s.frames.head? = some f ∧ m.resolution = size f ∧ m.data.frames = s.frames ∧ m.source = s ∧
      m.nframes = some (s.frames.length : ℤ) ∧ refOf ref = .ok m.reference ∧ (∀ a, s = .array a → m.data = a) ∧
      (∀ l, s = .list l → m.data.times = some (frameTimes l.length q) ∧ q ≠ 0) := by
  have h' : initSequence size fps s ref = .ok m := by
    cases s with
    | path p => cases hs
    | list l => exact h
    | array a => exact h
  unfold initSequence at h'
  cases fps with
  | none => cases h'
  | some q =>
    simp only at h'
    cases hf : s.frames.head? with
    | none => rw [hf] at h'; cases h'
    | some f =>
      rw [hf] at h'
      simp only at h'
      cases hr : refOf ref with
      | error e => rw [hr] at h'; cases h'
      | ok r =>
        rw [hr] at h'
        simp only at h'
        cases hw : wrap q s with
        | error e => rw [hw] at h'; cases h'
        | ok a =>
          rw [hw] at h'
          cases h'
          refine ⟨q, f, rfl, rfl, rfl, rfl, ?_, rfl, rfl, rfl, ?_, ?_⟩
          · cases s with
            | path p => cases hs
            | list l =>
              simp only [wrap] at hw
              split at hw
              · cases hw
              · cases hw; rfl
            | array a => cases hw; rfl
          · rintro b rfl
            cases hw; rfl
          · rintro l rfl
            simp only [wrap] at hw
            split at hw
            · cases hw
            · rename_i hq
              cases hw
              exact ⟨rfl, hq⟩

/-- **C81** (media from memory, storage): a media file from memory is read as it was written, on every machine. Frames, their times, resolution,
frames per second and reference time are the same, and a second storage writes the same tree. -/
theorem C81_media_memory {md5 sha : Hash} {w v : World} {s : Source F} {ref : RefArg} {fps : Option ℚ} {m : Media F}
    (hs : s.fromFile = false) (h : init size decode w s ref fps = .ok m) :
    ∃ t m', toTree md5 sha w m = .ok t ∧ t.nFrames = s.frames.length ∧ ofTree size decode md5 sha v t = .ok m' ∧ m'.data = m.data ∧
      m'.fps = m.fps ∧ m'.resolution = m.resolution ∧ m'.reference = m.reference ∧ m'.nframes = m.nframes ∧ m'.source.fromFile = false ∧
      toTree md5 sha v m' = .ok t := by
  obtain ⟨q, f, rfl, h2, h3, h4, h5, h6, h7, h8, -, -⟩ := C81_media_sequence size decode hs h
  have ht : ∀ (u : World) (m : Media F), m.source.fromFile = false → toTree md5 sha u m =
      .ok ⟨m.reference, some m.fps, m.data.frames.length, m.resolution, none, some m.data⟩ := by
    intro u m hm
    unfold toTree
    cases hsrc : m.source with
    | path p => rw [hsrc] at hm; cases hm
    | list l => rfl
    | array a => rfl
  have hr : refOf (refArg m.reference) = .ok m.reference := by cases m.reference <;> rfl
  have hread : ofTree size decode md5 sha v ⟨m.reference, some m.fps, m.data.frames.length, m.resolution, none, some m.data⟩ =
      .ok ⟨.array m.data, m.data, m.fps, some (m.data.frames.length : ℤ), m.resolution, m.reference⟩ := by
    have hfr : (Source.array m.data).frames = m.data.frames := rfl
    have hh : m.data.frames.head? = some f := by rw [h5]; exact h3
    simp only [ofTree, init, initSequence, hfr, hh, hr, wrap, h4]
  refine ⟨_, _, ht w m (by rw [h6]; exact hs), by simp [h5], hread, rfl, rfl, rfl, rfl, by rw [h7, h5], rfl, ?_⟩
  rw [ht v _ rfl]

/-- what a media file from a path consists of -/
theorem C81_media_path {w : World} {p : Path} {ref : RefArg} {fps : Option ℚ} {m : Media F}
    (h : init size decode w (.path p) ref fps = .ok m) :
    ∃ d v, w.files (w.abs p) = some d ∧ decode d.content = some v ∧ m.data.frames = v.frames ∧ frameRate v.stream = .ok m.fps ∧
      m.data.times = some (frameTimes v.frames.length m.fps) ∧ v.frames.head?.map size = some m.resolution ∧
      (∃ r, m.reference = some r ∧ refFrom d.mtime ref = .ok r) ∧ m.source = .path p ∧
      frameCount v.firstDuration v.stream = .ok m.nframes := by
  simp only [init, initPath] at h
  cases hd : w.files (w.abs p) with
  | none => rw [hd] at h; cases h
  | some d =>
    rw [hd] at h
    simp only at h
    cases hv : decode d.content with
    | none => rw [hv] at h; cases h
    | some v =>
      rw [hv] at h
      simp only at h
      cases hf : v.frames.head? with
      | none => rw [hf] at h; cases h
      | some f =>
        rw [hf] at h
        simp only at h
        cases hq : frameRate v.stream with
        | error e => rw [hq] at h; cases h
        | ok q =>
          rw [hq] at h
          simp only at h
          cases hn : frameCount v.firstDuration v.stream with
          | error e => rw [hn] at h; cases h
          | ok n =>
            rw [hn] at h
            simp only at h
            cases hr : refFrom d.mtime ref with
            | error e => rw [hr] at h; cases h
            | ok r =>
              rw [hr] at h
              cases h
              exact ⟨d, v, rfl, hv, rfl, hq, rfl, by rw [hf]; rfl, ⟨r, rfl, hr⟩, rfl, hn⟩

/-- **C81** (media, reference time): a reference time that is no time stamp is rejected. -/
theorem C81_media_reference {w : World} {s : Source F} {fps : Option ℚ} {m : Media F} : init size decode w s .other fps ≠ .ok m := by
  intro h
  cases s with
  | path p =>
    obtain ⟨d, v, -, -, -, -, -, -, ⟨r, -, hr⟩, -⟩ := C81_media_path size decode h
    cases hr
  | list l =>
    obtain ⟨q, f, -, -, -, -, -, -, -, hr, -⟩ := C81_media_sequence size decode rfl h
    cases hr
  | array a =>
    obtain ⟨q, f, -, -, -, -, -, -, -, hr, -⟩ := C81_media_sequence size decode rfl h
    cases hr

/-- the frames per second that are passed for a path are not used -/
theorem C81_media_fps_ignored {w : World} {p : Path} {ref : RefArg} (a b : Option ℚ) :
    init size decode w (.path p) ref a = init size decode w (.path p) ref b := rfl

/-- the tree of a media file from a path -/
theorem toTree_path {md5 sha : Hash} {w : World} {p : Path} {ref : RefArg} {fps : Option ℚ} {m : Media F} (hp : p.parts ≠ [])
    (h : init size decode w (.path p) ref fps = .ok m) :
    ∃ t d n, toTree md5 sha w m = .ok t ∧ t.reference = m.reference ∧ t.fps = some m.fps ∧ t.nFrames = m.data.frames.length ∧ t.data = none ∧
      ∃ ft, t.file = some ft ∧ ft.directory = some d ∧ ft.filename = some n ∧ d ++ [n] = w.abs p ∧ ft.content = none ∧
        ∀ u, ∃ g, External.ofTree md5 sha u ft = .ok g ∧ g.directory = some d ∧ g.filename = some n := by
  obtain ⟨d, v, hd, -, -, -, -, -, -, hsrc, -⟩ := C81_media_path size decode h
  obtain ⟨g, hg⟩ := ((C81_create w { path := some p }).2 p rfl).1.2 ⟨⟨d, hd⟩, (by decide +kernel : supported ("SHA-256" : String).toUpper = true)⟩
  obtain ⟨t, ht⟩ := C81_save_path (md5 := md5) (sha := sha) rfl hg rfl
  obtain ⟨-, -, -, -, -, -, -, -, -, -, -, -, -, -, -, hsv⟩ := ((C81_create w { path := some p }).2 p rfl).2.2 g hg
  obtain ⟨dd, n, e1, e2, e3⟩ := C81_directory (v := w) rfl hp hg
  simp only [World.abs, if_true] at e3
  have hrd : ∀ u, ∃ g', External.ofTree md5 sha u t = .ok g' ∧ SameInfo g' t ∧ SameInfo g t ∧ g'.buffer = t.content ∧
      (g'.buffer ≠ none ↔ g.saveContent = true) := by
    intro u
    obtain ⟨g', r1, r2, r3, -, r4, -, -, -, r5⟩ := C81_read (v := u) ht
    exact ⟨g', r1, r2, r3, r4, r5⟩
  obtain ⟨g0, -, -, s3, s4, s5⟩ := hrd w
  refine ⟨⟨m.reference, some m.fps, m.data.frames.length, m.resolution, some t, none⟩, dd, n, ?_, rfl, rfl, rfl, rfl, t, rfl, ?_, ?_,
    by rw [World.abs]; exact e3, ?_, ?_⟩
  · simp only [toTree, hsrc, file, hg, ht]
  · rw [s3.directory, e1]
  · rw [s3.filename, e2]
  · by_contra hne
    rw [← s4] at hne
    have := s5.1 hne
    rw [hsv] at this; cases this
  · intro u
    obtain ⟨g', r1, r2, r3, -, -⟩ := hrd u
    exact ⟨g', r1, by rw [← r2.directory, r3.directory, e1], by rw [← r2.filename, r3.filename, e2]⟩

/-- **C81** (media from a path, storage): if the video is still at its place, the media file that is read has the same frames, times, resolution,
frames per second and reference time, even if the time of the file has changed. -/
theorem C81_media_file {md5 sha : Hash} {w u : World} {p : Path} {ref : RefArg} {fps : Option ℚ} {m : Media F} (hp : p.parts ≠ [])
    (h : init size decode w (.path p) ref fps = .ok m) {d d' : OnDisk} (hd : w.files (w.abs p) = some d)
    (hu : u.files (w.abs p) = some d') (hc : d'.content = d.content) :
    ∃ t m', toTree md5 sha w m = .ok t ∧ ofTree size decode md5 sha u t = .ok m' ∧ m'.data = m.data ∧ m'.fps = m.fps ∧
      m'.resolution = m.resolution ∧ m'.reference = m.reference ∧ m'.nframes = m.nframes := by
  obtain ⟨t, dd, n, e1, e2, e3, -, e4, ft, f1, f2, f3, f4, -, f5⟩ := toTree_path (md5 := md5) (sha := sha) size decode hp h
  obtain ⟨g, g1, g2, g3⟩ := f5 u
  have key : ∀ r, m.reference = some r → init size decode u (.path ⟨true, dd ++ [n]⟩) (.stamp r) (some m.fps) =
      .ok { m with source := .path ⟨true, dd ++ [n]⟩ } := by
    intro r hr
    simp only [init, initPath] at h ⊢
    have : u.files (u.abs ⟨true, dd ++ [n]⟩) = some d' := by
      simp only [World.abs, if_true] at f4 ⊢
      rw [f4]; exact hu
    rw [this]
    rw [hd] at h
    simp only at h ⊢
    rw [hc]
    cases hv : decode d.content with
    | none => rw [hv] at h; cases h
    | some v =>
      rw [hv] at h
      simp only at h ⊢
      cases hf : v.frames.head? with
      | none => rw [hf] at h; cases h
      | some f =>
        rw [hf] at h
        simp only at h ⊢
        cases hq : frameRate v.stream with
        | error e => rw [hq] at h; cases h
        | ok q =>
          rw [hq] at h
          simp only at h ⊢
          cases hn : frameCount v.firstDuration v.stream with
          | error e => rw [hn] at h; cases h
          | ok n =>
            rw [hn] at h
            simp only at h ⊢
            cases hr' : refFrom d.mtime ref with
            | error e => rw [hr'] at h; cases h
            | ok r' =>
              rw [hr'] at h
              cases h
              cases hr
              rfl
  obtain ⟨-, -, -, -, -, -, -, -, ⟨r, hr, -⟩, -⟩ := C81_media_path size decode h
  refine ⟨t, { m with source := .path ⟨true, dd ++ [n]⟩ }, e1, ?_, rfl, rfl, rfl, rfl, rfl⟩
  unfold ofTree
  rw [e4, f1]
  simp only [g1, g2, g3, e3, e2, hr, refArg]
  rw [key r hr, hr]

/-- **C81** (media from a path, negation): the stored hash is not compared with the video. Whatever video is at the stored place is read without
an error, with its own frames. -/
theorem C81_media_changed_counterexample {md5 sha : Hash} {w u : World} {p : Path} {ref : RefArg} {fps : Option ℚ} {m : Media F}
    (hp : p.parts ≠ []) (h : init size decode w (.path p) ref fps = .ok m) {d' : OnDisk} {m2 : Media F} (hu : u.files (w.abs p) = some d')
    (h2 : init size decode u (.path ⟨true, w.abs p⟩) .none none = .ok m2) :
    ∃ t m', toTree md5 sha w m = .ok t ∧ ofTree size decode md5 sha u t = .ok m' ∧ m'.data = m2.data ∧ m'.fps = m2.fps ∧
      m'.resolution = m2.resolution ∧ m'.reference = m.reference := by
  obtain ⟨t, dd, n, e1, e2, e3, -, e4, ft, f1, f2, f3, f4, -, f5⟩ := toTree_path (md5 := md5) (sha := sha) size decode hp h
  obtain ⟨g, g1, g2, g3⟩ := f5 u
  obtain ⟨-, -, -, -, -, -, -, -, ⟨r, hr, -⟩, -⟩ := C81_media_path size decode h
  have key : init size decode u (.path ⟨true, dd ++ [n]⟩) (.stamp r) (some m.fps) =
      .ok { m2 with source := .path ⟨true, dd ++ [n]⟩, reference := some r } := by
    simp only [init, initPath] at h2 ⊢
    have e : u.abs ⟨true, dd ++ [n]⟩ = u.abs ⟨true, w.abs p⟩ := by
      simp only [World.abs, if_true] at f4 ⊢
      rw [f4]
    rw [e]
    have hu' : u.files (u.abs ⟨true, w.abs p⟩) = some d' := hu
    rw [hu'] at h2 ⊢
    simp only at h2 ⊢
    cases hv : decode d'.content with
    | none => rw [hv] at h2; cases h2
    | some v =>
      rw [hv] at h2
      simp only at h2 ⊢
      cases hf : v.frames.head? with
      | none => rw [hf] at h2; cases h2
      | some f =>
        rw [hf] at h2
        simp only at h2 ⊢
        cases hq : frameRate v.stream with
        | error e => rw [hq] at h2; cases h2
        | ok q =>
          rw [hq] at h2
          simp only at h2 ⊢
          cases hn : frameCount v.firstDuration v.stream with
          | error e => rw [hn] at h2; cases h2
          | ok n =>
            rw [hn] at h2
            simp only [refFrom] at h2 ⊢
            cases h2
            rfl
  refine ⟨t, { m2 with source := .path ⟨true, dd ++ [n]⟩, reference := some r }, e1, ?_, rfl, rfl, rfl, hr.symm⟩
  unfold ofTree
  rw [e4, f1]
  simp only [g1, g2, g3, e3, e2, hr, refArg]
  exact key

/-- **C81** (media from a path, missing video): if there is no file at the stored place, the media file cannot be read. -/
theorem C81_media_missing {md5 sha : Hash} {w u : World} {p : Path} {ref : RefArg} {fps : Option ℚ} {m : Media F}
    (hp : p.parts ≠ []) (h : init size decode w (.path p) ref fps = .ok m) (hu : u.files (w.abs p) = none) :
    ∃ t, toTree md5 sha w m = .ok t ∧ ofTree size decode md5 sha u t = .error .fileNotFound := by
  obtain ⟨t, dd, n, e1, e2, e3, -, e4, ft, f1, f2, f3, f4, -, f5⟩ := toTree_path (md5 := md5) (sha := sha) size decode hp h
  obtain ⟨g, g1, g2, g3⟩ := f5 u
  refine ⟨t, e1, ?_⟩
  unfold ofTree
  rw [e4, f1]
  simp only [g1, g2, g3, e3, init, initPath]
  have : u.files (u.abs ⟨true, dd ++ [n]⟩) = none := by
    simp only [World.abs, if_true] at f4 ⊢
    rw [f4]; exact hu
  rw [this]

/-- **C81** (malformed trees): a tree without video and frames raises, and so does one without frames per second. -/
theorem C81_media_malformed (md5 sha : Hash) (w : World) (t : MTree F) :
    (t.data = none → t.file = none → ofTree size decode md5 sha w t = .error .runtimeError) ∧
      (∀ a, t.data = some a → t.fps = none → ofTree size decode md5 sha w t = .error .keyError) := by
  constructor
  · intro h1 h2
    simp only [ofTree, h1, h2]
  · intro a h1 h2
    simp only [ofTree, h1, h2]

/-! ### example -/

/-- three frames of 4 by 2 pixels -/
example : ∃ m, init (F := ℕ) (fun _ => (4, 2)) (fun _ => none) machine (.list [1, 2, 3]) (.stamp 9) (some 25) = .ok m ∧
    m.resolution = (4, 2) ∧ m.reference = some 9 := by
  refine ⟨⟨.list [1, 2, 3], ⟨[1, 2, 3], some (frameTimes 3 25)⟩, 25, some 3, (4, 2), some 9⟩, ?_, rfl, rfl⟩
  simp [init, initSequence, Source.frames, refOf, wrap]

/-- the libraries read the bytes of a file as frames, 25 per second -/
def bytes (l : List UInt8) : Option (Decoded UInt8) := some ⟨l, ⟨⟨25, 1⟩, ⟨1, 25⟩, l.length, none⟩, none⟩

/-- the file of the machine is a video with three frames -/
example : ∃ m, init (fun _ => (4, 2)) bytes machine (.path ⟨false, ["a.txt".toList]⟩) .none none = .ok m ∧ m.data.frames = [1, 2, 3] ∧
    m.nframes = some 3 ∧ ∃ t m', toTree sumHash sumHash machine m = .ok t ∧ ofTree (fun _ => (4, 2)) bytes sumHash sumHash machine t = .ok m' ∧
      m'.data = m.data := by
  have hf : machine.files (machine.abs ⟨false, ["a.txt".toList]⟩) = some ⟨[1, 2, 3], 5, 7⟩ := by
    simp [machine, World.abs]
  have h : init (fun _ => (4, 2)) bytes machine (.path ⟨false, ["a.txt".toList]⟩) .none none = .ok
      ⟨.path ⟨false, ["a.txt".toList]⟩, ⟨[1, 2, 3], some (frameTimes 3 25)⟩, 25, some 3, (4, 2), some 7⟩ := by
    simp only [init, initPath, hf, bytes, List.head?, frameRate, frameCount, refFrom]
    norm_num [Fraction.value]
  obtain ⟨t, m', h1, h2, h3, -⟩ := C81_media_file (md5 := sumHash) (sha := sumHash) _ _ (by simp) h hf hf rfl
  exact ⟨_, h, rfl, rfl, t, m', h1, h2, h3⟩

end Weldx.Media
