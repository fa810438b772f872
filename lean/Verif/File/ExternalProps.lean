import Verif.File.External

/-!
# C81: external files
-/

namespace Weldx.File

/-! ### names -/

theorem dropWhile_dots (k : ℕ) {l : Text} (h : l.head? ≠ some '.') : (List.replicate k '.' ++ l).dropWhile (· == '.') = l := by
  induction k with
  | zero =>
    cases l with
    | nil => rfl
    | cons c l =>
      have : c ≠ '.' := fun e => h (by rw [e]; rfl)
      simp [this]
  | succ k ih => rw [List.replicate_succ, List.cons_append, List.dropWhile_cons_of_pos (by simp)]; exact ih

theorem flatten_seps (x : Char) : ∀ ls : List Text, ls ≠ [] → (ls.map (x :: ·)).flatten = x :: [x].intercalate ls
  | [], h => absurd rfl h
  | [a], _ => by simp
  | a :: b :: r, _ => by
    have ih := flatten_seps x (b :: r) (by simp)
    rw [List.map_cons, List.flatten_cons, ih, List.intercalate_cons_cons]
    simp

/-- **C81** (suffix): leading dots aside, the suffix is everything behind the first dot of the name. It is empty if there is no such dot or
if the name ends with a dot. -/
theorem C81_suffix (k : ℕ) {stem rest : Text} (hs : '.' ∉ stem) (hne : stem ≠ []) :
    suffixOf (List.replicate k '.' ++ stem) = [] ∧
      (rest.getLast? ≠ some '.' → rest ≠ [] → suffixOf (List.replicate k '.' ++ (stem ++ '.' :: rest)) = rest) ∧
      ∀ name : Text, name.getLast? = some '.' → suffixOf name = [] := by
  have hh : ∀ r : Text, (stem ++ r).head? ≠ some '.' := by
    intro r e
    cases stem with
    | nil => exact hne rfl
    | cons c l =>
      simp at e
      exact hs (by simp [e])
  refine ⟨?_, ?_, ?_⟩
  · have h := hh []
    rw [List.append_nil] at h
    unfold suffixOf suffixes
    rw [dropWhile_dots k h, List.splitOn_eq_singleton hs]
    split <;> rfl
  · intro hr hr'
    unfold suffixOf suffixes
    have hl : (List.replicate k '.' ++ (stem ++ '.' :: rest)).getLast? ≠ some '.' := by
      rw [← List.append_assoc, List.getLast?_append, List.getLast?_cons]
      cases hg : rest.getLast? with
      | none => exact absurd (List.getLast?_eq_none_iff.1 hg) hr'
      | some c =>
        rw [hg] at hr
        simpa using hr
    rw [if_neg hl, dropWhile_dots k (hh _), List.splitOn_append_cons_self_of_not_mem hs, List.tail_cons,
      flatten_seps _ _ (List.splitOn_ne_nil _ _), List.intercalate_splitOn]
    rfl
  · intro name h
    simp [suffixOf, suffixes, h]

/-- the suffix of an archive, and of a recording whose name contains a date -/
example : suffixOf "data.tar.gz".toList = "tar.gz".toList ∧ suffixOf "2022.10.25.avi".toList = "10.25.avi".toList ∧
    suffixOf ".profile".toList = [] := by
  refine ⟨?_, ?_, ?_⟩
  · exact (C81_suffix 0 (stem := "data".toList) (rest := "tar.gz".toList) (by decide) (by decide)).2.1 (by decide) (by decide)
  · exact (C81_suffix 0 (stem := "2022".toList) (rest := "10.25.avi".toList) (by decide) (by decide)).2.1 (by decide) (by decide)
  · exact (C81_suffix 1 (stem := "profile".toList) (rest := []) (by decide) (by decide)).1

/-! ### creation -/

/-- **C81** (creation): with a path an object is created exactly if the file exists and the algorithm is known; name, directory, size and times
are then those of the file, whatever was passed, and only the name of the host can be chosen. Without a path everything is taken as it
is and nothing is checked. -/
theorem C81_create (w : World) (f : External) :
    (f.path = none → f.init w = .ok f) ∧
      ∀ p, f.path = some p →
        ((∃ g, f.init w = .ok g) ↔ (∃ d, w.files (w.abs p) = some d) ∧ supported f.algorithm.toUpper) ∧
        (∀ e, f.init w = .error e → e = .valueError) ∧
        ∀ g, f.init w = .ok g → ∃ d, w.files (w.abs p) = some d ∧ g.path = some p ∧ g.filename = some p.name ∧
          g.suffix = some (suffixOf p.name) ∧ g.mimetype = w.mime p.name ∧ g.directory = some (w.abs ⟨p.absolute, p.parts.dropLast⟩) ∧
          g.size = some d.content.length ∧ g.created = some d.ctime ∧ g.modified = some d.mtime ∧
          g.hostname = some (f.hostname.getD w.host) ∧ supported g.algorithm ∧ g.content w = .ok d.content ∧
          g.hash = f.hash ∧ g.buffer = f.buffer ∧ g.saveContent = f.saveContent := by
  constructor
  · intro h
    simp only [External.init, h]
  · intro p hp
    simp only [External.init, hp]
    cases hd : w.files (w.abs p) with
    | none => simp
    | some d =>
      by_cases ha : supported f.algorithm.toUpper
      · simp only [ha, if_true]
        refine ⟨by simp, by simp, ?_⟩
        intro g hg
        cases hg
        refine ⟨d, rfl, hp, rfl, rfl, rfl, rfl, rfl, rfl, rfl, rfl, ha, ?_, rfl, rfl, rfl⟩
        simp only [External.content, External.filled, hp, hd]
      · simp [ha]

/-- the parts of an absolute path without `..` -/
theorem abs_parent (w : World) {p : Path} (hp : p.parts ≠ []) : w.abs ⟨p.absolute, p.parts.dropLast⟩ ++ [p.name] = w.abs p := by
  have h : p.parts.dropLast ++ [p.name] = p.parts := by
    unfold Path.name
    rw [List.getLast?_eq_some_getLast hp]
    exact List.dropLast_append_getLast hp
  unfold World.abs
  split
  · exact h
  · simp only
    rw [List.append_assoc, h]

/-- **C81** (directory): the stored directory and name lead to the file, wherever the program runs later. -/
theorem C81_directory {w v : World} {f g : External} {p : Path} (hp : f.path = some p) (hne : p.parts ≠ []) (h : f.init w = .ok g) :
    ∃ d n, g.directory = some d ∧ g.filename = some n ∧ v.abs ⟨true, d ++ [n]⟩ = w.abs p := by
  obtain ⟨d, -, -, h1, -, -, h2, -⟩ := ((C81_create w f).2 p hp).2.2 g h
  exact ⟨_, _, h2, h1, by simp only [World.abs, if_true]; exact abs_parent w hne⟩

/-! ### export -/

theorem resolve_plain (acc l : List Text) (h : ∀ p ∈ l, p ≠ ['.', '.']) : resolve acc l = acc.reverse ++ l := by
  induction l generalizing acc with
  | nil => simp [resolve]
  | cons p r ih =>
    rw [resolve, if_neg (h p List.mem_cons_self), ih _ fun q hq => h q (List.mem_cons_of_mem _ hq)]
    simp

/-- an ordinary name -/
structure PlainName (n : Text) : Prop where
  slash : '/' ∉ n
  empty : n ≠ []
  dot : n ≠ ['.']
  dots : n ≠ ['.', '.']

theorem target_plain {n : Text} (h : PlainName n) (dir : Path) : target dir n = ⟨dir.absolute, dir.parts ++ [n]⟩ := by
  unfold target
  rw [List.splitOn_eq_singleton h.slash]
  simp [h.empty, h.dot]

/-- **C81** (export): `write_to` writes exactly the content of the object to one file, and changes no other file. The content is the buffer if
there is one, else the content of the file at the path. -/
theorem C81_write {w v : World} {now : ℤ} {f : External} {dir : Path} (h : f.writeTo w now dir = .ok v) :
    ∃ b, (f.buffer = some b ∨ f.buffer = none ∧ f.content w = .ok b) ∧
      ∀ q, v.files q = if q = resolve [] (w.abs (target dir (fileText f.filename))) then some ⟨b, now, now⟩ else w.files q := by
  unfold External.writeTo at h
  cases hb : f.buffer with
  | some b =>
    rw [hb] at h
    simp only [bind, Except.bind] at h
    split at h
    · cases h
      exact ⟨b, .inl rfl, fun q => rfl⟩
    · cases h
  | none =>
    rw [hb] at h
    simp only [bind, Except.bind] at h
    cases hc : f.content w with
    | error e => rw [hc] at h; cases h
    | ok b =>
      rw [hc] at h
      simp only at h
      split at h
      · cases h
        exact ⟨b, .inr ⟨rfl, rfl⟩, fun q => rfl⟩
      · cases h

/-- **C81** (export, place): an ordinary name is written into the given directory. -/
theorem C81_write_place {w v : World} {now : ℤ} {f : External} {dir : Path} {n : Text} (h : f.writeTo w now dir = .ok v)
    (hn : f.filename = some n) (hp : PlainName n) (hd : ∀ p ∈ w.abs dir, p ≠ ['.', '.']) :
    ∃ b, (f.buffer = some b ∨ f.buffer = none ∧ f.content w = .ok b) ∧ v.files (w.abs dir ++ [n]) = some ⟨b, now, now⟩ ∧
      ∀ q, q ≠ w.abs dir ++ [n] → v.files q = w.files q := by
  obtain ⟨b, hb, hv⟩ := C81_write h
  have e : resolve [] (w.abs (target dir (fileText f.filename))) = w.abs dir ++ [n] := by
    rw [hn, fileText, target_plain hp]
    have : w.abs ⟨dir.absolute, dir.parts ++ [n]⟩ = w.abs dir ++ [n] := by
      unfold World.abs
      split <;> simp
    rw [this, resolve_plain]
    · rfl
    · intro p h
      rcases List.mem_append.1 h with h | h
      · exact hd p h
      · rw [List.mem_singleton.1 h]; exact hp.dots
  rw [e] at hv
  exact ⟨b, hb, by rw [hv, if_pos rfl], fun q hq => by rw [hv, if_neg hq]⟩

/-- the place of an ordinary name -/
theorem place_plain {w : World} {dir : Path} {n : Text} (hp : PlainName n) (hd : ∀ p ∈ w.abs dir, p ≠ ['.', '.']) :
    resolve [] (w.abs (target dir n)) = w.abs dir ++ [n] := by
  rw [target_plain hp]
  have : w.abs ⟨dir.absolute, dir.parts ++ [n]⟩ = w.abs dir ++ [n] := by
    unfold World.abs
    split <;> simp
  rw [this, resolve_plain]
  · rfl
  · intro p h
    rcases List.mem_append.1 h with h | h
    · exact hd p h
    · rw [List.mem_singleton.1 h]; exact hp.dots

theorem writeTo_ok {w : World} {now : ℤ} {f : External} {dir : Path} : (∃ v, f.writeTo w now dir = .ok v) ↔
    ((∃ b, f.buffer = some b) ∨ f.buffer = none ∧ ∃ b, f.content w = .ok b) ∧
      w.isDir (resolve [] (w.abs (target dir (fileText f.filename)))).dropLast = true ∧
      w.isDir (resolve [] (w.abs (target dir (fileText f.filename)))) = false := by
  unfold External.writeTo
  generalize resolve [] (w.abs (target dir (fileText f.filename))) = p
  cases hb : f.buffer with
  | some b =>
    simp only [bind, Except.bind]
    by_cases h : w.isDir p.dropLast = true ∧ ¬ w.isDir p = true
    · rw [if_pos h]
      simpa using h
    · rw [if_neg h]
      simpa using h
  | none =>
    simp only [bind, Except.bind]
    cases hc : f.content w with
    | error e => simp
    | ok b =>
      simp only
      by_cases h : w.isDir p.dropLast = true ∧ ¬ w.isDir p = true
      · rw [if_pos h]
        simpa using h
      · rw [if_neg h]
        simpa using h

/-- **C81** (export, when): a file with an ordinary name can be exported exactly if there is a content and the directory exists, and the name is
not the one of a directory. No directory is created. -/
theorem C81_write_when {w : World} {now : ℤ} {f : External} {dir : Path} {n : Text} (hn : f.filename = some n) (hp : PlainName n)
    (hd : ∀ p ∈ w.abs dir, p ≠ ['.', '.']) : (∃ v, f.writeTo w now dir = .ok v) ↔
    ((∃ b, f.buffer = some b) ∨ f.buffer = none ∧ ∃ b, f.content w = .ok b) ∧ w.isDir (w.abs dir) = true ∧
      w.isDir (w.abs dir ++ [n]) = false := by
  rw [writeTo_ok, hn, fileText, place_plain hp hd]
  simp

/-- **C81** (export, without name): a file without name is written under the name `None`; a dot in a name does not change the directory. -/
theorem C81_write_noname {w v : World} {now : ℤ} {f : External} {dir : Path} (hd : ∀ p ∈ w.abs dir, p ≠ ['.', '.'])
    (h : f.writeTo w now dir = .ok v) :
    (f.filename = none → ∃ b, v.files (w.abs dir ++ ["None".toList]) = some ⟨b, now, now⟩) ∧
    ∀ n, PlainName n → f.filename = some ('.' :: '/' :: n) → ∃ b, v.files (w.abs dir ++ [n]) = some ⟨b, now, now⟩ := by
  obtain ⟨b, -, hv⟩ := C81_write h
  constructor
  · intro hn
    have hp : PlainName "None".toList := ⟨by decide +kernel, by decide +kernel, by decide +kernel, by decide +kernel⟩
    refine ⟨b, ?_⟩
    rw [hv, hn, fileText, place_plain hp hd, if_pos rfl]
  · intro n hp hn
    refine ⟨b, ?_⟩
    have hs : ('.' :: '/' :: n).splitOn '/' = [['.'], n] := by
      have := List.splitOn_append_cons_self_of_not_mem (a := '/') (xs := ['.']) (by decide) n
      rw [List.splitOn_eq_singleton hp.slash] at this
      exact this
    have e : target dir ('.' :: '/' :: n) = target dir n := by
      rw [target_plain hp, target, hs]
      simp [hp.empty, hp.dot]
    rw [hv, hn, fileText, e, place_plain hp hd, if_pos rfl]

/-- **C81** (export, copy): an object created for the exported file has the same name, suffix, size and content. -/
theorem C81_write_copy {w v : World} {now : ℤ} {f : External} {dir : Path} {n : Text} {b : List UInt8} (h : f.writeTo w now dir = .ok v)
    (hn : f.filename = some n) (hp : PlainName n) (hd : ∀ p ∈ w.abs dir, p ≠ ['.', '.']) (hb : f.buffer = some b) :
    ∃ g, External.init v { path := some ⟨true, w.abs dir ++ [n]⟩ } = .ok g ∧ g.filename = some n ∧ g.suffix = some (suffixOf n) ∧
      g.size = some b.length ∧ g.content v = .ok b := by
  obtain ⟨b', hb', hv, -⟩ := C81_write_place h hn hp hd
  have e : b' = b := by
    rcases hb' with h | h
    · rw [hb] at h; cases h; rfl
    · rw [hb] at h; cases h.1
  subst e
  have hf : v.files (v.abs ⟨true, w.abs dir ++ [n]⟩) = some ⟨b', now, now⟩ := by simp only [World.abs, if_true]; exact hv
  have hs : supported "SHA-256".toUpper = true := by decide +kernel
  obtain ⟨g, hg⟩ := ((C81_create v { path := some ⟨true, w.abs dir ++ [n]⟩ }).2 _ rfl).1.2 ⟨⟨_, hf⟩, hs⟩
  obtain ⟨d, h1, -, h2, h3, -, -, h4, -, -, -, -, h5, -⟩ := ((C81_create v { path := some ⟨true, w.abs dir ++ [n]⟩ }).2 _ rfl).2.2 g hg
  rw [hf] at h1
  cases h1
  have en : (Path.mk true (w.abs dir ++ [n])).name = n := by simp [Path.name]
  rw [en] at h2 h3
  exact ⟨g, hg, h2, h3, h4, h5⟩

/-- **C81** (export, negation): the name is not checked. A stored name with `..` is written above the given directory. -/
theorem C81_write_counterexample {w v : World} {now : ℤ} {f : External} {dir : List Text} {d n : Text}
    (hn : f.filename = some ('.' :: '.' :: '/' :: n)) (hp : PlainName n) (hd : ∀ p ∈ dir ++ [d], p ≠ ['.', '.'])
    (h : f.writeTo w now ⟨true, dir ++ [d]⟩ = .ok v) :
    ∃ b, v.files (dir ++ [n]) = some ⟨b, now, now⟩ ∧ (n ≠ d → ¬ dir ++ [d] <+: dir ++ [n]) := by
  obtain ⟨b, -, hv⟩ := C81_write h
  have hs : ('.' :: '.' :: '/' :: n).splitOn '/' = [['.', '.'], n] := by
    have := List.splitOn_append_cons_self_of_not_mem (a := '/') (xs := ['.', '.']) (by decide) n
    rw [List.splitOn_eq_singleton hp.slash] at this
    exact this
  have e : resolve [] (w.abs (target ⟨true, dir ++ [d]⟩ (fileText f.filename))) = dir ++ [n] := by
    rw [hn, fileText]
    simp only [target, World.abs, if_true]
    rw [hs]
    simp only [hp.empty, hp.dot, List.filter, ne_eq, reduceCtorEq, not_false_eq_true, decide_true, and_self, List.cons.injEq]
    have key : ∀ (acc l : List Text), (∀ p ∈ l, p ≠ ['.', '.']) → resolve acc (l ++ [['.', '.'], n]) = ((l.reverse ++ acc).tail.reverse) ++ [n] := by
      intro acc l
      induction l generalizing acc with
      | nil =>
        intro _
        simp [resolve, hp.dots]
      | cons p r ih =>
        intro hl
        rw [List.cons_append, resolve, if_neg (hl p List.mem_cons_self), ih _ fun q hq => hl q (List.mem_cons_of_mem _ hq)]
        simp
    have := key [] (dir ++ [d]) hd
    simpa using this
  rw [e] at hv
  refine ⟨b, by rw [hv, if_pos rfl], ?_⟩
  rintro hne ⟨r, hr⟩
  rw [List.append_assoc] at hr
  have := List.append_cancel_left hr
  simp at this
  exact hne this.1.symm

/-! ### storage -/

/-- the attributes that describe a file -/
structure SameInfo (f : External) (t : FileTree) : Prop where
  filename : t.filename = f.filename
  suffix : t.suffix = f.suffix
  mimetype : t.mimetype = f.mimetype
  directory : t.directory = f.directory
  hostname : t.hostname = f.hostname
  created : t.created = f.created
  modified : t.modified = f.modified
  size : t.size = f.size

theorem toTree_ok {md5 sha : Hash} {w : World} {f : External} {t : FileTree} (h : f.toTree md5 sha w = .ok t) :
    SameInfo f t ∧ File.toTree (mapping md5 sha) (f.part w) = .ok ⟨t.content, t.contentHash⟩ := by
  unfold External.toTree at h
  split at h
  · cases h
  · split at h
    · cases h
    · split at h
      · cases h
      · rename_i n hn
        cases h
        exact ⟨⟨rfl, rfl, rfl, rfl, rfl, rfl, rfl, rfl⟩, hn⟩

/-- what a tree of hash and content consists of -/
theorem tree_content {algs : String → Option Hash} {f : ExtFile} {n : Node} (h : File.toTree algs f = .ok n) :
    (∃ b, savedBuffer f = .ok b ∧ n.content = if f.saveContent then b else none) ∧
      (∀ c, n.contentHash = some c → c.1 = f.algorithm) ∧
      (f.saveContent = true → ∃ b a, n.content = some b ∧ algs f.algorithm = some a ∧ n.contentHash = some (f.algorithm, a.of b)) := by
  unfold File.toTree at h
  cases hs : savedBuffer f with
  | error e => rw [hs] at h; cases h
  | ok b =>
    rw [hs] at h
    simp only at h
    cases hv : storedHash algs f b with
    | error e => rw [hv] at h; cases h
    | ok v =>
      rw [hv] at h
      cases h
      refine ⟨⟨b, rfl, rfl⟩, ?_, ?_⟩
      · intro c hc
        cases v with
        | none => cases hc
        | some v => cases hc; rfl
      · intro hsv
        have hb : ∃ x, b = some x := by
          unfold savedBuffer at hs
          rw [if_pos hsv] at hs
          cases hfb : f.buffer with
          | some x => rw [hfb] at hs; cases hs; exact ⟨x, rfl⟩
          | none =>
            rw [hfb] at hs
            simp only at hs
            cases hfp : f.path with
            | none => rw [hfp] at hs; cases hs
            | some x => rw [hfp] at hs; cases hs; exact ⟨x, rfl⟩
        obtain ⟨x, rfl⟩ := hb
        simp only [storedHash, hashBuffer] at hv
        cases ha : algs f.algorithm with
        | none => rw [ha] at hv; cases hv
        | some a =>
          rw [ha] at hv
          cases hv
          exact ⟨x, a, by rw [if_pos hsv], rfl, rfl⟩

theorem save_ok {md5 sha : Hash} {w : World} {f : External} {t : FileTree} (h : f.save md5 sha w = .ok t) :
    f.toTree md5 sha w = .ok t ∧ t.valid := by
  unfold External.save at h
  cases ht : f.toTree md5 sha w with
  | error e => rw [ht] at h; cases h
  | ok t' =>
    rw [ht] at h
    simp only at h
    split at h
    · cases h
      exact ⟨rfl, by assumption⟩
    · cases h

/-- **C81** (storage): a file that was written can be read on every machine. The attributes are those of the object that was written, also if the
file has changed since or does not exist there; the path is not stored; the content is available exactly if it was saved. -/
theorem C81_read {md5 sha : Hash} {w v : World} {f : External} {t : FileTree} (h : f.save md5 sha w = .ok t) :
    ∃ g, External.ofTree md5 sha v t = .ok g ∧ SameInfo g t ∧ SameInfo f t ∧ g.path = none ∧ g.buffer = t.content ∧
      g.hash = t.contentHash.map Prod.snd ∧ (t.contentHash ≠ none → g.algorithm = f.algorithm) ∧ g.saveContent = false ∧
      (g.buffer ≠ none ↔ f.saveContent = true) := by
  obtain ⟨h1, -⟩ := save_ok h
  obtain ⟨hi, hn⟩ := toTree_ok h1
  obtain ⟨⟨b, hb, hc⟩, ha, hsv⟩ := tree_content hn
  simp only at hc ha hsv
  have e : External.ofTree md5 sha v t = .ok
      { filename := t.filename
        suffix := t.suffix
        mimetype := t.mimetype
        directory := t.directory
        hostname := t.hostname
        created := t.created
        modified := t.modified
        size := t.size
        algorithm := (t.contentHash.map Prod.fst).getD "SHA-256"
        hash := t.contentHash.map Prod.snd
        buffer := t.content } := by
    unfold External.ofTree
    by_cases hs : (f.part w).saveContent = true
    · obtain ⟨x, a, e1, e2, e3⟩ := hsv hs
      simp only [fromTree, e1, e3, hashBuffer, e2]
      simp [External.init]
    · rw [if_neg hs] at hc
      rw [hc]
      cases hh : t.contentHash with
      | none => simp [fromTree, External.init]
      | some c => simp [fromTree, External.init]
  refine ⟨_, e, ⟨rfl, rfl, rfl, rfl, rfl, rfl, rfl, rfl⟩, hi, rfl, rfl, rfl, ?_, rfl, ?_⟩
  · intro hne
    cases hh : t.contentHash with
    | none => exact absurd hh hne
    | some c =>
      have := ha c hh
      simpa [External.part] using this
  · constructor
    · intro hne
      by_contra hs
      rw [if_neg (by simpa [External.part] using hs)] at hc
      exact hne hc
    · intro hs
      obtain ⟨x, a, e1, -, -⟩ := hsv hs
      simp only
      rw [e1]
      simp

/-- **C81** (second storage): a file with content that was read is written without its content the next time; only the hash remains. -/
theorem C81_second {md5 sha : Hash} {w v : World} {f g : External} {t : FileTree} (h : f.save md5 sha w = .ok t)
    (hg : External.ofTree md5 sha v t = .ok g) (hs : f.saveContent = true) :
    ∃ t', g.toTree md5 sha v = .ok t' ∧ t.content ≠ none ∧ t'.content = none ∧ t'.contentHash = t.contentHash ∧
      (t.hostname = none → g.save md5 sha v = .error .validationError) := by
  obtain ⟨g', e, hi, -, hp, hb, hh, hal, hsv, -⟩ := C81_read (v := v) h
  rw [hg] at e
  cases e
  obtain ⟨h1, hvalid⟩ := save_ok h
  obtain ⟨hi', hn⟩ := toTree_ok h1
  obtain ⟨x, a, e1, e2, e3⟩ := (tree_content hn).2.2 hs
  simp only at e1 e3
  have halg : g.algorithm = (f.part w).algorithm := hal (by rw [e3]; simp)
  have key : g.toTree md5 sha v = .ok ⟨g.filename, g.suffix, g.mimetype, g.directory, g.hostname, g.created, g.modified, g.size, none,
      t.contentHash⟩ := by
    unfold External.toTree
    rw [if_neg (by simp [hsv]), if_neg (by rw [hb, e1]; simp)]
    have : File.toTree (mapping md5 sha) (g.part v) = .ok ⟨none, t.contentHash⟩ := by
      unfold File.toTree savedBuffer storedHash
      simp only [External.part, hsv, hb, e1, hashBuffer]
      simp only [External.part] at e2 halg e3
      rw [halg, e2, e3]
      simp
    rw [this]
  refine ⟨_, key, by rw [e1]; simp, rfl, rfl, ?_⟩
  intro hhost
  unfold External.save
  rw [key]
  simp only
  rw [if_neg]
  rintro ⟨-, h | h⟩
  · simp at h
  · have := h.2
    rw [← hi.hostname, hhost] at this
    simp at this

/-- **C81** (export after reading): a file that was stored without content cannot be exported, even if it still exists at the stored place. -/
theorem C81_export_after_read {md5 sha : Hash} {w v : World} {f g : External} {t : FileTree} {now : ℤ} {dir : Path}
    (h : f.save md5 sha w = .ok t) (hg : External.ofTree md5 sha v t = .ok g) (hs : f.saveContent = false) :
    g.writeTo v now dir = .error .attributeError := by
  obtain ⟨g', e, -, -, hp, -, -, -, -, hb⟩ := C81_read (v := v) h
  rw [hg] at e
  cases e
  have : g.buffer = none := by
    by_contra hne
    have := hb.1 hne
    rw [hs] at this; cases this
  unfold External.writeTo
  rw [this]
  simp [External.content, hp, bind, Except.bind]

/-- **C81** (which files can be stored): an object made from an existing file can always be stored. -/
theorem C81_save_path {md5 sha : Hash} {w : World} {f g : External} {p : Path} (hp : f.path = some p) (hi : f.init w = .ok g)
    (hh : f.hash = none) : ∃ t, g.save md5 sha w = .ok t := by
  obtain ⟨d, h1, h2, h3, -, -, -, -, -, -, h4, h5, -, h6, h7, h8⟩ := ((C81_create w f).2 p hp).2.2 g hi
  have hup : ∃ a, mapping md5 sha g.algorithm = some a := by
    have : g.algorithm = "MD5" ∨ g.algorithm = "SHA-256" := by simpa [supported] using h5
    rcases this with e | e
    · exact ⟨md5, by rw [e]; exact if_pos (by decide +kernel)⟩
    · exact ⟨sha, by rw [e, mapping, if_neg (by decide +kernel), if_pos (by decide +kernel)]⟩
  obtain ⟨a, ha⟩ := hup
  have hpart : (g.part w).path = some d.content := by simp [External.part, h2, h1]
  have ⟨n, hn⟩ : ∃ n, File.toTree (mapping md5 sha) (g.part w) = .ok n := by
    unfold File.toTree
    have hsb : ∃ b, savedBuffer (g.part w) = .ok b := by
      unfold savedBuffer
      rw [hpart]
      split
      · split <;> exact ⟨_, rfl⟩
      · exact ⟨_, rfl⟩
    obtain ⟨b, hb⟩ := hsb
    rw [hb]
    simp only
    have hst : ∃ v, storedHash (mapping md5 sha) (g.part w) b = .ok v := by
      unfold storedHash
      rw [hpart]
      have ha' : mapping md5 sha (g.part w).algorithm = some a := ha
      cases b with
      | some b => simp only [hashBuffer, ha']; exact ⟨_, rfl⟩
      | none =>
        have : (g.part w).hash = none := by simp [External.part, h6, hh]
        rw [this]
        simp only [hashPath, ha']
        exact ⟨_, rfl⟩
    obtain ⟨v, hv⟩ := hst
    rw [hv]
    exact ⟨_, rfl⟩
  have key : g.toTree md5 sha w = .ok ⟨g.filename, g.suffix, g.mimetype, g.directory, g.hostname, g.created, g.modified, g.size, n.content,
      n.contentHash⟩ := by
    unfold External.toTree
    rw [if_neg (by simp [h2]), if_neg, hn]
    rintro ⟨-, -, q, e1, e2⟩
    rw [h2] at e1
    cases e1
    rw [h1] at e2; cases e2
  refine ⟨_, by
    unfold External.save
    rw [key]
    simp only
    rw [if_pos]
    refine ⟨?_, .inr ⟨by rw [h3]; rfl, by rw [h4]; rfl⟩⟩
    intro c hc
    have := (tree_content hn).2.1 c hc
    have e : (g.part w).algorithm = g.algorithm := rfl
    rw [this, e]
    simpa [supported] using h5⟩

/-- **C81** (which files can be stored, negation): the algorithm of an object without path is not brought to upper case. The hash of its content can
be calculated, but the object cannot be stored. -/
theorem C81_save_counterexample (md5 sha : Hash) (w : World) (b : List UInt8) (n : Text) :
    hashBuffer (mapping md5 sha) "sha-256" b = .ok (sha.of b) ∧
      External.save md5 sha w { filename := some n, buffer := some b, saveContent := true, algorithm := "sha-256" } =
        .error .validationError ∧
      ∃ t, External.save md5 sha w { filename := some n, buffer := some b, saveContent := true, algorithm := "SHA-256" } = .ok t := by
  have m1 : mapping md5 sha "sha-256" = some sha := by rw [mapping, if_neg (by decide +kernel), if_pos (by decide +kernel)]
  have m2 : mapping md5 sha "SHA-256" = some sha := by rw [mapping, if_neg (by decide +kernel), if_pos (by decide +kernel)]
  refine ⟨by simp [hashBuffer, m1], ?_, ?_⟩
  · unfold External.save
    simp only [External.toTree, File.toTree, External.part, savedBuffer, storedHash, hashBuffer, m1]
    simp [FileTree.valid]
  · refine ⟨⟨some n, none, none, none, none, none, none, none, some b, some ("SHA-256", sha.of b)⟩, ?_⟩
    unfold External.save
    simp only [External.toTree, File.toTree, External.part, savedBuffer, storedHash, hashBuffer, m2]
    simp [FileTree.valid]

/-- **C81** (algorithms): the hash is the one of the named algorithm, whatever the case of the letters, and other names are rejected. -/
theorem C81_algorithm (md5 sha : Hash) (a : String) (b : List UInt8) :
    (a.toUpper = "MD5" → hashBuffer (mapping md5 sha) a b = .ok (md5.of b)) ∧
    (a.toUpper = "SHA-256" → hashBuffer (mapping md5 sha) a b = .ok (sha.of b)) ∧
    (a.toUpper ≠ "MD5" → a.toUpper ≠ "SHA-256" → hashBuffer (mapping md5 sha) a b = .error .keyError) := by
  refine ⟨?_, ?_, ?_⟩
  · intro h
    simp only [hashBuffer, mapping, if_pos h]
  · intro h
    have h' : ¬ a.toUpper = "MD5" := by rw [h]; decide
    simp only [hashBuffer, mapping, if_neg h', if_pos h]
  · intro h1 h2
    simp only [hashBuffer, mapping, if_neg h1, if_neg h2]

example (md5 sha : Hash) : hashBuffer (mapping md5 sha) "md5" [1, 2] = .ok (md5.of [1, 2]) :=
  (C81_algorithm md5 sha "md5" [1, 2]).1 (by decide +kernel)

/-- **C81** (which files can be stored, failures): content that is to be saved and exists nowhere is rejected, whatever hash is known. A missing file
is noticed exactly if its content or its hash is needed: with a known hash the object is stored without a look at the file. -/
theorem C81_save_missing (md5 sha : Hash) (w : World) (f : External) (hb : f.buffer = none) :
    (f.saveContent = true → f.path = none → f.toTree md5 sha w = .error .attributeError) ∧
    ∀ p, f.path = some p → w.files (w.abs p) = none →
      (f.saveContent = true ∨ f.hash = none → f.toTree md5 sha w = .error .fileNotFound) ∧
      ∀ v, f.saveContent = false → f.hash = some v → ∃ t, f.toTree md5 sha w = .ok t ∧ t.content = none ∧
        t.contentHash = some (f.algorithm, v) := by
  constructor
  · intro h1 h2
    unfold External.toTree
    rw [if_pos ⟨h1, hb, h2⟩]
  · intro p hp hw
    have h0 : ¬ (f.saveContent = true ∧ f.buffer = none ∧ f.path = none) := by simp [hp]
    constructor
    · intro h
      unfold External.toTree
      rw [if_neg h0, if_pos ⟨hb, h, p, hp, hw⟩]
    · intro v hs hv
      have h1 : ¬ (f.buffer = none ∧ (f.saveContent = true ∨ f.hash = none) ∧ ∃ p, f.path = some p ∧ w.files (w.abs p) = none) := by
        simp [hs, hv]
      have h2 : File.toTree (mapping md5 sha) (f.part w) = .ok ⟨none, some (f.algorithm, v)⟩ := by
        simp [File.toTree, savedBuffer, storedHash, External.part, hs, hb, hv, hp, hw]
      refine ⟨⟨f.filename, f.suffix, f.mimetype, f.directory, f.hostname, f.created, f.modified, f.size, none, some (f.algorithm, v)⟩, ?_, rfl, rfl⟩
      unfold External.toTree
      rw [if_neg h0, if_neg h1, h2]

/-! ### example -/

/-- a machine with one file -/
def machine : World where
  files q := if q = ["home".toList, "a.txt".toList] then some ⟨[1, 2, 3], 5, 7⟩ else none
  isDir q := q = ["home".toList] || q = ["tmp".toList]
  cwd := ["home".toList]
  host := "pc".toList
  mime _ := none

example : ∃ g t, External.init machine { path := some ⟨false, ["a.txt".toList]⟩, saveContent := true } = .ok g ∧
    g.size = some 3 ∧ g.hostname = some "pc".toList ∧ g.save sumHash sumHash machine = .ok t ∧
    ∃ g', External.ofTree sumHash sumHash machine t = .ok g' ∧ g'.filename = some "a.txt".toList := by
  have hf : machine.files (machine.abs ⟨false, ["a.txt".toList]⟩) = some ⟨[1, 2, 3], 5, 7⟩ := by
    simp [machine, World.abs]
  obtain ⟨g, hg⟩ := ((C81_create machine { path := some ⟨false, ["a.txt".toList]⟩, saveContent := true }).2 _ rfl).1.2
    ⟨⟨_, hf⟩, by decide +kernel⟩
  obtain ⟨d, h1, -, h2, -, -, -, h3, -, -, h4, -⟩ :=
    ((C81_create machine { path := some ⟨false, ["a.txt".toList]⟩, saveContent := true }).2 _ rfl).2.2 g hg
  rw [hf] at h1
  cases h1
  obtain ⟨t, ht⟩ := C81_save_path (md5 := sumHash) (sha := sumHash) rfl hg rfl
  obtain ⟨g', e, hi, hi', -⟩ := C81_read (v := machine) ht
  exact ⟨g, t, hg, h3, h4, ht, g', e, by rw [← hi.filename, hi'.filename, h2]; rfl⟩

end Weldx.File
