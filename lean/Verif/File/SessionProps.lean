import Verif.File.Session

/-!
# Properties of sessions with `WeldxFile` objects (C63)
-/

namespace Weldx.File.Session

variable {S V : Type}

/-! ### Specification -/

/-- the argument names this location -/
def Input.Is (l : Loc) : Input → Prop
  | .none => False
  | .path p => l = .path p
  | .handle l' _ => l = l'

/-- the location existed before: it will not be used for a new buffer -/
def Old (w : World S V) : Loc → Prop
  | .path _ => True
  | .buf n => n < w.nextBuf

/-- the file object can not write to `l` itself -/
def Silent (l : Loc) (f : Wx S V) : Prop := f.loc = l → f.closed = true ∨ f.fdW = false

/-- bytes that are no ASDF file -/
def IsRaw (c : Option (Content V)) : Prop := ∃ n, c = some (.raw n)

/-- calls that must not change the content `c` of `l`: opening in mode "r", or by path if there is something that is no ASDF file;
copying to other places, or without `overwrite` if there is something that is no ASDF file; writing to other places; anything else -/
def Safe (l : Loc) (c : Option (Content V)) : Cmd S V → Prop
  | .open a => a.input.Is l → a.mode = .r ∨ IsRaw c ∧ ∃ p, a.input = .path p
  | .writeTo _ d => ¬ d.Is l
  | .copy _ d o => d.Is l → IsRaw c ∧ (∃ p, d = .path p) ∧ o = false
  | .set _ _ | .sync _ | .close _ => True

/-! ### Lemmas: one call -/

@[simp] theorem put_store_ne {w : World S V} {l l' : Loc} {c : Content V} (h : l ≠ l') : (w.put l' c).store l = w.store l := by
  simp [World.put, h]

@[simp] theorem put_store_self {w : World S V} {l : Loc} {c : Content V} : (w.put l c).store l = some c := by
  simp [World.put]

@[simp] theorem put_nextBuf {w : World S V} {l : Loc} {c : Content V} : (w.put l c).nextBuf = w.nextBuf := rfl
@[simp] theorem putKw_store {w : World S V} {k : ℕ} {s : Option S} : (w.putKw k s).store = w.store := rfl
@[simp] theorem putKw_nextBuf {w : World S V} {k : ℕ} {s : Option S} : (w.putKw k s).nextBuf = w.nextBuf := rfl
@[simp] theorem setKw_store {w : World S V} {k : ℕ} {s : Option S} : (setKw w k s).store = w.store := by
  cases s <;> rfl
@[simp] theorem setKw_nextBuf {w : World S V} {k : ℕ} {s : Option S} : (setKw w k s).nextBuf = w.nextBuf := by
  cases s <;> rfl
@[simp] theorem takeKw_store {w : World S V} {k : Option ℕ} : (takeKw w k).1.store = w.store := by
  cases k <;> rfl
@[simp] theorem takeKw_nextBuf {w : World S V} {k : Option ℕ} : (takeKw w k).1.nextBuf = w.nextBuf := by
  cases k <;> rfl

theorem Old.mono {w w' : World S V} {l : Loc} (h : Old w l) (hn : w.nextBuf ≤ w'.nextBuf) : Old w' l := by
  cases l with
  | path p => trivial
  | buf n => exact Nat.lt_of_lt_of_le h hn

theorem Old.ne {w : World S V} {l : Loc} (h : Old w l) : l ≠ .buf w.nextBuf := by
  rintro rfl
  exact Nat.lt_irrefl _ h

/-- what a call keeps: the content of `l`, and buffers stay buffers -/
structure Keeps (l : Loc) (w w' : World S V) : Prop where
  store : w'.store l = w.store l
  next : w.nextBuf ≤ w'.nextBuf

theorem Keeps.refl {l : Loc} {w : World S V} : Keeps l w w := ⟨rfl, Nat.le_refl _⟩

theorem Keeps.trans {l : Loc} {w w' w'' : World S V} (h : Keeps l w w') (h' : Keeps l w' w'') : Keeps l w w'' :=
  ⟨h'.store.trans h.store, Nat.le_trans h.next h'.next⟩

theorem Keeps.put {l l' : Loc} {w : World S V} {c : Content V} (h : l ≠ l') : Keeps l w (w.put l' c) :=
  ⟨put_store_ne h, Nat.le_refl _⟩

/-- preparing a location that is not `l`, or is only read -/
theorem handleInput_keeps {w : World S V} {l : Loc} (ho : Old w l) {m : Mode} {i : Input}
    (h : i.Is l → m = .r ∨ IsRaw (w.store l) ∧ ∃ p, i = .path p) : Keeps l w (handleInput w m i).1 := by
  cases i with
  | none =>
    refine ⟨?_, Nat.le_succ _⟩
    simp only [handleInput]
    exact put_store_ne ho.ne
  | path p =>
    cases m with
    | r =>
      simp only [handleInput, handlePath]
      cases w.store (.path p) <;> exact .refl
    | rw =>
      simp only [handleInput, handlePath]
      by_cases hl : l = .path p
      · subst hl
        rcases h rfl with h | ⟨⟨n, hn⟩, -⟩
        · cases h
        · rw [hn]; exact .refl
      · cases hs : w.store (.path p) with
        | none => exact .put hl
        | some c => cases c <;> exact .refl
  | handle l' wr => exact .refl

/-- what is prepared: it is `l` only if `l` was named and then nothing is created -/
theorem handleInput_loc {w w' : World S V} {l l' : Loc} (ho : Old w l) {m : Mode} {i : Input} {c : Bool}
    (h : i.Is l → m = .r ∨ IsRaw (w.store l) ∧ ∃ p, i = .path p) (e : handleInput w m i = (w', .ok (l', c))) (hl : l' = l) :
    m = .r ∧ c = false ∧ i.Is l := by
  subst hl
  cases i with
  | none =>
    simp only [handleInput, Prod.mk.injEq, Except.ok.injEq] at e
    exact absurd e.2.1.symm ho.ne
  | path p =>
    cases m with
    | r =>
      simp only [handleInput, handlePath] at e
      cases hs : w.store (.path p) with
      | none => simp [hs] at e
      | some x =>
        simp only [hs, Prod.mk.injEq, Except.ok.injEq] at e
        exact ⟨rfl, e.2.2.symm, e.2.1.symm⟩
    | rw =>
      simp only [handleInput, handlePath] at e
      have key : l' = .path p → False := by
        intro hp
        rcases h hp with h | ⟨⟨n, hn⟩, -⟩
        · cases h
        · rw [hp] at hn
          simp [hn] at e
      cases hs : w.store (.path p) with
      | none =>
        simp only [hs, Prod.mk.injEq, Except.ok.injEq] at e
        exact (key e.2.1.symm).elim
      | some x =>
        cases x with
        | asdf t =>
          simp only [hs, Prod.mk.injEq, Except.ok.injEq] at e
          exact (key e.2.1.symm).elim
        | raw n => simp [hs] at e
  | handle l'' wr =>
    simp only [handleInput, Prod.mk.injEq, Except.ok.injEq] at e
    obtain ⟨-, hl, hc⟩ := e
    rcases h hl.symm with rfl | ⟨-, p, hp⟩
    · exact ⟨rfl, hc.symm, hl.symm⟩
    · cases hp

/-- writing or reading the tree changes the prepared location only, and only in mode "rw" or for a new file -/
theorem load_keeps {lib : Lib S V} {w : World S V} {a : Args S V} {rs ws : Option S} {l l' : Loc} {c : Bool}
    (hm : ¬ (truthy a.tree ∧ a.mode ≠ .rw)) (h : l' = l → a.mode = .r ∧ c = false) :
    Keeps l w (load lib w a rs ws l' c).1 := by
  unfold load
  by_cases hl : l' = l
  · obtain ⟨h1, h2⟩ := h hl
    have ht : truthy a.tree = false := by
      cases ht : truthy a.tree
      · rfl
      · exact absurd ⟨ht, by simp [h1]⟩ hm
    simp only [ht, h2, Bool.or_self, Bool.false_eq_true, if_false]
    cases openAsdf lib w l' a.mode a.input.writable rs <;> exact .refl
  · have hl' : l ≠ l' := fun h => hl h.symm
    by_cases hc : (truthy a.tree || c) = true
    · simp only [hc, if_true]
      by_cases hc : c = true
      · simp only [hc, if_true]
        split
        · exact .put hl'
        · exact .refl
      · simp only [hc]
        cases openAsdf lib w l' .rw a.input.writable ws with
        | error e => exact .refl
        | ok t =>
          simp only [Bool.false_eq_true, if_false]
          split
          · exact .put hl'
          · exact .refl
    · simp only [hc]
      cases openAsdf lib w l' a.mode a.input.writable rs <;> exact .refl

/-- the handle of a file that is only read can not be written -/
theorem load_fdW {lib : Lib S V} {w w' : World S V} {a : Args S V} {rs ws hs : Option S} {l : Loc} {c b : Bool} {t : Tree V}
    (hm : ¬ (truthy a.tree ∧ a.mode ≠ .rw)) (h : a.mode = .r ∧ c = false)
    (e : load lib w a rs ws l c = (w', .ok (hs, b, t))) : b = false := by
  obtain ⟨h1, h2⟩ := h
  have ht : truthy a.tree = false := by
    cases ht : truthy a.tree
    · rfl
    · exact absurd ⟨ht, by simp [h1]⟩ hm
  unfold load at e
  simp only [ht, h2, Bool.or_self, Bool.false_eq_true, if_false] at e
  cases ho : openAsdf lib w l a.mode a.input.writable rs with
  | error e' => simp [ho] at e
  | ok t' =>
    simp only [ho, Prod.mk.injEq, Except.ok.injEq] at e
    rw [← e.2.2.1, h1]
    rfl

/-- opening a file keeps `l`, and the new object can not write to it -/
theorem openWx_keeps {lib : Lib S V} {w : World S V} {l : Loc} (ho : Old w l) {a : Args S V}
    (h : a.input.Is l → a.mode = .r ∨ IsRaw (w.store l) ∧ ∃ p, a.input = .path p) :
    Keeps l w (openWx lib w a).1 ∧ ∀ w' f, openWx lib w a = (w', .ok f) → Silent l f := by
  unfold openWx
  generalize hk : takeKw w a.kw = wk
  obtain ⟨w1, k⟩ := wk
  have hw1 : w1.store = w.store ∧ w1.nextBuf = w.nextBuf := by
    have h1 := takeKw_store (w := w) (k := a.kw)
    have h2 := takeKw_nextBuf (w := w) (k := a.kw)
    rw [hk] at h1 h2
    exact ⟨h1, h2⟩
  simp only
  generalize schemas (match w1.kws k with | some s => SchemaArg.one s | none => a.schema) = rws
  obtain ⟨rs, ws⟩ := rws
  simp only
  by_cases hm : truthy a.tree ∧ a.mode ≠ .rw
  · rw [if_pos hm]
    exact ⟨⟨by simp [hw1.1], by simp [hw1.2]⟩, fun _ _ e => by simp at e⟩
  rw [if_neg hm]
  have ho1 : Old (w1.putKw k none) l := ho.mono (by simp [hw1.2])
  have h1 : a.input.Is l → a.mode = .r ∨ IsRaw ((w1.putKw k none).store l) ∧ ∃ p, a.input = .path p := by
    simpa [hw1.1] using h
  have k0 : Keeps l w (w1.putKw k none) := ⟨by simp [hw1.1], by simp [hw1.2]⟩
  have k1 := handleInput_keeps ho1 h1
  generalize hh : handleInput (w1.putKw k none) a.mode a.input = r at k1
  obtain ⟨w2, r⟩ := r
  cases r with
  | error e => exact ⟨k0.trans k1, fun _ _ e => by simp at e⟩
  | ok lc =>
    obtain ⟨l', c⟩ := lc
    have hl := fun h => handleInput_loc ho1 h1 hh h
    simp only
    generalize hw3 : setKw w2 k (if (truthy a.tree || c) = true then ws else rs) = w3
    have k2 : Keeps l w2 w3 := by
      rw [← hw3]
      exact ⟨by simp, by simp⟩
    have k3 := load_keeps (lib := lib) (w := w3) (rs := rs) (ws := ws) (l := l) (l' := l') (c := c) hm
      (fun h => ⟨(hl h).1, (hl h).2.1⟩)
    generalize hld : load lib w3 a rs ws l' c = r at k3
    obtain ⟨w4, r⟩ := r
    cases r with
    | error e => exact ⟨((k0.trans k1).trans k2).trans k3, fun _ _ e => by simp at e⟩
    | ok x =>
      obtain ⟨hs, b, t⟩ := x
      refine ⟨((k0.trans k1).trans k2).trans k3, fun w' f e => ?_⟩
      simp only [Prod.mk.injEq, Except.ok.injEq] at e
      obtain ⟨-, rfl⟩ := e
      intro hloc
      exact .inr (load_fdW hm ⟨(hl hloc).1, (hl hloc).2.1⟩ hld)

theorem syncWx_keeps {lib : Lib S V} {w : World S V} {l : Loc} {f : Wx S V} (h : Silent l f) : Keeps l w (syncWx lib w f).1 := by
  unfold syncWx
  by_cases hc : f.closed = true
  · simp only [hc, if_true]; exact .refl
  · by_cases hw : f.fdW = false
    · simp only [hc, hw]; exact .refl
    · have hl : l ≠ f.loc := fun e => by
        rcases h e.symm with h | h
        · exact hc h
        · exact hw h
      have hw' : (!f.fdW) = false := by
        cases h : f.fdW
        · exact absurd h hw
        · rfl
      simp only [hc, hw', Bool.false_eq_true, if_false]
      split
      · exact .put hl
      · exact .refl

theorem closeWx_keeps {lib : Lib S V} {w : World S V} {l : Loc} {f : Wx S V} (h : Silent l f) :
    Keeps l w (closeWx lib w f).1 ∧ Silent l (closeWx lib w f).2.1 := by
  unfold closeWx
  have hk : Keeps l w (if (decide (f.mode = .rw) && f.sync) = true then syncWx lib w f else (w, .ok ())).1 := by
    split
    · exact syncWx_keeps h
    · exact .refl
  generalize (if (decide (f.mode = .rw) && f.sync) = true then syncWx lib w f else (w, .ok ())) = r at hk
  obtain ⟨w', r⟩ := r
  cases r with
  | error e => exact ⟨hk, h⟩
  | ok u =>
    simp only
    split
    · exact ⟨hk, h⟩
    · exact ⟨hk, fun _ => .inl rfl⟩

/-- writing to another place -/
theorem writeTo_keeps {lib : Lib S V} {w : World S V} {l : Loc} (ho : Old w l) {f : Wx S V} {i : Input} (h : ¬ i.Is l) :
    Keeps l w (writeTo lib w f i).1 ∧ ∀ w' i', writeTo lib w f i = (w', .ok i') → ¬ i'.Is l := by
  unfold writeTo
  split
  · exact ⟨.refl, fun _ _ e => by simp at e⟩
  · split
    · cases i with
      | none =>
        refine ⟨⟨put_store_ne ho.ne, Nat.le_succ _⟩, fun _ _ e => ?_⟩
        simp only [Prod.mk.injEq, Except.ok.injEq] at e
        rw [← e.2]
        exact ho.ne
      | path p =>
        refine ⟨.put h, fun _ _ e => ?_⟩
        simp only [Prod.mk.injEq, Except.ok.injEq] at e
        rw [← e.2]
        exact h
      | handle l' b =>
        refine ⟨.put h, fun _ _ e => ?_⟩
        simp only [Prod.mk.injEq, Except.ok.injEq] at e
        rw [← e.2]
        exact h
    · exact ⟨.refl, fun _ _ e => by simp at e⟩

theorem copyTarget_keeps {w : World S V} {l : Loc} {i : Input} {o : Bool}
    (h : i.Is l → IsRaw (w.store l) ∧ (∃ p, i = .path p) ∧ o = false) :
    Keeps l w (copyTarget w o i).1 ∧ ∀ w' i', copyTarget w o i = (w', .ok i') → ¬ i'.Is l := by
  cases i with
  | none =>
    refine ⟨.refl, fun _ _ e => ?_⟩
    simp only [copyTarget, Prod.mk.injEq, Except.ok.injEq] at e
    rw [← e.2]
    exact id
  | handle l' b =>
    refine ⟨.refl, fun _ _ e => ?_⟩
    simp only [copyTarget, Prod.mk.injEq, Except.ok.injEq] at e
    rw [← e.2]
    intro hi
    obtain ⟨-, ⟨p, hp⟩, -⟩ := h hi
    cases hp
  | path p =>
    simp only [copyTarget, handlePath]
    by_cases hl : l = .path p
    · obtain ⟨⟨n, hn⟩, -, ho⟩ := h hl
      rw [hl] at hn
      simp only [hn, ho, Bool.false_eq_true, if_false]
      exact ⟨.refl, fun _ _ e => by simp at e⟩
    · cases hs : w.store (.path p) with
      | none =>
        refine ⟨.put hl, fun _ _ e => ?_⟩
        simp only [Prod.mk.injEq, Except.ok.injEq] at e
        rw [← e.2]
        exact hl
      | some c =>
        cases c with
        | asdf t =>
          refine ⟨.refl, fun _ _ e => ?_⟩
          simp only [Prod.mk.injEq, Except.ok.injEq] at e
          rw [← e.2]
          exact hl
        | raw n =>
          simp only
          split
          · refine ⟨.refl, fun _ _ e => ?_⟩
            simp only [Prod.mk.injEq, Except.ok.injEq] at e
            rw [← e.2]
            exact hl
          · exact ⟨.refl, fun _ _ e => by simp at e⟩

theorem copyWx_keeps [DecidableEq S] {lib : Lib S V} {w : World S V} {l : Loc} (ho : Old w l) {f : Wx S V} {i : Input} {o : Bool}
    (h : i.Is l → IsRaw (w.store l) ∧ (∃ p, i = .path p) ∧ o = false) :
    Keeps l w (copyWx lib w f i o).1 ∧ ∀ w' f', copyWx lib w f i o = (w', .ok f') → Silent l f' := by
  unfold copyWx
  obtain ⟨k1, t1⟩ := copyTarget_keeps h
  generalize copyTarget w o i = r at k1 t1
  obtain ⟨w1, r⟩ := r
  cases r with
  | error e => exact ⟨k1, fun _ _ e => by simp at e⟩
  | ok i1 =>
    simp only
    have n1 := t1 w1 i1 rfl
    obtain ⟨k2, t2⟩ := writeTo_keeps (lib := lib) (f := f) (ho.mono k1.next) n1
    generalize writeTo lib w1 f i1 = r at k2 t2
    obtain ⟨w2, r⟩ := r
    cases r with
    | error e => exact ⟨k1.trans k2, fun _ _ e => by simp at e⟩
    | ok i2 =>
      have n2 := t2 w2 i2 rfl
      obtain ⟨k3, t3⟩ := openWx_keeps (lib := lib) (a := ⟨i2, f.mode, none, f.sync, customSchema f, some f.kw⟩)
        ((ho.mono k1.next).mono k2.next) (fun hi => absurd hi n2)
      exact ⟨(k1.trans k2).trans k3, t3⟩

theorem made_keeps {l : Loc} {w : World S V} {fs : List (Wx S V)} (hf : ∀ f ∈ fs, Silent l f)
    {r : World S V × Except Err (Wx S V)} (h : Keeps l w r.1 ∧ ∀ w' f, r = (w', .ok f) → Silent l f) :
    Keeps l w (made fs r).1.world ∧ ∀ f ∈ (made fs r).1.files, Silent l f := by
  obtain ⟨w', r⟩ := r
  cases r with
  | error e => exact ⟨h.1, hf⟩
  | ok f =>
    refine ⟨h.1, fun g hg => ?_⟩
    simp only [made, List.mem_append, List.mem_singleton] at hg
    rcases hg with hg | rfl
    · exact hf g hg
    · exact h.2 _ _ rfl

/-- one call that is safe for `l` -/
theorem step_keeps [DecidableEq S] {lib : Lib S V} {s : State S V} {l : Loc} (ho : Old s.world l)
    (hf : ∀ f ∈ s.files, Silent l f) {c : Cmd S V} (hc : Safe l (s.world.store l) c) :
    Keeps l s.world (step lib s c).1.world ∧ ∀ f ∈ (step lib s c).1.files, Silent l f := by
  cases c with
  | «open» a => exact made_keeps hf (openWx_keeps ho hc)
  | set i t =>
    simp only [step]
    cases hi : s.files[i]? with
    | none => exact ⟨.refl, hf⟩
    | some f =>
      refine ⟨.refl, fun g hg => ?_⟩
      rcases List.mem_or_eq_of_mem_set hg with hg | rfl
      · exact hf g hg
      · exact hf f (List.mem_of_getElem? hi)
  | sync i =>
    simp only [step]
    cases hi : s.files[i]? with
    | none => exact ⟨.refl, hf⟩
    | some f => exact ⟨syncWx_keeps (hf f (List.mem_of_getElem? hi)), hf⟩
  | close i =>
    simp only [step]
    cases hi : s.files[i]? with
    | none => exact ⟨.refl, hf⟩
    | some f =>
      obtain ⟨h1, h2⟩ := closeWx_keeps (lib := lib) (w := s.world) (hf f (List.mem_of_getElem? hi))
      refine ⟨h1, fun g hg => ?_⟩
      rcases List.mem_or_eq_of_mem_set hg with hg | rfl
      · exact hf g hg
      · exact h2
  | writeTo i d =>
    simp only [step]
    cases hi : s.files[i]? with
    | none => exact ⟨.refl, hf⟩
    | some f =>
      have h1 := (writeTo_keeps (lib := lib) (f := f) ho hc).1
      simp only
      generalize writeTo lib s.world f d = r at h1
      obtain ⟨w, r⟩ := r
      cases r <;> exact ⟨h1, hf⟩
  | copy i d o =>
    simp only [step]
    cases hi : s.files[i]? with
    | none => exact ⟨.refl, hf⟩
    | some f => exact made_keeps hf (copyWx_keeps ho hc)

/-! ## C63 -/

/-- **C63** (isolation): let no open file object be able to write to `l`. No sequence of calls changes the content of `l`, if each of them
opens `l` in mode "r" only, or opens it by its path where it is no ASDF file; writes to other places; and copies to other places or
without `overwrite` where `l` is no ASDF file. This holds for calls that raise, for files that are changed in memory, synchronised,
closed, and for copies of copies. -/
theorem C63_isolation [DecidableEq S] {lib : Lib S V} {s : State S V} {l : Loc} (ho : Old s.world l)
    (hf : ∀ f ∈ s.files, Silent l f) {cs : List (Cmd S V)} (hc : ∀ c ∈ cs, Safe l (s.world.store l) c) :
    (run lib s cs).world.store l = s.world.store l ∧ ∀ f ∈ (run lib s cs).files, Silent l f := by
  induction cs generalizing s with
  | nil => exact ⟨rfl, hf⟩
  | cons c t ih =>
    obtain ⟨h1, h2⟩ := step_keeps (lib := lib) ho hf (hc c (by simp))
    obtain ⟨h3, h4⟩ := ih (s := (step lib s c).1) (ho.mono h1.next) h2 (fun c' h => by
      rw [h1.store]
      exact hc c' (by simp [h]))
    exact ⟨h3.trans h1.store, h4⟩

/-- **C63** (saving): closing a file with mode "rw" and `sync` stores its tree; the tree is still there after any sequence of safe calls,
provided no other object can write to the location; and opening it in mode "r" gives this tree, or a `ValidationError` if the schema
does not accept it. -/
theorem C63_saved [DecidableEq S] {lib : Lib S V} {s : State S V} {i : ℕ} {f : Wx S V} (hi : s.files[i]? = some f)
    (hm : f.mode = .rw) (hs : f.sync = true) (hk : (step lib s (.close i)).2 = .ok ()) (ho : Old s.world f.loc)
    (hf : ∀ j g, j ≠ i → s.files[j]? = some g → Silent f.loc g) {cs : List (Cmd S V)}
    (hc : ∀ c ∈ cs, Safe f.loc (some (.asdf f.tree)) c) :
    (run lib s (.close i :: cs)).world.store f.loc = some (.asdf f.tree) ∧
    ∀ a : Args S V, (a.input = .handle f.loc true ∨ ∃ p, f.loc = .path p ∧ a.input = .path p) → a.mode = .r → a.tree = none →
      a.kw = none →
      match (openWx lib (run lib s (.close i :: cs)).world a).2 with
      | .ok g => g.tree = f.tree ∧ lib.accept (schemas a.schema).1 f.tree = true
      | .error e => e = .validation ∧ lib.accept (schemas a.schema).1 f.tree = false := by
  have hst : (step lib s (.close i)).1.world.store f.loc = some (.asdf f.tree) ∧
      s.world.nextBuf ≤ (step lib s (.close i)).1.world.nextBuf ∧
      ∀ g ∈ (step lib s (.close i)).1.files, Silent f.loc g := by
    simp only [step, hi, closeWx, hm, hs, decide_true, Bool.and_self, if_true, syncWx] at hk ⊢
    by_cases h1 : f.closed = true
    · simp [h1] at hk
    · by_cases h2 : (!f.fdW) = true
      · simp [h1, h2] at hk
      · by_cases h3 : lib.acceptW f.handleS f.tree = true
        · simp only [h1, h2, h3]
          refine ⟨put_store_self, Nat.le_refl _, fun g hg => ?_⟩
          obtain ⟨j, hj⟩ := List.mem_iff_getElem?.1 hg
          by_cases hji : j = i
          · subst hji
            have : j < s.files.length := (List.getElem?_eq_some_iff.1 hi).1
            simp only [if_true, if_false, Bool.false_eq_true, List.getElem?_set_self this, Option.some.injEq] at hj
            rw [← hj]
            exact fun _ => .inl rfl
          · simp only [if_true, if_false, Bool.false_eq_true, List.getElem?_set_ne (Ne.symm hji)] at hj
            exact hf j g hji hj
        · simp [h1, h2, h3] at hk
  obtain ⟨h1, h2, h3⟩ := hst
  have h4 := (C63_isolation (lib := lib) (s := (step lib s (.close i)).1) (cs := cs) (ho.mono h2) h3 (by rwa [h1])).1.trans h1
  have hr : run lib s (.close i :: cs) = run lib (step lib s (.close i)).1 cs := rfl
  refine ⟨hr ▸ h4, fun a ha hmode htree hkw => ?_⟩
  rw [hr]
  generalize (run lib (step lib s (.close i)).1 cs).world = w at h4
  unfold openWx
  simp only [hkw, takeKw, World.putKw, if_true, htree, truthy, Bool.false_eq_true, false_and, if_false, hmode]
  have hin : ∀ w' : World S V, w'.store f.loc = some (.asdf f.tree) →
      handleInput w' .r a.input = (w', .ok (f.loc, false)) ∧ a.input.writable = true := by
    intro w' hw'
    rcases ha with ha | ⟨p, hp, ha⟩
    · rw [ha]
      exact ⟨by simp only [handleInput], rfl⟩
    · rw [ha]
      rw [hp] at hw' ⊢
      exact ⟨by simp only [handleInput, handlePath, hw'], rfl⟩
  rw [(hin _ (by simpa using h4)).1]
  simp only [Bool.or_self, Bool.false_eq_true, if_false, load, htree, truthy, openAsdf, setKw_store, h4, hmode, reduceCtorEq,
    false_and]
  cases hacc : lib.accept (schemas a.schema).1 f.tree <;> simp

/-- **C63** (without `sync`, or in mode "r"): closing changes nothing -/
theorem C63_close_without_sync {lib : Lib S V} {w : World S V} {f : Wx S V} (h : f.mode = .r ∨ f.sync = false) :
    (closeWx lib w f).1 = w := by
  unfold closeWx
  have : (decide (f.mode = .rw) && f.sync) = false := by
    rcases h with h | h <;> simp [h]
  simp only [this, Bool.false_eq_true, if_false]
  split <;> rfl

/-- **C63** (closing twice): after a successful `close` the next one raises -/
theorem C63_close_twice {lib : Lib S V} {w w' w'' : World S V} {f f' : Wx S V} (h : closeWx lib w f = (w', f', .ok ())) :
    ∃ e, closeWx lib w'' f' = (w'', f', .error e) := by
  have hc : f'.closed = true := by
    unfold closeWx at h
    generalize (if (decide (f.mode = .rw) && f.sync) = true then syncWx lib w f else (w, .ok ())) = r at h
    obtain ⟨w1, r⟩ := r
    cases r with
    | error e => simp at h
    | ok u =>
      simp only at h
      split at h
      · simp at h
      · simp only [Prod.mk.injEq] at h
        rw [← h.2.1]
  unfold closeWx syncWx
  by_cases hb : (decide (f'.mode = .rw) && f'.sync) = true
  · exact ⟨.value, by simp only [hb, hc, if_true]⟩
  · exact ⟨.runtime, by simp [hb, hc]⟩

/-- **C63** (a tree in mode "r" is rejected and nothing is written) -/
theorem C63_tree_needs_rw {lib : Lib S V} {w : World S V} {a : Args S V} {t : Tree V} (ht : a.tree = some t) (hn : t ≠ [])
    (hm : a.mode = .r) : (openWx lib w a).2 = .error .runtime ∧ (openWx lib w a).1.store = w.store := by
  have : truthy a.tree = true := by
    rw [ht]
    cases t with
    | nil => exact absurd rfl hn
    | cons => rfl
  unfold openWx
  simp only [this, hm, true_and, ne_eq, reduceCtorEq, not_false_eq_true, if_true]
  simp

/-- **C63** (refuted part: the schema for writing is not used): if an existing file is opened in mode "rw" without a tree, the file
object has the schema for reading as its schema, whatever the schema for writing is; `sync`, `close` and `write_to` use this schema.
The documentation says that the second schema is used "upon writing". -/
theorem C63_write_schema_unused {lib : Lib S V} {w : World S V} {p : String} {t : Tree V} {r : S} {ws : Option S} {sy : Bool}
    (hp : w.store (.path p) = some (.asdf t)) (hr : lib.accept (some r) t = true) :
    ∃ w' f, openWx lib w ⟨.path p, .rw, none, sy, .pair (some r) ws, none⟩ = (w', .ok f) ∧
      f.writeS = ws ∧ f.tree = t ∧
      ∀ t' w'', syncWx lib w'' { f with tree := t' } =
        if lib.acceptW (some r) t' = true then (w''.put (.path p) (.asdf t'), .ok ()) else (w'', .error .validation) := by
  unfold openWx
  simp only [takeKw, World.putKw, if_true, schemas, truthy, Bool.false_eq_true, false_and, if_false, handleInput, handlePath, hp,
    load, Bool.or_self, openAsdf, setKw_store, Input.writable, hr, Bool.true_eq_false, and_false]
  exact ⟨_, _, rfl, rfl, rfl, fun t' w'' => by simp [syncWx]⟩

/-- **C63** (refuted part: `overwrite=False` does not protect): copying to the path of another ASDF file replaces it -/
theorem C63_copy_overwrites [DecidableEq S] {lib : Lib S V} {w : World S V} {f : Wx S V} {p : String} {t : Tree V}
    (hp : w.store (.path p) = some (.asdf t)) (hc : f.closed = false) (ha : lib.acceptW f.handleS f.tree = true) :
    (copyWx lib w f (.path p) false).1.store (.path p) = some (.asdf f.tree) := by
  unfold copyWx
  simp only [copyTarget, handlePath, hp, writeTo, hc, Input.writable, Bool.not_true, Bool.or_self, Bool.false_eq_true, if_false, ha,
    if_true]
  unfold openWx
  simp only [takeKw, truthy, Bool.false_eq_true, false_and, if_false]
  generalize hw : World.putKw (w.put (.path p) (.asdf f.tree)) f.kw none = w1
  have h1 : w1.store (.path p) = some (.asdf f.tree) := by
    rw [← hw]
    simp
  have hin : handleInput w1 f.mode (.handle (.path p) true) = (w1, .ok (.path p, false)) := by
    simp only [handleInput, h1]
    cases f.mode <;> rfl
  simp only [hin, Bool.or_self, Bool.false_eq_true, if_false, load, truthy]
  generalize openAsdf lib _ _ _ _ _ = r
  cases r <;> simp [h1]

/-- opening something that is no ASDF file by its path in mode "rw" -/
theorem openWx_raw {lib : Lib S V} {w : World S V} {p : String} {n : ℕ} (hp : w.store (.path p) = some (.raw n)) {a : Args S V}
    (ha : a.input = .path p) (hm : a.mode = .rw) : (openWx lib w a).2 = .error .fileExists := by
  unfold openWx
  have h1 : (takeKw w a.kw).1.store (.path p) = some (.raw n) := by simpa using hp
  generalize takeKw w a.kw = wk at h1
  obtain ⟨w1, k⟩ := wk
  simp only [ha, hm, ne_eq, not_true_eq_false, and_false, if_false, handleInput, handlePath, putKw_store]
  simp only at h1
  rw [h1]

/-- **C63** (refuted part: a rejected tree leaves an empty file): creating a file with a tree that its schema does not accept raises, the
path now has an empty file, and every later attempt to open the path in mode "rw" raises `FileExistsError` -/
theorem C63_rejected_leaves_file {lib : Lib S V} {w : World S V} {p : String} {t : Tree V} {s : S} {sy : Bool}
    (hp : w.store (.path p) = none) (hr : lib.accept (some s) t = false) :
    ∃ w', openWx lib w ⟨.path p, .rw, some t, sy, .one s, none⟩ = (w', .error .validation) ∧
      w'.store (.path p) = some (.raw 0) ∧
      ∀ a : Args S V, a.input = .path p → a.mode = .rw → (openWx lib w' a).2 = .error .fileExists := by
  unfold openWx
  simp only [takeKw, World.putKw, if_true, schemas, handleInput, handlePath, hp, load, Bool.or_true, hr, Option.getD,
    Bool.false_and, Bool.false_eq_true, if_false, ne_eq, not_true_eq_false, and_false]
  exact ⟨_, rfl, by simp, fun a ha hm => openWx_raw (n := 0) (by simp) ha hm⟩

/-- **C63** (refuted part: a copy does not keep the schemas): a file that was opened for reading with the schemas `(r, ws)` is copied to a
new buffer. The copy has `r` as schema for writing. -/
theorem C63_copy_schema [DecidableEq S] {lib : Lib S V} {w : World S V} {p : String} {t : Tree V} {r ws : S} {m : Mode} {sy : Bool}
    (hp : w.store (.path p) = some (.asdf t)) (hr : lib.accept (some r) t = true) (hw : lib.acceptW (some r) t = true) :
    ∃ w' f, openWx lib w ⟨.path p, m, none, sy, .pair (some r) (some ws), none⟩ = (w', .ok f) ∧
      f.readS = some r ∧ f.writeS = some ws ∧
      ∃ w'' g, copyWx lib w' f .none false = (w'', .ok g) ∧ g.tree = t ∧ g.readS = some r ∧ g.writeS = some r := by
  cases m <;>
  · unfold openWx
    simp only [takeKw, World.putKw, if_true, schemas, truthy, Bool.false_eq_true, false_and, if_false, handleInput, handlePath, hp,
      load, Bool.or_self, openAsdf, setKw_store, Input.writable, hr, Bool.true_eq_false, and_false]
    refine ⟨_, _, rfl, rfl, rfl, ?_⟩
    simp only [copyWx, copyTarget, writeTo, Input.writable, Bool.not_true, Bool.or_self, Bool.false_eq_true, if_false, hw, if_true,
      openWx, takeKw, World.putKw, setKw, schemas, truthy, false_and, handleInput, World.put, load, openAsdf, hr,
      Bool.true_eq_false, and_false]
    exact ⟨_, _, rfl, rfl, rfl, rfl⟩

/-- **C63** (refuted part: `asdffile_kwargs` is changed): if the same dictionary is passed to a second `WeldxFile`, the schema of the first
one is used there and the argument `custom_schema` is ignored -/
theorem C63_kwargs_shared {lib : Lib S V} {w : World S V} {p q : String} {t u : Tree V} {r r' : S} {k : ℕ}
    (hp : w.store (.path p) = some (.asdf t)) (hr : lib.accept (some r) t = true)
    (hq : w.store (.path q) = some (.asdf u)) (hu : lib.accept (some r) u = true) (hk : w.kws k = none) :
    ∃ w' f, openWx lib w ⟨.path p, .r, none, true, .one r, some k⟩ = (w', .ok f) ∧
      ∃ w'' g, openWx lib w' ⟨.path q, .r, none, true, .one r', some k⟩ = (w'', .ok g) ∧
        g.readS = some r ∧ g.writeS = some r := by
  unfold openWx
  simp only [takeKw, hk, World.putKw, schemas, truthy, Bool.false_eq_true, false_and, if_false, handleInput, handlePath, hp,
    load, Bool.or_self, openAsdf, setKw, hr, if_true, reduceCtorEq]
  refine ⟨_, _, rfl, ?_⟩
  simp only [hq, Bool.or_self, Bool.false_eq_true, if_false, false_and, hu, if_true]
  exact ⟨_, _, rfl, rfl, rfl⟩

/-- **C63** (writing): a file is written only with a tree that its schema accepts, and then contains this tree -/
theorem C63_written {lib : Lib S V} {w w' : World S V} {f : Wx S V} {i j : Input} (h : writeTo lib w f i = (w', .ok j)) :
    lib.acceptW f.handleS f.tree = true ∧ f.closed = false ∧ i.writable = true ∧
      ∀ l, (j = .handle l true ∨ ∃ p, l = .path p ∧ j = .path p) → w'.store l = some (.asdf f.tree) := by
  unfold writeTo at h
  by_cases h1 : (f.closed || !i.writable) = true
  · simp [h1] at h
  · simp only [h1, Bool.false_eq_true, if_false] at h
    have h1' : f.closed = false ∧ i.writable = true := by
      cases hc : f.closed <;> cases hi : i.writable <;> simp_all
    by_cases h2 : lib.acceptW f.handleS f.tree = true
    · refine ⟨h2, h1'.1, h1'.2, fun l hl => ?_⟩
      simp only [h2, if_true] at h
      cases i with
      | none =>
        simp only [Prod.mk.injEq, Except.ok.injEq] at h
        obtain ⟨rfl, rfl⟩ := h
        rcases hl with hl | ⟨p, -, hl⟩
        · cases hl; exact put_store_self
        · cases hl
      | path q =>
        simp only [Prod.mk.injEq, Except.ok.injEq] at h
        obtain ⟨rfl, rfl⟩ := h
        rcases hl with hl | ⟨p, rfl, hl⟩
        · cases hl
        · cases hl; exact put_store_self
      | handle l' wr =>
        simp only [Prod.mk.injEq, Except.ok.injEq] at h
        obtain ⟨rfl, rfl⟩ := h
        rcases hl with hl | ⟨p, -, hl⟩
        · cases hl; exact put_store_self
        · cases hl
    · simp [h2] at h

/-- **C63** (changes through the mapping interface): only the tree of the file itself changes, and no file on disk -/
theorem C63_set [DecidableEq S] {lib : Lib S V} {s : State S V} {i : ℕ} {t : Tree V} :
    (step lib s (.set i t)).1.world = s.world ∧
    (∀ j, j ≠ i → (step lib s (.set i t)).1.files[j]? = s.files[j]?) ∧
    ∀ f, s.files[i]? = some f → (step lib s (.set i t)).1.files[i]? = some { f with tree := t } := by
  cases hi : s.files[i]? with
  | none =>
    simp only [step, hi]
    exact ⟨trivial, fun _ _ => trivial, fun f hf => by cases hf⟩
  | some f =>
    simp only [step, hi]
    refine ⟨trivial, fun j hj => List.getElem?_set_ne (Ne.symm hj), fun g hg => ?_⟩
    cases hg
    exact List.getElem?_set_self (List.getElem?_eq_some_iff.1 hi).1

/-- **C63** (new files): creating a file stores the given tree; the file object has the schema for writing and validates with it -/
theorem C63_created {lib : Lib S V} {w : World S V} {p : String} {t : Tree V} {r ws : Option S} {sy : Bool}
    (hp : w.store (.path p) = none) (ha : lib.accept ws t = true) (hw : lib.acceptW ws t = true) :
    ∃ w' f, openWx lib w ⟨.path p, .rw, some t, sy, .pair r ws, none⟩ = (w', .ok f) ∧
      w'.store (.path p) = some (.asdf t) ∧ f.tree = t ∧ f.mode = .rw ∧ f.sync = sy ∧ f.readS = r ∧ f.writeS = ws ∧
      ∀ t' w'', syncWx lib w'' { f with tree := t' } =
        if lib.acceptW ws t' = true then (w''.put (.path p) (.asdf t'), .ok ()) else (w'', .error .validation) := by
  unfold openWx
  simp only [takeKw, World.putKw, if_true, schemas, ne_eq, not_true_eq_false, and_false, if_false, handleInput, handlePath, hp,
    load, Bool.or_true, Option.getD_some, ha, hw, Bool.and_self]
  refine ⟨_, _, rfl, put_store_self, rfl, rfl, by simp, rfl, rfl, fun t' w'' => by simp [syncWx]⟩

/-- **C63** (read only handles): a handle that can not be written is refused in mode "rw", and its content is not changed -/
theorem C63_readonly_handle {lib : Lib S V} {w : World S V} {l : Loc} {t : Option (Tree V)} {sc : SchemaArg S} {sy : Bool} {k : Option ℕ} :
    (openWx lib w ⟨.handle l false, .rw, t, sy, sc, k⟩).2 = .error .value ∧
      (openWx lib w ⟨.handle l false, .rw, t, sy, sc, k⟩).1.store = w.store := by
  unfold openWx
  cases hk : takeKw w k with
  | mk w' k' =>
    have hs : w'.store = w.store := by
      cases k <;> simp only [takeKw, Prod.mk.injEq] at hk <;> simp [← hk.1]
    simp only [ne_eq, not_true_eq_false, and_false, if_false, handleInput, load, Bool.or_false, Bool.false_eq_true, openAsdf,
      Input.writable, and_self, if_true]
    cases truthy t <;> simp [setKw_store, hs, World.putKw]

/-- **C63** (modes): only files that were opened in mode "rw" are synchronised when they are closed -/
theorem C63_sync_mode {lib : Lib S V} {w w' : World S V} {a : Args S V} {f : Wx S V} (h : openWx lib w a = (w', .ok f)) :
    f.mode = a.mode ∧ (f.sync = true ↔ a.sync = true ∧ a.mode = .rw) := by
  unfold openWx at h
  cases hk : takeKw w a.kw with
  | mk w1 k =>
    rw [hk] at h
    simp only at h
    split at h
    · simp at h
    · split at h
      · simp at h
      · split at h
        · simp at h
        · simp only [Prod.mk.injEq, Except.ok.injEq] at h
          rw [← h.2]
          simp

/-! ### Examples -/

/-- a library with a schema that asks for the key "a", one that asks for "b" -/
def exLib : Lib String ℕ := ⟨fun s t => match s with | none => true | some k => t.any (·.1 = k), fun _ _ => true⟩

/-- a directory with an ASDF file, a text file and no open files -/
def exState : State String ℕ :=
  ⟨⟨fun l => if l = .path "x.wx" then some (.asdf [("a", 1)]) else if l = .path "n.txt" then some (.raw 4) else none,
    fun _ => none, 0, 0⟩, []⟩

/-- open for writing, change, read the other file, close -/
def exCmds : List (Cmd String ℕ) :=
  [.open ⟨.path "x.wx", .rw, none, true, .one "a", none⟩, .set 0 [("b", 2)], .open ⟨.path "n.txt", .rw, none, true, .none, none⟩,
    .copy 0 (.path "n.txt") false, .copy 0 .none false]

/-- the hypotheses of `C63_isolation` hold for the text file -/
example : Old exState.world (.path "n.txt") ∧ (∀ f ∈ exState.files, Silent (.path "n.txt") f) ∧
    ∀ c ∈ exCmds, Safe (.path "n.txt") (exState.world.store (.path "n.txt")) c := by
  refine ⟨trivial, by simp [exState], fun c hc => ?_⟩
  simp only [exCmds, List.mem_cons, List.not_mem_nil, or_false] at hc
  rcases hc with rfl | rfl | rfl | rfl | rfl
  · intro h; simp [Input.Is] at h
  · trivial
  · exact fun _ => .inr ⟨⟨4, rfl⟩, _, rfl⟩
  · exact fun _ => ⟨⟨4, rfl⟩, ⟨_, rfl⟩, rfl⟩
  · exact fun h => h.elim

/-- the session makes one file, the copy is rejected by the schema; the hypotheses of `C63_saved` hold for it -/
example : (run exLib exState exCmds).files.length = 1 ∧
    (step exLib (run exLib exState exCmds) (.close 0)).2 = .ok () ∧
    (run exLib exState exCmds).files[0]?.map (fun f => (f.mode, f.sync, f.loc, f.tree)) =
      some (.rw, true, .path "x.wx", [("b", 2)]) := by
  refine ⟨rfl, rfl, rfl⟩

/-! ### Dictionaries, empty trees, empty files and schemas -/

theorem handleInput_kws {w : World S V} {m : Mode} {i : Input} :
    (handleInput w m i).1.kws = w.kws ∧ (handleInput w m i).1.nextKw = w.nextKw := by
  cases i with
  | none => exact ⟨rfl, rfl⟩
  | path p =>
    cases m <;> (simp only [handleInput, handlePath]; split <;> exact ⟨rfl, rfl⟩)
  | handle l wr => exact ⟨rfl, rfl⟩

theorem load_kws {lib : Lib S V} {w : World S V} {a : Args S V} {rs ws : Option S} {l : Loc} {c : Bool} :
    (load lib w a rs ws l c).1.kws = w.kws ∧ (load lib w a rs ws l c).1.nextKw = w.nextKw := by
  unfold load
  split
  · simp only
    split
    · split <;> exact ⟨rfl, rfl⟩
    · split
      · exact ⟨rfl, rfl⟩
      · split <;> exact ⟨rfl, rfl⟩
  · split <;> exact ⟨rfl, rfl⟩

theorem load_schema {lib : Lib S V} {w w' : World S V} {a : Args S V} {rs ws hs : Option S} {l : Loc} {c b : Bool} {t : Tree V}
    (h : load lib w a rs ws l c = (w', .ok (hs, b, t))) : hs = if truthy a.tree || c then ws else rs := by
  unfold load at h
  split at h
  · rename_i hc
    rw [if_pos hc]
    simp only at h
    split at h
    · split at h
      · simp only [Prod.mk.injEq, Except.ok.injEq] at h; exact h.2.1.symm
      · simp at h
    · split at h
      · simp at h
      · split at h
        · simp only [Prod.mk.injEq, Except.ok.injEq] at h; exact h.2.1.symm
        · simp at h
  · rename_i hc
    rw [if_neg hc]
    split at h
    · simp at h
    · simp only [Prod.mk.injEq, Except.ok.injEq] at h; exact h.2.1.symm

/-- **C63** (dictionaries): opening a file uses the given dictionary or a new one, stores the schema of the file there, and changes no
other dictionary -/
theorem C63_kwargs {lib : Lib S V} {w w' : World S V} {a : Args S V} {f : Wx S V} (h : openWx lib w a = (w', .ok f)) :
    f.kw = a.kw.getD w.nextKw ∧ w'.nextKw = (if a.kw = none then w.nextKw + 1 else w.nextKw) ∧ w'.kws f.kw = f.handleS ∧
      ∀ k, k ≠ f.kw → w'.kws k = w.kws k := by
  unfold openWx at h
  cases hk : takeKw w a.kw with
  | mk w1 k =>
    rw [hk] at h
    have h1 : k = a.kw.getD w.nextKw ∧ w1.nextKw = (if a.kw = none then w.nextKw + 1 else w.nextKw) ∧ ∀ j, j ≠ k → w1.kws j = w.kws j := by
      cases ha : a.kw with
      | none =>
        simp only [ha, takeKw, Prod.mk.injEq] at hk
        obtain ⟨rfl, rfl⟩ := hk
        exact ⟨rfl, by simp, fun j hj => by simp [World.putKw, hj]⟩
      | some j =>
        simp only [ha, takeKw, Prod.mk.injEq] at hk
        obtain ⟨rfl, rfl⟩ := hk
        exact ⟨rfl, by simp, fun _ _ => rfl⟩
    simp only at h
    split at h
    · simp at h
    · split at h
      · simp at h
      · rename_i w2 l created hin
        split at h
        · simp at h
        · rename_i w3 hs fdW t hl
          simp only [Prod.mk.injEq, Except.ok.injEq] at h
          obtain ⟨rfl, rfl⟩ := h
          have e1 := handleInput_kws (w := w1.putKw k none) (m := a.mode) (i := a.input)
          rw [hin] at e1
          have e2 := congrArg (fun x => x.1.kws) hl
          have e4 := congrArg (fun x => x.1.nextKw) hl
          simp only [load_kws.1, load_kws.2] at e2 e4
          have e3 := load_schema hl
          simp only at e1
          refine ⟨h1.1, ?_, ?_, fun j hj => ?_⟩
          · rw [← e4, ← h1.2.1]
            unfold setKw
            split
            · exact e1.2
            · exact e1.2
          · simp only
            rw [← e2, ← e3]
            unfold setKw
            split
            · rename_i he
              rw [e1.1]
              simp [World.putKw]
            · rename_i s he
              simp [World.putKw]
          · simp only at hj
            rw [← e2, ← h1.2.2 j hj]
            unfold setKw
            split
            · rw [e1.1]; simp [World.putKw, hj]
            · simp [World.putKw, hj, e1.1]

/-- **C63** (empty trees): an empty tree is the same as none; in particular it is allowed in mode "r" -/
theorem C63_empty_tree {lib : Lib S V} {w : World S V} {a : Args S V} :
    openWx lib w { a with tree := some [] } = openWx lib w { a with tree := none } := by
  unfold openWx load
  rfl

/-- **C63** (empty files): a handle of an empty file that can be written is treated as a new file -/
theorem C63_empty_handle {lib : Lib S V} {w : World S V} {l : Loc} {t : Option (Tree V)} {r ws : Option S} {sy : Bool}
    (hl : w.store l = some (.raw 0)) (ha : lib.accept ws (t.getD []) = true) (hw : lib.acceptW ws (t.getD []) = true) :
    ∃ w' f, openWx lib w ⟨.handle l true, .rw, t, sy, .pair r ws, none⟩ = (w', .ok f) ∧
      w'.store l = some (.asdf (t.getD [])) ∧ f.tree = t.getD [] ∧ f.handleS = ws ∧ f.loc = l := by
  unfold openWx
  simp only [takeKw, World.putKw, if_true, schemas, ne_eq, not_true_eq_false, and_false, if_false, handleInput, hl,
    load, Bool.or_true, ha, hw, Bool.and_self]
  exact ⟨_, _, rfl, put_store_self, rfl, rfl, rfl⟩

/-- **C63** (schemas): the attribute `custom_schema` contains the schemas for reading and writing -/
theorem C63_custom_schema [DecidableEq S] (f : Wx S V) : schemas (customSchema f) = (f.readS, f.writeS) := by
  unfold customSchema
  split
  · rename_i h
    rw [← h]
    cases f.readS <;> rfl
  · rfl

end Weldx.File.Session
