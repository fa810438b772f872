import Verif.Measurement.Lemmas
import Verif.Measurement.Spec

/-! # Invariant of all measurement chains -/

set_option linter.unusedSimpArgs false

namespace Weldx.Meas
variable {U D : Type}

structure GraphInv (sigs : List (Signal U D)) (g : Graph U) (src : String) : Prop where
  tree : IsTree g src
  edge_keys : (Dict.keys g.edges).Nodup
  refs : ∀ n r, Dict.get? g.nodes n = some r → r < sigs.length
  fits : ∀ a b e, ((a, b), e) ∈ g.edges → ∃ sa sb, SignalOf sigs g a sa ∧ SignalOf sigs g b sb ∧
    Fits e.transformation sa sb

/-- invariant of the program state -/
def WInv (w : World U D) : Prop := ∀ (c : Nat) (ch : Chain U), w.chains[c]? = some ch → ∃ g, w.graphs[ch.graph]? = some g ∧
  GraphInv w.sigs g ch.source.name ∧ ch.prev ∈ Dict.keys g.nodes ∧
  Dict.get? g.nodes ch.source.name = some ch.source.sig

theorem determineOutput_fits {tr : Transformation U} {s out : Signal U D} {data : Option D}
    (h : determineOutput tr s data = .ok out) : Fits tr s out ∧ out.data = data := by
  unfold determineOutput at h
  cases h1 : determineType tr.ty s.ty with
  | error e => rw [h1] at h; cases h
  | ok ty =>
    cases h2 : determineUnit tr.func s.units with
    | error e => rw [h1, h2] at h; cases h
    | ok u =>
      rw [h1, h2] at h
      cases h
      refine ⟨⟨?_, ?_⟩, rfl⟩
      · cases ht : tr.ty with
        | none => rw [ht] at h1; simpa [determineType] using h1.symm
        | some p =>
          obtain ⟨i, o⟩ := p
          rw [ht] at h1
          simp only [determineType] at h1
          split at h1
          · cases h1
          · rename_i hi; cases h1; exact ⟨by simpa using hi, rfl⟩
      · cases hf : tr.func with
        | none => rw [hf] at h2; simpa [determineUnit] using h2.symm
        | some f =>
          rw [hf] at h2
          simp only [determineUnit] at h2
          split at h2
          · cases h2
          · cases hu : f.unit s.units with
            | none => rw [hu] at h2; cases h2
            | some v => rw [hu] at h2; cases h2; exact hu

/-- signals only change their data -/
def SigsExtend (l l' : List (Signal U D)) : Prop := l.length ≤ l'.length ∧ ∀ (i : Nat) s, l[i]? = some s →
  ∃ s', l'[i]? = some s' ∧ s'.ty = s.ty ∧ s'.units = s.units ∧ (s.data ≠ none → s' = s)

theorem SigsExtend.refl (l : List (Signal U D)) : SigsExtend l l :=
  ⟨Nat.le_refl _, fun _ s h => ⟨s, h, rfl, rfl, fun _ => rfl⟩⟩

theorem SigsExtend.push (l : List (Signal U D)) (s : Signal U D) : SigsExtend l (l ++ [s]) := by
  refine ⟨by simp, fun i t h => ⟨t, ?_, rfl, rfl, fun _ => rfl⟩⟩
  rw [List.getElem?_append_left (lt_of_getElem? h), h]

theorem SigsExtend.setData {l : List (Signal U D)} {r : Nat} {s : Signal U D} {d : D}
    (h : l[r]? = some s) (hn : s.data = none) : SigsExtend l (l.set r { s with data := some d }) := by
  refine ⟨by simp, fun i t ht => ?_⟩
  by_cases hi : r = i
  · subst hi
    rw [h] at ht; cases ht
    refine ⟨{ s with data := some d }, ?_, rfl, rfl, fun hd => absurd hn hd⟩
    simp [lt_of_getElem? h]
  · exact ⟨t, by rw [List.getElem?_set_ne hi, ht], rfl, rfl, fun _ => rfl⟩

theorem Fits.congr {tr : Transformation U} {a b a' b' : Signal U D} (h : Fits tr a b) (h1 : a'.ty = a.ty)
    (h2 : a'.units = a.units) (h3 : b'.ty = b.ty) (h4 : b'.units = b.units) : Fits tr a' b' := by
  unfold Fits at h ⊢
  rw [h1, h2, h3, h4]; exact h

theorem GraphInv.extend {l l' : List (Signal U D)} {g : Graph U} {src : String} (h : GraphInv l g src)
    (he : SigsExtend l l') : GraphInv l' g src := by
  refine ⟨h.tree, h.edge_keys, fun n r hr => Nat.lt_of_lt_of_le (h.refs n r hr) he.1, fun a b e hm => ?_⟩
  obtain ⟨sa, sb, ⟨ra, h1, h2⟩, ⟨rb, h3, h4⟩, hf⟩ := h.fits a b e hm
  obtain ⟨sa', h5, h6, h7, _⟩ := he.2 _ _ h2
  obtain ⟨sb', h8, h9, h10, _⟩ := he.2 _ _ h4
  exact ⟨sa', sb', ⟨ra, h1, h5⟩, ⟨rb, h3, h8⟩, hf.congr h6 h7 h9 h10⟩

theorem GraphInv.add {l : List (Signal U D)} {g : Graph U} {src n : String} {r : Nat} {s out : Signal U D}
    {tr : Transformation U} (h : GraphInv l g src) (hn : Dict.get? g.nodes n = some r)
    (hs : l[r]? = some s) (hfit : Fits tr s out) (hf : tr.name ∉ Dict.keys g.nodes) :
    GraphInv (l ++ [out]) ⟨Dict.set g.nodes tr.name l.length, Dict.set g.edges (n, tr.name) ⟨tr, none⟩⟩ src := by
  have hnm : n ∈ Dict.keys g.nodes := Dict.get?_isSome.1 ⟨r, hn⟩
  have hek : (n, tr.name) ∉ Dict.keys g.edges := by
    intro hm
    obtain ⟨v, hv⟩ := Dict.mem_keys_iff.1 hm
    exact hf (h.tree.ends _ _ ⟨v, hv⟩).2
  have hnodes : Dict.set g.nodes tr.name l.length = g.nodes ++ [(tr.name, l.length)] := Dict.set_of_not_mem hf
  have hedges : Dict.set g.edges (n, tr.name) (⟨tr, none⟩ : EdgeData U) = g.edges ++ [((n, tr.name), ⟨tr, none⟩)] :=
    Dict.set_of_not_mem hek
  have hold : ∀ a b, Feeds g a b → b ≠ tr.name := by
    rintro a b hab rfl; exact hf (h.tree.ends _ _ hab).2
  have hkeys : ∀ x, x ∈ Dict.keys (g.nodes ++ [(tr.name, l.length)]) ↔ x ∈ Dict.keys g.nodes ∨ x = tr.name := by
    intro x; rw [← hnodes, Dict.mem_keys_set]
  have hsrc : src ≠ tr.name := by rintro rfl; exact hf h.tree.source_mem
  have hfeeds : ∀ a b, Feeds ⟨Dict.set g.nodes tr.name l.length, Dict.set g.edges (n, tr.name) ⟨tr, none⟩⟩ a b ↔
      Feeds g a b ∨ (a = n ∧ b = tr.name) := by
    intro a b
    simp only [Feeds, hedges, List.mem_append, List.mem_singleton, Prod.mk.injEq]
    constructor
    · rintro ⟨e, h | ⟨⟨rfl, rfl⟩, _⟩⟩
      · exact .inl ⟨e, h⟩
      · exact .inr ⟨rfl, rfl⟩
    · rintro (⟨e, h⟩ | ⟨rfl, rfl⟩)
      · exact ⟨e, .inl h⟩
      · exact ⟨_, .inr ⟨⟨rfl, rfl⟩, rfl⟩⟩
  have hget : ∀ x r, Dict.get? g.nodes x = some r → Dict.get? (Dict.set g.nodes tr.name l.length) x = some r := by
    intro x r hx
    rw [Dict.get?_set, if_neg, hx]
    rintro rfl; exact hf (Dict.get?_isSome.1 ⟨r, hx⟩)
  refine ⟨⟨?_, ?_, ?_, ?_, ?_, ?_⟩, ?_, ?_, ?_⟩
  · exact Dict.nodup_keys_set h.tree.names_unique
  · rw [Dict.mem_keys_set]; exact .inl h.tree.source_mem
  · intro a ha
    rcases (hfeeds _ _).1 ha with ha | ⟨_, ha⟩
    · exact h.tree.source_no_input a ha
    · exact hsrc ha
  · intro x hx hne
    rw [Dict.mem_keys_set] at hx
    dsimp only
    rw [hedges]
    by_cases hxt : x = tr.name
    · subst hxt
      refine ⟨n, ⟨tr, none⟩, by simp, rfl, fun a' e' he' => ?_⟩
      rcases List.mem_append.1 he' with he' | he'
      · exact absurd rfl (hold _ _ ⟨e', he'⟩)
      · simp only [List.mem_singleton, Prod.mk.injEq, and_true] at he'; exact he'
    · obtain ⟨a, e, h1, h2, h3⟩ := h.tree.produced x (hx.resolve_right hxt) hne
      refine ⟨a, e, by simp [h1], h2, fun a' e' he' => ?_⟩
      rcases List.mem_append.1 he' with he' | he'
      · exact h3 a' e' he'
      · simp only [List.mem_singleton, Prod.mk.injEq] at he'; exact absurd he'.1.2 hxt
  · intro a b hab
    dsimp only
    rw [Dict.mem_keys_set, Dict.mem_keys_set]
    rcases (hfeeds _ _).1 hab with hab | ⟨rfl, rfl⟩
    · exact ⟨.inl (h.tree.ends _ _ hab).1, .inl (h.tree.ends _ _ hab).2⟩
    · exact ⟨.inl hnm, .inr rfl⟩
  · intro x hx
    have mono : ∀ y, Relation.ReflTransGen (Feeds g) src y → Relation.ReflTransGen (Feeds
        ⟨Dict.set g.nodes tr.name l.length, Dict.set g.edges (n, tr.name) ⟨tr, none⟩⟩) src y :=
      fun y hy => Relation.ReflTransGen.mono (fun a b hab => (hfeeds a b).2 (.inl hab)) _ _ hy
    rcases Dict.mem_keys_set.1 hx with hx | rfl
    · exact mono x (h.tree.reachable x hx)
    · exact (mono n (h.tree.reachable n hnm)).tail ((hfeeds _ _).2 (.inr ⟨rfl, rfl⟩))
  · exact Dict.nodup_keys_set h.edge_keys
  · intro x q hx
    rw [List.length_append, List.length_singleton]
    dsimp only at hx
    rw [Dict.get?_set] at hx
    split at hx
    · cases hx; omega
    · have := h.refs x q hx; omega
  · intro a b e he
    dsimp only at he
    rw [hedges] at he
    rcases List.mem_append.1 he with he | he
    · obtain ⟨sa, sb, ⟨ra, h1, h2⟩, ⟨rb, h3, h4⟩, hf⟩ := h.fits a b e he
      exact ⟨sa, sb, ⟨ra, hget _ _ h1, by rw [List.getElem?_append_left (lt_of_getElem? h2), h2]⟩,
        ⟨rb, hget _ _ h3, by rw [List.getElem?_append_left (lt_of_getElem? h4), h4]⟩, hf⟩
    · simp only [List.mem_singleton, Prod.mk.injEq] at he
      obtain ⟨⟨rfl, rfl⟩, rfl⟩ := he
      exact ⟨s, out, ⟨r, hget _ _ hn, by rw [List.getElem?_append_left (lt_of_getElem? hs), hs]⟩,
        ⟨l.length, by simp [Dict.get?_set], by simp⟩, hfit⟩

theorem GraphInv.equip {l : List (Signal U D)} {g : Graph U} {src : String} {k : String × String}
    {ed : EdgeData U} {e : Equipment U} (h : GraphInv l g src) (hk : Dict.get? g.edges k = some ed) :
    GraphInv l ⟨g.nodes, Dict.set g.edges k { ed with equipment := some e }⟩ src := by
  have hkm : k ∈ Dict.keys g.edges := Dict.get?_isSome.1 ⟨ed, hk⟩
  have hmem : ∀ a b x, ((a, b), x) ∈ Dict.set g.edges k { ed with equipment := some e } →
      ∃ y, ((a, b), y) ∈ g.edges ∧ y.transformation = x.transformation := by
    intro a b x hx
    rw [Dict.mem_set h.edge_keys] at hx
    rcases hx with ⟨rfl, rfl⟩ | ⟨_, hx⟩
    · exact ⟨ed, Dict.mem_of_get? hk, rfl⟩
    · exact ⟨x, hx, rfl⟩
  have hmem' : ∀ a b y, ((a, b), y) ∈ g.edges → ∃ x, ((a, b), x) ∈ Dict.set g.edges k { ed with equipment := some e } ∧
      x.transformation = y.transformation := by
    intro a b y hy
    by_cases hab : (a, b) = k
    · refine ⟨{ ed with equipment := some e }, by rw [Dict.mem_set h.edge_keys]; exact .inl ⟨hab, rfl⟩, ?_⟩
      have := Dict.get?_of_mem h.edge_keys hy
      rw [hab, hk] at this; cases this; rfl
    · exact ⟨y, by rw [Dict.mem_set h.edge_keys]; exact .inr ⟨hab, hy⟩, rfl⟩
  have hfeeds : ∀ a b, Feeds ⟨g.nodes, Dict.set g.edges k { ed with equipment := some e }⟩ a b ↔ Feeds g a b := by
    intro a b
    constructor
    · rintro ⟨x, hx⟩; obtain ⟨y, hy, _⟩ := hmem a b x hx; exact ⟨y, hy⟩
    · rintro ⟨x, hx⟩; obtain ⟨y, hy, _⟩ := hmem' a b x hx; exact ⟨y, hy⟩
  refine ⟨⟨h.tree.names_unique, h.tree.source_mem, fun a ha => h.tree.source_no_input a ((hfeeds _ _).1 ha),
    ?_, fun a b hab => h.tree.ends a b ((hfeeds _ _).1 hab), fun n hn =>
      Relation.ReflTransGen.mono (fun a b hab => (hfeeds a b).2 hab) _ _ (h.tree.reachable n hn)⟩,
    Dict.nodup_keys_set h.edge_keys, h.refs, ?_⟩
  · intro n hn hne
    obtain ⟨a, y, h1, h2, h3⟩ := h.tree.produced n hn hne
    obtain ⟨x, hx, hxt⟩ := hmem' a n y h1
    refine ⟨a, x, hx, hxt ▸ h2, fun a' e' he' => ?_⟩
    obtain ⟨y', hy', _⟩ := hmem a' n e' he'
    obtain ⟨rfl, rfl⟩ := h3 a' y' hy'
    refine ⟨rfl, ?_⟩
    have hnd : (Dict.keys (Dict.set g.edges k { ed with equipment := some e })).Nodup :=
      Dict.nodup_keys_set h.edge_keys
    have e1 := Dict.get?_of_mem hnd he'
    have e2 := Dict.get?_of_mem hnd hx
    rw [e1] at e2; simpa using e2
  · intro a b x hx
    obtain ⟨y, hy, hyt⟩ := hmem a b x hx
    obtain ⟨sa, sb, h1, h2, h3⟩ := h.fits a b y hy
    exact ⟨sa, sb, h1, h2, hyt ▸ h3⟩

theorem graphInv_single {l : List (Signal U D)} {src : Source} (h : src.sig < l.length) :
    GraphInv l ⟨[(src.name, src.sig)], []⟩ src.name := by
  refine ⟨⟨by simp, by simp, by rintro a ⟨e, he⟩; simp at he, fun n hn hne => ?_,
    by rintro a b ⟨e, he⟩; simp at he, fun n hn => ?_⟩, by simp, fun n r hr => ?_,
    fun a b e he => by simp at he⟩
  · simp at hn; exact absurd hn hne
  · simp at hn; subst hn; exact .refl
  · simp only [Dict.get?] at hr
    split at hr
    · cases hr; exact h
    · cases hr

theorem WInv.step {w w' : World U D} (hw : WInv w) (hs : Step w w') : WInv w' := by
  have hext : ∀ sigs', SigsExtend w.sigs sigs' → WInv { w with sigs := sigs' } := by
    intro sigs' he c ch hc
    obtain ⟨g, h1, h2, h3, h4⟩ := hw c ch hc
    exact ⟨g, h1, h2.extend he, h3, h4⟩
  cases hs with
  | pushSig s => exact hext _ (.push _ s)
  | setData r s d h hn => exact hext _ (.setData h hn)
  | pushChain name src e h =>
    intro c ch hc
    dsimp only at hc ⊢
    rcases Nat.lt_or_ge c w.chains.length with hlt | hge
    · rw [List.getElem?_append_left hlt] at hc
      obtain ⟨g, h1, h2, h3, h4⟩ := hw c ch hc
      exact ⟨g, by rw [List.getElem?_append_left (lt_of_getElem? h1), h1], h2, h3, h4⟩
    · rw [List.getElem?_append_right hge] at hc
      have h0 : c - w.chains.length = 0 := by
        have := lt_of_getElem? hc; simpa using this
      rw [h0] at hc
      simp only [List.getElem?_cons_zero, Option.some.injEq] at hc
      subst hc
      exact ⟨_, by simp, graphInv_single h, by simp, by simp [Dict.get?]⟩
  | addNode c ch g n r s tr data out hc hg hn hs ho hf =>
    intro c' ch' hc'
    dsimp only at hc' ⊢
    have hfit := (determineOutput_fits ho).1
    -- the chain record before
    have : ∃ ch0, w.chains[c']? = some ch0 ∧ ch'.source = ch0.source ∧ ch'.graph = ch0.graph ∧
        (ch'.prev = ch0.prev ∨ (ch'.prev = tr.name ∧ ch0.graph = ch.graph)) := by
      by_cases hcc : c = c'
      · subst hcc
        rw [List.getElem?_set_self (lt_of_getElem? hc)] at hc'
        cases hc'
        exact ⟨ch, hc, rfl, rfl, .inr ⟨rfl, rfl⟩⟩
      · rw [List.getElem?_set_ne hcc] at hc'
        exact ⟨ch', hc', rfl, rfl, .inl rfl⟩
    obtain ⟨ch0, hc0, hsrc, hgr, hprev⟩ := this
    obtain ⟨g0, h1, h2, h3, h4⟩ := hw c' ch0 hc0
    rw [hsrc, hgr]
    by_cases hgg : ch.graph = ch0.graph
    · rw [← hgg, hg] at h1; cases h1
      rw [← hgg, List.getElem?_set_self (lt_of_getElem? hg)]
      refine ⟨_, rfl, h2.add hn hs hfit hf, ?_, ?_⟩
      · rw [Dict.mem_keys_set]
        rcases hprev with h | ⟨h, _⟩
        · rw [h]; exact .inl h3
        · exact .inr h
      · dsimp only
        rw [Dict.get?_set, if_neg, h4]
        intro e
        exact hf (e ▸ h2.tree.source_mem)
    · rw [List.getElem?_set_ne hgg]
      refine ⟨g0, h1, h2.extend (.push _ _), ?_, h4⟩
      rcases hprev with h | ⟨_, h⟩
      · rw [h]; exact h3
      · exact absurd h.symm hgg
  | setEquip i g k ed e hg hk =>
    intro c ch hc
    dsimp only at hc ⊢
    obtain ⟨g0, h1, h2, h3, h4⟩ := hw c ch hc
    by_cases hi : i = ch.graph
    · subst hi
      rw [hg] at h1; cases h1
      rw [List.getElem?_set_self (lt_of_getElem? hg)]
      exact ⟨_, rfl, h2.equip hk, h3, h4⟩
    · rw [List.getElem?_set_ne hi]
      exact ⟨g0, h1, h2, h3, h4⟩
  | copyChain c ch g prev hc hg hp =>
    intro c' ch' hc'
    dsimp only at hc' ⊢
    rcases Nat.lt_or_ge c' w.chains.length with hlt | hge
    · rw [List.getElem?_append_left hlt] at hc'
      exact hw c' ch' hc'
    · rw [List.getElem?_append_right hge] at hc'
      have h0 : c' - w.chains.length = 0 := by
        have := lt_of_getElem? hc'; simpa using this
      rw [h0] at hc'
      simp only [List.getElem?_cons_zero, Option.some.injEq] at hc'
      subst hc'
      obtain ⟨g0, h1, h2, h3, h4⟩ := hw c ch hc
      rw [hg] at h1; cases h1
      refine ⟨g, hg, h2, ?_, h4⟩
      dsimp only
      rw [hp]
      split
      · rename_i n hn; exact List.mem_of_find?_eq_some hn
      · exact h2.tree.source_mem

theorem WInv.steps {w w' : World U D} (hw : WInv w) (hs : Steps w w') : WInv w' := by
  induction hs with
  | refl => exact hw
  | tail _ h ih => exact ih.step h

theorem runAll_inv [UnitSystem U] (ops : List (Op U D)) : WInv (runAll ops) := by
  have : ∀ w : World U D, WInv w → WInv (ops.foldl (fun w op => (run op w).state) w) := by
    induction ops with
    | nil => exact fun w h => h
    | cons op ops ih =>
      intro w h
      refine ih _ ?_
      show WInv (run op w).state
      rcases run_cases op w with ⟨e, he⟩ | ⟨w', hw', hs⟩
      · rw [he]; exact h
      · rw [hw']; exact h.steps hs
  exact this _ fun c ch hc => by simp at hc

/-! ### what a primitive change leaves as it is -/

/-- everything that exists stays: signals keep type, unit and data, chains keep their source, and names keep
their signals -/
structure Keeps (w w' : World U D) : Prop where
  sigs : SigsExtend w.sigs w'.sigs
  chains : ∀ c ch g, w.chainGraph c = .ok (ch, g) → ∃ ch' g', w'.chainGraph c = .ok (ch', g') ∧
    ch'.name = ch.name ∧ ch'.source = ch.source ∧ ch'.equipment = ch.equipment ∧
    ∀ n r, Dict.get? g.nodes n = some r → Dict.get? g'.nodes n = some r

theorem SigsExtend.trans {l l' l'' : List (Signal U D)} (h : SigsExtend l l') (h' : SigsExtend l' l'') :
    SigsExtend l l'' := by
  refine ⟨Nat.le_trans h.1 h'.1, fun i s hs => ?_⟩
  obtain ⟨s', h1, h2, h3, h4⟩ := h.2 i s hs
  obtain ⟨s'', h5, h6, h7, h8⟩ := h'.2 i s' h1
  refine ⟨s'', h5, h6.trans h2, h7.trans h3, fun hd => ?_⟩
  have := h4 hd
  subst this
  exact h8 hd

theorem Keeps.refl (w : World U D) : Keeps w w :=
  ⟨.refl _, fun c ch g h => ⟨ch, g, h, rfl, rfl, rfl, fun _ _ h => h⟩⟩

theorem Keeps.trans {w w' w'' : World U D} (h : Keeps w w') (h' : Keeps w' w'') : Keeps w w'' := by
  refine ⟨h.sigs.trans h'.sigs, fun c ch g hc => ?_⟩
  obtain ⟨ch', g', h1, h2, h3, h4, h5⟩ := h.chains c ch g hc
  obtain ⟨ch'', g'', k1, k2, k3, k4, k5⟩ := h'.chains c ch' g' h1
  exact ⟨ch'', g'', k1, k2.trans h2, k3.trans h3, k4.trans h4, fun n r hr => k5 n r (h5 n r hr)⟩

theorem Step.keeps {w w' : World U D} (hs : Step w w') : Keeps w w' := by
  cases hs with
  | pushSig s =>
    exact ⟨.push _ s, fun c ch g h => ⟨ch, g, h, rfl, rfl, rfl, fun _ _ h => h⟩⟩
  | setData r s d h hn =>
    exact ⟨.setData h hn, fun c ch g h => ⟨ch, g, h, rfl, rfl, rfl, fun _ _ h => h⟩⟩
  | pushChain name src e h =>
    refine ⟨.refl _, fun c ch g hc => ?_⟩
    obtain ⟨h1, h2⟩ := chainGraph_ok.1 hc
    refine ⟨ch, g, chainGraph_ok.2 ⟨?_, ?_⟩, rfl, rfl, rfl, fun _ _ h => h⟩
    · dsimp only; rw [List.getElem?_append_left (lt_of_getElem? h1), h1]
    · dsimp only; rw [List.getElem?_append_left (lt_of_getElem? h2), h2]
  | addNode c ch g n r s tr data out hc hg hn hs ho hf =>
    refine ⟨.push _ _, fun c' ch' g' hc' => ?_⟩
    obtain ⟨h1, h2⟩ := chainGraph_ok.1 hc'
    have hnode : ∀ x q, Dict.get? g.nodes x = some q → Dict.get? (Dict.set g.nodes tr.name w.sigs.length) x = some q := by
      intro x q hx
      rw [Dict.get?_set, if_neg, hx]
      rintro rfl; exact hf (Dict.get?_isSome.1 ⟨q, hx⟩)
    have hgr : ∃ g'', (w.graphs.set ch.graph
        ⟨Dict.set g.nodes tr.name w.sigs.length, Dict.set g.edges (n, tr.name) ⟨tr, none⟩⟩)[ch'.graph]? = some g'' ∧
        ∀ x q, Dict.get? g'.nodes x = some q → Dict.get? g''.nodes x = some q := by
      by_cases hgg : ch.graph = ch'.graph
      · rw [← hgg, hg] at h2; cases h2
        rw [← hgg, List.getElem?_set_self (lt_of_getElem? hg)]
        exact ⟨_, rfl, hnode⟩
      · rw [List.getElem?_set_ne hgg]
        exact ⟨g', h2, fun _ _ h => h⟩
    obtain ⟨g'', hg1, hg2⟩ := hgr
    by_cases hcc : c = c'
    · subst hcc
      rw [hc] at h1; cases h1
      exact ⟨{ ch with prev := tr.name }, g'', chainGraph_ok.2
        ⟨by dsimp only; rw [List.getElem?_set_self (lt_of_getElem? hc)], hg1⟩, rfl, rfl, rfl, hg2⟩
    · exact ⟨ch', g'', chainGraph_ok.2 ⟨by dsimp only; rw [List.getElem?_set_ne hcc, h1], hg1⟩, rfl, rfl, rfl, hg2⟩
  | setEquip i g k ed e hg hk =>
    refine ⟨.refl _, fun c ch g' hc => ?_⟩
    obtain ⟨h1, h2⟩ := chainGraph_ok.1 hc
    by_cases hi : i = ch.graph
    · subst hi
      rw [hg] at h2; cases h2
      exact ⟨ch, ⟨g.nodes, Dict.set g.edges k { ed with equipment := some e }⟩,
        chainGraph_ok.2 ⟨h1, by dsimp only; rw [List.getElem?_set_self (lt_of_getElem? hg)]⟩, rfl, rfl, rfl, fun _ _ h => h⟩
    · exact ⟨ch, g', chainGraph_ok.2 ⟨h1, by dsimp only; rw [List.getElem?_set_ne hi, h2]⟩, rfl, rfl, rfl, fun _ _ h => h⟩
  | copyChain c ch g prev hc hg hp =>
    refine ⟨.refl _, fun c' ch' g' hc' => ?_⟩
    obtain ⟨h1, h2⟩ := chainGraph_ok.1 hc'
    exact ⟨ch', g', chainGraph_ok.2 ⟨by dsimp only; rw [List.getElem?_append_left (lt_of_getElem? h1), h1], h2⟩, rfl, rfl, rfl, fun _ _ h => h⟩

theorem Steps.keeps {w w' : World U D} (hs : Steps w w') : Keeps w w' := by
  induction hs with
  | refl => exact .refl _
  | tail _ h ih => exact ih.trans h.keeps

end Weldx.Meas
