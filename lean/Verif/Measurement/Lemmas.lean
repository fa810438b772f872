import Verif.Measurement.Model
import Mathlib.Logic.Relation
import Mathlib.Data.List.Basic

/-!
# Lemmas about measurement chains: every call is a sequence of primitive changes or has no effect
-/

set_option linter.unusedSimpArgs false
set_option linter.unusedSectionVars false

namespace Weldx.Meas
variable {U D : Type}

/-- primitive changes of the objects -/
inductive Step : World U D → World U D → Prop
  | pushSig (w : World U D) (s : Signal U D) : Step w { w with sigs := w.sigs ++ [s] }
  | setData (w : World U D) (r : Nat) (s : Signal U D) (d : D) (h : w.sigs[r]? = some s)
      (hn : s.data = none) : Step w { w with sigs := w.sigs.set r { s with data := some d } }
  | pushChain (w : World U D) (name : String) (src : Source) (e : Option (Equipment U))
      (h : src.sig < w.sigs.length) : Step w { w with
        graphs := w.graphs ++ [⟨[(src.name, src.sig)], []⟩]
        chains := w.chains ++ [⟨name, src, e, src.name, w.graphs.length⟩] }
  | addNode (w : World U D) (c : Nat) (ch : Chain U) (g : Graph U) (n : String) (r : Nat)
      (s : Signal U D) (tr : Transformation U) (data : Option D) (out : Signal U D)
      (hc : w.chains[c]? = some ch) (hg : w.graphs[ch.graph]? = some g)
      (hn : Dict.get? g.nodes n = some r) (hs : w.sigs[r]? = some s)
      (ho : determineOutput tr s data = .ok out) (hf : tr.name ∉ Dict.keys g.nodes) : Step w
        { sigs := w.sigs ++ [out]
          graphs := w.graphs.set ch.graph
            ⟨Dict.set g.nodes tr.name w.sigs.length, Dict.set g.edges (n, tr.name) ⟨tr, none⟩⟩
          chains := w.chains.set c { ch with prev := tr.name } }
  | setEquip (w : World U D) (i : Nat) (g : Graph U) (k : String × String) (ed : EdgeData U)
      (e : Equipment U) (hg : w.graphs[i]? = some g) (hk : Dict.get? g.edges k = some ed) : Step w
        { w with graphs := w.graphs.set i ⟨g.nodes, Dict.set g.edges k { ed with equipment := some e }⟩ }
  | copyChain (w : World U D) (c : Nat) (ch : Chain U) (g : Graph U) (prev : String)
      (hc : w.chains[c]? = some ch) (hg : w.graphs[ch.graph]? = some g)
      (hp : prev = match (Dict.keys g.nodes).find? (fun n => (g.succs n).length = 0) with
        | some n => n
        | none => ch.source.name) :
      Step w { w with chains := w.chains ++ [⟨ch.name, ch.source, ch.equipment, prev, ch.graph⟩] }

/-- sequences of primitive changes -/
abbrev Steps : World U D → World U D → Prop := Relation.ReflTransGen Step

theorem chainGraph_ok {w : World U D} {c : Nat} {ch : Chain U} {g : Graph U} :
    w.chainGraph c = .ok (ch, g) ↔ w.chains[c]? = some ch ∧ w.graphs[ch.graph]? = some g := by
  unfold World.chainGraph
  cases h : w.chains[c]? with
  | none => simp
  | some ch' =>
    cases h' : w.graphs[ch'.graph]? with
    | none =>
      simp only [h', reduceCtorEq, Option.some.injEq, false_iff, not_and]
      rintro rfl; rw [h']; simp
    | some g' =>
      simp only [h', Except.ok.injEq, Prod.mk.injEq, Option.some.injEq]
      constructor
      · rintro ⟨rfl, rfl⟩; exact ⟨rfl, h'⟩
      · rintro ⟨rfl, h2⟩; rw [h'] at h2; exact ⟨rfl, by simpa using h2⟩

theorem signalAt_ok {w : World U D} {g : Graph U} {n : String} {r : Nat} {s : Signal U D} :
    w.signalAt g n = .ok (r, s) ↔ Dict.get? g.nodes n = some r ∧ w.sigs[r]? = some s := by
  unfold World.signalAt
  cases h : Dict.get? g.nodes n with
  | none => simp
  | some r' =>
    cases h' : w.sigs[r']? with
    | none =>
      simp only [h', reduceCtorEq, Option.some.injEq, false_iff, not_and]
      rintro rfl; rw [h']; simp
    | some s' =>
      simp only [h', Except.ok.injEq, Prod.mk.injEq, Option.some.injEq]
      constructor
      · rintro ⟨rfl, rfl⟩; exact ⟨rfl, h'⟩
      · rintro ⟨rfl, h2⟩; rw [h'] at h2; exact ⟨rfl, by simpa using h2⟩

/-- the state in which `add_transformation` leaves the objects -/
def addedWorld (w : World U D) (c : Nat) (ch : Chain U) (g : Graph U) (n : String)
    (tr : Transformation U) (out : Signal U D) : World U D :=
  { sigs := w.sigs ++ [out]
    graphs := w.graphs.set ch.graph
      ⟨Dict.set g.nodes tr.name w.sigs.length, Dict.set g.edges (n, tr.name) ⟨tr, none⟩⟩
    chains := w.chains.set c { ch with prev := tr.name } }

theorem addTransformation_cases (c : Nat) (tr : Transformation U) (data : Option D)
    (input : Option String) (w : World U D) :
    (∃ e, addTransformation c tr data input w = .err e w) ∨
    ∃ ch g n r s out, w.chains[c]? = some ch ∧ w.graphs[ch.graph]? = some g ∧
      checkNode ch g input = .ok n ∧ Dict.get? g.nodes n = some r ∧ w.sigs[r]? = some s ∧
      determineOutput tr s data = .ok out ∧ tr.name ∉ Dict.keys g.nodes ∧
      addTransformation c tr data input w = .ok () (addedWorld w c ch g n tr out) := by
  unfold addTransformation
  rw [Py.get_bind]
  cases h1 : w.chainGraph c with
  | error e => left; exact ⟨e, rfl⟩
  | ok p =>
    obtain ⟨ch, g⟩ := p
    obtain ⟨hc, hg⟩ := chainGraph_ok.1 h1
    rw [Py.lift_ok_bind]
    dsimp only
    cases h2 : checkNode ch g input with
    | error e => left; exact ⟨e, rfl⟩
    | ok n =>
      rw [Py.lift_ok_bind]
      cases h3 : w.signalAt g n with
      | error e => left; exact ⟨e, rfl⟩
      | ok p =>
        obtain ⟨r, s⟩ := p
        obtain ⟨hr, hs⟩ := signalAt_ok.1 h3
        rw [Py.lift_ok_bind]
        dsimp only
        cases h4 : determineOutput tr s data with
        | error e => left; exact ⟨e, rfl⟩
        | ok out =>
          rw [Py.lift_ok_bind]
          by_cases hf : tr.name ∈ Dict.keys g.nodes
          · left; exact ⟨.keyError, by rw [if_pos hf]; rfl⟩
          · right
            exact ⟨ch, g, n, r, s, out, hc, hg, h2, hr, hs, h4, hf, by rw [if_neg hf]; rfl⟩

theorem addSignalData_cases (c : Nat) (data : D) (src : Option String) (w : World U D) :
    (∃ e, addSignalData c data src w = .err e w) ∨
    ∃ ch g n r s, w.chains[c]? = some ch ∧ w.graphs[ch.graph]? = some g ∧
      checkNode ch g src = .ok n ∧ Dict.get? g.nodes n = some r ∧ w.sigs[r]? = some s ∧
      s.data = none ∧ addSignalData c data src w =
        .ok () { w with sigs := w.sigs.set r { s with data := some data } } := by
  unfold addSignalData
  rw [Py.get_bind]
  cases h1 : w.chainGraph c with
  | error e => left; exact ⟨e, rfl⟩
  | ok p =>
    obtain ⟨ch, g⟩ := p
    obtain ⟨hc, hg⟩ := chainGraph_ok.1 h1
    rw [Py.lift_ok_bind]
    dsimp only
    cases h2 : checkNode ch g src with
    | error e => left; exact ⟨e, rfl⟩
    | ok n =>
      rw [Py.lift_ok_bind]
      cases h3 : w.signalAt g n with
      | error e => left; exact ⟨e, rfl⟩
      | ok p =>
        obtain ⟨r, s⟩ := p
        obtain ⟨hr, hs⟩ := signalAt_ok.1 h3
        rw [Py.lift_ok_bind]
        dsimp only
        cases hd : s.data with
        | some d => left; exact ⟨.keyError, by simp⟩
        | none => right; exact ⟨ch, g, n, r, s, hc, hg, h2, hr, hs, hd, by simp⟩

theorem newChain_cases (name : String) (src : Source) (e : Option (Equipment U)) (data : Option D)
    (w : World U D) :
    (∃ x, newChain name src e data w = .err x w) ∨
    ∃ s w1, w.sigs[src.sig]? = some s ∧
      ((data = none ∧ w1 = w) ∨ ∃ d, data = some d ∧ s.data = none ∧
        w1 = { w with sigs := w.sigs.set src.sig { s with data := some d } }) ∧
      newChain name src e data w = .ok w.chains.length { w1 with
        graphs := w.graphs ++ [⟨[(src.name, src.sig)], []⟩]
        chains := w.chains ++ [⟨name, src, e, src.name, w.graphs.length⟩] } := by
  unfold newChain
  rw [Py.get_bind]
  dsimp only
  cases h3 : w.signalAt (⟨[(src.name, src.sig)], []⟩ : Graph U) src.name with
  | error e => left; exact ⟨e, rfl⟩
  | ok p =>
    obtain ⟨r, s⟩ := p
    obtain ⟨hr, hs⟩ := signalAt_ok.1 h3
    have : src.sig = r := by simpa [Dict.get?] using hr
    subst this
    rw [Py.lift_ok_bind]
    dsimp only
    cases data with
    | none => right; exact ⟨s, w, hs, .inl ⟨rfl, rfl⟩, by simp⟩
    | some d =>
      cases hd : s.data with
      | some d' => left; exact ⟨.keyError, by simp [Py.ite_apply, Py.bind_apply]⟩
      | none =>
        right
        exact ⟨s, _, hs, .inr ⟨d, rfl, hd, rfl⟩, by simp [Py.ite_apply, Py.bind_apply]⟩

theorem checkNode_cases {ch : Chain U} {g : Graph U} {input : Option String} {n : String}
    (h : checkNode ch g input = .ok n) :
    (input = none ∧ n = ch.prev) ∨ (input = some n ∧ n ∈ Dict.keys g.nodes) := by
  cases input with
  | none => simp only [checkNode, Except.ok.injEq] at h; exact .inl ⟨rfl, h.symm⟩
  | some m =>
    simp only [checkNode] at h
    split at h
    · cases h; exact .inr ⟨rfl, by assumption⟩
    · cases h

theorem checkNode_some {ch : Chain U} {g : Graph U} {n : String} (h : n ∈ Dict.keys g.nodes) :
    checkNode ch g (some n) = .ok n := by
  simp [checkNode, h]

theorem fromEquipment_cases (name : String) (e : Equipment U) (sn : Option String) (w : World U D) :
    (∃ x, fromEquipment name e sn w = .err x w) ∨
    ∃ src ∈ e.sources, fromEquipment name e sn w = newChain name src (some e) none w := by
  unfold fromEquipment
  match h : e.sources with
  | [] => left; exact ⟨_, rfl⟩
  | [s] => right; exact ⟨s, by simp, rfl⟩
  | s1 :: s2 :: ss =>
    cases sn with
    | none => left; exact ⟨_, rfl⟩
    | some n =>
      dsimp only
      cases hf : (s1 :: s2 :: ss).find? (fun s => s.name = n) with
      | none => left; exact ⟨_, rfl⟩
      | some s => right; exact ⟨s, List.mem_of_find?_eq_some hf, rfl⟩

theorem fromDict_cases (c : Nat) (w : World U D) :
    (∃ x, fromDict c w = .err x w) ∨
    ∃ ch g, w.chains[c]? = some ch ∧ w.graphs[ch.graph]? = some g ∧
      fromDict c w = .ok w.chains.length { w with chains := w.chains ++ [⟨ch.name, ch.source, ch.equipment,
        match (Dict.keys g.nodes).find? (fun n => (g.succs n).length = 0) with
        | some n => n
        | none => ch.source.name, ch.graph⟩] } := by
  unfold fromDict
  rw [Py.get_bind]
  cases h1 : w.chainGraph c with
  | error e => left; exact ⟨e, rfl⟩
  | ok p =>
    obtain ⟨ch, g⟩ := p
    obtain ⟨hc, hg⟩ := chainGraph_ok.1 h1
    right
    exact ⟨ch, g, hc, hg, rfl⟩

theorem lt_of_getElem? {α : Type} {l : List α} {i : Nat} {a : α} (h : l[i]? = some a) : i < l.length := by
  by_contra hc
  rw [List.getElem?_eq_none (by omega)] at h; cases h

theorem addedWorld_chain {w : World U D} {c : Nat} {ch : Chain U} {g : Graph U} {n : String}
    {tr : Transformation U} {out : Signal U D} (hc : w.chains[c]? = some ch)
    (hg : w.graphs[ch.graph]? = some g) :
    (addedWorld w c ch g n tr out).chains[c]? = some { ch with prev := tr.name } ∧
    (addedWorld w c ch g n tr out).graphs[ch.graph]? =
      some ⟨Dict.set g.nodes tr.name w.sigs.length, Dict.set g.edges (n, tr.name) ⟨tr, none⟩⟩ := by
  have h1 := lt_of_getElem? hc
  have h2 := lt_of_getElem? hg
  simp [addedWorld, h1, h2]

/-- the state in which `add_transformation_from_equipment` leaves the objects -/
def equippedWorld (w : World U D) (c : Nat) (ch : Chain U) (g : Graph U) (n : String)
    (tr : Transformation U) (out : Signal U D) (e : Equipment U) : World U D :=
  { addedWorld w c ch g n tr out with
    graphs := (addedWorld w c ch g n tr out).graphs.set ch.graph
      ⟨Dict.set g.nodes tr.name w.sigs.length,
        Dict.set (Dict.set g.edges (n, tr.name) ⟨tr, none⟩) (n, tr.name) ⟨tr, some e⟩⟩ }

theorem addFromEquipment_cases (c : Nat) (e : Equipment U) (data : Option D) (input tn : Option String)
    (w : World U D) :
    (∃ x, addFromEquipment c e data input tn w = .err x w) ∨
    ∃ ch g n r s out, ∃ tr ∈ e.transformations, w.chains[c]? = some ch ∧ w.graphs[ch.graph]? = some g ∧
      checkNode ch g input = .ok n ∧ Dict.get? g.nodes n = some r ∧ w.sigs[r]? = some s ∧
      determineOutput tr s data = .ok out ∧ tr.name ∉ Dict.keys g.nodes ∧
      addFromEquipment c e data input tn w = .ok () (equippedWorld w c ch g n tr out e) := by
  have key : ∀ (tr : Transformation U), tr ∈ e.transformations →
      ∀ f : Py MErr (World U D) Unit, f = (do
        let w ← Py.get
        let (ch, g) ← Py.lift (w.chainGraph c)
        let n ← Py.lift (checkNode ch g input)
        addTransformation c tr data (some n)
        let w ← Py.get
        let (ch, g) ← Py.lift (w.chainGraph c)
        match Dict.get? g.edges (n, ch.prev) with
        | some ed => Py.modify fun w =>
            { w with graphs := w.graphs.set ch.graph ⟨g.nodes, Dict.set g.edges (n, ch.prev) { ed with equipment := some e }⟩ }
        | none => Py.raise .keyError) →
      (∃ x, f w = .err x w) ∨
      ∃ ch g n r s out, ∃ tr ∈ e.transformations, w.chains[c]? = some ch ∧ w.graphs[ch.graph]? = some g ∧
        checkNode ch g input = .ok n ∧ Dict.get? g.nodes n = some r ∧ w.sigs[r]? = some s ∧
        determineOutput tr s data = .ok out ∧ tr.name ∉ Dict.keys g.nodes ∧
        f w = .ok () (equippedWorld w c ch g n tr out e) := by
    rintro tr htr f rfl
    rw [Py.get_bind]
    cases h1 : w.chainGraph c with
    | error e => left; exact ⟨e, rfl⟩
    | ok p =>
      obtain ⟨ch, g⟩ := p
      obtain ⟨hc, hg⟩ := chainGraph_ok.1 h1
      rw [Py.lift_ok_bind]
      dsimp only
      cases h2 : checkNode ch g input with
      | error e => left; exact ⟨e, rfl⟩
      | ok n =>
        rw [Py.lift_ok_bind]
        rcases addTransformation_cases c tr data (some n) w with ⟨x, hx⟩ | ⟨ch', g', n', r, s, out, hc', hg', hn, hr, hs, ho, hf, hw⟩
        · left; exact ⟨x, by rw [Py.bind_err hx]⟩
        · right
          rw [hc] at hc'; cases hc'
          rw [hg] at hg'; cases hg'
          have : n' = n := by
            rcases checkNode_cases hn with ⟨h, _⟩ | ⟨h, _⟩
            · cases h
            · simpa using h.symm
          subst this
          refine ⟨ch, g, n', r, s, out, tr, htr, hc, hg, h2, hr, hs, ho, hf, ?_⟩
          have hcg := chainGraph_ok.2 (addedWorld_chain (n := n') (tr := tr) (out := out) hc hg)
          rw [Py.bind_ok hw, Py.get_bind, hcg, Py.lift_ok_bind]
          dsimp only
          have : Dict.get? (Dict.set g.edges (n', tr.name) (⟨tr, none⟩ : EdgeData U)) (n', tr.name) =
              some ⟨tr, none⟩ := by simp [Dict.get?_set]
          rw [this]
          rfl
  unfold addFromEquipment
  match h : e.transformations with
  | [] => left; exact ⟨_, rfl⟩
  | [t] =>
    have k := key t (by rw [h]; simp) _ rfl
    rw [h] at k; exact k
  | t1 :: t2 :: ts =>
    cases tn with
    | none => left; exact ⟨_, rfl⟩
    | some n =>
      dsimp only
      cases hf : (t1 :: t2 :: ts).find? (fun t => t.name = n) with
      | none => left; exact ⟨_, rfl⟩
      | some t =>
        have k := key t (by rw [h]; exact List.mem_of_find?_eq_some hf) _ rfl
        rw [h] at k; exact k

theorem createTransformation_cases [UnitSystem U] (c : Nat) (name : String) (ot : Option (List Char))
    (ou : Option U) (f : Option (Func U)) (data : Option D) (input : Option String) (w : World U D) :
    (∃ x, createTransformation c name ot ou f data input w = .err x w) ∨
    ∃ ch g n r s a b f' tr out, w.chains[c]? = some ch ∧ w.graphs[ch.graph]? = some g ∧
      checkNode ch g input = .ok n ∧ Dict.get? g.nodes n = some r ∧ w.sigs[r]? = some s ∧
      s.ty.chars.head? = some a ∧ (ot.getD s.ty.chars).head? = some b ∧
      ((ou = none ∧ f' = f) ∨ (∃ u, ou = some u ∧ f = none ∧ f' = some (conversion u s.units)) ∨
        ∃ u f0 v, ou = some u ∧ f = some f0 ∧ f' = f ∧ determineUnit (some f0) s.units = .ok v ∧
          UnitSystem.compatible u v = true) ∧
      mkTransformation name f' (some [a, b]) = .ok tr ∧
      determineOutput tr s data = .ok out ∧ tr.name ∉ Dict.keys g.nodes ∧
      createTransformation c name ot ou f data input w = .ok () (addedWorld w c ch g n tr out) := by
  unfold createTransformation
  rw [Py.get_bind]
  cases h1 : w.chainGraph c with
  | error e => left; exact ⟨e, rfl⟩
  | ok p =>
    obtain ⟨ch, g⟩ := p
    obtain ⟨hc, hg⟩ := chainGraph_ok.1 h1
    rw [Py.lift_ok_bind]
    dsimp only
    cases h2 : checkNode ch g input with
    | error e => left; exact ⟨e, rfl⟩
    | ok n =>
      rw [Py.lift_ok_bind]
      cases h3 : w.signalAt g n with
      | error e => left; exact ⟨e, rfl⟩
      | ok p =>
        obtain ⟨r, s⟩ := p
        obtain ⟨hr, hs⟩ := signalAt_ok.1 h3
        rw [Py.lift_ok_bind]
        dsimp only
        obtain ⟨a, ha⟩ : ∃ a, s.ty.chars.head? = some a := by cases s.ty <;> exact ⟨_, rfl⟩
        rw [ha]
        cases hb : (ot.getD s.ty.chars).head? with
        | none => left; exact ⟨_, rfl⟩
        | some b =>
          dsimp only
          have fin : ∀ f', ((ou = none ∧ f' = f) ∨ (∃ u, ou = some u ∧ f = none ∧ f' = some (conversion u s.units)) ∨
              ∃ u f0 v, ou = some u ∧ f = some f0 ∧ f' = f ∧ determineUnit (some f0) s.units = .ok v ∧
                UnitSystem.compatible u v = true) →
              ∀ p : Py MErr (World U D) Unit, p = (do
                let tr ← Py.lift (mkTransformation name f' (some [a, b]))
                addTransformation c tr data (some n)) →
              (∃ x, p w = .err x w) ∨
              ∃ ch g n r s a b f' tr out, w.chains[c]? = some ch ∧ w.graphs[ch.graph]? = some g ∧
                checkNode ch g input = .ok n ∧ Dict.get? g.nodes n = some r ∧ w.sigs[r]? = some s ∧
                s.ty.chars.head? = some a ∧ (ot.getD s.ty.chars).head? = some b ∧
                ((ou = none ∧ f' = f) ∨ (∃ u, ou = some u ∧ f = none ∧ f' = some (conversion u s.units)) ∨
                  ∃ u f0 v, ou = some u ∧ f = some f0 ∧ f' = f ∧ determineUnit (some f0) s.units = .ok v ∧
                    UnitSystem.compatible u v = true) ∧
                mkTransformation name f' (some [a, b]) = .ok tr ∧
                determineOutput tr s data = .ok out ∧ tr.name ∉ Dict.keys g.nodes ∧
                p w = .ok () (addedWorld w c ch g n tr out) := by
            rintro f' hf' p rfl
            cases hm : mkTransformation name f' (some [a, b]) with
            | error e => left; exact ⟨e, rfl⟩
            | ok tr =>
              rw [Py.lift_ok_bind]
              rcases addTransformation_cases c tr data (some n) w with ⟨x, hx⟩ | ⟨ch', g', n', r', s', out, hc', hg', hn, hr', hs', ho, hf, hw⟩
              · left; exact ⟨x, hx⟩
              · right
                rw [hc] at hc'; cases hc'
                rw [hg] at hg'; cases hg'
                have : n' = n := by
                  rcases checkNode_cases hn with ⟨h, _⟩ | ⟨h, _⟩
                  · cases h
                  · simpa using h.symm
                subst this
                rw [hr] at hr'; cases hr'
                rw [hs] at hs'; cases hs'
                exact ⟨ch, g, n', r, s, a, b, f', tr, out, hc, hg, h2, hr, hs, ha, hb, hf', hm, ho, hf, hw⟩
          cases ou with
          | none => exact fin f (.inl ⟨rfl, rfl⟩) _ rfl
          | some u =>
            cases f with
            | none => exact fin _ (.inr (.inl ⟨u, rfl, rfl, rfl⟩)) _ rfl
            | some f0 =>
              dsimp only
              cases hv : determineUnit (some f0) s.units with
              | error e => left; exact ⟨e, rfl⟩
              | ok v =>
                rw [Py.lift_ok_bind]
                by_cases hcomp : UnitSystem.compatible u v = true
                · rw [if_pos hcomp]
                  exact fin _ (.inr (.inr ⟨u, f0, v, rfl, rfl, rfl, hv, hcomp⟩)) _ rfl
                · left; refine ⟨.valueError, ?_⟩
                  rw [if_neg hcomp]; rfl

theorem step_addedWorld {w : World U D} {c : Nat} {ch : Chain U} {g : Graph U} {n : String} {r : Nat}
    {s : Signal U D} {tr : Transformation U} {data : Option D} {out : Signal U D}
    (hc : w.chains[c]? = some ch) (hg : w.graphs[ch.graph]? = some g)
    (hn : Dict.get? g.nodes n = some r) (hs : w.sigs[r]? = some s)
    (ho : determineOutput tr s data = .ok out) (hf : tr.name ∉ Dict.keys g.nodes) :
    Step w (addedWorld w c ch g n tr out) := .addNode w c ch g n r s tr data out hc hg hn hs ho hf

/-- A call raises without any effect or is a sequence of primitive changes. -/
theorem run_cases [UnitSystem U] (op : Op U D) (w : World U D) :
    (∃ e, run op w = .err e w) ∨ ∃ w', run op w = .ok () w' ∧ Steps w w' := by
  have hnew : ∀ name src e data, (∃ x, newChain name src e data w = .err x w) ∨
      ∃ i w', newChain name src e data w = .ok i w' ∧ Steps w w' := by
    intro name src e data
    rcases newChain_cases name src e data w with h | ⟨s, w1, hs, h1, hw⟩
    · exact .inl h
    · right
      refine ⟨_, _, hw, ?_⟩
      rcases h1 with ⟨_, rfl⟩ | ⟨d, _, hd, rfl⟩
      · exact .single (.pushChain _ name src e (lt_of_getElem? hs))
      · refine .head (.setData w src.sig s d hs hd) (.single ?_)
        exact Step.pushChain { w with sigs := w.sigs.set src.sig { s with data := some d } } name src e
          (by simpa using lt_of_getElem? hs)
  cases op with
  | newSignal ty u d => right; exact ⟨_, rfl, .single (.pushSig w ⟨ty, u, d⟩)⟩
  | newChain n s d =>
    rcases hnew n s none d with ⟨x, hx⟩ | ⟨i, w', hx, hs⟩
    · left; exact ⟨x, by rw [run, Py.bind_err hx]⟩
    · right; exact ⟨w', by rw [run, Py.bind_ok hx]; rfl, hs⟩
  | fromEquipment n e sn =>
    rcases fromEquipment_cases n e sn w with ⟨x, hx⟩ | ⟨src, _, hsrc⟩
    · left; exact ⟨x, by rw [run, Py.bind_err hx]⟩
    · rcases hnew n src (some e) none with ⟨x, hx⟩ | ⟨i, w', hx, hs⟩
      · left; exact ⟨x, by rw [run, Py.bind_err (hsrc.trans hx)]⟩
      · right; exact ⟨w', by rw [run, Py.bind_ok (hsrc.trans hx)]; rfl, hs⟩
  | addSignalData c d s =>
    rcases addSignalData_cases c d s w with h | ⟨ch, g, n, r, s, hc, hg, hn, hr, hs, hd, hw⟩
    · exact .inl h
    · exact .inr ⟨_, hw, .single (.setData w r s d hs hd)⟩
  | addTransformation c tr d i =>
    rcases addTransformation_cases c tr d i w with h | ⟨ch, g, n, r, s, out, hc, hg, hn, hr, hs, ho, hf, hw⟩
    · exact .inl h
    · exact .inr ⟨_, hw, .single (step_addedWorld hc hg hr hs ho hf)⟩
  | addFromEquipment c e d i tn =>
    rcases addFromEquipment_cases c e d i tn w with h | ⟨ch, g, n, r, s, out, tr, _, hc, hg, hn, hr, hs, ho, hf, hw⟩
    · exact .inl h
    · refine .inr ⟨_, hw, .head (step_addedWorld hc hg hr hs ho hf) (.single ?_)⟩
      exact Step.setEquip (addedWorld w c ch g n tr out) ch.graph _ (n, tr.name) ⟨tr, none⟩ e
        (addedWorld_chain hc hg).2 (by simp [Dict.get?_set])
  | createTransformation c name ot ou f d i =>
    rcases createTransformation_cases c name ot ou f d i w with h | ⟨ch, g, n, r, s, a, b, f', tr, out, hc, hg, hn, hr, hs, _, _, _, _, ho, hf, hw⟩
    · exact .inl h
    · exact .inr ⟨_, hw, .single (step_addedWorld hc hg hr hs ho hf)⟩
  | fromDict c =>
    rcases fromDict_cases c w with ⟨x, hx⟩ | ⟨ch, g, hc, hg, hw⟩
    · left; exact ⟨x, by rw [run, Py.bind_err hx]⟩
    · right; exact ⟨_, by rw [run, Py.bind_ok hw]; rfl, .single (.copyChain w c ch g _ hc hg rfl)⟩

end Weldx.Meas
