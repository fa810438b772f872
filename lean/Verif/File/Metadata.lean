import Verif.Base.Dict

/-!
# Removal of `None` and metadata in the serialisation of objects (C40)

Source: `/repo/weldx/asdf/types.py` 26-46 (`to_yaml_tree_metadata`), 49-66 (`from_yaml_tree_metadata`); `boltons.iterutils.remap` with
the default `enter` and `exit` functions; `/repo/weldx/constants.py` (`META_ATTR`, `USER_ATTR`).

Simplifications: containers are lists, tuples and dictionaries with string keys; all other objects are leaves; no object is
contained in itself, and the identity of shared containers is not modelled.
-/

namespace Weldx.File

/-- a tree of Python objects -/
inductive Tree (L : Type)
  | none
  | leaf (l : L)
  | list (ts : List (Tree L))
  | tuple (ts : List (Tree L))
  | dict (kvs : List (String × Tree L))

variable {L : Type}

/-- `v is not None` -/
def Tree.some? : Tree L → Bool
  | .none => false
  | _ => true

mutual
/-- `remap(tree, lambda p, k, v: v is not None)` below a node -/
def Tree.strip : Tree L → Tree L
  | .none => .none
  | .leaf l => .leaf l
  | .list ts => .list (stripList ts)
  | .tuple ts => .tuple (stripList ts)
  | .dict kvs => .dict (stripDict kvs)
/-- the entries of a list -/
def stripList : List (Tree L) → List (Tree L)
  | [] => []
  | t :: ts => if t.some? then t.strip :: stripList ts else stripList ts
/-- the entries of a dictionary -/
def stripDict : List (String × Tree L) → List (String × Tree L)
  | [] => []
  | (k, t) :: ts => if t.some? then (k, t.strip) :: stripDict ts else stripDict ts
end

/-- `bool(value)`; `truth` is the truth value of the leaves -/
def Tree.truth (truth : L → Bool) : Tree L → Bool
  | .none => false
  | .leaf l => truth l
  | .list ts => !ts.isEmpty
  | .tuple ts => !ts.isEmpty
  | .dict kvs => !kvs.isEmpty

/-- an object: what its converter sees, and the two attributes (absent attributes are `none`) -/
structure Obj (O L : Type) where
  core : O
  info : Tree L
  user : Tree L

/-- the exceptions -/
inductive MErr
  | typeError | converter
deriving DecidableEq

/-- types.py 39-42: one pass of the loop. Only dictionaries have string keys. -/
def putAttr (truth : L → Bool) (key : String) (attr : Tree L) (t : Tree L) : Except MErr (Tree L) :=
  if attr.truth truth then
    match t with
    | .dict kvs => .ok (.dict (Dict.set kvs key attr))
    | _ => .error .typeError
  else .ok t

/-- types.py 44-45: only dictionaries and lists are processed -/
def dropNone : Tree L → Tree L
  | .dict kvs => (Tree.dict kvs).strip
  | .list ts => (Tree.list ts).strip
  | t => t

/-- types.py 26-48 -/
def toTreeMeta {O : Type} (truth : L → Bool) (enc : O → Tree L) (x : Obj O L) : Except MErr (Tree L) :=
  match putAttr truth "wx_metadata" x.info (enc x.core) with
  | .error e => .error e
  | .ok t =>
    match putAttr truth "wx_user" x.user t with
    | .error e => .error e
    | .ok t => .ok (dropNone t)

/-- types.py 57-61: the value of an attribute -/
def takeAttr (truth : L → Bool) (key : String) : Tree L → Tree L × Tree L
  | .dict kvs =>
    let v := (Dict.get? kvs key).getD .none
    (.dict (Dict.erase kvs key), if v.truth truth then v else .none)
  | t => (t, .none)

/-- types.py 51-66 -/
def fromTreeMeta {O : Type} (truth : L → Bool) (from_ : Tree L → Except MErr O) (t : Tree L) : Except MErr (Obj O L) :=
  let m := takeAttr truth "wx_metadata" t
  let u := takeAttr truth "wx_user" m.1
  match from_ u.1 with
  | .error e => .error e
  | .ok o => .ok ⟨o, m.2, u.2⟩

/-! ## Specification vocabulary -/

/-- an entry of a container: by key or by position -/
def Tree.entry (t : Tree L) (k : String) : Option (Tree L) :=
  match t with
  | .dict kvs => Dict.get? kvs k
  | _ => Option.none

/-- what is found below a path of dictionary keys -/
def Tree.at (t : Tree L) : List String → Option (Tree L)
  | [] => some t
  | k :: p =>
    match t.entry k with
    | Option.none => Option.none
    | some u => u.at p

/-- no entry of any container is `None` -/
inductive Full : Tree L → Prop
  | none : Full .none
  | leaf {l} : Full (.leaf l)
  | list {ts} : (∀ t ∈ ts, t ≠ Tree.none) → (∀ t ∈ ts, Full t) → Full (.list ts)
  | tuple {ts} : (∀ t ∈ ts, t ≠ Tree.none) → (∀ t ∈ ts, Full t) → Full (.tuple ts)
  | dict {kvs} : (∀ e ∈ kvs, e.2 ≠ Tree.none) → (∀ e ∈ kvs, Full e.2) → Full (.dict kvs)

/-! ## Lemmas -/

theorem some?_iff {t : Tree L} : t.some? = true ↔ t ≠ .none := by
  cases t <;> simp [Tree.some?]

theorem strip_ne_none {t : Tree L} (h : t ≠ .none) : t.strip ≠ .none := by
  cases t <;> simp_all [Tree.strip]

theorem stripList_eq (ts : List (Tree L)) : stripList ts = (ts.filter Tree.some?).map Tree.strip := by
  induction ts with
  | nil => simp [stripList]
  | cons t ts ih =>
    rw [stripList, List.filter_cons]
    split <;> simp [ih]

theorem stripDict_eq (kvs : List (String × Tree L)) :
    stripDict kvs = (kvs.filter fun e => e.2.some?).map fun e => (e.1, e.2.strip) := by
  induction kvs with
  | nil => simp [stripDict]
  | cons e ts ih =>
    obtain ⟨k, t⟩ := e
    rw [stripDict, List.filter_cons]
    simp only
    split <;> simp [ih]

theorem get?_map {V W : Type} {kvs : List (String × V)} {f : V → W} {k : String} :
    Dict.get? (kvs.map fun e => (e.1, f e.2)) k = (Dict.get? kvs k).map f := by
  induction kvs with
  | nil => rfl
  | cons e t ih =>
    obtain ⟨k', v⟩ := e
    simp only [List.map_cons, Dict.get?]
    split
    · rfl
    · exact ih

theorem get?_stripDict {kvs : List (String × Tree L)} (hn : (Dict.keys kvs).Nodup) {k : String} {v : Tree L} :
    Dict.get? (stripDict kvs) k = some v ↔ ∃ u, Dict.get? kvs k = some u ∧ u ≠ .none ∧ v = u.strip := by
  rw [stripDict_eq]
  induction kvs with
  | nil => simp [Dict.get?]
  | cons e t ih =>
    obtain ⟨k', u⟩ := e
    simp only [Dict.keys_cons, List.nodup_cons] at hn
    simp only [List.filter_cons]
    by_cases hk : k' = k
    · subst hk
      split
      · rename_i hu
        simp only [List.map_cons, Dict.get?, if_true, Option.some.injEq]
        constructor
        · rintro rfl; exact ⟨u, rfl, some?_iff.1 hu, rfl⟩
        · rintro ⟨w, rfl, -, rfl⟩; rfl
      · rename_i hu
        have hu' : u = .none := by
          by_contra h; exact hu (some?_iff.2 h)
        rw [ih hn.2]
        simp only [Dict.get?, if_true, Option.some.injEq]
        constructor
        · rintro ⟨w, hw, -⟩
          exact absurd (Dict.get?_isSome.1 ⟨w, hw⟩) hn.1
        · rintro ⟨w, rfl, h, -⟩
          exact absurd hu' h
    · split
      · simp only [List.map_cons, Dict.get?, hk, if_false]
        rw [ih hn.2]
      · simp only [Dict.get?, hk, if_false]
        rw [ih hn.2]

/-- all dictionaries of a tree have unique keys -/
inductive Proper : Tree L → Prop
  | none : Proper .none
  | leaf {l} : Proper (.leaf l)
  | list {ts} : (∀ t ∈ ts, Proper t) → Proper (.list ts)
  | tuple {ts} : (∀ t ∈ ts, Proper t) → Proper (.tuple ts)
  | dict {kvs} : (Dict.keys kvs).Nodup → (∀ e ∈ kvs, Proper e.2) → Proper (.dict kvs)

/-! ## C40 -/

/-- induction over trees -/
theorem Tree.induct {P : Tree L → Prop} (none : P .none) (leaf : ∀ l, P (.leaf l))
    (list : ∀ ts, (∀ t ∈ ts, P t) → P (.list ts)) (tuple : ∀ ts, (∀ t ∈ ts, P t) → P (.tuple ts))
    (dict : ∀ kvs, (∀ e ∈ kvs, P e.2) → P (.dict kvs)) (t : Tree L) : P t := by
  refine Tree.rec (motive_1 := P) (motive_2 := fun ts => ∀ t ∈ ts, P t) (motive_3 := fun kvs => ∀ e ∈ kvs, P e.2)
    (motive_4 := fun e => P e.2) none leaf list tuple dict ?_ ?_ ?_ ?_ ?_ t
  · simp
  · intro a l ha hl t ht
    rcases List.mem_cons.1 ht with rfl | ht
    · exact ha
    · exact hl t ht
  · simp
  · intro a l ha hl t ht
    rcases List.mem_cons.1 ht with rfl | ht
    · exact ha
    · exact hl t ht
  · intro k t ht; exact ht

/-- **C40** (no `None` is left): no entry of any container of the result is `None`. -/
theorem C40_full (t : Tree L) : Full t.strip := by
  induction t using Tree.induct with
  | none => exact .none
  | leaf l => exact .leaf
  | list ts ih =>
    rw [Tree.strip, stripList_eq]
    refine .list (fun t ht => ?_) (fun t ht => ?_)
    all_goals
      obtain ⟨u, hu, rfl⟩ := List.mem_map.1 ht
      obtain ⟨h1, h2⟩ := List.mem_filter.1 hu
    · exact strip_ne_none (some?_iff.1 h2)
    · exact ih u h1
  | tuple ts ih =>
    rw [Tree.strip, stripList_eq]
    refine .tuple (fun t ht => ?_) (fun t ht => ?_)
    all_goals
      obtain ⟨u, hu, rfl⟩ := List.mem_map.1 ht
      obtain ⟨h1, h2⟩ := List.mem_filter.1 hu
    · exact strip_ne_none (some?_iff.1 h2)
    · exact ih u h1
  | dict kvs ih =>
    rw [Tree.strip, stripDict_eq]
    refine .dict (fun t ht => ?_) (fun t ht => ?_)
    all_goals
      obtain ⟨u, hu, rfl⟩ := List.mem_map.1 ht
      obtain ⟨h1, h2⟩ := List.mem_filter.1 hu
    · exact strip_ne_none (some?_iff.1 h2)
    · exact ih u h1

/-- **C40** (nothing else changes): a tree without `None` entries is left as it is. -/
theorem C40_unchanged {t : Tree L} (h : Full t) : t.strip = t := by
  induction t using Tree.induct with
  | none => rfl
  | leaf l => rfl
  | list ts ih =>
    cases h with
    | list h h' =>
      rw [Tree.strip, stripList_eq, List.filter_eq_self.2 (fun t ht => some?_iff.2 (h t ht))]
      rw [List.map_congr_left (g := id) (fun t ht => ih t ht (h' t ht)), List.map_id]
  | tuple ts ih =>
    cases h with
    | tuple h h' =>
      rw [Tree.strip, stripList_eq, List.filter_eq_self.2 (fun t ht => some?_iff.2 (h t ht))]
      rw [List.map_congr_left (g := id) (fun t ht => ih t ht (h' t ht)), List.map_id]
  | dict kvs ih =>
    cases h with
    | dict h h' =>
      rw [Tree.strip, stripDict_eq, List.filter_eq_self.2 (fun t ht => some?_iff.2 (h t ht))]
      rw [List.map_congr_left (g := id) (fun t ht => by rw [ih t ht (h' t ht)]; rfl), List.map_id]

/-- **C40** (dictionaries of any depth): below every path of keys the result has what the original has, if that is not `None` (and is
not below a `None`), and nothing otherwise. -/
theorem C40_paths {t : Tree L} (ht : Proper t) (hne : t ≠ .none) {p : List String} {v : Tree L} :
    t.strip.at p = some v ↔ ∃ u, t.at p = some u ∧ u ≠ .none ∧ v = u.strip := by
  induction p generalizing t with
  | nil =>
    simp only [Tree.at, Option.some.injEq]
    constructor
    · rintro rfl; exact ⟨t, rfl, hne, rfl⟩
    · rintro ⟨u, rfl, -, rfl⟩; rfl
  | cons k p ih =>
    cases ht with
    | none => exact absurd rfl hne
    | leaf => simp [Tree.at, Tree.entry, Tree.strip]
    | list h => simp [Tree.at, Tree.entry, Tree.strip]
    | tuple h => simp [Tree.at, Tree.entry, Tree.strip]
    | @dict kvs hn h =>
      simp only [Tree.at, Tree.entry, Tree.strip]
      cases hg : Dict.get? kvs k with
      | none =>
        have : Dict.get? (stripDict kvs) k = Option.none := by
          cases hs : Dict.get? (stripDict kvs) k with
          | none => rfl
          | some w =>
            obtain ⟨u, hu, -⟩ := (get?_stripDict hn).1 hs
            rw [hg] at hu; cases hu
        simp [this]
      | some u =>
        by_cases hu : u = .none
        · subst hu
          have : Dict.get? (stripDict kvs) k = Option.none := by
            cases hs : Dict.get? (stripDict kvs) k with
            | none => rfl
            | some w =>
              obtain ⟨u, hu, hne, -⟩ := (get?_stripDict hn).1 hs
              rw [hg] at hu
              exact absurd (Option.some.inj hu).symm hne
          rw [this]
          simp only [reduceCtorEq, false_iff, not_exists, not_and]
          intro w hw hwn
          cases p with
          | nil =>
            simp only [Tree.at, Option.some.injEq] at hw
            exact absurd hw.symm hwn
          | cons k' p => simp [Tree.at, Tree.entry] at hw
        · have : Dict.get? (stripDict kvs) k = some u.strip := (get?_stripDict hn).2 ⟨u, hg, hu, rfl⟩
          rw [this]
          exact ih (h _ (Dict.mem_of_get? hg)) hu

/-- **C40** (lists): entries of lists that are `None` are dropped, so that the later entries change their position. -/
theorem C40_lists (ts : List (Tree L)) :
    (Tree.list ts).strip = .list ((ts.filter Tree.some?).map Tree.strip) := by
  rw [Tree.strip, stripList_eq]

/-- the tree of a converter has none of the two metadata keys -/
def Plain (t : Tree L) : Prop :=
  ∃ kvs, t = .dict kvs ∧ (Dict.keys kvs).Nodup ∧ "wx_metadata" ∉ Dict.keys kvs ∧ "wx_user" ∉ Dict.keys kvs

/-- what is left of an attribute after writing and reading -/
def kept (truth : L → Bool) (t : Tree L) : Tree L := if t.truth truth ∧ t.strip.truth truth then t.strip else .none

theorem truth_ne_none {truth : L → Bool} {t : Tree L} (h : t.truth truth = true) : t ≠ .none := by
  rintro rfl; cases h

theorem stripDict_append (a b : List (String × Tree L)) : stripDict (a ++ b) = stripDict a ++ stripDict b := by
  simp [stripDict_eq]

theorem not_mem_stripDict {kvs : List (String × Tree L)} {k : String} (h : k ∉ Dict.keys kvs) :
    k ∉ Dict.keys (stripDict kvs) := by
  intro hk
  obtain ⟨v, hv⟩ := Dict.mem_keys_iff.1 hk
  rw [stripDict_eq] at hv
  obtain ⟨e, he, heq⟩ := List.mem_map.1 hv
  obtain ⟨rfl, -⟩ := Prod.mk.inj heq
  exact h (Dict.mem_keys_of_mem (List.mem_filter.1 he).1)

theorem erase_not_mem {V : Type} {kvs : List (String × V)} {k : String} (h : k ∉ Dict.keys kvs) : Dict.erase kvs k = kvs := by
  unfold Dict.erase
  rw [List.filter_eq_self]
  intro e he
  simp only [ne_eq, decide_not, Bool.not_eq_eq_eq_not, Bool.not_true, decide_eq_false_iff_not]
  rintro rfl
  exact h (Dict.mem_keys_of_mem he)

/-- **C40** (metadata): after writing and reading, the two attributes are what they were without their `None` entries, and the
converter is given its own tree without `None` entries. Attributes that are empty (or false), before or after the removal of
`None`, are not restored. -/
theorem C40_metadata {O : Type} {truth : L → Bool} {enc : O → Tree L} {from_ : Tree L → Except MErr O} {x : Obj O L}
    (hp : Plain (enc x.core)) :
    ∃ t, toTreeMeta truth enc x = .ok t ∧
      fromTreeMeta truth from_ t = (from_ (enc x.core).strip).map fun o => ⟨o, kept truth x.info, kept truth x.user⟩ := by
  obtain ⟨kvs, hk, hn, h1, h2⟩ := hp
  -- the written tree
  let m : List (String × Tree L) := if x.info.truth truth then [("wx_metadata", x.info)] else []
  let u : List (String × Tree L) := if x.user.truth truth then [("wx_user", x.user)] else []
  have hput1 : putAttr truth "wx_metadata" x.info (enc x.core) = .ok (.dict (kvs ++ m)) := by
    rw [hk]
    simp only [putAttr, m]
    split
    · rw [Dict.set_of_not_mem h1]
    · simp
  have hum : "wx_user" ∉ Dict.keys (kvs ++ m) := by
    simp only [Dict.keys_append, List.mem_append, not_or]
    refine ⟨h2, ?_⟩
    simp only [m]
    split <;> simp
  have hput2 : putAttr truth "wx_user" x.user (.dict (kvs ++ m)) = .ok (.dict (kvs ++ m ++ u)) := by
    simp only [putAttr, u]
    split
    · rw [Dict.set_of_not_mem hum]
    · simp
  have hto : toTreeMeta truth enc x = .ok (.dict (stripDict kvs ++ stripDict m ++ stripDict u)) := by
    unfold toTreeMeta
    rw [hput1]
    simp only
    rw [hput2]
    simp only [dropNone, Tree.strip, stripDict_append]
  refine ⟨_, hto, ?_⟩
  have hm : stripDict m = if x.info.truth truth then [("wx_metadata", x.info.strip)] else [] := by
    simp only [m]
    split
    · rename_i h
      simp [stripDict, some?_iff.2 (truth_ne_none h)]
    · simp [stripDict]
  have hu : stripDict u = if x.user.truth truth then [("wx_user", x.user.strip)] else [] := by
    simp only [u]
    split
    · rename_i h
      simp [stripDict, some?_iff.2 (truth_ne_none h)]
    · simp [stripDict]
  have g1 := not_mem_stripDict h1
  have g2 := not_mem_stripDict h2
  rw [hm, hu]
  -- reading the first attribute
  have hget1 : Dict.get? (stripDict kvs ++ (if x.info.truth truth then [("wx_metadata", x.info.strip)] else []) ++
      (if x.user.truth truth then [("wx_user", x.user.strip)] else [])) "wx_metadata" =
      if x.info.truth truth then some x.info.strip else none := by
    rw [Dict.get?_append, Dict.get?_append, Dict.get?_eq_none.2 g1]
    by_cases a : x.info.truth truth = true <;> by_cases b : x.user.truth truth = true <;> simp [a, b, Dict.get?]
  have herase1 : Dict.erase (stripDict kvs ++ (if x.info.truth truth then [("wx_metadata", x.info.strip)] else []) ++
      (if x.user.truth truth then [("wx_user", x.user.strip)] else [])) "wx_metadata" =
      stripDict kvs ++ (if x.user.truth truth then [("wx_user", x.user.strip)] else []) := by
    have := erase_not_mem g1
    unfold Dict.erase at this ⊢
    rw [List.filter_append, List.filter_append, this]
    by_cases a : x.info.truth truth = true <;> by_cases b : x.user.truth truth = true <;> simp [a, b]
  have hget2 : Dict.get? (stripDict kvs ++ (if x.user.truth truth then [("wx_user", x.user.strip)] else [])) "wx_user" =
      if x.user.truth truth then some x.user.strip else none := by
    rw [Dict.get?_append, Dict.get?_eq_none.2 g2]
    by_cases b : x.user.truth truth = true <;> simp [b, Dict.get?]
  have herase2 : Dict.erase (stripDict kvs ++ (if x.user.truth truth then [("wx_user", x.user.strip)] else [])) "wx_user" =
      stripDict kvs := by
    have := erase_not_mem g2
    unfold Dict.erase at this ⊢
    rw [List.filter_append, this]
    by_cases b : x.user.truth truth = true <;> simp [b]
  have hkept : ∀ a : Tree L, (if ((if a.truth truth = true then some a.strip else none : Option (Tree L)).getD .none).truth truth = true
      then (if a.truth truth = true then some a.strip else none : Option (Tree L)).getD .none else .none) = kept truth a := by
    intro a
    unfold kept
    by_cases h : a.truth truth = true
    · simp [h]
    · simp [h]
  simp only [fromTreeMeta, takeAttr, hget1, herase1, hget2, herase2, hkept]
  rw [hk, Tree.strip]
  cases from_ (.dict (stripDict kvs)) <;> rfl

/-- **C40** (lost metadata): metadata that consists of `None` values only is not restored as an empty dictionary. -/
theorem C40_lost {truth : L → Bool} {k : String} : kept truth (.dict [(k, .none)]) = .none := by
  simp [kept, Tree.strip, stripDict, Tree.some?, Tree.truth]

/-- **C40** (objects that are not stored as dictionaries): metadata of an object whose converter makes a list or another value raises a
`TypeError`. -/
theorem C40_no_dict {O : Type} {truth : L → Bool} {enc : O → Tree L} {x : Obj O L}
    (h : ∀ kvs, enc x.core ≠ .dict kvs) (hm : x.info.truth truth = true) : toTreeMeta truth enc x = .error .typeError := by
  unfold toTreeMeta putAttr
  rw [if_pos hm]
  cases ht : enc x.core with
  | dict kvs => exact absurd ht (h kvs)
  | none => rfl
  | leaf l => rfl
  | list ts => rfl
  | tuple ts => rfl

/-! ### Examples -/

/-- `{"a": [1, None, 2], "b": None, "c": {"d": None, "e": 3}}` -/
def sample : Tree ℕ :=
  .dict [("a", .list [.leaf 1, .none, .leaf 2]), ("b", .none), ("c", .dict [("d", .none), ("e", .leaf 3)])]

example : sample.strip = .dict [("a", .list [.leaf 1, .leaf 2]), ("c", .dict [("e", .leaf 3)])] := by
  simp [sample, Tree.strip, stripDict, stripList, Tree.some?]

example : Proper sample := by
  refine .dict (by decide) ?_
  intro e he
  simp only [List.mem_cons, List.not_mem_nil, or_false] at he
  rcases he with rfl | rfl | rfl
  · refine .list ?_
    intro t ht
    simp only [List.mem_cons, List.not_mem_nil, or_false] at ht
    rcases ht with rfl | rfl | rfl
    exacts [.leaf, .none, .leaf]
  · exact .none
  · refine .dict (by decide) ?_
    intro e he
    simp only [List.mem_cons, List.not_mem_nil, or_false] at he
    rcases he with rfl | rfl
    exacts [.none, .leaf]

example : Plain sample := ⟨_, rfl, by decide, by decide, by decide⟩

/-- **C40** (empty attributes): `None` and empty containers are not written. -/
theorem C40_empty {O : Type} {truth : L → Bool} {enc : O → Tree L} {x : Obj O L} :
    (x.info ∈ [Tree.none, .list [], .tuple [], .dict []] →
      toTreeMeta truth enc x = toTreeMeta truth enc { x with info := .none }) ∧
    (x.user ∈ [Tree.none, .list [], .tuple [], .dict []] →
      toTreeMeta truth enc x = toTreeMeta truth enc { x with user := .none }) := by
  constructor <;>
  · intro h
    have ht : ∀ t ∈ [Tree.none, .list [], .tuple [], .dict []], Tree.truth (L := L) truth t = false := by simp [Tree.truth]
    have := ht _ h
    have hn : Tree.truth (L := L) truth .none = false := rfl
    simp [toTreeMeta, putAttr, this, hn]

/-- **C40** (other containers): attributes that are containers with entries are true, so that they are written. -/
theorem C40_nonempty {truth : L → Bool} {ts : List (Tree L)} {kvs : List (String × Tree L)} :
    ((Tree.list ts).truth truth = true ↔ ts ≠ []) ∧ ((Tree.tuple ts).truth truth = true ↔ ts ≠ []) ∧
    ((Tree.dict kvs).truth truth = true ↔ kvs ≠ []) := by
  simp [Tree.truth]

/-- **C40** (without attributes): what is written is the tree of the converter without `None` in dictionaries and lists; other trees are
left as they are. -/
theorem C40_bare {O : Type} {truth : L → Bool} {enc : O → Tree L} {x : Obj O L} (hi : x.info.truth truth = false)
    (hu : x.user.truth truth = false) : toTreeMeta truth enc x = .ok (match enc x.core with
      | .dict kvs => .dict ((kvs.filter fun e => e.2.some?).map fun e => (e.1, e.2.strip))
      | .list ts => .list ((ts.filter Tree.some?).map Tree.strip)
      | t => t) := by
  simp only [toTreeMeta, putAttr, hi, hu, Bool.false_eq_true, if_false, dropNone]
  cases enc x.core <;> simp [Tree.strip, stripList_eq, stripDict_eq]

end Weldx.File
