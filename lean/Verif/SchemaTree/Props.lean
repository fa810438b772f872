import Verif.SchemaTree.Model

/-!
# Overview of a schema as a dictionary: properties (C88)
-/

namespace Weldx.SchemaTree

/-! ### specification -/

/-- what a schema says about the class of a value -/
inductive Kind
  | tag (t : Str)
  | ref (r : Str)
  | type (t : Str)
  | none

/-- other information: a text or a list of texts -/
inductive Info
  | text (s : Str)
  | texts (l : List Str)

mutual
/-- a schema for a value, or for an object with properties -/
inductive Sch
  | field (kind : Kind) (info : List (Str × Info))
  | object (kind : Kind) (info : List (Str × Info)) (props : Props)
/-- properties: name, whether it is required, schema -/
inductive Props
  | nil
  | cons (name : Str) (required : Bool) (s : Sch) (rest : Props)
end

/-- the kind of a schema -/
def Sch.kind : Sch → Kind
  | .field k _ => k
  | .object k _ _ => k

/-- properties as list -/
def Props.toList : Props → List (Str × Bool × Sch)
  | .nil => []
  | .cons n b s r => (n, b, s) :: r.toList

/-- names of the required properties -/
def Props.reqs (p : Props) : List Str := (p.toList.filter fun e => e.2.1).map Prod.fst

/-- as it is in the file -/
def Info.y : Info → Y
  | .text s => .leaf s
  | .texts l => .list (l.map .leaf)

/-- as it is in the file -/
def Kind.items : Kind → List (Str × Y)
  | .tag t => [("tag".toList, .leaf t)]
  | .ref r => [("$ref".toList, .leaf r)]
  | .type t => [("type".toList, .leaf t)]
  | .none => []

/-- names of further information in a list -/
def infoItems (i : List (Str × Info)) : List (Str × Y) := i.map fun e => (e.1, e.2.y)

/-- the entry `required`, if there is one -/
def reqItem (reqs : List Str) : List (Str × Y) := if reqs = [] then [] else [("required".toList, .list (reqs.map .leaf))]

/-- how schemas are written down: information, with or without the kind, only the properties or not, and the keys of the properties -/
structure Form where
  info : List (Str × Info) → List (Str × Info)
  kind : Bool
  flat : Bool
  lab : List Str → Str → Sch → Str

mutual
/-- a schema as tree -/
def Form.enc (F : Form) : Sch → Y
  | .field k i => .dict ((if F.kind then k.items else []) ++ infoItems (F.info i))
  | .object k i ps => if F.flat then .dict (F.encProps ps.reqs ps) else .dict ((if F.kind then k.items else []) ++
      (("properties".toList, .dict (F.encProps ps.reqs ps)) :: (reqItem ps.reqs ++ infoItems (F.info i))))
/-- the properties -/
def Form.encProps (F : Form) (reqs : List Str) : Props → List (Str × Y)
  | .nil => []
  | .cons n _ s r => (F.lab reqs n s, F.enc s) :: F.encProps reqs r
end

/-- the schema file -/
def file : Form := ⟨id, true, false, fun _ n _ => n⟩

/-- what is written in parentheses -/
def suffix (E : Env) : Kind → Option Str
  | .tag t => some ((E.className t).getD (afterLast "asdf://weldx.bam.de/weldx/tags/".toList t))
  | .ref r => some ('$' :: afterLast "asdf://weldx.bam.de/weldx/schemas/".toList r)
  | .type t => typeName t
  | .none => none

/-- name and class of a property -/
def label (E : Env) (n : Str) (s : Sch) : Str := match suffix E s.kind with
  | some x => paren n x
  | none => n

/-- information on the shape in one text -/
def shapeText (e : Str × Info) : Str × Info :=
  if e.1 = "wx_shape".toList then match e.2 with
    | .texts l => (e.1, .text ('[' :: joinComma l ++ [']']))
    | _ => e
  else e

/-- the information that is shown -/
def shown (drop : List Str) (i : List (Str × Info)) : List (Str × Info) :=
  (i.map shapeText).filter fun e => e.1 ∉ metaKeys ++ drop

mutual
/-- the overview that should be made: properties with class and whether they are required -/
def overview (E : Env) (drop : List Str) : Sch → Y
  | .field _ i => .dict (infoItems (shown drop i))
  | .object _ _ ps => .dict (overviewProps E drop ps)
def overviewProps (E : Env) (drop : List Str) : Props → List (Str × Y)
  | .nil => []
  | .cons n b s r => (match suffix E s.kind with
      | some x => n ++ " (".toList ++ x ++ (if b then ", required)".toList else [')'])
      | none => if b then n ++ " (required)".toList else n, overview E drop s) :: overviewProps E drop r
end

mutual
/-- the overview that is made: the last letter is replaced for all keys that begin with a required name -/
def result (E : Env) (drop : List Str) : Sch → Y
  | .field _ i => .dict (infoItems (shown drop i))
  | .object _ _ ps => .dict (resultProps E drop ps.reqs ps)
def resultProps (E : Env) (drop : List Str) (reqs : List Str) : Props → List (Str × Y)
  | .nil => []
  | .cons n _ s r => (markKey reqs (label E n s), result E drop s) :: resultProps E drop reqs r
end

mutual
/-- every required property says its class in a way that is recognised, and no other property begins with a required name -/
def Clear (E : Env) : Sch → Prop
  | .field _ _ => True
  | .object _ _ ps => ClearProps E ps.reqs ps
def ClearProps (E : Env) (reqs : List Str) : Props → Prop
  | .nil => True
  | .cons n b s r => (if b then suffix E s.kind ≠ none else ∀ x ∈ reqs, ¬ x <+: label E n s) ∧ Clear E s ∧ ClearProps E reqs r
end

/-- keys with a meaning -/
def reserved : List Str := ["tag".toList, "$ref".toList, "type".toList, "properties".toList, "required".toList]

mutual
/-- names are unique, also together with their classes, and those without class are neither reserved nor dropped -/
def WF (E : Env) (drop : List Str) : Sch → Prop
  | .field _ i => (i.map Prod.fst).Nodup ∧ ∀ e ∈ i, e.1 ∉ reserved
  | .object _ i ps => (i.map Prod.fst).Nodup ∧ (∀ e ∈ i, e.1 ∉ reserved) ∧
      (ps.toList.map fun p => p.1).Nodup ∧ (ps.toList.map fun p => label E p.1 p.2.2).Nodup ∧
      (ps.toList.map fun p => markKey ps.reqs (label E p.1 p.2.2)).Nodup ∧
      (∀ p ∈ ps.toList, label E p.1 p.2.2 ∉ reserved ∧ markKey ps.reqs (label E p.1 p.2.2) ∉ reserved ++ metaKeys ++ drop) ∧
      WFProps E drop ps
def WFProps (E : Env) (drop : List Str) : Props → Prop
  | .nil => True
  | .cons _ _ s r => WF E drop s ∧ WFProps E drop r
end

/-! ### one pass -/

/-- visit of an item after its inner items -/
def full (f : Visit) (k : Str) (y : Y) : Except Err (Option (Str × Y)) := match remap f y with
  | .error e => .error e
  | .ok y' => f k y'

theorem remapItems_cons {f : Visit} {k : Str} {y : Y} {d d' : List (Str × Y)} {r : Option (Str × Y)} (h : full f k y = .ok r)
    (hd : remapItems f d = .ok d') : remapItems f ((k, y) :: d) = .ok (r.toList ++ d') := by
  unfold full at h
  rw [remapItems]
  cases hy : remap f y with
  | error e => rw [hy] at h; cases h
  | ok y' =>
    rw [hy] at h
    simp only at h ⊢
    rw [h, hd]

theorem remapItems_append {f : Visit} {a a' b b' : List (Str × Y)} (ha : remapItems f a = .ok a') (hb : remapItems f b = .ok b') :
    remapItems f (a ++ b) = .ok (a' ++ b') := by
  induction a generalizing a' with
  | nil =>
    rw [remapItems] at ha
    cases ha
    exact hb
  | cons e t ih =>
    obtain ⟨k, y⟩ := e
    rw [remapItems] at ha
    rw [List.cons_append, remapItems]
    cases hy : remap f y with
    | error e => rw [hy] at ha; cases ha
    | ok y' =>
      rw [hy] at ha
      simp only at ha ⊢
      cases hr : f k y' with
      | error e => rw [hr] at ha; cases ha
      | ok r =>
        rw [hr] at ha
        simp only at ha ⊢
        cases ht : remapItems f t with
        | error e => rw [ht] at ha; cases ha
        | ok t' =>
          rw [ht] at ha
          cases ha
          rw [ih ht, List.append_assoc]

theorem update_nodup {d : List (Str × Y)} (acc : List (Str × Y)) (h : (Dict.keys (acc ++ d)).Nodup) : Dict.update acc d = acc ++ d := by
  induction d generalizing acc with
  | nil => simp [Dict.update]
  | cons e t ih =>
    obtain ⟨k, v⟩ := e
    have hk : k ∉ Dict.keys acc := by
      rw [Dict.keys_append, Dict.keys_cons] at h
      exact fun hk => (List.nodup_append.1 h).2.2 k hk k (by simp) rfl
    have e2 : Dict.update acc ((k, v) :: t) = Dict.update (acc ++ [(k, v)]) t := by
      simp [Dict.update, Dict.set_of_not_mem hk]
    rw [e2, ih _ (by simpa using h)]
    simp

/-- what is required of a pass over a schema -/
structure Pass (f : Visit) (keep : Str → Bool) (F F' : Form) (key : Str → Sch → Str) (W : Sch → Prop) : Prop where
  leaf : ∀ k s, f k (.leaf s) = .ok (if keep k then some (k, .leaf s) else none)
  list : ∀ k l, f k (.list l) = .ok (if keep k then some (k, .list l) else none)
  flat : F.flat = false
  item : keep [] = true
  keepReq : keep "required".toList = true
  names : ∀ k i ps, W (.object k i ps) → (ps.toList.map fun p => key (F.lab ps.reqs p.1 p.2.2) p.2.2).Nodup
  child : ∀ k i ps, W (.object k i ps) → ∀ p ∈ ps.toList, W p.2.2 ∧ keep (F.lab ps.reqs p.1 p.2.2) = true
  props : ∀ k i ps, W (.object k i ps) → f "properties".toList
      (.dict (ps.toList.map fun p => (key (F.lab ps.reqs p.1 p.2.2) p.2.2, F'.enc p.2.2))) =
    .ok (some ("properties".toList, .dict (ps.toList.map fun p => (key (F.lab ps.reqs p.1 p.2.2) p.2.2, F'.enc p.2.2))))
  ownField : ∀ n k i, W (.field k i) → f n (.dict (((if F.kind then k.items else []) ++ infoItems (F.info i)).filter fun e => keep e.1)) =
    .ok (if keep n then some (key n (.field k i), F'.enc (.field k i)) else none)
  ownObject : ∀ n k i ps, W (.object k i ps) → f n (.dict (((if F.kind then k.items else []).filter fun e => keep e.1) ++
      (("properties".toList, .dict (ps.toList.map fun p => (key (F.lab ps.reqs p.1 p.2.2) p.2.2, F'.enc p.2.2))) ::
        (reqItem ps.reqs ++ (infoItems (F.info i)).filter fun e => keep e.1)))) =
    .ok (if keep n then some (key n (.object k i ps), F'.enc (.object k i ps)) else none)
  nodupField : ∀ k i, W (.field k i) → (Dict.keys ((if F.kind then k.items else []) ++ infoItems (F.info i))).Nodup
  nodupObject : ∀ k i ps, W (.object k i ps) → (Dict.keys ((if F.kind then k.items else []) ++
      (("properties".toList, Y.leaf []) :: (reqItem ps.reqs ++ infoItems (F.info i))))).Nodup

theorem Pass.texts {f : Visit} {keep : Str → Bool} {F F' : Form} {key : Str → Sch → Str} {W : Sch → Prop} (P : Pass f keep F F' key W)
    (l : List Str) : remapList f (l.map .leaf) = .ok (l.map .leaf) := by
  induction l with
  | nil => rw [List.map_nil, remapList]
  | cons s l ih =>
    rw [List.map_cons, remapList, remap]
    simp only [P.leaf, P.item, if_true, ih]
    rfl

theorem Pass.plain {f : Visit} {keep : Str → Bool} {F F' : Form} {key : Str → Sch → Str} {W : Sch → Prop} (P : Pass f keep F F' key W)
    (k : Str) (p : Info) : full f k p.y = .ok (if keep k then some (k, p.y) else none) := by
  cases p with
  | text s => simp only [full, Info.y, remap, P.leaf]
  | texts l =>
    simp only [full, Info.y]
    rw [remap, P.texts]
    exact P.list k _

theorem Pass.plains {f : Visit} {keep : Str → Bool} {F F' : Form} {key : Str → Sch → Str} {W : Sch → Prop} (P : Pass f keep F F' key W)
    (i : List (Str × Info)) : remapItems f (infoItems i) = .ok ((infoItems i).filter fun e => keep e.1) := by
  induction i with
  | nil => rw [infoItems, List.map_nil, remapItems]; rfl
  | cons e i ih =>
    have e2 : infoItems (e :: i) = (e.1, e.2.y) :: infoItems i := rfl
    rw [e2, remapItems_cons (P.plain e.1 e.2) ih]
    cases hk : keep e.1 <;> simp [hk]

theorem kind_items (k : Kind) : ∃ i, k.items = infoItems i := by
  cases k with
  | tag t => exact ⟨[("tag".toList, .text t)], rfl⟩
  | ref t => exact ⟨[("$ref".toList, .text t)], rfl⟩
  | type t => exact ⟨[("type".toList, .text t)], rfl⟩
  | none => exact ⟨[], rfl⟩

theorem Pass.kinds {f : Visit} {keep : Str → Bool} {F F' : Form} {key : Str → Sch → Str} {W : Sch → Prop} (P : Pass f keep F F' key W)
    (k : Kind) : remapItems f (if F.kind then k.items else []) = .ok ((if F.kind then k.items else []).filter fun e => keep e.1) := by
  obtain ⟨i, hi⟩ := kind_items k
  cases F.kind with
  | true => simp only [if_true]; rw [hi]; exact P.plains i
  | false => exact P.plains []

theorem Pass.reqs {f : Visit} {keep : Str → Bool} {F F' : Form} {key : Str → Sch → Str} {W : Sch → Prop} (P : Pass f keep F F' key W)
    (l : List Str) : remapItems f (reqItem l) = .ok (reqItem l) := by
  unfold reqItem
  split
  · rw [remapItems]
  · have := P.plains [("required".toList, .texts l)]
    have e2 : infoItems [("required".toList, .texts l)] = [("required".toList, .list (l.map .leaf))] := rfl
    rw [e2] at this
    rw [this]
    simp only [List.filter_cons, P.keepReq, if_true, List.filter_nil]

theorem encProps_eq (F : Form) (reqs : List Str) (ps : Props) :
    F.encProps reqs ps = ps.toList.map fun p => (F.lab reqs p.1 p.2.2, F.enc p.2.2) := by
  match ps with
  | .nil => rw [Form.encProps]; rfl
  | .cons n b s r => rw [Form.encProps, encProps_eq F reqs r]; rfl

mutual
theorem Pass.run {f : Visit} {keep : Str → Bool} {F F' : Form} {key : Str → Sch → Str} {W : Sch → Prop} (P : Pass f keep F F' key W)
    (s : Sch) (h : W s) (n : Str) : full f n (F.enc s) = .ok (if keep n then some (key n s, F'.enc s) else none) := by
  match s with
  | .field k i =>
    have hd := remapItems_append (P.kinds k) (P.plains (F.info i))
    rw [← List.filter_append] at hd
    have hn := P.nodupField k i h
    have hn' : (Dict.keys (((if F.kind then k.items else []) ++ infoItems (F.info i)).filter fun e => keep e.1)).Nodup :=
      hn.sublist (List.filter_sublist.map _)
    rw [full, Form.enc, remap, hd]
    simp only
    rw [update_nodup [] (by simpa using hn'), List.nil_append]
    exact P.ownField n k i h
  | .object k i ps =>
    have hps := P.runProps ps.reqs ps (P.child k i ps h)
    have hnames : (Dict.keys (ps.toList.map fun p => (key (F.lab ps.reqs p.1 p.2.2) p.2.2, F'.enc p.2.2))).Nodup := by
      have := P.names k i ps h
      simpa [Dict.keys, Function.comp_def] using this
    have hp : full f "properties".toList (.dict (F.encProps ps.reqs ps)) = .ok (some ("properties".toList,
        .dict (ps.toList.map fun p => (key (F.lab ps.reqs p.1 p.2.2) p.2.2, F'.enc p.2.2)))) := by
      rw [full, remap, hps]
      simp only
      rw [update_nodup [] (by simpa using hnames), List.nil_append]
      exact P.props k i ps h
    have hd := remapItems_append (P.kinds k) (remapItems_cons hp (remapItems_append (P.reqs ps.reqs) (P.plains (F.info i))))
    have hn := P.nodupObject k i ps h
    have hn' : (Dict.keys (((if F.kind then k.items else []).filter fun e => keep e.1) ++
      (("properties".toList, Y.dict (ps.toList.map fun p => (key (F.lab ps.reqs p.1 p.2.2) p.2.2, F'.enc p.2.2))) ::
        (reqItem ps.reqs ++ (infoItems (F.info i)).filter fun e => keep e.1)))).Nodup := by
      refine hn.sublist ?_
      simp only [Dict.keys, List.map_append, List.map_cons]
      exact (List.filter_sublist.map _).append ((((List.Sublist.refl _).append (List.filter_sublist.map _))).cons_cons _)
    rw [full, Form.enc, P.flat, if_neg (by simp), remap, hd]
    simp only [Option.toList_some, List.singleton_append]
    rw [update_nodup [] (by simpa using hn'), List.nil_append]
    exact P.ownObject n k i ps h
theorem Pass.runProps {f : Visit} {keep : Str → Bool} {F F' : Form} {key : Str → Sch → Str} {W : Sch → Prop} (P : Pass f keep F F' key W)
    (reqs : List Str) (ps : Props) (h : ∀ p ∈ ps.toList, W p.2.2 ∧ keep (F.lab reqs p.1 p.2.2) = true) :
    remapItems f (F.encProps reqs ps) = .ok (ps.toList.map fun p => (key (F.lab reqs p.1 p.2.2) p.2.2, F'.enc p.2.2)) := by
  match ps with
  | .nil => rw [Form.encProps, remapItems]; rfl
  | .cons n b s r =>
    have hs := h (n, b, s) (by simp [Props.toList])
    have := P.run s hs.1 (F.lab reqs n s)
    rw [if_pos hs.2] at this
    rw [Form.encProps, remapItems_cons this (P.runProps reqs r fun p hp => h p (by simp [Props.toList, hp]))]
    rfl
end


/-! ### the five passes -/

/-- after `convert_wx_shape` -/
def form1 : Form := ⟨List.map shapeText, true, false, fun _ n _ => n⟩
/-- after `resolve_python_classes` -/
def form2 (E : Env) : Form := ⟨List.map shapeText, true, false, fun _ n s => label E n s⟩
/-- after `mark_required` -/
def form3 (E : Env) : Form := ⟨List.map shapeText, true, false, fun reqs n s => markKey reqs (label E n s)⟩
/-- after `drop_meta` -/
def form4 (E : Env) (drop : List Str) : Form := ⟨shown drop, false, false, fun reqs n s => markKey reqs (label E n s)⟩
/-- after `drop_properties` -/
def form5 (E : Env) (drop : List Str) : Form := ⟨shown drop, false, true, fun reqs n s => markKey reqs (label E n s)⟩

theorem wf_child {E : Env} {drop : List Str} {ps : Props} (h : WFProps E drop ps) : ∀ p ∈ ps.toList, WF E drop p.2.2 := by
  match ps with
  | .nil => intro p hp; cases hp
  | .cons n b s r =>
    rw [WFProps] at h
    intro p hp
    rw [Props.toList, List.mem_cons] at hp
    rcases hp with rfl | hp
    · exact h.1
    · exact wf_child h.2 p hp

theorem keys_infoItems (i : List (Str × Info)) : Dict.keys (infoItems i) = i.map Prod.fst := by
  simp [Dict.keys, infoItems, Function.comp_def]

theorem shapeText_fst (e : Str × Info) : (shapeText e).1 = e.1 := by
  unfold shapeText
  split
  · split <;> rfl
  · rfl

theorem shapeText_keys (i : List (Str × Info)) : (i.map shapeText).map Prod.fst = i.map Prod.fst := by
  simp [Function.comp_def, shapeText_fst]

theorem shown_sublist (drop : List Str) (i : List (Str × Info)) : ((shown drop i).map Prod.fst).Sublist (i.map Prod.fst) := by
  rw [← shapeText_keys i]
  exact List.filter_sublist.map _

theorem reserved_mem {x : Str} : x ∉ reserved ↔
    x ≠ "tag".toList ∧ x ≠ "$ref".toList ∧ x ≠ "type".toList ∧ x ≠ "properties".toList ∧ x ≠ "required".toList := by
  simp only [reserved, List.mem_cons, List.not_mem_nil, or_false, not_or]

theorem kind_keys (k : Kind) : Dict.keys k.items = [] ∨ Dict.keys k.items = ["tag".toList] ∨
    Dict.keys k.items = ["$ref".toList] ∨ Dict.keys k.items = ["type".toList] := by
  cases k <;> simp [Kind.items]

theorem nodup_field (b : Bool) (k : Kind) {j : List (Str × Info)} (hn : (j.map Prod.fst).Nodup) (hr : ∀ x ∈ j.map Prod.fst, x ∉ reserved) :
    (Dict.keys ((if b then k.items else []) ++ infoItems j)).Nodup := by
  rw [Dict.keys_append, keys_infoItems]
  have hr' := fun x hx => reserved_mem.1 (hr x hx)
  refine List.nodup_append.2 ⟨?_, hn, ?_⟩
  · cases b
    · simp
    · rcases kind_keys k with h | h | h | h <;> simp [h]
  · intro x hx y hy
    have := hr' y hy
    cases b
    · simp at hx
    · simp only [if_true] at hx
      rcases kind_keys k with h | h | h | h <;> rw [h] at hx <;> simp only [List.mem_singleton, List.not_mem_nil] at hx
      · subst hx; exact fun h => this.1 h.symm
      · subst hx; exact fun h => this.2.1 h.symm
      · subst hx; exact fun h => this.2.2.1 h.symm

theorem nodup_object (b : Bool) (k : Kind) (reqs : List Str) {j : List (Str × Info)} (hn : (j.map Prod.fst).Nodup)
    (hr : ∀ x ∈ j.map Prod.fst, x ∉ reserved) : (Dict.keys ((if b then k.items else []) ++
      (("properties".toList, Y.leaf []) :: (reqItem reqs ++ infoItems j)))).Nodup := by
  have h0 := nodup_field b k hn hr
  have hr' := fun x hx => reserved_mem.1 (hr x hx)
  have hk : ∀ x ∈ Dict.keys (if b then k.items else []), x ≠ "properties".toList ∧ x ≠ "required".toList := by
    intro x hx
    cases b
    · simp at hx
    · simp only [if_true] at hx
      rcases kind_keys k with h | h | h | h <;> rw [h] at hx <;> simp only [List.mem_singleton, List.not_mem_nil] at hx <;>
        subst hx <;> decide +kernel
  have hq : Dict.keys (reqItem reqs) = [] ∨ Dict.keys (reqItem reqs) = ["required".toList] := by
    unfold reqItem; split <;> simp
  have hpr : "properties".toList ≠ "required".toList := by decide +kernel
  rw [Dict.keys_append, keys_infoItems] at h0
  rw [Dict.keys_append, Dict.keys_cons, Dict.keys_append, keys_infoItems]
  obtain ⟨h1, _, h3⟩ := List.nodup_append.1 h0
  refine List.nodup_append.2 ⟨h1, List.nodup_cons.2 ⟨?_, List.nodup_append.2 ⟨?_, hn, ?_⟩⟩, ?_⟩
  · intro hm
    rcases List.mem_append.1 hm with hm | hm
    · rcases hq with hq | hq <;> rw [hq] at hm <;> simp only [List.mem_singleton, List.not_mem_nil] at hm
      exact hpr hm
    · exact (hr' _ hm).2.2.2.1 rfl
  · rcases hq with hq | hq <;> simp [hq]
  · intro x hx y hy
    rcases hq with hq | hq <;> rw [hq] at hx <;> simp only [List.mem_singleton, List.not_mem_nil] at hx
    subst hx
    exact fun h => (hr' y hy).2.2.2.2 h.symm
  · intro x hx y hy
    rcases List.mem_cons.1 hy with rfl | hy
    · exact (hk x hx).1
    · rcases List.mem_append.1 hy with hy | hy
      · rcases hq with hq | hq <;> rw [hq] at hy <;> simp only [List.mem_singleton, List.not_mem_nil] at hy
        subst hy
        exact (hk x hx).2
      · exact h3 x hx y hy

/-- one item in `convert_wx_shape` -/
def convItem (E : Env) (e : Str × Y) : Str × Y :=
  if e.1 = "wx_shape".toList then match e.2 with
    | .list l => (e.1, .leaf ('[' :: joinComma (l.map E.text) ++ [']']))
    | _ => e
  else e

theorem set_eq_map {d : List (Str × Y)} {k : Str} {v : Y} (hk : k ∈ Dict.keys d) (hn : (Dict.keys d).Nodup) :
    Dict.set d k v = d.map fun e => if e.1 = k then (k, v) else e := by
  induction d with
  | nil => cases hk
  | cons e t ih =>
    obtain ⟨a, b⟩ := e
    rw [Dict.keys_cons, List.nodup_cons] at hn
    rw [Dict.keys_cons, List.mem_cons] at hk
    by_cases ha : a = k
    · subst ha
      have : ∀ e ∈ t, ¬ e.1 = a := fun e he h => hn.1 (h ▸ Dict.mem_keys_of_mem (k := e.1) (v := e.2) he)
      rw [List.map_cons, List.map_congr_left (g := id) fun e he => by simp [this e he]]
      simp [Dict.set]
    · have := ih (hk.resolve_left fun h => ha h.symm) hn.2
      simp [Dict.set, ha, this]

theorem convertShape_dict (E : Env) (k : Str) {d : List (Str × Y)} (hn : (Dict.keys d).Nodup) :
    convertShape E k (.dict d) = .ok (some (k, .dict (d.map (convItem E)))) := by
  have huniq : ∀ v, Dict.get? d "wx_shape".toList = some v → ∀ e ∈ d, e.1 = "wx_shape".toList → e.2 = v := by
    intro v hv e he h
    have := Dict.get?_of_mem hn (k := e.1) (v := e.2) he
    rw [h, hv] at this
    exact (Option.some.inj this).symm
  have hsame : (∀ e ∈ d, convItem E e = e) → d.map (convItem E) = d := fun h => by
    rw [List.map_congr_left (g := id) h, List.map_id]
  cases hg : Dict.get? d "wx_shape".toList with
  | none =>
    have hne := Dict.get?_eq_none.1 hg
    simp only [convertShape, hg]
    rw [hsame fun e he => ?_]
    unfold convItem
    have hk := Dict.mem_keys_of_mem (k := e.1) (v := e.2) he
    rw [if_neg fun h => hne (by rw [h] at hk; exact hk)]
  | some v =>
    have hu := huniq v hg
    cases v with
    | leaf x =>
      simp only [convertShape, hg]
      rw [hsame fun e he => ?_]
      unfold convItem
      split
      · next h => rw [hu e he h]
      · rfl
    | dict x =>
      simp only [convertShape, hg]
      rw [hsame fun e he => ?_]
      unfold convItem
      split
      · next h => rw [hu e he h]
      · rfl
    | list l =>
      simp only [convertShape, hg]
      rw [set_eq_map (Dict.get?_isSome.1 ⟨_, hg⟩) hn]
      congr 4
      refine List.map_congr_left fun e he => ?_
      unfold convItem
      split
      · next h => rw [hu e he h, h]
      · rfl

theorem convItem_info (E : Env) (i : List (Str × Info)) : (infoItems i).map (convItem E) = infoItems (i.map shapeText) := by
  simp only [infoItems, List.map_map]
  refine List.map_congr_left fun e _ => ?_
  obtain ⟨k, p⟩ := e
  simp only [Function.comp_apply, convItem, shapeText]
  split
  · cases p with
    | text s => rfl
    | texts l =>
      have : (l.map Y.leaf).map E.text = l := by
        rw [List.map_map]
        exact (List.map_congr_left (g := id) fun _ _ => rfl).trans (List.map_id l)
      simp only [Info.y, this]
  · rfl

theorem convItem_ne (E : Env) {e : Str × Y} (h : e.1 ≠ "wx_shape".toList) : convItem E e = e := by
  unfold convItem
  rw [if_neg h]

theorem convItem_kind (E : Env) (k : Kind) : k.items.map (convItem E) = k.items := by
  cases k with
  | tag t => rw [Kind.items, List.map_cons, convItem_ne E (show _ ≠ _ by dsimp only; decide +kernel)]; rfl
  | ref t => rw [Kind.items, List.map_cons, convItem_ne E (show _ ≠ _ by dsimp only; decide +kernel)]; rfl
  | type t => rw [Kind.items, List.map_cons, convItem_ne E (show _ ≠ _ by dsimp only; decide +kernel)]; rfl
  | none => rfl

theorem convItem_req (E : Env) (l : List Str) : (reqItem l).map (convItem E) = reqItem l := by
  unfold reqItem
  split
  · rfl
  · rw [List.map_cons, convItem_ne E (show _ ≠ _ by dsimp only; decide +kernel)]; rfl

theorem enc_dict (F : Form) (s : Sch) : ∃ d, F.enc s = .dict d := by
  cases s with
  | field k i => exact ⟨_, by rw [Form.enc]⟩
  | object k i ps =>
    cases h : F.flat
    · exact ⟨_, by rw [Form.enc, h, if_neg (by simp)]⟩
    · exact ⟨_, by rw [Form.enc, h, if_pos rfl]⟩

theorem convItem_props (E : Env) (F : Form) (g : Str × Bool × Sch → Str) (l : List (Str × Bool × Sch)) :
    (l.map fun p => (g p, F.enc p.2.2)).map (convItem E) = l.map fun p => (g p, F.enc p.2.2) := by
  rw [List.map_map]
  refine List.map_congr_left fun p _ => ?_
  obtain ⟨d, hd⟩ := enc_dict F p.2.2
  simp only [Function.comp_apply, convItem]
  rw [hd]
  split <;> rfl

theorem nodup_object' {b : Bool} {k : Kind} {reqs : List Str} {j : List (Str × Info)} {y : Y} (hn : (j.map Prod.fst).Nodup)
    (hr : ∀ x ∈ j.map Prod.fst, x ∉ reserved) : (Dict.keys ((if b then k.items else []) ++
      (("properties".toList, y) :: (reqItem reqs ++ infoItems j)))).Nodup := by
  have := nodup_object b k reqs hn hr
  simpa using this

theorem res {i : List (Str × Info)} (h : ∀ e ∈ i, e.1 ∉ reserved) : ∀ x ∈ i.map Prod.fst, x ∉ reserved := by
  intro x hx
  obtain ⟨e, he, rfl⟩ := List.mem_map.1 hx
  exact h e he

theorem keys_props (F : Form) (g : Str × Bool × Sch → Str) (l : List (Str × Bool × Sch)) :
    Dict.keys (l.map fun p => (g p, F.enc p.2.2)) = l.map g := by
  simp [Dict.keys, Function.comp_def]

theorem pass1 (E : Env) (drop : List Str) : Pass (convertShape E) (fun _ => true) file form1 (fun k _ => k) (WF E drop) where
  leaf k s := rfl
  list k l := rfl
  flat := rfl
  item := rfl
  keepReq := rfl
  names k i ps h := by rw [WF] at h; exact h.2.2.1
  child k i ps h := by rw [WF] at h; exact fun p hp => ⟨wf_child h.2.2.2.2.2.2 p hp, rfl⟩
  props k i ps h := by
    rw [WF] at h
    rw [convertShape_dict E _ (by rw [keys_props form1 (fun p => file.lab ps.reqs p.1 p.2.2)]; exact h.2.2.1), convItem_props]
  ownField n k i h := by
    rw [WF] at h
    simp only [file, if_true, id, List.filter_true]
    rw [convertShape_dict E _ (by simpa using nodup_field true k h.1 (res h.2)), List.map_append, convItem_kind, convItem_info, Form.enc]
    rfl
  ownObject n k i ps h := by
    rw [WF] at h
    simp only [file, if_true, id, List.filter_true]
    rw [convertShape_dict E _ (by simpa using nodup_object' (b := true) (k := k) (reqs := ps.reqs) (y := .leaf []) h.1 (res h.2.1)),
      List.map_append, convItem_kind, List.map_cons, List.map_append, convItem_info, convItem_req,
      convItem_ne E (show _ ≠ _ by dsimp only; decide +kernel), Form.enc, encProps_eq]
    rfl
  nodupField k i h := by rw [WF] at h; exact nodup_field _ k h.1 (res h.2)
  nodupObject k i ps h := by rw [WF] at h; exact nodup_object _ k _ h.1 (res h.2.1)

theorem resolve_dict (E : Env) (n : Str) (k : Kind) {d : List (Str × Y)} (h1 : "tag".toList ∉ Dict.keys d)
    (h2 : "$ref".toList ∉ Dict.keys d) (h3 : "type".toList ∉ Dict.keys d) :
    resolveClasses E n (.dict (k.items ++ d)) = .ok (some ((match suffix E k with | some x => paren n x | none => n), .dict (k.items ++ d))) := by
  have g1 := Dict.get?_eq_none.2 h1
  have g2 := Dict.get?_eq_none.2 h2
  have g3 := Dict.get?_eq_none.2 h3
  have n1 : ¬ "$ref".toList = "tag".toList := by decide +kernel
  have n2 : ¬ "type".toList = "tag".toList := by decide +kernel
  have n3 : ¬ "type".toList = "$ref".toList := by decide +kernel
  cases k with
  | tag t => simp [resolveClasses, Kind.items, Dict.get?, suffix]
  | ref t => simp only [resolveClasses, Kind.items, Dict.get?, suffix, List.cons_append, List.nil_append, n1, if_false, if_true, g1]
  | type t =>
    simp only [resolveClasses, Kind.items, Dict.get?, suffix, List.cons_append, List.nil_append, n2, n3, if_false, if_true, g1, g2]
    cases typeName t <;> rfl
  | none => simp only [resolveClasses, Kind.items, List.nil_append, g1, g2, g3, suffix]

theorem not_mem_rest {x : Str} {y : Y} {reqs : List Str} {j : List (Str × Info)} (hx : x ≠ "properties".toList) (hx' : x ≠ "required".toList)
    (hj : x ∉ j.map Prod.fst) : x ∉ Dict.keys (("properties".toList, y) :: (reqItem reqs ++ infoItems j)) := by
  rw [Dict.keys_cons, Dict.keys_append, keys_infoItems]
  simp only [List.mem_cons, List.mem_append, not_or]
  refine ⟨hx, ?_, hj⟩
  unfold reqItem
  split
  · simp
  · simpa using hx'

theorem pass2 (E : Env) (drop : List Str) : Pass (resolveClasses E) (fun _ => true) form1 (form2 E) (label E) (WF E drop) where
  leaf k s := rfl
  list k l := rfl
  flat := rfl
  item := rfl
  keepReq := rfl
  names k i ps h := by rw [WF] at h; exact h.2.2.2.1
  child k i ps h := by rw [WF] at h; exact fun p hp => ⟨wf_child h.2.2.2.2.2.2 p hp, rfl⟩
  props k i ps h := by
    rw [WF] at h
    have hl := h.2.2.2.2.2.1
    have hx : ∀ x, x ∈ reserved → x ∉ Dict.keys (ps.toList.map fun p => (label E p.1 p.2.2, (form2 E).enc p.2.2)) := by
      intro x hx hm
      rw [keys_props (form2 E) (fun p => label E p.1 p.2.2)] at hm
      obtain ⟨p, hp, rfl⟩ := List.mem_map.1 hm
      exact (hl p hp).1 hx
    exact resolve_dict E "properties".toList .none (hx _ (by simp [reserved])) (hx _ (by simp [reserved])) (hx _ (by simp [reserved]))
  ownField n k i h := by
    rw [WF] at h
    simp only [form1, if_true, List.filter_true]
    have hr := fun x hx hm => res h.2 x ((shapeText_keys i) ▸ hm) hx
    rw [resolve_dict E n k (by rw [keys_infoItems]; exact hr _ (by simp [reserved]))
      (by rw [keys_infoItems]; exact hr _ (by simp [reserved])) (by rw [keys_infoItems]; exact hr _ (by simp [reserved])), Form.enc]
    rfl
  ownObject n k i ps h := by
    rw [WF] at h
    simp only [form1, if_true, List.filter_true]
    have hr := fun x hx hm => res h.2.1 x ((shapeText_keys i) ▸ hm) hx
    rw [resolve_dict E n k (not_mem_rest (by decide +kernel) (by decide +kernel) (hr _ (by simp [reserved])))
      (not_mem_rest (by decide +kernel) (by decide +kernel) (hr _ (by simp [reserved])))
      (not_mem_rest (by decide +kernel) (by decide +kernel) (hr _ (by simp [reserved]))), Form.enc, encProps_eq]
    rfl
  nodupField k i h := by
    rw [WF] at h
    exact nodup_field _ k (by rw [form1, shapeText_keys]; exact h.1) (by rw [form1, shapeText_keys]; exact res h.2)
  nodupObject k i ps h := by
    rw [WF] at h
    exact nodup_object _ k _ (by rw [form1, shapeText_keys]; exact h.1) (by rw [form1, shapeText_keys]; exact res h.2.1)

theorem reqNames_texts (l : List Str) : reqNames (l.map .leaf) = .ok l := by
  induction l with
  | nil => rfl
  | cons s l ih => rw [List.map_cons, reqNames, ih]

theorem kind_not_mem (k : Kind) {x : Str} (h1 : x ≠ "tag".toList) (h2 : x ≠ "$ref".toList) (h3 : x ≠ "type".toList) :
    x ∉ Dict.keys k.items := by
  rcases kind_keys k with h | h | h | h <;> rw [h] <;> simp only [List.mem_singleton, List.not_mem_nil, not_false_eq_true] <;> assumption

theorem mark_none {n : Str} {d : List (Str × Y)} (h : "required".toList ∉ Dict.keys d) : markRequired n (.dict d) = .ok (some (n, .dict d)) := by
  simp only [markRequired, Dict.get?_eq_none.2 h]

theorem set_mid {a b : List (Str × Y)} {k : Str} {v w : Y} (h : k ∉ Dict.keys a) : Dict.set (a ++ (k, v) :: b) k w = a ++ (k, w) :: b := by
  induction a with
  | nil => simp [Dict.set]
  | cons e t ih =>
    rw [Dict.keys_cons, List.mem_cons, not_or] at h
    have : ¬ e.1 = k := fun h' => h.1 h'.symm
    rw [List.cons_append, List.cons_append, Dict.set, if_neg this, ih h.2]

theorem get?_mid {a b : List (Str × Y)} {k : Str} {v : Y} (h : k ∉ Dict.keys a) : Dict.get? (a ++ (k, v) :: b) k = some v := by
  rw [Dict.get?_append, Dict.get?_eq_none.2 h]
  simp [Dict.get?]

theorem pass3 (E : Env) (drop : List Str) : Pass markRequired (fun _ => true) (form2 E) (form3 E) (fun k _ => k) (WF E drop) where
  leaf k s := rfl
  list k l := rfl
  flat := rfl
  item := rfl
  keepReq := rfl
  names k i ps h := by rw [WF] at h; exact h.2.2.2.1
  child k i ps h := by rw [WF] at h; exact fun p hp => ⟨wf_child h.2.2.2.2.2.2 p hp, rfl⟩
  props k i ps h := by
    rw [WF] at h
    have hl := h.2.2.2.2.2.1
    refine mark_none fun hm => ?_
    rw [keys_props (form3 E) (fun p => (form2 E).lab ps.reqs p.1 p.2.2)] at hm
    obtain ⟨p, hp, hp'⟩ := List.mem_map.1 hm
    have e2 : label E p.1 p.2.2 = "required".toList := hp'
    exact (hl p hp).1 (by rw [e2]; simp [reserved])
  ownField n k i h := by
    rw [WF] at h
    simp only [form2, if_true, List.filter_true]
    rw [mark_none, Form.enc]
    · rfl
    · rw [Dict.keys_append, List.mem_append, not_or]
      refine ⟨kind_not_mem k (by decide +kernel) (by decide +kernel) (by decide +kernel), fun hm => ?_⟩
      rw [keys_infoItems, shapeText_keys] at hm
      exact res h.2 _ hm (by simp [reserved])
  ownObject n k i ps h := by
    rw [WF] at h
    simp only [form2, if_true, List.filter_true]
    have hinfo : "required".toList ∉ (i.map shapeText).map Prod.fst := fun hm => by
      rw [shapeText_keys] at hm
      exact res h.2.1 _ hm (by simp [reserved])
    have hkr : "required".toList ∉ Dict.keys k.items := kind_not_mem k (by decide +kernel) (by decide +kernel) (by decide +kernel)
    have hkp : "properties".toList ∉ Dict.keys k.items := kind_not_mem k (by decide +kernel) (by decide +kernel) (by decide +kernel)
    have hrp : "properties".toList ≠ "required".toList := by decide +kernel
    by_cases hq : ps.reqs = []
    · rw [mark_none]
      · rw [Form.enc, encProps_eq]
        have : ∀ x, markKey [] x = x := fun x => by simp [markKey]
        simp only [form3, hq, this]
        rfl
      · rw [Dict.keys_append, List.mem_append, not_or]
        refine ⟨hkr, ?_⟩
        rw [hq, reqItem, if_pos rfl, List.nil_append, Dict.keys_cons, keys_infoItems, List.mem_cons, not_or]
        exact ⟨fun h => hrp h.symm, hinfo⟩
    · have hg : ∀ y, Dict.get? (k.items ++ ("properties".toList, y) :: (reqItem ps.reqs ++ infoItems (i.map shapeText)))
          "required".toList = some (.list (ps.reqs.map .leaf)) := by
        intro y
        rw [reqItem, if_neg hq, Dict.get?_append, Dict.get?_eq_none.2 hkr]
        simp [Dict.get?]
      simp only [markRequired, hg, reqNames_texts, get?_mid hkp]
      rw [set_mid hkp, Form.enc, encProps_eq, List.map_map, update_nodup []]
      · rfl
      · have := h.2.2.2.2.1
        simpa [Dict.keys, Function.comp_def] using this
  nodupField k i h := by
    rw [WF] at h
    exact nodup_field _ k (by rw [form2, shapeText_keys]; exact h.1) (by rw [form2, shapeText_keys]; exact res h.2)
  nodupObject k i ps h := by
    rw [WF] at h
    exact nodup_object _ k _ (by rw [form2, shapeText_keys]; exact h.1) (by rw [form2, shapeText_keys]; exact res h.2.1)

theorem filter_kind (drop : List Str) (k : Kind) : (k.items.filter fun e => decide (e.1 ∉ metaKeys ++ drop)) = [] := by
  cases k <;> simp [Kind.items, metaKeys]

theorem filter_info (drop : List Str) (i : List (Str × Info)) :
    ((infoItems (i.map shapeText)).filter fun e => decide (e.1 ∉ metaKeys ++ drop)) = infoItems (shown drop i) := by
  rw [infoItems, List.filter_map]
  rfl

theorem dropMeta_eq (drop : List Str) (k : Str) (y : Y) :
    dropMeta drop k y = .ok (if decide (k ∉ metaKeys ++ drop) = true then some (k, y) else none) := by
  unfold dropMeta
  by_cases h : k ∈ metaKeys ++ drop
  · rw [if_pos h, if_neg (fun h' => absurd h (of_decide_eq_true h'))]
  · rw [if_neg h, if_pos (decide_eq_true h)]

theorem pass4 (E : Env) (drop : List Str) (h0 : [] ∉ drop) (hp : "properties".toList ∉ drop) (hr : "required".toList ∉ drop) :
    Pass (dropMeta drop) (fun k => decide (k ∉ metaKeys ++ drop)) (form3 E) (form4 E drop) (fun k _ => k) (WF E drop) where
  leaf k s := dropMeta_eq drop k _
  list k l := dropMeta_eq drop k _
  flat := rfl
  item := by
    have : [] ∉ metaKeys := by decide +kernel
    simp only [List.mem_append, h0, this, or_self, not_false_eq_true, decide_true]
  keepReq := by
    have : "required".toList ∉ metaKeys := by decide +kernel
    simp only [List.mem_append, hr, this, or_self, not_false_eq_true, decide_true]
  names k i ps h := by rw [WF] at h; exact h.2.2.2.2.1
  child k i ps h := by
    rw [WF] at h
    refine fun p hp => ⟨wf_child h.2.2.2.2.2.2 p hp, ?_⟩
    have := (h.2.2.2.2.2.1 p hp).2
    simp only [List.append_assoc] at this
    exact decide_eq_true fun hm => this (List.mem_append_right _ hm)
  props k i ps h := by
    have : "properties".toList ∉ metaKeys ++ drop := by
      simp only [List.mem_append, hp, or_false]
      decide +kernel
    rw [dropMeta, if_neg this]
  ownField n k i h := by
    have e2 : (form3 E).info i = i.map shapeText := rfl
    have e3 : (form3 E).kind = true := rfl
    rw [e2, e3, if_pos rfl, List.filter_append, filter_kind, filter_info, Form.enc]
    exact dropMeta_eq drop n _
  ownObject n k i ps h := by
    have e2 : (form3 E).info i = i.map shapeText := rfl
    have e3 : (form3 E).kind = true := rfl
    rw [e2, e3, if_pos rfl, filter_kind, filter_info, Form.enc, encProps_eq]
    exact dropMeta_eq drop n _
  nodupField k i h := by
    rw [WF] at h
    exact nodup_field _ k (by rw [form3, shapeText_keys]; exact h.1) (by rw [form3, shapeText_keys]; exact res h.2)
  nodupObject k i ps h := by
    rw [WF] at h
    exact nodup_object _ k _ (by rw [form3, shapeText_keys]; exact h.1) (by rw [form3, shapeText_keys]; exact res h.2.1)

theorem pass5 (E : Env) (drop : List Str) : Pass dropProperties (fun _ => true) (form4 E drop) (form5 E drop) (fun k _ => k) (WF E drop) where
  leaf k s := rfl
  list k l := rfl
  flat := rfl
  item := rfl
  keepReq := rfl
  names k i ps h := by rw [WF] at h; exact h.2.2.2.2.1
  child k i ps h := by rw [WF] at h; exact fun p hp => ⟨wf_child h.2.2.2.2.2.2 p hp, rfl⟩
  props k i ps h := by
    rw [WF] at h
    have hl := h.2.2.2.2.2.1
    have : "properties".toList ∉ Dict.keys (ps.toList.map fun p => ((form4 E drop).lab ps.reqs p.1 p.2.2, (form5 E drop).enc p.2.2)) := by
      intro hm
      rw [keys_props (form5 E drop) (fun p => (form4 E drop).lab ps.reqs p.1 p.2.2)] at hm
      obtain ⟨p, hp, hp'⟩ := List.mem_map.1 hm
      refine (hl p hp).2 ?_
      have e2 : markKey ps.reqs (label E p.1 p.2.2) = "properties".toList := hp'
      rw [e2]
      simp [reserved]
    simp only [dropProperties, Dict.get?_eq_none.2 this]
  ownField n k i h := by
    rw [WF] at h
    have e3 : (form4 E drop).kind = false := rfl
    have : "properties".toList ∉ Dict.keys (infoItems (shown drop i)) := by
      intro hm
      rw [keys_infoItems] at hm
      exact res h.2 _ ((shown_sublist drop i).subset hm) (by simp [reserved])
    simp only [e3, List.filter_true, Bool.false_eq_true, if_false, List.nil_append]
    simp only [form4, dropProperties, Dict.get?_eq_none.2 this, if_true]
    rw [Form.enc]
    rfl
  ownObject n k i ps h := by
    have e3 : (form4 E drop).kind = false := rfl
    simp only [e3, List.filter_true, Bool.false_eq_true, if_false, List.nil_append]
    simp only [form4, dropProperties, Dict.get?, if_true]
    rw [Form.enc, show (form5 E drop).flat = true from rfl, if_pos rfl, encProps_eq]
    rfl
  nodupField k i h := by
    rw [WF] at h
    exact nodup_field _ k (h.1.sublist (shown_sublist drop i)) fun x hx => res h.2 x ((shown_sublist drop i).subset hx)
  nodupObject k i ps h := by
    rw [WF] at h
    exact nodup_object _ k _ (h.1.sublist (shown_sublist drop i)) fun x hx => res h.2.1 x ((shown_sublist drop i).subset hx)

mutual
theorem form5_enc (E : Env) (drop : List Str) (s : Sch) : (form5 E drop).enc s = result E drop s := by
  match s with
  | .field k i => rw [Form.enc, result]; rfl
  | .object k i ps => rw [Form.enc, result, show (form5 E drop).flat = true from rfl, if_pos rfl, form5_encProps E drop ps.reqs ps]
theorem form5_encProps (E : Env) (drop : List Str) (reqs : List Str) (ps : Props) :
    (form5 E drop).encProps reqs ps = resultProps E drop reqs ps := by
  match ps with
  | .nil => rw [Form.encProps, resultProps]
  | .cons n b s r => rw [Form.encProps, resultProps, form5_enc E drop s, form5_encProps E drop reqs r]; rfl
end

theorem remap_single {f : Visit} {y : Y} {e : Str × Y} (h : full f [] y = .ok (some e)) : remap f (.list [y]) = .ok (.list [e.2]) := by
  unfold full at h
  rw [remap, remapList, remapList]
  cases hy : remap f y with
  | error x => rw [hy] at h; cases h
  | ok y' =>
    rw [hy] at h
    simp only at h ⊢
    rw [h]
    rfl

/-! ### properties -/

/-- **C88** the overview that is made of a schema -/
theorem C88_actual (E : Env) (drop : List Str) (s : Sch) (h : WF E drop s) (h0 : [] ∉ drop) (hp : "properties".toList ∉ drop)
    (hr : "required".toList ∉ drop) : schemaTree E drop (file.enc s) = .ok (result E drop s) := by
  have r1 := (pass1 E drop).run s h []
  have r2 := (pass2 E drop).run s h []
  have r3 := (pass3 E drop).run s h []
  have r4 := (pass4 E drop h0 hp hr).run s h []
  have r5 := (pass5 E drop).run s h []
  rw [if_pos rfl] at r1 r2 r3 r5
  rw [if_pos (pass4 E drop h0 hp hr).item] at r4
  simp only [schemaTree, remap_single r1, remap_single r2, remap_single r3, remap_single r4, remap_single r5, bind, Except.bind]
  rw [form5_enc]

/-- what the key of a property should be -/
def wanted (E : Env) (n : Str) (b : Bool) (s : Sch) : Str := match suffix E s.kind with
  | some x => n ++ " (".toList ++ x ++ (if b then ", required)".toList else [')'])
  | none => if b then n ++ " (required)".toList else n

theorem markKey_iff {E : Env} {reqs : List Str} {n : Str} {b : Bool} {s : Sch} (hb : b = true → n ∈ reqs) :
    markKey reqs (label E n s) = wanted E n b s ↔
      if b then suffix E s.kind ≠ none else ∀ x ∈ reqs, ¬ x <+: label E n s := by
  have hany : ((reqs.any fun r => r.isPrefixOf (label E n s)) = true) ↔ ∃ x ∈ reqs, x <+: label E n s := by
    simp [List.any_eq_true, List.isPrefixOf_iff_prefix]
  have hlen : (", required)".toList).length = 11 := by decide +kernel
  have hlen' : (" (required)".toList).length = 11 := by decide +kernel
  have hne : (", required)".toList) ≠ " (required)".toList := by decide +kernel
  cases b with
  | true =>
    have hn := hb rfl
    have hpre : ∃ x ∈ reqs, x <+: label E n s := by
      refine ⟨n, hn, ?_⟩
      unfold label
      split
      · unfold paren
        rw [List.append_assoc, List.append_assoc]
        exact List.prefix_append _ _
      · exact List.prefix_refl _
    rw [markKey, if_pos (hany.2 hpre), if_pos rfl]
    unfold label wanted
    cases suffix E s.kind with
    | some x =>
      simp only [paren, List.dropLast_concat, if_true, ne_eq, reduceCtorEq, not_false_eq_true]
    | none =>
      simp only [if_true, ne_eq, not_true_eq_false, iff_false]
      intro h
      have hl := congrArg List.length h
      rw [List.length_append, List.length_append, List.length_dropLast, hlen, hlen'] at hl
      cases n with
      | nil => exact hne h
      | cons a t => simp at hl
  | false =>
    have hw : wanted E n false s = label E n s := by
      unfold wanted label
      cases suffix E s.kind <;> rfl
    rw [hw, if_neg (by simp)]
    constructor
    · intro h x hx hp
      rw [markKey, if_pos (hany.2 ⟨x, hx, hp⟩)] at h
      have hl := congrArg List.length h
      rw [List.length_append, List.length_dropLast, hlen] at hl
      omega
    · intro h
      rw [markKey, if_neg fun h' => ?_]
      obtain ⟨x, hx, hp⟩ := hany.1 h'
      exact h x hx hp

mutual
theorem result_iff (E : Env) (drop : List Str) (s : Sch) : result E drop s = overview E drop s ↔ Clear E s := by
  match s with
  | .field k i => rw [result, overview, Clear]; simp
  | .object k i ps =>
    rw [result, overview, Clear, Y.dict.injEq]
    refine resultProps_iff E drop ps.reqs ps fun p hp hb => ?_
    exact List.mem_map.2 ⟨p, List.mem_filter.2 ⟨hp, hb⟩, rfl⟩
theorem resultProps_iff (E : Env) (drop : List Str) (reqs : List Str) (ps : Props)
    (h : ∀ p ∈ ps.toList, p.2.1 = true → p.1 ∈ reqs) : resultProps E drop reqs ps = overviewProps E drop ps ↔ ClearProps E reqs ps := by
  match ps with
  | .nil => rw [resultProps, overviewProps, ClearProps]; simp
  | .cons n b s r =>
    have h1 := markKey_iff (E := E) (s := s) (h (n, b, s) (by simp [Props.toList]))
    have h2 := result_iff E drop s
    have h3 := resultProps_iff E drop reqs r fun p hp => h p (by simp [Props.toList, hp])
    rw [resultProps, overviewProps, ClearProps, List.cons.injEq, Prod.mk.injEq, h2, h3, and_assoc]
    exact and_congr_left fun _ => h1
end

/-- **C88** the overview shows names, classes and which properties are required, if all required properties have a recognised class and no
other property begins with the name of a required one -/
theorem C88_summary_partial (E : Env) (drop : List Str) (s : Sch) (h : WF E drop s) (h0 : [] ∉ drop) (hp : "properties".toList ∉ drop)
    (hr : "required".toList ∉ drop) (hc : Clear E s) : schemaTree E drop (file.enc s) = .ok (overview E drop s) := by
  rw [C88_actual E drop s h h0 hp hr, (result_iff E drop s).2 hc]

/-- **C88** and only then -/
theorem C88_summary_iff (E : Env) (drop : List Str) (s : Sch) (h : WF E drop s) (h0 : [] ∉ drop) (hp : "properties".toList ∉ drop)
    (hr : "required".toList ∉ drop) : schemaTree E drop (file.enc s) = .ok (overview E drop s) ↔ Clear E s := by
  rw [C88_actual E drop s h h0 hp hr, ← result_iff E drop s, Except.ok.injEq]

/-- **C88** the names of the types: those of four types of JSON are shown, all others are not -/
theorem C88_types (t x : Str) : typeName t = some x ↔ (t, x) ∈
    [("object".toList, "dict".toList), ("array".toList, "list".toList), ("string".toList, "str".toList), ("number".toList, "number".toList)] := by
  unfold typeName
  constructor
  · intro h
    split at h
    · rename_i e; cases h; rw [e]; simp
    split at h
    · rename_i e; cases h; rw [e]; simp
    split at h
    · rename_i e; cases h; rw [e]; simp
    split at h
    · rename_i e; cases h; rw [e]; simp
    cases h
  · intro h
    simp only [List.mem_cons, Prod.mk.injEq, List.not_mem_nil, or_false] at h
    rcases h with ⟨rfl, rfl⟩ | ⟨rfl, rfl⟩ | ⟨rfl, rfl⟩ | ⟨rfl, rfl⟩ <;> decide +kernel

theorem not_mem_five {α : Type} (n a b c d e : α) (l : List α) :
    n ∉ [a, b, c, d, e] ++ l ↔ n ∉ l ∧ n ≠ b ∧ n ≠ a ∧ n ≠ c ∧ n ≠ d ∧ n ≠ e := by
  simp only [List.mem_append, List.mem_cons, List.not_mem_nil, or_false]
  tauto

/-- **C88** the information of a property is shown, except for descriptions, examples and its class -/
theorem C88_information (E : Env) (drop : List Str) (k : Kind) (i : List (Str × Info)) (h : WF E drop (.field k i)) (h0 : [] ∉ drop)
    (hp : "properties".toList ∉ drop) (hr : "required".toList ∉ drop) :
    ∃ d, schemaTree E drop (file.enc (.field k i)) = .ok (.dict d) ∧ ∀ n s, n ≠ "wx_shape".toList → (n, Info.text s) ∈ i →
      ((n, Y.leaf s) ∈ d ↔ n ∉ drop ∧ n ≠ "description".toList ∧ n ≠ "examples".toList ∧ n ≠ "tag".toList ∧ n ≠ "$ref".toList ∧
        n ≠ "type".toList) := by
  refine ⟨_, C88_actual E drop _ h h0 hp hr, fun n s hn hm => ?_⟩
  have hs : shapeText (n, .text s) = (n, .text s) := if_neg hn
  have hmk : n ∉ metaKeys ++ drop ↔ n ∉ drop ∧ n ≠ "description".toList ∧ n ≠ "examples".toList ∧ n ≠ "tag".toList ∧ n ≠ "$ref".toList ∧
      n ≠ "type".toList := not_mem_five _ _ _ _ _ _ _
  rw [← hmk]
  simp only [infoItems, shown, List.mem_map, List.mem_filter, decide_eq_true_eq]
  constructor
  · rintro ⟨e, ⟨-, he⟩, hh⟩
    rw [Prod.mk.injEq] at hh
    rw [← hh.1]
    exact he
  · intro h
    exact ⟨(n, .text s), ⟨⟨_, hm, hs⟩, h⟩, rfl⟩

/-- **C88 (refuted)** a required property without recognised class, such as an integer, loses its last letter -/
theorem C88_letter (E : Env) (drop : List Str) (n : Str) (i : List (Str × Info)) (t : Str) (ht : typeName t = none)
    (h : WF E drop (.object .none [] (.cons n true (.field (.type t) i) .nil))) (h0 : [] ∉ drop) (hp : "properties".toList ∉ drop)
    (hr : "required".toList ∉ drop) :
    schemaTree E drop (file.enc (.object .none [] (.cons n true (.field (.type t) i) .nil))) =
      .ok (.dict [(n.dropLast ++ ", required)".toList, .dict (infoItems (shown drop i)))]) := by
  rw [C88_actual E drop _ h h0 hp hr]
  have hl : label E n (.field (.type t) i) = n := by simp only [label, Sch.kind, suffix, ht]
  have hm : markKey [n] n = n.dropLast ++ ", required)".toList := by
    rw [markKey, if_pos (by simp)]
  have hq : (Props.cons n true (.field (.type t) i) .nil).reqs = [n] := by simp [Props.reqs, Props.toList]
  simp only [result, resultProps, hq, hl, hm]

end Weldx.SchemaTree

namespace Weldx.SchemaTreeDemo
open SchemaTree

/-- no classes -/
def E : Env := ⟨fun _ => none, fun _ => []⟩

/-- core/dimension-0.1.0.yaml, 12-23 -/
def dimension : Sch := .object (.type "object".toList) [("description".toList, .text "…".toList)]
  (.cons "name".toList true (.field (.type "string".toList) [("description".toList, .text "…".toList)])
  (.cons "length".toList true (.field (.type "integer".toList) [("description".toList, .text "…".toList)]) .nil))

/-- a schema like that of the spatial data -/
def spatial : Sch := .object (.type "object".toList) [("title".toList, .text "Spatial data".toList)]
  (.cons "coordinates".toList true (.field (.tag "tag:stsci.edu:asdf/core/ndarray-1.*".toList)
      [("description".toList, .text "…".toList), ("wx_shape".toList, .texts ["(~)".toList, "3".toList])])
  (.cons "attributes".toList false (.field (.type "object".toList) [("description".toList, .text "…".toList)]) .nil))

/-- a property whose name begins with that of a required one -/
def groove : Sch := .object (.type "object".toList) []
  (.cons "c".toList true (.field (.ref "root-face".toList) [])
  (.cons "code_number".toList false (.field (.type "array".toList) []) .nil))

end Weldx.SchemaTreeDemo

namespace Weldx.SchemaTree
open SchemaTreeDemo

theorem dimension_wf : WF E [] dimension := by
  simp only [dimension, WF, WFProps, Props.reqs, Props.toList, label, suffix, Sch.kind]
  decide +kernel

theorem spatial_wf : WF E [] spatial := by
  simp only [spatial, WF, WFProps, Props.reqs, Props.toList, label, suffix, Sch.kind]
  decide +kernel

theorem groove_wf : WF E [] groove := by
  simp only [groove, WF, WFProps, Props.reqs, Props.toList, label, suffix, Sch.kind]
  decide +kernel

/-- the hypotheses of `C88_summary_partial` can be met, and what is shown then -/
example : WF E [] spatial ∧ Clear E spatial ∧ schemaTree E [] (file.enc spatial) =
    .ok (.dict [("coordinates (tag:stsci.edu:asdf/core/ndarray-1.*, required)".toList, .dict [("wx_shape".toList, .leaf "[(~),3]".toList)]),
      ("attributes (dict)".toList, .dict [])]) := by
  have hc : Clear E spatial := by
    simp only [spatial, Clear, ClearProps, Props.reqs, Props.toList, label, suffix, Sch.kind]
    decide +kernel
  refine ⟨spatial_wf, hc, ?_⟩
  rw [C88_summary_partial E [] spatial spatial_wf (by simp) (by simp) (by simp) hc]
  rfl

/-- **C88 (refuted)** the schema of dimensions -/
theorem C88_dimension_counterexample : schemaTree E [] (file.enc dimension) =
    .ok (.dict [("name (str, required)".toList, .dict []), ("lengt, required)".toList, .dict [])]) ∧
    schemaTree E [] (file.enc dimension) ≠ .ok (overview E [] dimension) := by
  have h := C88_actual E [] dimension dimension_wf (by simp) (by simp) (by simp)
  refine ⟨by rw [h]; rfl, fun h' => ?_⟩
  rw [C88_summary_iff E [] dimension dimension_wf (by simp) (by simp) (by simp)] at h'
  simp only [dimension, Clear, ClearProps, suffix, Sch.kind] at h'
  exact absurd h'.2.2.1 (by decide +kernel)

/-- **C88 (refuted)** a property that is not required is said to be, because its name begins like that of a required one -/
theorem C88_prefix_counterexample : schemaTree E [] (file.enc groove) =
    .ok (.dict [("c ($root-face, required)".toList, .dict []), ("code_number (list, required)".toList, .dict [])]) := by
  rw [C88_actual E [] groove groove_wf (by simp) (by simp) (by simp)]
  rfl

/-- **C88 (refuted)** names that shall be dropped are shown, because the class is already part of the key -/
theorem C88_drop_counterexample : schemaTree E ["attributes".toList] (file.enc spatial) = schemaTree E [] (file.enc spatial) := by
  have h : WF E ["attributes".toList] spatial := by
    simp only [spatial, WF, WFProps, Props.reqs, Props.toList, label, suffix, Sch.kind]
    decide +kernel
  rw [C88_actual E [] spatial spatial_wf (by simp) (by simp) (by simp), C88_actual E _ spatial h (by simp) (by simp) (by simp)]
  rfl

/-- **C88 (refuted)** there is no overview of a schema that demands one of several sets of properties, as core/file-0.1.1.yaml, 83-85 -/
theorem C88_alternatives_counterexample (E : Env) (drop : List Str) (reqs : List Str) :
    schemaTree E drop (.dict [("anyOf".toList, .list [.dict [("required".toList, .list (reqs.map .leaf))]])]) = .error .keyError := by
  have t1 := (pass1 E drop).texts reqs
  have t2 := (pass2 E drop).texts reqs
  have t3 := (pass3 E drop).texts reqs
  have n1 : ¬ "required".toList = "wx_shape".toList := by decide +kernel
  have n2 : ¬ "anyOf".toList = "wx_shape".toList := by decide +kernel
  have n3 : ¬ "required".toList = "tag".toList := by decide +kernel
  have n4 : ¬ "anyOf".toList = "tag".toList := by decide +kernel
  have n5 : ¬ "required".toList = "$ref".toList := by decide +kernel
  have n6 : ¬ "anyOf".toList = "$ref".toList := by decide +kernel
  have n7 : ¬ "required".toList = "type".toList := by decide +kernel
  have n8 : ¬ "anyOf".toList = "type".toList := by decide +kernel
  have n9 : ¬ "required".toList = "properties".toList := by decide +kernel
  simp only [schemaTree, remap, remapList, remapItems, t1, t2, t3, convertShape, resolveClasses, markRequired, Dict.get?, Dict.update, Dict.set,
    List.foldl_cons, List.foldl_nil, n1, n2, n3, n4, n5, n6, n7, n8, n9, if_false, if_true, bind, Except.bind, Option.map_some,
    Option.toList_some, List.cons_append, List.nil_append, List.append_nil, reqNames_texts]

/-- **C88 (refuted)** a property without class is dropped if it has the name of a keyword -/
theorem C88_keyword_counterexample : schemaTree E [] (.dict [("properties".toList, .dict [("description".toList, .dict [("default".toList, .leaf "x".toList)])])]) =
    .ok (.dict []) := by
  rfl

end Weldx.SchemaTree
