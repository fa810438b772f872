import Verif.Validators.Model

/-!
# The documented shape language

Source: doc string of `_custom_shape_validator`, `/repo/weldx/asdf/validators.py` 432-453.
-/

namespace Weldx.Val

/-- meaning of one entry of a shape: a fixed size, an interval, or a variable -/
inductive Dim
  | fixed (n : Nat)
  | range (lo : Nat) (hi : Option Nat)
  | var (name : List Char)

/-- the size `v` is allowed, if the variables have the values `σ` -/
def Dim.Ok (σ : List Char → Int) : Dim → Int → Prop
  | .fixed n, v => v = n
  | .range lo hi, v => (lo : Int) ≤ v ∧ ∀ h ∈ hi, v ≤ (h : Int)
  | .var x, v => σ x = v

/-- A shape pattern: dimensions that have to be present, optional ones and whether there may be arbitrary
further ones; the variable part is at the front or at the end. All lists are in the order in which they are
written. -/
structure Pattern where
  front : Bool
  fixed : List Dim
  opts : List Dim
  ellipsis : Bool

/-- The shape `s` matches if the variables have the values `σ`. Of the optional dimensions, the ones next to
the fixed ones are filled first; only if all are filled there may be further ones. -/
def Pattern.MatchesWith (p : Pattern) (σ : List Char → Int) (s : List Int) : Prop :=
  if p.front then
    ∃ (j : Nat) (rest head : List Int), s = rest ++ head ∧
      List.Forall₂ (Dim.Ok σ) (p.opts.drop j ++ p.fixed) head ∧
      (rest ≠ [] → j = 0 ∧ p.ellipsis = true)
  else
    ∃ (k : Nat) (head rest : List Int), s = head ++ rest ∧
      List.Forall₂ (Dim.Ok σ) (p.fixed ++ p.opts.take k) head ∧
      (rest ≠ [] → p.opts.length ≤ k ∧ p.ellipsis = true)

/-- the shape matches for some values of the variables -/
def Pattern.Matches (p : Pattern) (s : List Int) : Prop := ∃ σ, p.MatchesWith σ s

/-! ### how patterns are written -/

/-- value of a string of digits -/
def value (s : List Char) : Nat := Nat.ofDigits 10 (s.reverse.map fun c => c.toNat - '0'.toNat)

/-- a number is written with at least one digit -/
def Digits (s : List Char) : Prop := s ≠ [] ∧ ∀ c ∈ s, c.isDigit = true

/-- strings for one dimension, without blanks -/
inductive WritesDim : List Char → Dim → Prop
  | fixed (s : List Char) (h : Digits s) : WritesDim s (.fixed (value s))
  | var (s : List Char) (h : ∀ c ∈ s, c.isAlphanum = true) (h0 : s ≠ []) (hn : ¬ Digits s) :
      WritesDim s (.var s)
  | range (l r : List Char) (hl : l = [] ∨ Digits l) (hr : r = [] ∨ Digits r)
      (hle : r ≠ [] → value l ≤ value r) :
      WritesDim (l ++ '~' :: r) (.range (value l) (if r = [] then none else some (value r)))

/-- without blanks -/
def unblank (s : List Char) : List Char := s.filter (· ≠ ' ')

/-- entries for a dimension that has to be present -/
inductive Writes : Item → Dim → Prop
  | int (n : Nat) : Writes (.int n) (.fixed n)
  | str (s : List Char) (d : Dim) (h : WritesDim (unblank s) d) : Writes (.str s) d

/-- entries for an optional dimension -/
inductive WritesOpt : Item → Dim → Prop
  | mk (s t : List Char) (d : Dim) (hs : unblank s = '(' :: t ++ [')']) (h : WritesDim t d) :
      WritesOpt (.str s) d

/-- `...` -/
inductive WritesDots : Item → Prop
  | mk (s : List Char) (h : unblank s = ['.', '.', '.']) : WritesDots (.str s)

/-- the list of entries is a way to write the pattern -/
def WritesPattern (l : List Item) (p : Pattern) : Prop :=
  ∃ lf lo ld : List Item, List.Forall₂ Writes lf p.fixed ∧ List.Forall₂ WritesOpt lo p.opts ∧
    (if p.ellipsis then ∃ x, WritesDots x ∧ ld = [x] else ld = []) ∧
    (if p.front then l = ld ++ lo ++ lf ∧ (p.ellipsis = true ∨ p.opts ≠ []) else l = lf ++ lo ++ ld ∧ p.fixed ≠ [])

end Weldx.Val

/-! ### nested shapes -/

namespace Weldx.Val

/-- entries of a dictionary in order -/
def Exps.toList : Exps → List (List Char × Exp)
  | .nil => []
  | .cons k e es => (k, e) :: es.toList

/-- A key of a dictionary, optional if it is written in parentheses. -/
inductive KeyName : List Char → List Char → Bool → Prop
  | opt (name : List Char) (h : name ≠ []) : KeyName ('(' :: name ++ [')']) name true
  | plain (k : List Char) (h : ¬ ∃ m, k = '(' :: m ++ [')']) : KeyName k k false

/-- the entry of a node for a key -/
def Node.child : Node → List Char → Option Node
  | .mapping _ es, k => Dict.get? es k
  | _, _ => none

/-- A key exists in the node. -/
def Present (k : List Char) (n : Node) : Prop := ∃ name o c, KeyName k name o ∧ n.child name = some c

/-- In a tree of expected shapes, `e'` belongs to the node `n'`; `o'` tells if its key is optional. With
`all := false` only such entries are meant for which all preceding keys of the same dictionaries are
present. -/
inductive Belongs (all : Bool) : Exp → Bool → Node → Exp → Bool → Node → Prop
  | here (e : Exp) (o : Bool) (n : Node) : Belongs all e o n e o n
  | down (es : Exps) (o : Bool) (n : Node) (pre post : List (List Char × Exp)) (k name : List Char) (e : Exp)
      (o1 : Bool) (c : Node) (e' : Exp) (o' : Bool) (n' : Node)
      (hes : es.toList = pre ++ (k, e) :: post) (hpre : all = false → ∀ x ∈ pre, Present x.1 n)
      (hk : KeyName k name o1) (hc : n.child name = some c) (h : Belongs all e o1 c e' o' n') :
      Belongs all (.dict es) o n e' o' n'

/-- `([...])` -/
def inlineItems (s : List Char) : List Item := (split ',' s).map .str

/-- well formed trees of expected shapes -/
inductive WellFormed : Exp → Prop
  | shape (l : List Item) (p : Pattern) (h : WritesPattern l p) : WellFormed (.shape l)
  | inline (s : List Char) (p : Pattern) (h : WritesPattern (inlineItems s) p) :
      WellFormed (.inline ('(' :: '[' :: s ++ [']', ')']))
  | dict (es : Exps) (hk : ∀ x ∈ es.toList, ∃ name o, KeyName x.1 name o)
      (h : ∀ x ∈ es.toList, WellFormed x.2) : WellFormed (.dict es)

/-- the shape of a node: a number has the shape `[1]` -/
def NodeShape : Node → Option (List Int)
  | .number => some [1]
  | .mapping s _ => s
  | .other => none

/-- The node satisfies a single entry of the expected shapes if the variables have the values `σ`. -/
def Satisfies (σ : List Char → Int) : Exp → Bool → Node → Prop
  | .shape l, o, n => ∀ p, WritesPattern l p → match NodeShape n with
    | some s => p.MatchesWith σ s
    | none => o = true
  | .inline t, _, n => ∀ s p, t = '(' :: '[' :: s ++ [']', ')'] → WritesPattern (inlineItems s) p → match NodeShape n with
    | some s => p.MatchesWith σ s
    | none => True
  | .dict es, _, n => es.toList = [] ∨ n ≠ .number
  | .other, _, _ => False

end Weldx.Val
