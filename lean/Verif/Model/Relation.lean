import Verif.Prelude
import Mathlib.Algebra.Order.Field.Basic

/-!
# Model of `function/utils.py` and of the decision logic of `function/relation.py`

Strings are lists of characters.  The regular expression

    (.+?)\s*(<=|>=|<|>|=)\s*(.+)

is modelled by the search order of a backtracking matcher: the lazy group tries
increasing lengths, `\s*` and the last group try decreasing lengths, the
alternatives are tried from left to right, and the first success is returned.
-/

namespace Verif.Rel

/-- Whitespace as understood by `\s` and `str.strip` (Unicode white space of Python's
`str.isspace`; `re` uses the same table for `str` patterns). -/
def isWs (c : Char) : Bool :=
  let n := c.toNat
  (9 ≤ n && n ≤ 13) || (28 ≤ n && n ≤ 32) || n == 133 || n == 160 || n == 0x1680 ||
    (0x2000 ≤ n && n ≤ 0x200a) || n == 0x2028 || n == 0x2029 || n == 0x202f || n == 0x205f ||
    n == 0x3000

/-- The metacharacter `.` (no `re.DOTALL`): everything except a line feed. -/
def isDot (c : Char) : Bool := c != '\n'

/-- `str.strip()` -/
def strip (s : List Char) : List Char :=
  ((s.dropWhile isWs).reverse.dropWhile isWs).reverse

/-- `enum Relations`, `function/relation.py` 14-19. -/
inductive Relations
  | eq | gt | ge | lt | le
deriving DecidableEq, Repr

/-- The value of the enum member, `function/relation.py` 15-19. -/
def Relations.value : Relations → List Char
  | .eq => ['=']
  | .gt => ['>']
  | .ge => ['>', '=']
  | .lt => ['<']
  | .le => ['<', '=']

/-- `valid_operators`, `function/utils.py` 3, in the order of the list, which is also the order
of the alternatives in the pattern on line 19. -/
def validOperators : List Relations := [.le, .ge, .lt, .gt, .eq]

/-- `Relations(text)`: the enum member with the given value, `ValueError` otherwise. -/
def Relations.ofValue (t : List Char) : Py Relations :=
  match validOperators.find? (fun o => o.value == t) with
  | some o => .ok o
  | none => .error .value

/-- `n, n-1, …, lo` -/
def downFrom (n lo : Nat) : List Nat := ((List.range (n + 1 - lo)).map (fun i => n - i))

/-- Third part of the pattern, `\s*(.+)`, `function/utils.py` 19. -/
def matchRhs (s : List Char) : Option (List Char) :=
  (downFrom (s.takeWhile isWs).length 0).findSome? fun w =>
    let s' := s.drop w
    (downFrom (s'.takeWhile isDot).length 1).findSome? fun m => some (s'.take m)

/-- Second part of the pattern, `\s*(<=|>=|<|>|=)` followed by the third part. -/
def matchOp (s : List Char) : Option (Relations × List Char) :=
  (downFrom (s.takeWhile isWs).length 0).findSome? fun w =>
    let s' := s.drop w
    validOperators.findSome? fun o =>
      if o.value.isPrefixOf s' then (matchRhs (s'.drop o.value.length)).map fun r => (o, r)
      else none

/-- `re.match(pattern, expression)`, `function/utils.py` 22: the three groups of the first
match in the search order. -/
def reMatch (s : List Char) : Option (List Char × Relations × List Char) :=
  ((List.range (s.takeWhile isDot).length).map (· + 1)).findSome? fun k =>
    (matchOp (s.drop k)).map fun p => (s.take k, p.1, p.2)

/-- Python's `op in text` for strings. -/
def contains (text op : List Char) : Bool := text.tails.any fun t => op.isPrefixOf t

/-- `has_operator`, `function/utils.py` 44-59. -/
def hasOperator (s : List Char) : Bool := validOperators.any fun o => contains s o.value

/-- `parse_expression`, `function/utils.py` 6-41.  The check on lines 36-37 cannot fail: the
group only matches valid operators. -/
def parseExpression (s : List Char) : Py (List Char × Relations × List Char) :=
  match reMatch s with
  | some (l, o, r) =>
      let left := strip l
      let right := strip r
      if validOperators.any (fun o => contains left o.value || contains right o.value) then
        .error .value
      else .ok (left, o, right)
  | none => .error .value

/-! ### Which class, which operator -/

/-- The classes a relation can have, `function/relation.py` 56, 197, 220. -/
inductive Cls
  | relation | equality | inequality
deriving DecidableEq, Repr

/-- The argument `op` / `operator` of the constructors: absent, a string, a member of the enum,
or a callable (a binary predicate on numbers). -/
inductive OpArg (K : Type)
  | absent
  | str (s : List Char)
  | member (o : Relations)
  | callable (f : K → K → Bool)

/-- The first positional argument: a text, or something else (a SymPy expression or a callable). -/
inductive Input
  | text (s : List Char)
  | other
deriving DecidableEq

/-- `has_op_in_input`, `function/relation.py` 86-87 and 133-134 (one positional argument). -/
def hasOpInInput : Input → Bool
  | .text s => hasOperator s
  | .other => false

/-- What `Relations.to_opfunc` returns (`function/relation.py` 21-36): the functions of the
module `operator`. -/
def Relations.toOpfunc {K : Type} [LinearOrder K] : Relations → K → K → Bool
  | .eq => fun a b => decide (a = b)
  | .gt => fun a b => decide (a > b)
  | .ge => fun a b => decide (a ≥ b)
  | .lt => fun a b => decide (a < b)
  | .le => fun a b => decide (a ≤ b)

/-- The operator as seen by `__new__` after lines 84-114 of `function/relation.py`:
a member of the enum or some callable. -/
def newOp {K : Type} (inp : Input) (op : OpArg K) (opStr : Option (List Char)) :
    Py (Option Relations) :=
  match op with
  | .str s => Relations.ofValue s |>.map some                       -- lines 89-96
  | .member o => .ok (some o)
  | .absent =>
      if hasOpInInput inp then                                      -- lines 98-101
        match inp with
        | .text s => (parseExpression s).map fun p => some p.2.1
        | .other => .ok none
      else                                                          -- lines 103-108
        match opStr with
        | some t =>
            match Relations.ofValue t with
            | .ok o => .ok (some o)
            | .error _ => .ok (some .eq)
        | none => .ok (some .eq)
  | .callable _ =>                                                  -- lines 110-114
      match opStr with
      | some t =>
          match Relations.ofValue t with
          | .ok o => .ok (some o)
          | .error _ => .ok none
      | none => .ok none

/-- `Relation.__new__`, `function/relation.py` 82-125: the class of the new object. -/
def newCls {K : Type} (cls : Cls) (inp : Input) (op : OpArg K) (opStr : Option (List Char)) :
    Py Cls := do
  let o ← newOp inp op opStr
  if cls ≠ .relation then return cls                                -- line 116
  else match o with
    | some .eq => return .equality                                  -- line 118
    | some _ => return .inequality                                  -- line 120
    | none => return .relation                                      -- line 122

/-- The attributes set by the constructors that matter for deciding the relation. -/
structure Attrs (K : Type) where
  cls : Cls
  /-- `self.op` -/
  op : Option Relations
  /-- `self.opfunc` -/
  opfunc : K → K → Bool
  /-- the text handed to `Function.__init__` if the input was a text -/
  text : Option (List Char)

/-- The assertions of `Equality.__init__` (`function/relation.py` 213-217) and
`InEquality.__init__` (235-239). -/
def assertOp {K : Type} (a : Attrs K) : Py (Attrs K) :=
  match a.cls, a.op with
  | .equality, some o => if o = .eq then .ok a else .error .assertion
  | .inequality, some o => if o ≠ .eq then .ok a else .error .assertion
  | _, _ => .ok a

/-- `Relation.__init__`, lines 127-165, then the assertions of `Equality.__init__` (213-217) and
`InEquality.__init__` (235-239) for an object of class `cls`. -/
def initAttrs {K : Type} [LinearOrder K] (cls : Cls) (inp : Input) (op : OpArg K)
    (opStr : Option (List Char)) : Py (Attrs K) := do
  let plain : Option (List Char) := match inp with
    | .text s => some s
    | .other => none
  let a : Attrs K ← (match op with
    | .str s =>                                                     -- lines 139-142
        (Relations.ofValue s).map fun o => ⟨cls, some o, o.toOpfunc, plain⟩
    | .member o => .ok ⟨cls, some o, o.toOpfunc, plain⟩             -- lines 143-144
    | .callable f => .ok ⟨cls, none, f, plain⟩                      -- lines 145-147
    | .absent =>
        if hasOpInInput inp then                                    -- lines 155-159
          match inp with
          | .text s => (parseExpression s).map fun p =>
              ⟨cls, some p.2.1, p.2.1.toOpfunc,
                some (p.1 ++ [' ', '-', ' '] ++ (['('] ++ p.2.2 ++ [')']))⟩
          | .other => .error .generic
        else                                                        -- lines 149-153
          let o : Relations := match opStr with
            | some t => match Relations.ofValue t with
                | .ok o => o
                | .error _ => .eq
            | none => .eq
          .ok ⟨cls, some o, o.toOpfunc, plain⟩)
  assertOp a

/-- Calling the class `cls` (`Relation`, `Equality` or `InEquality`): `__new__` and `__init__`. -/
def construct {K : Type} [LinearOrder K] (cls : Cls) (inp : Input) (op : OpArg K)
    (opStr : Option (List Char)) : Py (Attrs K) := do
  let c ← newCls cls inp op opStr
  initAttrs c inp op opStr

/-- `Relation.relate`, lines 190-194, given the value of the function at the point. -/
def Attrs.relateValue {K : Type} [Zero K] (a : Attrs K) (v : K) : Bool := a.opfunc v 0

end Verif.Rel
