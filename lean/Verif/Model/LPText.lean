import Verif.Model.Expr
import Verif.Model.LPSolve

/-!
# Linear programming problems given as text

`Function(text, variables=…)`, `Relation(text, variables=…)` and the problem made of them
(`function/function.py` 160-201, `function/relation.py` 82-165, `function/symutils.py` 21-62,
`optimize/lp.py` 128-179).  SymPy's `simplify()` (`function/symutils.py` 49) is a parameter: it turns an
expression into a sum of coefficients times monomials.
-/

namespace Verif.LPText
open Verif Verif.LP
open Verif.Sym (Expr Decimal parseExpr freeSymbols)
open Verif.Rel (Cls OpArg Attrs)

variable {K : Type}

/-- What `simplify()` returns. -/
abbrev Simplify (K : Type) := Expr Decimal → List (List (List Char) × K)

/-- `Function(text, variables=vars)`: `decode` and `symbolize`, `function/symutils.py` 21-62.  No variables given: those
of the text (lines 34-36; Python does not say in which order).  The substitution of the symbols of the text by the
variables of the same name (line 41) does nothing here, since variables are their names. -/
def function (simp : Simplify K) (vars : List (List Char)) (s : List Char) : Py (Func (List Char) K) :=
  match parseExpr s with
  | some e => .ok ⟨if vars = [] then (freeSymbols e).dedup else vars, simp e⟩
  | none => .error .generic

/-- The arguments of `Relation`, `Equality` or `InEquality`: the class, the text, the operator if it is given apart, and
the variables. -/
structure ConText (K : Type) where
  cls : Cls
  text : List Char
  op : OpArg K
  vars : List (List Char)

/-- `Relation(text, op=…, variables=…)`: `__new__` and `__init__` (`function/relation.py` 82-165) and then `Function`. -/
def constraint [LinearOrder K] (simp : Simplify K) (c : ConText K) : Py (Constraint (List Char) K) := do
  let a ← Rel.construct c.cls (.text c.text) c.op none
  match a.text with
  | some t => do
    let f ← function simp c.vars t
    return ⟨a, f, true⟩
  | none => .error .generic

/-- `LinearProgrammingProblem(Function(obj, variables=vars), constraints, variables=vars, …)`, `optimize/lp.py` 128-179. -/
def problem [Field K] [LinearOrder K] (simp : Simplify K) (obj : List Char) (objVars : List (List Char))
    (cs : List (ConText K)) (vars : List (List Char)) (bounds : LPSolve.Bounds K)
    (integrality : Option LPSolve.Integ) (sparsify : Bool) :
    Py (Problem (List Char) K LPSolve.Integ (LPSolve.Bounds K)) := do
  let f ← function simp objVars obj
  let l ← pyMap (constraint simp) cs
  LP.init (.good (f, true)) (l.map .good) (some (vars.map .good)) bounds integrality sparsify

/-- Expansion of an expression, with the divisor taken as a number: one way in which `simplify()` may treat linear
expressions. -/
def expand [Field K] : Expr Decimal → List (List (List Char) × K)
  | .num c => [([], c.val)]
  | .var x => [([x], 1)]
  | .neg a => (expand a).map fun t => (t.1, -t.2)
  | .add a b => expand a ++ expand b
  | .sub a b => expand a ++ (expand b).map fun t => (t.1, -t.2)
  | .mul a b => (expand a).flatMap fun t => (expand b).map fun u => (t.1 ++ u.1, t.2 * u.2)
  | .div a b => (expand a).map fun t => (t.1, t.2 / ((expand b).map Prod.snd).sum)

end Verif.LPText
