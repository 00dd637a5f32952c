import Verif.Prelude
import Mathlib.Analysis.SpecialFunctions.Sqrt
import Mathlib.Analysis.SpecialFunctions.Log.Deriv
import Mathlib.Analysis.SpecialFunctions.Trigonometric.Deriv
import Mathlib.Analysis.SpecialFunctions.ExpDeriv

/-!
# Model of value, gradient and Hessian of symbolic functions

`symbolize` and `decode` in `function/symutils.py` 20-63, `f`, `g` and `G` in
`function/metafunction.py` 31-67, `Function.update` in `function/function.py` 176-201.

Expressions are built from real numbers, variables, the four operations, powers with natural
exponents, `sin`, `cos`, `exp`, `log` and `sqrt`.  SymPy brings expressions to a canonical form and
simplifies them; of this only is used that it does not change the value where there is one.  Numbers are
exact.  An expression has no value at a point if it divides by zero or takes the logarithm of a number
that is not positive or the root of a negative number (the code gives NaN, infinity or an exception).
-/

namespace Verif.Calc
open Verif

/-- Symbolic expressions. -/
inductive Ex
  | num (c : ℝ)
  | var (x : String)
  | neg (a : Ex)
  | add (a b : Ex)
  | sub (a b : Ex)
  | mul (a b : Ex)
  | div (a b : Ex)
  | pow (a : Ex) (n : ℕ)
  | sin (a : Ex)
  | cos (a : Ex)
  | exp (a : Ex)
  | log (a : Ex)
  | sqrt (a : Ex)

/-- Value at a point. -/
noncomputable def eval (ρ : String → ℝ) : Ex → Option ℝ
  | .num c => some c
  | .var x => some (ρ x)
  | .neg a => (eval ρ a).map fun x => - x
  | .add a b => (eval ρ a).bind fun x => (eval ρ b).map fun y => x + y
  | .sub a b => (eval ρ a).bind fun x => (eval ρ b).map fun y => x - y
  | .mul a b => (eval ρ a).bind fun x => (eval ρ b).map fun y => x * y
  | .div a b => (eval ρ a).bind fun x => (eval ρ b).bind fun y => if y = 0 then none else some (x / y)
  | .pow a n => (eval ρ a).map fun x => x ^ n
  | .sin a => (eval ρ a).map Real.sin
  | .cos a => (eval ρ a).map Real.cos
  | .exp a => (eval ρ a).map Real.exp
  | .log a => (eval ρ a).bind fun x => if 0 < x then some (Real.log x) else none
  | .sqrt a => (eval ρ a).bind fun x => if 0 ≤ x then some (Real.sqrt x) else none

/-- `expr.free_symbols`, with repetitions. -/
def free : Ex → List String
  | .num _ => []
  | .var x => [x]
  | .neg a | .pow a _ | .sin a | .cos a | .exp a | .log a | .sqrt a => free a
  | .add a b | .sub a b | .mul a b | .div a b => free a ++ free b

/-- `expr.diff(x)` -/
noncomputable def diff (x : String) : Ex → Ex
  | .num _ => .num 0
  | .var y => .num (if y = x then 1 else 0)
  | .neg a => .neg (diff x a)
  | .add a b => .add (diff x a) (diff x b)
  | .sub a b => .sub (diff x a) (diff x b)
  | .mul a b => .add (.mul (diff x a) b) (.mul a (diff x b))
  | .div a b => .div (.sub (.mul (diff x a) b) (.mul a (diff x b))) (.mul b b)
  | .pow a n => .mul (.mul (.num n) (.pow a (n - 1))) (diff x a)
  | .sin a => .mul (.cos a) (diff x a)
  | .cos a => .neg (.mul (.sin a) (diff x a))
  | .exp a => .mul (.exp a) (diff x a)
  | .log a => .div (diff x a) a
  | .sqrt a => .div (diff x a) (.mul (.num 2) (.sqrt a))

/-- A symbolic function: expression and variables. -/
structure Fn where
  expr : Ex
  vars : List String

/-- The values which parameters `vars` get from arguments `xs` (zero for other names; this is never
read). -/
def point (vars : List String) (xs : List ℝ) : String → ℝ
  | x => ((vars.zip xs).find? fun p => p.1 == x).elim 0 Prod.snd

/-- A call of `lambdify([vars], e)`: a wrong number of values is a `ValueError`, a symbol that is not a
parameter a `NameError`. -/
noncomputable def lambda (vars : List String) (e : Ex) (xs : List ℝ) : Py ℝ :=
  if xs.length ≠ vars.length then .error .value
  else if ∃ x ∈ free e, x ∉ vars then .error .generic
  else match eval (point vars xs) e with
    | some v => .ok v
    | none => .error .zeroDiv

/-- `f(xs)`: `function/symutils.py` 50, `function/metafunction.py` 28-41. -/
noncomputable def Fn.value (f : Fn) (xs : List ℝ) : Py ℝ := lambda f.vars f.expr xs

/-- `derive_by_array(e, vars)`: `function/symutils.py` 51. -/
noncomputable def gradientExprs (vars : List String) (e : Ex) : List Ex := vars.map fun v => diff v e

/-- `f.g(xs)`: `function/symutils.py` 52, `function/metafunction.py` 43-54. -/
noncomputable def Fn.gradient (f : Fn) (xs : List ℝ) : Py (List ℝ) :=
  if xs.length ≠ f.vars.length then .error .value
  else (gradientExprs f.vars f.expr).mapM fun e => lambda f.vars e xs

/-- `f.G(xs)`: `function/symutils.py` 53-54, `function/metafunction.py` 56-67; the derivatives of the array
of derivatives, the new axis first. -/
noncomputable def Fn.hessian (f : Fn) (xs : List ℝ) : Py (List (List ℝ)) :=
  if xs.length ≠ f.vars.length then .error .value
  else (f.vars.map fun v => (gradientExprs f.vars f.expr).map fun e => diff v e).mapM fun row =>
    row.mapM fun e => lambda f.vars e xs

/-- The variables of a function: those given, or the free symbols in the order in which Python happens to
iterate over the set of them: `decode`, `function/symutils.py` 34-41. -/
def IsVariables (e : Ex) (given : Option (List String)) (vars : List String) : Prop :=
  match given with
  | some (v :: vs) => vars = v :: vs
  | _ => vars.Perm (free e).dedup

end Verif.Calc
