import Verif.Model.LP

/-!
# Model of `Function.coefficients`, `linear_coefficients` and `is_linear`

`function/function.py` 232-245, 261-322 and `function/symutils.py` 100-149.

An expression of SymPy after `simplify()` is a sum of terms; a term is a number (integer, rational or
float: what `as_coeff_Mul` splits off) times a product of other factors, the *key*.  Factors are
symbols, constants which SymPy keeps as symbols (`pi`, `sqrt(2)`), and composite ones which are not
looked into (`sin(x)`, `(x + y)` in `pi*(x + y)`), with at least one free symbol.  A product is a list of
factors; the canonical order of SymPy is taken for granted.
-/

namespace Verif.Coeffs
open Verif Verif.LP

/-- A factor of a term. -/
inductive Factor (V : Type)
  | sym (x : V)
  | const (c : ℕ)
  /-- a composite factor with the free symbols `x :: more` -/
  | other (x : V) (more : List V) (i : ℕ)
  deriving DecidableEq

/-- The meaning of constants and composite factors. -/
structure Env (V K : Type) where
  const : ℕ → K
  other : V → List V → ℕ → (V → K) → K

/-- A symbolic function: `variables` and the terms of `expr.simplify()`. -/
structure Fn (V K : Type) where
  vars : List V
  terms : List (List (Factor V) × K)

section
variable {V K : Type} [DecidableEq V] [Field K] [DecidableEq K]

/-- Value of a factor. -/
def Factor.val (env : Env V K) (ρ : V → K) : Factor V → K
  | .sym x => ρ x
  | .const c => env.const c
  | .other x more i => env.other x more i ρ

/-- Value of a key. -/
def keyVal (env : Env V K) (ρ : V → K) (k : List (Factor V)) : K := (k.map (Factor.val env ρ)).prod

/-- The value of the function. -/
def Fn.eval (f : Fn V K) (env : Env V K) (ρ : V → K) : K :=
  (f.terms.map fun t => t.2 * keyVal env ρ t.1).sum

/-- Free symbols of a factor. -/
def Factor.free : Factor V → List V
  | .sym x => [x]
  | .const _ => []
  | .other x more _ => x :: more

/-- `key.free_symbols` -/
def free (k : List (Factor V)) : List V := (k.flatMap Factor.free).dedup

/-- `expr.as_coefficients_dict()`; for the expression zero this is `{1: 0}`. -/
def asDict (f : Fn V K) : List (List (Factor V) × K) :=
  if asCoefficientsDict f.terms = [] then [([], 0)] else asCoefficientsDict f.terms

/-- `coefficients()`: `function/function.py` 307-312, `function/symutils.py` 137-141. -/
def Fn.coefficients (f : Fn V K) : List (List (Factor V) × K) :=
  dictUpdate (f.vars.dedup.map fun x => ([.sym x], 0)) (asDict f)

/-- `d[key] = value` -/
def dictSet (d : List (List (Factor V) × K)) (k : List (Factor V)) (v : K) :
    List (List (Factor V) × K) :=
  if d.any fun t => t.1 = k then d.map fun t => if t.1 = k then (k, v) else t else d ++ [(k, v)]

/-- The value of a constant key, which contains constants only. -/
def constVal (env : Env V K) (k : List (Factor V)) : K := keyVal env (fun _ => 0) k

/-- One round of the loop of the normalization: `function/function.py` 315-319,
`function/symutils.py` 144-148. -/
def normStep (env : Env V K) (res : List (List (Factor V) × K)) (t : List (Factor V) × K) :
    List (List (Factor V) × K) :=
  if (free t.1).length = 0 then dictSet res [] (t.2 * constVal env t.1) else dictSet res t.1 t.2

/-- `coefficients(normalize=True)`: `function/function.py` 313-320, `function/symutils.py` 142-149. -/
def Fn.normalized (f : Fn V K) (env : Env V K) : List (List (Factor V) × K) :=
  f.coefficients.foldl (normStep env) []

/-- `linear_coefficients()`: `function/function.py` 279-284; `None` for an empty dictionary. -/
def linearPart (d : List (List (Factor V) × K)) : Option (List (List (Factor V) × K)) :=
  if d = [] then none else some (d.filter fun t => (free t.1).length ≤ 1)

/-- `degree(expr, x)` for a polynomial; `none` is minus infinity. -/
def Fn.degree (f : Fn V K) (x : V) : Option ℕ :=
  if asCoefficientsDict f.terms = [] then none
  else some (((asCoefficientsDict f.terms).map fun t => t.1.count (.sym x)).foldl max 0)

/-- `is_linear` of a symbolic function which is a polynomial: `function/function.py` 236-242.  Casting
minus infinity to an integer raises an exception. -/
def Fn.isLinear (f : Fn V K) : Py Bool :=
  if (f.vars.map f.degree).any (· = none) then .error .generic
  else .ok ((f.vars.map f.degree).all fun d => decide (d.getD 0 ≤ 1))

end

end Verif.Coeffs
