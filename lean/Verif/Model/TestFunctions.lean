import Verif.Prelude
import Mathlib.Algebra.Order.Field.Basic

/-!
# Model of `function/functions.py` and `function/testfunction.py`

The expressions are the texts in the source, as polynomials in `x` and `y` over a field.
-/

namespace Verif.TestFn

/-- A keyword argument of `TestFunction.__init__` as far as it is looked at. -/
inductive Kwarg (K : Type)
  | optText
  | optimums (l : List (K × K))
  | other

/-- The loop over the keyword arguments in `TestFunction.__init__`,
`function/testfunction.py` 14-23: it stops at `optText`. -/
def collectOptimums {K : Type} : List (Kwarg K) → List (K × K)
  | [] => []
  | .optText :: _ => []
  | .optimums l :: r => l ++ collectOptimums r
  | .other :: r => collectOptimums r

/-- A test function of two variables: `expr` and `optimums`. -/
structure TestFunction (K : Type) where
  f : K → K → K
  optimums : List (K × K)

/-- `TestMinFunction2D(**symbolize(...), optimums=opts)`, `function/testfunction.py` 8-43:
`TestMinFunction.__init__` (33) appends `optText="min"` to the keyword arguments; those coming
from `symbolize` are of other names. -/
def testMinFunction2D {K : Type} (f : K → K → K) (symbolized : ℕ) (opts : List (K × K)) :
    TestFunction K :=
  ⟨f, collectOptimums (List.replicate symbolized .other ++ [.optimums opts] ++ [.optText])⟩

section
variable {K : Type} [Field K]

/-- `Rosenbrock(a, b)`, `function/functions.py` 16-28. -/
def rosenbrock (a b : K) (symbolized : ℕ) : TestFunction K :=
  testMinFunction2D (fun x y => (a - x) ^ 2 + b * (y - x ^ 2) ^ 2) symbolized [(1, 1)]

/-- `Himmelblau()`, `function/functions.py` 31-49. -/
def himmelblau (symbolized : ℕ) : TestFunction K :=
  testMinFunction2D (fun x y => (x ^ 2 + y - 11) ^ 2 + (x + y ^ 2 - 7) ^ 2) symbolized
    [(3, 2), (-2805118 / 1000000, 3131312 / 1000000), (-3779310 / 1000000, -3283186 / 1000000),
      (3584428 / 1000000, -1848126 / 1000000)]

/-- `GoldsteinPrice()`, `function/functions.py` 52-71. -/
def goldsteinPrice (symbolized : ℕ) : TestFunction K :=
  testMinFunction2D (fun x y =>
    (1 + (x + y + 1) ^ 2 * (19 - 14 * x + 3 * x ^ 2 - 14 * y + 6 * x * y + 3 * y ^ 2)) *
      (30 + (2 * x - 3 * y) ^ 2 *
        (18 - 32 * x + 12 * x ^ 2 + 48 * y - 36 * x * y + 27 * y ^ 2))) symbolized [(0, -1)]

/-- `Beale()`, `function/functions.py` 74-92. -/
def beale (symbolized : ℕ) : TestFunction K :=
  testMinFunction2D (fun x y =>
    (15 / 10 - x + x * y) ^ 2 + (225 / 100 - x + x * y ^ 2) ^ 2 +
      (2625 / 1000 - x + x * y ^ 3) ^ 2) symbolized [(3, 5 / 10)]

/-- `Matyas()`, `function/functions.py` 95-104. -/
def matyas (symbolized : ℕ) : TestFunction K :=
  testMinFunction2D (fun x y => 26 / 100 * (x ^ 2 + y ^ 2) - 48 / 100 * x * y) symbolized [(0, 0)]

end

end Verif.TestFn
