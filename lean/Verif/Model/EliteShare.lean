import Verif.Model.GA
import Verif.Model.Rounding

/-!
# The elite as a fraction of the population, in floating point arithmetic

`GA.divide` multiplies the population size and the fraction exactly.  Here the product is rounded.
-/

namespace Verif.EliteShare
open Verif Verif.GA

/-- optimize/ga.py:538-574 `divide` for a setting that is a float `q` with `0 ≤ q` (negative ones, which
`set_solution_params` rejects, are not modelled): `int(self.nPop * self.elitism)` drops the
fractional part of the rounded product. -/
def divideShare {K : Type*} (fl : ℚ → ℚ) (argsort : List K → List ℕ) (nPop : ℕ) (q : ℚ)
    (minimize : Bool) (fitness : List K) : Py (List ℕ × List ℕ) :=
  let a := argsort fitness
  let a := if minimize then a else a.reverse
  if q < 1 then
    let n := ⌊fl ((nPop : ℚ) * q)⌋.toNat
    .ok (a.take n, a.drop n)
  else .error .type

end Verif.EliteShare
