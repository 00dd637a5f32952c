import Verif.Model.BGA
import Mathlib.Probability.ProbabilityMassFunction.Constructions

/-!
# The draws of the binary genetic algorithm as random variables

`Model/BGA.lean` takes every number drawn from NumPy's generator as an argument. Here these
arguments get a probability distribution (a `PMF`: the generator yields only countably many
different values, `rand()` the multiples of `2^-53`).

Only two of the draws of a cycle need to be independent of all others: the number that decides
whether the first pair of parents is crossed (bga.py:136) and the numbers that decide which
bits of its first child are flipped (bga.py:165). Everything else (tournaments, pairing, cuts,
the other pairs) may follow any distribution, which may also depend on all earlier cycles.
-/

namespace Verif.GAChance
open Verif Verif.BGA

/-- Successive draws; the distribution of each may depend on the earlier ones. -/
noncomputable def draws {α : Type} (law : List α → PMF α) : ℕ → PMF (List α)
  | 0 => PMF.pure []
  | k + 1 => (draws law k).bind fun as => (law as).map fun a => as ++ [a]

/-- The cycle `D` with other numbers drawn at bga.py:136 and, for the first child, at
bga.py:165, in the first call of `crossover` (bga.py:105). -/
def withFirst {K : Type} (D : CycleDraws K) (u : K) (m : List K) : CycleDraws K :=
  { D with cross := fun i => if i = 0 then { D.cross 0 with skip := u, mut1 := m } else D.cross i }

/-- The draws of one cycle: `unit` is the distribution of `np.random.rand()`, `n = dim * length`
the number of bits, `rest` the distribution of all the other draws. -/
noncomputable def cycleLaw {K : Type} (unit : PMF K) (n : ℕ) (rest : PMF (CycleDraws K)) :
    PMF (CycleDraws K) :=
  rest.bind fun D => unit.bind fun u => (draws (fun _ => unit) n).map fun m => withFirst D u m

section
variable {K : Type} [Field K] [LinearOrder K]

/-- ga.py:387-389 in cycle number `i`; there are no draws after the last one. -/
def breedAt (cfg : Config K) (argsort : List K → List ℕ) (Ds : List (CycleDraws K)) (i : ℕ)
    (genotypes : List (List ℤ)) (fitness : List K) : Py (List (List ℤ)) :=
  match Ds[i]? with
  | some D => breed cfg argsort D genotypes fitness
  | none => .error .index

end

end Verif.GAChance
