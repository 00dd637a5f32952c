import Verif.Model.BGA
import Mathlib.Probability.Distributions.Uniform

/-!
# The distributions of the draws of the binary genetic algorithm

`Model/BGA.lean` takes every number drawn from NumPy's generator as an argument. Here these
arguments get the distributions that NumPy documents: `choice(xs, k, replace=False)` takes the
values at `k` different positions, all (ordered) selections being equally likely; `randint(2)`
yields both bits with the same probability; `rand()` yields the multiples of `2^-53` in `[0, 1)`
with the same probability.
-/

namespace Verif.GALaws
open Verif Verif.GA Verif.BGA

/-- `np.random.choice(others, 3, replace=False)` (bga.py:188): the values at three positions. -/
def atPositions {n : ℕ} (e : Fin 3 ↪ Fin n) (others : List ℕ) : List ℕ :=
  List.ofFn fun i => others.getD (e i) 0

/-- The tournaments `tour`, but number `t` is drawn at the positions `e` (from `n` others). -/
def withTour {n : ℕ} (t : ℕ) (tour : ℕ → List ℕ → List ℕ) (e : Fin 3 ↪ Fin n) :
    ℕ → List ℕ → List ℕ :=
  fun i others => if i = t ∧ others.length = n then atPositions e others else tour i others

/-- The draws of all tournaments of a call of `select`: number `t` is uniform and independent of
the others, which follow the distribution `rest`. -/
noncomputable def tourLaw (n t : ℕ) [Nonempty (Fin 3 ↪ Fin n)]
    (rest : PMF (ℕ → List ℕ → List ℕ)) : PMF (ℕ → List ℕ → List ℕ) :=
  rest.bind fun tour => (PMF.uniformOfFintype (Fin 3 ↪ Fin n)).map (withTour t tour)

/-- All sequences of draws of `random_parents_generator` (ga.py:603) for `2 h` genotypes: each
is a pair of different positions in the array of those that are left, whose size is known. -/
def pairDraws : (h : ℕ) → Finset (List (ℕ × ℕ))
  | 0 => {[]}
  | h + 1 => ((Finset.range (2 * h + 2)).offDiag ×ˢ pairDraws h).image fun p => p.1 :: p.2

/-- ga.py:603: the values at the positions drawn. -/
def pairAt (ds : List (ℕ × ℕ)) (i : ℕ) (w : List ℕ) : ℕ × ℕ :=
  let d := ds.getD i (0, 0)
  (w.getD d.1 0, w.getD d.2 0)

/-- A genotype drawn at bga.py:93. -/
def bits {n : ℕ} (g : Fin n → Bool) : List ℤ := List.ofFn fun i => if g i then 1 else 0

end Verif.GALaws
