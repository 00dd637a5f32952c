import Verif.Model.GA
import Mathlib.Algebra.Order.Field.Basic
import Mathlib.Algebra.BigOperators.Group.List.Basic

/-!
# Model of `optimize/bga.py` (class `BinaryGeneticAlgorithm`)

A genotype is the list of its `dim * length` bits (as integers).  Every call of NumPy's
random generator is an argument; the contracts of these draws are stated at the end of the
file.  Objective values and coordinates are exact (a field `K`).
-/

namespace Verif.BGA
open Verif Verif.GA

/-- The draws of one `crossover` (bga.py:129-166): line 136 `rand()`, 142 `choice`, 149
`rand()`, and the two `rand(dim * length)` of `mutate`.  (`nCut`, line 140, is the length of
`cuts`.) -/
structure CrossDraw (K : Type) where
  skip : K
  cuts : List ℕ
  coin : K
  mut1 : List K
  mut2 : List K

/-- `a[lo:hi] = b[lo:hi]` for arrays of equal length. -/
def setSlice (a b : List ℤ) (lo hi : ℕ) : List ℤ :=
  a.take lo ++ (b.take hi).drop lo ++ a.drop (max lo hi)

section
variable {K : Type} [Field K] [LinearOrder K]

/-- bga.py:161-166 `mutate`. -/
def mutate (p_m : K) (draws : List K) (child : List ℤ) : List ℤ :=
  List.zipWith (fun p b => if p > p_m then b else 1 - b) draws child

/-- bga.py:150-156, the i-th pass of the loop over the segments. -/
def crossStep (cuts : List ℕ) (coin : Bool) (parent1 parent2 : List ℤ)
    (c : List ℤ × List ℤ) (i : ℕ) : List ℤ × List ℤ :=
  let lo := cuts.getD i 0
  let hi := cuts.getD (i + 1) 0
  if (i % 2 == 0) == coin then
    (setSlice c.1 parent1 lo hi, setSlice c.2 parent2 lo hi)
  else
    (setSlice c.1 parent2 lo hi, setSlice c.2 parent1 lo hi)

/-- bga.py:138-156: the children before mutation; `n = dim * length`. `randint(1, n - 1)`
raises `ValueError` for `n < 3`. -/
def recombine (n : ℕ) (cuts : List ℕ) (coin : Bool) (parent1 parent2 : List ℤ) :
    Py (List ℤ × List ℤ) :=
  if n < 3 then .error .value
  else
    let all := ([0, n] ++ cuts).mergeSort
    .ok ((List.range (cuts.length + 1)).foldl (crossStep all coin parent1 parent2)
      (List.replicate n 0, List.replicate n 0))

/-- bga.py:129-159 `crossover`. Parents of another length than `n`, which
`populate` never passes, are not modelled any further (`ValueError`; slices that do not
broadcast raise it, too long parents would be cut); `0.5` is exact. -/
def crossover (p_c p_m : K) (n : ℕ) (d : CrossDraw K) (parent1 parent2 : List ℤ) :
    Py (List ℤ × List ℤ) :=
  if d.skip > p_c then .ok (parent1, parent2)
  else if parent1.length ≠ n ∨ parent2.length ≠ n then .error .value
  else
    match recombine n d.cuts (decide (d.coin > 1 / 2)) parent1 parent2 with
    | .error e => .error e
    | .ok (c1, c2) => .ok (mutate p_m d.mut1 c1, mutate p_m d.mut2 c2)

/-- bga.py:103-105, the loop of `populate`; `pairs` are the positions the parents generator
has still to yield, `i` numbers the crossovers. An exhausted generator raises
`StopIteration`. -/
def offspringLoop (p_c p_m : K) (n nPop : ℕ) (cross : ℕ → CrossDraw K) (parents : List (List ℤ)) :
    (i : ℕ) → (pairs : List (ℕ × ℕ)) → (offspring : List (List ℤ)) → Py (List (List ℤ))
  | _, [], offspring =>
    if offspring.length + parents.length < nPop then .error .stopIteration else .ok offspring
  | i, (a, b) :: pairs, offspring =>
    if offspring.length + parents.length < nPop then do
      let g1 ← pyGet parents a
      let g2 ← pyGet parents b
      let (c1, c2) ← crossover p_c p_m n (cross i) g1 g2
      offspringLoop p_c p_m n nPop cross parents (i + 1) pairs (offspring ++ [c1, c2])
    else .ok offspring

/-- bga.py:85-110 `populate` with a given pool of parents; every exception in the guarded
part becomes a `RuntimeError`. `parentPositions` is run with enough fuel (it needs at most
half the number of parents, see `C02_pairing_partial`); the generator is lazy, but its pairs
do not depend on the consumer. -/
def populateFrom (p_c p_m : K) (n nPop : ℕ) (pair : ℕ → List ℕ → ℕ × ℕ) (cross : ℕ → CrossDraw K)
    (parents : List (List ℤ)) : Py (List (List ℤ)) :=
  if parents.length < nPop then
    match parentPositions pair (parents.length + 1) parents.length with
    | some (.ok pairs) =>
      match offspringLoop p_c p_m n nPop cross parents 0 pairs [] with
      | .ok offspring => .ok (parents ++ offspring)
      | .error _ => .error .runtime
    | _ => .error .runtime
  else .ok parents

/-- bga.py:187-193: the tournaments of `select`; `k` more winners are needed (the loop runs
once per missing winner), `tour i others` is the i-th `choice(others, 3, replace=False)`,
which raises `ValueError` if there are fewer than three. -/
def tournaments {V : Type} (argsort : List V → List ℕ) (minimize : Bool) (fitness : List V)
    (others : List ℕ) (tour : ℕ → List ℕ → List ℕ) : (k : ℕ) → (i : ℕ) → Py (List ℕ)
  | 0, _ => .ok []
  | k + 1, i =>
    if others.length < 3 then .error .value
    else do
      let candidates := tour i others
      let vals ← pyGets fitness candidates
      let order := argsort vals
      let w ← pyGet order (if minimize then 0 else order.length - 1)
      let winner ← pyGet candidates w
      let rest ← tournaments argsort minimize fitness others tour k (i + 1)
      return winner :: rest

/-- bga.py:168-194 `select` (default arguments): the indices of the winners, then the rows.
`divide` returns a Python list instead of an array for `elitism = None`, on which
`.tolist()` raises `AttributeError`. -/
def selectIds {V : Type} (argsort : List V → List ℕ) (nPop : ℕ) (elitism : Elitism) (minimize : Bool)
    (tour : ℕ → List ℕ → List ℕ) (fitness : List V) : Py (List ℕ) :=
  match divide argsort nPop elitism minimize fitness with
  | .error e => .error e
  | .ok (winners, others) =>
    if elitism = .none then .error .attribute
    else do
      let more ← tournaments argsort minimize fitness others tour (nPop / 2 - winners.length) 0
      return winners ++ more

/-- bga.py:112-127 `decode`: `ValueError` if the array cannot be reshaped. `ranges` are the
`dim` pairs of bounds (NumPy indexing of the flat buffer is written out). Bit strings are integers of
any size; in 64 bit integers the sums fit as long as `length ≤ 63`. -/
def decode (nPop dim length : ℕ) (ranges : List (K × K)) (genotypes : List (List ℤ)) :
    Py (List (List K)) :=
  let flat := genotypes.flatten
  if flat.length ≠ nPop * dim * length then .error .value
  else
    let span : K := 2 ^ length - 2 ^ 0
    .ok ((List.range nPop).map fun p => (List.range dim).map fun d =>
      let r := ranges.getD d (0, 0)
      ((List.range length).map fun i =>
          ((flat.getD ((p * dim + d) * length + i) 0 : ℤ) : K) * 2 ^ i).sum
        * ((r.2 - r.1) / span) + r.1)

/-- The draws of one cycle. -/
structure CycleDraws (K : Type) where
  tour : ℕ → List ℕ → List ℕ
  pair : ℕ → List ℕ → ℕ × ℕ
  cross : ℕ → CrossDraw K

/-- The settings of a binary GA that the algorithm reads. -/
structure Config (K : Type) where
  nPop : ℕ
  dim : ℕ
  length : ℕ
  ranges : List (K × K)
  p_c : K
  p_m : K
  elitism : Elitism
  minimize : Bool

/-- ga.py:387-389 with the methods of the binary GA: `select`, then `populate`; `V` is the type of the
objective values. -/
def breed {V : Type} (cfg : Config K) (argsort : List V → List ℕ) (D : CycleDraws K)
    (genotypes : List (List ℤ)) (fitness : List V) : Py (List (List ℤ)) :=
  match selectIds argsort cfg.nPop cfg.elitism cfg.minimize D.tour fitness with
  | .error e => .error e
  | .ok ids =>
    match pyGets genotypes ids with
    | .error e => .error e
    | .ok parents =>
      populateFrom cfg.p_c cfg.p_m (cfg.dim * cfg.length) cfg.nPop D.pair D.cross parents

/-- bga.py:91-93, 99-108: the initial population, `pool` being the drawn array. -/
def initial (cfg : Config K) (D : CycleDraws K) (pool : List (List ℤ)) : Py (List (List ℤ)) :=
  populateFrom cfg.p_c cfg.p_m (cfg.dim * cfg.length) cfg.nPop D.pair D.cross pool

/-- The optimization problem of a binary GA. -/
def problem (cfg : Config K) (fnc : List K → Py K) : Problem (List ℤ) (List K) K where
  decode := decode cfg.nPop cfg.dim cfg.length cfg.ranges
  fnc := fnc
  minimize := cfg.minimize

end

/-! Contracts of the random draws. -/

/-- `choice(others, 3, replace=False)`. -/
def IsTourChoice (f : List ℕ → List ℕ) : Prop :=
  ∀ w : List ℕ, w.Nodup → 3 ≤ w.length → (f w).length = 3 ∧ (f w).Nodup ∧ ∀ a ∈ f w, a ∈ w

/-- Lines 140-142 (`nCut` cuts, distinct, from `range(1, n - 1)`, `1 ≤ nCut < n - 1`) and the
shapes of the arrays drawn by `mutate`. -/
structure IsCrossDraw {K : Type} (n : ℕ) (d : CrossDraw K) : Prop where
  count : 3 ≤ n → 1 ≤ d.cuts.length ∧ d.cuts.length < n - 1
  nodup : d.cuts.Nodup
  range : ∀ c ∈ d.cuts, 1 ≤ c ∧ c < n - 1
  mut1 : d.mut1.length = n
  mut2 : d.mut2.length = n

/-- All draws of a cycle. -/
structure IsCycleDraws {K : Type} (n : ℕ) (D : CycleDraws K) : Prop where
  tour : ∀ i, IsTourChoice (D.tour i)
  pair : ∀ i, IsPairChoice (D.pair i)
  cross : ∀ i, IsCrossDraw n (D.cross i)

/-- `randint(2, size=(nPop // 2, n))`. -/
structure IsPool (nPop n : ℕ) (pool : List (List ℤ)) : Prop where
  rows : pool.length = nPop / 2
  bits : ∀ g ∈ pool, g.length = n ∧ ∀ b ∈ g, b = 0 ∨ b = 1

end Verif.BGA
