import Verif.Prelude
import Mathlib.Data.Rat.Floor
import Mathlib.Order.Defs.LinearOrder

/-!
# Model of `optimize/ga.py` (class `GeneticAlgorithm`, `Genom`) and `optimize/state.py`

The abstract methods of the class (`decode`, `populate`, `select`) are parameters, so the
theorems about this module hold for every subclass.  `G` is the type of genotypes, `X` of
phenotypes, `K` of objective values (exact, linearly ordered: NaN is not modelled).
-/

namespace Verif.GA

/-- optimize/ga.py:18-19 `even`. Python `%` with a positive divisor is `Int.emod`. -/
def even (n : ℤ) : Bool := n % 2 == 0

/-- optimize/ga.py:22-23 `odd`. -/
def odd (n : ℤ) : Bool := !even n

/-- optimize/ga.py:202-207, the normalisation of `nPop` in `GeneticAlgorithm.__init__`.
`int(nPop / 2)` is a float division followed by truncation; the float is taken as exact,
so this is truncating integer division. -/
def normPop (nPop : ℤ) : Py ℤ :=
  let nPop := if odd nPop then nPop + 1 else nPop
  let nPop := if odd (nPop.tdiv 2) then nPop + 2 else nPop
  if nPop % 4 ≠ 0 then .error .assertion
  else if nPop < 4 then .error .assertion
  else .ok nPop

/-- optimize/ga.py:26-35 `Genom` (the fields used by the algorithm). -/
structure Genom (G X K : Type*) where
  phenotype : X
  genotype : G
  fitness : K
  age : ℕ := 0
  index : ℕ := 0

namespace Genom
variable {X K : Type*}

/-- optimize/ga.py:37-40 `Genom.__eq__` between genoms: the genotype lists are equal.
(`self.genotype == other.genotype` compares two Python lists.) -/
def eq (a b : Genom (List ℤ) X K) : Bool := a.genotype == b.genotype

/-- optimize/ga.py:42-44: the string that is hashed (`__hash__` is a function of it). -/
def hashKey (a : Genom (List ℤ) X K) : String := String.join (a.genotype.map toString)

variable {G : Type*} [LinearOrder K]
/-- optimize/ga.py:46-51 `Genom.__gt__`. -/
def gt (a b : Genom G X K) : Bool := decide (a.fitness > b.fitness)
/-- optimize/ga.py:53-58 `Genom.__lt__`. -/
def lt (a b : Genom G X K) : Bool := decide (a.fitness < b.fitness)
/-- optimize/ga.py:60-65 `Genom.__ge__`. -/
def ge (a b : Genom G X K) : Bool := decide (a.fitness ≥ b.fitness)
/-- optimize/ga.py:67-72 `Genom.__le__`. -/
def le (a b : Genom G X K) : Bool := decide (a.fitness ≤ b.fitness)
end Genom

/-- The value of the attribute `elitism` (optimize/ga.py:192): `None`, an `int` or a `float`.
Floats are exact rationals. -/
inductive Elitism
  | none
  | int (k : ℤ)
  | float (q : ℚ)
  deriving DecidableEq

/-- The solution parameters set by `set_solution_params` (optimize/ga.py:347-360). -/
structure Params (K : Type*) where
  p_c : K
  p_m : K
  maxiter : ℤ
  miniter : ℤ
  elitism : Elitism
  maxage : ℤ
  minimize : Bool

/-- The keyword arguments of `set_solution_params`; `none` = keyword not given. -/
structure Kwargs (K : Type*) where
  p_c : Option K := none
  p_m : Option K := none
  maxiter : Option ℤ := none
  miniter : Option ℤ := none
  elitism : Option Elitism := none
  maxage : Option ℤ := none
  minimize : Option Bool := none

/-- The part of the optimizer `set_solution_params` reads and writes; `celebrateLt` is
`_celebrate_op is operator.lt`. -/
structure Solver (K : Type*) where
  nPop : ℤ
  params : Params K
  celebrateLt : Bool

/-- optimize/ga.py:362-374: the validation in `set_solution_params`. -/
def validate {K : Type*} (nPop : ℤ) (p : Params K) : Py Unit :=
  let checkIter : Py Unit := if p.miniter > p.maxiter then .error .value else .ok ()
  match p.elitism with
  | .none => checkIter
  | .int k =>
    if k ≤ 0 then .error .value
    else if k > 1 ∧ k ≥ nPop then .error .value
    else checkIter
  | .float q =>
    if q ≤ 0 then .error .value
    else if q > 1 then .error .value
    else checkIter

/-- optimize/ga.py:347-360: the assignments at the head of `set_solution_params`. -/
def assign {K : Type*} (p : Params K) (kw : Kwargs K) : Params K where
  p_c := kw.p_c.getD p.p_c
  p_m := kw.p_m.getD p.p_m
  maxiter := kw.maxiter.getD p.maxiter
  miniter := kw.miniter.getD p.miniter
  elitism := kw.elitism.getD p.elitism
  maxage := kw.maxage.getD p.maxage
  minimize := kw.minimize.getD p.minimize

/-- optimize/ga.py:322-378 `set_solution_params`: result and the state of the object
afterwards (an exception leaves the assignments made before it in place). -/
def setSolutionParams {K : Type*} (s : Solver K) (kw : Kwargs K) : Py Unit × Solver K :=
  let p := assign s.params kw
  match validate s.nPop p with
  | .error e => (.error e, { s with params := p })
  | .ok () => (.ok (), { s with params := p, celebrateLt := p.minimize })

/-- optimize/ga.py `GeneticAlgorithm.Status` (values INITIALIZED 0, MAX_ITERATIONS_REACHED 1,
CONVERGED 2, ERROR -1 as used in 319, 431, 445, 447, 454). -/
inductive Status
  | initialized | maxIterationsReached | converged | error
  deriving DecidableEq, Repr

/-- optimize/state.py:10-64 `OptimizerState`. `x` and `fun` are stored together as they are
always assigned together (optimize/ga.py:534-535). `n_jev`, `n_hev` are never changed and
the message is reduced to the fact that one was recorded. -/
structure OptState (X K : Type*) where
  x : Option X := none
  fn : Option K := none
  n_fev : ℕ := 0
  n_iter : ℕ := 0
  success : Bool := true
  message : Option PyErr := none
  stage : Option Status := none

/-- Where the generator `evolver` (optimize/ga.py:380-390) is suspended. -/
inductive Phase
  | primed   -- at line 385: `_ = yield`
  | running  -- at line 386 or 390
  | dead     -- finished by an exception
  deriving DecidableEq

/-- The mutable attributes of a `GeneticAlgorithm` that the algorithm works on. -/
structure Ga (G X K : Type*) where
  genotypes : List G
  phenotypes : Option (List X) := none
  fitness : Option (List K) := none
  champion : Option (Genom G X K) := none
  state : OptState X K := {}
  status : Status := .initialized
  phase : Phase := .primed

section
variable {G X K : Type*} [LinearOrder K]

/-- What a subclass and the user provide: `decode` (abstract, optimize/ga.py:629-634), the
objective, the direction.  (`fnc` is a function that may raise; the symbolic branch of
`evaluate` is in `Model/Vectorised`.) -/
structure Problem (G X K : Type*) where
  decode : List G → Py (List X)
  fnc : X → Py K
  minimize : Bool

/-- optimize/ga.py:260-267, setter of `genotypes`. -/
def setGenotypes (s : Ga G X K) (gs : List G) : Ga G X K :=
  { s with genotypes := gs, phenotypes := none, fitness := none }

/-- optimize/ga.py:269-278 `phenotypes`. -/
def getPhenotypes (pb : Problem G X K) (s : Ga G X K) : Py (List X) × Ga G X K :=
  match s.phenotypes with
  | some xs => (.ok xs, s)
  | none =>
    match pb.decode s.genotypes with
    | .error e => (.error e, s)
    | .ok xs => (.ok xs, { s with phenotypes := some xs })

/-- optimize/ga.py:461-486 `evaluate` for given phenotypes; any exception of the objective
becomes a `RuntimeError`. -/
def evaluate (pb : Problem G X K) (s : Ga G X K) (xs : List X) : Py (List K) × Ga G X K :=
  match pyMap pb.fnc xs with
  | .error _ => (.error .runtime, s)
  | .ok ys => (.ok ys, { s with state := { s.state with n_fev := s.state.n_fev + xs.length } })

/-- optimize/ga.py:280-290 `fitness`. -/
def getFitness (pb : Problem G X K) (s : Ga G X K) : Py (List K) × Ga G X K :=
  match s.fitness with
  | some ys => (.ok ys, s)
  | none =>
    match getPhenotypes pb s with
    | (.error e, s) => (.error e, s)
    | (.ok xs, s) =>
      match evaluate pb s xs with
      | (.error e, s) => (.error e, s)
      | (.ok ys, s) => (.ok ys, { s with fitness := some ys })

/-- `np.argmax` / `np.argmin` of a nonempty list: the first index of an extreme value.
`better a b` is `a > b` or `a < b`. -/
def argBestAux (better : K → K → Bool) : (best : ℕ) → (bestVal : K) → (i : ℕ) → List K → ℕ
  | best, _, _, [] => best
  | best, v, i, y :: ys =>
    if better y v then argBestAux better i y (i + 1) ys else argBestAux better best v (i + 1) ys

/-- `np.argmax` / `np.argmin`; `ValueError` for an empty array. -/
def argBest (better : K → K → Bool) : List K → Py ℕ
  | [] => .error .value
  | y :: ys => .ok (argBestAux better 0 y 1 ys)

/-- The strict comparison in the direction of the optimization. -/
def betterThan (minimize : Bool) (a b : K) : Bool := if minimize then decide (a < b) else decide (a > b)

/-- optimize/ga.py:500-519 `best_candidate`. -/
def bestCandidate (pb : Problem G X K) (s : Ga G X K) : Py (Genom G X K) × Ga G X K :=
  match getFitness pb s with
  | (.error e, s) => (.error e, s)
  | (.ok ys, s) =>
    match argBest (betterThan pb.minimize) ys with
    | .error e => (.error e, s)
    | .ok i =>
      match getPhenotypes pb s with
      | (.error e, s) => (.error e, s)
      | (.ok xs, s) =>
        match pyGet xs i, pyGet s.genotypes i, pyGet ys i with
        | .ok x, .ok g, .ok y =>
          (.ok { phenotype := x, genotype := g, fitness := y, age := 0, index := i }, s)
        | _, _, _ => (.error .index, s)

/-- optimize/ga.py:521-536 `_celebrate`. -/
def celebrate (minimize : Bool) (s : Ga G X K) (genom : Genom G X K) : Ga G X K :=
  let champ : Genom G X K :=
    match s.champion with
    | none => { genom with age := 0 }
    | some c =>
      if betterThan minimize genom.fitness c.fitness then { genom with age := 0 } else c
  { s with
    champion := some { champ with age := champ.age + 1 }
    state := { s.state with x := some champ.phenotype, fn := some champ.fitness } }

/-- `next(self._evolver)` (optimize/ga.py:380-390): nothing at the first call, afterwards
`select` + `populate`, which the subclass and its random draws provide as `breed`. An
exception inside the generator finishes it; a finished generator raises `StopIteration`. -/
def nextEvolver (pb : Problem G X K) (breed : List G → List K → Py (List G)) (s : Ga G X K) :
    Py Unit × Ga G X K :=
  match s.phase with
  | .primed => (.ok (), { s with phase := .running })
  | .dead => (.error .stopIteration, s)
  | .running =>
    match getFitness pb s with
    | (.error e, s) => (.error e, { s with phase := .dead })
    | (.ok ys, s) =>
      match breed s.genotypes ys with
      | .error e => (.error e, { s with phase := .dead })
      | .ok gs => (.ok (), setGenotypes s gs)

/-- optimize/ga.py:397-400: one cycle of `evolve`. -/
def evolve1 (pb : Problem G X K) (breed : List G → List K → Py (List G)) (s : Ga G X K) :
    Py Unit × Ga G X K :=
  match nextEvolver pb breed s with
  | (.error e, s) => (.error e, s)
  | (.ok (), s) =>
    match bestCandidate pb s with
    | (.error e, s) => (.error e, s)
    | (.ok c, s) => (.ok (), celebrate pb.minimize s c)

/-- optimize/ga.py:392-401 `evolve(n)`; `breeds i` is the behaviour of `select`+`populate` in
the i-th cycle. -/
def cycles (pb : Problem G X K) (breeds : ℕ → List G → List K → Py (List G)) :
    ℕ → Ga G X K → Py Unit × Ga G X K
  | 0, s => (.ok (), s)
  | n + 1, s =>
    match cycles pb breeds n s with
    | (.error e, s) => (.error e, s)
    | (.ok (), s) => evolve1 pb (breeds n) s

/-- What a user can do with an optimizer between two resets: a cycle of evolution, reading
`fitness` (280-290) or `phenotypes` (269-278), asking for `best_candidate()` (500-519). -/
inductive Op (G K : Type*)
  | evolve (breed : List G → List K → Py (List G))
  | readFitness
  | readPhenotypes
  | bestCandidate

/-- Effect of one operation. -/
def runOp (pb : Problem G X K) : Op G K → Ga G X K → Py Unit × Ga G X K
  | .evolve breed, s => evolve1 pb breed s
  | .readFitness, s =>
    match getFitness pb s with
    | (.error e, s) => (.error e, s)
    | (.ok _, s) => (.ok (), s)
  | .readPhenotypes, s =>
    match getPhenotypes pb s with
    | (.error e, s) => (.error e, s)
    | (.ok _, s) => (.ok (), s)
  | .bestCandidate, s =>
    match bestCandidate pb s with
    | (.error e, s) => (.error e, s)
    | (.ok _, s) => (.ok (), s)

/-- A history of operations; it ends at the first exception. -/
def runOps (pb : Problem G X K) : List (Op G K) → Ga G X K → Py Unit × Ga G X K
  | [], s => (.ok (), s)
  | o :: os, s =>
    match runOp pb o s with
    | (.error e, s) => (.error e, s)
    | (.ok (), s) => runOps pb os s

/-- optimize/ga.py:303-320 `reset`; `init` is the result of `populate()`. If it raises, the
new generator is finished and nothing else is changed. -/
def reset (init : Py (List G)) (s : Ga G X K) : Py Unit × Ga G X K :=
  match init with
  | .error e => (.error e, { s with phase := .dead })
  | .ok gs =>
    (.ok (), { setGenotypes s gs with
                champion := none, state := {}, status := .initialized, phase := .primed })

/-- optimize/ga.py:609-620, the default `stopping_criteria`. -/
def stoppingCriteria (maxage : ℤ) (s : Ga G X K) : Py Bool :=
  match s.champion with
  | none => .error .attribute
  | some c => .ok (decide ((c.age : ℤ) > maxage))

/-- One pass of the loop of `solve` (optimize/ga.py:434-441) together with the decision
after the loop (443-450). `breed` is the behaviour of `select`+`populate` in this pass,
`stop` the (overridable) stopping criterion. `none` = go on. -/
def solvePass (pb : Problem G X K) (maxiter miniter : ℤ)
    (breed : List G → List K → Py (List G)) (stop : Ga G X K → Py Bool) (s : Ga G X K) :
    Py (Option Status) × Ga G X K :=
  match evolve1 pb breed s with
  | (.error e, s) => (.error e, s)
  | (.ok (), s) =>
    let s := { s with state := { s.state with n_iter := s.state.n_iter + 1 } }
    let minReached : Bool := decide ((s.state.n_iter : ℤ) ≥ miniter)
    let maxReached : Bool := decide ((s.state.n_iter : ℤ) ≥ maxiter)
    match stop s with
    | .error e => (.error e, s)
    | .ok b =>
      if (b || maxReached) && minReached then
        -- lines 444-447; `stop` is consulted again, with the same result
        (.ok (some (if maxReached then .maxIterationsReached
                    else if b then .converged else s.status)), s)
      else (.ok none, s)

/-- The loop of `solve` (optimize/ga.py:434-450), fuelled; `none` = still running.
`breeds i` belongs to the i-th pass. -/
def solveLoop (pb : Problem G X K) (maxiter miniter : ℤ)
    (breeds : ℕ → List G → List K → Py (List G)) (stop : Ga G X K → Py Bool) :
    (fuel : ℕ) → (i : ℕ) → Ga G X K → Option (Py Status × Ga G X K)
  | 0, _, _ => none
  | fuel + 1, i, s =>
    match solvePass pb maxiter miniter (breeds i) stop s with
    | (.error e, s) => some (.error e, s)
    | (.ok (some st), s) => some (.ok st, s)
    | (.ok none, s) => solveLoop pb maxiter miniter breeds stop fuel (i + 1) s

/-- optimize/ga.py:430-459: `solve` after `reset` (unless recycling) and
`set_solution_params`: the guarded loop with its `except` and `finally` clauses. -/
def solveBody (pb : Problem G X K) (maxiter miniter : ℤ)
    (breeds : ℕ → List G → List K → Py (List G)) (stop : Ga G X K → Py Bool)
    (fuel : ℕ) (s : Ga G X K) : Option (Py Unit × Ga G X K) :=
  let s := { s with status := .initialized }
  match solveLoop pb maxiter miniter breeds stop fuel 0 s with
  | none => none
  | some (.ok st, s) =>
    some (.ok (), { s with status := st,
                           state := { s.state with success := true, stage := some st } })
  | some (.error e, s) =>
    some (.error e, { s with status := .error,
                             state := { s.state with success := false, message := some e,
                                                     stage := some .error } })

/-- optimize/ga.py:403-459 `solve`. `params` is the outcome of `set_solution_params` (428);
an exception of `reset` or of it propagates before the guarded part. -/
def solve (pb : Problem G X K) (recycle : Bool) (init : Py (List G))
    (params : Py (ℤ × ℤ)) (breeds : ℕ → List G → List K → Py (List G))
    (stop : Ga G X K → Py Bool) (fuel : ℕ) (s : Ga G X K) : Option (Py Unit × Ga G X K) :=
  match (if recycle then (.ok (), s) else reset init s) with
  | (.error e, s) => some (.error e, s)
  | (.ok (), s) =>
    match params with
    | .error e => some (.error e, s)
    | .ok (maxiter, miniter) => solveBody pb maxiter miniter breeds stop fuel s

end

/-- optimize/ga.py:538-574 `divide`. `argsort` is NumPy's (see `IsArgsort`); slicing an
array with a float raises `TypeError`. The product of `nPop` and a fraction is exact here (see
`EliteShare.divideShare` for floats); negative fractions, which `set_solution_params` rejects, are not
modelled. -/
def divide {K : Type*} (argsort : List K → List ℕ) (nPop : ℕ) (elitism : Elitism)
    (minimize : Bool) (fitness : List K) : Py (List ℕ × List ℕ) :=
  let a := argsort fitness
  let a := if minimize then a else a.reverse
  match elitism with
  | .none => .ok ([], List.range nPop)
  | .int k =>
    if k < 1 then .ok (a.take ((nPop : ℤ) * k).toNat, a.drop ((nPop : ℤ) * k).toNat)
    else .ok (a.take k.toNat, a.drop k.toNat)
  | .float q =>
    if q < 1 then .ok (a.take ⌊(nPop : ℚ) * q⌋.toNat, a.drop ⌊(nPop : ℚ) * q⌋.toNat)
    else .error .type

/-- The contract of `np.argsort`: a permutation of the positions that sorts the values
(nothing is assumed about ties: the default sort is not stable). -/
def IsArgsort {K : Type*} [LinearOrder K] (argsort : List K → List ℕ) : Prop :=
  ∀ l : List K, (argsort l).Perm (List.range l.length) ∧
    ((argsort l).map (fun i => l[i]?)).Pairwise (fun a b => ∀ x ∈ a, ∀ y ∈ b, x ≤ y)

/-- optimize/ga.py:600-607, the loop of `random_parents_generator`; `pool` is the Boolean
array, `draw i w` the i-th `np.random.choice(w, 2, replace=False)` (`ValueError` if fewer
than two remain). Fuelled; `none` = still running. The yielded pairs are collected. -/
def pairLoop (draw : ℕ → List ℕ → ℕ × ℕ) :
    (fuel : ℕ) → (i : ℕ) → (nPool : ℕ) → (pool : List Bool) → Option (Py (List (ℕ × ℕ)))
  | 0, _, _, _ => none
  | fuel + 1, i, nPool, pool =>
    if nPool > 2 then
      let w := (List.range pool.length).filter (fun j => pool[j]?.getD false)
      let nPool := w.length
      if w.length < 2 then some (.error .value)
      else
        let pair := draw i w
        let pool := (pool.set pair.1 false).set pair.2 false
        match pairLoop draw fuel (i + 1) nPool pool with
        | some (.ok ps) => some (.ok (pair :: ps))
        | r => r
    else some (.ok [])

/-- optimize/ga.py:576-607 `random_parents_generator`, the positions of the pairs. As the
pairs do not depend on what the consumer does, the lazy generator is the list of them. -/
def parentPositions (draw : ℕ → List ℕ → ℕ × ℕ) (fuel n : ℕ) : Option (Py (List (ℕ × ℕ))) :=
  if n % 2 ≠ 0 then some (.error .assertion)
  else pairLoop draw fuel 0 n (List.replicate n true)

/-- The contract of `np.random.choice(w, 2, replace=False)`. -/
def IsPairChoice (f : List ℕ → ℕ × ℕ) : Prop :=
  ∀ w : List ℕ, w.Nodup → 2 ≤ w.length → (f w).1 ∈ w ∧ (f w).2 ∈ w ∧ (f w).1 ≠ (f w).2

end Verif.GA
