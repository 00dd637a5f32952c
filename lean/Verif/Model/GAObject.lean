import Verif.Model.BGA

/-!
# Model of a `GeneticAlgorithm` object: constructor and `solve` as a whole

`Model/GA.lean` models the methods one by one.  Here they are put together: an optimizer is
its settings (`Solver`) plus the data of the run (`Ga`); the constructor and `solve` work on
both.  What a subclass overrides (`populate`, `decode`, `select`) is a `Subclass`, whose
methods read the population size and the parameters in force when they are called, and the
random draws `D` of the call.
-/

namespace Verif.GA

/-- The abstract methods of `GeneticAlgorithm` (optimize/ga.py:629-664) as used by
`evolver` (380-390) and `phenotypes` (269-278). -/
structure Subclass (G X K D : Type*) where
  /-- `populate()` -/
  populate : (nPop : ℤ) → Params K → D → Py (List G)
  /-- `decode(genotypes)` -/
  decode : (nPop : ℤ) → List G → Py (List X)
  /-- `populate(select())` for a population and its objective values -/
  breed : (nPop : ℤ) → Params K → D → List G → List K → Py (List G)

/-- An optimizer object. -/
structure Optimizer (G X K : Type*) where
  solver : Solver K
  run : Ga G X K

section
variable {G X K D : Type*} [LinearOrder K]

/-- The problem that the methods of an optimizer with these settings work on. -/
def problemOf (S : Subclass G X K D) (fnc : X → Py K) (sv : Solver K) : Problem G X K where
  decode := S.decode sv.nPop
  fnc := fnc
  minimize := sv.params.minimize

/-- optimize/ga.py:181-232 `__init__`: the population size, then `set_solution_params` with
all seven keywords (223-231), then `reset`. The attributes set to `None` before (212-222) are
all overwritten, except `_genotypes` and `_fitness` if `populate()` raises, and then there is
no object. -/
def construct (S : Subclass G X K D) (nPop : ℤ) (p : Params K) (d : D) :
    Py (Optimizer G X K) :=
  match normPop nPop with
  | .error e => .error e
  | .ok n =>
    match setSolutionParams ⟨n, p, false⟩
      { p_c := some p.p_c, p_m := some p.p_m, maxiter := some p.maxiter,
        miniter := some p.miniter, elitism := some p.elitism, maxage := some p.maxage,
        minimize := some p.minimize } with
    | (.error e, _) => .error e
    | (.ok (), sv) =>
      match reset (S.populate n sv.params d)
        ⟨[], none, none, none, {}, .initialized, .primed⟩ with
      | (.error e, _) => .error e
      | (.ok (), run) => .ok ⟨sv, run⟩

/-- optimize/ga.py:403-459 `solve`: `reset` with the parameters in force *before* the call
(426-427), then `set_solution_params` (428), then the loop with the parameters set by it; the
champion is returned. `d` is drawn by `reset`, `ds i` by the i-th pass. The stopping
criterion is the default one (609-620). `none` = still running. -/
def Optimizer.solve (S : Subclass G X K D) (fnc : X → Py K) (recycle : Bool) (kw : Kwargs K)
    (d : D) (ds : ℕ → D) (fuel : ℕ) (o : Optimizer G X K) :
    Option (Py (Option (Genom G X K)) × Optimizer G X K) :=
  match (if recycle then (.ok (), o.run)
      else reset (S.populate o.solver.nPop o.solver.params d) o.run) with
  | (.error e, run) => some (.error e, { o with run := run })
  | (.ok (), run) =>
    match setSolutionParams o.solver kw with
    | (.error e, sv) => some (.error e, ⟨sv, run⟩)
    | (.ok (), sv) =>
      match solveBody (problemOf S fnc sv) sv.params.maxiter sv.params.miniter
        (fun i => S.breed sv.nPop sv.params (ds i)) (stoppingCriteria sv.params.maxage)
        fuel run with
      | none => none
      | some (.error e, run) => some (.error e, ⟨sv, run⟩)
      | some (.ok (), run) => some (.ok run.champion, ⟨sv, run⟩)

/-- optimize/ga.py:521-536 `_celebrate` with the stored comparison `_celebrate_op` (376);
`celebrate` of `Model/GA.lean` is this with the comparison matching the direction. -/
def Optimizer.evolve (S : Subclass G X K D) (fnc : X → Py K) (d : D) (o : Optimizer G X K) :
    Py Unit × Optimizer G X K :=
  match nextEvolver (problemOf S fnc o.solver) (S.breed o.solver.nPop o.solver.params d)
    o.run with
  | (.error e, run) => (.error e, { o with run := run })
  | (.ok (), run) =>
    match bestCandidate (problemOf S fnc o.solver) run with
    | (.error e, run) => (.error e, { o with run := run })
    | (.ok c, run) => (.ok (), { o with run := celebrate o.solver.celebrateLt run c })

end

end Verif.GA

namespace Verif.BGA
open Verif Verif.GA

section
variable {K : Type} [Field K] [LinearOrder K]

/-- The draws of one call: the random array of the initial population (bga.py:92-93) and the
draws of the selection and recombination. -/
structure Draws (K : Type) where
  pool : ℕ → ℕ → List (List ℤ)
  cycle : CycleDraws K

/-- The settings that the methods of the binary GA read. -/
def configOf (dim length : ℕ) (ranges : List (K × K)) (nPop : ℤ) (p : Params K) : Config K where
  nPop := nPop.toNat
  dim := dim
  length := length
  ranges := ranges
  p_c := p.p_c
  p_m := p.p_m
  elitism := p.elitism
  minimize := p.minimize

/-- bga.py: the binary GA for `dim` variables with `length` bits each. -/
def subclass (argsort : List K → List ℕ) (dim length : ℕ) (ranges : List (K × K)) :
    Subclass (List ℤ) (List K) K (Draws K) where
  populate n p d :=
    initial (configOf dim length ranges n p) d.cycle (d.pool (n.toNat / 2) (dim * length))
  decode n gs := decode n.toNat dim length ranges gs
  breed n p d gs f := breed (configOf dim length ranges n p) argsort d.cycle gs f

end
end Verif.BGA
