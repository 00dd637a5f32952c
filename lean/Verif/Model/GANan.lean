import Verif.Model.BGA
import Mathlib.Order.WithBot

/-!
# Undefined objective values in `optimize/ga.py` and `optimize/bga.py`

`Model/GA.lean` takes objective values from a linear order.  Here an objective may also return `nan`.
Values are elements of `WithTop K`, and `⊤` **is `nan`**: NumPy sorts `nan` behind everything else, so
that the order of `WithTop K` is the order of `np.argsort`.  Comparisons and `np.argmax`/`np.argmin`
follow IEEE 754 and are defined here.  (`inf` and `-inf` are ordinary members of `K`.)  Everything that
does not compare values - the cached phenotypes and values, the generator, the recombination - is
taken over from `Model/GA.lean` and `Model/BGA.lean`.
-/

namespace Verif.GANan
open Verif Verif.GA

section
variable {G X K : Type*} [LinearOrder K]

/-- `a < b` for floats: false if one of them is `nan`. -/
def ltF : WithTop K → WithTop K → Bool
  | some a, some b => decide (a < b)
  | _, _ => false

/-- `a <= b` for floats: false if one of them is `nan`. -/
def leF : WithTop K → WithTop K → Bool
  | some a, some b => decide (a ≤ b)
  | _, _ => false

/-- The loop of `np.argmax` / `np.argmin` for floats: a value takes the lead if it is *not* `<=` (`>=`)
the leading one, and the search ends at the first `nan`. -/
def argAux (minimize : Bool) : (best : ℕ) → (bestVal : WithTop K) → (i : ℕ) → List (WithTop K) → ℕ
  | best, none, _, _ => best
  | best, some _, _, [] => best
  | best, some v, i, y :: ys =>
    if (if minimize then leF (some v) y else leF y (some v)) then
      argAux minimize best (some v) (i + 1) ys
    else argAux minimize i y (i + 1) ys

/-- `np.argmax` / `np.argmin`; `ValueError` for an empty array. -/
def argBest (minimize : Bool) : List (WithTop K) → Py ℕ
  | [] => .error .value
  | y :: ys => .ok (argAux minimize 0 y 1 ys)

/-- optimize/ga.py:500-519 `best_candidate` for float values. -/
def bestCandidate (pb : Problem G X (WithTop K)) (s : Ga G X (WithTop K)) :
    Py (Genom G X (WithTop K)) × Ga G X (WithTop K) :=
  match getFitness pb s with
  | (.error e, s) => (.error e, s)
  | (.ok ys, s) =>
    match argBest pb.minimize ys with
    | .error e => (.error e, s)
    | .ok i =>
      match getPhenotypes pb s with
      | (.error e, s) => (.error e, s)
      | (.ok xs, s) =>
        match pyGet xs i, pyGet s.genotypes i, pyGet ys i with
        | .ok x, .ok g, .ok y =>
          (.ok { phenotype := x, genotype := g, fitness := y, age := 0, index := i }, s)
        | _, _, _ => (.error .index, s)

/-- optimize/ga.py:376, 46-58: `_celebrate_op` on two genoms compares the values. -/
def replaces (minimize : Bool) (a b : WithTop K) : Bool := if minimize then ltF a b else ltF b a

/-- optimize/ga.py:521-536 `_celebrate` for float values. -/
def celebrate (minimize : Bool) (s : Ga G X (WithTop K)) (genom : Genom G X (WithTop K)) :
    Ga G X (WithTop K) :=
  let champ : Genom G X (WithTop K) :=
    match s.champion with
    | none => { genom with age := 0 }
    | some c =>
      if replaces minimize genom.fitness c.fitness then { genom with age := 0 } else c
  { s with
    champion := some { champ with age := champ.age + 1 }
    state := { s.state with x := some champ.phenotype, fn := some champ.fitness } }

/-- optimize/ga.py:397-400: one cycle of `evolve`. -/
def evolve1 (pb : Problem G X (WithTop K)) (breed : List G → List (WithTop K) → Py (List G))
    (s : Ga G X (WithTop K)) : Py Unit × Ga G X (WithTop K) :=
  match nextEvolver pb breed s with
  | (.error e, s) => (.error e, s)
  | (.ok (), s) =>
    match bestCandidate pb s with
    | (.error e, s) => (.error e, s)
    | (.ok c, s) => (.ok (), celebrate pb.minimize s c)

/-- optimize/ga.py:392-401 `evolve(n)`; `breeds i` is the behaviour of `select`+`populate` in the i-th
cycle. -/
def cycles (pb : Problem G X (WithTop K)) (breeds : ℕ → List G → List (WithTop K) → Py (List G)) :
    ℕ → Ga G X (WithTop K) → Py Unit × Ga G X (WithTop K)
  | 0, s => (.ok (), s)
  | n + 1, s =>
    match cycles pb breeds n s with
    | (.error e, s) => (.error e, s)
    | (.ok (), s) => evolve1 pb (breeds n) s

/-- optimize/ga.py:434-447: the loop of `solve` with the default stopping criterion (609-620), fuelled;
`none` = still running. -/
def solveLoop (pb : Problem G X (WithTop K)) (maxiter miniter maxage : ℤ)
    (breeds : ℕ → List G → List (WithTop K) → Py (List G)) :
    (fuel : ℕ) → (i : ℕ) → Ga G X (WithTop K) → Option (Py Status × Ga G X (WithTop K))
  | 0, _, _ => none
  | fuel + 1, i, s =>
    match evolve1 pb (breeds i) s with
    | (.error e, s) => some (.error e, s)
    | (.ok (), s) =>
      let s := { s with state := { s.state with n_iter := s.state.n_iter + 1 } }
      let minReached : Bool := decide ((s.state.n_iter : ℤ) ≥ miniter)
      let maxReached : Bool := decide ((s.state.n_iter : ℤ) ≥ maxiter)
      match stoppingCriteria maxage s with
      | .error e => some (.error e, s)
      | .ok b =>
        if (b || maxReached) && minReached then
          some (.ok (if maxReached then .maxIterationsReached
                     else if b then .converged else s.status), s)
        else solveLoop pb maxiter miniter maxage breeds fuel (i + 1) s

/-- optimize/ga.py:403-459 `solve` without `recycle`, after `set_solution_params` (428) accepted the
parameters; `init` is the result of `populate()`. -/
def solve (pb : Problem G X (WithTop K)) (init : Py (List G)) (maxiter miniter maxage : ℤ)
    (breeds : ℕ → List G → List (WithTop K) → Py (List G)) (fuel : ℕ) (s : Ga G X (WithTop K)) :
    Option (Py (Option (Genom G X (WithTop K))) × Ga G X (WithTop K)) :=
  match reset init s with
  | (.error e, s) => some (.error e, s)
  | (.ok (), s) =>
    match solveLoop pb maxiter miniter maxage breeds fuel 0 s with
    | none => none
    | some (.ok st, s) =>
      some (.ok s.champion, { s with
        status := st, state := { s.state with success := true, stage := some st } })
    | some (.error e, s) =>
      some (.error e, { s with
        status := .error
        state := { s.state with success := false, message := some e, stage := some .error } })

end

section
variable {K V : Type} [Field K] [LinearOrder K]

/-- bga.py: the optimization problem of a binary GA whose objective returns floats `V`; the generations
are made by `BGA.breed`. -/
def problem (cfg : BGA.Config K) (fnc : List K → Py (WithTop V)) :
    Problem (List ℤ) (List K) (WithTop V) where
  decode := BGA.decode cfg.nPop cfg.dim cfg.length cfg.ranges
  fnc := fnc
  minimize := cfg.minimize

end

end Verif.GANan
