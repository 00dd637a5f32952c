import Verif.Prelude
import Mathlib.Logic.Function.Basic

/-!
# Memory behind a genetic algorithm, `optimize/ga.py`

`ga.genotypes`, `ga.phenotypes` and `ga.fitness` hand out the arrays the optimizer works with, `ga.champion` and
`ga.state.x` objects and lists that it goes on using.  Here all of them have addresses, and programs may write to them.
-/

namespace Verif.GAMem
open Verif

/-- What a subclass and the objective function do.  `decode` and `evaluate` work member by member
(bga.py 112-127, ga.py 460-486; a function that raises is left out); `breed` is `populate(select())` with its random draws, `populate` the first population. -/
structure Problem (G X K D : Type) where
  dec : G → X
  f : X → K
  breed : D → List G → List K → Py (List G)
  populate : D → Py (List G)
  /-- `np.argmin` or `np.argmax` -/
  arg : List K → Py ℕ
  /-- `operator.lt` or `operator.gt` on the fitness of two genoms -/
  better : K → K → Bool

/-- ga.py 26-35 `Genom`: pydantic makes new lists from the rows of the arrays. -/
structure Genom (K : Type) where
  /-- address of the list `phenotype` -/
  x : ℕ
  /-- address of the list `genotype` -/
  g : ℕ
  fit : K
  age : ℕ

/-- The generator `evolver`, ga.py 380-390. -/
inductive Gen
  /-- before the first `yield self.genotypes` -/
  | fresh
  | running
  /-- an exception has left the generator -/
  | dead
  deriving DecidableEq

/-- Memory and the attributes of the optimizer. -/
structure St (G X K : Type) where
  /-- arrays of genotypes, phenotypes, fitness values -/
  gs : ℕ → List G
  xs : ℕ → List X
  ks : ℕ → List K
  /-- lists of genoms -/
  lx : ℕ → X
  lg : ℕ → G
  obj : ℕ → Genom K
  /-- the first address that is not in use -/
  next : ℕ
  genos : ℕ
  phenos : Option ℕ
  fit : Option ℕ
  champion : Option ℕ
  stX : Option ℕ
  stFun : Option K
  gen : Gen

variable {G X K D : Type}

/-- ga.py 260-267, the setter of `genotypes` with a new array. -/
def St.setNew (s : St G X K) (l : List G) : St G X K :=
  { s with gs := Function.update s.gs s.next l, genos := s.next, phenos := none, fit := none, next := s.next + 1 }

/-- ga.py 269-278 `phenotypes` -/
def St.phenotypes (pb : Problem G X K D) (s : St G X K) : St G X K × ℕ :=
  match s.phenos with
  | some r => (s, r)
  | none =>
    ({ s with xs := Function.update s.xs s.next ((s.gs s.genos).map pb.dec), phenos := some s.next, next := s.next + 1 },
      s.next)

/-- ga.py 280-290 `fitness` -/
def St.fitness (pb : Problem G X K D) (s : St G X K) : St G X K × ℕ :=
  match s.fit with
  | some r => (s, r)
  | none =>
    let (s, r) := s.phenotypes pb
    ({ s with ks := Function.update s.ks s.next ((s.xs r).map pb.f), fit := some s.next, next := s.next + 1 }, s.next)

/-- A new genom. -/
def St.newGenom (s : St G X K) (x : X) (g : G) (k : K) : St G X K × ℕ :=
  ({ s with
      lx := Function.update s.lx s.next x
      lg := Function.update s.lg s.next g
      obj := Function.update s.obj s.next ⟨s.next, s.next, k, 0⟩
      next := s.next + 1 },
    s.next)

/-- ga.py 500-519 `best_candidate` -/
def St.bestCandidate (pb : Problem G X K D) (s : St G X K) : St G X K × Py ℕ :=
  let (s, r) := s.fitness pb
  match pb.arg (s.ks r) with
  | .error e => (s, .error e)
  | .ok i =>
    let (s, q) := s.phenotypes pb
    match (s.xs q)[i]?, (s.gs s.genos)[i]?, (s.ks r)[i]? with
    | some x, some g, some k =>
      let (s, o) := s.newGenom x g k
      (s, .ok o)
    | _, _, _ => (s, .error .index)

/-- ga.py 526-533: who is the champion after the celebration of `o`. -/
def St.winner (pb : Problem G X K D) (s : St G X K) (o : ℕ) : ℕ :=
  match s.champion with
  | none => o
  | some c => if pb.better (s.obj o).fit (s.obj c).fit then o else c

/-- ga.py 527-536: the champion and the state; the age starts again for a new champion. -/
def St.crown (s : St G X K) (o c : ℕ) : St G X K :=
  { s with
    champion := some c
    stX := some (s.obj c).x
    stFun := some (s.obj c).fit
    obj := Function.update s.obj c { s.obj c with age := (if c = o then 0 else (s.obj c).age) + 1 } }

/-- ga.py 521-536 `_celebrate` -/
def St.celebrate (pb : Problem G X K D) (s : St G X K) (o : ℕ) : St G X K := s.crown o (s.winner pb o)

/-- `next(self._evolver)`, ga.py 380-390 -/
def St.advance (pb : Problem G X K D) (d : D) (s : St G X K) : St G X K × Py Unit :=
  match s.gen with
  | .dead => (s, .error .stopIteration)
  | .fresh => ({ s with gen := .running }, .ok ())
  | .running =>
    let (s, r) := s.fitness pb
    match pb.breed d (s.gs s.genos) (s.ks r) with
    | .error e => ({ s with gen := .dead }, .error e)
    | .ok l => (s.setNew l, .ok ())

/-- One cycle of `evolve`, ga.py 392-401 -/
def St.evolve (pb : Problem G X K D) (d : D) (s : St G X K) : St G X K × Py Unit :=
  match s.advance pb d with
  | (s, .error e) => (s, .error e)
  | (s, .ok ()) =>
    match s.bestCandidate pb with
    | (s, .error e) => (s, .error e)
    | (s, .ok o) => (s.celebrate pb o, .ok ())

/-- `reset`, ga.py 303-320: `send(None)` runs the new generator up to its first `yield`. -/
def St.reset (pb : Problem G X K D) (d : D) (s : St G X K) : St G X K × Py Unit :=
  match pb.populate d with
  | .error e => ({ s with gen := .dead }, .error e)
  | .ok l => ({ s.setNew l with champion := none, stX := none, stFun := none, gen := .fresh }, .ok ())

/-- Statements of a program that uses an optimizer. -/
inductive Op (G X K D : Type)
  /-- `ga.reset()` -/
  | reset (d : D)
  /-- `ga.evolve()` -/
  | evolve (d : D)
  /-- `A = np.array(...)`, genotypes -/
  | array (l : List G)
  /-- `ga.genotypes = A` -/
  | assign (r : ℕ)
  /-- `ga.phenotypes` -/
  | phenotypes
  /-- `ga.fitness` -/
  | fitness
  /-- `ga.best_candidate()` -/
  | best
  /-- `A[i] = g` for an array of genotypes, for example `ga.genotypes[i] = g` -/
  | writeG (r i : ℕ) (g : G)
  /-- `A[i] = x` for an array of phenotypes -/
  | writeX (r i : ℕ) (x : X)
  /-- `A[i] = k` for an array of fitness values -/
  | writeK (r i : ℕ) (k : K)
  /-- entries of a list of phenotypes of a genom are replaced, for example `ga.state.x[:] = x` -/
  | editX (a : ℕ) (x : X)
  /-- `genom.genotype[:] = g` -/
  | editG (a : ℕ) (g : G)
  /-- `genom.fitness = k` -/
  | setFit (o : ℕ) (k : K)

/-- What a statement gives: the address of an array or a genom, or nothing. -/
inductive Out
  | nothing
  | addr (r : ℕ)

/-- Running a statement. -/
def Op.run (pb : Problem G X K D) (s : St G X K) : Op G X K D → St G X K × Py Out
  | .reset d => let (s, e) := s.reset pb d; (s, e.map fun _ => .nothing)
  | .evolve d => let (s, e) := s.evolve pb d; (s, e.map fun _ => .nothing)
  | .array l => ({ s with gs := Function.update s.gs s.next l, next := s.next + 1 }, .ok (.addr s.next))
  | .assign r =>
    if r < s.next then ({ s with genos := r, phenos := none, fit := none }, .ok .nothing) else (s, .error .generic)
  | .phenotypes => let (s, r) := s.phenotypes pb; (s, .ok (.addr r))
  | .fitness => let (s, r) := s.fitness pb; (s, .ok (.addr r))
  | .best => let (s, o) := s.bestCandidate pb; (s, o.map .addr)
  | .writeG r i g =>
    if i < (s.gs r).length then ({ s with gs := Function.update s.gs r ((s.gs r).set i g) }, .ok .nothing)
    else (s, .error .index)
  | .writeX r i x =>
    if i < (s.xs r).length then ({ s with xs := Function.update s.xs r ((s.xs r).set i x) }, .ok .nothing)
    else (s, .error .index)
  | .writeK r i k =>
    if i < (s.ks r).length then ({ s with ks := Function.update s.ks r ((s.ks r).set i k) }, .ok .nothing)
    else (s, .error .index)
  | .editX a x => ({ s with lx := Function.update s.lx a x }, .ok .nothing)
  | .editG a g => ({ s with lg := Function.update s.lg a g }, .ok .nothing)
  | .setFit o k => ({ s with obj := Function.update s.obj o { s.obj o with fit := k } }, .ok .nothing)

/-- Running a program that catches the exceptions of its statements. -/
def runAll (pb : Problem G X K D) (s : St G X K) : List (Op G X K D) → St G X K
  | [] => s
  | o :: os => runAll pb (o.run pb s).1 os

/-- A new optimizer: `__init__` ends with `reset` (ga.py 232); `m` is the memory before. -/
def make (pb : Problem G X K D) (d : D) (m : St G X K) : Py (St G X K) :=
  match St.reset pb d m with
  | (s, .ok ()) => .ok s
  | (_, .error e) => .error e

end Verif.GAMem
