import Verif.Model.GAObject

/-!
# Symbolic functions called with many points at once, and as objectives of a genetic algorithm

`function/symutils.py` 45-58 makes NumPy code from an expression; `optimize/ga.py` 476-479 calls that code once with
all points of the population, `self.fnc(phenotypes.T)`, instead of once per point.

Numbers are of any type and the operations of the code are any functions on them (floating point operations with
`inf` and `nan` included).  NumPy applies the same operation to a number and to the entries of an array.  Simplified:
operations with more than two arguments (`select` of piecewise expressions, for example) are left out.
-/

namespace Verif.Vec

/-- The meaning of the operations of the generated code. -/
structure Ops (U B K : Type) where
  un : U → K → K
  bin : B → K → K → K

/-- Expressions as they are after `expr.simplify()`, `function/symutils.py` 46-48: numbers, symbols, operations with one
and with two arguments. -/
inductive Ex (U B K : Type)
  | num (c : K)
  | var (x : String)
  | un (u : U) (a : Ex U B K)
  | bin (b : B) (a a' : Ex U B K)

/-- What NumPy code computes with: a number or a one dimensional array. -/
inductive Val (K : Type)
  | scalar (c : K)
  | array (l : List K)
  deriving DecidableEq

section
variable {U B K : Type}

/-- A function of one argument applied by NumPy. -/
def Val.un (f : K → K) : Val K → Val K
  | .scalar c => .scalar (f c)
  | .array l => .array (l.map f)

/-- A function of two arguments applied by NumPy with its rules of broadcasting: numbers and arrays of length one fit to
any array, otherwise the lengths have to agree. -/
def Val.bin (f : K → K → K) : Val K → Val K → Py (Val K)
  | .scalar a, .scalar b => .ok (.scalar (f a b))
  | .scalar a, .array m => .ok (.array (m.map (f a)))
  | .array l, .scalar b => .ok (.array (l.map (fun a => f a b)))
  | .array l, .array m =>
    if l.length = m.length then .ok (.array (List.zipWith f l m))
    else match l, m with
      | [a], m => .ok (.array (m.map (f a)))
      | l, [b] => .ok (.array (l.map (fun a => f a b)))
      | _, _ => .error .value

/-- The body of the generated code; a name that is no parameter is a `NameError`. -/
def Ex.eval (o : Ops U B K) (ρ : List (String × Val K)) : Ex U B K → Py (Val K)
  | .num c => .ok (.scalar c)
  | .var x =>
    match ρ.find? fun p => p.1 == x with
    | some p => .ok p.2
    | none => .error .generic
  | .un u a =>
    match a.eval o ρ with
    | .ok v => .ok (v.un (o.un u))
    | .error e => .error e
  | .bin b a a' =>
    match a.eval o ρ with
    | .error e => .error e
    | .ok v =>
      match a'.eval o ρ with
      | .error e => .error e
      | .ok w => Val.bin (o.bin b) v w

/-- `expr.free_symbols`, with repetitions -/
def Ex.free : Ex U B K → List String
  | .num _ => []
  | .var x => [x]
  | .un _ a => a.free
  | .bin _ a a' => a.free ++ a'.free

/-- A symbolic `Function`, `function/symutils.py` 45-58: the expression of the value, those of the gradient (whatever
`derive_by_array` makes) and the variables. -/
structure Fn (U B K : Type) where
  expr : Ex U B K
  grad : List (Ex U B K)
  vars : List String

/-- A call of `lambdify([variables], e, "numpy")`: the argument is unpacked into the variables. -/
def lambda (o : Ops U B K) (vars : List String) (e : Ex U B K) (xs : List (Val K)) : Py (Val K) :=
  if xs.length ≠ vars.length then .error .value else e.eval o (vars.zip xs)

/-- `f(X)`: `function/metafunction.py` 28-41. The rows of an array `X` are the values of the variables. -/
def Fn.call (o : Ops U B K) (f : Fn U B K) (xs : List (Val K)) : Py (Val K) := lambda o f.vars f.expr xs

/-- `f.g(X)`: `function/metafunction.py` 43-54; the generated code returns a list with one value for each variable. -/
def Fn.gradient (o : Ops U B K) (f : Fn U B K) (xs : List (Val K)) : Py (List (Val K)) :=
  if xs.length ≠ f.vars.length then .error .value else pyMap (fun e => e.eval o (f.vars.zip xs)) f.grad

/-- `P.T` for an array of points with `d` coordinates: the i-th row has the i-th coordinates of all points. -/
def transpose [Inhabited K] (d : ℕ) (ps : List (List K)) : List (List K) :=
  (List.range d).map fun i => ps.map fun p => p.getD i default

/-- What a user gives as objective: a plain callable, an object with an attribute `dimension` that is not
symbolic (a `Function` made from callables; `dimension` is `None` unless one of `d`, `dim`, `dimension` was given), or a
symbolic `Function`. -/
inductive Objective (U B K : Type)
  | plain (f : List K → Py K)
  | object (f : List K → Py K) (dimension : Option ℕ)
  | symbolic (o : Ops U B K) (f : Fn U B K)

/-- optimize/ga.py 199: `getattr(fnc, "dimension", self.ranges.shape[0])`; a symbolic function has as many dimensions as
variables (`function/symutils.py` 57). -/
def Objective.dim (rows : ℕ) : Objective U B K → Option ℕ
  | .plain _ => some rows
  | .object _ d => d
  | .symbolic _ f => some f.vars.length

/-- optimize/ga.py 475-486 `evaluate`: what is stored as the fitness of a population; `width` is the number of
coordinates of the phenotypes. Every exception becomes a `RuntimeError`. -/
def Objective.evaluate [Inhabited K] (width : ℕ) (ps : List (List K)) : Objective U B K → Py (Val K)
  | .plain f | .object f _ =>
    match pyMap f ps with
    | .ok ys => .ok (.array ys)
    | .error _ => .error .runtime
  | .symbolic o f =>
    match f.call o ((transpose width ps).map .array) with
    | .ok v => .ok v
    | .error _ => .error .runtime

/-- The value of an objective at one point: what `fnc(x)` gives. -/
def Objective.at (p : List K) : Objective U B K → Py K
  | .plain f | .object f _ => f p
  | .symbolic o f =>
    match f.call o (p.map .scalar) with
    | .ok (.scalar c) => .ok c
    | .ok (.array _) => .error .type
    | .error e => .error e

end

/-! ### An optimizer that works with what `evaluate` gives -/

open Verif.GA (Genom OptState Status Phase argBest betterThan)

/-- The attributes of `GeneticAlgorithm` as in `Model/GA`, but `_fitness` may be a number instead of an array. -/
structure St (G K : Type) where
  genotypes : List G
  phenotypes : Option (List (List K)) := none
  fitness : Option (Val K) := none
  champion : Option (Genom G (List K) K) := none
  state : OptState (List K) K := {}
  status : Status := .initialized
  phase : Phase := .primed

/-- Subclass, objective, direction, number of coordinates. -/
structure Problem (U B G K : Type) where
  decode : List G → Py (List (List K))
  obj : Objective U B K
  minimize : Bool
  width : ℕ

section
variable {U B G K : Type} [LinearOrder K] [Inhabited K]

/-- optimize/ga.py:269-278 `phenotypes`. -/
def getPhenotypes (pb : Problem U B G K) (s : St G K) : Py (List (List K)) × St G K :=
  match s.phenotypes with
  | some xs => (.ok xs, s)
  | none =>
    match pb.decode s.genotypes with
    | .error e => (.error e, s)
    | .ok xs => (.ok xs, { s with phenotypes := some xs })

/-- optimize/ga.py:280-290 `fitness`, with 480: `len(phenotypes)` evaluations are counted. -/
def getFitness (pb : Problem U B G K) (s : St G K) : Py (Val K) × St G K :=
  match s.fitness with
  | some ys => (.ok ys, s)
  | none =>
    match getPhenotypes pb s with
    | (.error e, s) => (.error e, s)
    | (.ok xs, s) =>
      match pb.obj.evaluate pb.width xs with
      | .error e => (.error e, s)
      | .ok v =>
        (.ok v, { s with fitness := some v, state := { s.state with n_fev := s.state.n_fev + xs.length } })

/-- `np.argmax` / `np.argmin`; the answer for a number is 0. -/
def argBestV (better : K → K → Bool) : Val K → Py ℕ
  | .scalar _ => .ok 0
  | .array l => argBest better l

/-- `fitness[index]`; a number has no entries. -/
def Val.get (v : Val K) (i : ℕ) : Py K :=
  match v with
  | .scalar _ => .error .type
  | .array l => pyGet l i

/-- optimize/ga.py:500-519 `best_candidate`; the arguments of `Genom` are evaluated in the order phenotype, genotype,
fitness. -/
def bestCandidate (pb : Problem U B G K) (s : St G K) : Py (Genom G (List K) K) × St G K :=
  match getFitness pb s with
  | (.error e, s) => (.error e, s)
  | (.ok v, s) =>
    match argBestV (betterThan pb.minimize) v with
    | .error e => (.error e, s)
    | .ok i =>
      match getPhenotypes pb s with
      | (.error e, s) => (.error e, s)
      | (.ok xs, s) =>
        match pyGet xs i with
        | .error e => (.error e, s)
        | .ok x =>
          match pyGet s.genotypes i with
          | .error e => (.error e, s)
          | .ok g =>
            match v.get i with
            | .error e => (.error e, s)
            | .ok y => (.ok { phenotype := x, genotype := g, fitness := y, age := 0, index := i }, s)

/-- optimize/ga.py:521-536 `_celebrate`. -/
def celebrate (minimize : Bool) (s : St G K) (genom : Genom G (List K) K) : St G K :=
  let champ : Genom G (List K) K :=
    match s.champion with
    | none => { genom with age := 0 }
    | some c =>
      if betterThan minimize genom.fitness c.fitness then { genom with age := 0 } else c
  { s with
    champion := some { champ with age := champ.age + 1 }
    state := { s.state with x := some champ.phenotype, fn := some champ.fitness } }

/-- `next(self._evolver)`, optimize/ga.py:380-390; `breed` is `select` and `populate`. -/
def nextEvolver (pb : Problem U B G K) (breed : List G → Val K → Py (List G)) (s : St G K) : Py Unit × St G K :=
  match s.phase with
  | .primed => (.ok (), { s with phase := .running })
  | .dead => (.error .stopIteration, s)
  | .running =>
    match getFitness pb s with
    | (.error e, s) => (.error e, { s with phase := .dead })
    | (.ok v, s) =>
      match breed s.genotypes v with
      | .error e => (.error e, { s with phase := .dead })
      | .ok gs => (.ok (), { s with genotypes := gs, phenotypes := none, fitness := none })

/-- optimize/ga.py:397-400: one cycle of `evolve`. -/
def evolve1 (pb : Problem U B G K) (breed : List G → Val K → Py (List G)) (s : St G K) : Py Unit × St G K :=
  match nextEvolver pb breed s with
  | (.error e, s) => (.error e, s)
  | (.ok (), s) =>
    match bestCandidate pb s with
    | (.error e, s) => (.error e, s)
    | (.ok c, s) => (.ok (), celebrate pb.minimize s c)

/-- optimize/ga.py:392-401 `evolve`; `breeds i` belongs to the i-th cycle. -/
def cycles (pb : Problem U B G K) (breeds : ℕ → List G → Val K → Py (List G)) : ℕ → St G K → Py Unit × St G K
  | 0, s => (.ok (), s)
  | n + 1, s =>
    match cycles pb breeds n s with
    | (.error e, s) => (.error e, s)
    | (.ok (), s) => evolve1 pb (breeds n) s

/-- The state after `reset()`, optimize/ga.py:303-320, with the drawn population. -/
def fresh (gs : List G) : St G K := { genotypes := gs }

end

/-! ### The binary genetic algorithm with an objective of any kind -/

section
variable {U B K : Type} [Field K] [LinearOrder K]

/-- bga.py:112-127 `decode` for any number of rows in `ranges`: line 118 reads the first `dim` rows. -/
def decodeRows (nPop dim length : ℕ) (ranges : List (K × K)) (gs : List (List ℤ)) : Py (List (List K)) :=
  if gs.flatten.length ≠ nPop * dim * length then .error .value
  else if ranges.length < dim then .error .index
  else BGA.decode nPop dim length ranges gs

/-- The binary GA for an objective: `self.dim` (optimize/ga.py 199) comes from the objective, a `dim` that is `None`
raises `TypeError` in `self.dim * self.length` (bga.py 92). -/
def subclassFor (argsort : List K → List ℕ) (length : ℕ) (ranges : List (K × K)) (obj : Objective U B K) :
    GA.Subclass (List ℤ) (List K) K (BGA.Draws K) :=
  match obj.dim ranges.length with
  | none => ⟨fun _ _ _ => .error .type, fun _ _ => .error .type, fun _ _ _ _ _ => .error .type⟩
  | some d => { BGA.subclass argsort d length ranges with decode := fun n gs => decodeRows n.toNat d length ranges gs }

end

end Verif.Vec
