import Verif.Model.LP

/-!
# Model of `LinearProgrammingProblem.solve` with options

`optimize/lp.py` 302-330.  The keyword arguments of `scipy.optimize.linprog` are fields of a record;
`linprog` itself is a parameter.
-/

namespace Verif.LPSolve
open Verif Verif.LP

/-- `bounds`: `None`, one pair for all variables, or a pair for each. -/
inductive Bounds (K : Type)
  | none
  | one (lo hi : Option K)
  | each (l : List (Option K × Option K))

/-- `integrality` as given by the user: one number for all variables, or a number for each. -/
inductive Integ
  | all (k : ℕ)
  | each (l : List ℕ)

/-- `method`: `"highs"` or another one. -/
inductive Method
  | highs
  | other (name : ℕ)
  deriving DecidableEq

/-- The arguments of one call of `linprog`.  `extras` are those that `_to_scipy` does not compute (`callback`,
`options`, `x0`), as (name, value). -/
structure Call (K O : Type) where
  c : List K
  Aub : Option (Mat K)
  bub : Option (List K)
  Aeq : Option (Mat K)
  beq : Option (List K)
  bounds : Bounds K
  integrality : Option (Integ ⊕ List ℕ)
  extras : List (ℕ × O)
  method : Method

/-- One item of `**kwargs` of `solve`.  `maximize` and `method` cannot be among them, since they are
parameters of `solve`. -/
inductive Kw (K O : Type)
  | Aub (v : Option (Mat K))
  | bub (v : Option (List K))
  | Aeq (v : Option (Mat K))
  | beq (v : Option (List K))
  | bounds (v : Bounds K)
  | integrality (v : Option Integ)
  | extra (name : ℕ) (v : O)
  /-- the name of the first parameter of `linprog` -/
  | c (v : List K)
  /-- a name that is no parameter of `linprog` -/
  | unknown (name : ℕ)

/-- The call would raise a `TypeError`: `c` is given twice, or the name is not known. -/
def Kw.clash {K O : Type} : Kw K O → Bool
  | .c _ => true
  | .unknown _ => true
  | _ => false

/-- `_kwargs.update(kwargs)`, line 325, one item at a time. -/
def Call.update {K O : Type} (a : Call K O) : Kw K O → Call K O
  | .Aub v => { a with Aub := v }
  | .bub v => { a with bub := v }
  | .Aeq v => { a with Aeq := v }
  | .beq v => { a with beq := v }
  | .bounds v => { a with bounds := v }
  | .integrality v => { a with integrality := v.map .inl }
  | .extra n v => { a with extras := a.extras ++ [(n, v)] }
  | .c _ => a
  | .unknown _ => a

/-- `OptimizeResult`, as far as it is used. -/
structure Res (K : Type) where
  status : ℕ
  success : Bool
  x : Option (List K)
  fun_ : Option K

section
variable {V K O : Type} [DecidableEq V] [Field K] [DecidableEq K]

/-- The dictionary returned by `_to_scipy`, lines 291-300. -/
def Call.ofArgs (a : ScipyArgs K Integ (Bounds K)) : Call K O where
  c := a.c
  Aub := a.ub.map Prod.fst
  bub := a.ub.map Prod.snd
  Aeq := a.eq.map Prod.fst
  beq := a.eq.map Prod.snd
  bounds := a.bounds
  integrality := a.integrality
  extras := []
  method := .highs

/-- `solve`, `optimize/lp.py` 302-330. -/
def solve (fl : K → K) (tiny : K) (isInteger : V → Option Bool) (linprog : Call K O → Py (Res K))
    (p : Problem V K Integ (Bounds K)) (maximize : Bool) (method : Method) (kwargs : List (Kw K O)) :
    Py (Res K) := do
  let args ← toScipy fl tiny isInteger p maximize                     -- line 324
  let call := kwargs.foldl Call.update (Call.ofArgs args)             -- line 325
  let call := { call with method := method }                          -- line 326
  if kwargs.any Kw.clash then .error .type
  else do
    let res ← linprog call                                            -- line 327
    if res.success then                                               -- lines 328-329
      match res.x with
      | some x => do
        let v ← p.obj.call x
        return { res with fun_ := some v }
      | none => .error .type
    else return res

end

end Verif.LPSolve
