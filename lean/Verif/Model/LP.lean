import Verif.Model.Relation
import Mathlib.Algebra.BigOperators.Group.List.Basic
import Mathlib.Algebra.Order.Field.Basic
import Mathlib.Data.List.Dedup

/-!
# Model of `optimize/lp.py`

A symbolic function is its list of variables and its expression as SymPy holds it after
`simplify()`: a sum of coefficients times monomials (a monomial is the list of its variables).
Numbers are those of an ordered field; the rounding of the one place where it matters (the shift
of a bound by the smallest float, lines 205, 263, 265, 277) is the parameter `fl`.
-/

namespace Verif.LP

open Verif.Rel (Relations Cls Attrs)

/-- A symbolic `Function`: `variables` and the terms of `expr`. -/
structure Func (V K : Type) where
  vars : List V
  terms : List (List V × K)

section
variable {V K : Type} [DecidableEq V] [Field K] [DecidableEq K]

/-- The value of the expression at a point. -/
def Func.eval (f : Func V K) (ρ : V → K) : K :=
  (f.terms.map fun t => t.2 * (t.1.map ρ).prod).sum

/-- Coefficient of a monomial: the sum over all terms with it. -/
def collectAt (terms : List (List V × K)) (m : List V) : K :=
  ((terms.filter fun t => t.1 = m).map Prod.snd).sum

/-- `expr.as_coefficients_dict()`: like terms collected, terms with coefficient zero gone. -/
def asCoefficientsDict (terms : List (List V × K)) : List (List V × K) :=
  ((terms.map Prod.fst).dedup.map fun m => (m, collectAt terms m)).filter fun t => t.2 ≠ 0

/-- `d[key]` of a dictionary (a list of items). -/
def dictGet (d : List (List V × K)) (k : List V) : Py K :=
  match d.find? fun t => t.1 = k with
  | some t => .ok t.2
  | none => .error .key

/-- The item of `e` with the key of `t`, or `t` itself. -/
def dictReplace (e : List (List V × K)) (t : List V × K) : List V × K :=
  match e.find? fun s => s.1 = t.1 with
  | some s => s
  | none => t

/-- `d.update(e)` -/
def dictUpdate (d e : List (List V × K)) : List (List V × K) :=
  d.map (dictReplace e) ++ e.filter fun s => (d.find? fun t => t.1 = s.1).isNone

/-- `Function.coefficients(normalize=True)`, `function/function.py` 286-322.  The
normalization (314-320) turns the constant term into the item of the key 1, which is the empty
monomial here. -/
def Func.coefficients (f : Func V K) : List (List V × K) :=
  dictUpdate (f.vars.map fun x => ([x], 0)) (asCoefficientsDict f.terms)

/-- `Function.linear_coefficients(normalize=True)`, `function/function.py` 261-284: the items
with at most one free symbol (so `x**2` stays, with a key of its own, and `x*y` goes). -/
def Func.linearCoefficients (f : Func V K) : List (List V × K) :=
  f.coefficients.filter fun t => t.1.dedup.length ≤ 1

/-- The value a parameter list gets from an argument list. -/
def point (vars : List V) (xs : List K) (x : V) : K :=
  ((vars.zip xs).find? fun p => p.1 = x).elim 0 Prod.snd

/-- `f(xs)`: `lambdify([variables], expr)` (`function/symutils.py` 50); `ValueError` for a wrong
number of values, `NameError` (`.generic`) for a symbol that is not among the variables. -/
def Func.call (f : Func V K) (xs : List K) : Py K :=
  if xs.length ≠ f.vars.length then .error .value
  else if ¬ (asCoefficientsDict f.terms).all fun t => t.1.all (· ∈ f.vars) then .error .generic
  else .ok (f.eval (point f.vars xs))

/-- A constraint: a `Relation`, `Equality` or `InEquality` with its expression. -/
structure Constraint (V K : Type) where
  rel : Attrs K
  fn : Func V K
  /-- `is_symbolic` -/
  symbolic : Bool

/-- An argument that may be of the wrong type. -/
inductive Arg (α : Type)
  | good (a : α)
  | bad

/-- `LinearProgrammingProblem` (the attributes set by `__init__`). `I` is the type of explicitly
given integrality arguments, `B` that of the bounds, which are passed on. -/
structure Problem (V K I B : Type) where
  obj : Func V K
  constraints : List (Constraint V K)
  vars : List V
  bounds : B
  integrality : Option I
  sparsify : Bool

/-- `LinearProgrammingProblem.__init__`, `optimize/lp.py` 128-179. The objective comes with its
`is_symbolic`. -/
def init {I B : Type} (obj : Arg (Func V K × Bool)) (constraints : List (Arg (Constraint V K)))
    (vars : Option (List (Arg V))) (bounds : B) (integrality : Option I) (sparsify : Bool) :
    Py (Problem V K I B) := do
  let vars ← (match vars with                                       -- lines 148-149
    | none => .error .value
    | some vs => .ok vs)
  let obj ← (match obj with                                         -- lines 151-158
    | .good (f, true) => .ok f
    | .good (_, false) => .error .value
    | .bad => .error .type)
  let cs ← pyMap (fun c => match c with                             -- lines 160-168
    | .good c => if c.symbolic then .ok c else .error .value
    | .bad => .error .type) constraints
  let used := obj.vars ++ (cs.map fun c => c.fn.vars).flatten       -- lines 156, 166, 170
  let vs ← pyMap (fun v => match v with                             -- lines 173-174
    | .good v => .ok v
    | .bad => .error .type) vars
  if ¬ vs.all (· ∈ used) then .error .value                         -- lines 176-177
  return ⟨obj, cs, vs, bounds, integrality, sparsify⟩

/-- A matrix handed to the solver: dense, or in coordinate format. -/
inductive Mat (K : Type)
  | dense (rows : List (List K))
  | sparse (data : List K) (rows cols : List ℕ) (shape : ℕ × ℕ)
  deriving DecidableEq

/-- Entry of a matrix; the entries of a sparse matrix at the same place are added up. -/
def Mat.entry : Mat K → ℕ → ℕ → K
  | .dense rows, i, j => (rows.getD i []).getD j 0
  | .sparse data rows cols _, i, j =>
      (((data.zip (rows.zip cols)).filter fun t => t.2.1 = i ∧ t.2.2 = j).map Prod.fst).sum

/-- Number of rows. -/
def Mat.nrows : Mat K → ℕ
  | .dense rows => rows.length
  | .sparse _ _ _ shape => shape.1

/-- One row of the dense path: `[coeffs[x_] * mult for x_ in self.variables]`,
`optimize/lp.py` 229 (`mult = 1`) and 275. -/
def denseRow (f : Func V K) (mult : K) (vars : List V) : Py (List K) :=
  pyMap (fun x => do
    let c ← dictGet f.linearCoefficients [x]
    return c * mult) vars

/-- One row of the sparse path, `optimize/lp.py` 222-227 and 268-273: the nonzero values with
their columns. -/
def sparseRow (f : Func V K) (mult : K) (vars : List V) : Py (List (K × ℕ)) := do
  let l ← pyMap (fun xj => do
    let c ← dictGet f.linearCoefficients [xj.1]
    return (c * mult, xj.2)) vars.zipIdx
  return l.filter fun t => t.1 ≠ 0

/-- The multipliers of an inequality, `optimize/lp.py` 254-265: for the matrix, for the right hand
side, and the shift of the right hand side.  An operator given as a callable (`op` is `None`)
falls through all the branches. -/
def multipliers (tiny : K) (op : Option Relations) : K × K × K :=
  match op with
  | some .ge => (-1, -1, 0)
  | some .gt => (-1, -1, -tiny)
  | some .lt => (1, 1, -tiny)
  | _ => (1, 1, 0)

/-- `value * mult + adj`; the addition of a nonzero `adj` is rounded. -/
def rhs (fl : K → K) (v mult adj : K) : K :=
  if adj = 0 then v * mult else fl (v * mult + adj)

/-- The system for a list of constraints with the given multipliers, dense or sparse:
lines 207-237 (with `mult = fun _ => (1, 1, 0)`) and 239-283 of `optimize/lp.py`. -/
def assemble (fl : K → K) (sparsify : Bool) (vars : List V)
    (mult : Constraint V K → K × K × K) (cs : List (Constraint V K)) :
    Py (Option (Mat K × List K)) :=
  if cs.length = 0 then .ok none                                     -- lines 207, 239
  else do
    let zeros := List.replicate vars.length (0 : K)
    if sparsify then
      let rows ← pyMap (fun ci => do
        let r ← sparseRow ci.1.fn (mult ci.1).1 vars
        let v ← ci.1.fn.call zeros
        return (r.map fun t => (t.1, ci.2, t.2), rhs fl (-v) (mult ci.1).2.1 (mult ci.1).2.2))
          cs.zipIdx
      let trip := (rows.map Prod.fst).flatten
      return some (.sparse (trip.map fun t => t.1) (trip.map fun t => t.2.1)
        (trip.map fun t => t.2.2) (cs.length, vars.length), rows.map Prod.snd)
    else
      let rows ← pyMap (fun c => do
        let r ← denseRow c.fn (mult c).1 vars
        let v ← c.fn.call zeros
        return (r, rhs fl (-v) (mult c).2.1 (mult c).2.2)) cs
      return some (.dense (rows.map Prod.fst), rows.map Prod.snd)

/-- What `_to_scipy` computes for `linprog`. -/
structure ScipyArgs (K I B : Type) where
  c : List K
  ub : Option (Mat K × List K)
  eq : Option (Mat K × List K)
  bounds : B
  /-- `integrality`: the given value, or computed flags, or `None` -/
  integrality : Option (I ⊕ List ℕ)

/-- `is_integer` is `None` for a symbol about which nothing was assumed: falsy. -/
def truthy (b : Option Bool) : Bool := b == some true

/-- `_to_scipy`, `optimize/lp.py` 188-300. `isInteger` is the attribute of the symbols. -/
def toScipy {I B : Type} (fl : K → K) (tiny : K) (isInteger : V → Option Bool)
    (p : Problem V K I B) (maximize : Bool) : Py (ScipyArgs K I B) := do
  let eqs := p.constraints.filter fun c => c.rel.cls = .equality
  let ieqs := p.constraints.filter fun c => c.rel.cls = .inequality
  let c ← pyMap (fun x => dictGet p.obj.linearCoefficients [x]) p.vars          -- lines 197-198
  let c := if maximize then c.map (· * -1) else c                              -- lines 199-200
  let eq ← assemble fl p.sparsify p.vars (fun _ => (1, 1, 0)) eqs
  let ub ← assemble fl p.sparsify p.vars (fun c => multipliers tiny c.rel.op) ieqs
  let flags := p.vars.map fun v => truthy (isInteger v)                        -- line 287
  let integrality : Option (I ⊕ List ℕ) := match p.integrality with
    | some i => some (.inl i)
    | none => if flags.any id then some (.inr (flags.map Bool.toNat)) else none -- lines 288-289
  return ⟨c, ub, eq, p.bounds, integrality⟩

/-- What `linprog` returns, as far as it is used. -/
structure Result (K : Type) where
  success : Bool
  x : List K
  fun_ : K

/-- `solve`, `optimize/lp.py` 302-330, for an arbitrary solver. (Extra keyword arguments, which
may overwrite the computed ones, are left out.) -/
def solve {I B : Type} (fl : K → K) (tiny : K) (isInteger : V → Option Bool)
    (linprog : ScipyArgs K I B → Result K) (p : Problem V K I B) (maximize : Bool) :
    Py (Result K) := do
  let args ← toScipy fl tiny isInteger p maximize
  let res := linprog args
  if res.success then
    let v ← p.obj.call res.x                                                    -- line 329
    return { res with fun_ := v }
  else return res

end

end Verif.LP
