import Verif.Model.LP

/-!
# Model of `optimize/lp.py` with rounding

The numbers of a symbolic expression are exact (SymPy keeps `x/3` as it is), those handed to the
solver are floating point numbers.  Where the two meet:

* `np.array([...]).astype(float)` for the objective, line 198;
* the assignment of a row to an array of floats, lines 229 and 275, and
  `csr_matrix(..., dtype=float)`, lines 234-236 and 280-282, which convert every stored value;
* the value of the function at zero, lines 231 and 277: there the generated code computes the
  products with zero and the constant, which is one rounded number.

`fl` rounds to the nearest floating point number; overflow and underflow are left out.
-/

namespace Verif.RLP

open Verif.LP

section
variable {V K : Type} [DecidableEq V] [Field K] [DecidableEq K]

/-- Every stored value converted to a float: `optimize/lp.py` 229, 234-236, 275, 280-282. -/
def toFloat (fl : K → K) : Mat K → Mat K
  | .dense rows => .dense (rows.map fun r => r.map fl)
  | .sparse data rows cols shape => .sparse (data.map fl) rows cols shape

/-- Right hand sides: `-eq(x_zero)` and `-ieq(x_zero) * b_ub_multiplier + b_ub_adjustment`,
`optimize/lp.py` 231 and 277. -/
def rightSides (fl : K → K) (vars : List V) (mult : Constraint V K → K × K × K)
    (cs : List (Constraint V K)) : Py (List K) :=
  pyMap (fun c => do
    let v ← c.fn.call (List.replicate vars.length (0 : K))
    return rhs fl (-(fl v)) (mult c).2.1 (mult c).2.2) cs

/-- One of the two systems, `optimize/lp.py` 207-237 and 239-283: the exact numbers are collected
(zeros are recognised among them, lines 224 and 270) and then converted. -/
def assemble (fl : K → K) (sparsify : Bool) (vars : List V)
    (mult : Constraint V K → K × K × K) (cs : List (Constraint V K)) :
    Py (Option (Mat K × List K)) := do
  let collected ← LP.assemble id sparsify vars mult cs
  match collected with
  | none => return none
  | some (A, _) =>
    let b ← rightSides fl vars mult cs
    return some (toFloat fl A, b)

/-- `_to_scipy`, `optimize/lp.py` 188-300; the flags of integrality do not depend on rounding and
are as in `LP.toScipy`. -/
def toScipy {I B : Type} (fl : K → K) (tiny : K) (isInteger : V → Option Bool)
    (p : Problem V K I B) (maximize : Bool) : Py (ScipyArgs K I B) := do
  let eqs := p.constraints.filter fun c => c.rel.cls = .equality
  let ieqs := p.constraints.filter fun c => c.rel.cls = .inequality
  let c ← pyMap (fun x => dictGet p.obj.linearCoefficients [x]) p.vars          -- line 198
  let c := c.map fl
  let c := if maximize then c.map (· * -1) else c                              -- lines 199-200
  let eq ← assemble fl p.sparsify p.vars (fun _ => (1, 1, 0)) eqs
  let ub ← assemble fl p.sparsify p.vars (fun c => multipliers tiny c.rel.op) ieqs
  let flags := p.vars.map fun v => truthy (isInteger v)                        -- line 287
  let integrality : Option (I ⊕ List ℕ) := match p.integrality with
    | some i => some (.inl i)
    | none => if flags.any id then some (.inr (flags.map Bool.toNat)) else none
  return ⟨c, ub, eq, p.bounds, integrality⟩

end

end Verif.RLP
