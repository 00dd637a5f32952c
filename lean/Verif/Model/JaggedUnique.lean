import Verif.Model.ArraySetOps
import Verif.Model.Sparse

/-!
# Unique values of a `JaggedArray`

The three ways to ask a `JaggedArray` of integers for its unique values: `np.unique(J, …)`, `J.unique(…)` and
`unique2d(J, …)`.  An awkward array without any numbers in it has no integer type; it is not modelled.
-/

namespace Verif.JagUnique
open Verif Verif.Sparse

/-- The argument `args[0]._wrapped` of `unique2d`, jaggedarray.py:322-324. -/
def wrapped : Wrapped ℤ → ASO.Arg
  | .np n m rows => .dense n m fun i j => (rows.getD i []).getD j 0
  | .ak rows => .awkward rows

/-- jaggedarray.py:239-244 `unique`, which is `np.unique(self, …)`, and 296-305 `__array_function__`, 322-324.
`positional` is the number of arguments without a keyword behind the array: they are no jagged arrays, and
are refused.  `unknown` tells if there is a keyword of `np.unique` (`axis`, `equal_nan`) that `unique2d` does
not have. -/
def npUnique (w : Wrapped ℤ) (positional : ℕ) (unknown : Bool) (ri rv rc : Bool) (sched : List ℕ) :
    Py (List ASO.Out) :=
  if positional ≠ 0 then .error .type
  else if unknown then .error .type
  else ASO.unique2d (wrapped w) ri rv rc sched

/-- arraysetops.py:105-121: `unique2d(J, …)`.  Rows of equal widths go through `to_numpy`
(jaggedarray.py:212-220), which makes an array of floats of an awkward array (csr.py:132-141, 155-160); the
keys of the dictionaries of the kernel are integers, and Numba refuses to compile it for floats. -/
def unique2dOf (w : Wrapped ℤ) (ri rv rc : Bool) (sched : List ℕ) : Py (List ASO.Out) := do
  if ← w.isJagged then
    ASO.uniqueAwkward w.rows ri rv rc sched
  else
    match w with
    | .np n m rows => ASO.uniqueDense n m (fun i j => (rows.getD i []).getD j 0) ri rv rc
    | .ak _ => .error .generic

end Verif.JagUnique
