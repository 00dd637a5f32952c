import Verif.Model.Utils
import Mathlib.Data.List.FinRange
import Mathlib.Algebra.Order.Group.Abs
import Mathlib.Logic.Function.Basic

/-!
# Model of `linalg/solve.py`

The augmented system is a function from row numbers to pairs (row of `A`, row of `B`); writing a
row is `Function.update`.  `B` is two dimensional (a one dimensional `B` is reshaped to one
column, lines 111-112) and holds floats; `A` has one of the two dtypes, see `store`.  `tol` is the
constant 1e-12.  A number that is not finite (the result of a division of arrays by zero in
compiled code, which does not raise) is `none`; it is absorbing.

Not modelled: `inplace=True` (the results are the same, the arguments are overwritten); arrays
`A`, `B`, `presc_bool`, `presc_val` of lengths that do not fit.
-/

namespace Verif.Solve

open Verif.Utils (DType store)

/-- A row of `A` and the row of `B`. -/
abbrev Row (n m : ℕ) (K : Type) := (Fin n → K) × (Fin m → K)

/-- The arrays `A` and `B`. -/
abbrev Sys (n m : ℕ) (K : Type) := Fin n → Row n m K

section
variable {n m : ℕ} {K : Type} [Field K] [LinearOrder K] [FloorRing K]

/-- `B[iROW] -= A[iROW, iEQ] * presc_val[iEQ]; A[iROW, iEQ] = 0.0` for one row,
`linalg/solve.py` 178-179 and 202-203. -/
def prescRow (i : Fin n) (v : K) (row : Row n m K) : Row n m K :=
  (Function.update row.1 i 0, fun j => row.2 j - row.1 i * v)

/-- The loop over the rows `iEQ, …, nEQ - 1` for a prescribed unknown,
`linalg/solve.py` 177-179 and 201-203. -/
def prescStep (i : Fin n) (v : K) (S : Sys n m K) : Sys n m K :=
  ((List.finRange n).filter (i ≤ ·)).foldl (fun S r => Function.update S r (prescRow i v (S r))) S

/-- `A[iROW, :] -= factor * A[iEQ, :]; B[iROW] -= factor * B[iEQ]`, `linalg/solve.py` 188-190
and 213-215. -/
def subRow (d : DType) (factor : K) (piv row : Row n m K) : Row n m K :=
  (fun c => store d (row.1 c - factor * piv.1 c), fun j => row.2 j - factor * piv.2 j)

/-- The body of the elimination loop for one row: `skip` tells which rows are left alone whatever
the factor is (`iROW == iEQ`), a small factor is skipped too; lines 185-190 and 210-215. -/
def elimRow (tol : K) (d : DType) (i : Fin n) (pivot : K) (S : Sys n m K) (r : Fin n) : Sys n m K :=
  let factor := (S r).1 i / pivot
  if r = i ∨ |factor| < tol then S
  else Function.update S r (subRow d factor (S i) (S r))

/-- One equation of `_Jordan`, `linalg/solve.py` 175-191. -/
def jordanStep (tol : K) (d : DType) (pb : Fin n → Bool) (pv : Fin n → K) (S : Sys n m K)
    (i : Fin n) : Py (Sys n m K) :=
  if pb i then .ok (prescStep i (pv i) S)
  else
    let pivot := (S i).1 i
    if |pivot| < tol then .error .generic
    else .ok ((List.finRange n).foldl (elimRow tol d i pivot) S)

/-- One equation of `_GaussJordan`, `linalg/solve.py` 199-216 (the test `iROW == iEQ` is not
needed there: the rows are those below). -/
def gaussStep (tol : K) (d : DType) (pb : Fin n → Bool) (pv : Fin n → K) (S : Sys n m K)
    (i : Fin n) : Py (Sys n m K) :=
  if pb i then .ok (prescStep i (pv i) S)
  else if i.val < n - 1 then
    let pivot := (S i).1 i
    if |pivot| < tol then .error .generic
    else .ok (((List.finRange n).filter (i < ·)).foldl (elimRow tol d i pivot) S)
  else .ok S

/-- The two eliminations. -/
inductive Method
  | jordan | gaussJordan
  deriving DecidableEq

/-- One equation. -/
def step (me : Method) (tol : K) (d : DType) (pb : Fin n → Bool) (pv : Fin n → K)
    (S : Sys n m K) (i : Fin n) : Py (Sys n m K) :=
  match me with
  | .jordan => jordanStep tol d pb pv S i
  | .gaussJordan => gaussStep tol d pb pv S i

/-- The first `k` equations of the loop. -/
def runTo (me : Method) (tol : K) (d : DType) (pb : Fin n → Bool) (pv : Fin n → K) (k : ℕ)
    (S : Sys n m K) : Py (Sys n m K) :=
  ((List.finRange n).take k).foldlM (step me tol d pb pv) S

/-- `_Jordan` (`linalg/solve.py` 171-192), `_GaussJordan` (195-217). -/
def eliminate (me : Method) (tol : K) (d : DType) (pb : Fin n → Bool) (pv : Fin n → K)
    (S : Sys n m K) : Py (Sys n m K) :=
  (List.finRange n).foldlM (step me tol d pb pv) S

/-- Division of an array by a number in compiled code. -/
def fdiv (a : Option K) (p : K) : Option K :=
  match a with
  | none => none
  | some x => if p = 0 then none else some (x / p)

/-- `a - k * b` -/
def fsubmul (a : Option K) (k : K) (b : Option K) : Option K :=
  match a, b with
  | some x, some y => some (x - k * y)
  | _, _ => none

/-- `resid` for equation `i`: lines 229-232. -/
def residual (S : Sys n m K) (X : Fin n → Fin m → Option K) (i : Fin n) : Fin m → Option K :=
  fun j => ((List.finRange n).filter (i < ·)).foldl
    (fun acc c => fsubmul acc ((S i).1 c) (X c j)) (some ((S i).2 j))

/-- The arrays `X` and `R`. -/
abbrev XR (n m : ℕ) (K : Type) := (Fin n → Fin m → Option K) × (Fin n → Fin m → Option K)

/-- One equation of `backsub`, `linalg/solve.py` 228-238. -/
def backStep (S : Sys n m K) (pb : Fin n → Bool) (pv : Fin n → K) (XR : XR n m K) (i : Fin n) :
    Solve.XR n m K :=
  let resid := residual S XR.1 i
  if pb i then
    (Function.update XR.1 i (fun _ => some (pv i)),
      Function.update XR.2 i (fun j => (resid j).map Neg.neg))
  else (Function.update XR.1 i (fun j => fdiv (resid j) ((S i).1 i)), XR.2)

/-- `backsub`, `linalg/solve.py` 220-239. -/
def backsub (S : Sys n m K) (pb : Fin n → Bool) (pv : Fin n → K) : XR n m K :=
  (List.finRange n).reverse.foldl (backStep S pb pv) (fun _ _ => some 0, fun _ _ => some 0)

/-- The result: the solution, and the residual if values were prescribed. -/
inductive Result (n m : ℕ) (K : Type)
  | solution (X : Fin n → Fin m → Option K)
  | constrained (X R : Fin n → Fin m → Option K)

/-- `linsolve`, `linalg/solve.py` 13-134, for the methods `'Jordan'` and `'Gauss-Jordan'`.
Prescribed values without `presc_bool` make the compiled code fail to type, which like every
exception is reported as singularity (line 131). -/
def linsolve (me : Method) (tol : K) (d : DType) (A : Fin n → Fin n → K) (B : Fin n → Fin m → K)
    (presc_bool : Option (Fin n → Bool)) (presc_val : Option (Fin n → K)) : Py (Result n m K) :=
  match presc_val with
  | none =>
      match eliminate me tol d (fun _ => false) (fun _ => 0) (fun i => (A i, B i)) with
      | .ok S => .ok (.solution (backsub S (fun _ => false) (fun _ => 0)).1)
      | .error _ => .error .linalg
  | some pv =>
      match presc_bool with
      | none => .error .linalg
      | some pb =>
          match eliminate me tol d pb pv (fun i => (A i, B i)) with
          | .ok S => .ok (.constrained (backsub S pb pv).1 (backsub S pb pv).2)
          | .error _ => .error .linalg

end

end Verif.Solve
