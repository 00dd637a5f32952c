import Verif.Model.Rounding
import Verif.Model.Solve

/-!
# `linalg/solve.py` with rounded arithmetic

The eliminations and the backward substitution of `Model/Solve.lean` with a rounding after each
operation, in the order in which the code carries them out; `A` and `B` hold floats.  `fused` tells
whether a multiplication and the subtraction after it are contracted by the compiler.
-/

namespace Verif.RSolve
open Verif Verif.Solve

section
variable {n m : ℕ} {K : Type} [Field K] [LinearOrder K] (fl : K → K) (fused : Bool)

/-- `a - f * b`. -/
def subMul (a f b : K) : K := if fused then fl (a - f * b) else fl (a - fl (f * b))

/-- `B[iROW] -= A[iROW, iEQ] * presc_val[iEQ]; A[iROW, iEQ] = 0.0` for one row,
`linalg/solve.py` 178-179 and 202-203. -/
def prescRow (i : Fin n) (v : K) (row : Row n m K) : Row n m K :=
  (Function.update row.1 i 0, fun j => subMul fl fused (row.2 j) (row.1 i) v)

/-- The loop over the rows `iEQ, …, nEQ - 1` for a prescribed unknown,
`linalg/solve.py` 177-179 and 201-203. -/
def prescStep (i : Fin n) (v : K) (S : Sys n m K) : Sys n m K :=
  ((List.finRange n).filter (i ≤ ·)).foldl
    (fun S r => Function.update S r (prescRow fl fused i v (S r))) S

/-- `A[iROW, :] -= factor * A[iEQ, :]; B[iROW] -= factor * B[iEQ]`, `linalg/solve.py` 188-190
and 213-215. -/
def subRow (factor : K) (piv row : Row n m K) : Row n m K :=
  (fun c => subMul fl fused (row.1 c) factor (piv.1 c),
    fun j => subMul fl fused (row.2 j) factor (piv.2 j))

/-- The body of the elimination loop for one row; lines 185-190 and 210-215. -/
def elimRow (tol : K) (i : Fin n) (pivot : K) (S : Sys n m K) (r : Fin n) : Sys n m K :=
  let factor := fl ((S r).1 i / pivot)
  if r = i ∨ |factor| < tol then S
  else Function.update S r (subRow fl fused factor (S i) (S r))

/-- One equation of `_Jordan`, `linalg/solve.py` 175-191. -/
def jordanStep (tol : K) (pb : Fin n → Bool) (pv : Fin n → K) (S : Sys n m K)
    (i : Fin n) : Py (Sys n m K) :=
  if pb i then .ok (prescStep fl fused i (pv i) S)
  else
    let pivot := (S i).1 i
    if |pivot| < tol then .error .generic
    else .ok ((List.finRange n).foldl (elimRow fl fused tol i pivot) S)

/-- One equation of `_GaussJordan`, `linalg/solve.py` 199-216. -/
def gaussStep (tol : K) (pb : Fin n → Bool) (pv : Fin n → K) (S : Sys n m K)
    (i : Fin n) : Py (Sys n m K) :=
  if pb i then .ok (prescStep fl fused i (pv i) S)
  else if i.val < n - 1 then
    let pivot := (S i).1 i
    if |pivot| < tol then .error .generic
    else .ok (((List.finRange n).filter (i < ·)).foldl (elimRow fl fused tol i pivot) S)
  else .ok S

/-- One equation. -/
def step (me : Method) (tol : K) (pb : Fin n → Bool) (pv : Fin n → K)
    (S : Sys n m K) (i : Fin n) : Py (Sys n m K) :=
  match me with
  | .jordan => jordanStep fl fused tol pb pv S i
  | .gaussJordan => gaussStep fl fused tol pb pv S i

/-- The first `k` equations of the loop. -/
def runTo (me : Method) (tol : K) (pb : Fin n → Bool) (pv : Fin n → K) (k : ℕ)
    (S : Sys n m K) : Py (Sys n m K) :=
  ((List.finRange n).take k).foldlM (step fl fused me tol pb pv) S

/-- `_Jordan` (`linalg/solve.py` 171-192), `_GaussJordan` (195-217). -/
def eliminate (me : Method) (tol : K) (pb : Fin n → Bool) (pv : Fin n → K)
    (S : Sys n m K) : Py (Sys n m K) :=
  (List.finRange n).foldlM (step fl fused me tol pb pv) S

/-- Division of an array by a number in compiled code. -/
def fdiv (a : Option K) (p : K) : Option K :=
  match a with
  | none => none
  | some x => if p = 0 then none else some (fl (x / p))

/-- `a - k * b` -/
def fsubmul (a : Option K) (k : K) (b : Option K) : Option K :=
  match a, b with
  | some x, some y => some (subMul fl fused x k y)
  | _, _ => none

/-- `resid` for equation `i`: lines 229-232. -/
def residual (S : Sys n m K) (X : Fin n → Fin m → Option K) (i : Fin n) : Fin m → Option K :=
  fun j => ((List.finRange n).filter (i < ·)).foldl
    (fun acc c => fsubmul fl fused acc ((S i).1 c) (X c j)) (some ((S i).2 j))

/-- One equation of `backsub`, `linalg/solve.py` 228-238. -/
def backStep (S : Sys n m K) (pb : Fin n → Bool) (pv : Fin n → K) (XR : XR n m K) (i : Fin n) :
    Solve.XR n m K :=
  let resid := residual fl fused S XR.1 i
  if pb i then
    (Function.update XR.1 i (fun _ => some (pv i)),
      Function.update XR.2 i (fun j => (resid j).map Neg.neg))
  else (Function.update XR.1 i (fun j => fdiv fl (resid j) ((S i).1 i)), XR.2)

/-- `backsub`, `linalg/solve.py` 220-239. -/
def backsub (S : Sys n m K) (pb : Fin n → Bool) (pv : Fin n → K) : XR n m K :=
  (List.finRange n).reverse.foldl (backStep fl fused S pb pv) (fun _ _ => some 0, fun _ _ => some 0)

/-- `linsolve`, `linalg/solve.py` 13-134, for the methods `'Jordan'` and `'Gauss-Jordan'` with
arrays of floats. -/
def linsolve (me : Method) (tol : K) (A : Fin n → Fin n → K) (B : Fin n → Fin m → K)
    (presc_bool : Option (Fin n → Bool)) (presc_val : Option (Fin n → K)) : Py (Result n m K) :=
  match presc_val with
  | none =>
      match eliminate fl fused me tol (fun _ => false) (fun _ => 0) (fun i => (A i, B i)) with
      | .ok S => .ok (.solution (backsub fl fused S (fun _ => false) (fun _ => 0)).1)
      | .error _ => .error .linalg
  | some pv =>
      match presc_bool with
      | none => .error .linalg
      | some pb =>
          match eliminate fl fused me tol pb pv (fun i => (A i, B i)) with
          | .ok S => .ok (.constrained (backsub fl fused S pb pv).1 (backsub fl fused S pb pv).2)
          | .error _ => .error .linalg

end

end Verif.RSolve
