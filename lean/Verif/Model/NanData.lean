import Verif.Model.Solve

/-!
# NaN in the data: `linalg/solve.py`, `utils.py`, `logical.py`, `approx/mls.py`

A number is `some x`, NaN is `none`: operations with NaN yield NaN and comparisons with NaN are false.  (None of the compiled
functions below is compiled with `fastmath`, which would allow the compiler to assume that there is no NaN.)  A quotient of an array
by zero, which is not finite, is `none`, too.  All arrays hold floats, and the numbers are exact.
-/

namespace Verif.NanData
open Verif Verif.Solve

section
variable {n m : ℕ} {K : Type} [Field K] [LinearOrder K]

/-- `a + b` -/
def add (a b : Option K) : Option K := Option.map₂ (· + ·) a b

/-- `a - b` -/
def sub (a b : Option K) : Option K := Option.map₂ (· - ·) a b

/-- `a * b` -/
def mul (a b : Option K) : Option K := Option.map₂ (· * ·) a b

/-- `a / b` where `b` is not zero or `a` is an array. -/
def div (a b : Option K) : Option K :=
  match a, b with
  | some x, some y => if y = 0 then none else some (x / y)
  | _, _ => none

/-- `abs(a) < tol` -/
def small (tol : K) (a : Option K) : Bool :=
  match a with
  | some x => decide (|x| < tol)
  | none => false

/-! ### `linalg/solve.py` -/

/-- One row for a prescribed unknown, `linalg/solve.py` 178-179 and 202-203. -/
def prescRow (i : Fin n) (v : Option K) (row : Row n m (Option K)) : Row n m (Option K) :=
  (Function.update row.1 i (some 0), fun j => sub (row.2 j) (mul (row.1 i) v))

/-- The rows `iEQ, …, nEQ - 1` for a prescribed unknown, `linalg/solve.py` 177-179 and 201-203. -/
def prescStep (i : Fin n) (v : Option K) (S : Sys n m (Option K)) : Sys n m (Option K) :=
  ((List.finRange n).filter (i ≤ ·)).foldl (fun S r => Function.update S r (prescRow i v (S r))) S

/-- `A[iROW, :] -= factor * A[iEQ, :]; B[iROW] -= factor * B[iEQ]`, `linalg/solve.py` 188-190 and 213-215. -/
def subRow (factor : Option K) (piv row : Row n m (Option K)) : Row n m (Option K) :=
  (fun c => sub (row.1 c) (mul factor (piv.1 c)), fun j => sub (row.2 j) (mul factor (piv.2 j)))

/-- The elimination in one row, lines 185-190 and 210-215. -/
def elimRow (tol : K) (i : Fin n) (pivot : Option K) (S : Sys n m (Option K)) (r : Fin n) :
    Sys n m (Option K) :=
  let factor := div ((S r).1 i) pivot
  if r = i ∨ small tol factor then S
  else Function.update S r (subRow factor (S i) (S r))

/-- One equation of `_Jordan` (`linalg/solve.py` 175-191) or `_GaussJordan` (199-216). -/
def step (me : Method) (tol : K) (pb : Fin n → Bool) (pv : Fin n → Option K) (S : Sys n m (Option K))
    (i : Fin n) : Py (Sys n m (Option K)) :=
  if pb i then .ok (prescStep i (pv i) S)
  else
    match me with
    | .jordan =>
      if small tol ((S i).1 i) then .error .generic
      else .ok ((List.finRange n).foldl (elimRow tol i ((S i).1 i)) S)
    | .gaussJordan =>
      if i.val < n - 1 then
        if small tol ((S i).1 i) then .error .generic
        else .ok (((List.finRange n).filter (i < ·)).foldl (elimRow tol i ((S i).1 i)) S)
      else .ok S

/-- `_Jordan` (`linalg/solve.py` 171-192), `_GaussJordan` (195-217). -/
def eliminate (me : Method) (tol : K) (pb : Fin n → Bool) (pv : Fin n → Option K)
    (S : Sys n m (Option K)) : Py (Sys n m (Option K)) :=
  (List.finRange n).foldlM (step me tol pb pv) S

/-- `resid` for equation `i`: lines 229-232. -/
def residual (S : Sys n m (Option K)) (X : Fin n → Fin m → Option K) (i : Fin n) : Fin m → Option K :=
  fun j => ((List.finRange n).filter (i < ·)).foldl
    (fun acc c => sub acc (mul ((S i).1 c) (X c j))) ((S i).2 j)

/-- One equation of `backsub`, `linalg/solve.py` 228-238. -/
def backStep (S : Sys n m (Option K)) (pb : Fin n → Bool) (pv : Fin n → Option K) (XR : XR n m K)
    (i : Fin n) : Solve.XR n m K :=
  let resid := residual S XR.1 i
  if pb i then
    (Function.update XR.1 i (fun _ => pv i), Function.update XR.2 i (fun j => (resid j).map Neg.neg))
  else (Function.update XR.1 i (fun j => div (resid j) ((S i).1 i)), XR.2)

/-- `backsub`, `linalg/solve.py` 220-239. -/
def backsub (S : Sys n m (Option K)) (pb : Fin n → Bool) (pv : Fin n → Option K) : XR n m K :=
  (List.finRange n).reverse.foldl (backStep S pb pv) (fun _ _ => some 0, fun _ _ => some 0)

/-- `linsolve`, `linalg/solve.py` 13-134, for the methods `'Jordan'` and `'Gauss-Jordan'`; see `Solve.linsolve`. -/
def linsolve (me : Method) (tol : K) (A : Fin n → Fin n → Option K) (B : Fin n → Fin m → Option K)
    (presc_bool : Option (Fin n → Bool)) (presc_val : Option (Fin n → Option K)) : Py (Result n m K) :=
  match presc_val with
  | none =>
      match eliminate me tol (fun _ => false) (fun _ => some 0) (fun i => (A i, B i)) with
      | .ok S => .ok (.solution (backsub S (fun _ => false) (fun _ => some 0)).1)
      | .error _ => .error .linalg
  | some pv =>
      match presc_bool with
      | none => .error .linalg
      | some pb =>
          match eliminate me tol pb pv (fun i => (A i, B i)) with
          | .ok S => .ok (.constrained (backsub S pb pv).1 (backsub S pb pv).2)
          | .error _ => .error .linalg

/-! ### Arrays -/

/-- `a < b`, false for NaN. -/
def lt (a b : Option K) : Bool :=
  match a, b with
  | some x, some y => decide (x < y)
  | _, _ => false

/-- `a <= b`, false for NaN. -/
def le (a b : Option K) : Bool :=
  match a, b with
  | some x, some y => decide (x ≤ y)
  | _, _ => false

/-- `clip1d`, `utils.py` 46-72: two masked assignments. -/
def clip1d (a : List (Option K)) (a_min a_max : Option K) : List (Option K) :=
  let a := a.map fun x => if lt x a_min then a_min else x
  a.map fun x => if lt a_max x then a_max else x

/-- `np.sum(np.abs(x - y))`, `utils.py` 410 and 424. -/
def rowDist (x y : List (Option K)) : Option K :=
  (List.zipWith (fun a b => (sub a b).map abs) x y).foldl add (some 0)

/-- `indices_of_equal_rows`, `utils.py` 384-425, for arrays of floats: every cell of the matrix of distances is written
once, in any order (see `Utils.equalRowsNjit`). -/
def equalRows (x y : List (List (Option K))) (tol : K) : List (ℕ × ℕ) :=
  ((List.range x.length) ×ˢ (List.range y.length)).filter fun p =>
    le (rowDist (x.getD p.1 []) (y.getD p.2 [])) (some tol)

/-- `isclose`, `logical.py` 102-160, for one pair of numbers: `none` as a tolerance is Python's `None`, a tolerance may be
NaN. -/
def isclose (atol rtol : Option (Option K)) (x1 x2 : Option K) : Py Bool :=
  if atol.isNone && rtol.isNone then .error .assertion
  else if atol.any fun t => !lt (some 0) t then .error .assertion
  else if rtol.any fun t => !lt (some 0) t then .error .assertion
  else .ok ((atol.all fun t => le ((sub x1 x2).map abs) t) &&
    (rtol.all fun t => le ((sub x1 x2).map abs) ((mul t x2).map abs)))

/-- `_approximate_2d`, `approx/mls.py` 13-22: row `i` of the result for the neighbours `nb` of a target; `values s` are the data at a
source. -/
def average {d : ℕ} (values : ℕ → Fin d → Option K) (nb : List ℕ) (factors : List (Option K)) :
    Fin d → Option K :=
  fun j => (List.zip nb factors).foldl (fun acc p => add acc (mul (values p.1 j) p.2)) (some 0)

end

end Verif.NanData
