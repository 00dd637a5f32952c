import Verif.Prelude
import Mathlib.Algebra.Order.Field.Basic
import Mathlib.Algebra.Order.Ring.Abs
import Mathlib.Algebra.BigOperators.Group.List.Basic

/-!
# Model of `numint.py` and of `isclose`, `allclose` in `logical.py`

Numbers are exact; `nan` and infinities are not modelled.  Arrays are flat lists.
-/

namespace Verif.Numint
open Verif

section
variable {K : Type} [Field K]

/-- `numpy.polynomial.legendre.leggauss`, an argument of the model: the points with their weights, or
`ValueError` for a number of points that is not positive. -/
abbrev LegGauss (K : Type) := ℕ → List (K × K)

/-- `numint.py` 82-87 `gauss_points_1d`: row 0 are the points, row 1 the weights. -/
def gaussPoints1d (lg : LegGauss K) (n : ℕ) : Py (List K × List K) :=
  if n = 0 then .error .value
  else .ok ((lg n).map Prod.fst, (lg n).map Prod.snd)

/-- `np.nditer(quad, flags=["external_loop"], order="F")` of a `2 × n` array: its columns. -/
def columns (q : List K × List K) : List (K × K) := q.1.zip q.2

/-- One round of the innermost loop: store at `g`, increase `g`. -/
def put {α β : Type} (s : ℕ × List α × List β) (pos : α) (w : β) : ℕ × List α × List β :=
  (s.1 + 1, s.2.1.set s.1 pos, s.2.2.set s.1 w)

/-- `numint.py` 90-102 `gauss_points_2d` -/
def gaussPoints2d (lg : LegGauss K) (n1 n2 : ℕ) : Py (List (K × K) × List K) := do
  let quad1 ← gaussPoints1d lg n1
  let quad2 ← gaussPoints1d lg n2
  let nGaus := n1 * n2
  let s := (columns quad1).foldl (fun s gi => (columns quad2).foldl (fun s gj =>
    put s (gi.1, gj.1) (gi.2 * gj.2)) s)
    (0, List.replicate nGaus (0, 0), List.replicate nGaus 0)
  return s.2

/-- `numint.py` 105-119 `gauss_points_3d` -/
def gaussPoints3d (lg : LegGauss K) (n1 n2 n3 : ℕ) : Py (List (K × K × K) × List K) := do
  let quad1 ← gaussPoints1d lg n1
  let quad2 ← gaussPoints1d lg n2
  let quad3 ← gaussPoints1d lg n3
  let nGaus := n1 * n2 * n3
  let s := (columns quad1).foldl (fun s gi => (columns quad2).foldl (fun s gj =>
    (columns quad3).foldl (fun s gk => put s (gi.1, gj.1, gk.1) (gi.2 * gj.2 * gk.2)) s) s)
    (0, List.replicate nGaus (0, 0, 0), List.replicate nGaus 0)
  return s.2

/-- What `gauss_points` returns. -/
inductive GaussResult (K : Type)
  | one (v : List K × List K)
  | two (pos : List (K × K)) (w : List K)
  | three (pos : List (K × K × K)) (w : List K)

/-- `numint.py` 17-79 `gauss_points` -/
def gaussPoints (lg : LegGauss K) (args : List ℕ) : Py (GaussResult K) :=
  match args with
  | [n] => (gaussPoints1d lg n).map .one
  | [n1, n2] => (gaussPoints2d lg n1 n2).map fun r => .two r.1 r.2
  | [n1, n2, n3] => (gaussPoints3d lg n1 n2 n3).map fun r => .three r.1 r.2
  | _ => .error .notImplemented

end

section
variable {K : Type} [Field K] [LinearOrder K]

/-- Broadcasting of two flat arrays. -/
def broadcast (x1 x2 : List K) : Py (List (K × K)) :=
  if x1.length = x2.length then .ok (x1.zip x2)
  else match x1, x2 with
    | [a], _ => .ok (x2.map fun b => (a, b))
    | _, [b] => .ok (x1.map fun a => (a, b))
    | _, _ => .error .value

/-- The result of `isclose`: one boolean for a single element, an array otherwise. -/
inductive CloseResult
  | scalar (b : Bool)
  | array (c : List Bool)
  deriving DecidableEq

/-- `logical.py` 155-160: the only element of an array with one element, other arrays as they are. -/
def wrapClose : List Bool → CloseResult
  | [b] => .scalar b
  | c => .array c

/-- `np.all` of a result of `isclose`. -/
def CloseResult.all : CloseResult → Bool
  | .scalar b => b
  | .array c => c.all id

/-- `logical.py` 102-160 `isclose` for two arrays (numbers are arrays with one element).
Simplified: arrays that cannot be broadcast are reported before the tolerances are checked. -/
def isclose (x1 x2 : List K) (atol rtol : Option K) : Py CloseResult := do
  if atol = none ∧ rtol = none then .error .assertion
  let pairs ← broadcast x1 x2
  let c := pairs.map fun _ => true
  let c ← match atol with
    | none => pure c
    | some atol =>
        if 0 < atol then
          pure (c.zipWith (· && ·) (pairs.map fun p => decide (|p.1 - p.2| ≤ atol)))
        else .error .assertion
  let c ← match rtol with
    | none => pure c
    | some rtol =>
        if 0 < rtol then
          pure (c.zipWith (· && ·) (pairs.map fun p => decide (|p.1 - p.2| ≤ |rtol * p.2|)))
        else .error .assertion
  return wrapClose c

/-- `logical.py` 163-172 `allclose` -/
def allclose (x1 x2 : List K) (atol rtol : Option K) : Py Bool :=
  (isclose x1 x2 atol rtol).map CloseResult.all

end

end Verif.Numint
