import Verif.Model.Rounding
import Verif.Model.Numint
import Verif.Model.TrKernels

/-!
# Closed-form inverses and product quadrature with rounded arithmetic

`linalg/utils.py` 721-829 and `numint.py` 90-119 with a rounding after each operation, in the order in which Python groups
them.  Compiled code may contract a product and the sum it is a term of into one operation; which sums are contracted, and with
which product, is an argument.  Underflow, overflow, infinities and NaN are not modelled.
-/

namespace Verif.RClosed
open Verif Verif.Rnd Verif.Tr Verif.Frames Verif.Numint

/-- Arithmetic expressions in the entries of an array. -/
inductive Expr (ι : Type)
  | var (i : ι)
  | neg (a : Expr ι)
  | add (a b : Expr ι)
  | sub (a b : Expr ι)
  | mul (a b : Expr ι)

/-- How a sum is computed: with both terms rounded, or with the left or the right one contracted, if it is a product. -/
inductive Fuse
  | no
  | left
  | right
  deriving DecidableEq

/-- The contractions in an expression, at the position of each sum: `false` is the left term, `true` the right one. -/
abbrev Plan := List Bool → Fuse

section
variable {K : Type} [Field K] [LinearOrder K] (fl : K → K)

/-- The value of an expression, rounded after each operation; the outermost product is not rounded if `keep`. -/
def Expr.round {ι : Type} (a : ι → K) : Plan → Bool → Expr ι → K
  | _, _, .var i => a i
  | c, _, .neg x => -(x.round a (fun l => c (false :: l)) false)
  | c, _, .add x y => fl (x.round a (fun l => c (false :: l)) (decide (c [] = .left)) +
      y.round a (fun l => c (true :: l)) (decide (c [] = .right)))
  | c, _, .sub x y => fl (x.round a (fun l => c (false :: l)) (decide (c [] = .left)) -
      y.round a (fun l => c (true :: l)) (decide (c [] = .right)))
  | c, keep, .mul x y =>
    let p := x.round a (fun l => c (false :: l)) false * y.round a (fun l => c (true :: l)) false
    if keep then p else fl p

/-! ### `linalg/utils.py` -/

/-- `A[i, j]` -/
def entry {n : ℕ} (i j : Fin n) : Expr (Fin n × Fin n) := .var (i, j)

/-- `A[i, j] * A[k, l]` -/
def prod2 {n : ℕ} (i j k l : Fin n) : Expr (Fin n × Fin n) := .mul (entry i j) (entry k l)

/-- `-A[i, j] * A[k, l]` -/
def negProd2 {n : ℕ} (i j k l : Fin n) : Expr (Fin n × Fin n) := .mul (.neg (entry i j)) (entry k l)

/-- `A[0, i] * A[1, j] * A[2, k]` -/
def prod3 (i j k : Fin 3) : Expr (Fin 3 × Fin 3) := .mul (.mul (entry 0 i) (entry 1 j)) (entry 2 k)

/-- The expression of `linalg/utils.py` 756-763, 778-785, 803-810. -/
def det3 : Expr (Fin 3 × Fin 3) :=
  .sub (.add (.add (.sub (.sub (prod3 0 1 2) (prod3 0 2 1)) (prod3 1 0 2)) (prod3 1 2 0)) (prod3 2 0 1)) (prod3 2 1 0)

/-- `A[0, 0] * A[1, 1] - A[0, 1] * A[1, 0]`, `linalg/utils.py` 724, 734. -/
def det2 : Expr (Fin 2 × Fin 2) := .sub (prod2 0 0 1 1) (prod2 0 1 1 0)

/-- The right hand sides of `linalg/utils.py` 786-794 (743-751, 811-819). -/
def adj3 : Fin 3 → Fin 3 → Expr (Fin 3 × Fin 3) :=
  ![![.sub (prod2 1 1 2 2) (prod2 1 2 2 1), .add (negProd2 0 1 2 2) (prod2 0 2 2 1), .sub (prod2 0 1 1 2) (prod2 0 2 1 1)],
    ![.add (negProd2 1 0 2 2) (prod2 1 2 2 0), .sub (prod2 0 0 2 2) (prod2 0 2 2 0), .add (negProd2 0 0 1 2) (prod2 0 2 1 0)],
    ![.sub (prod2 1 0 2 1) (prod2 1 1 2 0), .add (negProd2 0 0 2 1) (prod2 0 1 2 0), .sub (prod2 0 0 1 1) (prod2 0 1 1 0)]]

/-- The entries of a matrix. -/
def entries {n : ℕ} (A : Matrix (Fin n) (Fin n) K) : Fin n × Fin n → K := fun p => A p.1 p.2

/-- `linalg/utils.py` 775-796 `inv3x3` for an array of floats; dividing an array by zero gives entries that are not finite,
`none`. -/
def inv3x3 (cd : Plan) (ca : Fin 3 → Fin 3 → Plan) (A : Mat 3 K) : Option (Mat 3 K) :=
  let det := det3.round fl (entries A) cd false
  if det = 0 then none
  else some (Matrix.of fun i j => fl ((adj3 i j).round fl (entries A) (ca i j) false / det))

/-- `linalg/utils.py` 799-821 `inv3x3_bulk` and 824-829 `inv3x3_bulk2`. -/
def inv3x3Bulk (cd : Plan) (ca : Fin 3 → Fin 3 → Plan) (junk : Mat 3 K) (sched : List ℕ) (A : List (Mat 3 K)) :
    List (Option (Mat 3 K)) :=
  loop1 sched (fun i _ => inv3x3 fl cd ca (rd junk A i)) (A.map fun _ => some 0)

/-- `x / d ± y / d` for products `x`, `y`. -/
def quotients (det : K) (a : Fin 3 × Fin 3 → K) : Expr (Fin 3 × Fin 3) → K
  | .sub x y => fl (fl (x.round fl a (fun _ => .no) false / det) - fl (y.round fl a (fun _ => .no) false / det))
  | .add x y => fl (fl (x.round fl a (fun _ => .no) false / det) + fl (y.round fl a (fun _ => .no) false / det))
  | x => fl (x.round fl a (fun _ => .no) false / det)

/-- `linalg/utils.py` 754-772 `inv3x3u`: the two products of each entry are divided separately. -/
def inv3x3u (cd : Plan) (A : Mat 3 K) : Py (Mat 3 K) :=
  let d := det3.round fl (entries A) cd false
  if d = 0 then .error .zeroDiv
  else .ok (Matrix.of fun i j => quotients fl d (entries A) (adj3 i j))

/-- `linalg/utils.py` 721-729 `inv2x2` for an array of floats, and 732-738 `inv2x2u`. -/
def inv2x2 (cd : Plan) (A : Mat 2 K) : Py (Mat 2 K) :=
  let d := det2.round fl (entries A) cd false
  if d = 0 then .error .zeroDiv
  else .ok (Matrix.of ![![fl (A 1 1 / d), fl (-(A 0 1) / d)], ![fl (-(A 1 0) / d), fl (A 0 0 / d)]])

/-! ### `numint.py` -/

/-- `numint.py` 90-102 `gauss_points_2d` -/
def gaussPoints2d (lg : LegGauss K) (n1 n2 : ℕ) : Py (List (K × K) × List K) := do
  let quad1 ← gaussPoints1d lg n1
  let quad2 ← gaussPoints1d lg n2
  let nGaus := n1 * n2
  let s := (columns quad1).foldl (fun s gi => (columns quad2).foldl (fun s gj =>
    put s (gi.1, gj.1) (fl (gi.2 * gj.2))) s)
    (0, List.replicate nGaus (0, 0), List.replicate nGaus 0)
  return s.2

/-- `numint.py` 105-119 `gauss_points_3d` -/
def gaussPoints3d (lg : LegGauss K) (n1 n2 n3 : ℕ) : Py (List (K × K × K) × List K) := do
  let quad1 ← gaussPoints1d lg n1
  let quad2 ← gaussPoints1d lg n2
  let quad3 ← gaussPoints1d lg n3
  let nGaus := n1 * n2 * n3
  let s := (columns quad1).foldl (fun s gi => (columns quad2).foldl (fun s gj =>
    (columns quad3).foldl (fun s gk => put s (gi.1, gj.1, gk.1) (fl (fl (gi.2 * gj.2) * gk.2))) s) s)
    (0, List.replicate nGaus (0, 0, 0), List.replicate nGaus 0)
  return s.2

/-- `numint.py` 17-79 `gauss_points` -/
def gaussPoints (lg : LegGauss K) (args : List ℕ) : Py (GaussResult K) :=
  match args with
  | [n] => (gaussPoints1d lg n).map .one
  | [n1, n2] => (gaussPoints2d fl lg n1 n2).map fun r => .two r.1 r.2
  | [n1, n2, n3] => (gaussPoints3d fl lg n1 n2 n3).map fun r => .three r.1 r.2
  | _ => .error .notImplemented

end

end Verif.RClosed
