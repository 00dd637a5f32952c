import Verif.Prelude
import Verif.Model.Utils
import Mathlib.Analysis.SpecialFunctions.Pow.Real
import Mathlib.LinearAlgebra.Matrix.Rank
import Mathlib.LinearAlgebra.Matrix.Charpoly.Basic
import Mathlib.LinearAlgebra.Matrix.NonsingularInverse
import Mathlib.Data.List.Permutation
import Mathlib.Data.List.FinRange
import Mathlib.Analysis.Complex.Basic

/-!
# Model of utilities in `linalg/utils.py`, `linalg/logical.py`, `logical.py`

Numbers are real numbers; norms, ranks and eigenvalues are those of mathematics.  Vectors of length
`d` are functions on `Fin d`, so vectors of different lengths cannot be combined here.  A number that
is the result of a float division by zero (NaN or infinite) is `none`.
-/

namespace Verif.Lin
open Verif Verif.Utils

noncomputable section

/-! ## Norms and points on segments -/

/-- `np.linalg.norm` of a vector. -/
def norm {d : ℕ} (v : Fin d → ℝ) : ℝ := Real.sqrt (∑ i, v i ^ 2)

/-- Float division in array expressions, which does not raise. -/
def fdiv (a b : ℝ) : Option ℝ := if b = 0 then none else some (a / b)

/-- `linalg/utils.py` 832-834 `normalize`; the norm is not available for integer arrays in compiled
code. -/
def normalize {d : ℕ} (dt : DType) (v : Fin d → ℝ) : Py (Fin d → Option ℝ) :=
  if dt = .int then .error .type else .ok fun i => fdiv (v i) (norm v)

/-- `linalg/utils.py` 837-842 `normalize2d`. -/
def normalize2d {d : ℕ} (sched : List ℕ) (dt : DType) (A : List (Fin d → ℝ)) :
    Py (List (Fin d → Option ℝ)) :=
  if dt = .int then .error .type
  else .ok (sched.foldl
    (fun res i => res.set i fun j => fdiv (A.getD i 0 j) (norm (A.getD i 0)))
    (List.replicate A.length fun _ => some 0))

/-- `linalg/utils.py` 568-577 `normalize_frame`: raises if one of the rows does. -/
def normalizeFrame {d : ℕ} (dt : DType) (A : List (Fin d → ℝ)) : Py (List (Fin d → Option ℝ)) :=
  A.foldr (fun v acc => match normalize dt v with
    | .error e => .error e
    | .ok w => acc.map (w :: ·)) (.ok [])

/-- `linalg/utils.py` 850-855 `norm2d`. -/
def norm2d {d : ℕ} (sched : List ℕ) (dt : DType) (A : List (Fin d → ℝ)) : Py (List ℝ) :=
  if dt = .int then .error .type
  else .ok (sched.foldl (fun res i => res.set i (norm (A.getD i 0))) (List.replicate A.length 0))

/-- `linalg/utils.py` 858-870 `_linspace`.  `dt` is the dtype of the difference of the points.  The
division of the length by the integer `N - 1` raises for `N = 1`.  For `N = 0` the code writes outside
of the array; this is not modelled. -/
def linspacePoints {d : ℕ} (sched : List ℕ) (dt : DType) (p0 p1 : Fin d → ℝ) (N : ℕ) :
    Py (List (Fin d → Option ℝ)) :=
  if dt = .int then .error .type
  else if N = 1 then .error .zeroDiv
  else
    let s := fun i => p1 i - p0 i
    let L := norm s
    let djac := L / ((N : ℝ) - 1)
    let step := fun j => (fdiv (s j) L).map (· * djac)
    let res := (List.replicate N fun _ => some 0).set 0 fun j => some (p0 j)
    let res := sched.foldl
      (fun res i => res.set i fun j => (step j).map fun t => p0 j + (i : ℝ) * t) res
    .ok (res.set (N - 1) fun j => some (p1 j))

/-- `linalg/utils.py` 880-886 `linspace1d`. -/
def linspace1d (sched : List ℕ) (start stop : ℝ) (N : ℕ) : Py (List ℝ) :=
  if N = 1 then .error .zeroDiv
  else .ok (sched.foldl
    (fun res i => res.set i (start + (i : ℝ) * ((stop - start) / ((N : ℝ) - 1))))
    (List.replicate N 0))

/-- `np.linspace` for numbers: a single point is the start. -/
def npLinspace (start stop : ℝ) (N : ℕ) : List ℝ :=
  (List.range N).map fun (i : ℕ) =>
    if N = 1 then start else start + (i : ℝ) * ((stop - start) / ((N : ℝ) - 1))

/-- `linalg/utils.py` 656-666 `vpath`.  `dt1`, `dt2` are the dtypes of the end points; the result has
the one of the first. -/
def vpath {d : ℕ} (sched : List ℕ) (dt1 dt2 : DType) (p1 p2 : Fin d → ℝ) (n : ℕ) :
    Py (List (Fin d → Option ℝ)) :=
  if dt1 = .int ∧ dt2 = .int then .error .type
  else
    let dist := fun i => p2 i - p1 i
    let length := norm dist
    let s := npLinspace 0 length n
    .ok (sched.foldl
      (fun res i => res.set i fun j =>
        (fdiv (dist j) length).map fun t => store dt1 (p1 j + s.getD i 0 * t))
      (List.replicate n fun _ => some 0))

/-! ## Ranks and generalized inverses -/

/-- `np.linalg.matrix_rank`; the largest singular value of an empty matrix does not exist. -/
def matrixRank {m n : ℕ} (A : Matrix (Fin m) (Fin n) ℝ) : Py ℕ :=
  if m = 0 ∨ n = 0 then .error .value else .ok A.rank

/-- `np.linalg.inv` -/
def npInv {n : ℕ} (A : Matrix (Fin n) (Fin n) ℝ) : Py (Matrix (Fin n) (Fin n) ℝ) :=
  if A.det = 0 then .error .linalg else .ok A⁻¹

/-- `linalg/utils.py` 889-900 `generalized_left_inverse` -/
def leftInverse {m n : ℕ} (A : Matrix (Fin m) (Fin n) ℝ) : Py (Matrix (Fin n) (Fin m) ℝ) :=
  (npInv (A.transpose * A)).map (· * A.transpose)

/-- `linalg/utils.py` 903-914 `generalized_right_inverse` -/
def rightInverse {m n : ℕ} (A : Matrix (Fin m) (Fin n) ℝ) : Py (Matrix (Fin n) (Fin m) ℝ) :=
  (npInv (A * A.transpose)).map (A.transpose * ·)

/-- The inverse of a matrix with equally many rows and columns. -/
def squareInverse {m n : ℕ} (A : Matrix (Fin m) (Fin n) ℝ) (h : m = n) :
    Py (Matrix (Fin n) (Fin m) ℝ) :=
  (npInv (A.submatrix (Fin.cast h.symm) id)).map (·.submatrix id (Fin.cast h))

/-- `linalg/utils.py` 917-944 `generalized_inverse`; inputs that are not matrices are refused in lines
932-933. -/
def generalizedInverse {m n : ℕ} (A : Matrix (Fin m) (Fin n) ℝ) : Py (Matrix (Fin n) (Fin m) ℝ) :=
  match matrixRank A with
  | .error e => .error e
  | .ok rank =>
    if h : m = n then if rank = n then squareInverse A h else .error .linalg
    else if n < m ∧ rank = n then leftInverse A
    else if m < n ∧ rank = m then rightInverse A
    else .error .linalg

/-- `linalg/logical.py` 96-109 `has_full_row_rank` -/
def hasFullRowRank {m n : ℕ} (A : Matrix (Fin m) (Fin n) ℝ) : Py Prop :=
  if n < m then .ok False else (matrixRank A).map (· = m)

/-- `linalg/logical.py` 112-125 `has_full_column_rank` -/
def hasFullColumnRank {m n : ℕ} (A : Matrix (Fin m) (Fin n) ℝ) : Py Prop :=
  if m < n then .ok False else (matrixRank A).map (· = n)

/-- `linalg/logical.py` 128-140 `has_full_rank` (arrays) -/
def hasFullRank {m n : ℕ} (A : Matrix (Fin m) (Fin n) ℝ) : Py Prop :=
  (matrixRank A).map (· = min m n)

/-! ## Symmetry and definiteness -/

/-- `linalg/logical.py` 87-93 `is_hermitian`, as a function of the shape. -/
def isHermitian (shape : List ℕ) : Py Bool :=
  match shape with
  | [] => .error .index
  | s0 :: rest => .ok (rest.all (· == s0))

/-- `logical.py` 57-62 `issymmetric` for matrices.  Rows and columns are broadcast against their
transposes, other rectangular matrices are refused. -/
def isSymmetric {m n : ℕ} (A : Matrix (Fin m) (Fin n) ℝ) (tol : ℝ) : Py Prop :=
  if h : m = n then
    .ok (Real.sqrt (∑ i, ∑ j, (A i j - A (Fin.cast h.symm j) (Fin.cast h i)) ^ 2) < tol)
  else if h : m = 1 then
    .ok (Real.sqrt (∑ i, ∑ j, (A (Fin.cast h.symm 0) j - A (Fin.cast h.symm 0) i) ^ 2) < tol)
  else if h : n = 1 then
    .ok (Real.sqrt (∑ i, ∑ j, (A i (Fin.cast h.symm 0) - A j (Fin.cast h.symm 0)) ^ 2) < tol)
  else .error .value

/-- `np.linalg.eigvals` of a real matrix: the roots of the characteristic polynomial. -/
def eigvals {n : ℕ} (A : Matrix (Fin n) (Fin n) ℝ) : Multiset ℂ :=
  (A.map (algebraMap ℝ ℂ)).charpoly.roots

/-- `z > t` for a complex and a real number in numpy: the real parts decide, then the imaginary
parts. -/
def cgt (z : ℂ) (t : ℝ) : Prop := t < z.re ∨ z.re = t ∧ 0 < z.im

/-- `z >= t` likewise. -/
def cge (z : ℂ) (t : ℝ) : Prop := t < z.re ∨ z.re = t ∧ 0 ≤ z.im

/-- `logical.py` 65-83 `isposdef` and, for `tol = 0`, `linalg/logical.py` 21-25 `is_pos_def`. -/
def isPosDef {n : ℕ} (A : Matrix (Fin n) (Fin n) ℝ) (tol : ℝ) : Prop := ∀ z ∈ eigvals A, cgt z tol

/-- `logical.py` 86-99 `ispossemidef` and `linalg/logical.py` 28-32 `is_pos_semidef`. -/
def isPosSemidef {n : ℕ} (A : Matrix (Fin n) (Fin n) ℝ) : Prop := ∀ z ∈ eigvals A, cge z 0

/-- `linalg/utils.py` 604-617 `random_pos_semidef_matrix`; `A` is what is drawn. -/
def randomPosSemidef {n : ℕ} (A : Matrix (Fin n) (Fin n) ℝ) : Matrix (Fin n) (Fin n) ℝ :=
  A.transpose * A

/-- `linalg/utils.py` 620-635 `random_posdef_matrix` -/
def randomPosDef {n : ℕ} (A : Matrix (Fin n) (Fin n) ℝ) (alpha : ℝ) : Matrix (Fin n) (Fin n) ℝ :=
  A * A.transpose + alpha • (1 : Matrix (Fin n) (Fin n) ℝ)

/-! ## Permutation tensor and unit vectors -/

/-- The matrix `mat` of lines 133-135 for a sequence `x` of indices. -/
def permMatrix (dim : ℕ) (x : List (Fin dim)) : Matrix (Fin dim) (Fin dim) ℤ := fun i j =>
  if x[(i : ℕ)]? = some j then 1 else 0

/-- `linalg/utils.py` 121-137 `permutation_tensor`, as a function of sequences of indices.
`itertools.permutations` is replaced by the permutations of a list in Mathlib, which come in another
order.  Determinants are exact, so `int(...)` of line 136 changes nothing. -/
def permutationTensor (dim : ℕ) : List (Fin dim) → ℤ :=
  (List.finRange dim).permutations.foldl
    (fun arr x => fun y => if y = x then (permMatrix dim x).det else arr y) fun _ => 0

end

/-- `linalg/utils.py` 947-952 `unit_basis_vector`: `np.bincount` refuses negative numbers, and its
result is as long as the index requires. -/
def unitBasisVector {K : Type} [Semiring K] (length index : ℤ) (value : K) : Py (List K) :=
  if length < 0 ∨ index < 0 then .error .value
  else .ok ((List.range (max length.toNat (index.toNat + 1))).map fun (i : ℕ) =>
    value * (if i = index.toNat then 1 else 0))

/-! ## Squeezing, `decorate.py` -/

/-- An array: shape and elements in order. -/
structure NArr (K : Type) where
  shape : List ℕ
  data : List K

/-- What a decorated function may return. -/
inductive Ret (K : Type) where
  | arr (a : NArr K)
  | other (k : K)
  | tuple (l : List (Ret K))
  | list (l : List (Ret K))
  | dict (l : List (String × Ret K))

/-- `np.squeeze`: unit axes are removed. -/
def npSqueeze {K : Type} (a : NArr K) : NArr K := ⟨a.shape.filter (· ≠ 1), a.data⟩

/-- `decorate.py` 8-9 `_squeeze_if_array` -/
def squeezeIfArray {K : Type} : Ret K → Ret K
  | .arr a => .arr (npSqueeze a)
  | r => r

/-- `decorate.py` 32-46: the result of the decorated function; `squeeze` is the keyword argument, if
given.  A tuple is returned as a list. -/
def squeezed {K : Type} (default : Bool) (squeeze : Option Bool) (res : Ret K) : Ret K :=
  if squeeze.getD default then
    match res with
    | .tuple l => .list (l.map squeezeIfArray)
    | .dict l => .dict (l.map fun p => (p.1, squeezeIfArray p.2))
    | r => squeezeIfArray r
  else res

end Verif.Lin
