import Verif.Prelude
import Mathlib.Data.List.FinRange
import Mathlib.LinearAlgebra.Matrix.NonsingularInverse

/-!
# Model of `approx/lagrange.py`

The values of expressions that do not contain the variable are elements of a field `K`: numbers, or
expressions in other symbols.  A `sympy` expression that is a polynomial in the variable is the list
of its coefficients, lowest degree first; `expand`, `simplify` and `factor` do not change its value
and are left out.
-/

namespace Verif.Lag
open Verif

variable {K : Type} [Field K] [DecidableEq K]

/-- A polynomial by its coefficients. -/
abbrev PolyL (K : Type) := List K

/-- The value of a polynomial (what `lambdify` of the expression computes). -/
def PolyL.eval (p : PolyL K) (x : K) : K := p.foldr (fun c acc => c + x * acc) 0

/-- `lagrange.py` 22-23 `_diff` -/
def PolyL.diff (p : PolyL K) : PolyL K := (p.zipIdx.map fun c => c.1 * (c.2 : K)).tail

/-- `lagrange.py` 129-134: the matrix of the coefficients of the unknowns in the values of the
polynomial at the nodes. -/
def system {N : ℕ} (x : Fin N → K) : Matrix (Fin N) (Fin N) K := fun i j => x i ^ (j : ℕ)

/-- `Matrix.inv` of `sympy`: raises for singular matrices. -/
def inv {N : ℕ} (A : Matrix (Fin N) (Fin N) K) : Py (Matrix (Fin N) (Fin N) K) :=
  if A.det = 0 then .error .linalg else .ok (A.det⁻¹ • A.adjugate)

/-- `lagrange.py` 135-139: the coefficient of the symbol of point `j` in the solution.  Points with the
same index share a symbol, then their contributions are added up. -/
def shape {N : ℕ} (Ainv : Matrix (Fin N) (Fin N) K) (ind : Fin N → ℤ) (j : Fin N) : PolyL K :=
  List.ofFn fun i => ∑ k, if ind k = ind j then Ainv i k else 0

/-- The entry of one point: the function and three derivatives. -/
structure Entry (K : Type) where
  f0 : PolyL K
  f1 : PolyL K
  f2 : PolyL K
  f3 : PolyL K
  deriving DecidableEq

/-- `lagrange.py` 141-143 -/
def entry (p : PolyL K) : Entry K := ⟨p, p.diff, p.diff.diff, p.diff.diff.diff⟩

/-- The argument `out`: absent, a `DeepDict`, or a plain dictionary without the keys. -/
inductive Out
  | absent
  | deep
  | plain
  deriving DecidableEq

/-- The arguments of `gen_Lagrange_1d`. -/
structure Args (K : Type) where
  x : Option (List K) := none
  i : Option (List ℤ) := none
  sym : Bool := false
  N : Option ℕ := none
  lambdify : Bool := false
  out : Out := .absent

/-- `numpy.linspace(-1, 1, N)` for `N ≥ 2` -/
def linspace (N : ℕ) : List K :=
  (List.range N).map fun (i : ℕ) => -1 + (i : K) * (2 / ((N : K) - 1))

/-- `lagrange.py` 113-115: the number of points. -/
def count (a : Args K) : Py ℕ :=
  match a.N, a.x, a.i with
  | some N, _, _ => .ok N
  | none, some x, _ => .ok x.length
  | none, none, some i => .ok i.length
  | none, none, none => .error .assertion

/-- `lagrange.py` 116: the indices. -/
def inds (a : Args K) (N : ℕ) : List ℤ :=
  match a.i with
  | none => (List.range N).map fun (k : ℕ) => (k : ℤ) + 1
  | some i => i

/-- `lagrange.py` 120-125: the nodes.  The symbols generated for `sym=True` are the elements
`symbol 1`, `symbol 2`, … of `K`. -/
def nodeList (symbol : ℕ → K) (a : Args K) (N : ℕ) : List K :=
  match a.x, a.sym with
  | some x, _ => x
  | none, false => linspace N
  | none, true => (List.range N).map fun (k : ℕ) => symbol (k + 1)

/-- `lagrange.py` 117-161, the part of `gen_Lagrange_1d` after the number of points is known. -/
def genWith (symbol : ℕ → K) (a : Args K) (N : ℕ) : Py (List (ℤ × Entry K)) :=
  -- `sy.symbols("")` raises, `sy.symbols("c_1")` is a symbol that cannot be enumerated
  if N = 0 then .error .value
  else if (inds a N).length < N then .error .index
  else if N = 1 then .error .type
  else if (nodeList symbol a N).length < N then .error .index
  else (inv (system fun i : Fin N => (nodeList symbol a N).getD i 0)).bind fun Ainv =>
    if a.out = .plain then .error .key
    else if N < (inds a N).length then .error .index
    else if a.lambdify && a.sym then .error .assertion
    else .ok ((List.finRange N).map fun (j : Fin N) =>
      ((inds a N).getD j 0, entry (shape Ainv (fun k => (inds a N).getD k 0) j)))

/-- `lagrange.py` 26-161 `gen_Lagrange_1d`.  The result lists the entries in the order in which they
are stored. -/
def genLagrange (symbol : ℕ → K) (a : Args K) : Py (List (ℤ × Entry K)) :=
  (count a).bind fun N => genWith symbol a N

/-- A value stored under an index: the one stored last. -/
def lookup (d : List (ℤ × Entry K)) (ind : ℤ) : Py (Entry K) :=
  match d.reverse.find? (fun e => e.1 = ind) with
  | some e => .ok e.2
  | none => .error .key

/-- `a * f` -/
def PolyL.smul (a : K) (p : PolyL K) : PolyL K := p.map (a * ·)

/-- `f + g` -/
def PolyL.add : PolyL K → PolyL K → PolyL K
  | [], q => q
  | p, [] => p
  | a :: p, b :: q => (a + b) :: PolyL.add p q

/-- `lagrange.py` 164-227 `approx_Lagrange_1d` -/
def approxLagrange (symbol : ℕ → K) (points values : List K) : Py (PolyL K) := do
  if points.length ≠ values.length then .error .assertion
  let indices : List ℤ := (List.range points.length).map fun (k : ℕ) => (k : ℤ)
  let basis ← genLagrange symbol { x := some points, i := some indices }
  let shp0 ← indices.mapM fun i => (lookup basis i).map Entry.f0
  return ((values.zip shp0).map fun p => p.2.smul p.1).foldl PolyL.add []

end Verif.Lag
