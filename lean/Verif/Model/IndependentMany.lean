import Verif.Model.Independent
import Mathlib.Logic.Equiv.Fin.Basic

/-!
# Model of the test for independence of any number of vectors, with rounding

`linalg/logical.py` 75-84 and `linalg/frame.py` 213-219, 248-253.  The factorization behind `np.linalg.det`, which is not
part of the repository, is modelled as Gaussian elimination with partial pivoting, one column after the other.  Variants
that subtract the updates of several columns at once (they occur for more than three vectors) are left out.  As in
`Model/Independent.lean`, underflow and overflow are not modelled.
-/

namespace Verif.Indep
open Verif Verif.Rnd Verif.RFrames

section
variable {K : Type} [Field K] [LinearOrder K] {n : ℕ} (fl : K → K)

/-- The row with the first entry of largest absolute value in the column. -/
def pivotRow {m : ℕ} (c : Fin (m + 1) → K) : Fin (m + 1) :=
  (List.finRange (m + 1)).foldl (fun p i => if |c p| < |c i| then i else p) 0

/-- What remains after the first column has been eliminated with the first row. -/
def reduced {m : ℕ} (lib : Lib) (G : Matrix (Fin (m + 1)) (Fin (m + 1)) K) : Matrix (Fin m) (Fin m) K :=
  fun i j => second fl lib (G 0 0) (G 0 j.succ) (G i.succ 0) (G i.succ j.succ)

/-- The sign of `np.linalg.det(G)`: every exchange of rows and every negative pivot turns it around; a pivot that is zero
gives zero. -/
def detSignN (lib : ℕ → Lib) : (m : ℕ) → Matrix (Fin m) (Fin m) K → SignType
  | 0, _ => 1
  | m + 1, G =>
    let p := pivotRow fun i => G i 0
    if G p 0 = 0 then 0
    else (if p = 0 then 1 else -1) *
      (SignType.sign (G p 0) * detSignN lib m (reduced fl (lib m) (G.submatrix (Equiv.swap 0 p) id)))

/-- `Gram(axes)` with rounded scalar products, `linalg/utils.py` 580-589. -/
def gramN {m : ℕ} (plan : Fin m → Fin m → Plan n) (axes : Matrix (Fin m) (Fin n) K) : Matrix (Fin m) (Fin m) K :=
  fun i j => (plan i j).eval fl (axes i) (axes j)

/-- `is_independent_frame(axes)`, `linalg/logical.py` 75-84, and `frame.is_independent` of general frames,
`linalg/frame.py` 213-219. -/
def isIndependentN {m : ℕ} (lib : ℕ → Lib) (plan : Fin m → Fin m → Plan n) (axes : Matrix (Fin m) (Fin n) K) : Bool :=
  decide (detSignN fl lib m (gramN fl plan axes) = 1)

/-- `frame.volume()` of general frames, `linalg/frame.py` 248-253. -/
def volumeN {m : ℕ} (lib : ℕ → Lib) (plan : Fin m → Fin m → Plan n) (axes : Matrix (Fin m) (Fin n) K) : Volume :=
  match detSignN fl lib m (gramN fl plan axes) with
  | .zero => .zero
  | .pos => .positive
  | .neg => .nan

end

end Verif.Indep
