import Verif.Model.TensorOps

/-!
# Model of `np.allclose` and `np.isclose` for tensors

`linalg/abstract.py` 129-136 (dispatch), 181-190 (implementations).  Tensors have float components
and the same dimension; NaN is not modelled.  `cfg` holds the tolerances used by the checks of frames,
which play no role here.
-/

namespace Verif.Close
open Verif Verif.Frames

variable {n : ℕ} {K : Type} [Field K] [LinearOrder K]

/-- A positional argument of `np.allclose` or `np.isclose`. -/
inductive Arg (n : ℕ) (K : Type)
  | tensor (a : Tensor n K)
  | number (x : K)
  /-- an array, a list, … -/
  | array

/-- An array whose axes have the length `n`. -/
structure Arr (n : ℕ) (K : Type) where
  ndim : ℕ
  entry : (Fin ndim → Fin n) → K

/-- The array of components. -/
def Arr.ofComps : Comps n K → Arr n K
  | .vec v => ⟨1, fun t => v (t 0)⟩
  | .ten2 A => ⟨2, fun t => A (t 0) (t 1)⟩
  | .gen r a => ⟨r, a⟩

/-- Broadcasting of numpy to `k` axes: the last axes are matched. -/
def Arr.broadcast (k : ℕ) (a : Arr n K) (h : a.ndim ≤ k) : (Fin k → Fin n) → K :=
  fun t => a.entry fun j => t ⟨k - a.ndim + j, by omega⟩

/-- `np.isclose` of arrays. -/
def iscloseArr (rtol atol : K) (a b : Arr n K) : (Fin (max a.ndim b.ndim) → Fin n) → Bool :=
  fun t =>
    let x := a.broadcast _ (le_max_left _ _) t
    let y := b.broadcast _ (le_max_right _ _) t
    decide (|x - y| ≤ atol + rtol * |y|)

/-- `x.show() if isinstance(x, TensorLike) else x`, `linalg/abstract.py` 183, 189, after the check of the
types in `__array_function__`, 129-136. -/
def Arg.resolve (cfg : Cfg K) : Arg n K → Py (Arr n K)
  | .tensor a => do return .ofComps (← a.show cfg none)
  | .number x => .ok ⟨0, fun _ => x⟩
  | .array => .error .type

/-- A boolean array. -/
structure BoolArr (n : ℕ) where
  ndim : ℕ
  entry : (Fin ndim → Fin n) → Bool

/-- `np.isclose(a, b, rtol=rtol, atol=atol)` where at least one argument is a tensor: `linalg/abstract.py` 187-190.  The check
of the types comes first. -/
def isclose (cfg : Cfg K) (rtol atol : K) (a b : Arg n K) : Py (BoolArr n) :=
  match a, b with
  | .array, _ => .error .type
  | _, .array => .error .type
  | a, b => do
      let x ← a.resolve cfg
      let y ← b.resolve cfg
      return ⟨_, iscloseArr rtol atol x y⟩

/-- `np.allclose(a, b, rtol=rtol, atol=atol)`: `linalg/abstract.py` 181-184. -/
def allclose (cfg : Cfg K) (rtol atol : K) (a b : Arg n K) : Py Bool :=
  match a, b with
  | .array, _ => .error .type
  | _, .array => .error .type
  | a, b => do
      let x ← a.resolve cfg
      let y ← b.resolve cfg
      return decide (∀ t, iscloseArr rtol atol x y t = true)

end Verif.Close
