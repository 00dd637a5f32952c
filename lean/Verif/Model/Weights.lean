import Verif.Model.LeastSq
import Mathlib.Algebra.Order.Group.Unbundled.Abs
import Mathlib.Algebra.BigOperators.Fin

/-!
# Weight functions, `src/sigmaepsilon/math/approx/functions.py`

Numbers are elements of a linearly ordered field.
-/

namespace Verif.Wt
open Verif Verif.LS

section
variable {K : Type} [Field K] [LinearOrder K]

/-! ## Construction -/

/-- What can be given as the core: `None`, an integer, another scalar, a sequence or an array. -/
inductive CoreArg (K : Type) where
  | none
  | int (i : ℤ)
  | scalar (v : K)
  | seq (l : List K)

/-- What is stored as the core. -/
inductive Core (K : Type) where
  | none
  | scalar (v : K)
  | vec (l : List K)

/-- The state of a weight function. -/
structure Obj (K : Type) where
  core : Core K
  dimension : Option ℕ
  sd : Option (List K)

/-- `functions.py` 15-46 `MLSWeightFunction.__init__`.  `dim` is the keyword argument of the base class
(`function.py` 199); it is overwritten if a dimension follows from the core.  Only one dimensional
sequences are modelled. -/
def mk (core : CoreArg K) (supportdomain sd : Option (List K)) (dim : Option ℕ) : Py (Obj K) :=
  if sd.isSome && supportdomain.isSome then .error .value
  else
    let sd' := match sd with
      | some s => some s
      | none => supportdomain
    match core with
    | .none => .ok ⟨.none, dim, sd'⟩
    | .int _ => .ok ⟨.vec [0], some 1, sd'⟩
    | .scalar v => .ok ⟨.scalar v, dim, sd'⟩
    | .seq l => .ok ⟨.vec l, some l.length, sd'⟩

/-- `functions.py` 52-63, the setter of `core`: `None` is refused, numbers become arrays of length one.
The dimension is not changed. -/
def setCore (o : Obj K) : CoreArg K → Py (Obj K)
  | .none => .error .value
  | .int i => .ok { o with core := .vec [(i : K)] }
  | .scalar v => .ok { o with core := .vec [v] }
  | .seq l => .ok { o with core := .vec l }

/-! ## Cubic weights -/

/-- `functions.py` 181-202 (and 215-253 for the other direction): value, first and second derivative of
the one dimensional weight for the difference `dif` of core and point and the size `dm` of the support
domain.  The literal `1e-12` is taken as the exact power of ten. -/
def cubicR (dif dm : K) : K × K × K :=
  let r := |dif| / dm
  let drd := if |dif| < 1 / 10 ^ 12 then 0 else (dif / |dif|) / dm
  if r ≤ 1 / 2 then
    (2 / 3 - 4 * r ^ 2 + 4 * r ^ 3, (-8 * r + 12 * r ^ 2) * drd, (-8 + 24 * r) * drd * drd)
  else if 1 / 2 < r ∧ r ≤ 1 then
    (4 / 3 - 4 * r + 4 * r ^ 2 - (4 / 3) * r ^ 3, (-4 + 8 * r - 4 * r ^ 2) * drd,
      (8 - 8 * r) * drd * drd)
  else (0, 0, 0)

/-- `functions.py` 180-208 `CubicWeightFunction._evaluate_1d` -/
def cubic1 (sd core : Pt 1 K) : Weight 1 K where
  f x := (cubicR (core 0 - x 0) (sd 0)).1
  g x := ![(cubicR (core 0 - x 0) (sd 0)).2.1]
  G x := ![![(cubicR (core 0 - x 0) (sd 0)).2.2]]

/-- `functions.py` 210-259 `CubicWeightFunction._evaluate_2d` -/
def cubic2 (sd core : Pt 2 K) : Weight 2 K where
  f x := (cubicR (core 0 - x 0) (sd 0)).1 * (cubicR (core 1 - x 1) (sd 1)).1
  g x := ![(cubicR (core 1 - x 1) (sd 1)).1 * (cubicR (core 0 - x 0) (sd 0)).2.1,
    (cubicR (core 0 - x 0) (sd 0)).1 * (cubicR (core 1 - x 1) (sd 1)).2.1]
  G x := ![![(cubicR (core 1 - x 1) (sd 1)).1 * (cubicR (core 0 - x 0) (sd 0)).2.2,
      (cubicR (core 0 - x 0) (sd 0)).2.1 * (cubicR (core 1 - x 1) (sd 1)).2.1],
    ![(cubicR (core 0 - x 0) (sd 0)).2.1 * (cubicR (core 1 - x 1) (sd 1)).2.1,
      (cubicR (core 0 - x 0) (sd 0)).1 * (cubicR (core 1 - x 1) (sd 1)).2.2]]

/-- `functions.py` 172-178 `CubicWeightFunction.evaluate`: the weight function with support domain
`sd` and core `core`, refused (on evaluation) in dimensions other than one and two. -/
def cubic : (dim : ℕ) → (sd core : Pt dim K) → Py (Weight dim K)
  | 1, sd, core => .ok (cubic1 sd core)
  | 2, sd, core => .ok (cubic2 sd core)
  | _, _, _ => .error .notImplemented

/-! ## The other weights -/

/-- `functions.py` 109-135 `ConstantWeightFunction`, with or without a support domain. -/
def constant (dim : ℕ) (value : K) (sd : Option (Pt dim K)) (core : Pt dim K) : Weight dim K where
  f x := match sd with
    | none => value
    | some s =>
      if (List.finRange dim).any (fun i => decide (1 < |(core i - x i) / s i|)) then 0 else value
  g _ _ := 0
  G _ _ _ := 0

/-- `functions.py` 138-156 `SingularWeightFunction`; the square of the norm is the sum of the squares.
The support domain is not used. -/
def singular (dim : ℕ) (eps : K) (core : Pt dim K) : Weight dim K where
  f x := 1 / (((List.finRange dim).map fun i => (core i - x i) ^ 2).sum + eps ^ 2)
  g _ _ := 0
  G _ _ _ := 0

end

end Verif.Wt
