import Verif.Model.LeastSq
import Mathlib.Logic.Function.Basic

/-!
# Fits and weight functions as objects, `src/sigmaepsilon/math/approx/ls.py`, `approx/functions.py`

Weight functions have a state, the core, and fits made by `moving_least_squares` keep a reference to the
weight function and to the data they were given.  A session is a sequence of operations on these objects.
Everything in one session has the same number of coordinates; weights of another dimension are covered by
`weightedLeastSquares` in `Model/LeastSq.lean`.
-/

namespace Verif.FitObj
open Verif Verif.LS

section
variable {K : Type} [Field K] [LinearOrder K]

/-- Two NumPy arrays of the user with as many points as values. -/
structure Data (dim r : ℕ) (K : Type) where
  n : ℕ
  points : Fin n → Pt dim K
  values : Fin n → Fin r → K

/-- A point as it is given to the library: an array of the user, known by its number, or something else
(a list, a tuple), which is copied into a new array. -/
inductive XArg (dim : ℕ) (K : Type) where
  | array (a : ℕ)
  | copy (x : Pt dim K)

/-- A weight function: `family c` is what it computes while its core is `c` (`none`: the core was never
set), `core` the object in its attribute `_core`, `functions.py` 45. -/
structure WObj (dim : ℕ) (K : Type) where
  family : Option (Pt dim K) → Py (Weight dim K)
  core : Option (XArg dim K)

/-- What can be given as the argument `w`: nothing, a weight function, another callable. -/
inductive WArg (dim : ℕ) (K : Type) where
  | none
  | weight (w : ℕ)
  | callable (g : Pt dim K → K)

/-- The arguments `points` and `values`: two arrays of the user, or two lists. -/
inductive DArg (dim r : ℕ) (K : Type) where
  | arrays (i : ℕ)
  | lists (d : Data dim r K)

/-- The functions returned to the user.  A fit of `weighted_least_squares` closes over the matrices
computed when it was made (`ls.py` 174-302).  A fit of `moving_least_squares` closes over the arrays and
the weight function, `ls.py` 30-43; `none` is the weight function made in `ls.py` 28. -/
inductive FitObj (dim r : ℕ) (K : Type) where
  | frozen (F : Fit dim r K)
  | moving (data : ℕ) (w : Option ℕ) (deg : ℕ) (order : ℤ)

/-- The objects of a session. -/
structure State (dim r : ℕ) (K : Type) where
  data : ℕ → Data dim r K
  arrays : ℕ → Pt dim K
  weights : ℕ → WObj dim K
  fits : List (FitObj dim r K)

variable {dim r : ℕ}

/-- The numbers in a point that was given. -/
def State.point (s : State dim r K) : XArg dim K → Pt dim K
  | .array a => s.arrays a
  | .copy x => x

/-- What a weight function computes in the present state: the core is looked up when the function is
called (`functions.py` 121, 150, 181). -/
def State.weight (s : State dim r K) (w : ℕ) : Py (Weight dim K) :=
  (s.weights w).family ((s.weights w).core.map s.point)

/-- `functions.py` 52-63, the setter of `core`: an array is stored as it is, other things are copied. -/
def State.setCore (s : State dim r K) (w : ℕ) (x : XArg dim K) : State dim r K :=
  { s with weights := Function.update s.weights w { s.weights w with core := some x } }

/-- `functions.py` 97-106 `isMLSWeightFunction`, as it is used in `ls.py` 27-28 and 139-142: another
callable is replaced like `None`. -/
def WArg.object : WArg dim K → Option ℕ
  | .none => .none
  | .weight w => some w
  | .callable _ => .none

/-- `ls.py` 139-142: the weight used in a fit. -/
def State.weightArg (s : State dim r K) : Option ℕ → Py (Weight dim K)
  | none => .ok (constWeight dim 1)
  | some w => s.weight w

/-- `ls.py` 90-171 `weighted_least_squares` with the weight in the present state. -/
def State.fit (s : State dim r K) (d : Data dim r K) (deg : ℕ) (order : ℤ) (w : Option ℕ) :
    Py (Fit dim r K) :=
  (s.weightArg w).bind fun W => weightedLeastSquares d.points d.values deg order (some ⟨dim, W⟩)

/-- `ls.py` 123-127: lists are copied into arrays. -/
def State.dataArg (s : State dim r K) : DArg dim r K → Data dim r K
  | .arrays i => s.data i
  | .lists d => d

/-- What the user can do. -/
inductive Op (dim r : ℕ) (K : Type) where
  /-- the numbers in the arrays of points and values are replaced -/
  | writeData (data : ℕ) (d : Data dim r K)
  /-- the numbers in an array are replaced -/
  | writeArray (a : ℕ) (x : Pt dim K)
  /-- `w.core = x` -/
  | setCore (w : ℕ) (x : XArg dim K)
  /-- another weight function, support domain or parameter under the same name -/
  | setFamily (w : ℕ) (family : Option (Pt dim K) → Py (Weight dim K))
  /-- `weighted_least_squares(points, values, deg=…, order=…, w=…)` -/
  | weighted (data : DArg dim r K) (deg : ℕ) (order : ℤ) (w : WArg dim K)
  /-- `moving_least_squares(points, values, deg=…, order=…, w=…)` -/
  | moving (data : DArg dim r K) (deg : ℕ) (order : ℤ) (w : WArg dim K)
  /-- `fit(x)` -/
  | eval (fit : ℕ) (x : XArg dim K)
  /-- `w(x)` -/
  | weigh (w : ℕ) (x : Pt dim K)

/-- What an operation returns. -/
inductive Ret (dim r : ℕ) (K : Type) where
  | unit
  | fit (k : ℕ)
  | out (o : Out dim (HIdx dim) r K)
  | number (v : K)

/-- `ls.py` 30-43: a fit is called.  The core of the weight function is set before anything can fail. -/
def State.evaluate (s : State dim r K) (x : XArg dim K) :
    FitObj dim r K → State dim r K × Py (Out dim (HIdx dim) r K)
  | .frozen F => (s, .ok (F (s.point x)))
  | .moving data w deg order =>
    let s' := match w with
      | none => s
      | some w => s.setCore w x
    (s', (s'.fit (s'.data data) deg order w).map fun F => F (s'.point x))

/-- One operation.  `moving_least_squares` reads `points.shape` before anything else (`ls.py` 25), which
lists do not have. -/
def step (s : State dim r K) : Op dim r K → State dim r K × Py (Ret dim r K)
  | .writeData i d => ({ s with data := Function.update s.data i d }, .ok .unit)
  | .writeArray a x => ({ s with arrays := Function.update s.arrays a x }, .ok .unit)
  | .setCore w x => (s.setCore w x, .ok .unit)
  | .setFamily w fam =>
    ({ s with weights := Function.update s.weights w { s.weights w with family := fam } }, .ok .unit)
  | .weighted data deg order w =>
    match s.fit (s.dataArg data) deg order w.object with
    | .error e => (s, .error e)
    | .ok F => ({ s with fits := s.fits ++ [.frozen F] }, .ok (.fit s.fits.length))
  | .moving (.lists _) _ _ _ => (s, .error .attribute)
  | .moving (.arrays data) deg order w =>
    ({ s with fits := s.fits ++ [.moving data w.object deg order] }, .ok (.fit s.fits.length))
  | .eval k x =>
    match s.fits[k]? with
    | none => (s, .error .generic)
    | some f => ((s.evaluate x f).1, (s.evaluate x f).2.map .out)
  | .weigh w x => (s, (s.weight w).map fun W => .number (W.f x))

/-- A session: the operations one after the other; an exception ends only the operation in which it
occurs. -/
def run (s : State dim r K) (ops : List (Op dim r K)) : State dim r K :=
  ops.foldl (fun s op => (step s op).1) s

end

end Verif.FitObj
