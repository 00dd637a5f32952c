import Verif.Prelude
import Mathlib.Algebra.Field.Basic
import Mathlib.Algebra.Order.Group.Unbundled.Abs
import Mathlib.Algebra.Order.Field.Basic
import Mathlib.Algebra.BigOperators.Group.List.Basic
import Mathlib.Data.Rat.Defs
import Mathlib.Data.String.Basic

/-!
# Model of `choice`, `utils.py` 253-280

`np.random.choice` follows NumPy's `RandomState.choice` with replacement: the checks, the cumulative sums, one uniform
number for each entry, and the search in the sums.  The uniform numbers are a parameter, the compensated sum used in the
check is one, too.  Operations are rounded by `fl`.
-/

namespace Verif.Choice
open Verif

/-- The first argument: a list of items, or something that NumPy makes an array with more axes from. -/
inductive Choices (V : Type)
  | flat (l : List V)
  | nested (len : ℕ)

/-- `len(choices)` -/
def Choices.len {V : Type} : Choices V → ℕ
  | .flat l => l.length
  | .nested n => n

section
variable {K V : Type} [Field K] [LinearOrder K] (fl : K → K)

/-- `p.cumsum()`, from the sum so far. -/
def sumsFrom (acc : K) : List K → List K
  | [] => []
  | x :: xs => fl (acc + x) :: sumsFrom (fl (acc + x)) xs

/-- `p.cumsum()` -/
def cumsum : List K → List K
  | [] => []
  | x :: xs => x :: sumsFrom fl x xs

/-- `cdf.searchsorted(u, side="right")`: the place of the first entry that is larger than `u`.  (The array is sorted, so
that the binary search of NumPy finds this place.) -/
def searchRight (cdf : List K) (u : K) : ℕ := (cdf.takeWhile fun x => decide (x ≤ u)).length

/-- `cdf = p.cumsum(); cdf /= cdf[-1]` -/
def cdf (p : List K) : List K := (cumsum fl p).map fun x => fl (x / ((cumsum fl p).getLast?.getD 0))

/-- Lines 278-279: probabilities are the same for all items if they are not given. -/
def weights (n : ℕ) : Option (List K) → Py (List K)
  | some p => .ok p
  | none => if n = 0 then .error .zeroDiv else .ok (List.replicate n (fl (1 / n)))

/-- `choice(choices, size, probs)`.  `conv` is the conversion of the items by `np.array`; the result comes with its shape,
items in C order. -/
def choice (ksum : List K → K) (atol : K) (conv : List V → List V) (choices : Choices V) (size : List ℕ)
    (probs : Option (List K)) (us : ℕ → K) : Py (List ℕ × List V) := do
  let p ← weights fl choices.len probs                                 -- lines 278-279
  match choices with                                                   -- line 280
  | .nested _ => .error .value
  | .flat l =>
    if l.length = 0 ∧ size.prod ≠ 0 then .error .value
    else if p.length ≠ l.length then .error .value
    else if p.any fun x => decide (x < 0) then .error .value
    else if atol < |ksum p - 1| then .error .value
    else
      let items := conv l
      let out ← (List.range size.prod).mapM fun k =>
        match items[searchRight (cdf fl p) (us k)]? with
        | some v => (.ok v : Py V)
        | none => .error .index
      return (size, out)

end

/-! ### Conversion of items -/

/-- Items: whole numbers and texts. -/
inductive Item
  | int (z : ℤ)
  | text (s : String)
  deriving DecidableEq

/-- `np.array(choices)`: with a text among them all items become texts. -/
def npArray (l : List Item) : List Item :=
  if l.any fun x => match x with | .text _ => true | _ => false then
    l.map fun x => match x with
      | .int z => .text (toString z)
      | .text s => .text s
  else l

end Verif.Choice
