import Verif.Props.Utils

/-! # Further properties of the utilities (C33) -/

namespace Verif.Utils.Props
open Verif.Utils

variable {K : Type} [Field K] [LinearOrder K]

/-- C33: any other order than "C" and "F" is not refused: `flatten2d` returns `None`. -/
theorem C33_flatten2d_other_order (I J : ℕ) (a : ℕ → ℕ → K) (order : String)
    (hC : order ≠ "C") (hF : order ≠ "F") : flatten2d I J a order = none := by
  simp [flatten2d, hC, hF]

/-- ... e.g. for the lower case letter -/
example : flatten2d 1 2 (fun _ j => (j : ℚ)) "c" = none :=
  C33_flatten2d_other_order 1 2 _ "c" (by decide) (by decide)

end Verif.Utils.Props
