import Verif.Model.RoundedFrames

/-!
# Repeated rotations of a frame with rounded arithmetic

A frame that is oriented again and again, with a vector attached to it, and a vector that is handed
from frame to frame.  As in `RoundedFrames`, every scalar product is evaluated along some plan.
-/

namespace Verif.RFrames
open Verif Verif.Rnd

section
variable {K : Type} [Field K] [LinearOrder K] {n : ℕ} (fl : K → K)

/-- The new axes in `orient`, `linalg/frame.py` 431-432 with `linalg/utils.py` 471-494:
`res[i, :] = dcm @ arr[i, :]`, where `dcm` is the transposed rotation matrix `R`. -/
def orientAxes (plan : Fin n → Fin n → Plan n) (R A : Matrix (Fin n) (Fin n) K) :
    Matrix (Fin n) (Fin n) K := fun i => matvec fl (plan i) R.transpose (A i)

/-- One call of `orient`: the rotation matrix (`linalg/utils.py` 115-118), the plans for the new axes
and those for updating attached vectors. -/
structure Turn (n : ℕ) (K : Type) where
  rot : Matrix (Fin n) (Fin n) K
  plan : Fin n → Fin n → Plan n
  upd : Plans n

/-- A frame and the components of a vector attached to it. -/
structure Rig (n : ℕ) (K : Type) where
  axes : Matrix (Fin n) (Fin n) K
  comps : Fin n → K

/-- `F.orient(...)` for a frame with a vector attached, `linalg/frame.py` 431-433 and the setter of the
axes (290-311): the vector is shown in a `ReferenceFrame` with the new axes, whatever the class of the
frame is, before the axes are replaced.  `dual` computes the dual of that frame (255-259:
`np.linalg.inv`, which is not modelled). -/
def turn (dual : Matrix (Fin n) (Fin n) K → Matrix (Fin n) (Fin n) K) (s : Rig n K) (t : Turn n K) :
    Rig n K :=
  let A := orientAxes fl t.plan t.rot s.axes
  ⟨A, showVector fl t.upd ⟨s.axes, dual s.axes⟩ ⟨A, dual A⟩ s.comps⟩

/-- Any number of calls of `orient`. -/
def turns (dual : Matrix (Fin n) (Fin n) K → Matrix (Fin n) (Fin n) K) (s : Rig n K)
    (l : List (Turn n K)) : Rig n K := l.foldl (turn fl dual) s

/-- A vector that is assigned one frame after the other, `v.frame = F` (`linalg/meta.py` 410-430:
the components become those shown in the new frame); the frame and the components at the end. -/
def hand (s : Frame n K × (Fin n → K)) (l : List (Frame n K × Plans n)) : Frame n K × (Fin n → K) :=
  l.foldl (fun s f => (f.1, showVector fl f.2 s.1 f.1 s.2)) s

end

end Verif.RFrames
