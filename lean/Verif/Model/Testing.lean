import Verif.Model.TensorOps

/-!
# The assertions of `linalg/testing.py`

Components are exact; the tolerances are those of `numpy.allclose`, which are those of `numpy.isclose`.  Single
vectors and tensors.
-/

namespace Verif.Frames

section
variable {n : ℕ} {K : Type} [Field K] [LinearOrder K]

/-- `t.T`: the components in reverse order of the indices, in a new frame of the class of the frame of `t` with a
copy of its axes; `linalg/meta.py` 432-467. -/
def Tensor.transposed (cfg : Cfg K) (t : Tensor n K) : Py (Tensor n K) := do
  let f ← mkFrame cfg t.frame.cls t.frame.axes
  return ⟨t.comps.transpose, f⟩

/-- `numpy.allclose(a, b)`; arrays of other shapes do not occur. -/
def allclose (cfg : Cfg K) (a b : Comps n K) : Bool :=
  match a, b with
  | .vec v, .vec w => decide (∀ i, cfg.isclose (v i) (w i) = true)
  | .ten2 A, .ten2 B => decide (∀ i j, cfg.isclose (A i j) (B i j) = true)
  | .gen r x, .gen s y =>
      if h : r = s then decide (∀ t, cfg.isclose (x t) (y fun k => t (k.cast h.symm)) = true) else false
  | _, _ => false

/-- `self.assertTrue(b)` -/
def assertTrue (b : Bool) : Py Unit := if b then .ok () else .error .assertion

/-- Arithmetic of two arrays. -/
def arith (f : K → K → K) (a b : Comps n K) : Py (Comps n K) :=
  match a.zip f b with
  | some c => .ok c
  | none => .error .value

/-- `assertTensorDualityRules(t)`: `linalg/testing.py` 11-13. -/
def assertDuality (cfg : Cfg K) (t : Tensor n K) : Py Unit := do
  let d ← dualOf cfg t.frame t.comps
  let dd ← dualOf cfg d.2 d.1
  let a ← showIn cfg dd.2 dd.1 none
  let b ← t.show cfg none
  assertTrue (allclose cfg a b)

/-- `assertTensorTranspositionRules(t)`: `linalg/testing.py` 15-27; the deep copy has a `ReferenceFrame`
(`linalg/meta.py` 341-361). -/
def assertTransposition (cfg : Cfg K) (t : Tensor n K) : Py Unit := do
  let a ← t.show cfg none
  let tt ← (← t.transposed cfg).transposed cfg
  assertTrue (allclose cfg a (← tt.show cfg none))
  let t2 : Tensor n K := ⟨t.comps.map (· * 2), ⟨.reference, t.frame.axes⟩⟩
  let s ← binary cfg (· + ·) t (.tensor t2)
  let l ← (← s.transposed cfg).show cfg none
  let r ← arith (· + ·) (← (← t.transposed cfg).show cfg none) (← (← t2.transposed cfg).show cfg none)
  assertTrue (allclose cfg l r)
  let s ← binary cfg (· - ·) t (.tensor t2)
  let l ← (← s.transposed cfg).show cfg none
  let r ← arith (· - ·) (← (← t.transposed cfg).show cfg none) (← (← t2.transposed cfg).show cfg none)
  assertTrue (allclose cfg l r)

/-- `assertSymmetricTensor(t)`: `linalg/testing.py` 29-31. -/
def assertSymmetric (cfg : Cfg K) (t : Tensor n K) : Py Unit := do
  let a ← t.show cfg none
  let b ← (← t.transposed cfg).show cfg none
  let d ← arith (· - ·) a b
  assertTrue (allclose cfg (t.comps.map fun _ => 0) d)

end
end Verif.Frames
