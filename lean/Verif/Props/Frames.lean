import Verif.Proofs.Frames
import Mathlib.Data.Real.Sqrt
import Mathlib.LinearAlgebra.Matrix.Notation
import Mathlib.Tactic.NormNum

/-!
# Properties of frames and of the tensors attached to them (C42, C43, C44, C48, C50, C62 - C65)

What components stand for is `ambient E c`: every index is expanded in the base vectors, the rows of
`E`.
-/

set_option linter.unusedSectionVars false

namespace Verif.Frames.Props

open Matrix

variable {n : ℕ} {K : Type} [Field K] [LinearOrder K]

/-- Nothing exists. -/
def emptyHeap : Heap n K := ⟨0, fun _ => ⟨⟨.reference, 1⟩, []⟩, 0, fun _ => ⟨.vec 0, 0⟩⟩

/-- The operation gives no `CartesianFrame` axes that are not orthonormal.  The constructor checks
this, the `axes` setter and `orient` do not.  Single entries are assigned only if no tensor is
attached to the frame. -/
def SoundOp (cfg : Cfg K) (h : Heap n K) : Op n K → Prop
  | .newFrame cls axes =>
      cls = .cartesian → (∃ f, mkFrame cfg cls axes = .ok f) → Orthonormal axes
  | .setAxes f value => (h.frames f).frame.cls = .cartesian → Orthonormal value
  | .orient f R => (h.frames f).frame.cls = .cartesian → R * Rᵀ = 1
  | .orientNew f R => (h.frames f).frame.cls = .cartesian → R * Rᵀ = 1
  | .setItem f value => (h.frames f).reg = [] ∧ ((h.frames f).frame.cls = .cartesian → Orthonormal value)
  | _ => True

/-- Every operation of the list is sound in the state in which it is executed. -/
def SoundOps (cfg : Cfg K) : List (Op n K) → Heap n K → Prop
  | [], _ => True
  | op :: ops, h => SoundOp cfg h op ∧ SoundOps cfg ops (op.run cfg h).1

theorem setItem_eq (cfg : Cfg K) (h : Heap n K) (f : ℕ) (value : Mat n K)
    (hr : (h.frames f).reg = []) : h.setItem f value = h.setAxes cfg f value := by
  unfold Heap.setItem Heap.setAxes
  simp only [hr, if_true]

theorem op_spec (cfg : Cfg K) (h : Heap n K) (hi : h.Inv) (op : Op n K) (hs : SoundOp cfg h op) :
    (op.run cfg h).1.Inv ∧ h.Keeps (op.run cfg h).1 := by
  cases op with
  | newFrame cls axes =>
    show (h.newFrame cfg cls axes).1.Inv ∧ h.Keeps (h.newFrame cfg cls axes).1
    cases hm : mkFrame cfg cls axes with
    | error e =>
      unfold Heap.newFrame
      rw [hm]
      exact ⟨hi, Heap.Keeps.refl h⟩
    | ok f => exact newFrame_spec cfg h hi cls axes (fun hc => hs hc ⟨f, hm⟩)
  | newTensor c f => exact newTensor_spec h hi c f
  | setFrame t f => exact setFrame_spec cfg h hi t f
  | setFrameArray t axes =>
    obtain ⟨a1, a2⟩ := addFrame_spec h hi ⟨.reference, axes⟩ (by intro hx; cases hx)
    obtain ⟨b1, b2⟩ := setFrame_spec cfg _ a1 t h.nF
    exact ⟨b1, a2.trans b2⟩
  | setAxes f value => exact setAxes_spec cfg h hi f value (fun _ => hs)
  | inplace f o => exact inplace_spec cfg h hi f o
  | orient f R => exact orient_spec cfg h hi f R (fun _ => hs)
  | orientNew f R =>
    show (h.orientNew cfg f R).1.Inv ∧ h.Keeps (h.orientNew cfg f R).1
    unfold Heap.orientNew Heap.copyFrame
    by_cases hf : f < h.nF
    · rw [if_pos hf]
      obtain ⟨a1, a2⟩ := newFrame_spec cfg h hi (h.frames f).frame.cls (h.frames f).frame.axes
        (fun hc => hi.cart f hf hc)
      cases hn : h.newFrame cfg (h.frames f).frame.cls (h.frames f).frame.axes with
      | mk h' e =>
        rw [hn] at a1 a2
        cases e with
        | some e => exact ⟨a1, a2⟩
        | none =>
          obtain ⟨-, hnew⟩ := newFrame_new cfg h h' _ _ hn
          obtain ⟨b1, b2⟩ := orient_spec cfg h' a1 h.nF R (by
            intro _ hc
            rw [hnew] at hc
            exact hs hc)
          exact ⟨b1, a2.trans b2⟩
    · rw [if_neg hf]
      exact ⟨hi, Heap.Keeps.refl h⟩
  | transposeFrame f =>
    refine setAxes_spec cfg h hi f _ ?_
    intro hf hc
    exact hi.cart f hf hc
  | setItem f value =>
    show (h.setItem f value).1.Inv ∧ h.Keeps (h.setItem f value).1
    rw [setItem_eq cfg h f value hs.1]
    exact setAxes_spec cfg h hi f value (fun _ => hs.2)
  | ufuncOut f value =>
    show (h.ufuncOut cfg f value).1.Inv ∧ h.Keeps (h.ufuncOut cfg f value).1
    unfold Heap.ufuncOut
    cases hc : (h.frames f).frame.cls with
    | reference =>
      exact setAxes_spec cfg h hi f value (by intro _ hx; rw [hc] at hx; cases hx)
    | rectangular => exact ⟨hi, Heap.Keeps.refl h⟩
    | cartesian => exact ⟨hi, Heap.Keeps.refl h⟩
  | copyFrame f =>
    show (h.copyFrame cfg f).1.Inv ∧ h.Keeps (h.copyFrame cfg f).1
    unfold Heap.copyFrame
    by_cases hf : f < h.nF
    · rw [if_pos hf]
      exact newFrame_spec cfg h hi _ _ (fun hc => hi.cart f hf hc)
    · rw [if_neg hf]
      exact ⟨hi, Heap.Keeps.refl h⟩
  | copyTensor t =>
    show (h.copyTensor t).1.Inv ∧ h.Keeps (h.copyTensor t).1
    unfold Heap.copyTensor
    by_cases ht : t < h.nT
    · rw [if_pos ht]; exact newTensor_spec h hi _ _
    · rw [if_neg ht]; exact ⟨hi, Heap.Keeps.refl h⟩
  | deepcopyTensor t =>
    show (h.deepcopyTensor t).1.Inv ∧ h.Keeps (h.deepcopyTensor t).1
    unfold Heap.deepcopyTensor
    by_cases ht : t < h.nT
    · rw [if_pos ht]; exact methodCopy_spec h hi _ _ (by intro hx; cases hx)
    · rw [if_neg ht]; exact ⟨hi, Heap.Keeps.refl h⟩
  | methodCopy t =>
    show (h.methodCopy t).1.Inv ∧ h.Keeps (h.methodCopy t).1
    unfold Heap.methodCopy
    by_cases ht : t < h.nT
    · rw [if_pos ht]; exact methodCopy_spec h hi _ _ (by intro hx; cases hx)
    · rw [if_neg ht]; exact ⟨hi, Heap.Keeps.refl h⟩

theorem ops_spec (cfg : Cfg K) (ops : List (Op n K)) (h : Heap n K) (hi : h.Inv)
    (hs : SoundOps cfg ops h) :
    (runOps cfg ops h).Inv ∧ h.Keeps (runOps cfg ops h) := by
  induction ops generalizing h with
  | nil => exact ⟨hi, Heap.Keeps.refl h⟩
  | cons op ops ih =>
    obtain ⟨a1, a2⟩ := op_spec cfg h hi op hs.1
    obtain ⟨b1, b2⟩ := ih _ a1 hs.2
    exact ⟨b1, a2.trans b2⟩

theorem emptyHeap_inv : (emptyHeap : Heap n K).Inv := by
  refine ⟨?_, ?_, ?_, ?_⟩ <;> intro t ht <;> exact absurd ht (Nat.not_lt_zero t)

theorem soundOps_append (cfg : Cfg K) (a b : List (Op n K)) (h : Heap n K)
    (hs : SoundOps cfg (a ++ b) h) :
    SoundOps cfg a h ∧ SoundOps cfg b (runOps cfg a h) := by
  induction a generalizing h with
  | nil => exact ⟨trivial, hs⟩
  | cons op a ih => exact ⟨⟨hs.1, (ih _ hs.2).1⟩, (ih _ hs.2).2⟩

/-! ## C42 -/

/-- C42, partial: take any program made of the modelled operations, and stop it anywhere.  Whatever
is done afterwards, every vector and tensor that exists at this point stands for the same object.
Exceptions do not matter: they are caught and the program goes on, also if one is raised half way
through a statement.

Missing, because it is false: axes that are not orthonormal assigned to a `CartesianFrame`
(`C42_cartesian_violated`), and single entries assigned to a frame with attached tensors
(`C42_item_violated`); both are excluded by `SoundOps`. -/
theorem C42_objectivity_partial (cfg : Cfg K) (before after : List (Op n K))
    (hs : SoundOps cfg (before ++ after) emptyHeap) (t : ℕ)
    (ht : t < (runOps cfg before emptyHeap).nT) :
    (runOps cfg (before ++ after) emptyHeap).ambientOf t =
      (runOps cfg before emptyHeap).ambientOf t := by
  obtain ⟨h1, h2⟩ := soundOps_append cfg before after _ hs
  obtain ⟨i1, -⟩ := ops_spec cfg before _ emptyHeap_inv h1
  obtain ⟨-, k⟩ := ops_spec cfg after _ i1 h2
  have : runOps cfg (before ++ after) emptyHeap =
      runOps cfg after (runOps cfg before emptyHeap) := List.foldl_append
  rw [this]
  exact k.same t ht

/-- C42: `t.frame = f` does what it says: it succeeds for a general frame with independent axes, and
then `t` lives in `f`. -/
theorem C42_setFrame (cfg : Cfg K) (h : Heap n K) (t f : ℕ) (ht : t < h.nT) (hf : f < h.nF)
    (hcls : (h.frames f).frame.cls = .reference) (hdet : (h.frames f).frame.axes.det ≠ 0) :
    ∃ h', h.setFrame cfg t f = (h', none) ∧ (h'.tensors t).frame = f ∧
      (∀ u, u ≠ t → h'.tensors u = h.tensors u) := by
  obtain ⟨B, hB⟩ := inv_exists hdet
  have hd : (h.frames f).frame.dual cfg = .ok ⟨.reference, Bᵀ⟩ := by
    unfold Frame.dual
    rw [hcls]
    unfold dualFrame
    rw [hB]
    rfl
  have hs : showIn cfg (h.frames (h.tensors t).frame).frame (h.tensors t).comps
      (some (h.frames f).frame) = .ok ((h.tensors t).comps.transform
        (Bᵀ * (h.frames (h.tensors t).frame).frame.axesᵀ)) := by
    rw [showIn_eq, dcmTarget_eq]
    rw [Option.getD_some, hd]
    rfl
  unfold Heap.setFrame
  rw [if_pos ⟨ht, hf⟩]
  simp only
  rw [hs]
  refine ⟨_, rfl, ?_, ?_⟩
  · show ((Function.update h.tensors t _) t).frame = f
    rw [Function.update_self]
  · intro u hu
    show (Function.update h.tensors t _) u = h.tensors u
    rw [Function.update_of_ne hu]

/-- C42: `f.axes = value` succeeds for independent axes, the frame has the new axes and keeps its
class, and no tensor changes its frame. -/
theorem C42_setAxes (cfg : Cfg K) (h : Heap n K) (f : ℕ) (hf : f < h.nF) (value : Mat n K)
    (hdet : value.det ≠ 0) :
    ∃ h', h.setAxes cfg f value = (h', none) ∧
      (h'.frames f).frame = ⟨(h.frames f).frame.cls, value⟩ ∧
      (∀ g, g ≠ f → h'.frames g = h.frames g) := by
  obtain ⟨B, hB⟩ := inv_exists hdet
  have hd : (h.frames f).frame.dcmTarget cfg ⟨.reference, value⟩ =
      .ok (Bᵀ * (h.frames f).frame.axesᵀ) := by
    unfold Frame.dcmTarget Frame.dual dualFrame
    rw [hB]
    rfl
  unfold Heap.setAxes
  rw [if_pos hf]
  simp only
  split
  · refine ⟨_, rfl, ?_, fun g hg => ?_⟩
    · show (Function.update h.frames f _ f).frame = _
      rw [Function.update_self]
    · show Function.update h.frames f _ g = _
      rw [Function.update_of_ne hg]
  · rw [hd]
    refine ⟨_, rfl, ?_, fun g hg => ?_⟩
    · show (Function.update h.frames f _ f).frame = _
      rw [Function.update_self]
    · show Function.update h.frames f _ g = _
      rw [Function.update_of_ne hg]

/-- C42: dependent axes cannot be given to a frame with tensors; the assignment raises and changes
nothing. -/
theorem C42_setAxes_singular (cfg : Cfg K) (h : Heap n K) (f : ℕ) (hf : f < h.nF) (value : Mat n K)
    (hdet : value.det = 0) (hreg : (h.frames f).reg ≠ []) :
    h.setAxes cfg f value = (h, some .linalg) := by
  have hd : (h.frames f).frame.dcmTarget cfg ⟨.reference, value⟩ = .error .linalg := by
    unfold Frame.dcmTarget Frame.dual dualFrame
    rw [inv_singular hdet]
    rfl
  unfold Heap.setAxes
  rw [if_pos hf]
  simp only
  rw [if_neg hreg, hd]

/-- The first component of what a vector stands for, used to evaluate examples. -/
def _root_.Verif.Frames.Comps.comp (c : Comps n K) (i : Fin n) : K :=
  match c with
  | .vec v => v i
  | .ten2 A => A i i
  | .gen _ a => a fun _ => i

/-- A square root that is exact on squares. -/
def qrt (x : ℚ) : ℚ := (Nat.sqrt x.num.toNat : ℚ) / (Nat.sqrt x.den : ℚ)

/-- NumPy's default tolerances. -/
def npCfg : Cfg ℚ := ⟨1 / 100000000, 1 / 100000, qrt⟩

/-- No tolerances. -/
def exactCfg : Cfg ℚ := ⟨0, 0, qrt⟩

/-- C42 is violated: a Cartesian frame takes any axes (here twice the unit matrix) and goes on to
pretend that it is its own dual.  A vector `(1, 0)` moved into this frame becomes `(4, 0)`. -/
theorem C42_cartesian_violated :
    let h : Heap 2 ℚ := runOps npCfg [.newFrame .cartesian 1, .setAxes 0 !![2, 0; 0, 2],
      .newFrame .reference 1, .newTensor (.vec ![1, 0]) 1] emptyHeap
    ((Op.setFrame 0 0).run npCfg h).2 = none ∧
      (h.ambientOf 0).comp 0 = 1 ∧
      (((Op.setFrame 0 0).run npCfg h).1.ambientOf 0).comp 0 = 4 := by
  refine ⟨by decide +kernel, by decide +kernel, by decide +kernel⟩

/-- C42 is violated: `f[key] = x` changes the frame but not the vector `(1, 0)` attached to it, which
then stands for `(2, 0)`. -/
theorem C42_item_violated :
    let h : Heap 2 ℚ := runOps npCfg [.newFrame .reference 1, .newTensor (.vec ![1, 0]) 0] emptyHeap
    ((Op.setItem 0 !![2, 0; 0, 1]).run npCfg h).2 = none ∧
      (h.ambientOf 0).comp 0 = 1 ∧
      (((Op.setItem 0 !![2, 0; 0, 1]).run npCfg h).1.ambientOf 0).comp 0 = 2 := by
  refine ⟨by decide +kernel, by decide +kernel, by decide +kernel⟩

/-- The hypotheses of C42 can be met by a program that uses every class: the vector `(3, 4)` goes
through a skewed frame that is changed in place. -/
example :
    let prog : List (Op 2 ℚ) := [.newFrame .reference !![1, 1; 0, 2], .newTensor (.vec ![3, 4]) 0,
      .newFrame .cartesian !![0, 1; -1, 0], .inplace 0 (.mulNumber 3), .setFrame 0 1,
      .inplace 1 (.divNumber 2), .deepcopyTensor 0]
    SoundOps npCfg prog emptyHeap ∧
      ((runOps npCfg prog emptyHeap).ambientOf 0).comp 0 = 3 ∧
      ((runOps npCfg prog emptyHeap).ambientOf 1).comp 1 = 11 ∧
      ((runOps npCfg prog emptyHeap).tensors 0).frame = 2 := by
  refine ⟨⟨(by intro h; cases h), trivial, ?_, trivial, trivial, trivial, trivial, trivial⟩,
    by decide +kernel, by decide +kernel, by decide +kernel⟩
  intro _ _
  show _ * _ = _
  decide +kernel

/-! ## C43 -/

/-- C43: reading the components back restores them. -/
theorem C43_round_trip (cfg : Cfg K) (S T : Frame n K) (hS : CartOK S) (hT : CartOK T)
    (c d e : Comps n K) (h1 : showIn cfg S c (some T) = .ok d)
    (h2 : showIn cfg T d (some S) = .ok e) : e = c := by
  obtain ⟨Q, hQ, rfl⟩ := showIn_ok h1
  obtain ⟨P, hP, rfl⟩ := showIn_ok h2
  have q := dcmTarget_ok hT hQ
  have p := dcmTarget_ok hS hP
  have hdS : ∃ D : Mat n K, S.axesᵀ * D = 1 := by
    unfold Frame.dcmTarget at hP
    cases hd : S.dual cfg with
    | error e => rw [hd] at hP; cases hP
    | ok D => exact ⟨D.axes, (dual_ok hS hd).1⟩
  obtain ⟨D, hD⟩ := hdS
  have hD' : D * S.axesᵀ = 1 := mul_eq_one_comm.1 hD
  have : P * Q = 1 := by
    have h3 : S.axesᵀ * (P * Q) = S.axesᵀ := by rw [← Matrix.mul_assoc, p, q]
    have := congrArg (fun M => D * M) h3
    simpa [← Matrix.mul_assoc, hD'] using this
  rw [transform_comp, this, transform_one]

/-- C43: going through an intermediate frame gives the same as going directly. -/
theorem C43_compose (cfg : Cfg K) (S T U : Frame n K) (hT : CartOK T) (hU : CartOK U)
    (c d e e' : Comps n K) (h1 : showIn cfg S c (some T) = .ok d)
    (h2 : showIn cfg T d (some U) = .ok e) (h3 : showIn cfg S c (some U) = .ok e') : e = e' := by
  obtain ⟨Q, hQ, rfl⟩ := showIn_ok h1
  obtain ⟨P, hP, rfl⟩ := showIn_ok h2
  obtain ⟨R, hR, rfl⟩ := showIn_ok h3
  have q := dcmTarget_ok hT hQ
  have p := dcmTarget_ok hU hP
  have r := dcmTarget_ok hU hR
  have hdU : ∃ D : Mat n K, U.axesᵀ * D = 1 := by
    unfold Frame.dcmTarget at hP
    cases hd : U.dual cfg with
    | error e => rw [hd] at hP; cases hP
    | ok D => exact ⟨D.axes, (dual_ok hU hd).1⟩
  obtain ⟨D, hD⟩ := hdU
  have hD' : D * U.axesᵀ = 1 := mul_eq_one_comm.1 hD
  have : P * Q = R := by
    have h4 : U.axesᵀ * (P * Q) = U.axesᵀ * R := by rw [← Matrix.mul_assoc, p, q, r]
    have := congrArg (fun M => D * M) h4
    simpa [← Matrix.mul_assoc, hD'] using this
  rw [transform_comp, this]

/-- C43: the two ways to ask for the direction cosine matrix agree, for frames of all classes, also
when they raise. -/
theorem C43_dcm_agree (cfg : Cfg K) (S T : Frame n K) :
    T.dcmSource cfg S = S.dcmTarget cfg T := rfl

/-- C43: for a general target frame the call succeeds exactly if the axes are independent. -/
theorem C43_succeeds (cfg : Cfg K) (S T : Frame n K) (hT : T.cls = .reference) (c : Comps n K) :
    (T.axes.det ≠ 0 → ∃ d, showIn cfg S c (some T) = .ok d) ∧
      (T.axes.det = 0 → showIn cfg S c (some T) = .error .linalg) := by
  have hd : T.dual cfg = (dualFrame T.axes).bind fun D => .ok ⟨.reference, D⟩ := by
    unfold Frame.dual
    rw [hT]
    rfl
  constructor
  · intro h
    obtain ⟨B, hB⟩ := inv_exists h
    rw [showIn_eq, dcmTarget_eq]
    rw [Option.getD_some, hd]
    unfold dualFrame
    rw [hB]
    exact ⟨_, rfl⟩
  · intro h
    rw [showIn_eq, dcmTarget_eq]
    rw [Option.getD_some, hd]
    unfold dualFrame
    rw [inv_singular h]
    rfl

/-- C43: without a target the components in the ambient frame are shown. -/
theorem C43_ambient (cfg : Cfg K) (S : Frame n K) (c : Comps n K) :
    showIn cfg S c none = .ok (ambient S.axes c) := by
  have h1 : (ambientFrame : Frame n K).dual cfg = .ok ⟨.reference, 1⟩ := by
    unfold Frame.dual ambientFrame dualFrame
    rw [inv_of_mul_eq_one (A := (1 : Mat n K)) (B := 1) (by simp)]
    simp [Except.map, mkFrame, bind, Except.bind]
  rw [showIn_eq, dcmTarget_eq]
  rw [Option.getD_none, h1]
  simp [bind, Except.bind, pure, Except.pure, ambient_eq]

/-- The hypotheses of C43 can be met by a skewed and a Cartesian frame. -/
example :
    let S : Frame 2 ℚ := ⟨.reference, !![1, 1; 0, 2]⟩
    let T : Frame 2 ℚ := ⟨.cartesian, !![0, 1; -1, 0]⟩
    CartOK T ∧ (showIn exactCfg S (.vec ![3, 1]) (some T)).map (fun c => c.comp 0) = .ok 5 := by
  refine ⟨fun _ => ?_, by decide +kernel⟩
  show _ * _ = _
  decide +kernel

/-! ## C44 -/

/-- The off-diagonal products of the base vectors vanish. -/
def Perpendicular (E : Mat n K) : Prop := ∀ i j, i ≠ j → (∑ k, E i k * E j k) = 0

section ordered
variable [IsStrictOrderedRing K]

/-- C44: base vectors of the dual are biorthogonal to those of the frame. -/
theorem C44_biorthogonal (cfg : Cfg K) (f d : Frame n K) (hf : CartOK f)
    (h : f.dual cfg = .ok d) (i j : Fin n) :
    ∑ k, d.axes i k * f.axes j k = if i = j then 1 else 0 := by
  have h1 := mul_eq_one_comm.1 (dual_ok hf h).1
  have h2 := congrFun (congrFun h1 i) j
  rw [Matrix.mul_apply, Matrix.one_apply] at h2
  exact h2

/-- C44: the dual of the dual is the frame. -/
theorem C44_involution (cfg : Cfg K) (f d dd : Frame n K) (hf : CartOK f)
    (h : f.dual cfg = .ok d) (h' : d.dual cfg = .ok dd) : dd = f := by
  have hd := dual_ok hf h
  have hcd : CartOK d := by
    intro hc
    rw [hd.2] at hc
    have : d = f := by
      unfold Frame.dual at h
      rw [hc] at h
      cases h
      rfl
    rw [this]
    exact hf hc
  have hdd := dual_ok hcd h'
  have e1 : f.axes * d.axesᵀ = 1 := by
    have := congrArg Matrix.transpose (mul_eq_one_comm.1 hd.1)
    simpa using this
  have e2 : d.axesᵀ * dd.axes = 1 := hdd.1
  have : dd.axes = f.axes := by
    calc dd.axes = (f.axes * d.axesᵀ) * dd.axes := by rw [e1, Matrix.one_mul]
      _ = f.axes := by rw [Matrix.mul_assoc, e2, Matrix.mul_one]
  cases f; cases dd
  simp only at this hdd hd
  rw [this, hdd.2, hd.2]

/-- The matrix of scalar products of the base vectors. -/
def products (E : Mat n K) : Mat n K := Matrix.of fun i j => ∑ k, E i k * E j k

theorem products_eq (E : Mat n K) : products E = E * Eᵀ := by
  ext i j; simp [products, Matrix.mul_apply]

theorem gram_eq (f : Frame n K) (hf : CartOK f) : f.Gram = products f.axes := by
  unfold Frame.Gram
  cases hc : f.cls with
  | cartesian => simp only; rw [products_eq]; exact (hf hc).symm
  | reference => simp only; rw [products_eq]; rfl
  | rectangular => simp only; rw [products_eq]; rfl

/-- C44: the Gram matrices are those of the scalar products of the base vectors, and inverse to each
other. -/
theorem C44_gram (cfg : Cfg K) (f d : Frame n K) (hf : CartOK f) (hd : CartOK d)
    (h : f.dual cfg = .ok d) :
    f.Gram = products f.axes ∧ d.Gram = products d.axes ∧ f.Gram * d.Gram = 1 := by
  refine ⟨gram_eq f hf, gram_eq d hd, ?_⟩
  rw [gram_eq f hf, gram_eq d hd, products_eq, products_eq]
  have e1 := (dual_ok hf h).1
  have e2 : f.axes * d.axesᵀ = 1 := by
    have := congrArg Matrix.transpose (mul_eq_one_comm.1 e1)
    simpa using this
  calc f.axes * f.axesᵀ * (d.axes * d.axesᵀ)
      = f.axes * ((f.axesᵀ * d.axes) * d.axesᵀ) := by simp only [Matrix.mul_assoc]
    _ = 1 := by rw [e1, Matrix.one_mul, e2]

/-- `rt` is the square root of the numbers that are not negative. -/
def IsSqrt (rt : K → K) : Prop := ∀ x, 0 ≤ x → 0 ≤ rt x ∧ rt x * rt x = x

theorem isSqrt_unique {rt : K → K} (h : IsSqrt rt) {x y : K} (hy : 0 ≤ y) (hxy : y * y = x) :
    rt x = y := by
  have hx : 0 ≤ x := hxy ▸ mul_nonneg hy hy
  obtain ⟨h1, h2⟩ := h x hx
  nlinarith [mul_self_eq_mul_self_iff.1 (h2.trans hxy.symm)]

theorem volume_eq (cfg : Cfg K) (hrt : IsSqrt cfg.rt) (f : Frame n K) (hf : CartOK f) :
    f.volume cfg = |f.axes.det| := by
  have hdet : (products f.axes).det = |f.axes.det| * |f.axes.det| := by
    rw [products_eq, Matrix.det_mul, Matrix.det_transpose, abs_mul_abs_self]
  unfold Frame.volume
  cases hc : f.cls with
  | cartesian =>
    simp only
    have h1 := hf hc
    unfold Orthonormal at h1
    have := congrArg Matrix.det h1
    rw [Matrix.det_mul, Matrix.det_transpose, Matrix.det_one] at this
    rcases mul_self_eq_one_iff.1 this with h | h <;> rw [h] <;> simp
  | reference =>
    simp only
    rw [gram_eq f hf, hdet]
    exact isSqrt_unique hrt (abs_nonneg _) rfl
  | rectangular =>
    simp only
    rw [gram_eq f hf, hdet]
    exact isSqrt_unique hrt (abs_nonneg _) rfl

/-- C44: the volumes are reciprocal. -/
theorem C44_volume (cfg : Cfg K) (hrt : IsSqrt cfg.rt) (f d : Frame n K) (hf : CartOK f)
    (hd : CartOK d) (h : f.dual cfg = .ok d) : f.volume cfg * d.volume cfg = 1 := by
  rw [volume_eq cfg hrt f hf, volume_eq cfg hrt d hd, ← abs_mul]
  have := congrArg Matrix.det (dual_ok hf h).1
  rw [Matrix.det_mul, Matrix.det_transpose, Matrix.det_one] at this
  rw [this, abs_one]

/-- C44: the volume is that of the parallelepiped without its sign, although it is documented as
signed: it differs from the determinant for every left handed frame. -/
theorem C44_volume_not_signed (cfg : Cfg K) (hrt : IsSqrt cfg.rt) (f : Frame n K) (hf : CartOK f) :
    f.volume cfg = |f.axes.det| ∧ (f.axes.det < 0 → f.volume cfg ≠ f.axes.det) := by
  refine ⟨volume_eq cfg hrt f hf, fun h => ?_⟩
  rw [volume_eq cfg hrt f hf, abs_of_neg h]
  intro h2
  linarith

theorem isclose_self (cfg : Cfg K) (ha : 0 ≤ cfg.atol) (hr : 0 ≤ cfg.rtol) (x : K) :
    cfg.isclose x x = true := by
  unfold Cfg.isclose
  rw [sub_self, abs_zero]
  exact decide_eq_true (add_nonneg ha (mul_nonneg hr (abs_nonneg x)))

theorem perpendicular_iff (E : Mat n K) :
    Perpendicular E ↔ ∀ i j, i ≠ j → (E * Eᵀ) i j = 0 := by
  unfold Perpendicular
  simp only [Matrix.mul_apply, Matrix.transpose_apply]

theorem rectangular_of_perpendicular (cfg : Cfg K) (ha : 0 ≤ cfg.atol) (hr : 0 ≤ cfg.rtol)
    (E : Mat n K) (hE : Perpendicular E) : isRectangularFrame cfg E = true := by
  unfold isRectangularFrame
  have : ∀ i, ∑ j, ((E * Eᵀ).map fun x => |x|) i j = ((E * Eᵀ).map fun x => |x|) i i := by
    intro i
    refine Finset.sum_eq_single i ?_ (fun h => absurd (Finset.mem_univ i) h)
    intro j _ hji
    rw [Matrix.map_apply, (perpendicular_iff E).1 hE i j (Ne.symm hji), abs_zero]
  simp only [this]
  exact isclose_self cfg ha hr _

/-- C44: the dual exists if the axes are independent; for a `RectangularFrame` they have to be
perpendicular, as the class promises. -/
theorem C44_dual_exists (cfg : Cfg K) (ha : 0 ≤ cfg.atol) (hr : 0 ≤ cfg.rtol) (f : Frame n K)
    (hdet : f.axes.det ≠ 0) (hp : f.cls = .rectangular → Perpendicular f.axes) :
    ∃ d, f.dual cfg = .ok d := by
  unfold Frame.dual
  obtain ⟨B, hB⟩ := inv_exists hdet
  cases hc : f.cls with
  | cartesian => exact ⟨f, rfl⟩
  | reference =>
    simp only
    unfold dualFrame
    rw [hB]
    exact ⟨_, rfl⟩
  | rectangular =>
    simp only
    have hperp := (perpendicular_iff _).1 (hp hc)
    obtain ⟨-, h1, h2⟩ := inv_ok hB
    have hG : (Bᵀ * B) * (f.axes * f.axesᵀ) = 1 := by
      calc Bᵀ * B * (f.axes * f.axesᵀ) = Bᵀ * ((B * f.axes) * f.axesᵀ) := by
            simp only [Matrix.mul_assoc]
        _ = 1 := by rw [h2, Matrix.one_mul, ← Matrix.transpose_mul, h1, Matrix.transpose_one]
    have hBp : Perpendicular Bᵀ := by
      rw [perpendicular_iff, Matrix.transpose_transpose]
      intro i j hij
      have hcol : ∀ i, (Bᵀ * B) i j * (f.axes * f.axesᵀ) j j = (1 : Mat n K) i j := by
        intro i
        rw [← hG, Matrix.mul_apply (M := Bᵀ * B)]
        symm
        refine Finset.sum_eq_single j ?_ (fun h => absurd (Finset.mem_univ j) h)
        intro k _ hkj
        rw [hperp k j hkj, mul_zero]
      have hjj := hcol j
      rw [Matrix.one_apply_eq] at hjj
      have hij' := hcol i
      rw [Matrix.one_apply_ne hij] at hij'
      rcases mul_eq_zero.1 hij' with h | h
      · exact h
      · rw [h, mul_zero] at hjj
        exact absurd hjj zero_ne_one
    unfold dualFrame
    rw [hB]
    refine ⟨⟨.rectangular, Bᵀ⟩, ?_⟩
    show mkFrame cfg .rectangular Bᵀ = _
    unfold mkFrame
    simp only
    rw [rectangular_of_perpendicular cfg ha hr _ hBp, if_pos rfl]

/-- The hypotheses of C44 can be met: a skewed frame, and its dual. -/
example : let f : Frame 2 ℚ := ⟨.reference, !![1, 1; 0, 2]⟩
    CartOK f ∧ (f.dual exactCfg).map (fun d => (d.axes 0 0, d.axes 0 1, d.axes 1 0, d.axes 1 1)) =
      .ok (1, 0, -1/2, 1/2) := by
  refine ⟨fun h => ?_, by decide +kernel⟩
  cases h

/-- A square root exists. -/
example : IsSqrt Real.sqrt := fun x hx => ⟨Real.sqrt_nonneg x, Real.mul_self_sqrt hx⟩

/-! ## C50 -/

theorem sum_split (A : Mat n K) :
    (∑ i, ∑ j, |A i j|) - ∑ i, |A i i| = ∑ i, ∑ j, if i = j then 0 else |A i j| := by
  rw [← Finset.sum_sub_distrib]
  refine Finset.sum_congr rfl fun i _ => ?_
  have : ∀ j, (if i = j then 0 else |A i j|) = |A i j| - if i = j then |A i j| else 0 := by
    intro j; split <;> simp
  simp only [this, Finset.sum_sub_distrib, Finset.sum_ite_eq, Finset.mem_univ, if_true]

/-- C50, with tolerances: `is_rectangular` says that the sum of the off-diagonal products is small
compared to the tolerances, which do not scale with the frame. -/
theorem C50_is_rectangular_partial (cfg : Cfg K) (E : Mat n K) :
    isRectangularFrame cfg E = true ↔
      (∑ i, ∑ j, if i = j then 0 else |products E i j|) ≤
        cfg.atol + cfg.rtol * ∑ i, ∑ j, |products E i j| := by
  unfold isRectangularFrame Cfg.isclose
  rw [decide_eq_true_iff, products_eq]
  simp only [Matrix.map_apply]
  have h0 : 0 ≤ ∑ i, ∑ j, |(E * Eᵀ) i j| :=
    Finset.sum_nonneg fun i _ => Finset.sum_nonneg fun j _ => abs_nonneg _
  rw [abs_sub_comm, sum_split, abs_of_nonneg h0, abs_of_nonneg]
  refine Finset.sum_nonneg fun i _ => Finset.sum_nonneg fun j _ => ?_
  split
  · exact le_rfl
  · exact abs_nonneg _

/-- C50: without tolerances `is_rectangular` holds exactly if the base vectors are perpendicular. -/
theorem C50_is_rectangular_exact (cfg : Cfg K) (ha : cfg.atol = 0) (hr : cfg.rtol = 0)
    (E : Mat n K) : isRectangularFrame cfg E = true ↔ Perpendicular E := by
  rw [C50_is_rectangular_partial, ha, hr, zero_mul, add_zero]
  have hnn : ∀ i j, 0 ≤ (if i = j then 0 else |products E i j| : K) := by
    intro i j
    split
    · exact le_rfl
    · exact abs_nonneg _
  constructor
  · intro h i j hij
    have h1 : (∑ i, ∑ j, if i = j then 0 else |products E i j|) = 0 :=
      le_antisymm h (Finset.sum_nonneg fun i _ => Finset.sum_nonneg fun j _ => hnn i j)
    have h2 := (Finset.sum_eq_zero_iff_of_nonneg
      (fun i _ => Finset.sum_nonneg fun j _ => hnn i j)).1 h1 i (Finset.mem_univ i)
    have h3 := (Finset.sum_eq_zero_iff_of_nonneg (fun j _ => hnn i j)).1 h2 j (Finset.mem_univ j)
    rw [if_neg hij] at h3
    exact abs_eq_zero.1 h3
  · intro h
    refine le_of_eq (Finset.sum_eq_zero fun i _ => Finset.sum_eq_zero fun j _ => ?_)
    split
    · rfl
    · rename_i hij
      rw [abs_eq_zero]
      exact h i j hij

theorem isNormal_iff (cfg : Cfg K) (ha : cfg.atol = 0) (hr : cfg.rtol = 0) (hrt : IsSqrt cfg.rt)
    (E : Mat n K) : isNormalFrame cfg E = true ↔ ∀ i, ∑ j, E i j * E i j = 1 := by
  unfold isNormalFrame Cfg.isclose
  simp only [List.all_eq_true, List.mem_finRange, true_implies, decide_eq_true_iff]
  refine forall_congr' fun i => ?_
  rw [ha, hr, zero_mul, add_zero]
  have hs : ∑ j, E i j ^ 2 = ∑ j, E i j * E i j :=
    Finset.sum_congr rfl fun j _ => pow_two _
  rw [hs]
  have h0 : 0 ≤ ∑ j, E i j * E i j := Finset.sum_nonneg fun j _ => mul_self_nonneg _
  constructor
  · intro h
    have h1 : cfg.rt (∑ j, E i j * E i j) = 1 := by
      have := abs_nonpos_iff.1 h
      linarith
    obtain ⟨-, h2⟩ := hrt _ h0
    rw [h1, one_mul] at h2
    exact h2.symm
  · intro h
    rw [h, isSqrt_unique hrt zero_le_one (one_mul 1), sub_self, abs_zero]

theorem orthonormal_iff (E : Mat n K) :
    Orthonormal E ↔ Perpendicular E ∧ ∀ i, ∑ j, E i j * E i j = 1 := by
  unfold Orthonormal
  constructor
  · intro h
    refine ⟨fun i j hij => ?_, fun i => ?_⟩
    · have := congrFun (congrFun h i) j
      rw [Matrix.mul_apply, Matrix.one_apply_ne hij] at this
      exact this
    · have := congrFun (congrFun h i) i
      rw [Matrix.mul_apply, Matrix.one_apply_eq] at this
      exact this
  · rintro ⟨h1, h2⟩
    ext i j
    rw [Matrix.mul_apply, Matrix.one_apply]
    split
    · rename_i hij
      subst hij
      exact h2 i
    · rename_i hij
      exact h1 i j hij

/-- C50: without tolerances `is_cartesian` holds exactly if the base vectors are orthonormal. -/
theorem C50_is_cartesian_exact (cfg : Cfg K) (ha : cfg.atol = 0) (hr : cfg.rtol = 0)
    (hrt : IsSqrt cfg.rt) (E : Mat n K) : isOrthonormalFrame cfg E = true ↔ Orthonormal E := by
  unfold isOrthonormalFrame
  rw [Bool.and_eq_true, C50_is_rectangular_exact cfg ha hr, isNormal_iff cfg ha hr hrt,
    orthonormal_iff]

/-- What the class of a frame promises. -/
def Promise (f : Frame n K) : Prop :=
  (f.cls = .rectangular → Perpendicular f.axes) ∧ (f.cls = .cartesian → Orthonormal f.axes)

/-- C50: without tolerances a constructor succeeds exactly if the axes keep the promise of the
class. -/
theorem C50_constructors (cfg : Cfg K) (ha : cfg.atol = 0) (hr : cfg.rtol = 0)
    (hrt : IsSqrt cfg.rt) (cls : FrameCls) (E : Mat n K) :
    (∃ f, mkFrame cfg cls E = .ok f) ↔ Promise ⟨cls, E⟩ := by
  unfold mkFrame Promise
  cases cls with
  | reference => simp
  | rectangular =>
    simp only [forall_true_left, reduceCtorEq, false_implies, and_true]
    rw [← C50_is_rectangular_exact cfg ha hr]
    by_cases h : isRectangularFrame cfg E = true <;> simp [h]
  | cartesian =>
    simp only [forall_true_left, reduceCtorEq, false_implies, true_and]
    rw [← C50_is_cartesian_exact cfg ha hr hrt]
    unfold isOrthonormalFrame
    by_cases h : isRectangularFrame cfg E = true <;> by_cases h' : isNormalFrame cfg E = true <;>
      simp [h, h']

/-- C50 is violated: a small skewed frame (base vectors 1e-5, at 45 degrees) passes for a
rectangular one, and `RectangularFrame` accepts it. -/
theorem C50_small_frame_violated :
    let E : Mat 2 ℚ := !![1/100000, 0; 1/100000, 1/100000]
    isRectangularFrame npCfg E = true ∧ ¬ Perpendicular E ∧
      (mkFrame npCfg .rectangular E).map (fun f => f.isRectangular npCfg) = .ok true := by
  refine ⟨by decide +kernel, ?_, by decide +kernel⟩
  intro h
  have := h 0 1 (by decide)
  revert this
  decide +kernel

/-- C50 is violated: a rectangular frame takes any axes, and still says that it is rectangular. -/
theorem C50_setter_violated :
    let h : Heap 2 ℚ := runOps npCfg [.newFrame .rectangular 1, .setAxes 0 !![1, 1; 0, 1]] emptyHeap
    (h.frames 0).frame.isRectangular npCfg = true ∧ ¬ Perpendicular (h.frames 0).frame.axes := by
  refine ⟨by decide +kernel, ?_⟩
  intro h
  have := h 0 1 (by decide)
  revert this
  decide +kernel

/-- C50 is violated: rectangular frames always say that their axes are independent, also the zero
axes, which the constructor accepts. -/
theorem C50_independent_violated :
    (mkFrame npCfg .rectangular (0 : Mat 2 ℚ)).map (fun f => (f.isIndependent, f.axes.det)) =
      .ok (true, 0) := by
  decide +kernel

/-- C50: general frames say that their axes are independent exactly if they are. -/
theorem C50_independent (E : Mat n K) :
    (Frame.isIndependent ⟨.reference, E⟩ = true ↔ E.det ≠ 0) := by
  unfold Frame.isIndependent Frame.Gram gram
  simp only [decide_eq_true_iff, gt_iff_lt]
  rw [Matrix.det_mul, Matrix.det_transpose]
  exact mul_self_pos

/-- C50: for orthonormal axes the shortcuts of `CartesianFrame` give what a general frame gives. -/
theorem C50_shortcuts (cfg : Cfg K) (hrt : IsSqrt cfg.rt) (E : Mat n K) (hE : Orthonormal E) :
    (Frame.dual cfg ⟨.cartesian, E⟩).map Frame.axes =
        (Frame.dual cfg ⟨.reference, E⟩).map Frame.axes ∧
      Frame.Gram ⟨.cartesian, E⟩ = Frame.Gram ⟨.reference, E⟩ ∧
      Frame.volume cfg ⟨.cartesian, E⟩ = Frame.volume cfg ⟨.reference, E⟩ := by
  refine ⟨?_, hE.symm, ?_⟩
  · unfold Frame.dual dualFrame
    rw [inv_of_mul_eq_one hE]
    show Except.ok E = Except.ok Eᵀᵀ
    rw [Matrix.transpose_transpose]
  · rw [volume_eq cfg hrt ⟨.cartesian, E⟩ (fun _ => hE),
      volume_eq cfg hrt ⟨.reference, E⟩ (by intro h; cases h)]

/-! ### The promise of the classes along executions -/

theorem perpendicular_smul {E : Mat n K} (hE : Perpendicular E) (c : K) :
    Perpendicular (Matrix.of fun i j => E i j * c) := by
  intro i j hij
  have := hE i j hij
  simp only [Matrix.of_apply]
  calc ∑ k, E i k * c * (E j k * c) = (∑ k, E i k * E j k) * (c * c) := by
        rw [Finset.sum_mul]; exact Finset.sum_congr rfl fun k _ => by ring
    _ = 0 := by rw [this, zero_mul]

theorem perpendicular_mul {E R : Mat n K} (hE : Perpendicular E) (hR : R * Rᵀ = 1) :
    Perpendicular (E * R) := by
  rw [perpendicular_iff] at *
  rw [Matrix.transpose_mul, Matrix.mul_assoc, ← Matrix.mul_assoc R, hR, Matrix.one_mul]
  exact hE

theorem orthonormal_perpendicular {E : Mat n K} (hE : Orthonormal E) : Perpendicular E :=
  ((orthonormal_iff E).1 hE).1

/-- All frames keep the promise of their class. -/
def AllPromise (h : Heap n K) : Prop := ∀ f < h.nF, Promise (h.frames f).frame

/-- The operation does not hand axes to a frame that its class does not allow: the statements
that nobody checks are `f.axes = value`, `f[key] = x`, and `f.orient` with a matrix that is not
orthogonal. -/
def PromiseOp (h : Heap n K) : Op n K → Prop
  | .setAxes f value => Promise ⟨(h.frames f).frame.cls, value⟩
  | .orient f R => (h.frames f).frame.cls ≠ .reference → R * Rᵀ = 1
  | .orientNew f R => (h.frames f).frame.cls ≠ .reference → R * Rᵀ = 1
  | .setItem f value => (h.frames f).reg = [] ∧ Promise ⟨(h.frames f).frame.cls, value⟩
  | _ => True

/-- Every operation is allowed in the state in which it is executed. -/
def PromiseOps (cfg : Cfg K) : List (Op n K) → Heap n K → Prop
  | [], _ => True
  | op :: ops, h => PromiseOp h op ∧ PromiseOps cfg ops (op.run cfg h).1

theorem promise_addFrame (h : Heap n K) (hp : AllPromise h) (f : Frame n K) (hf : Promise f) :
    AllPromise (h.addFrame f) := by
  intro g hg
  by_cases hgn : g = h.nF
  · subst hgn
    have : (h.addFrame f).frames h.nF = ⟨f, []⟩ := Function.update_self _ _ _
    rw [this]
    exact hf
  · have : (h.addFrame f).frames g = h.frames g := Function.update_of_ne hgn _ _
    rw [this]
    have : g < h.nF + 1 := hg
    exact hp g (by omega)

theorem promise_newFrame (cfg : Cfg K) (ha : cfg.atol = 0) (hr : cfg.rtol = 0)
    (hrt : IsSqrt cfg.rt) (h : Heap n K) (hp : AllPromise h) (cls : FrameCls) (axes : Mat n K) :
    AllPromise (h.newFrame cfg cls axes).1 := by
  unfold Heap.newFrame
  cases hm : mkFrame cfg cls axes with
  | error e => exact hp
  | ok f =>
    refine promise_addFrame h hp f ?_
    rw [mkFrame_ok hm]
    exact (C50_constructors cfg ha hr hrt cls axes).1 ⟨f, hm⟩

theorem newTensor_frames (h : Heap n K) (c : Comps n K) (f : ℕ) :
    (h.newTensor c f).1.nF = h.nF ∧
      ∀ g, ((h.newTensor c f).1.frames g).frame = (h.frames g).frame := by
  unfold Heap.newTensor
  split
  · refine ⟨rfl, fun g => ?_⟩
    by_cases hg : g = f
    · subst hg
      simp only
      rw [Function.update_self]
    · simp only
      rw [Function.update_of_ne hg]
  · exact ⟨rfl, fun _ => rfl⟩

theorem promise_of_frames {h h' : Heap n K} (hp : AllPromise h) (hn : h'.nF = h.nF)
    (hf : ∀ g, (h'.frames g).frame = (h.frames g).frame) : AllPromise h' := by
  intro g hg
  rw [hf g]
  exact hp g (hn ▸ hg)

theorem promise_setAxes (cfg : Cfg K) (h : Heap n K) (hp : AllPromise h) (f : ℕ) (value : Mat n K)
    (hv : f < h.nF → Promise ⟨(h.frames f).frame.cls, value⟩) :
    AllPromise (h.setAxes cfg f value).1 := by
  have key : f < h.nF → ∀ g < h.nF, Promise ((Function.update h.frames f
      ⟨⟨(h.frames f).frame.cls, value⟩, (h.frames f).reg⟩) g).frame := by
    intro hf g hg
    by_cases hgf : g = f
    · subst hgf; rw [Function.update_self]; exact hv hf
    · rw [Function.update_of_ne hgf]; exact hp g hg
  unfold Heap.setAxes
  split
  · rename_i hf
    simp only
    split
    · exact key hf
    · cases hd : (h.frames f).frame.dcmTarget cfg ⟨.reference, value⟩ with
      | error e => exact hp
      | ok dcm => exact key hf
  · exact hp

theorem promise_inplace (cfg : Cfg K) (ha : cfg.atol = 0) (hr : cfg.rtol = 0)
    (hrt : IsSqrt cfg.rt) (h : Heap n K) (hi : h.Inv) (hp : AllPromise h) (f : ℕ)
    (o : Operand n K) : AllPromise (h.inplace cfg f o).1 := by
  have hscale : ∀ E : Mat n K, Perpendicular E → ∀ c : Operand n K,
      (∀ op, c ≠ .other op) → Perpendicular (c.apply E) := by
    intro E hE c hc
    cases c with
    | mulNumber c => exact perpendicular_smul hE c
    | divNumber c =>
      have : (Operand.divNumber c).apply E = Matrix.of fun i j => E i j * c⁻¹ := by
        ext i j; simp [Operand.apply, div_eq_mul_inv]
      rw [this]
      exact perpendicular_smul hE _
    | other op => exact absurd rfl (hc op)
  unfold Heap.inplace
  split
  · rename_i hf
    simp only
    cases hrr : o.rtype (h.frames f).frame.cls with
    | none =>
      simp only
      refine promise_setAxes cfg h hp f _ fun _ => ⟨fun hc => ?_, fun hc => ?_⟩
      · simp only at hc
        refine hscale _ ((hp f hf).1 hc) o ?_
        rintro op rfl
        rw [hc] at hrr
        cases hrr
      · simp only at hc
        rw [hc] at hrr
        exact absurd hrr (rtype_cartesian o)
    | some r =>
      simp only
      have hrc := rtype_not_cartesian o _ r hrr
      cases hm : mkFrame cfg r (h.frames f).frame.axes with
      | error e => exact hp
      | ok g =>
        have hg := mkFrame_ok hm
        have hgp : Promise g := by
          rw [hg]; exact (C50_constructors cfg ha hr hrt r _).1 ⟨g, hm⟩
        have hgc : CartOK g := hgp.2
        obtain ⟨a1, a2⟩ := addFrame_spec h hi g hgc
        obtain ⟨m1, m2, m3, m4⟩ := moveAll_spec cfg h.nF (h.frames f).reg _ a1
        have hpm := promise_of_frames (promise_addFrame h hp g hgp) m3 m4
        simp only
        cases hmv : (h.addFrame g).moveAll cfg h.nF (h.frames f).reg with
        | mk h' e =>
          rw [hmv] at hpm m4
          cases e with
          | some e => exact hpm
          | none =>
            have hcls : (h'.frames h.nF).frame = g := by
              rw [m4]
              show (Function.update h.frames h.nF ⟨g, []⟩ h.nF).frame = g
              rw [Function.update_self]
            refine promise_setAxes cfg h' hpm h.nF _ fun _ => ⟨fun hc => ?_, fun hc => ?_⟩
            · simp only at hc
              rw [hcls, hg] at hc
              simp only at hc
              have hfc : Perpendicular (h.frames f).frame.axes := by
                have := hgp.1 (by rw [hg]; exact hc)
                rw [hg] at this
                exact this
              refine hscale _ hfc o ?_
              rintro op rfl
              rw [hc] at hrr
              cases hq : (h.frames f).frame.cls <;> rw [hq] at hrr <;> cases hrr
            · simp only at hc
              rw [hcls, hg] at hc
              exact absurd hc hrc
  · exact hp

theorem promise_orient (cfg : Cfg K) (h : Heap n K) (hp : AllPromise h) (f : ℕ) (R : Mat n K)
    (hR : f < h.nF → (h.frames f).frame.cls ≠ .reference → R * Rᵀ = 1) :
    AllPromise (h.orient cfg f R).1 := by
  unfold Heap.orient
  refine promise_setAxes cfg h hp f _ fun hf => ?_
  rw [orient_axes]
  refine ⟨fun hc => ?_, fun hc => ?_⟩
  · simp only at hc
    exact perpendicular_mul ((hp f hf).1 hc) (hR hf (by rw [hc]; decide))
  · simp only at hc
    exact orthonormal_mul ((hp f hf).2 hc) (hR hf (by rw [hc]; decide))

theorem promise_op (cfg : Cfg K) (ha : cfg.atol = 0) (hr : cfg.rtol = 0)
    (hrt : IsSqrt cfg.rt) (h : Heap n K) (hi : h.Inv) (hp : AllPromise h) (op : Op n K)
    (ho : PromiseOp h op) : AllPromise (op.run cfg h).1 := by
  cases op with
  | newFrame cls axes => exact promise_newFrame cfg ha hr hrt h hp cls axes
  | newTensor c f =>
    exact promise_of_frames hp (newTensor_frames h c f).1 (newTensor_frames h c f).2
  | setFrame t f =>
    exact promise_of_frames hp (setFrame_frames cfg h t f).1 (setFrame_frames cfg h t f).2
  | setFrameArray t axes =>
    have h1 : AllPromise (h.addFrame ⟨.reference, axes⟩) :=
      promise_addFrame h hp _ ⟨fun hc => (by cases hc), fun hc => (by cases hc)⟩
    exact promise_of_frames h1 (setFrame_frames cfg _ t h.nF).1 (setFrame_frames cfg _ t h.nF).2
  | setAxes f value => exact promise_setAxes cfg h hp f value fun _ => ho
  | inplace f o => exact promise_inplace cfg ha hr hrt h hi hp f o
  | orient f R => exact promise_orient cfg h hp f R fun _ => ho
  | orientNew f R =>
    show AllPromise (h.orientNew cfg f R).1
    unfold Heap.orientNew Heap.copyFrame
    by_cases hf : f < h.nF
    · rw [if_pos hf]
      have hpn := promise_newFrame cfg ha hr hrt h hp (h.frames f).frame.cls
        (h.frames f).frame.axes
      cases hn : h.newFrame cfg (h.frames f).frame.cls (h.frames f).frame.axes with
      | mk h' e =>
        rw [hn] at hpn
        cases e with
        | some e => exact hpn
        | none =>
          obtain ⟨-, hnew⟩ := newFrame_new cfg h h' _ _ hn
          refine promise_orient cfg h' hpn h.nF R fun _ hc => ?_
          rw [hnew] at hc
          exact ho hc
    · rw [if_neg hf]
      exact hp
  | transposeFrame f =>
    exact promise_setAxes cfg h hp f _ fun hf => hp f hf
  | setItem f value =>
    show AllPromise (h.setItem f value).1
    rw [setItem_eq cfg h f value ho.1]
    exact promise_setAxes cfg h hp f value fun _ => ho.2
  | ufuncOut f value =>
    show AllPromise (h.ufuncOut cfg f value).1
    unfold Heap.ufuncOut
    cases hc : (h.frames f).frame.cls with
    | reference =>
      refine promise_setAxes cfg h hp f value fun _ => ?_
      rw [hc]
      exact ⟨fun hx => (by cases hx), fun hx => (by cases hx)⟩
    | rectangular => exact hp
    | cartesian => exact hp
  | copyFrame f =>
    show AllPromise (h.copyFrame cfg f).1
    unfold Heap.copyFrame
    split
    · exact promise_newFrame cfg ha hr hrt h hp _ _
    · exact hp
  | copyTensor t =>
    show AllPromise (h.copyTensor t).1
    unfold Heap.copyTensor
    split
    · exact promise_of_frames hp (newTensor_frames h _ _).1 (newTensor_frames h _ _).2
    · exact hp
  | deepcopyTensor t =>
    show AllPromise (h.deepcopyTensor t).1
    unfold Heap.deepcopyTensor
    split
    · exact promise_of_frames (promise_addFrame h hp _ ⟨fun hc => (by cases hc), fun hc => (by cases hc)⟩)
        (newTensor_frames _ _ _).1 (newTensor_frames _ _ _).2
    · exact hp
  | methodCopy t =>
    show AllPromise (h.methodCopy t).1
    unfold Heap.methodCopy
    split
    · exact promise_of_frames (promise_addFrame h hp _ ⟨fun hc => (by cases hc), fun hc => (by cases hc)⟩)
        (newTensor_frames _ _ _).1 (newTensor_frames _ _ _).2
    · exact hp

theorem sound_of_promise (cfg : Cfg K) (ha : cfg.atol = 0) (hr : cfg.rtol = 0)
    (hrt : IsSqrt cfg.rt) (h : Heap n K) (op : Op n K) (ho : PromiseOp h op) :
    SoundOp cfg h op := by
  cases op with
  | newFrame cls axes =>
    intro hc hm
    exact ((C50_constructors cfg ha hr hrt cls axes).1 hm).2 hc
  | setAxes f value => exact ho.2
  | orient f R => intro hc; exact ho (by rw [hc]; decide)
  | orientNew f R => intro hc; exact ho (by rw [hc]; decide)
  | newTensor => trivial
  | setFrame => trivial
  | setFrameArray => trivial
  | inplace => trivial
  | transposeFrame => trivial
  | setItem f value => exact ⟨ho.1, ho.2.2⟩
  | ufuncOut => trivial
  | copyFrame => trivial
  | copyTensor => trivial
  | deepcopyTensor => trivial
  | methodCopy => trivial

/-- C50, partial: in exact arithmetic, along every program, every rectangular frame has perpendicular
and every Cartesian frame has orthonormal base vectors: construction, copies, rotations, scaling,
and the other in place operators (which hand out a frame of a more general class).

Missing, because it is false: `f.axes = value` and `f[key] = x` (`C50_setter_violated`), and
tolerances (`C50_small_frame_violated`). -/
theorem C50_classes_partial (cfg : Cfg K) (ha : cfg.atol = 0) (hr : cfg.rtol = 0)
    (hrt : IsSqrt cfg.rt) (ops : List (Op n K)) (ho : PromiseOps cfg ops emptyHeap) :
    AllPromise (runOps cfg ops emptyHeap) := by
  have key : ∀ (ops : List (Op n K)) (h : Heap n K), h.Inv → AllPromise h → PromiseOps cfg ops h →
      AllPromise (runOps cfg ops h) := by
    intro ops
    induction ops with
    | nil => intro h _ hp _; exact hp
    | cons op ops ih =>
      intro h hi hp ho
      exact ih _ (op_spec cfg h hi op (sound_of_promise cfg ha hr hrt h op ho.1)).1
        (promise_op cfg ha hr hrt h hi hp op ho.1) ho.2
  exact key ops _ emptyHeap_inv (fun f hf => absurd hf (Nat.not_lt_zero f)) ho

/-- C42 without conditions on Cartesian frames other than on the unchecked statements: in exact
arithmetic the constructors guarantee the rest. -/
theorem C42_exact_partial (cfg : Cfg K) (ha : cfg.atol = 0) (hr : cfg.rtol = 0)
    (hrt : IsSqrt cfg.rt) (before after : List (Op n K))
    (ho : PromiseOps cfg (before ++ after) emptyHeap) (t : ℕ)
    (ht : t < (runOps cfg before emptyHeap).nT) :
    (runOps cfg (before ++ after) emptyHeap).ambientOf t =
      (runOps cfg before emptyHeap).ambientOf t := by
  refine C42_objectivity_partial cfg before after ?_ t ht
  have : ∀ (ops : List (Op n K)) (h : Heap n K), PromiseOps cfg ops h → SoundOps cfg ops h := by
    intro ops
    induction ops with
    | nil => intro h _; trivial
    | cons op ops ih =>
      intro h ho
      exact ⟨sound_of_promise cfg ha hr hrt h op ho.1, ih _ ho.2⟩
  exact this _ _ ho

/-- C50: rotating a frame by `R` multiplies its axes with `R` and keeps its class. -/
theorem C50_orient (cfg : Cfg K) (h : Heap n K) (f : ℕ) (hf : f < h.nF) (R : Mat n K)
    (hR : R * Rᵀ = 1) (hdet : (h.frames f).frame.axes.det ≠ 0) :
    ∃ h', h.orient cfg f R = (h', none) ∧
      (h'.frames f).frame = ⟨(h.frames f).frame.cls, (h.frames f).frame.axes * R⟩ := by
  have hRdet : R.det ≠ 0 := by
    intro h0
    have := congrArg Matrix.det hR
    rw [Matrix.det_mul, h0, zero_mul, Matrix.det_one] at this
    exact zero_ne_one this
  unfold Heap.orient
  rw [orient_axes]
  obtain ⟨h', h1, h2, -⟩ := C42_setAxes cfg h f hf ((h.frames f).frame.axes * R)
    (by rw [Matrix.det_mul]; exact mul_ne_zero hdet hRdet)
  exact ⟨h', h1, h2⟩

/-- The shortcuts do not hold without orthonormal axes. -/
example : (Frame.dual npCfg ⟨.cartesian, (!![2, 0; 0, 2] : Mat 2 ℚ)⟩).map (fun d => d.axes 0 0) =
    .ok 2 ∧ (Frame.dual npCfg ⟨.reference, (!![2, 0; 0, 2] : Mat 2 ℚ)⟩).map (fun d => d.axes 0 0) =
    .ok (1/2) := by
  refine ⟨by decide +kernel, by decide +kernel⟩

/-- The hypotheses of the theorem on shortcuts can be met by a rotated frame. -/
example : Orthonormal (!![3/5, 4/5; -4/5, 3/5] : Mat 2 ℚ) := by
  show _ * _ = _
  decide +kernel

end ordered

end Verif.Frames.Props
