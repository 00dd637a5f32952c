import Verif.Props.Frames
import Verif.Model.TensorOps
import Mathlib.Tactic.FinCases
import Mathlib.Tactic.LinearCombination

/-!
# Products and arithmetic of tensors do not depend on the frames (C45, C46, C47)
-/

set_option linter.unusedSectionVars false

namespace Verif.Frames.Props

open Matrix

section
variable {n : ℕ} {K : Type} [Field K] [LinearOrder K]

/-- What a tensor stands for. -/
def Means (a : Tensor n K) : Comps n K := ambient a.frame.axes a.comps

/-! ### Helpers -/

theorem show_none (cfg : Cfg K) (a : Tensor n K) : a.show cfg none = .ok (Means a) :=
  C43_ambient cfg a.frame a.comps

theorem show_some {cfg : Cfg K} {a : Tensor n K} {f : Frame n K} (hf : CartOK f) {c : Comps n K}
    (h : a.show cfg (some f) = .ok c) : ambient f.axes c = Means a := by
  obtain ⟨Q, hQ, rfl⟩ := showIn_ok h
  exact ambient_transform hf hQ _

theorem moveTo_ok {cfg : Cfg K} {a t : Tensor n K} {frame : Option (Frame n K)}
    (hf : ∀ f, frame = some f → CartOK f) (h : a.moveTo cfg frame = .ok t) :
    Means t = Means a ∧ t.frame = frame.getD a.frame := by
  unfold Tensor.moveTo at h
  cases frame with
  | none => cases h; exact ⟨rfl, rfl⟩
  | some f =>
    simp only at h
    cases hs : a.show cfg (some f) with
    | error e => rw [hs] at h; cases h
    | ok c =>
      rw [hs] at h
      have ht : (⟨c, f⟩ : Tensor n K) = t := by
        simpa [bind, Except.bind, pure, Except.pure] using h
      subst ht
      exact ⟨show_some (hf f rfl) hs, rfl⟩

theorem asVec_ok {c : Comps n K} {v : Fin n → K} (h : c.asVec = .ok v) : c = .vec v := by
  unfold Comps.asVec at h
  cases c <;> cases h
  rfl

theorem asTen2_ok {c : Comps n K} {A : Mat n K} (h : c.asTen2 = .ok A) : c = .ten2 A := by
  unfold Comps.asTen2 at h
  cases c <;> cases h
  rfl

theorem ambient_vec (E : Mat n K) (v : Fin n → K) : ambient E (.vec v) = .vec (Eᵀ.mulVec v) := by
  rw [ambient_eq]; rfl

theorem ambient_ten2 (E A : Mat n K) : ambient E (.ten2 A) = .ten2 (Eᵀ * A * E) := by
  rw [ambient_eq]; simp [Comps.transform]

theorem dual_cartOK {cfg : Cfg K} {f d : Frame n K} (hf : CartOK f) (h : f.dual cfg = .ok d) :
    CartOK d := by
  intro hc
  have h2 := (dual_ok hf h).2
  rw [h2] at hc
  have : d = f := by
    unfold Frame.dual at h
    rw [hc] at h
    cases h
    rfl
  rw [this]
  exact hf hc

theorem dual_mul {cfg : Cfg K} {f d : Frame n K} (hf : CartOK f) (h : f.dual cfg = .ok d) :
    f.axes * d.axesᵀ = 1 := by
  have := congrArg Matrix.transpose (mul_eq_one_comm.1 (dual_ok hf h).1)
  simpa using this

/-! ## C45 -/

/-- C45: the dot product of two vectors is the sum of the products of their ambient components. -/
theorem C45_vector_vector (cfg : Cfg K) (a b : Tensor n K) (frame : Option (Frame n K))
    (axes : Option (ℕ × ℕ)) (X Y : Fin n → K) (hX : Means a = .vec X) (hY : Means b = .vec Y) :
    dot cfg a b frame axes = .ok (.scalar (∑ i, X i * Y i)) := by
  obtain ⟨ca, fa⟩ := a
  obtain ⟨cb, fb⟩ := b
  cases ca with
  | ten2 A => rw [Means, ambient_ten2] at hX; cases hX
  | gen r x => cases hX
  | vec x =>
    cases cb with
    | ten2 A => rw [Means, ambient_ten2] at hY; cases hY
    | gen r x => cases hY
    | vec y =>
      unfold dot
      simp only
      rw [show_none, show_none, hX, hY]
      rfl

/-- C45: tensor times vector is the matrix-vector product of the ambient components. -/
theorem C45_tensor_vector (cfg : Cfg K) (a b : Tensor n K) (frame : Option (Frame n K))
    (axes : Option (ℕ × ℕ)) (ha : CartOK a.frame) (hf : ∀ f, frame = some f → CartOK f)
    (A : Mat n K) (Y : Fin n → K) (hA : Means a = .ten2 A) (hY : Means b = .vec Y)
    (r : DotResult n K) (h : dot cfg a b frame axes = .ok r) :
    ∃ t, r = .tensor t ∧ Means t = .vec (A.mulVec Y) ∧ t.frame = frame.getD a.frame := by
  obtain ⟨ca, fa⟩ := a
  obtain ⟨cb, fb⟩ := b
  cases ca with
  | vec x => rw [Means, ambient_vec] at hA; cases hA
  | gen r x => cases hA
  | ten2 A0 =>
    cases cb with
    | ten2 A => rw [Means, ambient_ten2] at hY; cases hY
    | gen r x => cases hY
    | vec y0 =>
      unfold dot at h
      simp only at h
      cases hd : fa.dual cfg with
      | error e => rw [hd] at h; cases h
      | ok d =>
        rw [hd] at h
        simp only [bind, Except.bind] at h
        cases hs : Tensor.show cfg ⟨.vec y0, fb⟩ (some d) with
        | error e => rw [hs] at h; cases h
        | ok c =>
          rw [hs] at h
          simp only at h
          cases hv : c.asVec with
          | error e => rw [hv] at h; cases h
          | ok y =>
            rw [hv] at h
            simp only at h
            cases hm : Tensor.moveTo cfg ⟨.vec (A0.mulVec y), fa⟩ frame with
            | error e => rw [hm] at h; cases h
            | ok t =>
              rw [hm] at h
              cases h
              obtain ⟨m1, m2⟩ := moveTo_ok hf hm
              refine ⟨t, rfl, ?_, m2⟩
              have hc := asVec_ok hv
              subst hc
              have h1 := show_some (dual_cartOK ha hd) hs
              rw [hY, ambient_vec] at h1
              have h1' : d.axesᵀ.mulVec y = Y := by simpa using h1
              have hy : y = fa.axes.mulVec Y := by
                rw [← h1', Matrix.mulVec_mulVec, dual_mul ha hd, Matrix.one_mulVec]
              rw [Means, ambient_ten2] at hA
              have hA' : fa.axesᵀ * A0 * fa.axes = A := by simpa using hA
              rw [m1, Means, ambient_vec, hy, ← hA']
              simp only [Matrix.mulVec_mulVec, Matrix.mul_assoc]

/-- C45, partial: what vector times tensor gives: `EᵀE` times the tensor times the vector, `E` being
the axes of the frame of the vector.  This is the product `xT` if these axes are orthonormal and the
tensor is symmetric.

Missing, because it is false (`C45_vector_tensor_violated`): the product is `xT` for every tensor
and every frame. -/
theorem C45_vector_tensor_partial (cfg : Cfg K) (a b : Tensor n K) (frame : Option (Frame n K))
    (axes : Option (ℕ × ℕ)) (ha : CartOK a.frame) (hf : ∀ f, frame = some f → CartOK f)
    (X : Fin n → K) (B : Mat n K) (hX : Means a = .vec X) (hB : Means b = .ten2 B)
    (r : DotResult n K) (h : dot cfg a b frame axes = .ok r) :
    ∃ t, r = .tensor t ∧ t.frame = frame.getD a.frame ∧
      Means t = .vec ((a.frame.axesᵀ * a.frame.axes).mulVec (B.mulVec X)) ∧
      (Orthonormal a.frame.axes → (∀ i j, B i j = B j i) →
        Means t = .vec fun j => ∑ i, X i * B i j) := by
  obtain ⟨ca, fa⟩ := a
  obtain ⟨cb, fb⟩ := b
  cases ca with
  | ten2 A => rw [Means, ambient_ten2] at hX; cases hX
  | gen r x => cases hX
  | vec x =>
    cases cb with
    | vec A => rw [Means, ambient_vec] at hB; cases hB
    | gen r x => cases hB
    | ten2 B0 =>
      unfold dot at h
      simp only at h
      cases hd : fa.dual cfg with
      | error e => rw [hd] at h; cases h
      | ok d =>
        rw [hd] at h
        simp only [bind, Except.bind] at h
        cases hs : Tensor.show cfg ⟨.ten2 B0, fb⟩ (some d) with
        | error e => rw [hs] at h; cases h
        | ok c =>
          rw [hs] at h
          simp only at h
          cases hv : c.asTen2 with
          | error e => rw [hv] at h; cases h
          | ok B1 =>
            rw [hv] at h
            simp only at h
            cases hm : Tensor.moveTo cfg ⟨.vec (Matrix.vecMul x B1ᵀ), fa⟩ frame with
            | error e => rw [hm] at h; cases h
            | ok t =>
              rw [hm] at h
              cases h
              obtain ⟨m1, m2⟩ := moveTo_ok hf hm
              have hc := asTen2_ok hv
              subst hc
              have h1 := show_some (dual_cartOK ha hd) hs
              rw [hB, ambient_ten2] at h1
              have h1' : d.axesᵀ * B1 * d.axes = B := by simpa using h1
              have e1 := dual_mul ha hd
              have e2 : d.axes * fa.axesᵀ = 1 := by
                have := congrArg Matrix.transpose e1
                simpa using this
              have hB1 : B1 = fa.axes * B * fa.axesᵀ := by
                rw [← h1']
                calc B1 = (fa.axes * d.axesᵀ) * B1 * (d.axes * fa.axesᵀ) := by
                      rw [e1, e2, Matrix.one_mul, Matrix.mul_one]
                  _ = _ := by simp only [Matrix.mul_assoc]
              rw [Means, ambient_vec] at hX
              have hX' : fa.axesᵀ.mulVec x = X := by simpa using hX
              have key : Means t = .vec ((fa.axesᵀ * fa.axes).mulVec (B.mulVec X)) := by
                rw [m1, Means, ambient_vec, Matrix.vecMul_transpose, hB1, ← hX']
                simp only [Matrix.mulVec_mulVec, Matrix.mul_assoc]
              refine ⟨t, rfl, m2, key, fun ho hsym => ?_⟩
              rw [key]
              have : fa.axesᵀ * fa.axes = 1 := mul_eq_one_comm.1 ho
              rw [this, Matrix.one_mulVec]
              congr 1
              funext j
              simp only [Matrix.mulVec, dotProduct]
              refine Finset.sum_congr rfl fun i _ => ?_
              rw [hsym j i, mul_comm]

/-- C45 is violated: `x = (1, 0)`, `T = e₁ ⊗ e₂` in the ambient frame: `xT = e₂`, but `dot(x, T)` is
zero. -/
theorem C45_vector_tensor_violated :
    let a : Tensor 2 ℚ := ⟨.vec ![1, 0], ambientFrame⟩
    let b : Tensor 2 ℚ := ⟨.ten2 !![0, 1; 0, 0], ambientFrame⟩
    (dot npCfg a b none none).map (fun r => match r with
      | .scalar _ => (none : Option (ℚ × ℚ))
      | .tensor t => some ((Means t).comp 0, (Means t).comp 1)) = .ok (some (0, 0)) ∧
      (fun j => ∑ i, (![1, 0] : Fin 2 → ℚ) i * (!![0, 1; 0, 0] : Mat 2 ℚ) i j) = ![0, 1] := by
  refine ⟨by decide +kernel, by decide +kernel⟩

section ordered
variable [IsStrictOrderedRing K]

/-- C45: tensor times tensor is the matrix product of the ambient components. -/
theorem C45_tensor_tensor (cfg : Cfg K) (a b : Tensor n K) (frame : Option (Frame n K))
    (axes : Option (ℕ × ℕ)) (ha : CartOK a.frame) (hf : ∀ f, frame = some f → CartOK f)
    (A B : Mat n K) (hA : Means a = .ten2 A) (hB : Means b = .ten2 B)
    (r : DotResult n K) (h : dot cfg a b frame axes = .ok r) :
    ∃ t, r = .tensor t ∧ Means t = .ten2 (A * B) ∧ t.frame = frame.getD a.frame := by
  obtain ⟨ca, fa⟩ := a
  obtain ⟨cb, fb⟩ := b
  cases ca with
  | vec x => rw [Means, ambient_vec] at hA; cases hA
  | gen r x => cases hA
  | ten2 A0 =>
    cases cb with
    | vec A => rw [Means, ambient_vec] at hB; cases hB
    | gen r x => cases hB
    | ten2 B0 =>
      unfold dot at h
      simp only [bind, Except.bind] at h
      cases hs : Tensor.show cfg ⟨.ten2 B0, fb⟩ (some fa) with
      | error e => rw [hs] at h; cases h
      | ok c =>
        rw [hs] at h
        simp only at h
        cases hv : c.asTen2 with
        | error e => rw [hv] at h; cases h
        | ok B1 =>
          rw [hv] at h
          simp only at h
          cases hm : Tensor.moveTo cfg ⟨.ten2 (A0 * fa.Gram * B1), fa⟩ frame with
          | error e => rw [hm] at h; cases h
          | ok t =>
            rw [hm] at h
            cases h
            obtain ⟨m1, m2⟩ := moveTo_ok hf hm
            refine ⟨t, rfl, ?_, m2⟩
            have hc := asTen2_ok hv
            subst hc
            have h1 := show_some ha hs
            rw [hB, ambient_ten2] at h1
            have h1' : fa.axesᵀ * B1 * fa.axes = B := by simpa using h1
            rw [Means, ambient_ten2] at hA
            have hA' : fa.axesᵀ * A0 * fa.axes = A := by simpa using hA
            rw [m1, Means, ambient_ten2, gram_eq fa ha, products_eq, ← h1', ← hA']
            simp only [Matrix.mul_assoc]

end ordered

/-- C45: the contraction of two general tensors contracts their ambient components. -/
theorem C45_contraction (cfg : Cfg K) (a b : Tensor n K) (frame : Option (Frame n K))
    (hf : ∀ f, frame = some f → CartOK f) (r s : ℕ) (x : (Fin (r + 1) → Fin n) → K)
    (y : (Fin (s + 1) → Fin n) → K) (hx : Means a = .gen (r + 1) x) (hy : Means b = .gen (s + 1) y)
    (ia : Fin (r + 1)) (ib : Fin (s + 1)) (res : DotResult n K)
    (h : dot cfg a b frame (some (ia, ib)) = .ok res) :
    ∃ t, res = .tensor t ∧ t.frame = frame.getD ambientFrame ∧
      Means t = .gen (r + s) fun u => ∑ c : Fin n,
        x (ia.insertNth c fun i => u (i.castAdd s)) * y (ib.insertNth c fun j => u (j.natAdd r)) := by
  obtain ⟨ca, fa⟩ := a
  obtain ⟨cb, fb⟩ := b
  cases ca with
  | vec x => rw [Means, ambient_vec] at hx; cases hx
  | ten2 A => rw [Means, ambient_ten2] at hx; cases hx
  | gen r' x0 =>
    cases cb with
    | vec x => rw [Means, ambient_vec] at hy; cases hy
    | ten2 A => rw [Means, ambient_ten2] at hy; cases hy
    | gen s' y0 =>
      obtain rfl : r' = r + 1 := by
        have := hx
        unfold Means ambient at this
        simp only [Comps.gen.injEq] at this
        exact this.1
      obtain rfl : s' = s + 1 := by
        have := hy
        unfold Means ambient at this
        simp only [Comps.gen.injEq] at this
        exact this.1
      unfold dot at h
      simp only at h
      rw [show_none, show_none, hx, hy] at h
      simp only [bind, Except.bind] at h
      split at h
      · cases h
      · rw [dif_pos ⟨ia.2, ib.2⟩] at h
        cases hm : Tensor.moveTo cfg ⟨.gen (r + s) (contract x y ⟨ia, ia.2⟩ ⟨ib, ib.2⟩),
            ambientFrame⟩ frame with
        | error e => rw [hm] at h; cases h
        | ok t =>
          rw [hm] at h
          cases h
          obtain ⟨m1, m2⟩ := moveTo_ok hf hm
          refine ⟨t, rfl, m2, ?_⟩
          rw [m1, Means, ambient_eq]
          show Comps.transform (1 : Mat n K)ᵀ _ = _
          rw [Matrix.transpose_one, transform_one]
          rfl

/-- C45: for general frames with independent axes no product of vectors and second order tensors
raises. -/
theorem C45_succeeds (cfg : Cfg K) (a b : Tensor n K)
    (hca : a.frame.cls = .reference) (hda : a.frame.axes.det ≠ 0)
    (hva : (∃ v, a.comps = .vec v) ∨ ∃ A, a.comps = .ten2 A)
    (hvb : (∃ v, b.comps = .vec v) ∨ ∃ A, b.comps = .ten2 A) :
    ∃ r, dot cfg a b none none = .ok r := by
  obtain ⟨ca, ⟨clsa, E⟩⟩ := a
  obtain ⟨cb, fb⟩ := b
  simp only at hca hda hva hvb
  subst hca
  obtain ⟨B, hB⟩ := inv_exists hda
  obtain ⟨-, i1, i2⟩ := inv_ok hB
  have hd : Frame.dual cfg ⟨.reference, E⟩ = .ok ⟨.reference, Bᵀ⟩ := by
    unfold Frame.dual dualFrame
    simp only
    rw [hB]
    rfl
  have hBT : inv Bᵀ = .ok Eᵀ := inv_of_mul_eq_one (by rw [← Matrix.transpose_mul, i1,
    Matrix.transpose_one])
  have hdd : Frame.dual cfg ⟨.reference, Bᵀ⟩ = .ok ⟨.reference, E⟩ := by
    unfold Frame.dual dualFrame
    simp only
    rw [hBT]
    rfl
  have hshow : ∀ c, Tensor.show cfg ⟨c, fb⟩ (some ⟨.reference, Bᵀ⟩) =
      .ok (c.transform (E * fb.axesᵀ)) := by
    intro c
    unfold Tensor.show
    rw [showIn_eq, dcmTarget_eq, Option.getD_some, hdd]
    rfl
  have hshow' : ∀ c, Tensor.show cfg ⟨c, fb⟩ (some ⟨.reference, E⟩) =
      .ok (c.transform (Bᵀ * fb.axesᵀ)) := by
    intro c
    unfold Tensor.show
    rw [showIn_eq, dcmTarget_eq, Option.getD_some, hd]
    rfl
  rcases hva with ⟨v, rfl⟩ | ⟨A, rfl⟩ <;> rcases hvb with ⟨w, rfl⟩ | ⟨C, rfl⟩
  · unfold dot
    simp only
    rw [show_none, show_none, Means, Means, ambient_vec, ambient_vec]
    exact ⟨_, rfl⟩
  · unfold dot
    simp only
    rw [hd]
    simp only [bind, Except.bind]
    rw [hshow]
    exact ⟨_, rfl⟩
  · unfold dot
    simp only
    rw [hd]
    simp only [bind, Except.bind]
    rw [hshow]
    exact ⟨_, rfl⟩
  · unfold dot
    simp only [bind, Except.bind]
    rw [hshow']
    exact ⟨_, rfl⟩

/-- The theorems are not empty: a tensor in a skewed frame times a vector in a Cartesian frame. -/
example :
    let a : Tensor 2 ℚ := ⟨.ten2 !![1, 2; 0, 1], ⟨.reference, !![1, 1; 0, 2]⟩⟩
    let b : Tensor 2 ℚ := ⟨.vec ![1, 1], ⟨.cartesian, !![0, 1; -1, 0]⟩⟩
    (Means a).comp 0 = 1 ∧ (Means b).comp 0 = -1 ∧
    (dot npCfg a b none none).map (fun r => match r with
      | .scalar _ => (none : Option (ℚ × ℚ))
      | .tensor t => some ((Means t).comp 0, (Means t).comp 1)) = .ok (some (4, 8)) := by
  refine ⟨by decide +kernel, by decide +kernel, by decide +kernel⟩

end

/-! ## C46 -/

section
variable {K : Type} [Field K] [LinearOrder K]

theorem cross_mulVec (M : Mat 3 K) (x y : Fin 3 → K) :
    crossProduct (M.mulVec x) (M.mulVec y) = (M.adjugateᵀ).mulVec (crossProduct x y) := by
  ext i
  fin_cases i <;>
    simp [cross_apply, Matrix.mulVec, dotProduct, Fin.sum_univ_three, Matrix.adjugate_fin_three,
      Matrix.transpose_apply, Matrix.vecHead, Matrix.vecTail] <;> ring

theorem cross_vec (cfg : Cfg K) (a b : Tensor 3 K) (frame : Option (Frame 3 K))
    (ha : CartOK a.frame) (hf : ∀ f, frame = some f → CartOK f) (X Y : Fin 3 → K)
    (hX : Means a = .vec X) (hY : Means b = .vec Y) (t : Tensor 3 K)
    (h : cross cfg a b frame = .ok t) :
    ∃ x y, X = a.frame.axesᵀ.mulVec x ∧ Y = a.frame.axesᵀ.mulVec y ∧
      Means t = .vec (a.frame.axesᵀ.mulVec (crossProduct x y)) ∧
      t.frame = frame.getD a.frame := by
  obtain ⟨ca, fa⟩ := a
  obtain ⟨cb, fb⟩ := b
  cases ca with
  | ten2 A => rw [Means, ambient_ten2] at hX; cases hX
  | gen r x => cases hX
  | vec x =>
    cases cb with
    | ten2 A => rw [Means, ambient_ten2] at hY; cases hY
    | gen r x => cases hY
    | vec y0 =>
      unfold cross at h
      simp only [bind, Except.bind] at h
      cases hs : Tensor.show cfg ⟨.vec y0, fb⟩ (some fa) with
      | error e => rw [hs] at h; cases h
      | ok c =>
        rw [hs] at h
        simp only at h
        cases hv : c.asVec with
        | error e => rw [hv] at h; cases h
        | ok y =>
          rw [hv] at h
          simp only at h
          obtain ⟨m1, m2⟩ := moveTo_ok hf h
          have hc := asVec_ok hv
          subst hc
          have h1 := show_some ha hs
          rw [hY, ambient_vec] at h1
          rw [Means, ambient_vec] at hX
          refine ⟨x, y, ?_, ?_, ?_, m2⟩
          · have : fa.axesᵀ.mulVec x = X := by simpa using hX
            exact this.symm
          · have : fa.axesᵀ.mulVec y = Y := by simpa using h1
            exact this.symm
          · rw [m1, Means, ambient_vec]

theorem adjugate_rotation (E : Mat 3 K) (hE : Orthonormal E) (hd : E.det = 1) :
    Eᵀ.adjugateᵀ = Eᵀ := by
  have h1 : E.adjugate = Eᵀ := by
    calc E.adjugate = E.adjugate * (E * Eᵀ) := by rw [hE, Matrix.mul_one]
      _ = Eᵀ := by rw [← Matrix.mul_assoc, Matrix.adjugate_mul, hd, one_smul, Matrix.one_mul]
  rw [← Matrix.adjugate_transpose, Matrix.transpose_transpose, h1]

/-- C46, partial: the cross product of two vectors is that of their ambient components if the frame of
the first one is orthonormal and right handed; the frame of the second one does not matter.

Missing, because it is false (`C46_cross_only_rotations`, `C46_scaled_frame_violated`): any other
frame. -/
theorem C46_vector_vector_partial (cfg : Cfg K) (a b : Tensor 3 K) (frame : Option (Frame 3 K))
    (hf : ∀ f, frame = some f → CartOK f) (X Y : Fin 3 → K)
    (hX : Means a = .vec X) (hY : Means b = .vec Y) (t : Tensor 3 K)
    (hE : Orthonormal a.frame.axes) (hd : a.frame.axes.det = 1)
    (h : cross cfg a b frame = .ok t) :
    Means t = .vec (crossProduct X Y) ∧ t.frame = frame.getD a.frame := by
  obtain ⟨x, y, rfl, rfl, ht, hfr⟩ := cross_vec cfg a b frame (fun _ => hE) hf X Y hX hY t h
  refine ⟨?_, hfr⟩
  rw [ht, cross_mulVec, adjugate_rotation _ hE hd]

/-- C46 is violated by every other frame: if the cross product of all pairs of vectors of a frame with
independent axes is right, the frame is orthonormal and right handed. -/
theorem C46_cross_only_rotations (cfg : Cfg K) (E : Mat 3 K) (hdet : E.det ≠ 0)
    (hall : ∀ x y t, cross cfg ⟨.vec x, ⟨.reference, E⟩⟩ ⟨.vec y, ⟨.reference, E⟩⟩ none = .ok t →
      Means t = .vec (crossProduct (Eᵀ.mulVec x) (Eᵀ.mulVec y))) :
    Orthonormal E ∧ E.det = 1 := by
  -- the product of two vectors of the same frame
  obtain ⟨B, hB⟩ := inv_exists hdet
  obtain ⟨-, i1, i2⟩ := inv_ok hB
  have hBE : Bᵀ * Eᵀ = 1 := by rw [← Matrix.transpose_mul, i1, Matrix.transpose_one]
  have hcross : ∀ x y, cross cfg ⟨.vec x, ⟨.reference, E⟩⟩ ⟨.vec y, ⟨.reference, E⟩⟩ none =
      .ok ⟨.vec (crossProduct x y), ⟨.reference, E⟩⟩ := by
    intro x y
    have hs : Tensor.show cfg ⟨.vec y, ⟨.reference, E⟩⟩ (some ⟨.reference, E⟩) = .ok (.vec y) := by
      unfold Tensor.show
      rw [showIn_eq, dcmTarget_eq, Option.getD_some]
      unfold Frame.dual dualFrame
      simp only
      rw [hB]
      show Except.ok (Comps.vec ((Bᵀ * Eᵀ).mulVec y)) = _
      rw [hBE, Matrix.one_mulVec]
    unfold cross
    simp only [bind, Except.bind]
    rw [hs]
    rfl
  have heq : ∀ x y, Eᵀ.mulVec (crossProduct x y) = Eᵀ.adjugateᵀ.mulVec (crossProduct x y) := by
    intro x y
    have := hall x y _ (hcross x y)
    rw [Means, ambient_vec, cross_mulVec] at this
    simpa using this
  have hbasis : ∀ i, ∃ x y : Fin 3 → K, crossProduct x y = Pi.single i 1 := by
    intro i
    fin_cases i
    · refine ⟨Pi.single 1 1, Pi.single 2 1, ?_⟩
      ext k; fin_cases k <;> simp [cross_apply]
    · refine ⟨Pi.single 2 1, Pi.single 0 1, ?_⟩
      ext k; fin_cases k <;> simp [cross_apply]
    · refine ⟨Pi.single 0 1, Pi.single 1 1, ?_⟩
      ext k; fin_cases k <;> simp [cross_apply]
  have hmat : Eᵀ = Eᵀ.adjugateᵀ := by
    ext i j
    obtain ⟨x, y, hxy⟩ := hbasis j
    have := congrFun (heq x y) i
    rw [hxy, Matrix.mulVec_single_one, Matrix.mulVec_single_one] at this
    exact this
  have hadj : Eᵀ = E.adjugate := by
    rw [hmat, ← Matrix.adjugate_transpose, Matrix.transpose_transpose]
  have hEE : E * Eᵀ = E.det • (1 : Mat 3 K) := by rw [hadj, Matrix.mul_adjugate]
  have hd : E.det = 1 := by
    have := congrArg Matrix.det hEE
    rw [Matrix.det_mul, Matrix.det_transpose, Matrix.det_smul, Matrix.det_one, mul_one,
      Fintype.card_fin] at this
    have h2 : E.det * E.det * (E.det - 1) = 0 := by linear_combination -this
    rcases mul_eq_zero.1 h2 with h | h
    · rcases mul_eq_zero.1 h with h | h <;> exact absurd h hdet
    · exact sub_eq_zero.1 h
  refine ⟨?_, hd⟩
  unfold Orthonormal
  rw [hEE, hd, one_smul]

/-- C46 is violated: `e₁ × e₂` in a frame with base vectors of length two is shown as half of what it
is. -/
theorem C46_scaled_frame_violated :
    let f : Frame 3 ℚ := ⟨.reference, !![2, 0, 0; 0, 2, 0; 0, 0, 2]⟩
    let a : Tensor 3 ℚ := ⟨.vec ![1, 0, 0], f⟩
    let b : Tensor 3 ℚ := ⟨.vec ![0, 1, 0], f⟩
    (Means a).comp 0 = 2 ∧ (Means b).comp 1 = 2 ∧
      (cross npCfg a b none).map (fun t => (Means t).comp 2) = .ok 2 := by
  refine ⟨by decide +kernel, by decide +kernel, by decide +kernel⟩

/-- C46: tensor cross vector: every column of the ambient components is crossed. -/
theorem C46_tensor_vector (cfg : Cfg K) (a b : Tensor 3 K) (frame : Option (Frame 3 K))
    (hf : ∀ f, frame = some f → CartOK f) (A : Mat 3 K) (Y : Fin 3 → K)
    (hA : Means a = .ten2 A) (hY : Means b = .vec Y) (t : Tensor 3 K)
    (h : cross cfg a b frame = .ok t) :
    Means t = .ten2 (Matrix.of fun i j => crossProduct (fun k => A k j) Y i) := by
  obtain ⟨ca, fa⟩ := a
  obtain ⟨cb, fb⟩ := b
  cases ca with
  | vec A => rw [Means, ambient_vec] at hA; cases hA
  | gen r x => cases hA
  | ten2 x =>
    cases cb with
    | ten2 A => rw [Means, ambient_ten2] at hY; cases hY
    | gen r x => cases hY
    | vec y0 =>
      unfold cross at h
      simp only at h
      rw [show_none, show_none, hA, hY] at h
      obtain ⟨m1, -⟩ := moveTo_ok hf h
      rw [m1, Means, ambient_eq]
      show Comps.transform (1 : Mat 3 K)ᵀ _ = _
      rw [Matrix.transpose_one, transform_one]

/-- C46: vector cross tensor. -/
theorem C46_vector_tensor (cfg : Cfg K) (a b : Tensor 3 K) (frame : Option (Frame 3 K))
    (hf : ∀ f, frame = some f → CartOK f) (X : Fin 3 → K) (B : Mat 3 K)
    (hX : Means a = .vec X) (hB : Means b = .ten2 B) (t : Tensor 3 K)
    (h : cross cfg a b frame = .ok t) :
    Means t = .ten2 (Matrix.of fun i j => crossProduct X (fun k => B k j) i) := by
  obtain ⟨ca, fa⟩ := a
  obtain ⟨cb, fb⟩ := b
  cases ca with
  | ten2 A => rw [Means, ambient_ten2] at hX; cases hX
  | gen r x => cases hX
  | vec x =>
    cases cb with
    | vec A => rw [Means, ambient_vec] at hB; cases hB
    | gen r x => cases hB
    | ten2 y0 =>
      unfold cross at h
      simp only at h
      rw [show_none, show_none, hX, hB] at h
      obtain ⟨m1, -⟩ := moveTo_ok hf h
      rw [m1, Means, ambient_eq]
      show Comps.transform (1 : Mat 3 K)ᵀ _ = _
      rw [Matrix.transpose_one, transform_one]

/-- The hypotheses of C46 can be met: vectors in two different rotated frames. -/
example :
    let a : Tensor 3 ℚ := ⟨.vec ![1, 2, 3], ⟨.cartesian, !![0, 1, 0; -1, 0, 0; 0, 0, 1]⟩⟩
    let b : Tensor 3 ℚ := ⟨.vec ![1, 0, 1], ⟨.reference, !![2, 0, 0; 1, 2, 0; 0, 0, 2]⟩⟩
    a.frame.axes.det = 1 ∧ a.frame.axes * a.frame.axesᵀ = 1 ∧
      (cross npCfg a b none).map (fun t => ((Means t).comp 0, (Means t).comp 1, (Means t).comp 2)) =
        .ok (2, 10, -2) := by
  refine ⟨by decide +kernel, by decide +kernel, by decide +kernel⟩

end

/-! ## C47 -/

section
variable {n : ℕ} {K : Type} [Field K] [LinearOrder K]

/-- A linear combination of two arrays of the same kind, entry by entry. -/
def lin (α β : K) : Comps n K → Comps n K → Option (Comps n K)
  | .vec v, .vec w => some (.vec fun i => α * v i + β * w i)
  | .ten2 A, .ten2 B => some (.ten2 (Matrix.of fun i j => α * A i j + β * B i j))
  | .gen r x, .gen s y =>
    if h : r = s then some (.gen r fun t => α * x t + β * y fun k => t (k.cast h.symm)) else none
  | _, _ => none

/-- The same function at each entry. -/
def each (f : K → K) : Comps n K → Comps n K
  | .vec v => .vec fun i => f (v i)
  | .ten2 A => .ten2 (Matrix.of fun i j => f (A i j))
  | .gen r x => .gen r fun t => f (x t)

theorem lin_zip (α β : K) (a b : Comps n K) : lin α β a b = a.zip (fun x y => α * x + β * y) b := by
  cases a <;> cases b <;> rfl

theorem each_map (f : K → K) (a : Comps n K) : each f a = a.map f := by
  cases a <;> rfl

theorem zip_transform (α β : K) (Q : Mat n K) (a b c : Comps n K) (h : lin α β a b = some c) :
    lin α β (a.transform Q) (b.transform Q) = some (c.transform Q) := by
  simp only [lin_zip] at *
  cases a with
  | vec v =>
    cases b with
    | vec w =>
      cases h
      simp only [Comps.transform, Comps.zip, Option.some.injEq, Comps.vec.injEq]
      funext i
      simp only [Matrix.mulVec, dotProduct, Finset.mul_sum, ← Finset.sum_add_distrib]
      exact Finset.sum_congr rfl fun j _ => by ring
    | ten2 B => cases h
    | gen r x => cases h
  | ten2 A =>
    cases b with
    | vec w => cases h
    | ten2 B =>
      cases h
      simp only [Comps.transform, Comps.zip, Option.some.injEq, Comps.ten2.injEq]
      have : (Matrix.of fun i j => α * A i j + β * B i j) = α • A + β • B := by
        ext i j; simp
      rw [this]
      ext i j
      simp only [Matrix.of_apply, Matrix.mul_add, Matrix.add_mul, Matrix.mul_smul, Matrix.smul_mul,
        Matrix.add_apply, Matrix.smul_apply, smul_eq_mul]
    | gen r x => cases h
  | gen r x =>
    cases b with
    | vec w => cases h
    | ten2 B => cases h
    | gen s y =>
      by_cases hrs : r = s
      · subst hrs
        simp only [Comps.zip, dif_pos] at h
        cases h
        simp only [Comps.transform, Comps.zip, dif_pos, Option.some.injEq, Comps.gen.injEq,
          heq_eq_eq, true_and]
        funext t
        simp only [Finset.mul_sum, ← Finset.sum_add_distrib]
        refine Finset.sum_congr rfl fun s _ => ?_
        simp only [Fin.cast_eq_self]
        ring
      · simp only [Comps.zip, dif_neg hrs] at h
        cases h

theorem zip_add (a b : Comps n K) : a.zip (· + ·) b = lin 1 1 a b := by
  rw [lin_zip]; congr 1; funext x y; ring

theorem zip_sub (a b : Comps n K) : a.zip (· - ·) b = lin 1 (-1) a b := by
  rw [lin_zip]; congr 1; funext x y; ring

theorem binary_ok {cfg : Cfg K} {f : K → K → K} {a b t : Tensor n K}
    (h : binary cfg f a (.tensor b) = .ok t) :
    ∃ y, b.show cfg (some a.frame) = .ok y ∧ a.comps.zip f y = some t.comps ∧
      t.frame = ⟨.reference, a.frame.axes⟩ := by
  unfold binary at h
  simp only at h
  split at h
  · cases hz : a.comps.zip f b.comps with
    | none => rw [hz] at h; cases h
    | some z =>
      rw [hz] at h
      simp only [bind, Except.bind] at h
      cases hs : b.show cfg (some a.frame) with
      | error e => rw [hs] at h; cases h
      | ok y =>
        rw [hs] at h
        simp only at h
        cases hz2 : a.comps.zip f y with
        | none => rw [hz2] at h; cases h
        | some c =>
          rw [hz2] at h
          cases h
          exact ⟨y, rfl, hz2, rfl⟩
  · cases h

theorem means_lin (α β : K) (E : Mat n K) (a b c : Comps n K) (h : lin α β a b = some c) :
    lin α β (ambient E a) (ambient E b) = some (ambient E c) := by
  rw [ambient_eq, ambient_eq, ambient_eq]
  exact zip_transform α β _ a b c h

/-- C47: the sum of two tensors stands for the sum of what they stand for. -/
theorem C47_add (cfg : Cfg K) (a b t : Tensor n K) (ha : CartOK a.frame)
    (h : binary cfg (· + ·) a (.tensor b) = .ok t) :
    lin 1 1 (Means a) (Means b) = some (Means t) := by
  obtain ⟨y, hs, hz, hf⟩ := binary_ok h
  rw [zip_add] at hz
  have := means_lin 1 1 a.frame.axes _ _ _ hz
  rw [show_some ha hs] at this
  unfold Means at *
  rw [hf]
  exact this

/-- C47: the difference. -/
theorem C47_sub (cfg : Cfg K) (a b t : Tensor n K) (ha : CartOK a.frame)
    (h : binary cfg (· - ·) a (.tensor b) = .ok t) :
    lin 1 (-1) (Means a) (Means b) = some (Means t) := by
  obtain ⟨y, hs, hz, hf⟩ := binary_ok h
  rw [zip_sub] at hz
  have := means_lin 1 (-1) a.frame.axes _ _ _ hz
  rw [show_some ha hs] at this
  unfold Means at *
  rw [hf]
  exact this

/-- Every kind of array is compatible with itself. -/
theorem lin_self (α β : K) (a : Comps n K) : ∃ c, lin α β a a = some c := by
  simp only [lin_zip]
  cases a <;> simp [Comps.zip]

theorem map_mul_eq (s : K) (a : Comps n K) : lin s 0 a a = some (a.map (· * s)) := by
  rw [lin_zip]
  cases a with
  | vec v =>
    simp only [Comps.zip, Comps.map, Option.some.injEq, Comps.vec.injEq]
    funext i; ring
  | ten2 A =>
    simp only [Comps.zip, Comps.map, Option.some.injEq, Comps.ten2.injEq]
    ext i j; simp only [Matrix.of_apply]; ring
  | gen r x =>
    simp only [Comps.zip, Comps.map, dif_pos, Option.some.injEq, Comps.gen.injEq, heq_eq_eq,
      true_and]
    funext t; ring

theorem ambient_map (s : K) (E : Mat n K) (a : Comps n K) :
    ambient E (a.map (· * s)) = (ambient E a).map (· * s) := by
  have h1 := means_lin s 0 E a a _ (map_mul_eq s a)
  rw [map_mul_eq s (ambient E a)] at h1
  simpa using h1.symm

/-- C47: the multiple of a tensor stands for the multiple of what it stands for; the in place operator
does the same. -/
theorem C47_scale (a : Tensor n K) (s : K) :
    ∃ t, mul a (.number s) = .ok t ∧ imul a (.number s) = .ok t ∧ t.frame = a.frame ∧
      Means t = each (· * s) (Means a) :=
  ⟨_, rfl, rfl, rfl, (ambient_map s _ _).trans (each_map _ _).symm⟩

/-- C47: quotients likewise, dividing by zero aside; the result is then not finite. -/
theorem C47_divide (a : Tensor n K) (s : K) :
    (s ≠ 0 → ∃ t, truediv a (.number s) = .ok (some t) ∧ itruediv a (.number s) = .ok (some t) ∧
      t.frame = a.frame ∧ Means t = each (· * s⁻¹) (Means a)) ∧
    (s = 0 → truediv a (.number s) = .ok none ∧ itruediv a (.number s) = .ok none) := by
  refine ⟨fun hs => ⟨⟨a.comps.map (· / s), a.frame⟩, ?_, ?_, rfl, ?_⟩, fun hs => ?_⟩
  · show Except.ok (if s = 0 then none else _) = _
    rw [if_neg hs]
  · show Except.ok (if s = 0 then none else _) = _
    rw [if_neg hs]
  · have : (fun x : K => x / s) = fun x => x * s⁻¹ := by funext x; exact div_eq_mul_inv x s
    unfold Means
    rw [this, each_map]
    exact ambient_map s⁻¹ _ _
  · refine ⟨?_, ?_⟩ <;>
    · show Except.ok (if s = 0 then none else _) = _
      rw [if_pos hs]

/-- C47: the opposite. -/
theorem C47_neg (a : Tensor n K) :
    (neg a).frame = a.frame ∧ Means (neg a) = each (· * (-1)) (Means a) := by
  refine ⟨rfl, ?_⟩
  have : (fun x : K => -x) = fun x => x * (-1) := by funext x; ring
  unfold Means neg
  rw [this, each_map]
  exact ambient_map (-1) _ _

/-- C47: the in place operators with a tensor give the components of the binary ones, in the same
axes. -/
theorem C47_inplace_tensor (cfg : Cfg K) (a b t : Tensor n K) :
    (binary cfg (· + ·) a (.tensor b) = .ok t →
      iadd cfg a (.tensor b) = .ok ⟨t.comps, a.frame⟩ ∧ t.frame.axes = a.frame.axes) ∧
    (binary cfg (· - ·) a (.tensor b) = .ok t →
      isub cfg a (.tensor b) = .ok ⟨t.comps, a.frame⟩ ∧ t.frame.axes = a.frame.axes) := by
  have hsome : ∀ f : K → K → K, binary cfg f a (.tensor b) = .ok t →
      ∃ z, a.comps.zip f b.comps = some z := by
    intro f h
    unfold binary at h
    simp only at h
    split at h
    · cases hz : a.comps.zip f b.comps with
      | none => rw [hz] at h; cases h
      | some z => exact ⟨z, rfl⟩
    · cases h
  constructor
  · intro h
    obtain ⟨z, hz0⟩ := hsome _ h
    obtain ⟨y, hs, hz, hf⟩ := binary_ok h
    refine ⟨?_, by rw [hf]⟩
    unfold iadd
    simp only
    rw [hz0]
    simp only [bind, Except.bind]
    rw [hs]
    simp only
    rw [hz]
  · intro h
    obtain ⟨z, hz0⟩ := hsome _ h
    obtain ⟨y, hs, hz, hf⟩ := binary_ok h
    refine ⟨?_, by rw [hf]⟩
    unfold isub
    simp only
    rw [hz0]
    simp only [bind, Except.bind]
    rw [hs]
    simp only
    rw [hz]

/-- C47: adding and subtracting a tensor in place restores the components. -/
theorem C47_restore_tensor (cfg : Cfg K) (a b t u : Tensor n K)
    (h1 : iadd cfg a (.tensor b) = .ok t) (h2 : isub cfg t (.tensor b) = .ok u) : u = a := by
  have e1 : ∃ y, b.show cfg (some a.frame) = .ok y ∧ a.comps.zip (· + ·) y = some t.comps ∧
      t.frame = a.frame := by
    unfold iadd at h1
    simp only at h1
    cases hz : a.comps.zip (· + ·) b.comps with
    | none => rw [hz] at h1; cases h1
    | some z =>
      rw [hz] at h1
      simp only [bind, Except.bind] at h1
      cases hs : b.show cfg (some a.frame) with
      | error e => rw [hs] at h1; cases h1
      | ok y =>
        rw [hs] at h1
        simp only at h1
        cases hz2 : a.comps.zip (· + ·) y with
        | none => rw [hz2] at h1; cases h1
        | some c => rw [hz2] at h1; cases h1; exact ⟨y, rfl, hz2, rfl⟩
  have e2 : ∃ y, b.show cfg (some t.frame) = .ok y ∧ t.comps.zip (· - ·) y = some u.comps ∧
      u.frame = t.frame := by
    unfold isub at h2
    simp only at h2
    cases hz : t.comps.zip (· - ·) b.comps with
    | none => rw [hz] at h2; cases h2
    | some z =>
      rw [hz] at h2
      simp only [bind, Except.bind] at h2
      cases hs : b.show cfg (some t.frame) with
      | error e => rw [hs] at h2; cases h2
      | ok y =>
        rw [hs] at h2
        simp only at h2
        cases hz2 : t.comps.zip (· - ·) y with
        | none => rw [hz2] at h2; cases h2
        | some c => rw [hz2] at h2; cases h2; exact ⟨y, rfl, hz2, rfl⟩
  obtain ⟨y, s1, z1, f1⟩ := e1
  obtain ⟨y', s2, z2, f2⟩ := e2
  rw [f1, s1] at s2
  cases s2
  have hcomps : u.comps = a.comps := by
    obtain ⟨ca, fa⟩ := a
    obtain ⟨ct, ft⟩ := t
    obtain ⟨cu, fu⟩ := u
    simp only at *
    cases ca with
    | vec v =>
      cases y with
      | vec w =>
        cases z1; cases z2
        congr 1; funext i; ring
      | ten2 B => cases z1
      | gen r x => cases z1
    | ten2 A =>
      cases y with
      | vec w => cases z1
      | ten2 B =>
        cases z1; cases z2
        congr 1; ext i j; simp
      | gen r x => cases z1
    | gen r x =>
      cases y with
      | vec w => cases z1
      | ten2 B => cases z1
      | gen s y =>
        by_cases hrs : r = s
        · subst hrs
          simp only [Comps.zip, dif_pos] at z1
          cases z1
          simp only [Comps.zip, dif_pos] at z2
          cases z2
          congr 1
          funext t
          ring
        · simp only [Comps.zip, dif_neg hrs] at z1
          cases z1
  cases a; cases u; cases t
  simp only at *
  rw [hcomps, f2, f1]

/-- C47 is violated: subtracting a number in place adds it; `x += s; x -= s` gives `x + 2s`. -/
theorem C47_isub_number_violated (cfg : Cfg K) (a : Tensor n K) (s : K) :
    ∃ t u, iadd cfg a (.number s) = .ok t ∧ isub cfg t (.number s) = .ok u ∧
      u.comps = each (· + 2 * s) a.comps := by
  refine ⟨_, _, rfl, rfl, ?_⟩
  rw [each_map]
  obtain ⟨ca, fa⟩ := a
  cases ca with
  | vec v => simp only [Comps.map, Comps.vec.injEq]; funext i; ring
  | ten2 A => simp only [Comps.map, Comps.ten2.injEq]; ext i j; simp only [Matrix.of_apply]; ring
  | gen r x => simp only [Comps.map, Comps.gen.injEq, heq_eq_eq, true_and]; funext t; ring

/-- C47 is violated: `x - 1` raises, `x -= 1` gives `x + 1`; with an array on the right `x + arr`
raises, `x += arr` does nothing; `2 * x` raises, `x * 2` does not. -/
theorem C47_operators_violated (cfg : Cfg K) (a : Tensor n K) (s : K) :
    binary cfg (· - ·) a (.number s) = .error .type ∧
      isub cfg a (.number s) = .ok ⟨each (· + s) a.comps, a.frame⟩ ∧
      binary cfg (· + ·) a .other = .error .type ∧ iadd cfg a .other = .ok a ∧
      reflected s a = .error .generic ∧ ∃ t, mul a (.number s) = .ok t :=
  ⟨rfl, by rw [each_map]; rfl, rfl, rfl, rfl, _, rfl⟩

/-- Numbers that differ: the violation is one. -/
example : let a : Tensor 2 ℚ := ⟨.vec ![1, 2], ambientFrame⟩
    ((iadd npCfg a (.number 1)).bind fun t => isub npCfg t (.number 1)).map (fun u => u.comps.comp 0)
      = .ok 3 := by decide +kernel

/-- The hypotheses of C47 can be met by vectors in different frames. -/
example :
    let a : Tensor 2 ℚ := ⟨.vec ![1, 2], ⟨.reference, !![1, 1; 0, 2]⟩⟩
    let b : Tensor 2 ℚ := ⟨.vec ![1, 0], ⟨.cartesian, !![0, 1; -1, 0]⟩⟩
    (binary npCfg (· + ·) a (.tensor b)).map (fun t => ((Means t).comp 0, (Means t).comp 1)) =
      .ok (1, 6) := by decide +kernel

end

end Verif.Frames.Props
