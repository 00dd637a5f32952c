import Verif.Model.Objective
import Verif.Props.Einsum
import Verif.Props.TensorProg
import Verif.Props.Rotation
import Verif.Props.Returns

/-! # Helper lemmas: rotating the operands rotates the result -/

set_option linter.unusedSectionVars false

namespace Verif.Rot
open Verif Verif.Frames Verif.Frames.Props Matrix

/-- What is asked of the frames: that they are right handed, and that corresponding objects are given in the
same frame. -/
structure Mode where
  righthanded : Prop
  same : Prop

/-- The axes are orthonormal, and right handed where it matters. -/
def Good (d : Mode) (f : Frame 3 ℝ) : Prop := Orthonormal f.axes ∧ (d.righthanded → f.axes.det = 1)

theorem good_sound {d : Mode} {f : Frame 3 ℝ} (h : Good d f) : Sound f := by
  refine ⟨fun h0 => ?_, fun _ => ?_, fun _ => h.1⟩
  · have := congrArg Matrix.det h.1
    rw [det_mul, h0, zero_mul, det_one] at this
    exact zero_ne_one this
  · exact orthonormal_perpendicular h.1

theorem good_ambient (d : Mode) : Good d (ambientFrame : Frame 3 ℝ) :=
  ⟨by unfold Orthonormal ambientFrame; simp, fun _ => by unfold ambientFrame; exact det_one⟩

/-- General tensors have three indices or more. -/
def Canon (c : Comps 3 ℝ) : Prop := ∀ r x, c = .gen r x → 3 ≤ r

/-- The second tensor is the first one rotated by `S` (as matrix of the ambient frame). -/
structure Rel (d : Mode) (S : Mat 3 ℝ) (t t' : Tensor 3 ℝ) : Prop where
  frame : d.same → t'.frame = t.frame
  good : Good d t.frame
  good' : Good d t'.frame
  means : Means t' = (Means t).transform S
  canon : Canon t.comps

/-- The same for values. -/
def RelV (d : Mode) (S : Mat 3 ℝ) : Val → Val → Prop
  | .number x, .number y => y = x
  | .tensor t, .tensor t' => Rel d S t t'
  | _, _ => False

/-- The same for outcomes; exceptions are the same. -/
def RelP (d : Mode) (S : Mat 3 ℝ) : Py Val → Py Val → Prop
  | .ok v, .ok v' => RelV d S v v'
  | .error e, .error e' => e' = e
  | _, _ => False

theorem relP_bind {d : Mode} {S : Mat 3 ℝ} {x x' : Py Val} {f f' : Val → Py Val} (h : RelP d S x x')
    (hf : ∀ v v', RelV d S v v' → RelP d S (f v) (f' v')) : RelP d S (x >>= f) (x' >>= f') := by
  match x, x', h with
  | .ok v, .ok v', h => exact hf v v' h
  | .error e, .error e', h => exact h

theorem means_transform {d : Mode} {f : Frame 3 ℝ} (hf : Good d f) (S : Mat 3 ℝ) (c : Comps 3 ℝ) :
    Means ⟨c.transform (f.axes * S * f.axesᵀ), f⟩ = (Means ⟨c, f⟩).transform S := by
  have h1 : f.axesᵀ * f.axes = 1 := mul_eq_one_comm.1 hf.1
  unfold Means
  simp only [ambient_eq, transform_comp]
  congr 1
  rw [← Matrix.mul_assoc, ← Matrix.mul_assoc, h1, Matrix.one_mul]

/-- The components of the rotated tensor. -/
theorem Rel.comps {d : Mode} {S : Mat 3 ℝ} {t t' : Tensor 3 ℝ} (h : Rel d S t t') :
    t'.comps = t.comps.transform (t'.frame.axes * S * t.frame.axesᵀ) := by
  have h1 : t'.frame.axes * t'.frame.axesᵀ = 1 := h.good'.1
  have hm := congrArg (Comps.transform t'.frame.axes) h.means
  unfold Means at hm
  simp only [ambient_eq, transform_comp] at hm
  rw [h1, transform_one] at hm
  rw [hm, Matrix.mul_assoc]

/-- The rotation leaves the kind of the components alone. -/
theorem Rel.vec {d : Mode} {S : Mat 3 ℝ} {t t' : Tensor 3 ℝ} (h : Rel d S t t') {v : Fin 3 → ℝ}
    (hv : t.comps = .vec v) : ∃ X, Means t = .vec X ∧ Means t' = .vec (S.mulVec X) ∧
      ∃ v', t'.comps = .vec v' := by
  have hm : Means t = .vec (t.frame.axesᵀ.mulVec v) := by
    unfold Means; rw [hv, ambient_vec]
  refine ⟨_, hm, ?_, ?_⟩
  · rw [h.means, hm]; rfl
  · rw [h.comps, hv]; exact ⟨_, rfl⟩

theorem Rel.ten2 {d : Mode} {S : Mat 3 ℝ} {t t' : Tensor 3 ℝ} (h : Rel d S t t') {A : Mat 3 ℝ}
    (hA : t.comps = .ten2 A) : ∃ X, Means t = .ten2 X ∧ Means t' = .ten2 (S * X * Sᵀ) ∧
      ∃ A', t'.comps = .ten2 A' := by
  have hm : Means t = .ten2 (t.frame.axesᵀ * A * t.frame.axes) := by
    unfold Means; rw [hA, ambient_ten2]
  refine ⟨_, hm, ?_, ?_⟩
  · rw [h.means, hm]; rfl
  · rw [h.comps, hA]; exact ⟨_, rfl⟩

theorem Rel.rank {d : Mode} {S : Mat 3 ℝ} {t t' : Tensor 3 ℝ} (h : Rel d S t t') :
    t'.comps.rank = t.comps.rank := by
  rw [h.comps]
  cases t.comps <;> rfl

theorem Rel.mk' {d : Mode} {S : Mat 3 ℝ} {t t' : Tensor 3 ℝ} {f f' : Frame 3 ℝ}
    (hff : d.same → f' = f) (hf : Good d f) (hf' : Good d f')
    (h1 : t.frame = f) (h2 : t'.frame = f') (hm : Means t' = (Means t).transform S)
    (hc : Canon t.comps) : Rel d S t t' :=
  ⟨fun h => h2.trans ((hff h).trans h1.symm), h1 ▸ hf, h2 ▸ hf', hm, hc⟩

theorem canon_means {t : Tensor 3 ℝ} (h : Canon (Means t)) : Canon t.comps := by
  intro r x hx
  unfold Means at h
  rw [hx] at h
  exact h r _ rfl

theorem canon_vec {t : Tensor 3 ℝ} {v : Fin 3 → ℝ} (h : Means t = .vec v) : Canon t.comps :=
  canon_means (by rw [h]; intro r x hx; cases hx)

theorem canon_ten2 {t : Tensor 3 ℝ} {A : Mat 3 ℝ} (h : Means t = .ten2 A) : Canon t.comps :=
  canon_means (by rw [h]; intro r x hx; cases hx)

theorem good_getD {d : Mode} {frame : Option (Frame 3 ℝ)} {f : Frame 3 ℝ} (h : ∀ g, frame = some g → Good d g)
    (hf : Good d f) : Good d (frame.getD f) := by
  cases frame with
  | none => exact hf
  | some g => exact h g rfl

/-! ### Linear operations -/

theorem each_transform (s : ℝ) (S : Mat 3 ℝ) (c : Comps 3 ℝ) :
    each (· * s) (c.transform S) = (each (· * s) c).transform S := by
  have h1 := map_mul_eq s c
  have h2 := zip_transform s 0 S c c _ h1
  rw [map_mul_eq] at h2
  rw [each_map, each_map]
  exact Option.some.inj h2

theorem canon_each {f : ℝ → ℝ} {c : Comps 3 ℝ} (h : Canon c) : Canon (each f c) := by
  intro r x hx
  cases c with
  | vec v => cases hx
  | ten2 A => cases hx
  | gen r' a => cases hx; exact h _ _ rfl

theorem canon_unambient {t : Tensor 3 ℝ} (h : Canon t.comps) : Canon (Means t) := by
  intro r x hx
  unfold Means at hx
  cases hc : t.comps with
  | vec v => rw [hc] at hx; cases hx
  | ten2 A => rw [hc] at hx; cases hx
  | gen r' a => rw [hc] at hx; cases hx; exact h _ _ hc

theorem canon_lin {α β : ℝ} {a b c : Comps 3 ℝ} (h : lin α β a b = some c) (ha : Canon a) : Canon c := by
  intro r x hx
  subst hx
  cases a with
  | vec v => cases b <;> cases h
  | ten2 A => cases b <;> cases h
  | gen r' y =>
    cases b with
    | vec v => cases h
    | ten2 A => cases h
    | gen s z =>
      have h' : (if h : r' = s then some (Comps.gen r' fun t => α * y t + β * z fun k => t (k.cast h.symm))
        else none) = some (.gen r x) := h
      split at h'
      · cases h'; exact ha _ _ rfl
      · cases h'

/-- Sum and difference. -/
theorem rel_binary {d : Mode} {S : Mat 3 ℝ} {cfg : Cfg ℝ} (ha : 0 ≤ cfg.atol) (hr : 0 ≤ cfg.rtol)
    {a a' b b' : Tensor 3 ℝ} (hA : Rel d S a a') (hB : Rel d S b b') (f : ℝ → ℝ → ℝ) (α β : ℝ)
    (hf : ∀ (a b t : Tensor 3 ℝ), CartOK a.frame → binary cfg f a (.tensor b) = .ok t →
      lin α β (Means a) (Means b) = some (Means t))
    (htot : ∀ (a b : Tensor 3 ℝ), Sound a.frame →
      ((∃ v w, a.comps = .vec v ∧ b.comps = .vec w) ∨ (∃ A B, a.comps = .ten2 A ∧ b.comps = .ten2 B) ∨
      ∃ r x y, a.comps = .gen r x ∧ b.comps = .gen r y) → ∃ t, binary cfg f a (.tensor b) = .ok t) :
    RelP d S (do return .tensor (← binary cfg f a (.tensor b)))
      (do return .tensor (← binary cfg f a' (.tensor b'))) := by
  have hs := good_sound hA.good
  have hs' := good_sound hA.good'
  have hca := hA.comps
  have hcb := hB.comps
  have succ : (∃ t, binary cfg f a (.tensor b) = .ok t) → (∃ t, binary cfg f a' (.tensor b') = .ok t) →
      RelP d S (do return .tensor (← binary cfg f a (.tensor b)))
        (do return .tensor (← binary cfg f a' (.tensor b'))) := by
    rintro ⟨t, ht⟩ ⟨t', ht'⟩
    obtain ⟨-, -, -, hft⟩ := binary_ok ht
    obtain ⟨-, -, -, hft'⟩ := binary_ok ht'
    have h1 := hf a b t hs.2.2 ht
    have h2 := hf a' b' t' hs'.2.2 ht'
    rw [hA.means, hB.means, zip_transform α β S _ _ _ h1] at h2
    rw [ht, ht']
    refine Rel.mk' (f := ⟨.reference, a.frame.axes⟩) (f' := ⟨.reference, a'.frame.axes⟩)
      (fun h => by rw [hA.frame h]) ⟨hA.good.1, hA.good.2⟩ ⟨hA.good'.1, hA.good'.2⟩ hft hft'
      (Option.some.inj h2).symm (canon_means (canon_lin h1 (canon_unambient hA.canon)))
  cases hc : a.comps with
  | vec v =>
    rw [hc] at hca
    cases hd : b.comps with
    | vec w =>
      rw [hd] at hcb
      exact succ (htot a b hs (.inl ⟨_, _, hc, hd⟩)) (htot a' b' hs' (.inl ⟨_, _, hca, hcb⟩))
    | ten2 B =>
      rw [hd] at hcb
      unfold binary
      simp only [hc, hd, hca, hcb, Comps.transform]
      exact rfl
    | gen s y =>
      rw [hd] at hcb
      unfold binary
      simp only [hc, hd, hca, hcb, Comps.transform]
      exact rfl
  | ten2 A =>
    rw [hc] at hca
    cases hd : b.comps with
    | vec w =>
      rw [hd] at hcb
      unfold binary
      simp only [hc, hd, hca, hcb, Comps.transform]
      exact rfl
    | ten2 B =>
      rw [hd] at hcb
      exact succ (htot a b hs (.inr (.inl ⟨_, _, hc, hd⟩))) (htot a' b' hs' (.inr (.inl ⟨_, _, hca, hcb⟩)))
    | gen s y =>
      rw [hd] at hcb
      unfold binary
      simp only [hc, hd, hca, hcb, Comps.transform]
      exact rfl
  | gen r x =>
    rw [hc] at hca
    cases hd : b.comps with
    | vec w =>
      rw [hd] at hcb
      unfold binary
      simp only [hc, hd, hca, hcb, Comps.transform]
      exact rfl
    | ten2 B =>
      rw [hd] at hcb
      unfold binary
      simp only [hc, hd, hca, hcb, Comps.transform]
      exact rfl
    | gen s y =>
      rw [hd] at hcb
      by_cases hrs : r = s
      · subst hrs
        exact succ (htot a b hs (.inr (.inr ⟨_, _, _, hc, hd⟩)))
          (htot a' b' hs' (.inr (.inr ⟨_, _, _, hca, hcb⟩)))
      · unfold binary
        simp only [hc, hd, hca, hcb, Comps.transform, Comps.sameClass, if_true, Comps.zip, dif_neg hrs]
        exact rfl

theorem rel_scale {d : Mode} {S : Mat 3 ℝ} {a a' : Tensor 3 ℝ} (hA : Rel d S a a') (s : ℝ) :
    ∃ t t', Frames.mul a (.number s) = .ok t ∧ Frames.mul a' (.number s) = .ok t' ∧ Rel d S t t' := by
  obtain ⟨t, h1, -, h2, h3⟩ := C47_scale a s
  obtain ⟨t', h1', -, h2', h3'⟩ := C47_scale a' s
  refine ⟨t, t', h1, h1', Rel.mk' hA.frame hA.good hA.good' h2 h2' ?_
    (canon_means (h3 ▸ canon_each (canon_unambient hA.canon)))⟩
  rw [h3', h3, hA.means, each_transform]

theorem rel_neg {d : Mode} {S : Mat 3 ℝ} {a a' : Tensor 3 ℝ} (hA : Rel d S a a') :
    Rel d S (Frames.neg a) (Frames.neg a') := by
  obtain ⟨h2, h3⟩ := C47_neg a
  obtain ⟨h2', h3'⟩ := C47_neg a'
  refine Rel.mk' hA.frame hA.good hA.good' h2 h2' ?_
    (canon_means (h3 ▸ canon_each (canon_unambient hA.canon)))
  rw [h3', h3, hA.means, each_transform]

theorem reversed_transform (S : Mat 3 ℝ) (c : Comps 3 ℝ) :
    reversed (c.transform S) = (reversed c).transform S := by
  have h1 := C65_transpose Sᵀ c
  have h2 := C65_transpose (1 : Mat 3 ℝ) c
  simp only [ambient_eq, Matrix.transpose_transpose, Matrix.transpose_one, transform_one] at h1 h2
  rw [← h1, h2]

theorem rel_transpose {d : Mode} {S : Mat 3 ℝ} {a a' : Tensor 3 ℝ} {cfg : Cfg ℝ} (ha : 0 ≤ cfg.atol)
    (hr : 0 ≤ cfg.rtol) (hrt : cfg.rt 1 = 1) (hA : Rel d S a a') :
    RelP d S (transposeV cfg (.tensor a)) (transposeV cfg (.tensor a')) := by
  have hm := TProg.mkFrame_sound cfg ha hr hrt a.frame (good_sound hA.good)
  have hm' := TProg.mkFrame_sound cfg ha hr hrt a'.frame (good_sound hA.good')
  simp only [transposeV]
  rw [hm, hm']
  show Rel d S ⟨a.comps.transpose, a.frame⟩ ⟨a'.comps.transpose, a'.frame⟩
  have h1 := C65_transpose a.frame.axes a.comps
  have h2 := C65_transpose a'.frame.axes a'.comps
  have hmm := hA.means
  unfold Means at hmm
  refine Rel.mk' hA.frame hA.good hA.good' rfl rfl ?_ ?_
  · unfold Means
    simp only
    rw [h1, h2, hmm, reversed_transform]
  · intro r x hx
    simp only at hx
    cases hc : a.comps with
    | vec v => rw [hc] at hx; cases hx
    | ten2 A => rw [hc] at hx; cases hx
    | gen r' y => rw [hc] at hx; cases hx; exact hA.canon _ _ hc

/-! ### Products of vectors and second order tensors -/

section
variable {d : Mode} {S : Mat 3 ℝ} {cfg : Cfg ℝ} (hS : S * Sᵀ = 1) (ha : 0 ≤ cfg.atol) (hr : 0 ≤ cfg.rtol)

include hS in
theorem sum_rotated (X Y : Fin 3 → ℝ) : ∑ i, S.mulVec X i * S.mulVec Y i = ∑ i, X i * Y i := by
  have h1 : Sᵀ * S = 1 := mul_eq_one_comm.1 hS
  have : S.mulVec X ⬝ᵥ S.mulVec Y = X ⬝ᵥ Y := by
    rw [dotProduct_mulVec, vecMul_mulVec, h1, vecMul_one]
  exact this

include hS ha hr in
theorem rel_dot_small {a a' b b' : Tensor 3 ℝ} (hA : Rel d S a a') (hB : Rel d S b b')
    (frame : Option (Frame 3 ℝ)) (hf : ∀ f, frame = some f → Good d f)
    (hva : (∃ v, a.comps = .vec v) ∨ ∃ A, a.comps = .ten2 A)
    (hvb : (∃ v, b.comps = .vec v) ∨ ∃ A, b.comps = .ten2 A) :
    RelP d S (do match ← Frames.dot cfg a b frame none with
        | .scalar x => return .number x
        | .tensor t => return .tensor t)
      (do match ← Frames.dot cfg a' b' frame none with
        | .scalar x => return .number x
        | .tensor t => return .tensor t) := by
  have h1 : Sᵀ * S = 1 := mul_eq_one_comm.1 hS
  have hs := good_sound hA.good
  have hs' := good_sound hA.good'
  have hfs : ∀ f, frame = some f → Sound f := fun f h => good_sound (hf f h)
  have hfc : ∀ f, frame = some f → CartOK f := fun f h => (hfs f h).2.2
  have hE : a.frame.axesᵀ * a.frame.axes = 1 := mul_eq_one_comm.1 hA.good.1
  have hE' : a'.frame.axesᵀ * a'.frame.axes = 1 := mul_eq_one_comm.1 hA.good'.1
  have hg : Good d (frame.getD a.frame) := good_getD hf hA.good
  have hg' : Good d (frame.getD a'.frame) := good_getD hf hA.good'
  have hgg : d.same → frame.getD a'.frame = frame.getD a.frame := fun h => by rw [hA.frame h]
  rcases hva with ⟨v, hv⟩ | ⟨A, hv⟩ <;> rcases hvb with ⟨w, hw⟩ | ⟨B, hw⟩
  · obtain ⟨X, hX, hX', -⟩ := hA.vec hv
    obtain ⟨Y, hY, hY', -⟩ := hB.vec hw
    rw [C45_vector_vector cfg a b frame none X Y hX hY, C45_vector_vector cfg a' b' frame none _ _ hX' hY']
    exact sum_rotated hS X Y
  · obtain ⟨X, hX, hX', v', hv'⟩ := hA.vec hv
    obtain ⟨Y, hY, hY', w', hw'⟩ := hB.ten2 hw
    obtain ⟨r, h⟩ := C45_total cfg ha hr a b frame none hs hfs (.inl ⟨_, hv⟩) (.inr ⟨_, hw⟩)
    obtain ⟨r', h'⟩ := C45_total cfg ha hr a' b' frame none hs' hfs (.inl ⟨_, hv'⟩) (.inr ⟨_, hw'⟩)
    obtain ⟨t, rfl, ht, hm, -⟩ := C45_vector_tensor_partial cfg a b frame none hs.2.2 hfc X Y hX hY r h
    obtain ⟨t', rfl, ht', hm', -⟩ := C45_vector_tensor_partial cfg a' b' frame none hs'.2.2 hfc _ _ hX' hY' r' h'
    rw [h, h']
    rw [hE, one_mulVec] at hm
    rw [hE', one_mulVec] at hm'
    refine Rel.mk' hgg hg hg' ht ht' ?_ (canon_vec hm)
    rw [hm', hm]
    simp only [Comps.transform, mulVec_mulVec, Matrix.mul_assoc, h1, Matrix.mul_one]
  · obtain ⟨X, hX, hX', v', hv'⟩ := hA.ten2 hv
    obtain ⟨Y, hY, hY', w', hw'⟩ := hB.vec hw
    obtain ⟨r, h⟩ := C45_total cfg ha hr a b frame none hs hfs (.inr ⟨_, hv⟩) (.inl ⟨_, hw⟩)
    obtain ⟨r', h'⟩ := C45_total cfg ha hr a' b' frame none hs' hfs (.inr ⟨_, hv'⟩) (.inl ⟨_, hw'⟩)
    obtain ⟨t, rfl, hm, ht⟩ := C45_tensor_vector cfg a b frame none hs.2.2 hfc X Y hX hY r h
    obtain ⟨t', rfl, hm', ht'⟩ := C45_tensor_vector cfg a' b' frame none hs'.2.2 hfc _ _ hX' hY' r' h'
    rw [h, h']
    refine Rel.mk' hgg hg hg' ht ht' ?_ (canon_vec hm)
    rw [hm', hm]
    simp only [Comps.transform, mulVec_mulVec, Matrix.mul_assoc, h1, Matrix.mul_one]
  · obtain ⟨X, hX, hX', v', hv'⟩ := hA.ten2 hv
    obtain ⟨Y, hY, hY', w', hw'⟩ := hB.ten2 hw
    obtain ⟨r, h⟩ := C45_total cfg ha hr a b frame none hs hfs (.inr ⟨_, hv⟩) (.inr ⟨_, hw⟩)
    obtain ⟨r', h'⟩ := C45_total cfg ha hr a' b' frame none hs' hfs (.inr ⟨_, hv'⟩) (.inr ⟨_, hw'⟩)
    obtain ⟨t, rfl, hm, ht⟩ := C45_tensor_tensor cfg a b frame none hs.2.2 hfc X Y hX hY r h
    obtain ⟨t', rfl, hm', ht'⟩ := C45_tensor_tensor cfg a' b' frame none hs'.2.2 hfc _ _ hX' hY' r' h'
    rw [h, h']
    refine Rel.mk' hgg hg hg' ht ht' ?_ (canon_ten2 hm)
    rw [hm', hm]
    simp only [Comps.transform, Comps.ten2.injEq]
    calc S * X * Sᵀ * (S * Y * Sᵀ) = S * X * ((Sᵀ * S) * (Y * Sᵀ)) := by simp only [Matrix.mul_assoc]
      _ = S * (X * Y) * Sᵀ := by rw [h1, Matrix.one_mul]; simp only [Matrix.mul_assoc]

/-! ### Cross products -/

include hS in
theorem cross_rotated (hdet : S.det = 1) (X Y : Fin 3 → ℝ) :
    crossProduct (S.mulVec X) (S.mulVec Y) = S.mulVec (crossProduct X Y) := by
  have h1 : Sᵀ * S = 1 := mul_eq_one_comm.1 hS
  have h2 := adjugate_rotation Sᵀ (by unfold Orthonormal; rw [Matrix.transpose_transpose]; exact h1)
    (by rw [det_transpose]; exact hdet)
  rw [Matrix.transpose_transpose] at h2
  rw [cross_mulVec S X Y, h2]

/-- The columns of a matrix are crossed one by one. -/
theorem cross_columns (f : (Fin 3 → ℝ) →ₗ[ℝ] (Fin 3 → ℝ)) (A Q : Mat 3 ℝ) :
    (Matrix.of fun i j => f (fun k => (A * Q) k j) i) = (Matrix.of fun i j => f (fun k => A k j) i) * Q := by
  ext i j
  have h : (fun k => (A * Q) k j) = ∑ l, Q l j • fun k => A k l := by
    funext k
    simp only [Matrix.mul_apply, Finset.sum_apply, Pi.smul_apply, smul_eq_mul]
    exact Finset.sum_congr rfl fun l _ => mul_comm _ _
  rw [Matrix.of_apply, h, Matrix.mul_apply]
  simp only [map_sum, map_smul, Finset.sum_apply, Pi.smul_apply, smul_eq_mul, Matrix.of_apply]
  exact Finset.sum_congr rfl fun l _ => mul_comm _ _

include hS ha hr in
theorem rel_cross {a a' b b' : Tensor 3 ℝ} (hd : d.righthanded) (hdet : S.det = 1) (hA : Rel d S a a') (hB : Rel d S b b')
    (frame : Option (Frame 3 ℝ)) (hf : ∀ f, frame = some f → Good d f) :
    RelP d S (crossV cfg frame (.tensor a) (.tensor b)) (crossV cfg frame (.tensor a') (.tensor b')) := by
  have hs := good_sound hA.good
  have hs' := good_sound hA.good'
  have hfs : ∀ f, frame = some f → Sound f := fun f h => good_sound (hf f h)
  have hfc : ∀ f, frame = some f → CartOK f := fun f h => (hfs f h).2.2
  have hca := hA.comps
  have hcb := hB.comps
  simp only [crossV]
  cases hc : a.comps with
  | gen r x =>
    rw [hc] at hca
    unfold Frames.cross
    rw [hc, hca]
    exact rfl
  | vec v =>
    obtain ⟨X, hX, hX', v', hv'⟩ := hA.vec hc
    cases hd' : b.comps with
    | gen s y =>
      rw [hd'] at hcb
      unfold Frames.cross
      rw [hc, hd', hcb, hv']
      exact rfl
    | vec w =>
      obtain ⟨Y, hY, hY', w', hw'⟩ := hB.vec hd'
      obtain ⟨t, h⟩ := (C46_total cfg ha hr a b frame hs hfs (.inl ⟨_, hc⟩) (.inl ⟨_, hd'⟩)).1 (.inl ⟨_, hc⟩)
      obtain ⟨t', h'⟩ := (C46_total cfg ha hr a' b' frame hs' hfs (.inl ⟨_, hv'⟩) (.inl ⟨_, hw'⟩)).1
        (.inl ⟨_, hv'⟩)
      obtain ⟨hm, ht⟩ := C46_vector_vector_partial cfg a b frame hfc X Y hX hY t hA.good.1 (hA.good.2 hd) h
      obtain ⟨hm', ht'⟩ := C46_vector_vector_partial cfg a' b' frame hfc _ _ hX' hY' t'
        hA.good'.1 (hA.good'.2 hd) h'
      rw [h, h']
      refine Rel.mk' (fun h => by rw [hA.frame h]) (good_getD hf hA.good) (good_getD hf hA.good') ht ht' ?_ (canon_vec hm)
      rw [hm', hm, cross_rotated hS hdet]
      rfl
    | ten2 B =>
      obtain ⟨Y, hY, hY', w', hw'⟩ := hB.ten2 hd'
      obtain ⟨t, h⟩ := (C46_total cfg ha hr a b frame hs hfs (.inl ⟨_, hc⟩) (.inr ⟨_, hd'⟩)).1 (.inl ⟨_, hc⟩)
      obtain ⟨t', h'⟩ := (C46_total cfg ha hr a' b' frame hs' hfs (.inl ⟨_, hv'⟩) (.inr ⟨_, hw'⟩)).1
        (.inl ⟨_, hv'⟩)
      have hm := C46_vector_tensor cfg a b frame hfc X Y hX hY t h
      have hm' := C46_vector_tensor cfg a' b' frame hfc _ _ hX' hY' t' h'
      have ht := (C46_frames cfg a b frame hfc t h).1 (.inr ⟨_, hd'⟩)
      have ht' := (C46_frames cfg a' b' frame hfc t' h').1 (.inr ⟨_, hw'⟩)
      rw [h, h']
      refine Rel.mk' (fun _ => rfl) (good_getD hf (good_ambient d)) (good_getD hf (good_ambient d)) ht ht' ?_ (canon_ten2 hm)
      rw [hm', hm]
      simp only [Comps.transform, Comps.ten2.injEq]
      have e1 := cross_columns (crossProduct (S.mulVec X)) (S * Y) Sᵀ
      rw [e1]
      congr 1
      ext i j
      simp only [Matrix.of_apply]
      have e2 : (fun k => (S * Y) k j) = S.mulVec fun k => Y k j := by
        funext k; simp [Matrix.mul_apply, Matrix.mulVec, dotProduct]
      rw [e2, cross_rotated hS hdet]
      simp [Matrix.mul_apply, Matrix.mulVec, dotProduct]
  | ten2 A =>
    obtain ⟨X, hX, hX', v', hv'⟩ := hA.ten2 hc
    cases hd' : b.comps with
    | gen s y =>
      rw [hd'] at hcb
      unfold Frames.cross
      rw [hc, hd', hcb, hv']
      exact rfl
    | vec w =>
      obtain ⟨Y, hY, hY', w', hw'⟩ := hB.vec hd'
      obtain ⟨t, h⟩ := (C46_total cfg ha hr a b frame hs hfs (.inr ⟨_, hc⟩) (.inl ⟨_, hd'⟩)).1 (.inr ⟨_, hd'⟩)
      obtain ⟨t', h'⟩ := (C46_total cfg ha hr a' b' frame hs' hfs (.inr ⟨_, hv'⟩) (.inl ⟨_, hw'⟩)).1
        (.inr ⟨_, hw'⟩)
      have hm := C46_tensor_vector cfg a b frame hfc X Y hX hY t h
      have hm' := C46_tensor_vector cfg a' b' frame hfc _ _ hX' hY' t' h'
      have ht := (C46_frames cfg a b frame hfc t h).1 (.inl ⟨_, hc⟩)
      have ht' := (C46_frames cfg a' b' frame hfc t' h').1 (.inl ⟨_, hv'⟩)
      rw [h, h']
      refine Rel.mk' (fun _ => rfl) (good_getD hf (good_ambient d)) (good_getD hf (good_ambient d)) ht ht' ?_ (canon_ten2 hm)
      rw [hm', hm]
      simp only [Comps.transform, Comps.ten2.injEq]
      have e1 := cross_columns (crossProduct.flip (S.mulVec Y)) (S * X) Sᵀ
      simp only [LinearMap.flip_apply] at e1
      rw [e1]
      congr 1
      ext i j
      simp only [Matrix.of_apply]
      have e2 : (fun k => (S * X) k j) = S.mulVec fun k => X k j := by
        funext k; simp [Matrix.mul_apply, Matrix.mulVec, dotProduct]
      rw [e2, cross_rotated hS hdet]
      simp [Matrix.mul_apply, Matrix.mulVec, dotProduct]
    | ten2 B =>
      obtain ⟨Y, hY, hY', w', hw'⟩ := hB.ten2 hd'
      rw [(C46_total cfg ha hr a b frame hs hfs (.inr ⟨_, hc⟩) (.inr ⟨_, hd'⟩)).2 ⟨⟨_, hc⟩, ⟨_, hd'⟩⟩,
        (C46_total cfg ha hr a' b' frame hs' hfs (.inr ⟨_, hv'⟩) (.inr ⟨_, hw'⟩)).2 ⟨⟨_, hv'⟩, ⟨_, hw'⟩⟩]
      exact rfl

/-! ### Contractions of tensors with more indices -/

/-- One factor per index. -/
def rot {r : ℕ} (S : Mat 3 ℝ) (x : (Fin r → Fin 3) → ℝ) : (Fin r → Fin 3) → ℝ :=
  fun t => ∑ p : Fin r → Fin 3, (∏ k, S (t k) (p k)) * x p

theorem rot_insert {r : ℕ} (S : Mat 3 ℝ) (x : (Fin (r + 1) → Fin 3) → ℝ) (i : Fin (r + 1)) (c : Fin 3)
    (u : Fin r → Fin 3) :
    rot S x (i.insertNth c u) = ∑ c' : Fin 3, S c c' * rot S (fun p => x (i.insertNth c' p)) u := by
  unfold rot
  rw [← (Fin.insertNthEquiv (fun _ => Fin 3) i).sum_comp, Fintype.sum_prod_type]
  refine Finset.sum_congr rfl fun c' _ => ?_
  rw [Finset.mul_sum]
  refine Finset.sum_congr rfl fun p _ => ?_
  have h : (Fin.insertNthEquiv (fun _ => Fin 3) i) (c', p) = i.insertNth c' p := rfl
  rw [h, Fin.prod_univ_succAbove _ i]
  simp only [Fin.insertNth_apply_same, Fin.insertNth_apply_succAbove]
  ring

/-- The indices of the first tensor and those of the second one. -/
def splitEquiv (r s : ℕ) : (Fin (r + s) → Fin 3) ≃ (Fin r → Fin 3) × (Fin s → Fin 3) where
  toFun t := (fun i => t (i.castAdd s), fun j => t (j.natAdd r))
  invFun p := Fin.append p.1 p.2
  left_inv t := by
    funext k
    refine Fin.addCases (fun i => ?_) (fun j => ?_) k
    · simp
    · simp
  right_inv p := by
    ext i <;> simp

theorem rot_split {r s : ℕ} (S : Mat 3 ℝ) (f : (Fin r → Fin 3) → ℝ) (g : (Fin s → Fin 3) → ℝ)
    (u : Fin (r + s) → Fin 3) :
    rot S (fun w => f (fun i => w (i.castAdd s)) * g (fun j => w (j.natAdd r))) u =
      rot S f (fun i => u (i.castAdd s)) * rot S g (fun j => u (j.natAdd r)) := by
  unfold rot
  rw [← (splitEquiv r s).symm.sum_comp, Fintype.sum_prod_type, Finset.sum_mul_sum]
  refine Finset.sum_congr rfl fun p _ => Finset.sum_congr rfl fun q _ => ?_
  have h : (splitEquiv r s).symm (p, q) = Fin.append p q := rfl
  rw [h, Fin.prod_univ_add]
  simp only [Fin.append_left, Fin.append_right]
  ring

theorem rot_sum {r : ℕ} (S : Mat 3 ℝ) (f : Fin 3 → (Fin r → Fin 3) → ℝ) (u : Fin r → Fin 3) :
    rot S (fun w => ∑ c, f c w) u = ∑ c, rot S (f c) u := by
  unfold rot
  rw [Finset.sum_comm]
  exact Finset.sum_congr rfl fun p _ => by rw [Finset.mul_sum]

include hS in
theorem contract_rot {r s : ℕ} (x : (Fin (r + 1) → Fin 3) → ℝ) (y : (Fin (s + 1) → Fin 3) → ℝ)
    (ia : Fin (r + 1)) (ib : Fin (s + 1)) :
    contract (rot S x) (rot S y) ia ib = rot S (contract x y ia ib) := by
  have h1 : Sᵀ * S = 1 := mul_eq_one_comm.1 hS
  have hδ : ∀ c d, ∑ e, S e c * S e d = if c = d then (1 : ℝ) else 0 := by
    intro c d
    have := congrFun (congrFun h1 c) d
    rw [Matrix.mul_apply, Matrix.one_apply] at this
    exact this
  funext u
  unfold contract
  rw [rot_sum]
  have hsp : ∀ c, rot S (fun t => x (ia.insertNth c fun i => t (i.castAdd s)) *
      y (ib.insertNth c fun j => t (j.natAdd r))) u =
      rot S (fun p => x (ia.insertNth c p)) (fun i => u (i.castAdd s)) *
        rot S (fun q => y (ib.insertNth c q)) (fun j => u (j.natAdd r)) := fun c =>
    rot_split S (fun p => x (ia.insertNth c p)) (fun q => y (ib.insertNth c q)) u
  simp only [hsp, rot_insert]
  set F : Fin 3 → ℝ := fun c => rot S (fun p => x (ia.insertNth c p)) fun i => u (i.castAdd s) with hF
  set G : Fin 3 → ℝ := fun c => rot S (fun p => y (ib.insertNth c p)) fun j => u (j.natAdd r) with hG
  show ∑ e, (∑ c, S e c * F c) * (∑ d, S e d * G d) = ∑ c, F c * G c
  calc ∑ e, (∑ c, S e c * F c) * (∑ d, S e d * G d)
      = ∑ e, ∑ c, ∑ d, (S e c * S e d) * (F c * G d) := by
        refine Finset.sum_congr rfl fun e _ => ?_
        rw [Finset.sum_mul_sum]
        exact Finset.sum_congr rfl fun c _ => Finset.sum_congr rfl fun d _ => by ring
    _ = ∑ c, ∑ d, (∑ e, S e c * S e d) * (F c * G d) := by
        rw [Finset.sum_comm]
        refine Finset.sum_congr rfl fun c _ => ?_
        rw [Finset.sum_comm]
        exact Finset.sum_congr rfl fun d _ => by rw [Finset.sum_mul]
    _ = ∑ c, F c * G c := by
        refine Finset.sum_congr rfl fun c _ => ?_
        simp only [hδ]
        simp

/-- The array of rotated components. -/
theorem stands_rot (S : Mat 3 ℝ) {c : Comps 3 ℝ} {r : ℕ} {x : (Fin r → Fin 3) → ℝ} (h : Stands c r x) :
    Stands (c.transform S) r (rot S x) := by
  cases h with
  | vec v =>
    have : rot S (fun t : Fin 1 → Fin 3 => v (t 0)) = fun t => S.mulVec v (t 0) := by
      funext t
      unfold rot
      rw [← (Equiv.funUnique (Fin 1) (Fin 3)).symm.sum_comp]
      simp [Matrix.mulVec, dotProduct]
    rw [this]
    exact .vec _
  | ten2 A =>
    have : rot S (fun t : Fin 2 → Fin 3 => A (t 0) (t 1)) = fun t => (S * A * Sᵀ) (t 0) (t 1) := by
      funext t
      unfold rot
      rw [← (finTwoArrowEquiv (Fin 3)).symm.sum_comp, Fintype.sum_prod_type, Finset.sum_comm]
      simp only [Matrix.mul_apply, Finset.sum_mul, Matrix.transpose_apply, Fin.prod_univ_two]
      refine Finset.sum_congr rfl fun c _ => Finset.sum_congr rfl fun e _ => ?_
      simp [finTwoArrowEquiv]
      ring
    rw [this]
    exact .ten2 _
  | gen _ _ h => exact .gen _ _ h

theorem ofArr_toArr {c : Comps 3 ℝ} {r : ℕ} {x : (Fin r → Fin 3) → ℝ} (h : Stands c r x) :
    Comps.ofArr c.toArr = c := by
  cases h with
  | vec v => rfl
  | ten2 A => rfl
  | gen _ _ h => exact ofArr_gen r h x

theorem stands_inj {c c' : Comps 3 ℝ} {r : ℕ} {x : (Fin r → Fin 3) → ℝ} (h : Stands c r x)
    (h' : Stands c' r x) : c = c' := by
  rw [← ofArr_toArr h, ← ofArr_toArr h', (stands_toArr h).1, (stands_toArr h').1]

theorem stands_of_canon {c : Comps 3 ℝ} (h : Canon c) : ∃ r x, Stands c (r + 1) x := by
  cases c with
  | vec v => exact ⟨0, _, .vec v⟩
  | ten2 A => exact ⟨1, _, .ten2 A⟩
  | gen r x =>
    have h3 := h r x rfl
    obtain ⟨r, rfl⟩ : ∃ k, r = k + 1 := ⟨r - 1, by omega⟩
    exact ⟨r, x, .gen _ _ h3⟩

theorem canon_of_stands {c : Comps 3 ℝ} {r : ℕ} {x : (Fin r → Fin 3) → ℝ} (h : Stands c r x) : Canon c := by
  intro s y hy
  cases h with
  | vec v => cases hy
  | ten2 A => cases hy
  | gen _ _ h => cases hy; exact h

theorem axis_cases (r : ℕ) (i : ℤ) :
    (∃ k : Fin (r + 1), i = k ∨ i = (k : ℤ) - (r + 1)) ∨ (((r + 1 : ℕ) : ℤ) ≤ i ∨ i < -((r + 1 : ℕ) : ℤ)) := by
  by_cases h1 : ((r + 1 : ℕ) : ℤ) ≤ i ∨ i < -((r + 1 : ℕ) : ℤ)
  · exact .inr h1
  · refine .inl ?_
    by_cases h0 : 0 ≤ i
    · exact ⟨⟨i.toNat, by omega⟩, .inl (by simp; omega)⟩
    · exact ⟨⟨(i + (r + 1)).toNat, by omega⟩, .inr (by simp; omega)⟩

theorem showL_big (cfg : Cfg ℝ) (a : Tensor 3 ℝ) {r : ℕ} {x : (Fin r → Fin 3) → ℝ}
    (hx : Stands (Means a) r x) (h13 : 13 < r) : a.showL cfg none = .error .value := by
  obtain ⟨y, hy⟩ := stands_ambient hx
  have h := show_none cfg a
  unfold Tensor.show showIn at h
  unfold Tensor.showL
  simp only [bind, Except.bind] at h ⊢
  cases hd : a.frame.dcmTarget cfg ((none : Option (Frame 3 ℝ)).getD ambientFrame) with
  | error e => rw [hd] at h; cases h
  | ok Q => exact transformL_refused _ hy h13

/-- A tensor with too many indices. -/
theorem dotGeneral_big (cfg : Cfg ℝ) (a b : Tensor 3 ℝ) (frame : Option (Frame 3 ℝ)) (r s : ℕ)
    (x : (Fin (r + 1) → Fin 3) → ℝ) (y : (Fin (s + 1) → Fin 3) → ℝ)
    (hx : Stands (Means a) (r + 1) x) (hy : Stands (Means b) (s + 1) y) (h13 : 12 < r ∨ 12 < s)
    (ia : Fin (r + 1)) (ib : Fin (s + 1)) (i j : ℤ) (hi : i = ia ∨ i = (ia : ℤ) - (r + 1))
    (hj : j = ib ∨ j = (ib : ℤ) - (s + 1)) :
    dotGeneral cfg a b frame (some (i, j)) = .error .value := by
  unfold dotGeneral
  simp only
  rw [rank_of_means hx, rank_of_means hy, axisOf_ok ia (by simpa using hi), axisOf_ok ib (by simpa using hj)]
  by_cases hr : 12 < r
  · rw [showL_big cfg a hx (by omega)]
    rfl
  · rw [showL_none cfg a hx (by omega), showL_big cfg b hy (by omega)]
    rfl

include hS ha hr in
theorem rel_dotGeneral {a a' b b' : Tensor 3 ℝ} (hA : Rel d S a a') (hB : Rel d S b b')
    (frame : Option (Frame 3 ℝ)) (hf : ∀ f, frame = some f → Good d f) (axes : Option (ℤ × ℤ))
    (hk : ¬(a.comps.rank ≤ 2 ∧ b.comps.rank ≤ 2)) :
    RelP d S (do return .tensor (← dotGeneral cfg a b frame axes))
      (do return .tensor (← dotGeneral cfg a' b' frame axes)) := by
  have hfs : ∀ f, frame = some f → Sound f := fun f h => good_sound (hf f h)
  obtain ⟨r, x, hx⟩ := stands_of_canon (canon_unambient hA.canon)
  obtain ⟨s, y, hy⟩ := stands_of_canon (canon_unambient hB.canon)
  have hx' : Stands (Means a') (r + 1) (rot S x) := by rw [hA.means]; exact stands_rot S hx
  have hy' : Stands (Means b') (s + 1) (rot S y) := by rw [hB.means]; exact stands_rot S hy
  have hra := rank_of_means hx
  have hrb := rank_of_means hy
  have both : ∀ e, dotGeneral cfg a b frame axes = .error e → dotGeneral cfg a' b' frame axes = .error e →
      RelP d S (do return .tensor (← dotGeneral cfg a b frame axes))
        (do return .tensor (← dotGeneral cfg a' b' frame axes)) := by
    intro e h1 h2
    rw [h1, h2]
    exact rfl
  cases axes with
  | none => exact both _ rfl rfl
  | some ij =>
    obtain ⟨i, j⟩ := ij
    rcases axis_cases r i with ⟨ia, hi⟩ | hi
    swap
    · exact both _ ((C108_axes_refused cfg a b frame _ _ x y hx hy).2 i j (by omega))
        ((C108_axes_refused cfg a' b' frame _ _ _ _ hx' hy').2 i j (by omega))
    rcases axis_cases s j with ⟨ib, hj⟩ | hj
    swap
    · exact both _ ((C108_axes_refused cfg a b frame _ _ x y hx hy).2 i j (by omega))
        ((C108_axes_refused cfg a' b' frame _ _ _ _ hx' hy').2 i j (by omega))
    by_cases h13 : 12 < r ∨ 12 < s
    · exact both _ (dotGeneral_big cfg a b frame r s x y hx hy h13 ia ib i j hi hj)
        (dotGeneral_big cfg a' b' frame r s _ _ hx' hy' h13 ia ib i j hi hj)
    have e1 := dotGeneral_eq cfg a b frame r s x y hx hy (by omega) (by omega) ia ib i j hi hj
    have e2 := dotGeneral_eq cfg a' b' frame r s _ _ hx' hy' (by omega) (by omega) ia ib i j hi hj
    by_cases h26 : 26 < r + s + 3
    · refine both .value ?_ ?_
      · rw [e1, contract_refused r s x y ia ib h26]; rfl
      · rw [e2, contract_refused r s _ _ ia ib h26]; rfl
    rw [contract_ok r s x y ia ib (by omega)] at e1
    rw [contract_ok r s _ _ ia ib (by omega), contract_rot hS] at e2
    have e1' : dotGeneral cfg a b frame (some (i, j)) =
      contractResult cfg a.comps frame ⟨r + s, contract x y ia ib⟩ := e1
    have e2' : dotGeneral cfg a' b' frame (some (i, j)) =
      contractResult cfg a'.comps frame ⟨r + s, rot S (contract x y ia ib)⟩ := e2
    have hst := stands_ofArr (r + s) (by omega) (contract x y ia ib)
    have hst' := stands_ofArr (r + s) (by omega) (rot S (contract x y ia ib))
    have hmeans : Comps.ofArr ⟨r + s, rot S (contract x y ia ib)⟩ =
        (Comps.ofArr ⟨r + s, contract x y ia ib⟩).transform S := stands_inj hst' (stands_rot S hst)
    by_cases hv : r = 0
    · -- a vector comes first
      have : ∃ v, a.comps = .vec v := by
        have h3 := hA.canon
        cases hc : a.comps with
        | vec v => exact ⟨v, rfl⟩
        | ten2 A => rw [hc] at hra; simp only [Comps.rank] at hra; omega
        | gen r' z =>
          have := h3 _ _ hc
          rw [hc] at hra
          simp only [Comps.rank] at hra
          omega
      obtain ⟨v, hvec⟩ := this
      obtain ⟨-, -, -, v', hv'⟩ := hA.vec hvec
      refine both .notImplemented ?_ ?_
      · rw [e1', hvec]; rfl
      · rw [e2', hv']; rfl
    have nv : ∀ c : Comps 3 ℝ, c.rank = r + 1 → ∀ arr,
        contractResult cfg c frame arr =
          (⟨Comps.ofArr arr, ambientFrame⟩ : Tensor 3 ℝ).moveToL cfg frame := by
      intro c hc arr
      cases c with
      | vec v => simp only [Comps.rank] at hc; omega
      | ten2 A => rfl
      | gen r x => rfl
    rw [nv _ hra] at e1'
    rw [nv _ (hA.rank.trans hra)] at e2'
    by_cases hmv : frame ≠ none ∧ 13 < r + s
    · obtain ⟨hne, hbig⟩ := hmv
      cases frame with
      | none => exact absurd rfl hne
      | some f =>
        have b1 := (C108_rank_violated cfg ha hr
          ⟨Comps.ofArr ⟨r + s, contract x y ia ib⟩, ambientFrame⟩ (r + s) _
          (by rw [means_ambientFrame]; exact hst) hbig).1 f (hfs f rfl)
        have b2 := (C108_rank_violated cfg ha hr
          ⟨Comps.ofArr ⟨r + s, rot S (contract x y ia ib)⟩, ambientFrame⟩ (r + s) _
          (by rw [means_ambientFrame]; exact hst') hbig).1 f (hfs f rfl)
        refine both .value ?_ ?_
        · rw [e1']
          show (do return ⟨← Tensor.showL cfg _ (some f), f⟩ : Py (Tensor 3 ℝ)) = _
          rw [b1]; rfl
        · rw [e2']
          show (do return ⟨← Tensor.showL cfg _ (some f), f⟩ : Py (Tensor 3 ℝ)) = _
          rw [b2]; rfl
    · obtain ⟨t, ht, m1, f1⟩ := moveToL_total cfg ha hr
        ⟨Comps.ofArr ⟨r + s, contract x y ia ib⟩, ambientFrame⟩ frame hfs (r + s) _
        (by rw [means_ambientFrame]; exact hst) (fun h => by
          by_contra hc
          exact hmv ⟨h, by omega⟩)
      obtain ⟨t', ht', m2, f2⟩ := moveToL_total cfg ha hr
        ⟨Comps.ofArr ⟨r + s, rot S (contract x y ia ib)⟩, ambientFrame⟩ frame hfs (r + s) _
        (by rw [means_ambientFrame]; exact hst') (fun h => by
          by_contra hc
          exact hmv ⟨h, by omega⟩)
      rw [e1', e2', ht, ht']
      rw [means_ambientFrame] at m1 m2
      refine Rel.mk' (fun _ => rfl) (good_getD hf (good_ambient d)) (good_getD hf (good_ambient d)) f1 f2 ?_ ?_
      · rw [m2, m1, hmeans]
      · exact canon_means (by rw [m1]; exact canon_of_stands hst)

end
/-! ### Terms -/

section
variable {d : Mode} {S : Mat 3 ℝ} {cfg : Cfg ℝ} (hS : S * Sᵀ = 1) (ha : 0 ≤ cfg.atol) (hr : 0 ≤ cfg.rtol)

/-- What is asked of the frames written into a term: their axes are orthonormal, and right handed if the
term has cross products. -/
def Term.Ok (d : Mode) : Term → Prop
  | .input _ => True
  | .number _ => True
  | .add a b => a.Ok d ∧ b.Ok d
  | .sub a b => a.Ok d ∧ b.Ok d
  | .mul a b => a.Ok d ∧ b.Ok d
  | .neg a => a.Ok d
  | .transpose a => a.Ok d
  | .dot a b frame _ => a.Ok d ∧ b.Ok d ∧ ∀ f, frame = some f → Good d f
  | .cross a b frame => d.righthanded ∧ a.Ok d ∧ b.Ok d ∧ ∀ f, frame = some f → Good d f

include ha hr in
theorem rel_addT {a a' b b' : Tensor 3 ℝ} (hA : Rel d S a a') (hB : Rel d S b b') (f : ℝ → ℝ → ℝ) (α β : ℝ)
    (hf : ∀ (a b t : Tensor 3 ℝ), CartOK a.frame → binary cfg f a (.tensor b) = .ok t →
      lin α β (Means a) (Means b) = some (Means t))
    (htot : ∀ (a b : Tensor 3 ℝ), Sound a.frame →
      ((∃ v w, a.comps = .vec v ∧ b.comps = .vec w) ∨ (∃ A B, a.comps = .ten2 A ∧ b.comps = .ten2 B) ∨
      ∃ r x y, a.comps = .gen r x ∧ b.comps = .gen r y) → ∃ t, binary cfg f a (.tensor b) = .ok t) :
    RelP d S (addT cfg f a b) (addT cfg f a' b') := by
  have h := rel_binary ha hr hA hB f α β hf htot
  unfold addT
  rw [hB.rank]
  cases h1 : binary cfg f a (.tensor b) with
  | error e =>
    cases h2 : binary cfg f a' (.tensor b') with
    | error e' => rw [h1, h2] at h; exact h
    | ok t' => rw [h1, h2] at h; exact h.elim
  | ok t =>
    cases h2 : binary cfg f a' (.tensor b') with
    | error e' => rw [h1, h2] at h; exact h.elim
    | ok t' =>
      rw [h1, h2] at h
      by_cases h13 : 13 < b.comps.rank
      · simp only [bind, Except.bind, if_pos h13]; rfl
      · simp only [bind, Except.bind, if_neg h13]; exact h

theorem canon_small {c : Comps 3 ℝ} (h : Canon c) (h2 : c.rank ≤ 2) : (∃ v, c = .vec v) ∨ ∃ A, c = .ten2 A := by
  cases c with
  | vec v => exact .inl ⟨v, rfl⟩
  | ten2 A => exact .inr ⟨A, rfl⟩
  | gen r x => have := h r x rfl; simp only [Comps.rank] at h2; omega

include hS ha hr in
theorem eval_rel (hrt : cfg.rt 1 = 1) (hdet : d.righthanded → S.det = 1) {ts ts' : ℕ → Tensor 3 ℝ}
    (hts : ∀ k, Rel d S (ts k) (ts' k)) (e : Term) (he : e.Ok d) :
    RelP d S (e.eval cfg ts) (e.eval cfg ts') := by
  induction e with
  | input k => exact hts k
  | number c => exact rfl
  | add a b iha ihb =>
    refine relP_bind (iha he.1) fun v v' hv => relP_bind (ihb he.2) fun w w' hw => ?_
    match v, v', hv, w, w', hw with
    | .number x, .number _, rfl, .number y, .number _, rfl => exact rfl
    | .number x, .number _, rfl, .tensor b, .tensor b', hb => exact rfl
    | .tensor a, .tensor a', hA, .number y, .number _, rfl => exact rfl
    | .tensor a, .tensor a', hA, .tensor b, .tensor b', hB =>
      exact rel_addT ha hr hA hB (· + ·) 1 1 (fun a b t h1 h2 => C47_add cfg a b t h1 h2)
        fun a b h1 h2 => (C47_total cfg ha hr a b h1 h2).1
  | sub a b iha ihb =>
    refine relP_bind (iha he.1) fun v v' hv => relP_bind (ihb he.2) fun w w' hw => ?_
    match v, v', hv, w, w', hw with
    | .number x, .number _, rfl, .number y, .number _, rfl => exact rfl
    | .number x, .number _, rfl, .tensor b, .tensor b', hb => exact rfl
    | .tensor a, .tensor a', hA, .number y, .number _, rfl => exact rfl
    | .tensor a, .tensor a', hA, .tensor b, .tensor b', hB =>
      exact rel_addT ha hr hA hB (· - ·) 1 (-1) (fun a b t h1 h2 => C47_sub cfg a b t h1 h2)
        fun a b h1 h2 => (C47_total cfg ha hr a b h1 h2).2.1
  | mul a b iha ihb =>
    refine relP_bind (iha he.1) fun v v' hv => relP_bind (ihb he.2) fun w w' hw => ?_
    match v, v', hv, w, w', hw with
    | .number x, .number _, rfl, .number y, .number _, rfl => exact rfl
    | .number x, .number _, rfl, .tensor b, .tensor b', hb => exact rfl
    | .tensor a, .tensor a', hA, .number y, .number _, rfl =>
      obtain ⟨t, t', h1, h2, h3⟩ := rel_scale hA y
      show RelP d S (do return .tensor (← Frames.mul a (.number y)))
        (do return .tensor (← Frames.mul a' (.number y)))
      rw [h1, h2]
      exact h3
    | .tensor a, .tensor a', hA, .tensor b, .tensor b', hB => exact rfl
  | neg a iha =>
    refine relP_bind (iha he) fun v v' hv => ?_
    match v, v', hv with
    | .number x, .number _, rfl => exact rfl
    | .tensor a, .tensor a', hA => exact rel_neg hA
  | transpose a iha =>
    refine relP_bind (iha he) fun v v' hv => ?_
    match v, v', hv with
    | .number x, .number _, rfl => exact rfl
    | .tensor a, .tensor a', hA => exact rel_transpose ha hr hrt hA
  | dot a b frame axes iha ihb =>
    refine relP_bind (iha he.1) fun v v' hv => relP_bind (ihb he.2.1) fun w w' hw => ?_
    match v, v', hv, w, w', hw with
    | .number x, .number _, rfl, .number y, .number _, rfl =>
      simp only [dotV]; split <;> exact rfl
    | .number x, .number _, rfl, .tensor b, .tensor b', hb =>
      simp only [dotV]; split <;> exact rfl
    | .tensor a, .tensor a', hA, .number y, .number _, rfl =>
      simp only [dotV]; split <;> exact rfl
    | .tensor a, .tensor a', hA, .tensor b, .tensor b', hB =>
      simp only [dotV]
      rw [hA.rank, hB.rank]
      by_cases hk : a.comps.rank ≤ 2 ∧ b.comps.rank ≤ 2
      · rw [if_pos hk, if_pos hk]
        exact rel_dot_small hS ha hr hA hB frame he.2.2 (canon_small hA.canon hk.1) (canon_small hB.canon hk.2)
      · rw [if_neg hk, if_neg hk]
        exact rel_dotGeneral hS ha hr hA hB frame he.2.2 axes hk
  | cross a b frame iha ihb =>
    refine relP_bind (iha he.2.1) fun v v' hv => relP_bind (ihb he.2.2.1) fun w w' hw => ?_
    match v, v', hv, w, w', hw with
    | .number x, .number _, rfl, .number y, .number _, rfl =>
      simp only [crossV]; split <;> exact rfl
    | .number x, .number _, rfl, .tensor b, .tensor b', hb =>
      simp only [crossV]; split <;> exact rfl
    | .tensor a, .tensor a', hA, .number y, .number _, rfl =>
      simp only [crossV]; split <;> exact rfl
    | .tensor a, .tensor a', hA, .tensor b, .tensor b', hB =>
      exact rel_cross hS ha hr he.1 (hdet he.1) hA hB frame he.2.2.2

end

/-! ### Turning the operands -/

theorem stands_rank {c : Comps 3 ℝ} {r : ℕ} {x : (Fin r → Fin 3) → ℝ} (h : Stands c r x) : c.rank = r := by
  cases h <;> rfl

theorem turn_ok (R : Mat 3 ℝ) (t : Tensor 3 ℝ) (hc : Canon t.comps) (hr : t.comps.rank ≤ 13) :
    turn R t = .ok ⟨t.comps.transform Rᵀ, t.frame⟩ := by
  obtain ⟨r, x, hx⟩ := stands_of_canon hc
  unfold turn
  rw [Rot.Props.orient_axes, Matrix.one_mul, transformL_ok _ hx (stands_rank hx ▸ hr)]
  rfl

theorem turn_big (R : Mat 3 ℝ) (t : Tensor 3 ℝ) (hc : Canon t.comps) (hr : 13 < t.comps.rank) :
    turn R t = .error .value := by
  obtain ⟨r, x, hx⟩ := stands_of_canon hc
  unfold turn
  rw [transformL_refused _ hx (stands_rank hx ▸ hr)]
  rfl

theorem turn_rel {d : Mode} {R E : Mat 3 ℝ} {t t' : Tensor 3 ℝ} (hE : t.frame.axes = E) (hg : Good d t.frame)
    (hc : Canon t.comps) (h : turn R t = .ok t') : Rel d (Eᵀ * Rᵀ * E) t t' := by
  by_cases hr : t.comps.rank ≤ 13
  · rw [turn_ok R t hc hr] at h
    injection h with h
    subst h
    refine ⟨fun _ => rfl, hg, hg, ?_, hc⟩
    have h1 : E * Eᵀ = 1 := hE ▸ hg.1
    rw [← means_transform hg]
    congr 3
    rw [hE, ← Matrix.mul_assoc, ← Matrix.mul_assoc, h1, Matrix.one_mul, Matrix.mul_assoc, h1, Matrix.mul_one]
  · rw [turn_big R t hc (by omega)] at h
    cases h

end Verif.Rot
