import Verif.Props.Frames
import Mathlib.Tactic.LinearCombination

/-!
# Copies, dual descriptions, metric tensors, transposes, scaled frames
(C48, C50, C62 - C65)
-/

set_option linter.unusedSectionVars false

namespace Verif.Frames.Props

open Matrix

variable {n : ℕ} {K : Type} [Field K] [LinearOrder K]

/-! ## C50: scaling -/

theorem setFrame_succeeds (cfg : Cfg K) (h : Heap n K) (t f : ℕ) (ht : t < h.nT) (hf : f < h.nF)
    (d : Frame n K) (hd : (h.frames f).frame.dual cfg = .ok d) :
    ∃ h', h.setFrame cfg t f = (h', none) ∧ (h'.tensors t).frame = f ∧
      (∀ u, u ≠ t → h'.tensors u = h.tensors u) ∧ h'.nT = h.nT := by
  have hs : showIn cfg (h.frames (h.tensors t).frame).frame (h.tensors t).comps
      (some (h.frames f).frame) = .ok ((h.tensors t).comps.transform
        (d.axes * (h.frames (h.tensors t).frame).frame.axesᵀ)) := by
    rw [showIn_eq, dcmTarget_eq]
    rw [Option.getD_some, hd]
    rfl
  unfold Heap.setFrame
  rw [if_pos ⟨ht, hf⟩]
  simp only
  rw [hs]
  refine ⟨_, rfl, ?_, ?_, rfl⟩
  · show ((Function.update h.tensors t _) t).frame = f
    rw [Function.update_self]
  · intro u hu
    show (Function.update h.tensors t _) u = h.tensors u
    rw [Function.update_of_ne hu]

theorem moveAll_succeeds (cfg : Cfg K) (f : ℕ) (d : Frame n K) (ts : List ℕ) (h : Heap n K)
    (hts : ∀ t ∈ ts, t < h.nT) (hf : f < h.nF) (hd : (h.frames f).frame.dual cfg = .ok d) :
    ∃ h', h.moveAll cfg f ts = (h', none) ∧ (∀ t ∈ ts, (h'.tensors t).frame = f) ∧
      (∀ t, t ∉ ts → h'.tensors t = h.tensors t) ∧
      (∀ t, (h.tensors t).frame = f → (h'.tensors t).frame = f) := by
  induction ts generalizing h with
  | nil => exact ⟨h, rfl, by simp, fun _ _ => rfl, fun _ ht => ht⟩
  | cons t ts ih =>
    obtain ⟨h1, e1, a1, b1, c1⟩ := setFrame_succeeds cfg h t f (hts t List.mem_cons_self) hf d hd
    have hfr := setFrame_frames cfg h t f
    rw [e1] at hfr
    obtain ⟨h2, e2, a2, b2, c2⟩ := ih h1 (fun u hu => by
        rw [c1]; exact hts u (List.mem_cons_of_mem _ hu)) (by rw [hfr.1]; exact hf)
      (by rw [hfr.2]; exact hd)
    refine ⟨h2, ?_, ?_, ?_, ?_⟩
    · unfold Heap.moveAll
      rw [e1]
      exact e2
    · intro u hu
      rcases List.mem_cons.1 hu with rfl | hu
      · exact c2 u a1
      · exact a2 u hu
    · intro u hu
      rw [List.mem_cons, not_or] at hu
      rw [b2 u hu.2, b1 u hu.1]
    · intro u hu
      apply c2
      by_cases hut : u = t
      · subst hut; exact a1
      · rw [b1 u hut]; exact hu

/-- C50: a Cartesian frame times a number other than zero becomes a rectangular frame with scaled,
still perpendicular base vectors; its tensors move along, the other tensors stay where they are. -/
theorem C50_scale [IsStrictOrderedRing K] (cfg : Cfg K) (ha : 0 ≤ cfg.atol) (hr : 0 ≤ cfg.rtol)
    (h : Heap n K) (hi : h.Inv) (f : ℕ) (hf : f < h.nF)
    (hc : (h.frames f).frame.cls = .cartesian) (c : K) (hc0 : c ≠ 0) :
    ∃ h', h.inplace cfg f (.mulNumber c) = (h', none) ∧
      (h'.frames h.nF).frame =
        ⟨.rectangular, Matrix.of fun i j => (h.frames f).frame.axes i j * c⟩ ∧
      Perpendicular (h'.frames h.nF).frame.axes ∧
      (∀ t < h.nT, (h.tensors t).frame = f → (h'.tensors t).frame = h.nF) ∧
      (∀ t < h.nT, (h.tensors t).frame ≠ f → h'.tensors t = h.tensors t) := by
  set E := (h.frames f).frame.axes with hE
  have hort : Orthonormal E := hi.cart f hf hc
  have hperp := orthonormal_perpendicular hort
  have hdet : E.det ≠ 0 := by
    intro h0
    have := congrArg Matrix.det hort
    rw [Matrix.det_mul, h0, zero_mul, Matrix.det_one] at this
    exact zero_ne_one this
  have hm : mkFrame cfg .rectangular E = .ok ⟨.rectangular, E⟩ := by
    unfold mkFrame
    simp only
    rw [rectangular_of_perpendicular cfg ha hr _ hperp, if_pos rfl]
  set h1 := h.addFrame ⟨.rectangular, E⟩ with hh1
  have hnew : (h1.frames h.nF).frame = ⟨.rectangular, E⟩ := by
    show (Function.update h.frames h.nF ⟨⟨.rectangular, E⟩, []⟩ h.nF).frame = _
    rw [Function.update_self]
  have hold : ∀ g, g ≠ h.nF → h1.frames g = h.frames g := fun g hg =>
    Function.update_of_ne hg _ _
  obtain ⟨d, hd⟩ := C44_dual_exists cfg ha hr (⟨.rectangular, E⟩ : Frame n K) hdet (fun _ => hperp)
  have hreg : ∀ t, t ∈ (h.frames f).reg ↔ t < h.nT ∧ (h.tensors t).frame = f := hi.reg f hf
  obtain ⟨a1, -⟩ := addFrame_spec h hi ⟨.rectangular, E⟩ (by intro hx; cases hx)
  obtain ⟨h2, e2, m1, m2, m3⟩ := moveAll_succeeds cfg h.nF d (h.frames f).reg h1
    (fun t ht => ((hreg t).1 ht).1) (Nat.lt_succ_self _) (by rw [hnew]; exact hd)
  obtain ⟨i2, -, n2, f2⟩ := moveAll_spec cfg h.nF (h.frames f).reg _ a1
  rw [← hh1, e2] at i2 n2 f2
  set E' : Mat n K := Matrix.of fun i j => E i j * c with hE'
  have hdet' : E'.det ≠ 0 := by
    have : E' = c • E := by ext i j; simp [hE', mul_comm]
    rw [this, Matrix.det_smul]
    exact mul_ne_zero (pow_ne_zero _ hc0) hdet
  have hnF : h.nF < h2.nF := by rw [n2]; exact Nat.lt_succ_self _
  obtain ⟨h3, e3, g3, -⟩ := C42_setAxes cfg h2 h.nF hnF E' hdet'
  have t3 : ∀ t, (h3.tensors t).frame = (h2.tensors t).frame ∧
      ((h2.tensors t).frame ≠ h.nF → t < h2.nT → h3.tensors t = h2.tensors t) := by
    intro t
    have e3' := e3
    unfold Heap.setAxes at e3'
    rw [if_pos hnF] at e3'
    simp only at e3'
    split at e3'
    · cases e3'; exact ⟨rfl, fun _ _ => rfl⟩
    · cases hdc : (h2.frames h.nF).frame.dcmTarget cfg ⟨.reference, E'⟩ with
      | error e => rw [hdc] at e3'; cases e3'
      | ok dcm =>
        rw [hdc] at e3'
        cases e3'
        have hfold := foldl_transform dcm (h2.frames h.nF).reg (i2.nodup _ hnF) h2.tensors t
        refine ⟨?_, fun hne _ => ?_⟩
        · show (List.foldl _ h2.tensors (h2.frames h.nF).reg t).frame = _
          rw [hfold]
          split <;> rfl
        · show List.foldl _ h2.tensors (h2.frames h.nF).reg t = _
          rw [hfold, if_neg]
          intro hmem
          exact hne ((i2.reg _ hnF t).1 hmem).2
  have hcls2 : (h2.frames h.nF).frame = ⟨.rectangular, E⟩ := by rw [f2, hnew]
  have hax : (h3.frames h.nF).frame = ⟨.rectangular, E'⟩ := by rw [g3, hcls2]
  have n2T : h2.nT = h.nT := by
    have : ∀ (ts : List ℕ) (g : Heap n K), (g.moveAll cfg h.nF ts).1.nT = g.nT := by
      intro ts
      induction ts with
      | nil => intro g; rfl
      | cons t ts ih =>
        intro g
        have hs : (g.setFrame cfg t h.nF).1.nT = g.nT := by
          unfold Heap.setFrame
          split
          · cases hq : showIn cfg (g.frames (g.tensors t).frame).frame (g.tensors t).comps
              (some (g.frames h.nF).frame) <;> simp only <;> rw [hq]
          · rfl
        unfold Heap.moveAll
        cases hq : g.setFrame cfg t h.nF with
        | mk g' e =>
          rw [hq] at hs
          cases e with
          | some e => exact hs
          | none => exact (ih g').trans hs
    have := this (h.frames f).reg h1
    rw [e2] at this
    exact this
  refine ⟨h3, ?_, hax, ?_, ?_, ?_⟩
  · unfold Heap.inplace
    rw [if_pos hf]
    have hrt : (Operand.mulNumber c : Operand n K).rtype (h.frames f).frame.cls =
        some .rectangular := by rw [hc]; rfl
    simp only
    rw [hrt]
    simp only
    rw [hm]
    simp only
    rw [e2]
    exact e3
  · rw [hax]
    exact perpendicular_smul hperp c
  · intro t ht htf
    rw [(t3 t).1]
    exact m1 t ((hreg t).2 ⟨ht, htf⟩)
  · intro t ht htf
    have hnm : t ∉ (h.frames f).reg := fun hm => htf ((hreg t).1 hm).2
    have h2t : h2.tensors t = h.tensors t := m2 t hnm
    rw [(t3 t).2 ?_ (by rw [n2T]; exact ht), h2t]
    rw [h2t]
    have := hi.valid t ht
    omega

/-! ## C48 -/

/-- C48: `copy.copy` gives a new object in the same frame, which stands for the same; the original
is not touched. -/
theorem C48_copy_copy (h : Heap n K) (hi : h.Inv) (t : ℕ) (ht : t < h.nT) :
    ∃ h', h.copyTensor t = (h', none) ∧ h'.nT = h.nT + 1 ∧
      (h'.tensors h.nT).frame = (h.tensors t).frame ∧
      h'.ambientOf h.nT = h.ambientOf t ∧ (∀ u < h.nT, h'.tensors u = h.tensors u) := by
  have hf := hi.valid t ht
  unfold Heap.copyTensor
  rw [if_pos ht]
  unfold Heap.newTensor
  rw [if_pos hf]
  refine ⟨_, rfl, rfl, ?_, ?_, ?_⟩
  · show (Function.update h.tensors h.nT _ h.nT).frame = _
    rw [Function.update_self]
  · unfold Heap.ambientOf
    simp only
    rw [Function.update_self]
    simp only
    rw [Function.update_self]
  · intro u hu
    show Function.update h.tensors h.nT _ u = _
    rw [Function.update_of_ne (by omega)]

theorem freshCopy (h : Heap n K) (c : Comps n K) (g : Frame n K) :
    ∃ h', Heap.newTensor c h.nF (h.addFrame g) = (h', none) ∧ h'.nT = h.nT + 1 ∧
      h'.nF = h.nF + 1 ∧ (h'.tensors h.nT).frame = h.nF ∧
      h'.ambientOf h.nT = ambient g.axes c ∧
      (∀ u < h.nT, h'.tensors u = h.tensors u) ∧ (∀ f < h.nF, h'.frames f = h.frames f) := by
  unfold Heap.newTensor
  have hlt : h.nF < (h.addFrame g).nF := Nat.lt_succ_self _
  rw [if_pos hlt]
  refine ⟨_, rfl, rfl, rfl, ?_, ?_, ?_, ?_⟩
  · show (Function.update h.tensors h.nT _ h.nT).frame = _
    rw [Function.update_self]
  · unfold Heap.ambientOf
    show ambient (Function.update (h.addFrame g).frames h.nF _
      (Function.update h.tensors h.nT _ h.nT).frame).frame.axes
      (Function.update h.tensors h.nT _ h.nT).comps = _
    rw [Function.update_self]
    simp only
    rw [Function.update_self]
    show ambient (Function.update h.frames h.nF _ h.nF).frame.axes c = _
    rw [Function.update_self]
  · intro u hu
    show Function.update h.tensors h.nT _ u = _
    rw [Function.update_of_ne (by omega)]
  · intro f hf
    show Function.update (Function.update h.frames h.nF _) h.nF _ f = _
    rw [Function.update_of_ne (by omega), Function.update_of_ne (by omega)]

/-- C48: `copy.deepcopy` gives a new object in a frame of its own, which stands for the same; the
original and all frames are not touched. -/
theorem C48_copy_deepcopy (h : Heap n K) (t : ℕ) (ht : t < h.nT) :
    ∃ h', h.deepcopyTensor t = (h', none) ∧ h'.nT = h.nT + 1 ∧
      (h'.tensors h.nT).frame = h.nF ∧
      h'.ambientOf h.nT = h.ambientOf t ∧
      (∀ u < h.nT, h'.tensors u = h.tensors u) ∧ (∀ f < h.nF, h'.frames f = h.frames f) := by
  unfold Heap.deepcopyTensor
  rw [if_pos ht]
  obtain ⟨h', e, a1, -, a3, a4, a5, a6⟩ := freshCopy h (h.tensors t).comps
    ⟨.reference, (h.frames (h.tensors t).frame).frame.axes⟩
  exact ⟨h', e, a1, a3, a4, a5, a6⟩

/-- C48, partial: the methods `copy` and `deepcopy` keep the components but not the frame: the copy
stands for the same object exactly if the components mean the same in the ambient frame.

Missing, because it is false (`C48_method_copy_violated`): the copy stands for the same object. -/
theorem C48_method_copy_partial (h : Heap n K) (t : ℕ) (ht : t < h.nT) :
    ∃ h', h.methodCopy t = (h', none) ∧ h'.nT = h.nT + 1 ∧
      h'.ambientOf h.nT = ambient 1 (h.tensors t).comps ∧
      ((h.frames (h.tensors t).frame).frame.axes = 1 → h'.ambientOf h.nT = h.ambientOf t) := by
  unfold Heap.methodCopy
  rw [if_pos ht]
  obtain ⟨h', e, a1, -, -, a4, -, -⟩ := freshCopy h (h.tensors t).comps ambientFrame
  refine ⟨h', e, a1, a4, fun h1 => ?_⟩
  rw [a4]
  unfold Heap.ambientOf
  rw [h1]
  rfl

/-- C48 is violated: the copy of the vector with the components `(1, 0)` in a frame turned by 90
degrees stands for another vector. -/
theorem C48_method_copy_violated :
    let h : Heap 2 ℚ := runOps npCfg [.newFrame .cartesian !![0, 1; -1, 0],
      .newTensor (.vec ![1, 0]) 0] emptyHeap
    (h.ambientOf 0).comp 0 = 0 ∧ ((h.methodCopy 0).1.ambientOf 1).comp 0 = 1 := by
  refine ⟨by decide +kernel, by decide +kernel⟩

/-- The two copies agree with the original in a skewed frame, and stay so if the frame changes. -/
example :
    let h : Heap 2 ℚ := runOps npCfg [.newFrame .reference !![1, 1; 0, 2],
      .newTensor (.vec ![1, 3]) 0, .copyTensor 0, .deepcopyTensor 0, .inplace 0 (.mulNumber 2)]
      emptyHeap
    (h.ambientOf 0).comp 1 = 7 ∧ (h.ambientOf 1).comp 1 = 7 ∧ (h.ambientOf 2).comp 1 = 7 ∧
      (h.tensors 1).frame = 0 ∧ (h.tensors 2).frame = 1 := by
  refine ⟨by decide +kernel, by decide +kernel, by decide +kernel, by decide +kernel,
    by decide +kernel⟩

/-! ## C62 -/

/-- C62: `t.dual()` describes the same object in the dual frame. -/
theorem C62_dual [IsStrictOrderedRing K] (cfg : Cfg K) (S D : Frame n K) (hS : CartOK S) (c d : Comps n K)
    (h : dualOf cfg S c = .ok (d, D)) :
    ambient D.axes d = ambient S.axes c ∧ S.axesᵀ * D.axes = 1 := by
  unfold dualOf at h
  cases hd : S.dual cfg with
  | error e => rw [hd] at h; cases h
  | ok D' =>
    rw [hd] at h
    obtain ⟨rfl, rfl⟩ : c.transform S.Gram = d ∧ D' = D := by
      simpa [bind, Except.bind, pure, Except.pure] using h
    have h1 := (dual_ok hS hd).1
    refine ⟨?_, h1⟩
    have hG : S.Gram = S.axes * S.axesᵀ := by
      rw [gram_eq S hS, products_eq]
    have h2 : D'.axesᵀ * S.axes = 1 := by
      have := congrArg Matrix.transpose h1
      simpa using this
    rw [ambient_eq, transform_comp, hG, ← Matrix.mul_assoc, h2, Matrix.one_mul, ambient_eq]

/-- The components of a vector in the dual of a skewed frame. -/
example : (dualOf exactCfg (⟨.reference, !![1, 1; 0, 2]⟩ : Frame 2 ℚ) (.vec ![1, 3])).map
    (fun r => (r.1.comp 0, r.1.comp 1)) = .ok (8, 14) := by decide +kernel

/-! ## C63 -/

/-- C63, partial: what the metric tensor of a frame stands for: the square of `EᵀE`; it is the
identity for orthonormal axes.

Missing, because it is false (`C63_metric_tensor_violated`): it is the identity, as the metric
tensor should be, in every frame. -/
theorem C63_metric_tensor_partial [IsStrictOrderedRing K] (f : Frame n K) (hf : CartOK f) :
    ambient f.axes f.metricTensor.1 = .ten2 ((f.axesᵀ * f.axes) * (f.axesᵀ * f.axes)) ∧
      (Orthonormal f.axes → ambient f.axes f.metricTensor.1 = .ten2 1) := by
  have h1 : ambient f.axes f.metricTensor.1 =
      .ten2 ((f.axesᵀ * f.axes) * (f.axesᵀ * f.axes)) := by
    unfold Frame.metricTensor
    rw [ambient_eq, gram_eq f hf, products_eq]
    simp only [Comps.transform, Matrix.transpose_transpose, Matrix.mul_assoc]
  refine ⟨h1, fun ho => ?_⟩
  have : f.axesᵀ * f.axes = 1 := mul_eq_one_comm.1 ho
  rw [h1, this, Matrix.one_mul]

/-- C63 is violated: in a frame with base vectors of length two, the metric tensor stands for 16
times the identity. -/
theorem C63_metric_tensor_violated :
    let f : Frame 2 ℚ := ⟨.reference, !![2, 0; 0, 2]⟩
    (ambient f.axes f.metricTensor.1).comp 0 = 16 := by
  decide +kernel

/-! ## C64 -/

/-- C64, partial: `frame.show(target)` gives the components of the base vectors in the target if both
frames are orthonormal: row `i` expanded in the base vectors of the target is base vector `i`.

Missing, because it is false (`C64_show_frame_violated`): frames that are not orthonormal. -/
theorem C64_show_frame_partial (cfg : Cfg K) (f T : Frame n K) (hf : Orthonormal f.axes)
    (hT : Orthonormal T.axes) (C : Mat n K) (h : f.showFrame cfg (some T) = .ok C) (i j : Fin n) :
    ∑ k, C i k * T.axes k j = f.axes i j := by
  have hcf : CartOK f := fun _ => hf
  unfold Frame.showFrame at h
  simp only at h
  have hQ : T.dcmTarget cfg f = .ok C := h
  have h1 := dcmTarget_ok hcf hQ
  have h2 : C = f.axes * T.axesᵀ := by
    have : f.axes * (f.axesᵀ * C) = f.axes * T.axesᵀ := by rw [h1]
    rw [← Matrix.mul_assoc, hf, Matrix.one_mul] at this
    exact this
  have h3 : C * T.axes = f.axes := by
    rw [h2, Matrix.mul_assoc, mul_eq_one_comm.1 hT, Matrix.mul_one]
  have := congrFun (congrFun h3 i) j
  rwa [Matrix.mul_apply] at this

/-- C64 is violated: the base vectors of the frame with the axes `2·1` have the components `2·1` in
the ambient frame, which is also what `show()` gives, but showing them in a frame with the unit axes
gives `1/2·1`. -/
theorem C64_show_frame_violated :
    let f : Frame 2 ℚ := ⟨.reference, !![2, 0; 0, 2]⟩
    (f.showFrame npCfg none).map (fun C => C 0 0) = .ok 2 ∧
      (f.showFrame npCfg (some ⟨.reference, 1⟩)).map (fun C => C 0 0) = .ok (1/2) := by
  refine ⟨by decide +kernel, by decide +kernel⟩

/-- The hypotheses of C64 can be met. -/
example : let f : Frame 2 ℚ := ⟨.reference, !![0, 1; -1, 0]⟩
    Orthonormal f.axes ∧
      (f.showFrame npCfg (some ⟨.cartesian, !![3/5, 4/5; -4/5, 3/5]⟩)).map (fun C => C 0 0) =
        .ok (4/5) := by
  refine ⟨?_, by decide +kernel⟩
  show _ * _ = _
  decide +kernel

/-! ## C65 -/

/-- The indices in reverse order. -/
def reversed : Comps n K → Comps n K
  | .vec v => .vec v
  | .ten2 A => .ten2 (Matrix.of fun i j => A j i)
  | .gen r a => .gen r fun t => a fun k => t k.rev

/-- C65: the transpose stands for the object with its indices in reverse order, in every frame. -/
theorem C65_transpose (E : Mat n K) (c : Comps n K) :
    ambient E c.transpose = reversed (ambient E c) := by
  cases c with
  | vec v => rfl
  | ten2 A =>
    simp only [Comps.transpose, ambient, reversed, Comps.ten2.injEq]
    ext i l
    simp only [Matrix.of_apply, Matrix.transpose_apply]
    rw [Finset.sum_comm]
    refine Finset.sum_congr rfl fun j _ => Finset.sum_congr rfl fun k _ => ?_
    ring
  | gen r a =>
    simp only [Comps.transpose, ambient, reversed, Comps.gen.injEq, heq_eq_eq, true_and]
    funext t
    let e : (Fin r → Fin n) ≃ (Fin r → Fin n) := Equiv.arrowCongr Fin.revPerm (Equiv.refl _)
    rw [← Equiv.sum_comp e]
    refine Finset.sum_congr rfl fun s _ => ?_
    have h1 : (fun k : Fin r => e s k.rev) = s := by
      funext k
      simp [e, Equiv.arrowCongr]
    rw [h1]
    congr 1
    rw [← Equiv.prod_comp Fin.revPerm]
    refine Finset.prod_congr rfl fun k _ => ?_
    simp [e, Equiv.arrowCongr]

/-- Transposing twice restores the tensor. -/
theorem C65_involution (c : Comps n K) : c.transpose.transpose = c := by
  cases c <;> simp [Comps.transpose]

example : (reversed (.gen 3 fun t => ((t 0 : ℕ) : ℚ) * 4 + (t 1 : ℕ) * 2 + (t 2 : ℕ)) :
    Comps 2 ℚ) = .gen 3 fun t => ((t 2 : ℕ) : ℚ) * 4 + (t 1 : ℕ) * 2 + (t 0 : ℕ) := rfl

end Verif.Frames.Props
