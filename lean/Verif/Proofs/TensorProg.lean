import Verif.Model.TensorProg
import Verif.Props.FrameTotal
import Verif.Props.FramesCopies

/-! # Helper lemmas about programs that compute with tensors -/

set_option linter.unusedSectionVars false

namespace Verif.TProg

open Verif.Frames Verif.Frames.Props Matrix

section
variable {n : ℕ} {K : Type} [Field K] [LinearOrder K] [IsStrictOrderedRing K]

/-- The frame is not broken, and the registries are in order. -/
structure Sane (h : Heap n K) : Prop where
  inv : h.Inv
  sound : ∀ f < h.nF, Sound (h.frames f).frame

theorem sound_cartOK {f : Frame n K} (hf : Sound f) : CartOK f := hf.2.2

theorem sound_reference {f : Frame n K} (hf : Sound f) :
    Sound (⟨.reference, f.axes⟩ : Frame n K) := ⟨hf.1, fun h => (nomatch h), fun h => nomatch h⟩

theorem sound_ambientFrame : Sound (ambientFrame : Frame n K) :=
  ⟨by unfold ambientFrame; rw [Matrix.det_one]; exact one_ne_zero, fun h => (nomatch h),
    fun h => nomatch h⟩

theorem sane_frame {h : Heap n K} (hs : Sane h) {t : ℕ} (ht : t < h.nT) :
    Sound (h.frames (h.tensors t).frame).frame := hs.sound _ (hs.inv.valid t ht)

theorem mkFrame_sound (cfg : Cfg K) (ha : 0 ≤ cfg.atol) (hr : 0 ≤ cfg.rtol) (hrt : cfg.rt 1 = 1)
    (f : Frame n K) (hf : Sound f) : mkFrame cfg f.cls f.axes = .ok f := by
  obtain ⟨cls, E⟩ := f
  cases cls with
  | reference => rfl
  | rectangular =>
    have := rectangular_of_perpendicular cfg ha hr E (hf.2.1 rfl)
    simp only [mkFrame, this, if_true]
  | cartesian =>
    have hE : Orthonormal E := hf.2.2 rfl
    have h1 := rectangular_of_perpendicular cfg ha hr E (orthonormal_perpendicular hE)
    have h2 : isNormalFrame cfg E = true := by
      unfold isNormalFrame
      rw [List.all_eq_true]
      intro i _
      have h3 : ∑ j, E i j ^ 2 = 1 := by
        have := congrFun (congrFun hE i) i
        rw [Matrix.mul_apply, Matrix.one_apply_eq] at this
        rw [← this]
        exact Finset.sum_congr rfl fun j _ => by rw [Matrix.transpose_apply]; ring
      rw [h3, hrt]
      exact isclose_self cfg ha hr 1
    simp only [mkFrame, h1, h2, if_true]

theorem addFrame_sane {h : Heap n K} (hs : Sane h) {f : Frame n K} (hf : Sound f) :
    Sane (h.addFrame f) ∧ ((h.addFrame f).frames h.nF).frame = f ∧ (h.addFrame f).nT = h.nT ∧
      (h.addFrame f).nF = h.nF + 1 ∧ ∀ t < h.nT, (h.addFrame f).ambientOf t = h.ambientOf t := by
  obtain ⟨a1, a2⟩ := addFrame_spec h hs.inv f (sound_cartOK hf)
  have hnew : (h.addFrame f).frames h.nF = ⟨f, []⟩ := Function.update_self _ _ _
  refine ⟨⟨a1, fun g hg => ?_⟩, by rw [hnew], rfl, rfl, a2.same⟩
  by_cases hgn : g = h.nF
  · subst hgn; rw [hnew]; exact hf
  · have : (h.addFrame f).frames g = h.frames g := Function.update_of_ne hgn _ _
    rw [this]
    have hg' : g < h.nF + 1 := hg
    exact hs.sound g (by omega)

theorem store_sane {h : Heap n K} (hs : Sane h) (c : Comps n K) {f : ℕ} (hf : f < h.nF) :
    ∃ h', store c f h = (h', .ok (.object h.nT)) ∧ Sane h' ∧ h'.nT = h.nT + 1 ∧
      (∀ t < h.nT, h'.ambientOf t = h.ambientOf t) ∧
      h'.ambientOf h.nT = ambient (h.frames f).frame.axes c := by
  obtain ⟨a1, a2⟩ := newTensor_spec h hs.inv c f
  obtain ⟨b1, b2⟩ := newTensor_frames h c f
  have he : (h.newTensor c f).2 = none := by unfold Heap.newTensor; rw [if_pos hf]
  have hT : (h.newTensor c f).1.nT = h.nT + 1 := by unfold Heap.newTensor; rw [if_pos hf]
  have ht : (h.newTensor c f).1.tensors h.nT = ⟨c, f⟩ := by
    unfold Heap.newTensor; rw [if_pos hf]; exact Function.update_self _ _ _
  refine ⟨(h.newTensor c f).1, ?_, ⟨a1, fun g hg => ?_⟩, hT, a2.same, ?_⟩
  · unfold store
    generalize hr : h.newTensor c f = r at he ⊢
    obtain ⟨h', e⟩ := r
    simp only at he
    subst he
    rfl
  · rw [b2]; exact hs.sound g (by rw [b1] at hg; exact hg)
  · unfold Heap.ambientOf
    rw [ht, b2]

theorem overwrite_sane {h : Heap n K} (hs : Sane h) {a : ℕ} (ha : a < h.nT) (c : Comps n K) :
    Sane (overwrite a c h) ∧ (overwrite a c h).nT = h.nT ∧
      (∀ t, t ≠ a → (overwrite a c h).ambientOf t = h.ambientOf t) ∧
      (overwrite a c h).ambientOf a = ambient (h.frames (h.tensors a).frame).frame.axes c := by
  have hfr : ∀ t, ((overwrite a c h).tensors t).frame = (h.tensors t).frame := by
    intro t
    unfold overwrite
    by_cases ht : t = a
    · subst ht; simp only; rw [Function.update_self]
    · simp only; rw [Function.update_of_ne ht]
  refine ⟨⟨⟨fun t ht => ?_, fun f hf t => ?_, fun f hf => ?_, fun f hf => ?_⟩, hs.sound⟩, rfl,
    fun t ht => ?_, ?_⟩
  · rw [hfr]; exact hs.inv.valid t ht
  · rw [hfr]; exact hs.inv.reg f hf t
  · exact hs.inv.nodup f hf
  · exact hs.inv.cart f hf
  · unfold Heap.ambientOf overwrite
    simp only
    rw [Function.update_of_ne ht]
  · unfold Heap.ambientOf overwrite
    simp only
    rw [Function.update_self]

/-! ### Frame statements make no tensors -/

theorem setFrame_nT (cfg : Cfg K) (h : Heap n K) (t f : ℕ) : (h.setFrame cfg t f).1.nT = h.nT := by
  unfold Heap.setFrame
  split
  · simp only
    split <;> rfl
  · rfl

theorem setAxes_nT (cfg : Cfg K) (h : Heap n K) (f : ℕ) (v : Mat n K) :
    (h.setAxes cfg f v).1.nT = h.nT := by
  unfold Heap.setAxes
  split
  · simp only
    split
    · rfl
    · split <;> rfl
  · rfl

theorem newFrame_nT (cfg : Cfg K) (h : Heap n K) (cls : FrameCls) (axes : Mat n K) :
    (h.newFrame cfg cls axes).1.nT = h.nT := by
  unfold Heap.newFrame
  split <;> rfl

theorem moveAll_nT (cfg : Cfg K) (f : ℕ) (ts : List ℕ) (h : Heap n K) :
    (h.moveAll cfg f ts).1.nT = h.nT := by
  induction ts generalizing h with
  | nil => rfl
  | cons t ts ih =>
    have h1 := setFrame_nT cfg h t f
    unfold Heap.moveAll
    split
    · rename_i h' he
      rw [ih h']
      rw [he] at h1
      exact h1
    · rename_i h' e he
      rw [he] at h1
      exact h1

theorem inplace_nT (cfg : Cfg K) (h : Heap n K) (f : ℕ) (o : Operand n K) :
    (h.inplace cfg f o).1.nT = h.nT := by
  unfold Heap.inplace
  split
  · simp only
    split
    · exact setAxes_nT cfg h f _
    · split
      · rfl
      · rename_i g hg
        have h1 := moveAll_nT cfg h.nF (h.frames f).reg (h.addFrame g)
        split
        · rename_i h' e he; rw [he] at h1; exact h1
        · rename_i h' he
          rw [he] at h1
          rw [setAxes_nT]
          exact h1
  · rfl

theorem copyFrame_nT (cfg : Cfg K) (h : Heap n K) (f : ℕ) : (h.copyFrame cfg f).1.nT = h.nT := by
  unfold Heap.copyFrame
  split
  · exact newFrame_nT cfg h _ _
  · rfl

/-- The statements about frames proper. -/
def NoTensor : Op n K → Prop
  | .newTensor _ _ | .copyTensor _ | .deepcopyTensor _ | .methodCopy _ => False
  | _ => True

theorem op_nT (cfg : Cfg K) (h : Heap n K) (op : Op n K) (ho : NoTensor op) :
    (op.run cfg h).1.nT = h.nT := by
  cases op with
  | newFrame cls axes => exact newFrame_nT cfg h cls axes
  | newTensor c f => exact ho.elim
  | setFrame t f => exact setFrame_nT cfg h t f
  | setFrameArray t axes => exact setFrame_nT cfg _ t _
  | setAxes f v => exact setAxes_nT cfg h f v
  | inplace f o => exact inplace_nT cfg h f o
  | orient f R => exact setAxes_nT cfg h f _
  | orientNew f R =>
    show (Heap.orientNew cfg f R h).1.nT = h.nT
    have h1 := copyFrame_nT cfg h f
    unfold Heap.orientNew
    split
    · rename_i h' he
      rw [he] at h1
      exact (setAxes_nT cfg h' _ _).trans h1
    · rename_i h' e he
      rw [he] at h1
      exact h1
  | transposeFrame f => exact setAxes_nT cfg h f _
  | setItem f v =>
    show (h.setItem f v).1.nT = h.nT
    unfold Heap.setItem
    split <;> rfl
  | ufuncOut f v =>
    show (h.ufuncOut cfg f v).1.nT = h.nT
    unfold Heap.ufuncOut
    split
    · exact setAxes_nT cfg h f v
    · rfl
  | copyFrame f => exact copyFrame_nT cfg h f
  | copyTensor t => exact ho.elim
  | deepcopyTensor t => exact ho.elim
  | methodCopy t => exact ho.elim

end

end Verif.TProg
