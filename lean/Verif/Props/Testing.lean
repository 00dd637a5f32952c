import Verif.Model.Testing
import Verif.Proofs.TensorProg
import Verif.Props.FramesCopies
import Verif.Props.Returns

/-!
# The assertions for tensors (C132)
-/

set_option linter.unusedSectionVars false

namespace Verif.Frames.Props
open Verif Verif.Frames

section
variable {n : ℕ} {K : Type} [Field K] [LinearOrder K] [IsStrictOrderedRing K]

theorem allclose_self (cfg : Cfg K) (ha : 0 ≤ cfg.atol) (hr : 0 ≤ cfg.rtol) (a : Comps n K) :
    allclose cfg a a = true := by
  cases a with
  | vec v => exact decide_eq_true fun i => isclose_self cfg ha hr _
  | ten2 A => exact decide_eq_true fun i j => isclose_self cfg ha hr _
  | gen r x =>
    refine (dif_pos rfl).trans ?_
    exact decide_eq_true fun t => isclose_self cfg ha hr _

theorem transposed_ok (cfg : Cfg K) (ha : 0 ≤ cfg.atol) (hr : 0 ≤ cfg.rtol) (hrt : cfg.rt 1 = 1) (t : Tensor n K)
    (ht : Sound t.frame) : t.transposed cfg = .ok ⟨t.comps.transpose, t.frame⟩ := by
  unfold Tensor.transposed
  rw [TProg.mkFrame_sound cfg ha hr hrt t.frame ht]
  rfl

/-- C132: the assertion about dual descriptions never fails for a vector or tensor in a sound frame. -/
theorem C132_duality (cfg : Cfg K) (ha : 0 ≤ cfg.atol) (hr : 0 ≤ cfg.rtol) (t : Tensor n K)
    (ht : Sound t.frame) : assertDuality cfg t = .ok () := by
  obtain ⟨d, D, h1, hD⟩ := C62_total cfg ha hr t.frame ht t.comps
  obtain ⟨dd, DD, h2, hDD⟩ := C62_total cfg ha hr D hD d
  have e1 := (C62_dual cfg t.frame D ht.2.2 t.comps d h1).1
  have e2 := (C62_dual cfg D DD hD.2.2 d dd h2).1
  have e3 : showIn cfg DD dd none = .ok (Means t) := by
    rw [C43_ambient, e2, e1]
    rfl
  unfold assertDuality
  simp only [h1, bind, Except.bind, h2, e3, show_none]
  unfold assertTrue
  rw [if_pos (allclose_self cfg ha hr _)]

theorem reversed_lin (α β : K) (a b c : Comps n K) (h : lin α β a b = some c) :
    lin α β (reversed a) (reversed b) = some (reversed c) := by
  cases a <;> cases b <;> simp only [lin, reversed] at h ⊢ <;> try (cases h <;> rfl)
  rename_i r x s y
  split at h
  · rename_i hrs
    subst hrs
    cases h
    rw [dif_pos rfl]
    rfl
  · cases h

/-- C132: the assertion about transposition never fails for a vector or tensor in a sound frame. -/
theorem C132_transposition (cfg : Cfg K) (ha : 0 ≤ cfg.atol) (hr : 0 ≤ cfg.rtol) (hrt : cfg.rt 1 = 1)
    (t : Tensor n K) (ht : Sound t.frame) : assertTransposition cfg t = .ok () := by
  obtain ⟨t2, ht2⟩ : ∃ t2 : Tensor n K, t2 = ⟨t.comps.map (· * 2), ⟨.reference, t.frame.axes⟩⟩ := ⟨_, rfl⟩
  have hs2 : Sound t2.frame := by
    rw [ht2]
    exact ⟨ht.1, (fun h => by cases h), fun h => by cases h⟩
  have hk : (∃ v w, t.comps = .vec v ∧ t2.comps = .vec w) ∨ (∃ A B, t.comps = .ten2 A ∧ t2.comps = .ten2 B) ∨
      ∃ r x y, t.comps = .gen r x ∧ t2.comps = .gen r y := by
    rw [ht2]
    cases t.comps with
    | vec v => exact .inl ⟨v, _, rfl, rfl⟩
    | ten2 A => exact .inr (.inl ⟨A, _, rfl, rfl⟩)
    | gen r x => exact .inr (.inr ⟨r, x, _, rfl, rfl⟩)
  obtain ⟨⟨s, hs⟩, ⟨s', hs'⟩, -⟩ := C47_total cfg ha hr t t2 ht hk
  have hsf : Sound s.frame := by
    obtain ⟨-, -, -, hf⟩ := binary_ok hs
    rw [hf]
    exact ⟨ht.1, (fun h => by cases h), fun h => by cases h⟩
  have hsf' : Sound s'.frame := by
    obtain ⟨-, -, -, hf⟩ := binary_ok hs'
    rw [hf]
    exact ⟨ht.1, (fun h => by cases h), fun h => by cases h⟩
  have l1 := reversed_lin _ _ _ _ _ (C47_add cfg t t2 s ht.2.2 hs)
  have l2 := reversed_lin _ _ _ _ _ (C47_sub cfg t t2 s' ht.2.2 hs')
  have sh : ∀ a : Tensor n K, Tensor.show cfg ⟨a.comps.transpose, a.frame⟩ none = .ok (reversed (Means a)) :=
    fun a => by
      rw [show_none]
      exact congrArg _ (C65_transpose a.frame.axes a.comps)
  have st : ∀ a : Tensor n K, Sound a.frame → a.transposed cfg = .ok ⟨a.comps.transpose, a.frame⟩ :=
    fun a h => transposed_ok cfg ha hr hrt a h
  have a1 : arith (· + ·) (reversed (Means t)) (reversed (Means t2)) = .ok (reversed (Means s)) := by
    unfold arith
    rw [zip_add, l1]
  have a2 : arith (· - ·) (reversed (Means t)) (reversed (Means t2)) = .ok (reversed (Means s')) := by
    unfold arith
    rw [zip_sub, l2]
  have stt : (⟨t.comps.transpose, t.frame⟩ : Tensor n K).transposed cfg = .ok t := by
    rw [transposed_ok cfg ha hr hrt ⟨t.comps.transpose, t.frame⟩ ht, C65_involution]
  have ok : ∀ c : Comps n K, assertTrue (allclose cfg c c) = .ok () := fun c => if_pos (allclose_self cfg ha hr c)
  unfold assertTransposition
  simp only [← ht2, show_none, bind, Except.bind, st t ht, stt, st t2 hs2, sh, hs, hs', st s hsf, st s' hsf', a1, a2,
    ok]

/-- Every component is that with the indices in reverse order, up to `δ`. -/
def SymmetricUpTo (δ : K) : Comps n K → Prop
  | .vec _ => True
  | .ten2 A => ∀ i j, |A i j - A j i| ≤ δ
  | .gen _ a => ∀ t, |a t - a fun k => t k.rev| ≤ δ

theorem isclose_zero (cfg : Cfg K) (hr : cfg.rtol < 1) (d : K) :
    cfg.isclose 0 d = true ↔ |d| ≤ cfg.atol / (1 - cfg.rtol) := by
  unfold Cfg.isclose
  rw [decide_eq_true_eq, zero_sub, abs_neg, le_div_iff₀ (by linarith)]
  constructor <;> intro h <;> linarith

/-- C132, partial: the assertion that a tensor is symmetric succeeds exactly if what the tensor stands for is
symmetric up to a fixed number.  Missing: see `C132_units_violated`. -/
theorem C132_symmetric_partial (cfg : Cfg K) (ha : 0 ≤ cfg.atol) (hr : 0 ≤ cfg.rtol) (hr1 : cfg.rtol < 1)
    (hrt : cfg.rt 1 = 1) (t : Tensor n K) (ht : Sound t.frame) :
    (SymmetricUpTo (cfg.atol / (1 - cfg.rtol)) (Means t) → assertSymmetric cfg t = .ok ()) ∧
      (¬ SymmetricUpTo (cfg.atol / (1 - cfg.rtol)) (Means t) → assertSymmetric cfg t = .error .assertion) := by
  have hsh : Tensor.show cfg ⟨t.comps.transpose, t.frame⟩ none = .ok (reversed (Means t)) := by
    rw [show_none]
    exact congrArg _ (C65_transpose t.frame.axes t.comps)
  have key : ∃ d, arith (· - ·) (Means t) (reversed (Means t)) = .ok d ∧
      (allclose cfg (t.comps.map fun _ => 0) d = true ↔ SymmetricUpTo (cfg.atol / (1 - cfg.rtol)) (Means t)) := by
    obtain ⟨c, F⟩ := t
    have h0 : (0 : K) ≤ cfg.atol / (1 - cfg.rtol) := div_nonneg ha (by linarith)
    cases c with
    | vec v =>
      refine ⟨_, rfl, ?_⟩
      simp only [Comps.map, allclose, decide_eq_true_eq, isclose_zero cfg hr1, Means, ambient, SymmetricUpTo,
        sub_self, abs_zero, h0, implies_true]
    | ten2 A =>
      refine ⟨_, rfl, ?_⟩
      simp only [Comps.map, allclose, decide_eq_true_eq, isclose_zero cfg hr1, Means, ambient, SymmetricUpTo,
        Matrix.of_apply]
    | gen r a =>
      obtain ⟨b, hb⟩ : ∃ b, Means ⟨.gen r a, F⟩ = .gen r b := ⟨_, rfl⟩
      rw [hb]
      refine ⟨.gen r fun u => b u - b fun k => u k.rev, ?_, ?_⟩
      · unfold arith
        simp only [reversed, Comps.zip]
        rw [dif_pos trivial]
        rfl
      · show (allclose cfg (.gen r fun _ => 0) _ = true) ↔ ∀ t, |b t - b fun k => t k.rev| ≤ _
        unfold allclose
        simp only
        rw [dif_pos trivial, decide_eq_true_eq]
        simp only [isclose_zero cfg hr1]
        rfl
  obtain ⟨d, hd, hc⟩ := key
  have hrun : assertSymmetric cfg t = assertTrue (allclose cfg (t.comps.map fun _ => 0) d) := by
    unfold assertSymmetric
    simp only [show_none, bind, Except.bind, transposed_ok cfg ha hr hrt t ht, hsh, hd]
  rw [hrun]
  unfold assertTrue
  refine ⟨fun h => if_pos (hc.2 h), fun h => if_neg fun h' => h (hc.1 h')⟩

theorem symmetric_scale (δ s : K) (hs : 0 < s) (c : Comps n K) :
    SymmetricUpTo δ (each (· * s) c) ↔ SymmetricUpTo (δ / s) c := by
  have h : ∀ x y : K, |x * s - y * s| ≤ δ ↔ |x - y| ≤ δ / s := fun x y => by
    rw [← sub_mul, abs_mul, abs_of_pos hs, le_div_iff₀ hs]
  cases c with
  | vec v => exact Iff.rfl
  | ten2 A => simp only [each, SymmetricUpTo, Matrix.of_apply, h]
  | gen r a => simp only [each, SymmetricUpTo, h]

theorem symmetric_some (c : Comps n K) : ∃ B, 0 < B ∧ SymmetricUpTo B c := by
  cases c with
  | vec v => exact ⟨1, one_pos, trivial⟩
  | ten2 A =>
    refine ⟨1 + ∑ i, ∑ j, |A i j - A j i|, ?_, fun i j => ?_⟩
    · have : 0 ≤ ∑ i, ∑ j, |A i j - A j i| :=
        Finset.sum_nonneg fun _ _ => Finset.sum_nonneg fun _ _ => abs_nonneg _
      linarith
    · have h1 := Finset.single_le_sum (f := fun j => |A i j - A j i|) (fun _ _ => abs_nonneg _) (Finset.mem_univ j)
      have h2 := Finset.single_le_sum (f := fun i => ∑ j, |A i j - A j i|)
        (fun _ _ => Finset.sum_nonneg fun _ _ => abs_nonneg _) (Finset.mem_univ i)
      linarith
  | gen r a =>
    refine ⟨1 + ∑ t, |a t - a fun k => t k.rev|, ?_, fun t => ?_⟩
    · have : 0 ≤ ∑ t, |a t - a fun k => t k.rev| := Finset.sum_nonneg fun _ _ => abs_nonneg _
      linarith
    · have h1 := Finset.single_le_sum (f := fun t => |a t - a fun k => t k.rev|) (fun _ _ => abs_nonneg _)
        (Finset.mem_univ t)
      linarith

/-- C132 is violated: written in other units, every tensor passes as symmetric, however far from symmetric it is. -/
theorem C132_units_violated (cfg : Cfg K) (ha : 0 < cfg.atol) (hr : 0 ≤ cfg.rtol) (hr1 : cfg.rtol < 1)
    (hrt : cfg.rt 1 = 1) (t : Tensor n K) (ht : Sound t.frame) (hns : ¬ SymmetricUpTo 0 (Means t)) :
    ∃ s t', 0 < s ∧ mul t (.number s) = .ok t' ∧ ¬ SymmetricUpTo 0 (Means t') ∧ assertSymmetric cfg t' = .ok () := by
  obtain ⟨B, hB, hb⟩ := symmetric_some (Means t)
  have hδ : 0 < cfg.atol / (1 - cfg.rtol) := div_pos ha (by linarith)
  have hs : 0 < cfg.atol / (1 - cfg.rtol) / B := div_pos hδ hB
  obtain ⟨t', h1, -, hf, hm⟩ := C47_scale t (cfg.atol / (1 - cfg.rtol) / B)
  refine ⟨_, t', hs, h1, ?_, ?_⟩
  · rw [hm, symmetric_scale 0 _ hs, zero_div]
    exact hns
  · refine (C132_symmetric_partial cfg ha.le hr hr1 hrt t' (hf ▸ ht)).1 ?_
    rw [hm, symmetric_scale _ _ hs, div_div_cancel₀ hδ.ne']
    exact hb

/-- A tensor in a skewed frame that is not symmetric, with the tolerances of `numpy`. -/
example : Sound (⟨.reference, !![1, 1; 0, 1]⟩ : Frame 2 ℚ) ∧
    ¬ SymmetricUpTo 0 (Means (⟨.ten2 !![1, 2; 3, 4], ⟨.reference, !![1, 1; 0, 1]⟩⟩ : Tensor 2 ℚ)) ∧
    (0 : ℚ) < 1 / 10 ^ 8 ∧ (1 / 10 ^ 5 : ℚ) < 1 := by
  refine ⟨⟨by simp, (fun h => by cases h), fun h => by cases h⟩, fun h => ?_, by norm_num, by norm_num⟩
  have := h 0 1
  revert this
  decide +kernel

end
end Verif.Frames.Props
