import Verif.Proofs.Objective

/-!
# C135: rotating what is put into a term rotates what comes out
-/

set_option linter.unusedSectionVars false

namespace Verif.Rot.Props
open Verif Verif.Frames Verif.Frames.Props Matrix

/-- The frames written into a term have orthonormal axes; if there are cross products, right handed ones. -/
def FramesOrthonormal (righthanded : Prop) : Term → Prop
  | .input _ | .number _ => True
  | .add a b | .sub a b | .mul a b => FramesOrthonormal righthanded a ∧ FramesOrthonormal righthanded b
  | .neg a | .transpose a => FramesOrthonormal righthanded a
  | .dot a b frame _ => FramesOrthonormal righthanded a ∧ FramesOrthonormal righthanded b ∧
      ∀ f, frame = some f → f.axes * f.axesᵀ = 1 ∧ (righthanded → f.axes.det = 1)
  | .cross a b frame => FramesOrthonormal righthanded a ∧ FramesOrthonormal righthanded b ∧
      ∀ f, frame = some f → f.axes * f.axesᵀ = 1 ∧ (righthanded → f.axes.det = 1)

/-- The term has no cross product. -/
def NoCross : Term → Prop
  | .input _ | .number _ => True
  | .add a b | .sub a b | .mul a b | .dot a b _ _ => NoCross a ∧ NoCross b
  | .neg a | .transpose a => NoCross a
  | .cross _ _ _ => False

/-- What evaluating a term gives for the rotated objects, compared with what it gives for the objects
themselves: the same numbers, the same exceptions, and tensors whose components in the ambient frame are
rotated by `S`. -/
def Follows (S : Mat 3 ℝ) (before after : Py Val) : Prop :=
  (∀ x, before = .ok (.number x) → after = .ok (.number x)) ∧
  (∀ err, before = .error err → after = .error err) ∧
  ∀ t, before = .ok (.tensor t) → ∃ t', after = .ok (.tensor t') ∧ t'.frame = t.frame ∧
    Means t' = (Means t).transform S

theorem ok_of_frames {same : Prop} {e : Term} (h : FramesOrthonormal True e) : e.Ok ⟨True, same⟩ := by
  induction e with
  | input k => trivial
  | number c => trivial
  | add a b iha ihb => exact ⟨iha h.1, ihb h.2⟩
  | sub a b iha ihb => exact ⟨iha h.1, ihb h.2⟩
  | mul a b iha ihb => exact ⟨iha h.1, ihb h.2⟩
  | neg a iha => exact iha h
  | transpose a iha => exact iha h
  | dot a b frame axes iha ihb => exact ⟨iha h.1, ihb h.2.1, h.2.2⟩
  | cross a b frame iha ihb => exact ⟨trivial, iha h.1, ihb h.2.1, h.2.2⟩

theorem ok_of_frames_noCross {same : Prop} {e : Term} (h : FramesOrthonormal False e) (hn : NoCross e) : e.Ok ⟨False, same⟩ := by
  induction e with
  | input k => trivial
  | number c => trivial
  | add a b iha ihb => exact ⟨iha h.1 hn.1, ihb h.2 hn.2⟩
  | sub a b iha ihb => exact ⟨iha h.1 hn.1, ihb h.2 hn.2⟩
  | mul a b iha ihb => exact ⟨iha h.1 hn.1, ihb h.2 hn.2⟩
  | neg a iha => exact iha h hn
  | transpose a iha => exact iha h hn
  | dot a b frame axes iha ihb => exact ⟨iha h.1 hn.1, ihb h.2.1 hn.2, h.2.2⟩
  | cross a b frame iha ihb => exact hn.elim

theorem follows_of_rel {d : Prop} {S : Mat 3 ℝ} {x y : Py Val} (h : RelP ⟨d, True⟩ S x y) : Follows S x y := by
  refine ⟨?_, ?_, ?_⟩
  · rintro v rfl
    match y, h with
    | .ok (.number w), h => cases h; rfl
  · rintro err rfl
    match y, h with
    | .error e, h => cases h; rfl
  · rintro t rfl
    match y, h with
    | .ok (.tensor t'), h => exact ⟨t', rfl, h.frame trivial, h.means⟩

/-- The same without regard to the frame of the result. -/
def Agrees (S : Mat 3 ℝ) (before after : Py Val) : Prop :=
  (∀ x, before = .ok (.number x) → after = .ok (.number x)) ∧
  (∀ err, before = .error err → after = .error err) ∧
  ∀ t, before = .ok (.tensor t) → ∃ t', after = .ok (.tensor t') ∧ Means t' = (Means t).transform S

theorem agrees_of_rel {d : Mode} {S : Mat 3 ℝ} {x y : Py Val} (h : RelP d S x y) : Agrees S x y := by
  refine ⟨?_, ?_, ?_⟩
  · rintro v rfl
    match y, h with
    | .ok (.number w), h => cases h; rfl
  · rintro err rfl
    match y, h with
    | .error e, h => cases h; rfl
  · rintro t rfl
    match y, h with
    | .ok (.tensor t'), h => exact ⟨t', rfl, h.means⟩

theorem conj_orthogonal {R E : Mat 3 ℝ} (hR : R * Rᵀ = 1) (hE : E * Eᵀ = 1) :
    (Eᵀ * Rᵀ * E) * (Eᵀ * Rᵀ * E)ᵀ = 1 := by
  have h1 : Rᵀ * R = 1 := mul_eq_one_comm.1 hR
  have h2 : Eᵀ * E = 1 := mul_eq_one_comm.1 hE
  rw [transpose_mul, transpose_mul, Matrix.transpose_transpose, Matrix.transpose_transpose]
  calc Eᵀ * Rᵀ * E * (Eᵀ * (R * E)) = Eᵀ * (Rᵀ * (E * Eᵀ) * R) * E := by simp only [Matrix.mul_assoc]
    _ = 1 := by rw [hE, Matrix.mul_one, h1, Matrix.mul_one, h2]

theorem conj_det {R E : Mat 3 ℝ} (hR : R.det = 1) (hE : E.det = 1) : (Eᵀ * Rᵀ * E).det = 1 := by
  rw [det_mul, det_mul, det_transpose, det_transpose, hR, hE]
  simp

/-- C135: let vectors and tensors be given in frames whose axes are the same orthonormal right handed `E`, and
let all of them be rotated by the same call of `orient`.  Whatever is computed from them by sums,
differences, products with numbers, signs, transposes, `dot` in all its forms and `cross`, however deeply
nested, is then rotated as well: numbers and exceptions are the same, and vectors and tensors have, in
ambient components, turned by the matrix of that rotation. -/
theorem C135_objective (cfg : Cfg ℝ) (ha : 0 ≤ cfg.atol) (hr : 0 ≤ cfg.rtol) (hrt : cfg.rt 1 = 1)
    (kind : Kind) (amounts : List ℝ) (order : List Char) (R : Mat 3 ℝ)
    (h : rotationMatrix kind amounts order = .ok R)
    (hq : kind = .quaternion → (amounts.map fun q => q ^ 2).sum = 1)
    (E : Mat 3 ℝ) (hE : E * Eᵀ = 1) (hd : E.det = 1) (ts ts' : ℕ → Tensor 3 ℝ)
    (hf : ∀ k, (ts k).frame.axes = E) (hc : ∀ k r x, (ts k).comps = .gen r x → 3 ≤ r)
    (hts : ∀ k, turn R (ts k) = .ok (ts' k)) (e : Term) (he : FramesOrthonormal True e) :
    Follows (Eᵀ * Rᵀ * E) (e.eval cfg ts) (e.eval cfg ts') := by
  obtain ⟨h1, -, h3⟩ := C84_proper kind amounts order R h hq
  have hg : ∀ k, Good ⟨True, True⟩ (ts k).frame := fun k => ⟨by unfold Orthonormal; rw [hf k]; exact hE, fun _ => by rw [hf k]; exact hd⟩
  exact follows_of_rel (eval_rel (conj_orthogonal h1 hE) ha hr hrt (fun _ => conj_det h3 hd)
    (fun k => turn_rel (hf k) (hg k) (hc k) (hts k)) e (ok_of_frames he))

/-- C135: where the result is given in a frame with the axes `E` too, the result for the rotated objects is
the result for the objects, rotated by the same call. -/
theorem C135_commutes (cfg : Cfg ℝ) (ha : 0 ≤ cfg.atol) (hr : 0 ≤ cfg.rtol) (hrt : cfg.rt 1 = 1)
    (kind : Kind) (amounts : List ℝ) (order : List Char) (R : Mat 3 ℝ)
    (h : rotationMatrix kind amounts order = .ok R)
    (hq : kind = .quaternion → (amounts.map fun q => q ^ 2).sum = 1)
    (E : Mat 3 ℝ) (hE : E * Eᵀ = 1) (hd : E.det = 1) (ts ts' : ℕ → Tensor 3 ℝ)
    (hf : ∀ k, (ts k).frame.axes = E) (hc : ∀ k r x, (ts k).comps = .gen r x → 3 ≤ r)
    (hts : ∀ k, turn R (ts k) = .ok (ts' k)) (e : Term) (he : FramesOrthonormal True e)
    (t : Tensor 3 ℝ) (ht : e.eval cfg ts = .ok (.tensor t)) (htE : t.frame.axes = E) (hrank : t.comps.rank ≤ 13) :
    ∃ t', turn R t = .ok t' ∧ e.eval cfg ts' = .ok (.tensor t') := by
  obtain ⟨h1, -, h3⟩ := C84_proper kind amounts order R h hq
  have hg : ∀ k, Good ⟨True, True⟩ (ts k).frame := fun k => ⟨by unfold Orthonormal; rw [hf k]; exact hE, fun _ => by rw [hf k]; exact hd⟩
  have key := eval_rel (conj_orthogonal h1 hE) ha hr hrt (fun _ => conj_det h3 hd)
    (fun k => turn_rel (hf k) (hg k) (hc k) (hts k)) e (ok_of_frames he)
  rw [ht] at key
  match hy : e.eval cfg ts', key with
  | .ok (.tensor t'), key =>
    have key : Rel ⟨True, True⟩ (Eᵀ * Rᵀ * E) t t' := key
    refine ⟨t', ?_, rfl⟩
    rw [turn_ok R t key.canon hrank]
    have hcm := key.comps
    rw [key.frame trivial, htE, ← Matrix.mul_assoc, ← Matrix.mul_assoc, hE, Matrix.one_mul, Matrix.mul_assoc, hE, Matrix.mul_one] at hcm
    obtain ⟨c', f'⟩ := t'
    rw [← hcm, ← key.frame trivial]

/-- C135: without cross products the same holds for every orthogonal matrix, reflections included, and for
left handed frames. -/
theorem C135_reflections (cfg : Cfg ℝ) (ha : 0 ≤ cfg.atol) (hr : 0 ≤ cfg.rtol) (hrt : cfg.rt 1 = 1)
    (R : Mat 3 ℝ) (hR : R * Rᵀ = 1) (E : Mat 3 ℝ) (hE : E * Eᵀ = 1) (ts ts' : ℕ → Tensor 3 ℝ)
    (hf : ∀ k, (ts k).frame.axes = E) (hc : ∀ k r x, (ts k).comps = .gen r x → 3 ≤ r)
    (hts : ∀ k, turn R (ts k) = .ok (ts' k)) (e : Term) (he : FramesOrthonormal False e) (hn : NoCross e) :
    Follows (Eᵀ * Rᵀ * E) (e.eval cfg ts) (e.eval cfg ts') := by
  have hg : ∀ k, Good ⟨False, True⟩ (ts k).frame := fun k => ⟨by unfold Orthonormal; rw [hf k]; exact hE, False.elim⟩
  exact follows_of_rel (eval_rel (conj_orthogonal hR hE) ha hr hrt False.elim
    (fun k => turn_rel (hf k) (hg k) (hc k) (hts k)) e (ok_of_frames_noCross he hn))

/-- C135: rotations in space.  Let each object be given in an orthonormal right handed frame of its own, and
let the second objects be the first ones rotated by `S` in space, in whatever orthonormal right handed
frames they are given.  Then the value of every term is rotated by `S` in space. -/
theorem C135_space (cfg : Cfg ℝ) (ha : 0 ≤ cfg.atol) (hr : 0 ≤ cfg.rtol) (hrt : cfg.rt 1 = 1)
    (S : Mat 3 ℝ) (hS : S * Sᵀ = 1) (hdet : S.det = 1) (ts ts' : ℕ → Tensor 3 ℝ)
    (hf : ∀ k, (ts k).frame.axes * (ts k).frame.axesᵀ = 1 ∧ (ts k).frame.axes.det = 1)
    (hf' : ∀ k, (ts' k).frame.axes * (ts' k).frame.axesᵀ = 1 ∧ (ts' k).frame.axes.det = 1)
    (hc : ∀ k r x, (ts k).comps = .gen r x → 3 ≤ r)
    (hts : ∀ k, Means (ts' k) = (Means (ts k)).transform S) (e : Term) (he : FramesOrthonormal True e) :
    Agrees S (e.eval cfg ts) (e.eval cfg ts') :=
  agrees_of_rel (d := ⟨True, False⟩) (eval_rel hS ha hr hrt (fun _ => hdet)
    (fun k => ⟨False.elim, ⟨(hf k).1, fun _ => (hf k).2⟩, ⟨(hf' k).1, fun _ => (hf' k).2⟩, hts k, hc k⟩) e
    (ok_of_frames he))

/-- C121: with orthonormal right handed frames, the value of every term, cross products and contractions of
tensors of any rank included, does not depend on the frames in which the objects are given. -/
theorem C121_terms (cfg : Cfg ℝ) (ha : 0 ≤ cfg.atol) (hr : 0 ≤ cfg.rtol) (hrt : cfg.rt 1 = 1)
    (ts ts' : ℕ → Tensor 3 ℝ)
    (hf : ∀ k, (ts k).frame.axes * (ts k).frame.axesᵀ = 1 ∧ (ts k).frame.axes.det = 1)
    (hf' : ∀ k, (ts' k).frame.axes * (ts' k).frame.axesᵀ = 1 ∧ (ts' k).frame.axes.det = 1)
    (hc : ∀ k r x, (ts k).comps = .gen r x → 3 ≤ r)
    (hts : ∀ k, Means (ts' k) = Means (ts k)) (e : Term) (he : FramesOrthonormal True e) :
    (∀ x, e.eval cfg ts = .ok (.number x) → e.eval cfg ts' = .ok (.number x)) ∧
    (∀ err, e.eval cfg ts = .error err → e.eval cfg ts' = .error err) ∧
    ∀ t, e.eval cfg ts = .ok (.tensor t) → ∃ t', e.eval cfg ts' = .ok (.tensor t') ∧ Means t' = Means t := by
  obtain ⟨h1, h2, h3⟩ := C135_space cfg ha hr hrt 1 (by rw [Matrix.transpose_one, Matrix.mul_one]) det_one ts ts' hf
    hf' hc (fun k => by rw [transform_one]; exact hts k) e he
  refine ⟨h1, h2, fun t ht => ?_⟩
  obtain ⟨t', e1, e2⟩ := h3 t ht
  exact ⟨t', e1, by rw [e2, transform_one]⟩

/-- C121: without cross products the frames need not be right handed. -/
theorem C121_terms_noCross (cfg : Cfg ℝ) (ha : 0 ≤ cfg.atol) (hr : 0 ≤ cfg.rtol) (hrt : cfg.rt 1 = 1)
    (ts ts' : ℕ → Tensor 3 ℝ) (hf : ∀ k, (ts k).frame.axes * (ts k).frame.axesᵀ = 1)
    (hf' : ∀ k, (ts' k).frame.axes * (ts' k).frame.axesᵀ = 1)
    (hc : ∀ k r x, (ts k).comps = .gen r x → 3 ≤ r)
    (hts : ∀ k, Means (ts' k) = Means (ts k)) (e : Term) (he : FramesOrthonormal False e) (hn : NoCross e) :
    (∀ x, e.eval cfg ts = .ok (.number x) → e.eval cfg ts' = .ok (.number x)) ∧
    (∀ err, e.eval cfg ts = .error err → e.eval cfg ts' = .error err) ∧
    ∀ t, e.eval cfg ts = .ok (.tensor t) → ∃ t', e.eval cfg ts' = .ok (.tensor t') ∧ Means t' = Means t := by
  obtain ⟨h1, h2, h3⟩ := agrees_of_rel (d := ⟨False, False⟩) (S := 1) (eval_rel (d := ⟨False, False⟩)
    (by rw [Matrix.transpose_one, Matrix.mul_one]) ha hr hrt False.elim
    (fun k => ⟨False.elim, ⟨hf k, False.elim⟩, ⟨hf' k, False.elim⟩, by rw [transform_one]; exact hts k, hc k⟩) e
    (ok_of_frames_noCross he hn))
  refine ⟨h1, h2, fun t ht => ?_⟩
  obtain ⟨t', e1, e2⟩ := h3 t ht
  exact ⟨t', e1, by rw [e2, transform_one]⟩

/-- C135: exactly the objects of up to 13 indices can be rotated, and rotating by a series of matrices, one
after the other, is rotating once by their product; in particular the transposed matrix undoes a rotation. -/
theorem C135_series (t : Tensor 3 ℝ) (hc : ∀ r x, t.comps = .gen r x → 3 ≤ r) :
    (∀ R, 13 < t.comps.rank → turn R t = .error .value) ∧
    (t.comps.rank ≤ 13 →
      (∀ Rs : List (Mat 3 ℝ), Rs.foldlM (fun u R => turn R u) t = turn Rs.prod t) ∧
      ∀ R : Mat 3 ℝ, R * Rᵀ = 1 → (do turn Rᵀ (← turn R t)) = .ok t) := by
  have hcc : ∀ (Q : Mat 3 ℝ) (c : Comps 3 ℝ), Canon c → Canon (c.transform Q) := by
    intro Q c hc r x hx
    cases c with
    | vec v => cases hx
    | ten2 A => cases hx
    | gen r' a => cases hx; exact hc _ _ rfl
  have hrk : ∀ (Q : Mat 3 ℝ) (c : Comps 3 ℝ), (c.transform Q).rank = c.rank := by
    intro Q c; cases c <;> rfl
  refine ⟨fun R h => turn_big R t hc h, fun h13 => ⟨fun Rs => ?_, fun R hR => ?_⟩⟩
  · have : ∀ (Rs : List (Mat 3 ℝ)) (P : Mat 3 ℝ),
        Rs.foldlM (fun u R => turn R u) (⟨t.comps.transform Pᵀ, t.frame⟩ : Tensor 3 ℝ) =
          (.ok ⟨t.comps.transform (P * Rs.prod)ᵀ, t.frame⟩ : Py (Tensor 3 ℝ)) := by
      intro Rs
      induction Rs with
      | nil => intro P; rw [List.prod_nil, Matrix.mul_one]; rfl
      | cons R Rs ih =>
        intro P
        rw [List.foldlM_cons, turn_ok R _ (hcc _ _ hc) (by rw [hrk]; exact h13)]
        show Rs.foldlM _ _ = _
        rw [transform_comp, ← transpose_mul, ih (P * R), List.prod_cons, Matrix.mul_assoc]
    have h1 := this Rs 1
    rw [Matrix.transpose_one, transform_one, Matrix.one_mul] at h1
    rw [turn_ok _ t hc h13]
    exact h1
  · rw [turn_ok R t hc h13]
    show turn Rᵀ _ = _
    rw [turn_ok Rᵀ _ (hcc _ _ hc) (by rw [hrk]; exact h13)]
    show Except.ok (⟨(t.comps.transform Rᵀ).transform Rᵀᵀ, t.frame⟩ : Tensor 3 ℝ) = _
    rw [transform_comp, Matrix.transpose_transpose, hR, transform_one]

/-! ### Where it does not hold -/

/-- The rotation by a right angle around the first axis. -/
theorem quarter_turn : rotationMatrix .body [Real.pi / 2, 0, 0] ['X', 'Y', 'Z'] =
    .ok !![1, 0, 0; 0, 0, 1; 0, -1, 0] := by
  have o1 : orderOf ['X', 'Y', 'Z'] = some (0, 1, 2) := by decide
  simp only [rotationMatrix, o1, simple_zero, Matrix.mul_one]
  congr 1
  ext i j
  fin_cases i <;> fin_cases j <;> simp [simple]

/-- The inner product of two vectors as a term. -/
def inner2 : Term := .dot (.input 0) (.input 1) none none

theorem inner2_eval (cfg : Cfg ℝ) (ts : ℕ → Tensor 3 ℝ) (X Y : Fin 3 → ℝ) (c0 c1 : Fin 3 → ℝ)
    (h0 : (ts 0).comps = .vec c0) (h1 : (ts 1).comps = .vec c1)
    (hX : Means (ts 0) = .vec X) (hY : Means (ts 1) = .vec Y) :
    inner2.eval cfg ts = .ok (.number (∑ i, X i * Y i)) := by
  have h := C45_vector_vector cfg (ts 0) (ts 1) none none X Y hX hY
  show dotV cfg none none (.tensor (ts 0)) (.tensor (ts 1)) = _
  simp only [dotV]
  rw [if_pos (by rw [h0, h1]; exact ⟨Nat.le_succ 1, Nat.le_succ 1⟩), h]
  rfl

/-- C135 is violated for vectors given in different frames, orthonormal ones included: rotating both by the
same call turns each around the axes of its own frame, so that the angle between them changes. -/
theorem C135_frames_violated (cfg : Cfg ℝ) : ∃ R, ∃ ts ts' : ℕ → Tensor 3 ℝ,
    rotationMatrix .body [Real.pi / 2, 0, 0] ['X', 'Y', 'Z'] = .ok R ∧
    (∀ k, (ts k).frame.axes * (ts k).frame.axesᵀ = 1 ∧ (ts k).frame.axes.det = 1) ∧
    (∀ k, turn R (ts k) = .ok (ts' k)) ∧
    inner2.eval cfg ts = .ok (.number (-1)) ∧ inner2.eval cfg ts' = .ok (.number 0) := by
  let F : Mat 3 ℝ := !![0, 1, 0; -1, 0, 0; 0, 0, 1]
  let R : Mat 3 ℝ := !![1, 0, 0; 0, 0, 1; 0, -1, 0]
  let ts : ℕ → Tensor 3 ℝ := fun k =>
    if k = 0 then ⟨.vec ![1, 0, 0], ambientFrame⟩ else ⟨.vec ![0, 1, 0], ⟨.cartesian, F⟩⟩
  let ts' : ℕ → Tensor 3 ℝ := fun k => ⟨(ts k).comps.transform Rᵀ, (ts k).frame⟩
  refine ⟨R, ts, ts', quarter_turn, ?_, ?_, ?_, ?_⟩
  · intro k
    by_cases hk : k = 0
    · simp only [ts, if_pos hk, ambientFrame]
      simp
    · simp only [ts, if_neg hk]
      constructor
      · ext i j
        fin_cases i <;> fin_cases j <;> simp [F, Matrix.mul_apply, Fin.sum_univ_three]
      · simp [F, det_fin_three]
  · intro k
    refine turn_ok R _ ?_ ?_
    · by_cases hk : k = 0
      · simp only [ts, if_pos hk]; intro r x hx; cases hx
      · simp only [ts, if_neg hk]; intro r x hx; cases hx
    · by_cases hk : k = 0
      · simp only [ts, if_pos hk]; show 1 ≤ 13; omega
      · simp only [ts, if_neg hk]; show 1 ≤ 13; omega
  · rw [inner2_eval cfg ts ![1, 0, 0] ![-1, 0, 0] _ _ rfl rfl]
    · congr 2; simp [Fin.sum_univ_three]
    · show ambient (1 : Mat 3 ℝ) (.vec ![1, 0, 0]) = _
      rw [ambient_vec, Matrix.transpose_one, one_mulVec]
    · show ambient F (.vec ![0, 1, 0]) = _
      rw [ambient_vec]
      congr 1
      ext i
      fin_cases i <;> simp [F, Matrix.mulVec, dotProduct, Fin.sum_univ_three]
  · rw [inner2_eval cfg ts' ![1, 0, 0] ![0, 0, 1] _ _ rfl rfl]
    · congr 2; simp [Fin.sum_univ_three]
    · show ambient (1 : Mat 3 ℝ) (.vec (Rᵀ *ᵥ ![1, 0, 0])) = _
      rw [ambient_vec, Matrix.transpose_one, one_mulVec]
      congr 1
      ext i
      fin_cases i <;> simp [R, Matrix.mulVec, dotProduct, Fin.sum_univ_three]
    · show ambient F (.vec (Rᵀ *ᵥ ![0, 1, 0])) = _
      rw [ambient_vec]
      congr 1
      ext i
      fin_cases i <;> simp [R, F, Matrix.mulVec, dotProduct, Fin.sum_univ_three]

/-- C135 is violated for frames that are not orthonormal: rotating a vector changes its length. -/
theorem C135_skew_violated (cfg : Cfg ℝ) : ∃ R, ∃ t t' : Tensor 3 ℝ,
    rotationMatrix .body [Real.pi / 2, 0, 0] ['X', 'Y', 'Z'] = .ok R ∧ t.frame.axes.det ≠ 0 ∧
    turn R t = .ok t' ∧
    inner2.eval cfg (fun _ => t) = .ok (.number 4) ∧ inner2.eval cfg (fun _ => t') = .ok (.number 1) := by
  let F : Mat 3 ℝ := !![1, 0, 0; 0, 2, 0; 0, 0, 1]
  let R : Mat 3 ℝ := !![1, 0, 0; 0, 0, 1; 0, -1, 0]
  refine ⟨R, ⟨.vec ![0, 1, 0], ⟨.rectangular, F⟩⟩, ⟨.vec (Rᵀ *ᵥ ![0, 1, 0]), ⟨.rectangular, F⟩⟩, quarter_turn,
    ?_, ?_, ?_, ?_⟩
  · simp [F, det_fin_three]
  · exact turn_ok R _ (by intro r x hx; cases hx) (by show 1 ≤ 13; omega)
  · have h : ambient F (.vec ![0, 1, 0]) = .vec ![0, 2, 0] := by
      rw [ambient_vec]
      congr 1
      ext i
      fin_cases i <;> simp [F, Matrix.mulVec, dotProduct, Fin.sum_univ_three]
    rw [inner2_eval cfg (fun _ => ⟨.vec ![0, 1, 0], ⟨.rectangular, F⟩⟩) ![0, 2, 0] ![0, 2, 0] _ _ rfl rfl h h]
    congr 2; simp [Fin.sum_univ_three]; norm_num
  · have h : ambient F (.vec (Rᵀ *ᵥ ![0, 1, 0])) = .vec ![0, 0, 1] := by
      rw [ambient_vec]
      congr 1
      ext i
      fin_cases i <;> simp [R, F, Matrix.mulVec, dotProduct, Fin.sum_univ_three]
    rw [inner2_eval cfg (fun _ => ⟨.vec (Rᵀ *ᵥ ![0, 1, 0]), ⟨.rectangular, F⟩⟩) ![0, 0, 1] ![0, 0, 1] _ _ rfl rfl
      h h]
    congr 2; simp [Fin.sum_univ_three]

/-! ### The hypotheses are met -/

/-- A term with everything in it, in a frame of its own. -/
example : FramesOrthonormal True
    (.add (.cross (.input 0) (.dot (.input 1) (.input 2) none none)
      (some ⟨.cartesian, !![0, 1, 0; -1, 0, 0; 0, 0, 1]⟩))
      (.mul (.neg (.input 0)) (.dot (.input 0) (.input 2) none none))) := by
  have h : (!![0, 1, 0; -1, 0, 0; 0, 0, 1] : Mat 3 ℝ) * (!![0, 1, 0; -1, 0, 0; 0, 0, 1] : Mat 3 ℝ)ᵀ = 1 := by
    ext i j
    fin_cases i <;> fin_cases j <;> simp [Matrix.mul_apply, Fin.sum_univ_three]
  simp only [FramesOrthonormal, Option.some.injEq, reduceCtorEq, false_implies, implies_true, and_true, true_and]
  rintro f rfl
  exact ⟨h, fun _ => by simp [det_fin_three]⟩

/-- Two vectors and a tensor in a frame that is not the ambient one can be turned by a right angle. -/
example : ∃ ts ts' : ℕ → Tensor 3 ℝ, (∀ k, (ts k).frame.axes = !![0, 1, 0; -1, 0, 0; 0, 0, 1]) ∧
    (∀ k, turn !![1, 0, 0; 0, 0, 1; 0, -1, 0] (ts k) = .ok (ts' k)) ∧
    (ts 0).comps = .vec ![1, 2, 3] ∧ (ts 1).comps = .ten2 !![1, 2, 3; 4, 5, 6; 7, 8, 9] ∧
    ∃ x, (ts 2).comps = .gen 4 x := by
  let f : Frame 3 ℝ := ⟨.cartesian, !![0, 1, 0; -1, 0, 0; 0, 0, 1]⟩
  let c : ℕ → Comps 3 ℝ := fun k => if k = 0 then .vec ![1, 2, 3] else
    if k = 1 then .ten2 !![1, 2, 3; 4, 5, 6; 7, 8, 9] else .gen 4 fun t => t 0
  refine ⟨fun k => ⟨c k, f⟩, fun k => ⟨(c k).transform _, f⟩, fun k => rfl, fun k => turn_ok _ _ ?_ ?_, rfl, rfl,
    _, rfl⟩
  · intro r x hx
    simp only [c] at hx
    split at hx
    · cases hx
    · split at hx
      · cases hx
      · cases hx; omega
  · simp only [c]
    split
    · show 1 ≤ 13; omega
    · split
      · show 2 ≤ 13; omega
      · show 4 ≤ 13; omega

/-- The same vector in two orthonormal right handed frames. -/
example : ∃ t t' : Tensor 3 ℝ, Means t' = Means t ∧ t.comps ≠ t'.comps ∧
    (t.frame.axes * t.frame.axesᵀ = 1 ∧ t.frame.axes.det = 1) ∧
    t'.frame.axes * t'.frame.axesᵀ = 1 ∧ t'.frame.axes.det = 1 := by
  refine ⟨⟨.vec ![1, 2, 3], ambientFrame⟩, ⟨.vec ![2, -1, 3], ⟨.cartesian, !![0, 1, 0; -1, 0, 0; 0, 0, 1]⟩⟩,
    ?_, ?_, ?_, ?_, ?_⟩
  · show ambient _ (.vec _) = ambient (1 : Mat 3 ℝ) (.vec _)
    rw [ambient_vec, ambient_vec, Matrix.transpose_one, one_mulVec]
    congr 1
    ext i
    fin_cases i <;> simp [Matrix.mulVec, dotProduct, Fin.sum_univ_three]
  · intro h
    injection h with h
    have := congrFun h 0
    norm_num at this
  · simp [ambientFrame]
  · ext i j
    fin_cases i <;> fin_cases j <;> simp [Matrix.mul_apply, Fin.sum_univ_three]
  · simp [det_fin_three]

end Verif.Rot.Props
