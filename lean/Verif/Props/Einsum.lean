import Verif.Proofs.Einsum
import Verif.Props.FrameTotal

/-!
# Tensors with more than two indices (C108)

`Stands c r x` says that the components `c` are the array `x` with `r` axes.
-/

set_option linter.unusedSectionVars false

namespace Verif.Frames.Props

open Matrix

section
variable {n : ℕ} {K : Type} [Field K] [LinearOrder K]

/-- The components of a vector, of a second order tensor or of a tensor with more indices as an array. -/
inductive Stands : Comps n K → (r : ℕ) → ((Fin r → Fin n) → K) → Prop
  | vec (v : Fin n → K) : Stands (.vec v) 1 fun t => v (t 0)
  | ten2 (A : Mat n K) : Stands (.ten2 A) 2 fun t => A (t 0) (t 1)
  | gen (r : ℕ) (x : (Fin r → Fin n) → K) (h : 3 ≤ r) : Stands (.gen r x) r x

theorem stands_ofArr (r : ℕ) (hr : 1 ≤ r) (x : (Fin r → Fin n) → K) :
    Stands (Comps.ofArr ⟨r, x⟩) r x := by
  match r, hr, x with
  | 1, _, x =>
    have : x = fun t => (fun i => x ![i]) (t 0) := by
      funext t
      congr 1
      funext k
      fin_cases k
      rfl
    rw [this]
    exact .vec _
  | 2, _, x =>
    have : x = fun t => (fun i j => x ![i, j]) (t 0) (t 1) := by
      funext t
      congr 1
      funext k
      fin_cases k <;> rfl
    rw [this]
    exact .ten2 _
  | r + 3, _, x => exact .gen _ _ (by omega)

theorem ofArr_gen (r : ℕ) (hr : 3 ≤ r) (x : (Fin r → Fin n) → K) : Comps.ofArr ⟨r, x⟩ = .gen r x := by
  match r, hr, x with
  | r + 3, _, x => rfl

theorem stands_toArr {c : Comps n K} {r : ℕ} {x : (Fin r → Fin n) → K} (h : Stands c r x) :
    c.toArr = ⟨r, x⟩ ∧ c.rank = r := by
  cases h <;> exact ⟨rfl, rfl⟩

/-- What stands for an array with other components has as many axes. -/
theorem stands_ambient {E : Mat n K} {c : Comps n K} {r : ℕ} {x : (Fin r → Fin n) → K}
    (h : Stands (ambient E c) r x) : ∃ y, Stands c r y := by
  cases c with
  | vec v => cases h; exact ⟨_, .vec v⟩
  | ten2 A => cases h; exact ⟨_, .ten2 A⟩
  | gen r' a => cases h with | gen _ _ h => exact ⟨_, .gen _ a h⟩

section
variable [NeZero n]

theorem transformL_ok (Q : Mat n K) {c : Comps n K} {r : ℕ} {x : (Fin r → Fin n) → K}
    (h : Stands c r x) (hr : r ≤ 13) : c.transformL Q = .ok (c.transform Q) := by
  cases h with
  | vec v => rfl
  | ten2 A => rfl
  | gen _ _ h3 =>
    show (do return Comps.ofArr (← transformLetters Q ⟨r, x⟩) : Py (Comps n K)) = _
    rw [transformLetters_ok Q r x hr]
    show Except.ok (Comps.ofArr _) = _
    rw [ofArr_gen r h3]
    rfl

theorem transformL_refused (Q : Mat n K) {c : Comps n K} {r : ℕ} {x : (Fin r → Fin n) → K}
    (h : Stands c r x) (hr : 13 < r) : c.transformL Q = .error .value := by
  cases h with
  | vec v => omega
  | ten2 A => omega
  | gen _ _ h3 =>
    show (do return Comps.ofArr (← transformLetters Q ⟨r, x⟩) : Py (Comps n K)) = _
    rw [transformLetters_refused Q r x hr]
    rfl

theorem showL_eq (cfg : Cfg K) (a : Tensor n K) {r : ℕ} {x : (Fin r → Fin n) → K}
    (h : Stands a.comps r x) (hr : r ≤ 13) (target : Option (Frame n K)) :
    a.showL cfg target = a.show cfg target := by
  unfold Tensor.showL Tensor.show showIn
  simp only [bind, Except.bind, pure, Except.pure]
  cases a.frame.dcmTarget cfg (target.getD ambientFrame) with
  | error e => rfl
  | ok Q => exact transformL_ok Q h hr

/-- Everything shown in the ambient frame. -/
theorem showL_none (cfg : Cfg K) (a : Tensor n K) {r : ℕ} {x : (Fin r → Fin n) → K}
    (h : Stands (Means a) r x) (hr : r ≤ 13) : a.showL cfg none = .ok (Means a) := by
  obtain ⟨y, hy⟩ := stands_ambient h
  rw [showL_eq cfg a hy hr]
  exact show_none cfg a

theorem axisOf_ok {r : ℕ} (k : Fin r) {i : ℤ} (h : i = k ∨ i = (k : ℤ) - r) :
    axisOf r i = .ok k := by
  have := k.isLt
  unfold axisOf
  rcases h with rfl | rfl
  · rw [if_pos (by omega)]
    simp
  · rw [if_neg (by omega), if_pos (by omega)]
    simp

theorem axisOf_refused {r : ℕ} {i : ℤ} (h : (r : ℤ) ≤ i ∨ i < -r) : axisOf r i = .error .index := by
  unfold axisOf
  rw [if_neg (by omega), if_neg (by omega)]

theorem rank_of_means {a : Tensor n K} {r : ℕ} {x : (Fin r → Fin n) → K} (h : Stands (Means a) r x) :
    a.comps.rank = r := by
  obtain ⟨y, hy⟩ := stands_ambient h
  exact (stands_toArr hy).2

end
end

section
variable {n : ℕ} {K : Type} [Field K] [LinearOrder K] [IsStrictOrderedRing K] [NeZero n]

/-- C108, partial: the components of a tensor with up to thirteen indices can be shown in every sound frame,
and they stand for the same tensor there.

Missing, because it is false (`C108_rank_violated`): more than thirteen indices. -/
theorem C108_show_partial (cfg : Cfg K) (ha : 0 ≤ cfg.atol) (hr : 0 ≤ cfg.rtol) (a : Tensor n K)
    (T : Frame n K) (hT : Sound T) (r : ℕ) (x : (Fin r → Fin n) → K) (hx : Stands (Means a) r x)
    (h13 : r ≤ 13) : ∃ d, a.showL cfg (some T) = .ok d ∧ ambient T.axes d = Means a := by
  obtain ⟨y, hy⟩ := stands_ambient hx
  obtain ⟨d, hd, -⟩ := C43_total cfg ha hr a.frame T hT a.comps
  rw [showL_eq cfg a hy h13]
  exact ⟨d, hd, show_some hT.2.2 hd⟩

theorem moveToL_total (cfg : Cfg K) (ha : 0 ≤ cfg.atol) (hr : 0 ≤ cfg.rtol) (a : Tensor n K)
    (frame : Option (Frame n K)) (hf : ∀ f, frame = some f → Sound f) (r : ℕ)
    (x : (Fin r → Fin n) → K) (hx : Stands (Means a) r x) (h13 : frame ≠ none → r ≤ 13) :
    ∃ t, a.moveToL cfg frame = .ok t ∧ Means t = Means a ∧ t.frame = frame.getD a.frame := by
  cases frame with
  | none => exact ⟨a, rfl, rfl, rfl⟩
  | some f =>
    obtain ⟨d, hd, h⟩ := C108_show_partial cfg ha hr a f (hf f rfl) r x hx (h13 (by simp))
    refine ⟨⟨d, f⟩, ?_, h, rfl⟩
    show (do return ⟨← a.showL cfg (some f), f⟩ : Py (Tensor n K)) = _
    rw [hd]
    rfl

theorem means_ambientFrame (c : Comps n K) : Means ⟨c, ambientFrame⟩ = c := by
  rw [Means, ambient_eq]
  show Comps.transform (1 : Mat n K)ᵀ c = c
  rw [Matrix.transpose_one, transform_one]

/-- What the contraction does up to the class of the result. -/
theorem dotGeneral_eq (cfg : Cfg K) (a b : Tensor n K) (frame : Option (Frame n K))
    (r s : ℕ) (x : (Fin (r + 1) → Fin n) → K) (y : (Fin (s + 1) → Fin n) → K)
    (hx : Stands (Means a) (r + 1) x) (hy : Stands (Means b) (s + 1) y) (hr : r ≤ 12) (hs : s ≤ 12)
    (ia : Fin (r + 1)) (ib : Fin (s + 1)) (i j : ℤ) (hi : i = ia ∨ i = (ia : ℤ) - (r + 1))
    (hj : j = ib ∨ j = (ib : ℤ) - (s + 1)) :
    dotGeneral cfg a b frame (some (i, j)) =
      (einsum (contractOperands ⟨r + 1, x⟩ ⟨s + 1, y⟩ ia ib)).bind
        (contractResult cfg a.comps frame) := by
  unfold dotGeneral
  simp only
  rw [rank_of_means hx, rank_of_means hy, axisOf_ok ia (by simpa using hi), axisOf_ok ib (by simpa using hj),
    showL_none cfg a hx (by omega), showL_none cfg b hy (by omega)]
  simp only [bind, Except.bind, (stands_toArr hx).1, (stands_toArr hy).1]

/-- C108, partial: with one of the tensors having more than two indices, `dot(a, b, axes=(i, j))` is the sum
over the `i`-th index of the first and the `j`-th of the second one, taken of what they stand for; the other
indices keep their order, those of the first tensor come first. Negative positions count from the end. The
result is given in the frame asked for, otherwise in the ambient frame; the frames in which `a` and `b` are
given do not matter.

Missing, because it is false: a vector as the first operand (`C108_vector_first_violated`), more than
thirteen indices (`C108_rank_violated`), also of a result that has to be given in a frame
(`C108_frame_violated`), and tensors for which there are not enough letters (`C108_letters`, documented). -/
theorem C108_contraction_partial (cfg : Cfg K) (ha : 0 ≤ cfg.atol) (hr : 0 ≤ cfg.rtol) (a b : Tensor n K)
    (frame : Option (Frame n K)) (hf : ∀ f, frame = some f → Sound f) (r s : ℕ)
    (x : (Fin (r + 1) → Fin n) → K) (y : (Fin (s + 1) → Fin n) → K)
    (hx : Stands (Means a) (r + 1) x) (hy : Stands (Means b) (s + 1) y) (h3 : 2 ≤ r ∨ 2 ≤ s)
    (hv : 1 ≤ r) (hra : r ≤ 12) (hsb : s ≤ 12) (h26 : r + s ≤ 23) (h13 : frame ≠ none → r + s ≤ 13)
    (ia : Fin (r + 1)) (ib : Fin (s + 1)) (i j : ℤ) (hi : i = ia ∨ i = (ia : ℤ) - (r + 1))
    (hj : j = ib ∨ j = (ib : ℤ) - (s + 1)) :
    ∃ t, dotGeneral cfg a b frame (some (i, j)) = .ok t ∧ t.frame = frame.getD ambientFrame ∧
      Stands (Means t) (r + s) fun u => ∑ c : Fin n,
        x (ia.insertNth c fun i => u (i.castAdd s)) * y (ib.insertNth c fun j => u (j.natAdd r)) := by
  have hst := stands_ofArr (r + s) (by omega) (contract x y ia ib)
  obtain ⟨t, ht, h1, h2⟩ := moveToL_total cfg ha hr
    ⟨Comps.ofArr ⟨r + s, contract x y ia ib⟩, ambientFrame⟩ frame hf (r + s) (contract x y ia ib)
    (by rw [means_ambientFrame]; exact hst) h13
  refine ⟨t, ?_, h2, ?_⟩
  · rw [dotGeneral_eq cfg a b frame r s x y hx hy hra hsb ia ib i j hi hj,
      contract_ok r s x y ia ib (by omega)]
    show contractResult cfg a.comps frame ⟨r + s, contract x y ia ib⟩ = _
    have hc := rank_of_means hx
    cases hc' : a.comps with
    | vec v => rw [hc'] at hc; simp only [Comps.rank] at hc; omega
    | ten2 A => exact ht
    | gen r x => exact ht
  · rw [h1, means_ambientFrame]
    exact hst

/-- C108: without axes the contraction is refused, and so it is with a position that does not exist. -/
theorem C108_axes_refused (cfg : Cfg K) (a b : Tensor n K) (frame : Option (Frame n K)) (r s : ℕ)
    (x : (Fin r → Fin n) → K) (y : (Fin s → Fin n) → K) (hx : Stands (Means a) r x)
    (hy : Stands (Means b) s y) :
    dotGeneral cfg a b frame none = .error .missingInput ∧
    ∀ i j : ℤ, ((r : ℤ) ≤ i ∨ i < -r ∨ (s : ℤ) ≤ j ∨ j < -s) →
      dotGeneral cfg a b frame (some (i, j)) = .error .index := by
  refine ⟨rfl, fun i j h => ?_⟩
  unfold dotGeneral
  simp only
  rw [rank_of_means hx, rank_of_means hy]
  by_cases h1 : (r : ℤ) ≤ i ∨ i < -r
  · rw [axisOf_refused h1]
    rfl
  · rw [axisOf_refused (r := s) (by omega)]
    unfold axisOf
    split_ifs <;> rfl

/-- C108 is violated for vectors as the first operand: every contraction of a vector with a tensor of more
indices raises, in this order. -/
theorem C108_vector_first_violated (cfg : Cfg K) (a b : Tensor n K) (frame : Option (Frame n K)) (s : ℕ)
    (X : Fin n → K) (y : (Fin (s + 1) → Fin n) → K) (hX : Means a = .vec X)
    (hy : Stands (Means b) (s + 1) y) (hs : s ≤ 12) (ib : Fin (s + 1)) :
    dotGeneral cfg a b frame (some (0, ib)) = .error .notImplemented := by
  have hx : Stands (Means a) 1 fun t => X (t 0) := hX ▸ .vec X
  rw [dotGeneral_eq cfg a b frame 0 s _ y hx hy (by omega) hs 0 ib 0 ib (.inl rfl) (.inl rfl),
    contract_ok 0 s _ y 0 ib (by omega)]
  have hc := rank_of_means hx
  show contractResult cfg a.comps frame ⟨0 + s, _⟩ = _
  cases hc' : a.comps with
  | vec v => rfl
  | ten2 A => rw [hc'] at hc; simp [Comps.rank] at hc
  | gen r' x =>
    rw [Means, hc'] at hX
    cases hX

/-- C108 is violated for more than thirteen indices: the components cannot be shown in any frame, and nothing
can be contracted. -/
theorem C108_rank_violated (cfg : Cfg K) (ha : 0 ≤ cfg.atol) (hr : 0 ≤ cfg.rtol) (a : Tensor n K) (r : ℕ)
    (x : (Fin r → Fin n) → K) (hx : Stands (Means a) r x) (h13 : 13 < r) :
    (∀ T, Sound T → a.showL cfg (some T) = .error .value) ∧
    ∀ (b : Tensor n K) (frame : Option (Frame n K)) (i : Fin r) (j : Fin b.comps.rank),
      dotGeneral cfg a b frame (some ((i : ℤ), (j : ℤ))) = .error .value := by
  obtain ⟨y, hy⟩ := stands_ambient hx
  constructor
  · intro T hT
    obtain ⟨D, hD, -⟩ := dual_total cfg ha hr T hT
    unfold Tensor.showL
    rw [Option.getD_some, dcmTarget_eq, hD]
    exact transformL_refused _ hy h13
  · intro b frame i j
    unfold dotGeneral
    simp only
    rw [(stands_toArr hy).2, axisOf_ok i (.inl rfl), axisOf_ok j (.inl rfl)]
    have : a.showL cfg none = .error .value := by
      have h := show_none cfg a
      unfold Tensor.show showIn at h
      unfold Tensor.showL
      simp only [bind, Except.bind] at h ⊢
      cases hd : a.frame.dcmTarget cfg ((none : Option (Frame n K)).getD ambientFrame) with
      | error e => rw [hd] at h; cases h
      | ok Q => exact transformL_refused _ hy h13
    rw [this]
    rfl

/-- C108: the documented limit: the indices of both tensors and the one for the sum need letters. -/
theorem C108_letters (cfg : Cfg K) (a b : Tensor n K) (frame : Option (Frame n K)) (r s : ℕ)
    (x : (Fin (r + 1) → Fin n) → K) (y : (Fin (s + 1) → Fin n) → K)
    (hx : Stands (Means a) (r + 1) x) (hy : Stands (Means b) (s + 1) y) (hra : r ≤ 12) (hsb : s ≤ 12)
    (h26 : 26 < (r + 1) + (s + 1) + 1) (ia : Fin (r + 1)) (ib : Fin (s + 1)) :
    dotGeneral cfg a b frame (some ((ia : ℤ), (ib : ℤ))) = .error .value := by
  rw [dotGeneral_eq cfg a b frame r s x y hx hy hra hsb ia ib _ _ (.inl rfl) (.inl rfl),
    contract_refused r s x y ia ib (by omega)]
  rfl

/-- C108 is violated for results with more than thirteen indices: without a frame they are returned, but they
cannot be asked for in a frame. -/
theorem C108_frame_violated (cfg : Cfg K) (ha : 0 ≤ cfg.atol) (hr : 0 ≤ cfg.rtol) (a b : Tensor n K)
    (f : Frame n K) (hf : Sound f) (r s : ℕ)
    (x : (Fin (r + 1) → Fin n) → K) (y : (Fin (s + 1) → Fin n) → K)
    (hx : Stands (Means a) (r + 1) x) (hy : Stands (Means b) (s + 1) y) (hra : r ≤ 12) (hsb : s ≤ 12)
    (h26 : r + s ≤ 23) (h13 : 13 < r + s) (ia : Fin (r + 1)) (ib : Fin (s + 1)) :
    dotGeneral cfg a b (some f) (some ((ia : ℤ), (ib : ℤ))) = .error .value ∧
    ∃ t, dotGeneral cfg a b none (some ((ia : ℤ), (ib : ℤ))) = .ok t := by
  refine ⟨?_, ?_⟩
  · rw [dotGeneral_eq cfg a b (some f) r s x y hx hy hra hsb ia ib _ _ (.inl rfl) (.inl rfl),
      contract_ok r s x y ia ib (by omega)]
    have hst := stands_ofArr (r + s) (by omega) (contract x y ia ib)
    have h := (C108_rank_violated cfg ha hr ⟨Comps.ofArr ⟨r + s, contract x y ia ib⟩, ambientFrame⟩ (r + s)
      (contract x y ia ib) (by rw [means_ambientFrame]; exact hst) h13).1 f hf
    have hm : (⟨Comps.ofArr ⟨r + s, contract x y ia ib⟩, ambientFrame⟩ : Tensor n K).moveToL cfg (some f) =
        .error .value := by
      show (do return ⟨← Tensor.showL cfg _ (some f), f⟩ : Py (Tensor n K)) = _
      rw [h]
      rfl
    show contractResult cfg a.comps (some f) ⟨r + s, contract x y ia ib⟩ = _
    have hc := rank_of_means hx
    cases hc' : a.comps with
    | vec v => rw [hc'] at hc; simp only [Comps.rank] at hc; omega
    | ten2 A => exact hm
    | gen r x => exact hm
  · obtain ⟨t, ht, -⟩ := C108_contraction_partial cfg ha hr a b none (by simp) r s x y hx hy (by omega)
      (by omega) hra hsb h26 (by simp) ia ib _ _ (.inl rfl) (.inl rfl)
    exact ⟨t, ht⟩

end

/-! ## Examples -/

/-- A frame with axes that are not perpendicular. -/
def exSkew : Frame 2 ℚ := ⟨.reference, !![1, 1; 0, 1]⟩

/-- A tensor with three indices: `t 0 + 2 t 1 + 4 t 2`. -/
def exT3 : Tensor 2 ℚ :=
  ⟨.gen 3 fun t => ((t 0).val : ℚ) + 2 * (t 1).val + 4 * (t 2).val, exSkew⟩

/-- The hypotheses on the tensors. -/
example : Stands (Means exT3) 3 (fun t => ∑ s : Fin 3 → Fin 2,
    (((s 0).val : ℚ) + 2 * (s 1).val + 4 * (s 2).val) * ∏ k, exSkew.axes (s k) (t k)) ∧
    Stands (Means (⟨.vec ![1, 2], exSkew⟩ : Tensor 2 ℚ)) 1
      (fun t => (fun i => ∑ j, (![1, 2] : Fin 2 → ℚ) j * exSkew.axes j i) (t 0)) ∧ Sound exSkew := by
  refine ⟨.gen _ _ (by omega), .vec _, ?_, (fun h => by cases h), (fun h => by cases h)⟩
  show Matrix.det _ ≠ 0
  simp [exSkew, Matrix.det_fin_two_of]

/-- The last index of the tensor and a vector: a second order tensor. -/
example : ∃ t, dotGeneral npCfg exT3 ⟨.vec ![1, 2], exSkew⟩ none (some (-1, 0)) = .ok t ∧
    ∃ A, t.comps = .ten2 A := by
  obtain ⟨t, ht, hf, hs⟩ := C108_contraction_partial npCfg (by norm_num [npCfg]) (by norm_num [npCfg]) exT3
    ⟨.vec ![1, 2], exSkew⟩ none (by simp) 2 0 _ _ (.gen _ _ (by omega)) (.vec _) (by omega) (by omega)
    (by omega) (by omega) (by omega) (by simp) 2 0 (-1) 0 (.inr rfl) (.inl rfl)
  obtain ⟨y, hy⟩ := stands_ambient hs
  refine ⟨t, ht, ?_⟩
  generalize t.comps = c at hy
  cases hy with
  | ten2 A => exact ⟨A, rfl⟩
  | gen _ _ h => omega

end Verif.Frames.Props
