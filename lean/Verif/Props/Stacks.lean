import Verif.Model.Stacks
import Verif.Proofs.Utils
import Verif.Proofs.Frames
import Mathlib.Data.List.GetD
import Mathlib.Data.List.FinRange
import Mathlib.LinearAlgebra.Matrix.Notation
import Mathlib.Tactic.FinCases
import Mathlib.Tactic.NormNum

/-!
# Properties of stacks of vectors, frames and tensors (C79, C80, C81)
-/

set_option linter.unusedSectionVars false

namespace Verif.Stacks.Props
open Verif Verif.Utils Verif.Frames Verif.Stacks Matrix

variable {n : ℕ} {K : Type} [Field K] [LinearOrder K]

/-! ### C79: showing a stack shows each member -/

theorem range_map_getD {α β : Type} (g : α → β) (d : α) (xs : List α) :
    (List.range xs.length).map (fun (i : ℕ) => g (xs.getD i d)) = xs.map g := by
  apply List.ext_getElem
  · simp
  · intro i h1 h2
    have hi : i < xs.length := by simpa using h1
    simp [hi]

theorem showVectors_eq {sched : List ℕ} (vs : List (Fin n → K)) (hs : IsSchedule vs.length sched)
    (Q : Mat n K) : showVectors sched Q vs = vs.map fun v => Q *ᵥ v := by
  unfold showVectors
  rw [foldl_set_schedule (fun i => Q *ᵥ (vs.getD i 0)) hs _ (by simp)]
  exact range_map_getD (fun v => Q *ᵥ v) 0 vs

theorem showVectorsMulti_get {sched : List ℕ} (vs : List (Fin n → K))
    (hs : IsSchedule vs.length sched) (junk : Mat n K) (Qs : List (Mat n K)) :
    showVectorsMulti sched junk Qs vs =
      (List.range vs.length).map fun (i : ℕ) => Qs.getD i junk *ᵥ vs.getD i 0 := by
  unfold showVectorsMulti
  exact foldl_set_schedule (fun i => (Qs.getD i junk) *ᵥ (vs.getD i 0)) hs _ (by simp)

/-- C79: a single vector and a single matrix. -/
theorem C79_vector (sched : List ℕ) (junk Q : Mat n K) (v : Fin n → K) :
    showVector sched junk .float .float (.one Q) (.one v) = .ok (.one (Q *ᵥ v)) := rfl

/-- C79: a stack of vectors and a single matrix; every member is transformed, whatever the order of
the loop. -/
theorem C79_vectors (sched : List ℕ) (junk Q : Mat n K) (vs : List (Fin n → K))
    (hs : IsSchedule vs.length sched) :
    showVector sched junk .float .float (.one Q) (.many vs) = .ok (.many (vs.map fun v => Q *ᵥ v)) := by
  unfold showVector
  simp only [and_self, if_true]
  rw [showVectors_eq vs hs Q]

/-- C79: a stack of vectors and a matrix for every vector. -/
theorem C79_vectors_multi (sched : List ℕ) (junk : Mat n K) (Qs : List (Mat n K))
    (vs : List (Fin n → K)) (hs : IsSchedule vs.length sched) (hl : Qs.length = vs.length) :
    showVector sched junk .float .float (.many Qs) (.many vs) =
      .ok (.many (List.zipWith (fun Q v => Q *ᵥ v) Qs vs)) := by
  unfold showVector
  simp only [and_self, if_true]
  rw [showVectorsMulti_get vs hs junk Qs]
  congr 2
  apply List.ext_getElem
  · simp [hl]
  · intro i h1 h2
    have hi : i < vs.length := by simpa using h1
    simp [hi, hl]

/-- C79: everything else is refused. -/
theorem C79_refused (sched : List ℕ) (junk : Mat n K) (dq da : DType) :
    (∀ (Qs : List (Mat n K)) (v : Fin n → K),
      showVector sched junk dq da (.many Qs) (.one v) = .error .generic) ∧
    (∀ dcm : Arg (Mat n K), showVector sched junk dq da dcm .other = .error .generic) ∧
    (∀ arr : Arg (Fin n → K), showVector sched junk dq da .other arr = .error .generic) ∧
    (∀ (Q : Mat n K) (v : Fin n → K), dq = .int ∨ da = .int →
      showVector sched junk dq da (.one Q) (.one v) = .error .type) := by
  refine ⟨fun _ _ => rfl, fun dcm => ?_, fun arr => ?_, fun Q v h => ?_⟩
  · cases dcm <;> rfl
  · cases arr <;> rfl
  · unfold showVector
    rcases h with h | h <;> simp [h]

/-- C79 is violated: fewer matrices than vectors are not noticed, the result is made from memory behind
the array. -/
theorem C79_short_stack_violated (sched : List ℕ) (junk : Mat n K) (Qs : List (Mat n K))
    (vs : List (Fin n → K)) (hs : IsSchedule vs.length sched) (i : ℕ) (hi : Qs.length ≤ i)
    (hi' : i < vs.length) :
    ∃ ws : List (Fin n → K), showVector sched junk .float .float (.many Qs) (.many vs) = .ok (.many ws) ∧
      ws[i]? = some (junk *ᵥ vs[i]) := by
  refine ⟨showVectorsMulti sched junk Qs vs, ?_, ?_⟩
  · unfold showVector
    simp
  · rw [showVectorsMulti_get vs hs]
    simp [hi', List.getElem?_eq_none hi]

theorem showFrame1_row (rows : List (Fin n)) (Q A init : Mat n K) (i : Fin n) :
    (rows.foldl (fun res i => res.updateRow i (Q *ᵥ A i)) init) i =
      if i ∈ rows then Q *ᵥ A i else init i := by
  induction rows generalizing init with
  | nil => simp
  | cons j js ih =>
    rw [List.foldl_cons, ih]
    by_cases h : i ∈ js
    · simp [h]
    · rw [if_neg h]
      by_cases hij : i = j
      · subst hij
        simp [Matrix.updateRow_self]
      · rw [Matrix.updateRow_ne hij]
        simp [h, hij]

theorem showFrame1_eq (rows : List (Fin n)) (hr : rows.Perm (List.finRange n)) (Q A : Mat n K) :
    showFrame1 rows Q A = Matrix.of fun i => Q *ᵥ A i := by
  funext i
  unfold showFrame1
  rw [showFrame1_row, if_pos (by rw [hr.mem_iff]; exact List.mem_finRange i)]
  rfl

/-- C79: the base vectors, the rows of the array, are transformed: a single frame, a stack of frames
with one matrix, a stack of frames with a matrix for every frame. -/
theorem C79_frames (sched : List ℕ) (rows : List (Fin n)) (hr : rows.Perm (List.finRange n))
    (junk : Mat n K) :
    (∀ Q A : Mat n K, ∃ B : Mat n K, showFrame sched rows junk (.one Q) (.one A) = .ok (.one B) ∧
      ∀ i, B i = Q *ᵥ A i) ∧
    (∀ (Q : Mat n K) (As : List (Mat n K)), IsSchedule As.length sched →
      ∃ Bs : List (Mat n K), showFrame sched rows junk (.one Q) (.many As) = .ok (.many Bs) ∧
        List.Forall₂ (fun A B => ∀ i, B i = Q *ᵥ A i) As Bs) ∧
    (∀ (Qs As : List (Mat n K)), IsSchedule As.length sched → Qs.length = As.length →
      ∃ Bs : List (Mat n K), showFrame sched rows junk (.many Qs) (.many As) = .ok (.many Bs) ∧
        List.Forall₂ (fun (QA : Mat n K × Mat n K) (B : Mat n K) => ∀ i, B i = QA.1 *ᵥ QA.2 i)
          (Qs.zip As) Bs) := by
  refine ⟨fun Q A => ⟨_, rfl, fun i => ?_⟩, fun Q As hs => ⟨_, rfl, ?_⟩, fun Qs As hs hl => ⟨_, rfl, ?_⟩⟩
  · rw [showFrame1_eq rows hr]
    rfl
  · have e : showFrames sched rows Q As = As.map fun A => Matrix.of fun i => Q *ᵥ A i := by
      unfold showFrames
      rw [foldl_set_schedule (fun i => showFrame1 rows Q (As.getD i 0)) hs _ (by simp)]
      rw [range_map_getD (fun A => showFrame1 rows Q A) 0 As]
      exact List.map_congr_left fun A _ => showFrame1_eq rows hr Q A
    rw [e, List.forall₂_map_right_iff]
    exact List.forall₂_same.2 fun A _ i => rfl
  · have e : showFramesMulti sched rows junk Qs As =
        (Qs.zip As).map fun QA => Matrix.of fun i => QA.1 *ᵥ QA.2 i := by
      unfold showFramesMulti
      rw [foldl_set_schedule (fun i => showFrame1 rows (Qs.getD i junk) (As.getD i 0)) hs _ (by simp)]
      apply List.ext_getElem
      · simp [hl]
      · intro i h1 h2
        have hi : i < As.length := by simpa using h1
        simp [hi, hl, showFrame1_eq rows hr]
    rw [e, List.forall₂_map_right_iff]
    exact List.forall₂_same.2 fun A _ i => rfl

/-- C79: transposing a stack transposes its members. -/
theorem C79_transpose (sched : List ℕ) (As : List (Mat n K)) (hs : IsSchedule As.length sched) :
    transposeAxes sched (.many As) = .ok (.many (As.map Matrix.transpose)) := by
  unfold transposeAxes
  simp only
  rw [foldl_set_schedule (fun i => (As.getD i 0).transpose) hs _ (by simp)]
  rw [range_map_getD (fun A => A.transpose) 0 As]

/-- The axes of the frame of the `i`-th member. -/
def frameOf (F : Axes n K) (i : ℕ) : Mat n K :=
  match F with
  | .one A => A
  | .many As => As.getD i 0

/-- One frame for all, or a frame for each of the `N` members. -/
def Fits (N : ℕ) : Axes n K → Prop
  | .one _ => True
  | .many As => As.length = N

theorem invAll_ok (As : List (Mat n K)) (h : ∀ A ∈ As, A.det ≠ 0) :
    ∃ Bs, invAll As = .ok Bs ∧ List.Forall₂ (fun A B => A * B = 1 ∧ B * A = 1) As Bs := by
  induction As with
  | nil => exact ⟨[], rfl, .nil⟩
  | cons A As ih =>
    obtain ⟨B, hB⟩ := inv_exists (h A (List.mem_cons_self ..))
    obtain ⟨Bs, hBs, hf⟩ := ih fun A hA => h A (List.mem_cons_of_mem _ hA)
    refine ⟨B :: Bs, ?_, .cons ⟨(inv_ok hB).2.1, (inv_ok hB).2.2⟩ hf⟩
    unfold invAll
    rw [hB, hBs]
    rfl

theorem dual_ok (N : ℕ) (T : Axes n K) (hT : Fits N T) (hd : ∀ i < N, (frameOf T i).det ≠ 0)
    (hN : 0 < N) :
    ∃ D : Axes n K, T.dual = .ok D ∧ Fits N D ∧
      ∀ i < N, (frameOf T i) * (frameOf D i)ᵀ = 1 := by
  cases T with
  | one A =>
    obtain ⟨B, hB⟩ := inv_exists (hd 0 hN)
    refine ⟨.one Bᵀ, ?_, trivial, fun i _ => ?_⟩
    · dsimp only [Axes.dual]
      rw [show inv A = .ok B from hB]
      rfl
    · show A * Bᵀᵀ = 1
      rw [transpose_transpose]
      exact (inv_ok hB).2.1
  | many As =>
    have hl : As.length = N := hT
    obtain ⟨Bs, hBs, hf⟩ := invAll_ok As (by
      intro A hA
      obtain ⟨i, hi, rfl⟩ := List.getElem_of_mem hA
      have := hd i (hl ▸ hi)
      simpa [frameOf, hi] using this)
    refine ⟨.many (Bs.map Matrix.transpose), ?_, ?_, fun i hi => ?_⟩
    · dsimp only [Axes.dual]
      rw [hBs]
      rfl
    · show (Bs.map _).length = N
      rw [List.length_map, ← hf.length_eq, hl]
    · have hi1 : i < As.length := hl ▸ hi
      have hi2 : i < Bs.length := hf.length_eq ▸ hi1
      have := (List.forall₂_iff_get.1 hf).2 i hi1 hi2
      show As.getD i 0 * ((Bs.map Matrix.transpose).getD i 0)ᵀ = 1
      simpa [hi1, hi2] using this.1

theorem matmul_ok (N : ℕ) (A B : Axes n K) (hA : Fits N A) (hB : Fits N B) :
    ∃ C : Axes n K, A.matmul B = .ok C ∧ Fits N C ∧
      ∀ i < N, frameOf C i = frameOf A i * frameOf B i := by
  cases A with
  | one A =>
    cases B with
    | one B => exact ⟨.one (A * B), rfl, trivial, fun _ _ => rfl⟩
    | many Bs =>
      have hl : Bs.length = N := hB
      refine ⟨.many (Bs.map fun B => A * B), rfl, by simpa [Fits] using hl, fun i hi => ?_⟩
      have : i < Bs.length := hl ▸ hi
      simp [frameOf, this]
  | many As =>
    have hlA : As.length = N := hA
    cases B with
    | one B =>
      refine ⟨.many (As.map fun A => A * B), rfl, by simpa [Fits] using hlA, fun i hi => ?_⟩
      have : i < As.length := hlA ▸ hi
      simp [frameOf, this]
    | many Bs =>
      have hlB : Bs.length = N := hB
      refine ⟨.many (List.zipWith (fun A B => A * B) As Bs), ?_, ?_, fun i hi => ?_⟩
      · dsimp only [Axes.matmul]
        rw [if_pos (hlA.trans hlB.symm)]
      · simp [Fits, hlA, hlB]
      · have h1 : i < As.length := hlA ▸ hi
        have h2 : i < Bs.length := hlB ▸ hi
        simp [frameOf, h1, h2]

/-- C79: showing a stack of vectors, in one frame or each in its own, in a target frame or a stack of
target frames: the new components of every member, expanded in its target frame, are the old components
expanded in its frame. -/
theorem C79_show (sched : List ℕ) (junk : Mat n K) (v : VStack n K)
    (hs : IsSchedule v.members.length sched) (target : Option (Axes n K)) (hN : v.members ≠ [])
    (hS : Fits v.members.length v.axes) (hT : ∀ T ∈ target, Fits v.members.length T)
    (hd : ∀ T ∈ target, ∀ i < v.members.length, (frameOf T i).det ≠ 0) :
    ∃ ws : List (Fin n → K), v.show sched junk target = .ok (.many ws) ∧
      ws.length = v.members.length ∧
      ∀ (i : ℕ) (h : i < v.members.length) (h' : i < ws.length),
        ws[i] ᵥ* frameOf (target.getD (.one 1)) i = v.members[i] ᵥ* frameOf v.axes i := by
  set T : Axes n K := target.getD (.one 1) with hTdef
  have hN' : 0 < v.members.length := List.length_pos_iff.2 hN
  have hT' : Fits v.members.length T := by
    cases target with
    | none => trivial
    | some T => exact hT T rfl
  have hd' : ∀ i < v.members.length, (frameOf T i).det ≠ 0 := by
    cases target with
    | none =>
      intro i _
      show (1 : Mat n K).det ≠ 0
      rw [det_one]
      exact one_ne_zero
    | some T => exact hd T rfl
  obtain ⟨D, hD, hDf, hDi⟩ := dual_ok _ T hT' hd' hN'
  have hSt : Fits v.members.length v.axes.transpose ∧
      ∀ i < v.members.length, frameOf v.axes.transpose i = (frameOf v.axes i)ᵀ := by
    cases hax : v.axes with
    | one A => exact ⟨trivial, fun _ _ => rfl⟩
    | many As =>
      rw [hax] at hS
      have hl : As.length = v.members.length := hS
      refine ⟨by simpa [Fits, Axes.transpose] using hl, fun i hi => ?_⟩
      have : i < As.length := hl ▸ hi
      simp [Axes.transpose, frameOf, this]
  obtain ⟨C, hC, hCf, hCi⟩ := matmul_ok _ D v.axes.transpose hDf hSt.1
  have hdcm : dcmTarget v.axes T = .ok C := by
    unfold dcmTarget
    rw [hD]
    exact hC
  have key : ∀ i (h : i < v.members.length),
      (frameOf C i *ᵥ v.members[i]) ᵥ* frameOf T i = v.members[i] ᵥ* frameOf v.axes i := by
    intro i hi
    rw [hCi i hi, hSt.2 i hi, ← mulVec_mulVec, mulVec_transpose]
    rw [← mulVec_transpose, mulVec_mulVec]
    have h1 : (frameOf T i)ᵀ * frameOf D i = 1 := by
      have := hDi i hi
      have h2 := mul_eq_one_comm.1 this
      have h3 := congrArg Matrix.transpose h2
      rwa [transpose_mul, transpose_transpose, transpose_one] at h3
    rw [h1, one_mulVec]
  have hshow : v.show sched junk target = showVector sched junk .float .float C.arg (.many v.members) := by
    unfold VStack.show
    rw [← hTdef, hdcm]
    rfl
  rw [hshow]
  cases hCc : C with
  | one Q =>
    refine ⟨_, C79_vectors sched junk Q _ hs, by simp, fun i h h' => ?_⟩
    rw [List.getElem_map]
    have := key i h
    rw [hCc] at this
    exact this
  | many Qs =>
    rw [hCc] at hCf
    have hl : Qs.length = v.members.length := hCf
    refine ⟨_, C79_vectors_multi sched junk Qs _ hs hl, by simp [hl], fun i h h' => ?_⟩
    rw [List.getElem_zipWith]
    have := key i h
    rw [hCc] at this
    have hQ : i < Qs.length := hl ▸ h
    have e : frameOf (.many Qs) i = Qs[i] := by
      simp [frameOf, hQ]
    rw [e] at this
    exact this

/-- C79: a singular target frame raises an exception. -/
theorem C79_singular (sched : List ℕ) (junk : Mat n K) (v : VStack n K) (T : Mat n K)
    (h : T.det = 0) : v.show sched junk (some (.one T)) = .error .linalg := by
  unfold VStack.show dcmTarget Axes.dual
  simp only [Option.getD_some]
  rw [inv_singular h]
  rfl

/-- C79 is violated: a stack of one frame does not serve several vectors; the second vector is
multiplied by what is behind the array. -/
theorem C79_one_frame_violated :
    let v : VStack 1 ℚ := ⟨[![1], ![1]], .many [1]⟩
    ∀ junk : Mat 1 ℚ, ∃ ws : List (Fin 1 → ℚ), v.show [0, 1] junk none = .ok (.many ws) ∧
      ws[1]? = some (junk *ᵥ ![1]) := by
  intro v junk
  have hd : dcmTarget v.axes (.one 1) = .ok (.many [1]) := by
    unfold dcmTarget Axes.dual
    simp only [inv_of_mul_eq_one (mul_one (1 : Mat 1 ℚ))]
    show Except.ok (Axes.many [(1 : Mat 1 ℚ)ᵀ * (1 : Mat 1 ℚ)ᵀ]) = _
    rw [transpose_one, mul_one]
  obtain ⟨ws, h1, h2⟩ := C79_short_stack_violated [0, 1] junk [1] [![1], ![1]] (List.Perm.refl _) 1
    (le_refl _) (by decide)
  refine ⟨ws, ?_, h2⟩
  rw [← h1]
  unfold VStack.show
  simp only [Option.getD_none]
  rw [hd]
  rfl

/-- Two vectors in the frame with the rows `(1, 1)` and `(0, 1)`, shown in the ambient frame. -/
example : (⟨[![1, 0], ![1, 2]], .one !![1, 1; 0, 1]⟩ : VStack 2 ℚ).members ≠ [] ∧
    IsSchedule 2 [1, 0] ∧ Fits 2 (Axes.one (!![1, 1; 0, 1] : Mat 2 ℚ)) :=
  ⟨by simp, List.Perm.swap 0 1 [], trivial⟩

/-! ### C80: operations on a stack act on each member -/

/-- C80: turning a stack of vectors by a given matrix turns each of them. -/
theorem C80_orient_matrix (sched : List ℕ) (v : VStack n K) (Q : Mat n K)
    (hs : IsSchedule v.members.length sched) :
    (v.orientDcm sched Q).members = (v.members.map fun x => Qᵀ *ᵥ x) ∧
      (v.orientDcm sched Q).axes = v.axes :=
  ⟨showVectors_eq _ hs _, rfl⟩

/-- C80, partial: rotating three vectors rotates each of them.  Missing, because it is refused: any
other number of vectors (`C80_orient_refused`). -/
theorem C80_orient_partial (sched : List ℕ) (v : VStack 3 K) (R : Mat 3 K)
    (hs : IsSchedule v.members.length sched) (h3 : v.members.length = 3) :
    v.orient sched R = .ok ⟨v.members.map fun x => Rᵀ *ᵥ x, v.axes⟩ := by
  unfold VStack.orient rotationFor
  rw [if_pos h3]
  show Except.ok (VStack.mk (showVectors sched Rᵀ v.members) v.axes) = _
  rw [showVectors_eq _ hs]

/-- C80 is violated: stacks of other than three vectors cannot be rotated. -/
theorem C80_orient_refused (sched : List ℕ) (v : VStack 3 K) (R : Mat 3 K)
    (h3 : v.members.length ≠ 3) :
    v.orient sched R = .error .value ∧ v.orientNew R = .error .value := by
  unfold VStack.orient VStack.orientNew rotationFor
  rw [if_neg h3]
  exact ⟨rfl, rfl⟩

/-- C80 is violated: `orient_new` of three vectors mixes the vectors instead of rotating them; the
result is not the one of `orient`. -/
theorem C80_orient_new_violated :
    let v : VStack 3 ℚ := ⟨[![1, 0, 0], ![0, 0, 0], ![0, 0, 0]], .one 1⟩
    let R : Mat 3 ℚ := !![0, 1, 0; -1, 0, 0; 0, 0, 1]
    ∃ w w' : VStack 3 ℚ, v.orient [0, 1, 2] R = .ok w ∧ v.orientNew R = .ok w' ∧
      w.members = [![0, 1, 0], 0, 0] ∧ w'.members = [0, ![1, 0, 0], 0] := by
  intro v R
  refine ⟨_, _, C80_orient_partial [0, 1, 2] v R (List.Perm.refl _) rfl, rfl, ?_, ?_⟩
  · decide +kernel
  · decide +kernel

/-- C80 is violated: the dual description of a stack of vectors is refused, unless there are as many
vectors as dimensions. -/
theorem C80_dual_refused (v : VStack n K) (A : Mat n K) (ha : v.axes = .one A)
    (hn : v.members.length ≠ n) : v.dual = .error .value := by
  unfold VStack.dual
  rw [ha]
  simp only
  unfold matmulRows
  rw [if_neg hn]
  rfl

/-- C80 is violated: with as many vectors as dimensions, `dual` mixes the vectors: the dual description
of the first vector, `(1, 0)` in the frame with rows `(1, 1)` and `(0, 1)`, represents `(2, 0)` instead
of `(1, 1)`. -/
theorem C80_dual_violated :
    let v : VStack 2 ℚ := ⟨[![1, 0], ![0, 0]], .one !![1, 1; 0, 1]⟩
    ∃ w : VStack 2 ℚ, v.dual = .ok w ∧ w.members.head? = some ![2, 0] ∧
      w.axes = .one !![1, 0; -1, 1] ∧
      ![2, 0] ᵥ* (!![1, 0; -1, 1] : Mat 2 ℚ) ≠ ![1, 0] ᵥ* (!![1, 1; 0, 1] : Mat 2 ℚ) := by
  intro v
  have hi : inv (!![1, 1; 0, 1] : Mat 2 ℚ) = .ok !![1, -1; 0, 1] := by
    apply inv_of_mul_eq_one
    decide +kernel
  refine ⟨⟨[![2, 0], ![1, 0]], .one !![1, 0; -1, 1]⟩, ?_, rfl, rfl, by decide +kernel⟩
  have hm : matmulRows ((!![1, 1; 0, 1] : Mat 2 ℚ) * (!![1, 1; 0, 1] : Mat 2 ℚ)ᵀ)
      [![1, 0], ![0, 0]] = .ok [![2, 0], ![1, 0]] := by
    unfold matmulRows
    rw [if_pos (by rfl)]
    refine congrArg Except.ok ?_
    decide +kernel
  have ht : (!![1, -1; 0, 1] : Mat 2 ℚ)ᵀ = !![1, 0; -1, 1] := by decide +kernel
  dsimp only [VStack.dual, v, Axes.dual]
  rw [hm, hi, ← ht]
  rfl

theorem transformStack_eq {sched : List ℕ} (As : List (Mat n K)) (hs : IsSchedule As.length sched)
    (Q : Mat n K) : transformStack sched Q As = As.map fun A => Q * A * Qᵀ := by
  unfold transformStack
  rw [foldl_set_schedule (fun i => Q * (As.getD i 0) * Qᵀ) hs _ (by simp)]
  exact range_map_getD (fun A => Q * A * Qᵀ) 0 As

/-- C80: showing a stack of second order tensors: the new components of every member, expanded in the
target frame, are the old components expanded in the frame. -/
theorem C80_tensor_show (sched : List ℕ) (t : TStack n K) (hs : IsSchedule t.members.length sched)
    (target : Option (Mat n K)) (hd : ∀ T ∈ target, T.det ≠ 0) :
    ∃ Bs : List (Mat n K), t.show sched target = .ok Bs ∧
      List.Forall₂ (fun A B => (target.getD 1)ᵀ * B * target.getD 1 = t.axesᵀ * A * t.axes)
        t.members Bs := by
  set T := target.getD 1 with hT
  have hdet : T.det ≠ 0 := by
    cases target with
    | none => rw [hT]; simp
    | some T => exact hd T rfl
  obtain ⟨B, hB⟩ := inv_exists hdet
  have h1 : Tᵀ * Bᵀ = 1 := by
    have := congrArg Matrix.transpose (inv_ok hB).2.2
    rwa [transpose_mul, transpose_one] at this
  refine ⟨_, by dsimp only [TStack.show]; rw [← hT, hB]; rfl, ?_⟩
  rw [transformStack_eq _ hs, List.forall₂_map_right_iff]
  refine List.forall₂_same.2 fun A _ => ?_
  rw [transpose_mul, transpose_transpose, transpose_transpose]
  have e : Tᵀ * (Bᵀ * t.axesᵀ * A * (t.axes * B)) * T =
      (Tᵀ * Bᵀ) * (t.axesᵀ * A * t.axes) * (B * T) := by
    simp only [Matrix.mul_assoc]
  rw [e, h1, (inv_ok hB).2.2, Matrix.one_mul, Matrix.mul_one]

/-- C80: operations that change the stack in place act on each member. -/
theorem C80_tensor_inplace (sched : List ℕ) (t : TStack n K) (hs : IsSchedule t.members.length sched)
    (R : Mat n K) (s : K) :
    t.transposeInplace.members = t.members.map Matrix.transpose ∧
    (t.orient sched R).members = (t.members.map fun A => Rᵀ * A * R) ∧
    (t.imul s).members = t.members.map fun A => s • A := by
  refine ⟨rfl, ?_, ?_⟩
  · show transformStack sched Rᵀ t.members = _
    rw [transformStack_eq _ hs]
    simp only [transpose_transpose]
  · show List.map _ _ = _
    refine List.map_congr_left fun A _ => ?_
    ext i j
    simp [mul_comm]

theorem rebuild_tensor2 (members : List (Mat n K)) (axes : Mat n K) :
    rebuild .tensor2 members axes = .error .value := rfl

/-- C80 is violated: all operations that return a new `Tensor2` raise an exception for every stack,
because the flag is not handed over to the constructor. -/
theorem C80_tensor2_refused (sched : List ℕ) (t : TStack n K) (hc : t.cls = .tensor2)
    (hd : t.axes.det ≠ 0) (R : Mat n K) (s : K) :
    t.dual sched = .error .value ∧ t.transpose = .error .value ∧
      t.orientNew sched R = .error .value ∧ t.mul s = .error .value ∧ t.copy = .error .value := by
  obtain ⟨B, hB⟩ := inv_exists hd
  unfold TStack.dual TStack.transpose TStack.orientNew TStack.mul TStack.copy
  rw [hc, hB]
  exact ⟨rfl, rfl, rfl, rfl, rfl⟩

theorem rebuild_tensor2x3 (members : List (Mat 3 K)) (axes : Mat 3 K) :
    rebuild .tensor2x3 members axes = .ok ⟨.tensor2x3, members, axes⟩ := rfl

/-- C80: for a `Tensor2x3` these operations act on each member; the dual description of each member
represents the same tensor. -/
theorem C80_tensor2x3 (sched : List ℕ) (t : TStack 3 K) (hc : t.cls = .tensor2x3)
    (hs : IsSchedule t.members.length sched) (hd : t.axes.det ≠ 0) (R : Mat 3 K) (s : K) :
    (∃ w : TStack 3 K, t.dual sched = .ok w ∧ t.axes * w.axesᵀ = 1 ∧
      List.Forall₂ (fun A B => w.axesᵀ * B * w.axes = t.axesᵀ * A * t.axes) t.members w.members) ∧
    t.transpose = .ok ⟨t.cls, t.members.map Matrix.transpose, t.axes⟩ ∧
    t.orientNew sched R = .ok ⟨t.cls, t.members.map fun A => Rᵀ * A * R, t.axes⟩ ∧
    t.mul s = .ok ⟨t.cls, t.members.map fun A => s • A, t.axes⟩ ∧
    t.copy = .ok t := by
  obtain ⟨B, hB⟩ := inv_exists hd
  have h1 : B * t.axes = 1 := (inv_ok hB).2.2
  refine ⟨⟨⟨.tensor2x3, transformStack sched (t.axes * t.axesᵀ) t.members, Bᵀ⟩, ?_, ?_, ?_⟩, ?_, ?_, ?_, ?_⟩
  · unfold TStack.dual
    rw [hc, hB]
    rfl
  · show t.axes * Bᵀᵀ = 1
    rw [transpose_transpose]
    exact (inv_ok hB).2.1
  · show List.Forall₂ (fun A C => Bᵀᵀ * C * Bᵀ = t.axesᵀ * A * t.axes) t.members _
    rw [transformStack_eq _ hs, List.forall₂_map_right_iff]
    refine List.forall₂_same.2 fun A _ => ?_
    rw [transpose_mul, transpose_transpose, transpose_transpose]
    have h2 : t.axesᵀ * Bᵀ = 1 := by
      have := congrArg Matrix.transpose h1
      rwa [transpose_mul, transpose_one] at this
    have e : B * (t.axes * t.axesᵀ * A * (t.axes * t.axesᵀ)) * Bᵀ =
        (B * t.axes) * (t.axesᵀ * A * t.axes) * (t.axesᵀ * Bᵀ) := by
      simp only [Matrix.mul_assoc]
    rw [e, h1, h2, Matrix.one_mul, Matrix.mul_one]
  · unfold TStack.transpose
    rw [hc]
    rfl
  · unfold TStack.orientNew
    rw [hc, transformStack_eq _ hs, rebuild_tensor2x3]
    simp only [transpose_transpose]
  · unfold TStack.mul
    rw [hc, rebuild_tensor2x3]
    congr 2
    refine List.map_congr_left fun A _ => ?_
    ext i j
    simp [mul_comm]
  · unfold TStack.copy
    rw [hc, rebuild_tensor2x3, ← hc]

example : (⟨.tensor2x3, [1, 2], !![1, 1, 0; 0, 1, 0; 0, 0, 1]⟩ : TStack 3 ℚ).axes.det ≠ 0 ∧
    IsSchedule 2 [1, 0] := ⟨by decide +kernel, List.Perm.swap 0 1 []⟩

/-! ### C81: constructors accept the documented shapes -/

theorem ok_bind {α β : Type} (a : α) (f : α → Py β) : (Except.ok a : Py α).bind f = f a := rfl

theorem construct_given (cls : Cls) (hc : cls ≠ .tensor2x3 ∧ cls ≠ .tensor4x3) (shape : List ℕ)
    (bulk : Option Bool) (frame : Option ℕ) :
    construct cls shape bulk none frame = (verify cls shape (bulk.getD false)).bind fun v =>
      if v then (dimFor shape bulk frame).bind fun d =>
        .ok ⟨shape, d, bulk, rankFor cls shape bulk none⟩ else .error .value := by
  have : bulkFor cls shape bulk = .ok bulk := by
    cases cls <;> first | exact absurd rfl hc.1 | exact absurd rfl hc.2 | rfl
  unfold construct
  rw [this]
  rfl

theorem verify_construct (cls : Cls) (hc : cls ≠ .tensor2x3 ∧ cls ≠ .tensor4x3) (shape : List ℕ)
    (bulk : Option Bool) (d : ℕ) :
    (∃ i, construct cls shape bulk none (some d) = .ok i) ↔
      verify cls shape (bulk.getD false) = .ok true := by
  rw [construct_given cls hc]
  cases verify cls shape (bulk.getD false) with
  | error x => simp [Except.bind]
  | ok b => cases b <;> simp [Except.bind, dimFor]

theorem construct_accepted (cls : Cls) (hc : cls ≠ .tensor2x3 ∧ cls ≠ .tensor4x3) (shape : List ℕ)
    (bulk : Option Bool) (frame : Option ℕ) (d : ℕ)
    (hv : verify cls shape (bulk.getD false) = .ok true)
    (hf : frame = some d ∨ frame = none ∧ shape[if bulk.getD false then 1 else 0]? = some d) :
    construct cls shape bulk none frame = .ok ⟨shape, d, bulk, rankFor cls shape bulk none⟩ := by
  rw [construct_given cls hc, hv]
  have : dimFor shape bulk frame = .ok d := by
    unfold dimFor
    rcases hf with rfl | ⟨rfl, h⟩
    · rfl
    · simp only [h]
  rw [ok_bind, if_pos rfl, this]
  rfl

/-- C81: a `Tensor2` is made from square matrices, and, with the flag, from stacks of them. -/
theorem C81_tensor2 (shape : List ℕ) (bulk : Option Bool) (d : ℕ) :
    (∃ i, construct .tensor2 shape bulk none (some d) = .ok i) ↔
      (bulk ≠ some true ∧ ∃ m, shape = [m, m]) ∨ (bulk = some true ∧ ∃ N m, shape = [N, m, m]) := by
  rw [verify_construct _ ⟨by decide, by decide⟩]
  unfold verify
  rcases bulk with _ | _ | _
  all_goals
    simp only [Option.getD_none, Option.getD_some, Except.ok.injEq]
    rcases shape with _ | ⟨a, _ | ⟨b, _ | ⟨c, _ | ⟨e, s⟩⟩⟩⟩ <;> simp
    try exact eq_comm

/-- C81: a `Tensor4`. -/
theorem C81_tensor4 (shape : List ℕ) (bulk : Option Bool) (d : ℕ) :
    (∃ i, construct .tensor4 shape bulk none (some d) = .ok i) ↔
      (bulk ≠ some true ∧ ∃ m, shape = [m, m, m, m]) ∨
        (bulk = some true ∧ ∃ N m, shape = [N, m, m, m, m]) := by
  rw [verify_construct _ ⟨by decide, by decide⟩]
  unfold verify lastAxes
  rcases bulk with _ | _ | _
  all_goals
    simp only [Option.getD_none, Option.getD_some]
    rcases shape with _ | ⟨a, _ | ⟨b, _ | ⟨c, _ | ⟨e, _ | ⟨f, _ | ⟨g, s⟩⟩⟩⟩⟩⟩ <;>
      simp [List.getLast?_cons, List.replicate]
    omega

/-- C81: a general `Tensor`: all axes have the same length. -/
theorem C81_tensor (shape : List ℕ) (bulk : Option Bool) (d : ℕ) :
    (∃ i, construct .tensor shape bulk none (some d) = .ok i) ↔
      ∃ r m, shape = List.replicate (r + 1) m := by
  rw [verify_construct _ ⟨by decide, by decide⟩]
  unfold verify
  cases shape with
  | nil => simp
  | cons a s =>
    simp only [Except.ok.injEq, List.all_eq_true, beq_iff_eq]
    constructor
    · intro h
      exact ⟨s.length, a, by rw [List.replicate_succ, List.eq_replicate_of_mem h]; simp⟩
    · rintro ⟨r, m, h⟩ x hx
      rw [List.replicate_succ] at h
      injection h with h1 h2
      rw [h2] at hx
      rw [List.eq_of_mem_replicate hx, h1]

theorem lastAxes_eq_iff (k : ℕ) (shape t : List ℕ) (ht : t.length = k) :
    lastAxes k shape = t ↔ ∃ lead, shape = lead ++ t := by
  unfold lastAxes
  constructor
  · intro h
    exact ⟨shape.take (shape.length - k), by rw [← h, List.take_append_drop]⟩
  · rintro ⟨lead, rfl⟩
    rw [List.length_append, ht, Nat.add_sub_cancel, List.drop_left]

theorem detect_eq (k : ℕ) (lead : List ℕ) (bulk : Option Bool) :
    detect k (lead ++ List.replicate k 3) bulk =
      if lead = [] then (if bulk = some true then .error .value else .ok bulk)
      else (if bulk = some false then .error .value else .ok (some true)) := by
  unfold detect
  rw [if_pos ((lastAxes_eq_iff k _ (List.replicate k 3) (by simp)).2 ⟨lead, rfl⟩)]
  cases lead with
  | nil =>
    rw [if_neg (by simp), if_pos rfl]
    rcases bulk with _ | _ | _ <;> simp
  | cons a lead =>
    rw [if_pos (by simp), if_neg (show ¬ (a :: lead) = [] by simp)]
    rcases bulk with _ | _ | _ <;> simp

theorem detect_refused (k : ℕ) (shape : List ℕ) (bulk : Option Bool)
    (h : ¬ ∃ lead, shape = lead ++ List.replicate k 3) :
    detect k shape bulk = .error .shapeMismatch := by
  unfold detect
  rw [if_neg fun e => h ((lastAxes_eq_iff k _ (List.replicate k 3) (by simp)).1 e)]

theorem verify2x3 (lead : List ℕ) (b : Bool) (h : lead = [] ↔ b = false) :
    verify .tensor2x3 (lead ++ List.replicate 2 3) b = .ok true := by
  have e5 : lastAxes 2 (lead ++ List.replicate 2 3) = [3, 3] :=
    (lastAxes_eq_iff 2 _ [3, 3] rfl).2 ⟨lead, rfl⟩
  unfold verify
  simp only [e5, decide_true, Bool.and_true]
  cases lead with
  | nil =>
    rw [h.1 rfl]
    rfl
  | cons a lead =>
    have : b = true := by
      cases b with
      | true => rfl
      | false => exact absurd (h.2 rfl) (by simp)
    rw [this, if_pos rfl, decide_eq_true (by simp)]

theorem verify4x3 (lead : List ℕ) (b : Bool) (h : lead = [] ↔ b = false) :
    verify .tensor4x3 (lead ++ List.replicate 4 3) b = .ok true := by
  have e5 : lastAxes 4 (lead ++ List.replicate 4 3) = [3, 3, 3, 3] :=
    (lastAxes_eq_iff 4 _ [3, 3, 3, 3] rfl).2 ⟨lead, rfl⟩
  unfold verify
  simp only [e5, decide_true, Bool.true_and]
  cases lead with
  | nil =>
    rw [h.1 rfl]
    rfl
  | cons a lead =>
    have : b = true := by
      cases b with
      | true => rfl
      | false => exact absurd (h.2 rfl) (by simp)
    rw [this, if_pos rfl, decide_eq_true (by simp)]

/-- The dedicated constructors after finding out. -/
theorem construct_x3 (cls : Cls) (k : ℕ) (hk : (cls = .tensor2x3 ∧ k = 2) ∨ (cls = .tensor4x3 ∧ k = 4))
    (shape : List ℕ) (bulk : Option Bool) (d : ℕ) :
    construct cls shape bulk none (some d) = (detect k shape bulk).bind fun b =>
      (verify cls shape (b.getD false)).bind fun v =>
        if v then .ok ⟨shape, d, b, k⟩ else .error .value := by
  rcases hk with ⟨rfl, rfl⟩ | ⟨rfl, rfl⟩ <;> rfl

theorem construct_x3_iff (cls : Cls) (k : ℕ)
    (hk : (cls = .tensor2x3 ∧ k = 2) ∨ (cls = .tensor4x3 ∧ k = 4))
    (shape : List ℕ) (bulk : Option Bool) (d : ℕ) :
    (∃ i, construct cls shape bulk none (some d) = .ok i) ↔
      (bulk ≠ some true ∧ shape = List.replicate k 3) ∨
        (bulk ≠ some false ∧ ∃ lead, lead ≠ [] ∧ shape = lead ++ List.replicate k 3) := by
  rw [construct_x3 cls k hk]
  by_cases hs : ∃ lead, shape = lead ++ List.replicate k 3
  · obtain ⟨lead, rfl⟩ := hs
    have hv : ∀ b, (lead = [] ↔ b = false) →
        verify cls (lead ++ List.replicate k 3) b = .ok true := by
      intro b h
      rcases hk with ⟨rfl, rfl⟩ | ⟨rfl, rfl⟩
      · exact verify2x3 lead b h
      · exact verify4x3 lead b h
    rw [detect_eq]
    by_cases hl : lead = []
    · subst hl
      rw [if_pos rfl]
      by_cases hb : bulk = some true
      · rw [if_pos hb]
        constructor
        · rintro ⟨i, hi⟩
          cases hi
        · rintro (⟨h, -⟩ | ⟨-, l, hl, h⟩)
          · exact absurd hb h
          · exact absurd (by simpa using (List.append_left_injective _ h).symm) hl
      · rw [if_neg hb]
        refine ⟨fun _ => .inl ⟨hb, rfl⟩, fun _ => ?_⟩
        have : bulk.getD false = false := by
          rcases bulk with _ | _ | _
          · rfl
          · rfl
          · exact absurd rfl hb
        refine ⟨⟨[] ++ List.replicate k 3, d, bulk, k⟩, ?_⟩
        show ((verify cls _ (bulk.getD false)).bind _) = _
        rw [this, hv false (by simp)]
        rfl
    · rw [if_neg hl]
      by_cases hb : bulk = some false
      · rw [if_pos hb]
        constructor
        · rintro ⟨i, hi⟩
          cases hi
        · rintro (⟨-, h⟩ | ⟨h, -⟩)
          · exact absurd (by simpa using h) hl
          · exact absurd hb h
      · rw [if_neg hb]
        refine ⟨fun _ => .inr ⟨hb, lead, hl, rfl⟩, fun _ => ?_⟩
        refine ⟨⟨lead ++ List.replicate k 3, d, some true, k⟩, ?_⟩
        show ((verify cls _ true).bind _) = _
        rw [hv true (by simp [hl])]
        rfl
  · rw [detect_refused _ _ _ hs]
    constructor
    · rintro ⟨i, hi⟩
      cases hi
    · rintro (⟨-, h⟩ | ⟨-, l, -, h⟩)
      · exact absurd ⟨[], by simpa using h⟩ hs
      · exact absurd ⟨l, h⟩ hs

/-- C81: a `Tensor2x3` finds out by itself; stacks may have any number of leading axes. -/
theorem C81_tensor2x3 (shape : List ℕ) (bulk : Option Bool) (d : ℕ) :
    (∃ i, construct .tensor2x3 shape bulk none (some d) = .ok i) ↔
      (bulk ≠ some true ∧ shape = [3, 3]) ∨
        (bulk ≠ some false ∧ ∃ lead, lead ≠ [] ∧ shape = lead ++ [3, 3]) :=
  construct_x3_iff .tensor2x3 2 (.inl ⟨rfl, rfl⟩) shape bulk d

/-- C81: a `Tensor4x3`. -/
theorem C81_tensor4x3 (shape : List ℕ) (bulk : Option Bool) (d : ℕ) :
    (∃ i, construct .tensor4x3 shape bulk none (some d) = .ok i) ↔
      (bulk ≠ some true ∧ shape = [3, 3, 3, 3]) ∨
        (bulk ≠ some false ∧ ∃ lead, lead ≠ [] ∧ shape = lead ++ [3, 3, 3, 3]) :=
  construct_x3_iff .tensor4x3 4 (.inr ⟨rfl, rfl⟩) shape bulk d

/-- C81: the rank of a tensor that was accepted is the number of its axes without the leading ones, and
the dedicated classes refuse a rank. -/
theorem C81_rank (m N : ℕ) (r d : ℕ) (lead : List ℕ) (a : ℕ) :
    (construct .tensor2 [m, m] none none (some d)).map Info.rank = .ok 2 ∧
    (construct .tensor2 [N, m, m] (some true) none (some d)).map Info.rank = .ok 2 ∧
    (construct .tensor4 [m, m, m, m] none none (some d)).map Info.rank = .ok 4 ∧
    (construct .tensor (List.replicate (r + 1) m) none none (some d)).map Info.rank = .ok (r + 1) ∧
    (construct .tensor2x3 ((a :: lead) ++ [3, 3]) none none (some d)).map Info.rank = .ok 2 ∧
    construct .tensor2 [m, m] none (some 2) (some d) = .error .value := by
  have e2 : ∀ b, verify .tensor2 [m, m] b = .ok (!b) := by
    intro b
    cases b <;> simp [verify]
  have e3 : verify .tensor2 [N, m, m] true = .ok true := by simp [verify]
  have e4 : verify .tensor4 [m, m, m, m] false = .ok true := by
    simp [verify, lastAxes, List.replicate]
  have et : verify .tensor (List.replicate (r + 1) m) false = .ok true := by
    simp [verify, List.replicate_succ]
  have e6 : construct .tensor2x3 ((a :: lead) ++ [3, 3]) none none (some d) =
      .ok ⟨(a :: lead) ++ [3, 3], d, some true, 2⟩ := by
    rw [construct_x3 .tensor2x3 2 (.inl ⟨rfl, rfl⟩), show [3, 3] = List.replicate 2 3 from rfl,
      detect_eq, if_neg (by simp), if_neg (by simp), ok_bind, Option.getD_some,
      verify2x3 _ true (by simp)]
    rfl
  refine ⟨?_, ?_, ?_, ?_, ?_, ?_⟩
  · rw [construct_accepted _ (by decide) _ _ _ d (e2 false) (.inl rfl)]
    rfl
  · rw [construct_accepted _ (by decide) _ _ _ d e3 (.inl rfl)]
    rfl
  · rw [construct_accepted _ (by decide) _ _ _ d e4 (.inl rfl)]
    rfl
  · rw [construct_accepted _ (by decide) _ _ _ d et (.inl rfl)]
    show Except.ok (List.replicate (r + 1) m).length = _
    simp
  · rw [e6]
    rfl
  · unfold construct bulkFor
    rw [ok_bind, Option.getD_none, e2]
    rfl

/-- C81, partial: without a frame, a single tensor and a stack with one leading axis get a frame with
the dimension of the tensor.  Missing, because it is false: vectors and several leading axes
(`C81_default_frame_violated`). -/
theorem C81_default_frame_partial (m N r : ℕ) :
    (construct .tensor2 [m, m] none none none).map Info.frameDim = .ok m ∧
    (construct .tensor2 [N, m, m] (some true) none none).map Info.frameDim = .ok m ∧
    (construct .tensor (List.replicate (r + 1) m) none none none).map Info.frameDim = .ok m ∧
    (construct .tensor2x3 [N, 3, 3] none none none).map Info.frameDim = .ok 3 ∧
    (construct .vector [m] none none none).map Info.frameDim = .ok m ∧
    (construct .vector [N, m] (some true) none none).map Info.frameDim = .ok m := by
  have e2 : verify .tensor2 [m, m] false = .ok true := by simp [verify]
  have e3 : verify .tensor2 [N, m, m] true = .ok true := by simp [verify]
  have et : verify .tensor (List.replicate (r + 1) m) false = .ok true := by
    simp [verify, List.replicate_succ]
  refine ⟨?_, ?_, ?_, rfl, rfl, rfl⟩
  · rw [construct_accepted _ (by decide) _ _ _ m e2 (.inr ⟨rfl, rfl⟩)]
    rfl
  · rw [construct_accepted _ (by decide) _ _ _ m e3 (.inr ⟨rfl, rfl⟩)]
    rfl
  · rw [construct_accepted _ (by decide) _ _ _ m et (.inr ⟨rfl, rfl⟩)]
    rfl

/-- C81 is violated: a stack of `N` vectors of dimension `m` gets a frame of dimension `N`, and a stack
of 3 × 3 tensors with leading axes `a` and `b` one of dimension `b`. -/
theorem C81_default_frame_violated (m N a b : ℕ) :
    (construct .vector [N, m] none none none).map Info.frameDim = .ok N ∧
    (construct .tensor2x3 [a, b, 3, 3] none none none).map Info.frameDim = .ok b := ⟨rfl, rfl⟩

/-- A stack of numbers has no default frame. -/
example (m : ℕ) : construct .tensor [m] (some true) none none = .error .index := by
  simp [construct, bulkFor, verify, dimFor, Except.bind]

/-- C81 is violated: `is_bulk` returns nothing instead of `False`, and for a stack of vectors made
without the flag nothing instead of `True`. -/
theorem C81_is_bulk_violated (m N d : ℕ) :
    (∀ i : Info, i.isBulk ≠ some false) ∧
    (construct .vector [N, m] none none (some d)).map Info.isBulk = .ok none ∧
    (construct .tensor2x3 [3, 3] none none (some d)).map Info.isBulk = .ok none := by
  refine ⟨fun i => ?_, rfl, rfl⟩
  unfold Info.isBulk
  split <;> simp

/-- C81: stacks of `Tensor2x3` report to be stacks. -/
theorem C81_is_bulk_partial (lead : List ℕ) (a d : ℕ) :
    (construct .tensor2x3 ((a :: lead) ++ [3, 3]) none none (some d)).map Info.isBulk =
      .ok (some true) := by
  rw [construct_x3 .tensor2x3 2 (.inl ⟨rfl, rfl⟩), show [3, 3] = List.replicate 2 3 from rfl,
    detect_eq, if_neg (by simp), if_neg (by simp), ok_bind, Option.getD_some,
    verify2x3 _ true (by simp)]
  rfl

/-- C80 is violated: stacks of general tensors are refused unless their number is the dimension; then
they are accepted, but their components cannot be transformed. -/
theorem C80_general_violated (N m r d : ℕ) :
    (N ≠ m → construct .tensor (N :: List.replicate (r + 1) m) (some true) none (some d) =
      .error .value) ∧
    ∃ i, construct .tensor (m :: List.replicate (r + 1) m) (some true) none (some d) = .ok i ∧
      i.transformGeneral = .error .value := by
  constructor
  · intro h
    have e : verify .tensor (N :: List.replicate (r + 1) m) true = .ok false := by
      unfold verify
      simp only [Except.ok.injEq, List.replicate_succ, List.all_cons]
      simp [Ne.symm h]
    rw [construct_given _ (by decide), Option.getD_some, e]
    rfl
  · have e : verify .tensor (m :: List.replicate (r + 1) m) true = .ok true := by
      simp [verify]
    refine ⟨⟨m :: List.replicate (r + 1) m, d, some true, r + 1⟩, ?_, ?_⟩
    · rw [construct_accepted _ (by decide) _ _ _ d e (.inl rfl)]
      show Except.ok (Info.mk _ _ _ ((m :: List.replicate (r + 1) m).length - 1)) = _
      simp
    · unfold Info.transformGeneral
      rw [if_neg (by simp)]

end Verif.Stacks.Props
