import Verif.Proofs.TrKernels
import Verif.Proofs.Frames
import Mathlib.Data.Rat.Floor
import Mathlib.Data.Fintype.BigOperators
import Mathlib.LinearAlgebra.Matrix.NonsingularInverse

/-!
# C49, C51: transformation kernels, closed-form inverses and determinants
-/

set_option linter.unusedSectionVars false

namespace Verif.Tr.Props
open Verif Verif.Frames Verif.Utils Verif.Tr

/-! ## C49 -/

section
variable {n : ℕ} {K : Type} [Field K]

/-- The number of items fits the leading axes. -/
def Wf {α : Type} (x : Arr α) : Prop := x.data.length = x.lead.prod

/-- The matrix that belongs to item `k`: the one given, or the one at the first index of the item. -/
def matrixOf (Q : QArg n K) (nX k : ℕ) : Option (Mat n K) :=
  match Q with
  | .one Q => some Q
  | .stack Qs => Qs[k / nX]?
  | .more => none

/-- The stack of matrices has one for every value of the first index. -/
def Fits (Q : QArg n K) (lead : List ℕ) : Prop :=
  match Q with
  | .one _ => True
  | .stack Qs => lead.head? = some Qs.length
  | .more => False

/-- The orders in which the iterations run. -/
def Schedules (lead : List ℕ) (sched : List ℕ) (inner : ℕ → List ℕ) : Prop :=
  IsSchedule (lead.headD 0) sched ∧ ∀ e < lead.headD 0, IsSchedule lead.tail.prod (inner e)

theorem mul3_apply (Q A : Mat n K) (i j : Fin n) :
    (Q * A * Q.transpose) i j = ∑ p, ∑ q, Q i p * Q j q * A p q := by
  rw [Matrix.mul_apply]
  simp only [Matrix.mul_apply, Matrix.transpose_apply, Finset.sum_mul]
  rw [Finset.sum_comm]
  refine Finset.sum_congr rfl fun p _ => Finset.sum_congr rfl fun q _ => ?_
  ring

/-- C49: the kernels for second order tensors transform every item of an array with any number of
leading axes by the multilinear rule, each with the matrix that belongs to it, in whatever order the
parallel loops run; the shape stays. -/
theorem C49_second_order (junk : Mat n K) (sched : List ℕ) (inner : ℕ → List ℕ)
    (arr : Arr (Mat n K)) (hw : Wf arr) (Q : QArg n K) (hf : Fits Q arr.lead)
    (hs : Schedules arr.lead sched inner) :
    ∃ r, trTensors2 junk sched inner arr Q = .ok r ∧ r.lead = arr.lead ∧
      r.data.length = arr.data.length ∧
      ∀ (k : ℕ) (x : Mat n K), arr.data[k]? = some x →
        ∃ q y, matrixOf Q arr.lead.tail.prod k = some q ∧ r.data[k]? = some y ∧
          ∀ i j, y i j = ∑ p, ∑ s, q i p * q j s * x p s := by
  obtain ⟨lead, data⟩ := arr
  unfold Wf at hw
  obtain ⟨h1, h2⟩ := hs
  simp only at hw h1 h2 hf ⊢
  have fin1 : ∀ (a : ℕ) (body : ℕ → Mat n K → Mat n K) (h1 : IsSchedule a sched)
      (hw : data.length = a) (k : ℕ) (x : Mat n K), data[k]? = some x →
      (loop1 sched body (data.map fun _ => (0 : Mat n K)))[k]? = some (body k 0) := by
    intro a body h1 hw k x hk
    have hlt := (List.getElem?_eq_some_iff.1 hk).1
    rw [loop1_get sched a h1 body _ k (by omega), List.getElem?_map, hk]
    rfl
  have fin2 : ∀ (a nX : ℕ) (body : ℕ → ℕ → Mat n K → Mat n K) (h1 : IsSchedule a sched)
      (h2 : ∀ e < a, IsSchedule nX (inner e)) (hw : data.length = a * nX) (k : ℕ) (x : Mat n K),
      data[k]? = some x →
      (loop2 nX sched inner body (data.map fun _ => (0 : Mat n K)))[k]? =
        some (body (k / nX) (k % nX) 0) := by
    intro a nX body h1 h2 hw k x hk
    have hlt := (List.getElem?_eq_some_iff.1 hk).1
    rw [loop2_get a nX sched inner h1 h2 body _ k (by omega), List.getElem?_map, hk]
    rfl
  have pos : ∀ k nX : ℕ, k / nX * nX + k % nX = k := fun k nX => by
    rw [Nat.mul_comm]; exact Nat.div_add_mod k nX
  rcases lead with _ | ⟨a, _ | ⟨b, t⟩⟩
  · cases Q with
    | one Q =>
      refine ⟨_, rfl, rfl, by simpa using hw.symm, fun k x hk => ?_⟩
      have hlt := (List.getElem?_eq_some_iff.1 hk).1
      have hk0 : k = 0 := by simp at hw; omega
      subst hk0
      exact ⟨Q, _, rfl, rfl, fun i j => by rw [rd_eq _ _ _ _ hk]; exact mul3_apply ..⟩
    | stack Qs => cases hf
    | more => cases hf
  · have hwa : data.length = a := by simpa using hw
    cases Q with
    | one Q =>
      refine ⟨_, rfl, rfl, ?_, fun k x hk => ⟨Q, _, rfl, fin1 a _ h1 hwa k x hk, fun i j => ?_⟩⟩
      · exact (loop1_length ..).trans (by simp)
      · rw [rd_eq _ _ _ _ hk]; exact mul3_apply ..
    | stack Qs =>
      have hq : a = Qs.length := by simpa [Fits] using hf
      refine ⟨_, rfl, rfl, (loop1_length ..).trans (by simp), fun k x hk => ?_⟩
      have hlt := (List.getElem?_eq_some_iff.1 hk).1
      have hkq : Qs[k]? = some (Qs[k]'(by omega)) := List.getElem?_eq_getElem _
      refine ⟨Qs[k]'(by omega), _, ?_, fin1 a _ h1 hwa k x hk, fun i j => ?_⟩
      · show Qs[k / 1]? = _
        rw [Nat.div_one]; exact hkq
      · rw [rd_eq _ _ _ _ hk, rd_eq _ _ _ _ hkq]; exact mul3_apply ..
    | more => cases hf
  · have hwa : data.length = a * (b :: t).prod := by simpa using hw
    cases Q with
    | one Q =>
      refine ⟨_, rfl, rfl, (loop2_length ..).trans (by simp), fun k x hk =>
        ⟨Q, _, rfl, fin2 a _ _ h1 h2 hwa k x hk, fun i j => ?_⟩⟩
      simp only [List.tail_cons, pos]
      rw [rd_eq _ _ _ _ hk]; exact mul3_apply ..
    | stack Qs =>
      have hq : a = Qs.length := by simpa [Fits] using hf
      refine ⟨_, rfl, rfl, (loop2_length ..).trans (by simp), fun k x hk => ?_⟩
      have hlt := (List.getElem?_eq_some_iff.1 hk).1
      have hX : 0 < (b :: t).prod := Nat.pos_of_ne_zero fun h => by rw [h] at hwa; omega
      have hd : k / (b :: t).prod < Qs.length := by
        rw [← hq]; exact (Nat.div_lt_iff_lt_mul hX).2 (by omega)
      have hkq : Qs[k / (b :: t).prod]? = some (Qs[k / (b :: t).prod]'hd) :=
        List.getElem?_eq_getElem _
      refine ⟨Qs[k / (b :: t).prod]'hd, _, hkq, fin2 a _ _ h1 h2 hwa k x hk, fun i j => ?_⟩
      simp only [List.tail_cons, pos]
      rw [rd_eq _ _ _ _ hk, rd_eq _ _ _ _ hkq]; exact mul3_apply ..
    | more => cases hf

/-- C49: the combinations of shapes without a rule are refused. -/
theorem C49_refused (junk : Mat n K) (sched : List ℕ) (inner : ℕ → List ℕ) (arr : Arr (Mat n K))
    (Qs : List (Mat n K)) :
    trTensors2 junk sched inner arr .more = .error .notImplemented ∧
      (arr.lead = [] → trTensors2 junk sched inner arr (.stack Qs) = .error .notImplemented) := by
  constructor
  · unfold trTensors2
    split <;> first | rfl | (rename_i h; cases h)
  · intro h
    unfold trTensors2
    rw [h]

/-- C49: the kernels for vectors. -/
theorem C49_vectors (junkQ : Mat n K) (junk : Fin n → K) (sched : List ℕ) (arr : Arr (Fin n → K))
    (hw : Wf arr) (hl : arr.lead.length ≤ 1) (Q : QArg n K) (hf : Fits Q arr.lead)
    (hs : IsSchedule (arr.lead.headD 0) sched) :
    ∃ r, showVector junkQ junk sched Q arr = .ok r ∧ r.lead = arr.lead ∧
      r.data.length = arr.data.length ∧
      ∀ (k : ℕ) (x : Fin n → K), arr.data[k]? = some x →
        ∃ q y, matrixOf Q 1 k = some q ∧ r.data[k]? = some y ∧
          ∀ i, y i = ∑ p, q i p * x p := by
  obtain ⟨lead, data⟩ := arr
  unfold Wf at hw
  simp only at hw hs hf hl ⊢
  have fin1 : ∀ (a : ℕ) (body : ℕ → (Fin n → K) → Fin n → K) (h1 : IsSchedule a sched)
      (hw : data.length = a) (k : ℕ) (x : Fin n → K), data[k]? = some x →
      (loop1 sched body (data.map fun _ => (0 : Fin n → K)))[k]? = some (body k 0) := by
    intro a body h1 hw k x hk
    have hlt := (List.getElem?_eq_some_iff.1 hk).1
    rw [loop1_get sched a h1 body _ k (by omega), List.getElem?_map, hk]
    rfl
  rcases lead with _ | ⟨a, _ | ⟨b, t⟩⟩
  · cases Q with
    | one Q =>
      refine ⟨_, rfl, rfl, by simpa using hw.symm, fun k x hk => ?_⟩
      have hlt := (List.getElem?_eq_some_iff.1 hk).1
      have hk0 : k = 0 := by simp at hw; omega
      subst hk0
      exact ⟨Q, _, rfl, rfl, fun i => by rw [rd_eq _ _ _ _ hk]; rfl⟩
    | stack Qs => cases hf
    | more => cases hf
  · have hwa : data.length = a := by simpa using hw
    cases Q with
    | one Q =>
      refine ⟨_, rfl, rfl, (loop1_length ..).trans (by simp), fun k x hk =>
        ⟨Q, _, rfl, fin1 a _ hs hwa k x hk, fun i => ?_⟩⟩
      rw [rd_eq _ _ _ _ hk]; rfl
    | stack Qs =>
      have hq : a = Qs.length := by simpa [Fits] using hf
      refine ⟨_, rfl, rfl, (loop1_length ..).trans (by simp), fun k x hk => ?_⟩
      have hlt := (List.getElem?_eq_some_iff.1 hk).1
      have hkq : Qs[k]? = some (Qs[k]'(by omega)) := List.getElem?_eq_getElem _
      refine ⟨Qs[k]'(by omega), _, ?_, fin1 a _ hs hwa k x hk, fun i => ?_⟩
      · show Qs[k / 1]? = _
        rw [Nat.div_one]; exact hkq
      · rw [rd_eq _ _ _ _ hk, rd_eq _ _ _ _ hkq]; rfl
    | more => cases hf
  · simp at hl

theorem showFrame1_eq (sched : List (Fin n)) (hs : sched.Perm (List.finRange n)) (Q E : Mat n K) :
    ∀ i, showFrame1 sched Q E i = Q.mulVec (E i) := by
  intro i
  have hi : i ∈ sched := hs.mem_iff.2 (List.mem_finRange i)
  unfold showFrame1
  suffices h : ∀ (l : List (Fin n)) (m : Mat n K), (i ∈ l ∨ m i = Q.mulVec (E i)) →
      (l.foldl (fun res i => res.updateRow i (Q.mulVec (E i))) m) i = Q.mulVec (E i) from
    h sched 0 (Or.inl hi)
  intro l
  induction l with
  | nil =>
    intro m h
    rcases h with h | h
    · cases h
    · exact h
  | cons j l ih =>
    intro m h
    refine ih (m.updateRow j (Q.mulVec (E j))) ?_
    by_cases hj : i = j
    · right
      rw [hj, Matrix.updateRow_self]
    · rw [Matrix.updateRow_ne hj]
      rcases h with h | h
      · exact Or.inl (by simpa [hj] using h)
      · exact Or.inr h

/-- C49: the kernels for frames: every row is transformed as a vector. -/
theorem C49_frames (junk : Mat n K) (sched : List ℕ) (inner : ℕ → List (Fin n)) (arr : Arr (Mat n K))
    (hw : Wf arr) (hl : arr.lead.length ≤ 1) (Q : QArg n K) (hf : Fits Q arr.lead)
    (hs : IsSchedule (arr.lead.headD 0) sched) (hi : ∀ i, (inner i).Perm (List.finRange n)) :
    ∃ r, showFrames junk sched inner Q arr = .ok r ∧ r.lead = arr.lead ∧
      r.data.length = arr.data.length ∧
      ∀ (k : ℕ) (x : Mat n K), arr.data[k]? = some x →
        ∃ q y, matrixOf Q 1 k = some q ∧ r.data[k]? = some y ∧
          ∀ a i, y a i = ∑ p, q i p * x a p := by
  obtain ⟨lead, data⟩ := arr
  unfold Wf at hw
  simp only at hw hs hf hl ⊢
  have fin1 : ∀ (a : ℕ) (body : ℕ → Mat n K → Mat n K) (h1 : IsSchedule a sched)
      (hw : data.length = a) (k : ℕ) (x : Mat n K), data[k]? = some x →
      (loop1 sched body (data.map fun _ => (0 : Mat n K)))[k]? = some (body k 0) := by
    intro a body h1 hw k x hk
    have hlt := (List.getElem?_eq_some_iff.1 hk).1
    rw [loop1_get sched a h1 body _ k (by omega), List.getElem?_map, hk]
    rfl
  rcases lead with _ | ⟨a, _ | ⟨b, t⟩⟩
  · cases Q with
    | one Q =>
      refine ⟨_, rfl, rfl, by simpa using hw.symm, fun k x hk => ?_⟩
      have hlt := (List.getElem?_eq_some_iff.1 hk).1
      have hk0 : k = 0 := by simp at hw; omega
      subst hk0
      exact ⟨Q, _, rfl, rfl, fun a i => by
        rw [rd_eq _ _ _ _ hk, showFrame1_eq _ (hi 0)]; rfl⟩
    | stack Qs => cases hf
    | more => cases hf
  · have hwa : data.length = a := by simpa using hw
    cases Q with
    | one Q =>
      refine ⟨_, rfl, rfl, (loop1_length ..).trans (by simp), fun k x hk =>
        ⟨Q, _, rfl, fin1 a _ hs hwa k x hk, fun a i => ?_⟩⟩
      rw [rd_eq _ _ _ _ hk, showFrame1_eq _ (hi k)]; rfl
    | stack Qs =>
      have hq : a = Qs.length := by simpa [Fits] using hf
      refine ⟨_, rfl, rfl, (loop1_length ..).trans (by simp), fun k x hk => ?_⟩
      have hlt := (List.getElem?_eq_some_iff.1 hk).1
      have hkq : Qs[k]? = some (Qs[k]'(by omega)) := List.getElem?_eq_getElem _
      refine ⟨Qs[k]'(by omega), _, ?_, fin1 a _ hs hwa k x hk, fun a i => ?_⟩
      · show Qs[k / 1]? = _
        rw [Nat.div_one]; exact hkq
      · rw [rd_eq _ _ _ _ hk, rd_eq _ _ _ _ hkq, showFrame1_eq _ (hi k)]; rfl
    | more => cases hf
  · simp at hl

/-- C49: `transpose_axes` transposes every matrix of the stack. -/
theorem C49_transpose_axes (junk : Mat n K) (sched : List ℕ) (arr : Arr (Mat n K)) (hw : Wf arr)
    (hs : IsSchedule (arr.lead.headD 0) sched) :
    let r := transposeAxes junk sched arr
    r.lead = arr.lead ∧ r.data.length = arr.data.length ∧
      ∀ (k : ℕ) (x : Mat n K), arr.data[k]? = some x → ∃ y, r.data[k]? = some y ∧
        ∀ i j, y i j = x j i := by
  obtain ⟨lead, data⟩ := arr
  unfold Wf at hw
  simp only at hw hs ⊢
  rcases lead with _ | ⟨a, _ | ⟨b, t⟩⟩
  · refine ⟨rfl, by simp [transposeAxes], fun k x hk => ⟨x.transpose, ?_, fun i j => rfl⟩⟩
    show (data.map Matrix.transpose)[k]? = _
    rw [List.getElem?_map, hk]; rfl
  · refine ⟨rfl, (loop1_length ..).trans (by simp), fun k x hk => ⟨x.transpose, ?_, fun i j => rfl⟩⟩
    have hlt := (List.getElem?_eq_some_iff.1 hk).1
    have hwa : data.length = a := by simpa using hw
    show (loop1 sched _ _)[k]? = _
    rw [loop1_get sched a hs _ _ k (by omega), List.getElem?_map, hk]
    show some (rd junk data k).transpose = _
    rw [rd_eq _ _ _ _ hk]
  · refine ⟨rfl, by simp [transposeAxes], fun k x hk => ⟨x.transpose, ?_, fun i j => rfl⟩⟩
    show (data.map Matrix.transpose)[k]? = _
    rw [List.getElem?_map, hk]; rfl

end

section
variable {K : Type} [Field K] [LinearOrder K] [FloorRing K]

/-- The matrix that belongs to item `k`. -/
def matrixOf4 (Q : QArg4 K) (nX k : ℕ) : Option (Mem2 K) :=
  match Q with
  | .one Q => some Q
  | .stack Qs => Qs[k / nX]?
  | .more => none

/-- The shapes fit, and there is a kernel: a single matrix is supported for at most one leading
axis. -/
def Fits4 (Q : QArg4 K) (lead : List ℕ) : Prop :=
  match Q with
  | .one _ => lead.length ≤ 1
  | .stack Qs => lead.head? = some Qs.length
  | .more => False

/-- The multilinear rule for a fourth order tensor with three values per index. -/
def Rule4 (Q : Mem2 K) (x y : T4 K) : Prop :=
  y.dim = 3 ∧ ∀ i j k m : Fin 3, y.a i j k m = ∑ p : Fin 3, ∑ q : Fin 3, ∑ r : Fin 3, ∑ s : Fin 3,
    Q i p * Q j q * Q k r * Q m s * x.a p q r s

/-- C49, partial: the kernels for fourth order tensors of floats with three values per index apply
the multilinear rule to every item.

Missing, because it is false: other dimensions (`C49_dimension_violated`), integer components
(`C49_integer_violated`), and a single matrix with several leading axes
(`C49_single_matrix_refused`), which `Tensor4x3` accepts as input. -/
theorem C49_fourth_order_partial (junk : T4 K) (junkQ : Mem2 K) (sched : List ℕ)
    (inner : ℕ → List ℕ) (arr : Arr (T4 K)) (hw : Wf arr) (hd : ∀ x ∈ arr.data, x.dim = 3)
    (Q : QArg4 K) (hf : Fits4 Q arr.lead) (hs : Schedules arr.lead sched inner) :
    ∃ r, trTensors4 .float junk junkQ sched inner arr Q = .ok r ∧ r.lead = arr.lead ∧
      r.data.length = arr.data.length ∧
      ∀ (k : ℕ) (x : T4 K), arr.data[k]? = some x →
        ∃ q y, matrixOf4 Q arr.lead.tail.prod k = some q ∧ r.data[k]? = some y ∧ Rule4 q x y := by
  obtain ⟨lead, data⟩ := arr
  unfold Wf at hw
  obtain ⟨h1, h2⟩ := hs
  simp only at hw h1 h2 hf hd ⊢
  have item : ∀ (Q : Mem2 K) (x : T4 K) (_ : x.dim = 3),
      Rule4 Q x ⟨x.dim, tr3333Out .float x Q fun _ _ _ _ => 0⟩ := by
    intro Q x hx
    refine ⟨hx, fun i j k m => ?_⟩
    show tr3333Out .float x Q (fun _ _ _ _ => 0) i j k m = _
    rw [tr3333Out_eq x Q _ i j k m i.2 j.2 k.2 m.2, zero_add]
  have fin1 : ∀ (a : ℕ) (body : ℕ → T4 K → T4 K) (h1 : IsSchedule a sched)
      (hw : data.length = a) (k : ℕ) (x : T4 K), data[k]? = some x →
      (loop1 sched body (data.map fun x => ⟨x.dim, fun _ _ _ _ => 0⟩))[k]? =
        some (body k ⟨x.dim, fun _ _ _ _ => 0⟩) := by
    intro a body h1 hw k x hk
    have hlt := (List.getElem?_eq_some_iff.1 hk).1
    rw [loop1_get sched a h1 body _ k (by omega), List.getElem?_map, hk]
    rfl
  have fin2 : ∀ (a nX : ℕ) (body : ℕ → ℕ → T4 K → T4 K) (h1 : IsSchedule a sched)
      (h2 : ∀ e < a, IsSchedule nX (inner e)) (hw : data.length = a * nX) (k : ℕ) (x : T4 K),
      data[k]? = some x →
      (loop2 nX sched inner body (data.map fun x => ⟨x.dim, fun _ _ _ _ => 0⟩))[k]? =
        some (body (k / nX) (k % nX) ⟨x.dim, fun _ _ _ _ => 0⟩) := by
    intro a nX body h1 h2 hw k x hk
    have hlt := (List.getElem?_eq_some_iff.1 hk).1
    rw [loop2_get a nX sched inner h1 h2 body _ k (by omega), List.getElem?_map, hk]
    rfl
  have pos : ∀ k nX : ℕ, k / nX * nX + k % nX = k := fun k nX => by
    rw [Nat.mul_comm]; exact Nat.div_add_mod k nX
  rcases lead with _ | ⟨a, _ | ⟨b, t⟩⟩
  · cases Q with
    | one Q =>
      refine ⟨_, rfl, rfl, by simpa using hw.symm, fun k x hk => ?_⟩
      have hlt := (List.getElem?_eq_some_iff.1 hk).1
      have hk0 : k = 0 := by simp at hw; omega
      subst hk0
      refine ⟨Q, _, rfl, rfl, ?_⟩
      rw [rd_eq _ _ _ _ hk]
      have hx := hd x (List.mem_of_getElem? hk)
      have := item Q x hx
      rwa [hx] at this
    | stack Qs => cases hf
    | more => cases hf
  · have hwa : data.length = a := by simpa using hw
    cases Q with
    | one Q =>
      refine ⟨_, rfl, rfl, (loop1_length ..).trans (by simp), fun k x hk =>
        ⟨Q, _, rfl, fin1 a _ h1 hwa k x hk, ?_⟩⟩
      rw [rd_eq _ _ _ _ hk]
      exact item Q x (hd x (List.mem_of_getElem? hk))
    | stack Qs =>
      have hq : a = Qs.length := by simpa [Fits4] using hf
      refine ⟨_, rfl, rfl, (loop1_length ..).trans (by simp), fun k x hk => ?_⟩
      have hlt := (List.getElem?_eq_some_iff.1 hk).1
      have hkq : Qs[k]? = some (Qs[k]'(by omega)) := List.getElem?_eq_getElem _
      refine ⟨Qs[k]'(by omega), _, ?_, fin1 a _ h1 hwa k x hk, ?_⟩
      · show Qs[k / 1]? = _
        rw [Nat.div_one]; exact hkq
      · rw [rd_eq _ _ _ _ hk, rd_eq _ _ _ _ hkq]
        exact item _ x (hd x (List.mem_of_getElem? hk))
    | more => cases hf
  · have hwa : data.length = a * (b :: t).prod := by simpa using hw
    cases Q with
    | one Q => simp [Fits4] at hf
    | stack Qs =>
      have hq : a = Qs.length := by simpa [Fits4] using hf
      refine ⟨_, rfl, rfl, (loop2_length ..).trans (by simp), fun k x hk => ?_⟩
      have hlt := (List.getElem?_eq_some_iff.1 hk).1
      have hX : 0 < (b :: t).prod := Nat.pos_of_ne_zero fun h => by rw [h] at hwa; omega
      have hdv : k / (b :: t).prod < Qs.length := by
        rw [← hq]; exact (Nat.div_lt_iff_lt_mul hX).2 (by omega)
      have hkq : Qs[k / (b :: t).prod]? = some (Qs[k / (b :: t).prod]'hdv) :=
        List.getElem?_eq_getElem _
      refine ⟨Qs[k / (b :: t).prod]'hdv, _, hkq, fin2 a _ _ h1 h2 hwa k x hk, ?_⟩
      simp only [List.tail_cons, pos]
      rw [rd_eq _ _ _ _ hk, rd_eq _ _ _ _ hkq]
      exact item _ x (hd x (List.mem_of_getElem? hk))
    | more => cases hf

/-- C49 fails for other dimensions: the result for a single tensor always has three values per index,
even if the unit matrix is applied; -/
theorem C49_dimension_violated :
    (∀ (arr : T4 K) (Q : Mem2 K), arr.dim ≠ 3 → (tr3333 .float arr Q).dim ≠ arr.dim) ∧
    -- and with four values per index, the first ones miss the contributions of the fourth:
    (let arr : T4 K := ⟨4, fun i j k m => if i = 3 ∧ j = 3 ∧ k = 3 ∧ m = 3 then 1 else 0⟩
     let Q : Mem2 K := fun i j => if i + j = 3 then 1 else 0
     (tr3333 .float arr Q).a 0 0 0 0 = 0 ∧
     ∑ p : Fin 4, ∑ q : Fin 4, ∑ r : Fin 4, ∑ s : Fin 4,
       Q 0 p * Q 0 q * Q 0 r * Q 0 s * arr.a p q r s = 1) := by
  refine ⟨fun arr Q h he => h he.symm, ?_, ?_⟩
  · have e : ∀ (arr : T4 K) (Q : Mem2 K),
        (tr3333 .float arr Q).a = tr3333Out .float arr Q fun _ _ _ _ => 0 := fun _ _ => rfl
    rw [e, tr3333Out_eq _ _ _ 0 0 0 0 (by omega) (by omega) (by omega) (by omega), zero_add]
    refine Finset.sum_eq_zero fun p _ => Finset.sum_eq_zero fun q _ => Finset.sum_eq_zero fun r _ =>
      Finset.sum_eq_zero fun s _ => ?_
    have : ¬(0 + (p : ℕ) = 3) := by have := p.2; omega
    simp only [if_neg this, zero_mul]
  · have key : ∀ f : Fin 4 → K, (∀ x, x ≠ 3 → f x = 0) → ∑ x, f x = f 3 :=
      fun f h => Fintype.sum_eq_single 3 h
    have z : ∀ x : Fin 4, x ≠ 3 → ¬(0 + (x : ℕ) = 3) := by decide
    rw [key _ fun x hx => Finset.sum_eq_zero fun _ _ => Finset.sum_eq_zero fun _ _ =>
        Finset.sum_eq_zero fun _ _ => by simp only [if_neg (z x hx), zero_mul],
      key _ fun x hx => Finset.sum_eq_zero fun _ _ => Finset.sum_eq_zero fun _ _ => by
        simp only [if_neg (z x hx), zero_mul, mul_zero],
      key _ fun x hx => Finset.sum_eq_zero fun _ _ => by
        simp only [if_neg (z x hx), zero_mul, mul_zero],
      key _ fun x hx => by simp only [if_neg (z x hx), zero_mul, mul_zero]]
    simp

/-- A single matrix cannot be applied to a fourth order tensor with several leading axes. -/
theorem C49_single_matrix_refused (dt : DType) (junk : T4 K) (junkQ : Mem2 K) (sched : List ℕ)
    (inner : ℕ → List ℕ) (arr : Arr (T4 K)) (Q : Mem2 K) (h : 2 ≤ arr.lead.length) :
    trTensors4 dt junk junkQ sched inner arr (.one Q) = .error .notImplemented := by
  obtain ⟨lead, data⟩ := arr
  rcases lead with _ | ⟨a, _ | ⟨b, t⟩⟩
  · simp at h
  · simp at h
  · rfl

end

section
variable {n : ℕ} {K : Type} [Field K] [LinearOrder K]

theorem sum_cons {M : Type} [AddCommMonoid M] {α : Type} [Fintype α] {r : ℕ}
    (f : (Fin (r + 1) → α) → M) :
    ∑ s : Fin (r + 1) → α, f s = ∑ x : α, ∑ s : Fin r → α, f (Fin.cons x s) := by
  rw [← Fintype.sum_prod_type']
  exact ((Fin.consEquiv fun _ : Fin (r + 1) => α).sum_comp f).symm

theorem sum_nil {M : Type} [AddCommMonoid M] {α : Type} [Fintype α] (f : (Fin 0 → α) → M) :
    ∑ s : Fin 0 → α, f s = f Fin.elim0 := by
  rw [Fintype.sum_unique]
  exact congrArg f (Subsingleton.elim _ _)

/-- C49: the dedicated rules for vectors, second and fourth order tensors are the general rule for
tensors of rank one, two and four. -/
theorem C49_general_rule (Q : Mat n K) :
    (∀ (v : Fin n → K) (t : Fin 1 → Fin n),
      ∑ s : Fin 1 → Fin n, (∏ k, Q (t k) (s k)) * v (s 0) = ∑ p, Q (t 0) p * v p) ∧
    (∀ (A : Fin n → Fin n → K) (t : Fin 2 → Fin n),
      ∑ s : Fin 2 → Fin n, (∏ k, Q (t k) (s k)) * A (s 0) (s 1) =
        ∑ p, ∑ q, Q (t 0) p * Q (t 1) q * A p q) ∧
    (∀ (A : Fin n → Fin n → Fin n → Fin n → K) (t : Fin 4 → Fin n),
      ∑ s : Fin 4 → Fin n, (∏ k, Q (t k) (s k)) * A (s 0) (s 1) (s 2) (s 3) =
        ∑ p, ∑ q, ∑ r, ∑ s, Q (t 0) p * Q (t 1) q * Q (t 2) r * Q (t 3) s * A p q r s) := by
  refine ⟨fun v t => ?_, fun A t => ?_, fun A t => ?_⟩
  · rw [sum_cons]
    refine Finset.sum_congr rfl fun p _ => ?_
    rw [sum_nil, Fin.prod_univ_one]
    rfl
  · rw [sum_cons]
    refine Finset.sum_congr rfl fun p _ => ?_
    rw [sum_cons]
    refine Finset.sum_congr rfl fun q _ => ?_
    rw [sum_nil, Fin.prod_univ_two]
    rfl
  · rw [sum_cons]
    refine Finset.sum_congr rfl fun p _ => ?_
    rw [sum_cons]
    refine Finset.sum_congr rfl fun q _ => ?_
    rw [sum_cons]
    refine Finset.sum_congr rfl fun r _ => ?_
    rw [sum_cons]
    refine Finset.sum_congr rfl fun s _ => ?_
    rw [sum_nil, Fin.prod_univ_four]
    rfl

/-- C49: transforming with `Q` and then with `P` is transforming with `PQ`, for all ranks. -/
theorem C49_compose (P Q : Mat n K) (c : Comps n K) :
    (c.transform Q).transform P = c.transform (P * Q) := transform_comp P Q c

end

section
variable {K : Type} [Field K] [LinearOrder K] [FloorRing K]

/-- The components of a fourth order tensor as a general tensor of rank four. -/
def asComps (x : T4 K) : Comps 3 K := .gen 4 fun t => x.a (t 0) (t 1) (t 2) (t 3)

/-- C49: applying the kernel for fourth order tensors with `Q` and then with `P` gives what it gives
with `PQ`, and each application is the general rule for tensors of rank four. -/
theorem C49_fourth_order_compose (x : T4 K) (P Q : Mat 3 K) (mP mQ mPQ : Mem2 K)
    (hP : ∀ i j : Fin 3, mP i j = P i j) (hQ : ∀ i j : Fin 3, mQ i j = Q i j)
    (hPQ : ∀ i j : Fin 3, mPQ i j = (P * Q) i j) :
    asComps (tr3333 .float x mQ) = (asComps x).transform Q ∧
      asComps (tr3333 .float (tr3333 .float x mQ) mP) = asComps (tr3333 .float x mPQ) := by
  have one : ∀ (x : T4 K) (M : Mat 3 K) (m : Mem2 K) (_ : ∀ i j : Fin 3, m i j = M i j),
      asComps (tr3333 .float x m) = (asComps x).transform M := by
    intro x M m hm
    unfold asComps
    rw [Comps.transform]
    congr 1
    funext t
    show tr3333Out .float x m (fun _ _ _ _ => 0) (t 0) (t 1) (t 2) (t 3) = _
    rw [tr3333Out_eq _ _ _ _ _ _ _ (t 0).2 (t 1).2 (t 2).2 (t 3).2, zero_add]
    have := (C49_general_rule M).2.2 (fun p q r s : Fin 3 => x.a p q r s) t
    simp only [hm]
    exact this.symm
  refine ⟨one x Q mQ hQ, ?_⟩
  rw [one _ P mP hP, one x Q mQ hQ, one x (P * Q) mPQ hPQ]
  exact transform_comp P Q _

end

/-- C49 fails for fourth order tensors with integer components: every contribution is cut off to an
integer when it is added.  The matrix is a rotation; the component should be 81/625. -/
theorem C49_integer_violated :
    let arr : T4 ℚ := ⟨3, fun i j k m => if i = 0 ∧ j = 0 ∧ k = 0 ∧ m = 0 then 1 else 0⟩
    let Q : Mem2 ℚ := fun i j => (!![3/5, -4/5, 0; 4/5, 3/5, 0; 0, 0, 1] : Mat 3 ℚ)
      (Fin.ofNat 3 i) (Fin.ofNat 3 j)
    (tr3333 .int arr Q).a 0 0 0 0 = 0 ∧ (tr3333 .float arr Q).a 0 0 0 0 = 81 / 625 := by
  refine ⟨by decide +kernel, by decide +kernel⟩

/-- The hypotheses of C49 can be met: a stack of two matrices for a `2 × 2` array of tensors, the
parallel loop run backwards. -/
example : let arr : Arr (Mat 2 ℚ) := ⟨[2, 2], [1, 1, !![1, 2; 3, 4], 0]⟩
    let Q : QArg 2 ℚ := .stack [1, !![0, 1; -1, 0]]
    Wf arr ∧ Fits Q arr.lead ∧ Schedules arr.lead [1, 0] (fun _ => [1, 0]) ∧
      (trTensors2 0 [1, 0] (fun _ => [1, 0]) arr Q).map
        (fun r => r.data.map fun y => (y 0 0, y 0 1)) =
        .ok [(1, 0), (1, 0), (4, -3), (0, 0)] := by
  refine ⟨rfl, rfl, ⟨by unfold IsSchedule; decide, fun e _ => (by decide : [1, 0].Perm (List.range 2))⟩,
    by decide +kernel⟩

/-- The same for fourth order tensors. -/
example : let x : T4 ℚ := ⟨3, fun i j k m => if i = 0 ∧ j = 0 ∧ k = 0 ∧ m = 1 then 1 else 0⟩
    let Q : Mem2 ℚ := fun i j => (!![0, 1, 0; -1, 0, 0; 0, 0, 1] : Mat 3 ℚ)
      (Fin.ofNat 3 i) (Fin.ofNat 3 j)
    Wf (⟨[1], [x]⟩ : Arr (T4 ℚ)) ∧ Fits4 (.one Q) [1] ∧ Schedules [1] [0] (fun _ => [0]) ∧
      (tr3333 .float x Q).a 1 1 1 0 = -1 := by
  refine ⟨rfl, Nat.le_refl _, ⟨by unfold IsSchedule; decide, fun e _ =>
    (by decide : [0].Perm (List.range 1))⟩, by decide +kernel⟩

/-! ## C51 -/

section
variable {K : Type} [Field K] [LinearOrder K] [FloorRing K]

/-- `B` is the inverse of `A`. -/
def IsInverse {n : ℕ} (A B : Mat n K) : Prop := A * B = 1 ∧ B * A = 1

theorem isInverse_adjugate {n : ℕ} (A : Mat n K) (h : A.det ≠ 0) :
    IsInverse A (Matrix.of fun i j => A.adjugate i j / A.det) := by
  have e : (Matrix.of fun i j => A.adjugate i j / A.det) = A.det⁻¹ • A.adjugate := by
    ext i j
    simp only [Matrix.of_apply, Matrix.smul_apply, smul_eq_mul]
    rw [div_eq_mul_inv, mul_comm]
  rw [e]
  constructor
  · rw [Matrix.mul_smul, Matrix.mul_adjugate, smul_smul, inv_mul_cancel₀ h, one_smul]
  · rw [Matrix.smul_mul, Matrix.adjugate_mul, smul_smul, inv_mul_cancel₀ h, one_smul]

/-- C51: `inv2x2u`, and `inv2x2` for arrays of floats, return the inverse of every nonsingular
matrix and raise for a singular one.  For integer arrays see `C51_integer_violated`. -/
theorem C51_inv2x2_partial (A : Mat 2 K) :
    (A.det ≠ 0 → ∃ B, inv2x2 .float A = .ok B ∧ inv2x2u A = .ok B ∧ IsInverse A B) ∧
      (A.det = 0 → inv2x2 .float A = .error .zeroDiv ∧ inv2x2u A = .error .zeroDiv) := by
  have hd : A 0 0 * A 1 1 - A 0 1 * A 1 0 = A.det := (Matrix.det_fin_two A).symm
  constructor
  · intro h
    refine ⟨Matrix.of fun i j => A.adjugate i j / A.det, ?_, ?_, isInverse_adjugate A h⟩
    · unfold inv2x2
      simp only [hd, if_neg h, store]
      congr 1
      ext i j
      rw [Matrix.adjugate_fin_two]
      fin_cases i <;> fin_cases j <;> rfl
    · unfold inv2x2u
      simp only [hd, if_neg h]
      congr 1
      ext i j
      rw [Matrix.adjugate_fin_two]
      fin_cases i <;> fin_cases j <;> rfl
  · intro h
    unfold inv2x2 inv2x2u
    simp only [hd, if_pos h, and_self]

/-- C51: `adj3x3` returns the adjugate, for every matrix. -/
theorem C51_adj3x3 (A : Mat 3 K) :
    adj3x3 A = A.adjugate ∧ A * adj3x3 A = A.det • (1 : Mat 3 K) := by
  rw [adj3x3_eq]
  exact ⟨rfl, Matrix.mul_adjugate A⟩

/-- C51: `inv3x3` and `inv3x3u` return the inverse of every nonsingular matrix; for a singular one
`inv3x3` returns entries that are not finite and `inv3x3u` raises. -/
theorem C51_inv3x3 (A : Mat 3 K) :
    (A.det ≠ 0 → ∃ B, inv3x3 A = some B ∧ inv3x3u A = .ok B ∧ IsInverse A B) ∧
      (A.det = 0 → inv3x3 A = none ∧ inv3x3u A = .error .zeroDiv) := by
  constructor
  · intro h
    refine ⟨Matrix.of fun i j => A.adjugate i j / A.det, ?_, ?_, isInverse_adjugate A h⟩
    · unfold inv3x3
      simp only [detExpr3_eq, if_neg h, adj3x3_eq]
    · unfold inv3x3u
      simp only [detExpr3_eq, if_neg h]
      congr 1
      rw [Matrix.adjugate_fin_three]
      ext i j
      fin_cases i <;> fin_cases j <;> simp <;> ring
  · intro h
    unfold inv3x3 inv3x3u
    simp only [detExpr3_eq, if_pos h, and_self]

/-- C51: the bulk variants give for every matrix of the stack what `inv3x3` gives for it, in whatever
order the parallel loop runs. -/
theorem C51_bulk (junk : Mat 3 K) (A : List (Mat 3 K)) (sched : List ℕ)
    (hs : IsSchedule A.length sched) :
    inv3x3Bulk junk sched A = A.map inv3x3 := by
  refine List.ext_getElem? fun k => ?_
  unfold inv3x3Bulk
  by_cases hk : k < A.length
  · rw [loop1_get sched _ hs _ _ k hk, List.getElem?_map, List.getElem?_map,
      List.getElem?_eq_getElem hk]
    show some (inv3x3 (rd junk A k)) = _
    rw [rd_eq _ _ _ _ (List.getElem?_eq_getElem hk)]
    rfl
  · rw [List.getElem?_eq_none (by rw [loop1_length, List.length_map]; omega),
      List.getElem?_eq_none (by rw [List.length_map]; omega)]

/-- C51 fails for `det2x2` and `det3x3`: the result does not depend on the matrix, it is the former
content of the memory of the output. -/
theorem C51_det_violated (out : K) :
    (∀ A : Mat 3 K, det3x3 A out = out) ∧ (∀ A : Mat 2 K, det2x2 A out = out) ∧
      (∃ A : Mat 3 K, det3x3 A out ≠ A.det) ∧ (∃ A : Mat 2 K, det2x2 A out ≠ A.det) := by
  refine ⟨fun A => rfl, fun A => rfl, ?_, ?_⟩
  · by_cases h : out = 0
    · refine ⟨1, ?_⟩
      rw [Matrix.det_one]; subst h; exact zero_ne_one
    · refine ⟨0, ?_⟩
      rw [Matrix.det_zero]; exact h
  · by_cases h : out = 0
    · refine ⟨1, ?_⟩
      rw [Matrix.det_one]; subst h; exact zero_ne_one
    · refine ⟨0, ?_⟩
      rw [Matrix.det_zero]; exact h

/-- C51, partial: the expressions computed in `det2x2` and `det3x3` are the determinants.

Missing, because it is false (`C51_det_violated`): they are returned. -/
theorem C51_det_partial (A : Mat 3 K) (B : Mat 2 K) :
    detExpr3 A = A.det ∧ B 0 0 * B 1 1 - B 0 1 * B 1 0 = B.det :=
  ⟨detExpr3_eq A, (Matrix.det_fin_two B).symm⟩

end

/-- C51 fails for `inv2x2` of an integer array: the inverse is cut off to integers. -/
theorem C51_integer_violated :
    let A : Mat 2 ℚ := !![2, 0; 0, 2]
    (inv2x2 .int A).map (fun B => (A * B) 0 0) = .ok 0 ∧
      (inv2x2 .float A).map (fun B => (A * B) 0 0) = .ok 1 := by
  refine ⟨by decide +kernel, by decide +kernel⟩

/-- The hypotheses of C51 can be met. -/
example : let A : Mat 3 ℚ := !![1, 2, 0; 0, 1, 3; 1, 0, 1]
    A.det ≠ 0 ∧ (inv3x3 A).map (fun B => B 0 1) = some (-2/7) ∧
      IsSchedule [A, 1].length [1, 0] ∧
      (inv3x3Bulk 0 [1, 0] [A, 1]).map (fun o => o.map fun B => B 0 1) = [some (-2/7), some 0] := by
  refine ⟨by decide +kernel, by decide +kernel, by unfold IsSchedule; decide, by decide +kernel⟩

end Verif.Tr.Props
