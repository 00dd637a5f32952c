import Verif.Props.Close
import Verif.Props.Stacks

/-!
# C78, C81: `np.isclose` for tensors of every rank, the rank of every tensor
-/

set_option linter.unusedSectionVars false

namespace Verif.Close.Props
open Verif Verif.Frames Verif.Close Matrix

variable {n : ℕ} {K : Type} [Field K] [LinearOrder K] [IsStrictOrderedRing K]

theorem isclose_same (rtol atol : K) (r : ℕ) (a b : (Fin r → Fin n) → K) :
    (⟨_, iscloseArr rtol atol ⟨r, a⟩ ⟨r, b⟩⟩ : BoolArr n) =
      ⟨r, fun t => decide (|a t - b t| ≤ atol + rtol * |b t|)⟩ := by
  have key : ∀ (k : ℕ) (hk : k = r) (g : (Fin k → Fin n) → Bool) (f : (Fin r → Fin n) → Bool),
      (∀ t, g t = f fun j => t (Fin.cast hk.symm j)) → (⟨k, g⟩ : BoolArr n) = ⟨r, f⟩ := by
    intro k hk g f h
    subst hk
    congr
    funext t
    exact h t
  refine key _ (max_self r) _ _ fun t => ?_
  unfold iscloseArr
  simp only
  rw [broadcast_same _ _ (max_self r), broadcast_same _ _ (max_self r)]

/-- C78: the entries of the answer of `np.isclose`, for second order tensors. -/
theorem C78_isclose_matrices (cfg : Cfg K) (rtol atol : K) (A B : Mat n K) (S T : Frame n K) :
    ∃ f : (Fin 2 → Fin n) → Bool,
      isclose cfg rtol atol (.tensor ⟨.ten2 A, S⟩) (.tensor ⟨.ten2 B, T⟩) = .ok ⟨2, f⟩ ∧
      ∀ i j, (f ![i, j] = true ↔ |(S.axesᵀ * A * S.axes) i j - (T.axesᵀ * B * T.axes) i j| ≤
        atol + rtol * |(T.axesᵀ * B * T.axes) i j|) := by
  have h := isclose_tensor cfg rtol atol ⟨.ten2 A, S⟩ ⟨.ten2 B, T⟩
  rw [ambient_eq, ambient_eq] at h
  refine ⟨_, h.trans (congrArg Except.ok (isclose_same rtol atol 2 _ _)), fun i j => ?_⟩
  rw [decide_eq_true_iff]
  simp [transpose_transpose]

/-- C78: the entries of the answer of `np.isclose`, for tensors of any order. -/
theorem C78_isclose_general (cfg : Cfg K) (rtol atol : K) (r : ℕ) (a b : (Fin r → Fin n) → K)
    (S T : Frame n K) :
    ∃ f : (Fin r → Fin n) → Bool,
      isclose cfg rtol atol (.tensor ⟨.gen r a, S⟩) (.tensor ⟨.gen r b, T⟩) = .ok ⟨r, f⟩ ∧
      ∀ t : Fin r → Fin n, (f t = true ↔ |∑ s, a s * ∏ k, S.axes (s k) (t k) -
          ∑ s, b s * ∏ k, T.axes (s k) (t k)| ≤
        atol + rtol * |∑ s, b s * ∏ k, T.axes (s k) (t k)|) := by
  have h := isclose_tensor cfg rtol atol ⟨.gen r a, S⟩ ⟨.gen r b, T⟩
  refine ⟨_, h.trans (congrArg Except.ok (isclose_same rtol atol r _ _)), fun t => ?_⟩
  rw [decide_eq_true_iff]

/-- C78: `np.allclose` is `True` exactly if all entries of `np.isclose` are, for all arguments. -/
theorem C78_all (cfg : Cfg K) (rtol atol : K) (a b : Arg n K) :
    (∀ e, allclose cfg rtol atol a b = .error e ↔ isclose cfg rtol atol a b = .error e) ∧
    ∀ r f, isclose cfg rtol atol a b = .ok ⟨r, f⟩ →
      ∃ answer, allclose cfg rtol atol a b = .ok answer ∧ (answer = true ↔ ∀ t, f t = true) := by
  have key : ∀ x y : Py (Arr n K),
      (∀ e, (x.bind fun x => y.bind fun y =>
          .ok (decide (∀ t, iscloseArr rtol atol x y t = true)) : Py Bool) = .error e ↔
        (x.bind fun x => y.bind fun y => .ok ⟨_, iscloseArr rtol atol x y⟩ : Py (BoolArr n)) = .error e) ∧
      ∀ r f, (x.bind fun x => y.bind fun y => .ok ⟨_, iscloseArr rtol atol x y⟩ : Py (BoolArr n)) =
          .ok ⟨r, f⟩ →
        ∃ answer, (x.bind fun x => y.bind fun y =>
          .ok (decide (∀ t, iscloseArr rtol atol x y t = true)) : Py Bool) = .ok answer ∧
          (answer = true ↔ ∀ t, f t = true) := by
    intro x y
    rcases x with e | x
    · refine ⟨fun e' => ⟨fun h => ?_, fun h => ?_⟩, fun r f h => ?_⟩
      · injection h with h; subst h; rfl
      · injection h with h; subst h; rfl
      · cases h
    · rcases y with e | y
      · refine ⟨fun e' => ⟨fun h => ?_, fun h => ?_⟩, fun r f h => ?_⟩
        · injection h with h; subst h; rfl
        · injection h with h; subst h; rfl
        · cases h
      · refine ⟨fun e' => ⟨fun h => ?_, fun h => ?_⟩, fun r f h => ?_⟩
        · cases h
        · cases h
        · refine ⟨_, rfl, ?_⟩
          simp only [Except.bind, Except.ok.injEq, BoolArr.mk.injEq] at h
          obtain ⟨rfl, h⟩ := h
          rw [decide_eq_true_iff, eq_of_heq h]
  have refused : (∀ e, (.error .type : Py Bool) = .error e ↔ (.error .type : Py (BoolArr n)) = .error e) ∧
      ∀ r f, (.error .type : Py (BoolArr n)) = .ok ⟨r, f⟩ →
        ∃ answer, (.error .type : Py Bool) = .ok answer ∧ (answer = true ↔ ∀ t, f t = true) := by
    refine ⟨fun e' => ⟨fun h => ?_, fun h => ?_⟩, fun r f h => ?_⟩
    · injection h with h; subst h; rfl
    · injection h with h; subst h; rfl
    · cases h
  cases a with
  | array => exact refused
  | tensor a => cases b with
    | array => exact refused
    | tensor b => exact key ((Arg.tensor a).resolve cfg) ((Arg.tensor b).resolve cfg)
    | number y => exact key ((Arg.tensor a).resolve cfg) ((Arg.number y).resolve cfg)
  | number x => cases b with
    | array => exact refused
    | tensor b => exact key ((Arg.number x).resolve cfg) ((Arg.tensor b).resolve cfg)
    | number y => exact key ((Arg.number x).resolve cfg) ((Arg.number y).resolve cfg)

example := C78_isclose_matrices (n := 2) (⟨1/10, 1/10, 1/10⟩ : Cfg ℚ) (1/100) 0 !![1, 2; 3, 4] !![1, 2; 3, 5]
  ⟨.rectangular, !![0, 1; -1, 0]⟩ ⟨.reference, !![1, 1; 0, 1]⟩

end Verif.Close.Props

namespace Verif.Stacks.Props
open Verif Verif.Stacks

/-- C81: whatever the class, the flag, the shape and the frame, a tensor that was accepted reports as its rank
the rank of its class, or, for a general `Tensor`, the rank asked for, or else the number of its axes without
that of the stack.  A class with a fixed rank accepts no rank. -/
theorem C81_rank_all (cls : Cls) (shape : List ℕ) (bulk : Option Bool) (rank frame : Option ℕ) (i : Info)
    (h : construct cls shape bulk rank frame = .ok i) :
    i.shape = shape ∧ (∀ d, frame = some d → i.frameDim = d) ∧
    (cls = .vector → i.rank = 1) ∧
    (cls = .tensor2 ∨ cls = .tensor2x3 → i.rank = 2 ∧ rank = none) ∧
    (cls = .tensor4 ∨ cls = .tensor4x3 → i.rank = 4 ∧ rank = none) ∧
    (cls = .tensor → (∀ r, rank = some r → r ≠ 0 → i.rank = r) ∧
      (rank = none → bulk = some true → i.rank + 1 = shape.length) ∧
      (rank = none → bulk ≠ some true → i.rank = shape.length)) := by
  unfold construct at h
  cases hb : bulkFor cls shape bulk with
  | error e => rw [hb] at h; cases h
  | ok b =>
    rw [hb, ok_bind] at h
    cases hv : verify cls shape (b.getD false) with
    | error e => rw [hv] at h; cases h
    | ok v =>
      rw [hv, ok_bind] at h
      cases v with
      | false => cases h
      | true =>
        rw [if_pos rfl] at h
        cases hd : dimFor shape b frame with
        | error e => rw [hd] at h; cases h
        | ok d =>
          rw [hd, ok_bind] at h
          by_cases hr : (rank.isSome && cls.rank.isSome) = true
          · rw [if_pos hr] at h; cases h
          · rw [if_neg hr] at h
            injection h with h
            subst h
            have hnone : cls.rank.isSome = true → rank = none := by
              intro h
              cases rank with
              | none => rfl
              | some r => simp [h] at hr
            refine ⟨rfl, fun d' hd' => ?_, fun hc => ?_, fun hc => ?_, fun hc => ?_, fun hc => ?_⟩
            · subst hd'
              simp only [dimFor, Except.ok.injEq] at hd
              exact hd.symm
            · subst hc; rfl
            · rcases hc with rfl | rfl <;>
              · have := hnone rfl
                subst this
                exact ⟨rfl, rfl⟩
            · rcases hc with rfl | rfl <;>
              · have := hnone rfl
                subst this
                exact ⟨rfl, rfl⟩
            · subst hc
              simp only [bulkFor, Except.ok.injEq] at hb
              subst hb
              refine ⟨fun r hr h0 => ?_, fun h1 h2 => ?_, fun h1 h2 => ?_⟩
              · subst hr
                simp [rankFor, h0]
              · subst h1 h2
                simp only [verify] at hv
                cases shape with
                | nil => cases hv
                | cons s rest => simp [rankFor, Cls.rank]
              · subst h1
                have : bulk.getD false = false := by
                  rcases bulk with _ | _ | _
                  · rfl
                  · rfl
                  · exact absurd rfl h2
                simp [rankFor, Cls.rank, this]

example := C81_rank_all .tensor [3, 3, 3] (some true) none (some 3) ⟨[3, 3, 3], 3, some true, 2⟩ (by decide)
example := C81_rank_all .tensor2x3 [5, 2, 3, 3] none none (some 3) ⟨[5, 2, 3, 3], 3, some true, 2⟩ (by decide)

end Verif.Stacks.Props
