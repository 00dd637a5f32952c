import Verif.Model.FitObjects

/-!
# Lemmas on sessions with fits and weight functions
-/

set_option linter.unusedSectionVars false

namespace Verif.FitObj
open Verif Verif.LS

section
variable {K : Type} [Field K] [LinearOrder K] {dim r : ℕ}

theorem evaluate_state (s : State dim r K) (x : XArg dim K) (f : FitObj dim r K) :
    (s.evaluate x f).1 = s ∨ ∃ data w deg order, f = .moving data (some w) deg order ∧
      (s.evaluate x f).1 = s.setCore w x := by
  cases f with
  | frozen F => exact .inl rfl
  | moving data w deg order =>
    cases w with
    | none => exact .inl rfl
    | some w => exact .inr ⟨data, w, deg, order, rfl, rfl⟩

/-- No operation removes or replaces a fit. -/
theorem step_fits (s : State dim r K) (op : Op dim r K) :
    ∃ l, (step s op).1.fits = s.fits ++ l := by
  cases op with
  | writeData => exact ⟨[], by simp [step]⟩
  | writeArray => exact ⟨[], by simp [step]⟩
  | setCore => exact ⟨[], by simp [step, State.setCore]⟩
  | setFamily => exact ⟨[], by simp [step]⟩
  | weighted data deg order w =>
    cases h : s.fit (s.dataArg data) deg order w.object with
    | error e => exact ⟨[], by simp [step, h]⟩
    | ok F => exact ⟨[.frozen F], by simp [step, h]⟩
  | moving data deg order w =>
    cases data with
    | arrays i => exact ⟨[.moving i w.object deg order], by simp [step]⟩
    | lists d => exact ⟨[], by simp [step]⟩
  | eval k x =>
    cases h : s.fits[k]? with
    | none => exact ⟨[], by simp [step, h]⟩
    | some f =>
      refine ⟨[], ?_⟩
      simp only [step, h, List.append_nil]
      rcases evaluate_state s x f with e | ⟨_, _, _, _, _, e⟩ <;> rw [e]
      rfl
  | weigh => exact ⟨[], by simp [step]⟩

theorem run_fits (s : State dim r K) (ops : List (Op dim r K)) (k : ℕ) (f : FitObj dim r K)
    (h : s.fits[k]? = some f) : (run s ops).fits[k]? = some f := by
  induction ops generalizing s with
  | nil => exact h
  | cons op ops ih =>
    refine ih (step s op).1 ?_
    obtain ⟨l, e⟩ := step_fits s op
    rw [e, List.getElem?_append_left (List.getElem?_eq_some_iff.1 h).1]
    exact h

theorem run_cons (s : State dim r K) (op : Op dim r K) (ops : List (Op dim r K)) :
    run s (op :: ops) = run (step s op).1 ops := rfl

theorem step_data (s : State dim r K) (op : Op dim r K) (i : ℕ)
    (h : ∀ d, op ≠ .writeData i d) : (step s op).1.data i = s.data i := by
  cases op with
  | writeData j d =>
    have : i ≠ j := fun e => h d (e ▸ rfl)
    simp [step, Function.update_of_ne this]
  | writeArray => rfl
  | setCore => rfl
  | setFamily => rfl
  | weighted data deg order w =>
    cases h : s.fit (s.dataArg data) deg order w.object <;> simp [step, h]
  | moving data deg order w => cases data <;> rfl
  | eval k x =>
    cases h : s.fits[k]? with
    | none => simp [step, h]
    | some f =>
      simp only [step, h]
      rcases evaluate_state s x f with e | ⟨_, _, _, _, _, e⟩ <;> rw [e]
      rfl
  | weigh => rfl

theorem setCore_family (s : State dim r K) (w i : ℕ) (x : XArg dim K) :
    ((s.setCore w x).weights i).family = (s.weights i).family := by
  by_cases e : i = w
  · subst e; simp [State.setCore]
  · simp [State.setCore, Function.update_of_ne e]

theorem step_family (s : State dim r K) (op : Op dim r K) (i : ℕ)
    (h : ∀ d, op ≠ .setFamily i d) :
    ((step s op).1.weights i).family = (s.weights i).family := by
  cases op with
  | writeData j d => rfl
  | writeArray => rfl
  | setCore w x => exact setCore_family s w i x
  | setFamily w d =>
    have : i ≠ w := fun e => h d (e ▸ rfl)
    simp [step, Function.update_of_ne this]
  | weighted data deg order w =>
    cases h : s.fit (s.dataArg data) deg order w.object <;> simp [step, h]
  | moving data deg order w => cases data <;> rfl
  | eval k x =>
    cases h : s.fits[k]? with
    | none => simp [step, h]
    | some f =>
      simp only [step, h]
      rcases evaluate_state s x f with e | ⟨_, w, _, _, _, e⟩ <;> rw [e]
      exact setCore_family s w i x
  | weigh => rfl

theorem run_data (s : State dim r K) (ops : List (Op dim r K)) (i : ℕ)
    (h : ∀ d, .writeData i d ∉ ops) : (run s ops).data i = s.data i := by
  induction ops generalizing s with
  | nil => rfl
  | cons op ops ih =>
    rw [run_cons, ih _ fun d hd => h d (List.mem_cons_of_mem _ hd)]
    exact step_data s op i fun d e => h d (e ▸ List.mem_cons_self)

theorem run_family (s : State dim r K) (ops : List (Op dim r K)) (i : ℕ)
    (h : ∀ d, .setFamily i d ∉ ops) : ((run s ops).weights i).family = (s.weights i).family := by
  induction ops generalizing s with
  | nil => rfl
  | cons op ops ih =>
    rw [run_cons, ih _ fun d hd => h d (List.mem_cons_of_mem _ hd)]
    exact step_family s op i fun d e => h d (e ▸ List.mem_cons_self)

theorem fit_none (s : State dim r K) (d : Data dim r K) (deg : ℕ) (order : ℤ) :
    s.fit d deg order none = leastSquares d.points d.values deg order := by
  simp only [State.fit, State.weightArg, leastSquares, weightedLeastSquares, Except.bind]
  simp

/-- The weight in the state after its core was set. -/
theorem weight_setCore (s : State dim r K) (w : ℕ) (x : XArg dim K) :
    (s.setCore w x).weight w = (s.weights w).family (some (s.point x)) := by
  cases x <;> simp [State.weight, State.setCore, State.point]

theorem point_setCore (s : State dim r K) (w : ℕ) (x y : XArg dim K) :
    (s.setCore w x).point y = s.point y := by
  cases y <;> rfl

end

end Verif.FitObj
