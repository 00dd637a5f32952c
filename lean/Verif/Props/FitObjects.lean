import Verif.Proofs.FitObjects
import Verif.Model.Weights
import Mathlib.Data.Rat.Floor
import Mathlib.LinearAlgebra.Matrix.Notation
import Mathlib.Algebra.Order.Ring.Rat

/-!
# Property C99: fits and the weight functions they share
-/

set_option linter.unusedSectionVars false

namespace Verif.FitObj.Props
open Verif Verif.LS

section
variable {K : Type} [Field K] [LinearOrder K] {dim r : ℕ}

/-- The numbers the user sees in a point given to the library. -/
def Is (s : State dim r K) : XArg dim K → Pt dim K → Prop
  | .array a, p => p = s.arrays a
  | .copy x, p => p = x

theorem is_point (s : State dim r K) (x : XArg dim K) (p : Pt dim K) (h : Is s x p) :
    s.point x = p := by
  cases x <;> exact h.symm

/-- C99: a weighted fit is computed when it is made, from the data and with the weights as they are
then; whatever happens later (the arrays are overwritten, the weight function is moved or changed, other
fits share it), the fit gives the values of that one function. -/
theorem C99_weighted (s s' : State dim r K) (i deg : ℕ) (order : ℤ) (w k : ℕ)
    (h : step s (.weighted (.arrays i) deg order (.weight w)) = (s', .ok (.fit k))) :
    ∃ (W : Weight dim K) (F : Fit dim r K),
      (∀ y, (step s (.weigh w y)).2 = .ok (.number (W.f y))) ∧
      weightedLeastSquares (s.data i).points (s.data i).values deg order (some ⟨dim, W⟩) = .ok F ∧
      ∀ (ops : List (Op dim r K)) (x : XArg dim K) (p : Pt dim K), Is (run s' ops) x p →
        (step (run s' ops) (.eval k x)).2 = .ok (.out (F p)) := by
  cases hW : s.weight w with
  | error e => simp [step, State.fit, State.weightArg, WArg.object, hW, Except.bind] at h
  | ok W =>
    cases hF : weightedLeastSquares (s.data i).points (s.data i).values deg order (some ⟨dim, W⟩) with
    | error e =>
      simp [step, State.fit, State.weightArg, State.dataArg, WArg.object, hW, Except.bind, hF] at h
    | ok F =>
      simp only [step, State.fit, State.weightArg, State.dataArg, WArg.object, hW, Except.bind, hF,
        Prod.mk.injEq, Except.ok.injEq, Ret.fit.injEq] at h
      obtain ⟨rfl, rfl⟩ := h
      refine ⟨W, F, fun y => by simp [step, hW, Except.map], hF, fun ops x p hp => ?_⟩
      have := run_fits _ ops s.fits.length (.frozen F)
        (show (State.fits { s with fits := s.fits ++ [.frozen F] })[s.fits.length]? = _ by simp)
      simp only [step, this, State.evaluate, Except.map, is_point _ x p hp]

/-- C99: the same without a weight function: the fit is the plain least squares fit of the data at the
time it is made. -/
theorem C99_plain (s s' : State dim r K) (i deg : ℕ) (order : ℤ) (k : ℕ)
    (h : step s (.weighted (.arrays i) deg order .none) = (s', .ok (.fit k))) :
    ∃ F : Fit dim r K, leastSquares (s.data i).points (s.data i).values deg order = .ok F ∧
      ∀ (ops : List (Op dim r K)) (x : XArg dim K) (p : Pt dim K), Is (run s' ops) x p →
        (step (run s' ops) (.eval k x)).2 = .ok (.out (F p)) := by
  cases hF : leastSquares (s.data i).points (s.data i).values deg order with
  | error e => simp [step, State.dataArg, WArg.object, fit_none, hF] at h
  | ok F =>
    simp only [step, State.dataArg, WArg.object, fit_none, hF,
      Prod.mk.injEq, Except.ok.injEq, Ret.fit.injEq] at h
    obtain ⟨rfl, rfl⟩ := h
    refine ⟨F, rfl, fun ops x p hp => ?_⟩
    have := run_fits _ ops s.fits.length (.frozen F)
      (show (State.fits { s with fits := s.fits ++ [.frozen F] })[s.fits.length]? = _ by simp)
    simp only [step, this, State.evaluate, Except.map, is_point _ x p hp]

/-- C99: a moving fit, evaluated at any time, is the weighted fit of the data as they are then with the
weight function centred at the point of evaluation.  Where the core has been before, and which other fits
have used the weight function in between, does not matter. -/
theorem C99_moving (s s' : State dim r K) (i deg : ℕ) (order : ℤ) (w k : ℕ)
    (h : step s (.moving (.arrays i) deg order (.weight w)) = (s', .ok (.fit k)))
    (ops : List (Op dim r K)) (x : XArg dim K) (p : Pt dim K) (hp : Is (run s' ops) x p) :
    (step (run s' ops) (.eval k x)).2 =
      (((run s' ops).weights w).family (some p)).bind fun W =>
        (weightedLeastSquares ((run s' ops).data i).points ((run s' ops).data i).values deg order
          (some ⟨dim, W⟩)).map fun F => .out (F p) := by
  simp only [step, WArg.object, Prod.mk.injEq, Except.ok.injEq, Ret.fit.injEq] at h
  obtain ⟨rfl, rfl⟩ := h
  have := run_fits _ ops s.fits.length (.moving i (some w) deg order)
    (show (State.fits { s with fits := s.fits ++ [.moving i (some w) deg order] })[s.fits.length]? = _
      by simp)
  generalize run { s with fits := s.fits ++ [.moving i (some w) deg order] } ops = t at *
  simp only [step, this, State.evaluate, State.fit, State.weightArg, weight_setCore, point_setCore,
    is_point _ x p hp]
  cases (t.weights w).family (some p) with
  | error e => rfl
  | ok W =>
    change Except.map Ret.out (Except.map (fun F => F p) (weightedLeastSquares (t.data i).points
      (t.data i).values deg order (some ⟨dim, W⟩))) = Except.map _ (weightedLeastSquares
        (t.data i).points (t.data i).values deg order (some ⟨dim, W⟩))
    cases weightedLeastSquares (t.data i).points (t.data i).values deg order (some ⟨dim, W⟩) <;> rfl

/-- C99: a moving fit without a weight function is the plain least squares fit of the data as they are
when it is evaluated. -/
theorem C99_moving_plain (s s' : State dim r K) (i deg : ℕ) (order : ℤ) (k : ℕ)
    (h : step s (.moving (.arrays i) deg order .none) = (s', .ok (.fit k)))
    (ops : List (Op dim r K)) (x : XArg dim K) (p : Pt dim K) (hp : Is (run s' ops) x p) :
    (step (run s' ops) (.eval k x)).2 =
      (leastSquares ((run s' ops).data i).points ((run s' ops).data i).values deg order).map
        fun F => .out (F p) := by
  simp only [step, WArg.object, Prod.mk.injEq, Except.ok.injEq, Ret.fit.injEq] at h
  obtain ⟨rfl, rfl⟩ := h
  have := run_fits _ ops s.fits.length (.moving i none deg order)
    (show (State.fits { s with fits := s.fits ++ [.moving i none deg order] })[s.fits.length]? = _
      by simp)
  generalize run { s with fits := s.fits ++ [.moving i none deg order] } ops = t at *
  simp only [step, this, State.evaluate, fit_none, is_point _ x p hp]
  cases leastSquares (t.data i).points (t.data i).values deg order <;> rfl

/-- C99: as long as the numbers in its data are not overwritten and the weight function is not changed
otherwise than by its core, a moving fit has one value at every point: the same after any operations as
right after it was made. -/
theorem C99_history (s s' : State dim r K) (i deg : ℕ) (order : ℤ) (w k : ℕ)
    (h : step s (.moving (.arrays i) deg order (.weight w)) = (s', .ok (.fit k)))
    (ops : List (Op dim r K)) (hd : ∀ d, .writeData i d ∉ ops) (hw : ∀ g, .setFamily w g ∉ ops)
    (x y : XArg dim K) (p : Pt dim K) (hx : Is s' x p) (hy : Is (run s' ops) y p) :
    (step (run s' ops) (.eval k y)).2 = (step s' (.eval k x)).2 := by
  rw [C99_moving s s' i deg order w k h ops y p hy, run_data s' ops i hd, run_family s' ops w hw]
  exact (C99_moving s s' i deg order w k h [] x p hx).symm

/-- C99: making fits and evaluating them changes no data, no point array, no fit, and of the weight
functions only the core of one, and this only when a moving fit made with it is evaluated. -/
theorem C99_isolated (s : State dim r K) (k : ℕ) (x : XArg dim K) :
    let s' := (step s (.eval k x)).1
    s'.data = s.data ∧ s'.arrays = s.arrays ∧ s'.fits = s.fits ∧
      (∀ j, (s'.weights j).family = (s.weights j).family) ∧
      (s'.weights = s.weights ∨ ∃ i w deg order, s.fits[k]? = some (.moving i (some w) deg order) ∧
        (s'.weights w).core = some x ∧ ∀ j, j ≠ w → s'.weights j = s.weights j) := by
  cases h : s.fits[k]? with
  | none => simp [step, h]
  | some f =>
    simp only [step, h]
    rcases evaluate_state s x f with e | ⟨i, w, deg, order, hf, e⟩ <;> rw [e]
    · exact ⟨rfl, rfl, rfl, fun _ => rfl, .inl rfl⟩
    · refine ⟨rfl, rfl, rfl, fun j => setCore_family s w j x, .inr ⟨i, w, deg, order, by rw [hf], ?_, ?_⟩⟩
      · simp [State.setCore]
      · intro j hj
        simp [State.setCore, Function.update_of_ne hj]

/-- C99: making a fit changes no object that exists. -/
theorem C99_making (s : State dim r K) (d : DArg dim r K) (deg : ℕ) (order : ℤ) (w : WArg dim K)
    (op : Op dim r K) (hop : op = .weighted d deg order w ∨ op = .moving d deg order w) :
    (step s op).1.data = s.data ∧ (step s op).1.arrays = s.arrays ∧
      (step s op).1.weights = s.weights ∧ ∃ l, (step s op).1.fits = s.fits ++ l := by
  refine ⟨?_, ?_, ?_, step_fits s op⟩ <;> rcases hop with rfl | rfl
  all_goals first
    | (cases d <;> rfl)
    | (cases hF : s.fit (s.dataArg d) deg order w.object <;> simp [step, hF])

/-- C99 is violated: the weight function of the user does not stay as it is.  After a moving fit was
evaluated, also if the evaluation raised, the weight function is centred at that point, so that its values
and all weighted fits made with it later are other ones. -/
theorem C99_core_violated (s : State dim r K) (k i w deg : ℕ) (order : ℤ)
    (hk : s.fits[k]? = some (.moving i (some w) deg order)) (x : XArg dim K) (p : Pt dim K)
    (hp : Is s x p) (y : Pt dim K) :
    (step (step s (.eval k x)).1 (.weigh w y)).2 =
      ((s.weights w).family (some p)).map fun W => .number (W.f y) := by
  simp only [step, hk, State.evaluate, weight_setCore, is_point s x p hp]

/-- C99 is violated: an array set as the core is shared; writing to the array moves the weight
function. -/
theorem C99_alias_violated (s : State dim r K) (w a : ℕ) (p y : Pt dim K) :
    (step (run s [.setCore w (.array a), .writeArray a p]) (.weigh w y)).2 =
      ((s.weights w).family (some p)).map fun W => .number (W.f y) := by
  simp [run, step, State.setCore, State.weight, State.point]

/-- C99 is violated: the argument `w` is annotated as a callable, but a callable that is not a weight
function of the library has no effect at all; no exception is raised. -/
theorem C99_callable_violated (s : State dim r K) (d : DArg dim r K) (deg : ℕ) (order : ℤ)
    (g : Pt dim K → K) :
    step s (.weighted d deg order (.callable g)) = step s (.weighted d deg order .none) ∧
      step s (.moving d deg order (.callable g)) = step s (.moving d deg order .none) := by
  constructor
  · rfl
  · cases d <;> rfl

/-- C99: lists work as data of weighted fits like arrays with the same numbers. -/
theorem C99_lists (s : State dim r K) (i deg : ℕ) (order : ℤ) (w : WArg dim K) :
    step s (.weighted (.lists (s.data i)) deg order w) = step s (.weighted (.arrays i) deg order w) := rfl

/-- C99 is violated: moving fits are said to be used in the same way, but lists raise an
AttributeError. -/
theorem C99_lists_violated (s : State dim r K) (d : Data dim r K) (deg : ℕ) (order : ℤ)
    (w : WArg dim K) :
    step s (.moving (.lists d) deg order w) = (s, .error .attribute) := rfl

end

/-! ## Examples -/

/-- A cubic weight function with support domain 4; without a core it cannot be evaluated. -/
def exFamily : Option (Pt 1 ℚ) → Py (Weight 1 ℚ)
  | none => .error .type
  | some c => .ok (Wt.cubic1 ![4] c)

/-- Three points on a line with values that are not linear, a weight function centred at 0. -/
def exState : State 1 1 ℚ where
  data _ := ⟨3, ![![0], ![1], ![3]], ![![0], ![1], ![9]]⟩
  arrays _ := ![1]
  weights _ := ⟨exFamily, some (.copy ![0])⟩
  fits := []

/-- The first number in a result. -/
def first : Py (Ret 1 1 ℚ) → Option ℚ
  | .ok (.out o) => some (o.f 0)
  | .ok (.number v) => some v
  | _ => none

/-- A session with a weighted and a moving fit sharing a weight function: both are made, and the moving
fit is moved about. -/
def exOps : List (Op 1 1 ℚ) :=
  [.weighted (.arrays 0) 1 2 (.weight 0), .moving (.arrays 0) 1 2 (.weight 0)]

/-- The hypotheses of the theorems can be met: the fits are made and evaluated. -/
example : (run exState exOps).fits.length = 2 ∧
    (first (step (run exState exOps) (.eval 0 (.copy ![2]))).2).isSome ∧
    (first (step (run exState exOps) (.eval 1 (.copy ![2]))).2).isSome := by
  decide +kernel

/-- The weight at 0 is 2/3, and after the moving fit was evaluated at 2 it is 1/6. -/
example : first (step (run exState exOps) (.weigh 0 ![0])).2 = some (2 / 3) ∧
    first (step (run exState (exOps ++ [.eval 1 (.copy ![2])])) (.weigh 0 ![0])).2 = some (1 / 6) := by
  decide +kernel

/-- A weighted fit made before and one made after the evaluation of the moving fit differ. -/
example : first (step (run exState (exOps ++ [.eval 1 (.copy ![2]),
      .weighted (.arrays 0) 1 2 (.weight 0)])) (.eval 0 (.copy ![2]))).2 ≠
    first (step (run exState (exOps ++ [.eval 1 (.copy ![2]),
      .weighted (.arrays 0) 1 2 (.weight 0)])) (.eval 2 (.copy ![2]))).2 := by
  decide +kernel

/-- The weights matter: a callable with the values of the weight function gives another fit than the
weight function. -/
example : first (step (run exState
      [.weighted (.arrays 0) 1 2 (.callable fun y => (Wt.cubic1 ![4] ![0]).f y)])
        (.eval 0 (.copy ![2]))).2 ≠
    first (step (run exState [.weighted (.arrays 0) 1 2 (.weight 0)]) (.eval 0 (.copy ![2]))).2 := by
  decide +kernel

end Verif.FitObj.Props
