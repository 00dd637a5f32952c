import Verif.Props.LeastSq

/-!
# C142: fits are superpositions, and how close they come to the function behind the data
-/

set_option linter.unusedSectionVars false

namespace Verif.LS.Props
open Verif Verif.Frames Verif.LS Matrix MvPolynomial

variable {K : Type} [Field K] [LinearOrder K]

section
variable {dim n r : ℕ}

/-- One record for every point: 1 at this point, 0 at the others. -/
def unitData (n : ℕ) : Fin n → Fin n → K := fun i k => if i = k then 1 else 0

theorem map_unit {α β γ β' γ' : Type} (z : Py α) (f : α → β) (g : β → γ) (f' : α → β') (g' : β' → γ') :
    ((z.map f).map g).map (fun _ => ()) = ((z.map f').map g').map fun _ => () := by
  cases z <;> rfl

/-- Whether there is a fit does not depend on the data. -/
theorem wlsDim_status_same {r' : ℕ} (points : Fin n → Pt dim K) (v : Fin n → Fin r → K) (v' : Fin n → Fin r' → K)
    (deg : ℕ) (w : Weight dim K) (a b : Bool) :
    (wlsDim dim points v deg w a b).map (fun _ => ()) = (wlsDim dim points v' deg w a b).map fun _ => () := by
  match dim, points, w with
  | 0, _, _ => rfl
  | _ + 4, _, _ => rfl
  | 1, points, w =>
    simp only [wlsDim]
    cases getPolynomial (K := K) deg 1 with
    | error e => rfl
    | ok bas =>
      show ((preproc1 points v deg w bas.2.b).map _).map _ = ((preproc1 points v' deg w bas.2.b).map _).map _
      unfold preproc1
      split
      · rfl
      · exact map_unit _ _ _ _ _
  | 2, points, w =>
    simp only [wlsDim]
    cases getPolynomial (K := K) deg 2 with
    | error e => rfl
    | ok bas =>
      show ((preproc2 points v deg w bas.2.b).map _).map _ = ((preproc2 points v' deg w bas.2.b).map _).map _
      unfold preproc2
      split
      · rfl
      · exact map_unit _ _ _ _ _
  | 3, points, w =>
    simp only [wlsDim]
    cases getPolynomial (K := K) deg 3 with
    | error e => rfl
    | ok bas =>
      show ((preproc3 points v deg w bas.2.b).map _).map _ = ((preproc3 points v' deg w bas.2.b).map _).map _
      unfold preproc3
      split
      · rfl
      · exact map_unit _ _ _ _ _

theorem apply_unit (s : Fin n → K) (V : Matrix (Fin n) (Fin r) K) (ρ : Fin r) :
    apply s V ρ = ∑ k, apply s (Matrix.of (unitData (K := K) n)) k * V k ρ := by
  have h : Matrix.of (unitData (K := K) n) = 1 := by
    ext i j
    rfl
  rw [h]
  unfold apply
  rw [Matrix.vecMul_one]
  rfl

/-- C142: the fit of any data is the superposition of the fits of unit data: there is one if and only if there is one
for unit data (otherwise the same exception is raised), and its values, gradients and second derivatives at every
point are the sums of those of the unit fits, times the data. -/
theorem C142_superposition (points : Fin n → Pt dim K) (values : Fin n → Fin r → K) (deg : ℕ) (order : ℤ)
    (w : Option (Weight dim K)) :
    (∀ err, wls points (unitData n) deg order w = .error err → wls points values deg order w = .error err) ∧
    ∀ U, wls points (unitData n) deg order w = .ok U →
      ∃ F, wls points values deg order w = .ok F ∧ ∀ x,
        (∀ ρ, (F x).f ρ = ∑ k, (U x).f k * values k ρ) ∧
        (F x).g = (U x).g.map (fun g j ρ => ∑ k, g j k * values k ρ) ∧
        (F x).H = (U x).H.map (fun H h ρ => ∑ k, H h k * values k ρ) := by
  rw [wls_eq, wls_eq]
  have hs := wlsDim_status_same points (unitData n) values deg (weightOf w) (decide (0 < order)) (decide (1 < order))
  constructor
  · intro err he
    rw [he] at hs
    cases h : wlsDim dim points values deg (weightOf w) (decide (0 < order)) (decide (1 < order)) with
    | error e => rw [h] at hs; injection hs with hs; rw [hs]
    | ok F => rw [h] at hs; cases hs
  · intro U hU
    cases h : wlsDim dim points values deg (weightOf w) (decide (0 < order)) (decide (1 < order)) with
    | error e => rw [h, hU] at hs; cases hs
    | ok F =>
      refine ⟨F, rfl, fun x => ?_⟩
      obtain ⟨k, bas, P, hb, hi, hV, hB, hd, hdd, hx⟩ := wlsDim_structure _ _ _ _ _ _ _ h
      obtain ⟨k', bas', P', hb', hi', hV', hB', hd', hdd', hx'⟩ := wlsDim_structure _ _ _ _ _ _ _ hU
      rw [hb] at hb'
      cases hb'
      rw [hi] at hi'
      have eI : P'.invA = P.invA := by injection hi' with q; exact q.symm
      have eB : P'.B = P.B := hB'.trans hB.symm
      have eAd : P'.Ad = P.Ad := funext fun j => (hd' j).1.trans (hd j).1.symm
      have eBd : P'.Bd = P.Bd := funext fun j => (hd' j).2.trans (hd j).2.symm
      have eAdd : P'.Add = P.Add := funext fun j => (hdd' j).1.trans (hdd j).1.symm
      have eBdd : P'.Bdd = P.Bdd := funext fun j => (hdd' j).2.trans (hdd j).2.symm
      obtain ⟨f1, g1, H1⟩ := hx x
      obtain ⟨f2, g2, H2⟩ := hx' x
      refine ⟨fun ρ => ?_, ?_, ?_⟩
      · rw [f1, f2]
        unfold mlsF
        rw [eI, eB, hV', hV]
        exact apply_unit _ _ _
      · rw [g1, g2]
        split
        · refine congrArg some (funext fun j => funext fun ρ => ?_)
          unfold mlsG gammaD
          rw [eI, eB, eAd, eBd, hV', hV]
          exact apply_unit _ _ _
        · rfl
      · rw [H1, H2]
        split
        · refine congrArg some (funext fun j => funext fun ρ => ?_)
          unfold mlsHm gammaD
          rw [eI, eB, eAd, eBd, eAdd, eBdd, hV', hV]
          exact apply_unit _ _ _
        · rfl

/-- C142: the unit fits have the moments of polynomials of the chosen degree; in particular they sum up to 1. -/
theorem C142_moments (points : Fin n → Pt dim K) (deg : ℕ) (order : ℤ) (w : Option (Weight dim K))
    (U : Fit dim n K) (hU : wls points (unitData n) deg order w = .ok U) (x : Pt dim K)
    (q : MvPolynomial (Fin dim) K) (hq : q.totalDegree ≤ deg) :
    ∑ k, (U x).f k * eval (points k) q = eval x q ∧
      (∀ g, (U x).g = some g → ∀ j, ∑ k, g j k * eval (points k) q = eval x (pderiv j q)) ∧
      ∀ H, (U x).H = some H → ∀ h, ∑ k, H h k * eval (points k) q =
        eval x (pderiv (dirs dim h).2 (pderiv (dirs dim h).1 q)) := by
  obtain ⟨F, hF, h1⟩ := (C142_superposition points (fun k (_ : Fin 1) => eval (points k) q) deg order w).2 U hU
  obtain ⟨a, b, c⟩ := h1 x
  obtain ⟨a', b', c'⟩ := C52_reproduction points _ deg order w F hF (fun _ => q) (fun _ => hq) (fun _ _ => rfl) x
  refine ⟨(a 0).symm.trans (a' 0), fun g hg j => ?_, fun H hH h => ?_⟩
  · rw [hg, b'] at b
    split at b
    · injection b with b
      exact (congrFun (congrFun b j) 0).symm
    · cases b
  · rw [hH, c'] at c
    split at c
    · injection c with c
      exact (congrFun (congrFun c h) 0).symm
    · cases c

/-- C142: data at points with weight zero have no influence on the values of a fit. -/
theorem C142_local (points : Fin n → Pt dim K) (deg : ℕ) (order : ℤ) (w : Option (Weight dim K))
    (U : Fit dim n K) (hU : wls points (unitData n) deg order w = .ok U) (x : Pt dim K) (k : Fin n)
    (hk : (weightOf w).f (points k) = 0) : (U x).f k = 0 := by
  rw [wls_eq] at hU
  obtain ⟨k', bas', P', hb', hi', hV', hB', hd', hdd', hx'⟩ := wlsDim_structure _ _ _ _ _ _ _ hU
  have h : Matrix.of (unitData (K := K) n) = 1 := by
    ext i j
    rfl
  rw [(hx' x).1]
  unfold mlsF apply
  rw [hV', h, Matrix.vecMul_one, hB']
  show ∑ a, _ * (bas'.b (points k) a * (weightOf w).f (points k)) = 0
  simp [hk]

variable [IsStrictOrderedRing K]

theorem sum_close (S v q : Fin n → K) (E : K) (p : Fin n → Prop) (hp : ∀ k, ¬p k → S k = 0)
    (h : ∀ k, p k → |v k - q k| ≤ E) :
    |∑ k, S k * v k - ∑ k, S k * q k| ≤ E * ∑ k, |S k| := by
  rw [← Finset.sum_sub_distrib, Finset.mul_sum]
  refine (Finset.abs_sum_le_sum_abs _ _).trans (Finset.sum_le_sum fun k _ => ?_)
  rw [← mul_sub, abs_mul, mul_comm]
  by_cases hk : p k
  · exact mul_le_mul_of_nonneg_right (h k hk) (abs_nonneg _)
  · rw [hp k hk]
    simp

/-- C142: if some polynomial of the chosen degree is within `E` of the data at the points that have a weight, and
within `E'` of the number `y` at `x`, then the value of the fit at `x` is within `E' + E Λ` of `y`, where `Λ` is the sum
of the absolute values of the unit fits at `x`. -/
theorem C142_accuracy (points : Fin n → Pt dim K) (values : Fin n → Fin r → K) (deg : ℕ) (order : ℤ)
    (w : Option (Weight dim K)) (U : Fit dim n K) (hU : wls points (unitData n) deg order w = .ok U) :
    ∃ F, wls points values deg order w = .ok F ∧
      ∀ (x : Pt dim K) (ρ : Fin r) (q : MvPolynomial (Fin dim) K) (y E E' : K), q.totalDegree ≤ deg →
        (∀ k, (weightOf w).f (points k) ≠ 0 → |values k ρ - eval (points k) q| ≤ E) → |eval x q - y| ≤ E' →
        |(F x).f ρ - y| ≤ E' + E * ∑ k, |(U x).f k| := by
  obtain ⟨F, hF, h1⟩ := (C142_superposition points values deg order w).2 U hU
  refine ⟨F, hF, fun x ρ q y E E' hq hE hy => ?_⟩
  have e1 := sum_close (fun k => (U x).f k) (fun k => values k ρ) (fun k => eval (points k) q) E
    (fun k => (weightOf w).f (points k) ≠ 0) (fun k hk => C142_local points deg order w U hU x k (not_not.mp hk)) hE
  rw [(C142_moments points deg order w U hU x q hq).1, ← (h1 x).1 ρ] at e1
  have e3 : (F x).f ρ - y = ((F x).f ρ - eval x q) + (eval x q - y) := by ring
  rw [e3]
  exact (abs_add_le _ _).trans (by linarith)

/-- C142 for the derivatives reported: within `E' + E Λ` of numbers that are within `E'` of the derivatives of a
polynomial that is within `E` of the data, with the derivatives reported for the unit fits in `Λ`. -/
theorem C142_derivatives (points : Fin n → Pt dim K) (values : Fin n → Fin r → K) (deg : ℕ) (order : ℤ)
    (w : Option (Weight dim K)) (U : Fit dim n K) (hU : wls points (unitData n) deg order w = .ok U) :
    ∃ F, wls points values deg order w = .ok F ∧
      ∀ (x : Pt dim K) (ρ : Fin r) (q : MvPolynomial (Fin dim) K) (y E E' : K), q.totalDegree ≤ deg →
        (∀ k, |values k ρ - eval (points k) q| ≤ E) →
        (0 < order → ∃ g gU, (F x).g = some g ∧ (U x).g = some gU ∧ ∀ j, |eval x (pderiv j q) - y| ≤ E' →
          |g j ρ - y| ≤ E' + E * ∑ k, |gU j k|) ∧
        (1 < order → ∃ H HU, (F x).H = some H ∧ (U x).H = some HU ∧
          ∀ h, |eval x (pderiv (dirs dim h).2 (pderiv (dirs dim h).1 q)) - y| ≤ E' →
            |H h ρ - y| ≤ E' + E * ∑ k, |HU h k|) := by
  obtain ⟨F, hF, h1⟩ := (C142_superposition points values deg order w).2 U hU
  refine ⟨F, hF, fun x ρ q y E E' hq hE => ?_⟩
  obtain ⟨-, m2, m3⟩ := C142_moments points deg order w U hU x q hq
  obtain ⟨-, g1, g2⟩ := h1 x
  have hU' := hU
  rw [wls_eq] at hU'
  obtain ⟨_, _, _, _, _, _, _, _, _, hx⟩ := wlsDim_structure _ _ _ _ _ _ _ hU'
  obtain ⟨-, o1, o2⟩ := hx x
  constructor
  · intro ho
    rw [if_pos (by simpa using ho)] at o1
    obtain ⟨gU, o1⟩ : ∃ gU, (U x).g = some gU := ⟨_, o1⟩
    rw [o1] at g1
    refine ⟨_, _, g1, o1, fun j hy => ?_⟩
    have e1 := sum_close (gU j) (fun k => values k ρ) (fun k => eval (points k) q) E (fun _ => True)
      (fun k hk => absurd trivial hk) (fun k _ => hE k)
    rw [m2 _ o1 j] at e1
    have := abs_add_le (∑ k, gU j k * values k ρ - eval x (pderiv j q)) (eval x (pderiv j q) - y)
    rw [sub_add_sub_cancel] at this
    exact this.trans (by linarith)
  · intro ho
    rw [if_pos (by simpa using ho)] at o2
    obtain ⟨HU, o2⟩ : ∃ HU, (U x).H = some HU := ⟨_, o2⟩
    rw [o2] at g2
    refine ⟨_, _, g2, o2, fun j hy => ?_⟩
    have e1 := sum_close (HU j) (fun k => values k ρ) (fun k => eval (points k) q) E (fun _ => True)
      (fun k hk => absurd trivial hk) (fun k _ => hE k)
    rw [m3 _ o2 j] at e1
    have := abs_add_le (∑ k, HU j k * values k ρ - eval x (pderiv (dirs dim j).2 (pderiv (dirs dim j).1 q)))
      (eval x (pderiv (dirs dim j).2 (pderiv (dirs dim j).1 q)) - y)
    rw [sub_add_sub_cancel] at this
    exact this.trans (by linarith)

/-- C142 for moving least squares: only the points with a weight after the weight function is moved to `x` count. -/
theorem C142_moving (points : Fin n → Pt dim K) (values : Fin n → Fin r → K) (deg : ℕ) (order : ℤ)
    (w : Pt dim K → Weight dim K) (x : Pt dim K) (u : Out dim (HIdx dim) n K)
    (hu : movingLeastSquares points (unitData n) deg order (some w) x = .ok u) :
    ∃ o, movingLeastSquares points values deg order (some w) x = .ok o ∧
      (∀ ρ, o.f ρ = ∑ k, u.f k * values k ρ) ∧
      ∀ (ρ : Fin r) (q : MvPolynomial (Fin dim) K) (y E E' : K), q.totalDegree ≤ deg →
        (∀ k, (w x).f (points k) ≠ 0 → |values k ρ - eval (points k) q| ≤ E) → |eval x q - y| ≤ E' →
        |o.f ρ - y| ≤ E' + E * ∑ k, |u.f k| := by
  obtain ⟨U, hU, rfl⟩ := map_ok hu
  obtain ⟨F, hF, h1⟩ := C142_accuracy points values deg order (some (w x)) U hU
  obtain ⟨F', hF', h2⟩ := (C142_superposition points values deg order (some (w x))).2 U hU
  obtain rfl : F' = F := by
    rw [hF] at hF'
    injection hF' with q
    exact q.symm
  refine ⟨F' x, ?_, (h2 x).1, h1 x⟩
  have hF : weightedLeastSquares points values deg order (some ⟨dim, w x⟩) = .ok F' := hF
  show (weightedLeastSquares points values deg order (some ⟨dim, w x⟩)).map (fun f => f x) = .ok (F' x)
  rw [hF]
  rfl

end

/-- The unit fits of the points of C52 at 1: not all of them are positive at 5. -/
example : (wls exPoints (unitData 3) 1 2 none).map (fun U => (List.ofFn (U ![1]).f, List.ofFn (U ![5]).f,
      (U ![5]).g.map fun g => List.ofFn (g 0))) =
    .ok ([3 / 7, 5 / 14, 3 / 14], [-5 / 7, 1 / 14, 23 / 14], some [-2 / 7, -1 / 14, 5 / 14]) := by
  decide +kernel

/-- The second record of C52 is the function `x ^ 2` at 0, 1, 3. The line `3 x - 1` is within 1 of it. So the fit at 2
is within `1 + 1` of 4. -/
example : ∃ F, wls exPoints exValues 1 0 none = .ok F ∧ |(F ![2]).f 1 - 4| ≤ 1 + 1 * 1 := by
  have hU : ∃ U, wls exPoints (unitData 3) 1 0 none = .ok U ∧ List.ofFn (U ![2]).f = [1 / 7, 2 / 7, 4 / 7] := by
    have : (wls exPoints (unitData 3) 1 0 none).map (fun U => List.ofFn (U ![2]).f) = .ok [1 / 7, 2 / 7, 4 / 7] := by
      decide +kernel
    obtain ⟨U, h1, h2⟩ := map_ok this
    exact ⟨U, h1, h2⟩
  obtain ⟨U, hU, hS⟩ := hU
  obtain ⟨F, hF, h⟩ := C142_accuracy exPoints exValues 1 0 none U hU
  refine ⟨F, hF, ?_⟩
  have hq : (C 3 * X 0 - C 1 : MvPolynomial (Fin 1) ℚ).totalDegree ≤ 1 := by
    refine (totalDegree_sub _ _).trans (max_le ?_ (by simp))
    refine (totalDegree_mul _ _).trans (by simp)
  have key := h ![2] 1 (C 3 * X 0 - C 1) 4 1 1 hq (fun k _ => by
    fin_cases k <;> simp [exPoints, exValues] <;> norm_num) (by simp; norm_num)
  have hsum : ∑ k, |(U ![2]).f k| = 1 := by
    have e : ∑ k, |(U ![2]).f k| = ((List.ofFn (U ![2]).f).map fun a => |a|).sum := by
      rw [List.map_ofFn, List.sum_ofFn]
      rfl
    rw [e, hS]
    decide +kernel
  rwa [hsum] at key

/-- The derivatives for the same data: the slope of the line, and numbers that sum up to 0. -/
example : ∃ F, wls exPoints exValues 1 1 none = .ok F ∧ ∃ g gU, (F ![2]).g = some g ∧
    (∀ U, wls exPoints (unitData 3) 1 1 none = .ok U → (U ![2]).g = some gU) ∧ |g 0 1 - 4| ≤ 1 + 1 * ∑ k, |gU 0 k| := by
  obtain ⟨U, hU⟩ : ∃ U, wls exPoints (unitData 3) 1 1 none = .ok U := by
    have : (wls exPoints (unitData 3) 1 1 none).map (fun _ => ()) = .ok () := by decide +kernel
    obtain ⟨U, h1, -⟩ := map_ok this
    exact ⟨U, h1⟩
  obtain ⟨F, hF, h⟩ := C142_derivatives exPoints exValues 1 1 none U hU
  have hq : (C 3 * X 0 - C 1 : MvPolynomial (Fin 1) ℚ).totalDegree ≤ 1 := by
    refine (totalDegree_sub _ _).trans (max_le ?_ (by simp))
    refine (totalDegree_mul _ _).trans (by simp)
  obtain ⟨g, gU, h1, h2, h3⟩ := (h ![2] 1 (C 3 * X 0 - C 1) 4 1 1 hq (fun k => by
    fin_cases k <;> simp [exPoints, exValues] <;> norm_num)).1 (by decide)
  refine ⟨F, hF, g, gU, h1, fun U' hU' => ?_, h3 0 (by simp; norm_num)⟩
  rw [hU] at hU'
  cases hU'
  exact h2

/-- The weight 1 up to the distance 2 of the core. -/
def near2 (c : Pt 1 ℚ) : Weight 1 ℚ := ⟨fun y => if |y 0 - c 0| ≤ 2 then 1 else 0, fun _ _ => 0, fun _ _ _ => 0⟩

/-- Moved to 0, the weight leaves out the point 3, where the line `x` is not close to the data. -/
example : ∃ o, movingLeastSquares exPoints exValues 1 0 (some near2) ![0] = .ok o ∧ o.f 1 = 0 := by
  obtain ⟨u, hu⟩ : ∃ u, movingLeastSquares exPoints (unitData 3) 1 0 (some near2) ![0] = .ok u := by
    have : (movingLeastSquares exPoints (unitData 3) 1 0 (some near2) ![0]).map (fun _ => ()) = .ok () := by
      decide +kernel
    obtain ⟨U, h1, -⟩ := map_ok this
    exact ⟨U, h1⟩
  obtain ⟨o, ho, -, h⟩ := C142_moving exPoints exValues 1 0 near2 ![0] u hu
  refine ⟨o, ho, ?_⟩
  have key := h 1 (X 0) 0 0 0 (by simp) (fun k hk => by
    fin_cases k
    · simp [exPoints, exValues]
    · simp [exPoints, exValues]
    · exact absurd (by decide +kernel) hk) (by simp)
  simpa using key

end Verif.LS.Props
