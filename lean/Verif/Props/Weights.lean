import Verif.Proofs.Weights
import Verif.Props.LeastSqDeriv
import Mathlib.Tactic.NormNum

/-!
# C55: weight functions, and C66 for the cubic weights
-/

set_option linter.unusedSectionVars false

namespace Verif.Wt.Props
open Verif Verif.LS Verif.Wt Filter Topology

section
variable {K : Type} [Field K] [LinearOrder K] [IsStrictOrderedRing K] {dim : ℕ}

/-- The cubic weight is available in one and two dimensions only. -/
theorem C55_supported (sd core : Pt dim K) :
    (dim = 1 ∨ dim = 2 → ∃ w, cubic dim sd core = .ok w) ∧
    (¬(dim = 1 ∨ dim = 2) → cubic dim sd core = .error .notImplemented) := by
  match dim, sd, core with
  | 0, _, _ => exact ⟨by simp, fun _ => rfl⟩
  | 1, _, _ => exact ⟨fun _ => ⟨_, rfl⟩, by simp⟩
  | 2, _, _ => exact ⟨fun _ => ⟨_, rfl⟩, by simp⟩
  | _ + 3, _, _ => exact ⟨by omega, fun _ => rfl⟩

/-- The value as a product over the directions. -/
theorem cubic_value {sd core : Pt dim K} {w : Weight dim K} (hw : cubic dim sd core = .ok w)
    (hsd : ∀ i, 0 < sd i) (x : Pt dim K) : w.f x = ∏ i, W (|core i - x i| / sd i) := by
  match dim, sd, core, w, hw with
  | 0, _, _, _, hw => cases hw
  | 1, sd, core, w, hw =>
    injection hw with hw
    subst hw
    rw [Fin.prod_univ_one]
    exact (cubicR_abs _ _ (hsd 0)).1
  | 2, sd, core, w, hw =>
    injection hw with hw
    subst hw
    rw [Fin.prod_univ_two, ← (cubicR_abs _ _ (hsd 0)).1, ← (cubicR_abs _ _ (hsd 1)).1]
    rfl
  | _ + 3, _, _, _, hw => cases hw

/-- C55: cubic weights lie between zero and `(2/3)^dim`, are positive exactly inside the support
domain, and the largest value is taken at the core. -/
theorem C55_range {sd core : Pt dim K} {w : Weight dim K} (hw : cubic dim sd core = .ok w)
    (hsd : ∀ i, 0 < sd i) (x : Pt dim K) :
    0 ≤ w.f x ∧ w.f x ≤ (2 / 3) ^ dim ∧ (0 < w.f x ↔ ∀ i, |core i - x i| < sd i) ∧
      w.f core = (2 / 3) ^ dim := by
  have hr : ∀ (y : Pt dim K) i, 0 ≤ |core i - y i| / sd i :=
    fun y i => div_nonneg (abs_nonneg _) (hsd i).le
  refine ⟨?_, ?_, ⟨fun hpos i => ?_, fun h => ?_⟩, ?_⟩
  · rw [cubic_value hw hsd]
    exact Finset.prod_nonneg fun i _ => (W_bounds (hr x i)).1
  · rw [cubic_value hw hsd]
    refine (Finset.prod_le_prod (fun i _ => (W_bounds (hr x i)).1)
      fun i _ => (W_bounds (hr x i)).2.1).trans (le_of_eq ?_)
    simp [div_pow]
  · by_contra hi
    rw [cubic_value hw hsd, Finset.prod_eq_zero (Finset.mem_univ i)] at hpos
    · exact lt_irrefl _ hpos
    · exact (W_outside ((one_le_div (hsd i)).2 (not_lt.1 hi))).1
  · rw [cubic_value hw hsd]
    exact Finset.prod_pos fun i _ => (W_bounds (hr x i)).2.2 ((div_lt_one (hsd i)).2 (h i))
  · rw [cubic_value hw hsd]
    simp only [sub_self, abs_zero, zero_div]
    rw [(W_inner le_rfl (by positivity)).1]
    simp [div_pow]

/-- C55: cubic weights do not increase when the point moves away from the core. -/
theorem C55_monotone {sd core : Pt dim K} {w : Weight dim K} (hw : cubic dim sd core = .ok w)
    (hsd : ∀ i, 0 < sd i) (x y : Pt dim K) (h : ∀ i, |core i - x i| ≤ |core i - y i|) :
    w.f y ≤ w.f x := by
  rw [cubic_value hw hsd, cubic_value hw hsd]
  exact Finset.prod_le_prod
    (fun i _ => (W_bounds (div_nonneg (abs_nonneg _) (hsd i).le)).1)
    fun i _ => W_antitone (div_nonneg (abs_nonneg _) (hsd i).le)
      ((div_le_div_iff_of_pos_right (hsd i)).2 (h i))

/-- The hypotheses can be met: a point inside and a point outside. -/
example : cubic 2 ![1, 2] ![0, (1 : ℚ)] = .ok (cubic2 ![1, 2] ![0, 1]) ∧
    (cubic2 ![1, 2] ![0, (1 : ℚ)]).f ![1 / 4, 1] = 23 / 72 ∧
    (cubic2 ![1, 2] ![0, (1 : ℚ)]).f ![1 / 4, 4] = 0 :=
  ⟨rfl, by decide +kernel, by decide +kernel⟩

/-! ## Construction -/

/-- C55: a core given as a sequence is kept and determines the dimension; giving the support domain
twice is refused; `None` cannot be set as a core. -/
theorem C55_construction (l : List K) (supportdomain sd : Option (List K)) (d : Option ℕ) :
    (supportdomain = none ∨ sd = none →
      mk (.seq l) supportdomain sd d = .ok ⟨.vec l, some l.length, sd.orElse fun _ => supportdomain⟩) ∧
    (∀ core a b, mk core (some a) (some b) d = (.error .value : Py (Obj K))) ∧
    (∀ o : Obj K, setCore o .none = .error .value ∧ setCore o (.seq l) = .ok { o with core := .vec l } ∧
      ∀ v, setCore o (.scalar v) = .ok { o with core := .vec [v] }) := by
  refine ⟨?_, fun _ _ _ => rfl, fun _ => ⟨rfl, rfl, fun _ => rfl⟩⟩
  rintro (rfl | rfl)
  · cases sd <;> rfl
  · cases supportdomain <;> rfl

/-- C55: an integer given as the core is replaced by zero. -/
theorem C55_integer_core_violated (i : ℤ) (sd : Option (List K)) (d : Option ℕ) :
    mk (.int i) none sd d = .ok ⟨.vec [(0 : K)], some 1, sd⟩ := by
  cases sd <;> rfl

/-! ## Constant weights -/

/-- The constant weight is the given value on its closed support domain and zero outside. -/
theorem C55_constant (v : K) (s core x : Pt dim K) (hs : ∀ i, s i ≠ 0) :
    (constant dim v none core).f x = v ∧
    ((∀ i, |core i - x i| ≤ |s i|) → (constant dim v (some s) core).f x = v) ∧
    ((∃ i, |s i| < |core i - x i|) → (constant dim v (some s) core).f x = 0) := by
  have key : ∀ i, 1 < |(core i - x i) / s i| ↔ |s i| < |core i - x i| := fun i => by
    rw [abs_div, one_lt_div (abs_pos.2 (hs i))]
  refine ⟨rfl, fun h => if_neg ?_, fun ⟨i, hi⟩ => if_pos ?_⟩
  · simp only [List.any_eq_true, decide_eq_true_eq, not_exists, not_and]
    exact fun i _ => by rw [key]; exact not_lt.2 (h i)
  · simp only [List.any_eq_true, decide_eq_true_eq]
    exact ⟨i, List.mem_finRange i, (key i).2 hi⟩

/-- The singular weight is positive, at most `1/eps²`, and takes this value exactly at the core. -/
theorem C55_singular (eps : K) (heps : eps ≠ 0) (core x : Pt dim K) :
    0 < (singular dim eps core).f x ∧ (singular dim eps core).f x ≤ 1 / eps ^ 2 ∧
      ((singular dim eps core).f x = 1 / eps ^ 2 ↔ x = core) := by
  have he : 0 < eps ^ 2 := by positivity
  have hsum : ((List.finRange dim).map fun i => (core i - x i) ^ 2).sum = ∑ i, (core i - x i) ^ 2 := by
    rw [← List.ofFn_eq_map, List.sum_ofFn]
  have hnn : 0 ≤ ∑ i, (core i - x i) ^ 2 := Finset.sum_nonneg fun i _ => sq_nonneg _
  have hf : (singular dim eps core).f x = 1 / (∑ i, (core i - x i) ^ 2 + eps ^ 2) := by
    rw [← hsum]; rfl
  rw [hf]
  have hp : 0 < ∑ i, (core i - x i) ^ 2 + eps ^ 2 := by linarith
  refine ⟨one_div_pos.2 hp, one_div_le_one_div_of_le he (by linarith), ?_⟩
  rw [div_eq_div_iff hp.ne' he.ne', one_mul, one_mul]
  constructor
  · intro h
    have h0 : ∑ i, (core i - x i) ^ 2 = 0 := by linarith
    funext i
    have := (Finset.sum_eq_zero_iff_of_nonneg fun i _ => sq_nonneg (core i - x i)).1 h0 i
      (Finset.mem_univ i)
    have := (pow_eq_zero_iff two_ne_zero).1 this
    linarith
  · rintro rfl
    simp

end

/-! ## Derivatives -/

section
variable {dim : ℕ} {sd : Pt dim ℝ} {v : Pt dim ℝ → Weight dim ℝ}

theorem hasDerivAt_scaled (a dm c : ℝ) :
    HasDerivAt (fun t => W ((t - a) / dm)) (W1 ((c - a) / dm) / dm) c := by
  have h := (hasDerivAt_W ((c - a) / dm)).comp c (((hasDerivAt_id c).sub_const a).div_const dm)
  refine h.congr_deriv ?_
  simp [div_eq_mul_inv]

theorem hasDerivAt_scaled1 (a dm c : ℝ) :
    HasDerivAt (fun t => W1 ((t - a) / dm) / dm) (W2 ((c - a) / dm) / dm ^ 2) c := by
  have h := ((hasDerivAt_W1 ((c - a) / dm)).comp c
    (((hasDerivAt_id c).sub_const a).div_const dm)).div_const dm
  refine h.congr_deriv ?_
  rw [sq, ← div_div]
  simp [div_eq_mul_inv]

theorem hasDerivAt_value (a dm c : ℝ) (hdm : 0 < dm) (h : c = a ∨ 1 / 10 ^ 12 ≤ |c - a|) :
    HasDerivAt (fun t => (cubicR (t - a) dm).1) (cubicR (c - a) dm).2.1 c := by
  rw [cubicR_first _ _ hdm (h.imp (fun h => by rw [h, sub_self]) id)]
  refine (hasDerivAt_scaled a dm c).congr_of_eventuallyEq (Eventually.of_forall fun t => ?_)
  exact cubicR_value _ _ hdm

theorem hasDerivAt_first (a dm c : ℝ) (hdm : 0 < dm) (h : 1 / 10 ^ 12 < |c - a|) :
    HasDerivAt (fun t => (cubicR (t - a) dm).2.1) (cubicR (c - a) dm).2.2 c := by
  rw [(cubicR_derivs _ _ hdm h.le).2]
  refine (hasDerivAt_scaled1 a dm c).congr_of_eventuallyEq ?_
  have hc : ContinuousAt (fun t : ℝ => |t - a|) c := by fun_prop
  filter_upwards [hc.eventually (lt_mem_nhds h)] with t ht
  exact (cubicR_derivs _ _ hdm ht.le).1

/-- C55: the reported gradient is the gradient of the weight with respect to its core, at the core
and wherever the coordinate differs from that of the core by at least 1e-12. -/
theorem C55_gradient_partial (hv : ∀ c, cubic dim sd c = .ok (v c)) (hsd : ∀ i, 0 < sd i)
    (core x : Pt dim ℝ) (j : Fin dim) (hd : core j = x j ∨ 1 / 10 ^ 12 ≤ |core j - x j|) :
    HasDerivAt (fun t => (v (Function.update core j t)).f x) ((v core).g x j) (core j) := by
  match dim, sd, v, core, x, j, hv with
  | 1, sd, v, core, x, 0, hv =>
    have hve : v = cubic1 sd := funext fun c => by injection (hv c).symm
    subst hve
    refine (hasDerivAt_value (x 0) (sd 0) (core 0) (hsd 0) hd).congr_of_eventuallyEq
      (Eventually.of_forall fun t => ?_)
    simp [cubic1]
  | 2, sd, v, core, x, 0, hv =>
    have hve : v = cubic2 sd := funext fun c => by injection (hv c).symm
    subst hve
    refine (((hasDerivAt_value (x 0) (sd 0) (core 0) (hsd 0) hd).mul_const
      (cubicR (core 1 - x 1) (sd 1)).1).congr_deriv ?_).congr_of_eventuallyEq
      (Eventually.of_forall fun t => ?_)
    · simp [cubic2, mul_comm]
    · simp [cubic2]
  | 2, sd, v, core, x, 1, hv =>
    have hve : v = cubic2 sd := funext fun c => by injection (hv c).symm
    subst hve
    refine (((hasDerivAt_value (x 1) (sd 1) (core 1) (hsd 1) hd).const_mul
      (cubicR (core 0 - x 0) (sd 0)).1).congr_deriv ?_).congr_of_eventuallyEq
      (Eventually.of_forall fun t => ?_)
    · simp [cubic2]
    · simp [cubic2]
  | _ + 3, sd, v, core, x, j, hv => cases hv core

/-- C55: the reported Hessian contains the derivatives of the reported gradient with respect to the
core, wherever the coordinates differ from those of the core by more than 1e-12 (for the mixed
derivatives also if they are equal). -/
theorem C55_hessian_partial (hv : ∀ c, cubic dim sd c = .ok (v c)) (hsd : ∀ i, 0 < sd i)
    (core x : Pt dim ℝ) (i j : Fin dim)
    (hd : 1 / 10 ^ 12 < |core j - x j| ∨ i ≠ j ∧ core j = x j) :
    HasDerivAt (fun t => (v (Function.update core j t)).g x i) ((v core).G x i j) (core j) := by
  match dim, sd, v, core, x, i, j, hv with
  | 1, sd, v, core, x, 0, 0, hv =>
    have hve : v = cubic1 sd := funext fun c => by injection (hv c).symm
    subst hve
    have hd' := hd.resolve_right fun h => h.1 rfl
    refine (hasDerivAt_first (x 0) (sd 0) (core 0) (hsd 0) hd').congr_of_eventuallyEq
      (Eventually.of_forall fun t => ?_)
    simp [cubic1]
  | 2, sd, v, core, x, 0, 0, hv =>
    have hve : v = cubic2 sd := funext fun c => by injection (hv c).symm
    subst hve
    have hd' := hd.resolve_right fun h => h.1 rfl
    refine (((hasDerivAt_first (x 0) (sd 0) (core 0) (hsd 0) hd').const_mul
      (cubicR (core 1 - x 1) (sd 1)).1).congr_deriv ?_).congr_of_eventuallyEq
      (Eventually.of_forall fun t => ?_)
    · simp [cubic2]
    · simp [cubic2]
  | 2, sd, v, core, x, 1, 1, hv =>
    have hve : v = cubic2 sd := funext fun c => by injection (hv c).symm
    subst hve
    have hd' := hd.resolve_right fun h => h.1 rfl
    refine (((hasDerivAt_first (x 1) (sd 1) (core 1) (hsd 1) hd').const_mul
      (cubicR (core 0 - x 0) (sd 0)).1).congr_deriv ?_).congr_of_eventuallyEq
      (Eventually.of_forall fun t => ?_)
    · simp [cubic2]
    · simp [cubic2]
  | 2, sd, v, core, x, 0, 1, hv =>
    have hve : v = cubic2 sd := funext fun c => by injection (hv c).symm
    subst hve
    have hd' : core 1 = x 1 ∨ 1 / 10 ^ 12 ≤ |core 1 - x 1| :=
      hd.elim (fun h => .inr h.le) fun h => .inl h.2
    refine (((hasDerivAt_value (x 1) (sd 1) (core 1) (hsd 1) hd').mul_const
      (cubicR (core 0 - x 0) (sd 0)).2.1).congr_deriv ?_).congr_of_eventuallyEq
      (Eventually.of_forall fun t => ?_)
    · simp [cubic2, mul_comm]
    · simp [cubic2]
  | 2, sd, v, core, x, 1, 0, hv =>
    have hve : v = cubic2 sd := funext fun c => by injection (hv c).symm
    subst hve
    have hd' : core 0 = x 0 ∨ 1 / 10 ^ 12 ≤ |core 0 - x 0| :=
      hd.elim (fun h => .inr h.le) fun h => .inl h.2
    refine (((hasDerivAt_value (x 0) (sd 0) (core 0) (hsd 0) hd').mul_const
      (cubicR (core 1 - x 1) (sd 1)).2.1).congr_deriv ?_).congr_of_eventuallyEq
      (Eventually.of_forall fun t => ?_)
    · simp [cubic2]
    · simp [cubic2]
  | _ + 3, sd, v, core, x, i, j, hv => cases hv core

/-- C55: with respect to the argument of the function the reported gradient has the opposite sign. -/
theorem C55_gradient_of_argument (sd core x : Pt 1 ℝ) (hsd : 0 < sd 0)
    (hd : core 0 = x 0 ∨ 1 / 10 ^ 12 ≤ |core 0 - x 0|) :
    HasDerivAt (fun t => (cubic1 sd core).f (Function.update x 0 t)) (-(cubic1 sd core).g x 0)
      (x 0) := by
  have h1 := hasDerivAt_scaled (core 0) (sd 0) (x 0)
  refine (h1.congr_deriv ?_).congr_of_eventuallyEq (Eventually.of_forall fun t => ?_)
  · show _ = -(cubicR (core 0 - x 0) (sd 0)).2.1
    rw [cubicR_first _ _ hsd (hd.imp (fun h => by rw [h, sub_self]) id), ← neg_div, ← W1_neg,
      ← neg_div, neg_sub]
  · show (cubicR (core 0 - Function.update x 0 t 0) (sd 0)).1 = _
    rw [cubicR_value _ _ hsd, Function.update_self, ← W_neg, ← neg_div, neg_sub]

/-- C55: the reported gradient is not the gradient of the function, for instance at 1/4 for the
support domain 1 around the origin, where 5/4 is reported though the weight decreases. -/
theorem C55_gradient_sign_violated :
    (cubic1 ![(1 : ℝ)] ![0]).g ![1 / 4] 0 = 5 / 4 ∧
    HasDerivAt (fun t => (cubic1 ![(1 : ℝ)] ![0]).f ![t]) (-(5 / 4)) (1 / 4) := by
  have hg : (cubic1 ![(1 : ℝ)] ![0]).g ![1 / 4] 0 = 5 / 4 := by
    show (cubicR ((0 : ℝ) - 1 / 4) 1).2.1 = 5 / 4
    rw [(cubicR_derivs _ _ one_pos (by rw [abs_of_neg] <;> norm_num)).1,
      show ((0 : ℝ) - 1 / 4) / 1 = -(1 / 4) by norm_num, W1_neg,
      (W_inner (by norm_num) (by norm_num)).2.1]
    norm_num
  refine ⟨hg, ?_⟩
  have h := C55_gradient_of_argument ![(1 : ℝ)] ![0] ![1 / 4] one_pos
    (.inr (by show (1 : ℝ) / 10 ^ 12 ≤ |0 - 1 / 4|; rw [abs_of_neg] <;> norm_num))
  rw [hg] at h
  refine h.congr_of_eventuallyEq (Eventually.of_forall fun t => ?_)
  have : Function.update ![(1 : ℝ) / 4] 0 t = ![t] := by
    funext i
    fin_cases i
    simp
  show _ = (cubic1 ![(1 : ℝ)] ![0]).f (Function.update ![(1 : ℝ) / 4] 0 t)
  rw [this]

/-- C55: at the core the second derivative is `-8/sd²` while zero is reported. -/
theorem C55_hessian_core_violated (sd core : Pt 1 ℝ) (hsd : 0 < sd 0) :
    deriv (deriv fun t => (cubic1 sd ![t]).f core) (core 0) = -8 / sd 0 ^ 2 ∧
      (cubic1 sd core).G core 0 0 = 0 := by
  constructor
  · have h1 : (deriv fun t => (cubic1 sd ![t]).f core) = fun t => W1 ((t - core 0) / sd 0) / sd 0 := by
      funext c
      refine HasDerivAt.deriv ((hasDerivAt_scaled (core 0) (sd 0) c).congr_of_eventuallyEq
        (Eventually.of_forall fun t => ?_))
      exact cubicR_value _ _ hsd
    rw [h1, (hasDerivAt_scaled1 (core 0) (sd 0) (core 0)).deriv, sub_self, zero_div, W2_zero]
  · show (cubicR (core 0 - core 0) (sd 0)).2.2 = 0
    rw [sub_self]
    exact (cubicR_near 0 _ hsd (by simp)).2

/-- C55: closer to the core than 1e-12 a zero gradient is reported, which is not the derivative. -/
theorem C55_gradient_near_core_violated (sd core x : Pt 1 ℝ) (hsd : 1 ≤ sd 0)
    (hd : 0 < |core 0 - x 0|) (hd' : |core 0 - x 0| < 1 / 10 ^ 12) :
    (cubic1 sd core).g x 0 = 0 ∧
      ¬HasDerivAt (fun t => (cubic1 sd (Function.update core 0 t)).f x) ((cubic1 sd core).g x 0)
        (core 0) := by
  have hpos : 0 < sd 0 := by linarith
  have hz : (cubic1 sd core).g x 0 = 0 := (cubicR_near _ _ hpos hd').1
  refine ⟨hz, fun h => ?_⟩
  have h2 : HasDerivAt (fun t => (cubic1 sd (Function.update core 0 t)).f x)
      (W1 ((core 0 - x 0) / sd 0) / sd 0) (core 0) := by
    refine (hasDerivAt_scaled (x 0) (sd 0) (core 0)).congr_of_eventuallyEq
      (Eventually.of_forall fun t => ?_)
    show (cubicR (Function.update core 0 t 0 - x 0) (sd 0)).1 = _
    rw [cubicR_value _ _ hpos, Function.update_self]
  have h3 := h.unique h2
  rw [hz, eq_comm, div_eq_zero_iff] at h3
  have h4 : W1 (|core 0 - x 0| / sd 0) = 0 := by
    rcases abs_cases (core 0 - x 0) with ⟨h5, -⟩ | ⟨h5, -⟩
    · rw [h5]; exact h3.resolve_right hpos.ne'
    · rw [h5, neg_div, W1_neg, h3.resolve_right hpos.ne', neg_zero]
  have hr : 0 < |core 0 - x 0| / sd 0 := div_pos hd hpos
  have hr2 : |core 0 - x 0| / sd 0 ≤ 1 / 2 := by
    rw [div_le_iff₀ hpos]
    have : (1 : ℝ) / 10 ^ 12 ≤ 1 / 2 := by norm_num
    nlinarith
  rw [(W_inner hr.le hr2).2.1] at h4
  nlinarith

/-- C55: the singular weight reports a zero gradient; the derivative with respect to the core
vanishes only where the coordinate is that of the core. -/
theorem C55_singular_violated (eps : ℝ) (heps : eps ≠ 0) (core x : Pt 1 ℝ) :
    (singular 1 eps core).g x 0 = 0 ∧
      (HasDerivAt (fun t => (singular 1 eps (Function.update core 0 t)).f x)
        ((singular 1 eps core).g x 0) (core 0) ↔ core 0 = x 0) := by
  refine ⟨rfl, ?_⟩
  have he : 0 < eps ^ 2 := by positivity
  have hp : ((core 0 - x 0) ^ 2 + eps ^ 2) ≠ 0 := by positivity
  have h1 : HasDerivAt (fun t => (singular 1 eps (Function.update core 0 t)).f x)
      (-(2 * (core 0 - x 0)) / ((core 0 - x 0) ^ 2 + eps ^ 2) ^ 2) (core 0) := by
    have h := ((((hasDerivAt_id (core 0)).sub_const (x 0)).pow 2).add_const (eps ^ 2)).inv hp
    refine (h.congr_deriv ?_).congr_of_eventuallyEq (Eventually.of_forall fun t => ?_)
    · simp
    · simp [singular, List.finRange_succ]
  constructor
  · intro h
    have h2 := h1.unique h
    have h3 : -(2 * (core 0 - x 0)) / ((core 0 - x 0) ^ 2 + eps ^ 2) ^ 2 = 0 := h2
    rw [div_eq_zero_iff] at h3
    rcases h3 with h3 | h3
    · linarith
    · exact absurd h3 (pow_ne_zero _ hp)
  · intro h
    refine h1.congr_deriv ?_
    rw [h, sub_self, mul_zero, neg_zero, zero_div]
    rfl

end

/-! ## Moving least squares with cubic weights -/

section
variable {dim n r : ℕ} (points : Fin n → Pt dim ℝ) (values : Fin n → Fin r → ℝ)
  (sd : Pt dim ℝ) (v : Pt dim ℝ → Weight dim ℝ) (x : Pt dim ℝ)

/-- C66: moving least squares with a cubic weight reports the derivative of its value in direction
`j` if no data point has nearly (but not exactly) the same coordinate. -/
theorem C66_cubic_gradient (hv : ∀ c, cubic dim sd c = .ok (v c)) (hsd : ∀ i, 0 < sd i)
    (j : Fin dim) (hd : ∀ i, x j = points i j ∨ 1 / 10 ^ 12 ≤ |x j - points i j|)
    (deg : ℕ) (order : ℤ) (o : Out dim (HIdx dim) r ℝ)
    (ho : movingLeastSquares points values deg order (some v) x = .ok o)
    (g : Fin dim → Fin r → ℝ) (hg : o.g = some g) (ρ : Fin r) (V : ℝ → ℝ)
    (hV : ∀ t o', movingLeastSquares points values deg order (some v) (Function.update x j t) = .ok o' →
      V t = o'.f ρ) : HasDerivAt V (g j ρ) (x j) :=
  (LS.Props.C66_moving_gradient points values v x j deg order o ho g hg
    (fun i => C55_gradient_partial hv hsd x (points i) j (hd i)) ρ V hV).2

/-- C66: with cubic weights the second derivatives are those of the reported gradient if all data
points differ in the coordinate from the point of evaluation by more than 1e-12. -/
theorem C66_cubic_hessian (hv : ∀ c, cubic dim sd c = .ok (v c)) (hsd : ∀ i, 0 < sd i)
    (h : HIdx dim) (hd : ∀ i, 1 / 10 ^ 12 < |x (dirs dim h).2 - points i (dirs dim h).2|)
    (deg : ℕ) (order : ℤ) (o : Out dim (HIdx dim) r ℝ)
    (ho : movingLeastSquares points values deg order (some v) x = .ok o)
    (Hs : HIdx dim → Fin r → ℝ) (hH : o.H = some Hs) (ρ : Fin r) (V : ℝ → ℝ)
    (hV : ∀ t o' g, movingLeastSquares points values deg order (some v)
      (Function.update x (dirs dim h).2 t) = .ok o' → o'.g = some g → V t = g (dirs dim h).1 ρ) :
    HasDerivAt V (Hs h ρ) (x (dirs dim h).2) :=
  LS.Props.C66_moving_hessian points values v x _ deg order o ho Hs hH h rfl
    (fun i => C55_gradient_partial hv hsd x (points i) _ (.inr (hd i).le))
    (fun i => C55_hessian_partial hv hsd x (points i) _ _ (.inl (hd i))) ρ V hV

end

/-! ## A fixed weight function that is not constant -/

/-- Data of the example. -/
def exP : Fin 3 → Pt 1 ℚ := ![![0], ![1], ![2]]

/-- Data of the example. -/
def exV : Fin 3 → Fin 1 → ℚ := ![![0], ![0], ![1]]

/-- C66: three points on a line, cubic weights around the origin, data that are not linear: the fit is
the straight line with the slope 29/81, but the reported derivative is 2797/6561. -/
theorem C66_fixed_core_violated : ∃ F, LS.Props.wls exP exV 1 1 (some (cubic1 ![4] ![0])) = .ok F ∧
    (∀ t, (F ![t]).f 0 = (F ![0]).f 0 + t * (29 / 81)) ∧
    ((F ![1]).g.map fun g => g 0 0) = some (2797 / 6561) := by
  have h0 : ((LS.Props.wls exP exV 1 1 (some (cubic1 ![4] ![0]))).map
      fun F => ((F ![1]).f 0 - (F ![0]).f 0, (F ![1]).g.map fun g => g 0 0)) =
      .ok (29 / 81, some (2797 / 6561)) := by
    decide +kernel
  obtain ⟨F, hF, h1⟩ := map_ok h0
  injection h1 with h1 h2
  refine ⟨F, hF, fun t => ?_, h2⟩
  rw [LS.Props.wls_eq] at hF
  obtain ⟨k, bas, P, hb, hfit⟩ := wlsDim_structure _ _ _ _ _ _ _ hF
  have hf := LS.Props.fits_f hfit
  have hb' : getPolynomial (K := ℚ) 1 1 = .ok ⟨2, poly11⟩ := rfl
  rw [hb'] at hb
  injection hb with hb
  cases hb
  rw [hf, hf] at h1 ⊢
  simp only [Fin.sum_univ_two, poly11] at h1 ⊢
  simp at h1 ⊢
  exact .inl h1

end Verif.Wt.Props
