import Verif.Proofs.Calculus
import Mathlib.Data.List.GetD

/-!
# C83: gradient and Hessian of symbolic functions are the derivatives

`f`, `g` and `G` of a symbolic function are compared with each other only: the entries of the gradient are
the derivatives (in the sense of analysis) of the reported values, the entries of the Hessian those of
the reported gradients.
-/

namespace Verif.Calc.Props
open Verif Filter Topology

theorem getD_of_lt {α : Type} {l : List α} {i : ℕ} (h : i < l.length) (d : α) : l.getD i d = l[i] :=
  List.getD_eq_getElem _ _ h

theorem gradient_ok {f : Fn} {xs gs : List ℝ} (h : f.gradient xs = .ok gs) :
    xs.length = f.vars.length ∧ gs.length = f.vars.length ∧
      ∀ (i : ℕ) (hi : i < f.vars.length), lambda f.vars (diff f.vars[i] f.expr) xs = .ok (gs.getD i 0) := by
  unfold Fn.gradient at h
  split at h
  · cases h
  · next hl =>
    rw [mapM_ok, List.forall₂_iff_get] at h
    obtain ⟨h1, h2⟩ := h
    unfold gradientExprs at h1 h2
    rw [List.length_map] at h1
    refine ⟨by simpa using hl, h1.symm, fun i hi => ?_⟩
    have := h2 i (by simpa using hi) (by omega)
    rw [getD_of_lt (by omega)]
    simpa using this

theorem gradient_of {f : Fn} {xs : List ℝ} (hl : xs.length = f.vars.length)
    (h : ∀ v ∈ f.vars, ∃ d, lambda f.vars (diff v f.expr) xs = .ok d) :
    ∃ gs, f.gradient xs = .ok gs := by
  have : ∀ l : List String, (∀ v ∈ l, v ∈ f.vars) →
      ∃ gs, List.Forall₂ (fun a b => lambda f.vars a xs = .ok b) (l.map fun v => diff v f.expr) gs := by
    intro l
    induction l with
    | nil => intro _; exact ⟨[], .nil⟩
    | cons v l ih =>
      intro hl
      obtain ⟨gs, h1⟩ := ih fun u hu => hl u (List.mem_cons_of_mem _ hu)
      obtain ⟨d, hd⟩ := h v (hl v (List.mem_cons_self ..))
      exact ⟨d :: gs, .cons hd h1⟩
  obtain ⟨gs, hgs⟩ := this f.vars fun _ h => h
  refine ⟨gs, ?_⟩
  unfold Fn.gradient
  rw [if_neg (by simpa using hl), mapM_ok]
  exact hgs

theorem hessian_ok {f : Fn} {xs : List ℝ} {Gs : List (List ℝ)} (h : f.hessian xs = .ok Gs) :
    xs.length = f.vars.length ∧ Gs.length = f.vars.length ∧
      ∀ (i : ℕ) (hi : i < f.vars.length), (Gs.getD i []).length = f.vars.length ∧
        ∀ (j : ℕ) (hj : j < f.vars.length),
          lambda f.vars (diff f.vars[i] (diff f.vars[j] f.expr)) xs = .ok ((Gs.getD i []).getD j 0) := by
  unfold Fn.hessian at h
  split at h
  · cases h
  · next hl =>
    rw [mapM_ok, List.forall₂_iff_get] at h
    obtain ⟨h1, h2⟩ := h
    rw [List.length_map] at h1
    refine ⟨by simpa using hl, h1.symm, fun i hi => ?_⟩
    have h3 := h2 i (by simpa using hi) (by omega)
    rw [mapM_ok, List.forall₂_iff_get] at h3
    obtain ⟨h4, h5⟩ := h3
    rw [getD_of_lt (by omega)]
    simp only [List.get_eq_getElem, List.getElem_map, List.length_map, gradientExprs] at h4 h5
    refine ⟨h4.symm, fun j hj => ?_⟩
    rw [getD_of_lt (by omega)]
    exact h5 j hj (by omega)

/-- A partial derivative of what a function call returns. -/
theorem partial_derivative {vars : List String} (hn : vars.Nodup) {e : Ex} {xs : List ℝ} {v d : ℝ} {i : ℕ}
    (hi : i < vars.length) (h0 : lambda vars e xs = .ok v)
    (h1 : lambda vars (diff vars[i] e) xs = .ok d) :
    ∃ F : ℝ → ℝ, (∀ᶠ t in 𝓝 (xs.getD i 0), lambda vars e (xs.set i t) = .ok (F t)) ∧
      HasDerivAt F d (xs.getD i 0) := by
  obtain ⟨hl, hfree, hv⟩ := lambda_ok.1 h0
  obtain ⟨-, -, hd⟩ := lambda_ok.1 h1
  obtain ⟨F, d', e1, e2, e3⟩ := hasDeriv vars[i] (point vars xs) e v hv
    (regular_of_diff _ _ _ _ hd)
  rw [hd] at e1
  injection e1 with e1
  subst e1
  rw [getD_of_lt (by omega)]
  rw [point_get vars hn xs hl i hi] at e2 e3
  refine ⟨F, e2.mono fun t ht => ?_, e3⟩
  refine lambda_ok.2 ⟨by simpa using hl, hfree, ?_⟩
  rw [point_set vars hn xs hl i hi]
  exact ht

/-- C83: where a symbolic function and its gradient have values, the entry of the gradient that belongs to
a variable is the derivative of the function with respect to the argument in the position of this
variable, the others kept. -/
theorem C83_gradient (f : Fn) (hn : f.vars.Nodup) (xs gs : List ℝ) (v : ℝ)
    (h0 : f.value xs = .ok v) (h : f.gradient xs = .ok gs) :
    gs.length = f.vars.length ∧ ∀ i < f.vars.length, ∃ F : ℝ → ℝ,
      (∀ᶠ t in 𝓝 (xs.getD i 0), f.value (xs.set i t) = .ok (F t)) ∧
        HasDerivAt F (gs.getD i 0) (xs.getD i 0) := by
  obtain ⟨-, h1, h2⟩ := gradient_ok h
  exact ⟨h1, fun i hi => partial_derivative hn hi h0 (h2 i hi)⟩

/-- C83: the Hessian holds the derivatives of the gradient: row `i` holds the derivatives with respect
to the argument `i`. -/
theorem C83_hessian (f : Fn) (hn : f.vars.Nodup) (xs : List ℝ) (Gs : List (List ℝ)) (v : ℝ)
    (h0 : f.value xs = .ok v) (h : f.hessian xs = .ok Gs) :
    Gs.length = f.vars.length ∧ ∀ i < f.vars.length, (Gs.getD i []).length = f.vars.length ∧
      ∀ j < f.vars.length, ∃ F : ℝ → ℝ,
        (∀ᶠ t in 𝓝 (xs.getD i 0), ∃ gs, f.gradient (xs.set i t) = .ok gs ∧ gs.getD j 0 = F t) ∧
          HasDerivAt F ((Gs.getD i []).getD j 0) (xs.getD i 0) := by
  obtain ⟨hl, h1, h2⟩ := hessian_ok h
  refine ⟨h1, fun i hi => ⟨(h2 i hi).1, fun j hj => ?_⟩⟩
  obtain ⟨-, hfree, hv⟩ := lambda_ok.1 h0
  -- no root of zero is taken, so all first derivatives have values
  have hreg : Regular (point f.vars xs) f.expr := by
    obtain ⟨-, -, hd⟩ := lambda_ok.1 ((h2 i hi).2 j hj)
    exact regular_of_regular_diff _ _ _ (regular_of_diff _ _ _ _ hd)
  have hd : ∀ w, ∃ d, lambda f.vars (diff w f.expr) xs = .ok d := fun w => by
    obtain ⟨d, hd⟩ := diff_defined w _ _ _ hv hreg
    exact ⟨d, lambda_ok.2 ⟨hl, fun z hz => hfree z (free_diff _ _ z hz), hd⟩⟩
  have hdd : ∀ w, ∃ d, lambda f.vars (diff f.vars[i] (diff w f.expr)) xs = .ok d := fun w => by
    obtain ⟨d, hd⟩ := hd w
    obtain ⟨-, h3, hd⟩ := lambda_ok.1 hd
    obtain ⟨d', hd'⟩ := diff_defined f.vars[i] _ _ _ hd (regular_diff _ _ _ hreg)
    exact ⟨d', lambda_ok.2 ⟨hl, fun z hz => h3 z (free_diff _ _ z hz), hd'⟩⟩
  have hev : ∀ᶠ t in 𝓝 (xs.getD i 0), ∀ w ∈ {w | w ∈ f.vars},
      ∃ d, lambda f.vars (diff w f.expr) (xs.set i t) = .ok d := by
    rw [eventually_all_finite (List.finite_toSet f.vars)]
    intro w _
    obtain ⟨d, hd⟩ := hd w
    obtain ⟨d', hd'⟩ := hdd w
    obtain ⟨F, hF, -⟩ := partial_derivative hn hi hd hd'
    exact hF.mono fun t ht => ⟨_, ht⟩
  obtain ⟨d, hdj⟩ := hd f.vars[j]
  obtain ⟨F, hF, hF'⟩ := partial_derivative hn hi hdj ((h2 i hi).2 j hj)
  refine ⟨F, ?_, hF'⟩
  filter_upwards [hev, hF] with t h3 h4
  obtain ⟨gs, hgs⟩ := gradient_of (f := f) (xs := xs.set i t) (by simpa using hl) h3
  refine ⟨gs, hgs, ?_⟩
  have := (gradient_ok hgs).2.2 j hj
  rw [h4] at this
  injection this with this
  exact this.symm

/-- C83: the Hessian is symmetric. -/
theorem C83_symmetric (f : Fn) (xs : List ℝ) (Gs : List (List ℝ)) (v : ℝ) (h0 : f.value xs = .ok v)
    (h : f.hessian xs = .ok Gs) (i j : ℕ) (hi : i < f.vars.length) (hj : j < f.vars.length) :
    (Gs.getD i []).getD j 0 = (Gs.getD j []).getD i 0 := by
  obtain ⟨-, -, h2⟩ := hessian_ok h
  obtain ⟨-, -, hv⟩ := lambda_ok.1 h0
  obtain ⟨-, -, a⟩ := lambda_ok.1 ((h2 i hi).2 j hj)
  obtain ⟨-, -, b⟩ := lambda_ok.1 ((h2 j hj).2 i hi)
  obtain ⟨d, e1, e2⟩ := mixed f.vars[i] f.vars[j] _ _ _ hv
    (regular_of_regular_diff _ _ _ (regular_of_diff _ _ _ _ a))
  rw [e1] at a
  rw [e2] at b
  injection a with a
  injection b with b
  rw [← a, ← b]

/-- No root is taken in the expression. -/
def NoRoot : Ex → Prop
  | .num _ => True
  | .var _ => True
  | .neg a | .pow a _ | .sin a | .cos a | .exp a | .log a => NoRoot a
  | .add a b | .sub a b | .mul a b | .div a b => NoRoot a ∧ NoRoot b
  | .sqrt _ => False

theorem regular_of_noRoot (ρ : String → ℝ) (e : Ex) (h : NoRoot e) : Regular ρ e := by
  induction e with
  | num c | var y => trivial
  | neg a ih | pow a n ih | sin a ih | cos a ih | exp a ih | log a ih => exact ih h
  | add a b iha ihb | sub a b iha ihb | mul a b iha ihb | div a b iha ihb =>
    exact ⟨iha h.1, ihb h.2⟩
  | sqrt a ih => exact absurd h (by simp [NoRoot])

/-- C83: wherever a function without roots has a value, it has a gradient and a Hessian.  (The root has a
value but no derivative at zero, `C83_root`.) -/
theorem C83_exists (f : Fn) (hr : NoRoot f.expr) (xs : List ℝ) (v : ℝ) (h0 : f.value xs = .ok v) :
    (∃ gs, f.gradient xs = .ok gs) ∧ ∃ Gs, f.hessian xs = .ok Gs := by
  obtain ⟨hl, hfree, hv⟩ := lambda_ok.1 h0
  have hreg := regular_of_noRoot (point f.vars xs) _ hr
  have hd : ∀ w, ∃ d, lambda f.vars (diff w f.expr) xs = .ok d := fun w => by
    obtain ⟨d, hd⟩ := diff_defined w _ _ _ hv hreg
    exact ⟨d, lambda_ok.2 ⟨hl, fun z hz => hfree z (free_diff _ _ z hz), hd⟩⟩
  refine ⟨gradient_of hl fun w _ => hd w, ?_⟩
  have hrow : ∀ w, ∃ row, (gradientExprs f.vars f.expr).mapM (fun e => lambda f.vars (diff w e) xs) =
      .ok row := by
    intro w
    have : ∀ l : List String, ∃ row,
        List.Forall₂ (fun a b => lambda f.vars (diff w a) xs = .ok b) (l.map fun v => diff v f.expr)
          row := by
      intro l
      induction l with
      | nil => exact ⟨[], .nil⟩
      | cons u l ih =>
        obtain ⟨row, h1⟩ := ih
        obtain ⟨d, hd⟩ := hd u
        obtain ⟨-, h3, hd⟩ := lambda_ok.1 hd
        obtain ⟨d', hd'⟩ := diff_defined w _ _ _ hd (regular_diff _ _ _ hreg)
        exact ⟨d' :: row, .cons (lambda_ok.2 ⟨hl, fun z hz => h3 z (free_diff _ _ z hz), hd'⟩) h1⟩
    obtain ⟨row, h⟩ := this f.vars
    exact ⟨row, (mapM_ok _ _ _).2 h⟩
  have : ∀ l : List String, ∃ Gs, List.Forall₂ (fun (a : List Ex) b =>
      (a.mapM fun e => lambda f.vars e xs) = .ok b)
      (l.map fun v => (gradientExprs f.vars f.expr).map fun e => diff v e) Gs := by
    intro l
    induction l with
    | nil => exact ⟨[], .nil⟩
    | cons u l ih =>
      obtain ⟨Gs, h1⟩ := ih
      obtain ⟨row, hrow⟩ := hrow u
      refine ⟨row :: Gs, .cons ?_ h1⟩
      rw [mapM_ok, List.forall₂_map_left_iff]
      exact (mapM_ok _ _ _).1 hrow
  obtain ⟨Gs, hGs⟩ := this f.vars
  refine ⟨Gs, ?_⟩
  unfold Fn.hessian
  rw [if_neg (by simpa using hl), mapM_ok]
  exact hGs

/-- C83: the square root of `x` has the value 0 at 0 and no gradient. -/
theorem C83_root : (⟨.sqrt (.var "x"), ["x"]⟩ : Fn).value [0] = .ok 0 ∧
    (⟨.sqrt (.var "x"), ["x"]⟩ : Fn).gradient [0] = .error .zeroDiv := by
  constructor
  · refine lambda_ok.2 ⟨rfl, by simp [free], ?_⟩
    simp [eval, point]
  · simp [Fn.gradient, gradientExprs, lambda, diff, free, eval, point]

/-- C83: a wrong number of arguments is refused by all three. -/
theorem C83_refused (f : Fn) (xs : List ℝ) (h : xs.length ≠ f.vars.length) :
    f.value xs = .error .value ∧ f.gradient xs = .error .value ∧ f.hessian xs = .error .value := by
  unfold Fn.value lambda Fn.gradient Fn.hessian
  rw [if_pos h, if_pos h, if_pos h]
  exact ⟨rfl, rfl, rfl⟩

/-- C83: if the variables are given, their order is the order of the arguments, of the entries of the
gradient and of the rows of the Hessian; otherwise the order depends on the order in which Python
iterates over a set: `x - y` at `[1, 0]` is 1 or -1. -/
theorem C83_order_violated :
    let e : Ex := .sub (.var "x") (.var "y")
    ∃ v w, IsVariables e none v ∧ IsVariables e none w ∧
      (⟨e, v⟩ : Fn).value [1, 0] = .ok 1 ∧ (⟨e, w⟩ : Fn).value [1, 0] = .ok (-1) := by
  intro e
  refine ⟨["x", "y"], ["y", "x"], ?_, ?_, ?_, ?_⟩
  · exact List.Perm.refl _
  · exact List.Perm.swap _ _ _
  · refine lambda_ok.2 ⟨rfl, by simp [e, free], ?_⟩
    simp [e, eval, point]
  · refine lambda_ok.2 ⟨rfl, by simp [e, free], ?_⟩
    simp [e, eval, point]

/-- `f(x, y) = x²·sin(y) + log(x)/y` at `(1, 2)`. -/
example : ∃ v, (⟨.add (.mul (.pow (.var "x") 2) (.sin (.var "y"))) (.div (.log (.var "x")) (.var "y")),
    ["x", "y"]⟩ : Fn).value [1, 2] = .ok v := by
  refine ⟨Real.sin 2, lambda_ok.2 ⟨rfl, by simp [free], ?_⟩⟩
  simp [eval, point]

end Verif.Calc.Props
