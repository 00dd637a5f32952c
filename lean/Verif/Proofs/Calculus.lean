import Verif.Model.Calculus
import Mathlib.Tactic.Ring
import Mathlib.Tactic.FieldSimp
import Mathlib.Tactic.Linarith

/-! Lemmas on symbolic derivatives. -/

namespace Verif.Calc
open Filter Topology

/-- No root of zero is taken. -/
def Regular (ρ : String → ℝ) : Ex → Prop
  | .num _ => True
  | .var _ => True
  | .neg a | .pow a _ | .sin a | .cos a | .exp a | .log a => Regular ρ a
  | .add a b | .sub a b | .mul a b | .div a b => Regular ρ a ∧ Regular ρ b
  | .sqrt a => Regular ρ a ∧ eval ρ a ≠ some 0

theorem at_point {ρ : String → ℝ} {x : String} {a : Ex} {F : ℝ → ℝ} {v : ℝ}
    (h : ∀ᶠ t in 𝓝 (ρ x), eval (Function.update ρ x t) a = some (F t)) (hv : eval ρ a = some v) :
    F (ρ x) = v := by
  have := h.self_of_nhds
  rw [Function.update_eq_self, hv] at this
  injection this with this
  exact this.symm

/-- The value of `diff` is the derivative. -/
theorem hasDeriv (x : String) (ρ : String → ℝ) (e : Ex) : ∀ v, eval ρ e = some v → Regular ρ e →
    ∃ F d, eval ρ (diff x e) = some d ∧
      (∀ᶠ t in 𝓝 (ρ x), eval (Function.update ρ x t) e = some (F t)) ∧ HasDerivAt F d (ρ x) := by
  induction e with
  | num c =>
    intro v _ _
    exact ⟨fun _ => c, 0, rfl, Eventually.of_forall fun _ => rfl, hasDerivAt_const _ _⟩
  | var y =>
    intro v _ _
    by_cases h : y = x
    · subst h
      exact ⟨fun t => t, 1, by simp [diff, eval], Eventually.of_forall fun _ => by simp [eval],
        hasDerivAt_id' _⟩
    · exact ⟨fun _ => ρ y, 0, by simp [diff, eval, h], Eventually.of_forall fun _ => by
        simp [eval, Function.update_of_ne h], hasDerivAt_const _ _⟩
  | neg a ih =>
    intro v h0 hr
    simp only [eval, Option.map_eq_some_iff] at h0
    obtain ⟨va, ha, rfl⟩ := h0
    obtain ⟨F, d, h1, h2, h3⟩ := ih va ha hr
    exact ⟨fun t => - F t, - d, by simp [diff, eval, h1],
      h2.mono fun t ht => by simp [eval, ht], h3.fun_neg⟩
  | add a b iha ihb =>
    intro v h0 hr
    simp only [eval, Option.map_eq_some_iff, Option.bind_eq_some_iff] at h0
    obtain ⟨va, ha, vb, hb, rfl⟩ := h0
    obtain ⟨F, d, h1, h2, h3⟩ := iha va ha hr.1
    obtain ⟨F', d', h1', h2', h3'⟩ := ihb vb hb hr.2
    exact ⟨fun t => F t + F' t, d + d', by simp [diff, eval, h1, h1'],
      by filter_upwards [h2, h2'] with t ht ht'; simp [eval, ht, ht'], h3.fun_add h3'⟩
  | sub a b iha ihb =>
    intro v h0 hr
    simp only [eval, Option.map_eq_some_iff, Option.bind_eq_some_iff] at h0
    obtain ⟨va, ha, vb, hb, rfl⟩ := h0
    obtain ⟨F, d, h1, h2, h3⟩ := iha va ha hr.1
    obtain ⟨F', d', h1', h2', h3'⟩ := ihb vb hb hr.2
    exact ⟨fun t => F t - F' t, d - d', by simp [diff, eval, h1, h1'],
      by filter_upwards [h2, h2'] with t ht ht'; simp [eval, ht, ht'], h3.fun_sub h3'⟩
  | mul a b iha ihb =>
    intro v h0 hr
    simp only [eval, Option.map_eq_some_iff, Option.bind_eq_some_iff] at h0
    obtain ⟨va, ha, vb, hb, rfl⟩ := h0
    obtain ⟨F, d, h1, h2, h3⟩ := iha va ha hr.1
    obtain ⟨F', d', h1', h2', h3'⟩ := ihb vb hb hr.2
    refine ⟨fun t => F t * F' t, d * vb + va * d', by simp [diff, eval, h1, h1', ha, hb],
      by filter_upwards [h2, h2'] with t ht ht'; simp [eval, ht, ht'], ?_⟩
    have := h3.fun_mul h3'
    rwa [at_point h2 ha, at_point h2' hb] at this
  | div a b iha ihb =>
    intro v h0 hr
    simp only [eval, Option.bind_eq_some_iff, ite_eq_iff, reduceCtorEq, and_false, false_or,
      Option.some.injEq] at h0
    obtain ⟨va, ha, vb, hb, hne, rfl⟩ := h0
    obtain ⟨F, d, h1, h2, h3⟩ := iha va ha hr.1
    obtain ⟨F', d', h1', h2', h3'⟩ := ihb vb hb hr.2
    have e' := at_point h2' hb
    refine ⟨fun t => F t / F' t, (d * vb - va * d') / (vb * vb), by
      simp [diff, eval, h1, h1', ha, hb, hne], ?_, ?_⟩
    · filter_upwards [h2, h2', h3'.continuousAt.eventually_ne (by rw [e']; exact hne)] with t ht ht' hn
      simp [eval, ht, ht', hn]
    · have := h3.fun_div h3' (by rw [e']; exact hne)
      rw [at_point h2 ha, e', pow_two] at this
      exact this
  | pow a n ih =>
    intro v h0 hr
    simp only [eval, Option.map_eq_some_iff] at h0
    obtain ⟨va, ha, rfl⟩ := h0
    obtain ⟨F, d, h1, h2, h3⟩ := ih va ha hr
    refine ⟨fun t => F t ^ n, n * va ^ (n - 1) * d, by simp [diff, eval, h1, ha],
      h2.mono fun t ht => by simp [eval, ht], ?_⟩
    have := h3.fun_pow n
    rwa [at_point h2 ha] at this
  | sin a ih =>
    intro v h0 hr
    simp only [eval, Option.map_eq_some_iff] at h0
    obtain ⟨va, ha, rfl⟩ := h0
    obtain ⟨F, d, h1, h2, h3⟩ := ih va ha hr
    refine ⟨fun t => Real.sin (F t), Real.cos va * d, by simp [diff, eval, h1, ha],
      h2.mono fun t ht => by simp [eval, ht], ?_⟩
    have := h3.sin
    rwa [at_point h2 ha] at this
  | cos a ih =>
    intro v h0 hr
    simp only [eval, Option.map_eq_some_iff] at h0
    obtain ⟨va, ha, rfl⟩ := h0
    obtain ⟨F, d, h1, h2, h3⟩ := ih va ha hr
    refine ⟨fun t => Real.cos (F t), -(Real.sin va * d), by simp [diff, eval, h1, ha],
      h2.mono fun t ht => by simp [eval, ht], ?_⟩
    have := h3.cos
    rwa [at_point h2 ha, neg_mul] at this
  | exp a ih =>
    intro v h0 hr
    simp only [eval, Option.map_eq_some_iff] at h0
    obtain ⟨va, ha, rfl⟩ := h0
    obtain ⟨F, d, h1, h2, h3⟩ := ih va ha hr
    refine ⟨fun t => Real.exp (F t), Real.exp va * d, by simp [diff, eval, h1, ha],
      h2.mono fun t ht => by simp [eval, ht], ?_⟩
    have := h3.exp
    rwa [at_point h2 ha] at this
  | log a ih =>
    intro v h0 hr
    simp only [eval, Option.bind_eq_some_iff, ite_eq_iff, reduceCtorEq, and_false, or_false,
      Option.some.injEq] at h0
    obtain ⟨va, ha, hp, rfl⟩ := h0
    obtain ⟨F, d, h1, h2, h3⟩ := ih va ha hr
    have e' := at_point h2 ha
    refine ⟨fun t => Real.log (F t), d / va, by simp [diff, eval, h1, ha, hp.ne'], ?_, ?_⟩
    · filter_upwards [h2, h3.continuousAt.eventually (lt_mem_nhds (by rw [e']; exact hp))] with t ht hn
      simp only [eval, ht, Option.bind_some]
      exact if_pos hn
    · have := h3.log (by rw [e']; exact hp.ne')
      rwa [e'] at this
  | sqrt a ih =>
    intro v h0 hr
    simp only [eval, Option.bind_eq_some_iff, ite_eq_iff, reduceCtorEq, and_false, or_false,
      Option.some.injEq] at h0
    obtain ⟨va, ha, hp, rfl⟩ := h0
    obtain ⟨F, d, h1, h2, h3⟩ := ih va ha hr.1
    have hne : va ≠ 0 := fun e => hr.2 (by rw [ha, e])
    have hp' : 0 < va := lt_of_le_of_ne hp hne.symm
    have e' := at_point h2 ha
    refine ⟨fun t => Real.sqrt (F t), d / (2 * Real.sqrt va), by
      simp [diff, eval, h1, ha, hp, Real.sqrt_ne_zero'.2 hp'], ?_, ?_⟩
    · filter_upwards [h2, h3.continuousAt.eventually (lt_mem_nhds (by rw [e']; exact hp'))] with t ht hn
      simp only [eval, ht, Option.bind_some]
      exact if_pos (le_of_lt hn)
    · have := h3.sqrt (by rw [e']; exact hne)
      rwa [e'] at this

/-- If the derivative has a value, no root of zero is taken. -/
theorem regular_of_diff (x : String) (ρ : String → ℝ) (e : Ex) : ∀ d, eval ρ (diff x e) = some d →
    Regular ρ e := by
  induction e with
  | num c => intro d _; trivial
  | var y => intro d _; trivial
  | neg a ih | pow a n ih | sin a ih | exp a ih =>
    intro d h
    simp only [diff, eval, Option.map_eq_some_iff, Option.bind_eq_some_iff] at h
    grind [Regular]
  | cos a ih =>
    intro d h
    simp only [diff, eval, Option.map_eq_some_iff, Option.bind_eq_some_iff] at h
    grind [Regular]
  | log a ih =>
    intro d h
    simp only [diff, eval, Option.map_eq_some_iff, Option.bind_eq_some_iff] at h
    grind [Regular]
  | add a b iha ihb | sub a b iha ihb | mul a b iha ihb | div a b iha ihb =>
    intro d h
    simp only [diff, eval, Option.map_eq_some_iff, Option.bind_eq_some_iff] at h
    grind [Regular]
  | sqrt a ih =>
    intro d h
    simp only [diff, eval, Option.map_eq_some_iff, Option.bind_eq_some_iff] at h
    obtain ⟨d', h1, w, ⟨two, -, s, ⟨va, ha, hs⟩, rfl⟩, hw⟩ := h
    refine ⟨ih _ h1, fun h0 => ?_⟩
    rw [h0] at ha
    injection ha with ha
    subst ha
    simp at hs
    subst hs
    simp at hw

theorem regular_diff (x : String) (ρ : String → ℝ) (e : Ex) (h : Regular ρ e) :
    Regular ρ (diff x e) := by
  induction e with
  | num c | var y => trivial
  | neg a ih | pow a n ih | sin a ih | cos a ih | exp a ih | log a ih =>
    simp only [diff, Regular] at h ⊢
    simp [h, ih h]
  | add a b iha ihb | sub a b iha ihb | mul a b iha ihb | div a b iha ihb =>
    simp only [diff, Regular] at h ⊢
    simp [h, iha h.1, ihb h.2]
  | sqrt a ih =>
    simp only [diff, Regular] at h ⊢
    simp [h, ih h.1]

theorem regular_of_regular_diff (x : String) (ρ : String → ℝ) (e : Ex) (h : Regular ρ (diff x e)) :
    Regular ρ e := by
  induction e with
  | num c | var y => trivial
  | neg a ih | pow a n ih | sin a ih | cos a ih | exp a ih | log a ih =>
    simp only [diff, Regular] at h ⊢
    grind
  | add a b iha ihb | sub a b iha ihb | mul a b iha ihb | div a b iha ihb =>
    simp only [diff, Regular] at h ⊢
    grind
  | sqrt a ih =>
    simp only [diff, Regular] at h ⊢
    grind

theorem diff_defined (x : String) (ρ : String → ℝ) (e : Ex) (v : ℝ) (h : eval ρ e = some v)
    (hr : Regular ρ e) : ∃ d, eval ρ (diff x e) = some d := by
  obtain ⟨F, d, h, -⟩ := hasDeriv x ρ e v h hr
  exact ⟨d, h⟩

/-- Mixed derivatives agree. -/
theorem mixed (x y : String) (ρ : String → ℝ) (e : Ex) : ∀ v, eval ρ e = some v → Regular ρ e →
    ∃ d, eval ρ (diff x (diff y e)) = some d ∧ eval ρ (diff y (diff x e)) = some d := by
  induction e with
  | num c =>
    intro v _ _
    exact ⟨0, rfl, rfl⟩
  | var z =>
    intro v _ _
    exact ⟨0, rfl, rfl⟩
  | neg a ih =>
    intro v h0 hr
    simp only [eval, Option.map_eq_some_iff] at h0
    obtain ⟨va, ha, rfl⟩ := h0
    obtain ⟨d, h1, h2⟩ := ih va ha hr
    exact ⟨- d, by simp [diff, eval, h1], by simp [diff, eval, h2]⟩
  | add a b iha ihb =>
    intro v h0 hr
    simp only [eval, Option.map_eq_some_iff, Option.bind_eq_some_iff] at h0
    obtain ⟨va, ha, vb, hb, rfl⟩ := h0
    obtain ⟨d, h1, h2⟩ := iha va ha hr.1
    obtain ⟨d', h1', h2'⟩ := ihb vb hb hr.2
    exact ⟨d + d', by simp [diff, eval, h1, h1'], by simp [diff, eval, h2, h2']⟩
  | sub a b iha ihb =>
    intro v h0 hr
    simp only [eval, Option.map_eq_some_iff, Option.bind_eq_some_iff] at h0
    obtain ⟨va, ha, vb, hb, rfl⟩ := h0
    obtain ⟨d, h1, h2⟩ := iha va ha hr.1
    obtain ⟨d', h1', h2'⟩ := ihb vb hb hr.2
    exact ⟨d - d', by simp [diff, eval, h1, h1'], by simp [diff, eval, h2, h2']⟩
  | mul a b iha ihb =>
    intro v h0 hr
    simp only [eval, Option.map_eq_some_iff, Option.bind_eq_some_iff] at h0
    obtain ⟨va, ha, vb, hb, rfl⟩ := h0
    obtain ⟨d, h1, h2⟩ := iha va ha hr.1
    obtain ⟨d', h1', h2'⟩ := ihb vb hb hr.2
    obtain ⟨ax, hax⟩ := diff_defined x ρ a va ha hr.1
    obtain ⟨ay, hay⟩ := diff_defined y ρ a va ha hr.1
    obtain ⟨bx, hbx⟩ := diff_defined x ρ b vb hb hr.2
    obtain ⟨bY, hby⟩ := diff_defined y ρ b vb hb hr.2
    refine ⟨_, by simp [diff, eval, h1, h1', ha, hb, hax, hay, hbx, hby]; rfl, ?_⟩
    simp [diff, eval, h2, h2', ha, hb, hax, hay, hbx, hby]
    ring
  | div a b iha ihb =>
    intro v h0 hr
    simp only [eval, Option.bind_eq_some_iff, ite_eq_iff, reduceCtorEq, and_false, false_or,
      Option.some.injEq] at h0
    obtain ⟨va, ha, vb, hb, hne, rfl⟩ := h0
    obtain ⟨d, h1, h2⟩ := iha va ha hr.1
    obtain ⟨d', h1', h2'⟩ := ihb vb hb hr.2
    obtain ⟨ax, hax⟩ := diff_defined x ρ a va ha hr.1
    obtain ⟨ay, hay⟩ := diff_defined y ρ a va ha hr.1
    obtain ⟨bx, hbx⟩ := diff_defined x ρ b vb hb hr.2
    obtain ⟨bY, hby⟩ := diff_defined y ρ b vb hb hr.2
    refine ⟨_, by simp [diff, eval, h1, h1', ha, hb, hax, hay, hbx, hby, hne]; rfl, ?_⟩
    simp [diff, eval, h2, h2', ha, hb, hax, hay, hbx, hby, hne]
    ring
  | pow a n ih =>
    intro v h0 hr
    simp only [eval, Option.map_eq_some_iff] at h0
    obtain ⟨va, ha, rfl⟩ := h0
    obtain ⟨d, h1, h2⟩ := ih va ha hr
    obtain ⟨ax, hax⟩ := diff_defined x ρ a va ha hr
    obtain ⟨ay, hay⟩ := diff_defined y ρ a va ha hr
    refine ⟨_, by simp [diff, eval, h1, ha, hax, hay]; rfl, ?_⟩
    simp [diff, eval, h2, ha, hax, hay]
    ring
  | sin a ih | cos a ih | exp a ih =>
    intro v h0 hr
    simp only [eval, Option.map_eq_some_iff] at h0
    obtain ⟨va, ha, rfl⟩ := h0
    obtain ⟨d, h1, h2⟩ := ih va ha hr
    obtain ⟨ax, hax⟩ := diff_defined x ρ a va ha hr
    obtain ⟨ay, hay⟩ := diff_defined y ρ a va ha hr
    refine ⟨_, by simp [diff, eval, h1, ha, hax, hay]; rfl, ?_⟩
    simp [diff, eval, h2, ha, hax, hay]
    ring
  | log a ih =>
    intro v h0 hr
    simp only [eval, Option.bind_eq_some_iff, ite_eq_iff, reduceCtorEq, and_false, or_false,
      Option.some.injEq] at h0
    obtain ⟨va, ha, hp, rfl⟩ := h0
    obtain ⟨d, h1, h2⟩ := ih va ha hr
    obtain ⟨ax, hax⟩ := diff_defined x ρ a va ha hr
    obtain ⟨ay, hay⟩ := diff_defined y ρ a va ha hr
    refine ⟨_, by simp [diff, eval, h1, ha, hax, hay, hp.ne']; rfl, ?_⟩
    simp [diff, eval, h2, ha, hax, hay, hp.ne']
    ring
  | sqrt a ih =>
    intro v h0 hr
    simp only [eval, Option.bind_eq_some_iff, ite_eq_iff, reduceCtorEq, and_false, or_false,
      Option.some.injEq] at h0
    obtain ⟨va, ha, hp, rfl⟩ := h0
    have hne : va ≠ 0 := fun e => hr.2 (by rw [ha, e])
    have hp' : 0 < va := lt_of_le_of_ne hp hne.symm
    have hs := Real.sqrt_ne_zero'.2 hp'
    obtain ⟨d, h1, h2⟩ := ih va ha hr.1
    obtain ⟨ax, hax⟩ := diff_defined x ρ a va ha hr.1
    obtain ⟨ay, hay⟩ := diff_defined y ρ a va ha hr.1
    refine ⟨_, by simp [diff, eval, h1, ha, hax, hay, hp, hs]; rfl, ?_⟩
    simp [diff, eval, h2, ha, hax, hay, hp, hs]
    ring

theorem free_diff (x : String) (e : Ex) : ∀ z ∈ free (diff x e), z ∈ free e := by
  induction e with
  | num c | var y => simp [diff, free]
  | neg a ih | pow a n ih | sin a ih | cos a ih | exp a ih | log a ih | sqrt a ih =>
    intro z hz
    simp [diff, free] at hz ⊢
    grind
  | add a b iha ihb | sub a b iha ihb | mul a b iha ihb | div a b iha ihb =>
    intro z hz
    simp [diff, free] at hz ⊢
    grind

/-- The value depends on the free symbols only. -/
theorem point_set (vars : List String) (hn : vars.Nodup) (xs : List ℝ) (hl : xs.length = vars.length)
    (i : ℕ) (hi : i < vars.length) (t : ℝ) :
    point vars (xs.set i t) = Function.update (point vars xs) vars[i] t := by
  induction vars generalizing xs i with
  | nil => simp at hi
  | cons v vars ih =>
    cases xs with
    | nil => simp at hl
    | cons a xs =>
      rw [List.nodup_cons] at hn
      funext z
      cases i with
      | zero =>
        by_cases h : z = v
        · subst h
          simp [point]
        · simp [point, Function.update_of_ne h, List.find?_cons, Ne.symm h]
      | succ i =>
        have hi' : i < vars.length := by simpa using hi
        have := congrFun (ih hn.2 xs (by simpa using hl) i hi') z
        by_cases h : v = z
        · subst h
          have hne : v ≠ vars[i] := fun e => hn.1 (e ▸ List.getElem_mem hi')
          simp [point, Function.update_of_ne hne]
        · have hvz : (v == z) = false := by simpa using h
          have e1 : point (v :: vars) ((a :: xs).set (i + 1) t) z = point vars (xs.set i t) z := by
            simp [point, hvz]
          rw [e1, this]
          by_cases h' : z = vars[i]
          · simp [h']
          · simp [Function.update_of_ne h', point, hvz]

theorem point_get (vars : List String) (hn : vars.Nodup) (xs : List ℝ) (hl : xs.length = vars.length)
    (i : ℕ) (hi : i < vars.length) : point vars xs vars[i] = xs[i] := by
  have h := congrFun (point_set vars hn xs hl i hi xs[i]) vars[i]
  rw [List.set_getElem_self] at h
  rw [h, Function.update_self]

theorem lambda_ok {vars : List String} {e : Ex} {xs : List ℝ} {v : ℝ} :
    lambda vars e xs = .ok v ↔ xs.length = vars.length ∧ (∀ x ∈ free e, x ∈ vars) ∧
      eval (point vars xs) e = some v := by
  unfold lambda
  by_cases h1 : xs.length = vars.length
  · by_cases h2 : ∃ x ∈ free e, x ∉ vars
    · obtain ⟨x, hx, hv⟩ := h2
      rw [if_neg (by simpa using h1), if_pos ⟨x, hx, hv⟩]
      simp only [reduceCtorEq, false_iff, not_and]
      intro _ h
      exact absurd (h x hx) hv
    · rw [if_neg (by simpa using h1), if_neg h2]
      push Not at h2
      cases h : eval (point vars xs) e with
      | none => simp
      | some w =>
        simp only [Except.ok.injEq, h1, Option.some.injEq, true_and]
        exact ⟨fun e => ⟨h2, e⟩, fun e => e.2⟩
  · rw [if_pos h1]
    simp [h1]

theorem mapM_ok {α β : Type} (f : α → Py β) (l : List α) (r : List β) :
    l.mapM f = .ok r ↔ List.Forall₂ (fun a b => f a = .ok b) l r := by
  induction l generalizing r with
  | nil =>
    rw [List.mapM_nil, List.forall₂_nil_left_iff]
    constructor
    · intro h
      injection h with h
      exact h.symm
    · rintro rfl
      rfl
  | cons a l ih =>
    rw [List.mapM_cons]
    cases h : f a with
    | error e =>
      constructor
      · intro h; cases h
      · intro h'
        cases h' with
        | cons h1 _ => rw [h] at h1; cases h1
    | ok b =>
      cases h2 : l.mapM f with
      | error e =>
        constructor
        · intro h; cases h
        · intro h'
          cases h' with
          | cons h1 h3 =>
            rw [(ih _).2 h3] at h2
            cases h2
      | ok bs =>
        constructor
        · intro h'
          injection h' with h'
          subst h'
          exact .cons h ((ih bs).1 h2)
        · intro h'
          cases h' with
          | cons h1 h3 =>
            rw [h] at h1
            rw [(ih _).2 h3] at h2
            injection h1 with h1
            injection h2 with h2
            subst h1 h2
            rfl

end Verif.Calc
