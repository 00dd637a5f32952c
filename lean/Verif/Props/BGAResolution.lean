import Verif.Props.GAChance
import Mathlib.Topology.UniformSpace.HeineCantor
import Mathlib.Topology.Order.Compact
import Mathlib.Topology.MetricSpace.Pseudo.Pi
import Mathlib.Topology.Instances.Real.Lemmas
import Mathlib.Analysis.SpecificLimits.Basic

/-!
# C144 – more bits give more precision

The documentation of `length` (`optimize/ga.py:108-109`, `optimize/bga.py:34-35`) says: "The higher
the value, the more precision."
-/

set_option linter.unusedSectionVars false

namespace Verif.GAChance.Props
open Verif Verif.GA Verif.BGA Verif.GAChance
open Verif.GA.Props (Beats beats_iff)
open Verif.BGA.Props
open scoped ENNReal

variable {K : Type} [Field K] [LinearOrder K]

/-- The points of the box that the ranges describe. -/
def InBox (ranges : List (K × K)) (x : List K) : Prop :=
  x.length = ranges.length ∧ ∀ (d : ℕ) (hd : d < ranges.length), ∃ v, x[d]? = some v ∧
    ranges[d].1 ≤ v ∧ v ≤ ranges[d].2

section
variable [IsStrictOrderedRing K]

theorem nearest_nat : ∀ (N : ℕ) (t : K), 0 ≤ t → t ≤ N → ∃ m : ℕ, m ≤ N ∧ |(m : K) - t| ≤ 1 / 2 := by
  intro N
  induction N with
  | zero =>
    intro t h0 h1
    have : t = 0 := le_antisymm (by simpa using h1) h0
    exact ⟨0, le_rfl, by simp [this]⟩
  | succ N ih =>
    intro t h0 h1
    push_cast at h1
    rcases le_or_gt t N with h | h
    · obtain ⟨m, hm, e⟩ := ih t h0 h
      exact ⟨m, by omega, e⟩
    · rcases le_or_gt t (N + 1 / 2) with h' | h'
      · exact ⟨N, by omega, by rw [abs_le]; constructor <;> linarith⟩
      · exact ⟨N + 1, le_rfl, by push_cast; rw [abs_le]; constructor <;> linarith⟩

theorem nearest_coord (L : ℕ) (hL : 1 ≤ L) (lo hi v : K) (h1 : lo ≤ v) (h2 : v ≤ hi) :
    ∃ m : ℕ, m < 2 ^ L ∧
      |lo + (m : K) * (hi - lo) / (2 ^ L - 1) - v| ≤ (hi - lo) / (2 * (2 ^ L - 1)) := by
  have hs := span_pos (K := K) L hL
  rcases (h1.trans h2).eq_or_lt with h | h
  · have : v = lo := le_antisymm (by rw [h]; exact h2) h1
    exact ⟨0, by positivity, by simp [this, h]⟩
  · have hw : 0 < hi - lo := by linarith
    have hN : (((2 ^ L - 1 : ℕ) : ℕ) : K) = 2 ^ L - 1 := by
      rw [Nat.cast_sub Nat.one_le_two_pow]; push_cast; ring
    obtain ⟨m, hm, e⟩ := nearest_nat (2 ^ L - 1) ((v - lo) / (hi - lo) * (2 ^ L - 1))
      (mul_nonneg (div_nonneg (by linarith) hw.le) hs.le) (by
        rw [hN]
        exact mul_le_of_le_one_left hs.le (by rw [div_le_one hw]; linarith))
    refine ⟨m, by have := Nat.one_le_two_pow (n := L); omega, ?_⟩
    have : lo + (m : K) * (hi - lo) / (2 ^ L - 1) - v =
        ((m : K) - (v - lo) / (hi - lo) * (2 ^ L - 1)) * ((hi - lo) / (2 ^ L - 1)) := by
      field_simp
      ring
    rw [this, abs_mul, abs_of_pos (div_pos hw hs)]
    calc _ ≤ 1 / 2 * ((hi - lo) / (2 ^ L - 1)) := mul_le_mul_of_nonneg_right e (div_pos hw hs).le
      _ = _ := by field_simp

theorem nearest_point (L : ℕ) (hL : 1 ≤ L) (ranges : List (K × K)) (x : List K) (hx : InBox ranges x) :
    ∃ x', OnGrid L ranges x' ∧ ∀ (d : ℕ) (hd : d < ranges.length), ∃ v v', x[d]? = some v ∧
      x'[d]? = some v' ∧ |v' - v| ≤ (ranges[d].2 - ranges[d].1) / (2 * (2 ^ L - 1)) := by
  have h : ∀ d : ℕ, ∃ m : ℕ, ∀ hd : d < ranges.length, m < 2 ^ L ∧ ∃ v, x[d]? = some v ∧
      |ranges[d].1 + (m : K) * (ranges[d].2 - ranges[d].1) / (2 ^ L - 1) - v| ≤
        (ranges[d].2 - ranges[d].1) / (2 * (2 ^ L - 1)) := by
    intro d
    by_cases hd : d < ranges.length
    · obtain ⟨v, e, h1, h2⟩ := hx.2 d hd
      obtain ⟨m, hm, hb⟩ := nearest_coord L hL _ _ v h1 h2
      exact ⟨m, fun _ => ⟨hm, v, e, hb⟩⟩
    · exact ⟨0, fun h => absurd h hd⟩
  choose m hm using h
  refine ⟨(List.range ranges.length).map fun d => (ranges.getD d (0, 0)).1 +
      (m d : K) * ((ranges.getD d (0, 0)).2 - (ranges.getD d (0, 0)).1) / (2 ^ L - 1),
    ⟨by simp, fun d hd => ⟨m d, (hm d hd).1, ?_⟩⟩, fun d hd => ?_⟩
  · simp [hd]
  · obtain ⟨_, v, e, hb⟩ := hm d hd
    exact ⟨v, ranges[d].1 + (m d : K) * (ranges[d].2 - ranges[d].1) / (2 ^ L - 1), e, by simp [hd], hb⟩

/-- a representable point is in the box -/
theorem onGrid_inBox {L : ℕ} (hL : 1 ≤ L) {ranges : List (K × K)}
    (hle : ∀ (d : ℕ) (hd : d < ranges.length), ranges[d].1 ≤ ranges[d].2) {x : List K}
    (hx : OnGrid L ranges x) : InBox ranges x := by
  refine ⟨hx.1, fun d hd => ?_⟩
  obtain ⟨m, hm, e⟩ := hx.2 d hd
  have hs := span_pos (K := K) L hL
  have hw : 0 ≤ ranges[d].2 - ranges[d].1 := by linarith [hle d hd]
  have hm' : (m : K) ≤ 2 ^ L - 1 := by
    have : ((m + 1 : ℕ) : K) ≤ ((2 ^ L : ℕ) : K) := by exact_mod_cast hm
    push_cast at this
    linarith
  refine ⟨_, e, ?_, ?_⟩
  · have : 0 ≤ (m : K) * (ranges[d].2 - ranges[d].1) / (2 ^ L - 1) := by positivity
    linarith
  · have : (m : K) * (ranges[d].2 - ranges[d].1) / (2 ^ L - 1) ≤ ranges[d].2 - ranges[d].1 := by
      rw [div_le_iff₀ hs]
      nlinarith
    linarith

theorem decode_one {dim L : ℕ} {ranges : List (K × K)} {g : List ℤ} (hg : IsBits (dim * L) g) :
    decode 1 dim L ranges [g] = .ok [decodeRow dim L ranges g] := by
  rw [decode_rows (nPop := 1) (gs := [g]) rfl (by simp [hg.1])]
  rfl

/-- C144, the precision: for every point of the box there is a genotype that decodes to a point
which is closer than `(hi - lo) / (2 (2^L - 1))` in each coordinate, or just as close. -/
theorem C144_resolution (dim L : ℕ) (hL : 1 ≤ L) (ranges : List (K × K)) (hr : ranges.length = dim)
    (x : List K) (hx : InBox ranges x) :
    ∃ g x', g.length = dim * L ∧ (∀ b ∈ g, b = 0 ∨ b = 1) ∧ decode 1 dim L ranges [g] = .ok [x'] ∧
      x'.length = dim ∧ ∀ (d : ℕ) (hd : d < ranges.length), ∃ v v', x[d]? = some v ∧
        x'[d]? = some v' ∧ |v' - v| ≤ (ranges[d].2 - ranges[d].1) / (2 * (2 ^ L - 1)) := by
  obtain ⟨x', hg, h⟩ := nearest_point L hL ranges x hx
  obtain ⟨g, hb, e⟩ := (onGrid_iff hr x').1 hg
  exact ⟨g, x', hb.1, hb.2, by rw [decode_one hb, e], by rw [hg.1, hr], h⟩

/-- C144, the precision cannot be better: there are points of the box from which every decoded
point is that far away in every coordinate. -/
theorem C144_sharp (dim L : ℕ) (hL : 1 ≤ L) (ranges : List (K × K)) (hr : ranges.length = dim)
    (hle : ∀ (d : ℕ) (hd : d < ranges.length), ranges[d].1 ≤ ranges[d].2) :
    ∃ x, InBox ranges x ∧ ∀ g x', g.length = dim * L → (∀ b ∈ g, b = 0 ∨ b = 1) →
      decode 1 dim L ranges [g] = .ok [x'] →
      ∀ (d : ℕ) (hd : d < ranges.length), ∃ v v', x[d]? = some v ∧ x'[d]? = some v' ∧
        (ranges[d].2 - ranges[d].1) / (2 * (2 ^ L - 1)) ≤ |v' - v| := by
  have hs := span_pos (K := K) L hL
  have hs1 : (1 : K) ≤ 2 ^ L - 1 := by
    have : (2 : K) ^ 1 ≤ 2 ^ L := pow_le_pow_right₀ (by norm_num) hL
    linarith
  have hget : ∀ (d : ℕ) (hd : d < ranges.length),
      (ranges.map fun r => r.1 + (r.2 - r.1) / (2 * (2 ^ L - 1)))[d]? =
        some (ranges[d].1 + (ranges[d].2 - ranges[d].1) / (2 * (2 ^ L - 1))) := by
    intro d hd; simp [hd]
  refine ⟨ranges.map fun r => r.1 + (r.2 - r.1) / (2 * (2 ^ L - 1)),
    ⟨by simp, fun d hd => ⟨_, hget d hd, ?_, ?_⟩⟩, ?_⟩
  · have : 0 ≤ (ranges[d].2 - ranges[d].1) / (2 * (2 ^ L - 1)) :=
      div_nonneg (by linarith [hle d hd]) (by linarith)
    linarith
  · have : (ranges[d].2 - ranges[d].1) / (2 * (2 ^ L - 1)) ≤ ranges[d].2 - ranges[d].1 :=
      div_le_self (by linarith [hle d hd]) (by linarith)
    linarith
  · intro g x' h1 h2 h3 d hd
    have hb : IsBits (dim * L) g := ⟨h1, h2⟩
    rw [decode_one hb] at h3
    simp only [Except.ok.injEq, List.cons.injEq, and_true] at h3
    obtain ⟨m, hm, e⟩ := ((onGrid_iff hr x').2 ⟨g, hb, h3.symm⟩).2 d hd
    refine ⟨_, _, hget d hd, e, ?_⟩
    have hw : 0 ≤ ranges[d].2 - ranges[d].1 := by linarith [hle d hd]
    have : ranges[d].1 + (m : K) * (ranges[d].2 - ranges[d].1) / (2 ^ L - 1) -
        (ranges[d].1 + (ranges[d].2 - ranges[d].1) / (2 * (2 ^ L - 1))) =
        ((m : K) - 1 / 2) * ((ranges[d].2 - ranges[d].1) / (2 ^ L - 1)) := by
      field_simp
      ring
    rw [this, abs_mul, abs_of_nonneg (div_nonneg hw hs.le)]
    have hh : (1 / 2 : K) ≤ |(m : K) - 1 / 2| := by
      rcases Nat.eq_zero_or_pos m with rfl | h
      · simp [abs_of_pos]
      · have : (1 : K) ≤ m := by exact_mod_cast h
        exact le_trans (by linarith) (le_abs_self _)
    calc _ = 1 / 2 * ((ranges[d].2 - ranges[d].1) / (2 ^ L - 1)) := by field_simp
      _ ≤ _ := mul_le_mul_of_nonneg_right hh (div_nonneg hw hs.le)

end

/-- The result stored in the state of the optimizer is a point of the box with its objective value,
and no point of the box, representable or not, is better by more than `ε`. -/
def NearOptimal (minimize : Bool) (ε : K) (ranges : List (K × K)) (fnc : List K → Py K)
    (s : Ga (List ℤ) (List K) K) : Prop :=
  ∃ x y, s.state.x = some x ∧ s.state.fn = some y ∧ InBox ranges x ∧ fnc x = .ok y ∧
    ∀ x' y', InBox ranges x' → fnc x' = .ok y' →
      if minimize = true then y ≤ y' + ε else y' - ε ≤ y

section
variable [IsStrictOrderedRing K]

theorem near_of_solved {minimize : Bool} {L : ℕ} (hL : 1 ≤ L) {ranges : List (K × K)}
    (hle : ∀ (d : ℕ) (hd : d < ranges.length), ranges[d].1 ≤ ranges[d].2)
    {fnc : List K → Py K} {ε : K}
    (h : ∀ x y, InBox ranges x → fnc x = .ok y → ∃ x' y', OnGrid L ranges x' ∧ fnc x' = .ok y' ∧
      |y' - y| ≤ ε)
    {s : Ga (List ℤ) (List K) K} (hs : Solved minimize L ranges fnc s) :
    NearOptimal minimize ε ranges fnc s := by
  obtain ⟨x, y, e1, e2, hg, e3, hb⟩ := hs
  refine ⟨x, y, e1, e2, onGrid_inBox hL hle hg, e3, fun x₀ y₀ hx₀ e₀ => ?_⟩
  obtain ⟨x', y', hg', e', hd⟩ := h x₀ y₀ hx₀ e₀
  have hn := hb x' y' hg' e'
  rw [abs_le] at hd
  cases minimize <;> simp [Beats] at hn ⊢ <;> linarith

/-- C144, the value: when the best representable point was found (C105), and the objective changes
by at most `c d` per unit in coordinate `d`, then no point of the box is better by more than
`∑ c d (hi - lo) / (2 (2^L - 1))`. -/
theorem C144_accuracy (minimize : Bool) (L : ℕ) (hL : 1 ≤ L) (ranges : List (K × K))
    (hle : ∀ (d : ℕ) (hd : d < ranges.length), ranges[d].1 ≤ ranges[d].2)
    (fnc : List K → Py K) (hfnc : ∀ x, InBox ranges x → ∃ y, fnc x = .ok y)
    (c : Fin ranges.length → K) (hc : ∀ d, 0 ≤ c d)
    (hlip : ∀ x x' y y', InBox ranges x → InBox ranges x' → fnc x = .ok y → fnc x' = .ok y' →
      |y' - y| ≤ ∑ d, c d * |x'.getD d 0 - x.getD d 0|)
    (s : Ga (List ℤ) (List K) K) (hs : Solved minimize L ranges fnc s) :
    NearOptimal minimize (∑ d, c d * ((ranges[d].2 - ranges[d].1) / (2 * (2 ^ L - 1)))) ranges fnc s := by
  refine near_of_solved hL hle (fun x y hx e => ?_) hs
  obtain ⟨x', hg, h⟩ := nearest_point L hL ranges x hx
  obtain ⟨y', e'⟩ := hfnc x' (onGrid_inBox hL hle hg)
  refine ⟨x', y', hg, e', (hlip x x' y y' hx (onGrid_inBox hL hle hg) e e').trans ?_⟩
  refine Finset.sum_le_sum fun d _ => mul_le_mul_of_nonneg_left ?_ (hc d)
  obtain ⟨v, v', e1, e2, hb⟩ := h d d.2
  simpa [List.getD, e1, e2] using hb

end

/-! ### continuous objectives -/

theorem exists_bits (ranges : List (ℝ × ℝ)) (f : (Fin ranges.length → ℝ) → ℝ)
    (hf : ContinuousOn f (Set.Icc (fun d => ranges[d].1) (fun d => ranges[d].2)))
    (ε : ℝ) (hε : 0 < ε) :
    ∃ L₀ : ℕ, 1 ≤ L₀ ∧ ∀ L, L₀ ≤ L → ∀ x, InBox ranges x → ∃ x', OnGrid L ranges x' ∧
      |f (fun d => x'.getD d 0) - f (fun d => x.getD d 0)| ≤ ε := by
  by_cases hle : ∀ (d : ℕ) (hd : d < ranges.length), ranges[d].1 ≤ ranges[d].2
  swap
  · refine ⟨1, le_rfl, fun L _ x hx => absurd (fun d hd => ?_) hle⟩
    obtain ⟨v, _, h1, h2⟩ := hx.2 d hd
    exact h1.trans h2
  have hu := (isCompact_Icc (a := fun d : Fin ranges.length => ranges[d].1)
    (b := fun d => ranges[d].2)).uniformContinuousOn_of_continuous hf
  rw [Metric.uniformContinuousOn_iff] at hu
  obtain ⟨δ, hδ, hu⟩ := hu ε hε
  -- the widest range
  obtain ⟨W, hW⟩ : ∃ W : ℝ, ∀ d : Fin ranges.length, ranges[d].2 - ranges[d].1 ≤ W := by
    obtain ⟨W, hW⟩ := (Set.finite_range fun d : Fin ranges.length => ranges[d].2 - ranges[d].1).bddAbove
    exact ⟨W, fun d => hW ⟨d, rfl⟩⟩
  obtain ⟨N, hN⟩ := exists_nat_gt (W / δ)
  have key : ∀ L : ℕ, N + 1 ≤ L → ∀ d : Fin ranges.length,
      (ranges[d].2 - ranges[d].1) / (2 * (2 ^ L - 1)) < δ := by
    intro L hL d
    have hs := span_pos (K := ℝ) L (by omega)
    have h1 : (L : ℝ) + 1 ≤ 2 ^ L := by exact_mod_cast (Nat.lt_two_pow_self (n := L))
    have h2 : (N : ℝ) + 1 ≤ L := by exact_mod_cast hL
    rw [div_lt_iff₀ (by linarith)]
    rw [div_lt_iff₀ hδ] at hN
    nlinarith [hW d]
  have box : ∀ x, InBox ranges x → (fun d : Fin ranges.length => x.getD d 0) ∈
      Set.Icc (fun d : Fin ranges.length => ranges[d].1) (fun d => ranges[d].2) := by
    intro x hx
    constructor
    · intro d
      obtain ⟨v, e, h1, h2⟩ := hx.2 d d.2
      simpa [List.getD, e] using h1
    · intro d
      obtain ⟨v, e, h1, h2⟩ := hx.2 d d.2
      simpa [List.getD, e] using h2
  refine ⟨N + 1, by omega, fun L hL x hx => ?_⟩
  obtain ⟨x', hg, h⟩ := nearest_point L (by omega) ranges x hx
  refine ⟨x', hg, le_of_lt ?_⟩
  refine hu _ (box x' (onGrid_inBox (by omega) hle hg)) _ (box x hx) ?_
  rw [dist_pi_lt_iff hδ]
  intro d
  obtain ⟨v, v', e1, e2, hb⟩ := h d d.2
  have : |v' - v| < δ := lt_of_le_of_lt hb (key L hL d)
  simpa [List.getD, e1, e2, Real.dist_eq] using this

/-- C144, the limit: let the objective be continuous on the box. For every `ε` there is a number of
bits from which on the binary genetic algorithm finds, with a probability that tends to one with the
number of cycles, a point of the box than which no other point of the box is better by more than
`ε`. -/
theorem C144_limit (ranges : List (ℝ × ℝ))
    (hle : ∀ (d : ℕ) (hd : d < ranges.length), ranges[d].1 ≤ ranges[d].2)
    (f : (Fin ranges.length → ℝ) → ℝ)
    (hf : ContinuousOn f (Set.Icc (fun d => ranges[d].1) (fun d => ranges[d].2)))
    (ε : ℝ) (hε : 0 < ε) :
    ∃ L₀ : ℕ, ∀ (cfg : Config ℝ) (argsort : List ℝ → List ℕ), IsArgsort argsort →
      cfg.ranges = ranges → cfg.dim = ranges.length → L₀ ≤ cfg.length →
      4 ∣ cfg.nPop → 8 ≤ cfg.nPop → 3 ≤ cfg.dim * cfg.length →
      (∀ k, cfg.elitism = .int k → 1 ≤ k ∧ k < cfg.nPop ∧ (k ≤ cfg.nPop / 2 ∨ Even k)) →
      (∀ q, cfg.elitism = .float q → 0 < q ∧ q < 1 ∧
        (⌊(cfg.nPop : ℚ) * q⌋ ≤ cfg.nPop / 2 ∨ Even ⌊(cfg.nPop : ℚ) * q⌋)) →
      cfg.elitism ≠ .none →
      ∀ (D₀ : CycleDraws ℝ), IsCycleDraws (cfg.dim * cfg.length) D₀ →
      ∀ (pool : List (List ℤ)), IsPool cfg.nPop (cfg.dim * cfg.length) pool →
      ∀ (unit : PMF ℝ), (∃ u ∈ unit.support, u ≤ cfg.p_c) → (∃ u ∈ unit.support, u ≤ cfg.p_m) →
      (∃ u ∈ unit.support, u > cfg.p_m) →
      ∀ (rest : List (CycleDraws ℝ) → PMF (CycleDraws ℝ)),
      (∀ Ds, ∀ D ∈ (rest Ds).support, IsCycleDraws (cfg.dim * cfg.length) D) →
      ∀ (s' : Ga (List ℤ) (List ℝ) ℝ),
      Filter.Tendsto (fun k =>
        (draws (fun Ds => cycleLaw unit (cfg.dim * cfg.length) (rest Ds)) (k + 1)).toOuterMeasure
          {Ds | ¬ ∃ s, cycles (problem cfg fun x => .ok (f fun d => x.getD d 0))
              (breedAt cfg argsort Ds) (k + 1) (reset (initial cfg D₀ pool) s').2 = (.ok (), s) ∧
            NearOptimal cfg.minimize ε ranges (fun x => .ok (f fun d => x.getD d 0)) s})
        Filter.atTop (nhds 0) := by
  obtain ⟨L₀, h1, h⟩ := exists_bits ranges f hf ε hε
  refine ⟨L₀, ?_⟩
  intro cfg argsort ha hcr hcd hL hN4 hN8 hn hint hfloat hnone D₀ hD₀ pool hpool unit hc hflip hkeep
    rest hrest s'
  refine tendsto_of_tendsto_of_tendsto_of_le_of_le tendsto_const_nhds
    (C105_limit cfg argsort ha hN4 hN8 hn (by rw [hcr, hcd]) hint hfloat hnone
      (fun x => .ok (f fun d => x.getD d 0)) (fun x => ⟨_, rfl⟩) D₀ hD₀ pool hpool unit hc hflip hkeep
      rest hrest s') (fun _ => zero_le) (fun k => ?_)
  refine MeasureTheory.OuterMeasure.mono _ ?_
  rintro Ds hDs ⟨s, e, hs⟩
  refine hDs ⟨s, e, near_of_solved (L := cfg.length) (by omega) hle ?_ (hcr ▸ hs)⟩
  intro x y hx ey
  cases ey
  obtain ⟨x', hg, hb⟩ := h cfg.length hL x hx
  exact ⟨x', _, hg, rfl, hb⟩

/-! ### concrete cases -/

/-- five bits over `[-10, 10]` (the default length): `3` is met up to `10 / 31` -/
example : ∃ g x', g.length = 1 * 5 ∧ (∀ b ∈ g, b = 0 ∨ b = 1) ∧
    decode 1 1 5 [((-10 : ℚ), 10)] [g] = .ok [x'] ∧ ∃ v', x'[0]? = some v' ∧ |v' - 3| ≤ 10 / 31 := by
  obtain ⟨g, x', h1, h2, h3, _, h5⟩ := C144_resolution 1 5 (by norm_num) [((-10 : ℚ), 10)] rfl [3]
    ⟨rfl, fun d hd => by
      have : d = 0 := by simpa using hd
      subst this
      exact ⟨3, rfl, by norm_num, by norm_num⟩⟩
  obtain ⟨v, v', e1, e2, hb⟩ := h5 0 (by simp)
  cases e1
  refine ⟨g, x', h1, h2, h3, v', e2, hb.trans (by norm_num)⟩

/-- `C144_sharp` for the same range -/
example := C144_sharp 1 5 (by norm_num) [((-10 : ℚ), 10)] rfl (by
  intro d hd
  have : d = 0 := by simpa using hd
  subst this
  norm_num)

/-- `C144_accuracy`: the objective `|x - 3|` is Lipschitz; the result is optimal up to `10 / 31` -/
example (s : Ga (List ℤ) (List ℚ) ℚ)
    (hs : Solved true 5 [((-10 : ℚ), 10)] (fun x => .ok |x.getD 0 0 - 3|) s) :
    NearOptimal true (10 / 31) [((-10 : ℚ), 10)] (fun x => .ok |x.getD 0 0 - 3|) s := by
  have := C144_accuracy true 5 (by norm_num) [((-10 : ℚ), 10)] (by
      intro d hd
      have : d = 0 := by simpa using hd
      subst this
      norm_num) (fun x => .ok |x.getD 0 0 - 3|) (fun x _ => ⟨_, rfl⟩) (fun _ => 1) (by simp)
    (by
      intro x x' y y' _ _ e e'
      cases e; cases e'
      simp only [List.length_singleton, Finset.univ_unique, Fin.default_eq_zero, Fin.isValue,
        one_mul, Finset.sum_singleton]
      refine (abs_abs_sub_abs_le_abs_sub _ _).trans (le_of_eq ?_)
      congr 1
      simp) s hs
  convert this using 1
  simp
  norm_num

/-! `C144_limit` for the objective `(x - 3)²` over `[0, 31]` with any sufficient number of bits: a
population of eight, `p_c = 1`, `p_m = 0.01`, an elite of three -/

noncomputable def bitsCfg (L : ℕ) : Config ℝ :=
  { nPop := 8, dim := 1, length := L, ranges := [(0, 31)], p_c := 1, p_m := 1 / 100,
    elitism := .int 3, minimize := true }

noncomputable def bitsDraws (L : ℕ) : CycleDraws ℝ :=
  { tour := fun _ w => w.take 3, pair := fun _ => GA.Props.lastTwo,
    cross := fun _ => ⟨0, [1], 0, List.replicate L (1 / 2), List.replicate L (1 / 2)⟩ }

theorem bitsDraws_ok (L : ℕ) (hL : 3 ≤ L) : IsCycleDraws L (bitsDraws L) := by
  refine ⟨fun _ w hw hl => ⟨?_, ?_, ?_⟩, fun _ => GA.Props.lastTwo_choice, fun _ => ⟨?_, ?_, ?_, ?_, ?_⟩⟩
  · simp [bitsDraws]; omega
  · exact hw.sublist (List.take_sublist _ _)
  · intro a ha; exact List.take_subset _ _ ha
  · intro _; simp [bitsDraws]; omega
  · simp [bitsDraws]
  · intro c hc
    have : c = 1 := by simpa [bitsDraws] using hc
    omega
  · simp [bitsDraws]
  · simp [bitsDraws]

noncomputable def sortReal (f : List ℝ) : List ℕ :=
  (List.range f.length).insertionSort (fun i j => f.getD i 0 ≤ f.getD j 0)

theorem sortReal_ok : IsArgsort sortReal := by
  intro l
  refine ⟨List.perm_insertionSort _ _, ?_⟩
  rw [List.pairwise_map]
  have : Std.Total (fun i j => l.getD i 0 ≤ l.getD j 0) := ⟨fun a b => le_total _ _⟩
  have : IsTrans ℕ (fun i j => l.getD i 0 ≤ l.getD j 0) := ⟨fun a b c => le_trans⟩
  refine (List.pairwise_insertionSort (fun i j => l.getD i 0 ≤ l.getD j 0) (List.range l.length)).imp ?_
  intro i j hij x hx y hy
  simp only [Option.mem_def] at hx hy
  simpa [List.getD_eq_getElem?_getD, hx, hy] using hij

noncomputable def centiReal : PMF ℝ := (PMF.uniformOfFintype (Fin 100)).map fun i => (i.val : ℝ) / 100

theorem centiReal_mem (i : Fin 100) : (i.val : ℝ) / 100 ∈ centiReal.support := by
  simp only [centiReal, PMF.support_map, Set.mem_image]
  exact ⟨i, by simp, rfl⟩

example : ∃ L₀ : ℕ, ∀ L, L₀ ≤ L → 3 ≤ L → Filter.Tendsto (fun k =>
      (draws (fun _ => cycleLaw centiReal (1 * L) (PMF.pure (bitsDraws L))) (k + 1)).toOuterMeasure
        {Ds | ¬ ∃ s, cycles (problem (bitsCfg L) (fun x => .ok ((x.getD 0 0 - 3) ^ 2)))
            (breedAt (bitsCfg L) sortReal Ds) (k + 1)
            (reset (initial (bitsCfg L) (bitsDraws L) (List.replicate 4 (List.replicate L 1)))
              ⟨[], none, none, none, {}, .initialized, .primed⟩).2 = (.ok (), s) ∧
          NearOptimal true (1 / 100) [(0, 31)] (fun x => .ok ((x.getD 0 0 - 3) ^ 2)) s})
      Filter.atTop (nhds 0) := by
  obtain ⟨L₀, h⟩ := C144_limit [((0 : ℝ), 31)] (by
    intro d hd
    have : d = 0 := by simpa using hd
    subst this
    norm_num) (fun x => (x ⟨0, by simp⟩ - 3) ^ 2) (by fun_prop) (1 / 100) (by norm_num)
  refine ⟨L₀, fun L hL h3 => ?_⟩
  have hd := bitsDraws_ok (1 * L) (by omega)
  have e : bitsDraws (1 * L) = bitsDraws L := by rw [one_mul]
  rw [e] at hd
  exact h (bitsCfg L) sortReal sortReal_ok rfl rfl hL (by simp [bitsCfg]) (by simp [bitsCfg])
    (by simpa [bitsCfg] using h3) (by intro k hk; cases hk; norm_num [bitsCfg]) (by intro q hq; cases hq)
    (by simp [bitsCfg]) (bitsDraws L) hd (List.replicate 4 (List.replicate L 1))
    ⟨by simp [bitsCfg], by
      intro g hg
      obtain rfl := List.eq_of_mem_replicate hg
      exact ⟨by simp [bitsCfg], fun b hb => Or.inr (List.eq_of_mem_replicate hb)⟩⟩
    centiReal ⟨_, centiReal_mem 0, by norm_num [bitsCfg]⟩ ⟨_, centiReal_mem 1, by norm_num [bitsCfg]⟩
    ⟨_, centiReal_mem 2, by norm_num [bitsCfg]⟩ (fun _ => PMF.pure (bitsDraws L))
    (by intro Ds D hD; simp at hD; subst hD; exact hd) _

end Verif.GAChance.Props
