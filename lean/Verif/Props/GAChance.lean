import Verif.Proofs.GAChance
import Verif.Props.BGA
import Mathlib.Probability.Distributions.Uniform

/-!
# C105 – the binary genetic algorithm finds a global optimum with probability one
-/

set_option linter.unusedSectionVars false

namespace Verif.GAChance.Props
open Verif Verif.GA Verif.BGA Verif.GAChance
open Verif.GA.Props (Beats beats_iff)
open Verif.BGA.Props
open scoped ENNReal

variable {K : Type} [Field K] [LinearOrder K]

/-- The points that can be represented: the `2^L` equidistant values from the lower to the upper
bound of each variable. -/
def OnGrid (L : ℕ) (ranges : List (K × K)) (x : List K) : Prop :=
  x.length = ranges.length ∧ ∀ (d : ℕ) (hd : d < ranges.length), ∃ m : ℕ, m < 2 ^ L ∧
    x[d]? = some (ranges[d].1 + (m : K) * (ranges[d].2 - ranges[d].1) / (2 ^ L - 1))

/-- The result stored in the state of the optimizer is a representable point with its objective
value, and no representable point has a better one. -/
def Solved (minimize : Bool) (L : ℕ) (ranges : List (K × K)) (fnc : List K → Py K)
    (s : Ga (List ℤ) (List K) K) : Prop :=
  ∃ x y, s.state.x = some x ∧ s.state.fn = some y ∧ OnGrid L ranges x ∧ fnc x = .ok y ∧
    ∀ x' y', OnGrid L ranges x' → fnc x' = .ok y' → ¬ Beats minimize y' y

/-! bit strings represent exactly the points of the grid -/

theorem bitValue_surj : ∀ (L m : ℕ), m < 2 ^ L →
    ∃ c : List ℤ, c.length = L ∧ (∀ b ∈ c, b = 0 ∨ b = 1) ∧ bitValue c = (m : ℤ) := by
  intro L
  induction L with
  | zero => intro m hm; exact ⟨[], rfl, by simp, by simp at hm; simp [bitValue, hm]⟩
  | succ L ih =>
    intro m hm
    obtain ⟨c, h1, h2, h3⟩ := ih (m / 2) (by rw [pow_succ] at hm; omega)
    refine ⟨((m % 2 : ℕ) : ℤ) :: c, by simp [h1], ?_, ?_⟩
    · intro b hb
      rcases List.mem_cons.mp hb with rfl | hb
      · omega
      · exact h2 b hb
    · simp only [bitValue, h3]
      omega

theorem blocks_exist {L : ℕ} : ∀ (dim : ℕ) (m : ℕ → ℕ), (∀ d, d < dim → m d < 2 ^ L) →
    ∃ g : List ℤ, IsBits (dim * L) g ∧ ∀ d, d < dim → bitValue (chromosome L g d) = (m d : ℤ) := by
  intro dim
  induction dim with
  | zero => intro m _; exact ⟨[], ⟨by simp, by simp⟩, by omega⟩
  | succ dim ih =>
    intro m hm
    obtain ⟨g, hg, hv⟩ := ih m (fun d hd => hm d (by omega))
    obtain ⟨c, h1, h2, h3⟩ := bitValue_surj L (m dim) (hm dim (by omega))
    refine ⟨g ++ c, ⟨by rw [List.length_append, hg.1, h1]; ring, ?_⟩, ?_⟩
    · intro b hb
      rcases List.mem_append.mp hb with h | h
      · exact hg.2 b h
      · exact h2 b h
    · intro d hd
      by_cases hdd : d < dim
      · rw [← hv d hdd]
        congr 1
        unfold chromosome
        have : d * L + L ≤ g.length := by
          rw [hg.1]
          calc d * L + L = (d + 1) * L := by ring
            _ ≤ dim * L := Nat.mul_le_mul_right _ hdd
        rw [List.drop_append_of_le_length (by omega), List.take_append_of_le_length (by simp; omega)]
      · have : d = dim := by omega
        subst this
        rw [← h3]
        congr 1
        unfold chromosome
        rw [← hg.1, List.drop_left, ← h1, List.take_length]

theorem decodeRow_formula {dim L : ℕ} {ranges : List (K × K)} (hr : ranges.length = dim) {g : List ℤ}
    (hg : IsBits (dim * L) g) : (decodeRow dim L ranges g).length = dim ∧
      ∀ (d : ℕ) (hd : d < ranges.length), (decodeRow dim L ranges g)[d]? = some (ranges[d].1 +
          ((bitValue (chromosome L g d) : ℤ) : K) * (ranges[d].2 - ranges[d].1) / (2 ^ L - 1)) := by
  obtain ⟨xs, h1, -, h3⟩ := C09_formula 1 dim L ranges hr [g] rfl (by simp [hg.1])
  rw [decode_rows (nPop := 1) (gs := [g]) rfl (by simp [hg.1])] at h1
  cases h1
  obtain ⟨x, hx, hl, hc⟩ := h3 0 (by simp)
  simp only [List.map_cons, List.getElem?_cons_zero, Option.some.injEq] at hx
  subst hx
  exact ⟨hl, hc⟩

theorem onGrid_iff {dim L : ℕ} {ranges : List (K × K)} (hr : ranges.length = dim) (x : List K) :
    OnGrid L ranges x ↔ ∃ g, IsBits (dim * L) g ∧ x = decodeRow dim L ranges g := by
  constructor
  · rintro ⟨hl, h⟩
    have hex : ∀ d, ∃ m : ℕ, ∀ (hd : d < ranges.length), m < 2 ^ L ∧
        x[d]? = some (ranges[d].1 + (m : K) * (ranges[d].2 - ranges[d].1) / (2 ^ L - 1)) := by
      intro d
      by_cases hd : d < ranges.length
      · obtain ⟨m, hm⟩ := h d hd; exact ⟨m, fun _ => hm⟩
      · exact ⟨0, fun h => absurd h hd⟩
    choose m hm using hex
    obtain ⟨g, hg, hv⟩ := blocks_exist (L := L) dim m (fun d hd => (hm d (by omega)).1)
    refine ⟨g, hg, ?_⟩
    obtain ⟨hl', hf⟩ := decodeRow_formula hr hg
    apply List.ext_getElem?
    intro d
    by_cases hd : d < ranges.length
    · rw [(hm d hd).2, hf d hd, hv d (by omega)]
      simp
    · rw [List.getElem?_eq_none (by omega), List.getElem?_eq_none (by omega)]
  · rintro ⟨g, hg, rfl⟩
    obtain ⟨hl', hf⟩ := decodeRow_formula hr hg
    refine ⟨by rw [hl', hr], fun d hd => ?_⟩
    have hcl : (chromosome L g d).length = L := by
      have : d * L + L ≤ dim * L := by
        calc d * L + L = (d + 1) * L := by ring
          _ ≤ dim * L := Nat.mul_le_mul_right _ (by omega)
      simp only [chromosome, List.length_take, List.length_drop, hg.1]; omega
    have hcb : ∀ b ∈ chromosome L g d, b = 0 ∨ b = 1 := fun b hb =>
      hg.2 b (List.drop_subset _ _ (List.take_subset _ _ hb))
    obtain ⟨b1, b2⟩ := bitValue_bounds _ hcb
    rw [hcl] at b2
    refine ⟨(bitValue (chromosome L g d)).toNat, ?_, ?_⟩
    · have : (2 : ℤ) ^ L = ((2 ^ L : ℕ) : ℤ) := by push_cast; rfl
      omega
    · rw [hf d hd]
      have hz : (((bitValue (chromosome L g d)).toNat : ℕ) : K) =
          ((bitValue (chromosome L g d) : ℤ) : K) := by
        rw [← Int.cast_natCast, Int.toNat_of_nonneg b1]
      rw [hz]

theorem solved_of_optimal {cfg : Config K} (hr : cfg.ranges.length = cfg.dim) {fnc : List K → Py K}
    {s : Ga (List ℤ) (List K) K} (h1 : Optimal cfg fnc s) (h2 : Recorded cfg fnc s) :
    Solved cfg.minimize cfg.length cfg.ranges fnc s := by
  obtain ⟨c, hc, hb⟩ := h1
  obtain ⟨a1, a2, a3, a4⟩ := h2 c hc
  refine ⟨_, _, a1, a2, (onGrid_iff hr _).mpr a4, a3, fun x' y' hx hy => ?_⟩
  obtain ⟨g, hg, rfl⟩ := (onGrid_iff hr _).mp hx
  rw [beats_iff, hb g hg y' hy]
  simp

/-- C105, rate. Let `rand()` have any distribution `unit`, let the numbers deciding on the
first crossover of each generation and on the mutation of its first child be independent, and
let all other draws have any distribution. Then the probability that after `k + 1` cycles the
result is not a global optimum over the representable points is at most `(1 - δ)^k`, where
`δ = P(rand() ≤ p_c) · min(P(rand() > p_m), P(rand() ≤ p_m))^(dim * length)`. This includes
that no cycle raises. -/
theorem C105_rate (cfg : Config K) (argsort : List K → List ℕ) (ha : IsArgsort argsort)
    (hN4 : 4 ∣ cfg.nPop) (hN8 : 8 ≤ cfg.nPop) (hn : 3 ≤ cfg.dim * cfg.length)
    (hr : cfg.ranges.length = cfg.dim)
    (hint : ∀ k, cfg.elitism = .int k → 1 ≤ k ∧ k < cfg.nPop ∧ (k ≤ cfg.nPop / 2 ∨ Even k))
    (hfloat : ∀ q, cfg.elitism = .float q → 0 < q ∧ q < 1 ∧
      (⌊(cfg.nPop : ℚ) * q⌋ ≤ cfg.nPop / 2 ∨ Even ⌊(cfg.nPop : ℚ) * q⌋))
    (hnone : cfg.elitism ≠ .none)
    (fnc : List K → Py K) (hfnc : ∀ x, ∃ y, fnc x = .ok y)
    (D₀ : CycleDraws K) (hD₀ : IsCycleDraws (cfg.dim * cfg.length) D₀)
    (pool : List (List ℤ)) (hpool : IsPool cfg.nPop (cfg.dim * cfg.length) pool)
    (unit : PMF K) (rest : List (CycleDraws K) → PMF (CycleDraws K))
    (hrest : ∀ Ds, ∀ D ∈ (rest Ds).support, IsCycleDraws (cfg.dim * cfg.length) D)
    (s' : Ga (List ℤ) (List K) K) (k : ℕ) :
    (draws (fun Ds => cycleLaw unit (cfg.dim * cfg.length) (rest Ds)) (k + 1)).toOuterMeasure
      {Ds | ¬ ∃ s, cycles (problem cfg fnc) (breedAt cfg argsort Ds) (k + 1)
          (reset (initial cfg D₀ pool) s').2 = (.ok (), s) ∧
        Solved cfg.minimize cfg.length cfg.ranges fnc s} ≤
      (1 - unit.toOuterMeasure {u | u ≤ cfg.p_c} *
        min (unit.toOuterMeasure {u | u > cfg.p_m}) (unit.toOuterMeasure {u | u ≤ cfg.p_m})
          ^ (cfg.dim * cfg.length)) ^ k := by
  have hel : Workable cfg.nPop cfg.elitism := by
    refine ⟨hnone, fun k hk => ⟨(hint k hk).1, (hint k hk).2.1⟩,
      fun q hq => ⟨(hfloat q hq).1, (hfloat q hq).2.1⟩, ?_⟩
    cases he : cfg.elitism with
    | none => exact absurd he hnone
    | int k =>
      obtain ⟨h1, h2, h3⟩ := hint k he
      simp only [eliteCount]
      rcases h3 with h | ⟨r, hr⟩
      · exact Or.inl (by omega)
      · exact Or.inr ⟨r.toNat, by omega⟩
    | float q =>
      obtain ⟨h1, h2, h3⟩ := hfloat q he
      have h0 : 0 ≤ ⌊(cfg.nPop : ℚ) * q⌋ := Int.floor_nonneg.mpr (by positivity)
      simp only [eliteCount]
      rcases h3 with h | ⟨r, hr⟩
      · exact Or.inl (by omega)
      · exact Or.inr ⟨r.toNat, by omega⟩
  obtain ⟨gs, h1, h2⟩ := initial_ok hD₀ hN4 hN8 hn hpool
  have hinv : RunInv cfg fnc (reset (initial cfg D₀ pool) s').2 := by
    rw [h1]
    exact ⟨consistent_reset _ gs s', by simpa [reset, setGenotypes] using h2, by simp [reset]⟩
  have hrec : Recorded cfg fnc (reset (initial cfg D₀ pool) s').2 := by
    rw [h1]; intro c hc; simp [reset] at hc
  have hle : ∀ p : K, {u : K | u ≤ p} = {u | ¬ u > p} := by intro p; ext u; simp
  have := run_fails ha hN4 hN8 hn hel hfnc unit rest hrest hinv k
  unfold chance rate at this
  rw [← hle, ← hle] at this
  refine le_trans (PMF.toOuterMeasure_mono _ ?_) this
  rintro Ds ⟨hDs, hsup⟩ ⟨t, ht, ho⟩
  apply hDs
  obtain ⟨hl, hm⟩ := draws_support hsup
  obtain ⟨t', ht', -, -, hrec'⟩ := run_ok ha hN4 hN8 hn hel hfnc (Ds := Ds) (fun D hD => by
    obtain ⟨i, hi, rfl⟩ := List.mem_iff_getElem.mp hD
    exact cycleLaw_support unit (hrest _) _ (hm i hi)) hinv (k + 1) hl.ge
  obtain rfl : t' = t := by rw [ht] at ht'; simpa using ht'.symm
  exact ⟨t', ht, solved_of_optimal hr ho (hrec' hrec)⟩

/-- C105, in the limit. If `rand()` can return numbers up to `p_c`, numbers up to `p_m` and
numbers above `p_m`, then the probability of not having found a global optimum after `k + 1`
cycles tends to zero. -/
theorem C105_limit (cfg : Config K) (argsort : List K → List ℕ) (ha : IsArgsort argsort)
    (hN4 : 4 ∣ cfg.nPop) (hN8 : 8 ≤ cfg.nPop) (hn : 3 ≤ cfg.dim * cfg.length)
    (hr : cfg.ranges.length = cfg.dim)
    (hint : ∀ k, cfg.elitism = .int k → 1 ≤ k ∧ k < cfg.nPop ∧ (k ≤ cfg.nPop / 2 ∨ Even k))
    (hfloat : ∀ q, cfg.elitism = .float q → 0 < q ∧ q < 1 ∧
      (⌊(cfg.nPop : ℚ) * q⌋ ≤ cfg.nPop / 2 ∨ Even ⌊(cfg.nPop : ℚ) * q⌋))
    (hnone : cfg.elitism ≠ .none)
    (fnc : List K → Py K) (hfnc : ∀ x, ∃ y, fnc x = .ok y)
    (D₀ : CycleDraws K) (hD₀ : IsCycleDraws (cfg.dim * cfg.length) D₀)
    (pool : List (List ℤ)) (hpool : IsPool cfg.nPop (cfg.dim * cfg.length) pool)
    (unit : PMF K) (hc : ∃ u ∈ unit.support, u ≤ cfg.p_c) (hflip : ∃ u ∈ unit.support, u ≤ cfg.p_m)
    (hkeep : ∃ u ∈ unit.support, u > cfg.p_m)
    (rest : List (CycleDraws K) → PMF (CycleDraws K))
    (hrest : ∀ Ds, ∀ D ∈ (rest Ds).support, IsCycleDraws (cfg.dim * cfg.length) D)
    (s' : Ga (List ℤ) (List K) K) :
    Filter.Tendsto (fun k =>
      (draws (fun Ds => cycleLaw unit (cfg.dim * cfg.length) (rest Ds)) (k + 1)).toOuterMeasure
        {Ds | ¬ ∃ s, cycles (problem cfg fnc) (breedAt cfg argsort Ds) (k + 1)
            (reset (initial cfg D₀ pool) s').2 = (.ok (), s) ∧
          Solved cfg.minimize cfg.length cfg.ranges fnc s}) Filter.atTop (nhds 0) := by
  have hpos : ∀ P : K → Prop, (∃ u ∈ unit.support, P u) → unit.toOuterMeasure {u | P u} ≠ 0 := by
    rintro P ⟨u, hu, hP⟩ h
    rw [PMF.toOuterMeasure_apply_eq_zero_iff, Set.disjoint_left] at h
    exact h hu hP
  refine tendsto_of_tendsto_of_tendsto_of_le_of_le tendsto_const_nhds
    (ENNReal.tendsto_pow_atTop_nhds_zero_of_lt_one (r := 1 - unit.toOuterMeasure {u | u ≤ cfg.p_c} *
        min (unit.toOuterMeasure {u | u > cfg.p_m}) (unit.toOuterMeasure {u | u ≤ cfg.p_m})
          ^ (cfg.dim * cfg.length)) ?_)
    (fun _ => zero_le)
    (fun k => C105_rate cfg argsort ha hN4 hN8 hn hr hint hfloat hnone fnc hfnc D₀ hD₀ pool hpool
      unit rest hrest s' k)
  refine ENNReal.sub_lt_self ENNReal.one_ne_top one_ne_zero (mul_ne_zero (hpos _ hc) (pow_ne_zero _ ?_))
  rcases min_choice (unit.toOuterMeasure {u | u > cfg.p_m}) (unit.toOuterMeasure {u | u ≤ cfg.p_m}) with h | h
  · rw [h]; exact hpos _ hkeep
  · rw [h]; exact hpos _ hflip

/-! ### a concrete case -/

/-- `rand()` with two decimals -/
noncomputable def centi : PMF ℚ := (PMF.uniformOfFintype (Fin 100)).map fun i => (i.val : ℚ) / 100

theorem centi_mem (i : Fin 100) : (i.val : ℚ) / 100 ∈ centi.support := by
  simp only [centi, PMF.support_map, Set.mem_image]
  exact ⟨i, by simp, rfl⟩

/-- C105: eight members of five bits, `p_c = 1`, `p_m = 0.01`, the objective `(x - 3)²`. -/
example : Filter.Tendsto (fun k =>
      (draws (fun _ => cycleLaw centi 5 (PMF.pure demoDraws)) (k + 1)).toOuterMeasure
        {Ds | ¬ ∃ s, cycles (problem demoCfg (fun x => .ok ((x.getD 0 0 - 3) ^ 2)))
            (breedAt demoCfg refArgsort Ds) (k + 1)
            (reset (initial demoCfg demoDraws demoPool)
              ⟨[], none, none, none, {}, .initialized, .primed⟩).2 = (.ok (), s) ∧
          Solved true 5 [(0, 31)] (fun x => .ok ((x.getD 0 0 - 3) ^ 2)) s}) Filter.atTop (nhds 0) :=
  C105_limit demoCfg refArgsort refArgsort_ok (by decide) (by decide) (by decide) rfl
    (by intro k h; cases h; decide) (by intro q h; cases h) (by simp [demoCfg]) _ (fun x => ⟨_, rfl⟩)
    demoDraws demoDraws_ok demoPool demoPool_ok centi
    ⟨_, centi_mem 0, by norm_num [demoCfg]⟩ ⟨_, centi_mem 1, by norm_num [demoCfg]⟩
    ⟨_, centi_mem 2, by norm_num [demoCfg]⟩ (fun _ => PMF.pure demoDraws)
    (by intro Ds D hD; simp at hD; subst hD; exact demoDraws_ok) _

end Verif.GAChance.Props
