import Verif.Proofs.GAPairs
import Verif.Proofs.GASolve
import Mathlib.Order.Bounds.Basic

/-!
# Properties of the genetic algorithm base class (C01, C02, C05-C08, C12, C13, C15)
-/

set_option linter.unusedSectionVars false

namespace Verif.GA.Props
open Verif.GA

/-! ## C01 – the population size -/

/-- C01. A requested size `n ≥ 1` becomes the least multiple of four that is `≥ n`; a size
`≤ 0` is rejected with an assertion. -/
theorem C01_population_size (n : ℤ) :
    (1 ≤ n → ∃ m, normPop n = .ok m ∧ IsLeast {m : ℤ | 4 ∣ m ∧ n ≤ m} m) ∧
    (n ≤ 0 → normPop n = .error .assertion) := by
  have hn : ∀ a b : ℤ, a = (if odd n = true then n + 1 else n) →
      b = (if odd (a.tdiv 2) = true then a + 2 else a) →
      normPop n = if b % 4 ≠ 0 then .error .assertion else if b < 4 then .error .assertion else .ok b := by
    rintro a b rfl rfl; rfl
  have hodd : ∀ k : ℤ, odd k = true ↔ k % 2 ≠ 0 := by intro k; simp [odd, even]
  have ha : ∃ a, a = (if odd n = true then n + 1 else n) := ⟨_, rfl⟩
  obtain ⟨a, ha⟩ := ha
  obtain ⟨b, hb⟩ : ∃ b, b = (if odd (a.tdiv 2) = true then a + 2 else a) := ⟨_, rfl⟩
  rw [hn a b ha hb]
  simp only [hodd] at ha hb
  constructor
  · intro h1
    have hapos : 0 ≤ a := by split at ha <;> omega
    rw [Int.tdiv_eq_ediv_of_nonneg hapos] at hb
    have h4 : b % 4 = 0 ∧ n ≤ b ∧ b < n + 4 := by
      split at ha <;> split at hb <;> omega
    refine ⟨b, ?_, ⟨⟨by omega, by omega⟩, ?_⟩⟩
    · rw [if_neg (by omega), if_neg (by omega)]
    · rintro k ⟨hk4, hk⟩
      omega
  · intro h0
    have hb4 : b < 4 := by split at ha <;> split at hb <;> omega
    rw [if_pos hb4]
    exact ite_self _

/-- the constructor's correction on the four residue classes -/
example : [5, 6, 7, 8, 0, -3].map normPop =
    [.ok 8, .ok 8, .ok 8, .ok 8, .error .assertion, .error .assertion] := by decide

/-! ## C02 – random pairing of the parents -/

/-- C02, for every even pool except one of exactly two genotypes: the generator finishes and
yields `n/2` pairs in which every position occurs exactly once, whatever is drawn.
Missing from the full claim: `n = 2`, where it is false (`C02_two_parents_lost`). -/
theorem C02_pairing_partial (draw : ℕ → List ℕ → ℕ × ℕ) (hdraw : ∀ i, IsPairChoice (draw i))
    (n : ℕ) (heven : Even n) (h2 : n ≠ 2) :
    ∃ fuel₀, ∀ fuel, fuel₀ ≤ fuel → ∃ ps : List (ℕ × ℕ),
      parentPositions draw fuel n = some (.ok ps) ∧ 2 * ps.length = n ∧
      (ps.flatMap fun p => [p.1, p.2]).Perm (List.range n) := by
  obtain ⟨h, rfl⟩ := heven
  refine ⟨h + 1, fun fuel hf => ?_⟩
  obtain ⟨ps, h1, hl, h3⟩ := pairLoop_spec hdraw h fuel 0 (h + h)
    (List.replicate (h + h) true) (by rw [trues_replicate]; simp; ring)
    (by omega) (by omega)
  refine ⟨ps, ?_, by omega, ?_⟩
  · unfold parentPositions
    rw [if_neg (by omega)]
    exact h1
  · have hflat : (ps.flatMap fun p => [p.1, p.2]) = flat ps := rfl
    rw [hflat]
    simpa [trues_replicate] using h3

/-- The full claim of C02 is false: two genotypes are never paired, although n/2 = 1. -/
theorem C02_two_parents_lost (draw : ℕ → List ℕ → ℕ × ℕ) (fuel : ℕ) :
    parentPositions draw (fuel + 1) 2 = some (.ok []) := by
  simp [parentPositions, pairLoop]

/-- An odd number of genotypes is rejected. -/
theorem C02_odd_rejected (draw : ℕ → List ℕ → ℕ × ℕ) (fuel n : ℕ) (h : ¬ Even n) :
    parentPositions draw fuel n = some (.error .assertion) := by
  unfold parentPositions
  rw [if_pos (by rwa [Nat.even_iff] at h)]

/-- a draw that takes the last two remaining positions -/
def lastTwo (w : List ℕ) : ℕ × ℕ := (w.getD (w.length - 1) 0, w.getD (w.length - 2) 0)

theorem lastTwo_choice : IsPairChoice lastTwo := by
  intro w hw hl
  have h1 : w.length - 1 < w.length := by omega
  have h2 : w.length - 2 < w.length := by omega
  simp only [lastTwo, List.getD_eq_getElem?_getD, List.getElem?_eq_getElem h1,
    List.getElem?_eq_getElem h2, Option.getD_some]
  refine ⟨List.getElem_mem _, List.getElem_mem _, fun h => ?_⟩
  have := (List.Nodup.getElem_inj_iff hw).mp h
  omega

example : parentPositions (fun _ => lastTwo) 10 6 = some (.ok [(5, 4), (3, 2), (1, 0)]) := by
  decide

/-! ## C05 – the champion -/

section
variable {G X K : Type*} [LinearOrder K]

/-- `a` is strictly better than `b` in the direction of the optimization. -/
def Beats (minimize : Bool) (a b : K) : Prop := if minimize = true then a < b else b < a

theorem beats_iff (m : Bool) (a b : K) : Beats m a b ↔ betterThan m a b = true := by
  cases m <;> simp [Beats, betterThan]

/-- `g`, `x`, `y` are genotype, phenotype and objective value of a member of the population
that the optimizer `s` holds. -/
def Member (pb : Problem G X K) (s : Ga G X K) (g : G) (x : X) (y : K) : Prop :=
  ∃ (j : ℕ) (xs : List X), pb.decode s.genotypes = .ok xs ∧ s.genotypes[j]? = some g ∧
    xs[j]? = some x ∧ pb.fnc x = .ok y

/-- The operation is a cycle of evolution. -/
def IsCycle : Op G K → Prop
  | .evolve _ => True
  | _ => False

theorem isCycle_iff (o : Op G K) : IsCycle o ↔ isEvolve o = true := by
  cases o <;> simp [IsCycle, isEvolve]

/-- C05. After a reset and any successful history of cycles and reads containing a cycle:
the champion is a member of a population of this history, no member of any population of
the history is strictly better, and `state.x`/`state.fun` mirror the champion.  -/
theorem C05_champion_is_best (pb : Problem G X K) (gs0 : List G) (s' s : Ga G X K)
    (ops : List (Op G K)) (hcyc : ∃ o ∈ ops, IsCycle o)
    (hrun : runOps pb ops (reset (.ok gs0) s').2 = (.ok (), s)) :
    ∃ c, s.champion = some c ∧
      s.state.x = some c.phenotype ∧ s.state.fn = some c.fitness ∧
      (∃ pre, pre <+: ops ∧ ∃ sp, runOps pb pre (reset (.ok gs0) s').2 = (.ok (), sp) ∧
        Member pb sp c.genotype c.phenotype c.fitness) ∧
      (∀ pre, pre <+: ops → ∀ sp, runOps pb pre (reset (.ok gs0) s').2 = (.ok (), sp) →
        ∀ g x y, Member pb sp g x y → ¬ Beats pb.minimize y c.fitness) := by
  have I := histInv (pb := pb) (consistent_reset pb gs0 s') rfl rfl rfl rfl ops s hrun
  obtain ⟨o, ho, hoc⟩ := hcyc
  obtain ⟨-, c, h1, h2, h3, ⟨pre, hpre, sp, hsp, hm⟩, h5⟩ := I.run ⟨o, ho, (isCycle_iff o).mp hoc⟩
  refine ⟨c, h1, h2, h3, ⟨pre, hpre, sp, hsp, hm⟩, ?_⟩
  rintro pre' hpre' sp' hsp' g x y ⟨j, xs, m1, m2, m3, m4⟩
  rw [beats_iff, h5 pre' hpre' sp' hsp' xs m1 x (List.mem_of_getElem? m3) y m4]
  simp

/-- C05, monotone: the champion after a longer history is never worse than the champion
after a part of it. -/
theorem C05_champion_monotone (pb : Problem G X K) (gs0 : List G) (s' s t : Ga G X K)
    (ops more : List (Op G K)) (hcyc : ∃ o ∈ ops, IsCycle o)
    (hs : runOps pb ops (reset (.ok gs0) s').2 = (.ok (), s))
    (ht : runOps pb (ops ++ more) (reset (.ok gs0) s').2 = (.ok (), t)) :
    ∃ c d, s.champion = some c ∧ t.champion = some d ∧ ¬ Beats pb.minimize c.fitness d.fitness := by
  obtain ⟨c, hc, -, -, ⟨pre, hpre, sp, hsp, hm⟩, -⟩ :=
    C05_champion_is_best pb gs0 s' s ops hcyc hs
  obtain ⟨o, ho, hoc⟩ := hcyc
  obtain ⟨d, hd, -, -, -, hall⟩ :=
    C05_champion_is_best pb gs0 s' t (ops ++ more) ⟨o, by simp [ho], hoc⟩ ht
  exact ⟨c, d, hc, hd, hall pre (hpre.trans (List.prefix_append _ _)) sp hsp _ _ _ hm⟩

/-! ## C06 – the age of the champion -/

/-- C06. After `n ≥ 1` cycles since the reset the age `a` of the champion satisfies
`1 ≤ a ≤ n`, this champion was at the top after each of the last `a` cycles (with the ages
`1, ..., a`), and before these the champion was a strictly worse one (or there was none). -/
theorem C06_age (pb : Problem G X K) (gs0 : List G) (s' : Ga G X K)
    (breeds : ℕ → List G → List K → Py (List G)) (n : ℕ) (hn : 1 ≤ n) (s : Ga G X K)
    (hrun : cycles pb breeds n (reset (.ok gs0) s').2 = (.ok (), s)) :
    ∃ c, s.champion = some c ∧ 1 ≤ c.age ∧ c.age ≤ n ∧
      (∀ i, n - c.age < i → i ≤ n → ∃ si, cycles pb breeds i (reset (.ok gs0) s').2 = (.ok (), si) ∧
        si.champion = some { c with age := i - (n - c.age) }) ∧
      (c.age < n → ∃ si d, cycles pb breeds (n - c.age) (reset (.ok gs0) s').2 = (.ok (), si) ∧
        si.champion = some d ∧ Beats pb.minimize c.fitness d.fitness) := by
  induction n generalizing s with
  | zero => omega
  | succ n ih =>
    have hrun' := hrun
    simp only [cycles] at hrun
    split at hrun
    · simp at hrun
    · rename_i t ht
      -- invariants of the state before the last cycle
      have hinv : ∀ (n : ℕ) (t : Ga G X K), cycles pb breeds n (reset (.ok gs0) s').2 = (.ok (), t) →
          Consistent pb t ∧ (n = 0 → t.champion = none) := by
        intro n
        induction n with
        | zero =>
          intro t ht
          simp only [cycles, Prod.mk.injEq, true_and] at ht
          subst ht
          exact ⟨consistent_reset pb gs0 s', fun _ => rfl⟩
        | succ n ihn =>
          intro t ht
          simp only [cycles] at ht
          split at ht
          · simp at ht
          · rename_i u hu
            obtain ⟨_, _, _, _, hc, _⟩ := evolve1_ok (ihn u hu).1 ht
            exact ⟨hc, by simp⟩
      obtain ⟨htc, ht0⟩ := hinv n t ht
      obtain ⟨s1, b, -, -, -, -, -, -, -, -, -, u, -, hu, rfl⟩ := evolve1_ok htc hrun
      obtain ⟨c', hc', -, -, h4⟩ := celebrate_champion pb.minimize u b
      refine ⟨c', hc', ?_⟩
      have last : ∀ i, n < i → i ≤ n + 1 → c'.age = 1 →
          ∃ si, cycles pb breeds i (reset (.ok gs0) s').2 = (.ok (), si) ∧
            si.champion = some { c' with age := i - (n + 1 - c'.age) } := by
        intro i h1 h2 ha
        obtain rfl : i = n + 1 := by omega
        refine ⟨_, hrun', ?_⟩
        rw [hc', ha]
        simp only [Nat.add_sub_cancel, Option.some.injEq]
        have : n + 1 - n = c'.age := by omega
        rw [this]
      by_cases hz : n = 0
      · subst hz
        rw [hu, ht0 rfl] at h4
        rcases h4 with ⟨-, hcc⟩ | ⟨d, hd, -⟩ | ⟨d, hd, -⟩
        · have ha : c'.age = 1 := by rw [hcc]
          refine ⟨by omega, by omega, ?_, by omega⟩
          intro i h1 h2
          exact last i (by omega) h2 ha
        · cases hd
        · cases hd
      · obtain ⟨d, hd, d1, d2, d3, d4⟩ := ih (by omega) t ht
        rw [hu, hd] at h4
        rcases h4 with ⟨hno, -⟩ | ⟨d', hd', hb, hcc⟩ | ⟨d', hd', hb, hcc⟩
        · cases hno
        · cases hd'
          have ha : c'.age = 1 := by rw [hcc]
          refine ⟨by omega, by omega, ?_, ?_⟩
          · intro i h1 h2
            exact last i (by omega) h2 ha
          · intro _
            refine ⟨t, d, ?_, hd, ?_⟩
            · rw [ha]; exact ht
            · rw [beats_iff, hcc]; exact hb
        · cases hd'
          have ha : c'.age = d.age + 1 := by rw [hcc]
          have hsub : n + 1 - c'.age = n - d.age := by omega
          refine ⟨by omega, by omega, ?_, ?_⟩
          · intro i h1 h2
            rw [hsub] at h1 ⊢
            by_cases hi : i ≤ n
            · obtain ⟨si, e1, e2⟩ := d3 i h1 hi
              refine ⟨si, e1, ?_⟩
              rw [e2, hcc]
            · obtain rfl : i = n + 1 := by omega
              refine ⟨_, hrun', ?_⟩
              rw [hc', hcc]
              simp only [Option.some.injEq, Genom.mk.injEq, true_and, and_true]
              omega
          · intro hlt
            rw [hsub]
            obtain ⟨si, e, e1, e2, e3⟩ := d4 (by omega)
            exact ⟨si, e, e1, e2, by rw [hcc]; exact e3⟩

/-! ## C08 – counting evaluations -/

/-- Number of cycles in a history. -/
def numCycles (ops : List (Op G K)) : ℕ :=
  (ops.filter fun o => match o with | .evolve _ => true | _ => false).length

/-- C08. With populations that decode to `N` phenotypes, after any successful history of
cycles and reads with at least one cycle the reported number of evaluations is `N` times
the number of cycles. -/
theorem C08_evaluations (pb : Problem G X K) (N : ℕ)
    (hN : ∀ gs xs, pb.decode gs = .ok xs → xs.length = N)
    (gs0 : List G) (s' s : Ga G X K) (ops : List (Op G K)) (hcyc : ∃ o ∈ ops, IsCycle o)
    (hrun : runOps pb ops (reset (.ok gs0) s').2 = (.ok (), s)) :
    s.state.n_fev = N * numCycles ops := by
  have h := nfev_inv (pb := pb) hN (consistent_reset pb gs0 s') rfl rfl rfl rfl rfl rfl ops s hrun
  have hcount : numCycles ops = ops.countP isEvolve := by
    rw [List.countP_eq_length_filter]
    unfold numCycles
    congr 1
  rw [hcount]
  obtain ⟨o, ho, hoc⟩ := hcyc
  exact (h.2 (List.countP_pos_iff.mpr ⟨o, ho, (isCycle_iff o).mp hoc⟩)).2

end

section Demo
/-- a small problem: genotypes are the phenotypes, the objective is `(x-3)²` -/
def demo : Problem ℤ ℤ ℤ := { decode := fun gs => .ok gs, fnc := fun x => .ok ((x - 3) * (x - 3)), minimize := true }
def demoBreed (gs : List ℤ) (_ : List ℤ) : Py (List ℤ) := .ok (gs.map (· + 1))
def demoOps : List (Op ℤ ℤ) := [.readFitness, .evolve demoBreed, .bestCandidate, .evolve demoBreed,
  .evolve demoBreed, .readFitness, .evolve demoBreed, .evolve demoBreed]

/-- C05 and C08 in a run of five cycles: the champion 3 (value 0) is found in the third
cycle (genotypes 2,3) and is two cycles old afterwards. -/
example : let s := (runOps demo demoOps (reset (.ok [0, 1]) ⟨[], none, none, none, {}, .initialized, .primed⟩).2)
    s.1.toOption = some () ∧ s.2.champion.map (fun c => (c.phenotype, c.fitness, c.age)) = some (3, 0, 3) ∧
    s.2.state.fn = some 0 ∧ s.2.state.n_fev = 10 ∧ numCycles demoOps = 5 := by decide

example : ∀ gs xs, demo.decode gs = .ok xs → gs.length = xs.length := by
  intro gs xs h; simp [demo] at h; rw [h]

/-- C08's hypothesis on `decode` holds e.g. for a decoder that checks the population size. -/
example : ∀ gs xs, (({ demo with decode := fun gs => if gs.length = 2 then .ok gs else .error .value } :
    Problem ℤ ℤ ℤ).decode gs = .ok xs) → xs.length = 2 := by
  intro gs xs h
  by_cases h2 : gs.length = 2
  · simp [h2] at h; rw [← h]; exact h2
  · simp [h2] at h

/-- C06 in a run of five cycles -/
example : let s := cycles demo (fun _ => demoBreed) 5 (reset (.ok [0, 1]) ⟨[], none, none, none, {}, .initialized, .primed⟩).2
    s.1.toOption = some () ∧ s.2.champion.map (fun c => (c.phenotype, c.age)) = some (3, 3) := by decide
end Demo

/-! ## C07 and C12 – `solve` -/

section
variable {G X K : Type*} [LinearOrder K]

/-- An iteration of the loop that did not raise takes `a` to `b`: one cycle, one count. -/
def Iteration (pb : Problem G X K) (breed : List G → List K → Py (List G)) (a b : Ga G X K) : Prop :=
  ∃ u, evolve1 pb breed a = (.ok (), u) ∧
    b = { u with state := { u.state with n_iter := u.state.n_iter + 1 } }

/-- The run may end in this state. -/
def MayEnd (maxiter miniter : ℤ) (stop : Ga G X K → Py Bool) (a : Ga G X K) : Prop :=
  (stop a = .ok true ∨ maxiter ≤ (a.state.n_iter : ℤ)) ∧ miniter ≤ (a.state.n_iter : ℤ)

theorem iteration_of_pass {pb : Problem G X K} {maxiter miniter : ℤ}
    {breed : List G → List K → Py (List G)} {stop : Ga G X K → Py Bool} {a b : Ga G X K}
    (h : solvePass pb maxiter miniter breed stop a = (.ok none, b)) :
    Iteration pb breed a b ∧ ¬ MayEnd maxiter miniter stop b := by
  obtain ⟨u, x, h1, h2, h3, h4⟩ := solvePass_none.mp h
  refine ⟨⟨u, h1, h2⟩, ?_⟩
  rintro ⟨h5, h6⟩
  apply h4
  refine ⟨?_, h6⟩
  rcases h5 with h5 | h5
  · left; rw [h3] at h5; simpa using h5
  · exact Or.inr h5

/-- C07, termination: with `miniter ≤ maxiter` the loop of `solve` ends, whatever the
stopping criterion and the breeding do, within `max(1, maxiter - n₀)` iterations where `n₀`
is the count at the start (0 unless recycling). -/
theorem C07_terminates (pb : Problem G X K) (maxiter miniter : ℤ) (hmm : miniter ≤ maxiter)
    (breeds : ℕ → List G → List K → Py (List G)) (stop : Ga G X K → Py Bool)
    (s : Ga G X K) (fuel : ℕ) (hf : max 1 (maxiter - s.state.n_iter) ≤ (fuel : ℤ)) :
    ∃ r s', solveBody pb maxiter miniter breeds stop fuel s = some (r, s') := by
  have h1 : 1 ≤ fuel := by have := le_max_left 1 (maxiter - s.state.n_iter); omega
  have h2 : maxiter ≤ (s.state.n_iter : ℤ) + fuel := by
    have := le_max_right 1 (maxiter - s.state.n_iter); omega
  obtain ⟨r, s', h⟩ := solveLoop_terminates (pb := pb) hmm (breeds := breeds) (stop := stop)
    fuel 0 { s with status := .initialized } h1 h2
  unfold solveBody
  simp only [h]
  cases r <;> exact ⟨_, _, rfl⟩

/-- C07, when and why it stops: a run that returns consists of `k ≥ 1` iterations, of which
the last is the first after which the run may end (criterion met or `maxiter` reached, and
`miniter` reached); the stage is MAX_ITERATIONS_REACHED if the count reached `maxiter` and
CONVERGED otherwise. -/
theorem C07_stops_first (pb : Problem G X K) (maxiter miniter : ℤ)
    (breeds : ℕ → List G → List K → Py (List G)) (stop : Ga G X K → Py Bool)
    (s s' : Ga G X K) (fuel : ℕ)
    (h : solveBody pb maxiter miniter breeds stop fuel s = some (.ok (), s')) :
    ∃ (k : ℕ) (st : ℕ → Ga G X K), 1 ≤ k ∧ st 0 = { s with status := .initialized } ∧
      (∀ j < k, Iteration pb (breeds j) (st j) (st (j + 1))) ∧
      (∀ j, 1 ≤ j → j < k → ¬ MayEnd maxiter miniter stop (st j)) ∧
      MayEnd maxiter miniter stop (st k) ∧
      s'.state.n_iter = s.state.n_iter + k ∧ s'.champion = (st k).champion ∧
      s'.genotypes = (st k).genotypes ∧ s'.state.n_fev = (st k).state.n_fev ∧
      s'.state.stage = some (if maxiter ≤ (s'.state.n_iter : ℤ) then .maxIterationsReached
        else .converged) := by
  unfold solveBody at h
  simp only at h
  split at h
  · simp at h
  · rename_i x t hl
    simp only [Option.some.injEq, Prod.mk.injEq, true_and] at h
    obtain ⟨k, st, h0, hall, hend⟩ := solveLoop_trace _ _ _ _ _ hl
    simp only [Nat.zero_add] at hall hend
    rcases hend with ⟨e, he, -⟩ | ⟨y, hy, hp⟩
    · cases he
    · cases hy
      obtain ⟨u, b, e1, e2, e3, e4, e5, e6⟩ := solvePass_some hp
      have hk := trace_niter k hall
      have ht : t.state.n_iter = s.state.n_iter + (k + 1) := by
        rw [e2]; simp [bump, evolve1_niter e1, hk, h0, Nat.add_assoc]
      have hst : s'.state.n_iter = t.state.n_iter := by rw [← h]
      refine ⟨k + 1, fun j => if j ≤ k then st j else t, by omega, by simp [h0], ?_, ?_, ?_, ?_, ?_, ?_, ?_, ?_⟩
      · intro j hj
        by_cases hjk : j < k
        · simp only [show j ≤ k by omega, show j + 1 ≤ k by omega, if_true]
          exact (iteration_of_pass (hall j hjk)).1
        · obtain rfl : j = k := by omega
          simp only [le_refl, if_true, show ¬ (j + 1 ≤ j) by omega, if_false]
          exact ⟨u, e1, e2⟩
      · intro j h1 h2
        obtain ⟨i, rfl⟩ : ∃ i, j = i + 1 := ⟨j - 1, by omega⟩
        simp only [show i + 1 ≤ k by omega, if_true]
        exact (iteration_of_pass (hall i (by omega))).2
      · simp only [show ¬ (k + 1 ≤ k) by omega, if_false]
        refine ⟨?_, e5⟩
        rcases e4 with e4 | e4
        · left; rw [e3, e4]
        · exact Or.inr e4
      · rw [hst, ht]
      · simp only [show ¬ (k + 1 ≤ k) by omega, if_false]; rw [← h]
      · simp only [show ¬ (k + 1 ≤ k) by omega, if_false]; rw [← h]
      · simp only [show ¬ (k + 1 ≤ k) by omega, if_false]; rw [← h]
      · rw [hst, ← e6, ← h]
  · simp at h

/-- C07, the limits: starting from the count 0 a run that returns makes at least
`max(1, miniter)` and at most `max(1, maxiter)` iterations. -/
theorem C07_iteration_limits (pb : Problem G X K) (maxiter miniter : ℤ) (hmm : miniter ≤ maxiter)
    (breeds : ℕ → List G → List K → Py (List G)) (stop : Ga G X K → Py Bool)
    (s s' : Ga G X K) (hs : s.state.n_iter = 0) (fuel : ℕ)
    (h : solveBody pb maxiter miniter breeds stop fuel s = some (.ok (), s')) :
    max 1 miniter ≤ (s'.state.n_iter : ℤ) ∧ (s'.state.n_iter : ℤ) ≤ max 1 maxiter := by
  obtain ⟨k, st, hk, h0, hit, hnot, ⟨hend1, hend2⟩, hn, -⟩ :=
    C07_stops_first pb maxiter miniter breeds stop s s' fuel h
  have hcount : ∀ j ≤ k, (st j).state.n_iter = j := by
    intro j
    induction j with
    | zero => intro _; rw [h0]; exact hs
    | succ j ih =>
      intro hj
      obtain ⟨u, e1, e2⟩ := hit j (by omega)
      rw [e2]
      simp [evolve1_niter e1, ih (by omega)]
  rw [hs, Nat.zero_add] at hn
  rw [hn]
  rw [hcount k le_rfl] at hend2
  refine ⟨max_le (by omega) hend2, ?_⟩
  by_cases h1 : k = 1
  · subst h1; exact le_max_of_le_left (by simp)
  · apply le_max_of_le_right
    have := hnot (k - 1) (by omega) (by omega)
    by_contra hlt
    apply this
    unfold MayEnd
    rw [hcount (k - 1) (by omega)]
    constructor
    · right; omega
    · omega

/-- C12, the record is honest: whatever way `solve` ends, a re-raised exception `e` comes
with `success = False`, the message of `e` and the stage ERROR, and a normal return with
`success = True` and one of the two termination codes. -/
theorem C12_honest_record (pb : Problem G X K) (maxiter miniter : ℤ)
    (breeds : ℕ → List G → List K → Py (List G)) (stop : Ga G X K → Py Bool)
    (s s' : Ga G X K) (r : Py Unit) (fuel : ℕ)
    (h : solveBody pb maxiter miniter breeds stop fuel s = some (r, s')) :
    (∀ e, r = .error e → s'.state.success = false ∧ s'.state.message = some e ∧
      s'.state.stage = some .error) ∧
    (r = .ok () → s'.state.success = true ∧
      (s'.state.stage = some .maxIterationsReached ∨ s'.state.stage = some .converged)) := by
  constructor
  · rintro e rfl
    unfold solveBody at h
    simp only at h
    split at h
    · simp at h
    · simp at h
    · simp only [Option.some.injEq, Prod.mk.injEq, Except.error.injEq] at h
      obtain ⟨rfl, rfl⟩ := h
      exact ⟨rfl, rfl, rfl⟩
  · rintro rfl
    obtain ⟨k, st, -, -, -, -, -, -, -, -, -, hst⟩ :=
      C07_stops_first pb maxiter miniter breeds stop s s' fuel h
    refine ⟨?_, ?_⟩
    · unfold solveBody at h
      simp only at h
      split at h
      · simp at h
      · simp only [Option.some.injEq, Prod.mk.injEq, true_and] at h
        rw [← h]
      · simp at h
    · rw [hst]; split <;> simp

/-- C12, nothing is swallowed: if after `k` iterations that did not end the run the next one
raises `e` – in the cycle itself or in the stopping criterion – then `solve` re-raises `e`
and leaves the record of an error. -/
theorem C12_reraises (pb : Problem G X K) (maxiter miniter : ℤ)
    (breeds : ℕ → List G → List K → Py (List G)) (stop : Ga G X K → Py Bool)
    (s : Ga G X K) (k : ℕ) (st : ℕ → Ga G X K) (h0 : st 0 = { s with status := .initialized })
    (hit : ∀ j < k, Iteration pb (breeds j) (st j) (st (j + 1)) ∧
      (∃ b, stop (st (j + 1)) = .ok b) ∧ ¬ MayEnd maxiter miniter stop (st (j + 1)))
    (e : PyErr)
    (hraise : (∃ u, evolve1 pb (breeds k) (st k) = (.error e, u)) ∨
      (∃ t, Iteration pb (breeds k) (st k) t ∧ stop t = .error e))
    (fuel : ℕ) (hf : k < fuel) :
    ∃ s', solveBody pb maxiter miniter breeds stop fuel s = some (.error e, s') ∧
      s'.state.success = false ∧ s'.state.message = some e ∧ s'.state.stage = some .error := by
  have hpass : ∀ j < k, solvePass pb maxiter miniter (breeds (0 + j)) stop (st j) =
      (.ok none, st (j + 1)) := by
    intro j hj
    obtain ⟨⟨u, e1, e2⟩, ⟨b, e3⟩, e4⟩ := hit j hj
    rw [Nat.zero_add, solvePass_none]
    refine ⟨u, b, e1, e2, e3, ?_⟩
    rintro ⟨h1, h2⟩
    apply e4
    refine ⟨?_, h2⟩
    rcases h1 with h1 | h1
    · left; rw [e3, h1]
    · exact Or.inr h1
  obtain ⟨t, ht⟩ : ∃ t, solvePass pb maxiter miniter (breeds (0 + k)) stop (st k) = (.error e, t) := by
    rw [Nat.zero_add]
    rcases hraise with ⟨u, hu⟩ | ⟨t, ⟨u, e1, e2⟩, e3⟩
    · exact ⟨u, solvePass_error.mpr (Or.inl hu)⟩
    · exact ⟨t, solvePass_error.mpr (Or.inr ⟨u, e1, e2, e3⟩)⟩
  obtain ⟨f, rfl⟩ : ∃ f, fuel = (f + 1) + k := ⟨fuel - k - 1, by omega⟩
  have hloop := solveLoop_of_trace k (f + 1) 0 st hpass
  rw [h0, solveLoop, ht] at hloop
  simp only at hloop
  unfold solveBody
  simp only [hloop]
  exact ⟨_, rfl, rfl, rfl, rfl⟩

/-- C12, the objective: if the population that a cycle is to evaluate contains a phenotype
on which the objective raises, the cycle raises `RuntimeError`. -/
theorem C12_objective_failure (pb : Problem G X K) (breed : List G → List K → Py (List G))
    (s : Ga G X K) (hfresh : s.phase = .primed ∧ s.fitness = none ∧ s.phenotypes = none)
    (xs : List X) (hd : pb.decode s.genotypes = .ok xs) (x : X) (hx : x ∈ xs) (e : PyErr)
    (hfail : pb.fnc x = .error e) :
    (evolve1 pb breed s).1 = .error .runtime := by
  obtain ⟨h1, h2, h3⟩ := hfresh
  have hm : ∃ e', pyMap pb.fnc xs = .error e' := by
    cases h : pyMap pb.fnc xs with
    | error e' => exact ⟨e', rfl⟩
    | ok ys =>
      rw [pyMap_eq_ok_iff] at h
      exfalso
      have : ∀ x ∈ xs, ∃ y, pb.fnc x = .ok y := by
        intro x hx
        obtain ⟨k, hk⟩ := List.mem_iff_getElem?.mp hx
        have hkl := (List.getElem?_eq_some_iff.mp hk).1
        have hl := h.length_eq
        exact ⟨ys[k], forall₂_getElem? h k x _ hk (List.getElem?_eq_getElem (by omega))⟩
      obtain ⟨y, hy⟩ := this x hx
      rw [hfail] at hy; cases hy
  obtain ⟨e', he'⟩ := hm
  simp [evolve1, nextEvolver, h1, bestCandidate, getFitness, h2, getPhenotypes, h3, hd, evaluate, he']

end

section Demo
/-- C07: a run with the default criterion (`maxage = 2`), limits 2 and 50; it converges in
iteration 6, when the champion found in iteration 3... is three cycles old. -/
example : (solveBody demo 50 2 (fun _ => demoBreed) (stoppingCriteria 2) 60
    (reset (.ok [0, 1]) ⟨[], none, none, none, {}, .initialized, .primed⟩).2).map
    (fun r => (r.1.toOption, r.2.state.n_iter, r.2.state.stage, r.2.state.success)) =
    some (some (), 5, some .converged, true) := by decide

/-- C12: the objective fails on 3; the third iteration raises. -/
example : (solveBody { demo with fnc := fun x => if x = 3 then .error .zeroDiv else .ok x } 50 2
    (fun _ => demoBreed) (stoppingCriteria 20) 60
    (reset (.ok [0, 1]) ⟨[], none, none, none, {}, .initialized, .primed⟩).2).map
    (fun r => (r.1.toOption, r.2.state.n_iter, r.2.state.stage, r.2.state.success)) =
    some (none, 2, some .error, false) := by decide
end Demo

/-- Finding on C07's surroundings: `maxiter = 0` still makes one iteration. -/
theorem C07_maxiter_zero_still_iterates :
    (solveBody demo 0 0 (fun _ => demoBreed) (stoppingCriteria 2) 60
      (reset (.ok [0, 1]) ⟨[], none, none, none, {}, .initialized, .primed⟩).2).map
      (fun r => r.2.state.n_iter) = some 1 := by decide

/-! ## C13 – solution parameters -/

/-- What the documentation calls valid. -/
def ValidElitism (nPop : ℤ) : Elitism → Prop
  | .none => True
  | .int k => 1 ≤ k ∧ (1 < k → k < nPop)
  | .float q => 0 < q ∧ q ≤ 1

def ValidParams {K : Type*} (nPop : ℤ) (p : Params K) : Prop :=
  ValidElitism nPop p.elitism ∧ p.miniter ≤ p.maxiter

/-- A parameter has the given value, or the old one if it was not given. -/
def Updated {α : Type*} (old new : α) (given : Option α) : Prop :=
  (∀ v, given = some v → new = v) ∧ (given = none → new = old)

theorem updated_getD {α : Type*} (old : α) (given : Option α) :
    Updated old (given.getD old) given := by
  cases given <;> simp [Updated]

/-- C13, the part that holds: `set_solution_params` returns exactly if the resulting
parameters are valid, then exactly the given ones have changed and the comparison in use
matches the direction; otherwise it raises `ValueError` and the comparison is unchanged.
Missing: that a rejected call leaves the parameters alone, which is false
(`C13_rejected_call_changes_parameters`). -/
theorem C13_accepted_parameters_partial {K : Type*} (s : Solver K) (kw : Kwargs K) :
    let t := (setSolutionParams s kw).2
    ((setSolutionParams s kw).1 = .ok () ↔ ValidParams s.nPop t.params) ∧
    ((setSolutionParams s kw).1 = .ok () → t.celebrateLt = t.params.minimize) ∧
    ((setSolutionParams s kw).1 ≠ .ok () → (setSolutionParams s kw).1 = .error .value ∧
      t.celebrateLt = s.celebrateLt) ∧
    t.nPop = s.nPop ∧
    Updated s.params.p_c t.params.p_c kw.p_c ∧ Updated s.params.p_m t.params.p_m kw.p_m ∧
    Updated s.params.maxiter t.params.maxiter kw.maxiter ∧
    Updated s.params.miniter t.params.miniter kw.miniter ∧
    Updated s.params.elitism t.params.elitism kw.elitism ∧
    Updated s.params.maxage t.params.maxage kw.maxage ∧
    Updated s.params.minimize t.params.minimize kw.minimize := by
  have hv : ∀ p : Params K, (validate s.nPop p = .ok () ∧ ValidParams s.nPop p) ∨
      (validate s.nPop p = .error .value ∧ ¬ ValidParams s.nPop p) := by
    intro p
    unfold validate ValidParams ValidElitism
    cases p.elitism with
    | none =>
      by_cases h : p.miniter ≤ p.maxiter
      · left; simp [h, not_lt.mpr h]
      · right; simp only [gt_iff_lt, not_le.mp h, if_true]; simp; omega
    | int k =>
      by_cases h : p.miniter ≤ p.maxiter <;> simp only [gt_iff_lt, not_lt.mpr, h] <;>
        by_cases h1 : k ≤ 0 <;> by_cases h2 : 1 < k ∧ s.nPop ≤ k <;> simp [h1, h2] <;> omega
    | float q =>
      by_cases h : p.miniter ≤ p.maxiter
      · by_cases h1 : q ≤ 0
        · right; simp [h1]
        · by_cases h2 : 1 < q
          · right; simp [h1, h2]
          · left; simp [h1, h2, not_lt.mpr h, h, not_le.mp h1, not_lt.mp h2]
      · right
        by_cases h1 : q ≤ 0
        · simp [h1, h]
        · by_cases h2 : 1 < q
          · simp [h1, h2, h]
          · simp [h1, h2, not_le.mp h, h]
  have hu := fun (α : Type) (a : α) (b : Option α) => updated_getD a b
  intro t
  rcases hv (assign s.params kw) with ⟨h1, h2⟩ | ⟨h1, h2⟩
  · have ht : setSolutionParams s kw = (.ok (), { s with params := assign s.params kw, celebrateLt := (assign s.params kw).minimize }) := by
      simp only [setSolutionParams, h1]
    have ht2 : t = { s with params := assign s.params kw, celebrateLt := (assign s.params kw).minimize } := by
      simp only [t, ht]
    rw [ht, ht2]
    exact ⟨⟨fun _ => h2, fun _ => rfl⟩, fun _ => rfl, fun h => absurd rfl h, rfl,
      updated_getD _ _, updated_getD _ _, updated_getD _ _, updated_getD _ _, updated_getD _ _,
      updated_getD _ _, updated_getD _ _⟩
  · have ht : setSolutionParams s kw = (.error .value, { s with params := assign s.params kw }) := by
      simp only [setSolutionParams, h1]
    have ht2 : t = { s with params := assign s.params kw } := by
      simp only [t, ht]
    rw [ht, ht2]
    exact ⟨⟨fun h => by simp at h, fun h => absurd h h2⟩, fun h => by simp at h,
      fun _ => ⟨rfl, rfl⟩, rfl,
      updated_getD _ _, updated_getD _ _, updated_getD _ _, updated_getD _ _, updated_getD _ _,
      updated_getD _ _, updated_getD _ _⟩

/-- The other half of C13 is false: a rejected call leaves the new, invalid parameters in
force (and `minimize` disagreeing with the comparison in use). -/
theorem C13_rejected_call_changes_parameters :
    ∃ (s : Solver ℚ) (kw : Kwargs ℚ), ValidParams s.nPop s.params ∧
      s.celebrateLt = s.params.minimize ∧
      (setSolutionParams s kw).1 = .error .value ∧
      ¬ ValidParams s.nPop (setSolutionParams s kw).2.params ∧
      (setSolutionParams s kw).2.celebrateLt ≠ (setSolutionParams s kw).2.params.minimize := by
  refine ⟨⟨8, ⟨1, 1/100, 200, 100, .int 1, 5, true⟩, true⟩, { maxiter := some 50, minimize := some false }, ?_, rfl, ?_, ?_, ?_⟩
  · simp [ValidParams, ValidElitism]
  · rfl
  · simp [ValidParams, setSolutionParams, validate, assign]
  · simp [setSolutionParams, validate, assign]

/-! ## C15 – comparing genoms -/

/-- C15. `<`, `>`, `<=`, `>=` form a total preorder (by fitness), `==` is the equality of the
genotypes, an equivalence, and equal genoms hash alike. -/
theorem C15_genom_order {G X K : Type*} [LinearOrder K] (a b c : Genom G X K) :
    (a.gt b = b.lt a) ∧ (a.ge b = !a.lt b) ∧ (a.le b = b.ge a) ∧ (a.le b = true ∨ b.le a = true) ∧
    (a.le b = true → b.le c = true → a.le c = true) ∧
    (a.lt b = true ↔ a.le b = true ∧ ¬ b.le a = true) ∧
    (a.lt b = true ↔ a.fitness < b.fitness) := by
  refine ⟨rfl, ?_, rfl, ?_, ?_, ?_, ?_⟩
  · simp only [Genom.ge, Genom.lt, ge_iff_le]
    by_cases h : a.fitness < b.fitness
    · simp [h]
    · simp [h, not_lt.mp h]
  · simp only [Genom.le, decide_eq_true_eq]; exact le_total _ _
  · simp only [Genom.le, decide_eq_true_eq]; exact le_trans
  · simp only [Genom.le, Genom.lt, decide_eq_true_eq]; exact lt_iff_le_not_ge
  · simp [Genom.lt]

theorem C15_genom_equality {X K : Type*} (a b c : Genom (List ℤ) X K) :
    (a.eq b = true ↔ a.genotype = b.genotype) ∧ a.eq a = true ∧ (a.eq b = b.eq a) ∧
    (a.eq b = true → b.eq c = true → a.eq c = true) ∧
    (a.eq b = true → a.hashKey = b.hashKey) := by
  simp only [Genom.eq, beq_iff_eq]
  refine ⟨trivial, trivial, ?_, ?_, ?_⟩
  · rw [Bool.eq_iff_iff]; simp only [beq_iff_eq]; exact eq_comm
  · exact fun h1 h2 => h1.trans h2
  · intro h; simp [Genom.hashKey, h]

example : let a : Genom (List ℤ) ℚ ℚ := ⟨1, [0, 1], 5, 0, 0⟩
    let b : Genom (List ℤ) ℚ ℚ := ⟨2, [0, 1], 7, 3, 1⟩
    a.eq b = true ∧ a.lt b = true ∧ a.gt b = false := by decide

end Verif.GA.Props
