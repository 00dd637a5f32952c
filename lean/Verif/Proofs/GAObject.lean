import Verif.Model.GAObject
import Verif.Proofs.GASolve
import Verif.Proofs.BGARun
import Verif.Props.GA

/-! # Helper lemmas for `Props/GAObject.lean` -/

set_option linter.unusedSectionVars false

namespace Verif.GA
open Verif.GA.Props

section
variable {G X K D : Type*} [LinearOrder K]

/-- what is known after `j` iterations since a reset -/
structure TraceInv (pb : Problem G X K) (st : ℕ → Ga G X K) (j : ℕ) : Prop where
  cons : Consistent pb (st j)
  first : j = 0 → (st j).phase = .primed ∧ (st j).champion = none ∧ (st j).fitness = none ∧
    (st j).state.n_fev = 0
  run : 1 ≤ j → (st j).phase = .running ∧ (st j).fitness ≠ none ∧ ∃ c, (st j).champion = some c ∧
    (st j).state.x = some c.phenotype ∧ (st j).state.fn = some c.fitness ∧
    (∃ i, 1 ≤ i ∧ i ≤ j ∧ IsMember pb (st i) c) ∧
    (∀ i, 1 ≤ i → i ≤ j → NoneBetter pb (st i) c.fitness)

theorem consistent_congr {pb : Problem G X K} {s t : Ga G X K} (h1 : t.genotypes = s.genotypes)
    (h2 : t.phenotypes = s.phenotypes) (h3 : t.fitness = s.fitness) (hs : Consistent pb s) :
    Consistent pb t := by
  unfold Consistent at *
  rw [h1, h2, h3]; exact hs

theorem traceInv {pb : Problem G X K} {breeds : ℕ → List G → List K → Py (List G)}
    {st : ℕ → Ga G X K} {k : ℕ} (h0 : TraceInv pb st 0)
    (hit : ∀ j < k, Iteration pb (breeds j) (st j) (st (j + 1))) :
    ∀ j ≤ k, TraceInv pb st j := by
  intro j
  induction j with
  | zero => intro _; exact h0
  | succ j ih =>
    intro hj
    have I := ih (by omega)
    obtain ⟨u, e1, e2⟩ := hit j (by omega)
    have hfit : u.fitness ≠ none := by
      obtain ⟨s1, c, hn, hs1, -, -, -, -, -, -, -, w, hbc, -, rfl⟩ := evolve1_ok I.cons e1
      obtain ⟨-, -, xs, hd, hf, -⟩ := bestCandidate_ok hs1 hbc
      exact hf
    obtain ⟨s1, c, -, -, hcons, hg, hph, -, -, hm, hnb, w, -, hwch, hw⟩ := evolve1_ok I.cons e1
    have hcons' : Consistent pb (st (j + 1)) := by
      rw [e2]; exact consistent_congr rfl rfl rfl hcons
    have hmem : ∀ c', IsMember pb u c' → IsMember pb (st (j + 1)) c' := by
      intro c' h; rw [e2]; exact h
    have hnone : ∀ v, NoneBetter pb u v → NoneBetter pb (st (j + 1)) v := by
      intro v h; rw [e2]; exact h
    refine ⟨hcons', by omega, fun _ => ⟨by rw [e2]; exact hph, by rw [e2]; exact hfit, ?_⟩⟩
    obtain ⟨c', hc', hx, hfn, hcase⟩ := celebrate_champion pb.minimize w c
    rw [← hw] at hc' hx hfn
    refine ⟨c', by rw [e2]; exact hc', by rw [e2]; exact hx, by rw [e2]; exact hfn, ?_⟩
    have isM : c' = { c with age := 1 } → IsMember pb (st (j + 1)) c' := by
      rintro rfl
      obtain ⟨a, xs, a1, a2, a3, a4⟩ := hm
      exact hmem _ ⟨a, xs, a1, a2, a3, a4⟩
    by_cases hj0 : j = 0
    · subst hj0
      obtain ⟨-, hn, -⟩ := I.first rfl
      rw [hwch, hn] at hcase
      rcases hcase with ⟨-, h⟩ | ⟨d, hd, -⟩ | ⟨d, hd, -⟩
      · refine ⟨⟨1, le_rfl, le_rfl, isM h⟩, ?_⟩
        intro i h1 h2
        obtain rfl : i = 1 := by omega
        rw [h]; exact hnone _ hnb
      · cases hd
      · cases hd
    · obtain ⟨-, -, d, hd, -, -, ⟨i, i1, i2, i3⟩, hall⟩ := I.run (by omega)
      rw [hwch, hd] at hcase
      rcases hcase with ⟨h, -⟩ | ⟨d', hd', hb, h⟩ | ⟨d', hd', hb, h⟩
      · cases h
      · cases hd'
        refine ⟨⟨j + 1, by omega, le_rfl, isM h⟩, ?_⟩
        intro i' h1 h2
        by_cases hi : i' ≤ j
        · rw [h]; exact noneBetter_weaken (hall i' h1 hi) (betterThan_asymm hb)
        · obtain rfl : i' = j + 1 := by omega
          rw [h]; exact hnone _ hnb
      · cases hd'
        refine ⟨⟨i, i1, by omega, ?_⟩, ?_⟩
        · obtain ⟨a, xs, a1, a2, a3, a4⟩ := i3
          rw [h]; exact ⟨a, xs, a1, a2, a3, a4⟩
        · intro i' h1 h2
          by_cases hi : i' ≤ j
          · rw [h]; exact hall i' h1 hi
          · obtain rfl : i' = j + 1 := by omega
            rw [h]; exact noneBetter_weaken (hnone _ hnb) hb

/-- the populations along a run -/
theorem trace_populations {pb : Problem G X K} {breeds : ℕ → List G → List K → Py (List G)}
    {st : ℕ → Ga G X K} {k : ℕ} (h0 : TraceInv pb st 0)
    (hit : ∀ j < k, Iteration pb (breeds j) (st j) (st (j + 1))) :
    (0 < k → (st 1).genotypes = (st 0).genotypes) ∧
    (∀ j, 1 ≤ j → j < k → ∃ xs ys, pb.decode (st j).genotypes = .ok xs ∧
      pyMap pb.fnc xs = .ok ys ∧ breeds j (st j).genotypes ys = .ok (st (j + 1)).genotypes) := by
  constructor
  · intro hk
    obtain ⟨u, e1, e2⟩ := hit 0 hk
    obtain ⟨s1, c, hn, -, -, hg, -⟩ := evolve1_ok h0.cons e1
    rw [nextEvolver_primed (h0.first rfl).1 hn] at hg
    rw [e2]; exact hg
  · intro j h1 h2
    have I := traceInv h0 hit j (by omega)
    obtain ⟨u, e1, e2⟩ := hit j h2
    obtain ⟨s1, c, hn, -, -, hg, -⟩ := evolve1_ok I.cons e1
    obtain ⟨xs, ys, gs, a1, a2, a3, a4, -⟩ := nextEvolver_running I.cons (I.run h1).1 hn
    refine ⟨xs, ys, a1, a2, ?_⟩
    rw [e2, a3]; simp only [hg, a4]

/-- the evaluations along a run -/
theorem trace_nfev {pb : Problem G X K} {breeds : ℕ → List G → List K → Py (List G)}
    {st : ℕ → Ga G X K} {k N : ℕ} (hN : ∀ gs xs, pb.decode gs = .ok xs → xs.length = N)
    (h0 : TraceInv pb st 0)
    (hit : ∀ j < k, Iteration pb (breeds j) (st j) (st (j + 1))) :
    ∀ j ≤ k, (st j).state.n_fev = N * j := by
  intro j
  induction j with
  | zero => intro _; rw [(h0.first rfl).2.2.2, Nat.mul_zero]
  | succ j ih =>
    intro hj
    have I := traceInv h0 hit j (by omega)
    obtain ⟨u, e1, e2⟩ := hit j (by omega)
    obtain ⟨-, ha, hb⟩ := evolve1_nfev hN I.cons e1
    have : u.state.n_fev = N * (j + 1) := by
      by_cases hj0 : j = 0
      · subst hj0
        rw [ha (h0.first rfl).1, (h0.first rfl).2.2.1, if_pos rfl, ih (by omega)]; ring
      · obtain ⟨r1, r2, -⟩ := I.run (by omega)
        rw [hb r1, if_neg r2, ih (by omega)]; ring
    rw [e2]; exact this

theorem solveBody_mirror {pb : Problem G X K} {maxiter miniter : ℤ}
    {breeds : ℕ → List G → List K → Py (List G)} {stop : Ga G X K → Py Bool} {fuel : ℕ}
    {s s' : Ga G X K} (h : solveBody pb maxiter miniter breeds stop fuel s = some (.ok (), s')) :
    ∃ c, s'.champion = some c ∧ s'.state.x = some c.phenotype ∧ s'.state.fn = some c.fitness := by
  unfold solveBody at h
  simp only at h
  split at h
  · simp at h
  · rename_i x t hl
    simp only [Option.some.injEq, Prod.mk.injEq, true_and] at h
    obtain ⟨k, st, h0, hall, hend⟩ := solveLoop_trace _ _ _ _ _ hl
    rcases hend with ⟨e, he, -⟩ | ⟨y, hy, hp⟩
    · cases he
    · obtain ⟨u, b, e1, e2, -⟩ := solvePass_some hp
      unfold evolve1 at e1
      split at e1
      · simp at e1
      · split at e1
        · simp at e1
        · rename_i s1 c s2 hc
          simp only [Prod.mk.injEq, true_and] at e1
          obtain ⟨c', a1, a2, a3, -⟩ := celebrate_champion pb.minimize s2 c
          rw [e1] at a1 a2 a3
          refine ⟨c', ?_, ?_, ?_⟩ <;> rw [← h, e2] <;> assumption
  · simp at h

/-- a cycle never makes the champion worse -/
theorem evolve1_champion {pb : Problem G X K} {breed : List G → List K → Py (List G)}
    {s t : Ga G X K} (he : evolve1 pb breed s = (.ok (), t)) (c : Genom G X K)
    (hc : s.champion = some c) :
    ∃ c', t.champion = some c' ∧ betterThan pb.minimize c.fitness c'.fitness = false := by
  unfold evolve1 at he
  split at he
  · simp at he
  · rename_i s1 hn
    have h1 : s1.champion = s.champion := by
      unfold nextEvolver at hn
      split at hn
      · simp only [Prod.mk.injEq, true_and] at hn; rw [← hn]
      · simp at hn
      · split at hn
        · simp at hn
        · rename_i ys s2 hf
          have hcore := getFitness_core pb s
          rw [hf] at hcore
          split at hn
          · simp at hn
          · simp only [Prod.mk.injEq, true_and] at hn
            rw [← hn]; exact hcore.champion
    split at he
    · simp at he
    · rename_i b s2 hb
      simp only [Prod.mk.injEq, true_and] at he
      have hcore := bestCandidate_core pb s1
      rw [hb] at hcore
      obtain ⟨c', h2, -, -, h3⟩ := celebrate_champion pb.minimize s2 b
      refine ⟨c', by rw [← he]; exact h2, ?_⟩
      have h4 : s2.champion = some c := by rw [hcore.champion, h1, hc]
      rw [h4] at h3
      rcases h3 with ⟨h, -⟩ | ⟨d, hd, h5, h6⟩ | ⟨d, hd, h5, h6⟩
      · cases h
      · cases hd; rw [h6]; exact betterThan_asymm h5
      · cases hd; rw [h6]; exact betterThan_irrefl _ _

/-- if every cycle succeeds, so does the run -/
theorem solveBody_succeeds {pb : Problem G X K} {maxiter miniter maxage : ℤ}
    (hmm : miniter ≤ maxiter) {breeds : ℕ → List G → List K → Py (List G)} {fuel : ℕ}
    {s : Ga G X K} (Inv : Ga G X K → Prop)
    (hstep : ∀ i a, Inv a → ∃ b, evolve1 pb (breeds i) a = (.ok (), b) ∧ Inv (bump b))
    (hs : Inv { s with status := .initialized })
    (hf : max 1 (maxiter - s.state.n_iter) ≤ (fuel : ℤ)) :
    ∃ s', solveBody pb maxiter miniter breeds (stoppingCriteria maxage) fuel s =
      some (.ok (), s') := by
  obtain ⟨r, s', h⟩ := C07_terminates pb maxiter miniter hmm breeds (stoppingCriteria maxage) s fuel hf
  cases r with
  | ok u => exact ⟨s', h⟩
  | error e =>
    exfalso
    unfold solveBody at h
    simp only at h
    split at h
    · simp at h
    · simp at h
    · rename_i e' t hl
      obtain ⟨k, st, h0, hall, hend⟩ := solveLoop_trace _ _ _ _ _ hl
      simp only [Nat.zero_add] at hall hend
      have hI : ∀ j ≤ k, Inv (st j) := by
        intro j
        induction j with
        | zero => intro _; rw [h0]; exact hs
        | succ j ih =>
          intro hj
          obtain ⟨u, b, e1, e2, -⟩ := solvePass_none.mp (hall j (by omega))
          obtain ⟨b', e3, e4⟩ := hstep j _ (ih (by omega))
          rw [e1] at e3
          simp only [Prod.mk.injEq, true_and] at e3
          rw [e2, e3]; exact e4
      rcases hend with ⟨e1, he1, hp⟩ | ⟨y, hy, -⟩
      · obtain ⟨b', e3, -⟩ := hstep k _ (hI k le_rfl)
        rcases solvePass_error.mp hp with hp | ⟨u, hu, ht, hst⟩
        · rw [e3] at hp; simp at hp
        · have hch : ∃ c, t.champion = some c := by
            unfold evolve1 at hu
            split at hu
            · simp at hu
            · split at hu
              · simp at hu
              · rename_i s1 c s2 hc
                simp only [Prod.mk.injEq, true_and] at hu
                obtain ⟨c', hc', -⟩ := celebrate_champion pb.minimize s2 c
                exact ⟨c', by rw [ht, ← hu]; exact hc'⟩
          obtain ⟨c, hc⟩ := hch
          simp [stoppingCriteria, hc] at hst
      · cases hy

theorem normPop_ok {n m : ℤ} (h : normPop n = .ok m) : 1 ≤ n ∧ IsLeast {m : ℤ | 4 ∣ m ∧ n ≤ m} m := by
  obtain ⟨h1, h2⟩ := C01_population_size n
  by_cases hn : 1 ≤ n
  · obtain ⟨m', e, hm⟩ := h1 hn
    rw [e] at h; cases h
    exact ⟨hn, hm⟩
  · rw [h2 (by omega)] at h; cases h

theorem setSolutionParams_all {K : Type*} (s : Solver K) (p : Params K) :
    setSolutionParams s
      { p_c := some p.p_c, p_m := some p.p_m, maxiter := some p.maxiter,
        miniter := some p.miniter, elitism := some p.elitism, maxage := some p.maxage,
        minimize := some p.minimize } =
      (match validate s.nPop p with
      | .error e => (.error e, ⟨s.nPop, p, s.celebrateLt⟩)
      | .ok () => (.ok (), ⟨s.nPop, p, p.minimize⟩)) := rfl

theorem validate_iff {K : Type*} (n : ℤ) (p : Params K) :
    (validate n p = .ok () ∧ ValidParams n p) ∨ (validate n p = .error .value ∧ ¬ ValidParams n p) := by
  have h := C13_accepted_parameters_partial (⟨n, p, p.minimize⟩ : Solver K) {}
  have ha : assign p ({} : Kwargs K) = p := rfl
  cases hv : validate n p with
  | ok u =>
    left
    refine ⟨rfl, ?_⟩
    have := h.1
    simp only [setSolutionParams, ha, hv] at this
    simpa using this
  | error e =>
    right
    have h1 := h.1
    have h2 := h.2.2.1
    simp only [setSolutionParams, ha, hv] at h1 h2
    obtain ⟨h3, -⟩ := h2 (by simp)
    exact ⟨by cases h3; rfl, fun hc => by simpa using h1.mpr hc⟩

theorem setSolutionParams_cases {K : Type*} (s : Solver K) (kw : Kwargs K) :
    (ValidParams s.nPop (assign s.params kw) ∧ setSolutionParams s kw =
      (.ok (), { s with params := assign s.params kw, celebrateLt := (assign s.params kw).minimize })) ∨
    (¬ ValidParams s.nPop (assign s.params kw) ∧ setSolutionParams s kw =
      (.error .value, { s with params := assign s.params kw })) := by
  rcases validate_iff s.nPop (assign s.params kw) with ⟨h1, h2⟩ | ⟨h1, h2⟩
  · left; exact ⟨h2, by simp only [setSolutionParams, h1]⟩
  · right; exact ⟨h2, by simp only [setSolutionParams, h1]⟩

end
end Verif.GA
