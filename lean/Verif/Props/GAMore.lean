import Verif.Props.GA

/-!
# Further properties of the genetic algorithm: `best_candidate` (C05) and the default
stopping criterion (C07)
-/

set_option linter.unusedSectionVars false

namespace Verif.GA.Props
open Verif.GA

section
variable {G X K : Type*} [LinearOrder K]

theorem argBestAux_first (m : Bool) : ∀ (l pre : List K) (best : ℕ) (v : K),
    pre[best]? = some v → (∀ y ∈ pre, betterThan m y v = false) →
    (∀ j y, j < best → pre[j]? = some y → betterThan m v y = true) →
    ∀ w, (pre ++ l)[argBestAux (betterThan m) best v pre.length l]? = some w →
    ∀ j y, j < argBestAux (betterThan m) best v pre.length l → (pre ++ l)[j]? = some y →
      betterThan m w y = true := by
  intro l
  induction l with
  | nil =>
    intro pre best v h1 _ h3 w hw j y hj hy
    simp only [argBestAux, List.append_nil] at hw hj hy
    rw [h1] at hw; cases hw
    exact h3 j y hj hy
  | cons a l ih =>
    intro pre best v h1 h2 h3
    have hlt : best < pre.length := (List.getElem?_eq_some_iff.mp h1).1
    simp only [argBestAux]
    by_cases hb : betterThan m a v = true
    · rw [if_pos hb]
      have := ih (pre ++ [a]) pre.length a (by simp) (by
        intro y hy
        rcases List.mem_append.mp hy with hy | hy
        · exact not_betterThan_trans (h2 y hy) (betterThan_asymm hb)
        · simp only [List.mem_singleton] at hy; subst hy; exact betterThan_irrefl m y) (by
        intro j y hj hy
        rw [List.getElem?_append_left hj] at hy
        have hy' := h2 y (List.mem_of_getElem? hy)
        cases m
        · simp only [betterThan, Bool.false_eq_true, if_false, decide_eq_true_eq,
            decide_eq_false_iff_not, gt_iff_lt, not_lt] at hb hy' ⊢
          exact lt_of_le_of_lt hy' hb
        · simp only [betterThan, if_true, decide_eq_true_eq,
            decide_eq_false_iff_not, not_lt] at hb hy' ⊢
          exact lt_of_lt_of_le hb hy')
      simpa using this
    · rw [if_neg hb]
      have := ih (pre ++ [a]) best v (by rw [List.getElem?_append_left hlt]; exact h1) (by
        intro y hy
        rcases List.mem_append.mp hy with hy | hy
        · exact h2 y hy
        · simp only [List.mem_singleton] at hy; subst hy; simpa using hb) (by
        intro j y hj hy
        rw [List.getElem?_append_left (by omega)] at hy
        exact h3 j y hj hy)
      simpa using this

theorem argBest_first {m : Bool} {l : List K} {i : ℕ} (h : argBest (betterThan m) l = .ok i)
    {w : K} (hw : l[i]? = some w) (j : ℕ) (y : K) (hj : j < i) (hy : l[j]? = some y) :
    betterThan m w y = true := by
  cases l with
  | nil => simp [argBest] at h
  | cons a l =>
    simp only [argBest, Except.ok.injEq] at h
    subst h
    exact argBestAux_first m l [a] 0 a (by simp) (by
      intro y hy; simp only [List.mem_singleton] at hy; subst hy; exact betterThan_irrefl m y)
      (by intro j y hj; omega) w hw j y hj hy

/-- C05, `best_candidate()`: asked after a reset and any successful history of cycles and
reads, it returns the record of the member of the *present* population at the position
`index`: its genotype, its phenotype and its objective value; the record is new (age 0);
nobody in the population is strictly better, everybody standing before it is strictly
worse; and neither the champion nor the population is touched by asking. -/
theorem C05_best_candidate (pb : Problem G X K) (gs0 : List G) (s' s t : Ga G X K)
    (ops : List (Op G K)) (hrun : runOps pb ops (reset (.ok gs0) s').2 = (.ok (), s))
    (c : Genom G X K) (hb : bestCandidate pb s = (.ok c, t)) :
    ∃ xs ys, pb.decode s.genotypes = .ok xs ∧ List.Forall₂ (fun x y => pb.fnc x = .ok y) xs ys ∧
      s.genotypes[c.index]? = some c.genotype ∧ xs[c.index]? = some c.phenotype ∧
      ys[c.index]? = some c.fitness ∧ c.age = 0 ∧
      (∀ (j : ℕ) (y : K), ys[j]? = some y → ¬ Beats pb.minimize y c.fitness) ∧
      (∀ (j : ℕ) (y : K), j < c.index → ys[j]? = some y → Beats pb.minimize c.fitness y) ∧
      t.champion = s.champion ∧ t.genotypes = s.genotypes := by
  have h := (histInv (pb := pb) (consistent_reset pb gs0 s') rfl rfl rfl rfl ops s hrun).cons
  have hcore := bestCandidate_core pb s
  rw [hb] at hcore
  unfold bestCandidate at hb
  split at hb
  · simp at hb
  · rename_i ys s1 he
    obtain ⟨xs, hd, hm, hp, hf, hn⟩ := getFitness_ok h he
    have hc := getFitness_core pb s
    rw [he] at hc
    simp only at hc
    split at hb
    · simp at hb
    · rename_i i hi
      have hs1 : Consistent pb s1 := by have := getFitness_consistent h; rw [he] at this; exact this
      split at hb
      · simp at hb
      · rename_i xs' s2 he2
        have h2 := getPhenotypes_ok hs1 he2
        have hc2 := getPhenotypes_core pb s1
        rw [he2] at hc2
        simp only at hc2
        rw [hc.genotypes, hd] at h2
        obtain ⟨h21, h22⟩ := h2
        cases h21
        split at hb
        · rename_i x g y hx hg hy
          simp only [Prod.mk.injEq, Except.ok.injEq] at hb
          obtain ⟨rfl, rfl⟩ := hb
          rw [pyGet_eq_ok_iff] at hx hg hy
          rw [pyMap_eq_ok_iff] at hm
          refine ⟨xs, ys, hd, hm, ?_, hx, hy, rfl, ?_, ?_, hcore.champion, hcore.genotypes⟩
          · rw [← hc.genotypes, ← hc2.genotypes]; exact hg
          · intro j y' hy'
            obtain ⟨w, hw, hall⟩ := argBest_spec hi
            rw [hw] at hy; cases hy
            rw [beats_iff, hall y' (List.mem_of_getElem? hy')]
            simp
          · intro j y' hj hy'
            rw [beats_iff]
            exact argBest_first hi hy j y' hj hy'
        · simp at hb

/-- the champion of a state that one iteration has produced -/
theorem iteration_champion {pb : Problem G X K} {breed : List G → List K → Py (List G)}
    {a b : Ga G X K} (h : Iteration pb breed a b) : ∃ c, b.champion = some c := by
  obtain ⟨u, h1, rfl⟩ := h
  unfold evolve1 at h1
  split at h1
  · simp at h1
  · split at h1
    · simp at h1
    · rename_i s1 c s2 hc
      simp only [Prod.mk.injEq, true_and] at h1
      obtain ⟨c', hc', -⟩ := celebrate_champion pb.minimize s2 c
      exact ⟨c', by rw [← h1]; exact hc'⟩

/-- C07, the default criterion: a run that returns has a champion. It is CONVERGED exactly
if the count is below `maxiter`, and then the champion has reigned for more than `maxage`
cycles; and during the whole run before, whenever `miniter` was reached, the champion of
that moment had reigned for at most `maxage` cycles and `maxiter` was not reached. -/
theorem C07_default_criterion (pb : Problem G X K) (maxiter miniter maxage : ℤ)
    (breeds : ℕ → List G → List K → Py (List G))
    (s s' : Ga G X K) (fuel : ℕ)
    (h : solveBody pb maxiter miniter breeds (stoppingCriteria maxage) fuel s =
      some (.ok (), s')) :
    ∃ (k : ℕ) (st : ℕ → Ga G X K) (c : Genom G X K), 1 ≤ k ∧
      st 0 = { s with status := .initialized } ∧
      (∀ j < k, Iteration pb (breeds j) (st j) (st (j + 1))) ∧
      s'.state.n_iter = s.state.n_iter + k ∧
      s'.champion = some c ∧ (st k).champion = some c ∧
      ((s'.state.stage = some .converged ∧ (s'.state.n_iter : ℤ) < maxiter ∧
          maxage < (c.age : ℤ)) ∨
        (s'.state.stage = some .maxIterationsReached ∧ maxiter ≤ (s'.state.n_iter : ℤ))) ∧
      (∀ j, 1 ≤ j → j < k → miniter ≤ ((st j).state.n_iter : ℤ) →
        ((st j).state.n_iter : ℤ) < maxiter ∧
        ∃ d, (st j).champion = some d ∧ (d.age : ℤ) ≤ maxage) := by
  obtain ⟨k, st, hk, h0, hit, hno, hend, hn, hch, -, -, hstage⟩ :=
    C07_stops_first pb maxiter miniter breeds _ s s' fuel h
  have champ : ∀ j, 1 ≤ j → j ≤ k → ∃ c, (st j).champion = some c := by
    intro j h1 h2
    obtain ⟨i, rfl⟩ : ∃ i, j = i + 1 := ⟨j - 1, by omega⟩
    exact iteration_champion (hit i (by omega))
  have count : ∀ j, j ≤ k → (st j).state.n_iter = s.state.n_iter + j := by
    intro j
    induction j with
    | zero => intro _; rw [h0]; rfl
    | succ j ih =>
      intro hj
      obtain ⟨u, e1, e2⟩ := hit j (by omega)
      rw [e2]
      simp only [evolve1_niter e1, ih (by omega)]
      omega
  obtain ⟨c, hc⟩ := champ k hk le_rfl
  refine ⟨k, st, c, hk, h0, hit, hn, by rw [hch, hc], hc, ?_, ?_⟩
  · by_cases hm : maxiter ≤ (s'.state.n_iter : ℤ)
    · right; rw [if_pos hm] at hstage; exact ⟨hstage, hm⟩
    · left
      rw [if_neg hm] at hstage
      refine ⟨hstage, by omega, ?_⟩
      rcases hend.1 with e | e
      · simpa [stoppingCriteria, hc] using e
      · rw [count k le_rfl, ← hn] at e
        exact absurd e hm
  · intro j h1 h2 hmin
    obtain ⟨d, hd⟩ := champ j h1 (by omega)
    have := hno j h1 h2
    simp only [MayEnd, stoppingCriteria, hd, Except.ok.injEq, decide_eq_true_eq] at this
    refine ⟨?_, d, hd, ?_⟩
    · by_contra hcon; exact this ⟨Or.inr (by omega), hmin⟩
    · by_contra hcon; exact this ⟨Or.inl (by omega), hmin⟩

/-- C07: an optimizer that has been reset has no champion to ask for its age: the default
criterion raises `AttributeError` – before the first cycle, and after any history of reads. -/
theorem C07_criterion_needs_champion (pb : Problem G X K) (maxage : ℤ) (gs0 : List G)
    (s' s : Ga G X K) (ops : List (Op G K)) (hreads : ∀ o ∈ ops, ¬ IsCycle o)
    (hrun : runOps pb ops (reset (.ok gs0) s').2 = (.ok (), s)) :
    stoppingCriteria maxage s = .error .attribute := by
  have I := histInv (pb := pb) (consistent_reset pb gs0 s') rfl rfl rfl rfl ops s hrun
  obtain ⟨-, hn, -⟩ := I.fresh (fun o ho => by
    have := hreads o ho
    rw [isCycle_iff] at this
    simpa using this)
  simp [stoppingCriteria, hn]

end

section Demo

/-- The best candidate after three cycles of the demonstration run, read with its index. -/
example : ((bestCandidate demo (runOps demo [.evolve demoBreed, .evolve demoBreed,
      .evolve demoBreed]
      (reset (.ok [0, 1]) ⟨[], none, none, none, {}, .initialized, .primed⟩).2).2).1.toOption.map
    (fun c => (c.index, c.genotype, c.fitness, c.age))) = some (1, 3, 0, 0) := by decide

/-- With equally good members the first one is taken. -/
example : ((bestCandidate demo (runOps demo []
      (reset (.ok [1, 0, 1, 5]) ⟨[], none, none, none, {}, .initialized, .primed⟩).2).2).1.toOption.map
    (fun c => (c.index, c.genotype, c.fitness, c.age))) = some (0, 1, 4, 0) := by decide

end Demo

end Verif.GA.Props
