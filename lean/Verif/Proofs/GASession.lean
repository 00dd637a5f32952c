import Verif.Model.GASession
import Verif.Proofs.GAObject

/-! # Helper lemmas for `Props/GASession.lean` -/

set_option linter.unusedSectionVars false

namespace Verif.GA
open Verif.GA.Props

section
variable {G X K D : Type*} [LinearOrder K]

theorem session_append (S : Subclass G X K D) (fnc : X → Py K) (a b : List (Act K D))
    (o : Optimizer G X K) : session S fnc (a ++ b) o = session S fnc b (session S fnc a o) := by
  simp [session]

theorem session_snoc (S : Subclass G X K D) (fnc : X → Py K) (a : List (Act K D)) (x : Act K D)
    (o : Optimizer G X K) :
    session S fnc (a ++ [x]) o = (act S fnc x (session S fnc a o)).2 := by
  simp [session]

/-- members depend on the population and on the size that `decode` is given -/
theorem isMember_congr {S : Subclass G X K D} {fnc : X → Py K} {sv sv' : Solver K} {r r' : Ga G X K}
    {c : Genom G X K} (hn : sv'.nPop = sv.nPop) (hg : r'.genotypes = r.genotypes)
    (h : IsMember (problemOf S fnc sv) r c) : IsMember (problemOf S fnc sv') r' c := by
  obtain ⟨j, xs, a1, a2, a3, a4⟩ := h
  refine ⟨j, xs, ?_, by rw [hg]; exact a2, a3, a4⟩
  simp only [problemOf] at a1 ⊢
  rw [hn, hg]; exact a1

theorem consistent_solver {S : Subclass G X K D} {fnc : X → Py K} {sv sv' : Solver K} {r : Ga G X K}
    (hn : sv'.nPop = sv.nPop) (h : Consistent (problemOf S fnc sv) r) :
    Consistent (problemOf S fnc sv') r := by
  unfold Consistent at *
  simp only [problemOf] at *
  rw [hn]; exact h

theorem setSolutionParams_nPop {K : Type*} (s : Solver K) (kw : Kwargs K) :
    (setSolutionParams s kw).2.nPop = s.nPop ∧
    (setSolutionParams s kw).2.params.minimize = kw.minimize.getD s.params.minimize ∧
    ((setSolutionParams s kw).1 = .ok () →
      (setSolutionParams s kw).2.celebrateLt = kw.minimize.getD s.params.minimize) ∧
    ((setSolutionParams s kw).1 ≠ .ok () →
      (setSolutionParams s kw).2.celebrateLt = s.celebrateLt) := by
  unfold setSolutionParams
  simp only
  cases validate s.nPop (assign s.params kw) with
  | error e => simp [assign]
  | ok u => simp [assign]

/-- what a failing or reading call keeps -/
structure Kept (S : Subclass G X K D) (fnc : X → Py K) (o o' : Optimizer G X K) : Prop where
  champion : o'.run.champion = o.run.champion
  x : o'.run.state.x = o.run.state.x
  fn : o'.run.state.fn = o.run.state.fn
  cons : Consistent (problemOf S fnc o.solver) o.run → Consistent (problemOf S fnc o'.solver) o'.run

theorem nextEvolver_facts {pb : Problem G X K} {breed : List G → List K → Py (List G)} {s s1 : Ga G X K}
    {r : Py Unit} (hn : nextEvolver pb breed s = (r, s1)) :
    s1.champion = s.champion ∧ s1.state.x = s.state.x ∧ s1.state.fn = s.state.fn ∧
      (Consistent pb s → Consistent pb s1) := by
  unfold nextEvolver at hn
  have hc := getFitness_core pb s
  have hk : Consistent pb s → Consistent pb (getFitness pb s).2 := getFitness_consistent
  split at hn
  · simp only [Prod.mk.injEq] at hn
    rw [← hn.2]; exact ⟨rfl, rfl, rfl, fun h => h⟩
  · simp only [Prod.mk.injEq] at hn
    rw [← hn.2]; exact ⟨rfl, rfl, rfl, fun h => h⟩
  · split at hn
    · rename_i hf
      rw [hf] at hc hk
      simp only [Prod.mk.injEq] at hn
      rw [← hn.2]; exact ⟨hc.champion, hc.x, hc.fn, hk⟩
    · rename_i hf
      rw [hf] at hc hk
      split at hn
      · simp only [Prod.mk.injEq] at hn
        rw [← hn.2]; exact ⟨hc.champion, hc.x, hc.fn, hk⟩
      · simp only [Prod.mk.injEq] at hn
        rw [← hn.2]
        exact ⟨hc.champion, hc.x, hc.fn, fun _ => by simp [Consistent, setGenotypes]⟩

theorem evolve_solver (S : Subclass G X K D) (fnc : X → Py K) (d : D) (o : Optimizer G X K) :
    (o.evolve S fnc d).2.solver = o.solver := by
  unfold Optimizer.evolve
  split
  · rfl
  · split <;> rfl

theorem evolve_failed {S : Subclass G X K D} {fnc : X → Py K} {d : D} {o : Optimizer G X K}
    (h : (o.evolve S fnc d).1 ≠ .ok ()) : Kept S fnc o (o.evolve S fnc d).2 := by
  unfold Optimizer.evolve at h ⊢
  split at h
  · rename_i e run hn
    obtain ⟨a, b, c, k⟩ := nextEvolver_facts hn
    exact ⟨a, b, c, k⟩
  · rename_i run hn
    obtain ⟨a, b, c, k⟩ := nextEvolver_facts hn
    have hc := bestCandidate_core (problemOf S fnc o.solver) run
    split at h
    · rename_i e run' hb
      rw [hb] at hc
      refine ⟨hc.champion.trans a, hc.x.trans b, hc.fn.trans c, fun hs => ?_⟩
      have := bestCandidate_consistent (k hs)
      rw [hb] at this; exact this
    · exact absurd rfl h

/-- a completed cycle -/
theorem evolve_done {S : Subclass G X K D} {fnc : X → Py K} {d : D} {o : Optimizer G X K}
    (hs : Consistent (problemOf S fnc o.solver) o.run) (h : (o.evolve S fnc d).1 = .ok ()) :
    ∃ (c c' : Genom G X K),
      IsMember (problemOf S fnc o.solver) (o.evolve S fnc d).2.run c ∧
      NoneBetter (problemOf S fnc o.solver) (o.evolve S fnc d).2.run c.fitness ∧
      Consistent (problemOf S fnc o.solver) (o.evolve S fnc d).2.run ∧
      (o.evolve S fnc d).2.run.champion = some c' ∧
      (o.evolve S fnc d).2.run.state.x = some c'.phenotype ∧
      (o.evolve S fnc d).2.run.state.fn = some c'.fitness ∧
      ((o.run.champion = none ∧ c' = { c with age := 1 }) ∨
       (∃ b, o.run.champion = some b ∧ betterThan o.solver.celebrateLt c.fitness b.fitness = true ∧
          c' = { c with age := 1 }) ∨
       (∃ b, o.run.champion = some b ∧ betterThan o.solver.celebrateLt c.fitness b.fitness = false ∧
          c' = { b with age := b.age + 1 })) := by
  unfold Optimizer.evolve at h ⊢
  split at h
  · cases h
  · rename_i run hn
    obtain ⟨a, b, c, k⟩ := nextEvolver_facts hn
    have hc := bestCandidate_core (problemOf S fnc o.solver) run
    have hk := bestCandidate_consistent (k hs)
    split at h
    · cases h
    · rename_i g run' hb
      rw [hb] at hc hk
      obtain ⟨hm, hnb, -⟩ := bestCandidate_ok (k hs) hb
      obtain ⟨c', h1, h2, h3, h4⟩ := celebrate_champion o.solver.celebrateLt run' g
      have hg : (celebrate o.solver.celebrateLt run' g).genotypes = run.genotypes := hc.genotypes
      refine ⟨g, c', ?_, ?_, hk, h1, h2, h3, ?_⟩
      · obtain ⟨j, xs, a1, a2, a3, a4⟩ := hm
        exact ⟨j, xs, by simp only [hg]; exact a1, by simp only [hg]; exact a2, a3, a4⟩
      · intro xs hd; simp only [hg] at hd; exact hnb xs hd
      · rw [hc.champion, a] at h4; exact h4

/-- a call that is neither a completed cycle nor a successful reset keeps the champion -/
theorem act_kept {S : Subclass G X K D} {fnc : X → Py K} {a : Act K D} {o : Optimizer G X K}
    (he : ∀ d, a = .evolve d → (act S fnc a o).1 ≠ .ok ())
    (hr : ∀ d, a = .reset d → (act S fnc a o).1 ≠ .ok ()) : Kept S fnc o (act S fnc a o).2 := by
  cases a with
  | evolve d => exact evolve_failed (he d rfl)
  | setParams kw =>
    exact ⟨rfl, rfl, rfl, fun h => consistent_solver (setSolutionParams_nPop o.solver kw).1 h⟩
  | reset d =>
    have h := hr d rfl
    simp only [act] at h ⊢
    cases hp : S.populate o.solver.nPop o.solver.params d with
    | error e => exact ⟨rfl, rfl, rfl, fun h => h⟩
    | ok gs => rw [hp] at h; exact absurd rfl h
  | fitness =>
    have hc := getFitness_core (problemOf S fnc o.solver) o.run
    exact ⟨hc.champion, hc.x, hc.fn, getFitness_consistent⟩
  | phenotypes =>
    have hc := getPhenotypes_core (problemOf S fnc o.solver) o.run
    exact ⟨hc.champion, hc.x, hc.fn, getPhenotypes_consistent⟩
  | bestCandidate =>
    have hc := bestCandidate_core (problemOf S fnc o.solver) o.run
    exact ⟨hc.champion, hc.x, hc.fn, bestCandidate_consistent⟩

theorem act_reset {S : Subclass G X K D} {fnc : X → Py K} {d : D} {o : Optimizer G X K}
    (h : (act S fnc (.reset d) o).1 = .ok ()) :
    (act S fnc (.reset d) o).2.run.champion = none ∧
    Consistent (problemOf S fnc o.solver) (act S fnc (.reset d) o).2.run := by
  simp only [act] at h ⊢
  cases hp : S.populate o.solver.nPop o.solver.params d with
  | error e => rw [hp] at h; cases h
  | ok gs => exact ⟨rfl, consistent_reset _ gs o.run⟩

theorem act_nPop (S : Subclass G X K D) (fnc : X → Py K) (a : Act K D) (o : Optimizer G X K) :
    (act S fnc a o).2.solver.nPop = o.solver.nPop := by
  cases a with
  | evolve d => simp only [act, evolve_solver]
  | setParams kw => exact (setSolutionParams_nPop o.solver kw).1
  | _ => rfl

theorem session_nPop (S : Subclass G X K D) (fnc : X → Py K) (acts : List (Act K D))
    (o : Optimizer G X K) : (session S fnc acts o).solver.nPop = o.solver.nPop := by
  induction acts using List.reverseRecOn with
  | nil => rfl
  | append_singleton l a ih => rw [session_snoc, act_nPop, ih]

theorem act_consistent {S : Subclass G X K D} {fnc : X → Py K} (a : Act K D) {o : Optimizer G X K}
    (hs : Consistent (problemOf S fnc o.solver) o.run) :
    Consistent (problemOf S fnc (act S fnc a o).2.solver) (act S fnc a o).2.run := by
  by_cases he : ∃ d, a = .evolve d ∧ (act S fnc a o).1 = .ok ()
  · obtain ⟨d, rfl, h⟩ := he
    obtain ⟨-, -, -, -, h, -⟩ := evolve_done hs h
    exact consistent_solver (act_nPop S fnc _ o) h
  · by_cases hr : ∃ d, a = .reset d ∧ (act S fnc a o).1 = .ok ()
    · obtain ⟨d, rfl, h⟩ := hr
      exact consistent_solver (act_nPop S fnc _ o) (act_reset h).2
    · exact (act_kept (fun d hd h => he ⟨d, hd, h⟩) (fun d hd h => hr ⟨d, hd, h⟩)).cons hs

theorem session_consistent {S : Subclass G X K D} {fnc : X → Py K} (acts : List (Act K D))
    {o : Optimizer G X K} (hs : Consistent (problemOf S fnc o.solver) o.run) :
    Consistent (problemOf S fnc (session S fnc acts o).solver) (session S fnc acts o).run := by
  induction acts using List.reverseRecOn with
  | nil => exact hs
  | append_singleton l a ih => rw [session_snoc]; exact act_consistent a ih

theorem construct_fresh {S : Subclass G X K D} {n : ℤ} {p : Params K} {d : D} {o : Optimizer G X K}
    (h : construct S n p d = .ok o) :
    o.run.champion = none ∧ (∀ pb : Problem G X K, Consistent pb o.run) ∧
      o.solver.celebrateLt = o.solver.params.minimize := by
  unfold construct at h
  split at h
  · cases h
  · rename_i m hm
    rw [setSolutionParams_all] at h
    cases hv : validate m p with
    | error e => simp only [hv] at h; cases h
    | ok u =>
      simp only [hv] at h
      cases hp : S.populate m p d with
      | error e => simp only [hp, reset] at h; cases h
      | ok gs =>
        simp only [hp, reset] at h
        cases h
        exact ⟨rfl, fun pb => by simp [Consistent, setGenotypes], rfl⟩

/-! ## What `solve` adds to its cycles: counters and status -/

/-- counters, status and messages left out -/
def strip (s : Ga G X K) : Ga G X K :=
  { s with
    status := .initialized
    state := { s.state with n_iter := 0, success := true, message := none, stage := none } }

theorem getPhenotypes_strip (pb : Problem G X K) (s : Ga G X K) :
    getPhenotypes pb (strip s) = ((getPhenotypes pb s).1, strip (getPhenotypes pb s).2) := by
  obtain ⟨gs, ps, fs, ch, st, su, ph⟩ := s
  unfold getPhenotypes
  cases ps with
  | some xs => rfl
  | none =>
    simp only [strip]
    cases pb.decode gs <;> rfl

theorem getFitness_strip (pb : Problem G X K) (s : Ga G X K) :
    getFitness pb (strip s) = ((getFitness pb s).1, strip (getFitness pb s).2) := by
  unfold getFitness
  have h0 : (strip s).fitness = s.fitness := rfl
  rw [h0]
  cases hf : s.fitness with
  | some ys => rfl
  | none =>
    simp only [getPhenotypes_strip]
    rcases hg : getPhenotypes pb s with ⟨r, t⟩
    cases r with
    | error e => rfl
    | ok xs =>
      simp only [evaluate]
      cases pyMap pb.fnc xs <;> rfl

theorem bestCandidate_strip (pb : Problem G X K) (s : Ga G X K) :
    GA.bestCandidate pb (strip s) =
      ((GA.bestCandidate pb s).1, strip (GA.bestCandidate pb s).2) := by
  unfold GA.bestCandidate
  simp only [getFitness_strip]
  rcases getFitness pb s with ⟨r, t⟩
  cases r with
  | error e => rfl
  | ok ys =>
    simp only
    cases argBest (betterThan pb.minimize) ys with
    | error e => rfl
    | ok i =>
      simp only [getPhenotypes_strip]
      rcases getPhenotypes pb t with ⟨r', t'⟩
      cases r' with
      | error e => rfl
      | ok xs =>
        have h0 : (strip t').genotypes = t'.genotypes := rfl
        simp only [h0]
        cases pyGet xs i <;> cases pyGet t'.genotypes i <;> cases pyGet ys i <;> rfl

theorem nextEvolver_strip (pb : Problem G X K) (breed : List G → List K → Py (List G)) (s : Ga G X K) :
    nextEvolver pb breed (strip s) =
      ((nextEvolver pb breed s).1, strip (nextEvolver pb breed s).2) := by
  unfold nextEvolver
  have h0 : (strip s).phase = s.phase := rfl
  rw [h0]
  cases s.phase with
  | primed => rfl
  | dead => rfl
  | running =>
    simp only [getFitness_strip]
    rcases getFitness pb s with ⟨r, t⟩
    cases r with
    | error e => rfl
    | ok ys =>
      have h1 : (strip t).genotypes = t.genotypes := rfl
      simp only [h1]
      cases breed t.genotypes ys <;> rfl

theorem celebrate_strip (m : Bool) (s : Ga G X K) (g : Genom G X K) :
    celebrate m (strip s) g = strip (celebrate m s g) := rfl

theorem evolve_strip (S : Subclass G X K D) (fnc : X → Py K) (d : D) (sv : Solver K) (s : Ga G X K) :
    Optimizer.evolve S fnc d ⟨sv, strip s⟩ =
      ((Optimizer.evolve S fnc d ⟨sv, s⟩).1,
        ⟨sv, strip (Optimizer.evolve S fnc d ⟨sv, s⟩).2.run⟩) := by
  unfold Optimizer.evolve
  simp only [nextEvolver_strip]
  rcases nextEvolver (problemOf S fnc sv) (S.breed sv.nPop sv.params d) s with ⟨r, t⟩
  cases r with
  | error e => rfl
  | ok u =>
    simp only [bestCandidate_strip]
    rcases GA.bestCandidate (problemOf S fnc sv) t with ⟨r', t'⟩
    cases r' with
    | error e => rfl
    | ok c => simp only [celebrate_strip]

/-- with the comparison matching the direction a cycle of the object is a cycle of `solve` -/
theorem evolve_eq_evolve1 (S : Subclass G X K D) (fnc : X → Py K) (d : D) (sv : Solver K) (s : Ga G X K)
    (h : sv.celebrateLt = sv.params.minimize) :
    Optimizer.evolve S fnc d ⟨sv, s⟩ =
      ((evolve1 (problemOf S fnc sv) (S.breed sv.nPop sv.params d) s).1,
        ⟨sv, (evolve1 (problemOf S fnc sv) (S.breed sv.nPop sv.params d) s).2⟩) := by
  unfold Optimizer.evolve evolve1
  rcases nextEvolver (problemOf S fnc sv) (S.breed sv.nPop sv.params d) s with ⟨r, t⟩
  cases r with
  | error e => rfl
  | ok u =>
    simp only
    rcases GA.bestCandidate (problemOf S fnc sv) t with ⟨r', t'⟩
    cases r' with
    | error e => rfl
    | ok c => simp only [h]; rfl

/-- the cycles of a run of `solve`, one after the other -/
theorem cycles_strip {S : Subclass G X K D} {fnc : X → Py K} {sv : Solver K}
    (hm : sv.celebrateLt = sv.params.minimize) {ds : ℕ → D} {st : ℕ → Ga G X K} {s t : Ga G X K}
    (h0 : strip (st 0) = strip t) :
    ∀ k, (∀ j < k, ∃ u, evolve1 (problemOf S fnc sv) (S.breed sv.nPop sv.params (ds j)) (st j) =
        (.ok (), u) ∧ st (j + 1) = bump u) →
      ∃ r, session S fnc ((List.range k).map fun i => Act.evolve (ds i)) ⟨sv, t⟩ = ⟨sv, r⟩ ∧
        strip r = strip (st k) ∧
        ∀ j < k, (act S fnc (.evolve (ds j))
          (session S fnc ((List.range j).map fun i => Act.evolve (ds i)) ⟨sv, t⟩)).1 = .ok () := by
  intro k
  induction k with
  | zero => intro _; exact ⟨t, rfl, h0.symm, fun j hj => absurd hj (Nat.not_lt_zero j)⟩
  | succ k ih =>
    intro hall
    obtain ⟨r, h1, h2, h3⟩ := ih (fun j hj => hall j (by omega))
    obtain ⟨u, e1, e2⟩ := hall k (by omega)
    have e3 := evolve_strip S fnc (ds k) sv r
    have e4 := evolve_strip S fnc (ds k) sv (st k)
    rw [← h2, e3, evolve_eq_evolve1 S fnc (ds k) sv (st k) hm, e1] at e4
    simp only [Prod.mk.injEq, Optimizer.mk.injEq, true_and] at e4
    refine ⟨(Optimizer.evolve S fnc (ds k) ⟨sv, r⟩).2.run, ?_, ?_, ?_⟩
    · rw [List.range_succ, List.map_append, List.map_cons, List.map_nil, session_snoc, h1]
      simp only [act]
      have := evolve_solver S fnc (ds k) ⟨sv, r⟩
      generalize Optimizer.evolve S fnc (ds k) ⟨sv, r⟩ = q at this ⊢
      obtain ⟨q1, q2, q3⟩ := q
      simp only at this ⊢
      rw [this]
    · rw [e4.2, e2]; rfl
    · intro j hj
      by_cases hjk : j < k
      · exact h3 j hjk
      · obtain rfl : j = k := by omega
        rw [h1]; exact e4.1

end
end Verif.GA
