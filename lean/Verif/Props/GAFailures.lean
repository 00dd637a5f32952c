import Verif.Proofs.GAFailures
import Verif.Props.GASession
import Verif.Props.GAObject

set_option linter.unusedSectionVars false

/-!
# C137: an objective that fails now and then

The objective behind an optimizer may raise in one call and work in the next.  The calls of a history are
therefore paired with what the objective does during each.
-/

namespace Verif.GA.Props
open Verif Verif.GA

section
variable {G X K D : Type*} [LinearOrder K]

/-- the objective works -/
def Works (f : X → Py K) : Prop := ∀ x, ∃ y, f x = .ok y

/-- What a subclass does with the populations `Good` of an optimizer of size `n`, while its parameters are `P` and
its draws `Dr`: they are not empty, the first is one of them, every one is decoded, member by member, and every one
that is evaluated has offspring, again one of them. -/
structure Sound (S : Subclass G X K D) (n : ℤ) (P : Params K → Prop) (Dr : D → Prop) (Good : List G → Prop) :
    Prop where
  nonempty : ∀ gs, Good gs → gs ≠ []
  populate : ∀ p d gs, Dr d → S.populate n p d = .ok gs → Good gs
  decode : ∀ gs, Good gs → ∃ xs, S.decode n gs = .ok xs ∧ xs.length = gs.length
  breed : ∀ p d gs ys, P p → Dr d → Good gs → ys.length = gs.length → ∃ gs', S.breed n p d gs ys = .ok gs' ∧ Good gs'

/-- the draws of a call -/
def Drawn (Dr : D → Prop) : Act K D → Prop
  | .evolve d => Dr d
  | .reset d => Dr d
  | _ => True

/-- The calls of a history draw what the generator can draw, and the parameters are at all times such that the
subclass can breed. -/
structure Fair (S : Subclass G X K D) (P : Params K → Prop) (Dr : D → Prop)
    (calls : List ((X → Py K) × Act K D)) (o : Optimizer G X K) : Prop where
  draws : ∀ c ∈ calls, Drawn Dr c.2
  params : ∀ pre, pre <+: calls → P (history S pre o).solver.params

theorem Fair.tail {S : Subclass G X K D} {P : Params K → Prop} {Dr : D → Prop} {c : (X → Py K) × Act K D}
    {cs : List ((X → Py K) × Act K D)} {o : Optimizer G X K} (h : Fair S P Dr (c :: cs) o) :
    Fair S P Dr cs (act S c.1 c.2 o).2 :=
  ⟨fun c' hc => h.draws c' (by simp [hc]), fun pre hp => h.params (c :: pre) (by simpa using hp)⟩

theorem Fair.now {S : Subclass G X K D} {P : Params K → Prop} {Dr : D → Prop}
    {cs : List ((X → Py K) × Act K D)} {o : Optimizer G X K} (h : Fair S P Dr cs o) : P o.solver.params :=
  h.params [] (by simp)

variable {P : Params K → Prop} {Dr : D → Prop} {Good : List G → Prop}

theorem Sound.len {S : Subclass G X K D} {n : ℤ} (h : Sound S n P Dr Good) (gs : List G) (xs : List X) (h0 : Good gs)
    (h1 : S.decode n gs = .ok xs) : xs.length = gs.length := by
  obtain ⟨zs, hz, hl⟩ := h.decode gs h0
  rw [h1] at hz
  cases hz
  exact hl

theorem Sound.next {S : Subclass G X K D} {n : ℤ} (h : Sound S n P Dr Good) {p : Params K} (hp : P p) {d : D}
    (hd : Dr d) (gs : List G) (ys : List K) (gs' : List G) (h0 : Good gs) (h1 : ys.length = gs.length)
    (h2 : S.breed n p d gs ys = .ok gs') : Good gs' := by
  obtain ⟨zs, hz, hl⟩ := h.breed p d gs ys hp hd h0 h1
  rw [h2] at hz
  cases hz
  exact hl

theorem params_size (s : Solver K) (kw : Kwargs K) : (setSolutionParams s kw).2.nPop = s.nPop := by
  unfold setSolutionParams
  dsimp only
  split <;> rfl

theorem act_size (S : Subclass G X K D) (f : X → Py K) (a : Act K D) (o : Optimizer G X K) :
    (act S f a o).2.solver.nPop = o.solver.nPop := by
  cases a with
  | evolve d =>
    show (o.evolve S f d).2.solver.nPop = _
    unfold Optimizer.evolve
    split
    · rfl
    · split <;> rfl
  | setParams kw => exact params_size _ _
  | _ => rfl

theorem act_kept {S : Subclass G X K D} {n : ℤ} (hS : Sound S n P Dr Good) (f : X → Py K) (a : Act K D)
    (ha : Drawn Dr a) {o : Optimizer G X K} (hP : P o.solver.params) (hn : o.solver.nPop = n) (h : OwnCaches (S.decode n) Good o.run) :
    OwnCaches (S.decode n) Good (act S f a o).2.run := by
  subst hn
  cases a with
  | evolve d =>
    show OwnCaches _ Good (o.evolve S f d).2.run
    have h1 := kept_next (pb := problemOf S f o.solver) (breed := S.breed o.solver.nPop o.solver.params d)
      hS.len (hS.next hP ha) h
    unfold Optimizer.evolve
    split
    · rename_i e t he; rw [he] at h1; exact h1
    · rename_i t he
      rw [he] at h1
      have h2 := kept_best (pb := problemOf S f o.solver) hS.len h1
      split
      · rename_i e u hu; rw [hu] at h2; exact h2
      · rename_i c u hu
        rw [hu] at h2
        exact ⟨h2.1, h2.2, h2.3⟩
  | setParams kw => exact h
  | reset d =>
    show OwnCaches _ Good (GA.reset _ o.run).2
    unfold GA.reset
    split
    · exact ⟨h.1, h.2, h.3⟩
    · rename_i gs hg
      exact ⟨fun _ h => (by cases h), fun _ h => (by cases h), hS.populate _ _ _ ha hg⟩
  | fitness => exact kept_fitness (pb := problemOf S f o.solver) hS.len h
  | phenotypes => exact kept_phenotypes (pb := problemOf S f o.solver) h
  | bestCandidate => exact kept_best (pb := problemOf S f o.solver) hS.len h

theorem history_kept {S : Subclass G X K D} {n : ℤ} (hS : Sound S n P Dr Good) :
    ∀ (calls : List ((X → Py K) × Act K D)) {o : Optimizer G X K}, Fair S P Dr calls o → o.solver.nPop = n →
      OwnCaches (S.decode n) Good o.run → (history S calls o).solver.nPop = n ∧
        OwnCaches (S.decode n) Good (history S calls o).run
  | [], o, _, hn, h => ⟨hn, h⟩
  | c :: cs, o, hf, hn, h =>
    history_kept hS cs hf.tail ((act_size S c.1 c.2 o).trans hn)
      (act_kept hS c.1 c.2 (hf.draws c (by simp)) hf.now hn h)

theorem construct_kept {S : Subclass G X K D} {nPop : ℤ} {p : Params K} {d : D} (hd : Dr d) {o : Optimizer G X K}
    (hc : construct S nPop p d = .ok o) (hS : Sound S o.solver.nPop P Dr Good) :
    o.run.phase = .primed ∧ OwnCaches (S.decode o.solver.nPop) Good o.run := by
  unfold construct at hc
  split at hc
  · cases hc
  · rename_i n hn
    split at hc
    · cases hc
    · rename_i sv hsv
      have hsz := params_size (⟨n, p, false⟩ : Solver K)
        { p_c := some p.p_c, p_m := some p.p_m, maxiter := some p.maxiter,
          miniter := some p.miniter, elitism := some p.elitism, maxage := some p.maxage,
          minimize := some p.minimize }
      rw [hsv] at hsz
      split at hc
      · cases hc
      · rename_i run hr
        cases hc
        unfold GA.reset at hr
        split at hr
        · cases hr
        · rename_i gs hg
          cases hr
          refine ⟨rfl, fun _ h => (by cases h), fun _ h => (by cases h), ?_⟩
          have hsz : sv.nPop = n := hsz
          exact hS.populate _ d gs hd (by rw [hsz]; exact hg)

/-- C137: whatever a cycle raises and for whatever reason, the champion, the reported optimum and the
parameters are those of before, and the population is the one before or the one just bred. -/
theorem C137_unharmed (S : Subclass G X K D) (f : X → Py K) (d : D) (o o' : Optimizer G X K) (e : PyErr)
    (h : act S f (.evolve d) o = (.error e, o')) :
    o'.run.champion = o.run.champion ∧ o'.run.state.x = o.run.state.x ∧
    o'.run.state.fn = o.run.state.fn ∧ o'.run.state.n_iter = o.run.state.n_iter ∧ o'.solver = o.solver ∧
    (o'.run.genotypes = o.run.genotypes ∨
      ∃ ys, S.breed o.solver.nPop o.solver.params d o.run.genotypes ys = .ok o'.run.genotypes) := by
  have h : o.evolve S f d = (.error e, o') := h
  have hg := getFitness_core (problemOf S f o.solver) o.run
  unfold Optimizer.evolve at h
  split at h
  · rename_i e1 t ht
    cases h
    unfold nextEvolver at ht
    split at ht
    · cases ht
    · cases ht; exact ⟨rfl, rfl, rfl, rfl, rfl, Or.inl rfl⟩
    · split at ht
      · rename_i e2 u hu
        rw [hu] at hg
        cases ht
        exact ⟨hg.champion, hg.x, hg.fn, hg.n_iter, rfl, Or.inl hg.genotypes⟩
      · rename_i ys u hu
        rw [hu] at hg
        split at ht
        · cases ht
          exact ⟨hg.champion, hg.x, hg.fn, hg.n_iter, rfl, Or.inl hg.genotypes⟩
        · cases ht
  · rename_i t ht
    have hb := bestCandidate_core (problemOf S f o.solver) t
    split at h
    · rename_i e2 u hu
      rw [hu] at hb
      cases h
      unfold nextEvolver at ht
      split at ht
      · cases ht
        exact ⟨hb.champion, hb.x, hb.fn, hb.n_iter, rfl, Or.inl hb.genotypes⟩
      · cases ht
      · split at ht
        · cases ht
        · rename_i ys v hv
          rw [hv] at hg
          split at ht
          · cases ht
          · rename_i gs hgs
            cases ht
            refine ⟨hb.champion.trans hg.champion, hb.x.trans hg.x, hb.fn.trans hg.fn,
              hb.n_iter.trans hg.n_iter, rfl, Or.inr ⟨ys, ?_⟩⟩
            have h1 : u.genotypes = gs := hb.genotypes
            have h2 : v.genotypes = o.run.genotypes := hg.genotypes
            rw [← h2]
            exact hgs.trans (congrArg _ h1.symm)
    · cases h

/-- C137: at any time in the life of an optimizer of a subclass that decodes and breeds, a cycle that raises
does so because the objective raised (and then it is a `RuntimeError`), or because the optimizer is finished
(and then it is a `StopIteration` and nothing happens). -/
theorem C137_cause (S : Subclass G X K D) (nPop : ℤ) (p : Params K) (d₀ : D) (hd₀ : Dr d₀)
    (o : Optimizer G X K)
    (hc : construct S nPop p d₀ = .ok o) (hS : Sound S o.solver.nPop P Dr Good)
    (calls : List ((X → Py K) × Act K D)) (hfair : Fair S P Dr calls o) (f : X → Py K) (d : D) (hd : Dr d)
    (e : PyErr) (o' : Optimizer G X K)
    (h : act S f (.evolve d) (history S calls o) = (.error e, o')) :
    (e = .runtime ∧ ∃ x err, f x = .error err) ∨
    (e = .stopIteration ∧ (history S calls o).run.phase = .dead ∧ o' = history S calls o) := by
  obtain ⟨hn, hk⟩ := history_kept hS calls hfair rfl (construct_kept hd₀ hc hS).2
  have hP : P (history S calls o).solver.params := hfair.params calls (List.prefix_refl _)
  clear hfair
  generalize history S calls o = q at *
  rw [← hn] at hS hk
  have h : q.evolve S f d = (.error e, o') := h
  have hkf := kept_fitness (pb := problemOf S f q.solver) hS.len hk
  have hkn := kept_next (pb := problemOf S f q.solver) (breed := S.breed q.solver.nPop q.solver.params d)
    hS.len (hS.next hP hd) hk
  unfold Optimizer.evolve at h
  split at h
  · rename_i e1 t ht
    cases h
    unfold nextEvolver at ht
    split at ht
    · cases ht
    · cases ht; exact Or.inr ⟨rfl, by assumption, rfl⟩
    · split at ht
      · rename_i e2 u hu
        cases ht
        refine Or.inl ((fitness_raises hu).2.resolve_left fun h4 => ?_)
        obtain ⟨xs, hx, -⟩ := hS.decode _ hk.good
        have h5 : S.decode q.solver.nPop q.run.genotypes = .error e := h4.2
        rw [h5] at hx
        cases hx
      · rename_i ys u hu
        rw [hu] at hkf
        obtain ⟨gs, hgs, -⟩ := hS.breed q.solver.params d u.genotypes ys hP hd hkf.good
          (hkf.fitness _ (fitness_stored hu))
        rw [hgs] at ht
        cases ht
  · rename_i t ht
    rw [ht] at hkn
    split at h
    · rename_i e2 u hu
      cases h
      exact Or.inl (best_raises hS.nonempty hS.decode hkn hu).2
    · cases h

/-- C137: no failure is hidden: if a cycle of an optimizer under way goes well, the objective of the cycle has
returned a value for every member of the new population, and these are the values on record. -/
theorem C137_heard (S : Subclass G X K D) (f : X → Py K) (d : D) (o o' : Optimizer G X K)
    (hr : o.run.phase = .running) (h : act S f (.evolve d) o = (.ok (), o')) :
    ∃ xs ys, S.decode o.solver.nPop o'.run.genotypes = .ok xs ∧ List.Forall₂ (fun x y => f x = .ok y) xs ys ∧
      o'.run.fitness = some ys := by
  have h : o.evolve S f d = (.ok (), o') := h
  unfold Optimizer.evolve at h
  split at h
  · cases h
  · rename_i t ht
    have hfresh : t.phenotypes = none ∧ t.fitness = none := by
      unfold nextEvolver at ht
      rw [hr] at ht
      split at ht
      · rename_i hp; cases hp
      · cases ht
      · split at ht
        · cases ht
        · split at ht
          · cases ht
          · cases ht; exact ⟨rfl, rfl⟩
    split at h
    · cases h
    · rename_i c u hu
      have hcore := bestCandidate_core (problemOf S f o.solver) t
      rw [hu] at hcore
      cases h
      obtain ⟨hp, hf⟩ := hfresh
      cases hd : S.decode o.solver.nPop t.genotypes with
      | error e =>
        have hd : (problemOf S f o.solver).decode t.genotypes = .error e := hd
        simp only [bestCandidate, getFitness, getPhenotypes, hp, hf, hd] at hu
        cases hu
      | ok xs =>
        have hd' : (problemOf S f o.solver).decode t.genotypes = .ok xs := hd
        cases hm : pyMap f xs with
        | error e =>
          have hm : pyMap (problemOf S f o.solver).fnc xs = .error e := hm
          simp only [bestCandidate, getFitness, getPhenotypes, evaluate, hp, hf, hd', hm] at hu
          cases hu
        | ok ys =>
          refine ⟨xs, ys, ?_, pyMap_eq_ok_iff.mp hm, ?_⟩
          · have : u.genotypes = t.genotypes := hcore.genotypes
            show S.decode _ u.genotypes = _
            rw [this]; exact hd
          · have hm : pyMap (problemOf S f o.solver).fnc xs = .ok ys := hm
            show u.fitness = some ys
            simp only [bestCandidate, getFitness, getPhenotypes, evaluate, hp, hf, hd', hm] at hu
            repeat' split at hu
            all_goals first | (cases hu; rfl) | cases hu

/-- a call that is not a reset -/
def Keeps : Act K D → Prop
  | .reset _ => False
  | _ => True

theorem act_dead (S : Subclass G X K D) (f : X → Py K) (a : Act K D) (ha : Keeps a) (o : Optimizer G X K)
    (h : o.run.phase = .dead) :
    (act S f a o).2.run.phase = .dead ∧ (act S f a o).2.run.genotypes = o.run.genotypes ∧
      (act S f a o).2.run.champion = o.run.champion := by
  cases a with
  | evolve d =>
    have : act S f (.evolve d) o = (.error .stopIteration, o) := by
      show o.evolve S f d = _
      simp only [Optimizer.evolve, nextEvolver, h]
    rw [this]
    exact ⟨h, rfl, rfl⟩
  | setParams kw => exact ⟨h, rfl, rfl⟩
  | reset d => exact ha.elim
  | fitness =>
    have := getFitness_core (problemOf S f o.solver) o.run
    exact ⟨this.phase.trans h, this.genotypes, this.champion⟩
  | phenotypes =>
    have := getPhenotypes_core (problemOf S f o.solver) o.run
    exact ⟨this.phase.trans h, this.genotypes, this.champion⟩
  | bestCandidate =>
    have := bestCandidate_core (problemOf S f o.solver) o.run
    exact ⟨this.phase.trans h, this.genotypes, this.champion⟩

/-- C137: once an optimizer is finished, every further cycle raises `StopIteration` and changes nothing, however
often and with whatever parameters and objective it is tried, until it is reset; population and champion stay. -/
theorem C137_finished (S : Subclass G X K D) (o : Optimizer G X K) (h : o.run.phase = .dead) :
    ∀ (calls : List ((X → Py K) × Act K D)), (∀ c ∈ calls, Keeps c.2) → ∀ (f : X → Py K) (d : D),
      act S f (.evolve d) (history S calls o) = (.error .stopIteration, history S calls o) ∧
      (history S calls o).run.genotypes = o.run.genotypes ∧
      (history S calls o).run.champion = o.run.champion := by
  intro calls hk f d
  have key : ∀ (calls : List ((X → Py K) × Act K D)) (o : Optimizer G X K), o.run.phase = .dead →
      (∀ c ∈ calls, Keeps c.2) → (history S calls o).run.phase = .dead ∧
      (history S calls o).run.genotypes = o.run.genotypes ∧
      (history S calls o).run.champion = o.run.champion := by
    intro calls
    induction calls with
    | nil => exact fun o h _ => ⟨h, rfl, rfl⟩
    | cons c cs ih =>
      intro o h hk
      obtain ⟨h1, h2, h3⟩ := act_dead S c.1 c.2 (hk c (by simp)) o h
      obtain ⟨h4, h5, h6⟩ := ih _ h1 (fun c' hc => hk c' (by simp [hc]))
      exact ⟨h4, h5.trans h2, h6.trans h3⟩
  obtain ⟨h1, h2, h3⟩ := key calls o h hk
  refine ⟨?_, h2, h3⟩
  show (history S calls o).evolve S f d = _
  simp only [Optimizer.evolve, nextEvolver, h1]

/-- C137: `solve(recycle=True)` on a finished optimizer raises `StopIteration`, too. -/
theorem C137_recycled (S : Subclass G X K D) (f : X → Py K) (o : Optimizer G X K) (h : o.run.phase = .dead)
    (d : D) (ds : ℕ → D) (kw : Kwargs K) (hk : (setSolutionParams o.solver kw).1 = .ok ()) (fuel : ℕ) :
    ∃ o', o.solve S f true kw d ds (fuel + 1) = some (.error .stopIteration, o') ∧
      o'.run.champion = o.run.champion ∧ o'.run.status = .error ∧ o'.run.state.success = false := by
  cases hs : setSolutionParams o.solver kw with
  | mk r sv =>
    rw [hs] at hk
    cases hk
    refine ⟨⟨sv, { o.run with
      status := .error
      state := { o.run.state with success := false, message := some .stopIteration, stage := some .error } }⟩,
      ?_, rfl, rfl, rfl⟩
    simp [Optimizer.solve, hs, solveBody, solveLoop, solvePass, evolve1, nextEvolver, h]

/-- C137: a reset makes any optimizer as good as new: it has the population drawn, no champion, no record, and it
behaves in every call that follows like one that has never seen a failure. -/
theorem C137_reset (S : Subclass G X K D) (f : X → Py K) (o : Optimizer G X K) (d : D) (gs : List G)
    (hg : S.populate o.solver.nPop o.solver.params d = .ok gs) (calls : List ((X → Py K) × Act K D)) :
    (act S f (.reset d) o).1 = .ok () ∧
    history S calls (act S f (.reset d) o).2 =
      history S calls ⟨o.solver, ⟨gs, none, none, none, {}, .initialized, .primed⟩⟩ := by
  have : act S f (.reset d) o = (.ok (), ⟨o.solver, ⟨gs, none, none, none, {}, .initialized, .primed⟩⟩) := by
    simp only [act, hg, GA.reset, setGenotypes]
  rw [this]
  exact ⟨rfl, rfl⟩

/-- one failure while the values of the population are known or not yet asked for -/
theorem one_failure {S : Subclass G X K D} {q : Optimizer G X K} (hS : Sound S q.solver.nPop P Dr Good)
    (hk : OwnCaches (S.decode q.solver.nPop) Good q.run) (hp : q.run.phase = .primed ∨
      (q.run.phase = .running ∧ q.run.fitness ≠ none)) {f f' : X → Py K} {d d' : D} (hP : P q.solver.params) (hd : Dr d)
    (hd' : Dr d') {e : PyErr} (h : (act S f (.evolve d) q).1 = .error e) (hf : Works f') :
    (act S f' (.evolve d') (act S f (.evolve d) q).2).1 = .ok () := by
  -- the first call ends while looking for the best candidate
  have hq : ∃ t u, nextEvolver (problemOf S f q.solver) (S.breed q.solver.nPop q.solver.params d) q.run = (.ok (), t) ∧
      t.phase = .running ∧ OwnCaches (S.decode q.solver.nPop) Good t ∧
      act S f (.evolve d) q = (.error e, ⟨q.solver, u⟩) ∧
      bestCandidate (problemOf S f q.solver) t = (.error e, u) := by
    have hkn := kept_next (pb := problemOf S f q.solver) (breed := S.breed q.solver.nPop q.solver.params d)
      hS.len (hS.next hP hd) hk
    have hx : ∃ t, nextEvolver (problemOf S f q.solver) (S.breed q.solver.nPop q.solver.params d) q.run =
        (.ok (), t) ∧ t.phase = .running := by
      rcases hp with hp | ⟨hp, hfit⟩
      · exact ⟨_, by simp only [nextEvolver, hp]; rfl, rfl⟩
      · cases hft : q.run.fitness with
        | none => exact absurd hft hfit
        | some ys =>
          obtain ⟨gs, hgs, -⟩ := hS.breed q.solver.params d _ ys hP hd hk.good (hk.fitness ys hft)
          exact ⟨setGenotypes q.run gs, by simp only [nextEvolver, hp, getFitness, hft, hgs], hp⟩
    obtain ⟨t, ht, htp⟩ := hx
    rw [ht] at hkn
    have h : (q.evolve S f d).1 = .error e := h
    cases hb : bestCandidate (problemOf S f q.solver) t with
    | mk r u =>
      cases r with
      | error e' =>
        have h2 : q.evolve S f d = (.error e', ⟨q.solver, u⟩) := by
          simp only [Optimizer.evolve, ht, hb]
        rw [h2] at h
        cases h
        exact ⟨t, u, ht, htp, hkn, h2, hb⟩
      | ok c =>
        have h2 : (q.evolve S f d).1 = .ok () := by simp only [Optimizer.evolve, ht, hb]
        rw [h2] at h
        cases h
  obtain ⟨t, u, -, htp, hkt, ha, hb⟩ := hq
  have hcore := bestCandidate_core (problemOf S f q.solver) t
  have hku := kept_best (pb := problemOf S f q.solver) hS.len hkt
  rw [hb] at hcore hku
  rw [ha]
  have hup : u.phase = .running := hcore.phase.trans htp
  -- the second
  have hdec : ∃ xs, (problemOf S f' q.solver).decode u.genotypes = .ok xs := by
    obtain ⟨xs, hx, -⟩ := hS.decode _ hku.good
    exact ⟨xs, hx⟩
  obtain ⟨ys, v, hv⟩ := fitness_total (pb := problemOf S f' q.solver) hf hdec
  have hkv := kept_fitness (pb := problemOf S f' q.solver) hS.len hku
  rw [hv] at hkv
  obtain ⟨gs, hgs, hne⟩ := hS.breed q.solver.params d' v.genotypes ys hP hd' hkv.good
    (hkv.fitness _ (fitness_stored hv))
  obtain ⟨zs, hz, hzl⟩ := hS.decode gs hne
  obtain ⟨c, w, hw⟩ := best_total (pb := problemOf S f' q.solver) (s := setGenotypes v gs) hf hz hzl (hS.nonempty _ hne) rfl rfl
  show (Optimizer.evolve S f' d' ⟨q.solver, u⟩).1 = .ok ()
  simp only [Optimizer.evolve, nextEvolver, hup, hv, hgs, hw]

/-- C137: after a cycle that went well, one cycle in which the objective raises does not finish the optimizer:
with an objective that works again the next cycle goes well. -/
theorem C137_once_partial (S : Subclass G X K D) (nPop : ℤ) (p : Params K) (d₀ : D) (hd₀ : Dr d₀)
    (o : Optimizer G X K)
    (hc : construct S nPop p d₀ = .ok o) (hS : Sound S o.solver.nPop P Dr Good)
    (calls : List ((X → Py K) × Act K D)) (hfair : Fair S P Dr calls o) (f₁ f₂ f₃ : X → Py K) (d₁ d₂ d₃ : D)
    (hd₁ : Dr d₁) (hd₂ : Dr d₂) (hd₃ : Dr d₃) (q r : Optimizer G X K)
    (e : PyErr) (h₁ : act S f₁ (.evolve d₁) (history S calls o) = (.ok (), q))
    (h₂ : act S f₂ (.evolve d₂) q = (.error e, r)) (h₃ : Works f₃) :
    (act S f₃ (.evolve d₃) r).1 = .ok () := by
  obtain ⟨hn, hk⟩ := history_kept hS calls hfair rfl (construct_kept hd₀ hc hS).2
  have hP : P (history S calls o).solver.params := hfair.params calls (List.prefix_refl _)
  have hk' := act_kept hS f₁ (.evolve d₁) hd₁ hP hn hk
  have hP' : (act S f₁ (.evolve d₁) (history S calls o)).2.solver = _ :=
    evolve_solver S f₁ d₁ (history S calls o)
  have hn' := (act_size S f₁ (.evolve d₁) (history S calls o)).trans hn
  rw [h₁] at hk' hn' hP'
  have hP' : q.solver = (history S calls o).solver := hP'
  rw [← hP'] at hP
  have hn' : q.solver.nPop = o.solver.nPop := hn'
  rw [← hn'] at hS hk'
  have h₁ : (history S calls o).evolve S f₁ d₁ = (.ok (), q) := h₁
  have hq : q.run.phase = .running ∧ q.run.fitness ≠ none := by
    unfold Optimizer.evolve at h₁
    split at h₁
    · cases h₁
    · rename_i t ht
      have htp : t.phase = .running := by
        unfold nextEvolver at ht
        split at ht
        · cases ht; rfl
        · cases ht
        · rename_i hrun
          split at ht
          · cases ht
          · rename_i ys u hu
            have hc := getFitness_core (problemOf S f₁ (history S calls o).solver) (history S calls o).run
            rw [hu] at hc
            split at ht
            · cases ht
            · cases ht
              exact hc.phase.trans hrun
      split at h₁
      · cases h₁
      · rename_i c u hu
        cases h₁
        have hb := bestCandidate_core (problemOf S f₁ (history S calls o).solver) t
        rw [hu] at hb
        have hs := best_stored hu
        exact ⟨hb.phase.trans htp, hs⟩
  have := one_failure (d' := d₃) hS hk' (Or.inr hq) (f := f₂) (d := d₂) hP hd₂ hd₃ (e := e) (by rw [h₂]) h₃
  rw [h₂] at this
  exact this

/-- C137: the same for the very first cycle. -/
theorem C137_first (S : Subclass G X K D) (nPop : ℤ) (p : Params K) (d₀ : D) (hd₀ : Dr d₀)
    (o r : Optimizer G X K)
    (hc : construct S nPop p d₀ = .ok o) (hS : Sound S o.solver.nPop P Dr Good) (hp : P o.solver.params)
    (f f' : X → Py K) (d d' : D) (hd : Dr d) (hd' : Dr d') (e : PyErr)
    (h : act S f (.evolve d) o = (.error e, r)) (hf : Works f') :
    (act S f' (.evolve d') r).1 = .ok () := by
  obtain ⟨hph, hk⟩ := construct_kept hd₀ hc hS
  have := one_failure (d' := d') hS hk (Or.inl hph) (f := f) (d := d) hp hd hd' (e := e) (by rw [h]) hf
  rw [h] at this
  exact this

end

section Demo

/-- an objective that fails -/
def fails (_ : ℤ) : Py ℤ := .error .generic

theorem demoSub_sound : Sound demoSub 4 (fun _ => True) (fun _ => True) (· ≠ []) where
  nonempty _ h := h
  populate p d gs _ h := by cases h; decide
  decode gs _ := ⟨gs, rfl, rfl⟩
  breed p d gs ys _ _ h _ := ⟨_, rfl, by simpa using h⟩

/-- C137: two failures in a row finish the optimizer, although the objective works again. -/
theorem C137_twice_violated :
    ∃ (o : Optimizer ℤ ℤ ℤ), construct demoSub 3 demoParams () = .ok o ∧ 
      Sound demoSub o.solver.nPop (fun _ => True) (fun _ => True) (· ≠ []) ∧
      Works demoFnc ∧ (act demoSub demoFnc (.evolve ()) o).1 = .ok () ∧
      ∀ (calls : List ((ℤ → Py ℤ) × Act ℤ Unit)), (∀ c ∈ calls, Keeps c.2) →
        (act demoSub demoFnc (.evolve ()) (history demoSub ([(demoFnc, .evolve ()), (fails, .evolve ()),
          (fails, .evolve ())] ++ calls) o)).1 = .error .stopIteration := by
  refine ⟨demoOptimizer, rfl, demoSub_sound, fun x => ⟨_, rfl⟩, by rfl, fun calls hk => ?_⟩
  have := (C137_finished demoSub (history demoSub [(demoFnc, .evolve ()), (fails, .evolve ()),
    (fails, .evolve ())] demoOptimizer) (by rfl) calls hk demoFnc ()).1
  unfold history at this ⊢
  rw [List.foldl_append]
  exact congrArg Prod.fst this

/-- the next population has nothing in common with the present one -/
def leapSub : Subclass ℤ ℤ ℤ Unit where
  populate n _ _ := .ok ((List.range n.toNat).map (fun i => (i : ℤ)))
  decode _ gs := .ok gs
  breed _ _ _ gs _ := .ok (gs.map (· + 4))

/-- C137: the population whose evaluation failed is evaluated in the cycle that follows, to select from it, but
its best is never compared to the champion: here 5 with the value 0 is evaluated with the others (12 evaluations
in all), both cycles with a working objective go well, and the champion is 3 with the value 4. -/
theorem C137_skipped_violated :
    ∃ (o : Optimizer ℤ ℤ ℤ) (c : Genom ℤ ℤ ℤ), construct leapSub 3 demoParams () = .ok o ∧
      o.solver.params.minimize = true ∧
      (act leapSub demoFnc (.evolve ()) o).1 = .ok () ∧
      (history leapSub [(demoFnc, .evolve ()), (fails, .evolve ())] o).run.genotypes = [4, 5, 6, 7] ∧
      (act leapSub demoFnc (.evolve ())
        (history leapSub [(demoFnc, .evolve ()), (fails, .evolve ())] o)).1 = .ok () ∧
      (history leapSub [(demoFnc, .evolve ()), (fails, .evolve ()), (demoFnc, .evolve ())] o).run.champion =
        some c ∧
      (history leapSub [(demoFnc, .evolve ()), (fails, .evolve ()), (demoFnc, .evolve ())] o).run.state.n_fev
        = 12 ∧
      c.phenotype = 3 ∧ c.fitness = 4 ∧ demoFnc 5 = .ok 0 := by
  refine ⟨demoOptimizer, ⟨3, 3, 4, 2, 3⟩, by rfl, by rfl, by rfl, by rfl, by rfl, by rfl, by rfl, rfl, rfl, by rfl⟩

/-- a failure in the second cycle, and the third goes well -/
example : (act demoSub demoFnc (.evolve ())
    (history demoSub [(demoFnc, .evolve ()), (fails, .evolve ())] demoOptimizer)).1 = .ok () := by
  have h : construct demoSub 3 demoParams () = .ok demoOptimizer := rfl
  exact C137_once_partial demoSub 3 demoParams () trivial demoOptimizer h demoSub_sound []
    ⟨by simp, fun _ _ => trivial⟩ demoFnc fails demoFnc () () () trivial trivial trivial
    (history demoSub [(demoFnc, .evolve ())] demoOptimizer) _ .runtime (by rfl) (by rfl) (fun x => ⟨_, rfl⟩)

/-- a failure in the first cycle raises a `RuntimeError` -/
example : (act demoSub fails (.evolve ()) demoOptimizer).1 = .error .runtime := by rfl

/-- a finished optimizer that is reset starts with the population drawn -/
example : (history demoSub [(demoFnc, .evolve ()), (fails, .evolve ()), (fails, .evolve ()),
    (demoFnc, .reset ()), (demoFnc, .evolve ())] demoOptimizer).run.champion.map (·.phenotype) = some 3 := by
  decide

end Demo

end Verif.GA.Props

namespace Verif.BGA.Props
open Verif Verif.GA Verif.GA.Props Verif.BGA

section
variable {K : Type} [Field K] [LinearOrder K] [IsStrictOrderedRing K]

theorem bga_sound (argsort : List K → List ℕ) (ha : IsArgsort argsort) (dim L : ℕ) (ranges : List (K × K))
    (hbits : 3 ≤ dim * L) (m : ℤ) (h4 : 4 ∣ m) (h8 : 8 ≤ m) :
    Sound (subclass argsort dim L ranges) m (fun p => GoodElitism m p.elitism) (IsDraws (dim * L))
      (fun gs => gs.length = m.toNat ∧ ∀ g ∈ gs, IsBits (dim * L) g) where
  nonempty gs h := by
    intro h0
    have := h.1
    rw [h0] at this
    simp at this
    omega
  populate p d gs hd h := by
    have hN4 : 4 ∣ (configOf dim L ranges m p).nPop := by show 4 ∣ m.toNat; omega
    have hN8 : 8 ≤ (configOf dim L ranges m p).nPop := by show 8 ≤ m.toNat; omega
    obtain ⟨gs', h1, h2⟩ := initial_ok (cfg := configOf dim L ranges m p) hd.1 hN4 hN8 hbits
      (pool := d.pool (m.toNat / 2) (dim * L)) ⟨(hd.2 _ _).1, (hd.2 _ _).2⟩
    have h : initial (configOf dim L ranges m p) d.cycle (d.pool (m.toNat / 2) (dim * L)) = .ok gs := h
    rw [h1] at h
    cases h
    exact h2
  decode gs h := ⟨_, decode_rows h.1 fun g hg => (h.2 g hg).1, by simp⟩
  breed p d gs ys hp hd h hy := by
    have hN4 : 4 ∣ (configOf dim L ranges m p).nPop := by show 4 ∣ m.toNat; omega
    have hN8 : 8 ≤ (configOf dim L ranges m p).nPop := by show 8 ≤ m.toNat; omega
    obtain ⟨rest, h1, h2⟩ := breed_ok (cfg := configOf dim L ranges m p) ha hd.1 hN4 hN8 hbits
      (workable_of_good (by omega) h4 hp) h.1 h.2 (hy.trans h.1)
    exact ⟨_, h1, h2 _ h1⟩

/-- C137 for the binary GA: a population of at least five requested, three bits in all, draws as the generator
makes them and an elitism the algorithm can work with at all times. Whatever happened before, a cycle fails only
because the objective raised or the optimizer is finished; and after a cycle that went well one failure of the
objective does not finish it. -/
theorem C137_bga_partial (argsort : List K → List ℕ) (ha : IsArgsort argsort) (dim L : ℕ) (ranges : List (K × K))
    (hbits : 3 ≤ dim * L) (n m : ℤ) (hn : 5 ≤ n) (hm : IsLeast {m : ℤ | 4 ∣ m ∧ n ≤ m} m) (p : Params K)
    (d₀ : Draws K) (hd₀ : IsDraws (dim * L) d₀) (o : Optimizer (List ℤ) (List K) K)
    (hc : construct (subclass argsort dim L ranges) n p d₀ = .ok o)
    (calls : List ((List K → Py K) × Act K (Draws K)))
    (hdraws : ∀ c ∈ calls, Drawn (IsDraws (dim * L)) c.2)
    (hel : ∀ pre, pre <+: calls →
      GoodElitism m (history (subclass argsort dim L ranges) pre o).solver.params.elitism) :
    (∀ f d e o', IsDraws (dim * L) d →
      act (subclass argsort dim L ranges) f (.evolve d) (history (subclass argsort dim L ranges) calls o) =
        (.error e, o') →
      (e = .runtime ∧ ∃ x err, f x = .error err) ∨
      (e = .stopIteration ∧ (history (subclass argsort dim L ranges) calls o).run.phase = .dead)) ∧
    (∀ f₁ f₂ f₃ d₁ d₂ d₃ q r e, IsDraws (dim * L) d₁ → IsDraws (dim * L) d₂ → IsDraws (dim * L) d₃ →
      act (subclass argsort dim L ranges) f₁ (.evolve d₁) (history (subclass argsort dim L ranges) calls o) =
        (.ok (), q) →
      act (subclass argsort dim L ranges) f₂ (.evolve d₂) q = (.error e, r) → GA.Props.Works f₃ →
      (act (subclass argsort dim L ranges) f₃ (.evolve d₃) r).1 = .ok ()) := by
  have h4 : 4 ∣ m := hm.1.1
  have hnm : n ≤ m := hm.1.2
  have hsz : o.solver.nPop = m := by
    obtain ⟨hno, hcon⟩ := C94_construct (subclass argsort dim L ranges) n m (by omega) hm p d₀
    by_cases hv : ValidParams m p
    · cases hpop : (subclass argsort dim L ranges).populate m p d₀ with
      | error e =>
        have := (hcon hv).1 e hpop
        rw [hc] at this
        cases this
      | ok gs =>
        obtain ⟨o', h1, h2, -⟩ := (hcon hv).2 gs hpop
        rw [hc] at h1
        cases h1
        exact h2
    · have := hno hv
      rw [hc] at this
      cases this
  have hS := bga_sound argsort ha dim L ranges hbits m h4 (by omega)
  rw [← hsz] at hS
  have hfair : Fair (subclass argsort dim L ranges) (fun p => GoodElitism o.solver.nPop p.elitism)
      (IsDraws (dim * L)) calls o := ⟨hdraws, by rw [hsz]; exact hel⟩
  refine ⟨fun f d e o' hd h => ?_, fun f₁ f₂ f₃ d₁ d₂ d₃ q r e hd₁ hd₂ hd₃ h₁ h₂ h₃ => ?_⟩
  · rcases C137_cause _ n p d₀ hd₀ o hc hS calls hfair f d hd e o' h with h | h
    · exact Or.inl h
    · exact Or.inr ⟨h.1, h.2.1⟩
  · exact C137_once_partial _ n p d₀ hd₀ o hc hS calls hfair f₁ f₂ f₃ d₁ d₂ d₃ hd₁ hd₂ hd₃ q r e h₁ h₂ h₃

end

section Demo

/-- the generator may draw the same bit every time -/
theorem sameBit (b : ℤ) (hb : b = 0 ∨ b = 1) : IsDraws 5
    (⟨fun rows cols => List.replicate rows (List.replicate cols b), demoDraws⟩ : Draws ℚ) := by
  refine ⟨demoDraws_ok, fun rows cols => ⟨by simp, ?_⟩⟩
  intro g hg
  rw [List.eq_of_mem_replicate hg]
  exact ⟨by simp, fun c hc => by rw [List.eq_of_mem_replicate hc]; exact hb⟩

/-- One variable with five bits and eight members; the first cycle is made with an objective that fails. Should
the second fail as well, with an objective that works, it can only be because the optimizer is finished. -/
example : ∃ o, construct (subclass refArgsort 1 5 [((0 : ℚ), 31)]) 6 ⟨9/10, 1/100, 50, 3, .int 2, 5, true⟩
      ⟨fun rows cols => List.replicate rows (List.replicate cols 0), demoDraws⟩ = .ok o ∧
    ∀ f e o', GA.Props.Works f →
      act (subclass refArgsort 1 5 [((0 : ℚ), 31)]) f
        (.evolve ⟨fun rows cols => List.replicate rows (List.replicate cols 1), demoDraws⟩)
        (history (subclass refArgsort 1 5 [((0 : ℚ), 31)]) [(fun _ => .error .generic,
          .evolve ⟨fun rows cols => List.replicate rows (List.replicate cols 1), demoDraws⟩)] o) = (.error e, o') →
      e = .stopIteration := by
  have hm : IsLeast {m : ℤ | 4 ∣ m ∧ 6 ≤ m} 8 :=
    ⟨⟨by norm_num, by norm_num⟩, fun x hx => by obtain ⟨h4, h6⟩ := hx; omega⟩
  have hel : GoodElitism 8 (.int 2) := Or.inl ⟨2, rfl, by norm_num, by norm_num, Or.inl (by norm_num)⟩
  obtain ⟨o, -, -, h1, -⟩ := C94_bga refArgsort refArgsort_ok 1 5 [((0 : ℚ), 31)] rfl
    (by simp) (by norm_num) 6 8 (by norm_num) hm ⟨9/10, 1/100, 50, 3, .int 2, 5, true⟩ hel
    (by norm_num) (fun x => .ok ((x.getD 0 0 - 3) ^ 2)) (fun x => ⟨_, rfl⟩) _ _ _
    (sameBit 0 (Or.inl rfl)) (sameBit 1 (Or.inr rfl)) (fun _ => sameBit 1 (Or.inr rfl)) 50 (by norm_num)
  refine ⟨o, h1, fun f e o' hf h => ?_⟩
  have hp : o.solver.params.elitism = .int 2 := by
    obtain ⟨hno, hcon⟩ := C94_construct (subclass refArgsort 1 5 [((0 : ℚ), 31)]) 6 8 (by norm_num) hm
      ⟨9/10, 1/100, 50, 3, .int 2, 5, true⟩
      ⟨fun rows cols => List.replicate rows (List.replicate cols 0), demoDraws⟩
    have hv : ValidParams 8 (⟨9/10, 1/100, 50, 3, .int 2, 5, true⟩ : Params ℚ) :=
      ⟨validElitism_of_good hel, by norm_num⟩
    cases hpop : (subclass refArgsort 1 5 [((0 : ℚ), 31)]).populate 8 ⟨9/10, 1/100, 50, 3, .int 2, 5, true⟩
        ⟨fun rows cols => List.replicate rows (List.replicate cols 0), demoDraws⟩ with
    | error e => have := (hcon hv).1 e hpop; rw [h1] at this; cases this
    | ok gs =>
      obtain ⟨o', h1', -, h2, -⟩ := (hcon hv).2 gs hpop
      rw [h1] at h1'
      cases h1'
      rw [h2]
  have key := (C137_bga_partial refArgsort refArgsort_ok 1 5 [((0 : ℚ), 31)] (by norm_num) 6 8 (by norm_num) hm
    _ _ (sameBit 0 (Or.inl rfl)) o h1 [(fun _ => .error .generic,
          .evolve ⟨fun rows cols => List.replicate rows (List.replicate cols 1), demoDraws⟩)]
    (by
      intro c hc
      rw [List.mem_singleton] at hc
      subst hc
      exact sameBit 1 (Or.inr rfl))
    (by
      intro pre hpre
      have : (history (subclass refArgsort 1 5 [((0 : ℚ), 31)]) pre o).solver = o.solver := by
        rcases List.prefix_cons_iff.mp hpre with rfl | ⟨t, rfl, ht⟩
        · rfl
        · obtain rfl := List.prefix_nil.mp ht
          exact evolve_solver _ _ _ _
      rw [this, hp]
      exact hel)).1 f _ e o' (sameBit 1 (Or.inr rfl)) h
  rcases key with ⟨-, x, err, hx⟩ | ⟨h, -⟩
  · obtain ⟨y, hy⟩ := hf x
    rw [hx] at hy
    cases hy
  · exact h

end Demo

end Verif.BGA.Props
