import Verif.Proofs.GAObject
import Verif.Props.BGA

/-!
# The optimizer as an object (C94, and C01 about constructed optimizers)

An optimizer is built, `solve` is called on it, perhaps several times, perhaps with new
parameters; the theorems speak about what these calls return and leave behind.
-/

set_option linter.unusedSectionVars false

namespace Verif.GA.Props
open Verif.GA

section
variable {G X K D : Type*} [LinearOrder K]

/-- C01 about the object: an optimizer exists only for a requested size `≥ 1` and works with
the least multiple of four not below it; for sizes `≤ 0` the constructor fails with an
assertion, whatever the other arguments are. -/
theorem C01_constructed (S : Subclass G X K D) (n : ℤ) (p : Params K) (d : D) :
    (∀ o, construct S n p d = .ok o → 1 ≤ n ∧
      IsLeast {m : ℤ | 4 ∣ m ∧ n ≤ m} o.solver.nPop) ∧
    (n ≤ 0 → construct S n p d = .error .assertion) := by
  constructor
  · intro o h
    unfold construct at h
    split at h
    · cases h
    · rename_i m hm
      rw [setSolutionParams_all] at h
      have := normPop_ok hm
      cases hv : validate m p with
      | error e => simp only [hv] at h; cases h
      | ok u =>
        simp only [hv] at h
        split at h
        · cases h
        · cases h; exact this
  · intro h
    unfold construct
    rw [(C01_population_size n).2 h]

/-- C94, the constructor: with a requested size `n ≥ 1`, `m` the multiple of four used
instead, it succeeds exactly if the parameters are valid for `m` and the initial population
can be produced; invalid parameters raise `ValueError`, and otherwise the exception of
`populate()` comes through. The object has the parameters given, the comparison matching its
direction, the initial population and no champion; nothing has been evaluated. -/
theorem C94_construct (S : Subclass G X K D) (n m : ℤ) (hn : 1 ≤ n)
    (hm : IsLeast {m : ℤ | 4 ∣ m ∧ n ≤ m} m) (p : Params K) (d : D) :
    (¬ ValidParams m p → construct S n p d = .error .value) ∧
    (ValidParams m p →
      (∀ e, S.populate m p d = .error e → construct S n p d = .error e) ∧
      (∀ gs, S.populate m p d = .ok gs → ∃ o, construct S n p d = .ok o ∧
        o.solver.nPop = m ∧ o.solver.params = p ∧ o.solver.celebrateLt = p.minimize ∧
        o.run.genotypes = gs ∧ o.run.phenotypes = none ∧ o.run.fitness = none ∧
        o.run.champion = none ∧ o.run.state.n_iter = 0 ∧ o.run.state.n_fev = 0)) := by
  obtain ⟨m', e, hm'⟩ := (C01_population_size n).1 hn
  obtain rfl : m' = m := hm'.unique hm
  constructor
  · intro hv
    rcases validate_iff m' p with ⟨-, h2⟩ | ⟨h1, -⟩
    · exact absurd h2 hv
    · simp only [construct, e, setSolutionParams_all, h1]
  · intro hv
    rcases validate_iff m' p with ⟨h1, -⟩ | ⟨-, h2⟩
    · refine ⟨fun e' he => ?_, fun gs hg => ?_⟩
      · simp only [construct, e, setSolutionParams_all, h1, reset, he]
      · exact ⟨⟨⟨m', p, p.minimize⟩, (reset (.ok gs) ⟨[], none, none, none, {}, .initialized, .primed⟩).2⟩,
          by simp only [construct, e, setSolutionParams_all, h1, reset, hg],
          rfl, rfl, rfl, rfl, rfl, rfl, rfl, rfl, rfl⟩
    · exact absurd hv h2

/-- The parameters in force after a call with these keywords. -/
def InForce (old new : Params K) (kw : Kwargs K) : Prop :=
  Updated old.p_c new.p_c kw.p_c ∧ Updated old.p_m new.p_m kw.p_m ∧
  Updated old.maxiter new.maxiter kw.maxiter ∧ Updated old.miniter new.miniter kw.miniter ∧
  Updated old.elitism new.elitism kw.elitism ∧ Updated old.maxage new.maxage kw.maxage ∧
  Updated old.minimize new.minimize kw.minimize

theorem inForce_assign (p : Params K) (kw : Kwargs K) : InForce p (assign p kw) kw :=
  ⟨updated_getD _ _, updated_getD _ _, updated_getD _ _, updated_getD _ _, updated_getD _ _,
    updated_getD _ _, updated_getD _ _⟩

theorem updated_unique {α : Type*} {a b c : α} {o : Option α} (h : Updated a b o)
    (h' : Updated a c o) : b = c := by
  cases o with
  | none => rw [h.2 rfl, h'.2 rfl]
  | some v => rw [h.1 v rfl, h'.1 v rfl]

theorem inForce_unique {p q r : Params K} {kw : Kwargs K} (h : InForce p q kw) (h' : InForce p r kw) :
    q = r := by
  obtain ⟨a1, a2, a3, a4, a5, a6, a7⟩ := h
  obtain ⟨b1, b2, b3, b4, b5, b6, b7⟩ := h'
  cases q; cases r
  simp only [Params.mk.injEq]
  exact ⟨updated_unique a1 b1, updated_unique a2 b2, updated_unique a3 b3, updated_unique a4 b4,
    updated_unique a5 b5, updated_unique a6 b6, updated_unique a7 b7⟩

/-- C94, termination: a fresh `solve` ends for all draws, objectives and subclasses, after at
most `max(1, maxiter)` passes. -/
theorem C94_terminates (S : Subclass G X K D) (fnc : X → Py K) (kw : Kwargs K) (q : Params K)
    (o : Optimizer G X K) (hq : InForce o.solver.params q kw) (d : D) (ds : ℕ → D) (fuel : ℕ)
    (hf : max 1 q.maxiter ≤ (fuel : ℤ)) :
    ∃ r, o.solve S fnc false kw d ds fuel = some r := by
  obtain rfl := inForce_unique hq (inForce_assign _ _)
  unfold Optimizer.solve
  simp only [Bool.false_eq_true, if_false]
  cases hp : S.populate o.solver.nPop o.solver.params d with
  | error e => simp [reset]
  | ok gs =>
    simp only [reset]
    rcases setSolutionParams_cases o.solver kw with ⟨h1, h2⟩ | ⟨h1, h2⟩
    · rw [h2]
      simp only
      obtain ⟨r, s', hr⟩ := C07_terminates
        (problemOf S fnc ⟨o.solver.nPop, assign o.solver.params kw,
          (assign o.solver.params kw).minimize⟩)
        (assign o.solver.params kw).maxiter (assign o.solver.params kw).miniter h1.2
        (fun i => S.breed o.solver.nPop (assign o.solver.params kw) (ds i))
        (stoppingCriteria (assign o.solver.params kw).maxage)
        { setGenotypes o.run gs with
                champion := none, state := {}, status := .initialized, phase := .primed } fuel
        (by simpa using hf)
      rw [hr]
      cases r <;> exact ⟨_, rfl⟩
    · rw [h2]; exact ⟨_, rfl⟩

/-- C94, the result: a fresh `solve` that returns, returns a genom `c` after `k` generations
with `max(1, miniter) ≤ k ≤ max(1, maxiter)`. The generations `P 0, ..., P (k-1)` are: the
population drawn with the parameters before the call, then each one bred from the one before
it and its objective values with the parameters in force. `c` is a member of one of them with
its phenotype and its objective value, and no member of any of them is strictly better in the
direction in force. The champion, `state.x` and `state.fun` are those of `c`. If decoding
gives `N` phenotypes, the objective has been evaluated `N * k` times. -/
theorem C94_result (S : Subclass G X K D) (fnc : X → Py K) (kw : Kwargs K) (q : Params K)
    (o o' : Optimizer G X K) (hq : InForce o.solver.params q kw) (d : D) (ds : ℕ → D) (fuel : ℕ)
    (r : Option (Genom G X K))
    (h : o.solve S fnc false kw d ds fuel = some (.ok r, o')) :
    ∃ (c : Genom G X K) (k : ℕ) (P : ℕ → List G) (XS : ℕ → List X) (YS : ℕ → List K),
      r = some c ∧ max 1 q.miniter ≤ (k : ℤ) ∧ (k : ℤ) ≤ max 1 q.maxiter ∧
      S.populate o.solver.nPop o.solver.params d = .ok (P 0) ∧
      (∀ j < k, S.decode o.solver.nPop (P j) = .ok (XS j) ∧
        List.Forall₂ (fun x y => fnc x = .ok y) (XS j) (YS j)) ∧
      (∀ j, j + 1 < k → S.breed o.solver.nPop q (ds (j + 1)) (P j) (YS j) = .ok (P (j + 1))) ∧
      (∃ j < k, ∃ i : ℕ, (P j)[i]? = some c.genotype ∧ (XS j)[i]? = some c.phenotype ∧
        fnc c.phenotype = .ok c.fitness) ∧
      (∀ j < k, ∀ y ∈ YS j, ¬ Beats q.minimize y c.fitness) ∧
      o'.solver.nPop = o.solver.nPop ∧ o'.solver.params = q ∧ ValidParams o.solver.nPop q ∧
      o'.run.champion = some c ∧ o'.run.state.x = some c.phenotype ∧
      o'.run.state.fn = some c.fitness ∧ o'.run.state.n_iter = k ∧ o'.run.genotypes = P (k - 1) ∧
      o'.run.state.success = true ∧
      (∀ N, (∀ gs xs, S.decode o.solver.nPop gs = .ok xs → xs.length = N) →
        o'.run.state.n_fev = N * k) ∧
      o'.run.state.stage = some (if q.maxiter ≤ (k : ℤ) then .maxIterationsReached else .converged) := by
  obtain rfl := inForce_unique hq (inForce_assign _ _)
  unfold Optimizer.solve at h
  simp only [Bool.false_eq_true, if_false] at h
  cases hp : S.populate o.solver.nPop o.solver.params d with
  | error e => simp [hp, reset] at h
  | ok gs =>
    simp only [hp, reset] at h
    rcases setSolutionParams_cases o.solver kw with ⟨h1, h2⟩ | ⟨h1, h2⟩
    swap
    · rw [h2] at h; simp at h
    rw [h2] at h
    simp only at h
    split at h
    · cases h
    · cases h
    rename_i run hb
    simp only [Option.some.injEq, Prod.mk.injEq, Except.ok.injEq] at h
    obtain ⟨h3, h4⟩ := h
    set pb := problemOf S fnc ⟨o.solver.nPop, assign o.solver.params kw,
          (assign o.solver.params kw).minimize⟩ with hpb
    obtain ⟨k, st, hk, hst0, hit, hno, hend, hn, hch, hgen, hnf, hstage⟩ :=
      C07_stops_first _ _ _ _ _ _ _ _ hb
    have I0 : TraceInv pb st 0 := by
      refine ⟨?_, fun _ => ?_, by omega⟩
      · rw [hst0]; simp [Consistent, setGenotypes]
      · rw [hst0]; exact ⟨rfl, rfl, rfl, rfl⟩
    have I := traceInv I0 hit
    obtain ⟨p1, p2⟩ := trace_populations I0 hit
    obtain ⟨-, hfitk, c, hc, hx, hfn, ⟨i0, hi1, hi2, mem⟩, hall⟩ := (I k le_rfl).run hk
    -- the decoded populations and their values
    have hdec : ∀ j, ∃ xs ys, (1 ≤ j ∧ j ≤ k) → pb.decode (st j).genotypes = .ok xs ∧
        pyMap pb.fnc xs = .ok ys := by
      intro j
      by_cases hj : 1 ≤ j ∧ j ≤ k
      · have Ij := I j hj.2
        obtain ⟨-, hf, -⟩ := Ij.run hj.1
        obtain ⟨ys, hys⟩ := Option.ne_none_iff_exists'.mp hf
        obtain ⟨xs, hxs, hm⟩ := Ij.cons.2 ys hys
        exact ⟨xs, ys, fun _ => ⟨Ij.cons.1 xs hxs, hm⟩⟩
      · exact ⟨[], [], fun h => absurd h hj⟩
    choose XS YS hXY using hdec
    have lim := C07_iteration_limits _ _ _ h1.2 _ _ _ _ rfl _ hb
    have hn' : run.state.n_iter = k := by rw [hn]; simp
    rw [hn'] at lim
    have hrec := C12_honest_record _ _ _ _ _ _ _ _ _ hb
    obtain ⟨c', hc', hx', hfn'⟩ := solveBody_mirror hb
    have hcc : c' = c := by rw [hch, hc] at hc'; cases hc'; rfl
    rw [hcc] at hx' hfn'
    refine ⟨c, k, fun j => (st (j + 1)).genotypes, fun j => XS (j + 1), fun j => YS (j + 1), ?_,
      lim.1, lim.2, ?_, ?_, ?_, ?_, ?_, ?_⟩
    · rw [← h3, hch, hc]
    · simp only [Nat.zero_add]; rw [p1 (by omega), hst0]; rfl
    · intro j hj
      obtain ⟨a, b⟩ := hXY (j + 1) ⟨by omega, by omega⟩
      exact ⟨a, pyMap_eq_ok_iff.mp b⟩
    · intro j hj
      obtain ⟨xs, ys, a, b, e⟩ := p2 (j + 1) (by omega) hj
      obtain ⟨a', b'⟩ := hXY (j + 1) ⟨by omega, by omega⟩
      rw [a] at a'; cases a'
      rw [b] at b'
      simp only [Except.ok.injEq] at b'
      show S.breed _ _ _ _ (YS (j + 1)) = _
      rw [← b']
      exact e
    · obtain ⟨a, xs, a1, a2, a3, a4⟩ := mem
      obtain ⟨i, rfl⟩ : ∃ i, i0 = i + 1 := ⟨i0 - 1, by omega⟩
      refine ⟨i, by omega, a, a2, ?_, a4⟩
      have := (hXY (i + 1) ⟨by omega, by omega⟩).1
      rw [a1] at this; cases this
      exact a3
    · intro j hj y hy
      obtain ⟨a', b'⟩ := hXY (j + 1) ⟨by omega, by omega⟩
      have hb' := pyMap_eq_ok_iff.mp b'
      obtain ⟨i, hi⟩ := List.mem_iff_getElem?.mp hy
      have hil : i < (YS (j + 1)).length := (List.getElem?_eq_some_iff.mp hi).1
      have hl := hb'.length_eq
      have hxi : (XS (j + 1))[i]? = some (XS (j + 1))[i] := List.getElem?_eq_getElem (by omega)
      have := hall (j + 1) (by omega) (by omega) _ a' _ (List.mem_of_getElem? hxi) y
        (forall₂_getElem? hb' i _ _ hxi hi)
      rw [beats_iff]
      intro hcon
      have : betterThan (assign o.solver.params kw).minimize y c.fitness = false := this
      rw [this] at hcon; cases hcon
    · rw [← h4]
      refine ⟨rfl, rfl, h1, by rw [hch, hc], ?_, ?_, hn', ?_, (hrec.2 rfl).1, ?_, ?_⟩
      · exact hx'
      · exact hfn'
      · simp only []
        rw [hgen, Nat.sub_add_cancel hk]
      · intro N hN
        rw [hnf]
        exact trace_nfev (pb := pb) hN I0 hit k le_rfl
      · rw [hstage, hn']

/-- C94, recycling: a recycled `solve` that returns goes on counting from the count `n₀` it
finds, makes at least one iteration, ends with a count of at least `miniter` and at most
`max(n₀ + 1, maxiter)`, and returns a genom that is not worse, in the direction in force, than
the champion it started with. -/
theorem C94_recycled (S : Subclass G X K D) (fnc : X → Py K) (kw : Kwargs K) (q : Params K)
    (o o' : Optimizer G X K) (hq : InForce o.solver.params q kw) (d : D) (ds : ℕ → D) (fuel : ℕ)
    (r : Option (Genom G X K)) (h : o.solve S fnc true kw d ds fuel = some (.ok r, o')) :
    (∀ c₀, o.run.champion = some c₀ → ∃ c, r = some c ∧ ¬ Beats q.minimize c₀.fitness c.fitness) ∧
    o'.run.champion = r ∧
    o.run.state.n_iter + 1 ≤ o'.run.state.n_iter ∧ q.miniter ≤ (o'.run.state.n_iter : ℤ) ∧
    (o'.run.state.n_iter : ℤ) ≤ max ((o.run.state.n_iter : ℤ) + 1) q.maxiter := by
  obtain rfl := inForce_unique hq (inForce_assign _ _)
  unfold Optimizer.solve at h
  simp only [if_true] at h
  rcases setSolutionParams_cases o.solver kw with ⟨h1, h2⟩ | ⟨h1, h2⟩
  swap
  · rw [h2] at h; simp at h
  rw [h2] at h
  simp only at h
  split at h
  · cases h
  · cases h
  rename_i run hb
  simp only [Option.some.injEq, Prod.mk.injEq, Except.ok.injEq] at h
  obtain ⟨rfl, rfl⟩ := h
  obtain ⟨k, st, hk, hst0, hit, hno, hend, hn, hch, -⟩ := C07_stops_first _ _ _ _ _ _ _ _ hb
  have count : ∀ j, j ≤ k → (st j).state.n_iter = o.run.state.n_iter + j := by
    intro j
    induction j with
    | zero => intro _; rw [hst0]; rfl
    | succ j ih =>
      intro hj
      obtain ⟨u, e1, e2⟩ := hit j (by omega)
      rw [e2]
      simp only [evolve1_niter e1, ih (by omega)]
      omega
  refine ⟨?_, rfl, ?_, ?_, ?_⟩
  · intro c₀ hc₀
    have key : ∀ j ≤ k, ∃ c, (st j).champion = some c ∧
        betterThan (assign o.solver.params kw).minimize c₀.fitness c.fitness = false := by
      intro j
      induction j with
      | zero => intro _; exact ⟨c₀, by rw [hst0]; exact hc₀, betterThan_irrefl _ _⟩
      | succ j ih =>
        intro hj
        obtain ⟨c, e3, e4⟩ := ih (by omega)
        obtain ⟨u, e1, e2⟩ := hit j (by omega)
        obtain ⟨c', e5, e6⟩ := evolve1_champion e1 c e3
        exact ⟨c', by rw [e2]; exact e5, not_betterThan_trans e4 e6⟩
    obtain ⟨c, e1, e2⟩ := key k le_rfl
    refine ⟨c, by rw [hch, e1], ?_⟩
    rw [beats_iff, e2]; simp
  · simp only; omega
  · simp only
    have := hend.2
    rw [count k le_rfl] at this
    rw [hn]; exact this
  · simp only
    rw [hn]
    by_cases hk1 : k = 1
    · subst hk1; exact le_max_of_le_left (by push_cast; omega)
    · apply le_max_of_le_right
      have := hno (k - 1) (by omega) (by omega)
      by_contra hlt
      apply this
      unfold MayEnd
      rw [count (k - 1) (by omega)]
      have hmm := h1.2
      constructor
      · right; push_cast at hlt ⊢; omega
      · push_cast at hlt ⊢; omega

/-- C94, nothing is left over: what a fresh `solve` returns and leaves behind depends on the
settings of the optimizer and on the draws, not on what has been done with it before – the
population, the cached values, the champion, the counters, a failed run. (If `populate()`
raises, the exception is the same.) -/
theorem C94_fresh (S : Subclass G X K D) (fnc : X → Py K) (kw : Kwargs K)
    (o₁ o₂ : Optimizer G X K) (h : o₁.solver = o₂.solver) (d : D) (ds : ℕ → D) (fuel : ℕ) :
    (∀ gs, S.populate o₁.solver.nPop o₁.solver.params d = .ok gs →
      o₁.solve S fnc false kw d ds fuel = o₂.solve S fnc false kw d ds fuel) ∧
    (∀ e, S.populate o₁.solver.nPop o₁.solver.params d = .error e →
      (o₁.solve S fnc false kw d ds fuel).map Prod.fst = some (.error e) ∧
      (o₂.solve S fnc false kw d ds fuel).map Prod.fst = some (.error e)) := by
  obtain ⟨sv, r₁⟩ := o₁
  obtain ⟨sv', r₂⟩ := o₂
  simp only at h
  subst h
  constructor
  · intro gs hg
    simp only [Optimizer.solve, Bool.false_eq_true, if_false, hg, reset, setGenotypes]
  · intro e he
    simp only [Optimizer.solve, Bool.false_eq_true, if_false, he, reset, Option.map_some, and_self]

/-- C94, rejected parameters, the part that holds: if the parameters resulting from the call
are invalid, `solve` raises `ValueError`, and a recycled call leaves the data of the run as
they were. Missing: that a rejected call has no effect at all
(`C94_rejected_forgets_violated`, `C94_rejected_sticks_violated`). -/
theorem C94_rejected_partial (S : Subclass G X K D) (fnc : X → Py K) (recycle : Bool)
    (kw : Kwargs K) (q : Params K) (o : Optimizer G X K) (hq : InForce o.solver.params q kw)
    (hbad : ¬ ValidParams o.solver.nPop q) (d : D) (ds : ℕ → D) (fuel : ℕ)
    (hpop : ∃ gs, S.populate o.solver.nPop o.solver.params d = .ok gs) :
    ∃ o', o.solve S fnc recycle kw d ds fuel = some (.error .value, o') ∧
      o'.solver.params = q ∧ (recycle = true → o'.run = o.run) := by
  obtain rfl := inForce_unique hq (inForce_assign _ _)
  obtain ⟨gs, hg⟩ := hpop
  rcases setSolutionParams_cases o.solver kw with ⟨h1, h2⟩ | ⟨h1, h2⟩
  · exact absurd h1 hbad
  · cases recycle with
    | true =>
      refine ⟨⟨⟨o.solver.nPop, assign o.solver.params kw, o.solver.celebrateLt⟩, o.run⟩, ?_, rfl,
        fun _ => rfl⟩
      simp only [Optimizer.solve, if_true, h2]
    | false =>
      refine ⟨⟨⟨o.solver.nPop, assign o.solver.params kw, o.solver.celebrateLt⟩,
        (reset (.ok gs) o.run).2⟩, ?_, rfl, by simp⟩
      simp only [Optimizer.solve, Bool.false_eq_true, if_false, hg, reset, h2]

/-- C94, a rejected call sticks: after it every further `solve` that does not correct the
parameters raises `ValueError` too, although its own arguments are fine. -/
theorem C94_rejected_sticks_violated (S : Subclass G X K D) (fnc : X → Py K)
    (kw : Kwargs K) (q : Params K) (o o' : Optimizer G X K) (hq : InForce o.solver.params q kw)
    (hbad : ¬ ValidParams o.solver.nPop q) (d : D) (ds : ℕ → D) (fuel : ℕ)
    (hcall : o.solve S fnc true kw d ds fuel = some (.error .value, o')) :
    ∃ o'', o'.solve S fnc true {} d ds fuel = some (.error .value, o'') := by
  obtain rfl := inForce_unique hq (inForce_assign _ _)
  rcases setSolutionParams_cases o.solver kw with ⟨h1, h2⟩ | ⟨h1, h2⟩
  · exact absurd h1 hbad
  · simp only [Optimizer.solve, if_true, h2, Option.some.injEq, Prod.mk.injEq, true_and] at hcall
    subst hcall
    have ha : assign (assign o.solver.params kw) ({} : Kwargs K) = assign o.solver.params kw := rfl
    rcases setSolutionParams_cases (⟨o.solver.nPop, assign o.solver.params kw,
      o.solver.celebrateLt⟩ : Solver K) {} with ⟨g1, g2⟩ | ⟨g1, g2⟩
    · rw [ha] at g1; exact absurd g1 hbad
    · simp only [Optimizer.solve, if_true, g2]
      exact ⟨_, rfl⟩

end

/-! ### A small subclass for the examples -/

section Demo

/-- genotypes are integers and their own phenotypes; four members; breeding adds one -/
def demoSub : Subclass ℤ ℤ ℤ Unit where
  populate n _ _ := .ok ((List.range n.toNat).map (fun i => (i : ℤ)))
  decode _ gs := .ok gs
  breed _ _ _ gs _ := .ok (gs.map (· + 1))

def demoFnc (x : ℤ) : Py ℤ := .ok ((x - 5) * (x - 5))

def demoParams : Params ℤ := ⟨1, 0, 20, 2, .int 1, 2, true⟩

/-- built with three members requested: four are used -/
example : (construct demoSub 3 demoParams ()).toOption.map
    (fun o => (o.solver.nPop, o.run.genotypes)) = some (4, [0, 1, 2, 3]) := by decide

/-- ... and rejected with an elite of all four -/
example : (match construct demoSub 3 { demoParams with elitism := .int 4 } () with
    | .error e => some e | .ok _ => none) = some .value := by decide

/-- `solve()` on it finds 5 in the third generation and stops when that is three cycles old -/
example : (match construct demoSub 3 demoParams () with
    | .error _ => none
    | .ok o => (o.solve demoSub demoFnc false {} () (fun _ => ()) 20).map fun r =>
        (r.1.toOption.map (·.map (·.phenotype)), r.2.run.state.n_iter)) =
    some (some (some 5), 5) := by decide

/-- ... and a recycled call goes on from there: one more iteration, the same champion -/
example : (match construct demoSub 3 demoParams () with
    | .error _ => none
    | .ok o => (o.solve demoSub demoFnc false {} () (fun _ => ()) 20).bind fun r =>
        (r.2.solve demoSub demoFnc true {} () (fun _ => ()) 20).map fun r' =>
          (r'.1.toOption.map (·.map (·.phenotype)), r'.2.run.state.n_iter)) =
    some (some (some 5), 6) := by decide

/-- C94: the optimizer after a successful run, and what a rejected call makes of it. -/
theorem C94_rejected_forgets_violated :
    ∃ (o o' : Optimizer ℤ ℤ ℤ) (c : Genom ℤ ℤ ℤ), o.run.champion = some c ∧
      o.solve demoSub demoFnc false { elitism := some (.int 4) } () (fun _ => ()) 20 =
        some (.error .value, o') ∧ o'.run.champion = none ∧ o'.run.state.fn = none := by
  refine ⟨⟨⟨4, demoParams, true⟩, ⟨[5, 6], none, none, some ⟨5, 5, 0, 1, 0⟩,
    { x := some 5, fn := some 0, n_iter := 5 }, .converged, .running⟩⟩,
    ⟨⟨4, { demoParams with elitism := .int 4 }, true⟩, ⟨[0, 1, 2, 3], none, none, none, {}, .initialized,
      .primed⟩⟩, ⟨5, 5, 0, 1, 0⟩, rfl, rfl, rfl, rfl⟩

/-- C94: after a rejected `set_solution_params(minimize=False, elitism=0)` the optimizer looks
for the largest value in each population but crowns a candidate only if it is *smaller* than
the champion: here the value 4 of the present population is found to be its best, and the
champion (value 1) is dethroned neither by 4, though 4 > 1 was asked for, nor by 0. -/
theorem C94_direction_violated :
    ∃ (o o' : Optimizer ℤ ℤ ℤ) (c : Genom ℤ ℤ ℤ),
      (setSolutionParams o.solver { minimize := some false, elitism := some (.int 0) }).1 =
        .error .value ∧
      o.run.champion = some c ∧
      Optimizer.evolve demoSub demoFnc ()
        ⟨(setSolutionParams o.solver { minimize := some false, elitism := some (.int 0) }).2, o.run⟩ =
        (.ok (), o') ∧
      o'.solver.params.minimize = false ∧ o'.run.fitness = some [4, 0] ∧
      o'.run.champion = some { c with age := c.age + 1 } ∧ c.fitness = 1 := by
  refine ⟨⟨⟨4, demoParams, true⟩, ⟨[2, 4], none, none, some ⟨4, 4, 1, 1, 0⟩,
    { x := some 4, fn := some 1, n_iter := 1 }, .initialized, .running⟩⟩,
    ⟨⟨4, { demoParams with elitism := .int 0, minimize := false }, true⟩,
      ⟨[3, 5], some [3, 5], some [4, 0], some ⟨4, 4, 1, 2, 0⟩,
        { x := some 4, fn := some 1, n_fev := 4, n_iter := 1 }, .initialized, .running⟩⟩, ⟨4, 4, 1, 1, 0⟩,
    rfl, rfl, rfl, rfl, rfl, rfl, rfl⟩

end Demo

end Verif.GA.Props

namespace Verif.BGA.Props
open Verif Verif.GA Verif.GA.Props Verif.BGA

section
variable {K : Type} [Field K] [LinearOrder K]

/-- What the random generator guarantees for the draws of a call: arrays of bits of the
requested shape, and the contracts of the draws of a cycle. -/
def IsDraws (n : ℕ) (d : Draws K) : Prop :=
  IsCycleDraws n d.cycle ∧ ∀ rows cols, (d.pool rows cols).length = rows ∧
    ∀ g ∈ d.pool rows cols, g.length = cols ∧ ∀ b ∈ g, b = 0 ∨ b = 1

/-- The elitism settings with which the binary GA can breed (see C14): a number `k` of
members below the population size that is even or at most half of it, given directly or as a
fraction. -/
def GoodElitism (m : ℤ) (el : Elitism) : Prop :=
  (∃ k, el = .int k ∧ 1 ≤ k ∧ k < m ∧ (2 * k ≤ m ∨ Even k)) ∨
  (∃ q, el = .float q ∧ 0 < q ∧ q < 1 ∧ (2 * ⌊(m : ℚ) * q⌋ ≤ m ∨ Even ⌊(m : ℚ) * q⌋))

theorem workable_of_good {m : ℤ} (hm : 0 ≤ m) (h4 : 4 ∣ m) {el : Elitism} (h : GoodElitism m el) :
    Workable m.toNat el := by
  have hmm : ((m.toNat : ℕ) : ℤ) = m := Int.toNat_of_nonneg hm
  rcases h with ⟨k, rfl, h1, h2, h3⟩ | ⟨q, rfl, h1, h2, h3⟩
  · refine ⟨by simp, ?_, by simp, ?_⟩
    · intro k' hk'; cases hk'; omega
    · simp only [eliteCount]
      rcases h3 with h3 | ⟨r, hr⟩
      · left; omega
      · right; exact ⟨r.toNat, by omega⟩
  · have hq : ((m.toNat : ℕ) : ℚ) = (m : ℚ) := by exact_mod_cast hmm
    refine ⟨by simp, by simp, ?_, ?_⟩
    · intro q' hq'; cases hq'; exact ⟨h1, h2⟩
    · simp only [eliteCount, hq]
      have : 0 ≤ ⌊(m : ℚ) * q⌋ := Int.floor_nonneg.mpr
        (mul_nonneg (by exact_mod_cast hm) h1.le)
      rcases h3 with h3 | ⟨r, hr⟩
      · left; omega
      · right; exact ⟨r.toNat, by omega⟩

theorem validElitism_of_good {m : ℤ} {el : Elitism} (h : GoodElitism m el) : ValidElitism m el := by
  rcases h with ⟨k, rfl, h1, h2, -⟩ | ⟨q, rfl, h1, h2, -⟩
  · exact ⟨h1, fun _ => h2⟩
  · exact ⟨h1, h2.le⟩

variable [IsStrictOrderedRing K]

/-- C94, the binary GA from construction to result: a population of at least five requested,
at least three bits in all, bounds in order, a good elitism, `miniter ≤ maxiter`, an
objective defined everywhere. Then for all draws the constructor and a `solve()` succeed, and
the genom returned is a string of `dim * length` bits whose phenotype lies in the box and
has the fitness reported; the objective has been evaluated `nPop` times per iteration. -/
theorem C94_bga (argsort : List K → List ℕ) (ha : IsArgsort argsort) (dim L : ℕ)
    (ranges : List (K × K)) (hr : ranges.length = dim) (hle : ∀ r ∈ ranges, r.1 ≤ r.2)
    (hbits : 3 ≤ dim * L) (n m : ℤ) (hn : 5 ≤ n) (hm : IsLeast {m : ℤ | 4 ∣ m ∧ n ≤ m} m)
    (p : Params K) (hel : GoodElitism m p.elitism) (hmm : p.miniter ≤ p.maxiter)
    (fnc : List K → Py K) (hfnc : ∀ x, ∃ y, fnc x = .ok y)
    (d₀ d : Draws K) (ds : ℕ → Draws K) (hd₀ : IsDraws (dim * L) d₀) (hd : IsDraws (dim * L) d)
    (hds : ∀ i, IsDraws (dim * L) (ds i)) (fuel : ℕ) (hf : max 1 p.maxiter ≤ (fuel : ℤ)) :
    ∃ o o' c, construct (subclass argsort dim L ranges) n p d₀ = .ok o ∧ o.solver.nPop = m ∧
      o.solve (subclass argsort dim L ranges) fnc false {} d ds fuel = some (.ok (some c), o') ∧
      c.genotype.length = dim * L ∧ (∀ b ∈ c.genotype, b = 0 ∨ b = 1) ∧
      c.phenotype.length = dim ∧
      (∀ (i : ℕ) (r : K × K), ranges[i]? = some r →
        ∃ x, c.phenotype[i]? = some x ∧ r.1 ≤ x ∧ x ≤ r.2) ∧
      fnc c.phenotype = .ok c.fitness ∧
      (o'.run.state.n_fev : ℤ) = m * o'.run.state.n_iter := by
  have hL : 1 ≤ L := by
    rcases Nat.eq_zero_or_pos L with h | h
    · subst h; simp at hbits
    · exact h
  have h4 : 4 ∣ m := hm.1.1
  have hnm : n ≤ m := hm.1.2
  have hm8 : 8 ≤ m := by omega
  set M := m.toNat with hM
  have hMm : (M : ℤ) = m := Int.toNat_of_nonneg (by omega)
  set cfg := configOf dim L ranges m p with hcfg
  have hN4 : 4 ∣ cfg.nPop := by show 4 ∣ M; omega
  have hN8 : 8 ≤ cfg.nPop := by show 8 ≤ M; omega
  have hw : Workable cfg.nPop cfg.elitism := workable_of_good (by omega) h4 hel
  have hpool : ∀ d : Draws K, IsDraws (dim * L) d →
      IsPool cfg.nPop (cfg.dim * cfg.length) (d.pool (M / 2) (dim * L)) := by
    intro d hd
    exact ⟨(hd.2 _ _).1, (hd.2 _ _).2⟩
  obtain ⟨gs₀, hg₀, -⟩ := initial_ok hd₀.1 hN4 hN8 hbits (hpool d₀ hd₀)
  obtain ⟨gs, hg, hgood⟩ := initial_ok hd.1 hN4 hN8 hbits (hpool d hd)
  obtain ⟨-, hcon⟩ := C94_construct (subclass argsort dim L ranges) n m (by omega) hm p d₀
  obtain ⟨o, ho, hon, hop, -⟩ := (hcon ⟨validElitism_of_good hel, hmm⟩).2 gs₀ hg₀
  have hpopd : (subclass argsort dim L ranges).populate o.solver.nPop o.solver.params d = .ok gs := by
    rw [hon, hop]; exact hg
  -- the run succeeds
  have hsolve : ∃ c o', o.solve (subclass argsort dim L ranges) fnc false {} d ds fuel =
      some (.ok c, o') := by
    unfold Optimizer.solve
    simp only [Bool.false_eq_true, if_false, hpopd, reset]
    rcases setSolutionParams_cases o.solver {} with ⟨h1, h2⟩ | ⟨h1, h2⟩
    · rw [h2]
      simp only
      have hpar : assign o.solver.params ({} : Kwargs K) = p := by rw [hop]; rfl
      rw [hpar, hon]
      have hstep : ∀ i a, RunInv cfg fnc a → ∃ b, evolve1 (problem cfg fnc)
          (breed cfg argsort (ds i).cycle) a = (.ok (), b) ∧ RunInv cfg fnc (bump b) := by
        intro i a hi
        obtain ⟨b, e1, e2, -⟩ := evolve1_runInv ha (hds i).1 hN4 hN8 hbits hw hfnc hi
        exact ⟨b, e1, ⟨consistent_congr rfl rfl rfl e2.cons, e2.good, e2.phase⟩⟩
      obtain ⟨s', hs'⟩ := solveBody_succeeds (maxage := p.maxage) hmm (RunInv cfg fnc) hstep
        (s := { setGenotypes o.run gs with
                champion := none, state := {}, status := .initialized, phase := .primed })
        (fuel := fuel) ⟨by simp [Consistent, setGenotypes], hgood, by simp⟩ (by simpa using hf)
      have : solveBody (problemOf (subclass argsort dim L ranges) fnc ⟨m, p, p.minimize⟩) p.maxiter p.miniter
          (fun i => (subclass argsort dim L ranges).breed m p (ds i)) (stoppingCriteria p.maxage) fuel
          { setGenotypes o.run gs with
                champion := none, state := {}, status := .initialized, phase := .primed } =
          some (.ok (), s') := hs'
      rw [this]
      exact ⟨_, _, rfl⟩
    · exfalso
      apply h1
      rw [hon]
      have : assign o.solver.params ({} : Kwargs K) = p := by rw [hop]; rfl
      rw [this]
      exact ⟨validElitism_of_good hel, hmm⟩
  obtain ⟨r, o', hs⟩ := hsolve
  have hforce : InForce o.solver.params p ({} : Kwargs K) := by
    rw [hop]; exact inForce_assign p {}
  obtain ⟨c, k, P, XS, YS, rfl, -, -, hP0, hPX, hbreed, ⟨j, hj, i, hi1, hi2, hi3⟩, -, -, -, -, -, -, -,
    hnit, -, -, hev, -⟩ := C94_result _ fnc {} p o o' hforce d ds fuel r hs
  -- all generations are good
  have hgoodP : ∀ j < k, Good cfg (P j) := by
    intro j
    induction j with
    | zero =>
      intro _
      rw [hpopd] at hP0
      cases hP0; exact hgood
    | succ j ih =>
      intro hj'
      have g := ih (by omega)
      have hb := hbreed j hj'
      obtain ⟨hx, hy⟩ := hPX j (by omega)
      rw [hon] at hb hx
      have hx' : decode M dim L ranges (P j) = .ok (XS j) := hx
      have hrows : decode M dim L ranges (P j) = .ok ((P j).map (decodeRow dim L ranges)) :=
        decode_rows (g.1 : (P j).length = M) (fun g' hg' => (g.2 g' hg').1)
      rw [hrows] at hx'
      have hyl : (YS j).length = cfg.nPop := by
        rw [← hy.length_eq, ← Except.ok.inj hx', List.length_map]; exact g.1
      obtain ⟨rest, h1, h2⟩ := breed_ok ha (hds (j + 1)).1 hN4 hN8 hbits hw g.1 g.2 hyl
      obtain ⟨a, b⟩ := h2 _ hb
      exact ⟨a, b⟩
  have g := hgoodP j hj
  have hmemg : c.genotype ∈ P j := List.mem_of_getElem? hi1
  obtain ⟨hcl, hcb⟩ := g.2 _ hmemg
  obtain ⟨xs, hxs, hxl, hform⟩ := C09_formula M dim L ranges hr (P j) g.1 (fun g' hg' => (g.2 g' hg').1)
  have hX : xs = XS j := by
    have := (hPX j hj).1
    rw [hon] at this
    have this : decode M dim L ranges (P j) = .ok (XS j) := this
    rw [hxs] at this
    exact Except.ok.inj this
  subst hX
  have hil : i < (P j).length := (List.getElem?_eq_some_iff.mp hi1).1
  have hgi : (P j)[i] = c.genotype := (List.getElem?_eq_some_iff.mp hi1).2
  obtain ⟨x, hx1, hx2, hx3⟩ := hform i hil
  rw [hi2] at hx1
  cases hx1
  refine ⟨o, o', c, ho, hon, hs, hcl, hcb, hx2, ?_, hi3, ?_⟩
  · intro t r hr'
    have ht : t < ranges.length := (List.getElem?_eq_some_iff.mp hr').1
    have hrt : ranges[t] = r := (List.getElem?_eq_some_iff.mp hr').2
    refine ⟨_, hx3 t ht, ?_⟩
    rw [hrt, hgi]
    have hchl : (chromosome L c.genotype t).length = L := by
      simp only [chromosome, List.length_take, List.length_drop]
      have hseg : t * L + L ≤ dim * L := by
        calc t * L + L = (t + 1) * L := by ring
          _ ≤ dim * L := Nat.mul_le_mul_right _ (by omega)
      have : c.genotype.length = dim * L := hcl
      omega
    exact (C09_grid L hL r.1 r.2 (hle r (List.mem_of_getElem? hr'))).1 _ hchl
      (fun b hb => hcb b (List.mem_of_mem_drop (List.mem_of_mem_take hb)))
  · have := hev M (by
      intro gs xs h
      rw [hon] at h
      have h : decode M dim L ranges gs = .ok xs := h
      simp only [decode] at h
      split at h
      · cases h
      · rw [← Except.ok.inj h]; simp)
    rw [this, hnit]; push_cast; rw [hMm]

end

section Demo

/-- C94 applies: one variable with five bits, eight members, a fixed pool. -/
example (fuel : ℕ) (hf : 50 ≤ fuel) : ∃ o o' c,
    construct (subclass refArgsort 1 5 [((0 : ℚ), 31)]) 6 ⟨9/10, 1/100, 50, 3, .int 2, 5, true⟩
      ⟨fun rows cols => List.replicate rows (List.replicate cols 0), demoDraws⟩ = .ok o ∧
    o.solve (subclass refArgsort 1 5 [((0 : ℚ), 31)]) (fun x => .ok ((x.getD 0 0 - 3) ^ 2)) false {}
      ⟨fun rows cols => List.replicate rows (List.replicate cols 1), demoDraws⟩
      (fun _ => ⟨fun rows cols => List.replicate rows (List.replicate cols 1), demoDraws⟩) fuel =
      some (.ok (some c), o') := by
  have hrep : ∀ b : ℤ, b = 0 ∨ b = 1 → IsDraws 5
      (⟨fun rows cols => List.replicate rows (List.replicate cols b), demoDraws⟩ : Draws ℚ) := by
    intro b hb
    refine ⟨demoDraws_ok, fun rows cols => ⟨by simp, ?_⟩⟩
    intro g hg
    rw [List.eq_of_mem_replicate hg]
    exact ⟨by simp, fun c hc => by rw [List.eq_of_mem_replicate hc]; exact hb⟩
  obtain ⟨o, o', c, h1, -, h2, -⟩ := C94_bga refArgsort refArgsort_ok 1 5 [((0 : ℚ), 31)] rfl
    (by simp) (by norm_num) 6 8 (by norm_num)
    ⟨⟨by norm_num, by norm_num⟩, fun x hx => by obtain ⟨h4, h6⟩ := hx; omega⟩
    ⟨9/10, 1/100, 50, 3, .int 2, 5, true⟩ (Or.inl ⟨2, rfl, by norm_num, by norm_num, Or.inl (by norm_num)⟩)
    (by norm_num) (fun x => .ok ((x.getD 0 0 - 3) ^ 2)) (fun x => ⟨_, rfl⟩) _ _ _
    (hrep 0 (Or.inl rfl)) (hrep 1 (Or.inr rfl)) (fun _ => hrep 1 (Or.inr rfl)) fuel
    (by simpa using hf)
  exact ⟨o, o', c, h1, h2⟩

end Demo
end Verif.BGA.Props
