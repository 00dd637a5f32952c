import Verif.Proofs.GANan
import Verif.Props.BGA
import Mathlib.Data.List.Sort

/-!
# C104: objective functions that are undefined at some points

Objective values are elements of `WithTop K`, and `⊤` is `nan` (see `Model/GANan.lean`).
-/

set_option linter.unusedSectionVars false

namespace Verif.GANan.Props
open Verif Verif.GA

section
variable {G X : Type*} {K : Type} [LinearOrder K]

/-- `ys` are the objective values of the members of the population `gs`. -/
def Values (pb : Problem G X (WithTop K)) (gs : List G) (ys : List (WithTop K)) : Prop :=
  ∃ xs, pb.decode gs = .ok xs ∧ pyMap pb.fnc xs = .ok ys

/-- `a` is strictly better than `b`. -/
def Better (minimize : Bool) (a b : K) : Prop := if minimize then a < b else b < a

theorem better_iff (m : Bool) (a b : K) : Better m a b ↔ betterThan m a b = true := by
  cases m <;> simp [Better, betterThan]

/-- The state of an optimizer all of whose values are numbers. -/
def liftGenom (c : Genom G X K) : Genom G X (WithTop K) :=
  ⟨c.phenotype, c.genotype, (c.fitness : WithTop K), c.age, c.index⟩

/-- The state of an optimizer all of whose values are numbers. -/
def liftGa (s : Ga G X K) : Ga G X (WithTop K) where
  genotypes := s.genotypes
  phenotypes := s.phenotypes
  fitness := s.fitness.map (List.map WithTop.some)
  champion := s.champion.map liftGenom
  state := ⟨s.state.x, s.state.fn.map WithTop.some, s.state.n_fev, s.state.n_iter, s.state.success,
    s.state.message, s.state.stage⟩
  status := s.status
  phase := s.phase

/-- The same problem, seen as one whose objective might return `nan`. -/
def liftProblem (pb : Problem G X K) : Problem G X (WithTop K) where
  decode := pb.decode
  fnc x := (pb.fnc x).map WithTop.some
  minimize := pb.minimize

theorem pyMap_lift (f : X → Py K) (xs : List X) :
    pyMap (fun x => (f x).map (WithTop.some : K → WithTop K)) xs = (pyMap f xs).map (List.map WithTop.some) := by
  induction xs with
  | nil => rfl
  | cons x xs ih =>
    simp only [pyMap, bind, Except.bind, pure, Except.pure, ih]
    cases f x with
    | error e => rfl
    | ok y => cases pyMap f xs <;> rfl

theorem getPhenotypes_lift (pb : Problem G X K) (s : Ga G X K) :
    getPhenotypes (liftProblem pb) (liftGa s) =
      ((getPhenotypes pb s).1, liftGa (getPhenotypes pb s).2) := by
  obtain ⟨gs, ph, fi, ch, st, sta, pha⟩ := s
  cases ph with
  | some xs => rfl
  | none =>
    simp only [getPhenotypes, liftGa, liftProblem]
    cases pb.decode gs <;> rfl

theorem getFitness_lift (pb : Problem G X K) (s : Ga G X K) :
    getFitness (liftProblem pb) (liftGa s) =
      ((getFitness pb s).1.map (List.map WithTop.some), liftGa (getFitness pb s).2) := by
  cases hf : s.fitness with
  | some ys => simp [getFitness, liftGa, hf, Except.map]
  | none =>
    have h1 : (liftGa s).fitness = none := by simp [liftGa, hf]
    unfold getFitness
    simp only [hf, h1, getPhenotypes_lift]
    cases hp : getPhenotypes pb s with
    | mk r t =>
      cases r with
      | error e => rfl
      | ok xs =>
        simp only [evaluate]
        rw [show (liftProblem pb).fnc = fun x => (pb.fnc x).map (WithTop.some : K → WithTop K) from rfl,
          pyMap_lift]
        cases pyMap pb.fnc xs <;> rfl

theorem bestCandidate_lift (pb : Problem G X K) (s : Ga G X K) :
    bestCandidate (liftProblem pb) (liftGa s) =
      ((GA.bestCandidate pb s).1.map liftGenom, liftGa (GA.bestCandidate pb s).2) := by
  unfold bestCandidate GA.bestCandidate
  rw [getFitness_lift]
  cases hf : getFitness pb s with
  | mk r t =>
    cases r with
    | error e => rfl
    | ok ys =>
      simp only [Except.map, show (liftProblem pb).minimize = pb.minimize from rfl, argBest_coe]
      cases hi : GA.argBest (betterThan pb.minimize) ys with
      | error e => rfl
      | ok i =>
        simp only [getPhenotypes_lift]
        cases hp : getPhenotypes pb t with
        | mk r u =>
          cases r with
          | error e => rfl
          | ok xs =>
            simp only [pyGet, List.getElem?_map, show (liftGa u).genotypes = u.genotypes from rfl]
            cases xs[i]? <;> cases u.genotypes[i]? <;> cases ys[i]? <;> rfl

theorem celebrate_lift (m : Bool) (s : Ga G X K) (c : Genom G X K) :
    celebrate m (liftGa s) (liftGenom c) = liftGa (GA.celebrate m s c) := by
  obtain ⟨gs, ph, fi, ch, st, sta, pha⟩ := s
  cases ch with
  | none => rfl
  | some d =>
    unfold celebrate GA.celebrate
    simp only [liftGa, Option.map_some]
    have : replaces m (liftGenom c).fitness (liftGenom d).fitness = betterThan m c.fitness d.fitness :=
      replaces_coe m _ _
    rw [this]
    cases betterThan m c.fitness d.fitness <;> rfl

theorem nextEvolver_lift (pb : Problem G X K) (breed : List G → List K → Py (List G))
    (breed' : List G → List (WithTop K) → Py (List G))
    (hb : ∀ gs ys, breed' gs (ys.map WithTop.some) = breed gs ys) (s : Ga G X K) :
    nextEvolver (liftProblem pb) breed' (liftGa s) =
      ((nextEvolver pb breed s).1, liftGa (nextEvolver pb breed s).2) := by
  cases hp : s.phase with
  | primed => simp only [nextEvolver, hp, show (liftGa s).phase = .primed from hp]; rfl
  | dead => simp only [nextEvolver, hp, show (liftGa s).phase = .dead from hp]
  | running =>
    unfold nextEvolver
    simp only [hp, show (liftGa s).phase = .running from hp, getFitness_lift]
    cases hf : getFitness pb s with
    | mk r t =>
      cases r with
      | error e => rfl
      | ok ys =>
        simp only [Except.map, hb, show (liftGa t).genotypes = t.genotypes from rfl]
        cases breed t.genotypes ys <;> rfl

/-- C104, nothing changes for objectives that are defined everywhere: if the objective returns numbers
only, every run with floats is the run of `Model/GA.lean`, about which the other properties speak -
whatever the selection does, as long as it treats numbers as numbers. -/
theorem C104_defined (pb : Problem G X K) (breeds : ℕ → List G → List K → Py (List G))
    (breeds' : ℕ → List G → List (WithTop K) → Py (List G))
    (hb : ∀ i gs ys, breeds' i gs (ys.map WithTop.some) = breeds i gs ys) (s : Ga G X K) (n : ℕ) :
    cycles (liftProblem pb) breeds' n (liftGa s) =
      ((GA.cycles pb breeds n s).1, liftGa (GA.cycles pb breeds n s).2) := by
  induction n with
  | zero => rfl
  | succ n ih =>
    simp only [cycles, GA.cycles, ih]
    cases hc : GA.cycles pb breeds n s with
    | mk r t =>
      cases r with
      | error e => rfl
      | ok u =>
        simp only [evolve1, GA.evolve1, nextEvolver_lift pb (breeds n) (breeds' n) (hb n)]
        cases hx : nextEvolver pb (breeds n) t with
        | mk r v =>
          cases r with
          | error e => rfl
          | ok u =>
            simp only [bestCandidate_lift]
            cases hbc : GA.bestCandidate pb v with
            | mk r w =>
              cases r with
              | error e => rfl
              | ok c =>
                simp only [Except.map]
                rw [show (liftProblem pb).minimize = pb.minimize from rfl, celebrate_lift]

/-! ## The champion -/

/-- what is known after `n + 1` cycles -/
theorem history {pb : Problem G X (WithTop K)} {breeds : ℕ → List G → List (WithTop K) → Py (List G)}
    {gs : List G} {s : Ga G X (WithTop K)} : ∀ (n : ℕ) {t : Ga G X (WithTop K)},
    cycles pb breeds (n + 1) (reset (.ok gs) s).2 = (.ok (), t) →
    Consistent pb t ∧ t.phase = .running ∧ t.state.n_iter = 0 ∧ t.state.success = true ∧
    ∃ (pops : ℕ → List G) (vals : ℕ → List (WithTop K)) (c : Genom G X (WithTop K)),
      pops 0 = gs ∧ pops n = t.genotypes ∧ (∀ k ≤ n, Values pb (pops k) (vals k)) ∧
      (∀ k < n, breeds (k + 1) (pops k) (vals k) = .ok (pops (k + 1))) ∧
      t.champion = some c ∧ t.state.fn = some c.fitness ∧
      (⊤ ∈ vals 0 → c.fitness = ⊤ ∧ c.age = n + 1 ∧
        ∃ i : ℕ, gs[i]? = some c.genotype ∧ (vals 0)[i]? = some ⊤ ∧ ∀ j < i, (vals 0)[j]? ≠ some ⊤) ∧
      (⊤ ∉ vals 0 → ∃ v : K, c.fitness = v ∧ (∃ k ≤ n, ⊤ ∉ vals k ∧ (v : WithTop K) ∈ vals k) ∧
        ∀ k ≤ n, ⊤ ∉ vals k → ∀ w : K, (w : WithTop K) ∈ vals k → ¬ Better pb.minimize w v) := by
  intro n
  induction n with
  | zero =>
    intro t ht
    simp only [cycles] at ht
    obtain ⟨hc, hp, hi, hsu, -, hg, -, c, c', hcand, hch, hfn, -, hupd⟩ :=
      evolve1_ok (consistent_reset _ gs s) ht
    have hg0 : t.genotypes = gs := hg rfl
    obtain ⟨ys, hys⟩ := hcand.vals
    rcases hupd with ⟨-, rfl⟩ | ⟨d, hd, -⟩ | ⟨d, hd, -⟩
    · refine ⟨hc, hp, hi, hsu, fun _ => gs, fun _ => ys, _, rfl, hg0.symm, ?_, by omega, hch, hfn, ?_, ?_⟩
      · intro k _; rw [← hg0]; exact hys
      · intro ht
        obtain ⟨h1, i, h2, h3, h4⟩ := hcand.top hys ht
        exact ⟨h1, rfl, i, by rw [← hg0]; exact h2, h3, h4⟩
      · intro ht
        obtain ⟨v, h1, h2, h3⟩ := hcand.num hys ht
        refine ⟨v, h1, ⟨0, le_rfl, ht, h2⟩, fun k _ _ w hw => ?_⟩
        rw [better_iff, h3 w hw]; simp
    · simp [reset] at hd
    · simp [reset] at hd
  | succ n ih =>
    intro t ht
    rw [cycles] at ht
    split at ht
    · simp at ht
    · rename_i u hu
      obtain ⟨hcu, hpu, hiu, hsuu, pops, vals, d, h0, hn, hv, hb, hch, -, htop, hnum⟩ := ih hu
      obtain ⟨hc, hp, hi, hsu, -, -, hg, c, c', hcand, hch', hfn, -, hupd⟩ := evolve1_ok hcu ht
      obtain ⟨zs, hz1, hz2⟩ := hg hpu
      obtain ⟨ys, hys⟩ := hcand.vals
      have hzs : zs = vals n := hz1.unique (by rw [← hn]; exact hv n le_rfl)
      subst hzs
      have hvals : ∀ k ≤ n, (fun k => if k = n + 1 then ys else vals k) k = vals k := by
        intro k hk; simp only [if_neg (show k ≠ n + 1 by omega)]
      have hpops : ∀ k ≤ n, (fun k => if k = n + 1 then t.genotypes else pops k) k = pops k := by
        intro k hk; simp only [if_neg (show k ≠ n + 1 by omega)]
      have hlast : (fun k => if k = n + 1 then ys else vals k) (n + 1) = ys := by simp
      have hlastp : (fun k => if k = n + 1 then t.genotypes else pops k) (n + 1) = t.genotypes := by simp
      refine ⟨hc, hp, hi.trans hiu, hsu.trans hsuu, fun k => if k = n + 1 then t.genotypes else pops k,
        fun k => if k = n + 1 then ys else vals k, c', ?_, by simp, ?_, ?_, hch', hfn, ?_, ?_⟩
      · rw [hpops 0 (by omega)]; exact h0
      · intro k hk
        rcases Nat.lt_or_ge n k with h | h
        · have : k = n + 1 := by omega
          subst this
          rw [hlast, hlastp]; exact hys
        · rw [hvals k h, hpops k h]; exact hv k h
      · intro k hk
        rcases Nat.lt_or_ge k n with h | h
        · rw [hvals k (by omega), hpops k (by omega), hpops (k + 1) (by omega)]; exact hb k h
        · have : k = n := by omega
          subst this
          rw [hvals k le_rfl, hpops k le_rfl, hlastp, hn]; exact hz2
      · rw [hvals 0 (by omega)]
        intro ht0
        obtain ⟨e1, e2, e3⟩ := htop ht0
        rcases hupd with ⟨h1, -⟩ | ⟨d', h1, h2, -⟩ | ⟨d', h1, h2, rfl⟩
        · rw [hch] at h1; cases h1
        · rw [hch] at h1; cases h1
          rw [e1, replaces_top_right] at h2; cases h2
        · rw [hch] at h1; cases h1
          exact ⟨e1, by show d.age + 1 = _; omega, e3⟩
      · rw [hvals 0 (by omega)]
        intro ht0
        obtain ⟨v, e1, ⟨k, hk, e2, e3⟩, e4⟩ := hnum ht0
        have hold : ∀ j ≤ n, ⊤ ∉ (fun k => if k = n + 1 then ys else vals k) j → ∀ w : K,
            (w : WithTop K) ∈ (fun k => if k = n + 1 then ys else vals k) j → ¬ Better pb.minimize w v := by
          intro j hj; rw [hvals j hj]; exact e4 j hj
        by_cases hty : ⊤ ∈ ys
        · -- the candidate is undefined
          obtain ⟨f1, -⟩ := hcand.top hys hty
          have hkeep : c'.fitness = v := by
            rcases hupd with ⟨h1, -⟩ | ⟨d', h1, h2, -⟩ | ⟨d', h1, -, rfl⟩
            · rw [hch] at h1; cases h1
            · rw [f1, replaces_top_left] at h2; cases h2
            · rw [hch] at h1; cases h1; exact e1
          refine ⟨v, hkeep, ⟨k, by omega, by rw [hvals k hk]; exact e2, by rw [hvals k hk]; exact e3⟩, ?_⟩
          intro j hj hjt
          rcases Nat.lt_or_ge n j with h | h
          · have : j = n + 1 := by omega
            subst this
            rw [hlast] at hjt
            exact absurd hty hjt
          · exact hold j h hjt
        · obtain ⟨w, f1, f2, f3⟩ := hcand.num hys hty
          rcases hupd with ⟨h1, -⟩ | ⟨d', h1, h2, rfl⟩ | ⟨d', h1, h2, rfl⟩
          · rw [hch] at h1; cases h1
          · rw [hch] at h1; cases h1
            rw [f1, e1, replaces_coe] at h2
            refine ⟨w, f1, ⟨n + 1, le_rfl, by rw [hlast]; exact hty, by rw [hlast]; exact f2⟩, ?_⟩
            intro j hj hjt z hz
            rcases Nat.lt_or_ge n j with h | h
            · have : j = n + 1 := by omega
              subst this
              rw [hlast] at hz
              rw [better_iff, f3 z hz]; simp
            · have := hold j h hjt z hz
              intro hzw
              apply this
              rw [better_iff] at hzw ⊢
              exact betterThan_trans hzw h2
          · rw [hch] at h1; cases h1
            rw [f1, e1, replaces_coe] at h2
            refine ⟨v, e1, ⟨k, by omega, by rw [hvals k hk]; exact e2, by rw [hvals k hk]; exact e3⟩, ?_⟩
            intro j hj hjt z hz
            rcases Nat.lt_or_ge n j with h | h
            · have : j = n + 1 := by omega
              subst this
              rw [hlast] at hz
              rw [better_iff, not_betterThan_trans (f3 z hz) h2]; simp
            · exact hold j h hjt z hz

/-- C104, who is champion (both directions of optimization, any selection, any number of cycles).  If
the first population has an undefined value, its first undefined member is champion forever.  Otherwise
the champion's value is defined and is the best among the populations *without* undefined values; what
occurs together with an undefined value in one population does not count. -/
theorem C104_champion (pb : Problem G X (WithTop K))
    (breeds : ℕ → List G → List (WithTop K) → Py (List G)) (gs : List G) (s t : Ga G X (WithTop K)) (n : ℕ)
    (h : cycles pb breeds (n + 1) (reset (.ok gs) s).2 = (.ok (), t)) :
    ∃ (pops : ℕ → List G) (vals : ℕ → List (WithTop K)) (c : Genom G X (WithTop K)),
      pops 0 = gs ∧ pops n = t.genotypes ∧ (∀ k ≤ n, Values pb (pops k) (vals k)) ∧
      (∀ k < n, breeds (k + 1) (pops k) (vals k) = .ok (pops (k + 1))) ∧
      t.champion = some c ∧ t.state.fn = some c.fitness ∧
      (⊤ ∈ vals 0 → c.fitness = ⊤ ∧ c.age = n + 1 ∧
        ∃ i : ℕ, gs[i]? = some c.genotype ∧ (vals 0)[i]? = some ⊤ ∧ ∀ j < i, (vals 0)[j]? ≠ some ⊤) ∧
      (⊤ ∉ vals 0 → ∃ v : K, c.fitness = v ∧ (∃ k ≤ n, ⊤ ∉ vals k ∧ (v : WithTop K) ∈ vals k) ∧
        ∀ k ≤ n, ⊤ ∉ vals k → ∀ w : K, (w : WithTop K) ∈ vals k → ¬ Better pb.minimize w v) :=
  (history n h).2.2.2.2

/-- C104, a champion with a defined value is never replaced by an undefined one or by a worse one. -/
theorem C104_keeps_defined (pb : Problem G X (WithTop K))
    (breeds : ℕ → List G → List (WithTop K) → Py (List G)) (gs : List G) (s t u : Ga G X (WithTop K))
    (n m : ℕ) (ht : cycles pb breeds n (reset (.ok gs) s).2 = (.ok (), t))
    (hu : cycles pb breeds (n + m) (reset (.ok gs) s).2 = (.ok (), u))
    (c : Genom G X (WithTop K)) (hc : t.champion = some c) (v : K) (hv : c.fitness = v) :
    ∃ (d : Genom G X (WithTop K)) (w : K), u.champion = some d ∧ d.fitness = (w : WithTop K) ∧ ¬ Better pb.minimize v w := by
  induction m generalizing u with
  | zero =>
    rw [Nat.add_zero, ht] at hu
    cases hu
    refine ⟨c, v, hc, hv, ?_⟩
    rw [better_iff, betterThan_irrefl]; simp
  | succ m ih =>
    rw [← Nat.add_assoc, cycles] at hu
    split at hu
    · simp at hu
    · rename_i a ha
      obtain ⟨d, w, hd, hw, hvw⟩ := ih a ha
      have hcons : Consistent pb a := by
        cases hnm : n + m with
        | zero =>
          rw [hnm] at ha
          cases ha
          exact consistent_reset _ gs s
        | succ k => rw [hnm] at ha; exact (history k ha).1
      obtain ⟨-, -, -, -, -, -, -, c0, c', hcand, hch, -, -, hupd⟩ := evolve1_ok hcons hu
      rcases hupd with ⟨h1, -⟩ | ⟨d', h1, h2, rfl⟩ | ⟨d', h1, h2, rfl⟩
      · rw [hd] at h1; cases h1
      · rw [hd] at h1; cases h1
        rw [hw] at h2
        obtain ⟨z, hz⟩ : ∃ z : K, c0.fitness = z := by
          cases h : c0.fitness with
          | top => rw [h, replaces_top_left] at h2; cases h2
          | coe z => exact ⟨z, rfl⟩
        rw [hz, replaces_coe] at h2
        refine ⟨_, z, hch, hz, ?_⟩
        intro hvz
        apply hvw
        rw [better_iff] at hvz ⊢
        exact betterThan_trans hvz h2
      · rw [hd] at h1; cases h1
        exact ⟨_, w, hch, hw, hvw⟩

/-- C104 is violated, hidden improvements: as soon as one member of a population is undefined, no other
member of that population can become champion, however good it is; the champion just gets older. -/
theorem C104_hidden_violated (pb : Problem G X (WithTop K))
    (breeds : ℕ → List G → List (WithTop K) → Py (List G)) (gs : List G) (s t u : Ga G X (WithTop K))
    (n : ℕ) (hn : 1 ≤ n) (ht : cycles pb breeds n (reset (.ok gs) s).2 = (.ok (), t))
    (hu : cycles pb breeds (n + 1) (reset (.ok gs) s).2 = (.ok (), u))
    (ys : List (WithTop K)) (hy : Values pb u.genotypes ys) (htop : ⊤ ∈ ys) :
    ∃ c, t.champion = some c ∧ u.champion = some { c with age := c.age + 1 } := by
  obtain ⟨k, rfl⟩ : ∃ k, n = k + 1 := ⟨n - 1, by omega⟩
  obtain ⟨hcons, -, -, -, -, -, c, -, -, -, -, hc, -⟩ := history k ht
  rw [cycles, ht] at hu
  simp only at hu
  obtain ⟨-, -, -, -, -, -, -, c0, c', hcand, hch, -, -, hupd⟩ := evolve1_ok hcons hu
  obtain ⟨f1, -⟩ := hcand.top hy htop
  rcases hupd with ⟨h1, -⟩ | ⟨d', h1, h2, -⟩ | ⟨d', h1, -, rfl⟩
  · rw [hc] at h1; cases h1
  · rw [f1, replaces_top_left] at h2; cases h2
  · rw [hc] at h1; cases h1
    exact ⟨c, hc, hch⟩

end

/-! ## Selection -/

section
variable {V : Type} [LinearOrder V]

/-- `i` is a position at which the value is undefined -/
def Undef (f : List (WithTop V)) (i : ℕ) : Prop := f[i]? = some ⊤

/-- `i` is a position at which the value is defined -/
def Def (f : List (WithTop V)) (i : ℕ) : Prop := ∃ v : V, f[i]? = some (v : WithTop V)

/-- C104, selection when minimizing is safe: an undefined member gets into the elite only if all defined
ones are there, and wins a tournament only if nobody in the tournament is defined. -/
theorem C104_minimize_select_partial (argsort : List (WithTop V) → List ℕ) (ha : IsArgsort argsort)
    (nPop e : ℕ) (he : 1 ≤ e) (he2 : nPop / 2 ≤ e ∨ 3 + e ≤ nPop)
    (tour : ℕ → List ℕ → List ℕ) (ht : ∀ i, BGA.IsTourChoice (tour i))
    (f : List (WithTop V)) (hf : f.length = nPop) :
    ∃ elite others more, BGA.selectIds argsort nPop (.int e) true tour f = .ok (elite ++ more) ∧
      (elite ++ others).Perm (List.range nPop) ∧ elite.length = min e nPop ∧
      (∀ i ∈ elite, Undef f i → ∀ j, Def f j → j ∈ elite) ∧
      (∀ (t : ℕ) (w : ℕ), more[t]? = some w → w ∈ tour t others ∧
        (Undef f w → ∀ j ∈ tour t others, ¬ Def f j)) := by
  obtain ⟨more, h1, -, h3⟩ := BGA.selectIds_ok ha (nPop := nPop) (el := .int e) (m := true) ht hf (by simp)
    (by intro k hk; cases hk; omega) (by simp) (by simpa [BGA.eliteCount] using he2)
  have hperm := BGA.dirSort_perm ha true f
  have hpw := BGA.dirSort_pairwise ha true f
  simp only [BGA.eliteCount, Int.toNat_natCast] at h1 h3
  refine ⟨_, (BGA.dirSort argsort true f).drop e, more, h1, ?_, ?_, ?_, ?_⟩
  · rw [List.take_append_drop, ← hf]; exact hperm
  · rw [List.length_take, hperm.length_eq, List.length_range, hf]
  · intro i hi hu j ⟨v, hj⟩
    by_contra hne
    have hjm : j ∈ BGA.dirSort argsort true f := by
      rw [hperm.mem_iff, List.mem_range]; exact (List.getElem?_eq_some_iff.mp hj).1
    rw [← List.take_append_drop e (BGA.dirSort argsort true f)] at hjm hpw
    have hjd : j ∈ (BGA.dirSort argsort true f).drop e := (List.mem_append.mp hjm).resolve_left hne
    have := (List.pairwise_append.mp hpw).2.2 i hi j hjd _ _ hu hj
    simp [betterThan] at this
  · intro t w hw
    obtain ⟨a, -, b⟩ := h3 t w hw
    refine ⟨a, fun hu j hj ⟨v, hv⟩ => ?_⟩
    have := b j hj _ _ hu hv
    simp [betterThan] at this

/-- C104 is violated by selection when maximizing: it prefers undefined members.  A defined member gets
into the elite only if all undefined ones are there, and wins a tournament only if everybody in the
tournament is defined. -/
theorem C104_maximize_select_violated (argsort : List (WithTop V) → List ℕ) (ha : IsArgsort argsort)
    (nPop e : ℕ) (he : 1 ≤ e) (he2 : nPop / 2 ≤ e ∨ 3 + e ≤ nPop)
    (tour : ℕ → List ℕ → List ℕ) (ht : ∀ i, BGA.IsTourChoice (tour i))
    (f : List (WithTop V)) (hf : f.length = nPop) :
    ∃ elite others more, BGA.selectIds argsort nPop (.int e) false tour f = .ok (elite ++ more) ∧
      (elite ++ others).Perm (List.range nPop) ∧ elite.length = min e nPop ∧
      (∀ i ∈ elite, Def f i → ∀ j, Undef f j → j ∈ elite) ∧
      (∀ (t : ℕ) (w : ℕ), more[t]? = some w → w ∈ tour t others ∧
        (Def f w → ∀ j ∈ tour t others, ¬ Undef f j)) := by
  obtain ⟨more, h1, -, h3⟩ := BGA.selectIds_ok ha (nPop := nPop) (el := .int e) (m := false) ht hf (by simp)
    (by intro k hk; cases hk; omega) (by simp) (by simpa [BGA.eliteCount] using he2)
  have hperm := BGA.dirSort_perm ha false f
  have hpw := BGA.dirSort_pairwise ha false f
  simp only [BGA.eliteCount, Int.toNat_natCast] at h1 h3
  refine ⟨_, (BGA.dirSort argsort false f).drop e, more, h1, ?_, ?_, ?_, ?_⟩
  · rw [List.take_append_drop, ← hf]; exact hperm
  · rw [List.length_take, hperm.length_eq, List.length_range, hf]
  · intro i hi ⟨v, hv⟩ j hj
    by_contra hne
    have hjm : j ∈ BGA.dirSort argsort false f := by
      rw [hperm.mem_iff, List.mem_range]; exact (List.getElem?_eq_some_iff.mp hj).1
    rw [← List.take_append_drop e (BGA.dirSort argsort false f)] at hjm hpw
    have hjd : j ∈ (BGA.dirSort argsort false f).drop e := (List.mem_append.mp hjm).resolve_left hne
    have := (List.pairwise_append.mp hpw).2.2 i hi j hjd _ _ hv hj
    simp [betterThan] at this
  · intro t w hw
    obtain ⟨a, -, b⟩ := h3 t w hw
    refine ⟨a, fun ⟨v, hv⟩ j hj hu => ?_⟩
    have := b j hj _ _ hv hu
    simp [betterThan] at this

/-! ## Runs of the binary GA -/

variable {F : Type} [Field F] [LinearOrder F]

theorem workable_int {nPop e : ℕ} (h1 : 1 ≤ e) (h2 : e < nPop) (h3 : 2 * e ≤ nPop ∨ Even e) :
    BGA.Workable nPop (.int e) := by
  refine ⟨by simp, ?_, by simp, ?_⟩
  · intro k hk; cases hk; omega
  · simp only [BGA.eliteCount, Int.toNat_natCast]
    rcases h3 with h | h
    · left; omega
    · right; exact h

theorem runInv_reset {cfg : BGA.Config F} {fnc : List F → Py (WithTop V)} {gs : List (List ℤ)}
    (hg : BGA.Good cfg gs) (s : Ga (List ℤ) (List F) (WithTop V)) :
    RunInv cfg fnc (reset (.ok gs) s).2 :=
  ⟨consistent_reset _ gs s, hg, by simp [reset]⟩

theorem cycles_run {cfg : BGA.Config F} {argsort : List (WithTop V) → List ℕ}
    (ha : IsArgsort argsort)
    {D : ℕ → BGA.CycleDraws F} (hD : ∀ i, BGA.IsCycleDraws (cfg.dim * cfg.length) (D i))
    (hN4 : 4 ∣ cfg.nPop) (hN8 : 8 ≤ cfg.nPop) (hn : 3 ≤ cfg.dim * cfg.length)
    (hel : BGA.Workable cfg.nPop cfg.elitism) {fnc : List F → Py (WithTop V)}
    (hfnc : ∀ x, ∃ y, fnc x = .ok y)
    {s : Ga (List ℤ) (List F) (WithTop V)} (hs : RunInv cfg fnc s) (k : ℕ) :
    ∃ t, cycles (problem cfg fnc) (fun i => BGA.breed cfg argsort (D i)) k s = (.ok (), t) ∧
      RunInv cfg fnc t ∧ (1 ≤ k → t.phase = .running) := by
  induction k with
  | zero => exact ⟨s, rfl, hs, by omega⟩
  | succ k ih =>
    obtain ⟨t, h1, h2, -⟩ := ih
    obtain ⟨u, h3, h4, -⟩ := evolve1_run ha (hD k) hN4 hN8 hn hel hfnc h2
    exact ⟨u, by rw [cycles, h1]; exact h3, h4, fun _ => (evolve1_ok h2.cons h3).2.1⟩

/-- C104 is violated, maximization gets stuck: once a population contains an undefined value - it need
not be the first one - every later population contains one, and the champion never changes again. -/
theorem C104_maximize_stuck_violated (cfg : BGA.Config F) (hmax : cfg.minimize = false)
    (argsort : List (WithTop V) → List ℕ) (ha : IsArgsort argsort)
    (hN4 : 4 ∣ cfg.nPop) (hN8 : 8 ≤ cfg.nPop) (hn : 3 ≤ cfg.dim * cfg.length)
    (e : ℕ) (hel : cfg.elitism = .int e) (he1 : 1 ≤ e) (he2 : e < cfg.nPop) (he3 : 2 * e ≤ cfg.nPop ∨ Even e)
    (fnc : List F → Py (WithTop V)) (hfnc : ∀ x, ∃ y, fnc x = .ok y)
    (D₀ : BGA.CycleDraws F) (hD₀ : BGA.IsCycleDraws (cfg.dim * cfg.length) D₀)
    (pool : List (List ℤ)) (hpool : BGA.IsPool cfg.nPop (cfg.dim * cfg.length) pool)
    (D : ℕ → BGA.CycleDraws F) (hD : ∀ i, BGA.IsCycleDraws (cfg.dim * cfg.length) (D i))
    (s t : Ga (List ℤ) (List F) (WithTop V)) (k m : ℕ) (hk : 1 ≤ k)
    (hs : cycles (problem cfg fnc) (fun i => BGA.breed cfg argsort (D i)) k
      (reset (BGA.initial cfg D₀ pool) s).2 = (.ok (), t))
    (ys : List (WithTop V)) (hy : Values (problem cfg fnc) t.genotypes ys) (hu : ⊤ ∈ ys) :
    ∃ u c zs, cycles (problem cfg fnc) (fun i => BGA.breed cfg argsort (D i)) (k + m)
        (reset (BGA.initial cfg D₀ pool) s).2 = (.ok (), u) ∧
      Values (problem cfg fnc) u.genotypes zs ∧ ⊤ ∈ zs ∧
      t.champion = some c ∧ u.champion = some { c with age := c.age + m } := by
  have hw : BGA.Workable cfg.nPop cfg.elitism := by rw [hel]; exact workable_int he1 he2 he3
  obtain ⟨gs, hi1, hi2⟩ := BGA.initial_ok hD₀ hN4 hN8 hn hpool
  rw [hi1] at hs ⊢
  have hrun := cycles_run ha hD hN4 hN8 hn hw hfnc (runInv_reset (fnc := fnc) hi2 s)
  induction m with
  | zero =>
    obtain ⟨k', rfl⟩ : ∃ k', k = k' + 1 := ⟨k - 1, by omega⟩
    obtain ⟨-, -, -, -, -, -, c, -, -, -, -, hc, -⟩ := history k' hs
    exact ⟨t, c, ys, hs, hy, hu, hc, hc⟩
  | succ m ih =>
    obtain ⟨u, c, zs, h1, h2, h3, h4, h5⟩ := ih
    obtain ⟨u', g1, g2, g3⟩ := hrun (k + m)
    rw [h1] at g1
    cases g1
    have hph := g3 (by omega)
    obtain ⟨w, e1, e2, e3⟩ := evolve1_run ha (hD (k + m)) hN4 hN8 hn hw hfnc g2
    obtain ⟨ys', rest, f1, f2, f3⟩ := e3 hph
    have : ys' = zs := Vals.unique f1 h2
    subst this
    rw [hmax] at f3
    obtain ⟨i, q1, q2⟩ := dirSort_top ha h3
    have hmem : u.genotypes.getD i [] ∈ w.genotypes := by
      rw [f3, hel]
      apply List.mem_append_left
      apply List.mem_map_of_mem (f := fun i => u.genotypes.getD i [])
      apply List.mem_of_getElem? (i := 0)
      rw [List.getElem?_take, if_pos (by simp only [BGA.eliteCount]; omega)]
      exact q1
    have hval : fnc (BGA.decodeRow cfg.dim cfg.length cfg.ranges (u.genotypes.getD i [])) = .ok ⊤ := by
      obtain ⟨xs, a1, a2⟩ := f1
      rw [good_decode g2.good] at a1
      cases a1
      have hil := (List.getElem?_eq_some_iff.mp q2).1
      have hig : i < u.genotypes.length := by rw [g2.good.1]; omega
      refine forall₂_getElem? (pyMap_eq_ok_iff.mp a2) i _ _ ?_ q2
      rw [List.getElem?_map, List.getElem?_eq_getElem hig, List.getD_eq_getElem?_getD,
        List.getElem?_eq_getElem hig]
      rfl
    have hcyc : cycles (problem cfg fnc) (fun i => BGA.breed cfg argsort (D i)) (k + (m + 1))
        (reset (.ok gs) s).2 = (.ok (), w) := by
      rw [← Nat.add_assoc, cycles, h1]; exact e1
    obtain ⟨-, -, -, -, -, -, -, c0, c', hcand, hch, -, -, hupd⟩ := evolve1_ok g2.cons e1
    obtain ⟨vs, hvs⟩ := hcand.vals
    have htop : ⊤ ∈ vs := (vals_mem e2.good hvs ⊤).mpr ⟨_, hmem, hval⟩
    refine ⟨w, c, vs, hcyc, hvs, htop, h4, ?_⟩
    obtain ⟨j1, -⟩ := hcand.top hvs htop
    rcases hupd with ⟨r1, -⟩ | ⟨d, r1, r2, -⟩ | ⟨d, r1, -, rfl⟩
    · rw [h5] at r1; cases r1
    · rw [j1, replaces_top_left] at r2; cases r2
    · rw [h5] at r1
      cases r1
      exact hch

/-- when `solve` stops after `k` cycles in which the champion got older and older -/
def Stops (maxiter miniter maxage : ℤ) (k : ℕ) : Prop :=
  ((k : ℤ) > maxage ∨ maxiter ≤ k) ∧ miniter ≤ k

theorem loop_undefined {cfg : BGA.Config F} {argsort : List (WithTop V) → List ℕ}
    (ha : IsArgsort argsort)
    {D : ℕ → BGA.CycleDraws F} (hD : ∀ i, BGA.IsCycleDraws (cfg.dim * cfg.length) (D i))
    (hN4 : 4 ∣ cfg.nPop) (hN8 : 8 ≤ cfg.nPop) (hn : 3 ≤ cfg.dim * cfg.length)
    (hel : BGA.Workable cfg.nPop cfg.elitism) {fnc : List F → Py (WithTop V)}
    (hfnc : ∀ x, ∃ y, fnc x = .ok y) {maxiter miniter maxage : ℤ} (hmm : miniter ≤ maxiter)
    {gs : List (List ℤ)} {ys : List (WithTop V)} (hy : Vals (problem cfg fnc) gs ys) (hu : ⊤ ∈ ys) :
    ∀ (fuel i : ℕ) (s : Ga (List ℤ) (List F) (WithTop V)), RunInv cfg fnc s → s.state.n_iter = i →
      (s.champion = none ∧ s.phase = .primed ∧ s.genotypes = gs ∧ i = 0 ∨
        ∃ c, s.champion = some c ∧ c.fitness = ⊤ ∧ c.age = i ∧ ∃ j : ℕ, gs[j]? = some c.genotype ∧
          ys[j]? = some ⊤ ∧ ∀ j' < j, ys[j']? ≠ some ⊤) →
      max 1 maxiter ≤ (fuel + i : ℕ) → (i : ℤ) < max 1 maxiter →
      (∀ j, 1 ≤ j → j ≤ i → ¬ Stops maxiter miniter maxage j) →
      ∃ (c : Genom (List ℤ) (List F) (WithTop V)) (t : Ga (List ℤ) (List F) (WithTop V)) (k : ℕ),
        solveLoop (problem cfg fnc) maxiter miniter maxage
          (fun i => BGA.breed cfg argsort (D i)) fuel i s =
            some (.ok (if maxiter ≤ (k : ℤ) then .maxIterationsReached else .converged), t) ∧
        t.champion = some c ∧ t.state.fn = some ⊤ ∧ c.fitness = ⊤ ∧ t.state.n_iter = k ∧ 1 ≤ k ∧
        Stops maxiter miniter maxage k ∧ (∀ j : ℕ, 1 ≤ j → j < k → ¬ Stops maxiter miniter maxage j) ∧
        ∃ j : ℕ, gs[j]? = some c.genotype ∧
          ys[j]? = some ⊤ ∧ ∀ j' < j, ys[j']? ≠ some ⊤ := by
  intro fuel
  induction fuel with
  | zero => intro i s _ _ _ h1 h2; simp only [Nat.zero_add] at h1; omega
  | succ fuel ih =>
    intro i s hs hni hch hfu hlt hbefore
    obtain ⟨t, e1, e2, -⟩ := evolve1_run ha (hD i) hN4 hN8 hn hel hfnc hs
    obtain ⟨-, -, hti, -, -, hgen, -, c0, c', hcand, hch', hfn, -, hupd⟩ := evolve1_ok hs.cons e1
    have hc' : c'.fitness = ⊤ ∧ c'.age = i + 1 ∧ ∃ j : ℕ, gs[j]? = some c'.genotype ∧
          ys[j]? = some ⊤ ∧ ∀ j' < j, ys[j']? ≠ some ⊤ := by
      rcases hch with ⟨g1, g2, g3, g4⟩ | ⟨c, g1, g2, g3, g4⟩
      · have hg := hgen g2
        rw [hg, g3] at hcand
        obtain ⟨j1, j2⟩ := hcand.top hy hu
        rcases hupd with ⟨r1, rfl⟩ | ⟨d, r1, -⟩ | ⟨d, r1, -⟩
        · exact ⟨j1, by simp [g4], j2⟩
        · rw [g1] at r1; cases r1
        · rw [g1] at r1; cases r1
      · rcases hupd with ⟨r1, -⟩ | ⟨d, r1, r2, -⟩ | ⟨d, r1, -, rfl⟩
        · rw [g1] at r1; cases r1
        · rw [g1] at r1
          cases r1
          rw [g2, replaces_top_right] at r2
          cases r2
        · rw [g1] at r1
          cases r1
          exact ⟨g2, by simp [g3], g4⟩
    obtain ⟨k1, k2, k3⟩ := hc'
    rw [solveLoop, e1]
    simp only [stoppingCriteria, hch', k2, hti, hni]
    by_cases hst : Stops maxiter miniter maxage (i + 1)
    · have hst' : ((decide (((i + 1 : ℕ) : ℤ) > maxage) || decide (((i + 1 : ℕ) : ℤ) ≥ maxiter)) &&
          decide (((i + 1 : ℕ) : ℤ) ≥ miniter)) = true := by
        simpa [Stops] using hst
      rw [if_pos hst']
      have hstat : (if decide (((i + 1 : ℕ) : ℤ) ≥ maxiter) = true then Status.maxIterationsReached
            else if decide (((i + 1 : ℕ) : ℤ) > maxage) = true then Status.converged else t.status) =
          if maxiter ≤ ((i + 1 : ℕ) : ℤ) then .maxIterationsReached else .converged := by
        by_cases hm : maxiter ≤ ((i + 1 : ℕ) : ℤ)
        · simp only [ge_iff_le, hm, decide_true, if_true]
        · have hag : ((i + 1 : ℕ) : ℤ) > maxage := hst.1.resolve_right hm
          simp only [ge_iff_le, hm, hag, decide_true, decide_false, if_true, if_false, Bool.false_eq_true]
      exact ⟨c', _, i + 1, congrArg (fun st => some (Except.ok st, _)) hstat, rfl, by rw [← k1]; exact hfn,
        k1, rfl, by omega, hst, fun j hj1 hj2 => hbefore j hj1 (by omega), k3⟩
    · have hst' : ¬ ((decide (((i + 1 : ℕ) : ℤ) > maxage) || decide (((i + 1 : ℕ) : ℤ) ≥ maxiter)) &&
          decide (((i + 1 : ℕ) : ℤ) ≥ miniter)) = true := by
        simpa [Stops] using hst
      rw [if_neg hst']
      have hlt' : ((i + 1 : ℕ) : ℤ) < max 1 maxiter := by
        have : ¬ maxiter ≤ ((i + 1 : ℕ) : ℤ) := fun h => hst ⟨Or.inr h, by omega⟩
        omega
      refine ih (i + 1) _ ⟨e2.cons, e2.good, e2.phase⟩ rfl
        (Or.inr ⟨c', rfl, k1, k2, k3⟩) (by omega) hlt' ?_
      intro j hj1 hj2
      rcases Nat.lt_or_ge i j with h | h
      · have : j = i + 1 := by omega
        subst this
        exact hst
      · exact hbefore j hj1 h

/-- C104 is violated by `solve` of the binary genetic algorithm, in both directions of optimization: if
one member of the initial population is undefined, `solve` reports success and returns an undefined
value, namely the first undefined member of the initial population - however good the other members and
everything found later are.  It stops as if nothing better existed. -/
theorem C104_solve_violated (cfg : BGA.Config F)
    (argsort : List (WithTop V) → List ℕ) (ha : IsArgsort argsort)
    (hN4 : 4 ∣ cfg.nPop) (hN8 : 8 ≤ cfg.nPop) (hn : 3 ≤ cfg.dim * cfg.length)
    (e : ℕ) (hel : cfg.elitism = .int e) (he1 : 1 ≤ e) (he2 : e < cfg.nPop) (he3 : 2 * e ≤ cfg.nPop ∨ Even e)
    (fnc : List F → Py (WithTop V)) (hfnc : ∀ x, ∃ y, fnc x = .ok y)
    (D₀ : BGA.CycleDraws F) (hD₀ : BGA.IsCycleDraws (cfg.dim * cfg.length) D₀)
    (pool : List (List ℤ)) (hpool : BGA.IsPool cfg.nPop (cfg.dim * cfg.length) pool)
    (D : ℕ → BGA.CycleDraws F) (hD : ∀ i, BGA.IsCycleDraws (cfg.dim * cfg.length) (D i))
    (maxiter miniter maxage : ℤ) (hmm : miniter ≤ maxiter) (fuel : ℕ) (hf : max 1 maxiter ≤ fuel)
    (s : Ga (List ℤ) (List F) (WithTop V)) (gs : List (List ℤ)) (hgs : BGA.initial cfg D₀ pool = .ok gs)
    (ys : List (WithTop V)) (hy : Values (problem cfg fnc) gs ys) (hu : ⊤ ∈ ys) :
    ∃ (c : Genom (List ℤ) (List F) (WithTop V)) (t : Ga (List ℤ) (List F) (WithTop V)),
      solve (problem cfg fnc) (BGA.initial cfg D₀ pool) maxiter miniter maxage
        (fun i => BGA.breed cfg argsort (D i)) fuel s = some (.ok (some c), t) ∧
      c.fitness = ⊤ ∧ t.state.fn = some ⊤ ∧ t.state.success = true ∧
      (∃ j : ℕ, gs[j]? = some c.genotype ∧ ys[j]? = some ⊤ ∧ ∀ j' < j, ys[j']? ≠ some ⊤) ∧
      IsLeast {k : ℕ | 1 ≤ k ∧ (maxage < k ∨ maxiter ≤ k) ∧ miniter ≤ (k : ℤ)} t.state.n_iter ∧
      t.status = (if maxiter ≤ (t.state.n_iter : ℤ) then .maxIterationsReached else .converged) ∧
      t.state.stage = some t.status := by
  have hw : BGA.Workable cfg.nPop cfg.elitism := by rw [hel]; exact workable_int he1 he2 he3
  obtain ⟨gs', hi1, hi2⟩ := BGA.initial_ok hD₀ hN4 hN8 hn hpool
  rw [hi1] at hgs ⊢
  obtain rfl := Except.ok.inj hgs
  obtain ⟨c, t, k, h1, h2, h3, h4, h5, h6, h7, h8, h9⟩ := loop_undefined (argsort := argsort) ha hD hN4 hN8 hn hw hfnc (maxage := maxage)
    hmm hy hu fuel 0 (reset (.ok gs') s).2 (runInv_reset hi2 s) rfl (Or.inl ⟨rfl, rfl, rfl, rfl⟩)
    (by simpa using hf) (by simp) (by omega)
  refine ⟨c, { t with
        status := (if maxiter ≤ (k : ℤ) then .maxIterationsReached else .converged)
        state := { t.state with success := true, stage := some (if maxiter ≤ (k : ℤ) then .maxIterationsReached else .converged) } }, ?_, h4, h3, rfl, h9, ?_, ?_, rfl⟩
  · unfold solve
    rw [show reset (.ok gs') s = (.ok (), (reset (.ok gs') s).2) from rfl]
    simp only [h1, h2]
  · show IsLeast _ t.state.n_iter
    rw [h5]
    refine ⟨⟨h6, h7.1, h7.2⟩, fun j ⟨j1, j2, j3⟩ => ?_⟩
    by_contra h
    exact h8 j j1 (by omega) ⟨j2, j3⟩
  · show _ = if maxiter ≤ (t.state.n_iter : ℤ) then _ else _
    rw [h5]

end

/-! ### A concrete setting -/

section Demo
open Verif.BGA Verif.BGA.Props

/-- a reference `argsort` that puts undefined values last -/
def refArgsort (f : List (WithTop ℚ)) : List ℕ :=
  (List.range f.length).insertionSort (fun i j => f.getD i ⊤ ≤ f.getD j ⊤)

theorem refArgsort_ok : IsArgsort refArgsort := by
  intro l
  refine ⟨List.perm_insertionSort _ _, ?_⟩
  rw [List.pairwise_map]
  haveI : Std.Total (fun i j => l.getD i ⊤ ≤ l.getD j ⊤) := ⟨fun a b => le_total _ _⟩
  haveI : IsTrans ℕ (fun i j => l.getD i ⊤ ≤ l.getD j ⊤) := ⟨fun a b c => le_trans⟩
  refine (List.pairwise_insertionSort (fun i j => l.getD i ⊤ ≤ l.getD j ⊤) (List.range l.length)).imp ?_
  intro i j hij x hx y hy
  simp only [Option.mem_def] at hx hy
  simpa [List.getD_eq_getElem?_getD, hx, hy] using hij

/-- an objective that is undefined at zero, as `1/x` or `log x` would be -/
def partialObjective (x : List ℚ) : Py (WithTop ℚ) :=
  .ok (if x.getD 0 0 = 0 then ⊤ else ((1 / x.getD 0 0 : ℚ) : WithTop ℚ))

/-- The initial population of the demo contains the undefined point `0`. -/
theorem demo_undefined : ∃ gs ys, initial demoCfg demoDraws demoPool = .ok gs ∧
    Values (GANan.problem demoCfg partialObjective) gs ys ∧ ⊤ ∈ ys := by
  obtain ⟨off, h1, h2, h3⟩ := populateFrom_ok (p_c := demoCfg.p_c) (p_m := demoCfg.p_m) (n := 5) (nPop := 8)
    (by omega) demoDraws_ok.pair demoDraws_ok.cross (parents := demoPool) (fun g hg => demoPool_ok.bits g hg)
    (by decide) (by decide) (by decide) (by decide) (by decide)
  have hgood : Good demoCfg (demoPool ++ off) := ⟨h2, h3⟩
  obtain ⟨ys, hy⟩ := pyMap_total (f := partialObjective) (fun x => ⟨_, rfl⟩)
    ((demoPool ++ off).map (decodeRow demoCfg.dim demoCfg.length demoCfg.ranges))
  have hv : Vals (GANan.problem demoCfg partialObjective) (demoPool ++ off) ys :=
    ⟨_, good_decode hgood _, hy⟩
  refine ⟨_, ys, h1, hv, (vals_mem hgood hv ⊤).mpr ⟨[0,0,0,0,0], by simp [demoPool], ?_⟩⟩
  decide +kernel

/-- C104: `solve` on the demo (minimize `1/x` over `0, …, 31`) returns `nan` and reports success. -/
example (D : ℕ → CycleDraws ℚ) (hD : ∀ i, IsCycleDraws 5 (D i)) :
    ∃ c t, solve (GANan.problem demoCfg partialObjective) (initial demoCfg demoDraws demoPool) 100 10 5
        (fun i => breed demoCfg refArgsort (D i)) 100 ⟨[], none, none, none, {}, .initialized, .primed⟩ =
          some (.ok (some c), t) ∧ c.fitness = ⊤ ∧ t.state.success = true ∧ t.status = .converged ∧
      t.state.n_iter = 10 := by
  obtain ⟨gs, ys, h1, h2, h3⟩ := demo_undefined
  obtain ⟨c, t, k1, k2, -, k4, -, k6, k7, -⟩ := C104_solve_violated demoCfg refArgsort refArgsort_ok (by decide)
    (by decide) (by decide) 3 rfl (by decide) (by decide) (by left; decide) partialObjective (fun x => ⟨_, rfl⟩)
    demoDraws demoDraws_ok demoPool demoPool_ok D hD 100 10 5 (by decide) 100 (by decide)
    ⟨[], none, none, none, {}, .initialized, .primed⟩ gs h1 ys h2 h3
  have hn : t.state.n_iter = 10 := by
    obtain ⟨-, a2, a3⟩ := k6.1
    have := k6.2 (show (10 : ℕ) ∈ _ from ⟨by omega, by omega, by omega⟩)
    omega
  rw [hn] at k7
  exact ⟨c, t, k1, k2, k4, by rw [k7]; rfl, hn⟩

/-- C104: selection on eight values, two of them undefined. Minimizing, the two undefined ones
(positions 1 and 4) are not in the elite of three; maximizing, they come first. -/
example : divide refArgsort 8 (.int 3) true [(5 : ℚ), ⊤, (2 : ℚ), (7 : ℚ), ⊤, (1 : ℚ), (3 : ℚ), (4 : ℚ)] =
      .ok ([5, 2, 6], [7, 0, 3, 1, 4]) ∧
    divide refArgsort 8 (.int 3) false [(5 : ℚ), ⊤, (2 : ℚ), (7 : ℚ), ⊤, (1 : ℚ), (3 : ℚ), (4 : ℚ)] =
      .ok ([4, 1, 3], [0, 7, 6, 2, 5]) := by
  decide +kernel

/-- C104, the champion: three generations of two members, the second containing `nan` beside the best
value of all, which is never found. -/
example : ((cycles (X := ℤ) (⟨fun gs => .ok gs, fun x => .ok (if x = 0 then ⊤ else ((x : ℤ) : WithTop ℤ)), true⟩)
      (fun i _ _ => .ok (if i = 1 then [0, 1] else [4, 7])) 3
      (reset (.ok [9, 5]) ⟨[], none, none, none, {}, .initialized, .primed⟩).2).2.champion.map
        (fun c => (c.genotype, c.fitness, c.age))) = some (4, ((4 : ℤ) : WithTop ℤ), 1) := by
  decide +kernel

/-- C104: with `nan` in the first generation nothing found later counts. -/
example : ((cycles (X := ℤ) (⟨fun gs => .ok gs, fun x => .ok (if x = 0 then ⊤ else ((x : ℤ) : WithTop ℤ)), true⟩)
      (fun _ _ _ => .ok [1, 2]) 3
      (reset (.ok [9, 0]) ⟨[], none, none, none, {}, .initialized, .primed⟩).2).2.champion.map
        (fun c => (c.genotype, c.fitness, c.age))) = some (0, ⊤, 3) := by
  decide +kernel

end Demo

end Verif.GANan.Props
