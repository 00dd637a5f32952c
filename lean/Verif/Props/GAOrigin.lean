import Verif.Props.GAObject

/-!
# C96: where the candidates of a binary GA come from

The probabilities of crossover and of mutation decide what the search can reach at all: without
crossovers nothing but the individuals drawn at the start, without mutations nothing but the bits
drawn at the start, each at its position.
-/

set_option linter.unusedSectionVars false

namespace Verif.BGA.Props
open Verif Verif.GA Verif.GA.Props Verif.BGA

section
variable {K : Type} [Field K] [LinearOrder K]

theorem pyGet_mem {α : Type} {l : List α} {i : ℕ} {a : α} (h : pyGet l i = .ok a) : a ∈ l := by
  unfold pyGet at h
  cases hl : l[i]? with
  | none => rw [hl] at h; simp at h
  | some b =>
    rw [hl] at h
    simp at h
    subst h
    exact List.mem_of_getElem? hl

theorem pyGets_mem {α : Type} {l : List α} {ids : List ℕ} {as : List α} (h : pyGets l ids = .ok as) :
    ∀ a ∈ as, a ∈ l := by
  induction ids generalizing as with
  | nil => simp [pyGets] at h; subst h; simp
  | cons i ids ih =>
    unfold pyGets at h
    cases h1 : pyGet l i with
    | error e => rw [h1] at h; cases h
    | ok b =>
      rw [h1] at h
      cases h2 : pyGets l ids with
      | error e => rw [h2] at h; cases h
      | ok bs =>
        rw [h2] at h
        cases h
        intro a ha
        rcases List.mem_cons.1 ha with rfl | ha
        · exact pyGet_mem h1
        · exact ih h2 a ha

/-- What crossovers preserve, populations preserve. -/
theorem offspringLoop_preserves {Q : List ℤ → Prop} {p_c p_m : K} {n nPop : ℕ} {cross : ℕ → CrossDraw K}
    (hQ : ∀ i p1 p2 c1 c2, Q p1 → Q p2 → crossover p_c p_m n (cross i) p1 p2 = .ok (c1, c2) → Q c1 ∧ Q c2)
    {parents : List (List ℤ)} (hp : ∀ p ∈ parents, Q p) (pairs : List (ℕ × ℕ)) :
    ∀ (i : ℕ) (offspring out : List (List ℤ)), (∀ p ∈ offspring, Q p) →
      offspringLoop p_c p_m n nPop cross parents i pairs offspring = .ok out → ∀ p ∈ out, Q p := by
  induction pairs with
  | nil =>
    intro i off out ho h
    unfold offspringLoop at h
    split at h
    · cases h
    · cases h; exact ho
  | cons ab pairs ih =>
    intro i off out ho h
    obtain ⟨a, b⟩ := ab
    unfold offspringLoop at h
    split at h
    · cases h1 : pyGet parents a with
      | error e => rw [h1] at h; cases h
      | ok g1 =>
        cases h2 : pyGet parents b with
        | error e => rw [h1, h2] at h; cases h
        | ok g2 =>
          cases h3 : crossover p_c p_m n (cross i) g1 g2 with
          | error e => rw [h1, h2] at h; simp only [bind, Except.bind, h3] at h; cases h
          | ok c =>
            rw [h1, h2] at h
            simp only [bind, Except.bind, h3] at h
            have hc := hQ i g1 g2 c.1 c.2 (hp _ (pyGet_mem h1)) (hp _ (pyGet_mem h2)) h3
            refine ih (i + 1) _ out ?_ h
            intro p hp
            simp only [List.mem_append, List.mem_cons, List.not_mem_nil, or_false] at hp
            rcases hp with hp | rfl | rfl
            · exact ho p hp
            · exact hc.1
            · exact hc.2
    · cases h; exact ho

theorem populateFrom_preserves {Q : List ℤ → Prop} {p_c p_m : K} {n nPop : ℕ} {pair : ℕ → List ℕ → ℕ × ℕ}
    {cross : ℕ → CrossDraw K}
    (hQ : ∀ i p1 p2 c1 c2, Q p1 → Q p2 → crossover p_c p_m n (cross i) p1 p2 = .ok (c1, c2) → Q c1 ∧ Q c2)
    {parents out : List (List ℤ)} (hp : ∀ p ∈ parents, Q p)
    (h : populateFrom p_c p_m n nPop pair cross parents = .ok out) : ∀ p ∈ out, Q p := by
  unfold populateFrom at h
  split at h
  · split at h
    · split at h
      · rename_i off ho
        cases h
        intro p hp'
        rcases List.mem_append.1 hp' with hp' | hp'
        · exact hp p hp'
        · exact offspringLoop_preserves hQ hp _ 0 [] off (by simp) ho p hp'
      · cases h
    · cases h
  · cases h; exact hp

theorem breed_preserves {Q : List ℤ → Prop} {cfg : Config K} {argsort : List K → List ℕ} {D : CycleDraws K}
    (hQ : ∀ i p1 p2 c1 c2, Q p1 → Q p2 →
      crossover cfg.p_c cfg.p_m (cfg.dim * cfg.length) (D.cross i) p1 p2 = .ok (c1, c2) → Q c1 ∧ Q c2)
    {gs out : List (List ℤ)} {f : List K} (hp : ∀ p ∈ gs, Q p) (h : breed cfg argsort D gs f = .ok out) :
    ∀ p ∈ out, Q p := by
  unfold breed at h
  split at h
  · cases h
  · split at h
    · cases h
    · rename_i parents hps
      exact populateFrom_preserves hQ (fun p hm => hp p (pyGets_mem hps p hm)) h

/-- What crossovers preserve holds for everything a run of `solve` ever looks at. -/
theorem solve_preserves {Q : List ℤ → Prop} (argsort : List K → List ℕ) (dim L : ℕ)
    (ranges : List (K × K)) (fnc : List K → Py K) (kw : Kwargs K) (q : Params K)
    (o o' : Optimizer (List ℤ) (List K) K) (hq : InForce o.solver.params q kw) (d : Draws K)
    (ds : ℕ → Draws K) (fuel : ℕ) (c : Genom (List ℤ) (List K) K)
    (hpool : ∀ p ∈ d.pool (o.solver.nPop.toNat / 2) (dim * L), Q p)
    (hQ0 : ∀ i p1 p2 c1 c2, Q p1 → Q p2 →
      crossover o.solver.params.p_c o.solver.params.p_m (dim * L) (d.cycle.cross i) p1 p2 = .ok (c1, c2) →
        Q c1 ∧ Q c2)
    (hQ : ∀ j i p1 p2 c1 c2, Q p1 → Q p2 →
      crossover q.p_c q.p_m (dim * L) ((ds j).cycle.cross i) p1 p2 = .ok (c1, c2) → Q c1 ∧ Q c2)
    (h : o.solve (subclass argsort dim L ranges) fnc false kw d ds fuel = some (.ok (some c), o')) :
    Q c.genotype ∧ ∀ g ∈ o'.run.genotypes, Q g := by
  obtain ⟨c', k, P, XS, YS, h1, h2, -, h3, -, h4, ⟨j, hj, i, hi, -, -⟩, -, -, -, -, -, -, -, -, hg, -⟩ :=
    C94_result _ _ _ _ _ _ hq _ _ _ _ h
  obtain rfl : c = c' := by simpa using h1
  have all : ∀ j < k, ∀ p ∈ P j, Q p := by
    intro j
    induction j with
    | zero =>
      intro _
      exact populateFrom_preserves hQ0 hpool h3
    | succ j ih =>
      intro hj
      exact breed_preserves (cfg := configOf dim L ranges o.solver.nPop q) (hQ (j + 1)) (ih (by omega))
        (h4 j hj)
  refine ⟨all j hj _ (List.mem_of_getElem? hi), ?_⟩
  rw [hg]
  exact all (k - 1) (by omega)

/-- **C96, without crossovers.** If every draw that decides about a crossover exceeds the probability in
force (before the call for the initial population, during the call for the others), `solve` returns one
of the individuals drawn at the start, whatever the probability of mutation is. -/
theorem C96_no_crossover (argsort : List K → List ℕ) (dim L : ℕ) (ranges : List (K × K))
    (fnc : List K → Py K) (kw : Kwargs K) (q : Params K) (o o' : Optimizer (List ℤ) (List K) K)
    (hq : InForce o.solver.params q kw) (d : Draws K) (ds : ℕ → Draws K) (fuel : ℕ)
    (c : Genom (List ℤ) (List K) K) (h0 : ∀ i, o.solver.params.p_c < (d.cycle.cross i).skip)
    (h1 : ∀ j i, q.p_c < ((ds j).cycle.cross i).skip)
    (h : o.solve (subclass argsort dim L ranges) fnc false kw d ds fuel = some (.ok (some c), o')) :
    c.genotype ∈ d.pool (o.solver.nPop.toNat / 2) (dim * L) ∧
      ∀ g ∈ o'.run.genotypes, g ∈ d.pool (o.solver.nPop.toNat / 2) (dim * L) := by
  refine solve_preserves (Q := fun g => g ∈ d.pool (o.solver.nPop.toNat / 2) (dim * L)) argsort dim L
    ranges fnc kw q o o' hq d ds fuel c (fun p hp => hp) ?_ ?_ h
  · intro i p1 p2 c1 c2 hp1 hp2 hc
    rw [C10_skipped _ _ _ _ (h0 i)] at hc
    cases hc
    exact ⟨hp1, hp2⟩
  · intro j i p1 p2 c1 c2 hp1 hp2 hc
    rw [C10_skipped _ _ _ _ (h1 j i)] at hc
    cases hc
    exact ⟨hp1, hp2⟩

/-- **C96, without mutations.** If every mutation draw exceeds the probability in force, every bit of the
individual returned is, at its position, a bit of one of the individuals drawn at the start. -/
theorem C96_no_mutation (argsort : List K → List ℕ) (dim L : ℕ) (ranges : List (K × K))
    (fnc : List K → Py K) (kw : Kwargs K) (q : Params K) (o o' : Optimizer (List ℤ) (List K) K)
    (hq : InForce o.solver.params q kw) (d : Draws K) (ds : ℕ → Draws K) (fuel : ℕ)
    (c : Genom (List ℤ) (List K) K) (hd : IsDraws (dim * L) d) (hds : ∀ i, IsDraws (dim * L) (ds i))
    (h0 : ∀ i, ∀ u ∈ (d.cycle.cross i).mut1 ++ (d.cycle.cross i).mut2, o.solver.params.p_m < u)
    (h1 : ∀ j i, ∀ u ∈ ((ds j).cycle.cross i).mut1 ++ ((ds j).cycle.cross i).mut2, q.p_m < u)
    (h : o.solve (subclass argsort dim L ranges) fnc false kw d ds fuel = some (.ok (some c), o')) :
    ∀ (j : ℕ) (b : ℤ), c.genotype[j]? = some b →
      ∃ g ∈ d.pool (o.solver.nPop.toNat / 2) (dim * L), g[j]? = some b := by
  set pool := d.pool (o.solver.nPop.toNat / 2) (dim * L) with hpool
  have step : ∀ (p_c p_m : K) (D : CrossDraw K), IsCrossDraw (dim * L) D →
      (∀ u ∈ D.mut1 ++ D.mut2, p_m < u) → ∀ p1 p2 c1 c2 : List ℤ,
      (p1.length = dim * L ∧ ∀ (j : ℕ) (b : ℤ), p1[j]? = some b → ∃ g ∈ pool, g[j]? = some b) →
      (p2.length = dim * L ∧ ∀ (j : ℕ) (b : ℤ), p2[j]? = some b → ∃ g ∈ pool, g[j]? = some b) →
      crossover p_c p_m (dim * L) D p1 p2 = .ok (c1, c2) →
      (c1.length = dim * L ∧ ∀ (j : ℕ) (b : ℤ), c1[j]? = some b → ∃ g ∈ pool, g[j]? = some b) ∧
      (c2.length = dim * L ∧ ∀ (j : ℕ) (b : ℤ), c2[j]? = some b → ∃ g ∈ pool, g[j]? = some b) := by
    intro p_c p_m D hD hm p1 p2 c1 c2 hp1 hp2 hc
    by_cases hs : D.skip > p_c
    · rw [C10_skipped _ _ _ _ hs] at hc
      cases hc
      exact ⟨hp1, hp2⟩
    · by_cases hn : 3 ≤ dim * L
      · obtain ⟨e1, e2, he, l1, l2, hb⟩ := C10_crossover p_c p_m (dim * L) hn D hD hs p1 p2 hp1.1 hp2.1
        rw [he] at hc
        simp only [Except.ok.injEq, Prod.mk.injEq] at hc
        obtain ⟨rfl, rfl⟩ := hc
        have key : ∀ j, (hj : j < dim * L) → ∃ a b : ℤ, e1[j]? = some a ∧ e2[j]? = some b ∧
            (∃ g ∈ pool, g[j]? = some a) ∧ (∃ g ∈ pool, g[j]? = some b) := by
          intro j hj
          obtain ⟨a, b, hab, ha, hb⟩ := hb j hj
          have hj1 : j < D.mut1.length := by rw [hD.mut1]; exact hj
          have hj2 : j < D.mut2.length := by rw [hD.mut2]; exact hj
          have ea := ha _ (List.getElem?_eq_getElem hj1)
          have eb := hb _ (List.getElem?_eq_getElem hj2)
          rw [if_neg (not_le.2 (hm _ (by simp)))] at ea eb
          have q1 := hp1.2 j _ (List.getElem?_eq_getElem (by rw [hp1.1]; exact hj))
          have q2 := hp2.2 j _ (List.getElem?_eq_getElem (by rw [hp2.1]; exact hj))
          refine ⟨a, b, ea, eb, ?_⟩
          split at hab
          · rw [hab.1, hab.2]; exact ⟨q1, q2⟩
          · rw [hab.1, hab.2]; exact ⟨q2, q1⟩
        refine ⟨⟨l1, fun j b hjb => ?_⟩, ⟨l2, fun j b hjb => ?_⟩⟩
        · have hj : j < dim * L := by
            rw [← l1]; exact (List.getElem?_eq_some_iff.1 hjb).1
          obtain ⟨a, b', ea, -, ha, -⟩ := key j hj
          rw [ea] at hjb
          cases hjb
          exact ha
        · have hj : j < dim * L := by
            rw [← l2]; exact (List.getElem?_eq_some_iff.1 hjb).1
          obtain ⟨a, b', -, eb, -, hb'⟩ := key j hj
          rw [eb] at hjb
          cases hjb
          exact hb'
      · rw [C10_too_short _ _ _ (by omega) _ hs] at hc
        cases hc
  refine (solve_preserves (Q := fun g => g.length = dim * L ∧ ∀ (j : ℕ) (b : ℤ), g[j]? = some b →
    ∃ g' ∈ pool, g'[j]? = some b) argsort dim L ranges fnc kw q o o' hq d ds fuel c ?_ ?_ ?_ h).1.2
  · intro p hp
    exact ⟨((hd.2 _ _).2 p hp).1, fun j b hb => ⟨p, hp, hb⟩⟩
  · intro i p1 p2 c1 c2
    exact step _ _ _ (hd.1.cross i) (h0 i) p1 p2 c1 c2
  · intro j i p1 p2 c1 c2
    exact step _ _ _ ((hds j).1.cross i) (h1 j i) p1 p2 c1 c2

end

/-- Draws for 5 bits: all individuals are ones at the start. -/
def demoStart : Draws ℚ := ⟨fun r c => List.replicate r (List.replicate c 1), demoDraws⟩

theorem demoStart_ok : IsDraws 5 demoStart := by
  refine ⟨demoDraws_ok, fun rows cols => ⟨by simp [demoStart], fun g hg => ?_⟩⟩
  obtain ⟨-, rfl⟩ := List.mem_replicate.1 hg
  exact ⟨by simp, fun b hb => .inr (List.mem_replicate.1 hb).2⟩

/-- C96: eight members of five bits, crossovers, no mutations (no draw is below zero): the result is
`11111`, whatever the objective is. -/
example (fnc : List ℚ → Py ℚ) (hfnc : ∀ x, ∃ y, fnc x = .ok y) :
    ∃ o o' c, construct (subclass refArgsort 1 5 [(0, 31)]) 8
        (⟨1, -1, 10, 2, .int 3, 2, true⟩ : Params ℚ) demoStart = .ok o ∧
      o.solve (subclass refArgsort 1 5 [(0, 31)]) fnc false {} demoStart (fun _ => demoStart) 10 =
        some (.ok (some c), o') ∧ c.genotype = [1, 1, 1, 1, 1] := by
  obtain ⟨o, o', c, h1, h2, h3, h4, -⟩ := C94_bga refArgsort refArgsort_ok 1 5 [(0, 31)] rfl (by simp)
    (by decide) 8 8 (by decide) ⟨⟨⟨2, rfl⟩, le_rfl⟩, fun m hm => hm.2⟩ ⟨1, -1, 10, 2, .int 3, 2, true⟩
    (.inl ⟨3, rfl, by decide, by decide, .inl (by decide)⟩) (by decide) fnc hfnc demoStart demoStart
    (fun _ => demoStart) demoStart_ok demoStart_ok (fun _ => demoStart_ok) 10 (by decide)
  refine ⟨o, o', c, h1, h3, ?_⟩
  have hp : o.solver.params = ⟨1, -1, 10, 2, .int 3, 2, true⟩ := by
    have := (C94_construct (subclass refArgsort 1 5 [(0, 31)]) 8 8 (by decide)
      ⟨⟨⟨2, rfl⟩, le_rfl⟩, fun m hm => hm.2⟩ (⟨1, -1, 10, 2, .int 3, 2, true⟩ : Params ℚ) demoStart)
    by_cases hv : ValidParams 8 (⟨1, -1, 10, 2, .int 3, 2, true⟩ : Params ℚ)
    · obtain ⟨a, b⟩ := this.2 hv
      cases hpop : (subclass refArgsort 1 5 [(0, 31)]).populate 8
          (⟨1, -1, 10, 2, .int 3, 2, true⟩ : Params ℚ) demoStart with
      | error e => rw [a e hpop] at h1; cases h1
      | ok gs =>
        obtain ⟨o₂, e, -, e', -⟩ := b gs hpop
        rw [h1] at e
        cases e
        exact e'
    · rw [this.1 hv] at h1; cases h1
  have key := C96_no_mutation refArgsort 1 5 [(0, 31)] fnc {} _ o o' (inForce_assign _ _) demoStart
    (fun _ => demoStart) 10 c demoStart_ok (fun _ => demoStart_ok)
    (by rw [hp]; intro i; show ∀ u ∈ demoCross.mut1 ++ demoCross.mut2, (-1 : ℚ) < u; decide +kernel)
    (by rw [hp]; intro j i; show ∀ u ∈ demoCross.mut1 ++ demoCross.mut2, (-1 : ℚ) < u; decide +kernel) h3
  refine List.ext_getElem (by simpa using h4) ?_
  intro j hj hj'
  obtain ⟨g, hg, hgj⟩ := key j _ (List.getElem?_eq_getElem hj)
  obtain ⟨-, rfl⟩ := List.mem_replicate.1 hg
  obtain ⟨a, b⟩ := List.getElem?_eq_some_iff.1 hgj
  rw [← b]
  rfl

end Verif.BGA.Props
