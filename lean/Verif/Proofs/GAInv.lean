import Verif.Proofs.GARun

set_option linter.unusedSectionVars false

namespace Verif.GA
variable {G X K : Type*} [LinearOrder K]

def isEvolve : Op G K → Bool
  | .evolve _ => true
  | _ => false

theorem runOp_read {pb : Problem G X K} {o : Op G K} (ho : isEvolve o = false) {s t : Ga G X K}
    {r : Py Unit} (hs : Consistent pb s) (h : runOp pb o s = (r, t)) :
    SameCore s t ∧ Consistent pb t := by
  cases o with
  | evolve b => simp [isEvolve] at ho
  | readFitness =>
    have h1 := getFitness_core pb s
    have h2 := getFitness_consistent hs
    simp only [runOp] at h
    split at h <;> rename_i hu <;>
      (rw [hu] at h1 h2; simp only [Prod.mk.injEq] at h; obtain ⟨_, rfl⟩ := h; exact ⟨h1, h2⟩)
  | readPhenotypes =>
    have h1 := getPhenotypes_core pb s
    have h2 := getPhenotypes_consistent hs
    simp only [runOp] at h
    split at h <;> rename_i hu <;>
      (rw [hu] at h1 h2; simp only [Prod.mk.injEq] at h; obtain ⟨_, rfl⟩ := h; exact ⟨h1, h2⟩)
  | bestCandidate =>
    have h1 := bestCandidate_core pb s
    have h2 := bestCandidate_consistent hs
    simp only [runOp] at h
    split at h <;> rename_i hu <;>
      (rw [hu] at h1 h2; simp only [Prod.mk.injEq] at h; obtain ⟨_, rfl⟩ := h; exact ⟨h1, h2⟩)

theorem nextEvolver_primed {pb : Problem G X K} {breed : List G → List K → Py (List G)}
    {s s1 : Ga G X K} (hp : s.phase = .primed) (h : nextEvolver pb breed s = (.ok (), s1)) :
    s1 = { s with phase := .running } := by
  unfold nextEvolver at h
  rw [hp] at h
  simp only [Prod.mk.injEq, true_and] at h
  exact h.symm

theorem nextEvolver_running {pb : Problem G X K} {breed : List G → List K → Py (List G)}
    {s s1 : Ga G X K} (hs : Consistent pb s) (hp : s.phase = .running)
    (h : nextEvolver pb breed s = (.ok (), s1)) :
    ∃ xs ys gs, pb.decode s.genotypes = .ok xs ∧ pyMap pb.fnc xs = .ok ys ∧
      breed s.genotypes ys = .ok gs ∧ s1.genotypes = gs ∧ s1.fitness = none ∧
      s1.state.n_fev = s.state.n_fev + (if s.fitness = none then xs.length else 0) := by
  unfold nextEvolver at h
  rw [hp] at h
  simp only at h
  split at h
  · simp at h
  · rename_i ys s2 hf
    have hc := getFitness_core pb s
    rw [hf] at hc
    obtain ⟨xs, h1, h2, h3, h4, h5⟩ := getFitness_ok hs hf
    split at h
    · simp at h
    · rename_i gs hb
      simp only [Prod.mk.injEq, true_and] at h
      subst h
      refine ⟨xs, ys, gs, h1, h2, ?_, rfl, rfl, ?_⟩
      · rw [← hc.genotypes]; exact hb
      · simp only [setGenotypes]; exact h5

theorem celebrate_champion (m : Bool) (u : Ga G X K) (c : Genom G X K) :
    ∃ c' : Genom G X K, (celebrate m u c).champion = some c' ∧
      (celebrate m u c).state.x = some c'.phenotype ∧
      (celebrate m u c).state.fn = some c'.fitness ∧
      ((u.champion = none ∧ c' = { c with age := 1 }) ∨
       (∃ d, u.champion = some d ∧ betterThan m c.fitness d.fitness = true ∧
          c' = { c with age := 1 }) ∨
       (∃ d, u.champion = some d ∧ betterThan m c.fitness d.fitness = false ∧
          c' = { d with age := d.age + 1 })) := by
  unfold celebrate
  cases hu : u.champion with
  | none => exact ⟨_, rfl, rfl, rfl, Or.inl ⟨rfl, rfl⟩⟩
  | some d =>
    by_cases hb : betterThan m c.fitness d.fitness = true
    · simp only [hb, if_true]
      exact ⟨_, rfl, rfl, rfl, Or.inr (Or.inl ⟨d, rfl, hb, rfl⟩)⟩
    · simp only [hb, Bool.false_eq_true, if_false]
      exact ⟨_, rfl, rfl, rfl, Or.inr (Or.inr ⟨d, rfl, by simpa using hb, rfl⟩)⟩

/-- everything known after a successful history -/
structure HistInv (pb : Problem G X K) (s0 : Ga G X K) (ops : List (Op G K)) (s : Ga G X K) :
    Prop where
  cons : Consistent pb s
  fresh : (∀ o ∈ ops, isEvolve o = false) →
    s.phase = .primed ∧ s.champion = none ∧ s.genotypes = s0.genotypes ∧
    s.state.x = none ∧ s.state.fn = none
  run : (∃ o ∈ ops, isEvolve o = true) → s.phase = .running ∧ ∃ c, s.champion = some c ∧
    s.state.x = some c.phenotype ∧ s.state.fn = some c.fitness ∧
    (∃ pre, pre <+: ops ∧ ∃ sp, runOps pb pre s0 = (.ok (), sp) ∧ IsMember pb sp c) ∧
    (∀ pre, pre <+: ops → ∀ sp, runOps pb pre s0 = (.ok (), sp) → NoneBetter pb sp c.fitness)

theorem noneBetter_weaken {pb : Problem G X K} {s : Ga G X K} {v w : K}
    (h : NoneBetter pb s v) (hvw : betterThan pb.minimize v w = false) :
    NoneBetter pb s w := fun xs hd x hx y hy =>
  not_betterThan_trans (h xs hd x hx y hy) hvw

theorem runOps_snoc {pb : Problem G X K} {ops : List (Op G K)} {o : Op G K} {s0 t : Ga G X K}
    (h : runOps pb (ops ++ [o]) s0 = (.ok (), t)) :
    ∃ s, runOps pb ops s0 = (.ok (), s) ∧ runOp pb o s = (.ok (), t) := by
  rw [runOps_append] at h
  split at h
  · simp at h
  · rename_i s hs
    refine ⟨s, hs, ?_⟩
    simp only [runOps] at h
    split at h
    · simp at h
    · rename_i s' hs'
      simp only [Prod.mk.injEq, true_and] at h
      subst h
      exact hs'

theorem histInv {pb : Problem G X K} {s0 : Ga G X K} (hc0 : Consistent pb s0)
    (hp0 : s0.phase = .primed) (hch0 : s0.champion = none) (hx0 : s0.state.x = none)
    (hf0 : s0.state.fn = none) :
    ∀ (ops : List (Op G K)) (s : Ga G X K), runOps pb ops s0 = (.ok (), s) →
      HistInv pb s0 ops s := by
  intro ops
  induction ops using List.reverseRecOn with
  | nil =>
    intro s h
    simp only [runOps, Prod.mk.injEq, true_and] at h
    subst h
    exact ⟨hc0, fun _ => ⟨hp0, hch0, rfl, hx0, hf0⟩, by simp⟩
  | append_singleton ops o ih =>
    intro t h
    obtain ⟨s, hs, ho⟩ := runOps_snoc h
    have I := ih s hs
    by_cases hev : isEvolve o = true
    · -- a cycle
      obtain ⟨b, rfl⟩ : ∃ b, o = .evolve b := by
        cases o <;> simp [isEvolve] at hev ⊢
      have ho' : evolve1 pb b s = (.ok (), t) := ho
      obtain ⟨s1, c, hn, hs1, ht, hg, hph, hch, -, hm, hnb, u, hbc, huch, rfl⟩ :=
        evolve1_ok I.cons ho'
      refine ⟨ht, fun hall => by simpa [isEvolve] using hall (.evolve b) (by simp), ?_⟩
      intro _
      refine ⟨hph, ?_⟩
      obtain ⟨c', h1, h2, h3, h4⟩ := celebrate_champion pb.minimize u c
      refine ⟨c', h1, h2, h3, ?_⟩
      have self : ops ++ [.evolve b] <+: ops ++ [.evolve b] := List.prefix_refl _
      have mem_c : ∀ a, IsMember pb (celebrate pb.minimize u c) { c with age := a } := fun a => hm
      by_cases hex : ∃ o ∈ ops, isEvolve o = true
      · obtain ⟨_, d, hd, _, _, ⟨pre, hpre, sp, hsp, hmem⟩, hall⟩ := I.run hex
        rw [huch, hd] at h4
        have hpre' : pre <+: ops ++ [.evolve b] := hpre.trans (List.prefix_append _ _)
        have gen : ∀ w, betterThan pb.minimize c.fitness w = false →
            betterThan pb.minimize d.fitness w = false →
            ∀ pre, pre <+: ops ++ [.evolve b] → ∀ sp, runOps pb pre s0 = (.ok (), sp) →
            NoneBetter pb sp w := by
          intro w hcw hdw pre hpre sp hsp
          rcases List.prefix_concat_iff.mp hpre with heq | hlt
          · subst heq
            rw [h] at hsp
            simp only [Prod.mk.injEq, true_and] at hsp
            subst hsp
            exact noneBetter_weaken hnb hcw
          · exact noneBetter_weaken (hall pre hlt sp hsp) hdw
        rcases h4 with ⟨hno, _⟩ | ⟨d', hd', hb, rfl⟩ | ⟨d', hd', hb, rfl⟩
        · cases hno
        · cases hd'
          exact ⟨⟨_, self, _, h, mem_c 1⟩, gen _ (betterThan_irrefl _ _) (betterThan_asymm hb)⟩
        · cases hd'
          exact ⟨⟨pre, hpre', sp, hsp, hmem⟩, gen _ hb (betterThan_irrefl _ _)⟩
      · have hno : ∀ o ∈ ops, isEvolve o = false := by
          intro o ho; by_contra hh; exact hex ⟨o, ho, by simpa using hh⟩
        obtain ⟨hsp, hsch, hsg, _⟩ := I.fresh hno
        rw [huch, hsch] at h4
        rcases h4 with ⟨_, rfl⟩ | ⟨d, hd, _⟩ | ⟨d, hd, _⟩
        · refine ⟨⟨_, self, _, h, mem_c 1⟩, ?_⟩
          intro pre hpre sp hsp'
          rcases List.prefix_concat_iff.mp hpre with heq | hlt
          · subst heq
            rw [h] at hsp'
            simp only [Prod.mk.injEq, true_and] at hsp'
            subst hsp'
            exact hnb
          · -- the population is still the initial one
            have hg1 : (celebrate pb.minimize u c).genotypes = s0.genotypes := by
              rw [hg, nextEvolver_primed hsp hn]; exact hsg
            have hg2 : sp.genotypes = s0.genotypes := by
              have : ∀ (l : List (Op G K)), (∀ o ∈ l, isEvolve o = false) →
                  ∀ (a b : Ga G X K), Consistent pb a → runOps pb l a = (.ok (), b) →
                  b.genotypes = a.genotypes := by
                intro l
                induction l with
                | nil => intro _ a b _ hab; simp [runOps] at hab; rw [hab]
                | cons o l ihl =>
                  intro hl a b ha hab
                  simp only [runOps] at hab
                  split at hab
                  · simp at hab
                  · rename_i a' ha'
                    have := runOp_read (hl o (by simp)) ha ha'
                    rw [ihl (fun o ho => hl o (by simp [ho])) a' b this.2 hab, this.1.genotypes]
              exact this pre (fun o ho => hno o (hlt.subset ho)) s0 sp hc0 hsp'
            intro xs hd
            rw [hg2, ← hg1] at hd
            exact hnb xs hd
        · cases hd
        · cases hd
    · have hev' : isEvolve o = false := by simpa using hev
      obtain ⟨hcore, hcons⟩ := runOp_read hev' I.cons ho
      refine ⟨hcons, ?_, ?_⟩
      · intro hall
        obtain ⟨a1, a2, a3, a4, a5⟩ := I.fresh (fun o ho => hall o (by simp [ho]))
        exact ⟨hcore.phase.trans a1, hcore.champion.trans a2, hcore.genotypes.trans a3,
          hcore.x.trans a4, hcore.fn.trans a5⟩
      · rintro ⟨o', ho', hev2⟩
        have ho'' : o' ∈ ops := by
          rcases List.mem_append.mp ho' with h' | h'
          · exact h'
          · simp only [List.mem_singleton] at h'; subst h'; rw [hev'] at hev2; cases hev2
        obtain ⟨b1, c, b2, b3, b4, ⟨pre, hpre, sp, hsp, hmem⟩, hall⟩ := I.run ⟨o', ho'', hev2⟩
        refine ⟨hcore.phase.trans b1, c, hcore.champion.trans b2, hcore.x.trans b3,
          hcore.fn.trans b4, ⟨pre, hpre.trans (List.prefix_append _ _), sp, hsp, hmem⟩, ?_⟩
        intro pre' hpre' sp' hsp'
        rcases List.prefix_concat_iff.mp hpre' with heq | hlt
        · subst heq
          rw [h] at hsp'
          simp only [Prod.mk.injEq, true_and] at hsp'
          subst hsp'
          intro xs hd
          rw [hcore.genotypes] at hd
          exact hall ops (List.prefix_refl _) s hs xs hd
        · exact hall pre' hlt sp' hsp'

/-! ### counting evaluations -/

theorem evolve1_nfev {pb : Problem G X K} {breed : List G → List K → Py (List G)}
    {s t : Ga G X K} {N : ℕ} (hN : ∀ gs xs, pb.decode gs = .ok xs → xs.length = N)
    (hs : Consistent pb s) (he : evolve1 pb breed s = (.ok (), t)) :
    t.fitness ≠ none ∧
    (s.phase = .primed → t.state.n_fev = s.state.n_fev + (if s.fitness = none then N else 0)) ∧
    (s.phase = .running →
      t.state.n_fev = s.state.n_fev + (if s.fitness = none then N else 0) + N) := by
  obtain ⟨s1, c, hn, hs1, -, -, -, -, -, -, -, u, hbc, -, rfl⟩ := evolve1_ok hs he
  obtain ⟨-, -, xs, hd, hf, hfev⟩ := bestCandidate_ok hs1 hbc
  refine ⟨hf, ?_, ?_⟩
  · intro hp
    have := nextEvolver_primed hp hn
    subst this
    rw [hN _ _ hd] at hfev
    exact hfev
  · intro hp
    obtain ⟨xs', ys, gs, hd', _, _, _, hf1, hfev1⟩ := nextEvolver_running hs hp hn
    rw [hf1, if_pos rfl, hN _ _ hd, hfev1, hN _ _ hd'] at hfev
    exact hfev

theorem runOp_read_nfev {pb : Problem G X K} {o : Op G K} (ho : isEvolve o = false)
    {s t : Ga G X K} {N : ℕ} (hN : ∀ gs xs, pb.decode gs = .ok xs → xs.length = N)
    (hs : Consistent pb s) (h : runOp pb o s = (.ok (), t)) :
    (t.state.n_fev = s.state.n_fev ∧ t.fitness = s.fitness) ∨
    (s.fitness = none ∧ t.fitness ≠ none ∧ t.state.n_fev = s.state.n_fev + N) ∨
    (s.fitness ≠ none ∧ t.fitness ≠ none ∧ t.state.n_fev = s.state.n_fev) := by
  cases o with
  | evolve b => simp [isEvolve] at ho
  | readFitness =>
    simp only [runOp] at h
    split at h
    · simp at h
    · rename_i ys u hu
      simp only [Prod.mk.injEq, true_and] at h
      subst h
      obtain ⟨xs, hd, _, _, hf, hfev⟩ := getFitness_ok hs hu
      rw [hN _ _ hd] at hfev
      by_cases hsf : s.fitness = none
      · rw [if_pos hsf] at hfev
        exact Or.inr (Or.inl ⟨hsf, by rw [hf]; simp, hfev⟩)
      · rw [if_neg hsf] at hfev
        exact Or.inr (Or.inr ⟨hsf, by rw [hf]; simp, hfev⟩)
  | readPhenotypes =>
    simp only [runOp] at h
    have h3 := getPhenotypes_nfev pb s
    split at h
    · simp at h
    · rename_i ys u hu
      simp only [Prod.mk.injEq, true_and] at h
      subst h
      rw [hu] at h3
      exact Or.inl h3
  | bestCandidate =>
    simp only [runOp] at h
    split at h
    · simp at h
    · rename_i ys u hu
      simp only [Prod.mk.injEq, true_and] at h
      subst h
      obtain ⟨-, -, xs, hd, hf, hfev⟩ := bestCandidate_ok hs hu
      rw [hN _ _ hd] at hfev
      by_cases hsf : s.fitness = none
      · rw [if_pos hsf] at hfev
        exact Or.inr (Or.inl ⟨hsf, hf, hfev⟩)
      · rw [if_neg hsf] at hfev
        exact Or.inr (Or.inr ⟨hsf, hf, hfev⟩)

theorem nfev_inv {pb : Problem G X K} {s0 : Ga G X K} {N : ℕ}
    (hN : ∀ gs xs, pb.decode gs = .ok xs → xs.length = N)
    (hc0 : Consistent pb s0)
    (hp0 : s0.phase = .primed) (hch0 : s0.champion = none) (hx0 : s0.state.x = none)
    (hf0 : s0.state.fn = none) (hn0 : s0.state.n_fev = 0) (hfit : s0.fitness = none) :
    ∀ (ops : List (Op G K)) (s : Ga G X K), runOps pb ops s0 = (.ok (), s) →
      (ops.countP isEvolve = 0 → s.state.n_fev = if s.fitness = none then 0 else N) ∧
      (0 < ops.countP isEvolve → s.fitness ≠ none ∧ s.state.n_fev = N * ops.countP isEvolve) := by
  intro ops
  induction ops using List.reverseRecOn with
  | nil =>
    intro s h
    simp only [runOps, Prod.mk.injEq, true_and] at h
    subst h
    simp [hn0, hfit]
  | append_singleton ops o ih =>
    intro t h
    obtain ⟨s, hs, ho⟩ := runOps_snoc h
    have I := histInv hc0 hp0 hch0 hx0 hf0 ops s hs
    obtain ⟨ih1, ih2⟩ := ih s hs
    rw [List.countP_append]
    by_cases hev : isEvolve o = true
    · obtain ⟨b, rfl⟩ : ∃ b, o = .evolve b := by
        cases o <;> simp [isEvolve] at hev ⊢
      have ho' : evolve1 pb b s = (.ok (), t) := ho
      have hcount : [(.evolve b : Op G K)].countP isEvolve = 1 := by simp [isEvolve]
      rw [hcount]
      refine ⟨by omega, fun _ => ?_⟩
      obtain ⟨q1, q2, q3⟩ := evolve1_nfev hN I.cons ho'
      refine ⟨q1, ?_⟩
      by_cases hz : ops.countP isEvolve = 0
      · have hno : ∀ o ∈ ops, isEvolve o = false := by
          simpa using hz
        rw [q2 (I.fresh hno).1, ih1 hz, hz]
        by_cases hsf : s.fitness = none <;> simp [hsf]
      · have hpos : 0 < ops.countP isEvolve := Nat.pos_of_ne_zero hz
        obtain ⟨r1, r2⟩ := ih2 hpos
        have hex : ∃ o ∈ ops, isEvolve o = true := by
          simpa using hpos
        rw [q3 (I.run hex).1, r2, if_neg r1]
        ring
    · have hev' : isEvolve o = false := by simpa using hev
      have hcount : [o].countP isEvolve = 0 := by simp [hev']
      rw [hcount, Nat.add_zero]
      have q := runOp_read_nfev hev' hN I.cons ho
      refine ⟨fun hz => ?_, fun hpos => ?_⟩
      · have := ih1 hz
        rcases q with ⟨a, b⟩ | ⟨a, b, c⟩ | ⟨a, b, c⟩
        · rw [a, b, this]
        · rw [c, this, if_pos a, if_neg b, Nat.zero_add]
        · rw [c, this, if_neg a, if_neg b]
      · obtain ⟨r1, r2⟩ := ih2 hpos
        rcases q with ⟨a, b⟩ | ⟨a, b, c⟩ | ⟨a, b, c⟩
        · exact ⟨by rw [b]; exact r1, by rw [a]; exact r2⟩
        · exact absurd a r1
        · exact ⟨b, by rw [c]; exact r2⟩

end Verif.GA
