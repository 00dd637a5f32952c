import Verif.Model.GANan
import Verif.Proofs.BGARun

/-! # Helper lemmas for `Props/GANan.lean` -/

set_option linter.unusedSectionVars false

namespace Verif.GANan
open Verif Verif.GA
variable {G X : Type*} {K : Type} [LinearOrder K]

/-! ### comparisons -/

theorem ltF_coe (a b : K) : ltF (a : WithTop K) (b : WithTop K) = decide (a < b) := rfl

theorem leF_coe (a b : K) : leF (a : WithTop K) (b : WithTop K) = decide (a ≤ b) := rfl

theorem ltF_top_left (b : WithTop K) : ltF ⊤ b = false := by cases b <;> rfl

theorem ltF_top_right (a : WithTop K) : ltF a ⊤ = false := by cases a <;> rfl

theorem replaces_top_left (m : Bool) (b : WithTop K) : replaces m ⊤ b = false := by
  cases m <;> simp [replaces, ltF_top_left, ltF_top_right]

theorem replaces_top_right (m : Bool) (a : WithTop K) : replaces m a ⊤ = false := by
  cases m <;> simp [replaces, ltF_top_left, ltF_top_right]

theorem replaces_coe (m : Bool) (a b : K) :
    replaces m (a : WithTop K) (b : WithTop K) = betterThan m a b := by
  cases m <;> rfl

/-! ### argmax and argmin -/

/-- without undefined values the search is the one of `Model/GA.lean` -/
theorem argAux_coe (m : Bool) : ∀ (ys : List K) (best : ℕ) (v : K) (i : ℕ),
    argAux m best (v : WithTop K) i (ys.map (WithTop.some : K → WithTop K)) =
      argBestAux (betterThan m) best v i ys := by
  intro ys
  induction ys with
  | nil => intro best v i; rfl
  | cons y ys ih =>
    intro best v i
    have h : (if m then leF (v : WithTop K) (y : WithTop K) else leF (y : WithTop K) (v : WithTop K)) =
        !betterThan m y v := by
      cases m
      · simp only [Bool.false_eq_true, if_false, leF_coe, betterThan]
        by_cases hc : y ≤ v <;> simp [hc, not_le.mp]
      · simp only [if_true, leF_coe, betterThan]
        by_cases hc : v ≤ y <;> simp [hc, not_le.mp]
    rw [List.map_cons]
    show (if (if m then leF (v : WithTop K) (y : WithTop K) else leF (y : WithTop K) (v : WithTop K)) then
      argAux m best (v : WithTop K) (i + 1) _ else argAux m i (y : WithTop K) (i + 1) _) = _
    rw [h, ih, ih]
    have hr : argBestAux (betterThan m) best v i (y :: ys) = if betterThan m y v then
        argBestAux (betterThan m) i y (i + 1) ys else argBestAux (betterThan m) best v (i + 1) ys := rfl
    rw [hr]
    cases betterThan m y v <;> simp

theorem argBest_coe (m : Bool) (ys : List K) :
    argBest m (ys.map (WithTop.some : K → WithTop K)) = GA.argBest (betterThan m) ys := by
  cases ys with
  | nil => rfl
  | cons y ys => exact congrArg Except.ok (argAux_coe m ys 0 y 1)

/-- with an undefined value the search finds the first one -/
theorem argAux_top (m : Bool) : ∀ (ys pre : List (WithTop K)) (best : ℕ) (v : WithTop K),
    pre[best]? = some v → (∀ j, j < best → pre[j]? ≠ some (⊤ : WithTop K)) →
    (v ≠ ⊤ → ∀ j : ℕ, pre[j]? ≠ some (⊤ : WithTop K)) → ⊤ ∈ pre ++ ys →
    (pre ++ ys)[argAux m best v pre.length ys]? = some ⊤ ∧
      ∀ j, j < argAux m best v pre.length ys → (pre ++ ys)[j]? ≠ some ⊤ := by
  intro ys
  induction ys with
  | nil =>
    intro pre best v hv hb hn ht
    rw [List.append_nil] at ht ⊢
    obtain ⟨j, hj⟩ := List.mem_iff_getElem?.mp ht
    have hvt : v = ⊤ := by
      by_contra hne; exact hn hne j hj
    subst hvt
    have : argAux m best (⊤ : WithTop K) pre.length [] = best := rfl
    rw [this]
    exact ⟨hv, hb⟩
  | cons y ys ih =>
    intro pre best v hv hb hn ht
    have hbl : best < pre.length := (List.getElem?_eq_some_iff.mp hv).1
    cases v with
    | top =>
      have h0 : argAux m best (⊤ : WithTop K) pre.length (y :: ys) = best := rfl
      rw [h0]
      refine ⟨by rw [List.getElem?_append_left hbl]; exact hv, fun j hj => ?_⟩
      rw [List.getElem?_append_left (by omega)]
      exact hb j hj
    | coe v =>
      have hn' := hn (WithTop.coe_ne_top)
      have hstep : argAux m best (v : WithTop K) pre.length (y :: ys) =
          if (if m then leF (v : WithTop K) y else leF y (v : WithTop K)) then
            argAux m best (v : WithTop K) (pre.length + 1) ys
          else argAux m pre.length y (pre.length + 1) ys := rfl
      rw [hstep]
      have hl : (pre ++ [y]).length = pre.length + 1 := by simp
      have happ : pre ++ y :: ys = (pre ++ [y]) ++ ys := by simp
      rw [happ] at ht ⊢
      cases y with
      | top =>
        have hc : (if m then leF (v : WithTop K) (⊤ : WithTop K) else leF (⊤ : WithTop K) (v : WithTop K)) =
            false := by cases m <;> rfl
        rw [hc]
        simp only [Bool.false_eq_true, if_false]
        rw [← hl]
        refine ih (pre ++ [⊤]) pre.length ⊤ (by simp) ?_ (by simp) ht
        intro j hj
        rw [List.getElem?_append_left hj]
        exact hn' j
      | coe y =>
        have hall : ∀ j : ℕ, (pre ++ [(y : WithTop K)])[j]? ≠ some (⊤ : WithTop K) := by
          intro j hj
          have := List.mem_of_getElem? hj
          rcases List.mem_append.mp this with h | h
          · obtain ⟨k, hk⟩ := List.mem_iff_getElem?.mp h; exact hn' k hk
          · simp at h
        generalize (if m = true then leF (v : WithTop K) (y : WithTop K)
          else leF (y : WithTop K) (v : WithTop K)) = b
        rw [← hl]
        cases b
        · simp only [Bool.false_eq_true, if_false]
          exact ih (pre ++ [(y : WithTop K)]) pre.length y (by simp) (fun j _ => hall j) (fun _ => hall) ht
        · simp only [if_true]
          exact ih (pre ++ [(y : WithTop K)]) best v (by rw [List.getElem?_append_left hbl]; exact hv)
            (fun j _ => hall j) (fun _ => hall) ht

theorem argBest_top {m : Bool} {ys : List (WithTop K)} {i : ℕ} (h : argBest m ys = .ok i)
    (ht : ⊤ ∈ ys) : ys[i]? = some ⊤ ∧ ∀ j, j < i → ys[j]? ≠ some ⊤ := by
  cases ys with
  | nil => simp at ht
  | cons y ys =>
    simp only [argBest, Except.ok.injEq] at h
    subst h
    have := argAux_top m ys [y] 0 y (by simp) (by simp) (by
      intro hy j hj
      have := List.mem_of_getElem? hj
      simp only [List.mem_singleton] at this
      exact hy this.symm) (by simpa using ht)
    simpa using this

/-- a list without undefined values consists of numbers -/
theorem exists_coe {ys : List (WithTop K)} (h : ⊤ ∉ ys) :
    ∃ zs : List K, ys = zs.map (WithTop.some : K → WithTop K) := by
  induction ys with
  | nil => exact ⟨[], rfl⟩
  | cons y ys ih =>
    obtain ⟨zs, rfl⟩ := ih (fun hm => h (List.mem_cons_of_mem _ hm))
    cases y with
    | top => simp at h
    | coe y => exact ⟨y :: zs, rfl⟩

theorem argBest_num {m : Bool} {ys : List (WithTop K)} {i : ℕ} (h : argBest m ys = .ok i)
    (ht : ⊤ ∉ ys) : ∃ v : K, ys[i]? = some (v : WithTop K) ∧
      ∀ w : K, (w : WithTop K) ∈ ys → betterThan m w v = false := by
  obtain ⟨zs, rfl⟩ := exists_coe ht
  rw [argBest_coe] at h
  obtain ⟨v, hv, hall⟩ := argBest_spec h
  refine ⟨v, by rw [List.getElem?_map, hv]; rfl, ?_⟩
  intro w hw
  obtain ⟨z, hz, hzw⟩ := List.mem_map.mp hw
  rw [WithTop.coe_inj] at hzw
  subst hzw
  exact hall z hz

theorem argBest_ok {m : Bool} {ys : List (WithTop K)} (h : ys ≠ []) :
    ∃ i, argBest m ys = .ok i ∧ i < ys.length := by
  by_cases ht : ⊤ ∈ ys
  · cases ys with
    | nil => exact absurd rfl h
    | cons y ys =>
      refine ⟨_, rfl, ?_⟩
      have := (argBest_top (m := m) (i := argAux m 0 y 1 ys) rfl ht).1
      exact (List.getElem?_eq_some_iff.mp this).1
  · cases ys with
    | nil => exact absurd rfl h
    | cons y ys =>
      refine ⟨_, rfl, ?_⟩
      obtain ⟨v, hv, -⟩ := argBest_num (m := m) (i := argAux m 0 y 1 ys) rfl ht
      exact (List.getElem?_eq_some_iff.mp hv).1

/-! ### one cycle -/

/-- the objective values of a population -/
def Vals (pb : Problem G X (WithTop K)) (gs : List G) (ys : List (WithTop K)) : Prop :=
  ∃ xs, pb.decode gs = .ok xs ∧ pyMap pb.fnc xs = .ok ys

theorem Vals.unique {pb : Problem G X (WithTop K)} {gs : List G} {ys zs : List (WithTop K)}
    (h : Vals pb gs ys) (h' : Vals pb gs zs) : ys = zs := by
  obtain ⟨xs, h1, h2⟩ := h
  obtain ⟨xs', h3, h4⟩ := h'
  rw [h1] at h3; cases h3
  rw [h2] at h4; cases h4
  rfl

/-- `c` is the candidate found in a population -/
structure IsCandidate (pb : Problem G X (WithTop K)) (gs : List G) (c : Genom G X (WithTop K)) : Prop where
  ex : ∃ xs ys i, pb.decode gs = .ok xs ∧ pyMap pb.fnc xs = .ok ys ∧ argBest pb.minimize ys = .ok i ∧
    xs[i]? = some c.phenotype ∧ gs[i]? = some c.genotype ∧ ys[i]? = some c.fitness

theorem bestCandidate_core (pb : Problem G X (WithTop K)) (s : Ga G X (WithTop K)) :
    SameCore s (bestCandidate pb s).2 := by
  have h1 := getFitness_core pb s
  unfold bestCandidate
  split
  · rename_i e s1 he; rw [he] at h1; exact h1
  · rename_i ys s1 he
    rw [he] at h1
    split
    · exact h1
    · have h2 := getPhenotypes_core pb s1
      split
      · rename_i e s2 he2; rw [he2] at h2; exact h1.trans h2
      · rename_i xs s2 he2
        rw [he2] at h2
        split <;> exact h1.trans h2

theorem bestCandidate_consistent {pb : Problem G X (WithTop K)} {s : Ga G X (WithTop K)}
    (h : Consistent pb s) : Consistent pb (bestCandidate pb s).2 := by
  have h1 := getFitness_consistent h
  unfold bestCandidate
  split
  · rename_i e s1 he; rw [he] at h1; exact h1
  · rename_i ys s1 he
    rw [he] at h1
    split
    · exact h1
    · have h2 := getPhenotypes_consistent h1
      split
      · rename_i e s2 he2; rw [he2] at h2; exact h2
      · rename_i xs s2 he2
        rw [he2] at h2
        split <;> exact h2

theorem bestCandidate_ok {pb : Problem G X (WithTop K)} {s t : Ga G X (WithTop K)}
    {c : Genom G X (WithTop K)} (h : Consistent pb s) (hb : bestCandidate pb s = (.ok c, t)) :
    IsCandidate pb s.genotypes c := by
  unfold bestCandidate at hb
  split at hb
  · simp at hb
  · rename_i ys s1 he
    obtain ⟨xs, hd, hm, hp, hf, hn⟩ := getFitness_ok h he
    have hc := getFitness_core pb s
    rw [he] at hc
    simp only at hc
    split at hb
    · simp at hb
    · rename_i i hi
      have hs1 : Consistent pb s1 := by have := getFitness_consistent h; rw [he] at this; exact this
      split at hb
      · simp at hb
      · rename_i xs' s2 he2
        have h2 := getPhenotypes_ok hs1 he2
        have hc2 := getPhenotypes_core pb s1
        rw [he2] at hc2
        simp only at hc2
        rw [hc.genotypes, hd] at h2
        obtain ⟨h21, h22⟩ := h2
        cases h21
        split at hb
        · rename_i x g y hx hg hy
          simp only [Prod.mk.injEq, Except.ok.injEq] at hb
          obtain ⟨rfl, rfl⟩ := hb
          rw [pyGet_eq_ok_iff] at hx hg hy
          refine ⟨xs, ys, i, hd, hm, hi, hx, ?_, hy⟩
          rw [← hc.genotypes, ← hc2.genotypes]; exact hg
        · simp at hb

theorem bestCandidate_succeeds {pb : Problem G X (WithTop K)} {s : Ga G X (WithTop K)}
    (hs : Consistent pb s) {xs : List X} (hd : pb.decode s.genotypes = .ok xs)
    (hl : xs.length = s.genotypes.length) {ys : List (WithTop K)} (hy : pyMap pb.fnc xs = .ok ys)
    (hne : s.genotypes ≠ []) : ∃ c t, bestCandidate pb s = (.ok c, t) := by
  obtain ⟨s1, h1⟩ := BGA.getFitness_succeeds hs hd hy
  have hc := getFitness_core pb s
  have hcons := getFitness_consistent hs
  rw [h1] at hc hcons
  simp only at hc hcons
  have hyl : ys.length = s.genotypes.length := by
    rw [← (pyMap_eq_ok_iff.mp hy).length_eq, hl]
  have hpos : 0 < s.genotypes.length := List.length_pos_iff.mpr hne
  obtain ⟨i, hi, hil⟩ := argBest_ok (m := pb.minimize) (ys := ys) (by
    intro h0; subst h0; simp at hyl; omega)
  obtain ⟨s2, h2⟩ := BGA.getPhenotypes_succeeds hcons (xs := xs) (by rw [hc.genotypes]; exact hd)
  have hc2 := getPhenotypes_core pb s1
  rw [h2] at hc2
  simp only at hc2
  unfold bestCandidate
  simp only [h1, hi, h2]
  rw [pyGet_ok (show i < xs.length by omega), pyGet_ok (show i < s2.genotypes.length by
    rw [hc2.genotypes, hc.genotypes]; omega), pyGet_ok (show i < ys.length by omega)]
  exact ⟨_, _, rfl⟩

/-- effect of a successful cycle -/
theorem evolve1_ok {pb : Problem G X (WithTop K)} {breed : List G → List (WithTop K) → Py (List G)}
    {s t : Ga G X (WithTop K)} (h : Consistent pb s) (he : evolve1 pb breed s = (.ok (), t)) :
    Consistent pb t ∧ t.phase = .running ∧ t.state.n_iter = s.state.n_iter ∧
      t.state.success = s.state.success ∧ t.status = s.status ∧
      (s.phase = .primed → t.genotypes = s.genotypes) ∧
      (s.phase = .running → ∃ ys, Vals pb s.genotypes ys ∧ breed s.genotypes ys = .ok t.genotypes) ∧
      ∃ c c', IsCandidate pb t.genotypes c ∧ t.champion = some c' ∧ t.state.fn = some c'.fitness ∧
        t.state.x = some c'.phenotype ∧
        ((s.champion = none ∧ c' = { c with age := 1 }) ∨
         (∃ d, s.champion = some d ∧ replaces pb.minimize c.fitness d.fitness = true ∧
            c' = { c with age := 1 }) ∨
         (∃ d, s.champion = some d ∧ replaces pb.minimize c.fitness d.fitness = false ∧
            c' = { d with age := d.age + 1 })) := by
  unfold evolve1 at he
  split at he
  · simp at he
  · rename_i s1 hn
    have hn0 := hn
    have key : Consistent pb s1 ∧ s1.champion = s.champion ∧
        s1.state.n_iter = s.state.n_iter ∧ s1.phase = .running ∧
        s1.state.success = s.state.success ∧ s1.status = s.status := by
      unfold nextEvolver at hn
      split at hn
      · simp only [Prod.mk.injEq, true_and] at hn
        subst hn
        exact ⟨h, rfl, rfl, rfl, rfl, rfl⟩
      · simp at hn
      · rename_i hph
        split at hn
        · simp at hn
        · rename_i ys s2 hf
          have hc := getFitness_core pb s
          rw [hf] at hc
          split at hn
          · simp at hn
          · rename_i gs hb
            simp only [Prod.mk.injEq, true_and] at hn
            subst hn
            exact ⟨by simp [Consistent, setGenotypes], hc.champion, hc.n_iter, hc.phase.trans hph,
              hc.success, hc.status⟩
    obtain ⟨hs1, hch, hit, hph, hsu, hst⟩ := key
    split at he
    · simp at he
    · rename_i c s2 hb
      simp only [Prod.mk.injEq, true_and] at he
      subst he
      have hc := bestCandidate_core pb s1
      have hcons := bestCandidate_consistent hs1
      have hcand := bestCandidate_ok hs1 hb
      rw [hb] at hc hcons
      simp only at hc hcons
      have hg : (celebrate pb.minimize s2 c).genotypes = s1.genotypes := hc.genotypes
      refine ⟨hcons, hc.phase.trans hph, hc.n_iter.trans hit, hc.success.trans hsu, hc.status.trans hst,
        ?_, ?_, ?_⟩
      · intro hp
        rw [hg, nextEvolver_primed hp hn0]
      · intro hp
        obtain ⟨xs, ys, gs, e1, e2, e3, e4, -⟩ := nextEvolver_running h hp hn0
        exact ⟨ys, ⟨xs, e1, e2⟩, by rw [hg, e4]; exact e3⟩
      · have hch2 : s2.champion = s.champion := hc.champion.trans hch
        rw [hg]
        cases hsc : s.champion with
        | none =>
          rw [hsc] at hch2
          refine ⟨c, _, hcand, by simp only [celebrate, hch2], by simp [celebrate, hch2],
            by simp [celebrate, hch2], Or.inl ⟨rfl, rfl⟩⟩
        | some d =>
          rw [hsc] at hch2
          cases hr : replaces pb.minimize c.fitness d.fitness with
          | true =>
            refine ⟨c, _, hcand, by simp only [celebrate, hch2, hr, if_true],
              by simp [celebrate, hch2, hr], by simp [celebrate, hch2, hr],
              Or.inr (Or.inl ⟨d, rfl, hr, rfl⟩)⟩
          | false =>
            refine ⟨c, _, hcand, by simp only [celebrate, hch2, hr]; rfl,
              by simp [celebrate, hch2, hr], by simp [celebrate, hch2, hr],
              Or.inr (Or.inr ⟨d, rfl, hr, rfl⟩)⟩

/-- the candidate of a population with an undefined value is its first undefined member -/
theorem IsCandidate.top {pb : Problem G X (WithTop K)} {gs : List G} {c : Genom G X (WithTop K)}
    (h : IsCandidate pb gs c) {ys : List (WithTop K)} (hy : Vals pb gs ys) (ht : ⊤ ∈ ys) :
    c.fitness = ⊤ ∧ ∃ i : ℕ, gs[i]? = some c.genotype ∧ ys[i]? = some ⊤ ∧ ∀ j, j < i → ys[j]? ≠ some ⊤ := by
  obtain ⟨xs, zs, i, h1, h2, h3, h4, h5, h6⟩ := h.ex
  have := hy.unique ⟨xs, h1, h2⟩
  subst this
  obtain ⟨e1, e2⟩ := argBest_top h3 ht
  rw [e1] at h6
  exact ⟨(Option.some.inj h6).symm, i, h5, e1, e2⟩

theorem IsCandidate.num {pb : Problem G X (WithTop K)} {gs : List G} {c : Genom G X (WithTop K)}
    (h : IsCandidate pb gs c) {ys : List (WithTop K)} (hy : Vals pb gs ys) (ht : ⊤ ∉ ys) :
    ∃ v : K, c.fitness = v ∧ (v : WithTop K) ∈ ys ∧
      ∀ w : K, (w : WithTop K) ∈ ys → betterThan pb.minimize w v = false := by
  obtain ⟨xs, zs, i, h1, h2, h3, h4, h5, h6⟩ := h.ex
  have := hy.unique ⟨xs, h1, h2⟩
  subst this
  obtain ⟨v, e1, e2⟩ := argBest_num h3 ht
  have e3 := e1
  rw [h6] at e1
  exact ⟨v, Option.some.inj e1, List.mem_of_getElem? e3, e2⟩

theorem IsCandidate.vals {pb : Problem G X (WithTop K)} {gs : List G} {c : Genom G X (WithTop K)}
    (h : IsCandidate pb gs c) : ∃ ys, Vals pb gs ys := by
  obtain ⟨xs, zs, i, h1, h2, -⟩ := h.ex
  exact ⟨zs, xs, h1, h2⟩

theorem evolve1_succeeds {pb : Problem G X (WithTop K)}
    {breed : List G → List (WithTop K) → Py (List G)}
    {s : Ga G X (WithTop K)} (hs : Consistent pb s) (hph : s.phase ≠ .dead)
    {xs : List X} (hd : pb.decode s.genotypes = .ok xs) (hl : xs.length = s.genotypes.length)
    {ys : List (WithTop K)} (hy : pyMap pb.fnc xs = .ok ys) (hne : s.genotypes ≠ [])
    (hb : ∃ gs, breed s.genotypes ys = .ok gs ∧ gs ≠ [] ∧ ∃ xs', pb.decode gs = .ok xs' ∧
      xs'.length = gs.length ∧ ∃ ys', pyMap pb.fnc xs' = .ok ys') :
    ∃ t, evolve1 pb breed s = (.ok (), t) := by
  obtain ⟨gs, hgs, hgne, xs', hd', hl', ys', hy'⟩ := hb
  cases hp : s.phase with
  | dead => exact absurd hp hph
  | primed =>
    obtain ⟨c, t, hc⟩ := bestCandidate_succeeds (s := { s with phase := .running }) hs hd hl hy hne
    unfold evolve1 nextEvolver
    simp only [hp, hc]
    exact ⟨_, rfl⟩
  | running =>
    obtain ⟨t, ht⟩ := BGA.getFitness_succeeds hs hd hy
    have hcore := getFitness_core pb s
    rw [ht] at hcore
    obtain ⟨c, u, hc⟩ := bestCandidate_succeeds (pb := pb) (s := setGenotypes t gs)
      (by simp [Consistent, setGenotypes]) hd' hl' hy' hgne
    unfold evolve1 nextEvolver
    have hgt : t.genotypes = s.genotypes := hcore.genotypes
    simp only [hp, ht, hgt, hgs, hc]
    exact ⟨_, rfl⟩

/-! ### the binary GA -/

section
variable {V : Type} [LinearOrder V] {F : Type} [Field F] [LinearOrder F]

/-- the optimizer between cycles -/
structure RunInv (cfg : BGA.Config F) (fnc : List F → Py (WithTop V))
    (s : Ga (List ℤ) (List F) (WithTop V)) : Prop where
  cons : Consistent (problem cfg fnc) s
  good : BGA.Good cfg s.genotypes
  phase : s.phase ≠ .dead

theorem good_decode {cfg : BGA.Config F} {gs : List (List ℤ)} (h : BGA.Good cfg gs)
    (fnc : List F → Py (WithTop V)) :
    (problem cfg fnc).decode gs = .ok (gs.map (BGA.decodeRow cfg.dim cfg.length cfg.ranges)) :=
  BGA.decode_rows h.1 fun g hg => (h.2 g hg).1

theorem evolve1_run {cfg : BGA.Config F} {argsort : List (WithTop V) → List ℕ}
    (ha : IsArgsort argsort)
    {D : BGA.CycleDraws F} (hD : BGA.IsCycleDraws (cfg.dim * cfg.length) D)
    (hN4 : 4 ∣ cfg.nPop) (hN8 : 8 ≤ cfg.nPop) (hn : 3 ≤ cfg.dim * cfg.length)
    (hel : BGA.Workable cfg.nPop cfg.elitism) {fnc : List F → Py (WithTop V)}
    (hfnc : ∀ x, ∃ y, fnc x = .ok y)
    {s : Ga (List ℤ) (List F) (WithTop V)} (hs : RunInv cfg fnc s) :
    ∃ t, evolve1 (problem cfg fnc) (BGA.breed cfg argsort D) s = (.ok (), t) ∧ RunInv cfg fnc t ∧
      (s.phase = .running → ∃ ys rest, Vals (problem cfg fnc) s.genotypes ys ∧
        ys.length = cfg.nPop ∧ t.genotypes =
          ((BGA.dirSort argsort cfg.minimize ys).take (BGA.eliteCount cfg.nPop cfg.elitism)).map
              (fun i => s.genotypes.getD i []) ++ rest) := by
  have hd := good_decode hs.good fnc
  obtain ⟨ys, hy⟩ := BGA.pyMap_total hfnc
    (s.genotypes.map (BGA.decodeRow cfg.dim cfg.length cfg.ranges))
  have hyl : ys.length = cfg.nPop := by
    rw [← (pyMap_eq_ok_iff.mp hy).length_eq, List.length_map, hs.good.1]
  obtain ⟨rest, hb, hgood⟩ := BGA.breed_ok ha hD hN4 hN8 hn hel hs.good.1 hs.good.2 hyl
  have hgood' := hgood _ hb
  have hne : ∀ gs : List (List ℤ), gs.length = cfg.nPop → gs ≠ [] := by
    rintro gs h rfl; simp at h; omega
  obtain ⟨ys', hy'⟩ := BGA.pyMap_total hfnc ((((BGA.dirSort argsort cfg.minimize ys).take
    (BGA.eliteCount cfg.nPop cfg.elitism)).map (fun i => s.genotypes.getD i []) ++ rest).map
      (BGA.decodeRow cfg.dim cfg.length cfg.ranges))
  obtain ⟨t, ht⟩ := evolve1_succeeds (breed := BGA.breed cfg argsort D) hs.cons hs.phase hd (by simp) hy
    (hne _ hs.good.1) ⟨_, hb, hne _ hgood'.1, _, good_decode ⟨hgood'.1, hgood'.2⟩ fnc, by simp, ys', hy'⟩
  obtain ⟨htc, htp, -, -, -, h1, h2, -⟩ := evolve1_ok hs.cons ht
  have hkey : s.phase = .running → t.genotypes =
          ((BGA.dirSort argsort cfg.minimize ys).take (BGA.eliteCount cfg.nPop cfg.elitism)).map
              (fun i => s.genotypes.getD i []) ++ rest := by
    intro hp
    obtain ⟨zs, e1, e2⟩ := h2 hp
    have := e1.unique ⟨_, hd, hy⟩
    subst this
    rw [hb] at e2
    exact (Except.ok.inj e2).symm
  refine ⟨t, ht, ⟨htc, ?_, by rw [htp]; simp⟩, fun hp => ⟨ys, rest, ⟨_, hd, hy⟩, hyl, hkey hp⟩⟩
  cases hp : s.phase with
  | dead => exact absurd hp hs.phase
  | primed => rw [h1 hp]; exact hs.good
  | running => rw [hkey hp]; exact hgood'

/-- sorted for a maximum, undefined values come first -/
theorem dirSort_top {argsort : List (WithTop V) → List ℕ} (ha : IsArgsort argsort)
    {ys : List (WithTop V)} (ht : ⊤ ∈ ys) :
    ∃ i, (BGA.dirSort argsort false ys)[0]? = some i ∧ ys[i]? = some ⊤ := by
  have hperm := BGA.dirSort_perm ha false ys
  have hpw := BGA.dirSort_pairwise ha false ys
  obtain ⟨j, hj⟩ := List.mem_iff_getElem?.mp ht
  have hjl := (List.getElem?_eq_some_iff.mp hj).1
  have hjm : j ∈ BGA.dirSort argsort false ys := by
    rw [hperm.mem_iff, List.mem_range]; exact hjl
  obtain ⟨q, hq, hqj⟩ := List.mem_iff_getElem.mp hjm
  have h0 : (BGA.dirSort argsort false ys)[0] ∈ BGA.dirSort argsort false ys := List.getElem_mem (by omega)
  rw [hperm.mem_iff, List.mem_range] at h0
  refine ⟨(BGA.dirSort argsort false ys)[0], List.getElem?_eq_getElem (by omega), ?_⟩
  rcases Nat.eq_zero_or_pos q with hq0 | hq0
  · subst hq0; rw [hqj]; exact hj
  · have := List.pairwise_iff_getElem.mp hpw 0 q (by omega) hq hq0 _ ⊤
      (List.getElem?_eq_getElem h0) (by rw [hqj]; exact hj)
    rw [List.getElem?_eq_getElem h0]
    simp only [betterThan, Bool.false_eq_true, if_false, decide_eq_false_iff_not, gt_iff_lt,
      not_lt, top_le_iff] at this
    rw [this]

/-- a population of good rows contains an undefined value if one of its rows has one -/
theorem vals_mem {cfg : BGA.Config F} {gs : List (List ℤ)} (h : BGA.Good cfg gs)
    {fnc : List F → Py (WithTop V)} {ys : List (WithTop V)} (hv : Vals (problem cfg fnc) gs ys)
    (y : WithTop V) :
    y ∈ ys ↔ ∃ g ∈ gs, fnc (BGA.decodeRow cfg.dim cfg.length cfg.ranges g) = .ok y := by
  obtain ⟨xs, h1, h2⟩ := hv
  rw [good_decode h] at h1
  cases h1
  have hf := pyMap_eq_ok_iff.mp h2
  have hl := hf.length_eq
  rw [List.length_map] at hl
  constructor
  · intro hy
    obtain ⟨i, hi⟩ := List.mem_iff_getElem?.mp hy
    have hil := (List.getElem?_eq_some_iff.mp hi).1
    have hx : (gs.map (BGA.decodeRow cfg.dim cfg.length cfg.ranges))[i]? =
        some (BGA.decodeRow cfg.dim cfg.length cfg.ranges gs[i]) := by
      rw [List.getElem?_map, List.getElem?_eq_getElem (show i < gs.length by omega)]; rfl
    exact ⟨gs[i], List.getElem_mem _, forall₂_getElem? hf i _ _ hx hi⟩
  · rintro ⟨g, hg, hfg⟩
    obtain ⟨i, hi⟩ := List.mem_iff_getElem?.mp hg
    have hil := (List.getElem?_eq_some_iff.mp hi).1
    have hx : (gs.map (BGA.decodeRow cfg.dim cfg.length cfg.ranges))[i]? =
        some (BGA.decodeRow cfg.dim cfg.length cfg.ranges g) := by
      rw [List.getElem?_map, hi]; rfl
    have := forall₂_getElem? hf i _ _ hx (List.getElem?_eq_getElem (show i < ys.length by omega))
    rw [show (problem cfg fnc).fnc = fnc from rfl, hfg] at this
    rw [Except.ok.inj this]
    exact List.getElem_mem _

end

end Verif.GANan
