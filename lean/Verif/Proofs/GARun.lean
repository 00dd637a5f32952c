import Verif.Model.GA
import Mathlib.Data.List.Infix
import Mathlib.Tactic.Ring
import Mathlib.Tactic.Linarith

set_option linter.unusedSectionVars false

namespace Verif.GA
variable {G X K : Type*} [LinearOrder K]

/-- the caches hold what a fresh computation would give -/
def Consistent (pb : Problem G X K) (s : Ga G X K) : Prop :=
  (∀ xs, s.phenotypes = some xs → pb.decode s.genotypes = .ok xs) ∧
  (∀ ys, s.fitness = some ys → ∃ xs, s.phenotypes = some xs ∧ pyMap pb.fnc xs = .ok ys)

theorem consistent_reset (pb : Problem G X K) (gs : List G) (s : Ga G X K) :
    Consistent pb (reset (.ok gs) s).2 := by
  simp [Consistent, reset, setGenotypes]

/-- everything but the caches and the evaluation counter is kept -/
structure SameCore (s t : Ga G X K) : Prop where
  genotypes : t.genotypes = s.genotypes
  champion : t.champion = s.champion
  phase : t.phase = s.phase
  status : t.status = s.status
  x : t.state.x = s.state.x
  fn : t.state.fn = s.state.fn
  n_iter : t.state.n_iter = s.state.n_iter
  success : t.state.success = s.state.success
  message : t.state.message = s.state.message
  stage : t.state.stage = s.state.stage

theorem SameCore.refl (s : Ga G X K) : SameCore s s := ⟨rfl, rfl, rfl, rfl, rfl, rfl, rfl, rfl, rfl, rfl⟩

theorem SameCore.trans {s t u : Ga G X K} (h : SameCore s t) (h' : SameCore t u) :
    SameCore s u :=
  ⟨h'.1.trans h.1, h'.2.trans h.2, h'.3.trans h.3, h'.4.trans h.4, h'.5.trans h.5,
   h'.6.trans h.6, h'.7.trans h.7, h'.8.trans h.8, h'.9.trans h.9, h'.10.trans h.10⟩

theorem getPhenotypes_core (pb : Problem G X K) (s : Ga G X K) :
    SameCore s (getPhenotypes pb s).2 := by
  unfold getPhenotypes
  split
  · exact SameCore.refl s
  · split
    · exact SameCore.refl s
    · exact ⟨rfl, rfl, rfl, rfl, rfl, rfl, rfl, rfl, rfl, rfl⟩

theorem getPhenotypes_nfev (pb : Problem G X K) (s : Ga G X K) :
    (getPhenotypes pb s).2.state.n_fev = s.state.n_fev ∧
    (getPhenotypes pb s).2.fitness = s.fitness := by
  unfold getPhenotypes
  split
  · exact ⟨rfl, rfl⟩
  · split <;> exact ⟨rfl, rfl⟩

theorem getPhenotypes_consistent {pb : Problem G X K} {s : Ga G X K} (h : Consistent pb s) :
    Consistent pb (getPhenotypes pb s).2 := by
  unfold getPhenotypes
  split
  · exact h
  · rename_i hp
    split
    · exact h
    · rename_i xs hd
      refine ⟨?_, ?_⟩
      · intro xs' hx; simp only [Option.some.injEq] at hx; subst hx; exact hd
      · intro ys hy
        obtain ⟨xs', hx', _⟩ := h.2 ys hy
        rw [hp] at hx'; cases hx'

theorem getPhenotypes_ok {pb : Problem G X K} {s t : Ga G X K} {xs : List X}
    (h : Consistent pb s) (hg : getPhenotypes pb s = (.ok xs, t)) :
    pb.decode s.genotypes = .ok xs ∧ t.phenotypes = some xs := by
  unfold getPhenotypes at hg
  split at hg
  · rename_i xs' hp
    simp only [Prod.mk.injEq, Except.ok.injEq] at hg
    obtain ⟨rfl, rfl⟩ := hg
    exact ⟨h.1 _ hp, hp⟩
  · split at hg
    · simp at hg
    · rename_i xs' hd
      simp only [Prod.mk.injEq, Except.ok.injEq] at hg
      obtain ⟨rfl, rfl⟩ := hg
      exact ⟨hd, rfl⟩

theorem getFitness_core (pb : Problem G X K) (s : Ga G X K) :
    SameCore s (getFitness pb s).2 := by
  unfold getFitness
  split
  · exact SameCore.refl s
  · have h1 := getPhenotypes_core pb s
    split
    · rename_i e s1 he; rw [he] at h1; exact h1
    · rename_i xs s1 he
      rw [he] at h1
      unfold evaluate
      cases pyMap pb.fnc xs with
      | error e => exact h1
      | ok ys =>
        refine h1.trans ⟨rfl, rfl, rfl, rfl, rfl, rfl, rfl, rfl, rfl, rfl⟩

theorem getFitness_consistent {pb : Problem G X K} {s : Ga G X K} (h : Consistent pb s) :
    Consistent pb (getFitness pb s).2 := by
  unfold getFitness
  split
  · exact h
  · have h1 := getPhenotypes_consistent h
    split
    · rename_i e s1 he; rw [he] at h1; exact h1
    · rename_i xs s1 he
      rw [he] at h1
      have h2 := getPhenotypes_ok h he
      have h0 := getPhenotypes_core pb s
      rw [he] at h0
      unfold evaluate
      cases hm : pyMap pb.fnc xs with
      | error e => exact h1
      | ok ys =>
        refine ⟨h1.1, ?_⟩
        intro ys' hy
        simp only [Option.some.injEq] at hy
        subst hy
        exact ⟨xs, h2.2, hm⟩

theorem getFitness_ok {pb : Problem G X K} {s t : Ga G X K} {ys : List K}
    (h : Consistent pb s) (hg : getFitness pb s = (.ok ys, t)) :
    ∃ xs, pb.decode s.genotypes = .ok xs ∧ pyMap pb.fnc xs = .ok ys ∧
      t.phenotypes = some xs ∧ t.fitness = some ys ∧
      t.state.n_fev = s.state.n_fev + (if s.fitness = none then xs.length else 0) := by
  unfold getFitness at hg
  split at hg
  · rename_i ys' hf
    simp only [Prod.mk.injEq, Except.ok.injEq] at hg
    obtain ⟨rfl, rfl⟩ := hg
    obtain ⟨xs, hx, hm⟩ := h.2 _ hf
    exact ⟨xs, h.1 _ hx, hm, hx, hf, by simp [hf]⟩
  · rename_i hf
    split at hg
    · simp at hg
    · rename_i xs s1 he
      have h2 := getPhenotypes_ok h he
      have h3 := getPhenotypes_nfev pb s
      rw [he] at h3
      simp only at h3
      unfold evaluate at hg
      cases hm : pyMap pb.fnc xs with
      | error e => simp [hm] at hg
      | ok ys' =>
        simp only [hm, Prod.mk.injEq, Except.ok.injEq] at hg
        obtain ⟨rfl, rfl⟩ := hg
        exact ⟨xs, h2.1, hm, h2.2, rfl, by simp [h3.1, hf]⟩

theorem betterThan_irrefl (m : Bool) (a : K) : betterThan m a a = false := by
  cases m <;> simp [betterThan]

theorem betterThan_trans {m : Bool} {a b c : K} (h1 : betterThan m a b = true)
    (h2 : betterThan m b c = true) : betterThan m a c = true := by
  cases m <;> simp only [betterThan, if_true, Bool.false_eq_true, if_false,
    decide_eq_true_eq, gt_iff_lt] at *
  · exact h2.trans h1
  · exact h1.trans h2

theorem not_betterThan_trans {m : Bool} {a b c : K} (h1 : betterThan m a b = false)
    (h2 : betterThan m b c = false) : betterThan m a c = false := by
  cases m <;> simp only [betterThan, if_true, Bool.false_eq_true, if_false,
    decide_eq_false_iff_not, not_lt, gt_iff_lt] at *
  · exact h1.trans h2
  · exact h2.trans h1

theorem betterThan_asymm {m : Bool} {a b : K} (h1 : betterThan m a b = true) :
    betterThan m b a = false := by
  cases m <;> simp only [betterThan, if_true, Bool.false_eq_true, if_false,
    decide_eq_true_eq, decide_eq_false_iff_not, not_lt, gt_iff_lt] at *
  · exact h1.le
  · exact h1.le

theorem argBestAux_spec (m : Bool) : ∀ (l pre : List K) (best : ℕ) (v : K),
    pre[best]? = some v → (∀ y ∈ pre, betterThan m y v = false) →
    ∃ w, (pre ++ l)[argBestAux (betterThan m) best v pre.length l]? = some w ∧
      ∀ y ∈ pre ++ l, betterThan m y w = false := by
  intro l
  induction l with
  | nil =>
    intro pre best v h1 h2
    exact ⟨v, by simpa [argBestAux] using h1, by simpa using h2⟩
  | cons a l ih =>
    intro pre best v h1 h2
    have hlt : best < pre.length := (List.getElem?_eq_some_iff.mp h1).1
    unfold argBestAux
    by_cases hb : betterThan m a v = true
    · rw [if_pos hb]
      have := ih (pre ++ [a]) pre.length a (by simp) (by
        intro y hy
        rcases List.mem_append.mp hy with hy | hy
        · exact not_betterThan_trans (h2 y hy) (betterThan_asymm hb)
        · simp only [List.mem_singleton] at hy; subst hy; exact betterThan_irrefl m y)
      simpa using this
    · rw [if_neg hb]
      have := ih (pre ++ [a]) best v (by rw [List.getElem?_append_left hlt]; exact h1) (by
        intro y hy
        rcases List.mem_append.mp hy with hy | hy
        · exact h2 y hy
        · simp only [List.mem_singleton] at hy; subst hy; simpa using hb)
      simpa using this

theorem argBest_spec {m : Bool} {l : List K} {i : ℕ} (h : argBest (betterThan m) l = .ok i) :
    ∃ w, l[i]? = some w ∧ ∀ y ∈ l, betterThan m y w = false := by
  cases l with
  | nil => simp [argBest] at h
  | cons a l =>
    simp only [argBest, Except.ok.injEq] at h
    subst h
    have := argBestAux_spec m l [a] 0 a (by simp) (by
      intro y hy; simp only [List.mem_singleton] at hy; subst hy; exact betterThan_irrefl m y)
    simpa using this

/-- `c` is the record of a member of the population of `s` -/
def IsMember (pb : Problem G X K) (s : Ga G X K) (c : Genom G X K) : Prop :=
  ∃ (j : ℕ) (xs : List X), pb.decode s.genotypes = .ok xs ∧
    s.genotypes[j]? = some c.genotype ∧ xs[j]? = some c.phenotype ∧
    pb.fnc c.phenotype = .ok c.fitness

/-- no member of the population of `s` has a better objective value than `v` -/
def NoneBetter (pb : Problem G X K) (s : Ga G X K) (v : K) : Prop :=
  ∀ xs, pb.decode s.genotypes = .ok xs → ∀ x ∈ xs, ∀ y, pb.fnc x = .ok y →
    betterThan pb.minimize y v = false

theorem forall₂_getElem? {α β : Type*} {R : α → β → Prop} {l : List α} {r : List β}
    (h : List.Forall₂ R l r) (i : ℕ) (a : α) (b : β) (ha : l[i]? = some a)
    (hb : r[i]? = some b) : R a b := by
  induction h generalizing i with
  | nil => simp at ha
  | cons hr _ ih =>
    cases i with
    | zero => simp at ha hb; subst ha; subst hb; exact hr
    | succ i => exact ih i (by simpa using ha) (by simpa using hb)

theorem bestCandidate_core (pb : Problem G X K) (s : Ga G X K) :
    SameCore s (bestCandidate pb s).2 := by
  have h1 := getFitness_core pb s
  unfold bestCandidate
  split
  · rename_i e s1 he; rw [he] at h1; exact h1
  · rename_i ys s1 he
    rw [he] at h1
    split
    · exact h1
    · have h2 := getPhenotypes_core pb s1
      split
      · rename_i e s2 he2; rw [he2] at h2; exact h1.trans h2
      · rename_i xs s2 he2
        rw [he2] at h2
        split <;> exact h1.trans h2

theorem bestCandidate_consistent {pb : Problem G X K} {s : Ga G X K} (h : Consistent pb s) :
    Consistent pb (bestCandidate pb s).2 := by
  have h1 := getFitness_consistent h
  unfold bestCandidate
  split
  · rename_i e s1 he; rw [he] at h1; exact h1
  · rename_i ys s1 he
    rw [he] at h1
    split
    · exact h1
    · have h2 := getPhenotypes_consistent h1
      split
      · rename_i e s2 he2; rw [he2] at h2; exact h2
      · rename_i xs s2 he2
        rw [he2] at h2
        split <;> exact h2

theorem bestCandidate_ok {pb : Problem G X K} {s t : Ga G X K} {c : Genom G X K}
    (h : Consistent pb s) (hb : bestCandidate pb s = (.ok c, t)) :
    IsMember pb s c ∧ NoneBetter pb s c.fitness ∧
    (∃ xs, pb.decode s.genotypes = .ok xs ∧ t.fitness ≠ none ∧
      t.state.n_fev = s.state.n_fev + (if s.fitness = none then xs.length else 0)) := by
  unfold bestCandidate at hb
  split at hb
  · simp at hb
  · rename_i ys s1 he
    obtain ⟨xs, hd, hm, hp, hf, hn⟩ := getFitness_ok h he
    have hc := getFitness_core pb s
    rw [he] at hc
    simp only at hc
    split at hb
    · simp at hb
    · rename_i i hi
      have hs1 : Consistent pb s1 := by have := getFitness_consistent h; rw [he] at this; exact this
      split at hb
      · simp at hb
      · rename_i xs' s2 he2
        have h2 := getPhenotypes_ok hs1 he2
        have h3 := getPhenotypes_nfev pb s1
        have hc2 := getPhenotypes_core pb s1
        rw [he2] at h3 hc2
        simp only at h3 hc2
        rw [hc.genotypes, hd] at h2
        obtain ⟨h21, h22⟩ := h2
        cases h21
        split at hb
        · rename_i x g y hx hg hy
          simp only [Prod.mk.injEq, Except.ok.injEq] at hb
          obtain ⟨rfl, rfl⟩ := hb
          rw [pyGet_eq_ok_iff] at hx hg hy
          rw [pyMap_eq_ok_iff] at hm
          refine ⟨⟨i, xs, hd, ?_, hx, ?_⟩, ?_, xs, hd, ?_, ?_⟩
          · rw [← hc.genotypes, ← hc2.genotypes]; exact hg
          · exact forall₂_getElem? hm i x y hx hy
          · intro xs'' hd'' x' hx' y' hy'
            rw [hd] at hd''; cases hd''
            obtain ⟨w, hw, hall⟩ := argBest_spec hi
            rw [hw] at hy; cases hy
            apply hall
            obtain ⟨k, hk⟩ := List.mem_iff_getElem?.mp hx'
            have hlen := hm.length_eq
            have hkl := (List.getElem?_eq_some_iff.mp hk).1
            have hys : ys[k]? = some ys[k] := List.getElem?_eq_getElem (by omega)
            have := forall₂_getElem? hm k x' _ hk hys
            rw [hy'] at this
            simp only [Except.ok.injEq] at this
            rw [this]
            exact List.getElem_mem _
          · rw [h3.2, hf]; simp
          · rw [h3.1, hn]
        · simp at hb

/-- effect of a successful cycle -/
theorem evolve1_ok {pb : Problem G X K} {breed : List G → List K → Py (List G)}
    {s t : Ga G X K} (h : Consistent pb s) (he : evolve1 pb breed s = (.ok (), t)) :
    ∃ (s1 : Ga G X K) (c : Genom G X K), nextEvolver pb breed s = (.ok (), s1) ∧
      Consistent pb s1 ∧ Consistent pb t ∧ t.genotypes = s1.genotypes ∧
      t.phase = .running ∧
      s1.champion = s.champion ∧ s1.state.n_iter = s.state.n_iter ∧
      IsMember pb t c ∧ NoneBetter pb t c.fitness ∧
      (∃ u : Ga G X K, bestCandidate pb s1 = (.ok c, u) ∧ u.champion = s.champion ∧
        t = celebrate pb.minimize u c) := by
  unfold evolve1 at he
  split at he
  · simp at he
  · rename_i s1 hn
    have hn0 := hn
    have key : Consistent pb s1 ∧ s1.champion = s.champion ∧
        s1.state.n_iter = s.state.n_iter ∧ s1.phase = .running := by
      unfold nextEvolver at hn
      split at hn
      · simp only [Prod.mk.injEq, true_and] at hn
        subst hn
        exact ⟨h, rfl, rfl, rfl⟩
      · simp at hn
      · rename_i hph
        split at hn
        · simp at hn
        · rename_i ys s2 hf
          have hc := getFitness_core pb s
          rw [hf] at hc
          split at hn
          · simp at hn
          · rename_i gs hb
            simp only [Prod.mk.injEq, true_and] at hn
            subst hn
            refine ⟨by simp [Consistent, setGenotypes], hc.champion, hc.n_iter, ?_⟩
            exact hc.phase.trans hph
    obtain ⟨hs1, hch, hit, hph⟩ := key
    split at he
    · simp at he
    · rename_i c s2 hb
      simp only [Prod.mk.injEq, true_and] at he
      subst he
      have hc := bestCandidate_core pb s1
      have hcons := bestCandidate_consistent hs1
      obtain ⟨hm, hnb, _⟩ := bestCandidate_ok hs1 hb
      rw [hb] at hc hcons
      simp only at hc hcons
      have hg : (celebrate pb.minimize s2 c).genotypes = s1.genotypes := hc.genotypes
      refine ⟨s1, c, hn0, hs1, hcons, hg, hc.phase.trans hph, hch, hit, ?_, ?_, s2, hb,
        hc.champion.trans hch, rfl⟩
      · obtain ⟨j, xs, a1, a2, a3, a4⟩ := hm
        exact ⟨j, xs, by rw [hg]; exact a1, by rw [hg]; exact a2, a3, a4⟩
      · intro xs hd; rw [hg] at hd; exact hnb xs hd

theorem runOps_append (pb : Problem G X K) (a b : List (Op G K)) (s : Ga G X K) :
    runOps pb (a ++ b) s =
      match runOps pb a s with
      | (.error e, s) => (.error e, s)
      | (.ok (), s) => runOps pb b s := by
  induction a generalizing s with
  | nil => simp [runOps]
  | cons o a ih =>
    simp only [List.cons_append, runOps]
    cases h : runOp pb o s with
    | mk r t =>
      cases r with
      | error e => rfl
      | ok u => simp only; exact ih t

end Verif.GA
