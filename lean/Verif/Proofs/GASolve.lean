import Verif.Proofs.GAInv

set_option linter.unusedSectionVars false

namespace Verif.GA
variable {G X K : Type*} [LinearOrder K]

/-- one more iteration is counted -/
def bump (u : Ga G X K) : Ga G X K :=
  { u with state := { u.state with n_iter := u.state.n_iter + 1 } }

theorem evolve1_niter {pb : Problem G X K} {breed : List G → List K → Py (List G)}
    {s t : Ga G X K} {r : Py Unit} (he : evolve1 pb breed s = (r, t)) :
    t.state.n_iter = s.state.n_iter := by
  have hn : ∀ r s1, nextEvolver pb breed s = (r, s1) → s1.state.n_iter = s.state.n_iter := by
    intro r s1 h
    unfold nextEvolver at h
    have hc := getFitness_core pb s
    split at h
    · simp only [Prod.mk.injEq] at h; rw [← h.2]
    · simp only [Prod.mk.injEq] at h; rw [← h.2]
    · split at h
      · rename_i hf; rw [hf] at hc
        simp only [Prod.mk.injEq] at h; rw [← h.2]; exact hc.n_iter
      · rename_i hf; rw [hf] at hc
        split at h <;> (simp only [Prod.mk.injEq] at h; rw [← h.2]; exact hc.n_iter)
  unfold evolve1 at he
  split at he
  · rename_i h1
    simp only [Prod.mk.injEq] at he
    rw [← he.2]; exact hn _ _ h1
  · rename_i s1 h1
    have hc := bestCandidate_core pb s1
    split at he
    · rename_i h2; rw [h2] at hc
      simp only [Prod.mk.injEq] at he
      rw [← he.2, ← hn _ _ h1]; exact hc.n_iter
    · rename_i h2; rw [h2] at hc
      simp only [Prod.mk.injEq] at he
      rw [← he.2, ← hn _ _ h1]; exact hc.n_iter

theorem solvePass_none {pb : Problem G X K} {maxiter miniter : ℤ}
    {breed : List G → List K → Py (List G)} {stop : Ga G X K → Py Bool} {s t : Ga G X K} :
    solvePass pb maxiter miniter breed stop s = (.ok none, t) ↔
      ∃ u b, evolve1 pb breed s = (.ok (), u) ∧ t = bump u ∧ stop t = .ok b ∧
        ¬ ((b = true ∨ maxiter ≤ (t.state.n_iter : ℤ)) ∧ miniter ≤ (t.state.n_iter : ℤ)) := by
  unfold solvePass
  split
  · rename_i h; simp [h]
  · rename_i u h
    change (match stop (bump u) with | Except.error e => _ | Except.ok b => _) = _ ↔ _
    cases hst : stop (bump u) with
    | error e =>
      simp only [Prod.mk.injEq, reduceCtorEq, false_and, false_iff, h]
      rintro ⟨u', b, h1, rfl, h2, _⟩
      simp only [true_and] at h1; subst h1
      rw [hst] at h2; cases h2
    | ok b =>
      simp only [ge_iff_le, Bool.and_eq_true, Bool.or_eq_true, decide_eq_true_eq]
      by_cases hc : (b = true ∨ maxiter ≤ ((bump u).state.n_iter : ℤ)) ∧
          miniter ≤ ((bump u).state.n_iter : ℤ)
      · have hc' := hc
        simp only [bump] at hc'
        rw [if_pos hc']
        simp only [Prod.mk.injEq, Except.ok.injEq, reduceCtorEq, false_and, false_iff]
        rintro ⟨u', b', h1, rfl, h2, h3⟩
        rw [h] at h1; simp only [Prod.mk.injEq, true_and] at h1; subst h1
        rw [hst] at h2; cases h2
        exact h3 hc
      · have hc' := hc
        simp only [bump] at hc'
        rw [if_neg hc']
        simp only [Prod.mk.injEq, true_and]
        constructor
        · intro ht; subst ht; exact ⟨u, b, h, rfl, hst, hc⟩
        · rintro ⟨u', b', h1, rfl, h2, h3⟩
          rw [h] at h1; simp only [Prod.mk.injEq, true_and] at h1; subst h1; rfl

theorem solvePass_some {pb : Problem G X K} {maxiter miniter : ℤ}
    {breed : List G → List K → Py (List G)} {stop : Ga G X K → Py Bool} {s t : Ga G X K}
    {x : Status} (hp : solvePass pb maxiter miniter breed stop s = (.ok (some x), t)) :
      ∃ u b, evolve1 pb breed s = (.ok (), u) ∧ t = bump u ∧ stop t = .ok b ∧
        (b = true ∨ maxiter ≤ (t.state.n_iter : ℤ)) ∧ miniter ≤ (t.state.n_iter : ℤ) ∧
        x = (if maxiter ≤ (t.state.n_iter : ℤ) then .maxIterationsReached else .converged) := by
  unfold solvePass at hp
  split at hp
  · simp at hp
  · rename_i u h
    change (match stop (bump u) with | Except.error e => _ | Except.ok b => _) = _ at hp
    cases hst : stop (bump u) with
    | error e => rw [hst] at hp; simp at hp
    | ok b =>
      rw [hst] at hp
      simp only [ge_iff_le, Bool.and_eq_true, Bool.or_eq_true, decide_eq_true_eq] at hp
      split at hp
      · rename_i hc
        simp only [Prod.mk.injEq, Except.ok.injEq, Option.some.injEq] at hp
        obtain ⟨hx, ht⟩ := hp
        have ht' : t = bump u := ht.symm
        refine ⟨u, b, h, ht', by rw [ht']; exact hst, by rw [ht']; exact hc.1,
          by rw [ht']; exact hc.2, ?_⟩
        rw [ht', ← hx]
        by_cases hmax : maxiter ≤ ((u.state.n_iter + 1 : ℕ) : ℤ)
        · have hmax' : maxiter ≤ ((bump u).state.n_iter : ℤ) := hmax
          rw [if_pos hmax, if_pos hmax']
        · have hmax' : ¬ maxiter ≤ ((bump u).state.n_iter : ℤ) := hmax
          rw [if_neg hmax, if_neg hmax']
          have : b = true := by
            rcases hc.1 with hb | hb
            · exact hb
            · exact absurd hb hmax
          rw [if_pos this]
      · simp at hp

theorem solvePass_error {pb : Problem G X K} {maxiter miniter : ℤ}
    {breed : List G → List K → Py (List G)} {stop : Ga G X K → Py Bool} {s t : Ga G X K}
    {e : PyErr} :
    solvePass pb maxiter miniter breed stop s = (.error e, t) ↔
      evolve1 pb breed s = (.error e, t) ∨
      ∃ u, evolve1 pb breed s = (.ok (), u) ∧ t = bump u ∧ stop t = .error e := by
  unfold solvePass
  split
  · rename_i h
    rw [h]
    simp
  · rename_i u h
    rw [h]
    change (match stop (bump u) with | Except.error e => _ | Except.ok b => _) = _ ↔ _
    cases hst : stop (bump u) with
    | error e' =>
      simp only [Prod.mk.injEq, Except.error.injEq, reduceCtorEq, false_and, true_and, false_or]
      constructor
      · rintro ⟨rfl, ht⟩
        exact ⟨u, rfl, ht.symm, by rw [← ht]; exact hst⟩
      · rintro ⟨u', rfl, rfl, h2⟩
        rw [hst] at h2; cases h2
        exact ⟨rfl, rfl⟩
    | ok b =>
      simp only [ge_iff_le, Bool.and_eq_true, Bool.or_eq_true, decide_eq_true_eq, Prod.mk.injEq,
        reduceCtorEq, false_and, true_and, false_or]
      constructor
      · intro hh; split at hh <;> simp at hh
      · rintro ⟨u', rfl, rfl, h2⟩
        rw [hst] at h2; cases h2

theorem solveLoop_trace {pb : Problem G X K} {maxiter miniter : ℤ}
    {breeds : ℕ → List G → List K → Py (List G)} {stop : Ga G X K → Py Bool} :
    ∀ (fuel i : ℕ) (s s' : Ga G X K) (r : Py Status),
      solveLoop pb maxiter miniter breeds stop fuel i s = some (r, s') →
      ∃ (k : ℕ) (st : ℕ → Ga G X K), st 0 = s ∧
        (∀ j < k, solvePass pb maxiter miniter (breeds (i + j)) stop (st j) =
          (.ok none, st (j + 1))) ∧
        ((∃ e, r = .error e ∧
            solvePass pb maxiter miniter (breeds (i + k)) stop (st k) = (.error e, s')) ∨
         (∃ x, r = .ok x ∧
            solvePass pb maxiter miniter (breeds (i + k)) stop (st k) = (.ok (some x), s'))) := by
  intro fuel
  induction fuel with
  | zero => intro i s s' r h; simp [solveLoop] at h
  | succ fuel ih =>
    intro i s s' r h
    simp only [solveLoop] at h
    split at h
    · rename_i e t hp
      simp only [Option.some.injEq, Prod.mk.injEq] at h
      obtain ⟨rfl, rfl⟩ := h
      exact ⟨0, fun _ => s, rfl, by simp, Or.inl ⟨e, rfl, hp⟩⟩
    · rename_i x t hp
      simp only [Option.some.injEq, Prod.mk.injEq] at h
      obtain ⟨rfl, rfl⟩ := h
      exact ⟨0, fun _ => s, rfl, by simp, Or.inr ⟨x, rfl, hp⟩⟩
    · rename_i t hp
      obtain ⟨k, st, h0, hall, hend⟩ := ih (i + 1) t s' r h
      refine ⟨k + 1, fun j => if j = 0 then s else st (j - 1), by simp, ?_, ?_⟩
      · intro j hj
        cases j with
        | zero => simp [h0, hp]
        | succ j =>
          have := hall j (by omega)
          simpa [Nat.add_assoc, Nat.add_comm 1 j] using this
      · simpa [Nat.add_assoc, Nat.add_comm 1 k] using hend

theorem solveLoop_of_trace {pb : Problem G X K} {maxiter miniter : ℤ}
    {breeds : ℕ → List G → List K → Py (List G)} {stop : Ga G X K → Py Bool} :
    ∀ (k fuel i : ℕ) (st : ℕ → Ga G X K),
        (∀ j < k, solvePass pb maxiter miniter (breeds (i + j)) stop (st j) =
          (.ok none, st (j + 1))) →
        solveLoop pb maxiter miniter breeds stop (fuel + k) i (st 0) =
          solveLoop pb maxiter miniter breeds stop fuel (i + k) (st k) := by
  intro k
  induction k with
  | zero => intro fuel i st _; rfl
  | succ k ih =>
    intro fuel i st h
    have h0 := h 0 (by omega)
    have := ih fuel (i + 1) (fun j => st (j + 1)) (by
      intro j hj
      have := h (j + 1) (by omega)
      simpa [Nat.add_assoc, Nat.add_comm 1 j] using this)
    rw [← Nat.add_assoc]
    simp only [Nat.add_zero] at h0
    rw [solveLoop, h0]
    simp only
    simpa [Nat.add_assoc, Nat.add_comm 1 k] using this

theorem solveLoop_terminates {pb : Problem G X K} {maxiter miniter : ℤ}
    (hmm : miniter ≤ maxiter)
    {breeds : ℕ → List G → List K → Py (List G)} {stop : Ga G X K → Py Bool} :
    ∀ (fuel i : ℕ) (s : Ga G X K), 1 ≤ fuel → maxiter ≤ (s.state.n_iter : ℤ) + fuel →
      ∃ r s', solveLoop pb maxiter miniter breeds stop fuel i s = some (r, s') := by
  intro fuel
  induction fuel with
  | zero => intro i s h _; omega
  | succ fuel ih =>
    intro i s _ h
    simp only [solveLoop]
    split
    · exact ⟨_, _, rfl⟩
    · exact ⟨_, _, rfl⟩
    · rename_i t hp
      obtain ⟨u, b, h1, rfl, h2, h3⟩ := solvePass_none.mp hp
      have hu := evolve1_niter h1
      have hb : (bump u).state.n_iter = s.state.n_iter + 1 := by simp [bump, hu]
      rw [hb] at h3
      push_cast at h3 h
      apply ih
      · by_contra hf
        have : fuel = 0 := by omega
        subst this
        apply h3
        simp only [Nat.cast_zero] at h
        exact ⟨Or.inr (by omega), by omega⟩
      · rw [hb]; push_cast; omega

theorem trace_niter {pb : Problem G X K} {maxiter miniter : ℤ}
    {breeds : ℕ → List G → List K → Py (List G)} {stop : Ga G X K → Py Bool}
    {st : ℕ → Ga G X K} : ∀ k : ℕ,
    (∀ j < k, solvePass pb maxiter miniter (breeds j) stop (st j) = (.ok none, st (j + 1))) →
    (st k).state.n_iter = (st 0).state.n_iter + k := by
  intro k
  induction k with
  | zero => intro _; rfl
  | succ k ih =>
    intro h
    have h1 := ih (fun j hj => h j (by omega))
    obtain ⟨u, b, he, hu, _⟩ := solvePass_none.mp (h k (by omega))
    rw [hu]
    simp [bump, evolve1_niter he, h1, Nat.add_assoc]

end Verif.GA
