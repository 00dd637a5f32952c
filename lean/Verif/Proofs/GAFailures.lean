import Verif.Model.GAFailures
import Verif.Proofs.GARun

set_option linter.unusedSectionVars false

/-! # Helpers for failing objectives -/

namespace Verif.GA
open Verif

section
variable {G X K D : Type*} [LinearOrder K]

theorem pyMap_total {A B : Type*} {f : A → Py B} (hf : ∀ a, ∃ b, f a = .ok b) (xs : List A) :
    ∃ ys, pyMap f xs = .ok ys ∧ ys.length = xs.length := by
  induction xs with
  | nil => exact ⟨[], rfl, rfl⟩
  | cons x xs ih =>
    obtain ⟨y, hy⟩ := hf x
    obtain ⟨ys, hys, hl⟩ := ih
    exact ⟨y :: ys, by simp [pyMap, hy, hys]; rfl, by simp [hl]⟩

theorem argBestAux_lt (b : K → K → Bool) : ∀ (ys : List K) (k i : ℕ) (v : K), k < i →
    argBestAux b k v i ys < i + ys.length
  | [], k, i, v, h => by simpa [argBestAux] using h
  | y :: ys, k, i, v, h => by
    unfold argBestAux
    split
    · have := argBestAux_lt b ys i (i + 1) y (by omega)
      simp only [List.length_cons]; omega
    · have := argBestAux_lt b ys k (i + 1) v (by omega)
      simp only [List.length_cons]; omega

theorem argBest_total (b : K → K → Bool) {ys : List K} (h : ys ≠ []) :
    ∃ i, argBest b ys = .ok i ∧ i < ys.length := by
  cases ys with
  | nil => exact absurd rfl h
  | cons y ys =>
    refine ⟨_, rfl, ?_⟩
    have := argBestAux_lt b ys 0 1 y (by omega)
    simp only [List.length_cons]; omega

/-- everything a fresh population needs to be evaluated and to put forward a candidate -/
theorem best_total {pb : Problem G X K} {s : Ga G X K} (hf : ∀ x, ∃ y, pb.fnc x = .ok y)
    {xs : List X} (hd : pb.decode s.genotypes = .ok xs) (hl : xs.length = s.genotypes.length)
    (hne : s.genotypes ≠ []) (h1 : s.phenotypes = none) (h2 : s.fitness = none) :
    ∃ c t, bestCandidate pb s = (.ok c, t) := by
  obtain ⟨ys, hys, hyl⟩ := pyMap_total hf xs
  have hp : 0 < s.genotypes.length := List.length_pos_iff.mpr hne
  obtain ⟨i, hi, hlt⟩ := argBest_total (betterThan pb.minimize) (ys := ys)
    (by intro h; rw [h] at hyl; simp at hyl; omega)
  have hx : ∃ x, pyGet xs i = .ok x := by
    unfold pyGet; rw [List.getElem?_eq_getElem (by omega)]; exact ⟨_, rfl⟩
  have hg : ∃ g, pyGet s.genotypes i = .ok g := by
    unfold pyGet; rw [List.getElem?_eq_getElem (by omega)]; exact ⟨_, rfl⟩
  have hy : ∃ y, pyGet ys i = .ok y := by
    unfold pyGet; rw [List.getElem?_eq_getElem (by omega)]; exact ⟨_, rfl⟩
  obtain ⟨x, hx⟩ := hx
  obtain ⟨g, hg⟩ := hg
  obtain ⟨y, hy⟩ := hy
  simp [bestCandidate, getFitness, getPhenotypes, evaluate, h1, h2, hd, hys, hi, hx, hg, hy]

/-- reading the values with an objective that works -/
theorem fitness_total {pb : Problem G X K} {s : Ga G X K} (hf : ∀ x, ∃ y, pb.fnc x = .ok y)
    (hd : ∃ xs, pb.decode s.genotypes = .ok xs) :
    ∃ ys t, getFitness pb s = (.ok ys, t) := by
  cases h : s.fitness with
  | some ys => exact ⟨ys, s, by simp [getFitness, h]⟩
  | none =>
    cases h1 : s.phenotypes with
    | some xs =>
      obtain ⟨ys, hys, -⟩ := pyMap_total hf xs
      exact ⟨ys, _, by simp only [getFitness, getPhenotypes, evaluate, h, h1, hys]; rfl⟩
    | none =>
      obtain ⟨xs, hd⟩ := hd
      obtain ⟨ys, hys, -⟩ := pyMap_total hf xs
      exact ⟨ys, _, by simp only [getFitness, getPhenotypes, evaluate, h, h1, hd, hys]; rfl⟩

/-- after the values have been read they are stored -/
theorem fitness_stored {pb : Problem G X K} {s t : Ga G X K} {ys : List K}
    (h : getFitness pb s = (.ok ys, t)) : t.fitness = some ys := by
  unfold getFitness at h
  split at h
  · cases h; assumption
  · split at h
    · cases h
    · split at h
      · cases h
      · cases h; rfl

theorem best_stored {pb : Problem G X K} {s t : Ga G X K} {c : Genom G X K}
    (h : bestCandidate pb s = (.ok c, t)) : t.fitness ≠ none := by
  unfold bestCandidate at h
  split at h
  · cases h
  · rename_i ys s1 he
    have h1 := fitness_stored he
    split at h
    · cases h
    · split at h
      · cases h
      · rename_i xs s2 hp
        have h2 := (getPhenotypes_nfev pb s1).2
        rw [hp] at h2
        split at h
        · cases h
          intro h3
          rw [h3, h1] at h2
          cases h2
        · cases h

/-- the caches belong to the population at hand, which is a good one -/
structure OwnCaches (dec : List G → Py (List X)) (Good : List G → Prop) (s : Ga G X K) : Prop where
  phenotypes : ∀ xs, s.phenotypes = some xs → dec s.genotypes = .ok xs
  fitness : ∀ ys, s.fitness = some ys → ys.length = s.genotypes.length
  good : Good s.genotypes

theorem OwnCaches.new {dec : List G → Py (List X)} {Good : List G → Prop} {s : Ga G X K} {gs : List G} (h : Good gs) :
    OwnCaches dec Good (setGenotypes s gs) :=
  ⟨fun _ h => (by cases h), fun _ h => (by cases h), h⟩

theorem kept_phenotypes {pb : Problem G X K} {Good : List G → Prop} {s : Ga G X K} (h : OwnCaches pb.decode Good s) :
    OwnCaches pb.decode Good (getPhenotypes pb s).2 := by
  unfold getPhenotypes
  split
  · exact h
  · split
    · exact h
    · rename_i xs hd
      exact ⟨fun zs hz => by cases hz; exact hd, h.fitness, h.good⟩

theorem pyMap_len {A B : Type*} {f : A → Py B} : ∀ {xs : List A} {ys : List B}, pyMap f xs = .ok ys →
    ys.length = xs.length
  | [], ys, h => by cases h; rfl
  | x :: xs, ys, h => by
    cases h1 : f x with
    | error e => simp [pyMap, h1] at h; cases h
    | ok y =>
      cases h2 : pyMap f xs with
      | error e => simp [pyMap, h1, h2] at h; cases h
      | ok zs =>
        have : y :: zs = ys := by simp [pyMap, h1, h2] at h; cases h; rfl
        rw [← this]
        simp [pyMap_len h2]

theorem kept_fitness {pb : Problem G X K} {Good : List G → Prop} {s : Ga G X K}
    (hd : ∀ gs xs, Good gs → pb.decode gs = .ok xs → xs.length = gs.length) (h : OwnCaches pb.decode Good s) :
    OwnCaches pb.decode Good (getFitness pb s).2 := by
  have h1 := kept_phenotypes h
  unfold getFitness
  split
  · exact h
  · split
    · rename_i e t he; rw [he] at h1; exact h1
    · rename_i xs t he
      have hx : pb.decode t.genotypes = .ok xs := by
        rw [he] at h1
        refine h1.phenotypes xs ?_
        unfold getPhenotypes at he
        split at he
        · cases he; assumption
        · split at he
          · cases he
          · cases he; rfl
      rw [he] at h1
      unfold evaluate
      cases hm : pyMap pb.fnc xs with
      | error e => exact h1
      | ok ys =>
        refine ⟨h1.phenotypes, fun zs hz => ?_, h1.good⟩
        cases hz
        exact (pyMap_len hm).trans (hd _ _ h1.good hx)

theorem kept_best {pb : Problem G X K} {Good : List G → Prop} {s : Ga G X K}
    (hd : ∀ gs xs, Good gs → pb.decode gs = .ok xs → xs.length = gs.length) (h : OwnCaches pb.decode Good s) :
    OwnCaches pb.decode Good (bestCandidate pb s).2 := by
  have h1 := kept_fitness hd h
  unfold bestCandidate
  split
  · rename_i e t he; rw [he] at h1; exact h1
  · rename_i ys t he
    rw [he] at h1
    have h2 := kept_phenotypes h1
    split
    · exact h1
    · split
      · rename_i e u hu; rw [hu] at h2; exact h2
      · rename_i xs u hu
        rw [hu] at h2
        split <;> exact h2

theorem kept_next {pb : Problem G X K} {Good : List G → Prop} {s : Ga G X K} {breed : List G → List K → Py (List G)}
    (hd : ∀ gs xs, Good gs → pb.decode gs = .ok xs → xs.length = gs.length)
    (hb : ∀ gs ys gs', Good gs → ys.length = gs.length → breed gs ys = .ok gs' → Good gs') (h : OwnCaches pb.decode Good s) :
    OwnCaches pb.decode Good (nextEvolver pb breed s).2 := by
  have h1 := kept_fitness hd h
  unfold nextEvolver
  split
  · exact ⟨h.1, h.2, h.3⟩
  · exact h
  · split
    · rename_i e t he; rw [he] at h1; exact ⟨h1.1, h1.2, h1.3⟩
    · rename_i ys t he
      rw [he] at h1
      split
      · exact ⟨h1.1, h1.2, h1.3⟩
      · rename_i gs hg
        exact OwnCaches.new (hb _ _ _ h1.good (h1.fitness _ (fitness_stored he)) hg)

theorem fitness_raises {pb : Problem G X K} {s t : Ga G X K} {e : PyErr}
    (h : getFitness pb s = (.error e, t)) :
    s.fitness = none ∧ ((s.phenotypes = none ∧ pb.decode s.genotypes = .error e) ∨
      (e = .runtime ∧ ∃ x err, pb.fnc x = .error err)) := by
  unfold getFitness at h
  split at h
  · cases h
  · rename_i hn
    refine ⟨hn, ?_⟩
    split at h
    · rename_i e' t' he
      cases h
      unfold getPhenotypes at he
      split at he
      · cases he
      · rename_i hp
        split at he
        · rename_i e'' hd; cases he; exact Or.inl ⟨hp, hd⟩
        · cases he
    · rename_i xs t' he
      refine Or.inr ?_
      unfold evaluate at h
      cases hm : pyMap pb.fnc xs with
      | ok ys => rw [hm] at h; cases h
      | error e' =>
        rw [hm] at h
        refine ⟨by cases h; rfl, ?_⟩
        by_contra hc
        obtain ⟨ys, hys, -⟩ := pyMap_total (f := pb.fnc) (fun a => by
          cases ha : pb.fnc a with
          | ok b => exact ⟨b, rfl⟩
          | error err => exact absurd ⟨a, err, ha⟩ hc) xs
        rw [hys] at hm
        cases hm

/-- a fresh population can only fail to put forward a candidate because of the objective -/
theorem best_raises {pb : Problem G X K} {Good : List G → Prop} {s t : Ga G X K} {e : PyErr}
    (hne : ∀ gs, Good gs → gs ≠ [])
    (hd : ∀ gs, Good gs → ∃ xs, pb.decode gs = .ok xs ∧ xs.length = gs.length) (hk : OwnCaches pb.decode Good s)
    (h : bestCandidate pb s = (.error e, t)) :
    s.fitness = none ∧ e = .runtime ∧ ∃ x err, pb.fnc x = .error err := by
  have hd' : ∀ gs xs, Good gs → pb.decode gs = .ok xs → xs.length = gs.length := fun gs xs h0 h1 => by
    obtain ⟨zs, hz, hl⟩ := hd gs h0
    rw [h1] at hz; cases hz; exact hl
  have h1 := kept_fitness hd' hk
  cases hf : getFitness pb s with
  | mk r u =>
    rw [hf] at h1
    cases r with
    | error e' =>
      simp only [bestCandidate, hf] at h
      cases h
      obtain ⟨h2, h3⟩ := fitness_raises hf
      refine ⟨h2, h3.resolve_left fun h4 => ?_⟩
      obtain ⟨xs, hx, -⟩ := hd _ hk.good
      rw [h4.2] at hx
      cases hx
    | ok ys =>
      exfalso
      have hst := fitness_stored hf
      have hlen : ys.length = u.genotypes.length := h1.fitness ys hst
      have hpos : 0 < u.genotypes.length := List.length_pos_iff.mpr (hne _ h1.good)
      obtain ⟨i, hi, hlt⟩ := argBest_total (betterThan pb.minimize) (ys := ys)
        (by intro h; rw [h] at hlen; simp at hlen; omega)
      obtain ⟨xs, hx, hxl⟩ := hd _ h1.good
      have hp : ∃ v, getPhenotypes pb u = (.ok xs, v) ∧ v.genotypes = u.genotypes := by
        unfold getPhenotypes
        split
        · rename_i zs hz
          have := h1.phenotypes zs hz
          rw [hx] at this
          cases this
          exact ⟨u, rfl, rfl⟩
        · exact ⟨{ u with phenotypes := some xs }, by simp only [hx], rfl⟩
      obtain ⟨v, hv, hvg⟩ := hp
      have hxl : xs.length = u.genotypes.length := hxl
      have hlv : i < v.genotypes.length := by rw [hvg, ← hlen]; exact hlt
      have e1 : pyGet xs i = .ok xs[i] := by unfold pyGet; rw [List.getElem?_eq_getElem (by omega)]
      have e2 : pyGet v.genotypes i = .ok v.genotypes[i] := by
        unfold pyGet; rw [List.getElem?_eq_getElem hlv]
      have e3 : pyGet ys i = .ok ys[i] := by unfold pyGet; rw [List.getElem?_eq_getElem (by omega)]
      simp only [bestCandidate, hf, hi, hv, e1, e2, e3] at h
      cases h

end

end Verif.GA
