import Verif.Props.Knn

set_option linter.unusedSectionVars false

/-! # C141: how close averages over neighbours come to the function behind the data -/

namespace Verif.Knn.Props
open Verif Verif.Utils Verif.Tr Verif.Knn

section
variable {P K : Type} [Field K] [LinearOrder K] [IsStrictOrderedRing K] [FloorRing K]

/-- If `k` points are within `h`, then the `k` nearest are. -/
theorem nearest_within {dist : P → P → K} {X : List P} {y : P} {row near : List ℕ} {h : K}
    (hl : near.length = row.length) (hn : near.Nodup)
    (hnear : ∀ i ∈ near, ∃ x, X[i]? = some x ∧ dist x y ≤ h)
    (hrow : ∀ i ∈ row, ∀ j, j ∉ row → ∀ x x', X[i]? = some x → X[j]? = some x' → dist x y ≤ dist x' y) :
    ∀ i ∈ row, ∀ x, X[i]? = some x → dist x y ≤ h := by
  intro i hi x hx
  by_cases hin : i ∈ near
  · obtain ⟨x', h1, h2⟩ := hnear i hin
    rw [hx] at h1
    cases h1
    exact h2
  · have : ∃ j ∈ near, j ∉ row := by
      by_contra hc
      push Not at hc
      have hp : near.Perm row := (List.subperm_of_subset hn hc).perm_of_length_le hl.ge
      exact hin (hp.mem_iff.mpr hi)
    obtain ⟨j, hj, hjr⟩ := this
    obtain ⟨x', h1, h2⟩ := hnear j hj
    exact (hrow i hi j hjr x x' hx h1).trans h2

/-- C141: the data are, up to `ε`, values of functions at the sources; a target has `k` sources within the distance
`h`, and within that distance the functions differ by at most `δ` from their value at the target. Then the
approximated values differ by at most `δ + ε` from the values at the target. Whichever of several sources at the same
distance are taken, and however far away other sources are. -/
theorem C141_accuracy_partial (libs : Libs) (q : Query P K) (dist : P → P → K) (hq : QueryOK dist q)
    (sched : List ℕ) (inner : ℕ → List ℕ) (A : Approximator P K) (XT : List P)
    (hs : IsSchedule XT.length sched) (hi : ∀ i < XT.length, IsSchedule A.Y.nD (inner i))
    (hdt : A.Y.dt = .float) (k : ℕ) (hA : A.k = some k ∨ A.k = none ∧ k = 4) (hk : 2 ≤ k)
    (hn : k ≤ A.X.length)
    (hb : A.backend.getD "scipy" = "scipy" ∨
      A.backend.getD "scipy" = "sklearn" ∧ libs.hasSklearn = true)
    (hlim : A.maxDistance = none) (F : ℕ → P → K) (ε : K)
    (hF : ∀ i x, A.X[i]? = some x → ∀ j < A.Y.nD, |A.Y.a i j - F j x| ≤ ε) :
    ∃ res, approximate libs q sched inner A XT = .ok res ∧ res.length = XT.length ∧
      ∀ (t : ℕ) (y : P) (h δ : K) (near : List ℕ), XT[t]? = some y →
        near.Nodup → near.length = k → (∀ i ∈ near, ∃ x, A.X[i]? = some x ∧ dist x y ≤ h) →
        (∀ x ∈ A.X, dist x y ≤ h → ∀ j < A.Y.nD, |F j x - F j y| ≤ δ) →
        ∃ r, res[t]? = some r ∧ r.length = A.Y.nD ∧ ∀ j < A.Y.nD, ∃ e, r[j]? = some e ∧ |e - F j y| ≤ δ + ε := by
  obtain ⟨res, h1, h2, h3⟩ := C57_mean libs q dist hq sched inner A XT hs hi hdt k hA hk hn hb hlim
  refine ⟨res, h1, h2, fun t y h δ near hy hnd hnl hnear hδ => ?_⟩
  obtain ⟨row, r, g1, g2, g3, g4, g5, g6, g7⟩ := h3 t y hy
  have hclose := nearest_within (hnl.trans g1.symm) hnd hnear g4
  refine ⟨r, g5, g6, fun j hj => ⟨_, g7 j hj, ?_⟩⟩
  have hpos : (0 : K) < (k : ℕ) := by
    have : 0 < k := by omega
    exact_mod_cast this
  have key : ∀ nb ∈ row, |A.Y.a nb j - F j y| ≤ δ + ε := by
    intro nb hnb
    have hlt := g3 nb hnb
    have hx : A.X[nb]? = some A.X[nb] := List.getElem?_eq_getElem hlt
    have e1 := hF nb _ hx j hj
    have e2 := hδ _ (List.getElem_mem hlt) (hclose nb hnb _ hx) j hj
    have e3 : A.Y.a nb j - F j y = (A.Y.a nb j - F j A.X[nb]) + (F j A.X[nb] - F j y) := by ring
    rw [e3]
    exact (abs_add_le _ _).trans (by linarith)
  have up := List.sum_le_card_nsmul (row.map fun nb => A.Y.a nb j) (F j y + (δ + ε)) (fun x hx => by
    obtain ⟨i, hi, rfl⟩ := List.mem_map.1 hx
    have := (abs_le.mp (key i hi)).2
    linarith)
  have down := List.card_nsmul_le_sum (row.map fun nb => A.Y.a nb j) (F j y - (δ + ε)) (fun x hx => by
    obtain ⟨i, hi, rfl⟩ := List.mem_map.1 hx
    have := (abs_le.mp (key i hi)).1
    linarith)
  rw [List.length_map, g1, nsmul_eq_mul] at up down
  rw [abs_le]
  constructor
  · have : F j y - (δ + ε) ≤ (row.map fun nb => A.Y.a nb j).sum / (k : ℕ) := by
      rw [le_div_iff₀ hpos]; linarith
    linarith
  · have : (row.map fun nb => A.Y.a nb j).sum / (k : ℕ) ≤ F j y + (δ + ε) := by
      rw [div_le_iff₀ hpos]; linarith
    linarith

/-- C141: with Lipschitz constant `L` the error is at most `L h` (for exact data). -/
theorem C141_lipschitz_partial (libs : Libs) (q : Query P K) (dist : P → P → K) (hq : QueryOK dist q)
    (sched : List ℕ) (inner : ℕ → List ℕ) (A : Approximator P K) (XT : List P)
    (hs : IsSchedule XT.length sched) (hi : ∀ i < XT.length, IsSchedule A.Y.nD (inner i))
    (hdt : A.Y.dt = .float) (k : ℕ) (hA : A.k = some k ∨ A.k = none ∧ k = 4) (hk : 2 ≤ k)
    (hn : k ≤ A.X.length)
    (hb : A.backend.getD "scipy" = "scipy" ∨
      A.backend.getD "scipy" = "sklearn" ∧ libs.hasSklearn = true)
    (hlim : A.maxDistance = none) (F : ℕ → P → K) (L : K) (hL0 : 0 ≤ L)
    (hL : ∀ j < A.Y.nD, ∀ x y, |F j x - F j y| ≤ L * dist x y)
    (hF : ∀ i x, A.X[i]? = some x → ∀ j < A.Y.nD, A.Y.a i j = F j x) (h : K)
    (hnear : ∀ y ∈ XT, ∃ near : List ℕ, near.Nodup ∧ near.length = k ∧
      ∀ i ∈ near, ∃ x, A.X[i]? = some x ∧ dist x y ≤ h) :
    ∃ res, approximate libs q sched inner A XT = .ok res ∧ res.length = XT.length ∧
      ∀ (t : ℕ) (y : P), XT[t]? = some y →
        ∃ r, res[t]? = some r ∧ r.length = A.Y.nD ∧ ∀ j < A.Y.nD, ∃ e, r[j]? = some e ∧ |e - F j y| ≤ L * h := by
  obtain ⟨res, h1, h2, h3⟩ := C141_accuracy_partial libs q dist hq sched inner A XT hs hi hdt k hA hk hn hb hlim F 0
    (fun i x hx j hj => by rw [hF i x hx j hj]; simp)
  refine ⟨res, h1, h2, fun t y hy => ?_⟩
  obtain ⟨near, n1, n2, n3⟩ := hnear y (List.mem_of_getElem? hy)
  obtain ⟨r, r1, r2, r3⟩ := h3 t y h (L * h) near hy n1 n2 n3 (fun x _ hx j hj =>
    (hL j hj x y).trans (mul_le_mul_of_nonneg_left hx hL0))
  refine ⟨r, r1, r2, fun j hj => ?_⟩
  obtain ⟨e, e1, e2⟩ := r3 j hj
  exact ⟨e, e1, by simpa using e2⟩

end

/-- C141 does not hold for integer data: the function is constant, and every value is off by one. -/
theorem C141_integer_violated :
    ∃ (A : Approximator ℚ ℚ) (res : List (List ℚ)), A.Y.dt = .int ∧ (∀ i j, A.Y.a i j = 1) ∧
      approximate ⟨false, false⟩ (brute absDist) [0] (fun _ => [0]) A [1] = .ok res ∧ res = [[0]] :=
  ⟨four .int fun _ => 1, _, rfl, fun _ _ => rfl, C57_integer_violated, rfl⟩

/-- The function `x ↦ 3 x` at the points of `four`, and a target between them. -/
example : ∃ res, approximate ⟨false, false⟩ (brute absDist) [0] (fun _ => [0])
      { X := [0, 1, 2, 10], Y := ⟨4, 1, false, .float, fun i _ => 3 * ([0, 1, 2, 10] : List ℚ).getD i 0⟩,
        backend := none, k := some 2, maxDistance := none } [1 / 2] = .ok res ∧ res.length = 1 ∧
      ∀ (t : ℕ) (y : ℚ), ([1 / 2] : List ℚ)[t]? = some y → ∃ r, res[t]? = some r ∧ r.length = 1 ∧
        ∀ j < 1, ∃ e, r[j]? = some e ∧ |e - 3 * y| ≤ 3 * (1 / 2) := by
  refine C141_lipschitz_partial ⟨false, false⟩ (brute absDist) absDist (brute_ok _) [0] (fun _ => [0])
    { X := [0, 1, 2, 10], Y := ⟨4, 1, false, .float, fun i _ => 3 * ([0, 1, 2, 10] : List ℚ).getD i 0⟩,
      backend := none, k := some 2, maxDistance := none } [1 / 2] (by unfold IsSchedule; decide)
    (fun i _ => List.Perm.refl _) rfl 2 (.inl rfl) le_rfl (by show 2 ≤ 4; decide) (.inl rfl) rfl
    (fun _ x => 3 * x) 3 (by norm_num) (fun j _ x y => ?_) (fun i x hx j _ => ?_) (1 / 2) (fun y hy => ?_)
  · rw [← mul_sub, abs_mul, abs_of_pos (by norm_num : (0 : ℚ) < 3)]
    exact le_rfl
  · show 3 * ([0, 1, 2, 10] : List ℚ).getD i 0 = 3 * x
    have hx : ([0, 1, 2, 10] : List ℚ)[i]? = some x := hx
    rw [List.getD_eq_getElem?_getD, hx, Option.getD_some]
  · obtain rfl : y = 1 / 2 := by simpa using hy
    refine ⟨[0, 1], by decide, rfl, fun i hi => ?_⟩
    have : i = 0 ∨ i = 1 := by simpa using hi
    rcases this with rfl | rfl
    · exact ⟨0, rfl, by decide +kernel⟩
    · exact ⟨1, rfl, by decide +kernel⟩

end Verif.Knn.Props
