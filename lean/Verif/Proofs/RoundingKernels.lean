import Verif.Proofs.Rounding
import Verif.Proofs.TrKernels
import Verif.Props.BGA
import Verif.Props.Knn

/-!
# Lemmas about kernels with rounded arithmetic
-/

set_option linter.unusedSectionVars false

namespace Verif.Rnd
open Verif Verif.Utils Verif.Tr

section
variable {K : Type} [Field K] [LinearOrder K] [IsStrictOrderedRing K] {fl : K → K}

theorem IsRounding.zero (h : IsRounding fl) : fl 0 = 0 := by
  have := h.neg 0
  rw [neg_zero] at this
  linarith

theorem IsRounding.nonneg (h : IsRounding fl) {x : K} (hx : 0 ≤ x) : 0 ≤ fl x := by
  rw [← h.zero]; exact h.mono _ _ hx

theorem IsRounding.one_le (h : IsRounding fl) {x : K} (hx : 1 ≤ x) : 1 ≤ fl x := by
  have := h.mono _ _ hx
  rwa [h.one] at this

theorem Precise.nonneg {u : K} (h : Precise fl u) : 0 ≤ u := by
  have := h 1
  rw [abs_one, mul_one] at this
  exact (abs_nonneg _).trans this

/-- `x` is `y` up to `n` roundings, relative to the bound `B` of `|y|`. -/
def Near (u : K) (n : ℕ) (B x y : K) : Prop := |x - y| ≤ ((1 + u) ^ n - 1) * B ∧ |y| ≤ B

theorem Near.refl (u x : K) : Near u 0 |x| x x := by simp [Near]

theorem Near.round {u : K} (h : Precise fl u) {n : ℕ} {B x y : K} (hn : Near u n B x y) :
    Near u (n + 1) B (fl x) y := by
  refine ⟨?_, hn.2⟩
  have hu := h.nonneg
  have h1 := h x
  have h2 : |x| ≤ (1 + u) ^ n * B := by
    have : |x| ≤ |x - y| + |y| := by
      have := abs_add_le (x - y) y
      rwa [sub_add_cancel] at this
    linarith [hn.1, hn.2]
  have h3 : |fl x - y| ≤ |fl x - x| + |x - y| := abs_sub_le _ _ _
  have h4 := mul_le_mul_of_nonneg_left h2 hu
  rw [pow_succ]
  have := hn.1
  nlinarith

theorem Near.mul {u : K} {n : ℕ} {B x y : K} (hn : Near u n B x y) (c : K) :
    Near u n (B * |c|) (x * c) (y * c) := by
  refine ⟨?_, ?_⟩
  · rw [← sub_mul, abs_mul, ← mul_assoc]
    exact mul_le_mul_of_nonneg_right hn.1 (abs_nonneg _)
  · rw [abs_mul]
    exact mul_le_mul_of_nonneg_right hn.2 (abs_nonneg _)

theorem Near.more {u : K} (hu : 0 ≤ u) {n m : ℕ} (hnm : n ≤ m) {B x y : K} (hn : Near u n B x y) :
    Near u m B x y := by
  refine ⟨hn.1.trans ?_, hn.2⟩
  have hB : 0 ≤ B := (abs_nonneg _).trans hn.2
  have := pow_le_pow_right₀ (show 1 ≤ 1 + u by linarith) hnm
  exact mul_le_mul_of_nonneg_right (by linarith) hB

theorem Near.add {u : K} {n : ℕ} {B B' x x' y y' : K} (h : Near u n B x y) (h' : Near u n B' x' y') :
    Near u n (B + B') (x + x') (y + y') := by
  refine ⟨?_, (abs_add_le _ _).trans (add_le_add h.2 h'.2)⟩
  have : x + x' - (y + y') = (x - y) + (x' - y') := by ring
  rw [this, mul_add]
  exact (abs_add_le _ _).trans (add_le_add h.1 h'.1)

theorem Near.weaken {u : K} (hu : 0 ≤ u) {n : ℕ} {B B' x y : K} (h : Near u n B x y) (hB : B ≤ B') :
    Near u n B' x y := by
  refine ⟨h.1.trans (mul_le_mul_of_nonneg_left hB ?_), h.2.trans hB⟩
  have := one_le_pow₀ (show 1 ≤ 1 + u by linarith) (n := n)
  linarith

/-- A rounded sum of a number and a quantity known up to an error. -/
theorem affine_err {u : K} (h : Precise fl u) {g P T s : K} (hP : |P - T| ≤ g) :
    |fl (P + s) - (s + T)| ≤ (1 + u) * g + u * |s + T| := by
  have hu := h.nonneg
  have h1 := h (P + s)
  have h2 : |fl (P + s) - (s + T)| ≤ |fl (P + s) - (P + s)| + |P + s - (s + T)| := abs_sub_le _ _ _
  have h3 : P + s - (s + T) = P - T := by ring
  have h4 : |P + s| ≤ |P - T| + |s + T| := by
    have := abs_add_le (P - T) (s + T)
    have h5 : P - T + (s + T) = P + s := by ring
    rwa [h5] at this
  rw [h3] at h2
  have h6 := mul_le_mul_of_nonneg_left h4 hu
  nlinarith

/-! ## Sums of products -/

theorem mulAdd_mono (h : IsRounding fl) (fused : Bool) {e e' x x' y : K} (he : e ≤ e') (hx : x ≤ x')
    (hy : 0 ≤ y) : mulAdd fl fused e x y ≤ mulAdd fl fused e' x' y := by
  have hm := mul_le_mul_of_nonneg_right hx hy
  unfold mulAdd
  cases fused
  · exact h.mono _ _ (add_le_add he (h.mono _ _ hm))
  · exact h.mono _ _ (add_le_add he hm)

theorem mulAdd_zero (h : IsRounding fl) (fused : Bool) (e y : K) : mulAdd fl fused e 0 y = fl e := by
  unfold mulAdd
  cases fused <;> simp [h.zero]

/-- Accumulated sums of products. -/
theorem sum_near {u : K} (h : Precise fl u) (fused : Bool) (f : K) (xs : List K) :
    ∀ (n : ℕ) (_ : 1 ≤ n) (B e E : K), Near u n B e E →
      Near u (n + xs.length) (B + (xs.map fun x => |x * f|).sum)
        (xs.foldl (fun e x => mulAdd fl fused e x f) e) (E + (xs.map fun x => x * f).sum) := by
  have hu := h.nonneg
  induction xs with
  | nil => intro n _ B e E he; simpa using he
  | cons x xs ih =>
    intro n hn B e E he
    have hx0 := Near.refl u (x * f)
    have step : Near u (n + 1) (B + |x * f|) (mulAdd fl fused e x f) (E + x * f) := by
      unfold mulAdd
      cases fused
      · exact (he.add ((hx0.round h).more hu hn)).round h
      · exact (he.add (hx0.more hu (Nat.zero_le n))).round h
    have := ih (n + 1) (by omega) _ _ _ step
    simp only [List.length_cons, List.map_cons, List.sum_cons, List.foldl_cons]
    have hl : n + 1 + xs.length = n + (xs.length + 1) := by omega
    rw [hl, add_assoc, add_assoc] at this
    exact this

theorem sum_nonneg' (h : IsRounding fl) (fused : Bool) {f : K} (hf : 0 ≤ f) (xs : List K)
    (hx : ∀ x ∈ xs, 0 ≤ x) : ∀ e : K, 0 ≤ e → 0 ≤ xs.foldl (fun e x => mulAdd fl fused e x f) e := by
  induction xs with
  | nil => intro e he; exact he
  | cons x xs ih =>
    intro e he
    refine ih (fun y hy => hx y (by simp [hy])) _ ?_
    have := mulAdd_mono h fused he (hx x (by simp)) hf
    rw [mulAdd_zero h, h.zero] at this
    exact this

theorem sum_mono (h : IsRounding fl) (fused : Bool) {f : K} (hf : 0 ≤ f) (xs ys : List K)
    (hxy : List.Forall₂ (· ≤ ·) xs ys) : ∀ e e' : K, e ≤ e' →
      xs.foldl (fun e x => mulAdd fl fused e x f) e ≤ ys.foldl (fun e x => mulAdd fl fused e x f) e' := by
  induction hxy with
  | nil => intro e e' he; exact he
  | cons h1 _ ih => intro e e' he; exact ih _ _ (mulAdd_mono h fused he h1 hf)

end

/-! ## Decoding -/

section
variable {K : Type} [Field K] [LinearOrder K]
open Verif.BGA.Props

theorem decode_get (fl : K → K) (nPop dim L : ℕ) (ranges : List (K × K)) (hr : ranges.length = dim)
    (gs : List (List ℤ)) (hlen : gs.length = nPop) (hrow : ∀ g ∈ gs, g.length = dim * L) :
    ∃ xs, decode fl nPop dim L ranges gs = .ok xs ∧ xs.length = nPop ∧
      ∀ (p : ℕ) (hp : p < gs.length), ∃ x, xs[p]? = some x ∧ x.length = dim ∧
        ∀ (d : ℕ) (hd : d < ranges.length), x[d]? = some (fl (fl (fl ((bitValue
          (chromosome L gs[p] d) : ℤ) : K) * fl (fl (ranges[d].2 - ranges[d].1) / fl (2 ^ L - 1))) +
            ranges[d].1)) := by
  unfold decode
  have hl := BGA.flatten_length gs hrow
  rw [if_neg (by rw [hl, hlen]; simp [Nat.mul_assoc])]
  refine ⟨_, rfl, by simp, fun p hp => ⟨_, by rw [List.getElem?_map, List.getElem?_range (hlen ▸ hp)]; rfl,
    by simp, fun d hd => ?_⟩⟩
  have hdd : d < dim := by omega
  rw [List.getElem?_map, List.getElem?_range hdd]
  simp only [Option.map_some, Option.some.injEq, pow_zero]
  have hg : gs[p].length = dim * L := hrow _ (List.getElem_mem hp)
  have hseg : d * L + L ≤ dim * L := by
    calc d * L + L = (d + 1) * L := by ring
      _ ≤ dim * L := Nat.mul_le_mul_right _ hdd
  have hcl : (chromosome L gs[p] d).length = L := by
    simp only [chromosome, List.length_take, List.length_drop, hg]; omega
  have hsum : ((List.range L).map fun i =>
      gs.flatten.getD ((p * dim + d) * L + i) 0 * 2 ^ i).sum = bitValue (chromosome L gs[p] d) := by
    have hb := sum_bits (K := ℚ) (chromosome L gs[p] d)
    rw [hcl] at hb
    have hc : ((List.range L).map fun i => (((chromosome L gs[p] d).getD i 0 : ℤ) : ℚ) * 2 ^ i) =
        (List.range L).map fun i =>
          ((gs.flatten.getD ((p * dim + d) * L + i) 0 * 2 ^ i : ℤ) : ℚ) := by
      apply List.map_congr_left
      intro i hi
      rw [List.mem_range] at hi
      have hidx : (p * dim + d) * L + i = p * (dim * L) + (d * L + i) := by ring
      simp only [chromosome, List.getD_eq_getElem?_getD]
      rw [List.getElem?_take_of_lt hi, List.getElem?_drop, hidx,
        BGA.flatten_get gs hrow p _ (by omega), List.getElem?_eq_getElem hp]
      push_cast
      rfl
    rw [hc] at hb
    have hcast : (((List.range L).map fun i =>
        gs.flatten.getD ((p * dim + d) * L + i) 0 * 2 ^ i).sum : ℚ) =
        ((List.range L).map fun i =>
          ((gs.flatten.getD ((p * dim + d) * L + i) 0 * 2 ^ i : ℤ) : ℚ)).sum := by
      generalize List.range L = l
      induction l with
      | nil => simp
      | cons a l ih => simp only [List.map_cons, List.sum_cons]; rw [← ih]; push_cast; rfl
    rw [← hcast] at hb
    exact_mod_cast hb
  have hrd : ranges.getD d (0, 0) = ranges[d] := by
    rw [List.getD_eq_getElem?_getD, List.getElem?_eq_getElem hd]; rfl
  rw [hsum, hrd]

end

/-! ## Averages -/

section
variable {P K : Type} [Field K] [LinearOrder K] [FloorRing K] [IsStrictOrderedRing K]
open Knn Knn.Props

theorem foldl_mapIdx_get (g : ℕ → ℕ → K → K) (l : List ℕ) (row : List K) (j : ℕ) :
    (l.foldl (fun row nb => row.mapIdx fun j e => g nb j e) row)[j]? =
      (row[j]?).map fun e => l.foldl (fun e nb => g nb j e) e := by
  induction l generalizing row with
  | nil => simp
  | cons a l ih =>
    rw [List.foldl_cons, ih, List.getElem?_mapIdx]
    cases row[j]? with
    | none => rfl
    | some e => rfl

theorem kernels_get (fl : K → K) (fused : Bool) (sched : List ℕ) (inner : ℕ → List ℕ) (v : Values K)
    (rows : List (List ℕ)) (factor : K) (hs : IsSchedule rows.length sched)
    (hi : ∀ i < rows.length, IsSchedule v.nD (inner i)) (t : ℕ) (row : List ℕ)
    (hrow : rows[t]? = some row) :
    ∃ r, (if v.nd then approximateNd fl fused sched v rows factor
      else approximate2d fl fused sched inner v rows factor)[t]? = some r ∧ r.length = v.nD ∧
      ∀ j < v.nD, r[j]? = some ((row.map fun nb => v.a nb j).foldl
        (fun e x => mulAdd fl fused e x factor) 0) := by
  have ht : t < rows.length := (List.getElem?_eq_some_iff.1 hrow).1
  have hrd : rd [] rows t = row := by unfold rd; rw [hrow]; rfl
  have hrep : ∀ j < v.nD, (List.replicate v.nD (0 : K))[j]? = some 0 := fun j hj => by
    rw [List.getElem?_replicate, if_pos hj]
  cases hnd : v.nd with
  | true =>
    simp only [if_true]
    unfold approximateNd
    rw [loop1_get _ _ hs _ _ _ ht, List.getElem?_map, hrow]
    refine ⟨_, rfl, ?_, fun j hj => ?_⟩
    · rw [hrd, foldl_mapIdx_length (fun nb j e => mulAdd fl fused e (v.a nb j) factor),
        List.length_replicate]
    · rw [hrd, foldl_mapIdx_get (fun nb j e => mulAdd fl fused e (v.a nb j) factor), hrep j hj,
        Option.map_some, List.foldl_map]
  | false =>
    simp only [Bool.false_eq_true, if_false]
    unfold approximate2d
    rw [loop1_get _ _ hs _ _ _ ht, List.getElem?_map, hrow]
    refine ⟨_, rfl, ?_, fun j hj => ?_⟩
    · rw [loop1_length, List.length_replicate]
    · rw [loop1_get _ _ (hi t ht) _ _ _ hj, hrep j hj, Option.map_some, hrd, List.foldl_map]

/-- The result of `approximate`, entry by entry. -/
theorem approximate_get (fl : K → K) (fused : Bool) (libs : Libs) (q : Query P K) (dist : P → P → K)
    (hq : QueryOK dist q)
    (sched : List ℕ) (inner : ℕ → List ℕ) (A : Approximator P K) (XT : List P)
    (hs : IsSchedule XT.length sched) (hi : ∀ i < XT.length, IsSchedule A.Y.nD (inner i))
    (k : ℕ) (hA : A.k = some k ∨ A.k = none ∧ k = 4) (hk : 2 ≤ k)
    (hn : k ≤ A.X.length)
    (hb : A.backend.getD "scipy" = "scipy" ∨
      A.backend.getD "scipy" = "sklearn" ∧ libs.hasSklearn = true)
    (hlim : A.maxDistance = none) :
    ∃ res rows, kNearest libs q A.X (some XT) (A.backend.getD "scipy") k none = .ok (.rows rows) ∧
      approximate fl fused libs q sched inner A XT = .ok res ∧ res.length = XT.length ∧
      ∀ (t : ℕ) (y : P), XT[t]? = some y → ∃ (row : List ℕ) (r : List K), rows[t]? = some row ∧
        row.length = k ∧ row.Nodup ∧ (∀ i ∈ row, i < A.X.length) ∧
        (∀ i ∈ row, ∀ j, j ∉ row → ∀ x x', A.X[i]? = some x → A.X[j]? = some x' →
          dist x y ≤ dist x' y) ∧
        res[t]? = some r ∧ r.length = A.Y.nD ∧
        ∀ j < A.Y.nD, r[j]? = some ((row.map fun nb => A.Y.a nb j).foldl
          (fun e x => mulAdd fl fused e x (fl (1 / fl ((k : ℕ) : K)))) 0) := by
  obtain ⟨rows, h1, h2, h3⟩ := C58_nearest libs q dist hq A.X XT (A.backend.getD "scipy")
    k hk hn hb
  have hkk : numNeighbours A.k = k := by
    unfold numNeighbours
    rcases hA with h | ⟨h, rfl⟩
    · rw [h]
      exact if_neg (by omega)
    · rw [h]
  unfold approximate
  rw [hkk, hlim, h1]
  refine ⟨_, rows, rfl, rfl, ?_, ?_⟩
  · split
    · unfold approximateNd
      rw [loop1_length, List.length_map, h2]
    · unfold approximate2d
      rw [loop1_length, List.length_map, h2]
  · intro t y hy
    have ht : t < rows.length := by rw [h2]; exact (List.getElem?_eq_some_iff.1 hy).1
    have hrow : rows[t]? = some rows[t] := List.getElem?_eq_getElem ht
    obtain ⟨g1, g2, g3, g4, -⟩ := h3 t rows[t] y hrow hy
    rw [← h2] at hs hi
    obtain ⟨r, hr, hl, he⟩ := kernels_get fl fused sched inner A.Y rows (fl (1 / fl ((k : ℕ) : K))) hs
      hi t rows[t] hrow
    exact ⟨rows[t], r, hrow, g1, g2, g3, g4, hr, hl, he⟩

end

/-! ## Four equal numbers -/

theorem binary_fix (p : ℕ) (hp : 1 ≤ p) {c : ℚ} (hc : binary p c = c) (j : ℤ) :
    binary p (c * 2 ^ j) = c * 2 ^ j := by
  obtain ⟨m, k, h1, h2⟩ := binary_form p hp c
  rw [hc] at h2
  have : c * 2 ^ j = m * 2 ^ (k + j) := by rw [h2, zpow_add₀ (by norm_num)]; ring
  rw [this, binary_exact p hp m _ h1]

theorem four_last_pos (p : ℕ) (hp : 2 ≤ p) {c : ℚ} (hc : binary p c = c) (h0 : 0 < c) :
    binary p (binary p (c / 2 + c / 4) + c / 4) = c := by
  have hp1 : 1 ≤ p := by omega
  obtain ⟨a1, a2⟩ := log_bounds h0.ne'
  rw [abs_of_pos h0] at a1 a2
  generalize Int.log 2 c = e at *
  have hU := two_zpow_pos (e - p + 1)
  have hcM := binary_at p hp1 e c (by rwa [abs_of_pos h0]) (by rw [abs_of_pos h0]; exact a2.le)
  rw [hc] at hcM
  generalize nearestEven (c / 2 ^ (e - p + 1)) = M at hcM
  obtain ⟨d, hd⟩ : ∃ d, p = d + 1 := ⟨p - 1, by omega⟩
  have hlo : (2 : ℚ) ^ e = 2 ^ d * 2 ^ (e - p + 1) := by
    have : e = (d : ℤ) + (e - p + 1) := by omega
    conv_lhs => rw [this, zpow_add₀ (by norm_num), zpow_natCast]
  have hhi : (2 : ℚ) ^ (e + 1) = 2 ^ p * 2 ^ (e - p + 1) := by
    have : e + 1 = (p : ℤ) + (e - p + 1) := by omega
    conv_lhs => rw [this, zpow_add₀ (by norm_num), zpow_natCast]
  have hlast : ∀ x : ℚ, (2 : ℚ) ^ e ≤ x → x ≤ 2 ^ (e + 1) →
      (|x / 2 ^ (e - p + 1) - M| < 1 / 2 ∨ |x / 2 ^ (e - p + 1) - M| = 1 / 2 ∧ M % 2 = 0) →
      binary p x = c := by
    intro x h1 h2 h3
    have hx : 0 ≤ x := (two_zpow_pos e).le.trans h1
    rw [binary_at p hp1 e x (by rwa [abs_of_nonneg hx]) (by rwa [abs_of_nonneg hx]),
      nearestEven_eq _ M h3, ← hcM]
  have hM2 : (M : ℚ) + 1 ≤ 2 ^ p := by
    have : (M : ℚ) < 2 ^ p := by
      rw [hhi, hcM] at a2
      exact lt_of_mul_lt_mul_right a2 hU.le
    have : M < 2 ^ p := by exact_mod_cast this
    exact_mod_cast this
  have hM1 : (2 : ℚ) ^ d ≤ M := by
    rw [hlo, hcM] at a1
    exact le_of_mul_le_mul_right a1 hU
  have h34 : c / 2 + c / 4 = 3 / 4 * c := by ring
  rw [h34]
  by_cases hcase : (2 : ℚ) ^ e ≤ 3 / 4 * c
  · have hs3 := binary_at p hp1 e (3 / 4 * c) (by rwa [abs_of_pos (by linarith)])
      (by rw [abs_of_pos (by linarith)]; linarith)
    have hb := binary_binade p hp1 e (3 / 4 * c) hcase (by linarith)
    have harg : 3 / 4 * c / 2 ^ (e - p + 1) = 3 / 4 * M := by
      rw [hcM]; field_simp
    rw [harg] at hs3
    have herr := nearestEven_err (3 / 4 * M)
    generalize nearestEven (3 / 4 * (M : ℚ)) = N at *
    have hdiv : (binary p (3 / 4 * c) + c / 4) / 2 ^ (e - p + 1) = N + M / 4 := by
      rw [hs3, hcM]; field_simp
    apply hlast
    · linarith [hb.1]
    · rw [hhi, ← div_le_iff₀ hU, hdiv]
      rw [abs_le] at herr
      linarith
    · rw [hdiv]
      have : (N : ℚ) + M / 4 - M = N - 3 / 4 * M := by ring
      rw [this]
      rcases lt_or_eq_of_le herr with h | h
      · exact .inl h
      · refine .inr ⟨h, ?_⟩
        rcases abs_choice ((N : ℚ) - 3 / 4 * M) with h' | h' <;> rw [h'] at h
        · have : (4 * N : ℚ) = 3 * M + 2 := by linarith
          have : 4 * N = 3 * M + 2 := by exact_mod_cast this
          omega
        · have : (4 * N + 2 : ℚ) = 3 * M := by linarith
          have : 4 * N + 2 = 3 * M := by exact_mod_cast this
          omega
  · push Not at hcase
    by_cases hpow : (M : ℚ) = 2 ^ d
    · -- a power of two
      have h3c : binary p (3 / 4 * c) = 3 / 4 * c := by
        have hce : c = 2 ^ e := by rw [hcM, hpow, ← hlo]
        have : 3 / 4 * c = ((3 : ℤ) : ℚ) * 2 ^ (e - 2) := by
          rw [hce, zpow_sub₀ (by norm_num)]; norm_num; ring
        rw [this]
        refine binary_exact p hp1 3 _ ?_
        have : (2 : ℤ) ^ 2 ≤ 2 ^ p := pow_le_pow_right₀ (by norm_num) hp
        norm_num at this ⊢
        omega
      rw [h3c]
      have : 3 / 4 * c + c / 4 = c := by ring
      rw [this, hc]
    · have hM3 : (2 : ℚ) ^ d + 1 ≤ M := by
        have h1 : (2 : ℚ) ^ d < M := lt_of_le_of_ne hM1 (Ne.symm hpow)
        have h2 : (2 : ℤ) ^ d < M := by exact_mod_cast h1
        exact_mod_cast h2
      have he1 : (2 : ℚ) ^ (e - 1 + 1) = 2 ^ e := by congr 1; omega
      have he2 : (2 : ℚ) ^ (e - 1) = 2 ^ e / 2 := by rw [zpow_sub₀ (by norm_num)]; norm_num
      have hs3 := binary_at p hp1 (e - 1) (3 / 4 * c)
        (by rw [abs_of_pos (by linarith), he2]; linarith)
        (by rw [abs_of_pos (by linarith), he1]; exact hcase.le)
      have hU2 : (2 : ℚ) ^ (e - 1 - p + 1) = 2 ^ (e - p + 1) / 2 := by
        have : e - 1 - (p : ℤ) + 1 = (e - p + 1) - 1 := by omega
        rw [this, zpow_sub₀ (by norm_num) (e - p + 1 : ℤ) 1]; norm_num
      rw [hU2] at hs3
      have harg : 3 / 4 * c / (2 ^ (e - p + 1) / 2) = 3 / 2 * M := by
        rw [hcM]; field_simp; ring
      rw [harg] at hs3
      have herr := nearestEven_err (3 / 2 * M)
      generalize nearestEven (3 / 2 * (M : ℚ)) = N at *
      have hdiv : (binary p (3 / 4 * c) + c / 4) / 2 ^ (e - p + 1) = N / 2 + M / 4 := by
        rw [hs3, hcM]; field_simp
      rw [abs_le] at herr
      apply hlast
      · rw [hlo, ← le_div_iff₀ hU, hdiv]
        linarith
      · rw [hhi, ← div_le_iff₀ hU, hdiv]
        linarith
      · left
        rw [hdiv, abs_lt]
        constructor <;> linarith

theorem four_last (p : ℕ) (hp : 2 ≤ p) {c : ℚ} (hc : binary p c = c) :
    binary p (binary p (c / 2 + c / 4) + c / 4) = c := by
  rcases lt_trichotomy c 0 with h | rfl | h
  · have := four_last_pos p hp (c := -c) (by rw [binary_neg, hc]) (by linarith)
    have h1 : -c / 2 + -c / 4 = -(c / 2 + c / 4) := by ring
    rw [h1, binary_neg] at this
    have h2 : -binary p (c / 2 + c / 4) + -c / 4 = -(binary p (c / 2 + c / 4) + c / 4) := by ring
    rw [h2, binary_neg] at this
    linarith
  · simp [binary_zero]
  · exact four_last_pos p hp hc h

/-- Averaging four equal numbers in binary arithmetic is exact. -/
theorem four_equal (p : ℕ) (hp : 2 ≤ p) (fused : Bool) {c : ℚ} (hc : binary p c = c) :
    [c, c, c, c].foldl (fun e x => mulAdd (binary p) fused e x (binary p (1 / binary p ((4 : ℕ) : ℚ)))) 0
      = c := by
  have hp1 : 1 ≤ p := by omega
  have hone : ∀ j : ℤ, binary p (2 ^ j) = 2 ^ j := fun j => by
    have := binary_exact p hp1 1 j (by simpa using one_le_pow₀ (by norm_num))
    simpa using this
  have h4 : binary p ((4 : ℕ) : ℚ) = 4 := by
    have := hone 2
    norm_num at this ⊢
    exact this
  have hq : binary p (1 / 4) = 1 / 4 := by
    have := hone (-2)
    norm_num at this ⊢
    exact this
  have hc4 : binary p (c / 4) = c / 4 := by
    have := binary_fix p hp1 hc (-2)
    norm_num [zpow_neg] at this
    rw [show c / 4 = c * (1 / 4) by ring]
    exact this
  have hc2 : binary p (c / 2) = c / 2 := by
    have := binary_fix p hp1 hc (-1)
    norm_num [zpow_neg] at this
    rw [show c / 2 = c * (1 / 2) by ring]
    exact this
  rw [h4, hq]
  have hm : ∀ e, mulAdd (binary p) fused e c (1 / 4) = binary p (e + c / 4) := by
    intro e
    unfold mulAdd
    rw [show c * (1 / 4) = c / 4 by ring, hc4]
    simp
  simp only [List.foldl_cons, List.foldl_nil, hm, zero_add, hc4]
  rw [show c / 4 + c / 4 = c / 2 by ring, hc2]
  exact four_last p hp hc

end Verif.Rnd
