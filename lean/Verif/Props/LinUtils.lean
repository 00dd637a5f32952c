import Verif.Model.LinUtils
import Verif.Proofs.Utils
import Mathlib.Algebra.BigOperators.Field
import Mathlib.Tactic.LinearCombination
import Mathlib.Tactic.FieldSimp
import Mathlib.Tactic.Linarith
import Mathlib.Tactic.Positivity

/-!
# Properties C67-C68: points on segments and normalization
-/

set_option linter.unusedSectionVars false

namespace Verif.Lin.Props
open Verif Verif.Utils Verif.Lin

/-! ## C67 -/

/-- The `i`-th of `N` evenly spaced points from `p` to `q`. -/
noncomputable def spaced (p q : ℝ) (N i : ℕ) : ℝ := p + (i : ℝ) / ((N : ℝ) - 1) * (q - p)

theorem spaced_first (p q : ℝ) (N : ℕ) : spaced p q N 0 = p := by simp [spaced]

theorem spaced_last (p q : ℝ) (N : ℕ) (hN : 2 ≤ N) : spaced p q N (N - 1) = q := by
  unfold spaced
  rw [Nat.cast_sub (by omega), Nat.cast_one]
  have : (N : ℝ) - 1 ≠ 0 := by
    have : (2 : ℝ) ≤ N := by exact_mod_cast hN
    linarith
  rw [div_self this]
  ring

theorem norm_nonneg {d : ℕ} (v : Fin d → ℝ) : 0 ≤ norm v := Real.sqrt_nonneg _

theorem norm_sq {d : ℕ} (v : Fin d → ℝ) : norm v ^ 2 = ∑ i, v i ^ 2 :=
  Real.sq_sqrt (Finset.sum_nonneg fun _ _ => sq_nonneg _)

theorem norm_eq_zero {d : ℕ} (v : Fin d → ℝ) : norm v = 0 ↔ v = 0 := by
  unfold norm
  rw [Real.sqrt_eq_zero (Finset.sum_nonneg fun _ _ => sq_nonneg _),
    Finset.sum_eq_zero_iff_of_nonneg fun _ _ => sq_nonneg _]
  constructor
  · intro h
    funext i
    simpa using h i (Finset.mem_univ i)
  · rintro rfl i -
    simp

theorem norm_sub_ne_zero {d : ℕ} {p q : Fin d → ℝ} (h : p ≠ q) : norm (fun i => q i - p i) ≠ 0 := by
  rw [Ne, norm_eq_zero]
  intro h'
  exact h (funext fun i => (sub_eq_zero.1 (congrFun h' i)).symm)

theorem foldl_set_range (N : ℕ) {α : Type} (f : ℕ → α) (sched : List ℕ)
    (hs : sched.Perm (List.range' 1 (N - 2))) (init : List α) (hi : init.length = N) (j : ℕ)
    (hj : j < N) :
    (sched.foldl (fun r i => r.set i (f i)) init)[j]? =
      if 1 ≤ j ∧ j < N - 1 then some (f j) else init[j]? := by
  rw [foldl_set_get f sched init j (by omega)]
  have : j ∈ sched ↔ 1 ≤ j ∧ j < N - 1 := by
    rw [hs.mem_iff, List.mem_range'_1]
    omega
  simp only [this]

/-- C67: `linspace` between different points returns the evenly spaced points, the given ones at the
ends, whatever the order in which the parallel loop runs. -/
theorem C67_linspace {d : ℕ} (sched : List ℕ) (p0 p1 : Fin d → ℝ) (N : ℕ) (hN : 2 ≤ N)
    (hs : sched.Perm (List.range' 1 (N - 2))) (hp : p0 ≠ p1) :
    linspacePoints sched .float p0 p1 N =
      .ok ((List.range N).map fun (i : ℕ) j => some (spaced (p0 j) (p1 j) N i)) := by
  unfold linspacePoints
  rw [if_neg (by decide), if_neg (by omega)]
  simp only
  refine congrArg _ (List.ext_getElem? fun j => ?_)
  by_cases hj : j < N
  · rw [List.getElem?_map, List.getElem?_range hj, Option.map_some, List.getElem?_set]
    have hlen : (List.foldl (fun res i => res.set i fun j =>
        ((fdiv (p1 j - p0 j) (norm fun i => p1 i - p0 i)).map
          (· * ((norm fun i => p1 i - p0 i) / ((N : ℝ) - 1)))).map fun t => p0 j + (i : ℝ) * t)
        ((List.replicate N fun _ => some 0).set 0 fun j => some (p0 j)) sched).length = N := by
      rw [foldl_set_length (fun i j => ((fdiv (p1 j - p0 j) (norm fun i => p1 i - p0 i)).map
          (· * ((norm fun i => p1 i - p0 i) / ((N : ℝ) - 1)))).map fun t => p0 j + (i : ℝ) * t)]
      simp
    split_ifs with h1 h2
    · rw [← h1]
      exact congrArg some (funext fun j => by rw [spaced_last _ _ _ hN])
    · rw [hlen] at h2
      omega
    · rw [foldl_set_range N (fun i j => ((fdiv (p1 j - p0 j) (norm fun i => p1 i - p0 i)).map
          (· * ((norm fun i => p1 i - p0 i) / ((N : ℝ) - 1)))).map fun t => p0 j + (i : ℝ) * t) sched hs _
          (by simp) j hj]
      split_ifs with h3
      · refine congrArg some (funext fun k => ?_)
        have hL := norm_sub_ne_zero hp
        have hN' : (N : ℝ) - 1 ≠ 0 := by
          have : (2 : ℝ) ≤ N := by exact_mod_cast hN
          linarith
        rw [fdiv, if_neg hL]
        simp only [Option.map_some, spaced]
        congr 1
        field_simp
      · have hj0 : j = 0 := by omega
        rw [hj0, List.getElem?_set_self (by simp; omega)]
        exact congrArg some (funext fun k => by rw [spaced_first])
  · rw [List.getElem?_eq_none (by rw [List.length_set, foldl_set_length (fun i j =>
        ((fdiv (p1 j - p0 j) (norm fun i => p1 i - p0 i)).map
          (· * ((norm fun i => p1 i - p0 i) / ((N : ℝ) - 1)))).map fun t => p0 j + (i : ℝ) * t)]; simp; omega),
      List.getElem?_eq_none (by simp; omega)]

/-- C67: the same for numbers; equal ends are allowed. -/
theorem C67_linspace1d (sched : List ℕ) (start stop : ℝ) (N : ℕ) (hN : N ≠ 1)
    (hs : IsSchedule N sched) :
    linspace1d sched start stop N = .ok ((List.range N).map fun (i : ℕ) => spaced start stop N i) := by
  unfold linspace1d
  rw [if_neg hN, foldl_set_schedule (fun i => start + (i : ℝ) * ((stop - start) / ((N : ℝ) - 1))) hs _
    (by simp)]
  refine congrArg _ (List.map_congr_left fun i _ => ?_)
  unfold spaced
  ring

/-- C67: `vpath` between different points of float arrays. -/
theorem C67_vpath {d : ℕ} (sched : List ℕ) (dt2 : DType) (p1 p2 : Fin d → ℝ) (n : ℕ) (hn : 2 ≤ n)
    (hs : IsSchedule n sched) (hp : p1 ≠ p2) :
    vpath sched .float dt2 p1 p2 n =
      .ok ((List.range n).map fun (i : ℕ) j => some (spaced (p1 j) (p2 j) n i)) := by
  unfold vpath
  rw [if_neg (by simp)]
  simp only
  rw [foldl_set_schedule (fun i j => (fdiv (p2 j - p1 j) (norm fun i => p2 i - p1 i)).map fun t =>
    store .float (p1 j + (npLinspace 0 (norm fun i => p2 i - p1 i) n).getD i 0 * t)) hs _ (by simp)]
  refine congrArg _ (List.map_congr_left fun i hi => funext fun j => ?_)
  have hi' : i < n := List.mem_range.1 hi
  have hL := norm_sub_ne_zero hp
  have hn' : (n : ℝ) - 1 ≠ 0 := by
    have : (2 : ℝ) ≤ n := by exact_mod_cast hn
    linarith
  have h1 : (npLinspace 0 (norm fun i => p2 i - p1 i) n).getD i 0 =
      (i : ℝ) * (norm (fun i => p2 i - p1 i) / ((n : ℝ) - 1)) := by
    unfold npLinspace
    rw [List.getD_eq_getElem?_getD, List.getElem?_map, List.getElem?_range hi', Option.map_some,
      Option.getD_some, if_neg (by omega)]
    ring
  rw [h1, fdiv, if_neg hL]
  simp only [Option.map_some, store, spaced]
  congr 1
  field_simp

/-- C67: neighbouring points are equally far from each other. -/
theorem C67_equidistant {d : ℕ} (p0 p1 : Fin d → ℝ) (N : ℕ) (hN : 2 ≤ N) (i : ℕ) :
    norm (fun j => spaced (p0 j) (p1 j) N (i + 1) - spaced (p0 j) (p1 j) N i) =
      norm (fun j => p1 j - p0 j) / ((N : ℝ) - 1) := by
  have hpos : (0 : ℝ) < (N : ℝ) - 1 := by
    have : (2 : ℝ) ≤ N := by exact_mod_cast hN
    linarith
  have h1 : (fun j => spaced (p0 j) (p1 j) N (i + 1) - spaced (p0 j) (p1 j) N i) =
      fun j => (p1 j - p0 j) / ((N : ℝ) - 1) := by
    funext j
    unfold spaced
    push_cast
    field_simp
    ring
  rw [h1]
  unfold norm
  simp only [div_pow]
  rw [← Finset.sum_div, Real.sqrt_div (Finset.sum_nonneg fun _ _ => sq_nonneg _),
    Real.sqrt_sq hpos.le]

/-- C67 fails for a single point, which raises an exception. -/
theorem C67_single_point_violated {d : ℕ} (sched : List ℕ) (p0 p1 : Fin d → ℝ) (start stop : ℝ) :
    linspacePoints sched .float p0 p1 1 = .error .zeroDiv ∧
    linspace1d sched start stop 1 = .error .zeroDiv := ⟨rfl, rfl⟩

/-- C67 fails for coinciding ends: the points between, and with `vpath` all points, are not numbers. -/
theorem C67_equal_ends_violated {d : ℕ} (sched sched' : List ℕ) (p : Fin d → ℝ) (N : ℕ)
    (hN : 2 ≤ N) (hs : sched.Perm (List.range' 1 (N - 2))) (hs' : IsSchedule N sched') :
    (∃ res, linspacePoints sched .float p p N = .ok res ∧ res.length = N ∧
      ∀ i, 1 ≤ i → i < N - 1 → res[i]? = some fun _ => none) ∧
    vpath sched' .float .float p p N = .ok (List.replicate N fun _ => none) := by
  have hL : norm (fun i => p i - p i) = 0 := by
    rw [norm_eq_zero]
    funext i
    simp
  constructor
  · unfold linspacePoints
    rw [if_neg (by decide), if_neg (by omega)]
    simp only [hL, fdiv, if_true, Option.map_none]
    refine ⟨_, rfl, ?_, fun i h1 h2 => ?_⟩
    · rw [List.length_set, foldl_set_length (fun (_ : ℕ) (_ : Fin d) => (none : Option ℝ))]
      simp
    · rw [List.getElem?_set, if_neg (by omega), foldl_set_range N (fun (_ : ℕ) (_ : Fin d) => (none : Option ℝ)) sched hs _
        (by simp) i (by omega), if_pos ⟨h1, h2⟩]
  · unfold vpath
    rw [if_neg (by simp)]
    simp only [hL, fdiv, if_true, Option.map_none]
    rw [foldl_set_schedule (fun (_ : ℕ) (_ : Fin d) => (none : Option ℝ)) hs' _ (by simp)]
    refine congrArg _ (List.eq_replicate_iff.2 ⟨by simp, fun b hb => ?_⟩)
    obtain ⟨_, _, rfl⟩ := List.mem_map.1 hb
    rfl

/-- C67 fails for `vpath` from an integer to a float array: the points are truncated, here the last
point `1.5` of a path is returned as `1`. -/
theorem C67_vpath_integer_violated :
    vpath [0, 1] .int .float ![(0 : ℝ)] ![(3 / 2 : ℝ)] 2 =
      .ok [fun _ => some 0, fun _ => some 1] := by
  have hL : norm (fun i => ![(3 / 2 : ℝ)] i - ![(0 : ℝ)] i) = 3 / 2 := by
    unfold norm
    rw [Real.sqrt_eq_iff_mul_self_eq (Finset.sum_nonneg fun _ _ => sq_nonneg _) (by norm_num)]
    simp
    norm_num
  unfold vpath
  rw [if_neg (by simp)]
  simp only [hL]
  have h2 : npLinspace 0 (3 / 2) 2 = [0, 3 / 2] := by
    unfold npLinspace
    norm_num [List.range_succ]
  rw [h2]
  simp only [List.foldl_cons, List.foldl_nil, List.replicate, List.set, List.getD_cons_zero,
    List.getD_cons_succ]
  have h0 : trunc (0 : ℝ) = 0 := by unfold trunc; norm_num
  have h1 : trunc (3 / 2 : ℝ) = 1 := by
    unfold trunc
    rw [if_pos (by norm_num), show ⌊(3 / 2 : ℝ)⌋ = 1 by rw [Int.floor_eq_iff]; norm_num]
    norm_num
  have e0 : (fun j => (fdiv (![(3 / 2 : ℝ)] j - ![(0 : ℝ)] j) (3 / 2)).map fun t =>
      store .int (![(0 : ℝ)] j + 0 * t)) = fun _ => some 0 := by
    funext j
    fin_cases j
    simp [fdiv, store, h0]
  have e1 : (fun j => (fdiv (![(3 / 2 : ℝ)] j - ![(0 : ℝ)] j) (3 / 2)).map fun t =>
      store .int (![(0 : ℝ)] j + 3 / 2 * t)) = fun _ => some 1 := by
    funext j
    fin_cases j
    simp [fdiv, store, h1]
  rw [e0, e1]

/-- Both points are integer arrays: refused. -/
theorem C67_integer_refused {d : ℕ} (sched : List ℕ) (p0 p1 : Fin d → ℝ) (N : ℕ) :
    linspacePoints sched .int p0 p1 N = .error .type ∧ vpath sched .int .int p0 p1 N = .error .type :=
  ⟨rfl, rfl⟩

/-- Five points from `(0, 1)` to `(2, 5)`. -/
example : linspacePoints [3, 1, 2] .float ![0, 1] ![2, 5] 5 =
    .ok ((List.range 5).map fun (i : ℕ) j => some (spaced (![(0 : ℝ), 1] j) (![(2 : ℝ), 5] j) 5 i)) ∧
    spaced 1 5 5 3 = 4 :=
  ⟨C67_linspace _ _ _ 5 (by decide) (by decide) (fun h => by simpa using congrFun h 0), by
    unfold spaced; norm_num⟩

/-! ## C68 -/

/-- C68: normalizing a nonzero vector gives the vector of unit length in its direction. -/
theorem C68_normalize {d : ℕ} (v : Fin d → ℝ) (hv : v ≠ 0) :
    ∃ (w : Fin d → ℝ) (c : ℝ), normalize .float v = .ok (fun i => some (w i)) ∧ ∑ i, w i ^ 2 = 1 ∧
      0 < c ∧ (∀ i, v i = c * w i) ∧ c ^ 2 = ∑ i, v i ^ 2 := by
  have h0 : norm v ≠ 0 := fun h => hv ((norm_eq_zero v).1 h)
  refine ⟨fun i => v i / norm v, norm v, ?_, ?_, (norm_nonneg v).lt_of_ne' h0, fun i => ?_, norm_sq v⟩
  · unfold normalize
    rw [if_neg (by decide)]
    simp only [fdiv, if_neg h0]
  · simp only [div_pow]
    rw [← Finset.sum_div, ← norm_sq, div_self (pow_ne_zero 2 h0)]
  · field_simp

/-- C68: rows are normalized one by one, in the compiled and in the interpreted version, whatever the
order of the parallel loop. -/
theorem C68_rows {d : ℕ} (sched : List ℕ) (A : List (Fin d → ℝ)) (hs : IsSchedule A.length sched) :
    ∃ B, normalize2d sched .float A = .ok B ∧ normalizeFrame .float A = .ok B ∧
      B.length = A.length ∧
      ∀ (i : ℕ) (v : Fin d → ℝ), A[i]? = some v → ∃ w, B[i]? = some w ∧ normalize .float v = .ok w := by
  refine ⟨A.map fun v i => fdiv (v i) (norm v), ?_, ?_, by simp, fun i v hv => ?_⟩
  · unfold normalize2d
    rw [if_neg (by decide),
      foldl_set_schedule (fun i j => fdiv (A.getD i 0 j) (norm (A.getD i 0))) hs _ (by simp)]
    refine congrArg _ (List.ext_getElem? fun i => ?_)
    by_cases hi : i < A.length
    · rw [List.getElem?_map, List.getElem?_map, List.getElem?_range hi, List.getElem?_eq_getElem hi,
        Option.map_some, Option.map_some, List.getD_eq_getElem?_getD, List.getElem?_eq_getElem hi,
        Option.getD_some]
    · rw [List.getElem?_eq_none (by simp; omega), List.getElem?_eq_none (by simp; omega)]
  · clear hs
    unfold normalizeFrame
    induction A with
    | nil => rfl
    | cons v A ih =>
      rw [List.foldr_cons, ih]
      rfl
  · rw [List.getElem?_map, hv]
    exact ⟨_, rfl, rfl⟩

/-- C68: the norms of rows. -/
theorem C68_norms {d : ℕ} (sched : List ℕ) (A : List (Fin d → ℝ)) (hs : IsSchedule A.length sched) :
    ∃ r, norm2d sched .float A = .ok r ∧ r.length = A.length ∧
      ∀ (i : ℕ) (v : Fin d → ℝ), A[i]? = some v → ∃ l, r[i]? = some l ∧ 0 ≤ l ∧ l ^ 2 = ∑ k, v k ^ 2 := by
  refine ⟨_, by unfold norm2d; rw [if_neg (by decide)], ?_, fun i v hv => ?_⟩
  · rw [foldl_set_schedule (fun i => norm (A.getD i 0)) hs _ (by simp)]
    simp
  · rw [foldl_set_schedule (fun i => norm (A.getD i 0)) hs _ (by simp), List.getElem?_map,
      List.getElem?_range (List.getElem?_eq_some_iff.1 hv).1]
    refine ⟨_, rfl, norm_nonneg _, ?_⟩
    rw [norm_sq, List.getD_eq_getElem?_getD, hv, Option.getD_some]

/-- C68 fails for the zero vector (no numbers) and for integer arrays (refused). -/
theorem C68_zero_violated {d : ℕ} (v : Fin d → ℝ) :
    normalize .float (0 : Fin d → ℝ) = .ok (fun _ => none) ∧ normalize .int v = .error .type := by
  refine ⟨?_, rfl⟩
  unfold normalize
  rw [if_neg (by decide)]
  have : norm (0 : Fin d → ℝ) = 0 := (norm_eq_zero _).2 rfl
  simp [fdiv, this]

example : ∃ (w : Fin 2 → ℝ) (c : ℝ), normalize .float ![3, 4] = .ok (fun i => some (w i)) ∧
    ∑ i, w i ^ 2 = 1 ∧ 0 < c ∧ (∀ i, ![(3 : ℝ), 4] i = c * w i) ∧ c ^ 2 = ∑ i, ![(3 : ℝ), 4] i ^ 2 :=
  C68_normalize _ fun h => by simpa using congrFun h 0

end Verif.Lin.Props
