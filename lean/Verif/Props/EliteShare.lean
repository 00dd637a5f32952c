import Verif.Model.EliteShare
import Verif.Proofs.Rounding
import Verif.Props.BGA
import Mathlib.Tactic.Linarith
import Mathlib.Tactic.Positivity
import Mathlib.Tactic.NormNum

/-!
# The elite as a fraction of the population, in floating point arithmetic (C14)
-/

set_option linter.unusedSectionVars false

namespace Verif.EliteShare.Props
open Verif Verif.GA Verif.Rnd Verif.GA.Props Verif.BGA.Props

variable {K : Type} [Field K] [LinearOrder K] [IsStrictOrderedRing K]

/-- The split of a population in an elite of `n` members and the others: nobody is lost, nobody counted
twice, and no member of the others is strictly better than a member of the elite. -/
def IsSplit (nPop n : ℕ) (minimize : Bool) (f : List K) (elite others : List ℕ) : Prop :=
  (elite ++ others).Perm (List.range nPop) ∧ elite.length = n ∧
    ∀ i ∈ elite, ∀ j ∈ others, ∀ x y, f[i]? = some x → f[j]? = some y → ¬ Beats minimize y x

theorem split (argsort : List K → List ℕ) (ha : IsArgsort argsort) (nPop n : ℕ) (minimize : Bool)
    (f : List K) (hf : f.length = nPop) (hn : 1 ≤ n) (hn' : n ≤ nPop) :
    let a := if minimize then argsort f else (argsort f).reverse
    IsSplit nPop n minimize f (a.take n) (a.drop n) := by
  obtain ⟨e, o, h1, h2, h3, h4⟩ := C11_divide argsort ha nPop (.int n) minimize f hf
    (by simp only [Accepted]; exact_mod_cast hn)
  have hlt : ¬ ((n : ℤ) < 1) := by omega
  simp only [divide, if_neg hlt, Int.toNat_natCast, Except.ok.injEq, Prod.mk.injEq] at h1
  obtain ⟨rfl, rfl⟩ := h1
  exact ⟨h2, by simpa [requested, hn'] using h3, h4⟩

theorem split_zero (argsort : List K → List ℕ) (ha : IsArgsort argsort) (nPop : ℕ) (minimize : Bool)
    (f : List K) (hf : f.length = nPop) :
    let a := if minimize then argsort f else (argsort f).reverse
    IsSplit nPop 0 minimize f (a.take 0) (a.drop 0) := by
  subst hf
  refine ⟨?_, by simp, by simp⟩
  have := (ha f).1
  cases minimize <;> simp [this, (List.reverse_perm _).trans this]

theorem divideShare_eq {fl : ℚ → ℚ} {argsort : List K → List ℕ} {nPop n : ℕ} {q : ℚ} (h1 : q < 1)
    (hn : ⌊fl ((nPop : ℚ) * q)⌋.toNat = n) (minimize : Bool) (f : List K) :
    divideShare fl argsort nPop q minimize f =
      .ok ((if minimize then argsort f else (argsort f).reverse).take n,
        (if minimize then argsort f else (argsort f).reverse).drop n) := by
  simp only [divideShare, if_pos h1, hn]

theorem share (fl : ℚ → ℚ) (hfl : IsRounding fl) (argsort : List K → List ℕ)
    (ha : IsArgsort argsort) (nPop : ℕ) (hint : ∀ m : ℕ, m ≤ nPop → fl m = m) (q : ℚ) (h0 : 0 ≤ q)
    (h1 : q < 1) (minimize : Bool) (f : List K) (hf : f.length = nPop) :
    ∃ n elite others, divideShare fl argsort nPop q minimize f = .ok (elite, others) ∧
      IsSplit nPop n minimize f elite others ∧ ⌊fl ((nPop : ℚ) * q)⌋ = n ∧
      ((n : ℤ) = ⌊(nPop : ℚ) * q⌋ ∨ (n : ℤ) = ⌊(nPop : ℚ) * q⌋ + 1 ∧ n ≤ nPop) := by
  have hx0 : (0 : ℚ) ≤ (nPop : ℚ) * q := by positivity
  have hm0 : 0 ≤ ⌊(nPop : ℚ) * q⌋ := Int.floor_nonneg.mpr hx0
  obtain ⟨m, hm⟩ := Int.eq_ofNat_of_zero_le hm0
  have hlo : (m : ℚ) ≤ (nPop : ℚ) * q := by
    have := Int.floor_le ((nPop : ℚ) * q); rw [hm] at this; exact_mod_cast this
  have hhi : (nPop : ℚ) * q < m + 1 := by
    have := Int.lt_floor_add_one ((nPop : ℚ) * q); rw [hm] at this; exact_mod_cast this
  have hres : ∃ n : ℕ, ⌊fl ((nPop : ℚ) * q)⌋ = (n : ℤ) ∧ (n = m ∨ n = m + 1 ∧ n ≤ nPop) ∧ n ≤ nPop := by
    rcases Nat.eq_zero_or_pos nPop with h | h
    · subst h
      have hz : fl 0 = 0 := by simpa using hint 0 le_rfl
      have : m = 0 := by
        have : (m : ℚ) ≤ 0 := by simpa using hlo
        exact_mod_cast le_antisymm this (by positivity)
      exact ⟨0, by simp [hz], Or.inl this.symm, le_rfl⟩
    · have hmn : m < nPop := by
        have : (nPop : ℚ) * q < nPop := by
          have : (0 : ℚ) < nPop := by exact_mod_cast h
          nlinarith
        exact_mod_cast lt_of_le_of_lt hlo this
      have h2 : (m : ℚ) ≤ fl ((nPop : ℚ) * q) := by
        have := hfl.mono _ _ hlo; rwa [hint m hmn.le] at this
      have h3 : fl ((nPop : ℚ) * q) ≤ (m + 1 : ℕ) := by
        have := hfl.mono _ ((m + 1 : ℕ) : ℚ) (by push_cast; exact hhi.le)
        rwa [hint (m + 1) hmn] at this
      have h4 : (m : ℤ) ≤ ⌊fl ((nPop : ℚ) * q)⌋ := Int.le_floor.mpr (by exact_mod_cast h2)
      have h5 : ⌊fl ((nPop : ℚ) * q)⌋ ≤ (m : ℤ) + 1 := by
        have := Int.floor_le (fl ((nPop : ℚ) * q))
        have := this.trans h3
        exact_mod_cast this
      exact ⟨⌊fl ((nPop : ℚ) * q)⌋.toNat, by omega, by omega, by omega⟩
  obtain ⟨n, hn, hc, hle⟩ := hres
  refine ⟨n, _, _, divideShare_eq h1 (by rw [hn, Int.toNat_natCast]) minimize f, ?_, hn, by omega⟩
  rcases Nat.eq_zero_or_pos n with h | h
  · subst h; exact split_zero argsort ha nPop minimize f hf
  · exact split argsort ha nPop n minimize f hf h hle

/-- C14, fractions in floating point arithmetic: if the numbers up to the population size are floating
point numbers, a float `q` between 0 and 1 makes an elite of `⌊nPop * q⌋` members or of one member more,
and these are the best. -/
theorem C14_share (fl : ℚ → ℚ) (hfl : IsRounding fl) (argsort : List K → List ℕ)
    (ha : IsArgsort argsort) (nPop : ℕ) (hint : ∀ m : ℕ, m ≤ nPop → fl m = m) (q : ℚ) (h0 : 0 ≤ q)
    (h1 : q < 1) (minimize : Bool) (f : List K) (hf : f.length = nPop) :
    ∃ n elite others, divideShare fl argsort nPop q minimize f = .ok (elite, others) ∧
      IsSplit nPop n minimize f elite others ∧
      ((n : ℤ) = ⌊(nPop : ℚ) * q⌋ ∨ (n : ℤ) = ⌊(nPop : ℚ) * q⌋ + 1 ∧ n ≤ nPop) := by
  obtain ⟨n, e, o, h1, h2, -, h3⟩ := share fl hfl argsort ha nPop hint q h0 h1 minimize f hf
  exact ⟨n, e, o, h1, h2, h3⟩

/-- C14, fractions as they are written: if the written fraction `r` is stored as the float closest to it,
the elite differs from `⌊nPop * r⌋` by at most one member. -/
theorem C14_share_written (fl : ℚ → ℚ) (hfl : IsRounding fl) (u : ℚ) (hu : Precise fl u)
    (argsort : List K → List ℕ) (ha : IsArgsort argsort) (nPop : ℕ) (hsmall : 2 * nPop * u ≤ 1)
    (hint : ∀ m : ℕ, m ≤ nPop → fl m = m) (r : ℚ) (h0 : 0 ≤ r) (h1 : fl r < 1) (minimize : Bool)
    (f : List K) (hf : f.length = nPop) :
    ∃ n elite others, divideShare fl argsort nPop (fl r) minimize f = .ok (elite, others) ∧
      IsSplit nPop n minimize f elite others ∧ |(n : ℤ) - ⌊(nPop : ℚ) * r⌋| ≤ 1 := by
  have hr1 : r < 1 := by
    by_contra h
    have := hfl.mono 1 r (not_lt.mp h)
    rw [hfl.one] at this
    linarith
  have hz : fl 0 = 0 := by simpa using hint 0 (Nat.zero_le _)
  have hq0 : 0 ≤ fl r := by have := hfl.mono 0 r h0; rwa [hz] at this
  obtain ⟨n, e, o, hd, hs, hn, -⟩ := share fl hfl argsort ha nPop hint (fl r) hq0 h1 minimize f hf
  refine ⟨n, e, o, hd, hs, ?_⟩
  have hN : (0 : ℚ) ≤ nPop := by positivity
  have hu0 : 0 ≤ u := by have := hu 1; rw [hfl.one] at this; simpa using this
  have a1 := abs_le.mp (hu r)
  have a2 := abs_le.mp (hu ((nPop : ℚ) * fl r))
  rw [abs_of_nonneg h0] at a1
  rw [abs_of_nonneg (by positivity)] at a2
  have b1 : (nPop : ℚ) * (u * r) ≤ 1 / 2 * r := by
    have : (nPop : ℚ) * u * r ≤ 1 / 2 * r := mul_le_mul_of_nonneg_right (by linarith) h0
    linarith
  have b2 : u * ((nPop : ℚ) * fl r) ≤ 1 / 2 * fl r := by
    have : (nPop : ℚ) * u * fl r ≤ 1 / 2 * fl r := mul_le_mul_of_nonneg_right (by linarith) hq0
    linarith
  have b3 := mul_le_mul_of_nonneg_left a1.1 hN
  have b4 := mul_le_mul_of_nonneg_left a1.2 hN
  have f1 := Int.floor_le (fl ((nPop : ℚ) * fl r))
  have f2 := Int.lt_floor_add_one (fl ((nPop : ℚ) * fl r))
  have f3 := Int.floor_le ((nPop : ℚ) * r)
  have f4 := Int.lt_floor_add_one ((nPop : ℚ) * r)
  rw [hn] at f1 f2
  have c1 : ((n : ℤ) : ℚ) < ⌊(nPop : ℚ) * r⌋ + 2 := by linarith
  have c2 : ((⌊(nPop : ℚ) * r⌋ : ℤ) : ℚ) < (n : ℤ) + 2 := by linarith
  have c1' : (n : ℤ) < ⌊(nPop : ℚ) * r⌋ + 2 := by exact_mod_cast c1
  have c2' : ⌊(nPop : ℚ) * r⌋ < (n : ℤ) + 2 := by exact_mod_cast c2
  rw [abs_le]; omega

/-- The best `r * nPop` members are the elite, for fractions `r` for which that is a whole number: not so.
`elitism=0.29` in a population of 100 makes an elite of 28 members, as `100 * 0.29` is
28.999999999999996. -/
theorem C14_share_violated (argsort : List K → List ℕ) (ha : IsArgsort argsort) (minimize : Bool)
    (f : List K) (hf : f.length = 100) :
    ∃ elite others, divideShare (binary 53) argsort 100 (binary 53 (29 / 100)) minimize f =
      .ok (elite, others) ∧ IsSplit 100 28 minimize f elite others := by
  have hn : ⌊binary 53 (((100 : ℕ) : ℚ) * binary 53 (29 / 100))⌋.toNat = 28 := by decide +kernel
  have hq : binary 53 (29 / 100) < 1 := by decide +kernel
  refine ⟨_, _, divideShare_eq hq hn minimize f, ?_⟩
  exact split argsort ha 100 28 minimize f hf (by norm_num) (by norm_num)

/-- C14, fractions: a setting of 1.0 fails, in floating point arithmetic as well. -/
theorem C14_share_one_fails (fl : ℚ → ℚ) (argsort : List K → List ℕ) (nPop : ℕ) (minimize : Bool)
    (f : List K) : divideShare fl argsort nPop 1 minimize f = .error .type := by
  simp [divideShare]

/-- C14: values that `set_solution_params` refuses stay in place nevertheless (see C13); an integer
that is not positive then means that there is no elite. -/
theorem C14_refused_stays (argsort : List K → List ℕ) (ha : IsArgsort argsort) (nPop : ℕ) (k : ℤ)
    (hk : k ≤ 0) (minimize : Bool) (f : List K) (hf : f.length = nPop) :
    ∃ others, divide argsort nPop (.int k) minimize f = .ok ([], others) ∧
      IsSplit nPop 0 minimize f [] others := by
  have h := split_zero argsort ha nPop minimize f hf
  have h1 : ((nPop : ℤ) * k).toNat = 0 := Int.toNat_of_nonpos (mul_nonpos_of_nonneg_of_nonpos (by positivity) hk)
  refine ⟨_, ?_, h⟩
  simp [divide, show k < 1 by omega, h1]

/-! ## The hypotheses can be met -/

section
/-- 0.3 of 100 in double precision: the float is less than 3/10, the rounded product is 30 again. -/
example : ∃ n elite others, divideShare (binary 53) refArgsort 100 (binary 53 (3 / 10)) true
    ((List.range 100).map fun i => (i : ℚ)) = .ok (elite, others) ∧
    IsSplit 100 n true ((List.range 100).map fun i => (i : ℚ)) elite others ∧
    |(n : ℤ) - ⌊((100 : ℕ) : ℚ) * (3 / 10)⌋| ≤ 1 :=
  C14_share_written (binary 53) (binary_rounding 53 (by norm_num)) (1 / 2 ^ 53)
    (binary_precise 53 (by norm_num)) refArgsort refArgsort_ok 100 (by norm_num)
    (fun m hm => binary_nat 53 (by norm_num) m (hm.trans (by norm_num))) (3 / 10) (by norm_num)
    (by decide +kernel) true _ (by simp)

example : ⌊binary 53 (100 * binary 53 (3 / 10))⌋ = 30 ∧ binary 53 (3 / 10) < 3 / 10 := by
  constructor <;> decide +kernel

example := C14_share (binary 53) (binary_rounding 53 (by norm_num)) refArgsort refArgsort_ok 8
    (fun m hm => binary_nat 53 (by norm_num) m (hm.trans (by norm_num))) (1 / 4) (by norm_num)
    (by norm_num) false ((List.range 8).map fun i => (i : ℚ)) (by simp)

example := C14_share_violated refArgsort refArgsort_ok true
    ((List.range 100).map fun i => (i : ℚ)) (by simp)

example := C14_refused_stays refArgsort refArgsort_ok 8 (-3) (by norm_num) true
    ((List.range 8).map fun i => (i : ℚ)) (by simp)
end

end Verif.EliteShare.Props
