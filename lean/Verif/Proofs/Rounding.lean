import Verif.Model.Rounding
import Mathlib.Tactic.Ring
import Mathlib.Tactic.FieldSimp
import Mathlib.Tactic.Linarith
import Mathlib.Tactic.Positivity
import Mathlib.Tactic.NormNum
import Mathlib.Algebra.Order.Field.Power

/-!
# Facts about roundings
-/

set_option linter.unusedSectionVars false

namespace Verif.Rnd
open Verif

/-! ## Rounding to integers -/

theorem nearestEven_cases (q : ℚ) :
    (nearestEven q = ⌊q⌋ ∧ q - ⌊q⌋ ≤ 1 / 2) ∨ (nearestEven q = ⌊q⌋ + 1 ∧ 1 / 2 ≤ q - ⌊q⌋) := by
  unfold nearestEven
  split
  · left; exact ⟨rfl, by linarith⟩
  · split
    · right; exact ⟨rfl, by linarith⟩
    · split
      · left; exact ⟨rfl, by linarith⟩
      · right; exact ⟨rfl, by linarith⟩

theorem nearestEven_err (q : ℚ) : |(nearestEven q : ℚ) - q| ≤ 1 / 2 := by
  have h0 := Int.floor_le q
  have h1 := Int.lt_floor_add_one q
  rcases nearestEven_cases q with ⟨h, h2⟩ | ⟨h, h2⟩ <;> rw [h, abs_le] <;> push_cast <;>
    constructor <;> linarith

theorem nearestEven_int (m : ℤ) : nearestEven (m : ℚ) = m := by
  unfold nearestEven
  rw [Int.floor_intCast, if_pos (by norm_num)]

/-- An integer closer than one half, or just as close and even. -/
theorem nearestEven_eq (q : ℚ) (m : ℤ) (h : |q - m| < 1 / 2 ∨ |q - m| = 1 / 2 ∧ m % 2 = 0) :
    nearestEven q = m := by
  have h0 := Int.floor_le q
  have h1 := Int.lt_floor_add_one q
  have hle : |q - m| ≤ 1 / 2 := by rcases h with h | h; exacts [h.le, h.1.le]
  rw [abs_le] at hle
  have hm : m = ⌊q⌋ ∨ m = ⌊q⌋ + 1 := by
    have ha : (m : ℚ) < ⌊q⌋ + 2 := by linarith
    have hb : ((⌊q⌋ : ℤ) : ℚ) < m + 1 := by linarith
    have ha' : m < ⌊q⌋ + 2 := by exact_mod_cast ha
    have hb' : ⌊q⌋ < m + 1 := by exact_mod_cast hb
    omega
  unfold nearestEven
  rcases hm with hm | hm
  · have hq : q - ⌊q⌋ = q - m := by rw [hm]
    rcases h with h | ⟨h, he⟩
    · rw [abs_lt] at h
      rw [if_pos (by rw [hq]; linarith), hm]
    · have : |q - m| = q - m := abs_of_nonneg (by rw [hm]; linarith)
      rw [this] at h
      rw [if_neg (by rw [hq, h]; norm_num), if_neg (by rw [hq, h]; norm_num),
        if_pos (by rw [← hm]; exact he), hm]
  · have hq : q - ⌊q⌋ = q - m + 1 := by rw [hm]; push_cast; ring
    rcases h with h | ⟨h, he⟩
    · rw [abs_lt] at h
      rw [if_neg (by rw [hq]; linarith), if_pos (by rw [hq]; linarith), hm]
    · have : |q - m| = -(q - m) := abs_of_nonpos (by rw [hm]; push_cast; linarith)
      rw [this] at h
      have h' : q - m = -(1 / 2) := by linarith
      rw [if_neg (by rw [hq, h']; norm_num), if_neg (by rw [hq, h']; norm_num),
        if_neg (by omega), hm]

theorem nearestEven_mono (q r : ℚ) (h : q ≤ r) : nearestEven q ≤ nearestEven r := by
  have hf : ⌊q⌋ ≤ ⌊r⌋ := Int.floor_mono h
  rcases lt_or_eq_of_le hf with hlt | heq
  · rcases nearestEven_cases q with ⟨h1, -⟩ | ⟨h1, -⟩ <;>
      rcases nearestEven_cases r with ⟨h2, -⟩ | ⟨h2, -⟩ <;> omega
  · unfold nearestEven
    rw [← heq]
    split_ifs <;> first | omega | (exfalso; linarith)

theorem nearestEven_neg (q : ℚ) : nearestEven (-q) = -nearestEven q := by
  apply nearestEven_eq
  have he := nearestEven_err q
  have hq : -q - ((-nearestEven q : ℤ) : ℚ) = nearestEven q - q := by push_cast; ring
  rw [hq]
  rcases lt_or_eq_of_le he with h | h
  · exact .inl h
  · refine .inr ⟨h, ?_⟩
    have h0 := Int.floor_le q
    have h1 := Int.lt_floor_add_one q
    have key : nearestEven q % 2 = 0 := by
      have hd : q - ⌊q⌋ = 1 / 2 := by
        rcases nearestEven_cases q with ⟨h2, h3⟩ | ⟨h2, h3⟩ <;> rw [h2] at h
        · rw [abs_of_nonpos (by linarith)] at h; linarith
        · push_cast at h
          rw [abs_of_nonneg (by linarith)] at h; linarith
      unfold nearestEven
      rw [hd, if_neg (by norm_num), if_neg (by norm_num)]
      split
      · assumption
      · omega
    omega

/-! ## Rounding to binary floating point numbers -/

theorem two_zpow_pos (k : ℤ) : (0 : ℚ) < 2 ^ k := zpow_pos (by norm_num) k

theorem log_bounds {x : ℚ} (hx : x ≠ 0) :
    (2 : ℚ) ^ Int.log 2 |x| ≤ |x| ∧ |x| < 2 ^ (Int.log 2 |x| + 1) := by
  have h : 0 < |x| := abs_pos.2 hx
  have h1 := Int.zpow_log_le_self (b := 2) (by norm_num) h
  have h2 := Int.lt_zpow_succ_log_self (R := ℚ) (b := 2) (by norm_num) |x|
  push_cast at h1 h2
  exact ⟨h1, h2⟩

theorem log_eq {x : ℚ} {e : ℤ} (h1 : (2 : ℚ) ^ e ≤ |x|) (h2 : |x| < 2 ^ (e + 1)) :
    Int.log 2 |x| = e := by
  have hx : x ≠ 0 := abs_pos.1 (lt_of_lt_of_le (two_zpow_pos e) h1)
  obtain ⟨h3, h4⟩ := log_bounds hx
  have ha : (2 : ℚ) ^ e < 2 ^ (Int.log 2 |x| + 1) := lt_of_le_of_lt h1 h4
  have hb : (2 : ℚ) ^ Int.log 2 |x| < 2 ^ (e + 1) := lt_of_le_of_lt h3 h2
  rw [zpow_lt_zpow_iff_right₀ (by norm_num)] at ha hb
  omega

variable (p : ℕ)

/-- Multiples of a power of two that need no more than `p` bits are left alone. -/
theorem binary_exact (hp : 1 ≤ p) (m k : ℤ) (hm : |m| ≤ 2 ^ p) :
    binary p ((m : ℚ) * 2 ^ k) = m * 2 ^ k := by
  rcases eq_or_ne m 0 with rfl | hm0
  · simp [binary]
  have hx : (m : ℚ) * 2 ^ k ≠ 0 := mul_ne_zero (by exact_mod_cast hm0) (two_zpow_pos k).ne'
  obtain ⟨h1, h2⟩ := log_bounds hx
  unfold binary
  rw [if_neg hx]
  generalize Int.log 2 |(m : ℚ) * 2 ^ k| = e at *
  have key : ∃ n : ℤ, (m : ℚ) * 2 ^ k = n * 2 ^ (e - p + 1) := by
    rw [abs_mul, abs_of_pos (two_zpow_pos k)] at h1 h2
    have hmq : |(m : ℚ)| ≤ 2 ^ (p : ℤ) := by
      rw [zpow_natCast]; exact_mod_cast hm
    rcases lt_or_eq_of_le hmq with hlt | heq
    · have h3 : (2 : ℚ) ^ e < 2 ^ (p + k : ℤ) := by
        rw [zpow_add₀ (by norm_num)]
        exact lt_of_le_of_lt h1 (mul_lt_mul_of_pos_right hlt (two_zpow_pos k))
      rw [zpow_lt_zpow_iff_right₀ (by norm_num)] at h3
      obtain ⟨d, hd⟩ := Int.eq_ofNat_of_zero_le (show 0 ≤ k - (e - p + 1) by omega)
      refine ⟨m * 2 ^ d, ?_⟩
      have : k = (d : ℤ) + (e - p + 1) := by omega
      rw [this, zpow_add₀ (by norm_num), zpow_natCast]
      push_cast; ring
    · have h3 : (2 : ℚ) ^ e ≤ 2 ^ (p + k : ℤ) := by
        rw [zpow_add₀ (by norm_num), ← heq]
        exact h1
      have h4 : (2 : ℚ) ^ (p + k : ℤ) < 2 ^ (e + 1) := by
        rw [zpow_add₀ (by norm_num), ← heq]
        exact h2
      rw [zpow_le_zpow_iff_right₀ (by norm_num)] at h3
      rw [zpow_lt_zpow_iff_right₀ (by norm_num)] at h4
      have he : e - p + 1 = k + 1 := by omega
      obtain ⟨d, hd⟩ : ∃ d, p = d + 1 := ⟨p - 1, by omega⟩
      have hm' : m = 2 ^ p ∨ m = -2 ^ p := by
        have : |m| = 2 ^ p := by
          rw [zpow_natCast] at heq; exact_mod_cast heq
        rcases abs_choice m with h | h <;> rw [h] at this
        · left; exact this
        · right; omega
      rw [he]
      rcases hm' with h | h
      · refine ⟨2 ^ d, ?_⟩
        rw [h, hd, zpow_add₀ (by norm_num)]; push_cast; ring
      · refine ⟨-2 ^ d, ?_⟩
        rw [h, hd, zpow_add₀ (by norm_num)]; push_cast; ring
  obtain ⟨n, hn⟩ := key
  rw [hn, mul_div_cancel_right₀ _ (two_zpow_pos _).ne', nearestEven_int]

/-- The value of a rounding, given the exponent; both ends of the binade are included. -/
theorem binary_at (hp : 1 ≤ p) (e : ℤ) (x : ℚ) (h1 : (2 : ℚ) ^ e ≤ |x|) (h2 : |x| ≤ 2 ^ (e + 1)) :
    binary p x = nearestEven (x / 2 ^ (e - p + 1)) * 2 ^ (e - p + 1) := by
  have hx : x ≠ 0 := abs_pos.1 (lt_of_lt_of_le (two_zpow_pos e) h1)
  rcases lt_or_eq_of_le h2 with h | h
  · unfold binary
    rw [if_neg hx, log_eq h1 h]
  · have hs : ∃ s : ℤ, |s| ≤ 1 ∧ x = s * 2 ^ (e + 1) := by
      rcases abs_choice x with h' | h' <;> rw [h'] at h
      · exact ⟨1, by simp, by simpa using h⟩
      · exact ⟨-1, by simp, by push_cast; linarith⟩
    obtain ⟨s, hs1, rfl⟩ := hs
    rw [binary_exact p hp s (e + 1) (hs1.trans (one_le_pow₀ (by norm_num)))]
    have hq : (s : ℚ) * 2 ^ (e + 1) = ((s * 2 ^ p : ℤ) : ℚ) * 2 ^ (e - p + 1) := by
      have : e + 1 = (p : ℤ) + (e - p + 1) := by omega
      rw [this, zpow_add₀ (by norm_num), zpow_natCast]
      push_cast
      have : e - (p : ℤ) + 1 = (p : ℤ) + (e - p + 1) - p := by omega
      ring_nf
    rw [hq, mul_div_cancel_right₀ _ (two_zpow_pos _).ne', nearestEven_int]

theorem binary_neg (x : ℚ) : binary p (-x) = -binary p x := by
  unfold binary
  rcases eq_or_ne x 0 with rfl | h
  · simp
  · rw [if_neg h, if_neg (neg_ne_zero.2 h), abs_neg, neg_div, nearestEven_neg]
    push_cast; ring

/-- The rounded number is a multiple of the unit and stays within the binade. -/
theorem binary_binade (hp : 1 ≤ p) (e : ℤ) (x : ℚ) (h1 : (2 : ℚ) ^ e ≤ x) (h2 : x ≤ 2 ^ (e + 1)) :
    (2 : ℚ) ^ e ≤ binary p x ∧ binary p x ≤ 2 ^ (e + 1) := by
  have hx : 0 ≤ x := (two_zpow_pos e).le.trans h1
  rw [binary_at p hp e x (by rwa [abs_of_nonneg hx]) (by rwa [abs_of_nonneg hx])]
  have hU := two_zpow_pos (e - p + 1)
  obtain ⟨d, hd⟩ : ∃ d, p = d + 1 := ⟨p - 1, by omega⟩
  have hlo : (2 : ℚ) ^ e = ((2 ^ d : ℤ) : ℚ) * 2 ^ (e - p + 1) := by
    have : e = (d : ℤ) + (e - p + 1) := by omega
    conv_lhs => rw [this, zpow_add₀ (by norm_num), zpow_natCast]
    push_cast; ring
  have hhi : (2 : ℚ) ^ (e + 1) = ((2 ^ p : ℤ) : ℚ) * 2 ^ (e - p + 1) := by
    have : e + 1 = (p : ℤ) + (e - p + 1) := by omega
    conv_lhs => rw [this, zpow_add₀ (by norm_num), zpow_natCast]
    push_cast; ring
  rw [hlo] at h1 ⊢
  rw [hhi] at h2 ⊢
  rw [← le_div_iff₀ hU] at h1
  rw [← div_le_iff₀ hU] at h2
  have h3 := nearestEven_mono _ _ h1
  have h4 := nearestEven_mono _ _ h2
  rw [nearestEven_int] at h3 h4
  exact ⟨mul_le_mul_of_nonneg_right (by exact_mod_cast h3) hU.le,
    mul_le_mul_of_nonneg_right (by exact_mod_cast h4) hU.le⟩

theorem binary_mono_pos (hp : 1 ≤ p) (x y : ℚ) (hx : 0 < x) (h : x ≤ y) :
    binary p x ≤ binary p y := by
  have hy : 0 < y := hx.trans_le h
  obtain ⟨a1, a2⟩ := log_bounds hx.ne'
  obtain ⟨b1, b2⟩ := log_bounds hy.ne'
  have hxa := abs_of_pos hx
  have hya := abs_of_pos hy
  generalize Int.log 2 |x| = e at *
  generalize Int.log 2 |y| = e' at *
  rw [hxa] at a1 a2
  rw [hya] at b1 b2
  have hee : e ≤ e' := by
    have : (2 : ℚ) ^ e < 2 ^ (e' + 1) := a1.trans_lt (h.trans_lt b2)
    rw [zpow_lt_zpow_iff_right₀ (by norm_num)] at this
    omega
  rcases lt_or_eq_of_le hee with hlt | rfl
  · calc binary p x ≤ 2 ^ (e + 1) := (binary_binade p hp e x a1 a2.le).2
      _ ≤ 2 ^ e' := zpow_le_zpow_right₀ (by norm_num) (by omega)
      _ ≤ binary p y := (binary_binade p hp e' y b1 b2.le).1
  · rw [binary_at p hp e x (by rwa [hxa]) (by rw [hxa]; exact a2.le),
      binary_at p hp e y (by rwa [hya]) (by rw [hya]; exact b2.le)]
    refine mul_le_mul_of_nonneg_right ?_ (two_zpow_pos _).le
    exact_mod_cast nearestEven_mono _ _ (div_le_div_of_nonneg_right h (two_zpow_pos _).le)

theorem binary_zero : binary p 0 = 0 := by simp [binary]

theorem binary_pos (hp : 1 ≤ p) (x : ℚ) (hx : 0 < x) : 0 < binary p x := by
  obtain ⟨a1, a2⟩ := log_bounds hx.ne'
  rw [abs_of_pos hx] at a1 a2
  exact (two_zpow_pos _).trans_le (binary_binade p hp _ x a1 a2.le).1

theorem binary_mono (hp : 1 ≤ p) (x y : ℚ) (h : x ≤ y) : binary p x ≤ binary p y := by
  rcases lt_trichotomy x 0 with hx | rfl | hx
  · rcases lt_trichotomy y 0 with hy | rfl | hy
    · have := binary_mono_pos p hp (-y) (-x) (by linarith) (by linarith)
      rw [binary_neg, binary_neg] at this
      linarith
    · have := binary_pos p hp (-x) (by linarith)
      rw [binary_neg] at this
      rw [binary_zero]; linarith
    · have := binary_pos p hp (-x) (by linarith)
      rw [binary_neg] at this
      linarith [binary_pos p hp y hy]
  · rcases lt_or_eq_of_le h with hy | rfl
    · rw [binary_zero]; exact (binary_pos p hp y hy).le
    · exact le_rfl
  · exact binary_mono_pos p hp x y hx h

/-- The rounded number has `p` bits. -/
theorem binary_form (hp : 1 ≤ p) (x : ℚ) : ∃ m k : ℤ, |m| ≤ 2 ^ p ∧ binary p x = m * 2 ^ k := by
  wlog hx : 0 ≤ x generalizing x
  · obtain ⟨m, k, h1, h2⟩ := this (-x) (by linarith [not_le.1 hx])
    refine ⟨-m, k, by rwa [abs_neg], ?_⟩
    rw [binary_neg] at h2
    push_cast; linarith
  rcases lt_or_eq_of_le hx with hx | rfl
  · obtain ⟨a1, a2⟩ := log_bounds hx.ne'
    rw [abs_of_pos hx] at a1 a2
    generalize Int.log 2 x = e at *
    have hb := binary_binade p hp e x a1 a2.le
    have hat := binary_at p hp e x (by rwa [abs_of_pos hx]) (by rw [abs_of_pos hx]; exact a2.le)
    refine ⟨_, _, ?_, hat⟩
    rw [hat] at hb
    have hU := two_zpow_pos (e - p + 1)
    have hhi : (2 : ℚ) ^ (e + 1) = ((2 ^ p : ℤ) : ℚ) * 2 ^ (e - p + 1) := by
      have : e + 1 = (p : ℤ) + (e - p + 1) := by omega
      conv_lhs => rw [this, zpow_add₀ (by norm_num), zpow_natCast]
      push_cast; ring
    rw [hhi] at hb
    have h1 := le_of_mul_le_mul_right hb.2 hU
    have h0 : (0 : ℚ) ≤ nearestEven (x / 2 ^ (e - p + 1)) := by
      by_contra hneg
      have := mul_neg_of_neg_of_pos (not_le.1 hneg) hU
      linarith [hb.1, two_zpow_pos e]
    rw [abs_of_nonneg (by exact_mod_cast h0)]
    exact_mod_cast h1
  · exact ⟨0, 0, by simp, by simp [binary]⟩

theorem binary_precise (hp : 1 ≤ p) : Precise (binary p) (1 / 2 ^ p) := by
  intro x
  rcases eq_or_ne x 0 with rfl | hx
  · simp [binary]
  obtain ⟨a1, a2⟩ := log_bounds hx
  generalize Int.log 2 |x| = e at *
  rw [binary_at p hp e x a1 a2.le]
  have hU := two_zpow_pos (e - p + 1)
  have herr := nearestEven_err (x / 2 ^ (e - p + 1))
  have : (nearestEven (x / 2 ^ (e - p + 1)) : ℚ) * 2 ^ (e - p + 1) - x =
      (nearestEven (x / 2 ^ (e - p + 1)) - x / 2 ^ (e - p + 1)) * 2 ^ (e - p + 1) := by
    rw [sub_mul, div_mul_cancel₀ _ hU.ne']
  rw [this, abs_mul, abs_of_pos hU]
  have hU' : (2 : ℚ) ^ (e - p + 1) = 2 * (2 ^ e / 2 ^ p) := by
    rw [zpow_add₀ (by norm_num), zpow_sub₀ (by norm_num), zpow_natCast]; ring
  calc _ ≤ 1 / 2 * (2 : ℚ) ^ (e - p + 1) := mul_le_mul_of_nonneg_right herr hU.le
    _ = 1 / 2 ^ p * 2 ^ e := by rw [hU']; ring
    _ ≤ 1 / 2 ^ p * |x| := mul_le_mul_of_nonneg_left a1 (by positivity)

theorem binary_rounding (hp : 1 ≤ p) : IsRounding (binary p) where
  mono := binary_mono p hp
  idem x := by
    obtain ⟨m, k, h1, h2⟩ := binary_form p hp x
    rw [h2, binary_exact p hp m k h1]
  neg := binary_neg p
  one := by
    have := binary_exact p hp 1 0 (by simpa using one_le_pow₀ (by norm_num))
    simpa using this

/-- Integers of at most `p` bits are exact. -/
theorem binary_nat (hp : 1 ≤ p) (n : ℕ) (hn : n ≤ 2 ^ p) : binary p (n : ℚ) = n := by
  have := binary_exact p hp n 0 (by rw [Nat.abs_cast]; exact_mod_cast hn)
  simpa using this

end Verif.Rnd
