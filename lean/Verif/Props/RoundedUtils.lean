import Verif.Model.RoundedUtils
import Verif.Proofs.Utils
import Verif.Proofs.RoundingKernels
import Verif.Proofs.RoundedFrames

/-!
# Property C113: ranges, bin centres and segments in floating point arithmetic
-/

set_option linter.unusedSectionVars false

namespace Verif.RUtils.Props
open Verif Verif.Utils Verif.Rnd Verif.RFrames Verif.RUtils

section
variable {K : Type} [Field K] [LinearOrder K] [IsStrictOrderedRing K]

/-! ## Lemmas -/

theorem fl_ne_zero {fl : K → K} {u : K} (hu : Precise fl u) (hu1 : u < 1) {x : K} (hx : x ≠ 0) : fl x ≠ 0 := by
  intro h
  have h1 := hu x
  rw [h, zero_sub, abs_neg] at h1
  have := abs_pos.2 hx
  nlinarith

theorem inv_near {fl : K → K} {u : K} (hu : Precise fl u) (hu1 : u ≤ 1 / 2) {y : K} (hy : y ≠ 0) :
    Near u 2 |y⁻¹| (fl y)⁻¹ y⁻¹ := by
  refine ⟨?_, le_rfl⟩
  have hf : fl y ≠ 0 := fl_ne_zero hu (by linarith) hy
  have hu0 := hu.nonneg
  have h1 := hu y
  have hy' := abs_pos.2 hy
  have hlow : (1 - u) * |y| ≤ |fl y| := by
    have := abs_sub_abs_le_abs_sub y (fl y)
    rw [abs_sub_comm] at this
    linarith
  have e : (fl y)⁻¹ - y⁻¹ = (y - fl y) * ((fl y)⁻¹ * y⁻¹) := by field_simp
  rw [e, abs_mul, abs_mul, abs_inv, abs_inv, abs_sub_comm, ← mul_assoc]
  refine mul_le_mul_of_nonneg_right ?_ (inv_nonneg.2 (abs_nonneg _))
  rw [← div_eq_mul_inv, div_le_iff₀ (abs_pos.2 hf)]
  have hc : 0 ≤ (1 + u) ^ 2 - 1 := by nlinarith
  refine h1.trans (le_trans ?_ (mul_le_mul_of_nonneg_left hlow hc))
  rw [← mul_assoc]
  refine mul_le_mul_of_nonneg_right ?_ (abs_nonneg _)
  nlinarith [mul_nonneg hu0 hu0]

theorem slope_near {fl : K → K} {u : K} (hu : Precise fl u) (hu1 : u ≤ 1 / 2) {s t : K × K}
    (hs : s.1 ≠ s.2) : Near u 4 |(t.2 - t.1) / (s.2 - s.1)| (slope fl s t) ((t.2 - t.1) / (s.2 - s.1)) := by
  have h1 := (Near.refl u (t.2 - t.1)).round hu
  have h2 := inv_near hu hu1 (sub_ne_zero.2 (Ne.symm hs))
  have h3 := (Near.mul2 hu.nonneg h1 h2).round hu
  rw [← abs_mul, ← div_eq_mul_inv, ← div_eq_mul_inv] at h3
  exact h3

theorem Near.neg {u : K} {n : ℕ} {B x y : K} (h : Near u n B x y) : Near u n B (-x) (-y) := by
  refine ⟨?_, by rw [abs_neg]; exact h.2⟩
  rw [neg_sub_neg, abs_sub_comm]
  exact h.1

theorem half {u : K} {n : ℕ} {B x y : K} (h : Near u n B x y) : Near u n (B / 2) (x / 2) (y / 2) := by
  have := h.mul (1 / 2)
  rw [abs_of_nonneg (by norm_num : (0 : K) ≤ 1 / 2), mul_one_div, mul_one_div, mul_one_div] at this
  exact this

theorem offset_near {fl : K → K} {u : K} (hu : Precise fl u) (hu1 : u ≤ 1 / 2) {s t : K × K}
    (hs : s.1 ≠ s.2) :
    Near u 8 (|t.1 + t.2| / 2 + |(t.2 - t.1) / (s.2 - s.1)| * |s.1 + s.2| / 2) (offset fl s t)
      ((t.1 + t.2) / 2 - (t.2 - t.1) / (s.2 - s.1) * (s.1 + s.2) / 2) := by
  have h0 := hu.nonneg
  have h1 := (half ((Near.refl u (t.1 + t.2)).round hu)).round hu
  have h2 := (Near.mul2 h0 (slope_near hu hu1 (t := t) hs) ((Near.refl u (s.1 + s.2)).round hu)).round hu
  have h3 := (half h2).round hu
  have h4 := ((h1.more h0 (by norm_num : 2 ≤ 7)).add (Near.neg h3)).round hu
  rw [← sub_eq_add_neg, ← sub_eq_add_neg] at h4
  exact h4

theorem map_near {fl : K → K} {u : K} (hu : Precise fl u) (hu1 : u ≤ 1 / 2) (fused : Bool) {s t : K × K}
    (hs : s.1 ≠ s.2) (v : K) :
    Near u 9 (|t.1 + t.2| / 2 + |(t.2 - t.1) / (s.2 - s.1)| * (|s.1 + s.2| / 2 + |v|))
      (mulAdd fl fused (offset fl s t) (slope fl s t) v)
      (t.1 + (v - s.1) * (t.2 - t.1) / (s.2 - s.1)) := by
  have h0 := hu.nonneg
  have ho := offset_near hu hu1 (t := t) hs
  have hb := (slope_near hu hu1 (t := t) hs).mul v
  have hne : s.2 - s.1 ≠ 0 := sub_ne_zero.2 (Ne.symm hs)
  have e : t.1 + (v - s.1) * (t.2 - t.1) / (s.2 - s.1) =
      (t.1 + t.2) / 2 - (t.2 - t.1) / (s.2 - s.1) * (s.1 + s.2) / 2 + (t.2 - t.1) / (s.2 - s.1) * v := by
    field_simp
    ring
  have eB : |t.1 + t.2| / 2 + |(t.2 - t.1) / (s.2 - s.1)| * (|s.1 + s.2| / 2 + |v|) =
      |t.1 + t.2| / 2 + |(t.2 - t.1) / (s.2 - s.1)| * |s.1 + s.2| / 2 + |(t.2 - t.1) / (s.2 - s.1)| * |v| := by
    ring
  rw [e, eB]
  unfold mulAdd
  cases fused
  · exact (ho.add ((hb.round hu).more h0 (by norm_num))).round hu
  · exact (ho.add (hb.more h0 (by norm_num))).round hu

theorem toRange_eq (fl : K → K) (fused : Bool) (vals : List K) (source target : Option (K × K))
    (sched : List ℕ) (hs : IsSchedule vals.length sched)
    (h : fl ((source.getD (0, 1)).2 - (source.getD (0, 1)).1) ≠ 0) :
    toRange1d fl fused vals source target sched = .ok (vals.map fun v =>
      mulAdd fl fused (offset fl (source.getD (0, 1)) (target.getD (-1, 1)))
        (slope fl (source.getD (0, 1)) (target.getD (-1, 1))) v) := by
  unfold toRange1d
  simp only
  rw [if_neg h, foldl_set_schedule (fun i => mulAdd fl fused (offset fl (source.getD (0, 1)) (target.getD (-1, 1)))
        (slope fl (source.getD (0, 1)) (target.getD (-1, 1))) (vals.getD i 0)) hs _ (by simp)]
  congr 1
  apply List.ext_getElem?
  intro i
  by_cases hi : i < vals.length
  · simp [hi]
  · simp [hi]

/-! ## Ranges -/

/-- C113: whatever the rounding, mapping to a range keeps the order of the values, or turns it around if one of the two ranges is
given upside down. -/
theorem C113_range_order (fl : K → K) (hfl : IsRounding fl) (fused : Bool) (vals : List K) (s0 s1 t0 t1 : K)
    (hs : s0 < s1) (hd : fl (s1 - s0) ≠ 0) (sched : List ℕ) (hsch : IsSchedule vals.length sched) :
    ∃ xs, toRange1d fl fused vals (some (s0, s1)) (some (t0, t1)) sched = .ok xs ∧ xs.length = vals.length ∧
      ∀ (i j : ℕ) (hi : i < vals.length) (hj : j < vals.length), ∃ a b, xs[i]? = some a ∧ xs[j]? = some b ∧
        (t0 ≤ t1 → vals[i] ≤ vals[j] → a ≤ b) ∧ (t1 ≤ t0 → vals[i] ≤ vals[j] → b ≤ a) := by
  rw [toRange_eq fl fused vals (some (s0, s1)) (some (t0, t1)) sched hsch hd]
  refine ⟨_, rfl, by simp, fun i j hi hj => ⟨_, _, by rw [List.getElem?_map, List.getElem?_eq_getElem hi]; rfl,
    by rw [List.getElem?_map, List.getElem?_eq_getElem hj]; rfl, ?_, ?_⟩⟩
  all_goals simp only [Option.getD_some]
  all_goals intro ht hv
  · have hb : 0 ≤ slope fl (s0, s1) (t0, t1) :=
      hfl.nonneg (div_nonneg (hfl.nonneg (sub_nonneg.2 ht)) (hfl.nonneg (sub_nonneg.2 hs.le)))
    have hm := mul_le_mul_of_nonneg_left hv hb
    unfold mulAdd
    cases fused
    · exact hfl.mono _ _ (add_le_add le_rfl (hfl.mono _ _ hm))
    · exact hfl.mono _ _ (add_le_add le_rfl hm)
  · have hb : slope fl (s0, s1) (t0, t1) ≤ 0 := by
      have : 0 ≤ -slope fl (s0, s1) (t0, t1) := by
        unfold slope
        rw [← hfl.neg, ← neg_div, ← hfl.neg, neg_sub]
        exact hfl.nonneg (div_nonneg (hfl.nonneg (sub_nonneg.2 ht)) (hfl.nonneg (sub_nonneg.2 hs.le)))
      linarith
    have hm := mul_le_mul_of_nonpos_left hv hb
    unfold mulAdd
    cases fused
    · exact hfl.mono _ _ (add_le_add le_rfl (hfl.mono _ _ hm))
    · exact hfl.mono _ _ (add_le_add le_rfl hm)

/-- C113: with a relative error of `u` per operation every mapped value differs from the exact one by no more than nine roundings of the
numbers that enter: the middle of the target range, and the middle of the source range and the value, scaled.  If the source
range is far from zero compared to its length, the error is large compared to the target range. -/
theorem C113_range_close (fl : K → K) (u : K) (hu : Precise fl u) (hu1 : u ≤ 1 / 2) (fused : Bool) (vals : List K)
    (s0 s1 t0 t1 : K) (hs : s0 ≠ s1) (sched : List ℕ) (hsch : IsSchedule vals.length sched) :
    ∃ xs, toRange1d fl fused vals (some (s0, s1)) (some (t0, t1)) sched = .ok xs ∧ xs.length = vals.length ∧
      ∀ (i : ℕ) (hi : i < vals.length), ∃ a, xs[i]? = some a ∧
        |a - (t0 + (vals[i] - s0) * (t1 - t0) / (s1 - s0))| ≤ ((1 + u) ^ 9 - 1) *
          (|t0 + t1| / 2 + |(t1 - t0) / (s1 - s0)| * (|s0 + s1| / 2 + |vals[i]|)) := by
  have hd : fl (s1 - s0) ≠ 0 := fl_ne_zero hu (by linarith) (sub_ne_zero.2 (Ne.symm hs))
  rw [toRange_eq fl fused vals (some (s0, s1)) (some (t0, t1)) sched hsch hd]
  refine ⟨_, rfl, by simp, fun i hi => ⟨_, by rw [List.getElem?_map, List.getElem?_eq_getElem hi]; rfl, ?_⟩⟩
  exact (map_near hu hu1 fused (s := (s0, s1)) (t := (t0, t1)) hs vals[i]).1

/-- C113: values of the source range leave the target range by no more than that. -/
theorem C113_range_target (fl : K → K) (u : K) (hu : Precise fl u) (hu1 : u ≤ 1 / 2) (fused : Bool) (vals : List K)
    (s0 s1 t0 t1 : K) (hs : s0 < s1) (ht : t0 ≤ t1) (hv : ∀ v ∈ vals, s0 ≤ v ∧ v ≤ s1) (sched : List ℕ)
    (hsch : IsSchedule vals.length sched) :
    ∃ xs, toRange1d fl fused vals (some (s0, s1)) (some (t0, t1)) sched = .ok xs ∧ xs.length = vals.length ∧
      ∀ a ∈ xs, let err := ((1 + u) ^ 9 - 1) *
          (|t0 + t1| / 2 + (t1 - t0) / (s1 - s0) * (|s0 + s1| / 2 + max |s0| |s1|))
        t0 - err ≤ a ∧ a ≤ t1 + err := by
  obtain ⟨xs, hx, hl, hc⟩ := C113_range_close fl u hu hu1 fused vals s0 s1 t0 t1 hs.ne sched hsch
  refine ⟨xs, hx, hl, fun a ha => ?_⟩
  obtain ⟨i, hi, rfl⟩ := List.getElem_of_mem ha
  obtain ⟨a', ha', hb⟩ := hc i (hl ▸ hi)
  rw [List.getElem?_eq_getElem hi] at ha'
  rw [Option.some.inj ha']
  obtain ⟨hv0, hv1⟩ := hv _ (List.getElem_mem (hl ▸ hi))
  generalize vals[i] = v at *
  have hpos : 0 < s1 - s0 := sub_pos.2 hs
  have hslope : 0 ≤ (t1 - t0) / (s1 - s0) := div_nonneg (sub_nonneg.2 ht) hpos.le
  have hvm : |v| ≤ max |s0| |s1| := abs_le_max_abs_abs hv0 hv1
  have hg : 0 ≤ (1 + u) ^ 9 - 1 := by
    have := one_le_pow₀ (show 1 ≤ 1 + u by linarith [hu.nonneg]) (n := 9)
    linarith
  have hb2 : |a' - (t0 + (v - s0) * (t1 - t0) / (s1 - s0))| ≤ ((1 + u) ^ 9 - 1) *
          (|t0 + t1| / 2 + (t1 - t0) / (s1 - s0) * (|s0 + s1| / 2 + max |s0| |s1|)) := by
    refine hb.trans (mul_le_mul_of_nonneg_left ?_ hg)
    rw [abs_of_nonneg hslope]
    exact add_le_add le_rfl (mul_le_mul_of_nonneg_left (add_le_add le_rfl hvm) hslope)
  have e0 : 0 ≤ (v - s0) * (t1 - t0) / (s1 - s0) :=
    div_nonneg (mul_nonneg (sub_nonneg.2 hv0) (sub_nonneg.2 ht)) hpos.le
  have e1 : (v - s0) * (t1 - t0) / (s1 - s0) ≤ t1 - t0 := by
    rw [div_le_iff₀ hpos, mul_comm]
    exact mul_le_mul_of_nonneg_left (by linarith) (sub_nonneg.2 ht)
  rw [abs_le] at hb2
  constructor
  · linarith [hb2.1]
  · linarith [hb2.2]

/-- C113: the default ranges are mapped without fault: whatever the rounding, values from zero to one land between minus one and one, and
the ends on the ends. -/
theorem C113_range_default (fl : K → K) (hfl : IsRounding fl) (h2 : fl 2 = 2) (fused : Bool) (vals : List K)
    (hv : ∀ v ∈ vals, 0 ≤ v ∧ v ≤ 1) (sched : List ℕ) (hsch : IsSchedule vals.length sched) :
    ∃ xs, toRange1d fl fused vals none none sched = .ok xs ∧ xs.length = vals.length ∧
      (∀ a ∈ xs, -1 ≤ a ∧ a ≤ 1) ∧
      ∀ (i : ℕ) (hi : i < vals.length), (vals[i] = 0 → xs[i]? = some (-1)) ∧ (vals[i] = 1 → xs[i]? = some 1) := by
  have h0 := hfl.zero
  have h1 := hfl.one
  have hm1 : fl (-1) = -1 := by rw [hfl.neg, h1]
  have hslope : slope fl (0, 1) (-1, 1) = (2 : K) := by
    unfold slope
    norm_num [h1, h2]
  have hoff : offset fl (0, 1) (-1, 1) = (-1 : K) := by
    unfold offset
    rw [hslope]
    norm_num [h0, h1, h2, hm1]
  have hd : fl (((none : Option (K × K)).getD (0, 1)).2 - ((none : Option (K × K)).getD (0, 1)).1) ≠ 0 := by
    simp [h1]
  rw [toRange_eq fl fused vals none none sched hsch hd]
  simp only [Option.getD_none, hslope, hoff]
  have hval0 : mulAdd fl fused (-1) 2 (0 : K) = -1 := by
    unfold mulAdd; cases fused <;> simp [h0, hm1]
  have hval1 : mulAdd fl fused (-1) 2 (1 : K) = 1 := by
    unfold mulAdd
    cases fused
    · simp only [Bool.false_eq_true, if_false, mul_one, h2]; norm_num [h1]
    · simp only [if_true, mul_one]; norm_num [h1]
  have hmono : ∀ v w : K, v ≤ w → mulAdd fl fused (-1) 2 v ≤ mulAdd fl fused (-1) 2 w := by
    intro v w h
    have hm : 2 * v ≤ 2 * w := by linarith
    unfold mulAdd
    cases fused
    · exact hfl.mono _ _ (add_le_add le_rfl (hfl.mono _ _ hm))
    · exact hfl.mono _ _ (add_le_add le_rfl hm)
  refine ⟨_, rfl, by simp, ?_, ?_⟩
  · intro a ha
    obtain ⟨v, hv', rfl⟩ := List.mem_map.1 ha
    obtain ⟨ha, hb⟩ := hv v hv'
    refine ⟨?_, ?_⟩
    · have := hmono _ _ ha
      rwa [hval0] at this
    · have := hmono _ _ hb
      rwa [hval1] at this
  · intro i hi
    refine ⟨fun h => ?_, fun h => ?_⟩
    · simp [hi, h, hval0]
    · simp [hi, h, hval1]

/-! ## Centres -/

/-- C113: whatever the rounding, the centre of an interval of a histogram is not outside of the interval, and the centres are in
order; the edges are floating point numbers whose doubles are floating point numbers. -/
theorem C113_centres (fl : K → K) (hfl : IsRounding fl) (es : List K) (hsort : es.Pairwise (· ≤ ·))
    (he : ∀ e ∈ es, fl e = e ∧ fl (2 * e) = 2 * e) (sched : List ℕ) (hs : IsSchedule (es.length - 1) sched) :
    (binCenters fl es sched).length = es.length - 1 ∧ (binCenters fl es sched).Pairwise (· ≤ ·) ∧
    ∀ (i : ℕ) (hi : i + 1 < es.length), ∃ c, (binCenters fl es sched)[i]? = some c ∧
      es[i] ≤ c ∧ c ≤ es[i + 1] := by
  have heq : binCenters fl es sched = (List.range (es.length - 1)).map fun i =>
      fl (fl (es.getD i 0 + es.getD (i + 1) 0) / 2) := by
    unfold binCenters
    rw [foldl_set_schedule (fun i => fl (fl (es.getD i 0 + es.getD (i + 1) 0) / 2)) hs _ (by simp)]
  have hin : ∀ (i : ℕ) (hi : i + 1 < es.length),
      es[i] ≤ fl (fl (es.getD i 0 + es.getD (i + 1) 0) / 2) ∧
        fl (fl (es.getD i 0 + es.getD (i + 1) 0) / 2) ≤ es[i + 1] := by
    intro i hi
    have hle : es[i] ≤ es[i + 1] := List.pairwise_iff_getElem.1 hsort i (i + 1) (by omega) hi (by omega)
    have h1 := he _ (List.getElem_mem (show i < es.length by omega))
    have h2 := he _ (List.getElem_mem hi)
    rw [List.getD_eq_getElem _ _ (show i < es.length by omega), List.getD_eq_getElem _ _ hi]
    constructor
    · have := hfl.mono (2 * es[i]) (es[i] + es[i + 1]) (by linarith)
      rw [h1.2] at this
      have := hfl.mono es[i] (fl (es[i] + es[i + 1]) / 2) (by linarith)
      rwa [h1.1] at this
    · have := hfl.mono (es[i] + es[i + 1]) (2 * es[i + 1]) (by linarith)
      rw [h2.2] at this
      have := hfl.mono (fl (es[i] + es[i + 1]) / 2) es[i + 1] (by linarith)
      rwa [h2.1] at this
  refine ⟨by rw [heq]; simp, ?_, ?_⟩
  · rw [List.pairwise_iff_getElem]
    intro i j hi hj hij
    simp only [heq, List.getElem_map, List.getElem_range]
    have hi' : i + 1 < es.length := by rw [heq] at hi; simp at hi; omega
    have hj' : j + 1 < es.length := by rw [heq] at hj; simp at hj; omega
    refine (hin i hi').2.trans (le_trans ?_ (hin j hj').1)
    rcases Nat.lt_or_ge (i + 1) j with h | h
    · exact List.pairwise_iff_getElem.1 hsort _ _ (by omega) (by omega) h
    · have : i + 1 = j := by omega
      simp [this]
  · intro i hi
    refine ⟨_, ?_, hin i hi⟩
    rw [heq, List.getElem?_map, List.getElem?_range (by omega)]
    rfl

/-- C113: a centre is the mean of the edges up to two roundings. -/
theorem C113_centres_close (fl : K → K) (u : K) (hu : Precise fl u) (es : List K) (sched : List ℕ)
    (hs : IsSchedule (es.length - 1) sched) (i : ℕ) (hi : i + 1 < es.length) :
    ∃ c, (binCenters fl es sched)[i]? = some c ∧
      |c - (es[i] + es[i + 1]) / 2| ≤ ((1 + u) ^ 2 - 1) * (|es[i] + es[i + 1]| / 2) := by
  unfold binCenters
  rw [foldl_set_schedule (fun i => fl (fl (es.getD i 0 + es.getD (i + 1) 0) / 2)) hs _ (by simp),
    List.getElem?_map, List.getElem?_range (by omega)]
  refine ⟨_, rfl, ?_⟩
  simp only
  rw [List.getD_eq_getElem _ _ (show i < es.length by omega), List.getD_eq_getElem _ _ hi]
  exact ((half ((Near.refl u (es[i] + es[i + 1])).round hu)).round hu).1

/-! ## Segments -/

theorem points_get {d : ℕ} (fl : K → K) (fused : Bool) (nrm : (Fin d → K) → K) (sched : List ℕ) (p0 p1 : Fin d → K)
    (N : ℕ) (hN : 2 ≤ N) (hs : sched.Perm (List.range' 1 (N - 2)))
    (hL : nrm (fun j => fl (p1 j - p0 j)) ≠ 0) :
    ∃ xs, linspacePoints fl fused nrm sched p0 p1 N = .ok xs ∧ xs.length = N ∧
      xs[0]? = some (fun j => some (p0 j)) ∧ xs[N - 1]? = some (fun j => some (p1 j)) ∧
      ∀ i, 1 ≤ i → i < N - 1 → xs[i]? = some fun j => some (mulAdd fl fused (p0 j) (fl (i : K))
        (fl (fl (fl (p1 j - p0 j) / nrm (fun j => fl (p1 j - p0 j))) *
          fl (nrm (fun j => fl (p1 j - p0 j)) / fl ((N : K) - 1))))) := by
  unfold linspacePoints
  rw [if_neg (by omega)]
  simp only [if_neg hL, Option.map_some]
  generalize hL' : nrm (fun j => fl (p1 j - p0 j)) = L
  have hlen := foldl_set_length (fun (i : ℕ) (j : Fin d) => some (mulAdd fl fused (p0 j) (fl (i : K))
        (fl (fl (fl (p1 j - p0 j) / L) * fl (L / fl ((N : K) - 1)))))) sched
        ((List.replicate N fun _ => some 0).set 0 fun j => some (p0 j))
  have hget := fun i hi => foldl_set_get (fun (i : ℕ) (j : Fin d) => some (mulAdd fl fused (p0 j) (fl (i : K))
        (fl (fl (fl (p1 j - p0 j) / L) * fl (L / fl ((N : K) - 1)))))) sched
        ((List.replicate N fun _ => some 0).set 0 fun j => some (p0 j)) i hi
  simp only [List.length_set, List.length_replicate] at hlen hget
  have hmem : ∀ i, i ∈ sched ↔ 1 ≤ i ∧ i < N - 1 := by
    intro i
    rw [hs.mem_iff, List.mem_range'_1]
    omega
  refine ⟨_, rfl, by rw [List.length_set, hlen], ?_, ?_, ?_⟩
  · rw [List.getElem?_set_ne (by omega), hget 0 (by omega), if_neg (by rw [hmem]; omega),
      List.getElem?_set_self (by simp; omega)]
  · rw [List.getElem?_set_self (by rw [hlen]; omega)]
  · intro i h1 h2
    rw [List.getElem?_set_ne (by omega), hget i (by omega), if_pos ((hmem i).2 ⟨h1, h2⟩)]

/-- C113: the points on a segment in floating point: the first and the last one are the given points, and every coordinate of a point between
differs from the exact one by no more than six roundings of the coordinates that enter.  How accurate the
norm is does not matter, as long as it is not zero. -/
theorem C113_points {d : ℕ} (fl : K → K) (u : K) (hu : Precise fl u) (fused : Bool) (nrm : (Fin d → K) → K)
    (sched : List ℕ) (p0 p1 : Fin d → K) (N : ℕ) (hN : 2 ≤ N) (hint : ∀ n : ℕ, n < N → fl (n : K) = n)
    (hs : sched.Perm (List.range' 1 (N - 2))) (hL : nrm (fun j => fl (p1 j - p0 j)) ≠ 0) :
    ∃ xs, linspacePoints fl fused nrm sched p0 p1 N = .ok xs ∧ xs.length = N ∧
      xs[0]? = some (fun j => some (p0 j)) ∧ xs[N - 1]? = some (fun j => some (p1 j)) ∧
      ∀ i < N, ∃ x : Fin d → K, xs[i]? = some (fun j => some (x j)) ∧
        ∀ j, |x j - (p0 j + (i : K) * (p1 j - p0 j) / ((N : K) - 1))| ≤
          ((1 + u) ^ 6 - 1) * (|p0 j| + |p1 j - p0 j|) := by
  obtain ⟨xs, hx, hl, h0, h1, hm⟩ := points_get fl fused nrm sched p0 p1 N hN hs hL
  have hpos : (0 : K) < (N : K) - 1 := by
    have : (2 : K) ≤ N := by exact_mod_cast hN
    linarith
  have hu0 := hu.nonneg
  have hg : 0 ≤ (1 + u) ^ 6 - 1 := by
    have := one_le_pow₀ (show 1 ≤ 1 + u by linarith) (n := 6)
    linarith
  refine ⟨xs, hx, hl, h0, h1, fun i hi => ?_⟩
  by_cases hi0 : i = 0
  · subst hi0
    refine ⟨p0, h0, fun j => ?_⟩
    simp only [Nat.cast_zero, zero_mul, zero_div, add_zero, sub_self, abs_zero]
    exact mul_nonneg hg (by positivity)
  by_cases hi1 : i = N - 1
  · refine ⟨p1, by rw [hi1]; exact h1, fun j => ?_⟩
    have : (i : K) = (N : K) - 1 := by
      rw [hi1, Nat.cast_sub (by omega)]; simp
    rw [this, mul_comm, mul_div_assoc, div_self hpos.ne', mul_one]
    rw [show p1 j - (p0 j + (p1 j - p0 j)) = 0 by ring, abs_zero]
    exact mul_nonneg hg (by positivity)
  refine ⟨_, hm i (by omega) (by omega), fun j => ?_⟩
  have hN1 : fl ((N : K) - 1) = (N : K) - 1 := by
    have h1 : 1 ≤ N := by omega
    have := hint (N - 1) (by omega)
    push_cast [h1] at this
    exact this
  rw [hN1, hint i hi]
  generalize nrm (fun j => fl (p1 j - p0 j)) = L at hL
  have n1 := (((Near.refl u (p1 j - p0 j)).round hu).mul L⁻¹).round hu
  rw [← div_eq_mul_inv, ← div_eq_mul_inv] at n1
  have n2 := (Near.refl u (L / ((N : K) - 1))).round hu
  have n3 := ((Near.mul2 hu0 n1 n2).round hu)
  have e : (p1 j - p0 j) / L * (L / ((N : K) - 1)) = (p1 j - p0 j) / ((N : K) - 1) := by field_simp
  have eB : |p1 j - p0 j| * |L⁻¹| * |L / ((N : K) - 1)| = |p1 j - p0 j| / ((N : K) - 1) := by
    rw [← abs_mul, ← abs_mul, ← div_eq_mul_inv, e, abs_div, abs_of_pos hpos]
  rw [e, eB] at n3
  have n4 := n3.mul (i : K)
  have hB : |p1 j - p0 j| / ((N : K) - 1) * |(i : K)| ≤ |p1 j - p0 j| := by
    rw [abs_of_nonneg (show (0 : K) ≤ i from Nat.cast_nonneg i), div_mul_eq_mul_div, div_le_iff₀ hpos]
    refine mul_le_mul_of_nonneg_left ?_ (abs_nonneg _)
    have : i + 1 ≤ N := hi
    have : (i : K) + 1 ≤ N := by exact_mod_cast this
    linarith
  have n5 := n4.weaken hu0 hB
  rw [mul_comm _ (i : K), mul_comm _ (i : K), ← mul_div_assoc] at n5
  have n0 := Near.refl u (p0 j)
  unfold mulAdd
  cases fused
  · exact (((n0.more hu0 (Nat.zero_le _)).add (n5.round hu)).round hu).1
  · exact (((n0.more hu0 (Nat.zero_le _)).add n5).round hu |>.more hu0 (by norm_num)).1

/-- C113: whatever the rounding, no coordinate turns back before the last point, if the norm is positive. -/
theorem C113_points_order {d : ℕ} (fl : K → K) (hfl : IsRounding fl) (fused : Bool) (nrm : (Fin d → K) → K)
    (sched : List ℕ) (p0 p1 : Fin d → K) (hp0 : ∀ j, fl (p0 j) = p0 j) (N : ℕ) (hN : 2 ≤ N)
    (hs : sched.Perm (List.range' 1 (N - 2))) (hL : 0 < nrm (fun j => fl (p1 j - p0 j))) :
    ∃ xs, linspacePoints fl fused nrm sched p0 p1 N = .ok xs ∧ xs.length = N ∧
      ∀ i k, i ≤ k → k < N - 1 → ∃ x y : Fin d → K, xs[i]? = some (fun j => some (x j)) ∧
        xs[k]? = some (fun j => some (y j)) ∧
        ∀ j, (p0 j ≤ p1 j → x j ≤ y j) ∧ (p1 j ≤ p0 j → y j ≤ x j) := by
  obtain ⟨xs, hx, hl, h0, h1, hm⟩ := points_get fl fused nrm sched p0 p1 N hN hs hL.ne'
  refine ⟨xs, hx, hl, ?_⟩
  generalize nrm (fun j => fl (p1 j - p0 j)) = L at hL hm
  have hN0 : 0 ≤ fl ((N : K) - 1) := hfl.nonneg (by
    have : (2 : K) ≤ N := by exact_mod_cast hN
    linarith)
  let st : Fin d → K := fun j => fl (fl (fl (p1 j - p0 j) / L) * fl (L / fl ((N : K) - 1)))
  have hall : ∀ i, i < N - 1 → xs[i]? = some fun j => some (mulAdd fl fused (p0 j) (fl (i : K)) (st j)) := by
    intro i hi
    by_cases h : i = 0
    · subst h
      rw [h0]
      congr 1
      funext j
      rw [Nat.cast_zero, hfl.zero, mulAdd_zero hfl, hp0 j]
    · exact hm i (by omega) hi
  intro i k hik hk
  refine ⟨_, _, hall i (by omega), hall k hk, fun j => ?_⟩
  have hc : fl (i : K) ≤ fl (k : K) := hfl.mono _ _ (by exact_mod_cast hik)
  have hd : 0 ≤ fl (L / fl ((N : K) - 1)) := hfl.nonneg (div_nonneg hL.le hN0)
  constructor
  · intro hle
    have hst : 0 ≤ st j :=
      hfl.nonneg (mul_nonneg (hfl.nonneg (div_nonneg (hfl.nonneg (sub_nonneg.2 hle)) hL.le)) hd)
    exact mulAdd_mono hfl fused le_rfl hc hst
  · intro hle
    have hst : st j ≤ 0 := by
      have : 0 ≤ -st j := by
        simp only [st]
        rw [← hfl.neg, ← neg_mul, ← hfl.neg, ← neg_div, ← hfl.neg, neg_sub]
        exact hfl.nonneg (mul_nonneg (hfl.nonneg (div_nonneg (hfl.nonneg (sub_nonneg.2 hle)) hL.le)) hd)
      linarith
    have hmul := mul_le_mul_of_nonpos_right hc hst
    unfold mulAdd
    cases fused
    · exact hfl.mono _ _ (add_le_add le_rfl (hfl.mono _ _ hmul))
    · exact hfl.mono _ _ (add_le_add le_rfl hmul)

/-- C113 is violated for a segment without length: all points between the first and the last one are NaN. -/
theorem C113_points_same_violated {d : ℕ} (fl : K → K) (hz : fl 0 = 0) (fused : Bool) (nrm : (Fin d → K) → K)
    (hnrm : nrm (fun _ => 0) = 0) (sched : List ℕ) (p : Fin d → K) (N : ℕ) (hN : 3 ≤ N)
    (hs : sched.Perm (List.range' 1 (N - 2))) :
    ∃ xs, linspacePoints fl fused nrm sched p p N = .ok xs ∧ xs.length = N ∧
      ∀ i, 1 ≤ i → i < N - 1 → xs[i]? = some fun _ => none := by
  unfold linspacePoints
  rw [if_neg (by omega)]
  simp only [sub_self, hz, hnrm, if_true, Option.map_none]
  have hlen := foldl_set_length (fun (_ : ℕ) (_ : Fin d) => (none : Option K)) sched
        ((List.replicate N fun _ => some 0).set 0 fun j => some (p j))
  have hget := fun i hi => foldl_set_get (fun (_ : ℕ) (_ : Fin d) => (none : Option K)) sched
        ((List.replicate N fun _ => some 0).set 0 fun j => some (p j)) i hi
  simp only [List.length_set, List.length_replicate] at hlen hget
  refine ⟨_, rfl, by rw [List.length_set, hlen], fun i h1 h2 => ?_⟩
  rw [List.getElem?_set_ne (by omega), hget i (by omega), if_pos (by
    rw [hs.mem_iff, List.mem_range'_1]; omega)]

end

/-! ## Violations -/

theorem ok_getD {r : Py (List ℚ)} (h : r.toOption.isSome = true) : r = .ok (r.toOption.getD []) := by
  cases r with
  | error e => simp [Except.toOption] at h
  | ok x => rfl

/-- C113 is violated: in double precision the ends of the source range are not mapped to the ends of the target range, and values
leave the target range: from [1, 6] to [-1, 1], 6 goes to a number larger than 1, and from [1, 6] to [0, 1], 1 goes to a
negative number. -/
theorem C113_range_violated :
    (∃ a, toRange1d (binary 53) false [6] (some (1, 6)) (some (-1, 1)) [0] = .ok [a] ∧ 1 < a) ∧
    ∃ a, toRange1d (binary 53) false [1] (some (1, 6)) (some (0, 1)) [0] = .ok [a] ∧ a < 0 :=
  ⟨⟨1 + 1 / 2 ^ 52, by decide +kernel, by norm_num⟩, ⟨-1 / 2 ^ 54, by decide +kernel, by norm_num⟩⟩

/-- C113 is violated by whole numbers if the source range is far from zero: the range from 2^53 to 2^53 + 2 is mapped to the range
from 0 to 2 instead of the one from -1 to 1. -/
theorem C113_range_far_violated (fused : Bool) :
    toRange1d (binary 53) fused [2 ^ 53, 2 ^ 53 + 2] (some (2 ^ 53, 2 ^ 53 + 2)) (some (-1, 1)) [0, 1] =
      .ok [0, 2] := by
  cases fused <;> decide +kernel

/-- C113 is violated: the centre of an interval between neighbouring floating point numbers is one of them. -/
theorem C113_centres_violated : binCenters (binary 53) [1, 1 + 1 / 2 ^ 52] [0] = [1] := by decide +kernel

/-! ## Examples -/

example :=
  C113_range_default (binary 53) (binary_rounding 53 (by norm_num)) (by decide +kernel) false [1 / 4, 1]
    (by intro v hv; fin_cases hv <;> norm_num) [1, 0] (by unfold IsSchedule; decide)

example : (1 / 2 ^ 53 : ℚ) ≤ 1 / 2 ∧ Precise (binary 53) (1 / 2 ^ 53) :=
  ⟨by norm_num, binary_precise 53 (by norm_num)⟩

/-- A norm for the example: the sum of the absolute values. -/
def nrmEx (v : Fin 2 → ℚ) : ℚ := |v 0| + |v 1|

example :=
  C113_points_order (binary 53) (binary_rounding 53 (by norm_num)) false nrmEx [2, 1] ![0, 1] ![3, 1]
    (by intro j; fin_cases j <;> decide +kernel) 4 (by norm_num) (by decide) (by decide +kernel)

example :=
  C113_points_same_violated (binary 53) (by decide +kernel) true nrmEx (by decide +kernel) [2, 1] ![5, 1] 4 (by norm_num)
    (by decide)

example : ∀ e ∈ [(0 : ℚ), 1, 3 / 2], binary 53 e = e ∧ binary 53 (2 * e) = 2 * e := by decide +kernel

end Verif.RUtils.Props
