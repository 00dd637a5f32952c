import Verif.Model.Hist
import Verif.Props.Utils
import Mathlib.Data.List.GetD

/-!
# C91: histograms
-/

set_option linter.unusedSectionVars false

namespace Verif.Hist.Props

open Verif.Hist Verif.Utils

section
variable {K : Type} [Field K] [LinearOrder K] [IsStrictOrderedRing K] [FloorRing K]

/-- The number of data in interval `i` of the edges: closed below, open above, the last one closed. -/
def inside (data es : List K) (i : ℕ) : ℕ :=
  data.countP fun x => decide (es.getD i 0 ≤ x ∧
    (x < es.getD (i + 1) 0 ∨ i + 2 = es.length ∧ x ≤ es.getD (i + 1) 0))

theorem below_sub (data : List K) (a b : K) (h : a ≤ b) :
    (below data b : ℤ) - below data a =
      (data.countP fun x => decide (a ≤ x ∧ x < b) : ℕ) := by
  unfold below
  induction data with
  | nil => rfl
  | cons x xs ih =>
    simp only [List.filter_cons, List.countP_cons, decide_eq_true_eq]
    by_cases h1 : x < a
    · have h2 : x < b := lt_of_lt_of_le h1 h
      have h3 : ¬(a ≤ x ∧ x < b) := fun hh => absurd hh.1 (not_le.2 h1)
      simp only [if_pos h1, if_pos h2, if_neg h3, List.length_cons]
      push_cast
      omega
    · by_cases h2 : x < b
      · have h3 : a ≤ x ∧ x < b := ⟨not_lt.1 h1, h2⟩
        simp only [if_neg h1, if_pos h2, if_pos h3, List.length_cons]
        push_cast
        omega
      · have h3 : ¬(a ≤ x ∧ x < b) := fun hh => h2 hh.2
        simp only [if_neg h1, if_neg h2, if_neg h3]
        omega

theorem upTo_sub (data : List K) (a b : K) (h : a ≤ b) :
    (upTo data b : ℤ) - below data a =
      (data.countP fun x => decide (a ≤ x ∧ x ≤ b) : ℕ) := by
  unfold below upTo
  induction data with
  | nil => rfl
  | cons x xs ih =>
    simp only [List.filter_cons, List.countP_cons, decide_eq_true_eq]
    by_cases h1 : x < a
    · have h2 : x ≤ b := (lt_of_lt_of_le h1 h).le
      have h3 : ¬(a ≤ x ∧ x ≤ b) := fun hh => absurd hh.1 (not_le.2 h1)
      simp only [if_pos h1, if_pos h2, if_neg h3, List.length_cons]
      push_cast
      omega
    · by_cases h2 : x ≤ b
      · have h3 : a ≤ x ∧ x ≤ b := ⟨not_lt.1 h1, h2⟩
        simp only [if_neg h1, if_pos h2, if_pos h3, List.length_cons]
        push_cast
        omega
      · have h3 : ¬(a ≤ x ∧ x ≤ b) := fun hh => h2 hh.2
        simp only [if_neg h1, if_neg h2, if_neg h3]
        omega

/-- Edges that do not decrease. -/
def Increasing (es : List K) : Prop := ∀ i, i + 1 < es.length → es.getD i 0 ≤ es.getD (i + 1) 0

theorem increasing_of_check : ∀ (es : List K),
    (es.zip es.tail).any (fun p => decide (p.2 < p.1)) = false → Increasing es
  | [], _ => fun i hi => by simp at hi
  | [a], _ => fun i hi => by simp at hi
  | a :: b :: t, h => by
    simp only [List.tail_cons, List.zip_cons_cons, List.any_cons, Bool.or_eq_false_iff,
      decide_eq_false_iff_not, not_lt] at h
    have ih := increasing_of_check (b :: t) h.2
    intro i hi
    cases i with
    | zero => exact h.1
    | succ i =>
      simp only [List.length_cons] at hi
      exact ih i (by simp only [List.length_cons]; omega)

theorem check_of_increasing : ∀ (es : List K), Increasing es →
    (es.zip es.tail).any (fun p => decide (p.2 < p.1)) = false
  | [], _ => rfl
  | [a], _ => rfl
  | a :: b :: t, h => by
    simp only [List.tail_cons, List.zip_cons_cons, List.any_cons, Bool.or_eq_false_iff,
      decide_eq_false_iff_not, not_lt]
    refine ⟨h 0 (by simp), check_of_increasing (b :: t) fun i hi => ?_⟩
    exact h (i + 1) (by simp only [List.length_cons] at hi ⊢; omega)

theorem counts_spec : ∀ (data es : List K), Increasing es →
    (counts data es).length = es.length - 1 ∧
      ∀ i, i + 1 < es.length → (counts data es)[i]? = some (inside data es i : ℤ)
  | _, [], _ => ⟨rfl, fun i hi => by simp at hi⟩
  | _, [a], _ => ⟨rfl, fun i hi => by simp at hi⟩
  | data, [a, b], h => by
    refine ⟨rfl, fun i hi => ?_⟩
    have hi0 : i = 0 := by simp only [List.length_cons, List.length_nil] at hi; omega
    subst hi0
    have hab : a ≤ b := h 0 (by simp)
    show some _ = _
    rw [upTo_sub data a b hab]
    unfold inside
    congr 3
    funext x
    congr 1
    simp only [List.getD_cons_zero, List.getD_cons_succ, List.length_cons, List.length_nil,
      eq_iff_iff]
    constructor
    · exact fun h => ⟨h.1, .inr ⟨by trivial, h.2⟩⟩
    · rintro ⟨h1, h2 | ⟨-, h2⟩⟩
      · exact ⟨h1, h2.le⟩
      · exact ⟨h1, h2⟩
  | data, a :: b :: c :: t, h => by
    have hab : a ≤ b := h 0 (by simp)
    obtain ⟨ih1, ih2⟩ := counts_spec data (b :: c :: t) fun i hi =>
      h (i + 1) (by simp only [List.length_cons] at hi ⊢; omega)
    have hc : counts data (a :: b :: c :: t) =
        ((below data b : ℤ) - below data a) :: counts data (b :: c :: t) := rfl
    rw [hc]
    refine ⟨by simp only [List.length_cons] at ih1 ⊢; omega, fun i hi => ?_⟩
    cases i with
    | zero =>
      show some _ = _
      rw [below_sub data a b hab]
      unfold inside
      congr 3
      funext x
      congr 1
      simp
    | succ i =>
      rw [List.getElem?_cons_succ, ih2 i (by simp only [List.length_cons] at hi ⊢; omega)]
      unfold inside
      congr 3
      funext x
      congr 1
      simp

theorem counts_sum : ∀ (data : List K) (es : List K) (hne : es ≠ []), Increasing es → 2 ≤ es.length →
    (counts data es).sum =
      (upTo data (es.getLast hne) : ℤ) - below data (es.head hne)
  | _, [], hne, _, _ => absurd rfl hne
  | _, [a], _, _, h2 => by simp at h2
  | data, [a, b], _, _, _ => by simp [counts]
  | data, a :: b :: c :: t, _, h, _ => by
    have ih := counts_sum data (b :: c :: t) (by simp) (fun i hi =>
      h (i + 1) (by simp only [List.length_cons] at hi ⊢; omega)) (by simp)
    have hc : counts data (a :: b :: c :: t) =
        ((below data b : ℤ) - below data a) :: counts data (b :: c :: t) := rfl
    rw [hc, List.sum_cons, ih]
    simp only [List.head_cons, List.getLast_cons_cons]
    ring

theorem foldl_min_le (xs : List K) (x : K) : xs.foldl min x ≤ x ∧ ∀ y ∈ xs, xs.foldl min x ≤ y := by
  induction xs generalizing x with
  | nil => exact ⟨le_refl _, fun y hy => by cases hy⟩
  | cons z zs ih =>
    obtain ⟨h1, h2⟩ := ih (min x z)
    refine ⟨le_trans h1 (min_le_left _ _), fun y hy => ?_⟩
    rcases List.mem_cons.1 hy with rfl | hy
    · exact le_trans h1 (min_le_right _ _)
    · exact h2 y hy

theorem le_foldl_max (xs : List K) (x : K) : x ≤ xs.foldl max x ∧ ∀ y ∈ xs, y ≤ xs.foldl max x := by
  induction xs generalizing x with
  | nil => exact ⟨le_refl _, fun y hy => by cases hy⟩
  | cons z zs ih =>
    obtain ⟨h1, h2⟩ := ih (max x z)
    refine ⟨le_trans (le_max_left _ _) h1, fun y hy => ?_⟩
    rcases List.mem_cons.1 hy with rfl | hy
    · exact le_trans (le_max_right _ _) h1
    · exact h2 y hy

theorem range_spec (data : List K) :
    (range data).1 < (range data).2 ∧ ∀ x ∈ data, (range data).1 ≤ x ∧ x ≤ (range data).2 := by
  unfold range
  cases data with
  | nil => exact ⟨zero_lt_one, fun x hx => by cases hx⟩
  | cons x xs =>
    obtain ⟨a1, a2⟩ := foldl_min_le xs x
    obtain ⟨b1, b2⟩ := le_foldl_max xs x
    simp only
    split
    · rename_i h
      refine ⟨by linarith, fun y hy => ?_⟩
      rcases List.mem_cons.1 hy with rfl | hy
      · constructor <;> linarith
      · have := a2 y hy
        have := b2 y hy
        constructor <;> linarith
    · rename_i h
      refine ⟨lt_of_le_of_ne (le_trans a1 b1) h, fun y hy => ?_⟩
      rcases List.mem_cons.1 hy with rfl | hy
      · exact ⟨a1, b1⟩
      · exact ⟨a2 y hy, b2 y hy⟩

theorem head_le_last : ∀ (es : List K) (hne : es ≠ []), Increasing es →
    es.head hne ≤ es.getLast hne
  | [], hne, _ => absurd rfl hne
  | [a], _, _ => le_refl _
  | a :: b :: t, _, h => by
    have ih := head_le_last (b :: t) (by simp) fun i hi =>
      h (i + 1) (by simp only [List.length_cons] at hi ⊢; omega)
    rw [List.getLast_cons_cons]
    exact le_trans (h 0 (by simp)) ih

/-! ## The theorems -/

/-- C91: a histogram with given edges: decreasing edges are refused; else one count and one centre per
interval, each count is the number of data in it, and their sum is the number of data between the
outer edges. -/
theorem C91_edges (data es : List K) (dt : DType) (re : Bool) (sched : List ℕ) (hne : es ≠ []) :
    (¬Increasing es → histogram data (.edges dt es) re sched = .error .value) ∧
    (Increasing es → ∃ cs xs, histogram data (.edges dt es) re sched = .ok (cs, xs) ∧
      cs.length = es.length - 1 ∧
      (∀ i, i + 1 < es.length → cs[i]? = some (inside data es i : ℤ)) ∧
      (2 ≤ es.length → cs.sum =
        (data.countP fun x => decide (es.head hne ≤ x ∧ x ≤ es.getLast hne) : ℕ)) ∧
      (re = true → xs = es)) := by
  constructor
  · intro h
    have : (es.zip es.tail).any (fun p => decide (p.2 < p.1)) = true := by
      by_contra hc
      exact h (increasing_of_check es (by simpa using hc))
    unfold histogram edges
    simp only [if_neg hne, this, if_true]
  · intro h
    have hc := check_of_increasing es h
    refine ⟨counts data es, if re then es else binCenters dt es sched, ?_, (counts_spec data es h).1,
      (counts_spec data es h).2, fun h2 => ?_, ?_⟩
    · unfold histogram edges
      simp only [if_neg hne, hc, Bool.false_eq_true, if_false]
    · rw [counts_sum data es hne h h2, upTo_sub data _ _ (head_le_last es hne h)]
    · intro h; rw [if_pos h]

/-- C91, partial: the reported places are the centres of the intervals: data counted in an interval are
at most half its width away.  Missing: edges given as integers (`C91_integer_edges_violated`). -/
theorem C91_centres_partial (data es : List K) (cs : List ℤ) (xs : List K) (sched : List ℕ)
    (hs : IsSchedule (es.length - 1) sched) (hne : es ≠ [])
    (h : histogram data (.edges .float es) false sched = .ok (cs, xs)) :
    xs.length = cs.length ∧ ∀ i, i + 1 < es.length → ∃ x, xs[i]? = some x ∧
      ∀ d, es.getD i 0 ≤ d → d ≤ es.getD (i + 1) 0 →
        |d - x| ≤ (es.getD (i + 1) 0 - es.getD i 0) / 2 := by
  have hinc : Increasing es := by
    by_contra hc
    rw [(C91_edges data es .float false sched hne).1 hc] at h
    cases h
  have hh : histogram data (.edges .float es) false sched =
      .ok (counts data es, binCenters .float es sched) := by
    unfold histogram edges
    simp only [if_neg hne, check_of_increasing es hinc, Bool.false_eq_true, if_false]
  rw [hh] at h
  cases h
  obtain ⟨h1, h2⟩ := Verif.Utils.Props.C33_bin_centers_partial es sched hs
  refine ⟨by rw [h1, (counts_spec data es hinc).1], fun i hi => ?_⟩
  refine ⟨_, h2 i hi, fun d hd1 hd2 => ?_⟩
  have e1 : es.getD i 0 = es[i] := List.getD_eq_getElem _ _ (by omega)
  have e2 : es.getD (i + 1) 0 = es[i + 1] := List.getD_eq_getElem _ _ hi
  rw [e1] at hd1 ⊢
  rw [e2] at hd2 ⊢
  rw [abs_le]
  constructor <;> linarith

/-- C91: with a number of intervals every datum is counted, in intervals of equal width; a number below
one is refused. -/
theorem C91_number (data : List K) (n : ℤ) (re : Bool) (sched : List ℕ) :
    (n < 1 → histogram data (.number n) re sched = .error .value) ∧
    (1 ≤ n → ∃ es cs xs, histogram data (.number n) true sched = .ok (cs, es) ∧
      histogram data (.number n) false sched = .ok (cs, xs) ∧
      (es.length : ℤ) = n + 1 ∧ (cs.length : ℤ) = n ∧ cs.sum = (data.length : ℤ) ∧
      (∃ w, 0 < w ∧ ∀ i, i + 1 < es.length → es.getD (i + 1) 0 - es.getD i 0 = w) ∧
      ∀ i, i + 1 < es.length → cs[i]? = some (inside data es i : ℤ)) := by
  constructor
  · intro h
    unfold histogram edges
    simp only [if_pos h]
  · intro h
    obtain ⟨m, rfl⟩ : ∃ m : ℕ, n = (m : ℤ) := ⟨n.toNat, by omega⟩
    have hm : 1 ≤ m := by omega
    obtain ⟨r1, r2⟩ := range_spec data
    have hmK : (0 : K) < (m : K) := by exact_mod_cast hm
    have hw : 0 < ((range data).2 - (range data).1) / (m : K) := div_pos (by linarith) hmK
    set w := ((range data).2 - (range data).1) / (m : K) with hwdef
    let es : List K := (List.range (m + 1)).map fun (i : ℕ) => (range data).1 + (i : K) * w
    have hlen : es.length = m + 1 := by simp [es]
    have hget : ∀ i, i < m + 1 → es.getD i 0 = (range data).1 + (i : K) * w := by
      intro i hi
      rw [List.getD_eq_getElem _ _ (by omega)]
      simp [es]
    have hdiff : ∀ i, i + 1 < es.length → es.getD (i + 1) 0 - es.getD i 0 = w := by
      intro i hi
      rw [hget _ (by omega), hget _ (by omega)]
      push_cast
      ring
    have hinc : Increasing es := fun i hi => by have := hdiff i hi; linarith
    have hne : es ≠ [] := by
      intro h
      rw [h] at hlen
      simp at hlen
    have hed : edges data (.number (m : ℤ)) = .ok (.float, es) := by
      unfold edges
      simp only
      rw [if_neg (by omega)]
      simp only [Int.toNat_natCast]
      rfl
    have hhead : es.head hne = (range data).1 := by
      have := hget 0 (by omega)
      rw [List.getD_eq_getElem _ _ (by omega)] at this
      rw [List.head_eq_getElem, this]
      simp
    have hlast : es.getLast hne = (range data).2 := by
      have := hget m (by omega)
      rw [List.getD_eq_getElem _ _ (by omega)] at this
      rw [List.getLast_eq_getElem]
      simp only [hlen, Nat.add_sub_cancel]
      rw [this, hwdef, mul_div_cancel₀ _ hmK.ne']
      ring
    obtain ⟨c1, c2⟩ := counts_spec data es hinc
    refine ⟨es, counts data es, binCenters .float es sched, ?_, ?_, ?_, ?_, ?_, ⟨w, hw, hdiff⟩, c2⟩
    · unfold histogram; rw [hed]; rfl
    · unfold histogram; rw [hed]; rfl
    · rw [hlen]; push_cast; rfl
    · rw [c1, hlen]; simp
    · rw [counts_sum data es hne hinc (by omega), upTo_sub data _ _ (head_le_last es hne hinc)]
      rw [hhead, hlast]
      norm_cast
      rw [List.countP_eq_length]
      intro x hx
      simpa using r2 x hx

end

/-- A histogram with four intervals of different width. -/
example : ∃ cs xs, histogram (K := ℚ) [1, 2, 1, 5, 7 / 2, 9] (.edges .float [0, 1, 2, 4, 5]) false
      [3, 1, 0, 2] = .ok (cs, xs) ∧ cs = [0, 2, 2, 1] ∧ xs = [1 / 2, 3 / 2, 3, 9 / 2] :=
  ⟨_, _, rfl, by decide +kernel, by decide +kernel⟩

/-- C91 is violated for edges given as integers: the centres are truncated, those of the intervals
between 0, 1, 2, 3 come out as 0, 1, 2. -/
theorem C91_integer_edges_violated : ∃ cs xs,
    histogram (K := ℚ) [1, 2, 1] (.edges .int [0, 1, 2, 3]) false [0, 1, 2] = .ok (cs, xs) ∧
      cs = [0, 2, 1] ∧ xs = [0, 1, 2] :=
  ⟨_, _, rfl, by decide +kernel, by decide +kernel⟩

end Verif.Hist.Props
