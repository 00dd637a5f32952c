import Verif.Model.Choice
import Mathlib.Algebra.Order.Floor.Ring
import Mathlib.Algebra.Order.BigOperators.Group.List
import Mathlib.Tactic.Linarith
import Mathlib.Tactic.Ring
import Mathlib.Tactic.FieldSimp
import Mathlib.Tactic.NormNum
import Mathlib.Algebra.Order.Ring.Rat
import Mathlib.Data.Rat.Floor

/-! # C128: random choices -/

set_option linter.unusedSectionVars false

namespace Verif.Choice.Props
open Verif Verif.Choice

section
variable {K V : Type} [Field K] [LinearOrder K] [IsStrictOrderedRing K]

/-! ### Vocabulary -/

/-- A rounding: monotone, does not change its own results, nor zero and one. -/
structure Rounds (fl : K → K) : Prop where
  mono : ∀ x y, x ≤ y → fl x ≤ fl y
  twice : ∀ x, fl (fl x) = fl x
  zero : fl 0 = 0
  one : fl 1 = 1

/-- The probabilities used for `n` items: those given, or the same for each. -/
def used (fl : K → K) (n : ℕ) : Option (List K) → List K
  | some p => p
  | none => List.replicate n (fl (1 / n))

/-- The arguments are accepted. -/
structure Accepted (ksum : List K → K) (atol : K) (n : ℕ) (p : List K) : Prop where
  length : p.length = n
  nonneg : ∀ x ∈ p, 0 ≤ x
  total : |ksum p - 1| ≤ atol

/-! ### Lemmas -/

theorem take_length (l : List K) (u : K) (i : ℕ) (h : searchRight l u = i) (hi : i < l.length) :
    (∀ j (hj : j < l.length), j < i → l[j] ≤ u) ∧ u < l[i] := by
  unfold searchRight at h
  induction l generalizing i with
  | nil => simp at hi
  | cons x l ih =>
    by_cases hx : x ≤ u
    · rw [List.takeWhile_cons_of_pos (by simpa using hx), List.length_cons] at h
      obtain ⟨i, rfl⟩ : ∃ k, i = k + 1 := ⟨_, h.symm⟩
      obtain ⟨h1, h2⟩ := ih i (by omega) (by simpa using hi)
      refine ⟨fun j hj hji => ?_, by simpa using h2⟩
      cases j with
      | zero => simpa using hx
      | succ j => simpa using h1 j (by simpa using hj) (by omega)
    · rw [List.takeWhile_cons_of_neg (by simpa using hx)] at h
      subst h
      exact ⟨fun j _ hj => absurd hj (by simp), by simpa using not_le.1 hx⟩

theorem search_lt (l : List K) (u x : K) (hx : x ∈ l) (h : u < x) : searchRight l u < l.length := by
  unfold searchRight
  induction l with
  | nil => simp at hx
  | cons y l ih =>
    by_cases hy : y ≤ u
    · rw [List.takeWhile_cons_of_pos (by simpa using hy)]
      rcases List.mem_cons.1 hx with rfl | hx
      · exact absurd h (not_lt.2 hy)
      · simpa using ih hx
    · rw [List.takeWhile_cons_of_neg (by simpa using hy)]
      simp

/-- The place found is the one between the sums. -/
theorem search_eq (l : List K) (u : K) (i : ℕ) (hi : i < l.length) (h1 : ∀ j (hj : j < l.length), j < i → l[j] ≤ u)
    (h2 : u < l[i]) : searchRight l u = i := by
  unfold searchRight
  induction l generalizing i with
  | nil => simp at hi
  | cons x l ih =>
    cases i with
    | zero =>
      rw [List.takeWhile_cons_of_neg (by simpa using h2)]
      rfl
    | succ i =>
      have hx : x ≤ u := h1 0 (by simp) (by omega)
      rw [List.takeWhile_cons_of_pos (by simpa using hx), List.length_cons,
        ih i (by simpa using hi) (fun j hj hji => h1 (j + 1) (by simpa using hj) (by omega)) (by simpa using h2)]

variable {fl : K → K}

theorem sumsFrom_length (acc : K) (p : List K) : (sumsFrom fl acc p).length = p.length := by
  induction p generalizing acc with
  | nil => rfl
  | cons x p ih => simp [sumsFrom, ih]

theorem cumsum_length (p : List K) : (cumsum fl p).length = p.length := by
  cases p with
  | nil => rfl
  | cons x p => simp [cumsum, sumsFrom_length]

/-- Sums grow, do so only at positive entries, and are at least each entry. -/
theorem sumsFrom_grow (h : Rounds fl) (p : List K) (hp : ∀ x ∈ p, 0 ≤ x) (acc : K) (ha : fl acc = acc) (i : ℕ)
    (hi : i < (acc :: sumsFrom fl acc p).length) (hi' : i + 1 < (acc :: sumsFrom fl acc p).length) :
    (acc :: sumsFrom fl acc p)[i] ≤ (acc :: sumsFrom fl acc p)[i + 1] ∧
      (p[i]? = some 0 → (acc :: sumsFrom fl acc p)[i + 1] = (acc :: sumsFrom fl acc p)[i]) := by
  induction p generalizing acc i with
  | nil => simp [sumsFrom] at hi'
  | cons x p ih =>
    have hx := hp x (by simp)
    cases i with
    | zero =>
      simp only [sumsFrom, List.getElem_cons_zero, List.getElem_cons_succ, List.getElem?_cons_zero, Option.some.injEq, zero_add]
      refine ⟨?_, fun h0 => by rw [h0, add_zero, ha]⟩
      calc acc = fl acc := ha.symm
        _ ≤ fl (acc + x) := h.mono _ _ (by linarith)
    | succ i =>
      have := ih (fun y hy => hp y (List.mem_cons_of_mem _ hy)) (fl (acc + x)) (h.twice _) i
        (by simpa [sumsFrom] using hi) (by simpa [sumsFrom] using hi')
      simpa [sumsFrom] using this

theorem cumsum_grow (h : Rounds fl) (p : List K) (hp : ∀ x ∈ p, 0 ≤ x) (hr : ∀ x ∈ p, fl x = x) (i : ℕ)
    (hi' : i + 1 < (cumsum fl p).length) :
    (cumsum fl p)[i] ≤ (cumsum fl p)[i + 1] ∧ (p[i + 1]? = some 0 → (cumsum fl p)[i + 1] = (cumsum fl p)[i]) := by
  cases p with
  | nil => simp [cumsum] at hi'
  | cons x p =>
    have := sumsFrom_grow h p (fun y hy => hp y (List.mem_cons_of_mem _ hy)) x (hr x (by simp)) i
      (Nat.lt_of_succ_lt (by simpa [cumsum] using hi')) (by simpa [cumsum] using hi')
    simpa [cumsum] using this

theorem cumsum_le (h : Rounds fl) (p : List K) (hp : ∀ x ∈ p, 0 ≤ x) (hr : ∀ x ∈ p, fl x = x) (i j : ℕ) (hij : i ≤ j)
    (hj : j < (cumsum fl p).length) : (cumsum fl p)[i] ≤ (cumsum fl p)[j] := by
  induction j with
  | zero =>
    obtain rfl : i = 0 := by omega
    exact le_rfl
  | succ j ih =>
    rcases Nat.lt_or_eq_of_le hij with hlt | rfl
    · exact (ih (by omega) (by omega)).trans (cumsum_grow h p hp hr j hj).1
    · exact le_rfl

/-- Each sum is at least the entry at its place. -/
theorem cumsum_ge (h : Rounds fl) (p : List K) (hp : ∀ x ∈ p, 0 ≤ x) (hr : ∀ x ∈ p, fl x = x) (i : ℕ)
    (hi : i < p.length) : p[i] ≤ (cumsum fl p)[i]'(by rw [cumsum_length]; exact hi) := by
  have key : ∀ (q : List K) (acc : K) (_ : 0 ≤ acc) (_ : ∀ x ∈ q, 0 ≤ x) (_ : ∀ x ∈ q, fl x = x) (k : ℕ) (hk : k < q.length),
      q[k] ≤ (sumsFrom fl acc q)[k]'(by rw [sumsFrom_length]; exact hk) := by
    intro q
    induction q with
    | nil => intro _ _ _ _ k hk; simp at hk
    | cons y q ih =>
      intro acc hacc hq hqr k hk
      have hy := hq y (by simp)
      cases k with
      | zero =>
        simp only [sumsFrom, List.getElem_cons_zero]
        calc y = fl y := (hqr y (by simp)).symm
          _ ≤ fl (acc + y) := h.mono _ _ (by linarith)
      | succ k =>
        simp only [sumsFrom, List.getElem_cons_succ]
        refine ih _ ?_ (fun z hz => hq z (List.mem_cons_of_mem _ hz)) (fun z hz => hqr z (List.mem_cons_of_mem _ hz)) k
          (by simpa using hk)
        rw [← h.zero]
        exact h.mono _ _ (by linarith)
  cases p with
  | nil => simp at hi
  | cons x p =>
    cases i with
    | zero => simp [cumsum]
    | succ i =>
      simp only [cumsum, List.getElem_cons_succ]
      exact key p x (hp x (by simp)) (fun z hz => hp z (List.mem_cons_of_mem _ hz))
        (fun z hz => hr z (List.mem_cons_of_mem _ hz)) i (by simpa using hi)

theorem cdf_length (p : List K) : (cdf fl p).length = p.length := by
  rw [cdf, List.length_map, cumsum_length]

/-- The last of the sums. -/
theorem last_eq (p : List K) (hp : p ≠ []) : (cumsum fl p).getLast?.getD 0 =
    (cumsum fl p)[p.length - 1]'(by
      rw [cumsum_length]
      have := List.length_pos_iff.2 hp
      omega) := by
  have hl := cumsum_length (fl := fl) p
  have hpos := List.length_pos_iff.2 hp
  rw [List.getLast?_eq_getElem?, show (cumsum fl p).length - 1 = p.length - 1 by rw [hl], List.getElem?_eq_getElem (by omega), Option.getD_some]

/-- What the search finds. -/
theorem found (h : Rounds fl) (p : List K) (hp : ∀ x ∈ p, 0 ≤ x) (hr : ∀ x ∈ p, fl x = x) (hex : ∃ x ∈ p, x ≠ 0) (u : K)
    (h0 : 0 ≤ u) (h1 : u < 1) :
    ∃ hi : searchRight (cdf fl p) u < p.length, 0 < p[searchRight (cdf fl p) u] := by
  obtain ⟨x, hx, hx0⟩ := hex
  have hne : p ≠ [] := List.ne_nil_of_mem hx
  have hpos := List.length_pos_iff.2 hne
  have hlen := cumsum_length (fl := fl) p
  have hlast := last_eq (fl := fl) p hne
  set T := (cumsum fl p).getLast?.getD 0 with hT
  have hTpos : 0 < T := by
    obtain ⟨i, hi, rfl⟩ := List.getElem_of_mem hx
    have hxi := lt_of_le_of_ne (hp _ hx) (Ne.symm hx0)
    rw [hlast]
    exact (hxi.trans_le (cumsum_ge h p hp hr i hi)).trans_le (cumsum_le h p hp hr i _ (by omega) (by omega))
  have hcdf : ∀ j (hj : j < (cdf fl p).length), (cdf fl p)[j] = fl ((cumsum fl p)[j]'(by
      rw [cdf_length] at hj; omega) / T) := by
    intro j hj
    simp only [cdf, List.getElem_map, ← hT]
  have hmem : (1 : K) ∈ cdf fl p := by
    rw [List.mem_iff_getElem]
    refine ⟨p.length - 1, by rw [cdf_length]; omega, ?_⟩
    rw [hcdf, ← hlast, div_self hTpos.ne', h.one]
  have hlt := search_lt (cdf fl p) u 1 hmem h1
  have hlt' : searchRight (cdf fl p) u < p.length := by rwa [cdf_length] at hlt
  refine ⟨hlt', ?_⟩
  obtain ⟨b1, b2⟩ := take_length (cdf fl p) u _ rfl hlt
  by_contra hneg
  have hz : p[searchRight (cdf fl p) u] = 0 := le_antisymm (not_lt.1 hneg) (hp _ (List.getElem_mem _))
  generalize hs : searchRight (cdf fl p) u = s at *
  cases s with
  | zero =>
    rw [hcdf] at b2
    have : (cumsum fl p)[0]'(by omega) = 0 := by
      cases p with
      | nil => simp at hpos
      | cons y p => simpa [cumsum] using hz
    rw [this, zero_div, h.zero] at b2
    exact absurd b2 (not_lt.2 h0)
  | succ s =>
    have hb := b1 s (by omega) (by omega)
    have he := (cumsum_grow h p hp hr s (by omega)).2 (by rw [List.getElem?_eq_getElem hlt', hz])
    rw [hcdf] at hb b2
    rw [he] at b2
    exact absurd b2 (not_lt.2 hb)

theorem mapM_ok {α β : Type} (f : α → Py β) (g : α → β) (l : List α) (h : ∀ a ∈ l, f a = .ok (g a)) :
    l.mapM f = .ok (l.map g) := by
  induction l with
  | nil => rfl
  | cons a l ih =>
    rw [List.mapM_cons, h a (by simp), ih fun b hb => h b (List.mem_cons_of_mem _ hb)]
    rfl

/-- After the checks. -/
theorem choice_eq (fl : K → K) (ksum : List K → K) (atol : K) (conv : List V → List V) (l : List V) (size : List ℕ)
    (probs : Option (List K)) (us : ℕ → K) (hne : l ≠ []) (hacc : Accepted ksum atol l.length (used fl l.length probs)) :
    choice fl ksum atol conv (.flat l) size probs us =
      (List.range size.prod).mapM (fun k =>
        match (conv l)[searchRight (cdf fl (used fl l.length probs)) (us k)]? with
        | some v => (.ok v : Py V)
        | none => .error .index) >>= fun out => .ok (size, out) := by
  have hl0 : l.length ≠ 0 := fun h => hne (List.length_eq_zero_iff.1 h)
  have hany : ((used fl l.length probs).any fun x => decide (x < 0)) = false := by
    rw [List.any_eq_false]
    intro x hx
    simpa using hacc.nonneg x hx
  have hp : weights fl (Choices.flat l).len probs = .ok (used fl l.length probs) := by
    cases probs with
    | some p => rfl
    | none => exact if_neg hl0
  unfold choice
  rw [hp]
  simp only [bind, Except.bind, pure, Except.pure]
  rw [if_neg (fun h => hl0 h.1), if_neg (by rw [hacc.length]; exact fun h => h rfl), hany, if_neg (by simp),
    if_neg (not_lt.2 hacc.total)]
  rfl

/-! ### C128 -/

/-- C128: if the arguments are accepted, an array of the given shape is returned, each entry of which is one of the choices, one with a
positive probability, in floating point arithmetic with any rounding.  Each entry depends on its own random number only. -/
theorem C128_members (fl : K → K) (hf : Rounds fl) (ksum : List K → K) (hk : ∀ p : List K, (∀ x ∈ p, x = 0) → ksum p = 0)
    (atol : K) (hat : atol < 1) (conv : List V → List V) (l : List V) (hconv : (conv l).length = l.length)
    (probs : Option (List K)) (hrep : ∀ p, probs = some p → ∀ x ∈ p, fl x = x)
    (hne : l ≠ []) (hacc : Accepted ksum atol l.length (used fl l.length probs)) :
    ∃ pick : K → ℕ, (∀ u, 0 ≤ u → u < 1 → pick u < l.length ∧ ∃ x, (used fl l.length probs)[pick u]? = some x ∧ 0 < x) ∧
      ∀ (size : List ℕ) (us : ℕ → K), (∀ k, 0 ≤ us k ∧ us k < 1) →
        ∃ out, choice fl ksum atol conv (.flat l) size probs us = .ok (size, out) ∧ out.length = size.prod ∧
          ∀ k, k < size.prod → out[k]? = (conv l)[pick (us k)]? := by
  set p := used fl l.length probs with hp
  have hr : ∀ x ∈ p, fl x = x := by
    cases probs with
    | some q => exact hrep q rfl
    | none =>
      intro x hx
      rw [List.eq_of_mem_replicate hx]
      exact hf.twice _
  have hex : ∃ x ∈ p, x ≠ 0 := by
    by_contra hno
    push Not at hno
    have := hacc.total
    rw [hk p hno, zero_sub, abs_neg, abs_one] at this
    exact absurd this (not_le.2 hat)
  have hfound := fun u h0 h1 => found hf p hacc.nonneg hr hex u h0 h1
  refine ⟨searchRight (cdf fl p), fun u h0 h1 => ?_, fun size us hus => ?_⟩
  · obtain ⟨hi, hpos⟩ := hfound u h0 h1
    exact ⟨by rw [← hacc.length]; exact hi, _, List.getElem?_eq_getElem hi, hpos⟩
  · have hlen : ∀ k, searchRight (cdf fl p) (us k) < (conv l).length := fun k => by
      obtain ⟨hi, -⟩ := hfound (us k) (hus k).1 (hus k).2
      rw [hconv, ← hacc.length]
      exact hi
    refine ⟨(List.range size.prod).map fun k => (conv l)[searchRight (cdf fl p) (us k)]'(hlen k), ?_, by simp, fun k hk => ?_⟩
    · rw [choice_eq fl ksum atol conv l size probs us hne hacc,
        mapM_ok _ (fun k => (conv l)[searchRight (cdf fl p) (us k)]'(hlen k)) _ fun k _ => by
          rw [List.getElem?_eq_getElem (hlen k)]]
      rfl
    · rw [List.getElem?_map, List.getElem?_range hk, List.getElem?_eq_getElem (hlen k)]
      rfl

theorem sumsFrom_exact (p : List K) (acc : K) (i : ℕ) (hi : i < (sumsFrom id acc p).length) :
    (sumsFrom id acc p)[i] = acc + (p.take (i + 1)).sum := by
  induction p generalizing acc i with
  | nil => simp [sumsFrom] at hi
  | cons x p ih =>
    cases i with
    | zero => simp [sumsFrom]
    | succ i =>
      have := ih (acc + x) i (by simpa [sumsFrom] using hi)
      simp only [sumsFrom, id_eq, List.getElem_cons_succ, this, List.take_succ_cons, List.sum_cons]
      ring

theorem cumsum_exact (p : List K) (i : ℕ) (hi : i < (cumsum id p).length) : (cumsum id p)[i] = (p.take (i + 1)).sum := by
  cases p with
  | nil => simp [cumsum] at hi
  | cons x p =>
    cases i with
    | zero => simp [cumsum]
    | succ i =>
      simp only [cumsum, List.getElem_cons_succ]
      rw [sumsFrom_exact]
      simp

theorem sum_take_mono (p : List K) (hp : ∀ x ∈ p, 0 ≤ x) {i j : ℕ} (hij : i ≤ j) : (p.take i).sum ≤ (p.take j).sum := by
  obtain ⟨d, rfl⟩ := Nat.exists_eq_add_of_le hij
  rw [List.take_add, List.sum_append]
  have : 0 ≤ ((p.drop i).take d).sum :=
    List.sum_nonneg fun x hx => hp x (List.mem_of_mem_drop (List.mem_of_mem_take hx))
  linarith

/-- The place found by the search, in exact arithmetic. -/
theorem found_exact (p : List K) (hp : ∀ x ∈ p, 0 ≤ x) (hs : 0 < p.sum) (u : K) (i : ℕ) (hi : i < p.length)
    (h1 : (p.take i).sum ≤ u * p.sum) (h2 : u * p.sum < (p.take (i + 1)).sum) : searchRight (cdf id p) u = i := by
  have hne : p ≠ [] := by
    rintro rfl
    simp at hi
  have hT : (cumsum id p).getLast?.getD 0 = p.sum := by
    rw [last_eq p hne, cumsum_exact, Nat.sub_add_cancel (List.length_pos_iff.2 hne), List.take_length]
  have hcdf : ∀ j (hj : j < (cdf id p).length), (cdf id p)[j] = (p.take (j + 1)).sum / p.sum := by
    intro j hj
    simp only [cdf, List.getElem_map, hT, id_eq, cumsum_exact]
  refine search_eq _ _ _ (by rw [cdf_length]; exact hi) (fun j hj hji => ?_) ?_
  · rw [hcdf, div_le_iff₀ hs]
    exact (sum_take_mono p hp (by omega)).trans h1
  · rw [hcdf, lt_div_iff₀ hs]
    exact h2

/-- C128: the item chosen, in exact arithmetic: the one for which the random number is between the sums of the probabilities before it
and up to it.  Hence each item is chosen for a part of the random numbers that is as large as its probability. -/
theorem C128_chances (conv : List V → List V) (l : List V) (hconv : (conv l).length = l.length) (atol : K) (hat : 0 ≤ atol)
    (p : List K) (hlen : p.length = l.length) (hp : ∀ x ∈ p, 0 ≤ x) (hs : p.sum = 1) (size : List ℕ) (us : ℕ → K)
    (hus : ∀ k, 0 ≤ us k ∧ us k < 1) :
    ∃ out, choice id List.sum atol conv (.flat l) size (some p) us = .ok (size, out) ∧ out.length = size.prod ∧
      ∀ k i, k < size.prod → i < l.length → (p.take i).sum ≤ us k → us k < (p.take (i + 1)).sum →
        out[k]? = (conv l)[i]? := by
  have hne : l ≠ [] := by
    rintro rfl
    have : p = [] := List.length_eq_zero_iff.1 hlen
    rw [this] at hs
    simp at hs
  have hacc : Accepted List.sum atol l.length (used id l.length (some p)) :=
    ⟨hlen, hp, by simpa [used, hs] using hat⟩
  have hex : ∃ x ∈ p, x ≠ 0 := by
    by_contra hno
    push Not at hno
    rw [List.sum_eq_zero hno] at hs
    exact zero_ne_one hs
  have hf : Rounds (id : K → K) := ⟨fun _ _ h => h, fun _ => rfl, rfl, rfl⟩
  have hl : ∀ k, searchRight (cdf id p) (us k) < (conv l).length := fun k => by
    obtain ⟨hi, -⟩ := found hf p hp (fun _ _ => rfl) hex (us k) (hus k).1 (hus k).2
    rw [hconv, ← hlen]
    exact hi
  refine ⟨(List.range size.prod).map fun k => (conv l)[searchRight (cdf id p) (us k)]'(hl k), ?_, by simp,
    fun k i hk hi h1 h2 => ?_⟩
  · rw [choice_eq id List.sum atol conv l size (some p) us hne hacc,
      mapM_ok _ (fun k => (conv l)[searchRight (cdf id p) (us k)]'(hl k)) _ fun k _ => by
        rw [show used id l.length (some p) = p from rfl, List.getElem?_eq_getElem (hl k)]]
    rfl
  · have := found_exact p hp (by rw [hs]; exact one_pos) (us k) i (by omega) (by rwa [hs, mul_one])
      (by rwa [hs, mul_one])
    rw [List.getElem?_map, List.getElem?_range hk, Option.map_some, ← List.getElem?_eq_getElem (hl k), this]

/-- C128: such an item exists for each random number, and only one. -/
theorem C128_one (p : List K) (hp : ∀ x ∈ p, 0 ≤ x) (hs : p.sum = 1) (u : K) (h0 : 0 ≤ u) (h1 : u < 1) :
    ∃! i, i < p.length ∧ (p.take i).sum ≤ u ∧ u < (p.take (i + 1)).sum := by
  have hex : ∃ n, u < (p.take (n + 1)).sum := ⟨p.length, by
    rw [List.take_of_length_le (by omega), hs]
    exact h1⟩
  classical
  have hspec := Nat.find_spec hex
  refine ⟨Nat.find hex, ⟨?_, ?_, hspec⟩, fun j ⟨_, h2, h3⟩ => ?_⟩
  · by_contra hge
    have h4 := not_lt.1 hge
    cases hn : Nat.find hex with
    | zero =>
      rw [hn] at hspec h4
      rw [List.length_eq_zero_iff.1 (by omega : p.length = 0)] at hs
      simp at hs
    | succ m =>
      have := Nat.find_min hex (m := m) (by omega)
      rw [hn, List.take_of_length_le (by omega)] at hspec
      rw [List.take_of_length_le (by omega)] at this
      exact this hspec
  · cases hn : Nat.find hex with
    | zero => simpa using h0
    | succ m => exact not_lt.1 (Nat.find_min hex (m := m) (by omega))
  · rcases lt_trichotomy j (Nat.find hex) with h | h | h
    · exact absurd h3 (Nat.find_min hex h)
    · exact h
    · exact absurd (hspec.trans_le (sum_take_mono p hp (by omega : Nat.find hex + 1 ≤ j))) (not_lt.2 h2)

/-- C128: without probabilities, all items have the same chance: entry `i` is chosen for numbers between `i / n` and `(i + 1) / n`. -/
theorem C128_uniform (conv : List V → List V) (l : List V) (hconv : (conv l).length = l.length) (hne : l ≠ []) (atol : K)
    (hat : 0 ≤ atol) (size : List ℕ) (us : ℕ → K) (hus : ∀ k, 0 ≤ us k ∧ us k < 1) :
    ∃ out, choice id List.sum atol conv (.flat l) size none us = .ok (size, out) ∧ out.length = size.prod ∧
      ∀ k i : ℕ, k < size.prod → i < l.length → (i : K) ≤ us k * l.length → us k * l.length < i + 1 →
        out[k]? = (conv l)[i]? := by
  have hpos : (0 : K) < l.length := by exact_mod_cast List.length_pos_iff.2 hne
  have hsum : ∀ m : ℕ, (List.replicate m (1 / (l.length : K))).sum = m / l.length := fun m => by
    rw [List.sum_replicate, nsmul_eq_mul, mul_one_div]
  have hs : (List.replicate l.length (1 / (l.length : K))).sum = 1 := by
    rw [hsum, div_self hpos.ne']
  obtain ⟨out, e, ho, hall⟩ := C128_chances conv l hconv atol hat (List.replicate l.length (1 / (l.length : K))) (by simp)
    (fun x hx => by
      rw [List.eq_of_mem_replicate hx]
      positivity) hs size us hus
  refine ⟨out, ?_, ho, fun k i hk hi h1 h2 => hall k i hk hi ?_ ?_⟩
  · rw [← e]
    unfold choice
    have : weights (id : K → K) (Choices.flat l).len none =
        weights id (Choices.flat l).len (some (List.replicate l.length (1 / (l.length : K)))) :=
      if_neg fun h => hne (List.length_eq_zero_iff.1 h)
    rw [this]
  · rw [List.take_replicate, hsum, min_eq_left hi.le, div_le_iff₀ hpos]
    exact h1
  · rw [List.take_replicate, hsum, min_eq_left hi, lt_div_iff₀ hpos]
    push_cast
    exact h2

/-- C128: equal probabilities are accepted whatever the number of items, if the sum of the check has a small relative error, as sums with compensation have. -/
theorem C128_default (fl : K → K) (e d : K) (hd : 0 ≤ d) (hfl : ∀ x, |fl x - x| ≤ e * |x|) (ksum : List K → K)
    (hk : ∀ p : List K, (∀ x ∈ p, 0 ≤ x) → |ksum p - p.sum| ≤ d * p.sum) (he : e ≤ 1) (atol : K) (hat : e + d * (1 + e) ≤ atol)
    (n : ℕ) (hn : 0 < n) : Accepted ksum atol n (used fl n none) := by
  have hn' : (0 : K) < n := by exact_mod_cast hn
  have hb := hfl (1 / n)
  have hinv : (0 : K) < 1 / n := by positivity
  rw [abs_of_pos hinv, abs_le] at hb
  have h0 : 0 ≤ fl (1 / (n : K)) := by nlinarith
  have hnn : ∀ x ∈ used fl n none, 0 ≤ x := fun x hx => by
    rw [List.eq_of_mem_replicate hx]
    exact h0
  refine ⟨by simp [used], hnn, ?_⟩
  have hsum : (used fl n none).sum = n * fl (1 / (n : K)) := by
    simp [used]
  have h1 := hk _ hnn
  have h2 : |(used fl n none).sum - 1| ≤ e := by
    rw [hsum, abs_le]
    have hone : (n : K) * (1 / n) = 1 := by field_simp
    constructor <;> nlinarith
  rw [abs_le] at h1 h2 ⊢
  constructor <;> nlinarith

/-- C128: no items: an error of division if no probabilities are given. -/
theorem C128_empty (fl : K → K) (ksum : List K → K) (atol : K) (conv : List V → List V) (size : List ℕ) (us : ℕ → K) :
    choice fl ksum atol conv (.flat []) size none us = .error .zeroDiv := rfl

/-- C128: what is refused with an error of value. -/
theorem C128_refused (fl : K → K) (ksum : List K → K) (atol : K) (conv : List V → List V) (size : List ℕ) (us : ℕ → K) :
    (∀ n p, choice fl ksum atol conv (.nested n) size (some p) us = .error .value) ∧
    (∀ n, n ≠ 0 → choice fl ksum atol conv (.nested n) size none us = .error .value) ∧
    ∀ (l : List V) (p : List K), (p.length ≠ l.length ∨ (∃ x ∈ p, x < 0) ∨ atol < |ksum p - 1|) →
      choice fl ksum atol conv (.flat l) size (some p) us = .error .value := by
  refine ⟨fun _ _ => rfl, fun n hn => ?_, fun l p h => ?_⟩
  · unfold choice
    rw [show weights fl (Choices.nested (V := V) n).len none = .ok (List.replicate n (fl (1 / n))) from if_neg hn]
    rfl
  · unfold choice
    simp only [weights, bind, Except.bind]
    split_ifs with h1 h2 h3 h4
    · rfl
    · rfl
    · rfl
    · rfl
    · exfalso
      rcases h with h | ⟨x, hx, hx0⟩ | h
      · exact h2 h
      · exact h3 (List.any_eq_true.2 ⟨x, hx, by simpa using hx0⟩)
      · exact h4 h

end

/-- C128: items of one kind are not changed. -/
theorem C128_kind (l : List Item) (h : (∀ x ∈ l, ∃ z, x = .int z) ∨ ∀ x ∈ l, ∃ s, x = .text s) : npArray l = l := by
  unfold npArray
  rcases h with h | h
  · rw [if_neg]
    rw [List.any_eq_true]
    rintro ⟨x, hx, hb⟩
    obtain ⟨z, rfl⟩ := h x hx
    simp at hb
  · split_ifs with hb
    · conv_rhs => rw [← List.map_id l]
      refine List.map_congr_left fun x hx => ?_
      obtain ⟨s, rfl⟩ := h x hx
      rfl
    · rfl

/-- C128 does not hold for items of different kinds: a number next to a text is returned as a text, which is not among the choices. -/
theorem C128_mixed_violated : ∃ (l : List Item) (out : List Item) (us : ℕ → ℚ), (∀ k, 0 ≤ us k ∧ us k < 1) ∧
    choice (id : ℚ → ℚ) List.sum 0 npArray (.flat l) [1] none us = .ok ([1], out) ∧ ∃ x ∈ out, x ∉ l := by
  refine ⟨[.int 1, .text "a"], [.text "1"], fun _ => 0, fun _ => by norm_num, ?_, .text "1", by simp, by decide⟩
  obtain ⟨out, e, ho, hall⟩ := C128_uniform (K := ℚ) npArray [.int 1, .text "a"] rfl (by simp) 0 le_rfl [1] (fun _ => 0)
    fun _ => by norm_num
  rw [e]
  have h0 := hall 0 0 (by simp) (by simp) (by simp) (by simp)
  have : out = [.text "1"] := by
    match out, ho with
    | [x], _ =>
      have hx : some x = some (Item.text (toString (1 : ℤ))) := h0
      rw [Option.some.inj hx]
      rfl
  rw [this]

/-! ### Cases that meet the hypotheses -/

/-- Three items with chances 1/2, 0 and 1/2: the second one is not chosen. -/
example : (∀ x ∈ ([1 / 2, 0, 1 / 2] : List ℚ), 0 ≤ x) ∧ ([1 / 2, 0, 1 / 2] : List ℚ).sum = 1 ∧
    (([1 / 2, 0, 1 / 2] : List ℚ).take 2).sum ≤ (3 / 4 : ℚ) ∧ (3 / 4 : ℚ) < (([1 / 2, 0, 1 / 2] : List ℚ).take 3).sum := by
  norm_num

example : Rounds (id : ℚ → ℚ) := ⟨fun _ _ h => h, fun _ => rfl, rfl, rfl⟩

/-- A rounding that is not exact: downwards to multiples of 1/4. -/
example : Rounds fun x : ℚ => (⌊x * 4⌋ : ℚ) / 4 := by
  refine ⟨fun x y h => ?_, fun x => ?_, ?_, ?_⟩
  · have : ⌊x * 4⌋ ≤ ⌊y * 4⌋ := Int.floor_le_floor (by linarith)
    have : (⌊x * 4⌋ : ℚ) ≤ ⌊y * 4⌋ := by exact_mod_cast this
    linarith
  · simp
  · simp
  · norm_num

example : Accepted (K := ℚ) List.sum (1 / 10) 3 (used (fun x : ℚ => (⌊x * 4⌋ : ℚ) / 4) 3 (some [1 / 2, 0, 1 / 2])) := by
  refine ⟨rfl, ?_, ?_⟩
  · norm_num [used]
  · norm_num [used]


end Verif.Choice.Props
