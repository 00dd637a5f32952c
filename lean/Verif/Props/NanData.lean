import Verif.Proofs.NanData
import Verif.Proofs.Utils
import Mathlib.Data.Rat.Floor
import Mathlib.Data.List.GetD
import Mathlib.Data.Fin.VecNotation
import Mathlib.Data.List.ProdSigma

/-!
# C115: a missing value (NaN) in the data stays visible

`none` is NaN (or a quotient by zero, which is not finite either), `some x` is the number `x`.
-/

set_option linter.unusedSectionVars false

namespace Verif.NanData.Props
open Verif Verif.Solve

variable {n m : ℕ} {K : Type} [Field K] [LinearOrder K]

/-- C115: a NaN in the matrix or in a right hand side is never lost.  If `linsolve` without prescribed values returns at all,
then the unknown of every equation with a NaN, in the matrix or in the right hand side, is not a number. -/
theorem C115_solve (me : Method) (tol : K) (A : Fin n → Fin n → Option K) (B : Fin n → Fin m → Option K)
    (pb : Option (Fin n → Bool)) {res : Result n m K} (h : linsolve me tol A B pb none = .ok res) :
    ∃ X, res = .solution X ∧ ∀ r j, (B r j = none ∨ ∃ c, A r c = none) → X r j = none := by
  unfold linsolve at h
  simp only at h
  cases he : eliminate me tol (fun _ => false) (fun _ => some 0) (fun i => (A i, B i)) with
  | error e => rw [he] at h; cases h
  | ok S =>
    rw [he] at h
    obtain rfl := Except.ok.inj h
    refine ⟨_, rfl, fun r j hr => ?_⟩
    obtain ⟨hi, ht⟩ := eliminate_inv he
    apply backsub_free rfl
    rcases ht r j hr with h1 | ⟨c, h1⟩
    · exact Or.inr (Or.inl h1)
    · rcases lt_trichotomy c r with hc | rfl | hc
      · exact Or.inr (Or.inl (hi r c c.2 (Or.inl hc) h1 j))
      · exact Or.inl h1
      · exact Or.inr (Or.inr ⟨c, hc, h1⟩)

/-- C115: the same with prescribed values: the unknown of the equation is not a number, or its reaction, if the unknown is
prescribed; an unknown that is prescribed has the prescribed value. -/
theorem C115_constrained (me : Method) (tol : K) (A : Fin n → Fin n → Option K) (B : Fin n → Fin m → Option K)
    (pb : Fin n → Bool) (pv : Fin n → Option K) {res : Result n m K}
    (h : linsolve me tol A B (some pb) (some pv) = .ok res) :
    ∃ X R, res = .constrained X R ∧ (∀ r j, pb r = true → X r j = pv r) ∧
      ∀ r j, (B r j = none ∨ ∃ c, A r c = none) →
        (pb r = false → X r j = none) ∧ (pb r = true → R r j = none) := by
  unfold linsolve at h
  simp only at h
  cases he : eliminate me tol pb pv (fun i => (A i, B i)) with
  | error e => rw [he] at h; cases h
  | ok S =>
    rw [he] at h
    obtain rfl := Except.ok.inj h
    refine ⟨_, _, rfl, fun r j hp => backsub_value hp j, fun r j hr => ?_⟩
    obtain ⟨hi, ht⟩ := eliminate_inv he
    rcases ht r j hr with h1 | ⟨c, h1⟩
    · exact ⟨fun hp => backsub_free hp (Or.inr (Or.inl h1)), fun hp => backsub_presc hp (Or.inl h1)⟩
    · rcases lt_trichotomy c r with hc | rfl | hc
      · have := hi r c c.2 (Or.inl hc) h1 j
        exact ⟨fun hp => backsub_free hp (Or.inr (Or.inl this)), fun hp => backsub_presc hp (Or.inl this)⟩
      · exact ⟨fun hp => backsub_free hp (Or.inl h1),
          fun hp => backsub_presc hp (Or.inl (hi c c c.2 (Or.inr ⟨rfl, hp⟩) h1 j))⟩
      · exact ⟨fun hp => backsub_free hp (Or.inr (Or.inr ⟨c, hc, h1⟩)),
          fun hp => backsub_presc hp (Or.inr ⟨c, hc, h1⟩)⟩

/-- C115: one prescribed value that is NaN spoils everything: no free unknown and no reaction is a number, even of equations in which
the unknown has the coefficient zero. -/
theorem C115_prescribed (me : Method) (tol : K) (A : Fin n → Fin n → Option K) (B : Fin n → Fin m → Option K)
    (pb : Fin n → Bool) (pv : Fin n → Option K) {i : Fin n} (hp : pb i = true) (hv : pv i = none)
    {res : Result n m K} (h : linsolve me tol A B (some pb) (some pv) = .ok res) :
    ∃ X R, res = .constrained X R ∧ ∀ r j,
      (pb r = false → X r j = none) ∧ (pb r = true → R r j = none) := by
  unfold linsolve at h
  simp only at h
  cases he : eliminate me tol pb pv (fun i => (A i, B i)) with
  | error e => rw [he] at h; cases h
  | ok S =>
    rw [he] at h
    obtain rfl := Except.ok.inj h
    refine ⟨_, _, rfl, fun r j => ?_⟩
    rcases lt_or_ge r i with hr | hr
    · exact backsub_above hp hv hr j
    · have := eliminate_lost he hp hv hr j
      exact ⟨fun hp => backsub_free hp (Or.inr (Or.inl this)), fun hp => backsub_presc hp (Or.inl this)⟩

/-- C115: right hand sides do not see each other: what is returned for one of them is what is returned if it is solved alone,
whatever the other ones are, NaN included. -/
theorem C115_columns (me : Method) (tol : K) (A : Fin n → Fin n → Option K) (B : Fin n → Fin m → Option K)
    (pb : Option (Fin n → Bool)) (pv : Option (Fin n → Option K)) (j : Fin m) :
    (linsolve me tol A B pb pv = .error .linalg ∧ linsolve me tol A (fun r (_ : Fin 1) => B r j) pb pv = .error .linalg) ∨
    (∃ X Y, linsolve me tol A B pb pv = .ok (.solution X) ∧
      linsolve me tol A (fun r (_ : Fin 1) => B r j) pb pv = .ok (.solution Y) ∧ ∀ r, X r j = Y r 0) ∨
    (∃ X R Y Q, linsolve me tol A B pb pv = .ok (.constrained X R) ∧
      linsolve me tol A (fun r (_ : Fin 1) => B r j) pb pv = .ok (.constrained Y Q) ∧
      ∀ r, X r j = Y r 0 ∧ R r j = Q r 0) := by
  have hsame : Same (K := K) j (0 : Fin 1) (fun i => (A i, B i)) (fun i => (A i, fun _ => B i j)) :=
    fun r => ⟨rfl, rfl⟩
  unfold linsolve
  cases pv with
  | none =>
    simp only
    rcases hsame.run me tol (fun _ => false) (fun _ => some 0) (List.finRange n) with
      ⟨e, h1, h2⟩ | ⟨S, T, h1, h2, h3⟩
    · unfold eliminate
      rw [h1, h2]
      exact Or.inl ⟨rfl, rfl⟩
    · unfold eliminate
      rw [h1, h2]
      exact Or.inr (Or.inl ⟨_, _, rfl, rfl, fun r => (h3.backsub _ _ r).1⟩)
  | some pv =>
    cases pb with
    | none => exact Or.inl ⟨rfl, rfl⟩
    | some pb =>
      simp only
      rcases hsame.run me tol pb pv (List.finRange n) with
        ⟨e, h1, h2⟩ | ⟨S, T, h1, h2, h3⟩
      · unfold eliminate
        rw [h1, h2]
        exact Or.inl ⟨rfl, rfl⟩
      · unfold eliminate
        rw [h1, h2]
        exact Or.inr (Or.inr ⟨_, _, _, _, rfl, rfl, fun r => h3.backsub _ _ r⟩)

/-- C115: without NaN nothing changes: `linsolve` is the function of C07. -/
theorem C115_numbers [IsStrictOrderedRing K] [FloorRing K] (me : Method) {tol : K} (ht : 0 < tol) (A : Fin n → Fin n → K)
    (B : Fin n → Fin m → K) (pb : Option (Fin n → Bool)) (pv : Option (Fin n → K)) :
    linsolve me tol (fun i c => some (A i c)) (fun i j => some (B i j)) pb (pv.map fun v i => some (v i)) =
      Solve.linsolve me tol .float A B pb pv := by
  have hl : (fun i => (fun c => some (A i c), fun j => some (B i j)) : Sys n m (Option K)) =
      lift (fun i => (A i, B i)) := rfl
  unfold linsolve Solve.linsolve
  simp only [hl]
  cases pv with
  | none =>
    simp only [Option.map_none]
    rw [lift_eliminate ht (fun _ => false) (fun _ => 0)]
    cases Solve.eliminate me tol .float (fun _ => false) (fun _ => 0) (fun i => (A i, B i)) with
    | error e => rfl
    | ok S =>
      simp only [Except.map]
      rw [lift_backsub S (fun _ => false) (fun _ => 0)]
  | some pv =>
    cases pb with
    | none => rfl
    | some pb =>
      simp only [Option.map_some]
      rw [lift_eliminate ht pb pv]
      cases Solve.eliminate me tol .float pb pv (fun i => (A i, B i)) with
      | error e => rfl
      | ok S =>
        simp only [Except.map]
        rw [lift_backsub S pb pv]

/-- C115: `clip1d` keeps a NaN and clips the numbers; a limit that is NaN is no limit. -/
theorem C115_clip (a : List (Option K)) (lo hi : Option K) :
    (clip1d a lo hi).length = a.length ∧ ∀ i (h : i < a.length) (h' : i < (clip1d a lo hi).length),
      (a[i] = none → (clip1d a lo hi)[i] = none) ∧
      ∀ v, a[i] = some v →
        (∀ l u, lo = some l → hi = some u → (clip1d a lo hi)[i] = some (min (max v l) u)) ∧
        (∀ u, lo = none → hi = some u → (clip1d a lo hi)[i] = some (min v u)) ∧
        (∀ l, lo = some l → hi = none → (clip1d a lo hi)[i] = some (max v l)) ∧
        (lo = none → hi = none → (clip1d a lo hi)[i] = some v) := by
  have hmax : ∀ v l : K, (if v < l then l else v) = max v l := by
    intro v l
    split_ifs with h
    · exact (max_eq_right h.le).symm
    · exact (max_eq_left (not_lt.mp h)).symm
  have hmin : ∀ v u : K, (if u < v then u else v) = min v u := by
    intro v u
    split_ifs with h
    · exact (min_eq_right h.le).symm
    · exact (min_eq_left (not_lt.mp h)).symm
  have hlo : ∀ v l : K, (if lt (some v) (some l) = true then some l else some v) = some (max v l) := by
    intro v l
    rw [← hmax]
    simp only [lt, decide_eq_true_eq]
    split_ifs <;> rfl
  have hhi : ∀ v u : K, (if lt (some u) (some v) = true then some u else some v) = some (min v u) := by
    intro v u
    rw [← hmin]
    simp only [lt, decide_eq_true_eq]
    split_ifs <;> rfl
  refine ⟨by simp [clip1d], fun i h h' => ?_⟩
  have hi' : (clip1d a lo hi)[i] =
      (fun x => if lt hi x then hi else x) (if lt a[i] lo then lo else a[i]) := by
    simp [clip1d]
  rw [hi']
  refine ⟨fun hn => ?_, fun v hv => ⟨?_, ?_, ?_, ?_⟩⟩
  · rw [hn]
    have h1 : ∀ y : Option K, lt none y = false := fun _ => rfl
    have h2 : ∀ y : Option K, lt y none = false := by intro y; cases y <;> rfl
    simp [h1, h2]
  · rintro l u rfl rfl
    rw [hv, hlo]
    exact hhi _ _
  · rintro u rfl rfl
    rw [hv]
    have h2 : lt (some v) none = false := rfl
    simp only [h2, Bool.false_eq_true, if_false]
    exact hhi _ _
  · rintro l rfl rfl
    rw [hv, hlo]
    have h2 : lt none (some (max v l)) = false := rfl
    simp [h2]
  · rintro rfl rfl
    rw [hv]
    have h2 : lt (some v) none = false := rfl
    have h3 : lt none (some v) = false := rfl
    simp [h2, h3]

/-- C115: `isclose` never calls a NaN close to anything, not even to itself, and refuses tolerances that are NaN.  For numbers it is
the test of both differences. -/
theorem C115_close (atol rtol : Option (Option K)) (x1 x2 : Option K) :
    ((∃ b, isclose atol rtol x1 x2 = .ok b) ↔
      (atol ≠ none ∨ rtol ≠ none) ∧ (∀ t, atol = some t → ∃ v, t = some v ∧ 0 < v) ∧
        ∀ t, rtol = some t → ∃ v, t = some v ∧ 0 < v) ∧
    (isclose atol rtol x1 x2 = .ok true →
      ∃ a b, x1 = some a ∧ x2 = some b ∧ (∀ t, atol = some (some t) → |a - b| ≤ t) ∧
        ∀ t, rtol = some (some t) → |a - b| ≤ |t * b|) ∧
    (∀ a b, x1 = some a → x2 = some b → (∀ t, atol = some (some t) → |a - b| ≤ t) →
      (∀ t, rtol = some (some t) → |a - b| ≤ |t * b|) → isclose atol rtol x1 x2 ≠ .ok false) ∧
    ∀ e, isclose atol rtol x1 x2 = .error e → e = .assertion := by
  have hpos : ∀ t : Option K, lt (some 0) t = true ↔ ∃ v, t = some v ∧ 0 < v := by
    intro t
    cases t with
    | none => simp [lt]
    | some v => simp [lt]
  have hguard : ∀ o : Option (Option K), (o.any fun t => !lt (some 0) t) = false ↔
      ∀ t, o = some t → ∃ v, t = some v ∧ 0 < v := by
    intro o
    cases o with
    | none => simp
    | some t =>
      simp only [Option.any_some, Bool.not_eq_false', hpos, Option.some.injEq, forall_eq']
  have hshape : isclose atol rtol x1 x2 =
      if (atol.isNone && rtol.isNone) = true then .error .assertion
      else if (atol.any fun t => !lt (some 0) t) = true then .error .assertion
      else if (rtol.any fun t => !lt (some 0) t) = true then .error .assertion
      else .ok ((atol.all fun t => le ((sub x1 x2).map abs) t) &&
        (rtol.all fun t => le ((sub x1 x2).map abs) ((mul t x2).map abs))) := rfl
  have hnone : (atol.isNone && rtol.isNone) = true ↔ ¬ (atol ≠ none ∨ rtol ≠ none) := by
    cases atol <;> cases rtol <;> simp
  refine ⟨?_, ?_, ?_, ?_⟩
  · rw [← hguard, ← hguard, hshape]
    by_cases h0 : (atol.isNone && rtol.isNone) = true
    · rw [if_pos h0]
      refine ⟨fun hb => (by obtain ⟨b, hb⟩ := hb; cases hb), fun h => absurd h.1 (hnone.mp h0)⟩
    · rw [if_neg h0]
      have h0' : atol ≠ none ∨ rtol ≠ none := by
        by_contra h; exact h0 (hnone.mpr h)
      by_cases h1 : (atol.any fun t => !lt (some 0) t) = true
      · rw [if_pos h1]
        refine ⟨fun hb => (by obtain ⟨b, hb⟩ := hb; cases hb), fun h => by rw [h1] at h; cases h.2.1⟩
      · rw [if_neg h1]
        rw [Bool.not_eq_true] at h1
        by_cases h2 : (rtol.any fun t => !lt (some 0) t) = true
        · rw [if_pos h2]
          refine ⟨fun hb => (by obtain ⟨b, hb⟩ := hb; cases hb), fun h => by rw [h2] at h; cases h.2.2⟩
        · rw [if_neg h2]
          rw [Bool.not_eq_true] at h2
          exact ⟨fun _ => ⟨h0', h1, h2⟩, fun _ => ⟨_, rfl⟩⟩
  · intro h
    rw [hshape] at h
    split_ifs at h with h0 h1 h2
    have hb := Except.ok.inj h
    rw [Bool.and_eq_true] at hb
    rw [Bool.not_eq_true] at h1 h2
    have c1 := (hguard atol).mp h1
    have c2 := (hguard rtol).mp h2
    cases x1 with
    | none =>
      exfalso
      have : ∀ y : Option K, le ((sub none x2).map abs) y = false := fun y => rfl
      simp only [this] at hb
      cases atol with
      | none =>
        cases rtol with
        | none => simp at h0
        | some t => simp at hb
      | some t => simp at hb
    | some a =>
      cases x2 with
      | none =>
        exfalso
        have : ∀ y : Option K, le ((sub (some a) none).map abs) y = false := fun y => rfl
        simp only [this] at hb
        cases atol with
        | none =>
          cases rtol with
          | none => simp at h0
          | some t => simp at hb
        | some t => simp at hb
      | some b =>
        refine ⟨a, b, rfl, rfl, ?_, ?_⟩
        · rintro t rfl
          have := hb.1
          simpa [sub, le] using this
        · rintro t rfl
          have := hb.2
          simpa [sub, mul, le] using this
  · rintro a b rfl rfl ha hr h
    rw [hshape] at h
    split_ifs at h with h0 h1 h2
    have hb := Except.ok.inj h
    rw [Bool.not_eq_true] at h1 h2
    have c1 := (hguard atol).mp h1
    have c2 := (hguard rtol).mp h2
    rw [Bool.and_eq_false_iff] at hb
    rcases hb with hb | hb
    · cases atol with
      | none => simp at hb
      | some t =>
        obtain ⟨v, rfl, -⟩ := c1 t rfl
        have := ha v rfl
        simp [sub, le] at hb
        exact absurd this (not_le.mpr hb)
    · cases rtol with
      | none => simp at hb
      | some t =>
        obtain ⟨v, rfl, -⟩ := c2 t rfl
        have := hr v rfl
        simp only [Option.all_some, sub, mul, le, Option.map₂_some_some, Option.map_some,
          decide_eq_false_iff_not] at hb
        exact hb this
  · intro e h
    rw [hshape] at h
    split_ifs at h <;> exact (Except.error.inj h).symm

/-- C115: `indices_of_equal_rows` never reports a row with a NaN, not even as equal to itself; rows of numbers are reported if and
only if the sum of the differences is within the tolerance. -/
theorem C115_rows (x y : List (List (Option K))) (tol : K) {w : ℕ} (hx : ∀ r ∈ x, r.length = w)
    (hy : ∀ r ∈ y, r.length = w) (i k : ℕ) :
    ((i, k) ∈ equalRows x y tol → ∃ (hi : i < x.length) (hk : k < y.length), none ∉ x[i] ∧ none ∉ y[k]) ∧
    ∀ (hi : i < x.length) (hk : k < y.length) (u v : List K), x[i] = u.map some → y[k] = v.map some →
      ((i, k) ∈ equalRows x y tol ↔ (List.zipWith (fun a b => |a - b|) u v).sum ≤ tol) := by
  have hmem : (i, k) ∈ equalRows x y tol ↔ (i < x.length ∧ k < y.length) ∧
      le (rowDist (x.getD i []) (y.getD k [])) (some tol) = true := by
    simp [equalRows, List.mem_filter, List.pair_mem_product]
  rw [hmem]
  refine ⟨?_, ?_⟩
  · rintro ⟨⟨hi, hk⟩, hle⟩
    refine ⟨hi, hk, ?_⟩
    rw [List.getD_eq_getElem _ _ hi, List.getD_eq_getElem _ _ hk] at hle
    have hlen : (x[i]).length = (y[k]).length := by
      rw [hx _ (List.getElem_mem hi), hy _ (List.getElem_mem hk)]
    have hnn : rowDist x[i] y[k] ≠ none := by
      intro h; rw [h] at hle; cases hle
    unfold rowDist at hnn
    rw [ne_eq, foldl_add_none] at hnn
    have hno : none ∉ List.zipWith (fun a b => (sub a b).map abs) x[i] y[k] := fun h => hnn (Or.inr h)
    constructor
    · intro h
      obtain ⟨p, hp, he⟩ := List.getElem_of_mem h
      apply hno
      have hz : p < (List.zipWith (fun a b => (sub a b).map abs) x[i] y[k]).length := by
        rw [List.length_zipWith, ← hlen, min_self]; exact hp
      have : (List.zipWith (fun a b => (sub a b).map abs) x[i] y[k])[p] = none := by
        rw [List.getElem_zipWith, he]; rfl
      rw [← this]
      exact List.getElem_mem hz
    · intro h
      obtain ⟨p, hp, he⟩ := List.getElem_of_mem h
      apply hno
      have hz : p < (List.zipWith (fun a b => (sub a b).map abs) x[i] y[k]).length := by
        rw [List.length_zipWith, hlen, min_self]; exact hp
      have : (List.zipWith (fun a b => (sub a b).map abs) x[i] y[k])[p] = none := by
        rw [List.getElem_zipWith, he, sub_none_right]; rfl
      rw [← this]
      exact List.getElem_mem hz
  · intro hi hk u v hu hv
    rw [List.getD_eq_getElem _ _ hi, List.getD_eq_getElem _ _ hk, hu, hv]
    have : rowDist (u.map some) (v.map some) = some ((List.zipWith (fun a b => |a - b|) u v).sum) := by
      unfold rowDist
      have hz : List.zipWith (fun a b => (sub a b).map abs) (u.map some) (v.map some) =
          (List.zipWith (fun a b => |a - b|) u v).map some := by
        rw [List.zipWith_map, List.map_zipWith]
        rfl
      rw [hz, foldl_add_some, zero_add]
    rw [this]
    simp [le, hi, hk]

/-- C115: the approximation at a target is a number if and only if the data of every neighbour and every factor is a number, even
those with the factor zero; then it is their sum. -/
theorem C115_average {d : ℕ} (values : ℕ → Fin d → Option K) (nb : List ℕ) (factors : List (Option K))
    (hlen : nb.length = factors.length) (j : Fin d) :
    (average values nb factors j = none ↔ (∃ s ∈ nb, values s j = none) ∨ none ∈ factors) ∧
    ∀ (v : ℕ → K) (f : List K), (∀ s ∈ nb, values s j = some (v s)) → factors = f.map some →
      average values nb factors j = some ((List.zipWith (fun s x => v s * x) nb f).sum) := by
  have hfold : average values nb factors j =
      ((List.zip nb factors).map fun p => mul (values p.1 j) p.2).foldl add (some 0) := by
    unfold average
    rw [List.foldl_map]
  rw [hfold]
  refine ⟨?_, ?_⟩
  · rw [foldl_add_none]
    constructor
    · rintro (h | h)
      · cases h
      · rw [List.mem_map] at h
        obtain ⟨p, hp, h⟩ := h
        obtain ⟨h1, h2⟩ := List.of_mem_zip hp
        rcases mul_eq_none.mp h with h | h
        · exact Or.inl ⟨p.1, h1, h⟩
        · exact Or.inr (h ▸ h2)
    · intro h
      right
      rw [List.mem_map]
      rcases h with ⟨s, hs, h⟩ | h
      · obtain ⟨q, hq, rfl⟩ := List.getElem_of_mem hs
        have hq' : q < (List.zip nb factors).length := by
          rw [List.length_zip, ← hlen, min_self]; exact hq
        refine ⟨(List.zip nb factors)[q], List.getElem_mem hq', ?_⟩
        rw [List.getElem_zip]
        simp only [h]
        rfl
      · obtain ⟨q, hq, he⟩ := List.getElem_of_mem h
        have hq' : q < (List.zip nb factors).length := by
          rw [List.length_zip, hlen, min_self]; exact hq
        refine ⟨(List.zip nb factors)[q], List.getElem_mem hq', ?_⟩
        rw [List.getElem_zip]
        simp only [he]
        exact mul_none_right _
  · rintro v f hv rfl
    have hz : ((List.zip nb (f.map some)).map fun p => mul (values p.1 j) p.2) =
        (List.zipWith (fun s x => v s * x) nb f).map some := by
      clear hlen hfold
      induction nb generalizing f with
      | nil => rfl
      | cons s nb ih =>
        cases f with
        | nil => rfl
        | cons x f =>
          simp only [List.map_cons, List.zip_cons_cons, List.zipWith_cons_cons]
          rw [hv s (by simp), ih f (fun s hs => hv s (List.mem_cons_of_mem _ hs))]
          rfl
    rw [hz, foldl_add_some, zero_add]

/-! ### Concrete cases -/

/-- `[[2, NaN, 0], [1, 3, 0], [0, 0, 4]]`, two right hand sides, the second with a NaN -/
def exA : Fin 3 → Fin 3 → Option ℚ := ![![some 2, none, some 0], ![some 1, some 3, some 0], ![some 0, some 0, some 4]]
def exB : Fin 3 → Fin 2 → Option ℚ := ![![some 1, some 2], ![some 3, some 4], ![some 8, none]]
/-- the same matrix with a number instead of the NaN -/
def exC : Fin 3 → Fin 3 → Option ℚ := ![![some 2, some 1, some 0], ![some 1, some 3, some 0], ![some 0, some 0, some 4]]

def okSolution (X : Fin 3 → Fin 2 → Option ℚ) : Py (Result 3 2 ℚ) → Bool
  | .ok (.solution Y) => decide (∀ i j, X i j = Y i j)
  | _ => false
def okConstrained (X R : Fin 3 → Fin 2 → Option ℚ) : Py (Result 3 2 ℚ) → Bool
  | .ok (.constrained Y Q) => decide (∀ i j, X i j = Y i j ∧ R i j = Q i j)
  | _ => false

-- the third equation is not coupled to the others, but `0 / NaN` and `0 * NaN` are NaN
example : okSolution ![![none, none], ![none, none], ![none, none]]
    (linsolve .gaussJordan (1 / 1000) exA exB none none) = true := by decide +kernel
example : okSolution ![![some 0, none], ![some 1, none], ![some 2, none]]
    (linsolve .jordan (1 / 1000) exC exB none none) = true := by decide +kernel
-- a prescribed value that is NaN: everything else is NaN, too
example : okConstrained ![![none, none], ![none, none], ![none, none]] ![![some 0, some 0], ![some 0, some 0], ![none, none]]
    (linsolve .jordan (1 / 1000) exC exB (some ![false, false, true]) (some ![some 0, some 0, none])) = true := by
  decide +kernel
example : ∃ res, linsolve .jordan (1 / 1000) exC exB (some ![false, false, true]) (some ![some 0, some 0, some 5]) =
    .ok res := by
  cases h : linsolve .jordan (1 / 1000) exC exB (some ![false, false, true]) (some ![some 0, some 0, some 5]) with
  | ok r => exact ⟨r, rfl⟩
  | error e =>
    have : (match linsolve .jordan (1 / 1000) exC exB (some ![false, false, true]) (some ![some 0, some 0, some 5]) with
      | .ok _ => true | .error _ => false) = true := by decide +kernel
    rw [h] at this
    cases this
example : clip1d [some (9 / 10), none, some (5 / 2)] (some (1 : ℚ)) (some (3 / 2)) = [some 1, none, some (3 / 2)] := by
  decide +kernel
example : clip1d [some (9 / 10), none, some (5 / 2)] none (some (3 / 2 : ℚ)) = [some (9 / 10), none, some (3 / 2)] := by
  decide +kernel
example : isclose (some (some (1 / 100))) none none (none : Option ℚ) = .ok false := by decide +kernel
example : isclose (some none) none (some 1) (some (1 : ℚ)) = .error .assertion := by decide +kernel
example : equalRows [[some 1, some 2], [none, some 2], [some 3, some 4]] [[some 1, some 2], [none, some (2 : ℚ)]] (1 / 100) =
    [(0, 0)] := by decide +kernel
example : average (fun s (_ : Fin 1) => [some (1 : ℚ), none, some 3].getD s none) [0, 2] [some (1 / 2), some (1 / 2)] 0 =
    some 2 := by decide +kernel
example : average (fun s (_ : Fin 1) => [some (1 : ℚ), none, some 3].getD s none) [0, 1] [some 1, some 0] 0 = none := by
  decide +kernel

end Verif.NanData.Props
