import Verif.Model.MlsObj
import Verif.Props.Knn

/-!
# Lemmas on `Verif.Model.MlsObj`
-/

set_option linter.unusedSectionVars false

namespace Verif.MlsObj
open Verif Verif.Utils Verif.Tr Verif.Knn Verif.Knn.Props

section
variable {K : Type} [Field K] [LinearOrder K] [IsStrictOrderedRing K] [FloorRing K]

theorem groups_flatten {α : Type} (m : ℕ) (rows : List (List α)) (h : ∀ r ∈ rows, r.length = m) :
    groups rows.length m rows.flatten = rows := by
  induction rows with
  | nil => rfl
  | cons r rows ih =>
    have hr := h r List.mem_cons_self
    have ih := ih fun r' hr' => h r' (List.mem_cons_of_mem _ hr')
    unfold groups at ih ⊢
    rw [List.length_cons, List.range_succ_eq_map, List.map_cons, List.map_map]
    refine congrArg₂ _ ?_ ?_
    · simp [← hr]
    · conv_rhs => rw [← ih]
      refine List.map_congr_left fun i _ => ?_
      have : (i + 1) * m = r.length + i * m := by rw [hr]; ring
      simp only [Function.comp, Nat.succ_eq_add_one, this, List.flatten_cons, List.drop_append, Nat.add_sub_cancel_left]
      rw [List.drop_eq_nil_of_le (by omega), List.nil_append]

theorem length_flatten_eq {α : Type} (m : ℕ) (rows : List (List α)) (h : ∀ r ∈ rows, r.length = m) :
    rows.flatten.length = rows.length * m := by
  induction rows with
  | nil => simp
  | cons r rows ih =>
    rw [List.flatten_cons, List.length_append, ih fun r' hr' => h r' (List.mem_cons_of_mem _ hr'),
      h r List.mem_cons_self, List.length_cons]
    ring

theorem flatten_get {α : Type} (m : ℕ) (rows : List (List α)) (h : ∀ r ∈ rows, r.length = m) (i j : ℕ) (r : List α)
    (hr : rows[i]? = some r) (hj : j < m) : rows.flatten[i * m + j]? = r[j]? := by
  have hi := (List.getElem?_eq_some_iff.1 hr).1
  have h0 := groups_flatten m rows h
  have h1 : (groups rows.length m rows.flatten)[i]? = some ((rows.flatten.drop (i * m)).take m) := by
    unfold groups
    rw [List.getElem?_map, List.getElem?_range hi]
    rfl
  rw [h0, hr] at h1
  rw [Option.some.inj h1, List.getElem?_take_of_lt hj, List.getElem?_drop]

theorem singletons {α : Type} (rows : List (List α)) (h : ∀ r ∈ rows, r.length = 1) :
    rows.flatten.length = rows.length := by
  rw [length_flatten_eq 1 rows h, mul_one]

/-- Arrays with one or two axes of points become arrays with two axes. -/
theorem atleast_points (m : ℕ) (rows : List (List K)) (X : NdArray K) (h : ∀ r ∈ rows, r.length = m)
    (hX : X = ⟨[rows.length, m], rows.flatten⟩ ∨ m = 1 ∧ X = ⟨[rows.length], rows.flatten⟩) :
    atleastnd (.array X) 2 true true = .ok ⟨[rows.length, m], rows.flatten⟩ := by
  rcases hX with rfl | ⟨rfl, rfl⟩
  · simp [atleastnd, asArray]
  · simp [atleastnd, asArray, reshape, singletons rows h]

/-- `approximate` does not read what was recorded before. -/
theorem approximate_congr (libs : Libs) (q : Query (List K) K) (sched : List ℕ) (inner : ℕ → List ℕ)
    (junk : ℕ → ℕ → K) (A B : Mls K) (XT : ArrayLike K) (h1 : A.xs = B.xs) (h2 : A.ys = B.ys) (h3 : A.dt = B.dt)
    (h4 : A.backend = B.backend) (h5 : A.k = B.k) (h6 : A.maxDistance = B.maxDistance) :
    (A.approximate libs q sched inner junk XT).1 = (B.approximate libs q sched inner junk XT).1 := by
  unfold Mls.approximate
  rw [h1, h2, h3, h4, h5, h6]
  cases atleastnd (.array B.xs) 2 true true with
  | error e => rfl
  | ok X =>
    cases atleastnd XT 2 true true with
    | error e => rfl
    | ok T =>
      simp only
      cases search libs q X T (B.backend.getD "scipy") (numNeighbours B.k) B.maxDistance with
      | error e => rfl
      | ok N =>
        cases (if B.ys.shape.length = 1 then atleastnd (.array B.ys) 2 true true else .ok B.ys : Py (NdArray K)) <;> rfl

theorem approximate_keeps (libs : Libs) (q : Query (List K) K) (sched : List ℕ) (inner : ℕ → List ℕ)
    (junk : ℕ → ℕ → K) (A : Mls K) (XT : ArrayLike K) :
    let B := (A.approximate libs q sched inner junk XT).2
    B.xs = A.xs ∧ B.ys = A.ys ∧ B.dt = A.dt ∧ B.backend = A.backend ∧ B.k = A.k ∧ B.maxDistance = A.maxDistance := by
  unfold Mls.approximate
  cases atleastnd (.array A.xs) 2 true true with
  | error e => exact ⟨rfl, rfl, rfl, rfl, rfl, rfl⟩
  | ok X =>
    cases atleastnd XT 2 true true with
    | error e => exact ⟨rfl, rfl, rfl, rfl, rfl, rfl⟩
    | ok T =>
      simp only
      cases search libs q X T (A.backend.getD "scipy") (numNeighbours A.k) A.maxDistance with
      | error e => exact ⟨rfl, rfl, rfl, rfl, rfl, rfl⟩
      | ok N =>
        simp only
        cases (if A.ys.shape.length = 1 then atleastnd (.array A.ys) 2 true true else .ok A.ys : Py (NdArray K)) <;>
          exact ⟨rfl, rfl, rfl, rfl, rfl, rfl⟩

/-- A search in a usable library, for points with two axes and several neighbours. -/
theorem search_ok (libs : Libs) (q : Query (List K) K) (m : ℕ) (Xs Ts : List (List K)) (backend : String) (k : ℕ)
    (hX : ∀ r ∈ Xs, r.length = m) (hT : ∀ r ∈ Ts, r.length = m) (rows : List (List ℕ))
    (hb : backend = "scipy" ∨ backend = "sklearn" ∧ libs.hasSklearn = true)
    (h : kNearest libs q Xs (some Ts) backend k none = .ok (.rows rows)) :
    search libs q ⟨[Xs.length, m], Xs.flatten⟩ ⟨[Ts.length, m], Ts.flatten⟩ backend k none =
      .ok ⟨[Ts.length, k], rows.flatten⟩ := by
  unfold search
  rw [if_neg (by rintro ⟨h1, h2⟩; rcases hb with h | h <;> contradiction)]
  simp only [List.getLast?_cons_cons, List.getLast?_singleton, if_true, List.dropLast_cons_cons, List.dropLast_singleton,
    List.prod_cons, List.prod_nil, mul_one]
  rw [groups_flatten m Xs hX, groups_flatten m Ts hT, h]
  rfl

end
end Verif.MlsObj
