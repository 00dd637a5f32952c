import Verif.Model.SolveApi
import Verif.Props.Solve

/-!
# C88: the front end of the linear solver

`tol` is the constant 1e-12 of the source.
-/

set_option linter.unusedSectionVars false

namespace Verif.SolveApi.Props

open Verif.Solve Verif.SolveApi

section
variable {n : ℕ} {K : Type} [Field K] [LinearOrder K] [IsStrictOrderedRing K] [FloorRing K]

/-- Column `j` of an array; a one dimensional array has the column 0. -/
def col {α : Type} (B : Rhs n α) (j : ℕ) : Option (Fin n → α) :=
  match B with
  | .one b => if j = 0 then some b else none
  | .two m B => if h : j < m then some fun i => B i ⟨j, h⟩ else none

/-- `x` solves the equation `i` of the system. -/
def Fulfils (A : Fin n → Fin n → K) (b : Fin n → K) (x : Fin n → K) (i : Fin n) : Prop :=
  ∑ c, A i c * x c = b i

/-! ### Lemmas -/

theorem step_defect_before {m : ℕ} (me : Method) (tol : K) (pb : Fin n → Bool) (pv : Fin n → K)
    (S S' : Sys n m K) (i : Fin n) (h : step me tol .float pb pv S i = .ok S') (x : Fin n → K)
    (hx : ∀ i, pb i = true → x i = pv i) (j : Fin m)
    (hd : ∀ r, pb r = false → defect S x j r = 0) (r : Fin n) :
    defect S x j r = defect S' x j r := by
  cases hpb : pb i with
  | true =>
    rw [step_presc me tol .float pb pv S i hpb] at h
    simp only [Except.ok.injEq] at h
    rw [← h, defect_prescRow _ _ _ _ (hx i hpb)]
  | false =>
    rcases step_factors me tol .float pb pv S S' i hpb h with ⟨-, -, h⟩ | ⟨-, h1, h2⟩
    · rw [h]
    · have hi : defect S x j i = 0 := hd i hpb
      by_cases hr : Touched tol i ((S i).1 i) S r ∧ (me = .jordan ∨ i < r)
      · rw [defect_subRow _ S S' i r (h1 r hr) x j, hi]; simp
      · unfold defect; rw [h2 r hr]

/-- Whether or not it raises, the elimination leaves the defects of solutions alone. -/
theorem eliminateIn_defect {m : ℕ} (me : Method) (tol : K) (pb : Fin n → Bool) (pv : Fin n → K)
    (x : Fin n → K) (hx : ∀ i, pb i = true → x i = pv i) (j : Fin m) (l : List (Fin n))
    (S : Sys n m K) :
    ((∀ r, pb r = false → defect S x j r = 0) →
      ∀ r, defect S x j r = defect (eliminateIn me tol pb pv l S).1 x j r) ∧
    ((∀ r, pb r = false → defect (eliminateIn me tol pb pv l S).1 x j r = 0) →
      ∀ r, defect S x j r = defect (eliminateIn me tol pb pv l S).1 x j r) := by
  induction l generalizing S with
  | nil => exact ⟨fun _ _ => rfl, fun _ _ => rfl⟩
  | cons i is ih =>
    unfold eliminateIn
    cases hs : step me tol .float pb pv S i with
    | error e => exact ⟨fun _ _ => rfl, fun _ _ => rfl⟩
    | ok S' =>
      simp only
      obtain ⟨i1, i2⟩ := ih S'
      constructor
      · intro hd r
        have h1 := step_defect_before me tol pb pv S S' i hs x hx j hd
        rw [h1 r]
        exact i1 (fun r hr => by rw [← h1 r]; exact hd r hr) r
      · intro hd r
        have h2 := i2 hd
        have h1 := step_defect me tol pb pv S S' i hs x hx j
          (fun r hr => by rw [h2 r]; exact hd r hr)
        rw [h1 r, h2 r]

theorem eliminateIn_foldlM {m : ℕ} (me : Method) (tol : K) (pb : Fin n → Bool) (pv : Fin n → K)
    (l : List (Fin n)) (S : Sys n m K) :
    l.foldlM (step me tol .float pb pv) S =
      match (eliminateIn me tol pb pv l S).2 with
      | none => .ok (eliminateIn me tol pb pv l S).1
      | some e => .error e := by
  induction l generalizing S with
  | nil => rfl
  | cons i is ih =>
    rw [List.foldlM_cons]
    unfold eliminateIn
    cases hs : step me tol .float pb pv S i with
    | error e => rfl
    | ok S' => exact ih S'

theorem eliminateIn_ok {m : ℕ} (me : Method) (tol : K) (pb : Fin n → Bool) (pv : Fin n → K)
    (S : Sys n m K) (h : (eliminateIn me tol pb pv (List.finRange n) S).2 = none) :
    eliminate me tol .float pb pv S =
      .ok (eliminateIn me tol pb pv (List.finRange n) S).1 := by
  unfold eliminate
  rw [eliminateIn_foldlM, h]

/-- A column of `B` is a column of the view, and of what is written into the view. -/
theorem col_entry (B : Rhs n K) (j : ℕ) (b : Fin n → K) (h : col B j = some b) :
    ∃ j' : Fin B.cols, (∀ i, B.entry i j' = b i) ∧
      ∀ f, col (B.write f) j = some fun i => f i j' := by
  cases B with
  | one b' =>
    unfold col at h
    simp only at h
    split at h
    · rename_i hj
      cases h
      subst hj
      exact ⟨(⟨0, Nat.zero_lt_one⟩ : Fin 1), fun i => rfl, fun f => rfl⟩
    · cases h
  | two m B' =>
    unfold col at h
    simp only at h
    split at h
    · rename_i hj
      cases h
      refine ⟨(⟨j, hj⟩ : Fin m), fun i => rfl, fun f => ?_⟩
      unfold col Rhs.write
      simp only
      rw [dif_pos hj]
    · cases h

theorem col_none (B : Rhs n K) (j : ℕ) (h : col B j = none) (f : Fin n → Fin B.cols → K) :
    col (B.write f) j = none := by
  cases B with
  | one b' =>
    unfold col at h
    unfold Rhs.write col
    simp only at h ⊢
    split at h
    · cases h
    · rename_i hj; rw [if_neg hj]
  | two m B' =>
    unfold col at h
    unfold Rhs.write col
    simp only at h ⊢
    split at h
    · cases h
    · rename_i hj; rw [dif_neg hj]

theorem defect_zero {m : ℕ} (S : Sys n m K) (x : Fin n → K) (j : Fin m) (i : Fin n) :
    defect S x j i = 0 ↔ ∑ c, (S i).1 c * x c = (S i).2 j := by
  unfold defect
  rw [sub_eq_zero]

theorem equivalent (me : Method) (tol : K) (A : Fin n → Fin n → K) (B : Rhs n K)
    (pb : Fin n → Bool) (pv : Fin n → K) (l : List (Fin n)) (j : ℕ) (b b' : Fin n → K)
    (hb : col B j = some b)
    (hb' : col (B.write fun i => ((eliminateIn me tol pb pv l (start A B)).1 i).2) j = some b')
    (x : Fin n → K) (hx : ∀ i, pb i = true → x i = pv i) :
    ((∀ i, pb i = false →
        Fulfils (fun i => ((eliminateIn me tol pb pv l (start A B)).1 i).1) b' x i) ↔
      ∀ i, pb i = false → Fulfils A b x i) ∧
    ((∀ i, pb i = false → Fulfils A b x i) → ∀ i,
      ∑ c, A i c * x c - b i =
        ∑ c, ((eliminateIn me tol pb pv l (start A B)).1 i).1 c * x c - b' i) := by
  obtain ⟨j', h1, h2⟩ := col_entry B j b hb
  rw [h2] at hb'
  simp only [Option.some.injEq] at hb'
  obtain ⟨e1, e2⟩ := eliminateIn_defect me tol pb pv x hx j' l (start A B)
  have hA : ∀ i, defect (start A B) x j' i = ∑ c, A i c * x c - b i := by
    intro i
    unfold defect start
    simp only
    rw [h1]
  have hA' : ∀ i, defect (eliminateIn me tol pb pv l (start A B)).1 x j' i =
      ∑ c, ((eliminateIn me tol pb pv l (start A B)).1 i).1 c * x c - b' i := by
    intro i
    rw [← hb']
    rfl
  unfold Fulfils
  constructor
  · constructor
    · intro h i hi
      have := e2 (fun r hr => by rw [hA']; exact sub_eq_zero.2 (h r hr)) i
      rw [hA, hA'] at this
      exact sub_eq_zero.1 (this.trans (sub_eq_zero.2 (h i hi)))
    · intro h i hi
      have := e1 (fun r hr => by rw [hA]; exact sub_eq_zero.2 (h r hr)) i
      rw [hA, hA'] at this
      exact sub_eq_zero.1 (this.symm.trans (sub_eq_zero.2 (h i hi)))
  · intro h i
    have := e1 (fun r hr => by rw [hA]; exact sub_eq_zero.2 (h r hr)) i
    rwa [hA, hA'] at this

/-- The two eliminations. -/
def named : MethodName → Option Method
  | .jordan => some .jordan
  | .gaussJordan => some .gaussJordan
  | _ => none

theorem reduce_eq (tol : K) (method : MethodName) (A : Fin n → Fin n → K) (B : Rhs n K)
    (pb : Option (Fin n → Bool)) (pv : Option (Fin n → K)) (inplace : Bool) (me : Method)
    (hme : named method = some me) :
    reduce tol method A B pb pv inplace =
      runElimination me tol A B (reducePresc pb pv) inplace fun _ _ => reduceOut B := by
  cases method <;> cases hme <;> rfl

theorem linsolve_eq (tol : K) (method : MethodName) (A : Fin n → Fin n → K) (B : Rhs n K)
    (pb : Option (Fin n → Bool)) (pv : Option (Fin n → K)) (inplace : Bool) (me : Method)
    (hme : named method = some me) :
    linsolve tol method A B pb pv inplace =
      runElimination me tol A B (linsolvePresc pb pv) inplace (linsolveOut pv.isSome) := by
  cases method <;> cases hme <;> rfl

theorem reduce_ok {tol : K} {method : MethodName} {A A' : Fin n → Fin n → K} {B B' : Rhs n K}
    {pb : Option (Fin n → Bool)} {pv : Option (Fin n → K)} {inplace : Bool}
    (h : (reduce tol method A B pb pv inplace).result = .ok (A', B')) :
    ∃ me qb qv, named method = some me ∧ reducePresc pb pv = .given qb qv ∧
      (eliminateIn me tol qb qv (List.finRange n) (start A B)).2 = none ∧
      A' = (fun i => ((eliminateIn me tol qb qv (List.finRange n) (start A B)).1 i).1) ∧
      B' = B.write fun i => ((eliminateIn me tol qb qv (List.finRange n) (start A B)).1 i).2 := by
  cases hme : named method with
  | none => cases method <;> cases hme <;> cases h
  | some me =>
    rw [reduce_eq tol method A B pb pv inplace me hme] at h
    unfold runElimination at h
    cases hp : reducePresc pb pv with
    | illTyped => rw [hp] at h; cases h
    | given qb qv =>
      rw [hp] at h
      simp only at h
      cases hr : (eliminateIn me tol qb qv (List.finRange n) (start A B)).2 with
      | some e => rw [hr] at h; cases h
      | none =>
        rw [hr] at h
        simp only [Except.ok.injEq] at h
        unfold reduceOut at h
        simp only [Prod.mk.injEq] at h
        exact ⟨me, qb, qv, rfl, rfl, hr, h.1.symm, h.2.symm⟩

/-! ## The theorems -/

/-- C88: `reduce` without prescribed values returns an equivalent system: it has the same solutions,
for every right hand side, even if small entries were skipped. -/
theorem C88_equivalent (tol : K) (method : MethodName) (A A' : Fin n → Fin n → K) (B B' : Rhs n K)
    (inplace : Bool) (h : (reduce tol method A B none none inplace).result = .ok (A', B')) (j : ℕ)
    (b b' : Fin n → K) (hb : col B j = some b) (hb' : col B' j = some b') (x : Fin n → K) :
    (∀ i, Fulfils A' b' x i) ↔ ∀ i, Fulfils A b x i := by
  obtain ⟨me, qb, qv, -, hp, -, rfl, rfl⟩ := reduce_ok h
  cases hp
  have := (equivalent me tol A B _ _ _ j b b' hb hb' x (fun _ h => by cases h)).1
  simpa using this

/-- C88: with prescribed values, a point that has them fulfils the other equations of the reduced
system exactly if it fulfils those of the given one, and then the residuals of all equations are the
same. -/
theorem C88_prescribed (tol : K) (method : MethodName) (A A' : Fin n → Fin n → K) (B B' : Rhs n K)
    (pb : Fin n → Bool) (pv : Fin n → K) (inplace : Bool)
    (h : (reduce tol method A B (some pb) (some pv) inplace).result = .ok (A', B')) (j : ℕ)
    (b b' : Fin n → K) (hb : col B j = some b) (hb' : col B' j = some b') (x : Fin n → K)
    (hx : ∀ i, pb i = true → x i = pv i) :
    ((∀ i, pb i = false → Fulfils A' b' x i) ↔ ∀ i, pb i = false → Fulfils A b x i) ∧
    ((∀ i, pb i = false → Fulfils A b x i) → ∀ i,
      ∑ c, A i c * x c - b i = ∑ c, A' i c * x c - b' i) := by
  obtain ⟨me, qb, qv, -, hp, -, rfl, rfl⟩ := reduce_ok h
  cases hp
  exact equivalent me tol A B _ _ _ j b b' hb hb' x hx

/-- C88: the shape of the right hand side is kept by `reduce`. -/
theorem C88_reduce_shape (tol : K) (method : MethodName) (A A' : Fin n → Fin n → K)
    (B B' : Rhs n K) (pb : Option (Fin n → Bool)) (pv : Option (Fin n → K)) (inplace : Bool)
    (h : (reduce tol method A B pb pv inplace).result = .ok (A', B')) :
    (∀ b, B = .one b → ∃ b', B' = .one b') ∧ (∀ m M, B = .two m M → ∃ M', B' = .two m M') ∧
      ∀ j, (col B' j).isSome = (col B j).isSome := by
  obtain ⟨me, qb, qv, -, hp, -, rfl, rfl⟩ := reduce_ok h
  refine ⟨?_, ?_, fun j => ?_⟩
  · rintro b rfl
    exact ⟨_, rfl⟩
  · rintro m M rfl
    exact ⟨_, rfl⟩
  · cases hc : col B j with
    | none => rw [col_none B j hc]
    | some b =>
      obtain ⟨j', -, h2⟩ := col_entry B j b hc
      rw [h2]
      rfl

/-- C88, partial: if no entry that is not zero is skipped below a pivot, Gauss-Jordan returns an upper
triangular matrix.  Missing: skipped entries stay where they are. -/
theorem C88_triangular_partial (tol : K) (ht : 0 < tol) (A A' : Fin n → Fin n → K) (B B' : Rhs n K)
    (inplace : Bool)
    (hcl : Clean .gaussJordan tol (fun _ => false) (fun _ => 0) (start A B))
    (h : (reduce tol .gaussJordan A B none none inplace).result = .ok (A', B')) (r c : Fin n)
    (hrc : c < r) : A' r c = 0 := by
  obtain ⟨me, qb, qv, hme, hp, hr, rfl, rfl⟩ := reduce_ok h
  cases hp
  cases hme
  have he := eliminateIn_ok _ _ _ _ _ hr
  rw [eliminate_eq] at he
  exact (runTo_cleared .gaussJordan tol ht _ _ _ hcl n le_rfl _ he c c.isLt).1 r hrc

/-- In no equation of the elimination an entry of the pivot column is skipped, unless it is zero. -/
def NothingSkipped (me : Method) (tol : K) {m : ℕ} (S : Sys n m K) : Prop :=
  ∀ (i : Fin n) (T : Sys n m K), runTo me tol .float (fun _ => false) (fun _ => 0) i.val S = .ok T →
    ∀ r, r ≠ i → (T r).1 i = 0 ∨ tol * |(T i).1 i| ≤ |(T r).1 i|

/-- C88, partial: if no entry that is not zero is skipped, Jordan returns a diagonal matrix. -/
theorem C88_diagonal_partial (tol : K) (ht : 0 < tol) (A A' : Fin n → Fin n → K) (B B' : Rhs n K)
    (inplace : Bool) (hcl : NothingSkipped .jordan tol (start A B))
    (h : (reduce tol .jordan A B none none inplace).result = .ok (A', B')) (r c : Fin n)
    (hrc : r ≠ c) : A' r c = 0 := by
  obtain ⟨me, qb, qv, hme, hp, hr, rfl, rfl⟩ := reduce_ok h
  cases hp
  cases hme
  have he := eliminateIn_ok _ _ _ _ _ hr
  rw [eliminate_eq] at he
  have key : ∀ k, k ≤ n → ∀ T, runTo .jordan tol .float (fun _ => false) (fun _ => 0) k
      (start A B) = .ok T → ∀ c : Fin n, c.val < k → ∀ r, r ≠ c → (T r).1 c = 0 := by
    intro k
    induction k with
    | zero => intro _ _ _ c hc; omega
    | succ k ih =>
      intro hk T hT c hc r hrc
      obtain ⟨U, hU, hs⟩ := runTo_pred (by omega) hT
      rcases step_factors .jordan tol .float _ _ U T _ rfl hs with ⟨h, -⟩ | ⟨hp, h1, h2⟩
      · cases h
      · by_cases hck : c.val < k
        · have hz := ih (by omega) U hU c hck
          by_cases hr : Touched tol ⟨k, by omega⟩ ((U ⟨k, by omega⟩).1 ⟨k, by omega⟩) U r ∧
              (Method.jordan = .jordan ∨ (⟨k, by omega⟩ : Fin n) < r)
          · rw [h1 r hr]
            simp only [subRow, Verif.Utils.store]
            rw [hz r hrc, hz ⟨k, by omega⟩ (fun h => by rw [← h] at hck; simp at hck), mul_zero,
              sub_zero]
          · rw [h2 r hr]
            exact hz r hrc
        · obtain ⟨kc, hkc⟩ := c
          have hck' : k = kc := by simp only at hc hck; omega
          subst hck'
          have hpos : 0 < |(U ⟨k, by omega⟩).1 ⟨k, by omega⟩| := lt_of_lt_of_le ht hp
          have hne : (U ⟨k, by omega⟩).1 ⟨k, by omega⟩ ≠ 0 := abs_pos.1 hpos
          by_cases hr : Touched tol ⟨k, by omega⟩ ((U ⟨k, by omega⟩).1 ⟨k, by omega⟩) U r ∧
              (Method.jordan = .jordan ∨ (⟨k, by omega⟩ : Fin n) < r)
          · rw [h1 r hr]
            simp only [subRow, Verif.Utils.store]
            rw [div_mul_cancel₀ _ hne, sub_self]
          · rw [h2 r hr]
            rcases hcl ⟨k, by omega⟩ U hU r hrc with h | h
            · exact h
            · exfalso
              apply hr
              refine ⟨⟨hrc, ?_⟩, Or.inl rfl⟩
              rw [abs_div, le_div_iff₀ hpos]
              exact h
  exact key n le_rfl _ he c c.isLt r hrc

/-- C88: back substitution of what `reduce` returns is what `linsolve` returns, with and without
prescribed values. -/
theorem C88_backsub (tol : K) (method : MethodName) (A A' : Fin n → Fin n → K) (m : ℕ)
    (B B' : Fin n → Fin m → K) (inplace : Bool) :
    ((reduce tol method A (.two m B) none none inplace).result = .ok (A', .two m B') →
      (linsolve tol method A (.two m B) none none inplace).result =
        .ok (.array (.two m
          (backsub (fun i => (A' i, B' i)) (fun _ => false) (fun _ => 0)).1))) ∧
    ∀ pb pv, (reduce tol method A (.two m B) (some pb) (some pv) inplace).result =
        .ok (A', .two m B') →
      (linsolve tol method A (.two m B) (some pb) (some pv) inplace).result =
        .ok (.pair (.two m (backsub (fun i => (A' i, B' i)) pb pv).1)
          (.two m (backsub (fun i => (A' i, B' i)) pb pv).2)) := by
  constructor
  · intro h
    obtain ⟨me, qb, qv, hme, hp, hr, rfl, hB⟩ := reduce_ok h
    cases hp
    injection hB with _ hB
    rw [linsolve_eq tol method _ _ _ _ _ me hme]
    unfold runElimination linsolvePresc
    simp only
    rw [hr]
    simp only [linsolveOut, Option.isSome_none, Bool.false_eq_true, if_false]
    subst hB
    rfl
  · intro pb pv h
    obtain ⟨me, qb, qv, hme, hp, hr, rfl, hB⟩ := reduce_ok h
    cases hp
    injection hB with _ hB
    rw [linsolve_eq tol method _ _ _ _ _ me hme]
    unfold runElimination linsolvePresc
    simp only
    rw [hr]
    simp only [linsolveOut, Option.isSome_some, if_true]
    subst hB
    rfl

/-- C88: without `inplace=True` the arrays of the caller stay as they are, whatever happens. -/
theorem C88_arguments (tol : K) (method : MethodName) (A : Fin n → Fin n → K) (B : Rhs n K)
    (pb : Option (Fin n → Bool)) (pv : Option (Fin n → K)) :
    (linsolve tol method A B pb pv false).A = A ∧ (linsolve tol method A B pb pv false).B = B ∧
    (reduce tol method A B pb pv false).A = A ∧ (reduce tol method A B pb pv false).B = B := by
  have key : ∀ {α : Type} (me : Method) (p : Presc n K)
      (k : (Fin n → Bool) → (Fin n → K) → Sys n B.cols K → α),
      (runElimination me tol A B p false k).A = A ∧
        (runElimination me tol A B p false k).B = B := by
    intro α me p k
    unfold runElimination
    cases p with
    | illTyped => exact ⟨rfl, rfl⟩
    | given qb qv =>
      simp only [Bool.false_eq_true, if_false]
      cases (eliminateIn me tol qb qv (List.finRange n) (start A B)).2 <;> exact ⟨rfl, rfl⟩
  have h1 : (linsolve tol method A B pb pv false).A = A ∧
      (linsolve tol method A B pb pv false).B = B := by
    cases method with
    | other => exact ⟨rfl, rfl⟩
    | numpy => cases pb <;> exact ⟨rfl, rfl⟩
    | jordan => exact key _ _ _
    | gaussJordan => exact key _ _ _
  have h2 : (reduce tol method A B pb pv false).A = A ∧
      (reduce tol method A B pb pv false).B = B := by
    cases method with
    | other => exact ⟨rfl, rfl⟩
    | numpy => exact ⟨rfl, rfl⟩
    | jordan => exact key _ _ _
    | gaussJordan => exact key _ _ _
  exact ⟨h1.1, h1.2, h2.1, h2.2⟩

/-- C88: with `inplace=True` the arrays hold the reduced system afterwards, for both functions, and
the result is the same. -/
theorem C88_inplace (tol : K) (method : MethodName) (A A' : Fin n → Fin n → K) (B B' : Rhs n K)
    (h : (reduce tol method A B none none true).result = .ok (A', B')) :
    (reduce tol method A B none none true).A = A' ∧
    (reduce tol method A B none none true).B = B' ∧
    (linsolve tol method A B none none true).A = A' ∧
    (linsolve tol method A B none none true).B = B' ∧
    (linsolve tol method A B none none true).result =
      (linsolve tol method A B none none false).result ∧
    (reduce tol method A B none none false).result = .ok (A', B') := by
  obtain ⟨me, qb, qv, hme, hp, hr, rfl, rfl⟩ := reduce_ok h
  rw [reduce_eq tol method _ _ _ _ _ me hme, reduce_eq tol method _ _ _ _ _ me hme,
    linsolve_eq tol method _ _ _ _ _ me hme, linsolve_eq tol method _ _ _ _ _ me hme]
  cases hp
  unfold runElimination reducePresc linsolvePresc
  simp only [if_true, Bool.false_eq_true, if_false]
  rw [hr]
  exact ⟨rfl, rfl, rfl, rfl, rfl, rfl⟩

/-- C88: a call in place that raises may have changed the arrays, but they still have the same
solutions. -/
theorem C88_failed (tol : K) (method : MethodName) (A : Fin n → Fin n → K) (B : Rhs n K)
    (j : ℕ) (b b' : Fin n → K) (hb : col B j = some b)
    (hb' : col (linsolve tol method A B none none true).B j = some b') (x : Fin n → K) :
    (∀ i, Fulfils (linsolve tol method A B none none true).A b' x i) ↔ ∀ i, Fulfils A b x i := by
  cases hme : named method with
  | none =>
    have : (linsolve tol method A B none none true).A = A ∧
        (linsolve tol method A B none none true).B = B := by
      cases method <;> cases hme <;> exact ⟨rfl, rfl⟩
    rw [this.2, hb] at hb'
    cases hb'
    rw [this.1]
  | some me =>
    have key : (linsolve tol method A B none none true).A = (fun i => ((eliminateIn me tol
        (fun _ => false) (fun _ => 0) (List.finRange n) (start A B)).1 i).1) ∧
        (linsolve tol method A B none none true).B = B.write (fun i => ((eliminateIn me tol
        (fun _ => false) (fun _ => 0) (List.finRange n) (start A B)).1 i).2) := by
      rw [linsolve_eq tol method _ _ _ _ _ me hme]
      unfold runElimination linsolvePresc
      simp only [if_true]
      cases (eliminateIn me tol (fun _ => false) (fun _ => 0) (List.finRange n) (start A B)).2 <;>
        exact ⟨rfl, rfl⟩
    rw [key.2] at hb'
    rw [key.1]
    have := (equivalent me tol A B _ _ _ j b b' hb hb' x (fun _ h => by cases h)).1
    simpa using this

/-- C88: the default method: a regular system is solved, a singular one refused; the result has the
shape of `B`. -/
theorem C88_numpy (tol : K) (A : Fin n → Fin n → K) (B : Rhs n K) (inplace : Bool) :
    ((Matrix.of A).det = 0 → (linsolve tol .numpy A B none none inplace).result = .error .linalg) ∧
    ((Matrix.of A).det ≠ 0 → ∃ X, (linsolve tol .numpy A B none none inplace).result =
        .ok (.array X) ∧ (∀ b, B = .one b → ∃ x, X = .one x) ∧
        (∀ m M, B = .two m M → ∃ x, X = .two m x) ∧
      ∀ j b, col B j = some b → ∃ x : Fin n → K, col X j = some (fun i => some (x i)) ∧
        ∀ i, Fulfils A b x i) := by
  constructor
  · intro h
    show (npsolve A B).map _ = _
    unfold npsolve
    rw [if_pos h]
    rfl
  · intro h
    have hinv : Matrix.of A * ((Matrix.of A).det⁻¹ • (Matrix.of A).adjugate) = 1 := by
      rw [Matrix.mul_smul, Matrix.mul_adjugate, smul_smul, inv_mul_cancel₀ h, one_smul]
    have hsol : ∀ (b : Fin n → K) i, ∑ c, A i c * (∑ k,
        ((Matrix.of A).det⁻¹ • (Matrix.of A).adjugate) c k * b k) = b i := by
      intro b i
      have : (Matrix.of A).mulVec (((Matrix.of A).det⁻¹ • (Matrix.of A).adjugate).mulVec b) = b := by
        rw [Matrix.mulVec_mulVec, hinv, Matrix.one_mulVec]
      exact congrFun this i
    cases B with
    | one b =>
      refine ⟨.one fun i => some (∑ k,
        ((Matrix.of A).det⁻¹ • (Matrix.of A).adjugate) i k * b k), ?_, ?_, ?_, ?_⟩
      · show (npsolve A _).map _ = _
        unfold npsolve
        rw [if_neg h]
        rfl
      · intro _ _; exact ⟨_, rfl⟩
      · intro m M hM; cases hM
      · intro j b' hb'
        unfold col at hb' ⊢
        simp only at hb' ⊢
        split at hb'
        · rename_i hj
          cases hb'
          rw [if_pos hj]
          exact ⟨_, rfl, fun i => hsol b i⟩
        · cases hb'
    | two m M =>
      refine ⟨.two m fun i j => some (∑ k,
        ((Matrix.of A).det⁻¹ • (Matrix.of A).adjugate) i k * M k j), ?_, ?_, ?_, ?_⟩
      · show (npsolve A _).map _ = _
        unfold npsolve
        rw [if_neg h]
        rfl
      · intro b hb; cases hb
      · intro m' M' hM; cases hM; exact ⟨_, rfl⟩
      · intro j b' hb'
        unfold col at hb' ⊢
        simp only at hb' ⊢
        split at hb'
        · rename_i hj
          cases hb'
          rw [dif_pos hj]
          exact ⟨_, rfl, fun i => hsol (fun i => M i ⟨j, hj⟩) i⟩
        · cases hb'

/-- C88: names that are not known are refused, and so is NumPy's method by `reduce` and with
prescribed unknowns. -/
theorem C88_refused (tol : K) (A : Fin n → Fin n → K) (B : Rhs n K) (pb : Option (Fin n → Bool))
    (pv : Option (Fin n → K)) (inplace : Bool) :
    (linsolve tol .other A B pb pv inplace).result = .error .attribute ∧
    (reduce tol .other A B pb pv inplace).result = .error .attribute ∧
    (reduce tol .numpy A B pb pv inplace).result = .error .attribute ∧
    (pb.isSome = true → (linsolve tol .numpy A B pb pv inplace).result = .error .assertion) := by
  refine ⟨rfl, rfl, rfl, fun h => ?_⟩
  obtain ⟨q, rfl⟩ := Option.isSome_iff_exists.1 h
  rfl

/-- C88 is violated: the result of the eliminations does not have the shape of a one dimensional
right hand side, it is a column. -/
theorem C88_shape_violated (tol : K) (method : MethodName) (hm : method ≠ .numpy)
    (A : Fin n → Fin n → K) (b : Fin n → K) (pb : Option (Fin n → Bool)) (inplace : Bool)
    (X : Rhs n (Option K))
    (h : (linsolve tol method A (.one b) pb none inplace).result = .ok (.array X)) :
    ∃ M, X = .two 1 M := by
  cases hme : named method with
  | none => cases method <;> cases hme <;> first | exact absurd rfl hm | cases h
  | some me =>
    rw [linsolve_eq tol method _ _ _ _ _ me hme] at h
    unfold runElimination linsolvePresc at h
    simp only at h
    cases hr : (eliminateIn me tol (fun _ => false) (fun _ => 0) (List.finRange n)
      (start A (.one b))).2 with
    | some e => rw [hr] at h; cases h
    | none =>
      rw [hr] at h
      simp only [Except.ok.injEq] at h
      unfold linsolveOut at h
      cases h
      exact ⟨_, rfl⟩

/-- C88 is violated: prescribed values without `presc_bool` are ignored by NumPy's method and by
`reduce`, although `linsolve` refuses them for the eliminations (as a singular matrix). -/
theorem C88_ignored_violated (tol : K) (method : MethodName) (A : Fin n → Fin n → K) (B : Rhs n K)
    (pv : Fin n → K) (inplace : Bool) :
    linsolve tol .numpy A B none (some pv) inplace = linsolve tol .numpy A B none none inplace ∧
    reduce tol method A B none (some pv) inplace = reduce tol method A B none none inplace ∧
    (linsolve tol .jordan A B none (some pv) inplace).result = .error .linalg ∧
    (linsolve tol .gaussJordan A B none (some pv) inplace).result = .error .linalg := by
  refine ⟨rfl, ?_, rfl, rfl⟩
  cases method <;> rfl

end

/-! ### Examples -/

/-- The reduced matrix, if there is one. -/
def reducedMatrix? {n : ℕ} (r : Py ((Fin n → Fin n → ℚ) × Rhs n ℚ)) : Option (Fin n → Fin n → ℚ) :=
  match r with
  | .ok (A, _) => some A
  | .error _ => none

/-- The system of the docstring is reduced to a diagonal one by Jordan, and to a triangular one by
Gauss-Jordan. -/
example :
    reducedMatrix? (reduce (1 / 10 ^ 12 : ℚ) .jordan (n := 3) ![![3, 1, 2], ![1, 1, 1], ![2, 1, 2]]
      (.one ![11, 6, 10]) none none false).result =
      some ![![3, 0, 0], ![0, 2/3, 0], ![0, 0, 1/2]] ∧
    reducedMatrix? (reduce (1 / 10 ^ 12 : ℚ) .gaussJordan (n := 3)
      ![![3, 1, 2], ![1, 1, 1], ![2, 1, 2]] (.one ![11, 6, 10]) none none false).result =
      some ![![3, 1, 2], ![0, 2/3, 1/3], ![0, 0, 1/2]] := by
  refine ⟨by decide +kernel, by decide +kernel⟩

/-- C88 is violated: a call in place that raises has changed the arrays: `[[1, 1], [1, 1]]` is
`[[1, 1], [0, 0]]` afterwards. -/
theorem C88_failed_violated :
    (linsolve (1 / 10 ^ 12 : ℚ) .jordan (n := 2) ![![1, 1], ![1, 1]] (.one ![1, 2])
      none none true).result.toOption.isSome = false ∧
    (linsolve (1 / 10 ^ 12 : ℚ) .jordan (n := 2) ![![1, 1], ![1, 1]] (.one ![1, 2])
      none none true).A = ![![1, 1], ![0, 0]] := by
  refine ⟨by decide +kernel, by decide +kernel⟩

end Verif.SolveApi.Props
