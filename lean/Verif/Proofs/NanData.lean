import Verif.Model.NanData

/-! Helper lemmas for C115. -/

set_option linter.unusedSectionVars false

namespace Verif.NanData
open Verif Verif.Solve

/-- each row of a list is rewritten once -/
theorem foldl_rows {n : ℕ} {ρ : Type} (f : ρ → ρ) : ∀ (l : List (Fin n)), l.Nodup → ∀ (S : Fin n → ρ) (r : Fin n),
    (l.foldl (fun S r => Function.update S r (f (S r))) S) r = if r ∈ l then f (S r) else S r := by
  intro l
  induction l with
  | nil => intro _ S r; simp
  | cons a l ih =>
    intro hl S r
    rw [List.nodup_cons] at hl
    rw [List.foldl_cons, ih hl.2]
    by_cases h : r = a
    · subst h
      simp [hl.1]
    · simp [h]

/-- the elimination rewrites each row once -/
theorem foldl_elim {n : ℕ} {ρ : Type} (i : Fin n) (skip : ρ → Bool) (g : ρ → ρ → ρ) :
    ∀ (l : List (Fin n)), l.Nodup → ∀ (S : Fin n → ρ) (r : Fin n),
    (l.foldl (fun S r => if r = i ∨ skip (S r) = true then S else Function.update S r (g (S i) (S r))) S) r =
      if r ∈ l ∧ r ≠ i ∧ skip (S r) = false then g (S i) (S r) else S r := by
  intro l
  induction l with
  | nil => intro _ S r; simp
  | cons a l ih =>
    intro hl S r
    rw [List.nodup_cons] at hl
    rw [List.foldl_cons, ih hl.2]
    by_cases hai : a = i
    · subst hai
      by_cases h : r = a
      · subst h; simp
      · simp [h]
    · by_cases hs : skip (S a) = true
      · rw [if_pos (Or.inr hs)]
        by_cases h : r = a
        · subst h; simp [hl.1, hs]
        · simp [h]
      · have hno : ¬ (a = i ∨ skip (S a) = true) := by rw [not_or]; exact ⟨hai, hs⟩
        rw [if_neg hno]
        rw [Bool.not_eq_true] at hs
        have hi : Function.update S a (g (S i) (S a)) i = S i := Function.update_of_ne (fun e => hai e.symm) _ _
        rw [hi]
        by_cases h : r = a
        · subst h; simp [hl.1, hs, hai]
        · simp [h]

section
variable {n m : ℕ} {K : Type} [Field K] [LinearOrder K]

@[simp] theorem sub_none_left (b : Option K) : sub none b = none := rfl
@[simp] theorem sub_none_right (a : Option K) : sub a none = none := by cases a <;> rfl
@[simp] theorem mul_none_left (b : Option K) : mul none b = none := rfl
@[simp] theorem mul_none_right (a : Option K) : mul a none = none := by cases a <;> rfl
@[simp] theorem add_none_left (b : Option K) : add none b = none := rfl
@[simp] theorem add_none_right (a : Option K) : add a none = none := by cases a <;> rfl
@[simp] theorem div_none_left (b : Option K) : div none b = none := rfl
@[simp] theorem div_none_right (a : Option K) : div a none = none := by cases a <;> rfl

theorem sub_eq_none {a b : Option K} : sub a b = none ↔ a = none ∨ b = none := by
  unfold sub; rw [Option.map₂_eq_none_iff]
theorem mul_eq_none {a b : Option K} : mul a b = none ↔ a = none ∨ b = none := by
  unfold mul; rw [Option.map₂_eq_none_iff]
theorem add_eq_none {a b : Option K} : add a b = none ↔ a = none ∨ b = none := by
  unfold add; rw [Option.map₂_eq_none_iff]

theorem prescStep_apply (i : Fin n) (v : Option K) (S : Sys n m (Option K)) (r : Fin n) :
    prescStep i v S r = if i ≤ r then prescRow i v (S r) else S r := by
  unfold prescStep
  rw [foldl_rows (prescRow i v) _ ((List.nodup_finRange n).filter _)]
  simp

theorem elim_apply (tol : K) (i : Fin n) (pivot : Option K) (l : List (Fin n)) (hl : l.Nodup)
    (S : Sys n m (Option K)) (r : Fin n) :
    (l.foldl (elimRow tol i pivot) S) r =
      if r ∈ l ∧ r ≠ i ∧ small tol (div ((S r).1 i) pivot) = false
      then subRow (div ((S r).1 i) pivot) (S i) (S r) else S r :=
  foldl_elim i (fun row : Row n m (Option K) => small tol (div (row.1 i) pivot))
    (fun p row : Row n m (Option K) => subRow (div (row.1 i) pivot) p row) l hl S r

/-- a NaN in the equation, for one right hand side -/
def Taint (r : Fin n) (j : Fin m) (S : Sys n m (Option K)) : Prop :=
  (S r).2 j = none ∨ ∃ c, (S r).1 c = none

/-- a NaN left of the diagonal has reached the right hand sides -/
def Inv (pb : Fin n → Bool) (k : ℕ) (S : Sys n m (Option K)) : Prop :=
  ∀ r c : Fin n, c.val < k → (c < r ∨ (c = r ∧ pb c = true)) → (S r).1 c = none → ∀ j, (S r).2 j = none

theorem Taint.presc {r : Fin n} {j : Fin m} {S : Sys n m (Option K)} (h : Taint r j S) (i : Fin n)
    (v : Option K) : Taint r j (prescStep i v S) := by
  unfold Taint
  rw [prescStep_apply]
  split_ifs with hi
  · rcases h with h | ⟨c, h⟩
    · left; simp [prescRow, h]
    · by_cases hc : c = i
      · subst hc; left; simp [prescRow, h]
      · right; exact ⟨c, by simp [prescRow, hc, h]⟩
  · exact h

theorem Taint.elim {r : Fin n} {j : Fin m} {S : Sys n m (Option K)} (h : Taint r j S) (tol : K) (i : Fin n)
    (pivot : Option K) (l : List (Fin n)) (hl : l.Nodup) :
    Taint r j (l.foldl (elimRow tol i pivot) S) := by
  unfold Taint
  rw [elim_apply tol i pivot l hl]
  split_ifs with hi
  · rcases h with h | ⟨c, h⟩
    · left; simp [subRow, h]
    · right; exact ⟨c, by simp [subRow, h]⟩
  · exact h

theorem Inv.presc {pb : Fin n → Bool} {i : Fin n} {S : Sys n m (Option K)} (h : Inv pb i.val S)
    (v : Option K) : Inv pb (i.val + 1) (prescStep i v S) := by
  intro r c hc hrc hnone j
  rw [prescStep_apply] at hnone ⊢
  by_cases hci : c = i
  · subst hci
    have hr : c ≤ r := by
      rcases hrc with h | ⟨h, -⟩
      · exact h.le
      · exact h.le
    rw [if_pos hr] at hnone
    simp [prescRow] at hnone
  · have hck : c.val < i.val := by
      have : c.val ≠ i.val := fun e => hci (Fin.ext e)
      omega
    split_ifs at hnone ⊢ with hir
    · have : (S r).1 c = none := by simpa [prescRow, hci] using hnone
      have := h r c hck hrc this j
      simp [prescRow, this]
    · exact h r c hck hrc hnone j

theorem Inv.elim {pb : Fin n → Bool} {i : Fin n} (hpb : pb i = false) {S : Sys n m (Option K)}
    (h : Inv pb i.val S) (tol : K) (l : List (Fin n)) (hl : l.Nodup) (hmem : ∀ r, i < r → r ∈ l) :
    Inv pb (i.val + 1) (l.foldl (elimRow tol i ((S i).1 i)) S) := by
  intro r c hc hrc hnone j
  rw [elim_apply tol i _ l hl] at hnone ⊢
  by_cases hci : c = i
  · subst hci
    have hr : c < r := by
      rcases hrc with h | ⟨h, hp⟩
      · exact h
      · rw [hpb] at hp; cases hp
    by_cases hs : small tol (div ((S r).1 c) ((S c).1 c)) = false
    · rw [if_pos ⟨hmem r hr, hr.ne', hs⟩] at hnone ⊢
      have hf : div ((S r).1 c) ((S c).1 c) = none := by
        simp only [subRow, sub_eq_none, mul_eq_none] at hnone
        rcases hnone with h1 | h1 | h1
        · rw [h1]; rfl
        · exact h1
        · rw [h1]; simp
      simp [subRow, hf]
    · rw [if_neg (fun hh => hs hh.2.2)] at hnone
      rw [hnone] at hs
      simp [small] at hs
  · have hck : c.val < i.val := by
      have : c.val ≠ i.val := fun e => hci (Fin.ext e)
      omega
    split_ifs at hnone ⊢ with hir
    · simp only [subRow, sub_eq_none, mul_eq_none] at hnone ⊢
      rcases hnone with h1 | h1 | h1
      · left; exact h r c hck hrc h1 j
      · right; left; exact h1
      · right; right
        exact h i c hck (Or.inl (by exact hck)) h1 j
    · exact h r c hck hrc hnone j

theorem step_inv {me : Method} {tol : K} {pb : Fin n → Bool} {pv : Fin n → Option K} {i : Fin n}
    {S S' : Sys n m (Option K)} (h : Inv pb i.val S) (hs : step me tol pb pv S i = .ok S') :
    Inv pb (i.val + 1) S' ∧ ∀ r j, Taint r j S → Taint r j S' := by
  unfold step at hs
  by_cases hp : pb i = true
  · rw [if_pos hp] at hs
    obtain rfl := Except.ok.inj hs
    exact ⟨h.presc _, fun r j ht => ht.presc _ _⟩
  · rw [if_neg hp] at hs
    rw [Bool.not_eq_true] at hp
    cases me with
    | jordan =>
      simp only at hs
      split_ifs at hs with h1
      obtain rfl := Except.ok.inj hs
      exact ⟨h.elim hp tol _ (List.nodup_finRange n) (fun r _ => List.mem_finRange r),
        fun r j ht => ht.elim tol i _ _ (List.nodup_finRange n)⟩
    | gaussJordan =>
      simp only at hs
      split_ifs at hs with h0 h1
      · obtain rfl := Except.ok.inj hs
        exact ⟨h.elim hp tol _ ((List.nodup_finRange n).filter _) (fun r hr => by simp [hr]),
          fun r j ht => ht.elim tol i _ _ ((List.nodup_finRange n).filter _)⟩
      · obtain rfl := Except.ok.inj hs
        refine ⟨fun r c hc hrc hnone j => ?_, fun r j ht => ht⟩
        by_cases hci : c = i
        · subst hci
          rcases hrc with hr | ⟨-, hpc⟩
          · exfalso
            have := r.2
            have : c.val < r.val := hr
            omega
          · rw [hp] at hpc; cases hpc
        · have hck : c.val < i.val := by
            have : c.val ≠ i.val := fun e => hci (Fin.ext e)
            omega
          exact h r c hck hrc hnone j

theorem run_inv {me : Method} {tol : K} {pb : Fin n → Bool} {pv : Fin n → Option K} :
    ∀ (d k : ℕ), k + d = n → ∀ (S S' : Sys n m (Option K)), Inv pb k S →
      ((List.finRange n).drop k).foldlM (step me tol pb pv) S = .ok S' →
      Inv pb n S' ∧ ∀ r j, Taint r j S → Taint r j S' := by
  intro d
  induction d with
  | zero =>
    intro k hk S S' h hs
    rw [List.drop_eq_nil_of_le (by simp; omega)] at hs
    simp only [List.foldlM_nil, pure, Except.pure] at hs
    obtain rfl := Except.ok.inj hs
    exact ⟨fun r c _ => h r c (by have := c.2; omega), fun r j ht => ht⟩
  | succ d ih =>
    intro k hk S S' h hs
    have hkn : k < n := by omega
    rw [List.drop_eq_getElem_cons (by simp; omega), List.foldlM_cons] at hs
    simp only [List.getElem_finRange, Fin.cast_mk] at hs
    cases hst : step me tol pb pv S ⟨k, hkn⟩ with
    | error e => rw [hst] at hs; simp [bind, Except.bind] at hs
    | ok S1 =>
      rw [hst] at hs
      simp only [bind, Except.bind] at hs
      obtain ⟨a1, a2⟩ := step_inv (i := ⟨k, hkn⟩) h hst
      obtain ⟨b1, b2⟩ := ih (k + 1) (by omega) S1 S' a1 hs
      exact ⟨b1, fun r j ht => b2 r j (a2 r j ht)⟩

theorem eliminate_inv {me : Method} {tol : K} {pb : Fin n → Bool} {pv : Fin n → Option K}
    {S S' : Sys n m (Option K)} (hs : eliminate me tol pb pv S = .ok S') :
    Inv pb n S' ∧ ∀ r j, Taint r j S → Taint r j S' :=
  run_inv n 0 (by omega) S S' (fun r c hc => absurd hc (Nat.not_lt_zero _)) (by
    rw [List.drop_zero]; exact hs)

/-! ### Back substitution -/

theorem foldl_sub_none (l : List (Fin n)) (a x : Fin n → Option K) (acc : Option K)
    (h : acc = none ∨ ∃ c ∈ l, a c = none) :
    l.foldl (fun acc c => sub acc (mul (a c) (x c))) acc = none := by
  induction l generalizing acc with
  | nil => simpa using h
  | cons b l ih =>
    rw [List.foldl_cons]
    apply ih
    rcases h with rfl | ⟨c, hc, h⟩
    · left; simp
    · rcases List.mem_cons.mp hc with rfl | hc
      · left; simp [h]
      · right; exact ⟨c, hc, h⟩

theorem residual_none {S : Sys n m (Option K)} {X : Fin n → Fin m → Option K} {i : Fin n} {j : Fin m}
    (h : (S i).2 j = none ∨ ∃ c, i < c ∧ (S i).1 c = none) : residual S X i j = none := by
  unfold residual
  apply foldl_sub_none _ _ (fun c => X c j)
  rcases h with h | ⟨c, hc, h⟩
  · exact Or.inl h
  · exact Or.inr ⟨c, by simp [hc], h⟩

theorem foldl_reaches {α β : Type} (f : β → α → β) (Q : β → Prop) (a : α) (h1 : ∀ s, Q (f s a))
    (h2 : ∀ s b, Q s → Q (f s b)) : ∀ (l : List α) (s : β), (a ∈ l ∨ Q s) → Q (l.foldl f s) := by
  intro l
  induction l with
  | nil => intro s h; simpa using h
  | cons b l ih =>
    intro s h
    rw [List.foldl_cons]
    apply ih
    rcases h with h | h
    · rcases List.mem_cons.mp h with rfl | h
      · exact Or.inr (h1 s)
      · exact Or.inl h
    · exact Or.inr (h2 s b h)

theorem backsub_free {S : Sys n m (Option K)} {pb : Fin n → Bool} {pv : Fin n → Option K} {r : Fin n}
    {j : Fin m} (hp : pb r = false)
    (h : (S r).1 r = none ∨ (S r).2 j = none ∨ ∃ c, r < c ∧ (S r).1 c = none) :
    (backsub S pb pv).1 r j = none := by
  have key : ∀ s : XR n m K, (backStep S pb pv s r).1 r j = none := by
    intro s
    simp only [backStep, hp, Bool.false_eq_true, if_false, Function.update_self]
    rcases h with h | h
    · rw [h]; simp
    · rw [residual_none h]; simp
  refine foldl_reaches (backStep S pb pv) (fun s => s.1 r j = none) r key (fun s b hs => ?_) _ _
    (Or.inl (by simp))
  by_cases hb : b = r
  · rw [hb]; exact key s
  · unfold backStep
    simp only
    split_ifs
    · simp only; rw [Function.update_of_ne (Ne.symm hb)]; exact hs
    · simp only; rw [Function.update_of_ne (Ne.symm hb)]; exact hs

theorem backsub_presc {S : Sys n m (Option K)} {pb : Fin n → Bool} {pv : Fin n → Option K} {r : Fin n}
    {j : Fin m} (hp : pb r = true) (h : (S r).2 j = none ∨ ∃ c, r < c ∧ (S r).1 c = none) :
    (backsub S pb pv).2 r j = none := by
  have key : ∀ s : XR n m K, (backStep S pb pv s r).2 r j = none := by
    intro s
    simp only [backStep, hp, if_true, Function.update_self]
    rw [residual_none h]; rfl
  refine foldl_reaches (backStep S pb pv) (fun s => s.2 r j = none) r key (fun s b hs => ?_) _ _
    (Or.inl (by simp))
  by_cases hb : b = r
  · rw [hb]; exact key s
  · unfold backStep
    simp only
    split_ifs
    · simp only; rw [Function.update_of_ne (Ne.symm hb)]; exact hs
    · exact hs

/-! ### Without NaN -/

section
variable [IsStrictOrderedRing K] [FloorRing K]

/-- a system without NaN -/
def lift (S : Sys n m K) : Sys n m (Option K) := fun r => (fun c => some ((S r).1 c), fun j => some ((S r).2 j))

theorem lift_update (S : Sys n m K) (r : Fin n) (row : Row n m K) :
    lift (Function.update S r row) =
      Function.update (lift S) r (fun c => some (row.1 c), fun j => some (row.2 j)) := by
  funext x
  by_cases h : x = r
  · subst h; simp [lift]
  · simp [lift, h]

theorem lift_prescRow (i : Fin n) (v : K) (row : Row n m K) :
    prescRow i (some v) (fun c => some (row.1 c), fun j => some (row.2 j)) =
      (fun c => some ((Solve.prescRow i v row).1 c), fun j => some ((Solve.prescRow i v row).2 j)) := by
  unfold prescRow Solve.prescRow
  simp only [Prod.mk.injEq]
  refine ⟨?_, ?_⟩
  · funext c
    by_cases h : c = i
    · subst h; simp
    · simp [h]
  · funext j; rfl

theorem lift_foldl {α : Type} (f : Sys n m (Option K) → α → Sys n m (Option K)) (g : Sys n m K → α → Sys n m K)
    (h : ∀ S a, f (lift S) a = lift (g S a)) : ∀ (l : List α) (S : Sys n m K),
    l.foldl f (lift S) = lift (l.foldl g S) := by
  intro l
  induction l with
  | nil => intro S; rfl
  | cons a l ih => intro S; rw [List.foldl_cons, List.foldl_cons, h, ih]

theorem lift_prescStep (i : Fin n) (v : K) (S : Sys n m K) :
    prescStep i (some v) (lift S) = lift (Solve.prescStep i v S) := by
  unfold prescStep Solve.prescStep
  refine lift_foldl _ _ (fun S r => ?_) _ S
  rw [lift_update, ← lift_prescRow]
  rfl

theorem lift_elimRow {tol : K} (i : Fin n) {p : K} (hp : p ≠ 0) (S : Sys n m K) (r : Fin n) :
    elimRow tol i (some p) (lift S) r = lift (Solve.elimRow tol .float i p S r) := by
  unfold elimRow Solve.elimRow
  have hf : div ((lift S r).1 i) (some p) = some ((S r).1 i / p) := by
    simp [lift, div, hp]
  simp only [hf]
  by_cases h : r = i ∨ |(S r).1 i / p| < tol
  · rw [if_pos h, if_pos (by simpa [small] using h)]
  · rw [if_neg h, if_neg (by simpa [small] using h), lift_update]
    rfl

theorem lift_step {me : Method} {tol : K} (ht : 0 < tol) (pb : Fin n → Bool) (pv : Fin n → K) (S : Sys n m K)
    (i : Fin n) :
    step me tol pb (fun i => some (pv i)) (lift S) i = (Solve.step me tol .float pb pv S i).map lift := by
  have hne : ∀ p : K, ¬ |p| < tol → p ≠ 0 := by
    rintro p hp rfl; rw [abs_zero] at hp; exact hp ht
  have hpiv : (lift S i).1 i = some ((S i).1 i) := rfl
  unfold step Solve.step
  by_cases hp : pb i = true
  · rw [if_pos hp]
    cases me
    · simp only [jordanStep, hp, if_true, lift_prescStep]; rfl
    · simp only [gaussStep, hp, if_true, lift_prescStep]; rfl
  · rw [if_neg hp]
    cases me
    · simp only [jordanStep, hp, Bool.false_eq_true, if_false, hpiv, small, decide_eq_true_eq]
      split_ifs with h
      · rfl
      · rw [lift_foldl _ _ (fun S r => lift_elimRow i (hne _ h) S r)]; rfl
    · simp only [gaussStep, hp, Bool.false_eq_true, if_false, hpiv, small, decide_eq_true_eq]
      split_ifs with h0 h
      · rfl
      · rw [lift_foldl _ _ (fun S r => lift_elimRow i (hne _ h) S r)]; rfl
      · rfl

theorem lift_eliminate {me : Method} {tol : K} (ht : 0 < tol) (pb : Fin n → Bool) (pv : Fin n → K) (S : Sys n m K) :
    eliminate me tol pb (fun i => some (pv i)) (lift S) =
      (Solve.eliminate me tol .float pb pv S).map lift := by
  unfold eliminate Solve.eliminate
  generalize List.finRange n = l
  induction l generalizing S with
  | nil => rfl
  | cons a l ih =>
    rw [List.foldlM_cons, List.foldlM_cons, lift_step ht]
    cases Solve.step me tol .float pb pv S a with
    | error e => rfl
    | ok S1 =>
      simp only [Except.map, bind, Except.bind]
      exact ih S1

theorem fsubmul_eq (acc : Option K) (a : K) (x : Option K) : fsubmul acc a x = sub acc (mul (some a) x) := by
  cases acc <;> cases x <;> rfl

theorem fdiv_eq (a : Option K) (p : K) : fdiv a p = div a (some p) := by
  cases a <;> rfl

theorem lift_backsub (S : Sys n m K) (pb : Fin n → Bool) (pv : Fin n → K) :
    backsub (lift S) pb (fun i => some (pv i)) = Solve.backsub S pb pv := by
  have hr : ∀ X i, residual (lift S) X i = Solve.residual S X i := by
    intro X i
    unfold residual Solve.residual
    funext j
    simp only [fsubmul_eq]
    rfl
  unfold backsub Solve.backsub
  congr 1
  funext s i
  unfold backStep Solve.backStep
  simp only [hr, fdiv_eq]
  rfl

end

end

end Verif.NanData

namespace Verif.NanData
open Verif Verif.Solve

section
variable {n m : ℕ} {K : Type} [Field K] [LinearOrder K]

/-! ### A prescribed value that is NaN -/

theorem foldl_later {α β : Type} (f : β → α → β) (P Q : β → Prop) (a : α) (h1 : ∀ s, P s → Q (f s a))
    (h2 : ∀ s b, Q s → Q (f s b)) (h3 : ∀ s b, P s → P (f s b)) :
    ∀ (l : List α) (s : β), (P s ∧ a ∈ l ∨ Q s) → Q (l.foldl f s) := by
  intro l
  induction l with
  | nil => intro s h; simpa using h
  | cons b l ih =>
    intro s h
    rw [List.foldl_cons]
    apply ih
    rcases h with ⟨hp, h⟩ | h
    · rcases List.mem_cons.mp h with rfl | h
      · exact Or.inr (h1 s hp)
      · exact Or.inl ⟨h3 s b hp, h⟩
    · exact Or.inr (h2 s b h)

/-- the right hand side of a row is NaN -/
def Lost (r : Fin n) (j : Fin m) (S : Sys n m (Option K)) : Prop := (S r).2 j = none

theorem Lost.step {r : Fin n} {j : Fin m} {me : Method} {tol : K} {pb : Fin n → Bool} {pv : Fin n → Option K} {i : Fin n}
    {S S' : Sys n m (Option K)} (h : Lost r j S) (hs : step me tol pb pv S i = .ok S') : Lost r j S' := by
  unfold Lost at h ⊢
  unfold NanData.step at hs
  by_cases hp : pb i = true
  · rw [if_pos hp] at hs
    obtain rfl := Except.ok.inj hs
    rw [prescStep_apply]
    split_ifs
    · simp [prescRow, h]
    · exact h
  · rw [if_neg hp] at hs
    cases me with
    | jordan =>
      simp only at hs
      split_ifs at hs with h1
      obtain rfl := Except.ok.inj hs
      rw [elim_apply tol i _ _ (List.nodup_finRange n)]
      split_ifs
      · simp [subRow, h]
      · exact h
    | gaussJordan =>
      simp only at hs
      split_ifs at hs with h0 h1
      · obtain rfl := Except.ok.inj hs
        rw [elim_apply tol i _ _ ((List.nodup_finRange n).filter _)]
        split_ifs
        · simp [subRow, h]
        · exact h
      · obtain rfl := Except.ok.inj hs
        exact h

theorem run_lost {r : Fin n} {j : Fin m} {me : Method} {tol : K} {pb : Fin n → Bool} {pv : Fin n → Option K} {i : Fin n}
    (hi : ∀ S S', NanData.step me tol pb pv S i = .ok S' → Lost r j S') :
    ∀ (l : List (Fin n)) (S S' : Sys n m (Option K)), (i ∈ l ∨ Lost r j S) →
      l.foldlM (NanData.step me tol pb pv) S = .ok S' → Lost r j S' := by
  intro l
  induction l with
  | nil =>
    intro S S' h hs
    simp only [List.foldlM_nil, pure, Except.pure] at hs
    obtain rfl := Except.ok.inj hs
    simpa using h
  | cons a l ih =>
    intro S S' h hs
    rw [List.foldlM_cons] at hs
    cases hst : NanData.step me tol pb pv S a with
    | error e => rw [hst] at hs; simp [bind, Except.bind] at hs
    | ok S1 =>
      rw [hst] at hs
      simp only [bind, Except.bind] at hs
      refine ih S1 S' ?_ hs
      rcases h with h | h
      · rcases List.mem_cons.mp h with rfl | h
        · exact Or.inr (hi S S1 hst)
        · exact Or.inl h
      · exact Or.inr (h.step hst)

theorem eliminate_lost {me : Method} {tol : K} {pb : Fin n → Bool} {pv : Fin n → Option K} {i : Fin n}
    {S S' : Sys n m (Option K)} (hs : eliminate me tol pb pv S = .ok S') (hp : pb i = true) (hv : pv i = none)
    {r : Fin n} (hr : i ≤ r) (j : Fin m) : (S' r).2 j = none := by
  refine run_lost (i := i) (r := r) (j := j) ?_ _ S S' (Or.inl (List.mem_finRange i)) hs
  intro T T' hT
  unfold NanData.step at hT
  rw [if_pos hp] at hT
  obtain rfl := Except.ok.inj hT
  unfold Lost
  rw [prescStep_apply, if_pos hr]
  simp [prescRow, hv]

theorem foldl_sub_none' (l : List (Fin n)) (a x : Fin n → Option K) (acc : Option K)
    (h : acc = none ∨ ∃ c ∈ l, x c = none) :
    l.foldl (fun acc c => sub acc (mul (a c) (x c))) acc = none := by
  induction l generalizing acc with
  | nil => simpa using h
  | cons b l ih =>
    rw [List.foldl_cons]
    apply ih
    rcases h with rfl | ⟨c, hc, h⟩
    · left; simp
    · rcases List.mem_cons.mp hc with rfl | hc
      · left; simp [h]
      · right; exact ⟨c, hc, h⟩

theorem backStep_fst_ne (S : Sys n m (Option K)) (pb : Fin n → Bool) (pv : Fin n → Option K) (s : XR n m K)
    {b r : Fin n} (h : r ≠ b) : (backStep S pb pv s b).1 r = s.1 r := by
  unfold backStep
  simp only
  split_ifs
  · simp only; rw [Function.update_of_ne h]
  · simp only; rw [Function.update_of_ne h]

theorem backStep_snd_ne (S : Sys n m (Option K)) (pb : Fin n → Bool) (pv : Fin n → Option K) (s : XR n m K)
    {b r : Fin n} (h : r ≠ b) : (backStep S pb pv s b).2 r = s.2 r := by
  unfold backStep
  simp only
  split_ifs
  · simp only; rw [Function.update_of_ne h]
  · rfl

theorem backStep_presc (S : Sys n m (Option K)) (pb : Fin n → Bool) (pv : Fin n → Option K) (s : XR n m K)
    {b : Fin n} (h : pb b = true) (j : Fin m) : (backStep S pb pv s b).1 b j = pv b := by
  unfold backStep
  simp [h]

theorem backsub_value {S : Sys n m (Option K)} {pb : Fin n → Bool} {pv : Fin n → Option K} {r : Fin n}
    (hp : pb r = true) (j : Fin m) : (backsub S pb pv).1 r j = pv r := by
  refine foldl_reaches (backStep S pb pv) (fun s => s.1 r j = pv r) r
    (fun s => backStep_presc S pb pv s hp j) (fun s b hs => ?_) _ _ (Or.inl (by simp))
  by_cases hb : r = b
  · subst hb; exact backStep_presc S pb pv s hp j
  · rw [backStep_fst_ne S pb pv s hb]; exact hs

/-- the prescribed value is there when the equations above are solved -/
theorem backsub_above {S : Sys n m (Option K)} {pb : Fin n → Bool} {pv : Fin n → Option K} {i r : Fin n}
    (hp : pb i = true) (hv : pv i = none) (hr : r < i) (j : Fin m) :
    (pb r = false → (backsub S pb pv).1 r j = none) ∧ (pb r = true → (backsub S pb pv).2 r j = none) := by
  have hres : ∀ s : XR n m K, s.1 i j = none → residual S s.1 r j = none := by
    intro s h
    unfold residual
    apply foldl_sub_none' _ _ (fun c => s.1 c j)
    exact Or.inr ⟨i, by simp [hr], h⟩
  have hP : ∀ (s : XR n m K) b, s.1 i j = none → (backStep S pb pv s b).1 i j = none := by
    intro s b h
    by_cases hb : i = b
    · subst hb; rw [backStep_presc S pb pv s hp]; exact hv
    · rw [backStep_fst_ne S pb pv s hb]; exact h
  obtain ⟨l1, l2, hl⟩ := List.append_of_mem (List.mem_reverse.mpr (List.mem_finRange i))
  have hpw : ((List.finRange n).reverse).Pairwise (· > ·) := by
    rw [List.pairwise_reverse]
    exact List.pairwise_lt_finRange n
  have hmem : r ∈ l2 := by
    have : r ∈ l1 ++ i :: l2 := by rw [← hl]; simp
    rcases List.mem_append.mp this with h | h
    · exfalso
      rw [hl, List.pairwise_append] at hpw
      have := hpw.2.2 r h i (by simp)
      exact absurd hr (not_lt.mpr (le_of_lt this))
    · rcases List.mem_cons.mp h with h | h
      · exact absurd hr (by rw [h]; exact lt_irrefl _)
      · exact h
  have hstart : ∀ s : XR n m K, (backStep S pb pv s i).1 i j = none := by
    intro s; rw [backStep_presc S pb pv s hp]; exact hv
  unfold backsub
  rw [hl, List.foldl_append, List.foldl_cons]
  constructor
  · intro hf
    have key : ∀ s : XR n m K, s.1 i j = none → (backStep S pb pv s r).1 r j = none := by
      intro s h
      simp only [backStep, hf, Bool.false_eq_true, if_false, Function.update_self, hres s h]
      simp
    have hl2 : l2.Nodup := by
      have := (List.nodup_finRange n)
      rw [← List.nodup_reverse, hl] at this
      exact (List.nodup_cons.mp (List.nodup_append.mp this).2.1).2
    refine (foldl_later (backStep S pb pv) (fun s => s.1 i j = none)
      (fun s => s.1 i j = none ∧ s.1 r j = none) r (fun s h => ⟨hP s r h, key s h⟩) ?_ (fun s b => hP s b)
      l2 _ (Or.inl ⟨hstart _, hmem⟩)).2
    rintro s b ⟨h1, h2⟩
    refine ⟨hP s b h1, ?_⟩
    by_cases hb : r = b
    · subst hb; exact key s h1
    · rw [backStep_fst_ne S pb pv s hb]; exact h2
  · intro hf
    have key : ∀ s : XR n m K, s.1 i j = none → (backStep S pb pv s r).2 r j = none := by
      intro s h
      simp only [backStep, hf, if_true, Function.update_self, hres s h]
      rfl
    refine (foldl_later (backStep S pb pv) (fun s => s.1 i j = none)
      (fun s => s.1 i j = none ∧ s.2 r j = none) r (fun s h => ⟨hP s r h, key s h⟩) ?_ (fun s b => hP s b)
      l2 _ (Or.inl ⟨hstart _, hmem⟩)).2
    rintro s b ⟨h1, h2⟩
    refine ⟨hP s b h1, ?_⟩
    by_cases hb : r = b
    · subst hb; exact key s h1
    · rw [backStep_snd_ne S pb pv s hb]; exact h2

/-! ### The right hand sides do not see each other -/

/-- the same matrix, the same column `j` and `j'` of the right hand sides -/
def Same {m' : ℕ} (j : Fin m) (j' : Fin m') (S : Sys n m (Option K)) (T : Sys n m' (Option K)) : Prop :=
  ∀ r, (S r).1 = (T r).1 ∧ (S r).2 j = (T r).2 j'

theorem Same.presc {m' : ℕ} {j : Fin m} {j' : Fin m'} {S : Sys n m (Option K)} {T : Sys n m' (Option K)}
    (h : Same j j' S T) (i : Fin n) (v : Option K) : Same j j' (prescStep i v S) (prescStep i v T) := by
  intro r
  rw [prescStep_apply, prescStep_apply]
  split_ifs
  · obtain ⟨h1, h2⟩ := h r
    simp only [prescRow, h1, h2, and_self]
  · exact h r

theorem Same.elim {m' : ℕ} {j : Fin m} {j' : Fin m'} {S : Sys n m (Option K)} {T : Sys n m' (Option K)}
    (h : Same j j' S T) (tol : K) (i : Fin n) (p : Option K) (l : List (Fin n)) (hl : l.Nodup) :
    Same j j' (l.foldl (elimRow tol i p) S) (l.foldl (elimRow tol i p) T) := by
  intro r
  rw [elim_apply tol i p l hl, elim_apply tol i p l hl]
  obtain ⟨h1, h2⟩ := h r
  obtain ⟨g1, g2⟩ := h i
  rw [h1]
  split_ifs
  · simp only [subRow, h1, h2, g1, g2, and_self]
  · exact ⟨h1, h2⟩

theorem Same.run {m' : ℕ} {j : Fin m} {j' : Fin m'} (me : Method) (tol : K) (pb : Fin n → Bool)
    (pv : Fin n → Option K) : ∀ (l : List (Fin n)) (S : Sys n m (Option K)) (T : Sys n m' (Option K)), Same j j' S T →
    (∃ e, l.foldlM (NanData.step me tol pb pv) S = .error e ∧ l.foldlM (NanData.step me tol pb pv) T = .error e) ∨
    ∃ S' T', l.foldlM (NanData.step me tol pb pv) S = .ok S' ∧ l.foldlM (NanData.step me tol pb pv) T = .ok T' ∧
      Same j j' S' T' := by
  intro l
  induction l with
  | nil => intro S T h; exact Or.inr ⟨S, T, rfl, rfl, h⟩
  | cons i l ih =>
    intro S T h
    simp only [List.foldlM_cons]
    have key : (∃ e, NanData.step me tol pb pv S i = .error e ∧ NanData.step me tol pb pv T i = .error e) ∨
        ∃ S' T', NanData.step me tol pb pv S i = .ok S' ∧ NanData.step me tol pb pv T i = .ok T' ∧ Same j j' S' T' := by
      unfold NanData.step
      rw [(h i).1]
      by_cases hp : pb i = true
      · rw [if_pos hp, if_pos hp]
        exact Or.inr ⟨_, _, rfl, rfl, h.presc _ _⟩
      · rw [if_neg hp, if_neg hp]
        cases me with
        | jordan =>
          simp only
          split_ifs
          · exact Or.inl ⟨_, rfl, rfl⟩
          · exact Or.inr ⟨_, _, rfl, rfl, h.elim _ _ _ _ (List.nodup_finRange n)⟩
        | gaussJordan =>
          simp only
          split_ifs
          · exact Or.inl ⟨_, rfl, rfl⟩
          · exact Or.inr ⟨_, _, rfl, rfl, h.elim _ _ _ _ ((List.nodup_finRange n).filter _)⟩
          · exact Or.inr ⟨_, _, rfl, rfl, h⟩
    rcases key with ⟨e, h1, h2⟩ | ⟨S1, T1, h1, h2, h3⟩
    · rw [h1, h2]; exact Or.inl ⟨e, rfl, rfl⟩
    · rw [h1, h2]; exact ih S1 T1 h3

theorem Same.residual {m' : ℕ} {j : Fin m} {j' : Fin m'} {S : Sys n m (Option K)} {T : Sys n m' (Option K)}
    (h : Same j j' S T) {X : Fin n → Fin m → Option K} {Y : Fin n → Fin m' → Option K}
    (hx : ∀ r, X r j = Y r j') (i : Fin n) : NanData.residual S X i j = NanData.residual T Y i j' := by
  unfold NanData.residual
  simp only [(h i).1, (h i).2, hx]

theorem Same.backsub {m' : ℕ} {j : Fin m} {j' : Fin m'} {S : Sys n m (Option K)} {T : Sys n m' (Option K)}
    (h : Same j j' S T) (pb : Fin n → Bool) (pv : Fin n → Option K) :
    ∀ r, (NanData.backsub S pb pv).1 r j = (NanData.backsub T pb pv).1 r j' ∧
      (NanData.backsub S pb pv).2 r j = (NanData.backsub T pb pv).2 r j' := by
  unfold NanData.backsub
  generalize (List.finRange n).reverse = l
  suffices H : ∀ (s : XR n m K) (t : XR n m' K), (∀ r, s.1 r j = t.1 r j' ∧ s.2 r j = t.2 r j') →
      ∀ r, (l.foldl (backStep S pb pv) s).1 r j = (l.foldl (backStep T pb pv) t).1 r j' ∧
        (l.foldl (backStep S pb pv) s).2 r j = (l.foldl (backStep T pb pv) t).2 r j' by
    exact H _ _ (fun r => ⟨rfl, rfl⟩)
  induction l with
  | nil => intro s t hst r; exact hst r
  | cons i l ih =>
    intro s t hst
    rw [List.foldl_cons, List.foldl_cons]
    apply ih
    intro r
    have hr := h.residual (X := s.1) (Y := t.1) (fun r => (hst r).1) i
    by_cases hri : r = i
    · subst hri
      unfold backStep
      by_cases hp : pb r = true
      · simp [hp, hr]
      · simp [hp, hr, (h r).1, (hst r).2]
    · rw [backStep_fst_ne S pb pv s hri, backStep_fst_ne T pb pv t hri,
        backStep_snd_ne S pb pv s hri, backStep_snd_ne T pb pv t hri]
      exact hst r

/-! ### Sums -/

theorem foldl_add_none (l : List (Option K)) (acc : Option K) :
    l.foldl add acc = none ↔ acc = none ∨ none ∈ l := by
  induction l generalizing acc with
  | nil => simp
  | cons a l ih =>
    rw [List.foldl_cons, ih, add_eq_none, List.mem_cons]
    constructor
    · rintro ((h | h) | h)
      · exact Or.inl h
      · exact Or.inr (Or.inl h.symm)
      · exact Or.inr (Or.inr h)
    · rintro (h | h | h)
      · exact Or.inl (Or.inl h)
      · exact Or.inl (Or.inr h.symm)
      · exact Or.inr h

theorem foldl_add_some (l : List K) (acc : K) :
    (l.map some).foldl add (some acc) = some (acc + l.sum) := by
  induction l generalizing acc with
  | nil => simp
  | cons a l ih =>
    rw [List.map_cons, List.foldl_cons]
    show (l.map some).foldl add (some (acc + a)) = _
    rw [ih, List.sum_cons, add_assoc]

end

end Verif.NanData
