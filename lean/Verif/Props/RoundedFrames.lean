import Verif.Proofs.RoundedFrames
import Verif.Props.Rounding
import Mathlib.Tactic.FinCases

/-!
# Properties of changes of frames with rounded arithmetic (C103)
-/

set_option linter.unusedSectionVars false

namespace Verif.RFrames.Props
open Verif Verif.Rnd Verif.RFrames

section
variable {K : Type} [Field K] [LinearOrder K] [IsStrictOrderedRing K] {n : ℕ}

/-- All scalar products make use of each component once, with at most `h` roundings on the way to each
result. -/
def Complete (h : ℕ) (p : Plans n) : Prop :=
  (∀ i j, (p.dcm i j).terms.Perm (List.finRange n) ∧ (p.dcm i j).height ≤ h) ∧
  (∀ i, (p.vec i).terms.Perm (List.finRange n) ∧ (p.vec i).height ≤ h) ∧
  (∀ i j, (p.left i j).terms.Perm (List.finRange n) ∧ (p.left i j).height ≤ h) ∧
  (∀ i j, (p.right i j).terms.Perm (List.finRange n) ∧ (p.right i j).height ≤ h)

/-- The axes of a frame and of its computed dual are bounded by `c`, and the computed dual is the dual
up to `ε` (sums of absolute values along rows). -/
def Sound (c ε : K) (F : RFrames.Frame n K) : Prop :=
  (∀ i, ∑ j, |F.dual i j| ≤ c) ∧ (∀ i, ∑ j, |F.axes.transpose i j| ≤ c) ∧
  (∀ i, ∑ j, |(F.dual * F.axes.transpose - 1) i j| ≤ ε) ∧
  (∀ i, ∑ j, |(F.axes.transpose * F.dual - 1) i j| ≤ ε)

/-- A loop that adds up products one after the other, beginning with zero. -/
def loopPlan (n : ℕ) : Plan n := (List.finRange n).foldl (fun p i => .add p (.prod i)) .zero

/-- The same with contraction. -/
def fmaPlan (n : ℕ) : Plan n := (List.finRange n).foldl (fun p i => .fma p i) .zero

theorem loopPlan_complete (n : ℕ) :
    (loopPlan n).terms.Perm (List.finRange n) ∧ (loopPlan n).height ≤ n + 1 := by
  have key : ∀ (l : List (Fin n)) (p : Plan n),
      (l.foldl (fun p i => Plan.add p (.prod i)) p).terms = p.terms ++ l ∧
      (l.foldl (fun p i => Plan.add p (.prod i)) p).height ≤ max 1 p.height + l.length := by
    intro l
    induction l with
    | nil => intro p; simp
    | cons a l ih =>
      intro p
      obtain ⟨h1, h2⟩ := ih (.add p (.prod a))
      refine ⟨by rw [List.foldl_cons, h1]; simp [Plan.terms], h2.trans ?_⟩
      simp only [Plan.height, List.length_cons]
      omega
  obtain ⟨h1, h2⟩ := key (List.finRange n) .zero
  refine ⟨by unfold loopPlan; rw [h1]; simp [Plan.terms], h2.trans ?_⟩
  simp [Plan.height]
  omega

theorem fmaPlan_complete (n : ℕ) :
    (fmaPlan n).terms.Perm (List.finRange n) ∧ (fmaPlan n).height ≤ n + 1 := by
  have key : ∀ (l : List (Fin n)) (p : Plan n),
      (l.foldl (fun p i => Plan.fma p i) p).terms = p.terms ++ l ∧
      (l.foldl (fun p i => Plan.fma p i) p).height = p.height + l.length := by
    intro l
    induction l with
    | nil => intro p; simp
    | cons a l ih =>
      intro p
      obtain ⟨h1, h2⟩ := ih (.fma p a)
      refine ⟨by rw [List.foldl_cons, h1]; simp [Plan.terms], h2.trans ?_⟩
      simp only [Plan.height, List.length_cons]
      omega
  obtain ⟨h1, h2⟩ := key (List.finRange n) .zero
  refine ⟨by unfold fmaPlan; rw [h1]; simp [Plan.terms], h2.le.trans ?_⟩
  simp [Plan.height]

theorem pow_sub_nonneg {u : K} (hu : 0 ≤ u) (m : ℕ) : 0 ≤ (1 + u) ^ m - 1 := by
  have := one_le_pow₀ (show 1 ≤ 1 + u by linarith) (n := m)
  linarith

theorem dcm_near {fl : K → K} {u : K} (hu : Precise fl u) {h : ℕ} {p : Plans n} (hp : Complete h p)
    (S T : RFrames.Frame n K) :
    NearM u h ((T.dual.map fun x => |x|) * (S.axes.transpose.map fun x => |x|)) (dcm fl p S T)
      (T.dual * S.axes.transpose) :=
  matmul_near hu p.dcm hp.1 (NearM.exact _) (NearM.exact _)

theorem show_near {fl : K → K} {u : K} (hu : Precise fl u) {h : ℕ} {p : Plans n} (hp : Complete h p)
    (S T : RFrames.Frame n K) {k : ℕ} {x y B : Fin n → K} (hx : ∀ i, Near u k (B i) (x i) (y i))
    (i : Fin n) :
    Near u (2 * h + k) (∑ l, ((T.dual.map fun x => |x|) * (S.axes.transpose.map fun x => |x|)) i l * B l)
      (showVector fl p S T x i) (∑ l, (T.dual * S.axes.transpose) i l * y l) :=
  (matvec_near hu p.vec hp.2.1 (dcm_near hu hp S T) hx i).more hu.nonneg (by omega)

theorem bound_row {c ε : K} {S T : RFrames.Frame n K} (hS : Sound c ε S) (hT : Sound c ε T) (hc : 0 ≤ c)
    (i : Fin n) :
    ∑ l, ((T.dual.map fun x => |x|) * (S.axes.transpose.map fun x => |x|)) i l ≤ c * c :=
  row_mul (fun _ _ => abs_nonneg _) hT.1 hc hS.2.1 i

theorem bound_nonneg (S T : RFrames.Frame n K) (i j : Fin n) :
    0 ≤ ((T.dual.map fun x => |x|) * (S.axes.transpose.map fun x => |x|)) i j :=
  nonneg_mul (fun _ _ => abs_nonneg _) (fun _ _ => abs_nonneg _) i j

theorem abs_row {c ε : K} {S T : RFrames.Frame n K} (hS : Sound c ε S) (hT : Sound c ε T) (hc : 0 ≤ c)
    (i : Fin n) : ∑ l, |(T.dual * S.axes.transpose) i l| ≤ c * c := by
  refine (Finset.sum_le_sum fun l _ => ?_).trans (bound_row hS hT hc i)
  rw [Matrix.mul_apply, Matrix.mul_apply]
  refine (Finset.abs_sum_le_sum_abs _ _).trans (le_of_eq (Finset.sum_congr rfl fun k _ => ?_))
  rw [abs_mul]
  rfl

/-- Rows of a product with a matrix of small rows in the middle. -/
theorem mid_row {c ε : K} {A R B : Matrix (Fin n) (Fin n) K} (hc : 0 ≤ c) (hε : 0 ≤ ε)
    (hA : ∀ i, ∑ j, |A i j| ≤ c) (hR : ∀ i, ∑ j, |R i j| ≤ ε) (hB : ∀ i, ∑ j, |B i j| ≤ c) (i : Fin n) :
    ∑ j, |(A * R * B) i j| ≤ c * ε * c := by
  have habs : ∀ (X Y : Matrix (Fin n) (Fin n) K) (x y : K), 0 ≤ y → (∀ i, ∑ j, |X i j| ≤ x) →
      (∀ i, ∑ j, |Y i j| ≤ y) → ∀ i, ∑ j, |(X * Y) i j| ≤ x * y := by
    intro X Y x y hy hX hY i
    refine (Finset.sum_le_sum fun l _ => ?_).trans
      (row_mul (A := X.map fun x => |x|) (B := Y.map fun x => |x|) (fun _ _ => abs_nonneg _) hX hy hY i)
    rw [Matrix.mul_apply, Matrix.mul_apply]
    refine (Finset.abs_sum_le_sum_abs _ _).trans (le_of_eq (Finset.sum_congr rfl fun k _ => ?_))
    rw [abs_mul]
    rfl
  exact habs _ _ _ _ hc (habs _ _ _ _ hε hA hR) hB i

/-- The matrix of a round trip in exact arithmetic is the identity up to the errors of the duals. -/
theorem trip_row {c ε : K} {S T : RFrames.Frame n K} (hS : Sound c ε S) (hT : Sound c ε T) (hc : 0 ≤ c)
    (hε : 0 ≤ ε) (i : Fin n) :
    ∑ j, |((S.dual * T.axes.transpose) * (T.dual * S.axes.transpose) - 1) i j| ≤ c * ε * c + ε := by
  have e : (S.dual * T.axes.transpose) * (T.dual * S.axes.transpose) - 1 =
      S.dual * (T.axes.transpose * T.dual - 1) * S.axes.transpose +
        (S.dual * S.axes.transpose - 1) := by
    simp only [Matrix.mul_sub, Matrix.sub_mul, Matrix.mul_one, Matrix.mul_assoc]
    abel
  rw [e]
  calc _ ≤ ∑ j, (|(S.dual * (T.axes.transpose * T.dual - 1) * S.axes.transpose) i j| +
        |(S.dual * S.axes.transpose - 1) i j|) := Finset.sum_le_sum fun j _ => abs_add_le _ _
    _ = _ := Finset.sum_add_distrib
    _ ≤ _ := add_le_add (mid_row hc hε hS.1 hT.2.2.2 hS.2.1 i) (hS.2.2.1 i)

theorem eps_nonneg {c ε : K} {S : RFrames.Frame n K} (hS : Sound c ε S) (i : Fin n) : 0 ≤ ε ∧ 0 ≤ c :=
  ⟨(Finset.sum_nonneg fun _ _ => abs_nonneg _).trans (hS.2.2.1 i),
    (Finset.sum_nonneg fun _ _ => abs_nonneg _).trans (hS.1 i)⟩

/-! ## C103 – components in other frames -/

/-- C103: shown in its own frame, a vector has its components up to rounding. -/
theorem C103_own_frame (fl : K → K) (u : K) (hu : Precise fl u) (h : ℕ) (p : Plans n)
    (hp : Complete h p) (c ε : K) (S : RFrames.Frame n K) (hS : Sound c ε S) (x : Fin n → K) (X : K)
    (hx : ∀ i, |x i| ≤ X) (i : Fin n) :
    |showVector fl p S S x i - x i| ≤ (((1 + u) ^ (2 * h) - 1) * c ^ 2 + ε) * X := by
  obtain ⟨hε, hc⟩ := eps_nonneg hS i
  have hX : 0 ≤ X := (abs_nonneg _).trans (hx i)
  have hn := (show_near hu hp S S (fun i => Near.exact (x i) X (hx i)) i).1
  have hb : ∑ l, ((S.dual.map fun x => |x|) * (S.axes.transpose.map fun x => |x|)) i l * X ≤
      c * c * X := row_vec (x := fun _ => X) (bound_nonneg S S) (bound_row hS hS hc) hX (fun _ => le_rfl) i
  have h1 := hn.trans (mul_le_mul_of_nonneg_left hb (pow_sub_nonneg hu.nonneg _))
  have h2 := abs_row_vec hS.2.2.1 hX hx i
  have e : ∑ j, (S.dual * S.axes.transpose - 1) i j * x j =
      ∑ j, (S.dual * S.axes.transpose) i j * x j - x i := by
    simp only [Matrix.sub_apply, sub_mul, Finset.sum_sub_distrib, Matrix.one_apply, ite_mul, one_mul,
      zero_mul, Finset.sum_ite_eq, Finset.mem_univ, if_true]
  rw [e] at h2
  refine (abs_sub_le _ _ _).trans ((add_le_add h1 h2).trans (le_of_eq ?_))
  ring

/-- C103: shown in another frame and back, a vector has its components up to rounding, for all frames
whose duals are accurate and in whatever order the products are summed up. -/
theorem C103_round_trip (fl : K → K) (u : K) (hu : Precise fl u) (h : ℕ) (p q : Plans n)
    (hp : Complete h p) (hq : Complete h q) (c ε : K) (S T : RFrames.Frame n K) (hS : Sound c ε S)
    (hT : Sound c ε T) (x : Fin n → K) (X : K) (hx : ∀ i, |x i| ≤ X) (i : Fin n) :
    |showVector fl q T S (showVector fl p S T x) i - x i| ≤
      (((1 + u) ^ (4 * h) - 1) * c ^ 4 + ε * c ^ 2 + ε) * X := by
  obtain ⟨hε, hc⟩ := eps_nonneg hS i
  have hX : 0 ≤ X := (abs_nonneg _).trans (hx i)
  have h1 := fun i => show_near hu hp S T (fun i => Near.exact (x i) X (hx i)) i
  have h2 := (show_near hu hq T S h1 i).1
  have b1 : ∀ i, ∑ l, ((T.dual.map fun x => |x|) * (S.axes.transpose.map fun x => |x|)) i l * X ≤
      c * c * X := fun i =>
    row_vec (x := fun _ => X) (bound_nonneg S T) (bound_row hS hT hc) hX (fun _ => le_rfl) i
  have b2 := row_vec (bound_nonneg T S) (bound_row hT hS hc) (mul_nonneg (mul_nonneg hc hc) hX) b1 i
  have h3 := h2.trans (mul_le_mul_of_nonneg_left b2 (pow_sub_nonneg hu.nonneg _))
  have h4 := abs_row_vec (trip_row hS hT hc hε) hX hx i
  have e : ∑ j, ((S.dual * T.axes.transpose) * (T.dual * S.axes.transpose) - 1) i j * x j =
      (∑ l, (S.dual * T.axes.transpose) i l * ∑ j, (T.dual * S.axes.transpose) l j * x j) - x i := by
    simp only [Matrix.sub_apply, sub_mul, Finset.sum_sub_distrib, Matrix.one_apply, ite_mul, one_mul,
      zero_mul, Finset.sum_ite_eq, Finset.mem_univ, if_true]
    congr 1
    simp only [Finset.mul_sum]
    rw [Finset.sum_comm]
    refine Finset.sum_congr rfl fun j _ => ?_
    rw [Matrix.mul_apply, Finset.sum_mul]
    exact Finset.sum_congr rfl fun l _ => by ring
  rw [e] at h4
  refine (abs_sub_le _ _ _).trans ((add_le_add h3 h4).trans (le_of_eq ?_))
  have : 2 * h + (2 * h + 0) = 4 * h := by omega
  rw [this]
  ring

/-- C103: going to a frame by way of a third one gives the same components up to rounding. -/
theorem C103_transitive (fl : K → K) (u : K) (hu : Precise fl u) (h : ℕ) (p q r : Plans n)
    (hp : Complete h p) (hq : Complete h q) (hr : Complete h r) (c ε : K) (S T U : RFrames.Frame n K)
    (hS : Sound c ε S) (hT : Sound c ε T) (hU : Sound c ε U) (x : Fin n → K) (X : K)
    (hx : ∀ i, |x i| ≤ X) (i : Fin n) :
    |showVector fl q T U (showVector fl p S T x) i - showVector fl r S U x i| ≤
      (((1 + u) ^ (4 * h) - 1) * c ^ 4 + ((1 + u) ^ (2 * h) - 1) * c ^ 2 + ε * c ^ 2) * X := by
  obtain ⟨hε, hc⟩ := eps_nonneg hS i
  have hX : 0 ≤ X := (abs_nonneg _).trans (hx i)
  have h1 := fun i => show_near hu hp S T (fun i => Near.exact (x i) X (hx i)) i
  have h2 := (show_near hu hq T U h1 i).1
  have b1 : ∀ i, ∑ l, ((T.dual.map fun x => |x|) * (S.axes.transpose.map fun x => |x|)) i l * X ≤
      c * c * X := fun i =>
    row_vec (x := fun _ => X) (bound_nonneg S T) (bound_row hS hT hc) hX (fun _ => le_rfl) i
  have b2 := row_vec (bound_nonneg T U) (bound_row hT hU hc) (mul_nonneg (mul_nonneg hc hc) hX) b1 i
  have h3 := h2.trans (mul_le_mul_of_nonneg_left b2 (pow_sub_nonneg hu.nonneg _))
  have h5 := (show_near hu hr S U (fun i => Near.exact (x i) X (hx i)) i).1
  have b3 : ∑ l, ((U.dual.map fun x => |x|) * (S.axes.transpose.map fun x => |x|)) i l * X ≤
      c * c * X := row_vec (x := fun _ => X) (bound_nonneg S U) (bound_row hS hU hc) hX (fun _ => le_rfl) i
  have h6 := h5.trans (mul_le_mul_of_nonneg_left b3 (pow_sub_nonneg hu.nonneg _))
  rw [abs_sub_comm] at h6
  have h4 := abs_row_vec (mid_row hc hε hU.1 hT.2.2.2 hS.2.1) hX hx i
  have e : ∑ j, (U.dual * (T.axes.transpose * T.dual - 1) * S.axes.transpose) i j * x j =
      (∑ l, (U.dual * T.axes.transpose) i l * ∑ j, (T.dual * S.axes.transpose) l j * x j) -
        ∑ j, (U.dual * S.axes.transpose) i j * x j := by
    have e1 : U.dual * (T.axes.transpose * T.dual - 1) * S.axes.transpose =
        (U.dual * T.axes.transpose) * (T.dual * S.axes.transpose) - U.dual * S.axes.transpose := by
      simp only [Matrix.mul_sub, Matrix.sub_mul, Matrix.mul_one, Matrix.mul_assoc]
    rw [e1]
    simp only [Matrix.sub_apply, sub_mul, Finset.sum_sub_distrib]
    congr 1
    simp only [Finset.mul_sum]
    rw [Finset.sum_comm]
    refine Finset.sum_congr rfl fun j _ => ?_
    rw [Matrix.mul_apply, Finset.sum_mul]
    exact Finset.sum_congr rfl fun l _ => by ring
  rw [e] at h4
  refine (abs_sub_le _ _ _).trans ((add_le_add h3 ((abs_sub_le _ _ _).trans (add_le_add h4 h6))).trans
    (le_of_eq ?_))
  have : 2 * h + (2 * h + 0) = 4 * h := by omega
  rw [this]
  ring

/-! ### Second order tensors -/

theorem sandwich_le {A B : Matrix (Fin n) (Fin n) K} {C : Matrix (Fin n) (Fin n) K} {a b X : K}
    (hA0 : ∀ i j, 0 ≤ A i j) (hB0 : ∀ i j, 0 ≤ B i j)
    (hA : ∀ i, ∑ j, A i j ≤ a) (hB : ∀ i, ∑ j, B i j ≤ b) (ha : 0 ≤ a) (hX : 0 ≤ X)
    (hC : ∀ i j, C i j ≤ X) (i j : Fin n) : (A * C * B.transpose) i j ≤ a * b * X := by
  rw [Matrix.mul_apply]
  calc ∑ k, (A * C) i k * B.transpose k j ≤ ∑ k, (a * X) * B j k := by
        refine Finset.sum_le_sum fun k _ => mul_le_mul_of_nonneg_right ?_ (hB0 j k)
        rw [Matrix.mul_apply]
        exact row_vec hA0 hA hX (fun l => hC l k) i
    _ = (a * X) * ∑ k, B j k := by rw [Finset.mul_sum]
    _ ≤ (a * X) * b := mul_le_mul_of_nonneg_left (hB j) (mul_nonneg ha hX)
    _ = a * b * X := by ring

theorem showTensor_near {fl : K → K} {u : K} (hu : Precise fl u) {h : ℕ} {p : Plans n}
    (hp : Complete h p) (S T : RFrames.Frame n K) {k : ℕ} {A A' B : Matrix (Fin n) (Fin n) K}
    (hA : NearM u k B A A') :
    NearM u (4 * h + k) (((T.dual.map fun x => |x|) * (S.axes.transpose.map fun x => |x|)) * B *
      ((T.dual.map fun x => |x|) * (S.axes.transpose.map fun x => |x|)).transpose)
      (showTensor fl p S T A) ((T.dual * S.axes.transpose) * A' * (T.dual * S.axes.transpose).transpose) := by
  have hd := dcm_near hu hp S T
  have h1 := matmul_near hu p.left hp.2.2.1 hd hA
  have h2 := matmul_near hu p.right hp.2.2.2 h1 hd.transpose
  exact fun i j => (h2 i j).more hu.nonneg (by omega)

/-- C103: shown in another frame and back, a second order tensor has its components up to rounding. -/
theorem C103_tensor_round_trip (fl : K → K) (u : K) (hu : Precise fl u) (h : ℕ) (p q : Plans n)
    (hp : Complete h p) (hq : Complete h q) (c ε : K) (S T : RFrames.Frame n K) (hS : Sound c ε S)
    (hT : Sound c ε T) (A : Matrix (Fin n) (Fin n) K) (X : K) (hA : ∀ i j, |A i j| ≤ X)
    (i j : Fin n) :
    |showTensor fl q T S (showTensor fl p S T A) i j - A i j| ≤
      (((1 + u) ^ (8 * h) - 1) * c ^ 8 + ((1 + (ε * c ^ 2 + ε)) ^ 2 - 1)) * X := by
  obtain ⟨hε, hc⟩ := eps_nonneg hS i
  have hX : 0 ≤ X := (abs_nonneg _).trans (hA i i)
  have h1 := showTensor_near hu hp S T (k := 0) (B := fun _ _ => X)
    (fun i j => Near.exact (A i j) X (hA i j))
  have h2 := (showTensor_near hu hq T S h1 i j).1
  have hcc : 0 ≤ c * c := mul_nonneg hc hc
  have b1 := sandwich_le (bound_nonneg S T) (bound_nonneg S T) (bound_row hS hT hc) (bound_row hS hT hc)
    hcc hX (C := fun _ _ => X) (fun _ _ => le_rfl)
  have b2 := sandwich_le (bound_nonneg T S) (bound_nonneg T S) (bound_row hT hS hc) (bound_row hT hS hc)
    hcc (mul_nonneg (mul_nonneg hcc hcc) hX) b1 i j
  have h3 := h2.trans (mul_le_mul_of_nonneg_left b2 (pow_sub_nonneg hu.nonneg _))
  -- the exact round trip
  set R := (S.dual * T.axes.transpose) * (T.dual * S.axes.transpose) - 1 with hR
  set ρ := c * ε * c + ε with hρ
  have hρ0 : 0 ≤ ρ := add_nonneg (mul_nonneg (mul_nonneg hc hε) hc) hε
  have hrow := trip_row hS hT hc hε
  rw [← hR, ← hρ] at hrow
  have e : (S.dual * T.axes.transpose) *
      ((T.dual * S.axes.transpose) * A * (T.dual * S.axes.transpose).transpose) *
      (S.dual * T.axes.transpose).transpose = A + R * A + A * R.transpose + R * A * R.transpose := by
    have hM : (S.dual * T.axes.transpose) * (T.dual * S.axes.transpose) = R + 1 := by
      rw [hR]; abel
    have hM' : (T.dual * S.axes.transpose).transpose * (S.dual * T.axes.transpose).transpose =
        R.transpose + 1 := by
      rw [← Matrix.transpose_mul, hM, Matrix.transpose_add, Matrix.transpose_one]
    calc _ = ((S.dual * T.axes.transpose) * (T.dual * S.axes.transpose)) * A *
          ((T.dual * S.axes.transpose).transpose * (S.dual * T.axes.transpose).transpose) := by
          simp only [Matrix.mul_assoc]
      _ = _ := by
          rw [hM, hM']
          simp only [Matrix.add_mul, Matrix.mul_add, Matrix.one_mul, Matrix.mul_one]
          abel
  have absmul : ∀ (P Q : Matrix (Fin n) (Fin n) K) (i j : Fin n), |(P * Q) i j| ≤
      ((P.map fun x => |x|) * (Q.map fun x => |x|)) i j := by
    intro P Q i j
    rw [Matrix.mul_apply, Matrix.mul_apply]
    refine (Finset.abs_sum_le_sum_abs _ _).trans (le_of_eq (Finset.sum_congr rfl fun k _ => ?_))
    rw [abs_mul]
    rfl
  have r1 : ∀ i j, |(R * A) i j| ≤ ρ * X := fun i j => by
    rw [Matrix.mul_apply]
    exact abs_row_vec hrow hX (fun l => hA l j) i
  have r2 : |(A * R.transpose) i j| ≤ ρ * X := by
    rw [Matrix.mul_apply]
    have := abs_row_vec hrow hX (fun l => hA i l) j
    rw [show ∑ l, A i l * R.transpose l j = ∑ l, R j l * A i l from
      Finset.sum_congr rfl fun l _ => mul_comm _ _]
    exact this
  have r3 : |(R * A * R.transpose) i j| ≤ ρ * (ρ * X) := by
    rw [Matrix.mul_apply]
    have := abs_row_vec hrow (mul_nonneg hρ0 hX) (fun l => r1 i l) j
    rw [show ∑ l, (R * A) i l * R.transpose l j = ∑ l, R j l * (R * A) i l from
      Finset.sum_congr rfl fun l _ => mul_comm _ _]
    exact this
  rw [e] at h3
  have h4 : |(A + R * A + A * R.transpose + R * A * R.transpose) i j - A i j| ≤
      ((1 + ρ) ^ 2 - 1) * X := by
    have e2 : (A + R * A + A * R.transpose + R * A * R.transpose) i j - A i j =
        (R * A) i j + (A * R.transpose) i j + (R * A * R.transpose) i j := by
      simp only [Matrix.add_apply]
      ring
    rw [e2]
    have t1 := abs_add_le ((R * A) i j + (A * R.transpose) i j) ((R * A * R.transpose) i j)
    have t2 := abs_add_le ((R * A) i j) ((A * R.transpose) i j)
    have := r1 i j
    nlinarith
  refine (abs_sub_le _ _ _).trans ((add_le_add h3 h4).trans (le_of_eq ?_))
  have h8 : 4 * h + (4 * h + 0) = 8 * h := by omega
  rw [h8, hρ]
  ring

/-! ### Frames along the ambient axes -/

/-- The axes are those of the ambient frame, up to order and direction. -/
def Along (A : Matrix (Fin n) (Fin n) K) : Prop :=
  ∃ (σ : Equiv.Perm (Fin n)) (s : Fin n → K), (∀ i, s i = 1 ∨ s i = -1) ∧
    ∀ i j, A i j = if j = σ i then s i else 0

theorem eval_single {fl : K → K} (hfl : IsRounding fl) (a b : Fin n → K) (k : Fin n)
    (hak : a k = 1 ∨ a k = -1) (ha : ∀ i, i ≠ k → a i = 0) (hb : fl (b k) = b k) (p : Plan n)
    (hp : p.terms.Nodup) : p.eval fl a b = if k ∈ p.terms then a k * b k else 0 := by
  have hr : fl (a k * b k) = a k * b k := by
    rcases hak with h | h <;> rw [h]
    · rw [one_mul, hb]
    · rw [neg_one_mul, hfl.neg, hb]
  have hterm : ∀ i, a i * b i = if k = i then a k * b k else 0 := by
    intro i
    by_cases h : k = i
    · subst h; simp
    · rw [if_neg h, ha i (Ne.symm h), zero_mul]
  induction p with
  | zero => simp [Plan.eval, Plan.terms]
  | prod i =>
    simp only [Plan.eval, Plan.terms, List.mem_singleton]
    rw [hterm]
    split
    · exact hr
    · exact hfl.zero
  | add l r hl hr' =>
    simp only [Plan.terms] at hp
    rw [List.nodup_append] at hp
    simp only [Plan.eval, Plan.terms, List.mem_append]
    rw [hl hp.1, hr' hp.2.1]
    by_cases h1 : k ∈ l.terms
    · have h2 : k ∉ r.terms := fun h2 => hp.2.2 k h1 k h2 rfl
      simp [h1, h2, hr]
    · by_cases h2 : k ∈ r.terms
      · simp [h1, h2, hr]
      · simp [h1, h2, hfl.zero]
  | fma l i hl =>
    simp only [Plan.terms] at hp
    rw [List.nodup_append] at hp
    simp only [Plan.eval, Plan.terms, List.mem_append, List.mem_singleton]
    rw [hl hp.1, hterm i]
    by_cases h1 : k ∈ l.terms
    · have h2 : k ≠ i := fun h2 => hp.2.2 k h1 i (by simp) h2
      rw [if_pos h1, if_neg h2, add_zero, hr, if_pos (.inl h1)]
    · by_cases h2 : k = i
      · rw [if_neg h1, if_pos h2, zero_add, hr, if_pos (.inr h2)]
      · rw [if_neg h1, if_neg h2, add_zero, hfl.zero, if_neg (by tauto)]

theorem eval_along {fl : K → K} (hfl : IsRounding fl) (a b : Fin n → K) (k : Fin n)
    (hak : a k = 1 ∨ a k = -1) (ha : ∀ i, i ≠ k → a i = 0) (hb : fl (b k) = b k) (p : Plan n)
    (hp : p.terms.Perm (List.finRange n)) : p.eval fl a b = a k * b k := by
  rw [eval_single hfl a b k hak ha hb p (hp.nodup_iff.2 (List.nodup_finRange n)),
    if_pos (hp.mem_iff.2 (List.mem_finRange k))]

/-- C103: between frames along the ambient axes components are exact, whatever the rounding: they are
exchanged and change their signs. -/
theorem C103_axes_exact (fl : K → K) (hfl : IsRounding fl) (h : ℕ) (p : Plans n) (hp : Complete h p)
    (S T : RFrames.Frame n K) (hS : Along S.axes) (hT : Along T.dual) (x : Fin n → K)
    (hx : ∀ i, fl (x i) = x i) (i : Fin n) :
    showVector fl p S T x i = ∑ l, T.dual i l * ∑ j, S.axes j l * x j := by
  obtain ⟨σ, s, hs, hσ⟩ := hT
  obtain ⟨τ, t, ht, hτ⟩ := hS
  have hSfl : ∀ j l, fl (S.axes j l) = S.axes j l := by
    intro j l
    rw [hτ]
    split
    · rcases ht j with h | h <;> rw [h]
      · exact hfl.one
      · rw [hfl.neg, hfl.one]
    · exact hfl.zero
  have hdcm : ∀ i j, dcm fl p S T i j = s i * S.axes j (σ i) := by
    intro i j
    have := eval_along hfl (T.dual i) (fun k => S.axes.transpose k j) (σ i)
      (by rw [hσ, if_pos rfl]; exact hs i) (fun l hl => by rw [hσ, if_neg hl])
      (hSfl j (σ i)) (p.dcm i j) (hp.1 i j).1
    rw [hσ, if_pos rfl] at this
    exact this
  have hrow : ∀ j, dcm fl p S T i j = if j = τ.symm (σ i) then s i * t j else 0 := by
    intro j
    rw [hdcm, hτ]
    by_cases hj : σ i = τ j
    · rw [if_pos hj, if_pos (by rw [hj]; simp)]
    · rw [if_neg hj, if_neg (fun h => hj (by rw [h]; simp)), mul_zero]
  have hval : showVector fl p S T x i = s i * t (τ.symm (σ i)) * x (τ.symm (σ i)) := by
    have := eval_along hfl (dcm fl p S T i) x (τ.symm (σ i))
      (by
        rw [hrow, if_pos rfl]
        rcases hs i with h | h <;> rcases ht (τ.symm (σ i)) with h' | h' <;> rw [h, h'] <;> simp)
      (fun l hl => by rw [hrow, if_neg hl]) (hx _) (p.vec i) (hp.2.1 i).1
    rw [hrow, if_pos rfl] at this
    exact this
  rw [hval]
  have e1 : ∀ l, T.dual i l * ∑ j, S.axes j l * x j =
      if l = σ i then s i * ∑ j, S.axes j (σ i) * x j else 0 := by
    intro l
    rw [hσ]
    split
    · rename_i h; rw [h]
    · rw [zero_mul]
  simp only [e1, Finset.sum_ite_eq', Finset.mem_univ, if_true]
  have e2 : ∀ j, S.axes j (σ i) * x j = if j = τ.symm (σ i) then t j * x j else 0 := by
    intro j
    rw [hτ]
    by_cases hj : σ i = τ j
    · rw [if_pos hj, if_pos (by rw [hj]; simp)]
    · rw [if_neg hj, if_neg (fun h => hj (by rw [h]; simp)), zero_mul]
  simp only [e2, Finset.sum_ite_eq', Finset.mem_univ, if_true]
  ring

end

/-! ### Non-vacuity -/

/-- A Cartesian frame turned by about 53 degrees, in double precision. -/
def turned : RFrames.Frame 2 ℚ :=
  let A := !![binary 53 (3 / 5), binary 53 (4 / 5); binary 53 (-4 / 5), binary 53 (3 / 5)]
  ⟨A, A⟩

/-- The ambient frame with its axes exchanged, one of them reversed. -/
def swapped : RFrames.Frame 2 ℚ := ⟨!![0, -1; 1, 0], !![0, -1; 1, 0]⟩

/-- Loops. -/
def loops (n : ℕ) : Plans n :=
  ⟨fun _ _ => loopPlan n, fun _ => fmaPlan n, fun _ _ => loopPlan n, fun _ _ => fmaPlan n⟩

theorem loops_complete (n : ℕ) : Complete (n + 1) (loops n) :=
  ⟨fun _ _ => loopPlan_complete n, fun _ => fmaPlan_complete n, fun _ _ => loopPlan_complete n,
    fun _ _ => fmaPlan_complete n⟩

/-- The hypotheses hold for double precision numbers, loops and Cartesian frames; the bound for the
round trip is then less than `1e-13` times the largest component. -/
example : Precise (binary 53) (1 / 2 ^ 53) ∧ Complete 3 (loops 2) ∧ Sound 2 (1 / 10 ^ 15) turned ∧
    Sound 2 (1 / 10 ^ 15) swapped ∧
    ((1 + 1 / 2 ^ 53 : ℚ) ^ (4 * 3) - 1) * 2 ^ 4 + 1 / 10 ^ 15 * 2 ^ 2 + 1 / 10 ^ 15 < 1 / 10 ^ 13 :=
  ⟨Rnd.Props.double_rounding.2.1, loops_complete 2,
    ⟨by decide +kernel, by decide +kernel, by decide +kernel, by decide +kernel⟩,
    ⟨by decide +kernel, by decide +kernel, by decide +kernel, by decide +kernel⟩, by norm_num⟩

example : IsRounding (binary 53) ∧ Along swapped.axes ∧ Along swapped.dual :=
  ⟨Rnd.Props.double_rounding.1, ⟨Equiv.swap 0 1, ![-1, 1], by decide +kernel, by
      intro i j; fin_cases i <;> fin_cases j <;> simp [swapped]⟩,
    ⟨Equiv.swap 0 1, ![-1, 1], by decide +kernel, by
      intro i j; fin_cases i <;> fin_cases j <;> simp [swapped]⟩⟩

/-- A round trip that is not exact: the bounds cannot be replaced by zero. -/
theorem round_trip_inexact : ∃ x : Fin 2 → ℚ, (∀ i, binary 53 (x i) = x i) ∧
    showVector (binary 53) (loops 2) turned swapped
      (showVector (binary 53) (loops 2) swapped turned x) ≠ x :=
  ⟨![0, 1], by decide +kernel, by decide +kernel⟩

end Verif.RFrames.Props
