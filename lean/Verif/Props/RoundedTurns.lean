import Verif.Proofs.RoundedTurns
import Mathlib.Algebra.Order.Ring.Pow

/-!
# Properties of repeated rotations with rounded arithmetic (C107)
-/

set_option linter.unusedSectionVars false

namespace Verif.RFrames.Props
open Verif Verif.Rnd Verif.RFrames

section
variable {K : Type} [Field K] [LinearOrder K] [IsStrictOrderedRing K] {n : ℕ}

/-- The vector with the components `x` in a frame with the axes `A`, in the ambient frame. -/
def world (A : Matrix (Fin n) (Fin n) K) (x : Fin n → K) (j : Fin n) : K := ∑ i, A i j * x i

/-- The lengths of the axes are one and their scalar products are zero up to `ε`. -/
def Orthonormal (ε : K) (A : Matrix (Fin n) (Fin n) K) : Prop :=
  ∀ i j, |(∑ l, A i l * A j l) - (if i = j then 1 else 0)| ≤ ε

/-- A call of `orient` with a rotation matrix that is orthogonal up to `δ`, all scalar products of which
make use of each component once, with at most `h` roundings on the way to each result. -/
def Proper (h : ℕ) (δ : K) (t : Turn n K) : Prop :=
  Orthonormal δ t.rot ∧ (∀ i j, (t.plan i j).terms.Perm (List.finRange n) ∧ (t.plan i j).height ≤ h) ∧
    Complete h t.upd

theorem orthonormal_iff (ε : K) (A : Matrix (Fin n) (Fin n) K) : Orthonormal ε A ↔ HalfOrth ε A := by
  simp only [Orthonormal, HalfOrth, Matrix.sub_apply, Matrix.mul_apply, Matrix.transpose_apply,
    Matrix.one_apply]

/-- The growth of the defect in one rotation. -/
def growth (n h : ℕ) (u δ : K) : K := 4 * (n : K) ^ 2 * δ + 48 * (n : K) ^ 3 * ((1 + u) ^ h - 1)

theorem growth_nonneg (n h : ℕ) {u δ : K} (hu : 0 ≤ u) (hδ : 0 ≤ δ) : 0 ≤ growth n h u δ := by
  have := pow_sub_nonneg hu h
  unfold growth
  positivity

theorem orient_step {fl : K → K} {u : K} (hu : Precise fl u) {h : ℕ} (hγ : (1 + u) ^ h ≤ 2) {ε δ : K}
    (hε : 0 ≤ ε) (hε1 : ε ≤ 1) (hδ : 0 ≤ δ) (hδ1 : δ ≤ 1) {t : Turn n K} (ht : Proper h δ t)
    {A : Matrix (Fin n) (Fin n) K} (hA : Orthonormal ε A) :
    Orthonormal (ε + growth n h u δ) (orientAxes fl t.plan t.rot A) := by
  rw [orthonormal_iff] at *
  have hR := (orthonormal_iff _ _).1 ht.1
  set γ := (1 + u) ^ h - 1 with hγd
  have hγ0 : 0 ≤ γ := pow_sub_nonneg hu.nonneg h
  have hγ1 : γ ≤ 1 := by rw [hγd]; linarith
  have hn : (0 : K) ≤ n := Nat.cast_nonneg n
  have he : ∀ i j, |(orientAxes fl t.plan t.rot A - A * t.rot) i j| ≤ 4 * n * γ := by
    intro i j
    refine (orient_near hu ht.2.1 hε hδ hA hR i j).trans ?_
    rw [← hγd]
    calc γ * (n * ((1 + ε) * (1 + δ))) ≤ γ * (n * ((1 + 1) * (1 + 1))) := by gcongr
      _ = 4 * n * γ := by ring
  intro i j
  refine (half_step hε hδ (by positivity) hA hR he i j).trans ?_
  unfold growth
  rw [← hγd]
  have h1 : (n : K) ^ 2 * δ * (1 + ε) ^ 2 ≤ (n : K) ^ 2 * δ * (1 + 1) ^ 2 := by gcongr
  have h2 : 2 * (n : K) ^ 2 * (4 * n * γ) * (1 + ε) * (1 + δ) ≤
      2 * (n : K) ^ 2 * (4 * n * γ) * (1 + 1) * (1 + 1) := by gcongr
  have h3 : (n : K) * (4 * n * γ) ^ 2 ≤ 16 * (n : K) ^ 3 * γ := by
    have : (n : K) * (4 * n * γ) ^ 2 = 16 * (n : K) ^ 3 * (γ * γ) := by ring
    rw [this]
    have : γ * γ ≤ γ := by nlinarith
    gcongr
  nlinarith

/-- C107: after any number of rotations the axes of a Cartesian frame are orthonormal up to a defect
that is proportional to the number of rotations. -/
theorem C107_drift (fl : K → K) (u : K) (hu : Precise fl u) (h : ℕ) (hγ : (1 + u) ^ h ≤ 2) (ε δ : K)
    (hε : 0 ≤ ε) (hδ : 0 ≤ δ) (hδ1 : δ ≤ 1)
    (dual : Matrix (Fin n) (Fin n) K → Matrix (Fin n) (Fin n) K) (l : List (Turn n K))
    (hl : ∀ t ∈ l, Proper h δ t) (s : Rig n K) (hs : Orthonormal ε s.axes)
    (hk : ε + l.length * growth n h u δ ≤ 1) :
    Orthonormal (ε + l.length * growth n h u δ) (turns fl dual s l).axes := by
  have hg := growth_nonneg n h hu.nonneg hδ
  induction l generalizing s ε with
  | nil => simpa [turns] using hs
  | cons t l ih =>
    have hlen : ((t :: l).length : K) = l.length + 1 := by push_cast [List.length_cons]; ring
    have h0 : 0 ≤ (l.length : K) * growth n h u δ := by positivity
    rw [hlen, add_mul, one_mul] at hk
    have h1 := orient_step hu hγ hε (by linarith) hδ hδ1 (hl t (by simp)) hs
    have h2 := ih (ε + growth n h u δ) (by linarith) (fun t ht => hl t (by simp [ht]))
      (turn fl dual s t) h1 (by linarith)
    have e : ε + growth n h u δ + l.length * growth n h u δ =
        ε + ((t :: l).length : K) * growth n h u δ := by rw [hlen]; ring
    rw [e] at h2
    exact h2

/-- The product of the rotation matrices is orthogonal up to a defect proportional to their number. -/
theorem prod_orth {δ : K} (hδ : 0 ≤ δ) (l : List (Matrix (Fin n) (Fin n) K))
    (hl : ∀ R ∈ l, Orthonormal δ R) (hk : l.length * (4 * (n : K) ^ 2 * δ) ≤ 1) :
    HalfOrth (l.length * (4 * (n : K) ^ 2 * δ)) l.prod := by
  induction l using List.reverseRecOn with
  | nil => intro i j; simp
  | append_singleton l R ih =>
    have hlen : ((l ++ [R]).length : K) = l.length + 1 := by push_cast [List.length_append]; simp
    have h0 : 0 ≤ 4 * (n : K) ^ 2 * δ := by positivity
    have h1 : 0 ≤ (l.length : K) * (4 * (n : K) ^ 2 * δ) := by positivity
    rw [hlen, add_mul, one_mul] at hk ⊢
    have h2 := ih (fun R hR => hl R (by simp [hR])) (by linarith)
    have h3 := half_step h1 hδ le_rfl h2 ((orthonormal_iff _ _).1 (hl R (by simp)))
      (B := l.prod * R) (by simp)
    rw [List.prod_append, List.prod_singleton]
    intro i j
    refine (h3 i j).trans ?_
    have : (n : K) ^ 2 * δ * (1 + l.length * (4 * (n : K) ^ 2 * δ)) ^ 2 ≤
        (n : K) ^ 2 * δ * (1 + 1) ^ 2 := by
      gcongr
      linarith
    nlinarith

/-- C107: the axes after any number of rotations are the axes multiplied by all rotation matrices, up to
an error that is proportional to the number of rotations. -/
theorem C107_axes (fl : K → K) (u : K) (hu : Precise fl u) (h : ℕ) (hγ : (1 + u) ^ h ≤ 2) (ε δ : K)
    (hε : 0 ≤ ε) (hδ : 0 ≤ δ) (hδ1 : δ ≤ 1)
    (dual : Matrix (Fin n) (Fin n) K → Matrix (Fin n) (Fin n) K) (l : List (Turn n K))
    (hl : ∀ t ∈ l, Proper h δ t) (s : Rig n K) (hs : Orthonormal ε s.axes)
    (hk : ε + l.length * growth n h u δ ≤ 1) (i j : Fin n) :
    |(turns fl dual s l).axes i j - (s.axes * (l.map Turn.rot).prod) i j| ≤
      l.length * (8 * (n : K) ^ 2 * ((1 + u) ^ h - 1)) := by
  have hg := growth_nonneg n h hu.nonneg hδ
  set γ := (1 + u) ^ h - 1 with hγd
  have hγ0 : 0 ≤ γ := pow_sub_nonneg hu.nonneg h
  induction l generalizing s ε with
  | nil => simp [turns]
  | cons t l ih =>
    have hlen : ((t :: l).length : K) = l.length + 1 := by push_cast [List.length_cons]; ring
    have h0 : 0 ≤ (l.length : K) * growth n h u δ := by positivity
    rw [hlen, add_mul, one_mul] at hk
    have hA := orient_step hu hγ hε (by linarith) hδ hδ1 (hl t (by simp)) hs
    have h1 := ih (ε + growth n h u δ) (by linarith) (fun t ht => hl t (by simp [ht]))
      (turn fl dual s t) hA (by linarith)
    have hP : HalfOrth (1 : K) (l.map Turn.rot).prod := by
      have hle : ((l.map Turn.rot).length : K) * (4 * (n : K) ^ 2 * δ) ≤ 1 := by
        rw [List.length_map]
        have : (l.length : K) * (4 * (n : K) ^ 2 * δ) ≤ l.length * growth n h u δ := by
          refine mul_le_mul_of_nonneg_left ?_ (Nat.cast_nonneg _)
          unfold growth
          rw [← hγd]
          have : 0 ≤ 48 * (n : K) ^ 3 * γ := by positivity
          linarith
        linarith
      have := prod_orth hδ (l.map Turn.rot) (by
        intro R hR
        obtain ⟨t, ht, rfl⟩ := List.mem_map.1 hR
        exact (hl t (by simp [ht])).1) hle
      exact fun i j => (this i j).trans hle
    have hE : ∀ i j, |(orientAxes fl t.plan t.rot s.axes - s.axes * t.rot) i j| ≤ 4 * n * γ := by
      intro i j
      refine (orient_near hu (hl t (by simp)).2.1 hε hδ ((orthonormal_iff _ _).1 hs)
        ((orthonormal_iff _ _).1 (hl t (by simp)).1) i j).trans ?_
      rw [← hγd]
      have : ε ≤ 1 := by linarith
      calc γ * (n * ((1 + ε) * (1 + δ))) ≤ γ * (n * ((1 + 1) * (1 + 1))) := by gcongr
        _ = 4 * n * γ := by ring
    have h2 := entry_mul hE (by positivity) (hP.entry zero_le_one) i j
    have e : (turns fl dual s (t :: l)).axes i j - (s.axes * ((t :: l).map Turn.rot).prod) i j =
        ((turns fl dual (turn fl dual s t) l).axes i j -
          ((turn fl dual s t).axes * (l.map Turn.rot).prod) i j) +
        ((orientAxes fl t.plan t.rot s.axes - s.axes * t.rot) * (l.map Turn.rot).prod) i j := by
      rw [List.map_cons, List.prod_cons, Matrix.sub_mul, Matrix.sub_apply, Matrix.mul_assoc]
      simp only [turns, List.foldl_cons]
      have : (turn fl dual s t).axes = orientAxes fl t.plan t.rot s.axes := rfl
      rw [this]
      ring
    rw [e, hlen]
    refine (abs_add_le _ _).trans ((add_le_add h1 h2).trans (le_of_eq ?_))
    ring

/-- C107: a Cartesian frame may stand for its own dual frame: the error is proportional to the
defect of its axes. -/
theorem C107_self_dual (ε : K) (hε : 0 ≤ ε) (hε1 : ε ≤ 1) (A : Matrix (Fin n) (Fin n) K)
    (hA : Orthonormal ε A) : Sound (2 * (n : K)) ((n : K) ^ 2 * ε) ⟨A, A⟩ := by
  rw [orthonormal_iff] at hA
  have hn : (0 : K) ≤ n := Nat.cast_nonneg n
  have hsum : ∀ (b : K) (f : Fin n → K), (∀ j, f j ≤ b) → ∑ j, f j ≤ n * b := by
    intro b f hf
    calc ∑ j, f j ≤ ∑ _j : Fin n, b := Finset.sum_le_sum fun j _ => hf j
      _ = n * b := by simp
  have hent : ∀ i j, |A i j| ≤ 2 := fun i j => (hA.entry hε i j).trans (by linarith)
  refine ⟨fun i => ?_, fun i => ?_, fun i => ?_, fun i => ?_⟩
  · rw [mul_comm]; exact hsum _ _ fun j => hent i j
  · rw [mul_comm]; exact hsum _ _ fun j => hent j i
  · have h1 := hsum _ _ fun j => hA i j
    by_cases h0 : n = 0
    · exact absurd i.2 (by omega)
    have : (1 : K) ≤ n := by exact_mod_cast Nat.one_le_iff_ne_zero.2 h0
    refine h1.trans ?_
    rw [sq, mul_assoc]
    exact mul_le_mul_of_nonneg_left (by nlinarith) hn
  · refine (hsum _ _ fun j => hA.columns hε i j).trans (le_of_eq ?_)
    ring

/-- Components in a frame are bounded by those in the ambient frame. -/
theorem comps_le {c ε P : K} {S : RFrames.Frame n K} (hS : Sound c ε S) (hε : ε ≤ 1 / 2) (hP : 0 ≤ P)
    {x : Fin n → K} (hx : ∀ j, |world S.axes x j| ≤ P) (i : Fin n) : |x i| ≤ 2 * (c * P) := by
  obtain ⟨m, -, hm⟩ := Finset.exists_max_image Finset.univ (fun i => |x i|) ⟨i, Finset.mem_univ i⟩
  have hc := (eps_nonneg hS i).2
  have e : x m = (∑ j, S.dual m j * world S.axes x j) -
      ∑ j, (S.dual * S.axes.transpose - 1) m j * x j := by
    have h1 : ∑ j, (S.dual * S.axes.transpose - 1) m j * x j =
        (∑ j, (S.dual * S.axes.transpose) m j * x j) - x m := by
      simp only [Matrix.sub_apply, sub_mul, Finset.sum_sub_distrib, Matrix.one_apply, ite_mul, one_mul,
        zero_mul, Finset.sum_ite_eq, Finset.mem_univ, if_true]
    have h2 : ∑ j, (S.dual * S.axes.transpose) m j * x j = ∑ j, S.dual m j * world S.axes x j := by
      simp only [world, Matrix.mul_apply, Matrix.transpose_apply, Finset.sum_mul, Finset.mul_sum]
      rw [Finset.sum_comm]
      exact Finset.sum_congr rfl fun _ _ => Finset.sum_congr rfl fun _ _ => by ring
    rw [h1, h2]; ring
  have b1 := abs_row_vec hS.1 hP hx m
  have b2 := abs_row_vec hS.2.2.1 (abs_nonneg (x m)) (fun j => hm j (Finset.mem_univ j)) m
  have b3 : |x m| ≤ c * P + ε * |x m| := by
    calc |x m| ≤ _ := by
          conv_lhs => rw [e]
          exact abs_sub _ _
      _ ≤ _ := add_le_add b1 b2
  have b4 : |x i| ≤ |x m| := hm i (Finset.mem_univ i)
  have b5 : ε * |x m| ≤ 1 / 2 * |x m| := mul_le_mul_of_nonneg_right hε (abs_nonneg _)
  linarith

/-- One change of frames moves the vector a little. -/
theorem hand_step {fl : K → K} {u : K} (hu : Precise fl u) {h : ℕ} {p : Plans n} (hp : Complete h p)
    {c ε P : K} {S T : RFrames.Frame n K} (hS : Sound c ε S) (hT : Sound c ε T) (hε : ε ≤ 1 / 2)
    (hP : 0 ≤ P) {x : Fin n → K} (hx : ∀ j, |world S.axes x j| ≤ P) (j : Fin n) :
    |world T.axes (showVector fl p S T x) j - world S.axes x j| ≤
      (ε + 2 * c ^ 4 * ((1 + u) ^ (2 * h) - 1)) * P := by
  have hc := (eps_nonneg hS j).2
  set γ := (1 + u) ^ (2 * h) - 1 with hγ
  have hγ0 : 0 ≤ γ := pow_sub_nonneg hu.nonneg _
  have hX := comps_le hS hε hP hx
  set w := world S.axes x with hw
  set d : Fin n → K := fun i => showVector fl p S T x i - ∑ l, T.dual i l * w l with hd
  have hdb : ∀ i, |d i| ≤ γ * (c * c * (2 * (c * P))) := by
    intro i
    have h1 := (show_near hu hp S T (fun i => Near.refl u (x i)) i).1
    rw [Nat.add_zero, ← hγ] at h1
    have h2 : ∑ l, (T.dual * S.axes.transpose) i l * x l = ∑ l, T.dual i l * w l := by
      simp only [hw, world, Matrix.mul_apply, Matrix.transpose_apply, Finset.sum_mul, Finset.mul_sum]
      rw [Finset.sum_comm]
      exact Finset.sum_congr rfl fun _ _ => Finset.sum_congr rfl fun _ _ => by ring
    rw [h2] at h1
    refine h1.trans (mul_le_mul_of_nonneg_left ?_ hγ0)
    exact row_vec (bound_nonneg S T) (bound_row hS hT hc) (by positivity) hX i
  have e : world T.axes (showVector fl p S T x) j - w j =
      (∑ l, (T.axes.transpose * T.dual - 1) j l * w l) + ∑ i, T.axes.transpose j i * d i := by
    have h1 : ∑ l, (T.axes.transpose * T.dual - 1) j l * w l =
        (∑ l, (T.axes.transpose * T.dual) j l * w l) - w j := by
      simp only [Matrix.sub_apply, sub_mul, Finset.sum_sub_distrib, Matrix.one_apply, ite_mul, one_mul,
        zero_mul, Finset.sum_ite_eq, Finset.mem_univ, if_true]
    have h2 : ∑ l, (T.axes.transpose * T.dual) j l * w l =
        ∑ i, T.axes.transpose j i * ∑ l, T.dual i l * w l := by
      simp only [Matrix.mul_apply, Matrix.transpose_apply, Finset.sum_mul, Finset.mul_sum]
      rw [Finset.sum_comm]
      exact Finset.sum_congr rfl fun _ _ => Finset.sum_congr rfl fun _ _ => by ring
    rw [h1, h2]
    simp only [hd, mul_sub, Finset.sum_sub_distrib, world, Matrix.transpose_apply]
    ring
  rw [e]
  have b1 := abs_row_vec hT.2.2.2 hP hx j
  have b2 := abs_row_vec hT.2.1 (by positivity) hdb j
  refine (abs_add_le _ _).trans ((add_le_add b1 b2).trans (le_of_eq ?_))
  ring

/-- Errors of several changes of frames add up like interest. -/
theorem compound {η P : K} (k : ℕ) {v w z : Fin n → K}
    (h1 : ∀ j, |w j - v j| ≤ η * P) (h2 : ∀ j, |z j - w j| ≤ ((1 + η) ^ k - 1) * (P + η * P)) (j : Fin n) :
    |z j - v j| ≤ ((1 + η) ^ (k + 1) - 1) * P := by
  have e : z j - v j = (z j - w j) + (w j - v j) := by ring
  rw [e]
  refine (abs_add_le _ _).trans ((add_le_add (h2 j) (h1 j)).trans (le_of_eq ?_))
  ring

/-- C107: a vector that is assigned one frame after the other, any number of them, remains the same
vector up to errors that add up like interest. -/
theorem C107_hand (fl : K → K) (u : K) (hu : Precise fl u) (h : ℕ) (c ε : K) (hε0 : 0 ≤ ε)
    (hε : ε ≤ 1 / 2) (l : List (RFrames.Frame n K × Plans n))
    (hl : ∀ f ∈ l, Sound c ε f.1 ∧ Complete h f.2) (S : RFrames.Frame n K) (hS : Sound c ε S)
    (x : Fin n → K) (P : K) (hP : 0 ≤ P) (hx : ∀ j, |world S.axes x j| ≤ P) (j : Fin n) :
    |world (hand fl (S, x) l).1.axes (hand fl (S, x) l).2 j - world S.axes x j| ≤
      ((1 + (ε + 2 * c ^ 4 * ((1 + u) ^ (2 * h) - 1))) ^ l.length - 1) * P := by
  set η := ε + 2 * c ^ 4 * ((1 + u) ^ (2 * h) - 1) with hη
  have hη0 : 0 ≤ η := by
    have := pow_sub_nonneg hu.nonneg (2 * h)
    rw [hη]; positivity
  induction l generalizing S x P j with
  | nil => simp [hand]
  | cons f l ih =>
    have h1 := hand_step hu (hl f (by simp)).2 hS (hl f (by simp)).1 hε hP hx
    rw [← hη] at h1
    have h2 := ih (fun f hf => hl f (by simp [hf])) f.1 (hl f (by simp)).1 (showVector fl f.2 S f.1 x)
      (P + η * P) (by positivity) (fun j => by
        have := abs_sub_abs_le_abs_sub (world f.1.axes (showVector fl f.2 S f.1 x) j) (world S.axes x j)
        have := h1 j
        have := hx j
        linarith)
    exact compound l.length h1 h2 j

/-- C107: a vector attached to a frame remains the same vector while the frame is rotated any number of
times, up to errors that add up like interest, provided that duals of frames that are nearly orthonormal
are computed well. -/
theorem C107_turns (fl : K → K) (u : K) (hu : Precise fl u) (h : ℕ) (hγ : (1 + u) ^ h ≤ 2) (ε₀ δ : K)
    (hε₀ : 0 ≤ ε₀) (hδ : 0 ≤ δ) (hδ1 : δ ≤ 1) (c ε : K) (hε0 : 0 ≤ ε) (hε : ε ≤ 1 / 2)
    (τ : K) (hτ : τ ≤ 1) (dual : Matrix (Fin n) (Fin n) K → Matrix (Fin n) (Fin n) K)
    (hdual : ∀ A, Orthonormal τ A → Sound c ε ⟨A, dual A⟩) (l : List (Turn n K))
    (hl : ∀ t ∈ l, Proper h δ t) (s : Rig n K) (hs : Orthonormal ε₀ s.axes)
    (hk : ε₀ + l.length * growth n h u δ ≤ τ) (P : K) (hP : 0 ≤ P)
    (hx : ∀ j, |world s.axes s.comps j| ≤ P) (j : Fin n) :
    |world (turns fl dual s l).axes (turns fl dual s l).comps j - world s.axes s.comps j| ≤
      ((1 + (ε + 2 * c ^ 4 * ((1 + u) ^ (2 * h) - 1))) ^ l.length - 1) * P := by
  set η := ε + 2 * c ^ 4 * ((1 + u) ^ (2 * h) - 1) with hη
  have hη0 : 0 ≤ η := by
    have := pow_sub_nonneg hu.nonneg (2 * h)
    rw [hη]; positivity
  have hg := growth_nonneg n h hu.nonneg hδ
  induction l generalizing s ε₀ P j with
  | nil => simp [turns]
  | cons t l ih =>
    have hlen : ((t :: l).length : K) = l.length + 1 := by push_cast [List.length_cons]; ring
    have h0 : 0 ≤ (l.length : K) * growth n h u δ := by positivity
    rw [hlen, add_mul, one_mul] at hk
    have hA := orient_step hu hγ hε₀ (by linarith) hδ hδ1 (hl t (by simp)) hs
    have mono : ∀ (a : K) (A : Matrix (Fin n) (Fin n) K), a ≤ τ → Orthonormal a A → Orthonormal τ A :=
      fun a A ha hA i j => (hA i j).trans ha
    have h1 : ∀ j, |world (turn fl dual s t).axes (turn fl dual s t).comps j -
        world s.axes s.comps j| ≤ η * P := by
      rw [hη]
      exact hand_step hu (hl t (by simp)).2.2 (hdual _ (mono _ _ (by linarith) hs))
        (hdual _ (mono _ _ (by linarith) hA)) hε hP hx
    have h2 := ih (ε₀ + growth n h u δ) (by linarith) (fun t ht => hl t (by simp [ht]))
      (turn fl dual s t) hA (by linarith) (P + η * P) (by positivity) (fun j => by
        have := abs_sub_abs_le_abs_sub (world (turn fl dual s t).axes (turn fl dual s t).comps j)
          (world s.axes s.comps j)
        have := h1 j
        have := hx j
        linarith)
    exact compound l.length h1 h2 j

/-- C107: the defect really grows with the number of rotations, even if nothing is rounded but the
rotation matrix: nothing makes the axes orthonormal again, and a `CartesianFrame` nevertheless reports
an identity for its Gram matrix (`linalg/frame.py` 783-787). -/
theorem C107_exact_violated (n : ℕ) (μ : K) (hμ : 0 < μ) (upd : Plans (n + 1))
    (plan : Fin (n + 1) → Fin (n + 1) → Plan (n + 1))
    (hp : ∀ i j, (plan i j).terms.Perm (List.finRange (n + 1)))
    (dual : Matrix (Fin (n + 1)) (Fin (n + 1)) K → Matrix (Fin (n + 1)) (Fin (n + 1)) K) (k : ℕ) :
    Orthonormal (2 * μ + μ ^ 2) ((1 + μ) • (1 : Matrix (Fin (n + 1)) (Fin (n + 1)) K)) ∧
    ∀ i, 1 + 2 * k * μ ≤ ∑ l, ((turns id dual ⟨1, 0⟩ (List.replicate k ⟨(1 + μ) • 1, plan, upd⟩)).axes
      i l) ^ 2 := by
  have hsum : ∀ (a : K) (i j : Fin (n + 1)),
      (∑ l, (a • (1 : Matrix (Fin (n + 1)) (Fin (n + 1)) K)) i l * (a • (1 : Matrix (Fin (n + 1)) (Fin (n + 1)) K)) j l) =
        if i = j then a ^ 2 else 0 := by
    intro a i j
    simp only [Matrix.smul_apply, Matrix.one_apply, smul_eq_mul, mul_ite, mul_one, mul_zero, ite_mul,
      zero_mul, Finset.sum_ite_eq, Finset.mem_univ, if_true]
    by_cases h : i = j
    · subst h; simp [sq]
    · simp [h, eq_comm]
  refine ⟨fun i j => ?_, fun i => ?_⟩
  · rw [hsum]
    by_cases h : i = j
    · rw [if_pos h, if_pos h]
      have : (1 + μ) ^ 2 - 1 = 2 * μ + μ ^ 2 := by ring
      rw [this, abs_of_nonneg (by positivity)]
    · rw [if_neg h, if_neg h, sub_zero, abs_zero]
      positivity
  · have hid : Precise (id : K → K) 0 := fun x => by simp
    have step : ∀ (a : K) (x : Fin (n + 1) → K),
        (turn id dual ⟨a • 1, x⟩ ⟨(1 + μ) • 1, plan, upd⟩).axes = (a * (1 + μ)) • 1 := by
      intro a x
      funext i j
      have h1 := (matvec_near hid (h := (plan i j).height) (fun _ => plan i j)
        (fun _ => ⟨hp i j, le_rfl⟩)
        (NearM.exact ((1 + μ) • (1 : Matrix (Fin (n + 1)) (Fin (n + 1)) K)).transpose)
        (fun l => Near.exact (u := 0) ((a • (1 : Matrix (Fin (n + 1)) (Fin (n + 1)) K)) i l) _ le_rfl) j).1
      simp only [add_zero, one_pow, sub_self, zero_mul] at h1
      have h2 := eq_of_abs_sub_nonpos h1
      have h3 : (turn id dual ⟨a • 1, x⟩ ⟨(1 + μ) • 1, plan, upd⟩).axes i j =
        matvec id (fun _ => plan i j) ((1 + μ) • (1 : Matrix (Fin (n + 1)) (Fin (n + 1)) K)).transpose
          ((a • (1 : Matrix (Fin (n + 1)) (Fin (n + 1)) K)) i) j := rfl
      rw [h3, h2]
      simp only [Matrix.transpose_smul, Matrix.transpose_one, Matrix.smul_apply, Matrix.one_apply,
        smul_eq_mul, mul_ite, mul_one, mul_zero, ite_mul, zero_mul, Finset.sum_ite_eq,
        Finset.mem_univ, if_true]
      by_cases h : i = j
      · subst h; simp [mul_comm]
      · have h' : ¬ j = i := fun e => h e.symm
        simp [h, h']
    have all : ∀ (k : ℕ) (a : K) (x : Fin (n + 1) → K),
        (turns id dual ⟨a • 1, x⟩ (List.replicate k ⟨(1 + μ) • 1, plan, upd⟩)).axes =
          (a * (1 + μ) ^ k) • 1 := by
      intro k
      induction k with
      | zero => intro a x; simp [turns]
      | succ k ih =>
        intro a x
        have h1 := ih (a * (1 + μ)) (turn id dual ⟨a • 1, x⟩ ⟨(1 + μ) • 1, plan, upd⟩).comps
        rw [← step a x] at h1
        simp only [turns, List.replicate_succ, List.foldl_cons] at h1 ⊢
        rw [h1]
        congr 1
        ring
    have h1 := all k 1 0
    rw [one_smul] at h1
    rw [h1]
    have h2 := hsum (1 * (1 + μ) ^ k) i i
    rw [if_pos rfl] at h2
    simp only [← sq] at h2
    rw [h2, one_mul, ← pow_mul, mul_comm k 2]
    have := one_add_mul_le_pow (show (-2 : K) ≤ μ by linarith) (2 * k)
    push_cast at this
    linarith

end

/-! ### Non-vacuity -/

/-- A turn by about 53 degrees in double precision. -/
def quarter : Turn 2 ℚ := ⟨turned.axes, fun _ _ => loopPlan 2, loops 2⟩

/-- The hypotheses hold for ten thousand turns in double precision, starting from the ambient frame, with
frames as their own duals; the defect is then below `1e-8`. -/
example : Precise (binary 53) (1 / 2 ^ 53) ∧ (1 + 1 / 2 ^ 53 : ℚ) ^ 3 ≤ 2 ∧
    (∀ t ∈ List.replicate 10000 quarter, Proper 3 (1 / 10 ^ 15) t) ∧
    Orthonormal (0 : ℚ) (1 : Matrix (Fin 2) (Fin 2) ℚ) ∧
    (∀ A : Matrix (Fin 2) (Fin 2) ℚ, Orthonormal (1 / 10 ^ 8) A → Sound 4 (1 / 10 ^ 7) ⟨A, A⟩) ∧
    0 + 10000 * growth 2 3 (1 / 2 ^ 53 : ℚ) (1 / 10 ^ 15) ≤ 1 / 10 ^ 8 := by
  refine ⟨Rnd.Props.double_rounding.2.1, by norm_num, ?_, ?_, ?_, ?_⟩
  · intro t ht
    rw [(List.mem_replicate.1 ht).2]
    refine ⟨?_, fun _ _ => loopPlan_complete 2, loops_complete 2⟩
    unfold Orthonormal
    decide +kernel
  · unfold Orthonormal
    decide +kernel
  · intro A hA
    obtain ⟨h1, h2, h3, h4⟩ := C107_self_dual (1 / 10 ^ 8 : ℚ) (by norm_num) (by norm_num) A hA
    exact ⟨fun i => (h1 i).trans (by norm_num), fun i => (h2 i).trans (by norm_num),
      fun i => (h3 i).trans (by norm_num), fun i => (h4 i).trans (by norm_num)⟩
  · norm_num [growth]

/-- A vector handed from frame to frame. -/
example : ∀ f ∈ [(turned, loops 2), (swapped, loops 2), (turned, loops 2)],
    Sound (2 : ℚ) (1 / 10 ^ 15) f.1 ∧ Complete 3 f.2 := by
  have h : Sound (2 : ℚ) (1 / 10 ^ 15) turned ∧ Sound (2 : ℚ) (1 / 10 ^ 15) swapped :=
    ⟨⟨by decide +kernel, by decide +kernel, by decide +kernel, by decide +kernel⟩,
      ⟨by decide +kernel, by decide +kernel, by decide +kernel, by decide +kernel⟩⟩
  intro f hf
  simp only [List.mem_cons, List.not_mem_nil, or_false] at hf
  rcases hf with rfl | rfl | rfl
  exacts [⟨h.1, loops_complete 2⟩, ⟨h.2, loops_complete 2⟩, ⟨h.1, loops_complete 2⟩]

/-- The axes are no longer exactly orthonormal after the first turn. -/
example : ∑ l, ((turns (binary 53) id ⟨1, 0⟩ [quarter]).axes 0 l) ^ 2 ≠ (1 : ℚ) := by decide +kernel

end Verif.RFrames.Props
