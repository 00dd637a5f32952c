import Verif.Model.RoundedFit
import Verif.Proofs.RoundedFrames
import Verif.Proofs.LeastSq

/-!
# Lemmas about least squares with rounded arithmetic
-/

set_option linter.unusedSectionVars false

namespace Verif.RFit
open Verif Verif.Rnd Verif.Frames Verif.LS Verif.RFrames

section
variable {K : Type} [Field K] [LinearOrder K] [IsStrictOrderedRing K] {fl : K → K}
variable {dim k n r : ℕ}

theorem Near.sub {u : K} {n : ℕ} {B B' x x' y y' : K} (h : Near u n B x y) (h' : Near u n B' x' y') :
    Near u n (B + B') (x - x') (y - y') := by
  refine ⟨?_, ?_⟩
  · have e : x - x' - (y - y') = (x - y) - (x' - y') := by ring
    rw [e, mul_add]
    exact (abs_sub _ _).trans (add_le_add h.1 h'.1)
  · exact (abs_sub _ _).trans (add_le_add h.2 h'.2)

/-- The error of a complete scalar product. -/
theorem dot_near {u : K} (hu : Precise fl u) {N h m l : ℕ} {a b A B BA BB : Fin N → K} {p : Plan N}
    (hp : p.terms.Perm (List.finRange N) ∧ p.height ≤ h)
    (ha : ∀ i, Near u m (BA i) (a i) (A i)) (hb : ∀ i, Near u l (BB i) (b i) (B i)) :
    Near u (h + (m + l)) (∑ i, BA i * BB i) (p.eval fl a b) (∑ i, A i * B i) := by
  have := eval_near hu a b A B BA BB ha hb p
  rw [terms_sum hp.1, terms_sum hp.1] at this
  exact this.more hu.nonneg (by have := hp.2; omega)

theorem moments_foldl {u : K} (hu : Precise fl u) (w : Fin n → K) (b bh : Fin n → Fin k → K)
    (hb : ∀ i q, Near u 1 |b i q| (bh i q) (b i q)) (p q : Fin k) (l : List (Fin n)) :
    ∀ (m : ℕ) (_ : 4 ≤ m) (S : Mat k K) (s B : K), Near u m B (S p q) s →
      Near u (m + l.length) (B + (l.map fun i => |b i p * b i q * w i|).sum)
        (l.foldl (fun A i => Matrix.of fun p q => fl (A p q + fl (fl (bh i p * bh i q) * w i))) S p q)
        (s + (l.map fun i => b i p * b i q * w i).sum) := by
  have hu0 := hu.nonneg
  induction l with
  | nil => intro m _ S s B h; simpa using h
  | cons i l ih =>
    intro m hm S s B h
    have h1 : Near u 3 (|b i p| * |b i q|) (fl (bh i p * bh i q)) (b i p * b i q) :=
      (Near.mul2 hu0 (hb i p) (hb i q)).round hu
    have h2 : Near u 4 |b i p * b i q * w i| (fl (fl (bh i p * bh i q) * w i)) (b i p * b i q * w i) := by
      have := (h1.mul (w i)).round hu
      rwa [← abs_mul, ← abs_mul] at this
    have h3 := (h.add (h2.more hu0 hm)).round hu
    have := ih (m + 1) (by omega)
      (Matrix.of fun p q => fl (S p q + fl (fl (bh i p * bh i q) * w i))) _ _ h3
    rw [List.foldl_cons, List.map_cons, List.sum_cons, List.map_cons, List.sum_cons, List.length_cons,
      show m + (l.length + 1) = m + 1 + l.length by omega, ← add_assoc, ← add_assoc]
    exact this

/-- The error of the entries of the moment matrices. -/
theorem moments_near {u : K} (hu : Precise fl u) (w : Fin n → K) (b bh : Fin n → Fin k → K)
    (hb : ∀ i q, Near u 1 |b i q| (bh i q) (b i q)) (p q : Fin k) :
    Near u (n + 4) (∑ i, |b i p * b i q * w i|) (moments fl w bh p q) (∑ i, b i p * b i q * w i) := by
  have := moments_foldl hu w b bh hb p q (List.finRange n) 4 le_rfl 0 0 0 (by simp [Near])
  rw [zero_add, zero_add, List.length_finRange, ← List.ofFn_eq_map, ← List.ofFn_eq_map, List.sum_ofFn,
    List.sum_ofFn] at this
  exact this.more hu.nonneg (by omega)

theorem columns_near {u : K} (hu : Precise fl u) (w : Fin n → K) (b bh : Fin n → Fin k → K)
    (hb : ∀ i q, Near u 1 |b i q| (bh i q) (b i q)) (p : Fin k) (i : Fin n) :
    Near u 3 |b i p * w i| (columns fl w bh p i) (b i p * w i) := by
  have := ((hb i p).mul (w i)).round hu
  rw [← abs_mul] at this
  have h2 := this.round hu
  unfold columns
  rw [Matrix.of_apply, zero_add]
  exact h2

/-! ## Sums -/

theorem sum_mul_le {ι : Type} [Fintype ι] {a b : ι → K} {A B : K} (ha : ∀ i, 0 ≤ a i)
    (hb : ∀ i, b i ≤ B) (hB : 0 ≤ B) (hA : ∑ i, a i ≤ A) : ∑ i, a i * b i ≤ A * B :=
  calc ∑ i, a i * b i ≤ ∑ i, a i * B :=
        Finset.sum_le_sum fun i _ => mul_le_mul_of_nonneg_left (hb i) (ha i)
    _ = (∑ i, a i) * B := by rw [Finset.sum_mul]
    _ ≤ A * B := mul_le_mul_of_nonneg_right hA hB

/-- A moment matrix of absolute values between two vectors. -/
theorem moment_sum (w : Fin n → K) (b : Fin n → Fin k → K) (c d : Fin k → K) :
    ∑ s, |c s| * ∑ p, (∑ i, |b i s * b i p * w i|) * |d p| =
      ∑ i, |w i| * (∑ p, |b i p| * |d p|) * ∑ s, |c s| * |b i s| := by
  simp only [Finset.sum_mul, Finset.mul_sum]
  rw [Finset.sum_comm]
  refine (Finset.sum_congr rfl fun p _ => Finset.sum_comm).trans ?_
  rw [Finset.sum_comm]
  refine Finset.sum_congr rfl fun i _ => ?_
  rw [Finset.sum_comm]
  refine Finset.sum_congr rfl fun s _ => Finset.sum_congr rfl fun p _ => ?_
  rw [abs_mul, abs_mul]
  ring

/-- What the inverse is off leads to. -/
theorem residual {ε ρ g τ C W : K} (hε0 : 0 ≤ ε) (hρ0 : 0 ≤ ρ) (hg0 : 0 ≤ g)
    (w : Fin n → K) (b : Fin n → Fin k → K) (c : Fin k → K)
    (A R : Mat k K) (hA : ∀ p q, |A p q - ∑ i, b i p * b i q * w i| ≤ g * ∑ i, |b i p * b i q * w i|)
    (hε : ∀ i j, |(A * R) i j - (1 : Mat k K) i j| ≤ ε) (hρ : ∀ i j, |R i j| ≤ ρ)
    (hC : ∑ s, |c s| ≤ C)
    (hW : ∑ i, |w i| * (∑ p, |b i p|) * (∑ s, |c s| * |b i s|) ≤ W)
    (t : Fin k → K) (ht : ∑ q, |t q| ≤ τ) :
    |∑ s, c s * (∑ p, (∑ i, b i s * b i p * w i) * ∑ q, R p q * t q) - ∑ s, c s * t s| ≤
      (ε * C + g * ρ * W) * τ := by
  set M : Mat k K := fun p q => ∑ i, b i p * b i q * w i with hM
  set E : Mat k K := fun p q => A p q - M p q with hE
  have hτ0 : 0 ≤ τ := (Finset.sum_nonneg fun q _ => abs_nonneg (t q)).trans ht
  have key : ∑ s, c s * (∑ p, M s p * ∑ q, R p q * t q) - ∑ s, c s * t s =
      ∑ s, c s * (∑ q, ((A * R) s q - (1 : Mat k K) s q) * t q) -
        ∑ s, c s * ∑ p, E s p * ∑ q, R p q * t q := by
    rw [← Finset.sum_sub_distrib, ← Finset.sum_sub_distrib]
    refine Finset.sum_congr rfl fun s _ => ?_
    rw [← mul_sub, ← mul_sub]
    congr 1
    have h1 : ∑ q, ((A * R) s q - (1 : Mat k K) s q) * t q = ∑ p, A s p * ∑ q, R p q * t q - t s := by
      simp only [sub_mul, Finset.sum_sub_distrib]
      congr 1
      · have := congrFun (Matrix.mulVec_mulVec t A R) s
        simp only [Matrix.mulVec, dotProduct] at this
        exact this.symm
      · have := congrFun (Matrix.one_mulVec t) s
        simp only [Matrix.mulVec, dotProduct] at this
        exact this
    rw [h1]
    simp only [hE, sub_mul, Finset.sum_sub_distrib]
    ring
  show |∑ s, c s * (∑ p, M s p * ∑ q, R p q * t q) - ∑ s, c s * t s| ≤ _
  rw [key]
  have e1 : |∑ s, c s * (∑ q, ((A * R) s q - (1 : Mat k K) s q) * t q)| ≤ C * (τ * ε) := by
    refine (Finset.abs_sum_le_sum_abs _ _).trans ?_
    simp only [abs_mul]
    refine sum_mul_le (fun s => abs_nonneg _) (fun s => ?_) (mul_nonneg hτ0 hε0) hC
    refine (Finset.abs_sum_le_sum_abs _ _).trans ?_
    simp only [abs_mul]
    simp only [mul_comm _ |t _|]
    exact sum_mul_le (fun q => abs_nonneg _) (fun q => hε s q) hε0 ht
  have hRt : ∀ p, |∑ q, R p q * t q| ≤ τ * ρ := by
    intro p
    refine (Finset.abs_sum_le_sum_abs _ _).trans ?_
    simp only [abs_mul]
    simp only [mul_comm |R _ _|]
    exact sum_mul_le (fun q => abs_nonneg _) (fun q => hρ p q) hρ0 ht
  have e2 : |∑ s, c s * ∑ p, E s p * ∑ q, R p q * t q| ≤ g * (τ * ρ) * W := by
    refine (Finset.abs_sum_le_sum_abs _ _).trans ?_
    have h1 : ∀ s, |c s * ∑ p, E s p * ∑ q, R p q * t q| ≤
        g * (τ * ρ) * (|c s| * ∑ p, (∑ i, |b i s * b i p * w i|) * |(1 : K)|) := by
      intro s
      rw [abs_mul, mul_left_comm]
      refine mul_le_mul_of_nonneg_left ?_ (abs_nonneg _)
      refine (Finset.abs_sum_le_sum_abs _ _).trans ?_
      rw [Finset.mul_sum]
      refine Finset.sum_le_sum fun p _ => ?_
      rw [abs_mul, abs_one, mul_one]
      calc |E s p| * |∑ q, R p q * t q| ≤ (g * ∑ i, |b i s * b i p * w i|) * (τ * ρ) :=
            mul_le_mul (hA s p) (hRt p) (abs_nonneg _)
              (mul_nonneg hg0 (Finset.sum_nonneg fun i _ => abs_nonneg _))
        _ = g * (τ * ρ) * ∑ i, |b i s * b i p * w i| := by ring
    refine (Finset.sum_le_sum fun s _ => h1 s).trans ?_
    rw [← Finset.mul_sum, moment_sum w b c fun _ => 1]
    refine mul_le_mul_of_nonneg_left ?_ (mul_nonneg hg0 (mul_nonneg hτ0 hρ0))
    simpa using hW
  calc _ ≤ C * (τ * ε) + g * (τ * ρ) * W := (abs_sub _ _).trans (add_le_add e1 e2)
    _ = (ε * C + g * ρ * W) * τ := by ring

/-! ## Evaluation -/

section
variable {u : K} (hu : Precise fl u) {h m : ℕ} {pl : Plans dim k n r} (hp : pl.Complete h)
  (R : Mat k K) (w : Fin n → K) (gw : Fin n → Fin dim → K) (b bh : Fin n → Fin k → K)
  (hb : ∀ i q, Near u 1 |b i q| (bh i q) (b i q)) (V Vh v : Fin n → Fin r → K)
  (hV : ∀ i ρ, Near u m (v i ρ) (Vh i ρ) (V i ρ)) (bx bxh : Fin k → K)
  (hbx : ∀ q, Near u 1 |bx q| (bxh q) (bx q)) (bd bdh : Fin dim → Fin k → K)
  (hbd : ∀ j q, Near u 1 |bd j q| (bdh j q) (bd j q))

include hu hp hbx in
theorem gamma_near (p : Fin k) :
    Near u (h + 1) (∑ q, |R p q| * |bx q|) ((pl.gamma p).eval fl (R p) bxh) (∑ q, R p q * bx q) := by
  have := dot_near hu (hp.1 p) (fun q => Near.exact (u := u) (R p q) _ le_rfl) hbx
  exact this.more hu.nonneg (by omega)

include hu hp hb hV hbx in
theorem value_near (ρ : Fin r) :
    Near u (3 * h + m + 4)
      (∑ i, (∑ p, (∑ q, |R p q| * |bx q|) * |b i p * w i|) * v i ρ)
      ((evaluate fl pl R (columns fl w bh) (fun j => moments fl (fun i => gw i j) bh)
        (fun j => columns fl (fun i => gw i j) bh) Vh bxh bdh).f ρ)
      (∑ i, (∑ p, (∑ q, R p q * bx q) * (b i p * w i)) * V i ρ) := by
  have h1 := gamma_near hu hp R bx bxh hbx
  have h2 := fun i => dot_near hu (hp.2.1 i) h1 (fun p => columns_near hu w b bh hb p i)
  have h3 := dot_near hu (hp.2.2.1 ρ) h2 (fun i => hV i ρ)
  exact h3.more hu.nonneg (by omega)

include hu hp hb hV hbx hbd in
theorem grad_near (j : Fin dim) (ρ : Fin r) :
    Near u (5 * h + n + m + 10)
      (∑ i, ((∑ p, (∑ q, |R p q| * (|bd j q| + ∑ s, (∑ i, |b i q * b i s * gw i j|) *
          ∑ q, |R s q| * |bx q|)) * |b i p * w i|) +
        ∑ p, (∑ q, |R p q| * |bx q|) * |b i p * gw i j|) * v i ρ)
      ((evaluate fl pl R (columns fl w bh) (fun j => moments fl (fun i => gw i j) bh)
        (fun j => columns fl (fun i => gw i j) bh) Vh bxh bdh).g j ρ)
      (∑ i, ((∑ p, (∑ q, R p q * (bd j q - ∑ s, (∑ i, b i q * b i s * gw i j) *
          ∑ q, R s q * bx q)) * (b i p * w i)) +
        ∑ p, (∑ q, R p q * bx q) * (b i p * gw i j)) * V i ρ) := by
  obtain ⟨_, _, _, hp4, hp5, hp6, hp7, hp8⟩ := id hp
  have hu0 := hu.nonneg
  have h1 := gamma_near hu hp R bx bxh hbx
  have h2 := fun q => dot_near hu (hp4 j q)
    (fun s => moments_near hu (fun i => gw i j) b bh hb q s) h1
  have h3 := fun q => (Near.sub ((hbd j q).more hu0 (show 1 ≤ h + (n + 4 + (h + 1)) by omega))
    (h2 q)).round hu
  have h4 := fun p => dot_near hu (hp5 j p)
    (fun q => Near.exact (u := u) (R p q) _ le_rfl) h3
  have h5 := fun i => dot_near hu (hp6 j i) h4 (fun p => columns_near hu w b bh hb p i)
  have h6 := fun i => dot_near hu (hp7 j i) h1
    (fun p => columns_near hu (fun i => gw i j) b bh hb p i)
  have h7 := fun i => ((h5 i).add ((h6 i).more hu0 (show h + (h + 1 + 3) ≤
    h + (h + (0 + (h + (n + 4 + (h + 1)) + 1)) + 3) by omega))).round hu
  have h8 := dot_near hu (hp8 j ρ) h7 (fun i => hV i ρ)
  exact h8.more hu0 (by omega)

end

/-! ## Bounds -/

/-- The values of a combination of the basis functions, weighted. -/
theorem swap (w : Fin n → K) (b : Fin n → Fin k → K) (c γ : Fin k → K) :
    ∑ i, (∑ p, γ p * (b i p * w i)) * ∑ s, c s * b i s =
      ∑ s, c s * ∑ p, (∑ i, b i s * b i p * w i) * γ p := by
  simp only [Finset.sum_mul, Finset.mul_sum]
  rw [Finset.sum_comm]
  refine Finset.sum_congr rfl fun s _ => ?_
  rw [Finset.sum_comm]
  refine Finset.sum_congr rfl fun p _ => Finset.sum_congr rfl fun i _ => ?_
  ring

theorem weighted_le {G : Fin k → K} {w : Fin n → K} {b : Fin n → Fin k → K} {v β : Fin n → K} {g : K}
    (hG : ∀ p, G p ≤ g) (hg : 0 ≤ g) (hβ : ∀ i, ∑ p, |b i p| ≤ β i) (hv : ∀ i, 0 ≤ v i) :
    ∑ i, (∑ p, G p * |b i p * w i|) * v i ≤ g * ∑ i, |w i| * β i * v i := by
  rw [Finset.mul_sum]
  refine Finset.sum_le_sum fun i _ => ?_
  rw [← mul_assoc]
  refine mul_le_mul_of_nonneg_right ?_ (hv i)
  calc ∑ p, G p * |b i p * w i| ≤ ∑ p, |b i p| * (g * |w i|) := Finset.sum_le_sum fun p _ => by
        have := mul_le_mul_of_nonneg_right (hG p) (abs_nonneg (b i p * w i))
        rw [abs_mul] at this ⊢
        linarith
    _ = (∑ p, |b i p|) * (g * |w i|) := by rw [Finset.sum_mul]
    _ ≤ β i * (g * |w i|) := mul_le_mul_of_nonneg_right (hβ i) (mul_nonneg hg (abs_nonneg _))
    _ = g * (|w i| * β i) := by ring

theorem inverse_le {R : Mat k K} {ρ β : K} (hρ : ∀ i j, |R i j| ≤ ρ) (hρ0 : 0 ≤ ρ) {x : Fin k → K}
    (hx0 : ∀ q, 0 ≤ x q) (hx : ∑ q, x q ≤ β) (p : Fin k) : ∑ q, |R p q| * x q ≤ ρ * β := by
  simp only [mul_comm |R _ _|]
  rw [mul_comm ρ]
  exact sum_mul_le hx0 (fun q => hρ p q) hρ0 hx

section
variable {u : K} (hu : Precise fl u) {h m : ℕ} {pl : Plans dim k n r} (hp : pl.Complete h)
  {ε ρ β C : K} {βi v : Fin n → K} {βd : Fin dim → K}
  (w : Fin n → K) (gw : Fin n → Fin dim → K) (b bh : Fin n → Fin k → K)
  (hb : ∀ i q, Near u 1 |b i q| (bh i q) (b i q)) (hβi : ∀ i, ∑ p, |b i p| ≤ βi i)
  (bx bxh : Fin k → K) (hbx : ∀ q, Near u 1 |bx q| (bxh q) (bx q)) (hβ : ∑ q, |bx q| ≤ β)
  (bd bdh : Fin dim → Fin k → K) (hbd : ∀ j q, Near u 1 |bd j q| (bdh j q) (bd j q))
  (hβd : ∀ j, ∑ q, |bd j q| ≤ βd j)
  (c : Fin k → K) (hC : ∑ s, |c s| ≤ C) (hv : ∀ i, ∑ s, |c s| * |b i s| ≤ v i)
  (R : Mat k K) (hε0 : 0 ≤ ε) (hρ0 : 0 ≤ ρ)
  (hε : ∀ i j, |(moments fl w bh * R) i j - (1 : Mat k K) i j| ≤ ε) (hρ : ∀ i j, |R i j| ≤ ρ)
  (V : Fin n → Fin r → K) (σ : Fin r)
  (hV : ∀ i, |V i σ - ∑ s, c s * b i s| ≤ ((1 + u) ^ m - 1) * v i)

include hβi hv in
theorem weight_sum_le :
    ∑ i, |w i| * (∑ p, |b i p|) * (∑ s, |c s| * |b i s|) ≤ ∑ i, |w i| * βi i * v i := by
  refine Finset.sum_le_sum fun i _ => mul_le_mul (mul_le_mul_of_nonneg_left (hβi i) (abs_nonneg _)) (hv i)
    (Finset.sum_nonneg fun s _ => mul_nonneg (abs_nonneg _) (abs_nonneg _))
    (mul_nonneg (abs_nonneg _) ?_)
  exact (Finset.sum_nonneg fun p _ => abs_nonneg _).trans (hβi i)

include hv in
theorem v_nonneg (i : Fin n) : 0 ≤ v i :=
  (Finset.sum_nonneg fun s _ => mul_nonneg (abs_nonneg _) (abs_nonneg _)).trans (hv i)

include hv in
theorem exact_le (i : Fin n) : |∑ s, c s * b i s| ≤ v i := by
  refine (Finset.abs_sum_le_sum_abs _ _).trans ?_
  simp only [abs_mul]
  exact hv i

include hu hp hb hβi hbx hβ hC hv hε0 hρ0 hε hρ hV in
theorem value_bound :
    |(evaluate fl pl R (columns fl w bh) (fun j => moments fl (fun i => gw i j) bh)
        (fun j => columns fl (fun i => gw i j) bh) V bxh bdh).f σ - ∑ s, c s * bx s| ≤
      (ε * C + 2 * ((1 + u) ^ (3 * h + n + m + 4) - 1) * (ρ * ∑ i, |w i| * βi i * v i)) * β := by
  have hu0 := hu.nonneg
  set W := ∑ i, |w i| * βi i * v i with hW
  have hv0 := v_nonneg b c hv
  have hβ0 : 0 ≤ β := (Finset.sum_nonneg fun q _ => abs_nonneg _).trans hβ
  have hW0 : 0 ≤ W := Finset.sum_nonneg fun i _ => mul_nonneg (mul_nonneg (abs_nonneg _)
    ((Finset.sum_nonneg fun p _ => abs_nonneg _).trans (hβi i))) (hv0 i)
  have one : 1 ≤ 1 + u := by linarith
  -- one column of the data
  have hnear := value_near (r := 1) (pl := ⟨pl.gamma, pl.shp, fun _ => pl.val σ, pl.inner, pl.gammaD,
      pl.shpA, pl.shpB, fun j _ => pl.grad j σ⟩) hu
    ⟨hp.1, hp.2.1, fun _ => hp.2.2.1 σ, hp.2.2.2.1, hp.2.2.2.2.1, hp.2.2.2.2.2.1, hp.2.2.2.2.2.2.1,
      fun j _ => hp.2.2.2.2.2.2.2 j σ⟩ R w gw b bh hb
    (fun i _ => ∑ s, c s * b i s) (fun i _ => V i σ) (fun i _ => v i)
    (fun i _ => ⟨hV i, exact_le b c hv i⟩) bx bxh hbx bdh 0
  have h1 := hnear.1
  rw [swap] at h1
  have h2 := residual hε0 hρ0 (by linarith [one_le_pow₀ one (n := n + 4)]) w b c (moments fl w bh) R
    (fun p q => (moments_near hu w b bh hb p q).1) hε hρ hC
    (weight_sum_le w b hβi c hv) bx hβ
  have h3 := weighted_le (w := w) (fun p => inverse_le hρ hρ0 (fun q => abs_nonneg (bx q)) hβ p)
    (mul_nonneg hρ0 hβ0) hβi hv0
  have g1 : (1 + u) ^ (3 * h + m + 4) ≤ (1 + u) ^ (3 * h + n + m + 4) :=
    pow_le_pow_right₀ one (by omega)
  have g2 : (1 + u) ^ (n + 4) ≤ (1 + u) ^ (3 * h + n + m + 4) := pow_le_pow_right₀ one (by omega)
  have g3 := one_le_pow₀ one (n := 3 * h + m + 4)
  have hρβ := mul_nonneg (mul_nonneg hρ0 hβ0) hW0
  have h4 : |(evaluate fl pl R (columns fl w bh) (fun j => moments fl (fun i => gw i j) bh)
        (fun j => columns fl (fun i => gw i j) bh) V bxh bdh).f σ -
      ∑ s, c s * ∑ p, (∑ i, b i s * b i p * w i) * ∑ q, R p q * bx q| ≤
      ((1 + u) ^ (3 * h + n + m + 4) - 1) * (ρ * β * W) :=
    h1.trans (mul_le_mul (by linarith) h3 (Finset.sum_nonneg fun i _ => mul_nonneg
      (Finset.sum_nonneg fun p _ => mul_nonneg (Finset.sum_nonneg fun q _ =>
        mul_nonneg (abs_nonneg _) (abs_nonneg _)) (abs_nonneg _)) (hv0 i)) (by linarith))
  have h5 : ((1 + u) ^ (n + 4) - 1) * (ρ * β * W) ≤ ((1 + u) ^ (3 * h + n + m + 4) - 1) * (ρ * β * W) :=
    mul_le_mul_of_nonneg_right (by linarith) hρβ
  have h6 := abs_sub_le ((evaluate fl pl R (columns fl w bh) (fun j => moments fl (fun i => gw i j) bh)
        (fun j => columns fl (fun i => gw i j) bh) V bxh bdh).f σ)
      (∑ s, c s * ∑ p, (∑ i, b i s * b i p * w i) * ∑ q, R p q * bx q) (∑ s, c s * bx s)
  linarith

include hu hp hb hβi hbx hβ hC hv hε0 hρ0 hε hρ hV hbd hβd in
theorem grad_bound (j : Fin dim) :
    |(evaluate fl pl R (columns fl w bh) (fun j => moments fl (fun i => gw i j) bh)
        (fun j => columns fl (fun i => gw i j) bh) V bxh bdh).g j σ - ∑ s, c s * bd j s| ≤
      (ε * C + 2 * ((1 + u) ^ (5 * h + n + m + 10) - 1) * (ρ * ∑ i, |w i| * βi i * v i)) *
        (βd j + ρ * β * ∑ i, |gw i j| * βi i * βi i) +
      ((1 + u) ^ (5 * h + n + m + 10) - 1) * (ρ * β * ∑ i, |gw i j| * βi i * v i) := by
  have hu0 := hu.nonneg
  set W := ∑ i, |w i| * βi i * v i with hW
  set W' := ∑ i, |gw i j| * βi i * v i with hW'
  set T := βd j + ρ * β * ∑ i, |gw i j| * βi i * βi i with hT
  have hv0 := v_nonneg b c hv
  have hβ0 : 0 ≤ β := (Finset.sum_nonneg fun q _ => abs_nonneg _).trans hβ
  have hβi0 : ∀ i, 0 ≤ βi i := fun i => (Finset.sum_nonneg fun p _ => abs_nonneg _).trans (hβi i)
  have hβd0 : 0 ≤ βd j := (Finset.sum_nonneg fun q _ => abs_nonneg _).trans (hβd j)
  have hρβ0 := mul_nonneg hρ0 hβ0
  have hT0 : 0 ≤ T := add_nonneg hβd0 (mul_nonneg hρβ0 (Finset.sum_nonneg fun i _ =>
    mul_nonneg (mul_nonneg (abs_nonneg _) (hβi0 i)) (hβi0 i)))
  have hW0 : 0 ≤ W := Finset.sum_nonneg fun i _ => mul_nonneg (mul_nonneg (abs_nonneg _)
    (hβi0 i)) (hv0 i)
  have one : 1 ≤ 1 + u := by linarith
  have hnear := grad_near (r := 1) (pl := ⟨pl.gamma, pl.shp, fun _ => pl.val σ, pl.inner, pl.gammaD,
      pl.shpA, pl.shpB, fun j _ => pl.grad j σ⟩) hu
    ⟨hp.1, hp.2.1, fun _ => hp.2.2.1 σ, hp.2.2.2.1, hp.2.2.2.2.1, hp.2.2.2.2.2.1, hp.2.2.2.2.2.2.1,
      fun j _ => hp.2.2.2.2.2.2.2 j σ⟩ R w gw b bh hb
    (fun i _ => ∑ s, c s * b i s) (fun i _ => V i σ) (fun i _ => v i)
    (fun i _ => ⟨hV i, exact_le b c hv i⟩) bx bxh hbx bd bdh hbd j 0
  have h1 := hnear.1
  set γ : Fin k → K := fun p => ∑ q, R p q * bx q with hγ
  set G : Fin k → K := fun p => ∑ q, |R p q| * |bx q| with hG
  have hGle : ∀ p, G p ≤ ρ * β := inverse_le hρ hρ0 (fun q => abs_nonneg (bx q)) hβ
  have hG0 : ∀ p, 0 ≤ G p := fun p => Finset.sum_nonneg fun q _ => mul_nonneg (abs_nonneg _) (abs_nonneg _)
  have hγG : ∀ p, |γ p| ≤ G p := fun p => by
    refine (Finset.abs_sum_le_sum_abs _ _).trans ?_
    simp only [abs_mul]
    exact le_rfl
  set t : Fin k → K := fun q => bd j q - ∑ s, (∑ i, b i q * b i s * gw i j) * γ s with ht
  set τ : Fin k → K := fun q => |bd j q| + ∑ s, (∑ i, |b i q * b i s * gw i j|) * G s with hτ
  have hM0 : ∀ q s, 0 ≤ ∑ i, |b i q * b i s * gw i j| := fun q s =>
    Finset.sum_nonneg fun i _ => abs_nonneg _
  have hτ0 : ∀ q, 0 ≤ τ q := fun q => add_nonneg (abs_nonneg _)
    (Finset.sum_nonneg fun s _ => mul_nonneg (hM0 q s) (hG0 s))
  have htτ : ∀ q, |t q| ≤ τ q := fun q => by
    refine (abs_sub _ _).trans (add_le_add le_rfl ?_)
    refine (Finset.abs_sum_le_sum_abs _ _).trans (Finset.sum_le_sum fun s _ => ?_)
    rw [abs_mul]
    exact mul_le_mul (Finset.abs_sum_le_sum_abs _ _) (hγG s) (abs_nonneg _) (hM0 q s)
  have hτT : ∑ q, τ q ≤ T := by
    rw [hτ, Finset.sum_add_distrib]
    refine add_le_add (hβd j) ?_
    calc ∑ q, ∑ s, (∑ i, |b i q * b i s * gw i j|) * G s
        ≤ ∑ q, ∑ s, (∑ i, |b i q * b i s * gw i j|) * (ρ * β) :=
          Finset.sum_le_sum fun q _ => Finset.sum_le_sum fun s _ =>
            mul_le_mul_of_nonneg_left (hGle s) (hM0 q s)
      _ = ρ * β * ∑ q, |(1 : K)| * ∑ s, (∑ i, |b i q * b i s * gw i j|) * |(1 : K)| := by
          simp only [abs_one, mul_one, one_mul, Finset.mul_sum, Finset.sum_mul]
          refine Finset.sum_congr rfl fun q _ => Finset.sum_congr rfl fun s _ =>
            Finset.sum_congr rfl fun i _ => mul_comm _ _
      _ ≤ ρ * β * ∑ i, |gw i j| * βi i * βi i := by
          rw [moment_sum (fun i => gw i j) b (fun _ => 1) fun _ => 1]
          refine mul_le_mul_of_nonneg_left (Finset.sum_le_sum fun i _ => ?_) hρβ0
          simp only [abs_one, mul_one, one_mul]
          exact mul_le_mul (mul_le_mul_of_nonneg_left (hβi i) (abs_nonneg _)) (hβi i)
            (Finset.sum_nonneg fun p _ => abs_nonneg _) (mul_nonneg (abs_nonneg _) (hβi0 i))
  have hexact : ∑ i, ((∑ p, (∑ q, R p q * t q) * (b i p * w i)) +
        ∑ p, γ p * (b i p * gw i j)) * (∑ s, c s * b i s) =
      (∑ s, c s * (∑ p, (∑ i, b i s * b i p * w i) * ∑ q, R p q * t q) - ∑ s, c s * t s) +
        ∑ s, c s * bd j s := by
    simp only [add_mul, Finset.sum_add_distrib]
    rw [swap w b c fun p => ∑ q, R p q * t q, swap (fun i => gw i j) b c γ]
    have : ∑ s, c s * t s = ∑ s, c s * bd j s - ∑ s, c s * ∑ p, (∑ i, b i s * b i p * gw i j) * γ p := by
      rw [← Finset.sum_sub_distrib]
      exact Finset.sum_congr rfl fun s _ => by rw [ht]; ring
    rw [this]
    ring
  have h2 := residual hε0 hρ0 (by linarith [one_le_pow₀ one (n := n + 4)]) w b c (moments fl w bh) R
    (fun p q => (moments_near hu w b bh hb p q).1) hε hρ hC
    (weight_sum_le w b hβi c hv) t ((Finset.sum_le_sum fun q _ => htτ q).trans hτT)
  have h3 := weighted_le (w := w) (fun p => inverse_le hρ hρ0 hτ0 hτT p)
    (mul_nonneg hρ0 hT0) hβi hv0
  have h3' := weighted_le (w := fun i => gw i j) hGle hρβ0 hβi hv0
  have hB : ∑ i, ((∑ p, (∑ q, |R p q| * τ q) * |b i p * w i|) +
      ∑ p, G p * |b i p * gw i j|) * v i ≤ ρ * T * W + ρ * β * W' := by
    simp only [add_mul, Finset.sum_add_distrib]
    exact add_le_add h3 h3'
  have g2 : (1 + u) ^ (n + 4) ≤ (1 + u) ^ (5 * h + n + m + 10) := pow_le_pow_right₀ one (by omega)
  have g3 := one_le_pow₀ one (n := 5 * h + n + m + 10)
  have h4 : |(evaluate fl pl R (columns fl w bh) (fun j => moments fl (fun i => gw i j) bh)
        (fun j => columns fl (fun i => gw i j) bh) V bxh bdh).g j σ -
      ∑ i, ((∑ p, (∑ q, R p q * t q) * (b i p * w i)) +
        ∑ p, γ p * (b i p * gw i j)) * (∑ s, c s * b i s)| ≤
      ((1 + u) ^ (5 * h + n + m + 10) - 1) * (ρ * T * W + ρ * β * W') :=
    h1.trans (mul_le_mul_of_nonneg_left hB (by linarith))
  have h5 : ((1 + u) ^ (n + 4) - 1) * (ρ * W * T) ≤
      ((1 + u) ^ (5 * h + n + m + 10) - 1) * (ρ * W * T) :=
    mul_le_mul_of_nonneg_right (by linarith) (mul_nonneg (mul_nonneg hρ0 hW0) hT0)
  have h6 := abs_sub_le ((evaluate fl pl R (columns fl w bh) (fun j => moments fl (fun i => gw i j) bh)
        (fun j => columns fl (fun i => gw i j) bh) V bxh bdh).g j σ)
      (∑ i, ((∑ p, (∑ q, R p q * t q) * (b i p * w i)) +
        ∑ p, γ p * (b i p * gw i j)) * (∑ s, c s * b i s)) (∑ s, c s * bd j s)
  rw [hexact, add_sub_cancel_right] at h6
  rw [hexact] at h4
  linarith

end

end

end Verif.RFit
