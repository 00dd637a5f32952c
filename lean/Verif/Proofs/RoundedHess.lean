import Verif.Model.RoundedHess
import Verif.Proofs.RoundedFit

/-!
# Lemmas about second derivatives with rounded arithmetic
-/

set_option linter.unusedSectionVars false

namespace Verif.RFit
open Verif Verif.Rnd Verif.Frames Verif.LS Verif.RFrames

section
variable {K : Type} [Field K] [LinearOrder K] [IsStrictOrderedRing K] {fl : K → K}
variable {dim k n r : ℕ} {H : Type}

section
variable {u : K} (hu : Precise fl u) {h m : ℕ} {pl : Plans dim k n r} (hp : pl.Complete h)
  {pl2 : Plans2 H k n r} (hp2 : pl2.Complete h)
  (R : Mat k K) (w : Fin n → K) (gw : Fin n → Fin dim → K) (Gw : Fin n → K) (b bh : Fin n → Fin k → K)
  (hb : ∀ i q, Near u 1 |b i q| (bh i q) (b i q)) (V Vh v : Fin n → Fin r → K)
  (hV : ∀ i ρ, Near u m (v i ρ) (Vh i ρ) (V i ρ)) (bx bxh : Fin k → K)
  (hbx : ∀ q, Near u 1 |bx q| (bxh q) (bx q)) (bd bdh : Fin dim → Fin k → K)
  (hbd : ∀ j q, Near u 1 |bd j q| (bdh j q) (bd j q)) (bdd bddh : Fin k → K)
  (hbdd : ∀ q, Near u 1 |bdd q| (bddh q) (bdd q))

/-- The moment matrix of some weights. -/
def mom (b : Fin n → Fin k → K) (w : Fin n → K) (p q : Fin k) : K := ∑ i, b i p * b i q * w i

/-- The moment matrix of absolute values. -/
def absMom (b : Fin n → Fin k → K) (w : Fin n → K) (p q : Fin k) : K := ∑ i, |b i p * b i q * w i|

/-- The exact `gamma`. -/
def gam (R : Mat k K) (t : Fin k → K) (p : Fin k) : K := ∑ q, R p q * t q

/-- A bound for `gamma`. -/
def absGam (R : Mat k K) (t : Fin k → K) (p : Fin k) : K := ∑ q, |R p q| * t q

/-- The exact right hand side for a first derivative. -/
def rhs1 (R : Mat k K) (b : Fin n → Fin k → K) (gw : Fin n → Fin dim → K) (bx : Fin k → K)
    (bd : Fin dim → Fin k → K) (j : Fin dim) (q : Fin k) : K :=
  bd j q - ∑ s, mom b (fun i => gw i j) q s * gam R bx s

/-- A bound for it. -/
def absRhs1 (R : Mat k K) (b : Fin n → Fin k → K) (gw : Fin n → Fin dim → K) (bx : Fin k → K)
    (bd : Fin dim → Fin k → K) (j : Fin dim) (q : Fin k) : K :=
  |bd j q| + ∑ s, absMom b (fun i => gw i j) q s * absGam R (fun q => |bx q|) s

/-- The exact right hand side for a second derivative. -/
def rhs2 (R : Mat k K) (b : Fin n → Fin k → K) (gw : Fin n → Fin dim → K) (Gw : Fin n → K) (bx : Fin k → K)
    (bd : Fin dim → Fin k → K) (bdd : Fin k → K) (i j : Fin dim) (q : Fin k) : K :=
  bdd q - ∑ s, mom b Gw q s * gam R bx s -
    ∑ s, mom b (fun l => gw l i) q s * gam R (rhs1 R b gw bx bd j) s -
    ∑ s, mom b (fun l => gw l j) q s * gam R (rhs1 R b gw bx bd i) s

/-- A bound for it. -/
def absRhs2 (R : Mat k K) (b : Fin n → Fin k → K) (gw : Fin n → Fin dim → K) (Gw : Fin n → K)
    (bx : Fin k → K) (bd : Fin dim → Fin k → K) (bdd : Fin k → K) (i j : Fin dim) (q : Fin k) : K :=
  |bdd q| + ∑ s, absMom b Gw q s * absGam R (fun q => |bx q|) s +
    ∑ s, absMom b (fun l => gw l i) q s * absGam R (absRhs1 R b gw bx bd j) s +
    ∑ s, absMom b (fun l => gw l j) q s * absGam R (absRhs1 R b gw bx bd i) s

theorem two_sum {ι : Type} [Fintype ι] (X Y : ι → K) :
    ∑ s, 2 * X s * Y s = ∑ s, X s * Y s + ∑ s, X s * Y s := by
  simp only [mul_assoc, ← Finset.mul_sum]
  rw [two_mul]

include hu hp hb hbx hbd in
/-- The derivative of `gamma`. -/
theorem gammad_near (j : Fin dim) (p : Fin k) :
    Near u (3 * h + n + 6) (absGam R (absRhs1 R b gw bx bd j) p)
      ((pl.gammaD j p).eval fl (R p) fun p => fl (bdh j p - (pl.inner j p).eval fl
        (moments fl (fun i => gw i j) bh p) fun p => (pl.gamma p).eval fl (R p) bxh))
      (gam R (rhs1 R b gw bx bd j) p) := by
  obtain ⟨_, _, _, hp4, hp5, _⟩ := id hp
  have hu0 := hu.nonneg
  have h1 := gamma_near hu hp R bx bxh hbx
  have h2 := fun q => dot_near hu (hp4 j q)
    (fun s => moments_near hu (fun i => gw i j) b bh hb q s) h1
  have h3 := fun q => (Near.sub ((hbd j q).more hu0 (show 1 ≤ h + (n + 4 + (h + 1)) by omega))
    (h2 q)).round hu
  have h4 := dot_near hu (hp5 j p) (fun q => Near.exact (u := u) (R p q) _ le_rfl) h3
  exact h4.more hu0 (by omega)

include hu hp hp2 hb hV hbx hbd hbdd in
/-- The second derivatives. -/
theorem second_near (d : H) (i j : Fin dim) (ρ : Fin r) :
    Near u (7 * h + 2 * n + m + 20)
      (∑ l, (∑ p, absGam R (absRhs2 R b gw Gw bx bd bdd i j) p * |b l p * w l| +
        ∑ p, absGam R (absRhs1 R b gw bx bd i) p * |b l p * gw l j| +
        ∑ p, absGam R (absRhs1 R b gw bx bd j) p * |b l p * gw l i| +
        ∑ p, absGam R (fun q => |bx q|) p * |b l p * Gw l|) * v l ρ)
      (second fl pl pl2 R (columns fl w bh) (fun j => moments fl (fun i => gw i j) bh)
        (fun j => columns fl (fun i => gw i j) bh) (moments fl Gw bh) (columns fl Gw bh) Vh bxh bdh bddh
        d i j ρ)
      (∑ l, (∑ p, gam R (rhs2 R b gw Gw bx bd bdd i j) p * (b l p * w l) +
        ∑ p, gam R (rhs1 R b gw bx bd i) p * (b l p * gw l j) +
        ∑ p, gam R (rhs1 R b gw bx bd j) p * (b l p * gw l i) +
        ∑ p, gam R bx p * (b l p * Gw l)) * V l ρ) := by
  obtain ⟨hA, hB, hC, hD, hE, hF, hG, hI, hJ⟩ := hp2
  have hu0 := hu.nonneg
  have one := gamma_near hu hp R bx bxh hbx
  have two := gammad_near hu hp R gw b bh hb bx bxh hbx bd bdh hbd
  have mG := moments_near hu Gw b bh hb
  have mg := fun j => moments_near hu (fun i => gw i j) b bh hb
  have r1 := fun q => (Near.sub ((hbdd q).more hu0 (show 1 ≤ 4 * h + 2 * n + 11 by omega))
    ((dot_near hu (hA d q) (fun s => mG q s) one).more hu0
      (show _ ≤ 4 * h + 2 * n + 11 by omega))).round hu
  have f2 : |(2 : K)| = 2 := abs_of_pos two_pos
  have hrhs : ∀ q, Near u (4 * h + 2 * n + 14) (absRhs2 R b gw Gw bx bd bdd i j q)
      (if i = j then
        fl (fl (bddh q - (pl2.innerA d q).eval fl (moments fl Gw bh q)
            fun p => (pl.gamma p).eval fl (R p) bxh) -
          (pl2.innerB d q).eval fl (fun s => fl (2 * moments fl (fun l => gw l i) bh q s))
            fun p => (pl.gammaD i p).eval fl (R p) fun p => fl (bdh i p - (pl.inner i p).eval fl
              (moments fl (fun l => gw l i) bh p) fun p => (pl.gamma p).eval fl (R p) bxh))
      else
        fl (fl (fl (bddh q - (pl2.innerA d q).eval fl (moments fl Gw bh q)
            fun p => (pl.gamma p).eval fl (R p) bxh) -
          (pl2.innerB d q).eval fl (moments fl (fun l => gw l i) bh q)
            fun p => (pl.gammaD j p).eval fl (R p) fun p => fl (bdh j p - (pl.inner j p).eval fl
              (moments fl (fun l => gw l j) bh p) fun p => (pl.gamma p).eval fl (R p) bxh)) -
          (pl2.innerC d q).eval fl (moments fl (fun l => gw l j) bh q)
            fun p => (pl.gammaD i p).eval fl (R p) fun p => fl (bdh i p - (pl.inner i p).eval fl
              (moments fl (fun l => gw l i) bh p) fun p => (pl.gamma p).eval fl (R p) bxh)))
      (rhs2 R b gw Gw bx bd bdd i j q) := by
    intro q
    by_cases hij : i = j
    · subst hij
      rw [if_pos rfl]
      have e2 : ∀ s, Near u (n + 5) (2 * absMom b (fun l => gw l i) q s)
          (fl (2 * moments fl (fun l => gw l i) bh q s)) (2 * mom b (fun l => gw l i) q s) := by
        intro s
        have := ((Near.mul2 hu0 (Near.exact (u := u) (2 : K) _ f2.le) (mg i q s)).round hu).more hu0
          (show _ ≤ n + 5 by omega)
        exact this
      have d2 := dot_near hu (hB d q) e2 (two i)
      have := (Near.sub ((r1 q).more hu0 (show _ ≤ 4 * h + 2 * n + 12 by omega))
        (d2.more hu0 (show _ ≤ 4 * h + 2 * n + 12 by omega))).round hu
      have := this.more hu0 (show _ ≤ 4 * h + 2 * n + 14 by omega)
      convert this using 1
      · rw [two_sum, ← add_assoc]
        rfl
      · rw [two_sum, ← sub_sub]
        rfl
    · rw [if_neg hij]
      have d1 := dot_near hu (hB d q) (fun s => mg i q s) (two j)
      have d2 := dot_near hu (hC d q) (fun s => mg j q s) (two i)
      have s1 := (Near.sub ((r1 q).more hu0 (show _ ≤ 4 * h + 2 * n + 12 by omega))
        (d1.more hu0 (show _ ≤ 4 * h + 2 * n + 12 by omega))).round hu
      have s2 := (Near.sub (s1.more hu0 (show _ ≤ 4 * h + 2 * n + 13 by omega))
        (d2.more hu0 (show _ ≤ 4 * h + 2 * n + 13 by omega))).round hu
      exact s2.more hu0 (by omega)
  have gdd := fun p => (dot_near hu (hD d p) (fun q => Near.exact (u := u) (R p q) _ le_rfl) hrhs).more
    hu0 (show _ ≤ 5 * h + 2 * n + 14 by omega)
  have sA := fun l => (dot_near hu (hE d l) gdd (fun p => columns_near hu w b bh hb p l)).more hu0
    (show _ ≤ 6 * h + 2 * n + 17 by omega)
  have sD := fun l => (dot_near hu (hI d l) one (fun p => columns_near hu Gw b bh hb p l)).more hu0
    (show _ ≤ 6 * h + 2 * n + 17 by omega)
  refine Near.more hu0 (show h + (6 * h + 2 * n + 20 + m) ≤ _ by omega) ?_
  refine dot_near hu (hJ d ρ) (fun l => ?_) (fun l => hV l ρ)
  by_cases hij : i = j
  · subst hij
    simp only [if_true]
    have e2 : ∀ p, Near u (3 * h + n + 7) (2 * absGam R (absRhs1 R b gw bx bd i) p)
        (fl (2 * (pl.gammaD i p).eval fl (R p) fun p => fl (bdh i p - (pl.inner i p).eval fl
          (moments fl (fun l => gw l i) bh p) fun p => (pl.gamma p).eval fl (R p) bxh)))
        (2 * gam R (rhs1 R b gw bx bd i) p) := by
      intro p
      have := ((two i p).mul 2).round hu
      rw [f2] at this
      simpa only [mul_comm _ (2 : K)] using this
    have sB := (dot_near hu (hF d l) e2 (fun p => columns_near hu (fun l => gw l i) b bh hb p l)).more hu0
      (show _ ≤ 6 * h + 2 * n + 17 by omega)
    have := (((sA l).add sB).round hu).add ((sD l).more hu0 (show _ ≤ 6 * h + 2 * n + 17 + 1 by omega))
    have := (this.round hu).more hu0 (show _ ≤ 6 * h + 2 * n + 20 by omega)
    simp only [if_true] at this
    convert this using 1
    · simp only [mul_assoc, ← Finset.mul_sum]
      rw [two_mul]
      simp only [← add_assoc]
      rfl
    · simp only [mul_assoc, ← Finset.mul_sum]
      rw [two_mul]
      simp only [← add_assoc]
      rfl
  · simp only [if_neg hij]
    have sB := (dot_near hu (hF d l) (two i) (fun p => columns_near hu (fun l => gw l j) b bh hb p l)).more
      hu0 (show _ ≤ 6 * h + 2 * n + 17 by omega)
    have sC := (dot_near hu (hG d l) (two j) (fun p => columns_near hu (fun l => gw l i) b bh hb p l)).more
      hu0 (show _ ≤ 6 * h + 2 * n + 17 + 1 by omega)
    have s1 := (((sA l).add sB).round hu).add sC
    have s2 := (s1.round hu).add ((sD l).more hu0 (show _ ≤ 6 * h + 2 * n + 17 + 1 + 1 by omega))
    have := (s2.round hu).more hu0 (show _ ≤ 6 * h + 2 * n + 20 by omega)
    simp only [if_neg hij] at this
    exact this

end

/-! ## Bounds -/

theorem absGam_nonneg (R : Mat k K) {t : Fin k → K} (ht : ∀ q, 0 ≤ t q) (p : Fin k) : 0 ≤ absGam R t p :=
  Finset.sum_nonneg fun q _ => mul_nonneg (abs_nonneg _) (ht q)

theorem absMom_nonneg (b : Fin n → Fin k → K) (w : Fin n → K) (p q : Fin k) : 0 ≤ absMom b w p q :=
  Finset.sum_nonneg fun _ _ => abs_nonneg _

theorem gam_le (R : Mat k K) {t τ : Fin k → K} (h : ∀ q, |t q| ≤ τ q) (p : Fin k) :
    |gam R t p| ≤ absGam R τ p := by
  refine (Finset.abs_sum_le_sum_abs _ _).trans (Finset.sum_le_sum fun q _ => ?_)
  rw [abs_mul]
  exact mul_le_mul_of_nonneg_left (h q) (abs_nonneg _)

theorem mom_le (b : Fin n → Fin k → K) (w : Fin n → K) {γ G : Fin k → K} (h : ∀ s, |γ s| ≤ G s)
    (q : Fin k) : |∑ s, mom b w q s * γ s| ≤ ∑ s, absMom b w q s * G s := by
  refine (Finset.abs_sum_le_sum_abs _ _).trans (Finset.sum_le_sum fun s _ => ?_)
  rw [abs_mul]
  exact mul_le_mul (Finset.abs_sum_le_sum_abs _ _) (h s) (abs_nonneg _) (absMom_nonneg b w q s)

theorem absMom_sum (b : Fin n → Fin k → K) (w : Fin n → K) {βi : Fin n → K} (hβi : ∀ i, ∑ p, |b i p| ≤ βi i)
    {G : Fin k → K} {g : K} (hG : ∀ s, G s ≤ g) (hg : 0 ≤ g) :
    ∑ q, ∑ s, absMom b w q s * G s ≤ g * ∑ i, |w i| * βi i * βi i := by
  have hβi0 : ∀ i, 0 ≤ βi i := fun i => (Finset.sum_nonneg fun p _ => abs_nonneg _).trans (hβi i)
  calc ∑ q, ∑ s, absMom b w q s * G s
      ≤ ∑ q, ∑ s, absMom b w q s * g :=
        Finset.sum_le_sum fun q _ => Finset.sum_le_sum fun s _ =>
          mul_le_mul_of_nonneg_left (hG s) (absMom_nonneg b w q s)
    _ = g * ∑ q, |(1 : K)| * ∑ s, (∑ i, |b i q * b i s * w i|) * |(1 : K)| := by
        simp only [abs_one, mul_one, one_mul, Finset.mul_sum, Finset.sum_mul, absMom]
        refine Finset.sum_congr rfl fun q _ => Finset.sum_congr rfl fun s _ =>
          Finset.sum_congr rfl fun i _ => mul_comm _ _
    _ ≤ g * ∑ i, |w i| * βi i * βi i := by
        rw [moment_sum w b (fun _ => 1) fun _ => 1]
        refine mul_le_mul_of_nonneg_left (Finset.sum_le_sum fun i _ => ?_) hg
        simp only [abs_one, mul_one, one_mul]
        exact mul_le_mul (mul_le_mul_of_nonneg_left (hβi i) (abs_nonneg _)) (hβi i)
          (Finset.sum_nonneg fun p _ => abs_nonneg _) (mul_nonneg (abs_nonneg _) (hβi0 i))

section
variable {u : K} (hu : Precise fl u) {h m : ℕ} {pl : Plans dim k n r} (hp : pl.Complete h)
  {pl2 : Plans2 H k n r} (hp2 : pl2.Complete h)
  {ε ρ β C βdd : K} {βi v : Fin n → K} {βd : Fin dim → K}
  (w : Fin n → K) (gw : Fin n → Fin dim → K) (Gw : Fin n → K) (b bh : Fin n → Fin k → K)
  (hb : ∀ i q, Near u 1 |b i q| (bh i q) (b i q)) (hβi : ∀ i, ∑ p, |b i p| ≤ βi i)
  (bx bxh : Fin k → K) (hbx : ∀ q, Near u 1 |bx q| (bxh q) (bx q)) (hβ : ∑ q, |bx q| ≤ β)
  (bd bdh : Fin dim → Fin k → K) (hbd : ∀ j q, Near u 1 |bd j q| (bdh j q) (bd j q))
  (hβd : ∀ j, ∑ q, |bd j q| ≤ βd j)
  (bdd bddh : Fin k → K) (hbdd : ∀ q, Near u 1 |bdd q| (bddh q) (bdd q)) (hβdd : ∑ q, |bdd q| ≤ βdd)
  (c : Fin k → K) (hC : ∑ s, |c s| ≤ C) (hv : ∀ i, ∑ s, |c s| * |b i s| ≤ v i)
  (R : Mat k K) (hε0 : 0 ≤ ε) (hρ0 : 0 ≤ ρ)
  (hε : ∀ i j, |(moments fl w bh * R) i j - (1 : Mat k K) i j| ≤ ε) (hρ : ∀ i j, |R i j| ≤ ρ)
  (V : Fin n → Fin r → K) (σ : Fin r)
  (hV : ∀ i, |V i σ - ∑ s, c s * b i s| ≤ ((1 + u) ^ m - 1) * v i)

include hu hp hp2 hb hβi hbx hβ hC hv hε0 hρ0 hε hρ hV hbd hβd hbdd hβdd in
theorem hess_bound (d : H) (i j : Fin dim) (Ti Tj : K)
    (hTi : βd i + ρ * β * ∑ l, |gw l i| * βi l * βi l = Ti)
    (hTj : βd j + ρ * β * ∑ l, |gw l j| * βi l * βi l = Tj) :
    |second fl pl pl2 R (columns fl w bh) (fun j => moments fl (fun i => gw i j) bh)
        (fun j => columns fl (fun i => gw i j) bh) (moments fl Gw bh) (columns fl Gw bh) V bxh bdh bddh
        d i j σ - ∑ s, c s * bdd s| ≤
      (ε * C + 2 * ((1 + u) ^ (7 * h + 2 * n + m + 20) - 1) * (ρ * ∑ l, |w l| * βi l * v l)) *
        (βdd + ρ * β * (∑ l, |Gw l| * βi l * βi l) + ρ * Tj * (∑ l, |gw l i| * βi l * βi l) +
          ρ * Ti * ∑ l, |gw l j| * βi l * βi l) +
      ((1 + u) ^ (7 * h + 2 * n + m + 20) - 1) *
        (ρ * Ti * (∑ l, |gw l j| * βi l * v l) + ρ * Tj * (∑ l, |gw l i| * βi l * v l) +
          ρ * β * ∑ l, |Gw l| * βi l * v l) := by
  have hu0 := hu.nonneg
  set N := 7 * h + 2 * n + m + 20 with hN
  set W := ∑ l, |w l| * βi l * v l with hW
  have hv0 := v_nonneg b c hv
  have hβ0 : 0 ≤ β := (Finset.sum_nonneg fun q _ => abs_nonneg _).trans hβ
  have hβi0 : ∀ i, 0 ≤ βi i := fun i => (Finset.sum_nonneg fun p _ => abs_nonneg _).trans (hβi i)
  have hβd0 : ∀ j, 0 ≤ βd j := fun j => (Finset.sum_nonneg fun q _ => abs_nonneg _).trans (hβd j)
  have hβdd0 : 0 ≤ βdd := (Finset.sum_nonneg fun q _ => abs_nonneg _).trans hβdd
  have hρβ0 := mul_nonneg hρ0 hβ0
  have hS0 : ∀ g : Fin n → K, 0 ≤ ∑ l, |g l| * βi l * βi l := fun g => Finset.sum_nonneg fun i _ =>
    mul_nonneg (mul_nonneg (abs_nonneg _) (hβi0 i)) (hβi0 i)
  have hT0 : ∀ j, 0 ≤ βd j + ρ * β * ∑ l, |gw l j| * βi l * βi l := fun j =>
    add_nonneg (hβd0 j) (mul_nonneg hρβ0 (hS0 _))
  have hTi0 : 0 ≤ Ti := hTi ▸ hT0 i
  have hTj0 : 0 ≤ Tj := hTj ▸ hT0 j
  have hW0 : 0 ≤ W := Finset.sum_nonneg fun i _ => mul_nonneg (mul_nonneg (abs_nonneg _)
    (hβi0 i)) (hv0 i)
  have one : 1 ≤ 1 + u := by linarith
  obtain ⟨h1', h2', h3', h4', h5', h6', h7', h8'⟩ := id hp
  obtain ⟨k1, k2, k3, k4, k5, k6, k7, k8, k9⟩ := id hp2
  have hnear := second_near (r := 1) (pl := ⟨pl.gamma, pl.shp, fun _ => pl.val σ, pl.inner, pl.gammaD,
      pl.shpA, pl.shpB, fun j _ => pl.grad j σ⟩)
    (pl2 := ⟨pl2.innerA, pl2.innerB, pl2.innerC, pl2.gammaDD, pl2.shpA, pl2.shpB, pl2.shpC, pl2.shpD,
      fun d _ => pl2.hess d σ⟩) hu
    ⟨h1', h2', fun _ => h3' σ, h4', h5', h6', h7', fun j _ => h8' j σ⟩
    ⟨k1, k2, k3, k4, k5, k6, k7, k8, fun d _ => k9 d σ⟩ R w gw Gw b bh hb
    (fun i _ => ∑ s, c s * b i s) (fun i _ => V i σ) (fun i _ => v i)
    (fun i _ => ⟨hV i, exact_le b c hv i⟩) bx bxh hbx bd bdh hbd bdd bddh hbdd d i j 0
  have h1 := hnear.1
  -- bounds for the parts
  have hG0 : ∀ p, 0 ≤ absGam R (fun q => |bx q|) p := absGam_nonneg R fun q => abs_nonneg _
  have hG : ∀ p, absGam R (fun q => |bx q|) p ≤ ρ * β := inverse_le hρ hρ0 (fun q => abs_nonneg (bx q)) hβ
  have hγ : ∀ p, |gam R bx p| ≤ absGam R (fun q => |bx q|) p := gam_le R fun q => le_rfl
  have hr0 : ∀ j q, 0 ≤ absRhs1 R b gw bx bd j q := fun j q => add_nonneg (abs_nonneg _)
    (Finset.sum_nonneg fun s _ => mul_nonneg (absMom_nonneg _ _ _ _) (hG0 s))
  have hr : ∀ j q, |rhs1 R b gw bx bd j q| ≤ absRhs1 R b gw bx bd j q := fun j q =>
    (abs_sub _ _).trans (add_le_add le_rfl (mom_le b _ hγ q))
  have hrs : ∀ j, ∑ q, absRhs1 R b gw bx bd j q ≤ βd j + ρ * β * ∑ l, |gw l j| * βi l * βi l := fun j => by
    unfold absRhs1
    rw [Finset.sum_add_distrib]
    exact add_le_add (hβd j) (absMom_sum b _ hβi hG hρβ0)
  have hD0 : ∀ j p, 0 ≤ absGam R (absRhs1 R b gw bx bd j) p := fun j => absGam_nonneg R (hr0 j)
  have hDi : ∀ p, absGam R (absRhs1 R b gw bx bd i) p ≤ ρ * Ti :=
    inverse_le hρ hρ0 (hr0 i) (hTi ▸ hrs i)
  have hDj : ∀ p, absGam R (absRhs1 R b gw bx bd j) p ≤ ρ * Tj :=
    inverse_le hρ hρ0 (hr0 j) (hTj ▸ hrs j)
  have hγd : ∀ j p, |gam R (rhs1 R b gw bx bd j) p| ≤ absGam R (absRhs1 R b gw bx bd j) p :=
    fun j => gam_le R (hr j)
  have h20 : ∀ q, 0 ≤ absRhs2 R b gw Gw bx bd bdd i j q := fun q =>
    add_nonneg (add_nonneg (add_nonneg (abs_nonneg _)
      (Finset.sum_nonneg fun s _ => mul_nonneg (absMom_nonneg _ _ _ _) (hG0 s)))
      (Finset.sum_nonneg fun s _ => mul_nonneg (absMom_nonneg _ _ _ _) (hD0 j s)))
      (Finset.sum_nonneg fun s _ => mul_nonneg (absMom_nonneg _ _ _ _) (hD0 i s))
  have h2r : ∀ q, |rhs2 R b gw Gw bx bd bdd i j q| ≤ absRhs2 R b gw Gw bx bd bdd i j q := fun q =>
    (abs_sub _ _).trans (add_le_add ((abs_sub _ _).trans (add_le_add ((abs_sub _ _).trans
      (add_le_add le_rfl (mom_le b _ hγ q))) (mom_le b _ (hγd j) q))) (mom_le b _ (hγd i) q))
  set τ := βdd + ρ * β * (∑ l, |Gw l| * βi l * βi l) + ρ * Tj * (∑ l, |gw l i| * βi l * βi l) +
          ρ * Ti * ∑ l, |gw l j| * βi l * βi l with hτ
  have hτ0 : 0 ≤ τ := add_nonneg (add_nonneg (add_nonneg hβdd0 (mul_nonneg hρβ0 (hS0 _)))
    (mul_nonneg (mul_nonneg hρ0 hTj0) (hS0 _))) (mul_nonneg (mul_nonneg hρ0 hTi0) (hS0 _))
  have h2s : ∑ q, absRhs2 R b gw Gw bx bd bdd i j q ≤ τ := by
    unfold absRhs2
    rw [Finset.sum_add_distrib, Finset.sum_add_distrib, Finset.sum_add_distrib]
    exact add_le_add (add_le_add (add_le_add hβdd (absMom_sum b _ hβi hG hρβ0))
      (absMom_sum b _ hβi hDj (mul_nonneg hρ0 hTj0))) (absMom_sum b _ hβi hDi (mul_nonneg hρ0 hTi0))
  have hE := inverse_le hρ hρ0 h20 h2s
  have hexact : ∑ l, (∑ p, gam R (rhs2 R b gw Gw bx bd bdd i j) p * (b l p * w l) +
        ∑ p, gam R (rhs1 R b gw bx bd i) p * (b l p * gw l j) +
        ∑ p, gam R (rhs1 R b gw bx bd j) p * (b l p * gw l i) +
        ∑ p, gam R bx p * (b l p * Gw l)) * (∑ s, c s * b l s) =
      (∑ s, c s * (∑ p, (∑ i, b i s * b i p * w i) * ∑ q, R p q * rhs2 R b gw Gw bx bd bdd i j q) -
          ∑ s, c s * rhs2 R b gw Gw bx bd bdd i j s) + ∑ s, c s * bdd s := by
    simp only [add_mul, Finset.sum_add_distrib]
    rw [swap w b c (gam R (rhs2 R b gw Gw bx bd bdd i j)), swap (fun l => gw l j) b c,
      swap (fun l => gw l i) b c, swap Gw b c]
    have : ∑ s, c s * rhs2 R b gw Gw bx bd bdd i j s = ∑ s, c s * bdd s -
        ∑ s, c s * (∑ p, mom b Gw s p * gam R bx p) -
        ∑ s, c s * (∑ p, mom b (fun l => gw l i) s p * gam R (rhs1 R b gw bx bd j) p) -
        ∑ s, c s * (∑ p, mom b (fun l => gw l j) s p * gam R (rhs1 R b gw bx bd i) p) := by
      rw [← Finset.sum_sub_distrib, ← Finset.sum_sub_distrib, ← Finset.sum_sub_distrib]
      exact Finset.sum_congr rfl fun s _ => by rw [rhs2]; ring
    rw [this]
    simp only [mom, gam]
    ring
  have h2 := residual hε0 hρ0 (by linarith [one_le_pow₀ one (n := n + 4)]) w b c (moments fl w bh) R
    (fun p q => (moments_near hu w b bh hb p q).1) hε hρ hC
    (weight_sum_le w b hβi c hv) (rhs2 R b gw Gw bx bd bdd i j)
    ((Finset.sum_le_sum fun q _ => h2r q).trans h2s)
  have e1 := weighted_le (w := w) hE (mul_nonneg hρ0 hτ0) hβi hv0
  have e2 := weighted_le (w := fun l => gw l j) hDi (mul_nonneg hρ0 hTi0) hβi hv0
  have e3 := weighted_le (w := fun l => gw l i) hDj (mul_nonneg hρ0 hTj0) hβi hv0
  have e4 := weighted_le (w := Gw) hG hρβ0 hβi hv0
  have hB : ∑ l, (∑ p, absGam R (absRhs2 R b gw Gw bx bd bdd i j) p * |b l p * w l| +
        ∑ p, absGam R (absRhs1 R b gw bx bd i) p * |b l p * gw l j| +
        ∑ p, absGam R (absRhs1 R b gw bx bd j) p * |b l p * gw l i| +
        ∑ p, absGam R (fun q => |bx q|) p * |b l p * Gw l|) * v l ≤
      ρ * τ * W + ρ * Ti * (∑ l, |gw l j| * βi l * v l) + ρ * Tj * (∑ l, |gw l i| * βi l * v l) +
          ρ * β * ∑ l, |Gw l| * βi l * v l := by
    simp only [add_mul, Finset.sum_add_distrib]
    exact add_le_add (add_le_add (add_le_add e1 e2) e3) e4
  have g2 : (1 + u) ^ (n + 4) ≤ (1 + u) ^ N := pow_le_pow_right₀ one (by omega)
  have g3 := one_le_pow₀ one (n := N)
  have h4 := h1.trans (mul_le_mul_of_nonneg_left hB (by linarith))
  have h5 : ((1 + u) ^ (n + 4) - 1) * (ρ * W * τ) ≤ ((1 + u) ^ N - 1) * (ρ * W * τ) :=
    mul_le_mul_of_nonneg_right (by linarith) (mul_nonneg (mul_nonneg hρ0 hW0) hτ0)
  have h6 := abs_sub_le (second fl pl pl2 R (columns fl w bh) (fun j => moments fl (fun i => gw i j) bh)
        (fun j => columns fl (fun i => gw i j) bh) (moments fl Gw bh) (columns fl Gw bh) V bxh bdh bddh
        d i j σ) (∑ l, (∑ p, gam R (rhs2 R b gw Gw bx bd bdd i j) p * (b l p * w l) +
        ∑ p, gam R (rhs1 R b gw bx bd i) p * (b l p * gw l j) +
        ∑ p, gam R (rhs1 R b gw bx bd j) p * (b l p * gw l i) +
        ∑ p, gam R bx p * (b l p * Gw l)) * (∑ s, c s * b l s)) (∑ s, c s * bdd s)
  rw [hexact, add_sub_cancel_right] at h6
  rw [hexact] at h4
  change |second fl pl pl2 R (columns fl w bh) (fun j => moments fl (fun i => gw i j) bh)
        (fun j => columns fl (fun i => gw i j) bh) (moments fl Gw bh) (columns fl Gw bh) V bxh bdh bddh
        d i j σ - _| ≤ _ at h4
  linarith

end

end

end Verif.RFit
