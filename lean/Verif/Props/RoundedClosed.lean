import Verif.Proofs.RoundedClosed
import Verif.Proofs.Rounding
import Verif.Proofs.TrKernels
import Verif.Props.Numint

/-!
# C116: closed-form inverses and product quadrature in floating point arithmetic
-/

set_option linter.unusedSectionVars false

namespace Verif.RClosed.Props
open Verif Verif.Rnd Verif.Tr Verif.Frames Verif.Numint Verif.Numint.Props

/-! ## The inverses -/

section
variable {K : Type} [Field K] [LinearOrder K] [IsStrictOrderedRing K] {fl : K → K}

/-- The sum of the absolute values of the six products in the determinant. -/
def sixProducts (A : Mat 3 K) : K := ∑ σ : Equiv.Perm (Fin 3), ∏ i, |A i (σ i)|

/-- The sum of the absolute values of the two products in the cofactor which is the numerator of the entry `i j` of the
inverse: row `j` and column `i` are left out. -/
def twoProducts (A : Mat 3 K) (i j : Fin 3) : K :=
  |A (j.succAbove 0) (i.succAbove 0) * A (j.succAbove 1) (i.succAbove 1)| +
    |A (j.succAbove 0) (i.succAbove 1) * A (j.succAbove 1) (i.succAbove 0)|

/-- C116: if the products in the determinant are not so large, compared to the determinant, that the rounding errors hide it,
`inv3x3` and `inv3x3u` return a matrix, and the distance of each of its entries to the one of the inverse is bounded. -/
theorem C116_inverse {u : K} (h : Precise fl u) (cd : Plan) (ca : Fin 3 → Fin 3 → Plan) (A : Mat 3 K) (κ : K)
    (hd : A.det ≠ 0) (hκ : ((1 + u) ^ 7 - 1) * sixProducts A ≤ κ * |A.det|) (hk : κ < 1) :
    ∃ R R' : Mat 3 K, inv3x3 fl cd ca A = some R ∧ inv3x3u fl cd A = .ok R' ∧
      ∀ i j, |R i j - A⁻¹ i j| ≤ twoProducts A i j / |A.det| * (((1 + u) ^ 3 - 1 + κ) / (1 - κ)) ∧
        |R' i j - A⁻¹ i j| ≤ twoProducts A i j / |A.det| * (((1 + u) ^ 3 - 1 + κ) / (1 - κ)) := by
  have hu := h.nonneg
  have hdet := round_near h (entries A) det3 cd false
  rw [det3_depth, det3_eval, ← sum_perm_three] at hdet
  have hpos : 0 < |A.det| := abs_pos.mpr hd
  have hne := (near_ne hdet (lt_of_le_of_lt hκ (by nlinarith))).1
  have hmag : ∀ i j, (adj3 i j).mag (entries A) = twoProducts A i j := by
    intro i j
    rw [adj3_mag]
    unfold twoProducts
    rw [abs_mul, abs_mul]
  have hle : ∀ i j, |A.adjugate i j| ≤ twoProducts A i j := by
    intro i j
    have := (round_near h (entries A) (adj3 i j) (fun _ => .no) false).2
    rwa [adj3_eval, hmag] at this
  refine ⟨_, _, by unfold inv3x3; simp only [if_neg hne]; rfl, by unfold inv3x3u; simp only [if_neg hne]; rfl, ?_⟩
  intro i j
  rw [inv_entry]
  constructor
  · refine quotient_err hu hdet hκ hk hd (hle i j) ?_
    have := round_near h (entries A) (adj3 i j) (ca i j) false
    rw [adj3_depth, adj3_eval, hmag] at this
    exact Near.round h (Near.divide this _)
  · refine quotient_err hu hdet hκ hk hd (hle i j) ?_
    have := quotients_near h (det3.round fl (entries A) cd false) (entries A) i j
    rwa [adj3_eval, hmag] at this

/-- C116: `inv2x2` and `inv2x2u`: the relative error of each entry is bounded, those that are zero are found exactly. -/
theorem C116_inverse2 {u : K} (h : Precise fl u) (cd : Plan) (A : Mat 2 K) (κ : K)
    (hd : A.det ≠ 0) (hκ : ((1 + u) ^ 2 - 1) * (|A 0 0 * A 1 1| + |A 0 1 * A 1 0|) ≤ κ * |A.det|) (hk : κ < 1) :
    ∃ R : Mat 2 K, inv2x2 fl cd A = .ok R ∧ ∀ i j, |R i j - A⁻¹ i j| ≤ |A⁻¹ i j| * ((u + κ) / (1 - κ)) := by
  have hu := h.nonneg
  have hdet := round_near h (entries A) det2 cd false
  rw [det2_depth, det2_eval, det2_mag, ← abs_mul, ← abs_mul] at hdet
  have hpos : 0 < |A.det| := abs_pos.mpr hd
  have hne := (near_ne hdet (lt_of_le_of_lt hκ (by nlinarith))).1
  have key : ∀ x : K, |fl (x / det2.round fl (entries A) cd false) - x / A.det| ≤ |x / A.det| * ((u + κ) / (1 - κ)) := by
    intro x
    have := quotient_err hu (k := 1) hdet hκ hk hd (le_refl |x|)
      (Near.round h (Near.divide (Near.refl u x) (det2.round fl (entries A) cd false)))
    rwa [pow_one, add_sub_cancel_left, ← abs_div] at this
  refine ⟨_, by unfold inv2x2; simp only [if_neg hne]; rfl, ?_⟩
  intro i j
  rw [inv_entry, Matrix.adjugate_fin_two]
  fin_cases i <;> fin_cases j
  · exact key (A 1 1)
  · exact key (-(A 0 1))
  · exact key (-(A 1 0))
  · exact key (A 0 0)

/-- C116: the bulk variants give for every matrix of the stack what `inv3x3` gives for it, in whatever order the parallel
loop runs. -/
theorem C116_bulk (cd : Plan) (ca : Fin 3 → Fin 3 → Plan) (junk : Mat 3 K) (A : List (Mat 3 K)) (sched : List ℕ)
    (hs : Verif.Utils.IsSchedule A.length sched) :
    inv3x3Bulk fl cd ca junk sched A = A.map (inv3x3 fl cd ca) := by
  refine List.ext_getElem? fun k => ?_
  unfold inv3x3Bulk
  by_cases hk : k < A.length
  · rw [loop1_get sched _ hs _ _ k hk, List.getElem?_map, List.getElem?_map,
      List.getElem?_eq_getElem hk]
    show some (inv3x3 fl cd ca (rd junk A k)) = _
    rw [rd_eq _ _ _ _ (List.getElem?_eq_getElem hk)]
    rfl
  · rw [List.getElem?_eq_none (by rw [loop1_length, List.length_map]; omega),
      List.getElem?_eq_none (by rw [List.length_map]; omega)]

/-- C116: a matrix of order two whose determinant is zero is always refused, if the compiler does not contract operations. -/
theorem C116_singular2 (h0 : fl 0 = 0) (A : Mat 2 K) (hd : A.det = 0) :
    inv2x2 fl (fun _ => .no) A = .error .zeroDiv := by
  rw [Matrix.det_fin_two, sub_eq_zero] at hd
  unfold inv2x2
  have : det2.round fl (entries A) (fun _ => .no) false = 0 := by
    show fl (fl (A 0 0 * A 1 1) - fl (A 0 1 * A 1 0)) = 0
    rw [hd, sub_self, h0]
  simp only [if_pos this]

end

/-- Numbers of double precision are left alone. -/
def IsDouble (x : ℚ) : Prop := binary 53 x = x

/-- C116 fails for matrices of order three: here is a matrix of integers whose determinant is zero, for which `inv3x3` and
`inv3x3u` return a matrix, and another one whose determinant is not zero that is refused. -/
theorem C116_singular_violated :
    (∃ A : Mat 3 ℚ, (∀ i j, IsDouble (A i j)) ∧ A.det = 0 ∧
      (∃ R, inv3x3 (binary 53) (fun _ => .no) (fun _ _ _ => .no) A = some R) ∧
      (∃ R, inv3x3u (binary 53) (fun _ => .no) A = .ok R)) ∧
    (∃ A : Mat 3 ℚ, (∀ i j, IsDouble (A i j)) ∧ A.det ≠ 0 ∧
      inv3x3 (binary 53) (fun _ => .no) (fun _ _ _ => .no) A = none ∧
      inv3x3u (binary 53) (fun _ => .no) A = .error .zeroDiv) := by
  constructor
  · let A : Mat 3 ℚ := !![54334029, 18036241, 88147718; 85910796, 5234414, 56977200; 140244825, 23270655, 145124918]
    have hr : ¬ det3.round (binary 53) (entries A) (fun _ => .no) false = 0 := by decide +kernel
    refine ⟨A, ?_, ?_, ⟨_, by unfold inv3x3; simp only [if_neg hr]; rfl⟩, ⟨_, by unfold inv3x3u; simp only [if_neg hr]; rfl⟩⟩
    · intro i j; unfold IsDouble; fin_cases i <;> fin_cases j <;> decide +kernel
    · rw [Matrix.det_fin_three]; decide +kernel
  · let A : Mat 3 ℚ := !![50513794, 24029249, 36609709; 50513794, 24029248, 64607865; 101027588, 48058497, 101217575]
    have hr : det3.round (binary 53) (entries A) (fun _ => .no) false = 0 := by decide +kernel
    refine ⟨A, ?_, ?_, by unfold inv3x3; simp only [if_pos hr], by unfold inv3x3u; simp only [if_pos hr]⟩
    · intro i j; unfold IsDouble; fin_cases i <;> fin_cases j <;> decide +kernel
    · rw [Matrix.det_fin_three]; decide +kernel

/-- C116 fails for matrices of order two: a matrix of doubles whose determinant is not zero is refused, and one whose
determinant is zero is not if a product is contracted with the difference. -/
theorem C116_singular2_violated :
    (∃ A : Mat 2 ℚ, (∀ i j, IsDouble (A i j)) ∧ A.det ≠ 0 ∧ inv2x2 (binary 53) (fun _ => .no) A = .error .zeroDiv) ∧
    (∃ A : Mat 2 ℚ, (∀ i j, IsDouble (A i j)) ∧ A.det = 0 ∧ ∃ R, inv2x2 (binary 53) (fun _ => .left) A = .ok R) := by
  constructor
  · let A : Mat 2 ℚ := !![134217729, 134217728; 134217728, 134217727]
    have hr : det2.round (binary 53) (entries A) (fun _ => .no) false = 0 := by decide +kernel
    refine ⟨A, ?_, ?_, by unfold inv2x2; simp only [if_pos hr]⟩
    · intro i j; unfold IsDouble; fin_cases i <;> fin_cases j <;> decide +kernel
    · rw [Matrix.det_fin_two]; decide +kernel
  · let A : Mat 2 ℚ := !![134217729, 134217729; 134217729, 134217729]
    have hr : ¬ det2.round (binary 53) (entries A) (fun _ => .left) false = 0 := by decide +kernel
    refine ⟨A, ?_, ?_, ⟨_, by unfold inv2x2; simp only [if_neg hr]; rfl⟩⟩
    · intro i j; unfold IsDouble; fin_cases i <;> fin_cases j <;> decide +kernel
    · rw [Matrix.det_fin_two]; decide +kernel

/-! ## Quadrature -/

section
variable {K : Type} [Field K] [LinearOrder K] [IsStrictOrderedRing K] {fl : K → K}

theorem sum_err {α : Type} (l : List α) (v w g : α → K) (c : K) (h : ∀ x ∈ l, |v x - w x| ≤ c * |w x|) :
    |(l.map fun x => v x * g x).sum - (l.map fun x => w x * g x).sum| ≤ c * (l.map fun x => |w x * g x|).sum := by
  induction l with
  | nil => simp
  | cons x l ih =>
    simp only [List.map_cons, List.sum_cons]
    have h1 := ih fun y hy => h y (List.mem_cons_of_mem _ hy)
    have h2 : |v x * g x - w x * g x| ≤ c * |w x * g x| := by
      rw [← sub_mul, abs_mul, abs_mul, ← mul_assoc]
      exact mul_le_mul_of_nonneg_right (h x List.mem_cons_self) (abs_nonneg _)
    have h3 := abs_add_le (v x * g x - w x * g x)
      ((l.map fun x => v x * g x).sum - (l.map fun x => w x * g x).sum)
    have e : v x * g x + (l.map fun x => v x * g x).sum - (w x * g x + (l.map fun x => w x * g x).sum) =
        v x * g x - w x * g x + ((l.map fun x => v x * g x).sum - (l.map fun x => w x * g x).sum) := by ring
    rw [e, mul_add]
    linarith

theorem two_eq (lg : LegGauss K) (n1 n2 : ℕ) (h1 : 0 < n1) (h2 : 0 < n2)
    (l1 : (lg n1).length = n1) (l2 : (lg n2).length = n2) :
    gaussPoints fl lg [n1, n2] = .ok (.two
        ((pairs (lg n1) (lg n2)).map fun q => (q.1.1, q.2.1))
        ((pairs (lg n1) (lg n2)).map fun q => fl (q.1.2 * q.2.2))) := by
  have hl : (pairs (lg n1) (lg n2)).length = n1 * n2 := by rw [pairs_length, l1, l2]
  have e1 : ∀ n, 0 < n → gaussPoints1d lg n = .ok ((lg n).map Prod.fst, (lg n).map Prod.snd) :=
    fun n hn => by unfold gaussPoints1d; rw [if_neg (by omega)]
  have e : gaussPoints2d fl lg n1 n2 = .ok
      ((pairs (lg n1) (lg n2)).map (fun q => (q.1.1, q.2.1)),
        (pairs (lg n1) (lg n2)).map fun q => fl (q.1.2 * q.2.2)) := by
    unfold gaussPoints2d
    rw [e1 n1 h1, e1 n2 h2]
    show Except.ok _ = Except.ok _
    congr 1
    simp only [columns_eq]
    have hf := foldl_flat (fun (s : ℕ × List (K × K) × List K) (gi gj : K × K) =>
      put s (gi.1, gj.1) (fl (gi.2 * gj.2))) (lg n1) (fun _ => lg n2)
      (0, List.replicate (n1 * n2) (0, 0), List.replicate (n1 * n2) 0)
    rw [hf]
    exact fill (0, 0) 0 (pairs (lg n1) (lg n2)) (fun q => (q.1.1, q.2.1)) (fun q => fl (q.1.2 * q.2.2))
      (n1 * n2) hl.symm
  show (gaussPoints2d fl lg n1 n2).map _ = _
  rw [e]
  rfl

theorem three_eq (lg : LegGauss K) (n1 n2 n3 : ℕ) (h1 : 0 < n1) (h2 : 0 < n2) (h3 : 0 < n3)
    (l1 : (lg n1).length = n1) (l2 : (lg n2).length = n2) (l3 : (lg n3).length = n3) :
    gaussPoints fl lg [n1, n2, n3] = .ok (.three
        ((pairs (lg n1) (pairs (lg n2) (lg n3))).map fun q => (q.1.1, q.2.1.1, q.2.2.1))
        ((pairs (lg n1) (pairs (lg n2) (lg n3))).map fun q => fl (fl (q.1.2 * q.2.1.2) * q.2.2.2))) := by
  have hl : (pairs (lg n1) (pairs (lg n2) (lg n3))).length = n1 * n2 * n3 := by
    rw [pairs_length, pairs_length, l1, l2, l3, Nat.mul_assoc]
  have e1 : ∀ n, 0 < n → gaussPoints1d lg n = .ok ((lg n).map Prod.fst, (lg n).map Prod.snd) :=
    fun n hn => by unfold gaussPoints1d; rw [if_neg (by omega)]
  have e : gaussPoints3d fl lg n1 n2 n3 = .ok
      ((pairs (lg n1) (pairs (lg n2) (lg n3))).map (fun q => (q.1.1, q.2.1.1, q.2.2.1)),
        (pairs (lg n1) (pairs (lg n2) (lg n3))).map fun q => fl (fl (q.1.2 * q.2.1.2) * q.2.2.2)) := by
    unfold gaussPoints3d
    rw [e1 n1 h1, e1 n2 h2, e1 n3 h3]
    show Except.ok _ = Except.ok _
    congr 1
    simp only [columns_eq]
    have hf := fun (gi : K × K) s => foldl_flat (fun (s : ℕ × List (K × K × K) × List K) (gj gk : K × K) =>
      put s (gi.1, gj.1, gk.1) (fl (fl (gi.2 * gj.2) * gk.2))) (lg n2) (fun _ => lg n3) s
    have hf2 := foldl_flat (fun (s : ℕ × List (K × K × K) × List K) (gi : K × K)
      (q : (K × K) × (K × K)) => put s (gi.1, q.1.1, q.2.1) (fl (fl (gi.2 * q.1.2) * q.2.2))) (lg n1)
      (fun _ => pairs (lg n2) (lg n3))
      (0, List.replicate (n1 * n2 * n3) (0, 0, 0), List.replicate (n1 * n2 * n3) 0)
    simp only [hf]
    show ((lg n1).foldl (fun s gi => (pairs (lg n2) (lg n3)).foldl (fun s q =>
      put s (gi.1, q.1.1, q.2.1) (fl (fl (gi.2 * q.1.2) * q.2.2))) s) _).2 = _
    rw [hf2]
    exact fill (0, 0, 0) 0 (pairs (lg n1) (pairs (lg n2) (lg n3)))
      (fun q => (q.1.1, q.2.1.1, q.2.2.1)) (fun q => fl (fl (q.1.2 * q.2.1.2) * q.2.2.2))
      (n1 * n2 * n3) hl.symm
  show (gaussPoints3d fl lg n1 n2 n3).map _ = _
  rw [e]
  rfl

/-- The points of the two dimensional rule: all pairs, the first coordinate slow. -/
def grid2 (xs ys : List K) : List (K × K) := xs.flatMap fun x => ys.map fun y => (x, y)

/-- The points of the three dimensional rule. -/
def grid3 (xs ys zs : List K) : List (K × K × K) := xs.flatMap fun x => ys.flatMap fun y => zs.map fun z => (x, y, z)

/-- The sum of the products of the weights with the values of `f`, computed without rounding. -/
def exact2 (r s : List (K × K)) (f : K → K → K) : K :=
  (r.map fun p => (s.map fun q => p.2 * q.2 * f p.1 q.1).sum).sum

/-- The same in three dimensions. -/
def exact3 (r s t : List (K × K)) (f : K → K → K → K) : K :=
  (r.map fun p => (s.map fun q => (t.map fun o => p.2 * q.2 * o.2 * f p.1 q.1 o.1).sum).sum).sum

theorem sum_flat {α β : Type} (l : List α) (m : List β) (g : α × β → K) :
    ((pairs l m).map g).sum = (l.map fun x => (m.map fun y => g (x, y)).sum).sum := by
  unfold pairs
  induction l with
  | nil => rfl
  | cons x l ih =>
    rw [List.flatMap_cons, List.map_append, List.sum_append, ih, List.map_cons, List.sum_cons, List.map_map]
    rfl

theorem fl_pos {u : K} (h : Precise fl u) (hu : u < 1) {x : K} (hx : 0 < x) : 0 < fl x := by
  have := (abs_le.mp (h x)).1
  rw [abs_of_pos hx] at this
  nlinarith

theorem err2 {u : K} (h : Precise fl u) (a b c : K) : |fl (fl (a * b) * c) - a * b * c| ≤ ((1 + u) ^ 2 - 1) * |a * b * c| := by
  have := Near.round h (Near.mul (Near.round h (Near.refl u (a * b))) c)
  rw [← abs_mul] at this
  exact this.1

theorem mem_pairs {α β : Type} {l : List α} {m : List β} {q : α × β} (h : q ∈ pairs l m) : q.1 ∈ l ∧ q.2 ∈ m := by
  unfold pairs at h
  simp only [List.mem_flatMap, List.mem_map] at h
  obtain ⟨x, hx, y, hy, rfl⟩ := h
  exact ⟨hx, hy⟩

/-- C116: the two dimensional rule with rounded weights.  The points are not touched by rounding: all pairs of the nodes, in
order.  What the rule gives for any integrand differs from the exact product rule at most by `u` times the same rule for
absolute values, and if the weights of the one dimensional rules are positive, so are these. -/
theorem C116_quadrature2 {u : K} (h : Precise fl u) (lg : LegGauss K) (n1 n2 : ℕ) (h1 : 0 < n1) (h2 : 0 < n2)
    (l1 : (lg n1).length = n1) (l2 : (lg n2).length = n2) :
    ∃ pos w, gaussPoints fl lg [n1, n2] = .ok (.two pos w) ∧
      pos = grid2 ((lg n1).map Prod.fst) ((lg n2).map Prod.fst) ∧ w.length = n1 * n2 ∧
      (∀ f : K → K → K, |quad pos w (fun p => f p.1 p.2) - exact2 (lg n1) (lg n2) f| ≤
        u * ((lg n1).map fun p => ((lg n2).map fun q => |p.2 * q.2 * f p.1 q.1|).sum).sum) ∧
      (u < 1 → (∀ p ∈ lg n1, 0 < p.2) → (∀ p ∈ lg n2, 0 < p.2) → ∀ v ∈ w, 0 < v) := by
  refine ⟨_, _, two_eq lg n1 n2 h1 h2 l1 l2, ?_, by rw [List.length_map, pairs_length, l1, l2], ?_, ?_⟩
  · unfold grid2 pairs
    rw [List.map_flatMap, List.flatMap_map]
    congr 1
    funext x
    rw [List.map_map, List.map_map]
    rfl
  · intro f
    unfold quad
    rw [zip_map_map, List.map_map]
    have := sum_err (pairs (lg n1) (lg n2)) (fun q => fl (q.1.2 * q.2.2)) (fun q => q.1.2 * q.2.2)
      (fun q => f q.1.1 q.2.1) u (fun q _ => h _)
    rw [sum_flat (lg n1) (lg n2) (fun q => q.1.2 * q.2.2 * f q.1.1 q.2.1),
      sum_flat (lg n1) (lg n2) (fun q => |q.1.2 * q.2.2 * f q.1.1 q.2.1|)] at this
    exact this
  · intro hu p1 p2 v hv
    obtain ⟨q, hq, rfl⟩ := List.mem_map.mp hv
    exact fl_pos h hu (mul_pos (p1 _ (mem_pairs hq).1) (p2 _ (mem_pairs hq).2))

/-- C116: the three dimensional rule with rounded weights. -/
theorem C116_quadrature3 {u : K} (h : Precise fl u) (lg : LegGauss K) (n1 n2 n3 : ℕ) (h1 : 0 < n1) (h2 : 0 < n2)
    (h3 : 0 < n3) (l1 : (lg n1).length = n1) (l2 : (lg n2).length = n2) (l3 : (lg n3).length = n3) :
    ∃ pos w, gaussPoints fl lg [n1, n2, n3] = .ok (.three pos w) ∧
      pos = grid3 ((lg n1).map Prod.fst) ((lg n2).map Prod.fst) ((lg n3).map Prod.fst) ∧ w.length = n1 * n2 * n3 ∧
      (∀ f : K → K → K → K, |quad pos w (fun p => f p.1 p.2.1 p.2.2) - exact3 (lg n1) (lg n2) (lg n3) f| ≤
        ((1 + u) ^ 2 - 1) * ((lg n1).map fun p => ((lg n2).map fun q => ((lg n3).map fun o =>
          |p.2 * q.2 * o.2 * f p.1 q.1 o.1|).sum).sum).sum) ∧
      (u < 1 → (∀ p ∈ lg n1, 0 < p.2) → (∀ p ∈ lg n2, 0 < p.2) → (∀ p ∈ lg n3, 0 < p.2) → ∀ v ∈ w, 0 < v) := by
  refine ⟨_, _, three_eq lg n1 n2 n3 h1 h2 h3 l1 l2 l3, ?_,
    by rw [List.length_map, pairs_length, pairs_length, l1, l2, l3, Nat.mul_assoc], ?_, ?_⟩
  · unfold grid3 pairs
    rw [List.map_flatMap, List.flatMap_map]
    congr 1
    funext x
    rw [List.map_map, List.map_flatMap, List.flatMap_map]
    congr 1
    funext y
    rw [List.map_map, List.map_map]
    rfl
  · intro f
    unfold quad
    rw [zip_map_map, List.map_map]
    have := sum_err (pairs (lg n1) (pairs (lg n2) (lg n3))) (fun q => fl (fl (q.1.2 * q.2.1.2) * q.2.2.2))
      (fun q => q.1.2 * q.2.1.2 * q.2.2.2) (fun q => f q.1.1 q.2.1.1 q.2.2.1) ((1 + u) ^ 2 - 1) (fun q _ => err2 h _ _ _)
    rw [sum_flat (lg n1) (pairs (lg n2) (lg n3)) (fun q => q.1.2 * q.2.1.2 * q.2.2.2 * f q.1.1 q.2.1.1 q.2.2.1),
      sum_flat (lg n1) (pairs (lg n2) (lg n3)) (fun q => |q.1.2 * q.2.1.2 * q.2.2.2 * f q.1.1 q.2.1.1 q.2.2.1|)] at this
    simp only [fun p : K × K => sum_flat (lg n2) (lg n3) (fun q => p.2 * q.1.2 * q.2.2 * f p.1 q.1.1 q.2.1),
      fun p : K × K => sum_flat (lg n2) (lg n3) (fun q => |p.2 * q.1.2 * q.2.2 * f p.1 q.1.1 q.2.1|)] at this
    exact this
  · intro hu p1 p2 p3 v hv
    obtain ⟨q, hq, rfl⟩ := List.mem_map.mp hv
    have hq2 := mem_pairs (mem_pairs hq).2
    exact fl_pos h hu (mul_pos (fl_pos h hu (mul_pos (p1 _ (mem_pairs hq).1) (p2 _ hq2.1))) (p3 _ hq2.2))

/-- C116: what is refused, and what is not rounded at all: the rule of one dimension is the one of numpy. -/
theorem C116_orders (lg : LegGauss K) (args : List ℕ) :
    (∀ n, 0 < n → args = [n] → gaussPoints fl lg args = .ok (.one ((lg n).map Prod.fst, (lg n).map Prod.snd))) ∧
    (0 ∈ args → args.length ≤ 3 → gaussPoints fl lg args = .error .value) ∧
    (args.length = 0 ∨ 3 < args.length → gaussPoints fl lg args = .error .notImplemented) := by
  have e0 : gaussPoints1d lg 0 = .error .value := rfl
  have ep : ∀ n, 0 < n → gaussPoints1d lg n = .ok ((lg n).map Prod.fst, (lg n).map Prod.snd) :=
    fun n hn => by unfold gaussPoints1d; rw [if_neg (by omega)]
  refine ⟨?_, ?_, ?_⟩
  · rintro n hn rfl
    show (gaussPoints1d lg n).map _ = _
    rw [ep n hn]; rfl
  · intro hm hl
    match args, hm, hl with
    | [n], hm, _ =>
      obtain rfl : 0 = n := by simpa using hm
      show (gaussPoints1d lg 0).map GaussResult.one = _
      rw [e0]; rfl
    | [n1, n2], hm, _ =>
      show (gaussPoints2d fl lg n1 n2).map _ = _
      unfold gaussPoints2d
      rcases Nat.eq_zero_or_pos n1 with rfl | p1
      · rw [e0]; rfl
      · obtain rfl : 0 = n2 := by
          have : 0 = n1 ∨ 0 = n2 := by simpa using hm
          omega
        rw [e0, ep n1 p1]; rfl
    | [n1, n2, n3], hm, _ =>
      show (gaussPoints3d fl lg n1 n2 n3).map _ = _
      unfold gaussPoints3d
      rcases Nat.eq_zero_or_pos n1 with rfl | p1
      · rw [e0]; rfl
      · rcases Nat.eq_zero_or_pos n2 with rfl | p2
        · rw [e0, ep n1 p1]; rfl
        · obtain rfl : 0 = n3 := by
            have : 0 = n1 ∨ 0 = n2 ∨ 0 = n3 := by simpa using hm
            omega
          rw [e0, ep n1 p1, ep n2 p2]; rfl
  · intro hl
    match args, hl with
    | [], _ => rfl
    | [_], hl => simp at hl
    | [_, _], hl => simp at hl
    | [_, _, _], hl => simp at hl
    | _ :: _ :: _ :: _ :: _, _ => rfl

end

/-! ## Cases -/

/-- Half of the distance between one and the next number of double precision. -/
abbrev u53 : ℚ := 1 / 2 ^ 53

example : ∃ A : Mat 3 ℚ, A.det ≠ 0 ∧ ((1 + u53) ^ 7 - 1) * sixProducts A ≤ 1 / 2 ^ 47 * |A.det| ∧ (1 : ℚ) / 2 ^ 47 < 1 := by
  refine ⟨!![2, 1, 0; 1, 3, 1; 0, 1, 4], ?_, ?_, by norm_num⟩
  · rw [Matrix.det_fin_three]; decide +kernel
  · unfold sixProducts; rw [sum_perm_three, Matrix.det_fin_three]; decide +kernel

example : Precise (binary 53) u53 := by
  have := binary_precise 53 (by norm_num)
  exact this

example : ∃ A : Mat 2 ℚ, A.det ≠ 0 ∧
    ((1 + u53) ^ 2 - 1) * (|A 0 0 * A 1 1| + |A 0 1 * A 1 0|) ≤ 1 / 2 ^ 50 * |A.det| := by
  refine ⟨!![2, 1; 1, 3], ?_, ?_⟩
  · rw [Matrix.det_fin_two]; decide +kernel
  · rw [Matrix.det_fin_two]; decide +kernel

example : ∃ lg : LegGauss ℚ, (lg 2).length = 2 ∧ (lg 3).length = 3 ∧ (∀ p ∈ lg 2, 0 < p.2) ∧ ∀ p ∈ lg 3, 0 < p.2 :=
  ⟨fun n => if n = 2 then [(-1/2, 1), (1/2, 1)] else [(-3/4, 5/9), (0, 8/9), (3/4, 5/9)], by decide +kernel, by decide +kernel,
    by decide +kernel, by decide +kernel⟩

example : ∃ A : Mat 2 ℚ, A.det = 0 ∧ A ≠ 0 :=
  ⟨!![1/3, 2/3; 1/5, 2/5], by rw [Matrix.det_fin_two]; decide +kernel, fun h => absurd (congrFun (congrFun h 0) 0) (by decide +kernel)⟩

end Verif.RClosed.Props
