import Verif.Model.Lagrange
import Mathlib.LinearAlgebra.Lagrange
import Mathlib.LinearAlgebra.Vandermonde
import Mathlib.Algebra.Polynomial.Derivative
import Mathlib.Data.List.GetD
import Mathlib.Data.List.FinRange
import Mathlib.Tactic.Ring
import Mathlib.Tactic.FieldSimp
import Mathlib.Tactic.Linarith
import Mathlib.Data.Rat.Defs

/-!
# C56: Lagrange polynomials
-/

set_option linter.unusedSectionVars false

namespace Verif.Lag.Props
open Verif Verif.Lag Polynomial

variable {K : Type} [Field K] [DecidableEq K]

/-! ## Lists of coefficients as polynomials -/

/-- The polynomial with the given coefficients, lowest degree first. -/
noncomputable def toPoly : PolyL K → K[X]
  | [] => 0
  | c :: p => C c + X * toPoly p

theorem coeff_toPoly (p : PolyL K) (n : ℕ) : (toPoly p).coeff n = p.getD n 0 := by
  induction p generalizing n with
  | nil => simp [toPoly]
  | cons c p ih => cases n with
    | zero => simp [toPoly]
    | succ n => simp [toPoly, coeff_C, ih]

/-- What is computed by the polynomial as a function is its value. -/
theorem eval_toPoly (p : PolyL K) (x : K) : (toPoly p).eval x = p.eval x := by
  induction p with
  | nil => simp [toPoly, PolyL.eval]
  | cons c p ih =>
    have e : PolyL.eval (c :: p) x = c + x * PolyL.eval p x := rfl
    rw [e, ← ih]
    simp [toPoly]

theorem toPoly_diff (p : PolyL K) : toPoly p.diff = derivative (toPoly p) := by
  ext n
  rw [coeff_derivative, coeff_toPoly, coeff_toPoly]
  unfold PolyL.diff
  simp only [List.getD_eq_getElem?_getD, List.getElem?_tail, List.getElem?_map,
    List.getElem?_zipIdx]
  cases h : p[n + 1]? with
  | none => simp
  | some c => simp

theorem toPoly_smul (a : K) (p : PolyL K) : toPoly (p.smul a) = C a * toPoly p := by
  ext n
  rw [coeff_C_mul, coeff_toPoly, coeff_toPoly]
  unfold PolyL.smul
  simp only [List.getD_eq_getElem?_getD, List.getElem?_map]
  cases h : p[n]? <;> simp

theorem toPoly_add (p q : PolyL K) : toPoly (p.add q) = toPoly p + toPoly q := by
  induction p generalizing q with
  | nil => simp [PolyL.add, toPoly]
  | cons a p ih => cases q with
    | nil => simp [PolyL.add, toPoly]
    | cons b q =>
      simp only [PolyL.add, toPoly, ih, map_add]
      ring

theorem toPoly_foldl (l : List (PolyL K)) (p : PolyL K) :
    toPoly (l.foldl PolyL.add p) = toPoly p + (l.map toPoly).sum := by
  induction l generalizing p with
  | nil => simp
  | cons q l ih => rw [List.foldl_cons, ih, toPoly_add, List.map_cons, List.sum_cons, add_assoc]

theorem degree_toPoly_lt {N : ℕ} (p : PolyL K) (h : p.length = N) :
    (toPoly p).degree < (N : WithBot ℕ) := by
  rw [degree_lt_iff_coeff_zero]
  intro m hm
  rw [coeff_toPoly, List.getD_eq_default]
  omega

/-! ## The linear system -/

theorem det_system {N : ℕ} (x : Fin N → K) : (system x).det ≠ 0 ↔ Function.Injective x := by
  have : system x = Matrix.vandermonde x := by
    ext i j
    simp [system, Matrix.vandermonde_apply]
  rw [this]
  exact Matrix.det_vandermonde_ne_zero_iff

theorem toPoly_ofFn_eval {N : ℕ} (c : Fin N → K) (x : K) :
    (toPoly (List.ofFn c)).eval x = ∑ i : Fin N, c i * x ^ (i : ℕ) := by
  induction N with
  | zero => simp [toPoly]
  | succ N ih =>
    rw [List.ofFn_succ, toPoly, eval_add, eval_C, eval_mul, eval_X, ih, Fin.sum_univ_succ,
      Finset.mul_sum]
    congr 1
    · simp
    · refine Finset.sum_congr rfl fun i _ => ?_
      rw [Fin.val_succ, pow_succ]
      ring

theorem shape_eq_basis {N : ℕ} (x : Fin N → K) (hx : Function.Injective x) (ind : Fin N → ℤ)
    (hi : Function.Injective ind) (Ainv : Matrix (Fin N) (Fin N) K)
    (hA : system x * Ainv = 1) (j : Fin N) :
    toPoly (shape Ainv ind j) = Lagrange.basis Finset.univ x j := by
  have hs : shape Ainv ind j = List.ofFn fun i => Ainv i j := by
    unfold shape
    congr 1
    funext i
    rw [Finset.sum_eq_single j]
    · simp
    · intro k _ hk
      rw [if_neg fun h => hk (hi h)]
    · simp
  rw [hs]
  refine Polynomial.eq_of_degrees_lt_of_eval_index_eq (s := Finset.univ) (v := x) hx.injOn ?_ ?_ ?_
  · rw [Finset.card_univ, Fintype.card_fin]
    exact degree_toPoly_lt _ (by simp)
  · rw [Lagrange.degree_basis hx.injOn (Finset.mem_univ j), Finset.card_univ, Fintype.card_fin]
    have := j.pos
    exact_mod_cast Nat.sub_lt this one_pos
  · intro i _
    rw [toPoly_ofFn_eval]
    have h : ∑ k : Fin N, Ainv k j * x i ^ (k : ℕ) = (system x * Ainv) i j := by
      rw [Matrix.mul_apply]
      exact Finset.sum_congr rfl fun k _ => mul_comm _ _
    rw [h, hA]
    by_cases hij : i = j
    · subst hij
      rw [Matrix.one_apply_eq, Lagrange.eval_basis_self hx.injOn (Finset.mem_univ i)]
    · rw [Matrix.one_apply_ne hij, Lagrange.eval_basis_of_ne (Ne.symm hij) (Finset.mem_univ i)]

theorem inv_spec {N : ℕ} (A : Matrix (Fin N) (Fin N) K) (h : A.det ≠ 0) :
    ∃ B, inv A = .ok B ∧ A * B = 1 := by
  refine ⟨_, if_neg h, ?_⟩
  rw [Matrix.mul_smul, Matrix.mul_adjugate, smul_smul, inv_mul_cancel₀ h, one_smul]

/-! ## C56 -/

/-- What the documentation promises about the result: for the nodes `x` and the indices `ind`, the
entries are stored under the indices, the functions are the Lagrange polynomials, followed by their
first three derivatives. -/
def IsLagrange {N : ℕ} (x : Fin N → K) (ind : Fin N → ℤ) (d : List (ℤ × Entry K)) : Prop :=
  d.map Prod.fst = List.ofFn ind ∧
    ∀ j : Fin N, ∃ e, lookup d (ind j) = .ok e ∧
      toPoly e.f0 = Lagrange.basis Finset.univ x j ∧
      toPoly e.f1 = derivative (toPoly e.f0) ∧
      toPoly e.f2 = derivative (derivative (toPoly e.f0)) ∧
      toPoly e.f3 = derivative (derivative (derivative (toPoly e.f0)))

theorem lookup_ofFn {N : ℕ} (ind : Fin N → ℤ) (hi : Function.Injective ind) (e : Fin N → Entry K)
    (j : Fin N) : lookup ((List.finRange N).map fun k => (ind k, e k)) (ind j) = .ok (e j) := by
  unfold lookup
  have : ((List.finRange N).map fun k => (ind k, e k)).reverse.find?
      (fun p => decide (p.1 = ind j)) = some (ind j, e j) := by
    cases h : ((List.finRange N).map fun k => (ind k, e k)).reverse.find?
        (fun p => decide (p.1 = ind j)) with
    | none =>
      rw [List.find?_eq_none] at h
      refine absurd ?_ (h (ind j, e j) ?_)
      · simp
      · rw [List.mem_reverse, List.mem_map]
        exact ⟨j, List.mem_finRange j, rfl⟩
    | some p =>
      have h1 := List.find?_some h
      have h2 := List.mem_of_find?_eq_some h
      rw [List.mem_reverse, List.mem_map] at h2
      obtain ⟨k, -, rfl⟩ := h2
      have : k = j := hi (by simpa using h1)
      rw [this]
  rw [this]

/-- The indices used: those given, or `1, …, N`. -/
def indices (a : Args K) (N : ℕ) (k : Fin N) : ℤ :=
  match a.i with
  | none => (k : ℤ) + 1
  | some i => i.getD k 0

/-- The nodes used: those given, the equally spaced ones, or symbols. -/
def nodes (symbol : ℕ → K) (a : Args K) (N : ℕ) (k : Fin N) : K :=
  match a.x, a.sym with
  | some x, _ => x.getD k 0
  | none, false => -1 + (k : K) * (2 / ((N : K) - 1))
  | none, true => symbol (k + 1)

/-- The number of points is given directly or by the number of nodes or indices. -/
def HasCount (a : Args K) (N : ℕ) : Prop :=
  a.N = some N ∨ (a.N = none ∧ ∃ x, a.x = some x ∧ x.length = N) ∨
    (a.N = none ∧ a.x = none ∧ ∃ i, a.i = some i ∧ i.length = N)

theorem gen_ok (symbol : ℕ → K) (a : Args K) (N : ℕ) (hN : 2 ≤ N) (hc : HasCount a N)
    (hxl : ∀ x, a.x = some x → N ≤ x.length) (hil : ∀ i, a.i = some i → i.length = N)
    (hx : Function.Injective (nodes symbol a N))
    (ho : a.out ≠ .plain) (hl : (a.lambdify && a.sym) = false) :
    ∃ Ainv, system (nodes symbol a N) * Ainv = 1 ∧
      genLagrange symbol a = .ok ((List.finRange N).map fun j =>
        (indices a N j, entry (shape Ainv (indices a N) j))) := by
  obtain ⟨Ainv, h1, h2⟩ := inv_spec (system (nodes symbol a N)) ((det_system _).2 hx)
  refine ⟨Ainv, h2, ?_⟩
  have e1 : count a = .ok N := by
    unfold count
    rcases hc with h | ⟨h, x, hx, hN⟩ | ⟨h, hx, i, hi, hN⟩
    · rw [h]
    · rw [h, hx]; subst hN; rfl
    · rw [h, hx, hi]; subst hN; rfl
  have hlen : (inds a N).length = N := by
    unfold inds
    cases h : a.i with
    | none => simp
    | some i => exact hil i h
  have hind : ∀ k : Fin N, (inds a N).getD k 0 = indices a N k := by
    intro k
    unfold inds indices
    cases h : a.i with
    | none => simp [List.getD_eq_getElem?_getD]
    | some i => rfl
  have hxlen : N ≤ (nodeList symbol a N).length := by
    unfold nodeList
    cases h : a.x with
    | some x => exact hxl x h
    | none => cases a.sym <;> simp [linspace]
  have hnod : ∀ k : Fin N, (nodeList symbol a N).getD k 0 = nodes symbol a N k := by
    intro k
    unfold nodeList nodes
    cases h : a.x with
    | some x => rfl
    | none => cases a.sym <;> simp [linspace, List.getD_eq_getElem?_getD]
  unfold genLagrange
  rw [e1]
  show genWith symbol a N = _
  unfold genWith
  rw [if_neg (by omega), if_neg (by omega), if_neg (by omega), if_neg (by omega)]
  have hs : (fun i : Fin N => (nodeList symbol a N).getD i 0) = nodes symbol a N := funext hnod
  have hs2 : (fun i : Fin N => (inds a N).getD i 0) = indices a N := funext hind
  rw [hs, h1]
  simp only [Except.bind]
  rw [if_neg ho, if_neg (by omega), hl, if_neg (by decide), hs2]
  simp only [hind]

/-- C56: for two or more points with distinct nodes and distinct indices, `gen_Lagrange_1d` stores
the Lagrange polynomials and their derivatives. -/
theorem C56_lagrange_partial (symbol : ℕ → K) (a : Args K) (N : ℕ) (hN : 2 ≤ N) (hc : HasCount a N)
    (hxl : ∀ x, a.x = some x → N ≤ x.length) (hil : ∀ i, a.i = some i → i.length = N)
    (hx : Function.Injective (nodes symbol a N)) (hi : Function.Injective (indices a N))
    (ho : a.out ≠ .plain) (hl : (a.lambdify && a.sym) = false) :
    ∃ d, genLagrange symbol a = .ok d ∧ IsLagrange (nodes symbol a N) (indices a N) d := by
  obtain ⟨Ainv, hA, hg⟩ := gen_ok symbol a N hN hc hxl hil hx ho hl
  refine ⟨_, hg, ?_, fun j => ?_⟩
  · rw [List.map_map, List.ofFn_eq_map]
    rfl
  · refine ⟨_, lookup_ofFn (indices a N) hi _ j, ?_, ?_, ?_, ?_⟩
    · exact shape_eq_basis _ hx _ hi Ainv hA j
    · exact toPoly_diff _
    · show toPoly (PolyL.diff (PolyL.diff _)) = _
      rw [toPoly_diff, toPoly_diff]
      rfl
    · show toPoly (PolyL.diff (PolyL.diff (PolyL.diff _))) = _
      rw [toPoly_diff, toPoly_diff, toPoly_diff]
      rfl

/-- C56: what this means for the values: the functions are one at their own node and zero at the
others; at every place they sum to one and their derivatives to zero. -/
theorem C56_values {N : ℕ} (hN : 2 ≤ N) (x : Fin N → K) (hx : Function.Injective x)
    (ind : Fin N → ℤ) (d : List (ℤ × Entry K)) (h : IsLagrange x ind d) :
    ∃ e : Fin N → Entry K, (∀ j, lookup d (ind j) = .ok (e j)) ∧
      (∀ j, (e j).f0.eval (x j) = 1) ∧ (∀ i j, i ≠ j → (e j).f0.eval (x i) = 0) ∧
      (∀ t, ∑ j, (e j).f0.eval t = 1) ∧ (∀ t, ∑ j, (e j).f1.eval t = 0) ∧
      (∀ t, ∑ j, (e j).f2.eval t = 0) ∧ (∀ t, ∑ j, (e j).f3.eval t = 0) := by
  choose e h1 h2 h3 h4 h5 using h.2
  have hne : (Finset.univ : Finset (Fin N)).Nonempty := ⟨⟨0, by omega⟩, Finset.mem_univ _⟩
  have hsum : ∑ j, toPoly (e j).f0 = 1 := by
    rw [← Lagrange.sum_basis hx.injOn hne]
    exact Finset.sum_congr rfl fun j _ => h2 j
  have ev : ∀ (p : Fin N → PolyL K) (t : K), ∑ j, (p j).eval t = (∑ j, toPoly (p j)).eval t := by
    intro p t
    rw [eval_finset_sum]
    exact Finset.sum_congr rfl fun j _ => (eval_toPoly _ _).symm
  have hd1 : ∑ j, toPoly (e j).f1 = 0 := by
    rw [Finset.sum_congr rfl fun j _ => h3 j, ← map_sum derivative, hsum, derivative_one]
  have hd2 : ∑ j, toPoly (e j).f2 = 0 := by
    rw [Finset.sum_congr rfl fun j _ => h4 j, ← map_sum derivative, ← map_sum derivative, hsum,
      derivative_one, derivative_zero]
  have hd3 : ∑ j, toPoly (e j).f3 = 0 := by
    rw [Finset.sum_congr rfl fun j _ => h5 j, ← map_sum derivative, ← map_sum derivative,
      ← map_sum derivative, hsum, derivative_one, derivative_zero, derivative_zero]
  refine ⟨e, h1, fun j => ?_, fun i j hij => ?_, fun t => ?_, fun t => ?_, fun t => ?_, fun t => ?_⟩
  · rw [← eval_toPoly, h2, Lagrange.eval_basis_self hx.injOn (Finset.mem_univ j)]
  · rw [← eval_toPoly, h2, Lagrange.eval_basis_of_ne (Ne.symm hij) (Finset.mem_univ i)]
  · rw [ev (fun j => (e j).f0), hsum, eval_one]
  · rw [ev (fun j => (e j).f1), hd1, eval_zero]
  · rw [ev (fun j => (e j).f2), hd2, eval_zero]
  · rw [ev (fun j => (e j).f3), hd3, eval_zero]

/-- C56: the equally spaced nodes used by default are distinct. -/
theorem C56_default_nodes [CharZero K] (symbol : ℕ → K) (a : Args K) (N : ℕ) (hN : 2 ≤ N)
    (hx : a.x = none) (hs : a.sym = false) : Function.Injective (nodes symbol a N) := by
  intro i j h
  unfold nodes at h
  rw [hx, hs] at h
  simp only at h
  have hne : ((N : K) - 1) ≠ 0 := by
    have : ((N - 1 : ℕ) : K) ≠ 0 := Nat.cast_ne_zero.2 (by omega)
    rwa [Nat.cast_sub (by omega), Nat.cast_one] at this
  have h2 : (2 : K) / ((N : K) - 1) ≠ 0 := div_ne_zero two_ne_zero hne
  have h3 := mul_right_cancel₀ h2 (add_left_cancel h)
  exact Fin.ext (by exact_mod_cast h3)

/-- C56: `approx_Lagrange_1d` passes through all data points, with the least possible degree: it is
the interpolation polynomial. -/
theorem C56_approx_partial (symbol : ℕ → K) (points values : List K)
    (hl : points.length = values.length) (hN : 2 ≤ points.length) (hd : points.Nodup) :
    ∃ p, approxLagrange symbol points values = .ok p ∧
      (∀ (k : ℕ) (x v : K), points[k]? = some x → values[k]? = some v → p.eval x = v) ∧
      (∀ q : K[X], q.degree < (points.length : WithBot ℕ) →
        (∀ (k : ℕ) (x v : K), points[k]? = some x → values[k]? = some v → q.eval x = v) →
        toPoly p = q) := by
  set N := points.length with hNdef
  set inds : List ℤ := (List.range N).map fun (k : ℕ) => (k : ℤ) with hinds
  set a : Args K := { x := some points, i := some inds } with ha
  have hnod : ∀ k : Fin N, nodes symbol a N k = points[(k : ℕ)] := by
    intro k
    show points.getD k 0 = _
    rw [List.getD_eq_getElem]
  have hind : ∀ k : Fin N, indices a N k = (k : ℤ) := by
    intro k
    show inds.getD k 0 = _
    simp [hinds, List.getD_eq_getElem?_getD]
  have hx : Function.Injective (nodes symbol a N) := by
    intro i j h
    rw [hnod, hnod] at h
    exact Fin.ext ((List.Nodup.getElem_inj_iff hd).1 h)
  have hi : Function.Injective (indices a N) := by
    intro i j h
    rw [hind, hind] at h
    exact Fin.ext (by exact_mod_cast h)
  obtain ⟨d, hd1, hd2⟩ := C56_lagrange_partial symbol a N hN
    (Or.inr (Or.inl ⟨rfl, points, rfl, rfl⟩)) (fun x h => by cases h; exact le_refl _)
    (fun i h => by cases h; simp [hinds]) hx hi (by simp [ha]) rfl
  choose e h1 h2 _ _ _ using hd2.2
  have hshp : ∀ n (hn : n ≤ N), ((List.range n).map fun (k : ℕ) => (k : ℤ)).mapM
      (fun i => (lookup d i).map Entry.f0) =
      .ok (List.ofFn fun k : Fin n => (e ⟨k, by omega⟩).f0) := by
    intro n
    induction n with
    | zero => intro _; rfl
    | succ n ih =>
      intro hn
      rw [List.range_succ, List.map_append, List.mapM_append, ih (by omega)]
      have hk := h1 ⟨n, by omega⟩
      rw [hind] at hk
      simp only at hk
      simp only [List.map_cons, List.map_nil, List.mapM_cons, List.mapM_nil, hk, bind, Except.bind,
        Except.map, pure, Except.pure]
      congr 1
      rw [List.ofFn_succ_last]
      rfl
  have hp : approxLagrange symbol points values = .ok
      (((values.zip (List.ofFn fun k : Fin N => (e k).f0)).map fun p => p.2.smul p.1).foldl
        PolyL.add []) := by
    unfold approxLagrange
    rw [if_neg (not_not.2 hl)]
    show (genLagrange symbol a).bind _ = _
    rw [hd1]
    show (inds.mapM _ : Py _).bind _ = _
    rw [hshp N le_rfl]
    rfl
  have hpoly : toPoly (((values.zip (List.ofFn fun k : Fin N => (e k).f0)).map
      fun p => p.2.smul p.1).foldl PolyL.add []) =
      ∑ k : Fin N, C (values.getD k 0) * Lagrange.basis Finset.univ (nodes symbol a N) k := by
    rw [toPoly_foldl, show toPoly ([] : PolyL K) = 0 from rfl, zero_add, List.map_map]
    have hz : values.zip (List.ofFn fun k : Fin N => (e k).f0) =
        List.ofFn fun k : Fin N => (values.getD k 0, (e k).f0) := by
      refine List.ext_getElem (by simp [hl.symm, hNdef]) fun n hn1 hn2 => ?_
      simp only [List.getElem_zip, List.getElem_ofFn]
      rw [List.getD_eq_getElem]
    rw [hz, List.map_ofFn, List.sum_ofFn]
    refine Finset.sum_congr rfl fun k _ => ?_
    show toPoly (PolyL.smul _ _) = _
    rw [toPoly_smul, h2]
  have hint : ∀ q : K[X], q.degree < (N : WithBot ℕ) →
      (∀ (k : ℕ) (x v : K), points[k]? = some x → values[k]? = some v → q.eval x = v) →
      ∑ k : Fin N, C (values.getD k 0) * Lagrange.basis Finset.univ (nodes symbol a N) k = q := by
    intro q hq hv
    have := Lagrange.eq_interpolate_of_eval_eq (s := Finset.univ) (v := nodes symbol a N)
      (fun k : Fin N => values.getD k 0) hx.injOn (f := q)
      (by rwa [Finset.card_univ, Fintype.card_fin]) (fun k _ => by
        rw [hnod]
        refine hv k _ _ (List.getElem?_eq_getElem _) ?_
        rw [List.getD_eq_getElem _ _ (by omega)]
        exact List.getElem?_eq_getElem _)
    rw [this, Lagrange.interpolate_apply]
  refine ⟨_, hp, fun k x v hk hv => ?_, fun q hq hv => hpoly.trans (hint q hq hv)⟩
  rw [← eval_toPoly, hpoly]
  have hkN : k < N := (List.getElem?_eq_some_iff.1 hk).1
  have hxk : x = nodes symbol a N ⟨k, hkN⟩ := by
    rw [hnod]
    exact ((List.getElem?_eq_some_iff.1 hk).2).symm
  rw [← Lagrange.interpolate_apply, hxk, Lagrange.eval_interpolate_at_node _ hx.injOn
    (Finset.mem_univ _)]
  rw [List.getD_eq_getElem?_getD, hv]
  rfl

/-- C56: repeated nodes are refused, never turned into functions. -/
theorem C56_repeated_nodes (symbol : ℕ → K) (x : List K) (hN : 2 ≤ x.length) (hx : ¬ x.Nodup) :
    genLagrange symbol { x := some x } = .error .linalg := by
  have hdet : (system fun i : Fin x.length => x.getD i 0).det = 0 := by
    by_contra h
    have := (det_system _).1 h
    apply hx
    rw [List.nodup_iff_injective_getElem]
    intro i j hij
    refine this ?_
    show x.getD i 0 = x.getD j 0
    rw [List.getD_eq_getElem, List.getD_eq_getElem]
    exact hij
  show genWith symbol _ x.length = _
  unfold genWith
  rw [if_neg (by omega), if_neg (by simp [inds]), if_neg (by omega), if_neg (by simp [nodeList])]
  have : inv (system fun i : Fin x.length => (nodeList symbol { x := some x } x.length).getD i 0) =
    .error .linalg := if_pos hdet
  rw [this]
  rfl

/-- C56 is violated for a single point: although one node is distinct from all others,
`gen_Lagrange_1d` and `approx_Lagrange_1d` raise a `TypeError`. -/
theorem C56_single_point_violated (symbol : ℕ → K) (x v : K) :
    genLagrange symbol { x := some [x] } = .error .type ∧
      genLagrange symbol { N := some 1 } = .error .type ∧
      approxLagrange symbol [x] [v] = .error .type := ⟨rfl, rfl, rfl⟩

/-- C56 is violated for repeated indices: the functions of points with the same index are added up,
for two points with index 1 the function stored is constant. -/
theorem C56_repeated_index_violated :
    genLagrange (K := ℚ) (fun k => k) { x := some [-1, 1], i := some [1, 1] } =
      .ok [(1, ⟨[1, 0], [0], [], []⟩), (1, ⟨[1, 0], [0], [], []⟩)] := by
  decide +kernel

/-- C56: a plain dictionary cannot be used to store the results, although this is documented. -/
theorem C56_plain_dict_refused (symbol : ℕ → K) (x : List K) (hN : 2 ≤ x.length) (hx : x.Nodup) :
    genLagrange symbol { x := some x, out := .plain } = .error .key := by
  have hinj : Function.Injective fun i : Fin x.length => x.getD i 0 := by
    intro i j hij
    have h : x.getD i 0 = x.getD j 0 := hij
    rw [List.getD_eq_getElem _ _ i.2, List.getD_eq_getElem _ _ j.2] at h
    exact Fin.ext ((List.Nodup.getElem_inj_iff hx).1 h)
  obtain ⟨B, hB, -⟩ := inv_spec _ ((det_system _).2 hinj)
  show genWith symbol _ x.length = _
  unfold genWith
  rw [if_neg (by omega), if_neg (by simp [inds]), if_neg (by omega), if_neg (by simp [nodeList])]
  have : inv (system fun i : Fin x.length =>
    (nodeList symbol { x := some x, out := .plain } x.length).getD i 0) = .ok B := hB
  rw [this]
  rfl

/-- The hypotheses of C56 can be met: three nodes, the second function is `1 - x²`. -/
example : ∃ d, genLagrange (K := ℚ) (fun k => k) { N := some 3 } = .ok d ∧
    (lookup d 2).map Entry.f0 = .ok [1, 0, -1] ∧ (lookup d 2).map Entry.f1 = .ok [0, -2] ∧
    approxLagrange (K := ℚ) (fun k => k) [-1, 1] [0, 10] = .ok [5, 5] := by
  refine ⟨[(1, ⟨[0, -1/2, 1/2], [-1/2, 1], [1], []⟩), (2, ⟨[1, 0, -1], [0, -2], [-2], []⟩),
    (3, ⟨[0, 1/2, 1/2], [1/2, 1], [1], []⟩)], ?_, ?_, ?_, ?_⟩ <;> decide +kernel

end Verif.Lag.Props
