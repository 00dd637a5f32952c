import Verif.Model.RoundedLP
import Verif.Model.Rounding
import Verif.Props.LP
import Mathlib.Algebra.Order.BigOperators.Group.List

set_option linter.unusedSectionVars false

/-!
# Lemmas about linear programs with rounded numbers
-/

namespace Verif.RLP

open Verif.LP Verif.LP.Props Verif.Rnd

section
variable {V K : Type} [DecidableEq V] [Field K] [LinearOrder K] [IsStrictOrderedRing K]

theorem precise_zero {fl : K → K} {u : K} (h : Precise fl u) : fl 0 = 0 := by
  have := h 0
  simpa using this

/-! ### Entries of converted matrices -/

theorem fl_sum_filter_zipIdx (fl : K → K) (h0 : fl 0 = 0) (r : List K) (k j : ℕ) :
    (((r.zipIdx k).filter fun s => decide (s.1 ≠ 0) && decide (s.2 = j)).map
      fun s => fl s.1).sum = if k ≤ j then fl (r.getD (j - k) 0) else 0 := by
  induction r generalizing k with
  | nil => simp [h0]
  | cons a r ih =>
    rw [List.zipIdx_cons, List.filter_cons]
    have ih' := ih (k + 1)
    by_cases hk : k = j
    · subst hk
      rw [if_pos (le_refl _)]
      rw [if_neg (by omega)] at ih'
      by_cases ha : a = 0
      · simp [ha, h0] at ih' ⊢; exact ih'
      · simp [ha] at ih' ⊢; exact ih'
    · rw [if_neg (by simp [hk]), ih']
      by_cases hlt : k ≤ j
      · rw [if_pos hlt, if_pos (by omega)]
        obtain ⟨d, hd⟩ : ∃ d, j - k = d + 1 := ⟨j - k - 1, by omega⟩
        rw [hd, show j - (k + 1) = d by omega]
        simp
      · rw [if_neg hlt, if_neg (by omega)]

theorem fl_triplets_sum (fl : K → K) (h0 : fl 0 = 0) (rows : List (List K × K)) (k i j : ℕ) :
    ((((rows.zipIdx k).map fun t =>
      (t.1.1.zipIdx.filter fun s => s.1 ≠ 0).map fun s => (s.1, t.2, s.2)).flatten.filter
        fun t => decide (t.2.1 = i ∧ t.2.2 = j)).map fun t => fl t.1).sum =
      if k ≤ i then fl (((rows.map Prod.fst).getD (i - k) []).getD j 0) else 0 := by
  induction rows generalizing k with
  | nil => simp [h0]
  | cons r rows ih =>
    rw [List.zipIdx_cons, List.map_cons, List.flatten_cons, List.filter_append, List.map_append,
      List.sum_append, ih (k + 1)]
    rw [List.filter_map, List.filter_filter, List.map_map]
    have hfst : ((fun t : K × ℕ × ℕ => fl t.1) ∘ fun s : K × ℕ => (s.1, k, s.2)) =
      fun s => fl s.1 := rfl
    rw [hfst]
    by_cases hk : k = i
    · subst hk
      have := fl_sum_filter_zipIdx fl h0 r.1 0 j
      simp only [Nat.zero_le, if_true, Nat.sub_zero] at this
      rw [if_neg (by omega), if_pos (le_refl _), add_zero]
      rw [Nat.sub_self]
      simp only [List.map_cons, List.getD_cons_zero]
      rw [← this]
      congr 2
      apply List.filter_congr
      intro s _
      simp [Bool.and_comm]
    · have : ((r.1.zipIdx.filter fun a => ((fun t : K × ℕ × ℕ => decide (t.2.1 = i ∧ t.2.2 = j)) ∘
          fun s : K × ℕ => (s.1, k, s.2)) a && decide (a.1 ≠ 0))) = [] := by
        rw [List.filter_eq_nil_iff]
        intro a _
        simp [hk]
      rw [this, List.map_nil, List.sum_nil, zero_add]
      by_cases hlt : k ≤ i
      · rw [if_pos hlt, if_pos (by omega)]
        obtain ⟨d, hd⟩ : ∃ d, i - k = d + 1 := ⟨i - k - 1, by omega⟩
        rw [hd, show i - (k + 1) = d by omega]
        simp
      · rw [if_neg hlt, if_neg (by omega)]

theorem dense_entry (fl : K → K) (h0 : fl 0 = 0) (rows : List (List K)) (i j : ℕ) :
    (toFloat fl (Mat.dense rows)).entry i j = fl ((Mat.dense rows).entry i j) := by
  simp only [toFloat, Mat.entry, List.getD_eq_getElem?_getD, List.getElem?_map]
  cases rows[i]? with
  | none => simp [h0]
  | some r =>
    simp only [Option.map_some, Option.getD_some, List.getElem?_map]
    cases r[j]? <;> simp [h0]

theorem zip_unzip3_fl (fl : K → K) (l : List (K × ℕ × ℕ)) :
    ((l.map fun t => t.1).map fl).zip ((l.map fun t => t.2.1).zip (l.map fun t => t.2.2)) =
      l.map fun t => (fl t.1, t.2) := by
  induction l with
  | nil => rfl
  | cons a l ih => simpa using ih

theorem sparse_entry (fl : K → K) (h0 : fl 0 = 0) (rows : List (List K × K)) (sh : ℕ × ℕ)
    (i j : ℕ) :
    (toFloat fl (Mat.sparse ((triplets rows).map fun t => t.1)
      ((triplets rows).map fun t => t.2.1) ((triplets rows).map fun t => t.2.2) sh)).entry i j =
      fl ((Mat.dense (rows.map Prod.fst)).entry i j) := by
  simp only [toFloat, Mat.entry]
  rw [zip_unzip3_fl, List.filter_map, List.map_map]
  have := fl_triplets_sum fl h0 rows 0 i j
  simp only [Nat.zero_le, if_true, Nat.sub_zero] at this
  exact this

/-! ### The blocks -/

theorem assemble_spec (fl : K → K) (h0 : fl 0 = 0) (sp : Bool) (vars : List V)
    (mult : Constraint V K → K × K × K) (cs : List (Constraint V K))
    (hc : ∀ c ∈ cs, Linear vars c.fn) :
    assemble fl sp vars mult cs = .ok none ∧ cs = [] ∨
    ∃ A b, assemble fl sp vars mult cs = .ok (some (A, b)) ∧ cs ≠ [] ∧
      b = cs.map (fun c => rhs fl (-(fl (c.fn.eval fun _ => 0))) (mult c).2.1 (mult c).2.2) ∧
      ∀ (i : ℕ) (c : Constraint V K), cs[i]? = some c → ∀ (j : ℕ) (x : V), vars[j]? = some x →
        A.entry i j = fl (c.fn.coef x * (mult c).1) := by
  have hb : rightSides fl vars mult cs = .ok
      (cs.map fun c => rhs fl (-(fl (c.fn.eval fun _ => 0))) (mult c).2.1 (mult c).2.2) := by
    apply pyMap_ok
    intro c hcm
    have h := hc c hcm
    have h2 : c.fn.call (List.replicate vars.length (0 : K)) = .ok (c.fn.eval fun _ => 0) := by
      rw [c.fn.call_ok h.2.1 _ (by simp [h.2.2.length_eq])]
      congr 2
      funext x
      exact point_zero _ _ _
    simp [h2, bind, Except.bind, pure, Except.pure]
  rcases LP.Props.assemble_spec id sp vars mult cs hc with ⟨h1, rfl⟩ | ⟨A, b, h1, hne, -, -, hA⟩
  · left
    exact ⟨by unfold assemble; rw [h1]; rfl, rfl⟩
  · right
    have hassm : assemble fl sp vars mult cs = .ok (some (toFloat fl A,
        cs.map fun c => rhs fl (-(fl (c.fn.eval fun _ => 0))) (mult c).2.1 (mult c).2.2)) := by
      unfold assemble
      rw [h1]
      simp only [bind, Except.bind, hb, pure, Except.pure]
    refine ⟨_, _, hassm, hne, rfl, ?_⟩
    intro i c hi j x hj
    rw [← hA i c hi j x hj]
    have hlen : ¬ cs.length = 0 := by simpa using hne
    cases sp with
    | true =>
      rw [assemble_sparse, if_neg hlen] at h1
      cases hd : denseData id vars mult cs with
      | error e => rw [hd] at h1; cases h1
      | ok rows =>
        rw [hd] at h1
        simp only [Except.map, Except.ok.injEq, Option.some.injEq, Prod.mk.injEq] at h1
        rw [← h1.1, sparse_entry fl h0, LP.sparse_entry]
    | false =>
      rw [assemble_dense, if_neg hlen] at h1
      cases hd : denseData id vars mult cs with
      | error e => rw [hd] at h1; cases h1
      | ok rows =>
        rw [hd] at h1
        simp only [Except.map, Except.ok.injEq, Option.some.injEq, Prod.mk.injEq] at h1
        rw [← h1.1, dense_entry fl h0]

theorem toScipy_ok {I B : Type} (fl : K → K) (tiny : K) (isInteger : V → Option Bool)
    (p : Problem V K I B) (mx : Bool) (hobj : ∀ x ∈ p.vars, x ∈ p.obj.vars)
    {ub eq : Option (Mat K × List K)}
    (heq : assemble fl p.sparsify p.vars (fun _ => (1, 1, 0)) (eqsOf p) = .ok eq)
    (hub : assemble fl p.sparsify p.vars (fun c => multipliers tiny c.rel.op) (ieqsOf p) = .ok ub) :
    ∃ args, toScipy fl tiny isInteger p mx = .ok args ∧ args.eq = eq ∧ args.ub = ub ∧
      args.c = (p.vars.map fun x =>
        (if mx then fl (p.obj.coef x) * -1 else fl (p.obj.coef x))) ∧
      args.bounds = p.bounds := by
  have hobj' : pyMap (fun x => dictGet p.obj.linearCoefficients [x]) p.vars =
      .ok (p.vars.map p.obj.coef) := by
    apply pyMap_ok
    intro x hx
    rw [dictGet_linear, if_pos (Or.inl (hobj x hx))]
  unfold eqsOf at heq
  unfold ieqsOf at hub
  unfold toScipy
  simp only [hobj', heq, hub, bind, Except.bind, pure, Except.pure]
  refine ⟨_, rfl, rfl, rfl, ?_, rfl⟩
  cases mx <;> simp

/-! ### One row -/

theorem sum_near {fl : K → K} {u : K} (m : K) (hm : |m| = 1) (g ρ : V → K)
    (vars : List V) (hp : ∀ x ∈ vars, |fl (g x * m) - g x * m| ≤ u * |g x * m|) :
    |(vars.map fun x => fl (g x * m) * ρ x).sum - m * (vars.map fun x => g x * ρ x).sum| ≤
      u * (vars.map fun x => |g x * ρ x|).sum := by
  induction vars with
  | nil => simp
  | cons v vs ih =>
    have ih := ih fun x hx => hp x (List.mem_cons_of_mem _ hx)
    simp only [List.map_cons, List.sum_cons]
    have h1 : |fl (g v * m) * ρ v - m * (g v * ρ v)| ≤ u * |g v * ρ v| := by
      have : fl (g v * m) * ρ v - m * (g v * ρ v) = (fl (g v * m) - g v * m) * ρ v := by ring
      rw [this, abs_mul]
      calc _ ≤ u * |g v * m| * |ρ v| := mul_le_mul_of_nonneg_right (hp v List.mem_cons_self) (abs_nonneg _)
        _ = u * |g v * ρ v| := by rw [abs_mul, abs_mul, hm]; ring
    have h2 := abs_add_le (fl (g v * m) * ρ v - m * (g v * ρ v))
      ((vs.map fun x => fl (g x * m) * ρ x).sum - m * (vs.map fun x => g x * ρ x).sum)
    have h3 : fl (g v * m) * ρ v + (vs.map fun x => fl (g x * m) * ρ x).sum -
        m * (g v * ρ v + (vs.map fun x => g x * ρ x).sum) =
        (fl (g v * m) * ρ v - m * (g v * ρ v)) +
        ((vs.map fun x => fl (g x * m) * ρ x).sum - m * (vs.map fun x => g x * ρ x).sum) := by
      ring
    rw [h3]
    linarith

theorem zip_point (vars : List V) (hn : vars.Nodup) (xs : List K) (hl : xs.length = vars.length) :
    vars.zip xs = vars.map fun x => (x, point vars xs x) := by
  have hmp := map_point hn hl
  conv_lhs => rw [← hmp]
  rw [List.zip_map_right]
  have hzz : ∀ l : List V, l.zip l = l.map fun x => (x, x) := by
    intro l
    induction l with
    | nil => rfl
    | cons v vs ih => simp [ih]
  rw [hzz, List.map_map]
  rfl

theorem zip_sum (f : Func V K) (vars : List V) (hn : vars.Nodup) (hf : Linear vars f)
    (xs : List K) (hl : xs.length = vars.length) :
    ((vars.zip xs).map fun t => |slope f t.1 * t.2|) =
      vars.map fun x => |f.coef x * point vars xs x| := by
  rw [zip_point vars hn xs hl, List.map_map]
  apply List.map_congr_left
  intro x hx
  simp only [Function.comp]
  rw [slope_eq f vars hn hf x hx]

/-- The row of a converted matrix is off by the roundings of its coefficients. -/
theorem row_near {fl : K → K} {u : K} (A : Mat K) (vars : List V)
    (hn : vars.Nodup) (i : ℕ) (f : Func V K) (hf : Linear vars f) (m : K) (hm : |m| = 1)
    (hp : ∀ x ∈ vars, |fl (f.coef x * m) - f.coef x * m| ≤ u * |f.coef x * m|)
    (xs : List K) (hl : xs.length = vars.length)
    (hA : ∀ (j : ℕ) (x : V), vars[j]? = some x → A.entry i j = fl (f.coef x * m)) :
    |rowDot A vars.length i xs - m * (f.eval (point vars xs) - f.eval fun _ => 0)| ≤
      u * ((vars.zip xs).map fun t => |slope f t.1 * t.2|).sum := by
  have h1 : rowDot A vars.length i xs =
      1 * (vars.map fun x => fl (f.coef x * m) * point vars xs x).sum :=
    rowDot_eq A vars hn i (fun x => fl (f.coef x * m)) 1 xs hl
      (fun j x hj => by rw [hA j x hj, mul_one])
  have hz := zip_sum f vars hn hf xs hl
  rw [h1, hz, f.eval_affine hf.1 vars hn hf.2.2 hf.2.1 (point vars xs), f.eval_zero hf.1,
    one_mul, add_sub_cancel_left]
  exact sum_near m hm f.coef (point vars xs) vars hp

end

end Verif.RLP
