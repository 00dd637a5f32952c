import Verif.Model.Numint
import Mathlib.Tactic.Ring
import Mathlib.Tactic.Linarith
import Mathlib.Data.List.Basic
import Mathlib.Data.List.ProdSigma
import Mathlib.Algebra.Order.Ring.Rat
import Mathlib.Algebra.BigOperators.Ring.List
import Mathlib.Algebra.Order.BigOperators.Group.List

/-!
# C59, C60: product quadrature and `isclose`
-/

set_option linter.unusedSectionVars false

namespace Verif.Numint.Props
open Verif Verif.Numint

/-! ## C59 -/

section
variable {K : Type} [Field K]

/-- The sum of the weighted values of `f` at the points of a one dimensional rule. -/
def quad1 (r : List (K × K)) (f : K → K) : K := (r.map fun p => p.2 * f p.1).sum

/-- The sum of the weighted values of `f` at the given points. -/
def quad {α : Type} (pos : List α) (w : List K) (f : α → K) : K :=
  ((pos.zip w).map fun p => p.2 * f p.1).sum

theorem columns_eq (l : List (K × K)) : columns (l.map Prod.fst, l.map Prod.snd) = l := by
  unfold columns
  induction l with
  | nil => rfl
  | cons x l ih => simpa using ih

theorem set_append_cons {α : Type} (a : List α) (x y : α) (b : List α) :
    (a ++ x :: b).set a.length y = a ++ [y] ++ b := by
  induction a with
  | nil => rfl
  | cons h t ih => simp

/-- Storing one after the other fills the arrays from the front. -/
theorem foldl_put {α β γ : Type} (p0 : α) (w0 : β) (xs : List γ) (p : γ → α) (w : γ → β)
    (a : List α) (b : List β) (hab : a.length = b.length) (m : ℕ) :
    xs.foldl (fun s x => put s (p x) (w x))
      (a.length, a ++ List.replicate (xs.length + m) p0, b ++ List.replicate (xs.length + m) w0) =
    ((a ++ xs.map p).length, a ++ xs.map p ++ List.replicate m p0,
      b ++ xs.map w ++ List.replicate m w0) := by
  induction xs generalizing a b with
  | nil => simp
  | cons x xs ih =>
    rw [List.foldl_cons]
    have e : put (a.length, a ++ List.replicate ((x :: xs).length + m) p0,
        b ++ List.replicate ((x :: xs).length + m) w0) (p x) (w x) =
        ((a ++ [p x]).length, (a ++ [p x]) ++ List.replicate (xs.length + m) p0,
          (b ++ [w x]) ++ List.replicate (xs.length + m) w0) := by
      have e1 : (x :: xs).length + m = (xs.length + m) + 1 := by
        rw [List.length_cons]; omega
      rw [e1, List.replicate_succ, List.replicate_succ]
      unfold put
      simp only
      rw [set_append_cons, hab, set_append_cons, List.length_append, hab]
      rfl
    rw [e, ih (a ++ [p x]) (b ++ [w x]) (by simp [hab])]
    simp

theorem foldl_flat {σ γ δ : Type} (f : σ → γ → δ → σ) (xs : List γ) (ys : γ → List δ) (s : σ) :
    xs.foldl (fun s x => (ys x).foldl (fun s y => f s x y) s) s =
      (xs.flatMap fun x => (ys x).map fun y => (x, y)).foldl (fun s q => f s q.1 q.2) s := by
  induction xs generalizing s with
  | nil => rfl
  | cons x xs ih => rw [List.foldl_cons, List.flatMap_cons, List.foldl_append, ih, List.foldl_map]

/-- All pairs, the first index slow. -/
def pairs {γ δ : Type} (xs : List γ) (ys : List δ) : List (γ × δ) :=
  xs.flatMap fun x => ys.map fun y => (x, y)

theorem pairs_length {γ δ : Type} (xs : List γ) (ys : List δ) :
    (pairs xs ys).length = xs.length * ys.length := by
  unfold pairs
  induction xs with
  | nil => simp
  | cons x xs ih => rw [List.flatMap_cons, List.length_append, ih, List.length_map,
      List.length_cons, Nat.add_mul]; omega

theorem fill {α β γ : Type} (p0 : α) (w0 : β) (xs : List γ) (p : γ → α) (w : γ → β) (n : ℕ)
    (hn : n = xs.length) :
    (xs.foldl (fun s x => put s (p x) (w x)) (0, List.replicate n p0, List.replicate n w0)).2 =
      (xs.map p, xs.map w) := by
  have := foldl_put p0 w0 xs p w [] [] rfl 0
  subst hn
  simp only [List.nil_append, List.length_nil, Nat.add_zero, List.replicate_zero,
    List.append_nil] at this
  rw [this]

/-- C59: the two dimensional rule consists of all pairs of points of the one dimensional rules, each
once, with the product of their weights, the first coordinate slow. -/
theorem C59_two (lg : LegGauss K) (n1 n2 : ℕ) (h1 : 0 < n1) (h2 : 0 < n2)
    (l1 : (lg n1).length = n1) (l2 : (lg n2).length = n2) :
    gaussPoints lg [n1, n2] = .ok (.two
        ((pairs (lg n1) (lg n2)).map fun q => (q.1.1, q.2.1))
        ((pairs (lg n1) (lg n2)).map fun q => q.1.2 * q.2.2)) ∧
      (pairs (lg n1) (lg n2)).length = n1 * n2 := by
  have hl : (pairs (lg n1) (lg n2)).length = n1 * n2 := by rw [pairs_length, l1, l2]
  refine ⟨?_, hl⟩
  have e1 : ∀ n, 0 < n → gaussPoints1d lg n = .ok ((lg n).map Prod.fst, (lg n).map Prod.snd) :=
    fun n hn => by unfold gaussPoints1d; rw [if_neg (by omega)]
  have e : gaussPoints2d lg n1 n2 = .ok
      ((pairs (lg n1) (lg n2)).map (fun q => (q.1.1, q.2.1)),
        (pairs (lg n1) (lg n2)).map fun q => q.1.2 * q.2.2) := by
    unfold gaussPoints2d
    rw [e1 n1 h1, e1 n2 h2]
    show Except.ok _ = Except.ok _
    congr 1
    simp only [columns_eq]
    have hf := foldl_flat (fun (s : ℕ × List (K × K) × List K) (gi gj : K × K) =>
      put s (gi.1, gj.1) (gi.2 * gj.2)) (lg n1) (fun _ => lg n2)
      (0, List.replicate (n1 * n2) (0, 0), List.replicate (n1 * n2) 0)
    rw [hf]
    exact fill (0, 0) 0 (pairs (lg n1) (lg n2)) (fun q => (q.1.1, q.2.1)) (fun q => q.1.2 * q.2.2)
      (n1 * n2) hl.symm
  show (gaussPoints2d lg n1 n2).map _ = _
  rw [e]
  rfl

/-- C59: the three dimensional rule. -/
theorem C59_three (lg : LegGauss K) (n1 n2 n3 : ℕ) (h1 : 0 < n1) (h2 : 0 < n2) (h3 : 0 < n3)
    (l1 : (lg n1).length = n1) (l2 : (lg n2).length = n2) (l3 : (lg n3).length = n3) :
    gaussPoints lg [n1, n2, n3] = .ok (.three
        ((pairs (lg n1) (pairs (lg n2) (lg n3))).map fun q => (q.1.1, q.2.1.1, q.2.2.1))
        ((pairs (lg n1) (pairs (lg n2) (lg n3))).map fun q => q.1.2 * q.2.1.2 * q.2.2.2)) ∧
      (pairs (lg n1) (pairs (lg n2) (lg n3))).length = n1 * n2 * n3 := by
  have hl : (pairs (lg n1) (pairs (lg n2) (lg n3))).length = n1 * n2 * n3 := by
    rw [pairs_length, pairs_length, l1, l2, l3, Nat.mul_assoc]
  refine ⟨?_, hl⟩
  have e1 : ∀ n, 0 < n → gaussPoints1d lg n = .ok ((lg n).map Prod.fst, (lg n).map Prod.snd) :=
    fun n hn => by unfold gaussPoints1d; rw [if_neg (by omega)]
  have e : gaussPoints3d lg n1 n2 n3 = .ok
      ((pairs (lg n1) (pairs (lg n2) (lg n3))).map (fun q => (q.1.1, q.2.1.1, q.2.2.1)),
        (pairs (lg n1) (pairs (lg n2) (lg n3))).map fun q => q.1.2 * q.2.1.2 * q.2.2.2) := by
    unfold gaussPoints3d
    rw [e1 n1 h1, e1 n2 h2, e1 n3 h3]
    show Except.ok _ = Except.ok _
    congr 1
    simp only [columns_eq]
    have hf := fun (gi : K × K) s => foldl_flat (fun (s : ℕ × List (K × K × K) × List K) (gj gk : K × K) =>
      put s (gi.1, gj.1, gk.1) (gi.2 * gj.2 * gk.2)) (lg n2) (fun _ => lg n3) s
    have hf2 := foldl_flat (fun (s : ℕ × List (K × K × K) × List K) (gi : K × K)
      (q : (K × K) × (K × K)) => put s (gi.1, q.1.1, q.2.1) (gi.2 * q.1.2 * q.2.2)) (lg n1)
      (fun _ => pairs (lg n2) (lg n3))
      (0, List.replicate (n1 * n2 * n3) (0, 0, 0), List.replicate (n1 * n2 * n3) 0)
    simp only [hf]
    show ((lg n1).foldl (fun s gi => (pairs (lg n2) (lg n3)).foldl (fun s q =>
      put s (gi.1, q.1.1, q.2.1) (gi.2 * q.1.2 * q.2.2)) s) _).2 = _
    rw [hf2]
    exact fill (0, 0, 0) 0 (pairs (lg n1) (pairs (lg n2) (lg n3)))
      (fun q => (q.1.1, q.2.1.1, q.2.2.1)) (fun q => q.1.2 * q.2.1.2 * q.2.2.2)
      (n1 * n2 * n3) hl.symm
  show (gaussPoints3d lg n1 n2 n3).map _ = _
  rw [e]
  rfl

theorem zip_map_map {α β γ : Type} (l : List γ) (p : γ → α) (w : γ → β) :
    (l.map p).zip (l.map w) = l.map fun x => (p x, w x) := by
  induction l with
  | nil => rfl
  | cons x l ih => simp [ih]

theorem sum_pairs {γ δ : Type} (xs : List γ) (ys : List δ) (f : γ → K) (g : δ → K) :
    ((pairs xs ys).map fun q => f q.1 * g q.2).sum = (xs.map f).sum * (ys.map g).sum := by
  unfold pairs
  induction xs with
  | nil => simp
  | cons x xs ih =>
    rw [List.flatMap_cons, List.map_append, List.sum_append, ih, List.map_map, List.map_cons,
      List.sum_cons, add_mul]
    congr 1
    have : ((fun q : γ × δ => f q.1 * g q.2) ∘ fun y => (x, y)) = fun y => f x * g y := rfl
    rw [this, List.sum_map_mul_left]

/-- C59: a product integrates to the product of the one dimensional quadratures, in two and in three
dimensions; by linearity (`C59_linear`) the same holds for sums of products. -/
theorem C59_product (lg : LegGauss K) (n1 n2 n3 : ℕ) (h1 : 0 < n1) (h2 : 0 < n2) (h3 : 0 < n3)
    (l1 : (lg n1).length = n1) (l2 : (lg n2).length = n2) (l3 : (lg n3).length = n3)
    (f g h : K → K) :
    (∃ pos w, gaussPoints lg [n1, n2] = .ok (.two pos w) ∧
      quad pos w (fun p => f p.1 * g p.2) = quad1 (lg n1) f * quad1 (lg n2) g) ∧
    (∃ pos w, gaussPoints lg [n1, n2, n3] = .ok (.three pos w) ∧
      quad pos w (fun p => f p.1 * g p.2.1 * h p.2.2) =
        quad1 (lg n1) f * quad1 (lg n2) g * quad1 (lg n3) h) := by
  constructor
  · refine ⟨_, _, (C59_two lg n1 n2 h1 h2 l1 l2).1, ?_⟩
    unfold quad quad1
    rw [zip_map_map, List.map_map, ← sum_pairs]
    congr 1
    refine List.map_congr_left fun q _ => ?_
    simp only [Function.comp]
    ring
  · refine ⟨_, _, (C59_three lg n1 n2 n3 h1 h2 h3 l1 l2 l3).1, ?_⟩
    unfold quad quad1
    rw [zip_map_map, List.map_map, mul_assoc, ← sum_pairs (lg n2) (lg n3), ← sum_pairs]
    congr 1
    refine List.map_congr_left fun q _ => ?_
    simp only [Function.comp]
    ring

/-- Every quadrature is linear in the integrand. -/
theorem C59_linear {α : Type} (pos : List α) (w : List K) (a b : K) (f g : α → K) :
    quad pos w (fun p => a * f p + b * g p) = a * quad pos w f + b * quad pos w g := by
  unfold quad
  generalize pos.zip w = l
  induction l with
  | nil => simp
  | cons x l ih =>
    simp only [List.map_cons, List.sum_cons, ih]
    ring

/-- C59: if the one dimensional rules integrate the functions `f j` and `g j` exactly, with the
integrals `If j` and `Ig j`, then the two dimensional rule integrates every finite sum
`∑ j, c j * f j x * g j y` exactly: the result is `∑ j, c j * If j * Ig j`. -/
theorem C59_exact (lg : LegGauss K) (n1 n2 : ℕ) (h1 : 0 < n1) (h2 : 0 < n2)
    (l1 : (lg n1).length = n1) (l2 : (lg n2).length = n2)
    (terms : List (K × ((K → K) × K) × ((K → K) × K)))
    (hx : ∀ t ∈ terms, quad1 (lg n1) t.2.1.1 = t.2.1.2 ∧ quad1 (lg n2) t.2.2.1 = t.2.2.2) :
    ∃ pos w, gaussPoints lg [n1, n2] = .ok (.two pos w) ∧
      quad pos w (fun p => (terms.map fun t => t.1 * (t.2.1.1 p.1 * t.2.2.1 p.2)).sum) =
        (terms.map fun t => t.1 * (t.2.1.2 * t.2.2.2)).sum := by
  refine ⟨_, _, (C59_two lg n1 n2 h1 h2 l1 l2).1, ?_⟩
  induction terms with
  | nil => simp [quad]
  | cons t ts ih =>
    simp only [List.map_cons, List.sum_cons]
    have hp := (C59_product lg n1 n2 n1 h1 h2 h1 l1 l2 l1 t.2.1.1 t.2.2.1 id).1
    obtain ⟨pos, w, hr, hq⟩ := hp
    rw [(C59_two lg n1 n2 h1 h2 l1 l2).1] at hr
    cases hr
    have hl := C59_linear ((pairs (lg n1) (lg n2)).map fun q => (q.1.1, q.2.1))
      ((pairs (lg n1) (lg n2)).map fun q => q.1.2 * q.2.2) t.1 1
      (fun p => t.2.1.1 p.1 * t.2.2.1 p.2)
      (fun p => (ts.map fun t => t.1 * (t.2.1.1 p.1 * t.2.2.1 p.2)).sum)
    simp only [one_mul] at hl
    rw [hl, hq, ih fun u hu => hx u (List.mem_cons_of_mem _ hu)]
    have := hx t List.mem_cons_self
    rw [this.1, this.2]

/-- C59: no points, or another number of dimensions, are refused. -/
theorem C59_refused (lg : LegGauss K) (n : ℕ) (args : List ℕ) :
    (args.length = 0 ∨ 3 < args.length → gaussPoints lg args = .error .notImplemented) ∧
      gaussPoints lg [0] = .error .value ∧ gaussPoints lg [0, n] = .error .value ∧
      (0 < n → gaussPoints lg [n, 0] = .error .value) := by
  refine ⟨fun h => ?_, rfl, rfl, fun h => ?_⟩
  · match args, h with
    | [], _ => rfl
    | [_], h => simp at h
    | [_, _], h => simp at h
    | [_, _, _], h => simp at h
    | _ :: _ :: _ :: _ :: _, _ => rfl
  · show (gaussPoints2d lg n 0).map _ = _
    unfold gaussPoints2d gaussPoints1d
    rw [if_neg (by omega)]
    rfl

end

/-- The hypotheses of C59 can be met: the midpoint rule and a rule with two points. -/
example : let lg : LegGauss ℚ := fun n => if n = 1 then [(0, 2)] else if n = 2 then [(-1/2, 1), (1/2, 1)] else []
    (lg 1).length = 1 ∧ (lg 2).length = 2 ∧
      quad1 (lg 2) (fun x => x) = 0 ∧ quad1 (lg 1) (fun x => x) = 0 ∧
      (pairs (lg 2) (lg 1)).map (fun q => (q.1.1, q.2.1)) = [(-1/2, 0), (1/2, 0)] := by
  refine ⟨rfl, rfl, by decide +kernel, by decide +kernel, by decide +kernel⟩

/-! ## C60 -/

section
variable {K : Type} [Field K] [LinearOrder K] [IsStrictOrderedRing K]

/-- `x` and `y` are close as documented: in absolute terms if `atol` is given, and in relative terms,
measured against `y`, if `rtol` is given. -/
def Close (atol rtol : Option K) (x y : K) : Prop :=
  (∀ a, atol = some a → |x - y| ≤ a) ∧ (∀ r, rtol = some r → |x - y| ≤ r * |y|)

/-- The tolerances are acceptable. -/
def Valid (atol rtol : Option K) : Prop :=
  (atol ≠ none ∨ rtol ≠ none) ∧ (∀ a, atol = some a → 0 < a) ∧ (∀ r, rtol = some r → 0 < r)

/-- The booleans of a result as a list. -/
def CloseResult.toList : CloseResult → List Bool
  | .scalar b => [b]
  | .array c => c

theorem zipWith_and {α : Type} (l : List α) (f g : α → Bool) :
    (l.map f).zipWith (· && ·) (l.map g) = l.map fun x => f x && g x := by
  induction l with
  | nil => rfl
  | cons x l ih => simp [ih]

/-- The booleans computed by `isclose`. -/
def closeBool (atol rtol : Option K) (p : K × K) : Bool :=
  (match atol with | none => true | some a => decide (|p.1 - p.2| ≤ a)) &&
    (match rtol with | none => true | some r => decide (|p.1 - p.2| ≤ |r * p.2|))

theorem closeBool_iff (atol rtol : Option K) (hv : Valid atol rtol) (p : K × K) :
    closeBool atol rtol p = true ↔ Close atol rtol p.1 p.2 := by
  unfold closeBool Close
  rw [Bool.and_eq_true]
  refine and_congr ?_ ?_
  · cases atol with
    | none => simp
    | some a => simp
  · cases rtol with
    | none => simp
    | some r =>
      have hr : 0 < r := hv.2.2 r rfl
      simp [abs_mul, abs_of_pos hr]

theorem isclose_eq (x1 x2 : List K) (atol rtol : Option K) (hv : Valid atol rtol)
    (ps : List (K × K)) (hb : broadcast x1 x2 = .ok ps) :
    ∃ r, isclose x1 x2 atol rtol = .ok r ∧
      CloseResult.toList r = ps.map (closeBool atol rtol) ∧
      ((∃ b, r = .scalar b) ↔ ps.length = 1) := by
  have hn : ¬(atol = none ∧ rtol = none) := by
    rintro ⟨h1, h2⟩
    rcases hv.1 with h | h
    · exact h h1
    · exact h h2
  have fin : ∀ c : List Bool, c.length = ps.length → c = ps.map (closeBool atol rtol) →
      ∃ r, (.ok (wrapClose c) : Py CloseResult) = .ok r ∧
      CloseResult.toList r = ps.map (closeBool atol rtol) ∧
      ((∃ b, r = .scalar b) ↔ ps.length = 1) := by
    intro c hl hc
    match c, hl, hc with
    | [], hl, hc => exact ⟨_, rfl, hc, ⟨fun ⟨b, h⟩ => (by cases h), fun h => (by simp at hl; omega)⟩⟩
    | [b], hl, hc => exact ⟨_, rfl, hc, ⟨fun _ => hl.symm, fun _ => ⟨b, rfl⟩⟩⟩
    | a :: b :: t, hl, hc =>
      exact ⟨_, rfl, hc, ⟨fun ⟨b, h⟩ => (by cases h), fun h => (by simp at hl; omega)⟩⟩
  unfold isclose
  rw [if_neg hn, hb]
  have hc0 : (ps.map fun _ => true) = ps.map fun _ : K × K => true := rfl
  cases atol with
  | none =>
    cases rtol with
    | none => exact absurd ⟨rfl, rfl⟩ hn
    | some r =>
      have hr : 0 < r := hv.2.2 r rfl
      have hz := zipWith_and ps (fun _ => true) fun p => decide (|p.1 - p.2| ≤ |r * p.2|)
      have := fin (ps.map fun p => true && decide (|p.1 - p.2| ≤ |r * p.2|)) (by simp) rfl
      rw [← hz] at this
      simpa only [if_pos hr, pure_bind, bind_pure_comp, Except.bind, bind, pure, Except.pure] using this
  | some a =>
    have ha : 0 < a := hv.2.1 a rfl
    have hz := zipWith_and ps (fun _ => true) fun p => decide (|p.1 - p.2| ≤ a)
    cases rtol with
    | none =>
      have := fin (ps.map fun p => true && decide (|p.1 - p.2| ≤ a)) (by simp) (by
        refine List.map_congr_left fun p _ => ?_
        simp [closeBool])
      rw [← hz] at this
      simpa only [if_pos ha, Except.bind, bind, pure, Except.pure] using this
    | some r =>
      have hr : 0 < r := hv.2.2 r rfl
      have hz2 := zipWith_and ps (fun p => true && decide (|p.1 - p.2| ≤ a))
        fun p => decide (|p.1 - p.2| ≤ |r * p.2|)
      have := fin (ps.map fun p => (true && decide (|p.1 - p.2| ≤ a)) &&
        decide (|p.1 - p.2| ≤ |r * p.2|)) (by simp) (by
        refine List.map_congr_left fun p _ => ?_
        simp [closeBool])
      rw [← hz2, ← hz] at this
      simpa only [if_pos ha, if_pos hr, Except.bind, bind, pure, Except.pure] using this

/-- C60: `isclose` accepts exactly the documented pairs, element by element; the result is a single
boolean exactly for one element; `allclose` is true exactly if all pairs are close. -/
theorem C60_isclose (x1 x2 : List K) (atol rtol : Option K) (hv : Valid atol rtol)
    (ps : List (K × K)) (hb : broadcast x1 x2 = .ok ps) :
    ∃ r, isclose x1 x2 atol rtol = .ok r ∧ (CloseResult.toList r).length = ps.length ∧
      (∀ (i : ℕ) (p : K × K), ps[i]? = some p →
        ((CloseResult.toList r)[i]? = some true ↔ Close atol rtol p.1 p.2)) ∧
      ((∃ b, r = .scalar b) ↔ ps.length = 1) ∧
      (allclose x1 x2 atol rtol = .ok true ↔ ∀ p ∈ ps, Close atol rtol p.1 p.2) := by
  obtain ⟨r, h1, h2, h3⟩ := isclose_eq x1 x2 atol rtol hv ps hb
  refine ⟨r, h1, by rw [h2, List.length_map], fun i p hp => ?_, h3, ?_⟩
  · rw [h2, List.getElem?_map, hp]
    rw [← closeBool_iff atol rtol hv p]
    simp
  · unfold allclose
    rw [h1]
    have e : ((Except.ok r : Py CloseResult).map CloseResult.all) = .ok ((CloseResult.toList r).all id) := by
      cases r <;> simp [Except.map, CloseResult.toList, CloseResult.all]
    rw [e, h2]
    constructor
    · intro h p hp
      have : ((ps.map (closeBool atol rtol)).all id) = true := by injection h
      rw [List.all_eq_true] at this
      exact (closeBool_iff atol rtol hv p).1 (this _ (List.mem_map_of_mem hp))
    · intro h
      congr 1
      rw [List.all_eq_true]
      intro b hb
      obtain ⟨p, hp, rfl⟩ := List.mem_map.1 hb
      exact (closeBool_iff atol rtol hv p).2 (h p hp)

/-- C60: what is broadcast: arrays of the same length element by element, a single element against
all elements of the other array; anything else is refused. -/
theorem C60_broadcast (x1 x2 : List K) :
    (x1.length = x2.length → broadcast x1 x2 = .ok (x1.zip x2)) ∧
      (∀ b, x2 = [b] → broadcast x1 x2 = .ok (x1.map fun a => (a, b))) ∧
      (∀ a, x1 = [a] → broadcast x1 x2 = .ok (x2.map fun b => (a, b))) ∧
      (x1.length ≠ x2.length → x1.length ≠ 1 → x2.length ≠ 1 →
        broadcast x1 x2 = .error .value) := by
  refine ⟨fun h => if_pos h, fun b hb => ?_, fun a ha => ?_, fun h h1 h2 => ?_⟩
  · subst hb
    unfold broadcast
    by_cases h : x1.length = [b].length
    · rw [if_pos h]
      match x1, h with
      | [a], _ => rfl
    · rw [if_neg h]
      match x1, h with
      | [], _ => rfl
      | [a], h => exact absurd rfl h
      | _ :: _ :: _, _ => rfl
  · subst ha
    unfold broadcast
    by_cases h : [a].length = x2.length
    · rw [if_pos h]
      match x2, h with
      | [b], _ => rfl
    · rw [if_neg h]
  · unfold broadcast
    rw [if_neg h]
    match x1, x2, h1, h2 with
    | [], [], _, _ => exact absurd rfl h
    | [], _ :: _ :: _, _, _ => rfl
    | _ :: _ :: _, [], _, _ => rfl
    | _ :: _ :: _, _ :: _ :: _, _, _ => rfl

/-- C60: every array is close to itself, and larger tolerances accept more. -/
theorem C60_reflexive_monotone (atol rtol atol' rtol' : Option K) (hv : Valid atol rtol)
    (ha : ∀ a', atol' = some a' → ∃ a, atol = some a ∧ a ≤ a')
    (hr : ∀ r', rtol' = some r' → ∃ r, rtol = some r ∧ r ≤ r') :
    (∀ x : List K, allclose x x atol rtol = .ok true) ∧
      (∀ x y : K, Close atol rtol x y → Close atol' rtol' x y) := by
  constructor
  · intro x
    obtain ⟨r, -, -, -, -, h⟩ := C60_isclose x x atol rtol hv _ ((C60_broadcast x x).1 rfl)
    rw [h]
    intro p hp
    have : p.1 = p.2 := by
      rw [List.zip_eq_zipWith, List.zipWith_self] at hp
      obtain ⟨a, -, rfl⟩ := List.mem_map.1 hp
      rfl
    rw [this]
    refine ⟨fun a h => ?_, fun r h => ?_⟩
    · rw [sub_self, abs_zero]; exact (hv.2.1 a h).le
    · rw [sub_self, abs_zero]; exact mul_nonneg (hv.2.2 r h).le (abs_nonneg _)
  · rintro x y ⟨h1, h2⟩
    refine ⟨fun a' h => ?_, fun r' h => ?_⟩
    · obtain ⟨a, e, l⟩ := ha a' h
      exact (h1 a e).trans l
    · obtain ⟨r, e, l⟩ := hr r' h
      exact (h2 r e).trans (mul_le_mul_of_nonneg_right l (abs_nonneg _))

/-- C60: tolerances that are not positive, or no tolerance at all, are refused (for arrays that can
be compared). -/
theorem C60_refused (x1 x2 : List K) (atol rtol : Option K) (hv : ¬ Valid atol rtol)
    (ps : List (K × K)) (hb : broadcast x1 x2 = .ok ps) :
    isclose x1 x2 atol rtol = .error .assertion := by
  unfold isclose
  by_cases hn : atol = none ∧ rtol = none
  · rw [if_pos hn]
    rfl
  · rw [if_neg hn, hb]
    cases atol with
    | none =>
      cases rtol with
      | none => exact absurd ⟨rfl, rfl⟩ hn
      | some r =>
        have hr : ¬ 0 < r := fun h => hv ⟨Or.inr (by simp), fun a h => (by cases h),
          fun r' h' => (by cases h'; exact h)⟩
        simp only [if_neg hr, Except.bind, bind, pure, Except.pure]
    | some a =>
      by_cases ha : 0 < a
      · cases rtol with
        | none => exact absurd ⟨Or.inl (by simp), fun a' h => (by cases h; exact ha),
            fun r h => (by cases h)⟩ hv
        | some r =>
          have hr : ¬ 0 < r := fun h => hv ⟨Or.inl (by simp), fun a' h' => (by cases h'; exact ha),
            fun r' h' => (by cases h'; exact h)⟩
          simp only [if_pos ha, if_neg hr, Except.bind, bind, pure, Except.pure]
      · simp only [if_neg ha, Except.bind, bind, pure, Except.pure]

end

/-- The hypotheses of C60 can be met; the two tolerances must both hold. -/
example : Valid (some (1/10 : ℚ)) (some (1/100)) ∧
    isclose [1, 100] [(101/100 : ℚ), 1001/10] (some (1/10)) (some (1/100)) =
      .ok (.array [true, true]) ∧
    isclose [0] [(1/20 : ℚ)] (some (1/10)) (some (1/100)) = .ok (.scalar false) ∧
    isclose [0] [(1/20 : ℚ)] (some (1/10)) none = .ok (.scalar true) := by
  refine ⟨⟨Or.inl (by simp), fun a h => (by cases h; decide +kernel), fun r h => (by
    cases h; decide +kernel)⟩, by decide +kernel, by decide +kernel, by decide +kernel⟩

end Verif.Numint.Props
