import Verif.Model.RoundedEinsum
import Verif.Proofs.EinsumPath
import Verif.Proofs.RoundedFrames

/-! # Helper lemmas about contractions with rounded arithmetic -/

set_option linter.unusedSectionVars false

namespace Verif.Frames
open Verif Verif.Rnd Verif.RFrames

section
variable {n : ℕ} {K : Type} [Field K] [LinearOrder K] [IsStrictOrderedRing K] {fl : K → K}

theorem prod_near {u : K} (hfl : Precise fl u) {κ : ℕ → ℕ} {b x y : ℕ → K}
    (h : ∀ i, Near u (κ i) (b i) (x i) (y i)) (p : ProdPlan) :
    Near u (p.muls + (p.factors.map κ).sum) (p.factors.map b).prod (p.eval fl x) (p.factors.map y).prod := by
  induction p with
  | one i =>
    simp only [ProdPlan.factors, ProdPlan.muls, ProdPlan.eval, List.map_cons, List.map_nil, List.prod_cons,
      List.prod_nil, List.sum_cons, List.sum_nil, mul_one, zero_add, add_zero]
    exact h i
  | mul l r hl hr =>
    have := (Near.mul2 hfl.nonneg hl hr).round hfl
    simp only [ProdPlan.factors, ProdPlan.muls, ProdPlan.eval, List.map_append, List.prod_append, List.sum_append]
    refine this.more hfl.nonneg (Nat.le_of_eq (by omega))

theorem sum_near {u : K} (hfl : Precise fl u) {σ : Type} {κ : ℕ → ℕ} {b x y : σ → ℕ → K} (S : ℕ)
    (h : ∀ s i, Near u (κ i) (b s i) (x s i) (y s i)) (p : SumPlan σ)
    (hS : ∀ t ∈ p.terms, (t.2.map κ).sum = S) :
    Near u (p.height + S) (p.terms.map fun t => (t.2.map (b t.1)).prod).sum (p.eval fl x)
      (p.terms.map fun t => (t.2.map (y t.1)).prod).sum := by
  have hu := hfl.nonneg
  induction p with
  | zero =>
    refine Near.more hu (Nat.zero_le _) ?_
    simp [SumPlan.terms, SumPlan.eval, Near]
  | term s p =>
    have h1 := prod_near hfl (h s) p
    have h2 : (p.factors.map κ).sum = S := hS (s, p.factors) (by simp [SumPlan.terms])
    rw [h2] at h1
    simpa [SumPlan.terms, SumPlan.eval, SumPlan.height] using h1
  | add l r hl hr =>
    have h1 := (hl fun t ht => hS t (List.mem_append_left _ ht)).more hu
      (show l.height + S ≤ max l.height r.height + S by omega)
    have h2 := (hr fun t ht => hS t (List.mem_append_right _ ht)).more hu
      (show r.height + S ≤ max l.height r.height + S by omega)
    have h3 := (h1.add h2).round hfl
    simp only [SumPlan.terms, SumPlan.eval, SumPlan.height, List.map_append, List.sum_append]
    exact h3.more hu (by omega)
  | fma l s p q hl =>
    have h1 := (hl fun t ht => hS t (List.mem_append_left _ ht)).more hu
      (show l.height + S ≤ max l.height (p.muls + q.muls) + S by omega)
    have h2 := Near.mul2 hu (prod_near hfl (h s) p) (prod_near hfl (h s) q)
    have h4 : ((p.factors ++ q.factors).map κ).sum = S :=
      hS (s, p.factors ++ q.factors) (by simp [SumPlan.terms])
    rw [List.map_append, List.sum_append] at h4
    have h5 := h2.more hu (show p.muls + (p.factors.map κ).sum + (q.muls + (q.factors.map κ).sum) ≤
      max l.height (p.muls + q.muls) + S by omega)
    have h3 := (h1.add h5).round hfl
    simp only [SumPlan.terms, SumPlan.eval, SumPlan.height, List.map_append, List.sum_append, List.map_cons,
      List.map_nil, List.sum_cons, List.sum_nil, add_zero, List.prod_append]
    exact h3.more hu (by omega)

/-- An operand with roundings, without, with absolute values, and the number of roundings. -/
structure Quad (n : ℕ) (K : Type) where
  letters : List ℕ
  x : (Fin letters.length → Fin n) → K
  y : (Fin letters.length → Fin n) → K
  b : (Fin letters.length → Fin n) → K
  k : ℕ

def Quad.rounded (q : Quad n K) : EinsumOp n K := ⟨q.letters, q.x⟩
def Quad.exact (q : Quad n K) : EinsumOp n K := ⟨q.letters, q.y⟩
def Quad.bound (q : Quad n K) : EinsumOp n K := ⟨q.letters, q.b⟩

/-- The roundings are within bounds. -/
def Quad.Good (u : K) (q : Quad n K) : Prop := ∀ t, Near u q.k (q.b t) (q.x t) (q.y t)

theorem taken_map {α β : Type} (f : α → β) (ps : List ℕ) (l : List α) : taken ps (l.map f) = (taken ps l).map f := by
  unfold taken
  rw [List.zipIdx_map, List.filter_map, List.map_map, List.map_map]
  rfl

theorem left_map {α β : Type} (f : α → β) (ps : List ℕ) (l : List α) : left ps (l.map f) = (left ps l).map f := by
  unfold left
  rw [List.zipIdx_map, List.filter_map, List.map_map, List.map_map]
  rfl

theorem lettersOf_map (f : Quad n K → EinsumOp n K) (hf : ∀ q, (f q).letters = q.letters) (qs : List (Quad n K)) :
    lettersOf (qs.map f) = qs.flatMap Quad.letters := by
  unfold lettersOf
  rw [List.flatMap_map]
  simp only [hf]

theorem map_range_getD {α : Type} [Zero α] (l : List α) :
    (List.range l.length).map (fun i => (l[i]?).getD 0) = l := by
  refine List.ext_getElem (by simp) fun i h1 h2 => ?_
  simp only [List.getElem_map, List.getElem_range]
  rw [List.getElem?_eq_getElem h2]
  rfl

/-- What a step evaluates: every product once, with every operand once. -/
def SumPlan.Whole {σ : Type} (p : SumPlan σ) (m : ℕ) : Prop :=
  (p.terms.map Prod.fst).Nodup ∧ (∀ s, s ∈ p.terms.map Prod.fst) ∧ ∀ t ∈ p.terms, t.2.Perm (List.range m)

theorem whole_sum {σ : Type} [Fintype σ] {p : SumPlan σ} {m : ℕ} (hp : p.Whole m) (v : σ → List K)
    (hv : ∀ s, (v s).length = m) :
    (p.terms.map fun t => (t.2.map fun i => ((v t.1)[i]?).getD 0).prod).sum = ∑ s, (v s).prod := by
  obtain ⟨h1, h2, h3⟩ := hp
  have e1 : (p.terms.map fun t => (t.2.map fun i => ((v t.1)[i]?).getD 0).prod) =
      (p.terms.map Prod.fst).map fun s => (v s).prod := by
    rw [List.map_map]
    refine List.map_congr_left fun t ht => ?_
    rw [((h3 t ht).map _).prod_eq, ← hv t.1, map_range_getD]
    rfl
  rw [e1, ← Finset.sum_map_toList Finset.univ]
  refine List.Perm.sum_eq (List.Perm.map _ ?_)
  exact (List.perm_ext_iff_of_nodup h1 (Finset.nodup_toList _)).2 fun s => by simp [h2 s]

variable [NeZero n]

/-- The contraction of operands with all their attributes. -/
def contractQuad (fl : K → K) (scheme : Scheme n) (h : ℕ) (keep gone : List ℕ) (qs : List (Quad n K)) : Quad n K where
  letters := keep
  x := (contractToR fl scheme keep gone (qs.map Quad.rounded)).arr
  y := (contractTo keep gone (qs.map Quad.exact)).arr
  b := (contractTo keep gone (qs.map Quad.bound)).arr
  k := h + (qs.map Quad.k).sum

theorem contractQuad_good {u : K} (hfl : Precise fl u) (scheme : Scheme n) (h : ℕ) (keep gone : List ℕ)
    (qs : List (Quad n K)) (hq : ∀ q ∈ qs, q.Good u)
    (hw : ∀ t, (scheme qs.length keep gone t).Whole qs.length)
    (hh : ∀ t, (scheme qs.length keep gone t).height ≤ h) :
    (contractQuad fl scheme h keep gone qs).Good u := by
  intro t
  obtain ⟨V, hV⟩ : ∃ V : (Fin gone.length → Fin n) → (q : Quad n K) → Fin q.letters.length → Fin n,
    V = fun s q k => letterValue keep gone t s (q.letters.get k) := ⟨_, rfl⟩
  have hn : ∀ s (i : ℕ), Near u (((qs.map Quad.k)[i]?).getD 0) (((qs.map fun q => q.b (V s q))[i]?).getD 0)
      (((qs.map fun q => q.x (V s q))[i]?).getD 0) (((qs.map fun q => q.y (V s q))[i]?).getD 0) := by
    intro s i
    simp only [List.getElem?_map]
    cases hi : qs[i]? with
    | none => simp [Near]
    | some q => exact hq q (List.mem_of_getElem? hi) _
  have hw' := hw t
  have main := sum_near hfl (qs.map Quad.k).sum hn (scheme qs.length keep gone t) (fun t' ht' => by
    rw [((hw'.2.2 t' ht').map _).sum_eq]
    have := map_range_getD (qs.map Quad.k)
    rw [List.length_map] at this
    rw [this])
  rw [whole_sum hw' (fun s => qs.map fun q => q.b (V s q)) (by simp),
    whole_sum hw' (fun s => qs.map fun q => q.y (V s q)) (by simp)] at main
  have main := main.more hfl.nonneg (show _ ≤ h + (qs.map Quad.k).sum from Nat.add_le_add_right (hh t) _)
  subst hV
  show Near u (h + _) (∑ s, _) ((scheme (qs.map Quad.rounded).length keep gone t).eval fl _) (∑ s, _)
  simp only [List.map_map, List.length_map]
  exact main

/-- A step for operands with all their attributes. -/
def stepQuad (fl : K → K) (scheme : Scheme n) (h : ℕ) (out ps : List ℕ) (qs : List (Quad n K)) : List (Quad n K) :=
  let C := taken ps qs
  let R := left ps qs
  let keep := (List.range 26).filter fun l =>
    l ∈ C.flatMap Quad.letters && (l ∈ R.flatMap Quad.letters || l ∈ out)
  let gone := (List.range 26).filter fun l =>
    l ∈ C.flatMap Quad.letters && !(l ∈ R.flatMap Quad.letters || l ∈ out)
  R ++ [contractQuad fl scheme h keep gone C]

theorem stepQuad_rounded (scheme : Scheme n) (h : ℕ) (out ps : List ℕ) (qs : List (Quad n K)) :
    contractStepR fl scheme out ps (qs.map Quad.rounded) = (stepQuad fl scheme h out ps qs).map Quad.rounded := by
  unfold contractStepR stepQuad
  simp only [taken_map, left_map, lettersOf_map Quad.rounded (fun _ => rfl), List.map_append]
  rfl

theorem stepQuad_exact (scheme : Scheme n) (h : ℕ) (out ps : List ℕ) (qs : List (Quad n K)) :
    contractStep out ps (qs.map Quad.exact) = (stepQuad fl scheme h out ps qs).map Quad.exact := by
  unfold contractStep stepQuad
  simp only [taken_map, left_map, lettersOf_map Quad.exact (fun _ => rfl), List.map_append]
  rfl

theorem stepQuad_bound (scheme : Scheme n) (h : ℕ) (out ps : List ℕ) (qs : List (Quad n K)) :
    contractStep out ps (qs.map Quad.bound) = (stepQuad fl scheme h out ps qs).map Quad.bound := by
  unfold contractStep stepQuad
  simp only [taken_map, left_map, lettersOf_map Quad.bound (fun _ => rfl), List.map_append]
  rfl

end
end Verif.Frames
