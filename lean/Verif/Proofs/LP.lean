import Verif.Model.LP
import Verif.Proofs.Relation
import Mathlib.Tactic.Ring
import Mathlib.Tactic.Linarith
import Mathlib.Algebra.BigOperators.Ring.List

set_option linter.unusedSectionVars false

namespace Verif.LP

open Verif.Rel (Relations Cls Attrs)

section
variable {V K : Type} [DecidableEq V] [Field K] [DecidableEq K]

/-! ### Coefficients -/

theorem collectAt_cons (t : List V × K) (ts : List (List V × K)) (m : List V) :
    collectAt (t :: ts) m = (if t.1 = m then t.2 else 0) + collectAt ts m := by
  unfold collectAt
  by_cases h : t.1 = m <;> simp [h]

theorem collectAt_not_mem {terms : List (List V × K)} {m : List V}
    (h : m ∉ terms.map Prod.fst) : collectAt terms m = 0 := by
  unfold collectAt
  have : (terms.filter fun t => t.1 = m) = [] := by
    rw [List.filter_eq_nil_iff]
    intro t ht
    simp only [decide_eq_true_eq]
    rintro rfl
    exact h (List.mem_map_of_mem ht)
  rw [this]; rfl

theorem mem_asCoefficientsDict {terms : List (List V × K)} {t : List V × K} :
    t ∈ asCoefficientsDict terms ↔ t.2 = collectAt terms t.1 ∧ t.2 ≠ 0 := by
  unfold asCoefficientsDict
  simp only [List.mem_filter, List.mem_map, List.mem_dedup, decide_not, Bool.not_eq_true',
    decide_eq_false_iff_not]
  constructor
  · rintro ⟨⟨m, -, rfl⟩, h⟩; exact ⟨rfl, h⟩
  · rintro ⟨h1, h2⟩
    refine ⟨⟨t.1, ?_, ?_⟩, h2⟩
    · by_contra hn
      have := collectAt_not_mem (terms := terms) (m := t.1) (by simpa using hn)
      exact h2 (h1.trans this)
    · rw [← h1]

theorem find_asCoefficientsDict (terms : List (List V × K)) (m : List V) :
    ((asCoefficientsDict terms).find? fun s => s.1 = m) =
      if collectAt terms m ≠ 0 then some (m, collectAt terms m) else none := by
  cases h : (asCoefficientsDict terms).find? fun s => s.1 = m with
  | none =>
    rw [List.find?_eq_none] at h
    by_cases hc : collectAt terms m = 0
    · simp [hc]
    · exfalso
      have := h (m, collectAt terms m) (mem_asCoefficientsDict.2 ⟨rfl, hc⟩)
      simp at this
  | some s =>
    have h1 := List.find?_some h
    have h2 := mem_asCoefficientsDict.1 (List.mem_of_find?_eq_some h)
    simp only [decide_eq_true_eq] at h1
    subst h1
    rw [h2.1] at h2
    rw [if_pos h2.2, ← (mem_asCoefficientsDict.1 (List.mem_of_find?_eq_some h)).1]

theorem dictReplace_fst (e : List (List V × K)) (t : List V × K) : (dictReplace e t).1 = t.1 := by
  unfold dictReplace
  cases h : e.find? fun s => s.1 = t.1 with
  | none => rfl
  | some s => simpa using List.find?_some h

theorem find_map_update (e : List (List V × K)) (k : List V) (d : List (List V × K)) :
    ((d.map (dictReplace e)).find? fun s => s.1 = k) =
      (d.find? fun s => s.1 = k).map (dictReplace e) := by
  induction d with
  | nil => rfl
  | cons t d ih =>
    by_cases hk : t.1 = k
    · rw [List.map_cons, List.find?_cons_of_pos (by simpa [dictReplace_fst] using hk),
        List.find?_cons_of_pos (by simpa using hk)]; rfl
    · rw [List.map_cons, List.find?_cons_of_neg (by simpa [dictReplace_fst] using hk),
        List.find?_cons_of_neg (by simpa using hk), ih]

theorem find_dictUpdate (d e : List (List V × K)) (k : List V) :
    ((dictUpdate d e).find? fun s => s.1 = k) =
      match e.find? fun s => s.1 = k with
      | some s => some s
      | none => d.find? fun s => s.1 = k := by
  unfold dictUpdate
  rw [List.find?_append, find_map_update]
  cases hd : d.find? fun s => s.1 = k with
  | some t =>
    have ht := List.find?_some hd
    simp only [decide_eq_true_eq] at ht
    subst ht
    cases he : e.find? fun s => s.1 = t.1 <;> simp [dictReplace, he]
  | none =>
    simp only [Option.none_or, Option.map_none]
    rw [List.find?_filter]
    have : (e.find? fun a => ((d.find? fun t => t.1 = a.1).isNone && decide (a.1 = k)) = true) =
        e.find? fun s => s.1 = k := by
      apply congrArg (fun q => List.find? q e)
      funext s
      by_cases hs : s.1 = k
      · subst hs; simp [hd]
      · simp [hs]
    simp only [Bool.and_eq_true, decide_eq_true_eq] at this ⊢
    cases he : e.find? fun s => s.1 = k <;> simp [he] at this ⊢ <;> exact this

/-- Coefficient of a variable. -/
def Func.coef (f : Func V K) (x : V) : K := collectAt f.terms [x]

theorem dictGet_linear (f : Func V K) (x : V) :
    dictGet f.linearCoefficients [x] =
      if x ∈ f.vars ∨ f.coef x ≠ 0 then .ok (f.coef x) else .error .key := by
  unfold dictGet Func.linearCoefficients
  rw [List.find?_filter]
  have : (fun a : List V × K => decide (decide (a.1.dedup.length ≤ 1) = true ∧ decide (a.1 = [x]) = true)) =
      fun s => decide (s.1 = [x]) := by
    funext s
    by_cases hs : s.1 = [x]
    · simp [hs, List.dedup_cons_of_notMem]
    · simp [hs]
  rw [show (f.coefficients.find? fun a => decide (decide (a.1.dedup.length ≤ 1) = true ∧
    decide (a.1 = [x]) = true)) = f.coefficients.find? fun s => decide (s.1 = [x]) by rw [this]]
  unfold Func.coefficients
  rw [find_dictUpdate, find_asCoefficientsDict]
  unfold Func.coef
  by_cases hc : collectAt f.terms [x] = 0
  · simp only [hc, ne_eq, not_true_eq_false, if_false, or_false]
    by_cases hx : x ∈ f.vars
    · rw [if_pos hx]
      have : ((f.vars.map fun x => ([x], (0 : K))).find? fun s => s.1 = [x]) = some ([x], 0) := by
        cases h : (f.vars.map fun x => ([x], (0 : K))).find? fun s => s.1 = [x] with
        | none =>
          rw [List.find?_eq_none] at h
          have := h ([x], 0) (List.mem_map.2 ⟨x, hx, rfl⟩)
          simp at this
        | some s =>
          have h1 := List.find?_some h
          have h2 := List.mem_of_find?_eq_some h
          obtain ⟨y, -, rfl⟩ := List.mem_map.1 h2
          simp only [decide_eq_true_eq] at h1
          rw [h1]
      rw [this]
    · rw [if_neg hx]
      have : ((f.vars.map fun x => ([x], (0 : K))).find? fun s => s.1 = [x]) = none := by
        rw [List.find?_eq_none]
        intro s hs
        obtain ⟨y, hy, rfl⟩ := List.mem_map.1 hs
        simp only [List.cons.injEq, and_true, decide_eq_true_eq]
        rintro rfl; exact hx hy
      rw [this]
  · simp [hc]

/-! ### Affine functions -/

/-- No term has more than one factor. -/
def Func.Affine (f : Func V K) : Prop := ∀ t ∈ f.terms, t.1.length ≤ 1

/-- The symbols of the expression are among the variables. -/
def Func.Closed (f : Func V K) : Prop := ∀ t ∈ f.terms, ∀ x ∈ t.1, x ∈ f.vars

theorem sum_single {vars : List V} (hn : vars.Nodup) {y : V} (hy : y ∈ vars) (g : V → K) :
    (vars.map fun x => if y = x then g x else 0).sum = g y := by
  induction vars with
  | nil => cases hy
  | cons v vs ih =>
    rw [List.nodup_cons] at hn
    rcases List.mem_cons.1 hy with rfl | hy'
    · have : (vs.map fun x => if y = x then g x else 0).sum = 0 := by
        apply List.sum_eq_zero
        intro z hz
        obtain ⟨x, hx, rfl⟩ := List.mem_map.1 hz
        rw [if_neg]; rintro rfl; exact hn.1 hx
      simp [this]
    · have : y ≠ v := by rintro rfl; exact hn.1 hy'
      simp [this, ih hn.2 hy']

theorem affine_eval (terms : List (List V × K)) (ha : ∀ t ∈ terms, t.1.length ≤ 1)
    (vars : List V) (hn : vars.Nodup) (hc : ∀ t ∈ terms, ∀ x ∈ t.1, x ∈ vars) (ρ : V → K) :
    (terms.map fun t => t.2 * (t.1.map ρ).prod).sum =
      collectAt terms [] + (vars.map fun x => collectAt terms [x] * ρ x).sum := by
  induction terms with
  | nil => simp [collectAt]
  | cons t ts ih =>
    rw [List.map_cons, List.sum_cons,
      ih (fun t ht => ha t (List.mem_cons_of_mem _ ht))
        (fun t ht => hc t (List.mem_cons_of_mem _ ht))]
    simp only [collectAt_cons, add_mul, List.sum_map_add]
    have ht := ha t List.mem_cons_self
    rcases hm : t.1 with _ | ⟨y, _ | ⟨z, r⟩⟩
    · simp; ring
    · have hy : y ∈ vars := hc t List.mem_cons_self y (by simp [hm])
      have : (vars.map fun x => (if [y] = [x] then t.2 else 0) * ρ x).sum = t.2 * ρ y := by
        have h := sum_single hn hy (fun x => t.2 * ρ x)
        rw [← h]
        congr 1
        apply List.map_congr_left
        intro x _
        by_cases hxy : y = x <;> simp [hxy]
      rw [this]; simp; ring
    · rw [hm] at ht; simp at ht

theorem Func.eval_affine (f : Func V K) (ha : f.Affine) (vars : List V) (hn : vars.Nodup)
    (hp : f.vars.Perm vars) (hc : f.Closed) (ρ : V → K) :
    f.eval ρ = collectAt f.terms [] + (vars.map fun x => f.coef x * ρ x).sum :=
  affine_eval f.terms ha vars hn (fun t ht x hx => hp.mem_iff.1 (hc t ht x hx)) ρ

/-! ### Points -/

theorem map_point {vars : List V} {xs : List K} (hn : vars.Nodup) (hl : xs.length = vars.length) :
    vars.map (point vars xs) = xs := by
  induction vars generalizing xs with
  | nil => simp at hl; simp [hl]
  | cons v vs ih =>
    rcases xs with _ | ⟨x, xs⟩
    · simp at hl
    · rw [List.nodup_cons] at hn
      have h1 : point (v :: vs) (x :: xs) v = x := by simp [point]
      have h2 : vs.map (point (v :: vs) (x :: xs)) = vs.map (point vs xs) := by
        apply List.map_congr_left
        intro y hy
        have : v ≠ y := by rintro rfl; exact hn.1 hy
        simp [point, this]
      rw [List.map_cons, h1, h2, ih hn.2 (by simpa using hl)]

theorem point_zero (vars : List V) (n : ℕ) (x : V) :
    point vars (List.replicate n (0 : K)) x = 0 := by
  unfold point
  cases h : (vars.zip (List.replicate n (0 : K))).find? fun p => p.1 = x with
  | none => rfl
  | some p =>
    have := List.mem_of_find?_eq_some h
    have h2 := (List.of_mem_zip (a := p.1) (b := p.2) this).2
    exact (List.eq_of_mem_replicate h2)

theorem Func.call_ok (f : Func V K) (hc : f.Closed) (xs : List K)
    (hl : xs.length = f.vars.length) : f.call xs = .ok (f.eval (point f.vars xs)) := by
  unfold Func.call
  rw [if_neg (by simpa using hl), if_neg]
  simp only [Decidable.not_not, List.all_eq_true, decide_eq_true_eq]
  intro t ht x hx
  have h1 := mem_asCoefficientsDict.1 ht
  have : t.1 ∈ f.terms.map Prod.fst := by
    by_contra hn
    exact h1.2 (h1.1.trans (collectAt_not_mem hn))
  obtain ⟨s, hs, hst⟩ := List.mem_map.1 this
  exact hc s hs x (by rw [hst]; exact hx)

theorem Func.eval_zero (f : Func V K) (ha : f.Affine) :
    f.eval (fun _ => 0) = collectAt f.terms [] := by
  unfold Func.eval
  obtain ⟨vars, terms⟩ := f
  simp only [Func.Affine] at ha ⊢
  induction terms with
  | nil => rfl
  | cons t ts ih =>
    rw [List.map_cons, List.sum_cons, ih (fun t ht => ha t (List.mem_cons_of_mem _ ht)),
      collectAt_cons]
    rcases hm : t.1 with _ | ⟨y, r⟩ <;> simp

/-! ### The two paths -/

theorem pyMap_zipIdx {α β : Type} (f : α → Py β) (l : List α) (k : ℕ) {γ : Type}
    (h : α × ℕ → β → γ) :
    pyMap (fun (xj : α × ℕ) => (f xj.1).bind fun c => .ok (h xj c)) (l.zipIdx k) =
      (pyMap f l).map fun r => ((l.zipIdx k).zip r).map fun t => h t.1 t.2 := by
  induction l generalizing k with
  | nil => rfl
  | cons a l ih =>
    rw [List.zipIdx_cons]
    simp only [pyMap, bind, Except.bind, pure, Except.pure] at ih ⊢
    cases hf : f a with
    | error e => rfl
    | ok b =>
      simp only [ih]
      cases pyMap f l <;> rfl

theorem zip_zipIdx {α β : Type} (l : List α) (r : List β) (k : ℕ) (h : r.length = l.length)
    {γ : Type} (g : ℕ → β → γ) :
    ((l.zipIdx k).zip r).map (fun t => g t.1.2 t.2) = (r.zipIdx k).map fun t => g t.2 t.1 := by
  induction l generalizing r k with
  | nil =>
    rcases r with _ | ⟨b, r⟩
    · rfl
    · simp at h
  | cons a l ih =>
    rcases r with _ | ⟨b, r⟩
    · simp at h
    · simp only [List.zipIdx_cons, List.zip_cons_cons, List.map_cons]
      rw [ih r (k + 1) (by simpa using h)]

theorem pyMap_length {α β : Type} {f : α → Py β} {l : List α} {r : List β}
    (h : pyMap f l = .ok r) : r.length = l.length :=
  (pyMap_eq_ok_iff.1 h).length_eq.symm

/-- One scaled coefficient. -/
def coefAt (f : Func V K) (mult : K) (x : V) : Py K := do
  let c ← dictGet f.linearCoefficients [x]
  return c * mult

theorem sparseRow_eq (f : Func V K) (mult : K) (vars : List V) :
    sparseRow f mult vars = (denseRow f mult vars).map fun r =>
      (r.zipIdx.filter fun t => t.1 ≠ 0) := by
  have h1 : (pyMap (fun xj : V × ℕ => do
      let c ← dictGet f.linearCoefficients [xj.1]
      return (c * mult, xj.2)) vars.zipIdx) =
      (pyMap (coefAt f mult) vars).map fun r => ((vars.zipIdx 0).zip r).map fun t => (t.2, t.1.2) := by
    rw [← pyMap_zipIdx (coefAt f mult) vars 0 (fun xj c => (c, xj.2))]
    congr 1
    funext xj
    simp only [coefAt, bind, Except.bind, pure, Except.pure]
    cases dictGet f.linearCoefficients [xj.1] <;> rfl
  have h2 : denseRow f mult vars = pyMap (coefAt f mult) vars := rfl
  rw [h2]
  unfold sparseRow
  rw [h1]
  cases hd : pyMap (coefAt f mult) vars with
  | error e => rfl
  | ok r =>
    have hl := pyMap_length hd
    have := zip_zipIdx vars r 0 hl (fun j c => (c, j))
    simp only [Except.map, bind, Except.bind, pure, Except.pure]
    rw [this]
    simp

/-- Dense row and right hand side of one constraint. -/
def rowData (fl : K → K) (vars : List V) (mult : Constraint V K → K × K × K)
    (c : Constraint V K) : Py (List K × K) := do
  let r ← denseRow c.fn (mult c).1 vars
  let v ← c.fn.call (List.replicate vars.length (0 : K))
  return (r, rhs fl (-v) (mult c).2.1 (mult c).2.2)

/-- The dense rows and right hand sides of a list of constraints. -/
def denseData (fl : K → K) (vars : List V) (mult : Constraint V K → K × K × K)
    (cs : List (Constraint V K)) : Py (List (List K × K)) :=
  pyMap (rowData fl vars mult) cs

/-- The triplets of dense rows. -/
def triplets (rows : List (List K × K)) : List (K × ℕ × ℕ) :=
  (rows.zipIdx.map fun t =>
    (t.1.1.zipIdx.filter fun s => s.1 ≠ 0).map fun s => (s.1, t.2, s.2)).flatten

theorem assemble_dense (fl : K → K) (vars : List V) (mult : Constraint V K → K × K × K)
    (cs : List (Constraint V K)) :
    assemble fl false vars mult cs = if cs.length = 0 then .ok none else
      (denseData fl vars mult cs).map fun rows => some (.dense (rows.map Prod.fst), rows.map Prod.snd) := by
  unfold assemble
  split
  · rfl
  · change ((denseData fl vars mult cs).bind _) = _
    cases denseData fl vars mult cs <;> rfl

theorem assemble_sparse (fl : K → K) (vars : List V) (mult : Constraint V K → K × K × K)
    (cs : List (Constraint V K)) :
    assemble fl true vars mult cs = if cs.length = 0 then .ok none else
      (denseData fl vars mult cs).map fun rows =>
        some (.sparse ((triplets rows).map fun t => t.1) ((triplets rows).map fun t => t.2.1)
          ((triplets rows).map fun t => t.2.2) (cs.length, vars.length), rows.map Prod.snd) := by
  unfold assemble
  split
  · rfl
  · have h1 : (pyMap (fun ci : Constraint V K × ℕ => do
        let r ← sparseRow ci.1.fn (mult ci.1).1 vars
        let v ← ci.1.fn.call (List.replicate vars.length (0 : K))
        return (r.map fun t => (t.1, ci.2, t.2), rhs fl (-v) (mult ci.1).2.1 (mult ci.1).2.2))
          cs.zipIdx) =
        (denseData fl vars mult cs).map fun rows => ((cs.zipIdx 0).zip rows).map fun t =>
          ((t.2.1.zipIdx.filter fun s => s.1 ≠ 0).map fun s => (s.1, t.1.2, s.2), t.2.2) := by
      unfold denseData
      rw [← pyMap_zipIdx (rowData fl vars mult) cs 0 (fun ci r =>
        ((r.1.zipIdx.filter fun s => s.1 ≠ 0).map fun s => (s.1, ci.2, s.2), r.2))]
      congr 1
      funext ci
      rw [sparseRow_eq]
      simp only [rowData, bind, Except.bind, pure, Except.pure]
      cases denseRow ci.1.fn (mult ci.1).1 vars with
      | error e => rfl
      | ok r =>
        simp only [Except.map]
        cases ci.1.fn.call (List.replicate vars.length 0) <;> rfl
    simp only [if_true]
    rw [h1]
    cases hd : denseData fl vars mult cs with
    | error e => rfl
    | ok rows =>
      have hl := pyMap_length hd
      simp only [Except.map, bind, Except.bind, pure, Except.pure]
      rw [zip_zipIdx cs rows 0 hl (fun i (r : List K × K) =>
          ((r.1.zipIdx.filter fun s => s.1 ≠ 0).map fun s => (s.1, i, s.2), r.2))]
      have e1 : (List.map Prod.fst (rows.zipIdx.map fun t =>
          ((t.1.1.zipIdx.filter fun s => s.1 ≠ 0).map fun s => (s.1, t.2, s.2), t.1.2))).flatten =
          triplets rows := by
        unfold triplets
        rw [List.map_map]; rfl
      have e2 : List.map Prod.snd (rows.zipIdx.map fun t =>
          ((t.1.1.zipIdx.filter fun s => s.1 ≠ 0).map fun s => (s.1, t.2, s.2), t.1.2)) =
          rows.map Prod.snd := by
        rw [List.map_map]
        conv_rhs => rw [← List.zipIdx_map_fst 0 rows, List.map_map]
        rfl
      rw [e1, e2]

/-! ### Entries of the sparse matrix -/

theorem sum_filter_zipIdx (r : List K) (k j : ℕ) :
    (((r.zipIdx k).filter fun s => decide (s.1 ≠ 0) && decide (s.2 = j)).map Prod.fst).sum =
      if k ≤ j then r.getD (j - k) 0 else 0 := by
  induction r generalizing k with
  | nil => simp
  | cons a r ih =>
    rw [List.zipIdx_cons, List.filter_cons]
    have ih' := ih (k + 1)
    by_cases hk : k = j
    · subst hk
      rw [if_pos (le_refl _)]
      rw [if_neg (by omega)] at ih'
      by_cases ha : a = 0
      · simp [ha] at ih' ⊢; exact ih'
      · simp [ha] at ih' ⊢; exact ih'
    · rw [if_neg (by simp [hk]), ih']
      by_cases hlt : k ≤ j
      · rw [if_pos hlt, if_pos (by omega)]
        obtain ⟨d, hd⟩ : ∃ d, j - k = d + 1 := ⟨j - k - 1, by omega⟩
        rw [hd, show j - (k + 1) = d by omega]
        simp
      · rw [if_neg hlt, if_neg (by omega)]

theorem triplets_sum (rows : List (List K × K)) (k i j : ℕ) :
    ((((rows.zipIdx k).map fun t =>
      (t.1.1.zipIdx.filter fun s => s.1 ≠ 0).map fun s => (s.1, t.2, s.2)).flatten.filter
        fun t => decide (t.2.1 = i ∧ t.2.2 = j)).map Prod.fst).sum =
      if k ≤ i then ((rows.map Prod.fst).getD (i - k) []).getD j 0 else 0 := by
  induction rows generalizing k with
  | nil => simp
  | cons r rows ih =>
    rw [List.zipIdx_cons, List.map_cons, List.flatten_cons, List.filter_append, List.map_append,
      List.sum_append, ih (k + 1)]
    rw [List.filter_map, List.filter_filter, List.map_map]
    have hfst : (Prod.fst ∘ fun s : K × ℕ => (s.1, k, s.2)) = Prod.fst := rfl
    rw [hfst]
    by_cases hk : k = i
    · subst hk
      have := sum_filter_zipIdx r.1 0 j
      simp only [Nat.zero_le, if_true, Nat.sub_zero] at this
      rw [if_neg (by omega), if_pos (le_refl _), add_zero]
      rw [Nat.sub_self]
      simp only [List.map_cons, List.getD_cons_zero]
      rw [← this]
      congr 2
      apply List.filter_congr
      intro s _
      simp [Bool.and_comm]
    · have : ((r.1.zipIdx.filter fun a => ((fun t : K × ℕ × ℕ => decide (t.2.1 = i ∧ t.2.2 = j)) ∘
          fun s : K × ℕ => (s.1, k, s.2)) a && decide (a.1 ≠ 0))) = [] := by
        rw [List.filter_eq_nil_iff]
        intro a _
        simp [hk]
      rw [this, List.map_nil, List.sum_nil, zero_add]
      by_cases hlt : k ≤ i
      · rw [if_pos hlt, if_pos (by omega)]
        obtain ⟨d, hd⟩ : ∃ d, i - k = d + 1 := ⟨i - k - 1, by omega⟩
        rw [hd, show i - (k + 1) = d by omega]
        simp
      · rw [if_neg hlt, if_neg (by omega)]

theorem zip_unzip3 (l : List (K × ℕ × ℕ)) :
    (l.map fun t => t.1).zip ((l.map fun t => t.2.1).zip (l.map fun t => t.2.2)) = l := by
  induction l with
  | nil => rfl
  | cons a l ih => simp [ih]

theorem sparse_entry (rows : List (List K × K)) (sh : ℕ × ℕ) (i j : ℕ) :
    (Mat.sparse ((triplets rows).map fun t => t.1) ((triplets rows).map fun t => t.2.1)
      ((triplets rows).map fun t => t.2.2) sh).entry i j =
      (Mat.dense (rows.map Prod.fst)).entry i j := by
  simp only [Mat.entry]
  rw [zip_unzip3]
  have := triplets_sum rows 0 i j
  simp only [Nat.zero_le, if_true, Nat.sub_zero] at this
  exact this

end

end Verif.LP
