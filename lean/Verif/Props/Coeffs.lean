import Verif.Model.Coeffs
import Verif.Proofs.LP
import Mathlib.Algebra.Field.Rat
import Mathlib.Tactic.LinearCombination
import Mathlib.Tactic.NormNum

/-!
# Coefficients of symbolic functions (C82)
-/

set_option linter.unusedSectionVars false

namespace Verif.Coeffs.Props
open Verif Verif.LP Verif.Coeffs

variable {V K : Type} [DecidableEq V] [Field K] [DecidableEq K]

/-- The value of a dictionary of coefficients: the sum of the values times the keys. -/
def total (env : Env V K) (ρ : V → K) (d : List (List (Factor V) × K)) : K :=
  (d.map fun t => t.2 * (t.1.map (Factor.val env ρ)).prod).sum

theorem collect_sum {F : Type} [DecidableEq F] (w : List F → K) (ms : List (List F)) (hn : ms.Nodup)
    (terms : List (List F × K)) (h : ∀ t ∈ terms, t.1 ∈ ms) :
    (ms.map fun m => collectAt terms m * w m).sum = (terms.map fun t => t.2 * w t.1).sum := by
  induction terms with
  | nil =>
    have : ∀ m ∈ ms, collectAt ([] : List (List F × K)) m * w m = 0 := by
      intro m _
      simp [collectAt]
    rw [List.map_congr_left this]
    simp
  | cons t ts ih =>
    rw [List.map_cons, List.sum_cons, ← ih fun s hs => h s (List.mem_cons_of_mem _ hs)]
    have e : (fun m => collectAt (t :: ts) m * w m) =
        fun m => (if t.1 = m then t.2 * w t.1 else 0) + collectAt ts m * w m := by
      funext m
      rw [collectAt_cons, add_mul]
      by_cases hm : t.1 = m
      · simp [hm]
      · simp [hm]
    rw [e]
    have h1 : ∀ ns : List (List F), (ns.map fun m => (if t.1 = m then t.2 * w t.1 else 0) +
        collectAt ts m * w m).sum = (ns.map fun m => if t.1 = m then t.2 * w t.1 else 0).sum +
          (ns.map fun m => collectAt ts m * w m).sum := by
      intro ns
      induction ns with
      | nil => simp
      | cons a as ih2 =>
        simp only [List.map_cons, List.sum_cons, ih2]
        ring
    rw [h1]
    congr 1
    have h2 : ∀ ns : List (List F), ns.Nodup →
        (ns.map fun m => if t.1 = m then t.2 * w t.1 else 0).sum =
          if t.1 ∈ ns then t.2 * w t.1 else 0 := by
      intro ns hns
      induction ns with
      | nil => simp
      | cons a as ih2 =>
        rw [List.map_cons, List.sum_cons, ih2 (List.nodup_cons.1 hns).2]
        by_cases ha : t.1 = a
        · have : t.1 ∉ as := ha ▸ (List.nodup_cons.1 hns).1
          rw [if_pos ha, if_neg this, if_pos (by rw [ha]; exact List.mem_cons_self ..), add_zero]
        · rw [if_neg ha, zero_add]
          simp [ha]
    rw [h2 ms hn, if_pos (h t (List.mem_cons_self ..))]

theorem filter_sum {F : Type} (w : List F → K) (d : List (List F × K)) :
    ((d.filter fun t => t.2 ≠ 0).map fun t => t.2 * w t.1).sum = (d.map fun t => t.2 * w t.1).sum := by
  induction d with
  | nil => rfl
  | cons t ts ih =>
    by_cases ht : t.2 = 0
    · rw [List.filter_cons_of_neg (by simp [ht]), ih]
      simp [ht]
    · rw [List.filter_cons_of_pos (by simp [ht])]
      simp only [List.map_cons, List.sum_cons, ih]

theorem asCoefficientsDict_sum {F : Type} [DecidableEq F] (w : List F → K) (terms : List (List F × K)) :
    ((asCoefficientsDict terms).map fun t => t.2 * w t.1).sum =
      (terms.map fun t => t.2 * w t.1).sum := by
  unfold asCoefficientsDict
  rw [filter_sum, List.map_map]
  exact collect_sum w _ (List.nodup_dedup _) terms fun t ht =>
    List.mem_dedup.2 (List.mem_map.2 ⟨t, ht, rfl⟩)

theorem asCoefficientsDict_nodup {F : Type} [DecidableEq F] (terms : List (List F × K)) :
    ((asCoefficientsDict terms).map Prod.fst).Nodup := by
  unfold asCoefficientsDict
  refine List.Nodup.sublist (List.Sublist.map _ (List.filter_sublist ..)) ?_
  rw [List.map_map]
  have : (Prod.fst ∘ fun m => (m, collectAt terms m)) = id := rfl
  rw [this, List.map_id]
  exact List.nodup_dedup _

theorem asDict_nodup (f : Fn V K) : ((asDict f).map Prod.fst).Nodup := by
  unfold asDict
  split
  · simp
  · exact asCoefficientsDict_nodup _

theorem asDict_sum (f : Fn V K) (w : List (Factor V) → K) :
    ((asDict f).map fun t => t.2 * w t.1).sum = (f.terms.map fun t => t.2 * w t.1).sum := by
  rw [← asCoefficientsDict_sum w f.terms]
  unfold asDict
  split
  · next h => rw [h]; simp
  · rfl

theorem filter_key_sum {F : Type} [DecidableEq F] (W : List F × K → K) (k : List F)
    (e : List (List F × K)) (hn : (e.map Prod.fst).Nodup) :
    ((e.filter fun s => s.1 = k).map W).sum =
      match e.find? fun s => s.1 = k with
      | some s => W s
      | none => 0 := by
  induction e with
  | nil => rfl
  | cons s e ih =>
    rw [List.map_cons, List.nodup_cons] at hn
    by_cases h : s.1 = k
    · rw [List.filter_cons_of_pos (by simp [h]), List.find?_cons_of_pos (by simp [h])]
      have : (e.filter fun s => s.1 = k) = [] := by
        rw [List.filter_eq_nil_iff]
        intro u hu
        simp only [decide_eq_true_eq]
        intro hk
        exact hn.1 (List.mem_map.2 ⟨u, hu, by rw [hk, h]⟩)
      rw [this]
      simp
    · rw [List.filter_cons_of_neg (by simp [h]), List.find?_cons_of_neg (by simp [h]), ih hn.2]

theorem split_sum {F : Type} [DecidableEq F] (W : List F × K → K) (p q r : List F × K → Bool)
    (e : List (List F × K)) (h : ∀ s, p s = (q s || r s)) (h' : ∀ s, ¬ (q s = true ∧ r s = true)) :
    ((e.filter p).map W).sum = ((e.filter q).map W).sum + ((e.filter r).map W).sum := by
  induction e with
  | nil => simp
  | cons s e ih =>
    have hs := h s
    have hs' := h' s
    cases hq : q s <;> cases hr : r s <;> rw [hq, hr] at hs <;> simp [hq, hr] at hs'
    · simp [List.filter_cons, hs, hq, hr, ih]
    · simp [List.filter_cons, hs, hq, hr, ih]
      ring
    · simp [List.filter_cons, hs, hq, hr, ih]
      ring

theorem update_sum {F : Type} [DecidableEq F] (W : List F × K → K) (e : List (List F × K))
    (he : (e.map Prod.fst).Nodup) (d : List (List F × K)) (hd : (d.map Prod.fst).Nodup)
    (h0 : ∀ t ∈ d, W t = 0) : ((dictUpdate d e).map W).sum = (e.map W).sum := by
  unfold dictUpdate
  rw [List.map_append, List.sum_append]
  induction d with
  | nil =>
    have : (e.filter fun s => (([] : List (List F × K)).find? fun t => t.1 = s.1).isNone) = e := by
      rw [List.filter_eq_self]
      intro s _
      rfl
    rw [this]
    simp
  | cons t d ih =>
    rw [List.map_cons, List.nodup_cons] at hd
    have ih := ih hd.2 fun s hs => h0 s (List.mem_cons_of_mem _ hs)
    rw [← ih]
    have hs := split_sum W (fun s => (d.find? fun t => t.1 = s.1).isNone)
      (fun s => ((t :: d).find? fun t => t.1 = s.1).isNone) (fun s => decide (s.1 = t.1)) e
      (by
        intro s
        by_cases h : t.1 = s.1
        · have h1 : (d.find? fun t => t.1 = s.1) = none := by
            rw [List.find?_eq_none]
            intro u hu
            simp only [decide_eq_true_eq]
            intro hk
            exact hd.1 (List.mem_map.2 ⟨u, hu, by rw [hk, h]⟩)
          rw [h1]
          simp [h]
        · rw [List.find?_cons_of_neg (by simp [h])]
          simp [Ne.symm h])
      (by
        rintro s ⟨h1, h2⟩
        simp only [decide_eq_true_eq] at h2
        rw [List.find?_cons_of_pos (by simp [h2])] at h1
        simp at h1)
    rw [hs, filter_key_sum W t.1 e he]
    have hr : W (dictReplace e t) = match e.find? fun s => s.1 = t.1 with
        | some s => W s
        | none => 0 := by
      unfold dictReplace
      cases e.find? fun s => s.1 = t.1 with
      | some s => rfl
      | none => exact h0 t (List.mem_cons_self ..)
    rw [List.map_cons, List.map_cons, List.sum_cons, hr]
    ring

theorem zeros_nodup (vars : List V) :
    ((vars.dedup.map fun x => ([Factor.sym x], (0 : K))).map Prod.fst).Nodup := by
  rw [List.map_map]
  have : (Prod.fst ∘ fun x : V => ([Factor.sym x], (0 : K))) = fun x => [Factor.sym x] := rfl
  rw [this]
  exact (List.nodup_dedup _).map fun x y h => by simpa using h

/-- C82: the dictionary of coefficients represents the function: the sum of the values times the keys is
the value of the function at every point. -/
theorem C82_sum (f : Fn V K) (env : Env V K) (ρ : V → K) :
    total env ρ f.coefficients = f.eval env ρ := by
  unfold total Fn.coefficients Fn.eval
  rw [update_sum _ _ (asDict_nodup f)]
  · exact asDict_sum f fun k => (k.map (Factor.val env ρ)).prod
  · exact zeros_nodup _
  · intro t ht
    obtain ⟨x, -, rfl⟩ := List.mem_map.1 ht
    simp

theorem update_nodup {F : Type} [DecidableEq F] (d e : List (List F × K))
    (hd : (d.map Prod.fst).Nodup) (he : (e.map Prod.fst).Nodup) :
    ((dictUpdate d e).map Prod.fst).Nodup := by
  unfold dictUpdate
  rw [List.map_append, List.map_map]
  have h1 : (Prod.fst ∘ dictReplace e : List F × K → List F) = Prod.fst :=
    funext fun t => dictReplace_fst e t
  rw [h1]
  refine List.Nodup.append hd (he.sublist (List.Sublist.map _ (List.filter_sublist ..))) ?_
  intro k hk hk'
  obtain ⟨t, ht, rfl⟩ := List.mem_map.1 hk
  obtain ⟨s, hs, hst⟩ := List.mem_map.1 hk'
  obtain ⟨-, hs⟩ := List.mem_filter.1 hs
  rw [Option.isNone_iff_eq_none, List.find?_eq_none] at hs
  exact hs t ht (by simpa using hst.symm)

/-- C82: every key occurs once. -/
theorem C82_keys (f : Fn V K) : (f.coefficients.map Prod.fst).Nodup :=
  update_nodup _ _ (zeros_nodup _) (asDict_nodup f)

/-- The key is a constant: it consists of constants only. -/
def IsConst (k : List (Factor V)) : Prop := ∀ g ∈ k, ∃ c, g = .const c

theorem free_iff (k : List (Factor V)) : (free k).length = 0 ↔ IsConst k := by
  rw [List.length_eq_zero_iff]
  unfold free IsConst
  rw [List.eq_nil_iff_forall_not_mem]
  simp only [List.mem_dedup, List.mem_flatMap, not_exists, not_and]
  constructor
  · intro h g hg
    cases g with
    | sym x => exact absurd (by simp [Factor.free]) (h x _ hg)
    | const c => exact ⟨c, rfl⟩
    | other x more i => exact absurd (by simp [Factor.free]) (h x _ hg)
  · intro h y g hg
    obtain ⟨c, rfl⟩ := h g hg
    simp [Factor.free]

theorem constVal_eq (env : Env V K) (ρ : V → K) (k : List (Factor V)) (h : IsConst k) :
    constVal env k = (k.map (Factor.val env ρ)).prod := by
  unfold constVal keyVal
  refine congrArg List.prod (List.map_congr_left fun g hg => ?_)
  obtain ⟨c, rfl⟩ := h g hg
  rfl

/-- What the normalization makes of one item. -/
def norm1 (env : Env V K) (t : List (Factor V) × K) : List (Factor V) × K :=
  if (free t.1).length = 0 then ([], t.2 * constVal env t.1) else t

theorem dictSet_new (d : List (List (Factor V) × K)) (k : List (Factor V)) (v : K)
    (h : k ∉ d.map Prod.fst) : dictSet d k v = d ++ [(k, v)] := by
  unfold dictSet
  rw [if_neg]
  simp only [List.any_eq_true, decide_eq_true_eq, not_exists, not_and]
  intro t ht e
  exact h (List.mem_map.2 ⟨t, ht, e⟩)

theorem normalize_fold (env : Env V K) (d res : List (List (Factor V) × K))
    (h : ((res ++ d.map (norm1 env)).map Prod.fst).Nodup) :
    d.foldl (normStep env) res = res ++ d.map (norm1 env) := by
  induction d generalizing res with
  | nil => simp
  | cons t d ih =>
    have hk : (norm1 env t).1 ∉ res.map Prod.fst := by
      rw [List.map_append, List.map_cons, List.map_cons] at h
      intro hm
      exact (List.nodup_append.1 h).2.2 _ hm _ (List.mem_cons_self ..) rfl
    have hs : normStep env res t = res ++ [norm1 env t] := by
      unfold normStep
      unfold norm1 at hk ⊢
      split
      · next hc => rw [if_pos hc] at hk; exact dictSet_new _ _ _ hk
      · next hc => rw [if_neg hc] at hk; exact dictSet_new _ _ _ hk
    rw [List.foldl_cons, hs, ih _ (by simpa using h)]
    simp

theorem norm1_key (env : Env V K) (t : List (Factor V) × K) (k : List (Factor V))
    (hk : ¬ IsConst k) : (norm1 env t).1 = k ↔ t.1 = k := by
  unfold norm1
  split
  · next h =>
    have h := (free_iff t.1).1 h
    constructor
    · rintro rfl
      exact absurd (fun g hg => absurd hg (by simp)) hk
    · rintro rfl
      exact absurd h hk
  · rfl

theorem norm1_const (env : Env V K) (t : List (Factor V) × K) :
    (norm1 env t).1 = [] ↔ IsConst t.1 := by
  unfold norm1
  split
  · next h => simp [(free_iff t.1).1 h]
  · next h =>
    rw [free_iff] at h
    constructor
    · intro e
      rw [e] at h ⊢
      intro g hg
      simp at hg
    · intro e
      exact absurd e h

theorem norm_nodup (env : Env V K) (d : List (List (Factor V) × K)) (hn : (d.map Prod.fst).Nodup)
    (h1 : d.Pairwise fun t s => ¬ (IsConst t.1 ∧ IsConst s.1)) :
    ((d.map (norm1 env)).map Prod.fst).Nodup := by
  rw [List.map_map, List.Nodup, List.pairwise_map]
  rw [List.Nodup, List.pairwise_map] at hn
  refine (hn.and h1).imp ?_
  rintro t s ⟨hts, hc⟩ he
  simp only [Function.comp_apply] at he
  by_cases h : IsConst t.1
  · exact hc ⟨h, (norm1_const env s).1 (he ▸ (norm1_const env t).2 h)⟩
  · rw [(norm1_key env t t.1 h).2 rfl] at he
    exact hts ((norm1_key env s t.1 h).1 he.symm).symm

theorem normalized_eq (f : Fn V K) (env : Env V K)
    (h1 : f.coefficients.Pairwise fun t s => ¬ (IsConst t.1 ∧ IsConst s.1)) :
    f.normalized env = f.coefficients.map (norm1 env) := by
  unfold Fn.normalized
  rw [normalize_fold env _ [] (by simpa using norm_nodup env _ (C82_keys f) h1)]
  rfl

theorem norm1_weight (env : Env V K) (ρ : V → K) (t : List (Factor V) × K) :
    (norm1 env t).2 * ((norm1 env t).1.map (Factor.val env ρ)).prod =
      t.2 * (t.1.map (Factor.val env ρ)).prod := by
  unfold norm1
  split
  · next h =>
    rw [constVal_eq env ρ _ ((free_iff _).1 h)]
    simp
  · rfl

/-- C82, partial: with at most one constant term, the normalized dictionary represents the function, and
the constant term has the key 1.  Missing, because it is false: several constant terms
(`C82_normalized_violated`). -/
theorem C82_normalized_partial (f : Fn V K) (env : Env V K)
    (h1 : f.coefficients.Pairwise fun t s => ¬ (IsConst t.1 ∧ IsConst s.1)) :
    (∀ ρ, total env ρ (f.normalized env) = f.eval env ρ) ∧
      ∀ t ∈ f.normalized env, IsConst t.1 → t.1 = [] := by
  rw [normalized_eq f env h1]
  constructor
  · intro ρ
    rw [← C82_sum]
    unfold total
    rw [List.map_map]
    exact congrArg List.sum (List.map_congr_left fun t _ => norm1_weight env ρ t)
  · intro t ht hc
    obtain ⟨s, -, rfl⟩ := List.mem_map.1 ht
    by_cases h : IsConst s.1
    · exact (norm1_const env s).2 h
    · rw [(norm1_key env s s.1 h).2 rfl] at hc
      exact absurd hc h

/-- C82 is violated: of two constant terms, `pi + 3` say, only the last one survives the
normalization. -/
theorem C82_normalized_violated (env : Env ℕ ℚ) (ρ : ℕ → ℚ) (hp : env.const 0 ≠ 0) :
    let f : Fn ℕ ℚ := ⟨[0], [([.sym 0], 1), ([.const 0], 1), ([], 3)]⟩
    let g : Fn ℕ ℚ := ⟨[0], [([.sym 0], 1), ([], 3), ([.const 0], 1)]⟩
    f.eval env ρ = ρ 0 + env.const 0 + 3 ∧ g.eval env ρ = ρ 0 + env.const 0 + 3 ∧
      total env ρ (f.normalized env) = ρ 0 + 3 ∧ total env ρ (g.normalized env) = ρ 0 + env.const 0 ∧
      total env ρ (f.normalized env) ≠ f.eval env ρ ∧ total env ρ (g.normalized env) ≠ g.eval env ρ := by
  intro f g
  have cf : f.coefficients = [([.sym 0], 1), ([.const 0], 1), ([], 3)] := by decide +kernel
  have cg : g.coefficients = [([.sym 0], 1), ([], 3), ([.const 0], 1)] := by decide +kernel
  have ef : f.eval env ρ = ρ 0 + env.const 0 + 3 := by
    simp [f, Fn.eval, keyVal, Factor.val]
    ring
  have eg : g.eval env ρ = ρ 0 + env.const 0 + 3 := by
    simp [g, Fn.eval, keyVal, Factor.val]
    ring
  have tf : total env ρ (f.normalized env) = ρ 0 + 3 := by
    unfold Fn.normalized
    rw [cf]
    simp [total, normStep, dictSet, free, Factor.free, constVal, keyVal, Factor.val]
  have tg : total env ρ (g.normalized env) = ρ 0 + env.const 0 := by
    unfold Fn.normalized
    rw [cg]
    simp [total, normStep, dictSet, free, Factor.free, constVal, keyVal, Factor.val]
  refine ⟨ef, eg, tf, tg, ?_, ?_⟩
  · rw [tf, ef]
    intro h
    exact hp (by linear_combination -h)
  · rw [tg, eg]
    intro h
    have : (3 : ℚ) = 0 := by linear_combination -h
    norm_num at this

/-- Only terms which are a number or a number times a variable. -/
def Affine (f : Fn V K) : Prop := ∀ t ∈ f.terms, t.1 = [] ∨ ∃ x, t.1 = [.sym x]

theorem coefficients_mem (f : Fn V K) (hf : Affine f) (t : List (Factor V) × K)
    (ht : t ∈ f.coefficients) : t.1 = [] ∨ ∃ x, t.1 = [.sym x] := by
  have h1 : ∀ t ∈ asDict f, t.1 = [] ∨ ∃ x, t.1 = [.sym x] := by
    intro t ht
    unfold asDict at ht
    split at ht
    · simp only [List.mem_singleton] at ht
      left
      rw [ht]
    · unfold asCoefficientsDict at ht
      obtain ⟨ht, -⟩ := List.mem_filter.1 ht
      obtain ⟨m, hm, rfl⟩ := List.mem_map.1 ht
      obtain ⟨s, hs, rfl⟩ := List.mem_map.1 (List.mem_dedup.1 hm)
      exact hf s hs
  unfold Fn.coefficients dictUpdate at ht
  rcases List.mem_append.1 ht with ht | ht
  · obtain ⟨s, hs, rfl⟩ := List.mem_map.1 ht
    rw [dictReplace_fst]
    obtain ⟨x, -, rfl⟩ := List.mem_map.1 hs
    exact .inr ⟨x, rfl⟩
  · exact h1 t (List.mem_filter.1 ht).1

theorem coefficients_one_const (f : Fn V K) (hf : Affine f) :
    f.coefficients.Pairwise fun t s => ¬ (IsConst t.1 ∧ IsConst s.1) := by
  have hn := C82_keys f
  rw [List.Nodup, List.pairwise_map] at hn
  have hm : f.coefficients.Pairwise fun t s => t ∈ f.coefficients ∧ s ∈ f.coefficients :=
    List.pairwise_of_forall_mem_list fun t ht s hs => ⟨ht, hs⟩
  refine (hn.and hm).imp ?_
  rintro t s ⟨hne, ht, hs⟩ ⟨ct, cs⟩
  have e : ∀ u ∈ f.coefficients, IsConst u.1 → u.1 = [] := by
    intro u hu hc
    rcases coefficients_mem f hf u hu with h | ⟨x, h⟩
    · exact h
    · rw [h] at hc
      obtain ⟨c, hc⟩ := hc (.sym x) (by simp)
      cases hc
  exact hne ((e t ht ct).trans (e s hs cs).symm)

theorem find_coefficients (f : Fn V K) (x : V) (hx : x ∈ f.vars) :
    (f.coefficients.find? fun s => s.1 = [.sym x]) = some ([.sym x], collectAt f.terms [.sym x]) := by
  unfold Fn.coefficients
  rw [find_dictUpdate]
  have ha : ((asDict f).find? fun s => s.1 = [.sym x]) =
      if collectAt f.terms [Factor.sym x] ≠ 0 then
        some ([.sym x], collectAt f.terms [Factor.sym x]) else none := by
    unfold asDict
    split
    · next h =>
      have := find_asCoefficientsDict f.terms [Factor.sym x]
      rw [h, List.find?_nil] at this
      rw [← this]
      simp
    · exact find_asCoefficientsDict _ _
  rw [ha]
  by_cases hc : collectAt f.terms [Factor.sym x] = 0
  · simp only [hc, ne_eq, not_true_eq_false, if_false]
    cases h : (f.vars.dedup.map fun x => ([Factor.sym x], (0 : K))).find? fun s => s.1 = [.sym x] with
    | none =>
      rw [List.find?_eq_none] at h
      have := h ([.sym x], 0) (List.mem_map.2 ⟨x, List.mem_dedup.2 hx, rfl⟩)
      simp at this
    | some s =>
      have h1 := List.find?_some h
      obtain ⟨y, -, rfl⟩ := List.mem_map.1 (List.mem_of_find?_eq_some h)
      simp only [decide_eq_true_eq] at h1
      rw [h1]
  · simp [hc]

theorem eval_update (f : Fn V K) (hf : Affine f) (env : Env V K) (ρ : V → K) (x : V) (t : K) :
    f.eval env (Function.update ρ x t) =
      f.eval env (Function.update ρ x 0) + t * collectAt f.terms [.sym x] := by
  unfold Fn.eval
  unfold Affine at hf
  generalize f.terms = ts at hf
  induction ts with
  | nil => simp [collectAt]
  | cons s ts ih =>
    rw [List.map_cons, List.map_cons, List.sum_cons, List.sum_cons, collectAt_cons,
      ih fun u hu => hf u (List.mem_cons_of_mem _ hu)]
    rcases hf s (List.mem_cons_self ..) with h | ⟨y, h⟩
    · rw [h, if_neg (by simp)]
      simp [keyVal]
      ring
    · rw [h]
      by_cases hy : y = x
      · subst hy
        rw [if_pos rfl]
        simp [keyVal, Factor.val]
        ring
      · rw [if_neg (by simpa using hy)]
        simp [keyVal, Factor.val, Function.update_of_ne hy]
        ring

/-- C82: for a sum of numbers and of numbers times variables, the entry of a variable in the linear
coefficients is the slope of the function in the direction of the variable.  This is what the linear
programming problem is made of. -/
theorem C82_linear_partial (f : Fn V K) (hf : Affine f) (env : Env V K) (x : V) (hx : x ∈ f.vars) :
    ∃ d c, linearPart (f.normalized env) = some d ∧ dictGet d [.sym x] = .ok c ∧
      ∀ ρ t, f.eval env (Function.update ρ x t) = f.eval env (Function.update ρ x 0) + t * c := by
  have hfind := find_coefficients f x hx
  have hconst : ¬ IsConst [Factor.sym x] := by
    intro h
    obtain ⟨c, hc⟩ := h (.sym x) (by simp)
    cases hc
  have hne : f.coefficients.map (norm1 env) ≠ [] := by
    intro h
    rw [List.map_eq_nil_iff] at h
    rw [h] at hfind
    simp at hfind
  refine ⟨(f.coefficients.map (norm1 env)).filter fun t => (free t.1).length ≤ 1,
    collectAt f.terms [.sym x], ?_, ?_, fun ρ t => eval_update f hf env ρ x t⟩
  · rw [normalized_eq f env (coefficients_one_const f hf)]
    unfold linearPart
    rw [if_neg hne]
  · unfold dictGet
    rw [List.find?_filter]
    have e1 : (fun a : List (Factor V) × K =>
        decide (decide ((free a.1).length ≤ 1) = true ∧ decide (a.1 = [.sym x]) = true)) =
        fun s => decide (s.1 = [.sym x]) := by
      funext s
      by_cases hs : s.1 = [.sym x]
      · simp [hs, free, Factor.free]
      · simp [hs]
    rw [show ((f.coefficients.map (norm1 env)).find? fun a =>
      decide (decide ((free a.1).length ≤ 1) = true ∧ decide (a.1 = [.sym x]) = true)) =
      (f.coefficients.map (norm1 env)).find? fun s => decide (s.1 = [.sym x]) by rw [e1]]
    rw [List.find?_map]
    have e2 : ((fun s : List (Factor V) × K => decide (s.1 = [.sym x])) ∘ norm1 env) =
        fun s => decide (s.1 = [.sym x]) := by
      funext s
      simp only [Function.comp_apply]
      exact decide_eq_decide.2 (norm1_key env s _ hconst)
    rw [e2, hfind]
    simp [norm1, free, Factor.free]

/-- C82: nothing is lost, the constant included: the linear coefficients of such a function represent
it. -/
theorem C82_linear_total (f : Fn V K) (hf : Affine f) (hv : f.vars ≠ []) (env : Env V K) :
    ∃ d, linearPart (f.normalized env) = some d ∧ ∀ ρ, total env ρ d = f.eval env ρ := by
  obtain ⟨x, hx⟩ := List.exists_mem_of_ne_nil _ hv
  obtain ⟨d, c, hd, -, -⟩ := C82_linear_partial f hf env x hx
  refine ⟨d, hd, fun ρ => ?_⟩
  rw [← (C82_normalized_partial f env (coefficients_one_const f hf)).1 ρ]
  unfold linearPart at hd
  split at hd
  · cases hd
  · injection hd with hd
    rw [← hd, List.filter_eq_self.2]
    intro t ht
    rw [normalized_eq f env (coefficients_one_const f hf)] at ht
    obtain ⟨s, hs, rfl⟩ := List.mem_map.1 ht
    have hk : (norm1 env s).1 = [] ∨ (norm1 env s).1 = s.1 := by
      unfold norm1
      split
      · exact .inl rfl
      · exact .inr rfl
    rcases hk with hk | hk
    · simp [hk, free]
    · rcases coefficients_mem f hf s hs with h | ⟨y, h⟩
      · simp [hk, h, free]
      · simp [hk, h, free, Factor.free]

/-- `3*x - 2*y + 1` -/
example : Affine (⟨[0, 1], [([.sym 0], 3), ([.sym 1], -2), ([], 1)]⟩ : Fn ℕ ℚ) := by
  intro t ht
  simp only [List.mem_cons, List.not_mem_nil, or_false] at ht
  rcases ht with rfl | rfl | rfl
  · exact .inr ⟨0, rfl⟩
  · exact .inr ⟨1, rfl⟩
  · exact .inl rfl

/-- C82 is violated: an irrational coefficient is not recognized: for `pi*x` the entry of `x`, which the
linear programming problem reads, is zero although the slope is `pi`. -/
theorem C82_irrational_violated (env : Env ℕ ℚ) :
    let f : Fn ℕ ℚ := ⟨[0], [([.const 0, .sym 0], 1)]⟩
    (∃ d, linearPart (f.normalized env) = some d ∧ dictGet d [.sym 0] = .ok 0) ∧
      ∀ ρ t, f.eval env (Function.update ρ 0 t) = f.eval env (Function.update ρ 0 0) +
        t * env.const 0 := by
  intro f
  have cf : f.coefficients = [([.sym 0], 0), ([.const 0, .sym 0], 1)] := by decide +kernel
  constructor
  · refine ⟨[([.sym 0], 0), ([.const 0, .sym 0], 1)], ?_, by decide +kernel⟩
    unfold Fn.normalized
    rw [cf]
    simp [linearPart, normStep, dictSet, free, Factor.free]
  · intro ρ t
    simp [f, Fn.eval, keyVal, Factor.val]
    ring

/-- C82 is violated: `pi*(x + y)` disappears from the linear coefficients, and `x**2` stays. -/
theorem C82_linear_violated :
    (∃ d, linearPart (⟨[0, 1], [([.const 0, .other 0 [1] 0], 1)]⟩ : Fn ℕ ℚ).coefficients = some d ∧
      d = [([.sym 0], 0), ([.sym 1], 0)]) ∧
    ∃ d, linearPart (⟨[0], [([.sym 0, .sym 0], 1)]⟩ : Fn ℕ ℚ).coefficients = some d ∧
      ([.sym 0, .sym 0], 1) ∈ d := by
  refine ⟨⟨_, ?_, rfl⟩, ⟨[([.sym 0], 0), ([.sym 0, .sym 0], 1)], ?_, by decide +kernel⟩⟩ <;> decide +kernel

/-- C82: every variable has an item in the coefficients: the coefficient collected for it, zero when
it does not occur. -/
theorem C82_variables (f : Fn V K) (x : V) (hx : x ∈ f.vars) :
    dictGet f.coefficients [.sym x] =
      .ok ((f.terms.filter fun t => t.1 = [.sym x]).map Prod.snd).sum := by
  unfold dictGet
  rw [find_coefficients f x hx]
  rfl

example : dictGet (⟨[0, 1], [([.sym 0], 3), ([.sym 0], -1), ([], 1)]⟩ : Fn ℕ ℚ).coefficients [.sym 0] =
    .ok 2 ∧ dictGet (⟨[0, 1], [([.sym 0], 3), ([.sym 0], -1), ([], 1)]⟩ : Fn ℕ ℚ).coefficients
      [.sym 1] = .ok 0 := by
  constructor <;> decide +kernel

/-! ### `is_linear` -/

theorem le_foldl_max (l : List ℕ) (a : ℕ) : a ≤ l.foldl max a ∧ ∀ x ∈ l, x ≤ l.foldl max a := by
  induction l generalizing a with
  | nil => simp
  | cons b l ih =>
    obtain ⟨h1, h2⟩ := ih (max a b)
    refine ⟨le_trans (le_max_left _ _) h1, fun x hx => ?_⟩
    rcases List.mem_cons.1 hx with rfl | hx
    · exact le_trans (le_max_right _ _) h1
    · exact h2 x hx

/-- A polynomial: no composite factors. -/
def Poly (f : Fn V K) : Prop := ∀ t ∈ f.terms, ∀ g ∈ t.1, (∃ x, g = .sym x) ∨ ∃ c, g = .const c

theorem keyVal_affine (env : Env V K) (ρ : V → K) (x : V) (t : K) (k : List (Factor V))
    (hk : ∀ g ∈ k, (∃ x, g = .sym x) ∨ ∃ c, g = .const c) (hc : k.count (.sym x) ≤ 1) :
    keyVal env (Function.update ρ x t) k = keyVal env (Function.update ρ x 0) k +
      t * (keyVal env (Function.update ρ x 1) k - keyVal env (Function.update ρ x 0) k) := by
  have h0 : ∀ (k : List (Factor V)), (∀ g ∈ k, (∃ x, g = .sym x) ∨ ∃ c, g = .const c) →
      k.count (.sym x) = 0 → ∀ s s', keyVal env (Function.update ρ x s) k =
        keyVal env (Function.update ρ x s') k := by
    intro k hk hc s s'
    unfold keyVal
    refine congrArg List.prod (List.map_congr_left fun g hg => ?_)
    rcases hk g hg with ⟨y, rfl⟩ | ⟨c, rfl⟩
    · have : y ≠ x := by
        rintro rfl
        exact List.count_eq_zero.1 hc hg
      simp [Factor.val, Function.update_of_ne this]
    · rfl
  induction k with
  | nil => simp [keyVal]
  | cons g k ih =>
    have hk' := fun u hu => hk u (List.mem_cons_of_mem _ hu)
    have cons : ∀ s, keyVal env (Function.update ρ x s) (g :: k) =
        g.val env (Function.update ρ x s) * keyVal env (Function.update ρ x s) k := by
      intro s
      simp [keyVal]
    rw [cons, cons, cons]
    by_cases hg : g = .sym x
    · subst hg
      rw [List.count_cons_self] at hc
      have hz : k.count (.sym x) = 0 := by omega
      rw [h0 k hk' hz t 0, h0 k hk' hz 1 0]
      simp [Factor.val]
    · have hz : k.count (.sym x) ≤ 1 := by
        rw [List.count_cons_of_ne (by simpa using hg)] at hc
        exact hc
      have hv : ∀ s s', g.val env (Function.update ρ x s) = g.val env (Function.update ρ x s') := by
        intro s s'
        rcases hk g (List.mem_cons_self ..) with ⟨y, rfl⟩ | ⟨c, rfl⟩
        · have : y ≠ x := fun h => hg (by rw [h])
          simp [Factor.val, Function.update_of_ne this]
        · rfl
      rw [hv t 0, hv 1 0, ih hk' hz]
      ring

/-- C82: a function reported to be linear is at most linear in each of its variables. -/
theorem C82_is_linear_sound (f : Fn V K) (hp : Poly f) (h : f.isLinear = .ok true) (env : Env V K)
    (x : V) (hx : x ∈ f.vars) (ρ : V → K) (t : K) :
    f.eval env (Function.update ρ x t) = f.eval env (Function.update ρ x 0) +
      t * (f.eval env (Function.update ρ x 1) - f.eval env (Function.update ρ x 0)) := by
  unfold Fn.isLinear at h
  split at h
  · cases h
  · next hn =>
    injection h with h
    rw [List.all_eq_true] at h
    have hd := h (f.degree x) (List.mem_map.2 ⟨x, hx, rfl⟩)
    have hne : asCoefficientsDict f.terms ≠ [] := by
      intro e
      apply hn
      rw [List.any_eq_true]
      exact ⟨f.degree x, List.mem_map.2 ⟨x, hx, rfl⟩, by simp [Fn.degree, e]⟩
    have hdeg : ∀ s ∈ asCoefficientsDict f.terms, s.1.count (.sym x) ≤ 1 := by
      intro s hs
      unfold Fn.degree at hd
      rw [if_neg hne] at hd
      simp only [Option.getD_some, decide_eq_true_eq] at hd
      exact le_trans ((le_foldl_max _ 0).2 _ (List.mem_map.2 ⟨s, hs, rfl⟩)) hd
    have he : ∀ ρ', f.eval env ρ' =
        ((asCoefficientsDict f.terms).map fun t => t.2 * keyVal env ρ' t.1).sum :=
      fun ρ' => (asCoefficientsDict_sum (fun k => keyVal env ρ' k) f.terms).symm
    have hpoly : ∀ s ∈ asCoefficientsDict f.terms, ∀ g ∈ s.1, (∃ x, g = .sym x) ∨ ∃ c, g = .const c := by
      intro s hs
      unfold asCoefficientsDict at hs
      obtain ⟨hs, -⟩ := List.mem_filter.1 hs
      obtain ⟨m, hm, rfl⟩ := List.mem_map.1 hs
      obtain ⟨u, hu, rfl⟩ := List.mem_map.1 (List.mem_dedup.1 hm)
      exact hp u hu
    rw [he, he, he]
    generalize asCoefficientsDict f.terms = ts at hdeg hpoly
    induction ts with
    | nil => simp
    | cons s ts ih =>
      simp only [List.map_cons, List.sum_cons]
      rw [ih (fun u hu => hdeg u (List.mem_cons_of_mem _ hu))
        fun u hu => hpoly u (List.mem_cons_of_mem _ hu),
        keyVal_affine env ρ x t s.1 (hpoly s (List.mem_cons_self ..)) (hdeg s (List.mem_cons_self ..))]
      ring

/-- C82: for sums of numbers and numbers times variables, not all zero, the answer is `True`. -/
theorem C82_is_linear_complete (f : Fn V K) (hf : Affine f) (h0 : asCoefficientsDict f.terms ≠ []) :
    f.isLinear = .ok true := by
  have hle : ∀ (l : List ℕ) (a : ℕ), a ≤ 1 → (∀ x ∈ l, x ≤ 1) → l.foldl max a ≤ 1 := by
    intro l
    induction l with
    | nil => intro a ha _; exact ha
    | cons b l ih =>
      intro a ha hl
      exact ih _ (max_le ha (hl b (List.mem_cons_self ..))) fun x hx => hl x (List.mem_cons_of_mem _ hx)
  have hd : ∀ x, ∃ n, f.degree x = some n ∧ n ≤ 1 := by
    intro x
    unfold Fn.degree
    rw [if_neg h0]
    refine ⟨_, rfl, hle _ 0 (by omega) fun n hn => ?_⟩
    obtain ⟨s, hs, rfl⟩ := List.mem_map.1 hn
    unfold asCoefficientsDict at hs
    obtain ⟨hs, -⟩ := List.mem_filter.1 hs
    obtain ⟨m, hm, rfl⟩ := List.mem_map.1 hs
    obtain ⟨u, hu, rfl⟩ := List.mem_map.1 (List.mem_dedup.1 hm)
    rcases hf u hu with h | ⟨y, h⟩
    · simp [h]
    · rw [h]
      exact List.count_le_length
  unfold Fn.isLinear
  rw [if_neg, List.all_eq_true.2]
  · intro o ho
    obtain ⟨x, -, rfl⟩ := List.mem_map.1 ho
    obtain ⟨n, e, hn⟩ := hd x
    rw [e]
    simpa using hn
  · rw [List.any_eq_true]
    rintro ⟨o, ho, hnone⟩
    obtain ⟨x, -, rfl⟩ := List.mem_map.1 ho
    obtain ⟨n, e, hn⟩ := hd x
    rw [e] at hnone
    simp at hnone

/-- C82 is violated: the product of two variables is reported to be linear, and the function zero raises
an exception. -/
theorem C82_is_linear_violated :
    (⟨[0, 1], [([.sym 0, .sym 1], 1)]⟩ : Fn ℕ ℚ).isLinear = .ok true ∧
    (⟨[0], []⟩ : Fn ℕ ℚ).isLinear = .error .generic := by
  constructor <;> decide +kernel

end Verif.Coeffs.Props
