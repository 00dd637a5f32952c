import Verif.Model.GALaws
import Verif.Proofs.BGASelect
import Verif.Proofs.GAPairs
import Mathlib.Data.Fintype.CardEmbedding
import Mathlib.Data.List.GetD
import Mathlib.Tactic.Linarith

/-! Helper lemmas for C114. -/

set_option linter.unusedSectionVars false

namespace Verif.GALaws
open Verif Verif.GA Verif.BGA
open scoped ENNReal

theorem descFactorial_three (n : ℕ) : n.descFactorial 3 = n * (n - 1) * (n - 2) := by
  simp [Nat.descFactorial]; ring

/-- the number of selections with all members in a set -/
theorem card_into {n : ℕ} (p : Fin n → Prop) [DecidablePred p] :
    Fintype.card {e : Fin 3 ↪ Fin n // ∀ i, p (e i)} =
      (Finset.univ.filter p).card.descFactorial 3 := by
  have h := Fintype.card_embedding_eq (α := Fin 3) (β := {i : Fin n // p i})
  rw [Fintype.card_fin, Fintype.card_subtype] at h
  rw [← h]
  refine Fintype.card_congr ⟨fun e => ⟨fun i => ⟨e.1 i, e.2 i⟩, fun a b hab => ?_⟩,
    fun e => ⟨e.trans (Function.Embedding.subtype _), fun i => (e i).2⟩, fun e => ?_, fun e => ?_⟩
  · simp only [Subtype.mk.injEq] at hab
    exact e.1.injective hab
  · rfl
  · rfl

/-- events decided by one draw -/
theorem tourLaw_apply {n t : ℕ} [Nonempty (Fin 3 ↪ Fin n)] {rest : PMF (ℕ → List ℕ → List ℕ)}
    {S : Set (ℕ → List ℕ → List ℕ)} {P : (Fin 3 ↪ Fin n) → Prop} [DecidablePred P]
    (h : ∀ tour ∈ rest.support, ∀ e, withTour t tour e ∈ S ↔ P e) :
    (tourLaw n t rest).toOuterMeasure S =
      (Fintype.card {e // P e} : ℝ≥0∞) / (n.descFactorial 3 : ℕ) := by
  unfold tourLaw
  rw [PMF.toOuterMeasure_bind_apply]
  have hc : ∀ tour, rest tour * ((PMF.uniformOfFintype (Fin 3 ↪ Fin n)).map (withTour t tour)).toOuterMeasure S
      = rest tour * ((Fintype.card {e // P e} : ℝ≥0∞) / (n.descFactorial 3 : ℕ)) := by
    intro tour
    by_cases ht : rest tour = 0
    · rw [ht, zero_mul, zero_mul]
    · congr 1
      rw [PMF.toOuterMeasure_map_apply]
      have hs : withTour t tour ⁻¹' S = {e | P e} := by
        ext e; exact h tour ((PMF.mem_support_iff _ _).mpr ht) e
      rw [hs, PMF.toOuterMeasure_uniformOfFintype_apply, Fintype.card_embedding_eq, Fintype.card_fin,
        Fintype.card_fin]
      rfl
  rw [tsum_congr hc, ENNReal.tsum_mul_right, PMF.tsum_coe, one_mul]

/-- one event is at least as likely as another -/
theorem tourLaw_mono {n t : ℕ} [Nonempty (Fin 3 ↪ Fin n)] {rest : PMF (ℕ → List ℕ → List ℕ)}
    {S S' : Set (ℕ → List ℕ → List ℕ)} (σ : (Fin 3 ↪ Fin n) → (Fin 3 ↪ Fin n))
    (hσ : Function.Injective σ)
    (h : ∀ tour ∈ rest.support, ∀ e, withTour t tour e ∈ S → withTour t tour (σ e) ∈ S') :
    (tourLaw n t rest).toOuterMeasure S ≤ (tourLaw n t rest).toOuterMeasure S' := by
  classical
  unfold tourLaw
  rw [PMF.toOuterMeasure_bind_apply, PMF.toOuterMeasure_bind_apply]
  refine ENNReal.tsum_le_tsum fun tour => ?_
  by_cases ht : rest tour = 0
  · rw [ht, zero_mul, zero_mul]
  · refine mul_le_mul_right ?_ _
    rw [PMF.toOuterMeasure_map_apply, PMF.toOuterMeasure_map_apply,
      PMF.toOuterMeasure_uniformOfFintype_apply, PMF.toOuterMeasure_uniformOfFintype_apply]
    refine ENNReal.div_le_div_right ?_ _
    rw [Nat.cast_le]
    refine Fintype.card_le_of_injective
      (fun e => ⟨σ e.1, h tour ((PMF.mem_support_iff _ _).mpr ht) e.1 e.2⟩) fun a b hab => ?_
    simp only [Subtype.mk.injEq] at hab
    exact Subtype.ext (hσ hab)

theorem withTour_choice {n t : ℕ} (hn : 3 ≤ n) {tour : ℕ → List ℕ → List ℕ}
    (ht : ∀ i, IsTourChoice (tour i)) (e : Fin 3 ↪ Fin n) : ∀ i, IsTourChoice (withTour t tour e i) := by
  intro i w hw h3
  unfold withTour
  split_ifs with h
  · obtain ⟨-, hl⟩ := h
    have hg : ∀ k : Fin 3, w.getD (e k) 0 = w[(e k).val]'(by rw [hl]; exact (e k).2) := fun k => by
      rw [List.getD_eq_getElem _ _ (by rw [hl]; exact (e k).2)]
    refine ⟨by simp [atPositions], ?_, ?_⟩
    · unfold atPositions
      rw [List.nodup_ofFn]
      intro a b hab
      simp only [hg] at hab
      have := (List.Nodup.getElem_inj_iff hw).mp hab
      exact e.injective (Fin.ext this)
    · intro a ha
      unfold atPositions at ha
      rw [List.mem_ofFn] at ha
      obtain ⟨k, rfl⟩ := ha
      rw [hg]
      exact List.getElem_mem _
  · exact ht i w hw h3

theorem withTour_mem {n t : ℕ} {tour : ℕ → List ℕ → List ℕ} (e : Fin 3 ↪ Fin n) {w : List ℕ}
    (hl : w.length = n) (a : ℕ) :
    a ∈ withTour t tour e t w ↔ ∃ k : Fin 3, w[(e k).val]'(by rw [hl]; exact (e k).2) = a := by
  unfold withTour
  rw [if_pos ⟨rfl, hl⟩, atPositions, List.mem_ofFn]
  refine exists_congr fun k => ?_
  rw [List.getD_eq_getElem _ _ (by rw [hl]; exact (e k).2)]

/-! ### Pairing -/

/-- the pairs for given positions -/
def pairsOf : List ℕ → List (ℕ × ℕ) → List (ℕ × ℕ)
  | _, [] => []
  | w, d :: ds => (w.getD d.1 0, w.getD d.2 0) ::
      pairsOf ((w.erase (w.getD d.1 0)).erase (w.getD d.2 0)) ds

theorem mem_pairDraws {h : ℕ} {ds : List (ℕ × ℕ)} : ds ∈ pairDraws (h + 1) ↔
    ∃ d es, ds = d :: es ∧ d.1 < 2 * h + 2 ∧ d.2 < 2 * h + 2 ∧ d.1 ≠ d.2 ∧ es ∈ pairDraws h := by
  simp only [pairDraws, Finset.mem_image, Finset.mem_product, Finset.mem_offDiag, Finset.mem_range]
  constructor
  · rintro ⟨⟨d, es⟩, ⟨⟨h1, h2, h3⟩, h4⟩, rfl⟩
    exact ⟨d, es, rfl, h1, h2, h3, h4⟩
  · rintro ⟨d, es, rfl, h1, h2, h3, h4⟩
    exact ⟨(d, es), ⟨⟨h1, h2, h3⟩, h4⟩, rfl⟩

theorem erase2 {w : List ℕ} (hw : w.Nodup) {h i j : ℕ} (hl : w.length = 2 * h + 2)
    (hi : i < 2 * h + 2) (hj : j < 2 * h + 2) (hij : i ≠ j) :
    w.getD i 0 ∈ w ∧ w.getD j 0 ∈ w ∧ w.getD i 0 ≠ w.getD j 0 ∧
    ((w.erase (w.getD i 0)).erase (w.getD j 0)).Nodup ∧
    ((w.erase (w.getD i 0)).erase (w.getD j 0)).length = 2 * h ∧
    ∀ a, a ∈ (w.erase (w.getD i 0)).erase (w.getD j 0) ↔ a ∈ w ∧ a ≠ w.getD i 0 ∧ a ≠ w.getD j 0 := by
  rw [List.getD_eq_getElem _ _ (show i < w.length by omega), List.getD_eq_getElem _ _ (show j < w.length by omega)]
  have h1 : w[i] ∈ w := List.getElem_mem _
  have h2 : w[j] ∈ w := List.getElem_mem _
  have h3 : w[i] ≠ w[j] := fun e => hij ((List.Nodup.getElem_inj_iff hw).mp e)
  have h4 : w[j] ∈ w.erase w[i] := by rw [List.mem_erase_of_ne h3.symm]; exact h2
  refine ⟨h1, h2, h3, (hw.erase _).erase _, ?_, fun a => ?_⟩
  · rw [List.length_erase_of_mem h4, List.length_erase_of_mem h1]; omega
  · rw [(hw.erase _).mem_erase_iff, hw.mem_erase_iff]; tauto

theorem pairLoop_pairsOf : ∀ (h : ℕ) (ds : List (ℕ × ℕ)), ds ∈ pairDraws h →
    ∀ (draw : ℕ → List ℕ → ℕ × ℕ) (fuel i nPool : ℕ) (pool : List Bool),
      (∀ k w, draw (i + k) w = pairAt ds k w) →
      (trues pool).length = 2 * h → (2 < nPool ↔ 2 ≤ 2 * h) → h < fuel →
      pairLoop draw fuel i nPool pool = some (.ok (pairsOf (trues pool) ds)) := by
  intro h
  induction h with
  | zero =>
    intro ds hds draw fuel i nPool pool hdr hlen hn hf
    obtain ⟨fuel, rfl⟩ : ∃ k, fuel = k + 1 := ⟨fuel - 1, by omega⟩
    rw [pairDraws, Finset.mem_singleton] at hds
    subst hds
    have : ¬ (2 < nPool) := by omega
    simp [pairLoop, this, pairsOf]
  | succ h ih =>
    intro ds hds draw fuel i nPool pool hdr hlen hn hf
    obtain ⟨fuel, rfl⟩ : ∃ k, fuel = k + 1 := ⟨fuel - 1, by omega⟩
    obtain ⟨d, es, rfl, hd1, hd2, hd3, hes⟩ := mem_pairDraws.mp hds
    obtain ⟨-, -, -, -, e5, -⟩ := erase2 (nodup_trues pool) (h := h) (by omega) hd1 hd2 hd3
    have hd0 : draw i (trues pool) = ((trues pool).getD d.1 0, (trues pool).getD d.2 0) := by
      have := hdr 0 (trues pool)
      rw [Nat.add_zero] at this
      rw [this]; rfl
    have hrec := ih es hes draw fuel (i + 1) (trues pool).length
      ((pool.set ((trues pool).getD d.1 0) false).set ((trues pool).getD d.2 0) false)
      (fun k w => by
        have := hdr (k + 1) w
        rw [show i + 1 + k = i + (k + 1) by omega, this]
        simp [pairAt])
      (by rw [trues_set2, e5]) (by omega) (by omega)
    rw [pairLoop, if_pos (by omega)]
    change (if (trues pool).length < 2 then _ else _) = _
    rw [if_neg (by omega)]
    change (match pairLoop draw fuel (i + 1) (trues pool).length
      ((pool.set (draw i (trues pool)).1 false).set (draw i (trues pool)).2 false) with
      | some (Except.ok ps) => some (Except.ok ((draw i (trues pool)) :: ps))
      | r => r) = _
    rw [hd0]
    simp only
    rw [hrec, trues_set2]
    rfl

theorem pairsOf_mem : ∀ (h : ℕ) (ds : List (ℕ × ℕ)), ds ∈ pairDraws h → ∀ (w : List ℕ), w.Nodup →
    w.length = 2 * h → ∀ p ∈ pairsOf w ds, p.1 ∈ w ∧ p.2 ∈ w := by
  intro h
  induction h with
  | zero =>
    intro ds hds w _ _ p hp
    rw [pairDraws, Finset.mem_singleton] at hds
    subst hds
    simp [pairsOf] at hp
  | succ h ih =>
    intro ds hds w hw hl p hp
    obtain ⟨d, es, rfl, hd1, hd2, hd3, hes⟩ := mem_pairDraws.mp hds
    obtain ⟨e1, e2, e3, e4, e5, e6⟩ := erase2 hw (h := h) (by omega) hd1 hd2 hd3
    rw [pairsOf, List.mem_cons] at hp
    rcases hp with rfl | hp
    · exact ⟨e1, e2⟩
    · obtain ⟨a1, a2⟩ := ih es hes _ e4 e5 p hp
      exact ⟨((e6 _).mp a1).1, ((e6 _).mp a2).1⟩

/-- the two are paired -/
def Hit (a b : ℕ) (ps : List (ℕ × ℕ)) : Prop := (a, b) ∈ ps ∨ (b, a) ∈ ps

instance (a b : ℕ) (ps : List (ℕ × ℕ)) : Decidable (Hit a b ps) := by unfold Hit; infer_instance

theorem card_pairDraws (h : ℕ) :
    (pairDraws (h + 1)).card = (2 * h + 2) * (2 * h + 1) * (pairDraws h).card := by
  rw [pairDraws, Finset.card_image_of_injective, Finset.card_product, Finset.offDiag_card,
    Finset.card_range]
  · congr 1
    rw [Nat.sub_eq_iff_eq_add (by nlinarith)]
    ring
  · rintro ⟨a, b⟩ ⟨c, d⟩ h
    simpa using h

theorem pairDraws_pos (h : ℕ) : 0 < (pairDraws h).card := by
  induction h with
  | zero => simp [pairDraws]
  | succ h ih => rw [card_pairDraws]; positivity

theorem card_hit_succ (h a b : ℕ) (w : List ℕ) :
    ((pairDraws (h + 1)).filter fun ds => Hit a b (pairsOf w ds)).card =
      ∑ d ∈ (Finset.range (2 * h + 2)).offDiag,
        ((pairDraws h).filter fun es => Hit a b (pairsOf w (d :: es))).card := by
  rw [pairDraws, Finset.filter_image, Finset.card_image_of_injective]
  · rw [Finset.card_filter, Finset.sum_product]
    refine Finset.sum_congr rfl fun d _ => ?_
    rw [Finset.card_filter]
  · rintro ⟨a, b⟩ ⟨c, d⟩ h
    simpa using h

theorem card_hit : ∀ (h : ℕ) (w : List ℕ), w.Nodup → w.length = 2 * h → ∀ a ∈ w, ∀ b ∈ w, a ≠ b →
    ((pairDraws h).filter fun ds => Hit a b (pairsOf w ds)).card * (2 * h - 1) = (pairDraws h).card := by
  intro h
  induction h with
  | zero =>
    intro w _ hl a ha
    obtain rfl : w = [] := List.length_eq_zero_iff.mp (by omega)
    simp at ha
  | succ h ih =>
    intro w hw hl a ha b hb hab
    obtain ⟨ia, hia, rfl⟩ := List.mem_iff_getElem.mp ha
    obtain ⟨ib, hib, rfl⟩ := List.mem_iff_getElem.mp hb
    have hne : ia ≠ ib := by rintro rfl; exact hab rfl
    rw [card_hit_succ, card_pairDraws]
    set T := (pairDraws h).card with hT
    set g : ℕ × ℕ → ℕ := fun d =>
      ((pairDraws h).filter fun es => Hit w[ia] w[ib] (pairsOf w (d :: es))).card with hg
    have hinj : ∀ k (hk : k < w.length) l (hl : l < w.length), w[k] = w[l] ↔ k = l := fun k hk l hl =>
      List.Nodup.getElem_inj_iff hw
    -- both are drawn
    have hA : ∀ d : ℕ × ℕ, d = (ia, ib) ∨ d = (ib, ia) → g d = T := by
      intro d hd
      rw [hg, hT]
      simp only
      rw [Finset.filter_true_of_mem]
      intro es _
      unfold Hit
      rw [pairsOf]
      rcases hd with rfl | rfl
      · left
        simp only
        rw [List.getD_eq_getElem _ _ hia, List.getD_eq_getElem _ _ hib]
        exact List.mem_cons_self
      · right
        simp only
        rw [List.getD_eq_getElem _ _ hia, List.getD_eq_getElem _ _ hib]
        exact List.mem_cons_self
    -- exactly one is drawn
    have hC : ∀ d ∈ (Finset.range (2 * h + 2)).offDiag, ¬ (d = (ia, ib) ∨ d = (ib, ia)) →
        (d.1 = ia ∨ d.1 = ib ∨ d.2 = ia ∨ d.2 = ib) → g d = 0 := by
      intro d hd hd' hd''
      rw [Finset.mem_offDiag, Finset.mem_range, Finset.mem_range] at hd
      obtain ⟨hd1, hd2, hd3⟩ := hd
      obtain ⟨e1, e2, e3, e4, e5, e6⟩ := erase2 hw (h := h) (by omega) hd1 hd2 hd3
      rw [hg]
      simp only
      rw [Finset.card_eq_zero, Finset.filter_eq_empty_iff]
      intro es hes hit
      have hm := pairsOf_mem h es hes _ e4 e5
      unfold Hit at hit
      rw [pairsOf, List.mem_cons, List.mem_cons] at hit
      rw [List.getD_eq_getElem _ _ (show d.1 < w.length by omega),
        List.getD_eq_getElem _ _ (show d.2 < w.length by omega)] at hit hm e6
      simp only [Prod.mk.injEq, hinj] at hit
      have hcase : ∀ k (hk : k < w.length) l (hl : l < w.length),
          (w[k], w[l]) ∈ pairsOf ((w.erase w[d.1]).erase w[d.2]) es →
          k ≠ d.1 ∧ k ≠ d.2 ∧ l ≠ d.1 ∧ l ≠ d.2 := by
        intro k hk l hl hkl
        obtain ⟨m1, m2⟩ := hm _ hkl
        rw [e6] at m1 m2
        simp only [ne_eq, hinj] at m1 m2
        exact ⟨m1.2.1, m1.2.2, m2.2.1, m2.2.2⟩
      have hp : d = (d.1, d.2) := rfl
      rw [hp, Prod.mk.injEq, Prod.mk.injEq] at hd'
      rcases hit with (hit | hit) | (hit | hit)
      · omega
      · have := hcase _ _ _ _ hit; omega
      · omega
      · have := hcase _ _ _ _ hit; omega
    -- none is drawn
    have hB : ∀ d ∈ (Finset.range (2 * h + 2)).offDiag,
        ¬ (d.1 = ia ∨ d.1 = ib ∨ d.2 = ia ∨ d.2 = ib) → g d * (2 * h - 1) = T := by
      intro d hd hd''
      rw [Finset.mem_offDiag, Finset.mem_range, Finset.mem_range] at hd
      obtain ⟨hd1, hd2, hd3⟩ := hd
      obtain ⟨e1, e2, e3, e4, e5, e6⟩ := erase2 hw (h := h) (by omega) hd1 hd2 hd3
      rw [← ih _ e4 e5 w[ia] (by
          rw [e6, List.getD_eq_getElem _ _ (show d.1 < w.length by omega),
            List.getD_eq_getElem _ _ (show d.2 < w.length by omega)]
          simp only [ne_eq, hinj]
          exact ⟨ha, by omega, by omega⟩) w[ib] (by
          rw [e6, List.getD_eq_getElem _ _ (show d.1 < w.length by omega),
            List.getD_eq_getElem _ _ (show d.2 < w.length by omega)]
          simp only [ne_eq, hinj]
          exact ⟨hb, by omega, by omega⟩) hab, hg]
      simp only
      congr 2
      refine Finset.filter_congr fun es _ => ?_
      unfold Hit
      rw [pairsOf, List.mem_cons, List.mem_cons,
        List.getD_eq_getElem _ _ (show d.1 < w.length by omega),
        List.getD_eq_getElem _ _ (show d.2 < w.length by omega)]
      simp only [Prod.mk.injEq, hinj]
      constructor
      · rintro ((hh | hh) | (hh | hh))
        · omega
        · exact Or.inl hh
        · omega
        · exact Or.inr hh
      · rintro (hh | hh)
        · exact Or.inl (Or.inr hh)
        · exact Or.inr (Or.inr hh)
    -- the sum
    have hsplit : ∑ d ∈ (Finset.range (2 * h + 2)).offDiag, g d =
        ∑ d ∈ ({(ia, ib), (ib, ia)} : Finset (ℕ × ℕ)), g d +
          ∑ d ∈ ((Finset.range (2 * h + 2)) \ {ia, ib}).offDiag, g d := by
      rw [← Finset.sum_union]
      · symm
        refine Finset.sum_subset ?_ ?_
        · intro d hd
          simp only [Finset.mem_union, Finset.mem_insert, Finset.mem_singleton, Finset.mem_offDiag,
            Finset.mem_sdiff, Finset.mem_range] at hd ⊢
          rcases hd with (rfl | rfl) | hd
          · simp only; omega
          · simp only; omega
          · omega
        · intro d hd hd'
          have hd0 := hd
          simp only [Finset.mem_union, Finset.mem_insert, Finset.mem_singleton, Finset.mem_offDiag,
            Finset.mem_sdiff, Finset.mem_range, not_or] at hd hd'
          refine hC d hd0 (by rw [not_or]; exact hd'.1) ?_
          by_contra hcon
          push Not at hcon
          exact hd'.2 ⟨⟨hd.1, by omega⟩, ⟨hd.2.1, by omega⟩, hd.2.2⟩
      · rw [Finset.disjoint_left]
        intro d hd hd'
        simp only [Finset.mem_insert, Finset.mem_singleton, Finset.mem_offDiag,
            Finset.mem_sdiff, Finset.mem_range] at hd hd'
        rcases hd with rfl | rfl
        · simp at hd'
        · simp at hd'
    have h1 : ∑ d ∈ ({(ia, ib), (ib, ia)} : Finset (ℕ × ℕ)), g d = 2 * T := by
      rw [Finset.sum_pair (by rw [ne_eq, Prod.mk.injEq]; omega), hA _ (Or.inl rfl), hA _ (Or.inr rfl)]
      ring
    have hcardB : (((Finset.range (2 * h + 2)) \ {ia, ib}).offDiag).card = 2 * h * (2 * h - 1) := by
      rw [Finset.offDiag_card, Finset.card_sdiff_of_subset, Finset.card_range, Finset.card_pair hne,
        Nat.add_sub_cancel, Nat.mul_sub, Nat.mul_one]
      intro k hk
      simp only [Finset.mem_insert, Finset.mem_singleton, Finset.mem_range] at hk ⊢
      omega
    have h2 : ∑ d ∈ ((Finset.range (2 * h + 2)) \ {ia, ib}).offDiag, g d = 2 * h * T := by
      rcases Nat.eq_zero_or_pos h with h0 | h0
      · subst h0
        rw [show ((Finset.range (2 * 0 + 2)) \ {ia, ib}).offDiag = ∅ from
          Finset.card_eq_zero.mp (by rw [hcardB])]
        simp
      · have hpos : 0 < 2 * h - 1 := by omega
        refine Nat.eq_of_mul_eq_mul_right hpos ?_
        rw [Finset.sum_mul, Finset.sum_congr rfl fun d hd => hB d (by
            simp only [Finset.mem_offDiag, Finset.mem_sdiff, Finset.mem_range] at hd ⊢
            exact ⟨hd.1.1, hd.2.1.1, hd.2.2⟩) (by
            simp only [Finset.mem_offDiag, Finset.mem_sdiff, Finset.mem_range, Finset.mem_insert,
              Finset.mem_singleton] at hd
            omega), Finset.sum_const, hcardB, smul_eq_mul]
        ring
    rw [hsplit, h1, h2, show 2 * (h + 1) - 1 = 2 * h + 1 by omega]
    ring

end Verif.GALaws
