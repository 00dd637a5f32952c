import Verif.Proofs.GALaws
import Verif.Props.GAChance
import Mathlib.Algebra.BigOperators.Field
import Mathlib.Data.List.Sort

/-!
# C114 – chances in the binary genetic algorithm
-/

set_option linter.unusedSectionVars false

namespace Verif.GALaws.Props
open Verif Verif.GA Verif.BGA Verif.GALaws
open Verif.GA.Props (Beats beats_iff)
open Verif.BGA.Props
open Verif.GAChance.Props (OnGrid onGrid_iff decodeRow_formula)
open scoped ENNReal

section
variable {V : Type} [LinearOrder V]

/-! ### Tournaments -/

/-- who wins -/
theorem winner {argsort : List V → List ℕ} (ha : IsArgsort argsort) {nPop : ℕ} {el : Elitism}
    {minimize : Bool} {f : List V} (hf : f.length = nPop) (hel : Accepted el) (hnone : el ≠ .none)
    {elite others : List ℕ} (hdiv : divide argsort nPop el minimize f = .ok (elite, others))
    (h3 : 3 ≤ others.length) {tour : ℕ → List ℕ → List ℕ} (ht : ∀ i, IsTourChoice (tour i))
    {t : ℕ} (hlt : elite.length + t < nPop / 2) :
    ∃ w, (∀ x, (∃ ids, selectIds argsort nPop el minimize tour f = .ok ids ∧
        ids[elite.length + t]? = some x) ↔ x = w) ∧ w ∈ tour t others ∧
      ∀ j ∈ tour t others, ∀ x y, f[w]? = some x → f[j]? = some y → ¬ Beats minimize y x := by
  have hint : ∀ k, el = .int k → 1 ≤ k := by rintro k rfl; exact hel
  have hfl : ∀ q, el = .float q → q < 1 := by rintro q rfl; exact hel.2
  have hd := divide_ok (argsort := argsort) (nPop := nPop) (m := minimize) (f := f) hnone hint hfl
  rw [hdiv] at hd
  have hd' := Except.ok.inj hd
  rw [Prod.mk.injEq] at hd'
  obtain ⟨h1, h2⟩ := hd'
  have hperm := dirSort_perm ha minimize f
  have hdl : (dirSort argsort minimize f).length = nPop := by
    rw [hperm.length_eq, List.length_range, hf]
  have hol : others.length = nPop - eliteCount nPop el := by rw [h2, List.length_drop, hdl]
  have hell : elite.length = min (eliteCount nPop el) nPop := by rw [h1, List.length_take, hdl]
  obtain ⟨more, s1, s2, s3⟩ := selectIds_ok ha (m := minimize) ht hf hnone hint hfl (Or.inr (by omega))
  rw [← h1] at s1
  rw [← h2] at s3
  have htl : t < more.length := by omega
  have hget : (elite ++ more)[elite.length + t]? = some more[t] := by
    rw [List.getElem?_append_right (by omega), Nat.add_sub_cancel_left, List.getElem?_eq_getElem htl]
  obtain ⟨b1, -, b3⟩ := s3 t more[t] (List.getElem?_eq_getElem htl)
  refine ⟨more[t], fun x => ?_, b1, fun j hj x y hx hy => ?_⟩
  · constructor
    · rintro ⟨ids, hids, hx⟩
      rw [s1] at hids
      cases hids
      rw [hget] at hx
      exact (Option.some.inj hx).symm
    · rintro rfl
      exact ⟨_, s1, hget⟩
  · rw [beats_iff, b3 j hj x y hx hy]; simp

theorem others_facts {argsort : List V → List ℕ} (ha : IsArgsort argsort) {nPop : ℕ} {el : Elitism}
    {minimize : Bool} {f : List V} (hel : Accepted el) (hnone : el ≠ .none)
    {elite others : List ℕ} (hdiv : divide argsort nPop el minimize f = .ok (elite, others)) :
    others.Nodup ∧ ∀ i ∈ others, i < f.length := by
  have hint : ∀ k, el = .int k → 1 ≤ k := by rintro k rfl; exact hel
  have hfl : ∀ q, el = .float q → q < 1 := by rintro q rfl; exact hel.2
  have hd := divide_ok (argsort := argsort) (nPop := nPop) (m := minimize) (f := f) hnone hint hfl
  rw [hdiv] at hd
  have hd' := Except.ok.inj hd
  rw [Prod.mk.injEq] at hd'
  obtain ⟨-, h2⟩ := hd'
  have hperm := dirSort_perm ha minimize f
  rw [h2]
  refine ⟨(List.drop_sublist _ _).nodup (hperm.nodup_iff.mpr List.nodup_range), fun i hi => ?_⟩
  have := hperm.mem_iff.mp (List.drop_subset _ _ hi)
  rwa [List.mem_range] at this

theorem card_positions {n : ℕ} {others : List ℕ} (hl : others.length = n) (hnd : others.Nodup)
    (group : Finset ℕ) (hsub : ∀ i ∈ group, i ∈ others) :
    (Finset.univ.filter fun k : Fin n => others[k.val]'(by rw [hl]; exact k.2) ∈ group).card =
      group.card := by
  refine Finset.card_bij (fun k _ => others[k.val]'(by rw [hl]; exact k.2)) ?_ ?_ ?_
  · intro k hk; exact (Finset.mem_filter.mp hk).2
  · intro k _ l _ h
    exact Fin.ext ((List.Nodup.getElem_inj_iff hnd).mp h)
  · intro i hi
    obtain ⟨k, hk, rfl⟩ := List.mem_iff_getElem.mp (hsub i hi)
    exact ⟨⟨k, by omega⟩, Finset.mem_filter.mpr ⟨Finset.mem_univ _, hi⟩, rfl⟩

/-- the winner belongs to the group exactly if all candidates do -/
theorem winner_group {argsort : List V → List ℕ} (ha : IsArgsort argsort) {nPop : ℕ} {el : Elitism}
    {minimize : Bool} {f : List V} (hf : f.length = nPop) (hel : Accepted el) (hnone : el ≠ .none)
    {elite others : List ℕ} (hdiv : divide argsort nPop el minimize f = .ok (elite, others))
    {n : ℕ} (hn : others.length = n) (h3 : 3 ≤ n) {t : ℕ} (hlt : elite.length + t < nPop / 2)
    {tour : ℕ → List ℕ → List ℕ} (ht : ∀ i, IsTourChoice (tour i)) (e : Fin 3 ↪ Fin n)
    {group : Finset ℕ} (hg : ∀ i ∈ group, ∀ j ∈ others, j ∉ group → ∀ x y, f[i]? = some x →
      f[j]? = some y → Beats minimize y x) {w : ℕ}
    (hw : ∃ ids, selectIds argsort nPop el minimize (withTour t tour e) f = .ok ids ∧
        ids[elite.length + t]? = some w) :
    w ∈ group ↔ ∀ k, others[(e k).val]'(by rw [hn]; exact (e k).2) ∈ group := by
  obtain ⟨hnd, hmem⟩ := others_facts ha hel hnone hdiv
  obtain ⟨w', h1, h2, h4⟩ := winner ha hf hel hnone hdiv (by omega) (withTour_choice h3 ht e) hlt
  obtain rfl := (h1 w).mp hw
  have hval : ∀ i ∈ others, ∃ y, f[i]? = some y := fun i hi => ⟨_, List.getElem?_eq_getElem (hmem i hi)⟩
  obtain ⟨k0, hk0⟩ := (withTour_mem e hn w).mp h2
  constructor
  · intro hwg k
    by_contra hk
    have hkm : others[(e k).val]'(by rw [hn]; exact (e k).2) ∈ others := List.getElem_mem _
    have hwm : w ∈ others := by rw [← hk0]; exact List.getElem_mem _
    obtain ⟨x, hx⟩ := hval _ hwm
    obtain ⟨y, hy⟩ := hval _ hkm
    exact h4 _ ((withTour_mem e hn _).mpr ⟨k, rfl⟩) x y hx hy (hg w hwg _ hkm hk x y hx hy)
  · intro h
    rw [← hk0]
    exact h k0

/-- C114, tournaments: if everybody outside of a group of `m` of the `n` others beats everybody in the
group, then the chance that winner number `t` belongs to the group is
`m (m - 1) (m - 2) / (n (n - 1) (n - 2))` – in particular, it is zero for the two worst – and this does
not depend on the other tournaments. -/
theorem C114_tournament (argsort : List V → List ℕ) (ha : IsArgsort argsort) (nPop : ℕ) (el : Elitism)
    (minimize : Bool) (f : List V) (hf : f.length = nPop) (hel : Accepted el) (hnone : el ≠ .none)
    (elite others : List ℕ) (hdiv : divide argsort nPop el minimize f = .ok (elite, others))
    (n : ℕ) (hn : others.length = n) [Nonempty (Fin 3 ↪ Fin n)] (t : ℕ)
    (hlt : elite.length + t < nPop / 2) (rest : PMF (ℕ → List ℕ → List ℕ))
    (hrest : ∀ tour ∈ rest.support, ∀ i, IsTourChoice (tour i))
    (group : Finset ℕ) (hsub : ∀ i ∈ group, i ∈ others)
    (hg : ∀ i ∈ group, ∀ j ∈ others, j ∉ group → ∀ x y, f[i]? = some x → f[j]? = some y →
      Beats minimize y x) :
    (tourLaw n t rest).toOuterMeasure
        {tour | ∃ ids w, selectIds argsort nPop el minimize tour f = .ok ids ∧
          ids[elite.length + t]? = some w ∧ w ∈ group} =
      ((group.card * (group.card - 1) * (group.card - 2) : ℕ) : ℝ≥0∞) / (n * (n - 1) * (n - 2) : ℕ) := by
  have h3 : 3 ≤ n := by
    have := Function.Embedding.nonempty_iff_card_le.mp (‹Nonempty (Fin 3 ↪ Fin n)›)
    simpa using this
  obtain ⟨hnd, -⟩ := others_facts ha hel hnone hdiv
  rw [tourLaw_apply (P := fun e => ∀ k, others[(e k).val]'(by rw [hn]; exact (e k).2) ∈ group),
    card_into (fun k : Fin n => others[k.val]'(by rw [hn]; exact k.2) ∈ group),
    card_positions hn hnd group hsub, descFactorial_three, descFactorial_three]
  intro tour htour e
  obtain ⟨w, h1, -, -⟩ := winner ha hf hel hnone hdiv (by omega)
    (withTour_choice h3 (hrest tour htour) e) hlt
  have hw := (h1 w).mpr rfl
  have key := winner_group ha hf hel hnone hdiv hn h3 hlt (hrest tour htour) e hg hw
  rw [← key]
  constructor
  · rintro ⟨ids, w', hids, hw', hgr⟩
    obtain rfl := (h1 w').mp ⟨ids, hids, hw'⟩
    exact hgr
  · intro hgr
    obtain ⟨ids, hids, hw'⟩ := hw
    exact ⟨ids, w, hids, hw', hgr⟩

/-- C114, the chance of one: a member that beats `m` of the `n` others and is beaten by the rest is
winner number `t` with probability `3 m (m - 1) / (n (n - 1) (n - 2))`. -/
theorem C114_chance (argsort : List V → List ℕ) (ha : IsArgsort argsort) (nPop : ℕ) (el : Elitism)
    (minimize : Bool) (f : List V) (hf : f.length = nPop) (hel : Accepted el) (hnone : el ≠ .none)
    (elite others : List ℕ) (hdiv : divide argsort nPop el minimize f = .ok (elite, others))
    (n : ℕ) (hn : others.length = n) [Nonempty (Fin 3 ↪ Fin n)] (t : ℕ)
    (hlt : elite.length + t < nPop / 2) (rest : PMF (ℕ → List ℕ → List ℕ))
    (hrest : ∀ tour ∈ rest.support, ∀ i, IsTourChoice (tour i))
    (a : ℕ) (haw : a ∈ others) (va : V) (hva : f[a]? = some va) (beaten : Finset ℕ)
    (hb : ∀ i, i ∈ beaten ↔ i ∈ others ∧ ∃ x, f[i]? = some x ∧ Beats minimize va x)
    (hrst : ∀ i ∈ others, i ≠ a → i ∉ beaten → ∀ x, f[i]? = some x → Beats minimize x va) :
    (tourLaw n t rest).toOuterMeasure
        {tour | ∃ ids, selectIds argsort nPop el minimize tour f = .ok ids ∧
          ids[elite.length + t]? = some a} =
      ((3 * (beaten.card * (beaten.card - 1)) : ℕ) : ℝ≥0∞) / (n * (n - 1) * (n - 2) : ℕ) := by
  have h3 : 3 ≤ n := by
    have := Function.Embedding.nonempty_iff_card_le.mp (‹Nonempty (Fin 3 ↪ Fin n)›)
    simpa using this
  obtain ⟨hnd, hmem⟩ := others_facts ha hel hnone hdiv
  have htrans : ∀ x y z : V, Beats minimize x y → Beats minimize y z → Beats minimize x z := by
    intro x y z
    unfold Beats
    split_ifs
    · exact fun p q => lt_trans p q
    · exact fun p q => lt_trans q p
  have hirr : ∀ x : V, ¬ Beats minimize x x := by
    intro x; unfold Beats; split_ifs <;> exact lt_irrefl x
  have hab : a ∉ beaten := fun h => by
    obtain ⟨x, hx, hbx⟩ := ((hb a).mp h).2
    rw [hva] at hx
    cases hx
    exact hirr _ hbx
  have hg1 : ∀ i ∈ beaten, ∀ j ∈ others, j ∉ beaten → ∀ x y, f[i]? = some x → f[j]? = some y →
      Beats minimize y x := by
    intro i hi j hj hjb x y hx hy
    obtain ⟨-, x', hx', hbx⟩ := (hb i).mp hi
    rw [hx] at hx'
    cases hx'
    by_cases hja : j = a
    · subst hja
      rw [hva] at hy
      cases hy
      exact hbx
    · exact htrans _ _ _ (hrst j hj hja hjb y hy) hbx
  have hg2 : ∀ i ∈ insert a beaten, ∀ j ∈ others, j ∉ insert a beaten → ∀ x y, f[i]? = some x →
      f[j]? = some y → Beats minimize y x := by
    intro i hi j hj hjb x y hx hy
    rw [Finset.mem_insert, not_or] at hjb
    have h1 := hrst j hj hjb.1 hjb.2 y hy
    rcases Finset.mem_insert.mp hi with rfl | hi
    · rw [hva] at hx
      cases hx
      exact h1
    · exact hg1 i hi j hj hjb.2 x y hx hy
  rw [tourLaw_apply (P := fun e => (∀ k, others[(e k).val]'(by rw [hn]; exact (e k).2) ∈ insert a beaten) ∧
    ¬ ∀ k, others[(e k).val]'(by rw [hn]; exact (e k).2) ∈ beaten), descFactorial_three]
  · congr 2
    have c1 := card_into (fun k : Fin n => others[k.val]'(by rw [hn]; exact k.2) ∈ insert a beaten)
    have c2 := card_into (fun k : Fin n => others[k.val]'(by rw [hn]; exact k.2) ∈ beaten)
    rw [card_positions hn hnd _ (by
      intro i hi
      rcases Finset.mem_insert.mp hi with rfl | hi
      · exact haw
      · exact ((hb i).mp hi).1), Finset.card_insert_of_notMem hab, Fintype.card_subtype] at c1
    rw [card_positions hn hnd _ (fun i hi => ((hb i).mp hi).1), Fintype.card_subtype] at c2
    rw [Fintype.card_subtype, ← Finset.filter_filter]
    have c3 := Finset.card_filter_add_card_filter_not (s := Finset.univ.filter fun e : Fin 3 ↪ Fin n =>
        ∀ k, others[(e k).val]'(by rw [hn]; exact (e k).2) ∈ insert a beaten)
      (fun e => ∀ k, others[(e k).val]'(by rw [hn]; exact (e k).2) ∈ beaten)
    rw [c1, Finset.filter_filter, Finset.filter_congr (q := fun e : Fin 3 ↪ Fin n =>
        ∀ k, others[(e k).val]'(by rw [hn]; exact (e k).2) ∈ beaten) (fun e _ =>
        ⟨fun h => h.2, fun h => ⟨fun k => Finset.mem_insert_of_mem (h k), h⟩⟩), c2,
      descFactorial_three, descFactorial_three] at c3
    have : (beaten.card + 1) * (beaten.card + 1 - 1) * (beaten.card + 1 - 2) =
        beaten.card * (beaten.card - 1) * (beaten.card - 2) + 3 * (beaten.card * (beaten.card - 1)) := by
      rcases beaten.card with _ | _ | m
      · rfl
      · rfl
      · simp only [Nat.add_sub_cancel, show m + 1 + 1 + 1 - 2 = m + 1 by omega,
          show m + 1 + 1 - 2 = m by omega]
        ring
    omega
  · intro tour htour e
    obtain ⟨w, h1, -, -⟩ := winner ha hf hel hnone hdiv (by omega)
      (withTour_choice h3 (hrest tour htour) e) hlt
    have hw := (h1 w).mpr rfl
    have k1 := winner_group ha hf hel hnone hdiv hn h3 hlt (hrest tour htour) e hg1 hw
    have k2 := winner_group ha hf hel hnone hdiv hn h3 hlt (hrest tour htour) e hg2 hw
    rw [← k1, ← k2, Set.mem_ofPred_eq, h1, Finset.mem_insert]
    constructor
    · rintro rfl; exact ⟨Or.inl rfl, hab⟩
    · rintro ⟨rfl | h, h'⟩
      · rfl
      · exact absurd h h'

/-- C114, the better one is at least as likely to be winner number `t`. -/
theorem C114_better (argsort : List V → List ℕ) (ha : IsArgsort argsort) (nPop : ℕ) (el : Elitism)
    (minimize : Bool) (f : List V) (hf : f.length = nPop) (hel : Accepted el) (hnone : el ≠ .none)
    (elite others : List ℕ) (hdiv : divide argsort nPop el minimize f = .ok (elite, others))
    (n : ℕ) (hn : others.length = n) [Nonempty (Fin 3 ↪ Fin n)] (t : ℕ)
    (hlt : elite.length + t < nPop / 2) (rest : PMF (ℕ → List ℕ → List ℕ))
    (hrest : ∀ tour ∈ rest.support, ∀ i, IsTourChoice (tour i))
    (a b : ℕ) (haw : a ∈ others) (hbw : b ∈ others) (va vb : V) (hva : f[a]? = some va)
    (hvb : f[b]? = some vb) (hbeat : Beats minimize va vb) :
    (tourLaw n t rest).toOuterMeasure
        {tour | ∃ ids, selectIds argsort nPop el minimize tour f = .ok ids ∧
          ids[elite.length + t]? = some b} ≤
    (tourLaw n t rest).toOuterMeasure
        {tour | ∃ ids, selectIds argsort nPop el minimize tour f = .ok ids ∧
          ids[elite.length + t]? = some a} := by
  have h3 : 3 ≤ n := by
    have := Function.Embedding.nonempty_iff_card_le.mp (‹Nonempty (Fin 3 ↪ Fin n)›)
    simpa using this
  obtain ⟨hnd, hmem⟩ := others_facts ha hel hnone hdiv
  have hval : ∀ i ∈ others, ∃ y, f[i]? = some y := fun i hi => ⟨_, List.getElem?_eq_getElem (hmem i hi)⟩
  obtain ⟨ia, hia, rfl⟩ := List.mem_iff_getElem.mp haw
  obtain ⟨ib, hib, rfl⟩ := List.mem_iff_getElem.mp hbw
  have hle : ∀ x y z : V, Beats minimize x y → ¬ Beats minimize z y → Beats minimize x z := by
    intro x y z
    unfold Beats
    split_ifs
    · exact fun p q => lt_of_lt_of_le p (not_lt.mp q)
    · exact fun p q => lt_of_le_of_lt (not_lt.mp q) p
  have hirr : ∀ x : V, ¬ Beats minimize x x := by
    intro x; unfold Beats; split_ifs <;> exact lt_irrefl x
  have hasym : ∀ x y : V, Beats minimize x y → ¬ Beats minimize y x := by
    intro x y
    unfold Beats
    split_ifs <;> exact lt_asymm
  set pa : Fin n := ⟨ia, by omega⟩
  set pb : Fin n := ⟨ib, by omega⟩
  refine tourLaw_mono (fun e => e.trans (Equiv.swap pa pb).toEmbedding) (fun e e' h => ?_) ?_
  · ext k
    have := DFunLike.congr_fun h k
    simp only [Function.Embedding.trans_apply, Equiv.coe_toEmbedding] at this
    exact congrArg Fin.val ((Equiv.swap pa pb).injective this)
  · intro tour htour e he
    obtain ⟨w, h1, h2, h4⟩ := winner ha hf hel hnone hdiv (by omega)
      (withTour_choice h3 (hrest tour htour) e) hlt
    obtain rfl := (h1 _).mp he
    obtain ⟨w', g1, g2, g4⟩ := winner ha hf hel hnone hdiv (by omega)
      (withTour_choice h3 (hrest tour htour) (e.trans (Equiv.swap pa pb).toEmbedding)) hlt
    -- the position of `b` was drawn, that of `a` was not
    obtain ⟨kb, hkb⟩ := (withTour_mem e hn _).mp h2
    have hkb' : e kb = pb := Fin.ext ((List.Nodup.getElem_inj_iff hnd).mp hkb)
    have hna : ∀ k, e k ≠ pa := by
      intro k hk
      refine h4 others[ia] ((withTour_mem e hn _).mpr ⟨k, ?_⟩) vb va hvb hva hbeat
      simp only [hk, pa]
    refine (g1 _).mpr ?_
    -- the winner among the other candidates
    obtain ⟨kw, hkw⟩ := (withTour_mem _ hn _).mp g2
    have hmema : others[ia] ∈ withTour t tour (e.trans (Equiv.swap pa pb).toEmbedding) t others := by
      refine (withTour_mem _ hn _).mpr ⟨kb, ?_⟩
      simp only [Function.Embedding.trans_apply, Equiv.coe_toEmbedding, hkb', Equiv.swap_apply_right, pa]
    by_cases hk : kw = kb
    · rw [← hkw, hk]
      simp only [Function.Embedding.trans_apply, Equiv.coe_toEmbedding, hkb', Equiv.swap_apply_right, pa]
    · exfalso
      have hne : e kw ≠ pb := by
        rw [← hkb']; exact fun h => hk (e.injective h)
      have hsw : (e.trans (Equiv.swap pa pb).toEmbedding) kw = e kw := by
        simp only [Function.Embedding.trans_apply, Equiv.coe_toEmbedding]
        exact Equiv.swap_apply_of_ne_of_ne (hna kw) hne
      have hkw' : others[(e kw).val]'(by rw [hn]; exact (e kw).2) = w' := by
        rw [← hkw]; simp only [hsw]
      have hw'm : w' ∈ others := by rw [← hkw']; exact List.getElem_mem _
      obtain ⟨vw, hvw⟩ := hval _ hw'm
      have hnb : ¬ Beats minimize vw vb :=
        h4 w' ((withTour_mem e hn _).mpr ⟨kw, hkw'⟩) vb vw hvb hvw
      exact g4 _ hmema vw va hvw hva (hle _ _ _ hbeat hnb)

end

/-! ### Pairs -/

/-- C114, pairing: with `2 h ≥ 4` parents, any two of them become a pair with probability
`1 / (2 h - 1)`. -/
theorem C114_pairs (h : ℕ) (hh : 2 ≤ h) (a b : ℕ) (ha : a < 2 * h) (hb : b < 2 * h) (hab : a ≠ b)
    (fuel : ℕ) (hf : h < fuel) (hne : (pairDraws h).Nonempty) :
    (PMF.uniformOfFinset (pairDraws h) hne).toOuterMeasure
        {ds | ∃ ps, parentPositions (pairAt ds) fuel (2 * h) = some (.ok ps) ∧
          ((a, b) ∈ ps ∨ (b, a) ∈ ps)} = 1 / (2 * h - 1 : ℕ) := by
  classical
  rw [PMF.toOuterMeasure_uniformOfFinset_apply]
  have hset : (pairDraws h).filter (fun ds => ds ∈ {ds | ∃ ps,
        parentPositions (pairAt ds) fuel (2 * h) = some (.ok ps) ∧ ((a, b) ∈ ps ∨ (b, a) ∈ ps)}) =
      (pairDraws h).filter fun ds => Hit a b (pairsOf (List.range (2 * h)) ds) := by
    refine Finset.filter_congr fun ds hds => ?_
    have := pairLoop_pairsOf h ds hds (pairAt ds) fuel 0 (2 * h) (List.replicate (2 * h) true)
      (fun k w => by rw [Nat.zero_add]) (by rw [trues_replicate, List.length_range]) (by omega) hf
    rw [trues_replicate] at this
    rw [Set.mem_ofPred_eq]
    unfold parentPositions
    rw [if_neg (by omega), this]
    constructor
    · rintro ⟨ps, hps, hit⟩
      cases hps
      exact hit
    · exact fun hit => ⟨_, rfl, hit⟩
  rw [hset]
  have hc := card_hit h (List.range (2 * h)) List.nodup_range List.length_range a
    (List.mem_range.mpr ha) b (List.mem_range.mpr hb) hab
  have hpos : 0 < ((pairDraws h).filter fun ds => Hit a b (pairsOf (List.range (2 * h)) ds)).card := by
    have := pairDraws_pos h
    by_contra h0
    rw [not_lt, Nat.le_zero] at h0
    rw [h0, Nat.zero_mul] at hc
    omega
  rw [← hc, Nat.cast_mul]
  rw [ENNReal.div_eq_div_iff]
  · ring
  · exact_mod_cast (by omega : 2 * h - 1 ≠ 0)
  · exact ENNReal.natCast_ne_top _
  · exact mul_ne_zero (by exact_mod_cast hpos.ne') (by exact_mod_cast (by omega : 2 * h - 1 ≠ 0))
  · exact ENNReal.mul_ne_top (ENNReal.natCast_ne_top _) (ENNReal.natCast_ne_top _)

/-! ### Bits -/

section
variable {K : Type} [Field K] [LinearOrder K] [IsStrictOrderedRing K]

theorem bits_isBits {n : ℕ} (g : Fin n → Bool) : IsBits n (bits g) := by
  refine ⟨by simp [bits], fun b hb => ?_⟩
  unfold bits at hb
  rw [List.mem_ofFn] at hb
  obtain ⟨i, rfl⟩ := hb
  by_cases h : g i <;> simp [h]

theorem bits_surj {n : ℕ} {l : List ℤ} (hl : IsBits n l) : ∃ g : Fin n → Bool, bits g = l := by
  obtain ⟨hlen, hb⟩ := hl
  subst hlen
  refine ⟨fun i => decide (l[i.val] = 1), ?_⟩
  unfold bits
  apply List.ext_getElem (by simp)
  intro i h1 h2
  rw [List.getElem_ofFn]
  rcases hb _ (List.getElem_mem h2) with h | h <;> simp [h]

theorem bits_injective {n : ℕ} : Function.Injective (bits (n := n)) := by
  intro g g' h
  unfold bits at h
  have := List.ofFn_injective h
  funext i
  have hi := congrFun this i
  revert hi
  cases g i <;> cases g' i <;> simp

/-- different genotypes decode to different points -/
theorem decodeRow_injective {dim L : ℕ} (hL : 1 ≤ L) {ranges : List (K × K)} (hr : ranges.length = dim)
    (hlt : ∀ r ∈ ranges, r.1 < r.2) {g g' : List ℤ} (hg : IsBits (dim * L) g) (hg' : IsBits (dim * L) g')
    (h : decodeRow dim L ranges g = decodeRow dim L ranges g') : g = g' := by
  obtain ⟨-, f1⟩ := decodeRow_formula hr hg
  obtain ⟨-, f2⟩ := decodeRow_formula hr hg'
  have hch : ∀ d, d < dim → chromosome L g d = chromosome L g' d := by
    intro d hd
    have hlen : ∀ g, IsBits (dim * L) g → (chromosome L g d).length = L ∧
        ∀ b ∈ chromosome L g d, b = 0 ∨ b = 1 := by
      intro g hg
      refine ⟨?_, fun b hb => hg.2 b (List.drop_subset _ _ (List.take_subset _ _ hb))⟩
      have : d * L + L ≤ dim * L := by
        calc d * L + L = (d + 1) * L := by ring
          _ ≤ dim * L := Nat.mul_le_mul_right _ (by omega)
      simp only [chromosome, List.length_take, List.length_drop, hg.1]; omega
    have hm := hlt ranges[d] (List.getElem_mem (by omega))
    have e := f1 d (by omega)
    rw [h, f2 d (by omega)] at e
    exact (C09_grid L hL ranges[d].1 ranges[d].2 hm.le).2.2.2 hm _ _ (hlen g hg).1 (hlen g' hg').1
      (hlen g hg).2 (hlen g' hg').2 (Option.some.inj e).symm
  apply List.ext_getElem (by rw [hg.1, hg'.1])
  intro j h1 h2
  rw [hg.1] at h1
  have hd : j / L < dim := by rw [Nat.div_lt_iff_lt_mul (by omega)]; exact h1
  have := congrArg (fun l : List ℤ => l[j % L]?) (hch _ hd)
  simp only [chromosome, List.getElem?_take, Nat.mod_lt j (show 0 < L by omega), if_true,
    List.getElem?_drop] at this
  rw [show j / L * L + j % L = j from Nat.div_add_mod' j L] at this
  rw [List.getElem?_eq_getElem (by rw [hg.1]; exact h1), List.getElem?_eq_getElem h2] at this
  exact Option.some.inj this

/-- C114, the start: if the bits of a member are drawn by `randint(2, ...)`, then all points that can be
represented are equally likely to be its phenotype, whatever the other members are (they may also
depend on this one). -/
theorem C114_start (nPop dim L : ℕ) (hL : 1 ≤ L) (ranges : List (K × K)) (hr : ranges.length = dim)
    (hlt : ∀ r ∈ ranges, r.1 < r.2) (pop : (Fin (dim * L) → Bool) → List (List ℤ)) (p : ℕ)
    (hlen : ∀ g, (pop g).length = nPop) (hrow : ∀ g, ∀ r ∈ pop g, r.length = dim * L)
    (hp : ∀ g, (pop g)[p]? = some (List.ofFn fun i => if g i then 1 else 0))
    (x : List K) (hx : OnGrid L ranges x) :
    (PMF.uniformOfFintype (Fin (dim * L) → Bool)).toOuterMeasure
        {g | ∃ xs, decode nPop dim L ranges (pop g) = .ok xs ∧ xs[p]? = some x} =
      1 / (2 ^ (dim * L) : ℕ) := by
  classical
  obtain ⟨l, hl, rfl⟩ := (onGrid_iff hr x).mp hx
  obtain ⟨g0, rfl⟩ := bits_surj hl
  have hset : {g | ∃ xs, decode nPop dim L ranges (pop g) = .ok xs ∧
      xs[p]? = some (decodeRow dim L ranges (bits g0))} = {g0} := by
    ext g
    rw [Set.mem_ofPred_eq, Set.mem_singleton_iff, decode_rows (hlen g) (hrow g)]
    have hpg : (pop g)[p]? = some (bits g) := hp g
    constructor
    · rintro ⟨xs, hxs, h⟩
      cases hxs
      rw [List.getElem?_map, hpg, Option.map_some] at h
      exact bits_injective (decodeRow_injective hL hr hlt (bits_isBits g) (bits_isBits g0)
        (Option.some.inj h))
    · rintro rfl
      exact ⟨_, rfl, by rw [List.getElem?_map, hpg, Option.map_some]⟩
  rw [hset, PMF.toOuterMeasure_uniformOfFintype_apply]
  simp

/-! ### Mutation -/

/-- C114, mutation: if `rand()` yields the multiples of `1 / N` in `[0, 1)` with the same probability
and `q` of them are not greater than `p_m`, then the bits of a child are flipped independently of each
other, each with probability `q / N`: for every set of positions, the chance that exactly these are
flipped. -/
theorem C114_mutation (N n : ℕ) [NeZero N] (p_m : K) (q : ℕ) (hq : q ≤ N) (h1 : (q : K) - 1 ≤ p_m * N)
    (h2 : p_m * N < q) (child : List ℤ) (hlen : child.length = n) (hbits : ∀ b ∈ child, b = 0 ∨ b = 1)
    (S : Finset (Fin n)) :
    (PMF.uniformOfFintype (Fin n → Fin N)).toOuterMeasure
        {u | mutate p_m (List.ofFn fun i => ((u i).val : K) / N) child =
          List.ofFn fun i => if i ∈ S then 1 - child[i.val] else child[i.val]} =
      ((q ^ S.card * (N - q) ^ (n - S.card) : ℕ) : ℝ≥0∞) / (N ^ n : ℕ) := by
  classical
  have hN : (0 : K) < N := by exact_mod_cast Nat.pos_of_ne_zero (NeZero.ne N)
  have hflip : ∀ k : ℕ, (k : K) / N > p_m ↔ q ≤ k := by
    intro k
    rw [gt_iff_lt, lt_div_iff₀ hN]
    constructor
    · intro h
      have : (q : K) < k + 1 := by linarith
      have : q < k + 1 := by exact_mod_cast this
      omega
    · intro h
      exact lt_of_lt_of_le h2 (by exact_mod_cast h)
  have hne : ∀ i : Fin n, child[i.val] ≠ 1 - child[i.val] := by
    intro i
    rcases hbits _ (List.getElem_mem (show i.val < child.length by omega)) with h | h <;> rw [h] <;> decide
  have hset : {u : Fin n → Fin N | mutate p_m (List.ofFn fun i => ((u i).val : K) / N) child =
      List.ofFn fun i => if i ∈ S then 1 - child[i.val] else child[i.val]} =
      ↑(Fintype.piFinset fun i => if i ∈ S then Finset.univ.filter (fun k : Fin N => k.val < q)
        else Finset.univ.filter (fun k : Fin N => ¬ k.val < q)) := by
    ext u
    rw [Set.mem_ofPred_eq, Finset.mem_coe, Fintype.mem_piFinset]
    have hm : mutate p_m (List.ofFn fun i => ((u i).val : K) / N) child =
        List.ofFn fun i : Fin n => if q ≤ (u i).val then child[i.val] else 1 - child[i.val] := by
      unfold mutate
      apply List.ext_getElem (by simp [hlen])
      intro i a b
      rw [List.getElem_zipWith, List.getElem_ofFn, List.getElem_ofFn]
      simp only [hflip]
    rw [hm, List.ofFn_inj, funext_iff]
    refine forall_congr' fun i => ?_
    by_cases hi : i ∈ S
    · rw [if_pos hi, if_pos hi, Finset.mem_filter]
      by_cases hk : q ≤ (u i).val
      · rw [if_pos hk]
        simp only [hne i, false_iff]
        rintro ⟨-, h⟩; omega
      · rw [if_neg hk]
        simp only [true_iff]
        exact ⟨Finset.mem_univ _, by omega⟩
    · rw [if_neg hi, if_neg hi, Finset.mem_filter]
      by_cases hk : q ≤ (u i).val
      · rw [if_pos hk]
        simp only [true_iff]
        exact ⟨Finset.mem_univ _, by omega⟩
      · rw [if_neg hk]
        simp only [(hne i).symm, false_iff]
        rintro ⟨-, h⟩; omega
  have hc1 : (Finset.univ.filter (fun k : Fin N => k.val < q)).card = q := by
    rw [Fin.card_filter_val_lt]; omega
  have hc2 : (Finset.univ.filter (fun k : Fin N => ¬ k.val < q)).card = N - q := by
    have := Finset.card_filter_add_card_filter_not (s := (Finset.univ : Finset (Fin N))) (fun k => k.val < q)
    rw [hc1, Finset.card_univ, Fintype.card_fin] at this
    omega
  rw [hset, PMF.toOuterMeasure_uniformOfFintype_apply]
  simp only [Finset.coe_sort_coe, Fintype.card_coe, Fintype.card_piFinset, apply_ite Finset.card, hc1, hc2,
    Fintype.card_fun, Fintype.card_fin]
  rw [Finset.prod_ite, Finset.prod_const, Finset.prod_const, Finset.filter_mem_eq_inter, Finset.univ_inter,
    Finset.filter_not, Finset.filter_mem_eq_inter, Finset.univ_inter, ← Finset.compl_eq_univ_sdiff,
    Finset.card_compl, Fintype.card_fin]

/-- C114 is false for a mutation that is switched off: with `p_m = 0` a child of `n` bits stays as it is
with probability `((N - 1) / N)^n` only, as `rand()` may be zero. -/
theorem C114_off_violated (N n : ℕ) [NeZero N] (hn : 1 ≤ n) (child : List ℤ) (hlen : child.length = n)
    (hbits : ∀ b ∈ child, b = 0 ∨ b = 1) :
    (PMF.uniformOfFintype (Fin n → Fin N)).toOuterMeasure
        {u | mutate (0 : K) (List.ofFn fun i => ((u i).val : K) / N) child = child} =
      (((N - 1) ^ n : ℕ) : ℝ≥0∞) / (N ^ n : ℕ) ∧ (N - 1) ^ n < N ^ n := by
  have hN := Nat.pos_of_ne_zero (NeZero.ne N)
  refine ⟨?_, Nat.pow_lt_pow_left (by omega) (by omega)⟩
  have := C114_mutation N n (0 : K) 1 (by omega) (by simp) (by simp) child hlen hbits ∅
  have hch : (List.ofFn fun i : Fin n => child[i.val]) = child := by
    subst hlen
    exact List.ofFn_getElem
  simpa [hch] using this

end

/-! ### Examples -/

section Demo

/-- an `argsort` that the kernel can evaluate -/
def insArgsort (l : List ℕ) : List ℕ :=
  (List.range l.length).insertionSort fun i j => l.getD i 0 ≤ l.getD j 0

theorem insArgsort_ok : IsArgsort insArgsort := by
  intro l
  refine ⟨List.perm_insertionSort _ _, ?_⟩
  rw [List.pairwise_map]
  have : Std.Total (fun i j : ℕ => l.getD i 0 ≤ l.getD j 0) := ⟨fun a b => le_total _ _⟩
  have : IsTrans ℕ (fun i j : ℕ => l.getD i 0 ≤ l.getD j 0) := ⟨fun a b c => le_trans⟩
  refine (List.pairwise_insertionSort (fun i j => l.getD i 0 ≤ l.getD j 0) (List.range l.length)).imp ?_
  intro a b hab x hx y hy
  rw [Option.mem_def] at hx hy
  simpa [List.getD_eq_getElem?_getD, hx, hy] using hab

instance : Nonempty (Fin 3 ↪ Fin 7) := ⟨Fin.castLEEmb (by decide)⟩

theorem take3 : ∀ tour ∈ (PMF.pure (fun (_ : ℕ) (w : List ℕ) => w.take 3)).support, ∀ i, IsTourChoice (tour i) := by
  intro tour h i w hw hl
  rw [PMF.support_pure, Set.mem_singleton_iff] at h
  subst h
  exact ⟨by simp; omega, hw.sublist (List.take_sublist _ _), fun a ha => List.take_subset _ _ ha⟩

/-- Eight members with the values 5, 3, 1, 4, 2, 6, 8, 7, the best one is the elite: in the second
tournament one of the worst three of the seven others wins with probability 6 / 210. -/
example := C114_tournament insArgsort insArgsort_ok 8 (.int 1) true [5, 3, 1, 4, 2, 6, 8, 7] rfl
  (by simp [Accepted]) (by simp) [2] [4, 1, 3, 0, 5, 7, 6] (by rfl) 7 rfl 1 (by decide)
  (PMF.pure fun _ w => w.take 3) take3 {5, 6, 7} (by decide)
  (by
    have : ∀ i ∈ ({5, 6, 7} : Finset ℕ), ∀ j ∈ [4, 1, 3, 0, 5, 7, 6], j ∉ ({5, 6, 7} : Finset ℕ) →
        ∃ x y, ([5, 3, 1, 4, 2, 6, 8, 7] : List ℕ)[i]? = some x ∧
          ([5, 3, 1, 4, 2, 6, 8, 7] : List ℕ)[j]? = some y ∧ y < x := by
      intro i hi j hj hn
      simp only [Finset.mem_insert, Finset.mem_singleton, List.mem_cons, List.not_mem_nil, or_false] at hi hj
      rcases hi with rfl | rfl | rfl <;> rcases hj with rfl | rfl | rfl | rfl | rfl | rfl | rfl <;>
        first | exact absurd (by decide) hn | exact ⟨_, _, rfl, rfl, by decide⟩
    intro i hi j hj hn x y hx hy
    obtain ⟨x', y', h1, h2, h3⟩ := this i hi j hj hn
    rw [hx] at h1
    rw [hy] at h2
    cases h1
    cases h2
    simpa [Beats] using h3)

/-- The member with the value 4 beats four of the seven others. -/
example := C114_chance insArgsort insArgsort_ok 8 (.int 1) true [5, 3, 1, 4, 2, 6, 8, 7] rfl
  (by simp [Accepted]) (by simp) [2] [4, 1, 3, 0, 5, 7, 6] (by rfl) 7 rfl 1 (by decide)
  (PMF.pure fun _ w => w.take 3) take3 3 (by decide) 4 rfl {0, 5, 6, 7}
  (by
    intro i
    by_cases hi : i < 8
    · interval_cases i <;> simp [Beats]
    · have h1 : ([5, 3, 1, 4, 2, 6, 8, 7] : List ℕ)[i]? = none := List.getElem?_eq_none (by simp; omega)
      simp only [h1, Finset.mem_insert, Finset.mem_singleton]
      simp
      omega)
  (by
    intro i hi hia hib x hx
    simp only [List.mem_cons, List.not_mem_nil, or_false] at hi
    rcases hi with rfl | rfl | rfl | rfl | rfl | rfl | rfl <;>
      first
        | exact absurd rfl hia
        | exact absurd (by decide) hib
        | (simp only [List.getElem?_cons_succ, List.getElem?_cons_zero, Option.some.injEq] at hx
           subst hx; simp [Beats]))

/-- The member with the value 4 wins at least as often as the one with the value 6. -/
example := C114_better insArgsort insArgsort_ok 8 (.int 1) true [5, 3, 1, 4, 2, 6, 8, 7] rfl
  (by simp [Accepted]) (by simp) [2] [4, 1, 3, 0, 5, 7, 6] (by rfl) 7 rfl 1 (by decide)
  (PMF.pure fun _ w => w.take 3) take3 3 5 (by decide) (by decide) 4 6 rfl rfl (by simp [Beats])

/-- Of six parents, number 1 and number 4 become a pair with probability 1 / 5. -/
example := C114_pairs 3 (by decide) 1 4 (by decide) (by decide) (by decide) 7 (by decide)
  (Finset.card_pos.mp (pairDraws_pos 3))

/-- Two variables of four bits each: 3 + 2 * 10 / 15 and 0 + 15 * 1 / 15. -/
example := C114_start (K := ℚ) 8 2 4 (by decide) [(3, 13), (0, 1)] rfl (by simp; norm_num)
  (fun g => List.replicate 8 (List.ofFn fun i => if g i then 1 else 0)) 5 (by simp)
  (by intro g r hr; rw [List.eq_of_mem_replicate hr]; simp) (by simp) [3 + 2 * (13 - 3) / (2 ^ 4 - 1), 0 + 15 * (1 - 0) / (2 ^ 4 - 1)]
  (by
    refine ⟨rfl, fun d hd => ?_⟩
    have hd' : d < 2 := hd
    interval_cases d
    · exact ⟨2, by norm_num, by simp⟩
    · exact ⟨15, by norm_num, by simp⟩)

instance : NeZero (2 ^ 53) := ⟨by positivity⟩

/-- `p_m = 0.1` as a float is 3602879701896397 / 2^55: 900719925474100 of the 2^53 numbers are not greater. -/
example := C114_mutation (K := ℚ) (2 ^ 53) 4 (3602879701896397 / 2 ^ 55) 900719925474100 (by norm_num)
  (by norm_num) (by norm_num) [1, 0, 0, 1] rfl (by decide) {0, 3}

example := C114_off_violated (K := ℚ) (2 ^ 53) 4 (by decide) [1, 0, 0, 1] rfl (by decide)

end Demo

end Verif.GALaws.Props
