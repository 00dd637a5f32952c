import Verif.Model.GAChance
import Verif.Proofs.BGARun
import Mathlib.Analysis.SpecificLimits.Basic

set_option linter.unusedSectionVars false

namespace Verif.GAChance
open Verif Verif.GA Verif.BGA
open scoped ENNReal

/-! ### probabilities -/

section Pr
variable {α β : Type}

theorem pr_bind_ge (p : PMF α) (f : α → PMF β) (s : Set β) (b : Set α) (c : ℝ≥0∞)
    (h : ∀ a ∈ p.support, a ∈ b → c ≤ (f a).toOuterMeasure s) :
    p.toOuterMeasure b * c ≤ (p.bind f).toOuterMeasure s := by
  rw [PMF.toOuterMeasure_bind_apply, PMF.toOuterMeasure_apply, ← ENNReal.tsum_mul_right]
  apply ENNReal.tsum_le_tsum
  intro a
  by_cases ha : a ∈ b
  · rw [Set.indicator_of_mem ha]
    by_cases hp : p a = 0
    · simp [hp]
    · gcongr
      exact h a ((PMF.mem_support_iff _ _).2 hp) ha
  · simp [ha]

theorem pr_bind_le (p : PMF α) (f : α → PMF β) (s : Set β) (b : Set α) (c : ℝ≥0∞)
    (h0 : ∀ a ∈ p.support, a ∉ b → (f a).toOuterMeasure s = 0)
    (h : ∀ a ∈ p.support, a ∈ b → (f a).toOuterMeasure s ≤ c) :
    (p.bind f).toOuterMeasure s ≤ p.toOuterMeasure b * c := by
  rw [PMF.toOuterMeasure_bind_apply, PMF.toOuterMeasure_apply, ← ENNReal.tsum_mul_right]
  apply ENNReal.tsum_le_tsum
  intro a
  by_cases hp : p a = 0
  · simp [hp]
  · have hs := (PMF.mem_support_iff p a).2 hp
    by_cases ha : a ∈ b
    · rw [Set.indicator_of_mem ha]
      gcongr
      exact h a hs ha
    · simp [ha, h0 a hs ha]

theorem pr_univ (p : PMF α) : p.toOuterMeasure Set.univ = 1 := by
  rw [PMF.toOuterMeasure_apply]; simp

theorem pr_le_one (p : PMF α) (s : Set α) : p.toOuterMeasure s ≤ 1 := by
  rw [← pr_univ p]; exact p.toOuterMeasure.mono (Set.subset_univ s)

theorem pr_compl (p : PMF α) (s : Set α) :
    p.toOuterMeasure s + p.toOuterMeasure sᶜ = 1 := by
  rw [PMF.toOuterMeasure_apply, PMF.toOuterMeasure_apply, ← ENNReal.tsum_add, ← p.tsum_coe]
  congr 1
  funext a
  by_cases h : a ∈ s <;> simp [h]

theorem pr_compl_le (p : PMF α) (s : Set α) (c : ℝ≥0∞) (h : c ≤ p.toOuterMeasure s) :
    p.toOuterMeasure sᶜ ≤ 1 - c := by
  have h1 := pr_compl p s
  have hne : c ≠ ⊤ := ne_top_of_le_ne_top ENNReal.one_ne_top (h.trans (pr_le_one p s))
  refine ENNReal.le_sub_of_add_le_left hne ?_
  rw [← h1]
  gcongr

theorem draws_support {law : List α → PMF α} : ∀ {k : ℕ} {as : List α},
    as ∈ (draws law k).support →
      as.length = k ∧ ∀ i (h : i < as.length), as[i] ∈ (law (as.take i)).support := by
  intro k
  induction k with
  | zero => intro as h; simp [draws] at h; simp [h]
  | succ k ih =>
    intro as h
    simp only [draws, PMF.mem_support_bind_iff, PMF.support_map, Set.mem_image] at h
    obtain ⟨bs, hbs, a, ha, rfl⟩ := h
    obtain ⟨hl, hm⟩ := ih hbs
    refine ⟨by simp [hl], fun i hi => ?_⟩
    simp only [List.length_append, List.length_cons, List.length_nil] at hi
    by_cases hik : i < bs.length
    · rw [List.getElem_append_left hik, List.take_append_of_le_length hik.le]
      exact hm i hik
    · have : i = bs.length := by omega
      subst this
      simpa using ha

theorem pr_map (p : PMF α) (f : α → β) (s : Set β) :
    (p.map f).toOuterMeasure s = p.toOuterMeasure (f ⁻¹' s) :=
  PMF.toOuterMeasure_map_apply f p s

end Pr

variable {K : Type} [Field K] [LinearOrder K]

/-- the smaller one of the probabilities of keeping and of flipping a bit -/
noncomputable def rate (unit : PMF K) (p_m : K) : ℝ≥0∞ :=
  min (unit.toOuterMeasure {u | u > p_m}) (unit.toOuterMeasure {u | ¬ u > p_m})

theorem mutate_hits (unit : PMF K) (p_m : K) : ∀ (n : ℕ) (c g : List ℤ), IsBits n c → IsBits n g →
    rate unit p_m ^ n ≤ (draws (fun _ => unit) n).toOuterMeasure {m | mutate p_m m c = g} := by
  intro n
  induction n with
  | zero =>
    intro c g hc hg
    have h1 : c = [] := List.length_eq_zero_iff.mp hc.1
    have h2 : g = [] := List.length_eq_zero_iff.mp hg.1
    subst h1 h2
    have : {m : List K | mutate p_m m [] = []} = Set.univ := by ext m; simp [mutate]
    rw [this, pr_univ]; simp
  | succ n ih =>
    intro c g hc hg
    have hcne : c ≠ [] := by intro h; have := hc.1; simp [h] at this
    have hgne : g ≠ [] := by intro h; have := hg.1; simp [h] at this
    obtain ⟨c', x, rfl⟩ : ∃ c' x, c = c' ++ [x] := ⟨_, _, (List.dropLast_append_getLast hcne).symm⟩
    obtain ⟨g', y, rfl⟩ : ∃ g' y, g = g' ++ [y] := ⟨_, _, (List.dropLast_append_getLast hgne).symm⟩
    have hc' : IsBits n c' := ⟨by have := hc.1; simp at this; exact this, fun b hb => hc.2 b (by simp [hb])⟩
    have hg' : IsBits n g' := ⟨by have := hg.1; simp at this; exact this, fun b hb => hg.2 b (by simp [hb])⟩
    have hx := hc.2 x (by simp)
    have hy := hg.2 y (by simp)
    rw [pow_succ]
    refine le_trans (mul_le_mul_left (ih c' g' hc' hg') _) ?_
    simp only [draws]
    refine pr_bind_ge _ _ _ _ _ ?_
    intro as hs has
    have hl := (draws_support hs).1
    rw [pr_map]
    have hm : ∀ a, mutate p_m (as ++ [a]) (c' ++ [x]) = g' ++ [if a > p_m then x else 1 - x] := by
      intro a
      have has' : mutate p_m as c' = g' := has
      unfold mutate at has' ⊢
      rw [List.zipWith_append (by rw [hl, hc'.1]), has']
      rfl
    by_cases hxy : x = y
    · refine le_trans (min_le_left _ _) (unit.toOuterMeasure.mono ?_)
      intro a ha
      have ha' : a > p_m := ha
      show mutate p_m (as ++ [a]) (c' ++ [x]) = g' ++ [y]
      rw [hm, if_pos ha', hxy]
    · refine le_trans (min_le_right _ _) (unit.toOuterMeasure.mono ?_)
      intro a ha
      have ha' : ¬ a > p_m := ha
      have : 1 - x = y := by
        rcases hx with rfl | rfl <;> rcases hy with rfl | rfl <;> simp_all
      show mutate p_m (as ++ [a]) (c' ++ [x]) = g' ++ [y]
      rw [hm, if_neg ha', this]

/-! ### the first child -/

theorem offspringLoop_prefix {p_c p_m : K} {n nPop : ℕ} {cross : ℕ → CrossDraw K}
    {parents : List (List ℤ)} : ∀ (pairs : List (ℕ × ℕ)) (i : ℕ) (off r : List (List ℤ)),
      offspringLoop p_c p_m n nPop cross parents i pairs off = .ok r → off <+: r := by
  intro pairs
  induction pairs with
  | nil =>
    intro i off r h
    simp only [offspringLoop] at h
    split at h
    · simp at h
    · cases h; exact List.prefix_refl _
  | cons pr pairs ih =>
    intro i off r h
    obtain ⟨a, b⟩ := pr
    simp only [offspringLoop] at h
    split at h
    · cases h1 : pyGet parents a with
      | error e => simp [h1, bind, Except.bind] at h
      | ok g1 =>
        cases h2 : pyGet parents b with
        | error e => simp [h1, h2, bind, Except.bind] at h
        | ok g2 =>
          cases h3 : crossover p_c p_m n (cross i) g1 g2 with
          | error e => simp [h1, h2, h3, bind, Except.bind] at h
          | ok c =>
            simp only [h1, h2, h3, bind, Except.bind] at h
            exact (List.prefix_append _ _).trans (ih _ _ _ h)
    · cases h; exact List.prefix_refl _

theorem crossover_first {p_c p_m : K} {n : ℕ} (hn : 3 ≤ n) {d : CrossDraw K}
    (hd : IsCrossDraw n d) {p1 p2 : List ℤ} (h1 : IsBits n p1) (h2 : IsBits n p2) :
    ∃ c, IsBits n c ∧ ∀ (u : K) (m : List K), ¬ u > p_c →
      ∃ c2, crossover p_c p_m n { d with skip := u, mut1 := m } p1 p2 = .ok (mutate p_m m c, c2) := by
  obtain ⟨c1, c2, hc, l1, l2, hget⟩ :=
    recombine_spec hn hd.nodup hd.range (decide (d.coin > 1 / 2)) h1.1 h2.1
  refine ⟨c1, ?_, fun u m hu => ⟨mutate p_m d.mut2 c2, ?_⟩⟩
  · rw [isBits_iff] at h1 h2 ⊢
    refine ⟨l1, fun j hj => ?_⟩
    rw [(hget j hj).1]
    split
    · exact h1.2 j hj
    · exact h2.2 j hj
  · unfold crossover
    rw [if_neg hu, if_neg (by simp [h1.1, h2.1])]
    simp only [hc]

theorem withFirst_ok {n : ℕ} {D : CycleDraws K} (hD : IsCycleDraws n D) (u : K) {m : List K}
    (hm : m.length = n) : IsCycleDraws n (withFirst D u m) := by
  refine ⟨hD.tour, hD.pair, fun i => ?_⟩
  simp only [withFirst]
  split
  · have := hD.cross 0
    exact ⟨this.count, this.nodup, this.range, hm, this.mut2⟩
  · exact hD.cross i

/-- the first child of a generation is a bit string that does not depend on the number
drawn for crossing the first pair nor on those for its mutation, mutated with the latter -/
theorem breed_first {cfg : Config K} {argsort : List K → List ℕ} (ha : IsArgsort argsort)
    {D : CycleDraws K} (hD : IsCycleDraws (cfg.dim * cfg.length) D)
    (hN4 : 4 ∣ cfg.nPop) (hN8 : 8 ≤ cfg.nPop) (hn : 3 ≤ cfg.dim * cfg.length)
    (hel : Workable cfg.nPop cfg.elitism)
    {gs : List (List ℤ)} (hgl : gs.length = cfg.nPop)
    (hgb : ∀ g ∈ gs, IsBits (cfg.dim * cfg.length) g) {f : List K} (hf : f.length = cfg.nPop) :
    ∃ c, IsBits (cfg.dim * cfg.length) c ∧ ∀ (u : K) (m : List K), ¬ u > cfg.p_c →
      ∀ gs', breed cfg argsort (withFirst D u m) gs f = .ok gs' → mutate cfg.p_m m c ∈ gs' := by
  have hlt := hel.count_lt (by omega)
  obtain ⟨more, h1, h2, h3⟩ := selectIds_ok ha (m := cfg.minimize) hD.tour hf hel.notNone
    (fun k hk => (hel.int k hk).1) (fun q hq => (hel.float q hq).2) (by omega)
  have hperm := dirSort_perm ha cfg.minimize f
  have hids : ∀ i ∈ (dirSort argsort cfg.minimize f).take (eliteCount cfg.nPop cfg.elitism) ++ more,
      i < gs.length := by
    intro i hi
    rcases List.mem_append.mp hi with h | h
    · have := List.take_subset _ _ h
      rw [hperm.mem_iff, List.mem_range] at this
      omega
    · obtain ⟨t, ht⟩ := List.mem_iff_getElem?.mp h
      have := (h3 t i ht).2.1
      omega
  have hrows := pyGets_rows hids
  set ids := (dirSort argsort cfg.minimize f).take (eliteCount cfg.nPop cfg.elitism) ++ more with hidsdef
  have hidl : ids.length = max (eliteCount cfg.nPop cfg.elitism) (cfg.nPop / 2) := by
    rw [hidsdef, List.length_append, List.length_take, hperm.length_eq, List.length_range, h2, hf]
    omega
  have hpb : ∀ g ∈ ids.map (fun i => gs.getD i []), IsBits (cfg.dim * cfg.length) g := by
    intro g hg
    obtain ⟨i, hi, rfl⟩ := List.mem_map.mp hg
    have := hids i hi
    rw [List.getD_eq_getElem?_getD, List.getElem?_eq_getElem this]
    exact hgb _ (List.getElem_mem this)
  have hev : Even (max (eliteCount cfg.nPop cfg.elitism) (cfg.nPop / 2)) := by
    rcases hel.parity with h | h
    · rw [max_eq_right h]; obtain ⟨q, hq⟩ := hN4; exact ⟨q, by omega⟩
    · rcases max_cases (eliteCount cfg.nPop cfg.elitism) (cfg.nPop / 2) with ⟨h', -⟩ | ⟨h', -⟩
      · rw [h']; exact h
      · rw [h']; obtain ⟨q, hq⟩ := hN4; exact ⟨q, by omega⟩
  generalize hpar : ids.map (fun i => gs.getD i []) = parents at *
  have hpl : parents.length = max (eliteCount cfg.nPop cfg.elitism) (cfg.nPop / 2) := by
    rw [← hpar, List.length_map, hidl]
  obtain ⟨ps, hps, hpsl, hpsb⟩ := parentPositions_ok hD.pair (n := parents.length)
    (by rw [hpl]; exact hev) (by rw [hpl]; omega)
  cases ps with
  | nil => simp at hpsl; omega
  | cons pr ps =>
    obtain ⟨a, b⟩ := pr
    obtain ⟨hA, hB⟩ := hpsb (a, b) (by simp)
    simp only at hA hB
    obtain ⟨c, hcb, hc⟩ := crossover_first (p_c := cfg.p_c) (p_m := cfg.p_m) hn (hD.cross 0)
      (hpb _ (List.getElem_mem hA)) (hpb _ (List.getElem_mem hB))
    refine ⟨c, hcb, fun u m hu gs' hb => ?_⟩
    obtain ⟨c2, hcr⟩ := hc u m hu
    have htour : (withFirst D u m).tour = D.tour := rfl
    have hpair : (withFirst D u m).pair = D.pair := rfl
    have hcross : (withFirst D u m).cross 0 = { D.cross 0 with skip := u, mut1 := m } := rfl
    unfold breed at hb
    rw [htour, h1] at hb
    simp only at hb
    rw [hrows] at hb
    simp only at hb
    unfold populateFrom at hb
    rw [if_pos (by rw [hpl]; omega), hpair, hps] at hb
    simp only at hb
    split at hb
    · rename_i off hoff
      cases hb
      simp only [offspringLoop] at hoff
      rw [if_pos (by simp only [List.length_nil]; omega), pyGet_ok hA, pyGet_ok hB, hcross] at hoff
      simp only [bind, Except.bind, hcr] at hoff
      have := offspringLoop_prefix _ _ _ _ hoff
      exact List.mem_append_right _ (this.subset (by simp))
    · simp at hb

/-! ### the champion -/

/-- no bit string decodes to a point with a better objective value than the champion's -/
def Optimal (cfg : Config K) (fnc : List K → Py K) (s : Ga (List ℤ) (List K) K) : Prop :=
  ∃ c, s.champion = some c ∧ ∀ g, IsBits (cfg.dim * cfg.length) g → ∀ y,
    fnc (decodeRow cfg.dim cfg.length cfg.ranges g) = .ok y → betterThan cfg.minimize y c.fitness = false

theorem celebrate_champion {G X : Type*} (m : Bool) (s : Ga G X K) (c : Genom G X K) :
    ∃ d, (celebrate m s c).champion = some d ∧ betterThan m c.fitness d.fitness = false ∧
      ∀ b, s.champion = some b → betterThan m b.fitness d.fitness = false := by
  cases hs : s.champion with
  | none =>
    refine ⟨_, rfl, ?_, by simp⟩
    simp only [hs]; exact betterThan_irrefl _ _
  | some b =>
    refine ⟨_, rfl, ?_, ?_⟩
    · simp only [hs]
      cases hb : betterThan m c.fitness b.fitness with
      | true => simp [betterThan_irrefl]
      | false => simp [hb]
    · intro b' h
      cases h
      simp only [hs]
      cases hb : betterThan m c.fitness b.fitness with
      | true => simp [betterThan_asymm hb]
      | false => simp [betterThan_irrefl]

theorem evolve1_optimal {cfg : Config K} {fnc : List K → Py K}
    {breed : List (List ℤ) → List K → Py (List (List ℤ))} {s t : Ga (List ℤ) (List K) K}
    (hs : Consistent (problem cfg fnc) s) (he : evolve1 (problem cfg fnc) breed s = (.ok (), t))
    (ho : Optimal cfg fnc s) : Optimal cfg fnc t := by
  obtain ⟨s1, c, -, -, -, -, -, -, -, -, -, u, -, hu, rfl⟩ := evolve1_ok hs he
  obtain ⟨b, hb, hbest⟩ := ho
  obtain ⟨d, hd, -, hdb⟩ := celebrate_champion (problem cfg fnc).minimize u c
  refine ⟨d, hd, fun g hg y hy => ?_⟩
  exact not_betterThan_trans (hbest g hg y hy) (hdb b (by rw [hu, hb]))

theorem evolve1_hits {cfg : Config K} {fnc : List K → Py K}
    {breed : List (List ℤ) → List K → Py (List (List ℤ))} {s t : Ga (List ℤ) (List K) K}
    (hs : Consistent (problem cfg fnc) s) (he : evolve1 (problem cfg fnc) breed s = (.ok (), t))
    (hg : Good cfg t.genotypes) {g : List ℤ} (hgt : g ∈ t.genotypes) {v : K}
    (hv : fnc (decodeRow cfg.dim cfg.length cfg.ranges g) = .ok v)
    (hbest : ∀ g', IsBits (cfg.dim * cfg.length) g' → ∀ y,
      fnc (decodeRow cfg.dim cfg.length cfg.ranges g') = .ok y → betterThan cfg.minimize y v = false) :
    Optimal cfg fnc t := by
  obtain ⟨s1, c, -, -, -, -, -, -, -, -, hnb, u, -, hu, rfl⟩ := evolve1_ok hs he
  have h1 := hnb _ (good_decode hg fnc) _ (List.mem_map_of_mem hgt) v hv
  obtain ⟨d, hd, hcd, -⟩ := celebrate_champion (problem cfg fnc).minimize u c
  refine ⟨d, hd, fun g' hg' y hy => ?_⟩
  exact not_betterThan_trans (not_betterThan_trans (hbest g' hg' y hy) h1) hcd

/-- the champion is recorded in the state, it is a decoded bit string with its objective value -/
def Recorded (cfg : Config K) (fnc : List K → Py K) (s : Ga (List ℤ) (List K) K) : Prop :=
  ∀ c, s.champion = some c → s.state.x = some c.phenotype ∧ s.state.fn = some c.fitness ∧
    fnc c.phenotype = .ok c.fitness ∧ ∃ g, IsBits (cfg.dim * cfg.length) g ∧
      c.phenotype = decodeRow cfg.dim cfg.length cfg.ranges g

theorem evolve1_recorded {cfg : Config K} {fnc : List K → Py K}
    {breed : List (List ℤ) → List K → Py (List (List ℤ))} {s t : Ga (List ℤ) (List K) K}
    (hs : Consistent (problem cfg fnc) s) (he : evolve1 (problem cfg fnc) breed s = (.ok (), t))
    (hg : Good cfg t.genotypes) (hr : Recorded cfg fnc s) : Recorded cfg fnc t := by
  obtain ⟨s1, c, -, -, -, -, -, -, -, hm, -, u, -, hu, rfl⟩ := evolve1_ok hs he
  obtain ⟨j, xs, m1, m2, m3, m4⟩ := hm
  rw [good_decode hg fnc] at m1; cases m1
  rw [List.getElem?_map, m2] at m3
  simp only [Option.map_some, Option.some.injEq] at m3
  have hcg := hg.2 _ (List.mem_of_getElem? m2)
  have hnew : fnc c.phenotype = .ok c.fitness ∧ ∃ g, IsBits (cfg.dim * cfg.length) g ∧
      c.phenotype = decodeRow cfg.dim cfg.length cfg.ranges g := ⟨m4, _, hcg, m3.symm⟩
  intro d hd
  cases hc : u.champion with
  | none =>
    simp only [celebrate, hc, Option.some.injEq] at hd ⊢
    subst hd
    exact ⟨rfl, rfl, hnew⟩
  | some b =>
    have hb := hr b (by rw [← hu, hc])
    simp only [celebrate, hc, Option.some.injEq] at hd ⊢
    subst hd
    refine ⟨rfl, rfl, ?_⟩
    split
    · exact hnew
    · exact hb.2.2

omit [Field K] in
theorem exists_best {ι : Type} (m : Bool) (f : ι → K) (l : List ι) (hl : l ≠ []) :
    ∃ i ∈ l, ∀ j ∈ l, betterThan m (f j) (f i) = false := by
  induction l with
  | nil => exact absurd rfl hl
  | cons a l ih =>
    by_cases hl' : l = []
    · subst hl'
      refine ⟨a, by simp, fun j hj => ?_⟩
      simp only [List.mem_singleton] at hj
      subst hj; exact betterThan_irrefl _ _
    · obtain ⟨i, hi, hb⟩ := ih hl'
      cases h : betterThan m (f a) (f i) with
      | true =>
        refine ⟨a, by simp, fun j hj => ?_⟩
        rcases List.mem_cons.mp hj with rfl | hj
        · exact betterThan_irrefl _ _
        · exact not_betterThan_trans (hb j hj) (betterThan_asymm h)
      | false =>
        refine ⟨i, by simp [hi], fun j hj => ?_⟩
        rcases List.mem_cons.mp hj with rfl | hj
        · exact h
        · exact hb j hj

/-- all bit strings -/
def allBits : ℕ → List (List ℤ)
  | 0 => [[]]
  | n + 1 => (allBits n).flatMap fun g => [0 :: g, 1 :: g]

theorem mem_allBits {n : ℕ} {g : List ℤ} : g ∈ allBits n ↔ IsBits n g := by
  induction n generalizing g with
  | zero => simp [allBits, IsBits]; rintro rfl; simp
  | succ n ih =>
    simp only [allBits, List.mem_flatMap, List.mem_cons, List.not_mem_nil, or_false]
    constructor
    · rintro ⟨g', hg', rfl | rfl⟩
      · have := ih.mp hg'
        refine ⟨by simp [this.1], fun b hb => ?_⟩
        rcases List.mem_cons.mp hb with rfl | hb
        · simp
        · exact this.2 b hb
      · have := ih.mp hg'
        refine ⟨by simp [this.1], fun b hb => ?_⟩
        rcases List.mem_cons.mp hb with rfl | hb
        · simp
        · exact this.2 b hb
    · intro h
      cases g with
      | nil => have := h.1; simp at this
      | cons b g =>
        refine ⟨g, ih.mpr ⟨by have := h.1; simpa using this, fun b' hb => h.2 b' (by simp [hb])⟩, ?_⟩
        rcases h.2 b (by simp) with rfl | rfl <;> simp

/-- there is an optimal bit string -/
theorem exists_optimum (cfg : Config K) {fnc : List K → Py K} (hfnc : ∀ x, ∃ y, fnc x = .ok y) :
    ∃ g v, IsBits (cfg.dim * cfg.length) g ∧ fnc (decodeRow cfg.dim cfg.length cfg.ranges g) = .ok v ∧
      ∀ g', IsBits (cfg.dim * cfg.length) g' → ∀ y,
        fnc (decodeRow cfg.dim cfg.length cfg.ranges g') = .ok y → betterThan cfg.minimize y v = false := by
  choose F hF using hfnc
  have hne : allBits (cfg.dim * cfg.length) ≠ [] := by
    intro h
    have : List.replicate (cfg.dim * cfg.length) (0 : ℤ) ∈ allBits (cfg.dim * cfg.length) :=
      mem_allBits.mpr ⟨by simp, fun b hb => Or.inl (List.eq_of_mem_replicate hb)⟩
    rw [h] at this; simp at this
  obtain ⟨g, hg, hb⟩ := exists_best cfg.minimize
    (fun g => F (decodeRow cfg.dim cfg.length cfg.ranges g)) _ hne
  refine ⟨g, _, mem_allBits.mp hg, hF _, fun g' hg' y hy => ?_⟩
  rw [hF] at hy; cases hy
  exact hb g' (mem_allBits.mpr hg')

/-! ### a run -/

theorem cycles_congr {G X : Type*} {pb : Problem G X K} {b b' : ℕ → List G → List K → Py (List G)} :
    ∀ (k : ℕ) (s : Ga G X K), (∀ i, i < k → b i = b' i) → cycles pb b k s = cycles pb b' k s := by
  intro k
  induction k with
  | zero => intro s _; rfl
  | succ k ih =>
    intro s h
    simp only [cycles]
    rw [ih s (fun i hi => h i (by omega)), h k (by omega)]

theorem breedAt_append {cfg : Config K} {argsort : List K → List ℕ} {Ds : List (CycleDraws K)}
    {D : CycleDraws K} {i : ℕ} (h : i < Ds.length) :
    breedAt cfg argsort (Ds ++ [D]) i = breedAt cfg argsort Ds i := by
  funext a b
  simp only [breedAt, List.getElem?_append_left h]

theorem breedAt_last {cfg : Config K} {argsort : List K → List ℕ} {Ds : List (CycleDraws K)}
    {D : CycleDraws K} : breedAt cfg argsort (Ds ++ [D]) Ds.length = breed cfg argsort D := by
  funext a b
  simp [breedAt]

/-- the probability of hitting an optimum in one generation is at least this -/
noncomputable def chance (unit : PMF K) (cfg : Config K) : ℝ≥0∞ :=
  unit.toOuterMeasure {u | ¬ u > cfg.p_c} * rate unit cfg.p_m ^ (cfg.dim * cfg.length)

section Run
variable {cfg : Config K} {argsort : List K → List ℕ} (ha : IsArgsort argsort)
  (hN4 : 4 ∣ cfg.nPop) (hN8 : 8 ≤ cfg.nPop) (hn : 3 ≤ cfg.dim * cfg.length)
  (hel : Workable cfg.nPop cfg.elitism) {fnc : List K → Py K} (hfnc : ∀ x, ∃ y, fnc x = .ok y)
  (unit : PMF K)
include ha hN4 hN8 hn hel hfnc

theorem step_hits (D : CycleDraws K) (hD : IsCycleDraws (cfg.dim * cfg.length) D)
    {s : Ga (List ℤ) (List K) K} (hs : RunInv cfg fnc s) (hp : s.phase = .running) :
    chance unit cfg ≤ (unit.bind fun u => (draws (fun _ => unit) (cfg.dim * cfg.length)).map
        fun m => withFirst D u m).toOuterMeasure
      {D' | ∃ t, evolve1 (problem cfg fnc) (breed cfg argsort D') s = (.ok (), t) ∧ Optimal cfg fnc t} := by
  obtain ⟨g, v, hg, hv, hbest⟩ := exists_optimum cfg hfnc
  obtain ⟨ys, hy⟩ := pyMap_total hfnc (s.genotypes.map (decodeRow cfg.dim cfg.length cfg.ranges))
  have hyl : ys.length = cfg.nPop := by
    rw [← (pyMap_eq_ok_iff.mp hy).length_eq, List.length_map, hs.good.1]
  obtain ⟨c, hcb, hc⟩ := breed_first ha hD hN4 hN8 hn hel hs.good.1 hs.good.2 hyl
  refine pr_bind_ge _ _ _ _ _ fun u _ hu => ?_
  rw [pr_map]
  refine le_trans (mutate_hits unit cfg.p_m _ c g hcb hg) ?_
  -- only lists in the support matter
  have key : ∀ m, m.length = cfg.dim * cfg.length → mutate cfg.p_m m c = g →
      ∃ t, evolve1 (problem cfg fnc) (breed cfg argsort (withFirst D u m)) s = (.ok (), t) ∧
        Optimal cfg fnc t := by
    intro m hm hmg
    obtain ⟨t, ht, hti, -⟩ := evolve1_runInv ha (withFirst_ok hD u hm) hN4 hN8 hn hel hfnc hs
    obtain ⟨s1, c', hnx, -, -, htg, -⟩ := evolve1_ok hs.cons ht
    obtain ⟨xs2, ys2, gs2, e1, e2, e3, e4, -, -⟩ := nextEvolver_running hs.cons hp hnx
    rw [good_decode hs.good fnc] at e1; cases e1
    have e2' : pyMap fnc _ = _ := e2
    rw [hy] at e2'; cases e2'
    have := hc u m hu gs2 e3
    refine ⟨t, ht, evolve1_hits hs.cons ht hti.good (g := g) ?_ hv hbest⟩
    rw [htg, e4, ← hmg]; exact this
  refine PMF.toOuterMeasure_mono _ ?_
  rintro m ⟨hm, hms⟩
  exact key m (draws_support hms).1 hm

/-- the failures of one generation -/
theorem step_fails (rest : PMF (CycleDraws K))
    (hrest : ∀ D ∈ rest.support, IsCycleDraws (cfg.dim * cfg.length) D)
    {s : Ga (List ℤ) (List K) K} (hs : RunInv cfg fnc s) (hp : s.phase = .running) :
    (cycleLaw unit (cfg.dim * cfg.length) rest).toOuterMeasure
      {D' | ∃ t, evolve1 (problem cfg fnc) (breed cfg argsort D') s = (.ok (), t) ∧ Optimal cfg fnc t}ᶜ
        ≤ 1 - chance unit cfg := by
  apply pr_compl_le
  have := pr_bind_ge rest (fun D => unit.bind fun u =>
    (draws (fun _ => unit) (cfg.dim * cfg.length)).map fun m => withFirst D u m)
    {D' | ∃ t, evolve1 (problem cfg fnc) (breed cfg argsort D') s = (.ok (), t) ∧ Optimal cfg fnc t}
    Set.univ (chance unit cfg)
    (fun D hD _ => step_hits ha hN4 hN8 hn hel hfnc unit D (hrest D hD) hs hp)
  rw [pr_univ, one_mul] at this
  exact this

omit ha hN4 hN8 hn hel hfnc in
theorem cycleLaw_support {n : ℕ} {rest : PMF (CycleDraws K)}
    (hrest : ∀ D ∈ rest.support, IsCycleDraws n D) :
    ∀ D ∈ (cycleLaw unit n rest).support, IsCycleDraws n D := by
  intro D hD
  simp only [cycleLaw, PMF.mem_support_bind_iff, PMF.support_map, Set.mem_image] at hD
  obtain ⟨D0, hD0, u, -, m, hm, rfl⟩ := hD
  exact withFirst_ok (hrest D0 hD0) u (draws_support hm).1

/-- a run with given draws -/
theorem run_ok {Ds : List (CycleDraws K)}
    (hDs : ∀ D ∈ Ds, IsCycleDraws (cfg.dim * cfg.length) D)
    {s : Ga (List ℤ) (List K) K} (hs : RunInv cfg fnc s) (k : ℕ) (hk : k ≤ Ds.length) :
    ∃ t, cycles (problem cfg fnc) (breedAt cfg argsort Ds) k s = (.ok (), t) ∧
      RunInv cfg fnc t ∧ (1 ≤ k → t.phase = .running) ∧
      (Recorded cfg fnc s → Recorded cfg fnc t) := by
  induction k with
  | zero => exact ⟨s, rfl, hs, by omega, id⟩
  | succ k ih =>
    obtain ⟨t, ht, hi, -, hrec⟩ := ih (by omega)
    obtain ⟨u, hu, hui, hup, -⟩ := evolve1_runInv ha (hDs _ (List.getElem_mem (show k < Ds.length by omega)))
      hN4 hN8 hn hel hfnc hi
    refine ⟨u, ?_, hui, fun _ => hup, fun h => evolve1_recorded hi.cons hu hui.good (hrec h)⟩
    simp only [cycles, ht]
    rw [← hu]
    congr 1
    funext a b
    simp [breedAt, List.getElem?_eq_getElem (show k < Ds.length by omega)]

theorem run_fails (rest : List (CycleDraws K) → PMF (CycleDraws K))
    (hrest : ∀ Ds, ∀ D ∈ (rest Ds).support, IsCycleDraws (cfg.dim * cfg.length) D)
    {s : Ga (List ℤ) (List K) K} (hs : RunInv cfg fnc s) (k : ℕ) :
    (draws (fun Ds => cycleLaw unit (cfg.dim * cfg.length) (rest Ds)) (k + 1)).toOuterMeasure
      {Ds | ∃ t, cycles (problem cfg fnc) (breedAt cfg argsort Ds) (k + 1) s = (.ok (), t) ∧
        Optimal cfg fnc t}ᶜ ≤ (1 - chance unit cfg) ^ k := by
  induction k with
  | zero => rw [pow_zero]; exact pr_le_one _ _
  | succ k ih =>
    rw [pow_succ]
    refine le_trans ?_ (mul_le_mul_left ih _)
    rw [draws]
    have hsupp : ∀ {Ds}, Ds ∈ (draws (fun Ds => cycleLaw unit (cfg.dim * cfg.length) (rest Ds))
        (k + 1)).support → Ds.length = k + 1 ∧ ∀ D ∈ Ds, IsCycleDraws (cfg.dim * cfg.length) D := by
      intro Ds h
      obtain ⟨h1, h2⟩ := draws_support h
      refine ⟨h1, fun D hD => ?_⟩
      obtain ⟨i, hi, rfl⟩ := List.mem_iff_getElem.mp hD
      exact cycleLaw_support unit (hrest _) _ (h2 i hi)
    have hsplit : ∀ {Ds : List (CycleDraws K)} {D}, Ds.length = k + 1 →
        ∀ {t}, cycles (problem cfg fnc) (breedAt cfg argsort Ds) (k + 1) s = (.ok (), t) →
        cycles (problem cfg fnc) (breedAt cfg argsort (Ds ++ [D])) (k + 1 + 1) s =
          evolve1 (problem cfg fnc) (breed cfg argsort D) t := by
      intro Ds D hl t ht
      rw [cycles]
      rw [cycles_congr (b' := breedAt cfg argsort Ds) _ _ (fun i hi => breedAt_append (by omega)), ht]
      simp only
      rw [← hl, breedAt_last]
    refine pr_bind_le _ _ _ _ _ ?_ ?_
    · intro Ds hDs hin
      obtain ⟨hl, hok⟩ := hsupp hDs
      rw [Set.mem_compl_iff, not_not] at hin
      obtain ⟨t, ht, hopt⟩ := hin
      obtain ⟨t', ht', hti, -⟩ := run_ok ha hN4 hN8 hn hel hfnc hok hs (k + 1) hl.ge
      obtain rfl : t' = t := by rw [ht] at ht'; simpa using ht'.symm
      rw [pr_map, PMF.toOuterMeasure_apply_eq_zero_iff, Set.disjoint_left]
      intro D hD hmem
      apply hmem
      obtain ⟨w, hw, -⟩ := evolve1_runInv ha (cycleLaw_support unit (hrest Ds) D hD) hN4 hN8 hn hel hfnc hti
      exact ⟨w, by rw [hsplit hl ht]; exact hw, evolve1_optimal hti.cons hw hopt⟩
    · intro Ds hDs _
      obtain ⟨hl, hok⟩ := hsupp hDs
      obtain ⟨t, ht, hti, htp, -⟩ := run_ok ha hN4 hN8 hn hel hfnc hok hs (k + 1) hl.ge
      rw [pr_map]
      refine le_trans (MeasureTheory.OuterMeasure.mono _ ?_)
        (step_fails ha hN4 hN8 hn hel hfnc unit (rest Ds) (hrest Ds) hti (htp (by omega)))
      intro D hD hin
      apply hD
      obtain ⟨w, hw, ho⟩ := hin
      exact ⟨w, by rw [hsplit hl ht]; exact hw, ho⟩

end Run

end Verif.GAChance
