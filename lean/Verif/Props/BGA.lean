import Verif.Proofs.BGARun
import Verif.Props.GA

/-!
# Properties of the binary genetic algorithm (C03, C04, C09, C10, C11, C14)
-/

set_option linter.unusedSectionVars false

namespace Verif.BGA.Props
open Verif Verif.GA Verif.GA.Props Verif.BGA
variable {K : Type} [Field K] [LinearOrder K]

/-! ## C10 – crossover and mutation -/

/-- Number of cut positions at or before position `j`. -/
def cutsUpTo (cuts : List ℕ) (j : ℕ) : ℕ := (cuts.filter (fun c => decide (c ≤ j))).length

/-- C10. Before mutation the children exchange whole segments: at position `j` the first
child has the bit of the first parent exactly if the number of cuts at or before `j` is even
(the coin showing "first") or odd (otherwise), and the second child has the bit of the other
parent. Mutation then keeps a bit if its draw exceeds `p_m` and flips it otherwise. -/
theorem C10_crossover (p_c p_m : K) (n : ℕ) (hn : 3 ≤ n) (d : CrossDraw K) (hd : IsCrossDraw n d)
    (hskip : ¬ d.skip > p_c) (p1 p2 : List ℤ) (h1 : p1.length = n) (h2 : p2.length = n) :
    ∃ c1 c2, crossover p_c p_m n d p1 p2 = .ok (c1, c2) ∧ c1.length = n ∧ c2.length = n ∧
      ∀ j, (hj : j < n) → ∃ a b : ℤ,
        -- the unmutated bits
        (if (cutsUpTo d.cuts j % 2 = 0 ↔ d.coin > 1 / 2) then a = p1[j] ∧ b = p2[j]
          else a = p2[j] ∧ b = p1[j]) ∧
        (∀ u, d.mut1[j]? = some u → c1[j]? = some (if u ≤ p_m then 1 - a else a)) ∧
        (∀ u, d.mut2[j]? = some u → c2[j]? = some (if u ≤ p_m then 1 - b else b)) := by
  obtain ⟨c1, c2, hc, l1, l2, hget⟩ :=
    recombine_spec hn hd.nodup hd.range (decide (d.coin > 1 / 2)) h1 h2
  refine ⟨mutate p_m d.mut1 c1, mutate p_m d.mut2 c2, ?_, mutate_length hd.mut1 l1,
    mutate_length hd.mut2 l2, ?_⟩
  · unfold crossover
    rw [if_neg hskip, if_neg (by simp [h1, h2]), hc]
  · intro j hj
    refine ⟨c1[j]'(by omega), c2[j]'(by omega), ?_, ?_, ?_⟩
    · obtain ⟨e1, e2⟩ := hget j hj
      rw [List.getElem?_eq_getElem (by omega), List.getElem?_eq_getElem (by omega),
        List.getElem?_eq_getElem (by omega)] at e1 e2
      have hf : fromFirst d.cuts (decide (d.coin > 1 / 2)) j = true ↔
          (cutsUpTo d.cuts j % 2 = 0 ↔ d.coin > 1 / 2) := by
        unfold fromFirst cutsUpTo
        rw [List.countP_eq_length_filter, beq_iff_eq, Bool.eq_iff_iff]
        simp
      by_cases h : fromFirst d.cuts (decide (d.coin > 1 / 2)) j = true
      · rw [if_pos (hf.mp h)]
        simp only [h, if_true, Option.some.injEq] at e1 e2
        exact ⟨e1, e2⟩
      · rw [if_neg (fun h' => h (hf.mpr h'))]
        simp only [h, if_false, Option.some.injEq, Bool.false_eq_true] at e1 e2
        exact ⟨e1, e2⟩
    · intro u hu
      rw [mutate_get hd.mut1 l1 j hj]
      rw [List.getElem?_eq_getElem (by have := hd.mut1; omega)] at hu
      simp only [Option.some.injEq] at hu
      rw [hu]
      by_cases h : u ≤ p_m
      · rw [if_neg (not_lt.mpr h), if_pos h]
      · rw [if_pos (not_le.mp h), if_neg h]
    · intro u hu
      rw [mutate_get hd.mut2 l2 j hj]
      rw [List.getElem?_eq_getElem (by have := hd.mut2; omega)] at hu
      simp only [Option.some.injEq] at hu
      rw [hu]
      by_cases h : u ≤ p_m
      · rw [if_neg (not_lt.mpr h), if_pos h]
      · rw [if_pos (not_le.mp h), if_neg h]

/-- C10: if the crossover is skipped, the parents are returned as they are. -/
theorem C10_skipped (p_c p_m : K) (n : ℕ) (d : CrossDraw K) (hskip : d.skip > p_c)
    (p1 p2 : List ℤ) : crossover p_c p_m n d p1 p2 = .ok (p1, p2) := by
  unfold crossover; rw [if_pos hskip]

/-- C10: 0/1 strings of length `n` go in, 0/1 strings of length `n` come out. -/
theorem C10_bits (p_c p_m : K) (n : ℕ) (hn : 3 ≤ n) (d : CrossDraw K) (hd : IsCrossDraw n d)
    (p1 p2 : List ℤ) (h1 : p1.length = n ∧ ∀ b ∈ p1, b = 0 ∨ b = 1)
    (h2 : p2.length = n ∧ ∀ b ∈ p2, b = 0 ∨ b = 1) :
    ∃ c1 c2, crossover p_c p_m n d p1 p2 = .ok (c1, c2) ∧
      (c1.length = n ∧ ∀ b ∈ c1, b = 0 ∨ b = 1) ∧ (c2.length = n ∧ ∀ b ∈ c2, b = 0 ∨ b = 1) :=
  crossover_bits hn hd h1 h2

/-- Finding on C10: with fewer than three bits a crossover that is not skipped raises. -/
theorem C10_too_short (p_c p_m : K) (n : ℕ) (hn : n < 3) (d : CrossDraw K)
    (hskip : ¬ d.skip > p_c) (p1 p2 : List ℤ) :
    crossover p_c p_m n d p1 p2 = .error .value := by
  unfold crossover
  rw [if_neg hskip]
  split
  · rfl
  · simp [recombine, hn]

def demoCross : CrossDraw ℚ :=
  { skip := 0, cuts := [3, 1], coin := 3/4, mut1 := [1, 1, 0, 1, 1], mut2 := [1, 1, 1, 1, 1] }

theorem demoCross_ok : IsCrossDraw 5 demoCross := by
  refine ⟨fun _ => by decide, by decide, by decide, rfl, rfl⟩

/-- two cuts, bit 2 of the first child mutated -/
example : crossover (9/10 : ℚ) (1/100) 5 demoCross [0, 0, 0, 0, 0] [1, 1, 1, 1, 1] =
    .ok ([0, 1, 0, 0, 0], [1, 0, 0, 1, 1]) := by
  simp [crossover, recombine, demoCross, crossStep, setSlice, mutate, List.range, List.range.loop,
    List.replicate, List.mergeSort, List.MergeSort.Internal.splitInTwo]
  norm_num

/-! ## C11 – division and selection -/

/-- The number of elite members that a setting requests. -/
def requested (nPop : ℕ) : Elitism → ℕ
  | .none => 0
  | .int k => k.toNat
  | .float q => ⌊(nPop : ℚ) * q⌋.toNat

/-- Settings that `divide` accepts. -/
def Accepted : Elitism → Prop
  | .none => True
  | .int k => 1 ≤ k
  | .float q => 0 < q ∧ q < 1

/-- C11, `divide`: for every setting that `divide` accepts the population is split without
loss or overlap, the elite has the requested number of members, and no member of the others
is strictly better than a member of the elite. -/
theorem C11_divide (argsort : List K → List ℕ) (ha : IsArgsort argsort) (nPop : ℕ) (el : Elitism)
    (minimize : Bool) (f : List K) (hf : f.length = nPop)
    (hel : Accepted el) :
    ∃ elite others, divide argsort nPop el minimize f = .ok (elite, others) ∧
      (elite ++ others).Perm (List.range nPop) ∧
      elite.length = min nPop (requested nPop el) ∧
      ∀ i ∈ elite, ∀ j ∈ others, ∀ x y, f[i]? = some x → f[j]? = some y →
        ¬ Beats minimize y x := by
  cases hel' : el with
  | none =>
    exact ⟨[], List.range nPop, by simp [divide], by simp, by simp [requested], by simp⟩
  | int k =>
    rw [hel'] at hel
    refine ⟨_, _, divide_ok (by simp) (by intro k' h; cases h; exact hel) (by simp), ?_, ?_, ?_⟩
    · rw [List.take_append_drop]; simpa [hf] using dirSort_perm ha minimize f
    · rw [List.length_take, (dirSort_perm ha minimize f).length_eq, List.length_range, hf, min_comm]
      rfl
    · intro i hi j hj x y hx hy
      have hp := dirSort_pairwise ha minimize f
      rw [← List.take_append_drop (eliteCount nPop (.int k)) (dirSort argsort minimize f),
        List.pairwise_append] at hp
      rw [beats_iff, hp.2.2 i hi j hj x y hx hy]; simp
  | float q =>
    rw [hel'] at hel
    refine ⟨_, _, divide_ok (by simp) (by simp) (by intro q' h; cases h; exact hel.2), ?_, ?_, ?_⟩
    · rw [List.take_append_drop]; simpa [hf] using dirSort_perm ha minimize f
    · rw [List.length_take, (dirSort_perm ha minimize f).length_eq, List.length_range, hf, min_comm]
      rfl
    · intro i hi j hj x y hx hy
      have hp := dirSort_pairwise ha minimize f
      rw [← List.take_append_drop (eliteCount nPop (.float q)) (dirSort argsort minimize f),
        List.pairwise_append] at hp
      rw [beats_iff, hp.2.2 i hi j hj x y hx hy]; simp

/-- C11, `select`: whenever it returns, it returns `max(|elite|, nPop/2)` members of the
population, first the elite of `divide`, then for each tournament the best of its three
candidates, which are members of the others. -/
theorem C11_select (argsort : List K → List ℕ) (ha : IsArgsort argsort) (nPop : ℕ) (el : Elitism)
    (minimize : Bool) (tour : ℕ → List ℕ → List ℕ) (ht : ∀ i, IsTourChoice (tour i))
    (f : List K) (hf : f.length = nPop) (ids : List ℕ)
    (hsel : selectIds argsort nPop el minimize tour f = .ok ids)
    (hint : ∀ k, el = .int k → 1 ≤ k) :
    ∃ elite others more, divide argsort nPop el minimize f = .ok (elite, others) ∧
      ids = elite ++ more ∧ ids.length = max elite.length (nPop / 2) ∧ (∀ i ∈ ids, i < nPop) ∧
      ∀ t w, more[t]? = some w → w ∈ tour t others ∧
        ∀ j ∈ tour t others, ∀ x y, f[w]? = some x → f[j]? = some y → ¬ Beats minimize y x := by
  have hperm := dirSort_perm ha minimize f
  have hdl : (dirSort argsort minimize f).length = nPop := by
    rw [hperm.length_eq, List.length_range, hf]
  have hnone : el ≠ .none := by
    rintro rfl; simp [selectIds, divide] at hsel
  have hfl : ∀ q, el = .float q → q < 1 := by
    rintro q rfl
    by_contra h
    simp [selectIds, divide, h] at hsel
  have hdiv := divide_ok (argsort := argsort) (nPop := nPop) (m := minimize) (f := f) hnone hint hfl
  by_cases h3 : nPop / 2 ≤ eliteCount nPop el ∨ 3 + eliteCount nPop el ≤ nPop
  · obtain ⟨more, h1, h2, h4⟩ := selectIds_ok ha (m := minimize) ht hf hnone hint hfl h3
    rw [h1] at hsel
    cases hsel
    refine ⟨_, _, more, hdiv, rfl, ?_, ?_, ?_⟩
    · rw [List.length_append, List.length_take, hdl, h2]; omega
    · intro i hi
      rcases List.mem_append.mp hi with h | h
      · have := List.take_subset _ _ h
        rw [hperm.mem_iff, List.mem_range, hf] at this
        exact this
      · obtain ⟨t, ht'⟩ := List.mem_iff_getElem?.mp h
        exact (h4 t i ht').2.1
    · intro t w hw
      refine ⟨(h4 t w hw).1, fun j hj x y hx hy => ?_⟩
      rw [beats_iff, (h4 t w hw).2.2 j hj x y hx hy]; simp
  · -- a tournament among fewer than three raises
    exfalso
    push Not at h3
    unfold selectIds at hsel
    rw [hdiv] at hsel
    simp only [hnone, if_false] at hsel
    rw [tournaments_error (by rw [List.length_take, hdl]; omega)
      (by rw [List.length_drop, hdl]; omega)] at hsel
    simp [bind, Except.bind] at hsel

/-! ## C03 – every generation has `nPop` members -/

/-- C03, the part that holds: from 8 members and 3 bits on, with an elitism that is an
integer in `[1, nPop)` or a fraction in `(0, 1)` whose elite is at most half of the
population or even, the initial population and the population after any number of cycles
consist of `nPop` 0/1 strings of length `dim * length`, and nothing raises – for every
objective that does not raise and all draws.
Missing: the other documented settings, for which it is false (see `C14_elitism_iff` and
`C03_small_population_fails`). -/
theorem C03_generation_partial (cfg : Config K) (argsort : List K → List ℕ) (ha : IsArgsort argsort)
    (hN4 : 4 ∣ cfg.nPop) (hN8 : 8 ≤ cfg.nPop) (hn : 3 ≤ cfg.dim * cfg.length)
    (hint : ∀ k, cfg.elitism = .int k → 1 ≤ k ∧ k < cfg.nPop ∧ (k ≤ cfg.nPop / 2 ∨ Even k))
    (hfloat : ∀ q, cfg.elitism = .float q → 0 < q ∧ q < 1 ∧
      (⌊(cfg.nPop : ℚ) * q⌋ ≤ cfg.nPop / 2 ∨ Even ⌊(cfg.nPop : ℚ) * q⌋))
    (hnone : cfg.elitism ≠ .none)
    (fnc : List K → Py K) (hfnc : ∀ x, ∃ y, fnc x = .ok y)
    (D₀ : CycleDraws K) (hD₀ : IsCycleDraws (cfg.dim * cfg.length) D₀)
    (pool : List (List ℤ)) (hpool : IsPool cfg.nPop (cfg.dim * cfg.length) pool)
    (D : ℕ → CycleDraws K) (hD : ∀ i, IsCycleDraws (cfg.dim * cfg.length) (D i))
    (s' : Ga (List ℤ) (List K) K) (k : ℕ) :
    (reset (initial cfg D₀ pool) s').1 = .ok () ∧
    ∃ s, cycles (problem cfg fnc) (fun i => breed cfg argsort (D i)) k
          (reset (initial cfg D₀ pool) s').2 = (.ok (), s) ∧
      s.genotypes.length = cfg.nPop ∧
      ∀ g ∈ s.genotypes, g.length = cfg.dim * cfg.length ∧ ∀ b ∈ g, b = 0 ∨ b = 1 := by
  obtain ⟨gs, h1, h2⟩ := initial_ok hD₀ hN4 hN8 hn hpool
  have hel : Workable cfg.nPop cfg.elitism := by
    refine ⟨hnone, fun k h => ⟨(hint k h).1, (hint k h).2.1⟩, fun q h => ⟨(hfloat q h).1, (hfloat q h).2.1⟩, ?_⟩
    cases hc : cfg.elitism with
    | none => exact absurd hc hnone
    | int k =>
      obtain ⟨a, b, c⟩ := hint k hc
      simp only [eliteCount]
      rcases c with c | ⟨r, hr⟩
      · left; omega
      · right; exact ⟨r.toNat, by omega⟩
    | float q =>
      obtain ⟨a, b, c⟩ := hfloat q hc
      simp only [eliteCount]
      have : 0 ≤ ⌊(cfg.nPop : ℚ) * q⌋ := Int.floor_nonneg.mpr (by positivity)
      rcases c with c | ⟨r, hr⟩
      · left; omega
      · right; exact ⟨r.toNat, by omega⟩
  rw [h1]
  refine ⟨rfl, ?_⟩
  have hinv : RunInv cfg fnc (reset (.ok gs) s').2 := ⟨consistent_reset _ gs s', h2, by simp [reset]⟩
  obtain ⟨t, ht, hi, -⟩ := cycles_runInv ha hD hN4 hN8 hn hel hfnc hinv k
  exact ⟨t, ht, hi.good.1, hi.good.2⟩

/-- The full claim of C03 is false: with `nPop = 4` (the constructor's choice for 1 to 4)
the initial population cannot be produced, whatever is drawn. -/
theorem C03_small_population_fails (cfg : Config K) (h4 : cfg.nPop = 4) (D : CycleDraws K)
    (pool : List (List ℤ)) (hpool : IsPool cfg.nPop (cfg.dim * cfg.length) pool) :
    initial cfg D pool = .error .runtime :=
  populateFrom_two (by omega) (by rw [hpool.rows, h4])

/-! ## C14 – the documented elitism settings -/

/-- The documented settings: `None`, a fraction in `(0, 1]`, an integer in `[1, nPop)`. -/
def Documented (nPop : ℕ) : Elitism → Prop
  | .none => True
  | .int k => 1 ≤ k ∧ k < nPop
  | .float q => 0 < q ∧ q ≤ 1

/-- Settings with which the next generation is produced: an elite of at most half the
population or of even size. -/
def Works (nPop : ℕ) : Elitism → Prop
  | .none => False
  | .int k => 2 * k ≤ nPop ∨ Even k
  | .float q => q ≠ 1 ∧ (2 * ⌊(nPop : ℚ) * q⌋ ≤ nPop ∨ Even ⌊(nPop : ℚ) * q⌋)

/-- C14: with a documented setting outside `Works` producing the next generation raises,
whatever the population, the values and the draws are. -/
theorem C14_fails (cfg : Config K) (argsort : List K → List ℕ) (ha : IsArgsort argsort)
    (D : CycleDraws K) (hD : IsCycleDraws (cfg.dim * cfg.length) D)
    (hN4 : 4 ∣ cfg.nPop) (hN8 : 8 ≤ cfg.nPop)
    (hdoc : Documented cfg.nPop cfg.elitism)
    (gs : List (List ℤ)) (hgl : gs.length = cfg.nPop)
    (f : List K) (hf : f.length = cfg.nPop) (hw : ¬ Works cfg.nPop cfg.elitism) :
    ∃ e, breed cfg argsort D gs f = .error e := by
  have bad : ∀ (_ : cfg.elitism ≠ .none) (_ : ∀ k, cfg.elitism = .int k → 1 ≤ k)
      (_ : ∀ q, cfg.elitism = .float q → q < 1)
      (_ : cfg.nPop / 2 < eliteCount cfg.nPop cfg.elitism)
      (_ : eliteCount cfg.nPop cfg.elitism < cfg.nPop)
      (_ : ¬ Even (eliteCount cfg.nPop cfg.elitism)),
      breed cfg argsort D gs f = .error .runtime := by
    intro h1 h2 h3 h4 h5 h6
    obtain ⟨more, e1, e2, -⟩ := selectIds_ok ha (m := cfg.minimize) hD.tour hf h1 h2 h3 (Or.inl (by omega))
    have hm : more = [] := List.eq_nil_of_length_eq_zero (by rw [e2]; omega)
    subst hm
    have hperm := dirSort_perm ha cfg.minimize f
    have hids : ∀ i ∈ (dirSort argsort cfg.minimize f).take (eliteCount cfg.nPop cfg.elitism) ++ [],
        i < gs.length := by
      intro i hi
      rw [List.append_nil] at hi
      have := List.take_subset _ _ hi
      rw [hperm.mem_iff, List.mem_range] at this
      omega
    unfold breed
    rw [e1]
    simp only
    rw [pyGets_rows hids]
    have hl : (((dirSort argsort cfg.minimize f).take (eliteCount cfg.nPop cfg.elitism) ++ []).map
        fun i => gs.getD i []).length = eliteCount cfg.nPop cfg.elitism := by
      rw [List.length_map, List.append_nil, List.length_take, hperm.length_eq, List.length_range, hf]
      omega
    exact populateFrom_odd (by rw [hl]; exact h5) (by rw [hl]; exact h6)
  cases hc : cfg.elitism with
  | none =>
    exact ⟨.attribute, by simp [breed, selectIds, divide, hc]⟩
  | int k =>
    rw [hc] at bad hdoc hw
    obtain ⟨d1, d2⟩ : 1 ≤ k ∧ k < (cfg.nPop : ℤ) := hdoc
    have hcnt : eliteCount cfg.nPop (.int k) = k.toNat := rfl
    simp only [Works, not_or] at hw
    exact ⟨_, bad (by simp) (by intro k' h; cases h; exact d1) (by simp) (by rw [hcnt]; omega)
        (by rw [hcnt]; omega)
        (by rw [hcnt]; rintro ⟨r, hr⟩; exact hw.2 ⟨r, by omega⟩)⟩
  | float q =>
    rw [hc] at bad hdoc hw
    obtain ⟨d1, d2⟩ : 0 < q ∧ q ≤ 1 := hdoc
    have hcnt : eliteCount cfg.nPop (.float q) = ⌊(cfg.nPop : ℚ) * q⌋.toNat := rfl
    have hnn : 0 ≤ ⌊(cfg.nPop : ℚ) * q⌋ := Int.floor_nonneg.mpr (by positivity)
    by_cases hq : q = 1
    · subst hq
      exact ⟨.type, by simp [breed, selectIds, divide, hc]⟩
    · have hq1 : q < 1 := lt_of_le_of_ne d2 hq
      have hlt : ⌊(cfg.nPop : ℚ) * q⌋ < (cfg.nPop : ℤ) := by
        rw [Int.floor_lt]
        have : (0 : ℚ) < cfg.nPop := by exact_mod_cast (show 0 < cfg.nPop by omega)
        push_cast
        nlinarith
      simp only [Works, ne_eq, hq, not_false_eq_true, true_and, not_or] at hw
      exact ⟨_, bad (by simp) (by simp) (by intro q' h; cases h; exact hq1) (by rw [hcnt]; omega)
          (by rw [hcnt]; omega)
          (by rw [hcnt]; rintro ⟨r, hr⟩; exact hw.2 ⟨r, by omega⟩)⟩

/-- C14, decided: of the documented settings exactly those of `Works` let the binary GA
produce the next generation – whatever the population, the values and the draws are. So the
full claim ("all documented settings work") is false; see the three theorems below. -/
theorem C14_elitism_partial (cfg : Config K) (argsort : List K → List ℕ) (ha : IsArgsort argsort)
    (D : CycleDraws K) (hD : IsCycleDraws (cfg.dim * cfg.length) D)
    (hN4 : 4 ∣ cfg.nPop) (hN8 : 8 ≤ cfg.nPop) (hn : 3 ≤ cfg.dim * cfg.length)
    (hdoc : Documented cfg.nPop cfg.elitism)
    (gs : List (List ℤ)) (hgl : gs.length = cfg.nPop)
    (hgb : ∀ g ∈ gs, g.length = cfg.dim * cfg.length ∧ ∀ b ∈ g, b = 0 ∨ b = 1)
    (f : List K) (hf : f.length = cfg.nPop) :
    (∃ gs', breed cfg argsort D gs f = .ok gs' ∧ gs'.length = cfg.nPop) ↔
      Works cfg.nPop cfg.elitism := by
  have good : ∀ (hel : Workable cfg.nPop cfg.elitism),
      ∃ gs', breed cfg argsort D gs f = .ok gs' ∧ gs'.length = cfg.nPop := by
    intro hel
    obtain ⟨rest, h1, h2⟩ := breed_ok ha hD hN4 hN8 hn hel hgl hgb hf
    exact ⟨_, h1, (h2 _ h1).1⟩
  constructor
  · rintro ⟨gs', h, -⟩
    by_contra hw
    obtain ⟨e, he⟩ := C14_fails cfg argsort ha D hD hN4 hN8 hdoc gs hgl f hf hw
    rw [he] at h
    cases h
  intro hw
  apply good
  cases hc : cfg.elitism with
  | none => rw [hc] at hw; exact hw.elim
  | int k =>
    rw [hc] at hdoc hw
    obtain ⟨d1, d2⟩ : 1 ≤ k ∧ k < (cfg.nPop : ℤ) := hdoc
    have hcnt : eliteCount cfg.nPop (.int k) = k.toNat := rfl
    refine ⟨by simp, by intro k' h; cases h; exact ⟨d1, d2⟩, by simp, ?_⟩
    rw [hcnt]
    rcases hw with h | ⟨r, hr⟩
    · left; omega
    · right; exact ⟨r.toNat, by omega⟩
  | float q =>
    rw [hc] at hdoc hw
    obtain ⟨d1, d2⟩ : 0 < q ∧ q ≤ 1 := hdoc
    have hcnt : eliteCount cfg.nPop (.float q) = ⌊(cfg.nPop : ℚ) * q⌋.toNat := rfl
    have hnn : 0 ≤ ⌊(cfg.nPop : ℚ) * q⌋ := Int.floor_nonneg.mpr (by positivity)
    obtain ⟨hq, hw⟩ := hw
    refine ⟨by simp, by simp, by intro q' h; cases h; exact ⟨d1, lt_of_le_of_ne d2 hq⟩, ?_⟩
    rw [hcnt]
    rcases hw with h | ⟨r, hr⟩
    · left; omega
    · right; exact ⟨r.toNat, by omega⟩

/-- `elitism=None`: `select` raises `AttributeError`, always. -/
theorem C14_none_fails (cfg : Config K) (argsort : List K → List ℕ) (D : CycleDraws K)
    (h : cfg.elitism = .none) (gs : List (List ℤ)) (f : List K) :
    breed cfg argsort D gs f = .error .attribute := by
  simp [breed, selectIds, divide, h]

/-- `elitism=1.0`: `divide` raises `TypeError`, always. -/
theorem C14_one_fails (cfg : Config K) (argsort : List K → List ℕ) (D : CycleDraws K)
    (h : cfg.elitism = .float 1) (gs : List (List ℤ)) (f : List K) :
    breed cfg argsort D gs f = .error .type := by
  simp [breed, selectIds, divide, h]

/-! ## C09 – decoding -/

/-- Little-endian value of a bit string. -/
def bitValue : List ℤ → ℤ
  | [] => 0
  | b :: bs => b + 2 * bitValue bs

/-- The bits of variable `d` in a genotype, `L` bits per variable. -/
def chromosome (L : ℕ) (g : List ℤ) (d : ℕ) : List ℤ := (g.drop (d * L)).take L

theorem sum_bits (bits : List ℤ) :
    ((List.range bits.length).map fun i => ((bits.getD i 0 : ℤ) : K) * 2 ^ i).sum =
      ((bitValue bits : ℤ) : K) := by
  induction bits with
  | nil => simp [bitValue]
  | cons b bs ih =>
    rw [List.length_cons, List.range_succ_eq_map, List.map_cons, List.sum_cons, List.map_map]
    have : (List.range bs.length).map
          ((fun i => (((b :: bs).getD i 0 : ℤ) : K) * 2 ^ i) ∘ Nat.succ) =
        (List.range bs.length).map (fun i => 2 * (((bs.getD i 0 : ℤ) : K) * 2 ^ i)) := by
      apply List.map_congr_left
      intro i _
      simp [pow_succ]
      ring
    rw [this, List.sum_map_mul_left, ih]
    simp [bitValue]

/-- C09, the formula: a population of `nPop` genotypes of `dim * L` bits decodes to `nPop`
points of `dim` coordinates, coordinate `d` of member `p` being
`lo + v * (hi - lo) / (2^L - 1)` with `v` the value of its bits. -/
theorem C09_formula (nPop dim L : ℕ) (ranges : List (K × K)) (hr : ranges.length = dim)
    (gs : List (List ℤ)) (hlen : gs.length = nPop) (hrow : ∀ g ∈ gs, g.length = dim * L) :
    ∃ xs, decode nPop dim L ranges gs = .ok xs ∧ xs.length = nPop ∧
      ∀ (p : ℕ) (hp : p < gs.length), ∃ x, xs[p]? = some x ∧ x.length = dim ∧
        ∀ (d : ℕ) (hd : d < ranges.length), x[d]? = some (ranges[d].1 +
          ((bitValue (chromosome L gs[p] d) : ℤ) : K) * (ranges[d].2 - ranges[d].1) / (2 ^ L - 1)) := by
  refine ⟨_, decode_rows hlen hrow, by simp [hlen], ?_⟩
  intro p hp
  refine ⟨_, by rw [List.getElem?_map, List.getElem?_eq_getElem hp]; rfl, by simp [decodeRow], ?_⟩
  intro d hd
  have hdd : d < dim := by omega
  simp only [decodeRow]
  rw [List.getElem?_map, List.getElem?_range hdd]
  simp only [Option.map_some, Option.some.injEq]
  have hg : gs[p].length = dim * L := hrow _ (List.getElem_mem hp)
  have hseg : d * L + L ≤ dim * L := by
    calc d * L + L = (d + 1) * L := by ring
      _ ≤ dim * L := Nat.mul_le_mul_right _ hdd
  have hcl : (chromosome L gs[p] d).length = L := by
    simp only [chromosome, List.length_take, List.length_drop, hg]; omega
  have hsum : ((List.range L).map fun i => ((gs[p].getD (d * L + i) 0 : ℤ) : K) * 2 ^ i).sum =
      ((bitValue (chromosome L gs[p] d) : ℤ) : K) := by
    rw [← sum_bits, hcl]
    congr 1
    apply List.map_congr_left
    intro i hi
    rw [List.mem_range] at hi
    simp only [chromosome, List.getD_eq_getElem?_getD]
    rw [List.getElem?_take_of_lt hi, List.getElem?_drop]
  have hrd : ranges.getD d (0, 0) = ranges[d] := by
    rw [List.getD_eq_getElem?_getD, List.getElem?_eq_getElem hd]; rfl
  rw [hsum, hrd]
  simp only [pow_zero]
  rw [mul_div_assoc]
  ring

/-- the values of bit strings of length `L` are in `[0, 2^L - 1]` -/
theorem bitValue_bounds (bits : List ℤ) (hb : ∀ b ∈ bits, b = 0 ∨ b = 1) :
    0 ≤ bitValue bits ∧ bitValue bits ≤ 2 ^ bits.length - 1 := by
  induction bits with
  | nil => simp [bitValue]
  | cons b bs ih =>
    obtain ⟨h1, h2⟩ := ih (fun b hb' => hb b (by simp [hb']))
    have := hb b (by simp)
    simp only [bitValue, List.length_cons, pow_succ]
    omega

/-- different bit strings of the same length have different values -/
theorem bitValue_injective : ∀ (a b : List ℤ), a.length = b.length →
    (∀ x ∈ a, x = 0 ∨ x = 1) → (∀ x ∈ b, x = 0 ∨ x = 1) → bitValue a = bitValue b → a = b := by
  intro a
  induction a with
  | nil => intro b hl _ _ _; exact (List.eq_nil_of_length_eq_zero hl.symm).symm
  | cons x a ih =>
    intro b hl ha hb hv
    cases b with
    | nil => simp at hl
    | cons y b =>
      have hx := ha x (by simp)
      have hy := hb y (by simp)
      simp only [bitValue] at hv
      have hxy : x = y := by omega
      subst hxy
      rw [ih b (by simpa using hl) (fun z hz => ha z (by simp [hz]))
        (fun z hz => hb z (by simp [hz])) (by omega)]

section
variable [IsStrictOrderedRing K]

theorem span_pos (L : ℕ) (hL : 1 ≤ L) : (0 : K) < 2 ^ L - 1 := by
  have : (1 : K) < 2 ^ L := one_lt_pow₀ (by norm_num) (by omega)
  linarith

/-- C09, the grid: the coordinate of a bit string `c` of length `L ≥ 1` lies in the range,
the all-zero and the all-one string give the two ends, and if `lo < hi` different strings
give different coordinates. (`C09_formula` shows that this is the decoded coordinate.) -/
theorem C09_grid (L : ℕ) (hL : 1 ≤ L) (lo hi : K) (hle : lo ≤ hi) :
    let coord := fun c : List ℤ => lo + ((bitValue c : ℤ) : K) * (hi - lo) / (2 ^ L - 1)
    (∀ c : List ℤ, c.length = L → (∀ b ∈ c, b = 0 ∨ b = 1) → lo ≤ coord c ∧ coord c ≤ hi) ∧
    coord (List.replicate L 0) = lo ∧ coord (List.replicate L 1) = hi ∧
    (lo < hi → ∀ c c' : List ℤ, c.length = L → c'.length = L → (∀ b ∈ c, b = 0 ∨ b = 1) →
      (∀ b ∈ c', b = 0 ∨ b = 1) → coord c = coord c' → c = c') := by
  intro coord
  have hs := span_pos (K := K) L hL
  have hz : ∀ n : ℕ, bitValue (List.replicate n 0) = 0 := by
    intro n; induction n with
    | zero => rfl
    | succ n ih => simp [List.replicate_succ, bitValue, ih]
  have ho : ∀ n : ℕ, bitValue (List.replicate n 1) = 2 ^ n - 1 := by
    intro n; induction n with
    | zero => rfl
    | succ n ih => simp only [List.replicate_succ, bitValue, ih, pow_succ]; ring
  refine ⟨?_, ?_, ?_, ?_⟩
  · intro c hl hb
    obtain ⟨h1, h2⟩ := bitValue_bounds c hb
    rw [hl] at h2
    have h1' : (0 : K) ≤ ((bitValue c : ℤ) : K) := by exact_mod_cast h1
    have h2' : ((bitValue c : ℤ) : K) ≤ 2 ^ L - 1 := by exact_mod_cast h2
    constructor
    · have : 0 ≤ ((bitValue c : ℤ) : K) * (hi - lo) / (2 ^ L - 1) :=
        div_nonneg (mul_nonneg h1' (by linarith)) hs.le
      simp only [coord]; linarith
    · have : ((bitValue c : ℤ) : K) * (hi - lo) / (2 ^ L - 1) ≤ hi - lo := by
        rw [div_le_iff₀ hs]
        nlinarith
      simp only [coord]; linarith
  · simp [coord, hz]
  · simp only [coord, ho]
    push_cast
    rw [mul_comm, mul_div_assoc, div_self hs.ne']
    ring
  · intro hlt c c' hl hl' hb hb' h
    apply bitValue_injective c c' (by omega) hb hb'
    simp only [coord] at h
    have h' : ((bitValue c : ℤ) : K) * (hi - lo) / (2 ^ L - 1) =
        ((bitValue c' : ℤ) : K) * (hi - lo) / (2 ^ L - 1) := by linarith
    rw [div_left_inj' hs.ne'] at h'
    have hne : hi - lo ≠ 0 := by linarith
    have := mul_right_cancel₀ hne h'
    exact_mod_cast this

end

/-- two variables with two bits each: bits (1,0) -> 1, (1,1) -> 3 -/
example : decode 1 2 2 [((0 : ℚ), 3), (-1, 1)] [[1, 0, 1, 1]] = .ok [[1, 1]] := by
  simp [decode, List.range, List.range.loop]
  norm_num

/-! ## C04 – the elite survives -/

/-- The objective value of member `i` of the population. -/
def ValueAt (pb : Problem (List ℤ) (List K) K) (s : Ga (List ℤ) (List K) K) (i : ℕ) (y : K) : Prop :=
  ∃ xs x, pb.decode s.genotypes = .ok xs ∧ xs[i]? = some x ∧ pb.fnc x = .ok y

/-- Two cycles can only be completed with a setting of `Works`. -/
theorem works_of_cycles {cfg : Config K} {argsort : List K → List ℕ} (ha : IsArgsort argsort)
    (hN4 : 4 ∣ cfg.nPop) (hN8 : 8 ≤ cfg.nPop) (hn : 3 ≤ cfg.dim * cfg.length)
    (hdoc : Documented cfg.nPop cfg.elitism) {fnc : List K → Py K}
    {D : ℕ → CycleDraws K} (hD : ∀ i, IsCycleDraws (cfg.dim * cfg.length) (D i))
    {gs : List (List ℤ)} (hg : Good cfg gs) {s' t : Ga (List ℤ) (List K) K} {k : ℕ} (hk : 1 ≤ k)
    (ht : cycles (problem cfg fnc) (fun i => breed cfg argsort (D i)) (k + 1)
      (reset (.ok gs) s').2 = (.ok (), t)) : Works cfg.nPop cfg.elitism := by
  -- the first two cycles have been completed
  have h2 : ∃ t2, cycles (problem cfg fnc) (fun i => breed cfg argsort (D i)) 2
      (reset (.ok gs) s').2 = (.ok (), t2) := by
    obtain ⟨m, rfl⟩ : ∃ m, k = m + 1 := ⟨k - 1, by omega⟩
    clear hk
    induction m generalizing t with
    | zero => exact ⟨t, ht⟩
    | succ m ih =>
      rw [cycles] at ht
      split at ht
      · simp at ht
      · rename_i u hu; exact ih hu
  obtain ⟨t2, h2⟩ := h2
  rw [cycles] at h2
  split at h2
  · simp at h2
  · rename_i u hu
    simp only [cycles] at hu
    obtain ⟨s1, c, hnx, -, huc, hug, hup, -⟩ := evolve1_ok (consistent_reset _ gs s') hu
    have hs1 := nextEvolver_primed (by simp [reset]) hnx
    have hgu : u.genotypes = gs := by rw [hug, hs1]; rfl
    obtain ⟨s2, c2, hnx2, -⟩ := evolve1_ok huc h2
    obtain ⟨xs, ys, gs2, e1, e2, e3, -⟩ := nextEvolver_running huc hup hnx2
    rw [hgu, good_decode hg fnc] at e1
    cases e1
    have hyl : ys.length = cfg.nPop := by
      rw [← (pyMap_eq_ok_iff.mp e2).length_eq, List.length_map, hg.1]
    rw [hgu] at e3
    by_contra hw
    have := C14_fails cfg argsort ha (D 1) (hD 1) hN4 hN8 hdoc gs hg.1 ys hyl hw
    rw [e3] at this
    obtain ⟨_, h⟩ := this
    cases h

/-- C04, survival: with an integer elitism `e` accepted by the constructor, from any cycle to the next there is a set `E` of `e` positions such that no member
outside `E` is strictly better than a member in `E`, and the genotypes at `E` open the next
population. -/
theorem C04_elite_survives (cfg : Config K) (argsort : List K → List ℕ) (ha : IsArgsort argsort)
    (hN4 : 4 ∣ cfg.nPop) (hN8 : 8 ≤ cfg.nPop) (hn : 3 ≤ cfg.dim * cfg.length)
    (e : ℕ) (hel : cfg.elitism = .int e) (he1 : 1 ≤ e) (he2 : e < cfg.nPop)
    (fnc : List K → Py K) (hfnc : ∀ x, ∃ y, fnc x = .ok y)
    (D₀ : CycleDraws K) (hD₀ : IsCycleDraws (cfg.dim * cfg.length) D₀)
    (pool : List (List ℤ)) (hpool : IsPool cfg.nPop (cfg.dim * cfg.length) pool)
    (D : ℕ → CycleDraws K) (hD : ∀ i, IsCycleDraws (cfg.dim * cfg.length) (D i))
    (s' s t : Ga (List ℤ) (List K) K) (k : ℕ) (hk : 1 ≤ k)
    (hs : cycles (problem cfg fnc) (fun i => breed cfg argsort (D i)) k
      (reset (initial cfg D₀ pool) s').2 = (.ok (), s))
    (ht : cycles (problem cfg fnc) (fun i => breed cfg argsort (D i)) (k + 1)
      (reset (initial cfg D₀ pool) s').2 = (.ok (), t)) :
    ∃ E : List ℕ, E.Nodup ∧ E.length = e ∧ (∀ i ∈ E, i < cfg.nPop) ∧
      (∀ i ∈ E, ∀ j < cfg.nPop, j ∉ E → ∀ x y, ValueAt (problem cfg fnc) s i x →
        ValueAt (problem cfg fnc) s j y → ¬ Beats cfg.minimize y x) ∧
      ∃ rest, t.genotypes = E.filterMap (fun i => s.genotypes[i]?) ++ rest := by
  obtain ⟨gs, h1, h2⟩ := initial_ok hD₀ hN4 hN8 hn hpool
  rw [h1] at hs ht
  have he3 : e ≤ cfg.nPop / 2 ∨ Even e := by
    have := works_of_cycles ha hN4 hN8 hn (by rw [hel]; exact ⟨by omega, by omega⟩) hD h2 hk ht
    rw [hel] at this
    rcases this with h | ⟨r, hr⟩
    · left; omega
    · right; exact ⟨r.toNat, by omega⟩
  have hw : Workable cfg.nPop cfg.elitism := by
    rw [hel]
    exact ⟨by simp, by intro k h; cases h; omega, by simp, by simpa [eliteCount] using he3⟩
  have hinv : RunInv cfg fnc (reset (.ok gs) s').2 := ⟨consistent_reset _ gs s', h2, by simp [reset]⟩
  obtain ⟨s2, hs2, hi, hrun⟩ := cycles_runInv ha hD hN4 hN8 hn hw hfnc hinv k
  rw [hs] at hs2
  simp only [Prod.mk.injEq, true_and] at hs2
  subst hs2
  obtain ⟨t2, ht2, hti, -, -, hel2⟩ := evolve1_runInv ha (hD k) hN4 hN8 hn hw hfnc hi
  have htt : t2 = t := by
    simp only [cycles, hs] at ht
    rw [ht2] at ht
    simpa using ht
  subst htt
  obtain ⟨ys, rest, hy, hg⟩ := hel2 (hrun hk)
  have hperm := dirSort_perm ha cfg.minimize ys
  have hyl : ys.length = cfg.nPop := by
    rw [← (pyMap_eq_ok_iff.mp hy).length_eq, List.length_map, hi.good.1]
  have hcnt : eliteCount cfg.nPop cfg.elitism = e := by rw [hel]; simp [eliteCount]
  rw [hcnt] at hg
  have hlt : ∀ i ∈ (dirSort argsort cfg.minimize ys).take e, i < cfg.nPop := by
    intro i hi'
    have := List.take_subset _ _ hi'
    rw [hperm.mem_iff, List.mem_range, hyl] at this
    exact this
  have hval : ∀ i v, ValueAt (problem cfg fnc) s i v → ys[i]? = some v := by
    rintro i v ⟨xs, x, a1, a2, a3⟩
    rw [good_decode hi.good fnc] at a1
    cases a1
    have hil := (List.getElem?_eq_some_iff.mp a2).1
    have hyi : i < ys.length := by rw [hyl]; simpa [hi.good.1] using hil
    rw [List.getElem?_eq_getElem hyi]
    have := forall₂_getElem? (pyMap_eq_ok_iff.mp hy) i x _ a2 (List.getElem?_eq_getElem hyi)
    have a3' : fnc x = .ok v := a3
    rw [this] at a3'
    cases a3'
    rfl
  refine ⟨(dirSort argsort cfg.minimize ys).take e,
    (hperm.nodup_iff.mpr List.nodup_range).sublist (List.take_sublist _ _), ?_, hlt, ?_, rest, ?_⟩
  · rw [List.length_take, hperm.length_eq, List.length_range, hyl]; omega
  · intro i hiE j hj hjE x y hx hy'
    have hp := dirSort_pairwise ha cfg.minimize ys
    rw [← List.take_append_drop e (dirSort argsort cfg.minimize ys), List.pairwise_append] at hp
    have hjd : j ∈ (dirSort argsort cfg.minimize ys).drop e := by
      have hjm : j ∈ dirSort argsort cfg.minimize ys := by
        rw [hperm.mem_iff, List.mem_range, hyl]; exact hj
      rw [← List.take_append_drop e (dirSort argsort cfg.minimize ys), List.mem_append] at hjm
      exact hjm.resolve_left hjE
    rw [beats_iff, hp.2.2 i hiE j hjd x y (hval i x hx) (hval j y hy')]
    simp
  · rw [hg]
    congr 1
    rw [← List.filterMap_eq_map]
    apply List.filterMap_congr
    intro i hiE
    have := hlt i hiE
    rw [← hi.good.1] at this
    simp only [Function.comp_apply, List.getD_eq_getElem?_getD]
    rw [List.getElem?_eq_getElem this]
    rfl

theorem best_monotone_aux (cfg : Config K) (argsort : List K → List ℕ) (ha : IsArgsort argsort)
    (hN4 : 4 ∣ cfg.nPop) (hN8 : 8 ≤ cfg.nPop) (hn : 3 ≤ cfg.dim * cfg.length)
    (e : ℕ) (hel : cfg.elitism = .int e) (he1 : 1 ≤ e) (he2 : e < cfg.nPop)
    (he3 : e ≤ cfg.nPop / 2 ∨ Even e)
    (fnc : List K → Py K) (hfnc : ∀ x, ∃ y, fnc x = .ok y)
    (D₀ : CycleDraws K) (hD₀ : IsCycleDraws (cfg.dim * cfg.length) D₀)
    (pool : List (List ℤ)) (hpool : IsPool cfg.nPop (cfg.dim * cfg.length) pool)
    (D : ℕ → CycleDraws K) (hD : ∀ i, IsCycleDraws (cfg.dim * cfg.length) (D i))
    (s' s t : Ga (List ℤ) (List K) K) (k m : ℕ) (hk : 1 ≤ k)
    (hs : cycles (problem cfg fnc) (fun i => breed cfg argsort (D i)) k
      (reset (initial cfg D₀ pool) s').2 = (.ok (), s))
    (ht : cycles (problem cfg fnc) (fun i => breed cfg argsort (D i)) (k + m)
      (reset (initial cfg D₀ pool) s').2 = (.ok (), t))
    (i : ℕ) (y : K) (hy : ValueAt (problem cfg fnc) s i y) :
    ∃ j z, ValueAt (problem cfg fnc) t j z ∧ ¬ Beats cfg.minimize y z := by
  have hC03 := C03_generation_partial cfg argsort ha hN4 hN8 hn
    (by intro q h; rw [hel] at h; cases h; refine ⟨by omega, by omega, ?_⟩
        rcases he3 with h | ⟨r, hr⟩
        · left; omega
        · right; exact ⟨r, by omega⟩)
    (by intro q h; rw [hel] at h; cases h) (by rw [hel]; simp) fnc hfnc D₀ hD₀ pool hpool D hD s'
  induction m generalizing t with
  | zero =>
    rw [Nat.add_zero, hs] at ht
    simp only [Prod.mk.injEq, true_and] at ht
    subst ht
    exact ⟨i, y, hy, by rw [beats_iff, betterThan_irrefl]; simp⟩
  | succ m ih =>
    obtain ⟨-, u, hu, hul, hub⟩ := hC03 (k + m)
    obtain ⟨-, t', ht', htl, htb⟩ := hC03 (k + (m + 1))
    rw [ht] at ht'
    simp only [Prod.mk.injEq, true_and] at ht'
    subst ht'
    obtain ⟨j, z, hz, hyz⟩ := ih u hu
    obtain ⟨E, hE1, hE2, hE3, hE4, rest, hE5⟩ := C04_elite_survives cfg argsort ha hN4 hN8 hn e hel
      he1 he2 fnc hfnc D₀ hD₀ pool hpool D hD s' u t (k + m) (by omega) hu ht
    have hug : Good cfg u.genotypes := ⟨hul, hub⟩
    have htg : Good cfg t.genotypes := ⟨htl, htb⟩
    -- every elite position has a value in the old population and keeps it in the new one
    have key : ∀ p v, p ∈ E → ValueAt (problem cfg fnc) u p v →
        ∃ p', ValueAt (problem cfg fnc) t p' v := by
      rintro p v hp ⟨xs, x, a1, a2, a3⟩
      rw [good_decode hug fnc] at a1
      cases a1
      rw [List.getElem?_map] at a2
      cases hgp : u.genotypes[p]? with
      | none => rw [hgp] at a2; cases a2
      | some g =>
        rw [hgp] at a2
        simp only [Option.map_some, Option.some.injEq] at a2
        have hgt : g ∈ t.genotypes := by
          rw [hE5]
          exact List.mem_append_left _ (List.mem_filterMap.mpr ⟨p, hp, hgp⟩)
        obtain ⟨p', hp'⟩ := List.mem_iff_getElem?.mp hgt
        refine ⟨p', _, x, good_decode htg fnc, ?_, a3⟩
        rw [List.getElem?_map, hp', ← a2]
        rfl
    by_cases hj : j ∈ E
    · obtain ⟨p', hp'⟩ := key j z hj hz
      exact ⟨p', z, hp', hyz⟩
    · -- some elite member is at least as good
      obtain ⟨p, hp⟩ : ∃ p, p ∈ E := List.exists_mem_of_length_pos (by omega)
      have hpl : p < u.genotypes.length := by rw [hul]; exact hE3 p hp
      obtain ⟨v, hv⟩ := hfnc (decodeRow cfg.dim cfg.length cfg.ranges u.genotypes[p])
      have hpv : ValueAt (problem cfg fnc) u p v :=
        ⟨_, _, good_decode hug fnc, by rw [List.getElem?_map, List.getElem?_eq_getElem hpl]; rfl, hv⟩
      have hjl : j < cfg.nPop := by
        obtain ⟨xs, x, a1, a2, -⟩ := hz
        rw [good_decode hug fnc] at a1
        cases a1
        have := (List.getElem?_eq_some_iff.mp a2).1
        simpa [hul] using this
      have hnb := hE4 p hp j hjl hj v z hpv hz
      obtain ⟨p', hp'⟩ := key p v hp hpv
      refine ⟨p', v, hp', ?_⟩
      rw [beats_iff] at hyz hnb ⊢
      simp only [Bool.not_eq_true] at hyz hnb ⊢
      exact not_betterThan_trans hyz hnb

/-- C04, monotone: the best value present in the population never gets worse – every member
of the population after any cycle is matched after any later cycle by a member that it
does not beat. -/
theorem C04_best_monotone (cfg : Config K) (argsort : List K → List ℕ) (ha : IsArgsort argsort)
    (hN4 : 4 ∣ cfg.nPop) (hN8 : 8 ≤ cfg.nPop) (hn : 3 ≤ cfg.dim * cfg.length)
    (e : ℕ) (hel : cfg.elitism = .int e) (he1 : 1 ≤ e) (he2 : e < cfg.nPop)
    (fnc : List K → Py K) (hfnc : ∀ x, ∃ y, fnc x = .ok y)
    (D₀ : CycleDraws K) (hD₀ : IsCycleDraws (cfg.dim * cfg.length) D₀)
    (pool : List (List ℤ)) (hpool : IsPool cfg.nPop (cfg.dim * cfg.length) pool)
    (D : ℕ → CycleDraws K) (hD : ∀ i, IsCycleDraws (cfg.dim * cfg.length) (D i))
    (s' s t : Ga (List ℤ) (List K) K) (k m : ℕ)
    (hs : cycles (problem cfg fnc) (fun i => breed cfg argsort (D i)) k
      (reset (initial cfg D₀ pool) s').2 = (.ok (), s))
    (ht : cycles (problem cfg fnc) (fun i => breed cfg argsort (D i)) (k + m)
      (reset (initial cfg D₀ pool) s').2 = (.ok (), t))
    (i : ℕ) (y : K) (hy : ValueAt (problem cfg fnc) s i y) :
    ∃ j z, ValueAt (problem cfg fnc) t j z ∧ ¬ Beats cfg.minimize y z := by
  obtain ⟨gs, h1, h2⟩ := initial_ok hD₀ hN4 hN8 hn hpool
  rw [h1] at hs ht
  have self : ∀ s : Ga (List ℤ) (List K) K, ValueAt (problem cfg fnc) s i y →
      ∃ j z, ValueAt (problem cfg fnc) s j z ∧ ¬ Beats cfg.minimize y z :=
    fun s h => ⟨i, y, h, by rw [beats_iff, betterThan_irrefl]; simp⟩
  -- the first cycle only evaluates the initial population
  have first : ∀ u, cycles (problem cfg fnc) (fun i => breed cfg argsort (D i)) 1
      (reset (.ok gs) s').2 = (.ok (), u) → u.genotypes = (reset (.ok gs) s').2.genotypes := by
    intro u hu
    simp only [cycles] at hu
    obtain ⟨s1, c, hnx, -, huc, hug, -⟩ := evolve1_ok (consistent_reset _ gs s') hu
    rw [hug, nextEvolver_primed (by simp [reset]) hnx]
  rcases Nat.lt_or_ge 1 (k + m) with hkm | hkm
  · -- at least two cycles: the setting works
    have he3 : e ≤ cfg.nPop / 2 ∨ Even e := by
      have := works_of_cycles (k := k + m - 1) ha hN4 hN8 hn
        (by rw [hel]; exact ⟨by omega, by omega⟩) hD h2 (by omega)
        (by rw [show k + m - 1 + 1 = k + m by omega]; exact ht)
      rw [hel] at this
      rcases this with h | ⟨r, hr⟩
      · left; omega
      · right; exact ⟨r.toNat, by omega⟩
    rw [← h1] at hs ht
    rcases Nat.eq_zero_or_pos k with rfl | hk
    · have hC03 := C03_generation_partial cfg argsort ha hN4 hN8 hn
        (by intro q h; rw [hel] at h; cases h; refine ⟨by omega, by omega, ?_⟩
            rcases he3 with h | ⟨r, hr⟩
            · left; omega
            · right; exact ⟨r, by omega⟩)
        (by intro q h; rw [hel] at h; cases h) (by rw [hel]; simp) fnc hfnc D₀ hD₀ pool hpool D hD s'
      obtain ⟨-, u, hu, -⟩ := hC03 1
      have hgu := first u (by rw [← h1]; exact hu)
      simp only [cycles, Prod.mk.injEq, true_and] at hs
      refine best_monotone_aux cfg argsort ha hN4 hN8 hn e hel he1 he2 he3 fnc hfnc D₀ hD₀ pool hpool
        D hD s' u t 1 (m - 1) le_rfl hu (by rw [show 1 + (m - 1) = 0 + m by omega]; exact ht) i y ?_
      obtain ⟨xs, x, a1, a2, a3⟩ := hy
      refine ⟨xs, x, ?_, a2, a3⟩
      rw [hgu, ← h1, hs]; exact a1
    · exact best_monotone_aux cfg argsort ha hN4 hN8 hn e hel he1 he2 he3 fnc hfnc D₀ hD₀ pool hpool
        D hD s' s t k m hk hs ht i y hy
  · rcases Nat.eq_zero_or_pos m with rfl | hm
    · rw [Nat.add_zero, hs] at ht
      simp only [Prod.mk.injEq, true_and] at ht
      subst ht
      exact self _ hy
    · have hk0 : k = 0 := by omega
      have hm1 : m = 1 := by omega
      subst hk0; subst hm1
      simp only [cycles, Prod.mk.injEq, true_and] at hs
      have hgu := first t ht
      apply self
      obtain ⟨xs, x, a1, a2, a3⟩ := hy
      exact ⟨xs, x, by rw [hgu, hs]; exact a1, a2, a3⟩

/-! ### A concrete setting for the theorems above -/

section Demo
/-- a reference `argsort` -/
def refArgsort (f : List ℚ) : List ℕ :=
  (List.range f.length).mergeSort (fun i j => decide (f.getD i 0 ≤ f.getD j 0))

theorem refArgsort_ok : IsArgsort refArgsort := by
  intro l
  refine ⟨List.mergeSort_perm _ _, ?_⟩
  rw [List.pairwise_map]
  have h := List.pairwise_mergeSort (le := fun i j => decide (l.getD i 0 ≤ l.getD j 0))
    (by intro a b c h1 h2; simp only [decide_eq_true_eq] at *; exact le_trans h1 h2)
    (by intro a b; simp only [Bool.or_eq_true, decide_eq_true_eq]; exact le_total _ _)
    (List.range l.length)
  refine h.imp ?_
  intro i j hij x hx y hy
  simp only [Option.mem_def] at hx hy
  simpa [List.getD_eq_getElem?_getD, hx, hy] using hij

def demoDraws : CycleDraws ℚ :=
  { tour := fun _ w => w.take 3, pair := fun _ => lastTwo, cross := fun _ => demoCross }

theorem demoDraws_ok : IsCycleDraws 5 demoDraws := by
  refine ⟨fun _ w hw hl => ⟨?_, ?_, ?_⟩, fun _ => lastTwo_choice, fun _ => demoCross_ok⟩
  · simp [demoDraws]; omega
  · exact hw.sublist (List.take_sublist _ _)
  · intro a ha; exact List.take_subset _ _ ha

def demoCfg : Config ℚ :=
  { nPop := 8, dim := 1, length := 5, ranges := [(0, 31)], p_c := 1, p_m := 1/100,
    elitism := .int 3, minimize := true }

def demoPool : List (List ℤ) := [[0,0,0,0,0],[1,0,1,0,1],[1,1,1,1,1],[0,1,0,0,0]]

theorem demoPool_ok : IsPool 8 5 demoPool := ⟨rfl, by decide⟩

/-- C03, C04: the hypotheses hold for 8 members of 5 bits, an elite of three and the
objective `(x - 3)²`. -/
example (k : ℕ) : ∃ s, cycles (problem demoCfg (fun x => .ok ((x.getD 0 0 - 3) ^ 2)))
    (fun _ => breed demoCfg refArgsort demoDraws) k
    (reset (initial demoCfg demoDraws demoPool) ⟨[], none, none, none, {}, .initialized, .primed⟩).2 =
      (.ok (), s) ∧ s.genotypes.length = 8 := by
  obtain ⟨-, s, h1, h2, -⟩ := C03_generation_partial demoCfg refArgsort refArgsort_ok (by decide) (by decide)
    (by decide) (by intro k h; cases h; decide) (by intro q h; cases h) (by simp [demoCfg])
    (fun x => .ok ((x.getD 0 0 - 3) ^ 2)) (fun x => ⟨_, rfl⟩) demoDraws demoDraws_ok demoPool demoPool_ok
    (fun _ => demoDraws) (fun _ => demoDraws_ok) ⟨[], none, none, none, {}, .initialized, .primed⟩ k
  exact ⟨s, h1, h2⟩

/-- C14: among the documented settings for 8 members, 5 does not work but 4 and 6 do. -/
example : Documented 8 (.int 5) ∧ ¬ Works 8 (.int 5) ∧ Works 8 (.int 4) ∧ Works 8 (.int 6) := by
  refine ⟨by simp [Documented], ?_, Or.inl (by norm_num), Or.inr ⟨3, rfl⟩⟩
  rintro (h | h)
  · norm_num at h
  · exact absurd h (by decide)

/-- C11: the best two of five when maximizing -/
example : divide refArgsort 5 (.int 2) false [3, 9, 1, 7, 5] = .ok ([1, 3], [4, 0, 2]) := by
  have h1 : ((3 : ℚ) ≤ 9) := by norm_num
  have h2 : ¬ ((7 : ℚ) ≤ 5) := by norm_num
  have h3 : ¬ ((3 : ℚ) ≤ 1) := by norm_num
  have h4 : ¬ ((9 : ℚ) ≤ 1) := by norm_num
  simp [divide, refArgsort, List.mergeSort, List.range, List.range.loop,
    List.MergeSort.Internal.splitInTwo, List.merge, h1, h2, h3]
  norm_num [List.merge]
end Demo

end Verif.BGA.Props
