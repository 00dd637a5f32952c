import Verif.Proofs.BGACross
import Verif.Proofs.GARun
import Verif.Proofs.GAPairs

set_option linter.unusedSectionVars false

namespace Verif.BGA
open Verif Verif.GA
variable {K : Type} [Field K] [LinearOrder K] {V : Type} [LinearOrder V]

/-- the positions of `f` from best to worst -/
def dirSort (argsort : List V → List ℕ) (minimize : Bool) (f : List V) : List ℕ :=
  if minimize then argsort f else (argsort f).reverse

theorem dirSort_perm {argsort : List V → List ℕ} (ha : IsArgsort argsort) (m : Bool) (f : List V) :
    (dirSort argsort m f).Perm (List.range f.length) := by
  unfold dirSort
  cases m
  · simpa using (List.reverse_perm _).trans (ha f).1
  · simpa using (ha f).1

theorem dirSort_pairwise {argsort : List V → List ℕ} (ha : IsArgsort argsort) (m : Bool)
    (f : List V) :
    (dirSort argsort m f).Pairwise
      (fun i j => ∀ x y, f[i]? = some x → f[j]? = some y → betterThan m y x = false) := by
  have h := (ha f).2
  rw [List.pairwise_map] at h
  unfold dirSort
  cases m
  · rw [if_neg (by simp), List.pairwise_reverse]
    refine h.imp ?_
    intro i j hij x y hx hy
    have := hij y (by simp [hy]) x (by simp [hx])
    simp [betterThan, this]
  · rw [if_pos rfl]
    refine h.imp ?_
    intro i j hij x y hx hy
    have := hij x (by simp [hx]) y (by simp [hy])
    simp [betterThan, this]

/-- how many members the elite is to have -/
def eliteCount (nPop : ℕ) : Elitism → ℕ
  | .none => 0
  | .int k => k.toNat
  | .float q => ⌊(nPop : ℚ) * q⌋.toNat

theorem divide_ok {argsort : List V → List ℕ} {nPop : ℕ} {el : Elitism} {m : Bool} {f : List V}
    (hnone : el ≠ .none) (hint : ∀ k, el = .int k → 1 ≤ k) (hfl : ∀ q, el = .float q → q < 1) :
    divide argsort nPop el m f =
      .ok ((dirSort argsort m f).take (eliteCount nPop el),
           (dirSort argsort m f).drop (eliteCount nPop el)) := by
  unfold divide
  cases el with
  | none => exact absurd rfl hnone
  | int k =>
    have := hint k rfl
    simp only [show ¬ (k < 1) by omega, if_false, eliteCount, dirSort]
  | float q =>
    have := hfl q rfl
    simp only [this, if_true, eliteCount, dirSort]

theorem tournaments_ok {argsort : List V → List ℕ} (ha : IsArgsort argsort) {m : Bool} {f : List V}
    {others : List ℕ} {tour : ℕ → List ℕ → List ℕ} (ht : ∀ i, IsTourChoice (tour i))
    (hnd : others.Nodup) (hlt : ∀ i ∈ others, i < f.length) (h3 : 3 ≤ others.length) :
    ∀ (k i : ℕ), ∃ ws, tournaments argsort m f others tour k i = .ok ws ∧ ws.length = k ∧
      ∀ (t : ℕ) (w : ℕ), ws[t]? = some w → w ∈ tour (i + t) others ∧ w ∈ others ∧
        ∀ j ∈ tour (i + t) others, ∀ x y, f[w]? = some x → f[j]? = some y →
          betterThan m y x = false := by
  intro k
  induction k with
  | zero => intro i; exact ⟨[], rfl, rfl, by simp⟩
  | succ k ih =>
    intro i
    obtain ⟨rest, hr, hrl, hrw⟩ := ih (i + 1)
    obtain ⟨c1, c2, c3⟩ := ht i others hnd h3
    have hcl : ∀ a ∈ tour i others, a < f.length := fun a h => hlt a (c3 a h)
    obtain ⟨vals, hv, hvl, hvg⟩ := pyGets_ok hcl
    have hperm := dirSort_perm ha m vals
    have hpw := dirSort_pairwise ha m vals
    have hlen : (dirSort argsort m vals).length = 3 := by
      rw [hperm.length_eq, List.length_range, hvl, c1]
    have hol : (argsort vals).length = 3 := by
      have := hlen; unfold dirSort at this; cases m <;> simpa using this
    -- the winning entry is the head of the directed order
    have hw : ∃ w, pyGet (argsort vals) (if m = true then 0 else (argsort vals).length - 1) = .ok w ∧
        (dirSort argsort m vals)[0]? = some w := by
      cases m
      · refine ⟨(argsort vals)[(argsort vals).length - 1]'(by omega), ?_, ?_⟩
        · simp only [Bool.false_eq_true, if_false]
          exact pyGet_ok (by omega)
        · simp only [dirSort, Bool.false_eq_true, if_false]
          rw [List.getElem?_reverse (by omega), List.getElem?_eq_getElem (by omega)]
          simp
      · refine ⟨(argsort vals)[0]'(by omega), ?_, ?_⟩
        · simp only [if_true]; exact pyGet_ok (by omega)
        · simp only [dirSort, if_true]; rw [List.getElem?_eq_getElem (by omega)]
    obtain ⟨w, hw1, hw2⟩ := hw
    have hwlt : w < 3 := by
      have : w ∈ dirSort argsort m vals := List.mem_of_getElem? hw2
      rw [hperm.mem_iff, List.mem_range, hvl, c1] at this
      exact this
    have hcw : pyGet (tour i others) w = .ok ((tour i others)[w]'(by omega)) := pyGet_ok (by omega)
    refine ⟨(tour i others)[w]'(by omega) :: rest, ?_, by simp [hrl], ?_⟩
    · simp only [tournaments, if_neg (show ¬ others.length < 3 by omega), hv, hw1, hcw, hr, bind,
        Except.bind, pure, Except.pure]
    · intro t w' hw'
      cases t with
      | zero =>
        simp only [List.getElem?_cons_zero, Option.some.injEq] at hw'
        subst hw'
        rw [Nat.add_zero]
        refine ⟨List.getElem_mem _, c3 _ (List.getElem_mem _), ?_⟩
        intro j hj x y hx hy
        obtain ⟨u, hu, rfl⟩ := List.mem_iff_getElem.mp hj
        have hvx : vals[w]? = some x := by rw [hvg w (by omega)]; exact hx
        have hvy : vals[u]? = some y := by rw [hvg u hu]; exact hy
        -- u occurs in the order at some place; the head is at least as good
        have hu' : u ∈ dirSort argsort m vals := by
          rw [hperm.mem_iff, List.mem_range, hvl]; exact hu
        obtain ⟨q, hq, hqu⟩ := List.mem_iff_getElem.mp hu'
        rcases Nat.eq_zero_or_pos q with h0 | h0
        · subst h0
          rw [List.getElem?_eq_getElem (by omega)] at hw2
          simp only [Option.some.injEq] at hw2
          have : w = u := by rw [← hw2, hqu]
          subst this
          rw [hvx] at hvy; cases hvy
          exact betterThan_irrefl m x
        · have := List.pairwise_iff_getElem.mp hpw 0 q (by omega) hq h0
          rw [List.getElem?_eq_getElem (by omega)] at hw2
          simp only [Option.some.injEq] at hw2
          rw [hw2, hqu] at this
          exact this x y hvx hvy
      | succ t =>
        simp only [List.getElem?_cons_succ] at hw'
        have := hrw t w' hw'
        rw [show i + (t + 1) = i + 1 + t by omega]
        exact this

theorem tournaments_error {argsort : List V → List ℕ} {m : Bool} {f : List V}
    {others : List ℕ} {tour : ℕ → List ℕ → List ℕ} {k i : ℕ} (hk : 0 < k)
    (h3 : others.length < 3) : tournaments argsort m f others tour k i = .error .value := by
  cases k with
  | zero => omega
  | succ k => simp [tournaments, h3]

/-- what `select` returns -/
theorem selectIds_ok {argsort : List V → List ℕ} (ha : IsArgsort argsort) {nPop : ℕ} {el : Elitism}
    {m : Bool} {tour : ℕ → List ℕ → List ℕ} (ht : ∀ i, IsTourChoice (tour i)) {f : List V}
    (hf : f.length = nPop)
    (hnone : el ≠ .none) (hint : ∀ k, el = .int k → 1 ≤ k) (hfl : ∀ q, el = .float q → q < 1)
    (h3 : nPop / 2 ≤ eliteCount nPop el ∨ 3 + eliteCount nPop el ≤ nPop) :
    ∃ more, selectIds argsort nPop el m tour f =
        .ok ((dirSort argsort m f).take (eliteCount nPop el) ++ more) ∧
      more.length = nPop / 2 - min (eliteCount nPop el) nPop ∧
      ∀ (t : ℕ) (w : ℕ), more[t]? = some w →
        w ∈ tour t ((dirSort argsort m f).drop (eliteCount nPop el)) ∧ w < nPop ∧
        ∀ j ∈ tour t ((dirSort argsort m f).drop (eliteCount nPop el)), ∀ x y,
          f[w]? = some x → f[j]? = some y → betterThan m y x = false := by
  have hperm := dirSort_perm ha m f
  have hlen : (dirSort argsort m f).length = nPop := by
    rw [hperm.length_eq, List.length_range, hf]
  have hmem : ∀ i ∈ (dirSort argsort m f).drop (eliteCount nPop el), i < f.length := by
    intro i hi
    have := (List.drop_subset _ _) hi
    rw [hperm.mem_iff, List.mem_range] at this
    exact this
  have hnd : ((dirSort argsort m f).drop (eliteCount nPop el)).Nodup :=
    (hperm.nodup_iff.mpr List.nodup_range).sublist (List.drop_sublist _ _)
  have htl : ((dirSort argsort m f).take (eliteCount nPop el)).length =
      min (eliteCount nPop el) nPop := by rw [List.length_take, hlen]
  unfold selectIds
  rw [divide_ok hnone hint hfl]
  simp only [hnone, if_false]
  by_cases hk : nPop / 2 - min (eliteCount nPop el) nPop = 0
  · refine ⟨[], ?_, by rw [hk]; rfl, by simp⟩
    rw [htl, hk]
    simp [tournaments, bind, Except.bind, pure, Except.pure]
  · have h3' : 3 ≤ ((dirSort argsort m f).drop (eliteCount nPop el)).length := by
      rw [List.length_drop, hlen]; omega
    obtain ⟨ws, h1, h2, h4⟩ := tournaments_ok ha (m := m) (f := f) ht hnd hmem h3'
      (nPop / 2 - min (eliteCount nPop el) nPop) 0
    refine ⟨ws, ?_, h2, ?_⟩
    · rw [htl, h1]; simp [bind, Except.bind, pure, Except.pure]
    · intro t w hw
      obtain ⟨a, b, c⟩ := h4 t w hw
      rw [Nat.zero_add] at a c
      exact ⟨a, by rw [← hf]; exact hmem w b, c⟩

/-! ### populate -/

theorem offspringLoop_ok {p_c p_m : K} {n nPop : ℕ} (hn : 3 ≤ n) {cross : ℕ → CrossDraw K}
    (hc : ∀ i, IsCrossDraw n (cross i)) {parents : List (List ℤ)}
    (hp : ∀ g ∈ parents, IsBits n g) :
    ∀ (pairs : List (ℕ × ℕ)) (i : ℕ) (off : List (List ℤ)),
      (∀ p ∈ pairs, p.1 < parents.length ∧ p.2 < parents.length) →
      (∀ g ∈ off, IsBits n g) → off.length + parents.length ≤ nPop →
      Even (nPop - (off.length + parents.length)) →
      nPop ≤ off.length + parents.length + 2 * pairs.length →
      ∃ r, offspringLoop p_c p_m n nPop cross parents i pairs off = .ok r ∧
        r.length + parents.length = nPop ∧ ∀ g ∈ r, IsBits n g := by
  intro pairs
  induction pairs with
  | nil =>
    intro i off _ hoff h1 h2 h3
    simp only [List.length_nil, Nat.mul_zero, Nat.add_zero] at h3
    refine ⟨off, ?_, by omega, hoff⟩
    simp only [offspringLoop, if_neg (show ¬ off.length + parents.length < nPop by omega)]
  | cons pr pairs ih =>
    intro i off hpos hoff h1 h2 h3
    obtain ⟨a, b⟩ := pr
    by_cases hlt : off.length + parents.length < nPop
    · obtain ⟨ha, hb⟩ := hpos (a, b) (by simp)
      simp only at ha hb
      obtain ⟨c1, c2, hcr, hb1, hb2⟩ := crossover_bits (p_c := p_c) (p_m := p_m) hn (hc i)
        (hp _ (List.getElem_mem ha)) (hp _ (List.getElem_mem hb))
      obtain ⟨r, hr1, hr2, hr3⟩ := ih (i + 1) (off ++ [c1, c2])
        (fun p h => hpos p (by simp [h]))
        (by intro g hg; simp only [List.mem_append, List.mem_cons, List.not_mem_nil, or_false] at hg
            rcases hg with h | rfl | rfl
            · exact hoff g h
            · exact hb1
            · exact hb2)
        (by simp only [List.length_append, List.length_cons, List.length_nil]
            obtain ⟨q, hq⟩ := h2; omega)
        (by simp only [List.length_append, List.length_cons, List.length_nil]
            obtain ⟨q, hq⟩ := h2; exact ⟨q - 1, by omega⟩)
        (by simp only [List.length_append, List.length_cons, List.length_nil] at h3 ⊢; omega)
      refine ⟨r, ?_, hr2, hr3⟩
      simp only [offspringLoop, if_pos hlt, pyGet_ok ha, pyGet_ok hb, hcr, bind, Except.bind]
      exact hr1
    · refine ⟨off, ?_, by omega, hoff⟩
      simp only [offspringLoop, if_neg hlt]

theorem parentPositions_ok {pair : ℕ → List ℕ → ℕ × ℕ} (hd : ∀ i, IsPairChoice (pair i)) {n : ℕ}
    (he : Even n) (h2 : n ≠ 2) :
    ∃ ps, parentPositions pair (n + 1) n = some (.ok ps) ∧ 2 * ps.length = n ∧
      (∀ p ∈ ps, p.1 < n ∧ p.2 < n) := by
  obtain ⟨h, rfl⟩ := he
  obtain ⟨ps, h1, h3, h4⟩ := pairLoop_spec hd h (h + h + 1) 0 (h + h)
    (List.replicate (h + h) true) (by rw [trues_replicate]; simp; ring) (by omega) (by omega)
  refine ⟨ps, ?_, by omega, ?_⟩
  · unfold parentPositions; rw [if_neg (by omega)]; exact h1
  · rw [trues_replicate] at h4
    intro p hp
    have ha : p.1 ∈ flat ps := List.mem_flatMap.mpr ⟨p, hp, by simp⟩
    have hb : p.2 ∈ flat ps := List.mem_flatMap.mpr ⟨p, hp, by simp⟩
    rw [h4.mem_iff, List.mem_range] at ha hb
    exact ⟨ha, hb⟩

theorem populateFrom_ok {p_c p_m : K} {n nPop : ℕ} (hn : 3 ≤ n) {pair : ℕ → List ℕ → ℕ × ℕ}
    (hd : ∀ i, IsPairChoice (pair i)) {cross : ℕ → CrossDraw K}
    (hc : ∀ i, IsCrossDraw n (cross i)) {parents : List (List ℤ)}
    (hp : ∀ g ∈ parents, IsBits n g) (hle : parents.length ≤ nPop) (he : Even parents.length)
    (h2 : parents.length ≠ 2) (heN : Even nPop) (hhalf : nPop ≤ 2 * parents.length) :
    ∃ off, populateFrom p_c p_m n nPop pair cross parents = .ok (parents ++ off) ∧
      (parents ++ off).length = nPop ∧ ∀ g ∈ parents ++ off, IsBits n g := by
  by_cases hlt : parents.length < nPop
  · obtain ⟨ps, h3, h4, h5⟩ := parentPositions_ok hd he h2
    obtain ⟨r, hr1, hr2, hr3⟩ := offspringLoop_ok (p_c := p_c) (p_m := p_m) hn hc hp ps 0 [] h5
      (by simp) (by simpa using hle)
      (by obtain ⟨a, ha⟩ := he; obtain ⟨b, hb⟩ := heN; simp only [List.length_nil]; exact ⟨b - a, by omega⟩)
      (by simp only [List.length_nil]; omega)
    refine ⟨r, ?_, by simp only [List.length_append]; omega, ?_⟩
    · unfold populateFrom
      rw [if_pos hlt, h3]
      simp only [hr1]
    · intro g hg
      rcases List.mem_append.mp hg with h | h
      · exact hp g h
      · exact hr3 g h
  · refine ⟨[], ?_, by simp only [List.append_nil]; omega, by simpa using hp⟩
    unfold populateFrom
    rw [if_neg hlt, List.append_nil]

theorem populateFrom_odd {p_c p_m : K} {n nPop : ℕ} {pair : ℕ → List ℕ → ℕ × ℕ}
    {cross : ℕ → CrossDraw K} {parents : List (List ℤ)} (hlt : parents.length < nPop)
    (ho : ¬ Even parents.length) :
    populateFrom p_c p_m n nPop pair cross parents = .error .runtime := by
  unfold populateFrom
  rw [if_pos hlt]
  unfold parentPositions
  rw [if_pos (by rwa [Nat.even_iff] at ho)]

theorem populateFrom_two {p_c p_m : K} {n nPop : ℕ} {pair : ℕ → List ℕ → ℕ × ℕ}
    {cross : ℕ → CrossDraw K} {parents : List (List ℤ)} (hlt : 2 < nPop)
    (h2 : parents.length = 2) :
    populateFrom p_c p_m n nPop pair cross parents = .error .runtime := by
  unfold populateFrom
  rw [if_pos (by omega), h2]
  simp [parentPositions, pairLoop, offspringLoop, h2, hlt]

end Verif.BGA
