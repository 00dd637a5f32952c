import Verif.Proofs.BGASelect
import Verif.Proofs.GAInv
import Mathlib.Algebra.Order.Field.Rat
import Mathlib.Tactic.FieldSimp
import Mathlib.Tactic.Positivity
import Mathlib.Algebra.BigOperators.Ring.List

set_option linter.unusedSectionVars false

namespace Verif.BGA
open Verif Verif.GA
variable {K : Type} [Field K] [LinearOrder K]

theorem flatten_get {α : Type*} {n : ℕ} : ∀ (l : List (List α)), (∀ g ∈ l, g.length = n) →
    ∀ (p j : ℕ), j < n → l.flatten[p * n + j]? = (l[p]?).bind (·[j]?) := by
  intro l
  induction l with
  | nil => intro _ p j _; simp
  | cons g l ih =>
    intro h p j hj
    have hg : g.length = n := h g (by simp)
    cases p with
    | zero =>
      simp only [List.flatten_cons, Nat.zero_mul, Nat.zero_add, List.getElem?_cons_zero,
        Option.bind_some]
      rw [List.getElem?_append_left (by omega)]
    | succ p =>
      simp only [List.flatten_cons, List.getElem?_cons_succ]
      rw [List.getElem?_append_right (by rw [Nat.succ_mul]; omega), ← ih (fun g hg => h g (by simp [hg])) p j hj]
      congr 1
      rw [hg, Nat.succ_mul]; omega

theorem flatten_length {α : Type*} {n : ℕ} (l : List (List α)) (h : ∀ g ∈ l, g.length = n) :
    l.flatten.length = l.length * n := by
  induction l with
  | nil => simp
  | cons g l ih =>
    simp only [List.flatten_cons, List.length_append, List.length_cons]
    rw [ih (fun g hg => h g (by simp [hg])), h g (by simp)]
    ring

/-- the phenotype of one genotype -/
def decodeRow (dim length : ℕ) (ranges : List (K × K)) (row : List ℤ) : List K :=
  (List.range dim).map fun d =>
    let r := ranges.getD d (0, 0)
    ((List.range length).map fun i => ((row.getD (d * length + i) 0 : ℤ) : K) * 2 ^ i).sum
      * ((r.2 - r.1) / (2 ^ length - 2 ^ 0)) + r.1

theorem decode_rows {nPop dim length : ℕ} {ranges : List (K × K)} {gs : List (List ℤ)}
    (hlen : gs.length = nPop) (hrow : ∀ g ∈ gs, g.length = dim * length) :
    decode nPop dim length ranges gs = .ok (gs.map (decodeRow dim length ranges)) := by
  unfold decode
  have hl := flatten_length gs hrow
  rw [if_neg (by rw [hl, hlen]; simp [Nat.mul_assoc])]
  refine congrArg Except.ok ?_
  apply List.ext_getElem?
  intro p
  rw [List.getElem?_map, List.getElem?_map]
  by_cases hp : p < nPop
  · rw [List.getElem?_range hp, List.getElem?_eq_getElem (by omega)]
    simp only [Option.map_some, Option.some.injEq]
    unfold decodeRow
    apply List.map_congr_left
    intro d hd
    rw [List.mem_range] at hd
    have : (List.range length).map (fun i => ((gs.flatten.getD ((p * dim + d) * length + i) 0 : ℤ) : K) * 2 ^ i)
        = (List.range length).map (fun i => ((gs[p].getD (d * length + i) 0 : ℤ) : K) * 2 ^ i) := by
      apply List.map_congr_left
      intro i hi
      rw [List.mem_range] at hi
      have hj : d * length + i < dim * length := by
        calc d * length + i < d * length + length := by omega
          _ = (d + 1) * length := by ring
          _ ≤ dim * length := Nat.mul_le_mul_right _ hd
      have hidx : (p * dim + d) * length + i = p * (dim * length) + (d * length + i) := by ring
      rw [hidx, List.getD_eq_getElem?_getD, List.getD_eq_getElem?_getD,
        flatten_get gs hrow p _ hj, List.getElem?_eq_getElem (show p < gs.length by omega)]
      rfl
    rw [this]
  · rw [List.getElem?_eq_none (by simpa using hp), List.getElem?_eq_none (by omega)]
    rfl

omit [Field K] in
theorem argBest_ok {better : K → K → Bool} {ys : List K} (h : ys ≠ []) :
    ∃ i, argBest better ys = .ok i := by
  cases ys with
  | nil => exact absurd rfl h
  | cons y ys => exact ⟨_, rfl⟩

variable {G X : Type*}

omit [Field K] in
theorem getPhenotypes_succeeds {pb : Problem G X K} {s : Ga G X K} (hs : Consistent pb s)
    {xs : List X} (hd : pb.decode s.genotypes = .ok xs) :
    ∃ t, getPhenotypes pb s = (.ok xs, t) := by
  unfold getPhenotypes
  cases hp : s.phenotypes with
  | none => simp only [hd]; exact ⟨_, rfl⟩
  | some xs' =>
    have := hs.1 _ hp
    rw [hd] at this; cases this
    exact ⟨_, rfl⟩

omit [Field K] in
theorem getFitness_succeeds {pb : Problem G X K} {s : Ga G X K} (hs : Consistent pb s)
    {xs : List X} (hd : pb.decode s.genotypes = .ok xs) {ys : List K}
    (hy : pyMap pb.fnc xs = .ok ys) : ∃ t, getFitness pb s = (.ok ys, t) := by
  unfold getFitness
  cases hf : s.fitness with
  | some ys' =>
    obtain ⟨xs', h1, h2⟩ := hs.2 _ hf
    have := hs.1 _ h1
    rw [hd] at this; cases this
    rw [hy] at h2; cases h2
    exact ⟨_, rfl⟩
  | none =>
    obtain ⟨t, ht⟩ := getPhenotypes_succeeds hs hd
    simp only [ht, evaluate, hy]
    exact ⟨_, rfl⟩

omit [Field K] in
theorem bestCandidate_succeeds {pb : Problem G X K} {s : Ga G X K} (hs : Consistent pb s)
    {xs : List X} (hd : pb.decode s.genotypes = .ok xs) (hl : xs.length = s.genotypes.length)
    {ys : List K} (hy : pyMap pb.fnc xs = .ok ys) (hne : s.genotypes ≠ []) :
    ∃ c t, bestCandidate pb s = (.ok c, t) := by
  obtain ⟨t, ht⟩ := getFitness_succeeds hs hd hy
  have hyl : ys.length = xs.length := (pyMap_eq_ok_iff.mp hy).length_eq.symm
  have hyne : ys ≠ [] := by
    intro h; rw [h] at hyl; simp only [List.length_nil] at hyl
    apply hne; apply List.eq_nil_of_length_eq_zero; omega
  obtain ⟨i, hi⟩ := argBest_ok (better := betterThan pb.minimize) hyne
  obtain ⟨w, hw, -⟩ := argBest_spec hi
  have hil := (List.getElem?_eq_some_iff.mp hw).1
  have htc : Consistent pb t := by have := getFitness_consistent hs; rw [ht] at this; exact this
  have hcore := getFitness_core pb s
  rw [ht] at hcore
  have hd' : pb.decode t.genotypes = .ok xs := by rw [hcore.genotypes]; exact hd
  obtain ⟨u, hu⟩ := getPhenotypes_succeeds htc hd'
  have hcore2 := getPhenotypes_core pb t
  rw [hu] at hcore2
  have hg : u.genotypes = s.genotypes := hcore2.genotypes.trans hcore.genotypes
  unfold bestCandidate
  simp only [ht, hi, hu]
  rw [pyGet_ok (show i < xs.length by omega), pyGet_ok (show i < u.genotypes.length by rw [hg]; omega),
    pyGet_ok hil]
  exact ⟨_, _, rfl⟩

omit [Field K] in
theorem evolve1_succeeds {pb : Problem G X K} {breed : List G → List K → Py (List G)}
    {s : Ga G X K} (hs : Consistent pb s) (hph : s.phase ≠ .dead)
    {xs : List X} (hd : pb.decode s.genotypes = .ok xs) (hl : xs.length = s.genotypes.length)
    {ys : List K} (hy : pyMap pb.fnc xs = .ok ys) (hne : s.genotypes ≠ [])
    (hb : ∃ gs, breed s.genotypes ys = .ok gs ∧ gs ≠ [] ∧ ∃ xs', pb.decode gs = .ok xs' ∧
      xs'.length = gs.length ∧ ∃ ys', pyMap pb.fnc xs' = .ok ys') :
    ∃ t, evolve1 pb breed s = (.ok (), t) := by
  obtain ⟨gs, hgs, hgne, xs', hd', hl', ys', hy'⟩ := hb
  cases hp : s.phase with
  | dead => exact absurd hp hph
  | primed =>
    obtain ⟨c, t, hc⟩ := bestCandidate_succeeds (s := { s with phase := .running }) hs hd hl hy hne
    unfold evolve1 nextEvolver
    simp only [hp, hc]
    exact ⟨_, rfl⟩
  | running =>
    obtain ⟨t, ht⟩ := getFitness_succeeds hs hd hy
    have hcore := getFitness_core pb s
    rw [ht] at hcore
    obtain ⟨c, u, hc⟩ := bestCandidate_succeeds (pb := pb) (s := setGenotypes t gs)
      (by simp [Consistent, setGenotypes]) hd' hl' hy' hgne
    unfold evolve1 nextEvolver
    have hgt : t.genotypes = s.genotypes := hcore.genotypes
    simp only [hp, ht, hgt, hgs, hc]
    exact ⟨_, rfl⟩

theorem pyGets_rows {gs : List (List ℤ)} {ids : List ℕ} (h : ∀ i ∈ ids, i < gs.length) :
    pyGets gs ids = .ok (ids.map fun i => gs.getD i []) := by
  apply pyGets_eq_map
  intro i hi
  rw [List.getD_eq_getElem?_getD, List.getElem?_eq_getElem (h i hi)]
  rfl

/-- settings with which a generation can be produced -/
structure Workable (nPop : ℕ) (el : Elitism) : Prop where
  notNone : el ≠ .none
  int : ∀ k, el = .int k → 1 ≤ k ∧ k < nPop
  float : ∀ q, el = .float q → 0 < q ∧ q < 1
  parity : eliteCount nPop el ≤ nPop / 2 ∨ Even (eliteCount nPop el)

theorem Workable.count_lt {nPop : ℕ} {el : Elitism} (h : Workable nPop el) (hN : 0 < nPop) :
    eliteCount nPop el < nPop := by
  cases el with
  | none => exact absurd rfl h.notNone
  | int k => have := h.int k rfl; simp only [eliteCount]; omega
  | float q =>
    have := h.float q rfl
    simp only [eliteCount]
    have h1 : ⌊(nPop : ℚ) * q⌋ < (nPop : ℤ) := by
      rw [Int.floor_lt]
      have : (0 : ℚ) < nPop := by exact_mod_cast hN
      push_cast
      nlinarith [h.float q rfl]
    omega

/-- one generation of the binary GA -/
theorem breed_ok {V : Type} [LinearOrder V] {cfg : Config K} {argsort : List V → List ℕ} (ha : IsArgsort argsort)
    {D : CycleDraws K} (hD : IsCycleDraws (cfg.dim * cfg.length) D)
    (hN4 : 4 ∣ cfg.nPop) (hN8 : 8 ≤ cfg.nPop) (hn : 3 ≤ cfg.dim * cfg.length)
    (hel : Workable cfg.nPop cfg.elitism)
    {gs : List (List ℤ)} (hgl : gs.length = cfg.nPop)
    (hgb : ∀ g ∈ gs, IsBits (cfg.dim * cfg.length) g) {f : List V} (hf : f.length = cfg.nPop) :
    ∃ rest, breed cfg argsort D gs f =
        .ok (((dirSort argsort cfg.minimize f).take (eliteCount cfg.nPop cfg.elitism)).map
              (fun i => gs.getD i []) ++ rest) ∧
      ∀ gs', breed cfg argsort D gs f = .ok gs' → gs'.length = cfg.nPop ∧
        ∀ g ∈ gs', IsBits (cfg.dim * cfg.length) g := by
  have hlt := hel.count_lt (by omega)
  obtain ⟨more, h1, h2, h3⟩ := selectIds_ok ha (m := cfg.minimize) hD.tour hf hel.notNone
    (fun k hk => (hel.int k hk).1) (fun q hq => (hel.float q hq).2) (by omega)
  have hperm := dirSort_perm ha cfg.minimize f
  have hids : ∀ i ∈ (dirSort argsort cfg.minimize f).take (eliteCount cfg.nPop cfg.elitism) ++ more,
      i < gs.length := by
    intro i hi
    rcases List.mem_append.mp hi with h | h
    · have := List.take_subset _ _ h
      rw [hperm.mem_iff, List.mem_range] at this
      omega
    · obtain ⟨t, ht⟩ := List.mem_iff_getElem?.mp h
      have := (h3 t i ht).2.1
      omega
  have hrows := pyGets_rows hids
  set ids := (dirSort argsort cfg.minimize f).take (eliteCount cfg.nPop cfg.elitism) ++ more with hidsdef
  have hidl : ids.length = max (eliteCount cfg.nPop cfg.elitism) (cfg.nPop / 2) := by
    rw [hidsdef, List.length_append, List.length_take, hperm.length_eq, List.length_range, h2, hf]
    omega
  have hpb : ∀ g ∈ ids.map (fun i => gs.getD i []), IsBits (cfg.dim * cfg.length) g := by
    intro g hg
    obtain ⟨i, hi, rfl⟩ := List.mem_map.mp hg
    have := hids i hi
    rw [List.getD_eq_getElem?_getD, List.getElem?_eq_getElem this]
    exact hgb _ (List.getElem_mem this)
  have hev : Even (max (eliteCount cfg.nPop cfg.elitism) (cfg.nPop / 2)) := by
    rcases hel.parity with h | h
    · rw [max_eq_right h]; obtain ⟨q, hq⟩ := hN4; exact ⟨q, by omega⟩
    · rcases max_cases (eliteCount cfg.nPop cfg.elitism) (cfg.nPop / 2) with ⟨h', -⟩ | ⟨h', -⟩
      · rw [h']; exact h
      · rw [h']; obtain ⟨q, hq⟩ := hN4; exact ⟨q, by omega⟩
  obtain ⟨off, ho1, ho2, ho3⟩ := populateFrom_ok (p_c := cfg.p_c) (p_m := cfg.p_m)
    (nPop := cfg.nPop) hn hD.pair hD.cross hpb
    (by rw [List.length_map, hidl]; omega) (by rw [List.length_map, hidl]; exact hev)
    (by rw [List.length_map, hidl]; omega) (by obtain ⟨q, hq⟩ := hN4; exact ⟨2 * q, by omega⟩)
    (by rw [List.length_map, hidl]; omega)
  have hbreed : breed cfg argsort D gs f = .ok (ids.map (fun i => gs.getD i []) ++ off) := by
    unfold breed
    rw [h1]
    simp only
    rw [hrows]
    exact ho1
  refine ⟨more.map (fun i => gs.getD i []) ++ off, ?_, ?_⟩
  · rw [hbreed, hidsdef, List.map_append, List.append_assoc]
  · intro gs' h
    rw [hbreed] at h
    cases h
    exact ⟨ho2, ho3⟩

/-- a well-formed population -/
def Good (cfg : Config K) (gs : List (List ℤ)) : Prop :=
  gs.length = cfg.nPop ∧ ∀ g ∈ gs, IsBits (cfg.dim * cfg.length) g

theorem good_decode {cfg : Config K} {gs : List (List ℤ)} (h : Good cfg gs) (fnc : List K → Py K) :
    (problem cfg fnc).decode gs = .ok (gs.map (decodeRow cfg.dim cfg.length cfg.ranges)) :=
  decode_rows h.1 fun g hg => (h.2 g hg).1

theorem pyMap_total {α β : Type*} {f : α → Py β} (hf : ∀ a, ∃ b, f a = .ok b) (l : List α) :
    ∃ r, pyMap f l = .ok r := by
  choose g hg using hf
  exact ⟨_, pyMap_ok (g := g) fun a _ => hg a⟩

/-- the optimizer between cycles -/
structure RunInv (cfg : Config K) (fnc : List K → Py K) (s : Ga (List ℤ) (List K) K) : Prop where
  cons : Consistent (problem cfg fnc) s
  good : Good cfg s.genotypes
  phase : s.phase ≠ .dead

theorem evolve1_runInv {cfg : Config K} {argsort : List K → List ℕ} (ha : IsArgsort argsort)
    {D : CycleDraws K} (hD : IsCycleDraws (cfg.dim * cfg.length) D)
    (hN4 : 4 ∣ cfg.nPop) (hN8 : 8 ≤ cfg.nPop) (hn : 3 ≤ cfg.dim * cfg.length)
    (hel : Workable cfg.nPop cfg.elitism) {fnc : List K → Py K} (hfnc : ∀ x, ∃ y, fnc x = .ok y)
    {s : Ga (List ℤ) (List K) K} (hs : RunInv cfg fnc s) :
    ∃ t, evolve1 (problem cfg fnc) (breed cfg argsort D) s = (.ok (), t) ∧ RunInv cfg fnc t ∧
      t.phase = .running ∧
      (s.phase = .primed → t.genotypes = s.genotypes) ∧
      (s.phase = .running → ∃ ys rest,
        pyMap fnc (s.genotypes.map (decodeRow cfg.dim cfg.length cfg.ranges)) = .ok ys ∧
        t.genotypes =
          ((dirSort argsort cfg.minimize ys).take (eliteCount cfg.nPop cfg.elitism)).map
              (fun i => s.genotypes.getD i []) ++ rest) := by
  have hd := good_decode hs.good fnc
  obtain ⟨ys, hy⟩ := pyMap_total hfnc (s.genotypes.map (decodeRow cfg.dim cfg.length cfg.ranges))
  have hyl : ys.length = cfg.nPop := by
    rw [← (pyMap_eq_ok_iff.mp hy).length_eq, List.length_map, hs.good.1]
  obtain ⟨rest, hb, hgood⟩ := breed_ok ha hD hN4 hN8 hn hel hs.good.1 hs.good.2 hyl
  have hgood' := hgood _ hb
  have hne : ∀ gs : List (List ℤ), gs.length = cfg.nPop → gs ≠ [] := by
    rintro gs h rfl; simp at h; omega
  obtain ⟨ys', hy'⟩ := pyMap_total hfnc ((((dirSort argsort cfg.minimize ys).take
    (eliteCount cfg.nPop cfg.elitism)).map (fun i => s.genotypes.getD i []) ++ rest).map
      (decodeRow cfg.dim cfg.length cfg.ranges))
  obtain ⟨t, ht⟩ := evolve1_succeeds (breed := breed cfg argsort D) hs.cons hs.phase hd (by simp) hy
    (hne _ hs.good.1) ⟨_, hb, hne _ hgood'.1, _, good_decode ⟨hgood'.1, hgood'.2⟩ fnc, by simp, ys', hy'⟩
  obtain ⟨s1, c, hnx, -, htc, htg, htp, -, -, -, -, u, -, -, rfl⟩ := evolve1_ok hs.cons ht
  have hkey : (s.phase = .primed → s1.genotypes = s.genotypes) ∧
      (s.phase = .running → s1.genotypes =
          ((dirSort argsort cfg.minimize ys).take (eliteCount cfg.nPop cfg.elitism)).map
              (fun i => s.genotypes.getD i []) ++ rest) := by
    constructor
    · intro hp; rw [nextEvolver_primed hp hnx]
    · intro hp
      obtain ⟨xs2, ys2, gs2, e1, e2, e3, e4, -, -⟩ := nextEvolver_running hs.cons hp hnx
      rw [hd] at e1; cases e1
      have e2' : pyMap fnc _ = _ := e2
      rw [hy] at e2'; cases e2'
      rw [hb] at e3; cases e3
      exact e4
  refine ⟨_, ht, ⟨htc, ?_, by rw [htp]; simp⟩, htp, ?_, ?_⟩
  · rw [htg]
    cases hp : s.phase with
    | dead => exact absurd hp hs.phase
    | primed => rw [hkey.1 hp]; exact hs.good
    | running => rw [hkey.2 hp]; exact hgood'
  · intro hp; rw [htg]; exact hkey.1 hp
  · intro hp; exact ⟨ys, rest, hy, by rw [htg]; exact hkey.2 hp⟩

theorem initial_ok {cfg : Config K} {D : CycleDraws K} (hD : IsCycleDraws (cfg.dim * cfg.length) D)
    (hN4 : 4 ∣ cfg.nPop) (hN8 : 8 ≤ cfg.nPop) (hn : 3 ≤ cfg.dim * cfg.length)
    {pool : List (List ℤ)} (hp : IsPool cfg.nPop (cfg.dim * cfg.length) pool) :
    ∃ gs, initial cfg D pool = .ok gs ∧ Good cfg gs := by
  obtain ⟨q, hq⟩ := hN4
  obtain ⟨off, h1, h2, h3⟩ := populateFrom_ok (p_c := cfg.p_c) (p_m := cfg.p_m) (nPop := cfg.nPop) hn
    hD.pair hD.cross (parents := pool) (fun g hg => hp.bits g hg) (by rw [hp.rows]; omega)
    (by rw [hp.rows]; exact ⟨q, by omega⟩) (by rw [hp.rows]; omega) ⟨2 * q, by omega⟩
    (by rw [hp.rows]; omega)
  exact ⟨_, h1, h2, h3⟩

theorem cycles_runInv {cfg : Config K} {argsort : List K → List ℕ} (ha : IsArgsort argsort)
    {D : ℕ → CycleDraws K} (hD : ∀ i, IsCycleDraws (cfg.dim * cfg.length) (D i))
    (hN4 : 4 ∣ cfg.nPop) (hN8 : 8 ≤ cfg.nPop) (hn : 3 ≤ cfg.dim * cfg.length)
    (hel : Workable cfg.nPop cfg.elitism) {fnc : List K → Py K} (hfnc : ∀ x, ∃ y, fnc x = .ok y)
    {s : Ga (List ℤ) (List K) K} (hs : RunInv cfg fnc s) :
    ∀ k, ∃ t, cycles (problem cfg fnc) (fun i => breed cfg argsort (D i)) k s = (.ok (), t) ∧
      RunInv cfg fnc t ∧ (1 ≤ k → t.phase = .running) := by
  intro k
  induction k with
  | zero => exact ⟨s, rfl, hs, by omega⟩
  | succ k ih =>
    obtain ⟨t, ht, hi, -⟩ := ih
    obtain ⟨u, hu, hui, hup, -⟩ := evolve1_runInv ha (hD k) hN4 hN8 hn hel hfnc hi
    refine ⟨u, ?_, hui, fun _ => hup⟩
    simp only [cycles, ht, hu]

end Verif.BGA
