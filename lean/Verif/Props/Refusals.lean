import Verif.Props.LP
import Verif.Props.TensorOps
import Verif.Props.Lagrange
import Verif.Props.Sparse
import Verif.Props.BGA
import Verif.Props.UtilsMore
import Verif.Props.GA

/-!
# What is refused, and what a linear programming problem is made of

Statements about the branches in which functions of several modules refuse their arguments, and
C95 about the constructor of `LinearProgrammingProblem`.
-/

set_option linter.unusedSectionVars false

namespace Verif.LP.Props
open Verif Verif.LP

variable {V K I B : Type} [DecidableEq V] [Field K] [DecidableEq K]

/-- What the documentation asks for: variables are given, the objective is a symbolic function, all
constraints are symbolic relations, all variables are symbols and each of them occurs among the
variables of the objective or of a constraint. -/
structure Acceptable (obj : Arg (Func V K × Bool)) (constraints : List (Arg (Constraint V K)))
    (vars : Option (List (Arg V))) (f : Func V K) (cs : List (Constraint V K)) (vs : List V) :
    Prop where
  obj : obj = .good (f, true)
  constraints : constraints = cs.map .good
  symbolic : ∀ c ∈ cs, c.symbolic = true
  vars : vars = some (vs.map .good)
  used : ∀ v ∈ vs, v ∈ f.vars ∨ ∃ c ∈ cs, v ∈ c.fn.vars

theorem pyMap_good_ok {α β : Type} (g : α → Py β) (emb : β → α)
    (inv : ∀ a b, g a = .ok b → a = emb b) (l : List α) (r : List β) (h : pyMap g l = .ok r) :
    l = r.map emb ∧ ∀ b ∈ r, g (emb b) = .ok b := by
  induction l generalizing r with
  | nil => simp [pyMap] at h; subst h; simp
  | cons a l ih =>
    rw [pyMap] at h
    cases ha : g a with
    | error e => rw [ha] at h; cases h
    | ok b =>
      rw [ha] at h
      cases hl : pyMap g l with
      | error e => rw [hl] at h; cases h
      | ok bs =>
        rw [hl] at h
        have : r = b :: bs := by cases h; rfl
        subst this
        obtain ⟨h1, h2⟩ := ih bs hl
        have e := inv a b ha
        subst e
        refine ⟨by simp [h1], ?_⟩
        intro c hc
        rcases List.mem_cons.1 hc with rfl | hc
        · exact ha
        · exact h2 c hc

theorem pyMap_good {α β : Type} (g : α → Py β) (emb : β → α) (r : List β)
    (h : ∀ b ∈ r, g (emb b) = .ok b) : pyMap g (r.map emb) = .ok r := by
  induction r with
  | nil => rfl
  | cons b r ih =>
    rw [List.map_cons, pyMap, h b (by simp), ih (fun c hc => h c (by simp [hc]))]
    rfl

/-- The check of one constraint. -/
theorem init_eq (f : Func V K) (constraints : List (Arg (Constraint V K))) (vl : List (Arg V))
    (bounds : B) (integrality : Option I) (sparsify : Bool) :
    init (.good (f, true)) constraints (some vl) bounds integrality sparsify =
      (pyMap (fun c : Arg (Constraint V K) => match c with
        | .good c => if c.symbolic then (.ok c : Py _) else .error .value
        | .bad => .error .type) constraints).bind fun cs =>
      (pyMap (fun v : Arg V => match v with
        | .good v => (.ok v : Py _)
        | .bad => .error .type) vl).bind fun vs =>
      if ¬ vs.all (· ∈ f.vars ++ (cs.map fun c => c.fn.vars).flatten) then .error .value
      else .ok ⟨f, cs, vs, bounds, integrality, sparsify⟩ := by
  unfold init
  simp only [bind, Except.bind, pure, Except.pure]
  cases pyMap (fun c : Arg (Constraint V K) => match c with
        | .good c => if c.symbolic then (.ok c : Py _) else .error .value
        | .bad => .error .type) constraints with
  | error e => rfl
  | ok cs =>
    cases pyMap (fun v : Arg V => match v with
        | .good v => (.ok v : Py _)
        | .bad => .error .type) vl with
    | error e => rfl
    | ok vs =>
      by_cases h : vs.all (· ∈ f.vars ++ (cs.map fun c => c.fn.vars).flatten) <;> simp [h]

theorem checkC_ok (cs : List (Constraint V K)) (h : ∀ c ∈ cs, c.symbolic = true) :
    pyMap (fun c : Arg (Constraint V K) => match c with
        | .good c => if c.symbolic then (.ok c : Py _) else .error .value
        | .bad => .error .type) (cs.map .good) = .ok cs :=
  pyMap_good _ _ _ fun c hc => by simp [h c hc]

theorem checkC_inv (l : List (Arg (Constraint V K))) (cs : List (Constraint V K))
    (h : pyMap (fun c : Arg (Constraint V K) => match c with
        | .good c => if c.symbolic then (.ok c : Py _) else .error .value
        | .bad => .error .type) l = .ok cs) :
    l = cs.map .good ∧ ∀ c ∈ cs, c.symbolic = true := by
  have key := pyMap_good_ok _ Arg.good (by
    rintro (c | _) b hb
    · dsimp only at hb
      split at hb
      · cases hb; rfl
      · cases hb
    · cases hb) l cs h
  refine ⟨key.1, fun c hc => ?_⟩
  have := key.2 c hc
  by_contra hn
  simp [hn] at this

theorem checkV_ok (vs : List V) : pyMap (fun v : Arg V => match v with
        | .good v => (.ok v : Py _)
        | .bad => .error .type) (vs.map .good) = .ok vs :=
  pyMap_good _ _ _ fun _ _ => rfl

theorem checkV_inv (l : List (Arg V)) (vs : List V)
    (h : pyMap (fun v : Arg V => match v with
        | .good v => (.ok v : Py _)
        | .bad => .error .type) l = .ok vs) : l = vs.map .good := by
  refine (pyMap_good_ok _ Arg.good ?_ l vs h).1
  rintro (c | _) b hb
  · cases hb; rfl
  · cases hb

theorem pyMap_first {α β : Type} (g : α → Py β) (emb : β → α) (r : List β) (a : α) (rest : List α)
    (e : PyErr) (h : ∀ b ∈ r, g (emb b) = .ok b) (ha : g a = .error e) :
    pyMap g (r.map emb ++ a :: rest) = .error e := by
  induction r with
  | nil => rw [List.map_nil, List.nil_append, pyMap, ha]; rfl
  | cons b r ih =>
    rw [List.map_cons, List.cons_append, pyMap, h b (by simp), ih (fun c hc => h c (by simp [hc]))]
    rfl

theorem checkV_bad (l : List (Arg V)) (h : Arg.bad ∈ l) : pyMap (fun v : Arg V => match v with
        | .good v => (.ok v : Py _)
        | .bad => .error .type) l = .error .type := by
  induction l with
  | nil => simp at h
  | cons a l ih =>
    cases a with
    | bad => rfl
    | good v =>
      rw [pyMap, ih (by simpa using h)]
      rfl

/-- **C95.** A problem is made exactly from acceptable arguments, and it consists of what was
given: the objective, the constraints and the variables in the given order, the bounds, the
integrality and the choice of the matrix format. -/
theorem C95_accepts (obj : Arg (Func V K × Bool)) (constraints : List (Arg (Constraint V K)))
    (vars : Option (List (Arg V))) (bounds : B) (integrality : Option I) (sparsify : Bool)
    (p : Problem V K I B) :
    init obj constraints vars bounds integrality sparsify = .ok p ↔
      Acceptable obj constraints vars p.obj p.constraints p.vars ∧
        p.bounds = bounds ∧ p.integrality = integrality ∧ p.sparsify = sparsify := by
  constructor
  · intro h
    cases vars with
    | none => cases h
    | some vl =>
      rcases obj with ⟨f, _ | _⟩ | _
      · cases h
      · rw [init_eq] at h
        cases hc : pyMap (fun c : Arg (Constraint V K) => match c with
            | .good c => if c.symbolic then (.ok c : Py _) else .error .value
            | .bad => .error .type) constraints with
        | error e => rw [hc] at h; cases h
        | ok cs =>
          rw [hc] at h
          cases hv : pyMap (fun v : Arg V => match v with
              | .good v => (.ok v : Py _)
              | .bad => .error .type) vl with
          | error e => rw [hv] at h; cases h
          | ok vs =>
            rw [hv] at h
            simp only [Except.bind] at h
            split at h
            · cases h
            · rename_i hu
              cases h
              obtain ⟨h1, h2⟩ := checkC_inv _ _ hc
              refine ⟨⟨rfl, h1, h2, by rw [checkV_inv _ _ hv], ?_⟩, rfl, rfl, rfl⟩
              intro v hv
              have hu' : ∀ x ∈ vs, x ∉ f.vars → ∃ c ∈ cs, x ∈ c.fn.vars := by simpa using hu
              exact or_iff_not_imp_left.2 (hu' v hv)
      · cases h
  · rintro ⟨h, h1, h2, h3⟩
    rw [h.obj, h.constraints, h.vars, init_eq, checkC_ok _ h.symbolic, checkV_ok]
    simp only [Except.bind]
    rw [if_neg (by simpa using fun x hx => or_iff_not_imp_left.1 (h.used x hx))]
    subst h1 h2 h3
    rfl

/-- **C95.** What is wrong decides about the exception, the first in the order: missing variables,
the objective, the constraints (the first bad one in the given order), the variables. -/
theorem C95_refuses (obj : Arg (Func V K × Bool)) (constraints : List (Arg (Constraint V K)))
    (vars : Option (List (Arg V))) (bounds : B) (integrality : Option I) (sparsify : Bool) :
    (vars = none → init obj constraints vars bounds integrality sparsify = .error .value) ∧
    (vars ≠ none → obj = .bad →
      init obj constraints vars bounds integrality sparsify = .error .type) ∧
    (∀ f, vars ≠ none → obj = .good (f, false) →
      init obj constraints vars bounds integrality sparsify = .error .value) ∧
    (∀ f (cs : List (Constraint V K)) rest, vars ≠ none → obj = .good (f, true) →
      (∀ c ∈ cs, c.symbolic = true) → constraints = cs.map .good ++ .bad :: rest →
      init obj constraints vars bounds integrality sparsify = .error .type) ∧
    (∀ f (cs : List (Constraint V K)) (c : Constraint V K) rest, vars ≠ none →
      obj = .good (f, true) → (∀ c ∈ cs, c.symbolic = true) →
      c.symbolic = false → constraints = cs.map .good ++ .good c :: rest →
      init obj constraints vars bounds integrality sparsify = .error .value) ∧
    (∀ f (cs : List (Constraint V K)) vs, obj = .good (f, true) → (∀ c ∈ cs, c.symbolic = true) →
      constraints = cs.map .good → vars = some vs → .bad ∈ vs →
      init obj constraints vars bounds integrality sparsify = .error .type) ∧
    (∀ f (cs : List (Constraint V K)) (vs : List V) v, obj = .good (f, true) →
      (∀ c ∈ cs, c.symbolic = true) →
      constraints = cs.map .good → vars = some (vs.map .good) → v ∈ vs → v ∉ f.vars →
      (∀ c ∈ cs, v ∉ c.fn.vars) →
      init obj constraints vars bounds integrality sparsify = .error .value) := by
  refine ⟨?_, ?_, ?_, ?_, ?_, ?_, ?_⟩
  · rintro rfl; rfl
  · rintro hv rfl
    obtain ⟨vl, rfl⟩ := Option.ne_none_iff_exists'.1 hv
    rfl
  · rintro f hv rfl
    obtain ⟨vl, rfl⟩ := Option.ne_none_iff_exists'.1 hv
    rfl
  · rintro f cs rest hv rfl hs rfl
    obtain ⟨vl, rfl⟩ := Option.ne_none_iff_exists'.1 hv
    rw [init_eq, pyMap_first _ Arg.good cs .bad rest .type (fun c hc => by simp [hs c hc]) rfl]
    rfl
  · rintro f cs c rest hv rfl hs hc rfl
    obtain ⟨vl, rfl⟩ := Option.ne_none_iff_exists'.1 hv
    rw [init_eq, pyMap_first _ Arg.good cs (.good c) rest .value (fun c hc => by simp [hs c hc])
      (by simp [hc])]
    rfl
  · rintro f cs vs rfl hs rfl rfl hb
    rw [init_eq, checkC_ok _ hs, checkV_bad _ hb]
    rfl
  · rintro f cs vs v rfl hs rfl rfl hv h1 h2
    rw [init_eq, checkC_ok _ hs, checkV_ok]
    simp only [Except.bind]
    rw [if_pos]
    intro hall
    have := List.all_eq_true.1 hall v hv
    simp only [decide_eq_true_eq, List.mem_append, List.mem_flatten, List.mem_map] at this
    rcases this with h | ⟨_, ⟨c, hc, rfl⟩, h⟩
    · exact h1 h
    · exact h2 c hc h

/-- Minimize `x` subject to `x - 2 ≤ 0`; the symbol 7 occurs nowhere. -/
example (a : Rel.Attrs ℚ) :
    Acceptable (.good (⟨[0], [([0], 1)]⟩, true)) [.good ⟨a, ⟨[0], [([0], 1), ([], -2)]⟩, true⟩]
        (some [.good 0]) (⟨[0], [([0], 1)]⟩ : Func ℕ ℚ) [⟨a, ⟨[0], [([0], 1), ([], -2)]⟩, true⟩] [0] ∧
      init (I := ℕ) (.good ((⟨[0], [([0], 1)]⟩ : Func ℕ ℚ), true))
        [.good ⟨a, ⟨[0], [([0], 1), ([], -2)]⟩, true⟩] (some [.good 0, .good 7]) () none true =
          .error .value := by
  refine ⟨⟨rfl, rfl, by simp, rfl, by simp⟩, ?_⟩
  exact (C95_refuses _ _ _ _ _ _).2.2.2.2.2.2 ⟨[0], [([0], 1)]⟩
    [⟨a, ⟨[0], [([0], 1), ([], -2)]⟩, true⟩] [0, 7] 7 rfl (by simp) rfl rfl (by simp) (by simp)
    (by simp)

end Verif.LP.Props

namespace Verif.Sparse.Props
open Verif Verif.Sparse

/-- C27: row indices below `-(n + 1)` raise, too. -/
theorem C27_row_below_range {α : Type} (n : ℕ) (c : Csr α) (hl : c.indptr.length = n + 1) (i : ℤ)
    (hi : i < -((n : ℤ) + 1)) : c.row i = .error .index ∧ c.irow i = .error .index := by
  have h : pyIdx c.indptr i = .error .index := by
    unfold pyIdx
    rw [if_neg (by omega), if_neg (by rw [hl]; push_cast; omega)]
  unfold Csr.row Csr.irow
  rw [h]
  exact ⟨rfl, rfl⟩

example : (⟨[1, 2, 3], [0, 2, 1], [0, 2, 3], (2, 3)⟩ : Csr ℤ).row (-4) = .error .index :=
  (C27_row_below_range 2 _ rfl (-4) (by norm_num)).1

end Verif.Sparse.Props

namespace Verif.Lag.Props
open Verif Verif.Lag

/-- C56: without a number of points, nodes or indices nothing is generated. -/
theorem C56_nothing_given {K : Type} [Field K] [DecidableEq K] (symbol : ℕ → K) (a : Args K)
    (hN : a.N = none) (hx : a.x = none) (hi : a.i = none) :
    genLagrange symbol a = .error .assertion := by
  unfold genLagrange count
  rw [hN, hx, hi]
  rfl

/-- C56: different numbers of points and values are refused. -/
theorem C56_different_numbers {K : Type} [Field K] [DecidableEq K] (symbol : ℕ → K)
    (points values : List K) (h : points.length ≠ values.length) :
    approxLagrange symbol points values = .error .assertion := by
  unfold approxLagrange
  rw [if_pos h]
  rfl

example : approxLagrange (K := ℚ) (fun k => k) [0, 1, 2] [5, 6] = .error .assertion :=
  C56_different_numbers _ _ _ (by decide)

end Verif.Lag.Props

namespace Verif.Utils.Props
open Verif Verif.Utils

/-- C33: `bool_to_float` keeps the length and puts the value given for `True` (`False`) where the
array is true (false). -/
theorem C33_bool_to_float {K : Type} (a : List Bool) (true_ false_ : K) :
    (boolToFloat a true_ false_).length = a.length ∧
      ∀ i : ℕ, (a[i]? = some true → (boolToFloat a true_ false_)[i]? = some true_) ∧
        (a[i]? = some false → (boolToFloat a true_ false_)[i]? = some false_) := by
  refine ⟨by simp [boolToFloat], fun i => ⟨fun h => ?_, fun h => ?_⟩⟩ <;>
    simp [boolToFloat, h]

example : boolToFloat [true, false] (1 : ℚ) (-2) = [1, -2] := rfl

end Verif.Utils.Props

namespace Verif.Frames.Props
open Verif Verif.Frames

variable {n : ℕ} {K : Type} [Field K] [LinearOrder K] [IsStrictOrderedRing K]

/-- C47: sums and differences of objects of different classes are refused, and so are those of
general tensors of different orders; nothing is broadcast. -/
theorem C47_mixed_refused (cfg : Cfg K) (f : K → K → K) (F G : Frame n K) (v : Fin n → K)
    (A : Mat n K) (r s : ℕ) (x : (Fin r → Fin n) → K) (y : (Fin s → Fin n) → K) :
    binary cfg f ⟨.vec v, F⟩ (.tensor ⟨.ten2 A, G⟩) = .error .type ∧
      binary cfg f ⟨.ten2 A, F⟩ (.tensor ⟨.vec v, G⟩) = .error .type ∧
      binary cfg f ⟨.vec v, F⟩ (.tensor ⟨.gen r x, G⟩) = .error .type ∧
      binary cfg f ⟨.gen r x, F⟩ (.tensor ⟨.vec v, G⟩) = .error .type ∧
      binary cfg f ⟨.ten2 A, F⟩ (.tensor ⟨.gen r x, G⟩) = .error .type ∧
      binary cfg f ⟨.gen r x, F⟩ (.tensor ⟨.ten2 A, G⟩) = .error .type ∧
      (r ≠ s → binary cfg f ⟨.gen r x, F⟩ (.tensor ⟨.gen s y, G⟩) = .error .shapeMismatch) := by
  refine ⟨rfl, rfl, rfl, rfl, rfl, rfl, fun h => ?_⟩
  simp [binary, Comps.sameClass, Comps.zip, h]

/-- C47: tensors are multiplied with and divided by numbers only; anything else is a TypeError, out of place and in place. -/
theorem C47_scale_refused (a b : Tensor n K) :
    (mul a (.tensor b) = .error .type ∧ imul a (.tensor b) = .error .type ∧ truediv a (.tensor b) = .error .type ∧
      itruediv a (.tensor b) = .error .type) ∧
    mul a .other = .error .type ∧ imul a .other = .error .type ∧ truediv a .other = .error .type ∧
      itruediv a .other = .error .type := by
  refine ⟨⟨?_, ?_, ?_, ?_⟩, ?_, ?_, ?_, ?_⟩ <;> rfl

end Verif.Frames.Props

namespace Verif.BGA.Props
open Verif Verif.GA Verif.GA.Props Verif.BGA

variable {K : Type} [Field K] [LinearOrder K]

/-- C05 for the binary GA: the champion is one of the decoded individuals of the history, mirrored by
the state, and none of them is better in the direction of the optimizer. -/
theorem C05_bga (cfg : Config K) (fnc : List K → Py K) (gs0 : List (List ℤ))
    (s' s : Ga (List ℤ) (List K) K) (ops : List (Op (List ℤ) K)) (hcyc : ∃ o ∈ ops, IsCycle o)
    (hrun : runOps (problem cfg fnc) ops (reset (.ok gs0) s').2 = (.ok (), s)) :
    ∃ c, s.champion = some c ∧
      s.state.x = some c.phenotype ∧ s.state.fn = some c.fitness ∧
      fnc c.phenotype = .ok c.fitness ∧
      (∃ pre, pre <+: ops ∧ ∃ sp, runOps (problem cfg fnc) pre (reset (.ok gs0) s').2 = (.ok (), sp) ∧
        ∃ (j : ℕ) (xs : List (List K)), decode cfg.nPop cfg.dim cfg.length cfg.ranges sp.genotypes = .ok xs ∧
          sp.genotypes[j]? = some c.genotype ∧ xs[j]? = some c.phenotype) ∧
      (∀ pre, pre <+: ops → ∀ sp,
        runOps (problem cfg fnc) pre (reset (.ok gs0) s').2 = (.ok (), sp) →
        ∀ xs, decode cfg.nPop cfg.dim cfg.length cfg.ranges sp.genotypes = .ok xs →
        ∀ (j : ℕ) (g : List ℤ) (x : List K) (y : K), sp.genotypes[j]? = some g → xs[j]? = some x →
          fnc x = .ok y →
          (cfg.minimize = true → c.fitness ≤ y) ∧ (cfg.minimize = false → y ≤ c.fitness)) := by
  obtain ⟨c, h1, h2, h3, ⟨pre, hp, sp, hsp, j, xs, m1, m2, m3, m4⟩, h5⟩ :=
    C05_champion_is_best (problem cfg fnc) gs0 s' s ops hcyc hrun
  refine ⟨c, h1, h2, h3, m4, ⟨pre, hp, sp, hsp, j, xs, m1, m2, m3⟩, ?_⟩
  intro pre' hp' sp' hsp' xs' k1 j' g x y k2 k3 k4
  have := h5 pre' hp' sp' hsp' g x y ⟨j', xs', k1, k2, k3, k4⟩
  have e : (problem cfg fnc).minimize = cfg.minimize := rfl
  rw [e] at this
  constructor <;> intro hm <;> simpa [Beats, hm] using this

end Verif.BGA.Props
