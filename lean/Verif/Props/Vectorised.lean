import Verif.Proofs.Vectorised
import Verif.Props.GAObject

/-!
# C133: symbolic functions called with many points, and as objectives of a genetic algorithm
-/

set_option linter.unusedSectionVars false

namespace Verif.Vec.Props
open Verif Verif.Vec

section
variable {U B K : Type}

/-- C133, calls: let a function mention at least one of its variables. Called with an array whose columns are `n` points it
gives an array of `n` values, and the j-th of them is what a call with the j-th point gives, whatever the operations
compute. -/
theorem C133_values_partial (o : Ops U B K) (f : Fn U B K) (hf : ∀ x ∈ f.expr.free, x ∈ f.vars) (hne : f.expr.free ≠ [])
    {n : ℕ} (p : Fin n → Fin f.vars.length → K) :
    ∃ v : Fin n → K,
      f.call o (List.ofFn fun i => .array (List.ofFn fun j => p j i)) = .ok (.array (List.ofFn v)) ∧
      ∀ j, f.call o (List.ofFn fun i => .scalar (p j i)) = .ok (.scalar (v j)) := by
  obtain ⟨v, h1, h2, -⟩ := lambda_both o f.vars f.expr hf p
  refine ⟨v, ?_, fun j => ?_⟩
  · simp only [Fn.call, lambda, List.length_ofFn, ne_eq, not_true, if_false, h2 hne]
  · simp only [Fn.call, lambda, List.length_ofFn, ne_eq, not_true, if_false, h1 j]

/-- C133 fails for functions that mention none of their variables: whatever the number of points, the answer is one
number. -/
theorem C133_constant_violated (o : Ops U B K) (f : Fn U B K) (hc : f.expr.free = []) :
    ∃ c : K, ∀ xs : List (Val K), xs.length = f.vars.length → f.call o xs = .ok (.scalar c) := by
  by_cases hk : Nonempty K
  · obtain ⟨k⟩ := hk
    refine ⟨sem o (fun _ => k) f.expr, fun xs hx => ?_⟩
    have := eval_scalar o (f.vars.zip xs) (fun _ => k) f.expr (by simp [hc])
    simp only [Fn.call, lambda, hx, ne_eq, not_true, if_false, this]
  · obtain ⟨v, -, -, h⟩ := lambda_both o f.vars f.expr (by simp [hc]) (n := 0) (fun j => j.elim0)
    obtain ⟨c, -⟩ := h hc
    exact absurd ⟨c⟩ hk

/-- C133, gradients: the k-th entry of what the gradient gives for `n` points is the array of the k-th derivatives at the
points if the k-th derivative mentions a variable, and otherwise a single number (the derivative at each of the
points), so the entries need not fit together into an array. -/
theorem C133_gradient_partial (o : Ops U B K) (f : Fn U B K) (hf : ∀ e ∈ f.grad, ∀ x ∈ e.free, x ∈ f.vars)
    {n : ℕ} (p : Fin n → Fin f.vars.length → K) :
    ∃ (g : Fin f.grad.length → Val K) (v : Fin f.grad.length → Fin n → K),
      f.gradient o (List.ofFn fun i => .array (List.ofFn fun j => p j i)) = .ok (List.ofFn g) ∧
      (∀ j, f.gradient o (List.ofFn fun i => .scalar (p j i)) = .ok (List.ofFn fun k => .scalar (v k j))) ∧
      ∀ k, (f.grad[k].free ≠ [] → g k = .array (List.ofFn (v k))) ∧
        (f.grad[k].free = [] → ∃ c, (∀ j, v k j = c) ∧ g k = .scalar c) := by
  have key : ∀ k : Fin f.grad.length, ∃ (gk : Val K) (v : Fin n → K),
      (f.grad[k]).eval o (f.vars.zip (List.ofFn fun i => .array (List.ofFn fun j => p j i))) = .ok gk ∧
      (∀ j, (f.grad[k]).eval o (f.vars.zip (List.ofFn fun i => .scalar (p j i))) = .ok (.scalar (v j))) ∧
      (f.grad[k].free ≠ [] → gk = .array (List.ofFn v)) ∧
      (f.grad[k].free = [] → ∃ c, (∀ j, v j = c) ∧ gk = .scalar c) := by
    intro k
    obtain ⟨w, w1, w2, w3⟩ := lambda_both o f.vars f.grad[k] (hf _ (List.getElem_mem _)) p
    by_cases hc : f.grad[k].free = []
    · obtain ⟨c, c1, c2⟩ := w3 hc
      exact ⟨_, w, c2, w1, fun h => absurd hc h, fun _ => ⟨c, c1, rfl⟩⟩
    · exact ⟨_, w, w2 hc, w1, fun _ => rfl, fun h => absurd h hc⟩
  choose g v h1 h2 h3 h4 using key
  refine ⟨g, v, ?_, fun j => ?_, fun k => ⟨h3 k, h4 k⟩⟩
  · simp only [Fn.gradient, List.length_ofFn, ne_eq, not_true, if_false]
    conv_lhs => rw [list_eq_ofFn f.grad]
    exact pyMap_ofFn _ _ _ h1
  · simp only [Fn.gradient, List.length_ofFn, ne_eq, not_true, if_false]
    conv_lhs => rw [list_eq_ofFn f.grad]
    exact pyMap_ofFn _ _ _ fun k => h2 k j

/-- Sums and products of integers, for the examples: `true` is `+`, `false` is `*`. -/
def ops : Ops Unit Bool ℤ := ⟨fun _ a => -a, fun b x y => if b then x + y else x * y⟩

/-- `x*y + z` with its gradient `[y, x, 1]` -/
def fxyz : Fn Unit Bool ℤ where
  expr := .bin true (.bin false (.var "x") (.var "y")) (.var "z")
  grad := [.var "y", .var "x", .num 1]
  vars := ["x", "y", "z"]

example : fxyz.expr.free ≠ [] ∧ (∀ x ∈ fxyz.expr.free, x ∈ fxyz.vars) ∧
    (∀ e ∈ fxyz.grad, ∀ x ∈ e.free, x ∈ fxyz.vars) ∧
    (fxyz.call ops [.array [1, 2], .array [3, 4], .array [5, 6]]).toOption = some (.array [8, 14]) := by
  decide +kernel

/-- C133 fails for gradients: two points and a derivative that is constant. The entries are two arrays and a number. -/
theorem C133_gradient_violated :
    (fxyz.gradient ops [.array [1, 2], .array [3, 4], .array [5, 6]]).toOption =
      some [.array [3, 4], .array [1, 2], .scalar 1] := by
  decide +kernel

end

/-! ### Optimizers -/

section
variable {U B G K : Type} [LinearOrder K] [Inhabited K]

/-- The problem with the plain function that evaluates the objective at one point instead of the objective. -/
def pointwise (pb : Problem U B G K) : Problem U B G K := { pb with obj := .plain fun x => pb.obj.at x }

/-- C133, runs: with a symbolic objective that mentions a variable an optimizer does in any number of cycles exactly what it
does with the plain function that evaluates the objective point by point: same exceptions, populations, champion,
counters and cached values, for any draws. -/
theorem C133_run_partial (pb : Problem U B G K) (o : Ops U B K) (f : Fn U B K) (ho : pb.obj = .symbolic o f)
    (hf : ∀ x ∈ f.expr.free, x ∈ f.vars) (hne : f.expr.free ≠ []) (hw : pb.width = f.vars.length)
    (hd : ∀ gs xs, pb.decode gs = .ok xs → ∀ x ∈ xs, x.length = pb.width)
    (breeds : ℕ → List G → Val K → Py (List G)) (gs : List G) (n : ℕ) :
    cycles (pointwise pb) breeds n (fresh gs) = cycles pb breeds n (fresh gs) := by
  refine (cycles_congr pb _ hd (fun xs hx => ?_) breeds _ (fun xs e => by cases e) n).1
  rw [ho]
  obtain ⟨ys, -, h1, h2, -⟩ := evaluate_symbolic o f hf xs (fun p hp => (hx p hp).trans hw)
  rw [hw, h2 hne]
  simp only [Objective.evaluate, h1]

/-- C133 fails for constant objectives: the first cycle of every run raises `TypeError`, while it succeeds with the plain
function, and the champion has the constant as its fitness. -/
theorem C133_run_constant_violated (pb : Problem U B G K) (o : Ops U B K) (f : Fn U B K) (ho : pb.obj = .symbolic o f)
    (hc : f.expr.free = []) (hw : pb.width = f.vars.length) (breed : List G → Val K → Py (List G))
    (g : G) (gs : List G) (xs : List (List K)) (hx : pb.decode (g :: gs) = .ok xs) (hl : xs.length = (g :: gs).length)
    (hd : ∀ x ∈ xs, x.length = pb.width) :
    (evolve1 pb breed (fresh (g :: gs))).1 = .error .type ∧
    (evolve1 (pointwise pb) breed (fresh (g :: gs))).1 = .ok () ∧
    ∃ c, (evolve1 (pointwise pb) breed (fresh (g :: gs))).2.state.fn = some c ∧
      f.call o (List.replicate f.vars.length (.scalar default)) = .ok (.scalar c) := by
  obtain ⟨c, hcall⟩ := C133_constant_violated o f hc
  obtain ⟨x, xs, rfl⟩ : ∃ x xs', xs = x :: xs' := by
    cases xs with
    | nil => simp at hl
    | cons x xs => exact ⟨x, xs, rfl⟩
  have hat : ∀ y ∈ x :: xs, pb.obj.at y = .ok c := by
    intro y hy
    rw [ho]
    have := hcall (y.map .scalar) (by rw [List.length_map, hd y hy, hw])
    simp only [Objective.at, this]
  have hev : pb.obj.evaluate pb.width (x :: xs) = .ok (.scalar c) := by
    rw [ho]
    have := hcall ((transpose pb.width (x :: xs)).map .array) (by simp [transpose, hw])
    simp only [Objective.evaluate, this]
  have hmap : ∀ l : List (List K), (∀ y ∈ l, pb.obj.at y = .ok c) →
      pyMap (fun y => pb.obj.at y) l = .ok (l.map fun _ => c) := by
    intro l
    induction l with
    | nil => intro _; rfl
    | cons y l ih =>
      intro h
      simp only [pyMap, h y (List.mem_cons_self ..), ih fun z hz => h z (List.mem_cons_of_mem _ hz)]
      rfl
  have hpl : (Objective.plain (U := U) (B := B) fun x => pb.obj.at x).evaluate pb.width (x :: xs) =
      .ok (.array ((x :: xs).map fun _ => c)) := by
    simp only [Objective.evaluate, hmap _ hat]
  have harg : ∀ better : K → K → Bool, better c c = false →
      ∀ (k b i : ℕ), GA.argBestAux better b c i (List.replicate k c) = b := by
    intro better hb k
    induction k with
    | zero => intro b i; rfl
    | succ k ih => intro b i; simp only [List.replicate_succ, GA.argBestAux, hb, Bool.false_eq_true, if_false, ih]
  have hbb : GA.betterThan pb.minimize c c = false := by
    unfold GA.betterThan; cases pb.minimize <;> simp
  refine ⟨?_, ?_, c, ?_, hcall _ (by simp)⟩
  · simp [evolve1, nextEvolver, fresh, bestCandidate, getFitness, getPhenotypes, hx, hev, argBestV, pyGet, Val.get]
  · simp [pointwise, evolve1, nextEvolver, fresh, bestCandidate, getFitness, getPhenotypes, hx, hpl, argBestV, pyGet, Val.get,
      GA.argBest, harg _ hbb]
  · simp [pointwise, evolve1, nextEvolver, fresh, bestCandidate, getFitness, getPhenotypes, hx, hpl, argBestV, pyGet, Val.get,
      GA.argBest, harg _ hbb, celebrate]

/-- For a plain function the optimizer of this file is the one C01 to C15 and C94 speak about. -/
theorem C133_plain (decode : List G → Py (List (List K))) (fnc : List K → Py K) (minimize : Bool) (width : ℕ)
    (breedsV : ℕ → List G → Val K → Py (List G)) (breeds : ℕ → List G → List K → Py (List G))
    (hb : ∀ i gs ys, breedsV i gs (.array ys) = breeds i gs ys) (n : ℕ) (gs : List G) :
    cycles (U := U) (B := B) ⟨decode, .plain fnc, minimize, width⟩ breedsV n (fresh gs) =
      ((GA.cycles ⟨decode, fnc, minimize⟩ breeds n { genotypes := gs }).1,
        ofGa (GA.cycles ⟨decode, fnc, minimize⟩ breeds n { genotypes := gs }).2) := by
  induction n with
  | zero => rfl
  | succ n ih =>
    simp only [cycles, GA.cycles, ih]
    rcases GA.cycles ⟨decode, fnc, minimize⟩ breeds n { genotypes := gs } with ⟨r, t⟩
    cases r with
    | error e => rfl
    | ok u => exact plain_evolve decode fnc minimize width _ _ (hb n) t

end

/-- A genetic algorithm for the examples: two genes, each of them a coordinate. -/
def pbOf (f : Fn Unit Bool ℤ) : Problem Unit Bool (List ℤ) ℤ where
  decode gs := if gs.all fun g => g.length = 3 then .ok gs else .error .value
  obj := .symbolic ops f
  minimize := true
  width := 3

example : (pbOf fxyz).width = fxyz.vars.length ∧
    (∀ gs xs, (pbOf fxyz).decode gs = .ok xs → ∀ x ∈ xs, x.length = (pbOf fxyz).width) ∧
    ((cycles (pbOf fxyz) (fun _ gs _ => .ok gs) 2 (fresh [[1, 2, 3], [2, 1, 0]])).2.state.fn = some 2) := by
  refine ⟨rfl, fun gs xs h x hx => ?_, by decide +kernel⟩
  simp only [pbOf] at h
  split at h
  · rename_i hg
    cases h
    simpa [pbOf] using (List.all_eq_true.1 hg) x hx
  · cases h

/-- The constant 7 as a function of three variables -/
def f7 : Fn Unit Bool ℤ := ⟨.num 7, [.num 0, .num 0, .num 0], ["x", "y", "z"]⟩

example : f7.expr.free = [] ∧ (pbOf f7).width = f7.vars.length ∧
    ((pbOf f7).decode [[1, 2, 3], [2, 1, 0]]).toOption = some [[1, 2, 3], [2, 1, 0]] := by
  decide +kernel

/-! ### The binary genetic algorithm -/

section
variable {U B K : Type} [Field K] [LinearOrder K]

/-- C133, dimensions: for a plain function the ranges tell the number of variables; for a symbolic function its variables do,
and for other `Function` objects the dimension they were made with. With at least as many ranges the optimizer is the one
with the superfluous ranges left out. -/
theorem C133_dimension (argsort : List K → List ℕ) (length : ℕ) (ranges : List (K × K)) (obj : Objective U B K) :
    (∀ f, obj = .plain f → obj.dim ranges.length = some ranges.length) ∧
    (∀ o f, obj = .symbolic o f → obj.dim ranges.length = some f.vars.length) ∧
    (∀ f d, obj = .object f d → obj.dim ranges.length = d) ∧
    ∀ d, obj.dim ranges.length = some d → d ≤ ranges.length →
      (subclassFor argsort length ranges obj).populate = (BGA.subclass argsort d length (ranges.take d)).populate ∧
      (subclassFor argsort length ranges obj).breed = (BGA.subclass argsort d length (ranges.take d)).breed ∧
      ∀ n gs, (subclassFor argsort length ranges obj).decode n gs =
        (BGA.subclass argsort d length (ranges.take d)).decode n gs := by
  refine ⟨?_, ?_, ?_, fun d hd hle => ?_⟩
  · rintro f rfl; rfl
  · rintro o f rfl; rfl
  · rintro f d rfl; rfl
  · simp only [subclassFor, hd]
    refine ⟨rfl, rfl, fun n gs => ?_⟩
    simp only [decodeRows, BGA.subclass, BGA.decode]
    by_cases hl : gs.flatten.length = n.toNat * d * length
    · simp only [hl, ne_eq, not_true, if_false, Nat.not_lt.2 hle]
      congr 1
      refine List.map_congr_left fun p _ => List.map_congr_left fun e he => ?_
      have he : e < d := List.mem_range.1 he
      have : (ranges.take d).getD e (0, 0) = ranges.getD e (0, 0) := by
        simp [List.getD_eq_getElem?_getD, List.getElem?_take, he]
      rw [this]
    · simp only [ne_eq, hl, not_false_eq_true, if_true]

/-- C133 fails for `Function` objects made from callables without a dimension: no optimizer can be built for them, although the
ranges tell the number of variables. -/
theorem C133_dimension_violated (argsort : List K → List ℕ) (length : ℕ) (ranges : List (K × K)) (f : List K → Py K)
    (n m : ℤ) (hn : 1 ≤ n) (hm : IsLeast {m : ℤ | 4 ∣ m ∧ n ≤ m} m) (p : GA.Params K) (hp : GA.Props.ValidParams m p)
    (d : BGA.Draws K) :
    GA.construct (subclassFor argsort length ranges (.object f none : Objective U B K)) n p d = .error .type :=
  ((GA.Props.C94_construct _ n m hn hm p d).2 hp).1 .type rfl

/-- With fewer ranges than variables no population can be decoded. -/
theorem C133_ranges (argsort : List K → List ℕ) (length : ℕ) (ranges : List (K × K)) (obj : Objective U B K) (d : ℕ)
    (hd : obj.dim ranges.length = some d) (hlt : ranges.length < d) (n : ℤ) (gs : List (List ℤ)) :
    ∃ e, (subclassFor argsort length ranges obj).decode n gs = .error e ∧
      (gs.flatten.length = n.toNat * d * length → e = .index) := by
  simp only [subclassFor, hd, decodeRows]
  by_cases hl : gs.flatten.length = n.toNat * d * length
  · exact ⟨.index, by simp [hl, hlt], fun _ => rfl⟩
  · exact ⟨.value, by simp only [ne_eq, hl, not_false_eq_true, if_true], fun h => absurd h hl⟩

example : IsLeast {m : ℤ | 4 ∣ m ∧ (3 : ℤ) ≤ m} 4 ∧
    GA.Props.ValidParams (K := ℚ) 4 ⟨1, 1 / 5, 200, 0, .int 1, 5, true⟩ := by
  refine ⟨⟨by norm_num, ?_⟩, ?_⟩
  · rintro m ⟨⟨k, rfl⟩, h⟩; omega
  · simp [GA.Props.ValidParams, GA.Props.ValidElitism]

example : (Objective.symbolic ops fxyz).dim 2 = some 3 ∧ (Objective.symbolic ops fxyz).dim 5 = some 3 := ⟨rfl, rfl⟩

end
end Verif.Vec.Props
