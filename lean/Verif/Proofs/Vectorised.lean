import Verif.Model.Vectorised
import Mathlib.Data.List.OfFn

/-!
# Helper lemmas about calls with many points (C133)
-/

set_option linter.unusedSectionVars false

namespace Verif.Vec

section
variable {U B K : Type}

theorem find_zip : ∀ (vars : List String) (x : String), x ∈ vars → ∃ i : Fin vars.length, ∀ (α : Type)
    (g : Fin vars.length → α), (vars.zip (List.ofFn g)).find? (fun p => p.1 == x) = some (x, g i)
  | [], x, h => by simp at h
  | v :: vs, x, h => by
    by_cases e : v = x
    · refine ⟨0, fun α g => ?_⟩
      simp [List.ofFn_succ, e]
    · obtain ⟨i, hi⟩ := find_zip vs x (by
        rcases List.mem_cons.1 h with h | h
        · exact absurd h.symm e
        · exact h)
      refine ⟨i.succ, fun α g => ?_⟩
      have := hi α (fun k => g k.succ)
      simp only [List.length_cons, List.ofFn_succ, List.zip_cons_cons, List.find?_cons]
      have e' : (v == x) = false := by simpa using e
      simp only [e']
      exact this

/-- The value at one point. -/
def sem (o : Ops U B K) (σ : String → K) : Ex U B K → K
  | .num c => c
  | .var x => σ x
  | .un u a => o.un u (sem o σ a)
  | .bin b a a' => o.bin b (sem o σ a) (sem o σ a')

theorem sem_const (o : Ops U B K) (σ τ : String → K) (e : Ex U B K) (h : e.free = []) : sem o σ e = sem o τ e := by
  induction e with
  | num c => rfl
  | var x => simp [Ex.free] at h
  | un u a ih => simp only [sem]; rw [ih h]
  | bin b a a' ih ih' =>
    simp only [Ex.free, List.append_eq_nil_iff] at h
    simp only [sem]; rw [ih h.1, ih' h.2]

theorem ofFn_map {n : ℕ} (f : K → K) (g : Fin n → K) : (List.ofFn g).map f = List.ofFn fun j => f (g j) := by
  rw [List.map_ofFn]; rfl

theorem zipWith_ofFn {n : ℕ} (f : K → K → K) (g h : Fin n → K) :
    List.zipWith f (List.ofFn g) (List.ofFn h) = List.ofFn fun j => f (g j) (h j) := by
  apply List.ext_getElem <;> simp

theorem eval_array (o : Ops U B K) {n : ℕ} (ρ : List (String × Val K)) (σ : Fin n → String → K) (τ : String → K)
    (e : Ex U B K)
    (h : ∀ x ∈ e.free, ρ.find? (fun p => p.1 == x) = some (x, .array (List.ofFn fun j => σ j x))) :
    e.eval o ρ = .ok (if e.free = [] then .scalar (sem o τ e) else .array (List.ofFn fun j => sem o (σ j) e)) := by
  induction e with
  | num c => rfl
  | var x =>
    have := h x (by simp [Ex.free])
    simp only [Ex.eval, this, Ex.free]
    rfl
  | un u a ih =>
    have := ih h
    simp only [Ex.eval, this, Ex.free]
    by_cases e : a.free = []
    · simp only [e, if_true, Val.un, sem]
    · simp only [e, if_false, Val.un, sem, ofFn_map]
  | bin b a a' ih ih' =>
    have h1 := ih (fun x hx => h x (by simp [Ex.free, hx]))
    have h2 := ih' (fun x hx => h x (by simp [Ex.free, hx]))
    simp only [Ex.eval, h1, h2, Ex.free, List.append_eq_nil_iff]
    by_cases e : a.free = [] <;> by_cases e' : a'.free = []
    · simp only [e, e', if_true, and_self, Val.bin, sem]
    · simp only [e, e', if_true, if_false, and_false, Val.bin, sem, ofFn_map]
      congr 2
      refine List.ofFn_inj.2 (funext fun j => ?_)
      rw [sem_const o τ (σ j) a e]
    · simp only [e, e', if_true, if_false, and_true, Val.bin, sem, ofFn_map]
      congr 2
      refine List.ofFn_inj.2 (funext fun j => ?_)
      rw [sem_const o τ (σ j) a' e']
    · simp only [e, e', if_false, and_self, Val.bin, sem, List.length_ofFn, if_true, zipWith_ofFn]

theorem eval_scalar (o : Ops U B K) (ρ : List (String × Val K)) (σ : String → K) (e : Ex U B K)
    (h : ∀ x ∈ e.free, ρ.find? (fun p => p.1 == x) = some (x, .scalar (σ x))) :
    e.eval o ρ = .ok (.scalar (sem o σ e)) := by
  induction e with
  | num c => rfl
  | var x => simp only [Ex.eval, h x (by simp [Ex.free]), sem]
  | un u a ih => simp only [Ex.eval, ih h, Val.un, sem]
  | bin b a a' ih ih' =>
    have h1 := ih (fun x hx => h x (by simp [Ex.free, hx]))
    have h2 := ih' (fun x hx => h x (by simp [Ex.free, hx]))
    simp only [Ex.eval, h1, h2, Val.bin, sem]

/-- One call with many points and many calls with one point. -/
theorem lambda_both (o : Ops U B K) (vars : List String) (e : Ex U B K) (hf : ∀ x ∈ e.free, x ∈ vars) {n : ℕ}
    (p : Fin n → Fin vars.length → K) :
    ∃ v : Fin n → K,
      (∀ j, e.eval o (vars.zip (List.ofFn fun i => Val.scalar (p j i))) = .ok (.scalar (v j))) ∧
      (e.free ≠ [] → e.eval o (vars.zip (List.ofFn fun i => Val.array (List.ofFn fun j => p j i))) =
        .ok (.array (List.ofFn v))) ∧
      (e.free = [] → ∃ c, (∀ j, v j = c) ∧
        e.eval o (vars.zip (List.ofFn fun i => Val.array (List.ofFn fun j => p j i))) = .ok (.scalar c)) := by
  by_cases hne : e.free = []
  · -- the numbers are not read
    have h0 : ∀ ρ σ, e.eval o ρ = .ok (.scalar (sem o σ e)) := fun ρ σ => eval_scalar o ρ σ e (by simp [hne])
    by_cases hn : Nonempty K
    · obtain ⟨k⟩ := hn
      exact ⟨fun _ => sem o (fun _ => k) e, fun j => h0 _ _, fun h => absurd hne h, fun _ => ⟨_, fun _ => rfl, h0 _ _⟩⟩
    · exfalso
      have : ∀ e : Ex U B K, e.free = [] → K := by
        intro e
        induction e with
        | num c => exact fun _ => c
        | var x => intro h; simp [Ex.free] at h
        | un u a ih => exact ih
        | bin b a a' ih _ => intro h; exact ih (List.append_eq_nil_iff.1 h).1
      exact hn ⟨this e hne⟩
  · have hv : 0 < vars.length := by
      obtain ⟨x, hx⟩ := List.exists_mem_of_ne_nil _ hne
      exact List.length_pos_of_mem (hf x hx)
    have key : ∀ x, ∃ i : Fin vars.length, x ∈ vars → ∀ (α : Type) (g : Fin vars.length → α),
        (vars.zip (List.ofFn g)).find? (fun p => p.1 == x) = some (x, g i) := by
      intro x
      by_cases hx : x ∈ vars
      · obtain ⟨i, hi⟩ := find_zip vars x hx
        exact ⟨i, fun _ => hi⟩
      · exact ⟨⟨0, hv⟩, fun h => absurd h hx⟩
    choose I hI using key
    refine ⟨fun j => sem o (fun x => p j (I x)) e, fun j => ?_, fun _ => ?_, fun h => absurd h hne⟩
    · exact eval_scalar o _ _ e fun x hx => hI x (hf x hx) _ _
    · rcases Nat.eq_zero_or_pos n with rfl | hn
      · -- no points: any numbers will do for the constants
        by_cases hk : Nonempty K
        · obtain ⟨k⟩ := hk
          have := eval_array o (vars.zip (List.ofFn fun i => Val.array (List.ofFn fun j => p j i)))
            (fun j x => p j (I x)) (fun _ => k) e fun x hx => hI x (hf x hx) _ _
          simpa only [hne, if_false] using this
        · have hc : ∀ e : Ex U B K, e.free ≠ [] ∧ e.eval o (vars.zip (List.ofFn fun i => Val.array (List.ofFn fun j => p j i)))
              = .ok (.array []) ∨ ¬ (∀ x ∈ e.free, x ∈ vars) := by
            intro e
            induction e with
            | num c => exact absurd ⟨c⟩ hk
            | var x =>
              by_cases hx : x ∈ vars
              · left
                refine ⟨by simp [Ex.free], ?_⟩
                simp only [Ex.eval, hI x hx _ _]
                simp
              · right; simpa [Ex.free] using hx
            | un u a ih =>
              rcases ih with ⟨h1, h2⟩ | h
              · left; refine ⟨h1, ?_⟩; simp only [Ex.eval, h2, Val.un, List.map_nil]
              · exact .inr h
            | bin b a a' ih ih' =>
              rcases ih with ⟨h1, h2⟩ | h
              · rcases ih' with ⟨h1', h2'⟩ | h
                · left
                  refine ⟨by simp [Ex.free, h1], ?_⟩
                  simp only [Ex.eval, h2, h2']
                  rfl
                · right; intro h'; exact h fun x hx => h' x (by simp [Ex.free, hx])
              · right; intro h'; exact h fun x hx => h' x (by simp [Ex.free, hx])
          rcases hc e with h | h
          · simpa using h.2
          · exact absurd hf h
      · have := eval_array o (vars.zip (List.ofFn fun i => Val.array (List.ofFn fun j => p j i)))
          (fun j x => p j (I x)) (fun x => p ⟨0, hn⟩ (I x)) e fun x hx => hI x (hf x hx) _ _
        simpa only [hne, if_false] using this

theorem pyMap_ofFn {α β : Type} (f : α → Py β) {n : ℕ} (x : Fin n → α) (v : Fin n → β) (h : ∀ j, f (x j) = .ok (v j)) :
    pyMap f (List.ofFn x) = .ok (List.ofFn v) := by
  induction n with
  | zero => simp [pyMap]
  | succ n ih =>
    simp only [List.ofFn_succ, pyMap, h 0, ih _ _ (fun j => h j.succ)]
    rfl

theorem list_eq_ofFn {α : Type} (l : List α) : l = List.ofFn fun i : Fin l.length => l[i] := by
  apply List.ext_getElem <;> simp

theorem row_eq {d : ℕ} {x : List K} (h : x.length = d) (q : Fin d → K) (hq : ∀ i : Fin d, x[i]? = some (q i)) :
    x.map Val.scalar = List.ofFn fun i => Val.scalar (q i) := by
  subst h
  apply List.ext_getElem
  · simp
  · intro i h1 h2
    have := hq ⟨i, by simpa using h1⟩
    simp only [List.length_map] at h1
    simp [h1] at this ⊢
    exact this

/-- Evaluating a population with a symbolic function. -/
theorem evaluate_symbolic [Inhabited K] (o : Ops U B K) (f : Fn U B K) (hf : ∀ x ∈ f.expr.free, x ∈ f.vars)
    (ps : List (List K)) (hp : ∀ p ∈ ps, p.length = f.vars.length) :
    ∃ ys : List K, ys.length = ps.length ∧
      pyMap (fun p => (Objective.symbolic o f).at p) ps = .ok ys ∧
      (f.expr.free ≠ [] → (Objective.symbolic o f).evaluate f.vars.length ps = .ok (.array ys)) ∧
      (f.expr.free = [] → ∃ c, (∀ y ∈ ys, y = c) ∧
        (Objective.symbolic o f).evaluate f.vars.length ps = .ok (.scalar c)) := by
  have hj : ∀ j : Fin ps.length, (ps[j]).length = f.vars.length := fun j => hp _ (List.getElem_mem _)
  obtain ⟨v, h1, h2, h3⟩ := lambda_both o f.vars f.expr hf (n := ps.length)
    (fun j i => (ps[j])[i]'(by rw [hj j]; exact i.2))
  have ht : (transpose f.vars.length ps).map Val.array = List.ofFn fun i : Fin f.vars.length =>
      Val.array (List.ofFn fun j : Fin ps.length => (ps[j])[i]'(by rw [hj j]; exact i.2)) := by
    apply List.ext_getElem
    · simp [transpose]
    · intro i hi1 hi2
      simp only [transpose, List.length_map, List.length_range] at hi1
      simp only [transpose, List.getElem_map, List.getElem_range, List.getElem_ofFn, Val.array.injEq]
      apply List.ext_getElem
      · simp
      · intro j hj1 hj2
        simp only [List.length_map] at hj1
        have : i < (ps[j]).length := by rw [hp _ (List.getElem_mem _)]; exact hi1
        simp [this]
  refine ⟨List.ofFn v, by simp, ?_, fun h => ?_, fun h => ?_⟩
  · conv_lhs => rw [list_eq_ofFn ps]
    refine pyMap_ofFn _ _ _ fun j => ?_
    have hl := hj j
    have hr := row_eq hl (fun i => (ps[j])[i]'(by rw [hl]; exact i.2)) (fun i => by
      have : (i : ℕ) < (ps[j]).length := by rw [hl]; exact i.2
      simp [this])
    simp only [Objective.at, Fn.call, lambda, hr, List.length_ofFn, ne_eq, not_true, if_false, h1 j]
  · simp only [Objective.evaluate, Fn.call, lambda, ht, List.length_ofFn, ne_eq, not_true, if_false, h2 h]
  · obtain ⟨c, hc, e⟩ := h3 h
    refine ⟨c, fun y hy => ?_, ?_⟩
    · obtain ⟨j, rfl⟩ := (List.mem_ofFn' _ _).1 hy
      exact hc j
    · simp only [Objective.evaluate, Fn.call, lambda, ht, List.length_ofFn, ne_eq, not_true, if_false, e]

end

section
variable {U B G K : Type} [LinearOrder K] [Inhabited K]

/-- The phenotypes an optimizer has at hand have as many coordinates as told. -/
def Wide (w : ℕ) (s : St G K) : Prop := ∀ xs, s.phenotypes = some xs → ∀ x ∈ xs, x.length = w

theorem getPhenotypes_wide (pb : Problem U B G K) (hd : ∀ gs xs, pb.decode gs = .ok xs → ∀ x ∈ xs, x.length = pb.width)
    (s : St G K) (hs : Wide pb.width s) :
    Wide pb.width (getPhenotypes pb s).2 ∧ ∀ xs, (getPhenotypes pb s).1 = .ok xs → ∀ x ∈ xs, x.length = pb.width := by
  unfold getPhenotypes
  cases hp : s.phenotypes with
  | some xs => exact ⟨hs, fun ys e => by cases e; exact hs xs hp⟩
  | none =>
    cases he : pb.decode s.genotypes with
    | error e => exact ⟨hs, fun ys e => by cases e⟩
    | ok xs => exact ⟨fun ys e => by cases e; exact hd _ _ he, fun ys e => by cases e; exact hd _ _ he⟩

/-- Two objectives with the same values for populations of the right width. -/
theorem getFitness_congr (pb : Problem U B G K) (obj : Objective U B K)
    (hd : ∀ gs xs, pb.decode gs = .ok xs → ∀ x ∈ xs, x.length = pb.width)
    (ho : ∀ xs : List (List K), (∀ x ∈ xs, x.length = pb.width) → pb.obj.evaluate pb.width xs = obj.evaluate pb.width xs)
    (s : St G K) (hs : Wide pb.width s) :
    getFitness { pb with obj := obj } s = getFitness pb s ∧ Wide pb.width (getFitness pb s).2 := by
  have hp := getPhenotypes_wide pb hd s hs
  have e : getPhenotypes { pb with obj := obj } s = getPhenotypes pb s := rfl
  unfold getFitness
  cases s.fitness with
  | some v => exact ⟨rfl, hs⟩
  | none =>
    simp only [e]
    rcases hg : getPhenotypes pb s with ⟨r, t⟩
    rw [hg] at hp
    cases r with
    | error e => exact ⟨rfl, hp.1⟩
    | ok xs =>
      simp only [ho xs (hp.2 xs rfl)]
      refine ⟨trivial, ?_⟩
      cases obj.evaluate pb.width xs with
      | error e => exact hp.1
      | ok v => exact hp.1

theorem evolve_congr (pb : Problem U B G K) (obj : Objective U B K)
    (hd : ∀ gs xs, pb.decode gs = .ok xs → ∀ x ∈ xs, x.length = pb.width)
    (ho : ∀ xs : List (List K), (∀ x ∈ xs, x.length = pb.width) → pb.obj.evaluate pb.width xs = obj.evaluate pb.width xs)
    (breed : List G → Val K → Py (List G)) (s : St G K) (hs : Wide pb.width s) :
    evolve1 { pb with obj := obj } breed s = evolve1 pb breed s ∧ Wide pb.width (evolve1 pb breed s).2 := by
  have hn : nextEvolver { pb with obj := obj } breed s = nextEvolver pb breed s ∧ Wide pb.width (nextEvolver pb breed s).2 := by
    have hf := getFitness_congr pb obj hd ho s hs
    unfold nextEvolver
    cases s.phase with
    | primed => exact ⟨rfl, hs⟩
    | dead => exact ⟨rfl, hs⟩
    | running =>
      simp only [hf.1]
      refine ⟨trivial, ?_⟩
      rcases hg : getFitness pb s with ⟨r, t⟩
      rw [hg] at hf
      cases r with
      | error e => exact hf.2
      | ok v =>
        simp only
        cases breed t.genotypes v with
        | error e => exact hf.2
        | ok gs => exact fun xs e => by cases e
  unfold evolve1
  rw [hn.1]
  rcases hg : nextEvolver pb breed s with ⟨r, t⟩
  rw [hg] at hn
  have ht : Wide pb.width t := hn.2
  cases r with
  | error e => exact ⟨rfl, ht⟩
  | ok u =>
    have hf := getFitness_congr pb obj hd ho t ht
    have hb : bestCandidate { pb with obj := obj } t = bestCandidate pb t ∧ Wide pb.width (bestCandidate pb t).2 := by
      have e : ∀ s, getPhenotypes { pb with obj := obj } s = getPhenotypes pb s := fun _ => rfl
      unfold bestCandidate
      simp only [hf.1, e]
      refine ⟨trivial, ?_⟩
      rcases hg : getFitness pb t with ⟨r, t'⟩
      rw [hg] at hf
      have ht' : Wide pb.width t' := hf.2
      have hp := (getPhenotypes_wide pb hd t' ht').1
      cases r with
      | error e => exact ht'
      | ok v =>
        simp only
        cases argBestV (GA.betterThan pb.minimize) v with
        | error e => exact ht'
        | ok i =>
          simp only
          rcases hg' : getPhenotypes pb t' with ⟨r, t''⟩
          rw [hg'] at hp
          cases r with
          | error e => exact hp
          | ok xs =>
            simp only
            cases pyGet xs i with
            | error e => exact hp
            | ok x =>
              simp only
              cases pyGet t''.genotypes i with
              | error e => exact hp
              | ok g =>
                simp only
                cases v.get i with
                | error e => exact hp
                | ok y => exact hp
    simp only [hb.1]
    refine ⟨trivial, ?_⟩
    rcases hg : bestCandidate pb t with ⟨r, t'⟩
    rw [hg] at hb
    cases r with
    | error e => exact hb.2
    | ok c => exact hb.2

theorem cycles_congr (pb : Problem U B G K) (obj : Objective U B K)
    (hd : ∀ gs xs, pb.decode gs = .ok xs → ∀ x ∈ xs, x.length = pb.width)
    (ho : ∀ xs : List (List K), (∀ x ∈ xs, x.length = pb.width) → pb.obj.evaluate pb.width xs = obj.evaluate pb.width xs)
    (breeds : ℕ → List G → Val K → Py (List G)) (s : St G K) (hs : Wide pb.width s) (n : ℕ) :
    cycles { pb with obj := obj } breeds n s = cycles pb breeds n s ∧ Wide pb.width (cycles pb breeds n s).2 := by
  induction n with
  | zero => exact ⟨rfl, hs⟩
  | succ n ih =>
    simp only [cycles, ih.1]
    rcases hg : cycles pb breeds n s with ⟨r, t⟩
    rw [hg] at ih
    cases r with
    | error e => exact ⟨rfl, ih.2⟩
    | ok u => exact evolve_congr pb obj hd ho (breeds n) t ih.2

/-- The same state in the model of the other properties of genetic algorithms. -/
def ofGa (s : GA.Ga G (List K) K) : St G K :=
  ⟨s.genotypes, s.phenotypes, s.fitness.map .array, s.champion, s.state, s.status, s.phase⟩


theorem plain_phenotypes (decode : List G → Py (List (List K))) (fnc : List K → Py K) (minimize : Bool) (width : ℕ)
    (s : GA.Ga G (List K) K) :
    getPhenotypes (U := U) (B := B) ⟨decode, .plain fnc, minimize, width⟩ (ofGa s) =
      ((GA.getPhenotypes ⟨decode, fnc, minimize⟩ s).1, ofGa (GA.getPhenotypes ⟨decode, fnc, minimize⟩ s).2) := by
  rcases s with ⟨gs, ph, ft, ch, st, stt, pha⟩
  cases ph with
  | some xs => rfl
  | none =>
    simp only [getPhenotypes, GA.getPhenotypes, ofGa]
    cases decode gs <;> rfl

theorem plain_fitness (decode : List G → Py (List (List K))) (fnc : List K → Py K) (minimize : Bool) (width : ℕ)
    (s : GA.Ga G (List K) K) :
    getFitness (U := U) (B := B) ⟨decode, .plain fnc, minimize, width⟩ (ofGa s) =
      ((GA.getFitness ⟨decode, fnc, minimize⟩ s).1.map .array, ofGa (GA.getFitness ⟨decode, fnc, minimize⟩ s).2) := by
  have hp := plain_phenotypes (U := U) (B := B) decode fnc minimize width s
  unfold getFitness GA.getFitness
  rw [hp]
  rcases hs : s.fitness with - | ys
  · have : (ofGa s).fitness = none := by simp [ofGa, hs]
    simp only [this]
    rcases GA.getPhenotypes ⟨decode, fnc, minimize⟩ s with ⟨r, t⟩
    cases r with
    | error e => rfl
    | ok xs =>
      simp only [Objective.evaluate, GA.evaluate]
      cases pyMap fnc xs <;> rfl
  · have : (ofGa s).fitness = some (.array ys) := by simp [ofGa, hs]
    simp only [this]
    rfl

theorem plain_best (decode : List G → Py (List (List K))) (fnc : List K → Py K) (minimize : Bool) (width : ℕ)
    (s : GA.Ga G (List K) K) :
    bestCandidate (U := U) (B := B) ⟨decode, .plain fnc, minimize, width⟩ (ofGa s) =
      ((GA.bestCandidate ⟨decode, fnc, minimize⟩ s).1, ofGa (GA.bestCandidate ⟨decode, fnc, minimize⟩ s).2) := by
  have hf := plain_fitness (U := U) (B := B) decode fnc minimize width s
  unfold bestCandidate GA.bestCandidate
  rw [hf]
  rcases GA.getFitness ⟨decode, fnc, minimize⟩ s with ⟨r, t⟩
  cases r with
  | error e => rfl
  | ok ys =>
    simp only [Except.map, argBestV]
    cases GA.argBest (GA.betterThan minimize) ys with
    | error e => rfl
    | ok i =>
      simp only [plain_phenotypes]
      rcases GA.getPhenotypes ⟨decode, fnc, minimize⟩ t with ⟨r, t'⟩
      cases r with
      | error e => rfl
      | ok xs =>
        have hgs : (ofGa t').genotypes = t'.genotypes := rfl
        simp only [hgs, Val.get]
        have hcase : ∀ {α : Type} (l : List α), (∃ a, pyGet l i = .ok a) ∨ pyGet l i = .error .index := by
          intro α l
          unfold pyGet
          cases l[i]? with
          | none => exact .inr rfl
          | some a => exact .inl ⟨a, rfl⟩
        rcases hcase xs with ⟨x, hx⟩ | hx <;> rcases hcase t'.genotypes with ⟨g, hg⟩ | hg <;>
          rcases hcase ys with ⟨y, hy⟩ | hy <;> simp only [hx, hg, hy]

theorem plain_evolve (decode : List G → Py (List (List K))) (fnc : List K → Py K) (minimize : Bool) (width : ℕ)
    (breedV : List G → Val K → Py (List G)) (breed : List G → List K → Py (List G))
    (hb : ∀ gs ys, breedV gs (.array ys) = breed gs ys) (s : GA.Ga G (List K) K) :
    evolve1 (U := U) (B := B) ⟨decode, .plain fnc, minimize, width⟩ breedV (ofGa s) =
      ((GA.evolve1 ⟨decode, fnc, minimize⟩ breed s).1, ofGa (GA.evolve1 ⟨decode, fnc, minimize⟩ breed s).2) := by
  have hn : nextEvolver (U := U) (B := B) ⟨decode, .plain fnc, minimize, width⟩ breedV (ofGa s) =
      ((GA.nextEvolver ⟨decode, fnc, minimize⟩ breed s).1, ofGa (GA.nextEvolver ⟨decode, fnc, minimize⟩ breed s).2) := by
    have hf := plain_fitness (U := U) (B := B) decode fnc minimize width s
    have hph : (ofGa s).phase = s.phase := rfl
    unfold nextEvolver GA.nextEvolver
    rw [hph, hf]
    cases s.phase with
    | primed => rfl
    | dead => rfl
    | running =>
      simp only
      rcases GA.getFitness ⟨decode, fnc, minimize⟩ s with ⟨r, t⟩
      cases r with
      | error e => rfl
      | ok ys =>
        have hgs : (ofGa t).genotypes = t.genotypes := rfl
        simp only [Except.map, hgs, hb]
        cases breed t.genotypes ys <;> rfl
  unfold evolve1 GA.evolve1
  rw [hn]
  rcases GA.nextEvolver ⟨decode, fnc, minimize⟩ breed s with ⟨r, t⟩
  cases r with
  | error e => rfl
  | ok u =>
    simp only [plain_best]
    rcases GA.bestCandidate ⟨decode, fnc, minimize⟩ t with ⟨r, t'⟩
    cases r with
    | error e => rfl
    | ok c =>
      have hc : celebrate minimize (ofGa t') c = ofGa (GA.celebrate minimize t' c) := by
        rcases t' with ⟨gs, ph, ft, ch, st, stt, pha⟩
        cases ch <;> rfl
      simp only [hc]

end

end Verif.Vec
