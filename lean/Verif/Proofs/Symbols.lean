import Verif.Model.Symbols
import Mathlib.Analysis.Calculus.Deriv.Pow
import Mathlib.Analysis.Calculus.Deriv.Add
import Mathlib.Analysis.Calculus.Deriv.Mul
import Mathlib.Tactic.Ring

set_option linter.unusedSectionVars false

/-! Helper lemmas for symbols with the same name. -/

namespace Verif.Syms

section
variable {N K : Type} [DecidableEq N] [CommRing K]

theorem eval_congr {ρ σ : Sym N → K} : ∀ {e : E N K}, (∀ s ∈ e.syms, ρ s = σ s) → e.eval ρ = e.eval σ
  | .num _, _ => rfl
  | .sym s, h => h s (by simp [E.syms])
  | .neg a, h => by simp only [E.eval]; rw [eval_congr (e := a) h]
  | .add a b, h => by
      simp only [E.eval]
      rw [eval_congr (e := a) fun s hs => h s (by simp [E.syms, hs]),
        eval_congr (e := b) fun s hs => h s (by simp [E.syms, hs])]
  | .mul a b, h => by
      simp only [E.eval]
      rw [eval_congr (e := a) fun s hs => h s (by simp [E.syms, hs]),
        eval_congr (e := b) fun s hs => h s (by simp [E.syms, hs])]
  | .pow a _, h => by simp only [E.eval]; rw [eval_congr (e := a) h]

theorem eval_subs1 (s : Sym N) (r : E N K) (ρ : Sym N → K) (e : E N K) :
    (subs1 s r e).eval ρ = e.eval fun t => if t = s then r.eval ρ else ρ t := by
  induction e with
  | num c => rfl
  | sym t => by_cases h : t = s <;> simp [subs1, E.eval, h]
  | neg a ih => simp [subs1, E.eval, ih]
  | add a b iha ihb => simp [subs1, E.eval, iha, ihb]
  | mul a b iha ihb => simp [subs1, E.eval, iha, ihb]
  | pow a n ih => simp [subs1, E.eval, ih]

theorem mem_syms_subs1 {s t : Sym N} {r : E N K} {e : E N K} (h : t ∈ (subs1 s r e).syms) :
    (t ∈ e.syms ∧ t ≠ s) ∨ t ∈ r.syms := by
  induction e with
  | num c => simp [subs1, E.syms] at h
  | sym u =>
    by_cases hu : u = s
    · simp only [subs1, hu, if_true] at h
      exact Or.inr h
    · simp only [subs1, hu, if_false, E.syms, List.mem_singleton] at h
      subst h
      exact Or.inl ⟨by simp [E.syms], hu⟩
  | neg a ih => exact ih h
  | add a b iha ihb =>
    simp only [subs1, E.syms, List.mem_append] at h ⊢
    rcases h with h | h
    · rcases iha h with h | h
      · exact Or.inl ⟨Or.inl h.1, h.2⟩
      · exact Or.inr h
    · rcases ihb h with h | h
      · exact Or.inl ⟨Or.inr h.1, h.2⟩
      · exact Or.inr h
  | mul a b iha ihb =>
    simp only [subs1, E.syms, List.mem_append] at h ⊢
    rcases h with h | h
    · rcases iha h with h | h
      · exact Or.inl ⟨Or.inl h.1, h.2⟩
      · exact Or.inr h
    · rcases ihb h with h | h
      · exact Or.inl ⟨Or.inr h.1, h.2⟩
      · exact Or.inr h
  | pow a n ih => exact ih h

theorem subs1_of_notMem {s : Sym N} {r : E N K} {e : E N K} (h : s ∉ e.syms) : subs1 s r e = e := by
  induction e with
  | num c => rfl
  | sym u =>
    have : u ≠ s := fun hu => h (by simp [E.syms, hu])
    simp [subs1, this]
  | neg a ih => simp [subs1, ih h]
  | add a b iha ihb =>
    simp only [E.syms, List.mem_append, not_or] at h
    simp [subs1, iha h.1, ihb h.2]
  | mul a b iha ihb =>
    simp only [E.syms, List.mem_append, not_or] at h
    simp [subs1, iha h.1, ihb h.2]
  | pow a n ih => simp [subs1, ih h]

/-- Replacing a symbol by one with the same name changes no names. -/
theorem names_subs1 (s v : Sym N) (h : v.name = s.name) (e : E N K) :
    (subs1 s (.sym v) e).syms.map Sym.name = e.syms.map Sym.name := by
  induction e with
  | num c => rfl
  | sym u => by_cases hu : u = s <;> simp [subs1, E.syms, hu, h]
  | neg a ih => exact ih
  | add a b iha ihb => simp only [subs1, E.syms, List.map_append, iha, ihb]
  | mul a b iha ihb => simp only [subs1, E.syms, List.map_append, iha, ihb]
  | pow a n ih => exact ih

/-! ### The substitution of variables at construction -/

/-- The step of `decode`. -/
def dec (vs : List (Sym N)) (e : E N K) : E N K :=
  vs.foldl (fun e v => subs1 (plain v.name) (.sym v) e) e

theorem dec_eq (vs : List (Sym N)) (e : E N K) :
    substitute e (vs.map E.sym) (vs.map Var.symbol) true = dec vs e := by
  unfold substitute dec
  induction vs generalizing e with
  | nil => rfl
  | cons v vs ih =>
    simp only [List.map_cons, List.zip_cons_cons, List.foldl_cons]
    exact ih _

theorem dec_names (vs : List (Sym N)) (e : E N K) :
    (dec vs e).syms.map Sym.name = e.syms.map Sym.name := by
  unfold dec
  induction vs generalizing e with
  | nil => rfl
  | cons v vs ih =>
    simp only [List.foldl_cons]
    rw [ih, names_subs1 (plain v.name) v rfl]

theorem dec_eval (vs : List (Sym N)) (e : E N K) (ρ : N → K) :
    (dec vs e).eval (fun s => ρ s.name) = e.eval (fun s => ρ s.name) := by
  unfold dec
  induction vs generalizing e with
  | nil => rfl
  | cons v vs ih =>
    simp only [List.foldl_cons]
    rw [ih, eval_subs1]
    apply eval_congr
    intro s _
    split
    · next h => rw [h]; rfl
    · rfl

theorem dec_syms (vs : List (Sym N)) (S : List (Sym N)) (hS : ∀ v ∈ vs, v ∈ S) (e : E N K)
    (h : ∀ t ∈ e.syms, t ∈ S ∨ (t = plain t.name ∧ t.name ∈ vs.map Sym.name)) :
    ∀ t ∈ (dec vs e).syms, t ∈ S := by
  unfold dec
  induction vs generalizing e with
  | nil =>
    intro t ht
    rcases h t ht with h | h
    · exact h
    · simp at h
  | cons v vs ih =>
    simp only [List.foldl_cons]
    apply ih fun w hw => hS w (by simp [hw])
    intro t ht
    rcases mem_syms_subs1 ht with ht | ht
    · rcases h t ht.1 with h | ⟨h1, h2⟩
      · exact Or.inl h
      · refine Or.inr ⟨h1, ?_⟩
        simp only [List.map_cons, List.mem_cons] at h2
        rcases h2 with h2 | h2
        · exact absurd (by rw [← h2]; exact h1) ht.2
        · exact h2
    · simp only [E.syms, List.mem_singleton] at ht
      exact Or.inl (ht ▸ hS v (by simp))

/-- Nothing to replace. -/
theorem dec_self (vs : List (Sym N)) (e : E N K) (h : ∀ t ∈ e.syms, t.kind ≠ 0) : dec vs e = e := by
  unfold dec
  induction vs with
  | nil => rfl
  | cons v vs ih =>
    simp only [List.foldl_cons]
    rw [subs1_of_notMem]
    · exact ih
    · intro hm
      exact h _ hm rfl

theorem toSymbols_symbol (vs : List (Sym N)) : toSymbols (vs.map Var.symbol) = .ok vs := by
  unfold toSymbols
  rw [if_pos (by simp)]
  congr 1
  induction vs with
  | nil => rfl
  | cons v vs ih => simp only [List.map_cons, List.filterMap_cons, ih]

theorem toSymbols_text (xs : List N) : toSymbols (xs.map Var.text) = .ok (xs.map plain) := by
  cases xs with
  | nil => rfl
  | cons x xs =>
    unfold toSymbols
    rw [if_neg (by simp), if_pos (by simp)]
    congr 1
    generalize x :: xs = l
    induction l with
    | nil => rfl
    | cons v vs ih => simp only [List.map_cons, List.filterMap_cons, ih]

theorem symbolize_eq {e : E N K} {vars : List (Var N)} {vs : List (Sym N)} {b : Bool} (h0 : vars ≠ [])
    (h : toSymbols vars = .ok vs) : symbolize e vars b = .ok ⟨dec vs e, vs, b⟩ := by
  unfold symbolize
  rw [if_neg (by simpa using h0), h]
  simp only [Except.map, dec_eq]

/-! ### Code -/

theorem bind_eq (vs : List (Sym N)) (ρ : N → K) (x : N) :
    bind vs (vs.map fun v => ρ v.name) x = if x ∈ vs.map Sym.name then some (ρ x) else none := by
  unfold bind
  induction vs with
  | nil => rfl
  | cons v vs ih =>
    simp only [List.map_cons, List.zip_cons_cons, List.find?_cons, List.mem_cons]
    by_cases h : v.name = x
    · simp [h]
    · have h' : x ≠ v.name := fun hh => h hh.symm
      simp only [h, decide_false, ih, h', false_or]

theorem run_ok (e : E N K) (vs : List (Sym N)) (ρ : N → K)
    (h : ∀ t ∈ e.syms, t.name ∈ vs.map Sym.name) :
    run e vs (vs.map fun v => ρ v.name) = .ok (e.eval fun s => ρ s.name) := by
  unfold run
  rw [if_neg (by simp), if_pos]
  · congr 1
    apply eval_congr
    intro s hs
    rw [bind_eq, if_pos (h s hs)]
    rfl
  · rw [List.all_eq_true]
    intro s hs
    rw [bind_eq, if_pos (h s hs)]
    rfl

theorem bind_isSome {vs : List (Sym N)} {xs : List K} {x : N} (h : (bind vs xs x).isSome) :
    x ∈ vs.map Sym.name := by
  unfold bind at h
  rw [Option.isSome_map, List.find?_isSome] at h
  obtain ⟨p, hp, hx⟩ := h
  have := (List.of_mem_zip hp).1
  exact List.mem_map.2 ⟨p.1, this, by simpa using hx⟩

theorem run_fail (e : E N K) (vs : List (Sym N)) (xs : List K) (hl : xs.length = vs.length)
    (h : ∃ t ∈ e.syms, t.name ∉ vs.map Sym.name) : run e vs xs = .error .generic := by
  unfold run
  rw [if_neg (by simp [hl]), if_neg]
  rw [List.all_eq_true]
  intro hall
  obtain ⟨t, ht, hn⟩ := h
  exact hn (bind_isSome (hall t ht))

theorem run_closed (e : E N K) (vs : List (Sym N)) (xs : List K) (hl : xs.length = vs.length)
    (h : e.syms = []) (ρ : Sym N → K) : run e vs xs = .ok (e.eval ρ) := by
  unfold run
  rw [if_neg (by simp [hl]), if_pos (by simp [h])]
  congr 1
  apply eval_congr
  simp [h]

/-! ### Substitution of numbers -/

/-- The substitution of numbers for symbols. -/
def subsNum (l : List (Sym N × K)) (e : E N K) : E N K :=
  l.foldl (fun e p => subs1 p.1 (.num p.2) e) e

theorem substitute_num (e : E N K) (values : List K) (vars : List (Var N)) (b : Bool) :
    substitute e (values.map E.num) vars b = subsNum ((vars.map (key b)).zip values) e := by
  unfold substitute subsNum
  induction vars generalizing e values with
  | nil => rfl
  | cons v vars ih =>
    cases values with
    | nil => rfl
    | cons c values =>
      simp only [List.map_cons, List.zip_cons_cons, List.foldl_cons]
      exact ih _ _

theorem subsNum_syms {l : List (Sym N × K)} {e : E N K} {t : Sym N} (h : t ∈ (subsNum l e).syms) :
    t ∈ e.syms ∧ t ∉ l.map Prod.fst := by
  unfold subsNum at h
  induction l generalizing e with
  | nil => exact ⟨h, by simp⟩
  | cons p l ih =>
    simp only [List.foldl_cons] at h
    obtain ⟨h1, h2⟩ := ih h
    rcases mem_syms_subs1 h1 with h1 | h1
    · exact ⟨h1.1, by simp only [List.map_cons, List.mem_cons, not_or]; exact ⟨h1.2, h2⟩⟩
    · simp [E.syms] at h1

theorem subsNum_eval (l : List (Sym N × K)) (e : E N K) (ρ τ : Sym N → K)
    (h1 : ∀ s ∈ e.syms, s ∉ l.map Prod.fst → τ s = ρ s)
    (h2 : ∀ p ∈ l, p.1 ∈ e.syms → τ p.1 = p.2) : (subsNum l e).eval ρ = e.eval τ := by
  unfold subsNum
  induction l generalizing e with
  | nil => exact (eval_congr fun s hs => h1 s hs (by simp)).symm
  | cons p l ih =>
    simp only [List.foldl_cons]
    rw [ih]
    · rw [eval_subs1]
      apply eval_congr
      intro s hs
      split
      · next h => subst h; exact (h2 p (by simp) hs).symm
      · rfl
    · intro s hs hn
      rcases mem_syms_subs1 hs with hs | hs
      · exact h1 s hs.1 (by simp only [List.map_cons, List.mem_cons, not_or]; exact ⟨hs.2, hn⟩)
      · simp [E.syms] at hs
    · intro q hq hs
      rcases mem_syms_subs1 hs with hs | hs
      · exact h2 q (by simp [hq]) hs.1
      · simp [E.syms] at hs

theorem subsNum_self (l : List (Sym N × K)) (e : E N K) (h : ∀ p ∈ l, p.1 ∉ e.syms) :
    subsNum l e = e := by
  unfold subsNum
  induction l with
  | nil => rfl
  | cons p l ih =>
    simp only [List.foldl_cons]
    rw [subs1_of_notMem (h p (by simp))]
    exact ih fun q hq => h q (by simp [hq])

/-- The derivative has no further symbols. -/
theorem diff_syms {v t : Sym N} {e : E N K} (h : t ∈ (diff v e).syms) : t ∈ e.syms := by
  induction e with
  | num c => simp [diff, E.syms] at h
  | sym u => by_cases hu : u = v <;> simp [diff, E.syms, hu] at h
  | neg a ih => exact ih h
  | add a b iha ihb =>
    simp only [diff, E.syms, List.mem_append] at h ⊢
    exact h.imp iha ihb
  | mul a b iha ihb =>
    simp only [diff, E.syms, List.mem_append] at h ⊢
    tauto
  | pow a n ih =>
    simp only [diff, E.syms, List.mem_append, List.nil_append] at h ⊢
    tauto

theorem diff_zero {v : Sym N} {e : E N K} (h : v ∉ e.syms) (ρ : Sym N → K) : (diff v e).eval ρ = 0 := by
  induction e with
  | num c => rfl
  | sym u =>
    have : u ≠ v := fun hu => h (by simp [E.syms, hu])
    simp [diff, this, E.eval]
  | neg a ih => simp [diff, E.eval, ih h]
  | add a b iha ihb =>
    simp only [E.syms, List.mem_append, not_or] at h
    simp [diff, E.eval, iha h.1, ihb h.2]
  | mul a b iha ihb =>
    simp only [E.syms, List.mem_append, not_or] at h
    simp [diff, E.eval, iha h.1, ihb h.2]
  | pow a n ih => simp [diff, E.eval, ih h]

end

/-- The derivative by a symbol is the derivative. -/
theorem diff_hasDerivAt {N : Type} [DecidableEq N] (v : Sym N) (e : E N ℝ) (ρ : Sym N → ℝ) :
    HasDerivAt (fun t => e.eval (Function.update ρ v t)) ((diff v e).eval ρ) (ρ v) := by
  induction e with
  | num c => exact hasDerivAt_const _ _
  | sym u =>
    by_cases hu : u = v
    · subst hu
      have h : (diff u (E.sym u)).eval ρ = 1 := by simp [diff, E.eval]
      have h' : (fun t => (E.sym u).eval (Function.update ρ u t)) = id := by
        funext t; simp [E.eval]
      rw [h, h']
      exact hasDerivAt_id (ρ u)
    · simpa [diff, E.eval, hu, Function.update_of_ne hu] using hasDerivAt_const (ρ v) (ρ u)
  | neg a ih => exact ih.neg
  | add a b iha ihb => exact iha.add ihb
  | mul a b iha ihb => 
    have h := iha.mul ihb
    simp only [Function.update_eq_self] at h
    exact h
  | pow a n ih => 
    have h := ih.pow n
    simp only [Function.update_eq_self] at h
    exact h

end Verif.Syms
