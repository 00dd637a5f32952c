import Verif.Model.LPText
import Verif.Props.ExprText
import Verif.Props.LPSolve

/-!
# Helpers for C136: texts of linear functions
-/

set_option linter.unusedSectionVars false

namespace Verif.LPText.Props
open Verif Verif.Sym Verif.LP Verif.Rel.Props
open Verif.Rel (Relations Cls OpArg Attrs)

section
variable {K : Type} [Field K] [DecidableEq K]

/-- Texts of linear functions of some variables, with their values.  The mark `true` is for texts without variables:
products have a factor and quotients a divisor of that kind, and divisors are not zero. -/
inductive LinText (vars : List (List Char)) : NT → Bool → List Char → ((List Char → K) → K) → Prop
  | name {w} : IsName w → w ∈ vars → LinText vars .factor false w fun ρ => ρ w
  | int {d ds} : (d = 0 → ds = []) →
      LinText vars .factor true ((d :: ds).map digitChar) fun _ => (intVal (d :: ds) : K)
  | dec {ip fp} : ip ≠ [] ∨ fp ≠ [] →
      LinText vars .factor true (ip.map digitChar ++ '.' :: fp.map digitChar)
        fun _ => (intVal ip : K) + fracVal fp
  | const {nt s v} : LinText vars nt true s v → LinText vars nt false s v
  | blank {nt k s v b b'} : (∀ c ∈ b, c = ' ') → (∀ c ∈ b', c = ' ') → LinText vars nt k s v →
      LinText vars nt k (b ++ s ++ b') v
  | neg {k s v} : LinText vars .factor k s v → LinText vars .factor k ('-' :: s) fun ρ => -v ρ
  | pos {k s v} : LinText vars .factor k s v → LinText vars .factor k ('+' :: s) v
  | paren {k s v} : LinText vars .sum k s v → LinText vars .factor k ('(' :: s ++ [')']) v
  | factor {k s v} : LinText vars .factor k s v → LinText vars .term k s v
  | mulLeft {k s t u v} : LinText vars .term true s u → LinText vars .factor k t v →
      LinText vars .term k (s ++ '*' :: t) fun ρ => u ρ * v ρ
  | mulRight {k s t u v} : LinText vars .term k s u → LinText vars .factor true t v →
      LinText vars .term k (s ++ '*' :: t) fun ρ => u ρ * v ρ
  | div {k s t u v} : LinText vars .term k s u → LinText vars .factor true t v → (∀ ρ, v ρ ≠ 0) →
      LinText vars .term k (s ++ '/' :: t) fun ρ => u ρ / v ρ
  | term {k s v} : LinText vars .term k s v → LinText vars .sum k s v
  | add {k s t u v} : LinText vars .sum k s u → LinText vars .term k t v →
      LinText vars .sum k (s ++ '+' :: t) fun ρ => u ρ + v ρ
  | sub {k s t u v} : LinText vars .sum k s u → LinText vars .term k t v →
      LinText vars .sum k (s ++ '-' :: t) fun ρ => u ρ - v ρ

/-- A linear expression: products have a factor, quotients a divisor without variables. -/
def LinExpr : Expr Decimal → Prop
  | .num _ => True
  | .var _ => True
  | .neg a => LinExpr a
  | .add a b => LinExpr a ∧ LinExpr b
  | .sub a b => LinExpr a ∧ LinExpr b
  | .mul a b => LinExpr a ∧ LinExpr b ∧ (freeSymbols a = [] ∨ freeSymbols b = [])
  | .div a b => LinExpr a ∧ LinExpr b ∧ freeSymbols b = []

/-- Value of a sum of coefficients times monomials. -/
def sumVal (ts : List (List (List Char) × K)) (ρ : List Char → K) : K :=
  (ts.map fun t => t.2 * (t.1.map ρ).prod).sum

/-- What is asked of `simplify()` for linear expressions: the value stays, no monomial has more than one variable, and
there are no new variables. -/
structure Simplifies (simp : Simplify K) : Prop where
  value : ∀ e, LinExpr e → ∀ (ρ : List Char → K) (x : K), eval Decimal.val ρ e = some x → sumVal (simp e) ρ = x
  linear : ∀ e, LinExpr e → ∀ t ∈ simp e, t.1.length ≤ 1
  names : ∀ e, LinExpr e → ∀ t ∈ simp e, ∀ x ∈ t.1, x ∈ freeSymbols e

/-! ### Texts -/

theorem lin_denotes {vars : List (List Char)} {nt : NT} {k : Bool} {s : List Char} {v : (List Char → K) → K}
    (h : LinText vars nt k s v) : Denotes nt s fun ρ => some (v ρ) := by
  induction h with
  | name h _ => exact .name h
  | int h => exact .int h
  | dec h => exact .dec h
  | const _ ih => exact ih
  | blank hb hb' _ ih => exact .blank hb hb' ih
  | neg _ ih => exact .neg ih
  | pos _ ih => exact .pos ih
  | paren _ ih => exact .paren ih
  | factor _ ih => exact .factor ih
  | mulLeft _ _ ih ih' => exact .mul ih ih'
  | mulRight _ _ ih ih' => exact .mul ih ih'
  | @div k s t u v _ _ hv ih ih' =>
    have := Denotes.div ih ih'
    have e : (fun ρ => if some (v ρ) = some 0 then none else
        lift2 (· / ·) (fun ρ => some (u ρ)) (fun ρ => some (v ρ)) ρ) = fun ρ => some (u ρ / v ρ) := by
      funext ρ
      rw [if_neg (by simpa using hv ρ)]
      rfl
    rwa [e] at this
  | term _ ih => exact .term ih
  | add _ _ ih ih' => exact .add ih ih'
  | sub _ _ ih ih' => exact .sub ih ih'

/-- The text of a linear function is read as a linear expression of the same value. -/
theorem lin_parses [CharZero K] {vars : List (List Char)} {nt : NT} {k : Bool} {s : List Char}
    {v : (List Char → K) → K} (h : LinText vars nt k s v) :
    ∃ ts e, lex s = some ts ∧ Derives nt ts e ∧ LinExpr e ∧ (∀ x ∈ freeSymbols e, x ∈ vars) ∧
      (k = true → freeSymbols e = []) := by
  induction h with
  | @name w hw hm =>
    exact ⟨_, _, lex_word w (word_name w hw).1 (word_name w hw).2, .word (wordExpr_name w hw), trivial,
      by simpa [freeSymbols] using hm, by simp⟩
  | @int d ds hd =>
    refine ⟨_, _, lex_word _ ?_ (by simp), .word (wordExpr_int d ds), trivial, by simp [freeSymbols],
      fun _ => rfl⟩
    intro c hc
    obtain ⟨d, -, rfl⟩ := List.mem_map.1 hc
    exact (digit_facts d).2.2.2.2.2
  | @dec ip fp hne =>
    refine ⟨_, _, lex_word _ ?_ (by simp), .word (wordExpr_dec ip fp hne), trivial, by simp [freeSymbols],
      fun _ => rfl⟩
    intro c hc
    rcases List.mem_append.1 hc with hc | hc
    · obtain ⟨d, -, rfl⟩ := List.mem_map.1 hc
      exact (digit_facts d).2.2.2.2.2
    · rcases List.mem_cons.1 hc with rfl | hc
      · decide
      · obtain ⟨d, -, rfl⟩ := List.mem_map.1 hc
        exact (digit_facts d).2.2.2.2.2
  | const _ ih =>
    obtain ⟨ts, e, h1, h2, h3, h4, -⟩ := ih
    exact ⟨ts, e, h1, h2, h3, h4, by simp⟩
  | @blank nt k s v b b' hb hb' _ ih =>
    obtain ⟨ts, e, h1, h2⟩ := ih
    refine ⟨ts, e, ?_, h2⟩
    rw [List.append_assoc, lex_blank_front _ _ hb]
    exact lex_blank_back _ _ hb' h1
  | neg _ ih =>
    obtain ⟨ts, e, h1, h2, h3⟩ := ih
    refine ⟨_, _, ?_, .neg h2, h3⟩
    rw [lex_op '-' .minus _ (by decide) (by decide) rfl, h1]; rfl
  | pos _ ih =>
    obtain ⟨ts, e, h1, h2, h3⟩ := ih
    refine ⟨_, _, ?_, .pos h2, h3⟩
    rw [lex_op '+' .plus _ (by decide) (by decide) rfl, h1]; rfl
  | paren _ ih =>
    obtain ⟨ts, e, h1, h2, h3⟩ := ih
    refine ⟨_, _, ?_, .paren h2, h3⟩
    rw [List.cons_append, lex_op '(' .lpar _ (by decide) (by decide) rfl,
      lex_mid ')' .rpar _ [] (by decide) (by decide) rfl h1 (us := []) rfl]
    rfl
  | factor _ ih =>
    obtain ⟨ts, e, h1, h2, h3⟩ := ih
    exact ⟨ts, e, h1, .factor h2, h3⟩
  | term _ ih =>
    obtain ⟨ts, e, h1, h2, h3⟩ := ih
    exact ⟨ts, e, h1, .term h2, h3⟩
  | mulLeft _ _ ih ih' =>
    obtain ⟨ts, e, h1, h2, h3, h4, h5⟩ := ih
    obtain ⟨ts', e', h1', h2', h3', h4', h5'⟩ := ih'
    refine ⟨_, _, lex_mid '*' .times _ _ (by decide) (by decide) rfl h1 h1', .mul h2 h2',
      ⟨h3, h3', .inl (h5 rfl)⟩, ?_, fun hk => ?_⟩
    · intro x hx
      exact (List.mem_append.1 hx).elim (h4 x) (h4' x)
    · show freeSymbols e ++ freeSymbols e' = []
      rw [h5 rfl, h5' hk]; rfl
  | mulRight _ _ ih ih' =>
    obtain ⟨ts, e, h1, h2, h3, h4, h5⟩ := ih
    obtain ⟨ts', e', h1', h2', h3', h4', h5'⟩ := ih'
    refine ⟨_, _, lex_mid '*' .times _ _ (by decide) (by decide) rfl h1 h1', .mul h2 h2',
      ⟨h3, h3', .inr (h5' rfl)⟩, ?_, fun hk => ?_⟩
    · intro x hx
      exact (List.mem_append.1 hx).elim (h4 x) (h4' x)
    · show freeSymbols e ++ freeSymbols e' = []
      rw [h5 hk, h5' rfl]; rfl
  | div _ _ _ ih ih' =>
    obtain ⟨ts, e, h1, h2, h3, h4, h5⟩ := ih
    obtain ⟨ts', e', h1', h2', h3', h4', h5'⟩ := ih'
    refine ⟨_, _, lex_mid '/' .slash _ _ (by decide) (by decide) rfl h1 h1', .div h2 h2',
      ⟨h3, h3', h5' rfl⟩, ?_, fun hk => ?_⟩
    · intro x hx
      exact (List.mem_append.1 hx).elim (h4 x) (h4' x)
    · show freeSymbols e ++ freeSymbols e' = []
      rw [h5 hk, h5' rfl]; rfl
  | add _ _ ih ih' =>
    obtain ⟨ts, e, h1, h2, h3, h4, h5⟩ := ih
    obtain ⟨ts', e', h1', h2', h3', h4', h5'⟩ := ih'
    refine ⟨_, _, lex_mid '+' .plus _ _ (by decide) (by decide) rfl h1 h1', .add h2 h2', ⟨h3, h3'⟩, ?_,
      fun hk => ?_⟩
    · intro x hx
      exact (List.mem_append.1 hx).elim (h4 x) (h4' x)
    · show freeSymbols e ++ freeSymbols e' = []
      rw [h5 hk, h5' hk]; rfl
  | sub _ _ ih ih' =>
    obtain ⟨ts, e, h1, h2, h3, h4, h5⟩ := ih
    obtain ⟨ts', e', h1', h2', h3', h4', h5'⟩ := ih'
    refine ⟨_, _, lex_mid '-' .minus _ _ (by decide) (by decide) rfl h1 h1', .sub h2 h2', ⟨h3, h3'⟩, ?_,
      fun hk => ?_⟩
    · intro x hx
      exact (List.mem_append.1 hx).elim (h4 x) (h4' x)
    · show freeSymbols e ++ freeSymbols e' = []
      rw [h5 hk, h5' hk]; rfl

theorem lin_expr [CharZero K] {vars : List (List Char)} {k : Bool} {s : List Char} {v : (List Char → K) → K}
    (h : LinText vars .sum k s v) :
    ∃ e, parseExpr s = some e ∧ LinExpr e ∧ (∀ x ∈ freeSymbols e, x ∈ vars) ∧
      ∀ ρ, eval Decimal.val ρ e = some (v ρ) := by
  obtain ⟨ts, e, h1, h2, h3, h4, -⟩ := lin_parses h
  have hp : parseExpr s = some e := parseExpr_iff.2 ⟨ts, h1, h2⟩
  obtain ⟨e', hp', hv⟩ := C21_text s _ (lin_denotes h)
  rw [hp] at hp'
  obtain rfl : e = e' := by simpa using hp'
  exact ⟨e, hp, h3, h4, hv⟩

/-- The value depends on the variables alone. -/
theorem lin_congr {vars : List (List Char)} {nt : NT} {k : Bool} {s : List Char} {v : (List Char → K) → K}
    (h : LinText vars nt k s v) (ρ σ : List Char → K) (hρ : ∀ x ∈ vars, ρ x = σ x) : v ρ = v σ := by
  induction h with
  | name _ hm => exact hρ _ hm
  | int _ => rfl
  | dec _ => rfl
  | const _ ih => exact ih
  | blank _ _ _ ih => exact ih
  | neg _ ih => simp only [ih]
  | pos _ ih => exact ih
  | paren _ ih => exact ih
  | factor _ ih => exact ih
  | mulLeft _ _ ih ih' => simp only [ih, ih']
  | mulRight _ _ ih ih' => simp only [ih, ih']
  | div _ _ _ ih ih' => simp only [ih, ih']
  | term _ ih => exact ih
  | add _ _ ih ih' => simp only [ih, ih']
  | sub _ _ ih ih' => simp only [ih, ih']

/-! ### `expand` -/

theorem sumVal_append (a b : List (List (List Char) × K)) (ρ : List Char → K) :
    sumVal (a ++ b) ρ = sumVal a ρ + sumVal b ρ := by simp [sumVal]

theorem sumVal_neg (a : List (List (List Char) × K)) (ρ : List Char → K) :
    sumVal (a.map fun t => (t.1, -t.2)) ρ = -sumVal a ρ := by
  induction a with
  | nil => simp [sumVal]
  | cons t a ih =>
    simp only [sumVal, List.map_cons, List.sum_cons] at ih ⊢
    rw [ih]; ring

theorem sumVal_div (a : List (List (List Char) × K)) (c : K) (ρ : List Char → K) :
    sumVal (a.map fun t => (t.1, t.2 / c)) ρ = sumVal a ρ / c := by
  induction a with
  | nil => simp [sumVal]
  | cons t a ih =>
    simp only [sumVal, List.map_cons, List.sum_cons] at ih ⊢
    rw [ih]; ring

theorem sumVal_mul (a b : List (List (List Char) × K)) (ρ : List Char → K) :
    sumVal (a.flatMap fun t => b.map fun u => (t.1 ++ u.1, t.2 * u.2)) ρ = sumVal a ρ * sumVal b ρ := by
  induction a with
  | nil => simp [sumVal]
  | cons t a ih =>
    rw [List.flatMap_cons, sumVal_append, ih]
    have : sumVal (b.map fun u => (t.1 ++ u.1, t.2 * u.2)) ρ = t.2 * (t.1.map ρ).prod * sumVal b ρ := by
      clear ih
      induction b with
      | nil => simp [sumVal]
      | cons u b ih =>
        simp only [sumVal, List.map_cons, List.sum_cons, List.map_append, List.prod_append] at ih ⊢
        rw [ih]; ring
    rw [this]
    simp only [sumVal, List.map_cons, List.sum_cons]
    ring

theorem sumVal_const (a : List (List (List Char) × K)) (h : ∀ t ∈ a, t.1 = []) (ρ : List Char → K) :
    sumVal a ρ = (a.map Prod.snd).sum := by
  induction a with
  | nil => rfl
  | cons t a ih =>
    have := ih fun t ht => h t (List.mem_cons_of_mem _ ht)
    simp only [sumVal, List.map_cons, List.sum_cons, h t List.mem_cons_self] at this ⊢
    rw [this]
    simp

theorem expand_names (e : Expr Decimal) : ∀ t ∈ (expand e : List (List (List Char) × K)), ∀ x ∈ t.1,
    x ∈ freeSymbols e := by
  induction e with
  | num c => simp [expand]
  | var y => simp [expand, freeSymbols]
  | neg a ih =>
    intro t ht x hx
    obtain ⟨u, hu, rfl⟩ := List.mem_map.1 ht
    exact ih u hu x hx
  | add a b ih ih' =>
    intro t ht x hx
    rcases List.mem_append.1 ht with ht | ht
    · exact List.mem_append_left _ (ih t ht x hx)
    · exact List.mem_append_right _ (ih' t ht x hx)
  | sub a b ih ih' =>
    intro t ht x hx
    rcases List.mem_append.1 ht with ht | ht
    · exact List.mem_append_left _ (ih t ht x hx)
    · obtain ⟨u, hu, rfl⟩ := List.mem_map.1 ht
      exact List.mem_append_right _ (ih' u hu x hx)
  | mul a b ih ih' =>
    intro t ht x hx
    obtain ⟨u, hu, ht⟩ := List.mem_flatMap.1 ht
    obtain ⟨w, hw, rfl⟩ := List.mem_map.1 ht
    rcases List.mem_append.1 hx with hx | hx
    · exact List.mem_append_left _ (ih u hu x hx)
    · exact List.mem_append_right _ (ih' w hw x hx)
  | div a b ih ih' =>
    intro t ht x hx
    obtain ⟨u, hu, rfl⟩ := List.mem_map.1 ht
    exact List.mem_append_left _ (ih u hu x hx)

theorem expand_const (e : Expr Decimal) (h : freeSymbols e = []) :
    ∀ t ∈ (expand e : List (List (List Char) × K)), t.1 = [] := by
  intro t ht
  refine List.eq_nil_iff_forall_not_mem.2 fun x hx => ?_
  have := expand_names e t ht x hx
  simp [h] at this

/-- Expansion is one way to meet the demands. -/
theorem expand_simplifies : Simplifies (expand : Simplify K) where
  names := fun e _ => expand_names e
  linear := by
    intro e
    induction e with
    | num c => simp [expand]
    | var y => simp [expand]
    | neg a ih =>
      intro h t ht
      obtain ⟨u, hu, rfl⟩ := List.mem_map.1 ht
      exact ih h u hu
    | add a b ih ih' =>
      intro h t ht
      exact (List.mem_append.1 ht).elim (ih h.1 t) (ih' h.2 t)
    | sub a b ih ih' =>
      intro h t ht
      rcases List.mem_append.1 ht with ht | ht
      · exact ih h.1 t ht
      · obtain ⟨u, hu, rfl⟩ := List.mem_map.1 ht
        exact ih' h.2 u hu
    | mul a b ih ih' =>
      intro h t ht
      obtain ⟨u, hu, ht⟩ := List.mem_flatMap.1 ht
      obtain ⟨w, hw, rfl⟩ := List.mem_map.1 ht
      have h1 := ih h.1 u hu
      have h2 := ih' h.2.1 w hw
      rcases h.2.2 with h0 | h0
      · have := expand_const a h0 u hu
        simp only [this, List.nil_append]; exact h2
      · have := expand_const b h0 w hw
        simp only [this, List.append_nil]; exact h1
    | div a b ih ih' =>
      intro h t ht
      obtain ⟨u, hu, rfl⟩ := List.mem_map.1 ht
      exact ih h.1 u hu
  value := by
    intro e h ρ
    induction e with
    | num c => simp [expand, eval, sumVal]
    | var y => simp [expand, eval, sumVal]
    | neg a ih =>
      intro x hx
      cases ha : eval Decimal.val ρ a with
      | none => simp [eval, ha] at hx
      | some y =>
        obtain rfl : -y = x := by simpa [eval, ha] using hx
        rw [expand, sumVal_neg, ih h y ha]
    | add a b ih ih' =>
      intro x hx
      cases ha : eval Decimal.val ρ a with
      | none => simp [eval, ha] at hx
      | some y =>
        cases hb : eval Decimal.val ρ b with
        | none => simp [eval, ha, hb] at hx
        | some z =>
          obtain rfl : y + z = x := by simpa [eval, ha, hb] using hx
          rw [expand, sumVal_append, ih h.1 y ha, ih' h.2 z hb]
    | sub a b ih ih' =>
      intro x hx
      cases ha : eval Decimal.val ρ a with
      | none => simp [eval, ha] at hx
      | some y =>
        cases hb : eval Decimal.val ρ b with
        | none => simp [eval, ha, hb] at hx
        | some z =>
          obtain rfl : y - z = x := by simpa [eval, ha, hb] using hx
          rw [expand, sumVal_append, sumVal_neg, ih h.1 y ha, ih' h.2 z hb, sub_eq_add_neg]
    | mul a b ih ih' =>
      intro x hx
      cases ha : eval Decimal.val ρ a with
      | none => simp [eval, ha] at hx
      | some y =>
        cases hb : eval Decimal.val ρ b with
        | none => simp [eval, ha, hb] at hx
        | some z =>
          obtain rfl : y * z = x := by simpa [eval, ha, hb] using hx
          rw [expand, sumVal_mul, ih h.1 y ha, ih' h.2.1 z hb]
    | div a b ih ih' =>
      intro x hx
      cases ha : eval Decimal.val ρ a with
      | none => simp [eval, ha] at hx
      | some y =>
        cases hb : eval Decimal.val ρ b with
        | none => simp [eval, ha, hb] at hx
        | some z =>
          by_cases hz : z = 0
          · simp [eval, ha, hb, hz] at hx
          · obtain rfl : y / z = x := by simpa [eval, ha, hb, hz] using hx
            rw [expand, sumVal_div, ih h.1 y ha, ← sumVal_const _ (expand_const b h.2.2) ρ, ih' h.2.1 z hb]

end

end Verif.LPText.Props
