import Verif.Proofs.Symbols
import Mathlib.Algebra.Field.Rat
import Mathlib.Tactic.NormNum

set_option linter.unusedSectionVars false

/-! C93: symbolic functions with symbols that have the same name but different assumptions. -/

namespace Verif.Syms.Props

open Verif Syms

section
variable {N K : Type} [DecidableEq N] [CommRing K]

/-- The user gives the variables `vs`: as symbols, or by name if they have no assumptions. -/
inductive Given : List (Var N) → List (Sym N) → Prop
  | symbols (vs : List (Sym N)) : Given (vs.map .symbol) vs
  | names (xs : List N) : Given (xs.map .text) (xs.map fun x => ⟨x, 0⟩)

theorem Given.toSymbols {vars : List (Var N)} {vs : List (Sym N)} (h : Given vars vs) :
    toSymbols vars = .ok vs := by
  cases h with
  | symbols => exact toSymbols_symbol vs
  | names xs => exact toSymbols_text xs

theorem Given.ne {vars : List (Var N)} {vs : List (Sym N)} (h : Given vars vs) (h0 : vs ≠ []) :
    vars ≠ [] := by
  cases h with
  | symbols => simpa using h0
  | names xs => simpa using h0

theorem Given.key {vars : List (Var N)} {vs : List (Sym N)} (h : Given vars vs) (b : Bool) :
    vars.map (key b) = vs.map fun v => if b then plain v.name else v := by
  cases h with
  | symbols => simp [Syms.key, Function.comp_def]
  | names xs => cases b <;> simp [Syms.key, Function.comp_def, plain]

theorem construct_eq {e : E N K} {vars : List (Var N)} {vs : List (Sym N)} {b : Bool}
    (hg : Given vars vs) (h0 : vs ≠ []) : construct b e vars = .ok ⟨dec vs e, vs, b⟩ :=
  symbolize_eq (hg.ne h0) hg.toSymbols

theorem subs_eq {f : Fn N K} {values : List K} {vars : List (Var N)} {ws : List (Sym N)}
    (hg : Given vars ws) (h0 : ws ≠ []) :
    f.subs values vars = .ok ⟨dec ws
      (subsNum ((ws.map fun v => if f.fromStr then plain v.name else v).zip values) f.expr), ws, false⟩ := by
  unfold Fn.subs
  rw [symbolize_eq (hg.ne h0) hg.toSymbols, substitute_num, hg.key]

/-- C93: values go by names.  Whatever the assumptions of the symbols in the expression and of the given
variables are, a function made from text or from an expression whose names are among those of the variables
has the value of the expression. -/
theorem C93_value {vars : List (Var N)} {vs : List (Sym N)} (hg : Given vars vs) (h0 : vs ≠ [])
    (isText : Bool) (e : E N K) (hn : ∀ t ∈ e.syms, t.name ∈ vs.map Sym.name) :
    ∃ f, construct isText e vars = .ok f ∧ f.vars = vs ∧
      ∀ ρ : N → K, f.call (vs.map fun v => ρ v.name) = .ok (e.eval fun s => ρ s.name) := by
  refine ⟨_, construct_eq hg h0, rfl, fun ρ => ?_⟩
  show run (dec vs e) vs _ = _
  rw [run_ok, dec_eval]
  intro t ht
  have : t.name ∈ (dec vs e).syms.map Sym.name := List.mem_map_of_mem ht
  rw [dec_names] at this
  obtain ⟨u, hu, h⟩ := List.mem_map.1 this
  exact h ▸ hn u hu

/-- C93: if a name of the expression is not that of a variable, no call of the function succeeds
(`NameError`); a wrong number of values is refused with `ValueError`. -/
theorem C93_unknown_name {vars : List (Var N)} {vs : List (Sym N)} (hg : Given vars vs) (h0 : vs ≠ [])
    (isText : Bool) (e : E N K) :
    ∃ f, construct isText e vars = .ok f ∧
      ((∃ t ∈ e.syms, t.name ∉ vs.map Sym.name) →
        ∀ xs : List K, xs.length = vs.length → f.call xs = .error .generic) ∧
      ∀ xs : List K, xs.length ≠ vs.length → f.call xs = .error .value := by
  refine ⟨_, construct_eq hg h0, ?_, ?_⟩
  · rintro ⟨t, ht, hn⟩ xs hl
    refine run_fail _ _ _ hl ?_
    have : t.name ∈ (dec vs e).syms.map Sym.name := by
      rw [dec_names]
      exact List.mem_map_of_mem ht
    obtain ⟨u, hu, h⟩ := List.mem_map.1 this
    exact ⟨u, hu, h ▸ hn⟩
  · intro xs hl
    show run _ _ _ = _
    unfold run
    rw [if_pos hl]

/-- C93: variables given partly as symbols and partly by name are refused with `TypeError`. -/
theorem C93_mixed_refused (isText : Bool) (e : E N K) (vars : List (Var N)) (s : Sym N) (x : N)
    (hs : Var.symbol s ∈ vars) (hx : Var.text x ∈ vars) : construct isText e vars = .error .type := by
  have h0 : vars ≠ [] := List.ne_nil_of_mem hs
  unfold construct symbolize toSymbols
  rw [if_neg (by simpa using h0), if_neg, if_neg]
  · rfl
  · intro h
    have := List.all_eq_true.1 h _ hs
    simp at this
  · intro h
    have := List.all_eq_true.1 h _ hx
    simp at this

/-- C93: text is read with symbols without assumptions; these, and the variables themselves, become the
given variables, so that the symbols of the expression of the function are among its variables. -/
theorem C93_symbols {vars : List (Var N)} {vs : List (Sym N)} (hg : Given vars vs) (h0 : vs ≠ [])
    (isText : Bool) (e : E N K) (hn : ∀ t ∈ e.syms, t.name ∈ vs.map Sym.name)
    (hk : ∀ t ∈ e.syms, t.kind = 0 ∨ t ∈ vs) :
    ∃ f, construct isText e vars = .ok f ∧ ∀ t ∈ f.expr.syms, t ∈ vs := by
  refine ⟨_, construct_eq hg h0, ?_⟩
  refine dec_syms vs vs (fun v h => h) e fun t ht => ?_
  rcases hk t ht with h | h
  · refine Or.inr ⟨?_, hn t ht⟩
    cases t
    simp only at h
    subst h
    rfl
  · exact Or.inl h

/-- C93: substitution into a function.  For a function made from an expression, by its variables; for a
function made from text, if its variables have no assumptions, by variables with these names: the new
function has the value of the expression with the given values for the substituted names, and if all names
are substituted, it is that constant. -/
theorem C93_subs_partial {vars vars' : List (Var N)} {vs ws : List (Sym N)} (hg : Given vars vs)
    (h0 : vs ≠ []) (hnd : (vs.map Sym.name).Nodup) (isText : Bool) (e : E N K)
    (hn : ∀ t ∈ e.syms, t.name ∈ vs.map Sym.name) (hk : ∀ t ∈ e.syms, t.kind = 0 ∨ t ∈ vs)
    (hg' : Given vars' ws) (h0' : ws ≠ [])
    (hw : ∀ w ∈ ws, if isText then (∀ v ∈ vs, v.kind = 0) else w ∈ vs)
    (values : List K) (hl : values.length = ws.length) :
    ∃ f g, construct isText e vars = .ok f ∧ f.subs values vars' = .ok g ∧ g.vars = ws ∧
      ∀ ρ σ : N → K, ws.map (fun w => σ w.name) = values →
        (∀ x, x ∉ ws.map Sym.name → σ x = ρ x) →
        g.expr.eval (fun s => ρ s.name) = e.eval (fun s => σ s.name) ∧
        ((∀ v ∈ vs, v.name ∈ ws.map Sym.name) → ∀ ys : List K, ys.length = ws.length →
          g.call ys = .ok (e.eval fun s => σ s.name)) := by
  have hsy : ∀ t ∈ (dec vs e).syms, t ∈ vs := by
    refine dec_syms vs vs (fun v h => h) e fun t ht => ?_
    rcases hk t ht with h | h
    · refine Or.inr ⟨?_, hn t ht⟩
      cases t
      simp only at h
      subst h
      rfl
    · exact Or.inl h
  -- for a variable of the function, being replaced is having the name
  have hkey : ∀ w ∈ ws, ∀ v ∈ vs, v.name = w.name → v = if isText then plain w.name else w := by
    intro w hw' v hv he
    have := hw w hw'
    cases isText with
    | true =>
      simp only [if_true] at this ⊢
      have hv0 := this v hv
      cases v
      simp only at hv0 he
      subst hv0 he
      rfl
    | false =>
      simp only [Bool.false_eq_true, if_false] at this ⊢
      exact List.inj_on_of_nodup_map hnd hv this he
  refine ⟨_, _, construct_eq hg h0, subs_eq hg' h0', rfl, ?_⟩
  intro ρ σ hσ hρ
  have hfst : ((ws.map fun v => if isText then plain v.name else v).zip values).map Prod.fst =
      ws.map fun v => if isText then plain v.name else v := by
    apply List.map_fst_zip
    simp [hl]
  have hname : ∀ w : Sym N, (if isText then plain w.name else w).name = w.name := by
    intro w
    cases isText <;> rfl
  have hev : (subsNum ((ws.map fun v => if isText then plain v.name else v).zip values)
      (dec vs e)).eval (fun s => ρ s.name) = e.eval (fun s => σ s.name) := by
    rw [← dec_eval vs e σ]
    apply subsNum_eval
    · intro s hs hns
      rw [hfst] at hns
      apply hρ
      intro hm
      obtain ⟨w, hw', he⟩ := List.mem_map.1 hm
      exact hns (List.mem_map.2 ⟨w, hw', (hkey w hw' s (hsy s hs) he.symm).symm⟩)
    · intro p hp _
      rw [← hσ] at hp
      rw [List.zip_map', List.mem_map] at hp
      obtain ⟨w, _, he⟩ := hp
      subst he
      show σ (if isText then plain w.name else w).name = σ w.name
      rw [hname]
  refine ⟨?_, ?_⟩
  · show (dec ws (subsNum _ (dec vs e))).eval _ = _
    rw [dec_eval]
    exact hev
  · intro hall ys hys
    have hnil : (subsNum ((ws.map fun v => if isText then plain v.name else v).zip values)
        (dec vs e)).syms = [] := by
      rw [List.eq_nil_iff_forall_not_mem]
      intro t ht
      obtain ⟨h1, h2⟩ := subsNum_syms ht
      rw [hfst] at h2
      have hv := hsy t h1
      obtain ⟨w, hw', he⟩ := List.mem_map.1 (hall t hv)
      exact h2 (List.mem_map.2 ⟨w, hw', (hkey w hw' t hv he.symm).symm⟩)
    have hnil' : (dec ws (subsNum ((ws.map fun v => if isText then plain v.name else v).zip values)
        (dec vs e))).syms = [] := by
      rw [← List.map_eq_nil_iff (f := Sym.name), dec_names, hnil]
      rfl
    show run (dec ws (subsNum _ (dec vs e))) ws ys = _
    rw [run_closed _ _ _ hys hnil' (fun s => ρ s.name), dec_eval]
    exact congrArg _ hev

/-- C93 is violated: in a function made from text with variables that all carry assumptions no
substitution has any effect, whatever the text, the values and the variables are. -/
theorem C93_subs_text_violated {vs ws : List (Sym N)} {vars' : List (Var N)} (h0 : vs ≠ [])
    (hvs : ∀ v ∈ vs, v.kind ≠ 0) (e : E N K) (htext : ∀ t ∈ e.syms, t.kind = 0)
    (hn : ∀ t ∈ e.syms, t.name ∈ vs.map Sym.name) (hg' : Given vars' ws) (h0' : ws ≠ [])
    (values : List K) :
    ∃ f g, construct true e (vs.map .symbol) = .ok f ∧ f.subs values vars' = .ok g ∧
      g.expr = f.expr ∧ ∀ ρ : N → K, g.expr.eval (fun s => ρ s.name) = e.eval fun s => ρ s.name := by
  refine ⟨_, _, construct_eq (.symbols vs) h0, subs_eq hg' h0', ?_⟩
  have hsy : ∀ t ∈ (dec vs e).syms, t.kind ≠ 0 := by
    intro t ht
    refine hvs t (dec_syms vs vs (fun v h => h) e (fun u hu => Or.inr ⟨?_, hn u hu⟩) t ht)
    have := htext u hu
    cases u
    simp only at this
    subst this
    rfl
  have h : dec ws (subsNum ((ws.map fun v => if true then plain v.name else v).zip values) (dec vs e)) =
      dec vs e := by
    rw [subsNum_self, dec_self _ _ hsy]
    intro p hp hs
    have hm := (List.of_mem_zip hp).1
    obtain ⟨w, _, he⟩ := List.mem_map.1 hm
    refine hsy _ hs ?_
    rw [← he]
    rfl
  exact ⟨h, fun ρ => by show (dec ws _).eval _ = _; rw [h, dec_eval]⟩

/-- C93 is violated: in a function made from an expression in symbols with assumptions a substitution by
names has no effect. -/
theorem C93_subs_names_violated {vs : List (Sym N)} (h0 : vs ≠ []) (e : E N K)
    (he : ∀ t ∈ e.syms, t.kind ≠ 0) (xs : List N) (hx : xs ≠ []) (values : List K) :
    ∃ f g, construct false e (vs.map .symbol) = .ok f ∧ f.subs values (xs.map .text) = .ok g ∧
      g.expr = f.expr ∧ f.expr = e := by
  refine ⟨_, _, construct_eq (.symbols vs) h0, subs_eq (.names xs) (by simpa using hx), ?_⟩
  have h1 : dec vs e = e := dec_self _ _ he
  refine ⟨?_, h1⟩
  show dec _ (subsNum _ (dec vs e)) = dec vs e
  rw [h1, subsNum_self, dec_self _ _ he]
  intro p hp hs
  have hm := (List.of_mem_zip hp).1
  simp only [List.map_map, List.mem_map, Function.comp_apply] at hm
  obtain ⟨x, _, hxp⟩ := hm
  refine he _ hs ?_
  rw [← hxp]
  rfl

/-- C93 is violated: substituting twice is not substituting once, for the result of `subs` (also of
`subs(inplace=True)`) does not know any more that it was made from text.  With one positive symbol `x`, the
first substitution of `c` into "x" by `x` has no effect and the second one has. -/
theorem C93_subs_twice_violated (x : N) (c : K) :
    ∃ f g h, construct true (.sym ⟨x, 0⟩) [Var.symbol ⟨x, 1⟩] = .ok f ∧
      f.subs [c] [Var.symbol ⟨x, 1⟩] = .ok g ∧ g.subs [c] [Var.symbol ⟨x, 1⟩] = .ok h ∧
      (∀ a, f.call [a] = .ok a) ∧ (∀ a, g.call [a] = .ok a) ∧ (∀ a, h.call [a] = .ok c) := by
  have hp : (⟨x, 1⟩ : Sym N) ≠ plain x := by simp [plain]
  have e1 : construct true (.sym ⟨x, 0⟩) [Var.symbol ⟨x, 1⟩] =
      .ok (⟨.sym ⟨x, 1⟩, [⟨x, 1⟩], true⟩ : Fn N K) := by
    rw [show [Var.symbol ⟨x, 1⟩] = [(⟨x, 1⟩ : Sym N)].map Var.symbol from rfl,
      construct_eq (.symbols _) (by simp)]
    simp [dec, subs1, plain]
  have e2 : (⟨.sym ⟨x, 1⟩, [⟨x, 1⟩], true⟩ : Fn N K).subs [c] [Var.symbol ⟨x, 1⟩] =
      .ok (⟨.sym ⟨x, 1⟩, [⟨x, 1⟩], false⟩ : Fn N K) := by
    rw [show [Var.symbol ⟨x, 1⟩] = [(⟨x, 1⟩ : Sym N)].map Var.symbol from rfl,
      subs_eq (.symbols _) (by simp)]
    simp [dec, subsNum, subs1, plain]
  have e3 : (⟨.sym ⟨x, 1⟩, [⟨x, 1⟩], false⟩ : Fn N K).subs [c] [Var.symbol ⟨x, 1⟩] =
      .ok (⟨.num c, [⟨x, 1⟩], false⟩ : Fn N K) := by
    rw [show [Var.symbol ⟨x, 1⟩] = [(⟨x, 1⟩ : Sym N)].map Var.symbol from rfl,
      subs_eq (.symbols _) (by simp)]
    simp [dec, subsNum, subs1]
  refine ⟨_, _, _, e1, e2, e3, fun a => ?_, fun a => ?_, fun a => ?_⟩
  · simp [Fn.call, run, bind, E.syms, E.eval]
  · simp [Fn.call, run, bind, E.syms, E.eval]
  · simp [Fn.call, run, E.syms, E.eval]

/-- C93 is violated: an expression in symbols with assumptions and variables of the same names that are
other symbols: the values are right, but every gradient is zero. -/
theorem C93_gradient_violated {vars : List (Var N)} {vs : List (Sym N)} (hg : Given vars vs)
    (h0 : vs ≠ []) (e : E N K) (hn : ∀ t ∈ e.syms, t.name ∈ vs.map Sym.name)
    (he : ∀ t ∈ e.syms, t.kind ≠ 0) (hvs : ∀ t ∈ e.syms, t ∉ vs) :
    ∃ f, construct false e vars = .ok f ∧
      ∀ ρ : N → K, f.call (vs.map fun v => ρ v.name) = .ok (e.eval fun s => ρ s.name) ∧
        f.gradient (vs.map fun v => ρ v.name) = .ok (vs.map fun _ => 0) := by
  obtain ⟨f, hf, _, hv⟩ := C93_value hg h0 false e hn
  refine ⟨f, hf, fun ρ => ⟨hv ρ, ?_⟩⟩
  have hfe : f = ⟨dec vs e, vs, false⟩ := by
    rw [construct_eq hg h0] at hf
    exact (Except.ok.inj hf).symm
  subst hfe
  show pyMap (fun v => run (diff v (dec vs e)) vs _) vs = _
  rw [dec_self _ _ he]
  refine pyMap_ok fun v hv' => ?_
  rw [run_ok _ _ _ fun t ht => hn t (diff_syms ht)]
  exact congrArg _ (diff_zero (fun h => hvs v h hv') _)

end

/-- C93: the gradient.  If every symbol of the expression is a variable or (as in text) has no assumptions,
and no two variables have the same name, the gradient consists of the derivatives by the variables, in
order.  Not in general, see `C93_gradient_violated`. -/
theorem C93_gradient_partial {N : Type} [DecidableEq N] {vars : List (Var N)} {vs : List (Sym N)}
    (hg : Given vars vs) (h0 : vs ≠ []) (hnd : (vs.map Sym.name).Nodup) (isText : Bool) (e : E N ℝ)
    (hn : ∀ t ∈ e.syms, t.name ∈ vs.map Sym.name) (hk : ∀ t ∈ e.syms, t.kind = 0 ∨ t ∈ vs) :
    ∃ f, construct isText e vars = .ok f ∧ ∀ ρ : N → ℝ,
      ∃ g, f.gradient (vs.map fun v => ρ v.name) = .ok g ∧
        List.Forall₂ (fun v d => HasDerivAt
          (fun t => e.eval fun s => Function.update ρ v.name t s.name) d (ρ v.name)) vs g := by
  have hsy : ∀ t ∈ (dec vs e).syms, t ∈ vs := by
    obtain ⟨f, hf, h⟩ := C93_symbols hg h0 isText e hn hk
    rw [construct_eq hg h0] at hf
    rw [← Except.ok.inj hf] at h
    exact h
  refine ⟨_, construct_eq hg h0, fun ρ => ⟨vs.map fun v => (diff v (dec vs e)).eval fun s => ρ s.name,
    ?_, ?_⟩⟩
  · show pyMap (fun v => run (diff v (dec vs e)) vs _) vs = _
    exact pyMap_ok fun v hv =>
      run_ok _ _ _ fun t ht => List.mem_map_of_mem (hsy t (diff_syms ht))
  · rw [List.forall₂_map_right_iff, List.forall₂_same]
    intro v hv
    have hd := diff_hasDerivAt v (dec vs e) fun s => ρ s.name
    have : (fun t => (dec vs e).eval (Function.update (fun s => ρ s.name) v t)) =
        fun t => e.eval fun s => Function.update ρ v.name t s.name := by
      funext t
      rw [← dec_eval vs e]
      apply eval_congr
      intro s hs
      by_cases h : s = v
      · subst h; simp
      · have hne : s.name ≠ v.name := fun hh => h (List.inj_on_of_nodup_map hnd (hsy s hs) hv hh)
        rw [Function.update_of_ne h, Function.update_of_ne hne]
    rw [this] at hd
    exact hd

/-! ### Cases -/

/-- `Function("x**2 + y", variables=[x, y])` with positive `x`. -/
example : ∃ f, construct true
    (.add (.pow (.sym ⟨"x", 0⟩) 2) (.sym ⟨"y", 0⟩) : E String ℚ)
      ([⟨"x", 1⟩, ⟨"y", 0⟩].map Var.symbol) = .ok f ∧ f.call [3, 4] = .ok 13 ∧
      f.gradient [3, 4] = .ok [6, 1] :=
  ⟨_, construct_eq (.symbols _) (by simp), by decide +kernel, by decide +kernel⟩

example : ∃ f, construct true
    (.add (.pow (.sym ⟨"x", 0⟩) 2) (.sym ⟨"y", 0⟩) : E String ℚ)
      ([⟨"x", 1⟩, ⟨"y", 0⟩].map Var.symbol) = .ok f ∧ f.vars = [⟨"x", 1⟩, ⟨"y", 0⟩] ∧
      ∀ ρ : String → ℚ, f.call [ρ "x", ρ "y"] = .ok (ρ "x" ^ 2 + ρ "y") :=
  C93_value (.symbols _) (by simp) true _ (by simp [E.syms])

example : ∃ f, construct true
    (.add (.pow (.sym ⟨"x", 0⟩) 2) (.sym ⟨"y", 0⟩) : E String ℝ)
      ([⟨"x", 1⟩, ⟨"y", 0⟩].map Var.symbol) = .ok f ∧ ∀ ρ : String → ℝ, ∃ g,
      f.gradient [ρ "x", ρ "y"] = .ok g ∧
      List.Forall₂ (fun (v : Sym String) d => HasDerivAt (fun t =>
        E.eval (fun s : Sym String => Function.update ρ v.name t s.name)
          (.add (.pow (.sym ⟨"x", 0⟩) 2) (.sym ⟨"y", 0⟩))) d (ρ v.name))
        [⟨"x", 1⟩, ⟨"y", 0⟩] g :=
  C93_gradient_partial (.symbols _) (by simp) (by simp) true _ (by simp [E.syms]) (by simp [E.syms])

/-- `Function("x*y", variables=["x", "y"]).subs([2], ["y"])` -/
example : ∃ f g, construct true (.mul (.sym ⟨"x", 0⟩) (.sym ⟨"y", 0⟩) : E String ℚ)
    (["x", "y"].map Var.text) = .ok f ∧ f.subs [2] (["y"].map Var.text) = .ok g ∧
    g.vars = [⟨"y", 0⟩] ∧ ∀ ρ σ : String → ℚ, [σ "y"] = [2] →
      (∀ x, x ∉ ["y"] → σ x = ρ x) → g.expr.eval (fun s => ρ s.name) = σ "x" * σ "y" ∧
      ((∀ v ∈ [(⟨"x", 0⟩ : Sym String), ⟨"y", 0⟩], v.name ∈ ["y"]) → ∀ ys : List ℚ, ys.length = 1 →
        g.call ys = .ok (σ "x" * σ "y")) :=
  C93_subs_partial (.names _) (by simp) (by simp) true _ (by simp [E.syms]) (by simp [E.syms])
    (.names ["y"]) (by simp) (by simp) [2] rfl

/-- `Function(p*y, variables=[p, y]).subs([3, 2], [p, y])` with positive `p`. -/
example : ∃ f g, construct false (.mul (.sym ⟨"p", 1⟩) (.sym ⟨"y", 0⟩) : E String ℚ)
    ([⟨"p", 1⟩, ⟨"y", 0⟩].map Var.symbol) = .ok f ∧
    f.subs [3, 2] ([⟨"p", 1⟩, ⟨"y", 0⟩].map Var.symbol) = .ok g ∧ g.call [0, 0] = .ok 6 :=
  ⟨_, _, construct_eq (.symbols _) (by simp), subs_eq (.symbols _) (by simp), by decide +kernel⟩

/-- `Function("x", variables=[x]).subs([5], [x])` with positive `x`. -/
example : ∃ f g, construct true (.sym ⟨"x", 0⟩ : E String ℚ) ([⟨"x", 1⟩].map Var.symbol) = .ok f ∧
    f.subs [5] ([⟨"x", 1⟩].map Var.symbol) = .ok g ∧ g.expr = f.expr ∧
    ∀ ρ : String → ℚ, g.expr.eval (fun s => ρ s.name) = ρ "x" :=
  C93_subs_text_violated (by simp) (by simp) _ (by simp [E.syms]) (by simp [E.syms]) (.symbols _)
    (by simp) [5]

/-- `Function(x**2, variables=["x"])` with positive `x`: the gradient at 3 is 0 instead of 6. -/
example : ∃ f, construct false (.pow (.sym ⟨"x", 1⟩) 2 : E String ℚ) (["x"].map Var.text) = .ok f ∧
    f.call [3] = .ok 9 ∧ f.gradient [3] = .ok [0] := by
  obtain ⟨f, hf, h⟩ := C93_gradient_violated (K := ℚ) (.names ["x"]) (by simp)
    (.pow (.sym ⟨"x", 1⟩) 2) (by simp [E.syms]) (by simp [E.syms]) (by simp [E.syms])
  refine ⟨f, hf, ?_⟩
  have := h fun _ => 3
  simp only [List.map_cons, List.map_nil, E.eval] at this
  norm_num at this
  exact this

/-- `Function("x + z", variables=["x"])` -/
example : ∃ f, construct true (.add (.sym ⟨"x", 0⟩) (.sym ⟨"z", 0⟩) : E String ℚ)
    (["x"].map Var.text) = .ok f ∧ f.call [1] = .error .generic ∧ f.call [1, 2] = .error .value := by
  obtain ⟨f, hf, h1, h2⟩ := C93_unknown_name (K := ℚ) (.names ["x"]) (by simp) true
    (.add (.sym ⟨"x", 0⟩) (.sym ⟨"z", 0⟩))
  exact ⟨f, hf, h1 ⟨⟨"z", 0⟩, by simp [E.syms]⟩ [1] rfl, h2 [1, 2] (by simp)⟩

/-- `Function("x + y", variables=[x, "y"])` -/
example : construct true (.add (.sym ⟨"x", 0⟩) (.sym ⟨"y", 0⟩) : E String ℚ)
    [.symbol ⟨"x", 0⟩, .text "y"] = .error .type :=
  C93_mixed_refused _ _ _ ⟨"x", 0⟩ "y" (by simp) (by simp)

/-- `Function(x*y, variables=[x, y]).subs([5], ["x"])` with positive symbols. -/
example : ∃ f g, construct false (.mul (.sym ⟨"x", 1⟩) (.sym ⟨"y", 1⟩) : E String ℚ)
    ([⟨"x", 1⟩, ⟨"y", 1⟩].map Var.symbol) = .ok f ∧ f.subs [5] (["x"].map Var.text) = .ok g ∧
    g.expr = f.expr ∧ f.expr = .mul (.sym ⟨"x", 1⟩) (.sym ⟨"y", 1⟩) :=
  C93_subs_names_violated (by simp) _ (by simp [E.syms]) ["x"] (by simp) [5]

end Verif.Syms.Props
