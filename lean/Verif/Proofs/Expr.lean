import Verif.Model.Expr
import Verif.Proofs.Relation

set_option linter.unusedSectionVars false

namespace Verif.Sym

open Verif.Rel (isWs strip)

/-! ### The grammar the parser is compared with -/

/-- Nonterminals of the grammar. -/
inductive NT
  | sum | term | factor

/-- The usual grammar of arithmetic expressions (Python reference, 6.5-6.7, restricted to the
fragment): sums and products associate to the left, products bind tighter than sums, signs bind
tighter than products, parentheses group. -/
inductive Derives : NT → List Tok → Expr Decimal → Prop
  | word {w e} : wordExpr w = some e → Derives .factor [.word w] e
  | neg {ts e} : Derives .factor ts e → Derives .factor (.minus :: ts) (.neg e)
  | pos {ts e} : Derives .factor ts e → Derives .factor (.plus :: ts) e
  | paren {ts e} : Derives .sum ts e → Derives .factor (.lpar :: ts ++ [.rpar]) e
  | factor {ts e} : Derives .factor ts e → Derives .term ts e
  | mul {ts us e f} : Derives .term ts e → Derives .factor us f →
      Derives .term (ts ++ .times :: us) (.mul e f)
  | div {ts us e f} : Derives .term ts e → Derives .factor us f →
      Derives .term (ts ++ .slash :: us) (.div e f)
  | term {ts e} : Derives .term ts e → Derives .sum ts e
  | add {ts us e f} : Derives .sum ts e → Derives .term us f →
      Derives .sum (ts ++ .plus :: us) (.add e f)
  | sub {ts us e f} : Derives .sum ts e → Derives .term us f →
      Derives .sum (ts ++ .minus :: us) (.sub e f)

/-! ### Parser: fuel, soundness, completeness -/

/-- Recursion depth that always suffices. -/
def cost : Mode → ℕ → ℕ
  | .sum, L => 3 * L + 3
  | .term, L => 3 * L + 2
  | _, L => 3 * L + 1

theorem parse_fuel : ∀ (n : ℕ) (md : Mode) (ts : List Tok) (e : Expr Decimal) (r : List Tok),
    parse n md ts = some (e, r) → r.length ≤ ts.length ∧
      ∀ m, cost md ts.length ≤ m → parse m md ts = some (e, r) := by
  intro n
  induction n with
  | zero => intro md ts e r h; simp [parse] at h
  | succ n ih =>
    have two : ∀ (md1 : Mode) (md2 : Expr Decimal → Mode) (ts : List Tok) (e : Expr Decimal)
        (r : List Tok),
        ((parse n md1 ts).bind fun p => parse n (md2 p.1) p.2) = some (e, r) →
        (∀ x L, cost (md2 x) L = 3 * L + 1) →
        r.length ≤ ts.length ∧ ∀ m, cost md1 ts.length ≤ m → 3 * ts.length + 1 ≤ m →
          ((parse m md1 ts).bind fun p => parse m (md2 p.1) p.2) = some (e, r) := by
      intro md1 md2 ts e r h hc
      rw [Option.bind_eq_some_iff] at h
      obtain ⟨⟨e1, r1⟩, h1, h2⟩ := h
      obtain ⟨l1, f1⟩ := ih _ _ _ _ h1
      obtain ⟨l2, f2⟩ := ih _ _ _ _ h2
      refine ⟨le_trans l2 l1, fun m hm hm' => ?_⟩
      rw [f1 m hm]
      exact f2 m (by rw [hc]; simp only at l2 ⊢; omega)
    intro md ts e r h
    cases md with
    | sum =>
      obtain ⟨hl, hf⟩ := two .term .sumLoop ts e r h (fun _ _ => rfl)
      refine ⟨hl, fun m hm => ?_⟩
      obtain ⟨m, rfl⟩ : ∃ k, m = k + 1 := ⟨m - 1, by simp only [cost] at hm; omega⟩
      exact hf m (by simp only [cost] at hm ⊢; omega) (by simp only [cost] at hm; omega)
    | term =>
      obtain ⟨hl, hf⟩ := two .factor .termLoop ts e r h (fun _ _ => rfl)
      refine ⟨hl, fun m hm => ?_⟩
      obtain ⟨m, rfl⟩ : ∃ k, m = k + 1 := ⟨m - 1, by simp only [cost] at hm; omega⟩
      exact hf m (by simp only [cost] at hm ⊢; omega) (by simp only [cost] at hm; omega)
    | sumLoop acc =>
      rcases ts with _ | ⟨t, ts⟩
      · refine ⟨by simp [parse] at h; simp [← h.2], fun m hm => ?_⟩
        obtain ⟨m, rfl⟩ : ∃ k, m = k + 1 := ⟨m - 1, by simp only [cost] at hm; omega⟩
        exact h
      · cases t with
        | plus =>
          obtain ⟨hl, hf⟩ := two .term (fun x => .sumLoop (.add acc x)) ts e r h (fun _ _ => rfl)
          refine ⟨by simp; omega, fun m hm => ?_⟩
          obtain ⟨m, rfl⟩ : ∃ k, m = k + 1 := ⟨m - 1, by simp only [cost] at hm; omega⟩
          simp only [cost, List.length_cons] at hm
          exact hf m (by simp only [cost]; omega) (by omega)
        | minus =>
          obtain ⟨hl, hf⟩ := two .term (fun x => .sumLoop (.sub acc x)) ts e r h (fun _ _ => rfl)
          refine ⟨by simp; omega, fun m hm => ?_⟩
          obtain ⟨m, rfl⟩ : ∃ k, m = k + 1 := ⟨m - 1, by simp only [cost] at hm; omega⟩
          simp only [cost, List.length_cons] at hm
          exact hf m (by simp only [cost]; omega) (by omega)
        | _ =>
          refine ⟨by simp [parse] at h; simp [← h.2], fun m hm => ?_⟩
          obtain ⟨m, rfl⟩ : ∃ k, m = k + 1 := ⟨m - 1, by simp only [cost] at hm; omega⟩
          simpa [parse] using h
    | termLoop acc =>
      rcases ts with _ | ⟨t, ts⟩
      · refine ⟨by simp [parse] at h; simp [← h.2], fun m hm => ?_⟩
        obtain ⟨m, rfl⟩ : ∃ k, m = k + 1 := ⟨m - 1, by simp only [cost] at hm; omega⟩
        exact h
      · cases t with
        | times =>
          obtain ⟨hl, hf⟩ := two .factor (fun x => .termLoop (.mul acc x)) ts e r h (fun _ _ => rfl)
          refine ⟨by simp; omega, fun m hm => ?_⟩
          obtain ⟨m, rfl⟩ : ∃ k, m = k + 1 := ⟨m - 1, by simp only [cost] at hm; omega⟩
          simp only [cost, List.length_cons] at hm
          exact hf m (by simp only [cost]; omega) (by omega)
        | slash =>
          obtain ⟨hl, hf⟩ := two .factor (fun x => .termLoop (.div acc x)) ts e r h (fun _ _ => rfl)
          refine ⟨by simp; omega, fun m hm => ?_⟩
          obtain ⟨m, rfl⟩ : ∃ k, m = k + 1 := ⟨m - 1, by simp only [cost] at hm; omega⟩
          simp only [cost, List.length_cons] at hm
          exact hf m (by simp only [cost]; omega) (by omega)
        | _ =>
          refine ⟨by simp [parse] at h; simp [← h.2], fun m hm => ?_⟩
          obtain ⟨m, rfl⟩ : ∃ k, m = k + 1 := ⟨m - 1, by simp only [cost] at hm; omega⟩
          simpa [parse] using h
    | factor =>
      rcases ts with _ | ⟨t, ts⟩
      · simp [parse] at h
      · cases t with
        | plus =>
          change parse n .factor ts = some (e, r) at h
          obtain ⟨hl, hf⟩ := ih _ _ _ _ h
          refine ⟨by simp; omega, fun m hm => ?_⟩
          obtain ⟨m, rfl⟩ : ∃ k, m = k + 1 := ⟨m - 1, by simp only [cost] at hm; omega⟩
          simp only [cost, List.length_cons] at hm
          exact hf m (by simp only [cost]; omega)
        | minus =>
          change ((parse n .factor ts).bind fun p => some (Expr.neg p.1, p.2)) = some (e, r) at h
          rw [Option.bind_eq_some_iff] at h
          obtain ⟨⟨e1, r1⟩, h1, h2⟩ := h
          obtain ⟨hl, hf⟩ := ih _ _ _ _ h1
          simp only [Option.some.injEq, Prod.mk.injEq] at h2
          obtain ⟨rfl, rfl⟩ := h2
          refine ⟨by simp; omega, fun m hm => ?_⟩
          obtain ⟨m, rfl⟩ : ∃ k, m = k + 1 := ⟨m - 1, by simp only [cost] at hm; omega⟩
          simp only [cost, List.length_cons] at hm
          have := hf m (by simp only [cost]; omega)
          change ((parse m .factor ts).bind fun p => some (Expr.neg p.1, p.2)) = _
          rw [this]; rfl
        | lpar =>
          change ((parse n .sum ts).bind fun p => match p.2 with
            | .rpar :: r' => some (p.1, r')
            | _ => none) = some (e, r) at h
          rw [Option.bind_eq_some_iff] at h
          obtain ⟨⟨e1, r1⟩, h1, h2⟩ := h
          obtain ⟨hl, hf⟩ := ih _ _ _ _ h1
          refine ⟨?_, fun m hm => ?_⟩
          · simp only at h2
            split at h2
            · simp only [Option.some.injEq, Prod.mk.injEq] at h2
              simp only [List.length_cons] at hl ⊢
              rw [← h2.2]; omega
            · cases h2
          · obtain ⟨m, rfl⟩ : ∃ k, m = k + 1 := ⟨m - 1, by simp only [cost] at hm; omega⟩
            simp only [cost, List.length_cons] at hm
            have := hf m (by simp only [cost]; omega)
            change ((parse m .sum ts).bind fun p => match p.2 with
              | .rpar :: r' => some (p.1, r')
              | _ => none) = _
            rw [this]; exact h2
        | word w =>
          change ((wordExpr w).map fun e => (e, ts)) = some (e, r) at h
          refine ⟨?_, fun m hm => ?_⟩
          · rw [Option.map_eq_some_iff] at h
            obtain ⟨x, -, hx⟩ := h
            simp only [Prod.mk.injEq] at hx
            simp [← hx.2]
          · obtain ⟨m, rfl⟩ : ∃ k, m = k + 1 := ⟨m - 1, by simp only [cost] at hm; omega⟩
            exact h
        | _ => simp [parse] at h

/-- The parser returns `res` for some recursion depth. -/
def Ev (md : Mode) (ts : List Tok) (res : Expr Decimal × List Tok) : Prop :=
  ∃ n, parse n md ts = some res

theorem Ev.at {md : Mode} {ts : List Tok} {res : Expr Decimal × List Tok} (h : Ev md ts res) :
    ∃ c, ∀ m, c ≤ m → parse m md ts = some res := by
  obtain ⟨n, hn⟩ := h
  exact ⟨_, (parse_fuel n md ts res.1 res.2 hn).2⟩

theorem Ev.bind {md1 : Mode} {md2 : Expr Decimal → Mode} {ts r : List Tok} {e : Expr Decimal}
    {res : Expr Decimal × List Tok} (h1 : Ev md1 ts (e, r)) (h2 : Ev (md2 e) r res) :
    ∃ m, ((parse m md1 ts).bind fun p => parse m (md2 p.1) p.2) = some res := by
  obtain ⟨c1, h1⟩ := h1.at
  obtain ⟨c2, h2⟩ := h2.at
  refine ⟨max c1 c2, ?_⟩
  rw [h1 _ (le_max_left _ _)]
  exact h2 _ (le_max_right _ _)

/-- The statement proved for each nonterminal. -/
def Complete : NT → List Tok → Expr Decimal → Prop
  | .factor, ts, e => ∀ rest, Ev .factor (ts ++ rest) (e, rest)
  | .term, ts, e => ∀ rest res, Ev (.termLoop e) rest res → Ev .term (ts ++ rest) res
  | .sum, ts, e => ∀ rest res, (∀ t, rest.head? = some t → t ≠ .times ∧ t ≠ .slash) →
      Ev (.sumLoop e) rest res → Ev .sum (ts ++ rest) res

theorem termLoop_stop {e : Expr Decimal} {rest : List Tok}
    (h : ∀ t, rest.head? = some t → t ≠ .times ∧ t ≠ .slash) :
    Ev (.termLoop e) rest (e, rest) := by
  refine ⟨1, ?_⟩
  rcases rest with _ | ⟨t, ts⟩
  · rfl
  · have := h t rfl
    cases t <;> first | rfl | simp at this

theorem sumLoop_stop {e : Expr Decimal} {rest : List Tok}
    (h : ∀ t, rest.head? = some t → t ≠ .plus ∧ t ≠ .minus) :
    Ev (.sumLoop e) rest (e, rest) := by
  refine ⟨1, ?_⟩
  rcases rest with _ | ⟨t, ts⟩
  · rfl
  · have := h t rfl
    cases t <;> first | rfl | simp at this

theorem Derives.complete {nt : NT} {ts : List Tok} {e : Expr Decimal} (h : Derives nt ts e) :
    Complete nt ts e := by
  induction h with
  | word h => intro rest; exact ⟨1, by simp [parse, h]⟩
  | neg _ ih =>
    intro rest
    obtain ⟨n, hn⟩ := ih rest
    exact ⟨n + 1, by simp [parse, hn]⟩
  | pos _ ih =>
    intro rest
    obtain ⟨n, hn⟩ := ih rest
    exact ⟨n + 1, by simp [parse, hn]⟩
  | @paren ts e _ ih =>
    intro rest
    obtain ⟨n, hn⟩ := ih (.rpar :: rest) (e, .rpar :: rest) (by simp)
      (sumLoop_stop (by simp))
    refine ⟨n + 1, ?_⟩
    have : (Tok.lpar :: ts ++ [Tok.rpar]) ++ rest = .lpar :: (ts ++ .rpar :: rest) := by simp
    rw [this]
    simp [parse, hn]
  | factor _ ih =>
    intro rest res h
    obtain ⟨m, hm⟩ := Ev.bind (md2 := .termLoop) (ih rest) h
    exact ⟨m + 1, hm⟩
  | @mul ts us e f _ _ ih1 ih2 =>
    intro rest res h
    have : (ts ++ Tok.times :: us) ++ rest = ts ++ (.times :: (us ++ rest)) := by simp
    rw [this]
    apply ih1
    obtain ⟨m, hm⟩ := Ev.bind (md2 := fun x => .termLoop (.mul e x)) (ih2 rest) h
    exact ⟨m + 1, hm⟩
  | @div ts us e f _ _ ih1 ih2 =>
    intro rest res h
    have : (ts ++ Tok.slash :: us) ++ rest = ts ++ (.slash :: (us ++ rest)) := by simp
    rw [this]
    apply ih1
    obtain ⟨m, hm⟩ := Ev.bind (md2 := fun x => .termLoop (.div e x)) (ih2 rest) h
    exact ⟨m + 1, hm⟩
  | @term ts e _ ih =>
    intro rest res hh h
    obtain ⟨m, hm⟩ := Ev.bind (md2 := .sumLoop) (ih rest (e, rest) (termLoop_stop hh)) h
    exact ⟨m + 1, hm⟩
  | @add ts us e f _ _ ih1 ih2 =>
    intro rest res hh h
    have : (ts ++ Tok.plus :: us) ++ rest = ts ++ (.plus :: (us ++ rest)) := by simp
    rw [this]
    apply ih1 _ _ (by simp)
    obtain ⟨m, hm⟩ := Ev.bind (md2 := fun x => .sumLoop (.add e x))
      (ih2 rest (f, rest) (termLoop_stop hh)) h
    exact ⟨m + 1, hm⟩
  | @sub ts us e f _ _ ih1 ih2 =>
    intro rest res hh h
    have : (ts ++ Tok.minus :: us) ++ rest = ts ++ (.minus :: (us ++ rest)) := by simp
    rw [this]
    apply ih1 _ _ (by simp)
    obtain ⟨m, hm⟩ := Ev.bind (md2 := fun x => .sumLoop (.sub e x))
      (ih2 rest (f, rest) (termLoop_stop hh)) h
    exact ⟨m + 1, hm⟩

/-- What a successful run of the parser says about the tokens it consumed. -/
def Sound : Mode → List Tok → Expr Decimal → Prop
  | .sum, us, e => Derives .sum us e
  | .sumLoop acc, us, e => ∀ vs, Derives .sum vs acc → Derives .sum (vs ++ us) e
  | .term, us, e => Derives .term us e
  | .termLoop acc, us, e => ∀ vs, Derives .term vs acc → Derives .term (vs ++ us) e
  | .factor, us, e => Derives .factor us e

theorem parse_sound : ∀ (n : ℕ) (md : Mode) (ts : List Tok) (e : Expr Decimal) (r : List Tok),
    parse n md ts = some (e, r) → ∃ us, ts = us ++ r ∧ Sound md us e := by
  intro n
  induction n with
  | zero => intro md ts e r h; simp [parse] at h
  | succ n ih =>
    have two : ∀ (md1 : Mode) (md2 : Expr Decimal → Mode) (ts : List Tok) (e : Expr Decimal)
        (r : List Tok),
        ((parse n md1 ts).bind fun p => parse n (md2 p.1) p.2) = some (e, r) →
        ∃ us vs x, ts = us ++ vs ++ r ∧ Sound md1 us x ∧ Sound (md2 x) vs e := by
      intro md1 md2 ts e r h
      rw [Option.bind_eq_some_iff] at h
      obtain ⟨⟨e1, r1⟩, h1, h2⟩ := h
      obtain ⟨us, rfl, s1⟩ := ih _ _ _ _ h1
      obtain ⟨vs, hv, s2⟩ := ih _ _ _ _ h2
      simp only at hv
      exact ⟨us, vs, e1, by rw [hv]; simp, s1, s2⟩
    intro md ts e r h
    cases md with
    | sum =>
      obtain ⟨us, vs, x, rfl, s1, s2⟩ := two .term .sumLoop ts e r h
      exact ⟨us ++ vs, rfl, s2 us (.term s1)⟩
    | term =>
      obtain ⟨us, vs, x, rfl, s1, s2⟩ := two .factor .termLoop ts e r h
      exact ⟨us ++ vs, rfl, s2 us (.factor s1)⟩
    | sumLoop acc =>
      have stop : some (acc, ts) = some (e, r) →
          ∃ us, ts = us ++ r ∧ Sound (.sumLoop acc) us e := by
        intro h
        simp only [Option.some.injEq, Prod.mk.injEq] at h
        obtain ⟨rfl, rfl⟩ := h
        exact ⟨[], rfl, fun vs hv => by simpa using hv⟩
      rcases ts with _ | ⟨t, ts⟩
      · exact stop h
      · cases t with
        | plus =>
          obtain ⟨us, vs, x, rfl, s1, s2⟩ := two .term (fun x => .sumLoop (.add acc x)) ts e r h
          refine ⟨.plus :: (us ++ vs), rfl, fun ws hw => ?_⟩
          have := s2 _ (.add hw s1)
          simpa using this
        | minus =>
          obtain ⟨us, vs, x, rfl, s1, s2⟩ := two .term (fun x => .sumLoop (.sub acc x)) ts e r h
          refine ⟨.minus :: (us ++ vs), rfl, fun ws hw => ?_⟩
          have := s2 _ (.sub hw s1)
          simpa using this
        | _ => exact stop h
    | termLoop acc =>
      have stop : some (acc, ts) = some (e, r) →
          ∃ us, ts = us ++ r ∧ Sound (.termLoop acc) us e := by
        intro h
        simp only [Option.some.injEq, Prod.mk.injEq] at h
        obtain ⟨rfl, rfl⟩ := h
        exact ⟨[], rfl, fun vs hv => by simpa using hv⟩
      rcases ts with _ | ⟨t, ts⟩
      · exact stop h
      · cases t with
        | times =>
          obtain ⟨us, vs, x, rfl, s1, s2⟩ := two .factor (fun x => .termLoop (.mul acc x)) ts e r h
          refine ⟨.times :: (us ++ vs), rfl, fun ws hw => ?_⟩
          have := s2 _ (.mul hw s1)
          simpa using this
        | slash =>
          obtain ⟨us, vs, x, rfl, s1, s2⟩ := two .factor (fun x => .termLoop (.div acc x)) ts e r h
          refine ⟨.slash :: (us ++ vs), rfl, fun ws hw => ?_⟩
          have := s2 _ (.div hw s1)
          simpa using this
        | _ => exact stop h
    | factor =>
      rcases ts with _ | ⟨t, ts⟩
      · simp [parse] at h
      · cases t with
        | plus =>
          obtain ⟨us, rfl, s⟩ := ih .factor ts e r h
          exact ⟨.plus :: us, rfl, .pos s⟩
        | minus =>
          change ((parse n .factor ts).bind fun p => some (Expr.neg p.1, p.2)) = some (e, r) at h
          rw [Option.bind_eq_some_iff] at h
          obtain ⟨⟨e1, r1⟩, h1, h2⟩ := h
          obtain ⟨us, rfl, s⟩ := ih _ _ _ _ h1
          simp only [Option.some.injEq, Prod.mk.injEq] at h2
          obtain ⟨rfl, rfl⟩ := h2
          exact ⟨.minus :: us, rfl, .neg s⟩
        | lpar =>
          change ((parse n .sum ts).bind fun p => match p.2 with
            | .rpar :: r' => some (p.1, r')
            | _ => none) = some (e, r) at h
          rw [Option.bind_eq_some_iff] at h
          obtain ⟨⟨e1, r1⟩, h1, h2⟩ := h
          obtain ⟨us, rfl, s⟩ := ih _ _ _ _ h1
          simp only at h2
          split at h2
          · simp only [Option.some.injEq, Prod.mk.injEq] at h2
            obtain ⟨rfl, rfl⟩ := h2
            exact ⟨Tok.lpar :: us ++ [Tok.rpar], by simp, Derives.paren s⟩
          · cases h2
        | word w =>
          change ((wordExpr w).map fun e => (e, ts)) = some (e, r) at h
          rw [Option.map_eq_some_iff] at h
          obtain ⟨x, hx, hx'⟩ := h
          simp only [Prod.mk.injEq] at hx'
          obtain ⟨rfl, rfl⟩ := hx'
          exact ⟨[.word w], rfl, .word hx⟩
        | _ => simp [parse] at h

/-- The parser accepts exactly the token lists of the grammar. -/
theorem parse_iff {ts : List Tok} {e : Expr Decimal} :
    parse (3 * ts.length + 3) .sum ts = some (e, []) ↔ Derives .sum ts e := by
  constructor
  · intro h
    obtain ⟨us, hu, s⟩ := parse_sound _ _ _ _ _ h
    rw [List.append_nil] at hu
    subst hu
    exact s
  · intro h
    obtain ⟨n, hn⟩ := h.complete [] (e, []) (by simp) (sumLoop_stop (by simp))
    rw [List.append_nil] at hn
    exact (parse_fuel _ _ _ _ _ hn).2 _ (le_refl _)

theorem parseExpr_iff {s : List Char} {e : Expr Decimal} :
    parseExpr s = some e ↔ ∃ ts, lex s = some ts ∧ Derives .sum ts e := by
  unfold parseExpr
  cases hl : lex s with
  | none => simp
  | some ts =>
    simp only [Option.bind_eq_bind, Option.bind_some, Option.some.injEq, exists_eq_left']
    rw [← parse_iff]
    rcases parse (3 * ts.length + 3) .sum ts with _ | ⟨e', _ | ⟨t, r⟩⟩ <;> simp

/-! ### Tokenizer -/

theorem flush_append (cur : List Char) (a b : List Tok) : flush cur (a ++ b) = flush cur a ++ b := by
  unfold flush; split <;> simp

theorem lexAux_append {c : Char} (hc : isWordChar c = false) :
    ∀ (a b cur : List Char) (ta tb : List Tok), lexAux a cur = some ta → lexAux (c :: b) [] = some tb →
      lexAux (a ++ c :: b) cur = some (ta ++ tb) := by
  intro a
  induction a with
  | nil =>
    intro b cur ta tb ha hb
    simp only [lexAux, Option.some.injEq] at ha
    subst ha
    simp only [List.nil_append]
    simp only [lexAux, hc, Bool.false_eq_true, if_false] at hb ⊢
    split
    · rename_i hw
      rw [if_pos hw, Option.map_eq_some_iff] at hb
      obtain ⟨x, hx, rfl⟩ := hb
      rw [hx, ← flush_append]; simp [flush]
    · rename_i hw
      rw [if_neg hw] at hb
      cases ho : opTok c with
      | none => rw [ho] at hb; cases hb
      | some t =>
        rw [ho] at hb
        simp only [Option.map_eq_some_iff] at hb
        obtain ⟨x, hx, rfl⟩ := hb
        simp only [hx, Option.map_some, ← flush_append]; simp [flush]
  | cons x xs ih =>
    intro b cur ta tb ha hb
    simp only [List.cons_append, lexAux] at ha ⊢
    split
    · rename_i hw
      rw [if_pos hw] at ha
      exact ih _ _ _ _ ha hb
    · rename_i hw
      rw [if_neg hw] at ha
      split
      · rename_i hs
        rw [if_pos hs, Option.map_eq_some_iff] at ha
        obtain ⟨y, hy, rfl⟩ := ha
        rw [ih _ _ _ _ hy hb, Option.map_some, flush_append]
      · rename_i hs
        rw [if_neg hs] at ha
        cases ho : opTok x with
        | none => rw [ho] at ha; cases ha
        | some t =>
          rw [ho] at ha
          simp only [Option.map_eq_some_iff] at ha
          obtain ⟨y, hy, rfl⟩ := ha
          simp only [ih _ _ _ _ hy hb, Option.map_some, ← flush_append, List.cons_append]

/-- The text built by `Relation.__init__` consists of the tokens of the two sides. -/
theorem lex_glue {l r : List Char} {tl tr : List Tok} (hl : lex l = some tl) (hr : lex r = some tr) :
    lex (l ++ [' ', '-', ' '] ++ (['('] ++ r ++ [')'])) =
      some (tl ++ .minus :: (.lpar :: tr ++ [.rpar])) := by
  have h1 : lexAux (r ++ ')' :: []) [] = some (tr ++ [.rpar]) :=
    lexAux_append (by decide) r [] [] tr [.rpar] hr (by decide)
  have h2 : lexAux (' ' :: '-' :: ' ' :: '(' :: (r ++ [')'])) [] =
      some (.minus :: .lpar :: (tr ++ [.rpar])) := by
    have e1 : isWordChar ' ' = false := by decide
    have e2 : isWordChar '-' = false := by decide
    have e3 : isWordChar '(' = false := by decide
    have w1 : isWs ' ' = true := by decide
    have w2 : isWs '-' = false := by decide
    have w3 : isWs '(' = false := by decide
    simp only [lexAux, e1, e2, e3, w1, w2, w3, h1, opTok, flush, Bool.false_eq_true, if_true,
      if_false, Option.map_some]
  have := lexAux_append (c := ' ') (by decide) l ('-' :: ' ' :: '(' :: (r ++ [')'])) [] _ _ hl h2
  simpa [lex] using this

/-- The glued text denotes the difference of the two sides. -/
theorem parseExpr_glue {l r : List Char} {a b : Expr Decimal} (hl : parseExpr l = some a)
    (hr : parseExpr r = some b) :
    parseExpr (l ++ [' ', '-', ' '] ++ (['('] ++ r ++ [')'])) = some (.sub a b) := by
  rw [parseExpr_iff] at hl hr ⊢
  obtain ⟨tl, hl, dl⟩ := hl
  obtain ⟨tr, hr, dr⟩ := hr
  exact ⟨_, lex_glue hl hr, .sub dl (.factor (.paren dr))⟩

/-! ### Substitution -/

section
variable {K L : Type} [Field K] [DecidableEq K]

theorem eval_congr (lit : L → K) {ρ σ : List Char → K} (e : Expr L)
    (h : ∀ x ∈ freeSymbols e, ρ x = σ x) : eval lit ρ e = eval lit σ e := by
  induction e with
  | num c => rfl
  | var x => simp [eval, h x (by simp [freeSymbols])]
  | neg a ih => simp only [eval]; rw [ih h]
  | add a b iha ihb | sub a b iha ihb | mul a b iha ihb | div a b iha ihb =>
    simp only [freeSymbols, List.mem_append] at h
    simp only [eval]
    rw [iha (fun x hx => h x (.inl hx)), ihb (fun x hx => h x (.inr hx))]

theorem eval_subst1 (lit : L → K) (ρ : List Char → K) (x : List Char) (t : Expr L) (v : K)
    (ht : eval lit ρ t = some v) (e : Expr L) :
    eval lit ρ (subst1 x t e) = eval lit (Function.update ρ x v) e := by
  induction e with
  | num c => rfl
  | var y =>
    simp only [subst1, eval]
    by_cases h : y = x
    · subst h; simp [ht]
    · simp [h, eval]
  | neg a ih => simp only [subst1, eval]; rw [ih]
  | add a b iha ihb | sub a b iha ihb | mul a b iha ihb | div a b iha ihb =>
    simp only [subst1, eval]
    rw [iha, ihb]

theorem freeSymbols_subst1_num (x : List Char) (c : L) (e : Expr L) (y : List Char) :
    y ∈ freeSymbols (subst1 x (.num c) e) ↔ y ∈ freeSymbols e ∧ y ≠ x := by
  induction e with
  | num c => simp [subst1, freeSymbols]
  | var z =>
    simp only [subst1]
    by_cases h : z = x
    · subst h; simp [freeSymbols]
    · simp only [if_neg h, freeSymbols, List.mem_singleton]
      constructor
      · rintro rfl; exact ⟨rfl, h⟩
      · exact fun h => h.1
  | neg a ih => simpa [subst1, freeSymbols] using ih
  | add a b iha ihb | sub a b iha ihb | mul a b iha ihb | div a b iha ihb =>
    simp only [subst1, freeSymbols, List.mem_append, iha, ihb]
    tauto

end

end Verif.Sym
