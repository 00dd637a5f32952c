import Verif.Props.Relation
import Mathlib.Data.Nat.Digits.Defs
import Mathlib.Algebra.BigOperators.Fin
import Mathlib.Tactic.FieldSimp
import Mathlib.Tactic.Ring
import Mathlib.Tactic.NormNum
import Mathlib.Algebra.BigOperators.Field

/-!
# C21: what the text of an expression means

`Denotes` gives a text its value directly, without tokens and trees: names, integers and decimal
fractions, blanks, signs, parentheses and the four operations with the usual precedence.
-/

set_option linter.unusedSectionVars false

namespace Verif.Rel.Props
open Verif Verif.Sym Verif.Rel

variable {K : Type} [Field K] [DecidableEq K]

/-- The character of a digit. -/
def digitChar (d : Fin 10) : Char := Char.ofNat (48 + d)

/-- A name: a letter or `_`, then letters, digits and `_`. -/
def IsName (w : List Char) : Prop :=
  ∃ c cs, w = c :: cs ∧ (c.isAlpha ∨ c = '_') ∧ ∀ d ∈ cs, d.isAlpha ∨ d.isDigit ∨ d = '_'

/-- Value of a string of digits in front of the decimal point: the last one counts once, the one before
ten times, and so on. -/
def intVal : List (Fin 10) → ℕ
  | [] => 0
  | d :: ds => (d : ℕ) * 10 ^ ds.length + intVal ds

/-- Value of a string of digits behind the decimal point: the `i`-th one counts `10^-(i+1)`. -/
def fracVal (ds : List (Fin 10)) : K := ∑ i : Fin ds.length, ((ds.get i : ℕ) : K) / 10 ^ ((i : ℕ) + 1)

/-- Both values if there are two. -/
def lift2 (f : K → K → K) (u v : (List Char → K) → Option K) (ρ : List Char → K) : Option K :=
  match u ρ, v ρ with
  | some x, some y => some (f x y)
  | _, _ => none

/-- The text denotes the function of the values of the variables, `none` standing for a division by
zero. -/
inductive Denotes : NT → List Char → ((List Char → K) → Option K) → Prop
  | name {w} : IsName w → Denotes .factor w fun ρ => some (ρ w)
  | int {d ds} : (d = 0 → ds = []) → Denotes .factor ((d :: ds).map digitChar) fun _ => some (intVal (d :: ds) : K)
  | dec {ip fp} : ip ≠ [] ∨ fp ≠ [] →
      Denotes .factor (ip.map digitChar ++ '.' :: fp.map digitChar) fun _ => some ((intVal ip : K) + fracVal fp)
  | blank {nt s v b b'} : (∀ c ∈ b, c = ' ') → (∀ c ∈ b', c = ' ') → Denotes nt s v →
      Denotes nt (b ++ s ++ b') v
  | neg {s v} : Denotes .factor s v → Denotes .factor ('-' :: s) fun ρ => (v ρ).map Neg.neg
  | pos {s v} : Denotes .factor s v → Denotes .factor ('+' :: s) v
  | paren {s v} : Denotes .sum s v → Denotes .factor ('(' :: s ++ [')']) v
  | factor {s v} : Denotes .factor s v → Denotes .term s v
  | mul {s t u v} : Denotes .term s u → Denotes .factor t v →
      Denotes .term (s ++ '*' :: t) (lift2 (· * ·) u v)
  | div {s t u v} : Denotes .term s u → Denotes .factor t v →
      Denotes .term (s ++ '/' :: t) fun ρ => if v ρ = some 0 then none else lift2 (· / ·) u v ρ
  | term {s v} : Denotes .term s v → Denotes .sum s v
  | add {s t u v} : Denotes .sum s u → Denotes .term t v →
      Denotes .sum (s ++ '+' :: t) (lift2 (· + ·) u v)
  | sub {s t u v} : Denotes .sum s u → Denotes .term t v →
      Denotes .sum (s ++ '-' :: t) (lift2 (· - ·) u v)

theorem lexAux_word (w s cur : List Char) (h : ∀ c ∈ w, isWordChar c = true) :
    lexAux (w ++ s) cur = lexAux s (cur ++ w) := by
  induction w generalizing cur with
  | nil => simp
  | cons c w ih =>
    rw [List.cons_append, lexAux, if_pos (h c (by simp)), ih _ fun d hd => h d (by simp [hd])]
    simp

theorem lex_word (w : List Char) (h : ∀ c ∈ w, isWordChar c = true) (hw : w ≠ []) :
    lex w = some [.word w] := by
  have := lexAux_word w [] [] h
  simp only [List.append_nil, List.nil_append] at this
  unfold lex
  rw [this, lexAux]
  simp [flush, hw]

theorem lex_blank_front (b s : List Char) (hb : ∀ c ∈ b, c = ' ') : lex (b ++ s) = lex s := by
  induction b with
  | nil => rfl
  | cons c b ih =>
    have hc := hb c (by simp)
    subst hc
    have h := ih fun d hd => hb d (by simp [hd])
    unfold lex at h ⊢
    rw [List.cons_append, lexAux, if_neg (by decide), if_pos (by decide), h]
    cases lexAux s [] <;> simp [flush]

theorem lex_op (c : Char) (t : Tok) (s : List Char) (hc : isWordChar c = false) (hw : isWs c = false)
    (ht : opTok c = some t) : lex (c :: s) = (lex s).map (t :: ·) := by
  unfold lex
  rw [lexAux, if_neg (by simp [hc]), if_neg (by simp [hw]), ht]
  rfl

theorem lex_blank_back (b s : List Char) (hb : ∀ c ∈ b, c = ' ') {ts : List Tok} (h : lex s = some ts) :
    lex (s ++ b) = some ts := by
  cases b with
  | nil => simpa using h
  | cons c b =>
    have hc := hb c (by simp)
    subst hc
    have e : lexAux (' ' :: b) [] = some [] := by
      have := lex_blank_front (' ' :: b) [] hb
      simpa [lex, lexAux, flush] using this
    have := lexAux_append (c := ' ') (by decide) s b [] ts [] h e
    simpa [lex] using this

theorem lex_mid (c : Char) (t : Tok) (s r : List Char) (hc : isWordChar c = false)
    (hw : isWs c = false) (ht : opTok c = some t) {ts us : List Tok} (hs : lex s = some ts)
    (hr : lex r = some us) : lex (s ++ c :: r) = some (ts ++ t :: us) := by
  have h : lexAux (c :: r) [] = some (t :: us) := by
    have := lex_op c t r hc hw ht
    rw [hr] at this
    exact this
  exact lexAux_append hc s r [] ts _ hs h

theorem digit_facts (d : Fin 10) : (digitChar d).isDigit = true ∧ (digitChar d).isAlpha = false ∧
    digitChar d ≠ '_' ∧ digitChar d ≠ '.' ∧ (digitChar d).toNat - '0'.toNat = d ∧
    isWordChar (digitChar d) = true := by
  revert d; decide

theorem digitsVal_aux (ds : List (Fin 10)) (a : ℕ) :
    (ds.map digitChar).foldl (fun a c => 10 * a + (c.toNat - '0'.toNat)) a =
      a * 10 ^ ds.length + intVal ds := by
  induction ds generalizing a with
  | nil => simp [intVal]
  | cons d ds ih =>
    rw [List.map_cons, List.foldl_cons, ih, (digit_facts d).2.2.2.2.1, intVal, List.length_cons, pow_succ]
    ring

theorem digitsVal_eq (ds : List (Fin 10)) : digitsVal (ds.map digitChar) = intVal ds := by
  unfold digitsVal
  rw [digitsVal_aux]
  simp

theorem intVal_append (a b : List (Fin 10)) : intVal (a ++ b) = intVal a * 10 ^ b.length + intVal b := by
  induction a with
  | nil => simp [intVal]
  | cons d a ih => rw [List.cons_append, intVal, ih, intVal, List.length_append, pow_add]; ring

theorem fracVal_eq [CharZero K] (ds : List (Fin 10)) :
    (fracVal ds : K) = (intVal ds : K) / 10 ^ ds.length := by
  induction ds with
  | nil => simp [fracVal, intVal]
  | cons d ds ih =>
    have h10 : (10 : K) ≠ 0 := by norm_num
    unfold fracVal at ih ⊢
    simp only [List.length_cons]
    rw [Fin.sum_univ_succ]
    have : ∀ i : Fin ds.length, (((d :: ds).get i.succ : ℕ) : K) / 10 ^ ((i.succ : ℕ) + 1) =
        (((ds.get i : ℕ) : K) / 10 ^ ((i : ℕ) + 1)) / 10 := by
      intro i
      simp only [List.get_eq_getElem, Fin.val_succ, List.getElem_cons_succ]
      rw [pow_succ (10 : K) ((i : ℕ) + 1), div_div]
    simp only [this]
    rw [← Finset.sum_div, ih]
    simp only [List.get_eq_getElem, Fin.val_zero, List.getElem_cons_zero, intVal]
    push_cast
    field_simp
    ring

theorem takeWhile_digits (ds : List (Fin 10)) (rest : List Char)
    (h : ∀ c ∈ rest.head?, c.isDigit = false) :
    (ds.map digitChar ++ rest).takeWhile Char.isDigit = ds.map digitChar ∧
      (ds.map digitChar ++ rest).dropWhile Char.isDigit = rest := by
  induction ds with
  | nil =>
    cases rest with
    | nil => simp
    | cons c rest =>
      have := h c (by simp)
      simp [this]
  | cons d ds ih => simp [(digit_facts d).1, ih]

theorem wordExpr_name (w : List Char) (h : IsName w) : wordExpr w = some (.var w) := by
  obtain ⟨c, cs, rfl, hc, hcs⟩ := h
  unfold wordExpr
  simp only
  rw [if_pos (by rcases hc with h | h <;> simp [h]), if_pos]
  rw [List.all_eq_true]
  intro d hd
  rcases hcs d hd with h | h | h <;> simp [Char.isAlphanum, h]

theorem word_name (w : List Char) (h : IsName w) : (∀ c ∈ w, isWordChar c = true) ∧ w ≠ [] := by
  obtain ⟨c, cs, rfl, hc, hcs⟩ := h
  refine ⟨?_, by simp⟩
  intro d hd
  rcases List.mem_cons.1 hd with rfl | hd
  · rcases hc with h | h <;> simp [isWordChar, Char.isAlphanum, h]
  · rcases hcs d hd with h | h | h <;> simp [isWordChar, Char.isAlphanum, h]

theorem wordExpr_int (d : Fin 10) (ds : List (Fin 10)) :
    wordExpr ((d :: ds).map digitChar) = some (.num (intVal (d :: ds), 0)) := by
  have h := takeWhile_digits (d :: ds) [] (by simp)
  rw [List.append_nil] at h
  have e := digitsVal_eq (d :: ds)
  unfold wordExpr
  rw [List.map_cons] at h e ⊢
  simp only
  rw [if_neg (by simp [(digit_facts d).2.1, (digit_facts d).2.2.1])]
  rw [h.1, h.2]
  simp only [e]

theorem wordExpr_dec (ip fp : List (Fin 10)) (hne : ip ≠ [] ∨ fp ≠ []) :
    wordExpr (ip.map digitChar ++ '.' :: fp.map digitChar) =
      some (.num (intVal (ip ++ fp), fp.length)) := by
  have h := takeWhile_digits ip ('.' :: fp.map digitChar) (by simp)
  have e := digitsVal_eq (ip ++ fp)
  rw [List.map_append] at e
  have first : ∃ c cs, ip.map digitChar ++ '.' :: fp.map digitChar = c :: cs ∧
      (c.isAlpha || c == '_') = false := by
    cases ip with
    | nil => exact ⟨'.', _, rfl, by decide⟩
    | cons d ip => exact ⟨digitChar d, _, rfl, by simp [(digit_facts d).2.1, (digit_facts d).2.2.1]⟩
  obtain ⟨c, cs, hcs, hc⟩ := first
  unfold wordExpr
  rw [hcs] at h ⊢
  simp only
  rw [if_neg (by simp [hc]), h.1, h.2]
  simp only
  rw [if_pos, e]
  · simp
  · have hd : (fp.map digitChar).all Char.isDigit = true := by
      rw [List.all_eq_true]
      intro c hc
      obtain ⟨d, -, rfl⟩ := List.mem_map.1 hc
      exact (digit_facts d).1
    rw [hd]
    rcases hne with h | h <;> simp [h]

/-- What is proved of every text that denotes something. -/
theorem denotes_parses [CharZero K] {nt : NT} {s : List Char} {v : (List Char → K) → Option K}
    (h : Denotes nt s v) :
    ∃ ts e, lex s = some ts ∧ Derives nt ts e ∧ ∀ ρ, eval Decimal.val ρ e = v ρ := by
  have h10 : (10 : K) ≠ 0 := by norm_num
  induction h with
  | @name w hw =>
    exact ⟨_, _, lex_word w (word_name w hw).1 (word_name w hw).2, .word (wordExpr_name w hw), fun ρ => rfl⟩
  | @int d ds hd =>
    refine ⟨_, _, lex_word _ ?_ (by simp), .word (wordExpr_int d ds), fun ρ => ?_⟩
    · intro c hc
      obtain ⟨d, -, rfl⟩ := List.mem_map.1 hc
      exact (digit_facts d).2.2.2.2.2
    · simp [eval, Decimal.val]
  | @dec ip fp hne =>
    refine ⟨_, _, lex_word _ ?_ (by simp), .word (wordExpr_dec ip fp hne), fun ρ => ?_⟩
    · intro c hc
      rcases List.mem_append.1 hc with hc | hc
      · obtain ⟨d, -, rfl⟩ := List.mem_map.1 hc
        exact (digit_facts d).2.2.2.2.2
      · rcases List.mem_cons.1 hc with rfl | hc
        · decide
        · obtain ⟨d, -, rfl⟩ := List.mem_map.1 hc
          exact (digit_facts d).2.2.2.2.2
    · simp only [eval, Decimal.val]
      rw [fracVal_eq, intVal_append]
      push_cast
      congr 1
      field_simp
  | @blank nt s v b b' hb hb' _ ih =>
    obtain ⟨ts, e, h1, h2, h3⟩ := ih
    refine ⟨ts, e, ?_, h2, h3⟩
    rw [List.append_assoc, lex_blank_front _ _ hb]
    exact lex_blank_back _ _ hb' h1
  | neg _ ih =>
    obtain ⟨ts, e, h1, h2, h3⟩ := ih
    refine ⟨_, _, ?_, .neg h2, fun ρ => ?_⟩
    · rw [lex_op '-' .minus _ (by decide) (by decide) rfl, h1]; rfl
    · simp only [eval, h3]; rename_i v _; cases v ρ <;> rfl
  | pos _ ih =>
    obtain ⟨ts, e, h1, h2, h3⟩ := ih
    refine ⟨_, _, ?_, .pos h2, h3⟩
    rw [lex_op '+' .plus _ (by decide) (by decide) rfl, h1]; rfl
  | paren _ ih =>
    obtain ⟨ts, e, h1, h2, h3⟩ := ih
    refine ⟨_, _, ?_, .paren h2, h3⟩
    rw [List.cons_append, lex_op '(' .lpar _ (by decide) (by decide) rfl,
      lex_mid ')' .rpar _ [] (by decide) (by decide) rfl h1 (us := []) rfl]
    rfl
  | factor _ ih =>
    obtain ⟨ts, e, h1, h2, h3⟩ := ih
    exact ⟨ts, e, h1, .factor h2, h3⟩
  | term _ ih =>
    obtain ⟨ts, e, h1, h2, h3⟩ := ih
    exact ⟨ts, e, h1, .term h2, h3⟩
  | @mul s t u v _ _ ih ih' =>
    obtain ⟨ts, e, h1, h2, h3⟩ := ih
    obtain ⟨ts', e', h1', h2', h3'⟩ := ih'
    refine ⟨_, _, lex_mid '*' .times _ _ (by decide) (by decide) rfl h1 h1', .mul h2 h2', fun ρ => ?_⟩
    simp only [eval, h3, h3', lift2]
    cases u ρ <;> cases v ρ <;> rfl
  | @div s t u v _ _ ih ih' =>
    obtain ⟨ts, e, h1, h2, h3⟩ := ih
    obtain ⟨ts', e', h1', h2', h3'⟩ := ih'
    refine ⟨_, _, lex_mid '/' .slash _ _ (by decide) (by decide) rfl h1 h1', .div h2 h2', fun ρ => ?_⟩
    simp only [eval, h3, h3', lift2]
    cases u ρ with
    | none => cases v ρ <;> simp
    | some x =>
      cases v ρ with
      | none => simp
      | some y => by_cases hy : y = 0 <;> simp [hy]
  | @add s t u v _ _ ih ih' =>
    obtain ⟨ts, e, h1, h2, h3⟩ := ih
    obtain ⟨ts', e', h1', h2', h3'⟩ := ih'
    refine ⟨_, _, lex_mid '+' .plus _ _ (by decide) (by decide) rfl h1 h1', .add h2 h2', fun ρ => ?_⟩
    simp only [eval, h3, h3', lift2]
    cases u ρ <;> cases v ρ <;> rfl
  | @sub s t u v _ _ ih ih' =>
    obtain ⟨ts, e, h1, h2, h3⟩ := ih
    obtain ⟨ts', e', h1', h2', h3'⟩ := ih'
    refine ⟨_, _, lex_mid '-' .minus _ _ (by decide) (by decide) rfl h1 h1', .sub h2 h2', fun ρ => ?_⟩
    simp only [eval, h3, h3', lift2]
    cases u ρ <;> cases v ρ <;> rfl

/-- **C21.** The text of an expression is read as the expression it denotes. -/
theorem C21_text [CharZero K] (s : List Char) (v : (List Char → K) → Option K)
    (h : Denotes .sum s v) :
    ∃ e, parseExpr s = some e ∧ ∀ ρ, eval Decimal.val ρ e = v ρ := by
  obtain ⟨ts, e, h1, h2, h3⟩ := denotes_parses h
  exact ⟨e, parseExpr_iff.2 ⟨ts, h1, h2⟩, h3⟩

theorem denotes_ws (c : Char) (hc : isWordChar c = true) : isWs c = false := by
  by_contra hw
  have hw : isWs c = true := by simpa using hw
  have h1 : c.toNat < 48 ∨ 122 < c.toNat := by
    simp only [isWs, Bool.or_eq_true, Bool.and_eq_true, decide_eq_true_eq, beq_iff_eq] at hw
    omega
  have h2 : c.toNat ≤ 32 ∨ 122 < c.toNat := by
    simp only [isWs, Bool.or_eq_true, Bool.and_eq_true, decide_eq_true_eq, beq_iff_eq] at hw
    omega
  simp only [isWordChar, Bool.or_eq_true, beq_iff_eq, Char.isAlphanum, Char.isAlpha, Char.isUpper,
    Char.isLower, Char.isDigit, Bool.and_eq_true, decide_eq_true_eq] at hc
  rcases hc with (((h | h) | h) | rfl) | rfl
  · have a := UInt32.le_iff_toNat_le.1 h.1
    have b := UInt32.le_iff_toNat_le.1 h.2
    simp at a b
    omega
  · have a := UInt32.le_iff_toNat_le.1 h.1
    have b := UInt32.le_iff_toNat_le.1 h.2
    simp at a b
    omega
  · have a := UInt32.le_iff_toNat_le.1 h.1
    have b := UInt32.le_iff_toNat_le.1 h.2
    simp at a b
    omega
  · revert hw; decide
  · revert hw; decide

theorem denotes_chars {nt : NT} {s : List Char} {v : (List Char → K) → Option K}
    (h : Denotes nt s v) : (∀ c ∈ s, isWordChar c = true ∨ c = ' ' ∨ (opTok c).isSome) ∧
      ∃ c ∈ s, isWs c = false := by
  have ws := denotes_ws
  induction h with
  | @name w hw =>
    have := word_name w hw
    obtain ⟨c, hc⟩ := List.exists_mem_of_ne_nil _ this.2
    exact ⟨fun c hc => .inl (this.1 c hc), c, hc, ws c (this.1 c hc)⟩
  | @int d ds hd =>
    refine ⟨fun c hc => ?_, digitChar d, by simp, ws _ (digit_facts d).2.2.2.2.2⟩
    obtain ⟨d, -, rfl⟩ := List.mem_map.1 hc
    exact .inl (digit_facts d).2.2.2.2.2
  | @dec ip fp hne =>
    refine ⟨fun c hc => ?_, '.', by simp, by decide⟩
    rcases List.mem_append.1 hc with hc | hc
    · obtain ⟨d, -, rfl⟩ := List.mem_map.1 hc
      exact .inl (digit_facts d).2.2.2.2.2
    · rcases List.mem_cons.1 hc with rfl | hc
      · exact .inl (by decide)
      · obtain ⟨d, -, rfl⟩ := List.mem_map.1 hc
        exact .inl (digit_facts d).2.2.2.2.2
  | @blank nt s v b b' hb hb' _ ih =>
    refine ⟨fun c hc => ?_, ?_⟩
    · rcases List.mem_append.1 hc with hc | hc
      · rcases List.mem_append.1 hc with hc | hc
        · exact .inr (.inl (hb c hc))
        · exact ih.1 c hc
      · exact .inr (.inl (hb' c hc))
    · obtain ⟨c, hc, h⟩ := ih.2
      exact ⟨c, by simp [hc], h⟩
  | neg _ ih =>
    refine ⟨fun c hc => ?_, '-', by simp, by decide⟩
    rcases List.mem_cons.1 hc with rfl | hc
    · exact .inr (.inr rfl)
    · exact ih.1 c hc
  | pos _ ih =>
    refine ⟨fun c hc => ?_, '+', by simp, by decide⟩
    rcases List.mem_cons.1 hc with rfl | hc
    · exact .inr (.inr rfl)
    · exact ih.1 c hc
  | paren _ ih =>
    refine ⟨fun c hc => ?_, '(', by simp, by decide⟩
    rcases List.mem_append.1 hc with hc | hc
    · rcases List.mem_cons.1 hc with rfl | hc
      · exact .inr (.inr rfl)
      · exact ih.1 c hc
    · rw [List.mem_singleton.1 hc]
      exact .inr (.inr rfl)
  | factor _ ih => exact ih
  | term _ ih => exact ih
  | mul _ _ ih ih' | div _ _ ih ih' | add _ _ ih ih' | sub _ _ ih ih' =>
    obtain ⟨c, hc, h⟩ := ih.2
    refine ⟨fun c hc => ?_, c, by simp [hc], h⟩
    rcases List.mem_append.1 hc with hc | hc
    · exact ih.1 c hc
    · rcases List.mem_cons.1 hc with rfl | hc
      · exact .inr (.inr rfl)
      · exact ih'.1 c hc

theorem denotes_plain {nt : NT} {s : List Char} {v : (List Char → K) → Option K}
    (h : Denotes nt s v) : Plain s ∧ ¬ Blank s := by
  obtain ⟨h1, c, hc, hw⟩ := denotes_chars h
  refine ⟨fun c hc => ?_, fun hb => by simp [hb c hc] at hw⟩
  have := h1 c hc
  refine ⟨?_, ?_, ?_, ?_⟩ <;> rintro rfl <;> revert this <;> decide

theorem lexAux_blank (b : List Char) (hb : ∀ c ∈ b, isWs c = true) (hb' : ∀ c ∈ b, isWordChar c = false)
    (cur : List Char) : lexAux b cur = some (flush cur []) := by
  induction b generalizing cur with
  | nil => rfl
  | cons c b ih =>
    rw [lexAux, if_neg (by simp [hb' c (by simp)]), if_pos (hb c (by simp)),
      ih (fun d hd => hb d (by simp [hd])) (fun d hd => hb' d (by simp [hd]))]
    simp [flush]

theorem lexAux_blank_back (b s : List Char) (hb : ∀ c ∈ b, isWs c = true)
    (hb' : ∀ c ∈ b, isWordChar c = false) (cur : List Char) : lexAux (s ++ b) cur = lexAux s cur := by
  induction s generalizing cur with
  | nil => rw [List.nil_append, lexAux_blank b hb hb']; rfl
  | cons c s ih =>
    rw [List.cons_append, lexAux, lexAux]
    simp only [ih]

theorem parseExpr_strip {s : List Char} {e : Expr Decimal} {nt : NT} {v : (List Char → K) → Option K}
    (h : Denotes nt s v) (he : parseExpr s = some e) : parseExpr (strip s) = some e := by
  obtain ⟨a, b, hs, ha, hb⟩ := strip_decomp s
  have hc := (denotes_chars h).1
  have sp : ∀ c ∈ s, isWs c = true → c = ' ' := by
    intro c hc' hw
    rcases hc c hc' with h | h | h
    · exfalso
      have := (denotes_ws c h)
      simp [this] at hw
    · exact h
    · exfalso
      unfold opTok at h
      split at h <;> first | (revert hw; decide) | simp at h
  obtain ⟨ts, h1, h2⟩ := parseExpr_iff.1 he
  refine parseExpr_iff.2 ⟨ts, ?_, h2⟩
  have ha' : ∀ c ∈ a, c = ' ' := fun c hc => sp c (by rw [hs]; simp [hc]) (ha c hc)
  have hb' : ∀ c ∈ b, c = ' ' := fun c hc => sp c (by rw [hs]; simp [hc]) (hb c hc)
  rw [hs, List.append_assoc, lex_blank_front _ _ ha'] at h1
  unfold lex at h1 ⊢
  rwa [lexAux_blank_back b _ hb (fun c hc => by rw [hb' c hc]; decide)] at h1

/-- **C21.** A relation made of two texts that denote something and an operator between them decides the
relation between what they denote. -/
theorem C21_text_relation {K : Type} [Field K] [LinearOrder K] [IsStrictOrderedRing K]
    (l r : List Char) (o : Relations) (u v : (List Char → K) → Option K)
    (hl : Denotes .sum l u) (hr : Denotes .sum r v) :
    ∃ R : TextRelation K, relationOfText .relation (l ++ o.value ++ r) = .ok R ∧
      R.attrs.cls = (if o = .eq then .equality else .inequality) ∧
      R.attrs.op = some o ∧
      (∀ (ρ : List Char → K) (x y : K), u ρ = some x → v ρ = some y →
        ∃ t, R.relate ρ = some t ∧ (t = true ↔ Holds o x y)) ∧
      (∀ ρ : List Char → K, (u ρ = none ∨ v ρ = none) → R.relate ρ = none) := by
  obtain ⟨a, ha, hu⟩ := C21_text l u hl
  obtain ⟨b, hb, hv⟩ := C21_text r v hr
  obtain ⟨R, h1, h2, h3, h4, h5⟩ := C21_relate (K := K) l r o (denotes_plain hl).1 (denotes_plain hr).1
    (denotes_plain hl).2 (denotes_plain hr).2 a b (parseExpr_strip hl ha) (parseExpr_strip hr hb)
  refine ⟨R, h1, h2, h3, fun ρ x y hx hy => h4 ρ x y ((hu ρ).trans hx) ((hv ρ).trans hy), ?_⟩
  intro ρ h
  refine h5 ρ ?_
  rw [hu, hv]
  exact h

/-- **C21.** A text without an operator is the equation of its value with zero; it is no inequality. -/
theorem C21_text_alone {K : Type} [Field K] [LinearOrder K] [IsStrictOrderedRing K]
    (s : List Char) (u : (List Char → K) → Option K) (hs : Denotes .sum s u) :
    (∀ c : Cls, c ≠ .inequality → ∃ R : TextRelation K, relationOfText c s = .ok R ∧
      R.attrs.cls = .equality ∧ R.attrs.op = some .eq ∧
      (∀ (ρ : List Char → K) (x : K), u ρ = some x → ∃ t, R.relate ρ = some t ∧ (t = true ↔ x = 0)) ∧
      (∀ ρ : List Char → K, u ρ = none → R.relate ρ = none)) ∧
    relationOfText (K := K) .inequality s = .error .assertion := by
  obtain ⟨a, ha, hu⟩ := C21_text s u hs
  have hop : hasOperator s = false := by
    by_contra h
    obtain ⟨c, hc, h⟩ := hasOperator_iff.1 (by simpa using h)
    have := (denotes_plain hs).1 c hc
    rw [isOpChar_eq_false.2 ⟨this.1, this.2.1, this.2.2.1⟩] at h
    cases h
  constructor
  · intro c hc
    refine ⟨⟨⟨.equality, some .eq, Relations.toOpfunc .eq, some s⟩, a⟩, ?_, rfl, rfl, ?_, ?_⟩
    · unfold relationOfText construct newCls newOp initAttrs hasOpInInput
      cases c <;> simp [hop, bind, Except.bind, pure, Except.pure, ha, assertOp] at hc ⊢
    · intro ρ x hx
      refine ⟨decide (x = 0), ?_, by simp⟩
      simp [TextRelation.relate, hu, hx, Attrs.relateValue, Relations.toOpfunc]
    · intro ρ hx
      simp [TextRelation.relate, hu, hx]
  · unfold relationOfText construct newCls newOp initAttrs hasOpInInput
    simp [hop, bind, Except.bind, pure, Except.pure, assertOp]

/-- C20: the white characters of Python, by their code points. -/
theorem C20_white (c : Char) : isWs c = true ↔ c.toNat ∈ [0x09, 0x0a, 0x0b, 0x0c, 0x0d, 0x1c, 0x1d, 0x1e, 0x1f,
    0x20, 0x85, 0xa0, 0x1680, 0x2000, 0x2001, 0x2002, 0x2003, 0x2004, 0x2005, 0x2006, 0x2007, 0x2008,
    0x2009, 0x200a, 0x2028, 0x2029, 0x202f, 0x205f, 0x3000] := by
  simp only [isWs, Bool.or_eq_true, Bool.and_eq_true, decide_eq_true_eq, beq_iff_eq, List.mem_cons,
    List.not_mem_nil, or_false]
  omega

/-- The text ` x_1 - 2.5*(y + 10)` denotes `x_1 - 5/2 (y + 10)`. -/
example : Denotes (K := ℚ) .sum (" x_1 - 2.5*(y + 10)".toList)
    (lift2 (· - ·) (fun ρ => some (ρ ['x', '_', '1']))
      (lift2 (· * ·) (fun _ => some ((intVal [2] : ℚ) + fracVal [5]))
        (lift2 (· + ·) (fun ρ => some (ρ ['y'])) (fun _ => some (intVal [1, 0] : ℚ))))) := by
  have hx : Denotes (K := ℚ) .sum " x_1 ".toList fun ρ => some (ρ ['x', '_', '1']) :=
    .blank (s := ['x', '_', '1']) (b := [' ']) (b' := [' ']) (by simp) (by simp)
      (.term (.factor (.name ⟨'x', ['_', '1'], rfl, by decide, by decide⟩)))
  have hd : Denotes (K := ℚ) .term " 2.5".toList fun _ => some ((intVal [2] : ℚ) + fracVal [5]) :=
    .blank (s := "2.5".toList) (b := [' ']) (b' := []) (by simp) (by simp)
      (.factor (.dec (ip := [2]) (fp := [5]) (.inl (by simp))))
  have hy : Denotes (K := ℚ) .sum "y ".toList fun ρ => some (ρ ['y']) :=
    .blank (s := ['y']) (b := []) (b' := [' ']) (by simp) (by simp)
      (.term (.factor (.name ⟨'y', [], rfl, by decide, by decide⟩)))
  have hi : Denotes (K := ℚ) .term " 10".toList fun _ => some (intVal [1, 0] : ℚ) :=
    .blank (s := ['1', '0']) (b := [' ']) (b' := []) (by simp) (by simp)
      (.factor (.int (d := 1) (ds := [0]) (by decide)))
  exact .sub hx (.mul hd (.paren (.add hy hi)))

example : intVal [1, 0] = 10 ∧ (intVal [2] : ℚ) + fracVal [5] = 5 / 2 := by
  refine ⟨by decide, ?_⟩
  simp [intVal, fracVal]
  norm_num

end Verif.Rel.Props
