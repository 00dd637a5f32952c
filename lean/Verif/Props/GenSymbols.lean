import Verif.Model.GenSymbols
import Mathlib.Data.List.Nodup

set_option linter.unusedSectionVars false

/-! # C139: symbols made from a template -/

namespace Verif.GenSym.Props
open Verif Verif.GenSym

/-- a character that means nothing special to `str.format` and `sympy.symbols` -/
def Plain (c : Char) : Prop :=
  c ≠ '{' ∧ c ≠ '}' ∧ c ≠ ',' ∧ c ≠ ':' ∧ c ≠ '\\' ∧ c ≠ ' ' ∧ c ≠ '\t' ∧ c ≠ '\n' ∧ c ≠ '\r'

/-- the name for an index -/
def nameOf (pre post : List Char) (i : ℤ) : List Char := pre ++ (toString i).toList ++ post

/-! ### Numbers as text -/

theorem pyStr_eq (i : ℤ) : pyStr i = (toString i).toList := by
  cases i with
  | ofNat n => simp [pyStr, toString, Int.repr, Nat.toList_repr]
  | negSucc n => simp [pyStr, toString, Int.repr, Nat.toList_repr]

theorem digits_inj {m n : ℕ} (h : Nat.toDigits 10 m = Nat.toDigits 10 n) : m = n := by
  have h1 := Nat.ofDigitChars_toDigits (b := 10) (n := m) (by decide) (by decide)
  have h2 := Nat.ofDigitChars_toDigits (b := 10) (n := n) (by decide) (by decide)
  rw [h] at h1
  exact h1.symm.trans h2

theorem digit_ne {n : ℕ} {c : Char} (h : c ∈ Nat.toDigits 10 n) : c.isDigit = true :=
  Nat.isDigit_of_mem_toDigits (by decide) (by decide) h

theorem pyStr_inj {i j : ℤ} (h : pyStr i = pyStr j) : i = j := by
  have key : ∀ m n : ℕ, Nat.toDigits 10 m ≠ '-' :: Nat.toDigits 10 n := by
    intro m n h
    have : '-' ∈ Nat.toDigits 10 m := by rw [h]; simp
    exact absurd (digit_ne this) (by decide)
  cases i with
  | ofNat m =>
    cases j with
    | ofNat n => exact congrArg Int.ofNat (digits_inj h)
    | negSucc n => exact absurd h (key _ _)
  | negSucc m =>
    cases j with
    | ofNat n => exact absurd h.symm (key _ _)
    | negSucc n =>
      have := digits_inj (List.cons.inj h).2
      exact congrArg Int.negSucc (by omega)

theorem plain_of_digit {c : Char} (h : c.isDigit = true) : Plain c := by
  refine ⟨?_, ?_, ?_, ?_, ?_, ?_, ?_, ?_, ?_⟩ <;> (rintro rfl; revert h; decide)

theorem pyStr_plain {i : ℤ} {c : Char} (h : c ∈ pyStr i) : Plain c := by
  cases i with
  | ofNat n => exact plain_of_digit (digit_ne h)
  | negSucc n =>
    rcases List.mem_cons.mp h with rfl | h
    · unfold Plain; decide
    · exact plain_of_digit (digit_ne h)

theorem pyStr_ne (i : ℤ) : pyStr i ≠ [] := by
  cases i with
  | ofNat n => exact Nat.toDigits_ne_nil
  | negSucc n => simp [pyStr]

theorem Plain.ws {c : Char} (h : Plain c) : GenSym.ws c = false := by
  obtain ⟨-, -, -, -, -, h1, h2, h3, h4⟩ := h
  simp [GenSym.ws, h1, h2, h3, h4]

/-! ### Templates -/

theorem fmt_plain (v : List Char) : ∀ (m : Numbering) (t rest : List Char), (∀ c ∈ t, Plain c) →
    fmt v m (t ++ rest) = (fmt v m rest).map (t ++ ·)
  | m, [], rest, _ => by
    rw [List.nil_append]
    cases fmt v m rest <;> rfl
  | m, c :: t, rest, h => by
    have hc := h c (by simp)
    have ih := fmt_plain v m t rest fun c' hc' => h c' (by simp [hc'])
    have h1 : fmt v m (c :: (t ++ rest)) = (fmt v m (t ++ rest)).map (c :: ·) := by
      rw [fmt.eq_def]
      split
      · simp_all
      · rename_i hh; exact absurd (List.cons.inj hh).1 hc.1
      · rename_i hh; exact absurd (List.cons.inj hh).1 hc.2.1
      · rename_i hh; exact absurd (List.cons.inj hh).1 hc.1
      · rename_i hh; exact absurd (List.cons.inj hh).1 hc.1
      · rename_i hh; exact absurd (List.cons.inj hh).1 hc.1
      · rename_i hh; exact absurd (List.cons.inj hh).1 hc.1
      · rename_i hh; exact absurd (List.cons.inj hh).1 hc.1
      · rename_i hh; exact absurd (List.cons.inj hh).1 hc.1
      · rename_i hh
        obtain ⟨rfl, rfl⟩ := List.cons.inj hh
        rw [if_neg (by rintro (h | h); exacts [hc.1 h, hc.2.1 h])]
    rw [List.cons_append, h1, ih]
    cases fmt v m rest <;> rfl

theorem fmt_name (v pre post : List Char) (hpre : ∀ c ∈ pre, Plain c) (hpost : ∀ c ∈ post, Plain c)
    (tail : List Char) (ht : fmt v .auto tail = .ok tail) :
    fmt v .no (pre ++ ['{', '}'] ++ (post ++ tail)) = .ok (pre ++ v ++ (post ++ tail)) := by
  rw [List.append_assoc, fmt_plain v _ pre _ hpre]
  show (fmt v .no ('{' :: '}' :: (post ++ tail))).map _ = _
  rw [fmt, fmt_plain v _ post _ hpost, ht]
  simp [Except.map]

/-! ### Texts -/

theorem words_run : ∀ (w rest acc : List Char), (∀ c ∈ w, ws c = false) →
    words (w ++ rest) acc = words rest (w.reverse ++ acc)
  | [], rest, acc, _ => rfl
  | c :: w, rest, acc, h => by
    rw [List.cons_append, words, if_neg (by rw [h c (by simp)]; simp),
      words_run w rest (c :: acc) fun c' hc => h c' (by simp [hc])]
    simp

theorem words_one (w : List Char) (h : ∀ c ∈ w, ws c = false) (hne : w ≠ []) : words w [] = [w] := by
  have := words_run w [] [] h
  rw [List.append_nil, List.append_nil] at this
  rw [this, words, if_neg (by simpa using hne), List.reverse_reverse]

theorem words_join : ∀ (ns : List (List Char)), (∀ n ∈ ns, n ≠ [] ∧ ∀ c ∈ n, ws c = false) →
    words (List.intercalate [' '] ns) [] = ns
  | [], _ => rfl
  | [n], h => by
    obtain ⟨h1, h2⟩ := h n (by simp)
    simpa using words_one n h2 h1
  | n :: m :: ns, h => by
    obtain ⟨h1, h2⟩ := h n (by simp)
    have ih := words_join (m :: ns) fun k hk => h k (by simp at hk ⊢; tauto)
    have e : List.intercalate [' '] (n :: m :: ns) = n ++ (' ' :: List.intercalate [' '] (m :: ns)) := by
      simp
    rw [e, words_run n _ _ h2, words, if_pos (by rfl), if_neg (by simpa using h1), ih]
    simp

theorem commas_none : ∀ (t acc : List Char), ',' ∉ t → commas t acc = [acc.reverse ++ t]
  | [], acc, _ => by simp [commas]
  | c :: t, acc, h => by
    rw [commas, if_neg (by rintro rfl; simp at h), commas_none t (c :: acc) (by simp at h; tauto)]
    simp

theorem strip_id {t : List Char} (h1 : ∀ c, t.head? = some c → ws c = false)
    (h2 : ∀ c, t.getLast? = some c → ws c = false) : strip t = t := by
  have key : ∀ l : List Char, (∀ c, l.head? = some c → ws c = false) → l.dropWhile ws = l := by
    intro l h
    cases l with
    | nil => rfl
    | cons c l => rw [List.dropWhile_cons_of_neg (by rw [h c rfl]; simp)]
  unfold strip
  rw [key t h1, key t.reverse (by rwa [List.head?_reverse]), List.reverse_reverse]

theorem join_head : ∀ (n : List Char) (ns : List (List Char)), n ≠ [] →
    (List.intercalate [' '] (n :: ns)).head? = n.head?
  | n, [], _ => by simp
  | n, m :: ns, h => by
    cases n with
    | nil => exact absurd rfl h
    | cons c n => simp

theorem join_last : ∀ (ns : List (List Char)) (c : Char), (∀ n ∈ ns, n ≠ []) →
    (List.intercalate [' '] ns).getLast? = some c → ∃ n ∈ ns, c ∈ n
  | [], c, _, h => by simp at h
  | [n], c, _, h => ⟨n, by simp, by simp at h; exact List.mem_of_getLast? h⟩
  | n :: m :: ns, c, hne, h => by
    have e : List.intercalate [' '] (n :: m :: ns) = (n ++ [' ']) ++ List.intercalate [' '] (m :: ns) := by simp
    have hn0 : List.intercalate [' '] (m :: ns) ≠ [] := by
      intro h0
      have := join_head m ns (hne m (by simp))
      rw [h0] at this
      have hm := hne m (by simp)
      cases m with
      | nil => exact hm rfl
      | cons a b => simp at this
    rw [e, List.getLast?_append_of_ne_nil _ hn0] at h
    obtain ⟨k, hk, hc⟩ := join_last (m :: ns) c (fun k hk => hne k (by simp at hk ⊢; tauto)) h
    exact ⟨k, by simp at hk ⊢; tauto, hc⟩

theorem join_mem {c : Char} : ∀ (ns : List (List Char)), c ∈ List.intercalate [' '] ns → c = ' ' ∨ ∃ n ∈ ns, c ∈ n
  | [], h => by simp at h
  | [n], h => Or.inr ⟨n, by simp, by simpa using h⟩
  | n :: m :: ns, h => by
    have e : List.intercalate [' '] (n :: m :: ns) = n ++ (' ' :: List.intercalate [' '] (m :: ns)) := by simp
    rw [e, List.mem_append, List.mem_cons] at h
    rcases h with h | h | h
    · exact Or.inr ⟨n, by simp, h⟩
    · exact Or.inl h
    · rcases join_mem (m :: ns) h with h | ⟨k, hk, hc⟩
      · exact Or.inl h
      · exact Or.inr ⟨k, by simp at hk ⊢; tauto, hc⟩

theorem expand_plain (expand : List Char → Py (List (List Char))) : ∀ (ns : List (List Char)),
    (∀ n ∈ ns, ':' ∉ n) →
    pyMap (fun n => if ':' ∈ n then expand n else .ok [n]) ns = .ok (ns.map fun n => [n])
  | [], _ => rfl
  | n :: ns, h => by
    have ih := expand_plain expand ns fun k hk => h k (by simp [hk])
    simp only [pyMap] at ih ⊢
    simp only [List.mapM_cons, if_neg (h n (by simp)), ih]
    rfl

/-- a list of names the way SymPy returns it -/
def packed : Bool → List (List Char) → Py Made
  | false, [n] => .ok (.one n)
  | _, l => .ok (.many l)

/-- the same after `list(...)` -/
def listed : Bool → List (List Char) → Py (List (List Char))
  | false, [_] => .error .type
  | _, l => .ok l

/-- what SymPy makes of plain names with spaces in between -/
theorem symbolsOf_join (expand : List Char → Py (List (List Char))) (seq : Option Bool) (ns : List (List Char))
    (h0 : ns ≠ []) (h : ∀ n ∈ ns, n ≠ [] ∧ ∀ c ∈ n, Plain c) :
    symbolsOf expand seq (List.intercalate [' '] ns) =
      packed (seq.getD false) ns := by
  have hws : ∀ n ∈ ns, n ≠ [] ∧ ∀ c ∈ n, ws c = false := fun n hn => ⟨(h n hn).1, fun c hc => ((h n hn).2 c hc).ws⟩
  have hhead : (List.intercalate [' '] ns).head? ≠ none ∧
      ∀ c, (List.intercalate [' '] ns).head? = some c → ws c = false := by
    cases ns with
    | nil => exact absurd rfl h0
    | cons n ns =>
      have hn := hws n (by simp)
      rw [join_head n ns hn.1]
      exact ⟨by simpa using hn.1, fun c hc => hn.2 c (List.mem_of_head? hc)⟩
  have hlast : ∀ c, (List.intercalate [' '] ns).getLast? = some c → Plain c := fun c hc => by
    obtain ⟨n, hn, hcn⟩ := join_last ns c (fun n hn => (h n hn).1) hc
    exact (h n hn).2 c hcn
  have hcomma : ',' ∉ List.intercalate [' '] ns := by
    intro hc
    rcases join_mem ns hc with hc | ⟨n, hn, hc⟩
    · exact absurd hc (by decide)
    · exact ((h n hn).2 _ hc).2.2.1 rfl
  have hstrip : strip (List.intercalate [' '] ns) = List.intercalate [' '] ns :=
    strip_id hhead.2 fun c hc => (hlast c hc).ws
  have htr : trailing (List.intercalate [' '] ns) = (List.intercalate [' '] ns, false) := by
    unfold trailing
    rw [if_neg fun hc => (hlast _ hc).2.2.1 rfl]
  have hne : List.intercalate [' '] ns ≠ [] := by
    intro h1
    rw [h1] at hhead
    exact hhead.1 rfl
  have hflat : (ns.map fun n => [n]).flatten = ns := by
    induction ns with
    | nil => rfl
    | cons n ns ih => simp [← List.flatMap_def]
  unfold symbolsOf
  simp only [hstrip, htr, if_neg hne, commas_none _ [] hcomma, List.reverse_nil, List.nil_append, List.map_cons,
    List.map_nil, List.mem_singleton, if_neg (Ne.symm hne), List.flatMap_cons, List.flatMap_nil, List.append_nil,
    words_join ns hws, expand_plain expand ns fun n hn hc => ((h n hn).2 _ hc).2.2.2.1 rfl, hflat]
  rfl

theorem texts_ok (pre post tail : List Char) (hpre : ∀ c ∈ pre, Plain c) (hpost : ∀ c ∈ post, Plain c)
    (ht : ∀ v, fmt v .auto tail = .ok tail) : ∀ is : List ℤ,
    pyMap (fun i => fmt (pyStr i) .no (pre ++ ['{', '}'] ++ (post ++ tail))) is =
      .ok (is.map fun i => pre ++ pyStr i ++ (post ++ tail))
  | [] => rfl
  | i :: is => by
    have ih := texts_ok pre post tail hpre hpost ht is
    simp only [pyMap] at ih ⊢
    simp only [List.mapM_cons, fmt_name (pyStr i) pre post hpre hpost tail (ht _), ih]
    rfl

theorem name_good (pre post : List Char) (hpre : ∀ c ∈ pre, Plain c) (hpost : ∀ c ∈ post, Plain c) (i : ℤ) :
    nameOf pre post i ≠ [] ∧ ∀ c ∈ nameOf pre post i, Plain c := by
  unfold nameOf
  rw [← pyStr_eq]
  refine ⟨by simp [pyStr_ne], fun c hc => ?_⟩
  simp only [List.mem_append] at hc
  rcases hc with (hc | hc) | hc
  exacts [hpre c hc, pyStr_plain hc, hpost c hc]

theorem generate_eq (expand : List Char → Py (List (List Char))) (pre post : List Char)
    (hpre : ∀ c ∈ pre, Plain c) (hpost : ∀ c ∈ post, Plain c) (is : List ℤ) (h0 : is ≠ []) (seq : Option Bool) :
    generate expand (pre ++ ['{', '}'] ++ post) is seq =
      listed (seq.getD false) (is.map (nameOf pre post)) := by
  have ht := texts_ok pre post [] hpre hpost (fun _ => rfl) is
  simp only [List.append_nil] at ht
  have hm : (is.map fun i => pre ++ pyStr i ++ post) = is.map (nameOf pre post) := by
    apply List.map_congr_left
    intro i _
    rw [pyStr_eq]
    rfl
  unfold generate
  rw [ht]
  simp only [hm]
  rw [symbolsOf_join expand seq (is.map (nameOf pre post)) (by simpa using h0) (by
    intro n hn
    obtain ⟨i, -, rfl⟩ := List.mem_map.mp hn
    exact name_good pre post hpre hpost i)]
  generalize is.map (nameOf pre post) = l
  cases seq.getD false with
  | true => rfl
  | false =>
    match l with
    | [] => rfl
    | [_] => rfl
    | _ :: _ :: _ => rfl

/-- C139: for a template with one field and two or more indices there is one symbol per index, in the order of the
indices, named after the template and the index; symbols for different indices are different. With `seq=True` one
index is enough. -/
theorem C139_symbols_partial (expand : List Char → Py (List (List Char))) (pre post : List Char)
    (hpre : ∀ c ∈ pre, Plain c) (hpost : ∀ c ∈ post, Plain c) (is : List ℤ) (seq : Option Bool)
    (h : 2 ≤ is.length ∨ (is.length = 1 ∧ seq = some true)) :
    ∃ l, generate expand (pre ++ ['{', '}'] ++ post) is seq = .ok l ∧ l.length = is.length ∧
      (∀ (k : ℕ) (i : ℤ), is[k]? = some i → l[k]? = some (pre ++ (toString i).toList ++ post)) ∧
      (is.Nodup → l.Nodup) := by
  have h0 : is ≠ [] := by rintro rfl; simp at h
  refine ⟨is.map (nameOf pre post), ?_, by simp, fun k i hk => by simp [hk, nameOf], fun hn => ?_⟩
  · rw [generate_eq expand pre post hpre hpost is h0 seq]
    rcases h with h | ⟨h, rfl⟩
    · match is, h with
      | i :: j :: is, _ => cases seq.getD false <;> rfl
    · rfl
  · refine List.Nodup.map (fun i j hij => ?_) hn
    unfold nameOf at hij
    rw [List.append_assoc, List.append_assoc, List.append_cancel_left_eq, List.append_cancel_right_eq,
      ← pyStr_eq, ← pyStr_eq] at hij
    exact pyStr_inj hij

/-! ### Templates that end with a comma -/

/-- names with a comma and a blank in between -/
def listing : List Char → List (List Char) → List Char
  | n, [] => n
  | n, m :: ns => n ++ (',' :: ' ' :: listing m ns)

theorem join_commas : ∀ (n : List Char) (ns : List (List Char)),
    List.intercalate [' '] ((n :: ns).map (· ++ [','])) = listing n ns ++ [',']
  | n, [] => by simp [listing]
  | n, m :: ns => by
    have ih := join_commas m ns
    have e : List.intercalate [' '] ((n :: m :: ns).map (· ++ [','])) =
        n ++ (',' :: ' ' :: List.intercalate [' '] ((m :: ns).map (· ++ [',']))) := by simp
    rw [e, ih]
    simp [listing]

theorem commas_run : ∀ (w rest acc : List Char), ',' ∉ w → commas (w ++ rest) acc = commas rest (w.reverse ++ acc)
  | [], rest, acc, _ => rfl
  | c :: w, rest, acc, h => by
    rw [List.cons_append, commas, if_neg (by rintro rfl; simp at h), commas_run w rest (c :: acc) (by simp at h; tauto)]
    simp

theorem commas_listing : ∀ (n : List Char) (ns : List (List Char)) (acc : List Char), (∀ k ∈ n :: ns, ',' ∉ k) →
    commas (listing n ns) acc = (acc.reverse ++ n) :: ns.map (' ' :: ·)
  | n, [], acc, h => by
    rw [listing, commas_none n acc (h n (by simp))]
    rfl
  | n, m :: ns, acc, h => by
    rw [listing, commas_run n _ acc (h n (by simp)), commas, if_pos rfl, commas, if_neg (by decide),
      commas_listing m ns [' '] fun k hk => h k (by simp at hk ⊢; tauto)]
    simp

theorem listing_head : ∀ (n : List Char) (ns : List (List Char)), n ≠ [] → (listing n ns).head? = n.head?
  | n, [], _ => rfl
  | n, m :: ns, h => by
    cases n with
    | nil => exact absurd rfl h
    | cons c n => rfl

theorem listing_ne (n : List Char) (ns : List (List Char)) (h : n ≠ []) : listing n ns ≠ [] := by
  intro h0
  have := listing_head n ns h
  rw [h0] at this
  cases n with
  | nil => exact h rfl
  | cons c n => simp at this

theorem listing_last : ∀ (n : List Char) (ns : List (List Char)) (c : Char), (∀ k ∈ n :: ns, k ≠ []) →
    (listing n ns).getLast? = some c → ∃ k ∈ n :: ns, c ∈ k
  | n, [], c, _, h => ⟨n, by simp, List.mem_of_getLast? h⟩
  | n, m :: ns, c, hne, h => by
    have e : listing n (m :: ns) = (n ++ [',', ' ']) ++ listing m ns := by simp [listing]
    rw [e, List.getLast?_append_of_ne_nil _ (listing_ne m ns (hne m (by simp)))] at h
    obtain ⟨k, hk, hc⟩ := listing_last m ns c (fun k hk => hne k (by simp at hk ⊢; tauto)) h
    exact ⟨k, by simp at hk ⊢; tauto, hc⟩

theorem dropWhile_id {l : List Char} (h : ∀ c, l.head? = some c → ws c = false) : l.dropWhile ws = l := by
  cases l with
  | nil => rfl
  | cons c l => rw [List.dropWhile_cons_of_neg (by rw [h c rfl]; simp)]

theorem strip_word {n : List Char} (h : ∀ c ∈ n, ws c = false) : strip n = n :=
  strip_id (fun c hc => h c (List.mem_of_head? hc)) fun c hc => h c (List.mem_of_getLast? hc)

theorem strip_blank (n : List Char) : strip (' ' :: n) = strip n := by
  unfold strip
  rw [List.dropWhile_cons_of_pos (by rfl)]

/-- what SymPy makes of plain names with commas after each -/
theorem symbolsOf_listing (expand : List Char → Py (List (List Char))) (n : List Char) (ns : List (List Char))
    (h : ∀ k ∈ n :: ns, k ≠ [] ∧ ∀ c ∈ k, Plain c) (seq : Option Bool) (hs : seq ≠ some false) :
    symbolsOf expand seq (List.intercalate [' '] ((n :: ns).map (· ++ [',']))) = .ok (.many (n :: ns)) := by
  have hws : ∀ k ∈ n :: ns, ∀ c ∈ k, ws c = false := fun k hk c hc => ((h k hk).2 c hc).ws
  have hne := listing_ne n ns (h n (by simp)).1
  have hhead : ∀ c, (listing n ns).head? = some c → ws c = false := fun c hc => by
    rw [listing_head n ns (h n (by simp)).1] at hc
    exact hws n (by simp) c (List.mem_of_head? hc)
  have hlast : ∀ c, (listing n ns).getLast? = some c → ws c = false := fun c hc => by
    obtain ⟨k, hk, hck⟩ := listing_last n ns c (fun k hk => (h k hk).1) hc
    exact hws k hk c hck
  have hstrip : strip (listing n ns ++ [',']) = listing n ns ++ [','] := by
    apply strip_id
    · intro c hc
      rw [List.head?_append_of_ne_nil _ hne] at hc
      exact hhead c hc
    · intro c hc
      have : c = ',' := by simpa using hc.symm
      rw [this]; rfl
  have htr : trailing (listing n ns ++ [',']) = (listing n ns, true) := by
    unfold trailing
    rw [if_pos (by simp), List.dropLast_concat, dropWhile_id (by rwa [List.head?_reverse]), List.reverse_reverse]
  have hparts : (commas (listing n ns) []).map strip = n :: ns := by
    rw [commas_listing n ns [] fun k hk hc => ((h k hk).2 _ hc).2.2.1 rfl]
    simp only [List.reverse_nil, List.nil_append, List.map_cons, List.map_map, strip_word (hws n (by simp))]
    congr 1
    conv_rhs => rw [← List.map_id ns]
    apply List.map_congr_left
    intro k hk
    show strip (' ' :: k) = k
    rw [strip_blank, strip_word (hws k (by simp [hk]))]
  have hwords : ∀ l : List (List Char), (∀ k ∈ l, k ≠ [] ∧ ∀ c ∈ k, ws c = false) → l.flatMap (words · []) = l := by
    intro l
    induction l with
    | nil => intro _; rfl
    | cons k l ih =>
      intro hl
      obtain ⟨h1, h2⟩ := hl k (by simp)
      rw [List.flatMap_cons, words_one k h2 h1, ih fun k' hk => hl k' (by simp [hk])]
      rfl
  have hflat : ∀ l : List (List Char), (l.map fun n => [n]).flatten = l := by
    intro l
    induction l with
    | nil => rfl
    | cons n l ih => simp [← List.flatMap_def]
  have hnil : [] ∉ n :: ns := fun hk => (h [] hk).1 rfl
  rw [join_commas]
  unfold symbolsOf
  simp only [hstrip, htr, if_neg hne, hparts, if_neg hnil, hwords (n :: ns) fun k hk => ⟨(h k hk).1, hws k hk⟩,
    expand_plain expand (n :: ns) fun k hk hc => ((h k hk).2 _ hc).2.2.2.1 rfl, hflat]
  match seq, hs with
  | none, _ => rfl
  | some true, _ => rfl
  | some false, hs => exact absurd rfl hs

/-- C139: with a comma at the end of the template any positive number of indices is fine, a single one included. -/
theorem C139_comma (expand : List Char → Py (List (List Char))) (pre post : List Char)
    (hpre : ∀ c ∈ pre, Plain c) (hpost : ∀ c ∈ post, Plain c) (i : ℤ) (is : List ℤ) (seq : Option Bool)
    (hs : seq ≠ some false) :
    generate expand (pre ++ ['{', '}'] ++ (post ++ [','])) (i :: is) seq =
      .ok ((i :: is).map fun i => pre ++ (toString i).toList ++ post) := by
  have ht := texts_ok pre post [','] hpre hpost (fun _ => rfl) (i :: is)
  have hm : ((i :: is).map fun i => pre ++ pyStr i ++ (post ++ [','])) =
      (nameOf pre post i :: is.map (nameOf pre post)).map (· ++ [',']) := by
    rw [← List.map_cons, List.map_map]
    apply List.map_congr_left
    intro j _
    show _ = nameOf pre post j ++ [',']
    unfold nameOf
    rw [pyStr_eq]
    simp
  unfold generate
  rw [ht]
  simp only [hm]
  rw [symbolsOf_listing expand _ _ (by
    intro n hn
    rw [← List.map_cons] at hn
    obtain ⟨j, -, rfl⟩ := List.mem_map.mp hn
    exact name_good pre post hpre hpost j) seq hs]
  rfl

/-- C139 does not hold for one index: a `TypeError`, whatever the template and the index. -/
theorem C139_single_violated (expand : List Char → Py (List (List Char))) (pre post : List Char)
    (hpre : ∀ c ∈ pre, Plain c) (hpost : ∀ c ∈ post, Plain c) (i : ℤ) :
    generate expand (pre ++ ['{', '}'] ++ post) [i] none = .error .type := by
  rw [generate_eq expand pre post hpre hpost [i] (by simp) none]
  rfl

/-- C139 does not hold without indices: a `ValueError` instead of an empty list, whatever the template. -/
theorem C139_nothing_violated (expand : List Char → Py (List (List Char))) (template : List Char)
    (seq : Option Bool) : generate expand template [] seq = .error .value := rfl

/-- C139 does not hold for a template with a blank, as in `generate_symbols("x {}", [1, 2])`: the blank separates
symbols, and one of them is made twice. -/
theorem C139_blank_violated (expand : List Char → Py (List (List Char))) :
    generate expand "x {}".toList [1, 2] none =
      .ok ["x".toList, "1".toList, "x".toList, "2".toList] := by
  rfl

/-- C139: two fields without numbers are refused (`IndexError`), whatever surrounds them. -/
theorem C139_fields (expand : List Char → Py (List (List Char))) (pre mid rest : List Char)
    (hpre : ∀ c ∈ pre, Plain c) (hmid : ∀ c ∈ mid, Plain c) (i : ℤ) (is : List ℤ) (seq : Option Bool) :
    generate expand (pre ++ ['{', '}'] ++ (mid ++ ['{', '}'] ++ rest)) (i :: is) seq = .error .index := by
  have : fmt (pyStr i) .no (pre ++ ['{', '}'] ++ (mid ++ ['{', '}'] ++ rest)) = .error .index := by
    rw [List.append_assoc, fmt_plain _ _ pre _ hpre]
    show (fmt (pyStr i) .no ('{' :: '}' :: (mid ++ ['{', '}'] ++ rest))).map _ = _
    rw [fmt, List.append_assoc, fmt_plain _ _ mid _ hmid]
    rfl
  unfold generate
  simp only [pyMap, List.mapM_cons, this]
  rfl

/-! ### Cases that meet the hypotheses -/

example : generate (fun _ => .error .generic) "x_{}".toList [1, 2, -3] none =
    .ok ["x_1".toList, "x_2".toList, "x_-3".toList] := by rfl

example : generate (fun _ => .error .generic) "x_{}".toList [7] (some true) = .ok ["x_7".toList] := by rfl

/-- A comma at the end makes a list of one symbol. -/
example : generate (fun _ => .error .generic) "x_{},".toList [7] none = .ok ["x_7".toList] := by rfl

example : ∀ c ∈ "x_".toList, Plain c := by
  intro c hc
  have : c = 'x' ∨ c = '_' := by simpa using hc
  rcases this with rfl | rfl <;> (unfold Plain; decide)

end Verif.GenSym.Props
