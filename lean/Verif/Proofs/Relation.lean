import Verif.Model.Relation
import Mathlib.Data.List.TakeWhile
import Mathlib.Data.List.Infix

set_option linter.unusedSectionVars false

namespace Verif.Rel

/-- The characters the operators are made of. -/
def isOpChar (c : Char) : Bool := c == '<' || c == '>' || c == '='

theorem isOpChar_not_ws {c : Char} (h : isOpChar c = true) : isWs c = false := by
  simp only [isOpChar, Bool.or_eq_true, beq_iff_eq] at h
  rcases h with (h | h) | h <;> subst h <;> decide

theorem isOpChar_isDot {c : Char} (h : isOpChar c = true) : isDot c = true := by
  simp only [isOpChar, Bool.or_eq_true, beq_iff_eq] at h
  rcases h with (h | h) | h <;> subst h <;> decide

theorem value_ne_nil (o : Relations) : o.value ≠ [] := by cases o <;> simp [Relations.value]

theorem value_opChar (o : Relations) : ∀ c ∈ o.value, isOpChar c = true := by
  cases o <;> simp [Relations.value, isOpChar]

theorem value_injective : Function.Injective Relations.value := by
  intro a b; cases a <;> cases b <;> simp [Relations.value]

theorem mem_validOperators (o : Relations) : o ∈ validOperators := by
  cases o <;> simp [validOperators]

theorem ofValue_value (o : Relations) : Relations.ofValue o.value = .ok o := by
  cases o <;> decide

theorem ofValue_eq_ok {t : List Char} {o : Relations} :
    Relations.ofValue t = .ok o ↔ t = o.value := by
  constructor
  · intro h
    unfold Relations.ofValue at h
    cases hf : validOperators.find? (fun o => o.value == t) with
    | none => rw [hf] at h; simp at h
    | some x =>
      rw [hf] at h
      have := List.find?_some hf
      simp only [Except.ok.injEq] at h
      subst h
      exact (beq_iff_eq.1 this).symm
  · rintro rfl; exact ofValue_value o

theorem contains_iff {t op : List Char} : contains t op = true ↔ op <:+: t := by
  unfold contains
  simp only [List.any_eq_true, List.mem_tails, List.isPrefixOf_iff_prefix]
  constructor
  · rintro ⟨u, hu, hp⟩; exact hp.isInfix.trans hu.isInfix
  · rintro ⟨a, b, h⟩
    exact ⟨op ++ b, ⟨a, by simpa using h⟩, ⟨b, rfl⟩⟩

/-- The text contains one of the valid operators iff it contains an operator character. -/
theorem hasOperator_iff {t : List Char} :
    hasOperator t = true ↔ ∃ c ∈ t, isOpChar c = true := by
  unfold hasOperator
  simp only [List.any_eq_true, contains_iff]
  constructor
  · rintro ⟨o, -, h⟩
    obtain ⟨c, hc⟩ := List.exists_mem_of_ne_nil _ (value_ne_nil o)
    exact ⟨c, h.subset hc, value_opChar o c hc⟩
  · rintro ⟨c, hc, h⟩
    obtain ⟨a, b, rfl⟩ := List.append_of_mem hc
    simp only [isOpChar, Bool.or_eq_true, beq_iff_eq] at h
    rcases h with (h | h) | h
    · exact ⟨.lt, mem_validOperators _, a, b, by simp [Relations.value, h]⟩
    · exact ⟨.gt, mem_validOperators _, a, b, by simp [Relations.value, h]⟩
    · exact ⟨.eq, mem_validOperators _, a, b, by simp [Relations.value, h]⟩

theorem hasOperator_false {t : List Char} :
    hasOperator t = false ↔ ∀ c ∈ t, isOpChar c = false := by
  rw [← Bool.not_eq_true, hasOperator_iff]
  simp

/-! ### `strip` -/

theorem dropWhile_decomp (p : Char → Bool) (s : List Char) :
    ∃ a, s = a ++ s.dropWhile p ∧ ∀ c ∈ a, p c = true :=
  ⟨s.takeWhile p, (List.takeWhile_append_dropWhile).symm, fun _ h => List.mem_takeWhile_imp h⟩

theorem strip_decomp (s : List Char) :
    ∃ a b, s = a ++ strip s ++ b ∧ (∀ c ∈ a, isWs c = true) ∧ (∀ c ∈ b, isWs c = true) := by
  obtain ⟨a, ha, ha'⟩ := dropWhile_decomp isWs s
  obtain ⟨b, hb, hb'⟩ := dropWhile_decomp isWs (s.dropWhile isWs).reverse
  refine ⟨a, b.reverse, ?_, ha', fun c hc => hb' c (by simpa using hc)⟩
  have : s.dropWhile isWs = strip s ++ b.reverse := by
    have := congrArg List.reverse hb
    simpa [strip] using this
  rw [List.append_assoc, ← this]; exact ha

theorem strip_append_ws {s b : List Char} (hb : ∀ c ∈ b, isWs c = true) :
    strip (s ++ b) = strip s := by
  unfold strip
  by_cases h : ∀ c ∈ s, isWs c = true
  · have h1 : s.dropWhile isWs = [] := by simpa [List.dropWhile_eq_nil_iff] using h
    have h2 : (s ++ b).dropWhile isWs = [] := by
      rw [List.dropWhile_eq_nil_iff]
      intro c hc
      rcases List.mem_append.1 hc with h' | h'
      · exact h c h'
      · exact hb c h'
    rw [h1, h2]
  · have h1 : (s ++ b).dropWhile isWs = s.dropWhile isWs ++ b := by
      rw [List.dropWhile_append]
      have : (s.dropWhile isWs).isEmpty = false := by
        rw [List.isEmpty_eq_false_iff]
        intro h'
        exact h (by simpa [List.dropWhile_eq_nil_iff] using h')
      simp [this]
    rw [h1, List.reverse_append, List.dropWhile_append]
    have : b.reverse.dropWhile isWs = [] := by
      rw [List.dropWhile_eq_nil_iff]; intro c hc; exact hb c (by simpa using hc)
    simp [this]

theorem strip_ws_append {s a : List Char} (ha : ∀ c ∈ a, isWs c = true) :
    strip (a ++ s) = strip s := by
  unfold strip
  rw [List.dropWhile_append]
  have : a.dropWhile isWs = [] := by
    rw [List.dropWhile_eq_nil_iff]; exact ha
  simp [this]

theorem strip_dropWhile (s : List Char) : strip (s.dropWhile isWs) = strip s := by
  obtain ⟨a, ha, ha'⟩ := dropWhile_decomp isWs s
  conv_rhs => rw [ha]
  rw [strip_ws_append ha']

theorem strip_subset {s : List Char} {c : Char} (h : c ∈ strip s) : c ∈ s := by
  obtain ⟨a, b, hs, -, -⟩ := strip_decomp s
  rw [hs]; simp [h]

theorem opfree_of_strip {s : List Char} (h : ∀ c ∈ strip s, isOpChar c = false) :
    ∀ c ∈ s, isOpChar c = false := by
  obtain ⟨a, b, hs, ha, hb⟩ := strip_decomp s
  intro c hc
  rw [hs] at hc
  by_contra hne
  have hop : isOpChar c = true := by simpa using hne
  have hws := isOpChar_not_ws hop
  simp only [List.mem_append] at hc
  rcases hc with (hc | hc) | hc
  · rw [ha c hc] at hws; cases hws
  · rw [h c hc] at hop; cases hop
  · rw [hb c hc] at hws; cases hws

theorem strip_eq_nil {s : List Char} : strip s = [] ↔ ∀ c ∈ s, isWs c = true := by
  constructor
  · intro h
    obtain ⟨a, b, hs, ha, hb⟩ := strip_decomp s
    intro c hc
    rw [hs, h] at hc
    simp only [List.append_nil, List.mem_append] at hc
    exact hc.elim (ha c) (hb c)
  · intro h
    have : strip (s ++ []) = strip [] := by
      have := strip_ws_append (s := []) h
      simpa using this
    simpa [strip] using this

/-! ### The matcher -/

theorem mem_downFrom {n lo k : ℕ} : k ∈ downFrom n lo ↔ lo ≤ k ∧ k ≤ n := by
  unfold downFrom
  simp only [List.mem_map, List.mem_range]
  constructor
  · rintro ⟨i, hi, rfl⟩; omega
  · rintro ⟨h1, h2⟩; exact ⟨n - k, by omega, by omega⟩

theorem downFrom_cons {n lo : ℕ} (h : lo ≤ n) :
    ∃ t, downFrom n lo = n :: t := by
  unfold downFrom
  obtain ⟨m, hm⟩ : ∃ m, n + 1 - lo = m + 1 := ⟨n - lo, by omega⟩
  rw [hm, List.range_succ_eq_map]
  exact ⟨_, by simp; rfl⟩

theorem take_takeWhile (p : Char → Bool) (s : List Char) :
    s.take (s.takeWhile p).length = s.takeWhile p := by
  have h := List.take_left (l₁ := s.takeWhile p) (l₂ := s.dropWhile p)
  rwa [List.takeWhile_append_dropWhile] at h

theorem drop_takeWhile (p : Char → Bool) (s : List Char) :
    s.drop (s.takeWhile p).length = s.dropWhile p := by
  have h := List.drop_left (l₁ := s.takeWhile p) (l₂ := s.dropWhile p)
  rwa [List.takeWhile_append_dropWhile] at h

theorem inner_rhs (s : List Char) :
    ((downFrom (s.takeWhile isDot).length 1).findSome? fun m => some (s.take m)) =
      if s.takeWhile isDot = [] then none else some (s.takeWhile isDot) := by
  by_cases h : s.takeWhile isDot = []
  · rw [if_pos h, h]; rfl
  · have h1 : 1 ≤ (s.takeWhile isDot).length := by
      rcases hh : s.takeWhile isDot with _ | ⟨a, t⟩
      · exact absurd hh h
      · simp
    obtain ⟨t, ht⟩ := downFrom_cons h1
    rw [if_neg h, ht, List.findSome?_cons, take_takeWhile]

/-- Whatever the third part matches is preceded by white space only and extends to the end of
the line. -/
theorem matchRhs_sound {s r : List Char} (h : matchRhs s = some r) :
    ∃ w, (∀ c ∈ s.take w, isWs c = true) ∧ r = (s.drop w).takeWhile isDot ∧ r ≠ [] := by
  unfold matchRhs at h
  obtain ⟨w, hw, hf⟩ := List.exists_of_findSome?_eq_some h
  simp only [inner_rhs] at hf
  rw [mem_downFrom] at hw
  refine ⟨w, ?_, ?_⟩
  · intro c hc
    have : c ∈ s.take (s.takeWhile isWs).length :=
      (List.take_prefix_take_left hw.2).subset hc
    rw [take_takeWhile] at this
    exact List.mem_takeWhile_imp this
  · split at hf
    · cases hf
    · rename_i hne
      simp only [Option.some.injEq] at hf
      exact ⟨hf.symm, by rw [← hf]; exact hne⟩

theorem matchRhs_complete {s : List Char} (hnl : ∀ c ∈ s, isDot c = true)
    (hne : strip s ≠ []) : matchRhs s = some (s.dropWhile isWs) := by
  unfold matchRhs
  obtain ⟨t, ht⟩ := downFrom_cons (Nat.zero_le (s.takeWhile isWs).length)
  rw [ht, List.findSome?_cons]
  simp only [inner_rhs, drop_takeWhile]
  have h1 : (s.dropWhile isWs).takeWhile isDot = s.dropWhile isWs := by
    rw [List.takeWhile_eq_self_iff]
    intro c hc
    exact hnl c ((List.dropWhile_sublist _).subset hc)
  have h2 : s.dropWhile isWs ≠ [] := by
    intro h
    apply hne
    rw [strip_eq_nil]
    simpa [List.dropWhile_eq_nil_iff] using h
  rw [h1, if_neg h2]

theorem matchOp_sound {s r : List Char} {o : Relations} (h : matchOp s = some (o, r)) :
    ∃ w t, (∀ c ∈ s.take w, isWs c = true) ∧ s = s.take w ++ o.value ++ t ∧
      matchRhs t = some r := by
  unfold matchOp at h
  obtain ⟨w, hw, hf⟩ := List.exists_of_findSome?_eq_some h
  obtain ⟨o', -, hf⟩ := List.exists_of_findSome?_eq_some hf
  split at hf
  · rename_i hp
    rw [List.isPrefixOf_iff_prefix] at hp
    obtain ⟨t, ht⟩ := hp
    simp only [Option.map_eq_some_iff, Prod.mk.injEq] at hf
    obtain ⟨r', hr', rfl, rfl⟩ := hf
    refine ⟨w, t, ?_, ?_, ?_⟩
    · rw [mem_downFrom] at hw
      intro c hc
      have : c ∈ s.take (s.takeWhile isWs).length :=
        (List.take_prefix_take_left hw.2).subset hc
      rw [take_takeWhile] at this
      exact List.mem_takeWhile_imp this
    · rw [List.append_assoc, ht, List.take_append_drop]
    · rw [← ht] at hr'; simpa using hr'
  · cases hf

/-- The second part fails if an ordinary character comes before the operator. -/
theorem matchOp_none {a b : List Char} {c : Char} (ha : ∀ x ∈ a, isOpChar x = false)
    (hc : isOpChar c = false) (hw : isWs c = false) : matchOp (a ++ c :: b) = none := by
  cases h : matchOp (a ++ c :: b) with
  | none => rfl
  | some p =>
    obtain ⟨o, r⟩ := p
    exfalso
    obtain ⟨w, t, hws, heq, -⟩ := matchOp_sound h
    obtain ⟨x, hx⟩ := List.exists_mem_of_ne_nil _ (value_ne_nil o)
    -- the operator starts at position w
    by_cases hle : w ≤ a.length
    · have h1 : (a ++ c :: b).drop w = o.value ++ t := by
        have := List.take_append_drop w (a ++ c :: b)
        conv at this => rhs; rw [heq]
        rw [List.append_assoc] at this
        exact List.append_cancel_left this
      rw [List.drop_append_of_le_length hle] at h1
      obtain ⟨y, ys, hv⟩ := List.exists_cons_of_ne_nil (value_ne_nil o)
      have hy := value_opChar o y (by simp [hv])
      rw [hv] at h1
      cases hd : a.drop w with
      | nil =>
        rw [hd] at h1
        simp only [List.nil_append, List.cons_append, List.cons.injEq] at h1
        rw [← h1.1, hc] at hy; cases hy
      | cons z zs =>
        rw [hd] at h1
        simp only [List.cons_append, List.cons.injEq] at h1
        have hz : z ∈ a := List.mem_of_mem_drop (i := w) (by rw [hd]; simp)
        rw [← h1.1, ha z hz] at hy; cases hy
    · have : c ∈ (a ++ c :: b).take w := by
        rw [List.take_append]
        apply List.mem_append_right
        obtain ⟨n, hn⟩ : ∃ n, w - a.length = n + 1 := ⟨w - a.length - 1, by omega⟩
        rw [hn]; simp
      rw [hws c this] at hw; cases hw

theorem isPrefixOf_false {p s : List Char} (h : ¬ p <+: s) : p.isPrefixOf s = false := by
  rw [← Bool.not_eq_true, List.isPrefixOf_iff_prefix]; exact h

theorem matchOp_complete {a t r : List Char} {o : Relations} (ha : ∀ x ∈ a, isWs x = true)
    (ht : ∀ x ∈ t, isOpChar x = false) (hr : matchRhs t = some r) :
    matchOp (a ++ o.value ++ t) = some (o, r) := by
  unfold matchOp
  obtain ⟨y, ys, hv⟩ := List.exists_cons_of_ne_nil (value_ne_nil o)
  have hy := isOpChar_not_ws (value_opChar o y (by simp [hv]))
  have htw : (a ++ o.value ++ t).takeWhile isWs = a := by
    rw [List.append_assoc, List.takeWhile_append_of_pos ha, hv]
    simp [hy]
  rw [htw]
  obtain ⟨l, hl⟩ := downFrom_cons (Nat.zero_le a.length)
  rw [hl, List.findSome?_cons]
  have hd : (a ++ o.value ++ t).drop a.length = o.value ++ t := by simp
  simp only [hd]
  have key : (validOperators.findSome? fun o' =>
      if o'.value.isPrefixOf (o.value ++ t) then
        (matchRhs ((o.value ++ t).drop o'.value.length)).map fun r => (o', r)
      else none) = some (o, r) := by
    have h1 : ∀ c, t.head? = some c → c ≠ '=' := by
      rintro c hc rfl
      have := ht '=' (List.mem_of_mem_head? hc)
      simp [isOpChar] at this
    cases o <;> cases t with
    | nil => simp [validOperators, Relations.value, hr]
    | cons x xs =>
      have hx := h1 x rfl
      simp [validOperators, Relations.value, hr, Ne.symm hx]
  rw [key]

theorem reMatch_sound {s l r : List Char} {o : Relations} (h : reMatch s = some (l, o, r)) :
    ∃ k, l = s.take k ∧ 1 ≤ k ∧ (∀ c ∈ l, isDot c = true) ∧ matchOp (s.drop k) = some (o, r) := by
  unfold reMatch at h
  obtain ⟨k, hk, hf⟩ := List.exists_of_findSome?_eq_some h
  simp only [List.mem_map, List.mem_range] at hk
  obtain ⟨i, hi, rfl⟩ := hk
  simp only [Option.map_eq_some_iff, Prod.mk.injEq] at hf
  obtain ⟨⟨o', r'⟩, hm, rfl, rfl, rfl⟩ := hf
  refine ⟨i + 1, rfl, by omega, ?_, hm⟩
  intro c hc
  have : c ∈ s.take (s.takeWhile isDot).length :=
    (List.take_prefix_take_left (show i + 1 ≤ _ from hi)).subset hc
  rw [take_takeWhile] at this
  exact List.mem_takeWhile_imp this

theorem findSome_range_map {β : Type} {n k : ℕ} {f : ℕ → Option β} {b : β} (hk : k < n)
    (hf : f (k + 1) = some b) (hlt : ∀ i < k, f (i + 1) = none) :
    ((List.range n).map (· + 1)).findSome? f = some b := by
  have : List.range n = List.range k ++ k :: (List.range (n - k - 1)).map (· + (k + 1)) := by
    apply List.ext_getElem
    · simp; omega
    · intro i h1 h2
      simp only [List.getElem_range]
      rcases Nat.lt_trichotomy i k with h | h | h
      · rw [List.getElem_append_left (by simpa using h)]; simp
      · subst h; rw [List.getElem_append_right (by simp)]; simp
      · rw [List.getElem_append_right (by simpa using h.le)]
        simp only [List.length_range]
        obtain ⟨j, hj⟩ : ∃ j, i - k = j + 1 := ⟨i - k - 1, by omega⟩
        simp only [hj, List.getElem_cons_succ, List.getElem_map, List.getElem_range]
        omega
  rw [this, List.map_append, List.findSome?_append]
  have h0 : ((List.range k).map (· + 1)).findSome? f = none := by
    rw [List.findSome?_eq_none_iff]
    intro x hx
    simp only [List.mem_map, List.mem_range] at hx
    obtain ⟨i, hi, rfl⟩ := hx
    exact hlt i hi
  rw [h0, List.map_cons, List.findSome?_cons, hf]; rfl

theorem reMatch_complete {l t r : List Char} {o : Relations}
    (hl : ∀ c ∈ l, isDot c = true ∧ isOpChar c = false) (hne : strip l ≠ [])
    (ht : ∀ c ∈ t, isOpChar c = false) (hr : matchRhs t = some r) :
    ∃ l' w, l = l' ++ w ∧ (∀ c ∈ w, isWs c = true) ∧
      reMatch (l ++ o.value ++ t) = some (l', o, r) := by
  -- split off the trailing white space of the left side
  obtain ⟨w, hw, hw'⟩ := dropWhile_decomp isWs l.reverse
  set l0 := l.reverse.dropWhile isWs with hl0
  have hlw : l = l0.reverse ++ w.reverse := by
    have := congrArg List.reverse hw
    simpa using this
  have hl0ne : l0 ≠ [] := by
    intro h
    apply hne
    rw [strip_eq_nil]
    intro c hc
    rw [hlw, h] at hc
    exact hw' c (by simpa using hc)
  obtain ⟨z, zs, hz⟩ := List.exists_cons_of_ne_nil hl0ne
  have hzws : isWs z = false := by
    have := List.head?_dropWhile_not isWs l.reverse
    rw [← hl0, hz] at this
    simpa using this
  refine ⟨l0.reverse, w.reverse, hlw, fun c hc => hw' c (by simpa using hc), ?_⟩
  have hwr : ∀ c ∈ w.reverse, isWs c = true := fun c hc => hw' c (by simpa using hc)
  have hs : l ++ o.value ++ t = l0.reverse ++ (w.reverse ++ o.value ++ t) := by
    rw [hlw]; simp
  have hlen : l0.reverse.length = zs.length + 1 := by simp [hz]
  unfold reMatch
  have hdot : l.length ≤ ((l ++ o.value ++ t).takeWhile isDot).length := by
    rw [List.append_assoc, List.takeWhile_append_of_pos (fun c hc => (hl c hc).1)]
    simp
  apply findSome_range_map (k := zs.length)
  · have : l0.reverse.length ≤ l.length := by rw [hlw]; simp
    omega
  · rw [← hlen]
    conv_lhs => rw [hs]
    simp only [List.drop_left', List.take_left']
    rw [matchOp_complete hwr ht hr]; rfl
  · intro i hi
    have : matchOp ((l ++ o.value ++ t).drop (i + 1)) = none := by
      rw [hs, hz, List.reverse_cons, List.append_assoc]
      rw [List.drop_append_of_le_length (by simp; omega)]
      rw [List.singleton_append]
      apply matchOp_none
      · intro x hx
        have : x ∈ l := by
          rw [hlw, hz]
          simp only [List.reverse_cons, List.mem_append]
          exact Or.inl (Or.inl (List.mem_of_mem_drop hx))
        exact (hl x this).2
      · have : z ∈ l := by rw [hlw, hz]; simp
        exact (hl z this).2
      · exact hzws
    rw [this]; rfl

end Verif.Rel
