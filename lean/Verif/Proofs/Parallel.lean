import Verif.Model.Parallel
import Mathlib.Data.List.Basic
import Mathlib.Data.List.Nodup
import Mathlib.Data.List.Count
import Mathlib.Algebra.BigOperators.Intervals
import Mathlib.Algebra.Order.BigOperators.Group.List

/-! # Lemmas about interleavings -/

set_option linter.unusedSectionVars false

namespace Verif.Par

section
variable {V α β : Type}

/-- Executed alone, the program stays within the arrays, reads cells in `vis` only, writes cells in `mine` only, and ends with `Q`. -/
def wp (size : ℕ → ℕ) (vis mine : Loc → Prop) : Prog V α → Mem V → (α → Mem V → Prop) → Prop
  | .ret a, m, Q => Q a m
  | .load l k, m, Q => l.2 < size l.1 ∧ vis l ∧ wp size vis mine (k (m l)) m Q
  | .store l v k, m, Q => l.2 < size l.1 ∧ mine l ∧ wp size vis mine k (Function.update m l v) Q

/-- The number of accesses. -/
def cost : Prog V α → Mem V → ℕ
  | .ret _, _ => 0
  | .load l k, m => cost (k (m l)) m + 1
  | .store l v k, m => cost k (Function.update m l v) + 1

variable {size : ℕ → ℕ} {vis mine vis' mine' : Loc → Prop}

theorem wp_mono (p : Prog V α) {m : Mem V} {Q Q' : α → Mem V → Prop} (h : wp size vis mine p m Q)
    (hQ : ∀ a x, Q a x → Q' a x) : wp size vis mine p m Q' := by
  induction p generalizing m with
  | ret a => exact hQ _ _ h
  | load l k ih => exact ⟨h.1, h.2.1, ih _ h.2.2⟩
  | store l v k ih => exact ⟨h.1, h.2.1, ih h.2.2⟩

theorem wp_bind (p : Prog V α) (f : α → Prog V β) {m : Mem V} {Q : β → Mem V → Prop}
    (h : wp size vis mine p m fun a x => wp size vis mine (f a) x Q) :
    wp size vis mine (p.bind f) m Q := by
  induction p generalizing m with
  | ret a => exact h
  | load l k ih => exact ⟨h.1, h.2.1, ih _ h.2.2⟩
  | store l v k ih => exact ⟨h.1, h.2.1, ih h.2.2⟩

/-- What other threads do to cells that are not visible does not matter. -/
theorem wp_frame (p : Prog V α) {m m' : Mem V} {Q : α → Mem V → Prop}
    (h : wp size vis mine p m Q) (hv : ∀ l, vis l → vis' l) (hm : ∀ l, mine l → mine' l)
    (ha : ∀ l, vis l → m' l = m l) :
    wp size vis' mine' p m' fun a x' => ∃ x, Q a x ∧ (∀ l, vis l → x' l = x l) ∧
      ∀ l, ¬ mine l → x' l = m' l := by
  induction p generalizing m m' with
  | ret a => exact ⟨m, h, ha, fun _ _ => rfl⟩
  | load l k ih =>
    refine ⟨h.1, hv _ h.2.1, ?_⟩
    rw [ha l h.2.1]
    exact ih _ h.2.2 ha
  | store l v k ih =>
    refine ⟨h.1, hm _ h.2.1, ?_⟩
    refine wp_mono _ (ih h.2.2 (m' := Function.update m' l v) ?_) ?_
    · intro l' hl'
      by_cases he : l' = l
      · subst he; rw [Function.update_self, Function.update_self]
      · rw [Function.update_of_ne he, Function.update_of_ne he, ha l' hl']
    · rintro a x' ⟨x, h1, h2, h3⟩
      refine ⟨x, h1, h2, fun l' hl' => ?_⟩
      rw [h3 l' hl', Function.update_of_ne]
      rintro rfl
      exact hl' h.2.1

theorem wp_loop (n : ℕ) (f : ℕ → Prog V Unit) (I : ℕ → Mem V → Prop) {m : Mem V} (h0 : I 0 m)
    (hs : ∀ j < n, ∀ x, I j x → wp size vis mine (f j) x fun _ y => I (j + 1) y) :
    wp size vis mine (loop n f) m fun _ y => I n y := by
  induction n with
  | zero => exact h0
  | succ n ih =>
    refine wp_bind _ _ ?_
    exact wp_mono _ (ih fun j hj => hs j (by omega)) fun _ x hx => hs n (by omega) x hx

/-- A program that only reads. -/
def Reads (size : ℕ → ℕ) (vis : Loc → Prop) (p : Prog V α) (m : Mem V) (v : α) : Prop :=
  wp size vis (fun _ => False) p m fun a x => a = v ∧ x = m

theorem wp_mine (p : Prog V α) {m : Mem V} {Q : α → Mem V → Prop}
    (h : wp size vis mine p m Q) (hm : ∀ l, mine l → mine' l) : wp size vis mine' p m Q := by
  induction p generalizing m with
  | ret a => exact h
  | load l k ih => exact ⟨h.1, h.2.1, ih _ h.2.2⟩
  | store l v k ih => exact ⟨h.1, hm _ h.2.1, ih h.2.2⟩

theorem Reads.wp {p : Prog V α} {m : Mem V} {v : α} (h : Reads size vis p m v) (f : α → Prog V β)
    {Q : β → Mem V → Prop} (hf : wp size vis mine (f v) m Q) :
    wp size vis mine (p.bind f) m Q := by
  refine wp_bind _ _ ?_
  refine wp_mono _ (wp_mine _ h fun _ hx => hx.elim) ?_
  rintro a x ⟨rfl, rfl⟩
  exact hf

theorem reads_ret (m : Mem V) (v : α) : Reads size vis (.ret v : Prog V α) m v := ⟨rfl, rfl⟩

theorem reads_rd {m : Mem V} {a o : ℕ} (hb : o < size a) (hv : vis (a, o)) :
    Reads size vis (rd a o) m (m (a, o)) := ⟨hb, hv, rfl, rfl⟩

theorem reads_bind {p : Prog V α} {f : α → Prog V β} {m : Mem V} {v : α} {w : β}
    (h : Reads size vis p m v) (hf : Reads size vis (f v) m w) : Reads size vis (p.bind f) m w :=
  h.wp f hf

theorem reads_sum [AddCommMonoid V] (n : ℕ) (f : ℕ → Prog V V) (g : ℕ → V) {m : Mem V}
    (h : ∀ c < n, Reads size vis (f c) m (g c)) :
    Reads size vis (sumLoop n f) m (∑ c ∈ Finset.range n, g c) := by
  induction n with
  | zero => exact ⟨by simp, rfl⟩
  | succ n ih =>
    refine reads_bind (ih fun c hc => h c (by omega)) ?_
    refine reads_bind (h n (by omega)) ?_
    rw [Finset.sum_range_succ]
    exact reads_ret _ _

theorem reads_tab [Zero V] (n : ℕ) (f : ℕ → Prog V V) (g : ℕ → V) {m : Mem V}
    (h : ∀ c < n, Reads size vis (f c) m (g c)) :
    Reads size vis (tab n f) m fun c => if c < n then g c else 0 := by
  induction n with
  | zero => exact reads_ret _ _
  | succ n ih =>
    refine reads_bind (ih fun c hc => h c (by omega)) ?_
    refine reads_bind (h n (by omega)) ?_
    have : Function.update (fun c => if c < n then g c else 0) n (g n) =
        fun c => if c < n + 1 then g c else 0 := by
      funext c
      by_cases hc : c = n
      · subst hc; rw [Function.update_self, if_pos (by omega)]
      · rw [Function.update_of_ne hc]
        by_cases hn : c < n
        · rw [if_pos hn, if_pos (by omega)]
        · rw [if_neg hn, if_neg (by omega)]
    rw [this]
    exact reads_ret _ _

/-- Memory after a block was written. -/
def written (m : Mem V) (off n : ℕ) (g : ℕ → V) : Mem V := fun l =>
  if l.1 = 0 ∧ off ≤ l.2 ∧ l.2 < off + n then g (l.2 - off) else m l

theorem written_zero (m : Mem V) (off : ℕ) (g : ℕ → V) : written m off 0 g = m := by
  funext l
  unfold written
  rw [if_neg]
  omega

theorem written_succ (m : Mem V) (off n : ℕ) (g : ℕ → V) :
    Function.update (written m off n g) (0, off + n) (g n) = written m off (n + 1) g := by
  funext l
  unfold written
  obtain ⟨a, o⟩ := l
  by_cases he : ((a, o) : Loc) = (0, off + n)
  · rw [he, Function.update_self, if_pos ⟨rfl, by simp, by simp⟩]
    simp
  · rw [Function.update_of_ne he]
    simp only [Prod.mk.injEq] at he
    simp only
    by_cases hc : a = 0 ∧ off ≤ o ∧ o < off + n
    · rw [if_pos hc, if_pos ⟨hc.1, hc.2.1, by omega⟩]
    · rw [if_neg hc, if_neg (by omega)]

theorem written_at (m : Mem V) (off n : ℕ) (g : ℕ → V) (r : ℕ) (hr : r < n) :
    written m off n g (0, off + r) = g r := by
  unfold written
  rw [if_pos ⟨rfl, by simp, by simpa using hr⟩]
  simp

theorem written_off (m : Mem V) (off n : ℕ) (g : ℕ → V) (l : Loc)
    (hl : ¬ (l.1 = 0 ∧ off ≤ l.2 ∧ l.2 < off + n)) : written m off n g l = m l := by
  unfold written
  rw [if_neg hl]

/-- Writing a block whose numbers depend on cells outside the block. -/
theorem wp_fill (off n : ℕ) (f : ℕ → Prog V V) (g : ℕ → V) {m : Mem V}
    (h : ∀ c < n, ∀ x, (∀ l, ¬ (l.1 = 0 ∧ off ≤ l.2 ∧ l.2 < off + n) → x l = m l) →
      Reads size vis (f c) x (g c))
    (hb : off + n ≤ size 0) (hm : ∀ r < n, mine (0, off + r)) :
    wp size vis mine (fill off n f) m fun _ y => y = written m off n g := by
  refine wp_loop n _ (fun j y => y = written m off j g) (written_zero m off g).symm ?_
  rintro j hj x rfl
  refine (h j hj _ fun l hl => ?_).wp _ ?_
  · exact written_off _ _ _ _ _ fun hc => hl ⟨hc.1, hc.2.1, by omega⟩
  · refine ⟨by simp only; omega, hm j hj, ?_⟩
    exact written_succ m off j g

theorem wp_assign [Zero V] (off n : ℕ) (f : ℕ → Prog V V) (g : ℕ → V) {m : Mem V}
    (h : ∀ c < n, Reads size vis (f c) m (g c))
    (hb : off + n ≤ size 0) (hm : ∀ r < n, mine (0, off + r)) :
    wp size vis mine (assign off n f) m fun _ y => y = written m off n g := by
  refine (reads_tab n f g h).wp _ ?_
  refine wp_loop n _ (fun j y => y = written m off j g) (written_zero m off g).symm ?_
  rintro j hj x rfl
  refine ⟨by simp only; omega, hm j hj, ?_⟩
  show Function.update _ _ _ = _
  simp only [if_pos hj]
  exact written_succ m off j g

/-! ## Interleavings -/

/-- The state of an execution in which each thread sees its own, undisturbed memory. -/
structure Inv (size : ℕ → ℕ) (vis mine : ℕ → Loc → Prop) (Q : ℕ → Mem V → Prop) (m0 : Mem V)
    (c0 : ℕ → ℕ) (done : List ℕ) (s : State V) : Prop where
  own : ∀ w p, s.threads[w]? = some p → ∃ v, (∀ l, vis w l → s.mem l = v l) ∧
    wp size (vis w) (mine w) p v (fun _ => Q w) ∧ cost p v = c0 w - done.count w
  rest : ∀ l, (∀ w < s.threads.length, ¬ mine w l) → s.mem l = m0 l

theorem step_inv {size : ℕ → ℕ} {vis mine : ℕ → Loc → Prop} {Q : ℕ → Mem V → Prop} {m0 : Mem V} {c0 : ℕ → ℕ}
    (hsep : ∀ w w' l, w ≠ w' → mine w l → ¬ vis w' l)
    {done : List ℕ} {s : State V} (hi : Inv size vis mine Q m0 c0 done s) (w : ℕ) :
    ∃ s', stepAt size w s = some s' ∧ Inv size vis mine Q m0 c0 (done ++ [w]) s' ∧
      s'.threads.length = s.threads.length := by
  have hcount : ∀ u, u ≠ w → (done ++ [w]).count u = done.count u := by
    intro u hu
    rw [List.count_append, List.count_singleton, if_neg (by simpa using fun h => hu h.symm)]
    rfl
  have hcw : (done ++ [w]).count w = done.count w + 1 := by simp
  unfold stepAt
  cases hw : s.threads[w]? with
  | none =>
    refine ⟨s, rfl, ⟨fun u p hp => ?_, hi.rest⟩, rfl⟩
    have hu : u ≠ w := by rintro rfl; rw [hw] at hp; cases hp
    rw [hcount u hu]
    exact hi.own u p hp
  | some p =>
    obtain ⟨v, h1, h2, h3⟩ := hi.own w p hw
    have hlt : w < s.threads.length := by
      rw [List.getElem?_eq_some_iff] at hw
      exact hw.1
    cases p with
    | ret a =>
      refine ⟨s, rfl, ⟨fun u p hp => ?_, hi.rest⟩, rfl⟩
      by_cases hu : u = w
      · subst hu
        rw [hw] at hp
        obtain rfl := Option.some.inj hp
        refine ⟨v, h1, h2, ?_⟩
        rw [hcw]
        have : cost (Prog.ret a : Prog V Unit) v = 0 := rfl
        omega
      · rw [hcount u hu]
        exact hi.own u p hp
    | load l k =>
      refine ⟨_, if_pos h2.1, ⟨fun u p hp => ?_, fun l hl => hi.rest l fun w' hw' => hl w' (by simpa using hw')⟩, by simp⟩
      by_cases hu : u = w
      · subst hu
        simp only [List.getElem?_set_self hlt, Option.some.injEq] at hp
        subst hp
        refine ⟨v, h1, ?_, ?_⟩
        · rw [h1 l h2.2.1]
          exact h2.2.2
        · rw [hcw, h1 l h2.2.1]
          have : cost (Prog.load l k) v = cost (k (v l)) v + 1 := rfl
          omega
      · simp only [List.getElem?_set_ne (Ne.symm hu)] at hp
        rw [hcount u hu]
        exact hi.own u p hp
    | store l v' k =>
      refine ⟨_, if_pos h2.1, ⟨fun u p hp => ?_, fun l' hl' => ?_⟩, by simp⟩
      · by_cases hu : u = w
        · subst hu
          simp only [List.getElem?_set_self hlt, Option.some.injEq] at hp
          subst hp
          refine ⟨Function.update v l v', fun l' hl' => ?_, h2.2.2, ?_⟩
          · simp only
            by_cases he : l' = l
            · subst he; rw [Function.update_self, Function.update_self]
            · rw [Function.update_of_ne he, Function.update_of_ne he, h1 l' hl']
          · rw [hcw]
            have : cost (Prog.store l v' k) v = cost k (Function.update v l v') + 1 := rfl
            omega
        · simp only [List.getElem?_set_ne (Ne.symm hu)] at hp
          obtain ⟨x, g1, g2, g3⟩ := hi.own u p hp
          refine ⟨x, fun l' hl' => ?_, g2, by rw [hcount u hu]; exact g3⟩
          simp only
          rw [Function.update_of_ne, g1 l' hl']
          rintro rfl
          exact hsep w u l' (Ne.symm hu) h2.2.1 hl'
      · simp only [List.length_set] at hl'
        simp only
        rw [Function.update_of_ne, hi.rest l' hl']
        rintro rfl
        exact hl' w hlt h2.2.1

theorem run_inv {size : ℕ → ℕ} {vis mine : ℕ → Loc → Prop} {Q : ℕ → Mem V → Prop} {m0 : Mem V} {c0 : ℕ → ℕ}
    (hsep : ∀ w w' l, w ≠ w' → mine w l → ¬ vis w' l) (sched : List ℕ)
    {done : List ℕ} {s : State V} (hi : Inv size vis mine Q m0 c0 done s) :
    ∃ s', interleave size sched s = some s' ∧ Inv size vis mine Q m0 c0 (done ++ sched) s' ∧
      s'.threads.length = s.threads.length := by
  induction sched generalizing done s with
  | nil => exact ⟨s, rfl, by rw [List.append_nil]; exact hi, rfl⟩
  | cons w ws ih =>
    obtain ⟨s1, h1, h2, h3⟩ := step_inv hsep hi w
    obtain ⟨s2, g1, g2, g3⟩ := ih h2
    refine ⟨s2, ?_, ?_, g3.trans h3⟩
    · unfold interleave
      rw [h1]
      exact g1
    · rw [List.append_assoc] at g2
      exact g2

/-- One thread executes its iterations one after the other. -/
theorem wp_thread {size : ℕ → ℕ} {own : Loc → Option ℕ} {body : ℕ → Prog V Unit} {m0 : Mem V}
    {Q : ℕ → Mem V → Prop}
    (hQ : ∀ i x y, (∀ l, own l = some i ∨ own l = none → y l = x l) → Q i x → Q i y)
    (is : List ℕ) (hn : is.Nodup)
    (hb : ∀ i ∈ is, wp size (fun l => own l = some i ∨ own l = none) (fun l => own l = some i) (body i) m0
      fun _ => Q i)
    {vis mine : Loc → Prop} (hv : ∀ i ∈ is, ∀ l, own l = some i ∨ own l = none → vis l)
    (hm : ∀ i ∈ is, ∀ l, own l = some i → mine l)
    {m : Mem V} (ha : ∀ i ∈ is, ∀ l, own l = some i ∨ own l = none → m l = m0 l) :
    wp size vis mine (thread body is) m fun _ x =>
      (∀ i ∈ is, Q i x) ∧ ∀ l, (∀ i ∈ is, own l ≠ some i) → x l = m l := by
  induction is generalizing m with
  | nil => exact ⟨fun i hi => absurd hi List.not_mem_nil, fun _ _ => rfl⟩
  | cons i is ih =>
    have hni := List.nodup_cons.1 hn
    refine wp_bind _ _ ?_
    refine wp_mono _ (wp_frame _ (hb i List.mem_cons_self) (hv i List.mem_cons_self)
      (hm i List.mem_cons_self) (ha i List.mem_cons_self)) ?_
    rintro - x ⟨y, hy1, hy2, hy3⟩
    refine wp_mono _ (ih hni.2 (fun j hj => hb j (List.mem_cons_of_mem _ hj))
      (fun j hj => hv j (List.mem_cons_of_mem _ hj)) (fun j hj => hm j (List.mem_cons_of_mem _ hj))
      (m := x) ?_) ?_
    · intro j hj l hl
      rw [hy3 l, ha j (List.mem_cons_of_mem _ hj) l hl]
      rintro hc
      rcases hl with hl | hl
      · rw [hl] at hc
        obtain rfl := Option.some.inj hc
        exact hni.1 hj
      · rw [hl] at hc; cases hc
    · rintro - z ⟨hz1, hz2⟩
      have hzx : ∀ l, own l = some i ∨ own l = none → z l = x l := by
        intro l hl
        refine hz2 l fun j hj hc => ?_
        rcases hl with hl | hl
        · rw [hl] at hc
          obtain rfl := Option.some.inj hc
          exact hni.1 hj
        · rw [hl] at hc; cases hc
      refine ⟨fun j hj => ?_, fun l hl => ?_⟩
      · rcases List.mem_cons.1 hj with rfl | hj
        · refine hQ j y z (fun l hl => ?_) hy1
          rw [hzx l hl, hy2 l hl]
        · exact hz1 j hj
      · rw [hz2 l fun j hj => hl j (List.mem_cons_of_mem _ hj), hy3 l (hl i List.mem_cons_self)]

/-- The main lemma: iterations that write their own cells and read these and cells nobody writes. -/
theorem prange_correct {size : ℕ → ℕ} (own : Loc → Option ℕ) {body : ℕ → Prog V Unit} {m0 : Mem V}
    {Q : ℕ → Mem V → Prop} {N : ℕ}
    (hQ : ∀ i x y, (∀ l, own l = some i ∨ own l = none → y l = x l) → Q i x → Q i y)
    (hb : ∀ i < N, wp size (fun l => own l = some i ∨ own l = none) (fun l => own l = some i) (body i) m0
      fun _ => Q i)
    (plan : List (List ℕ)) (hp : plan.flatten.Perm (List.range N)) :
    (∀ sched, ∃ s, prange size body plan sched m0 = some s ∧
      (s.finished → (∀ i < N, Q i s.mem) ∧ ∀ l, (∀ i < N, own l ≠ some i) → s.mem l = m0 l)) ∧
    ∃ B, ∀ sched, (∀ w < plan.length, B ≤ sched.count w) →
      ∃ s, prange size body plan sched m0 = some s ∧ s.finished := by
  have hnd : plan.flatten.Nodup := hp.nodup_iff.2 List.nodup_range
  have hmem : ∀ i, i ∈ plan.flatten ↔ i < N := fun i => by rw [hp.mem_iff, List.mem_range]
  let mine : ℕ → Loc → Prop := fun w l => ∃ is, plan[w]? = some is ∧ ∃ i ∈ is, own l = some i
  let vis : ℕ → Loc → Prop := fun w l => mine w l ∨ own l = none
  let T : ℕ → Mem V → Prop := fun w x => ∀ is, plan[w]? = some is → ∀ i ∈ is, Q i x
  have hsep : ∀ w w' l, w ≠ w' → mine w l → ¬ vis w' l := by
    rintro w w' l hne ⟨is, his, i, hi, hl⟩ (⟨js, hjs, j, hj, hl'⟩ | hl')
    · rw [hl] at hl'
      obtain rfl := Option.some.inj hl'
      rw [List.nodup_flatten] at hnd
      have hpw := List.pairwise_iff_getElem.1 hnd.2
      rw [List.getElem?_eq_some_iff] at his hjs
      obtain ⟨a1, a2⟩ := his
      obtain ⟨b1, b2⟩ := hjs
      rcases Nat.lt_or_gt_of_ne hne with hlt | hlt
      · have := hpw w w' a1 b1 hlt
        rw [a2, b2] at this
        exact this hi hj
      · have := hpw w' w b1 a1 hlt
        rw [a2, b2] at this
        exact this hj hi
    · rw [hl] at hl'; cases hl'
  have hinit : Inv size vis mine T m0 (fun w => cost (thread body (plan.getD w [])) m0) []
      (⟨plan.map (thread body), m0⟩ : State V) := by
    refine ⟨fun w p hw => ?_, fun l _ => rfl⟩
    simp only [List.getElem?_map, Option.map_eq_some_iff] at hw
    obtain ⟨is, his, rfl⟩ := hw
    have hsub : ∀ i ∈ is, i < N := fun i hi =>
      (hmem i).1 (List.mem_flatten.2 ⟨is, List.mem_of_getElem? his, hi⟩)
    refine ⟨m0, fun _ _ => rfl, ?_, ?_⟩
    · refine wp_mono _ (wp_thread hQ is ?_ (fun i hi => hb i (hsub i hi)) (vis := vis w) (mine := mine w)
        ?_ ?_ fun _ _ _ _ => rfl) ?_
      · rw [List.nodup_flatten] at hnd
        exact hnd.1 is (List.mem_of_getElem? his)
      · intro i hi l hl
        rcases hl with hl | hl
        · exact .inl ⟨is, his, i, hi, hl⟩
        · exact .inr hl
      · exact fun i hi l hl => ⟨is, his, i, hi, hl⟩
      · rintro - x ⟨hx, -⟩ js hjs i hi
        rw [his] at hjs
        obtain rfl := Option.some.inj hjs
        exact hx i hi
    · simp only [List.getD_eq_getElem?_getD, his, Option.getD_some, List.count_nil, Nat.sub_zero]
  refine ⟨fun sched => ?_, ?_⟩
  · obtain ⟨s, h1, h2, h3⟩ := run_inv hsep sched hinit
    refine ⟨s, h1, fun hf => ⟨fun i hi => ?_, fun l hl => ?_⟩⟩
    · obtain ⟨is, his, hii⟩ := List.mem_flatten.1 ((hmem i).2 hi)
      obtain ⟨w, hw, rfl⟩ := List.mem_iff_getElem.1 his
      have hws : w < s.threads.length := by rw [h3]; simpa using hw
      have hret := hf _ (List.getElem_mem hws)
      obtain ⟨v, g1, g2, g3⟩ := h2.own w _ (List.getElem?_eq_getElem hws)
      rw [hret] at g2
      refine hQ i v s.mem (fun l hl => g1 l ?_) (g2 _ (List.getElem?_eq_getElem hw) i hii)
      rcases hl with hl | hl
      · exact .inl ⟨_, List.getElem?_eq_getElem hw, i, hii, hl⟩
      · exact .inr hl
    · refine h2.rest l fun w hw hm => ?_
      obtain ⟨is, his, i, hi, hli⟩ := hm
      exact hl i ((hmem i).1 (List.mem_flatten.2 ⟨is, List.mem_of_getElem? his, hi⟩)) hli
  · refine ⟨((List.range plan.length).map fun w => cost (thread body (plan.getD w [])) m0).sum, ?_⟩
    intro sched hs
    obtain ⟨s, h1, h2, h3⟩ := run_inv hsep sched hinit
    refine ⟨s, h1, fun p hpm => ?_⟩
    obtain ⟨w, hw, rfl⟩ := List.mem_iff_getElem.1 hpm
    have hwp : w < plan.length := by rw [h3] at hw; simpa using hw
    obtain ⟨v, g1, g2, g3⟩ := h2.own w _ (List.getElem?_eq_getElem hw)
    have hle : cost (thread body (plan.getD w [])) m0 ≤ sched.count w := by
      refine le_trans ?_ (hs w hwp)
      exact List.single_le_sum (by simp) _ (List.mem_map.2 ⟨w, List.mem_range.2 hwp, rfl⟩)
    have h0 : cost s.threads[w] v = 0 := by
      rw [g3]
      simp only [List.nil_append]
      omega
    cases hq : s.threads[w] with
    | ret a => rfl
    | load l k => rw [hq] at h0; exact absurd h0 (Nat.succ_ne_zero _)
    | store l v k => rw [hq] at h0; exact absurd h0 (Nat.succ_ne_zero _)

end

end Verif.Par
