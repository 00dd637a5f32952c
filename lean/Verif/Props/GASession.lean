import Verif.Proofs.GASession
import Verif.Props.GAObject

/-!
# An optimizer in use (C134)

Cycles of evolution, new parameters, resets and reads follow one another in any order on one optimizer; a call that
raises does not end the session.  The theorems say what the champion is.
-/

set_option linter.unusedSectionVars false

namespace Verif.GA.Props
open Verif.GA

section
variable {G X K D : Type*} [LinearOrder K]

/-- None of the resets in a session succeeds. -/
def NoReset (S : Subclass G X K D) (fnc : X → Py K) (o : Optimizer G X K) (acts : List (Act K D)) : Prop :=
  ∀ p d q, acts = p ++ Act.reset d :: q → (act S fnc (.reset d) (session S fnc p o)).1 ≠ .ok ()

/-- `s` is the optimizer right after a completed cycle of the session that no later successful reset made
forgotten. -/
def Seen (S : Subclass G X K D) (fnc : X → Py K) (o : Optimizer G X K) (acts : List (Act K D))
    (s : Optimizer G X K) : Prop :=
  ∃ p d q, acts = p ++ Act.evolve d :: q ∧ (act S fnc (.evolve d) (session S fnc p o)).1 = .ok () ∧
    s = session S fnc (p ++ [.evolve d]) o ∧ NoReset S fnc s q

theorem noReset_snoc {S : Subclass G X K D} {fnc : X → Py K} {o : Optimizer G X K} {q : List (Act K D)}
    {a : Act K D} : NoReset S fnc o (q ++ [a]) ↔ NoReset S fnc o q ∧
      ∀ d, a = .reset d → (act S fnc a (session S fnc q o)).1 ≠ .ok () := by
  constructor
  · intro h
    refine ⟨?_, ?_⟩
    · rintro p d r rfl
      exact h p d (r ++ [a]) (by simp)
    · rintro d rfl
      exact h q d [] rfl
  · rintro ⟨h1, h2⟩ p d r hr
    rcases List.eq_nil_or_concat r with rfl | ⟨r', b, rfl⟩
    · have := List.append_inj' hr rfl
      obtain ⟨rfl, hb⟩ := this
      cases hb
      exact h2 d rfl
    · rw [List.concat_eq_append, ← List.cons_append, ← List.append_assoc] at hr
      obtain ⟨rfl, hb⟩ := List.append_inj' hr rfl
      exact h1 p d r' rfl

theorem seen_snoc {S : Subclass G X K D} {fnc : X → Py K} {o s : Optimizer G X K} {l : List (Act K D)}
    {a : Act K D} : Seen S fnc o (l ++ [a]) s ↔
      (Seen S fnc o l s ∧ ∀ d, a = .reset d → (act S fnc a (session S fnc l o)).1 ≠ .ok ()) ∨
      (∃ d, a = .evolve d ∧ (act S fnc a (session S fnc l o)).1 = .ok () ∧
        s = session S fnc (l ++ [a]) o) := by
  constructor
  · rintro ⟨p, d, q, h, h1, h2, h3⟩
    rcases List.eq_nil_or_concat q with rfl | ⟨q', b, rfl⟩
    · obtain ⟨rfl, hb⟩ := List.append_inj' h rfl
      cases hb
      exact .inr ⟨d, rfl, h1, h2⟩
    · rw [List.concat_eq_append, ← List.cons_append, ← List.append_assoc] at h
      obtain ⟨rfl, hb⟩ := List.append_inj' h rfl
      cases hb
      rw [List.concat_eq_append, noReset_snoc] at h3
      refine .inl ⟨⟨p, d, q', rfl, h1, h2, h3.1⟩, ?_⟩
      intro d' hd'
      have := h3.2 d' hd'
      rw [h2, ← session_append] at this
      simpa using this
  · rintro (⟨⟨p, d, q, rfl, h1, h2, h3⟩, h4⟩ | ⟨d, rfl, h1, h2⟩)
    · refine ⟨p, d, q ++ [a], by simp, h1, h2, noReset_snoc.mpr ⟨h3, ?_⟩⟩
      intro d' hd'
      have := h4 d' hd'
      rw [h2, ← session_append]
      simpa using this
    · exact ⟨l, d, [], rfl, h1, h2, by intro p d q h; simp at h⟩

/-- what the champion is at any time -/
theorem champion_inv {S : Subclass G X K D} {fnc : X → Py K} {o : Optimizer G X K}
    (hc0 : o.run.champion = none) (hs0 : Consistent (problemOf S fnc o.solver) o.run)
    (acts : List (Act K D)) :
    (∀ c, (session S fnc acts o).run.champion = some c →
      (∃ s, Seen S fnc o acts s ∧ IsMember (problemOf S fnc o.solver) s.run c) ∧
      (session S fnc acts o).run.state.x = some c.phenotype ∧
      (session S fnc acts o).run.state.fn = some c.fitness) ∧
    ((session S fnc acts o).run.champion = none → ∀ s, ¬ Seen S fnc o acts s) := by
  induction acts using List.reverseRecOn with
  | nil =>
    refine ⟨fun c hc => ?_, fun _ s hs => ?_⟩
    · exact absurd (hc0.symm.trans hc) (by simp)
    · obtain ⟨p, d, q, h, -⟩ := hs
      simp at h
  | append_singleton l a ih =>
    obtain ⟨ih1, ih2⟩ := ih
    have hcons := session_consistent l hs0
    have hnp := session_nPop S fnc l o
    by_cases he : ∃ d, a = .evolve d ∧ (act S fnc a (session S fnc l o)).1 = .ok ()
    · obtain ⟨d, rfl, h⟩ := he
      obtain ⟨b, c', hm, -, -, hch, hx, hf, hcase⟩ := evolve_done hcons h
      have hsess : session S fnc (l ++ [.evolve d]) o =
          (Optimizer.evolve S fnc d (session S fnc l o)).2 := session_snoc S fnc l _ o
      rw [hsess]
      refine ⟨?_, fun hn => absurd (hn.symm.trans hch) (by simp)⟩
      intro c hc
      obtain rfl : c' = c := Option.some.inj (hch.symm.trans hc)
      refine ⟨?_, hx, hf⟩
      have hnew : c' = { b with age := 1 } → ∃ s, Seen S fnc o (l ++ [.evolve d]) s ∧
          IsMember (problemOf S fnc o.solver) s.run c' := by
        rintro rfl
        refine ⟨_, seen_snoc.mpr (.inr ⟨d, rfl, h, rfl⟩), ?_⟩
        rw [hsess]
        have hm' := isMember_congr (sv' := o.solver) hnp.symm rfl hm
        obtain ⟨j, xs, a1, a2, a3, a4⟩ := hm'
        exact ⟨j, xs, a1, a2, a3, a4⟩
      rcases hcase with ⟨-, h2⟩ | ⟨-, -, -, h2⟩ | ⟨b', hb', -, h2⟩
      · exact hnew h2
      · exact hnew h2
      · obtain ⟨⟨s, hs, hms⟩, -, -⟩ := ih1 b' hb'
        refine ⟨s, seen_snoc.mpr (.inl ⟨hs, by simp⟩), ?_⟩
        obtain ⟨j, xs, a1, a2, a3, a4⟩ := hms
        rw [h2]
        exact ⟨j, xs, a1, a2, a3, a4⟩
    · by_cases hr : ∃ d, a = .reset d ∧ (act S fnc a (session S fnc l o)).1 = .ok ()
      · obtain ⟨d, rfl, h⟩ := hr
        have hn := (act_reset h).1
        rw [session_snoc]
        refine ⟨fun c hc => absurd (hn.symm.trans hc) (by simp), fun _ s hs => ?_⟩
        rcases seen_snoc.mp hs with ⟨-, h2⟩ | ⟨d', hd', -⟩
        · exact h2 d rfl h
        · cases hd'
      · have he' : ∀ d, a = .evolve d → (act S fnc a (session S fnc l o)).1 ≠ .ok () :=
          fun d hd h => he ⟨d, hd, h⟩
        have hr' : ∀ d, a = .reset d → (act S fnc a (session S fnc l o)).1 ≠ .ok () :=
          fun d hd h => hr ⟨d, hd, h⟩
        have hk := act_kept he' hr'
        rw [session_snoc]
        refine ⟨fun c hc => ?_, fun hn s hs => ?_⟩
        · rw [hk.champion] at hc
          obtain ⟨⟨s, hs, hm⟩, hx, hf⟩ := ih1 c hc
          exact ⟨⟨s, seen_snoc.mpr (.inl ⟨hs, hr'⟩), hm⟩, hk.x.trans hx, hk.fn.trans hf⟩
        · rw [hk.champion] at hn
          rcases seen_snoc.mp hs with ⟨h1, -⟩ | ⟨d, hd, h1, -⟩
          · exact ih2 hn s h1
          · exact he' d hd h1

/-- C134, who is champion: in any session on a constructed optimizer – cycles, new parameters in any direction,
resets and reads, calls that raise among them – there is a champion exactly if a cycle was completed since the
last successful reset; it is a member of the population of such a cycle with its objective value, and `state.x` and
`state.fun` are its coordinates and its value. -/
theorem C134_champion (S : Subclass G X K D) (fnc : X → Py K) (n : ℤ) (p : Params K) (d : D)
    (o : Optimizer G X K) (ho : construct S n p d = .ok o) (acts : List (Act K D)) :
    (∀ c, (session S fnc acts o).run.champion = some c →
      (∃ s, Seen S fnc o acts s ∧
        Member (problemOf S fnc o.solver) s.run c.genotype c.phenotype c.fitness) ∧
      (session S fnc acts o).run.state.x = some c.phenotype ∧
      (session S fnc acts o).run.state.fn = some c.fitness) ∧
    ((session S fnc acts o).run.champion = none ↔ ¬ ∃ s, Seen S fnc o acts s) := by
  obtain ⟨h1, h2, -⟩ := construct_fresh ho
  obtain ⟨h3, h4⟩ := champion_inv (fnc := fnc) h1 (h2 _) acts
  refine ⟨h3, fun h ⟨s, hs⟩ => h4 h s hs, fun h => ?_⟩
  cases hc : (session S fnc acts o).run.champion with
  | none => rfl
  | some c => exact absurd ⟨_, (h3 c hc).1.choose_spec.1⟩ h

/-- the comparison with the champions to come, while the two directions are kept -/
theorem best_inv {S : Subclass G X K D} {fnc : X → Py K} {o : Optimizer G X K} {m m' : Bool}
    (hs0 : Consistent (problemOf S fnc o.solver) o.run) (acts : List (Act K D))
    (hdir : ∀ p, p <+: acts → (session S fnc p o).solver.celebrateLt = m ∧
      (session S fnc p o).solver.params.minimize = m') :
    (∀ s, Seen S fnc o acts s → ∃ c b, (session S fnc acts o).run.champion = some c ∧
      IsMember (problemOf S fnc o.solver) s.run b ∧
      (∀ g x y, Member (problemOf S fnc o.solver) s.run g x y → betterThan m' y b.fitness = false) ∧
      betterThan m b.fitness c.fitness = false) ∧
    (∀ c0, o.run.champion = some c0 → NoReset S fnc o acts →
      ∃ c, (session S fnc acts o).run.champion = some c ∧ betterThan m c0.fitness c.fitness = false) := by
  induction acts using List.reverseRecOn with
  | nil =>
    refine ⟨fun s hs => ?_, fun c0 hc _ => ⟨c0, hc, betterThan_irrefl _ _⟩⟩
    obtain ⟨p, d, q, h, -⟩ := hs
    simp at h
  | append_singleton l a ih =>
    obtain ⟨ih1, ih2⟩ := ih (fun p hp => hdir p (hp.trans (List.prefix_append _ _)))
    have hcons := session_consistent l hs0
    have hnp := session_nPop S fnc l o
    obtain ⟨hm1, hm2⟩ := hdir l (List.prefix_append _ _)
    by_cases he : ∃ d, a = .evolve d ∧ (act S fnc a (session S fnc l o)).1 = .ok ()
    · obtain ⟨d, rfl, h⟩ := he
      obtain ⟨b, c', hm, hnb, -, hch, -, -, hcase⟩ := evolve_done hcons h
      have hsess : session S fnc (l ++ [.evolve d]) o =
          (Optimizer.evolve S fnc d (session S fnc l o)).2 := session_snoc S fnc l _ o
      rw [hm1] at hcase
      -- the old champion is not better than the new one
      have hold : ∀ b', (session S fnc l o).run.champion = some b' →
          betterThan m b'.fitness c'.fitness = false := by
        intro b' hb'
        rcases hcase with ⟨h1, -⟩ | ⟨b'', h1, h2, h3⟩ | ⟨b'', h1, h2, h3⟩
        · rw [hb'] at h1; cases h1
        · obtain rfl : b' = b'' := Option.some.inj (hb'.symm.trans h1)
          rw [h3]; exact betterThan_asymm h2
        · obtain rfl : b' = b'' := Option.some.inj (hb'.symm.trans h1)
          rw [h3]; exact betterThan_irrefl _ _
      have hnew : betterThan m b.fitness c'.fitness = false := by
        rcases hcase with ⟨-, h3⟩ | ⟨-, -, -, h3⟩ | ⟨b'', h1, h2, h3⟩
        · rw [h3]; exact betterThan_irrefl _ _
        · rw [h3]; exact betterThan_irrefl _ _
        · rw [h3]; exact h2
      refine ⟨fun s hs => ?_, fun c0 hc0 hno => ?_⟩
      · rcases seen_snoc.mp hs with ⟨h1, -⟩ | ⟨d', hd', -, rfl⟩
        · obtain ⟨c, b', g1, g2, g3, g4⟩ := ih1 s h1
          exact ⟨c', b', by rw [hsess]; exact hch, g2, g3, not_betterThan_trans g4 (hold c g1)⟩
        · refine ⟨c', b, by rw [hsess]; exact hch, ?_, ?_, hnew⟩
          · rw [hsess]; exact isMember_congr hnp.symm rfl hm
          · rw [hsess]
            rintro g x y ⟨j, xs, a1, a2, a3, a4⟩
            have := hnb xs (by simp only [problemOf] at a1 ⊢; rw [hnp]; exact a1) x
              (List.mem_of_getElem? a3) y a4
            rw [← hm2]; exact this
      · obtain ⟨c, g1, g2⟩ := ih2 c0 hc0 (noReset_snoc.mp hno).1
        exact ⟨c', by rw [hsess]; exact hch, not_betterThan_trans g2 (hold c g1)⟩
    · have he' : ∀ d, a = .evolve d → (act S fnc a (session S fnc l o)).1 ≠ .ok () :=
        fun d hd h => he ⟨d, hd, h⟩
      by_cases hr : ∃ d, a = .reset d ∧ (act S fnc a (session S fnc l o)).1 = .ok ()
      · obtain ⟨d, rfl, h⟩ := hr
        refine ⟨fun s hs => ?_, fun c0 hc0 hno => absurd h ((noReset_snoc.mp hno).2 d rfl)⟩
        rcases seen_snoc.mp hs with ⟨-, h2⟩ | ⟨d', hd', -⟩
        · exact absurd h (h2 d rfl)
        · cases hd'
      · have hr' : ∀ d, a = .reset d → (act S fnc a (session S fnc l o)).1 ≠ .ok () :=
          fun d hd h => hr ⟨d, hd, h⟩
        have hk := act_kept he' hr'
        rw [session_snoc]
        refine ⟨fun s hs => ?_, fun c0 hc0 hno => ?_⟩
        · rcases seen_snoc.mp hs with ⟨h1, -⟩ | ⟨d, hd, h1, -⟩
          · obtain ⟨c, b, g1, g2⟩ := ih1 s h1
            exact ⟨c, b, hk.champion.trans g1, g2⟩
          · exact absurd h1 (he' d hd)
        · obtain ⟨c, g1, g2⟩ := ih2 c0 hc0 (noReset_snoc.mp hno).1
          exact ⟨c, hk.champion.trans g1, g2⟩

/-- The last call, if there was any, was a `set_solution_params` that was accepted. -/
def Accepted (S : Subclass G X K D) (fnc : X → Py K) (o : Optimizer G X K) (pre : List (Act K D)) : Prop :=
  pre = [] ∨ ∃ p kw, pre = p ++ [.setParams kw] ∧
    (act S fnc (.setParams kw) (session S fnc p o)).1 = .ok ()

theorem accepted_direction {S : Subclass G X K D} {fnc : X → Py K} {o : Optimizer G X K}
    (h0 : o.solver.celebrateLt = o.solver.params.minimize) {pre : List (Act K D)}
    (h : Accepted S fnc o pre) :
    (session S fnc pre o).solver.celebrateLt = (session S fnc pre o).solver.params.minimize := by
  rcases h with rfl | ⟨p, kw, rfl, h⟩
  · exact h0
  · rw [session_snoc]
    obtain ⟨-, h2, h3, -⟩ := setSolutionParams_nPop (session S fnc p o).solver kw
    simp only [act] at h ⊢
    rw [h2, h3 h]

theorem kept_direction {S : Subclass G X K D} {fnc : X → Py K} {o : Optimizer G X K} {m : Bool}
    (h1 : o.solver.celebrateLt = m) (h2 : o.solver.params.minimize = m) (acts : List (Act K D))
    (hk : ∀ kw, Act.setParams kw ∈ acts → kw.minimize = none ∨ kw.minimize = some m) :
    (session S fnc acts o).solver.celebrateLt = m ∧
      (session S fnc acts o).solver.params.minimize = m := by
  induction acts using List.reverseRecOn with
  | nil => exact ⟨h1, h2⟩
  | append_singleton l a ih =>
    obtain ⟨g1, g2⟩ := ih (fun kw h => hk kw (List.mem_append_left _ h))
    rw [session_snoc]
    cases a with
    | evolve d => simp only [act, evolve_solver]; exact ⟨g1, g2⟩
    | setParams kw =>
      obtain ⟨-, h3, h4, h5⟩ := setSolutionParams_nPop (session S fnc l o).solver kw
      have h6 : kw.minimize.getD (session S fnc l o).solver.params.minimize = m := by
        rcases hk kw (by simp) with h | h <;> rw [h]
        · exact g2
        · rfl
      rw [h6] at h3 h4
      simp only [act]
      refine ⟨?_, h3⟩
      by_cases hh : (setSolutionParams (session S fnc l o).solver kw).1 = .ok ()
      · exact h4 hh
      · rw [h5 hh]; exact g1
    | _ => exact ⟨g1, g2⟩

/-- C134, the champion is the best, the part that holds: from the construction or from an accepted call of
`set_solution_params` on, whatever had been done before, and as long as nothing asks for the other direction (calls
that raise, other parameters, resets and reads may occur): no member of any completed cycle since the last successful
reset beats the champion, nor does the champion of before.
Missing: members evaluated before a change of direction (`C134_turn_violated`) and changes of direction in a call that is
rejected (`C134_rejected_turn`). -/
theorem C134_best_partial (S : Subclass G X K D) (fnc : X → Py K) (n : ℤ) (p : Params K) (d : D)
    (o : Optimizer G X K) (ho : construct S n p d = .ok o) (pre post : List (Act K D))
    (hpre : Accepted S fnc o pre) (m : Bool)
    (hm : (session S fnc pre o).solver.params.minimize = m)
    (hpost : ∀ kw, Act.setParams kw ∈ post → kw.minimize = none ∨ kw.minimize = some m) :
    (session S fnc (pre ++ post) o).solver.params.minimize = m ∧
    (∀ s, Seen S fnc (session S fnc pre o) post s →
      ∃ c, (session S fnc (pre ++ post) o).run.champion = some c ∧
        ∀ g x y, Member (problemOf S fnc o.solver) s.run g x y → ¬ Beats m y c.fitness) ∧
    (∀ c0, (session S fnc pre o).run.champion = some c0 → NoReset S fnc (session S fnc pre o) post →
      ∃ c, (session S fnc (pre ++ post) o).run.champion = some c ∧ ¬ Beats m c0.fitness c.fitness) := by
  obtain ⟨-, h2, h3⟩ := construct_fresh ho
  have hc := accepted_direction h3 hpre
  have hcons := session_consistent pre (h2 (problemOf S fnc o.solver))
  have hnp := session_nPop S fnc pre o
  have hdir : ∀ q, q <+: post → (session S fnc q (session S fnc pre o)).solver.celebrateLt = m ∧
      (session S fnc q (session S fnc pre o)).solver.params.minimize = m :=
    fun q hq => kept_direction (hc.trans hm) hm q (fun kw h => hpost kw (hq.subset h))
  obtain ⟨g1, g2⟩ := best_inv hcons post hdir
  rw [session_append]
  refine ⟨(hdir post List.prefix_rfl).2, fun s hs => ?_, fun c0 h0 hno => ?_⟩
  · obtain ⟨c, b, e1, -, e3, e4⟩ := g1 s hs
    refine ⟨c, e1, ?_⟩
    rintro g x y ⟨j, xs, a1, a2, a3, a4⟩
    rw [beats_iff, not_betterThan_trans (e3 g x y ⟨j, xs, ?_, a2, a3, a4⟩) e4]
    · simp
    · simp only [problemOf] at a1 ⊢; rw [hnp]; exact a1
  · obtain ⟨c, e1, e2⟩ := g2 c0 h0 hno
    exact ⟨c, e1, by rw [beats_iff, e2]; simp⟩

/-- C134, what a rejected change of direction leads to: an optimizer that works in the direction `m` is asked for the
other one in a call that raises.  From then on, until parameters are set again, each completed cycle puts forward its
best member in the new, that is its worst in the old direction, and the champion is only compared with these, in
the old direction. -/
theorem C134_rejected_turn (S : Subclass G X K D) (fnc : X → Py K) (n : ℤ) (p : Params K) (d : D)
    (o : Optimizer G X K) (ho : construct S n p d = .ok o) (pre post : List (Act K D))
    (hpre : Accepted S fnc o pre) (m : Bool)
    (hm : (session S fnc pre o).solver.params.minimize = m) (kw : Kwargs K)
    (hkw : kw.minimize = some !m)
    (hrej : (act S fnc (.setParams kw) (session S fnc pre o)).1 ≠ .ok ())
    (hpost : ∀ kw, Act.setParams kw ∉ post) :
    (session S fnc (pre ++ .setParams kw :: post) o).solver.params.minimize = !m ∧
    (∀ s, Seen S fnc (session S fnc (pre ++ [.setParams kw]) o) post s →
      ∃ c, (session S fnc (pre ++ .setParams kw :: post) o).run.champion = some c ∧
        ∃ g x y, Member (problemOf S fnc o.solver) s.run g x y ∧ ¬ Beats m y c.fitness ∧
          ∀ g' x' y', Member (problemOf S fnc o.solver) s.run g' x' y' → ¬ Beats (!m) y' y) := by
  obtain ⟨-, h2, h3⟩ := construct_fresh ho
  have hc := accepted_direction h3 hpre
  have hcons := session_consistent (pre ++ [.setParams kw]) (h2 (problemOf S fnc o.solver))
  have hnp := session_nPop S fnc (pre ++ [.setParams kw]) o
  have happ : pre ++ .setParams kw :: post = (pre ++ [.setParams kw]) ++ post := by simp
  have hstart : (session S fnc (pre ++ [.setParams kw]) o).solver.celebrateLt = m ∧
      (session S fnc (pre ++ [.setParams kw]) o).solver.params.minimize = !m := by
    rw [session_snoc]
    obtain ⟨-, k1, -, k2⟩ := setSolutionParams_nPop (session S fnc pre o).solver kw
    refine ⟨(k2 hrej).trans (hc.trans hm), ?_⟩
    simp only [act]
    rw [k1, hkw]; rfl
  have hdir : ∀ q, q <+: post →
      (session S fnc q (session S fnc (pre ++ [.setParams kw]) o)).solver.celebrateLt = m ∧
      (session S fnc q (session S fnc (pre ++ [.setParams kw]) o)).solver.params.minimize = !m := by
    intro q
    induction q using List.reverseRecOn with
    | nil => intro _; exact hstart
    | append_singleton l a ih =>
      intro hq
      have h := ih ((List.prefix_append _ _).trans hq)
      rw [session_snoc]
      cases a with
      | evolve d => simp only [act, evolve_solver]; exact h
      | setParams kw' => exact absurd (hq.subset (by simp)) (hpost kw')
      | _ => exact h
  obtain ⟨g1, -⟩ := best_inv hcons post hdir
  rw [happ, session_append]
  refine ⟨(hdir post List.prefix_rfl).2, fun s hs => ?_⟩
  obtain ⟨c, b, e1, ⟨j, xs, a1, a2, a3, a4⟩, e3, e4⟩ := g1 s hs
  refine ⟨c, e1, b.genotype, b.phenotype, b.fitness, ⟨j, xs, ?_, a2, a3, a4⟩, ?_, ?_⟩
  · simp only [problemOf] at a1 ⊢; rw [← hnp]; exact a1
  · rw [beats_iff, e4]; simp
  · rintro g' x' y' ⟨j', xs', b1, b2, b3, b4⟩
    rw [beats_iff, e3 g' x' y' ⟨j', xs', ?_, b2, b3, b4⟩]
    · simp
    · simp only [problemOf] at b1 ⊢; rw [hnp]; exact b1

/-- Two optimizers differ at most in the number of iterations, the status and the messages. -/
def SameWork (o o' : Optimizer G X K) : Prop :=
  o.solver = o'.solver ∧ o.run.genotypes = o'.run.genotypes ∧ o.run.phenotypes = o'.run.phenotypes ∧
    o.run.fitness = o'.run.fitness ∧ o.run.champion = o'.run.champion ∧ o.run.phase = o'.run.phase ∧
    o.run.state.x = o'.run.state.x ∧ o.run.state.fn = o'.run.state.fn ∧
    o.run.state.n_fev = o'.run.state.n_fev

theorem sameWork_of_strip {sv : Solver K} {r r' : Ga G X K} (h : strip r = strip r') :
    SameWork (⟨sv, r⟩ : Optimizer G X K) ⟨sv, r'⟩ := by
  obtain ⟨g, p, f, c, st, su, ph⟩ := r
  obtain ⟨g', p', f', c', st', su', ph'⟩ := r'
  simp only [strip, Ga.mk.injEq, OptState.mk.injEq] at h
  obtain ⟨rfl, rfl, rfl, rfl, ⟨h1, h2, h3, -⟩, -, rfl⟩ := h
  exact ⟨rfl, rfl, rfl, rfl, rfl, rfl, h1, h2, h3⟩

/-- C134, `solve` is a session: a call of `solve` that returns has the effect of `reset` (unless it recycles),
`set_solution_params` with its keywords and a positive number of cycles, all of which succeed, one after the other; it
returns the champion.  So the other statements hold for `solve` with changes of direction, too. -/
theorem C134_solve (S : Subclass G X K D) (fnc : X → Py K) (o o' : Optimizer G X K) (recycle : Bool)
    (kw : Kwargs K) (d : D) (ds : ℕ → D) (fuel : ℕ) (r : Option (Genom G X K))
    (h : o.solve S fnc recycle kw d ds fuel = some (.ok r, o')) :
    r = o'.run.champion ∧ ∃ k ≥ 1,
      let start := (if recycle then [] else [Act.reset d]) ++ [Act.setParams kw]
      let cycles := (List.range k).map fun i => Act.evolve (ds i)
      SameWork (session S fnc (start ++ cycles) o) o' ∧
      ∀ pre a post, start ++ cycles = pre ++ a :: post →
        (act S fnc a (session S fnc pre o)).1 = .ok () := by
  unfold Optimizer.solve at h
  -- the reset
  obtain ⟨run, hrun, hres, hresok⟩ : ∃ run : Ga G X K,
      (if recycle then (.ok (), o.run) else
        reset (S.populate o.solver.nPop o.solver.params d) o.run) = ((.ok () : Py Unit), run) ∧
      session S fnc (if recycle then [] else [Act.reset d]) o = ⟨o.solver, run⟩ ∧
      (recycle = false → (act S fnc (.reset d) o).1 = .ok ()) := by
    cases recycle with
    | true => exact ⟨o.run, rfl, rfl, fun h => absurd h (by simp)⟩
    | false =>
      simp only [Bool.false_eq_true, if_false] at h ⊢
      cases hp : S.populate o.solver.nPop o.solver.params d with
      | error e => simp only [hp, reset] at h; simp at h
      | ok gs =>
        refine ⟨_, rfl, ?_, fun _ => ?_⟩
        · simp only [session, List.foldl, act, hp]; rfl
        · simp only [act, hp]; rfl
  rw [hrun] at h
  simp only at h
  rcases hset : setSolutionParams o.solver kw with ⟨r1, sv⟩
  rw [hset] at h
  cases r1 with
  | error e => simp at h
  | ok u =>
    simp only at h
    have hsv : sv.celebrateLt = sv.params.minimize := by
      obtain ⟨-, h2, h3, -⟩ := setSolutionParams_nPop o.solver kw
      rw [hset] at h2 h3
      rw [h2, h3 rfl]
    split at h
    · cases h
    · simp at h
    · rename_i run' hbody
      simp only [Option.some.injEq, Prod.mk.injEq, Except.ok.injEq] at h
      obtain ⟨rfl, rfl⟩ := h
      refine ⟨rfl, ?_⟩
      unfold solveBody at hbody
      simp only at hbody
      split at hbody
      · cases hbody
      · rename_i x t hl
        simp only [Option.some.injEq, Prod.mk.injEq, true_and] at hbody
        obtain ⟨k, st, e0, hall, hend⟩ := solveLoop_trace _ _ _ _ _ hl
        simp only [Nat.zero_add] at hall hend
        rcases hend with ⟨e, he, -⟩ | ⟨y, hy, hp⟩
        · cases he
        · obtain ⟨u', b, p1, p2, -⟩ := solvePass_some hp
          let st' : ℕ → Ga G X K := fun j => if j ≤ k then st j else t
          have hstep : ∀ j < k + 1, ∃ u, evolve1 (problemOf S fnc sv)
              (S.breed sv.nPop sv.params (ds j)) (st' j) = (.ok (), u) ∧ st' (j + 1) = bump u := by
            intro j hj
            by_cases hjk : j < k
            · obtain ⟨v, b', q1, q2, -⟩ := solvePass_none.mp (hall j hjk)
              refine ⟨v, ?_, ?_⟩
              · simp only [st', if_pos hjk.le]; exact q1
              · simp only [st', if_pos (show j + 1 ≤ k by omega)]; exact q2
            · obtain rfl : j = k := by omega
              refine ⟨u', ?_, ?_⟩
              · simp only [st', le_refl, if_true]; exact p1
              · simp only [st', if_neg (show ¬ j + 1 ≤ j by omega)]; exact p2
          have h0 : strip (st' 0) = strip run := by
            simp only [st', Nat.zero_le, if_true, e0]; rfl
          obtain ⟨rr, c1, c2, c3⟩ := cycles_strip (s := run) hsv h0 (k + 1) hstep
          have hstart : session S fnc ((if recycle then [] else [Act.reset d]) ++ [Act.setParams kw]) o =
              ⟨sv, run⟩ := by
            rw [session_snoc, hres]
            simp only [act, hset]
          refine ⟨k + 1, by omega, ?_, ?_⟩
          · rw [session_append, hstart, c1]
            apply sameWork_of_strip
            rw [c2, ← hbody]
            simp only [st', if_neg (show ¬ k + 1 ≤ k by omega)]
            rfl
          · intro pre a post hsplit
            rcases List.append_eq_append_iff.mp hsplit with ⟨w, hw1, hw2⟩ | ⟨w, hw1, hw2⟩
            · -- the call is a cycle
              have hl : ∃ j < k + 1, w = (List.range j).map (fun i => Act.evolve (ds i)) ∧
                  a = .evolve (ds j) := by
                have hlen := congrArg List.length hw2
                simp only [List.length_map, List.length_range, List.length_append, List.length_cons] at hlen
                refine ⟨w.length, by omega, ?_, ?_⟩
                · have := congrArg (List.take w.length) hw2
                  rw [List.take_left, ← List.map_take, List.take_range, Nat.min_eq_left (by omega)] at this
                  exact this.symm
                · have := congrArg (fun l => l[w.length]?) hw2
                  simp only [List.getElem?_map, List.getElem?_append_right (le_refl _), Nat.sub_self,
                    List.getElem?_cons_zero] at this
                  rw [List.getElem?_range (by omega)] at this
                  simp only [Option.map_some, Option.some.injEq] at this
                  exact this.symm
              obtain ⟨j, hj, rfl, rfl⟩ := hl
              rw [hw1, session_append, hstart]
              exact c3 j hj
            · -- the call is `reset` or `set_solution_params`
              cases w with
              | nil =>
                rw [List.append_nil] at hw1
                simp only [List.nil_append] at hw2
                rw [← hw1, hstart]
                have := congrArg List.head? hw2
                rw [List.range_succ_eq_map] at this
                simp only [List.head?_cons, List.map_cons, Option.some.injEq] at this
                rw [this]
                exact c3 0 (by omega)
              | cons w0 ws =>
                simp only [List.cons_append, List.cons.injEq] at hw2
                obtain ⟨rfl, -⟩ := hw2
                cases recycle with
                | true =>
                  simp only [if_true, List.nil_append] at hw1
                  have hpre : pre = [] := by
                    have := congrArg List.length hw1
                    simp only [List.length_append, List.length_cons, List.length_nil] at this
                    exact List.length_eq_zero_iff.mp (by omega)
                  subst hpre
                  simp only [List.nil_append, List.cons.injEq] at hw1
                  obtain ⟨rfl, -⟩ := hw1
                  simp only [session, List.foldl, act, hset]
                | false =>
                  simp only [Bool.false_eq_true, if_false, List.cons_append, List.nil_append] at hw1
                  cases pre with
                  | nil =>
                    simp only [List.nil_append, List.cons.injEq] at hw1
                    obtain ⟨rfl, -⟩ := hw1
                    exact hresok rfl
                  | cons q qs =>
                    simp only [List.cons_append, List.cons.injEq] at hw1
                    obtain ⟨rfl, hq⟩ := hw1
                    have hqs : qs = [] := by
                      have := congrArg List.length hq
                      simp only [List.length_append, List.length_cons, List.length_nil] at this
                      exact List.length_eq_zero_iff.mp (by omega)
                    subst hqs
                    simp only [List.nil_append, List.cons.injEq] at hq
                    obtain ⟨rfl, -⟩ := hq
                    simp only [Bool.false_eq_true, if_false] at hres
                    rw [hres]
                    simp only [act, hset]
      · simp at hbody

end

/-! ### Witnesses -/

section Demo

/-- the members of the first cycle are 0, 1, 2, 3 with the values 25, 16, 9, 4; those of the second 1, 2, 3, 4 with 16,
9, 4, 1 -/
def demoOptimizer : Optimizer ℤ ℤ ℤ :=
  ⟨⟨4, demoParams, true⟩, ⟨[0, 1, 2, 3], none, none, none, {}, .initialized, .primed⟩⟩

example : construct demoSub 3 demoParams () = .ok demoOptimizer := rfl

/-- C134: two cycles, the first as a minimization, the second as a maximization, both calls accepted: the champion is
the best of the second population, although the first, seen since the last reset, too, had a larger value. -/
theorem C134_turn_violated :
    ∃ (o : Optimizer ℤ ℤ ℤ) (acts : List (Act ℤ Unit)) (c : Genom ℤ ℤ ℤ) (s : Optimizer ℤ ℤ ℤ),
      construct demoSub 3 demoParams () = .ok o ∧
      (∀ pre a post, acts = pre ++ a :: post →
        (act demoSub demoFnc a (session demoSub demoFnc pre o)).1 = .ok ()) ∧
      (session demoSub demoFnc acts o).run.champion = some c ∧
      Seen demoSub demoFnc o acts s ∧
      ∃ g x y, Member (problemOf demoSub demoFnc o.solver) s.run g x y ∧
        Beats (session demoSub demoFnc acts o).solver.params.minimize y c.fitness := by
  refine ⟨demoOptimizer, [.evolve (), .setParams { minimize := some false }, .evolve ()], ⟨1, 1, 16, 1, 0⟩, _, rfl, ?_,
    by rfl, ⟨[], (), _, rfl, by rfl, rfl, ?_⟩, 0, 0, 25, ⟨0, [0, 1, 2, 3], by rfl, by rfl, by rfl, by rfl⟩, ?_⟩
  · intro pre a post h
    match pre, h with
    | [], h => cases h; rfl
    | [_], h => cases h; rfl
    | [_, _], h => cases h; rfl
    | _ :: _ :: _ :: p, h => simp at h
  · intro p d q h
    match p, h with
    | [], h => cases h
    | [_], h => cases h
    | _ :: _ :: p, h => simp at h
  · show ((16 : ℤ) < 25)
    decide

/-- the same with a reset in between: 0 with the value 25 is found -/
example : ((session demoSub demoFnc [.evolve (), .setParams { minimize := some false }, .reset (), .evolve ()]
    demoOptimizer).run.champion.map fun c => (c.phenotype, c.fitness)) = some (0, 25) := by decide

/-- a rejected change of direction (no elitism of 0), then a cycle: its worst member 1 with the value 16 is put
forward, and 3 with the value 4 stays champion, although 4 with the value 1 was seen, too -/
example : ((session demoSub demoFnc [.evolve (), .setParams { minimize := some false, elitism := some (.int 0) },
    .evolve ()] demoOptimizer).run.champion.map fun c => (c.phenotype, c.fitness, c.age)) = some (3, 4, 2) := by decide

/-- the hypotheses of `C134_best_partial` with a rejected call in between -/
example : Accepted demoSub demoFnc demoOptimizer [.evolve (), .setParams { minimize := some false }] ∧
    (session demoSub demoFnc [.evolve (), .setParams { minimize := some false }, .setParams { elitism := some (.int 9) },
      .evolve (), .fitness, .evolve ()] demoOptimizer).run.champion.map (fun c => (c.phenotype, c.fitness)) =
      some (1, 16) :=
  ⟨.inr ⟨[.evolve ()], _, rfl, rfl⟩, by decide⟩

end Demo

end Verif.GA.Props
