import Verif.Model.FrameUfunc
import Verif.Proofs.Frames

/-! # Helper lemmas about `Model/FrameUfunc.lean` -/

set_option linter.unusedSectionVars false

namespace Verif.FUfunc

open Matrix Verif.Frames

variable {n : ℕ} {K : Type} [Field K] [LinearOrder K]

theorem inputs_some {m : ℕ} (s : State n K) (args : Fin m → Arg K) (E : Fin m → Mat n K)
    (h : ∀ a, s.entries (args a) = some (E a)) : s.inputs args = some E := by
  have h' : ∀ a, (s.entries (args a)).isSome = true := fun a => by rw [h a]; rfl
  unfold State.inputs
  rw [dif_pos h']
  congr 1
  funext a
  exact Option.get_of_eq_some _ (h a)

theorem inputs_none {m : ℕ} (s : State n K) (args : Fin m → Arg K) (a : Fin m)
    (h : s.entries (args a) = none) : s.inputs args = none := by
  unfold State.inputs
  rw [dif_neg]
  intro h'
  have := h' a
  rw [h] at this
  cases this

theorem inputs_cases {m : ℕ} (s : State n K) (args : Fin m → Arg K) :
    s.inputs args = none ∨ ∃ E, s.inputs args = some E ∧ ∀ a, s.entries (args a) = some (E a) := by
  by_cases h : ∀ a, (s.entries (args a)).isSome = true
  · right
    refine ⟨fun a => (s.entries (args a)).get (h a), ?_, fun a => ?_⟩
    · unfold State.inputs; rw [dif_pos h]
    · simp
  · left
    unfold State.inputs
    rw [dif_neg h]

/-! ### New frames -/

theorem addFrames_spec {m : ℕ} (vals : Fin m → Mat n K) (l : List (Fin m)) (h : Heap n K) :
    let h' := l.foldl (fun h k => h.addFrame ⟨.reference, vals k⟩) h
    h'.nF = h.nF + l.length ∧ h'.nT = h.nT ∧ h'.tensors = h.tensors ∧
      (∀ f < h.nF, h'.frames f = h.frames f) ∧
      ∀ (i : ℕ) (hi : i < l.length), h'.frames (h.nF + i) = ⟨⟨.reference, vals l[i]⟩, []⟩ := by
  induction l generalizing h with
  | nil =>
    intro h'
    exact ⟨rfl, rfl, rfl, fun _ _ => rfl, fun i hi => by simp at hi⟩
  | cons k l ih =>
    have ih := ih (h.addFrame ⟨.reference, vals k⟩)
    simp only at ih
    obtain ⟨a, b, c, d, e⟩ := ih
    have hnF : (h.addFrame ⟨.reference, vals k⟩).nF = h.nF + 1 := rfl
    simp only [List.foldl_cons]
    refine ⟨?_, b, c, ?_, ?_⟩
    · rw [a, hnF, List.length_cons]; omega
    · intro f hf
      rw [d f (by omega)]
      exact Function.update_of_ne (by omega) _ _
    · intro i hi
      cases i with
      | zero =>
        rw [Nat.add_zero, d h.nF (by omega)]
        exact Function.update_self _ _ _
      | succ i =>
        have := e i (by simpa using hi)
        rw [hnF] at this
        rw [show h.nF + (i + 1) = h.nF + 1 + i by omega, this]
        rfl

theorem addFrames_inv {m : ℕ} (vals : Fin m → Mat n K) (l : List (Fin m)) (h : Heap n K) (hi : h.Inv) :
    (l.foldl (fun h k => h.addFrame ⟨.reference, vals k⟩) h).Inv ∧
      h.Keeps (l.foldl (fun h k => h.addFrame ⟨.reference, vals k⟩) h) := by
  induction l generalizing h with
  | nil => exact ⟨hi, Heap.Keeps.refl h⟩
  | cons k l ih =>
    obtain ⟨a, b⟩ := addFrame_spec h hi ⟨.reference, vals k⟩ (by intro hx; cases hx)
    obtain ⟨c, d⟩ := ih _ a
    exact ⟨c, b.trans d⟩

theorem wrap_eq {m : ℕ} (vals : Fin m → Mat n K) (s : State n K) :
    ∃ s' r, wrap vals s = (s', .ok r) ∧ s'.arrays = s.arrays ∧ s'.heap.nT = s.heap.nT ∧
      s'.heap.tensors = s.heap.tensors ∧ (∀ f < s.heap.nF, s'.heap.frames f = s.heap.frames f) ∧
      s'.heap.nF = s.heap.nF + m ∧ (m = 1 → r = .frame s.heap.nF) ∧
      r.frames = (List.range m).map (s.heap.nF + ·) ∧
      ∀ k : Fin m, s'.heap.frames (s.heap.nF + k) = ⟨⟨.reference, vals k⟩, []⟩ := by
  obtain ⟨a, b, c, d, e⟩ := addFrames_spec vals (List.finRange m) s.heap
  refine ⟨_, _, rfl, rfl, b, c, d, ?_, fun hm => if_pos hm, ?_, ?_⟩
  · rw [a, List.length_finRange]
  · by_cases hm : m = 1
    · subst hm; rfl
    · rw [if_neg hm]; rfl
  · intro k
    have := e k (by rw [List.length_finRange]; exact k.2)
    rw [this]
    simp

/-! ### Outputs -/

theorem writeArrays_heap (l : List (Arg K × Mat n K)) (s : State n K) :
    (writeArrays l s).heap = s.heap := by
  unfold writeArrays
  induction l generalizing s with
  | nil => rfl
  | cons o l ih =>
    rw [List.foldl_cons, ih]
    obtain ⟨x, A⟩ := o
    cases x <;> rfl

theorem writeArrays_other (l : List (Arg K × Mat n K)) (s : State n K) (a : ℕ)
    (h : ∀ o ∈ l, o.1 ≠ .array a) : (writeArrays l s).arrays a = s.arrays a := by
  unfold writeArrays
  induction l generalizing s with
  | nil => rfl
  | cons o l ih =>
    rw [List.foldl_cons, ih _ fun o' ho => h o' (List.mem_cons_of_mem _ ho)]
    obtain ⟨x, A⟩ := o
    have := h _ List.mem_cons_self
    cases x with
    | array b =>
      have : a ≠ b := fun e => this (by rw [e])
      exact Function.update_of_ne this _ _
    | number c => rfl
    | frame f => rfl
    | tensor t => rfl
    | other => rfl

theorem writeArrays_written (l : List (Arg K × Mat n K)) (s : State n K) (a : ℕ) (A : Mat n K)
    (h : (Arg.array a, A) ∈ l) (hn : (l.map Prod.fst).Nodup) : (writeArrays l s).arrays a = A := by
  induction l generalizing s with
  | nil => cases h
  | cons o l ih =>
    rw [List.map_cons, List.nodup_cons] at hn
    rcases List.mem_cons.1 h with rfl | h
    · show (writeArrays l _).arrays a = A
      rw [writeArrays_other]
      · exact Function.update_self _ _ _
      · intro o ho e
        exact hn.1 (List.mem_map.2 ⟨o, ho, e⟩)
    · exact ih _ h hn.2

theorem setAxes_same (cfg : Cfg K) (h : Heap n K) (f : ℕ) (A : Mat n K) :
    let h' := (h.setAxes cfg f A).1
    h'.nF = h.nF ∧ h'.nT = h.nT ∧ (∀ g, g ≠ f → h'.frames g = h.frames g) ∧
      (∀ g, (h'.frames g).reg = (h.frames g).reg) ∧
      (∀ g, (h'.frames g).frame.cls = (h.frames g).frame.cls) := by
  unfold Heap.setAxes
  by_cases hf : f < h.nF
  · rw [if_pos hf]
    simp only
    have key : ∀ g, ((Function.update h.frames f
        ⟨⟨(h.frames f).frame.cls, A⟩, (h.frames f).reg⟩) g).reg = (h.frames g).reg ∧
        ((Function.update h.frames f
        ⟨⟨(h.frames f).frame.cls, A⟩, (h.frames f).reg⟩) g).frame.cls = (h.frames g).frame.cls := by
      intro g
      by_cases hg : g = f
      · subst hg; rw [Function.update_self]; exact ⟨rfl, rfl⟩
      · rw [Function.update_of_ne hg]; exact ⟨rfl, rfl⟩
    split
    · exact ⟨rfl, rfl, fun g hg => Function.update_of_ne hg _ _, fun g => (key g).1,
        fun g => (key g).2⟩
    · split
      · exact ⟨rfl, rfl, fun _ _ => rfl, fun _ => rfl, fun _ => rfl⟩
      · exact ⟨rfl, rfl, fun g hg => Function.update_of_ne hg _ _, fun g => (key g).1,
          fun g => (key g).2⟩
  · rw [if_neg hf]
    exact ⟨rfl, rfl, fun _ _ => rfl, fun _ => rfl, fun _ => rfl⟩

theorem setAxes_ok (cfg : Cfg K) (h : Heap n K) (f : ℕ) (hf : f < h.nF) (A : Mat n K)
    (hdet : (h.frames f).reg ≠ [] → A.det ≠ 0) :
    (h.setAxes cfg f A).2 = none ∧
      ((h.setAxes cfg f A).1.frames f).frame = ⟨(h.frames f).frame.cls, A⟩ ∧
      ∀ t, ((h.setAxes cfg f A).1.tensors t).frame = (h.tensors t).frame := by
  unfold Heap.setAxes
  rw [if_pos hf]
  simp only
  by_cases hr : (h.frames f).reg = []
  · rw [if_pos hr]
    exact ⟨rfl, congrArg (fun o : FrameObj n K => o.frame) (Function.update_self f _ h.frames), fun _ => rfl⟩
  · rw [if_neg hr]
    have hd : ∃ Q, (h.frames f).frame.dcmTarget cfg ⟨.reference, A⟩ = .ok Q := by
      obtain ⟨B, hB⟩ := inv_exists (hdet hr)
      rw [dcmTarget_eq]
      have : Frame.dual cfg ⟨.reference, A⟩ = .ok ⟨.reference, Bᵀ⟩ := by
        simp only [Frame.dual, dualFrame, hB, mkFrame]
        rfl
      rw [this]
      exact ⟨_, rfl⟩
    obtain ⟨Q, hQ⟩ := hd
    rw [hQ]
    refine ⟨rfl, congrArg (fun o : FrameObj n K => o.frame) (Function.update_self f _ h.frames), ?_⟩
    intro t
    show ((h.frames f).reg.foldl _ h.tensors t).frame = _
    generalize (h.frames f).reg = l
    generalize h.tensors = ts
    induction l generalizing ts with
    | nil => rfl
    | cons v l ih =>
      rw [List.foldl_cons, ih]
      by_cases hv : t = v
      · subst hv; rw [Function.update_self]
      · rw [Function.update_of_ne hv]

theorem setAxes_singular (cfg : Cfg K) (h : Heap n K) (f : ℕ) (hf : f < h.nF) (A : Mat n K)
    (hdet : A.det = 0) (hreg : (h.frames f).reg ≠ []) : h.setAxes cfg f A = (h, some .linalg) := by
  unfold Heap.setAxes
  rw [if_pos hf]
  simp only
  rw [if_neg hreg]
  have hd : (h.frames f).frame.dcmTarget cfg ⟨.reference, A⟩ = .error .linalg := by
    have hB := inv_singular hdet
    rw [dcmTarget_eq]
    have : Frame.dual cfg ⟨.reference, A⟩ = .error .linalg := by
      simp only [Frame.dual, dualFrame, hB]
      rfl
    rw [this]
    rfl
  rw [hd]

/-- Everything about the outputs that does not depend on success. -/
theorem writeFrames_same (cfg : Cfg K) (l : List (Arg K × Mat n K)) (s : State n K) :
    let s' := (writeFrames cfg l s).1
    s'.arrays = s.arrays ∧ s'.heap.nF = s.heap.nF ∧ s'.heap.nT = s.heap.nT ∧
      (∀ g, (∀ o ∈ l, o.1 ≠ .frame g) → s'.heap.frames g = s.heap.frames g) ∧
      (∀ g, (s'.heap.frames g).reg = (s.heap.frames g).reg) ∧
      (∀ g, (s'.heap.frames g).frame.cls = (s.heap.frames g).frame.cls) := by
  induction l generalizing s with
  | nil => exact ⟨rfl, rfl, rfl, fun _ _ => rfl, fun _ => rfl, fun _ => rfl⟩
  | cons o l ih =>
    obtain ⟨x, A⟩ := o
    have skip : ∀ y : Arg K, (∀ f, y ≠ .frame f) →
        writeFrames cfg ((y, A) :: l) s = writeFrames cfg l s := by
      intro y hy
      cases y with
      | frame f => exact absurd rfl (hy f)
      | number c => rfl
      | array a => rfl
      | tensor t => rfl
      | other => rfl
    by_cases hx : ∃ f, x = .frame f
    · obtain ⟨f, rfl⟩ := hx
      obtain ⟨a, b, c, d, e⟩ := setAxes_same cfg s.heap f A
      simp only [writeFrames]
      cases hh : s.heap.setAxes cfg f A with
      | mk h' r =>
        rw [hh] at a b c d e
        simp only at a b c d e
        cases r with
        | some er =>
          refine ⟨rfl, a, b, fun g hg => ?_, d, e⟩
          exact c g fun eq => hg _ List.mem_cons_self (by rw [eq])
        | none =>
          simp only
          obtain ⟨a', b', c', d', e', f'⟩ := ih { s with heap := h' }
          refine ⟨a', b'.trans a, c'.trans b, ?_, fun g => (e' g).trans (d g),
            fun g => (f' g).trans (e g)⟩
          intro g hg
          rw [d' g fun o ho => hg o (List.mem_cons_of_mem _ ho)]
          exact c g fun eq => hg _ List.mem_cons_self (by rw [eq])
    · rw [skip x fun f hf => hx ⟨f, hf⟩]
      obtain ⟨a', b', c', d', e', f'⟩ := ih s
      exact ⟨a', b', c', fun g hg => d' g fun o ho => hg o (List.mem_cons_of_mem _ ho), e', f'⟩

theorem writeFrames_ok (cfg : Cfg K) (l : List (Arg K × Mat n K)) (s : State n K)
    (hv : ∀ o ∈ l, ∀ f, o.1 = .frame f → f < s.heap.nF ∧
      ((s.heap.frames f).reg ≠ [] → o.2.det ≠ 0))
    (hn : (l.map Prod.fst).Nodup) :
    (writeFrames cfg l s).2 = none ∧
      (∀ f A, (Arg.frame f, A) ∈ l → ((writeFrames cfg l s).1.heap.frames f).frame =
        ⟨(s.heap.frames f).frame.cls, A⟩) ∧
      ∀ t, ((writeFrames cfg l s).1.heap.tensors t).frame = (s.heap.tensors t).frame := by
  induction l generalizing s with
  | nil => exact ⟨rfl, fun _ _ h => (nomatch h), fun _ => rfl⟩
  | cons o l ih =>
    rw [List.map_cons, List.nodup_cons] at hn
    obtain ⟨x, A⟩ := o
    have skip : ∀ y : Arg K, (∀ f, y ≠ .frame f) →
        writeFrames cfg ((y, A) :: l) s = writeFrames cfg l s := by
      intro y hy
      cases y with
      | frame f => exact absurd rfl (hy f)
      | number c => rfl
      | array a => rfl
      | tensor t => rfl
      | other => rfl
    by_cases hx : ∃ f, x = .frame f
    · obtain ⟨f, rfl⟩ := hx
      obtain ⟨hf, hd⟩ := hv _ List.mem_cons_self f rfl
      obtain ⟨a, b, c⟩ := setAxes_ok cfg s.heap f hf A hd
      obtain ⟨p, -, -, q, r⟩ := setAxes_same cfg s.heap f A
      simp only [writeFrames]
      cases hh : s.heap.setAxes cfg f A with
      | mk h' er =>
        rw [hh] at a b c p q r
        simp only at a b c p q r
        subst a
        simp only
        obtain ⟨a', b', c'⟩ := ih { s with heap := h' } (by
          intro o ho g hg
          obtain ⟨h1, h2⟩ := hv o (List.mem_cons_of_mem _ ho) g hg
          exact ⟨by rw [p]; exact h1, by rw [q]; exact h2⟩) hn.2
        refine ⟨a', ?_, fun t => (c' t).trans (c t)⟩
        intro g B hB
        rcases List.mem_cons.1 hB with heq | hB
        · cases heq
          obtain ⟨-, -, -, keep, -⟩ := writeFrames_same cfg l { s with heap := h' }
          rw [keep f]
          · exact b
          · intro o ho e
            exact hn.1 (List.mem_map.2 ⟨o, ho, e⟩)
        · rw [b' g B hB]
          rw [r]
    · rw [skip x fun f hf => hx ⟨f, hf⟩]
      obtain ⟨a', b', c'⟩ := ih s (fun o ho => hv o (List.mem_cons_of_mem _ ho)) hn.2
      refine ⟨a', fun f B hB => ?_, c'⟩
      rcases List.mem_cons.1 hB with heq | hB
      · cases heq; exact absurd ⟨f, rfl⟩ hx
      · exact b' f B hB

theorem writeFrames_inv (cfg : Cfg K) (l : List (Arg K × Mat n K)) (s : State n K) (hi : s.heap.Inv)
    (hg : ∀ o ∈ l, ∀ f, o.1 = .frame f → (s.heap.frames f).frame.cls = .reference) :
    (writeFrames cfg l s).1.heap.Inv ∧ s.heap.Keeps (writeFrames cfg l s).1.heap := by
  induction l generalizing s with
  | nil => exact ⟨hi, Heap.Keeps.refl _⟩
  | cons o l ih =>
    obtain ⟨x, A⟩ := o
    have hg' : ∀ o ∈ l, ∀ f, o.1 = .frame f → (s.heap.frames f).frame.cls = .reference :=
      fun o ho => hg o (List.mem_cons_of_mem _ ho)
    cases x with
    | frame f =>
      have hcls := hg _ List.mem_cons_self f rfl
      obtain ⟨a, b⟩ := setAxes_spec cfg s.heap hi f A (fun _ hx => by rw [hcls] at hx; cases hx)
      obtain ⟨-, -, -, -, r⟩ := setAxes_same cfg s.heap f A
      simp only [writeFrames]
      cases hh : s.heap.setAxes cfg f A with
      | mk h' er =>
        rw [hh] at a b r
        cases er with
        | some er => exact ⟨a, b⟩
        | none =>
          simp only at a b r
          obtain ⟨c, d⟩ := ih { s with heap := h' } a (by
            intro o ho g hgg
            show (h'.frames g).frame.cls = _
            rw [r]
            exact hg' o ho g hgg)
          exact ⟨c, b.trans d⟩
    | number c => exact ih s hi hg'
    | array c => exact ih s hi hg'
    | tensor c => exact ih s hi hg'
    | other => exact ih s hi hg'

theorem regular_eq (s : State n K) (x : Arg K) :
    s.regular x = true ↔ ∃ f, x = .frame f ∧ (s.heap.frames f).frame.cls ≠ .reference := by
  cases x with
  | frame f =>
    simp only [State.regular, Arg.frame.injEq]
    constructor
    · intro h
      refine ⟨f, rfl, ?_⟩
      intro hc
      rw [hc] at h
      cases h
    · rintro ⟨g, rfl, hg⟩
      cases hc : (s.heap.frames f).frame.cls with
      | reference => exact absurd hc hg
      | rectangular => rfl
      | cartesian => rfl
  | number c => exact ⟨fun h => (by cases h), fun ⟨_, h, _⟩ => (by cases h)⟩
  | array c => exact ⟨fun h => (by cases h), fun ⟨_, h, _⟩ => (by cases h)⟩
  | tensor c => exact ⟨fun h => (by cases h), fun ⟨_, h, _⟩ => (by cases h)⟩
  | other => exact ⟨fun h => (by cases h), fun ⟨_, h, _⟩ => (by cases h)⟩

/-- The heap after any call keeps its invariant and what the tensors stand for. -/
theorem ufunc_inv (cfg : Cfg K) (u : Ufunc K) (ins : Fin u.nin → Arg K)
    (outs : Option (Fin u.nout → Arg K)) (s : State n K) (hi : s.heap.Inv) :
    (ufunc cfg u ins outs s).1.heap.Inv ∧ s.heap.Keeps (ufunc cfg u ins outs s).1.heap := by
  unfold ufunc
  cases hE : s.inputs ins with
  | none => exact ⟨hi, Heap.Keeps.refl _⟩
  | some E =>
    cases outs with
    | none => exact addFrames_inv _ _ _ hi
    | some os =>
      simp only
      cases hO : s.inputs os with
      | none => exact ⟨hi, Heap.Keeps.refl _⟩
      | some O =>
        simp only
        split
        · exact ⟨hi, Heap.Keeps.refl _⟩
        · rename_i hreg
          split
          · exact ⟨hi, Heap.Keeps.refl _⟩
          · generalize hl : ((List.finRange u.nout).map fun k => (os k, u.results E k)) = l
            have hg : ∀ o ∈ l, ∀ f, o.1 = .frame f →
                ((writeArrays l s).heap.frames f).frame.cls = .reference := by
              intro o ho f hf
              rw [writeArrays_heap]
              subst hl
              obtain ⟨k, -, rfl⟩ := List.mem_map.1 ho
              by_contra hc
              exact hreg (List.any_eq_true.2 ⟨k, List.mem_finRange k, (regular_eq s _).2 ⟨f, hf, hc⟩⟩)
            have hi' : (writeArrays l s).heap.Inv := by rw [writeArrays_heap]; exact hi
            obtain ⟨a, b⟩ := writeFrames_inv cfg l (writeArrays l s) hi' hg
            rw [writeArrays_heap] at b
            cases hw : writeFrames cfg l (writeArrays l s) with
            | mk s' er =>
              rw [hw] at a b
              cases er with
              | some e => exact ⟨a, b⟩
              | none =>
                obtain ⟨c, d⟩ := addFrames_inv (u.results E) (List.finRange u.nout) s'.heap a
                exact ⟨c, b.trans d⟩

end Verif.FUfunc
