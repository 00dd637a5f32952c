import Verif.Proofs.FrameUfunc
import Verif.Props.Frames

/-!
# NumPy's functions on frames (C98)
-/

set_option linter.unusedSectionVars false

namespace Verif.FUfunc.Props

open Matrix Verif.Frames Verif.Frames.Props Verif.FUfunc

variable {n : ℕ} {K : Type} [Field K] [LinearOrder K]

/-- The entries an argument contributes: the same number everywhere, or its own entries. -/
inductive Stands (s : State n K) : Arg K → Mat n K → Prop
  | number (c : K) : Stands s (.number c) (Matrix.of fun _ _ => c)
  | array (a : ℕ) : Stands s (.array a) (s.arrays a)
  | frame (f : ℕ) (h : f < s.heap.nF) : Stands s (.frame f) (s.heap.frames f).frame.axes

/-- Vectors, tensors and everything that is neither a number, an array nor a frame. -/
inductive Foreign (s : State n K) : Arg K → Prop
  | tensor (t : ℕ) : Foreign s (.tensor t)
  | other : Foreign s .other
  | missing (f : ℕ) (h : ¬ f < s.heap.nF) : Foreign s (.frame f)

theorem entries_stands {s : State n K} {x : Arg K} {A : Mat n K} (h : Stands s x A) :
    s.entries x = some A := by
  cases h with
  | number c => rfl
  | array a => rfl
  | frame f hf => exact if_pos hf

theorem stands_or_foreign (s : State n K) (x : Arg K) : (∃ A, Stands s x A) ∨ Foreign s x := by
  cases x with
  | number c => exact .inl ⟨_, .number c⟩
  | array a => exact .inl ⟨_, .array a⟩
  | frame f =>
    by_cases hf : f < s.heap.nF
    · exact .inl ⟨_, .frame f hf⟩
    · exact .inr (.missing f hf)
  | tensor t => exact .inr (.tensor t)
  | other => exact .inr .other

theorem entries_foreign {s : State n K} {x : Arg K} (h : Foreign s x) : s.entries x = none := by
  cases h with
  | tensor t => rfl
  | other => rfl
  | missing f hf => exact if_neg hf

/-- The new frames a call returns: general frames, one for every result, with nothing attached; a single
result is not put into a sequence. -/
def Returned (s s' : State n K) (m : ℕ) (r : Ret) (vals : Fin m → Mat n K) : Prop :=
  s'.heap.nF = s.heap.nF + m ∧ (m = 1 → r = .frame s.heap.nF) ∧ r.frames = (List.range m).map (s.heap.nF + ·) ∧
    ∀ k : Fin m, s'.heap.frames (s.heap.nF + k) = ⟨⟨.reference, vals k⟩, []⟩

/-- **C98.** A universal function without outputs: every result is a new general frame, its entries are
the function of the entries of the arguments; no frame, tensor or array that existed changes. -/
theorem C98_call (cfg : Cfg K) (u : Ufunc K) (ins : Fin u.nin → Arg K) (s : State n K)
    (E : Fin u.nin → Mat n K) (hE : ∀ a, Stands s (ins a) (E a)) :
    ∃ s' r, ufunc cfg u ins none s = (s', .ok r) ∧
      Returned s s' u.nout r (fun k => Matrix.of fun i j => u.fn (fun a => E a i j) k) ∧
      s'.arrays = s.arrays ∧ s'.heap.nT = s.heap.nT ∧ s'.heap.tensors = s.heap.tensors ∧
      ∀ f < s.heap.nF, s'.heap.frames f = s.heap.frames f := by
  obtain ⟨s', r, h, h1, h2, h3, h4, h5, h6, h7, h8⟩ := wrap_eq (u.results E) s
  refine ⟨s', r, ?_, ⟨h5, h6, h7, h8⟩, h1, h2, h3, h4⟩
  unfold ufunc
  rw [inputs_some s ins E fun a => entries_stands (hE a)]
  exact h

/-- **C98.** With outputs: the results are computed from what the arguments were before the call, also
if an argument is an output; arrays and general frames among the outputs hold the results afterwards, and
the call returns them once more as new frames.  Everything else stays, frames keep the tensors attached
to them, and tensors keep their frames.  New axes must be independent if tensors are attached. -/
theorem C98_out (cfg : Cfg K) (u : Ufunc K) (ins os : _) (s : State n K)
    (E : Fin u.nin → Mat n K) (hE : ∀ a, Stands s (ins a) (E a))
    (hos : ∀ k, (∃ a, os k = .array a) ∨
      ∃ f < s.heap.nF, os k = .frame f ∧ (s.heap.frames f).frame.cls = .reference)
    (hinj : Function.Injective os)
    (hdet : ∀ k f, os k = .frame f → (s.heap.frames f).reg ≠ [] →
      (Matrix.of fun i j => u.fn (fun a => E a i j) k).det ≠ 0) :
    ∃ s' r, ufunc cfg u ins (some os) s = (s', .ok r) ∧
      Returned s s' u.nout r (fun k => Matrix.of fun i j => u.fn (fun a => E a i j) k) ∧
      (∀ k f, os k = .frame f → s'.heap.frames f =
        ⟨⟨.reference, Matrix.of fun i j => u.fn (fun a => E a i j) k⟩, (s.heap.frames f).reg⟩) ∧
      (∀ k a, os k = .array a → s'.arrays a = Matrix.of fun i j => u.fn (fun a => E a i j) k) ∧
      (∀ f < s.heap.nF, (∀ k, os k ≠ .frame f) → s'.heap.frames f = s.heap.frames f) ∧
      (∀ a, (∀ k, os k ≠ .array a) → s'.arrays a = s.arrays a) ∧
      s'.heap.nT = s.heap.nT ∧ ∀ t, (s'.heap.tensors t).frame = (s.heap.tensors t).frame := by
  have hO : ∀ k, ∃ O, s.entries (os k) = some O := by
    intro k
    rcases hos k with ⟨a, h⟩ | ⟨f, hf, h, -⟩
    · rw [h]; exact ⟨_, rfl⟩
    · rw [h]; exact ⟨_, if_pos hf⟩
  choose O hO using hO
  set l := (List.finRange u.nout).map fun k => (os k, u.results E k) with hl
  have hfst : (l.map Prod.fst).Nodup := by
    rw [hl, List.map_map]
    exact (List.nodup_finRange _).map hinj
  have hmem : ∀ k, (os k, u.results E k) ∈ l := fun k => List.mem_map.2 ⟨k, List.mem_finRange k, rfl⟩
  have hout : ∀ o ∈ l, ∃ k, o = (os k, u.results E k) := by
    intro o ho
    obtain ⟨k, -, rfl⟩ := List.mem_map.1 ho
    exact ⟨k, rfl⟩
  obtain ⟨w1, w2, w3⟩ := writeFrames_ok cfg l (writeArrays l s) (by
    intro o ho f hf
    obtain ⟨k, rfl⟩ := hout o ho
    rw [writeArrays_heap]
    rcases hos k with ⟨a, h⟩ | ⟨g, hg, h, -⟩
    · rw [show (os k, u.results E k).1 = os k from rfl, h] at hf; cases hf
    · rw [show (os k, u.results E k).1 = os k from rfl, h] at hf
      cases hf
      exact ⟨hg, hdet k f h⟩) hfst
  obtain ⟨v1, v2, v3, v4, v5, -⟩ := writeFrames_same cfg l (writeArrays l s)
  cases hw : writeFrames cfg l (writeArrays l s) with
  | mk s1 er =>
    rw [hw] at w1 w2 w3 v1 v2 v3 v4 v5
    simp only at w1 w2 w3 v1 v2 v3 v4 v5
    subst w1
    rw [writeArrays_heap] at w2 w3 v2 v3 v4 v5
    obtain ⟨s', r, h, h1, h2, h3, h4, h5, h6, h7, h8⟩ := wrap_eq (u.results E) s1
    rw [v2] at h4 h5 h6 h7 h8
    refine ⟨s', r, ?_, ⟨h5, h6, h7, h8⟩, ?_, ?_, ?_, ?_, h2.trans v3, ?_⟩
    · unfold ufunc
      rw [inputs_some s ins E fun a => entries_stands (hE a)]
      simp only
      rw [inputs_some s os O hO]
      simp only
      rw [if_neg, if_neg, ← hl, hw]
      · exact h
      · intro hx
        obtain ⟨k, -, hk⟩ := List.any_eq_true.1 hx
        rcases hos k with ⟨a, h⟩ | ⟨g, -, h, -⟩ <;> rw [h] at hk <;> cases hk
      · intro hx
        obtain ⟨k, -, hk⟩ := List.any_eq_true.1 hx
        obtain ⟨f, hf, hc⟩ := (regular_eq s _).1 hk
        rcases hos k with ⟨a, h⟩ | ⟨g, -, h, hg⟩
        · rw [h] at hf; cases hf
        · rw [h] at hf; cases hf; exact hc hg
    · intro k f hk
      have hf : f < s.heap.nF ∧ (s.heap.frames f).frame.cls = .reference := by
        rcases hos k with ⟨a, h⟩ | ⟨g, hg, h, hc⟩
        · rw [h] at hk; cases hk
        · rw [h] at hk; cases hk; exact ⟨hg, hc⟩
      have e1 := w2 f (u.results E k) (by rw [← hk]; exact hmem k)
      have e2 := v5 f
      rw [hf.2] at e1
      rw [h4 f hf.1]
      cases ho : s1.heap.frames f with
      | mk fr rg =>
        rw [ho] at e1 e2
        simp only at e1 e2
        rw [e1, e2]
        rfl
    · intro k a hk
      rw [h1, v1]
      exact writeArrays_written l s a _ (by rw [← hk]; exact hmem k) hfst
    · intro f hf hk
      rw [h4 f hf]
      refine v4 f fun o ho => ?_
      obtain ⟨k, rfl⟩ := hout o ho
      exact hk k
    · intro a ha
      rw [h1, v1]
      refine writeArrays_other l s a fun o ho => ?_
      obtain ⟨k, rfl⟩ := hout o ho
      exact ha k
    · intro t
      rw [h3]
      exact w3 t

/-- **C98.** No call of a universal function, with whatever arguments and outputs, whether it succeeds or
raises half way, changes what a vector or tensor stands for; and this goes on: the state is one in which
every further call and every sound operation keeps this promise. -/
theorem C98_objective (cfg : Cfg K) (before : List (Op n K)) (hs : SoundOps cfg before emptyHeap)
    (s : State n K) (hb : s.heap = runOps cfg before emptyHeap)
    (calls : List (Σ u : Ufunc K, (Fin u.nin → Arg K) × Option (Fin u.nout → Arg K)))
    (t : ℕ) (ht : t < s.heap.nT) :
    (calls.foldl (fun s c => (ufunc cfg c.1 c.2.1 c.2.2 s).1) s).heap.ambientOf t =
      s.heap.ambientOf t := by
  have hi : s.heap.Inv := by
    rw [hb]; exact (ops_spec cfg before emptyHeap emptyHeap_inv hs).1
  clear hb hs
  induction calls generalizing s with
  | nil => rfl
  | cons c calls ih =>
    obtain ⟨a, b⟩ := ufunc_inv cfg c.1 c.2.1 c.2.2 s hi
    rw [List.foldl_cons, ih _ (lt_of_lt_of_le ht b.nT) a]
    exact b.same t ht

/-- **C98.** Arguments and outputs of foreign types are refused and nothing changes; this includes the
vectors and tensors attached to a frame.  Numbers cannot be outputs. -/
theorem C98_foreign (cfg : Cfg K) (u : Ufunc K) (ins : Fin u.nin → Arg K)
    (outs : Option (Fin u.nout → Arg K)) (s : State n K) :
    ((∃ a, Foreign s (ins a)) → ufunc cfg u ins outs s = (s, .error .type)) ∧
    (∀ os, outs = some os → (∃ k, Foreign s (os k)) → ufunc cfg u ins outs s = (s, .error .type)) ∧
    (∀ os, outs = some os → (∃ k c, os k = .number c) →
      ∃ e, (e = .type ∨ e = .notImplemented) ∧ ufunc cfg u ins outs s = (s, .error e)) := by
  refine ⟨?_, ?_, ?_⟩
  · rintro ⟨a, ha⟩
    unfold ufunc
    rw [inputs_none s ins a (entries_foreign ha)]
  · rintro os rfl ⟨k, hk⟩
    unfold ufunc
    rcases inputs_cases s ins with h | ⟨E, h, -⟩
    · rw [h]
    · rw [h]
      simp only
      rw [inputs_none s os k (entries_foreign hk)]
  · rintro os rfl ⟨k, c, hk⟩
    unfold ufunc
    rcases inputs_cases s ins with h | ⟨E, h, -⟩
    · rw [h]
      exact ⟨_, .inl rfl, rfl⟩
    · rw [h]
      simp only
      rcases inputs_cases s os with h' | ⟨O, h', -⟩
      · rw [h']
        exact ⟨_, .inl rfl, rfl⟩
      · rw [h']
        simp only
        split
        · exact ⟨_, .inr rfl, rfl⟩
        · rw [if_pos (List.any_eq_true.2 ⟨k, List.mem_finRange k, by rw [hk]; rfl⟩)]
          exact ⟨_, .inl rfl, rfl⟩

/-- **C98.** Rectangular and Cartesian frames are refused as outputs and nothing changes, since the
result need not be rectangular. -/
theorem C98_regular (cfg : Cfg K) (u : Ufunc K) (ins : Fin u.nin → Arg K) (os : Fin u.nout → Arg K)
    (s : State n K) (hE : ∀ a, ∃ A, Stands s (ins a) A) (hO : ∀ k, ∃ A, Stands s (os k) A)
    (k : Fin u.nout) (f : ℕ) (hk : os k = .frame f) (hf : (s.heap.frames f).frame.cls ≠ .reference) :
    ufunc cfg u ins (some os) s = (s, .error .notImplemented) := by
  choose E hE using hE
  choose O hO using hO
  unfold ufunc
  rw [inputs_some s ins E fun a => entries_stands (hE a)]
  simp only
  rw [inputs_some s os O fun a => entries_stands (hO a)]
  simp only
  rw [if_pos (List.any_eq_true.2 ⟨k, List.mem_finRange k, (regular_eq s _).2 ⟨f, hk, hf⟩⟩)]

/-- **C98.** A function with one result that would make the axes of a frame with tensors dependent raises
and changes nothing. -/
theorem C98_singular (cfg : Cfg K) (fn : (Fin 2 → K) → K) (ins : Fin 2 → Arg K) (s : State n K)
    (E : Fin 2 → Mat n K) (hE : ∀ a, Stands s (ins a) (E a)) (f : ℕ) (hf : f < s.heap.nF)
    (hc : (s.heap.frames f).frame.cls = .reference) (hreg : (s.heap.frames f).reg ≠ [])
    (hdet : (Matrix.of fun i j => fn fun a => E a i j).det = 0) :
    ufunc cfg ⟨2, 1, fun x _ => fn x⟩ ins (some fun _ => .frame f) s = (s, .error .linalg) := by
  have hO : ∀ _k : Fin 1, s.entries (.frame f) = some (s.heap.frames f).frame.axes :=
    fun _ => if_pos hf
  have e1 := inputs_some s ins E fun a => entries_stands (hE a)
  have e2 := inputs_some s (fun _ : Fin 1 => Arg.frame f) _ hO
  have e3 : s.regular (Arg.frame f) = false := by
    rw [State.regular, hc]
  unfold ufunc
  simp only [e1, e2, List.finRange_succ, List.finRange_zero, List.map_nil, List.any_cons,
    List.any_nil, e3, isNumber, Bool.or_false, Bool.false_eq_true, if_false, List.map_cons,
    writeArrays, List.foldl_cons, List.foldl_nil, writeFrames]
  rw [show (⟨2, 1, fun x _ => fn x⟩ : Ufunc K).results E 0 =
    Matrix.of fun i j => fn fun a => E a i j from rfl, setAxes_singular cfg s.heap f hf _ hdet hreg]

/-- Two general frames in the plane with the unit vectors as axes, and the vector `(1, 0)` in each. -/
def twoFrames : State 2 ℚ :=
  ⟨runOps npCfg [.newFrame .reference 1, .newFrame .reference 1, .newTensor (.vec ![1, 0]) 0,
    .newTensor (.vec ![1, 0]) 1] emptyHeap, fun _ => 0⟩

/-- A function with two results: twice the argument, and zero. -/
def doubleAndZero : Ufunc ℚ := ⟨1, 2, fun x => ![2 * x 0, 0]⟩

/-- C98 is violated: a call with two outputs that raises leaves the first output changed.  (Here the
second result is the zero matrix.)  The vector in the first frame has been transformed. -/
theorem C98_half_done_violated :
    let res := ufunc npCfg doubleAndZero (fun _ => .frame 0) (some ![.frame 0, .frame 1]) twoFrames
    res.2.toOption = none ∧ (res.1.heap.frames 0).frame.axes = 2 ∧
      (twoFrames.heap.frames 0).frame.axes = 1 ∧
      (res.1.heap.tensors 0).comps.comp 0 = 1 / 2 ∧ (twoFrames.heap.tensors 0).comps.comp 0 = 1 := by
  refine ⟨by decide +kernel, ?_, ?_, by decide +kernel, by decide +kernel⟩
  · show (_ : Matrix (Fin 2) (Fin 2) ℚ) = _
    decide +kernel
  · show (_ : Matrix (Fin 2) (Fin 2) ℚ) = _
    decide +kernel

/-- C98 is violated: `ufunc.at` changes the axes but not the vector attached to the frame, which then
stands for something else. -/
theorem C98_at_violated :
    let res := ufuncAt (· + ·) 0 [(0, 0)] 1 twoFrames
    res.2 = none ∧ (res.1.heap.ambientOf 0).comp 0 = 2 ∧ (twoFrames.heap.ambientOf 0).comp 0 = 1 := by
  refine ⟨by decide +kernel, by decide +kernel, by decide +kernel⟩

/-- The hypotheses of `C98_out` can be met with a frame that is argument and output, while a vector is
attached to it. -/
example :
    let u : Ufunc ℚ := ⟨2, 2, fun x => ![x 0 + x 0, x 0 + x 1]⟩
    let res := ufunc npCfg u ![.frame 0, .number 3] (some ![.frame 0, .array 5]) twoFrames
    (res.2.toOption.map Ret.frames) = some [2, 3] ∧ (res.1.heap.frames 0).frame.axes 0 0 = 2 ∧
      res.1.arrays 5 0 0 = 4 ∧ (res.1.heap.ambientOf 0).comp 0 = 1 := by
  decide +kernel

/-! ### Comparisons -/

/-- C98, partial: `A == B` for two frames is a new frame with 1 where the axes agree and 0 elsewhere, so
that `np.all(A == B)` is true exactly if the axes are the same.

Missing, because it is false: `A == B` itself as a truth value (`C98_truth_violated`). -/
theorem C98_equal_partial (cfg : Cfg K) (s : State n K) (f g : ℕ) (hf : f < s.heap.nF)
    (hg : g < s.heap.nF) (limit : ℕ) (hl : 2 ≤ limit) :
    ∃ s' k b, compare cfg .eq (.frame f) (.frame g) s = (s', .ok (.frame k)) ∧
      (∀ i j, (s'.heap.frames k).frame.axes i j =
        if (s.heap.frames f).frame.axes i j = (s.heap.frames g).frame.axes i j then 1 else 0) ∧
      npAll limit (s'.heap.frames k).frame = .ok b ∧
      (b = true ↔ (s.heap.frames f).frame.axes = (s.heap.frames g).frame.axes) := by
  obtain ⟨s', r, h, ⟨h1, hr, h2, h3⟩, -⟩ := C98_call cfg (Cmp.ufunc .eq) ![.frame f, .frame g] s
    ![(s.heap.frames f).frame.axes, (s.heap.frames g).frame.axes] (by
      intro a
      fin_cases a
      · exact .frame f hf
      · exact .frame g hg)
  have hr := hr rfl
  subst hr
  have h4 := h3 (0 : Fin 1)
  have hax : ∀ i j, (s'.heap.frames s.heap.nF).frame.axes i j =
      if (s.heap.frames f).frame.axes i j = (s.heap.frames g).frame.axes i j then 1 else 0 := by
    intro i j
    have : s'.heap.frames s.heap.nF = _ := h4
    rw [this]
    rfl
  refine ⟨s', s.heap.nF, allNonzero (s'.heap.frames s.heap.nF).frame.axes, h, hax, ?_, ?_⟩
  · obtain ⟨m, rfl⟩ : ∃ m, limit = m + 2 := ⟨limit - 2, by omega⟩
    rfl
  · unfold allNonzero
    rw [List.all_eq_true]
    constructor
    · intro hall
      ext i j
      have := List.all_eq_true.1 (hall i (List.mem_finRange i)) j (List.mem_finRange j)
      rw [hax] at this
      by_contra hne
      rw [if_neg hne] at this
      simp at this
    · intro heq i _
      rw [List.all_eq_true]
      intro j _
      rw [hax, heq]
      simp

/-- C98 is violated: as a truth value every comparison of two frames is true, `A == B` and `A != B` and
`A < B` alike, for the same frame and for different ones: `if A == B:` always takes the first branch. -/
theorem C98_truth_violated (hn : n ≠ 0) (cfg : Cfg K) (c : Cmp) (s : State n K) (f g : ℕ)
    (hf : f < s.heap.nF) (hg : g < s.heap.nF) :
    ∃ s' r, compare cfg c (.frame f) (.frame g) s = (s', .ok r) ∧
      ∀ k ∈ r.frames, truth (s'.heap.frames k).frame = true := by
  obtain ⟨s', r, h, -⟩ := C98_call cfg (Cmp.ufunc c) ![.frame f, .frame g] s
    ![(s.heap.frames f).frame.axes, (s.heap.frames g).frame.axes] (by
      intro a
      fin_cases a
      · exact .frame f hf
      · exact .frame g hg)
  exact ⟨s', r, h, fun k _ => by simp [truth, hn]⟩

/-! ### Ordinary functions -/

/-- NumPy finds a frame in the argument: it is one, or a list that holds one. -/
inductive HoldsFrame : FArg n K → Prop
  | self (f : Frame n K) : HoldsFrame (.frame f)
  | inList (f : Frame n K) (l : List (FArg n K)) (h : .frame f ∈ l) : HoldsFrame (.list l)

theorem relevant_iff (a : FArg n K) : a.relevant = true ↔ HoldsFrame a := by
  cases a with
  | data A => exact ⟨fun h => (by cases h), fun h => (by cases h)⟩
  | frame f => exact ⟨fun _ => .self f, fun _ => rfl⟩
  | list l =>
    unfold FArg.relevant
    rw [List.any_eq_true]
    constructor
    · rintro ⟨x, hx, h⟩
      cases x with
      | frame f => exact .inList f l hx
      | data A => cases h
      | list l => cases h
    · rintro ⟨⟩
      rename_i f h
      exact ⟨_, h, rfl⟩

/-- C98, partial: a NumPy function with frames among its positional arguments computes the same as with
their axes in their places, for every function and any recursion limit.

Missing, because it is false: frames in lists and in keyword arguments
(`C98_recursion_violated`). -/
theorem C98_functions_partial {α : Type} (impl : List (FArg n K) → List (FArg n K) → α)
    (args kwargs : List (FArg n K)) (hl : ∀ l, .list l ∈ args → ∀ f, .frame f ∉ l)
    (hk : ∀ a ∈ kwargs, ¬ HoldsFrame a) (limit : ℕ) (h2 : 2 ≤ limit) :
    npCall impl limit args kwargs = .ok (impl (args.map fun
      | .frame f => .data f.axes
      | a => a) kwargs) := by
  obtain ⟨m, rfl⟩ : ∃ m, limit = m + 2 := ⟨limit - 2, by omega⟩
  have hmap : (args.map fun
      | .frame f => .data f.axes
      | a => a) = args.map FArg.unwrap := by
    apply List.map_congr_left
    intro a _
    cases a <;> rfl
  rw [hmap]
  have hno : ¬ ((args.map FArg.unwrap ++ kwargs).any FArg.relevant = true) := by
    intro h
    obtain ⟨x, hx, hr⟩ := List.any_eq_true.1 h
    rcases List.mem_append.1 hx with hx | hx
    · obtain ⟨a, ha, rfl⟩ := List.mem_map.1 hx
      have := (relevant_iff _).1 hr
      cases a with
      | data A => cases this
      | frame f => cases this
      | list l =>
        cases this with
        | inList f _ hf => exact hl l ha f hf
    · exact hk x hx ((relevant_iff _).1 hr)
  by_cases hany : (args ++ kwargs).any FArg.relevant = true
  · rw [npCall, if_pos hany, npCall, if_neg hno]
  · rw [npCall, if_neg hany]
    congr 2
    symm
    have : ∀ a ∈ args, a.unwrap = id a := by
      intro a ha
      cases a with
      | data A => rfl
      | list l => rfl
      | frame f =>
        exact absurd (List.any_eq_true.2 ⟨_, List.mem_append_left _ ha, rfl⟩) hany
    rw [List.map_congr_left this, List.map_id]

/-- C98 is violated: with a frame in a list (`np.concatenate([A, B])`) or in a keyword argument
(`np.sum(a=A)`) a NumPy function never gets to compute anything: whatever the recursion limit is, it is
exceeded. -/
theorem C98_recursion_violated {α : Type} (impl : List (FArg n K) → List (FArg n K) → α)
    (args kwargs : List (FArg n K))
    (h : (∃ l f, .list l ∈ args ∧ .frame f ∈ l) ∨ ∃ a ∈ kwargs, HoldsFrame a) (limit : ℕ) :
    npCall impl limit args kwargs = .error .runtime := by
  induction limit generalizing args with
  | zero => rfl
  | succ m ih =>
    have hany : (args ++ kwargs).any FArg.relevant = true := by
      rw [List.any_eq_true]
      rcases h with ⟨l, f, h1, h2⟩ | ⟨a, h1, h2⟩
      · exact ⟨_, List.mem_append_left _ h1, (relevant_iff _).2 (.inList f l h2)⟩
      · exact ⟨_, List.mem_append_right _ h1, (relevant_iff _).2 h2⟩
    rw [npCall, if_pos hany]
    apply ih
    rcases h with ⟨l, f, h1, h2⟩ | h
    · exact .inl ⟨l, f, List.mem_map.2 ⟨_, h1, rfl⟩, h2⟩
    · exact .inr h

/-- A frame as positional argument works, two frames in a list do not. -/
example (limit : ℕ) (h : 2 ≤ limit) :
    npCall (fun args _ => args.length) limit [.frame (⟨.reference, 1⟩ : Frame 2 ℚ)] [] = .ok 1 ∧
    npCall (fun args _ => args.length) limit
      [.list [.frame (⟨.reference, 1⟩ : Frame 2 ℚ), .frame ⟨.reference, 2⟩]] [] = .error .runtime :=
  ⟨C98_functions_partial _ _ _ (by simp) (by simp) limit h,
    C98_recursion_violated _ _ _ (.inl ⟨_, _, List.mem_singleton.2 rfl, List.mem_cons_self⟩) limit⟩

end Verif.FUfunc.Props
