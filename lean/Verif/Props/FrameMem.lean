import Verif.Model.FrameMem
import Mathlib.Data.Rat.Floor
import Mathlib.LinearAlgebra.Matrix.Notation
import Mathlib.Tactic.FinCases
import Mathlib.Tactic.NormNum

/-!
# Property C77: a frame holds the matrix it was given
-/

set_option linter.unusedSectionVars false

namespace Verif.FrameMem.Props
open Verif Verif.Utils Verif.Frames Verif.FrameMem

variable {n : ℕ} {K : Type} [Field K] [LinearOrder K] [FloorRing K]

/-- All arrays and frames refer to existing memory. -/
def Valid (s : State n K) : Prop :=
  (∀ a < s.nA, (s.arrays a).block < s.nB) ∧ ∀ f < s.nF, (s.frames f).block < s.nB ∧ (s.frames f).layout = .c

theorem alloc_read (s : State n K) (dt : DType) (A : Mat n K) (i j : Fin n) :
    ((s.alloc dt A).blocks s.nB).data ((⟨s.nB, 0, .c⟩ : View n).place i j) = store dt (A i j) := by
  have hn : 0 < n := i.pos
  have h1 : ((i : ℕ) * n + j) / n = i := by
    rw [Nat.mul_comm, Nat.mul_add_div hn, Nat.div_eq_of_lt j.2, Nat.add_zero]
  have h2 : ((i : ℕ) * n + j) % n = j := by
    rw [Nat.mul_comm, Nat.mul_add_mod, Nat.mod_eq_of_lt j.2]
  unfold State.alloc View.place
  simp only [Function.update_self, Nat.zero_add]
  rw [dif_pos ⟨hn, by rw [h1]; exact i.2⟩]
  simp only [h1, h2]

theorem assign_valid (s : State n K) (hs : Valid s) (f : ℕ) (v : View n) (hv : v.block < s.nB) :
    Valid (s.assign f v).1 := by
  have key : Valid { s with frames := Function.update s.frames f ⟨v.block, v.base, .c⟩ } := by
    refine ⟨hs.1, fun g hg => ?_⟩
    by_cases h : g = f
    · subst h
      simp only [Function.update_self]
      exact ⟨hv, trivial⟩
    · simp only [Function.update_of_ne h]
      exact hs.2 g hg
  unfold State.assign
  split
  · exact hs
  · exact key

theorem run_valid (s : State n K) (hs : Valid s) (op : Op n K) : Valid (op.run s).1 := by
  cases op with
  | newArray dt A =>
    refine ⟨fun a ha => ?_, fun f hf => ⟨Nat.lt_succ_of_lt (hs.2 f hf).1, (hs.2 f hf).2⟩⟩
    show (Function.update s.arrays s.nA _ a).block < s.nB + 1
    have ha : a < s.nA + 1 := ha
    by_cases h : a = s.nA
    · rw [h, Function.update_self]
      exact Nat.lt_succ_self _
    · rw [Function.update_of_ne h]
      exact Nat.lt_succ_of_lt (hs.1 a (by omega))
  | view c base layout =>
    show Valid (Op.run s (.view c base layout)).1
    dsimp only [Op.run]
    by_cases hv : c < s.nA
    · rw [if_pos hv]
      refine ⟨fun a ha => ?_, hs.2⟩
      show (Function.update s.arrays s.nA _ a).block < s.nB
      have ha : a < s.nA + 1 := ha
      by_cases h : a = s.nA
      · rw [h, Function.update_self]
        exact hs.1 c hv
      · rw [Function.update_of_ne h]
        exact hs.1 a (by omega)
    · rw [if_neg hv]
      exact hs
  | write a i j x =>
    show Valid (Op.run s (.write a i j x)).1
    dsimp only [Op.run]
    by_cases ha : a < s.nA
    · rw [if_pos ha]
      exact hs
    · rw [if_neg ha]
      exact hs
  | newFrame a =>
    show Valid (Op.run s (.newFrame a)).1
    dsimp only [Op.run]
    by_cases ha : a < s.nA
    · rw [if_pos ha]
      refine ⟨fun b hb => Nat.lt_succ_of_lt (hs.1 b hb), fun f hf => ?_⟩
      have hf : f < s.nF + 1 := hf
      show (Function.update s.frames s.nF _ f).block < s.nB + 1 ∧
        (Function.update s.frames s.nF _ f).layout = .c
      by_cases h : f = s.nF
      · rw [h, Function.update_self]
        exact ⟨Nat.lt_succ_self _, rfl⟩
      · rw [Function.update_of_ne h]
        have := hs.2 f (by omega)
        exact ⟨Nat.lt_succ_of_lt this.1, this.2⟩
    · rw [if_neg ha]
      exact hs
  | axesOf f =>
    show Valid (Op.run s (.axesOf f)).1
    dsimp only [Op.run]
    by_cases hf : f < s.nF
    · rw [if_pos hf]
      refine ⟨fun a ha => ?_, hs.2⟩
      show (Function.update s.arrays s.nA _ a).block < s.nB
      have ha : a < s.nA + 1 := ha
      by_cases h : a = s.nA
      · rw [h, Function.update_self]
        exact (hs.2 f hf).1
      · rw [Function.update_of_ne h]
        exact hs.1 a (by omega)
    · rw [if_neg hf]
      exact hs
  | setAxes f a =>
    show Valid (Op.run s (.setAxes f a)).1
    dsimp only [Op.run]
    by_cases h : f < s.nF ∧ a < s.nA
    · rw [if_pos h]
      exact assign_valid s hs f _ (hs.1 a h.2)
    · rw [if_neg h]
      exact hs
  | transpose f =>
    show Valid (Op.run s (.transpose f)).1
    dsimp only [Op.run]
    by_cases h : f < s.nF
    · rw [if_pos h]
      exact assign_valid s hs f _ (hs.2 f h).1
    · rw [if_neg h]
      exact hs
  | scale f dt x =>
    show Valid (Op.run s (.scale f dt x)).1
    dsimp only [Op.run]
    by_cases h : f < s.nF
    · rw [if_pos h]
      split
      · exact hs
      · refine ⟨fun b hb => Nat.lt_succ_of_lt (hs.1 b hb), fun g hg => ?_⟩
        show (Function.update s.frames f _ g).block < s.nB + 1 ∧
          (Function.update s.frames f _ g).layout = .c
        by_cases h : g = f
        · rw [h, Function.update_self]
          exact ⟨Nat.lt_succ_self _, rfl⟩
        · rw [Function.update_of_ne h]
          have := hs.2 g hg
          exact ⟨Nat.lt_succ_of_lt this.1, this.2⟩
    · rw [if_neg h]
      exact hs

/-- Nothing exists. -/
def empty : State n K :=
  ⟨0, fun _ => ⟨.float, fun _ => 0⟩, 0, fun _ => ⟨0, 0, .c⟩, 0, fun _ => ⟨0, 0, .c⟩⟩

theorem runOps_valid (ops : List (Op n K)) (s : State n K) (hs : Valid s) : Valid (runOps ops s) := by
  induction ops generalizing s with
  | nil => exact hs
  | cons op ops ih => exact ih _ (run_valid s hs op)

theorem empty_valid : Valid (empty : State n K) :=
  ⟨fun a ha => absurd ha (Nat.not_lt_zero a), fun f hf => absurd hf (Nat.not_lt_zero f)⟩

/-- The operation names the frame. -/
def Names (f : ℕ) : Op n K → Prop
  | .axesOf g => g = f
  | .setAxes g _ => g = f
  | .transpose g => g = f
  | .scale g _ _ => g = f
  | _ => False

/-- Nobody else refers to the memory of the frame. -/
def Own (s : State n K) (f : ℕ) : Prop :=
  f < s.nF ∧ (s.frames f).block < s.nB ∧ (∀ a < s.nA, (s.arrays a).block ≠ (s.frames f).block) ∧
    ∀ g < s.nF, g ≠ f → (s.frames g).block ≠ (s.frames f).block

theorem run_own (s : State n K) (hs : Valid s) (f : ℕ) (ho : Own s f) (op : Op n K)
    (hn : ¬ Names f op) :
    Own (op.run s).1 f ∧ (op.run s).1.axes f = s.axes f ∧
      (op.run s).1.frames f = s.frames f := by
  obtain ⟨hf, hb, ha, hg⟩ := ho
  have same : Own s f ∧ s.axes f = s.axes f ∧ s.frames f = s.frames f := ⟨⟨hf, hb, ha, hg⟩, rfl, rfl⟩
  have hne : (s.frames f).block ≠ s.nB := Nat.ne_of_lt hb
  have hassign : ∀ g < s.nF, g ≠ f → ∀ v : View n, v.block ≠ (s.frames f).block →
      Own (s.assign g v).1 f ∧ (s.assign g v).1.axes f = s.axes f ∧
        (s.assign g v).1.frames f = s.frames f := by
    intro g hgn hgf v hvb
    have key : Own { s with frames := Function.update s.frames g ⟨v.block, v.base, .c⟩ } f ∧
        State.axes { s with frames := Function.update s.frames g ⟨v.block, v.base, .c⟩ } f = s.axes f ∧
        (Function.update s.frames g ⟨v.block, v.base, .c⟩) f = s.frames f := by
      have e : Function.update s.frames g ⟨v.block, v.base, .c⟩ f = s.frames f :=
        Function.update_of_ne (Ne.symm hgf) _ _
      refine ⟨⟨hf, ?_, ?_, ?_⟩, ?_, e⟩
      · show (Function.update s.frames g _ f).block < s.nB
        rw [e]
        exact hb
      · show ∀ a < s.nA, (s.arrays a).block ≠ (Function.update s.frames g _ f).block
        rw [e]
        exact ha
      · intro k hk hkf
        show (Function.update s.frames g _ k).block ≠ (Function.update s.frames g _ f).block
        rw [e]
        by_cases h : k = g
        · rw [h, Function.update_self]
          exact hvb
        · rw [Function.update_of_ne h]
          exact hg k hk hkf
      · show State.read _ (Function.update s.frames g _ f) = _
        rw [e]
        rfl
    unfold State.assign
    split
    · exact same
    · exact key
  cases op with
  | newArray dt A =>
    have e : Function.update s.blocks s.nB ((s.alloc dt A).blocks s.nB) (s.frames f).block =
        s.blocks (s.frames f).block := Function.update_of_ne hne _ _
    refine ⟨⟨hf, Nat.lt_succ_of_lt hb, fun a h => ?_, hg⟩, ?_, rfl⟩
    · show (Function.update s.arrays s.nA _ a).block ≠ (s.frames f).block
      have h : a < s.nA + 1 := h
      by_cases h' : a = s.nA
      · rw [h', Function.update_self]
        exact Ne.symm hne
      · rw [Function.update_of_ne h']
        exact ha a (by omega)
    · funext i j
      show ((s.alloc dt A).blocks (s.frames f).block).data _ = _
      unfold State.alloc
      simp only [Function.update_of_ne hne]
      rfl
  | view c base layout =>
    show Own (Op.run s (.view c base layout)).1 f ∧
      (Op.run s (.view c base layout)).1.axes f = s.axes f ∧
      (Op.run s (.view c base layout)).1.frames f = s.frames f
    dsimp only [Op.run]
    by_cases hv : c < s.nA
    · rw [if_pos hv]
      refine ⟨⟨hf, hb, fun a h => ?_, hg⟩, rfl, rfl⟩
      show (Function.update s.arrays s.nA _ a).block ≠ (s.frames f).block
      have h : a < s.nA + 1 := h
      by_cases h' : a = s.nA
      · rw [h', Function.update_self]
        exact ha c hv
      · rw [Function.update_of_ne h']
        exact ha a (by omega)
    · rw [if_neg hv]
      exact same
  | write a i j x =>
    show Own (Op.run s (.write a i j x)).1 f ∧ (Op.run s (.write a i j x)).1.axes f = s.axes f ∧
      (Op.run s (.write a i j x)).1.frames f = s.frames f
    dsimp only [Op.run]
    by_cases h : a < s.nA
    · rw [if_pos h]
      refine ⟨⟨hf, hb, ha, hg⟩, ?_, rfl⟩
      funext i' j'
      show (Function.update s.blocks _ _ (s.frames f).block).data _ = _
      rw [Function.update_of_ne (Ne.symm (ha a h))]
      rfl
    · rw [if_neg h]
      exact same
  | newFrame a =>
    show Own (Op.run s (.newFrame a)).1 f ∧ (Op.run s (.newFrame a)).1.axes f = s.axes f ∧
      (Op.run s (.newFrame a)).1.frames f = s.frames f
    dsimp only [Op.run]
    split
    · have e : Function.update s.frames s.nF ⟨s.nB, 0, .c⟩ f = s.frames f :=
        Function.update_of_ne (Nat.ne_of_lt hf) _ _
      refine ⟨⟨Nat.lt_succ_of_lt hf, ?_, ?_, fun g h h' => ?_⟩, ?_, e⟩
      · show (Function.update s.frames s.nF _ f).block < s.nB + 1
        rw [e]
        exact Nat.lt_succ_of_lt hb
      · show ∀ a < s.nA, (s.arrays a).block ≠ (Function.update s.frames s.nF _ f).block
        rw [e]
        exact ha
      · show (Function.update s.frames s.nF _ g).block ≠ (Function.update s.frames s.nF _ f).block
        rw [e]
        have h : g < s.nF + 1 := h
        by_cases hh : g = s.nF
        · rw [hh, Function.update_self]
          exact Ne.symm hne
        · rw [Function.update_of_ne hh]
          exact hg g (by omega) h'
      · funext i j
        show ((s.alloc _ _).blocks (Function.update s.frames s.nF _ f).block).data
          ((Function.update s.frames s.nF _ f).place i j) = _
        rw [e]
        unfold State.alloc
        simp only [Function.update_of_ne hne]
        rfl
    · exact same
  | axesOf g =>
    show Own (Op.run s (.axesOf g)).1 f ∧ (Op.run s (.axesOf g)).1.axes f = s.axes f ∧
      (Op.run s (.axesOf g)).1.frames f = s.frames f
    dsimp only [Op.run]
    by_cases hgn : g < s.nF
    · rw [if_pos hgn]
      refine ⟨⟨hf, hb, fun a h => ?_, hg⟩, rfl, rfl⟩
      show (Function.update s.arrays s.nA _ a).block ≠ (s.frames f).block
      have h : a < s.nA + 1 := h
      by_cases h' : a = s.nA
      · rw [h', Function.update_self]
        exact hg g hgn hn
      · rw [Function.update_of_ne h']
        exact ha a (by omega)
    · rw [if_neg hgn]
      exact same
  | setAxes g a =>
    show Own (Op.run s (.setAxes g a)).1 f ∧ (Op.run s (.setAxes g a)).1.axes f = s.axes f ∧
      (Op.run s (.setAxes g a)).1.frames f = s.frames f
    dsimp only [Op.run]
    by_cases h : g < s.nF ∧ a < s.nA
    · rw [if_pos h]
      exact hassign g h.1 hn _ (ha a h.2)
    · rw [if_neg h]
      exact same
  | transpose g =>
    show Own (Op.run s (.transpose g)).1 f ∧ (Op.run s (.transpose g)).1.axes f = s.axes f ∧
      (Op.run s (.transpose g)).1.frames f = s.frames f
    dsimp only [Op.run]
    by_cases h : g < s.nF
    · rw [if_pos h]
      exact hassign g h hn _ (hg g h hn)
    · rw [if_neg h]
      exact same
  | scale g dt x =>
    show Own (Op.run s (.scale g dt x)).1 f ∧ (Op.run s (.scale g dt x)).1.axes f = s.axes f ∧
      (Op.run s (.scale g dt x)).1.frames f = s.frames f
    dsimp only [Op.run]
    by_cases h : g < s.nF
    · rw [if_pos h]
      split
      · exact same
      · have e : Function.update s.frames g ⟨s.nB, 0, .c⟩ f = s.frames f :=
          Function.update_of_ne (Ne.symm hn) _ _
        refine ⟨⟨hf, ?_, ?_, fun k hk hkf => ?_⟩, ?_, e⟩
        · show (Function.update s.frames g _ f).block < s.nB + 1
          rw [e]
          exact Nat.lt_succ_of_lt hb
        · show ∀ a < s.nA, (s.arrays a).block ≠ (Function.update s.frames g _ f).block
          rw [e]
          exact ha
        · show (Function.update s.frames g _ k).block ≠ (Function.update s.frames g _ f).block
          rw [e]
          by_cases hh : k = g
          · rw [hh, Function.update_self]
            exact Ne.symm hne
          · rw [Function.update_of_ne hh]
            exact hg k hk hkf
        · funext i j
          show ((s.alloc _ _).blocks (Function.update s.frames g _ f).block).data
            ((Function.update s.frames g _ f).place i j) = _
          rw [e]
          unfold State.alloc
          simp only [Function.update_of_ne hne]
          rfl
    · rw [if_neg h]
      exact same

/-- Reading an array of the user. -/
def entries (s : State n K) (a : ℕ) : Mat n K := s.read (s.arrays a)

/-- C77: whatever happened before, a frame made from an array, of any memory layout and dtype, has the
entries of the array as axes.  They stay the same whatever the program does with arrays and other
frames afterwards, as long as it does not name the frame. -/
theorem C77_constructor (before after : List (Op n K)) (a : ℕ)
    (ha : a < (runOps before (empty : State n K)).nA) :
    let s : State n K := runOps before empty
    let f := s.nF
    ((Op.newFrame a).run s).2 = none ∧ (((Op.newFrame a).run s).1.axes f = entries s a) ∧
      ((∀ op ∈ after, ¬ Names f op) →
        (runOps after ((Op.newFrame a).run s).1).axes f = entries s a) := by
  intro s f
  have hs : Valid s := runOps_valid before _ empty_valid
  have hrun : (Op.newFrame a).run s = ({ s.alloc .float (s.read (s.arrays a)) with
      nF := s.nF + 1, frames := Function.update s.frames s.nF ⟨s.nB, 0, .c⟩ }, none) := by
    show Op.run s (.newFrame a) = _
    dsimp only [Op.run]
    rw [if_pos ha]
  have hax : ((Op.newFrame a).run s).1.axes f = entries s a := by
    rw [hrun]
    funext i j
    show ((s.alloc _ _).blocks (Function.update s.frames s.nF _ f).block).data
      ((Function.update s.frames s.nF _ f).place i j) = _
    rw [show Function.update s.frames s.nF ⟨s.nB, 0, .c⟩ f = ⟨s.nB, 0, .c⟩ from
      Function.update_self _ _ _]
    exact alloc_read s .float _ i j
  have hown : Own ((Op.newFrame a).run s).1 f := by
    have e : ((Op.newFrame a).run s).1.frames f = ⟨s.nB, 0, .c⟩ := by
      rw [hrun]
      exact Function.update_self _ _ _
    unfold Own
    rw [e, hrun]
    refine ⟨Nat.lt_succ_self _, Nat.lt_succ_self _, fun b hb => Nat.ne_of_lt (hs.1 b hb),
      fun g hg hgf => ?_⟩
    have hg : g < s.nF + 1 := hg
    show (Function.update s.frames s.nF _ g).block ≠ s.nB
    rw [Function.update_of_ne hgf]
    exact Nat.ne_of_lt (hs.2 g (by have : g ≠ s.nF := hgf; omega)).1
  refine ⟨by rw [hrun], hax, fun hafter => ?_⟩
  rw [← hax]
  have hv := run_valid s hs (.newFrame a)
  generalize ((Op.newFrame a).run s).1 = t at hafter hown hv
  induction after generalizing t with
  | nil => rfl
  | cons op ops ih =>
    obtain ⟨h1, h2, h3⟩ := run_own t hv f hown op (hafter op (List.mem_cons_self ..))
    have := ih (fun o ho => hafter o (List.mem_cons_of_mem _ ho)) (op.run t).1 h1 (run_valid t hv op)
    show (runOps ops (op.run t).1).axes f = _
    rw [this, h2]

/-- C77, partial: assigning an array in C order makes its entries the axes.

Missing, because it is false: arrays in Fortran order (`C77_fortran_violated`), independence of the
assigned array (`C77_alias_violated`), arrays that are not contiguous (`C77_strided_refused`). -/
theorem C77_setter_partial (s : State n K) (f a : ℕ) (hf : f < s.nF) (ha : a < s.nA)
    (hl : (s.arrays a).layout = .c) :
    ((Op.setAxes f a).run s).2 = none ∧ ((Op.setAxes f a).run s).1.axes f = entries s a := by
  show (Op.run s (.setAxes f a)).2 = none ∧ (Op.run s (.setAxes f a)).1.axes f = entries s a
  dsimp only [Op.run, State.assign]
  rw [if_pos ⟨hf, ha⟩, hl]
  refine ⟨rfl, ?_⟩
  funext i j
  show ((s.blocks (Function.update s.frames f _ f).block).data
      ((Function.update s.frames f _ f).place i j)) = _
  rw [Function.update_self]
  unfold entries State.read View.place
  rw [hl]

/-- C77 is violated: assigning an array in Fortran order, for instance `f.axes = A.T`, makes the
transpose of its entries the axes. -/
theorem C77_fortran_violated (s : State n K) (f a : ℕ) (hf : f < s.nF) (ha : a < s.nA)
    (hl : (s.arrays a).layout = .f) :
    ((Op.setAxes f a).run s).2 = none ∧
      ((Op.setAxes f a).run s).1.axes f = (entries s a).transpose := by
  show (Op.run s (.setAxes f a)).2 = none ∧ (Op.run s (.setAxes f a)).1.axes f = _
  dsimp only [Op.run, State.assign]
  rw [if_pos ⟨hf, ha⟩, hl]
  refine ⟨rfl, ?_⟩
  funext i j
  show ((s.blocks (Function.update s.frames f _ f).block).data
      ((Function.update s.frames f _ f).place i j)) = _
  rw [Function.update_self]
  rw [Matrix.transpose_apply]
  unfold entries State.read View.place
  rw [hl]

/-- C77: other arrays are refused, and nothing changes. -/
theorem C77_strided_refused (s : State n K) (f a : ℕ) (hf : f < s.nF) (ha : a < s.nA)
    (place : Fin n → Fin n → ℕ) (hl : (s.arrays a).layout = .strided place) :
    (Op.setAxes f a).run s = (s, some .value) := by
  show Op.run s (.setAxes f a) = _
  dsimp only [Op.run, State.assign]
  rw [if_pos ⟨hf, ha⟩, hl]

/-- C77 is violated: `f.transpose(inplace=True)` raises nothing and changes nothing. -/
theorem C77_transpose_violated (before : List (Op n K)) (f : ℕ)
    (hf : f < (runOps before (empty : State n K)).nF) :
    let s : State n K := runOps before empty
    ((Op.transpose f).run s).2 = none ∧ ((Op.transpose f).run s).1.axes f = s.axes f := by
  intro s
  have hl := (runOps_valid before _ (empty_valid (n := n) (K := K))).2 f hf |>.2
  show (Op.run s (.transpose f)).2 = none ∧ (Op.run s (.transpose f)).1.axes f = _
  dsimp only [Op.run, State.assign]
  rw [if_pos hf]
  refine ⟨rfl, ?_⟩
  funext i j
  show ((s.blocks (Function.update s.frames f _ f).block).data
      ((Function.update s.frames f _ f).place i j)) = _
  rw [Function.update_self]
  unfold State.axes State.read View.place
  rw [show (s.frames f).layout = .c from hl]

/-- C77 is violated: an assigned array shares its memory with the frame; writing into it changes the
frame. -/
theorem C77_alias_violated (s : State n K) (f a : ℕ) (hf : f < s.nF) (ha : a < s.nA)
    (hl : (s.arrays a).layout = .c) (hd : (s.blocks (s.arrays a).block).dtype = .float)
    (i j : Fin n) (x : K) :
    (runOps [.setAxes f a, .write a i j x] s).axes f i j = x := by
  show (Op.run (Op.run s (.setAxes f a)).1 (.write a i j x)).1.axes f i j = x
  have e : (Op.run s (.setAxes f a)).1 =
      { s with frames := Function.update s.frames f ⟨(s.arrays a).block, (s.arrays a).base, .c⟩ } := by
    dsimp only [Op.run, State.assign]
    rw [if_pos ⟨hf, ha⟩, hl]
  rw [e]
  dsimp only [Op.run]
  simp only [if_pos ha]
  show (Function.update s.blocks _ _ (Function.update s.frames f _ f).block).data
    ((Function.update s.frames f _ f).place i j) = x
  rw [Function.update_self, Function.update_self]
  have hp : (⟨(s.arrays a).block, (s.arrays a).base, .c⟩ : View n).place i j =
      (s.arrays a).place i j := by
    unfold View.place
    rw [hl]
  rw [hp]
  simp only [Function.update_self, hd]
  rfl

/-- C77: `f *= x` multiplies the axes of a frame with float axes by `x`. -/
theorem C77_scale_partial (s : State n K) (f : ℕ) (hf : f < s.nF) (dt : DType) (x : K)
    (hd : (s.blocks (s.frames f).block).dtype = .float) :
    ((Op.scale f dt x).run s).2 = none ∧
      ∀ i j, ((Op.scale f dt x).run s).1.axes f i j = s.axes f i j * x := by
  show (Op.run s (.scale f dt x)).2 = none ∧ ∀ i j, (Op.run s (.scale f dt x)).1.axes f i j = _
  dsimp only [Op.run]
  rw [if_pos hf]
  simp only [hd]
  rw [if_neg (by simp)]
  refine ⟨rfl, fun i j => ?_⟩
  show ((s.alloc _ _).blocks (Function.update s.frames f _ f).block).data
    ((Function.update s.frames f _ f).place i j) = _
  rw [Function.update_self]
  exact alloc_read s .float _ i j

/-- C77 is violated: after assigning an array of integers, `f *= 0.5` raises an exception. -/
theorem C77_integer_violated (s : State n K) (f a : ℕ) (hf : f < s.nF) (ha : a < s.nA)
    (hl : (s.arrays a).layout = .c) (hd : (s.blocks (s.arrays a).block).dtype = .int) (x : K) :
    ((Op.scale f .float x).run ((Op.setAxes f a).run s).1).2 = some .type := by
  have e : (Op.run s (.setAxes f a)).1 =
      { s with frames := Function.update s.frames f ⟨(s.arrays a).block, (s.arrays a).base, .c⟩ } := by
    dsimp only [Op.run, State.assign]
    rw [if_pos ⟨hf, ha⟩, hl]
  show (Op.run (Op.run s (.setAxes f a)).1 (.scale f .float x)).2 = _
  rw [e]
  dsimp only [Op.run]
  simp only [if_pos hf, Function.update_self, hd]
  simp

/-- A frame made from the transpose of `[[1, 2], [3, 4]]`; writing into the array afterwards does not
matter.  Assigning the transpose gives the matrix itself. -/
example :
    let s : State 2 ℚ := runOps [.newArray .float !![1, 2; 3, 4], .view 0 0 .f, .newFrame 1,
      .write 0 0 1 7] empty
    s.axes 0 0 1 = 3 ∧ s.axes 0 1 0 = 2 ∧
      ((Op.setAxes 0 1).run s).1.axes 0 0 1 = 7 ∧ entries s 1 0 1 = 3 := by
  refine ⟨by decide +kernel, by decide +kernel, by decide +kernel, by decide +kernel⟩

end Verif.FrameMem.Props
