import Verif.Proofs.WeakRefs
import Verif.Props.Frames

/-! # Tensors that are no longer used (C122) -/

set_option linter.unusedSectionVars false

namespace Verif.Weak.Props

open Verif.Frames Verif.Weak Matrix

section
variable {n : ℕ} {K : Type} [Field K] [LinearOrder K]

/-- Nothing exists. -/
def emptySt : St n K := ⟨0, fun _ => ⟨⟨.reference, 1⟩, []⟩, 0, fun _ => ⟨.vec 0, 0, 0, false⟩⟩

/-- Tensor `t` exists and somebody refers to it. -/
def Alive (h : St n K) (t : ℕ) : Prop := t < h.nT ∧ (h.tensors t).alive = true

/-- The conditions of C42: no `CartesianFrame` gets axes that are not orthonormal.  The allocator gives
no address to a new tensor at which another one lives.  The frame of the array of a tensor is not
assigned behind its back. -/
def SoundOp (cfg : Cfg K) (h : St n K) : Op n K → Prop
  | .newFrame cls axes =>
      cls = .cartesian → (∃ f, mkFrame cfg cls axes = .ok f) → Orthonormal axes
  | .newTensor _ _ addr | .copyTensor _ addr | .deepcopyTensor _ addr =>
      ∀ s, Alive h s → (h.tensors s).addr ≠ addr
  | .setAxes f value => (h.frames f).frame.cls = .cartesian → Orthonormal value
  | .orient f R => (h.frames f).frame.cls = .cartesian → R * Rᵀ = 1
  | .setArrayFrame _ _ => False
  | _ => True

/-- Every statement is sound in the state in which it is executed. -/
def SoundOps (cfg : Cfg K) : List (Op n K) → St n K → Prop
  | [], _ => True
  | op :: ops, h => SoundOp cfg h op ∧ SoundOps cfg ops (op.run cfg h).1

/-- The statement without the choice of the allocator. -/
def noAddr : Op n K → Op n K
  | .newTensor c f _ => .newTensor c f 0
  | .copyTensor t _ => .copyTensor t 0
  | .deepcopyTensor t _ => .deepcopyTensor t 0
  | op => op

/-! ## Lemmas -/

theorem emptySt_inv : (emptySt : St n K).Inv := by
  refine ⟨fun t ht => absurd ht.1 (Nat.not_lt_zero t), fun f a s => ?_, fun f => List.nodup_nil,
    fun s t hs => absurd hs.1 (Nat.not_lt_zero s), fun f hf => absurd hf (Nat.not_lt_zero f)⟩
  constructor
  · intro h; exact absurd h List.not_mem_nil
  · rintro ⟨h, -⟩; exact absurd h.1 (Nat.not_lt_zero s)

theorem op_inv (cfg : Cfg K) {h : St n K} (hi : h.Inv) (op : Op n K) (hs : SoundOp cfg h op) :
    (op.run cfg h).1.Inv ∧ h.Keeps (op.run cfg h).1 := by
  cases op with
  | newFrame cls axes =>
    show (h.newFrame cfg cls axes).1.Inv ∧ h.Keeps (h.newFrame cfg cls axes).1
    unfold St.newFrame
    cases hm : mkFrame cfg cls axes with
    | error e => exact ⟨hi, St.Keeps.refl h⟩
    | ok f =>
      refine addFrame_inv hi ?_
      rw [mkFrame_ok hm]
      exact fun hc => hs hc ⟨f, hm⟩
  | newTensor c f addr => exact newTensor_inv hi c hs
  | copyTensor t addr =>
    show (h.copyTensor t addr).1.Inv ∧ h.Keeps (h.copyTensor t addr).1
    unfold St.copyTensor
    split
    · exact newTensor_inv hi _ hs
    · exact ⟨hi, St.Keeps.refl h⟩
  | deepcopyTensor t addr =>
    show (h.deepcopyTensor t addr).1.Inv ∧ h.Keeps (h.deepcopyTensor t addr).1
    unfold St.deepcopyTensor
    split
    · obtain ⟨a1, a2⟩ := addFrame_inv hi
        (g := ⟨.reference, (h.frames (h.tensors t).frame).frame.axes⟩) (by intro hx; cases hx)
      obtain ⟨b1, b2⟩ := newTensor_inv a1 (h.tensors t).comps (f := h.nF) (addr := addr) hs
      exact ⟨b1, a2.trans b2⟩
    · exact ⟨hi, St.Keeps.refl h⟩
  | drop t => exact drop_inv hi t
  | setFrame t f => exact ⟨(setFrame_inv cfg hi t f).1, (setFrame_inv cfg hi t f).2.1⟩
  | setFrameArray t axes =>
    obtain ⟨a1, a2⟩ := addFrame_inv hi (g := ⟨.reference, axes⟩) (by intro hx; cases hx)
    have := setFrame_inv cfg a1 t h.nF
    exact ⟨this.1, a2.trans this.2.1⟩
  | setArrayFrame t f => exact hs.elim
  | setAxes f value => exact setAxes_inv cfg hi f value fun _ => hs
  | inplace f o => exact inplace_inv cfg hi f o
  | orient f R =>
    refine setAxes_inv cfg hi f _ fun hf hc => ?_
    rw [orient_axes]
    exact orthonormal_mul (hi.cart f hf hc) (hs hc)

theorem ops_inv (cfg : Cfg K) (ops : List (Op n K)) {h : St n K} (hi : h.Inv)
    (hs : SoundOps cfg ops h) : (runOps cfg ops h).1.Inv ∧ h.Keeps (runOps cfg ops h).1 := by
  induction ops generalizing h with
  | nil => exact ⟨hi, St.Keeps.refl h⟩
  | cons op ops ih =>
    obtain ⟨h1, h2⟩ := op_inv cfg hi op hs.1
    obtain ⟨h3, h4⟩ := ih h1 hs.2
    exact ⟨h3, h2.trans h4⟩

theorem runOps_append (cfg : Cfg K) (a b : List (Op n K)) (h : St n K) :
    (runOps cfg (a ++ b) h).1 = (runOps cfg b (runOps cfg a h).1).1 := by
  induction a generalizing h with
  | nil => rfl
  | cons op a ih => exact ih _

theorem soundOps_append (cfg : Cfg K) (a b : List (Op n K)) (h : St n K) :
    SoundOps cfg (a ++ b) h → SoundOps cfg a h ∧ SoundOps cfg b (runOps cfg a h).1 := by
  induction a generalizing h with
  | nil => exact fun hs => ⟨trivial, hs⟩
  | cons op a ih =>
    intro hs
    obtain ⟨h1, h2⟩ := ih _ hs.2
    exact ⟨⟨hs.1, h1⟩, h2⟩

/-- The two states differ in the addresses at most. -/
structure Same (h h' : St n K) : Prop where
  nF : h.nF = h'.nF
  nT : h.nT = h'.nT
  frame : ∀ f, (h.frames f).frame = (h'.frames f).frame
  dict : ∀ f, (h.frames f).dict.map Prod.snd = (h'.frames f).dict.map Prod.snd
  comps : ∀ t, (h.tensors t).comps = (h'.tensors t).comps
  home : ∀ t, (h.tensors t).frame = (h'.tensors t).frame
  alive : ∀ t, (h.tensors t).alive = (h'.tensors t).alive

theorem Same.usable {h h' : St n K} (s : Same h h') (t : ℕ) : h.usable t ↔ h'.usable t := by
  unfold St.usable
  rw [s.nT, s.alive]

theorem same_addFrame {h h' : St n K} (s : Same h h') (g : Frame n K) :
    Same (h.addFrame g) (h'.addFrame g) := by
  unfold St.addFrame
  refine ⟨by simp only; rw [s.nF], s.nT, fun f => ?_, fun f => ?_, s.comps, s.home, s.alive⟩
  · simp only
    rw [s.nF]
    by_cases hf : f = h'.nF
    · subst hf; rw [Function.update_self, Function.update_self]
    · rw [Function.update_of_ne hf, Function.update_of_ne hf]; exact s.frame f
  · simp only
    rw [s.nF]
    by_cases hf : f = h'.nF
    · subst hf; rw [Function.update_self, Function.update_self]
    · rw [Function.update_of_ne hf, Function.update_of_ne hf]; exact s.dict f

theorem same_newTensor {h h' : St n K} (s : Same h h') (hi : h.Inv) (hi' : h'.Inv) (c : Comps n K)
    (f addr addr' : ℕ) (ha : h.free addr) (ha' : h'.free addr') :
    Same (h.newTensor c f addr).1 (h'.newTensor c f addr').1 ∧
      (h.newTensor c f addr).2 = (h'.newTensor c f addr').2 := by
  by_cases hf : f < h.nF
  · have hf' : f < h'.nF := by rw [← s.nF]; exact hf
    rw [newTensor_eq hi c hf ha, newTensor_eq hi' c hf' ha']
    have ht : ∀ t, (Function.update h.tensors h.nT ⟨c, f, addr, true⟩ t).comps =
        (Function.update h'.tensors h'.nT ⟨c, f, addr', true⟩ t).comps ∧
        (Function.update h.tensors h.nT ⟨c, f, addr, true⟩ t).frame =
        (Function.update h'.tensors h'.nT ⟨c, f, addr', true⟩ t).frame ∧
        (Function.update h.tensors h.nT ⟨c, f, addr, true⟩ t).alive =
        (Function.update h'.tensors h'.nT ⟨c, f, addr', true⟩ t).alive := by
      intro t
      rw [s.nT]
      by_cases htn : t = h'.nT
      · subst htn; rw [Function.update_self, Function.update_self]; exact ⟨rfl, rfl, rfl⟩
      · rw [Function.update_of_ne htn, Function.update_of_ne htn]
        exact ⟨s.comps t, s.home t, s.alive t⟩
    refine ⟨⟨s.nF, by simp only; rw [s.nT], fun g => ?_, fun g => ?_, fun t => (ht t).1,
      fun t => (ht t).2.1, fun t => (ht t).2.2⟩, rfl⟩
    · simp only
      by_cases hg : g = f
      · subst hg; rw [Function.update_self, Function.update_self]; exact s.frame g
      · rw [Function.update_of_ne hg, Function.update_of_ne hg]; exact s.frame g
    · simp only
      by_cases hg : g = f
      · subst hg
        rw [Function.update_self, Function.update_self]
        simp only [List.map_append, List.map_singleton]
        rw [s.dict g, s.nT]
      · rw [Function.update_of_ne hg, Function.update_of_ne hg]; exact s.dict g
  · have hf' : ¬ f < h'.nF := by rw [← s.nF]; exact hf
    unfold St.newTensor
    rw [if_neg hf, if_neg hf']
    exact ⟨s, rfl⟩

theorem filter_snd (d : List (ℕ × ℕ)) (t : ℕ) :
    (d.filter fun e => e.2 ≠ t).map Prod.snd = (d.map Prod.snd).filter (· ≠ t) := by
  rw [List.filter_map]
  rfl

theorem same_drop {h h' : St n K} (s : Same h h') (t : ℕ) :
    Same (h.drop t).1 (h'.drop t).1 ∧ (h.drop t).2 = (h'.drop t).2 := by
  unfold St.drop
  by_cases hu : h.usable t
  · rw [if_pos hu, if_pos ((s.usable t).1 hu)]
    refine ⟨⟨s.nF, s.nT, s.frame, fun f => ?_, fun u => ?_, fun u => ?_, fun u => ?_⟩, rfl⟩
    · simp only
      rw [filter_snd, filter_snd, s.dict]
    all_goals
      simp only
      by_cases hut : u = t
      · subst hut
        rw [Function.update_self, Function.update_self]
        try first | exact s.comps u | exact s.home u | rfl
      · rw [Function.update_of_ne hut, Function.update_of_ne hut]
        first | exact s.comps u | exact s.home u | exact s.alive u
  · rw [if_neg hu, if_neg (fun h1 => hu ((s.usable t).2 h1))]
    exact ⟨s, rfl⟩

theorem same_setFrame (cfg : Cfg K) {h h' : St n K} (s : Same h h') (hi : h.Inv) (hi' : h'.Inv)
    (t f : ℕ) :
    Same (h.setFrame cfg t f).1 (h'.setFrame cfg t f).1 ∧
      (h.setFrame cfg t f).2 = (h'.setFrame cfg t f).2 := by
  rw [setFrame_eq cfg hi, setFrame_eq cfg hi']
  by_cases hu : h.usable t ∧ f < h.nF
  · have hu' : h'.usable t ∧ f < h'.nF := ⟨(s.usable t).1 hu.1, by rw [← s.nF]; exact hu.2⟩
    rw [if_pos hu, if_pos hu', s.home t, s.frame, s.frame, s.comps]
    cases showIn cfg (h'.frames (h'.tensors t).frame).frame (h'.tensors t).comps
      (some (h'.frames f).frame) with
    | error e => exact ⟨s, rfl⟩
    | ok c =>
      refine ⟨⟨s.nF, s.nT, s.frame, fun g => ?_, fun u => ?_, fun u => ?_, fun u => ?_⟩, rfl⟩
      · simp only
        rw [List.map_append, List.map_append, filter_snd, filter_snd, s.dict]
        congr 1
        split <;> rfl
      all_goals
        simp only
        by_cases hut : u = t
        · subst hut
          rw [Function.update_self, Function.update_self]
          try first | rfl | exact s.alive u
        · rw [Function.update_of_ne hut, Function.update_of_ne hut]
          first | exact s.comps u | exact s.home u | exact s.alive u
  · have hu' : ¬ (h'.usable t ∧ f < h'.nF) := by rw [← s.usable t, ← s.nF]; exact hu
    rw [if_neg hu, if_neg hu']
    exact ⟨s, rfl⟩

theorem same_setAxes (cfg : Cfg K) {h h' : St n K} (s : Same h h') (hi : h.Inv) (hi' : h'.Inv)
    (f : ℕ) (value : Mat n K) :
    Same (h.setAxes cfg f value).1 (h'.setAxes cfg f value).1 ∧
      (h.setAxes cfg f value).2 = (h'.setAxes cfg f value).2 := by
  unfold St.setAxes
  have hfr : ∀ g, (Function.update h.frames f
      ⟨⟨(h'.frames f).frame.cls, value⟩, (h.frames f).dict⟩ g).frame =
      (Function.update h'.frames f ⟨⟨(h'.frames f).frame.cls, value⟩, (h'.frames f).dict⟩ g).frame ∧
      (Function.update h.frames f
      ⟨⟨(h'.frames f).frame.cls, value⟩, (h.frames f).dict⟩ g).dict.map Prod.snd =
      (Function.update h'.frames f
        ⟨⟨(h'.frames f).frame.cls, value⟩, (h'.frames f).dict⟩ g).dict.map Prod.snd := by
    intro g
    by_cases hg : g = f
    · subst hg; rw [Function.update_self, Function.update_self]; exact ⟨rfl, s.dict g⟩
    · rw [Function.update_of_ne hg, Function.update_of_ne hg]; exact ⟨s.frame g, s.dict g⟩
  by_cases hf : f < h.nF
  · have hf' : f < h'.nF := by rw [← s.nF]; exact hf
    rw [if_pos hf, if_pos hf']
    simp only
    rw [s.frame f]
    have hemp : (h.frames f).dict = [] ↔ (h'.frames f).dict = [] := by
      rw [← List.map_eq_nil_iff (f := Prod.snd), s.dict, List.map_eq_nil_iff]
    by_cases he : (h.frames f).dict = []
    · rw [if_pos he, if_pos (hemp.1 he)]
      exact ⟨⟨s.nF, s.nT, fun g => (hfr g).1, fun g => (hfr g).2, s.comps, s.home, s.alive⟩, rfl⟩
    · rw [if_neg he, if_neg (fun h1 => he (hemp.2 h1))]
      cases (h'.frames f).frame.dcmTarget cfg ⟨.reference, value⟩ with
      | error e => exact ⟨s, rfl⟩
      | ok dcm =>
        have hts : ∀ t, _ := fun t => foldl_transform' dcm _ (hi.nodup f) h.tensors t
        have hts' : ∀ t, _ := fun t => foldl_transform' dcm _ (hi'.nodup f) h'.tensors t
        refine ⟨⟨s.nF, s.nT, fun g => (hfr g).1, fun g => (hfr g).2, fun t => ?_,
          fun t => ?_, fun t => ?_⟩, rfl⟩
        all_goals
          simp only
          rw [hts, hts', s.dict]
          split
          · simp only [s.comps, s.home, s.alive]
          · first | exact s.comps t | exact s.home t | exact s.alive t
  · have hf' : ¬ f < h'.nF := by rw [← s.nF]; exact hf
    rw [if_neg hf, if_neg hf']
    exact ⟨s, rfl⟩

theorem same_moveAll (cfg : Cfg K) (f : ℕ) (ts : List ℕ) {h h' : St n K} (s : Same h h')
    (hi : h.Inv) (hi' : h'.Inv) :
    Same (h.moveAll cfg f ts).1 (h'.moveAll cfg f ts).1 ∧
      (h.moveAll cfg f ts).2 = (h'.moveAll cfg f ts).2 := by
  induction ts generalizing h h' with
  | nil => exact ⟨s, rfl⟩
  | cons t ts ih =>
    obtain ⟨s1, s2⟩ := same_setFrame cfg s hi hi' t f
    have i1 := (setFrame_inv cfg hi t f).1
    have i2 := (setFrame_inv cfg hi' t f).1
    unfold St.moveAll
    cases he : h.setFrame cfg t f with
    | mk g e =>
      cases he' : h'.setFrame cfg t f with
      | mk g' e' =>
        rw [he] at s1 s2 i1
        rw [he'] at s1 s2 i2
        simp only at s2
        subst s2
        cases e with
        | none => exact ih s1 i1 i2
        | some e => exact ⟨s1, rfl⟩

theorem same_inplace (cfg : Cfg K) {h h' : St n K} (s : Same h h') (hi : h.Inv) (hi' : h'.Inv)
    (f : ℕ) (o : Operand n K) :
    Same (h.inplace cfg f o).1 (h'.inplace cfg f o).1 ∧
      (h.inplace cfg f o).2 = (h'.inplace cfg f o).2 := by
  unfold St.inplace
  by_cases hf : f < h.nF
  · have hf' : f < h'.nF := by rw [← s.nF]; exact hf
    rw [if_pos hf, if_pos hf']
    simp only
    rw [s.frame f]
    cases hr : o.rtype (h'.frames f).frame.cls with
    | none => exact same_setAxes cfg s hi hi' f _
    | some r =>
      simp only
      have hrc := rtype_not_cartesian o _ r hr
      cases hm : mkFrame cfg r (h'.frames f).frame.axes with
      | error e => exact ⟨s, rfl⟩
      | ok g =>
        simp only
        have hgc : CartOK g := by
          intro hcls; rw [mkFrame_ok hm] at hcls; exact absurd hcls hrc
        have a1 := (addFrame_inv hi hgc).1
        have a1' := (addFrame_inv hi' hgc).1
        have m1 := same_moveAll cfg h'.nF ((h'.frames f).dict.map Prod.snd) (same_addFrame s g) a1 a1'
        have i1 := (moveAll_inv cfg h'.nF ((h'.frames f).dict.map Prod.snd) a1).1
        have i2 := (moveAll_inv cfg h'.nF ((h'.frames f).dict.map Prod.snd) a1').1
        rw [s.dict f, s.nF]
        cases he : (h.addFrame g).moveAll cfg h'.nF ((h'.frames f).dict.map Prod.snd) with
        | mk k e =>
          cases he' : (h'.addFrame g).moveAll cfg h'.nF ((h'.frames f).dict.map Prod.snd) with
          | mk k' e' =>
            rw [he] at m1 i1
            rw [he'] at m1 i2
            obtain ⟨m1, m2⟩ := m1
            simp only at m2
            subst m2
            cases e with
            | none => exact same_setAxes cfg m1 i1 i2 _ _
            | some e => exact ⟨m1, rfl⟩
  · have hf' : ¬ f < h'.nF := by rw [← s.nF]; exact hf
    rw [if_neg hf, if_neg hf']
    exact ⟨s, rfl⟩

theorem same_op (cfg : Cfg K) {h h' : St n K} (s : Same h h') (hi : h.Inv) (hi' : h'.Inv)
    (op op' : Op n K) (ho : noAddr op = noAddr op') (hs : SoundOp cfg h op)
    (hs' : SoundOp cfg h' op') :
    Same (op.run cfg h).1 (op'.run cfg h').1 ∧ (op.run cfg h).2 = (op'.run cfg h').2 := by
  cases op with
  | newTensor c f addr =>
    cases op' <;> simp only [noAddr, Op.newTensor.injEq, reduceCtorEq] at ho
    obtain ⟨rfl, rfl, -⟩ := ho
    exact same_newTensor s hi hi' _ _ _ _ hs hs'
  | copyTensor t addr =>
    cases op' <;> simp only [noAddr, Op.copyTensor.injEq, reduceCtorEq] at ho
    obtain ⟨rfl, -⟩ := ho
    show Same (h.copyTensor t addr).1 (h'.copyTensor t _).1 ∧
      (h.copyTensor t addr).2 = (h'.copyTensor t _).2
    unfold St.copyTensor
    by_cases hu : h.usable t
    · rw [if_pos hu, if_pos ((s.usable t).1 hu), s.comps, s.home]
      exact same_newTensor s hi hi' _ _ _ _ hs hs'
    · rw [if_neg hu, if_neg (fun h1 => hu ((s.usable t).2 h1))]
      exact ⟨s, rfl⟩
  | deepcopyTensor t addr =>
    cases op' <;> simp only [noAddr, Op.deepcopyTensor.injEq, reduceCtorEq] at ho
    obtain ⟨rfl, -⟩ := ho
    show Same (h.deepcopyTensor t addr).1 (h'.deepcopyTensor t _).1 ∧
      (h.deepcopyTensor t addr).2 = (h'.deepcopyTensor t _).2
    unfold St.deepcopyTensor
    by_cases hu : h.usable t
    · rw [if_pos hu, if_pos ((s.usable t).1 hu), s.comps, s.home, s.frame, s.nF]
      have e := addFrame_inv hi
        (g := ⟨.reference, (h'.frames (h'.tensors t).frame).frame.axes⟩) (by intro hx; cases hx)
      have e' := addFrame_inv hi'
        (g := ⟨.reference, (h'.frames (h'.tensors t).frame).frame.axes⟩) (by intro hx; cases hx)
      exact same_newTensor (same_addFrame s _) e.1 e'.1 _ _ _ _ hs hs'
    · rw [if_neg hu, if_neg (fun h1 => hu ((s.usable t).2 h1))]
      exact ⟨s, rfl⟩
  | newFrame cls axes =>
    cases op' <;> simp only [noAddr, Op.newFrame.injEq, reduceCtorEq] at ho
    obtain ⟨rfl, rfl⟩ := ho
    show Same (h.newFrame cfg cls axes).1 (h'.newFrame cfg cls axes).1 ∧
      (h.newFrame cfg cls axes).2 = (h'.newFrame cfg cls axes).2
    unfold St.newFrame
    cases mkFrame cfg cls axes with
    | error e => exact ⟨s, rfl⟩
    | ok g => exact ⟨same_addFrame s g, rfl⟩
  | drop t =>
    cases op' <;> simp only [noAddr, Op.drop.injEq, reduceCtorEq] at ho
    subst ho
    exact same_drop s t
  | setFrame t f =>
    cases op' <;> simp only [noAddr, Op.setFrame.injEq, reduceCtorEq] at ho
    obtain ⟨rfl, rfl⟩ := ho
    exact same_setFrame cfg s hi hi' t f
  | setFrameArray t axes =>
    cases op' <;> simp only [noAddr, Op.setFrameArray.injEq, reduceCtorEq] at ho
    obtain ⟨rfl, rfl⟩ := ho
    show Same (h.setFrameArray cfg t axes).1 (h'.setFrameArray cfg t axes).1 ∧
      (h.setFrameArray cfg t axes).2 = (h'.setFrameArray cfg t axes).2
    unfold St.setFrameArray
    rw [s.nF]
    exact same_setFrame cfg (same_addFrame s _) (addFrame_inv hi (by intro hx; cases hx)).1
      (addFrame_inv hi' (by intro hx; cases hx)).1 t _
  | setArrayFrame t f => exact hs.elim
  | setAxes f value =>
    cases op' <;> simp only [noAddr, Op.setAxes.injEq, reduceCtorEq] at ho
    obtain ⟨rfl, rfl⟩ := ho
    exact same_setAxes cfg s hi hi' f value
  | inplace f o =>
    cases op' <;> simp only [noAddr, Op.inplace.injEq, reduceCtorEq] at ho
    obtain ⟨rfl, rfl⟩ := ho
    exact same_inplace cfg s hi hi' f o
  | orient f R =>
    cases op' <;> simp only [noAddr, Op.orient.injEq, reduceCtorEq] at ho
    obtain ⟨rfl, rfl⟩ := ho
    show Same (h.orient cfg f R).1 (h'.orient cfg f R).1 ∧
      (h.orient cfg f R).2 = (h'.orient cfg f R).2
    unfold St.orient
    rw [s.frame f]
    exact same_setAxes cfg s hi hi' f _

theorem same_ops (cfg : Cfg K) (p q : List (Op n K)) {h h' : St n K} (s : Same h h') (hi : h.Inv)
    (hi' : h'.Inv) (ho : p.map noAddr = q.map noAddr) (hs : SoundOps cfg p h)
    (hs' : SoundOps cfg q h') :
    Same (runOps cfg p h).1 (runOps cfg q h').1 ∧ (runOps cfg p h).2 = (runOps cfg q h').2 := by
  induction p generalizing q h h' with
  | nil =>
    cases q with
    | nil => exact ⟨s, rfl⟩
    | cons b q => simp at ho
  | cons a p ih =>
    cases q with
    | nil => simp at ho
    | cons b q =>
      simp only [List.map_cons, List.cons.injEq] at ho
      obtain ⟨s1, s2⟩ := same_op cfg s hi hi' a b ho.1 hs.1 hs'.1
      obtain ⟨s3, s4⟩ := ih q s1 (op_inv cfg hi a hs.1).1 (op_inv cfg hi' b hs'.1).1 ho.2 hs.2 hs'.2
      refine ⟨s3, ?_⟩
      show _ :: _ = _ :: _
      rw [s2, s4]

/-! ## The theorems -/

/-- **C122**: at every moment of every program, the registry of a frame holds the tensors that live in it and
are still used, each of them once, under its own address; nothing else. -/
theorem C122_registry (cfg : Cfg K) (p : List (Op n K)) (hs : SoundOps cfg p emptySt) :
    let h := (runOps cfg p emptySt).1
    (∀ f a t, (a, t) ∈ (h.frames f).dict ↔
      Alive h t ∧ (h.tensors t).frame = f ∧ (h.tensors t).addr = a) ∧
    ∀ f, (h.frames f).dict.Nodup ∧ ((h.frames f).dict.map Prod.fst).Nodup := by
  have hi := (ops_inv cfg p emptySt_inv hs).1
  refine ⟨hi.reg, fun f => ⟨(hi.nodup f).of_map _, ?_⟩⟩
  have hn := (hi.nodup f).of_map
  refine List.Nodup.map_on ?_ hn
  rintro ⟨a, s⟩ h1 ⟨b, t⟩ h2 he
  simp only at he
  subst he
  obtain ⟨k1, -, k3⟩ := (hi.reg f _ s).1 h1
  obtain ⟨l1, -, l3⟩ := (hi.reg f _ t).1 h2
  rw [hi.inj s t k1 l1 (k3.trans l3.symm)]

/-- **C122**, partial: whatever happens to other tensors and to the frames, a tensor that is still used stands for
what it stood for.

Missing, because it is false (`C122_array_frame_violated`): after the frame of the array of a tensor was
assigned. -/
theorem C122_objectivity_partial (cfg : Cfg K) (before after : List (Op n K))
    (hs : SoundOps cfg (before ++ after) emptySt) (t : ℕ)
    (ht : t < (runOps cfg before emptySt).1.nT)
    (hl : Alive (runOps cfg (before ++ after) emptySt).1 t) :
    let h := (runOps cfg before emptySt).1
    let h' := (runOps cfg (before ++ after) emptySt).1
    Alive h t ∧ ambient (h'.frames (h'.tensors t).frame).frame.axes (h'.tensors t).comps =
      ambient (h.frames (h.tensors t).frame).frame.axes (h.tensors t).comps := by
  obtain ⟨s1, s2⟩ := soundOps_append cfg before after emptySt hs
  have hi := (ops_inv cfg before emptySt_inv s1).1
  have hk := (ops_inv cfg after hi s2).2
  rw [runOps_append] at hl ⊢
  exact hk.same t ht hl

/-- **C122**: the choices of the allocator do not matter, in particular whether and when addresses are reused:
the same exceptions, components, frames. -/
theorem C122_addresses (cfg : Cfg K) (p q : List (Op n K)) (hpq : p.map noAddr = q.map noAddr)
    (hp : SoundOps cfg p emptySt) (hq : SoundOps cfg q emptySt) :
    let r := runOps cfg p emptySt
    let s := runOps cfg q emptySt
    r.2 = s.2 ∧ r.1.nT = s.1.nT ∧ r.1.nF = s.1.nF ∧
      (∀ f, (r.1.frames f).frame = (s.1.frames f).frame) ∧
      ∀ t, (r.1.tensors t).comps = (s.1.tensors t).comps ∧
        (r.1.tensors t).frame = (s.1.tensors t).frame ∧
        (r.1.tensors t).alive = (s.1.tensors t).alive := by
  obtain ⟨h1, h2⟩ := same_ops cfg p q (h := emptySt) (h' := emptySt)
    ⟨rfl, rfl, fun _ => rfl, fun _ => rfl, fun _ => rfl, fun _ => rfl, fun _ => rfl⟩ emptySt_inv
    emptySt_inv hpq hp hq
  exact ⟨h2, h1.nT, h1.nF, h1.frame, fun t => ⟨h1.comps t, h1.home t, h1.alive t⟩⟩

/-- **C122**: tensors that are not used any more have no influence: new axes are refused if and only if they
are singular and a tensor of the frame is still used. -/
theorem C122_forgotten (cfg : Cfg K) (p : List (Op n K)) (hs : SoundOps cfg p emptySt) (f : ℕ)
    (value : Mat n K) :
    let h := (runOps cfg p emptySt).1
    f < h.nF → ((h.setAxes cfg f value).2 ≠ none ↔
      value.det = 0 ∧ ∃ t, Alive h t ∧ (h.tensors t).frame = f) := by
  intro h hf
  have hi : h.Inv := (ops_inv cfg p emptySt_inv hs).1
  unfold St.setAxes
  rw [if_pos hf]
  simp only
  by_cases he : (h.frames f).dict = []
  · rw [if_pos he]
    simp only [ne_eq, not_true, false_iff, not_and, not_exists]
    rintro - t ht hft
    have := (mem_serials hi f t).2 ⟨ht, hft⟩
    rw [he] at this
    exact List.not_mem_nil this
  · rw [if_neg he]
    have hex : ∃ t, Alive h t ∧ (h.tensors t).frame = f := by
      obtain ⟨⟨a, t⟩, hm⟩ := List.exists_mem_of_ne_nil _ he
      exact ⟨t, ((hi.reg f a t).1 hm).1, ((hi.reg f a t).1 hm).2.1⟩
    rw [dcmTarget_eq]
    by_cases hd : value.det = 0
    · have : Frame.dual cfg (⟨.reference, value⟩ : Frame n K) = .error .linalg := by
        unfold Frame.dual dualFrame
        rw [inv_singular hd]
        rfl
      rw [this]
      simp [Except.bind, hd, hex]
    · obtain ⟨B, hB⟩ := inv_exists hd
      have : Frame.dual cfg (⟨.reference, value⟩ : Frame n K) = .ok ⟨.reference, Bᵀ⟩ := by
        unfold Frame.dual dualFrame
        rw [hB]
        rfl
      rw [this]
      simp [Except.bind, hd]

/-- **C122**: setting axes that are independent gives the frame these axes, and touches nothing but the tensors
that live in the frame and are still used; these stay where they are and stand for what they stood for. -/
theorem C122_adjusted (cfg : Cfg K) (p : List (Op n K)) (hs : SoundOps cfg p emptySt) (f : ℕ)
    (value : Mat n K) (hd : value.det ≠ 0)
    (hc : ((runOps cfg p emptySt).1.frames f).frame.cls = .cartesian → Orthonormal value) :
    let h := (runOps cfg p emptySt).1
    let r := h.setAxes cfg f value
    f < h.nF → r.2 = none ∧ r.1.nT = h.nT ∧ r.1.nF = h.nF ∧
      (r.1.frames f).frame = ⟨(h.frames f).frame.cls, value⟩ ∧
      (∀ g, g ≠ f → r.1.frames g = h.frames g) ∧
      (∀ t, ¬ (Alive h t ∧ (h.tensors t).frame = f) → r.1.tensors t = h.tensors t) ∧
      ∀ t, Alive h t → (h.tensors t).frame = f →
        (r.1.tensors t).frame = f ∧ (r.1.tensors t).addr = (h.tensors t).addr ∧ Alive r.1 t ∧
        ambient value (r.1.tensors t).comps = ambient (h.frames f).frame.axes (h.tensors t).comps := by
  intro h r hf
  have hi : h.Inv := (ops_inv cfg p emptySt_inv hs).1
  have hr : r = h.setAxes cfg f value := rfl
  have hnone : r.2 = none := by
    by_contra hne
    exact hd ((C122_forgotten cfg p hs f value hf).1 hne).1
  have hk : h.Keeps r.1 := (setAxes_inv cfg hi f value fun _ => hc).2
  have shape : r.1.nT = h.nT ∧ r.1.nF = h.nF ∧
      (r.1.frames f).frame = ⟨(h.frames f).frame.cls, value⟩ ∧
      (∀ g, g ≠ f → r.1.frames g = h.frames g) ∧
      (∀ t, ¬ (Alive h t ∧ (h.tensors t).frame = f) → r.1.tensors t = h.tensors t) ∧
      ∀ t, (r.1.tensors t).frame = (h.tensors t).frame ∧ (r.1.tensors t).addr = (h.tensors t).addr ∧
        (r.1.tensors t).alive = (h.tensors t).alive := by
    unfold St.setAxes at hr
    rw [if_pos hf] at hr
    simp only at hr
    by_cases he : (h.frames f).dict = []
    · rw [if_pos he] at hr
      rw [hr]
      refine ⟨rfl, rfl, ?_, fun g hg => ?_, fun _ _ => rfl, fun _ => ⟨rfl, rfl, rfl⟩⟩
      · simp only [Function.update_self]
      · simp only [Function.update_of_ne hg]
    · rw [if_neg he] at hr
      cases hdcm : (h.frames f).frame.dcmTarget cfg ⟨.reference, value⟩ with
      | error e =>
        rw [hdcm] at hr
        rw [hr] at hnone
        exact absurd hnone (by simp)
      | ok dcm =>
        rw [hdcm] at hr
        have hts : ∀ t, _ := fun t => foldl_transform' dcm _ (hi.nodup f) h.tensors t
        rw [hr]
        refine ⟨rfl, rfl, ?_, fun g hg => ?_, fun t ht => ?_, fun t => ?_⟩
        · simp only [Function.update_self]
        · simp only [Function.update_of_ne hg]
        · simp only
          rw [hts, if_neg]
          exact fun hm => ht ((mem_serials hi f t).1 hm)
        · simp only
          rw [hts]
          split <;> exact ⟨rfl, rfl, rfl⟩
  obtain ⟨s1, s2, s3, s4, s5, s6⟩ := shape
  refine ⟨hnone, s1, s2, s3, s4, s5, fun t ht hft => ?_⟩
  have hal : Alive r.1 t := ⟨by rw [s1]; exact ht.1, by rw [(s6 t).2.2]; exact ht.2⟩
  refine ⟨(s6 t).1.trans hft, (s6 t).2.1, hal, ?_⟩
  have := (hk.same t ht.1 hal).2
  unfold St.ambientOf at this
  rw [(s6 t).1, hft, s3] at this
  exact this

/-- **C122**: a tensor that is used moves to any frame with independent axes; everything else stays. -/
theorem C122_moved (cfg : Cfg K) (p : List (Op n K)) (hs : SoundOps cfg p emptySt) (t f : ℕ) :
    let h := (runOps cfg p emptySt).1
    let r := h.setFrame cfg t f
    Alive h t → f < h.nF →
    (r.2 = none → (r.1.tensors t).frame = f ∧ Alive r.1 t ∧
      ambient (r.1.frames f).frame.axes (r.1.tensors t).comps =
        ambient (h.frames (h.tensors t).frame).frame.axes (h.tensors t).comps) ∧
    (r.2 ≠ none → r.1 = h) ∧ ((h.frames f).frame.cls = .reference →
      (r.2 = none ↔ (h.frames f).frame.axes.det ≠ 0)) ∧
    (∀ u, u ≠ t → r.1.tensors u = h.tensors u) ∧ ∀ g, (r.1.frames g).frame = (h.frames g).frame := by
  intro h r ht hf
  have hi : h.Inv := (ops_inv cfg p emptySt_inv hs).1
  have hv := setFrame_inv cfg hi t f
  have hr : r = h.setFrame cfg t f := rfl
  have hr' := hr
  rw [setFrame_eq cfg hi, if_pos ⟨ht, hf⟩] at hr
  cases hsh : showIn cfg (h.frames (h.tensors t).frame).frame (h.tensors t).comps
      (some (h.frames f).frame) with
  | error e =>
    rw [hsh] at hr
    refine ⟨fun hn => ?_, fun _ => by rw [hr], fun hc => ?_, fun u _ => by rw [hr], hv.2.2.2⟩
    · rw [hr] at hn
      exact absurd hn (by simp)
    · rw [hr]
      simp only [reduceCtorEq, false_iff, not_not]
      by_contra hd
      obtain ⟨B, hB⟩ := inv_exists hd
      rw [showIn_eq, Option.getD_some, dcmTarget_eq] at hsh
      unfold Frame.dual at hsh
      rw [hc] at hsh
      unfold dualFrame at hsh
      rw [hB] at hsh
      cases hsh
  | ok c =>
    rw [hsh] at hr
    have hal : Alive r.1 t := by
      rw [hr]
      exact ⟨ht.1, by simp only [Function.update_self]; exact ht.2⟩
    refine ⟨fun _ => ?_, fun hn => ?_, fun hc => ?_, fun u hu => ?_, hv.2.2.2⟩
    · have hfr : (r.1.tensors t).frame = f := by rw [hr]; simp only [Function.update_self]
      refine ⟨hfr, hal, ?_⟩
      have := (hv.2.1.same t ht.1 (by rw [← hr']; exact hal)).2
      rw [← hr'] at this
      unfold St.ambientOf at this
      rw [hfr] at this
      exact this
    · rw [hr] at hn
      exact absurd rfl hn
    · rw [hr]
      simp only [true_iff]
      intro hd
      rw [showIn_eq, Option.getD_some, dcmTarget_eq] at hsh
      unfold Frame.dual at hsh
      rw [hc] at hsh
      unfold dualFrame at hsh
      rw [inv_singular hd] at hsh
      cases hsh
    · rw [hr]
      simp only [Function.update_of_ne hu]

/-- **C122**: a new tensor has the components and the frame it is given; a copy has those of the original; nothing
else changes. -/
theorem C122_made (cfg : Cfg K) (p : List (Op n K)) (hs : SoundOps cfg p emptySt) (c : Comps n K)
    (f addr : ℕ) :
    let h := (runOps cfg p emptySt).1
    (∀ s, Alive h s → (h.tensors s).addr ≠ addr) → f < h.nF →
    let r := h.newTensor c f addr
    r.2 = none ∧ r.1.nT = h.nT + 1 ∧ r.1.tensors h.nT = ⟨c, f, addr, true⟩ ∧
      (∀ u, u ≠ h.nT → r.1.tensors u = h.tensors u) ∧ (∀ g, (r.1.frames g).frame = (h.frames g).frame) ∧
      ∀ t, Alive h t → h.copyTensor t addr = h.newTensor (h.tensors t).comps (h.tensors t).frame addr := by
  intro h ha hf r
  have hi : h.Inv := (ops_inv cfg p emptySt_inv hs).1
  have hr : r = h.newTensor c f addr := rfl
  rw [newTensor_eq hi c hf ha] at hr
  rw [hr]
  refine ⟨rfl, rfl, ?_, fun u hu => ?_, fun g => ?_, fun t ht => ?_⟩
  · simp only [Function.update_self]
  · simp only [Function.update_of_ne hu]
  · simp only
    by_cases hg : g = f
    · subst hg; rw [Function.update_self]
    · rw [Function.update_of_ne hg]
  · unfold St.copyTensor
    exact if_pos ht

end

/-! ## Concrete cases -/

open Verif.Frames.Props in
/-- A tensor disappears, another one takes its address in another frame, and both frames are scaled:
the hypotheses hold, and both live tensors still stand for what they stood for. -/
example :
    let p : List (Op 2 ℚ) := [.newFrame .reference !![1, 1; 0, 2], .newFrame .reference 1,
      .newTensor (.vec ![1, 3]) 0 500, .newTensor (.vec ![5, 5]) 0 501, .drop 0,
      .newTensor (.vec ![2, 4]) 1 500, .inplace 0 (.mulNumber 2), .inplace 1 (.mulNumber 4)]
    let h := (runOps exactCfg p emptySt).1
    (h.frames 0).dict = [(501, 1)] ∧ (h.frames 1).dict = [(500, 2)] ∧
      (h.tensors 0).comps.comp 0 = 1 ∧ (h.tensors 1).comps.comp 0 = 5 / 2 ∧
      (h.tensors 2).comps.comp 0 = 1 / 2 ∧ (h.ambientOf 2).comp 0 = 2 := by
  refine ⟨by decide +kernel, by decide +kernel, by decide +kernel, by decide +kernel,
    by decide +kernel, by decide +kernel⟩

open Verif.Frames.Props in
/-- The hypotheses can be met: an address is used again. -/
example : SoundOps exactCfg [.newFrame .reference !![1, 1; 0, 2], .newTensor (.vec ![1, 3]) 0 500,
    .drop 0, .newTensor (.vec ![2, 4]) 0 500] (emptySt : St 2 ℚ) := by
  refine ⟨fun h => (nomatch h), ?_, trivial, ?_, trivial⟩
  · rintro s ⟨hs, -⟩
    exact absurd hs (Nat.not_lt_zero s)
  · rintro s ⟨hs, ha⟩
    have : s = 0 := by
      have : s < 1 := hs
      omega
    subst this
    exact absurd ha (by decide +kernel)

open Verif.Frames.Props in
/-- **C122** is violated by `v.array.frame = g`: the vector stands for something else, it stays in the registry
of its old frame, and changes again when that frame is scaled. -/
theorem C122_array_frame_violated :
    let p : List (Op 2 ℚ) := [.newFrame .reference 1, .newFrame .reference !![2, 0; 0, 2],
      .newTensor (.vec ![1, 3]) 0 500]
    let h := (runOps exactCfg p emptySt).1
    let h' := (runOps exactCfg (p ++ [.setArrayFrame 0 1]) emptySt).1
    let h'' := (runOps exactCfg (p ++ [.setArrayFrame 0 1, .inplace 0 (.mulNumber 2)]) emptySt).1
    (h.ambientOf 0).comp 0 = 1 ∧ (h'.ambientOf 0).comp 0 = 2 ∧ (h''.ambientOf 0).comp 0 = 1 ∧
      (h''.frames 0).dict = [(500, 0)] ∧ (h'.frames 1).dict = [] ∧ (h''.tensors 0).frame = 1 := by
  refine ⟨by decide +kernel, by decide +kernel, by decide +kernel, by decide +kernel, by decide +kernel,
    by decide +kernel⟩

end Verif.Weak.Props
