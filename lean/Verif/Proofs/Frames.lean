import Verif.Model.Frames
import Mathlib.LinearAlgebra.Matrix.NonsingularInverse
import Mathlib.Algebra.BigOperators.Ring.Finset
import Mathlib.Algebra.BigOperators.Pi
import Mathlib.Tactic.Ring
import Mathlib.Tactic.Linarith

/-! # Helper lemmas about `Model/Frames.lean` -/

set_option linter.unusedSectionVars false

namespace Verif.Frames

variable {n : ℕ} {K : Type} [Field K] [LinearOrder K]

open Matrix

/-- What the components stand for if row `j` of `E` is base vector `j`: every index is expanded in
the base vectors. -/
def ambient (E : Mat n K) : Comps n K → Comps n K
  | .vec v => .vec fun i => ∑ j, v j * E j i
  | .ten2 A => .ten2 (Matrix.of fun i l => ∑ j, ∑ k, A j k * E j i * E k l)
  | .gen r a => .gen r fun t => ∑ s : Fin r → Fin n, a s * ∏ k, E (s k) (t k)

/-- The axes are orthonormal. -/
def Orthonormal (E : Mat n K) : Prop := E * Eᵀ = 1

theorem ambient_eq (E : Mat n K) (c : Comps n K) : ambient E c = c.transform Eᵀ := by
  cases c with
  | vec v =>
    simp only [ambient, Comps.transform, Comps.vec.injEq]
    funext i
    simp [Matrix.mulVec, dotProduct, Matrix.transpose_apply, mul_comm]
  | ten2 A =>
    simp only [ambient, Comps.transform, Comps.ten2.injEq]
    ext i l
    simp only [Matrix.of_apply, Matrix.mul_apply, Matrix.transpose_apply, Finset.sum_mul]
    rw [Finset.sum_comm]
    refine Finset.sum_congr rfl fun k _ => Finset.sum_congr rfl fun j _ => ?_
    ring
  | gen r a =>
    simp only [ambient, Comps.transform, Comps.gen.injEq, heq_eq_eq, true_and]
    funext t
    refine Finset.sum_congr rfl fun s _ => ?_
    rw [mul_comm]
    rfl

theorem transform_comp (P Q : Mat n K) (c : Comps n K) :
    (c.transform Q).transform P = c.transform (P * Q) := by
  cases c with
  | vec v => simp [Comps.transform]
  | ten2 A =>
    simp only [Comps.transform, Comps.ten2.injEq, Matrix.transpose_mul, Matrix.mul_assoc]
  | gen r a =>
    simp only [Comps.transform, Comps.gen.injEq, heq_eq_eq, true_and]
    funext t
    have h : ∀ u : Fin r → Fin n, (∏ k, (P * Q) (t k) (u k)) =
        ∑ s : Fin r → Fin n, ∏ k, (P (t k) (s k) * Q (s k) (u k)) := by
      intro u
      simp only [Matrix.mul_apply]
      rw [Finset.prod_univ_sum]
      simp
    simp only [h, Finset.mul_sum, Finset.sum_mul]
    rw [Finset.sum_comm]
    refine Finset.sum_congr rfl fun u _ => Finset.sum_congr rfl fun s _ => ?_
    rw [Finset.prod_mul_distrib]
    ring

theorem transform_one (c : Comps n K) : c.transform 1 = c := by
  cases c with
  | vec v => simp [Comps.transform]
  | ten2 A => simp [Comps.transform]
  | gen r a =>
    simp only [Comps.transform, Comps.gen.injEq, heq_eq_eq, true_and]
    funext t
    rw [Finset.sum_eq_single t]
    · simp
    · intro s _ hs
      obtain ⟨k, hk⟩ := Function.ne_iff.1 hs
      rw [Finset.prod_eq_zero (Finset.mem_univ k), zero_mul]
      rw [Matrix.one_apply_ne (Ne.symm hk)]
    · intro h; exact absurd (Finset.mem_univ t) h

/-! ### Inverses and duals -/

theorem inv_ok {A B : Mat n K} (h : inv A = .ok B) : A.det ≠ 0 ∧ A * B = 1 ∧ B * A = 1 := by
  unfold inv at h
  split at h
  · cases h
  · rename_i hd
    cases h
    refine ⟨hd, ?_, ?_⟩
    · rw [Matrix.mul_smul, Matrix.mul_adjugate, smul_smul, inv_mul_cancel₀ hd, one_smul]
    · rw [Matrix.smul_mul, Matrix.adjugate_mul, smul_smul, inv_mul_cancel₀ hd, one_smul]

theorem inv_of_mul_eq_one {A B : Mat n K} (h : A * B = 1) : inv A = .ok B := by
  have hd : A.det ≠ 0 := by
    intro h0
    have := congrArg Matrix.det h
    rw [Matrix.det_mul, h0, zero_mul, Matrix.det_one] at this
    exact zero_ne_one this
  unfold inv
  rw [if_neg hd]
  congr 1
  have h1 : (A.det⁻¹ • A.adjugate) * A = 1 := by
    rw [Matrix.smul_mul, Matrix.adjugate_mul, smul_smul, inv_mul_cancel₀ hd, one_smul]
  calc A.det⁻¹ • A.adjugate = (A.det⁻¹ • A.adjugate) * (A * B) := by rw [h, Matrix.mul_one]
    _ = B := by rw [← Matrix.mul_assoc, h1, Matrix.one_mul]

theorem inv_singular {A : Mat n K} (h : A.det = 0) : inv A = .error .linalg := if_pos h

theorem inv_exists {A : Mat n K} (h : A.det ≠ 0) : ∃ B, inv A = .ok B := by
  unfold inv; rw [if_neg h]; exact ⟨_, rfl⟩

theorem dualFrame_ok {A D : Mat n K} (h : dualFrame A = .ok D) : A * Dᵀ = 1 ∧ Aᵀ * D = 1 := by
  unfold dualFrame at h
  cases hi : inv A with
  | error e => rw [hi] at h; cases h
  | ok B =>
    rw [hi] at h
    have hD : Bᵀ = D := by
      simpa [Except.map] using h
    obtain ⟨-, h1, h2⟩ := inv_ok hi
    subst hD
    refine ⟨by simpa using h1, ?_⟩
    rw [← Matrix.transpose_mul, h2, Matrix.transpose_one]

theorem mkFrame_ok {cfg : Cfg K} {cls : FrameCls} {A : Mat n K} {f : Frame n K}
    (h : mkFrame cfg cls A = .ok f) : f = ⟨cls, A⟩ := by
  unfold mkFrame at h
  cases cls with
  | reference => cases h; rfl
  | rectangular =>
    simp only at h
    split at h
    · cases h; rfl
    · cases h
  | cartesian =>
    simp only at h
    split at h
    · split at h
      · cases h; rfl
      · cases h
    · cases h

/-- A Cartesian frame has orthonormal axes. -/
def CartOK (f : Frame n K) : Prop := f.cls = .cartesian → Orthonormal f.axes

theorem dual_ok {cfg : Cfg K} {f d : Frame n K} (hc : CartOK f) (h : f.dual cfg = .ok d) :
    f.axesᵀ * d.axes = 1 ∧ d.cls = f.cls := by
  have key : ∀ c, (do mkFrame cfg c (← dualFrame f.axes)) = .ok d → f.axesᵀ * d.axes = 1 ∧
      d.cls = c := by
    intro c hh
    cases hd : dualFrame f.axes with
    | error e => rw [hd] at hh; cases hh
    | ok D =>
      rw [hd] at hh
      have := mkFrame_ok hh
      subst this
      exact ⟨(dualFrame_ok hd).2, rfl⟩
  unfold Frame.dual at h
  cases hcls : f.cls with
  | cartesian =>
    rw [hcls] at h
    cases h
    refine ⟨?_, hcls⟩
    have := hc hcls
    unfold Orthonormal at this
    exact mul_eq_one_comm.1 this
  | rectangular => rw [hcls] at h; exact key _ h
  | reference => rw [hcls] at h; exact key _ h

theorem dcmTarget_ok {cfg : Cfg K} {S T : Frame n K} (hT : CartOK T) {Q : Mat n K}
    (h : S.dcmTarget cfg T = .ok Q) : T.axesᵀ * Q = S.axesᵀ := by
  unfold Frame.dcmTarget at h
  cases hd : T.dual cfg with
  | error e => rw [hd] at h; cases h
  | ok D =>
    rw [hd] at h
    have hQ : D.axes * S.axesᵀ = Q := by simpa [bind, Except.bind, pure, Except.pure] using h
    rw [← hQ, ← Matrix.mul_assoc, (dual_ok hT hd).1, Matrix.one_mul]

/-- Showing in a regular target keeps what the components stand for. -/
theorem ambient_transform {cfg : Cfg K} {S T : Frame n K} (hT : CartOK T) {Q : Mat n K}
    (h : S.dcmTarget cfg T = .ok Q) (c : Comps n K) :
    ambient T.axes (c.transform Q) = ambient S.axes c := by
  rw [ambient_eq, transform_comp, dcmTarget_ok hT h, ambient_eq]

theorem showIn_eq (cfg : Cfg K) (S : Frame n K) (c : Comps n K) (target : Option (Frame n K)) :
    showIn cfg S c target =
      (S.dcmTarget cfg (target.getD ambientFrame)).bind fun Q => .ok (c.transform Q) := rfl

theorem dcmTarget_eq (cfg : Cfg K) (S T : Frame n K) :
    S.dcmTarget cfg T = (T.dual cfg).bind fun D => .ok (D.axes * S.axesᵀ) := rfl

theorem showIn_ok {cfg : Cfg K} {S T : Frame n K} {c d : Comps n K}
    (h : showIn cfg S c (some T) = .ok d) :
    ∃ Q, S.dcmTarget cfg T = .ok Q ∧ d = c.transform Q := by
  unfold showIn at h
  cases hd : S.dcmTarget cfg T with
  | error e => simp only [Option.getD_some, hd] at h; cases h
  | ok Q =>
    simp only [Option.getD_some, hd] at h
    exact ⟨Q, rfl, by simpa [bind, Except.bind, pure, Except.pure] using h.symm⟩

/-! ### The object graph -/

/-- What tensor `t` stands for. -/
def Heap.ambientOf (h : Heap n K) (t : ℕ) : Comps n K :=
  ambient (h.frames (h.tensors t).frame).frame.axes (h.tensors t).comps

/-- The registries hold exactly the tensors of the frame, once; Cartesian frames are
orthonormal. -/
structure Heap.Inv (h : Heap n K) : Prop where
  valid : ∀ t < h.nT, (h.tensors t).frame < h.nF
  reg : ∀ f < h.nF, ∀ t, t ∈ (h.frames f).reg ↔ t < h.nT ∧ (h.tensors t).frame = f
  nodup : ∀ f < h.nF, (h.frames f).reg.Nodup
  cart : ∀ f < h.nF, CartOK (h.frames f).frame

/-- `h'` has the objects of `h`, which stand for the same. -/
structure Heap.Keeps (h h' : Heap n K) : Prop where
  nT : h.nT ≤ h'.nT
  nF : h.nF ≤ h'.nF
  same : ∀ t < h.nT, h'.ambientOf t = h.ambientOf t

theorem Heap.Keeps.refl (h : Heap n K) : h.Keeps h := ⟨le_rfl, le_rfl, fun _ _ => rfl⟩

theorem Heap.Keeps.trans {h h' h'' : Heap n K} (a : h.Keeps h') (b : h'.Keeps h'') : h.Keeps h'' :=
  ⟨a.nT.trans b.nT, a.nF.trans b.nF, fun t ht => (b.same t (lt_of_lt_of_le ht a.nT)).trans
    (a.same t ht)⟩

theorem addFrame_spec (h : Heap n K) (hi : h.Inv) (f : Frame n K) (hf : CartOK f) :
    (h.addFrame f).Inv ∧ h.Keeps (h.addFrame f) := by
  have hframe : ∀ g, g ≠ h.nF → (h.addFrame f).frames g = h.frames g := fun g hg =>
    Function.update_of_ne hg _ _
  have hnew : (h.addFrame f).frames h.nF = ⟨f, []⟩ := Function.update_self _ _ _
  refine ⟨⟨?_, ?_, ?_, ?_⟩, ⟨le_rfl, Nat.le_succ _, ?_⟩⟩
  · intro t ht
    exact Nat.lt_succ_of_lt (hi.valid t ht)
  · intro g hg t
    by_cases hgn : g = h.nF
    · subst hgn
      rw [hnew]
      simp only [List.not_mem_nil, false_iff]
      rintro ⟨h1, h2⟩
      have := hi.valid t h1
      have h2' : (h.tensors t).frame = h.nF := h2
      omega
    · rw [hframe g hgn]
      have : g < h.nF := by
        have : g < h.nF + 1 := hg
        omega
      exact hi.reg g this t
  · intro g hg
    by_cases hgn : g = h.nF
    · subst hgn; rw [hnew]; exact List.nodup_nil
    · rw [hframe g hgn]
      have : g < h.nF + 1 := hg
      exact hi.nodup g (by omega)
  · intro g hg
    by_cases hgn : g = h.nF
    · subst hgn; rw [hnew]; exact hf
    · rw [hframe g hgn]
      have : g < h.nF + 1 := hg
      exact hi.cart g (by omega)
  · intro t ht
    unfold Heap.ambientOf
    have h1 : ((h.addFrame f).tensors t) = h.tensors t := rfl
    have h2 := hi.valid t ht
    rw [h1, hframe _ (by omega)]

theorem newTensor_spec (h : Heap n K) (hi : h.Inv) (c : Comps n K) (f : ℕ) :
    (h.newTensor c f).1.Inv ∧ h.Keeps (h.newTensor c f).1 := by
  unfold Heap.newTensor
  split
  · rename_i hf
    have hfr : ∀ g, (Function.update h.frames f
        { h.frames f with reg := (h.frames f).reg ++ [h.nT] } g).frame = (h.frames g).frame := by
      intro g
      by_cases hg : g = f
      · subst hg; rw [Function.update_self]
      · rw [Function.update_of_ne hg]
    refine ⟨⟨?_, ?_, ?_, ?_⟩, ⟨Nat.le_succ _, le_rfl, ?_⟩⟩
    · intro t ht
      simp only at ht ⊢
      by_cases htn : t = h.nT
      · subst htn; rw [Function.update_self]; exact hf
      · rw [Function.update_of_ne htn]; exact hi.valid t (by omega)
    · intro g hg t
      simp only at hg ⊢
      by_cases hgf : g = f
      · subst hgf
        rw [Function.update_self]
        simp only [List.mem_append, List.mem_singleton]
        by_cases htn : t = h.nT
        · subst htn
          rw [Function.update_self]
          simp
        · rw [Function.update_of_ne htn, hi.reg g hg t]
          constructor
          · rintro (h1 | h1)
            · exact ⟨by omega, h1.2⟩
            · exact absurd h1 htn
          · rintro ⟨h1, h2⟩; exact Or.inl ⟨by omega, h2⟩
      · rw [Function.update_of_ne hgf]
        by_cases htn : t = h.nT
        · subst htn
          rw [Function.update_self, hi.reg g hg]
          constructor
          · rintro ⟨h1, -⟩; omega
          · rintro ⟨-, h1⟩; exact absurd h1.symm hgf
        · rw [Function.update_of_ne htn, hi.reg g hg t]
          constructor
          · rintro ⟨h1, h2⟩; exact ⟨by omega, h2⟩
          · rintro ⟨h1, h2⟩; exact ⟨by omega, h2⟩
    · intro g hg
      simp only at hg ⊢
      by_cases hgf : g = f
      · subst hgf
        rw [Function.update_self]
        simp only
        rw [List.nodup_append]
        refine ⟨hi.nodup g hg, List.nodup_singleton _, ?_⟩
        intro a ha b hb
        rw [List.mem_singleton] at hb
        have := ((hi.reg g hg a).1 ha).1
        omega
      · rw [Function.update_of_ne hgf]; exact hi.nodup g hg
    · intro g hg
      simp only at hg ⊢
      rw [hfr g]
      exact hi.cart g hg
    · intro t ht
      have htn : t ≠ h.nT := by omega
      unfold Heap.ambientOf
      simp only
      rw [Function.update_of_ne htn, hfr]
  · exact ⟨hi, Heap.Keeps.refl h⟩

theorem setFrame_spec (cfg : Cfg K) (h : Heap n K) (hi : h.Inv) (t f : ℕ) :
    (h.setFrame cfg t f).1.Inv ∧ h.Keeps (h.setFrame cfg t f).1 := by
  unfold Heap.setFrame
  split
  · rename_i hv
    obtain ⟨ht, hf⟩ := hv
    cases hs : showIn cfg (h.frames (h.tensors t).frame).frame (h.tensors t).comps
        (some (h.frames f).frame) with
    | error e => simp only; rw [hs]; exact ⟨hi, Heap.Keeps.refl h⟩
    | ok c =>
      obtain ⟨Q, hQ, rfl⟩ := showIn_ok hs
      simp only
      rw [hs]
      simp only
      set o := (h.tensors t).frame with ho
      have hon : o < h.nF := hi.valid t ht
      set fr1 := Function.update h.frames o
        { h.frames o with reg := (h.frames o).reg.filter (· ≠ t) } with hfr1
      set fr2 := Function.update fr1 f { fr1 f with reg := (fr1 f).reg ++ [t] } with hfr2
      have hframe1 : ∀ g, (fr1 g).frame = (h.frames g).frame := by
        intro g
        by_cases hg : g = o
        · rw [hg, hfr1, Function.update_self]
        · rw [hfr1, Function.update_of_ne hg]
      have hframe2 : ∀ g, (fr2 g).frame = (h.frames g).frame := by
        intro g
        by_cases hg : g = f
        · subst hg; rw [hfr2, Function.update_self]; exact hframe1 g
        · rw [hfr2, Function.update_of_ne hg]; exact hframe1 g
      have hreg1 : ∀ g < h.nF, ∀ u, u ∈ (fr1 g).reg ↔ u < h.nT ∧ (h.tensors u).frame = g ∧
          u ≠ t := by
        intro g hg u
        by_cases hgo : g = o
        · rw [hgo, hfr1, Function.update_self]
          simp only [List.mem_filter, decide_eq_true_eq]
          rw [hi.reg o hon u]
          tauto
        · rw [hfr1, Function.update_of_ne hgo, hi.reg g hg u]
          constructor
          · rintro ⟨h1, h2⟩
            refine ⟨h1, h2, ?_⟩
            rintro rfl
            exact hgo (by rw [← h2])
          · rintro ⟨h1, h2, -⟩; exact ⟨h1, h2⟩
      have hnd1 : ∀ g < h.nF, (fr1 g).reg.Nodup := by
        intro g hg
        by_cases hgo : g = o
        · rw [hgo, hfr1, Function.update_self]
          exact (hi.nodup o hon).filter _
        · rw [hfr1, Function.update_of_ne hgo]; exact hi.nodup g hg
      refine ⟨⟨?_, ?_, ?_, ?_⟩, ⟨le_rfl, le_rfl, ?_⟩⟩
      · intro u hu
        simp only at hu ⊢
        by_cases hut : u = t
        · subst hut; rw [Function.update_self]; exact hf
        · rw [Function.update_of_ne hut]; exact hi.valid u hu
      · intro g hg u
        simp only at hg ⊢
        by_cases hgf : g = f
        · subst hgf
          rw [hfr2, Function.update_self]
          simp only [List.mem_append, List.mem_singleton]
          rw [hreg1 g hg u]
          by_cases hut : u = t
          · subst hut; rw [Function.update_self]; simp [ht]
          · rw [Function.update_of_ne hut]; simp [hut]
        · rw [hfr2, Function.update_of_ne hgf, hreg1 g hg u]
          by_cases hut : u = t
          · subst hut; rw [Function.update_self]; simp [Ne.symm hgf]
          · rw [Function.update_of_ne hut]; simp [hut]
      · intro g hg
        simp only at hg ⊢
        by_cases hgf : g = f
        · subst hgf
          rw [hfr2, Function.update_self]
          simp only
          rw [List.nodup_append]
          refine ⟨hnd1 g hg, List.nodup_singleton _, ?_⟩
          intro a ha b hb
          rw [List.mem_singleton] at hb
          subst hb
          exact ((hreg1 g hg a).1 ha).2.2
        · rw [hfr2, Function.update_of_ne hgf]; exact hnd1 g hg
      · intro g hg
        simp only at hg ⊢
        rw [hframe2]
        exact hi.cart g hg
      · intro u hu
        unfold Heap.ambientOf
        simp only
        rw [hframe2]
        by_cases hut : u = t
        · subst hut
          rw [Function.update_self]
          exact ambient_transform (hi.cart f hf) hQ _
        · rw [Function.update_of_ne hut]
  · exact ⟨hi, Heap.Keeps.refl h⟩

theorem foldl_transform (dcm : Mat n K) (l : List ℕ) (hl : l.Nodup) (ts : ℕ → TensorObj n K)
    (t : ℕ) :
    (l.foldl (fun ts v => Function.update ts v ⟨(ts v).comps.transform dcm, (ts v).frame⟩) ts) t =
      if t ∈ l then ⟨(ts t).comps.transform dcm, (ts t).frame⟩ else ts t := by
  induction l generalizing ts with
  | nil => simp
  | cons v l ih =>
    obtain ⟨hv, hl⟩ := List.nodup_cons.1 hl
    rw [List.foldl_cons, ih hl]
    by_cases htv : t = v
    · subst htv
      rw [if_neg hv, if_pos List.mem_cons_self, Function.update_self]
    · rw [Function.update_of_ne htv]
      simp [htv]

theorem setAxes_spec (cfg : Cfg K) (h : Heap n K) (hi : h.Inv) (f : ℕ) (value : Mat n K)
    (hc : f < h.nF → (h.frames f).frame.cls = .cartesian → Orthonormal value) :
    (h.setAxes cfg f value).1.Inv ∧ h.Keeps (h.setAxes cfg f value).1 := by
  unfold Heap.setAxes
  split
  · rename_i hf
    simp only
    -- the frames afterwards
    set fr := Function.update h.frames f
      ⟨⟨(h.frames f).frame.cls, value⟩, (h.frames f).reg⟩ with hfr
    have hreg : ∀ g, (fr g).reg = (h.frames g).reg := by
      intro g
      by_cases hg : g = f
      · subst hg; rw [hfr, Function.update_self]
      · rw [hfr, Function.update_of_ne hg]
    have hcart : ∀ g < h.nF, CartOK (fr g).frame := by
      intro g hg
      by_cases hgf : g = f
      · subst hgf; rw [hfr, Function.update_self]; intro hcls; exact hc hf hcls
      · rw [hfr, Function.update_of_ne hgf]; exact hi.cart g hg
    have hother : ∀ g, g ≠ f → fr g = h.frames g := fun g hg => by
      rw [hfr, Function.update_of_ne hg]
    have hself : (fr f).frame.axes = value := by rw [hfr, Function.update_self]
    by_cases hemp : (h.frames f).reg = []
    · rw [if_pos hemp]
      refine ⟨⟨hi.valid, ?_, ?_, hcart⟩, ⟨le_rfl, le_rfl, ?_⟩⟩
      · intro g hg t
        simp only
        rw [hreg g]
        exact hi.reg g hg t
      · intro g hg
        simp only
        rw [hreg g]
        exact hi.nodup g hg
      · intro t ht
        unfold Heap.ambientOf
        simp only
        rw [hother]
        intro he
        have := (hi.reg f hf t).2 ⟨ht, he⟩
        rw [hemp] at this
        exact List.not_mem_nil this
    · rw [if_neg hemp]
      cases hd : (h.frames f).frame.dcmTarget cfg ⟨.reference, value⟩ with
      | error e => exact ⟨hi, Heap.Keeps.refl h⟩
      | ok dcm =>
        simp only
        set ts := (h.frames f).reg.foldl (fun ts v =>
            Function.update ts v ⟨(ts v).comps.transform dcm, (ts v).frame⟩) h.tensors with hts
        have hts' : ∀ t, ts t = if t ∈ (h.frames f).reg then
            ⟨(h.tensors t).comps.transform dcm, (h.tensors t).frame⟩ else h.tensors t := fun t =>
          foldl_transform dcm _ (hi.nodup f hf) h.tensors t
        have hfrm : ∀ t, (ts t).frame = (h.tensors t).frame := by
          intro t; rw [hts' t]; split <;> rfl
        refine ⟨⟨?_, ?_, ?_, hcart⟩, ⟨le_rfl, le_rfl, ?_⟩⟩
        · intro t ht
          simp only
          rw [hfrm]
          exact hi.valid t ht
        · intro g hg t
          simp only
          rw [hreg g, hfrm]
          exact hi.reg g hg t
        · intro g hg
          simp only
          rw [hreg g]
          exact hi.nodup g hg
        · intro t ht
          unfold Heap.ambientOf
          simp only
          rw [hfrm]
          by_cases he : (h.tensors t).frame = f
          · rw [he, hself, hts' t, if_pos ((hi.reg f hf t).2 ⟨ht, he⟩)]
            exact ambient_transform (T := ⟨.reference, value⟩) (by intro hx; cases hx) hd _
          · rw [hother _ he, hts' t, if_neg]
            intro hm
            exact he ((hi.reg f hf t).1 hm).2
  · exact ⟨hi, Heap.Keeps.refl h⟩

theorem setFrame_frames (cfg : Cfg K) (h : Heap n K) (t f : ℕ) :
    (h.setFrame cfg t f).1.nF = h.nF ∧
      ∀ g, ((h.setFrame cfg t f).1.frames g).frame = (h.frames g).frame := by
  unfold Heap.setFrame
  split
  · cases hs : showIn cfg (h.frames (h.tensors t).frame).frame (h.tensors t).comps
        (some (h.frames f).frame) with
    | error e => simp only; rw [hs]; exact ⟨rfl, fun _ => rfl⟩
    | ok c =>
      simp only
      rw [hs]
      refine ⟨rfl, fun g => ?_⟩
      simp only
      have h1 : ∀ g, (Function.update h.frames (h.tensors t).frame
          { h.frames (h.tensors t).frame with
            reg := (h.frames (h.tensors t).frame).reg.filter (· ≠ t) } g).frame =
          (h.frames g).frame := by
        intro g
        by_cases hg : g = (h.tensors t).frame
        · subst hg; rw [Function.update_self]
        · rw [Function.update_of_ne hg]
      by_cases hg : g = f
      · subst hg; rw [Function.update_self]; exact h1 g
      · rw [Function.update_of_ne hg]; exact h1 g
  · exact ⟨rfl, fun _ => rfl⟩

theorem moveAll_spec (cfg : Cfg K) (f : ℕ) (ts : List ℕ) (h : Heap n K) (hi : h.Inv) :
    (h.moveAll cfg f ts).1.Inv ∧ h.Keeps (h.moveAll cfg f ts).1 ∧
      (h.moveAll cfg f ts).1.nF = h.nF ∧
      ∀ g, ((h.moveAll cfg f ts).1.frames g).frame = (h.frames g).frame := by
  induction ts generalizing h with
  | nil => exact ⟨hi, Heap.Keeps.refl h, rfl, fun _ => rfl⟩
  | cons t ts ih =>
    have hs := setFrame_spec cfg h hi t f
    have hf := setFrame_frames cfg h t f
    unfold Heap.moveAll
    cases he : h.setFrame cfg t f with
    | mk h' e =>
      rw [he] at hs hf
      cases e with
      | some e => exact ⟨hs.1, hs.2, hf.1, hf.2⟩
      | none =>
        obtain ⟨h1, h2, h3, h4⟩ := ih h' hs.1
        exact ⟨h1, hs.2.trans h2, h3.trans hf.1, fun g => (h4 g).trans (hf.2 g)⟩

theorem rtype_not_cartesian (o : Operand n K) (cls r : FrameCls) (h : o.rtype cls = some r) :
    r ≠ .cartesian := by
  unfold Operand.rtype at h
  cases cls <;> cases o <;> simp at h <;> subst h <;> simp

theorem rtype_cartesian (o : Operand n K) : o.rtype .cartesian ≠ none := by
  cases o <;> simp [Operand.rtype]

theorem inplace_spec (cfg : Cfg K) (h : Heap n K) (hi : h.Inv) (f : ℕ) (o : Operand n K) :
    (h.inplace cfg f o).1.Inv ∧ h.Keeps (h.inplace cfg f o).1 := by
  unfold Heap.inplace
  split
  · rename_i hf
    simp only
    cases hr : o.rtype (h.frames f).frame.cls with
    | none =>
      apply setAxes_spec cfg h hi
      intro _ hcls
      rw [hcls] at hr
      exact absurd hr (rtype_cartesian o)
    | some r =>
      simp only
      have hrc := rtype_not_cartesian o _ r hr
      cases hm : mkFrame cfg r (h.frames f).frame.axes with
      | error e => exact ⟨hi, Heap.Keeps.refl h⟩
      | ok g =>
        have hg := mkFrame_ok hm
        have hgc : CartOK g := by
          intro hcls; rw [hg] at hcls; exact absurd hcls hrc
        obtain ⟨a1, a2⟩ := addFrame_spec h hi g hgc
        obtain ⟨m1, m2, m3, m4⟩ := moveAll_spec cfg h.nF (h.frames f).reg _ a1
        simp only
        cases hmv : (h.addFrame g).moveAll cfg h.nF (h.frames f).reg with
        | mk h' e =>
          rw [hmv] at m1 m2 m3 m4
          cases e with
          | some e => exact ⟨m1, a2.trans m2⟩
          | none =>
            obtain ⟨s1, s2⟩ := setAxes_spec cfg h' m1 h.nF
              (o.apply (h.frames f).frame.axes) (by
                intro _ hcls
                have : (h'.frames h.nF).frame = g := by
                  rw [m4]
                  show (Function.update h.frames h.nF ⟨g, []⟩ h.nF).frame = g
                  rw [Function.update_self]
                rw [this, hg] at hcls
                exact absurd hcls hrc)
            exact ⟨s1, (a2.trans m2).trans s2⟩
  · exact ⟨hi, Heap.Keeps.refl h⟩

theorem newFrame_spec (cfg : Cfg K) (h : Heap n K) (hi : h.Inv) (cls : FrameCls) (axes : Mat n K)
    (hc : cls = .cartesian → Orthonormal axes) :
    (h.newFrame cfg cls axes).1.Inv ∧ h.Keeps (h.newFrame cfg cls axes).1 := by
  unfold Heap.newFrame
  cases hm : mkFrame cfg cls axes with
  | error e => exact ⟨hi, Heap.Keeps.refl h⟩
  | ok f =>
    have hf := mkFrame_ok hm
    refine addFrame_spec h hi f ?_
    rw [hf]
    exact hc

theorem orthonormal_mul {E R : Mat n K} (hE : Orthonormal E) (hR : R * Rᵀ = 1) :
    Orthonormal (E * R) := by
  unfold Orthonormal at *
  rw [Matrix.transpose_mul, Matrix.mul_assoc, ← Matrix.mul_assoc R, hR, Matrix.one_mul, hE]

theorem orthonormal_transpose {E : Mat n K} (hE : Orthonormal E) : Orthonormal Eᵀ := by
  unfold Orthonormal at *
  rw [Matrix.transpose_transpose]
  exact mul_eq_one_comm.1 hE

theorem orient_axes (E R : Mat n K) :
    (Matrix.of fun i => Rᵀ.mulVec (E i)) = E * R := by
  ext i j
  simp [Matrix.mulVec, dotProduct, Matrix.mul_apply, mul_comm]

theorem orient_spec (cfg : Cfg K) (h : Heap n K) (hi : h.Inv) (f : ℕ) (R : Mat n K)
    (hc : f < h.nF → (h.frames f).frame.cls = .cartesian → R * Rᵀ = 1) :
    (h.orient cfg f R).1.Inv ∧ h.Keeps (h.orient cfg f R).1 := by
  unfold Heap.orient
  refine setAxes_spec cfg h hi f _ ?_
  intro hf hcls
  rw [orient_axes]
  exact orthonormal_mul (hi.cart f hf hcls) (hc hf hcls)

theorem methodCopy_spec (h : Heap n K) (hi : h.Inv) (c : Comps n K) (f : Frame n K)
    (hf : CartOK f) :
    (Heap.newTensor c h.nF (h.addFrame f)).1.Inv ∧
      h.Keeps (Heap.newTensor c h.nF (h.addFrame f)).1 := by
  obtain ⟨a1, a2⟩ := addFrame_spec h hi f hf
  obtain ⟨b1, b2⟩ := newTensor_spec _ a1 c h.nF
  exact ⟨b1, a2.trans b2⟩

theorem newFrame_new (cfg : Cfg K) (h h' : Heap n K) (cls : FrameCls) (axes : Mat n K)
    (hr : h.newFrame cfg cls axes = (h', none)) :
    h'.nF = h.nF + 1 ∧ h'.frames h.nF = ⟨⟨cls, axes⟩, []⟩ := by
  unfold Heap.newFrame at hr
  cases hm : mkFrame cfg cls axes with
  | error e => rw [hm] at hr; cases hr
  | ok f =>
    rw [hm] at hr
    have hf := mkFrame_ok hm
    cases hr
    exact ⟨rfl, by rw [← hf]; exact Function.update_self _ _ _⟩

end Verif.Frames
