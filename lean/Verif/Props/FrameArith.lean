import Verif.Model.FrameArith
import Verif.Props.FramesCopies
import Mathlib.Tactic.FieldSimp

/-!
# Frames as operands of arithmetic, `chop` and `minmax` (C86, C87)
-/

set_option linter.unusedSectionVars false

namespace Verif.FA.Props

open Matrix Verif.Frames Verif.Frames.Props

variable {n : ℕ} {K : Type} [Field K] [LinearOrder K]

/-! ## C86 -/

/-- The entries the other operand contributes: the same number everywhere, or its own entries. -/
inductive Stands : Rhs n K → Mat n K → Prop
  | pyNum (c : K) : Stands (.pyNum c) (Matrix.of fun _ _ => c)
  | npNum (c : K) : Stands (.npNum c) (Matrix.of fun _ _ => c)
  | arr (A : Mat n K) : Stands (.arr A) A
  | frame (f : Frame n K) : Stands (.frame f) f.axes

/-- The value of an expression. -/
def value (op : BinOp) (x y : K) : K :=
  match op with
  | .mul => x * y
  | .div => x * y⁻¹
  | .add => x + y
  | .sub => x + -y

theorem entries_iff (r : Rhs n K) (B : Mat n K) : r.entries = some B ↔ Stands r B := by
  constructor
  · intro h
    cases r <;> simp only [Rhs.entries, Option.some.injEq, reduceCtorEq] at h <;> subst h <;>
      constructor
  · intro h
    cases h <;> rfl

theorem apply_ok {op : BinOp} {A B C : Mat n K} (h : op.apply A B = some C) (i j : Fin n) :
    C i j = value op (A i j) (B i j) ∧ (op = .div → B i j ≠ 0) := by
  cases op with
  | mul => cases h; exact ⟨rfl, fun h => by cases h⟩
  | add => cases h; exact ⟨rfl, fun h => by cases h⟩
  | sub => cases h; exact ⟨sub_eq_add_neg _ _, fun h => by cases h⟩
  | div =>
    simp only [BinOp.apply] at h
    split at h
    · rename_i hz
      cases h
      refine ⟨div_eq_mul_inv _ _, fun _ => ?_⟩
      have := List.all_eq_true.1 hz i (List.mem_finRange i)
      have := List.all_eq_true.1 this j (List.mem_finRange j)
      simpa using this
    · cases h

theorem apply_exists (op : BinOp) (A B : Mat n K) (h : op = .div → ∀ i j, B i j ≠ 0) :
    ∃ C, op.apply A B = some C := by
  cases op with
  | mul => exact ⟨_, rfl⟩
  | add => exact ⟨_, rfl⟩
  | sub => exact ⟨_, rfl⟩
  | div =>
    have hz : ((List.finRange n).all fun i => (List.finRange n).all fun j =>
        decide (B i j ≠ 0)) = true := by
      rw [List.all_eq_true]
      intro i _
      rw [List.all_eq_true]
      intro j _
      exact decide_eq_true (h rfl i j)
    exact ⟨_, if_pos hz⟩

theorem binary_ok {cfg : Cfg K} {op : BinOp} {f : Frame n K} {r : Rhs n K} {g : Frame n K}
    (h : binary cfg op f r = .ok (some g)) :
    ∃ B C, r.entries = some B ∧ op.apply f.axes B = some C ∧
      mkFrame cfg (op.rtype f.cls r) C = .ok g ∧ g = ⟨op.rtype f.cls r, C⟩ := by
  unfold binary at h
  cases hB : r.entries with
  | none => rw [hB] at h; cases h
  | some B =>
    rw [hB] at h
    simp only at h
    cases hC : op.apply f.axes B with
    | none => rw [hC] at h; cases h
    | some C =>
      rw [hC] at h
      simp only at h
      cases hm : mkFrame cfg (op.rtype f.cls r) C with
      | error e => rw [hm] at h; cases h
      | ok g' =>
        rw [hm] at h
        cases h
        exact ⟨B, C, rfl, hC, hm, mkFrame_ok hm⟩

/-- C86: whatever the class of the frame and the operand, the axes of `f op r` and of `r op f` are
computed entry by entry. -/
theorem C86_axes (cfg : Cfg K) (op : BinOp) (f g : Frame n K) (r : Rhs n K) :
    (binary cfg op f r = .ok (some g) → ∃ B, Stands r B ∧
      ∀ i j, g.axes i j = value op (f.axes i j) (B i j)) ∧
    (reflected op r f = .ok (some g) → ∃ B, Stands r B ∧
      ∀ i j, g.axes i j = value op (B i j) (f.axes i j)) := by
  constructor
  · intro h
    obtain ⟨B, C, hB, hC, -, rfl⟩ := binary_ok h
    exact ⟨B, (entries_iff r B).1 hB, fun i j => (apply_ok hC i j).1⟩
  · intro h
    unfold reflected at h
    cases hB : r.entries with
    | none => rw [hB] at h; cases h
    | some B =>
      rw [hB] at h
      simp only at h
      cases hC : op.apply B f.axes with
      | none => rw [hC] at h; cases h
      | some C =>
        rw [hC] at h
        cases h
        exact ⟨B, (entries_iff r B).1 hB, fun i j => (apply_ok hC i j).1⟩

/-- C86: the class of the result.  Only a rectangular or Cartesian frame times or over a Python number
stays rectangular; no arithmetic results in a Cartesian frame. -/
theorem C86_class (cfg : Cfg K) (op : BinOp) (f g : Frame n K) (r : Rhs n K)
    (h : binary cfg op f r = .ok (some g)) :
    (g.cls = .rectangular ∧ (op = .mul ∨ op = .div) ∧ f.cls ≠ .reference ∧ ∃ c, r = .pyNum c) ∨
    (g.cls = .reference ∧ ¬ ((op = .mul ∨ op = .div) ∧ f.cls ≠ .reference ∧ ∃ c, r = .pyNum c)) := by
  obtain ⟨B, C, hB, hC, -, rfl⟩ := binary_ok h
  simp only
  obtain ⟨cls, axes⟩ := f
  cases op <;> cases cls <;> cases r <;> simp [BinOp.rtype]

/-- C86: operands of other types are refused, on both sides. -/
theorem C86_foreign (cfg : Cfg K) (op : BinOp) (f : Frame n K) :
    binary cfg op f .foreign = .error .type ∧ reflected op .foreign f = .error .type :=
  ⟨rfl, rfl⟩

section ordered
variable [IsStrictOrderedRing K]

/-- C86, partial: with an operand of a known type, and divisors that are not zero, the operation
succeeds, provided the axes of a frame that calls itself rectangular (or Cartesian) are exactly
perpendicular, and the result keeps the promise of its class.

Missing, because it is false: frames that are rectangular only within the tolerance of the check
(`C86_tolerance_violated`). -/
theorem C86_succeeds_partial (cfg : Cfg K) (ha : 0 ≤ cfg.atol) (hr : 0 ≤ cfg.rtol) (op : BinOp)
    (f : Frame n K) (hf : f.cls ≠ .reference → Perpendicular f.axes) (r : Rhs n K) (B : Mat n K)
    (hB : Stands r B) (hz : op = .div → ∀ i j, B i j ≠ 0) :
    ∃ g, binary cfg op f r = .ok (some g) ∧ Promise g := by
  obtain ⟨C, hC⟩ := apply_exists op f.axes B hz
  have hm : mkFrame cfg (op.rtype f.cls r) C = .ok ⟨op.rtype f.cls r, C⟩ ∧
      Promise ⟨op.rtype f.cls r, C⟩ := by
    by_cases hrect : op.rtype f.cls r = .rectangular
    · rw [hrect]
      have hP : Perpendicular C := by
        have hCv := fun i j => (apply_ok hC i j).1
        have key : f.cls ≠ .reference ∧ ∃ c, ∀ i j, C i j = f.axes i j * c := by
          obtain ⟨cls, axes⟩ := f
          rcases r with c | c | A | g | _ <;> cases op <;> cases cls <;>
            simp only [BinOp.rtype, reduceCtorEq] at hrect <;> cases hB
          · exact ⟨by simp, c, fun i j => hCv i j⟩
          · exact ⟨by simp, c, fun i j => hCv i j⟩
          · exact ⟨by simp, c⁻¹, fun i j => hCv i j⟩
          · exact ⟨by simp, c⁻¹, fun i j => hCv i j⟩
        obtain ⟨hcls, c, hc⟩ := key
        have : C = Matrix.of fun i j => f.axes i j * c := by
          ext i j
          rw [hc]
          rfl
        rw [this]
        exact perpendicular_smul (hf hcls) c
      refine ⟨?_, fun _ => hP, fun h => by cases h⟩
      simp only [mkFrame]
      rw [if_pos (rectangular_of_perpendicular cfg ha hr C hP)]
    · have href : op.rtype f.cls r = .reference := by
        revert hrect
        obtain ⟨cls, axes⟩ := f
        cases op <;> cases cls <;> cases r <;> simp [BinOp.rtype]
      rw [href]
      exact ⟨rfl, (fun h => by cases h), (fun h => by cases h)⟩
  refine ⟨⟨op.rtype f.cls r, C⟩, ?_, hm.2⟩
  unfold binary
  rw [(entries_iff r B).2 hB]
  simp only
  rw [hC]
  simp only
  rw [hm.1]
  rfl

/-- C86: numbers commute with frames as far as the axes are concerned. -/
theorem C86_reflected (cfg : Cfg K) (f g : Frame n K) (c : K)
    (h : binary cfg .mul f (.pyNum c) = .ok (some g)) :
    ∃ g', reflected .mul (.pyNum c) f = .ok (some g') ∧ g'.axes = g.axes := by
  obtain ⟨B, C, hB, hC, -, rfl⟩ := binary_ok h
  cases hB
  cases hC
  refine ⟨_, rfl, ?_⟩
  ext i j
  simp only [Matrix.of_apply]
  exact mul_comm _ _

/-- C86: division undoes multiplication. -/
theorem C86_undo (cfg : Cfg K) (f g k : Frame n K) (c : K) (hc : c ≠ 0)
    (h : binary cfg .mul f (.pyNum c) = .ok (some g))
    (h' : binary cfg .div g (.pyNum c) = .ok (some k)) : k.axes = f.axes := by
  obtain ⟨B, C, hB, hC, -, rfl⟩ := binary_ok h
  cases hB
  cases hC
  obtain ⟨B', C', hB', hC', -, rfl⟩ := binary_ok h'
  cases hB'
  ext i j
  have := (apply_ok hC' i j).1
  simp only [value, Matrix.of_apply] at this
  show C' i j = _
  rw [this, mul_assoc, mul_inv_cancel₀ hc, mul_one]

/-- C86: an expression changes nothing that exists: neither the operand nor any other frame or tensor,
and nothing is attached to the new frame.  This holds if the expression raises as well. -/
theorem C86_pure (cfg : Cfg K) (h : Heap n K) (f : ℕ) (op : BinOp) (r : Rhs n K) (res : Res n K)
    (hres : arith cfg f op r h = some res) :
    res.1.nT = h.nT ∧ res.1.tensors = h.tensors ∧ (∀ k < h.nF, res.1.frames k = h.frames k) ∧
      (res.2 = none → res.1.nF = h.nF + 1 ∧ (res.1.frames h.nF).reg = [] ∧
        binary cfg op (h.frames f).frame r = .ok (some (res.1.frames h.nF).frame)) ∧
      (res.2 ≠ none → res.1.nF = h.nF) := by
  unfold arith at hres
  cases hb : binary cfg op (h.frames f).frame r with
  | error e =>
    rw [hb] at hres
    cases hres
    exact ⟨rfl, rfl, fun _ _ => rfl, (fun hn => by simp at hn), fun _ => rfl⟩
  | ok o =>
    cases o with
    | none => rw [hb] at hres; cases hres
    | some g =>
      rw [hb] at hres
      cases hres
      have hnew : (h.addFrame g).frames h.nF = ⟨g, []⟩ := Function.update_self _ _ _
      refine ⟨rfl, rfl, fun k hk => ?_, fun _ => ⟨rfl, ?_, ?_⟩, fun h => absurd rfl h⟩
      · exact Function.update_of_ne (Nat.ne_of_lt hk) _ _
      · rw [hnew]
      · rw [hnew]

/-- Components divided by the `rank`-th power of a number. -/
def shrunk (c : K) : Comps n K → Comps n K
  | .vec v => .vec fun i => v i / c
  | .ten2 A => .ten2 (Matrix.of fun i j => A i j / (c * c))
  | .gen r a => .gen r fun s => a s / c ^ r

theorem transform_smul (c : K) (hc : c ≠ 0) (x : Comps n K) :
    x.transform (c⁻¹ • (1 : Mat n K)) = shrunk c x := by
  cases x with
  | vec v =>
    simp only [Comps.transform, shrunk, Comps.vec.injEq, Matrix.smul_mulVec, Matrix.one_mulVec]
    funext i
    rw [Pi.smul_apply, smul_eq_mul]
    field_simp
  | ten2 A =>
    simp only [Comps.transform, shrunk, Comps.ten2.injEq]
    ext i j
    simp only [Matrix.smul_mul, Matrix.transpose_smul, Matrix.transpose_one, Matrix.mul_smul,
      Matrix.one_mul, Matrix.mul_one, Matrix.smul_apply, smul_eq_mul, Matrix.of_apply]
    field_simp
  | gen r a =>
    have h1 := transform_one (Comps.gen r a : Comps n K)
    simp only [Comps.transform, Comps.gen.injEq, heq_eq_eq, true_and] at h1
    simp only [Comps.transform, shrunk, Comps.gen.injEq, heq_eq_eq, true_and]
    funext t
    have h2 := congrFun h1 t
    have : ∀ s : Fin r → Fin n, (∏ k, (c⁻¹ • (1 : Mat n K)) (t k) (s k)) * a s =
        c⁻¹ ^ r * ((∏ k, (1 : Mat n K) (t k) (s k)) * a s) := by
      intro s
      simp only [Matrix.smul_apply, smul_eq_mul, Finset.prod_mul_distrib, Finset.prod_const,
        Finset.card_univ, Fintype.card_fin]
      ring
    simp only [this]
    rw [← Finset.mul_sum, h2, inv_pow]
    field_simp

theorem setFrame_comps (cfg : Cfg K) (h : Heap n K) (t f : ℕ) (ht : t < h.nT) (hf : f < h.nF)
    (c : Comps n K)
    (hs : showIn cfg (h.frames (h.tensors t).frame).frame (h.tensors t).comps
      (some (h.frames f).frame) = .ok c) :
    ∃ h', h.setFrame cfg t f = (h', none) ∧ h'.tensors = Function.update h.tensors t ⟨c, f⟩ ∧
      ∀ k, (h'.frames k).frame = (h.frames k).frame := by
  have hfr := setFrame_frames cfg h t f
  unfold Heap.setFrame at hfr ⊢
  rw [if_pos ⟨ht, hf⟩] at hfr ⊢
  simp only at hfr ⊢
  rw [hs] at hfr ⊢
  exact ⟨_, rfl, rfl, hfr.2⟩

/-- C86, the example in the documentation of `ReferenceFrame`: `v.frame = A * c` succeeds and divides
the components of `v` by `c`, once for every index, for every class of `A` whose axes are what the
class promises.  The vector or tensor stands for the same object. -/
theorem C86_rescale (cfg : Cfg K) (ha : 0 ≤ cfg.atol) (hr : 0 ≤ cfg.rtol) (h : Heap n K) (t : ℕ)
    (ht : t < h.nT) (hF : (h.tensors t).frame < h.nF) (c : K) (hc : c ≠ 0)
    (hp : (h.frames (h.tensors t).frame).frame.cls ≠ .reference →
      Perpendicular (h.frames (h.tensors t).frame).frame.axes)
    (hdet : (h.frames (h.tensors t).frame).frame.axes.det ≠ 0) :
    ∃ h1 h2, arith cfg (h.tensors t).frame .mul (.pyNum c) h = some (h1, none) ∧
      h1.setFrame cfg t h.nF = (h2, none) ∧
      h2.tensors t = ⟨shrunk c (h.tensors t).comps, h.nF⟩ ∧
      (∀ u, u ≠ t → h2.tensors u = h.tensors u) ∧
      h2.ambientOf t = h.ambientOf t := by
  set f := (h.frames (h.tensors t).frame).frame with hfdef
  obtain ⟨g, hg, hgp⟩ := C86_succeeds_partial cfg ha hr .mul f hp (.pyNum c) _ (.pyNum c)
    (fun h => by cases h)
  have har : arith cfg (h.tensors t).frame .mul (.pyNum c) h = some (h.addFrame g, none) := by
    unfold arith
    rw [← hfdef, hg]
  obtain ⟨B, C, hB, hC, -, hgC⟩ := binary_ok hg
  cases hB
  cases hC
  have hcls : g.cls ≠ .cartesian := by
    rcases C86_class cfg _ _ _ _ hg with ⟨h, -⟩ | ⟨h, -⟩ <;> rw [h] <;> simp
  have hCart : CartOK g := fun h => absurd h hcls
  have hax : g.axes = c • f.axes := by
    rw [hgC]
    ext i j
    simp only [Matrix.of_apply, Matrix.smul_apply, smul_eq_mul]
    ring
  have hgdet : g.axes.det ≠ 0 := by
    rw [hax, Matrix.det_smul]
    exact mul_ne_zero (pow_ne_zero _ hc) hdet
  obtain ⟨d, hd⟩ := C44_dual_exists cfg ha hr g hgdet hgp.1
  have hd1 := (dual_ok hCart hd).1
  have hQ : d.axes * f.axesᵀ = c⁻¹ • (1 : Mat n K) := by
    have h1 : (c • f.axesᵀ) * d.axes = 1 := by
      rw [← Matrix.transpose_smul, ← hax]
      exact hd1
    have h2 : d.axes * (c • f.axesᵀ) = 1 := mul_eq_one_comm.1 h1
    rw [Matrix.mul_smul] at h2
    calc d.axes * f.axesᵀ = c⁻¹ • (c • (d.axes * f.axesᵀ)) := by
          rw [smul_smul, inv_mul_cancel₀ hc, one_smul]
      _ = _ := by rw [h2]
  set h1 := h.addFrame g with hh1
  have hfr : ∀ k, k ≠ h.nF → h1.frames k = h.frames k := fun k hk => Function.update_of_ne hk _ _
  have hnew : h1.frames h.nF = ⟨g, []⟩ := Function.update_self _ _ _
  have hne : (h.tensors t).frame ≠ h.nF := Nat.ne_of_lt hF
  have hs : showIn cfg (h1.frames (h1.tensors t).frame).frame (h1.tensors t).comps
      (some (h1.frames h.nF).frame) = .ok (shrunk c (h.tensors t).comps) := by
    rw [showIn_eq, dcmTarget_eq, Option.getD_some, hnew, hd]
    have e : (h1.frames (h1.tensors t).frame).frame = f := by
      rw [hfdef, ← hfr _ hne]
      rfl
    rw [e, ← transform_smul c hc, ← hQ]
    rfl
  obtain ⟨h2, hset, htens, hframes⟩ := setFrame_comps cfg h1 t h.nF ht (Nat.lt_succ_self _) _ hs
  refine ⟨h1, h2, har, hset, ?_, ?_, ?_⟩
  · rw [htens]
    exact Function.update_self _ _ _
  · intro u hu
    rw [htens]
    exact Function.update_of_ne hu _ _
  · have e1 : h2.tensors t = ⟨shrunk c (h.tensors t).comps, h.nF⟩ := by
      rw [htens]
      exact Function.update_self _ _ _
    unfold Heap.ambientOf
    rw [e1, hframes, hnew, ← hfdef]
    simp only
    rw [ambient_eq, ambient_eq, ← transform_smul c hc, transform_comp, hax, Matrix.transpose_smul,
      Matrix.smul_mul, Matrix.mul_smul, Matrix.mul_one, smul_smul, mul_inv_cancel₀ hc, one_smul]

end ordered

/-- Short axes that are not perpendicular. -/
def small : Mat 2 ℚ := !![1 / 100000, 1 / 1000000; 0, 1 / 100000]

/-- C86 is violated: the short axes `(1e-5, 1e-6)` and `(0, 1e-5)` pass for rectangular, since their
product is below the absolute tolerance.  `A * 100000` then raises an `AssertionError`, although
`A *= 100000` is accepted. -/
theorem C86_tolerance_violated :
    (mkFrame npCfg .rectangular small).toOption.isSome = true ∧
    (binary npCfg .mul ⟨.rectangular, small⟩ (.pyNum 100000)).toOption.isSome = false ∧
    ((Op.inplace 0 (.mulNumber 100000)).run npCfg
      (runOps npCfg [.newFrame .rectangular small] emptyHeap)).2 = none := by
  refine ⟨by decide +kernel, by decide +kernel, by decide +kernel⟩

/-- C86 is violated: zero times a rectangular frame is a frame whose axes are all zero, but which
reports that they are independent. -/
theorem C86_zero_violated (cfg : Cfg K) (ha : 0 ≤ cfg.atol) (hr : 0 ≤ cfg.rtol)
    [IsStrictOrderedRing K] (f : Frame n K) (hf : f.cls ≠ .reference)
    (hp : Perpendicular f.axes) :
    ∃ g, binary cfg .mul f (.pyNum 0) = .ok (some g) ∧ g.axes = 0 ∧ g.isIndependent = true := by
  obtain ⟨g, hg, -⟩ := C86_succeeds_partial cfg ha hr .mul f (fun _ => hp) (.pyNum 0) _ (.pyNum 0)
    (fun h => by cases h)
  refine ⟨g, hg, ?_, ?_⟩
  · obtain ⟨B, hB, hv⟩ := (C86_axes cfg .mul f g (.pyNum 0)).1 hg
    cases hB
    ext i j
    rw [hv]
    simp [value]
  · rcases C86_class cfg _ _ _ _ hg with ⟨h, -⟩ | ⟨-, h⟩
    · unfold Frame.isIndependent
      rw [h]
    · exact absurd ⟨Or.inl rfl, hf, 0, rfl⟩ h

/-- C86 is violated: `A * 2` and `2 * A` have different classes. -/
theorem C86_order_violated (cfg : Cfg K) (f g g' : Frame n K) (c : K) (hf : f.cls ≠ .reference)
    (h : binary cfg .mul f (.pyNum c) = .ok (some g))
    (h' : reflected .mul (.pyNum c) f = .ok (some g')) :
    g.cls = .rectangular ∧ g'.cls = .reference := by
  constructor
  · rcases C86_class cfg _ _ _ _ h with ⟨h, -⟩ | ⟨-, h⟩
    · exact h
    · exact absurd ⟨Or.inl rfl, hf, c, rfl⟩ h
  · cases h'
    rfl

/-- The hypotheses can be met: a rotated Cartesian frame times 3, plus a skewed frame. -/
example :
    ((binary npCfg .mul (⟨.cartesian, !![3/5, 4/5; -4/5, 3/5]⟩ : Frame 2 ℚ) (.pyNum 3)).map
      fun g => g.map fun g => (g.axes 0 1, g.cls)) = .ok (some (12/5, .rectangular)) ∧
    ((binary npCfg .add (⟨.cartesian, !![3/5, 4/5; -4/5, 3/5]⟩ : Frame 2 ℚ)
      (.frame ⟨.reference, !![1, 1; 0, 2]⟩)).map
      fun g => g.map fun g => (g.axes 0 1, g.cls)) = .ok (some (9/5, .reference)) ∧
    Perpendicular (!![3/5, 4/5; -4/5, 3/5] : Mat 2 ℚ) := by
  refine ⟨by decide +kernel, by decide +kernel, ?_⟩
  intro i j hij
  fin_cases i <;> fin_cases j <;> simp at hij ⊢ <;> norm_num

/-! ## C87 -/

section chop
variable [IsStrictOrderedRing K]

/-- Two sets of components of the same kind, related entry by entry. -/
def Pointwise (R : K → K → Prop) : Comps n K → Comps n K → Prop
  | .vec v, .vec w => ∀ i, R (v i) (w i)
  | .ten2 A, .ten2 B => ∀ i j, R (A i j) (B i j)
  | .gen r a, .gen s b => ∃ h : r = s, ∀ t : Fin r → Fin n, R (a t) (b fun k => t (k.cast h.symm))
  | _, _ => False

/-- An entry is kept, or it was below the limit and is zero now. -/
def Chopped (tol x y : K) : Prop := (tol ≤ |x| → y = x) ∧ (|x| < tol → y = 0)

theorem chopEntry_spec (tol x : K) : Chopped tol x (chopEntry tol x) := by
  unfold chopEntry
  constructor
  · intro h
    rw [if_neg (not_lt.2 h)]
  · intro h
    rw [if_pos h]

theorem chopEntry_dist (tol x : K) (ht : 0 < tol) : |x - chopEntry tol x| < tol := by
  unfold chopEntry
  split
  · rw [sub_zero]; assumption
  · rw [sub_self, abs_zero]; exact ht

theorem chopEntry_idem (tol x : K) : chopEntry tol (chopEntry tol x) = chopEntry tol x := by
  unfold chopEntry
  split
  · split <;> rfl
  · rfl

/-- C87: `t.chop(tol)` keeps the entries of at least `tol` in magnitude, sets the others to zero, and
touches nothing else: neither the frame of `t` nor any other object. -/
theorem C87_chop_tensor (h : Heap n K) (t : ℕ) (ht : t < h.nT) (tol : K) :
    ∃ h', chopTensor t tol h = (h', none) ∧
      Pointwise (Chopped tol) (h.tensors t).comps (h'.tensors t).comps ∧
      (h'.tensors t).frame = (h.tensors t).frame ∧
      (∀ u, u ≠ t → h'.tensors u = h.tensors u) ∧ h'.frames = h.frames ∧
      h'.nF = h.nF ∧ h'.nT = h.nT := by
  unfold chopTensor
  rw [if_pos ht]
  refine ⟨_, rfl, ?_, ?_, ?_, rfl, rfl, rfl⟩
  · simp only [Function.update_self]
    cases (h.tensors t).comps with
    | vec v => exact fun i => chopEntry_spec tol _
    | ten2 A => exact fun i j => chopEntry_spec tol _
    | gen r a => exact ⟨rfl, fun t => chopEntry_spec tol _⟩
  · simp only [Function.update_self]
  · intro u hu
    exact Function.update_of_ne hu _ _

/-- C87: chopping twice is chopping once, and a limit that is not positive changes nothing. -/
theorem C87_idempotent (h : Heap n K) (t : ℕ) (tol : K) :
    (chopTensor t tol (chopTensor t tol h).1).1 = (chopTensor t tol h).1 ∧
    (tol ≤ 0 → (chopTensor t tol h).1 = h) := by
  unfold chopTensor
  by_cases ht : t < h.nT
  · simp only [if_pos ht, Function.update_self, Function.update_idem]
    have hmap : ∀ c : Comps n K, (c.map (chopEntry tol)).map (chopEntry tol) =
        c.map (chopEntry tol) := by
      intro c
      cases c <;> simp only [Comps.map, Matrix.of_apply, chopEntry_idem]
    refine ⟨by rw [hmap], fun htol => ?_⟩
    have hid : ∀ x, chopEntry tol x = x := fun x =>
      if_neg (not_lt.2 (le_trans htol (abs_nonneg x)))
    have hmap' : ∀ c : Comps n K, c.map (chopEntry tol) = c := by
      intro c
      cases c <;> simp only [Comps.map, hid] <;> rfl
    rw [hmap']
    have : (⟨(h.tensors t).comps, (h.tensors t).frame⟩ : TensorObj n K) = h.tensors t := rfl
    rw [this, Function.update_eq_self]
  · simp only [if_neg ht]
    exact ⟨trivial, fun _ => trivial⟩

/-- C87: what a vector stands for moves by less than the limit times the size of the axes: coordinate
`i` by at most `tol * ∑ |E j i|`. -/
theorem C87_bound (E : Mat n K) (v : Fin n → K) (tol : K) (ht : 0 < tol) (w : Fin n → K)
    (hw : Pointwise (Chopped tol) (.vec v) (.vec w)) (i : Fin n) :
    |(∑ j, v j * E j i) - ∑ j, w j * E j i| ≤ tol * ∑ j, |E j i| := by
  rw [← Finset.sum_sub_distrib, Finset.mul_sum]
  refine le_trans (Finset.abs_sum_le_sum_abs _ _) (Finset.sum_le_sum fun j _ => ?_)
  rw [← sub_mul, abs_mul]
  refine mul_le_mul_of_nonneg_right ?_ (abs_nonneg _)
  by_cases hj : |v j| < tol
  · rw [(hw j).2 hj, sub_zero]
    exact hj.le
  · rw [(hw j).1 (not_lt.1 hj), sub_self, abs_zero]
    exact ht.le

/-- C87, partial: `f.chop(tol)` of a frame does the same to its axes and keeps its class and what is
attached to it.

Missing, because it is false: the components of the attached tensors do not follow
(`C87_frame_violated`), and the class may no longer be right (`C87_class_violated`). -/
theorem C87_chop_frame_partial (h : Heap n K) (f : ℕ) (hf : f < h.nF) (tol : K) :
    ∃ h', chopFrame f tol h = (h', none) ∧
      (∀ i j, Chopped tol ((h.frames f).frame.axes i j) ((h'.frames f).frame.axes i j)) ∧
      (h'.frames f).frame.cls = (h.frames f).frame.cls ∧ (h'.frames f).reg = (h.frames f).reg ∧
      (∀ g, g ≠ f → h'.frames g = h.frames g) ∧ h'.tensors = h.tensors ∧
      h'.nF = h.nF ∧ h'.nT = h.nT := by
  unfold chopFrame Heap.setItem
  rw [if_pos hf]
  refine ⟨_, rfl, ?_, ?_, ?_, ?_, rfl, rfl, rfl⟩
  · intro i j
    simp only [Function.update_self, Matrix.map_apply]
    exact chopEntry_spec tol _
  · simp only [Function.update_self]
  · simp only [Function.update_self]
  · intro g hg
    exact Function.update_of_ne hg _ _

/-- C87: `minmax` returns two entries of the array between which all the others lie; an empty array
is refused. -/
theorem C87_minmax (l : List K) :
    (l = [] → minmax l = .error .value) ∧
    (l ≠ [] → ∃ a b, minmax l = .ok (a, b) ∧ a ∈ l ∧ b ∈ l ∧ ∀ x ∈ l, a ≤ x ∧ x ≤ b) := by
  constructor
  · rintro rfl
    rfl
  · intro hl
    obtain ⟨x, xs, rfl⟩ := List.exists_cons_of_ne_nil hl
    refine ⟨_, _, rfl, ?_⟩
    have hmin : ∀ (xs : List K) (x : K), xs.foldl min x ∈ x :: xs ∧
        ∀ y ∈ x :: xs, xs.foldl min x ≤ y := by
      intro xs
      induction xs with
      | nil => intro x; simp
      | cons z zs ih =>
        intro x
        rw [List.foldl_cons]
        obtain ⟨h1, h2⟩ := ih (min x z)
        constructor
        · rcases List.mem_cons.1 h1 with h | h
          · rw [h]
            rcases min_choice x z with h | h <;> rw [h] <;> simp
          · exact List.mem_cons_of_mem _ (List.mem_cons_of_mem _ h)
        · intro y hy
          have h3 := h2 _ List.mem_cons_self
          rcases List.mem_cons.1 hy with rfl | hy
          · exact le_trans h3 (min_le_left _ _)
          · rcases List.mem_cons.1 hy with rfl | hy
            · exact le_trans h3 (min_le_right _ _)
            · exact h2 y (List.mem_cons_of_mem _ hy)
    have hmax : ∀ (xs : List K) (x : K), xs.foldl max x ∈ x :: xs ∧
        ∀ y ∈ x :: xs, y ≤ xs.foldl max x := by
      intro xs
      induction xs with
      | nil => intro x; simp
      | cons z zs ih =>
        intro x
        rw [List.foldl_cons]
        obtain ⟨h1, h2⟩ := ih (max x z)
        constructor
        · rcases List.mem_cons.1 h1 with h | h
          · rw [h]
            rcases max_choice x z with h | h <;> rw [h] <;> simp
          · exact List.mem_cons_of_mem _ (List.mem_cons_of_mem _ h)
        · intro y hy
          have h3 := h2 _ List.mem_cons_self
          rcases List.mem_cons.1 hy with rfl | hy
          · exact le_trans (le_max_left _ _) h3
          · rcases List.mem_cons.1 hy with rfl | hy
            · exact le_trans (le_max_right _ _) h3
            · exact h2 y (List.mem_cons_of_mem _ hy)
    exact ⟨(hmin xs x).1, (hmax xs x).1, fun y hy => ⟨(hmin xs x).2 y hy, (hmax xs x).2 y hy⟩⟩

end chop

/-- C87 is violated: chopping the frame `(1, 1/10), (0, 1)` with the limit `1/2` turns the vector
`(1, 0)` attached to it, which stands for `(1, 1/10)`, into one that stands for `(1, 0)`, without
telling it. -/
theorem C87_frame_violated :
    let h : Heap 2 ℚ := runOps npCfg
      [.newFrame .reference !![1, 1/10; 0, 1], .newTensor (.vec ![1, 0]) 0] emptyHeap
    (chopFrame 0 (1/2) h).2 = none ∧ (h.ambientOf 0).comp 1 = 1/10 ∧
      ((chopFrame 0 (1/2) h).1.ambientOf 0).comp 1 = 0 := by
  refine ⟨by decide +kernel, by decide +kernel, by decide +kernel⟩

/-- C87 is violated: a chopped Cartesian frame still reports that it is Cartesian, although its axes
are not normal. -/
theorem C87_class_violated :
    let h : Heap 2 ℚ := (chopFrame 0 (7/10)
      (runOps npCfg [.newFrame .cartesian !![3/5, 4/5; -4/5, 3/5]] emptyHeap)).1
    (h.frames 0).frame.isCartesian npCfg = true ∧
      ∑ k, (h.frames 0).frame.axes 0 k * (h.frames 0).frame.axes 0 k = 16/25 := by
  refine ⟨by decide +kernel, by decide +kernel⟩

example :
    let h : Heap 2 ℚ := runOps npCfg
      [.newFrame .reference !![1, 1; 0, 2], .newTensor (.vec ![1/1000, -3]) 0] emptyHeap
    ((chopTensor 0 (1/100) h).1.tensors 0).comps.comp 0 = 0 ∧
    ((chopTensor 0 (1/100) h).1.tensors 0).comps.comp 1 = -3 ∧
    minmax [3, -1, (5 : ℚ), 0] = .ok (-1, 5) := by
  refine ⟨by decide +kernel, by decide +kernel, by decide +kernel⟩

end Verif.FA.Props
