import Verif.Model.Mixed
import Verif.Props.TensorOps
import Verif.Props.Close
import Mathlib.Data.Fin.VecNotation

/-!
# Where a tensor meets something else (C125)
-/

set_option linter.unusedSectionVars false

namespace Verif.Mixed.Props
open Verif Verif.Frames Verif.Close Verif.Mixed Verif.Frames.Props Matrix

section
variable {n : ℕ} {K R : Type} [Field K] [LinearOrder K]

/-- An exception is raised. -/
def Raises {α : Type} (x : Py α) : Prop := ∃ e, x = .error e

/-- An array, a list, a frame or an object which is none of these, nor a number or a tensor. -/
def Foreign : Val n K → Prop
  | .tensor _ => False
  | .number _ => False
  | _ => True

/-- An array, a list or a frame. -/
def HasEntries : Val n K → Prop
  | .frame _ => True
  | .array _ => True
  | .list _ => True
  | _ => False

/-- C125: a tensor on the left of something which is neither a tensor nor a number: everything
raises except `dot` with an array, a list or a frame, and `+=`, `-=`, which leave the tensor as it
is. -/
theorem C125_left (cfg : Cfg K) (env : Env n K R) (e : Entry) (a : Tensor n K) (z : Val n K)
    (hz : Foreign z) :
    (e = .inplace .add ∨ e = .inplace .sub → run cfg env e (.tensor a) z = .ok (.tensor a)) ∧
    (¬ (e = .inplace .add ∨ e = .inplace .sub) → ¬ (e = .dot ∧ HasEntries z) →
      Raises (run cfg env e (.tensor a) z)) := by
  constructor
  · rintro (rfl | rfl) <;> cases z <;> first | exact hz.elim | rfl
  · intro h1 h2
    cases z with
    | tensor _ => exact hz.elim
    | number _ => exact hz.elim
    | _ =>
      cases e with
      | dot => first | exact (h2 ⟨rfl, trivial⟩).elim | exact ⟨_, rfl⟩
      | cross => exact ⟨_, rfl⟩
      | numpy f => exact ⟨_, rfl⟩
      | ufunc k => exact ⟨_, rfl⟩
      | oper o => cases o <;> exact ⟨_, rfl⟩
      | inplace o =>
        cases o <;> first
          | exact (h1 (Or.inl rfl)).elim
          | exact (h1 (Or.inr rfl)).elim
          | exact ⟨_, rfl⟩

/-- C125: a tensor on the right of something which is neither a tensor nor a number: everything
raises except `dot` with an array, a list or a frame, and NumPy functions with a frame in front. -/
theorem C125_right (cfg : Cfg K) (env : Env n K R) (e : Entry) (a : Tensor n K) (z : Val n K)
    (hz : Foreign z) (h1 : ¬ (e = .dot ∧ HasEntries z))
    (h2 : ∀ f F, ¬ (e = .numpy f ∧ z = .frame F)) :
    Raises (run cfg env e z (.tensor a)) := by
  cases z with
  | tensor _ => exact hz.elim
  | number _ => exact hz.elim
  | _ =>
    cases e with
    | dot => first | exact (h1 ⟨rfl, trivial⟩).elim | exact ⟨_, rfl⟩
    | cross => exact ⟨_, rfl⟩
    | numpy f => first | exact ⟨_, rfl⟩ | exact (h2 f _ ⟨rfl, rfl⟩).elim
    | ufunc k => exact ⟨_, rfl⟩
    | oper o => exact ⟨_, rfl⟩
    | inplace o => exact ⟨_, rfl⟩

/-- C125: a tensor and a number: the products and quotients with the number on the right, the in
place operators, and the comparisons by `np.allclose` and `np.isclose` do not raise; everything else
does. -/
theorem C125_number (cfg : Cfg K) (env : Env n K R) (e : Entry) (a : Tensor n K) (s : K) :
    (Raises (run cfg env e (.tensor a) (.number s)) ↔
      ¬ (e ∈ ([.oper .mul, .oper .truediv, .inplace .add, .inplace .sub, .inplace .mul,
        .inplace .truediv, .numpy .allclose, .numpy .isclose] : List Entry))) ∧
    (Raises (run cfg env e (.number s) (.tensor a)) ↔
      ¬ (e ∈ ([.numpy .allclose, .numpy .isclose] : List Entry))) := by
  have hq : ∀ o : Option (Tensor n K), ¬ Raises (quotient (R := R) (.ok o)) := by
    rintro (_ | t) ⟨e, h⟩ <;> cases h
  have hok : ∀ {α : Type} (x : α), ¬ Raises (Except.ok x : Py α) := by
    rintro α x ⟨e, h⟩; cases h
  have h1 : (run cfg env (.numpy .allclose) (.tensor a) (.number s)) =
      .ok (.truth (decide (∀ t, iscloseArr env.rtol env.atol (.ofComps (Means a))
        ⟨0, fun _ => s⟩ t = true))) := by
    simp only [run, npFunction, tensorFunction, Val.handled, Bool.and_self, if_true, Val.toClose,
      Close.allclose, Arg.resolve, show_none]
    rfl
  have h2 : (run cfg env (.numpy .isclose) (.tensor a) (.number s)) =
      .ok (.truths ⟨_, iscloseArr env.rtol env.atol (.ofComps (Means a)) ⟨0, fun _ => s⟩⟩) := by
    simp only [run, npFunction, tensorFunction, Val.handled, Bool.and_self, if_true, Val.toClose,
      Close.isclose, Arg.resolve, show_none]
    rfl
  have h3 : (run cfg env (.numpy .allclose) (.number s) (.tensor a)) =
      .ok (.truth (decide (∀ t, iscloseArr env.rtol env.atol ⟨0, fun _ => s⟩ (.ofComps (Means a))
        t = true))) := by
    simp only [run, npFunction, tensorFunction, Val.handled, Bool.and_self, if_true, Val.toClose,
      Close.allclose, Arg.resolve, show_none]
    rfl
  have h4 : (run cfg env (.numpy .isclose) (.number s) (.tensor a)) =
      .ok (.truths ⟨_, iscloseArr env.rtol env.atol ⟨0, fun _ => s⟩ (.ofComps (Means a))⟩) := by
    simp only [run, npFunction, tensorFunction, Val.handled, Bool.and_self, if_true, Val.toClose,
      Close.isclose, Arg.resolve, show_none]
    rfl
  constructor
  · cases e with
    | dot => exact ⟨fun _ => by simp, fun _ => ⟨_, rfl⟩⟩
    | cross => exact ⟨fun _ => by simp, fun _ => ⟨_, rfl⟩⟩
    | ufunc k => exact ⟨fun _ => by simp, fun _ => ⟨_, rfl⟩⟩
    | numpy f =>
      cases f with
      | allclose => rw [h1]; simp [hok]
      | isclose => rw [h2]; simp [hok]
      | _ => exact ⟨fun _ => by simp, fun _ => ⟨_, rfl⟩⟩
    | oper o =>
      cases o with
      | mul => exact ⟨fun h => (hok _ h).elim, fun h => by simp at h⟩
      | truediv => exact ⟨fun h => (hq _ h).elim, fun h => by simp at h⟩
      | _ => exact ⟨fun _ => by simp, fun _ => ⟨_, rfl⟩⟩
    | inplace o =>
      cases o with
      | add => exact ⟨fun h => (hok _ h).elim, fun h => by simp at h⟩
      | sub => exact ⟨fun h => (hok _ h).elim, fun h => by simp at h⟩
      | mul => exact ⟨fun h => (hok _ h).elim, fun h => by simp at h⟩
      | truediv => exact ⟨fun h => (hq _ h).elim, fun h => by simp at h⟩
      | _ => exact ⟨fun _ => by simp, fun _ => ⟨_, rfl⟩⟩
  · cases e with
    | dot => exact ⟨fun _ => by simp, fun _ => ⟨_, rfl⟩⟩
    | cross => exact ⟨fun _ => by simp, fun _ => ⟨_, rfl⟩⟩
    | ufunc k => exact ⟨fun _ => by simp, fun _ => ⟨_, rfl⟩⟩
    | numpy f =>
      cases f with
      | allclose => rw [h3]; simp [hok]
      | isclose => rw [h4]; simp [hok]
      | _ => exact ⟨fun _ => by simp, fun _ => ⟨_, rfl⟩⟩
    | oper o => exact ⟨fun _ => by simp, fun _ => ⟨_, rfl⟩⟩
    | inplace o => exact ⟨fun _ => by simp, fun _ => ⟨_, rfl⟩⟩

/-- C125: two tensors: NumPy's `dot` and `cross` are those of the package; universal functions, other
NumPy functions and operators other than `+`, `-`, `+=`, `-=` raise. -/
theorem C125_tensors (cfg : Cfg K) (env : Env n K R) (a b : Tensor n K) :
    run cfg env (.numpy .dot) (.tensor a) (.tensor b) = run cfg env .dot (.tensor a) (.tensor b) ∧
    run cfg env (.numpy .cross) (.tensor a) (.tensor b) =
      run cfg env .cross (.tensor a) (.tensor b) ∧
    (∀ k, Raises (run cfg env (.numpy (.other k)) (.tensor a) (.tensor b))) ∧
    (∀ k, Raises (run cfg env (.ufunc k) (.tensor a) (.tensor b))) ∧
    ∀ o, o ≠ .add → o ≠ .sub → Raises (run cfg env (.oper o) (.tensor a) (.tensor b)) ∧
      Raises (run cfg env (.inplace o) (.tensor a) (.tensor b)) := by
  refine ⟨rfl, rfl, fun k => ⟨_, rfl⟩, fun k => ⟨_, rfl⟩, fun o h1 h2 => ?_⟩
  cases o <;> first | exact (h1 rfl).elim | exact (h2 rfl).elim | exact ⟨⟨_, rfl⟩, _, rfl⟩

/-- C125: which exception: `TypeError` for products, sums and NumPy functions with an object of
another kind, the package's own exception for universal functions, `@` and the remaining operators
(comparisons included), `NotImplementedError` for powers. -/
theorem C125_kinds (cfg : Cfg K) (env : Env n K R) (a : Tensor n K) (z : Val n K)
    (hz : Foreign z) (f : Fn) (k : ℕ) (y : Val n K) :
    run cfg env .cross (.tensor a) z = .error .type ∧
    run cfg env .cross z (.tensor a) = .error .type ∧
    run cfg env (.numpy f) (.tensor a) z = .error .type ∧
    ((∀ F, z ≠ .frame F) → run cfg env (.numpy f) z (.tensor a) = .error .type) ∧
    (∀ o ∈ [Oper.add, .sub, .mul, .truediv],
      run cfg env (.oper o) (.tensor a) z = .error .type) ∧
    (∀ o ∈ [Oper.mul, .truediv], run cfg env (.inplace o) (.tensor a) z = .error .type) ∧
    run cfg env (.oper .pow) (.tensor a) y = .error .notImplemented ∧
    run cfg env (.inplace .pow) (.tensor a) y = .error .notImplemented ∧
    (∀ o ∈ [Oper.matmul, .other k], run cfg env (.oper o) (.tensor a) y = .error .generic ∧
      run cfg env (.inplace o) (.tensor a) y = .error .generic) ∧
    run cfg env (.ufunc k) (.tensor a) y = .error .generic ∧
    ((∀ F, z ≠ .frame F) → run cfg env (.ufunc k) z (.tensor a) = .error .generic ∧
      ∀ o, run cfg env (.oper o) z (.tensor a) = .error .generic ∧
        run cfg env (.inplace o) z (.tensor a) = .error .generic) ∧
    (∀ F, run cfg env (.ufunc k) (.frame F) (.tensor a) = .error .type) := by
  refine ⟨?_, ?_, ?_, ?_, ?_, ?_, rfl, rfl, ?_, rfl, ?_, fun F => rfl⟩
  · cases z <;> first | exact hz.elim | rfl
  · cases z <;> first | exact hz.elim | rfl
  · cases z <;> first | exact hz.elim | rfl
  · intro h; cases z <;> first | exact hz.elim | exact (h _ rfl).elim | rfl
  · intro o ho
    simp only [List.mem_cons, List.not_mem_nil, or_false] at ho
    rcases ho with rfl | rfl | rfl | rfl <;> cases z <;> first | exact hz.elim | rfl
  · intro o ho
    simp only [List.mem_cons, List.not_mem_nil, or_false] at ho
    rcases ho with rfl | rfl <;> cases z <;> first | exact hz.elim | rfl
  · intro o ho
    simp only [List.mem_cons, List.not_mem_nil, or_false] at ho
    rcases ho with rfl | rfl <;> exact ⟨rfl, rfl⟩
  · intro h
    cases z <;> first | exact hz.elim | exact (h _ rfl).elim | exact ⟨rfl, fun o => ⟨rfl, rfl⟩⟩

/-- C125: a frame on the left of an operator with a tensor. -/
theorem C125_frame_operator (cfg : Cfg K) (env : Env n K R) (F : Frame n K) (a : Tensor n K)
    (o : Oper) :
    run cfg env (.oper o) (.frame F) (.tensor a) =
      .error (if F.cls ≠ .reference ∧ (o = .mul ∨ o = .truediv) then .generic else .type) ∧
    run cfg env (.inplace o) (.frame F) (.tensor a) =
      .error (if o ∈ [Oper.add, .sub, .mul, .truediv, .matmul, .pow] then .generic else .type) := by
  obtain ⟨c, E⟩ := F
  cases c <;> cases o <;> simp [run, oper, inplace, frameOper, frameInplace]

/-- C125: of the universal functions of one argument only the change of sign is allowed, without
`out`. -/
theorem C125_unary (negative call out : Bool) (a : Tensor n K) :
    (∃ t, unary negative call out a = .ok t) ↔ negative = true ∧ call = true ∧ out = false := by
  cases negative <;> cases call <;> cases out <;> simp [unary]

/-- C125: the sign is that of what the tensor stands for. -/
theorem C125_unary_means (negative call out : Bool) (a t : Tensor n K)
    (h : unary negative call out a = .ok t) :
    t.frame = a.frame ∧ (∀ x, Means a = .vec x → Means t = .vec fun j => -x j) ∧
      (∀ A, Means a = .ten2 A → Means t = .ten2 (-A)) ∧
      ∀ r x, Means a = .gen r x → Means t = .gen r fun j => -x j := by
  obtain ⟨rfl, rfl, rfl⟩ := (C125_unary negative call out a).1 ⟨t, h⟩
  obtain rfl : neg a = t := by simpa [unary] using h
  refine ⟨(C47_neg a).1, fun x hx => ?_, fun A hA => ?_, fun r x hx => ?_⟩
  · rw [(C47_neg a).2, hx]
    simp [each]
  · rw [(C47_neg a).2, hA]
    simp only [each, Comps.ten2.injEq]
    ext i j
    simp
  · rw [(C47_neg a).2, hx]
    simp [each]

/-! ### Independence of the frames -/

/-- The same physical objects: tensors may be given in different frames. -/
def Same : Val n K → Val n K → Prop
  | .tensor a, .tensor b => Means a = Means b ∧ CartOK a.frame ∧ CartOK b.frame
  | .number x, .number y => x = y
  | .frame f, .frame g => f = g
  | .array a, .array b => a = b
  | .list a, .list b => a = b
  | .other, .other => True
  | _, _ => False

/-- The same results: tensors may be given in different frames. -/
def Alike : Res n K R → Res n K R → Prop
  | .tensor a, .tensor b => Means a = Means b
  | .scalar x, .scalar y => x = y
  | .truth x, .truth y => x = y
  | .truths x, .truths y => x = y
  | .raw x, .raw y => x = y
  | .notFinite, .notFinite => True
  | .plain, .plain => True
  | _, _ => False

/-- Where bare components are used. -/
def Bare (e : Entry) (x y : Val n K) : Prop :=
  match x, y, e with
  -- `dot` of a tensor and something else
  | .tensor _, .tensor _, .dot => False
  | _, _, .dot => True
  -- NumPy functions with a frame in front
  | .frame _, _, .numpy _ => True
  -- `v += 2`, `v -= 2`
  | _, .number _, .inplace .add => True
  | _, .number _, .inplace .sub => True
  | _, _, _ => False

/-- A vector times a tensor, and cross products: see C45 and C46. -/
def Product (e : Entry) (x y : Val n K) : Prop :=
  match x, y, e with
  | .tensor a, .tensor b, .dot => ∃ v A, a.comps = .vec v ∧ b.comps = .ten2 A
  | .tensor a, .tensor b, .numpy .dot => ∃ v A, a.comps = .vec v ∧ b.comps = .ten2 A
  | _, _, .cross => True
  | _, _, .numpy .cross => True
  | _, _, _ => False

theorem iadd_means {cfg : Cfg K} {a b t : Tensor n K} (ha : CartOK a.frame)
    (h : iadd cfg a (.tensor b) = .ok t) : lin 1 1 (Means a) (Means b) = some (Means t) := by
  unfold iadd at h
  simp only at h
  split at h
  · cases h
  · cases hs : b.show cfg (some a.frame) with
    | error e => rw [hs] at h; cases h
    | ok y =>
      rw [hs] at h
      simp only [bind, Except.bind] at h
      split at h
      · rename_i c hz
        cases h
        rw [zip_add] at hz
        have := means_lin 1 1 a.frame.axes _ _ _ hz
        rw [show_some ha hs] at this
        exact this
      · cases h

theorem isub_means {cfg : Cfg K} {a b t : Tensor n K} (ha : CartOK a.frame)
    (h : isub cfg a (.tensor b) = .ok t) : lin 1 (-1) (Means a) (Means b) = some (Means t) := by
  unfold isub at h
  simp only at h
  split at h
  · cases h
  · cases hs : b.show cfg (some a.frame) with
    | error e => rw [hs] at h; cases h
    | ok y =>
      rw [hs] at h
      simp only [bind, Except.bind] at h
      split at h
      · rename_i c hz
        cases h
        rw [zip_sub] at hz
        have := means_lin 1 (-1) a.frame.axes _ _ _ hz
        rw [show_some ha hs] at this
        exact this
      · cases h

theorem same_eq {x y : Val n K} (h : Same x y) (ht : ∀ t, x ≠ .tensor t) : x = y := by
  cases x <;> cases y <;> first
    | exact (ht _ rfl).elim
    | exact h.elim
    | exact congrArg _ h
    | rfl

theorem alike_refl (r : Res n K R) : Alike r r := by cases r <;> first | rfl | trivial

theorem means_vec {a : Tensor n K} {v : Fin n → K} (h : a.comps = .vec v) :
    ∃ X, Means a = .vec X := by
  unfold Means; rw [h, ambient_vec]; exact ⟨_, rfl⟩

theorem means_ten2 {a : Tensor n K} {A : Mat n K} (h : a.comps = .ten2 A) :
    ∃ X, Means a = .ten2 X := by
  unfold Means; rw [h, ambient_ten2]; exact ⟨_, rfl⟩

/-- The dot product of two tensors, `r` and `r'` as results of the package. -/
theorem dot_alike [IsStrictOrderedRing K] (cfg : Cfg K) (env : Env n K R) (a a' b b' : Tensor n K)
    (ha : Means a = Means a' ∧ CartOK a.frame ∧ CartOK a'.frame)
    (hb : Means b = Means b' ∧ CartOK b.frame ∧ CartOK b'.frame)
    (hp : ¬ ∃ v A, a.comps = .vec v ∧ b.comps = .ten2 A) (r r' : Res n K R)
    (h : pkgDot cfg env (.tensor a) (.tensor b) = .ok r)
    (h' : pkgDot cfg env (.tensor a') (.tensor b') = .ok r') : Alike r r' := by
  have hf : ∀ f : Frame n K, (none : Option (Frame n K)) = some f → CartOK f := by
    intro f h; cases h
  have key : ∀ {a b : Tensor n K} {r : Res n K R},
      pkgDot cfg env (.tensor a) (.tensor b) = .ok r → ∃ d, dot cfg a b none none = .ok d ∧
        r = (match d with | .scalar s => .scalar s | .tensor t => .tensor t) := by
    intro a b r h
    simp only [pkgDot, bind, Except.bind] at h
    cases hd : dot cfg a b none none with
    | error e => rw [hd] at h; cases h
    | ok d =>
      rw [hd] at h
      cases d <;> cases h <;> exact ⟨_, rfl, rfl⟩
  obtain ⟨d, hd, rfl⟩ := key h
  obtain ⟨d', hd', rfl⟩ := key h'
  cases hca : a.comps with
  | vec v =>
    obtain ⟨X, hX⟩ := means_vec hca
    cases hcb : b.comps with
    | vec w =>
      obtain ⟨Y, hY⟩ := means_vec hcb
      have e1 := C45_vector_vector cfg a b none none X Y hX hY
      have e2 := C45_vector_vector cfg a' b' none none X Y (ha.1 ▸ hX) (hb.1 ▸ hY)
      rw [hd] at e1
      rw [hd'] at e2
      cases e1
      cases e2
      exact rfl
    | ten2 B => exact (hp ⟨v, B, hca, hcb⟩).elim
    | gen r x => unfold dot at hd; rw [hca, hcb] at hd; cases hd
  | ten2 A0 =>
    obtain ⟨A, hA⟩ := means_ten2 hca
    cases hcb : b.comps with
    | vec w =>
      obtain ⟨Y, hY⟩ := means_vec hcb
      obtain ⟨t, rfl, m, -⟩ := C45_tensor_vector cfg a b none none ha.2.1 hf A Y hA hY d hd
      obtain ⟨t', rfl, m', -⟩ := C45_tensor_vector cfg a' b' none none ha.2.2 hf A Y (ha.1 ▸ hA)
        (hb.1 ▸ hY) d' hd'
      exact m.trans m'.symm
    | ten2 B0 =>
      obtain ⟨B, hB⟩ := means_ten2 hcb
      obtain ⟨t, rfl, m, -⟩ := C45_tensor_tensor cfg a b none none ha.2.1 hf A B hA hB d hd
      obtain ⟨t', rfl, m', -⟩ := C45_tensor_tensor cfg a' b' none none ha.2.2 hf A B (ha.1 ▸ hA)
        (hb.1 ▸ hB) d' hd'
      exact m.trans m'.symm
    | gen r x => unfold dot at hd; rw [hca, hcb] at hd; cases hd
  | gen r x =>
    unfold dot at hd
    rw [hca] at hd
    cases hcb : b.comps with
    | vec w => rw [hcb] at hd; cases r <;> cases hd
    | ten2 B => rw [hcb] at hd; cases r <;> cases hd
    | gen s y => rw [hcb] at hd; cases r <;> cases s <;> cases hd

theorem tensor_ok {x : Py (Tensor n K)} {r : Res n K R}
    (h : (do return .tensor (← x) : Py (Res n K R)) = .ok r) : ∃ t, x = .ok t ∧ r = .tensor t := by
  cases x with
  | error e => cases h
  | ok t => cases h; exact ⟨t, rfl, rfl⟩

theorem close_alike [IsStrictOrderedRing K] (cfg : Cfg K) (rtol atol : K) (a a' b b' : Val n K)
    (ha : Same a a') (hb : Same b b') :
    Close.allclose cfg rtol atol a.toClose b.toClose =
      Close.allclose cfg rtol atol a'.toClose b'.toClose ∧
    Close.isclose cfg rtol atol a.toClose b.toClose =
      Close.isclose cfg rtol atol a'.toClose b'.toClose := by
  have key : ∀ x x' : Val n K, Same x x' →
      x.toClose.resolve cfg = x'.toClose.resolve cfg ∧ (x.toClose = .array ↔ x'.toClose = .array) := by
    intro x x' h
    cases x with
    | tensor t =>
      cases x' with
      | tensor t' =>
        refine ⟨?_, by simp [Val.toClose]⟩
        show (Arg.tensor t).resolve cfg = (Arg.tensor t').resolve cfg
        rw [Close.Props.resolve_tensor, Close.Props.resolve_tensor]
        exact congrArg (fun c => Except.ok (Arr.ofComps c)) h.1
      | _ => exact h.elim
    | _ => rw [same_eq h (by intro t ht; cases ht)]; exact ⟨rfl, Iff.rfl⟩
  have hall : ∀ x y : Close.Arg n K, Close.allclose cfg rtol atol x y = do
      let u ← x.resolve cfg
      let v ← y.resolve cfg
      return decide (∀ t, iscloseArr rtol atol u v t = true) := by
    intro x y
    cases x <;> cases y <;> first | rfl | skip
    all_goals simp only [Close.allclose, Arg.resolve, show_none]; rfl
  have his : ∀ x y : Close.Arg n K, Close.isclose cfg rtol atol x y = do
      let u ← x.resolve cfg
      let v ← y.resolve cfg
      return ⟨_, iscloseArr rtol atol u v⟩ := by
    intro x y
    cases x <;> cases y <;> first | rfl | skip
    all_goals simp only [Close.isclose, Arg.resolve, show_none]; rfl
  rw [hall, hall, his, his, (key a a' ha).1, (key b b' hb).1]
  exact ⟨rfl, rfl⟩

/-- C125, partial: whatever does not raise gives the same for tensors which stand for the same.

Missing, because it is false: the cases in `Bare` (`C125_bare`, `C125_dot_array_violated`,
`C125_frame_first_violated`, `C125_add_number_violated`) and the products `vector · tensor` and `×`,
for which see C45 and C46. -/
theorem C125_objective_partial [IsStrictOrderedRing K] (cfg : Cfg K) (env : Env n K R) (e : Entry)
    (x x' y y' : Val n K) (hx : Same x x') (hy : Same y y') (hb : ¬ Bare e x y)
    (hp : ¬ Product e x y) (r r' : Res n K R) (h : run cfg env e x y = .ok r)
    (h' : run cfg env e x' y' = .ok r') : Alike r r' := by
  by_cases hxt : ∃ a, x = .tensor a
  · obtain ⟨a, rfl⟩ := hxt
    cases x' with
    | tensor a' =>
      by_cases hyt : ∃ b, y = .tensor b
      · obtain ⟨b, rfl⟩ := hyt
        cases y' with
        | tensor b' =>
          cases e with
          | dot => exact dot_alike cfg env a a' b b' hx hy hp r r' h h'
          | cross => exact (hp trivial).elim
          | ufunc k => cases h
          | numpy f =>
            cases f with
            | dot => exact dot_alike cfg env a a' b b' hx hy hp r r' h h'
            | cross => exact (hp trivial).elim
            | other k => cases h
            | allclose =>
              have := (close_alike cfg env.rtol env.atol (.tensor a) (.tensor a') (.tensor b)
                (.tensor b') hx hy).1
              have e1 : (run cfg env (.numpy .allclose) (.tensor a) (.tensor b)) =
                  run cfg env (.numpy .allclose) (.tensor a') (.tensor b') :=
                congrArg (fun c => (do return .truth (← c) : Py (Res n K R))) this
              rw [← e1, h] at h'
              cases h'
              exact alike_refl r
            | isclose =>
              have := (close_alike cfg env.rtol env.atol (.tensor a) (.tensor a') (.tensor b)
                (.tensor b') hx hy).2
              have e1 : (run cfg env (.numpy .isclose) (.tensor a) (.tensor b)) =
                  run cfg env (.numpy .isclose) (.tensor a') (.tensor b') :=
                congrArg (fun c => (do return .truths (← c) : Py (Res n K R))) this
              rw [← e1, h] at h'
              cases h'
              exact alike_refl r
          | oper o =>
            cases o with
            | add =>
              obtain ⟨t, ht, rfl⟩ := tensor_ok h
              obtain ⟨t', ht', rfl⟩ := tensor_ok h'
              have m := C47_add cfg a b t hx.2.1 ht
              have m' := C47_add cfg a' b' t' hx.2.2 ht'
              rw [← hx.1, ← hy.1, m] at m'
              exact Option.some.inj m'
            | sub =>
              obtain ⟨t, ht, rfl⟩ := tensor_ok h
              obtain ⟨t', ht', rfl⟩ := tensor_ok h'
              have m := C47_sub cfg a b t hx.2.1 ht
              have m' := C47_sub cfg a' b' t' hx.2.2 ht'
              rw [← hx.1, ← hy.1, m] at m'
              exact Option.some.inj m'
            | _ => cases h
          | inplace o =>
            cases o with
            | add =>
              obtain ⟨t, ht, rfl⟩ := tensor_ok h
              obtain ⟨t', ht', rfl⟩ := tensor_ok h'
              have m := iadd_means hx.2.1 ht
              have m' := iadd_means hx.2.2 ht'
              rw [← hx.1, ← hy.1, m] at m'
              exact Option.some.inj m'
            | sub =>
              obtain ⟨t, ht, rfl⟩ := tensor_ok h
              obtain ⟨t', ht', rfl⟩ := tensor_ok h'
              have m := isub_means hx.2.1 ht
              have m' := isub_means hx.2.2 ht'
              rw [← hx.1, ← hy.1, m] at m'
              exact Option.some.inj m'
            | _ => cases h
        | _ => exact hy.elim
      · obtain rfl := same_eq hy fun t ht => hyt ⟨t, ht⟩
        by_cases hz : Foreign y
        · by_cases hi : e = .inplace .add ∨ e = .inplace .sub
          · rw [(C125_left cfg env e a y hz).1 hi] at h
            rw [(C125_left cfg env e a' y hz).1 hi] at h'
            cases h
            cases h'
            exact hx.1
          · by_cases hd : e = .dot ∧ HasEntries y
            · obtain ⟨rfl, -⟩ := hd
              refine (hb ?_).elim
              cases y <;> first | exact (hyt ⟨_, rfl⟩).elim | trivial
            · obtain ⟨e1, he⟩ := (C125_left cfg env e a y hz).2 hi hd
              rw [h] at he
              cases he
        · cases y with
          | tensor b => exact (hyt ⟨b, rfl⟩).elim
          | number s =>
            cases e with
            | dot => cases h
            | cross => cases h
            | ufunc k => cases h
            | numpy f =>
              cases f with
              | dot => cases h
              | cross => cases h
              | other k => cases h
              | allclose =>
                have := (close_alike cfg env.rtol env.atol (.tensor a) (.tensor a') (.number s)
                  (.number s) hx hy).1
                have e1 : (run cfg env (.numpy .allclose) (.tensor a) (.number s)) =
                    run cfg env (.numpy .allclose) (.tensor a') (.number s) :=
                  congrArg (fun c => (do return .truth (← c) : Py (Res n K R))) this
                rw [← e1, h] at h'
                cases h'
                exact alike_refl r
              | isclose =>
                have := (close_alike cfg env.rtol env.atol (.tensor a) (.tensor a') (.number s)
                  (.number s) hx hy).2
                have e1 : (run cfg env (.numpy .isclose) (.tensor a) (.number s)) =
                    run cfg env (.numpy .isclose) (.tensor a') (.number s) :=
                  congrArg (fun c => (do return .truths (← c) : Py (Res n K R))) this
                rw [← e1, h] at h'
                cases h'
                exact alike_refl r
            | oper o =>
              cases o with
              | mul =>
                obtain ⟨t, e1, -, -, m⟩ := C47_scale a s
                obtain ⟨t', e1', -, -, m'⟩ := C47_scale a' s
                obtain ⟨u, hu, rfl⟩ := tensor_ok h
                obtain ⟨u', hu', rfl⟩ := tensor_ok h'
                obtain rfl : t = u := by
                  have := e1.symm.trans hu
                  injection this
                obtain rfl : t' = u' := by
                  have := e1'.symm.trans hu'
                  injection this
                exact m.trans ((congrArg _ hx.1).trans m'.symm)
              | truediv =>
                by_cases hs : s = 0
                · obtain ⟨e1, -⟩ := (C47_divide a s).2 hs
                  obtain ⟨e1', -⟩ := (C47_divide a' s).2 hs
                  have g : quotient (R := R) (truediv a (.number s)) = .ok r := h
                  have g' : quotient (R := R) (truediv a' (.number s)) = .ok r' := h'
                  rw [e1] at g
                  rw [e1'] at g'
                  cases g
                  cases g'
                  trivial
                · obtain ⟨t, e1, -, -, m⟩ := (C47_divide a s).1 hs
                  obtain ⟨t', e1', -, -, m'⟩ := (C47_divide a' s).1 hs
                  have g : quotient (R := R) (truediv a (.number s)) = .ok r := h
                  have g' : quotient (R := R) (truediv a' (.number s)) = .ok r' := h'
                  rw [e1] at g
                  rw [e1'] at g'
                  cases g
                  cases g'
                  exact m.trans ((congrArg _ hx.1).trans m'.symm)
              | _ => cases h
            | inplace o =>
              cases o with
              | add => exact (hb trivial).elim
              | sub => exact (hb trivial).elim
              | mul =>
                obtain ⟨t, -, e1, -, m⟩ := C47_scale a s
                obtain ⟨t', -, e1', -, m'⟩ := C47_scale a' s
                obtain ⟨u, hu, rfl⟩ := tensor_ok h
                obtain ⟨u', hu', rfl⟩ := tensor_ok h'
                obtain rfl : t = u := by
                  have := e1.symm.trans hu
                  injection this
                obtain rfl : t' = u' := by
                  have := e1'.symm.trans hu'
                  injection this
                exact m.trans ((congrArg _ hx.1).trans m'.symm)
              | truediv =>
                by_cases hs : s = 0
                · obtain ⟨-, e1⟩ := (C47_divide a s).2 hs
                  obtain ⟨-, e1'⟩ := (C47_divide a' s).2 hs
                  have g : quotient (R := R) (itruediv a (.number s)) = .ok r := h
                  have g' : quotient (R := R) (itruediv a' (.number s)) = .ok r' := h'
                  rw [e1] at g
                  rw [e1'] at g'
                  cases g
                  cases g'
                  trivial
                · obtain ⟨t, -, e1, -, m⟩ := (C47_divide a s).1 hs
                  obtain ⟨t', -, e1', -, m'⟩ := (C47_divide a' s).1 hs
                  have g : quotient (R := R) (itruediv a (.number s)) = .ok r := h
                  have g' : quotient (R := R) (itruediv a' (.number s)) = .ok r' := h'
                  rw [e1] at g
                  rw [e1'] at g'
                  cases g
                  cases g'
                  exact m.trans ((congrArg _ hx.1).trans m'.symm)
              | _ => cases h
          | _ => exact (hz trivial).elim
    | _ => exact hx.elim
  · obtain rfl := same_eq hx fun t ht => hxt ⟨t, ht⟩
    by_cases hyt : ∃ b, y = .tensor b
    · obtain ⟨b, rfl⟩ := hyt
      cases y' with
      | tensor b' =>
        by_cases hz : Foreign x
        · by_cases hd : e = .dot ∧ HasEntries x
          · obtain ⟨rfl, -⟩ := hd
            refine (hb ?_).elim
            cases x <;> first | exact (hxt ⟨_, rfl⟩).elim | trivial
          · by_cases hF : ∃ f F, e = .numpy f ∧ x = .frame F
            · obtain ⟨f, F, rfl, rfl⟩ := hF
              exact (hb trivial).elim
            · obtain ⟨e1, he⟩ := C125_right cfg env e b x hz hd fun f F hh => hF ⟨f, F, hh⟩
              rw [h] at he
              cases he
        · cases x with
          | tensor b => exact (hxt ⟨b, rfl⟩).elim
          | number s =>
            cases e with
            | dot => cases h
            | cross => cases h
            | ufunc k => cases h
            | oper o => cases h
            | inplace o => cases h
            | numpy f =>
              cases f with
              | dot => cases h
              | cross => cases h
              | other k => cases h
              | allclose =>
                have := (close_alike cfg env.rtol env.atol (.number s) (.number s) (.tensor b)
                  (.tensor b') hx hy).1
                have e1 : (run cfg env (.numpy .allclose) (.number s) (.tensor b)) =
                    run cfg env (.numpy .allclose) (.number s) (.tensor b') :=
                  congrArg (fun c => (do return .truth (← c) : Py (Res n K R))) this
                rw [← e1, h] at h'
                cases h'
                exact alike_refl r
              | isclose =>
                have := (close_alike cfg env.rtol env.atol (.number s) (.number s) (.tensor b)
                  (.tensor b') hx hy).2
                have e1 : (run cfg env (.numpy .isclose) (.number s) (.tensor b)) =
                    run cfg env (.numpy .isclose) (.number s) (.tensor b') :=
                  congrArg (fun c => (do return .truths (← c) : Py (Res n K R))) this
                rw [← e1, h] at h'
                cases h'
                exact alike_refl r
          | _ => exact (hz trivial).elim
      | _ => exact hy.elim
    · obtain rfl := same_eq hy fun t ht => hyt ⟨t, ht⟩
      rw [h] at h'
      cases h'
      exact alike_refl r

/-! ### The values -/

/-- C125: what comes out with a number: the physical tensor is scaled. -/
theorem C125_scaled (cfg : Cfg K) (env : Env n K R) (a : Tensor n K) (s : K) (o : Oper)
    (ho : o = .mul ∨ o = .truediv ∧ s ≠ 0) :
    ∃ t, run cfg env (.oper o) (.tensor a) (.number s) = .ok (.tensor t) ∧
      run cfg env (.inplace o) (.tensor a) (.number s) = .ok (.tensor t) ∧ t.frame = a.frame ∧
      ∀ X, Means a = .vec X →
        Means t = .vec fun i => if o = .mul then X i * s else X i / s := by
  rcases ho with rfl | ⟨rfl, hs⟩
  · obtain ⟨t, e1, e2, e3, m⟩ := C47_scale a s
    refine ⟨t, ?_, ?_, e3, fun X hX => ?_⟩
    · exact congrArg (fun x => (do return .tensor (← x) : Py (Res n K R))) e1
    · exact congrArg (fun x => (do return .tensor (← x) : Py (Res n K R))) e2
    · rw [m, hX]
      simp [each]
  · obtain ⟨t, e1, e2, e3, m⟩ := (C47_divide a s).1 hs
    refine ⟨t, ?_, ?_, e3, fun X hX => ?_⟩
    · exact congrArg (quotient (R := R)) e1
    · exact congrArg (quotient (R := R)) e2
    · rw [m, hX]
      simp [each, div_eq_mul_inv]

/-- C125: dividing by zero does not raise, the components are not finite. -/
theorem C125_zero (cfg : Cfg K) (env : Env n K R) (a : Tensor n K) :
    run cfg env (.oper .truediv) (.tensor a) (.number 0) = .ok .notFinite ∧
      run cfg env (.inplace .truediv) (.tensor a) (.number 0) = .ok .notFinite :=
  ⟨congrArg (quotient (R := R)) ((C47_divide a 0).2 rfl).1,
    congrArg (quotient (R := R)) ((C47_divide a 0).2 rfl).2⟩

/-- C125: a vector is compared with a number coordinate by coordinate, in the ambient frame. -/
theorem C125_close_number (cfg : Cfg K) (env : Env n K R) (a : Tensor n K) (s : K) (X : Fin n → K)
    (hX : Means a = .vec X) :
    (∃ b, run cfg env (.numpy .allclose) (.tensor a) (.number s) = .ok (.truth b) ∧
      (b = true ↔ ∀ i, |X i - s| ≤ env.atol + env.rtol * |s|)) ∧
    (∃ b, run cfg env (.numpy .allclose) (.number s) (.tensor a) = .ok (.truth b) ∧
      (b = true ↔ ∀ i, |s - X i| ≤ env.atol + env.rtol * |X i|)) := by
  refine ⟨⟨?_, ?_, ?_⟩, ⟨?_, ?_, ?_⟩⟩
  · exact decide (∀ t, iscloseArr env.rtol env.atol (.ofComps (.vec X)) ⟨0, fun _ => s⟩ t = true)
  · simp only [run, npFunction, tensorFunction, Val.handled, Bool.and_self, if_true, Val.toClose,
      Close.allclose, Arg.resolve, show_none, hX]
    rfl
  · rw [decide_eq_true_iff]
    constructor
    · intro h i
      have := h (fun _ => i)
      simp only [iscloseArr, Arr.broadcast, Arr.ofComps] at this
      exact of_decide_eq_true this
    · intro h t
      simpa [iscloseArr, Arr.broadcast, Arr.ofComps] using h _
  · exact decide (∀ t, iscloseArr env.rtol env.atol ⟨0, fun _ => s⟩ (.ofComps (.vec X)) t = true)
  · simp only [run, npFunction, tensorFunction, Val.handled, Bool.and_self, if_true, Val.toClose,
      Close.allclose, Arg.resolve, show_none, hX]
    rfl
  · rw [decide_eq_true_iff]
    constructor
    · intro h i
      have := h (fun _ => i)
      simp only [iscloseArr, Arr.broadcast, Arr.ofComps] at this
      exact of_decide_eq_true this
    · intro h t
      simpa [iscloseArr, Arr.broadcast, Arr.ofComps] using h _

/-- C125: two vectors: the product, the comparison, the sum and the difference are those of the
physical vectors. -/
theorem C125_vectors (cfg : Cfg K) (env : Env n K R) (a b : Tensor n K) (X Y : Fin n → K)
    (hX : Means a = .vec X) (hY : Means b = .vec Y) (ha : CartOK a.frame) :
    run cfg env .dot (.tensor a) (.tensor b) = .ok (.scalar (∑ i, X i * Y i)) ∧
    (∃ c, run cfg env (.numpy .allclose) (.tensor a) (.tensor b) = .ok (.truth c) ∧
      (c = true ↔ ∀ i, |X i - Y i| ≤ env.atol + env.rtol * |Y i|)) ∧
    (∀ r, run cfg env (.oper .add) (.tensor a) (.tensor b) = .ok r ∨
      run cfg env (.inplace .add) (.tensor a) (.tensor b) = .ok r →
      ∃ t, r = .tensor t ∧ Means t = .vec fun i => X i + Y i) ∧
    (∀ r, run cfg env (.oper .sub) (.tensor a) (.tensor b) = .ok r ∨
      run cfg env (.inplace .sub) (.tensor a) (.tensor b) = .ok r →
      ∃ t, r = .tensor t ∧ Means t = .vec fun i => X i - Y i) := by
  refine ⟨?_, ⟨?_, ?_, ?_⟩, fun r hr => ?_, fun r hr => ?_⟩
  · simp only [run, Val.isTensor, Bool.or_self, if_true, pkgDot,
      C45_vector_vector cfg a b none none X Y hX hY]
    rfl
  · exact decide (∀ t, iscloseArr env.rtol env.atol (.ofComps (.vec X)) (.ofComps (.vec Y)) t = true)
  · simp only [run, npFunction, tensorFunction, Val.handled, Bool.and_self, if_true, Val.toClose,
      Close.allclose, Arg.resolve, show_none, hX, hY]
    rfl
  · rw [decide_eq_true_iff]
    constructor
    · intro h i
      have := h (fun _ => i)
      simp only [iscloseArr, Arr.broadcast, Arr.ofComps] at this
      exact of_decide_eq_true this
    · intro h t
      simpa [iscloseArr, Arr.broadcast, Arr.ofComps] using h _
  · have key : ∃ t, r = .tensor t ∧ lin 1 1 (Means a) (Means b) = some (Means t) := by
      rcases hr with h | h
      · obtain ⟨t, ht, rfl⟩ := tensor_ok h
        exact ⟨t, rfl, C47_add cfg a b t ha ht⟩
      · obtain ⟨t, ht, rfl⟩ := tensor_ok h
        exact ⟨t, rfl, iadd_means ha ht⟩
    obtain ⟨t, rfl, m⟩ := key
    refine ⟨t, rfl, ?_⟩
    rw [hX, hY] at m
    simp only [lin_zip, Comps.zip, Option.some.injEq] at m
    rw [← m]
    simp
  · have key : ∃ t, r = .tensor t ∧ lin 1 (-1) (Means a) (Means b) = some (Means t) := by
      rcases hr with h | h
      · obtain ⟨t, ht, rfl⟩ := tensor_ok h
        exact ⟨t, rfl, C47_sub cfg a b t ha ht⟩
      · obtain ⟨t, ht, rfl⟩ := tensor_ok h
        exact ⟨t, rfl, isub_means ha ht⟩
    obtain ⟨t, rfl, m⟩ := key
    refine ⟨t, rfl, ?_⟩
    rw [hX, hY] at m
    simp only [lin_zip, Comps.zip, Option.some.injEq] at m
    rw [← m]
    simp [sub_eq_add_neg]

/-! ### Where bare components are used -/

/-- C125: `dot` of a tensor and an array, a list or a frame is what NumPy computes from the bare
components, and so is any NumPy function with a frame in front: the frame of the tensor plays no
role. -/
theorem C125_bare (cfg : Cfg K) (env : Env n K R) (c : Comps n K) (S T : Frame n K) (z : Val n K)
    (hz : HasEntries z) (F : Frame n K) (f : Fn) :
    run cfg env .dot (.tensor ⟨c, S⟩) z = run cfg env .dot (.tensor ⟨c, T⟩) z ∧
    run cfg env .dot z (.tensor ⟨c, S⟩) = run cfg env .dot z (.tensor ⟨c, T⟩) ∧
    run cfg env (.numpy f) (.frame F) (.tensor ⟨c, S⟩) =
      run cfg env (.numpy f) (.frame F) (.tensor ⟨c, T⟩) := by
  cases z <;> first | exact hz.elim | exact ⟨rfl, rfl, rfl⟩

end

/-! ### Violations -/

/-- NumPy's dot product of one-dimensional arrays, and the first entry of that of a matrix and a
vector; nothing else is needed below. -/
def vecEnv : Env 2 ℚ ℚ where
  np _ a b := if a.ndim = 1 ∧ b.ndim = 1 then
      .ok (∑ i, a.entry (fun _ => i) * b.entry (fun _ => i))
    else if a.ndim = 2 ∧ b.ndim = 1 then
      .ok (∑ i, a.entry (fun k => if k.val = 0 then 0 else i) * b.entry (fun _ => i))
    else .error .value
  cross _ _ := .error .value
  rtol := 0
  atol := 0

/-- The same vector, `2 e₁`, in the ambient frame and in a frame with axes of length two. -/
def v₁ : Tensor 2 ℚ := ⟨.vec ![2, 0], ⟨.reference, !![1, 0; 0, 1]⟩⟩
/-- See `v₁`. -/
def v₂ : Tensor 2 ℚ := ⟨.vec ![1, 0], ⟨.reference, !![2, 0; 0, 2]⟩⟩

theorem v_same : Same (.tensor v₁) (.tensor v₂) := by
  refine ⟨?_, fun h => (by cases h), fun h => (by cases h)⟩
  unfold Means v₁ v₂
  simp only [ambient_vec, Comps.vec.injEq]
  decide +kernel

/-- What is seen of a result. -/
def seen : Res 2 ℚ ℚ → Option ℚ
  | .raw x => some x
  | .scalar x => some x
  | .tensor t => some ((Means t).comp 0)
  | _ => none

/-- C125 is violated: `dot(v, [1, 0])` is two or one, depending on the frame of the same vector;
NumPy's own `np.dot(v, [1, 0])` is refused. -/
theorem C125_dot_array_violated :
    let z : Val 2 ℚ := .list ⟨1, fun t => ![1, 0] (t 0)⟩
    Same (.tensor v₁) (.tensor v₂) ∧
      (run npCfg vecEnv .dot (.tensor v₁) z).map seen = .ok (some 2) ∧
      (run npCfg vecEnv .dot (.tensor v₂) z).map seen = .ok (some 1) ∧
      Raises (run npCfg vecEnv (.numpy .dot) (.tensor v₁) z) :=
  ⟨v_same, by decide +kernel, by decide +kernel, _, rfl⟩

/-- C125 is violated: `np.dot(A, v)` for a frame `A` uses the bare components of `v`, while
`np.dot(v, A)` is refused. -/
theorem C125_frame_first_violated :
    let F : Val 2 ℚ := .frame ⟨.reference, !![1, 0; 0, 1]⟩
    Same (.tensor v₁) (.tensor v₂) ∧
      (run npCfg vecEnv (.numpy .dot) F (.tensor v₁)).map seen = .ok (some 2) ∧
      (run npCfg vecEnv (.numpy .dot) F (.tensor v₂)).map seen = .ok (some 1) ∧
      Raises (run npCfg vecEnv (.numpy .dot) (.tensor v₁) F) :=
  ⟨v_same, by decide +kernel, by decide +kernel, _, rfl⟩

/-- C125 is violated: `v += 1` adds another vector, depending on the frame of the same `v`; `v + 1`
is refused. -/
theorem C125_add_number_violated :
    Same (.tensor v₁) (.tensor v₂) ∧
      (run npCfg vecEnv (.inplace .add) (.tensor v₁) (.number 1)).map seen = .ok (some 3) ∧
      (run npCfg vecEnv (.inplace .add) (.tensor v₂) (.number 1)).map seen = .ok (some 4) ∧
      Raises (run npCfg vecEnv (.oper .add) (.tensor v₁) (.number 1)) :=
  ⟨v_same, by decide +kernel, by decide +kernel, _, rfl⟩

/-- C125 is violated: `v += [1, 0]` does nothing, while `v + [1, 0]` is refused. -/
theorem C125_add_list_violated :
    let z : Val 2 ℚ := .list ⟨1, fun t => ![1, 0] (t 0)⟩
    (run npCfg vecEnv (.inplace .add) (.tensor v₁) z).map seen = .ok (some 2) ∧
      Raises (run npCfg vecEnv (.oper .add) (.tensor v₁) z) :=
  ⟨by decide +kernel, _, rfl⟩

/-! ### Examples -/

-- `C125_left`, `C125_right`: a vector and an array
example : Raises (run npCfg vecEnv (.oper .mul) (.tensor v₁) (.array ⟨1, fun _ => 3⟩)) :=
  (C125_left npCfg vecEnv (.oper .mul) v₁ (.array ⟨1, fun _ => 3⟩) trivial).2 (by simp) (by simp)
example : Raises (run npCfg vecEnv (.oper .add) (.array ⟨1, fun _ => 3⟩) (.tensor v₁)) :=
  C125_right npCfg vecEnv (.oper .add) v₁ (.array ⟨1, fun _ => 3⟩) trivial (by simp) (by simp)

-- `C125_objective_partial`: `v + v` in two frames
example : (run npCfg vecEnv (.oper .add) (.tensor v₁) (.tensor v₂)).map seen = .ok (some 4) ∧
    (run npCfg vecEnv (.oper .add) (.tensor v₂) (.tensor v₁)).map seen = .ok (some 4) :=
  ⟨by decide +kernel, by decide +kernel⟩
example : ¬ Bare (.oper .add) (.tensor v₁) (.tensor v₂) ∧
    ¬ Product (.oper .add) (.tensor v₁) (.tensor v₂) := ⟨id, id⟩

-- `C125_vectors`: the product of `2 e₁` with itself, given in two frames
example : (run npCfg vecEnv .dot (.tensor v₁) (.tensor v₂)).map seen = .ok (some 4) := by
  decide +kernel

-- the sign
example : (unary true true false v₁).map (fun t => (Means t).comp 0) = .ok (-2) := by decide +kernel

end Verif.Mixed.Props
