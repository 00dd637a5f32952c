import Verif.Model.FrameNew
import Verif.Proofs.Utils
import Verif.Proofs.Frames
import Verif.Props.Utils

/-!
# Property C112: what frames are made from
-/

set_option linter.unusedSectionVars false

namespace Verif.FrameNew.Props
open Verif Verif.Utils Verif.Frames Verif.FrameNew

section
variable {K : Type} [Field K] [LinearOrder K] [IsStrictOrderedRing K]

/-- The identity matrix of size `n`: one on the diagonal and zero elsewhere. -/
def IsIdentity (n : ℕ) (a : NdArray (Option K)) : Prop :=
  a.shape = [n, n] ∧ a.data.length = n * n ∧
    ∀ i j, i < n → j < n → a.data[i * n + j]? = some (some (if i = j then 1 else 0))

/-- A stack of `m` identity matrices of size `n`. -/
def IsIdentities (m n : ℕ) (a : NdArray (Option K)) : Prop :=
  a.shape = [m, n, n] ∧ a.data.length = m * (n * n) ∧
    ∀ k i j, k < m → i < n → j < n →
      a.data[k * (n * n) + (i * n + j)]? = some (some (if i = j then 1 else 0))

/-- The tolerances are not negative and the square root of one is one. -/
structure Sane (cfg : Cfg K) : Prop where
  atol : 0 ≤ cfg.atol
  rtol : 0 ≤ cfg.rtol
  rt : cfg.rt 1 = 1

theorem eye_ok (n : ℕ) : ∃ a : NdArray (Option K), eye (n : ℤ) = .ok a ∧ IsIdentity n a := by
  refine ⟨_, by unfold eye; rw [if_neg (by omega)], ?_, ?_, ?_⟩
  · simp
  · simp [List.length_flatten, Function.comp_def]
  · intro i j hi hj
    simp only [Int.toNat_natCast]
    rw [flatten_rows_get (J := n) _ (by simp) i j hj]
    simp [hi, hj]

theorem identity_all {n : ℕ} {a : NdArray (Option K)} (h : IsIdentity n a) :
    a.data.all Option.isSome = true := by
  obtain ⟨_, hl, he⟩ := h
  rw [List.all_eq_true]
  intro x hx
  obtain ⟨k, hk, rfl⟩ := List.getElem_of_mem hx
  rw [hl] at hk
  have hn : 0 < n := by
    rcases Nat.eq_zero_or_pos n with h | h
    · subst h; simp at hk
    · exact h
  have h2 := he (k / n) (k % n) (Nat.div_lt_of_lt_mul hk) (Nat.mod_lt _ hn)
  rw [Nat.div_add_mod' k n, List.getElem?_eq_getElem (by rw [hl]; exact hk)] at h2
  rw [Option.some.inj h2]
  rfl

theorem matrix_identity {n : ℕ} {a : NdArray (Option K)} (h : IsIdentity n a) :
    matrix n a = some 1 := by
  unfold matrix
  rw [if_pos (identity_all h)]
  congr 1
  ext i j
  simp only [Matrix.of_apply]
  rw [h.2.2 i j i.2 j.2]
  simp [Matrix.one_apply, Fin.ext_iff]

theorem checks_identity {cfg : Cfg K} (hc : Sane cfg) {n : ℕ} {a : NdArray (Option K)}
    (h : IsIdentity n a) : isRectangular cfg a = .ok true ∧ isNormal cfg a = true := by
  have hm := matrix_identity h
  constructor
  · unfold isRectangular
    rw [h.1]
    simp only [if_true, hm]
    congr 1
    unfold isRectangularFrame Cfg.isclose
    simp only [decide_eq_true_eq]
    have : (∑ i : Fin n, ((1 : Mat n K) * (1 : Mat n K).transpose).map (fun x => |x|) i i) =
        ∑ i : Fin n, ∑ j : Fin n, ((1 : Mat n K) * (1 : Mat n K).transpose).map (fun x => |x|) i j := by
      refine Finset.sum_congr rfl fun i _ => ?_
      rw [Finset.sum_eq_single i]
      · intro j _ hj
        simp [Matrix.one_apply, Ne.symm hj]
      · simp
    rw [this, sub_self, abs_zero]
    exact add_nonneg hc.atol (mul_nonneg hc.rtol (abs_nonneg _))
  · unfold isNormal
    rw [h.1]
    simp only [hm]
    unfold isNormalFrame
    rw [List.all_eq_true]
    intro i _
    have : (∑ j : Fin n, (1 : Mat n K) i j ^ 2) = 1 := by
      rw [Finset.sum_eq_single i] <;> simp +contextual [Matrix.one_apply, eq_comm]
    unfold Cfg.isclose
    rw [this, hc.rt]
    simp only [sub_self, abs_zero, decide_eq_true_eq]
    exact add_nonneg hc.atol (mul_nonneg hc.rtol (abs_nonneg _))

/-- Keyword arguments a class knows. -/
def Known (cls : FrameCls) (kw : Assume) : Prop :=
  match cls with
  | .reference => kw.rectangular = none ∧ kw.cartesian = none
  | .rectangular => kw.cartesian = none
  | .cartesian => kw.rectangular = none

theorem new_identity {cfg : Cfg K} (hc : Sane cfg) {sched : List ℕ} {cls : FrameCls} {axes : Given K}
    {dim : Dim} {kw : Assume} (hk : Known cls kw) {n : ℕ} {a : NdArray (Option K)} (h : IsIdentity n a)
    (hf : fromDim sched axes dim = .ok (.array a)) : new cfg sched cls axes dim kw = .ok a := by
  obtain ⟨h1, h2⟩ := checks_identity hc h
  cases cls
  · simp only [Known] at hk
    simp [new, hk.1, hk.2, hf, wrap, bind, Except.bind]
  · simp only [Known] at hk
    cases hb : kw.rectangular.getD false <;>
      simp [new, hk, hf, wrap, bind, Except.bind, checkRectangular, h1, hb]
  · simp only [Known] at hk
    cases hb : kw.cartesian.getD false <;>
      simp [new, hk, hf, wrap, bind, Except.bind, checkRectangular, h1, h2, hb]

/-- C112: a frame of any class made from its dimension `n`, given as an integer or a tuple, or by `eye`, has the identity
matrix of size `n` as its axes; `eye` makes a frame of three axes if it is not told otherwise. -/
theorem C112_dim (cfg : Cfg K) (hc : Sane cfg) (sched : List ℕ) (cls : FrameCls) (kw : Assume)
    (hk : Known cls kw) (n : ℕ) :
    (∃ a, new cfg sched cls .nothing (.int n) kw = .ok a ∧ IsIdentity n a) ∧
    (∃ a, new cfg sched cls .nothing (.seq [(n : ℤ)]) kw = .ok a ∧ IsIdentity n a) ∧
    (∃ a, eyeFrame cfg cls [.int n] none kw = .ok a ∧ IsIdentity n a) ∧
    (∃ a, eyeFrame cfg cls [] (some (n : ℤ)) kw = .ok a ∧ IsIdentity n a) ∧
    (∃ a, eyeFrame cfg cls [] none kw = .ok a ∧ IsIdentity 3 a) := by
  obtain ⟨a, ha, hi⟩ := eye_ok (K := K) n
  obtain ⟨b, hb, hj⟩ := eye_ok (K := K) 3
  refine ⟨⟨a, new_identity hc hk hi ?_, hi⟩, ⟨a, new_identity hc hk hi ?_, hi⟩, ⟨a, ?_, hi⟩,
    ⟨a, ?_, hi⟩, ⟨b, ?_, hj⟩⟩
  · simp [fromDim, ha, bind, Except.bind]
  · simp [fromDim, ha, bind, Except.bind]
  · simp only [eyeFrame, ha, bind, Except.bind]
    exact new_identity hc hk hi rfl
  · simp only [eyeFrame, Option.getD_some, ha, bind, Except.bind]
    exact new_identity hc hk hi rfl
  · simp only [eyeFrame, Option.getD_none]
    have hb' : (eye 3 : Py (NdArray (Option K))) = .ok b := hb
    simp only [hb', bind, Except.bind]
    exact new_identity hc hk hj rfl

/-- C112: `ReferenceFrame(dim=(m, n))` is a stack of `m` standard frames, in whatever order the parallel loop runs; the special
classes refuse stacks unless they are told to assume. -/
theorem C112_stack (cfg : Cfg K) (m n : ℕ) (sched : List ℕ) (hs : IsSchedule m sched) :
    (∃ a, new cfg sched .reference .nothing (.seq [(m : ℤ), (n : ℤ)]) {} = .ok a ∧ IsIdentities m n a) ∧
    new cfg sched .rectangular .nothing (.seq [(m : ℤ), (n : ℤ)]) {} = .error .assertion ∧
    new cfg sched .cartesian .nothing (.seq [(m : ℤ), (n : ℤ)]) {} = .error .assertion ∧
    (∃ a, new cfg sched .rectangular .nothing (.seq [(m : ℤ), (n : ℤ)]) { rectangular := some true } = .ok a ∧
      IsIdentities m n a) ∧
    ∃ a, new cfg sched .cartesian .nothing (.seq [(m : ℤ), (n : ℤ)]) { cartesian := some true } = .ok a ∧
      IsIdentities m n a := by
  obtain ⟨e, he, hi⟩ := eye_ok (K := K) n
  have hr : repeat2d e (m : ℤ) sched = .ok ⟨m :: e.shape, (List.replicate m e.data).flatten⟩ := by
    unfold repeat2d
    rw [if_neg (by omega)]
    simp only [Int.toNat_natCast]
    rw [Utils.Props.C33_repeat _ _ _ _ hs]
  have hf : fromDim sched (.nothing : Given K) (.seq [(m : ℤ), (n : ℤ)]) =
      .ok (.array ⟨m :: e.shape, (List.replicate m e.data).flatten⟩) := by
    simp [fromDim, he, hr, bind, Except.bind]
  have hall : IsIdentities m n (⟨m :: e.shape, (List.replicate m e.data).flatten⟩ : NdArray (Option K)) := by
    refine ⟨by simp [hi.1], by simp [List.length_flatten, hi.2.1], fun k i j hk hi' hj => ?_⟩
    have hlt : i * n + j < n * n := by nlinarith
    simp only
    rw [flatten_rows_get (J := n * n) _ (by simp [hi.2.1]) k (i * n + j) hlt]
    simp [hk, hi.2.2 i j hi' hj]
  refine ⟨⟨_, ?_, hall⟩, ?_, ?_, ⟨_, ?_, hall⟩, ⟨_, ?_, hall⟩⟩ <;>
    simp [new, hf, wrap, bind, Except.bind, checkRectangular, isRectangular, hi.1]

/-- C112: a NumPy array, or a list without a dimension, is what the axes are made from: same shape, same entries.  (The special
classes check them, see C50.)  A dimension given besides an array plays no role. -/
theorem C112_axes (cfg : Cfg K) (sched : List ℕ) (a : NdArray (Option K)) (dim : Dim) :
    new cfg sched .reference (.array a) dim {} = .ok a ∧
    new cfg sched .reference (.nested a) .nothing {} = .ok a ∧
    ∀ cls kw b, new cfg sched cls (.array a) dim kw = .ok b → b = a := by
  refine ⟨rfl, rfl, ?_⟩
  intro cls kw b h
  have hcheck : ∀ (as : Bool) (c : NdArray (Option K)), checkRectangular cfg as a = .ok c → c = a := by
    intro as c hc
    unfold checkRectangular at hc
    cases as
    · simp only [Bool.false_eq_true, if_false, bind, Except.bind] at hc
      split at hc
      · simp at hc
      · split at hc
        · exact (Except.ok.inj hc).symm
        · simp at hc
    · exact (Except.ok.inj hc).symm
  cases cls
  · simp only [new, fromDim, wrap, bind, Except.bind] at h
    split at h
    · simp at h
    · exact (Except.ok.inj h).symm
  · simp only [new, fromDim, wrap, bind, Except.bind] at h
    split at h
    · simp at h
    · exact hcheck _ _ h
  · simp only [new, fromDim, wrap, bind, Except.bind] at h
    split at h
    · simp at h
    · split at h
      · simp at h
      · rename_i c hc
        split at h
        · rw [← Except.ok.inj h]; exact hcheck _ _ hc
        · simp at h

/-- C112: exactly the following is refused by `ReferenceFrame` with an exception: something NumPy cannot turn into an array,
unless a dimension is given as well; negative dimensions; and tuples of another length than one or two. -/
theorem C112_refused (cfg : Cfg K) (sched : List ℕ) (axes : Given K) (dim : Dim) :
    (∃ e, new cfg sched .reference axes dim {} = .error e) ↔
      (∀ a, axes ≠ .array a) ∧
        ((axes = .ragged ∧ (dim = .nothing ∨ ∃ n, dim = .npInt n)) ∨
          (∃ n, dim = .int n ∧ n < 0) ∨
          ∃ l, dim = .seq l ∧ ((∃ n ∈ l, n < 0) ∨ l.length = 0 ∨ 3 ≤ l.length)) := by
  have key : ∀ ax : Given K, (∀ a, ax ≠ .array a) →
      ((∃ e, new cfg sched .reference ax dim {} = .error e) ↔
        ((ax = .ragged ∧ (dim = .nothing ∨ ∃ n, dim = .npInt n)) ∨
          (∃ n, dim = .int n ∧ n < 0) ∨
          ∃ l, dim = .seq l ∧ ((∃ n ∈ l, n < 0) ∨ l.length = 0 ∨ 3 ≤ l.length))) := by
    intro ax hax
    have hfd : fromDim sched ax dim = (match dim with
        | .seq [n] => do .ok (.array (← eye n))
        | .seq [m, n] => do .ok (.array (← repeat2d (← eye n) m sched))
        | .seq _ => .error .notImplemented
        | .int n => do .ok (.array (← eye n))
        | _ => .ok ax) := by
      cases ax
      · rfl
      · exact absurd rfl (hax _)
      · rfl
      · rfl
    have hnew : new cfg sched .reference ax dim {} = (fromDim sched ax dim).bind wrap := by
      cases ax <;> rfl
    rw [hnew, hfd]
    rcases dim with _ | n | n | l
    · cases ax <;> simp_all [wrap, Except.bind]
    · by_cases hn : n < 0 <;> simp [eye, hn, bind, Except.bind, wrap]
    · cases ax <;> simp_all [wrap, Except.bind]
    · rcases l with _ | ⟨a, _ | ⟨b, _ | ⟨c, l⟩⟩⟩
      · simp [Except.bind]
      · by_cases hn : a < 0 <;> simp [eye, hn, bind, Except.bind, wrap]
      · by_cases ha : a < 0 <;> by_cases hb : b < 0 <;>
          simp [eye, repeat2d, ha, hb, bind, Except.bind, wrap]
      · simp [Except.bind]
  constructor
  · intro h
    have hax : ∀ a, axes ≠ .array a := by
      rintro a rfl
      obtain ⟨e, he⟩ := h
      simp [new, fromDim, wrap, bind, Except.bind] at he
    exact ⟨hax, (key axes hax).1 h⟩
  · rintro ⟨hax, h⟩
    exact (key axes hax).2 h

/-- C112: what a rectangular or Cartesian frame is made of is a square matrix of numbers, none of them NaN, unless it is told to
assume; this holds for arrays, lists, dimensions and nothing alike. -/
theorem C112_checked (cfg : Cfg K) (sched : List ℕ) (cls : FrameCls) (hcls : cls ≠ .reference) (axes : Given K)
    (dim : Dim) (kw : Assume) (hr : kw.rectangular ≠ some true) (hk : kw.cartesian ≠ some true)
    (b : NdArray (Option K)) (h : new cfg sched cls axes dim kw = .ok b) :
    (∃ n, b.shape = [n, n]) ∧ none ∉ b.data := by
  have hcheck : ∀ (a c : NdArray (Option K)), checkRectangular cfg false a = .ok c →
      (∃ n, c.shape = [n, n]) ∧ none ∉ c.data := by
    intro a c hc
    unfold checkRectangular at hc
    simp only [Bool.false_eq_true, if_false, bind, Except.bind] at hc
    split at hc
    · simp at hc
    · rename_i v hv
      split at hc
      · rename_i htrue
        obtain rfl := Except.ok.inj hc
        unfold isRectangular at hv
        split at hv
        · rename_i r c' hshape
          split at hv
          · rename_i heq
            subst heq
            refine ⟨⟨r, hshape⟩, fun hmem => ?_⟩
            have hnone : matrix r a = none := by
              unfold matrix
              rw [if_neg]
              rw [List.all_eq_true]
              intro hall
              simpa using hall none hmem
            rw [hnone] at hv
            have := Except.ok.inj hv
            rw [← this] at htrue
            simp at htrue
          · simp at hv
        · simp at hv
      · simp at hc
  have hrf : kw.rectangular.getD false = false := by
    rcases hq : kw.rectangular with _ | _ | _ <;> simp_all
  have hkf : kw.cartesian.getD false = false := by
    rcases hq : kw.cartesian with _ | _ | _ <;> simp_all
  cases cls
  · exact absurd rfl hcls
  · simp only [new, hrf, bind, Except.bind] at h
    split at h
    · simp at h
    · split at h
      · simp at h
      · split at h
        · simp at h
        · exact hcheck _ _ h
  · simp only [new, hkf, bind, Except.bind] at h
    split at h
    · simp at h
    · split at h
      · simp at h
      · split at h
        · simp at h
        · split at h
          · simp at h
          · rename_i c hc
            split at h
            · rw [← Except.ok.inj h]; exact hcheck _ _ hc
            · simp at h

/-- C112: which exception it is.  Whatever the class, what cannot become an array and negative dimensions raise a ValueError,
tuples of another length raise a NotImplementedError; and what fails the checks of a class raises an AssertionError. -/
theorem C112_kinds (cfg : Cfg K) (sched : List ℕ) (cls : FrameCls) (axes : Given K) (dim : Dim) (kw : Assume)
    (hk : Known cls kw) (e : PyErr) (h : new cfg sched cls axes dim kw = .error e) :
    (((∀ a, axes ≠ .array a) ∧ ∃ l, dim = .seq l ∧ (l.length = 0 ∨ 3 ≤ l.length)) → e = .notImplemented) ∧
    (((∀ a, axes ≠ .array a) ∧ ((axes = .ragged ∧ (dim = .nothing ∨ ∃ n, dim = .npInt n)) ∨
      (∃ n, dim = .int n ∧ n < 0) ∨
      ∃ l, dim = .seq l ∧ (∃ n ∈ l, n < 0) ∧ (l.length = 1 ∨ l.length = 2))) → e = .value) ∧
    ((∃ a, new cfg sched .reference axes dim {} = .ok a) → e = .assertion) := by
  have hcr : ∀ (b : Bool) (a : NdArray (Option K)) (x : PyErr), checkRectangular cfg b a = .error x →
      x = .assertion := by
    intro b a x hx
    unfold checkRectangular at hx
    cases b
    · simp only [Bool.false_eq_true, if_false, bind, Except.bind] at hx
      split at hx
      · rename_i y hy
        obtain rfl := Except.error.inj hx
        unfold isRectangular at hy
        split at hy
        · split at hy
          · simp at hy
          · exact (Except.error.inj hy).symm
        · exact (Except.error.inj hy).symm
      · split at hx
        · simp at hx
        · exact (Except.error.inj hx).symm
    · simp at hx
  -- every class starts like the reference frame
  have hbase : ∀ x, new cfg sched .reference axes dim {} = .error x → e = x := by
    intro x hx
    have hx' : (fromDim sched axes dim).bind wrap = .error x := by cases axes <;> exact hx
    obtain ⟨r, c⟩ := kw
    cases hfd : fromDim sched axes dim with
    | error y =>
      rw [hfd] at hx'
      obtain rfl : y = x := Except.error.inj hx'
      cases cls <;> cases r <;> cases c <;>
        simp_all [Known, new, bind, Except.bind]
    | ok g =>
      rw [hfd] at hx'
      have hw : wrap g = .error x := hx'
      cases cls <;> cases r <;> cases c <;>
        simp_all [Known, new, bind, Except.bind]
  refine ⟨?_, ?_, ?_⟩
  · rintro ⟨hax, l, rfl, hl⟩
    refine hbase _ ?_
    rcases l with _ | ⟨a, _ | ⟨b, _ | ⟨c, l⟩⟩⟩
    · cases axes
      · rfl
      · exact absurd rfl (hax _)
      · rfl
      · rfl
    · simp at hl
    · simp at hl
    · cases axes
      · rfl
      · exact absurd rfl (hax _)
      · rfl
      · rfl
  · rintro ⟨hax, h1⟩
    refine hbase _ ?_
    rcases h1 with ⟨rfl, rfl | ⟨n, rfl⟩⟩ | ⟨n, rfl, hn⟩ | ⟨l, rfl, hneg, hl⟩
    · rfl
    · rfl
    · cases axes
      all_goals first
        | exact absurd rfl (hax _)
        | simp [new, fromDim, eye, hn, bind, Except.bind]
    · rcases l with _ | ⟨a, _ | ⟨b, _ | ⟨c, l⟩⟩⟩
      · simp at hl
      · have ha : a < 0 := by simpa using hneg
        cases axes
        all_goals first
          | exact absurd rfl (hax _)
          | simp [new, fromDim, eye, ha, bind, Except.bind]
      · have hab : a < 0 ∨ b < 0 := by simpa using hneg
        cases axes
        all_goals first
          | exact absurd rfl (hax _)
          | (by_cases hb : b < 0
             · simp [new, fromDim, eye, hb, bind, Except.bind]
             · have ha : a < 0 := by tauto
               simp [new, fromDim, eye, repeat2d, ha, hb, bind, Except.bind])
      · simp at hl
  · rintro ⟨a, ha⟩
    have ha' : (fromDim sched axes dim).bind wrap = .ok a := by cases axes <;> exact ha
    cases hfd : fromDim sched axes dim with
    | error y => rw [hfd] at ha'; exact absurd ha' (by simp [Except.bind])
    | ok g =>
      rw [hfd] at ha'
      have hw : wrap g = .ok a := ha'
      obtain ⟨r, c⟩ := kw
      cases cls
      · cases r <;> cases c <;> simp_all [Known, new, bind, Except.bind]
      · have hc : c = none := by simpa [Known] using hk
        subst hc
        simp only [new, hfd, bind, Except.bind, hw] at h
        exact hcr _ _ _ (by simpa using h)
      · have hr : r = none := by simpa [Known] using hk
        subst hr
        simp only [new, hfd, bind, Except.bind, hw] at h
        cases hq : checkRectangular cfg (c.getD false) a with
        | error y =>
          rw [hq] at h
          have := hcr _ _ _ hq
          subst this
          have h3 : PyErr.assertion = e := by simpa using h
          exact h3.symm
        | ok b =>
          rw [hq] at h
          simp only [Option.isSome_none, Bool.false_eq_true, if_false] at h
          split at h
          · simp at h
          · exact (Except.error.inj h).symm

/-- C112: a keyword argument the class does not know raises a TypeError, whatever else is given; `assume_rectangular` is one
of them for Cartesian frames. -/
theorem C112_keywords (cfg : Cfg K) (sched : List ℕ) (cls : FrameCls) (axes : Given K) (dim : Dim) (kw : Assume)
    (hk : ¬ Known cls kw) : new cfg sched cls axes dim kw = .error .type := by
  obtain ⟨r, c⟩ := kw
  cases cls <;> cases r <;> cases c <;> simp_all [Known, new]

/-- C112 is violated: without anything, and with a NumPy integer for the dimension, `ReferenceFrame` makes a frame without any
axes that holds NaN. -/
theorem C112_nothing_violated (cfg : Cfg K) (sched : List ℕ) (n : ℤ) :
    new cfg sched .reference .nothing .nothing {} = .ok ⟨[], [none]⟩ ∧
    new cfg sched .reference .nothing (.npInt n) {} = .ok ⟨[], [none]⟩ := ⟨rfl, rfl⟩

/-- C112 is violated: axes given as a list are dropped if a dimension is given as well. -/
theorem C112_list_violated (cfg : Cfg K) (sched : List ℕ) :
    let axes : NdArray (Option K) := ⟨[2, 2], [some 2, some 0, some 0, some 2]⟩
    ∃ a, new cfg sched .reference (.nested axes) (.int 2) {} = .ok a ∧ IsIdentity 2 a ∧ a ≠ axes := by
  obtain ⟨a, ha, hi⟩ := eye_ok (K := K) 2
  refine ⟨a, ?_, hi, ?_⟩
  · have ha' : (eye 2 : Py (NdArray (Option K))) = .ok a := ha
    simp [new, fromDim, ha', wrap, bind, Except.bind]
  · rintro rfl
    have := hi.2.2 0 0 (by omega) (by omega)
    simp at this

/-- C112 is violated: `eye` ignores a NumPy integer or a tuple and makes a frame of three axes. -/
theorem C112_eye_violated (cfg : Cfg K) :
    ∃ a, eyeFrame cfg .reference [.other] none {} = .ok a ∧ IsIdentity 3 a := by
  obtain ⟨a, ha, hi⟩ := eye_ok (K := K) 3
  refine ⟨a, ?_, hi⟩
  have ha' : (eye 3 : Py (NdArray (Option K))) = .ok a := ha
  simp [eyeFrame, ha', new, fromDim, wrap, bind, Except.bind]

/-- C112 is violated: `ReferenceFrame` accepts arrays that are no square matrices, for instance three numbers. -/
theorem C112_shape_violated (cfg : Cfg K) (sched : List ℕ) :
    new cfg sched .reference (.array ⟨[3], [some 1, some 1, some 1]⟩) .nothing {} =
      .ok ⟨[3], [some 1, some 1, some 1]⟩ := rfl

end

/-! ## Examples -/

/-- The tolerances of NumPy. -/
def cfgEx : Cfg ℚ := ⟨1 / 100000000, 1 / 100000, fun x => x⟩

theorem sane_ex : Sane cfgEx := ⟨by norm_num [cfgEx], by norm_num [cfgEx], rfl⟩

example : ∃ a, new cfgEx [] .cartesian .nothing (.int 2) {} = .ok a ∧ IsIdentity 2 a :=
  (C112_dim cfgEx sane_ex [] .cartesian {} rfl 2).1

example : ∃ a, new cfgEx [1, 0] .reference .nothing (.seq [2, 3]) {} = .ok a ∧ IsIdentities 2 3 a :=
  (C112_stack cfgEx 2 3 [1, 0] (by unfold IsSchedule; decide)).1

/-- Axes that are not perpendicular, and axes that are not of unit length. -/
example :
    (match new cfgEx [] .rectangular (.array ⟨[2, 2], [some 1, some 1, some 0, some 1]⟩) .nothing {} with
      | .error .assertion => true | _ => false) = true ∧
    (match new cfgEx [] .cartesian (.array ⟨[2, 2], [some 2, some 0, some 0, some 1]⟩) .nothing {} with
      | .error .assertion => true | _ => false) = true ∧
    (match new cfgEx [] .rectangular (.array ⟨[2, 2], [some 2, some 0, some 0, some 1]⟩) .nothing {} with
      | .ok _ => true | _ => false) = true := by
  decide +kernel

example : ¬ Known .cartesian { rectangular := some true } := by simp [Known]

end Verif.FrameNew.Props
