import Verif.Props.GAObject
import Verif.Props.LeastSq
import Verif.Props.FrameTotal
import Verif.Props.GAMore
import Verif.Props.Utils
import Verif.Props.SolveDiagonal

/-!
# Calls that return (C05, C37, C42, C44, C45, C46, C52, C64, C88, C94)

The theorems about results speak about calls that return.  Here: when they do, and what else is known of
what they return.
-/

set_option linter.unusedSectionVars false

namespace Verif.GA.Props
open Verif.GA

section
variable {G X K D : Type} [LinearOrder K]

/-- C94, a fresh `solve` returns a genom if nothing it calls raises: there is a class of populations (`Fine`)
to which the initial one belongs, whose members can be decoded, one phenotype per member and at least one,
and from which populations of the same class can be bred; the objective is defined everywhere and the
parameters in force are valid. The run ends after at most `max(1, maxiter)` passes, so this holds for every
`fuel` not below this number. -/
theorem C94_returns (S : Subclass G X K D) (fnc : X → Py K) (kw : Kwargs K) (q : Params K)
    (o : Optimizer G X K) (hq : InForce o.solver.params q kw) (hv : ValidParams o.solver.nPop q)
    (d : D) (ds : ℕ → D) (Fine : List G → Prop)
    (hpop : ∃ gs, S.populate o.solver.nPop o.solver.params d = .ok gs ∧ Fine gs)
    (hdec : ∀ gs, Fine gs → gs ≠ [] ∧ ∃ xs, S.decode o.solver.nPop gs = .ok xs ∧ xs.length = gs.length)
    (hbreed : ∀ i gs ys, Fine gs → ys.length = gs.length →
      ∃ gs', S.breed o.solver.nPop q (ds i) gs ys = .ok gs' ∧ Fine gs')
    (hfnc : ∀ x, ∃ y, fnc x = .ok y) (fuel : ℕ) (hf : max 1 q.maxiter ≤ (fuel : ℤ)) :
    ∃ c o', o.solve S fnc false kw d ds fuel = some (.ok (some c), o') := by
  obtain rfl := inForce_unique hq (inForce_assign _ _)
  obtain ⟨gs, hg, hgood⟩ := hpop
  have hsolve : ∃ r o', o.solve S fnc false kw d ds fuel = some (.ok r, o') := by
    unfold Optimizer.solve
    simp only [Bool.false_eq_true, if_false, hg, reset]
    rcases setSolutionParams_cases o.solver kw with ⟨h1, h2⟩ | ⟨h1, h2⟩
    · rw [h2]
      simp only
      set pb := problemOf S fnc ⟨o.solver.nPop, assign o.solver.params kw,
          (assign o.solver.params kw).minimize⟩ with hpb
      have hstep : ∀ i a, (Consistent pb a ∧ Fine a.genotypes ∧ a.phase ≠ .dead) → ∃ b, evolve1 pb
          (S.breed o.solver.nPop (assign o.solver.params kw) (ds i)) a = (.ok (), b) ∧
          (Consistent pb (bump b) ∧ Fine (bump b).genotypes ∧ (bump b).phase ≠ .dead) := by
        rintro i a ⟨a1, a2, a3⟩
        obtain ⟨hne, xs, hx, hxl⟩ := hdec _ a2
        obtain ⟨ys, hy⟩ := BGA.pyMap_total hfnc xs
        have hyl : ys.length = a.genotypes.length := by
          rw [← (pyMap_eq_ok_iff.mp hy).length_eq, hxl]
        obtain ⟨gs', hb, hb'⟩ := hbreed i _ ys a2 hyl
        obtain ⟨hne', xs', hx', hxl'⟩ := hdec _ hb'
        obtain ⟨ys', hy'⟩ := BGA.pyMap_total hfnc xs'
        obtain ⟨t, ht⟩ := BGA.evolve1_succeeds (pb := pb)
          (breed := S.breed o.solver.nPop (assign o.solver.params kw) (ds i)) a1 a3 hx hxl hy hne
          ⟨gs', hb, hne', xs', hx', hxl', ys', hy'⟩
        obtain ⟨s1, c, hnx, -, htc, htg, htp, -⟩ := evolve1_ok a1 ht
        refine ⟨t, ht, consistent_congr rfl rfl rfl htc, ?_, ?_⟩
        · show Fine t.genotypes
          rw [htg]
          cases hp : a.phase with
          | dead => exact absurd hp a3
          | primed => rw [nextEvolver_primed hp hnx]; exact a2
          | running =>
            obtain ⟨xs2, ys2, gs2, e1, e2, e3, e4, -, -⟩ := nextEvolver_running a1 hp hnx
            have e1' : S.decode o.solver.nPop a.genotypes = .ok xs2 := e1
            rw [hx] at e1'; cases e1'
            have e2' : pyMap fnc _ = _ := e2
            rw [hy] at e2'; cases e2'
            rw [hb] at e3; cases e3
            rw [e4]; exact hb'
        · show t.phase ≠ _
          rw [htp]; simp
      obtain ⟨s', hs'⟩ := solveBody_succeeds (pb := pb)
        (breeds := fun i => S.breed o.solver.nPop (assign o.solver.params kw) (ds i))
        (maxage := (assign o.solver.params kw).maxage) hv.2
        (fun a => Consistent pb a ∧ Fine a.genotypes ∧ a.phase ≠ .dead) hstep
        (s := { setGenotypes o.run gs with
                champion := none, state := {}, status := .initialized, phase := .primed })
        (fuel := fuel) ⟨by simp [Consistent, setGenotypes], hgood, by simp⟩ (by simpa using hf)
      rw [hs']
      exact ⟨_, _, rfl⟩
    · exact absurd hv h1
  obtain ⟨r, o', hs⟩ := hsolve
  obtain ⟨c, k, P, XS, YS, rfl, -⟩ := C94_result S fnc kw _ o o' hq d ds fuel r hs
  exact ⟨c, o', hs⟩

/-- C05: `best_candidate()` returns after every successful history whose population is not empty, if the
members can be decoded, one phenotype per member, and the objective is defined at the phenotypes. -/
theorem C05_best_candidate_returns (pb : Problem G X K) (gs0 : List G) (s' s : Ga G X K)
    (ops : List (Op G K)) (hrun : runOps pb ops (reset (.ok gs0) s').2 = (.ok (), s))
    (hne : s.genotypes ≠ []) (xs : List X) (hd : pb.decode s.genotypes = .ok xs)
    (hl : xs.length = s.genotypes.length) (hf : ∀ x ∈ xs, ∃ y, pb.fnc x = .ok y) :
    ∃ c t, bestCandidate pb s = (.ok c, t) := by
  have h := (histInv (pb := pb) (consistent_reset pb gs0 s') rfl rfl rfl rfl ops s hrun).cons
  have hy : ∃ ys, pyMap pb.fnc xs = .ok ys := by
    clear hd hl
    induction xs with
    | nil => exact ⟨[], rfl⟩
    | cons x xs ih =>
      obtain ⟨y, hy⟩ := hf x (by simp)
      obtain ⟨ys, hys⟩ := ih fun z hz => hf z (by simp [hz])
      exact ⟨y :: ys, pyMap_eq_ok_iff.2 (.cons hy (pyMap_eq_ok_iff.1 hys))⟩
  obtain ⟨ys, hy⟩ := hy
  exact BGA.bestCandidate_succeeds h hd hl hy hne

/-- populations of four integers, whatever they are -/
example (o : Optimizer ℤ ℤ ℤ) (h : o.solver = ⟨4, demoParams, true⟩) :
    ∃ c o', o.solve demoSub demoFnc false {} () (fun _ => ()) 20 = some (.ok (some c), o') := by
  have hp : o.solver.params = demoParams := by rw [h]
  have hn : o.solver.nPop = 4 := by rw [h]
  refine C94_returns demoSub demoFnc {} demoParams o (by rw [hp]; exact inForce_assign demoParams {})
    (by rw [hn]; exact ⟨⟨by decide, fun _ => by decide⟩, by decide⟩) () _ (fun gs => gs.length = 4)
    ⟨_, rfl, by rw [hn]; rfl⟩ ?_ ?_ (fun x => ⟨_, rfl⟩) 20 (by decide)
  · intro gs hg
    exact ⟨by rintro rfl; simp at hg, gs, rfl, rfl⟩
  · intro i gs ys hg _
    exact ⟨_, rfl, by simpa using hg⟩

end
end Verif.GA.Props

namespace Verif.LS.Props
open Verif Verif.Frames Verif.LS Matrix MvPolynomial

variable {K : Type} [Field K] [LinearOrder K] [IsStrictOrderedRing K] {dim n r : ℕ}

/-- C52 for moving least squares: for weights that are not negative the value at `x` exists exactly if no
polynomial of the chosen degree, other than zero, vanishes at all points that have a positive weight when
the weight function is moved to `x`; otherwise numpy's `LinAlgError` is raised. -/
theorem C52_moving_succeeds (points : Fin n → Pt dim K) (values : Fin n → Fin r → K) (deg : ℕ)
    (order : ℤ) (w : Pt dim K → Weight dim K) (x : Pt dim K) (hdim : dim = 1 ∨ dim = 2 ∨ dim = 3)
    (hdeg : deg = 1 ∨ deg = 2) (hw : ∀ i, 0 ≤ (w x).f (points i)) :
    ((∀ q : MvPolynomial (Fin dim) K, q.totalDegree ≤ deg →
      (∀ i, 0 < (w x).f (points i) → eval (points i) q = 0) → q = 0) →
        ∃ o, movingLeastSquares points values deg order (some w) x = .ok o) ∧
    (¬(∀ q : MvPolynomial (Fin dim) K, q.totalDegree ≤ deg →
      (∀ i, 0 < (w x).f (points i) → eval (points i) q = 0) → q = 0) →
        movingLeastSquares points values deg order (some w) x = .error .linalg) := by
  obtain ⟨h1, h2⟩ := C52_succeeds points values deg order (some (w x)) hdim hdeg hw
  unfold movingLeastSquares
  simp only
  constructor
  · intro h
    obtain ⟨F, hF⟩ := h1 h
    have hF : weightedLeastSquares points values deg order (some ⟨dim, w x⟩) = .ok F := hF
    rw [hF]
    exact ⟨_, rfl⟩
  · intro h
    have hF : weightedLeastSquares points values deg order (some ⟨dim, w x⟩) = .error .linalg := h2 h
    rw [hF]
    rfl

/-- C52 for moving least squares without a weight function: all points count. -/
theorem C52_moving_plain_succeeds (points : Fin n → Pt dim K) (values : Fin n → Fin r → K) (deg : ℕ)
    (order : ℤ) (x : Pt dim K) (hdim : dim = 1 ∨ dim = 2 ∨ dim = 3) (hdeg : deg = 1 ∨ deg = 2)
    (h : ∀ q : MvPolynomial (Fin dim) K, q.totalDegree ≤ deg →
      (∀ i, eval (points i) q = 0) → q = 0) :
    ∃ o, movingLeastSquares points values deg order none x = .ok o := by
  obtain ⟨F, hF⟩ := (C52_succeeds points values deg order (some (constWeight dim (1 : K))) hdim hdeg
    (fun i => by show (0 : K) ≤ 1; exact zero_le_one)).1
    (fun q hq hz => h q hq fun i => hz i (by show (0 : K) < 1; exact zero_lt_one))
  have hF : weightedLeastSquares points values deg order (some ⟨dim, constWeight dim 1⟩) = .ok F := hF
  unfold movingLeastSquares
  simp only
  rw [hF]
  exact ⟨_, rfl⟩

/-- A weight function that counts the points up to `1`. -/
def exWindow : Weight 1 ℚ := ⟨fun y => if y 0 ≤ 1 then 1 else 0, fun _ _ => 0, fun _ _ _ => 0⟩

/-- The hypothesis of `C52_moving_succeeds` for three points on a line, one of them out of reach of the weight
function at `1/2`. -/
example (q : MvPolynomial (Fin 1) ℚ) (hq : q.totalDegree ≤ 1)
    (hz : ∀ i, 0 < exWindow.f (exPoints i) →
      eval (exPoints i) q = 0) : q = 0 := by
  by_contra h
  have := (C52_moving_succeeds exPoints exValues 1 2 (fun _ => exWindow)
    ![1 / 2] (.inl rfl) (.inl rfl) (by decide +kernel)).2 (fun hall => h (hall q hq hz))
  have h2 : (movingLeastSquares exPoints exValues 1 2 (some fun _ => exWindow)
    ![1 / 2]).isOk = true := by decide +kernel
  rw [this] at h2
  cases h2

end Verif.LS.Props

namespace Verif.Frames.Props
open Matrix

variable {n : ℕ} {K : Type} [Field K] [LinearOrder K] [IsStrictOrderedRing K]

/-- C64: the base vectors of a sound frame can be shown in every frame; without a target they are the axes. -/
theorem C64_total (cfg : Cfg K) (ha : 0 ≤ cfg.atol) (hr : 0 ≤ cfg.rtol) (f T : Frame n K) (hf : Sound f) :
    (∃ C, f.showFrame cfg (some T) = .ok C) ∧ f.showFrame cfg none = .ok f.axes := by
  obtain ⟨d, hd, -⟩ := dual_total cfg ha hr f hf
  refine ⟨⟨d.axes * T.axesᵀ, ?_⟩, rfl⟩
  show (do let T' := (← f.dual cfg).axes; return T' * T.axes.transpose) = _
  rw [hd]
  rfl

/-- C44: a sound frame has a dual, the dual is sound and has a dual, and this is the frame. -/
theorem C44_total (cfg : Cfg K) (ha : 0 ≤ cfg.atol) (hr : 0 ≤ cfg.rtol) (f : Frame n K) (hf : Sound f) :
    ∃ d, f.dual cfg = .ok d ∧ Sound d ∧ d.dual cfg = .ok f := by
  obtain ⟨d, hd, hs⟩ := dual_total cfg ha hr f hf
  obtain ⟨dd, hdd, -⟩ := dual_total cfg ha hr d hs
  have := C44_involution cfg f d dd hf.2.2 hd hdd
  exact ⟨d, hd, hs, this ▸ hdd⟩

/-- C45: the contraction of two general tensors along existing axes returns, whatever their frames are, if
one of them has three indices or more and the frame asked for is sound; without the axes the call is refused,
and so it is with an axis that does not exist. -/
theorem C45_contraction_total (cfg : Cfg K) (ha : 0 ≤ cfg.atol) (hr : 0 ≤ cfg.rtol) (a b : Tensor n K)
    (frame : Option (Frame n K)) (hf : ∀ f, frame = some f → Sound f) (r s : ℕ)
    (x : (Fin (r + 1) → Fin n) → K) (y : (Fin (s + 1) → Fin n) → K)
    (hx : a.comps = .gen (r + 1) x) (hy : b.comps = .gen (s + 1) y) (hrs : 2 ≤ r ∨ 2 ≤ s) :
    (∀ (ia : Fin (r + 1)) (ib : Fin (s + 1)), ∃ res, dot cfg a b frame (some (ia, ib)) = .ok res) ∧
    dot cfg a b frame none = .error .missingInput ∧
    (∀ ia ib : ℕ, (r < ia ∨ s < ib) → dot cfg a b frame (some (ia, ib)) = .error .index) := by
  obtain ⟨ca, fa⟩ := a
  obtain ⟨cb, fb⟩ := b
  simp only at hx hy
  subst hx hy
  refine ⟨fun ia ib => ?_, rfl, fun ia ib h => ?_⟩
  · obtain ⟨t, ht⟩ := moveTo_total cfg ha hr ⟨.gen (r + s) (contract
      (fun t => ∑ u : Fin (r + 1) → Fin n, (∏ k, fa.axesᵀ (t k) (u k)) * x u)
      (fun t => ∑ u : Fin (s + 1) → Fin n, (∏ k, fb.axesᵀ (t k) (u k)) * y u) ia ib), ambientFrame⟩ frame hf
    refine ⟨.tensor t, ?_⟩
    unfold dot
    simp only
    rw [show_none, show_none, Means, Means, ambient_eq, ambient_eq]
    simp only [Comps.transform, bind, Except.bind]
    rw [if_neg (by omega), dif_pos ⟨ia.2, ib.2⟩]
    simp only [Fin.eta]
    rw [ht]
    rfl
  · unfold dot
    simp only
    rw [show_none, show_none, Means, Means, ambient_eq, ambient_eq]
    simp only [Comps.transform, bind, Except.bind]
    rw [if_neg (by omega), dif_neg (by omega)]

/-- C46: the products with a tensor are returned in the frame asked for, and in the ambient frame if none is. -/
theorem C46_frames (cfg : Cfg K) (a b : Tensor 3 K) (frame : Option (Frame 3 K))
    (hf : ∀ f, frame = some f → CartOK f) (t : Tensor 3 K) (h : cross cfg a b frame = .ok t) :
    ((∃ A, a.comps = .ten2 A) ∨ (∃ B, b.comps = .ten2 B) → t.frame = frame.getD ambientFrame) ∧
    ((∃ x, a.comps = .vec x) ∧ (∃ y, b.comps = .vec y) → t.frame = frame.getD a.frame) := by
  obtain ⟨ca, fa⟩ := a
  obtain ⟨cb, fb⟩ := b
  cases ca with
  | gen r x => unfold cross at h; cases h
  | vec x =>
    cases cb with
    | gen r x => unfold cross at h; cases h
    | vec y =>
      refine ⟨by simp, fun _ => ?_⟩
      unfold cross at h
      simp only at h
      cases hs : Tensor.show cfg ⟨.vec y, fb⟩ (some fa) with
      | error e => rw [hs] at h; cases h
      | ok c =>
        rw [hs] at h
        simp only [bind, Except.bind] at h
        cases hv : c.asVec with
        | error e => rw [hv] at h; cases h
        | ok v => rw [hv] at h; exact (moveTo_ok hf h).2
    | ten2 B =>
      refine ⟨fun _ => ?_, by simp⟩
      unfold cross at h
      simp only at h
      rw [show_none, show_none, Means, Means, ambient_vec, ambient_ten2] at h
      exact (moveTo_ok hf h).2
  | ten2 A =>
    cases cb with
    | gen r x => unfold cross at h; cases h
    | ten2 B => unfold cross at h; cases h
    | vec y =>
      refine ⟨fun _ => ?_, by simp⟩
      unfold cross at h
      simp only at h
      rw [show_none, show_none, Means, Means, ambient_vec, ambient_ten2] at h
      exact (moveTo_ok hf h).2

/-- C42: `t.frame = f` succeeds for every sound frame, of any class, and then `t` lives in `f`. -/
theorem C42_setFrame_total (cfg : Cfg K) (ha : 0 ≤ cfg.atol) (hr : 0 ≤ cfg.rtol) (h : Heap n K) (t f : ℕ)
    (ht : t < h.nT) (hf : f < h.nF) (hs : Sound (h.frames f).frame) :
    ∃ h', h.setFrame cfg t f = (h', none) ∧ (h'.tensors t).frame = f ∧
      (∀ u, u ≠ t → h'.tensors u = h.tensors u) := by
  obtain ⟨d, hd, -⟩ := C43_total cfg ha hr (h.frames (h.tensors t).frame).frame (h.frames f).frame hs
    (h.tensors t).comps
  unfold Heap.setFrame
  rw [if_pos ⟨ht, hf⟩]
  simp only
  rw [hd]
  refine ⟨_, rfl, ?_, ?_⟩
  · show ((Function.update h.tensors t _) t).frame = f
    rw [Function.update_self]
  · intro u hu
    show (Function.update h.tensors t _) u = h.tensors u
    rw [Function.update_of_ne hu]

/-- a right-handed frame turned by ninety degrees -/
example : Sound (⟨.cartesian, !![0, 1; -1, 0]⟩ : Frame 2 ℚ) := by
  refine ⟨by simp only [Matrix.det_fin_two_of]; norm_num, (fun h => by cases h), fun _ => ?_⟩
  unfold Orthonormal
  ext i j
  fin_cases i <;> fin_cases j <;> simp [Matrix.mul_apply, Fin.sum_univ_two]

end Verif.Frames.Props

namespace Verif.Utils.Props
open Verif.Utils

variable {K : Type} [Field K] [LinearOrder K] [FloorRing K]

theorem pairwise_product (p q : ℕ) : ((List.range p) ×ˢ (List.range q)).Pairwise
    fun a b => a.1 < b.1 ∨ a.1 = b.1 ∧ a.2 < b.2 := by
  have key : ∀ l : List ℕ, l.Pairwise (· < ·) → (l ×ˢ (List.range q)).Pairwise
      fun a b => a.1 < b.1 ∨ a.1 = b.1 ∧ a.2 < b.2 := by
    intro l
    induction l with
    | nil => intro _; exact .nil
    | cons i l ih =>
      intro h
      rw [List.pairwise_cons] at h
      rw [List.product_cons, List.pairwise_append]
      refine ⟨?_, ih h.2, ?_⟩
      · rw [List.pairwise_map]
        exact List.pairwise_lt_range.imp fun hab => .inr ⟨rfl, hab⟩
      · rintro ⟨a1, a2⟩ ha ⟨b1, b2⟩ hb
        simp only [List.mem_map, Prod.mk.injEq] at ha
        obtain ⟨_, _, rfl, rfl⟩ := ha
        exact .inl (h.1 _ (List.pair_mem_product.1 hb).1)
  exact key _ List.pairwise_lt_range

/-- C37: whatever the dtypes are, the pairs are listed in the order of their rows in the first array, then of
those in the second, and none is listed twice. -/
theorem C37_ordered (dtx dty : DType) (d e : ℕ) (x y : List (List K)) (tol : K) (sched : List (ℕ × ℕ))
    (res : List (ℕ × ℕ)) (h : indicesOfEqualRows dtx dty d e x y tol sched = .ok res) :
    (res.Pairwise fun a b => a.1 < b.1 ∨ a.1 = b.1 ∧ a.2 < b.2) ∧ res.Nodup := by
  have key : res.Pairwise fun a b => a.1 < b.1 ∨ a.1 = b.1 ∧ a.2 < b.2 := by
    unfold indicesOfEqualRows at h
    simp only at h
    split at h
    · cases h
    split at h
    · split at h
      · obtain rfl := Except.ok.inj h
        rw [List.pairwise_map]
        exact (List.pairwise_lt_range.filter _).imp fun hab => .inl hab
      · obtain rfl := Except.ok.inj h
        exact (pairwise_product _ _).filter _
    · split at h
      · obtain rfl := Except.ok.inj h
        exact (pairwise_product _ _).filter _
      · obtain rfl := Except.ok.inj h
        exact (pairwise_product _ _).filter _
  refine ⟨key, key.imp ?_⟩
  rintro a b hab rfl
  omega

/-- two rows of the first array equal to rows of the second -/
example : ∃ res, indicesOfEqualRows .float .float 1 1 [[(1 : ℚ)], [2]] [[2], [1], [1]] 0
    [(1, 2), (0, 0), (0, 1), (1, 0), (1, 1), (0, 2)] = .ok res ∧ res = [(0, 1), (0, 2), (1, 0)] := by
  exact ⟨_, rfl, by decide +kernel⟩

end Verif.Utils.Props

namespace Verif.SolveApi.Props
open Verif.Solve Verif.SolveApi Verif.Solve.Props

variable {n : ℕ} {K : Type} [Field K] [LinearOrder K] [IsStrictOrderedRing K] [FloorRing K]

/-- C88: with the same arguments, both of `presc_bool` and `presc_val` given or none, `reduce` returns exactly
if `linsolve` does; it raises the same exceptions, and leaves the same arrays behind. -/
theorem C88_as_linsolve (tol : K) (method : MethodName) (hm : method = .jordan ∨ method = .gaussJordan)
    (A : Fin n → Fin n → K) (B : Rhs n K) (pb : Option (Fin n → Bool)) (pv : Option (Fin n → K))
    (hp : pb.isSome = pv.isSome) (inplace : Bool) :
    ((∃ o, (reduce tol method A B pb pv inplace).result = .ok o) ↔
      ∃ o, (linsolve tol method A B pb pv inplace).result = .ok o) ∧
    (∀ e, (reduce tol method A B pb pv inplace).result = .error e ↔
      (linsolve tol method A B pb pv inplace).result = .error e) ∧
    (reduce tol method A B pb pv inplace).A = (linsolve tol method A B pb pv inplace).A ∧
    (reduce tol method A B pb pv inplace).B = (linsolve tol method A B pb pv inplace).B := by
  obtain ⟨me, hme⟩ : ∃ me, named method = some me := by
    rcases hm with rfl | rfl <;> exact ⟨_, rfl⟩
  rw [reduce_eq tol method A B pb pv inplace me hme, linsolve_eq tol method A B pb pv inplace me hme]
  obtain ⟨qb, qv, h1, h2⟩ : ∃ qb qv, reducePresc pb pv = .given qb qv ∧ linsolvePresc pb pv = .given qb qv := by
    cases pb <;> cases pv <;> simp at hp
    · exact ⟨_, _, rfl, rfl⟩
    · exact ⟨_, _, rfl, rfl⟩
  rw [h1, h2]
  unfold runElimination
  simp only
  cases (eliminateIn me tol qb qv (List.finRange n) (start A B)).2 <;> simp

/-- C88: if no bordered minor is negligible without being zero, `reduce` returns if the minors of the unknowns
that are not prescribed do not drop by a factor below `tol` (for the last one Gauss-Jordan only needs that
it is not zero), whatever the right hand sides are. -/
theorem C88_returns (tol : K) (ht : 0 < tol) (method : MethodName)
    (hm : method = .jordan ∨ method = .gaussJordan) (A : Fin n → Fin n → K) (B : Rhs n K)
    (pb : Fin n → Bool) (pv : Fin n → K) (inplace : Bool) (hA : NoneNegligible tol pb A)
    (hM : ∀ i : Fin n, pb i = false →
      if method = .jordan ∨ i.val < n - 1 then
        tol * |freeMinor A pb i.val| ≤ |freeMinor A pb (i.val + 1)|
      else freeMinor A pb (i.val + 1) ≠ 0) :
    ∃ A' B', (reduce tol method A B (some pb) (some pv) inplace).result = .ok (A', B') := by
  obtain ⟨me, hme, hj⟩ : ∃ me, named method = some me ∧ (me = .jordan ↔ method = .jordan) := by
    rcases hm with rfl | rfl <;> exact ⟨_, rfl, by simp⟩
  obtain ⟨S, hS, -⟩ := eliminate_ok me tol ht A B.entry pb pv hA (by simpa only [hj] using hM)
  have h2 : (eliminateIn me tol pb pv (List.finRange n) (start A B)).2 = none := by
    have := eliminateIn_foldlM me tol pb pv (List.finRange n) (start A B)
    unfold eliminate at hS
    cases h : (eliminateIn me tol pb pv (List.finRange n) (start A B)).2 with
    | none => rfl
    | some e =>
      rw [h] at this
      have h' := this.symm.trans hS
      cases h'
  rw [reduce_eq tol method A B (some pb) (some pv) inplace me hme]
  unfold runElimination
  simp only [reducePresc, h2]
  exact ⟨_, _, rfl⟩

/-- a matrix of whole numbers with the middle unknown prescribed -/
example : ∃ A' B', (reduce (1 / 100 : ℚ) .gaussJordan exM (.one ![1, 2, 3]) (some fun i => i = 1)
    (some fun _ => 5) false).result = .ok (A', B') := by
  have hb : ∀ k, k ≤ 3 → (1 / 100 : ℚ) * |freeMinor exM (fun i => i = 1) k| ≤ 1 := by
    intro k hk
    interval_cases k <;> decide +kernel
  obtain ⟨hA, -⟩ := noneNegligible_of_whole (1 / 100 : ℚ) (by norm_num) exM (fun i => i = 1)
    (fun i c => ⟨![![2, 1, 3], ![4, 5, 6], ![3, 1, 1]] i c, by fin_cases i <;> fin_cases c <;> rfl⟩) hb
  exact C88_returns (1 / 100 : ℚ) (by norm_num) .gaussJordan (.inr rfl) exM (.one ![1, 2, 3])
    (fun i => i = 1) (fun _ => 5) false hA (by decide +kernel)

end Verif.SolveApi.Props
