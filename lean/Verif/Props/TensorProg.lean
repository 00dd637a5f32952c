import Verif.Proofs.TensorProg

/-!
# Programs that compute with tensors do not depend on frames (C121)

What a program computes is compared with a machine that knows no frames at all: its memory is a list
of arrays, the components of the objects in the ambient frame.
-/

set_option linter.unusedSectionVars false

namespace Verif.TProg.Props

open Verif.Frames Verif.Frames.Props Verif.TProg Matrix

/-! ## Specification: a machine without frames -/

section
variable {n : ℕ} {K : Type} [Field K]

/-- The physical objects, in the order in which they were made, and the outcomes so far. -/
structure Phys (n : ℕ) (K : Type) where
  objs : List (Comps n K)
  log : List (Py (Out n K))

/-- The factor of a product. -/
def factor (log : List (Py (Out n K))) : Num K → Py K
  | .const c => .ok c
  | .logged k =>
      match log[k]? with
      | some (.ok (.number c)) => .ok c
      | _ => .error .type

/-- `α a + β b`, component by component; objects of different kinds are refused with `e`, those of
different rank with a shape mismatch. -/
def combine (e : PyErr) (α β : K) : Comps n K → Comps n K → Py (Comps n K)
  | .vec x, .vec y => .ok (.vec fun i => α * x i + β * y i)
  | .ten2 A, .ten2 B => .ok (.ten2 (Matrix.of fun i j => α * A i j + β * B i j))
  | .gen r x, .gen s y =>
      if h : r = s then .ok (.gen r fun t => α * x t + β * y fun k => t (k.cast h.symm))
      else .error .shapeMismatch
  | _, _ => .error e

/-- `c a` -/
def times (c : K) : Comps n K → Comps n K
  | .vec x => .vec fun i => x i * c
  | .ten2 A => .ten2 (Matrix.of fun i j => A i j * c)
  | .gen r x => .gen r fun t => x t * c

/-- A new object. -/
def Phys.new (m : Phys n K) (r : Py (Comps n K)) : List (Comps n K) × Py (Out n K) :=
  match r with
  | .error e => (m.objs, .error e)
  | .ok c => (m.objs ++ [c], .ok (.object m.objs.length))

/-- Another value for an object. -/
def Phys.put (m : Phys n K) (a : ℕ) (r : Py (Comps n K)) : List (Comps n K) × Py (Out n K) :=
  match r with
  | .error e => (m.objs, .error e)
  | .ok c => (m.objs.set a c, .ok .done)

/-- A statement about the object `a`, if there is one. -/
def Phys.on (m : Phys n K) (a : ℕ) (k : Comps n K → List (Comps n K) × Py (Out n K)) :
    List (Comps n K) × Py (Out n K) :=
  match m.objs[a]? with
  | none => (m.objs, .error .generic)
  | some A => k A

/-- A statement about two objects. -/
def Phys.on2 (m : Phys n K) (a b : ℕ)
    (k : Comps n K → Comps n K → List (Comps n K) × Py (Out n K)) :
    List (Comps n K) × Py (Out n K) := m.on a fun A => m.on b fun B => k A B

/-- One statement: sums, multiples, reversed indices, sums of products.  Statements about frames do
nothing, `dual` gives the same object once more. -/
def Phys.next (m : Phys n K) (s : Stmt n K) : List (Comps n K) × Py (Out n K) :=
  match s with
  | .frames _ => (m.objs, .ok .done)
  | .fresh c => m.new (.ok c)
  | .show a => m.on a fun A => (m.objs, .ok (.array A))
  | .copy a => m.on a fun A => m.new (.ok A)
  | .deepcopy a => m.on a fun A => m.new (.ok A)
  | .dual a => m.on a fun A => m.new (.ok A)
  | .add a b => m.on2 a b fun A B => m.new (combine .type 1 1 A B)
  | .sub a b => m.on2 a b fun A B => m.new (combine .type 1 (-1) A B)
  | .iadd a b => m.on2 a b fun A B => m.put a (combine .shapeMismatch 1 1 A B)
  | .isub a b => m.on2 a b fun A B => m.put a (combine .shapeMismatch 1 (-1) A B)
  | .scale a s => m.on a fun A => m.new ((factor m.log s).map fun c => times c A)
  | .iscale a s => m.on a fun A => m.put a ((factor m.log s).map fun c => times c A)
  | .divide a s => m.on a fun A => m.new ((factor m.log s).map fun c => times c⁻¹ A)
  | .idivide a s => m.on a fun A => m.put a ((factor m.log s).map fun c => times c⁻¹ A)
  | .neg a => m.on a fun A => m.new (.ok (times (-1) A))
  | .transpose a => m.on a fun A => m.new (.ok (reversed A))
  | .itranspose a => m.on a fun A => m.put a (.ok (reversed A))
  | .dot a b => m.on2 a b fun A B =>
      match A, B with
      | .vec x, .vec y => (m.objs, .ok (.number (∑ i, x i * y i)))
      | .ten2 A, .vec y => m.new (.ok (.vec fun i => ∑ j, A i j * y j))
      | .ten2 A, .ten2 B => m.new (.ok (.ten2 (Matrix.of fun i k => ∑ j, A i j * B j k)))
      | _, _ => (m.objs, .error .generic)

/-- Statements about frames are not written down. -/
def Phys.step (m : Phys n K) (s : Stmt n K) : Phys n K :=
  match s with
  | .frames _ => m
  | s => ⟨(m.next s).1, m.log ++ [(m.next s).2]⟩

/-- A program. -/
def Phys.run (p : List (Stmt n K)) (m : Phys n K) : Phys n K := p.foldl Phys.step m

/-- Divisors are not zero; products are those of two vectors, of a tensor and a vector or of two
second order tensors. -/
def Allowed (m : Phys n K) : Stmt n K → Prop
  | .divide _ s | .idivide _ s => ∀ c, factor m.log s = .ok c → c ≠ 0
  | .dot a b => ∀ A B, m.objs[a]? = some A → m.objs[b]? = some B →
      (∃ x y, A = .vec x ∧ B = .vec y) ∨ (∃ T y, A = .ten2 T ∧ B = .vec y) ∨
        ∃ T U, A = .ten2 T ∧ B = .ten2 U
  | _ => True

/-- The statement computes something. -/
def Computes : Stmt n K → Bool
  | .frames _ => false
  | _ => true

end

section
variable {n : ℕ} {K : Type} [Field K] [LinearOrder K] [IsStrictOrderedRing K]

/-- What the objects of a state stand for. -/
def objects (h : Heap n K) : List (Comps n K) := (List.range h.nT).map fun t => h.ambientOf t

/-- What is left of a state without the frames. -/
def physical (w : World n K) : Phys n K := ⟨objects w.heap, w.log⟩

/-- The conditions under which the statement is executed.  Statements about frames are those of
C42 that make no tensors, and leave all frames with independent axes that keep the promise of their
class.  The others are `Allowed`. -/
def Good (cfg : Cfg K) (w : World n K) : Stmt n K → Prop
  | .frames op => SoundOp cfg w.heap op ∧ NoTensor op ∧
      ∀ f < (op.run cfg w.heap).1.nF, Sound ((op.run cfg w.heap).1.frames f).frame
  | s => Allowed (physical w) s

/-- Every statement is executed under these conditions. -/
def GoodRun (cfg : Cfg K) : List (Stmt n K) → World n K → Prop
  | [], _ => True
  | s :: p, w => Good cfg w s ∧ GoodRun cfg p (step cfg w s)

/-! ## Lemmas -/

theorem objects_length (h : Heap n K) : (objects h).length = h.nT := by simp [objects]

theorem objects_get {h : Heap n K} {a : ℕ} (ha : a < h.nT) :
    (objects h)[a]? = some (Means (value h a)) := by
  unfold objects
  rw [List.getElem?_map, List.getElem?_range ha]
  rfl

theorem objects_none {h : Heap n K} {a : ℕ} (ha : ¬ a < h.nT) : (objects h)[a]? = none := by
  rw [List.getElem?_eq_none]
  rw [objects_length]; omega

theorem objects_same {h h' : Heap n K} (hT : h'.nT = h.nT)
    (hs : ∀ t < h.nT, h'.ambientOf t = h.ambientOf t) : objects h' = objects h := by
  unfold objects
  rw [hT]
  refine List.map_congr_left fun t ht => hs t (List.mem_range.1 ht)

theorem objects_new {h h' : Heap n K} {c : Comps n K} (hT : h'.nT = h.nT + 1)
    (hs : ∀ t < h.nT, h'.ambientOf t = h.ambientOf t) (hc : h'.ambientOf h.nT = c) :
    objects h' = objects h ++ [c] := by
  unfold objects
  rw [hT, List.range_succ, List.map_append, List.map_singleton, hc]
  congr 1
  exact List.map_congr_left fun t ht => hs t (List.mem_range.1 ht)

theorem objects_set {h h' : Heap n K} {a : ℕ} {c : Comps n K} (hT : h'.nT = h.nT)
    (hs : ∀ t, t ≠ a → h'.ambientOf t = h.ambientOf t) (hc : h'.ambientOf a = c) :
    objects h' = (objects h).set a c := by
  unfold objects
  rw [hT]
  refine List.ext_getElem (by simp) fun i h1 h2 => ?_
  rw [List.getElem_set]
  by_cases hi : a = i
  · subst hi
    rw [if_pos rfl]
    simp [hc]
  · rw [if_neg hi]
    simp only [List.getElem_map, List.getElem_range]
    exact hs i (Ne.symm hi)

/-- The state after the statement is in order, and the machine without frames does the same. -/
def Agrees (log : List (Py (Out n K))) (h : Heap n K) (r : Heap n K × Py (Out n K))
    (m : List (Comps n K) × Py (Out n K)) : Prop :=
  Sane r.1 ∧ objects r.1 = m.1 ∧ r.2 = m.2

theorem agrees_stay {h : Heap n K} (hs : Sane h) (log : List (Py (Out n K))) (o : Py (Out n K)) :
    Agrees log h (h, o) (objects h, o) := ⟨hs, rfl, rfl⟩

theorem agrees_store {h : Heap n K} (hs : Sane h) (log : List (Py (Out n K))) (c : Comps n K)
    {f : ℕ} (hf : f < h.nF) :
    Agrees log h (store c f h)
      (Phys.new ⟨objects h, log⟩ (.ok (ambient (h.frames f).frame.axes c))) := by
  obtain ⟨h', e, s, hT, hk, hc⟩ := store_sane hs c hf
  rw [e]
  refine ⟨s, objects_new hT hk hc, ?_⟩
  show _ = Except.ok (Out.object (objects h).length)
  rw [objects_length]

theorem agrees_inFrameOf {h : Heap n K} (hs : Sane h) (log : List (Py (Out n K))) {a : ℕ}
    (ha : a < h.nT) (t : Tensor n K) (ht : t.frame = (value h a).frame) :
    Agrees log h (inFrameOf a (.ok t) h) (Phys.new ⟨objects h, log⟩ (.ok (Means t))) := by
  have := agrees_store hs log t.comps (hs.inv.valid a ha)
  unfold Means
  rw [ht]
  exact this

theorem agrees_inNewFrame {h : Heap n K} (hs : Sane h) (log : List (Py (Out n K)))
    (t : Tensor n K) (ht : Sound t.frame) :
    Agrees log h (inNewFrame (.ok t) h) (Phys.new ⟨objects h, log⟩ (.ok (Means t))) := by
  obtain ⟨s, hf, hT, hF, hk⟩ := addFrame_sane hs ht
  have := agrees_store s log t.comps (f := h.nF) (by rw [hF]; omega)
  rw [hf, objects_same hT hk] at this
  exact this

theorem agrees_inPlace {h : Heap n K} (hs : Sane h) (log : List (Py (Out n K))) {a : ℕ}
    (ha : a < h.nT) (t : Tensor n K) (ht : t.frame = (value h a).frame) :
    Agrees log h (inPlace a (.ok t) h) (Phys.put ⟨objects h, log⟩ a (.ok (Means t))) := by
  obtain ⟨s, hT, hk, hc⟩ := overwrite_sane hs ha t.comps
  refine ⟨s, ?_, rfl⟩
  refine objects_set hT hk (hc.trans ?_)
  unfold Means
  rw [ht]
  rfl

theorem combine_lin (e : PyErr) {α β : K} {A B C : Comps n K} (h : lin α β A B = some C) :
    combine e α β A B = .ok C := by
  rw [lin_zip] at h
  cases A <;> cases B
  case vec.vec => cases h; rfl
  case ten2.ten2 => cases h; rfl
  case gen.gen r x s y =>
    by_cases hrs : r = s
    · subst hrs
      simp only [Comps.zip, dif_pos] at h
      cases h
      simp [combine]
    · simp only [Comps.zip, dif_neg hrs] at h
      cases h
  all_goals cases h

theorem times_eq (c : K) (A : Comps n K) : A.map (· * c) = times c A := by
  cases A <;> rfl

/-- Sums and differences of tensors. -/
theorem binary_agrees (cfg : Cfg K) (ha : 0 ≤ cfg.atol) (hr : 0 ≤ cfg.rtol) (f : K → K → K) (α β : K)
    (hf : ∀ x y, f x y = α * x + β * y) (a b : Tensor n K) (hs : Sound a.frame) :
    (∃ e, binary cfg f a (.tensor b) = .error e ∧ combine .type α β (Means a) (Means b) = .error e) ∨
    (∃ c, binary cfg f a (.tensor b) = .ok ⟨c, ⟨.reference, a.frame.axes⟩⟩ ∧
      combine .type α β (Means a) (Means b) = .ok (ambient a.frame.axes c)) := by
  obtain rfl : f = fun x y => α * x + β * y := by funext x y; exact hf x y
  obtain ⟨d, hd, k1, k2, k3⟩ := C43_total cfg ha hr b.frame a.frame hs b.comps
  have hd' : b.show cfg (some a.frame) = .ok d := hd
  have hm : ambient a.frame.axes d = Means b := show_some (sound_cartOK hs) hd'
  have key : ∀ z c, a.comps.sameClass b.comps = true →
      a.comps.zip (fun x y => α * x + β * y) b.comps = some z → lin α β a.comps d = some c →
      binary cfg (fun x y => α * x + β * y) a (.tensor b) = .ok ⟨c, ⟨.reference, a.frame.axes⟩⟩ ∧
      combine .type α β (Means a) (Means b) = .ok (ambient a.frame.axes c) := by
    intro z c hc hz hl
    constructor
    · simp only [binary, hc, if_true, hz, hd', bind, Except.bind]
      rw [lin_zip] at hl
      rw [hl]
    · have := means_lin α β a.frame.axes _ _ _ hl
      rw [hm] at this
      exact combine_lin _ this
  obtain ⟨ca, fa⟩ := a
  obtain ⟨cb, fb⟩ := b
  simp only at k1 k2 k3 hs hm hd key
  cases ca <;> cases cb
  case vec.vec v w =>
    obtain ⟨w', rfl⟩ := k1 w rfl
    exact Or.inr ⟨_, key _ _ rfl rfl rfl⟩
  case ten2.ten2 v w =>
    obtain ⟨w', rfl⟩ := k2 w rfl
    exact Or.inr ⟨_, key _ _ rfl rfl rfl⟩
  case gen.gen r x s y =>
    by_cases hrs : r = s
    · subst hrs
      obtain ⟨w', rfl⟩ := k3 r y rfl
      exact Or.inr ⟨_, key _ _ rfl (dif_pos rfl) (dif_pos rfl)⟩
    · refine Or.inl ⟨.shapeMismatch, ?_, ?_⟩
      · simp only [binary, Comps.sameClass, if_true, Comps.zip, dif_neg hrs]
      · show combine _ _ _ (Comps.gen r _) (Comps.gen s _) = _
        simp only [combine, dif_neg hrs]
  all_goals exact Or.inl ⟨.type, rfl, rfl⟩

/-- Sums and differences in place. -/
theorem inplace_agrees (cfg : Cfg K) (ha : 0 ≤ cfg.atol) (hr : 0 ≤ cfg.rtol) (a b : Tensor n K)
    (hs : Sound a.frame) :
    ((∃ e, iadd cfg a (.tensor b) = .error e ∧
        combine .shapeMismatch 1 1 (Means a) (Means b) = .error e) ∨
      (∃ c, iadd cfg a (.tensor b) = .ok ⟨c, a.frame⟩ ∧
        combine .shapeMismatch 1 1 (Means a) (Means b) = .ok (ambient a.frame.axes c))) ∧
    ((∃ e, isub cfg a (.tensor b) = .error e ∧
        combine .shapeMismatch 1 (-1) (Means a) (Means b) = .error e) ∨
      (∃ c, isub cfg a (.tensor b) = .ok ⟨c, a.frame⟩ ∧
        combine .shapeMismatch 1 (-1) (Means a) (Means b) = .ok (ambient a.frame.axes c))) := by
  obtain ⟨d, hd, k1, k2, k3⟩ := C43_total cfg ha hr b.frame a.frame hs b.comps
  have hd' : b.show cfg (some a.frame) = .ok d := hd
  have hm : ambient a.frame.axes d = Means b := show_some (sound_cartOK hs) hd'
  have key1 : ∀ z c, a.comps.zip (· + ·) b.comps = some z → a.comps.zip (· + ·) d = some c →
      iadd cfg a (.tensor b) = .ok ⟨c, a.frame⟩ ∧
      combine .shapeMismatch 1 1 (Means a) (Means b) = .ok (ambient a.frame.axes c) := by
    intro z c hz hl
    constructor
    · simp only [iadd, hz, hd', bind, Except.bind, hl]
    · rw [zip_add] at hl
      have := means_lin 1 1 a.frame.axes _ _ _ hl
      rw [hm] at this
      exact combine_lin _ this
  have key2 : ∀ z c, a.comps.zip (· - ·) b.comps = some z → a.comps.zip (· - ·) d = some c →
      isub cfg a (.tensor b) = .ok ⟨c, a.frame⟩ ∧
      combine .shapeMismatch 1 (-1) (Means a) (Means b) = .ok (ambient a.frame.axes c) := by
    intro z c hz hl
    constructor
    · simp only [isub, hz, hd', bind, Except.bind, hl]
    · rw [zip_sub] at hl
      have := means_lin 1 (-1) a.frame.axes _ _ _ hl
      rw [hm] at this
      exact combine_lin _ this
  obtain ⟨ca, fa⟩ := a
  obtain ⟨cb, fb⟩ := b
  simp only at k1 k2 k3 hs hm hd key1 key2
  cases ca <;> cases cb
  case vec.vec v w =>
    obtain ⟨w', rfl⟩ := k1 w rfl
    exact ⟨Or.inr ⟨_, key1 _ _ rfl rfl⟩, Or.inr ⟨_, key2 _ _ rfl rfl⟩⟩
  case ten2.ten2 v w =>
    obtain ⟨w', rfl⟩ := k2 w rfl
    exact ⟨Or.inr ⟨_, key1 _ _ rfl rfl⟩, Or.inr ⟨_, key2 _ _ rfl rfl⟩⟩
  case gen.gen r x s y =>
    by_cases hrs : r = s
    · subst hrs
      obtain ⟨w', rfl⟩ := k3 r y rfl
      exact ⟨Or.inr ⟨_, key1 _ _ (dif_pos rfl) (dif_pos rfl)⟩,
        Or.inr ⟨_, key2 _ _ (dif_pos rfl) (dif_pos rfl)⟩⟩
    · refine ⟨Or.inl ⟨.shapeMismatch, ?_, ?_⟩, Or.inl ⟨.shapeMismatch, ?_, ?_⟩⟩
      · simp only [iadd, Comps.zip, dif_neg hrs]
      · show combine _ _ _ (Comps.gen r _) (Comps.gen s _) = _
        simp only [combine, dif_neg hrs]
      · simp only [isub, Comps.zip, dif_neg hrs]
      · show combine _ _ _ (Comps.gen r _) (Comps.gen s _) = _
        simp only [combine, dif_neg hrs]
  all_goals exact ⟨Or.inl ⟨.shapeMismatch, rfl, rfl⟩, Or.inl ⟨.shapeMismatch, rfl, rfl⟩⟩

theorem on_pos {h : Heap n K} (log : List (Py (Out n K))) {a : ℕ} (ha : a < h.nT)
    (k : Comps n K → List (Comps n K) × Py (Out n K)) :
    Phys.on ⟨objects h, log⟩ a k = k (Means (value h a)) := by
  unfold Phys.on
  simp only
  rw [objects_get ha]

theorem on_neg {h : Heap n K} (log : List (Py (Out n K))) {a : ℕ} (ha : ¬ a < h.nT)
    (k : Comps n K → List (Comps n K) × Py (Out n K)) :
    Phys.on ⟨objects h, log⟩ a k = (objects h, .error .generic) := by
  unfold Phys.on
  simp only
  rw [objects_none ha]

theorem on2_pos {h : Heap n K} (log : List (Py (Out n K))) {a b : ℕ} (ha : a < h.nT ∧ b < h.nT)
    (k : Comps n K → Comps n K → List (Comps n K) × Py (Out n K)) :
    Phys.on2 ⟨objects h, log⟩ a b k = k (Means (value h a)) (Means (value h b)) := by
  unfold Phys.on2
  rw [on_pos log ha.1, on_pos log ha.2]

theorem on2_neg {h : Heap n K} (log : List (Py (Out n K))) {a b : ℕ} (ha : ¬ (a < h.nT ∧ b < h.nT))
    (k : Comps n K → Comps n K → List (Comps n K) × Py (Out n K)) :
    Phys.on2 ⟨objects h, log⟩ a b k = (objects h, .error .generic) := by
  unfold Phys.on2
  by_cases h1 : a < h.nT
  · rw [on_pos log h1, on_neg log (fun h2 => ha ⟨h1, h2⟩)]
  · rw [on_neg log h1]

theorem factor_eq (log : List (Py (Out n K))) (s : Num K) : s.get log = factor log s := by
  cases s <;> rfl

/-- One statement that computes something. -/
theorem compute_agrees (cfg : Cfg K) (ha : 0 ≤ cfg.atol) (hr : 0 ≤ cfg.rtol) (hrt : cfg.rt 1 = 1)
    (s : Stmt n K) (log : List (Py (Out n K))) (h : Heap n K) (hs : Sane h)
    (hg : Allowed ⟨objects h, log⟩ s) :
    Agrees log h (compute cfg s log h) (Phys.next ⟨objects h, log⟩ s) := by
  cases s with
  | frames op => exact agrees_stay hs log _
  | fresh c =>
    have := agrees_inNewFrame hs log ⟨c, ambientFrame⟩ sound_ambientFrame
    have hm : Means (⟨c, ambientFrame⟩ : Tensor n K) = c := by
      unfold Means ambientFrame
      rw [ambient_eq, Matrix.transpose_one, transform_one]
    rw [hm] at this
    exact this
  | «show» a =>
    unfold compute Phys.next
    by_cases h1 : a < h.nT
    · simp only [if_pos h1, on_pos log h1, show_none]
      exact agrees_stay hs log _
    · simp only [if_neg h1, on_neg log h1]
      exact agrees_stay hs log _
  | copy a =>
    unfold compute Phys.next
    by_cases h1 : a < h.nT
    · simp only [if_pos h1, on_pos log h1]
      exact agrees_store hs log _ (hs.inv.valid a h1)
    · simp only [if_neg h1, on_neg log h1]
      exact agrees_stay hs log _
  | deepcopy a =>
    unfold compute Phys.next
    by_cases h1 : a < h.nT
    · simp only [if_pos h1, on_pos log h1]
      exact agrees_inNewFrame hs log _ (sound_reference (sane_frame hs h1))
    · simp only [if_neg h1, on_neg log h1]
      exact agrees_stay hs log _
  | add a b =>
    unfold compute Phys.next
    by_cases h1 : a < h.nT ∧ b < h.nT
    · simp only [if_pos h1, on2_pos log h1]
      have hsa : Sound (value h a).frame := sane_frame hs h1.1
      rcases binary_agrees cfg ha hr (· + ·) 1 1 (fun x y => by ring) (value h a) (value h b) hsa with
        ⟨e, e1, e2⟩ | ⟨c, e1, e2⟩
      · rw [e1, e2]; exact agrees_stay hs log _
      · rw [e1, e2]; exact agrees_inNewFrame hs log _ (sound_reference hsa)
    · simp only [if_neg h1, on2_neg log h1]
      exact agrees_stay hs log _
  | sub a b =>
    unfold compute Phys.next
    by_cases h1 : a < h.nT ∧ b < h.nT
    · simp only [if_pos h1, on2_pos log h1]
      have hsa : Sound (value h a).frame := sane_frame hs h1.1
      rcases binary_agrees cfg ha hr (· - ·) 1 (-1) (fun x y => by ring) (value h a) (value h b) hsa
        with ⟨e, e1, e2⟩ | ⟨c, e1, e2⟩
      · rw [e1, e2]; exact agrees_stay hs log _
      · rw [e1, e2]; exact agrees_inNewFrame hs log _ (sound_reference hsa)
    · simp only [if_neg h1, on2_neg log h1]
      exact agrees_stay hs log _
  | scale a s =>
    unfold compute Phys.next
    by_cases h1 : a < h.nT
    · simp only [if_pos h1, on_pos log h1, factor_eq]
      cases hfac : factor log s with
      | error e => exact agrees_stay hs log _
      | ok c =>
        obtain ⟨t, e1, -, e2, e3⟩ := C47_scale (value h a) c
        rw [each_map] at e3
        rw [times_eq] at e3
        simp only [e1, Except.map]
        rw [← e3]
        exact agrees_inFrameOf hs log h1 t e2
    · simp only [if_neg h1, on_neg log h1]
      exact agrees_stay hs log _
  | divide a s =>
    unfold compute Phys.next
    by_cases h1 : a < h.nT
    · simp only [if_pos h1, on_pos log h1, factor_eq]
      cases hfac : factor log s with
      | error e => exact agrees_stay hs log _
      | ok c =>
        obtain ⟨t, e1, -, e2, e3⟩ := (C47_divide (value h a) c).1 (hg c hfac)
        rw [each_map, times_eq] at e3
        simp only [e1, Except.map, finite]
        rw [← e3]
        exact agrees_inFrameOf hs log h1 t e2
    · simp only [if_neg h1, on_neg log h1]
      exact agrees_stay hs log _
  | neg a =>
    unfold compute Phys.next
    by_cases h1 : a < h.nT
    · simp only [if_pos h1, on_pos log h1]
      obtain ⟨e2, e3⟩ := C47_neg (value h a)
      rw [each_map, times_eq] at e3
      rw [← e3]
      exact agrees_inFrameOf hs log h1 _ e2
    · simp only [if_neg h1, on_neg log h1]
      exact agrees_stay hs log _
  | iadd a b =>
    unfold compute Phys.next
    by_cases h1 : a < h.nT ∧ b < h.nT
    · simp only [if_pos h1, on2_pos log h1]
      have hsa : Sound (value h a).frame := sane_frame hs h1.1
      rcases (inplace_agrees cfg ha hr (value h a) (value h b) hsa).1 with
        ⟨e, e1, e2⟩ | ⟨c, e1, e2⟩
      · rw [e1, e2]; exact agrees_stay hs log _
      · rw [e1, e2]; exact agrees_inPlace hs log h1.1 _ rfl
    · simp only [if_neg h1, on2_neg log h1]
      exact agrees_stay hs log _
  | isub a b =>
    unfold compute Phys.next
    by_cases h1 : a < h.nT ∧ b < h.nT
    · simp only [if_pos h1, on2_pos log h1]
      have hsa : Sound (value h a).frame := sane_frame hs h1.1
      rcases (inplace_agrees cfg ha hr (value h a) (value h b) hsa).2 with
        ⟨e, e1, e2⟩ | ⟨c, e1, e2⟩
      · rw [e1, e2]; exact agrees_stay hs log _
      · rw [e1, e2]; exact agrees_inPlace hs log h1.1 _ rfl
    · simp only [if_neg h1, on2_neg log h1]
      exact agrees_stay hs log _
  | iscale a s =>
    unfold compute Phys.next
    by_cases h1 : a < h.nT
    · simp only [if_pos h1, on_pos log h1, factor_eq]
      cases hfac : factor log s with
      | error e => exact agrees_stay hs log _
      | ok c =>
        obtain ⟨t, -, e1, e2, e3⟩ := C47_scale (value h a) c
        rw [each_map] at e3
        rw [times_eq] at e3
        simp only [e1, Except.map]
        rw [← e3]
        exact agrees_inPlace hs log h1 t e2
    · simp only [if_neg h1, on_neg log h1]
      exact agrees_stay hs log _
  | idivide a s =>
    unfold compute Phys.next
    by_cases h1 : a < h.nT
    · simp only [if_pos h1, on_pos log h1, factor_eq]
      cases hfac : factor log s with
      | error e => exact agrees_stay hs log _
      | ok c =>
        obtain ⟨t, -, e1, e2, e3⟩ := (C47_divide (value h a) c).1 (hg c hfac)
        rw [each_map, times_eq] at e3
        simp only [e1, Except.map, finite]
        rw [← e3]
        exact agrees_inPlace hs log h1 t e2
    · simp only [if_neg h1, on_neg log h1]
      exact agrees_stay hs log _
  | transpose a =>
    unfold compute Phys.next
    by_cases h1 : a < h.nT
    · simp only [if_pos h1, on_pos log h1]
      have hsa : Sound (value h a).frame := sane_frame hs h1
      rw [mkFrame_sound cfg ha hr hrt _ hsa]
      have e3 := C65_transpose (value h a).frame.axes (value h a).comps
      unfold Means
      rw [← e3]
      exact agrees_inNewFrame hs log ⟨(value h a).comps.transpose, (value h a).frame⟩ hsa
    · simp only [if_neg h1, on_neg log h1]
      exact agrees_stay hs log _
  | itranspose a =>
    unfold compute Phys.next
    by_cases h1 : a < h.nT
    · simp only [if_pos h1, on_pos log h1]
      have e3 := C65_transpose (value h a).frame.axes (value h a).comps
      unfold Means
      rw [← e3]
      exact agrees_inPlace hs log h1 ⟨(value h a).comps.transpose, (value h a).frame⟩ rfl
    · simp only [if_neg h1, on_neg log h1]
      exact agrees_stay hs log _
  | dual a =>
    unfold compute Phys.next
    by_cases h1 : a < h.nT
    · simp only [if_pos h1, on_pos log h1]
      have hsa : Sound (value h a).frame := sane_frame hs h1
      obtain ⟨d, D, hd, hD⟩ := C62_total cfg ha hr (value h a).frame hsa (value h a).comps
      obtain ⟨e1, -⟩ := C62_dual cfg _ _ (sound_cartOK hsa) _ _ hd
      rw [hd]
      simp only
      unfold Means
      rw [← e1]
      by_cases hc : (value h a).frame.cls = .cartesian
      · rw [if_pos hc]
        have hDD : D = (value h a).frame := by
          have h2 : (value h a).frame.dual cfg = .ok (value h a).frame := by
            unfold Frame.dual; rw [hc]
          unfold dualOf at hd
          rw [h2] at hd
          cases hd
          rfl
        rw [hDD]
        exact agrees_store hs log d (hs.inv.valid a h1)
      · rw [if_neg hc]
        exact agrees_inNewFrame hs log ⟨d, D⟩ hD
    · simp only [if_neg h1, on_neg log h1]
      exact agrees_stay hs log _
  | dot a b =>
    unfold compute Phys.next
    by_cases h1 : a < h.nT ∧ b < h.nT
    · simp only [if_pos h1, on2_pos log h1]
      have hsa : Sound (value h a).frame := sane_frame hs h1.1
      have hvec : ∀ (t : Tensor n K) x, Means t = .vec x → ∃ v, t.comps = .vec v := by
        rintro ⟨c, f⟩ x hx
        cases c with
        | vec v => exact ⟨v, rfl⟩
        | ten2 A => rw [Means, ambient_ten2] at hx; cases hx
        | gen r y => cases hx
      have hten : ∀ (t : Tensor n K) x, Means t = .ten2 x → ∃ v, t.comps = .ten2 v := by
        rintro ⟨c, f⟩ x hx
        cases c with
        | vec v => rw [Means, ambient_vec] at hx; cases hx
        | ten2 A => exact ⟨A, rfl⟩
        | gen r y => cases hx
      rcases hg _ _ (objects_get h1.1) (objects_get h1.2) with ⟨x, y, hx, hy⟩ | ⟨T, y, hT, hy⟩ |
        ⟨T, U, hT, hU⟩
      · rw [C45_vector_vector cfg _ _ none none x y hx hy, hx, hy]
        exact agrees_stay hs log _
      · obtain ⟨r, e⟩ := C45_total cfg ha hr (value h a) (value h b) none none hsa
          (fun f hf => nomatch hf) (Or.inr (hten _ _ hT)) (Or.inl (hvec _ _ hy))
        obtain ⟨t, rfl, e1, e2⟩ := C45_tensor_vector cfg _ _ none none (sound_cartOK hsa)
          (fun f hf => nomatch hf) T y hT hy r e
        rw [e, hT, hy]
        have := agrees_inFrameOf hs log h1.1 t e2
        rw [e1] at this
        exact this
      · obtain ⟨r, e⟩ := C45_total cfg ha hr (value h a) (value h b) none none hsa
          (fun f hf => nomatch hf) (Or.inr (hten _ _ hT)) (Or.inr (hten _ _ hU))
        obtain ⟨t, rfl, e1, e2⟩ := C45_tensor_tensor cfg _ _ none none (sound_cartOK hsa)
          (fun f hf => nomatch hf) T U hT hU r e
        rw [e, hT, hU]
        have := agrees_inFrameOf hs log h1.1 t e2
        rw [e1] at this
        exact this
    · simp only [if_neg h1, on2_neg log h1]
      exact agrees_stay hs log _

theorem step_computes (cfg : Cfg K) (w : World n K) (s : Stmt n K) (hc : Computes s = true) :
    step cfg w s = ⟨(compute cfg s w.log w.heap).1, w.log ++ [(compute cfg s w.log w.heap).2]⟩ := by
  cases s <;> first | rfl | cases hc

theorem phys_computes (m : Phys n K) (s : Stmt n K) (hc : Computes s = true) :
    m.step s = ⟨(m.next s).1, m.log ++ [(m.next s).2]⟩ := by
  cases s <;> first | rfl | cases hc

theorem good_computes (cfg : Cfg K) (w : World n K) (s : Stmt n K) (hc : Computes s = true)
    (hg : Good cfg w s) : Allowed (physical w) s := by
  cases s <;> first | exact hg | cases hc

theorem step_agrees (cfg : Cfg K) (ha : 0 ≤ cfg.atol) (hr : 0 ≤ cfg.rtol) (hrt : cfg.rt 1 = 1)
    (s : Stmt n K) (w : World n K) (hs : Sane w.heap) (hg : Good cfg w s) :
    Sane (step cfg w s).heap ∧ physical (step cfg w s) = (physical w).step s := by
  by_cases hc : Computes s = true
  · obtain ⟨h1, h2, h3⟩ := compute_agrees cfg ha hr hrt s w.log w.heap hs
      (good_computes cfg w s hc hg)
    rw [step_computes cfg w s hc, phys_computes _ s hc]
    refine ⟨h1, ?_⟩
    unfold physical
    simp only
    rw [h2, h3]
  · cases s with
    | frames op =>
      obtain ⟨g1, g2, g3⟩ := hg
      obtain ⟨i1, i2⟩ := op_spec cfg w.heap hs.inv op g1
      refine ⟨⟨i1, g3⟩, ?_⟩
      show (⟨objects (op.run cfg w.heap).1, w.log⟩ : Phys n K) = ⟨objects w.heap, w.log⟩
      rw [objects_same (op_nT cfg w.heap op g2) i2.same]
    | _ => exact absurd rfl hc

theorem run_agrees (cfg : Cfg K) (ha : 0 ≤ cfg.atol) (hr : 0 ≤ cfg.rtol) (hrt : cfg.rt 1 = 1)
    (p : List (Stmt n K)) (w : World n K) (hs : Sane w.heap) (hg : GoodRun cfg p w) :
    Sane (run cfg p w).heap ∧ physical (run cfg p w) = (physical w).run p := by
  induction p generalizing w with
  | nil => exact ⟨hs, rfl⟩
  | cons s p ih =>
    obtain ⟨h1, h2⟩ := step_agrees cfg ha hr hrt s w hs hg.1
    obtain ⟨h3, h4⟩ := ih (step cfg w s) h1 hg.2
    refine ⟨h3, ?_⟩
    rw [h2] at h4
    exact h4

theorem phys_run_filter (p : List (Stmt n K)) (m : Phys n K) :
    m.run p = m.run (p.filter Computes) := by
  induction p generalizing m with
  | nil => rfl
  | cons s p ih =>
    by_cases hc : Computes s = true
    · rw [List.filter_cons_of_pos hc]
      exact ih _
    · rw [List.filter_cons_of_neg hc]
      have : m.step s = m := by
        cases s with
        | frames op => rfl
        | _ => exact absurd rfl hc
      show (m.step s).run p = _
      rw [this]
      exact ih m

/-! ## The theorems -/

/-- A state that statements of C42 produced from nothing, in which all frames have independent axes
that keep the promise of their class. -/
def Reachable (cfg : Cfg K) (h : Heap n K) : Prop :=
  (∃ ops, SoundOps cfg ops emptyHeap ∧ h = runOps cfg ops emptyHeap) ∧
    ∀ f < h.nF, Sound (h.frames f).frame

theorem reachable_sane {cfg : Cfg K} {h : Heap n K} (hr : Reachable cfg h) : Sane h := by
  obtain ⟨⟨ops, ho, rfl⟩, hs⟩ := hr
  exact ⟨(ops_spec cfg ops emptyHeap emptyHeap_inv ho).1, hs⟩

/-- **C121**, partial: whatever the frames are and whatever is done to them on the way, a program does
what the machine without frames does: every statement has the same outcome (the same number, the same
array, the same exception, a new object of the same number), and at the end all objects stand for what
the machine says.

Missing, because it is false (`C121_vector_tensor_violated`): products of a vector with a tensor. -/
theorem C121_simulation_partial (cfg : Cfg K) (ha : 0 ≤ cfg.atol) (hr : 0 ≤ cfg.rtol)
    (hrt : cfg.rt 1 = 1) (p : List (Stmt n K)) (h : Heap n K) (log : List (Py (Out n K)))
    (hh : Reachable cfg h) (hg : GoodRun cfg p ⟨h, log⟩) :
    (run cfg p ⟨h, log⟩).log = (Phys.run p ⟨objects h, log⟩).log ∧
      objects (run cfg p ⟨h, log⟩).heap = (Phys.run p ⟨objects h, log⟩).objs := by
  have := (run_agrees cfg ha hr hrt p ⟨h, log⟩ (reachable_sane hh) hg).2
  exact ⟨congrArg Phys.log this, congrArg Phys.objs this⟩

/-- **C121**, partial: two programs with the same computations and any statements about frames in between,
started in states whose objects stand for the same, have the same outcomes, and leave objects that
stand for the same. -/
theorem C121_frames_irrelevant_partial (cfg : Cfg K) (ha : 0 ≤ cfg.atol) (hr : 0 ≤ cfg.rtol)
    (hrt : cfg.rt 1 = 1) (p q : List (Stmt n K)) (g h : Heap n K) (hg : Reachable cfg g)
    (hh : Reachable cfg h) (hpq : p.filter Computes = q.filter Computes)
    (hobj : objects g = objects h) (hp : GoodRun cfg p ⟨g, []⟩) (hq : GoodRun cfg q ⟨h, []⟩) :
    (run cfg p ⟨g, []⟩).log = (run cfg q ⟨h, []⟩).log ∧
      objects (run cfg p ⟨g, []⟩).heap = objects (run cfg q ⟨h, []⟩).heap := by
  obtain ⟨p1, p2⟩ := C121_simulation_partial cfg ha hr hrt p g [] hg hp
  obtain ⟨q1, q2⟩ := C121_simulation_partial cfg ha hr hrt q h [] hh hq
  rw [p1, p2, q1, q2, phys_run_filter p, phys_run_filter q, hpq, hobj]
  exact ⟨rfl, rfl⟩

end

/-! ## Concrete cases -/

/-- The first component of an array that was written down. -/
def firstOf : Option (Py (Out 2 ℚ)) → Option ℚ
  | some (.ok (.array c)) => some (c.comp 0)
  | some (.ok (.number c)) => some c
  | _ => none

/-- The exception that was written down. -/
def refusal : Option (Py (Out 2 ℚ)) → Option PyErr
  | some (.error e) => some e
  | _ => none

/-- The object is a vector. -/
def isVector : Option (Comps 2 ℚ) → Bool
  | some (.vec _) => true
  | _ => false

/-- A tensor, a vector, a skewed frame for the one and a Cartesian frame that is turned for the other,
products, a sum and a factor that was computed. -/
def mixed : List (Stmt 2 ℚ) :=
  [.fresh (.ten2 !![1, 2; 3, 4]), .fresh (.vec ![1, 1]),
    .frames (.setFrameArray 0 !![1, 1; 0, 2]), .frames (.newFrame .cartesian 1),
    .frames (.setFrame 1 3), .dot 0 1, .frames (.orient 3 !![3/5, 4/5; -4/5, 3/5]), .add 1 2,
    .dot 3 1, .scale 3 (.logged 4), .show 4, .add 0 1, .dual 2, .isub 5 1, .show 5]

/-- What the program prints: `(Av + v)·v = 12`, the multiple of `Av + v = (4, 8)`, a refused sum, and
`Av - v`. -/
example :
    let w := run exactCfg mixed ⟨emptyHeap, []⟩
    w.log.length = 11 ∧ firstOf w.log[4]? = some 12 ∧ firstOf w.log[6]? = some 48 ∧
      refusal w.log[7]? = some .type ∧ firstOf w.log[10]? = some 2 ∧
      (w.heap.tensors 1).comps.comp 0 = 7 / 5 := by
  refine ⟨by decide +kernel, by decide +kernel, by decide +kernel, by decide +kernel,
    by decide +kernel, by decide +kernel⟩

/-- Without the statements about frames it prints the same. -/
example :
    let w := run exactCfg (mixed.filter Computes) ⟨emptyHeap, []⟩
    w.log.length = 11 ∧ firstOf w.log[4]? = some 12 ∧ firstOf w.log[6]? = some 48 ∧
      firstOf w.log[10]? = some 2 ∧ (w.heap.tensors 1).comps.comp 0 = 1 := by
  refine ⟨by decide +kernel, by decide +kernel, by decide +kernel, by decide +kernel,
    by decide +kernel⟩

/-- The hypotheses of the theorems can be met. -/
example : 0 ≤ exactCfg.atol ∧ 0 ≤ exactCfg.rtol ∧ exactCfg.rt 1 = 1 ∧
    Reachable exactCfg (emptyHeap : Heap 2 ℚ) ∧
    GoodRun exactCfg [.fresh (.vec ![1, 1]), .frames (.setFrameArray 0 !![1, 1; 0, 2]), .dot 0 0,
      .divide 0 (.const 2)] ⟨(emptyHeap : Heap 2 ℚ), []⟩ := by
  refine ⟨by decide +kernel, by decide +kernel, by decide +kernel,
    ⟨⟨[], trivial, rfl⟩, fun f hf => absurd hf (Nat.not_lt_zero f)⟩, ?_⟩
  refine ⟨trivial, ⟨trivial, trivial, ?_⟩, ?_, ?_, trivial⟩
  · have h2 : (Op.run exactCfg (.setFrameArray 0 !![1, 1; 0, 2]) (step exactCfg
      ⟨(emptyHeap : Heap 2 ℚ), []⟩ (.fresh (.vec ![1, 1]))).heap).1.nF = 2 := by decide +kernel
    intro f hf
    rw [h2] at hf
    have hcls : ∀ f < 2, ((Op.run exactCfg (.setFrameArray 0 !![1, 1; 0, 2]) (step exactCfg
      ⟨(emptyHeap : Heap 2 ℚ), []⟩ (.fresh (.vec ![1, 1]))).heap).1.frames f).frame.cls =
        .reference := by decide +kernel
    have hdet : ∀ f < 2, ((Op.run exactCfg (.setFrameArray 0 !![1, 1; 0, 2]) (step exactCfg
      ⟨(emptyHeap : Heap 2 ℚ), []⟩ (.fresh (.vec ![1, 1]))).heap).1.frames f).frame.axes.det ≠ 0 := by
      decide +kernel
    refine ⟨hdet f hf, fun h => ?_, fun h => ?_⟩
    · rw [hcls f hf] at h; cases h
    · rw [hcls f hf] at h; cases h
  · intro A B hA hB
    left
    have hv : isVector ((physical (step exactCfg (step exactCfg ⟨(emptyHeap : Heap 2 ℚ), []⟩
      (.fresh (.vec ![1, 1]))) (.frames (.setFrameArray 0 !![1, 1; 0, 2])))).objs[0]?) = true := by
      decide +kernel
    rw [hA] at hv
    rw [hA] at hB
    cases hB
    cases A with
    | vec x => exact ⟨x, x, rfl, rfl⟩
    | ten2 T => cases hv
    | gen r x => cases hv
  · intro c hc
    cases hc
    decide +kernel

/-- **C121** is violated by products of a vector with a tensor: what the product stands for depends on the
frame of the vector. -/
theorem C121_vector_tensor_violated :
    let p : List (Stmt 2 ℚ) := [.fresh (.vec ![1, 2]), .fresh (.ten2 !![1, 0; 0, 1]), .dot 0 1, .show 2]
    let q : List (Stmt 2 ℚ) := [.fresh (.vec ![1, 2]), .fresh (.ten2 !![1, 0; 0, 1]),
      .frames (.setFrameArray 0 !![2, 0; 0, 2]), .dot 0 1, .show 2]
    p.filter Computes = q.filter Computes ∧
      firstOf (run exactCfg p ⟨emptyHeap, []⟩).log[3]? = some 1 ∧
      firstOf (run exactCfg q ⟨emptyHeap, []⟩).log[3]? = some 4 := by
  refine ⟨rfl, by decide +kernel, by decide +kernel⟩

end Verif.TProg.Props
