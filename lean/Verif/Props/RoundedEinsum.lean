import Verif.Proofs.RoundedEinsum
import Verif.Props.EinsumPath
import Mathlib.Algebra.BigOperators.Fin
import Verif.Proofs.Rounding

/-!
# Transformed components with rounded arithmetic (C131)

The components are accurate, whatever order of contractions was kept and in whatever order the products of a
step are evaluated.  The last digits do depend on what was transformed before.
-/

set_option linter.unusedSectionVars false

namespace Verif.Frames.Props
open Verif Verif.Frames Verif.Rnd Verif.RFrames

section
variable {n : ℕ} {K : Type} [Field K] [LinearOrder K] [IsStrictOrderedRing K] {fl : K → K}

/-- Arrays with roundings, without, and of bounds. -/
def NearArr (u : K) (m : ℕ) (B X Y : Arr n K) : Prop :=
  ∃ (r : ℕ) (b x y : (Fin r → Fin n) → K), B = ⟨r, b⟩ ∧ X = ⟨r, x⟩ ∧ Y = ⟨r, y⟩ ∧
    ∀ t, Near u m (b t) (x t) (y t)

/-- A step with up to `M` operands that sums over up to `G` letters evaluates every product once, with every
operand once, and has no more than `h` roundings on the way to the result. -/
def Within (scheme : Scheme n) (M G h : ℕ) : Prop :=
  ∀ m keep gone t, 1 ≤ m → m ≤ M → gone.length ≤ G →
    (scheme m keep gone t).Whole m ∧ (scheme m keep gone t).height ≤ h

variable [NeZero n]

theorem run_quads {u : K} (hfl : Precise fl u) (scheme : ℕ → Scheme n) (M G h : ℕ)
    (hs : ∀ k, Within (scheme k) M G h) (out L : List ℕ)
    (hL : ((List.range 26).filter fun l => l ∈ L && !decide (l ∈ out)).length ≤ G) (path : List (List ℕ)) (k : ℕ)
    (qs : List (Quad n K)) (hq : ∀ q ∈ qs, q.Good u) (hl : ∀ q ∈ qs, ∀ l ∈ q.letters, l ∈ L)
    (hc : Complete path qs.length) (hM : qs.length ≤ M) :
    ∃ B X Y, contractAllR fl scheme out k path (qs.map Quad.rounded) = .ok X ∧
      contractAll out path (qs.map Quad.exact) = .ok Y ∧ contractAll out path (qs.map Quad.bound) = .ok B ∧
      NearArr u (h * path.length + (qs.map Quad.k).sum) B X Y := by
  induction path generalizing k qs with
  | nil =>
    obtain ⟨q, rfl⟩ := List.length_eq_one_iff.1 (show qs.length = 1 from hc)
    refine ⟨_, _, _, rfl, rfl, rfl, _, _, _, _, rfl, rfl, rfl, fun t => ?_⟩
    have h1 : Near u q.k (q.b t) (q.x t) (q.y t) := hq q List.mem_cons_self t
    have h3 : h * ([] : List (List ℕ)).length + ([q].map Quad.k).sum = q.k := by simp
    rw [h3]
    exact h1
  | cons ps path ih =>
    obtain ⟨hps, hd, hlt, hc⟩ := hc
    have hperm := taken_left_perm ps qs
    have hlenT := length_taken ps hd qs hlt
    have hlenC := hperm.length_eq
    rw [List.length_append, hlenT] at hlenC
    have hpos : 1 ≤ ps.length := List.length_pos_iff.2 hps
    have hlen : (stepQuad fl (scheme k) h out ps qs).length = qs.length - ps.length + 1 := by
      show (left ps qs ++ [_]).length = _
      rw [List.length_append, List.length_singleton]
      omega
    have hmem : ∀ q, q ∈ taken ps qs ∨ q ∈ left ps qs → q ∈ qs := fun q hq =>
      hperm.mem_iff.1 (List.mem_append.2 hq)
    have hgone : ((List.range 26).filter fun l => l ∈ (taken ps qs).flatMap Quad.letters &&
        !(l ∈ (left ps qs).flatMap Quad.letters || l ∈ out)).length ≤ G := by
      refine le_trans (List.Sublist.length_le (List.monotone_filter_right _ fun l hl' => ?_)) hL
      simp only [Bool.and_eq_true, Bool.not_eq_true', Bool.or_eq_false_iff, decide_eq_true_eq,
        decide_eq_false_iff_not, List.mem_flatMap] at hl' ⊢
      obtain ⟨⟨q, h1, h2⟩, -, h3⟩ := hl'
      exact ⟨hl q (hmem q (.inl h1)) l h2, h3⟩
    have hgood : ∀ q ∈ stepQuad fl (scheme k) h out ps qs, q.Good u := by
      intro q hq'
      rcases List.mem_append.1 hq' with h1 | h1
      · exact hq q (hmem q (.inr h1))
      · rw [List.mem_singleton.1 h1]
        refine contractQuad_good hfl _ _ _ _ _ (fun q h1 => hq q (hmem q (.inl h1))) (fun t => ?_) fun t => ?_
        · exact (hs k (taken ps qs).length _ _ t (by omega) (by omega) hgone).1
        · exact (hs k (taken ps qs).length _ _ t (by omega) (by omega) hgone).2
    have hlet : ∀ q ∈ stepQuad fl (scheme k) h out ps qs, ∀ l ∈ q.letters, l ∈ L := by
      intro q hq' l hl'
      rcases List.mem_append.1 hq' with h1 | h1
      · exact hl q (hmem q (.inr h1)) l hl'
      · rw [List.mem_singleton.1 h1] at hl'
        have hl' : l ∈ (List.range 26).filter fun l => l ∈ (taken ps qs).flatMap Quad.letters &&
          (l ∈ (left ps qs).flatMap Quad.letters || l ∈ out) := hl'
        rw [List.mem_filter] at hl'
        simp only [Bool.and_eq_true, decide_eq_true_eq, List.mem_flatMap] at hl'
        obtain ⟨-, ⟨q, h1, h2⟩, -⟩ := hl'
        exact hl q (hmem q (.inl h1)) l h2
    have hk : ((stepQuad fl (scheme k) h out ps qs).map Quad.k).sum = h + (qs.map Quad.k).sum := by
      rw [← (hperm.map Quad.k).sum_eq]
      show ((left ps qs ++ [_]).map Quad.k).sum = _
      simp only [List.map_append, List.sum_append, List.map_cons, List.map_nil, List.sum_cons, List.sum_nil]
      show _ + (h + ((taken ps qs).map Quad.k).sum + 0) = _
      omega
    obtain ⟨B, X, Y, e1, e2, e3, hn⟩ := ih (k + 1) (stepQuad fl (scheme k) h out ps qs) hgood hlet
      (by rw [hlen]; exact hc) (by omega)
    refine ⟨B, X, Y, ?_, ?_, ?_, ?_⟩
    · show (if _ then _ else _) = _
      rw [if_pos (by simpa [List.all_eq_true] using hlt), stepQuad_rounded (scheme k) h, e1]
    · show (if _ then _ else _) = _
      rw [if_pos (by simpa [List.all_eq_true] using hlt), stepQuad_exact (fl := fl) (scheme k) h, e2]
    · show (if _ then _ else _) = _
      rw [if_pos (by simpa [List.all_eq_true] using hlt), stepQuad_bound (fl := fl) (scheme k) h, e3]
    · rw [hk] at hn
      have : h * path.length + (h + (qs.map Quad.k).sum) = h * (ps :: path).length + (qs.map Quad.k).sum := by
        rw [List.length_cons, Nat.mul_succ]
        omega
      rwa [this] at hn

/-- The operand with the absolute values. -/
def absOp (o : EinsumOp n K) : EinsumOp n K := ⟨o.letters, fun t => |o.arr t|⟩

/-- The letters that occur more than once. -/
def repeated (ops : List (EinsumOp n K)) : List ℕ :=
  (List.range 26).filter fun l => 1 < (ops.flatMap EinsumOp.letters).count l

/-- C131: `numpy.einsum` with roundings, any operands, any order of the contractions and any order within a step:
every entry is accurate relative to the sum of the absolute values of its products. -/
theorem C131_einsum {u : K} (hfl : Precise fl u) (scheme : ℕ → Scheme n) (ops : List (EinsumOp n K)) (h : ℕ)
    (h2 : 2 ≤ ops.length) (hs : ∀ k, Within (scheme k) ops.length (repeated ops).length h)
    (path : List (List ℕ)) (hc : Complete path ops.length) (r : ℕ) (y b : (Fin r → Fin n) → K)
    (hy : einsum ops = .ok ⟨r, y⟩) (hb : einsum (ops.map absOp) = .ok ⟨r, b⟩) :
    ∃ x, einsumPathR fl scheme path ops = .ok ⟨r, x⟩ ∧
      ∀ t, |x t - y t| ≤ ((1 + u) ^ (h * path.length) - 1) * b t := by
  rw [← C130_order ops h2 path hc] at hy
  rw [← C130_order (ops.map absOp) (by rw [List.length_map]; exact h2) path (by rw [List.length_map]; exact hc)]
    at hb
  have habs : lettersOf (ops.map absOp) = lettersOf ops := by
    unfold lettersOf
    rw [List.flatMap_map]
    rfl
  have h26 : (lettersOf ops).all (· < 26) = true := by
    by_contra hn
    unfold einsumPath at hy
    rw [if_neg hn] at hy
    cases hy
  obtain ⟨qs, hqs⟩ : ∃ qs : List (Quad n K), qs = ops.map fun o => ⟨o.letters, o.arr, o.arr, fun t => |o.arr t|, 0⟩ :=
    ⟨_, rfl⟩
  have m1 : qs.map Quad.rounded = ops := by rw [hqs, List.map_map]; exact List.map_id' _
  have m2 : qs.map Quad.exact = ops := by rw [hqs, List.map_map]; exact List.map_id' _
  have m3 : qs.map Quad.bound = ops.map absOp := by rw [hqs, List.map_map]; rfl
  have m4 : (qs.map Quad.k).sum = 0 := by
    rw [hqs, List.map_map]
    exact List.sum_eq_zero fun k hk => by
      obtain ⟨o, -, rfl⟩ := List.mem_map.1 hk
      rfl
  have hlen : qs.length = ops.length := by rw [hqs, List.length_map]
  have hL : ((List.range 26).filter fun l => l ∈ lettersOf ops &&
      !decide (l ∈ (List.range 26).filter fun l => (lettersOf ops).count l == 1)).length ≤
      (repeated ops).length := by
    refine List.Sublist.length_le (List.monotone_filter_right _ fun l hl => ?_)
    simp only [Bool.and_eq_true, Bool.not_eq_true', decide_eq_true_eq, decide_eq_false_iff_not, List.mem_filter,
      List.mem_range, beq_iff_eq, not_and] at hl
    have h1 := List.count_pos_iff.2 hl.1
    have h3 := hl.2 (by simpa using (List.all_eq_true.1 h26) l hl.1)
    show decide (1 < (lettersOf ops).count l) = true
    rw [decide_eq_true_eq]
    omega
  obtain ⟨B, X, Y, e1, e2, e3, hn⟩ := run_quads hfl scheme ops.length (repeated ops).length h hs
    ((List.range 26).filter fun l => (lettersOf ops).count l == 1) (lettersOf ops) hL path 0 qs
    (fun q hq t => by
      rw [hqs] at hq
      obtain ⟨o, -, rfl⟩ := List.mem_map.1 hq
      exact Near.refl u _)
    (fun q hq l hl => by
      rw [hqs] at hq
      obtain ⟨o, ho, rfl⟩ := List.mem_map.1 hq
      exact List.mem_flatMap.2 ⟨o, ho, hl⟩) (by rw [hlen]; exact hc) hlen.le
  rw [m1] at e1
  rw [m2] at e2
  rw [m3] at e3
  rw [m4, add_zero] at hn
  unfold einsumPath at hy hb
  rw [if_pos h26, e2] at hy
  rw [habs, if_pos h26, e3] at hb
  unfold einsumPathR
  rw [if_pos h26, e1]
  obtain ⟨r', b', x, y', rfl, rfl, rfl, hnear⟩ := hn
  cases hy
  cases hb
  exact ⟨x, rfl, fun t => (hnear t).1⟩

/-- An order in which every step takes two operands at least. -/
def Proper (path : List (List ℕ)) (k : ℕ) : Prop := Complete path k ∧ ∀ ps ∈ path, 2 ≤ ps.length

theorem proper_length (path : List (List ℕ)) (k : ℕ) (h : Proper path (k + 1)) : path.length ≤ k := by
  obtain ⟨hc, h2⟩ := h
  induction path generalizing k with
  | nil => exact Nat.zero_le _
  | cons ps path ih =>
    obtain ⟨-, hd, hlt, hc⟩ := hc
    have h2' := h2 ps List.mem_cons_self
    have hle : ps.length ≤ k + 1 := by
      have := (List.Nodup.subperm hd (l₂ := List.range (k + 1)) fun p hp => List.mem_range.2 (hlt p hp)).length_le
      rwa [List.length_range] at this
    have := ih (k + 1 - ps.length) hc fun qs hq => h2 qs (List.mem_cons_of_mem _ hq)
    rw [List.length_cons]
    omega

theorem repeated_transform (Q : Mat n K) (r : ℕ) (a : (Fin r → Fin n) → K) :
    (repeated (transformOperands Q r a)).length ≤ r := by
  have hsub : (repeated (transformOperands Q r a)).Subperm (List.range' r r) := by
    refine List.Nodup.subperm (List.nodup_range.filter _) fun l hl => ?_
    unfold repeated at hl
    rw [List.mem_filter, decide_eq_true_eq] at hl
    have hl := hl.2
    rw [List.mem_range'_1]
    by_contra hcon
    have key : ∀ ks : List ℕ, ks.Nodup → (∀ k ∈ ks, k < r) →
        ((ks.map fun k => (⟨[k, r + k], fun t => Q (t 0) (t 1)⟩ : EinsumOp n K)).flatMap
          EinsumOp.letters).count l ≤ ks.count l := by
      intro ks hd hk
      induction ks with
      | nil => simp
      | cons k ks ih =>
        have h1 := ih (List.nodup_cons.1 hd).2 fun k hk' => hk k (List.mem_cons_of_mem _ hk')
        have h3 := hk k List.mem_cons_self
        rw [List.map_cons, List.flatMap_cons, List.count_append, List.count_cons (l := ks)]
        have h4 : r + k ≠ l := by omega
        have : ([k, r + k] : List ℕ).count l = if k == l then 1 else 0 := by
          rw [List.count_cons, List.count_cons, List.count_nil]
          simp [h4]
        show ([k, r + k] : List ℕ).count l + _ ≤ _
        rw [this]
        omega
    have h1 := key (List.range r) List.nodup_range fun k hk => List.mem_range.1 hk
    have h3 : (List.range' r r).count l = 0 := List.count_eq_zero.2 fun hm => hcon (List.mem_range'_1.1 hm)
    have h4 : (List.range r).count l ≤ 1 := List.nodup_iff_count_le_one.1 List.nodup_range l
    unfold transformOperands at hl
    rw [List.flatMap_append, List.count_append] at hl
    simp only [List.flatMap_cons, List.flatMap_nil, List.append_nil, h3] at hl
    omega
  simpa using hsub.length_le

theorem transform_near {u : K} (hfl : Precise fl u) (scheme : ℕ → Scheme n) (Q : Mat n K) (r h : ℕ) (hr : 1 ≤ r)
    (h13 : r ≤ 13) (a : (Fin r → Fin n) → K) (hs : ∀ k, Within (scheme k) (r + 1) r h) (path : List (List ℕ))
    (hp : Proper path (r + 1)) :
    ∃ x, runCommandR fl scheme (transformCommand r) path
        (List.replicate r ⟨2, fun t => Q (t 0) (t 1)⟩ ++ [(⟨r, a⟩ : Arr n K)]) = .ok ⟨r, x⟩ ∧
      ∀ t, |x t - ∑ s : Fin r → Fin n, (∏ k, Q (t k) (s k)) * a s| ≤
        ((1 + u) ^ (h * r) - 1) * ∑ s : Fin r → Fin n, (∏ k, |Q (t k) (s k)|) * |a s| := by
  have hlen : (transformOperands Q r a).length = r + 1 := by simp [transformOperands]
  have habs : (transformOperands Q r a).map absOp = transformOperands (fun i j => |Q i j|) r fun s => |a s| := by
    unfold transformOperands
    rw [List.map_append, List.map_map]
    rfl
  obtain ⟨x, e, hx⟩ := C131_einsum hfl scheme (transformOperands Q r a) h (by omega)
    (fun k m keep gone t h1 h2 h3 => hs k m keep gone t h1 (by omega) (h3.trans (repeated_transform Q r a)))
    path (by rw [hlen]; exact hp.1) r _ _ (transformLetters_ok Q r a h13)
    (by rw [habs]; exact transformLetters_ok _ r _ h13)
  unfold runCommandR
  rw [withLetters_transform]
  refine ⟨x, e, fun t => (hx t).trans (mul_le_mul_of_nonneg_right ?_ ?_)⟩
  · have := pow_le_pow_right₀ (show 1 ≤ 1 + u by linarith [hfl.nonneg])
      (Nat.mul_le_mul_left h (proper_length path r hp))
    linarith
  · exact Finset.sum_nonneg fun s _ => mul_nonneg (Finset.prod_nonneg fun k _ => abs_nonneg _) (abs_nonneg _)

/-- What the outcome of a call is with roundings: the components with one factor of the matrix for each index, if
there are up to thirteen of them, up to `h` roundings for each index; otherwise the call is refused. -/
def Accurate (u : K) (h : ℕ) (c : TransformCall K) (o : Outcome K) : Prop :=
  if c.a.1 ≤ 13 then
    ∃ x, o = ⟨c.dim, .ok ⟨c.a.1, x⟩⟩ ∧
      ∀ t, |x t - ∑ s : Fin c.a.1 → Fin c.dim, (∏ k, c.Q (t k) (s k)) * c.a.2 s| ≤
        ((1 + u) ^ (h * c.a.1) - 1) * ∑ s : Fin c.a.1 → Fin c.dim, (∏ k, |c.Q (t k) (s k)|) * |c.a.2 s|
  else o = ⟨c.dim, .error .value⟩

/-- What the attribute holds, with orders that take two operands at least in each step. -/
def KeptProper (params : EinsumParams) : Prop :=
  ∀ r command path, params r = some (command, path) →
    command = transformCommand r ∧ Proper path (r + 1) ∧ r ≤ 13

theorem kept_step_near {u : K} (hfl : Precise fl u) (greedy : List (List ℕ) → ℕ → List (List ℕ))
    (hg : ∀ command d, 2 ≤ command.length → Proper (greedy command d) command.length) (h : ℕ)
    (scheme : ℕ → Scheme n) (Q : Mat n K) (r : ℕ) (hs : ∀ k, Within (scheme k) (r + 1) r h)
    (a : (Fin r → Fin n) → K) (hr : 1 ≤ r) (params : EinsumParams) (hk : KeptProper params) :
    Accurate u h ⟨n, inferInstance, Q, ⟨r, a⟩⟩ ⟨n, (transformKeptR fl greedy scheme Q ⟨r, a⟩ params).1⟩ ∧
      KeptProper (transformKeptR fl greedy scheme Q ⟨r, a⟩ params).2 := by
  unfold transformKeptR Accurate
  simp only
  cases hp : params r with
  | some cp =>
    obtain ⟨command, path⟩ := cp
    obtain ⟨rfl, hc, h13⟩ := hk r command path hp
    simp only
    rw [if_pos h13]
    obtain ⟨x, e, hx⟩ := transform_near hfl scheme Q r h hr h13 a hs path hc
    exact ⟨⟨x, by rw [e], hx⟩, hk⟩
  | none =>
    simp only
    by_cases h13 : r ≤ 13
    · rw [if_pos ((command_letters r hr).2 h13), if_pos h13]
      have hlen : (transformCommand r).length = r + 1 := by simp [transformCommand]
      have hc := hg (transformCommand r) n (by omega)
      rw [hlen] at hc
      obtain ⟨x, e, hx⟩ := transform_near hfl scheme Q r h hr h13 a hs _ hc
      refine ⟨⟨x, by rw [e], hx⟩, fun r' command path h => ?_⟩
      change Function.update params r (some (transformCommand r, greedy (transformCommand r) n)) r' = _ at h
      by_cases he : r' = r
      · subst he
        rw [Function.update_self] at h
        cases h
        exact ⟨rfl, hc, h13⟩
      · rw [Function.update_of_ne he] at h
        exact hk r' command path h
    · rw [if_neg (fun h => h13 ((command_letters r hr).1 h)), if_neg h13]
      exact ⟨rfl, hk⟩

/-- C131: whatever was transformed before, of whatever dimension and with however many indices, and whatever
orders of contractions were found, every call gives accurate components. -/
theorem C131_history {u : K} (hfl : Precise fl u) (greedy : List (List ℕ) → ℕ → List (List ℕ))
    (hg : ∀ command d, 2 ≤ command.length → Proper (greedy command d) command.length) (h : ℕ → ℕ → ℕ)
    (scheme : (n : ℕ) → ℕ → Scheme n) (hs : ∀ n r k, Within (scheme n k) (r + 1) r (h n r))
    (calls : List (TransformCall K)) (hr : ∀ c ∈ calls, 1 ≤ c.a.1) :
    List.Forall₂ (fun c o => Accurate u (h c.dim c.a.1) c o) calls
      (transformManyR fl greedy scheme calls fun _ => none).1 := by
  have key : ∀ params, KeptProper params → List.Forall₂ (fun c o => Accurate u (h c.dim c.a.1) c o) calls
      (transformManyR fl greedy scheme calls params).1 := by
    induction calls with
    | nil => intro params _; exact .nil
    | cons c cs ih =>
      intro params hk
      have := c.pos
      obtain ⟨h1, h2⟩ := kept_step_near hfl greedy hg (h c.dim c.a.1) (scheme c.dim) c.Q c.a.1
        (hs c.dim c.a.1) c.a.2 (hr c List.mem_cons_self) params hk
      exact .cons h1 (ih (fun c hc => hr c (List.mem_cons_of_mem _ hc)) _ h2)
  exact key _ fun r command path h => by cases h

theorem forall₂_getLast {α β : Type} {R : α → β → Prop} {as : List α} {a : α} {bs : List β}
    (h : List.Forall₂ R (as ++ [a]) bs) : ∃ b, bs.getLast? = some b ∧ R a b := by
  induction as generalizing bs with
  | nil =>
    cases h with
    | cons h1 h2 => cases h2; exact ⟨_, rfl, h1⟩
  | cons x xs ih =>
    cases h with
    | cons h1 h2 =>
      obtain ⟨b, e, hb⟩ := ih h2
      refine ⟨b, ?_, hb⟩
      rw [List.getLast?_cons, e]
      rfl

/-- C131: so what a call gives after two histories differs by roundings only. -/
theorem C131_independent {u : K} (hfl : Precise fl u) (greedy greedy' : List (List ℕ) → ℕ → List (List ℕ))
    (hg : ∀ command d, 2 ≤ command.length → Proper (greedy command d) command.length)
    (hg' : ∀ command d, 2 ≤ command.length → Proper (greedy' command d) command.length) (h : ℕ → ℕ → ℕ)
    (scheme scheme' : (n : ℕ) → ℕ → Scheme n) (hs : ∀ n r k, Within (scheme n k) (r + 1) r (h n r))
    (hs' : ∀ n r k, Within (scheme' n k) (r + 1) r (h n r)) (before before' : List (TransformCall K))
    (c : TransformCall K) (hb : ∀ c ∈ before, 1 ≤ c.a.1) (hb' : ∀ c ∈ before', 1 ≤ c.a.1) (hc : 1 ≤ c.a.1)
    (h13 : c.a.1 ≤ 13) :
    ∃ x x' : (Fin c.a.1 → Fin c.dim) → K,
      (transformManyR fl greedy scheme (before ++ [c]) fun _ => none).1.getLast? =
        some ⟨c.dim, .ok ⟨c.a.1, x⟩⟩ ∧
      (transformManyR fl greedy' scheme' (before' ++ [c]) fun _ => none).1.getLast? =
        some ⟨c.dim, .ok ⟨c.a.1, x'⟩⟩ ∧
      ∀ t, |x t - x' t| ≤ 2 * (((1 + u) ^ (h c.dim c.a.1 * c.a.1) - 1) *
        ∑ s : Fin c.a.1 → Fin c.dim, (∏ k, |c.Q (t k) (s k)|) * |c.a.2 s|) := by
  obtain ⟨o, e, ho⟩ := forall₂_getLast (C131_history hfl greedy hg h scheme hs (before ++ [c])
    (by simpa [or_imp, forall_and] using ⟨hb, hc⟩))
  obtain ⟨o', e', ho'⟩ := forall₂_getLast (C131_history hfl greedy' hg' h scheme' hs' (before' ++ [c])
    (by simpa [or_imp, forall_and] using ⟨hb', hc⟩))
  unfold Accurate at ho ho'
  rw [if_pos h13] at ho ho'
  obtain ⟨x, rfl, hx⟩ := ho
  obtain ⟨x', rfl, hx'⟩ := ho'
  refine ⟨x, x', e, e', fun t => ?_⟩
  have h1 := hx t
  have h2 := hx' t
  rw [abs_sub_comm] at h2
  have h3 := abs_sub_le (x t) (∑ s : Fin c.a.1 → Fin c.dim, (∏ k, c.Q (t k) (s k)) * c.a.2 s) (x' t)
  linarith

end

/-! ### A way to evaluate -/

/-- The factors one after the other. -/
def factorsInOrder : ℕ → ProdPlan
  | 0 => .one 0
  | m + 1 => .mul (factorsInOrder m) (.one (m + 1))

/-- The products one after the other. -/
def productsInOrder {σ : Type} (m : ℕ) : List σ → SumPlan σ
  | [] => .zero
  | s :: ss => .add (productsInOrder m ss) (.term s (factorsInOrder (m - 1)))

/-- One after the other. -/
def inOrder (n : ℕ) : Scheme n := fun m _ gone _ =>
  productsInOrder m ((List.finRange (n ^ gone.length)).map finFunctionFinEquiv.symm)

theorem factorsInOrder_spec (m : ℕ) : (factorsInOrder m).factors = List.range (m + 1) ∧ (factorsInOrder m).muls = m := by
  induction m with
  | zero => exact ⟨rfl, rfl⟩
  | succ m ih =>
    refine ⟨?_, ?_⟩
    · rw [List.range_succ, ← ih.1]
      rfl
    · show _ + 0 + 1 = _
      rw [ih.2]

theorem productsInOrder_spec {σ : Type} (m : ℕ) (hm : 1 ≤ m) (ss : List σ) :
    (productsInOrder m ss).terms.map Prod.fst = ss.reverse ∧
      (∀ t ∈ (productsInOrder m ss).terms, t.2 = List.range m) ∧
      (productsInOrder m ss).height ≤ ss.length + m := by
  have hf := factorsInOrder_spec (m - 1)
  rw [Nat.sub_add_cancel hm] at hf
  induction ss with
  | nil => exact ⟨rfl, (fun t ht => by cases ht), Nat.zero_le _⟩
  | cons s ss ih =>
    obtain ⟨h1, h2, h3⟩ := ih
    refine ⟨?_, fun t ht => ?_, ?_⟩
    · show ((productsInOrder m ss).terms ++ [(s, _)]).map Prod.fst = _
      rw [List.map_append, h1, List.reverse_cons]
      rfl
    · rcases List.mem_append.1 (show t ∈ (productsInOrder m ss).terms ++ [(s, _)] from ht) with h | h
      · exact h2 t h
      · rw [List.mem_singleton.1 h]
        exact hf.1
    · show max (productsInOrder m ss).height (factorsInOrder (m - 1)).muls + 1 ≤ _
      rw [hf.2, List.length_cons]
      omega

theorem inOrder_within (n r : ℕ) : Within (inOrder n) (r + 1) r ((n + 1) ^ r + (r + 1)) := by
  intro m keep gone t h1 h2 h3
  obtain ⟨e1, e2, e3⟩ := productsInOrder_spec m h1
    ((List.finRange (n ^ gone.length)).map (finFunctionFinEquiv (m := n) (n := gone.length)).symm)
  refine ⟨⟨?_, fun s => ?_, fun t ht => ?_⟩, e3.trans ?_⟩
  · show ((productsInOrder m _).terms.map Prod.fst).Nodup
    rw [e1, List.nodup_reverse]
    exact (List.nodup_finRange _).map (Equiv.injective _)
  · show s ∈ (productsInOrder m _).terms.map Prod.fst
    rw [e1, List.mem_reverse, List.mem_map]
    exact ⟨finFunctionFinEquiv s, List.mem_finRange _, Equiv.symm_apply_apply _ _⟩
  · rw [e2 t ht]
  · rw [List.length_map, List.length_finRange]
    have : n ^ gone.length ≤ (n + 1) ^ r :=
      (Nat.pow_le_pow_left (Nat.le_succ n) _).trans (Nat.pow_le_pow_right (Nat.succ_pos n) h3)
    omega

/-- Orders that depend on the dimension, as they may do in `numpy`: for two indices the matrices first if the
dimension is two, otherwise the tensor first. -/
def someOrder (command : List (List ℕ)) (d : ℕ) : List (List ℕ) :=
  if command.length = 3 then if d = 2 then [[0, 1], [0, 1]] else [[0, 2], [0, 1]]
  else [List.range command.length]

theorem someOrder_proper (command : List (List ℕ)) (d : ℕ) (h : 2 ≤ command.length) :
    Proper (someOrder command d) command.length := by
  unfold someOrder
  split
  · rename_i h3
    rw [h3]
    split <;> simp [Proper, Complete]
  · refine ⟨⟨?_, List.nodup_range, fun p hp => List.mem_range.1 hp, ?_⟩, fun ps hps => ?_⟩
    · intro h0
      have := congrArg List.length h0
      simp at this
      simp [this] at h
    · show command.length - (List.range command.length).length + 1 = 1
      rw [List.length_range, Nat.sub_self]
    · rw [List.mem_singleton.1 hps, List.length_range]
      exact h

/-- The component of a tensor of dimension one. -/
def only : Option (Outcome ℚ) → Option ℚ
  | some ⟨1, .ok ⟨_, x⟩⟩ => some (x fun _ => 0)
  | _ => none

/-- C131: with double precision numbers the last digits depend on what was transformed before: on a tensor of
another dimension with as many indices. -/
theorem C131_history_matters : ∃ (greedy : List (List ℕ) → ℕ → List (List ℕ)) (h : ℕ → ℕ → ℕ)
    (scheme : (n : ℕ) → ℕ → Scheme n) (before c : TransformCall ℚ),
    (∀ command d, 2 ≤ command.length → Proper (greedy command d) command.length) ∧
      (∀ n r k, Within (scheme n k) (r + 1) r (h n r)) ∧
      only (transformManyR (Rnd.binary 53) greedy scheme [c] fun _ => none).1.getLast? ≠ none ∧
      only (transformManyR (Rnd.binary 53) greedy scheme [before, c] fun _ => none).1.getLast? ≠
        only (transformManyR (Rnd.binary 53) greedy scheme [c] fun _ => none).1.getLast? := by
  refine ⟨someOrder, fun n r => (n + 1) ^ r + (r + 1), fun n _ => inOrder n,
    ⟨2, ⟨two_ne_zero⟩, fun _ _ => 0, ⟨2, fun _ => 0⟩⟩, ⟨1, ⟨one_ne_zero⟩, fun _ _ => 900274154, ⟨2, fun _ => 492028⟩⟩,
    someOrder_proper, fun n r _ => inOrder_within n r, ?_, ?_⟩
  · decide +kernel
  · decide +kernel

/-- Double precision numbers are precise; what a call needs is there. -/
example : Precise (Rnd.binary 53) ((1 : ℚ) / 2 ^ 53) ∧ Proper [[0, 1], [0, 2], [0, 1]] 4 := by
  refine ⟨Rnd.binary_precise 53 (by norm_num), ?_⟩
  simp [Proper, Complete]

end Verif.Frames.Props
