import Verif.Proofs.EinsumPath

/-!
# The order of the contractions (C130)

`Tensor.transform_components` keeps the order of the contractions from the first call for a number of indices.
Neither the order nor who came first changes the components.
-/

set_option linter.unusedSectionVars false

namespace Verif.Frames.Props
open Verif Verif.Frames

section
variable {n : ℕ} {K : Type} [Field K] [LinearOrder K] [NeZero n]

/-- An order of contractions for `k` operands: every step takes some of the operands at hand, a single one is
left in the end. -/
def Complete : List (List ℕ) → ℕ → Prop
  | [], k => k = 1
  | ps :: path, k => ps ≠ [] ∧ ps.Nodup ∧ (∀ p ∈ ps, p < k) ∧ Complete path (k - ps.length + 1)

theorem contractAll_spec (out : List ℕ) (ho : out.Pairwise (· < ·)) (path : List (List ℕ)) (hne : path ≠ [])
    (ops : List (EinsumOp n K)) (h26 : ∀ l ∈ lettersOf ops, l < 26) (hin : ∀ l ∈ out, l ∈ lettersOf ops)
    (hc : Complete path ops.length) :
    ∃ x : (Fin out.length → Fin n) → K, contractAll out path ops = .ok ⟨out.length, x⟩ ∧
      ∀ e : ℕ → Fin n, x (fun k => e (out.get k)) = sumL (innerOf out ops) (prodVal ops) e := by
  induction path generalizing ops with
  | nil => exact absurd rfl hne
  | cons ps path ih =>
    obtain ⟨hps, hd, hlt, hc⟩ := hc
    have hstep := fun e => (contractStep_sum out ps ops h26 e).1
    obtain ⟨-, hs1, hs2⟩ := contractStep_sum out ps ops h26 (fun _ => 0)
    have hlen := length_contractStep out ps hd ops hlt
    rw [← hlen] at hc
    have hrun : contractAll out (ps :: path) ops = contractAll out path (contractStep out ps ops) := by
      show (if _ then _ else _) = _
      rw [if_pos (by simpa [List.all_eq_true] using hlt)]
    rw [hrun]
    cases path with
    | cons qs path =>
      obtain ⟨x, h1, h2⟩ := ih (List.cons_ne_nil _ _) (contractStep out ps ops)
        (fun l hl => h26 l (hs1 l hl)) (fun l hl => hs2 l (hin l hl) hl) hc
      exact ⟨x, h1, fun e => (h2 e).trans (hstep e)⟩
    | nil =>
      have hone : (contractStep out ps ops).length = 1 := hc
      have hR : left ps ops = [] := by
        have : (left ps ops ++ [contractTo ((List.range 26).filter fun l => l ∈ lettersOf (taken ps ops) &&
          (l ∈ lettersOf (left ps ops) || l ∈ out)) ((List.range 26).filter fun l =>
            l ∈ lettersOf (taken ps ops) && !(l ∈ lettersOf (left ps ops) || l ∈ out)) (taken ps ops)]).length =
            1 := hone
        rw [List.length_append, List.length_singleton] at this
        exact List.length_eq_zero_iff.1 (by omega)
      have hT : (taken ps ops).Perm ops := by
        have := taken_left_perm ps ops
        rwa [hR, List.append_nil] at this
      have hkeep : ((List.range 26).filter fun l => l ∈ lettersOf (taken ps ops) &&
          (l ∈ lettersOf (left ps ops) || l ∈ out)) = out := by
        refine List.Pairwise.eq_of_mem_iff (r := (· < ·)) (List.pairwise_lt_range.filter _) ho fun l => ?_
        rw [List.mem_filter, List.mem_range, hR]
        simp only [lettersOf, List.flatMap_nil, List.not_mem_nil, decide_false, Bool.false_or, Bool.and_eq_true,
          decide_eq_true_eq (p := _ ∈ out)]
        refine ⟨fun h => h.2.2, fun h => ⟨h26 l (hin l h), ?_, h⟩⟩
        exact decide_eq_true ((mem_lettersOf_perm hT l).2 (hin l h))
      have hform : ∃ gone, contractStep out ps ops = [contractTo out gone (taken ps ops)] := by
        refine ⟨(List.range 26).filter fun l =>
          l ∈ lettersOf (taken ps ops) && !(l ∈ lettersOf (left ps ops) || l ∈ out), ?_⟩
        unfold contractStep
        simp only
        rw [hkeep, hR]
        rfl
      obtain ⟨gone, hform⟩ := hform
      have hinner : innerOf out (contractStep out ps ops) = [] := by
        unfold innerOf
        rw [List.filter_eq_nil_iff]
        intro l _
        rw [hform]
        simp [lettersOf, contractTo]
      refine ⟨(contractTo out gone (taken ps ops)).arr, by rw [hform]; rfl, fun e => ?_⟩
      rw [← hstep e, hinner, hform]
      simp only [sumL, prodVal, List.map_cons, List.map_nil, List.prod_cons, List.prod_nil, mul_one]
      rfl

theorem einsum_spec (ops : List (EinsumOp n K)) (h26 : ∀ l ∈ lettersOf ops, l < 26) (out : List ℕ)
    (hout : out = (List.range 26).filter fun l => (lettersOf ops).count l == 1) :
    ∃ x : (Fin out.length → Fin n) → K, einsum ops = .ok ⟨out.length, x⟩ ∧
      ∀ e : ℕ → Fin n, x (fun k => e (out.get k)) = sumL (innerOf out ops) (prodVal ops) e := by
  have mo : ∀ l, l ∈ out ↔ (lettersOf ops).count l = 1 := fun l => by
    rw [hout, List.mem_filter, List.mem_range, beq_iff_eq]
    exact ⟨fun h => h.2, fun h => ⟨h26 l (List.count_pos_iff.1 (by omega)), h⟩⟩
  have mi : ∀ l, l ∈ innerOf out ops ↔ 1 < (lettersOf ops).count l := fun l => by
    unfold innerOf
    rw [List.mem_filter, List.mem_range]
    simp only [Bool.and_eq_true, Bool.not_eq_true', decide_eq_true_eq, decide_eq_false_iff_not, mo]
    constructor
    · rintro ⟨-, h1, h2⟩
      have := List.count_pos_iff.2 h1
      omega
    · intro h
      have h1 := List.count_pos_iff.1 (Nat.lt_of_lt_of_le Nat.zero_lt_one h.le)
      exact ⟨h26 l h1, h1, by omega⟩
  have hsort : out.Pairwise (· < ·) := hout ▸ List.pairwise_lt_range.filter _
  refine ⟨(contractTo out (innerOf out ops) ops).arr,
    einsum_eq ops out (innerOf out ops) hsort (List.pairwise_lt_range.filter _) mo mi h26, fun e => ?_⟩
  exact contractTo_val out (innerOf out ops) (hsort.imp (fun h => Nat.ne_of_lt h)) (List.nodup_range.filter _)
    (fun l h1 h2 => by rw [mi] at h1; rw [mo] at h2; omega) ops (fun l hl => by
      rw [mo, mi]
      have := List.count_pos_iff.2 hl
      omega) e

/-- C130: `numpy.einsum` gives the same whatever the order of the contractions is. -/
theorem C130_order (ops : List (EinsumOp n K)) (h2 : 2 ≤ ops.length) (path : List (List ℕ))
    (hc : Complete path ops.length) : einsumPath path ops = einsum ops := by
  by_cases h26 : ∀ l ∈ lettersOf ops, l < 26
  · have hne : path ≠ [] := by
      rintro rfl
      have : ops.length = 1 := hc
      omega
    obtain ⟨x, hx, ex⟩ := contractAll_spec ((List.range 26).filter fun l => (lettersOf ops).count l == 1)
      (List.pairwise_lt_range.filter _) path hne ops h26 (fun l hl => by
        rw [List.mem_filter, beq_iff_eq] at hl
        exact List.count_pos_iff.1 (by omega)) hc
    obtain ⟨y, hy, ey⟩ := einsum_spec ops h26 _ rfl
    unfold einsumPath
    rw [if_pos (by simpa [List.all_eq_true] using h26), hx, hy]
    congr 2
    funext t
    have ht : t = fun k => (withValues _ t fun _ => 0)
        (((List.range 26).filter fun l => (lettersOf ops).count l == 1).get k) := by
      funext k
      unfold withValues
      have hn : ((List.range 26).filter fun l => (lettersOf ops).count l == 1).Nodup := List.nodup_range.filter _
      rw [dif_pos (List.idxOf_lt_length_iff.2 (List.get_mem _ _))]
      congr 1
      exact Fin.ext (hn.idxOf_getElem k.val k.isLt).symm
    rw [ht, ex, ey]
  · have hf : ¬ (lettersOf ops).all (· < 26) = true := by simpa [List.all_eq_true] using h26
    unfold einsumPath einsum
    rw [if_neg hf]
    exact (if_neg hf).symm

theorem withLetters_transform (Q : Mat n K) (r : ℕ) (a : (Fin r → Fin n) → K) :
    withLetters (transformCommand r)
      (List.replicate r ⟨2, fun t => Q (t 0) (t 1)⟩ ++ [(⟨r, a⟩ : Arr n K)]) =
      some (transformOperands Q r a) := by
  have key : ∀ ks : List ℕ, withLetters ((ks.map fun k => [k, r + k]) ++ [List.range' r r])
      (List.replicate ks.length ⟨2, fun t => Q (t 0) (t 1)⟩ ++ [(⟨r, a⟩ : Arr n K)]) =
      some ((ks.map fun k => (⟨[k, r + k], fun t => Q (t 0) (t 1)⟩ : EinsumOp n K)) ++
        [⟨List.range' r r, fun t => a fun k => t (k.cast List.length_range'.symm)⟩]) := by
    intro ks
    induction ks with
    | nil => simp [withLetters]
    | cons k ks ih =>
      simp only [List.map_cons, List.cons_append, List.length_cons, List.replicate_succ, withLetters]
      refine (dif_pos rfl).trans ?_
      rw [ih]
      rfl
  have := key (List.range r)
  rwa [List.length_range] at this

/-- What the attribute holds: the command, and an order of the contractions. -/
def Kept (params : EinsumParams) : Prop :=
  ∀ r command path, params r = some (command, path) →
    command = transformCommand r ∧ Complete path (r + 1) ∧ r ≤ 13

theorem transform_spec (Q : Mat n K) (r : ℕ) (a : (Fin r → Fin n) → K) (hr : 1 ≤ r) (path : List (List ℕ))
    (hc : Complete path (r + 1)) :
    runCommand (transformCommand r) path (List.replicate r ⟨2, fun t => Q (t 0) (t 1)⟩ ++ [(⟨r, a⟩ : Arr n K)]) =
      transformLetters Q ⟨r, a⟩ := by
  unfold runCommand
  rw [withLetters_transform]
  have hl : (transformOperands Q r a).length = r + 1 := by simp [transformOperands]
  exact C130_order _ (by omega) path (by rw [hl]; exact hc)

theorem command_letters (r : ℕ) (hr : 1 ≤ r) : (transformCommand r).flatten.all (· < 26) = true ↔ r ≤ 13 := by
  rw [List.all_eq_true]
  constructor
  · intro h
    by_contra hlt
    have : 2 * r - 1 ∈ (transformCommand r).flatten := by
      unfold transformCommand
      rw [List.flatten_append, List.mem_append]
      right
      simp [List.mem_range'_1]
      omega
    have := h _ this
    simp at this
    omega
  · intro h l hl
    unfold transformCommand at hl
    rw [List.flatten_append, List.mem_append, List.mem_flatten] at hl
    rcases hl with ⟨ls, h1, h2⟩ | hl
    · obtain ⟨k, hk, rfl⟩ := List.mem_map.1 h1
      rw [List.mem_range] at hk
      simp at h2
      rw [decide_eq_true_eq]
      omega
    · simp [List.mem_range'_1] at hl
      rw [decide_eq_true_eq]
      omega

theorem kept_step (greedy : List (List ℕ) → ℕ → List (List ℕ))
    (hg : ∀ command d, 2 ≤ command.length → Complete (greedy command d) command.length) (Q : Mat n K) (r : ℕ)
    (a : (Fin r → Fin n) → K) (hr : 1 ≤ r) (params : EinsumParams) (hk : Kept params) :
    (transformKept greedy Q ⟨r, a⟩ params).1 = (if r ≤ 13 then
        .ok ⟨r, fun t => ∑ s : Fin r → Fin n, (∏ k, Q (t k) (s k)) * a s⟩ else .error .value) ∧
      Kept (transformKept greedy Q ⟨r, a⟩ params).2 := by
  unfold transformKept
  simp only
  cases hp : params r with
  | some cp =>
    obtain ⟨command, path⟩ := cp
    obtain ⟨rfl, hc, h13⟩ := hk r command path hp
    simp only
    rw [transform_spec Q r a hr path hc, transformLetters_ok Q r a h13, if_pos h13]
    exact ⟨rfl, hk⟩
  | none =>
    simp only
    by_cases h13 : r ≤ 13
    · rw [if_pos ((command_letters r hr).2 h13), if_pos h13]
      have hlen : (transformCommand r).length = r + 1 := by simp [transformCommand]
      have hc := hg (transformCommand r) n (by omega)
      rw [hlen] at hc
      refine ⟨?_, fun r' command path h => ?_⟩
      · show runCommand _ _ _ = _
        rw [transform_spec Q r a hr _ hc, transformLetters_ok Q r a h13]
      · change Function.update params r (some (transformCommand r, greedy (transformCommand r) n)) r' = _ at h
        by_cases he : r' = r
        · subst he
          rw [Function.update_self] at h
          cases h
          exact ⟨rfl, hc, h13⟩
        · rw [Function.update_of_ne he] at h
          exact hk r' command path h
    · rw [if_neg (fun h => h13 ((command_letters r hr).1 h)), if_neg h13]
      exact ⟨rfl, hk⟩

/-- C130: whatever was transformed before, of whatever dimension and with however many indices, and whatever
orders of contractions were found: every call gives the components with one factor of the matrix for each
index, if there are up to thirteen of them, and is refused otherwise. -/
theorem C130_history (greedy : List (List ℕ) → ℕ → List (List ℕ))
    (hg : ∀ command d, 2 ≤ command.length → Complete (greedy command d) command.length)
    (calls : List (TransformCall K)) (hr : ∀ c ∈ calls, 1 ≤ c.a.1) :
    (transformMany greedy calls fun _ => none).1 = calls.map fun c => ⟨c.dim, if c.a.1 ≤ 13 then
      .ok ⟨c.a.1, fun t => ∑ s : Fin c.a.1 → Fin c.dim, (∏ k, c.Q (t k) (s k)) * c.a.2 s⟩
      else .error .value⟩ := by
  have key : ∀ params, Kept params → (transformMany greedy calls params).1 = calls.map fun c =>
      ⟨c.dim, if c.a.1 ≤ 13 then
        .ok ⟨c.a.1, fun t => ∑ s : Fin c.a.1 → Fin c.dim, (∏ k, c.Q (t k) (s k)) * c.a.2 s⟩
        else .error .value⟩ := by
    induction calls with
    | nil => intro params _; rfl
    | cons c cs ih =>
      intro params hk
      have := c.pos
      obtain ⟨h1, h2⟩ := kept_step greedy hg c.Q c.a.1 c.a.2 (hr c List.mem_cons_self) params hk
      unfold transformMany
      rw [List.map_cons, ← ih (fun c hc => hr c (List.mem_cons_of_mem _ hc)) _ h2]
      show (⟨c.dim, (transformKept greedy c.Q ⟨c.a.1, c.a.2⟩ params).1⟩ : Outcome K) :: _ = _
      rw [h1]
  exact key _ fun r command path h => by cases h

/-- C130: so a call gives the same after any two histories, with any two ways to find the orders. -/
theorem C130_independent (greedy greedy' : List (List ℕ) → ℕ → List (List ℕ))
    (hg : ∀ command d, 2 ≤ command.length → Complete (greedy command d) command.length)
    (hg' : ∀ command d, 2 ≤ command.length → Complete (greedy' command d) command.length)
    (before before' : List (TransformCall K)) (c : TransformCall K) (hb : ∀ c ∈ before, 1 ≤ c.a.1)
    (hb' : ∀ c ∈ before', 1 ≤ c.a.1) (hc : 1 ≤ c.a.1) :
    (transformMany greedy (before ++ [c]) fun _ => none).1.getLast? =
      (transformMany greedy' (before' ++ [c]) fun _ => none).1.getLast? := by
  rw [C130_history greedy hg _ (by simpa [or_imp, forall_and] using ⟨hb, hc⟩),
    C130_history greedy' hg' _ (by simpa [or_imp, forall_and] using ⟨hb', hc⟩)]
  simp

/-- There are orders of contractions: all at once, and one after the other from the left. -/
example : Complete [[0, 1, 2, 3]] 4 ∧ Complete [[0, 1], [0, 2], [0, 1]] 4 := by
  simp [Complete]

/-- A way to find an order for every command. -/
example (command : List (List ℕ)) (h : 2 ≤ command.length) :
    Complete [List.range command.length] command.length := by
  refine ⟨?_, List.nodup_range, fun p hp => List.mem_range.1 hp, ?_⟩
  · intro h0
    have := congrArg List.length h0
    simp at this
    simp [this] at h
  · show command.length - (List.range command.length).length + 1 = 1
    rw [List.length_range, Nat.sub_self]

end
end Verif.Frames.Props
