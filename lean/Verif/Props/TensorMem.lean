import Verif.Proofs.TensorMem
import Mathlib.Data.Rat.Defs
import Mathlib.Algebra.Order.Ring.Unbundled.Rat

set_option linter.unusedSectionVars false

/-! # C124: tensors own their components

A tensor copies what it is made from, so that nothing but the tensor itself, its frame, and arrays
obtained from it can change its components. -/

namespace Verif.TMem.Props
open Verif Verif.TMem

variable {F K : Type}

/-! ### Notions of the statements -/

/-- `numpy.shares_memory` of two array objects. -/
def Shares (s : State F K) (o p : ℕ) : Prop :=
  (s.objs o).block = (s.objs p).block ∧ ∃ c, c ∈ (s.objs o).cells ∧ c ∈ (s.objs p).cells

/-- The states which programs reach. -/
def Reachable [Inhabited F] [Zero K] (conv : Conv F K) (s : State F K) : Prop :=
  ∃ ops, s = runAll conv ops State.empty

/-- The statements which are about a tensor: they assign to it, to its frame, to the axes of its
frame, or to an array which shares memory with it. -/
def Touches (s : State F K) (t : ℕ) : Op F K → Prop
  | .write r _ _ => ∃ o, s.resolve r = some o ∧ Shares s o (s.tensors t)
  | .fill r _ => ∃ o, s.resolve r = some o ∧ Shares s o (s.tensors t)
  | .setAxes f _ => s.frameOf t = some f
  | .setArray u _ => u = t
  | .inplace u _ => u = t
  | .setFrame u _ => u = t
  | .transpose u _ => u = t
  | _ => False

/-- No statement of the program is about the tensor. -/
def Leaves [Zero K] (conv : Conv F K) (t : ℕ) : List (Op F K) → State F K → Prop
  | [], _ => True
  | op :: ops, s => ¬Touches s t op ∧ Leaves conv t ops (op.run conv s).1

/-- The orders of components in which a program successfully transposes a tensor of `len` components
in place. -/
def turns (len t : ℕ) (ops : List (Op F K)) : List (List ℕ) :=
  ops.filterMap fun op => match op with
    | .transpose u idx =>
      if u = t ∧ (∀ i ∈ idx, i < len) ∧ idx.Nodup ∧ idx.length = len then some idx else none
    | _ => none

section
variable [Zero K]

theorem reachable_good [Inhabited F] {conv : Conv F K} {s : State F K} (h : Reachable conv s) :
    Good s := by
  obtain ⟨ops, rfl⟩ := h
  exact good_runAll conv ops _ good_empty

/-! ### C124: who shares memory with whom -/

/-- No two tensors share memory, whatever the program did before, and the entries of a tensor are in
different cells. -/
theorem C124_separate [Inhabited F] (conv : Conv F K) (s : State F K) (h : Reachable conv s)
    (t u : ℕ) (ht : t < s.nT) (hu : u < s.nT) (htu : t ≠ u) :
    ¬Shares s (s.tensors t) (s.tensors u) :=
  fun k => (reachable_good h).own t ht u hu htu k.1

/-- Whether two array objects share memory never changes. -/
theorem C124_sharing_stays [Inhabited F] (conv : Conv F K) (s : State F K)
    (ops : List (Op F K)) (o p : ℕ) (ho : o < s.nO) (hp : p < s.nO) :
    Shares (runAll conv ops s) o p ↔ Shares s o p := by
  have e := ext_runAll conv ops s
  unfold Shares
  rw [e.block o ho, e.block p hp, e.cells o ho, e.cells p hp]

/-- Everything but slicing and transposing in place makes arrays with their own memory: what a
statement returns shares memory with nothing there was before.  In particular a tensor shares no
memory with the array it is made from, and what `show` returns shares no memory with the tensor. -/
theorem C124_fresh [Inhabited F] (conv : Conv F K) (s : State F K) (h : Reachable conv s)
    (op : Op F K) (hs : ∀ r idx, op ≠ .slice r idx) (ht : ∀ t idx, op ≠ .transpose t idx)
    (o p : ℕ) (ho : s.nO ≤ o) (ho' : o < (op.run conv s).1.nO) (hp : p < s.nO) :
    ¬Shares (op.run conv s).1 o p := by
  have g := reachable_good h
  refine fun k => absurd k.1 ?_
  clear k
  have old : ∀ {q : State F K}, q.nO = s.nO → o < q.nO → False := by
    intro q e l; omega
  cases op with
  | fresh xs => exact alloc_unshared g _ _ o p ho ho' hp
  | slice r idx => exact absurd rfl (hs r idx)
  | copy r keep =>
    simp only [Op.run] at ho' ⊢
    split at ho'
    · exact (old rfl ho').elim
    · exact alloc_unshared g _ _ o p ho ho' hp
  | write r e x =>
    simp only [Op.run] at ho' ⊢
    split at ho'
    · exact (old rfl ho').elim
    · split at ho' <;> exact (old rfl ho').elim
  | fill r q =>
    simp only [Op.run] at ho' ⊢
    split at ho'
    · split at ho' <;> exact (old rfl ho').elim
    · exact (old rfl ho').elim
  | frame v => exact (old rfl ho').elim
  | setAxes f v =>
    simp only [Op.run] at ho' ⊢
    split at ho'
    · split at ho'
      · exact (old rfl ho').elim
      · split at ho'
        · exact (old rfl ho').elim
        · exact (old (convert_objs _ _ s).2.2.1 ho').elim
    · exact (old rfl ho').elim
  | tensor r f =>
    simp only [Op.run] at ho' ⊢
    split at ho'
    · exact (old rfl ho').elim
    · rename_i q hq
      split at ho'
      · rename_i hf
        simp only [if_pos hf]
        exact alloc_unshared g _ _ o p ho ho' hp
      · exact (old rfl ho').elim
  | map t f =>
    simp only [Op.run] at ho' ⊢
    split at ho'
    · exact alloc_unshared g _ _ o p ho ho' hp
    · exact (old rfl ho').elim
  | mapNew t f =>
    simp only [Op.run] at ho' ⊢
    split at ho'
    · exact alloc_unshared (good_mkFrame g _) _ _ o p ho ho' hp
    · exact (old rfl ho').elim
  | combine t u f =>
    simp only [Op.run] at ho' ⊢
    split at ho'
    · rename_i h1 h2 h3 h4
      split at ho'
      · exact (old rfl ho').elim
      · rename_i h5
        simp only [h5]
        exact alloc_unshared (good_mkFrame g _) _ _ o p ho ho' hp
    · exact (old rfl ho').elim
  | «show» t f =>
    simp only [Op.run] at ho' ⊢
    split at ho'
    · rename_i h1 h2
      split at ho'
      · rename_i hf
        split at ho'
        · exact (old rfl ho').elim
        · rename_i h5
          simp only [if_pos hf, h5]
          exact alloc_unshared g _ _ o p ho ho' hp
      · exact (old rfl ho').elim
    · exact (old rfl ho').elim
  | setArray t r =>
    simp only [Op.run] at ho' ⊢
    split at ho'
    · split at ho' <;> exact (old rfl ho').elim
    · exact (old rfl ho').elim
  | inplace t f =>
    simp only [Op.run] at ho' ⊢
    split at ho'
    · exact (old rfl ho').elim
    · split at ho' <;> exact (old rfl ho').elim
  | setFrame t f =>
    simp only [Op.run] at ho' ⊢
    split at ho'
    · split at ho'
      · split at ho'
        · exact (old rfl ho').elim
        · split at ho' <;> exact (old rfl ho').elim
      · exact (old rfl ho').elim
    · exact (old rfl ho').elim
  | transpose t idx => exact absurd rfl (ht t idx)

/-- A slice shows the selected entries of the array it was cut from, now and after any program, and
it shares memory with nothing that array does not share memory with. -/
theorem C124_slice [Inhabited F] (conv : Conv F K) (s : State F K) (h : Reachable conv s) (r : Ref)
    (idx : List ℕ) (o : ℕ) (hr : s.resolve r = some o)
    (hi : ∀ i ∈ idx, i < (s.read o).length) (hn : idx.Nodup) :
    ∃ s', Op.run conv (.slice r idx) s = (s', .ok (.obj s.nO)) ∧
      (∀ ops, (runAll conv ops s').read s.nO
        = idx.filterMap fun i => ((runAll conv ops s').read o)[i]?) ∧
      (∀ p < s.nO, Shares s' s.nO p → Shares s o p) ∧
      (idx ≠ [] → Shares s' s.nO o) ∧
      (s'.objs s.nO).frame = (s.objs o).frame := by
  have g := reachable_good h
  have ho := resolve_lt g hr
  have hi' : ∀ i ∈ idx, i < (s.objs o).cells.length := by simpa [State.read] using hi
  have hnew : (s.view o idx).objs s.nO =
      ⟨(s.objs o).block, pick (s.objs o).cells idx, (s.objs o).frame⟩ := by simp [State.view]
  have hold : ∀ p < s.nO, (s.view o idx).objs p = s.objs p := fun p hp => by
    simp only [State.view]; rw [Function.update_of_ne (Nat.ne_of_lt hp)]
  refine ⟨s.view o idx, ?_, ?_, ?_, ?_, ?_⟩
  · simp only [Op.run, hr]
    exact if_pos ⟨hi', hn⟩
  · intro ops
    have e := ext_runAll conv ops (s.view o idx)
    have hO : s.nO < (s.view o idx).nO := Nat.lt_succ_self _
    have hO' : o < (s.view o idx).nO := Nat.lt_succ_of_lt ho
    unfold State.read
    rw [e.block _ hO, e.cells _ hO, e.block _ hO', e.cells _ hO', hnew, hold o ho]
    exact pick_map _ _ _
  · rintro p hp ⟨hb, c, hc, hc'⟩
    rw [hnew] at hb hc
    rw [hold p hp] at hb hc'
    exact ⟨hb, c, pick_mem _ _ _ hc, hc'⟩
  · intro hne
    obtain ⟨i, hi0⟩ := List.exists_mem_of_ne_nil idx hne
    refine ⟨by rw [hnew, hold o ho], (s.objs o).cells[i]'(hi' i hi0), ?_, ?_⟩
    · rw [hnew]
      exact List.mem_filterMap.2 ⟨i, hi0, List.getElem?_eq_getElem (hi' i hi0)⟩
    · rw [hold o ho]; exact List.getElem_mem _
  · rw [hnew]

/-! ### C124: what changes the components -/

/-- A statement which is not about a tensor changes neither its components nor its frame nor the
array object it holds. -/
theorem C124_untouched_step [Inhabited F] (conv : Conv F K) (s : State F K)
    (h : Reachable conv s) (op : Op F K) (t : ℕ) (ht : t < s.nT) (hop : ¬Touches s t op) :
    (op.run conv s).1.comps t = s.comps t ∧ (op.run conv s).1.frameOf t = s.frameOf t ∧
    (op.run conv s).1.tensors t = s.tensors t := by
  have g := reachable_good h
  have triv : ∀ e, (s.fail e : State F K × Py Res).1.comps t = s.comps t ∧
      (s.fail e : State F K × Py Res).1.frameOf t = s.frameOf t ∧
      (s.fail e : State F K × Py Res).1.tensors t = s.tensors t := fun _ => ⟨rfl, rfl, rfl⟩
  have hal : ∀ xs fr, (s.alloc xs fr).comps t = s.comps t ∧
      (s.alloc xs fr).frameOf t = s.frameOf t ∧ (s.alloc xs fr).tensors t = s.tensors t := by
    intro xs fr
    refine ⟨comps_alloc g xs fr t ht, ?_, rfl⟩
    simp only [State.frameOf, State.alloc]
    rw [Function.update_of_ne (Nat.ne_of_lt (g.obj t ht))]
  have hmk : ∀ q : State F K, Good q → t < q.nT → ∀ xs f, (q.mkTensor xs f).comps t = q.comps t ∧
      (q.mkTensor xs f).frameOf t = q.frameOf t ∧ (q.mkTensor xs f).tensors t = q.tensors t := by
    intro q gq hq xs f
    refine ⟨comps_mkTensor gq xs f t hq, frame_mkTensor gq xs f t hq, ?_⟩
    simp only [State.mkTensor]; rw [Function.update_of_ne (Nat.ne_of_lt hq)]
  have has : ∀ o xs, ¬Shares s o (s.tensors t) → (s.assign o xs).comps t = s.comps t := by
    intro o xs hno
    exact read_assign_other s o xs (s.tensors t)
      fun ⟨hb, c, hc, hc'⟩ => hno ⟨hb.symm, c, hc', hc⟩
  have hother : ∀ u, u < s.nT → u ≠ t → ¬Shares s (s.tensors u) (s.tensors t) :=
    fun u hu hut k => g.own u hu t ht hut k.1
  cases op with
  | fresh xs => exact hal _ _
  | slice r idx =>
    simp only [Op.run]
    split
    · exact triv _
    · split
      · rename_i o _ _
        have hold : (s.view o idx).objs (s.tensors t) = s.objs (s.tensors t) := by
          simp only [State.view]; rw [Function.update_of_ne (Nat.ne_of_lt (g.obj t ht))]
        refine ⟨?_, congrArg Arr.frame hold, rfl⟩
        change ((s.view o idx).objs (s.tensors t)).cells.map
          (s.blocks ((s.view o idx).objs (s.tensors t)).block) = _
        rw [hold]; rfl
      · exact triv _
  | copy r keep =>
    simp only [Op.run]
    split
    · exact triv _
    · exact hal _ _
  | write r e x =>
    simp only [Op.run]
    split
    · exact triv _
    · rename_i o ho
      split
      · exact ⟨has o _ fun k => hop ⟨o, ho, k⟩, rfl, rfl⟩
      · exact triv _
  | fill r q =>
    simp only [Op.run]
    split
    · rename_i o _ ho _
      split
      · exact ⟨has o _ fun k => hop ⟨o, ho, k⟩, rfl, rfl⟩
      · exact triv _
    · exact triv _
  | frame v => exact ⟨rfl, rfl, rfl⟩
  | setAxes f v =>
    simp only [Op.run]
    split
    · split
      · exact ⟨rfl, rfl, rfl⟩
      · split
        · exact triv _
        · rename_i k _
          obtain ⟨h1, h2, -⟩ := convert_objs k (s.registered f) s
          refine ⟨?_, ?_, congrFun h2 t⟩
          · change (s.convert k (s.registered f)).read
              ((s.convert k (s.registered f)).tensors t) = _
            rw [h2]
            refine read_convert_other _ _ _ _ fun u hu hsh => ?_
            simp only [State.registered, List.mem_filter, List.mem_range, decide_eq_true_eq] at hu
            refine g.own t ht u hu.1 ?_ hsh.1
            rintro rfl
            exact hop hu.2
          · change ((s.convert k (s.registered f)).objs
              ((s.convert k (s.registered f)).tensors t)).frame = _
            rw [h1, h2]; rfl
    · exact triv _
  | tensor r f =>
    simp only [Op.run]
    split
    · exact triv _
    · split
      · exact hmk s g ht _ _
      · exact triv _
  | map u k =>
    simp only [Op.run]
    split
    · exact hmk s g ht _ _
    · exact triv _
  | mapNew u k =>
    simp only [Op.run]
    split
    · exact hmk _ (good_mkFrame g _) ht _ _
    · exact triv _
  | combine u v k =>
    simp only [Op.run]
    split
    · split
      · exact triv _
      · exact hmk _ (good_mkFrame g _) ht _ _
    · exact triv _
  | «show» u f =>
    simp only [Op.run]
    split
    · split
      · split
        · exact triv _
        · exact hal _ _
      · exact triv _
    · exact triv _
  | setArray u r =>
    simp only [Op.run]
    split
    · rename_i o _ ho _
      obtain ⟨hu, rfl⟩ := resolve_array ho
      split
      · exact ⟨has _ _ (hother u hu hop), rfl, rfl⟩
      · exact triv _
    · exact triv _
  | inplace u k =>
    simp only [Op.run]
    split
    · exact triv _
    · rename_i o ho
      obtain ⟨hu, rfl⟩ := resolve_array ho
      split
      · exact ⟨has _ _ (hother u hu hop), rfl, rfl⟩
      · exact triv _
  | setFrame u f =>
    simp only [Op.run]
    split
    · rename_i o _ ho _
      obtain ⟨hu, rfl⟩ := resolve_array ho
      split
      · split
        · exact triv _
        · split
          · have hne : s.tensors t ≠ s.tensors u := fun e =>
              g.own t ht u hu (fun k => hop k.symm) (by rw [e])
            rename_i k _ _
            refine ⟨?_, ?_, rfl⟩
            · have h3 := has (s.tensors u) (k (s.read (s.tensors u))) (hother u hu hop)
              refine Eq.trans ?_ h3
              change ((Function.update s.objs (s.tensors u) _) (s.tensors t)).cells.map
                ((s.assign (s.tensors u) (k (s.read (s.tensors u)))).blocks
                  ((Function.update s.objs (s.tensors u) _) (s.tensors t)).block) = _
              rw [Function.update_of_ne hne]
              rfl
            · change ((Function.update s.objs (s.tensors u) _) (s.tensors t)).frame = _
              rw [Function.update_of_ne hne]; rfl
          · exact triv _
      · exact triv _
    · exact triv _
  | transpose u idx =>
    simp only [Op.run]
    split
    · exact triv _
    · rename_i o _
      split
      · have hut : t ≠ u := fun e => hop e.symm
        have hold : (s.view o idx).objs (s.tensors t) = s.objs (s.tensors t) := by
          simp only [State.view]; rw [Function.update_of_ne (Nat.ne_of_lt (g.obj t ht))]
        have htt : Function.update (s.view o idx).tensors u s.nO t = s.tensors t :=
          Function.update_of_ne hut _ _
        refine ⟨?_, ?_, htt⟩
        · simp only [State.comps, State.read]
          rw [htt, hold]; rfl
        · simp only [State.frameOf]
          rw [htt, hold]
      · exact triv _

theorem reachable_run [Inhabited F] {conv : Conv F K} {s : State F K} (h : Reachable conv s)
    (op : Op F K) : Reachable conv (op.run conv s).1 := by
  obtain ⟨ops, rfl⟩ := h
  refine ⟨ops ++ [op], ?_⟩
  have : ∀ (l : List (Op F K)) (q : State F K),
      runAll conv (l ++ [op]) q = (op.run conv (runAll conv l q)).1 := by
    intro l
    induction l with
    | nil => intro q; rfl
    | cons a l ih => intro q; exact ih _
  rw [this]

/-- A program none of whose statements is about a tensor leaves the tensor alone. -/
theorem C124_untouched [Inhabited F] (conv : Conv F K) (ops : List (Op F K)) : ∀ (s : State F K),
    Reachable conv s → ∀ t < s.nT, Leaves conv t ops s →
    (runAll conv ops s).comps t = s.comps t ∧ (runAll conv ops s).frameOf t = s.frameOf t ∧
    (runAll conv ops s).tensors t = s.tensors t := by
  induction ops with
  | nil => intro s _ t _ _; exact ⟨rfl, rfl, rfl⟩
  | cons op ops ih =>
    intro s h t ht hl
    have h1 := C124_untouched_step conv s h op t ht hl.1
    have h2 := ih _ (reachable_run h op) t (lt_of_lt_of_le ht (ext_run s conv op).nT) hl.2
    exact ⟨h2.1.trans h1.1, h2.2.1.trans h1.2.1, h2.2.2.trans h1.2.2⟩

/-- Assigning one entry of an array changes the entries which lie in the same cell, and no other entry
of any array. -/
theorem C124_write [Inhabited F] (conv : Conv F K) (s : State F K) (h : Reachable conv s) (r : Ref)
    (o e : ℕ) (x : K) (hr : s.resolve r = some o) (he : e < (s.objs o).cells.length) :
    ∃ s', Op.run conv (.write r e x) s = (s', .ok .none) ∧
      ∀ p i, ∀ hi : i < (s.objs p).cells.length,
        (s'.read p)[i]? = if (s.objs p).block = (s.objs o).block ∧
          (s.objs p).cells[i] = (s.objs o).cells[e] then some x else (s.read p)[i]? := by
  have g := reachable_good h
  have ho := resolve_lt g hr
  refine ⟨s.assign o ((s.read o).set e x), ?_, ?_⟩
  · simp only [Op.run, hr]
    exact if_pos he
  · intro p i hi
    simp only [State.assign, State.read, List.getElem?_map, List.getElem?_eq_getElem hi,
      Option.map_some]
    by_cases hb : (s.objs p).block = (s.objs o).block
    · rw [hb, Function.update_self, set_eq_writeCells _ _ _ _ _ (g.nodup o ho) he]
      simp only [true_and]
      split <;> rfl
    · rw [Function.update_of_ne hb]
      simp [hb]

/-! ### C124: making tensors and assigning to them -/

/-- Making a tensor from an array: it has the entries of the array, is in the frame that was asked
for, and shares memory with no array there is. -/
theorem C124_construct [Inhabited F] (conv : Conv F K) (s : State F K) (h : Reachable conv s)
    (r : Ref) (o f : ℕ) (hr : s.resolve r = some o) (hf : f < s.nF) :
    ∃ s', Op.run conv (.tensor r f) s = (s', .ok (.tensor s.nT)) ∧ s.nT < s'.nT ∧
      s'.comps s.nT = s.read o ∧ s'.frameOf s.nT = some f ∧
      (∀ p < s.nO, ¬Shares s' (s'.tensors s.nT) p) ∧
      (∀ t < s.nT, s'.comps t = s.comps t ∧ s'.frameOf t = s.frameOf t) := by
  have g := reachable_good h
  refine ⟨s.mkTensor (s.read o) f, ?_, Nat.lt_succ_self _, ?_, ?_, ?_, ?_⟩
  · simp only [Op.run, hr]
    exact if_pos hf
  · have h2 : (s.mkTensor (s.read o) f).tensors s.nT = s.nO := by simp [State.mkTensor]
    unfold State.comps
    rw [h2]
    exact read_alloc_new s (s.read o) (some f)
  · simp [State.frameOf, State.mkTensor, State.alloc]
  · intro p hp k
    have h2 : (s.mkTensor (s.read o) f).tensors s.nT = s.nO := by simp [State.mkTensor]
    have h3 := k.1
    rw [h2] at h3
    exact alloc_unshared g (s.read o) (some f) s.nO p le_rfl (Nat.lt_succ_self _) hp h3
  · intro t ht
    exact ⟨comps_mkTensor g _ _ t ht, frame_mkTensor g _ _ t ht⟩

/-- Operators give new tensors: in the frame of the operand, with the components computed from those of
the operand, and sharing memory with nothing there was. -/
theorem C124_operator [Inhabited F] (conv : Conv F K) (s : State F K) (h : Reachable conv s)
    (t : ℕ) (ht : t < s.nT) (k : List K → List K) :
    ∃ s', Op.run conv (.map t k) s = (s', .ok (.tensor s.nT)) ∧ s.nT < s'.nT ∧
      s'.comps s.nT = k (s.comps t) ∧ s'.frameOf s.nT = s.frameOf t ∧
      (∀ p < s.nO, ¬Shares s' (s'.tensors s.nT) p) ∧
      (∀ u < s.nT, s'.comps u = s.comps u ∧ s'.frameOf u = s.frameOf u) := by
  have g := reachable_good h
  obtain ⟨f, hf, e⟩ := g.frame t ht
  have hr : s.resolve (.arrayOf t) = some (s.tensors t) := if_pos ht
  have he : s.frameOf t = some f := e
  have h2 : (s.mkTensor (k (s.comps t)) f).tensors s.nT = s.nO := by simp [State.mkTensor]
  refine ⟨s.mkTensor (k (s.comps t)) f, ?_, Nat.lt_succ_self _, ?_, ?_, ?_, ?_⟩
  · simp only [Op.run, hr, he]; rfl
  · refine (congrArg (State.read _) h2).trans ?_
    exact read_alloc_new s _ (some f)
  · rw [he]; simp [State.frameOf, State.mkTensor, State.alloc]
  · intro p hp q
    have h3 := q.1
    rw [h2] at h3
    exact alloc_unshared g (k (s.comps t)) (some f) s.nO p le_rfl (Nat.lt_succ_self _) hp h3
  · intro u hu
    exact ⟨comps_mkTensor g _ _ u hu, frame_mkTensor g _ _ u hu⟩

/-- `t.T` and `copy.deepcopy(t)` give tensors in a frame of their own: it is not the frame of any other
tensor and has the axes of the frame of the operand. -/
theorem C124_own_frame [Inhabited F] (conv : Conv F K) (s : State F K) (h : Reachable conv s)
    (t f : ℕ) (ht : t < s.nT) (hf : s.frameOf t = some f) (k : List K → List K) :
    ∃ s' f', Op.run conv (.mapNew t k) s = (s', .ok (.tensor s.nT)) ∧ s.nT < s'.nT ∧
      s'.comps s.nT = k (s.comps t) ∧ s'.frameOf s.nT = some f' ∧ s'.frames f' = s.frames f ∧
      (∀ u < s.nT, s'.frameOf u ≠ some f') ∧
      (∀ p < s.nO, ¬Shares s' (s'.tensors s.nT) p) ∧
      (∀ u < s.nT, s'.comps u = s.comps u ∧ s'.frameOf u = s.frameOf u) := by
  have g := reachable_good h
  have g' := good_mkFrame g (s.frames f)
  have hr : s.resolve (.arrayOf t) = some (s.tensors t) := if_pos ht
  have h2 : ((s.mkFrame (s.frames f)).mkTensor (k (s.comps t)) s.nF).tensors s.nT = s.nO := by
    simp [State.mkTensor, State.mkFrame]
  have hold : ∀ u < s.nT,
      ((s.mkFrame (s.frames f)).mkTensor (k (s.comps t)) s.nF).comps u = s.comps u ∧
      ((s.mkFrame (s.frames f)).mkTensor (k (s.comps t)) s.nF).frameOf u = s.frameOf u :=
    fun u hu => ⟨comps_mkTensor g' _ _ u hu, frame_mkTensor g' _ _ u hu⟩
  refine ⟨(s.mkFrame (s.frames f)).mkTensor (k (s.comps t)) s.nF, s.nF, ?_, Nat.lt_succ_self _,
    ?_, ?_, ?_, ?_, ?_, hold⟩
  · simp only [Op.run, hr, hf]; rfl
  · refine (congrArg (State.read _) h2).trans ?_
    exact read_alloc_new (s.mkFrame (s.frames f)) _ (some s.nF)
  · simp [State.frameOf, State.mkTensor, State.alloc, State.mkFrame]
  · simp [State.mkTensor, State.alloc, State.mkFrame]
  · intro u hu
    rw [(hold u hu).2]
    obtain ⟨f0, hf0, e⟩ := g.frame u hu
    have he : s.frameOf u = some f0 := e
    rw [he]
    intro q
    cases q
    exact lt_irrefl _ hf0
  · intro p hp q
    have h3 := q.1
    rw [h2] at h3
    exact alloc_unshared g' (k (s.comps t)) (some s.nF) s.nO p le_rfl (Nat.lt_succ_self _) hp h3

/-- The sum and the difference of two tensors: a new tensor with its own memory and its own frame,
computed from the components of the first and those of the second shown in the frame of the first. -/
theorem C124_combine [Inhabited F] (conv : Conv F K) (s : State F K) (h : Reachable conv s)
    (t u f f' : ℕ) (ht : t < s.nT) (hu : u < s.nT) (hf : s.frameOf t = some f)
    (hf' : s.frameOf u = some f') (c : List K → List K)
    (hc : conv (s.frames f') (s.frames f) = .ok c) (k : List K → List K → List K) :
    ∃ s' f'', Op.run conv (.combine t u k) s = (s', .ok (.tensor s.nT)) ∧ s.nT < s'.nT ∧
      s'.comps s.nT = k (s.comps t) (c (s.comps u)) ∧
      s'.frameOf s.nT = some f'' ∧ s'.frames f'' = s.frames f ∧
      (∀ v < s.nT, s'.frameOf v ≠ some f'') ∧
      (∀ p < s.nO, ¬Shares s' (s'.tensors s.nT) p) ∧
      (∀ v < s.nT, s'.comps v = s.comps v ∧ s'.frameOf v = s.frameOf v) := by
  have g := reachable_good h
  have g' := good_mkFrame g (s.frames f)
  have hr : s.resolve (.arrayOf t) = some (s.tensors t) := if_pos ht
  have hr' : s.resolve (.arrayOf u) = some (s.tensors u) := if_pos hu
  let xs := k (s.comps t) (c (s.comps u))
  have h2 : ((s.mkFrame (s.frames f)).mkTensor xs s.nF).tensors s.nT = s.nO := by
    simp [State.mkTensor, State.mkFrame]
  have hold : ∀ v < s.nT,
      ((s.mkFrame (s.frames f)).mkTensor xs s.nF).comps v = s.comps v ∧
      ((s.mkFrame (s.frames f)).mkTensor xs s.nF).frameOf v = s.frameOf v :=
    fun v hv => ⟨comps_mkTensor g' _ _ v hv, frame_mkTensor g' _ _ v hv⟩
  refine ⟨(s.mkFrame (s.frames f)).mkTensor xs s.nF, s.nF, ?_, Nat.lt_succ_self _,
    ?_, ?_, ?_, ?_, ?_, hold⟩
  · simp only [Op.run, hr, hr', hf, hf', hc]; rfl
  · refine (congrArg (State.read _) h2).trans ?_
    exact read_alloc_new (s.mkFrame (s.frames f)) _ (some s.nF)
  · simp [State.frameOf, State.mkTensor, State.alloc, State.mkFrame]
  · simp [State.mkTensor, State.alloc, State.mkFrame]
  · intro v hv
    rw [(hold v hv).2]
    obtain ⟨f0, hf0, e⟩ := g.frame v hv
    have he : s.frameOf v = some f0 := e
    rw [he]
    intro q
    cases q
    exact lt_irrefl _ hf0
  · intro p hp q
    have h3 := q.1
    rw [h2] at h3
    exact alloc_unshared g' xs (some s.nF) s.nO p le_rfl (Nat.lt_succ_self _) hp h3

/-- `t.show(frame)` gives an array of its own: the converted components, no frame, and no memory in
common with anything. -/
theorem C124_show [Inhabited F] (conv : Conv F K) (s : State F K) (h : Reachable conv s)
    (t f f' : ℕ) (ht : t < s.nT) (hf : f < s.nF) (hf' : s.frameOf t = some f')
    (c : List K → List K) (hc : conv (s.frames f') (s.frames f) = .ok c) :
    ∃ s', Op.run conv (.show t f) s = (s', .ok (.obj s.nO)) ∧ s.nO < s'.nO ∧
      s'.read s.nO = c (s.comps t) ∧ (s'.objs s.nO).frame = none ∧
      (∀ p < s.nO, ¬Shares s' s.nO p) := by
  have g := reachable_good h
  have hr : s.resolve (.arrayOf t) = some (s.tensors t) := if_pos ht
  refine ⟨s.alloc (c (s.comps t)) none, ?_, Nat.lt_succ_self _, read_alloc_new _ _ _, ?_, ?_⟩
  · simp only [Op.run, hr, hf', if_pos hf, hc]; rfl
  · simp [State.alloc]
  · intro p hp q
    exact alloc_unshared g _ none s.nO p le_rfl (Nat.lt_succ_self _) hp q.1

/-- `t.array = array`: the tensor takes over the values the array had before the statement, also if
the array is a view of the tensor itself; it stays the same array object in the same frame, and no
other tensor changes. -/
theorem C124_assign [Inhabited F] (conv : Conv F K) (s : State F K) (h : Reachable conv s)
    (t o : ℕ) (r : Ref) (ht : t < s.nT) (hr : s.resolve r = some o)
    (hl : (s.read o).length = (s.comps t).length) :
    ∃ s', Op.run conv (.setArray t r) s = (s', .ok .none) ∧ s'.comps t = s.read o ∧
      s'.tensors = s.tensors ∧ s'.objs = s.objs ∧
      (∀ u < s.nT, u ≠ t → s'.comps u = s.comps u) := by
  have g := reachable_good h
  have hra : s.resolve (.arrayOf t) = some (s.tensors t) := if_pos ht
  have hl' : (s.objs o).cells.length = (s.objs (s.tensors t)).cells.length := by
    simpa [State.comps, State.read] using hl
  refine ⟨s.assign (s.tensors t) (s.read o), ?_, ?_, rfl, rfl, ?_⟩
  · simp only [Op.run, hra, hr]
    exact if_pos hl'
  · exact read_assign_self _ _ (g.nodup _ (g.obj t ht)) (by simpa [State.read] using hl')
  · intro u hu hut
    exact read_assign_other s _ _ (s.tensors u) fun k => g.own u hu t ht hut k.1

/-- `t.array = array` with the wrong number of components is refused. -/
theorem C124_assign_length [Inhabited F] (conv : Conv F K) (s : State F K) (t o : ℕ) (r : Ref)
    (ht : t < s.nT) (hr : s.resolve r = some o)
    (hl : (s.read o).length ≠ (s.comps t).length) :
    Op.run conv (.setArray t r) s = (s, .error .assertion) := by
  have hra : s.resolve (.arrayOf t) = some (s.tensors t) := if_pos ht
  have hl' : ¬(s.objs o).cells.length = (s.objs (s.tensors t)).cells.length := by
    simpa [State.comps, State.read] using hl
  simp only [Op.run, hra, hr]
  exact if_neg hl'

/-- `t *= 2`, `t += u`, `t.orient(…)`, `t.chop()`: the components are computed from the present ones and
written in place; the tensor stays the same array object in the same frame, no other tensor changes. -/
theorem C124_in_place [Inhabited F] (conv : Conv F K) (s : State F K) (h : Reachable conv s)
    (t : ℕ) (ht : t < s.nT) (k : List K → List K)
    (hl : (k (s.comps t)).length = (s.comps t).length) :
    ∃ s', Op.run conv (.inplace t k) s = (s', .ok .none) ∧ s'.comps t = k (s.comps t) ∧
      s'.tensors = s.tensors ∧ s'.objs = s.objs ∧
      (∀ u < s.nT, u ≠ t → s'.comps u = s.comps u) := by
  have g := reachable_good h
  have hra : s.resolve (.arrayOf t) = some (s.tensors t) := if_pos ht
  have hl' : (k (s.comps t)).length = (s.objs (s.tensors t)).cells.length := by
    simpa [State.comps, State.read] using hl
  refine ⟨s.assign (s.tensors t) (k (s.comps t)), ?_, ?_, rfl, rfl, ?_⟩
  · simp only [Op.run, hra]
    exact if_pos hl'
  · exact read_assign_self _ _ (g.nodup _ (g.obj t ht)) hl'
  · intro u hu hut
    exact read_assign_other s _ _ (s.tensors u) fun k => g.own u hu t ht hut k.1

/-- `array[...] = other`: the array gets the values the other one had before the statement, even if
the two overlap, and arrays which share no memory with it keep theirs. -/
theorem C124_fill [Inhabited F] (conv : Conv F K) (s : State F K) (h : Reachable conv s)
    (r q : Ref) (o p : ℕ) (hr : s.resolve r = some o) (hq : s.resolve q = some p)
    (hl : (s.read p).length = (s.read o).length) :
    ∃ s', Op.run conv (.fill r q) s = (s', .ok .none) ∧ s'.read o = s.read p ∧
      (∀ i, ¬Shares s o i → s'.read i = s.read i) := by
  have g := reachable_good h
  have hl' : (s.objs o).cells.length = (s.objs p).cells.length := by
    simpa [State.read] using hl.symm
  refine ⟨s.assign o (s.read p), ?_, ?_, ?_⟩
  · simp only [Op.run, hr, hq]
    exact if_pos hl'
  · exact read_assign_self _ _ (g.nodup o (resolve_lt g hr)) (by simpa [State.read] using hl'.symm)
  · intro i hi
    exact read_assign_other s o _ i fun ⟨hb, c, hc, hc'⟩ => hi ⟨hb.symm, c, hc', hc⟩

/-- A copy of an array has its entries and memory of its own. -/
theorem C124_copy [Inhabited F] (conv : Conv F K) (s : State F K) (h : Reachable conv s)
    (r : Ref) (keep : Bool) (o : ℕ) (hr : s.resolve r = some o) :
    ∃ s', Op.run conv (.copy r keep) s = (s', .ok (.obj s.nO)) ∧ s.nO < s'.nO ∧
      s'.read s.nO = s.read o ∧ (∀ p < s.nO, ¬Shares s' s.nO p) := by
  have g := reachable_good h
  refine ⟨s.alloc (s.read o) (if keep then (s.objs o).frame else none), ?_, Nat.lt_succ_self _,
    read_alloc_new _ _ _, ?_⟩
  · simp only [Op.run, hr]
  · intro p hp k
    exact alloc_unshared g _ _ s.nO p le_rfl (Nat.lt_succ_self _) hp k.1

/-- `t.frame = frame`: the components are converted once, in place, and the tensor is in the new
frame; no other tensor changes, and the tensor keeps its array object. -/
theorem C124_set_frame [Inhabited F] (conv : Conv F K) (s : State F K) (h : Reachable conv s)
    (t f f' : ℕ) (ht : t < s.nT) (hf : f < s.nF) (hf' : s.frameOf t = some f')
    (c : List K → List K) (hc : conv (s.frames f') (s.frames f) = .ok c)
    (hlen : ∀ l, (c l).length = l.length) :
    ∃ s', Op.run conv (.setFrame t f) s = (s', .ok .none) ∧ s'.comps t = c (s.comps t) ∧
      s'.frameOf t = some f ∧ s'.tensors = s.tensors ∧ s'.frames = s.frames ∧
      (∀ u < s.nT, u ≠ t → s'.comps u = s.comps u ∧ s'.frameOf u = s.frameOf u) := by
  have g := reachable_good h
  have hra : s.resolve (.arrayOf t) = some (s.tensors t) := if_pos ht
  have hl : (c (s.read (s.tensors t))).length = (s.objs (s.tensors t)).cells.length := by
    rw [hlen]; simp [State.read]
  have hrun : Op.run conv (.setFrame t f) s =
      ({ s.assign (s.tensors t) (c (s.comps t)) with
          objs := Function.update s.objs (s.tensors t)
            { s.objs (s.tensors t) with frame := some f } }, .ok .none) := by
    simp only [Op.run, hra, hf', if_pos hf, hc]
    exact if_pos hl
  have hself := read_assign_self (s := s) (s.tensors t) (c (s.comps t))
    (g.nodup _ (g.obj t ht)) hl
  have hne : ∀ u < s.nT, u ≠ t → s.tensors u ≠ s.tensors t := fun u hu hut e =>
    g.own u hu t ht hut (by rw [e])
  refine ⟨_, hrun, ?_, ?_, rfl, rfl, ?_⟩
  · simp only [State.comps, State.read] at hself ⊢
    rw [show (s.assign (s.tensors t) (c ((s.objs (s.tensors t)).cells.map
      (s.blocks (s.objs (s.tensors t)).block)))).tensors = s.tensors from rfl, Function.update_self]
    exact hself
  · simp only [State.frameOf]
    rw [show (s.assign (s.tensors t) (c (s.comps t))).tensors = s.tensors from rfl,
      Function.update_self]
  · intro u hu hut
    have h3 := read_assign_other s (s.tensors t) (c (s.comps t)) (s.tensors u)
      fun k => g.own u hu t ht hut k.1
    constructor
    · simp only [State.comps, State.read] at h3 ⊢
      rw [show (s.assign (s.tensors t) (c ((s.objs (s.tensors t)).cells.map
        (s.blocks (s.objs (s.tensors t)).block)))).tensors = s.tensors from rfl,
        Function.update_of_ne (hne u hu hut)]
      exact h3
    · simp only [State.frameOf]
      rw [show (s.assign (s.tensors t) (c (s.comps t))).tensors = s.tensors from rfl,
        Function.update_of_ne (hne u hu hut)]

/-- `frame.axes = value`: every tensor of the frame is converted exactly once, and no other tensor
changes. -/
theorem C124_set_axes [Inhabited F] (conv : Conv F K) (s : State F K) (h : Reachable conv s)
    (f : ℕ) (v : F) (hf : f < s.nF) (c : List K → List K) (hc : conv (s.frames f) v = .ok c)
    (hlen : ∀ l, (c l).length = l.length) :
    ∃ s', Op.run conv (.setAxes f v) s = (s', .ok .none) ∧ s'.frames f = v ∧
      (∀ t < s.nT, s'.frameOf t = s.frameOf t ∧ s'.tensors t = s.tensors t ∧
        s'.comps t = if s.frameOf t = some f then c (s.comps t) else s.comps t) := by
  have g := reachable_good h
  have hmem : ∀ t, t ∈ s.registered f ↔ t < s.nT ∧ s.frameOf t = some f := by
    intro t; simp [State.registered]
  by_cases he : s.registered f = []
  · refine ⟨{ s with frames := Function.update s.frames f v }, ?_, Function.update_self _ _ _, ?_⟩
    · simp only [Op.run, if_pos hf, if_pos he]
    · intro t ht
      refine ⟨rfl, rfl, ?_⟩
      have hn : s.frameOf t ≠ some f := fun k => by
        have := (hmem t).2 ⟨ht, k⟩
        rw [he] at this
        simp at this
      rw [if_neg hn]; rfl
  · obtain ⟨h1, h2, -, -, -, -, h7⟩ := convert_objs c (s.registered f) s
    refine ⟨{ s.convert c (s.registered f) with
      frames := Function.update (s.convert c (s.registered f)).frames f v }, ?_,
      Function.update_self _ _ _, ?_⟩
    · simp only [Op.run, if_pos hf, if_neg he, hc]
    · intro t ht
      refine ⟨?_, congrFun h2 t, ?_⟩
      · simp only [State.frameOf]; rw [h1, h2]
      · change (s.convert c (s.registered f)).read ((s.convert c (s.registered f)).tensors t) = _
        rw [h2]
        split
        · rename_i hft
          refine read_convert_self c hlen _ s g ?_ (fun u hu => ((hmem u).1 hu).1) t
            ((hmem t).2 ⟨ht, hft⟩)
          exact List.Nodup.filter _ List.nodup_range
        · rename_i hft
          refine read_convert_other _ _ _ _ fun u hu k => ?_
          refine g.own t ht u ((hmem u).1 hu).1 ?_ k.1
          rintro rfl
          exact hft ((hmem t).1 hu).2

/-! ### C124: the array of a tensor is live -/

theorem tensors_runAll [Inhabited F] (conv : Conv F K) (ops : List (Op F K)) :
    ∀ s : State F K, Reachable conv s → ∀ t < s.nT, (∀ idx, .transpose t idx ∉ ops) →
    (runAll conv ops s).tensors t = s.tensors t := by
  induction ops with
  | nil => intro s _ t _ _; rfl
  | cons op ops ih =>
    intro s h t ht hops
    have h1 := tensors_run conv s (reachable_good h) op t ht
      fun idx e => hops idx (by simp [e])
    have h2 := ih _ (reachable_run h op) t (lt_of_lt_of_le ht (ext_run s conv op).nT)
      fun idx k => hops idx (List.mem_cons_of_mem _ k)
    exact h2.trans h1

/-- The array taken from a tensor stays the array of the tensor: after any program which does not
transpose the tensor in place, `t.array` is still that object, so it shows the current components and
the current frame, whatever was done to the tensor meanwhile. -/
theorem C124_live_partial [Inhabited F] (conv : Conv F K) (ops : List (Op F K)) (s : State F K)
    (h : Reachable conv s) (t o : ℕ) (ht : t < s.nT) (ho : s.resolve (.arrayOf t) = some o)
    (hops : ∀ idx, .transpose t idx ∉ ops) :
    (runAll conv ops s).resolve (.arrayOf t) = some o ∧
    (runAll conv ops s).read o = (runAll conv ops s).comps t ∧
    ((runAll conv ops s).objs o).frame = (runAll conv ops s).frameOf t := by
  obtain ⟨-, rfl⟩ := resolve_array ho
  have h1 := tensors_runAll conv ops s h t ht hops
  have h2 := lt_of_lt_of_le ht (ext_runAll conv ops s).nT
  refine ⟨?_, ?_, ?_⟩
  · rw [← h1]; exact if_pos h2
  · unfold State.comps; rw [h1]
  · unfold State.frameOf; rw [h1]

theorem live_general [Inhabited F] (conv : Conv F K) (ops : List (Op F K)) :
    ∀ s : State F K, Reachable conv s → ∀ t < s.nT, ∀ o < s.nO, ∀ done : List (List ℕ),
    (s.objs (s.tensors t)).block = (s.objs o).block →
    (s.objs (s.tensors t)).cells
      = done.foldl (fun l idx => idx.filterMap fun i => l[i]?) (s.objs o).cells →
    (runAll conv ops s).comps t
      = (done ++ turns (s.comps t).length t ops).foldl (fun l idx => idx.filterMap fun i => l[i]?)
        ((runAll conv ops s).read o) := by
  have fold_map : ∀ (f : ℕ → K) (ds : List (List ℕ)) (l : List ℕ),
      (ds.foldl (fun l idx => idx.filterMap fun i => l[i]?) l).map f
        = ds.foldl (fun l idx => idx.filterMap fun i => l[i]?) (l.map f) := by
    intro f ds
    induction ds with
    | nil => intro l; rfl
    | cons d ds ihd => intro l; simp only [List.foldl_cons]; rw [ihd]; congr 1; exact pick_map f l d
  induction ops with
  | nil =>
    intro s _ t _ o _ done hb hc
    simp only [turns, List.filterMap_nil, List.append_nil, runAll, State.comps, State.read]
    rw [hb, hc, fold_map]
  | cons op ops ih =>
    intro s h t ht o ho done hb hc
    have g := reachable_good h
    have e := ext_run s conv op
    have h' := reachable_run (conv := conv) h op
    have ht' := lt_of_lt_of_le ht e.nT
    have ho' := lt_of_lt_of_le ho e.nO
    by_cases hop : ∃ idx, op = .transpose t idx ∧ (∀ i ∈ idx, i < (s.comps t).length) ∧ idx.Nodup ∧
        idx.length = (s.comps t).length
    · obtain ⟨idx, rfl, hi, hn, hl⟩ := hop
      have hl0 : (s.comps t).length = (s.objs (s.tensors t)).cells.length := by
        simp [State.comps, State.read]
      have hra : s.resolve (.arrayOf t) = some (s.tensors t) := if_pos ht
      have hrun : (Op.run conv (.transpose t idx) s).1 =
          { s.view (s.tensors t) idx with
            tensors := Function.update s.tensors t s.nO } := by
        simp only [Op.run, hra]
        rw [if_pos ⟨by rwa [hl0] at hi, hn, by rwa [hl0] at hl⟩]
        rfl
      have htn : (Op.run conv (.transpose t idx) s).1.tensors t = s.nO := by
        rw [hrun]; simp
      have hobj : (Op.run conv (.transpose t idx) s).1.objs s.nO =
          ⟨(s.objs (s.tensors t)).block, pick (s.objs (s.tensors t)).cells idx,
            (s.objs (s.tensors t)).frame⟩ := by
        rw [hrun]; simp [State.view]
      have hlen : ((Op.run conv (.transpose t idx) s).1.comps t).length = (s.comps t).length := by
        simp only [State.comps, State.read, htn, hobj, List.length_map]
        rw [pick_length _ _ (by rwa [hl0] at hi), hl, hl0]
      have key := ih _ h' t ht' o ho' (done ++ [idx]) (by rw [htn, hobj, e.block o ho, ← hb])
        (by
          rw [htn, hobj, e.cells o ho, List.foldl_append, ← hc]
          rfl)
      refine key.trans ?_
      rw [hlen]
      have ht2 : turns (s.comps t).length t (.transpose t idx :: ops)
          = idx :: turns (s.comps t).length t ops := by
        simp only [turns, List.filterMap_cons]
        rw [if_pos ⟨trivial, hi, hn, hl⟩]
      rw [ht2, List.append_assoc]
      rfl
    · have hsame : (op.run conv s).1.tensors t = s.tensors t := by
        by_cases htr : ∃ idx, op = .transpose t idx
        · obtain ⟨idx, rfl⟩ := htr
          have hl0 : (s.comps t).length = (s.objs (s.tensors t)).cells.length := by
            simp [State.comps, State.read]
          have hra : s.resolve (.arrayOf t) = some (s.tensors t) := if_pos ht
          simp only [Op.run, hra]
          rw [if_neg]
          · rfl
          · rintro ⟨h1, h2, h3⟩
            exact hop ⟨idx, rfl, by rwa [hl0], h2, by rwa [hl0]⟩
        · exact tensors_run conv s g op t ht fun idx k => htr ⟨idx, k⟩
      have hto := g.obj t ht
      have hlen : ((op.run conv s).1.comps t).length = (s.comps t).length := by
        simp only [State.comps, State.read, List.length_map]
        rw [hsame, e.cells _ hto]
      have key := ih _ h' t ht' o ho' done
        (by rw [hsame, e.block _ hto, e.block o ho]; exact hb)
        (by rw [hsame, e.cells _ hto, e.cells o ho]; exact hc)
      refine key.trans ?_
      rw [hlen]
      congr 2
      simp only [turns, List.filterMap_cons]
      cases op with
      | transpose u idx =>
        have hcond : ¬(u = t ∧ (∀ i ∈ idx, i < (s.comps t).length) ∧ idx.Nodup ∧
            idx.length = (s.comps t).length) := by
          rintro ⟨rfl, h1, h2, h3⟩
          exact hop ⟨idx, rfl, h1, h2, h3⟩
        simp only [if_neg hcond]
      | _ => rfl

/-- Transposing in place: afterwards the array taken before shows the same numbers in the order they
had, that is, the components of the tensor are the entries of that array in the order of the
transpositions, one after the other; whatever else the program does. -/
theorem C124_live_transposed [Inhabited F] (conv : Conv F K) (ops : List (Op F K)) (s : State F K)
    (h : Reachable conv s) (t o : ℕ) (ht : t < s.nT) (ho : s.resolve (.arrayOf t) = some o) :
    (runAll conv ops s).comps t
      = (turns (s.comps t).length t ops).foldl (fun l idx => idx.filterMap fun i => l[i]?)
        ((runAll conv ops s).read o) := by
  obtain ⟨-, rfl⟩ := resolve_array ho
  exact live_general conv ops s h t ht _ ((reachable_good h).obj t ht) [] rfl rfl

/-- `t.transpose(inplace=True)` returns the tensor itself, with its components in the new order and in
the same frame; no number in memory changes, so every array taken before shows what it showed. -/
theorem C124_transpose_in_place [Inhabited F] (conv : Conv F K) (s : State F K)
    (h : Reachable conv s) (t : ℕ) (ht : t < s.nT) (idx : List ℕ)
    (hi : ∀ i ∈ idx, i < (s.comps t).length) (hn : idx.Nodup)
    (hl : idx.length = (s.comps t).length) :
    ∃ s', Op.run conv (.transpose t idx) s = (s', .ok (.tensor t)) ∧
      s'.comps t = (idx.filterMap fun i => (s.comps t)[i]?) ∧ s'.frameOf t = s.frameOf t ∧
      (∀ o < s.nO, s'.read o = s.read o) ∧
      (∀ u < s.nT, u ≠ t → s'.comps u = s.comps u ∧ s'.frameOf u = s.frameOf u) := by
  have g := reachable_good h
  have hl0 : (s.comps t).length = (s.objs (s.tensors t)).cells.length := by
    simp [State.comps, State.read]
  have hra : s.resolve (.arrayOf t) = some (s.tensors t) := if_pos ht
  have hrun : Op.run conv (.transpose t idx) s = ({ s.view (s.tensors t) idx with
      tensors := Function.update s.tensors t s.nO }, .ok (.tensor t)) := by
    simp only [Op.run, hra]
    exact if_pos ⟨by rwa [hl0] at hi, hn, by rwa [hl0] at hl⟩
  have hobj : (s.view (s.tensors t) idx).objs s.nO =
      ⟨(s.objs (s.tensors t)).block, pick (s.objs (s.tensors t)).cells idx,
        (s.objs (s.tensors t)).frame⟩ := by simp [State.view]
  have hold : ∀ o < s.nO, (s.view (s.tensors t) idx).objs o = s.objs o := fun p hp => by
    simp only [State.view]; rw [Function.update_of_ne (Nat.ne_of_lt hp)]
  refine ⟨_, hrun, ?_, ?_, ?_, ?_⟩
  · simp only [State.comps, State.read, Function.update_self, hobj]
    exact pick_map _ _ _
  · simp only [State.frameOf, Function.update_self, hobj]
  · intro o ho
    simp only [State.read, hold o ho]
    rfl
  · intro u hu hut
    simp only [State.comps, State.read, State.frameOf, Function.update_of_ne hut,
      hold _ (g.obj u hu)]
    exact ⟨rfl, trivial⟩

/-- A statement which raises changes nothing. -/
theorem C124_refused (conv : Conv F K) (s : State F K) (op : Op F K) (e : PyErr)
    (h : (op.run conv s).2 = .error e) : (op.run conv s).1 = s := by
  cases op with
  | fresh xs => cases h
  | slice r idx =>
    simp only [Op.run] at h ⊢
    split
    · rfl
    · split
      · simp_all
      · rfl
  | copy r keep =>
    simp only [Op.run] at h ⊢
    split
    · rfl
    · simp_all
  | write r i x =>
    simp only [Op.run] at h ⊢
    split
    · rfl
    · split
      · simp_all
      · rfl
  | fill r q =>
    simp only [Op.run] at h ⊢
    split
    · split
      · simp_all
      · rfl
    · rfl
  | frame v => cases h
  | setAxes f v =>
    simp only [Op.run] at h ⊢
    split
    · split
      · simp_all
      · split
        · rfl
        · simp_all
    · rfl
  | tensor r f =>
    simp only [Op.run] at h ⊢
    split
    · rfl
    · split
      · simp_all
      · rfl
  | map t g =>
    simp only [Op.run] at h ⊢
    split
    · simp_all
    · rfl
  | mapNew t g =>
    simp only [Op.run] at h ⊢
    split
    · simp_all
    · rfl
  | combine t u g =>
    simp only [Op.run] at h ⊢
    split
    · split
      · rfl
      · simp_all
    · rfl
  | «show» t f =>
    simp only [Op.run] at h ⊢
    split
    · split
      · split
        · rfl
        · simp_all
      · rfl
    · rfl
  | setArray t r =>
    simp only [Op.run] at h ⊢
    split
    · split
      · simp_all
      · rfl
    · rfl
  | inplace t g =>
    simp only [Op.run] at h ⊢
    split
    · rfl
    · split
      · simp_all
      · rfl
  | setFrame t f =>
    simp only [Op.run] at h ⊢
    split
    · split
      · split
        · rfl
        · split
          · simp_all
          · rfl
      · rfl
    · rfl
  | transpose t idx =>
    simp only [Op.run] at h ⊢
    split
    · rfl
    · split
      · simp_all
      · rfl

end

/-! ### C124: what goes wrong, and examples -/

/-- Frames on a line: the axes are a length, components scale, a length of zero is singular. -/
def scale : Conv ℚ ℚ := fun a b => if b = 0 then .error .linalg else .ok (List.map (· * a / b))

/-- Two frames, an array of four numbers, a tensor made from it (its array is object 1), the first row
of it (object 2); then the frame of the tensor is set. -/
def sliced : List (Op ℚ ℚ) :=
  [.frame 1, .frame 2, .fresh [1, 2, 3, 4], .tensor (.obj 0) 0, .slice (.arrayOf 0) [0, 1],
   .setFrame 0 1]

/-- The array cut from the array of a tensor says that its numbers are components in a frame; it goes
on saying so after the tensor has moved to another frame and the numbers with it. -/
theorem C124_slice_frame_violated :
    ¬∀ (ops : List (Op ℚ ℚ)) (t o f : ℕ), let s := runAll scale ops State.empty
      t < s.nT → o < s.nO → (s.objs o).frame = some f →
      (∀ x, x ∈ s.read o → x ∈ s.comps t) →
      (s.objs o).block = (s.objs (s.tensors t)).block → s.frameOf t = some f := by
  intro h
  have := h sliced 0 2 0 (by decide +kernel) (by decide +kernel) (by decide +kernel)
    (by decide +kernel) (by decide +kernel)
  exact absurd this (by decide +kernel)

/-- The same after transposing in place: the array of the tensor is another object, and the one taken
before keeps the frame it had. -/
def turned : List (Op ℚ ℚ) :=
  [.frame 1, .frame 2, .fresh [1, 2, 3, 4], .tensor (.obj 0) 0, .transpose 0 [0, 2, 1, 3],
   .setFrame 0 1]

/-- The claim of `C124_live_partial` without its hypothesis is false. -/
theorem C124_live_violated :
    ¬∀ (before after : List (Op ℚ ℚ)) (t o : ℕ), let s := runAll scale before State.empty
      t < s.nT → s.resolve (.arrayOf t) = some o →
      (runAll scale after s).read o = (runAll scale after s).comps t := by
  intro h
  have := h (turned.take 4) (turned.drop 4) 0 1 (by decide +kernel) (by decide +kernel)
  exact absurd this (by decide +kernel)

example : (runAll scale turned State.empty).comps 0 = [1/2, 3/2, 1, 2]
    ∧ (runAll scale turned State.empty).read 1 = [1/2, 1, 3/2, 2]
    ∧ ((runAll scale turned State.empty).objs 1).frame = some 0
    ∧ (runAll scale turned State.empty).frameOf 0 = some 1 := by decide +kernel

/-- Two tensors made from the same array, one of them is moved, one entry of the array and one of the
other tensor are assigned, the axes of the frame of the other are set. -/
def busy : List (Op ℚ ℚ) :=
  [.frame 1, .frame 2, .fresh [1, 2], .tensor (.obj 0) 0, .tensor (.obj 0) 0, .setFrame 0 1,
   .write (.obj 0) 0 7, .write (.arrayOf 1) 1 9, .setAxes 0 4, .map 0 (List.map (-·)),
   .combine 1 0 (List.zipWith (· + ·)), .setFrame 0 5, .setAxes 0 0]

example : (runAll scale busy State.empty).comps 0 = [1/2, 1]
    ∧ (runAll scale busy State.empty).comps 1 = [1/4, 9/4]
    ∧ (runAll scale busy State.empty).comps 2 = [-1/2, -1]
    ∧ (runAll scale busy State.empty).comps 3 = [1/2, 11/4]
    ∧ (runAll scale busy State.empty).read 0 = [7, 2] := by decide +kernel

/-- `C124_separate`, `C124_untouched`: the hypotheses hold in the run above. -/
example : ¬Shares (runAll scale busy State.empty) ((runAll scale busy State.empty).tensors 0)
    ((runAll scale busy State.empty).tensors 1) :=
  C124_separate scale _ ⟨busy, rfl⟩ 0 1 (by decide +kernel) (by decide +kernel) (by decide)

example : Leaves scale 0 [.write (.arrayOf 1) 1 9, .setAxes 0 4]
    (runAll scale (busy.take 6) State.empty) := by
  refine ⟨?_, ?_, trivial⟩
  · rintro ⟨o, ho, hb, -⟩
    revert hb
    have : o = 2 := by
      have h2 : (runAll scale (busy.take 6) State.empty).resolve (.arrayOf 1) = some 2 := by
        decide +kernel
      rw [h2] at ho
      cases ho; rfl
    subst this
    decide +kernel
  · change ¬(_ = _)
    decide +kernel

/-- `C124_assign` with a view of the tensor itself: the components are reversed. -/
example : (runAll scale [.frame 1, .fresh [1, 2, 3], .tensor (.obj 0) 0,
    .slice (.arrayOf 0) [2, 1, 0], .setArray 0 (.obj 2)] State.empty).comps 0 = [3, 2, 1] := by
  decide +kernel

end Verif.TMem.Props
