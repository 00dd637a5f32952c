import Verif.Model.GAMem
import Mathlib.Data.List.Basic
import Mathlib.Order.Basic
import Mathlib.Algebra.Order.Group.Int
import Mathlib.Tactic.Tauto

/-! # C129: what a genetic algorithm hands out -/

set_option linter.unusedSectionVars false

namespace Verif.GAMem.Props
open Verif Verif.GAMem

variable {G X K D : Type}

/-! ### Vocabulary -/

/-- A genom is right: its phenotype belongs to its genotype, its fitness is the value of the objective at the phenotype. -/
def Right (pb : Problem G X K D) (s : St G X K) (o : ℕ) : Prop :=
  s.lx (s.obj o).x = pb.dec (s.lg (s.obj o).g) ∧ (s.obj o).fit = pb.f (s.lx (s.obj o).x)

/-- The statement does not write to an array that the optimizer has values from in use, nor to the champion. -/
def Harmless (s : St G X K) : Op G X K D → Prop
  | .writeG r _ _ => r = s.genos → s.phenos = none ∧ s.fit = none
  | .writeX r _ _ => s.phenos ≠ some r
  | .writeK r _ _ => s.fit ≠ some r
  | .editX a _ => ∀ o, s.champion = some o → a ≠ (s.obj o).x
  | .editG a _ => ∀ o, s.champion = some o → a ≠ (s.obj o).g
  | .setFit o _ => s.champion ≠ some o
  | _ => True

/-- A program all statements of which are harmless when they are reached. -/
def HarmlessAll (pb : Problem G X K D) (s : St G X K) : List (Op G X K D) → Prop
  | [] => True
  | o :: os => Harmless s o ∧ HarmlessAll pb (o.run pb s).1 os

/-- Writes to an array. -/
def WritesArray : Op G X K D → Prop
  | .writeG .. | .writeX .. | .writeK .. => True
  | _ => False

/-- Changes a genom. -/
def EditsGenom : Op G X K D → Prop
  | .editX .. | .editG .. | .setFit .. => True
  | _ => False

/-! ### Invariant -/

structure Inv (pb : Problem G X K D) (s : St G X K) : Prop where
  genos : s.genos < s.next
  phenos : ∀ r, s.phenos = some r → r < s.next ∧ s.xs r = (s.gs s.genos).map pb.dec
  fit : ∀ r, s.fit = some r → r < s.next ∧ s.ks r = ((s.gs s.genos).map pb.dec).map pb.f
  champ : ∀ o, s.champion = some o → o < s.next ∧ (s.obj o).x < s.next ∧ (s.obj o).g < s.next ∧ Right pb s o ∧
    s.stX = some (s.obj o).x ∧ s.stFun = some (s.obj o).fit
  st0 : s.champion = none → s.stX = none ∧ s.stFun = none

variable {pb : Problem G X K D} {s : St G X K}

theorem up_ne {α : Type} {f : ℕ → α} {a b : ℕ} {v : α} (h : b < a) : Function.update f a v b = f b :=
  Function.update_of_ne (Nat.ne_of_lt h) _ _

/-- What stays when something is computed. -/
structure Ext (s s' : St G X K) : Prop where
  next : s.next ≤ s'.next
  gs : ∀ a, a < s.next → s'.gs a = s.gs a
  xs : ∀ a, a < s.next → s'.xs a = s.xs a
  ks : ∀ a, a < s.next → s'.ks a = s.ks a
  lx : ∀ a, a < s.next → s'.lx a = s.lx a
  lg : ∀ a, a < s.next → s'.lg a = s.lg a
  objx : ∀ a, a < s.next → (s'.obj a).x = (s.obj a).x
  objg : ∀ a, a < s.next → (s'.obj a).g = (s.obj a).g
  objf : ∀ a, a < s.next → (s'.obj a).fit = (s.obj a).fit

theorem Ext.refl (s : St G X K) : Ext s s :=
  ⟨le_rfl, fun _ _ => rfl, fun _ _ => rfl, fun _ _ => rfl, fun _ _ => rfl, fun _ _ => rfl, fun _ _ => rfl, fun _ _ => rfl,
    fun _ _ => rfl⟩

theorem Ext.trans {a b c : St G X K} (h : Ext a b) (h' : Ext b c) : Ext a c where
  next := h.next.trans h'.next
  gs i hi := (h'.gs i (hi.trans_le h.next)).trans (h.gs i hi)
  xs i hi := (h'.xs i (hi.trans_le h.next)).trans (h.xs i hi)
  ks i hi := (h'.ks i (hi.trans_le h.next)).trans (h.ks i hi)
  lx i hi := (h'.lx i (hi.trans_le h.next)).trans (h.lx i hi)
  lg i hi := (h'.lg i (hi.trans_le h.next)).trans (h.lg i hi)
  objx i hi := (h'.objx i (hi.trans_le h.next)).trans (h.objx i hi)
  objg i hi := (h'.objg i (hi.trans_le h.next)).trans (h.objg i hi)
  objf i hi := (h'.objf i (hi.trans_le h.next)).trans (h.objf i hi)

theorem setNew_ext (l : List G) : Ext s (s.setNew l) :=
  ⟨Nat.le_succ _, fun _ h => up_ne h, fun _ _ => rfl, fun _ _ => rfl, fun _ _ => rfl, fun _ _ => rfl, fun _ _ => rfl,
    fun _ _ => rfl, fun _ _ => rfl⟩

theorem phenotypes_ext : Ext s (s.phenotypes pb).1 := by
  unfold St.phenotypes
  split
  · exact Ext.refl s
  · exact ⟨Nat.le_succ _, fun _ _ => rfl, fun _ h => up_ne h, fun _ _ => rfl, fun _ _ => rfl, fun _ _ => rfl,
      fun _ _ => rfl, fun _ _ => rfl, fun _ _ => rfl⟩

theorem fitness_ext : Ext s (s.fitness pb).1 := by
  unfold St.fitness
  split
  · exact Ext.refl s
  · refine (phenotypes_ext (pb := pb)).trans ?_
    exact ⟨Nat.le_succ _, fun _ _ => rfl, fun _ _ => rfl, fun _ h => up_ne h, fun _ _ => rfl, fun _ _ => rfl,
      fun _ _ => rfl, fun _ _ => rfl, fun _ _ => rfl⟩

theorem newGenom_ext (x : X) (g : G) (k : K) : Ext s (s.newGenom x g k).1 :=
  ⟨Nat.le_succ _, fun _ _ => rfl, fun _ _ => rfl, fun _ _ => rfl, fun _ h => up_ne h, fun _ h => up_ne h,
    fun _ h => congrArg Genom.x (up_ne h), fun _ h => congrArg Genom.g (up_ne h), fun _ h => congrArg Genom.fit (up_ne h)⟩

theorem best_ext : Ext s (s.bestCandidate pb).1 := by
  unfold St.bestCandidate
  have h1 := fitness_ext (pb := pb) (s := s)
  generalize s.fitness pb = p at h1 ⊢
  obtain ⟨s1, r⟩ := p
  simp only
  split
  · exact h1
  · rename_i i _
    have h2 := phenotypes_ext (pb := pb) (s := s1)
    generalize s1.phenotypes pb = q at h2 ⊢
    obtain ⟨s2, q⟩ := q
    simp only
    split
    · exact (h1.trans h2).trans (newGenom_ext _ _ _)
    · exact h1.trans h2

theorem crown_ext (o c : ℕ) : Ext s (s.crown o c) := by
  refine ⟨le_rfl, fun _ _ => rfl, fun _ _ => rfl, fun _ _ => rfl, fun _ _ => rfl, fun _ _ => rfl, fun a _ => ?_,
    fun a _ => ?_, fun a _ => ?_⟩
  all_goals
    unfold St.crown
    by_cases h : a = c
    · subst h
      simp only [Function.update_self]
    · simp only [Function.update_of_ne h]

theorem celebrate_ext (o : ℕ) : Ext s (s.celebrate pb o) := crown_ext o _

theorem advance_ext (d : D) : Ext s (s.advance pb d).1 := by
  unfold St.advance
  split
  · exact Ext.refl s
  · exact ⟨le_rfl, fun _ _ => rfl, fun _ _ => rfl, fun _ _ => rfl, fun _ _ => rfl, fun _ _ => rfl, fun _ _ => rfl,
      fun _ _ => rfl, fun _ _ => rfl⟩
  · have h1 := fitness_ext (pb := pb) (s := s)
    generalize s.fitness pb = p at h1 ⊢
    obtain ⟨s1, r⟩ := p
    simp only
    split
    · exact h1.trans ⟨le_rfl, fun _ _ => rfl, fun _ _ => rfl, fun _ _ => rfl, fun _ _ => rfl, fun _ _ => rfl, fun _ _ => rfl,
        fun _ _ => rfl, fun _ _ => rfl⟩
    · exact h1.trans (setNew_ext _)

theorem evolve_ext (d : D) : Ext s (s.evolve pb d).1 := by
  unfold St.evolve
  have h1 := advance_ext (pb := pb) (s := s) d
  generalize s.advance pb d = p at h1 ⊢
  obtain ⟨s1, e⟩ := p
  cases e with
  | error e => exact h1
  | ok u =>
    have h2 := best_ext (pb := pb) (s := s1)
    simp only
    generalize s1.bestCandidate pb = q at h2 ⊢
    obtain ⟨s2, e⟩ := q
    cases e with
    | error e => exact h1.trans h2
    | ok o => exact (h1.trans h2).trans (celebrate_ext o)

theorem reset_ext (d : D) : Ext s (s.reset pb d).1 := by
  unfold St.reset
  split
  · exact ⟨le_rfl, fun _ _ => rfl, fun _ _ => rfl, fun _ _ => rfl, fun _ _ => rfl, fun _ _ => rfl, fun _ _ => rfl,
      fun _ _ => rfl, fun _ _ => rfl⟩
  · rename_i l _
    exact (setNew_ext l).trans ⟨le_rfl, fun _ _ => rfl, fun _ _ => rfl, fun _ _ => rfl, fun _ _ => rfl, fun _ _ => rfl,
      fun _ _ => rfl, fun _ _ => rfl, fun _ _ => rfl⟩

/-- Statements that neither write to an array nor change a genom. -/
theorem run_ext (o : Op G X K D) (h1 : ¬ WritesArray o) (h2 : ¬ EditsGenom o) : Ext s (o.run pb s).1 := by
  cases o with
  | reset d => exact reset_ext d
  | evolve d => exact evolve_ext d
  | array l =>
    exact ⟨Nat.le_succ _, fun _ h => up_ne h, fun _ _ => rfl, fun _ _ => rfl, fun _ _ => rfl, fun _ _ => rfl,
      fun _ _ => rfl, fun _ _ => rfl, fun _ _ => rfl⟩
  | assign r =>
    simp only [Op.run]
    split
    · exact ⟨le_rfl, fun _ _ => rfl, fun _ _ => rfl, fun _ _ => rfl, fun _ _ => rfl, fun _ _ => rfl, fun _ _ => rfl,
        fun _ _ => rfl, fun _ _ => rfl⟩
    · exact Ext.refl s
  | phenotypes => exact phenotypes_ext
  | fitness => exact fitness_ext
  | best => exact best_ext
  | writeG r i g => exact absurd trivial h1
  | writeX r i x => exact absurd trivial h1
  | writeK r i k => exact absurd trivial h1
  | editX a x => exact absurd trivial h2
  | editG a g => exact absurd trivial h2
  | setFit o k => exact absurd trivial h2

/-- Carrying the invariant over, if the attributes concerning caches and champion stay or are valid. -/
theorem Inv.of_ext {s' : St G X K} (h : Inv pb s) (he : Ext s s') (hg : s'.genos = s.genos)
    (hp : ∀ r, s'.phenos = some r → s.phenos = some r ∨ r < s'.next ∧ s'.xs r = (s'.gs s'.genos).map pb.dec)
    (hf : ∀ r, s'.fit = some r → s.fit = some r ∨ r < s'.next ∧ s'.ks r = ((s'.gs s'.genos).map pb.dec).map pb.f)
    (hc : s'.champion = s.champion) (hx : s'.stX = s.stX) (hk : s'.stFun = s.stFun) : Inv pb s' where
  genos := by
    rw [hg]
    exact h.genos.trans_le he.next
  phenos r hr := by
    rcases hp r hr with h1 | h1
    · obtain ⟨h2, h3⟩ := h.phenos r h1
      refine ⟨h2.trans_le he.next, ?_⟩
      rw [he.xs r h2, h3, hg, he.gs _ h.genos]
    · exact h1
  fit r hr := by
    rcases hf r hr with h1 | h1
    · obtain ⟨h2, h3⟩ := h.fit r h1
      refine ⟨h2.trans_le he.next, ?_⟩
      rw [he.ks r h2, h3, hg, he.gs _ h.genos]
    · exact h1
  champ o ho := by
    rw [hc] at ho
    obtain ⟨h1, h2, h3, ⟨h4, h5⟩, h6, h7⟩ := h.champ o ho
    refine ⟨h1.trans_le he.next, ?_, ?_, ⟨?_, ?_⟩, ?_, ?_⟩
    · rw [he.objx o h1]
      exact h2.trans_le he.next
    · rw [he.objg o h1]
      exact h3.trans_le he.next
    · rw [he.objx o h1, he.objg o h1, he.lx _ h2, he.lg _ h3]
      exact h4
    · rw [he.objf o h1, he.objx o h1, he.lx _ h2]
      exact h5
    · rw [hx, he.objx o h1]
      exact h6
    · rw [hk, he.objf o h1]
      exact h7
  st0 h0 := by
    rw [hx, hk]
    exact h.st0 (hc ▸ h0)

/-- The same, with a new population. -/
theorem Inv.setNew (h : Inv pb s) (l : List G) : Inv pb (s.setNew l) where
  genos := Nat.lt_succ_self _
  phenos r hr := by cases hr
  fit r hr := by cases hr
  champ o ho := by
    obtain ⟨h1, h2, h3, h4, h6, h7⟩ := h.champ o ho
    exact ⟨h1.trans (Nat.lt_succ_self _), h2.trans (Nat.lt_succ_self _), h3.trans (Nat.lt_succ_self _), h4, h6, h7⟩
  st0 h0 := h.st0 h0

theorem phenotypes_spec (h : Inv pb s) : Inv pb (s.phenotypes pb).1 ∧ (s.phenotypes pb).1.genos = s.genos ∧
    (s.phenotypes pb).1.xs (s.phenotypes pb).2 = (s.gs s.genos).map pb.dec ∧ (s.phenotypes pb).2 < (s.phenotypes pb).1.next ∧
    (s.phenotypes pb).1.phenos = some (s.phenotypes pb).2 ∧ (s.phenotypes pb).1.fit = s.fit ∧
    (s.phenotypes pb).1.champion = s.champion := by
  have he := phenotypes_ext (pb := pb) (s := s)
  revert he
  unfold St.phenotypes
  split
  · rename_i r hr
    intro _
    exact ⟨h, rfl, (h.phenos r hr).2, (h.phenos r hr).1, hr, rfl, rfl⟩
  · intro he
    refine ⟨h.of_ext he rfl (fun r hr => ?_) (fun r hr => Or.inl hr) rfl rfl rfl, rfl, ?_, Nat.lt_succ_self _, rfl, rfl, rfl⟩
    · obtain rfl := Option.some.inj hr
      refine Or.inr ⟨Nat.lt_succ_self _, ?_⟩
      exact Function.update_self ..
    · exact Function.update_self ..

theorem fitness_spec (h : Inv pb s) : Inv pb (s.fitness pb).1 ∧ (s.fitness pb).1.genos = s.genos ∧
    (s.fitness pb).1.ks (s.fitness pb).2 = ((s.gs s.genos).map pb.dec).map pb.f ∧
    (s.fitness pb).2 < (s.fitness pb).1.next := by
  unfold St.fitness
  split
  · rename_i r hr
    exact ⟨h, rfl, (h.fit r hr).2, (h.fit r hr).1⟩
  · obtain ⟨h1, h2, h3, h4, h5, h6, h7⟩ := phenotypes_spec h
    have he1 := phenotypes_ext (pb := pb) (s := s)
    generalize s.phenotypes pb = p at *
    obtain ⟨s1, r⟩ := p
    simp only at *
    have hk : Function.update s1.ks s1.next ((s1.xs r).map pb.f) s1.next = ((s.gs s.genos).map pb.dec).map pb.f := by
      rw [Function.update_self, h3]
    refine ⟨h1.of_ext ⟨Nat.le_succ _, fun _ _ => rfl, fun _ _ => rfl, fun _ h => up_ne h, fun _ _ => rfl, fun _ _ => rfl,
      fun _ _ => rfl, fun _ _ => rfl, fun _ _ => rfl⟩ rfl (fun q hq => Or.inl hq) (fun q hq => ?_) rfl rfl rfl, h2, hk,
      Nat.lt_succ_self _⟩
    obtain rfl := Option.some.inj hq
    refine Or.inr ⟨Nat.lt_succ_self _, ?_⟩
    simp only
    rw [hk, h2, he1.gs _ h.genos]

theorem best_spec (h : Inv pb s) : Inv pb (s.bestCandidate pb).1 ∧ (s.bestCandidate pb).1.genos = s.genos ∧
    ∀ o, (s.bestCandidate pb).2 = .ok o → o < (s.bestCandidate pb).1.next ∧
      ((s.bestCandidate pb).1.obj o).x < (s.bestCandidate pb).1.next ∧
      ((s.bestCandidate pb).1.obj o).g < (s.bestCandidate pb).1.next ∧ Right pb (s.bestCandidate pb).1 o ∧
      (s.bestCandidate pb).1.lg ((s.bestCandidate pb).1.obj o).g ∈ s.gs s.genos := by
  obtain ⟨h1, h2, h3, h4⟩ := fitness_spec h
  have he1 := fitness_ext (pb := pb) (s := s)
  unfold St.bestCandidate
  generalize s.fitness pb = p at *
  obtain ⟨s1, r⟩ := p
  simp only at *
  cases harg : pb.arg (s1.ks r) with
  | error e => exact ⟨h1, h2, fun o ho => by cases ho⟩
  | ok i =>
    simp only
    obtain ⟨g1, g2, g3, g4, g5, g6, g7⟩ := phenotypes_spec h1
    have he2 := phenotypes_ext (pb := pb) (s := s1)
    generalize s1.phenotypes pb = q at *
    obtain ⟨s2, q⟩ := q
    simp only at *
    have e1 : s2.gs s2.genos = s.gs s.genos := by
      rw [g2, h2, he2.gs _ (h.genos.trans_le he1.next), he1.gs _ h.genos]
    have e2 : s2.xs q = (s.gs s.genos).map pb.dec := by
      rw [g3, h2, he1.gs _ h.genos]
    have e3 : s2.ks r = ((s.gs s.genos).map pb.dec).map pb.f := by
      rw [he2.ks _ h4, h3]
    rw [e1, e2, e3]
    cases hg : (s.gs s.genos)[i]? with
    | none =>
      have : ((s.gs s.genos).map pb.dec)[i]? = none := by rw [List.getElem?_map, hg]; rfl
      rw [this]
      exact ⟨g1, g2.trans h2, fun o ho => by cases ho⟩
    | some g =>
      have hx : ((s.gs s.genos).map pb.dec)[i]? = some (pb.dec g) := by rw [List.getElem?_map, hg]; rfl
      have hk : (((s.gs s.genos).map pb.dec).map pb.f)[i]? = some (pb.f (pb.dec g)) := by rw [List.getElem?_map, hx]; rfl
      rw [hx, hk]
      simp only
      refine ⟨g1.of_ext (newGenom_ext _ _ _) rfl (fun r hr => Or.inl hr) (fun r hr => Or.inl hr) rfl rfl rfl, g2.trans h2,
        fun o ho => ?_⟩
      have ho' : s2.next = o := by
        cases ho
        rfl
      subst ho'
      have hobj : (s2.newGenom (pb.dec g) g (pb.f (pb.dec g))).1.obj s2.next = ⟨s2.next, s2.next, pb.f (pb.dec g), 0⟩ :=
        Function.update_self ..
      have hlx : (s2.newGenom (pb.dec g) g (pb.f (pb.dec g))).1.lx s2.next = pb.dec g := Function.update_self ..
      have hlg : (s2.newGenom (pb.dec g) g (pb.f (pb.dec g))).1.lg s2.next = g := Function.update_self ..
      refine ⟨Nat.lt_succ_self _, ?_, ?_, ⟨?_, ?_⟩, ?_⟩
      · rw [hobj]
        exact Nat.lt_succ_self _
      · rw [hobj]
        exact Nat.lt_succ_self _
      · rw [hobj, hlx, hlg]
      · rw [hobj, hlx]
      · rw [hobj, hlg]
        exact List.mem_of_getElem? hg

theorem celebrate_inv (h : Inv pb s) (o : ℕ) (ho : o < s.next ∧ (s.obj o).x < s.next ∧ (s.obj o).g < s.next ∧ Right pb s o) :
    Inv pb (s.celebrate pb o) := by
  have hc : ∀ c, (c = o ∨ s.champion = some c) → c < s.next ∧ (s.obj c).x < s.next ∧ (s.obj c).g < s.next ∧ Right pb s c := by
    rintro c (rfl | hc)
    · exact ho
    · obtain ⟨h1, h2, h3, h4, -, -⟩ := h.champ c hc
      exact ⟨h1, h2, h3, h4⟩
  have hmem : s.winner pb o = o ∨ s.champion = some (s.winner pb o) := by
    unfold St.winner
    cases hch : s.champion with
    | none => exact Or.inl rfl
    | some c =>
      simp only
      split
      · exact Or.inl rfl
      · exact Or.inr rfl
  unfold St.celebrate
  generalize s.winner pb o = c at hmem ⊢
  have he := crown_ext (s := s) o c
  obtain ⟨c1, c2, c3, c4, c5⟩ := hc c hmem
  have k1 := he.objx c c1
  have k2 := he.objg c c1
  have k3 := he.objf c c1
  refine ⟨h.genos, fun r hr => h.phenos r hr, fun r hr => h.fit r hr, fun q hq => ?_, (fun h0 => by cases h0)⟩
  obtain rfl : c = q := Option.some.inj hq
  refine ⟨c1, ?_, ?_, ⟨?_, ?_⟩, ?_, ?_⟩
  · rw [k1]; exact c2
  · rw [k2]; exact c3
  · rw [k1, k2]; exact c4
  · rw [k1, k3]; exact c5
  · rw [k1]; rfl
  · rw [k3]; rfl

theorem advance_inv (h : Inv pb s) (d : D) : Inv pb (s.advance pb d).1 := by
  unfold St.advance
  split
  · exact h
  · exact ⟨h.genos, h.phenos, h.fit, h.champ, h.st0⟩
  · obtain ⟨h1, -⟩ := fitness_spec h
    generalize s.fitness pb = p at h1 ⊢
    obtain ⟨s1, r⟩ := p
    simp only
    split
    · exact ⟨h1.genos, h1.phenos, h1.fit, h1.champ, h1.st0⟩
    · exact h1.setNew _

theorem evolve_inv (h : Inv pb s) (d : D) : Inv pb (s.evolve pb d).1 := by
  unfold St.evolve
  have h1 := advance_inv h d
  generalize s.advance pb d = p at h1 ⊢
  obtain ⟨s1, e⟩ := p
  cases e with
  | error e => exact h1
  | ok u =>
    obtain ⟨h2, -, h3⟩ := best_spec h1
    simp only
    generalize s1.bestCandidate pb = q at h2 h3 ⊢
    obtain ⟨s2, e⟩ := q
    cases e with
    | error e => exact h2
    | ok o =>
      obtain ⟨a, b, c, d, -⟩ := h3 o rfl
      exact celebrate_inv h2 o ⟨a, b, c, d⟩

theorem reset_inv (h : Inv pb s) (d : D) : Inv pb (s.reset pb d).1 := by
  unfold St.reset
  split
  · exact ⟨h.genos, h.phenos, h.fit, h.champ, h.st0⟩
  · rename_i l _
    have h1 := h.setNew l
    exact ⟨h1.genos, h1.phenos, h1.fit, (fun o ho => by cases ho), fun _ => ⟨rfl, rfl⟩⟩

theorem run_inv (h : Inv pb s) (o : Op G X K D) (hh : Harmless s o) : Inv pb (o.run pb s).1 := by
  cases o with
  | reset d => exact reset_inv h d
  | evolve d => exact evolve_inv h d
  | array l =>
    refine h.of_ext (run_ext (.array l) (fun x => x) fun x => x) rfl (fun r hr => Or.inl hr) (fun r hr => Or.inl hr) rfl rfl rfl
  | assign r =>
    simp only [Op.run]
    split
    · rename_i hr
      exact ⟨hr, (fun _ hq => by cases hq), (fun _ hq => by cases hq), h.champ, h.st0⟩
    · exact h
  | phenotypes => exact (phenotypes_spec h).1
  | fitness => exact (fitness_spec h).1
  | best => exact (best_spec h).1
  | writeG r i g =>
    simp only [Op.run]
    split
    · by_cases hr : r = s.genos
      · obtain ⟨h1, h2⟩ := hh hr
        exact ⟨h.genos, fun q hq => absurd (h1.symm.trans hq) (by simp), fun q hq => absurd (h2.symm.trans hq) (by simp), h.champ, h.st0⟩
      · have hg : Function.update s.gs r ((s.gs r).set i g) s.genos = s.gs s.genos := Function.update_of_ne (Ne.symm hr) _ _
        refine ⟨h.genos, fun q hq => ?_, fun q hq => ?_, h.champ, h.st0⟩
        · simp only [hg]
          exact h.phenos q hq
        · simp only [hg]
          exact h.fit q hq
    · exact h
  | writeX r i x =>
    simp only [Op.run]
    split
    · refine ⟨h.genos, fun q hq => ?_, h.fit, h.champ, h.st0⟩
      have hne : q ≠ r := fun he => hh (he ▸ hq)
      simp only [Function.update_of_ne hne]
      exact h.phenos q hq
    · exact h
  | writeK r i k =>
    simp only [Op.run]
    split
    · refine ⟨h.genos, h.phenos, fun q hq => ?_, h.champ, h.st0⟩
      have hne : q ≠ r := fun he => hh (he ▸ hq)
      simp only [Function.update_of_ne hne]
      exact h.fit q hq
    · exact h
  | editX a x =>
    refine ⟨h.genos, h.phenos, h.fit, fun o ho => ?_, h.st0⟩
    obtain ⟨h1, h2, h3, ⟨h4, h5⟩, h6, h7⟩ := h.champ o ho
    have hne := Function.update_of_ne (Ne.symm (hh o ho)) x s.lx
    refine ⟨h1, h2, h3, ⟨?_, ?_⟩, h6, h7⟩
    · simp only [Op.run, hne]; exact h4
    · simp only [Op.run, hne]; exact h5
  | editG a g =>
    refine ⟨h.genos, h.phenos, h.fit, fun o ho => ?_, h.st0⟩
    obtain ⟨h1, h2, h3, ⟨h4, h5⟩, h6, h7⟩ := h.champ o ho
    have hne := Function.update_of_ne (Ne.symm (hh o ho)) g s.lg
    refine ⟨h1, h2, h3, ⟨?_, ?_⟩, h6, h7⟩
    · simp only [Op.run, hne]; exact h4
    · exact h5
  | setFit a k =>
    refine ⟨h.genos, h.phenos, h.fit, fun o ho => ?_, h.st0⟩
    have hne : o ≠ a := fun he => hh (he ▸ ho)
    have := h.champ o ho
    simp only [Op.run, Right, Function.update_of_ne hne]
    exact this

theorem runAll_inv (h : Inv pb s) (os : List (Op G X K D)) (hh : HarmlessAll pb s os) : Inv pb (runAll pb s os) := by
  induction os generalizing s with
  | nil => exact h
  | cons o os ih => exact ih (run_inv h o hh.1) hh.2

theorem make_inv (d : D) (m s0 : St G X K) (h : make pb d m = .ok s0) : Inv pb s0 := by
  unfold make St.reset at h
  cases hp : pb.populate d with
  | error e =>
    rw [hp] at h
    cases h
  | ok l =>
    rw [hp] at h
    cases h
    exact ⟨Nat.lt_succ_self _, (fun r hr => by cases hr), (fun r hr => by cases hr), (fun o ho => by cases ho), fun _ => ⟨rfl, rfl⟩⟩

/-! ### C129 -/

/-- C129: in all programs that do not write to arrays while the optimizer has values computed from them in use, the champion and the best
candidate are right, the state shows the champion, and phenotypes and fitness belong to the genotypes in force. -/
theorem C129_consistent_partial (pb : Problem G X K D) (d : D) (m s0 : St G X K) (hm : make pb d m = .ok s0)
    (os : List (Op G X K D)) (hh : HarmlessAll pb s0 os) (s : St G X K) (hs : s = runAll pb s0 os) :
    (∀ o, s.champion = some o → Right pb s o ∧ s.stX = some (s.obj o).x ∧ s.stFun = some (s.obj o).fit) ∧
    (s.champion = none → s.stX = none ∧ s.stFun = none) ∧
    (∀ s' o, Op.run pb s .best = (s', .ok (.addr o)) → Right pb s' o ∧ s'.lg (s'.obj o).g ∈ s.gs s.genos) ∧
    (∀ s' r, Op.run pb s .phenotypes = (s', .ok (.addr r)) → s'.xs r = (s.gs s.genos).map pb.dec) ∧
    ∀ s' r, Op.run pb s .fitness = (s', .ok (.addr r)) → s'.ks r = (s.gs s.genos).map fun g => pb.f (pb.dec g) := by
  have hi : Inv pb s := hs ▸ runAll_inv (make_inv d m s0 hm) os hh
  refine ⟨fun o ho => ?_, hi.st0, fun s' o h => ?_, fun s' r h => ?_, fun s' r h => ?_⟩
  · obtain ⟨-, -, -, h4, h5, h6⟩ := hi.champ o ho
    exact ⟨h4, h5, h6⟩
  · obtain ⟨-, -, h3⟩ := best_spec hi
    simp only [Op.run] at h
    generalize s.bestCandidate pb = q at h h3
    obtain ⟨s2, e⟩ := q
    cases e with
    | error e => cases (Prod.mk.inj h).2
    | ok o' =>
      obtain ⟨rfl, h2⟩ := Prod.mk.inj h
      cases h2
      obtain ⟨-, -, -, a, b⟩ := h3 o rfl
      exact ⟨a, b⟩
  · obtain ⟨-, -, h3, -⟩ := phenotypes_spec hi
    obtain ⟨rfl, h2⟩ := Prod.mk.inj h
    cases h2
    exact h3
  · obtain ⟨-, -, h3, -⟩ := fitness_spec hi
    obtain ⟨rfl, h2⟩ := Prod.mk.inj h
    cases h2
    exact h3.trans (List.map_map ..)

theorem phenotypes_obj : (s.phenotypes pb).1.obj = s.obj ∧ (s.phenotypes pb).1.champion = s.champion := by
  unfold St.phenotypes
  split <;> exact ⟨rfl, rfl⟩

theorem fitness_obj : (s.fitness pb).1.obj = s.obj ∧ (s.fitness pb).1.champion = s.champion := by
  unfold St.fitness
  split
  · exact ⟨rfl, rfl⟩
  · exact phenotypes_obj

theorem advance_obj (d : D) : (s.advance pb d).1.obj = s.obj ∧ (s.advance pb d).1.champion = s.champion := by
  unfold St.advance
  split
  · exact ⟨rfl, rfl⟩
  · exact ⟨rfl, rfl⟩
  · have h := fitness_obj (pb := pb) (s := s)
    generalize s.fitness pb = p at h ⊢
    obtain ⟨s1, r⟩ := p
    simp only
    split <;> exact h

theorem best_obj {s' : St G X K} {o : ℕ} (h : s.bestCandidate pb = (s', .ok o)) :
    s.next ≤ o ∧ s'.champion = s.champion ∧ (s'.obj o).age = 0 ∧ ∀ a, a ≠ o → s'.obj a = s.obj a := by
  unfold St.bestCandidate at h
  have h1 := fitness_obj (pb := pb) (s := s)
  have e1 := fitness_ext (pb := pb) (s := s)
  generalize s.fitness pb = p at h h1 e1
  obtain ⟨s1, r⟩ := p
  simp only at h h1 e1
  split at h
  · cases h
  · have h2 := phenotypes_obj (pb := pb) (s := s1)
    have e2 := phenotypes_ext (pb := pb) (s := s1)
    generalize s1.phenotypes pb = q at h h2 e2
    obtain ⟨s2, r2⟩ := q
    simp only at h h2 e2
    split at h
    · simp only [St.newGenom] at h
      cases h
      refine ⟨e1.next.trans e2.next, h2.2.trans h1.2, by simp, fun a ha => ?_⟩
      show Function.update s2.obj s2.next _ a = _
      rw [Function.update_of_ne ha, h2.1, h1.1]
    · cases h

/-- C129: the age of a champion counts the cycles it has been champion for: after a cycle that went well it is one
more than before if the champion has stayed, and one if it is a new object; no other object has grown older. -/
theorem C129_age (pb : Problem G X K D) (d : D) (m s0 : St G X K) (hm : make pb d m = .ok s0)
    (os : List (Op G X K D)) (hh : HarmlessAll pb s0 os) (s s' : St G X K) (hs : s = runAll pb s0 os) (d' : D)
    (r : Out) (h : Op.run pb s (.evolve d') = (s', .ok r)) :
    ∃ c, s'.champion = some c ∧ (s.champion = some c → (s'.obj c).age = (s.obj c).age + 1) ∧
      (s.champion ≠ some c → (s'.obj c).age = 1 ∧ s.next ≤ c) ∧
      ∀ a, a < s.next → a ≠ c → (s'.obj a).age = (s.obj a).age := by
  have hi : Inv pb s := hs ▸ runAll_inv (make_inv d m s0 hm) os hh
  have h : s.evolve pb d' = (s', .ok ()) := by
    simp only [Op.run] at h
    generalize s.evolve pb d' = q at h ⊢
    obtain ⟨s2, e⟩ := q
    cases e with
    | error e => cases h
    | ok u => cases h; rfl
  have ha := advance_obj (pb := pb) (s := s) d'
  have ea := advance_ext (pb := pb) (s := s) d'
  unfold St.evolve at h
  generalize s.advance pb d' = q at h ha ea
  obtain ⟨s1, e⟩ := q
  cases e with
  | error e => cases h
  | ok u =>
    simp only at h ha ea
    cases hb : s1.bestCandidate pb with
    | mk s2 e =>
      rw [hb] at h
      cases e with
      | error e => cases h
      | ok o =>
        obtain ⟨b1, b2, b3, b4⟩ := best_obj hb
        simp only at h
        cases h
        have ho : s.next ≤ o := ea.next.trans b1
        refine ⟨s2.winner pb o, rfl, fun hc => ?_, fun hc => ?_, fun a ha1 ha2 => ?_⟩
        · have hne : s2.winner pb o ≠ o := by
            have := (hi.champ _ hc).1
            omega
          show (Function.update s2.obj (s2.winner pb o) _ (s2.winner pb o)).age = _
          rw [Function.update_self, if_neg hne, b4 _ hne, ha.1]
        · have hw : s2.winner pb o = o := by
            unfold St.winner
            split
            · rfl
            · rename_i c hcc
              split
              · rfl
              · rename_i hbt
                exfalso
                apply hc
                have h3 : s.champion = some c := by rw [← hcc, b2, ha.2]
                rw [h3]
                simp only [St.winner, hcc, if_neg hbt]
          rw [hw]
          refine ⟨?_, ho⟩
          show (Function.update s2.obj (s2.winner pb o) _ o).age = _
          rw [hw, Function.update_self, if_pos rfl]
        · show (Function.update s2.obj (s2.winner pb o) _ a).age = _
          rw [Function.update_of_ne ha2, b4 a (by omega), ha.1]

/-- C129: the optimizer does not change what it has handed out: arrays stay as they are in all programs without writes of their own, and
genoms (but for the age of the champion) as well. -/
theorem C129_kept (pb : Problem G X K D) (os : List (Op G X K D)) (s : St G X K) (h : ∀ o ∈ os, ¬ WritesArray o ∧ ¬ EditsGenom o)
    (a : ℕ) (ha : a < s.next) :
    (runAll pb s os).gs a = s.gs a ∧ (runAll pb s os).xs a = s.xs a ∧ (runAll pb s os).ks a = s.ks a ∧
    (runAll pb s os).lx a = s.lx a ∧ (runAll pb s os).lg a = s.lg a ∧
    ((runAll pb s os).obj a).x = (s.obj a).x ∧ ((runAll pb s os).obj a).g = (s.obj a).g ∧
    ((runAll pb s os).obj a).fit = (s.obj a).fit := by
  have : Ext s (runAll pb s os) := by
    clear ha
    induction os generalizing s with
    | nil => exact Ext.refl s
    | cons o os ih =>
      have h1 := h o (by simp)
      exact (run_ext o h1.1 h1.2).trans (ih _ fun q hq => h q (List.mem_cons_of_mem _ hq))
  exact ⟨this.gs a ha, this.xs a ha, this.ks a ha, this.lx a ha, this.lg a ha, this.objx a ha, this.objg a ha, this.objf a ha⟩

/-- C129: genoms are copies: writing to arrays, whichever, does not change any genom made before. -/
theorem C129_copies (pb : Problem G X K D) (os : List (Op G X K D)) (s : St G X K) (h : ∀ o ∈ os, ¬ EditsGenom o)
    (o : ℕ) (ho : o < s.next) (hx : (s.obj o).x < s.next) (hg : (s.obj o).g < s.next) :
    (runAll pb s os).lx ((runAll pb s os).obj o).x = s.lx (s.obj o).x ∧
    (runAll pb s os).lg ((runAll pb s os).obj o).g = s.lg (s.obj o).g ∧ ((runAll pb s os).obj o).fit = (s.obj o).fit := by
  have key : ∀ (os : List (Op G X K D)) (s : St G X K), (∀ o ∈ os, ¬ EditsGenom o) →
      s.next ≤ (runAll pb s os).next ∧ ∀ a, a < s.next → (runAll pb s os).lx a = s.lx a ∧ (runAll pb s os).lg a = s.lg a ∧
        ((runAll pb s os).obj a).x = (s.obj a).x ∧ ((runAll pb s os).obj a).g = (s.obj a).g ∧
        ((runAll pb s os).obj a).fit = (s.obj a).fit := by
    intro os
    induction os with
    | nil => intro s _; exact ⟨le_rfl, fun a _ => ⟨rfl, rfl, rfl, rfl, rfl⟩⟩
    | cons p os ih =>
      intro s h
      have h1 := h p (by simp)
      obtain ⟨n2, i2⟩ := ih (p.run pb s).1 fun q hq => h q (List.mem_cons_of_mem _ hq)
      have step : s.next ≤ (p.run pb s).1.next ∧ ∀ a, a < s.next → (p.run pb s).1.lx a = s.lx a ∧ (p.run pb s).1.lg a = s.lg a ∧
          ((p.run pb s).1.obj a).x = (s.obj a).x ∧ ((p.run pb s).1.obj a).g = (s.obj a).g ∧
          ((p.run pb s).1.obj a).fit = (s.obj a).fit := by
        by_cases hw : WritesArray p
        · cases p with
          | writeG r i g =>
            simp only [Op.run]
            split <;> exact ⟨le_rfl, fun a _ => ⟨rfl, rfl, rfl, rfl, rfl⟩⟩
          | writeX r i x =>
            simp only [Op.run]
            split <;> exact ⟨le_rfl, fun a _ => ⟨rfl, rfl, rfl, rfl, rfl⟩⟩
          | writeK r i k =>
            simp only [Op.run]
            split <;> exact ⟨le_rfl, fun a _ => ⟨rfl, rfl, rfl, rfl, rfl⟩⟩
          | _ => exact absurd hw fun x => x
        · have e := run_ext (pb := pb) (s := s) p hw h1
          exact ⟨e.next, fun a ha => ⟨e.lx a ha, e.lg a ha, e.objx a ha, e.objg a ha, e.objf a ha⟩⟩
      refine ⟨step.1.trans n2, fun a ha => ?_⟩
      obtain ⟨s1, s2, s3, s4, s5⟩ := step.2 a ha
      obtain ⟨t1, t2, t3, t4, t5⟩ := i2 a (ha.trans_le step.1)
      exact ⟨t1.trans s1, t2.trans s2, t3.trans s3, t4.trans s4, t5.trans s5⟩
  obtain ⟨-, hall⟩ := key os s h
  obtain ⟨-, -, a3, a4, a5⟩ := hall o ho
  refine ⟨?_, ?_, a5⟩
  · rw [a3]
    exact (hall _ hx).1
  · rw [a4]
    exact (hall _ hg).2.1

/-! ### Violations -/

/-- Whole numbers, to be maximized, each its own phenotype and fitness; new populations are the old ones. -/
def ints : Problem ℤ ℤ ℤ Unit where
  dec g := g
  f x := x
  breed _ gs _ := .ok gs
  populate _ := .ok [1, 2]
  arg ks := if ks = [] then .error .value else .ok (ks.idxOf (ks.foldl max (ks.headD 0)))
  better a b := decide (b < a)

/-- An empty memory. -/
def void : St ℤ ℤ ℤ := ⟨fun _ => [], fun _ => [], fun _ => [], fun _ => 0, fun _ => 0, fun _ => ⟨0, 0, 0, 0⟩, 0, 0, none, none,
  none, none, none, .dead⟩

/-- What a program sees of a genom: genotype, phenotype, fitness. -/
def look (s : St ℤ ℤ ℤ) (o : ℕ) : ℤ × ℤ × ℤ := (s.lg (s.obj o).g, s.lx (s.obj o).x, (s.obj o).fit)

/-- What `best_candidate` gives after a program. -/
def bestAfter (os : List (Op ℤ ℤ ℤ Unit)) : Option (ℤ × ℤ × ℤ) :=
  match make ints () void with
  | .ok s0 =>
    let s := runAll ints s0 os
    match St.bestCandidate ints s with
    | (s', .ok o) => some (look s' o)
    | _ => none
  | _ => none

/-- The champion after a program. -/
def championAfter (os : List (Op ℤ ℤ ℤ Unit)) : Option (ℤ × ℤ × ℤ) :=
  match make ints () void with
  | .ok s0 =>
    let s := runAll ints s0 os
    s.champion.map (look s)
  | _ => none

/-- C129 does not hold if a member of `ga.genotypes` is overwritten after a cycle: the best candidate has the new genotype with phenotype and
fitness of the old one. -/
theorem C129_genotypes_violated : ∃ g x k : ℤ, bestAfter [.evolve (), .writeG 0 1 7] = some (g, x, k) ∧ x ≠ ints.dec g :=
  ⟨7, 2, 2, by decide +kernel, by decide⟩

/-- C129 does not hold if `ga.fitness` is written to: the optimizer reports the value written as that of the objective, and crowns
the member it belongs to. -/
theorem C129_fitness_violated : ∃ g x k : ℤ, championAfter [.fitness, .writeK 2 0 9, .evolve ()] = some (g, x, k) ∧ k ≠ ints.f x :=
  ⟨1, 1, 9, by decide +kernel, by decide⟩

/-- C129 does not hold if `ga.state.x` is written to: it is the list of the champion itself. -/
theorem C129_state_violated : ∃ g x k : ℤ, championAfter [.evolve (), .editX 3 5] = some (g, x, k) ∧ x ≠ ints.dec g ∧ k ≠ ints.f x :=
  ⟨2, 5, 2, by decide +kernel, by decide, by decide⟩

/-! ### Cases that meet the hypotheses -/

/-- A program that writes to an array before it is used, and to one that is not used any more. -/
example : championAfter [.evolve (), .array [3, 4], .writeG 4 0 8, .assign 4, .evolve (), .writeG 0 0 100, .evolve ()] =
    some (8, 8, 8) := by decide +kernel

example : bestAfter [.evolve ()] = some (2, 2, 2) := by decide +kernel

/-- Two cycles with the same champion, and a third with a new one. -/
example : (match make ints () void with
    | .ok s0 => ((runAll ints s0 [.evolve (), .evolve ()]).champion.map fun c =>
          ((runAll ints s0 [.evolve (), .evolve ()]).obj c).age,
        (runAll ints s0 [.evolve (), .evolve (), .array [3, 4], .assign 8, .evolve ()]).champion.map fun c =>
          ((runAll ints s0 [.evolve (), .evolve (), .array [3, 4], .assign 8, .evolve ()]).obj c).age)
    | _ => (none, none)) = (some 2, some 1) := by decide +kernel

/-- The program overwrites a member of a new population before anything is computed from it. -/
example : ∃ s0, make ints () void = .ok s0 ∧ HarmlessAll ints s0 [.writeG 0 1 7, .evolve (), .array [3], .writeG 4 0 1] := by
  refine ⟨_, rfl, fun _ => ⟨rfl, rfl⟩, trivial, trivial, ?_, trivial⟩
  intro h
  exact absurd h (by decide +kernel)

end Verif.GAMem.Props
