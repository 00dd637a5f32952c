import Verif.Model.WeakRefs
import Verif.Proofs.Frames

/-! # Helper lemmas about weak references -/

set_option linter.unusedSectionVars false

namespace Verif.Weak

open Verif.Frames Matrix

section
variable {n : ℕ} {K : Type} [Field K] [LinearOrder K]

/-- What tensor `t` stands for. -/
def St.ambientOf (h : St n K) (t : ℕ) : Comps n K :=
  ambient (h.frames (h.tensors t).frame).frame.axes (h.tensors t).comps

/-- The dictionaries hold exactly the live tensors of the frame, under their addresses. -/
structure St.Inv (h : St n K) : Prop where
  valid : ∀ t, h.usable t → (h.tensors t).frame < h.nF
  reg : ∀ f a s, (a, s) ∈ (h.frames f).dict ↔
    h.usable s ∧ (h.tensors s).frame = f ∧ (h.tensors s).addr = a
  nodup : ∀ f, ((h.frames f).dict.map Prod.snd).Nodup
  inj : ∀ s t, h.usable s → h.usable t → (h.tensors s).addr = (h.tensors t).addr → s = t
  cart : ∀ f < h.nF, CartOK (h.frames f).frame

/-- The tensors that are still there stand for the same. -/
structure St.Keeps (h h' : St n K) : Prop where
  nT : h.nT ≤ h'.nT
  same : ∀ t < h.nT, h'.usable t → h.usable t ∧ h'.ambientOf t = h.ambientOf t

theorem St.Keeps.refl (h : St n K) : h.Keeps h := ⟨le_rfl, fun _ _ hu => ⟨hu, rfl⟩⟩

theorem St.Keeps.trans {h h' h'' : St n K} (a : h.Keeps h') (b : h'.Keeps h'') : h.Keeps h'' := by
  refine ⟨a.nT.trans b.nT, fun t ht hu => ?_⟩
  obtain ⟨u1, e1⟩ := b.same t (lt_of_lt_of_le ht a.nT) hu
  obtain ⟨u2, e2⟩ := a.same t ht u1
  exact ⟨u2, e1.trans e2⟩

theorem St.Inv.empty {h : St n K} (hi : h.Inv) {f : ℕ} (hf : h.nF ≤ f) : (h.frames f).dict = [] := by
  rw [List.eq_nil_iff_forall_not_mem]
  rintro ⟨a, s⟩ he
  obtain ⟨h1, h2, -⟩ := (hi.reg f a s).1 he
  have := hi.valid s h1
  omega

/-! ### Dictionaries -/

theorem dictSet_new {d : List (ℕ × ℕ)} {a v : ℕ} (h : ∀ s, (a, s) ∉ d) :
    dictSet d a v = d ++ [(a, v)] := by
  unfold dictSet
  rw [if_neg]
  rw [List.mem_map]
  rintro ⟨⟨b, s⟩, hm, rfl⟩
  exact h s hm

theorem dict_unregister {h : St n K} (hi : h.Inv) {t : ℕ} (ht : h.usable t) (f : ℕ) :
    dictDel (h.frames f).dict (h.tensors t).addr = (h.frames f).dict.filter fun e => e.2 ≠ t := by
  unfold dictDel
  refine List.filter_congr fun e he => ?_
  obtain ⟨a, s⟩ := e
  obtain ⟨h1, h2, h3⟩ := (hi.reg f a s).1 he
  simp only
  by_cases hst : s = t
  · subst hst; simp [h3]
  · have : a ≠ (h.tensors t).addr := by
      intro hx
      exact hst (hi.inj s t h1 ht (h3.trans hx))
    simp [hst, this]

theorem dict_other {h : St n K} (hi : h.Inv) {t f : ℕ} (hf : (h.tensors t).frame ≠ f) :
    ((h.frames f).dict.filter fun e => e.2 ≠ t) = (h.frames f).dict := by
  rw [List.filter_eq_self]
  rintro ⟨a, s⟩ he
  obtain ⟨h1, h2, h3⟩ := (hi.reg f a s).1 he
  simp only [decide_eq_true_eq]
  rintro rfl
  exact hf h2

/-! ### The statements -/

theorem addFrame_inv {h : St n K} (hi : h.Inv) {g : Frame n K} (hg : CartOK g) :
    (h.addFrame g).Inv ∧ h.Keeps (h.addFrame g) := by
  have hdict : ∀ f, ((h.addFrame g).frames f).dict = (h.frames f).dict := by
    intro f
    unfold St.addFrame
    simp only
    by_cases hf : f = h.nF
    · subst hf; rw [Function.update_self, hi.empty le_rfl]
    · rw [Function.update_of_ne hf]
  refine ⟨⟨fun t ht => Nat.lt_succ_of_lt (hi.valid t ht), fun f a s => ?_, fun f => ?_, hi.inj,
    fun f hf => ?_⟩, le_rfl, fun t ht hu => ⟨hu, ?_⟩⟩
  · rw [hdict]; exact hi.reg f a s
  · rw [hdict]; exact hi.nodup f
  · unfold St.addFrame
    simp only
    by_cases hfn : f = h.nF
    · subst hfn; rw [Function.update_self]; exact hg
    · rw [Function.update_of_ne hfn]
      have : f < h.nF + 1 := hf
      exact hi.cart f (by omega)
  · unfold St.ambientOf St.addFrame
    simp only
    rw [Function.update_of_ne]
    have := hi.valid t hu
    omega

/-- The address is not in use. -/
def St.free (h : St n K) (addr : ℕ) : Prop := ∀ s, h.usable s → (h.tensors s).addr ≠ addr

/-- What `newTensor` does if the address is free. -/
theorem newTensor_eq {h : St n K} (hi : h.Inv) (c : Comps n K) {f addr : ℕ} (hf : f < h.nF)
    (ha : h.free addr) :
    h.newTensor c f addr =
      ({ h with
          nT := h.nT + 1
          tensors := Function.update h.tensors h.nT ⟨c, f, addr, true⟩
          frames := Function.update h.frames f
            ⟨(h.frames f).frame, (h.frames f).dict ++ [(addr, h.nT)]⟩ }, none) := by
  unfold St.newTensor St.register
  rw [if_pos hf]
  simp only
  rw [Function.update_self, dictSet_new]
  intro s hs
  obtain ⟨h1, -, h3⟩ := (hi.reg f addr s).1 hs
  exact ha s h1 h3

theorem newTensor_inv {h : St n K} (hi : h.Inv) (c : Comps n K) {f addr : ℕ} (ha : h.free addr) :
    (h.newTensor c f addr).1.Inv ∧ h.Keeps (h.newTensor c f addr).1 := by
  by_cases hf : f < h.nF
  · rw [newTensor_eq hi c hf ha]
    set h' : St n K := { h with
          nT := h.nT + 1
          tensors := Function.update h.tensors h.nT ⟨c, f, addr, true⟩
          frames := Function.update h.frames f
            ⟨(h.frames f).frame, (h.frames f).dict ++ [(addr, h.nT)]⟩ } with hh'
    have hfr : ∀ g, (h'.frames g).frame = (h.frames g).frame := by
      intro g
      show (Function.update h.frames f _ g).frame = _
      by_cases hg : g = f
      · subst hg; rw [Function.update_self]
      · rw [Function.update_of_ne hg]
    have hnew : h'.tensors h.nT = ⟨c, f, addr, true⟩ := Function.update_self _ _ _
    have hold : ∀ t, t ≠ h.nT → h'.tensors t = h.tensors t := fun t ht =>
      Function.update_of_ne ht _ _
    have hus : ∀ t, h'.usable t ↔ t = h.nT ∨ h.usable t := by
      intro t
      unfold St.usable
      show t < h.nT + 1 ∧ _ ↔ _
      by_cases ht : t = h.nT
      · subst ht; rw [hnew]; simp
      · rw [hold t ht]
        constructor
        · rintro ⟨h1, h2⟩; exact Or.inr ⟨by omega, h2⟩
        · rintro (h1 | ⟨h1, h2⟩)
          · exact absurd h1 ht
          · exact ⟨by omega, h2⟩
    have hlt : ∀ t, h.usable t → t ≠ h.nT := fun t ht => by have := ht.1; omega
    refine ⟨⟨fun t ht => ?_, fun g a s => ?_, fun g => ?_, fun s t hs ht he => ?_, fun g hg => ?_⟩,
      Nat.le_succ _, fun t ht hu => ?_⟩
    · rcases (hus t).1 ht with rfl | h1
      · rw [hnew]; exact hf
      · rw [hold t (hlt t h1)]; exact hi.valid t h1
    · rw [hus]
      show (a, s) ∈ (Function.update h.frames f _ g).dict ↔ _
      by_cases hs : s = h.nT
      · subst hs
        rw [hnew]
        by_cases hg : g = f
        · subst hg
          rw [Function.update_self]
          simp only [List.mem_append, List.mem_singleton, Prod.mk.injEq, and_true, true_or, true_and]
          constructor
          · rintro (h1 | h1)
            · exact absurd rfl (hlt _ ((hi.reg g a _).1 h1).1)
            · exact h1.symm
          · intro h1; exact Or.inr h1.symm
        · rw [Function.update_of_ne hg]
          constructor
          · intro h1; exact absurd rfl (hlt _ ((hi.reg g a _).1 h1).1)
          · rintro ⟨-, h1, -⟩; exact absurd h1.symm hg
      · rw [hold s hs]
        by_cases hg : g = f
        · subst hg
          rw [Function.update_self]
          simp only [List.mem_append, List.mem_singleton, Prod.mk.injEq, hs, and_false, or_false,
            false_or]
          exact hi.reg g a s
        · rw [Function.update_of_ne hg]
          simp only [hs, false_or]
          exact hi.reg g a s
    · show ((Function.update h.frames f _ g).dict.map Prod.snd).Nodup
      by_cases hg : g = f
      · subst hg
        rw [Function.update_self]
        simp only [List.map_append, List.map_singleton]
        rw [List.nodup_append]
        refine ⟨hi.nodup g, List.nodup_singleton _, fun x hx y hy => ?_⟩
        rw [List.mem_singleton] at hy
        subst hy
        obtain ⟨⟨b, s⟩, hm, rfl⟩ := List.mem_map.1 hx
        exact hlt s ((hi.reg g b s).1 hm).1
      · rw [Function.update_of_ne hg]; exact hi.nodup g
    · rcases (hus s).1 hs with rfl | h1 <;> rcases (hus t).1 ht with rfl | h2
      · rfl
      · rw [hnew, hold t (hlt t h2)] at he
        exact absurd he.symm (ha t h2)
      · rw [hnew, hold s (hlt s h1)] at he
        exact absurd he (ha s h1)
      · rw [hold s (hlt s h1), hold t (hlt t h2)] at he
        exact hi.inj s t h1 h2 he
    · rw [hfr]; exact hi.cart g hg
    · have htn : t ≠ h.nT := by omega
      rcases (hus t).1 hu with h1 | h1
      · exact absurd h1 htn
      · refine ⟨h1, ?_⟩
        unfold St.ambientOf
        rw [hold t htn, hfr]
  · unfold St.newTensor
    rw [if_neg hf]
    exact ⟨hi, St.Keeps.refl h⟩

theorem drop_inv {h : St n K} (hi : h.Inv) (t : ℕ) : (h.drop t).1.Inv ∧ h.Keeps (h.drop t).1 := by
  unfold St.drop
  split
  · rename_i ht
    set h' : St n K := { h with
        tensors := Function.update h.tensors t { h.tensors t with alive := false }
        frames := fun f => { h.frames f with dict := (h.frames f).dict.filter fun e => e.2 ≠ t } }
      with hh'
    have hold : ∀ s, s ≠ t → h'.tensors s = h.tensors s := fun s hs => Function.update_of_ne hs _ _
    have hus : ∀ s, h'.usable s ↔ h.usable s ∧ s ≠ t := by
      intro s
      unfold St.usable
      show s < h.nT ∧ _ ↔ _
      by_cases hs : s = t
      · subst hs
        have : h'.tensors s = { h.tensors s with alive := false } := Function.update_self _ _ _
        rw [this]; simp
      · rw [hold s hs]; simp [hs]
    refine ⟨⟨fun s hs => ?_, fun g a s => ?_, fun g => ?_, fun s u hs hu he => ?_, fun g hg => ?_⟩,
      le_rfl, fun s hs hu => ?_⟩
    · obtain ⟨h1, h2⟩ := (hus s).1 hs
      rw [hold s h2]; exact hi.valid s h1
    · show (a, s) ∈ (h.frames g).dict.filter _ ↔ _
      rw [List.mem_filter, hus]
      simp only [decide_eq_true_eq]
      by_cases hs : s = t
      · subst hs; simp
      · rw [hold s hs, hi.reg g a s]; simp [hs]
    · show (((h.frames g).dict.filter _).map Prod.snd).Nodup
      exact (hi.nodup g).sublist (List.filter_sublist.map _)
    · obtain ⟨h1, h2⟩ := (hus s).1 hs
      obtain ⟨h3, h4⟩ := (hus u).1 hu
      rw [hold s h2, hold u h4] at he
      exact hi.inj s u h1 h3 he
    · exact hi.cart g hg
    · obtain ⟨h1, h2⟩ := (hus s).1 hu
      refine ⟨h1, ?_⟩
      unfold St.ambientOf
      rw [hold s h2]
  · exact ⟨hi, St.Keeps.refl h⟩

/-- What `setFrame` does if the dictionaries are in order. -/
theorem setFrame_eq (cfg : Cfg K) {h : St n K} (hi : h.Inv) (t f : ℕ) :
    h.setFrame cfg t f =
      if h.usable t ∧ f < h.nF then
        match showIn cfg (h.frames (h.tensors t).frame).frame (h.tensors t).comps
            (some (h.frames f).frame) with
        | .error e => (h, some e)
        | .ok c =>
          ({ h with
              tensors := Function.update h.tensors t ⟨c, f, (h.tensors t).addr, (h.tensors t).alive⟩
              frames := fun g => ⟨(h.frames g).frame,
                ((h.frames g).dict.filter fun e => e.2 ≠ t) ++
                  if g = f then [((h.tensors t).addr, t)] else []⟩ }, none)
      else (h, some .generic) := by
  unfold St.setFrame
  split
  · rename_i ht
    simp only
    cases showIn cfg (h.frames (h.tensors t).frame).frame (h.tensors t).comps
      (some (h.frames f).frame) with
    | error e => rfl
    | ok c =>
      simp only
      congr 1
      unfold St.register St.unregister
      simp only [Function.update_self]
      congr 1
      have h1 : ∀ g, (Function.update h.frames (h.tensors t).frame
          ⟨(h.frames (h.tensors t).frame).frame,
            dictDel (h.frames (h.tensors t).frame).dict (h.tensors t).addr⟩ g) =
          ⟨(h.frames g).frame, (h.frames g).dict.filter fun e => e.2 ≠ t⟩ := by
        intro g
        by_cases hg : g = (h.tensors t).frame
        · subst hg
          rw [Function.update_self, dict_unregister hi ht.1]
        · rw [Function.update_of_ne hg, dict_other hi (Ne.symm hg)]
      funext g
      by_cases hg : g = f
      · subst hg
        rw [Function.update_self, h1 g, if_pos rfl]
        simp only
        rw [dictSet_new]
        intro s hs
        obtain ⟨hm, hne⟩ := List.mem_filter.1 hs
        obtain ⟨k1, -, k3⟩ := (hi.reg g _ s).1 hm
        have := hi.inj s t k1 ht.1 k3
        simp [this] at hne
      · rw [Function.update_of_ne hg, h1 g, if_neg hg, List.append_nil]
  · rfl

theorem setFrame_inv (cfg : Cfg K) {h : St n K} (hi : h.Inv) (t f : ℕ) :
    (h.setFrame cfg t f).1.Inv ∧ h.Keeps (h.setFrame cfg t f).1 ∧
      (h.setFrame cfg t f).1.nF = h.nF ∧
      ∀ g, ((h.setFrame cfg t f).1.frames g).frame = (h.frames g).frame := by
  rw [setFrame_eq cfg hi]
  split
  · rename_i ht
    obtain ⟨ht, hf⟩ := ht
    cases hs : showIn cfg (h.frames (h.tensors t).frame).frame (h.tensors t).comps
      (some (h.frames f).frame) with
    | error e => exact ⟨hi, St.Keeps.refl h, rfl, fun _ => rfl⟩
    | ok c =>
      simp only
      set h' : St n K := { h with
              tensors := Function.update h.tensors t ⟨c, f, (h.tensors t).addr, (h.tensors t).alive⟩
              frames := fun g => ⟨(h.frames g).frame,
                ((h.frames g).dict.filter fun e => e.2 ≠ t) ++
                  if g = f then [((h.tensors t).addr, t)] else []⟩ } with hh'
      have hold : ∀ s, s ≠ t → h'.tensors s = h.tensors s := fun s hs =>
        Function.update_of_ne hs _ _
      have hself : h'.tensors t = ⟨c, f, (h.tensors t).addr, (h.tensors t).alive⟩ :=
        Function.update_self _ _ _
      have haddr : ∀ s, (h'.tensors s).addr = (h.tensors s).addr := by
        intro s
        by_cases hs : s = t
        · subst hs; rw [hself]
        · rw [hold s hs]
      have hus : ∀ s, h'.usable s ↔ h.usable s := by
        intro s
        unfold St.usable
        show s < h.nT ∧ _ ↔ _
        by_cases hs : s = t
        · subst hs; rw [hself]
        · rw [hold s hs]
      refine ⟨⟨fun s hs => ?_, fun g a s => ?_, fun g => ?_, fun s u hs hu he => ?_, fun g hg => ?_⟩,
        ⟨le_rfl, fun s hs hu => ⟨(hus s).1 hu, ?_⟩⟩, by simp [hh'], fun g => by simp [hh']⟩
      · rw [hus] at hs
        by_cases hst : s = t
        · subst hst; rw [hself]; exact hf
        · rw [hold s hst]; exact hi.valid s hs
      · show (a, s) ∈ ((h.frames g).dict.filter fun e => e.2 ≠ t) ++
          (if g = f then [((h.tensors t).addr, t)] else []) ↔ _
        rw [List.mem_append, List.mem_filter, hus, haddr]
        by_cases hst : s = t
        · subst hst
          rw [hself]
          by_cases hg : g = f
          · subst hg
            rw [if_pos rfl]
            simp only [List.mem_singleton, Prod.mk.injEq, and_true, decide_eq_true_eq, ne_eq,
              not_true, and_false, false_or, true_and]
            exact ⟨fun h1 => ⟨ht, h1.symm⟩, fun h1 => h1.2.symm⟩
          · rw [if_neg hg]
            simp [Ne.symm hg]
        · rw [hold s hst]
          have : (a, s) ∉ (if g = f then [((h.tensors t).addr, t)] else []) := by
            split <;> simp [hst]
          simp only [this, or_false, decide_eq_true_eq, ne_eq, hst, not_false_eq_true, and_true]
          exact hi.reg g a s
      · show ((((h.frames g).dict.filter fun e => e.2 ≠ t) ++
          (if g = f then [((h.tensors t).addr, t)] else [])).map Prod.snd).Nodup
        rw [List.map_append, List.nodup_append]
        refine ⟨(hi.nodup g).sublist (List.filter_sublist.map _), ?_, fun x hx y hy => ?_⟩
        · split <;> simp
        · have hyt : y = t := by
            split at hy
            · simpa using hy
            · simp at hy
          subst hyt
          obtain ⟨⟨b, s⟩, hm, rfl⟩ := List.mem_map.1 hx
          obtain ⟨-, hne⟩ := List.mem_filter.1 hm
          simpa using hne
      · rw [hus] at hs hu
        rw [haddr, haddr] at he
        exact hi.inj s u hs hu he
      · exact hi.cart g hg
      · unfold St.ambientOf
        by_cases hst : s = t
        · subst hst
          rw [hself]
          obtain ⟨Q, hQ, rfl⟩ := showIn_ok hs
          exact ambient_transform (hi.cart f hf) hQ _
        · rw [hold s hst]
  · exact ⟨hi, St.Keeps.refl h, rfl, fun _ => rfl⟩

theorem foldl_transform' (dcm : Mat n K) (l : List ℕ) (hl : l.Nodup) (ts : ℕ → TObj n K) (t : ℕ) :
    (l.foldl (fun ts v => Function.update ts v { ts v with comps := (ts v).comps.transform dcm }) ts) t =
      if t ∈ l then { ts t with comps := (ts t).comps.transform dcm } else ts t := by
  induction l generalizing ts with
  | nil => simp
  | cons v l ih =>
    obtain ⟨hv, hl⟩ := List.nodup_cons.1 hl
    rw [List.foldl_cons, ih hl]
    by_cases htv : t = v
    · subst htv
      rw [if_neg hv, if_pos List.mem_cons_self, Function.update_self]
    · rw [Function.update_of_ne htv]
      simp [htv]

theorem mem_serials {h : St n K} (hi : h.Inv) (f s : ℕ) :
    s ∈ (h.frames f).dict.map Prod.snd ↔ h.usable s ∧ (h.tensors s).frame = f := by
  rw [List.mem_map]
  constructor
  · rintro ⟨⟨a, s⟩, hm, rfl⟩
    exact ⟨((hi.reg f a s).1 hm).1, ((hi.reg f a s).1 hm).2.1⟩
  · rintro ⟨h1, h2⟩
    exact ⟨((h.tensors s).addr, s), (hi.reg f _ s).2 ⟨h1, h2, rfl⟩, rfl⟩

theorem setAxes_inv (cfg : Cfg K) {h : St n K} (hi : h.Inv) (f : ℕ) (value : Mat n K)
    (hc : f < h.nF → (h.frames f).frame.cls = .cartesian → Orthonormal value) :
    (h.setAxes cfg f value).1.Inv ∧ h.Keeps (h.setAxes cfg f value).1 := by
  unfold St.setAxes
  split
  · rename_i hf
    simp only
    set fr := Function.update h.frames f
      ⟨⟨(h.frames f).frame.cls, value⟩, (h.frames f).dict⟩ with hfr
    have hdict : ∀ g, (fr g).dict = (h.frames g).dict := by
      intro g
      by_cases hg : g = f
      · subst hg; rw [hfr, Function.update_self]
      · rw [hfr, Function.update_of_ne hg]
    have hcart : ∀ g < h.nF, CartOK (fr g).frame := by
      intro g hg
      by_cases hgf : g = f
      · subst hgf; rw [hfr, Function.update_self]; intro hcls; exact hc hf hcls
      · rw [hfr, Function.update_of_ne hgf]; exact hi.cart g hg
    have hother : ∀ g, g ≠ f → fr g = h.frames g := fun g hg => by
      rw [hfr, Function.update_of_ne hg]
    have hself : (fr f).frame.axes = value := by rw [hfr, Function.update_self]
    by_cases hemp : (h.frames f).dict = []
    · rw [if_pos hemp]
      refine ⟨⟨hi.valid, fun g a s => ?_, fun g => ?_, hi.inj, hcart⟩, le_rfl,
        fun t ht hu => ⟨hu, ?_⟩⟩
      · show (a, s) ∈ (fr g).dict ↔ _
        rw [hdict g]; exact hi.reg g a s
      · show ((fr g).dict.map Prod.snd).Nodup
        rw [hdict g]; exact hi.nodup g
      · unfold St.ambientOf
        simp only
        rw [hother]
        intro he
        have := (mem_serials hi f t).2 ⟨hu, he⟩
        rw [hemp] at this
        exact List.not_mem_nil this
    · rw [if_neg hemp]
      cases hd : (h.frames f).frame.dcmTarget cfg ⟨.reference, value⟩ with
      | error e => exact ⟨hi, St.Keeps.refl h⟩
      | ok dcm =>
        simp only
        set ts := ((h.frames f).dict.map Prod.snd).foldl (fun ts v =>
            Function.update ts v { ts v with comps := (ts v).comps.transform dcm }) h.tensors with hts
        have hts' : ∀ t, ts t = if t ∈ (h.frames f).dict.map Prod.snd then
            { h.tensors t with comps := (h.tensors t).comps.transform dcm } else h.tensors t := fun t =>
          foldl_transform' dcm _ (hi.nodup f) h.tensors t
        have hsame : ∀ t, (ts t).frame = (h.tensors t).frame ∧ (ts t).addr = (h.tensors t).addr ∧
            (ts t).alive = (h.tensors t).alive := by
          intro t; rw [hts' t]; split <;> exact ⟨rfl, rfl, rfl⟩
        set h' : St n K := { h with tensors := ts, frames := fr } with hh'
        have hus : ∀ s, h'.usable s ↔ h.usable s := by
          intro s
          unfold St.usable
          show s < h.nT ∧ (ts s).alive = true ↔ _
          rw [(hsame s).2.2]
        refine ⟨⟨fun t ht => ?_, fun g a s => ?_, fun g => ?_, fun s t hs ht he => ?_, hcart⟩, le_rfl,
          fun t ht hu => ⟨(hus t).1 hu, ?_⟩⟩
        · show (ts t).frame < h.nF
          rw [(hsame t).1]
          exact hi.valid t ((hus t).1 ht)
        · show (a, s) ∈ (fr g).dict ↔ _ ∧ (ts s).frame = g ∧ (ts s).addr = a
          rw [hdict g, hus, (hsame s).1, (hsame s).2.1]
          exact hi.reg g a s
        · show ((fr g).dict.map Prod.snd).Nodup
          rw [hdict g]; exact hi.nodup g
        · rw [hus] at hs ht
          have he' : (ts s).addr = (ts t).addr := he
          rw [(hsame s).2.1, (hsame t).2.1] at he'
          exact hi.inj s t hs ht he'
        · have hu' := (hus t).1 hu
          show ambient (fr (ts t).frame).frame.axes (ts t).comps = _
          unfold St.ambientOf
          rw [(hsame t).1]
          by_cases he : (h.tensors t).frame = f
          · rw [he, hself, hts' t, if_pos ((mem_serials hi f t).2 ⟨hu', he⟩)]
            exact ambient_transform (T := ⟨.reference, value⟩) (by intro hx; cases hx) hd _
          · rw [hother _ he, hts' t, if_neg]
            intro hm
            exact he ((mem_serials hi f t).1 hm).2
  · exact ⟨hi, St.Keeps.refl h⟩

theorem moveAll_inv (cfg : Cfg K) (f : ℕ) (ts : List ℕ) {h : St n K} (hi : h.Inv) :
    (h.moveAll cfg f ts).1.Inv ∧ h.Keeps (h.moveAll cfg f ts).1 ∧
      (h.moveAll cfg f ts).1.nF = h.nF ∧
      ∀ g, ((h.moveAll cfg f ts).1.frames g).frame = (h.frames g).frame := by
  induction ts generalizing h with
  | nil => exact ⟨hi, St.Keeps.refl h, rfl, fun _ => rfl⟩
  | cons t ts ih =>
    have hs := setFrame_inv cfg hi t f
    unfold St.moveAll
    cases he : h.setFrame cfg t f with
    | mk h' e =>
      rw [he] at hs
      obtain ⟨s1, s2, s3, s4⟩ := hs
      cases e with
      | some e => exact ⟨s1, s2, s3, s4⟩
      | none =>
        obtain ⟨h1, h2, h3, h4⟩ := ih s1
        exact ⟨h1, s2.trans h2, h3.trans s3, fun g => (h4 g).trans (s4 g)⟩

theorem inplace_inv (cfg : Cfg K) {h : St n K} (hi : h.Inv) (f : ℕ) (o : Operand n K) :
    (h.inplace cfg f o).1.Inv ∧ h.Keeps (h.inplace cfg f o).1 := by
  unfold St.inplace
  split
  · rename_i hf
    simp only
    cases hr : o.rtype (h.frames f).frame.cls with
    | none =>
      apply setAxes_inv cfg hi
      intro _ hcls
      rw [hcls] at hr
      exact absurd hr (rtype_cartesian o)
    | some r =>
      simp only
      have hrc := rtype_not_cartesian o _ r hr
      cases hm : mkFrame cfg r (h.frames f).frame.axes with
      | error e => exact ⟨hi, St.Keeps.refl h⟩
      | ok g =>
        have hg := mkFrame_ok hm
        have hgc : CartOK g := by
          intro hcls; rw [hg] at hcls; exact absurd hcls hrc
        obtain ⟨a1, a2⟩ := addFrame_inv hi hgc
        obtain ⟨m1, m2, m3, m4⟩ := moveAll_inv cfg h.nF ((h.frames f).dict.map Prod.snd) a1
        simp only
        cases hmv : (h.addFrame g).moveAll cfg h.nF ((h.frames f).dict.map Prod.snd) with
        | mk h' e =>
          rw [hmv] at m1 m2 m3 m4
          cases e with
          | some e => exact ⟨m1, a2.trans m2⟩
          | none =>
            obtain ⟨s1, s2⟩ := setAxes_inv cfg m1 h.nF
              (o.apply (h.frames f).frame.axes) (by
                intro _ hcls
                have : (h'.frames h.nF).frame = g := by
                  rw [m4]
                  show (Function.update h.frames h.nF ⟨g, []⟩ h.nF).frame = g
                  rw [Function.update_self]
                rw [this, hg] at hcls
                exact absurd hcls hrc)
            exact ⟨s1, (a2.trans m2).trans s2⟩
  · exact ⟨hi, St.Keeps.refl h⟩

end

end Verif.Weak
