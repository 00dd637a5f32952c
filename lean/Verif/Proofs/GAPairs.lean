import Verif.Model.GA
import Mathlib.Data.List.Nodup
import Mathlib.Data.List.Perm.Lattice
import Mathlib.Tactic.Ring

namespace Verif.GA

/-- positions of `true` -/
def trues (pool : List Bool) : List ℕ :=
  (List.range pool.length).filter (fun j => pool[j]?.getD false)

theorem mem_trues {pool : List Bool} {j : ℕ} : j ∈ trues pool ↔ pool[j]? = some true := by
  simp only [trues, List.mem_filter, List.mem_range]
  constructor
  · rintro ⟨h, h'⟩
    simp only [List.getElem?_eq_getElem h, Option.getD_some] at h' ⊢
    rw [h']
  · intro h
    have := List.getElem?_eq_some_iff.mp h
    exact ⟨this.1, by simp [h]⟩

theorem nodup_trues (pool : List Bool) : (trues pool).Nodup :=
  List.Nodup.filter _ (List.nodup_range)

theorem trues_set (pool : List Bool) (a : ℕ) :
    trues (pool.set a false) = (trues pool).filter (· ≠ a) := by
  unfold trues
  rw [List.length_set, List.filter_filter]
  apply List.filter_congr
  intro j hj
  by_cases h : a = j
  · subst h
    by_cases h2 : a < pool.length
    · simp [h2]
    · simp [h2]
  · have h' : j ≠ a := fun e => h e.symm
    simp [h, h']

theorem trues_set2 (pool : List Bool) (a b : ℕ) :
    trues ((pool.set a false).set b false) = ((trues pool).erase a).erase b := by
  rw [trues_set, trues_set, (nodup_trues pool).erase_eq_filter,
    ((nodup_trues pool).filter _).erase_eq_filter]
  congr 1
  · funext x; simp [bne, BEq.beq]
  · congr 1; funext x; simp [bne, BEq.beq]

theorem trues_replicate (n : ℕ) : trues (List.replicate n true) = List.range n := by
  unfold trues
  rw [List.length_replicate, List.filter_eq_self]
  intro a ha
  have : a < n := by simpa using ha
  simp [this]

/-- the two members of each pair, in order -/
def flat (ps : List (ℕ × ℕ)) : List ℕ := ps.flatMap (fun p => [p.1, p.2])

theorem pairLoop_spec {draw : ℕ → List ℕ → ℕ × ℕ} (hd : ∀ i, IsPairChoice (draw i)) :
    ∀ (h : ℕ) (fuel i nPool : ℕ) (pool : List Bool),
      (trues pool).length = 2 * h → (2 < nPool ↔ 2 ≤ 2 * h) → h < fuel →
      ∃ ps, pairLoop draw fuel i nPool pool = some (.ok ps) ∧ ps.length = h ∧
        (flat ps).Perm (trues pool) := by
  intro h
  induction h with
  | zero =>
    intro fuel i nPool pool hlen hn hf
    obtain ⟨fuel, rfl⟩ : ∃ k, fuel = k + 1 := ⟨fuel - 1, by omega⟩
    refine ⟨[], ?_, rfl, ?_⟩
    · have : ¬ (2 < nPool) := by omega
      simp [pairLoop, this]
    · have : trues pool = [] := List.length_eq_zero_iff.mp (by omega)
      simp [flat, this]
  | succ h ih =>
    intro fuel i nPool pool hlen hn hf
    obtain ⟨fuel, rfl⟩ : ∃ k, fuel = k + 1 := ⟨fuel - 1, by omega⟩
    have hnp : 2 < nPool := by omega
    have hw2 : ¬ (trues pool).length < 2 := by omega
    obtain ⟨ha, hb, hab⟩ := hd i (trues pool) (nodup_trues pool) (by omega)
    set a := (draw i (trues pool)).1 with hadef
    set b := (draw i (trues pool)).2 with hbdef
    have hb' : b ∈ (trues pool).erase a := by
      rw [List.mem_erase_of_ne (fun e => hab e.symm)]; exact hb
    have hlen' : (trues ((pool.set a false).set b false)).length = 2 * h := by
      rw [trues_set2, List.length_erase_of_mem hb', List.length_erase_of_mem ha]
      omega
    obtain ⟨ps, hps, hpl, hperm⟩ := ih fuel (i + 1) (trues pool).length
      ((pool.set a false).set b false) hlen' (by omega) (by omega)
    refine ⟨(a, b) :: ps, ?_, by simp [hpl], ?_⟩
    · rw [pairLoop, if_pos hnp]
      change (if (trues pool).length < 2 then _ else _) = _
      rw [if_neg hw2]
      simp only
      change (match pairLoop draw fuel (i + 1) (trues pool).length
        ((pool.set a false).set b false) with
        | some (Except.ok ps) => some (Except.ok ((draw i (trues pool)) :: ps))
        | r => r) = _
      rw [hps]
    · have h1 : (trues pool).Perm (a :: (trues pool).erase a) := List.perm_cons_erase ha
      have h2 : ((trues pool).erase a).Perm (b :: ((trues pool).erase a).erase b) :=
        List.perm_cons_erase hb'
      rw [trues_set2] at hperm
      have h3 : (flat ((a, b) :: ps)) = a :: b :: flat ps := by simp [flat]
      rw [h3]
      exact ((hperm.cons b).trans h2.symm).cons a |>.trans h1.symm

end Verif.GA
