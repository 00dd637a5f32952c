import Verif.Props.Stacks
import Verif.Props.LeastSq
import Verif.Props.Weights

/-!
# More on what is refused: stacks of different lengths, dimensions, cores
-/

set_option linter.unusedSectionVars false

namespace Verif.Stacks.Props
open Verif Verif.Stacks Verif.Utils Verif.Frames

variable {n : ℕ} {K : Type} [Field K] [LinearOrder K]

/-- C79: a stack of vectors with a stack of frames cannot be shown in a stack of target frames of
another length, unless one of the stacks has length one. -/
theorem C79_different_lengths (sched : List ℕ) (junk : Mat n K) (vs : List (Fin n → K))
    (As Ts : List (Mat n K)) (hT : ∀ T ∈ Ts, T.det ≠ 0) (hl : As.length ≠ Ts.length)
    (h1 : As.length ≠ 1) (h2 : Ts.length ≠ 1) :
    (⟨vs, .many As⟩ : VStack n K).show sched junk (some (.many Ts)) = .error .value := by
  obtain ⟨Ds, hD, hlen⟩ : ∃ Ds : List (Mat n K), invAll Ts = .ok Ds ∧ Ds.length = Ts.length := by
    obtain ⟨Ds, h, hf⟩ := invAll_ok Ts hT
    exact ⟨Ds, h, hf.length_eq.symm⟩
  have hm : (Axes.many (Ds.map Matrix.transpose)).matmul (Axes.many As).transpose = .error .value := by
    unfold Axes.matmul Axes.transpose
    simp only
    rw [if_neg (by simpa [hlen] using Ne.symm hl)]
    split
    · rename_i h
      exact absurd (by simpa [hlen] using congrArg List.length h) h2
    · rename_i h _
      exact absurd (by simpa using congrArg List.length h) h1
    · rfl
  show ((invAll Ts >>= fun x => pure (Axes.many (x.map Matrix.transpose))) >>= fun T =>
    T.matmul (Axes.many As).transpose) >>= _ = _
  rw [hD]
  show (Axes.many (Ds.map Matrix.transpose)).matmul (Axes.many As).transpose >>= _ = _
  rw [hm]
  rfl

/-- C79: a stack with a single frame counts as this frame if the other stack has another length. -/
theorem C79_single_frames (sched : List ℕ) (junk : Mat n K) (vs : List (Fin n → K)) (A : Mat n K)
    (Fs : List (Mat n K)) (hl : Fs.length ≠ 1) :
    (⟨vs, .many [A]⟩ : VStack n K).show sched junk (some (.many Fs)) =
        (⟨vs, .one A⟩ : VStack n K).show sched junk (some (.many Fs)) ∧
      (⟨vs, .many Fs⟩ : VStack n K).show sched junk (some (.many [A])) =
        (⟨vs, .many Fs⟩ : VStack n K).show sched junk (some (.one A)) := by
  have hA : (Axes.many [A]).dual = (Axes.one A).dual.map fun D => match D with
      | .one D => .many [D]
      | .many Ds => .many Ds := by
    unfold Axes.dual invAll invAll
    simp only
    cases h : inv A <;> simp [bind, Except.bind, pure, Except.pure, Except.map, h, invAll]
  refine ⟨?_, ?_⟩
  · unfold VStack.show dcmTarget
    simp only [Option.getD_some]
    cases hF : (Axes.many Fs).dual with
    | error e => rfl
    | ok D =>
      obtain ⟨Ds, rfl, hlen⟩ : ∃ Ds, D = .many Ds ∧ Ds.length = Fs.length := by
        have : ∀ (Fs Ds : List (Mat n K)), invAll Fs = .ok Ds → Ds.length = Fs.length := by
          intro Fs
          induction Fs with
          | nil => intro Ds h; cases h; rfl
          | cons F Fs ih =>
            intro Ds h
            unfold invAll at h
            cases h1 : inv F with
            | error e => rw [h1] at h; cases h
            | ok G =>
              rw [h1] at h
              cases h2 : invAll Fs with
              | error e => rw [h2] at h; cases h
              | ok Gs => rw [h2] at h; cases h; simp [ih Gs h2]
        simp only [Axes.dual] at hF
        cases hi : invAll Fs with
        | error e => rw [hi] at hF; cases hF
        | ok Ds => rw [hi] at hF; cases hF; exact ⟨_, rfl, by simp [this Fs Ds hi]⟩
      have e : (Axes.many Ds).matmul (Axes.many [A]).transpose =
          (Axes.many Ds).matmul (Axes.one A).transpose := by
        unfold Axes.matmul Axes.transpose
        simp only [List.map_cons, List.map_nil, List.length_singleton]
        rw [if_neg (by omega)]
        rcases Ds with _ | ⟨D, _ | ⟨D', Ds⟩⟩
        · rfl
        · simp at hlen; omega
        · rfl
      show ((Axes.many Ds).matmul (Axes.many [A]).transpose >>= _) = ((Axes.many Ds).matmul (Axes.one A).transpose >>= _)
      rw [e]
  · unfold VStack.show dcmTarget
    simp only [Option.getD_some]
    rw [hA]
    simp only [Axes.dual]
    cases hi : inv A with
    | error e => rfl
    | ok D =>
      have e : (Axes.many [D.transpose]).matmul (Axes.many Fs).transpose =
          (Axes.one D.transpose).matmul (Axes.many Fs).transpose := by
        unfold Axes.matmul Axes.transpose
        simp only [List.length_singleton, List.length_map]
        rw [if_neg (by omega)]
      show ((Axes.many [D.transpose]).matmul (Axes.many Fs).transpose >>= _) =
        ((Axes.one D.transpose).matmul (Axes.many Fs).transpose >>= _)
      rw [e]

/-- Three frames for two target frames. -/
example : ∀ T ∈ ([1, !![2, 0; 0, 1]] : List (Mat 2 ℚ)), T.det ≠ 0 := by
  simp [Matrix.det_fin_two]

end Verif.Stacks.Props

namespace Verif.LS.Props
open Verif Verif.LS

variable {K : Type} [Field K] [LinearOrder K]

/-- C52: points of dimension zero or of more than three dimensions are refused. -/
theorem C52_dimension_refused {dim n r : ℕ} (hd : dim = 0 ∨ 4 ≤ dim) (points : Fin n → Pt dim K)
    (values : Fin n → Fin r → K) (deg : ℕ) (order : ℤ) (w : Option (Weight dim K)) :
    weightedLeastSquares points values deg order (w.map fun w => ⟨dim, w⟩) =
        .error .notImplemented ∧
      leastSquares points values deg order = .error .notImplemented := by
  have key : ∀ (w : Weight dim K) (g h : Bool),
      wlsDim dim points values deg w g h = .error .notImplemented := by
    intro w g h
    rcases hd with rfl | hd
    · rfl
    · obtain ⟨d, rfl⟩ : ∃ d, dim = d + 4 := ⟨dim - 4, by omega⟩
      rfl
  have h2 : leastSquares points values deg order = .error .notImplemented := by
    unfold leastSquares weightedLeastSquares
    rw [dif_pos rfl]
    exact key _ _ _
  refine ⟨?_, h2⟩
  cases w with
  | none => exact h2
  | some w =>
    unfold weightedLeastSquares
    rw [dif_pos rfl]
    show (if hd : dim = dim then _ else _) = _
    rw [dif_pos rfl]
    exact key _ _ _

/-- Points in space-time cannot be fitted. -/
example : leastSquares (K := ℚ) (dim := 4) (n := 1) (m := 1) (r := 1) (fun _ _ => 0) (fun _ _ => 0) 1 0 =
    .error .notImplemented := (C52_dimension_refused (.inr le_rfl) _ _ _ _ none).2

end Verif.LS.Props

namespace Verif.Wt.Props
open Verif Verif.Wt

/-- C55: a core set as an integer is the integer (given to the constructor it is lost). -/
theorem C55_set_integer_core {K : Type} [Field K] [LinearOrder K] (o : Obj K) (i : ℤ) :
    setCore o (.int i) = .ok { o with core := .vec [(i : K)] } := rfl

end Verif.Wt.Props
