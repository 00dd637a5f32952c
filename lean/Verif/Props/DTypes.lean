import Verif.Model.DTypes

/-!
# C92: type predicates
-/

namespace Verif.DTypes.Props

open Verif.DTypes

/-- Kind and size in bytes, from NumPy's documentation. -/
def kind : Scalar → Char × ℕ
  | .float16 => ('f', 2)
  | .float32 => ('f', 4)
  | .float64 => ('f', 8)
  | .longdouble => ('f', 16)
  | .int8 => ('i', 1)
  | .int16 => ('i', 2)
  | .int32 => ('i', 4)
  | .int64 => ('i', 8)
  | .longlong => ('i', 8)
  | .uint8 => ('u', 1)
  | .uint16 => ('u', 2)
  | .uint32 => ('u', 4)
  | .uint64 => ('u', 8)
  | .bool => ('b', 1)
  | .complex64 => ('c', 8)
  | .complex128 => ('c', 16)
  | .object => ('O', 8)

/-- C92, partial: the predicates answer `True` for arrays of the asked kind only, and for all of them in
double precision; Boolean arrays are recognized exactly.  Missing: floats and integers of other sizes
(`C92_single_violated`). -/
theorem C92_predicates_partial (a : Arr) :
    (isfloatarray a = true → (kind a.dtype).1 = 'f') ∧
    (isintegerarray a = true → (kind a.dtype).1 = 'i') ∧ isintarray a = isintegerarray a ∧
    (isboolarray a = true ↔ (kind a.dtype).1 = 'b') ∧
    (kind a.dtype = ('f', 8) → isfloatarray a = true) ∧
    (a.dtype = Scalar.int64 → isintegerarray a = true) ∧
    (is1dfloatarray a = true ↔ isfloatarray a = true ∧ a.shape.length = 1) ∧
    (is1dintarray a = true ↔ isintegerarray a = true ∧ a.shape.length = 1) := by
  obtain ⟨d, sh⟩ := a
  refine ⟨?_, ?_, rfl, ?_, ?_, ?_, ?_, ?_⟩
  · simp only [isfloatarray, isintegerarray, isboolarray]; cases d <;> decide
  · simp only [isfloatarray, isintegerarray, isboolarray]; cases d <;> decide
  · simp only [isfloatarray, isintegerarray, isboolarray]; cases d <;> decide
  · simp only [isfloatarray, isintegerarray, isboolarray]; cases d <;> decide
  · simp only [isfloatarray, isintegerarray, isboolarray]; cases d <;> decide
  · simp [is1dfloatarray]
  · simp [is1dintarray, isintarray]

/-- C92 is violated: arrays of floats or integers of other sizes are not recognized. -/
theorem C92_single_violated (sh : List ℕ) :
    (isfloatarray ⟨.float32, sh⟩ = false ∧ (kind .float32).1 = 'f') ∧
    (isintegerarray ⟨.int32, sh⟩ = false ∧ (kind .int32).1 = 'i') := ⟨⟨rfl, rfl⟩, ⟨rfl, rfl⟩⟩

/-- C92: `itype_of_ftype` returns a signed integer type of the size of its argument, or refuses; single
and double precision are accepted. -/
theorem C92_itype (d : Scalar) :
    (∀ i, itypeOfFtype d = .ok i → kind i = ('i', (kind d).2)) ∧
    (kind d = ('f', 4) ∨ kind d = ('f', 8) → ∃ i, itypeOfFtype d = .ok i) ∧
    (kind d = ('f', 2) ∨ kind d = ('f', 16) → itypeOfFtype d = .error .type) := by
  have key : ∀ e : Scalar, (∃ i, itypeOfFtype e = .ok i ∧ kind i = ('i', (kind e).2)) ∨
      itypeOfFtype e = .error .type := by
    intro e
    cases e <;> first | exact .inr rfl | exact .inl ⟨_, rfl, rfl⟩
  refine ⟨fun i hi => ?_, fun h => ?_, fun h => ?_⟩
  · rcases key d with ⟨j, h1, h2⟩ | h
    · rw [h1] at hi
      cases hi
      exact h2
    · rw [h] at hi
      cases hi
  · cases d <;> first | exact ⟨_, rfl⟩ | (exfalso; revert h; decide)
  · cases d <;> first | rfl | (exfalso; revert h; decide)

/-- C92 is violated: types that are no float types are accepted by `itype_of_ftype`. -/
theorem C92_itype_violated : itypeOfFtype .complex64 = .ok .int64 ∧ itypeOfFtype .uint32 = .ok .int32 :=
  ⟨rfl, rfl⟩

/-- C92: `is_none_or_false` holds for `None` and `False` only; it is violated for NumPy's `False`. -/
theorem C92_none_or_false (v : Val) :
    (isNoneOrFalse v = true ↔ v = .none ∨ v = .bool false) ∧ isNoneOrFalse (.npBool false) = false := by
  refine ⟨?_, rfl⟩
  cases v with
  | none => simp [isNoneOrFalse]
  | bool b => cases b <;> simp [isNoneOrFalse]
  | npBool b => simp [isNoneOrFalse]
  | other => simp [isNoneOrFalse]

end Verif.DTypes.Props
