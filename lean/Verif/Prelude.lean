import Mathlib.Data.List.Basic
import Mathlib.Data.List.Perm.Basic
import Mathlib.Data.List.Range

/-!
# Common vocabulary of the model

Python exceptions are values (`PyErr`), a computation that may raise is an
`Except PyErr`.  Nothing here models code of `/repo`; these are the semantics of
the Python/NumPy primitives the models are written in.
-/

namespace Verif

/-- The Python exception classes that the modelled code can raise. Messages are dropped. -/
inductive PyErr
  | assertion | value | type | runtime | index | key | attribute | zeroDiv
  | stopIteration | notImplemented | linalg | missingInput | shapeMismatch | generic
  deriving DecidableEq, Repr

/-- A computation that returns a value or raises. -/
abbrev Py (α : Type*) := Except PyErr α

/-- `l[i]` for a nonnegative index: `IndexError` out of range. -/
def pyGet {α : Type*} (l : List α) (i : ℕ) : Py α :=
  match l[i]? with
  | some a => .ok a
  | none => .error .index

/-- `[l[i] for i in idx]` (also NumPy fancy indexing `l[idx]`). -/
def pyGets {α : Type*} (l : List α) : List ℕ → Py (List α)
  | [] => .ok []
  | i :: is => do
    let a ← pyGet l i
    let as ← pyGets l is
    return a :: as

/-- A list comprehension whose body may raise; stops at the first exception. -/
def pyMap {α β : Type*} (f : α → Py β) : List α → Py (List β)
  | [] => .ok []
  | a :: as => do
    let b ← f a
    let bs ← pyMap f as
    return b :: bs

theorem pyGet_ok {α : Type*} {l : List α} {i : ℕ} (h : i < l.length) :
    pyGet l i = .ok l[i] := by
  simp [pyGet, h]

theorem pyGet_error {α : Type*} {l : List α} {i : ℕ} (h : l.length ≤ i) :
    pyGet l i = .error .index := by
  simp [pyGet, h]

theorem pyGet_eq_ok_iff {α : Type*} {l : List α} {i : ℕ} {a : α} :
    pyGet l i = .ok a ↔ l[i]? = some a := by
  unfold pyGet
  cases h : l[i]? <;> simp

theorem pyGets_ok {α : Type*} {l : List α} {is : List ℕ} (h : ∀ i ∈ is, i < l.length) :
    ∃ r, pyGets l is = .ok r ∧ r.length = is.length ∧
      ∀ (k : ℕ) (hk : k < is.length), r[k]? = l[is[k]]? := by
  induction is with
  | nil => exact ⟨[], rfl, rfl, by simp⟩
  | cons i is ih =>
    obtain ⟨r, hr, hlen, hget⟩ := ih (fun j hj => h j (List.mem_cons_of_mem _ hj))
    have hi : i < l.length := h i List.mem_cons_self
    refine ⟨l[i] :: r, ?_, by simp [hlen], ?_⟩
    · simp [pyGets, pyGet_ok hi, hr, bind, Except.bind, pure, Except.pure]
    · intro k hk
      cases k with
      | zero => simp [hi]
      | succ k => simpa using hget k (by simpa using hk)

theorem pyGets_eq_map {α : Type*} {l : List α} {is : List ℕ} (f : ℕ → α)
    (h : ∀ i ∈ is, l[i]? = some (f i)) : pyGets l is = .ok (is.map f) := by
  induction is with
  | nil => rfl
  | cons i is ih =>
    have hi := h i List.mem_cons_self
    have := ih (fun j hj => h j (List.mem_cons_of_mem _ hj))
    simp [pyGets, pyGet, hi, this, bind, Except.bind, pure, Except.pure]

theorem pyMap_ok {α β : Type*} {f : α → Py β} {g : α → β} {l : List α}
    (h : ∀ a ∈ l, f a = .ok (g a)) : pyMap f l = .ok (l.map g) := by
  induction l with
  | nil => rfl
  | cons a l ih =>
    have ha := h a List.mem_cons_self
    have := ih (fun j hj => h j (List.mem_cons_of_mem _ hj))
    simp [pyMap, ha, this, bind, Except.bind, pure, Except.pure]

/-- `pyMap` succeeds exactly if every call does, with the values in order. -/
theorem pyMap_eq_ok_iff {α β : Type*} {f : α → Py β} {l : List α} {r : List β} :
    pyMap f l = .ok r ↔ List.Forall₂ (fun a b => f a = .ok b) l r := by
  induction l generalizing r with
  | nil =>
    cases r <;> simp [pyMap]
  | cons a l ih =>
    simp only [pyMap, bind, Except.bind, pure, Except.pure]
    cases hfa : f a with
    | error e => cases r <;> simp [hfa]
    | ok b =>
      cases hl : pyMap f l with
      | error e =>
        cases r with
        | nil => simp
        | cons c cs =>
          simp only [List.forall₂_cons, ← ih, hl]
          simp
      | ok bs =>
        cases r with
        | nil => simp
        | cons c cs =>
          simp only [List.forall₂_cons, ← ih, hl, hfa]
          simp

/-- If `pyMap` fails, it is with the exception of one of the calls. -/
theorem pyMap_error {α β : Type*} {f : α → Py β} {l : List α} {e : PyErr}
    (h : pyMap f l = .error e) : ∃ a ∈ l, f a = .error e := by
  induction l with
  | nil => simp [pyMap] at h
  | cons a l ih =>
    simp only [pyMap, bind, Except.bind, pure, Except.pure] at h
    cases hfa : f a with
    | error e' =>
      simp [hfa] at h
      exact ⟨a, by simp, by simpa [h] using hfa⟩
    | ok b =>
      cases hl : pyMap f l with
      | error e' =>
        simp [hfa, hl] at h
        obtain ⟨x, hx, hx'⟩ := ih (by rw [hl, h])
        exact ⟨x, by simp [hx], hx'⟩
      | ok bs => simp [hfa, hl] at h

end Verif
