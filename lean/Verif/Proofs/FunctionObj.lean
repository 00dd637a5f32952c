import Verif.Model.FunctionObj

set_option linter.unusedSectionVars false

/-!
# Lemmas about keyword arguments and function objects
-/

namespace Verif.FnObj

variable {S E C X : Type}

theorem Kw.get_cons (p : Key × Obj S E C X) (kw : Kw S E C X) (k : Key) (d : Obj S E C X) :
    Kw.get (p :: kw) k d = if p.1 = k then p.2 else Kw.get kw k d := by
  unfold Kw.get
  by_cases h : p.1 = k <;> simp [List.find?_cons, h]

theorem Kw.get_nil (k : Key) (d : Obj S E C X) : Kw.get ([] : Kw S E C X) k d = d := rfl

theorem Kw.has_cons (p : Key × Obj S E C X) (kw : Kw S E C X) (k : Key) :
    Kw.has (p :: kw) k = (decide (p.1 = k) || Kw.has kw k) := by
  simp [Kw.has]

theorem Kw.get_of_not_has {kw : Kw S E C X} {k : Key} (h : kw.has k = false) (d : Obj S E C X) :
    kw.get k d = d := by
  induction kw with
  | nil => rfl
  | cons p kw ih =>
    rw [Kw.has_cons, Bool.or_eq_false_iff] at h
    rw [Kw.get_cons, if_neg (by simpa using h.1), ih h.2]

theorem Kw.get_append (kw kw' : Kw S E C X) (k : Key) (d : Obj S E C X) :
    Kw.get (kw ++ kw') k d = Kw.get kw k (Kw.get kw' k d) := by
  induction kw with
  | nil => rfl
  | cons p kw ih => rw [List.cons_append, Kw.get_cons, Kw.get_cons, ih]

theorem Kw.has_append (kw kw' : Kw S E C X) (k : Key) :
    Kw.has (kw ++ kw') k = (Kw.has kw k || Kw.has kw' k) := by
  simp [Kw.has]

theorem Kw.get_map_set (kw : Kw S E C X) (k k' : Key) (v d : Obj S E C X) :
    Kw.get (kw.map fun p => if p.1 = k then (k, v) else p) k' d =
      if k = k' then (if kw.has k then v else d) else kw.get k' d := by
  induction kw with
  | nil => by_cases h : k = k' <;> simp [Kw.get, Kw.has]
  | cons p kw ih =>
    rw [List.map_cons, Kw.get_cons, ih, Kw.has_cons, Kw.get_cons]
    by_cases h1 : p.1 = k <;> by_cases h2 : k = k'
    · simp [h1, h2]
    · simp [h1, h2]
    · subst h2; simp [h1]
    · rw [if_neg h1, if_neg h2, if_neg h2]

theorem Kw.get_set (kw : Kw S E C X) (k k' : Key) (v d : Obj S E C X) :
    (kw.set k v).get k' d = if k = k' then v else kw.get k' d := by
  unfold Kw.set
  by_cases h : kw.has k = true
  · rw [if_pos h, Kw.get_map_set, if_pos h]
  · rw [if_neg h, Kw.get_append, Kw.get_cons, Kw.get_nil]
    by_cases h' : k = k'
    · subst h'
      simp [Kw.get_of_not_has (by simpa using h)]
    · simp [h']

theorem Kw.has_map_set (kw : Kw S E C X) (k k' : Key) (v : Obj S E C X) :
    Kw.has (kw.map fun p => if p.1 = k then (k, v) else p) k' = kw.has k' := by
  induction kw with
  | nil => rfl
  | cons p kw ih =>
    rw [List.map_cons, Kw.has_cons, ih, Kw.has_cons]
    by_cases h1 : p.1 = k <;> simp [h1]

theorem Kw.has_set (kw : Kw S E C X) (k k' : Key) (v : Obj S E C X) :
    (kw.set k v).has k' = (decide (k = k') || kw.has k') := by
  unfold Kw.set
  by_cases h : kw.has k = true
  · rw [if_pos h, Kw.has_map_set]
    by_cases h' : k = k'
    · subst h'; simp [h]
    · simp [h']
  · rw [if_neg h, Kw.has_append]
    simp [Kw.has, Bool.or_comm]

/-- What the dictionary of a symbolic function makes of the keyword arguments. -/
theorem Kw.get_update (kw : Kw S E C X) (r : Symbolized S E C X) (k : Key) (d : Obj S E C X) :
    (kw.update r.kw).get k d =
      match k with
      | .value => .call r.value
      | .gradient => .call r.gradient
      | .Hessian => .call r.Hessian
      | .d => .other r.d
      | .vars => r.vars
      | .expr => .expr r.expr
      | k => kw.get k d := by
  simp only [Kw.update, Symbolized.kw, List.foldl_cons, List.foldl_nil, Kw.get_set]
  cases k <;> simp

theorem getasany_update (kw : Kw S E C X) (r : Symbolized S E C X) :
    getasany [.d, .dimension, .dim] (kw.update r.kw) = .other r.d := by
  have : (kw.update r.kw).has .d = true := by
    simp only [Kw.update, Symbolized.kw, List.foldl_cons, List.foldl_nil, Kw.has_set]
    simp
  simp only [getasany, List.find?_cons, this, Kw.get_update]

/-- The object made from a text or an expression. -/
theorem assign_update (o : Fn S E C X) (a : Args S E C X) (kw : Kw S E C X) (r : Symbolized S E C X) :
    o.assign a (kw.update r.kw) =
      ⟨.call r.value, .call r.gradient, .call r.Hessian, .other r.d, kw.get .domain .none,
        kw.get .vmap .none, .expr r.expr, r.vars, o.fromStr⟩ := by
  simp only [Fn.assign, Kw.get_update, getasany_update]

theorem assign_eq (o : Fn S E C X) (a : Args S E C X) (kw : Kw S E C X) :
    o.assign a kw =
      ⟨kw.get .value a.f0, kw.get .gradient a.f1, kw.get .Hessian a.f2,
        getasany [.d, .dimension, .dim] kw, kw.get .domain .none,
        kw.get .vmap .none, kw.get .expr .none, kw.get .vars a.vars, o.fromStr⟩ := rfl

end Verif.FnObj
