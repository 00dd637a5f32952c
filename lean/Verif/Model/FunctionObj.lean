import Verif.Prelude

/-!
# Model of the objects of class `Function`

`function/function.py` 159-201 and 231-259, 343-366, `function/metafunction.py`, `function/testfunction.py`.

What SymPy does with a text or an expression is a parameter (`Env`): `Model/Expr`, `Model/Calculus`,
`Model/Symbols` and `Model/Coeffs` are about that.  Here it matters which of the things given to the
constructor an object evaluates, what an object remembers, and which method of a class hierarchy runs.

Simplified: the `domain` and `vmap` attributes, only stored by the code and never read, are one field
each; warnings of the deprecated properties are left out; `getasany` of the package `sigmaepsilon.core`
takes the first of the names that was given.
-/

namespace Verif.FnObj

/-- A Python object given to the constructor: `None`, a text, a SymPy expression, a callable, or anything
else (numbers, lists of variables, …). -/
inductive Obj (S E C X : Type)
  | none
  | str (s : S)
  | expr (e : E)
  | call (c : C)
  | other (x : X)
  deriving DecidableEq

/-- The names of keyword arguments. -/
inductive Key
  | value | gradient | Hessian | d | dimension | dim | domain | vmap | expr | strExpr | simplify
  | vars | optimums | optText
  | free (n : ℕ)
  deriving DecidableEq

section
variable {S E C X : Type}

/-- Keyword arguments, in the order given. -/
abbrev Kw (S E C X : Type) := List (Key × Obj S E C X)

/-- `kwargs.get(k, default)`. -/
def Kw.get (kw : Kw S E C X) (k : Key) (dflt : Obj S E C X) : Obj S E C X :=
  match kw.find? fun p => p.1 = k with
  | some p => p.2
  | none => dflt

/-- `k in kwargs`. -/
def Kw.has (kw : Kw S E C X) (k : Key) : Bool := kw.any fun p => p.1 = k

/-- `kwargs[k] = v`: in place if the key is there, else at the end. -/
def Kw.set (kw : Kw S E C X) (k : Key) (v : Obj S E C X) : Kw S E C X :=
  if kw.has k then kw.map fun p => if p.1 = k then (k, v) else p else kw ++ [(k, v)]

/-- `kwargs.update(other)`. -/
def Kw.update (kw other : Kw S E C X) : Kw S E C X :=
  other.foldl (fun acc p => acc.set p.1 p.2) kw

/-- `getasany(keys, None, **kwargs)` of `sigmaepsilon.core.kwargtools`. -/
def getasany (keys : List Key) (kw : Kw S E C X) : Obj S E C X :=
  match keys.find? fun k => kw.has k with
  | some k => kw.get k .none
  | none => .none

/-- What `symbolize` is about: a text or an expression. -/
inductive Source (S E : Type)
  | text (s : S)
  | expr (e : E)

/-- The dictionary `symbolize` returns (`function/symutils.py` 58-65). -/
structure Symbolized (S E C X : Type) where
  value : C
  gradient : C
  Hessian : C
  d : X
  vars : Obj S E C X
  expr : E

/-- The dictionary with its keys, in the order of `symutils.py` 58-65. -/
def Symbolized.kw (r : Symbolized S E C X) : Kw S E C X :=
  [(.value, .call r.value), (.gradient, .call r.gradient), (.Hessian, .call r.Hessian),
    (.d, .other r.d), (.vars, r.vars), (.expr, .expr r.expr)]

/-- What SymPy contributes. -/
structure Env (S E C X : Type) where
  /-- `symbolize` of a text or an expression, given the argument `variables` and the argument `simplify`
  (`True` if not given). -/
  symbolize : Source S E → Obj S E C X → Obj S E C X → Py (Symbolized S E C X)
  /-- `substitute(expr, values, variables, as_string)` -/
  substitute : E → List X → Obj S E C X → Bool → Py E
  /-- `expr.simplify()` -/
  simplify : E → E
  /-- the object `True` -/
  tt : X

/-- `_str_to_func(f0, variables=variables, **kwargs)`, `metafunction.py` 68-70 and `symutils.decode` 20-40.
A keyword argument `str_expr` clashes with the parameter.  A keyword argument `expr` is overruled. -/
def strToFunc (env : Env S E C X) (s : S) (vars : Obj S E C X) (kw : Kw S E C X) :
    Py (Symbolized S E C X) :=
  if kw.has .strExpr then .error .type
  else env.symbolize (.text s) vars (kw.get .simplify (.other env.tt))

/-- `_sympy_to_func(f0, variables=variables, **kwargs)`, `metafunction.py` 72-74 and `symutils.decode`.
A keyword argument `expr` clashes with the parameter.  A keyword argument `str_expr` overrules the
expression (`symutils.py` 31-32). -/
def sympyToFunc (env : Env S E C X) (e : E) (vars : Obj S E C X) (kw : Kw S E C X) :
    Py (Symbolized S E C X) :=
  if kw.has .expr then .error .type
  else match kw.get .strExpr .none with
    | .none => env.symbolize (.expr e) vars (kw.get .simplify (.other env.tt))
    | .str s => env.symbolize (.text s) vars (kw.get .simplify (.other env.tt))
    | _ => .error .type

/-- The state of an object, `function.py` 159 and `metafunction.py` 27. -/
structure Fn (S E C X : Type) where
  f0 : Obj S E C X
  f1 : Obj S E C X
  f2 : Obj S E C X
  dimension : Obj S E C X
  domain : Obj S E C X
  vmap : Obj S E C X
  expr : Obj S E C X
  vars : Obj S E C X
  fromStr : Bool

/-- The arguments of the constructor and of `update`, `function.py` 164-185. -/
structure Args (S E C X : Type) where
  f0 : Obj S E C X
  f1 : Obj S E C X
  f2 : Obj S E C X
  vars : Obj S E C X
  kw : Kw S E C X

/-- Lines 194-201: the attributes from the keyword arguments (after `kwargs.update`). -/
def Fn.assign (o : Fn S E C X) (a : Args S E C X) (kw : Kw S E C X) : Fn S E C X :=
  let o := { o with expr := kw.get .expr .none }
  let o := { o with vars := kw.get .vars a.vars }
  let o := { o with f0 := kw.get .value a.f0 }
  let o := { o with f1 := kw.get .gradient a.f1 }
  let o := { o with f2 := kw.get .Hessian a.f2 }
  let o := { o with dimension := getasany [.d, .dimension, .dim] kw }
  let o := { o with domain := kw.get .domain .none }
  { o with vmap := kw.get .vmap .none }

/-- `Function.update`, `function.py` 176-201: the state afterwards and the exception, if any.  An exception
of `symbolize` comes after line 185 and before the attributes are set. -/
def Fn.update (env : Env S E C X) (o : Fn S E C X) (a : Args S E C X) : Fn S E C X × Py Unit :=
  let o := { o with fromStr := false }                                    -- line 185
  match a.f0 with
  | .str s =>
    match strToFunc env s a.vars a.kw with
    | .error e => (o, .error e)
    | .ok r => ({ o with fromStr := true }.assign a (a.kw.update r.kw), .ok ())
  | .expr e =>
    match sympyToFunc env e a.vars a.kw with
    | .error e => (o, .error e)
    | .ok r => (o.assign a (a.kw.update r.kw), .ok ())
  | _ => (o.assign a a.kw, .ok ())

/-- An object without attributes set. -/
def Fn.blank : Fn S E C X := ⟨.none, .none, .none, .none, .none, .none, .none, .none, false⟩

/-- `Function(…)`, `function.py` 164-174. -/
def construct (env : Env S E C X) (a : Args S E C X) : Py (Fn S E C X) :=
  match (Fn.blank : Fn S E C X).update env a with
  | (o, .ok ()) => .ok o
  | (_, .error e) => .error e

/-- `is_symbolic`, `function.py` 243-250. -/
def Fn.isSymbolic (o : Fn S E C X) : Bool :=
  match o.expr with
  | .none => false
  | _ => true

/-- `is_linear` of a function which is not symbolic, `function.py` 241-242. -/
def Fn.isLinearNumerical (o : Fn S E C X) : Bool :=
  match o.f2 with
  | .none => true
  | _ => false

/-- `simplify`, `function.py` 252-259: the state afterwards. -/
def Fn.simplify (env : Env S E C X) (o : Fn S E C X) : Fn S E C X × Py Unit :=
  match o.expr with
  | .none => (o, .error .type)
  | .expr e => ({ o with expr := .expr (env.simplify e) }, .ok ())
  | _ => (o, .error .attribute)

/-- `subs`, `function.py` 343-366: the state of the object afterwards and the function returned.  With
`inplace` the object itself is returned. -/
def Fn.subs (env : Env S E C X) (o : Fn S E C X) (values : List X) (vars : Obj S E C X)
    (inplace : Bool) : Fn S E C X × Py (Fn S E C X) :=
  match o.expr with
  | .none => (o, .error .type)
  | .expr e =>
    match env.substitute e values vars o.fromStr with
    | .error err => (o, .error err)
    | .ok e' =>
      match env.symbolize (.expr e') vars (.other env.tt) with
      | .error err => (o, .error err)
      | .ok r =>
        -- the item `variables` of the dictionary is the parameter of that name
        let a : Args S E C X := ⟨.none, .none, .none, r.vars,
          r.kw.filter fun p => p.1 ≠ .vars⟩
        if inplace then
          match o.update env a with
          | (o', .ok ()) => (o', .ok o')
          | (o', .error err) => (o', .error err)
        else (o, construct env a)
  | _ => (o, .error .attribute)

/-- Calling a stored object: everything but a callable raises `TypeError`. -/
def Obj.run {A R : Type} (app : C → A → Py R) (o : Obj S E C X) (args : A) : Py R :=
  match o with
  | .call c => app c args
  | _ => .error .type

/-! ### Methods of a class hierarchy, `metafunction.py` 7-64 -/

/-- The attributes of a class that matter. -/
inductive Attr
  | f | g | G | value | gradient | Hessian
  deriving DecidableEq

/-- A method: one of `MetaFunction` (lines 32-64) that calls the stored `f0`, `f1`, `f2`, or one of the user. -/
inductive Meth (M : Type)
  | stored0 | stored1 | stored2
  | user (m : M)
  deriving DecidableEq

/-- A class statement: what its body defines, and whether its metaclass is the one of `MetaFunction`
(inherited by every subclass, not by a mixin class without such a base). -/
structure Cls (M : Type) where
  body : Attr → Option (Meth M)
  ofMeta : Bool

/-- `ABCMeta_MetaFunction.__new__`, lines 12-23: the attributes of the class made. -/
def Cls.attrs {M : Type} (c : Cls M) : Attr → Option (Meth M) := fun a =>
  if c.ofMeta then
    match a with
    | .f => match c.body .value with
      | some m => some m
      | none => c.body .f
    | .g => match c.body .gradient with
      | some m => some m
      | none => c.body .g
    | .G => match c.body .Hessian with
      | some m => some m
      | none => c.body .G
    | a => c.body a
  else c.body a

/-- The class `MetaFunction`, lines 26-64. -/
def metaFunction (M : Type) : Cls M where
  body := fun a => match a with
    | .f => some .stored0
    | .g => some .stored1
    | .G => some .stored2
    | _ => none
  ofMeta := true

/-- `getattr(obj, a)`: the first class of the method resolution order that has the attribute. -/
def getattr {M : Type} (mro : List (Cls M)) (a : Attr) : Py (Meth M) :=
  match mro.findSome? fun c => c.attrs a with
  | some m => .ok m
  | none => .error .attribute

/-- Running a method of an object. -/
def runMeth {M A R : Type} (app : C → A → Py R) (user : M → Fn S E C X → A → Py R)
    (o : Fn S E C X) (args : A) : Meth M → Py R
  | .stored0 => o.f0.run app args
  | .stored1 => o.f1.run app args
  | .stored2 => o.f2.run app args
  | .user m => user m o args

/-- `obj.f(…)`, and `obj(…)` by `__call__` (lines 29-30); `obj.g(…)`, `obj.G(…)`, `obj.value(…)`, … -/
def invoke {M A R : Type} (app : C → A → Py R) (user : M → Fn S E C X → A → Py R)
    (mro : List (Cls M)) (o : Fn S E C X) (a : Attr) (args : A) : Py R :=
  match getattr mro a with
  | .ok m => runMeth app user o args m
  | .error e => .error e

/-! ### Test functions, `testfunction.py` -/

/-- The loop of `TestFunction.__init__`, lines 14-22, over the keyword arguments in the order given.
`asText` and `asList` are the assertions `isinstance(value, str)` and `isinstance(value, Iterable)`. -/
def testLoop {T P : Type} (asText : Obj S E C X → Option T) (asList : Obj S E C X → Option (List P)) :
    Kw S E C X → List P → T → Py (List P × T)
  | [], opts, text => .ok (opts, text)
  | (k, v) :: rest, opts, text =>
    if k = .optText then
      match asText v with
      | some t => .ok (opts, t)                                           -- `break`
      | none => .error .assertion
    else if k = .optimums then
      match asList v with
      | some l => testLoop asText asList rest (opts ++ l) text
      | none => .error .assertion
    else testLoop asText asList rest opts text

/-- `TestFunction(…)`: the function, its optima and its text. -/
def testFunction {T P : Type} (env : Env S E C X) (asText : Obj S E C X → Option T)
    (asList : Obj S E C X → Option (List P)) (opt : T) (a : Args S E C X) :
    Py (Fn S E C X × List P × T) :=
  match construct env a with
  | .error e => .error e
  | .ok o =>
    match testLoop asText asList a.kw [] opt with
    | .error e => .error e
    | .ok r => .ok (o, r)

/-- `TestMinFunction(…)` and `TestMaxFunction(…)`, lines 31-38: the text is put after the other keyword
arguments; giving it a second time is a `TypeError`. -/
def testMinMax {T P : Type} (env : Env S E C X) (asText : Obj S E C X → Option T)
    (asList : Obj S E C X → Option (List P)) (opt : T) (text : Obj S E C X) (a : Args S E C X) :
    Py (Fn S E C X × List P × T) :=
  if a.kw.has .optText then .error .type
  else testFunction env asText asList opt { a with kw := a.kw ++ [(.optText, text)] }

end

end Verif.FnObj
