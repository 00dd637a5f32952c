import Verif.Prelude

/-!
# Model of the type predicates: `logical.py` 7-54, `utils.py` 17-27 `itype_of_ftype`

The scalar types of NumPy on Linux.  `np.issubdtype(dtype, float)` replaces the Python type by the
scalar type `np.float64` (`int` by `np.int64`, `bool` by `np.bool_`) and asks for a subclass, of which
the concrete types have none but themselves.
-/

namespace Verif.DTypes

/-- NumPy's scalar types. -/
inductive Scalar
  | float16 | float32 | float64 | longdouble
  | int8 | int16 | int32 | int64 | longlong
  | uint8 | uint16 | uint32 | uint64
  | bool | complex64 | complex128 | object
  deriving DecidableEq, Repr

/-- The Python types that are asked for. -/
inductive PyType
  | float | int | bool

/-- `np.dtype(float).type` and so on. -/
def PyType.scalar : PyType → Scalar
  | .float => .float64
  | .int => .int64
  | .bool => .bool

/-- `np.issubdtype` with a Python type. -/
def issubdtype (d : Scalar) (t : PyType) : Bool := d = t.scalar

/-- An array as far as the predicates look at it. -/
structure Arr where
  dtype : Scalar
  shape : List ℕ

/-- `logical.py` 15-19. -/
def isfloatarray (a : Arr) : Bool := issubdtype a.dtype .float

/-- `logical.py` 22-26. -/
def isintegerarray (a : Arr) : Bool := issubdtype a.dtype .int

/-- `logical.py` 29-33. -/
def isintarray (a : Arr) : Bool := isintegerarray a

/-- `logical.py` 36-40. -/
def isboolarray (a : Arr) : Bool := issubdtype a.dtype .bool

/-- `logical.py` 43-47. -/
def is1dfloatarray (a : Arr) : Bool := isfloatarray a && a.shape.length == 1

/-- `logical.py` 50-54. -/
def is1dintarray (a : Arr) : Bool := isintarray a && a.shape.length == 1

/-- Values that `is_none_or_false` may be asked about. -/
inductive Val
  | none
  | bool (b : Bool)
  /-- NumPy's `np.bool_`, which is not a subclass of `bool` -/
  | npBool (b : Bool)
  | other

/-- `logical.py` 7-12. -/
def isNoneOrFalse : Val → Bool
  | .bool b => !b
  | .none => true
  | _ => false

/-- `np.dtype(dtype).name` -/
def Scalar.name : Scalar → List Char
  | .float16 => "float16".toList
  | .float32 => "float32".toList
  | .float64 => "float64".toList
  | .longdouble => "float128".toList
  | .int8 => "int8".toList
  | .int16 => "int16".toList
  | .int32 => "int32".toList
  | .int64 => "int64".toList
  | .longlong => "int64".toList
  | .uint8 => "uint8".toList
  | .uint16 => "uint16".toList
  | .uint32 => "uint32".toList
  | .uint64 => "uint64".toList
  | .bool => "bool".toList
  | .complex64 => "complex64".toList
  | .complex128 => "complex128".toList
  | .object => "object".toList

/-- `sub in text` -/
def contains (sub : List Char) : List Char → Bool
  | [] => sub.isEmpty
  | c :: cs => sub.isPrefixOf (c :: cs) || contains sub cs

/-- `utils.py` 17-27. -/
def itypeOfFtype (d : Scalar) : Py Scalar :=
  if contains ['3', '2'] d.name then .ok .int32
  else if contains ['6', '4'] d.name then .ok .int64
  else .error .type

end Verif.DTypes
