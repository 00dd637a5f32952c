import Verif.Prelude

/-!
# Making symbols from a template, `function/symutils.py`

Texts are lists of characters.  Python's `str.format` is modelled for the fields `{}` and `{0}` and for doubled braces
(other fields are refused here); `sympy.symbols` for texts without backslashes.
-/

namespace Verif.GenSym
open Verif

/-- Python's `str(i)` of an integer. -/
def pyStr : ℤ → List Char
  | .ofNat n => Nat.toDigits 10 n
  | .negSucc n => '-' :: Nat.toDigits 10 (n + 1)

/-- the numbering of the fields met so far -/
inductive Numbering
  | no
  | auto
  | manual

/-- `template.format(i)` with `v` the text of `i`; symutils.py:15. -/
def fmt (v : List Char) : Numbering → List Char → Py (List Char)
  | _, [] => .ok []
  | m, '{' :: '{' :: cs => (fmt v m cs).map ('{' :: ·)
  | m, '}' :: '}' :: cs => (fmt v m cs).map ('}' :: ·)
  | .no, '{' :: '}' :: cs => (fmt v .auto cs).map (v ++ ·)
  | .auto, '{' :: '}' :: _ => .error .index
  | .manual, '{' :: '}' :: _ => .error .value
  | .auto, '{' :: '0' :: '}' :: _ => .error .value
  | .no, '{' :: '0' :: '}' :: cs => (fmt v .manual cs).map (v ++ ·)
  | .manual, '{' :: '0' :: '}' :: cs => (fmt v .manual cs).map (v ++ ·)
  | m, c :: cs => if c = '{' ∨ c = '}' then .error .value else (fmt v m cs).map (c :: ·)

/-- white space (of ASCII) -/
def ws (c : Char) : Bool := c = ' ' || c = '\t' || c = '\n' || c = '\r'

/-- `text.strip()` -/
def strip (t : List Char) : List Char := ((t.dropWhile ws).reverse.dropWhile ws).reverse

/-- `text.split()`; the second argument is the word being read, backwards -/
def words : List Char → List Char → List (List Char)
  | [], acc => if acc = [] then [] else [acc.reverse]
  | c :: cs, acc =>
    if ws c then (if acc = [] then words cs [] else acc.reverse :: words cs []) else words cs (c :: acc)

/-- `text.split(',')` -/
def commas : List Char → List Char → List (List Char)
  | [], acc => [acc.reverse]
  | c :: cs, acc => if c = ',' then acc.reverse :: commas cs [] else commas cs (c :: acc)

/-- What `sympy.symbols` returns: a symbol or a tuple of symbols, given by their names. -/
inductive Made
  | one (n : List Char)
  | many (l : List (List Char))

/-- A text without the comma it ends with, and if there is one. -/
def trailing (t : List Char) : List Char × Bool :=
  if t.getLast? = some ',' then ((t.dropLast.reverse.dropWhile ws).reverse, true) else (t, false)

/-- `sympy.symbols(text, seq=seq)` as called in symutils.py:14-16; `expand` stands for the names made from one with a
colon (`x:3`). -/
def symbolsOf (expand : List Char → Py (List (List Char))) (seq : Option Bool) (text : List Char) : Py Made :=
  let (t, asSeq) := trailing (strip text)
  if t = [] then .error .value
  else
    let parts := (commas t []).map strip
    if [] ∈ parts then .error .value
    else
      match pyMap (fun n => if ':' ∈ n then expand n else .ok [n]) (parts.flatMap (words · [])) with
      | .error e => .error e
      | .ok ll =>
        match seq.getD asSeq, ll.flatten with
        | false, [n] => .ok (.one n)
        | _, l => .ok (.many l)

/-- symutils.py:8-18 `generate_symbols(template, indices, seq=…)`: a single symbol is not iterable. -/
def generate (expand : List Char → Py (List (List Char))) (template : List Char) (indices : List ℤ)
    (seq : Option Bool) : Py (List (List Char)) :=
  match pyMap (fun i => fmt (pyStr i) .no template) indices with
  | .error e => .error e
  | .ok texts =>
    match symbolsOf expand seq (List.intercalate [' '] texts) with
    | .error e => .error e
    | .ok (.one _) => .error .type
    | .ok (.many l) => .ok l

end Verif.GenSym
