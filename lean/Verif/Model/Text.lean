import Verif.Model.Cluster

/-!
# Model of the strings of the library: `version.hpp:15-27`, `config.h:43-44`, `GooseEYE.h:23-49`, `GooseEYE.h:1135-1139`

A string is its list of characters.
-/

namespace Verif.Text

open Verif

/-- A definition of the macro `GOOSEEYE_VERSION`, `version.h:32-34`: a string literal or anything else (e.g. `0.8.0`).
The text is what is between the quotes, or all of it. -/
structure Macro where
  quoted : Bool
  text : List Char

/-- The operator `#` of the preprocessor inside a string literal (external): a backslash before every quote and every
backslash. -/
def escape : List Char → List Char
  | [] => []
  | c :: s => if c = '"' ∨ c = '\\' then '\\' :: c :: escape s else c :: escape s

/-- `QUOTE(x)`, `config.h:43-44`: the spelling of the definition. Simplified: the definition expands to no further
macros, and has no spaces unless it is quoted. -/
def quote (m : Macro) : List Char := if m.quoted then '"' :: escape m.text ++ ['"'] else m.text

/-- The loop of `std::remove` (external) on the characters from `i` on, with `done` the characters that are kept. -/
def removeLoop (c : Char) : List Char → List Char → List Char
  | done, [] => done
  | done, d :: s => if d = c then removeLoop c done s else removeLoop c (done ++ [d]) s

/-- `detail::unquote(arg)`, `version.hpp:16-21`: `std::remove` and `erase` of what is behind the kept characters. -/
def unquote (s : List Char) : List Char := removeLoop '"' [] s

/-- `version()`, `version.hpp:25-28`. -/
def version (m : Macro) : List Char := unquote (quote m)

/-- `detail::get_namespace()`, `GooseEYE.h:23-31`; `python` is `GOOSEEYE_USE_XTENSOR_PYTHON`. -/
def getNamespace (python : Bool) : List Char :=
  if python then "GooseEYE".toList ++ ".".toList else "GooseEYE".toList ++ "::".toList

/-- `std::to_string(n)` (external) of an integer that is not negative. -/
def toString (n : Nat) : List Char := Nat.toDigits 10 n

/-- The loop of `detail::shape_to_string(shape)`, `GooseEYE.h:41-46`: `i < shape.size() - 1` is that there are elements
left. -/
def shapeLoop : List Char → List Nat → List Char
  | ret, [] => ret
  | ret, [n] => ret ++ toString n
  | ret, n :: m :: s => shapeLoop (ret ++ toString n ++ ", ".toList) (m :: s)

/-- `detail::shape_to_string(shape)`, `GooseEYE.h:37-49`. -/
def shapeToString (shape : List Nat) : List Char := shapeLoop "[".toList shape ++ "]".toList

/-- `repr()`, `GooseEYE.h:1135-1139`; `__repr__` in Python, `main.cpp:44`. -/
def repr (python : Bool) (s : Cluster.State) : List Char :=
  getNamespace python ++ "ClusterLabeller".toList ++ toString s.shape.length ++ " ".toList ++ shapeToString s.shape

end Verif.Text
