import Mathlib.Data.Nat.Notation

/-!
# Comments in JSON parameter files

Model of `stripComments`.
-/

namespace Xolotl.Options.Comments

/-- The lines `std::getline` yields until it fails. -/
def lines : List Char → List (List Char)
  | [] => []
  | c :: t => if c = '\n' then [] :: lines t else
    match lines t with
    | [] => [[c]]
    | h :: r => (c :: h) :: r

/-- The loop over the characters of one line: what is written, and the value of `cCommenting` at the end.  xolotl/options/src/JSONOptions.cpp:25-47. -/
def scan : Bool → List Char → List Char × Bool
  | b, [] => ([], b)
  | true, c :: t =>
    match c, t with
    | '*', '/' :: r => scan false r
    | _, t => scan true t
  | false, c :: t =>
    match c, t with
    | '#', _ => ([], false)
    | '/', '/' :: _ => ([], false)
    | '/', '*' :: r => scan true r
    | c, t => (c :: (scan false t).1, (scan false t).2)

/-- The loop over the lines.  xolotl/options/src/JSONOptions.cpp:24-48. -/
def strip (b : Bool) : List (List Char) → List Char
  | [] => []
  | l :: r => (scan b l).1 ++ strip (scan b l).2 r

/-- `stripComments`: the text written to the stream.  xolotl/options/src/JSONOptions.cpp:18-50. -/
def stripComments (text : List Char) : List Char := strip false (lines text)

end Xolotl.Options.Comments
