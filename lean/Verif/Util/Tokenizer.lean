import Mathlib.Data.Nat.Notation
import Mathlib.Data.Int.Notation

/-!
# Tokenizer

Model of `util::Tokenizer`.  Strings are lists of characters.  `boost::tokenizer` with `char_separator<char>(" ")` drops the delimiters and the empty tokens; with an explicit list of delimiters it does not use `isspace` or `ispunct`.
-/

namespace Xolotl.Util.Tokenizer

/-- One step of `char_separator::operator()`: skip the delimiters, then take characters up to the next one; repeated by `boost::token_iterator` until the end.  xolotl/util/include/xolotl/util/Tokenizer.h:44-47. -/
def tokens (l : List Char) : List (List Char) :=
  match _h : l.dropWhile (· == ' ') with
  | [] => []
  | c :: r => (c :: r.takeWhile (· != ' ')) :: tokens (r.dropWhile (· != ' '))
termination_by l.length
decreasing_by
  have h1 : (l.dropWhile (· == ' ')).length ≤ l.length := (List.dropWhile_sublist _).length_le
  have h2 : (r.dropWhile (· != ' ')).length ≤ r.length := (List.dropWhile_sublist _).length_le
  rw [_h] at h1
  simp only [List.length_cons] at h1
  omega

/-- `isspace` in the classic locale. -/
def space (c : Char) : Bool := c == ' ' || c == '\t' || c == '\n' || c == '\r' || c.toNat == 11 || c.toNat == 12

/-- Decimal digits. -/
def isDigit (c : Char) : Bool := 48 ≤ c.toNat && c.toNat ≤ 57

/-- Value of a string of decimal digits. -/
def value (l : List Char) : ℕ := l.foldl (fun n c => 10 * n + (c.toNat - 48)) 0

/-- Largest and smallest `int`. -/
def intMax : ℤ := 2147483647
def intMin : ℤ := -2147483648

/-- An optional sign: whether it is a minus, and what follows. -/
def sign : List Char → Bool × List Char
  | '-' :: r => (true, r)
  | '+' :: r => (false, r)
  | r => (false, r)

/-- `int data; istringstream(str) >> data;`: leading white space is skipped, an optional sign and the longest run of digits are read, the rest is left; nothing read gives 0, a value out of range the nearest limit.  The state of the stream is never looked at.  xolotl/util/include/xolotl/util/Tokenizer.h:15-25. -/
def extract (l : List Char) : ℤ :=
  let p := sign (l.dropWhile space)
  let n : ℤ := value (p.2.takeWhile isDigit)
  let z := if p.1 then -n else n
  if intMax < z then intMax else if z < intMin then intMin else z

/-- `Tokenizer<int>{str}()`.  xolotl/util/include/xolotl/util/Tokenizer.h:49-62. -/
def ints (l : List Char) : List ℤ := (tokens l).map extract

end Xolotl.Util.Tokenizer
