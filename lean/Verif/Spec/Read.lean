import Mathlib.Data.Rat.Defs
import Mathlib.Algebra.Field.Rat

/-!
# Reading printed numbers

How a person or a program reads what was printed: words are separated by spaces and newlines, and a word is a decimal
number with an optional sign, fraction and exponent.
-/

namespace MatrixLibs

/-- Spaces and newlines separate words. -/
def isSep (c : Char) : Bool := c == ' ' || c == '\n'

/-- The words of a text, where `cur` is the word read so far. -/
def wordsFrom : List Char → List Char → List (List Char)
  | cur, [] => if cur = [] then [] else [cur]
  | cur, c :: cs =>
    if isSep c then (if cur = [] then wordsFrom [] cs else cur :: wordsFrom [] cs)
    else wordsFrom (cur ++ [c]) cs

/-- The words of a text: its maximal pieces without separators. -/
def words (s : List Char) : List (List Char) := wordsFrom [] s

/-- The text before the first `c` and the text after it. -/
def cut (c : Char) : List Char → List Char × List Char
  | [] => ([], [])
  | x :: xs => if x = c then ([], xs) else ((x :: (cut c xs).1), (cut c xs).2)

/-- The natural number with these decimal digits. -/
def readNat (s : List Char) : Nat := s.foldl (fun v c => 10 * v + (c.toNat - 48)) 0

/-- An integer, with an optional sign. -/
def readInt : List Char → Int
  | '-' :: s => -(readNat s : Int)
  | '+' :: s => readNat s
  | s => readNat s

/-- A number without sign: integer part, fraction after a point, exponent after `e`. -/
def readPos (s : List Char) : ℚ :=
  let (mant, ex) := cut 'e' s
  let (ip, fp) := cut '.' mant
  ((readNat ip : ℚ) + readNat fp / 10 ^ fp.length) * 10 ^ readInt ex

/-- A number with an optional sign. -/
def readDec : List Char → ℚ
  | '-' :: s => -readPos s
  | s => readPos s

end MatrixLibs
