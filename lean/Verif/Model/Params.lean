import Verif.Model.ParamKeys
import Mathlib.Data.Int.Log
import Mathlib.Data.Rat.Floor
import Mathlib.Algebra.Order.Round
import Mathlib.Data.Nat.Digits.Defs

/-!
# Parameter files (src/Common/Parameters.cpp)

Strings are lists of characters.  `std::string::find` returns `npos` when nothing is found, which becomes `-1` in the `int`
variables of `ParseLine`.  Floating-point parameters are rationals; how they are written and read is a parameter of the
model.
-/

set_option autoImplicit false

namespace Gandalf.Params

/-- `int pos = s.find(c)` -/
def find (c : Char) (s : List Char) : ℤ := match s.idxOf? c with
  | some i => i
  | none => -1

/-- `s.substr(pos, len)`: a negative `len` becomes a huge `size_t` -/
def substr (s : List Char) (pos len : ℤ) : List Char := if len < 0 then s.drop pos.toNat else (s.drop pos.toNat).take len.toNat

/-- `TrimWhiteSpace`, Parameters.cpp:677-688 -/
def trim (s : List Char) : List Char := s.filter fun c => c ≠ ' '

/-! ### numbers -/

def digitChar (d : ℕ) : Char := Char.ofNat (48 + d)

def isDigit (c : Char) : Bool := 48 ≤ c.toNat && c.toNat ≤ 57

/-- value of a string of digits -/
def digitsVal (s : List Char) : ℕ := s.foldl (fun a c => 10 * a + (c.toNat - 48)) 0

def intMax : ℤ := 2147483647
def intMin : ℤ := -2147483648

/-- an optional sign and digits -/
def signedVal : List Char → ℤ
  | '-' :: r => -(digitsVal (r.takeWhile isDigit) : ℤ)
  | '+' :: r => digitsVal (r.takeWhile isDigit)
  | r => digitsVal (r.takeWhile isDigit)

/-- `std::stringstream(value) >> i` for an `int`: leading white space, an optional sign, digits; no digits give `0`, values
out of range the nearest `int` (C++11) -/
def readInt (s : List Char) : ℤ :=
  max intMin (min intMax (signedVal (s.dropWhile fun c => c = ' ' ∨ c = '\t' ∨ c = '\n' ∨ c = '\r')))

/-- digits of a natural number -/
def showNat (n : ℕ) : List Char := if n = 0 then ['0'] else (Nat.digits 10 n).reverse.map digitChar

/-- `outfile << i` for an `int` -/
def showInt (z : ℤ) : List Char := if z < 0 then '-' :: showNat z.natAbs else showNat z.natAbs

/-! ### tables -/

/-- `std::map<string, β>`: the keys and their values -/
structure PMap (β : Type) where
  keys : List (List Char)
  val : List Char → β

def PMap.set {β : Type} (m : PMap β) (k : List Char) (v : β) : PMap β := { m with val := Function.update m.val k v }

/-- `Parameters` -/
structure Table where
  ints : PMap ℤ
  floats : PMap ℚ
  strings : PMap (List Char)

/-- writing and reading floating-point numbers -/
structure FloatText where
  write : ℚ → List Char
  read : List Char → ℚ

variable (io : FloatText)

/-- `SetParameter`, Parameters.cpp:582-600 -/
def setParameter (t : Table) (key value : List Char) : Table :=
  if key ∈ t.ints.keys then { t with ints := t.ints.set key (readInt value) }
  else if key ∈ t.floats.keys then { t with floats := t.floats.set key (io.read value) }
  else if key ∈ t.strings.keys then { t with strings := t.strings.set key value }
  else t

/-- `ParseLine`, Parameters.cpp:126-152 -/
def parseLine (t : Table) (line : List Char) : Table :=
  let p := trim line
  let colon := find ':' p
  let equal := find '=' p
  let hash := find '#' p
  let length : ℤ := p.length
  if hash = 0 ∨ length = 0 then t
  else if equal ≥ length ∨ (colon < length ∧ colon > equal) then t
  else setParameter io t (substr p (colon + 1) (equal - colon - 1)) (substr p (equal + 1) (length - equal - 1))

/-- the loop of `ReadParamsFile`, Parameters.cpp:87-92 -/
def readLines (t : Table) (lines : List (List Char)) : Table := lines.foldl (parseLine io) t

/-- `it->first << " = " << it->second` -/
def entry (k v : List Char) : List Char := k ++ [' ', '=', ' '] ++ v

/-- `RecordParametersToFile`, Parameters.cpp:639-669: the lines of the file -/
def record (t : Table) : List (List Char) :=
  t.ints.keys.map (fun k => entry k (showInt (t.ints.val k))) ++
  t.floats.keys.map (fun k => entry k (io.write (t.floats.val k))) ++
  t.strings.keys.map (fun k => entry k (t.strings.val k))

/-- `x` rounded to six significant decimal digits: what `outfile << x` leaves of a `double` (default precision) -/
def round6 (x : ℚ) : ℚ := round (x / 10 ^ (Int.log 10 |x| - 5)) * 10 ^ (Int.log 10 |x| - 5)

end Gandalf.Params
