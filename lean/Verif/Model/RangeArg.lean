import Verif.Model.NetGraph
import Verif.Model.Wildcard

/-!
Signal-range arguments: `parseNameAndRange` (tools/driver/driver.cpp:496-531) and the textual form
of a bit range (include/netlist/DriverBitRange.hpp:46-51).
-/
namespace Verif.Model

/-- A decimal digit character, as accepted by `std::from_chars` in base 10
(tools/driver/driver.cpp:501). -/
def isDig (c : Char) : Bool := '0' ≤ c && c ≤ '9'

/-- Value of a digit sequence, most significant first (`std::from_chars`,
tools/driver/driver.cpp:501). -/
def digVal (ds : Str) : Nat := ds.foldl (fun v c => v * 10 + (c.toNat - 48)) 0

/-- Result of `std::from_chars` for `int32_t` (tools/driver/driver.cpp:501): the value if the
conversion succeeded (`none` for `invalid_argument` and `result_out_of_range`) and the unread
rest of the text. The library function is modelled by its documented behaviour: an optional minus
sign, then the longest run of digits. -/
def fromChars (s : Str) : Option Int × Str :=
  let neg := s.head? == some '-'
  let body := if neg then s.tail else s
  let ds := body.takeWhile isDig
  let rest := body.dropWhile isDig
  if ds = [] then (none, s)
  else
    let v : Int := if neg then -(digVal ds : Int) else digVal ds
    if -2147483648 ≤ v ∧ v ≤ 2147483647 then (some v, rest) else (none, rest)

/-- The lambda `parseInt` (tools/driver/driver.cpp:498-506). -/
def parseInt (s : Str) : Option Int :=
  match fromChars s with
  | (some v, []) => some v
  | _ => none

/-- `std::string_view::substr(pos, n)`: throws when `pos` is past the end
(tools/driver/driver.cpp:515-516, 525-526). `n = none` is the default (to the end). -/
def substr (s : Str) (pos : Nat) (n : Option Nat) : Except Fault Str :=
  if pos ≤ s.length then
    .ok (match n with
      | some n => (s.drop pos).take n
      | none => s.drop pos)
  else .error .oob

/-- `std::string_view::rfind(c)` (tools/driver/driver.cpp:511). -/
def rfind (c : Char) : Str → Option Nat
  | [] => none
  | x :: xs =>
    match rfind c xs with
    | some k => some (k + 1)
    | none => if x = c then some 0 else none

/-- `std::string_view::find(c)` (tools/driver/driver.cpp:517). -/
def findChar (c : Char) : Str → Option Nat
  | [] => none
  | x :: xs => if x = c then some 0 else (findChar c xs).map (· + 1)

/-- `parseNameAndRange` (tools/driver/driver.cpp:496-531). The unsigned subtraction
`size - open - 2` wraps when `open + 2 > size`; the model treats that as the fault `oob`. -/
def parseNameAndRange (spec : Str) : Except Fault (Str × Option BitRange) := do
  if spec = [] then return (spec, none)
  if spec.getLast? ≠ some ']' then return (spec, none)
  match rfind '[' spec with
  | none => return (spec, none)
  | some op =>
    if op + 2 > spec.length then throw .oob
    let inner ← substr spec (op + 1) (some (spec.length - op - 2))
    let path ← substr spec 0 (some op)
    match findChar ':' inner with
    | none =>
      match parseInt inner with
      | none => return (spec, none)
      | some bit => return (path, some ⟨bit, bit⟩)
    | some colon =>
      let hi := parseInt (← substr inner 0 (some colon))
      let lo := parseInt (← substr inner (colon + 1) none)
      match hi, lo with
      | some h, some l => return (path, some ⟨h, l⟩)
      | _, _ => return (spec, none)

/-- Decimal text of a natural number, as produced by `fmt::format("{}", n)`
(include/netlist/DriverBitRange.hpp:48, 50). -/
def decNat (n : Nat) : Str :=
  if h : n < 10 then [Char.ofNat (48 + n)]
  else decNat (n / 10) ++ [Char.ofNat (48 + n % 10)]
termination_by n
decreasing_by omega

/-- Decimal text of an integer, as produced by `fmt::format("{}", i)`
(include/netlist/DriverBitRange.hpp:48, 50). -/
def decInt (i : Int) : Str := if i < 0 then '-' :: decNat i.natAbs else decNat i.natAbs

/-- `toString(DriverBitRange)` (include/netlist/DriverBitRange.hpp:46-51). -/
def rangeText (r : BitRange) : Str :=
  if r.lower = r.upper then '[' :: decInt r.lower ++ [']']
  else '[' :: decInt r.upper ++ ':' :: decInt r.lower ++ [']']

end Verif.Model
