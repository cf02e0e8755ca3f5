import Verif.Model.NetGraph

/-!
Text tables: `Utilities::formatTable` (include/common/Utilities.hpp:44-86). Cell text is a list of
characters, each taken to be one column wide and one byte (`size()` counts bytes while the formatting library
pads by display width; the two differ for non-ASCII text, which is not modelled).
-/
namespace Verif.Model

/-- Width of one column: the maximum over the header and all rows that have the column
(include/common/Utilities.hpp:52-60). -/
def colWidth (header : List Str) (rows : List (List Str)) (col : Nat) : Nat :=
  rows.foldl (fun w row =>
    match row[col]? with
    | some c => max w c.length
    | none => w) (header.getD col []).length

/-- `{:<{}}`: left-aligned in a field of the given width (include/common/Utilities.hpp:72). -/
def padRight (value : Str) (w : Nat) : Str := value ++ List.replicate (w - value.length) ' '

/-- The cell of a row, or the empty text for a short row (include/common/Utilities.hpp:64-69). -/
def cellAt (row : List Str) (col : Nat) : Str :=
  match row[col]? with
  | some v => v
  | none => []

/-- The loop over columns of `appendRow`, from column `col` with `k` columns to go
(include/common/Utilities.hpp:63-78). -/
def rowLoop (width : Nat → Nat) (cols padding : Nat) (row : List Str) : Nat → Nat → Str
  | 0, _ => []
  | k + 1, col =>
    padRight (cellAt row col) (width col) ++
    (if col + 1 < cols ∧ padding > 0 then List.replicate padding ' ' else []) ++
    rowLoop width cols padding row k (col + 1)

/-- `appendRow` (include/common/Utilities.hpp:62-80). -/
def appendRow (width : Nat → Nat) (cols padding : Nat) (row : List Str) : Str :=
  rowLoop width cols padding row cols 0 ++ ['\n']

/-- `formatTable` (include/common/Utilities.hpp:44-86). -/
def formatTable (header : List Str) (rows : List (List Str)) (padding : Nat) : Str :=
  let cols := header.length
  let width := colWidth header rows
  appendRow width cols padding header ++ rows.flatMap (appendRow width cols padding)

/-- The JSON form of a table: for each row an object with the lower-cased headers as keys
(tools/driver/driver.cpp:444-460). The writer's text layout is not modelled, only the sequence of
properties of each object. -/
def tableJson (header : List Str) (rows : List (List Str)) : List (List (Str × Str)) :=
  rows.map fun row => (header.map fun h => h.map Char.toLower).zip row

end Verif.Model
