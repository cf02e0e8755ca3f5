import Verif.Model.Table

/-!
Property theorem C24: text tables are aligned and lossless.
-/
set_option linter.unusedSimpArgs false
namespace Verif.Props
open Verif.Model

theorem foldl_width_ge (rows : List (List Str)) (col w : Nat) :
    w ≤ rows.foldl (fun w row => match row[col]? with
      | some c => max w c.length
      | none => w) w ∧
    ∀ row ∈ rows, ∀ c, row[col]? = some c → c.length ≤ rows.foldl (fun w row => match row[col]? with
      | some c => max w c.length
      | none => w) w := by
  induction rows generalizing w with
  | nil => simp
  | cons r rows ih =>
    obtain ⟨h1, h2⟩ := ih (match r[col]? with
      | some c => max w c.length
      | none => w)
    simp only [List.foldl_cons]
    refine ⟨Nat.le_trans ?_ h1, ?_⟩
    · split
      · exact Nat.le_max_left _ _
      · exact Nat.le_refl _
    · intro row hr c hc
      rcases List.mem_cons.1 hr with rfl | hr
      · refine Nat.le_trans ?_ h1
        rw [hc]; exact Nat.le_max_right _ _
      · exact h2 row hr c hc

theorem colWidth_ge (header : List Str) (rows : List (List Str)) (col : Nat)
    (row : List Str) (hr : row ∈ header :: rows) (c : Str) (hc : row[col]? = some c) :
    c.length ≤ colWidth header rows col := by
  obtain ⟨h1, h2⟩ := foldl_width_ge rows col (header.getD col []).length
  unfold colWidth
  rcases List.mem_cons.1 hr with rfl | hr
  · refine Nat.le_trans ?_ h1
    simp [List.getD, hc]
  · exact h2 row hr c hc

/-- Where column `col` starts: after the widths of and the gaps behind the columns before it. -/
def colStart (width : Nat → Nat) (padding : Nat) : Nat → Nat
  | 0 => 0
  | col + 1 => colStart width padding col + width col + padding

theorem padRight_length (v : Str) (w : Nat) (h : v.length ≤ w) : (padRight v w).length = w := by
  simp [padRight]; omega

theorem rowLoop_spec (width : Nat → Nat) (cols padding : Nat) (row : List Str)
    (hw : ∀ col c, row[col]? = some c → c.length ≤ width col) (k col : Nat)
    (hk : col + k = cols) (j : Nat) (hj : col ≤ j) (hjc : j < cols) :
    ((rowLoop width cols padding row k col).drop
      (colStart width padding j - colStart width padding col)).take (width j) =
      padRight (row.getD j []) (width j) := by
  have hmono : ∀ d a, colStart width padding a ≤ colStart width padding (a + d) := by
    intro d
    induction d with
    | zero => intro a; exact Nat.le_refl _
    | succ d ih => intro a; have := ih a; rw [← Nat.add_assoc]; simp only [colStart]; omega
  induction k generalizing col with
  | zero => omega
  | succ k ih =>
    have hcell : cellAt row col = row.getD col [] := by
      simp only [List.getD, cellAt]
      cases row[col]? <;> rfl
    have hle : (row.getD col []).length ≤ width col := by
      simp only [List.getD]
      cases h : row[col]? with
      | none => simp
      | some c => simpa using hw col c h
    simp only [rowLoop, hcell]
    have hpl := padRight_length _ _ hle
    by_cases hjcol : j = col
    · subst hjcol
      simp only [Nat.sub_self, List.drop_zero, List.append_assoc]
      rw [List.take_append_of_le_length (by omega), List.take_of_length_le (by omega)]
    · have hlt : col + 1 < cols := by omega
      have ih := ih (col + 1) (by omega) (by omega)
      have hpad : (if col + 1 < cols ∧ padding > 0 then List.replicate padding ' ' else []) =
          List.replicate padding ' ' := by
        split
        · rfl
        · have : padding = 0 := by omega
          rw [this]; rfl
      rw [hpad]
      have hm := hmono (j - (col + 1)) (col + 1)
      rw [show col + 1 + (j - (col + 1)) = j by omega] at hm
      have e : colStart width padding j - colStart width padding col =
          (padRight (row.getD col []) (width col) ++ List.replicate padding ' ').length +
          (colStart width padding j - colStart width padding (col + 1)) := by
        simp only [List.length_append, hpl, List.length_replicate]
        simp only [colStart] at hm ⊢
        omega
      rw [e, ← List.drop_drop, List.drop_left]
      exact ih

theorem rowLoop_length (width : Nat → Nat) (cols padding : Nat) (row row' : List Str)
    (hw : ∀ col c, row[col]? = some c → c.length ≤ width col)
    (hw' : ∀ col c, row'[col]? = some c → c.length ≤ width col) (k col : Nat) :
    (rowLoop width cols padding row k col).length =
      (rowLoop width cols padding row' k col).length := by
  have hl : ∀ row : List Str, (∀ col c, row[col]? = some c → c.length ≤ width col) → ∀ col,
      (padRight (cellAt row col) (width col)).length = width col := by
    intro row hw col
    apply padRight_length
    unfold cellAt
    cases h : row[col]? with
    | none => simp
    | some c => simpa using hw col c h
  induction k generalizing col with
  | zero => rfl
  | succ k ih => simp only [rowLoop, List.length_append, hl row hw, hl row' hw', ih]

theorem rowLoop_chars (width : Nat → Nat) (cols padding : Nat) (row : List Str) (k col : Nat) :
    ∀ ch ∈ rowLoop width cols padding row k col, ch = ' ' ∨ ∃ cell ∈ row, ch ∈ cell := by
  induction k generalizing col with
  | zero => simp [rowLoop]
  | succ k ih =>
    intro ch hch
    simp only [rowLoop, List.mem_append] at hch
    rcases hch with (h | h) | h
    · simp only [padRight, cellAt, List.mem_append, List.mem_replicate] at h
      rcases h with h | h
      · cases hc : row[col]? with
        | none => rw [hc] at h; simp at h
        | some c => rw [hc] at h; exact .inr ⟨c, List.mem_of_getElem? hc, h⟩
      · exact .inl h.2
    · split at h
      · exact .inl (List.mem_replicate.1 h).2
      · simp at h
    · exact ih (col + 1) ch h

/-- C24: the text is one line per row, header first. All lines have the same length, and for each
column there is one offset and one width, at least as wide as every cell in it, such that in every line the
field at that offset is the cell text followed by blanks (all blank if the row is short);
columns do not overlap and are separated by the padding. Lines contain no newline if cells do not,
so the line structure is recoverable. -/
theorem table_aligned (header : List Str) (rows : List (List Str)) (padding : Nat) :
    ∃ (lines : List Str) (start width : Nat → Nat),
      formatTable header rows padding = lines.flatMap (fun l => l ++ ['\n']) ∧
      lines.length = rows.length + 1 ∧
      (∀ a ∈ lines, ∀ b ∈ lines, a.length = b.length) ∧
      start 0 = 0 ∧ (∀ col, start (col + 1) = start col + width col + padding) ∧
      (∀ (i : Nat) (row : List Str) (line : Str) (col : Nat), (header :: rows)[i]? = some row → lines[i]? = some line →
        col < header.length →
        (row.getD col []).length ≤ width col ∧
        (line.drop (start col)).take (width col) =
          row.getD col [] ++ List.replicate (width col - (row.getD col []).length) ' ') ∧
      ((∀ row ∈ header :: rows, ∀ cell ∈ row, '\n' ∉ cell) → ∀ l ∈ lines, '\n' ∉ l) := by
  have hw := colWidth_ge header rows
  refine ⟨(header :: rows).map fun r =>
      rowLoop (colWidth header rows) header.length padding r header.length 0,
    colStart (colWidth header rows) padding, colWidth header rows, ?_, by simp, ?_, rfl,
    fun _ => rfl, ?_, ?_⟩
  · simp only [formatTable, appendRow, List.map_cons, List.flatMap_cons, List.flatMap_map]
    rfl
  · intro a ha b hb
    obtain ⟨r, hr, rfl⟩ := List.mem_map.1 ha
    obtain ⟨r', hr', rfl⟩ := List.mem_map.1 hb
    exact rowLoop_length _ _ _ _ _ (fun col c hc => hw col r hr c hc)
      (fun col c hc => hw col r' hr' c hc) _ _
  · intro i row line col hrow hline hcol
    rw [List.getElem?_map, hrow] at hline
    simp only [Option.map_some, Option.some.injEq] at hline
    subst hline
    have hmem := List.mem_of_getElem? hrow
    constructor
    · simp only [List.getD]
      cases h : row[col]? with
      | none => simp
      | some c => simpa using hw col row hmem c h
    · have := rowLoop_spec (colWidth header rows) header.length padding row
        (fun col c hc => hw col row hmem c hc) header.length 0 (by omega) col (by omega) hcol
      simpa [colStart, padRight] using this
  · intro hn l hl hc
    obtain ⟨r, hr, rfl⟩ := List.mem_map.1 hl
    rcases rowLoop_chars _ _ _ _ _ _ _ hc with h | ⟨cell, hcell, h⟩
    · exact absurd h (by decide)
    · exact hn r hr cell hcell h

/-- C24, limit: cells beyond the header's columns are dropped from the text. No caller passes such rows. -/
theorem table_drops_extra_cells :
    formatTable [['a']] [[['b'], ['c']]] 2 = "a\nb\n".toList := by decide

/-- Non-vacuity: a two-column table with cells of different lengths and a short row. -/
example : formatTable ["Name".toList, "Loc".toList] [["top.a".toList, "f:1".toList], ["x".toList]] 2 =
    "Name   Loc\ntop.a  f:1\nx         \n".toList := by decide

/-- C24: the JSON form carries the same cells: one object per row, whose `i`-th property is the
`i`-th header in lower case with the `i`-th cell. -/
theorem table_json_exact (header : List Str) (rows : List (List Str)) :
    (tableJson header rows).length = rows.length ∧
    ∀ (i : Nat) (row : List Str) (obj : List (Str × Str)), rows[i]? = some row → (tableJson header rows)[i]? = some obj →
      obj.length = min header.length row.length ∧
      ∀ (c : Nat) (h cell : Str), header[c]? = some h → row[c]? = some cell →
        obj[c]? = some (h.map Char.toLower, cell) := by
  refine ⟨by simp [tableJson], ?_⟩
  intro i row obj hr ho
  simp only [tableJson, List.getElem?_map, hr, Option.map_some, Option.some.injEq] at ho
  subst ho
  refine ⟨by simp, ?_⟩
  intro c h cell hh hc
  rw [List.getElem?_zip_eq_some]
  simp [hh, hc]

end Verif.Props
