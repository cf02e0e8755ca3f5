import Verif.Proofs.Glob

/-!
Property theorems C20-C22: glob matching, its memory safety, and the --scope and --name filters.
-/
set_option linter.unusedSimpArgs false
namespace Verif.Props
open Verif.Spec Verif.Model Verif.Proofs

/-- C20: for every text and pattern the matcher answers exactly whether the text is a
concatenation of strings denoted by the pattern's pieces. -/
theorem glob_matches (text pattern : List Char) :
    ∃ b, glob text pattern = .ok b ∧ (b = true ↔ Matches (pieces pattern) text) :=
  wildcardMatch_decides _ text pattern (Nat.lt_succ_self _)

theorem cstr_visible (s : List Char) : cstr s = visible s := by
  unfold cstr
  induction s with
  | nil => rfl
  | cons c cs ih =>
    rw [List.takeWhile_cons, visible, ih]
    by_cases h : c = '\x00' <;> simp [h]

/-- C20: the matcher sees its arguments up to the first NUL. -/
theorem glob_visible (text pattern : List Char) :
    ∃ b, glob (cstr text) (cstr pattern) = .ok b ∧ (b = true ↔ Matches (pieces (visible pattern)) (visible text)) := by
  rw [cstr_visible, cstr_visible]
  exact glob_matches _ _

/-- A pattern ends at a NUL. -/
example : visible ['a', '\x00', 'b'] = ['a'] ∧ glob (cstr ['a']) (cstr ['a', '\x00', 'b']) = .ok true ∧
    glob (cstr ['a', 'b']) (cstr ['a', '\x00', 'b']) = .ok false := by decide

/-- C21: no text and pattern make the matcher read past a terminator, and the number of nested
calls never exceeds the pattern length plus one: any larger budget gives the same answer. -/
theorem glob_safe (text pattern : List Char) :
    glob text pattern ≠ .error .oob ∧ glob text pattern ≠ .error .budget ∧
    ∀ f, pattern.length < f → wildcardMatch f text pattern = glob text pattern := by
  obtain ⟨b, h1, h2⟩ := glob_matches text pattern
  refine ⟨by rw [h1]; simp, by rw [h1]; simp, ?_⟩
  intro f hf
  obtain ⟨b', h3, h4⟩ := wildcardMatch_decides f text pattern hf
  rw [h1, h3]
  have : b = b' := by
    cases b <;> cases b' <;> simp_all
  rw [this]

/-- An ordinary hierarchical name: no wildcard characters, no empty segment in the middle, not
ending in a dot. -/
def PlainName : List Char → Prop
  | [] => True
  | [c] => c ≠ '*' ∧ c ≠ '?' ∧ c ≠ '.'
  | c :: d :: r => c ≠ '*' ∧ c ≠ '?' ∧ (c = '.' → d ≠ '.') ∧ PlainName (d :: r)

theorem pieces_char {c : Char} (h1 : c ≠ '*') (h2 : c ≠ '?') (h3 : c ≠ '.') (r : List Char) :
    pieces (c :: r) = .lit c :: pieces r := by
  conv => lhs; unfold pieces
  split <;> simp_all

theorem pieces_dot {d : Char} (h1 : d ≠ '*') (h3 : d ≠ '.') (r : List Char) :
    pieces ('.' :: d :: r) = .lit '.' :: pieces (d :: r) := by
  conv => lhs; unfold pieces
  split
  case h_10 h => cases h; rfl
  all_goals simp_all

theorem pieces_plain (a rest : List Char) (h : PlainName a) :
    pieces (a ++ rest) = a.map Piece.lit ++ pieces rest := by
  induction a with
  | nil => rfl
  | cons c a ih =>
    cases a with
    | nil => simpa using pieces_char h.1 h.2.1 h.2.2 rest
    | cons d a =>
      obtain ⟨h1, h2, h3, h4⟩ := h
      have ih := ih h4
      show pieces (c :: (d :: a ++ rest)) =
        Piece.lit c :: (List.map Piece.lit (d :: a) ++ pieces rest)
      rw [← ih]
      by_cases hc : c = '.'
      · subst hc
        have hd : d ≠ '*' := by
          cases a with
          | nil => exact h4.1
          | cons _ _ => exact h4.1
        exact pieces_dot hd (h3 rfl) _
      · exact pieces_char h1 h2 hc _

theorem matches_lits (a : List Char) (ps : List Piece) (s : List Char) :
    Matches (a.map Piece.lit ++ ps) s ↔ ∃ t, s = a ++ t ∧ Matches ps t := by
  induction a generalizing s with
  | nil => simp
  | cons c a ih =>
    simp only [List.map_cons, List.cons_append, Matches, Piece.Den, ih]
    constructor
    · rintro ⟨_, b, rfl, rfl, t, rfl, h⟩
      exact ⟨t, rfl, h⟩
    · rintro ⟨t, rfl, h⟩
      exact ⟨[c], a ++ t, rfl, rfl, t, rfl, h⟩

theorem matches_lits_nil (a : List Char) (s : List Char) :
    Matches (a.map Piece.lit) s ↔ s = a := by
  have := matches_lits a [] s
  simp only [List.append_nil] at this
  rw [this]
  simp [Matches]

/-- C20, in the documentation's own terms: a name without wildcards matches only itself. -/
theorem glob_literal (a text : List Char) (ha : PlainName a) :
    glob text a = .ok true ↔ text = a := by
  obtain ⟨b, h1, h2⟩ := glob_matches text a
  have := pieces_plain a [] ha
  simp only [List.append_nil] at this
  rw [this] at h2
  simp only [pieces, List.append_nil, matches_lits_nil] at h2
  rw [h1]; simp [h2]

theorem pieces_deep_lead {b : List Char} (hb : b.head? ≠ some '.') :
    pieces ('.' :: '*' :: '*' :: b) = .deep true false :: pieces b := by
  rw [pieces]; rintro r rfl; exact hb rfl

/-- C20: `a.**.b` matches `a.b` and `a.<anything>.b`, and nothing else. -/
theorem glob_inner_deep (a b text : List Char) (ha : PlainName a) (hb : PlainName b) :
    glob text (a ++ ".**.".toList ++ b) = .ok true ↔
      text = a ++ '.' :: b ∨ ∃ mid, text = a ++ '.' :: mid ++ '.' :: b := by
  obtain ⟨r, h1, h2⟩ := glob_matches text (a ++ ".**.".toList ++ b)
  rw [List.append_assoc, pieces_plain a _ ha] at h2
  have e : pieces (".**.".toList ++ b) = .deep true true :: b.map Piece.lit := by
    have := pieces_plain b [] hb
    simp only [List.append_nil] at this
    show pieces ('.' :: '*' :: '*' :: '.' :: b) = _
    rw [pieces, this]; simp [pieces]
  rw [e, matches_lits] at h2
  rw [h1]
  simp only [Except.ok.injEq]
  rw [h2]
  simp only [Matches, matches_lits_nil]
  constructor
  · rintro ⟨t, rfl, x, _, rfl, (rfl | ⟨m, rfl⟩), rfl⟩
    · exact .inl rfl
    · exact .inr ⟨m, by simp⟩
  · rintro (rfl | ⟨m, rfl⟩)
    · exact ⟨_, rfl, ['.'], b, rfl, .inl rfl, rfl⟩
    · exact ⟨'.' :: m ++ '.' :: b, by simp, '.' :: m ++ ['.'], b, by simp, .inr ⟨m, rfl⟩, rfl⟩

/-- C20: `a.**` matches exactly the names in the scope `a`. -/
theorem glob_subtree (a text : List Char) (ha : PlainName a) :
    glob text (a ++ ".**".toList) = .ok true ↔ InScope text a := by
  obtain ⟨r, h1, h2⟩ := glob_matches text (a ++ ".**".toList)
  have e : pieces ".**".toList = [.deep true false] := by decide
  rw [pieces_plain a _ ha, e, matches_lits] at h2
  rw [h1]
  simp only [Except.ok.injEq]
  rw [h2]
  simp only [Matches, InScope]
  constructor
  · rintro ⟨t, rfl, x, _, rfl, (rfl | ⟨m, rfl⟩), rfl⟩
    · exact .inl (by simp)
    · exact .inr ⟨m, by simp⟩
  · rintro (rfl | ⟨m, rfl⟩)
    · exact ⟨[], by simp, [], [], rfl, .inl rfl, rfl⟩
    · exact ⟨'.' :: m, rfl, '.' :: m, [], by simp, .inr ⟨m, rfl⟩, rfl⟩

/-- C20: `**.b` matches `b` and every name ending in the segments `b`. -/
theorem glob_leaf (b text : List Char) (hb : PlainName b) :
    glob text ("**.".toList ++ b) = .ok true ↔ text = b ∨ ∃ pre, text = pre ++ '.' :: b := by
  obtain ⟨r, h1, h2⟩ := glob_matches text ("**.".toList ++ b)
  have e : pieces ("**.".toList ++ b) = .deep false true :: b.map Piece.lit := by
    have := pieces_plain b [] hb
    simp only [List.append_nil] at this
    show pieces ('*' :: '*' :: '.' :: b) = _
    rw [pieces, this]; simp [pieces]
  rw [e] at h2
  rw [h1]
  simp only [Except.ok.injEq]
  rw [h2]
  simp only [Matches, matches_lits_nil]
  constructor
  · rintro ⟨x, _, rfl, (rfl | ⟨m, rfl⟩), rfl⟩
    · exact .inl rfl
    · exact .inr ⟨m, by simp⟩
  · rintro (rfl | ⟨m, rfl⟩)
    · exact ⟨[], _, rfl, .inl rfl, rfl⟩
    · exact ⟨m ++ ['.'], b, by simp, .inr ⟨m, rfl⟩, rfl⟩

/-- C20: `a*b` matches `a<chars>b` where the characters contain no dot. -/
theorem glob_segment (a b text : List Char) (ha : PlainName a) (hb : PlainName b)  :
    glob text (a ++ '*' :: b) = .ok true ↔ ∃ mid, '.' ∉ mid ∧ text = a ++ mid ++ b := by
  obtain ⟨r, h1, h2⟩ := glob_matches text (a ++ '*' :: b)
  have e : pieces ('*' :: b) = .seg :: b.map Piece.lit := by
    have := pieces_plain b [] hb
    simp only [List.append_nil] at this
    have hh : ∀ r, ¬ b = '*' :: r := by
      rintro r rfl
      cases r with
      | nil => exact hb.1 rfl
      | cons _ _ => exact hb.1 rfl
    rw [pieces, this]
    · simp [pieces]
    · intro r hr; exact hh _ hr
    · intro r hr; exact hh _ hr
  rw [pieces_plain a _ ha, e, matches_lits] at h2
  rw [h1]
  simp only [Except.ok.injEq]
  rw [h2]
  simp only [Matches, matches_lits_nil, Piece.Den]
  constructor
  · rintro ⟨t, rfl, x, _, rfl, hx, rfl⟩
    exact ⟨x, hx, by simp⟩
  · rintro ⟨m, hm, rfl⟩
    exact ⟨m ++ b, by simp, m, b, rfl, hm, rfl⟩

/-- Non-vacuity: `top.u_a` is a plain name; and the examples of the user guide. -/
example : PlainName "top.u_a".toList := by simp [PlainName]

example :
    glob "top.a".toList "top.*".toList = .ok true ∧ glob "top.a.b".toList "top.*".toList = .ok false ∧
    glob "top".toList "top.*".toList = .ok false ∧ glob "top".toList "top.**".toList = .ok true ∧
    glob "topX".toList "top.**".toList = .ok false ∧
    glob "top.a.b.leaf".toList "top....leaf".toList = .ok true ∧
    glob "topXleaf".toList "top....leaf".toList = .ok false ∧
    glob "top.u_a".toList "top.u_?".toList = .ok true ∧
    glob "top.u_ab".toList "top.u_?".toList = .ok false ∧
    glob "xleaf".toList "**.leaf".toList = .ok false := by decide

/-- C20, a surprise in the documented form `top....leaf`: the dot before `...` is optional and there
is none after it, so the pattern also matches the unrelated single segment `topleaf` and the leaf
`xleaf`. -/
theorem four_dots_ignore_boundaries :
    glob "topleaf".toList "top....leaf".toList = .ok true ∧
    glob "top.xleaf".toList "top....leaf".toList = .ok true := by decide

/-! ### C22 -/

theorem pathInScope_decides (path scope : List Char) :
    Decides (pathInScope path scope) (InScope path scope) := by
  unfold pathInScope InScope
  split
  · rename_i h
    refine ⟨false, rfl, ?_⟩
    simp only [Bool.false_eq_true, false_iff, not_or, not_exists]
    constructor
    · rintro rfl; simp at h
    · rintro rest rfl
      simp at h
      omega
  · rename_i h
    simp only [not_or, Nat.not_lt, Decidable.not_not] at h
    obtain ⟨hl, ht⟩ := h
    obtain ⟨t, rfl⟩ : ∃ t, path = scope ++ t := ⟨path.drop scope.length, by
      conv => lhs; rw [← List.take_append_drop scope.length path, ht]⟩
    cases t with
    | nil => exact ⟨true, by simp, by simp⟩
    | cons c t =>
      refine ⟨decide (c = '.'), ?_, ?_⟩
      · rw [if_neg (by simp)]
        have : (scope ++ c :: t)[scope.length]? = some c := by simp
        rw [this]
      · simp

theorem anyOf_decides {t : List Char → Except Fault Bool} {P : List Char → Prop}
    (h : ∀ x, Decides (t x) (P x)) (xs : List (List Char)) :
    Decides (anyOf t xs) (∃ x ∈ xs, P x) := by
  induction xs with
  | nil => exact ⟨false, rfl, by simp⟩
  | cons x xs ih =>
    obtain ⟨b, h1, h2⟩ := h x
    obtain ⟨b', h3, h4⟩ := ih
    refine ⟨b || b', ?_, ?_⟩
    · simp only [anyOf, h1, bind, Except.bind, pure, Except.pure, h3]
      cases b <;> simp
    · simp [h2, h4]

/-- C22: a node passes iff it lies in one of the scopes (if any are given) and matches one of the
name patterns (if any are given); the test itself never accesses memory out of range. -/
theorem filters_exact (scopes names : List (List Char)) (path : List Char) :
    ∃ b, passesFilters scopes names path = .ok b ∧
      (b = true ↔ (scopes = [] ∨ ∃ s ∈ scopes, InScope path s) ∧
        (names = [] ∨ ∃ p ∈ names, Matches (pieces (visible p)) (visible path))) := by
  obtain ⟨b1, h1, h2⟩ := anyOf_decides (fun s => pathInScope_decides path s) scopes
  obtain ⟨b2, h3, h4⟩ := anyOf_decides (t := fun p => glob (cstr path) (cstr p))
    (P := fun p => Matches (pieces (visible p)) (visible path))
    (fun p => glob_visible path p) names
  rw [← h2, ← h4]
  refine ⟨(decide (scopes = []) || b1) && (decide (names = []) || b2), ?_, ?_⟩
  · unfold passesFilters
    simp only [h1, h3, bind, Except.bind, pure, Except.pure]
    by_cases hs : scopes = [] <;> by_cases hn : names = [] <;> cases b1 <;> cases b2 <;>
      simp [hs, hn]
  · simp

/-- C22: the scope test on its own. -/
theorem scope_exact (path scope : List Char) :
    pathInScope path scope = .ok true ↔ path = scope ∨ ∃ rest, path = scope ++ '.' :: rest := by
  obtain ⟨b, h1, h2⟩ := pathInScope_decides path scope
  rw [h1]
  simp [h2, InScope]

/-- C22: scope filtering agrees with the glob `scope.**`. -/
theorem scope_is_subtree_glob (path scope : List Char) (h : PlainName scope) :
    pathInScope path scope = .ok true ↔ glob path (scope ++ ".**".toList) = .ok true := by
  rw [glob_subtree _ _ h]; exact scope_exact _ _

/-- Instances are black-boxed exactly when some pattern matches the definition name or the path. -/
theorem blackBox_exact (patterns : List (List Char)) (defName path : List Char) :
    ∃ b, isBlackBox patterns defName path = .ok b ∧
      (b = true ↔ ∃ p ∈ patterns, Matches (pieces (visible p)) (visible defName) ∨
        Matches (pieces (visible p)) (visible path)) := by
  obtain ⟨b1, h1, h2⟩ := anyOf_decides (t := fun p => glob (cstr defName) (cstr p))
    (P := fun p => Matches (pieces (visible p)) (visible defName))
    (fun p => glob_visible defName p) patterns
  obtain ⟨b2, h3, h4⟩ := anyOf_decides (t := fun p => glob (cstr path) (cstr p))
    (P := fun p => Matches (pieces (visible p)) (visible path))
    (fun p => glob_visible path p) patterns
  refine ⟨!decide (patterns = []) && (b1 || b2), ?_, ?_⟩
  · unfold isBlackBox
    simp only [h1, h3, bind, Except.bind, pure, Except.pure]
    by_cases hp : patterns = []
    · simp [hp]
    · cases b1 <;> cases b2 <;> simp [hp]
  · simp only [Bool.and_eq_true, Bool.not_eq_true', decide_eq_false_iff_not, Bool.or_eq_true, h2, h4]
    constructor
    · rintro ⟨_, ⟨p, hp, h⟩ | ⟨p, hp, h⟩⟩
      · exact ⟨p, hp, .inl h⟩
      · exact ⟨p, hp, .inr h⟩
    · rintro ⟨p, hp, h | h⟩
      · exact ⟨by rintro rfl; simp at hp, .inl ⟨p, hp, h⟩⟩
      · exact ⟨by rintro rfl; simp at hp, .inr ⟨p, hp, h⟩⟩

example : passesFilters ["top.cpu".toList] ["**.q_reg".toList] "top.cpu.alu.q_reg".toList = .ok true ∧
    passesFilters ["top.cpu".toList] [] "top.cpu2".toList = .ok false ∧
    isBlackBox ["mem_*".toList] "mem_8k".toList "top.u".toList = .ok true := by decide

/-- The theorems on plain names apply to names of the user guide. -/
example := glob_literal "top.u_a".toList "top.u_b".toList (by simp [PlainName])
example := glob_segment "top.u_".toList "_q".toList "top.u_a_q".toList (by simp [PlainName]) (by simp [PlainName])
example := glob_leaf "q_reg".toList "top.cpu.q_reg".toList (by simp [PlainName])
example := glob_inner_deep "top".toList "leaf".toList "top.a.b.leaf".toList (by simp [PlainName]) (by simp [PlainName])
example := scope_is_subtree_glob "top.cpu.alu".toList "top.cpu".toList (by simp [PlainName])

/-- C21 says something: in the model, looking or moving past the terminator of a string is noticed, exactly. -/
theorem past_end_noticed (p : List Char) (k : Nat) :
    (rd p k = .error .oob ↔ p.length < k) ∧ (adv p k = .error .oob ↔ p.length < k) := by
  unfold rd adv
  constructor <;> by_cases h : k ≤ p.length <;> simp [h] <;> omega

end Verif.Props
