import Verif.Model.RangeArg

/-!
Property theorem C23: signal-range arguments.
-/
set_option linter.unusedSimpArgs false
namespace Verif.Props
open Verif.Model

/-- Text `s` is a decimal numeral (optional minus sign, at least one digit) of the 32-bit value
`v`. -/
def Numeral (s : List Char) (v : Int) : Prop :=
  -2147483648 ≤ v ∧ v ≤ 2147483647 ∧ ∃ ds, ds ≠ [] ∧ (∀ c ∈ ds, '0' ≤ c ∧ c ≤ '9') ∧
    ((s = ds ∧ v = digVal ds) ∨ (s = '-' :: ds ∧ v = -(digVal ds : Int)))

theorem takeWhile_dropWhile_all {p : Char → Bool} {s : List Char} (h : s.dropWhile p = []) :
    s.takeWhile p = s ∧ ∀ c ∈ s, p c = true := by
  have h1 : s.takeWhile p = s := by
    have := List.takeWhile_append_dropWhile (p := p) (l := s)
    rw [h, List.append_nil] at this; exact this
  refine ⟨h1, ?_⟩
  intro c hc
  have := List.all_takeWhile (p := p) (l := s)
  rw [h1, List.all_eq_true] at this
  exact this c hc

theorem all_takeWhile {p : Char → Bool} {s : List Char} (h : ∀ c ∈ s, p c = true) :
    s.takeWhile p = s ∧ s.dropWhile p = [] := by
  induction s with
  | nil => simp
  | cons c s ih =>
    have hc := h c (by simp)
    obtain ⟨h1, h2⟩ := ih (fun c hc => h c (by simp [hc]))
    simp [List.takeWhile_cons, List.dropWhile_cons, hc, h1, h2]

theorem parseInt_iff (s : List Char) (v : Int) : parseInt s = some v ↔ Numeral s v := by
  have hdig : ∀ c, isDig c = true ↔ '0' ≤ c ∧ c ≤ '9' := by intro c; simp [isDig]
  constructor
  · intro h
    unfold parseInt at h
    split at h
    · rename_i w hf
      cases h
      unfold fromChars at hf
      by_cases hneg : (s.head? == some '-') = true
      · simp only [hneg, ↓reduceIte] at hf
        by_cases hne : s.tail.takeWhile isDig = []
        · simp [hne] at hf
        rw [if_neg hne] at hf
        split at hf
        · rename_i hr
          simp only [Prod.mk.injEq, Option.some.injEq] at hf
          obtain ⟨hv, hd⟩ := hf
          obtain ⟨ht, ha⟩ := takeWhile_dropWhile_all hd
          rw [ht] at hv hr hne
          refine ⟨by omega, by omega, s.tail, hne, fun c hc => (hdig c).1 (ha c hc),
            .inr ⟨?_, hv.symm⟩⟩
          cases s with
          | nil => simp at hneg
          | cons c s => simp at hneg; rw [hneg]; rfl
        · simp at hf
      · simp only [hneg, Bool.false_eq_true, ↓reduceIte] at hf
        by_cases hne : s.takeWhile isDig = []
        · simp [hne] at hf
        rw [if_neg hne] at hf
        split at hf
        · rename_i hr
          simp only [Prod.mk.injEq, Option.some.injEq] at hf
          obtain ⟨hv, hd⟩ := hf
          obtain ⟨ht, ha⟩ := takeWhile_dropWhile_all hd
          rw [ht] at hv hr hne
          exact ⟨by omega, by omega, s, hne, fun c hc => (hdig c).1 (ha c hc), .inl ⟨rfl, hv.symm⟩⟩
        · simp at hf
    · cases h
  · rintro ⟨hlo, hhi, ds, hne, hall, h⟩
    obtain ⟨h1, h2⟩ := all_takeWhile (p := isDig) (fun c hc => (hdig c).2 (hall c hc))
    rcases h with ⟨rfl, rfl⟩ | ⟨rfl, rfl⟩
    · have hneg : (s.head? == some '-') = false := by
        cases s with
        | nil => rfl
        | cons c s =>
          have := hall c (by simp)
          simp only [List.head?_cons]
          apply beq_false_of_ne
          intro hc
          cases hc
          exact absurd this.1 (by decide)
      have : fromChars s = (some (digVal s : Int), []) := by
        unfold fromChars
        simp only [hneg, Bool.false_eq_true, ↓reduceIte, h1, h2, hne]
        rw [if_pos ⟨hlo, hhi⟩]
      unfold parseInt; rw [this]
    · have : fromChars ('-' :: ds) = (some (-(digVal ds : Int)), []) := by
        unfold fromChars
        simp only [List.head?_cons, beq_self_eq_true, ↓reduceIte, List.tail_cons, h1, h2, hne]
        rw [if_pos ⟨hlo, hhi⟩]
      unfold parseInt; rw [this]

theorem rfind_none {c : Char} {s : List Char} : rfind c s = none ↔ c ∉ s := by
  induction s with
  | nil => simp [rfind]
  | cons x s ih =>
    simp only [rfind]
    split
    · rename_i k h
      simp only [reduceCtorEq, List.mem_cons, not_or, false_iff, not_and, Classical.not_not]
      intro _
      exact Classical.byContradiction fun hc => by rw [ih.2 hc] at h; cases h
    · rename_i h
      rw [ih] at h
      split
      · rename_i hx; simp [hx]
      · rename_i hx; simp [h, Ne.symm hx]

theorem rfind_some {c : Char} {s : List Char} {k : Nat} :
    rfind c s = some k ↔ ∃ a b, s = a ++ c :: b ∧ c ∉ b ∧ a.length = k := by
  induction s generalizing k with
  | nil => simp [rfind]
  | cons x s ih =>
    simp only [rfind]
    constructor
    · intro h
      split at h
      · rename_i k' h'
        cases h
        obtain ⟨a, b, rfl, hb, rfl⟩ := ih.1 h'
        exact ⟨x :: a, b, rfl, hb, rfl⟩
      · rename_i h'
        split at h
        · rename_i hx
          cases h; subst hx
          exact ⟨[], s, rfl, rfind_none.1 h', rfl⟩
        · cases h
    · rintro ⟨a, b, hab, hb, rfl⟩
      cases a with
      | nil =>
        simp only [List.nil_append, List.cons.injEq] at hab
        obtain ⟨rfl, rfl⟩ := hab
        rw [rfind_none.2 hb]; simp
      | cons y a =>
        simp only [List.cons_append, List.cons.injEq] at hab
        obtain ⟨rfl, rfl⟩ := hab
        rw [ih.2 ⟨a, b, rfl, hb, rfl⟩]; simp

theorem findChar_none {c : Char} {s : List Char} : findChar c s = none ↔ c ∉ s := by
  induction s with
  | nil => simp [findChar]
  | cons x s ih =>
    simp only [findChar]
    split
    · rename_i hx; simp [hx]
    · rename_i hx; simp [ih, Ne.symm hx]

theorem findChar_some {c : Char} {s : List Char} {k : Nat} :
    findChar c s = some k ↔ ∃ a b, s = a ++ c :: b ∧ c ∉ a ∧ a.length = k := by
  induction s generalizing k with
  | nil => simp [findChar]
  | cons x s ih =>
    simp only [findChar]
    split
    · rename_i hx
      subst hx
      constructor
      · intro h; cases h; exact ⟨[], s, rfl, by simp, rfl⟩
      · rintro ⟨a, b, hab, ha, rfl⟩
        cases a with
        | nil => rfl
        | cons y a =>
          simp only [List.cons_append, List.cons.injEq] at hab
          rw [hab.1] at ha; simp at ha
    · rename_i hx
      simp only [Option.map_eq_some_iff]
      constructor
      · rintro ⟨k', h', rfl⟩
        obtain ⟨a, b, rfl, ha, rfl⟩ := ih.1 h'
        exact ⟨x :: a, b, rfl, by simp [ha, Ne.symm hx], rfl⟩
      · rintro ⟨a, b, hab, ha, rfl⟩
        cases a with
        | nil => simp only [List.nil_append, List.cons.injEq] at hab; exact absurd hab.1 hx
        | cons y a =>
          simp only [List.cons_append, List.cons.injEq] at hab
          obtain ⟨rfl, rfl⟩ := hab
          exact ⟨a.length, ih.2 ⟨a, b, rfl, by simp at ha; exact ha.2, rfl⟩, rfl⟩

theorem numeral_chars {s : List Char} {v : Int} (h : Numeral s v) (c : Char) (hc : c ∈ s) :
    c = '-' ∨ ('0' ≤ c ∧ c ≤ '9') := by
  obtain ⟨_, _, ds, _, hall, ⟨rfl, _⟩ | ⟨rfl, _⟩⟩ := h
  · exact .inr (hall c hc)
  · rcases List.mem_cons.1 hc with rfl | hc
    · exact .inl rfl
    · exact .inr (hall c hc)

theorem numeral_unique {s : List Char} {v w : Int} (h : Numeral s v) (h' : Numeral s w) :
    v = w := by
  have := (parseInt_iff s v).2 h
  rw [(parseInt_iff s w).2 h'] at this
  exact (Option.some.inj this).symm

theorem numeral_no {s : List Char} {v : Int} (h : Numeral s v) :
    ':' ∉ s ∧ '[' ∉ s ∧ ']' ∉ s := by
  refine ⟨?_, ?_, ?_⟩ <;>
  · intro hc
    rcases numeral_chars h _ hc with h | ⟨_, h⟩
    · exact absurd h (by decide)
    · exact absurd h (by decide)

/-- `spec` is `path` followed by a well-formed suffix `[n]` or `[n:m]` denoting the range `r`. -/
def RangeSuffix (spec path : List Char) (r : BitRange) : Prop :=
  (∃ n, spec = path ++ '[' :: n ++ [']'] ∧ Numeral n r.left ∧ r.right = r.left) ∨
  (∃ n m, spec = path ++ '[' :: n ++ ':' :: m ++ [']'] ∧ Numeral n r.left ∧ Numeral m r.right)

/-- C23: parsing never faults. It splits off a range exactly when the text ends in a well-formed
suffix `[n]` or `[n:m]` with 32-bit numerals, yielding the path before it and those bounds;
otherwise the whole text is the path. -/
theorem parse_exact (spec : List Char) :
    ∃ p r, parseNameAndRange spec = .ok (p, r) ∧
      (∀ b, r = some b → RangeSuffix spec p b) ∧
      (r = none → p = spec ∧ ∀ p' b, ¬ RangeSuffix spec p' b) := by
  have hform : ∀ p b, RangeSuffix spec p b → ∃ inner, spec = p ++ '[' :: (inner ++ [']']) ∧
      '[' ∉ inner ∧ ((Numeral inner b.left ∧ b.right = b.left) ∨
        ∃ n m, inner = n ++ ':' :: m ∧ Numeral n b.left ∧ Numeral m b.right) := by
    rintro p b (⟨n, h, hn, hb⟩ | ⟨n, m, h, hn, hm⟩)
    · exact ⟨n, by simpa using h, (numeral_no hn).2.1, .inl ⟨hn, hb⟩⟩
    · refine ⟨n ++ ':' :: m, by simpa using h, ?_, .inr ⟨n, m, rfl, hn, hm⟩⟩
      simp only [List.mem_append, List.mem_cons, not_or]
      exact ⟨(numeral_no hn).2.1, by decide, (numeral_no hm).2.1⟩
  unfold parseNameAndRange
  by_cases h0 : spec = []
  · refine ⟨spec, none, by simp [h0]; rfl, by simp, fun _ => ⟨rfl, ?_⟩⟩
    intro p b hs
    obtain ⟨inner, h, _⟩ := hform p b hs
    rw [h0] at h; simp at h
  simp only [h0, ↓reduceIte]
  rcases Classical.em (spec.getLast? = some ']') with h1 | h1
  rotate_left
  · refine ⟨spec, none, by simp [h1]; rfl, by simp, fun _ => ⟨rfl, ?_⟩⟩
    intro p b hs
    obtain ⟨inner, h, _⟩ := hform p b hs
    apply h1
    rw [h, List.append_cons, ← List.append_assoc, List.getLast?_concat]
  simp only [h1, ne_eq, not_true_eq_false, ↓reduceIte, pure_bind]
  cases h2 : rfind '[' spec with
  | none =>
    refine ⟨spec, none, rfl, by simp, fun _ => ⟨rfl, ?_⟩⟩
    intro p b hs
    obtain ⟨inner, h, _⟩ := hform p b hs
    rw [rfind_none] at h2
    apply h2; rw [h]; simp
  | some op =>
    obtain ⟨path, tail, hspec, htail, rfl⟩ := rfind_some.1 h2
    have htne : tail ≠ [] := by
      rintro rfl
      rw [hspec] at h1
      simp at h1
    obtain ⟨inner, hi⟩ : ∃ inner, tail = inner ++ [']'] := by
      refine ⟨tail.dropLast, ?_⟩
      have hl : tail.getLast? = some ']' := by
        rw [hspec] at h1
        rw [List.getLast?_append, List.getLast?_cons] at h1
        rw [List.getLast?_eq_some_getLast htne] at h1 ⊢
        simpa using h1
      rw [List.getLast?_eq_some_getLast htne] at hl
      have := List.dropLast_concat_getLast htne
      rw [Option.some.inj hl] at this
      exact this.symm
    subst hi
    have hlen : spec.length = path.length + inner.length + 2 := by
      rw [hspec]; simp; omega
    have hno : ¬ path.length + 2 > spec.length := by omega
    have hinner : substr spec (path.length + 1) (some (spec.length - path.length - 2)) = .ok inner := by
      unfold substr
      rw [if_pos (by omega)]
      have e : spec.length - path.length - 2 = inner.length := by omega
      simp only [e]
      rw [hspec]
      have : (path ++ '[' :: (inner ++ [']'])).drop (path.length + 1) = inner ++ [']'] := by
        rw [← List.drop_drop]; simp
      rw [this]; simp
    have hpath : substr spec 0 (some path.length) = .ok path := by
      unfold substr
      rw [if_pos (by omega)]
      simp [hspec]
    have huniq : ∀ p b, RangeSuffix spec p b → p = path ∧
        ((Numeral inner b.left ∧ b.right = b.left) ∨
        ∃ n m, inner = n ++ ':' :: m ∧ Numeral n b.left ∧ Numeral m b.right) := by
      intro p b hs
      obtain ⟨inner', h, hno', hr⟩ := hform p b hs
      have h3 : rfind '[' spec = some p.length :=
        rfind_some.2 ⟨p, inner' ++ [']'], h, by simp [hno'], rfl⟩
      rw [h2] at h3
      have h4 : path.length = p.length := Option.some.inj h3
      rw [hspec] at h
      obtain ⟨h5, h6⟩ := List.append_inj h h4
      simp only [List.cons.injEq, true_and, List.append_cancel_right_eq] at h6
      subst h6
      exact ⟨h5.symm, hr⟩
    simp only [hno, ↓reduceIte, hinner, hpath, bind, Except.bind, pure, Except.pure]
    cases h3 : findChar ':' inner with
    | none =>
      rw [findChar_none] at h3
      simp only
      cases h4 : parseInt inner with
      | none =>
        refine ⟨spec, none, rfl, by simp, fun _ => ⟨rfl, ?_⟩⟩
        intro p b hs
        rcases (huniq p b hs).2 with ⟨hn, _⟩ | ⟨n, m, rfl, _⟩
        · rw [(parseInt_iff _ _).2 hn] at h4; cases h4
        · simp at h3
      | some v =>
        refine ⟨path, some ⟨v, v⟩, rfl, ?_, by simp⟩
        intro b hb
        cases hb
        exact .inl ⟨inner, by simpa using hspec, (parseInt_iff _ _).1 h4, rfl⟩
    | some colon =>
      obtain ⟨n, m, hnm, hn, rfl⟩ := findChar_some.1 h3
      have e1 : substr inner 0 (some n.length) = .ok n := by
        unfold substr; rw [if_pos (by omega)]; simp [hnm]
      have e2 : substr inner (n.length + 1) none = .ok m := by
        unfold substr; rw [if_pos (by rw [hnm]; simp)]
        have : (n ++ ':' :: m).drop (n.length + 1) = m := by
          rw [← List.drop_drop]; simp
        simp [hnm, this]
      simp only [e1, e2]
      have hcol : ∀ b : BitRange, ((Numeral inner b.left ∧ b.right = b.left) ∨
        ∃ n m, inner = n ++ ':' :: m ∧ Numeral n b.left ∧ Numeral m b.right) →
          Numeral n b.left ∧ Numeral m b.right := by
        rintro b (⟨h, _⟩ | ⟨n', m', h, h1, h2⟩)
        · exact absurd (by rw [hnm]; simp) (numeral_no h).1
        · have h5 : findChar ':' inner = some n'.length :=
            findChar_some.2 ⟨n', m', h, (numeral_no h1).1, rfl⟩
          rw [h3] at h5
          rw [hnm] at h
          obtain ⟨h6, h7⟩ := List.append_inj h (Option.some.inj h5)
          simp only [List.cons.injEq, true_and] at h7
          subst h6; subst h7
          exact ⟨h1, h2⟩
      cases h4 : parseInt n with
      | none =>
        refine ⟨spec, none, rfl, by simp, fun _ => ⟨rfl, ?_⟩⟩
        intro p b hs
        have := (hcol b (huniq p b hs).2).1
        rw [(parseInt_iff _ _).2 this] at h4; cases h4
      | some v =>
        cases h5 : parseInt m with
        | none =>
          refine ⟨spec, none, rfl, by simp, fun _ => ⟨rfl, ?_⟩⟩
          intro p b hs
          have := (hcol b (huniq p b hs).2).2
          rw [(parseInt_iff _ _).2 this] at h5; cases h5
        | some w =>
          refine ⟨path, some ⟨v, w⟩, rfl, ?_, by simp⟩
          intro b hb
          cases hb
          refine .inr ⟨n, m, ?_, (parseInt_iff _ _).1 h4, (parseInt_iff _ _).1 h5⟩
          rw [hspec, hnm]; simp

theorem digVal_append (a : List Char) (c : Char) :
    digVal (a ++ [c]) = digVal a * 10 + (c.toNat - 48) := by
  simp [digVal, List.foldl_append]

theorem digit_char (n : Nat) (h : n < 10) :
    (Char.ofNat (48 + n)).toNat = 48 + n ∧ '0' ≤ Char.ofNat (48 + n) ∧
      Char.ofNat (48 + n) ≤ '9' := by
  have : n = 0 ∨ n = 1 ∨ n = 2 ∨ n = 3 ∨ n = 4 ∨ n = 5 ∨ n = 6 ∨ n = 7 ∨ n = 8 ∨ n = 9 := by omega
  rcases this with rfl | rfl | rfl | rfl | rfl | rfl | rfl | rfl | rfl | rfl <;> decide

theorem decNat_spec (n : Nat) :
    decNat n ≠ [] ∧ (∀ c ∈ decNat n, '0' ≤ c ∧ c ≤ '9') ∧ digVal (decNat n) = n := by
  fun_induction decNat n with
  | case1 n h =>
    obtain ⟨h1, h2⟩ := digit_char n h
    refine ⟨by simp, ?_, ?_⟩
    · intro c hc; simp at hc; subst hc; exact h2
    · simp [digVal, h1]
  | case2 n h ih =>
    obtain ⟨h1, h2⟩ := digit_char (n % 10) (by omega)
    refine ⟨by simp, ?_, ?_⟩
    · intro c hc
      rcases List.mem_append.1 hc with hc | hc
      · exact ih.2.1 c hc
      · simp at hc; subst hc; exact h2
    · rw [digVal_append, ih.2.2, h1]; omega

theorem decInt_numeral (i : Int) (h1 : -2147483648 ≤ i) (h2 : i ≤ 2147483647) :
    Numeral (decInt i) i := by
  obtain ⟨a, b, c⟩ := decNat_spec i.natAbs
  refine ⟨h1, h2, decNat i.natAbs, a, b, ?_⟩
  unfold decInt
  rw [c]
  split
  · exact .inr ⟨rfl, by omega⟩
  · exact .inl ⟨rfl, by omega⟩

theorem rangeSuffix_unique {spec p p' : List Char} {b b' : BitRange}
    (h : RangeSuffix spec p b) (h' : RangeSuffix spec p' b') : p = p' ∧ b = b' := by
  have hform : ∀ p b, RangeSuffix spec p b → ∃ inner, spec = p ++ '[' :: (inner ++ [']']) ∧
      '[' ∉ inner ∧ ((Numeral inner b.left ∧ b.right = b.left) ∨
        ∃ n m, inner = n ++ ':' :: m ∧ Numeral n b.left ∧ Numeral m b.right) := by
    rintro p b (⟨n, h, hn, hb⟩ | ⟨n, m, h, hn, hm⟩)
    · exact ⟨n, by simpa using h, (numeral_no hn).2.1, .inl ⟨hn, hb⟩⟩
    · refine ⟨n ++ ':' :: m, by simpa using h, ?_, .inr ⟨n, m, rfl, hn, hm⟩⟩
      simp only [List.mem_append, List.mem_cons, not_or]
      exact ⟨(numeral_no hn).2.1, by decide, (numeral_no hm).2.1⟩
  obtain ⟨i, hi, hn, hr⟩ := hform p b h
  obtain ⟨i', hi', hn', hr'⟩ := hform p' b' h'
  have e1 : rfind '[' spec = some p.length := rfind_some.2 ⟨p, _, hi, by simp [hn], rfl⟩
  have e2 : rfind '[' spec = some p'.length := rfind_some.2 ⟨p', _, hi', by simp [hn'], rfl⟩
  rw [e1] at e2
  rw [hi] at hi'
  obtain ⟨h5, h6⟩ := List.append_inj hi' (Option.some.inj e2)
  simp only [List.cons.injEq, true_and, List.append_cancel_right_eq] at h6
  subst h5; subst h6
  refine ⟨rfl, ?_⟩
  obtain ⟨bl, br⟩ := b
  obtain ⟨bl', br'⟩ := b'
  simp only at hr hr'
  rcases hr with ⟨h1, h2⟩ | ⟨n, m, hnm, h1, h2⟩
  · rcases hr' with ⟨h1', h2'⟩ | ⟨n', m', hnm', _⟩
    · have := numeral_unique h1 h1'; subst this; rw [h2, h2']
    · exact absurd (by rw [hnm']; simp) (numeral_no h1).1
  · rcases hr' with ⟨h1', h2'⟩ | ⟨n', m', hnm', h1', h2'⟩
    · exact absurd (by rw [hnm]; simp) (numeral_no h1').1
    · have e3 := findChar_some.2 ⟨n, m, hnm, (numeral_no h1).1, rfl⟩
      have e4 := findChar_some.2 ⟨n', m', hnm', (numeral_no h1').1, rfl⟩
      rw [e3] at e4
      rw [hnm] at hnm'
      obtain ⟨h7, h8⟩ := List.append_inj hnm' (Option.some.inj e4)
      simp only [List.cons.injEq, true_and] at h8
      subst h7; subst h8
      rw [numeral_unique h1 h1', numeral_unique h2 h2']

/-- C23: a path followed by the printed form of a 32-bit range parses back to that path and a
range with the same bits. -/
theorem parse_print_roundtrip (path : List Char) (r : BitRange)
    (h1 : -2147483648 ≤ r.lower) (h2 : r.upper ≤ 2147483647) :
    parseNameAndRange (path ++ rangeText r) = .ok (path, some ⟨r.upper, r.lower⟩) := by
  have hle : r.lower ≤ r.upper := by unfold BitRange.lower BitRange.upper; omega
  have hs : RangeSuffix (path ++ rangeText r) path ⟨r.upper, r.lower⟩ := by
    unfold rangeText
    split
    · rename_i he
      refine .inl ⟨decInt r.lower, by simp, ?_, he⟩
      have := decInt_numeral r.lower h1 (by omega)
      rw [← he]; exact this
    · exact .inr ⟨decInt r.upper, decInt r.lower, by simp, decInt_numeral _ (by omega) h2,
        decInt_numeral _ h1 (by omega)⟩
  obtain ⟨p, q, hp, hsome, hnone⟩ := parse_exact (path ++ rangeText r)
  cases q with
  | none => exact absurd hs ((hnone rfl).2 _ _)
  | some b =>
    obtain ⟨rfl, rfl⟩ := rangeSuffix_unique hs (hsome b rfl)
    exact hp

example : rangeText ⟨-2, 13⟩ = "[13:-2]".toList := by
  have h3 : decNat 13 = ['1', '3'] := by
    rw [decNat, dif_neg (by decide), decNat, dif_pos (by decide)]; decide
  have h2 : decNat 2 = ['2'] := by rw [decNat, dif_pos (by decide)]
  show '[' :: decNat 13 ++ ':' :: '-' :: decNat 2 ++ [']'] = _
  rw [h2, h3]; decide
example : parseNameAndRange "m.sig[07:-1]".toList = .ok ("m.sig".toList, some ⟨7, -1⟩) := by decide
example : parseNameAndRange "m.sig[2147483648]".toList =
    .ok ("m.sig[2147483648]".toList, none) := by decide
example : parseNameAndRange "m.g[1].x[+3]".toList = .ok ("m.g[1].x[+3]".toList, none) := by decide

/-- The round trip of this range. -/
example := parse_print_roundtrip "m.sig".toList ⟨-2, 13⟩ (by decide) (by decide)

end Verif.Props
