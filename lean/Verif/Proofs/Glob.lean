import Verif.Model.Wildcard
import Verif.Spec.Glob

/-! Correctness of the backtracking matcher against the piecewise meaning of a pattern. -/
set_option linter.unusedSimpArgs false
namespace Verif.Proofs
open Verif.Spec Verif.Model

/-- The computation returns a Boolean deciding `P`. -/
def Decides (r : Except Fault Bool) (P : Prop) : Prop := ∃ b, r = .ok b ∧ (b = true ↔ P)

theorem Decides.congr {r : Except Fault Bool} {P Q : Prop} (h : Decides r P) (hpq : P ↔ Q) :
    Decides r Q := by
  obtain ⟨b, h1, h2⟩ := h
  exact ⟨b, h1, h2.trans hpq⟩

theorem rd_zero_nil : rd [] 0 = .ok none := rfl
theorem rd_zero_cons (c : Char) (t : List Char) : rd (c :: t) 0 = .ok (some c) := by simp [rd]
theorem adv_one_cons (c : Char) (t : List Char) : adv (c :: t) 1 = .ok t := by simp [adv]

theorem anyLoop_decides {m : List Char → Except Fault Bool} {M : List Char → Prop}
    (hm : ∀ t, Decides (m t) (M t)) (text : List Char) (k : Nat) (hk : text.length < k) :
    Decides (anyLoop m k text) (∃ a b, text = a ++ b ∧ M b) := by
  induction text generalizing k with
  | nil =>
    obtain ⟨k, rfl⟩ : ∃ j, k = j + 1 := ⟨k - 1, by omega⟩
    obtain ⟨b, h1, h2⟩ := hm []
    refine ⟨b, ?_, ?_⟩
    · simp only [anyLoop, h1, rd_zero_nil]
      cases b <;> rfl
    · rw [h2]
      constructor
      · intro h; exact ⟨[], [], rfl, h⟩
      · rintro ⟨a, b, hab, h⟩
        have := List.append_eq_nil_iff.1 hab.symm
        rw [this.2] at h; exact h
  | cons c t ih =>
    obtain ⟨k, rfl⟩ : ∃ j, k = j + 1 := ⟨k - 1, by omega⟩
    obtain ⟨b, h1, h2⟩ := hm (c :: t)
    obtain ⟨b', h3, h4⟩ := ih k (by simp at hk; omega)
    refine ⟨b || b', ?_, ?_⟩
    · simp only [anyLoop, h1, rd_zero_cons, adv_one_cons]
      cases b
      · simpa [Except.bind, bind, pure, Except.pure] using h3
      · rfl
    · rw [Bool.or_eq_true, h2, h4]
      constructor
      · rintro (h | ⟨a, d, rfl, h⟩)
        · exact ⟨[], _, rfl, h⟩
        · exact ⟨c :: a, d, rfl, h⟩
      · rintro ⟨a, d, hab, h⟩
        cases a with
        | nil => left; rw [List.nil_append] at hab; rw [hab]; exact h
        | cons x a =>
          right
          rw [List.cons_append, List.cons.injEq] at hab
          exact ⟨a, d, hab.2, h⟩

theorem dotLoop_decides {m : List Char → Except Fault Bool} {M : List Char → Prop}
    (hm : ∀ t, Decides (m t) (M t)) (text : List Char) (k : Nat) (hk : text.length < k) :
    Decides (dotLoop m k text) (∃ a b, text = a ++ '.' :: b ∧ M b) := by
  induction text generalizing k with
  | nil =>
    obtain ⟨k, rfl⟩ : ∃ j, k = j + 1 := ⟨k - 1, by omega⟩
    refine ⟨false, ?_, ?_⟩
    · simp only [dotLoop, rd_zero_nil]; rfl
    · simp
  | cons c t ih =>
    obtain ⟨k, rfl⟩ : ∃ j, k = j + 1 := ⟨k - 1, by omega⟩
    obtain ⟨b, h1, h2⟩ := hm t
    obtain ⟨b', h3, h4⟩ := ih k (by simp at hk; omega)
    have hspec : (∃ a b, c :: t = a ++ '.' :: b ∧ M b) ↔
        (c = '.' ∧ M t) ∨ ∃ a b, t = a ++ '.' :: b ∧ M b := by
      constructor
      · rintro ⟨a, d, hab, h⟩
        cases a with
        | nil =>
          simp only [List.nil_append, List.cons.injEq] at hab
          left; rw [hab.2]; exact ⟨hab.1, h⟩
        | cons x a =>
          rw [List.cons_append, List.cons.injEq] at hab
          right; exact ⟨a, d, hab.2, h⟩
      · rintro (⟨rfl, h⟩ | ⟨a, d, rfl, h⟩)
        · exact ⟨[], t, rfl, h⟩
        · exact ⟨c :: a, d, rfl, h⟩
    refine ⟨(decide (c = '.') && b) || b', ?_, ?_⟩
    · simp only [dotLoop, h1, rd_zero_cons, adv_one_cons, bind, Except.bind, pure, Except.pure,
        reduceCtorEq, ↓reduceIte, Option.some.injEq, h3]
      by_cases hc : c = '.'
      · subst hc; cases b <;> simp [h1]
      · simp [hc]
    · rw [hspec]; simp [h2, h4]

theorem segLoop_decides {m : List Char → Except Fault Bool} {M : List Char → Prop}
    (hm : ∀ t, Decides (m t) (M t)) (text : List Char) (k : Nat) (hk : text.length < k) :
    Decides (segLoop m k text) (∃ a b, text = a ++ b ∧ '.' ∉ a ∧ M b) := by
  induction text generalizing k with
  | nil =>
    obtain ⟨k, rfl⟩ : ∃ j, k = j + 1 := ⟨k - 1, by omega⟩
    obtain ⟨b, h1, h2⟩ := hm []
    refine ⟨b, ?_, ?_⟩
    · simp only [segLoop, h1, rd_zero_nil, bind, Except.bind, pure, Except.pure]
      cases b <;> rfl
    · rw [h2]
      constructor
      · intro h; exact ⟨[], [], rfl, by simp, h⟩
      · rintro ⟨a, b, hab, _, h⟩
        have := List.append_eq_nil_iff.1 hab.symm
        rw [this.2] at h; exact h
  | cons c t ih =>
    obtain ⟨k, rfl⟩ : ∃ j, k = j + 1 := ⟨k - 1, by omega⟩
    obtain ⟨b, h1, h2⟩ := hm (c :: t)
    obtain ⟨b', h3, h4⟩ := ih k (by simp at hk; omega)
    refine ⟨b || (!decide (c = '.') && b'), ?_, ?_⟩
    · simp only [segLoop, h1, rd_zero_cons, adv_one_cons, bind, Except.bind, pure, Except.pure,
        reduceCtorEq, ↓reduceIte, Option.some.injEq, h3, false_or]
      cases b
      · by_cases hc : c = '.' <;> simp [hc]
      · simp
    · rw [Bool.or_eq_true, Bool.and_eq_true, h2, h4]
      constructor
      · rintro (h | ⟨hc, a, d, rfl, ha, h⟩)
        · exact ⟨[], _, rfl, by simp, h⟩
        · refine ⟨c :: a, d, rfl, ?_, h⟩
          simp only [Bool.not_eq_true', decide_eq_false_iff_not] at hc
          simp only [List.mem_cons, not_or]
          exact ⟨fun e => hc e.symm, ha⟩
      · rintro ⟨a, d, hab, ha, h⟩
        cases a with
        | nil => left; rw [List.nil_append] at hab; rw [hab]; exact h
        | cons x a =>
          right
          rw [List.cons_append, List.cons.injEq] at hab
          simp only [List.mem_cons, not_or] at ha
          refine ⟨?_, a, d, hab.2, ha.2, h⟩
          rw [hab.1]
          simpa using fun e => ha.1 e.symm

theorem den_tt {M : List Char → Prop} (text : List Char) :
    (∃ a b, text = a ++ b ∧ (Piece.deep true true).Den a ∧ M b) ↔
    ∃ t, text = '.' :: t ∧ (M t ∨ ∃ a b, t = a ++ '.' :: b ∧ M b) := by
  constructor
  · rintro ⟨a, b, rfl, (rfl | ⟨x, rfl⟩), h⟩
    · exact ⟨b, rfl, .inl h⟩
    · exact ⟨x ++ '.' :: b, by simp, .inr ⟨x, b, rfl, h⟩⟩
  · rintro ⟨t, rfl, h | ⟨a, b, rfl, h⟩⟩
    · exact ⟨['.'], t, rfl, .inl rfl, h⟩
    · exact ⟨'.' :: a ++ ['.'], b, by simp, .inr ⟨a, rfl⟩, h⟩

theorem den_tf {M : List Char → Prop} (text : List Char) :
    (∃ a b, text = a ++ b ∧ (Piece.deep true false).Den a ∧ M b) ↔
    M text ∨ ∃ t, text = '.' :: t ∧ ∃ a b, t = a ++ b ∧ M b := by
  constructor
  · rintro ⟨a, b, rfl, (rfl | ⟨x, rfl⟩), h⟩
    · exact .inl h
    · exact .inr ⟨x ++ b, by simp, x, b, rfl, h⟩
  · rintro (h | ⟨_, rfl, a, b, rfl, h⟩)
    · exact ⟨[], text, rfl, .inl rfl, h⟩
    · exact ⟨'.' :: a, b, by simp, .inr ⟨a, rfl⟩, h⟩

theorem den_ft {M : List Char → Prop} (text : List Char) :
    (∃ a b, text = a ++ b ∧ (Piece.deep false true).Den a ∧ M b) ↔
    M text ∨ ∃ a b, text = a ++ '.' :: b ∧ M b := by
  constructor
  · rintro ⟨a, b, rfl, (rfl | ⟨x, rfl⟩), h⟩
    · exact .inl h
    · exact .inr ⟨x, b, by simp, h⟩
  · rintro (h | ⟨a, b, rfl, h⟩)
    · exact ⟨[], text, rfl, .inl rfl, h⟩
    · exact ⟨a ++ ['.'], b, by simp, .inr ⟨a, rfl⟩, h⟩

/-- The four recursive-wildcard branches of the matcher (lines 57-121). -/
def deepBranch (m : List Char → Except Fault Bool) (lead trail : Bool) (text : List Char) :
    Except Fault Bool := do
  if lead && trail then
    if (← rd text 0) ≠ some '.' then return false
    let text ← adv text 1
    if (← m text) then return true
    dotLoop m (text.length + 1) text
  else if lead then
    if (← m text) then return true
    if (← rd text 0) ≠ some '.' then return false
    let text ← adv text 1
    anyLoop m (text.length + 1) text
  else if trail then
    if (← m text) then return true
    dotLoop m (text.length + 1) text
  else
    anyLoop m (text.length + 1) text

theorem deepBranch_decides {m : List Char → Except Fault Bool} {M : List Char → Prop}
    (hm : ∀ t, Decides (m t) (M t)) (lead trail : Bool) (text : List Char) :
    Decides (deepBranch m lead trail text)
      (∃ a b, text = a ++ b ∧ (Piece.deep lead trail).Den a ∧ M b) := by
  cases lead <;> cases trail
  · refine (anyLoop_decides hm text _ (Nat.lt_succ_self _)).congr ?_
    simp [Piece.Den]
  · refine Decides.congr ?_ (den_ft text).symm
    obtain ⟨b, h1, h2⟩ := hm text
    obtain ⟨b', h3, h4⟩ := dotLoop_decides hm text _ (Nat.lt_succ_self _)
    refine ⟨b || b', ?_, by rw [Bool.or_eq_true, h2, h4]⟩
    simp only [deepBranch, h1, bind, Except.bind, pure, Except.pure, Bool.false_and,
      Bool.false_eq_true, ↓reduceIte, h3]
    cases b <;> simp
  · refine Decides.congr ?_ (den_tf text).symm
    obtain ⟨b, h1, h2⟩ := hm text
    have e : deepBranch m true false text = (do
        if (← m text) then return true
        if (← rd text 0) ≠ some '.' then return false
        let text ← adv text 1
        anyLoop m (text.length + 1) text) := rfl
    rw [e]
    cases text with
    | nil =>
      refine ⟨b, ?_, by rw [h2]; simp⟩
      simp only [h1, rd_zero_nil, bind, Except.bind, pure, Except.pure]
      cases b <;> rfl
    | cons c t =>
      obtain ⟨b', h3, h4⟩ := anyLoop_decides hm t _ (Nat.lt_succ_self _)
      refine ⟨b || (decide (c = '.') && b'), ?_, ?_⟩
      · simp only [h1, rd_zero_cons, adv_one_cons, bind, Except.bind, pure, Except.pure, h3]
        cases b
        · by_cases hc : c = '.' <;> simp [hc]
        · simp
      · simp only [Bool.or_eq_true, Bool.and_eq_true, h2, h4, decide_eq_true_eq, List.cons.injEq]
        apply or_congr Iff.rfl
        constructor
        · rintro ⟨rfl, h⟩; exact ⟨t, ⟨rfl, rfl⟩, h⟩
        · rintro ⟨_, ⟨hc, rfl⟩, h⟩; exact ⟨hc, h⟩
  · refine Decides.congr ?_ (den_tt text).symm
    have e : deepBranch m true true text = (do
        if (← rd text 0) ≠ some '.' then return false
        let text ← adv text 1
        if (← m text) then return true
        dotLoop m (text.length + 1) text) := rfl
    rw [e]
    cases text with
    | nil => exact ⟨false, rfl, by simp⟩
    | cons c t =>
      obtain ⟨b, h1, h2⟩ := hm t
      obtain ⟨b', h3, h4⟩ := dotLoop_decides hm t _ (Nat.lt_succ_self _)
      refine ⟨decide (c = '.') && (b || b'), ?_, ?_⟩
      · simp only [h1, rd_zero_cons, adv_one_cons, bind, Except.bind, pure, Except.pure, h3]
        by_cases hc : c = '.'
        · cases b <;> simp [hc, h1, h3]
        · simp [hc]
      · simp only [Bool.or_eq_true, Bool.and_eq_true, h2, h4, decide_eq_true_eq, List.cons.injEq]
        constructor
        · rintro ⟨rfl, h⟩; exact ⟨t, ⟨rfl, rfl⟩, h⟩
        · rintro ⟨_, ⟨hc, rfl⟩, h⟩; exact ⟨hc, h⟩

/-- What the scan at lines 33-55 sees: lead, trail and rest of a recursive wildcard at the front
of the pattern, or nothing. -/
def deepAt : List Char → Option (Bool × Bool × List Char)
  | '.' :: '*' :: '*' :: '.' :: r => some (true, true, r)
  | '.' :: '*' :: '*' :: r => some (true, false, r)
  | '.' :: '.' :: '.' :: '.' :: '.' :: r => some (true, true, r)
  | '.' :: '.' :: '.' :: '.' :: r => some (true, false, r)
  | '.' :: '.' :: '.' :: r => some (false, false, r)
  | '*' :: '*' :: '.' :: r => some (false, true, r)
  | '*' :: '*' :: r => some (false, false, r)
  | _ => none

/-- The matcher with its scan replaced by `deepAt`. -/
def step (f : Nat) (text pattern : List Char) : Except Fault Bool :=
  match deepAt pattern with
  | some (l, t, r) => deepBranch (fun x => wildcardMatch f x r) l t text
  | none =>
    match pattern with
    | [] => .ok (text.isEmpty)
    | '*' :: r => segLoop (fun x => wildcardMatch f x r) (text.length + 1) text
    | '?' :: r => match text with
      | [] => .ok false
      | c :: t => if c = '.' then .ok false else wildcardMatch f t r
    | p :: r => match text with
      | [] => .ok false
      | c :: t => if p = c then wildcardMatch f t r else .ok false

theorem head_ne {r : List Char} {c : Char} (h : ∀ r', r = c :: r' → False) :
    ¬ r[0]? = some c := by
  intro hc
  cases r with
  | nil => simp at hc
  | cons x r => simp at hc; subst hc; exact h r rfl

open Classical in
theorem twoStars_eq (p : List Char) :
    twoStars p = .ok (decide (∃ r, p = '*' :: '*' :: r)) := by
  match p with
  | [] => simp [twoStars, rd, bind, Except.bind, pure, Except.pure]
  | [c] =>
    by_cases hc : c = '*' <;> simp [twoStars, rd, bind, Except.bind, pure, Except.pure, hc]
  | c :: d :: r =>
    by_cases hc : c = '*' <;> by_cases hd : d = '*' <;>
      simp [twoStars, rd, bind, Except.bind, pure, Except.pure, hc, hd]

open Classical in
theorem threeDots_eq (p : List Char) :
    threeDots p = .ok (decide (∃ r, p = '.' :: '.' :: '.' :: r)) := by
  match p with
  | [] => simp [threeDots, rd, bind, Except.bind, pure, Except.pure]
  | [c] =>
    by_cases hc : c = '.' <;> simp [threeDots, rd, bind, Except.bind, pure, Except.pure, hc]
  | [c, d] =>
    by_cases hc : c = '.' <;> by_cases hd : d = '.' <;>
      simp [threeDots, rd, bind, Except.bind, pure, Except.pure, hc, hd]
  | c :: d :: e :: r =>
    by_cases hc : c = '.' <;> by_cases hd : d = '.' <;> by_cases he : e = '.' <;>
      simp [threeDots, rd, bind, Except.bind, pure, Except.pure, hc, hd, he]

theorem wildcardMatch_step (f : Nat) (text pattern : List Char) :
    wildcardMatch (f + 1) text pattern = step f text pattern := by
  unfold step
  unfold deepAt
  split
  · rename_i h
    split at h <;> simp at h <;> obtain ⟨rfl, rfl, rfl⟩ := h
    · simp [wildcardMatch, rd, adv, twoStars_eq, threeDots_eq, deepBranch, bind, Except.bind, pure,
        Except.pure]
    · rename_i hx
      have hx := head_ne hx
      simp [wildcardMatch, rd, adv, twoStars_eq, threeDots_eq, deepBranch, bind, Except.bind, pure,
        Except.pure, hx]
    · simp [wildcardMatch, rd, adv, twoStars_eq, threeDots_eq, deepBranch, bind, Except.bind, pure,
        Except.pure]
    · rename_i hx
      have hx := head_ne hx
      simp [wildcardMatch, rd, adv, twoStars_eq, threeDots_eq, deepBranch, bind, Except.bind, pure,
        Except.pure, hx]
    · rename_i r _ hx
      have hx' := head_ne hx
      have hx'' : ∀ x, ¬ r = '.' :: x := hx
      simp [wildcardMatch, rd, adv, twoStars_eq, threeDots_eq, deepBranch, bind, Except.bind, pure,
        Except.pure, hx', hx'']
    · simp [wildcardMatch, rd, adv, twoStars_eq, threeDots_eq, deepBranch, bind, Except.bind, pure,
        Except.pure]
    · rename_i hx
      have hx := head_ne hx
      simp [wildcardMatch, rd, adv, twoStars_eq, threeDots_eq, deepBranch, bind, Except.bind, pure,
        Except.pure, hx]
  · rename_i h
    split at h <;> simp at h
    rename_i h1 h2 h3 h4 h5 h6 h7
    have hl2 : ∀ r, ¬ pattern = '.' :: '*' :: '*' :: r := h2
    have hl4 : ∀ r, ¬ pattern = '.' :: '.' :: '.' :: '.' :: r := h4
    have hl5 : ∀ r, ¬ pattern = '.' :: '.' :: '.' :: r := h5
    have hl7 : ∀ r, ¬ pattern = '*' :: '*' :: r := h7
    have hs2 : twoStars pattern = .ok false := by rw [twoStars_eq]; simp [hl7]
    have hs3 : threeDots pattern = .ok false := by rw [threeDots_eq]; simp [hl5]
    cases pattern with
    | nil => cases text <;> simp [wildcardMatch, rd, bind, Except.bind, pure, Except.pure]
    | cons p r =>
      have ht2 : p = '.' → ∀ x, ¬ r = '*' :: '*' :: x := by
        rintro rfl x rfl; exact hl2 x rfl
      have ht4 : p = '.' → ∀ x, ¬ r = '.' :: '.' :: '.' :: x := by
        rintro rfl x rfl; exact hl4 x rfl
      by_cases hp : p = '.'
      · subst hp
        have ht2 := ht2 rfl
        have ht4 := ht4 rfl
        cases text <;>
        simp [wildcardMatch, rd, adv, hs2, hs3, twoStars_eq r, threeDots_eq r, ht2, ht4, bind,
          Except.bind, pure, Except.pure]
      · by_cases hstar : p = '*'
        · subst hstar
          simp [wildcardMatch, rd, adv, hs2, hs3, bind, Except.bind, pure, Except.pure]
        · by_cases hq : p = '?'
          · subst hq
            cases text <;>
            simp [wildcardMatch, rd, adv, hs2, hs3, bind, Except.bind, pure, Except.pure]
          · cases text <;>
            simp [wildcardMatch, rd, adv, hs2, hs3, bind, Except.bind, pure, Except.pure, hp, hq,
              hstar]

theorem deepAt_some {p r : List Char} {l t : Bool} (h : deepAt p = some (l, t, r)) :
    r.length < p.length ∧ pieces p = .deep l t :: pieces r := by
  unfold deepAt at h
  split at h <;> simp at h <;> obtain ⟨rfl, rfl, rfl⟩ := h <;>
    (constructor
     · simp only [List.length_cons]; omega
     · rw [pieces] <;> assumption)

theorem wildcardMatch_decides (f : Nat) (text pattern : List Char) (hf : pattern.length < f) :
    Decides (wildcardMatch f text pattern) (Matches (pieces pattern) text) := by
  induction f generalizing text pattern with
  | zero => omega
  | succ f ih =>
    rw [wildcardMatch_step]
    unfold step
    split
    · rename_i l t r h
      obtain ⟨h1, h2⟩ := deepAt_some h
      rw [h2]
      exact deepBranch_decides (fun x => ih x r (by omega)) l t text
    · rename_i hd
      split
      · refine ⟨_, rfl, ?_⟩
        simp [pieces, Matches]
      · rename_i r
        have hp : pieces ('*' :: r) = .seg :: pieces r := by
          rw [pieces]
          · rintro x rfl; cases x with
            | nil => simp [deepAt] at hd
            | cons c x => by_cases hc : c = '.' <;> simp [deepAt, hc] at hd
          · rintro x rfl; cases x with
            | nil => simp [deepAt] at hd
            | cons c x => by_cases hc : c = '.' <;> simp [deepAt, hc] at hd
        rw [hp]
        refine (segLoop_decides (fun x => ih x r (by simp at hf; omega)) text _
          (Nat.lt_succ_self _))
      · rename_i r
        have hp : pieces ('?' :: r) = .one :: pieces r := by
          simp [pieces]
        rw [hp]
        split
        · refine ⟨_, rfl, ?_⟩
          simp [Matches, Piece.Den]
        · rename_i c t
          split
          · rename_i hc
            subst hc
            refine ⟨_, rfl, ?_⟩
            simp only [Bool.false_eq_true, Matches, Piece.Den, false_iff]
            rintro ⟨_, b, h, ⟨c, hc, rfl⟩, _⟩
            simp at h; exact hc h.1.symm
          · rename_i hc
            refine (ih t r (by simp at hf; omega)).congr ?_
            constructor
            · intro h; exact ⟨[c], t, rfl, ⟨c, hc, rfl⟩, h⟩
            · rintro ⟨_, b, h, ⟨d, _, rfl⟩, hm⟩
              simp at h; rw [h.2]; exact hm
      · rename_i p r hs hq
        have hp : pieces (p :: r) = .lit p :: pieces r := by
          conv => lhs; unfold pieces
          unfold deepAt at hd
          split <;> simp_all
        rw [hp]
        split
        · refine ⟨_, rfl, ?_⟩
          simp [Matches, Piece.Den]
        · rename_i c t
          split
          · rename_i hc
            subst hc
            refine (ih t r (by simp at hf; omega)).congr ?_
            constructor
            · intro h; exact ⟨[p], t, rfl, rfl, h⟩
            · rintro ⟨_, b, h, rfl, hm⟩
              simp at h; rw [h]; exact hm
          · rename_i hc
            refine ⟨_, rfl, ?_⟩
            simp only [Bool.false_eq_true, Matches, Piece.Den, false_iff]
            rintro ⟨_, b, h, rfl, _⟩
            simp at h; exact hc h.1.symm

end Verif.Proofs
