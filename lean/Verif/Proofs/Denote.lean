import Verif.Proofs.Elab

/-! Helper lemmas: what the value of an expression depends on, and the bits of left sides. -/
namespace Verif.Proofs
open Verif.Spec Verif.Model Verif.Props

theorem looks_mono {V A : Type} {R R' : Nat → Int → Prop} {F : Vals V → A} (h : LooksAt R F)
    (hr : ∀ x p, R x p → R' x p) : LooksAt R' F := fun ρ ρ' he => h ρ ρ' fun x p hx => he x p (hr x p hx)

theorem looks_const {V A : Type} (R : Nat → Int → Prop) (a : A) : LooksAt (V := V) R fun _ => a := fun _ _ _ => rfl

theorem bitsOf_mono {R R' : Nat → Nat → Prop} (h : ∀ x q, R x q → R' x q) (x : Nat) (p : Int)
    (hb : bitsOf R x p) : bitsOf R' x p := by
  obtain ⟨q, hq, hr⟩ := hb
  exact ⟨q, hq, h x q hr⟩

theorem looks_eq {V A : Type} {R : Nat → Int → Prop} {F G : Vals V → A} (h : LooksAt R G) (he : ∀ ρ, F ρ = G ρ) :
    LooksAt R F := fun ρ ρ' hr => by rw [he, he, h ρ ρ' hr]

mutual
/-- Bit `k` of an expression depends on the bits routed to it only. -/
theorem denotes_routes {V : Type} {bit : LBit → V} (cuts : CutReg) : ∀ (e : SExpr), WT cuts e → Static e →
    ∀ F, Denotes bit e F → ∀ k, k < e.width → LooksAt (bitsOf (Routes e k)) fun ρ => F ρ k
  | .lsp w p sels, _, hs, F, hd, k, hk => by
    simp only [Static] at hs
    simp only [SExpr.width] at hk
    simp only [Denotes] at hd
    rcases hd with ⟨h1, h2, x, h3, h4⟩ | ⟨h1, h2⟩
    · refine looks_eq (G := fun ρ => ρ x ((p.lo + k : Nat) : Int)) (fun ρ ρ' h => h x _ ⟨p.lo + k, rfl, ?_⟩)
        fun ρ => h4 ρ k hk
      simp only [Routes]
      exact .inl ⟨h1, h3, trivial⟩
    · refine looks_mono (h2 k hk) (bitsOf_mono ?_)
      rintro x q ⟨p', hp', hr, _⟩
      rw [hs.2] at hp'
      obtain rfl := List.mem_singleton.1 hp'
      exact absurd ⟨hs.1, hs.2, by rw [hr]; simp⟩ h1
  | .concat w ops, hw, hs, F, hd, k, hk => by
    simp only [WT] at hw
    simp only [Static] at hs
    simp only [Denotes] at hd
    simp only [SExpr.width, hw.1] at hk
    simp only [Routes]
    exact denotes_routes_ops cuts ops hw.2 hs F hd k hk
  | .repl w none inner, hw, hs, F, hd, k, hk => by
    simp only [Denotes] at hd
    simp only [Routes]
    exact hd k hk
  | .repl w (some c) inner, hw, hs, F, hd, k, hk => by
    simp only [WT] at hw
    simp only [Static] at hs
    simp only [Denotes] at hd
    simp only [SExpr.width] at hk
    obtain ⟨G, h1, h2⟩ := hd
    have hpos : 0 < inner.width := by
      rcases Nat.eq_zero_or_pos inner.width with h | h
      · rw [hw.1, h] at hk; omega
      · exact h
    simp only [Routes]
    exact looks_eq (denotes_routes cuts inner hw.2 hs G h1 _ (Nat.mod_lt _ hpos)) fun ρ => h2 ρ k hk
  | .conv w sg fold inner, hw, hs, F, hd, k, hk => by
    simp only [WT] at hw
    simp only [Static] at hs
    simp only [Denotes] at hd
    simp only [SExpr.width] at hk
    simp only [Routes]
    rcases hd with ⟨v, _, _, h3⟩ | ⟨h1, G, h2, h3⟩
    · exact looks_eq (looks_const _ _) fun ρ => h3 ρ k hk
    · rcases hs with ⟨v, e1, e2⟩ | ⟨hs, hsx⟩
      · exact absurd e2 (h1 v e1)
      · refine looks_eq (G := fun ρ => if k < inner.width then G ρ k
          else if sg = true ∧ 0 < inner.width then G ρ (inner.width - 1) else bit .zero) ?_ fun ρ => h3 ρ k hk
        by_cases h : k < inner.width
        · simp only [if_pos h]
          refine looks_mono (denotes_routes cuts inner hw hs G h2 k h) (bitsOf_mono fun x q hr => ?_)
          exact ⟨h1, .inl ⟨h, hr⟩⟩
        · simp only [if_neg h]
          by_cases h' : sg = true ∧ 0 < inner.width
          · have := hsx h'.1
            omega
          · simp only [if_neg h']
            exact looks_const _ _
  | .condOp w n pat more c l r, hw, hs, F, hd, k, hk => by
    simp only [WT] at hw
    simp only [Static] at hs
    simp only [Denotes] at hd
    simp only [SExpr.width] at hk
    obtain ⟨L, R, m, h1, h2, h3, h4⟩ := hd
    have arm : ∀ (e : SExpr) (G : Vals V → Nat → V), (k < e.width → LooksAt (bitsOf (Routes e k)) fun ρ => G ρ k) →
        LooksAt (bitsOf fun x b => k < e.width ∧ Routes e k x b) fun ρ => if k < e.width then G ρ k else bit .zero := by
      intro e G hG
      by_cases h : k < e.width
      · simp only [if_pos h]
        exact looks_mono (hG h) (bitsOf_mono fun x q hr => ⟨h, hr⟩)
      · simp only [if_neg h]
        exact looks_const _ _
    have hl := arm l L fun h => denotes_routes cuts l hw.1 hs.1 L h1 k h
    have hr := arm r R fun h => denotes_routes cuts r hw.2.1 hs.2 R h2 k h
    refine looks_eq (G := fun ρ => m ρ (if k < l.width then L ρ k else bit .zero)
      (if k < r.width then R ρ k else bit .zero)) ?_ fun ρ => h4 ρ k hk
    intro ρ ρ' he
    have e1 := hl ρ ρ' fun x p hx => he x p (by
      obtain ⟨q, hq, h⟩ := hx
      exact ⟨q, hq, by simp only [Routes]; exact .inl h⟩)
    have e2 := hr ρ ρ' fun x p hx => he x p (by
      obtain ⟨q, hq, h⟩ := hx
      exact ⟨q, hq, by simp only [Routes]; exact .inr (.inl h)⟩)
    simp only at e1 e2 ⊢
    rw [e1, e2]
    refine h3 _ _ ρ ρ' fun x p hx => he x p ?_
    obtain ⟨q, hq, h⟩ := hx
    refine ⟨q, hq, ?_⟩
    simp only [Routes]
    rcases anyCovers_append.1 h with h | h
    · exact .inr (.inr (.inl h))
    · exact .inr (.inr (.inr h))
  | .other w fold reads, hw, hs, F, hd, k, hk => by
    simp only [Denotes] at hd
    simp only [SExpr.width] at hk
    simp only [Routes]
    rcases hd with ⟨v, _, _, h3⟩ | ⟨h1, h2⟩
    · exact looks_eq (looks_const _ _) fun ρ => h3 ρ k hk
    · exact looks_mono (h2 k hk) (bitsOf_mono fun x q h => ⟨h1, h⟩)

theorem denotes_routes_ops {V : Type} {bit : LBit → V} (cuts : CutReg) : ∀ (es : List SExpr), WTs cuts es →
    StaticOps es → ∀ F, DenotesOps bit es F → ∀ k, k < (es.map SExpr.width).sum →
    LooksAt (bitsOf (RoutesOps es k)) fun ρ => F ρ k
  | [], _, _, _, _, k, hk => by simp at hk
  | e :: es, hw, hs, F, hd, k, hk => by
    simp only [WTs] at hw
    simp only [StaticOps] at hs
    simp only [DenotesOps] at hd
    simp only [List.map_cons, List.sum_cons] at hk
    simp only [RoutesOps]
    obtain ⟨G, H, h1, h2, h3⟩ := hd
    by_cases h : k < (es.map SExpr.width).sum
    · refine looks_eq (G := fun ρ => H ρ k) ?_ fun ρ => by rw [h3, if_pos h]
      exact looks_mono (denotes_routes_ops cuts es hw.2 hs.2 H h2 k h) (bitsOf_mono fun x q hr => .inl ⟨h, hr⟩)
    · refine looks_eq (G := fun ρ => G ρ (k - (es.map SExpr.width).sum)) ?_ fun ρ => by rw [h3, if_neg h]
      exact looks_mono (denotes_routes cuts e hw.1 hs.1 G h1 _ (by omega))
        (bitsOf_mono fun x q hr => .inr ⟨by omega, hr⟩)
end

mutual
/-- Bits of an expression depend on what is read in it only. -/
theorem denotes_paths {V : Type} {bit : LBit → V} (cuts : CutReg) : ∀ (e : SExpr), WT cuts e →
    ∀ F, Denotes bit e F → ∀ k, k < e.width → LooksAt (bitsOf (AnyCovers e.paths)) fun ρ => F ρ k
  | .lsp w p sels, _, F, hd, k, hk => by
    simp only [SExpr.width] at hk
    simp only [Denotes] at hd
    simp only [SExpr.paths]
    rcases hd with ⟨h1, h2, x, h3, h4⟩ | ⟨h1, h2⟩
    · exact looks_eq (G := fun ρ => ρ x ((p.lo + k : Nat) : Int))
        (fun ρ ρ' h => h x _ ⟨p.lo + k, rfl, p, by simp, h3, by omega, by simp only [LspPath.hi]; omega⟩)
        fun ρ => h4 ρ k hk
    · exact h2 k hk
  | .concat w ops, hw, F, hd, k, hk => by
    simp only [WT] at hw
    simp only [Denotes] at hd
    simp only [SExpr.width, hw.1] at hk
    simp only [SExpr.paths]
    exact denotes_paths_ops cuts ops hw.2 F hd k hk
  | .repl w none inner, hw, F, hd, k, hk => by
    simp only [Denotes] at hd
    simp only [SExpr.paths]
    exact hd k hk
  | .repl w (some c) inner, hw, F, hd, k, hk => by
    simp only [WT] at hw
    simp only [Denotes] at hd
    simp only [SExpr.width] at hk
    obtain ⟨G, h1, h2⟩ := hd
    have hpos : 0 < inner.width := by
      rcases Nat.eq_zero_or_pos inner.width with h | h
      · rw [hw.1, h] at hk; omega
      · exact h
    simp only [SExpr.paths]
    exact looks_eq (denotes_paths cuts inner hw.2 G h1 _ (Nat.mod_lt _ hpos)) fun ρ => h2 ρ k hk
  | .conv w sg fold inner, hw, F, hd, k, hk => by
    simp only [WT] at hw
    simp only [Denotes] at hd
    simp only [SExpr.width] at hk
    simp only [SExpr.paths]
    rcases hd with ⟨v, _, _, h3⟩ | ⟨h1, G, h2, h3⟩
    · exact looks_eq (looks_const _ _) fun ρ => h3 ρ k hk
    · refine looks_eq (G := fun ρ => if k < inner.width then G ρ k
        else if sg = true ∧ 0 < inner.width then G ρ (inner.width - 1) else bit .zero) ?_ fun ρ => h3 ρ k hk
      by_cases h : k < inner.width
      · simp only [if_pos h]
        exact denotes_paths cuts inner hw G h2 k h
      · simp only [if_neg h]
        by_cases h' : sg = true ∧ 0 < inner.width
        · simp only [if_pos h']
          exact denotes_paths cuts inner hw G h2 _ (by omega)
        · simp only [if_neg h']
          exact looks_const _ _
  | .condOp w n pat more c l r, hw, F, hd, k, hk => by
    simp only [WT] at hw
    simp only [Denotes] at hd
    simp only [SExpr.width] at hk
    simp only [SExpr.paths]
    obtain ⟨L, R, m, h1, h2, h3, h4⟩ := hd
    have arm : ∀ (e : SExpr) (G : Vals V → Nat → V), (k < e.width → LooksAt (bitsOf (AnyCovers e.paths)) fun ρ => G ρ k) →
        LooksAt (bitsOf (AnyCovers e.paths)) fun ρ => if k < e.width then G ρ k else bit .zero := by
      intro e G hG
      by_cases h : k < e.width
      · simp only [if_pos h]
        exact hG h
      · simp only [if_neg h]
        exact looks_const _ _
    have hl := arm l L fun h => denotes_paths cuts l hw.1 L h1 k h
    have hr := arm r R fun h => denotes_paths cuts r hw.2.1 R h2 k h
    refine looks_eq (G := fun ρ => m ρ (if k < l.width then L ρ k else bit .zero)
      (if k < r.width then R ρ k else bit .zero)) ?_ fun ρ => h4 ρ k hk
    intro ρ ρ' he
    have e1 := hl ρ ρ' fun x p hx => he x p (bitsOf_mono (fun x q h => anyCovers_append.2 (.inl
      (anyCovers_append.2 (.inr h)))) x p hx)
    have e2 := hr ρ ρ' fun x p hx => he x p (bitsOf_mono (fun x q h => anyCovers_append.2 (.inr h)) x p hx)
    simp only at e1 e2 ⊢
    rw [e1, e2]
    exact h3 _ _ ρ ρ' fun x p hx => he x p (bitsOf_mono (fun x q h => anyCovers_append.2 (.inl
      (anyCovers_append.2 (.inl h)))) x p hx)
  | .other w fold reads, hw, F, hd, k, hk => by
    simp only [Denotes] at hd
    simp only [SExpr.width] at hk
    simp only [SExpr.paths]
    rcases hd with ⟨v, _, _, h3⟩ | ⟨h1, h2⟩
    · exact looks_eq (looks_const _ _) fun ρ => h3 ρ k hk
    · exact h2 k hk

theorem denotes_paths_ops {V : Type} {bit : LBit → V} (cuts : CutReg) : ∀ (es : List SExpr), WTs cuts es →
    ∀ F, DenotesOps bit es F → ∀ k, k < (es.map SExpr.width).sum →
    LooksAt (bitsOf (AnyCovers (pathsList es))) fun ρ => F ρ k
  | [], _, _, _, k, hk => by simp at hk
  | e :: es, hw, F, hd, k, hk => by
    simp only [WTs] at hw
    simp only [DenotesOps] at hd
    simp only [List.map_cons, List.sum_cons] at hk
    simp only [pathsList]
    obtain ⟨G, H, h1, h2, h3⟩ := hd
    by_cases h : k < (es.map SExpr.width).sum
    · refine looks_eq (G := fun ρ => H ρ k) ?_ fun ρ => by rw [h3, if_pos h]
      exact looks_mono (denotes_paths_ops cuts es hw.2 H h2 k h) (bitsOf_mono fun x q hr => anyCovers_append.2 (.inr hr))
    · refine looks_eq (G := fun ρ => G ρ (k - (es.map SExpr.width).sum)) ?_ fun ρ => by rw [h3, if_neg h]
      exact looks_mono (denotes_paths cuts e hw.1 G h1 _ (by omega)) (bitsOf_mono fun x q hr => anyCovers_append.2 (.inl hr))
end

/-! ### Left sides -/

mutual
theorem lhsBit_routes {cuts : CutReg} : ∀ (e : SExpr), WT cuts e → Lvalue e → Static e → ∀ k, k < e.width → ∀ x q,
    lhsBit e k = some (x, q) ↔ Routes e k x q
  | .lsp w p sels, _, _, hs, k, hk, x, q => by
    simp only [Static] at hs
    simp only [lhsBit, Routes, hs.2, AnyCovers]
    cases hp : p.root with
    | none => simp [PathCovers, hp]
    | some y => simp only [Option.map_some, Option.some.injEq, Prod.mk.injEq, hs.1, ne_eq, not_true_eq_false]; grind
  | .concat w ops, hw, hl, hs, k, hk, x, q => by
    simp only [WT] at hw
    simp only [Lvalue] at hl
    simp only [Static] at hs
    simp only [SExpr.width, hw.1] at hk
    simp only [lhsBit, Routes]
    exact lhsBits_routes ops hw.2 hl hs k hk x q
  | .repl .., _, h, _, _, _, _, _ => by simp [Lvalue] at h
  | .conv .., _, h, _, _, _, _, _ => by simp [Lvalue] at h
  | .condOp .., _, h, _, _, _, _, _ => by simp [Lvalue] at h
  | .other .., _, h, _, _, _, _, _ => by simp [Lvalue] at h

theorem lhsBits_routes {cuts : CutReg} : ∀ (es : List SExpr), WTs cuts es → LvalueOps es → StaticOps es →
    ∀ k, k < (es.map SExpr.width).sum → ∀ x q, lhsBitOps es k = some (x, q) ↔ RoutesOps es k x q
  | [], _, _, _, k, hk, _, _ => by simp at hk
  | e :: es, hw, hl, hs, k, hk, x, q => by
    simp only [WTs] at hw
    simp only [LvalueOps] at hl
    simp only [StaticOps] at hs
    simp only [List.map_cons, List.sum_cons] at hk
    simp only [lhsBitOps, RoutesOps]
    by_cases h : k < (es.map SExpr.width).sum
    · rw [if_pos h, lhsBits_routes es hw.2 hl.2 hs.2 k h x q]
      constructor
      · exact fun hr => .inl ⟨h, hr⟩
      · rintro (⟨_, hr⟩ | ⟨h', _⟩)
        · exact hr
        · omega
    · rw [if_neg h, lhsBit_routes e hw.1 hl.1 hs.1 _ (by omega) x q]
      constructor
      · exact fun hr => .inr ⟨by omega, hr⟩
      · rintro (⟨h', _⟩ | ⟨_, hr⟩)
        · omega
        · exact hr
end

theorem stands_iff {e : SExpr} {k x : Nat} {p : Int} : StandsFor e k x p ↔ ∃ q : Nat, p = q ∧ lhsBit e k = some (x, q) := by
  simp only [StandsFor, Option.map_eq_some_iff]
  constructor
  · rintro ⟨⟨y, q⟩, h1, h2⟩
    simp only [Prod.mk.injEq] at h2
    exact ⟨q, h2.2.symm, by rw [h1, h2.1]⟩
  · rintro ⟨q, rfl, h⟩
    exact ⟨_, h, rfl⟩

theorem lastBit_some {e : SExpr} {x : Nat} {p : Int} {lo n k : Nat} (h : lastBit e x p lo n = some k) :
    lo ≤ k ∧ k < n ∧ StandsFor e k x p := by
  induction n with
  | zero => cases h
  | succ n ih =>
    simp only [lastBit] at h
    split at h
    · rename_i hn
      cases h
      exact ⟨hn.1, by omega, hn.2⟩
    · obtain ⟨h1, h2, h3⟩ := ih h
      exact ⟨h1, by omega, h3⟩

theorem lastBit_none {e : SExpr} {x : Nat} {p : Int} {lo n : Nat} (h : lastBit e x p lo n = none) :
    ∀ k, lo ≤ k → k < n → ¬ StandsFor e k x p := by
  induction n with
  | zero => intro k _ hk; omega
  | succ n ih =>
    simp only [lastBit] at h
    split at h
    · cases h
    · rename_i hn
      intro k h1 h2 h3
      by_cases he : k = n
      · subst he; exact hn ⟨h1, h3⟩
      · exact ih h k h1 (by omega) h3

theorem lastBit_join {e : SExpr} {x : Nat} {p : Int} {lo mid : Nat} (hm : lo ≤ mid) : ∀ n, mid ≤ n →
    lastBit e x p lo n = match lastBit e x p mid n with | some k => some k | none => lastBit e x p lo mid := by
  intro n
  induction n with
  | zero =>
    intro h
    obtain rfl : mid = 0 := by omega
    obtain rfl : lo = 0 := by omega
    rfl
  | succ n ih =>
    intro h
    by_cases he : mid = n + 1
    · subst he
      have : lastBit e x p (n + 1) (n + 1) = none := by
        cases hl : lastBit e x p (n + 1) (n + 1) with
        | none => rfl
        | some k => have := lastBit_some hl; omega
      rw [this]
    · simp only [lastBit]
      by_cases hn : StandsFor e n x p
      · rw [if_pos ⟨by omega, hn⟩, if_pos ⟨by omega, hn⟩]
      · rw [if_neg (fun hh => hn hh.2), if_neg (fun hh => hn hh.2)]
        exact ih (by omega)

end Verif.Proofs
