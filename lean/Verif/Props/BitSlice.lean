import Verif.Proofs.BitSlice

/-!
Property theorems C26 (slices tile the expression), C27 (bit-exact assignment) and C48 (constant
slices).
-/
namespace Verif.Props
open Verif.Model Verif.Spec Verif.Proofs

/-- Cut lists as the registry holds them (C37): ascending without duplicates. -/
def CutsOk (cuts : CutReg) : Prop := ∀ sym l, cuts sym = some l → l.Pairwise (· < ·)

/-! ### C26 -/

/-- C26, decomposition: the slices of an expression are non-empty, start at bit 0, follow each other
without gap or overlap and end at the expression's width. The width rules are those of the language;
they exclude only a dynamic select of a signal with cut hints, see `dynamic_select_breaks_width`. -/
theorem slices_tile (enabled : Bool) {cuts : CutReg} (hc : CutsOk cuts) {e : SExpr} (h : WT cuts e) :
    Tiled 0 e.width (build enabled cuts e) := by
  unfold build
  cases enabled with
  | true =>
    obtain ⟨blk, h1, h2⟩ := buildInto_good cuts hc e h []
    have hz : listWidth ([] : List Slice) = 0 := rfl
    rw [hz] at h2
    simp only [List.nil_append] at h1
    simp only [Bool.not_true, Bool.false_eq_true, if_false, h1]
    simpa using h2.1
  | false =>
    obtain ⟨blk, h1, h2⟩ := pushOpaque_good [] e (f := fun _ => [.opaque e]) (fun _ => rfl)
    have hz : listWidth ([] : List Slice) = 0 := rfl
    rw [hz] at h2
    simp only [List.nil_append] at h1
    simp only [Bool.not_false, if_true, h1]
    simpa using h2.1

/-- The segment lies inside the slice and carries its sources. -/
def Within (seg : Seg) (srcs : List Src) (s : Slice) : Prop :=
  s.lo ≤ seg.lo ∧ seg.hi ≤ s.hi ∧ srcs = s.sources

theorem align_tile {l r : List Slice} (grid : List (Nat × Nat)) : ∀ {lo hi : Nat}, PTile lo hi grid →
    TiledSeg lo hi (grid.map fun c => ⟨c.1, c.2, sourcesAt l c.1, sourcesAt r c.1⟩) := by
  induction grid with
  | nil => intro lo hi h; simpa [TiledSeg, PTile] using h
  | cons a as ih => intro lo hi h; exact ⟨h.1, h.2.1, ih h.2.2⟩

/-- C26, alignment: for any two lists that tile the same width, alignment does not fail its
assertion, the segments tile that width, and each lies inside one slice of either list and carries
exactly that slice's sources. -/
theorem align_tiles {l r : List Slice} {W : Nat} (hl : Tiled 0 W l) (hr : Tiled 0 W r) :
    ∃ segs, alignSegments l r = some segs ∧ TiledSeg 0 W segs ∧
      ∀ seg ∈ segs, (∃ s ∈ l, Within seg seg.lhs s) ∧ ∃ s ∈ r, Within seg seg.rhs s := by
  obtain ⟨g1, g2⟩ := grid_ok hl hr
  have hw : ¬ listWidth l ≠ listWidth r := by rw [tiled_zero_width hl, tiled_zero_width hr]; simp
  refine ⟨_, by simp only [alignSegments, if_neg hw]; rfl, align_tile _ g1, ?_⟩
  intro seg hseg
  obtain ⟨c, hc, rfl⟩ := List.mem_map.1 hseg
  obtain ⟨_, _, ⟨sl, h1, h2, h3, h4⟩, ⟨sr, h5, h6, h7, h8⟩⟩ := g2 c hc
  exact ⟨⟨sl, h1, h3, h4, h2⟩, ⟨sr, h5, h7, h8, h6⟩⟩

/-- The width rules cannot be dropped: decomposing `a[i]` (1 bit, `a` has 8) when `a` has a cut at 4
gives slices of total width 8. -/
theorem dynamic_select_breaks_width :
    listWidth (build true (fun _ => some [4]) (.lsp 1 ⟨some 0, 0, 7⟩ [.lsp 3 ⟨some 1, 0, 2⟩ []])) = 8 := by
  decide

/-! ### C27 -/

/-- What an origin says about a signal bit. -/
def Gives : Origin → Nat → Nat → Prop
  | .sig p bit, sym, b => p.root = some sym ∧ b = bit
  | .opaque e, sym, b => AnyCovers e.paths sym b
  | _, _, _ => False

theorem anyCovers_append {l r : List LspPath} {sym b : Nat} :
    AnyCovers (l ++ r) sym b ↔ AnyCovers l sym b ∨ AnyCovers r sym b := by
  simp only [AnyCovers, List.mem_append]
  grind

mutual
/-- Everything routed to a bit is among what a visit of the expression reads. -/
theorem routes_read (cuts : CutReg) : ∀ (e : SExpr), WT cuts e → Static e → ∀ k sym b, k < e.width →
    Routes e k sym b → AnyCovers e.paths sym b
  | .lsp w p sels, _, hs, k, sym, b, hk, hr => by
    simp only [Static] at hs
    simp only [Routes, hs.2] at hr
    simp only [SExpr.width] at hk
    rcases hr with ⟨_, h1, h2⟩ | ⟨h1, _⟩ | ⟨p', h1, _⟩
    · exact ⟨p, by simp [SExpr.paths], h1, by omega, by unfold LspPath.hi; omega⟩
    · exact absurd hs.1 h1
    · simp at h1
  | .concat w ops, hw, hs, k, sym, b, hk, hr => by
    simp only [WT] at hw
    simp only [Static] at hs
    simp only [Routes] at hr
    simp only [SExpr.width, hw.1] at hk
    simp only [SExpr.paths]
    exact routes_read_ops cuts ops hw.2 hs k sym b hk hr
  | .repl w none inner, hw, hs, k, sym, b, hk, hr => by
    simp only [Routes] at hr
    simpa only [SExpr.paths] using hr
  | .repl w (some c) inner, hw, hs, k, sym, b, hk, hr => by
    simp only [WT] at hw
    simp only [Static] at hs
    simp only [Routes] at hr
    change k < w at hk
    rw [hw.1] at hk
    simp only [SExpr.paths]
    have hpos : 0 < inner.width := by
      rcases Nat.eq_zero_or_pos inner.width with h | h
      · rw [h] at hk; omega
      · exact h
    exact routes_read cuts inner hw.2 hs _ sym b (Nat.mod_lt _ hpos) hr
  | .conv w signExt fold inner, hw, hs, k, sym, b, hk, hr => by
    simp only [WT] at hw
    simp only [Static] at hs
    simp only [Routes] at hr
    simp only [SExpr.width] at hk
    simp only [SExpr.paths]
    obtain ⟨hf, hr⟩ := hr
    rcases hs with ⟨v, h1, h2⟩ | ⟨hs, hx⟩
    · exact absurd h2 (hf v h1)
    · rcases hr with ⟨h1, h2⟩ | ⟨h1, h2, _⟩
      · exact routes_read cuts inner hw hs k sym b h1 h2
      · have := hx h2; omega
  | .condOp w n pt more c l r, hw, hs, k, sym, b, hk, hr => by
    simp only [Routes] at hr
    simp only [SExpr.paths, anyCovers_append]
    simp only [WT] at hw
    simp only [Static] at hs
    rcases hr with ⟨h1, h2⟩ | ⟨h1, h2⟩ | h | h
    · exact .inl (.inr (routes_read cuts l hw.1 hs.1 k sym b h1 h2))
    · exact .inr (routes_read cuts r hw.2.1 hs.2 k sym b h1 h2)
    · exact .inl (.inl (.inl h))
    · exact .inl (.inl (.inr h))
  | .other w fold reads, _, _, k, sym, b, _, hr => by
    simp only [Routes] at hr
    simpa only [SExpr.paths] using hr.2

theorem routes_read_ops (cuts : CutReg) : ∀ (es : List SExpr), WTs cuts es → StaticOps es →
    ∀ k sym b, k < (es.map SExpr.width).sum → RoutesOps es k sym b → AnyCovers (pathsList es) sym b
  | [], _, _, k, sym, b, hk, _ => by simp at hk
  | e :: es, hw, hs, k, sym, b, hk, hr => by
    simp only [WTs] at hw
    simp only [StaticOps] at hs
    simp only [RoutesOps] at hr
    simp only [List.map_cons, List.sum_cons] at hk
    simp only [pathsList, anyCovers_append]
    rcases hr with ⟨h1, h2⟩ | ⟨h1, h2⟩
    · exact .inr (routes_read_ops cuts es hw.2 hs.2 k sym b h1 h2)
    · exact .inl (routes_read cuts e hw.1 hs.1 _ sym b (by omega) h2)
end

theorem fold_any {fold : Option (List LBit)} {w : Nat} :
    fold.any (fun v => v.length == w) = true ↔ ∃ v, fold = some v ∧ v.length = w := by
  cases fold <;> simp

theorem fold_none {fold : Option (List LBit)} {w : Nat}
    (h : fold.any (fun v => v.length == w) = false) : ∀ v, fold = some v → v.length ≠ w := by
  intro v hv hw
  have := (fold_any (fold := fold) (w := w)).2 ⟨v, hv, hw⟩
  rw [h] at this
  cases this

mutual
/-- Per bit, the recorded origins give every routed signal bit. -/
theorem orig_sound (cuts : CutReg) : ∀ (e : SExpr), WT cuts e → Static e → ∀ k sym b, k < e.width →
    Routes e k sym b → ∃ o ∈ orig e k, Gives o sym b
  | .lsp w p sels, _, hs, k, sym, b, hk, hr => by
    simp only [Static] at hs
    simp only [Routes, hs.2] at hr
    rcases hr with ⟨_, h1, h2⟩ | ⟨h1, _⟩ | ⟨p', h1, _⟩
    · exact ⟨.sig p (p.lo + k), by simp [orig], h1, h2⟩
    · exact absurd hs.1 h1
    · simp at h1
  | .concat w ops, hw, hs, k, sym, b, hk, hr => by
    simp only [WT] at hw
    simp only [Static] at hs
    simp only [Routes] at hr
    simp only [SExpr.width, hw.1] at hk
    simp only [orig]
    exact orig_sound_ops cuts ops hw.2 hs k sym b hk hr
  | .repl w none inner, hw, hs, k, sym, b, hk, hr => by
    have := routes_read cuts _ hw hs k sym b hk hr
    exact ⟨.opaque (.repl w none inner), by simp [orig], this⟩
  | .repl w (some c) inner, hw, hs, k, sym, b, hk, hr => by
    simp only [WT] at hw
    simp only [Static] at hs
    simp only [Routes] at hr
    change k < w at hk
    rw [hw.1] at hk
    have hpos : 0 < inner.width := by
      rcases Nat.eq_zero_or_pos inner.width with h | h
      · rw [h] at hk; omega
      · exact h
    simp only [orig]
    exact orig_sound cuts inner hw.2 hs _ sym b (Nat.mod_lt _ hpos) hr
  | .conv w signExt fold inner, hw, hs, k, sym, b, hk, hr => by
    have hread := routes_read cuts _ hw hs k sym b hk hr
    simp only [WT] at hw
    simp only [Static] at hs
    simp only [Routes] at hr
    change k < w at hk
    obtain ⟨hf, hr⟩ := hr
    rcases hs with ⟨v, h1, h2⟩ | ⟨hs, hx⟩
    · exact absurd h2 (hf v h1)
    · have hfold : ¬ fold.any (fun v => v.length == w) = true := by
        rw [fold_any]; rintro ⟨v, h1, h2⟩; exact hf v h1 h2
      have hin : k < inner.width ∧ Routes inner k sym b := by
        rcases hr with h | ⟨h1, h2, _⟩
        · exact h
        · have := hx h2; omega
      have ih := orig_sound cuts inner hw hs k sym b hin.1 hin.2
      simp only [orig, if_neg hfold]
      split
      · exact ih
      · split
        · rw [if_pos hin.1]; exact ih
        · exact ⟨.opaque (.conv w signExt fold inner), by simp, hread⟩
  | .condOp w n pt more c l r, hw, hs, k, sym, b, hk, hr => by
    have hread := routes_read cuts _ hw hs k sym b hk hr
    simp only [WT] at hw
    simp only [Static] at hs
    simp only [Routes] at hr
    simp only [orig]
    split
    · exact ⟨.opaque (.condOp w n pt more c l r), by simp, hread⟩
    · rename_i hne
      rcases hr with ⟨h1, h2⟩ | ⟨h1, h2⟩ | h | h
      · obtain ⟨o, ho, hg⟩ := orig_sound cuts l hw.1 hs.1 k sym b h1 h2
        exact ⟨o, by simp [ho], hg⟩
      · obtain ⟨o, ho, hg⟩ := orig_sound cuts r hw.2.1 hs.2 k sym b h1 h2
        exact ⟨o, by simp [ho], hg⟩
      · exact ⟨.opaque c, by simp, h⟩
      · simp only [not_or, Decidable.not_not] at hne
        obtain ⟨p, hp, _⟩ := h
        rw [hw.2.2 hne.2.2.1 (by simpa using hne.2.2.2)] at hp
        simp at hp
  | .other w fold reads, _, _, k, sym, b, _, hr => by
    simp only [Routes] at hr
    have hfold : ¬ fold.any (fun v => v.length == w) = true := by
      rw [fold_any]; rintro ⟨v, h1, h2⟩; exact hr.1 v h1 h2
    simp only [orig, if_neg hfold]
    exact ⟨.opaque (.other w fold reads), by simp, hr.2⟩

theorem orig_sound_ops (cuts : CutReg) : ∀ (es : List SExpr), WTs cuts es → StaticOps es →
    ∀ k sym b, k < (es.map SExpr.width).sum → RoutesOps es k sym b →
      ∃ o ∈ origOps es k, Gives o sym b
  | [], _, _, k, sym, b, hk, _ => by simp at hk
  | e :: es, hw, hs, k, sym, b, hk, hr => by
    simp only [WTs] at hw
    simp only [StaticOps] at hs
    simp only [RoutesOps] at hr
    simp only [List.map_cons, List.sum_cons] at hk
    simp only [origOps]
    rcases hr with ⟨h1, h2⟩ | ⟨h1, h2⟩
    · rw [if_pos h1]
      exact orig_sound_ops cuts es hw.2 hs.2 k sym b h1 h2
    · rw [if_neg (by omega)]
      exact orig_sound cuts e hw.1 hs.1 _ sym b (by omega) h2
end

mutual
/-- Per bit, the recorded origins give nothing but routed signal bits when the expression is
aligned. -/
theorem orig_exact (cuts : CutReg) : ∀ (e : SExpr), WT cuts e → Static e → Aligned e →
    ∀ k sym b, k < e.width → (∃ o ∈ orig e k, Gives o sym b) → Routes e k sym b
  | .lsp w p sels, _, hs, _, k, sym, b, hk, hr => by
    simp only [Static] at hs
    obtain ⟨o, ho, hg⟩ := hr
    simp only [orig, List.mem_singleton] at ho
    subst ho
    simp only [Routes]
    exact .inl ⟨hs.1, hg.1, hg.2⟩
  | .concat w ops, hw, hs, ha, k, sym, b, hk, hr => by
    simp only [WT] at hw
    simp only [Static] at hs
    simp only [Aligned] at ha
    simp only [SExpr.width, hw.1] at hk
    simp only [orig] at hr
    simp only [Routes]
    exact orig_exact_ops cuts ops hw.2 hs ha k sym b hk hr
  | .repl w none inner, hw, hs, ha, k, sym, b, hk, hr => by
    simp only [Aligned] at ha
    exact absurd rfl ha.1
  | .repl w (some c) inner, hw, hs, ha, k, sym, b, hk, hr => by
    simp only [WT] at hw
    simp only [Static] at hs
    simp only [Aligned] at ha
    change k < w at hk
    rw [hw.1] at hk
    have hpos : 0 < inner.width := by
      rcases Nat.eq_zero_or_pos inner.width with h | h
      · rw [h] at hk; omega
      · exact h
    simp only [orig] at hr
    simp only [Routes]
    exact orig_exact cuts inner hw.2 hs ha.2 _ sym b (Nat.mod_lt _ hpos) hr
  | .conv w signExt fold inner, hw, hs, ha, k, sym, b, hk, hr => by
    simp only [WT] at hw
    simp only [Static] at hs
    simp only [Aligned] at ha
    change k < w at hk
    simp only [orig] at hr
    simp only [Routes]
    by_cases hfold : fold.any (fun v => v.length == w) = true
    · rw [if_pos hfold] at hr
      obtain ⟨o, ho, hg⟩ := hr
      simp only [List.mem_singleton] at ho
      subst ho
      exact hg.elim
    · rw [if_neg hfold] at hr
      have hf : ∀ v, fold = some v → v.length ≠ w := fun v h1 h2 => hfold (fold_any.2 ⟨v, h1, h2⟩)
      refine ⟨hf, ?_⟩
      have hst : Static inner := by
        rcases hs with ⟨v, h1, h2⟩ | h
        · exact absurd h2 (hf v h1)
        · exact h.1
      have hal : Aligned inner ∧ inner.width ≤ w := by
        rcases ha with ⟨v, h1, h2⟩ | h
        · exact absurd h2 (hf v h1)
        · exact h
      split at hr
      · rename_i heq
        have hk' : k < inner.width := by omega
        exact .inl ⟨hk', orig_exact cuts inner hw hst hal.1 k sym b hk' hr⟩
      · split at hr
        · split at hr
          · rename_i hk'
            exact .inl ⟨hk', orig_exact cuts inner hw hst hal.1 k sym b hk' hr⟩
          · obtain ⟨o, ho, hg⟩ := hr
            split at ho <;> (simp only [List.mem_singleton] at ho; subst ho; exact hg.elim)
        · omega
  | .condOp w n pt more c l r, hw, hs, ha, k, sym, b, hk, hr => by
    simp only [WT] at hw
    simp only [Static] at hs
    simp only [Aligned] at ha
    obtain ⟨a1, a2, a3, a4, a5, a6, a7⟩ := ha
    change k < w at hk
    simp only [orig] at hr
    rw [if_neg (by simp [a1, a2, a3, a4]; omega)] at hr
    simp only [Routes]
    obtain ⟨o, ho, hg⟩ := hr
    simp only [List.mem_append, List.mem_singleton] at ho
    rcases ho with (ho | ho) | rfl
    · exact .inl ⟨by omega, orig_exact cuts l hw.1 hs.1 a6 k sym b (by omega) ⟨o, ho, hg⟩⟩
    · exact .inr (.inl ⟨by omega, orig_exact cuts r hw.2.1 hs.2 a7 k sym b (by omega) ⟨o, ho, hg⟩⟩)
    · exact .inr (.inr (.inl hg))
  | .other w fold reads, _, _, _, k, sym, b, _, hr => by
    simp only [orig] at hr
    simp only [Routes]
    by_cases hfold : fold.any (fun v => v.length == w) = true
    · rw [if_pos hfold] at hr
      obtain ⟨o, ho, hg⟩ := hr
      simp only [List.mem_singleton] at ho
      subst ho
      exact hg.elim
    · rw [if_neg hfold] at hr
      obtain ⟨o, ho, hg⟩ := hr
      simp only [List.mem_singleton] at ho
      subst ho
      exact ⟨fun v h1 h2 => hfold (fold_any.2 ⟨v, h1, h2⟩), hg⟩

theorem orig_exact_ops (cuts : CutReg) : ∀ (es : List SExpr), WTs cuts es → StaticOps es →
    AlignedOps es → ∀ k sym b, k < (es.map SExpr.width).sum →
      (∃ o ∈ origOps es k, Gives o sym b) → RoutesOps es k sym b
  | [], _, _, _, k, sym, b, hk, _ => by simp at hk
  | e :: es, hw, hs, ha, k, sym, b, hk, hr => by
    simp only [WTs] at hw
    simp only [StaticOps] at hs
    simp only [AlignedOps] at ha
    simp only [List.map_cons, List.sum_cons] at hk
    simp only [origOps] at hr
    simp only [RoutesOps]
    split at hr
    · rename_i h1
      exact .inl ⟨h1, orig_exact_ops cuts es hw.2 hs.2 ha.2 k sym b h1 hr⟩
    · exact .inr ⟨by omega, orig_exact cuts e hw.1 hs.1 ha.1 _ sym b (by omega) hr⟩
end

mutual
theorem lvalue_orig : ∀ (e : SExpr), Lvalue e → ∀ k, ∀ o ∈ orig e k, ∃ p bit, o = .sig p bit
  | .lsp w p sels, _, k, o, ho => by
    simp only [orig, List.mem_singleton] at ho
    exact ⟨_, _, ho⟩
  | .concat w ops, h, k, o, ho => by
    simp only [Lvalue] at h
    simp only [orig] at ho
    exact lvalue_orig_ops ops h k o ho
  | .repl .., h, _, _, _ => by simp [Lvalue] at h
  | .conv .., h, _, _, _ => by simp [Lvalue] at h
  | .condOp .., h, _, _, _ => by simp [Lvalue] at h
  | .other .., h, _, _, _ => by simp [Lvalue] at h

theorem lvalue_orig_ops : ∀ (es : List SExpr), LvalueOps es → ∀ k, ∀ o ∈ origOps es k,
    ∃ p bit, o = .sig p bit
  | [], _, _, _, ho => by simp [origOps] at ho
  | e :: es, h, k, o, ho => by
    simp only [LvalueOps] at h
    simp only [origOps] at ho
    split at ho
    · exact lvalue_orig_ops es h.2 _ o ho
    · exact lvalue_orig e h.1 _ o ho
end

mutual
theorem lvalue_aligned : ∀ (e : SExpr), Lvalue e → Aligned e
  | .lsp .., _ => by simp [Aligned]
  | .concat w ops, h => by
    simp only [Lvalue] at h
    simp only [Aligned]
    exact lvalue_aligned_ops ops h
  | .repl .., h => by simp [Lvalue] at h
  | .conv .., h => by simp [Lvalue] at h
  | .condOp .., h => by simp [Lvalue] at h
  | .other .., h => by simp [Lvalue] at h

theorem lvalue_aligned_ops : ∀ (es : List SExpr), LvalueOps es → AlignedOps es
  | [], _ => by simp [AlignedOps]
  | e :: es, h => by
    simp only [LvalueOps] at h
    simp only [AlignedOps]
    exact ⟨lvalue_aligned e h.1, lvalue_aligned_ops es h.2⟩
end

/-- A source read for a segment gives exactly what its origin at each bit of the segment gives. -/
theorem reads_origin {seg : Seg} {s : Src} {k sym b : Nat} (hok : SrcOk seg.lo seg.hi s)
    (h1 : seg.lo ≤ k) (h2 : k < seg.hi) :
    SrcReadsBit seg k sym b s ↔ Gives (originAt k s) sym b := by
  cases s with
  | lsp p lo hi =>
    simp only [SrcOk] at hok
    simp only [SrcReadsBit, Src.reads, originAt, Gives, lspRange, Seg.width, List.mem_map, Option.mem_toList]
    constructor
    · rintro ⟨d, ⟨r, hr, rfl⟩, rfl, h, _⟩
      exact ⟨hr, by simp only at h; omega⟩
    · rintro ⟨h, rfl⟩
      exact ⟨_, ⟨sym, h, rfl⟩, rfl, by simp only; omega, by simp only⟩
  | «opaque» e =>
    simp only [SrcReadsBit, Src.reads, originAt, Gives, List.mem_filterMap, Option.map_eq_some_iff]
    constructor
    · rintro ⟨d, ⟨p, hp, r, hr, rfl⟩, rfl, h, h'⟩
      exact ⟨p, hp, hr, by simp only at h; omega, by simp only at h'; omega⟩
    · rintro ⟨p, hp, h, h3, h4⟩
      exact ⟨_, ⟨p, hp, sym, h, rfl⟩, rfl, by simp only; omega, by simp only; omega⟩
  | padding _ => simp [SrcReadsBit, Src.reads, originAt, Gives]
  | portNode _ _ _ => simp [SrcReadsBit, Src.reads, originAt, Gives]
  | const _ _ _ => simp [SrcReadsBit, Src.reads, originAt, Gives]

theorem tiledSeg_mem {segs : List Seg} : ∀ {lo hi : Nat}, TiledSeg lo hi segs → ∀ {seg : Seg},
    seg ∈ segs → seg.lo < seg.hi := by
  induction segs with
  | nil => intro lo hi _ seg h; simp at h
  | cons a as ih =>
    intro lo hi h seg hs
    rcases List.mem_cons.1 hs with rfl | hs
    · exact h.2.1
    · exact ih h.2.2 hs

/-- The same for a driven source that is a selected signal. -/
theorem drives_origin {seg : Seg} {k sym b : Nat} (hok : ∀ s ∈ seg.lhs, SrcOk seg.lo seg.hi s)
    (h1 : seg.lo ≤ k) (h2 : k < seg.hi)
    (hl : ∀ s ∈ seg.lhs, ∃ p bit, originAt k s = .sig p bit) :
    DrivesBit seg k sym b ↔ ∃ o ∈ seg.lhs.map (originAt k), Gives o sym b := by
  simp only [DrivesBit, Seg.drives, List.mem_filterMap, List.mem_map]
  constructor
  · rintro ⟨d, ⟨s, hs, hd⟩, rfl, h, _⟩
    cases s with
    | lsp p lo hi =>
      have hk := hok _ hs
      simp only [SrcOk] at hk
      simp only [Option.map_eq_some_iff] at hd
      obtain ⟨r, hr, rfl⟩ := hd
      refine ⟨_, ⟨_, hs, rfl⟩, hr, ?_⟩
      simp only [lspRange] at h
      omega
    | _ => simp at hd
  · rintro ⟨o, ⟨s, hs, rfl⟩, hg⟩
    obtain ⟨p', bit, hp⟩ := hl s hs
    cases s with
    | lsp p lo hi =>
      have hk := hok _ hs
      simp only [SrcOk] at hk
      simp only [originAt, Gives] at hg
      refine ⟨_, ⟨_, hs, by simp only [hg.1, Option.map_some]; rfl⟩, rfl, ?_, ?_⟩
      · simp only [lspRange]; omega
      · simp only [lspRange, Seg.width]
    | _ => simp [originAt] at hp

theorem srcOk_mono {lo hi lo' hi' : Nat} {s : Src} (h : SrcOk lo hi s) (h1 : lo ≤ lo')
    (h2 : hi' ≤ hi) : SrcOk lo' hi' s := by
  cases s <;> simp only [SrcOk] at h ⊢ <;> omega

/-- Every slice of a decomposition says of its bits what `orig` says. -/
theorem build_origins {cuts : CutReg} (hc : CutsOk cuts) {e : SExpr} (h : WT cuts e) :
    ∀ s ∈ build true cuts e, (∀ src ∈ s.sources, SrcOk s.lo s.hi src) ∧
      ∀ k, s.lo ≤ k → k < s.hi → s.sources.map (originAt k) = orig e k := by
  obtain ⟨blk, h1, h2⟩ := buildInto_good cuts hc e h []
  have hz : listWidth ([] : List Slice) = 0 := rfl
  rw [hz] at h2
  simp only [List.nil_append] at h1
  simp only [build, Bool.not_true, Bool.false_eq_true, if_false, h1]
  exact h2.2

/-- The segments of an assignment: they exist, tile the width, and say of each bit what the two
sides' origins say. -/
theorem assign_origins {cuts : CutReg} (hc : CutsOk cuts) {lhs rhs : SExpr} (hl : WT cuts lhs)
    (hr : WT cuts rhs) (hw : lhs.width = rhs.width) :
    ∃ segs, assignWalk true true cuts lhs rhs = .segments segs ∧ TiledSeg 0 lhs.width segs ∧
      ∀ seg ∈ segs, (∀ s ∈ seg.lhs, SrcOk seg.lo seg.hi s) ∧ (∀ s ∈ seg.rhs, SrcOk seg.lo seg.hi s) ∧
        seg.hi ≤ lhs.width ∧
        ∀ k, seg.lo ≤ k → k < seg.hi →
          seg.lhs.map (originAt k) = orig lhs k ∧ seg.rhs.map (originAt k) = orig rhs k := by
  have tl := slices_tile true hc hl
  have tr := slices_tile true hc hr
  rw [← hw] at tr
  obtain ⟨segs, h1, h2, h3⟩ := align_tiles tl tr
  refine ⟨segs, ?_, h2, ?_⟩
  · simp only [assignWalk, Bool.not_true, Bool.false_eq_true, if_false]
    rw [if_neg, walkSegments, h1]
    rw [tiled_zero_width tl, tiled_zero_width tr]; simp
  · intro seg hseg
    obtain ⟨⟨s, hs, a1, a2, a3⟩, ⟨t, ht, b1, b2, b3⟩⟩ := h3 seg hseg
    obtain ⟨c1, c2⟩ := build_origins hc hl s hs
    obtain ⟨d1, d2⟩ := build_origins hc hr t ht
    refine ⟨?_, ?_, ?_, ?_⟩
    · rw [a3]; exact fun x hx => srcOk_mono (c1 x hx) a1 a2
    · rw [b3]; exact fun x hx => srcOk_mono (d1 x hx) b1 b2
    · have := (tiled_mem tl s hs).2.2
      omega
    · intro k k1 k2
      rw [a3, b3]
      exact ⟨c2 k (by omega) (by omega), d2 k (by omega) (by omega)⟩

/-- The bit-aligned walk is taken exactly when it is enabled, both types are integral and the widths
agree; otherwise the legacy walk is taken. The assertion of `alignSegments` never fails, whatever
the expressions. -/
theorem assign_walk_choice {cuts : CutReg} (hc : CutsOk cuts) {lhs rhs : SExpr} (hl : WT cuts lhs)
    (hr : WT cuts rhs) (resolveBits integral : Bool) :
    ((∃ segs, assignWalk resolveBits integral cuts lhs rhs = .segments segs) ↔
      resolveBits = true ∧ integral = true ∧ lhs.width = rhs.width) ∧
    (assignWalk resolveBits integral cuts lhs rhs = .legacy ↔
      ¬ (resolveBits = true ∧ integral = true ∧ lhs.width = rhs.width)) := by
  have h : assignWalk resolveBits integral cuts lhs rhs =
      if ¬ (resolveBits = true ∧ integral = true ∧ lhs.width = rhs.width) then .legacy
      else walkSegments (build true cuts lhs) (build true cuts rhs) := by
    have tl := tiled_zero_width (slices_tile true hc hl)
    have tr := tiled_zero_width (slices_tile true hc hr)
    unfold assignWalk
    rw [tl, tr]
    cases resolveBits <;> cases integral <;> simp
  rw [h]
  by_cases hb : resolveBits = true ∧ integral = true ∧ lhs.width = rhs.width
  · rw [if_neg (by simpa using hb)]
    have tr := slices_tile true hc hr
    rw [← hb.2.2] at tr
    obtain ⟨segs, h1, _⟩ := align_tiles (slices_tile true hc hl) tr
    simp only [walkSegments, h1]
    simp [hb]
  · rw [if_pos hb]
    simp [hb]

/-- The assertion of `alignSegments` never fails, with no condition on the expressions at all. -/
theorem assign_never_asserts (resolveBits integral : Bool) (cuts : CutReg) (lhs rhs : SExpr) :
    assignWalk resolveBits integral cuts lhs rhs ≠ .assertFails := by
  unfold assignWalk walkSegments alignSegments
  repeat' split
  all_goals simp_all

/-- C27: for an assignment whose sides have the same width and use only static selects, the
bit-aligned walk is taken; its segments tile the width; bit `k` of the left side is recorded as
driving exactly the signal bits that are bit `k` of the left side; and it is recorded as depending
on every signal bit the language routes to bit `k` of the right side — and, when the right side has
no narrowing conversion, pattern conditional or non-constant replication, on exactly those.

Missing for the full statement: sign extension (its dependency is lost, `sign_extension_loses`) and
exactness for narrowing conversions (coarse, `narrowing_is_coarse`). -/
theorem assign_bits_partial {cuts : CutReg} (hc : CutsOk cuts) {lhs rhs : SExpr} (hl : WT cuts lhs)
    (hr : WT cuts rhs) (hw : lhs.width = rhs.width) (hlv : Lvalue lhs) (hls : Static lhs)
    (hrs : Static rhs) :
    ∃ segs, assignWalk true true cuts lhs rhs = .segments segs ∧ TiledSeg 0 lhs.width segs ∧
      ∀ seg ∈ segs, ∀ k, seg.lo ≤ k → k < seg.hi → ∀ sym b,
        (DrivesBit seg k sym b ↔ Routes lhs k sym b) ∧
        (Routes rhs k sym b → ReadsBit seg k sym b) ∧
        (Aligned rhs → ReadsBit seg k sym b → Routes rhs k sym b) := by
  obtain ⟨segs, h1, h2, h3⟩ := assign_origins hc hl hr hw
  refine ⟨segs, h1, h2, ?_⟩
  intro seg hseg k k1 k2 sym b
  obtain ⟨s1, s2, s3, s4⟩ := h3 seg hseg
  obtain ⟨o1, o2⟩ := s4 k k1 k2
  have hread : ReadsBit seg k sym b ↔ ∃ o ∈ orig rhs k, Gives o sym b := by
    rw [← o2]
    simp only [ReadsBit, List.mem_map]
    constructor
    · rintro ⟨s, hs, h⟩
      exact ⟨_, ⟨s, hs, rfl⟩, (reads_origin (s2 s hs) k1 k2).1 h⟩
    · rintro ⟨_, ⟨s, hs, rfl⟩, h⟩
      exact ⟨s, hs, (reads_origin (s2 s hs) k1 k2).2 h⟩
  refine ⟨?_, ?_, ?_⟩
  · rw [drives_origin s1 k1 k2, o1]
    · exact ⟨fun h => orig_exact cuts lhs hl hls (lvalue_aligned lhs hlv) k sym b (by omega) h,
        fun h => orig_sound cuts lhs hl hls k sym b (by omega) h⟩
    · intro s hs
      exact lvalue_orig lhs hlv k _ (by rw [← o1]; exact List.mem_map_of_mem hs)
  · intro h
    exact hread.2 (orig_sound cuts rhs hr hrs k sym b (by omega) h)
  · intro ha h
    exact orig_exact cuts rhs hr hrs ha k sym b (by omega) (hread.1 h)

/-- A right side for the examples: `{a[3:2], {2{b}}, c ? d[1:0] : 2'b01}` with `b` one bit. -/
def sampleRhs : SExpr :=
  .concat 6 [.lsp 2 ⟨some 1, 2, 1⟩ [], .repl 2 (some 2) (.lsp 1 ⟨some 2, 0, 0⟩ []),
    .condOp 2 1 false [] (.lsp 1 ⟨some 3, 0, 0⟩ []) (.lsp 2 ⟨some 4, 0, 1⟩ [])
      (.other 2 (some [.one, .zero]) [])]

/-- The hypotheses of `assign_bits_partial` hold for `{y[3:0], z} = sampleRhs` with a cut at bit 2 of
`y`. -/
example : let cuts : CutReg := fun s => if s = 10 then some [2] else none
    let lhs : SExpr := .concat 6 [.lsp 4 ⟨some 10, 0, 3⟩ [], .lsp 2 ⟨some 11, 0, 1⟩ []]
    CutsOk cuts ∧ WT cuts lhs ∧ WT cuts sampleRhs ∧ lhs.width = sampleRhs.width ∧ Lvalue lhs ∧
      Static lhs ∧ Static sampleRhs ∧ Aligned sampleRhs := by
  refine ⟨?_, ?_, ?_, rfl, ?_, ?_, ?_, ?_⟩
  · intro sym l h
    simp only at h
    split at h
    · cases h; simp
    · cases h
  all_goals simp [sampleRhs, WT, WTs, Lvalue, LvalueOps, Static, StaticOps, Aligned, AlignedOps,
    SExpr.width, pathsList, CutReg.cutsFor]

/-- Sign extension: for the 8-bit `y = $signed(a)` with `a` of 4 bits, the language routes bit 3 of
`a` to bit 7 of `y`, but no segment of the assignment records it. -/
theorem sign_extension_loses :
    let lhs : SExpr := .lsp 8 ⟨some 1, 0, 7⟩ []
    let rhs : SExpr := .conv 8 true none (.lsp 4 ⟨some 0, 0, 3⟩ [])
    Routes rhs 7 0 3 ∧ ∃ segs, assignWalk true true (fun _ => none) lhs rhs = .segments segs ∧
      ∀ seg ∈ segs, seg.lo ≤ 7 → 7 < seg.hi → ∀ sym b, ¬ ReadsBit seg 7 sym b := by
  refine ⟨by simp [Routes, SExpr.width], _, rfl, ?_⟩
  intro seg hseg h1 h2 sym b
  simp [build, buildInto, pushLsp, CutReg.cutsFor, listWidth, collectCuts, mergeCuts, sortUnique,
    pairs, uniqueAdj, SExpr.width, sourcesAt, findSlice, padSource, sortAsc, insertAsc] at hseg
  rcases hseg with rfl | rfl
  · simp at h2
  · simp [ReadsBit, SrcReadsBit, Src.reads]

/-- Narrowing: for the 4-bit `y = 4'(a)` with `a` of 8 bits, bit 0 of `y` is recorded as depending on
bit 7 of `a`, which the language does not route there. -/
theorem narrowing_is_coarse :
    let lhs : SExpr := .lsp 4 ⟨some 1, 0, 3⟩ []
    let rhs : SExpr := .conv 4 false none (.lsp 8 ⟨some 0, 0, 7⟩ [])
    ¬ Routes rhs 0 0 7 ∧ ∃ segs, assignWalk true true (fun _ => none) lhs rhs = .segments segs ∧
      ∃ seg ∈ segs, seg.lo ≤ 0 ∧ 0 < seg.hi ∧ ReadsBit seg 0 0 7 := by
  refine ⟨by simp [Routes, SExpr.width, pathsList, AnyCovers], _, rfl, ?_⟩
  simp [build, buildInto, pushLsp, pushOpaque, CutReg.cutsFor, listWidth, collectCuts, mergeCuts,
    sortUnique, pairs, uniqueAdj, SExpr.width, sourcesAt, findSlice, sortAsc, insertAsc, ReadsBit,
    SrcReadsBit, Src.reads, SExpr.paths, pathsList, LspPath.hi]
  exact ⟨0, ⟨0, 7⟩, ⟨rfl, rfl⟩, rfl, by decide, by decide⟩

/-- Dynamic selects are not static, and cannot be allowed: for `y = a[i]` with `a` of 8 bits the
language routes every bit of `a` and of `i` to `y`, but only bit 0 of `a` is recorded. -/
theorem dynamic_select_loses :
    let lhs : SExpr := .lsp 1 ⟨some 2, 0, 0⟩ []
    let rhs : SExpr := .lsp 1 ⟨some 0, 0, 7⟩ [.lsp 3 ⟨some 1, 0, 2⟩ []]
    Routes rhs 0 0 5 ∧ Routes rhs 0 1 0 ∧
    ∃ segs, assignWalk true true (fun _ => none) lhs rhs = .segments segs ∧
      ∀ seg ∈ segs, seg.lo ≤ 0 → 0 < seg.hi → ∀ sym b, ReadsBit seg 0 sym b → sym = 0 ∧ b = 0 := by
  refine ⟨by simp [Routes, PathCovers, LspPath.hi],
    by simp [Routes, PathCovers, LspPath.hi, pathsList, AnyCovers, SExpr.paths], _, rfl, ?_⟩
  intro seg hseg _ _ sym b
  simp [build, buildInto, pushLsp, CutReg.cutsFor, listWidth, collectCuts, mergeCuts, sortUnique,
    pairs, uniqueAdj, SExpr.width, sourcesAt, findSlice, sortAsc, insertAsc] at hseg
  subst hseg
  simp [ReadsBit, SrcReadsBit, Src.reads, lspRange, Seg.width]
  omega

/-- The same on the left: `a[i] = b` may drive every bit of `a`, but only bit 0 is recorded as
driven. -/
theorem dynamic_target_loses :
    let lhs : SExpr := .lsp 1 ⟨some 0, 0, 7⟩ [.lsp 3 ⟨some 1, 0, 2⟩ []]
    let rhs : SExpr := .lsp 1 ⟨some 2, 0, 0⟩ []
    Routes lhs 0 0 5 ∧
    ∃ segs, assignWalk true true (fun _ => none) lhs rhs = .segments segs ∧
      ∀ seg ∈ segs, seg.lo ≤ 0 → 0 < seg.hi → ∀ sym b, DrivesBit seg 0 sym b → sym = 0 ∧ b = 0 := by
  refine ⟨by simp [Routes, PathCovers, LspPath.hi], _, rfl, ?_⟩
  intro seg hseg _ _ sym b
  simp [build, buildInto, pushLsp, CutReg.cutsFor, listWidth, collectCuts, mergeCuts, sortUnique,
    pairs, uniqueAdj, SExpr.width, sourcesAt, findSlice, sortAsc, insertAsc] at hseg
  subst hseg
  simp [DrivesBit, Seg.drives, lspRange, Seg.width]
  omega

/-! ### C48 -/

/-- C48: the node made for a constant source of a segment carries exactly the segment's bits of the
constant, and their number as its width. -/
theorem constant_slice {v : List LBit} {srcLo : Nat} {seg : Seg} (h : seg.lo < seg.hi)
    (h1 : srcLo ≤ seg.lo) (h2 : seg.hi ≤ srcLo + v.length) :
    (constantForSegment v srcLo seg).2 = seg.hi - seg.lo ∧
      (constantForSegment v srcLo seg).1 =
        (v.drop (seg.lo - srcLo)).take (seg.hi - seg.lo) := by
  have hwid : seg.width = seg.hi - seg.lo := rfl
  simp only [constantForSegment, ← hwid]
  by_cases heq : v.length ≠ seg.width
  · simp only [if_pos heq]
    refine ⟨trivial, ?_⟩
    apply List.ext_getElem
    · simp [sliceBits]; omega
    · intro i h3 h4
      simp [sliceBits] at h3 h4 ⊢
      rw [List.getElem?_eq_getElem (by omega)]
      rfl
  · simp only [if_neg heq]
    simp only [ne_eq, Decidable.not_not] at heq
    refine ⟨trivial, ?_⟩
    have : seg.lo - srcLo = 0 := by omega
    rw [this, List.drop_zero, ← heq, List.take_length]

mutual
/-- Per bit, a recorded constant is one the language routes there. -/
theorem const_sound (cuts : CutReg) : ∀ (e : SExpr), WT cuts e → ∀ k v, k < e.width →
    Origin.constBit v ∈ orig e k → ConstBit e k v
  | .lsp .., _, k, v, _, h => by simp [orig] at h
  | .concat w ops, hw, k, v, hk, h => by
    simp only [WT] at hw
    simp only [SExpr.width, hw.1] at hk
    simp only [orig] at h
    simp only [ConstBit]
    exact const_sound_ops cuts ops hw.2 k v hk h
  | .repl w none inner, _, k, v, _, h => by simp [orig] at h
  | .repl w (some c) inner, hw, k, v, hk, h => by
    simp only [WT] at hw
    change k < w at hk
    rw [hw.1] at hk
    have hpos : 0 < inner.width := by
      rcases Nat.eq_zero_or_pos inner.width with h | h
      · rw [h] at hk; omega
      · exact h
    simp only [orig] at h
    simp only [ConstBit]
    exact const_sound cuts inner hw.2 _ v (Nat.mod_lt _ hpos) h
  | .conv w signExt fold inner, hw, k, v, hk, h => by
    simp only [WT] at hw
    change k < w at hk
    simp only [orig] at h
    simp only [ConstBit]
    by_cases hfold : fold.any (fun v => v.length == w) = true
    · rw [if_pos hfold] at h
      obtain ⟨bits, h1, h2⟩ := fold_any.1 hfold
      subst h1
      simp only [Option.getD_some, List.mem_singleton, Origin.constBit.injEq] at h
      refine .inl ⟨bits, rfl, h2, ?_⟩
      rw [h, List.getD_eq_getElem?_getD, List.getElem?_eq_getElem (by omega)]
      rfl
    · rw [if_neg hfold] at h
      refine .inr ⟨fun bits h1 h2 => hfold (fold_any.2 ⟨bits, h1, h2⟩), ?_⟩
      split at h
      · exact .inl ⟨by omega, const_sound cuts inner hw k v (by omega) h⟩
      · split at h
        · split at h
          · exact .inl ⟨by omega, const_sound cuts inner hw k v (by omega) h⟩
          · split at h
            · simp at h
            · simp only [List.mem_singleton, Origin.constBit.injEq] at h
              exact .inr (.inl ⟨by omega, by simp_all, h⟩)
        · simp at h
  | .condOp w n pt more c l r, hw, k, v, hk, h => by
    simp only [WT] at hw
    change k < w at hk
    simp only [orig] at h
    simp only [ConstBit]
    split at h
    · simp at h
    · rename_i hne
      simp only [not_or, Decidable.not_not] at hne
      simp only [List.mem_append, List.mem_singleton, reduceCtorEq, or_false] at h
      rcases h with h | h
      · exact .inl (const_sound cuts l hw.1 k v (by omega) h)
      · exact .inr (const_sound cuts r hw.2.1 k v (by omega) h)
  | .other w fold reads, _, k, v, hk, h => by
    change k < w at hk
    simp only [orig] at h
    simp only [ConstBit]
    by_cases hfold : fold.any (fun v => v.length == w) = true
    · rw [if_pos hfold] at h
      obtain ⟨bits, h1, h2⟩ := fold_any.1 hfold
      subst h1
      simp only [Option.getD_some, List.mem_singleton, Origin.constBit.injEq] at h
      refine ⟨bits, rfl, h2, ?_⟩
      rw [h, List.getD_eq_getElem?_getD, List.getElem?_eq_getElem (by omega)]
      rfl
    · rw [if_neg hfold] at h
      simp at h

theorem const_sound_ops (cuts : CutReg) : ∀ (es : List SExpr), WTs cuts es → ∀ k v,
    k < (es.map SExpr.width).sum → Origin.constBit v ∈ origOps es k → ConstBitOps es k v
  | [], _, _, _, hk, _ => by simp at hk
  | e :: es, hw, k, v, hk, h => by
    simp only [WTs] at hw
    simp only [List.map_cons, List.sum_cons] at hk
    simp only [origOps] at h
    simp only [ConstBitOps]
    split at h
    · exact .inl ⟨by omega, const_sound_ops cuts es hw.2 k v (by omega) h⟩
    · exact .inr ⟨by omega, const_sound cuts e hw.1 _ v (by omega) h⟩
end

/-- C48 for assignments: every constant source of every segment gives a node of the segment's width,
and each bit of its value is a constant bit that the language routes to that bit of the right
side. -/
theorem assign_constants {cuts : CutReg} (hc : CutsOk cuts) {lhs rhs : SExpr} (hl : WT cuts lhs)
    (hr : WT cuts rhs) (hw : lhs.width = rhs.width) {segs : List Seg}
    (hs : assignWalk true true cuts lhs rhs = .segments segs) {seg : Seg} (hseg : seg ∈ segs)
    {v : List LBit} {lo hi : Nat} (hsrc : Src.const v lo hi ∈ seg.rhs) :
    (constantForSegment v lo seg).2 = seg.hi - seg.lo ∧
      (constantForSegment v lo seg).1.length = seg.hi - seg.lo ∧
      ∀ k, seg.lo ≤ k → k < seg.hi → ∃ x,
        (constantForSegment v lo seg).1[k - seg.lo]? = some x ∧ ConstBit rhs k x := by
  obtain ⟨segs', h1, h2, h3⟩ := assign_origins hc hl hr hw
  rw [h1] at hs
  cases hs
  obtain ⟨_, s2, s3, s4⟩ := h3 seg hseg
  have hok := s2 _ hsrc
  simp only [SrcOk] at hok
  have hlt : seg.lo < seg.hi := tiledSeg_mem h2 hseg
  obtain ⟨c1, c2⟩ := constant_slice hlt hok.1 (v := v) (by omega)
  refine ⟨c1, ?_, ?_⟩
  · rw [c2, List.length_take, List.length_drop]; omega
  · intro k k1 k2
    refine ⟨v.getD (k - lo) .x, ?_, ?_⟩
    · rw [c2, List.getElem?_take, if_pos (by omega), List.getElem?_drop,
        List.getElem?_eq_getElem (by omega), List.getD_eq_getElem?_getD,
        List.getElem?_eq_getElem (by omega)]
      have : seg.lo - lo + (k - seg.lo) = k - lo := by omega
      simp [this]
    · refine const_sound cuts rhs hr k _ (by omega) ?_
      rw [← (s4 k k1 k2).2]
      exact List.mem_map.2 ⟨_, hsrc, rfl⟩

/-- `{y, z} = 4'b1010` with one-bit `z`: the segment for `y` carries the upper three bits. -/
example : constantForSegment [.zero, .one, .zero, .one] 0 ⟨1, 4, [], []⟩ =
    ([.one, .zero, .one], 3) := by decide

end Verif.Props
