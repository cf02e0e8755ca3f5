import Verif.Model.PortSlice
import Verif.Props.BitSlice

/-!
Property theorems C45 (port slice grid), C53 (port connections are bit-exact) and C54 (cuts recorded
from an actual).
-/
namespace Verif.Spec
open Verif.Model

mutual
/-- Every subexpression has at least one bit, and selects are static. -/
def Pos : SExpr → Prop
  | .lsp w p _ => w = p.extra + 1
  | .concat w ops => 0 < w ∧ PosOps ops
  | .repl w _ inner => 0 < w ∧ Pos inner
  | .conv w _ _ inner => 0 < w ∧ Pos inner
  | .condOp w _ _ _ _ l r => 0 < w ∧ Pos l ∧ Pos r
  | .other w _ _ => 0 < w

/-- All operands have at least one bit. -/
def PosOps : List SExpr → Prop
  | [] => True
  | e :: es => Pos e ∧ PosOps es
end

mutual
/-- No conditional and no conversion that folds to a constant. -/
def CutForm : SExpr → Prop
  | .lsp .. => True
  | .concat _ ops => CutFormOps ops
  | .repl _ _ inner => CutForm inner
  | .conv w _ fold inner => (∀ v, fold = some v → v.length ≠ w) ∧ CutForm inner
  | .condOp .. => False
  | .other .. => True

/-- The same for all operands. -/
def CutFormOps : List SExpr → Prop
  | [] => True
  | e :: es => CutForm e ∧ CutFormOps es
end

/-- Some slice ends at `x`. -/
def EndsAt (l : List Slice) (x : Nat) : Prop := ∃ s ∈ l, s.hi = x

end Verif.Spec

namespace Verif.Props
open Verif.Model Verif.Spec Verif.Proofs

/-! ### Grid -/

theorem portCuts_mem {nodes : List PortNd} {W : Nat}
    (hb : ∀ n ∈ nodes, ∀ b, n.bounds = some b → b.1 ≤ b.2 ∧ b.2 < W) :
    0 ∈ portCuts nodes W ∧ W ∈ portCuts nodes W ∧ (∀ x ∈ portCuts nodes W, x ≤ W) ∧
      ∀ n ∈ nodes, ∀ b, n.bounds = some b → b.1 ∈ portCuts nodes W ∧ b.2 + 1 ∈ portCuts nodes W := by
  refine ⟨?_, ?_, ?_, ?_⟩
  · simp [portCuts, mem_sortUnique]
  · simp [portCuts, mem_sortUnique]
  · intro x hx
    simp only [portCuts, mem_sortUnique, List.mem_cons, List.mem_flatMap] at hx
    rcases hx with rfl | rfl | ⟨n, hn, hx⟩
    · omega
    · omega
    · cases hnb : n.bounds with
      | none => simp [hnb] at hx
      | some b =>
        have := hb n hn b hnb
        simp [hnb] at hx
        omega
  · intro n hn b hnb
    simp only [portCuts, mem_sortUnique, List.mem_cons, List.mem_flatMap]
    exact ⟨.inr (.inr ⟨n, hn, by simp [hnb]⟩), .inr (.inr ⟨n, hn, by simp [hnb]⟩)⟩

theorem map_tiled {f : Nat × Nat → List Src} (grid : List (Nat × Nat)) : ∀ {lo hi : Nat},
    PTile lo hi grid → Tiled lo hi (grid.map fun c => ⟨c.1, c.2, f c⟩) := by
  induction grid with
  | nil => intro lo hi h; simpa [Tiled, PTile] using h
  | cons a as ih => intro lo hi h; exact ⟨h.1, h.2.1, ih h.2.2⟩

/-- C45, slice list: for port nodes inside the port's width, the port's slices tile the width, and
each slice's sources are, for every bit of the slice, exactly the nodes covering that bit. -/
theorem port_slices_exact {nodes : List PortNd} {W : Nat}
    (hb : ∀ n ∈ nodes, ∀ b, n.bounds = some b → b.1 ≤ b.2 ∧ b.2 < W) :
    Tiled 0 W (buildPortSliceList nodes W) ∧
      ∀ s ∈ buildPortSliceList nodes W, ∀ k, s.lo ≤ k → k < s.hi → ∀ src,
        src ∈ s.sources ↔ ∃ n ∈ nodes, ∃ b, n.bounds = some b ∧ b.1 ≤ k ∧ k ≤ b.2 ∧
          src = .portNode n.id s.lo s.hi := by
  unfold buildPortSliceList
  split
  · rename_i h; subst h; exact ⟨rfl, by simp⟩
  · obtain ⟨h0, hW, hle, hmem⟩ := portCuts_mem hb
    have hs : (portCuts nodes W).Pairwise (· < ·) := sortUnique_strict _
    refine ⟨?_, ?_⟩
    · apply map_tiled
      cases hc : portCuts nodes W with
      | nil => rw [hc] at h0; simp at h0
      | cons a l =>
        have ha : a = 0 := by
          rw [hc] at h0 hs
          rcases List.mem_cons.1 h0 with h | h
          · exact h.symm
          · have := (List.pairwise_cons.1 hs).1 0 h; omega
        rw [hc] at hs hle hW
        subst ha
        exact pairs_tile l hs hle hW
    · intro s hs' k k1 k2 src
      obtain ⟨c, hc, rfl⟩ := List.mem_map.1 hs'
      obtain ⟨_, _, hlt, hgap⟩ := pairs_gap _ hs c hc
      simp only at k1 k2 ⊢
      simp only [portSources, List.mem_filterMap]
      constructor
      · rintro ⟨n, hn, h⟩
        cases hnb : n.bounds with
        | none => simp [hnb] at h
        | some b =>
          simp only [hnb] at h
          split at h
          · rename_i hcov
            cases h
            exact ⟨n, hn, b, hnb, by omega, by omega, rfl⟩
          · cases h
      · rintro ⟨n, hn, b, hnb, h1, h2, rfl⟩
        refine ⟨n, hn, ?_⟩
        have h3 := hgap _ (hmem n hn b hnb).1
        have h4 := hgap _ (hmem n hn b hnb).2
        simp only [hnb]
        rw [if_pos (by omega)]

/-- An inout port of 4 bits with one full-width node and two halves. -/
example : ∀ n ∈ [PortNd.mk 1 (some (0, 3)), ⟨2, some (0, 1)⟩, ⟨3, some (2, 3)⟩, ⟨4, none⟩], ∀ b,
    n.bounds = some b → b.1 ≤ b.2 ∧ b.2 < 4 := by
  simp

/-! ### C53 -/

/-- C53: for a connection whose actual has the port's width and only static selects, the bit-aligned
walk is taken; its segments tile the port; the port nodes driven (or driving) at bit `k` are exactly
those covering bit `k`; and they are connected to every signal bit routed to bit `k` of the actual —
exactly those when the actual has no narrowing conversion, pattern conditional or non-constant
replication. The same exclusions as for C27 apply. -/
theorem port_bits_partial {nodes : List PortNd} {W : Nat} (hW : 0 < W)
    (hb : ∀ n ∈ nodes, ∀ b, n.bounds = some b → b.1 ≤ b.2 ∧ b.2 < W) {actual : SExpr}
    (hwt : WT (fun _ => none) actual) (hw : W = actual.width) (hst : Static actual) :
    ∃ segs, handlePortConnection true true nodes W actual = .segments segs ∧ TiledSeg 0 W segs ∧
      ∀ seg ∈ segs, ∀ k, seg.lo ≤ k → k < seg.hi →
        (∀ n, n ∈ seg.portNodes ↔ ∃ nd ∈ nodes, nd.id = n ∧ ∃ b, nd.bounds = some b ∧
          b.1 ≤ k ∧ k ≤ b.2) ∧
        ∀ sym b, (Routes actual k sym b → ReadsBit seg k sym b) ∧
          (Aligned actual → ReadsBit seg k sym b → Routes actual k sym b) := by
  obtain ⟨tp, sp⟩ := port_slices_exact hb
  have hc : CutsOk (fun _ => none) := by intro s l h; cases h
  have ta := slices_tile true hc hwt
  rw [← hw] at ta
  obtain ⟨segs, h1, h2, h3⟩ := align_tiles tp ta
  refine ⟨segs, ?_, h2, ?_⟩
  · simp only [handlePortConnection, Bool.not_true, Bool.false_eq_true, if_false]
    rw [tiled_zero_width tp, tiled_zero_width ta, if_neg (by omega), if_neg (by simp), walkSegments,
      h1]
  · intro seg hseg k k1 k2
    obtain ⟨⟨s, hs, a1, a2, a3⟩, ⟨t, ht, b1, b2, b3⟩⟩ := h3 seg hseg
    obtain ⟨d1, d2⟩ := build_origins hc hwt t ht
    have hk : k < actual.width := by have := (tiled_mem tp s hs).2.2; omega
    have hread : ∀ sym b, ReadsBit seg k sym b ↔ ∃ o ∈ orig actual k, Gives o sym b := by
      intro sym b
      rw [← d2 k (by omega) (by omega)]
      have hok : ∀ x ∈ seg.rhs, SrcOk seg.lo seg.hi x := by
        rw [b3]; exact fun x hx => srcOk_mono (d1 x hx) b1 b2
      simp only [ReadsBit, List.mem_map]
      constructor
      · rintro ⟨x, hx, h⟩
        exact ⟨_, ⟨x, b3 ▸ hx, rfl⟩, (reads_origin (hok x hx) k1 k2).1 h⟩
      · rintro ⟨_, ⟨x, hx, rfl⟩, h⟩
        exact ⟨x, b3 ▸ hx, (reads_origin (hok x (b3 ▸ hx)) k1 k2).2 h⟩
    refine ⟨?_, ?_⟩
    · intro n
      have hsrc := sp s hs k (by omega) (by omega)
      simp only [Seg.portNodes, a3, List.mem_filterMap]
      constructor
      · rintro ⟨src, hm, h⟩
        obtain ⟨nd, hn, b, hnb, e1, e2, rfl⟩ := (hsrc src).1 hm
        simp only [Option.some.injEq] at h
        exact ⟨nd, hn, h, b, hnb, e1, e2⟩
      · rintro ⟨nd, hn, rfl, b, hnb, e1, e2⟩
        exact ⟨_, (hsrc _).2 ⟨nd, hn, b, hnb, e1, e2, rfl⟩, rfl⟩
    · intro sym b
      exact ⟨fun h => (hread sym b).2 (orig_sound _ actual hwt hst k sym b hk h),
        fun ha h => orig_exact _ actual hwt hst ha k sym b hk ((hread sym b).1 h)⟩

/-- The legacy walk is taken exactly when the bit-aligned one is disabled, a type is not integral, or
the actual's width differs from a non-zero port width; a zero-width port is skipped; the assertion
of `alignSegments` never fails. -/
theorem port_walk_choice {nodes : List PortNd} {W : Nat}
    (hb : ∀ n ∈ nodes, ∀ b, n.bounds = some b → b.1 ≤ b.2 ∧ b.2 < W) {actual : SExpr}
    (hwt : WT (fun _ => none) actual) (resolveBits integral : Bool) :
    (handlePortConnection resolveBits integral nodes W actual = .legacy ↔
      resolveBits = false ∨ integral = false ∨ (0 < W ∧ W ≠ actual.width)) ∧
    (handlePortConnection resolveBits integral nodes W actual = .nothing ↔
      resolveBits = true ∧ integral = true ∧ W = 0) ∧
    handlePortConnection resolveBits integral nodes W actual ≠ .assertFails := by
  obtain ⟨tp, _⟩ := port_slices_exact hb
  have hc : CutsOk (fun _ => none) := by intro s l h; cases h
  have ta := slices_tile true hc hwt
  unfold handlePortConnection
  simp only
  rw [tiled_zero_width tp, tiled_zero_width ta]
  cases resolveBits with
  | false => simp
  | true =>
    cases integral with
    | false => simp
    | true =>
      simp only [Bool.not_true, Bool.false_eq_true, if_false, false_or, true_and]
      by_cases h0 : W = 0
      · rw [if_pos h0]; simp [h0]
      · rw [if_neg h0]
        by_cases hw : W = actual.width
        · rw [if_neg (by simpa using hw)]
          rw [← hw] at ta
          obtain ⟨segs, h1, _⟩ := align_tiles tp ta
          simp only [walkSegments, h1]
          simp [hw]
          omega
        · rw [if_pos hw]
          simp [h0, hw]
          omega

/-- The hypotheses hold for `.p({a[3:2], {2{b}}, c ? d[1:0] : 2'b01})` on a 6-bit port with two
nodes. -/
example : (0 < 6) ∧ (∀ n ∈ [PortNd.mk 1 (some (0, 3)), ⟨2, some (4, 5)⟩], ∀ b,
    n.bounds = some b → b.1 ≤ b.2 ∧ b.2 < 6) ∧ WT (fun _ => none) sampleRhs ∧
      6 = sampleRhs.width ∧ Static sampleRhs ∧ Aligned sampleRhs := by
  refine ⟨by omega, by simp, ?_, rfl, ?_, ?_⟩ <;>
  simp [sampleRhs, WT, WTs, Static, StaticOps, Aligned, AlignedOps, SExpr.width, pathsList,
    CutReg.cutsFor]

/-! ### C54 -/

theorem endsAt_append {l r : List Slice} {x : Nat} :
    EndsAt (l ++ r) x ↔ EndsAt l x ∨ EndsAt r x := by
  simp only [EndsAt, List.mem_append]
  grind

theorem endsAt_bounds {l : List Slice} {lo hi x : Nat} (h : Tiled lo hi l) (hx : EndsAt l x) :
    lo < x ∧ x ≤ hi := by
  obtain ⟨s, hs, rfl⟩ := hx
  have := tiled_mem h s hs
  omega

theorem endsAt_last {l : List Slice} : ∀ {lo hi : Nat}, Tiled lo hi l → lo < hi → EndsAt l hi := by
  induction l with
  | nil => intro lo hi h hlt; simp only [Tiled] at h; omega
  | cons a as ih =>
    intro lo hi h hlt
    by_cases heq : a.hi = hi
    · exact ⟨a, by simp, heq⟩
    · have h3 := tiled_le h.2.2
      obtain ⟨s, hs, h4⟩ := ih h.2.2 (by omega)
      exact ⟨s, by simp [hs], h4⟩

theorem endsAt_emitLoop (base lo hi : Nat) (src : Src) (cs : List Nat) : ∀ prev x,
    EndsAt (emitLoop base lo hi src prev cs) x ↔
      x ∈ cs.map (fun c => base + (c - lo)) ∨ x = base + (hi - lo) := by
  induction cs with
  | nil => intro prev x; simp [emitLoop, EndsAt, eq_comm]
  | cons c cs ih =>
    intro prev x
    have := ih c x
    simp only [EndsAt] at this
    simp only [emitLoop, EndsAt, List.mem_cons, List.map_cons, exists_eq_or_imp, this]
    grind

theorem pos_width : ∀ e : SExpr, Pos e → 0 < e.width := by
  intro e h
  cases e <;> simp only [Pos] at h <;> simp only [SExpr.width] <;> omega

theorem pushOpaque_pos (out : List Slice) {e : SExpr} (h : 0 < e.width) :
    pushOpaque out e = out ++ [⟨listWidth out, listWidth out + e.width, [.opaque e]⟩] := by
  unfold pushOpaque
  rw [if_neg (by omega)]

/-- What one expression's cuts are, relative to the slices it appends. -/
def CutsMatch (reg : CutReg) (e : SExpr) (out blk : List Slice) : Prop :=
  buildInto reg out e = out ++ blk ∧ Tiled (listWidth out) (listWidth out + e.width) blk ∧
    ∀ x, x ∈ collectActualCuts reg (listWidth out) e ↔
      EndsAt blk x ∧ x ≠ listWidth out + e.width

mutual
theorem cuts_match {reg : CutReg} (hc : CutsOk reg) : ∀ (e : SExpr), WT reg e → Pos e → CutForm e →
    ∀ out, ∃ blk, CutsMatch reg e out blk
  | .lsp w p sels, hw, hp, hf, out => by
    obtain ⟨blk, h1, h2⟩ := buildInto_good reg hc _ hw out
    refine ⟨blk, h1, h2.1, ?_⟩
    have hsel := h1
    simp only [Pos] at hp
    simp only [collectActualCuts, SExpr.width]
    simp only [buildInto, pushLsp] at h1
    rw [if_neg (by omega)] at h1
    have single : ∀ x, x ∈ ([] : List Nat) ↔
        EndsAt [⟨listWidth out, listWidth out + w, [.lsp p (listWidth out) (listWidth out + w)]⟩] x ∧
          x ≠ listWidth out + w := by
      intro x; simp [EndsAt, eq_comm]
    cases hroot : p.root with
    | none =>
      simp only [hroot] at h1
      rw [← List.append_cancel_left h1]; simpa only [lspCuts, hroot] using single
    | some sym =>
      simp only [hroot] at h1
      cases hcut : reg.cutsFor sym with
      | none =>
        simp only [hcut] at h1
        rw [← List.append_cancel_left h1]; simpa only [lspCuts, hroot, hcut] using single
      | some hints =>
        simp only [hcut] at h1
        simp only [lspCuts, hroot, hcut]
        have hin : ∀ c ∈ hintsOf hints p, p.lo < c ∧ c < p.hi + 1 := by
          intro c hcm
          rw [hintsOf_exact (hc sym hints hcut)] at hcm
          simpa using (List.mem_filter.1 hcm).2
        cases hh : hintsOf hints p with
        | nil =>
          simp only [hh] at h1
          rw [← List.append_cancel_left h1]; simpa only [List.map_nil] using single
        | cons c cs =>
          simp only [hh] at h1
          rw [← List.append_cancel_left h1]
          intro x
          rw [hh] at hin
          rw [endsAt_emitLoop]
          have hend : listWidth out + (p.hi + 1 - p.lo) = listWidth out + w := by
            simp only [LspPath.hi]; omega
          rw [hend]
          constructor
          · intro hx
            refine ⟨.inl hx, ?_⟩
            obtain ⟨c', hc', rfl⟩ := List.mem_map.1 hx
            have := hin c' hc'
            simp only [LspPath.hi] at this
            omega
          · rintro ⟨hx | hx, hne⟩
            · exact hx
            · exact absurd hx hne
  | .concat w ops, hw, hp, hf, out => by
    simp only [WT] at hw
    simp only [Pos] at hp
    simp only [CutForm] at hf
    obtain ⟨blk, h1, h2, h3, h4⟩ := cuts_match_ops hc ops hw.2 hp.2 hf out w (by omega)
    refine ⟨blk, by simpa only [buildInto] using h1, ?_, ?_⟩
    · simp only [SExpr.width, hw.1]; exact h2
    · simpa only [collectActualCuts, SExpr.width] using h4
  | .repl w none inner, hw, hp, hf, out => by
    obtain ⟨blk, h1, h2⟩ := buildInto_good reg hc _ hw out
    refine ⟨blk, h1, h2.1, ?_⟩
    simp only [Pos] at hp
    rw [buildInto, pushOpaque_pos out (e := .repl w none inner) hp.1] at h1
    rw [← List.append_cancel_left h1]
    intro x
    simp [collectActualCuts, EndsAt, SExpr.width, eq_comm]
  | .repl w (some c) inner, hw, hp, hf, out => by
    simp only [WT] at hw
    simp only [Pos] at hp
    simp only [CutForm] at hf
    have ih := cuts_match hc inner hw.2 hp.2 hf
    have hpos := pos_width inner hp.2
    have key : ∀ (n i : Nat) (base : Nat) (o : List Slice), listWidth o = base + i * inner.width →
        (i + n) * inner.width = w →
        ∃ blk, iterate (fun o => buildInto reg o inner) n o = o ++ blk ∧
          Tiled (listWidth o) (base + w) blk ∧
          ∀ x, x ∈ replCuts (fun b => collectActualCuts reg b inner) base inner.width w i n ↔
            EndsAt blk x ∧ x ≠ base + w := by
      intro n
      induction n with
      | zero =>
        intro i base o h1 h2
        refine ⟨[], by simp [iterate], ?_, by simp [replCuts, EndsAt]⟩
        simp only [Tiled]
        rw [h1]; rw [Nat.add_zero] at h2; omega
      | succ n ihn =>
        intro i base o h1 h2
        obtain ⟨b1, c1, c2, c3⟩ := ih o
        have hw1 : listWidth (o ++ b1) = base + (i + 1) * inner.width := by
          rw [listWidth_append c2, h1, Nat.add_mul]; omega
        obtain ⟨b2, d1, d2, d3⟩ := ihn (i + 1) base (o ++ b1) hw1 (by rw [← h2]; congr 1; omega)
        refine ⟨b1 ++ b2, ?_, ?_, ?_⟩
        · simp only [iterate, c1, d1, List.append_assoc]
        · refine tiled_append c2 ?_
          rw [← listWidth_append c2]; exact d2
        · intro x
          have e3 := c3 x
          rw [h1] at e3
          have hb : base + i * inner.width + inner.width = base + (i + 1) * inner.width := by
            rw [Nat.add_mul]; omega
          rw [hb] at e3
          have hle : base + (i + 1) * inner.width ≤ base + w := by
            have := tiled_le d2; omega
          have hlast : EndsAt b1 (base + (i + 1) * inner.width) := by
            have := endsAt_last c2 (by omega)
            rw [h1, hb] at this; exact this
          have hbd : EndsAt b1 x → x ≤ base + (i + 1) * inner.width := by
            intro h
            have := endsAt_bounds c2 h
            rw [h1, hb] at this; exact this.2
          simp only [replCuts, List.mem_append, e3, d3 x, endsAt_append]
          by_cases hxe : x = base + (i + 1) * inner.width
          · subst hxe
            by_cases hne : base + (i + 1) * inner.width ≠ base + w
            · rw [if_pos hne]; simp only [hlast, List.mem_singleton]; grind
            · rw [if_neg hne]; simp at hne; simp [hne]
          · have : x ∉ (if base + (i + 1) * inner.width ≠ base + w
                then [base + (i + 1) * inner.width] else []) := by
              split <;> simp [hxe]
            constructor
            · rintro ((⟨h, _⟩ | h) | ⟨h, h'⟩)
              · exact ⟨.inl h, by have := hbd h; omega⟩
              · exact absurd h this
              · exact ⟨.inr h, h'⟩
            · rintro ⟨h | h, h'⟩
              · exact .inl (.inl ⟨h, hxe⟩)
              · exact .inr ⟨h, h'⟩
    obtain ⟨blk, k1, k2, k3⟩ := key c.toNat 0 (listWidth out) out (by omega) (by rw [hw.1]; simp)
    refine ⟨blk, by simpa only [buildInto] using k1, k2, ?_⟩
    simpa only [collectActualCuts, SExpr.width] using k3
  | .conv w se fold inner, hw, hp, hf, out => by
    simp only [WT] at hw
    simp only [Pos] at hp
    simp only [CutForm] at hf
    have hfold : ¬ fold.any (fun v => v.length == w) = true := by
      rw [fold_any]; rintro ⟨v, h1, h2⟩; exact hf.1 v h1 h2
    obtain ⟨b1, c1, c2, c3⟩ := cuts_match hc inner hw hp.2 hf.2 out
    have hpos := pos_width inner hp.2
    rcases Nat.lt_trichotomy w inner.width with hlt | heq | hgt
    · refine ⟨[⟨listWidth out, listWidth out + w, [.opaque (.conv w se fold inner)]⟩], ?_, ?_, ?_⟩
      · simp only [buildInto, if_neg hfold, if_neg (show ¬ w = inner.width by omega),
          if_neg (show ¬ w > inner.width by omega)]
        exact pushOpaque_pos out (e := .conv w se fold inner) hp.1
      · exact ⟨rfl, by show listWidth out < listWidth out + w; omega, rfl⟩
      · intro x
        simp only [collectActualCuts, if_neg (show ¬ w = inner.width by omega),
          if_neg (show ¬ w > inner.width by omega)]
        simp [EndsAt, SExpr.width, eq_comm]
    · refine ⟨b1, ?_, ?_, ?_⟩
      · simp only [buildInto, if_neg hfold, if_pos heq]; exact c1
      · show Tiled _ (listWidth out + w) _
        rw [heq]; exact c2
      · intro x
        simp only [collectActualCuts, if_pos heq]
        show _ ↔ _ ∧ x ≠ listWidth out + w
        rw [heq]; exact c3 x
    · have hmid := listWidth_append c2
      refine ⟨b1 ++ [⟨listWidth out + inner.width, listWidth out + inner.width + (w - inner.width),
        [padSource se (listWidth out + inner.width) (w - inner.width)]⟩], ?_, ?_, ?_⟩
      · simp only [buildInto, if_neg hfold, if_neg (show ¬ w = inner.width by omega),
          if_pos hgt, c1, hmid, List.append_assoc]
      · refine tiled_append c2 ⟨rfl, ?_, ?_⟩
        · show listWidth out + inner.width < listWidth out + inner.width + (w - inner.width); omega
        · show listWidth out + inner.width + (w - inner.width) = listWidth out + w; omega
      · intro x
        simp only [collectActualCuts, if_neg (show ¬ w = inner.width by omega), if_pos hgt,
          List.mem_append, c3 x, List.mem_singleton, endsAt_append]
        have hlast := endsAt_last c2 (by omega)
        have hbd : EndsAt b1 x → _ := endsAt_bounds c2
        have hpad : EndsAt [⟨listWidth out + inner.width,
            listWidth out + inner.width + (w - inner.width),
            [padSource se (listWidth out + inner.width) (w - inner.width)]⟩] x ↔
            x = listWidth out + w := by
          simp only [EndsAt, List.mem_singleton, exists_eq_left]
          omega
        rw [hpad]
        show _ ↔ _ ∧ x ≠ listWidth out + w
        constructor
        · rintro (⟨h, h'⟩ | rfl)
          · exact ⟨.inl h, by have := hbd h; omega⟩
          · exact ⟨.inl hlast, by omega⟩
        · rintro ⟨h | h, h'⟩
          · by_cases he : x = listWidth out + inner.width
            · exact .inr he
            · exact .inl ⟨h, he⟩
          · exact absurd h h'
  | .condOp .., _, _, hf, _ => by simp [CutForm] at hf
  | .other w fold reads, hw, hp, hf, out => by
    obtain ⟨blk, h1, h2⟩ := buildInto_good reg hc _ hw out
    refine ⟨blk, h1, h2.1, ?_⟩
    simp only [Pos] at hp
    intro x
    simp only [collectActualCuts, SExpr.width]
    rw [buildInto, pushOpaque_pos out (e := .other w fold reads) hp, pushConstant,
      if_neg (show ¬ w = 0 by omega)] at h1
    split at h1
    · rw [← List.append_cancel_left h1]; simp [EndsAt, SExpr.width, eq_comm]
    · rw [← List.append_cancel_left h1]; simp [EndsAt, SExpr.width, eq_comm]

theorem cuts_match_ops {reg : CutReg} (hc : CutsOk reg) : ∀ (es : List SExpr), WTs reg es →
    PosOps es → CutFormOps es → ∀ out W, (es.map SExpr.width).sum ≤ W →
      ∃ blk, buildOps reg out es = out ++ blk ∧
        Tiled (listWidth out) (listWidth out + (es.map SExpr.width).sum) blk ∧
        (collectOps reg (listWidth out) W es).2 = listWidth out + (es.map SExpr.width).sum ∧
        ∀ x, x ∈ (collectOps reg (listWidth out) W es).1 ↔ EndsAt blk x ∧ x ≠ listWidth out + W
  | [], _, _, _, out, W, _ => ⟨[], by simp [buildOps], rfl, rfl, by simp [collectOps, EndsAt]⟩
  | e :: es, hw, hp, hf, out, W, hle => by
    simp only [WTs] at hw
    simp only [PosOps] at hp
    simp only [CutFormOps] at hf
    simp only [List.map_cons, List.sum_cons] at hle
    obtain ⟨b1, c1, c2, c3, c4⟩ := cuts_match_ops hc es hw.2 hp.2 hf.2 out W (by omega)
    have hm := listWidth_append c2
    obtain ⟨b2, d1, d2, d3⟩ := cuts_match hc e hw.1 hp.1 hf.1 (out ++ b1)
    rw [hm] at d2 d3
    have hpos := pos_width e hp.1
    refine ⟨b1 ++ b2, ?_, ?_, ?_, ?_⟩
    · simp only [buildOps, c1, d1, List.append_assoc]
    · refine tiled_append c2 ?_
      have : listWidth out + ((e :: es).map SExpr.width).sum =
          listWidth out + (es.map SExpr.width).sum + e.width := by
        simp only [List.map_cons, List.sum_cons]; omega
      rw [this]; exact d2
    · simp only [collectOps, c3, List.map_cons, List.sum_cons]; omega
    · intro x
      simp only [collectOps, c3, List.mem_append, c4 x, d3 x, endsAt_append]
      have hlast := endsAt_last d2 (by omega)
      have hbd : EndsAt b2 x → _ := endsAt_bounds d2
      constructor
      · rintro ((h | ⟨h, h'⟩) | h)
        · exact ⟨.inl h.1, h.2⟩
        · exact ⟨.inr h, by have := hbd h; omega⟩
        · split at h
          · simp only [List.mem_singleton] at h
            subst h
            exact ⟨.inr hlast, by assumption⟩
          · simp at h
      · rintro ⟨h | h, h'⟩
        · exact .inl (.inl ⟨h, h'⟩)
        · by_cases he : x = listWidth out + (es.map SExpr.width).sum + e.width
          · right
            rw [if_pos (by omega)]
            simp [he]
          · exact .inl (.inr ⟨h, he⟩)
end

/-- C54: for an actual with no conditional, no folded conversion and no zero-width part, the cuts
recorded are exactly the interior slice boundaries of its decomposition under the current registry.
-/
theorem actual_cuts_exact_partial {reg : CutReg} (hc : CutsOk reg) {e : SExpr} (hw : WT reg e)
    (hp : Pos e) (hf : CutForm e) (x : Nat) :
    x ∈ collectActualCuts reg 0 e ↔ 0 < x ∧ x < e.width ∧ ∃ s ∈ build true reg e, s.hi = x := by
  obtain ⟨blk, h1, h2, h3⟩ := cuts_match hc e hw hp hf []
  have hz : listWidth ([] : List Slice) = 0 := rfl
  rw [hz] at h2 h3
  simp only [Nat.zero_add, List.nil_append] at h1 h2 h3
  simp only [build, Bool.not_true, Bool.false_eq_true, if_false, h1]
  rw [h3 x]
  constructor
  · rintro ⟨h, h'⟩
    have := endsAt_bounds h2 h
    exact ⟨by omega, by omega, h⟩
  · rintro ⟨_, h, h'⟩
    exact ⟨h', by omega⟩

/-- `{x, {2{y}}, 4'(z)}` with a cut at bit 1 of the 3-bit `x`. -/
example : let reg : CutReg := fun s => if s = 1 then some [1] else none
    let e : SExpr := .concat 9 [.lsp 3 ⟨some 1, 0, 2⟩ [], .repl 2 (some 2) (.lsp 1 ⟨some 2, 0, 0⟩ []),
      .conv 4 false none (.lsp 2 ⟨some 3, 0, 1⟩ [])]
    CutsOk reg ∧ WT reg e ∧ Pos e ∧ CutForm e ∧ collectActualCuts reg 0 e = [2, 4, 5, 6, 7] := by
  refine ⟨?_, ?_, ?_, ?_, by decide⟩
  · intro sym l h
    simp only at h
    split at h
    · cases h; simp
    · cases h
  all_goals simp [WT, WTs, Pos, PosOps, CutForm, CutFormOps, SExpr.width]

/-- Zero-width parts cannot be dropped: for `{a, {0{b}}}` the comment's "endpoints are excluded" does
not hold, a cut at 0 is recorded. -/
theorem zero_width_records_endpoint :
    collectActualCuts (fun _ => none) 0
      (.concat 4 [.lsp 4 ⟨some 1, 0, 3⟩ [], .repl 0 (some 0) (.lsp 1 ⟨some 2, 0, 0⟩ [])]) = [0] := by
  decide

/-- Conditionals cannot be dropped: the two arms of `c ? {a, b} : d` are decomposed with a boundary at
1, which is not recorded as a cut. -/
theorem conditional_records_no_cut :
    let e : SExpr := .condOp 2 1 false [] (.lsp 1 ⟨some 1, 0, 0⟩ [])
      (.concat 2 [.lsp 1 ⟨some 2, 0, 0⟩ [], .lsp 1 ⟨some 3, 0, 0⟩ []]) (.lsp 2 ⟨some 4, 0, 1⟩ [])
    collectActualCuts (fun _ => none) 0 e = [] ∧
      ∃ s ∈ build true (fun _ => none) e, s.hi = 1 := by
  refine ⟨by decide, ?_⟩
  simp [build, buildInto, buildOps, pushLsp, CutReg.cutsFor, listWidth, collectCuts, mergeCuts,
    sortUnique, pairs, uniqueAdj, SExpr.width, sourcesAt, findSlice, sortAsc, insertAsc, unify]

end Verif.Props
