import Verif.Proofs.SoundNet
import Verif.Proofs.Traverse

/-! An operand of an actual that no port node divides is read as a whole. -/
namespace Verif.Proofs
open Verif.Spec Verif.Model Verif.Props

theorem none_sorted : ∀ sym l, (fun _ => none : CutReg) sym = some l → l.Pairwise (· < ·) := by
  intro s l h; cases h

theorem wts_mem {cuts : CutReg} : ∀ {es : List SExpr}, WTs cuts es → ∀ e ∈ es, WT cuts e
  | [], _, e, he => by cases he
  | a :: as, h, e, he => by
    simp only [WTs] at h
    rcases List.mem_cons.1 he with rfl | he
    · exact h.1
    · exact wts_mem h.2 e he

/-- The slice of an operand. -/
theorem operand_slice {e : SExpr} {off : Nat} {p : LspPath} (h : Operand e off p) : WT (fun _ => none) e → ∀ out,
    (⟨listWidth out + off, listWidth out + off + (p.extra + 1),
      [.lsp p (listWidth out + off) (listWidth out + off + (p.extra + 1))]⟩ : Slice) ∈ buildInto (fun _ => none) out e := by
  induction h with
  | @path p =>
    intro _ out
    simp only [buildInto, pushLsp, Nat.add_zero]
    rw [if_neg (by omega)]
    cases p.root with
    | none => simp
    | some y => simp [CutReg.cutsFor]
  | @part w pre post e off p h ih =>
    intro hw out
    simp only [WT] at hw
    have hws := hw.2
    simp only [buildInto]
    have he := ih (wts_mem hws e (by simp))
    clear hw ih h
    induction pre with
    | nil =>
      simp only [List.nil_append, WTs] at hws
      obtain ⟨blk, h1, h2⟩ := buildOps_good _ none_sorted post hws.2 out
      have hlw : listWidth (buildOps (fun _ => none) out post) = listWidth out + (post.map SExpr.width).sum := by
        rw [h1]; exact listWidth_append h2.1
      have := he (buildOps (fun _ => none) out post)
      rw [hlw] at this
      simp only [List.nil_append, buildOps, ← Nat.add_assoc]
      exact this
    | cons a as ih =>
      simp only [List.cons_append, WTs] at hws
      simp only [List.cons_append, buildOps]
      obtain ⟨blk, h1, _⟩ := buildInto_good _ none_sorted a hws.1 (buildOps (fun _ => none) out (as ++ e :: post))
      rw [h1]
      exact List.mem_append_left _ (ih hws.2)

theorem tiled_apart {l : List Slice} : ∀ {lo hi : Nat}, Tiled lo hi l → ∀ s ∈ l, ∀ t ∈ l, ∀ k, s.lo ≤ k → k < s.hi →
    t.lo ≤ k → k < t.hi → s = t := by
  induction l with
  | nil => intro lo hi _ s hs; cases hs
  | cons a as ih =>
    intro lo hi h s hs t ht k h1 h2 h3 h4
    have hm := fun u hu => tiled_mem h.2.2 u hu
    rcases List.mem_cons.1 hs with e1 | hs' <;> rcases List.mem_cons.1 ht with e2 | ht'
    · rw [e1, e2]
    · have := (hm t ht').1; subst e1; omega
    · have := (hm s hs').1; subst e2; omega
    · exact ih h.2.2 s hs' t ht' k h1 h2 h3 h4

theorem tiledSeg_find {segs : List Seg} : ∀ {lo hi k : Nat}, TiledSeg lo hi segs → lo ≤ k → k < hi →
    ∃ g ∈ segs, g.lo ≤ k ∧ k < g.hi := by
  induction segs with
  | nil => intro lo hi k h h1 h2; simp only [TiledSeg] at h; omega
  | cons a as ih =>
    intro lo hi k h h1 h2
    by_cases hk : k < a.hi
    · exact ⟨a, List.mem_cons_self, by have := h.1; omega, hk⟩
    · obtain ⟨g, hg, h3⟩ := ih h.2.2 (by omega) h2
      exact ⟨g, List.mem_cons_of_mem _ hg, h3⟩

/-- The segment of an operand that no node of the port divides. -/
theorem operand_segment {nodes : List PortNd} {W : Nat} {actual : SExpr} (bits integral : Bool)
    (hb : ∀ n ∈ nodes, ∀ b, n.bounds = some b → b.1 ≤ b.2 ∧ b.2 < W) (hwt : WT (fun _ => none) actual)
    {segs : List Seg} (h : handlePortConnection bits integral nodes W actual = .segments segs) {off : Nat} {p : LspPath}
    (ho : Operand actual off p)
    (hn : ∀ n ∈ nodes, ∀ b, n.bounds = some b → ¬ (off < b.1 ∧ b.1 ≤ off + p.extra) ∧ ¬ (off ≤ b.2 ∧ b.2 < off + p.extra)) :
    ∃ g ∈ segs, g.lo = off ∧ g.hi = off + (p.extra + 1) ∧ g.rhs = [.lsp p off (off + (p.extra + 1))] ∧
      ∀ n ∈ nodes, ∀ b, n.bounds = some b → b.1 ≤ off → off ≤ b.2 → n.id ∈ g.portNodes := by
  obtain ⟨tp, sp⟩ := port_slices_exact hb
  have hc : CutsOk (fun _ => none) := by intro s l h; cases h
  have ta := slices_tile true hc hwt
  unfold handlePortConnection at h
  split at h
  · cases h
  split at h
  · cases h
  dsimp only at h
  split at h
  · cases h
  split at h
  · cases h
  rename_i hw
  rw [tiled_zero_width tp, tiled_zero_width ta] at hw
  have hw : W = actual.width := Classical.byContradiction hw
  rw [← hw] at ta
  obtain ⟨segs', h1, h2, h3⟩ := align_tiles tp ta
  rw [walkSegments, h1] at h
  cases h
  have hsl : (⟨off, off + (p.extra + 1), [.lsp p off (off + (p.extra + 1))]⟩ : Slice) ∈ build true (fun _ => none) actual := by
    have := operand_slice ho hwt []
    have hz : listWidth ([] : List Slice) = 0 := rfl
    rw [hz, Nat.zero_add] at this
    simpa [build] using this
  have hin := tiled_mem ta _ hsl
  obtain ⟨g, hg, g1, g2⟩ := tiledSeg_find h2 (Nat.zero_le off) (by dsimp only at hin; omega)
  obtain ⟨⟨s, hs, a1, a2, a3⟩, ⟨t, ht, b1, b2, b3⟩⟩ := h3 g hg
  have hte : t = _ := tiled_apart ta t ht _ hsl off (by omega) (by omega) (Nat.le_refl _) (by dsimp only; omega)
  subst hte
  dsimp only at b1 b2 b3
  have hlo : g.lo = off := by omega
  refine ⟨g, hg, hlo, ?_, b3, ?_⟩
  · refine Classical.byContradiction fun hne => ?_
    -- the end of the segment is a boundary of either list
    have hend : g.hi ∈ mergeCuts (collectCuts (buildPortSliceList nodes W)) (collectCuts (build true (fun _ => none) actual)) := by
      unfold alignSegments at h1
      split at h1
      · cases h1
      · cases h1
        obtain ⟨c, hc', rfl⟩ := List.mem_map.1 hg
        exact (pairs_gap _ (sortUnique_strict _) c hc').2.1
    rw [mergeCuts, mem_sortUnique, List.mem_append] at hend
    rcases hend with hend | hend
    · simp only [collectCuts, List.mem_cons, List.mem_map] at hend
      rcases hend with hend | ⟨u, hu, hend⟩
      · omega
      · unfold buildPortSliceList at hu
        split at hu
        · cases hu
        · obtain ⟨c, hc', rfl⟩ := List.mem_map.1 hu
          have hm := (pairs_gap _ (sortUnique_strict _) c hc').2.1
          dsimp only at hend
          simp only [portCuts, mem_sortUnique, List.mem_cons, List.mem_flatMap] at hm
          dsimp only at hin
          rcases hm with hm | hm | ⟨n, hnn, hm⟩
          · omega
          · omega
          · cases hnb : n.bounds with
            | none => simp [hnb] at hm
            | some b =>
              simp only [hnb, List.mem_cons, List.not_mem_nil, or_false] at hm
              have := hn n hnn b hnb
              omega
    · simp only [collectCuts, List.mem_cons, List.mem_map] at hend
      rcases hend with hend | ⟨u, hu, hend⟩
      · omega
      · have hum := tiled_mem ta u hu
        have hul : u.lo < u.hi := by omega
        have := tiled_apart ta u hu _ hsl (u.hi - 1) (by omega) (by omega) (by dsimp only; omega) (by dsimp only; omega)
        subst this
        dsimp only at hend
        omega
  · intro n hnn b hnb k1 k2
    have hsrc := (sp s hs off (by omega) (by omega) (.portNode n.id s.lo s.hi)).2 ⟨n, hnn, b, hnb, k1, k2, rfl⟩
    simp only [Seg.portNodes, a3, List.mem_filterMap]
    exact ⟨_, hsrc, rfl⟩

end Verif.Proofs
