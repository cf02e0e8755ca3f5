import Verif.Props.Schedule
import Verif.Proofs.ScheduleDesign
import Verif.Props.Build

/-! C94 for designs: the conditions said of the writes in the blocks. -/
namespace Verif.Props
open Verif.Model Verif.Spec Verif.Proofs

theorem range_bit (b : BitRange) : InRng b b.left := by
  unfold InRng
  omega

theorem differ_of_apart {a b : BitRange} (h : NoCommonBit a b) : BitsDiffer a b :=
  ⟨a.left, fun e => h _ (range_bit a) (e.1 (range_bit a))⟩

/-- The operations of blocks that share no bit meet in nothing whose order matters. -/
theorem oneWriter_separate {D : Design} {s : Bld} {hist : List (Nat × Rec)} {bs : List Deferred}
    {as : Nat → List BAct} (hs : Begun s hist) (hd : OneWriter D hist bs)
    (ha : ∀ (w : Nat) b, bs[w]? = some b → Does D b (as w)) (hr : ∀ w, bs.length ≤ w → as w = []) :
    Separate D s as := by
  have hblk : ∀ w a, a ∈ as w → ∃ b, bs[w]? = some b ∧ Does D b (as w) := by
    intro w a h
    by_cases hw : w < bs.length
    · exact ⟨bs[w], List.getElem?_eq_getElem hw, ha w _ (List.getElem?_eq_getElem hw)⟩
    · rw [hr w (by omega)] at h
      cases h
  have hapart : ∀ w v a c sym x y, w ≠ v → a ∈ as w → c ∈ as v → OnRange sym x a → OnRange sym y c →
      NoCommonBit x y := by
    intro w v a c sym x y hne h1 h2 h3 h4 p hx hy
    obtain ⟨b, hb, db⟩ := hblk w a h1
    obtain ⟨b', hb', db'⟩ := hblk v c h2
    obtain ⟨u, hu, e1, hu'⟩ := db.covered a h1 sym x h3 p hx
    obtain ⟨u', hw', e2, hw''⟩ := db'.covered c h2 sym y h4 p hy
    exact hd.blocks w v b b' hne hb hb' u hu u' hw' (e1.trans e2.symm) p hu' hw''
  have hnoreg : ∀ z, Unwritten bs z → NoReg as z := by
    intro z hz w b i h
    obtain ⟨d, hb, db⟩ := hblk w _ h
    obtain ⟨u, hu, e, _⟩ := db.covered _ h z b (.reg _) _ (range_bit b)
    exact hz d (List.mem_of_getElem? hb) u hu e
  refine ⟨?_, ?_, ?_, ?_, ?_, ?_, ?_, ?_, ?_⟩
  · intro w r b a h v hv
    obtain ⟨d, hb, db⟩ := hblk w _ h
    exact hnoreg _ (hd.modports r.sym (db.mread r b a h) r.lsp v hv)
  · intro w sym b l h hk d _ v hv
    exact hnoreg _ (hd.modports sym hk d.lsp v hv)
  · intro w sym b l h _ v c i hne hc
    exact differ_of_apart (hapart w v _ _ sym b c (fun e => hne e.symm) h hc (.extra l) (.reg _))
  · intro w sym b l z h hz
    exact hnoreg z (hd.ports sym z hz)
  · intro w v sym b c i j h1 h2 hne
    exact differ_of_apart (hapart w v _ _ sym b c hne h1 h2 (.reg _) (.reg _))
  · intro w
    by_cases hw : w < bs.length
    · exact (ha w _ (List.getElem?_eq_getElem hw)).own
    · rw [hr w (by omega)]
      exact List.Pairwise.nil
  · rintro w v hne a h1 b h2 sym x l y m rfl rfl
    exact hapart w v _ _ sym x y hne h1 h2 (.drive l) (.drive m)
  · intro w sym b l h
    obtain ⟨out, h1, _, h3⟩ := (begun_view hs).intervals sym b
    rw [h1]
    congr 1
    refine List.eq_nil_iff_forall_not_mem.2 fun x hx => ?_
    obtain ⟨⟨i, m, h4, h5, e, he, hb, hl⟩, h6, h7⟩ := (h3 x.1 x.2).1 hx
    obtain ⟨m', h8, h9⟩ := (begun_tracks hs).some_ _ h4
    rw [h5] at h8
    cases h8
    obtain ⟨pre, r, post, g1, g2, g3, _⟩ := h9.sub e he
    have hle := h9.inv.ok.1 e he
    have hmem : (sym, r) ∈ hist := by
      have : r ∈ histOf hist sym := by rw [g1]; simp
      obtain ⟨z, hz, rfl⟩ := List.mem_map.1 this
      obtain ⟨hz', ez⟩ := List.mem_filter.1 hz
      obtain rfl : z.1 = sym := eq_of_beq ez
      exact hz'
    rw [hb] at h6 h7
    have hex : ∃ p, e.lo ≤ p ∧ p ≤ e.hi ∧ b.lower ≤ p ∧ p ≤ b.upper := by
      have : b.lower ≤ b.upper := by unfold BitRange.lower BitRange.upper; omega
      simp only [BitRange.lower, BitRange.upper] at h6 h7 this ⊢
      by_cases hc : e.lo ≤ min b.left b.right
      · exact ⟨min b.left b.right, by omega⟩
      · exact ⟨e.lo, by omega⟩
    obtain ⟨p, p1, p2, p3, p4⟩ := hex
    obtain ⟨d, hb', db⟩ := hblk w _ h
    obtain ⟨u, hu, eu, hp⟩ := db.covered _ h sym b (.drive l) p ((inRng_iff _ _).2 ⟨p3, p4⟩)
    exact hd.before _ hmem d (List.mem_of_getElem? hb') u hu eu.symm p ((inRng_iff _ _).2 (by
      dsimp only
      omega)) hp
  · intro w sym b l h i hi
    obtain ⟨d, hb', db⟩ := hblk w _ h
    obtain ⟨u, hu, _, hp⟩ := db.covered _ h sym b (.drive l) i hi
    have := (hd.plain d (List.mem_of_getElem? hb')).rng u hu
    rw [inRng_iff] at hp
    omega

theorem scripts_tame {D : Design} {ord : Tracker → List (Nat × Nat)} {bs : List Deferred} (hv : Visits ord)
    (hp : ∀ b ∈ bs, Plain (allWrites b.stmt)) :
    ∃ as, ScriptsOf D ord bs as ∧ (∀ (w : Nat) b, bs[w]? = some b → Does D b (as w)) ∧ ∀ w, Tame [] (as w) := by
  have hex : ∀ w : Nat, ∃ as, (∀ b, bs[w]? = some b → Scripted D ord b as ∧ Does D b as) ∧ Tame [] as := by
    intro w
    cases h : bs[w]? with
    | none => exact ⟨[], (fun b e => by cases e), trivial⟩
    | some b =>
      obtain ⟨as, h1, h2, h3⟩ := block_does (D := D) hv (hp b (List.mem_of_getElem? h))
      refine ⟨as, fun b' e => ?_, h3⟩
      cases e
      exact ⟨h1, h2⟩
  refine ⟨fun w => if w < bs.length then Classical.choose (hex w) else [], ⟨?_, ?_⟩, ?_, ?_⟩
  · intro w b hb
    rw [if_pos (List.getElem?_eq_some_iff.1 hb).1]
    exact ((Classical.choose_spec (hex w)).1 b hb).1
  · intro w hw
    exact if_neg (by omega)
  · intro w b hb
    dsimp only
    rw [if_pos (List.getElem?_eq_some_iff.1 hb).1]
    exact ((Classical.choose_spec (hex w)).1 b hb).2
  · intro w
    dsimp only
    split
    · exact (Classical.choose_spec (hex w)).2
    · trivial

theorem oneWriter_scripts {D : Design} {ord : Tracker → List (Nat × Nat)} {s : Bld} {hist : List (Nat × Rec)}
    {bs : List Deferred} (hs : Begun s hist) (hv : Visits ord) (hd : OneWriter D hist bs) :
    ∃ as, ScriptsOf D ord bs as ∧ Separate D s as := by
  obtain ⟨as, h1, h2, _⟩ := scripts_tame (D := D) hv hd.plain
  exact ⟨as, h1, oneWriter_separate hs hd h2 h1.rest⟩

/-- C94, said of the writes in the blocks: if no bit is written in two blocks, nor in a block and by a port
recorded in Phase 1, then the tasks of the parallel Phase 2, in whatever order they do their operations, give
the netlist of the sequential build up to the names of the new nodes, and fail exactly if that fails.

Partial: the writes inside each block are aligned (`Plain`), and the operations of the tasks are steps that are
not interrupted. -/
theorem parallel_blocks_partial {D : Design} {ord : Tracker → List (Nat × Nat)} {s : Bld}
    {hist : List (Nat × Rec)} {bs : List Deferred} (hs : Begun s hist) (hv : Visits ord)
    (hd : OneWriter D hist bs) : ∃ as, ScriptsOf D ord bs as ∧ ∀ l, ScheduleOf as l →
      (∀ e, s.runBlocks D ord bs = .error e → ∃ e', s.tasks D (fun _ => []) (fun _ => []) l = .error e') ∧
      ∀ s1, s.runBlocks D ord bs = .ok s1 → ∃ r e2 bufs s2,
        s.tasks D (fun _ => []) (fun _ => []) l = .ok (r, e2, bufs) ∧ s2 = r.drain bs.length bufs ∧
        ∃ f, (∀ x ∈ s.net.g.nodes, f x = x) ∧ Renamed f s1.net s2.net ∧
        ∃ n1 n2, s.build D ord bs = .ok n1 ∧ resolveSequential (s2.ctx D) s2.net s2.queue = .ok n2 ∧
          Renamed f n1 n2 ∧
          ∀ (addr : Nat → Nat), (∀ a b, addr a = addr b → a = b) → ∀ n3,
            ResolvesParallel (s2.ctx D) addr s2.net s2.queue n3 → ∀ x ∈ n1.g.nodes, ∀ y ∈ n1.g.nodes,
              (Joined n3 (f x) (f y) ↔ Joined n1 x y) := by
  obtain ⟨as, h1, h2⟩ := oneWriter_scripts (D := D) hs hv hd
  exact ⟨as, h1, fun l hl => ⟨fun e he => any_schedule_fault_partial hs h1 h2 hl he,
    fun s1 hr => any_schedule_partial hs h1 h2 hl hr⟩⟩

theorem perm_of_map {α β : Type} {f : α → β} {cs ds : List β} (h : cs.Perm ds) : ∀ {l : List α},
    ds = l.map f → ∃ l' : List α, l'.Perm l ∧ cs = l'.map f := by
  induction h with
  | nil =>
    intro l e
    cases l with
    | nil => exact ⟨[], .refl _, rfl⟩
    | cons a l => cases e
  | cons x _ ih =>
    intro l e
    cases l with
    | nil => cases e
    | cons a l =>
      rw [List.map_cons, List.cons.injEq] at e
      obtain ⟨l', h1, rfl⟩ := ih e.2
      exact ⟨a :: l', h1.cons a, by rw [List.map_cons, e.1]⟩
  | swap x y t =>
    intro l e
    match l, e with
    | a :: b :: l, e =>
      rw [List.map_cons, List.map_cons, List.cons.injEq, List.cons.injEq] at e
      exact ⟨b :: a :: l, .swap a b l, by rw [e.1, e.2.1, e.2.2]; rfl⟩
  | trans _ _ ih1 ih2 =>
    intro l e
    obtain ⟨l', h1, h2⟩ := ih2 e
    obtain ⟨l'', h3, h4⟩ := ih1 h2
    exact ⟨l'', h3.trans h1, h4⟩

/-- C94, said of the writes in the blocks: the order of the blocks does not matter. -/
theorem reordered_blocks_partial {D : Design} {ord : Tracker → List (Nat × Nat)} {s : Bld}
    {hist : List (Nat × Rec)} {bs cs : List Deferred} (hs : Begun s hist) (hv : Visits ord)
    (hd : OneWriter D hist bs) (hc : cs.Perm bs) {s1 : Bld} (h : s.runBlocks D ord bs = .ok s1) :
    ∃ n1 n2 f, s.build D ord bs = .ok n1 ∧ s.build D ord cs = .ok n2 ∧ Renamed f n1 n2 ∧
      ∀ x ∈ s.net.g.nodes, f x = x := by
  obtain ⟨as, h1, h2⟩ := oneWriter_scripts (D := D) hs hv hd
  obtain ⟨ws, h3, h4⟩ := perm_of_map (hc.map some) (l := List.range bs.length) (f := fun w => bs[w]?) (by
    refine List.ext_getElem? fun i => ?_
    rw [List.getElem?_map, List.getElem?_map]
    by_cases hi : i < bs.length
    · rw [List.getElem?_range hi, List.getElem?_eq_getElem hi]
      simp [hi]
    · rw [List.getElem?_eq_none (by simpa using hi), List.getElem?_eq_none (by simpa using hi)]
      rfl)
  exact block_order_partial hs h1 h2 h3 h4.symm h

/-! ### A concrete design -/

theorem ds_syms {i : Nat} {b : Deferred} (h : dsBlocks[i]? = some b) : ∀ w ∈ allWrites b.stmt, w.sym = i + 1 := by
  match i, h with
  | 0, h => cases h; decide
  | 1, h => cases h; decide
  | 2, h => cases h; decide
  | 3, h => cases h; decide
  | n + 4, h => simp [dsBlocks] at h

theorem ds_oneWriter : OneWriter flowCtx.D dsHist dsBlocks where
  plain := fun b hb => plain_sub (fun w hw => by
    unfold designWrites
    exact List.mem_append.2 (.inr (List.mem_flatMap.2 ⟨b, hb, hw⟩))) dsPrepared.plain
  blocks := by
    intro i j a b hne ha hb w hw v hv e
    have := ds_syms ha w hw
    have := ds_syms hb v hv
    omega
  before := by
    intro x hx b hb w hw e
    cases List.mem_singleton.1 hx
    obtain ⟨i, hi⟩ := List.mem_iff_getElem?.1 hb
    have := ds_syms hi w hw
    simp only at e
    omega
  ports := fun sym z h => by cases h
  modports := fun sym _ lsp v hv => by cases hv

/-- The hypotheses of `parallel_blocks_partial` are met by a design with four blocks, one of them a flip-flop. -/
example : Begun dsBld dsHist ∧ Visits Tracker.slots ∧ OneWriter flowCtx.D dsHist dsBlocks ∧
    ∃ s1, dsBld.runBlocks flowCtx.D Tracker.slots dsBlocks = .ok s1 :=
  ⟨ds_begun, dsPrepared.visits, ds_oneWriter, _, rfl⟩

/-- The blocks backwards give the same netlist up to names. -/
example : ∃ n1 n2 f, dsBld.build flowCtx.D Tracker.slots dsBlocks = .ok n1 ∧
    dsBld.build flowCtx.D Tracker.slots dsBlocks.reverse = .ok n2 ∧ Renamed f n1 n2 ∧
    ∀ x ∈ dsBld.net.g.nodes, f x = x :=
  reordered_blocks_partial ds_begun dsPrepared.visits ds_oneWriter (List.reverse_perm _) rfl

end Verif.Props
