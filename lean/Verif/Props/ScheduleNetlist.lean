import Verif.Props.ScheduleDesign
import Verif.Proofs.VarOrder
import Verif.Proofs.Netlist
import Verif.Props.Traverse

/-! C94 for whole designs: from the elaborated design to the netlist. -/
namespace Verif.Props
open Verif.Model Verif.Spec Verif.Proofs

theorem plain_neverInside {hist : List (Nat × Rec)} (h : Plain (histWrites hist)) (sym : Nat) :
    NeverInside (histOf hist sym) := by
  have mem : ∀ r ∈ histOf hist sym, ⟨sym, r.bounds, {}, true⟩ ∈ histWrites hist := by
    intro r hr
    obtain ⟨x, hx, rfl⟩ := List.mem_map.1 hr
    obtain ⟨h1, h2⟩ := List.mem_filter.1 hx
    have h2 : x.1 = sym := by simpa using h2
    exact List.mem_map.2 ⟨x, h1, by rw [h2]⟩
  refine List.pairwise_iff_forall_sublist.2 fun {a b} hs => ?_
  rintro ⟨h1, h2⟩
  have ha := mem a (hs.subset (by simp))
  have hb := mem b (hs.subset (by simp))
  have hc : b.bounds.lower ≤ b.bounds.upper := by simp only [BitRange.lower, BitRange.upper]; omega
  exact h.cuts _ ha b.bounds.lower (b.bounds.upper + 1) ⟨_, hb, rfl, .inl rfl⟩ ⟨_, hb, rfl, .inr rfl⟩
    h1 (by omega) (by simp only; omega)

/-- Phase 1 of an elaborated design ends in a builder as C94 assumes it. -/
theorem begun_of {E : TravEnv} {boxed : Str → Str → Bool} {top : List Member} (h : Elaborated E boxed top)
    {c : Col} (hc : phase1 E top = .ok c) (hp : Plain (histWrites c.hist)) :
    ∃ s, c.start = .ok s ∧ s.net = c.b.net ∧ Begun s c.hist := by
  obtain ⟨c', a1, a2, a3⟩ := walked h
  rw [hc] at a1
  cases a1
  obtain ⟨s, b1, b2, b3, b4, b5, b6, b7, b8⟩ := start_at a3.fine hp
  refine ⟨s, b1, b3, b2.ok.reach, fun sym e he => (b2.ok.vars sym e he).1, ?_, b2.ok.pend, b2.run, ?_,
    fun sym => never_splits (plain_neverInside hp sym), ?_⟩
  · rw [b4]
    exact sorted_phase1 hc
  · intro sym r hr
    obtain ⟨x, hx, rfl⟩ := List.mem_map.1 hr
    exact hp.rng _ (List.mem_map.2 ⟨x, (List.mem_filter.1 hx).1, rfl⟩)
  · intro x hx d hd n hn
    obtain ⟨m, h1, h2⟩ := (b2.nodes x hx).2 d hd
    rw [hn] at h2
    cases h2
    exact h1

/-- C94 for whole designs: if no bit of the design is written in two blocks, nor in a block and through a port,
then the parallel build gives the netlist of the sequential one, in whatever order the tasks do their
operations, and fails exactly if that fails.

Partial: the ranges that ports drive and the writes inside each block are aligned (`Plain`), and the operations
of the tasks are steps that are not interrupted. -/
theorem parallel_netlist_partial {E : TravEnv} {boxed : Str → Str → Bool} {ord : Tracker → List (Nat × Nat)}
    {top : List Member} (h : Elaborated E boxed top) (hv : Visits ord)
    (hd : ∀ c, phase1 E top = .ok c → Plain (histWrites c.hist) ∧ OneWriter E.D c.hist c.blocks) :
    ∃ c s as, phase1 E top = .ok c ∧ c.start = .ok s ∧ ScriptsOf E.D ord c.blocks as ∧ ∀ l, ScheduleOf as l →
      (∀ e, netlist E ord top = .error e → ∃ e', s.tasks E.D (fun _ => []) (fun _ => []) l = .error e') ∧
      ∀ n1, netlist E ord top = .ok n1 → ∃ r e2 bufs s2 n2 f,
        s.tasks E.D (fun _ => []) (fun _ => []) l = .ok (r, e2, bufs) ∧ s2 = r.drain c.blocks.length bufs ∧
        resolveSequential (s2.ctx E.D) s2.net s2.queue = .ok n2 ∧ Renamed f n1 n2 ∧
        (∀ x ∈ c.b.net.g.nodes, f x = x) ∧
        ∀ (addr : Nat → Nat), (∀ a b, addr a = addr b → a = b) → ∀ n3,
          ResolvesParallel (s2.ctx E.D) addr s2.net s2.queue n3 → ∀ x ∈ n1.g.nodes, ∀ y ∈ n1.g.nodes,
            (Joined n3 (f x) (f y) ↔ Joined n1 x y) := by
  obtain ⟨c, hc, _, _⟩ := walked h
  obtain ⟨hp, ho⟩ := hd c hc
  obtain ⟨s, h1, h2, h3⟩ := begun_of h hc hp
  obtain ⟨as, h4, h5⟩ := parallel_blocks_partial (D := E.D) h3 hv ho
  refine ⟨c, s, as, hc, h1, h4, fun l hl => ?_⟩
  have hn : netlist E ord top = s.build E.D ord c.blocks := by simp only [netlist, hc, h1]
  obtain ⟨h6, h7⟩ := h5 l hl
  constructor
  · intro e he
    cases hr : s.runBlocks E.D ord c.blocks with
    | error e' => exact h6 _ hr
    | ok s1 =>
      obtain ⟨_, _, _, _, _, _, _, _, _, n1, _, k1, _⟩ := h7 s1 hr
      rw [hn, k1] at he
      cases he
  · intro n1 he
    cases hr : s.runBlocks E.D ord c.blocks with
    | error e' =>
      rw [hn, Bld.build, hr] at he
      cases he
    | ok s1 =>
      obtain ⟨r, e2, bufs, s2, k1, k2, f, k3, _, m1, n2, k4, k5, k6, k7⟩ := h7 s1 hr
      rw [hn, k4] at he
      cases he
      exact ⟨r, e2, bufs, s2, n2, f, k1, k2, k5, k6, by rw [← h2]; exact k3, k7⟩

/-- C94 for whole designs: the order of the blocks does not matter. -/
theorem reordered_netlist_partial {E : TravEnv} {boxed : Str → Str → Bool} {ord : Tracker → List (Nat × Nat)}
    {top : List Member} (h : Elaborated E boxed top) (hv : Visits ord)
    (hd : ∀ c, phase1 E top = .ok c → Plain (histWrites c.hist) ∧ OneWriter E.D c.hist c.blocks) {n1 : NetGraph}
    (hn : netlist E ord top = .ok n1) : ∃ c s, phase1 E top = .ok c ∧ c.start = .ok s ∧
      ∀ bs, bs.Perm c.blocks → ∃ n2 f, s.build E.D ord bs = .ok n2 ∧ Renamed f n1 n2 ∧
        ∀ x ∈ c.b.net.g.nodes, f x = x := by
  obtain ⟨c, hc, _, _⟩ := walked h
  obtain ⟨hp, ho⟩ := hd c hc
  obtain ⟨s, h1, h2, h3⟩ := begun_of h hc hp
  refine ⟨c, s, hc, h1, fun bs hb => ?_⟩
  have he : netlist E ord top = s.build E.D ord c.blocks := by simp only [netlist, hc, h1]
  rw [hn] at he
  cases hr : s.runBlocks E.D ord c.blocks with
  | error e =>
    rw [Bld.build, hr] at he
    cases he
  | ok s1 =>
    obtain ⟨m1, n2, f, k1, k2, k3, k4⟩ := reordered_blocks_partial (D := E.D) h3 hv ho hb hr
    rw [k1] at he
    cases he
    exact ⟨n2, f, k2, k3, by rw [← h2]; exact k4⟩

/-! ### A concrete design: the hierarchy of C64 -/

theorem hd_oneWriter : Plain (histWrites hdCol.hist) ∧ OneWriter hdE.D hdCol.hist hdCol.blocks := by
  have hb : hdCol.blocks = [hdZ, hdV, hdO] := by
    obtain ⟨c, _, _, _, h1, _, h2, _⟩ := built hd_build
    rw [hd_phase1] at h1
    rw [Except.ok.inj h1, h2]
    exact (congrArg blocksOf hd_events).trans hd_blocks
  have hw : ∀ (i : Nat) b, hdCol.blocks[i]? = some b → ∀ w ∈ allWrites b.stmt,
      (i = 0 ∧ w.sym = 1) ∨ (i = 1 ∧ w.sym = 8) ∨ (i = 2 ∧ w.sym = 6) := by
    rw [hb]
    intro i b h
    match i, h with
    | 0, h => cases h; decide
    | 1, h => cases h; decide
    | 2, h => cases h; decide
    | n + 3, h => simp at h
  refine ⟨plain_sub (fun w hw => List.mem_append_left _ hw) hd_plain, ?_, ?_, ?_, ?_, ?_⟩
  · intro b hb
    exact plain_sub (fun w hw => List.mem_append_right _ (List.mem_flatMap.2 ⟨b, hb, hw⟩)) hd_plain
  · intro i j a b hne ha hb w h1 v h2 e
    have := hw i a ha w h1
    have := hw j b hb v h2
    omega
  · intro x hx b hb w h1 e
    have hk : ∀ y ∈ hdCol.hist.map (·.1), y ≠ 1 ∧ y ≠ 8 ∧ y ≠ 6 := by decide +kernel
    have := hk x.1 (List.mem_map_of_mem hx)
    obtain ⟨i, hi⟩ := List.mem_iff_getElem?.1 hb
    have := hw i b hi w h1
    omega
  · intro sym z hz b hb w h1
    obtain ⟨i, hi⟩ := List.mem_iff_getElem?.1 hb
    have := hw i b hi w h1
    have : 20 ≤ z := by
      simp only [hdE, hdD] at hz
      split at hz <;> cases hz <;> decide
    omega
  · intro sym hk
    cases hk

/-- The theorems apply to the design of C64, with two levels of instances. -/
example : ∃ c s, phase1 hdE hdTop = .ok c ∧ c.start = .ok s ∧
    ∀ bs, bs.Perm c.blocks → ∃ n2 f, s.build hdE.D Tracker.slots bs = .ok n2 ∧ Renamed f hdNet n2 ∧
      ∀ x ∈ c.b.net.g.nodes, f x = x :=
  reordered_netlist_partial hd_elab (fun _ => .refl _)
    (fun c hc => by rw [hd_phase1] at hc; exact Except.ok.inj hc ▸ hd_oneWriter) hd_net

example : ∃ c s as, phase1 hdE hdTop = .ok c ∧ c.start = .ok s ∧ ScriptsOf hdE.D Tracker.slots c.blocks as ∧
    ∀ l, ScheduleOf as l → ∃ r e2 bufs n2 f,
      s.tasks hdE.D (fun _ => []) (fun _ => []) l = .ok (r, e2, bufs) ∧
      resolveSequential ((r.drain c.blocks.length bufs).ctx hdE.D) (r.drain c.blocks.length bufs).net
        (r.drain c.blocks.length bufs).queue = .ok n2 ∧ Renamed f hdNet n2 := by
  obtain ⟨c, s, as, h1, h2, h3, h4⟩ := parallel_netlist_partial hd_elab (ord := Tracker.slots) (fun _ => .refl _)
    (fun c hc => by rw [hd_phase1] at hc; exact Except.ok.inj hc ▸ hd_oneWriter)
  refine ⟨c, s, as, h1, h2, h3, fun l hl => ?_⟩
  obtain ⟨r, e2, bufs, _, n2, f, k1, rfl, k2, k3, _⟩ := (h4 l hl).2 hdNet hd_net
  exact ⟨r, e2, bufs, n2, f, k1, k2, k3⟩

end Verif.Props
