import Verif.Proofs.Hier

/-! Helper lemmas for Phase 1: cuts, members and the order of events. -/
namespace Verif.Proofs
open Verif.Spec Verif.Model Verif.Props

theorem collectOps_off (reg : CutReg) (base w : Nat) (l : List SExpr) :
    (collectOps reg base w l).2 = base + (l.map SExpr.width).sum := by
  induction l with
  | nil => simp [collectOps]
  | cons e es ih => simp only [collectOps, ih, List.map_cons, List.sum_cons]; omega

mutual
theorem bound_collected {C : Nat → Nat → Prop} {reg : CutReg} (hc : CutsOk reg)
    (h : ∀ y m, C y m → ∃ l, reg y = some l ∧ m ∈ l) : ∀ (e : SExpr) (base k : Nat), Bound C e k →
    base + k ∈ collectActualCuts reg base e
  | .lsp w p sels, base, k, hb => by
    obtain ⟨y, m, h1, h2, h3, h4, rfl⟩ := hb
    obtain ⟨l, h5, h6⟩ := h y m h2
    simp only [collectActualCuts, lspCuts, h1, CutReg.cutsFor, h5]
    refine List.mem_map.2 ⟨m, ?_, rfl⟩
    rw [hintsOf_exact (hc y l h5)]
    exact List.mem_filter.2 ⟨h6, by simp; omega⟩
  | .concat w ops, base, k, hb => by
    simp only [Bound] at hb
    simp only [collectActualCuts]
    refine boundOps_collected hc h ops base w k ?_ hb.2
    rw [hb.1]; exact Nat.le_refl _
  | .repl .., _, _, hb => hb.elim
  | .conv .., _, _, hb => hb.elim
  | .condOp .., _, _, hb => hb.elim
  | .other .., _, _, hb => hb.elim
theorem boundOps_collected {C : Nat → Nat → Prop} {reg : CutReg} (hc : CutsOk reg)
    (h : ∀ y m, C y m → ∃ l, reg y = some l ∧ m ∈ l) : ∀ (l : List SExpr) (base w k : Nat),
    (l.map SExpr.width).sum ≤ w → BoundOps C l k → base + k ∈ (collectOps reg base w l).1
  | [], _, _, _, _, hb => hb.elim
  | e :: es, base, w, k, hw, hb => by
    simp only [List.map_cons, List.sum_cons] at hw
    simp only [collectOps, List.mem_append]
    rcases hb with ⟨h1, h2, rfl⟩ | hb | ⟨k', hb, rfl⟩
    · cases es with
      | nil => exact absurd rfl h1
      | cons e' es' =>
        left; left
        simp only [collectOps, List.mem_append, collectOps_off]
        right
        simp only [List.map_cons, List.sum_cons] at hw ⊢
        rw [if_pos (by omega)]
        exact List.mem_singleton.2 (by omega)
    · exact .inl (.inl (boundOps_collected hc h es base w k (by omega) hb))
    · left; right
      have := bound_collected hc h e (collectOps reg base w es).2 k' hb
      rw [collectOps_off] at this ⊢
      rwa [← Nat.add_assoc]
end

theorem recordCut_has {E : TravEnv} {c : Col} (hc : CutsOk c.cuts) {k : Conn} {sym x : Nat} {e : SExpr}
    (h1 : k.formal = .port sym (some x)) (h2 : k.actual = some e) (h3 : k.integral = true)
    (h4 : E.D.width sym = e.width) {b : Nat} (h5 : 0 < b) (h6 : b < E.D.width x)
    (h7 : b ∈ collectActualCuts c.cuts 0 e) : ∃ l, (c.recordCut E k).cuts x = some l ∧ b ∈ l := by
  simp only [Col.recordCut, h1, h2, h3, h4, and_self, if_true]
  exact (addCuts_ok hc _ _ _).2.2 b h7 h5 h6

theorem cuts_recorded {E : TravEnv} (es : List Event) : ∀ {c : Col}, (∀ ev ∈ es, EventOk E.D ev) →
    Col.steps E {} es.reverse = .ok c → ∀ x b, CutIn E.D es x b → ∃ l, c.cuts x = some l ∧ b ∈ l := by
  induction es with
  | nil => intro c _ _ x b h; exact h.elim
  | cons ev es ih =>
    intro c hok hs x b h
    have hok' : ∀ e ∈ es.reverse ++ ev :: [], EventOk E.D e := by
      intro e he; exact hok e (by simpa [or_comm] using he)
    rw [List.reverse_cons] at hs
    obtain ⟨c0, c1, a1, a2, a3, a4, a5, a6⟩ := steps_at (fine_start E.D) hok' hs
    simp only [Col.steps, Except.ok.injEq] at a5
    subst a5
    have hih := fun x b h => ih (fun e he => hok e (List.mem_cons_of_mem _ he)) a1 x b h
    have hkeep : CutIn E.D es x b → ∃ l, c1.cuts x = some l ∧ b ∈ l := by
      intro h
      obtain ⟨l, h1, h2⟩ := hih x b h
      obtain ⟨l', h3, h4⟩ := a4.grew.cuts x l h1
      exact ⟨l', h3, h4 b h2⟩
    cases ev with
    | cuts k =>
      rcases h with h | ⟨sym, e, h1, h2, h3, h4, h5, h6, h7⟩
      · exact hkeep h
      · have : c1 = c0.recordCut E k := by
          simp only [Col.step, Except.ok.injEq] at a3; exact a3.symm
        subst this
        have hmem := bound_collected a2.fine.cuts hih e 0 b h7
        rw [Nat.zero_add] at hmem
        exact recordCut_has a2.fine.cuts h1 h2 h3 h4 h5 h6 hmem
    | port _ => exact hkeep h
    | «variable» _ _ => exact hkeep h
    | block _ => exact hkeep h
    | box _ => exact hkeep h
    | connect _ => exact hkeep h

/-- No node of a port straddles a cut of its internal symbol that was met before. -/
theorem port_split {E : TravEnv} {pre post : List Event} {p : PortDecl} {c : Col}
    (h : Walked E (pre ++ .port p :: post) c) (hp : E.opts.propCuts = true) {x b : Nat} (hx : p.inner = some x)
    (hb : CutIn E.D pre.reverse x b) {e : Ivl Nat} (he : e ∈ c.b.vars p.sym) : ¬ (e.lo < (b : Int) ∧ (b : Int) ≤ e.hi) := by
  obtain ⟨c0, c1, a1, a2, a3, a4, a5, a6⟩ := steps_at (fine_start E.D) h.ok h.run
  obtain ⟨o1, o2⟩ := once_split (y := p.sym) h.once (by simp [declares])
  obtain ⟨c1', b1, b2⟩ := port_ok a2.fine (h.ok (.port p) (by simp))
  rw [a3] at b1; cases b1
  rw [a6.fixed o2] at he
  obtain ⟨l, h1, h2⟩ := cuts_recorded pre.reverse (fun ev hev => h.ok ev (by simp at hev; simp [hev]))
    (by rw [List.reverse_reverse]; exact a1) x b hb
  rcases b2.new x hx e he with h3 | ⟨_, h3⟩
  · rw [a2.fixed o1] at h3; cases h3
  · exact h3 hp l h1 b h2

/-! ### Members and the order of events -/

variable {boxed : Str → Str → Bool} {pc : Bool}

theorem eventsAll_append (l r : List Member) : eventsAll boxed pc (l ++ r) = eventsAll boxed pc l ++ eventsAll boxed pc r := by
  induction l with
  | nil => rfl
  | cons m l ih => simp only [List.cons_append, eventsAll, ih, List.append_assoc]

theorem mem_events {m : Member} {ms : List Member} (h : m ∈ ms) :
    ∃ pre post, eventsAll boxed pc ms = pre ++ events boxed pc m ++ post := by
  obtain ⟨l, r, rfl⟩ := List.append_of_mem h
  exact ⟨eventsAll boxed pc l, eventsAll boxed pc r, by rw [eventsAll_append, eventsAll, List.append_assoc]⟩

theorem met_events {ms : List Member} {m : Member} (h : Met boxed ms m) :
    ∃ pre post, eventsAll boxed pc ms = pre ++ events boxed pc m ++ post := by
  induction h with
  | here h => exact mem_events h
  | @group ms l m h _ ih =>
    obtain ⟨p1, q1, h1⟩ := mem_events (boxed := boxed) (pc := pc) h
    obtain ⟨p2, q2, h2⟩ := ih
    refine ⟨p1 ++ p2, q2 ++ q1, ?_⟩
    rw [h1, events, if_neg (by decide), h2]
    simp
  | @inst ms l d p ks m h hb _ ih =>
    obtain ⟨p1, q1, h1⟩ := mem_events (boxed := boxed) (pc := pc) h
    obtain ⟨p2, q2, h2⟩ := ih
    refine ⟨p1 ++ (if pc then ks.map .cuts else []) ++ p2, q2 ++ ks.map .connect ++ q1, ?_⟩
    rw [h1, events, if_neg (by decide)]
    simp [hb, h2]

theorem port_met {p : PortDecl} {ms : List Member} (h : p ∈ portsOf ms) : .port p ∈ ms := by
  induction ms with
  | nil => cases h
  | cons m ms ih =>
    cases m <;> simp only [portsOf, List.mem_cons] at h <;> grind

theorem before_of {es : List Event} {p : PortDecl} {k : Conn} {l r : List Event} {pre post : List Event}
    (h : es = pre ++ (l ++ r) ++ post) (hp : .port p ∈ l) (hk : .connect k ∈ r) : Before es p k := by
  obtain ⟨a, b, rfl⟩ := List.append_of_mem hp
  obtain ⟨a', b', rfl⟩ := List.append_of_mem hk
  exact ⟨pre ++ a, b ++ a', b' ++ post, by rw [h]; simp⟩

theorem inst_events {d path : Str} {ms : List Member} {ks : List Conn} {k : Conn} (hk : k ∈ ks) {p : PortDecl}
    (hp : p ∈ portsOf ms) : ∃ l r pre, events boxed pc (.inst false d path ms ks) = pre ++ (l ++ r) ∧
      .port p ∈ l ∧ .connect k ∈ r := by
  rw [events, if_neg (by decide)]
  refine ⟨_, _, _, rfl, ?_, List.mem_map.2 ⟨k, hk, rfl⟩⟩
  split
  · exact List.mem_cons_of_mem _ (List.mem_map.2 ⟨p, hp, rfl⟩)
  · obtain ⟨a, b, h⟩ := mem_events (boxed := boxed) (pc := pc) (port_met hp)
    rw [h]; simp [events]

end Verif.Proofs
