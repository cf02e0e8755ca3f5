import Verif.Props.Cli

/-!
Property theorem C52: path and loop reports are defined and describe the path that was found.
-/
set_option linter.unusedSimpArgs false
namespace Verif.Props
open Verif.Model Verif.Spec Verif.Proofs

/-- The node can be described: a port must be an input or an output. -/
def Reportable : NodeData → Prop
  | .port _ _ _ dir _ => dir = .input ∨ dir = .output
  | _ => True

/-- The line describing a node; variables, registers, constants and merges have none. -/
def nodeLine (files : List Str) : NodeData → Str
  | .port name _ loc dir _ =>
    locSpec files loc ++ (if dir = .input then lit ": note: input port " else
      lit ": note: output port ") ++ name ++ lit "\n"
  | .assignment loc => locSpec files loc ++ lit ": note: assignment\n"
  | .conditional loc => locSpec files loc ++ lit ": note: conditional statement\n"
  | .case loc => locSpec files loc ++ lit ": note: case statement\n"
  | _ => []

/-- The line describing the value carried by an edge, if it is annotated. -/
def valueLine (files : List Str) (a : EdgeAttr) : Str :=
  match a.symbol with
  | some s =>
    if s.name = [] then []
    else locSpec files s.loc ++ lit ": note: value " ++ s.path ++ rangeText a.bounds ++ lit "\n"
  | none => []

/-- The text of a path: alternately a node and the oldest edge to the next node. -/
inductive PathText (net : NetGraph) (files : List Str) : List Nat → Str → Prop
  | last (n : Nat) : PathText net files [n] (nodeLine files (net.data n))
  | cons (a b : Nat) (rest : List Nat) (t : Str) (pre post : List Edge) (e : Edge) :
      (net.g.obj a).outE = pre ++ e :: post → e.tgt = b → (∀ x ∈ pre, x.tgt ≠ b) →
      PathText net files (b :: rest) t →
      PathText net files (a :: b :: rest)
        (nodeLine files (net.data a) ++ valueLine files (net.attr e.id) ++ t)

theorem reportNodeText_ok {net : NetGraph} {files : List Str} (h : LocsOk net files) (n : Nat) :
    (Reportable (net.data n) → reportNodeText files (net.data n) =
      .ok (nodeLine files (net.data n))) ∧
    (¬ Reportable (net.data n) → reportNodeText files (net.data n) = .error .undefined) := by
  have hl := h.node n
  cases hd : net.data n with
  | port name path loc dir b =>
    have := locText_ok (hl loc (by rw [hd]; rfl))
    cases dir <;> simp [reportNodeText, Reportable, nodeLine, this, bind, Except.bind, pure,
      Except.pure]
  | assignment loc =>
    have := locText_ok (hl loc (by rw [hd]; rfl))
    simp [reportNodeText, Reportable, nodeLine, this, bind, Except.bind, pure, Except.pure]
  | conditional loc =>
    have := locText_ok (hl loc (by rw [hd]; rfl))
    simp [reportNodeText, Reportable, nodeLine, this, bind, Except.bind, pure, Except.pure]
  | case loc =>
    have := locText_ok (hl loc (by rw [hd]; rfl))
    simp [reportNodeText, Reportable, nodeLine, this, bind, Except.bind, pure, Except.pure]
  | _ => simp [reportNodeText, Reportable, nodeLine]

theorem reportEdgeText_ok {net : NetGraph} {files : List Str} (h : LocsOk net files) (e : Nat) :
    reportEdgeText files (net.attr e) = .ok (valueLine files (net.attr e)) := by
  unfold reportEdgeText valueLine
  cases hs : (net.attr e).symbol with
  | none => rfl
  | some s =>
    have := locText_ok (h.edge e s hs)
    cases hn : s.name with
    | nil => simp [hn]
    | cons c cs => simp [hn, this, bind, Except.bind, pure, Except.pure]

theorem reportPath_spec {net : NetGraph} {files : List Str} (h : LocsOk net files)
    (p : List Nat) (hne : p ≠ []) (hw : Walk (Step net) p) :
    ((∀ m ∈ p, Reportable (net.data m)) →
      ∃ t, reportPath net files p = .ok t ∧ PathText net files p t) ∧
    ((∃ m ∈ p, ¬ Reportable (net.data m)) → reportPath net files p = .error .undefined) := by
  induction p with
  | nil => exact absurd rfl hne
  | cons a rest ih =>
    cases rest with
    | nil =>
      obtain ⟨h1, h2⟩ := reportNodeText_ok h a
      simp only [List.mem_singleton, forall_eq, exists_eq_left]
      exact ⟨fun hr => ⟨_, h1 hr, .last a⟩, h2⟩
    | cons b rest =>
      obtain ⟨⟨_, e0, he0, ht0, _⟩, hw'⟩ := hw
      obtain ⟨ih1, ih2⟩ := ih (by simp) hw'
      have hfind : ∃ e, net.g.findEdgeTo a b = some e := by
        unfold DGraph.findEdgeTo
        cases hc : (net.g.obj a).outE.find? fun e => e.tgt == b with
        | some e => exact ⟨e, rfl⟩
        | none =>
          rw [List.find?_eq_none] at hc
          exact absurd ht0 (by simpa using hc e0 he0)
      obtain ⟨e, he⟩ := hfind
      obtain ⟨hp, pre, post, heq, hpre⟩ := List.find?_eq_some_iff_append.1 he
      obtain ⟨h1, h2⟩ := reportNodeText_ok h a
      unfold reportPath
      simp only [he, reportEdgeText_ok h, bind, Except.bind, pure, Except.pure]
      by_cases ha : Reportable (net.data a)
      · simp only [h1 ha]
        constructor
        · intro hr
          obtain ⟨t, ht, hpt⟩ := ih1 fun m hm => hr m (by simp [List.mem_cons.1 hm])
          refine ⟨_, by rw [ht], .cons a b rest t pre post e heq (by simpa using hp) ?_ hpt⟩
          intro x hx; simpa using hpre x hx
        · rintro ⟨m, hm, hnr⟩
          rcases List.mem_cons.1 hm with rfl | hm
          · exact absurd ha hnr
          · rw [ih2 ⟨m, hm, hnr⟩]
      · simp only [h2 ha]
        refine ⟨fun hr => absurd (hr a (by simp)) ha, fun _ => trivial⟩

/-- C52: asked for a path between two distinct known points, the tool reports an error exactly when
the second is not reachable from the first, and otherwise the text of a simple path of enabled edges
between them; the one exception is that an inout or ref port on the path makes the report
undefined. -/
theorem path_report_exact (rx : Str → Str → Bool) {s : Session} (hf : Fresh s)
    (hr : Reachable s.net) {files : List Str} (hl : LocsOk s.net files) (scopes names : List Str)
    {a b : Str} {na nb : Nat} (ha : s.lookup a = some na) (hb : s.lookup b = some nb)
    (hne : na ≠ nb) :
    (¬ Reach (Step s.net) na nb →
      runAction rx s files scopes names (.path a b) = .error .message) ∧
    (Reach (Step s.net) na nb → ∃ p, SimplePath (Step s.net) na nb p ∧
      ((∀ m ∈ p, Reportable (s.net.data m)) →
        ∃ t, runAction rx s files scopes names (.path a b) = .ok (.path t) ∧
          PathText s.net files p t) ∧
      ((∃ m ∈ p, ¬ Reportable (s.net.data m)) →
        runAction rx s files scopes names (.path a b) = .error .undefined)) := by
  obtain ⟨p, hp, h1, h2⟩ := path_sound_complete s.net hr na nb (fresh_lookup_mem hf ha) hne
  simp only [runAction, requireNode, ha, hb, requirePath, hp, bind, Except.bind, pure, Except.pure]
  cases p with
  | nil =>
    refine ⟨fun _ => rfl, fun h => absurd (h2.2 h) (by simp)⟩
  | cons x xs =>
    refine ⟨fun h => absurd (h2.1 (by simp)) h, fun _ => ?_⟩
    have hsp := h1 (by simp)
    obtain ⟨r1, r2⟩ := reportPath_spec hl (x :: xs) (by simp) hsp.walk
    refine ⟨x :: xs, hsp, fun h => ?_, fun h => ?_⟩
    · obtain ⟨t, ht, hpt⟩ := r1 h
      exact ⟨t, by simp [ht], hpt⟩
    · simp [r2 h]

/-- C52: the loop report describes every detected loop, in order, when no inout or ref port lies on
one. The edge that closes the loop is not part of the text. -/
theorem loop_report_exact (rx : Str → Str → Bool) {s : Session}
    (hr : Reachable s.net) {files : List Str} (hl : LocsOk s.net files) (scopes names : List Str)
    (hp : ∀ c ∈ combLoops s.net, ∀ m ∈ c, Reportable (s.net.data m)) :
    ∃ ts : List Str, runAction rx s files scopes names .loops = .ok (.loops ts) ∧
      ts.length = (combLoops s.net).length ∧
      ∀ c t, (c, t) ∈ (combLoops s.net).zip ts → PathText s.net files c t := by
  have hg := loops_are_genuine s.net hr
  have gen : ∀ cs : List (List Nat), (∀ c ∈ cs, c ≠ [] ∧ Walk (Step s.net) c ∧
      ∀ m ∈ c, Reportable (s.net.data m)) →
      ∃ ts, reportLoops s.net files cs = .ok ts ∧ ts.length = cs.length ∧
        ∀ c t, (c, t) ∈ cs.zip ts → PathText s.net files c t := by
    intro cs hcs
    induction cs with
    | nil => exact ⟨[], rfl, rfl, by simp⟩
    | cons c cs ih =>
      obtain ⟨ts, h1, h2⟩ := ih fun c hc => hcs c (by simp [hc])
      obtain ⟨k1, k2, k3⟩ := hcs c (by simp)
      obtain ⟨t, ht, hpt⟩ := (reportPath_spec hl c k1 k2).1 k3
      exact ⟨t :: ts, by simp [reportLoops, ht, h1, bind, Except.bind, pure, Except.pure],
        by simp [h2.1], by
          intro c' t' hm
          rcases List.mem_cons.1 (by simpa only [List.zip_cons_cons] using hm) with hm | hm
          · cases hm; exact hpt
          · exact h2.2 c' t' hm⟩
  obtain ⟨ts, h1, h2⟩ := gen (combLoops s.net) (by
    intro c hc
    refine ⟨(hg c hc).1.nonempty, ?_, hp c hc⟩
    have hw := (hg c hc).1.walk
    clear hg hp hc
    induction c with
    | nil => trivial
    | cons a l ih =>
      cases l with
      | nil => trivial
      | cons b l => exact ⟨hw.1.1, ih hw.2⟩)
  exact ⟨ts, by simp [runAction, h1, bind, Except.bind, pure, Except.pure], h2⟩

/-- A path through a module with an inout port. -/
def inoutOps : List NetOp :=
  [.addNode (.port ['a'] ['a'] {} .input {}), .addNode (.port ['b'] ['b'] {} .inout {}),
   .addNewEdge 0 1]

/-- Reporting a path that ends in an inout port reaches code marked unreachable. -/
theorem inout_path_undefined (rx : Str → Str → Bool) : ∃ s, Session.steps {} (inoutOps.map .mutate) = some s ∧
    runAction rx s [] [] [] (.path ['a'] ['b']) = .error .undefined := by
  refine ⟨_, rfl, ?_⟩
  rfl

/-- Two parallel edges, the older one disabled and annotated with another symbol. -/
def parallelOps : List NetOp :=
  [.addNode (.assignment {}), .addNode (.variable ['b'] ['b'] {} {}),
   .addNewEdge 0 1, .addNewEdge 0 1,
   .setAttr 0 { disabled := true, symbol := some ⟨['x'], ['x'], {}⟩ },
   .setAttr 1 { symbol := some ⟨['b'], ['b'], {}⟩ }]

/-- The text of a path may name the value of a disabled edge the search did not use: the reporter
takes the oldest edge between the two nodes. -/
theorem path_text_may_name_disabled_edge :
    ∃ net, NetGraph.calls {} parallelOps = some net ∧ findPath net 0 1 = some [0, 1] ∧
      (net.attr 0).disabled = true ∧
      reportPath net [] [0, 1] = .ok (nodeLine [] (net.data 0) ++ valueLine [] (net.attr 0)) := by
  refine ⟨_, rfl, by decide, rfl, ?_⟩
  simp [reportPath, DGraph.findEdgeTo, DGraph.addNewEdge, DGraph.addNode, DGraph.upd, pushOut,
    pushIn, reportNodeText, reportEdgeText, locText, nodeLine, valueLine, locSpec, bind, Except.bind,
    pure, Except.pure, indexThreshold]

/-- Non-vacuity: a two-step path whose text has three lines. -/
example : ∃ s, Session.steps {} ([NetOp.addNode (.port ['a'] ['a'] ⟨0, 1, 2⟩ .input {}),
      .addNode (.assignment ⟨0, 3, 4⟩), .addNode (.port ['q'] ['q'] ⟨0, 1, 5⟩ .output {}),
      .addNewEdge 0 1, .addNewEdge 1 2,
      .setAttr 0 { symbol := some ⟨['a'], ['a'], ⟨0, 1, 2⟩⟩ }].map SOp.mutate) = some s ∧
    (s.net.g.nodes = [0, 1, 2]) ∧ findPath s.net 0 2 = some [0, 1, 2] ∧
    s.lookup ['a'] = some 0 ∧ s.lookup ['q'] = some 2 ∧
    (∀ m ∈ [0, 1, 2], Reportable (s.net.data m)) := by
  refine ⟨_, rfl, rfl, by decide, by decide, by decide, ?_⟩
  simp [Reportable, DGraph.addNode]

/-- A cycle of two nodes fed by an input and feeding an output. -/
def loopyOps : List NetOp :=
  [.addNode (.port ['a'] ['a'] ⟨0, 1, 2⟩ .input {}), .addNode (.assignment ⟨0, 3, 4⟩),
   .addNode (.conditional ⟨0, 5, 4⟩), .addNode (.port ['q'] ['q'] ⟨0, 1, 5⟩ .output {}),
   .addEdge 0 1, .addEdge 1 2, .addEdge 2 1, .addEdge 2 3]

def loopyNet : NetGraph := (NetGraph.calls {} loopyOps).getD {}

theorem loopy_locs : LocsOk loopyNet [['f']] := by
  refine locs_of_calls (net := {}) loopyOps (empty_locs _) ?_ rfl
  intro op hop
  simp only [loopyOps, List.mem_cons, List.not_mem_nil, or_false] at hop
  rcases hop with rfl | rfl | rfl | rfl | rfl | rfl | rfl | rfl <;> simp [OpLocs, NodeData.loc, LocOk]

/-- The theorems applied to it: a report of one loop, the report of the path from `a` to `q`, and the
report that there is no path back. -/
example (rx : Str → Str → Bool) :
    (∃ t, runAction rx ⟨loopyNet, none⟩ [['f']] [] [] .loops = .ok (.loops [t])) ∧
    (∃ p t, SimplePath (Step loopyNet) 0 3 p ∧
      runAction rx ⟨loopyNet, none⟩ [['f']] [] [] (.path ['a'] ['q']) = .ok (.path t) ∧
      PathText loopyNet [['f']] p t) := by
  have hr : Reachable (⟨loopyNet, none⟩ : Session).net := ⟨loopyOps, rfl⟩
  have hl : LocsOk (⟨loopyNet, none⟩ : Session).net [['f']] := loopy_locs
  have hrep : ∀ m, Reportable (loopyNet.data m)
    | 0 => .inl rfl
    | 1 | 2 => trivial
    | 3 => .inr rfl
    | _ + 4 => trivial
  refine ⟨?_, ?_⟩
  · obtain ⟨ts, h1, h2, _⟩ := loop_report_exact rx hr hl [] [] (fun c _ m _ => hrep m)
    have h3 : (combLoops loopyNet).length = 1 := by decide +kernel
    have h4 : ts.length = 1 := h2.trans h3
    match ts, h4 with
    | [t], _ => exact ⟨t, h1⟩
  · obtain ⟨p, h1, h2, _⟩ := (path_report_exact rx (.inl rfl) hr hl [] [] (a := ['a']) (b := ['q'])
      (na := 0) (nb := 3) (by decide +kernel) (by decide +kernel) (by decide)).2
      (.tail (.tail (.tail .refl ⟨by decide +kernel, ⟨0, 0, 1⟩, by decide +kernel, rfl, rfl⟩)
        ⟨by decide +kernel, ⟨1, 1, 2⟩, by decide +kernel, rfl, rfl⟩)
        ⟨by decide +kernel, ⟨3, 2, 3⟩, by decide +kernel, rfl, rfl⟩)
    obtain ⟨t, h3, h4⟩ := h2 fun m _ => hrep m
    exact ⟨p, t, h1, h3, h4⟩

end Verif.Props
