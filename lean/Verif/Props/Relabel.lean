import Verif.Props.Cycles

/-! C70: the places of statements in the text only label the nodes. -/
namespace Verif.Props
open Verif.Model Verif.Spec Verif.Proofs

/-- C70. Moving the assignments, conditionals and cases of any design to other places in the text moves
the nodes made for them, and changes nothing else: nodes, edges, IDs, annotations and faults are the
same, whatever the design and the new places are. -/
theorem places_only_label (E : TravEnv) (ord : Tracker → List (Nat × Nat)) (f : TextLoc → TextLoc)
    (top : List Member) : netlist E ord (moveAll f top) = (netlist E ord top).map (moveNet f) :=
  move_netlist f E ord top

/-! ### Queries -/

theorem pred_move (f : TextLoc → TextLoc) (net : NetGraph) : combPred (moveNet f net) = combPred net := by
  funext e
  have : (moveNet f net).kind e.tgt = net.kind e.tgt := move_kind f _
  simp only [combPred, this]
  rfl

theorem back_move (f : TextLoc → TextLoc) (net : NetGraph) : combBackPred (moveNet f net) = combBackPred net := by
  funext e
  have : (moveNet f net).kind e.src = net.kind e.src := move_kind f _
  simp only [combBackPred, this]
  rfl

theorem detect_move (f : TextLoc → TextLoc) (net : NetGraph) (ok : Edge → Bool) (ns : List Nat) :
    ∀ vs cs, detectLoop (moveNet f net) ok ns vs cs = detectLoop net ok ns vs cs := by
  induction ns with
  | nil => exact fun _ _ => rfl
  | cons n ns ih =>
    intro vs cs
    simp only [detectLoop, ih]
    rfl

theorem const_move (f : TextLoc → TextLoc) (net : NetGraph) (n : Nat) (ns : List Nat) :
    ∀ acc, constLoop (moveNet f net) n ns acc = constLoop net n ns acc := by
  induction ns with
  | nil => exact fun _ => rfl
  | cons k ns ih =>
    intro acc
    have : (moveNet f net).kind k = net.kind k := move_kind f _
    simp only [constLoop, ih, this]
    rfl

/-- C70, for queries: paths, fan-in, fan-out, constant drivers and loops do not depend on the places. -/
theorem queries_ignore_places (f : TextLoc → TextLoc) (net : NetGraph) :
    (∀ s t, findPath (moveNet f net) s t = findPath net s t) ∧
    (∀ s t, findComb (moveNet f net) s t = findComb net s t) ∧
    (∀ n, combFanOut (moveNet f net) n = combFanOut net n) ∧ (∀ n, combFanIn (moveNet f net) n = combFanIn net n) ∧
    (∀ n, constantDrivers (moveNet f net) n = constantDrivers net n) ∧
    combLoops (moveNet f net) = combLoops net := by
  have h4 : ∀ n, combFanIn (moveNet f net) n = combFanIn net n := fun n => by
    simp only [combFanIn, back_move]
    rfl
  refine ⟨fun _ _ => rfl, fun s t => ?_, fun n => ?_, h4, fun n => ?_, ?_⟩
  · simp only [findComb, pred_move]
    rfl
  · simp only [combFanOut, pred_move]
    rfl
  · simp only [constantDrivers, h4, const_move]
  · simp only [combLoops, detectCycles, pred_move, detect_move]
    rfl

/-! ### Instances told apart -/

/-- Every design is, but for the places, one in which each assignment, segment, conditional and case of
each instance has a place of its own. -/
theorem marked_exists (top : List Member) : ∃ f marked, ∀ boxed pc, Marked boxed pc f marked top :=
  marked_all top

/-- C70, for the conclusions about nodes and edges: the netlist of any elaborated design is, but for the
places, one in which every assignment, segment, conditional and case of each instance has exactly one
node, and every edge is justified by the very statements whose nodes it joins. -/
theorem occurrences_exact {E : TravEnv} {boxed : Str → Str → Bool} {ord : Tracker → List (Nat × Nat)}
    {top marked : List Member} {f : TextLoc → TextLoc} (h : Elaborated E boxed top) (hv : Visits ord)
    {net : NetGraph} (hn : netlist E ord top = .ok net) (hm : Marked boxed E.opts.propCuts f marked top) :
    ∃ net', netlist E ord marked = .ok net' ∧ net = moveNet f net' ∧
      (∀ d ∈ textNodes (eventsAll boxed E.opts.propCuts marked),
        (d.kind = .assignment ∨ d.kind = .conditional ∨ d.kind = .case) →
        ∃ n ∈ net'.g.nodes, net'.data n = d ∧ ∀ m ∈ net'.g.nodes, net'.data m = d → m = n) ∧
      Sound E (eventsAll boxed E.opts.propCuts marked) bySignal net' := by
  obtain ⟨hs, hd⟩ := hm
  subst hs
  have he := elaborated_move h
  rw [move_netlist] at hn
  cases hn' : netlist E ord marked with
  | error e => rw [hn'] at hn; cases hn
  | ok net' =>
    rw [hn'] at hn
    cases hn
    refine ⟨net', rfl, rfl, fun d hm hk => text_node_unique he hv hn' hk ?_, (edges_justified he hv hn').2⟩
    have := hd d hk
    have := List.count_pos_iff.2 hm
    omega

/-! ### Concrete cases -/

/-- The ring of `Verif.Props.Cycles`: with its lines 1 and 2 both moved to line 1 there are two nodes of
line 1, before there is one of each. -/
example : moveAll (fun _ => ln 1) (rgTop 2) = rgTop 1 ∧
    (rgNet.g.nodes.filter fun n => rgNet.data n == .assignment (ln 1)).length = 2 ∧
    let net' := (netlist hdE Tracker.slots (rgTop 2)).toOption.getD {}
    (net'.g.nodes.filter fun n => net'.data n == .assignment (ln 1)).length = 1 ∧
    (net'.g.nodes.filter fun n => net'.data n == .assignment (ln 2)).length = 1 :=
  ⟨rg_marked.same, by decide +kernel, by decide +kernel, by decide +kernel⟩

/-- The hypotheses of `occurrences_exact` are met by the ring. -/
example : Elaborated hdE hdBoxed (rgTop 1) ∧ Visits Tracker.slots ∧ netlist hdE Tracker.slots (rgTop 1) = .ok rgNet ∧
    Marked hdBoxed hdE.opts.propCuts (fun _ => ln 1) (rgTop 2) (rgTop 1) :=
  ⟨rg_elab 1, fun _ => List.Perm.refl _, rg_net, rg_marked⟩

end Verif.Props
