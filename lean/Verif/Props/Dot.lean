import Verif.Model.Dot
import Verif.Proofs.Net

/-!
Property theorem C25: DOT export renders exactly the induced subgraph.
-/
set_option linter.unusedSimpArgs false
namespace Verif.Props
open Verif.Model Verif.Spec Verif.Proofs

/-- The word for the direction of a port in the drawing. -/
def dirWord : ArgDir → Str
  | .input => ['I', 'n']
  | .output => ['O', 'u', 't']
  | .inout => ['I', 'n', 'O', 'u', 't']
  | .ref => ['R', 'e', 'f']

theorem dirWord_eq (d : ArgDir) : d.text = dirWord d := by cases d <;> simp [ArgDir.text, dirWord, lit]

/-- The label of each sort of node in the drawing. -/
def dotLabel : NodeData → Str
  | .bare => []
  | .port name _ _ dir _ => dirWord dir ++ lit " port " ++ name
  | .variable name _ _ _ => lit "Variable " ++ name
  | .state name _ _ b => name ++ lit " " ++ rangeText b
  | .assignment _ => lit "Assignment"
  | .conditional _ => lit "Conditional"
  | .case _ => lit "Case"
  | .merge => lit "Merge"
  | .constant v _ _ => lit "Const " ++ v

/-- A node statement: `N<id> [label="..."]`. -/
def nodeStmt (net : NetGraph) (n : Nat) : Str :=
  lit "  N" ++ decNat (net.id n) ++ lit " [label=\"" ++ dotLabel (net.data n) ++
    lit "\"]\n"

/-- An edge statement: `N<source> -> N<target>`, with the symbol and bit range as label if the edge
is annotated with a named symbol. -/
def edgeStmt (net : NetGraph) (e : Edge) : Str :=
  lit "  N" ++ decNat (net.id e.src) ++ lit " -> N" ++ decNat (net.id e.tgt) ++
    (match (net.attr e.id).symbol with
      | some s => if s.name = [] then [] else
          lit " [label=\"" ++ (s.name ++ rangeText (net.attr e.id).bounds) ++ lit "\"]"
      | none => []) ++ lit "\n"

/-- Which nodes are selected: all of them, or the given ones. -/
def Selected (filter : Option (List Nat)) (n : Nat) : Prop := ∀ l, filter = some l → n ∈ l

instance (filter : Option (List Nat)) (n : Nat) : Decidable (Selected filter n) :=
  match filter with
  | none => isTrue (fun _ h => by cases h)
  | some l => if h : n ∈ l then isTrue (fun _ h' => by cases h'; exact h)
      else isFalse (fun h' => h (h' l rfl))

theorem dotIncluded_iff (filter : Option (List Nat)) (n : Nat) :
    dotIncluded filter n = true ↔ Selected filter n := by
  cases filter with
  | none => simp [dotIncluded, Selected]
  | some l => simp [dotIncluded, Selected]

theorem lit_assignment : lit " [label=\"Assignment\"]\n" =
    lit " [label=\"" ++ (lit "Assignment" ++ lit "\"]\n") := by simp [lit]

theorem lit_case : lit " [label=\"Case\"]\n" =
    lit " [label=\"" ++ (lit "Case" ++ lit "\"]\n") := by simp [lit]

theorem lit_conditional : lit " [label=\"Conditional\"]\n" =
    lit " [label=\"" ++ (lit "Conditional" ++ lit "\"]\n") := by simp [lit]

theorem lit_merge : lit " [label=\"Merge\"]\n" =
    lit " [label=\"" ++ (lit "Merge" ++ lit "\"]\n") := by simp [lit]

theorem lit_variable : lit " [label=\"Variable " =
    lit " [label=\"" ++ lit "Variable " := by simp [lit]

theorem lit_const : lit " [label=\"Const " = lit " [label=\"" ++ lit "Const " := by simp [lit]

theorem lit_close : lit "\"]\n" = lit "\"]" ++ lit "\n" := by simp [lit]

theorem writeNode_eq (net : NetGraph) (n : Nat) :
    writeNode (net.id n) (net.data n) =
      if net.data n = .bare then none else some (nodeStmt net n) := by
  unfold nodeStmt
  cases net.data n <;>
    simp only [writeNode, dotLabel, List.append_assoc, reduceCtorEq, ↓reduceIte, lit_assignment,
      dirWord_eq, lit_case, lit_conditional, lit_merge, lit_variable, lit_const]

theorem writeEdge_eq (net : NetGraph) (n : Nat) (e : Edge) (h : e.src = n) :
    writeEdge net n e = edgeStmt net e := by
  subst h
  unfold writeEdge edgeStmt
  cases (net.attr e.id).symbol with
  | none => simp only [List.append_nil]
  | some s =>
    cases hn : s.name with
    | nil => simp only [hn, List.isEmpty_nil, ↓reduceIte, List.append_nil]
    | cons c cs =>
      simp only [hn, List.isEmpty_cons, Bool.false_eq_true, ↓reduceIte, reduceCtorEq,
        List.append_assoc, lit_close]

theorem dotNodes_eq (net : NetGraph) (filter : Option (List Nat)) (ns : List Nat) (buf : Str) :
    dotNodes net filter buf ns =
      if ∃ n ∈ ns, Selected filter n ∧ net.data n = .bare then none
      else some (buf ++ (ns.filter (fun n => decide (Selected filter n))).flatMap (nodeStmt net)) := by
  induction ns generalizing buf with
  | nil => simp [dotNodes]
  | cons n ns ih =>
    unfold dotNodes
    by_cases hs : Selected filter n
    · have hi : dotIncluded filter n = true := (dotIncluded_iff filter n).2 hs
      rw [writeNode_eq]
      by_cases hb : net.data n = .bare
      · simp [hi, hs, hb]
      · simp only [hi, hb, ih, hs, Bool.not_true, Bool.false_eq_true, ↓reduceIte, decide_true,
          List.filter_cons_of_pos, List.flatMap_cons, List.append_assoc, List.mem_cons,
          exists_eq_or_imp, and_false, false_or]
    · have hi : dotIncluded filter n = false := by
        rw [← Bool.not_eq_true, dotIncluded_iff]; exact hs
      simp [hi, hs, ih]

theorem dotOutEdges_eq (net : NetGraph) (filter : Option (List Nat)) (n : Nat) (es : List Edge)
    (h : ∀ e ∈ es, e.src = n) (buf : Str) :
    dotOutEdges net filter n buf es = buf ++ (es.filter (fun e =>
      !(net.attr e.id).disabled && decide (Selected filter e.tgt))).flatMap (edgeStmt net) := by
  induction es generalizing buf with
  | nil => simp [dotOutEdges]
  | cons e es ih =>
    have ih' := ih (fun e he => h e (by simp [he]))
    unfold dotOutEdges
    cases hd : (net.attr e.id).disabled
    · by_cases hs : Selected filter e.tgt
      · have hi : dotIncluded filter e.tgt = true := (dotIncluded_iff _ _).2 hs
        simp [hi, hs, hd, ih', writeEdge_eq net n e (h e (by simp))]
      · have hi : dotIncluded filter e.tgt = false := by
          rw [← Bool.not_eq_true, dotIncluded_iff]; exact hs
        simp [hi, hs, hd, ih']
    · simp [hd, ih']

theorem dotEdges_eq (net : NetGraph) (filter : Option (List Nat)) (ns : List Nat)
    (h : ∀ n, ∀ e ∈ (net.g.obj n).outE, e.src = n) (buf : Str) :
    dotEdges net filter buf ns = buf ++ (ns.flatMap fun n =>
      if Selected filter n then (net.g.obj n).outE.filter (fun e =>
        !(net.attr e.id).disabled && decide (Selected filter e.tgt)) else []).flatMap
          (edgeStmt net) := by
  induction ns generalizing buf with
  | nil => simp [dotEdges]
  | cons n ns ih =>
    unfold dotEdges
    by_cases hs : Selected filter n
    · have hi : dotIncluded filter n = true := (dotIncluded_iff _ _).2 hs
      simp [hi, hs, ih, dotOutEdges_eq net filter n _ (h n)]
    · have hi : dotIncluded filter n = false := by
        rw [← Bool.not_eq_true, dotIncluded_iff]; exact hs
      simp [hi, hs, ih]

/-- C25: the rendered text is the header, one statement per selected node in graph order, one
statement per enabled edge whose endpoints are both selected (each such edge once), and the closing
brace. Rendering is defined unless a selected node has no kind. Without a filter every node is
selected. -/
theorem dot_exact {net : NetGraph} (hr : Reachable net) (filter : Option (List Nat))
    (hk : ∀ n ∈ net.g.nodes, Selected filter n → net.data n ≠ .bare) :
    ∃ es : List Edge, es.Nodup ∧
      (∀ e, e ∈ es ↔ e ∈ (net.g.obj e.src).outE ∧ (net.attr e.id).disabled = false ∧
        Selected filter e.src ∧ Selected filter e.tgt) ∧
      renderDot net filter = some (lit "digraph {\n" ++ lit "  node [shape=record];\n" ++
        (net.g.nodes.filter (fun n => decide (Selected filter n))).flatMap (nodeStmt net) ++
        es.flatMap (edgeStmt net) ++ lit "}\n") := by
  obtain ⟨A, hrel, hinv⟩ := reachable_rel hr
  have hw := reachable_wf hr
  refine ⟨net.g.nodes.flatMap fun n =>
      if Selected filter n then (net.g.obj n).outE.filter (fun e =>
        !(net.attr e.id).disabled && decide (Selected filter e.tgt)) else [], ?_, ?_, ?_⟩
  · have hn := hw.nodup
    have hAe : A.edges.Nodup := by
      refine hinv.sorted.imp ?_
      intro a b hab hEq; subst hEq; exact Nat.lt_irrefl _ hab
    generalize net.g.nodes = ns at hn
    induction ns with
    | nil => simp
    | cons n ns ih =>
      rw [List.nodup_cons] at hn
      rw [List.flatMap_cons, List.nodup_append]
      refine ⟨?_, ih hn.2, ?_⟩
      · split
        · refine List.Nodup.sublist List.filter_sublist ?_
          rw [hrel.out]
          exact List.Nodup.sublist List.filter_sublist hAe
        · simp
      · intro a ha b hb hab
        subst hab
        have h1 : a.src = n := by
          split at ha
          · exact (hw.out n a (List.mem_filter.1 ha).1).1
          · simp at ha
        obtain ⟨m, hm, hb⟩ := List.mem_flatMap.1 hb
        have h2 : a.src = m := by
          split at hb
          · exact (hw.out m a (List.mem_filter.1 hb).1).1
          · simp at hb
        rw [h1] at h2; subst h2
        exact hn.1 hm
  · intro e
    rw [List.mem_flatMap]
    constructor
    · rintro ⟨n, hn, he⟩
      split at he
      · rename_i hs
        obtain ⟨h1, h2⟩ := List.mem_filter.1 he
        have h3 := (hw.out n e h1).1
        subst h3
        simp at h2
        exact ⟨h1, h2.1, hs, h2.2⟩
      · simp at he
    · rintro ⟨h1, h2, h3, h4⟩
      refine ⟨e.src, (hw.out e.src e h1).2.1, ?_⟩
      rw [if_pos h3, List.mem_filter]
      exact ⟨h1, by simp [h2, h4]⟩
  · unfold renderDot
    have hno : ¬ ∃ n ∈ net.g.nodes, Selected filter n ∧ net.data n = .bare := by
      rintro ⟨n, hn, hs, hb⟩; exact hk n hn hs hb
    simp only [dotNodes_eq, if_neg hno]
    rw [dotEdges_eq net filter _ (fun n e he => (hw.out n e he).1)]

/-- A selected node without a kind makes the exporter reach its unreachable case. -/
theorem dot_undefined (net : NetGraph) (filter : Option (List Nat)) :
    renderDot net filter = none ↔
      ∃ n ∈ net.g.nodes, Selected filter n ∧ net.data n = .bare := by
  unfold renderDot
  simp only [dotNodes_eq]
  by_cases h : ∃ n ∈ net.g.nodes, Selected filter n ∧ net.data n = .bare
  · rw [if_pos h]; simp only [h, true_iff]
  · rw [if_neg h]; simp only [h, reduceCtorEq]

/-- A three-node netlist with a disabled edge, an annotated edge and a plain edge. -/
def dotSample : List NetOp :=
  [.addNode (.port "a".toList "t.a".toList {} .input ⟨3, 0⟩), .addNode (.assignment {}),
   .addNode (.state "r".toList "t.r".toList {} ⟨3, 0⟩),
   .addNewEdge 0 1, .addNewEdge 1 2, .addNewEdge 2 1, .addNewEdge 0 2,
   .setAttr 0 { symbol := some ⟨"a".toList, "t.a".toList, {}⟩, bounds := ⟨1, 0⟩ },
   .setAttr 2 { disabled := true }]

theorem decNat_small (n : Nat) (h : n < 10) : decNat n = [Char.ofNat (48 + n)] := by
  unfold decNat; simp [h]

/-- Non-vacuity: whole-netlist rendering of the sample. -/
example : (NetGraph.calls {} dotSample).bind (renderDot · none) = some
    ("digraph {\n  node [shape=record];\n  N1 [label=\"In port a\"]\n" ++
      "  N2 [label=\"Assignment\"]\n  N3 [label=\"r [3:0]\"]\n  N1 -> N2 [label=\"a[1:0]\"]\n" ++
      "  N1 -> N3\n  N2 -> N3\n}\n").toList := by
  simp [NetGraph.calls, NetGraph.call, dotSample, NetOp.gop, DGraph.call, DGraph.addNode,
    DGraph.upd, DGraph.addNewEdge, pushOut, pushIn, indexThreshold, renderDot, dotNodes, dotEdges,
    dotOutEdges, writeNode, writeEdge, dotIncluded, decNat_small, rangeText, BitRange.lower,
    BitRange.upper, decInt, ArgDir.text, lit, show min (3 : Int) 0 = 0 from rfl, show max (3 : Int) 0 = 3 from rfl,
    show min (1 : Int) 0 = 0 from rfl, show max (1 : Int) 0 = 1 from rfl]

/-- Number of quote characters in a text. -/
def quotes (s : Str) : Nat := s.countP (· == '"')

/-- Names are not escaped: an (escaped) identifier containing a quote makes a node statement with
three quotes, which is not valid DOT. -/
theorem dot_labels_not_escaped :
    ∃ (net : NetGraph) (n : Nat), Reachable net ∧ n ∈ net.g.nodes ∧
      quotes (nodeStmt net n) = 3 := by
  let net : Option NetGraph :=
    NetGraph.calls {} [.addNode (.variable "a\"b".toList "t.a\"b".toList {} {})]
  refine ⟨net.get (by rfl), 0, ⟨_, (Option.some_get _).symm⟩, ?_, ?_⟩
  · simp [net, NetGraph.calls, NetGraph.call, NetOp.gop, DGraph.call, DGraph.addNode, DGraph.upd]
  · simp [net, NetGraph.calls, NetGraph.call, NetOp.gop, DGraph.call, DGraph.addNode, DGraph.upd,
      nodeStmt, dotLabel, quotes, decNat_small, lit]

end Verif.Props
