import Verif.Model.Cli
import Verif.Props.Glob
import Verif.Props.Lookup
import Verif.Props.Query
import Verif.Props.Loops
import Verif.Props.RangeArg

/-!
Property theorems C50 (which report is produced), C51 (what the listing reports contain) and C52
(path and loop reports).
-/
set_option linter.unusedSimpArgs false
namespace Verif.Props
open Verif.Model Verif.Spec Verif.Proofs

/-! ### C50: choosing the report -/

/-- The reports a set of options asks for, highest priority first, once lone endpoints are read as
cone requests: registers, loops, DOT, find, find-regex, fan-out, fan-in, sensitivity, constants,
drivers, path. A DOT request absorbs the first of the fan-out, fan-in and path requests as its
scope. -/
def requests (f : Flags) : List Action :=
  let fanOut := f.fanOut.or (if f.stop = none then f.start else none)
  let fanIn := f.fanIn.or (if f.start = none then f.stop else none)
  let path : Option (Str × Str) := f.start.bind fun a => f.stop.map fun b => (a, b)
  let scope : DotScope := ((fanOut.map DotScope.fanOut).or ((fanIn.map DotScope.fanIn).or
    (path.map fun p => DotScope.path p.1 p.2))).getD .all
  (f.registers.map fun _ => Action.registers).toList ++
  (f.loops.map fun _ => Action.loops).toList ++
  (f.dot.map fun file => Action.dot file scope).toList ++
  (f.find.map Action.find).toList ++
  (f.findRegex.map Action.findRegex).toList ++
  (fanOut.map Action.fanOut).toList ++
  (fanIn.map Action.fanIn).toList ++
  (f.sensitivity.map Action.sensitivity).toList ++
  (f.constants.map Action.constants).toList ++
  (f.drivers.map Action.drivers).toList ++
  (path.map fun p => Action.path p.1 p.2).toList

/-- C50: exactly one report is produced, the first requested one in the fixed order; with nothing
requested there is an error. -/
theorem cli_priority (f : Flags) : chooseAction f = ((requests f).head?).getD .noAction := by
  obtain ⟨r, l, d, st, en, fo, fi, se, co, dr, fd, fx⟩ := f
  cases r with
  | some _ => cases st <;> cases en <;> cases fo <;> cases fi <;> rfl
  | none =>
  cases l with
  | some _ => cases st <;> cases en <;> cases fo <;> cases fi <;> rfl
  | none =>
  cases d with
  | some _ => cases st <;> cases en <;> cases fo <;> cases fi <;> rfl
  | none =>
  cases fd with
  | some _ => cases st <;> cases en <;> cases fo <;> cases fi <;> rfl
  | none =>
  cases fx with
  | some _ => cases st <;> cases en <;> cases fo <;> cases fi <;> rfl
  | none =>
  cases fo with
  | some _ => cases st <;> cases en <;> cases fi <;> rfl
  | none =>
  cases fi with
  | some _ => cases st <;> cases en <;> rfl
  | none =>
  cases st <;> cases en
  case some.none => rfl
  case none.some => rfl
  all_goals
  cases se with
  | some _ => rfl
  | none =>
  cases co with
  | some _ => rfl
  | none =>
  cases dr with
  | some _ => rfl
  | none => rfl

/-- C50: a lone start behaves as a fan-out request. -/
theorem lone_start_is_fanOut (f : Flags) (a : Str) (h1 : f.start = some a) (h2 : f.stop = none)
    (h3 : f.fanOut = none) :
    chooseAction f = chooseAction { f with start := none, fanOut := some a } := by
  rw [cli_priority, cli_priority]
  simp [requests, h1, h2, h3]

/-- C50: a lone end behaves as a fan-in request. -/
theorem lone_end_is_fanIn (f : Flags) (b : Str) (h1 : f.stop = some b) (h2 : f.start = none)
    (h3 : f.fanIn = none) :
    chooseAction f = chooseAction { f with stop := none, fanIn := some b } := by
  rw [cli_priority, cli_priority]
  simp [requests, h1, h2, h3]

/-- C50 (partial): an explicit fan-out request makes a lone endpoint irrelevant, and an explicit
fan-in request makes a lone end irrelevant.

Missing from the full statement (a comment in the code says an explicit fan request always wins):
an explicit fan-in request against a lone start, which loses; see `explicit_fanIn_loses`. -/
theorem explicit_fan_wins_partial (f : Flags) :
    (f.stop = none → f.fanOut ≠ none →
      chooseAction f = chooseAction { f with start := none }) ∧
    (f.start = none → f.fanOut ≠ none →
      chooseAction f = chooseAction { f with stop := none }) ∧
    (f.start = none → f.fanIn ≠ none →
      chooseAction f = chooseAction { f with stop := none }) := by
  obtain ⟨r, l, d, st, en, fo, fi, se, co, dr, fd, fx⟩ := f
  refine ⟨?_, ?_, ?_⟩
  · intro h1 h2
    subst h1
    rw [cli_priority, cli_priority]
    cases fo with
    | none => exact absurd rfl h2
    | some x => cases st <;> cases fi <;> simp [requests]
  · intro h1 h2
    subst h1
    rw [cli_priority, cli_priority]
    cases fo with
    | none => exact absurd rfl h2
    | some x => cases en <;> cases fi <;> simp [requests]
  · intro h1 h2
    subst h1
    rw [cli_priority, cli_priority]
    cases fi with
    | none => exact absurd rfl h2
    | some x => cases en <;> simp [requests]

/-- The explicit fan-in request loses against the alias of a lone start, contrary to the comment at
tools/driver/driver.cpp:773-774. -/
theorem explicit_fanIn_loses :
    chooseAction { start := some "a".toList, fanIn := some "b".toList } = .fanOut "a".toList := by
  rfl

/-- `--report-registers=false` still reports the registers. -/
theorem false_flag_is_ignored :
    chooseAction { registers := some false, fanOut := some "a".toList } = .registers := by rfl

/-- Non-vacuity: a path request, and a lone end scoping a DOT report. -/
example : chooseAction { start := some ['a'], stop := some ['b'] } = .path ['a'] ['b'] ∧
    chooseAction { stop := some ['b'], dot := some ['f'] } = .dot ['f'] (.fanIn ['b']) := by decide

/-! ### C51: the listing reports -/

/-- A node passes when its path lies in one of the scopes (if any) and matches one of the name
patterns (if any). -/
def Passes (scopes names : List Str) (p : Str) : Prop :=
  (scopes = [] ∨ ∃ s ∈ scopes, InScope p s) ∧
  (names = [] ∨ ∃ g ∈ names, Matches (pieces (visible g)) (visible p))

/-- Printed form of a location. -/
def locSpec (files : List Str) (l : TextLoc) : Str :=
  if l.file = noFile then lit "?"
  else files.getD l.file [] ++ lit ":" ++ decNat l.line ++ lit ":" ++ decNat l.col

/-- A location whose file index is valid. -/
def LocOk (files : List Str) (l : TextLoc) : Prop := l.file = noFile ∨ l.file < files.length

/-- Every location in the netlist refers to a file of the table. -/
structure LocsOk (net : NetGraph) (files : List Str) : Prop where
  node : ∀ n l, (net.data n).loc = some l → LocOk files l
  edge : ∀ e s, (net.attr e).symbol = some s → LocOk files s.loc

/-- The listed text for a node: its path and location. -/
def listRow (net : NetGraph) (files : List Str) (n : Nat) : List Str :=
  [(net.data n).path.getD [], match (net.data n).loc with
    | some l => locSpec files l
    | none => []]

theorem locText_ok {files : List Str} {l : TextLoc} (h : LocOk files l) :
    locText files l = .ok (locSpec files l) := by
  unfold locText locSpec
  split
  · rfl
  · rename_i hn
    rcases h with h | h
    · exact absurd h hn
    · simp [List.getElem?_eq_getElem h, List.getD]

theorem optLocText_ok {net : NetGraph} {files : List Str} (h : LocsOk net files) (n : Nat) :
    optLocText files (net.data n).loc = .ok (match (net.data n).loc with
      | some l => locSpec files l
      | none => []) := by
  cases hl : (net.data n).loc with
  | none => rfl
  | some l => exact locText_ok (h.node n l hl)

open Classical in
theorem cliPasses_ok (scopes names : List Str) (p : Str) :
    cliPasses scopes names p = .ok (decide (Passes scopes names p)) := by
  obtain ⟨b, h1, h2⟩ := filters_exact scopes names p
  simp only [cliPasses, h1, Except.ok.injEq]
  rw [Bool.eq_iff_iff, h2, decide_eq_true_iff]
  rfl

open Classical in
theorem coneRows_ok {net : NetGraph} {files : List Str} (h : LocsOk net files)
    (scopes names : List Str) (ns : List Nat) :
    coneRows net files scopes names ns = .ok ((ns.filter fun n =>
      decide (∃ p, (net.data n).path = some p ∧ Passes scopes names p)).map
        (listRow net files)) := by
  induction ns with
  | nil => rfl
  | cons n ns ih =>
    unfold coneRows
    cases hp : (net.data n).path with
    | none => simp [ih, hp]
    | some p =>
      simp only [cliPasses_ok, optLocText_ok h, ih, bind, Except.bind, pure, Except.pure]
      by_cases hq : Passes scopes names p
      · simp [hq, hp, listRow]
      · simp [hq, hp]

/-- The listing of a set of nodes: each node of the set that has a path passing the filters appears
exactly once, with its path and location. -/
def Lists (net : NetGraph) (files scopes names : List Str) (S : Nat → Prop)
    (rows : List (List Str)) : Prop :=
  ∃ ms : List Nat, ms.Nodup ∧ rows = ms.map (listRow net files) ∧
    ∀ m, m ∈ ms ↔ S m ∧ ∃ p, (net.data m).path = some p ∧ Passes scopes names p

theorem fresh_lookup {s : Session} (hf : Fresh s) (name : Str) :
    s.lookup name = s.net.g.nodes.find? fun n => (s.net.data n).path == some name :=
  (lookup_exact_partial s hf).1 name

theorem fresh_lookup_mem {s : Session} (hf : Fresh s) {name : Str} {n : Nat}
    (h : s.lookup name = some n) : n ∈ s.net.g.nodes := by
  rw [fresh_lookup hf] at h
  exact List.mem_of_find?_eq_some h

/-- C51: the fan-out report of a known name lists exactly the filtered combinational fan-out of the
node the name denotes; an unknown name is an error. -/
theorem fanOut_report_exact (rx : Str → Str → Bool) {s : Session} (hf : Fresh s)
    (hr : Reachable s.net) {files : List Str} (hl : LocsOk s.net files) (scopes names : List Str)
    (name : Str) :
    (s.lookup name = none → runAction rx s files scopes names (.fanOut name) = .error .message) ∧
    (∀ n, s.lookup name = some n → ∃ rows,
      runAction rx s files scopes names (.fanOut name) = .ok (.table [lit "Name", lit "Location"] rows) ∧
      Lists s.net files scopes names (fun m => Reach (CombStep s.net) n m) rows) := by
  refine ⟨fun h => by simp [runAction, requireNode, h, bind, Except.bind], fun n h => ?_⟩
  obtain ⟨hnd, hm⟩ := combFanOut_exact s.net hr n (fresh_lookup_mem hf h)
  refine ⟨_, by simp only [runAction, requireNode, h, bind, Except.bind, pure, Except.pure,
    coneRows_ok hl]; rfl, _, ?_, rfl, ?_⟩
  · exact List.Nodup.sublist List.filter_sublist hnd
  · intro m
    rw [List.mem_filter, hm]
    simp

/-- C51: likewise for the fan-in report. -/
theorem fanIn_report_exact (rx : Str → Str → Bool) {s : Session} (hf : Fresh s)
    (hr : Reachable s.net) {files : List Str} (hl : LocsOk s.net files) (scopes names : List Str)
    (name : Str) :
    (s.lookup name = none → runAction rx s files scopes names (.fanIn name) = .error .message) ∧
    (∀ n, s.lookup name = some n → ∃ rows,
      runAction rx s files scopes names (.fanIn name) = .ok (.table [lit "Name", lit "Location"] rows) ∧
      Lists s.net files scopes names (fun m => Reach (CombBackStep s.net) m n) rows) := by
  refine ⟨fun h => by simp [runAction, requireNode, h, bind, Except.bind], fun n h => ?_⟩
  obtain ⟨hnd, hm⟩ := combFanIn_exact s.net hr n (fresh_lookup_mem hf h)
  refine ⟨_, by simp only [runAction, requireNode, h, bind, Except.bind, pure, Except.pure,
    coneRows_ok hl]; rfl, _, ?_, rfl, ?_⟩
  · exact List.Nodup.sublist List.filter_sublist hnd
  · intro m
    rw [List.mem_filter, hm]
    simp

open Classical in
theorem registerRows_ok {net : NetGraph} {files : List Str} (h : LocsOk net files)
    (scopes names : List Str) (ns : List Nat) :
    registerRows net files scopes names ns = .ok ((ns.filter fun n =>
      decide (net.kind n = .state ∧ ∃ p, (net.data n).path = some p ∧
        Passes scopes names p)).map (listRow net files)) := by
  induction ns with
  | nil => rfl
  | cons n ns ih =>
    unfold registerRows
    cases hd : net.data n with
    | state nm p loc b =>
      have hlo : LocOk files loc := h.node n loc (by rw [hd]; rfl)
      simp only [cliPasses_ok, locText_ok hlo, ih, bind, Except.bind, pure, Except.pure]
      by_cases hq : Passes scopes names p
      · simp [hq, hd, listRow, NodeData.path, NodeData.loc, NetGraph.kind, NodeData.kind]
      · simp [hq, hd, NodeData.path]
    | _ => simp [ih, NetGraph.kind, hd, NodeData.kind]

/-- C51: the register report lists exactly the register nodes that pass the filters. -/
theorem register_report_exact (rx : Str → Str → Bool) {s : Session} (hr : Reachable s.net)
    {files : List Str} (hl : LocsOk s.net files) (scopes names : List Str) :
    ∃ rows, runAction rx s files scopes names .registers = .ok (.table [lit "Name", lit "Location"] rows) ∧
      Lists s.net files scopes names (fun m => m ∈ s.net.g.nodes ∧ s.net.kind m = .state) rows := by
  refine ⟨_, by simp only [runAction, registerRows_ok hl, bind, Except.bind, pure,
    Except.pure]; rfl, _, ?_, rfl, ?_⟩
  · exact List.Nodup.sublist List.filter_sublist (reachable_wf hr).nodup
  · intro m
    rw [List.mem_filter]
    simp [and_assoc]

open Classical in
theorem findRows_ok {net : NetGraph} {files : List Str} (h : LocsOk net files)
    (scopes names : List Str) (ns : List Nat) (hp : ∀ n ∈ ns, (net.data n).path ≠ none) :
    findRows net files scopes names ns = .ok ((ns.filter fun n =>
      decide (∃ p, (net.data n).path = some p ∧ Passes scopes names p)).map
        (listRow net files)) := by
  induction ns with
  | nil => rfl
  | cons n ns ih =>
    have ih' := ih fun m hm => hp m (by simp [hm])
    unfold findRows
    cases hpn : (net.data n).path with
    | none => exact absurd hpn (hp n (by simp))
    | some p =>
      simp only [cliPasses_ok, optLocText_ok h, ih', bind, Except.bind, pure, Except.pure,
        Option.getD_some]
      by_cases hq : Passes scopes names p
      · simp [hq, hpn, listRow]
      · simp [hq, hpn]

theorem find_report {rx : Str → Bool} {s : Session} (hf : Fresh s)
    (hr : Reachable s.net) {files : List Str} (hl : LocsOk s.net files) (scopes names : List Str) :
    ∃ rows, findRows s.net files scopes names (s.findNodes rx) = .ok rows ∧
      Lists s.net files scopes names (fun m => m ∈ s.net.g.nodes ∧
        ∃ p, (s.net.data m).path = some p ∧ rx p = true) rows := by
  have hperm := (lookup_exact_partial s hf).2.2 rx
  have hmem : ∀ m, m ∈ s.findNodes rx ↔ m ∈ s.net.g.nodes ∧
      ∃ p, (s.net.data m).path = some p ∧ rx p = true := by
    intro m
    rw [hperm.mem_iff, List.mem_filter]
    cases (s.net.data m).path <;> simp
  refine ⟨_, findRows_ok hl scopes names _ ?_, _, ?_, rfl, ?_⟩
  · intro n hn
    obtain ⟨_, p, hp, _⟩ := (hmem n).1 hn
    rw [hp]; simp
  · refine List.Nodup.sublist List.filter_sublist ?_
    exact hperm.nodup_iff.2 (List.Nodup.sublist List.filter_sublist (reachable_wf hr).nodup)
  · intro m
    rw [List.mem_filter, hmem]
    simp

theorem globName_iff (pattern name : Str) :
    globName pattern name = true ↔ Matches (pieces (visible pattern)) (visible name) := by
  obtain ⟨b, h1, h2⟩ := glob_visible name pattern
  simp only [globName, h1]
  exact h2

/-- C51: the search report lists exactly the named nodes whose path matches the pattern and passes
the filters. -/
theorem find_report_exact (rx : Str → Str → Bool) {s : Session} (hf : Fresh s)
    (hr : Reachable s.net) {files : List Str} (hl : LocsOk s.net files) (scopes names : List Str)
    (pattern : Str) :
    ∃ rows, runAction rx s files scopes names (.find pattern) = .ok (.table [lit "Name", lit "Location"] rows) ∧
      Lists s.net files scopes names (fun m => m ∈ s.net.g.nodes ∧
        ∃ p, (s.net.data m).path = some p ∧ Matches (pieces (visible pattern)) (visible p)) rows := by
  obtain ⟨rows, h1, h2⟩ := find_report (rx := globName pattern) hf hr hl scopes names
  refine ⟨rows, by simp only [runAction, nameHeader, h1, bind, Except.bind, pure, Except.pure], ?_⟩
  simpa only [globName_iff] using h2

/-- C51: likewise for the regular-expression search, relative to the regular-expression library. -/
theorem findRegex_report_exact (rx : Str → Str → Bool) {s : Session} (hf : Fresh s)
    (hr : Reachable s.net) {files : List Str} (hl : LocsOk s.net files) (scopes names : List Str)
    (pattern : Str) :
    ∃ rows, runAction rx s files scopes names (.findRegex pattern) =
        .ok (.table [lit "Name", lit "Location"] rows) ∧
      Lists s.net files scopes names (fun m => m ∈ s.net.g.nodes ∧
        ∃ p, (s.net.data m).path = some p ∧ rx pattern p = true) rows := by
  obtain ⟨rows, h1, h2⟩ := find_report (rx := rx pattern) hf hr hl scopes names
  exact ⟨rows, by simp only [runAction, nameHeader, h1, bind, Except.bind, pure, Except.pure], h2⟩

/-! ### Concrete cases -/

/-- The places a call brings into the netlist. -/
def OpLocs (files : List Str) : NetOp → Prop
  | .addNode d => ∀ l, d.loc = some l → LocOk files l
  | .setAttr _ a => ∀ s, a.symbol = some s → LocOk files s.loc
  | _ => True

/-- A netlist made of valid places has only valid places. -/
theorem locs_of_calls {files : List Str} : ∀ (ops : List NetOp) {net net' : NetGraph},
    LocsOk net files → (∀ op ∈ ops, OpLocs files op) → NetGraph.calls net ops = some net' →
    LocsOk net' files
  | [], _, _, h, _, e => by simp only [NetGraph.calls, Option.some.injEq] at e; exact e ▸ h
  | op :: ops, net, net', h, ho, e => by
    unfold NetGraph.calls at e
    cases hc : net.call op with
    | none => rw [hc] at e; cases e
    | some mid =>
      rw [hc] at e
      refine locs_of_calls ops ?_ (fun o m => ho o (by simp [m])) e
      have h1 := ho op (by simp)
      unfold NetGraph.call at hc
      split at hc
      · split at hc
        · cases hc
        · simp only [Option.some.injEq] at hc
          subst hc
          refine ⟨fun n l hl => ?_, fun e s hs => ?_⟩
          · dsimp only at hl
            split at hl
            · split at hl
              · exact h1 l hl
              · exact h.node n l hl
            · exact h.node n l hl
          · dsimp only at hs
            split at hs
            · cases hs
            · exact h.edge e s hs
      · split at hc <;> simp only [Option.some.injEq] at hc <;> subst hc
        · refine ⟨h.node, fun e s hs => ?_⟩
          dsimp only at hs
          split at hs
          · exact h1 s hs
          · exact h.edge e s hs
        · exact ⟨h.node, h.edge⟩
        · exact ⟨h.node, h.edge⟩
        · exact h

theorem empty_locs (files : List Str) : LocsOk {} files := ⟨nofun, nofun⟩

theorem sample_locs (files : List Str) : LocsOk sampleNet files := by
  refine locs_of_calls (net := {}) sampleOps (empty_locs files) ?_ rfl
  intro op hop
  simp only [sampleOps, List.mem_cons, List.not_mem_nil, or_false] at hop
  rcases hop with rfl | rfl | rfl | rfl | rfl | rfl | rfl | rfl | rfl | rfl | rfl | rfl | rfl | rfl | rfl |
    rfl | rfl | rfl <;> simp [OpLocs, sPort, sState, NodeData.loc, LocOk]

/-- The sample netlist as a session without an index. -/
abbrev sampleAsk : Session := ⟨sampleNet, none⟩

/-- The listing of the fan-out of the input `in` (which reaches two assignments and a merge, none of them
named), of the fan-in of the register, of the registers and of the nodes found by the pattern `*`. -/
example : (∃ rows, runAction (fun _ _ => true) sampleAsk [['f']] [] [] (.fanOut ['i', 'n']) =
        .ok (.table [lit "Name", lit "Location"] rows) ∧
      Lists sampleNet [['f']] [] [] (fun m => Reach (CombStep sampleNet) 2 m) rows) ∧
    runAction (fun _ _ => true) sampleAsk [['f']] [] [] (.fanOut ['x']) = .error .message ∧
    (∃ rows, runAction (fun _ _ => true) sampleAsk [['f']] [] [] (.fanIn ['r']) =
        .ok (.table [lit "Name", lit "Location"] rows) ∧
      Lists sampleNet [['f']] [] [] (fun m => Reach (CombBackStep sampleNet) m 1) rows) ∧
    (∃ rows, runAction (fun _ _ => true) sampleAsk [['f']] [] [] .registers =
        .ok (.table [lit "Name", lit "Location"] rows) ∧
      Lists sampleNet [['f']] [] [] (fun m => m ∈ sampleNet.g.nodes ∧ sampleNet.kind m = .state) rows) ∧
    (∃ rows, runAction (fun _ _ => true) sampleAsk [['f']] [] [] (.find ['*']) =
        .ok (.table [lit "Name", lit "Location"] rows) ∧
      Lists sampleNet [['f']] [] [] (fun m => m ∈ sampleNet.g.nodes ∧ ∃ p,
        (sampleNet.data m).path = some p ∧ Matches (pieces (visible ['*'])) (visible p)) rows) ∧
    (∃ rows, runAction (fun _ _ => true) sampleAsk [['f']] [] [] (.findRegex ['.']) =
        .ok (.table [lit "Name", lit "Location"] rows) ∧
      Lists sampleNet [['f']] [] [] (fun m => m ∈ sampleNet.g.nodes ∧ ∃ p,
        (sampleNet.data m).path = some p ∧ true = true) rows) :=
  have hr : Reachable sampleAsk.net := ⟨sampleOps, rfl⟩
  have hf : Fresh sampleAsk := .inl rfl
  have hl : LocsOk sampleAsk.net [['f']] := sample_locs _
  ⟨(fanOut_report_exact _ hf hr hl [] [] ['i', 'n']).2 2 (by decide +kernel),
   (fanOut_report_exact _ hf hr hl [] [] ['x']).1 (by decide +kernel),
   (fanIn_report_exact _ hf hr hl [] [] ['r']).2 1 (by decide +kernel),
   register_report_exact _ hr hl [] [],
   find_report_exact _ hf hr hl [] [] ['*'],
   findRegex_report_exact _ hf hr hl [] [] ['.']⟩

/-- A lone start and a lone end, each next to a request for a driver report. -/
example : chooseAction { start := some ['a'], drivers := some ['d'] } =
      chooseAction { fanOut := some ['a'], drivers := some ['d'] } ∧
    chooseAction { stop := some ['b'], drivers := some ['d'] } =
      chooseAction { fanIn := some ['b'], drivers := some ['d'] } :=
  ⟨lone_start_is_fanOut { start := some ['a'], drivers := some ['d'] } _ rfl rfl rfl,
   lone_end_is_fanIn { stop := some ['b'], drivers := some ['d'] } _ rfl rfl rfl⟩

end Verif.Props
