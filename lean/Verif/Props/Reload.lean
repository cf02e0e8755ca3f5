import Verif.Proofs.ReloadAll
import Verif.Props.EndToEnd

/-!
C82: a netlist that is saved and loaded again answers queries like the netlist that was saved
(specification in `Verif.Spec.Reload`).
-/
namespace Verif.Props
open Verif.Model Verif.Spec Verif.Proofs

/-- C82 (partial): let a design be built into a netlist in which no two edges join the same two nodes.
Saving it and loading the file succeeds, and every report of the tool on the loaded netlist is the
report on the built one: the same error, the same text, or the same table. Only the rows of the reports
on fan-in, constant drivers and sensitivity may come in another order.

Missing: the same with parallel edges; it fails, see `reload_loses_driver`. -/
theorem reload_report_partial {E : TravEnv} {ord : Tracker → List (Nat × Nat)} {top : List Member}
    {net : NetGraph} (h : netlist E ord top = .ok net) (hz : Sized net) (hi : Interned E.D) {c : ConstCodec}
    (hc : ConstsKept c net) (hp : NoParallel net) {files : List Str} (hf : files.Nodup) :
    ∃ st, load c (save net files) = .ok st ∧ st.net.blackBoxes = net.blackBoxes ∧
      ∀ rx scopes names act,
        SameReport (runAction rx ⟨net, none⟩ files scopes names act)
          (runAction rx ⟨st.net, none⟩ st.files scopes names act) ∧
        (¬ ByInEdges act → runAction rx ⟨st.net, none⟩ st.files scopes names act =
          runAction rx ⟨net, none⟩ files scopes names act) := by
  have hs := netlist_sown h
  obtain ⟨st, h1, h2, h3, h4⟩ := load_alike hs.reach hs.tidy (sown_savable hs hz hi) hf hp hc
  refine ⟨st, h1, h3, fun rx scopes names act => ?_⟩
  rw [h2]
  exact alike_report rx h4 files scopes names act

/-- C82: whatever edges the built netlist has, saving it and loading the file succeeds, and the reports
about nodes and the way they are joined (registers, searches by name, both fans, constant drivers) are
those of the built netlist. -/
theorem reload_nodes_report {E : TravEnv} {ord : Tracker → List (Nat × Nat)} {top : List Member}
    {net : NetGraph} (h : netlist E ord top = .ok net) (hz : Sized net) (hi : Interned E.D) {c : ConstCodec}
    (hc : ConstsKept c net) {files : List Str} (hf : files.Nodup) :
    ∃ st, load c (save net files) = .ok st ∧ st.net.blackBoxes = net.blackBoxes ∧
      ∀ rx scopes names act, ByNodes act →
        SameReport (runAction rx ⟨net, none⟩ files scopes names act)
          (runAction rx ⟨st.net, none⟩ st.files scopes names act) := by
  have hs := netlist_sown h
  obtain ⟨st, h1, h2, h3, h4⟩ := load_joins hs.reach hs.tidy (sown_savable hs hz hi) hf hs.live hc
  refine ⟨st, h1, h3, fun rx scopes names act ha => ?_⟩
  rw [h2]
  exact joins_report rx h4 files scopes names ha

/-- C82: whatever edges the built netlist has, there is a path between two nodes of the loaded netlist
if and only if there is one in the built netlist. -/
theorem reload_paths {E : TravEnv} {ord : Tracker → List (Nat × Nat)} {top : List Member}
    {net : NetGraph} (h : netlist E ord top = .ok net) (hz : Sized net) (hi : Interned E.D) {c : ConstCodec}
    (hc : ConstsKept c net) {files : List Str} (hf : files.Nodup) :
    ∃ st, load c (save net files) = .ok st ∧
      ∀ a b, (Reach (Step st.net) a b ↔ Reach (Step net) a b) ∧
        (OnCycle (CombStep st.net) a ↔ OnCycle (CombStep net) a) := by
  have hs := netlist_sown h
  obtain ⟨st, h1, h2, h3, h4⟩ := load_joins hs.reach hs.tidy (sown_savable hs hz hi) hf hs.live hc
  refine ⟨st, h1, fun a b => ⟨reach_iff h4.step, ?_⟩⟩
  unfold OnCycle
  constructor
  · rintro ⟨u, k1, k2⟩
    exact ⟨u, (reach_iff (combStep_norm h4)).1 k1, (combStep_norm h4 u a).1 k2⟩
  · rintro ⟨u, k1, k2⟩
    exact ⟨u, (reach_iff (combStep_norm h4)).2 k1, (combStep_norm h4 u a).2 k2⟩

/-! ### Concrete cases -/

/-- The letter of a symbol; a port has the letter of its signal. -/
def rlName (n : Nat) : Str := [Char.ofNat (97 + n % 20)]

/-- Signals `a`, `b`, … of eight bits; 20 and 21 are the ports of `a` and `b`. -/
def rlD : Design := ⟨fun n => ⟨rlName n, rlName n, {}⟩, fun _ => .other, fun _ => 8,
  fun n => match n with | 0 => some 20 | 1 => some 21 | _ => none, fun _ _ => []⟩

def rlE : TravEnv := ⟨rlD, {}, fun _ => 0, fun _ => []⟩

/-- `assign b = a;` -/
def rlB1 : Deferred := .continuous (ln 1) (.aligned [⟨[dsRef 1], [.lsp (dsRef 0)], ln 1⟩])

/-- `assign d = b;` -/
def rlB2 : Deferred := .continuous (ln 2) (.aligned [⟨[dsRef 3], [.lsp (dsRef 1)], ln 2⟩])

/-- `assign d = b[0] ^ b[2];` -/
def rlB3 : Deferred := .continuous (ln 2) (.aligned [⟨[dsRef 3], [.lsp ⟨1, ⟨0, 0⟩, 0, false⟩, .lsp ⟨1, ⟨2, 2⟩, 0, false⟩], ln 2⟩])

/-- A module with the input `a`, the output `b` and two blocks. -/
def rlTop (b : Deferred) : List Member :=
  [.inst false ['t'] ['t'] [.port (hdIn 20 0), .port (hdOut 21 1), .block rlB1, .block b] []]

def rlNet (b : Deferred) : NetGraph := (netlist rlE Tracker.slots (rlTop b)).toOption.getD {}

def rlC : ConstCodec := ⟨some, []⟩
def rlFiles : List Str := [['f']]

instance (l : TextLoc) : Decidable (LocFits l) := by unfold LocFits; infer_instance
instance (b : BitRange) : Decidable (RangeFits b) := by unfold RangeFits; infer_instance
instance (d : NodeData) : Decidable (DataFits d) := by unfold DataFits; cases d <;> infer_instance

/-- A check for the numbers of an edge. -/
def rlAttr (a : EdgeAttr) : Bool := decide (RangeFits a.bounds) && a.symbol.all fun s => decide (LocFits s.loc)

theorem rl_sized {net : NetGraph} (h1 : ∀ n ∈ net.g.nodes, net.id n < 2 ^ 64)
    (h2 : ∀ n ∈ net.g.nodes, DataFits (net.data n))
    (h3 : ∀ n ∈ net.g.nodes, ∀ e ∈ (net.g.obj n).outE, rlAttr (net.attr e.id) = true) : Sized net := by
  refine ⟨h1, h2, ?_⟩
  rintro e ⟨n, hn, he⟩
  have := h3 n hn e he
  simp only [rlAttr, Bool.and_eq_true, decide_eq_true_iff] at this
  refine ⟨this.1, fun s hs => ?_⟩
  rw [hs] at this
  simpa using this.2

theorem rl_interned : Interned rlE.D := by
  intro y z h
  have h' : rlName y = rlName z := h
  show (⟨rlName y, rlName y, {}⟩ : SymRef) = ⟨rlName z, rlName z, {}⟩
  rw [h']

theorem rl_consts (net : NetGraph) (h : ∀ n ∈ net.g.nodes, net.kind n ≠ .constant) : ConstsKept rlC net := by
  intro n hn v w l hd
  refine absurd ?_ (h n hn)
  unfold NetGraph.kind; rw [hd]; rfl

theorem rl_built {b : Deferred} (h : (netlist rlE Tracker.slots (rlTop b)).toOption.isSome = true) :
    netlist rlE Tracker.slots (rlTop b) = .ok (rlNet b) := by
  unfold rlNet
  cases hn : netlist rlE Tracker.slots (rlTop b) with
  | error e => rw [hn] at h; cases h
  | ok n => rfl

theorem rl_built2 : netlist rlE Tracker.slots (rlTop rlB2) = .ok (rlNet rlB2) := rl_built (by decide +kernel)
theorem rl_built3 : netlist rlE Tracker.slots (rlTop rlB3) = .ok (rlNet rlB3) := rl_built (by decide +kernel)
theorem rl_sized2 : Sized (rlNet rlB2) := rl_sized (by decide +kernel) (by decide +kernel) (by decide +kernel)
theorem rl_sized3 : Sized (rlNet rlB3) := rl_sized (by decide +kernel) (by decide +kernel) (by decide +kernel)

/-- The hypotheses of `reload_report_partial` are met by a module with two assignments; the path from
`a` to `b` has a report. -/
example : netlist rlE Tracker.slots (rlTop rlB2) = .ok (rlNet rlB2) ∧ Sized (rlNet rlB2) ∧ Interned rlE.D ∧
    ConstsKept rlC (rlNet rlB2) ∧ NoParallel (rlNet rlB2) ∧ rlFiles.Nodup ∧ (rlNet rlB2).g.numEdges = 3 ∧
    (runAction (fun _ _ => false) ⟨rlNet rlB2, none⟩ rlFiles [] [] (.path ['a'] ['b'])).toOption.isSome = true :=
  ⟨rl_built2, rl_sized2, rl_interned, rl_consts _ (by decide +kernel), by unfold NoParallel; decide +kernel, by decide, by decide +kernel,
    by decide +kernel⟩

def rlBack : Except LoadErr LoadSt := load rlC (save (rlNet rlB3) rlFiles)

theorem rl_before : runAction (fun _ _ => false) ⟨rlNet rlB3, none⟩ rlFiles [] [] (.drivers ['b']) =
    .ok (.table [lit "Bits", lit "Driver", lit "Location"]
      [[lit "[0]", lit "assignment", lit "f:1:1"], [lit "[7:0]", lit "assignment", lit "f:1:1"],
        [lit "[2]", lit "assignment", lit "f:1:1"]]) := by decide +kernel

theorem rl_back : ∃ st, load rlC (save (rlNet rlB3) rlFiles) = .ok st ∧
    runAction (fun _ _ => false) ⟨st.net, none⟩ st.files [] [] (.drivers ['b']) =
      .ok (.table [lit "Bits", lit "Driver", lit "Location"]
        [[lit "[7:0]", lit "assignment", lit "f:1:1"], [lit "[2]", lit "assignment", lit "f:1:1"]]) := by
  have h : (match rlBack with
    | .ok st => some (runAction (fun _ _ => false) ⟨st.net, none⟩ st.files [] [] (.drivers ['b']))
    | .error _ => none) = some (.ok (.table [lit "Bits", lit "Driver", lit "Location"]
        [[lit "[7:0]", lit "assignment", lit "f:1:1"], [lit "[2]", lit "assignment", lit "f:1:1"]])) := by
    decide +kernel
  unfold rlBack at h
  split at h
  · rename_i st hst
    exact ⟨st, hst, by simpa only [Option.some.injEq] using h⟩
  · cases h

/-- C82, disagreement: with two edges between the same two nodes a report changes. In
```
module t(input [7:0] a, output [7:0] b);
  wire [7:0] d;
  assign b = a;            // line 1
  assign d = b[0] ^ b[2];  // line 2
endmodule
```
the report on the drivers of `b` has the rows `[0]`, `[7:0]` and `[2]` for the first assignment.
After saving and loading the row `[0]` is gone. -/
theorem reload_loses_driver :
    ∃ (E : TravEnv) (top : List Member) (net : NetGraph) (c : ConstCodec) (files : List Str) (st : LoadSt),
      netlist E Tracker.slots top = .ok net ∧ Sized net ∧ Interned E.D ∧ ConstsKept c net ∧ files.Nodup ∧
      load c (save net files) = .ok st ∧
      (∃ h, runAction (fun _ _ => false) ⟨net, none⟩ files [] [] (.drivers ['b']) = .ok (.table h
        [[lit "[0]", lit "assignment", lit "f:1:1"], [lit "[7:0]", lit "assignment", lit "f:1:1"],
          [lit "[2]", lit "assignment", lit "f:1:1"]])) ∧
      ∃ h, runAction (fun _ _ => false) ⟨st.net, none⟩ st.files [] [] (.drivers ['b']) = .ok (.table h
        [[lit "[7:0]", lit "assignment", lit "f:1:1"], [lit "[2]", lit "assignment", lit "f:1:1"]]) := by
  obtain ⟨st, h1, h2⟩ := rl_back
  exact ⟨rlE, rlTop rlB3, rlNet rlB3, rlC, rlFiles, st, rl_built3, rl_sized3, rl_interned,
    rl_consts _ (by decide +kernel), by decide, h1, ⟨_, rl_before⟩, _, h2⟩

end Verif.Props
