import Verif.Proofs.Driver
import Verif.Props.Reload

/-!
C83: runs of the command-line tool (specification in `Verif.Spec.Driver`). C52: path reports by
diagnostics say the same as path reports by text.
-/
set_option linter.unusedSimpArgs false
namespace Verif.Props
open Verif.Model Verif.Spec Verif.Proofs

theorem format_of (o : MainOpts) :
    (formatOf o.format = none ∧ ¬ (o.format = none ∨ o.format = some (lit "json") ∨ o.format = some (lit "table"))) ∨
    (formatOf o.format = some (decide (o.format = some (lit "json"))) ∧
      (o.format = none ∨ o.format = some (lit "json") ∨ o.format = some (lit "table"))) := by
  unfold formatOf
  cases o.format with
  | none => right; simp
  | some f =>
    dsimp only
    split
    · rename_i h; right; subst h; simp
    · split
      · rename_i h1 h2; right; subst h2; simp [h1]
      · rename_i h1 h2; left; simp [h1, h2]

/-- The ways a run can go. -/
theorem run_split (w : World) (o : MainOpts) :
    (¬ Proceeds w o ∧ ((driverMain w o = ⟨some 1, []⟩) ∨
      (w.cmdLine = true ∧ o.help = some true ∧ driverMain w o = ⟨some 0, [.help]⟩) ∨
      (w.cmdLine = true ∧ o.help ≠ some true ∧ o.version = some true ∧ driverMain w o = ⟨some 0, [.version]⟩))) ∨
    (Proceeds w o ∧ driverMain w o = runBody w o (decide (o.format = some (lit "json")))) := by
  unfold driverMain Proceeds
  cases hc : w.cmdLine with
  | false => left; simp
  | true =>
    by_cases hh : o.help = some true
    · left; simp [hh]
    · by_cases hv : o.version = some true
      · left; simp [hh, hv]
      · rcases format_of o with ⟨h1, h2⟩ | ⟨h1, h2⟩
        · left; simp [hh, hv, h1, h2]
        · right; simp [hh, hv, h1, h2]

theorem loops_shape (net : NetGraph) (files : List Str) (d : Option (Nat → Bool)) (cs : List (List Nat)) :
    ((printLoops net files d cs).code = some 0 → LoopOuts (printLoops net files d cs).outs) ∧
    LoopPart (printLoops net files d cs).outs ∧ (cs ≠ [] → (printLoops net files d cs).outs ≠ []) := by
  induction cs with
  | nil => exact ⟨fun _ => trivial, trivial, fun h => absurd rfl h⟩
  | cons c cs ih =>
    unfold printLoops
    cases reportPathIn net files d c with
    | error e => exact ⟨fun h => (by cases e <;> cases h), trivial, fun _ => by simp⟩
    | ok p => exact ⟨fun h => ih.1 h, ih.2.1, fun _ => by simp⟩

theorem loopPart_of : ∀ {l : List Out}, LoopOuts l → LoopPart l
  | [], _ => trivial
  | .loopHead :: .loopPath _ :: rest, h => loopPart_of (l := rest) h
  | .loopHead :: [], _ => trivial

/-- What is given for the reports chosen without looking at lone endpoints. -/
theorem dispatch_shape (f : Flags) :
    match dispatch f with
    | .loops => f.registers = none ∧ f.loops ≠ none
    | .dot file _ => f.registers = none ∧ f.loops = none ∧ f.dot = some file
    | .path _ _ => f.registers = none ∧ f.loops = none ∧ f.dot = none ∧ f.find = none ∧ f.findRegex = none ∧
        f.fanOut = none ∧ f.fanIn = none ∧ f.sensitivity = none ∧ f.constants = none ∧ f.drivers = none ∧
        f.start ≠ none ∧ f.stop ≠ none
    | .noAction => True
    | _ => f.registers ≠ none ∨ f.loops = none ∧ f.dot = none ∧ (f.find ≠ none ∨ f.findRegex ≠ none ∨
        f.fanOut ≠ none ∨ f.fanIn ≠ none ∨ f.sensitivity ≠ none ∨ f.constants ≠ none ∨ f.drivers ≠ none) := by
  unfold dispatch
  by_cases h1 : f.registers = none
  · by_cases h2 : f.loops = none
    · cases h3 : f.dot <;> simp only [h1, h2, h3]
      · cases h4 : f.find <;> simp only [h4]
        · cases h5 : f.findRegex <;> simp only [h5]
          · cases h6 : f.fanOut <;> simp only [h6]
            · cases h7 : f.fanIn <;> simp only [h7]
              · cases h8 : f.sensitivity <;> simp only [h8]
                · cases h9 : f.constants <;> simp only [h9]
                  · cases h10 : f.drivers <;> simp only [h10]
                    · cases h11 : f.start <;> cases h12 : f.stop <;> simp
                    · simp
                  · simp
                · simp
              · simp
            · simp
          · simp
        · simp
      · simp
    · simp [h1, h2]
      cases h3 : f.loops
      · exact absurd h3 h2
      · simp
  · cases h3 : f.registers
    · exact absurd h3 h1
    · simp

/-- A table is asked for when the chosen report is neither loops, a graph, a path nor nothing. -/
theorem asks_table (f : Flags) :
    match chooseAction f with
    | .loops => f.registers = none ∧ f.loops ≠ none
    | .dot file _ => f.registers = none ∧ f.loops = none ∧ f.dot = some file
    | .path _ _ => ¬ AsksTable f ∧ f.loops = none ∧ f.dot = none ∧ f.start ≠ none ∧ f.stop ≠ none
    | .noAction => True
    | _ => AsksTable f := by
  have hal : (aliasEndpoints f = { f with fanOut := f.start } ∧ f.start ≠ none ∧ f.stop = none) ∨
      (aliasEndpoints f = { f with fanIn := f.stop } ∧ f.start = none ∧ f.stop ≠ none) ∨ aliasEndpoints f = f := by
    unfold aliasEndpoints
    split
    · left; refine ⟨rfl, ?_⟩; cases h1 : f.start <;> cases h2 : f.stop <;> simp_all
    · split
      · right; left; refine ⟨rfl, ?_⟩; cases h1 : f.start <;> cases h2 : f.stop <;> simp_all
      · exact .inr (.inr rfl)
  unfold chooseAction
  have hs := dispatch_shape (aliasEndpoints f)
  rcases hal with ⟨h, h1, h2⟩ | ⟨h, h1, h2⟩ | h
  · rw [h] at hs ⊢
    generalize dispatch { f with fanOut := f.start } = act at hs ⊢
    cases act <;> simp_all [AsksTable]
  · rw [h] at hs ⊢
    generalize dispatch { f with fanIn := f.stop } = act at hs ⊢
    cases act <;> simp_all [AsksTable]
  · rw [h] at hs ⊢
    generalize dispatch f = act at hs ⊢
    cases act <;> dsimp only at hs ⊢
    case path a b =>
      refine ⟨fun h => ?_, hs.2.1, hs.2.2.1, hs.2.2.2.2.2.2.2.2.2.2⟩
      simp_all [AsksTable]
    case loops => exact hs
    case dot => exact hs
    all_goals
      rcases hs with h | ⟨h1, h2, h3⟩
      · exact .inl h
      · refine .inr ⟨h1, h2, ?_⟩
        rcases h3 with h | h | h | h | h | h | h <;> simp [h]

/-- What a report can be, by the report asked for. -/
theorem report_shape (rx : Str → Str → Bool) (s : Session) (files scopes names : List Str) (act : Action)
    {r : Report} (h : runAction rx s files scopes names act = .ok r) :
    match act with
    | .loops => True
    | .path _ _ => True
    | .dot file _ => ∃ t, r = .dot file t
    | .noAction => False
    | _ => ∃ hd rows, r = .table hd rows := by
  cases act <;> simp only [runAction, bind, Except.bind, pure, Except.pure] at h <;> dsimp only
  all_goals (repeat' split at h)
  all_goals (cases h <;> first | trivial | exact ⟨_, rfl⟩ | exact ⟨_, _, rfl⟩)

theorem table_out (o : MainOpts) : outputFileOf o.output = tableTarget o.output := by
  unfold outputFileOf tableTarget
  have : lit "-" = ['-'] := by decide +kernel
  cases o.output <;> simp [this]

/-- The end of a query. -/
theorem query_shape (w : World) (o : MainOpts) (d : Option (Nat → Bool)) (net : NetGraph) (files : List Str) :
    let r := runQuery w o (decide (o.format = some (lit "json"))) d net files
    (r.code = some 0 → Answers o r.outs) ∧ (r.code = some 0 ∨ r.code = some 1 ∨ r.code = none) ∧
    (r.code ≠ some 0 → LoopPart r.outs ∧ (o.flags.loops = none → r.outs = [])) := by
  have hflag := asks_table o.flags
  intro r
  have hwo : ∀ f out, (writeOr w f out).code = some 0 ∧ (writeOr w f out).outs = [out] ∨
      (writeOr w f out).code = some 1 ∧ (writeOr w f out).outs = [] := by
    intro f out; unfold writeOr; split <;> simp
  have herr : ∀ e, (errCode e = some 0 → False) ∧ (errCode e = some 0 ∨ errCode e = some 1 ∨ errCode e = none) := by
    intro e; cases e <;> simp [errCode]
  have hfail : ∀ {r : RunResult}, (∃ e, r.code = errCode e) → r.outs = [] →
      (r.code = some 0 → Answers o r.outs) ∧ (r.code = some 0 ∨ r.code = some 1 ∨ r.code = none) ∧
      (r.code ≠ some 0 → LoopPart r.outs ∧ (o.flags.loops = none → r.outs = [])) := by
    rintro r ⟨e, he⟩ ho
    rw [he, ho]
    exact ⟨fun h => ((herr e).1 h).elim, (herr e).2, fun _ => ⟨trivial, fun _ => rfl⟩⟩
  have hgood : ∀ {r : RunResult}, r.code = some 0 → Answers o r.outs →
      (r.code = some 0 → Answers o r.outs) ∧ (r.code = some 0 ∨ r.code = some 1 ∨ r.code = none) ∧
      (r.code ≠ some 0 → LoopPart r.outs ∧ (o.flags.loops = none → r.outs = [])) :=
    fun h1 h2 => ⟨fun _ => h2, .inl h1, fun h => absurd h1 h⟩
  have htable : ∀ hd rows, AsksTable o.flags →
      let r := emitTable w o (decide (o.format = some (lit "json"))) hd rows
      (r.code = some 0 → Answers o r.outs) ∧ (r.code = some 0 ∨ r.code = some 1 ∨ r.code = none) ∧
      (r.code ≠ some 0 → LoopPart r.outs ∧ (o.flags.loops = none → r.outs = [])) := by
    intro hd rows ht r
    have hq := Answers.table (o := o) hd rows ht
    rw [← table_out] at hq
    revert r
    unfold emitTable
    cases hout : outputFileOf o.output with
    | none => rw [hout] at hq; exact hgood rfl hq
    | some f =>
      rw [hout] at hq
      intro r
      rcases hwo f (.table (some f) (decide (o.format = some (lit "json"))) hd rows) with ⟨h1, h2⟩ | ⟨h1, h2⟩
      · refine hgood h1 ?_; show Answers o (writeOr _ _ _).outs; rw [h2]; exact hq
      · exact hfail ⟨.message, h1⟩ h2
  have hemit : ∀ act, (match act with
      | .loops => False | .path _ _ => False | .dot file _ => o.flags.registers = none ∧ o.flags.loops = none ∧
        o.flags.dot = some file | .noAction => True | _ => AsksTable o.flags) →
      let r := emitMade w o (decide (o.format = some (lit "json")))
        (runAction w.regex ⟨net, none⟩ files o.scopes o.names act)
      (r.code = some 0 → Answers o r.outs) ∧ (r.code = some 0 ∨ r.code = some 1 ∨ r.code = none) ∧
      (r.code ≠ some 0 → LoopPart r.outs ∧ (o.flags.loops = none → r.outs = [])) := by
    intro act hact
    cases hr : runAction w.regex ⟨net, none⟩ files o.scopes o.names act with
    | error e => exact hfail ⟨e, rfl⟩ rfl
    | ok rep =>
      have hs := report_shape _ _ _ _ _ _ hr
      cases act with
      | loops => exact hact.elim
      | path a b => exact hact.elim
      | noAction => exact hs.elim
      | dot file sc =>
        obtain ⟨t, rfl⟩ := hs
        obtain ⟨k1, k2, k3⟩ := hact
        intro r
        rcases hwo file (.dot file t) with ⟨h1, h2⟩ | ⟨h1, h2⟩
        · refine hgood h1 ?_; show Answers o (writeOr _ _ _).outs; rw [h2]; exact .dot file t k1 k2 k3
        · exact hfail ⟨.message, h1⟩ h2
      | _ => obtain ⟨hd, rows, rfl⟩ := hs; exact htable hd rows hact
  revert r
  unfold runQuery
  cases hact : chooseAction o.flags with
  | loops =>
    rw [hact] at hflag
    dsimp only
    unfold runLoops
    cases hcs : combLoops net with
    | nil => exact hgood rfl (.noLoops hflag.1 hflag.2)
    | cons c cs =>
      obtain ⟨k1, k2, k3⟩ := loops_shape net files d (c :: cs)
      refine ⟨fun h => .loops _ hflag.1 hflag.2 (k3 (by simp)) (k1 h), ?_, fun _ => ⟨k2, fun h => absurd h hflag.2⟩⟩
      dsimp only
      generalize c :: cs = cs
      induction cs with
      | nil => exact .inl rfl
      | cons c cs ih =>
        unfold printLoops
        cases reportPathIn net files d c with
        | error e => exact (herr e).2
        | ok p => exact ih
  | path a b =>
    rw [hact] at hflag
    dsimp only
    unfold runPath
    split
    · exact hfail ⟨_, rfl⟩ rfl
    · exact hgood rfl (.path _ hflag.1 hflag.2.1 hflag.2.2.1 hflag.2.2.2.1 hflag.2.2.2.2)
  | noAction => exact hemit .noAction trivial
  | dot file sc => rw [hact] at hflag; exact hemit (.dot file sc) hflag
  | _ => rw [hact] at hflag; exact hemit _ hflag

theorem body_shape (w : World) (o : MainOpts) :
    let r := runBody w o (decide (o.format = some (lit "json")))
    (r.code = some 0 →
      (o.load = none ∧ ∃ file net files, o.save = some file ∧ w.build = .ok (net, files) ∧
        r.outs = [.saved file (save net files)]) ∨ ((o.load ≠ none ∨ o.save = none) ∧ Answers o r.outs)) ∧
    (r.code = some 0 ∨ r.code = some 1 ∨ r.code = none ∨ (r.code = some 2 ∧ o.load = none ∧ w.options = false)) ∧
    (o.load = none → w.options = false → r.code = some 2) ∧
    (r.code ≠ some 0 → LoopPart r.outs ∧ (o.flags.loops = none → r.outs = [])) := by
  unfold runBody
  cases hl : o.load with
  | some file =>
    dsimp only
    cases readNetlist w file with
    | error e => cases e <;> simp [errCode, LoopPart]
    | ok x =>
      obtain ⟨h1, h2, h3⟩ := query_shape w o none x.1 x.2
      refine ⟨fun h => .inr ⟨by simp, h1 h⟩, ?_, by simp, h3⟩
      rcases h2 with h | h | h
      · exact .inl h
      · exact .inr (.inl h)
      · exact .inr (.inr (.inl h))
  | none =>
    cases h1 : w.options with
    | false => simp [LoopPart]
    | true =>
    cases h2 : w.sources with
    | false => simp [LoopPart]
    | true =>
    cases h3 : w.elaborated with
    | false => simp [LoopPart]
    | true =>
    cases h4 : w.analysed with
    | false => simp [LoopPart]
    | true =>
    cases hb : w.build with
    | error e => cases e <;> simp [errCode, LoopPart]
    | ok x =>
      cases hs : o.save with
      | some file =>
        obtain ⟨net, files⟩ := x
        by_cases hw : w.canWrite file = true <;> simp [writeOr, hw, LoopPart]
        exact ⟨net, files, ⟨rfl, rfl⟩, rfl⟩
      | none =>
        obtain ⟨k1, k2, k3⟩ := query_shape w o (some w.src) x.1 x.2
        simp only [Bool.not_true, Bool.false_eq_true, ↓reduceIte]
        refine ⟨fun h => .inr ⟨.inr trivial, k1 h⟩, ?_, by simp, k3⟩
        rcases k2 with h | h | h
        · exact .inl h
        · exact .inr (.inl h)
        · exact .inr (.inr (.inl h))

/-- C83: a run that ends with status 0 has emitted what the options ask for and nothing else: the help
text, the version, the saved netlist (when nothing is loaded), or the one report that was chosen, in the
format and to the file given. -/
theorem run_success {w : World} {o : MainOpts} (h : (driverMain w o).code = some 0) :
    (o.help = some true ∧ (driverMain w o).outs = [.help]) ∨
    (o.help ≠ some true ∧ o.version = some true ∧ (driverMain w o).outs = [.version]) ∨
    (Proceeds w o ∧ o.load = none ∧ ∃ file net files, o.save = some file ∧ w.build = .ok (net, files) ∧
      (driverMain w o).outs = [.saved file (save net files)]) ∨
    (Proceeds w o ∧ (o.load ≠ none ∨ o.save = none) ∧ Answers o (driverMain w o).outs) := by
  rcases run_split w o with ⟨_, h1 | ⟨_, h2, h3⟩ | ⟨_, h2, h3, h4⟩⟩ | ⟨hp, h1⟩
  · rw [h1] at h; cases h
  · exact .inl ⟨h2, by rw [h3]⟩
  · exact .inr (.inl ⟨h2, h3, by rw [h4]⟩)
  · rw [h1] at h ⊢
    rcases (body_shape w o).1 h with ⟨k1, k2⟩ | ⟨k1, k2⟩
    · exact .inr (.inr (.inl ⟨hp, k1, k2⟩))
    · exact .inr (.inr (.inr ⟨hp, k1, k2⟩))

/-- C83: a run that does not end with status 0 has emitted nothing, except that a report on loops may
have been cut short. In particular no file is written. -/
theorem run_failure {w : World} {o : MainOpts} (h : (driverMain w o).code ≠ some 0) :
    LoopPart (driverMain w o).outs ∧ (o.flags.loops = none → (driverMain w o).outs = []) := by
  rcases run_split w o with ⟨_, h1 | ⟨_, h2, h3⟩ | ⟨_, h2, h3, h4⟩⟩ | ⟨hp, h1⟩
  · rw [h1]; exact ⟨trivial, fun _ => rfl⟩
  · rw [h3] at h; exact absurd rfl h
  · rw [h4] at h; exact absurd rfl h
  · rw [h1] at h ⊢; exact (body_shape w o).2.2.2 h

/-- C83: the exit status is 0, 1 or 2 (or the run is undefined), and it is 2 exactly when sources are to
be compiled and slang rejects its options. -/
theorem run_status (w : World) (o : MainOpts) :
    ((driverMain w o).code = some 0 ∨ (driverMain w o).code = some 1 ∨ (driverMain w o).code = none ∨
      (driverMain w o).code = some 2) ∧
    ((driverMain w o).code = some 2 ↔ Proceeds w o ∧ o.load = none ∧ w.options = false) := by
  rcases run_split w o with ⟨hp, h1 | ⟨_, h2, h3⟩ | ⟨_, h2, h3, h4⟩⟩ | ⟨hp, h1⟩
  · rw [h1]; simp [hp]
  · rw [h3]; simp [hp]
  · rw [h4]; simp [hp]
  · rw [h1]
    obtain ⟨_, k1, k2, _⟩ := body_shape w o
    constructor
    · rcases k1 with h | h | h | h
      · exact .inl h
      · exact .inr (.inl h)
      · exact .inr (.inr (.inl h))
      · exact .inr (.inr (.inr h.1))
    · constructor
      · intro h
        rcases k1 with k | k | k | k
        · rw [k] at h; cases h
        · rw [k] at h; cases h
        · rw [k] at h; cases h
        · exact ⟨hp, k.2⟩
      · rintro ⟨_, k3, k4⟩
        exact k2 k3 k4

/-- C83: with `--load-netlist` neither the sources nor `--save-netlist` have any effect. -/
theorem run_load_only {w w' : World} {o : MainOpts} {file : Str} (ho : o.load = some file)
    (h1 : w'.cmdLine = w.cmdLine) (h2 : w'.read file = w.read file) (h3 : w'.canWrite = w.canWrite)
    (h4 : w'.codec = w.codec) (h5 : w'.regex = w.regex) (sv : Option Str) :
    driverMain w' { o with save := sv } = driverMain w o := by
  have hr : readNetlist w' file = readNetlist w file := by unfold readNetlist; rw [h2, h4]
  have hw : ∀ f x, writeOr w' f x = writeOr w f x := by intro f x; unfold writeOr; rw [h3]
  have hq : ∀ json net files, runQuery w' { o with save := sv } json none net files =
      runQuery w o json none net files := by
    intro json net files
    have he : ∀ r, emitMade w' { o with save := sv } json r = emitMade w o json r := by
      intro r
      unfold emitMade emitTable
      split <;> simp [hw]
    unfold runQuery
    rw [h5]
    cases chooseAction o.flags <;> first | rfl | exact he _
  unfold driverMain runBody
  rw [ho] at hq
  simp only [h1, ho, hr, hq]

/-- C83: with `--save-netlist` and without `--load-netlist` the netlist that was built is written, and no
other option has an effect. -/
theorem run_save {w : World} {o : MainOpts} {file : Str} (hp : Proceeds w o) (hc : Compiles w) (hl : o.load = none)
    (hs : o.save = some file) {net : NetGraph} {files : List Str} (hb : w.build = .ok (net, files))
    (hw : w.canWrite file = true) : driverMain w o = ⟨some 0, [.saved file (save net files)]⟩ := by
  rcases run_split w o with ⟨h, _⟩ | ⟨_, h⟩
  · exact absurd hp h
  · rw [h]
    obtain ⟨c1, c2, c3, c4⟩ := hc
    simp [runBody, hl, hs, hb, c1, c2, c3, c4, writeOr, hw]

/-- C83 (partial): let a design be built into a netlist in which no two edges join the same two nodes.
One run with `--save-netlist` and a second run with `--load-netlist` on the file it wrote (and on no
sources) give the exit status and the output of a single run on the sources: the same report to the same
place, up to the order of rows; a path told by diagnostics in the single run is told by the same lines of
text in the second run.

Missing: the same with parallel edges; it fails, see `reload_loses_driver`. -/
theorem save_load_run_partial {E : TravEnv} {ord : Tracker → List (Nat × Nat)} {top : List Member}
    {net : NetGraph} (h : netlist E ord top = .ok net) (hz : Sized net) (hi : Interned E.D) {w w' : World}
    (hk : ConstsKept w'.codec net) (hp : NoParallel net) {files : List Str} (hf : files.Nodup)
    (hloc : LocsOk net files) (hb : w.build = .ok (net, files)) (hc : Compiles w) {o : MainOpts} {file : Str}
    (hl : o.load = none) (hs : o.save = none) (hpr : Proceeds w o) (hw : w.canWrite file = true)
    (hcmd : w'.cmdLine = true) (hcw : w'.canWrite = w.canWrite) (hrx : w'.regex = w.regex) :
    ∃ content, driverMain w { o with save := some file } = ⟨some 0, [.saved file content]⟩ ∧
      (w'.read file = some (some content) →
        SameRun files (driverMain w o) (driverMain w' { o with load := some file })) := by
  have hsw := netlist_sown h
  obtain ⟨st, h1, h2, h3, h4⟩ := load_alike hsw.reach hsw.tidy (sown_savable hsw hz hi) hf hp hk
  refine ⟨save net files, run_save (o := { o with save := some file }) hpr hc hl rfl hb hw, fun hread => ?_⟩
  have e1 : driverMain w o = runQuery w o (decide (o.format = some (lit "json"))) (some w.src) net files := by
    rcases run_split w o with ⟨h, _⟩ | ⟨_, h⟩
    · exact absurd hpr h
    · rw [h]
      obtain ⟨c1, c2, c3, c4⟩ := hc
      simp [runBody, hl, hs, hb, c1, c2, c3, c4]
  have e2 : driverMain w' { o with load := some file } =
      runQuery w' { o with load := some file } (decide (o.format = some (lit "json"))) none st.net files := by
    rcases run_split w' { o with load := some file } with ⟨h, _⟩ | ⟨_, h⟩
    · exact absurd ⟨hcmd, hpr.2⟩ h
    · rw [h]
      simp only [runBody, readNetlist, hread, h1, h2]
  rw [e1, e2]
  exact runQuery_same (o := o) (o' := { o with load := some file }) hcw hrx rfl rfl rfl rfl _ _ h4 hloc

/-- C52: whether a path is reported by diagnostics or by text, the same is said: for every list of nodes
the lines of the diagnostics are the lines of the text, and one fails where the other fails. -/
theorem diag_report_exact {net : NetGraph} {files : List Str} (h : LocsOk net files)
    (diag : Option (Nat → Bool)) (p : List Nat) :
    (∀ e, reportPathIn net files diag p = .error e ↔ reportPath net files p = .error e) ∧
    ∀ t, (∃ x, reportPathIn net files diag p = .ok x ∧ said files x = t) ↔ reportPath net files p = .ok t := by
  have hs := pathIn_said h diag p
  rw [← hs]
  cases reportPathIn net files diag p <;> simp [Except.map]

/-- C52: a path is reported by diagnostics exactly when the netlist was built from sources and the first
node of the path that has a place in the text has its source location. -/
theorem diag_mode {net : NetGraph} {files : List Str} {diag : Option (Nat → Bool)} {p : List Nat} {x : PathOut}
    (h : reportPathIn net files diag p = .ok x) :
    (∃ ds, x = .diags ds) ↔ ∃ src pre n post, diag = some src ∧ p = pre ++ n :: post ∧
      (∀ m ∈ pre, ¬ Placed (net.data m)) ∧ Placed (net.data n) ∧ src n = true := by
  have hpl : ∀ d : NodeData, d.pathLoc.isSome = true ↔ Placed d := by
    intro d; cases d <;> simp [NodeData.pathLoc, Placed]
  have hu : ∀ (src : Nat → Bool) (p : List Nat), useDiag net src p = true ↔ ∃ pre n post, p = pre ++ n :: post ∧
      (∀ m ∈ pre, ¬ Placed (net.data m)) ∧ Placed (net.data n) ∧ src n = true := by
    intro src p
    induction p with
    | nil => simp [useDiag]
    | cons a p ih =>
      unfold useDiag
      by_cases ha : Placed (net.data a)
      · rw [if_pos ((hpl _).2 ha)]
        constructor
        · intro hs; exact ⟨[], a, p, rfl, by simp, ha, hs⟩
        · rintro ⟨pre, n, post, he, hm, hn, hs⟩
          cases pre with
          | nil => simp only [List.nil_append, List.cons.injEq] at he; rw [he.1]; exact hs
          | cons b pre =>
            simp only [List.cons_append, List.cons.injEq] at he
            exact absurd ha (he.1 ▸ hm b (by simp))
      · rw [if_neg (fun hc => ha ((hpl _).1 hc)), ih]
        constructor
        · rintro ⟨pre, n, post, he, hm, hn, hs⟩
          refine ⟨a :: pre, n, post, by simp [he], ?_, hn, hs⟩
          intro m hm'
          rcases List.mem_cons.1 hm' with e | e
          · rw [e]; exact ha
          · exact hm m e
        · rintro ⟨pre, n, post, he, hm, hn, hs⟩
          cases pre with
          | nil => simp only [List.nil_append, List.cons.injEq] at he; exact absurd hn (he.1 ▸ ha)
          | cons b pre =>
            simp only [List.cons_append, List.cons.injEq] at he
            exact ⟨pre, n, post, he.2, fun m hm' => hm m (by simp [hm']), hn, hs⟩
  cases diag with
  | none =>
    simp only [reportPathIn] at h
    cases hr : reportPath net files p with
    | error e => rw [hr] at h; simp [Except.map] at h
    | ok t =>
      rw [hr] at h
      simp only [Except.map, Except.ok.injEq] at h
      subst h
      simp
  | some src =>
    simp only [reportPathIn] at h
    by_cases hd : useDiag net src p = true
    · rw [if_pos hd] at h
      obtain ⟨pre, n, post, h1, h2, h3, h4⟩ := (hu src p).1 hd
      cases hr : reportPathDiag net p with
      | error e => rw [hr] at h; simp [Except.map] at h
      | ok t =>
        rw [hr] at h
        simp only [Except.map, Except.ok.injEq] at h
        subst h
        exact ⟨fun _ => ⟨src, pre, n, post, rfl, h1, h2, h3, h4⟩, fun _ => ⟨t, rfl⟩⟩
    · rw [if_neg hd] at h
      cases hr : reportPath net files p with
      | error e => rw [hr] at h; simp [Except.map] at h
      | ok t =>
        rw [hr] at h
        simp only [Except.map, Except.ok.injEq] at h
        subst h
        constructor
        · rintro ⟨ds, hds⟩; simp at hds
        · rintro ⟨src', pre, n, post, he, h1, h2, h3, h4⟩
          simp only [Option.some.injEq] at he
          subst he
          exact absurd ((hu src p).2 ⟨pre, n, post, h1, h2, h3, h4⟩) hd

/-- C83: a run that is to load a file that cannot be read, is not JSON or is rejected by the loader, and a
run whose sources are rejected, end with status 1 and emit nothing. -/
theorem run_rejects {w : World} {o : MainOpts} (hp : Proceeds w o)
    (h : (∃ file, o.load = some file ∧ Unloadable w file) ∨
      o.load = none ∧ w.options = true ∧ (w.sources = false ∨ w.elaborated = false ∨ w.analysed = false)) :
    driverMain w o = ⟨some 1, []⟩ := by
  rcases run_split w o with ⟨hn, _⟩ | ⟨_, h1⟩
  · exact absurd hp hn
  · rw [h1]
    unfold runBody
    rcases h with ⟨file, ho, hu⟩ | ⟨ho, h2, h3⟩
    · rw [ho]
      have hr : readNetlist w file = .error .message := by
        unfold readNetlist
        rcases hu with e | e | ⟨j, e, h2, h3, h4, h5⟩
        · rw [e]
        · rw [e]
        · rw [h2]
          dsimp only
          rw [h3]
          cases e <;> simp [loadErrOf] at h4 h5 ⊢
      simp [hr, errCode]
    · rw [ho]
      dsimp only
      rw [h2]
      rcases h3 with e | e | e <;> rw [e] <;> cases w.sources <;> cases w.elaborated <;> rfl

/-- C83: a run whose loader goes wrong ends with status 1 if the loader gave an error, and is undefined if
the loader failed an assertion or was itself undefined; nothing is emitted either way. -/
theorem run_load_fails {w : World} {o : MainOpts} (hp : Proceeds w o) {file : Str} {j : Json} {e : LoadErr}
    (ho : o.load = some file) (hr : w.read file = some (some j)) (hl : load w.codec j = .error e) :
    (e = .ub ∨ e = .assertion → driverMain w o = ⟨none, []⟩) ∧
    (e ≠ .ub → e ≠ .assertion → driverMain w o = ⟨some 1, []⟩) := by
  constructor
  · intro he
    rcases run_split w o with ⟨hn, _⟩ | ⟨_, h1⟩
    · exact absurd hp hn
    · rw [h1]
      unfold runBody readNetlist
      simp only [ho, hr, hl]
      rcases he with rfl | rfl <;> rfl
  · intro h1 h2
    exact run_rejects hp (.inl ⟨file, ho, .inr (.inr ⟨j, e, hr, hl, h1, h2⟩)⟩)

/-! ### Concrete cases -/

instance (files : List Str) (l : TextLoc) : Decidable (LocOk files l) := by unfold LocOk; infer_instance

/-- In a built netlist the locations are those of the nodes made and of the symbols of the design. -/
theorem built_locs {E : TravEnv} {ord : Tracker → List (Nat × Nat)} {top : List Member} {net : NetGraph}
    (h : netlist E ord top = .ok net) {files : List Str} (hs : ∀ y, LocOk files (E.D.ref y).loc)
    (hn : ∀ n ∈ net.g.nodes, ((net.data n).loc.all fun l => decide (LocOk files l)) = true) : LocsOk net files := by
  have hw := netlist_sown h
  refine ⟨fun n l hl => ?_, fun e s he => ?_⟩
  · by_cases hm : n ∈ net.g.nodes
    · have := hn n hm
      rw [hl] at this
      simpa using this
    · rw [hw.tidy.data n (by rw [hw.tidy.nodes, List.mem_range] at hm; omega)] at hl
      cases hl
  · obtain ⟨y, rfl⟩ := hw.syms e s he
    exact hs y

def dvNet : NetGraph := rlNet rlB2

theorem dv_locs : LocsOk dvNet rlFiles :=
  built_locs rl_built2 (fun y => .inl rfl) (by decide +kernel)

/-- slang accepts the sources; every file can be written; the file `n` holds the saved netlist. -/
def dvW : World :=
  ⟨true, true, true, true, true, .ok (dvNet, rlFiles), fun _ => true,
    fun f => if f = ['n'] then some (some (save dvNet rlFiles)) else none, fun _ => true, rlC, fun _ _ => false⟩

/-- Nothing can be compiled here. -/
def dvBare : World := { dvW with options := false, build := .error .message }

/-- `--from a --to b`. -/
def dvO : MainOpts := { flags := { start := some ['a'], stop := some ['b'] } }

theorem dv_outs : (driverMain dvW dvO).code = some 0 ∧ (driverMain dvW dvO).outs.length = 1 := by decide +kernel

theorem dv_path : (match (driverMain dvW dvO).outs with
    | [.path (.diags ds)] => ds.map DiagItem.text
    | _ => []) = [lit "input port a", lit "value a[7:0]", lit "assignment", lit "value b[7:0]", lit "output port b"] := by
  decide +kernel

/-- The hypotheses of `save_load_run_partial` are met: a module with two assignments is asked for the path
from `a` to `b`. The single run tells it by five diagnostics. -/
example : netlist rlE Tracker.slots (rlTop rlB2) = .ok dvNet ∧ Sized dvNet ∧ Interned rlE.D ∧
    ConstsKept dvBare.codec dvNet ∧ NoParallel dvNet ∧ rlFiles.Nodup ∧ LocsOk dvNet rlFiles ∧
    dvW.build = .ok (dvNet, rlFiles) ∧ Compiles dvW ∧ dvO.load = none ∧ dvO.save = none ∧ Proceeds dvW dvO ∧
    dvW.canWrite ['n'] = true ∧ dvBare.cmdLine = true ∧ dvBare.canWrite = dvW.canWrite ∧
    dvBare.regex = dvW.regex ∧ dvBare.read ['n'] = some (some (save dvNet rlFiles)) ∧
    (driverMain dvW dvO).code = some 0 :=
  ⟨rl_built2, rl_sized2, rl_interned, rl_consts _ (by decide +kernel), by unfold NoParallel; decide +kernel, by decide,
    dv_locs, rfl, ⟨rfl, rfl, rfl, rfl⟩, rfl, rfl, ⟨rfl, by decide, by decide, .inl rfl⟩, rfl, rfl, rfl, rfl, rfl,
    dv_outs.1⟩

/-- A run that fails: slang rejects its options. -/
example : (driverMain dvBare dvO).code = some 2 ∧ (driverMain dvBare dvO).outs = [] ∧ Proceeds dvBare dvO :=
  ⟨rfl, rfl, rfl, by decide, by decide, .inl rfl⟩

/-- A run that fails after success of all steps but the query: there is no path from `b` to `a`. -/
example : (driverMain dvW { flags := { start := some ['b'], stop := some ['a'] } }).code = some 1 := by
  decide +kernel

theorem dv_both : (driverMain dvBare { dvO with load := some ['n'], save := some ['m'] }).code = some 0 ∧
    (∀ x ∈ (driverMain dvBare { dvO with load := some ['n'], save := some ['m'] }).outs.map fun
      | .saved _ _ => true | _ => false, x = false) := by decide +kernel

theorem dv_save : (driverMain dvW { dvO with save := some ['m'] }).outs.map (fun
      | .path _ => true | _ => false) = [false] ∧ (driverMain dvW { dvO with save := some ['m'] }).code = some 0 := by
  decide +kernel

/-- C83, disagreement: a run can end with status 0 although something asked for was left undone. With
both `--load-netlist` and `--save-netlist` nothing is saved; with `--save-netlist` and the two ends of a
path, the path is not reported. -/
theorem run_skips :
    ∃ (w : World) (o1 o2 : MainOpts) (file a b : Str),
      o1.save = some file ∧ (driverMain w o1).code = some 0 ∧ w.canWrite file = true ∧
      (∀ f c, Out.saved f c ∉ (driverMain w o1).outs) ∧
      o2.flags = { start := some a, stop := some b } ∧ (driverMain w o2).code = some 0 ∧
      ∀ p, Out.path p ∉ (driverMain w o2).outs := by
  have h1 := dv_both
  have h2 := dv_save
  have e : driverMain dvW { dvO with load := some ['n'], save := some ['m'] } =
      driverMain dvBare { dvO with load := some ['n'], save := some ['m'] } :=
    (run_load_only (w := dvBare) (w' := dvW) (o := { dvO with load := some ['n'], save := some ['m'] })
      (file := ['n']) rfl rfl rfl rfl rfl rfl (some ['m']))
  refine ⟨dvW, { dvO with load := some ['n'], save := some ['m'] }, { dvO with save := some ['m'] }, ['m'], ['a'], ['b'],
    rfl, ?_, rfl, ?_, rfl, h2.2, ?_⟩
  · rw [e]; exact h1.1
  · rw [e]; intro f c hc
    exact absurd (h1.2 true (List.mem_map.2 ⟨_, hc, rfl⟩)) (by simp)
  · intro p hp
    have hm : true ∈ (driverMain dvW { dvO with save := some ['m'] }).outs.map (fun
      | .path _ => true | _ => false) := List.mem_map.2 ⟨_, hp, rfl⟩
    rw [h2.1] at hm
    simp at hm

/-- The hypothesis of `diag_report_exact` is met by a built netlist. -/
example : LocsOk dvNet rlFiles ∧ (driverMain dvW dvO).code = some 0 := ⟨dv_locs, dv_outs.1⟩

/-- The hypotheses of `run_rejects`: file `m` cannot be read, and sources may be rejected. -/
example : Proceeds dvW { dvO with load := some ['m'] } ∧ Unloadable dvW ['m'] ∧
    driverMain { dvW with elaborated := false } dvO = ⟨some 1, []⟩ :=
  ⟨⟨rfl, by simp [dvO], by simp [dvO], .inl rfl⟩, .inl (by decide),
    run_rejects ⟨rfl, by simp [dvO], by simp [dvO], .inl rfl⟩ (.inr ⟨rfl, rfl, .inr (.inl rfl)⟩)⟩

/-- The hypotheses of `run_load_fails`: a version number that no `int` holds, and an empty object. -/
example : load rlC (.obj [("version", .flt 1000000000000)]) = .error .ub ∧ load rlC (.obj []) = .error .missing :=
  ⟨rfl, rfl⟩

/-- `diag_mode` on a path whose first node has no place in the text. -/
example : useDiag ({ data := fun n => if n = 0 then .merge else .assignment {} } : NetGraph) (fun n => n == 1) [0, 1] = true ∧
    useDiag ({ data := fun n => if n = 0 then .merge else .assignment {} } : NetGraph) (fun n => n == 0) [0, 1] = false := by
  decide

end Verif.Props
