import Verif.Props.Reporter

/-! Property theorem C92: the exit status of `slang-report` tells whether the report was made. -/
namespace Verif.Props
open Verif.Spec Verif.Model

/-- What must hold outside the tool for a report: slang accepts options, sources and design, and, unless
the AST is dumped or ports are reported, the analysis of the design finds no error. -/
structure Admits (w : RptWorld) (f : RptFlags) : Prop where
  options : w.options = true
  sources : w.sources = true
  elaborated : w.elaborated = true
  analysed : f.astJson = none → f.ports = none → w.analysed = true

/-- The run that the options ask for succeeds and writes `out`. -/
inductive RptDone (w : RptWorld) (o : RptOpts) : RptOut → Prop
  | help : o.help = some true → RptDone w o .help
  | version : o.help ≠ some true → o.version = some true → RptDone w o .version
  | report {t : Option Str} {x : RptText} : o.help ≠ some true → o.version ≠ some true → Admits w o.flags →
      reportMain w.root w.lookup o.flags = .ok (t, x) → (∀ f, t = some f → w.canWrite f = true) →
      RptDone w o (.report t x)

/-- C92: a run ends with status 0 exactly if the command line is accepted and the help, the version or the
report asked for could be made; it then has written exactly that. -/
theorem report_run_exact (w : RptWorld) (o : RptOpts) (outs : List RptOut) :
    reportRun w o = (0, outs) ↔ w.cmdLine = true ∧ ∃ out, RptDone w o out ∧ outs = [out] := by
  constructor
  · intro h
    unfold reportRun at h
    cases hc : w.cmdLine with
    | false => simp [hc] at h
    | true =>
      refine ⟨rfl, ?_⟩
      simp only [hc, Bool.not_true, Bool.false_eq_true, if_false] at h
      split at h
      · rename_i hh; cases h; exact ⟨_, .help hh, rfl⟩
      · rename_i hh
        split at h
        · rename_i hv; cases h; exact ⟨_, .version hh hv, rfl⟩
        · rename_i hv
          cases ho : w.options <;> simp [ho] at h
          cases hs : w.sources <;> simp [hs] at h
          cases he : w.elaborated <;> simp [he] at h
          cases hm : reportMain w.root w.lookup o.flags with
          | error e => simp [hm] at h
          | ok r =>
            obtain ⟨t, x⟩ := r
            simp only [hm] at h
            split at h
            · cases h
            · rename_i ha
              have had : Admits w o.flags := ⟨ho, hs, he, fun h1 h2 => by
                cases hw : w.analysed with
                | true => rfl
                | false => exact absurd ⟨⟨h1, h2⟩, hw⟩ ha⟩
              cases t with
              | none =>
                simp only [rptWrite] at h
                cases h
                exact ⟨_, .report hh hv had hm (fun f hf => nomatch hf), rfl⟩
              | some f =>
                simp only [rptWrite] at h
                split at h
                · rename_i hf
                  cases h
                  exact ⟨_, .report hh hv had hm (fun f' h' => by cases h'; exact hf), rfl⟩
                · cases h
  · rintro ⟨hc, out, hd, rfl⟩
    unfold reportRun
    simp only [hc, Bool.not_true, Bool.false_eq_true, if_false]
    cases hd with
    | help h => simp [h]
    | version h h' => simp [h, h']
    | @report t x h h' ha hm hw =>
      simp only [h, h', if_false, ha.options, ha.sources, ha.elaborated, Bool.not_true, Bool.false_eq_true, hm]
      have hn : ¬ (o.flags.astJson.isNone && o.flags.ports.isNone && !w.analysed) = true := by
        simp only [Bool.and_eq_true, Option.isNone_iff_eq_none, Bool.not_eq_true']
        rintro ⟨⟨h1, h2⟩, h3⟩
        rw [ha.analysed h1 h2] at h3
        cases h3
      rw [if_neg hn]
      cases t with
      | none => rfl
      | some f => simp [rptWrite, hw f rfl]

/-- C92: any other status comes with no output, and it is 2 exactly if slang rejects its options. -/
theorem report_run_fails (w : RptWorld) (o : RptOpts) :
    ((reportRun w o).1 ≠ 0 → (reportRun w o).2 = []) ∧ (reportRun w o).1 ≤ 2 ∧
      ((reportRun w o).1 = 2 ↔ w.cmdLine = true ∧ o.help ≠ some true ∧ o.version ≠ some true ∧ w.options = false) := by
  unfold reportRun
  cases hc : w.cmdLine <;> simp only [Bool.not_true, Bool.not_false, Bool.false_eq_true, if_false, if_true]
  · simp
  · by_cases hh : o.help = some true
    · simp [hh]
    · by_cases hv : o.version = some true
      · simp [hh, hv]
      · simp only [hh, hv, if_false]
        cases ho : w.options <;> simp only [Bool.not_true, Bool.not_false, Bool.false_eq_true, if_false, if_true]
        · simp [hh, hv]
        · cases w.sources <;> simp only [Bool.not_true, Bool.not_false, Bool.false_eq_true, if_false, if_true]
          · simp
          · cases w.elaborated <;> simp only [Bool.not_true, Bool.not_false, Bool.false_eq_true, if_false, if_true]
            · simp
            · cases reportMain w.root w.lookup o.flags with
              | error e => simp
              | ok r =>
                simp only
                split
                · simp
                · unfold rptWrite
                  split
                  · simp
                  · split <;> simp

/-- A design that slang's analysis rejects. -/
def rpBad : RptWorld := ⟨true, true, true, true, false, rpRoot, rpLook, fun f => decide (f ≠ ['x'])⟩

def rpCode (w : RptWorld) (o : RptOpts) : Nat × Nat := ((reportRun w o).1, (reportRun w o).2.length)

/-- Reports on ports do not depend on the analysis, those on variables do; a file that cannot be written, a
missing scope and a missing action are failures. -/
example : rpCode rpBad { flags := { ports := some true, output := some ['y'] } } = (0, 1) ∧
    rpCode rpBad { flags := { variables := some true } } = (1, 0) ∧
    rpCode { rpBad with analysed := true } { flags := { variables := some true } } = (0, 1) ∧
    rpCode rpBad { flags := { ports := some true, output := some ['x'] } } = (1, 0) ∧
    rpCode rpBad { flags := { ports := some true, scopes := [['v']] } } = (1, 0) ∧
    rpCode rpBad {} = (1, 0) ∧ rpCode { rpBad with options := false } {} = (2, 0) := by decide +kernel

example : ∃ t x, reportRun rpBad { flags := { ports := some true, output := some ['y'] } } = (0, [.report t x]) := by
  have h : (reportRun rpBad { flags := { ports := some true, output := some ['y'] } }).1 = 0 := by decide +kernel
  obtain ⟨-, out, hd, ho⟩ := (report_run_exact rpBad { flags := { ports := some true, output := some ['y'] } } _).1
    (Prod.ext h rfl)
  cases hd with
  | help h => cases h
  | version _ h => cases h
  | report _ _ _ _ _ => exact ⟨_, _, Prod.ext h ho⟩

end Verif.Props
