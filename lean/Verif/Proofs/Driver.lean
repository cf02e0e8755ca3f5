import Verif.Spec.Driver
import Verif.Props.PathReport
import Verif.Proofs.ReloadAll

/-!
Lemmas for runs of the tool: reports by diagnostics against reports by text, and what each branch of the
main function leaves.
-/
set_option linter.unusedSimpArgs false
namespace Verif.Proofs
open Verif.Model Verif.Spec Verif.Props

theorem place_eq (files : List Str) (l : TextLoc) : placeText files l = locSpec files l := rfl

theorem lit_input : lit ": note: input port " = lit ": note: " ++ lit "input port " := by decide +kernel
theorem lit_output : lit ": note: output port " = lit ": note: " ++ lit "output port " := by decide +kernel
theorem lit_assign : lit ": note: assignment\n" = lit ": note: " ++ (lit "assignment" ++ lit "\n") := by decide +kernel
theorem lit_cond : lit ": note: conditional statement\n" = lit ": note: " ++ (lit "conditional statement" ++ lit "\n") := by
  decide +kernel
theorem lit_case : lit ": note: case statement\n" = lit ": note: " ++ (lit "case statement" ++ lit "\n") := by decide +kernel
theorem lit_value : lit ": note: value " = lit ": note: " ++ lit "value " := by decide +kernel

theorem nodeDiag_said {net : NetGraph} {files : List Str} (h : LocsOk net files) (n : Nat) :
    (reportNodeDiag (net.data n)).map (fun ds => ds.flatMap (diagLine files)) =
      reportNodeText files (net.data n) := by
  have hl := h.node n
  cases hd : net.data n with
  | port name path loc dir b =>
    have := locText_ok (hl loc (by rw [hd]; rfl))
    cases dir <;> simp [reportNodeText, reportNodeDiag, this, diagLine, place_eq, bind, Except.bind, pure,
      Except.pure, Except.map, lit_input, lit_output]
  | assignment loc =>
    have := locText_ok (hl loc (by rw [hd]; rfl))
    simp [reportNodeText, reportNodeDiag, this, diagLine, place_eq, bind, Except.bind, pure,
      Except.pure, Except.map, lit_assign]
  | conditional loc =>
    have := locText_ok (hl loc (by rw [hd]; rfl))
    simp [reportNodeText, reportNodeDiag, this, diagLine, place_eq, bind, Except.bind, pure,
      Except.pure, Except.map, lit_cond]
  | case loc =>
    have := locText_ok (hl loc (by rw [hd]; rfl))
    simp [reportNodeText, reportNodeDiag, this, diagLine, place_eq, bind, Except.bind, pure,
      Except.pure, Except.map, lit_case]
  | _ => rfl

theorem edgeDiag_said {net : NetGraph} {files : List Str} (h : LocsOk net files) (e : Nat) :
    reportEdgeText files (net.attr e) = .ok ((reportEdgeDiag (net.attr e)).flatMap (diagLine files)) := by
  rw [reportEdgeText_ok h]
  unfold valueLine reportEdgeDiag
  cases hs : (net.attr e).symbol with
  | none => rfl
  | some s =>
    cases hn : s.name with
    | nil => simp [hn]
    | cons c cs => simp [hn, diagLine, place_eq, lit_value]

theorem pathDiag_said {net : NetGraph} {files : List Str} (h : LocsOk net files) (p : List Nat) :
    (reportPathDiag net p).map (fun ds => ds.flatMap (diagLine files)) = reportPath net files p := by
  induction p with
  | nil => rfl
  | cons a p ih =>
    cases p with
    | nil => exact nodeDiag_said h a
    | cons b p =>
      unfold reportPathDiag reportPath
      cases net.g.findEdgeTo a b with
      | none => rfl
      | some e =>
        dsimp only
        rw [edgeDiag_said h, ← nodeDiag_said h, ← ih]
        cases reportNodeDiag (net.data a) with
        | error _ => rfl
        | ok t =>
          cases reportPathDiag net (b :: p) with
          | error _ => rfl
          | ok u => simp [bind, Except.bind, pure, Except.pure, Except.map]

theorem pathIn_said {net : NetGraph} {files : List Str} (h : LocsOk net files) (d : Option (Nat → Bool))
    (p : List Nat) : (reportPathIn net files d p).map (said files) = reportPath net files p := by
  have ht : ((reportPath net files p).map PathOut.text).map (said files) = reportPath net files p := by
    cases reportPath net files p <;> rfl
  unfold reportPathIn
  cases d with
  | none => exact ht
  | some src =>
    dsimp only
    split
    · rw [← pathDiag_said h]; cases reportPathDiag net p <;> rfl
    · exact ht

theorem pathNone_said (net : NetGraph) (files : List Str) (p : List Nat) :
    (reportPathIn net files none p).map (said files) = reportPath net files p := by
  unfold reportPathIn
  cases reportPath net files p <;> rfl

theorem sameOuts_refl (files : List Str) (l : List Out) : SameOuts files l l := by
  induction l with
  | nil => trivial
  | cons a l ih =>
    refine ⟨?_, ih⟩
    cases a <;> simp [SameOut]

theorem sameRun_refl (files : List Str) (r : RunResult) : SameRun files r r := ⟨rfl, sameOuts_refl _ _⟩

/-- Two reports that say the same, or fail in the same way. -/
theorem pathIn_two {net net' : NetGraph} {files : List Str} {d : Option (Nat → Bool)} {p : List Nat}
    (h : LocsOk net files) (he : reportPath net' files p = reportPath net files p) :
    (∃ e, reportPathIn net files d p = .error e ∧ reportPathIn net' files none p = .error e) ∨
    ∃ x y, reportPathIn net files d p = .ok x ∧ reportPathIn net' files none p = .ok y ∧
      said files x = said files y := by
  have h1 := pathIn_said h d p
  have h2 := pathNone_said net' files p
  rw [he] at h2
  cases hx : reportPathIn net files d p with
  | error e =>
    cases hy : reportPathIn net' files none p with
    | error e' =>
      rw [hx] at h1; rw [hy, ← h1] at h2
      left; refine ⟨e, rfl, ?_⟩
      simpa [Except.map] using h2
    | ok y => rw [hx] at h1; rw [hy, ← h1] at h2; cases h2
  | ok x =>
    cases hy : reportPathIn net' files none p with
    | error e' => rw [hx] at h1; rw [hy, ← h1] at h2; cases h2
    | ok y =>
      rw [hx] at h1; rw [hy, ← h1] at h2
      right; refine ⟨x, y, rfl, rfl, ?_⟩
      simpa [Except.map] using h2.symm

theorem printLoops_same {net net' : NetGraph} {files : List Str} {d : Option (Nat → Bool)}
    (h : LocsOk net files)
    (he : ∀ p, reportPath net' files p = reportPath net files p) (cs : List (List Nat)) :
    SameRun files (printLoops net files d cs) (printLoops net' files none cs) := by
  induction cs with
  | nil => exact sameRun_refl _ _
  | cons c cs ih =>
    unfold printLoops
    rcases pathIn_two (d := d) h (he c) with ⟨e, h1, h2⟩ | ⟨x, y, h1, h2, h3⟩
    · rw [h1, h2]; exact sameRun_refl _ _
    · rw [h1, h2]
      exact ⟨ih.1, rfl, h3, ih.2⟩

theorem emit_same {w w' : World} {o o' : MainOpts} (hw : w'.canWrite = w.canWrite) (ho : o'.output = o.output)
    (json : Bool) {files : List Str} {r r' : Except CliErr Report} (h : SameReport r r') :
    SameRun files (emitMade w o json r) (emitMade w' o' json r') := by
  cases r with
  | error e =>
    cases r' with
    | error e' => cases h; exact sameRun_refl _ _
    | ok r' => exact h.elim
  | ok r =>
    cases r' with
    | error e' => cases r <;> exact h.elim
    | ok r' =>
      cases r with
      | table hd rows =>
        cases r' with
        | table hd' rows' =>
          obtain ⟨rfl, h2⟩ := h
          simp only [emitMade, emitTable, ho]
          cases outputFileOf o.output with
          | none => exact ⟨rfl, ⟨rfl, rfl, rfl, h2⟩, trivial⟩
          | some f =>
            dsimp only
            unfold writeOr
            rw [hw]
            split
            · exact ⟨rfl, ⟨rfl, rfl, rfl, h2⟩, trivial⟩
            · exact sameRun_refl _ _
        | _ => cases h
      | loops ts => cases r' <;> cases h; exact sameRun_refl _ _
      | path t => cases r' <;> cases h; exact sameRun_refl _ _
      | dot file t =>
        cases r' <;> cases h
        simp only [emitMade, writeOr, hw]
        exact sameRun_refl _ _

theorem runQuery_same {w w' : World} {o o' : MainOpts} (hw : w'.canWrite = w.canWrite) (hx : w'.regex = w.regex)
    (ho : o'.output = o.output) (hs : o'.scopes = o.scopes) (hn : o'.names = o.names) (hf : o'.flags = o.flags)
    (json : Bool) {net net' : NetGraph} {files : List Str} (d : Option (Nat → Bool)) (ha : Alike net net')
    (h : LocsOk net files) :
    SameRun files (runQuery w o json d net files) (runQuery w' o' json none net' files) := by
  unfold runQuery
  rw [hf, hs, hn, hx]
  have hp : ∀ p, reportPath net' files p = reportPath net files p := reportPath_norm ha files
  cases hact : chooseAction o.flags with
  | loops =>
    dsimp only
    unfold runLoops
    rw [loops_norm ha]
    cases combLoops net with
    | nil => exact sameRun_refl _ _
    | cons c cs => exact printLoops_same h hp _
  | path a b =>
    dsimp only
    unfold runPath
    rw [require_norm ha.joins, require_norm ha.joins]
    cases requireNode ⟨net, none⟩ a with
    | error e => exact sameRun_refl _ _
    | ok na =>
      cases requireNode ⟨net, none⟩ b with
      | error e => exact sameRun_refl _ _
      | ok nb =>
        simp only [bind, Except.bind, requirePath, findPath_norm ha]
        cases findPath net na nb with
        | none => exact sameRun_refl _ _
        | some p =>
          cases p with
          | nil => exact sameRun_refl _ _
          | cons x xs =>
            dsimp only
            rcases pathIn_two (d := d) h (hp (x :: xs)) with ⟨e, h1, h2⟩ | ⟨x, y, h1, h2, h3⟩
            · rw [h1, h2]; exact sameRun_refl _ _
            · rw [h1, h2]; exact ⟨rfl, h3, trivial⟩
  | _ => exact emit_same hw ho json (alike_report _ ha files _ _ _).1

end Verif.Proofs
