import Verif.Spec.Automatic

/-! For C111: uses of automatic variables leave no trace. -/
namespace Verif.Proofs
open Verif.Model Verif.Spec

theorem noteRefs_lasting (c : DfaCtx) (bl : Bool) (xs : List Note) (s : Dfa) :
    s.noteRefs c bl (xs.filter fun x => !x.ref.auto) = s.noteRefs c bl xs := by
  induction xs generalizing s with
  | nil => rfl
  | cons x xs ih =>
    cases h : x.ref.auto with
    | true =>
      have h1 : s.noteRef c bl x = .ok s := by simp [Dfa.noteRef, h]
      simp [List.filter_cons, h, Dfa.noteRefs, h1, ih]
    | false =>
      simp only [List.filter_cons, h, Bool.not_false, if_true, Dfa.noteRefs]
      cases s.noteRef c bl x <;> simp [ih]

theorem noteReads_lasting (c : DfaCtx) (bl : Bool) (rs : List Ref) (s : Dfa) :
    s.noteRefs c bl ((lasting rs).map fun r => ⟨false, r⟩) = s.noteRefs c bl (rs.map fun r => ⟨false, r⟩) := by
  rw [← noteRefs_lasting c bl (rs.map fun r => ⟨false, r⟩), List.filter_map]
  rfl

theorem lasting_eq {rs : List Ref} (h : ∀ r ∈ rs, r.auto = false) : lasting rs = rs := by
  unfold lasting
  rw [List.filter_eq_self]
  intro r hr
  simp [h r hr]

theorem segRhs_lasting (c : DfaCtx) (bl : Bool) (xs : List RSrc) (h : ∀ r, RSrc.lsp r ∈ xs → r.auto = false) (s : Dfa) :
    s.segRhs c bl (xs.map lastingSrc) = s.segRhs c bl xs := by
  induction xs generalizing s with
  | nil => rfl
  | cons x xs ih =>
    have h1 : s.segSrc c bl (lastingSrc x) = s.segSrc c bl x := by
      cases x with
      | lsp r => simp [lastingSrc, h r (by simp)]
      | «opaque» rs => exact noteReads_lasting c bl rs s
      | padding => rfl
      | constant v w l => rfl
    simp only [List.map_cons, Dfa.segRhs, h1]
    cases s.segSrc c bl x with
    | error f => rfl
    | ok s' => exact ih (fun r hr => h r (by simp [hr])) s'

theorem segments_lasting (c : DfaCtx) (bl : Bool) (n k : Option Nat) (gs : List DSeg)
    (h : ∀ g ∈ gs, (∀ r ∈ g.lhs, r.auto = false) ∧ ∀ r, RSrc.lsp r ∈ g.rhs → r.auto = false) (s : Dfa) :
    s.segments c bl n k (gs.map fun g => { g with lhs := lasting g.lhs, rhs := g.rhs.map lastingSrc }) =
      s.segments c bl n k gs := by
  induction gs generalizing s with
  | nil => rfl
  | cons g gs ih =>
    obtain ⟨hl, hr⟩ := h g (by simp)
    have h1 : ∀ s : Dfa, s.segBody c bl { g with lhs := lasting g.lhs, rhs := g.rhs.map lastingSrc } = s.segBody c bl g := by
      intro s
      simp only [Dfa.segBody, lasting_eq hl]
      cases s.segLhs bl g.lhs with
      | error f => rfl
      | ok s' => exact segRhs_lasting c bl _ hr s'
    simp only [List.map_cons, Dfa.segments, h1]
    cases Dfa.startAssign { s with cur := { s.cur with node := n, cond := k } } g.loc with
    | error f => rfl
    | ok s1 =>
      simp only []
      cases s1.segBody c bl g with
      | error f => rfl
      | ok s2 => exact ih (fun g hg => h g (by simp [hg])) s2

theorem exec_lasting (c : DfaCtx) (st : Stmt) (h : AutoInside st) (s : Dfa) :
    s.exec c (lastingStmt st) = s.exec c st := by
  induction st generalizing s with
  | skip => rfl
  | reads rs => exact noteReads_lasting c true rs s
  | assign loc b a =>
    cases a with
    | legacy notes =>
      simp only [lastingStmt, lastingAsg, Dfa.exec, Dfa.assign]
      cases s.startAssign loc with
      | error f => rfl
      | ok s1 => exact noteRefs_lasting c b notes s1
    | aligned segs => exact segments_lasting c b _ _ segs h s
  | branch k loc => rfl
  | dead => rfl
  | seq a b iha ihb =>
    simp only [lastingStmt, Dfa.exec, iha h.1]
    cases s.exec c a with
    | error f => rfl
    | ok s1 => exact ihb h.2 s1
  | choose f a b iha ihb =>
    simp only [lastingStmt, Dfa.exec, iha h.1]
    cases s.exec c a with
    | error f => rfl
    | ok s1 => simp only [ihb h.2]

end Verif.Proofs
