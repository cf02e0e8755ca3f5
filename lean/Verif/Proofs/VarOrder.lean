import Verif.Proofs.Grown
import Verif.Proofs.ScheduleMaps

/-! Helper lemmas: the variable tracker keeps its entries in ascending order throughout Phase 1. -/
namespace Verif.Proofs
open Verif.Model

section
variable {E : TravEnv}

theorem sorted_colDeps {c c' : Col} {ds : List Dep} (h0 : VarSorted c.b.vars)
    (h : c.addDeps ds = .ok c') : VarSorted c'.b.vars := by
  unfold Col.addDeps at h
  split at h
  · cases h
  · rename_i b' e; cases h
    unfold Bld.addDeps at e
    split at e
    · cases e
    · cases e; exact h0

theorem sorted_colNode {c c' : Col} {y n : Nat} {b : BitRange} {d : NodeData} (h0 : VarSorted c.b.vars)
    (h : c.newNode y b d = .ok (c', n)) : VarSorted c'.b.vars := by
  unfold Col.newNode at h
  split at h
  · cases h
  · rename_i net' e; cases h; exact varSorted_insert h0 y b _

theorem sorted_portSegs {p : PortDecl} {x : Nat} {i : Bool} (bs : List BitRange) : ∀ {c c' : Col},
    VarSorted c.b.vars → c.portSegs E p x i bs = .ok c' → VarSorted c'.b.vars := by
  induction bs with
  | nil => intro c c' h0 h; cases h; exact h0
  | cons b bs ih =>
    intro c c' h0 h
    unfold Col.portSegs at h
    dsimp only at h
    split at h
    · cases h
    · rename_i c1 n h1
      have p1 := sorted_colNode h0 h1
      refine ih ?_ h
      split
      · exact p1
      · exact p1

theorem sorted_portDrivers {p : PortDecl} {x : Nat} {hs : Option (List Nat)} (ds : List PortDriver) :
    ∀ {c c' : Col}, VarSorted c.b.vars → c.portDrivers E p x hs ds = .ok c' → VarSorted c'.b.vars := by
  induction ds with
  | nil => intro c c' h0 h; cases h; exact h0
  | cons d ds ih =>
    intro c c' h0 h
    unfold Col.portDrivers at h
    split at h
    · cases h
    · split at h
      · cases h
      · rename_i c1 h1; exact ih (sorted_portSegs _ h0 h1) h

theorem sorted_materialize {p : PortDecl} {c c' : Col} (h0 : VarSorted c.b.vars)
    (h : c.materialize E p = .ok c') : VarSorted c'.b.vars := by
  unfold Col.materialize at h
  split at h
  · cases h; exact h0
  · exact sorted_portDrivers _ h0 h

theorem sorted_variables {y : Nat} (ds : List (Nat × Nat)) : ∀ {c c' : Col}, VarSorted c.b.vars →
    c.variables E y ds = .ok c' → VarSorted c'.b.vars := by
  induction ds with
  | nil => intro c c' h0 h; cases h; exact h0
  | cons d ds ih =>
    intro c c' h0 h
    unfold Col.variables at h
    dsimp only at h
    split at h
    · cases h
    · rename_i c1 n h1; exact ih (sorted_colNode h0 h1) h

theorem sorted_path {o : Bool} {p : LspPath} {b : BitRange} (ns : List Nat) : ∀ {c c' : Col},
    VarSorted c.b.vars → c.path E o p b ns = .ok c' → VarSorted c'.b.vars := by
  induction ns with
  | nil => intro c c' h0 h; cases h; exact h0
  | cons n ns ih =>
    intro c c' h0 h
    unfold Col.path at h
    split at h
    · cases h; exact h0
    · split at h
      · cases h
      · rename_i c1 h1
        refine ih ?_ h
        split at h1
        · unfold Col.lvalue at h1
          exact sorted_colDeps (by exact h0) h1
        · unfold Col.rvalue at h1
          split at h1
          · exact sorted_colDeps h0 h1
          · cases h1; exact h0

theorem sorted_paths {o : Bool} {ns : List Nat} (ps : List LspPath) : ∀ {c c' : Col},
    VarSorted c.b.vars → c.paths E o ns ps = .ok c' → VarSorted c'.b.vars := by
  induction ps with
  | nil => intro c c' h0 h; cases h; exact h0
  | cons p ps ih =>
    intro c c' h0 h
    unfold Col.paths at h
    split at h
    · cases h
    · rename_i c1 h1; exact ih (sorted_path _ h0 h1) h

theorem sorted_plainDeps {k : Nat} (ns : List Nat) : ∀ {c c' : Col}, VarSorted c.b.vars →
    c.plainDeps k ns = .ok c' → VarSorted c'.b.vars := by
  induction ns with
  | nil => intro c c' h0 h; cases h; exact h0
  | cons n ns ih =>
    intro c c' h0 h
    unfold Col.plainDeps at h
    split at h
    · cases h
    · rename_i net' e
      exact ih (by exact h0) h

theorem sorted_connSrcs {o : Bool} {seg : Seg} {ns : List Nat} (xs : List Src) : ∀ {c c' : Col},
    VarSorted c.b.vars → c.connSrcs E o seg ns xs = .ok c' → VarSorted c'.b.vars := by
  induction xs with
  | nil => intro c c' h0 h; cases h; exact h0
  | cons x xs ih =>
    intro c c' h0 h
    unfold Col.connSrcs at h
    split at h
    · cases h
    · rename_i c1 h1
      refine ih ?_ h
      unfold Col.connSrc at h1
      split at h1
      · exact sorted_path _ h0 h1
      · exact sorted_paths _ h0 h1
      · cases h1; exact h0
      · split at h1
        · cases h1; exact h0
        · dsimp only at h1
          split at h1
          · cases h1
          · rename_i net' e
            exact sorted_plainDeps _ (by exact h0) h1
      · cases h1

theorem sorted_connSegs {o : Bool} (segs : List Seg) : ∀ {c c' : Col},
    VarSorted c.b.vars → c.connSegs E o segs = .ok c' → VarSorted c'.b.vars := by
  induction segs with
  | nil => intro c c' h0 h; cases h; exact h0
  | cons x xs ih =>
    intro c c' h0 h
    unfold Col.connSegs at h
    split at h
    · cases h
    · rename_i c1 h1
      refine ih ?_ h
      split at h1
      · cases h1; exact h0
      · exact sorted_connSrcs _ h0 h1

theorem sorted_connects (ks : List Conn) : ∀ {c c' : Col},
    VarSorted c.b.vars → c.connects E ks = .ok c' → VarSorted c'.b.vars := by
  induction ks with
  | nil => intro c c' h0 h; cases h; exact h0
  | cons k ks ih =>
    intro c c' h0 h
    unfold Col.connects at h
    split at h
    · cases h
    · rename_i c1 h1
      refine ih ?_ h
      unfold Col.connect at h1
      split at h1
      · cases h1; exact h0
      · cases h1
      · split at h1
        · cases h1; exact h0
        · split at h1
          · exact sorted_paths _ h0 h1
          · cases h1; exact h0
          · cases h1
          · exact sorted_connSegs _ h0 h1

theorem sorted_boxPorts (ms : List Member) : ∀ {c c' : Col}, VarSorted c.b.vars →
    c.boxPorts E ms = .ok c' → VarSorted c'.b.vars := by
  induction ms with
  | nil => intro c c' h0 h; cases h; exact h0
  | cons m ms ih =>
    intro c c' h0 h
    unfold Col.boxPorts at h
    split at h
    · cases h; exact h0
    · rename_i heq
      cases heq
      split at h
      · cases h
      · rename_i c1 h1; exact ih (sorted_materialize h0 h1) h
    · rename_i heq
      cases heq
      exact ih h0 h

mutual
theorem sorted_visit : ∀ (m : Member) {c c' : Col}, VarSorted c.b.vars → c.visit E m = .ok c' → VarSorted c'.b.vars
  | .port p, c, c', h0, h => sorted_materialize h0 h
  | .variable y i ds, c, c', h0, h => by
    simp only [Col.visit] at h
    split at h
    · exact sorted_variables _ h0 h
    · cases h; exact h0
  | .block b, c, c', h0, h => by simp only [Col.visit] at h; cases h; exact h0
  | .group u ms, c, c', h0, h => by
    simp only [Col.visit] at h
    split at h
    · cases h; exact h0
    · exact sorted_visitAll ms h0 h
  | .inst u dn p ms ks, c, c', h0, h => by
    simp only [Col.visit] at h
    split at h
    · cases h; exact h0
    · have h0' : VarSorted (if E.opts.propCuts = true then c.recordCuts E ks else c).b.vars := by
        split
        · rw [recordCuts_b]; exact h0
        · exact h0
      split at h
      · cases h
      · split at h
        · cases h
        · rename_i c2 h2; exact sorted_connects _ (sorted_boxPorts ms (by exact h0') h2) h
      · split at h
        · cases h
        · rename_i c2 h2; exact sorted_connects _ (sorted_visitAll ms h0' h2) h

theorem sorted_visitAll : ∀ (ms : List Member) {c c' : Col}, VarSorted c.b.vars →
    c.visitAll E ms = .ok c' → VarSorted c'.b.vars
  | [], c, c', h0, h => by simp only [Col.visitAll] at h; cases h; exact h0
  | m :: ms, c, c', h0, h => by
    simp only [Col.visitAll] at h
    split at h
    · cases h
    · rename_i c1 h1; exact sorted_visitAll ms (sorted_visit m h0 h1) h
end
end

theorem sorted_phase1 {E : TravEnv} {top : List Member} {c : Col} (h : phase1 E top = .ok c) :
    VarSorted c.b.vars := sorted_visitAll top (fun _ => List.Pairwise.nil) h

end Verif.Proofs
