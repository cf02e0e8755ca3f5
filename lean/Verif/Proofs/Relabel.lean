import Verif.Spec.Relabel

/-! Helper lemmas: the builder passes on the places of assignments and conditions and does nothing else
with them. -/
namespace Verif.Proofs
open Verif.Spec Verif.Model

/-- The analysis with the places changed. -/
def moveDfa (f : TextLoc → TextLoc) (s : Dfa) : Dfa := { s with net := moveNet f s.net }

/-- The builder with the places changed. -/
def moveBld (f : TextLoc → TextLoc) (s : Bld) : Bld := { s with net := moveNet f s.net }

/-- The traversal with the places changed. -/
def moveCol (f : TextLoc → TextLoc) (c : Col) : Col :=
  { c with b := moveBld f c.b, blocks := c.blocks.map (moveBlock f) }

/-! ### The graph -/

theorem moveData_bounds (f : TextLoc → TextLoc) (d : NodeData) : (moveData f d).bounds = d.bounds := by
  cases d <;> rfl

theorem move_addNode (f : TextLoc → TextLoc) (net : NetGraph) (d : NodeData) :
    (moveNet f net).call (.addNode (moveData f d)) = (net.call (.addNode d)).map (moveNet f) := by
  simp only [NetGraph.call, NetOp.gop, moveNet]
  cases net.g.call .addNode with
  | none => rfl
  | some r =>
    simp only [Option.map_some, Option.some.injEq, moveNet, NetGraph.mk.injEq, true_and, and_true]
    refine ⟨rfl, ?_, rfl⟩
    funext n
    by_cases h : n = net.g.nextNode <;> simp only [h, if_true, if_false]

theorem move_call (f : TextLoc → TextLoc) (net : NetGraph) {op : NetOp} (h : ∀ d, op ≠ .addNode d) :
    (moveNet f net).call op = (net.call op).map (moveNet f) := by
  cases op with
  | addNode d => exact absurd rfl (h d)
  | addEdge s t => simp only [NetGraph.call, NetOp.gop, moveNet]; cases net.g.call (.addEdge s t) <;> rfl
  | addNewEdge s t => simp only [NetGraph.call, NetOp.gop, moveNet]; cases net.g.call (.addNewEdge s t) <;> rfl
  | removeEdge s t => simp only [NetGraph.call, NetOp.gop, moveNet]; cases net.g.call (.removeEdge s t) <;> rfl
  | clearAllEdges s => simp only [NetGraph.call, NetOp.gop, moveNet]; cases net.g.call (.clearAllEdges s) <;> rfl
  | removeNode s => simp only [NetGraph.call, NetOp.gop, moveNet]; cases net.g.call (.removeNode s) <;> rfl
  | setAttr e a => rfl
  | resetIds => rfl
  | addBlackBox p => rfl

theorem move_addEdge (f : TextLoc → TextLoc) (net : NetGraph) (a b : Nat) :
    (moveNet f net).call (.addEdge a b) = (net.call (.addEdge a b)).map (moveNet f) :=
  move_call f net fun _ h => by cases h

theorem move_dep (f : TextLoc → TextLoc) (net : NetGraph) (d : Dep) :
    (moveNet f net).addDependency d = (net.addDependency d).map (moveNet f) := by
  unfold NetGraph.addDependency
  have hb : ((moveNet f net).data d.src).bounds = (net.data d.src).bounds := moveData_bounds f _
  have hg : (moveNet f net).g = net.g := rfl
  simp only [move_addEdge, hb, hg]
  cases net.call (.addEdge d.src d.tgt) with
  | none => rfl
  | some n1 =>
    have ha : (moveNet f n1).attr = n1.attr := rfl
    have hg : (moveNet f n1).g = n1.g := rfl
    simp only [Option.map_some, ha, hg]
    split
    · exact move_call f n1 fun _ h => by cases h
    · rw [move_call f n1 (op := .addNewEdge d.src d.tgt) fun _ h => by cases h]
      cases n1.call (.addNewEdge d.src d.tgt) with
      | none => rfl
      | some n2 =>
        have ha : (moveNet f n2).attr = n2.attr := rfl
        simp only [Option.map_some, ha]
        exact move_call f n2 fun _ h => by cases h

theorem move_deps (f : TextLoc → TextLoc) (ds : List Dep) : ∀ (net : NetGraph),
    (moveNet f net).addDependencies ds = (net.addDependencies ds).map (moveNet f) := by
  induction ds with
  | nil => intro net; rfl
  | cons d ds ih =>
    intro net
    simp only [NetGraph.addDependencies, move_dep]
    cases net.addDependency d with
    | none => rfl
    | some n => exact ih n

/-! ### The analysis of a block -/

theorem dfa_deps (f : TextLoc → TextLoc) (s : Dfa) (ds : List Dep) :
    (moveDfa f s).addDeps ds = (s.addDeps ds).map (moveDfa f) := by
  simp only [Dfa.addDeps, moveDfa, move_deps]
  cases s.net.addDependencies ds <;> rfl

theorem dfa_plain (f : TextLoc → TextLoc) (s : Dfa) (a b : Nat) :
    (moveDfa f s).addPlain a b = (s.addPlain a b).map (moveDfa f) := by
  simp only [Dfa.addPlain, moveDfa, move_addEdge]
  cases s.net.call (.addEdge a b) <;> rfl

theorem dfa_node (f : TextLoc → TextLoc) (s : Dfa) (d : NodeData) :
    (moveDfa f s).newNode (moveData f d) = (s.newNode d).map fun r => (moveDfa f r.1, r.2) := by
  simp only [Dfa.newNode, moveDfa, move_addNode]
  cases s.net.call (.addNode d) <;> rfl

theorem dfa_rvalue (f : TextLoc → TextLoc) (c : DfaCtx) (s : Dfa) (r : Ref) (b : BitRange) (o : Option Nat) :
    (moveDfa f s).addRvalue c r b o = (s.addRvalue c r b o).map (moveDfa f) := by
  unfold Dfa.addRvalue
  split
  · exact dfa_deps f s _
  · rfl

theorem dfa_rvalues (f : TextLoc → TextLoc) (c : DfaCtx) (r : Ref) (o : Option Nat) (es : List (Ivl Unit)) :
    ∀ s : Dfa, (moveDfa f s).addRvalues c r o es = (s.addRvalues c r o es).map (moveDfa f) := by
  induction es with
  | nil => intro s; rfl
  | cons e es ih =>
    intro s
    simp only [Dfa.addRvalues, dfa_rvalue]
    cases s.addRvalue c r ⟨e.lo, e.hi⟩ o with
    | error x => rfl
    | ok s1 => exact ih s1

theorem dfa_read (f : TextLoc → TextLoc) (c : DfaCtx) (s : Dfa) (r : Ref) :
    (moveDfa f s).handleRvalue c r = (s.handleRvalue c r).map (moveDfa f) := by
  unfold Dfa.handleRvalue
  have h1 : (moveDfa f s).trk = s.trk := rfl
  have h2 : (moveDfa f s).cur = s.cur := rfl
  rw [h1, h2]
  cases (s.trk.getSlot r.sym).bind fun i => s.cur.drv[i]? with
  | none => exact dfa_rvalue f c s r _ _
  | some m =>
    cases s.cur.node with
    | none => exact dfa_rvalue f c s r _ _
    | some n =>
      dsimp only
      cases readLoop m r.bounds n (c.D.ref r.sym) (imFind m.ivls r.bounds.lower r.bounds.upper) with
      | error x => rfl
      | ok p =>
        obtain ⟨ds, fin⟩ := p
        simp only [dfa_deps]
        cases s.addDeps ds with
        | error x => rfl
        | ok s1 =>
          simp only [Except.map]
          split
          · rfl
          · cases imDifference [⟨r.bounds.lower, r.bounds.upper, ()⟩] m.ivls with
            | error x => rfl
            | ok rest => exact dfa_rvalues f c r (some n) rest s1

theorem dfa_write (f : TextLoc → TextLoc) (s : Dfa) (b : Bool) (r : Ref) :
    (moveDfa f s).handleLvalue b r = (s.handleLvalue b r).map (moveDfa f) := by
  unfold Dfa.handleLvalue
  split
  · rfl
  · have h1 : (moveDfa f s).trk = s.trk := rfl
    have h2 : (moveDfa f s).cur = s.cur := rfl
    rw [h1, h2]
    cases s.trk.addDrivers s.cur.drv r.sym ⟨r.bounds, [⟨s.cur.node, r.lsp⟩], false⟩ <;> rfl

theorem dfa_note (f : TextLoc → TextLoc) (c : DfaCtx) (s : Dfa) (b : Bool) (x : Note) :
    (moveDfa f s).noteRef c b x = (s.noteRef c b x).map (moveDfa f) := by
  unfold Dfa.noteRef
  have h2 : (moveDfa f s).cur = s.cur := rfl
  rw [h2]
  split
  · rfl
  split
  · rfl
  split
  · exact dfa_write f s b x.ref
  · exact dfa_read f c s x.ref

theorem dfa_notes (f : TextLoc → TextLoc) (c : DfaCtx) (b : Bool) (xs : List Note) : ∀ s : Dfa,
    (moveDfa f s).noteRefs c b xs = (s.noteRefs c b xs).map (moveDfa f) := by
  induction xs with
  | nil => intro s; rfl
  | cons x xs ih =>
    intro s
    simp only [Dfa.noteRefs, dfa_note]
    cases s.noteRef c b x with
    | error x => rfl
    | ok s1 => exact ih s1

theorem dfa_update (f : TextLoc → TextLoc) (s : Dfa) (n : Nat) (k : Bool) :
    (moveDfa f s).updateNode n k = (s.updateNode n k).map (moveDfa f) := by
  unfold Dfa.updateNode
  have h2 : (moveDfa f s).cur = s.cur := rfl
  rw [h2]
  cases s.cur.cond with
  | none => rfl
  | some m =>
    simp only [dfa_plain]
    cases s.addPlain m n <;> rfl

theorem dfa_lhs (f : TextLoc → TextLoc) (b : Bool) (rs : List Ref) : ∀ s : Dfa,
    (moveDfa f s).segLhs b rs = (s.segLhs b rs).map (moveDfa f) := by
  induction rs with
  | nil => intro s; rfl
  | cons r rs ih =>
    intro s
    simp only [Dfa.segLhs, dfa_write]
    cases s.handleLvalue b r with
    | error x => rfl
    | ok s1 => exact ih s1

theorem dfa_src (f : TextLoc → TextLoc) (c : DfaCtx) (s : Dfa) (b : Bool) (x : RSrc) :
    (moveDfa f s).segSrc c b x = (s.segSrc c b x).map (moveDfa f) := by
  cases x with
  | lsp r => exact dfa_read f c s r
  | «opaque» rs => exact dfa_notes f c b _ s
  | padding => rfl
  | constant v w l =>
    have h2 : (moveDfa f s).cur = s.cur := rfl
    simp only [Dfa.segSrc, h2]
    cases s.cur.node with
    | none => rfl
    | some n =>
      have := dfa_node f s (.constant v w l)
      simp only [moveData] at this
      simp only [this]
      cases s.newNode (.constant v w l) with
      | error x => rfl
      | ok p => exact dfa_plain f p.1 p.2 n

theorem dfa_rhs (f : TextLoc → TextLoc) (c : DfaCtx) (b : Bool) (xs : List RSrc) : ∀ s : Dfa,
    (moveDfa f s).segRhs c b xs = (s.segRhs c b xs).map (moveDfa f) := by
  induction xs with
  | nil => intro s; rfl
  | cons x xs ih =>
    intro s
    simp only [Dfa.segRhs, dfa_src]
    cases s.segSrc c b x with
    | error x => rfl
    | ok s1 => exact ih s1

theorem dfa_body (f : TextLoc → TextLoc) (c : DfaCtx) (s : Dfa) (b : Bool) (g : DSeg) :
    (moveDfa f s).segBody c b (moveSeg f g) = (s.segBody c b g).map (moveDfa f) := by
  simp only [Dfa.segBody, moveSeg, dfa_lhs]
  cases s.segLhs b g.lhs with
  | error x => rfl
  | ok s1 => exact dfa_rhs f c b g.rhs s1

theorem dfa_start (f : TextLoc → TextLoc) (s : Dfa) (loc : TextLoc) :
    (moveDfa f s).startAssign (f loc) = (s.startAssign loc).map (moveDfa f) := by
  have := dfa_node f s (.assignment loc)
  simp only [moveData] at this
  simp only [Dfa.startAssign, this]
  cases s.newNode (.assignment loc) with
  | error x => rfl
  | ok p => exact dfa_update f p.1 p.2 false

theorem dfa_segments (f : TextLoc → TextLoc) (c : DfaCtx) (b : Bool) (o k : Option Nat) (gs : List DSeg) :
    ∀ s : Dfa, (moveDfa f s).segments c b o k (gs.map (moveSeg f)) = (s.segments c b o k gs).map (moveDfa f) := by
  induction gs with
  | nil => intro s; rfl
  | cons g gs ih =>
    intro s
    have h := dfa_start f { s with cur := { s.cur with node := o, cond := k } } g.loc
    simp only [moveDfa] at h
    simp only [List.map_cons, Dfa.segments, moveSeg, moveDfa, h]
    cases ({ s with cur := { s.cur with node := o, cond := k } } : Dfa).startAssign g.loc with
    | error x => rfl
    | ok s1 =>
      have h := dfa_body f c s1 b g
      simp only [moveSeg] at h
      simp only [Except.map, h]
      cases s1.segBody c b g with
      | error x => rfl
      | ok s2 => exact ih s2

theorem dfa_assign (f : TextLoc → TextLoc) (c : DfaCtx) (s : Dfa) (loc : TextLoc) (b : Bool) (a : Asg) :
    (moveDfa f s).assign c (f loc) b (moveAsg f a) = (s.assign c loc b a).map (moveDfa f) := by
  cases a with
  | legacy notes =>
    simp only [Dfa.assign, moveAsg, dfa_start]
    cases s.startAssign loc with
    | error x => rfl
    | ok s1 => exact dfa_notes f c b notes s1
  | aligned segs => exact dfa_segments f c b _ _ segs s

theorem dfa_branch (f : TextLoc → TextLoc) (s : Dfa) (k : Bool) (loc : TextLoc) :
    (moveDfa f s).branch k (f loc) = (s.branch k loc).map (moveDfa f) := by
  have h := dfa_node f s (if k then .case loc else .conditional loc)
  have e : moveData f (if k then .case loc else .conditional loc) =
      if k then .case (f loc) else .conditional (f loc) := by cases k <;> rfl
  rw [e] at h
  simp only [Dfa.branch, h]
  cases s.newNode (if k then .case loc else .conditional loc) with
  | error x => rfl
  | ok p => exact dfa_update f p.1 p.2 true

theorem dfa_merge (f : TextLoc → TextLoc) (s : Dfa) (a b : Option Nat) :
    (moveDfa f s).mergeNodes a b = (s.mergeNodes a b).map fun r => (moveDfa f r.1, r.2) := by
  cases a with
  | none => cases b <;> rfl
  | some a =>
    cases b with
    | none => rfl
    | some b =>
      unfold Dfa.mergeNodes
      dsimp only
      split
      · have h := dfa_node f s .merge
        simp only [moveData] at h
        rw [h]
        cases s.newNode .merge with
        | error x => rfl
        | ok p =>
          obtain ⟨s1, n⟩ := p
          simp only [Except.map, dfa_plain]
          cases s1.addPlain a n with
          | error x => rfl
          | ok s2 =>
            simp only [Except.map, dfa_plain]
            cases s2.addPlain b n <;> rfl
      · rfl

theorem dfa_join (f : TextLoc → TextLoc) (s : Dfa) (o : Flow) :
    (moveDfa f s).joinState o = (s.joinState o).map (moveDfa f) := by
  have h1 : (moveDfa f s).trk = s.trk := rfl
  have h2 : (moveDfa f s).cur = s.cur := rfl
  unfold Dfa.joinState
  rw [h2]
  split
  · unfold Dfa.mergeStates
    rw [h1, h2]
    cases mergeDrv s.trk s.cur.drv 0 o.drv with
    | error x => rfl
    | ok p =>
      obtain ⟨t, drv⟩ := p
      have h := dfa_merge f { s with trk := t, cur := { s.cur with drv := drv } } s.cur.node o.node
      simp only [moveDfa] at h
      simp only [moveDfa, h]
      cases ({ s with trk := t, cur := { s.cur with drv := drv } } : Dfa).mergeNodes s.cur.node o.node with
      | error x => rfl
      | ok q =>
        obtain ⟨s2, n⟩ := q
        have h := dfa_merge f s2 s2.cur.cond o.cond
        simp only [moveDfa] at h
        simp only [Except.map, h]
        cases s2.mergeNodes s2.cur.cond o.cond <;> rfl
  split
  · rfl
  · rfl

theorem dfa_exec (f : TextLoc → TextLoc) (c : DfaCtx) (st : Stmt) : ∀ s : Dfa,
    (moveDfa f s).exec c (moveStmt f st) = (s.exec c st).map (moveDfa f) := by
  induction st with
  | skip => intro s; rfl
  | reads rs => intro s; exact dfa_notes f c true _ s
  | assign loc b a => intro s; exact dfa_assign f c s loc b a
  | branch k loc => intro s; exact dfa_branch f s k loc
  | dead => intro s; rfl
  | seq a b iha ihb =>
    intro s
    simp only [Dfa.exec, moveStmt, iha]
    cases s.exec c a with
    | error x => rfl
    | ok s1 => exact ihb s1
  | choose i a b iha ihb =>
    intro s
    simp only [Dfa.exec, moveStmt, iha]
    cases s.exec c a with
    | error x => rfl
    | ok s1 =>
      have h := ihb { s1 with cur := s.cur }
      simp only [moveDfa] at h
      simp only [Except.map, moveDfa, h]
      cases ({ s1 with cur := s.cur } : Dfa).exec c b with
      | error x => rfl
      | ok s2 =>
        dsimp only
        split
        · exact dfa_join f { s2 with cur := s1.cur } s2.cur
        · exact dfa_join f s2 s1.cur

theorem dfa_nba (f : TextLoc → TextLoc) (ws : List PendL) : ∀ s : Dfa,
    (moveDfa f s).processNba ws = (s.processNba ws).map (moveDfa f) := by
  induction ws with
  | nil => intro s; rfl
  | cons w ws ih =>
    intro s
    have h1 : (moveDfa f s).trk = s.trk := rfl
    have h2 : (moveDfa f s).cur = s.cur := rfl
    simp only [Dfa.processNba, h1, h2]
    cases s.trk.addDrivers s.cur.drv w.sym ⟨w.bounds, [⟨w.node, w.lsp⟩], false⟩ with
    | error x => rfl
    | ok p => exact ih { s with trk := p.1, cur := { s.cur with drv := p.2 } }

theorem dfa_run (f : TextLoc → TextLoc) (c : DfaCtx) (s : Dfa) (st : Stmt) :
    (moveDfa f s).runBlock c (moveStmt f st) = (s.runBlock c st).map (moveDfa f) := by
  simp only [Dfa.runBlock, dfa_exec]
  cases s.exec c st with
  | error x => rfl
  | ok s1 => exact dfa_nba f s1.nba s1

/-! ### The builder -/

theorem bld_deps (f : TextLoc → TextLoc) (s : Bld) (ds : List Dep) :
    (moveBld f s).addDeps ds = (s.addDeps ds).map (moveBld f) := by
  simp only [Bld.addDeps, moveBld, move_deps]
  cases s.net.addDependencies ds <;> rfl

theorem move_hookup (f : TextLoc → TextLoc) (D : Design) (s : Bld) (y : Nat) (b : BitRange)
    (l : List DriverInfo) : hookupDeps D (moveBld f s) y b l = hookupDeps D s y b l := by
  have h : ∀ p, portNodeFor (moveBld f s) p b = portNodeFor s p b := by
    intro p
    simp only [portNodeFor, moveBld, moveNet, moveData_bounds]
  simp only [hookupDeps, h]

theorem move_extra (f : TextLoc → TextLoc) (D : Design) (s : Bld) (y : Nat) (b : BitRange)
    (l : List DriverInfo) : extraDeps D (moveBld f s) y b l = extraDeps D s y b l := by
  simp only [extraDeps, moveBld, moveNet, moveData_bounds]

theorem bld_comb (f : TextLoc → TextLoc) (D : Design) (s : Bld) (y : Nat) (b : BitRange) (l : List DriverInfo) :
    (moveBld f s).mergeComb D y b l = (s.mergeComb D y b l).map (moveBld f) := by
  have h1 : (moveBld f s).trk = s.trk := rfl
  have h2 : (moveBld f s).drv = s.drv := rfl
  simp only [Bld.mergeComb, h1, h2]
  cases s.trk.addDrivers s.drv y ⟨b, l, true⟩ with
  | error x => rfl
  | ok p =>
    have e : ({ moveBld f s with trk := p.1, drv := p.2 } : Bld) = moveBld f { s with trk := p.1, drv := p.2 } := rfl
    simp only [e, move_hookup, move_extra, bld_deps]

theorem bld_seq (f : TextLoc → TextLoc) (D : Design) (sens : List SensEntry) (s : Bld) (y : Nat) (b : BitRange)
    (l : List DriverInfo) : (moveBld f s).mergeSeq D sens y b l = (s.mergeSeq D sens y b l).map (moveBld f) := by
  have h := move_addNode f s.net (.state (D.ref y).name (D.ref y).path (D.ref y).loc b)
  simp only [moveData] at h
  have hn : (moveBld f s).net = moveNet f s.net := rfl
  simp only [Bld.mergeSeq, Bld.createState, hn, h]
  cases s.net.call (.addNode (.state (D.ref y).name (D.ref y).path (D.ref y).loc b)) with
  | none => rfl
  | some n =>
    have e : ({ moveBld f s with
          net := moveNet f n, vars := (moveBld f s).vars.insert y b (moveNet f s.net).g.nextNode,
          queue := (moveBld f s).queue ++ clockReads D sens (moveNet f s.net).g.nextNode } : Bld) =
        moveBld f { s with
          net := n, vars := s.vars.insert y b s.net.g.nextNode,
          queue := s.queue ++ clockReads D sens s.net.g.nextNode } := rfl
    simp only [Option.map_some, e, move_hookup, move_extra, bld_deps]
    rfl

theorem bld_drivers (f : TextLoc → TextLoc) (D : Design) (sens : List SensEntry) (ws : List Driven) : ∀ s : Bld,
    (moveBld f s).mergeDrivers D sens ws = (s.mergeDrivers D sens ws).map (moveBld f) := by
  induction ws with
  | nil => intro s; rfl
  | cons w ws ih =>
    intro s
    simp only [Bld.mergeDrivers, bld_comb, bld_seq]
    by_cases hs : sens.isEmpty = true
    · simp only [hs, if_true]
      cases s.mergeComb D w.sym w.bounds w.drivers with
      | error x => rfl
      | ok s1 => exact ih s1
    · simp only [hs, if_false, Bool.false_eq_true]
      cases s.mergeSeq D sens w.sym w.bounds w.drivers with
      | error x => rfl
      | ok s1 => exact ih s1

theorem bld_mergeBlock (f : TextLoc → TextLoc) (D : Design) (ord : Tracker → List (Nat × Nat))
    (sens : List SensEntry) (s : Bld) (d : Dfa) :
    (moveBld f s).mergeBlock D ord sens (moveDfa f d) = (s.mergeBlock D ord sens d).map (moveBld f) := by
  have h1 : (moveDfa f d).cur = d.cur := rfl
  have h2 : (moveDfa f d).trk = d.trk := rfl
  simp only [Bld.mergeBlock, h1, h2]
  cases drivenOf d.cur.drv (ord d.trk) with
  | error x => rfl
  | ok ws => exact bld_drivers f D sens ws { s with net := d.net, queue := d.queue }

theorem bld_block (f : TextLoc → TextLoc) (D : Design) (ord : Tracker → List (Nat × Nat)) (s : Bld)
    (b : Deferred) : (moveBld f s).handleBlock D ord (moveBlock f b) = (s.handleBlock D ord b).map (moveBld f) := by
  cases b with
  | procedural k body st =>
    simp only [Bld.handleBlock, moveBlock, Bld.handleProcedural]
    cases collectSensitivity k body with
    | error x => rfl
    | ok sens =>
      have h := dfa_run f ⟨D, s.vars, none⟩ { net := s.net, queue := s.queue } st
      have e : moveDfa f { net := s.net, queue := s.queue } =
        { net := (moveBld f s).net, queue := (moveBld f s).queue } := rfl
      rw [e] at h
      have hv : (moveBld f s).vars = s.vars := rfl
      simp only [hv, h]
      cases ({ net := s.net, queue := s.queue } : Dfa).runBlock ⟨D, s.vars, none⟩ st with
      | error x => rfl
      | ok d => exact bld_mergeBlock f D ord sens s d
  | continuous loc a =>
    simp only [Bld.handleBlock, moveBlock, Bld.handleContinuous]
    have h := dfa_exec f ⟨D, s.vars, none⟩ (.assign loc true a) { net := s.net, queue := s.queue }
    have e : moveDfa f { net := s.net, queue := s.queue } =
      { net := (moveBld f s).net, queue := (moveBld f s).queue } := rfl
    rw [e] at h
    have hv : (moveBld f s).vars = s.vars := rfl
    simp only [moveStmt] at h
    simp only [hv, h]
    cases ({ net := s.net, queue := s.queue } : Dfa).exec ⟨D, s.vars, none⟩ (.assign loc true a) with
    | error x => rfl
    | ok d => exact bld_mergeBlock f D ord [] s d

theorem bld_blocks (f : TextLoc → TextLoc) (D : Design) (ord : Tracker → List (Nat × Nat)) (bs : List Deferred) :
    ∀ s : Bld, (moveBld f s).runBlocks D ord (bs.map (moveBlock f)) = (s.runBlocks D ord bs).map (moveBld f) := by
  induction bs with
  | nil => intro s; rfl
  | cons b bs ih =>
    intro s
    simp only [List.map_cons, Bld.runBlocks, bld_block]
    cases s.handleBlock D ord b with
    | error x => rfl
    | ok s1 => exact ih s1

theorem bld_build (f : TextLoc → TextLoc) (D : Design) (ord : Tracker → List (Nat × Nat)) (s : Bld)
    (bs : List Deferred) :
    (moveBld f s).build D ord (bs.map (moveBlock f)) = (s.build D ord bs).map (moveNet f) := by
  simp only [Bld.build, bld_blocks]
  cases s.runBlocks D ord bs with
  | error x => rfl
  | ok s1 =>
    have hc : (moveBld f s1).ctx D = s1.ctx D := rfl
    have hq : (moveBld f s1).queue = s1.queue := rfl
    have hn : (moveBld f s1).net = moveNet f s1.net := rfl
    simp only [Except.map, resolveSequential, hc, hq, hn, move_deps]
    cases emitAll (s1.ctx D) s1.queue with
    | error x => rfl
    | ok ds =>
      dsimp only
      cases s1.net.addDependencies ds <;> rfl

/-! ### The traversal -/

theorem col_deps (f : TextLoc → TextLoc) (c : Col) (ds : List Dep) :
    (moveCol f c).addDeps ds = (c.addDeps ds).map (moveCol f) := by
  have h : (moveCol f c).b = moveBld f c.b := rfl
  simp only [Col.addDeps, h, bld_deps]
  cases c.b.addDeps ds <;> rfl

theorem col_node (f : TextLoc → TextLoc) (c : Col) (y : Nat) (b : BitRange) {d : NodeData} (hd : moveData f d = d) :
    (moveCol f c).newNode y b d = (c.newNode y b d).map fun r => (moveCol f r.1, r.2) := by
  have h := move_addNode f c.b.net d
  rw [hd] at h
  have e : (moveCol f c).b.net = moveNet f c.b.net := rfl
  simp only [Col.newNode, e, h]
  cases c.b.net.call (.addNode d) <;> rfl

theorem col_portSegs (f : TextLoc → TextLoc) (E : TravEnv) (p : PortDecl) (x : Nat) (i : Bool) (bs : List BitRange) :
    ∀ c : Col, (moveCol f c).portSegs E p x i bs = (c.portSegs E p x i bs).map (moveCol f) := by
  induction bs with
  | nil => intro c; rfl
  | cons b bs ih =>
    intro c
    simp only [Col.portSegs]
    rw [col_node f c p.sym b rfl]
    cases c.newNode p.sym b (.port (E.D.ref x).name (E.D.ref x).path (E.D.ref x).loc p.dir b) with
    | error x => rfl
    | ok r =>
      obtain ⟨c1, n⟩ := r
      simp only [Except.map]
      cases i with
      | true => exact ih { c1 with hist := c1.hist ++ [(x, ⟨b, [⟨some n, 0⟩], false⟩)] }
      | false => exact ih c1

theorem col_portDrivers (f : TextLoc → TextLoc) (E : TravEnv) (p : PortDecl) (x : Nat) (h : Option (List Nat))
    (ds : List PortDriver) : ∀ c : Col,
    (moveCol f c).portDrivers E p x h ds = (c.portDrivers E p x h ds).map (moveCol f) := by
  induction ds with
  | nil => intro c; rfl
  | cons d ds ih =>
    intro c
    simp only [Col.portDrivers]
    cases portSegments h d.lo d.hi with
    | error x => rfl
    | ok segs =>
      simp only [col_portSegs]
      cases c.portSegs E p x d.input segs with
      | error x => rfl
      | ok c1 => exact ih c1

theorem col_materialize (f : TextLoc → TextLoc) (E : TravEnv) (c : Col) (p : PortDecl) :
    (moveCol f c).materialize E p = (c.materialize E p).map (moveCol f) := by
  unfold Col.materialize
  cases p.inner with
  | none => rfl
  | some x => exact col_portDrivers f E p x _ _ c

theorem col_variables (f : TextLoc → TextLoc) (E : TravEnv) (y : Nat) (ds : List (Nat × Nat)) : ∀ c : Col,
    (moveCol f c).variables E y ds = (c.variables E y ds).map (moveCol f) := by
  induction ds with
  | nil => intro c; rfl
  | cons d ds ih =>
    intro c
    simp only [Col.variables]
    rw [col_node f c y _ rfl]
    cases c.newNode y ⟨d.1, (d.1 : Int) + d.2⟩
      (.variable (E.D.ref y).name (E.D.ref y).path (E.D.ref y).loc ⟨d.1, (d.1 : Int) + d.2⟩) with
    | error x => rfl
    | ok r => exact ih r.1

theorem col_recordCut (f : TextLoc → TextLoc) (E : TravEnv) (c : Col) (k : Conn) :
    (moveCol f c).recordCut E k = moveCol f (c.recordCut E k) := by
  unfold Col.recordCut
  split
  · split <;> rfl
  · rfl

theorem col_recordCuts (f : TextLoc → TextLoc) (E : TravEnv) (ks : List Conn) : ∀ c : Col,
    (moveCol f c).recordCuts E ks = moveCol f (c.recordCuts E ks) := by
  induction ks with
  | nil => intro c; rfl
  | cons k ks ih => intro c; simp only [Col.recordCuts, col_recordCut]; exact ih _

theorem col_rvalue (f : TextLoc → TextLoc) (E : TravEnv) (c : Col) (y l : Nat) (b : BitRange) (n : Nat) :
    (moveCol f c).rvalue E y l b n = (c.rvalue E y l b n).map (moveCol f) := by
  unfold Col.rvalue
  split
  · exact col_deps f c _
  · rfl

theorem col_lvalue (f : TextLoc → TextLoc) (E : TravEnv) (c : Col) (y l : Nat) (b : BitRange) (n : Nat) :
    (moveCol f c).lvalue E y l b n = (c.lvalue E y l b n).map (moveCol f) := by
  have h : (moveCol f c).b = moveBld f c.b := rfl
  simp only [Col.lvalue, h, move_hookup]
  exact col_deps f { c with hist := c.hist ++ [(y, ⟨b, [⟨some n, l⟩], true⟩)] } _

theorem col_path (f : TextLoc → TextLoc) (E : TravEnv) (o : Bool) (p : LspPath) (b : BitRange) (ns : List Nat) :
    ∀ c : Col, (moveCol f c).path E o p b ns = (c.path E o p b ns).map (moveCol f) := by
  induction ns with
  | nil => intro c; rfl
  | cons n ns ih =>
    intro c
    simp only [Col.path]
    cases p.root with
    | none => rfl
    | some y =>
      dsimp only
      cases o with
      | true =>
        simp only [if_true, col_lvalue]
        cases c.lvalue E y (E.lspId p) b n with
        | error x => rfl
        | ok c1 => exact ih c1
      | false =>
        simp only [Bool.false_eq_true, if_false, col_rvalue]
        cases c.rvalue E y (E.lspId p) b n with
        | error x => rfl
        | ok c1 => exact ih c1

theorem col_paths (f : TextLoc → TextLoc) (E : TravEnv) (o : Bool) (ns : List Nat) (ps : List LspPath) :
    ∀ c : Col, (moveCol f c).paths E o ns ps = (c.paths E o ns ps).map (moveCol f) := by
  induction ps with
  | nil => intro c; rfl
  | cons p ps ih =>
    intro c
    simp only [Col.paths, col_path]
    cases c.path E o p ⟨p.lo, p.hi⟩ ns with
    | error x => rfl
    | ok c1 => exact ih c1

theorem col_plain (f : TextLoc → TextLoc) (k : Nat) (ns : List Nat) : ∀ c : Col,
    (moveCol f c).plainDeps k ns = (c.plainDeps k ns).map (moveCol f) := by
  induction ns with
  | nil => intro c; rfl
  | cons n ns ih =>
    intro c
    have e : (moveCol f c).b.net = moveNet f c.b.net := rfl
    simp only [Col.plainDeps, e, move_addEdge]
    cases c.b.net.call (.addEdge k n) with
    | none => rfl
    | some net => exact ih { c with b := { c.b with net := net } }

theorem col_src (f : TextLoc → TextLoc) (E : TravEnv) (o : Bool) (g : Seg) (ns : List Nat) (c : Col) (x : Src) :
    (moveCol f c).connSrc E o g ns x = (c.connSrc E o g ns x).map (moveCol f) := by
  cases x with
  | lsp p lo hi => exact col_path f E o p _ ns c
  | «opaque» e => exact col_paths f E false ns _ c
  | padding => rfl
  | const v lo hi =>
    unfold Col.connSrc
    dsimp only
    split
    · rfl
    · have h := move_addNode f c.b.net
        (.constant (E.render (constantForSegment v lo g).1) (constantForSegment v lo g).2 {})
      simp only [moveData] at h
      have e : (moveCol f c).b.net = moveNet f c.b.net := rfl
      simp only [e, h]
      cases c.b.net.call
          (.addNode (.constant (E.render (constantForSegment v lo g).1) (constantForSegment v lo g).2 {})) with
      | none => rfl
      | some net => exact col_plain f _ ns { c with b := { c.b with net := net } }
  | portNode => rfl

theorem col_srcs (f : TextLoc → TextLoc) (E : TravEnv) (o : Bool) (g : Seg) (ns : List Nat) (xs : List Src) :
    ∀ c : Col, (moveCol f c).connSrcs E o g ns xs = (c.connSrcs E o g ns xs).map (moveCol f) := by
  induction xs with
  | nil => intro c; rfl
  | cons x xs ih =>
    intro c
    simp only [Col.connSrcs, col_src]
    cases c.connSrc E o g ns x with
    | error x => rfl
    | ok c1 => exact ih c1

theorem col_segs (f : TextLoc → TextLoc) (E : TravEnv) (o : Bool) (gs : List Seg) :
    ∀ c : Col, (moveCol f c).connSegs E o gs = (c.connSegs E o gs).map (moveCol f) := by
  induction gs with
  | nil => intro c; rfl
  | cons g gs ih =>
    intro c
    simp only [Col.connSegs]
    by_cases h : g.portNodes = []
    · simp only [h, if_true]; exact ih c
    · simp only [h, if_false, col_srcs]
      cases c.connSrcs E o g g.portNodes g.rhs with
      | error x => rfl
      | ok c1 => exact ih c1

theorem col_connect (f : TextLoc → TextLoc) (E : TravEnv) (c : Col) (k : Conn) :
    (moveCol f c).connect E k = (c.connect E k).map (moveCol f) := by
  unfold Col.connect
  cases k.formal with
  | interface => rfl
  | multi => rfl
  | port sym inner =>
    cases k.actual with
    | none => rfl
    | some e =>
      have h : (moveCol f c).portNds sym = c.portNds sym := by
        simp only [Col.portNds, moveCol, moveBld, moveNet, moveData_bounds]
      dsimp only
      rw [h]
      cases handlePortConnection E.opts.resolveBits k.integral (c.portNds sym) (E.D.width sym) e with
      | legacy => exact col_paths f E k.output _ _ c
      | nothing => rfl
      | assertFails => rfl
      | segments segs => exact col_segs f E k.output segs c

theorem col_connects (f : TextLoc → TextLoc) (E : TravEnv) (ks : List Conn) :
    ∀ c : Col, (moveCol f c).connects E ks = (c.connects E ks).map (moveCol f) := by
  induction ks with
  | nil => intro c; rfl
  | cons k ks ih =>
    intro c
    simp only [Col.connects, col_connect]
    cases c.connect E k with
    | error x => rfl
    | ok c1 => exact ih c1

theorem col_boxPorts (f : TextLoc → TextLoc) (E : TravEnv) (ms : List Member) : ∀ c : Col,
    (moveCol f c).boxPorts E (moveAll f ms) = (c.boxPorts E ms).map (moveCol f) := by
  induction ms with
  | nil => intro c; rfl
  | cons m ms ih =>
    intro c
    cases m with
    | port p =>
      simp only [moveAll, moveMember, Col.boxPorts, col_materialize]
      cases c.materialize E p with
      | error x => rfl
      | ok c1 => exact ih c1
    | _ => exact ih c

mutual
theorem col_visit (f : TextLoc → TextLoc) (E : TravEnv) (c : Col) (m : Member) :
    (moveCol f c).visit E (moveMember f m) = (c.visit E m).map (moveCol f) := by
  cases m with
  | port p => simp only [moveMember, Col.visit]; exact col_materialize f E c p
  | «variable» sym i ds =>
    simp only [moveMember, Col.visit]
    split
    · exact col_variables f E sym ds c
    · rfl
  | block b =>
    simp only [moveMember, Col.visit, Except.map, moveCol, List.map_append, List.map_cons, List.map_nil]
  | group u ms =>
    simp only [moveMember, Col.visit]
    split
    · rfl
    · exact col_visitAll f E c ms
  | inst u d p ms ks =>
    simp only [moveMember, Col.visit]
    split
    · rfl
    · have hc : (if E.opts.propCuts = true then (moveCol f c).recordCuts E ks else moveCol f c) =
          moveCol f (if E.opts.propCuts = true then c.recordCuts E ks else c) := by
        split
        · exact col_recordCuts f E ks c
        · rfl
      rw [hc]
      generalize (if E.opts.propCuts = true then c.recordCuts E ks else c) = c1
      cases isBlackBox E.opts.boxes d p with
      | error x => rfl
      | ok t =>
        cases t with
        | true =>
          have h := col_boxPorts f E ms { c1 with boxes := c1.boxes ++ [p] }
          have e : moveCol f { c1 with boxes := c1.boxes ++ [p] } =
            { moveCol f c1 with boxes := (moveCol f c1).boxes ++ [p] } := rfl
          rw [e] at h
          simp only [h]
          cases ({ c1 with boxes := c1.boxes ++ [p] } : Col).boxPorts E ms with
          | error x => rfl
          | ok c2 => exact col_connects f E ks c2
        | false =>
          dsimp only
          rw [col_visitAll f E c1 ms]
          cases c1.visitAll E ms with
          | error x => rfl
          | ok c2 => exact col_connects f E ks c2

theorem col_visitAll (f : TextLoc → TextLoc) (E : TravEnv) (c : Col) (ms : List Member) :
    (moveCol f c).visitAll E (moveAll f ms) = (c.visitAll E ms).map (moveCol f) := by
  cases ms with
  | nil => simp only [moveAll, Col.visitAll, Except.map]
  | cons m ms =>
    simp only [moveAll, Col.visitAll]
    rw [col_visit f E c m]
    cases c.visit E m with
    | error x => rfl
    | ok c1 => exact col_visitAll f E c1 ms
end

theorem move_phase1 (f : TextLoc → TextLoc) (E : TravEnv) (top : List Member) :
    phase1 E (moveAll f top) = (phase1 E top).map (moveCol f) := col_visitAll f E {} top

theorem move_netlist (f : TextLoc → TextLoc) (E : TravEnv) (ord : Tracker → List (Nat × Nat)) (top : List Member) :
    netlist E ord (moveAll f top) = (netlist E ord top).map (moveNet f) := by
  simp only [netlist, move_phase1]
  cases phase1 E top with
  | error x => rfl
  | ok c =>
    have hh : (moveCol f c).hist = c.hist := rfl
    simp only [Except.map, Col.start, hh]
    cases ({} : Tracker).run [] c.hist with
    | error x => rfl
    | ok p => exact bld_build f E.D ord { c.b with trk := p.1, drv := p.2 } c.blocks

end Verif.Proofs
