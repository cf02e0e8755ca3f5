import Verif.Spec.Source

/-! Helper lemmas: the traversal collects blocks and does nothing else with them. -/
namespace Verif.Proofs
open Verif.Spec Verif.Model

/-- The traversal with the collected blocks replaced. -/
def swapCol (g : Deferred → Deferred) (c : Col) : Col := { c with blocks := c.blocks.map g }

/-! ### The traversal -/

theorem swap_deps (g : Deferred → Deferred) (c : Col) (ds : List Dep) :
    (swapCol g c).addDeps ds = (c.addDeps ds).map (swapCol g) := by
  have h : (swapCol g c).b = c.b := rfl
  simp only [Col.addDeps, h]
  cases c.b.addDeps ds <;> rfl

theorem swap_node (g : Deferred → Deferred) (c : Col) (y : Nat) (b : BitRange) (d : NodeData) :
    (swapCol g c).newNode y b d = (c.newNode y b d).map fun r => (swapCol g r.1, r.2) := by
  have e : (swapCol g c).b.net = c.b.net := rfl
  simp only [Col.newNode, e]
  cases c.b.net.call (.addNode d) <;> rfl

theorem swap_portSegs (g : Deferred → Deferred) (E : TravEnv) (p : PortDecl) (x : Nat) (i : Bool) (bs : List BitRange) :
    ∀ c : Col, (swapCol g c).portSegs E p x i bs = (c.portSegs E p x i bs).map (swapCol g) := by
  induction bs with
  | nil => intro c; rfl
  | cons b bs ih =>
    intro c
    simp only [Col.portSegs]
    rw [swap_node g c p.sym b]
    cases c.newNode p.sym b (.port (E.D.ref x).name (E.D.ref x).path (E.D.ref x).loc p.dir b) with
    | error x => rfl
    | ok r =>
      obtain ⟨c1, n⟩ := r
      simp only [Except.map]
      cases i with
      | true => exact ih { c1 with hist := c1.hist ++ [(x, ⟨b, [⟨some n, 0⟩], false⟩)] }
      | false => exact ih c1

theorem swap_portDrivers (g : Deferred → Deferred) (E : TravEnv) (p : PortDecl) (x : Nat) (h : Option (List Nat))
    (ds : List PortDriver) : ∀ c : Col,
    (swapCol g c).portDrivers E p x h ds = (c.portDrivers E p x h ds).map (swapCol g) := by
  induction ds with
  | nil => intro c; rfl
  | cons d ds ih =>
    intro c
    simp only [Col.portDrivers]
    cases portSegments h d.lo d.hi with
    | error x => rfl
    | ok segs =>
      simp only [swap_portSegs]
      cases c.portSegs E p x d.input segs with
      | error x => rfl
      | ok c1 => exact ih c1

theorem swap_materialize (g : Deferred → Deferred) (E : TravEnv) (c : Col) (p : PortDecl) :
    (swapCol g c).materialize E p = (c.materialize E p).map (swapCol g) := by
  unfold Col.materialize
  cases p.inner with
  | none => rfl
  | some x => exact swap_portDrivers g E p x _ _ c

theorem swap_variables (g : Deferred → Deferred) (E : TravEnv) (y : Nat) (ds : List (Nat × Nat)) : ∀ c : Col,
    (swapCol g c).variables E y ds = (c.variables E y ds).map (swapCol g) := by
  induction ds with
  | nil => intro c; rfl
  | cons d ds ih =>
    intro c
    simp only [Col.variables]
    rw [swap_node g c y _]
    cases c.newNode y ⟨d.1, (d.1 : Int) + d.2⟩
      (.variable (E.D.ref y).name (E.D.ref y).path (E.D.ref y).loc ⟨d.1, (d.1 : Int) + d.2⟩) with
    | error x => rfl
    | ok r => exact ih r.1

theorem swap_recordCut (g : Deferred → Deferred) (E : TravEnv) (c : Col) (k : Conn) :
    (swapCol g c).recordCut E k = swapCol g (c.recordCut E k) := by
  unfold Col.recordCut
  split
  · split <;> rfl
  · rfl

theorem swap_recordCuts (g : Deferred → Deferred) (E : TravEnv) (ks : List Conn) : ∀ c : Col,
    (swapCol g c).recordCuts E ks = swapCol g (c.recordCuts E ks) := by
  induction ks with
  | nil => intro c; rfl
  | cons k ks ih => intro c; simp only [Col.recordCuts, swap_recordCut]; exact ih _

theorem swap_rvalue (g : Deferred → Deferred) (E : TravEnv) (c : Col) (y l : Nat) (b : BitRange) (n : Nat) :
    (swapCol g c).rvalue E y l b n = (c.rvalue E y l b n).map (swapCol g) := by
  unfold Col.rvalue
  split
  · exact swap_deps g c _
  · rfl

theorem swap_lvalue (g : Deferred → Deferred) (E : TravEnv) (c : Col) (y l : Nat) (b : BitRange) (n : Nat) :
    (swapCol g c).lvalue E y l b n = (c.lvalue E y l b n).map (swapCol g) := by
  have h : (swapCol g c).b = c.b := rfl
  simp only [Col.lvalue, h]
  exact swap_deps g { c with hist := c.hist ++ [(y, ⟨b, [⟨some n, l⟩], true⟩)] } _

theorem swap_path (g : Deferred → Deferred) (E : TravEnv) (o : Bool) (p : LspPath) (b : BitRange) (ns : List Nat) :
    ∀ c : Col, (swapCol g c).path E o p b ns = (c.path E o p b ns).map (swapCol g) := by
  induction ns with
  | nil => intro c; rfl
  | cons n ns ih =>
    intro c
    simp only [Col.path]
    cases p.root with
    | none => rfl
    | some y =>
      dsimp only
      cases o with
      | true =>
        simp only [if_true, swap_lvalue]
        cases c.lvalue E y (E.lspId p) b n with
        | error x => rfl
        | ok c1 => exact ih c1
      | false =>
        simp only [Bool.false_eq_true, if_false, swap_rvalue]
        cases c.rvalue E y (E.lspId p) b n with
        | error x => rfl
        | ok c1 => exact ih c1

theorem swap_paths (g : Deferred → Deferred) (E : TravEnv) (o : Bool) (ns : List Nat) (ps : List LspPath) :
    ∀ c : Col, (swapCol g c).paths E o ns ps = (c.paths E o ns ps).map (swapCol g) := by
  induction ps with
  | nil => intro c; rfl
  | cons p ps ih =>
    intro c
    simp only [Col.paths, swap_path]
    cases c.path E o p ⟨p.lo, p.hi⟩ ns with
    | error x => rfl
    | ok c1 => exact ih c1

theorem swap_plain (g : Deferred → Deferred) (k : Nat) (ns : List Nat) : ∀ c : Col,
    (swapCol g c).plainDeps k ns = (c.plainDeps k ns).map (swapCol g) := by
  induction ns with
  | nil => intro c; rfl
  | cons n ns ih =>
    intro c
    have e : (swapCol g c).b.net = c.b.net := rfl
    simp only [Col.plainDeps, e]
    cases c.b.net.call (.addEdge k n) with
    | none => rfl
    | some net => exact ih { c with b := { c.b with net := net } }

theorem swap_src (g : Deferred → Deferred) (E : TravEnv) (o : Bool) (sg : Seg) (ns : List Nat) (c : Col) (x : Src) :
    (swapCol g c).connSrc E o sg ns x = (c.connSrc E o sg ns x).map (swapCol g) := by
  cases x with
  | lsp p lo hi => exact swap_path g E o p _ ns c
  | «opaque» e => exact swap_paths g E false ns _ c
  | padding => rfl
  | const v lo hi =>
    unfold Col.connSrc
    dsimp only
    split
    · rfl
    · have e : (swapCol g c).b.net = c.b.net := rfl
      simp only [e]
      cases c.b.net.call
          (.addNode (.constant (E.render (constantForSegment v lo sg).1) (constantForSegment v lo sg).2 {})) with
      | none => rfl
      | some net => exact swap_plain g _ ns { c with b := { c.b with net := net } }
  | portNode => rfl

theorem swap_srcs (g : Deferred → Deferred) (E : TravEnv) (o : Bool) (sg : Seg) (ns : List Nat) (xs : List Src) :
    ∀ c : Col, (swapCol g c).connSrcs E o sg ns xs = (c.connSrcs E o sg ns xs).map (swapCol g) := by
  induction xs with
  | nil => intro c; rfl
  | cons x xs ih =>
    intro c
    simp only [Col.connSrcs, swap_src]
    cases c.connSrc E o sg ns x with
    | error x => rfl
    | ok c1 => exact ih c1

theorem swap_segs (g : Deferred → Deferred) (E : TravEnv) (o : Bool) (gs : List Seg) :
    ∀ c : Col, (swapCol g c).connSegs E o gs = (c.connSegs E o gs).map (swapCol g) := by
  induction gs with
  | nil => intro c; rfl
  | cons sg gs ih =>
    intro c
    simp only [Col.connSegs]
    by_cases h : sg.portNodes = []
    · simp only [h, if_true]; exact ih c
    · simp only [h, if_false, swap_srcs]
      cases c.connSrcs E o sg sg.portNodes sg.rhs with
      | error x => rfl
      | ok c1 => exact ih c1

theorem swap_connect (g : Deferred → Deferred) (E : TravEnv) (c : Col) (k : Conn) :
    (swapCol g c).connect E k = (c.connect E k).map (swapCol g) := by
  unfold Col.connect
  cases k.formal with
  | interface => rfl
  | multi => rfl
  | port sym inner =>
    cases k.actual with
    | none => rfl
    | some e =>
      have h : (swapCol g c).portNds sym = c.portNds sym := by
        rfl
      dsimp only
      rw [h]
      cases handlePortConnection E.opts.resolveBits k.integral (c.portNds sym) (E.D.width sym) e with
      | legacy => exact swap_paths g E k.output _ _ c
      | nothing => rfl
      | assertFails => rfl
      | segments segs => exact swap_segs g E k.output segs c

theorem swap_connects (g : Deferred → Deferred) (E : TravEnv) (ks : List Conn) :
    ∀ c : Col, (swapCol g c).connects E ks = (c.connects E ks).map (swapCol g) := by
  induction ks with
  | nil => intro c; rfl
  | cons k ks ih =>
    intro c
    simp only [Col.connects, swap_connect]
    cases c.connect E k with
    | error x => rfl
    | ok c1 => exact ih c1

theorem swap_boxPorts (g : Deferred → Deferred) (E : TravEnv) (ms : List Member) : ∀ c : Col,
    (swapCol g c).boxPorts E (withBlocks g ms) = (c.boxPorts E ms).map (swapCol g) := by
  induction ms with
  | nil => intro c; rfl
  | cons m ms ih =>
    intro c
    cases m with
    | port p =>
      simp only [withBlocks, withBlock, Col.boxPorts, swap_materialize]
      cases c.materialize E p with
      | error x => rfl
      | ok c1 => exact ih c1
    | _ => exact ih c

mutual
theorem swap_visit (g : Deferred → Deferred) (E : TravEnv) (c : Col) (m : Member) :
    (swapCol g c).visit E (withBlock g m) = (c.visit E m).map (swapCol g) := by
  cases m with
  | port p => simp only [withBlock, Col.visit]; exact swap_materialize g E c p
  | «variable» sym i ds =>
    simp only [withBlock, Col.visit]
    split
    · exact swap_variables g E sym ds c
    · rfl
  | block b =>
    simp only [withBlock, Col.visit, Except.map, swapCol, List.map_append, List.map_cons, List.map_nil]
  | group u ms =>
    simp only [withBlock, Col.visit]
    split
    · rfl
    · exact swap_visitAll g E c ms
  | inst u d p ms ks =>
    simp only [withBlock, Col.visit]
    split
    · rfl
    · have hc : (if E.opts.propCuts = true then (swapCol g c).recordCuts E ks else swapCol g c) =
          swapCol g (if E.opts.propCuts = true then c.recordCuts E ks else c) := by
        split
        · exact swap_recordCuts g E ks c
        · rfl
      rw [hc]
      generalize (if E.opts.propCuts = true then c.recordCuts E ks else c) = c1
      cases isBlackBox E.opts.boxes d p with
      | error x => rfl
      | ok t =>
        cases t with
        | true =>
          have h := swap_boxPorts g E ms { c1 with boxes := c1.boxes ++ [p] }
          have e : swapCol g { c1 with boxes := c1.boxes ++ [p] } =
            { swapCol g c1 with boxes := (swapCol g c1).boxes ++ [p] } := rfl
          rw [e] at h
          simp only [h]
          cases ({ c1 with boxes := c1.boxes ++ [p] } : Col).boxPorts E ms with
          | error x => rfl
          | ok c2 => exact swap_connects g E ks c2
        | false =>
          dsimp only
          rw [swap_visitAll g E c1 ms]
          cases c1.visitAll E ms with
          | error x => rfl
          | ok c2 => exact swap_connects g E ks c2

theorem swap_visitAll (g : Deferred → Deferred) (E : TravEnv) (c : Col) (ms : List Member) :
    (swapCol g c).visitAll E (withBlocks g ms) = (c.visitAll E ms).map (swapCol g) := by
  cases ms with
  | nil => simp only [withBlocks, Col.visitAll, Except.map]
  | cons m ms =>
    simp only [withBlocks, Col.visitAll]
    rw [swap_visit g E c m]
    cases c.visit E m with
    | error x => rfl
    | ok c1 => exact swap_visitAll g E c1 ms
end

theorem swap_phase1 (g : Deferred → Deferred) (E : TravEnv) (top : List Member) :
    phase1 E (withBlocks g top) = (phase1 E top).map (swapCol g) := swap_visitAll g E {} top

end Verif.Proofs
