import Verif.Model.Traverse

/-! Helper lemmas: what holds of every netlist a build produces, because every call of the builder on
the graph keeps it. -/
namespace Verif.Proofs
open Verif.Model

/-- The calls the builder makes on the graph: nodes, edges, and annotations that enable or disable
nothing and name symbols of the design. -/
def Grow (D : Design) (net : NetGraph) : NetOp → Prop
  | .addNode _ => True
  | .addEdge _ _ => True
  | .addNewEdge _ _ => True
  | .setAttr e a => a.disabled = (net.attr e).disabled ∧
      (a.symbol = (net.attr e).symbol ∨ ∃ y, a.symbol = some (D.ref y))
  | _ => False

/-- A condition that every call of the builder keeps. -/
def Keeps (D : Design) (P : NetGraph → Prop) : Prop :=
  ∀ net op net', P net → Grow D net op → net.call op = some net' → P net'

/-- The dependency names a symbol of the design. -/
def DepOk (D : Design) (d : Dep) : Prop := ∃ y, d.sym = some (D.ref y)

variable {D : Design} {P : NetGraph → Prop}

theorem Keeps.node (hP : Keeps D P) {net net' : NetGraph} (h0 : P net) {d : NodeData}
    (h : net.call (.addNode d) = some net') : P net' := hP net (.addNode d) net' h0 trivial h

theorem Keeps.edge (hP : Keeps D P) {net net' : NetGraph} (h0 : P net) {a b : Nat}
    (h : net.call (.addEdge a b) = some net') : P net' := hP net (.addEdge a b) net' h0 trivial h

theorem setVariable_grow (a : EdgeAttr) (y : Nat) (b : BitRange) :
    (a.setVariable (some (D.ref y)) b).1.disabled = a.disabled ∧
    ((a.setVariable (some (D.ref y)) b).1.symbol = a.symbol ∨
      (a.setVariable (some (D.ref y)) b).1.symbol = some (D.ref y)) := by
  unfold EdgeAttr.setVariable
  split
  · split
    · exact ⟨rfl, .inl rfl⟩
    · exact ⟨rfl, .inl rfl⟩
  · exact ⟨rfl, .inr rfl⟩

theorem keeps_dep (hP : Keeps D P) {net net' : NetGraph} {d : Dep} (hd : DepOk D d) (h0 : P net)
    (h : net.addDependency d = some net') : P net' := by
  obtain ⟨y, hy⟩ := hd
  unfold NetGraph.addDependency at h
  dsimp only at h
  rw [hy] at h
  split at h
  · cases h
  · rename_i n1 e1
    have p1 := hP _ _ _ h0 (by simp [Grow]) e1
    split at h
    · refine hP _ _ _ p1 ?_ h
      obtain ⟨g1, g2⟩ := setVariable_grow (D := D) (n1.attr (net.g.addEdge d.src d.tgt).2.id) y
        (depBounds (net.data d.src).bounds d.bounds)
      exact ⟨g1, g2.imp id fun g => ⟨y, g⟩⟩
    · split at h
      · cases h
      · rename_i n2 e2
        have p2 := hP _ _ _ p1 (by simp [Grow]) e2
        refine hP _ _ _ p2 ?_ h
        obtain ⟨g1, g2⟩ := setVariable_grow (D := D) (n2.attr (n1.g.addNewEdge d.src d.tgt).2.id) y
          (depBounds (net.data d.src).bounds d.bounds)
        exact ⟨g1, g2.imp id fun g => ⟨y, g⟩⟩

theorem keeps_deps (hP : Keeps D P) (ds : List Dep) : ∀ {net net' : NetGraph}, (∀ d ∈ ds, DepOk D d) → P net →
    net.addDependencies ds = some net' → P net' := by
  induction ds with
  | nil => intro net net' _ h0 h; cases h; exact h0
  | cons d ds ih =>
    intro net net' hd h0 h
    simp only [NetGraph.addDependencies] at h
    split at h
    · cases h
    · rename_i n1 e1
      exact ih (fun x hx => hd x (List.mem_cons_of_mem _ hx)) (keeps_dep hP (hd d List.mem_cons_self) h0 e1) h

/-! ### The dependencies name symbols of the design -/

theorem driverDeps_ok (l : List DriverInfo) (n y : Nat) (b : BitRange) :
    ∀ d ∈ driverDeps l n (D.ref y) b, DepOk D d := by
  intro d hd
  obtain ⟨i, _, hi⟩ := List.mem_filterMap.1 hd
  cases hn : i.node with
  | none => simp [hn] at hi
  | some m => simp only [hn, Option.map_some, Option.some.injEq] at hi; exact ⟨y, by rw [← hi]⟩

theorem modportDeps_ok {c : DfaCtx} (r : Ref) (b : BitRange) (n : Nat) :
    ∀ d ∈ modportDeps c r b n, DepOk c.D d := by
  intro d hd
  obtain ⟨v, _, hv⟩ := List.mem_filterMap.1 hd
  cases hl : c.vars.lookup v.1 v.2 with
  | none => simp [hl] at hv
  | some m => simp only [hl, Option.map_some, Option.some.injEq] at hv; exact ⟨r.sym, by rw [← hv]⟩

theorem hookupDeps_ok (s : Bld) (y : Nat) (b : BitRange) (l : List DriverInfo) :
    ∀ d ∈ hookupDeps D s y b l, DepOk D d := by
  unfold hookupDeps
  split
  · simp
  · split
    · simp
    · exact driverDeps_ok _ _ _ _

theorem extraDeps_ok (s : Bld) (y : Nat) (b : BitRange) (l : List DriverInfo) :
    ∀ d ∈ extraDeps D s y b l, DepOk D d := by
  intro d hd
  obtain ⟨i, _, hi⟩ := List.mem_flatMap.1 hd
  split at hi
  · simp at hi
  · split at hi
    · obtain ⟨v, _, hv⟩ := List.mem_filterMap.1 hi
      cases hl : s.vars.lookup v.1 v.2 with
      | none => simp [hl] at hv
      | some m => simp only [hl, Option.map_some, Option.some.injEq] at hv; exact ⟨y, by rw [← hv]⟩
    · split at hi
      · simp at hi
      · exact ⟨y, by rw [List.mem_singleton.1 hi]⟩
    · simp at hi

theorem readLoop_ok (m : DMap) (b : BitRange) (n y : Nat) (es : List (Ivl Nat)) : ∀ {ds : List Dep} {f : Bool},
    readLoop m b n (D.ref y) es = .ok (ds, f) → ∀ d ∈ ds, DepOk D d := by
  induction es with
  | nil => intro ds f h; cases h; simp
  | cons e es ih =>
    intro ds f h
    unfold readLoop at h
    split at h
    · cases h
    · split at h
      · cases h; exact driverDeps_ok _ _ _ _
      · split at h
        · cases h
        · rename_i ds' f' h'
          split at h
          · cases h
            intro d hd
            rcases List.mem_append.1 hd with hd | hd
            · exact driverDeps_ok _ _ _ _ d hd
            · exact ih h' d hd
          · cases h; exact ih h'

theorem emitDeps_ok {C : ResolveCtx} (hC : C.ref = D.ref) {p : Pending} {ds : List Dep} (h : emitDeps C p = .ok ds) :
    ∀ d ∈ ds, DepOk D d := by
  unfold emitDeps at h
  split at h
  · cases h; simp
  · split at h
    · cases h
      intro d hd
      exact ⟨p.sym, by rw [List.mem_singleton.1 hd, hC]⟩
    · split at h
      · cases h
      · cases h
        intro d hd
        obtain ⟨x, _, hx⟩ := List.mem_flatMap.1 hd
        unfold intervalDeps at hx
        split at hx
        · simp at hx
        · obtain ⟨i, _, hi⟩ := List.mem_filterMap.1 hx
          cases hn : i.node with
          | none => simp [hn] at hi
          | some m => simp only [hn, Option.map_some, Option.some.injEq] at hi; exact ⟨p.sym, by rw [← hi, hC]⟩

theorem emitAll_ok {C : ResolveCtx} (hC : C.ref = D.ref) (q : List Pending) : ∀ {ds : List Dep},
    emitAll C q = .ok ds → ∀ d ∈ ds, DepOk D d := by
  induction q with
  | nil => intro ds h; cases h; simp
  | cons p q ih =>
    intro ds h
    unfold emitAll at h
    split at h
    · cases h
    · rename_i d1 h1
      split at h
      · cases h
      · rename_i d2 h2
        cases h
        intro d hd
        rcases List.mem_append.1 hd with hd | hd
        · exact emitDeps_ok hC h1 d hd
        · exact ih h2 d hd

/-! ### The analysis of a block -/

theorem keeps_dfaDeps (hP : Keeps D P) {s s' : Dfa} {ds : List Dep} (hd : ∀ d ∈ ds, DepOk D d) (h0 : P s.net)
    (h : s.addDeps ds = .ok s') : P s'.net := by
  unfold Dfa.addDeps at h
  split at h
  · cases h
  · rename_i net' e; cases h; exact keeps_deps hP ds hd h0 e

theorem keeps_plain (hP : Keeps D P) {s s' : Dfa} {a b : Nat} (h0 : P s.net) (h : s.addPlain a b = .ok s') :
    P s'.net := by
  unfold Dfa.addPlain at h
  split at h
  · cases h
  · rename_i net' e; cases h; exact hP.edge h0 e

theorem keeps_newNode (hP : Keeps D P) {s s' : Dfa} {d : NodeData} {n : Nat} (h0 : P s.net)
    (h : s.newNode d = .ok (s', n)) : P s'.net := by
  unfold Dfa.newNode at h
  split at h
  · cases h
  · rename_i net' e; cases h; exact hP.node h0 e

theorem keeps_rvalue {c : DfaCtx} (hP : Keeps c.D P) {s s' : Dfa} {r : Ref} {b : BitRange} {o : Option Nat}
    (h0 : P s.net) (h : s.addRvalue c r b o = .ok s') : P s'.net := by
  unfold Dfa.addRvalue at h
  split at h
  · exact keeps_dfaDeps hP (modportDeps_ok r b _) h0 h
  · cases h; exact h0

theorem keeps_rvalues {c : DfaCtx} (hP : Keeps c.D P) {r : Ref} {o : Option Nat} (es : List (Ivl Unit)) :
    ∀ {s s' : Dfa}, P s.net → s.addRvalues c r o es = .ok s' → P s'.net := by
  induction es with
  | nil => intro s s' h0 h; cases h; exact h0
  | cons e es ih =>
    intro s s' h0 h
    unfold Dfa.addRvalues at h
    split at h
    · cases h
    · rename_i s1 h1; exact ih (keeps_rvalue hP h0 h1) h

theorem keeps_read {c : DfaCtx} (hP : Keeps c.D P) {s s' : Dfa} {r : Ref} (h0 : P s.net)
    (h : s.handleRvalue c r = .ok s') : P s'.net := by
  unfold Dfa.handleRvalue at h
  split at h
  · exact keeps_rvalue hP h0 h
  · split at h
    · exact keeps_rvalue hP h0 h
    · split at h
      · cases h
      · rename_i ds fin hl
        split at h
        · cases h
        · rename_i s1 h1
          have p1 := keeps_dfaDeps hP (readLoop_ok _ _ _ _ _ hl) h0 h1
          split at h
          · cases h; exact p1
          · split at h
            · cases h
            · exact keeps_rvalues hP _ p1 h

theorem keeps_write {s s' : Dfa} {b : Bool} {r : Ref} (h : s.handleLvalue b r = .ok s') : s'.net = s.net := by
  unfold Dfa.handleLvalue at h
  split at h
  · cases h; rfl
  · split at h
    · cases h
    · cases h; rfl

theorem keeps_note {c : DfaCtx} (hP : Keeps c.D P) {s s' : Dfa} {b : Bool} {x : Note} (h0 : P s.net)
    (h : s.noteRef c b x = .ok s') : P s'.net := by
  unfold Dfa.noteRef at h
  split at h
  · cases h; exact h0
  · split at h
    · cases h; exact h0
    · split at h
      · rw [keeps_write h]; exact h0
      · exact keeps_read hP h0 h

theorem keeps_notes {c : DfaCtx} (hP : Keeps c.D P) {b : Bool} (xs : List Note) : ∀ {s s' : Dfa}, P s.net →
    s.noteRefs c b xs = .ok s' → P s'.net := by
  induction xs with
  | nil => intro s s' h0 h; cases h; exact h0
  | cons x xs ih =>
    intro s s' h0 h
    unfold Dfa.noteRefs at h
    split at h
    · cases h
    · rename_i s1 h1; exact ih (keeps_note hP h0 h1) h

theorem keeps_update (hP : Keeps D P) {s s' : Dfa} {n : Nat} {k : Bool} (h0 : P s.net)
    (h : s.updateNode n k = .ok s') : P s'.net := by
  unfold Dfa.updateNode at h
  dsimp only at h
  split at h
  · cases h; exact h0
  · split at h
    · cases h
    · rename_i s1 h1; cases h; have := keeps_plain hP h0 h1; exact this

theorem keeps_lhs {b : Bool} (rs : List Ref) : ∀ {s s' : Dfa}, s.segLhs b rs = .ok s' → s'.net = s.net := by
  induction rs with
  | nil => intro s s' h; cases h; rfl
  | cons x xs ih =>
    intro s s' h
    unfold Dfa.segLhs at h
    split at h
    · cases h
    · rename_i s1 h1; rw [ih h, keeps_write h1]

theorem keeps_rhs {c : DfaCtx} (hP : Keeps c.D P) {b : Bool} (xs : List RSrc) : ∀ {s s' : Dfa}, P s.net →
    s.segRhs c b xs = .ok s' → P s'.net := by
  induction xs with
  | nil => intro s s' h0 h; cases h; exact h0
  | cons x xs ih =>
    intro s s' h0 h
    unfold Dfa.segRhs at h
    split at h
    · cases h
    · rename_i s1 h1
      refine ih ?_ h
      cases x with
      | lsp r => exact keeps_read hP h0 h1
      | «opaque» rs => exact keeps_notes hP _ h0 h1
      | padding => cases h1; exact h0
      | constant v w l =>
        unfold Dfa.segSrc at h1
        dsimp only at h1
        split at h1
        · cases h1; exact h0
        · split at h1
          · cases h1
          · rename_i s2 k h2
            exact keeps_plain hP (keeps_newNode hP h0 h2) h1

theorem keeps_start (hP : Keeps D P) {s s' : Dfa} {loc : TextLoc} (h0 : P s.net) (h : s.startAssign loc = .ok s') :
    P s'.net := by
  unfold Dfa.startAssign at h
  split at h
  · cases h
  · rename_i s1 n h1
    exact keeps_update hP (keeps_newNode hP h0 h1) h

theorem keeps_segments {c : DfaCtx} (hP : Keeps c.D P) {b : Bool} {o k : Option Nat} (gs : List DSeg) :
    ∀ {s s' : Dfa}, P s.net → s.segments c b o k gs = .ok s' → P s'.net := by
  induction gs with
  | nil => intro s s' h0 h; cases h; exact h0
  | cons g gs ih =>
    intro s s' h0 h
    unfold Dfa.segments at h
    dsimp only at h
    split at h
    · cases h
    · rename_i s1 h1
      split at h
      · cases h
      · rename_i s2 h2
        refine ih ?_ h
        have p1 := keeps_start hP (by exact h0) h1
        unfold Dfa.segBody at h2
        split at h2
        · cases h2
        · rename_i s3 h3
          exact keeps_rhs hP _ (by rw [keeps_lhs _ h3]; exact p1) h2

theorem keeps_assign {c : DfaCtx} (hP : Keeps c.D P) {s s' : Dfa} {loc : TextLoc} {b : Bool} {a : Asg}
    (h0 : P s.net) (h : s.assign c loc b a = .ok s') : P s'.net := by
  unfold Dfa.assign at h
  split at h
  · split at h
    · cases h
    · rename_i s1 h1
      exact keeps_notes hP _ (keeps_start hP h0 h1) h
  · exact keeps_segments hP _ h0 h

theorem keeps_merge (hP : Keeps D P) {s s' : Dfa} {a b o : Option Nat} (h0 : P s.net)
    (h : s.mergeNodes a b = .ok (s', o)) : P s'.net := by
  unfold Dfa.mergeNodes at h
  split at h
  · split at h
    · split at h
      · cases h
      · rename_i s1 n h1
        split at h
        · cases h
        · rename_i s2 h2
          split at h
          · cases h
          · rename_i s3 h3
            cases h
            exact keeps_plain hP (keeps_plain hP (keeps_newNode hP h0 h1) h2) h3
    · cases h; exact h0
  · cases h; exact h0
  · cases h; exact h0

theorem keeps_join (hP : Keeps D P) {s s' : Dfa} {f : Flow} (h0 : P s.net) (h : s.joinState f = .ok s') :
    P s'.net := by
  unfold Dfa.joinState at h
  split at h
  · unfold Dfa.mergeStates at h
    split at h
    · cases h
    · dsimp only at h
      split at h
      · cases h
      · rename_i s1 n h1
        split at h
        · cases h
        · rename_i s2 k h2
          cases h
          have p1 := keeps_merge hP (by exact h0) h1
          have p2 := keeps_merge hP p1 h2
          exact p2
  · split at h
    · cases h; exact h0
    · cases h; exact h0

theorem keeps_exec {c : DfaCtx} (hP : Keeps c.D P) (st : Stmt) : ∀ {s s' : Dfa}, P s.net → s.exec c st = .ok s' →
    P s'.net := by
  induction st with
  | skip => intro s s' h0 h; cases h; exact h0
  | reads rs => intro s s' h0 h; exact keeps_notes hP _ h0 h
  | assign loc b a => intro s s' h0 h; exact keeps_assign hP h0 h
  | branch k loc =>
    intro s s' h0 h
    simp only [Dfa.exec, Dfa.branch] at h
    split at h
    · cases h
    · rename_i s1 n h1
      exact keeps_update hP (keeps_newNode hP h0 h1) h
  | dead => intro s s' h0 h; cases h; exact h0
  | seq a b iha ihb =>
    intro s s' h0 h
    simp only [Dfa.exec] at h
    split at h
    · cases h
    · rename_i s1 h1
      exact ihb (iha h0 h1) h
  | choose f a b iha ihb =>
    intro s s' h0 h
    simp only [Dfa.exec] at h
    split at h
    · cases h
    · rename_i s1 h1
      split at h
      · cases h
      · rename_i s2 h2
        have p1 := iha h0 h1
        have p2 := ihb (by exact p1) h2
        split at h
        · exact keeps_join hP (by exact p2) h
        · exact keeps_join hP p2 h

theorem keeps_nba (ws : List PendL) : ∀ {s s' : Dfa}, s.processNba ws = .ok s' → s'.net = s.net := by
  induction ws with
  | nil => intro s s' h; cases h; rfl
  | cons w ws ih =>
    intro s s' h
    unfold Dfa.processNba at h
    split at h
    · cases h
    · exact (ih h).trans rfl

theorem keeps_run {c : DfaCtx} (hP : Keeps c.D P) {st : Stmt} {s s' : Dfa} (h0 : P s.net)
    (h : s.runBlock c st = .ok s') : P s'.net := by
  unfold Dfa.runBlock at h
  split at h
  · cases h
  · rename_i s1 h1
    rw [keeps_nba _ h]
    exact keeps_exec hP st h0 h1

/-! ### The blocks -/

theorem keeps_bldDeps (hP : Keeps D P) {s s' : Bld} {ds : List Dep} (hd : ∀ d ∈ ds, DepOk D d) (h0 : P s.net)
    (h : s.addDeps ds = .ok s') : P s'.net := by
  unfold Bld.addDeps at h
  split at h
  · cases h
  · rename_i net' e; cases h; exact keeps_deps hP ds hd h0 e

theorem keeps_drivers (hP : Keeps D P) {sens : List SensEntry} (ws : List Driven) : ∀ {s s' : Bld}, P s.net →
    s.mergeDrivers D sens ws = .ok s' → P s'.net := by
  induction ws with
  | nil => intro s s' h0 h; cases h; exact h0
  | cons w ws ih =>
    intro s s' h0 h
    unfold Bld.mergeDrivers at h
    split at h
    · cases h
    · rename_i s1 hs1
      refine ih ?_ h
      split at hs1
      · unfold Bld.mergeComb at hs1
        split at hs1
        · cases hs1
        · refine keeps_bldDeps hP (fun d hd => ?_) (by exact h0) hs1
          rcases List.mem_append.1 hd with hd | hd
          · exact hookupDeps_ok _ _ _ _ d hd
          · exact extraDeps_ok _ _ _ _ d hd
      · unfold Bld.mergeSeq at hs1
        split at hs1
        · cases hs1
        · rename_i s2 st h2
          unfold Bld.createState at h2
          dsimp only at h2
          split at h2
          · cases h2
          · rename_i net' e
            cases h2
            refine keeps_bldDeps hP (fun d hd => ?_) ?_ hs1
            · rcases List.mem_append.1 hd with hd | hd
              · rcases List.mem_append.1 hd with hd | hd
                · exact driverDeps_ok _ _ _ _ d hd
                · exact hookupDeps_ok _ _ _ _ d hd
              · exact extraDeps_ok _ _ _ _ d hd
            · exact hP.node h0 e

theorem keeps_mergeBlock (hP : Keeps D P) {ord : Tracker → List (Nat × Nat)} {sens : List SensEntry} {s s' : Bld}
    {d : Dfa} (h0 : P d.net) (h : s.mergeBlock D ord sens d = .ok s') : P s'.net := by
  unfold Bld.mergeBlock at h
  split at h
  · cases h
  · exact keeps_drivers hP _ (by exact h0) h

theorem keeps_block (hP : Keeps D P) {ord : Tracker → List (Nat × Nat)} {b : Deferred} {s s' : Bld} (h0 : P s.net)
    (h : s.handleBlock D ord b = .ok s') : P s'.net := by
  cases b with
  | procedural k body st =>
    simp only [Bld.handleBlock, Bld.handleProcedural] at h
    split at h
    · cases h
    · split at h
      · cases h
      · rename_i d h2
        exact keeps_mergeBlock hP (keeps_run (c := ⟨D, s.vars, none⟩) hP (by exact h0) h2) h
  | continuous loc a =>
    simp only [Bld.handleBlock, Bld.handleContinuous] at h
    split at h
    · cases h
    · rename_i d h2
      exact keeps_mergeBlock hP (keeps_exec (c := ⟨D, s.vars, none⟩) hP _ (by exact h0) h2) h

theorem keeps_blocks (hP : Keeps D P) {ord : Tracker → List (Nat × Nat)} (bs : List Deferred) : ∀ {s s' : Bld},
    P s.net → s.runBlocks D ord bs = .ok s' → P s'.net := by
  induction bs with
  | nil => intro s s' h0 h; cases h; exact h0
  | cons b bs ih =>
    intro s s' h0 h
    unfold Bld.runBlocks at h
    split at h
    · cases h
    · rename_i s1 h1; exact ih (keeps_block hP h0 h1) h

theorem keeps_build (hP : Keeps D P) {ord : Tracker → List (Nat × Nat)} {bs : List Deferred} {s : Bld}
    {net : NetGraph} (h0 : P s.net) (h : s.build D ord bs = .ok net) : P net := by
  unfold Bld.build at h
  split at h
  · cases h
  · rename_i s1 h1
    have p1 := keeps_blocks hP bs h0 h1
    unfold resolveSequential at h
    split at h
    · cases h
    · rename_i ds hds
      split at h
      · cases h
      · rename_i e
        cases h
        exact keeps_deps hP ds (emitAll_ok (C := s1.ctx D) rfl _ hds) p1 e

/-! ### The traversal -/

section
variable {E : TravEnv}

theorem keeps_colDeps (hP : Keeps D P) {c c' : Col} {ds : List Dep} (hd : ∀ d ∈ ds, DepOk D d) (h0 : P c.b.net)
    (h : c.addDeps ds = .ok c') : P c'.b.net := by
  unfold Col.addDeps at h
  split at h
  · cases h
  · rename_i b' e; cases h; exact keeps_bldDeps hP hd h0 e

theorem keeps_colNode (hP : Keeps D P) {c c' : Col} {y n : Nat} {b : BitRange} {d : NodeData} (h0 : P c.b.net)
    (h : c.newNode y b d = .ok (c', n)) : P c'.b.net := by
  unfold Col.newNode at h
  split at h
  · cases h
  · rename_i net' e; cases h; exact hP.node h0 e

theorem keeps_portSegs (hP : Keeps D P) {p : PortDecl} {x : Nat} {i : Bool} (bs : List BitRange) : ∀ {c c' : Col},
    P c.b.net → c.portSegs E p x i bs = .ok c' → P c'.b.net := by
  induction bs with
  | nil => intro c c' h0 h; cases h; exact h0
  | cons b bs ih =>
    intro c c' h0 h
    unfold Col.portSegs at h
    dsimp only at h
    split at h
    · cases h
    · rename_i c1 n h1
      have p1 := keeps_colNode hP h0 h1
      refine ih ?_ h
      split
      · exact p1
      · exact p1

theorem keeps_portDrivers (hP : Keeps D P) {p : PortDecl} {x : Nat} {hs : Option (List Nat)} (ds : List PortDriver) :
    ∀ {c c' : Col}, P c.b.net → c.portDrivers E p x hs ds = .ok c' → P c'.b.net := by
  induction ds with
  | nil => intro c c' h0 h; cases h; exact h0
  | cons d ds ih =>
    intro c c' h0 h
    unfold Col.portDrivers at h
    split at h
    · cases h
    · split at h
      · cases h
      · rename_i c1 h1; exact ih (keeps_portSegs hP _ h0 h1) h

theorem keeps_materialize (hP : Keeps D P) {p : PortDecl} {c c' : Col} (h0 : P c.b.net)
    (h : c.materialize E p = .ok c') : P c'.b.net := by
  unfold Col.materialize at h
  split at h
  · cases h; exact h0
  · exact keeps_portDrivers hP _ h0 h

theorem keeps_variables (hP : Keeps D P) {y : Nat} (ds : List (Nat × Nat)) : ∀ {c c' : Col}, P c.b.net →
    c.variables E y ds = .ok c' → P c'.b.net := by
  induction ds with
  | nil => intro c c' h0 h; cases h; exact h0
  | cons d ds ih =>
    intro c c' h0 h
    unfold Col.variables at h
    dsimp only at h
    split at h
    · cases h
    · rename_i c1 n h1; exact ih (keeps_colNode hP h0 h1) h

theorem recordCuts_b (ks : List Conn) : ∀ c : Col, (c.recordCuts E ks).b = c.b := by
  induction ks with
  | nil => intro c; rfl
  | cons k ks ih =>
    intro c
    unfold Col.recordCuts
    rw [ih]
    unfold Col.recordCut
    split
    · split
      · rfl
      · rfl
    · rfl

theorem keeps_path (hP : Keeps E.D P) {o : Bool} {p : LspPath} {b : BitRange} (ns : List Nat) : ∀ {c c' : Col},
    P c.b.net → c.path E o p b ns = .ok c' → P c'.b.net := by
  induction ns with
  | nil => intro c c' h0 h; cases h; exact h0
  | cons n ns ih =>
    intro c c' h0 h
    unfold Col.path at h
    split at h
    · cases h; exact h0
    · split at h
      · cases h
      · rename_i c1 h1
        refine ih ?_ h
        split at h1
        · unfold Col.lvalue at h1
          exact keeps_colDeps hP (hookupDeps_ok _ _ _ _) (by exact h0) h1
        · unfold Col.rvalue at h1
          split at h1
          · exact keeps_colDeps hP (modportDeps_ok (c := ⟨E.D, c.b.vars, none⟩) _ _ _) h0 h1
          · cases h1; exact h0

theorem keeps_paths (hP : Keeps E.D P) {o : Bool} {ns : List Nat} (ps : List LspPath) : ∀ {c c' : Col},
    P c.b.net → c.paths E o ns ps = .ok c' → P c'.b.net := by
  induction ps with
  | nil => intro c c' h0 h; cases h; exact h0
  | cons p ps ih =>
    intro c c' h0 h
    unfold Col.paths at h
    split at h
    · cases h
    · rename_i c1 h1; exact ih (keeps_path hP _ h0 h1) h

theorem keeps_plainDeps (hP : Keeps D P) {k : Nat} (ns : List Nat) : ∀ {c c' : Col}, P c.b.net →
    c.plainDeps k ns = .ok c' → P c'.b.net := by
  induction ns with
  | nil => intro c c' h0 h; cases h; exact h0
  | cons n ns ih =>
    intro c c' h0 h
    unfold Col.plainDeps at h
    split at h
    · cases h
    · rename_i net' e
      exact ih (by exact hP.edge h0 e) h

theorem keeps_connSrcs (hP : Keeps E.D P) {o : Bool} {seg : Seg} {ns : List Nat} (xs : List Src) : ∀ {c c' : Col},
    P c.b.net → c.connSrcs E o seg ns xs = .ok c' → P c'.b.net := by
  induction xs with
  | nil => intro c c' h0 h; cases h; exact h0
  | cons x xs ih =>
    intro c c' h0 h
    unfold Col.connSrcs at h
    split at h
    · cases h
    · rename_i c1 h1
      refine ih ?_ h
      unfold Col.connSrc at h1
      split at h1
      · exact keeps_path hP _ h0 h1
      · exact keeps_paths hP _ h0 h1
      · cases h1; exact h0
      · split at h1
        · cases h1; exact h0
        · dsimp only at h1
          split at h1
          · cases h1
          · rename_i net' e
            exact keeps_plainDeps hP _ (by exact hP.node h0 e) h1
      · cases h1

theorem keeps_connSegs (hP : Keeps E.D P) {o : Bool} (segs : List Seg) : ∀ {c c' : Col},
    P c.b.net → c.connSegs E o segs = .ok c' → P c'.b.net := by
  induction segs with
  | nil => intro c c' h0 h; cases h; exact h0
  | cons x xs ih =>
    intro c c' h0 h
    unfold Col.connSegs at h
    split at h
    · cases h
    · rename_i c1 h1
      refine ih ?_ h
      split at h1
      · cases h1; exact h0
      · exact keeps_connSrcs hP _ h0 h1

theorem keeps_connects (hP : Keeps E.D P) (ks : List Conn) : ∀ {c c' : Col},
    P c.b.net → c.connects E ks = .ok c' → P c'.b.net := by
  induction ks with
  | nil => intro c c' h0 h; cases h; exact h0
  | cons k ks ih =>
    intro c c' h0 h
    unfold Col.connects at h
    split at h
    · cases h
    · rename_i c1 h1
      refine ih ?_ h
      unfold Col.connect at h1
      split at h1
      · cases h1; exact h0
      · cases h1
      · split at h1
        · cases h1; exact h0
        · split at h1
          · exact keeps_paths hP _ h0 h1
          · cases h1; exact h0
          · cases h1
          · exact keeps_connSegs hP _ h0 h1

theorem keeps_boxPorts (hP : Keeps D P) (ms : List Member) : ∀ {c c' : Col}, P c.b.net →
    c.boxPorts E ms = .ok c' → P c'.b.net := by
  induction ms with
  | nil => intro c c' h0 h; cases h; exact h0
  | cons m ms ih =>
    intro c c' h0 h
    unfold Col.boxPorts at h
    split at h
    · cases h; exact h0
    · rename_i heq
      cases heq
      split at h
      · cases h
      · rename_i c1 h1; exact ih (keeps_materialize hP h0 h1) h
    · rename_i heq
      cases heq
      exact ih h0 h

mutual
theorem keeps_visit (hP : Keeps E.D P) : ∀ (m : Member) {c c' : Col}, P c.b.net → c.visit E m = .ok c' → P c'.b.net
  | .port p, c, c', h0, h => keeps_materialize hP h0 h
  | .variable y i ds, c, c', h0, h => by
    simp only [Col.visit] at h
    split at h
    · exact keeps_variables hP _ h0 h
    · cases h; exact h0
  | .block b, c, c', h0, h => by simp only [Col.visit] at h; cases h; exact h0
  | .group u ms, c, c', h0, h => by
    simp only [Col.visit] at h
    split at h
    · cases h; exact h0
    · exact keeps_visitAll hP ms h0 h
  | .inst u dn p ms ks, c, c', h0, h => by
    simp only [Col.visit] at h
    split at h
    · cases h; exact h0
    · have h0' : P (if E.opts.propCuts = true then c.recordCuts E ks else c).b.net := by
        split
        · rw [recordCuts_b]; exact h0
        · exact h0
      split at h
      · cases h
      · split at h
        · cases h
        · rename_i c2 h2; exact keeps_connects hP _ (keeps_boxPorts hP ms (by exact h0') h2) h
      · split at h
        · cases h
        · rename_i c2 h2; exact keeps_connects hP _ (keeps_visitAll hP ms h0' h2) h

theorem keeps_visitAll (hP : Keeps E.D P) : ∀ (ms : List Member) {c c' : Col}, P c.b.net →
    c.visitAll E ms = .ok c' → P c'.b.net
  | [], c, c', h0, h => by simp only [Col.visitAll] at h; cases h; exact h0
  | m :: ms, c, c', h0, h => by
    simp only [Col.visitAll] at h
    split at h
    · cases h
    · rename_i c1 h1; exact keeps_visitAll hP ms (keeps_visit hP m h0 h1) h
end

/-- What every call of the builder keeps holds of every netlist it builds. -/
theorem keeps_netlist (hP : Keeps E.D P) (h0 : P {}) {ord : Tracker → List (Nat × Nat)} {top : List Member}
    {net : NetGraph} (h : netlist E ord top = .ok net) : P net := by
  unfold netlist at h
  split at h
  · cases h
  · rename_i c h1
    have p1 : P c.b.net := keeps_visitAll hP top (by exact h0) h1
    split at h
    · cases h
    · rename_i s h2
      unfold Col.start at h2
      split at h2
      · cases h2
      · cases h2
        exact keeps_build hP (by exact p1) h
end

end Verif.Proofs
