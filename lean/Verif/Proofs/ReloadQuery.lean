import Verif.Proofs.Reload

/-! Helper lemmas: netlists that look alike give the same answers. -/
namespace Verif.Proofs
open Verif.Model Verif.Spec Verif.Props

/-! ### A traversal seen through a map of its edges -/

/-- A callback with its edge mapped. -/
def evMap {ε δ : Type} (φ : ε → δ) : Ev ε → Ev δ
  | .visitNode n => .visitNode n
  | .visitedNode n => .visitedNode n
  | .visitEdge e => .visitEdge (φ e)
  | .popNode => .popNode

/-- A traversal state with its edges mapped. -/
def stMap {ε δ : Type} (φ : ε → δ) (s : DfsState ε) : DfsState δ :=
  ⟨s.visited, s.stack.map fun x => (x.1, x.2.map φ), s.log.map (evMap φ)⟩

section
variable {ε δ : Type} {G : Adj ε} {H : Adj δ} {φ : ε → δ}

theorem dfsStep_map (hE : ∀ n, H.edges n = (G.edges n).map φ) (ho : ∀ e, H.ok (φ e) = G.ok e)
    (hn : ∀ e, H.next (φ e) = G.next e) (s : DfsState ε) : dfsStep H (stMap φ s) = stMap φ (dfsStep G s) := by
  obtain ⟨vis, stack, log⟩ := s
  match stack with
  | [] => rfl
  | (n, []) :: rest => rfl
  | (n, e :: es) :: rest =>
    simp only [dfsStep, stMap, List.map_cons, ho, hn]
    split
    · rfl
    · split
      · rfl
      · simp only [List.map_cons, hE, evMap]

theorem dfsIter_map (hE : ∀ n, H.edges n = (G.edges n).map φ) (ho : ∀ e, H.ok (φ e) = G.ok e)
    (hn : ∀ e, H.next (φ e) = G.next e) (k : Nat) : ∀ s : DfsState ε,
      dfsIter H k (stMap φ s) = stMap φ (dfsIter G k s) := by
  induction k with
  | zero => intro s; rfl
  | succ k ih => intro s; simp only [dfsIter]; rw [dfsStep_map hE ho hn, ih]

theorem dfsRun_map (hE : ∀ n, H.edges n = (G.edges n).map φ) (ho : ∀ e, H.ok (φ e) = G.ok e)
    (hn : ∀ e, H.next (φ e) = G.next e) (univ : List Nat) (start : Nat) :
    dfsRun H univ start = stMap φ (dfsRun G univ start) := by
  have hf : dfsFuel H univ = dfsFuel G univ := by
    unfold dfsFuel; congr 1; refine List.map_congr_left fun n _ => ?_; rw [hE]; simp
  have hi : dfsInit H start = stMap φ (dfsInit G start) := by
    simp [dfsInit, stMap, hE, evMap]
  unfold dfsRun
  rw [hf, hi, dfsIter_map hE ho hn]
end

/-! ### Alike netlists -/

/-- What a query sees of an edge. -/
def seen (net : NetGraph) (e : Edge) : Nat × Nat × EdgeAttr := (e.src, e.tgt, net.attr e.id)

/-- The same, once its range is normalised. -/
def seenNorm (net : NetGraph) (e : Edge) : Nat × Nat × EdgeAttr := (e.src, e.tgt, normAttr (net.attr e.id))

/-- The second netlist is the first, loaded again. -/
structure Alike (net net' : NetGraph) : Prop where
  reach : Reachable net
  reach' : Reachable net'
  nodes : net'.g.nodes = net.g.nodes
  id : net'.id = net.id
  data : ∀ n, net'.data n = normData (fun v => v) (net.data n)
  out : ∀ n, (net'.g.obj n).outE.map (seen net') = (net.g.obj n).outE.map (seenNorm net)

/-- The second netlist has the nodes of the first, joined in the same way. -/
structure Joins (net net' : NetGraph) : Prop where
  reach : Reachable net
  reach' : Reachable net'
  nodes : net'.g.nodes = net.g.nodes
  data : ∀ n, net'.data n = normData (fun v => v) (net.data n)
  step : ∀ a b, Step net' a b ↔ Step net a b
  edge : ∀ a b, (∃ e ∈ (net'.g.obj a).outE, e.tgt = b) ↔ ∃ e ∈ (net.g.obj a).outE, e.tgt = b

section
variable (val : Str → Str) (d : NodeData)

theorem norm_kind : (normData val d).kind = d.kind := by cases d <;> rfl
theorem norm_path : (normData val d).path = d.path := by cases d <;> rfl
theorem norm_loc : (normData val d).loc = d.loc := by cases d <;> rfl
end

theorem normRange_lower (b : BitRange) : (normRange b).lower = b.lower := by
  simp only [normRange, BitRange.lower]; omega

theorem normRange_upper (b : BitRange) : (normRange b).upper = b.upper := by
  simp only [normRange, BitRange.upper]; omega

theorem normRange_text (b : BitRange) : rangeText (normRange b) = rangeText b := by
  simp only [rangeText, normRange_lower, normRange_upper]

theorem normRange_intersection (b r : BitRange) : (normRange b).intersection r = b.intersection r := by
  simp only [BitRange.intersection, BitRange.overlaps, normRange_lower, normRange_upper]
  rfl

theorem mem_seen {α : Type} {l l' : List Edge} {f g : Edge → α} (h : l'.map f = l.map g) :
    (∀ e ∈ l, ∃ e' ∈ l', f e' = g e) ∧ ∀ e' ∈ l', ∃ e ∈ l, f e' = g e := by
  constructor
  · intro e he
    have : g e ∈ l'.map f := by rw [h]; exact List.mem_map_of_mem he
    obtain ⟨e', h1, h2⟩ := List.mem_map.1 this
    exact ⟨e', h1, h2⟩
  · intro e he
    have : f e ∈ l.map g := by rw [← h]; exact List.mem_map_of_mem he
    obtain ⟨e', h1, h2⟩ := List.mem_map.1 this
    exact ⟨e', h1, h2.symm⟩

theorem seen_eq {net net' : NetGraph} {e e' : Edge} (h : seen net' e' = seenNorm net e) :
    e'.src = e.src ∧ e'.tgt = e.tgt ∧ net'.attr e'.id = normAttr (net.attr e.id) := by
  simpa [seen, seenNorm] using h

theorem Alike.joins {net net' : NetGraph} (h : Alike net net') : Joins net net' := by
  refine ⟨h.reach, h.reach', h.nodes, h.data, fun a b => ?_, fun a b => ?_⟩
  · obtain ⟨h1, h2⟩ := mem_seen (h.out a)
    unfold Step
    rw [h.nodes]
    constructor
    · rintro ⟨ha, e, he, ht, hd⟩
      obtain ⟨e', he', hs⟩ := h2 e he
      obtain ⟨_, s2, s3⟩ := seen_eq hs
      exact ⟨ha, e', he', s2.symm.trans ht, by rw [s3] at hd; exact hd⟩
    · rintro ⟨ha, e, he, ht, hd⟩
      obtain ⟨e', he', hs⟩ := h1 e he
      obtain ⟨_, s2, s3⟩ := seen_eq hs
      exact ⟨ha, e', he', s2.trans ht, by rw [s3]; exact hd⟩
  · obtain ⟨h1, h2⟩ := mem_seen (h.out a)
    constructor
    · rintro ⟨e, he, ht⟩
      obtain ⟨e', he', hs⟩ := h2 e he
      exact ⟨e', he', (seen_eq hs).2.1.symm.trans ht⟩
    · rintro ⟨e, he, ht⟩
      obtain ⟨e', he', hs⟩ := h1 e he
      exact ⟨e', he', (seen_eq hs).2.1.trans ht⟩

/-! ### Names -/

theorem mkIndex_norm {net net' : NetGraph} (hd : ∀ n, net'.data n = normData (fun v => v) (net.data n))
    (ns : List Nat) : ∀ ix, mkIndex net' ns ix = mkIndex net ns ix := by
  induction ns with
  | nil => intro ix; rfl
  | cons n ns ih =>
    intro ix
    simp only [mkIndex, hd, norm_path, ih]

theorem index_norm {net net' : NetGraph} (h : Joins net net') :
    (Session.ensureIndex ⟨net', none⟩).2 = (Session.ensureIndex ⟨net, none⟩).2 := by
  simp only [Session.ensureIndex, h.nodes, mkIndex_norm h.data]

theorem lookup_norm {net net' : NetGraph} (h : Joins net net') (name : Str) :
    Session.lookup ⟨net', none⟩ name = Session.lookup ⟨net, none⟩ name := by
  simp only [Session.lookup, index_norm h]

theorem findNodes_norm {net net' : NetGraph} (h : Joins net net') (m : Str → Bool) :
    Session.findNodes ⟨net', none⟩ m = Session.findNodes ⟨net, none⟩ m := by
  simp only [Session.findNodes, index_norm h]

theorem require_norm {net net' : NetGraph} (h : Joins net net') (name : Str) :
    requireNode ⟨net', none⟩ name = requireNode ⟨net, none⟩ name := by
  simp only [requireNode, lookup_norm h]

/-! ### Queries that only see how the nodes are joined -/

section
variable {net net' : NetGraph} (h : Joins net net')
include h

theorem kind_norm (n : Nat) : net'.kind n = net.kind n := by
  unfold NetGraph.kind; rw [h.data, norm_kind]

theorem combStep_norm (a b : Nat) : CombStep net' a b ↔ CombStep net a b := by
  unfold CombStep; rw [h.step, kind_norm h]

theorem combBack_norm (a b : Nat) : CombBackStep net' a b ↔ CombBackStep net a b := by
  unfold CombBackStep; rw [h.step, kind_norm h]

theorem fanOut_perm {n : Nat} (hn : n ∈ net.g.nodes) : (combFanOut net' n).Perm (combFanOut net n) := by
  obtain ⟨a1, a2⟩ := combFanOut_exact net h.reach n hn
  obtain ⟨b1, b2⟩ := combFanOut_exact net' h.reach' n (by rw [h.nodes]; exact hn)
  refine (List.perm_ext_iff_of_nodup b1 a1).2 fun m => ?_
  rw [a2, b2]
  exact reach_iff (combStep_norm h)

theorem fanIn_perm {n : Nat} (hn : n ∈ net.g.nodes) : (combFanIn net' n).Perm (combFanIn net n) := by
  obtain ⟨a1, a2⟩ := combFanIn_exact net h.reach n hn
  obtain ⟨b1, b2⟩ := combFanIn_exact net' h.reach' n (by rw [h.nodes]; exact hn)
  refine (List.perm_ext_iff_of_nodup b1 a1).2 fun m => ?_
  rw [a2, b2]
  exact reach_iff (combBack_norm h)

theorem driven_norm (n : Nat) : isDriven net' n = isDriven net n := by
  have key : ∀ {m : NetGraph}, Reachable m → (isDriven m n = true ↔ ∃ a e, e ∈ (m.g.obj a).outE ∧ e.tgt = n) := by
    intro m hm
    have hw := reachable_wf hm
    unfold isDriven
    rw [decide_eq_true_iff]
    constructor
    · intro hp
      obtain ⟨e, he⟩ := List.exists_mem_of_length_pos hp
      exact ⟨_, e, (hw.mir n e).1 he⟩
    · rintro ⟨a, e, he, ht⟩
      refine List.length_pos_of_mem ((hw.mir n e).2 ⟨?_, ht⟩)
      rw [(hw.out a e he).1]; exact he
  rw [Bool.eq_iff_iff, key h.reach, key h.reach']
  constructor
  · rintro ⟨a, e, he, ht⟩
    obtain ⟨e', h1, h2⟩ := (h.edge a n).1 ⟨e, he, ht⟩
    exact ⟨a, e', h1, h2⟩
  · rintro ⟨a, e, he, ht⟩
    obtain ⟨e', h1, h2⟩ := (h.edge a n).2 ⟨e, he, ht⟩
    exact ⟨a, e', h1, h2⟩

theorem constants_perm {n : Nat} (hn : n ∈ net.g.nodes) : (constantDrivers net' n).Perm (constantDrivers net n) := by
  have hp := fanIn_perm h hn
  unfold constantDrivers
  rw [constLoop_spec, constLoop_spec]
  simp only [kind_norm h, driven_norm h]
  have hc : (∃ p ∈ combFanIn net' n, p ≠ n ∧ (net.kind p = .state ∨ (net.kind p = .port ∧ isDriven net p = false))) ↔
      ∃ p ∈ combFanIn net n, p ≠ n ∧ (net.kind p = .state ∨ (net.kind p = .port ∧ isDriven net p = false)) := by
    constructor
    · rintro ⟨p, h1, h2⟩; exact ⟨p, hp.mem_iff.1 h1, h2⟩
    · rintro ⟨p, h1, h2⟩; exact ⟨p, hp.mem_iff.2 h1, h2⟩
  by_cases hx : ∃ p ∈ combFanIn net n, p ≠ n ∧ (net.kind p = .state ∨ (net.kind p = .port ∧ isDriven net p = false))
  · rw [if_pos hx, if_pos (hc.2 hx)]
  · rw [if_neg hx, if_neg (fun y => hx (hc.1 y))]
    simp only [List.nil_append]
    exact hp.filter _

end

/-! ### Rows -/

/-- One optional row per entry. -/
def rowsM {α : Type} (f : α → Except CliErr (Option (List Str))) : List α → Except CliErr (List (List Str))
  | [] => .ok []
  | x :: xs =>
    match f x with
    | .error e => .error e
    | .ok none => rowsM f xs
    | .ok (some r) =>
      match rowsM f xs with
      | .error e => .error e
      | .ok rs => .ok (r :: rs)

/-- Two results of row collection agree up to order. -/
def RowsLike : Except CliErr (List (List Str)) → Except CliErr (List (List Str)) → Prop
  | .error e, .error e' => e = e'
  | .ok r, .ok r' => r.Perm r'
  | _, _ => False

theorem rowsM_error {α : Type} {f : α → Except CliErr (Option (List Str))} {e0 : CliErr} (l : List α)
    (hf : ∀ x ∈ l, ∀ e, f x = .error e → e = e0) :
    (rowsM f l = .error e0 ∧ ∃ x ∈ l, f x = .error e0) ∨
      (∃ rs, rowsM f l = .ok rs ∧ rs = l.filterMap fun x => (f x).toOption.join) ∧ ∀ x ∈ l, ∀ e, f x ≠ .error e := by
  induction l with
  | nil => exact .inr ⟨⟨[], rfl, rfl⟩, by simp⟩
  | cons x xs ih =>
    have ih' := ih fun y hy => hf y (List.mem_cons_of_mem _ hy)
    unfold rowsM
    cases hx : f x with
    | error e =>
      have := hf x List.mem_cons_self e hx
      subst this
      exact .inl ⟨rfl, x, List.mem_cons_self, hx⟩
    | ok o =>
      rcases ih' with ⟨h1, y, hy, h2⟩ | ⟨⟨rs, h1, h2⟩, h3⟩
      · refine .inl ⟨?_, y, List.mem_cons_of_mem _ hy, h2⟩
        cases o <;> simp [h1]
      · refine .inr ⟨?_, ?_⟩
        · cases o with
          | none => exact ⟨rs, h1, by simp [hx, h2, Except.toOption]⟩
          | some r => exact ⟨r :: rs, by simp [h1], by simp [hx, h2, Except.toOption]⟩
        · intro y hy e
          rcases List.mem_cons.1 hy with rfl | hy
          · rw [hx]; simp
          · exact h3 y hy e

theorem rowsM_perm {α : Type} {f : α → Except CliErr (Option (List Str))} {e0 : CliErr} {l l' : List α}
    (hf : ∀ x ∈ l, ∀ e, f x = .error e → e = e0) (hp : l'.Perm l) : RowsLike (rowsM f l) (rowsM f l') := by
  have hf' : ∀ x ∈ l', ∀ e, f x = .error e → e = e0 := fun x hx => hf x (hp.mem_iff.1 hx)
  rcases rowsM_error l hf with ⟨h1, x, hx, h2⟩ | ⟨⟨rs, h1, h2⟩, h3⟩
  · rcases rowsM_error l' hf' with ⟨g1, _⟩ | ⟨_, g3⟩
    · rw [h1, g1]; rfl
    · exact absurd h2 (g3 x (hp.mem_iff.2 hx) _)
  · rcases rowsM_error l' hf' with ⟨g1, y, hy, g2⟩ | ⟨⟨rs', g1, g2⟩, _⟩
    · exact absurd g2 (h3 y (hp.mem_iff.1 hy) _)
    · rw [h1, g1]
      show rs.Perm rs'
      rw [h2, g2]
      exact (hp.filterMap _).symm

theorem loc_error {files : List Str} {l : Option TextLoc} {e : CliErr} (h : optLocText files l = .error e) :
    e = .message := by
  cases l with
  | none => cases h
  | some l =>
    dsimp only [optLocText, locText] at h
    split at h
    · cases h
    · split at h
      · cases h
      · cases h; rfl

/-- The row of a node in the listings of a cone. -/
def coneRow (net : NetGraph) (files scopes names : List Str) (n : Nat) : Except CliErr (Option (List Str)) :=
  match (net.data n).path with
  | none => .ok none
  | some p =>
    match cliPasses scopes names p with
    | .error e => .error e
    | .ok false => .ok none
    | .ok true =>
      match optLocText files (net.data n).loc with
      | .error e => .error e
      | .ok l => .ok (some [p, l])

theorem coneRows_eq (net : NetGraph) (files scopes names : List Str) (ns : List Nat) :
    coneRows net files scopes names ns = rowsM (coneRow net files scopes names) ns := by
  induction ns with
  | nil => rfl
  | cons n ns ih =>
    unfold coneRows rowsM
    generalize rowsM (coneRow net files scopes names) ns = R at ih ⊢
    unfold coneRow
    cases (net.data n).path with
    | none => exact ih
    | some p =>
      dsimp only
      cases cliPasses scopes names p with
      | error e => rfl
      | ok b =>
        cases b with
        | false => exact ih
        | true =>
          cases optLocText files (net.data n).loc with
          | error e => rfl
          | ok l =>
            simp only [bind, Except.bind, pure, Except.pure, ih, if_true]
            cases R <;> rfl

theorem coneRow_error {net : NetGraph} {files scopes names : List Str} {n : Nat} {e : CliErr}
    (h : coneRow net files scopes names n = .error e) : e = .message := by
  unfold coneRow at h
  split at h
  · cases h
  · rw [cliPasses_ok] at h
    split at h
    · rename_i h1; cases h1
    · cases h
    · split at h
      · rename_i h1; cases h; exact loc_error h1
      · cases h

theorem coneRow_norm {net net' : NetGraph} (h : Joins net net') (files scopes names : List Str) :
    coneRow net' files scopes names = coneRow net files scopes names := by
  funext n
  simp only [coneRow, h.data, norm_path, norm_loc]

/-- The row of a constant. -/
def constRow (net : NetGraph) (files : List Str) (n : Nat) : Except CliErr (Option (List Str)) :=
  match net.data n with
  | .constant v _ loc =>
    match locText files loc with
    | .error e => .error e
    | .ok l => .ok (some [v, l])
  | _ => .error .undefined

theorem constantRows_eq (net : NetGraph) (files : List Str) (ns : List Nat) :
    constantRows net files ns = rowsM (constRow net files) ns := by
  induction ns with
  | nil => rfl
  | cons n ns ih =>
    unfold constantRows rowsM
    generalize rowsM (constRow net files) ns = R at ih ⊢
    unfold constRow
    cases net.data n with
    | constant v w l =>
      dsimp only
      cases locText files l with
      | error e => rfl
      | ok t =>
        simp only [bind, Except.bind, pure, Except.pure, ih]
        cases R <;> rfl
    | _ => rfl

theorem constRow_norm {net net' : NetGraph} (h : Joins net net') (files : List Str) :
    constRow net' files = constRow net files := by
  funext n
  unfold constRow
  rw [h.data]
  cases net.data n <;> rfl

theorem constRow_error {net : NetGraph} {files : List Str} {n : Nat} (hk : net.kind n = .constant) {e : CliErr}
    (h : constRow net files n = .error e) : e = .message := by
  unfold constRow at h
  unfold NetGraph.kind at hk
  cases hd : net.data n with
  | constant v w l =>
    rw [hd] at h
    dsimp only at h
    split at h
    · rename_i h1; cases h; exact loc_error (l := some l) h1
    · cases h
  | _ => rw [hd] at hk; cases hk

theorem registerRows_norm {net net' : NetGraph} (h : Joins net net') (files scopes names : List Str) (ns : List Nat) :
    registerRows net' files scopes names ns = registerRows net files scopes names ns := by
  induction ns with
  | nil => rfl
  | cons n ns ih =>
    unfold registerRows
    rw [h.data]
    cases net.data n <;> simp only [normData, ih]

theorem findRows_norm {net net' : NetGraph} (h : Joins net net') (files scopes names : List Str) (ns : List Nat) :
    findRows net' files scopes names ns = findRows net files scopes names ns := by
  induction ns with
  | nil => rfl
  | cons n ns ih =>
    unfold findRows
    rw [h.data, norm_path, norm_loc, ih]

/-- A table made of rows that agree up to order. -/
theorem same_table {h : List Str} {r r' : Except CliErr (List (List Str))} (hr : RowsLike r r') :
    SameReport (do return .table h (← r)) (do return .table h (← r')) := by
  cases r with
  | error e => cases r' with
    | error e' => exact hr
    | ok _ => exact hr.elim
  | ok a => cases r' with
    | error e' => exact hr.elim
    | ok _ => exact ⟨rfl, hr⟩

theorem same_refl (r : Except CliErr Report) : SameReport r r := by
  cases r with
  | error e => rfl
  | ok r => cases r with
    | table h rows => exact ⟨rfl, .refl _⟩
    | _ => rfl

/-- Binding the same node. -/
theorem same_require {r : Except CliErr Nat} {f g : Nat → Except CliErr Report}
    (h : ∀ n, r = .ok n → SameReport (f n) (g n)) : SameReport (r >>= f) (r >>= g) := by
  cases r with
  | error e => rfl
  | ok n => exact h n rfl

theorem require_mem {net : NetGraph} {name : Str} {n : Nat} (h : requireNode ⟨net, none⟩ name = .ok n) :
    n ∈ net.g.nodes := by
  unfold requireNode at h
  split at h
  · rename_i m hm; cases h; exact fresh_lookup_mem (s := ⟨net, none⟩) (.inl rfl) hm
  · cases h

theorem constant_kind {net : NetGraph} {n m : Nat} (h : m ∈ constantDrivers net n) : net.kind m = .constant := by
  unfold constantDrivers at h
  rw [constLoop_spec] at h
  split at h
  · simp at h
  · rename_i cs e
    split at e
    · cases e
    · cases e
      simp only [List.nil_append, List.mem_filter, Bool.and_eq_true, beq_iff_eq] at h
      exact h.2.2

/-- Reports about nodes and the way they are joined. -/
theorem joins_report (rx : Str → Str → Bool) {net net' : NetGraph} (h : Joins net net')
    (files scopes names : List Str) {a : Action} (ha : ByNodes a) :
    SameReport (runAction rx ⟨net, none⟩ files scopes names a) (runAction rx ⟨net', none⟩ files scopes names a) := by
  cases a with
  | registers =>
    simp only [runAction, h.nodes, registerRows_norm h]
    exact same_refl _
  | find p =>
    simp only [runAction, findNodes_norm h, findRows_norm h]
    exact same_refl _
  | findRegex p =>
    simp only [runAction, findNodes_norm h, findRows_norm h]
    exact same_refl _
  | fanOut name =>
    simp only [runAction, require_norm h]
    refine same_require fun n hn => same_table ?_
    rw [coneRows_eq, coneRows_eq, coneRow_norm h]
    exact rowsM_perm (fun _ _ _ => coneRow_error) (fanOut_perm h (require_mem hn))
  | fanIn name =>
    simp only [runAction, require_norm h]
    refine same_require fun n hn => same_table ?_
    rw [coneRows_eq, coneRows_eq, coneRow_norm h]
    exact rowsM_perm (fun _ _ _ => coneRow_error) (fanIn_perm h (require_mem hn))
  | constants name =>
    simp only [runAction, require_norm h]
    refine same_require fun n hn => same_table ?_
    rw [constantRows_eq, constantRows_eq, constRow_norm h]
    exact rowsM_perm (fun x hx _ => constRow_error (constant_kind hx)) (constants_perm h (require_mem hn))
  | noAction => exact same_refl _
  | _ => exact ha.elim

end Verif.Proofs
