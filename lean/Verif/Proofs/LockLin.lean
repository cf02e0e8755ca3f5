import Verif.Proofs.Locks

/-! Every concurrent insertion run is a sequential one: the refinement invariant. -/
set_option linter.unusedSimpArgs false
namespace Verif.Proofs
open Verif.Model Verif.Spec

/-- The call a thread has begun but that has not taken effect. -/
def unlin : LPhase → List Req
  | .lockSrc r | .look r | .pushOut r => [r]
  | _ => []

/-- The call that has taken effect but not returned. -/
def lined : LPhase → List (Req × Edge)
  | .unlockEarly r e | .lockTgt r e | .pushIn r e | .unlockTgt r e | .unlockSrc r e => [(r, e)]
  | _ => []

/-- The edge a thread still has to enter in its target's list. -/
def pend : LPhase → Option (Req × Edge)
  | .unlockEarly r e | .lockTgt r e | .pushIn r e => some (r, e)
  | _ => none

structure LinInv (A0 : AbsGraph) (prog : List (List Req)) (s : LSt) (A : AbsGraph)
    (lin : List Done) : Prop where
  calls : A0.calls (lin.map fun d => reqOp d.req) = some (A, lin.map fun d => .edge d.edge)
  prg : ∀ u, (ofThread lin u).map Prod.fst ++ (unlin (s.th u) ++ s.todo u) = (prog[u]?).getD []
  log : ∀ u, s.log u ++ lined (s.th u) = ofThread lin u
  inv : AbsInv A
  nodes : s.g.nodes = A.nodes ∧ A.nodes = A0.nodes ∧ s.g.nextNode = A.nextNode
  nextEdge : s.g.nextEdge = A.nextEdge
  out : ∀ n, (s.g.obj n).outE = A.edges.filter fun e => e.src == n
  idx : ∀ n ix, (s.g.obj n).index = some ix → ∀ t, ix t = (s.g.obj n).outE.find? fun e => e.tgt == t
  innNodup : ∀ n, (s.g.obj n).inE.Nodup
  innMem : ∀ n e, e ∈ (s.g.obj n).inE ↔
    e ∈ A.edges ∧ e.tgt = n ∧ ∀ u r, pend (s.th u) ≠ some (r, e)
  pendMem : ∀ u r e, pend (s.th u) = some (r, e) → e ∈ A.edges ∧ e.tgt = r.tgt
  pendUniq : ∀ u v r r' e, pend (s.th u) = some (r, e) → pend (s.th v) = some (r', e) → u = v
  none : ∀ u r, s.th u = .pushOut r → r.dedup = true →
    A.edges.find? (fun e => e.src == r.src && e.tgt == r.tgt) = none

theorem linInv_begin {g : DGraph} {A : AbsGraph} (hr : Rel g A) (hi : AbsInv A)
    (prog : List (List Req)) : LinInv A prog (.begin g prog) A [] := by
  have hnd : A.edges.Nodup := hi.sorted.imp (by intro a b h hab; subst hab; omega)
  refine ⟨rfl, ?_, ?_, hi, ⟨hr.nodes, rfl, hr.nextNode⟩, hr.nextEdge, hr.out, hr.idx, ?_, ?_, ?_, ?_, ?_⟩
  · intro u; simp [ofThread, LSt.begin, unlin]
  · intro u; simp [ofThread, LSt.begin, lined]
  · intro n; simp only [LSt.begin, hr.inn]; exact hnd.filter _
  · intro n e; simp [LSt.begin, hr.inn, pend]
  · intro u r e h; simp [LSt.begin, pend] at h
  · intro u v r r' e h; simp [LSt.begin, pend] at h
  · intro u r h; simp [LSt.begin] at h

/-- Steps in which nothing takes effect. -/
theorem lin_stutter {A0 A : AbsGraph} {prog : List (List Req)} {s s' : LSt} {lin : List Done}
    (h : LinInv A0 prog s A lin) {u : Nat} (hg : s'.g = s.g)
    (ho : ∀ v, v ≠ u → s'.th v = s.th v ∧ s'.todo v = s.todo v ∧ s'.log v = s.log v)
    (hp : unlin (s'.th u) ++ s'.todo u = unlin (s.th u) ++ s.todo u)
    (hl : s'.log u ++ lined (s'.th u) = s.log u ++ lined (s.th u))
    (hpe : pend (s'.th u) = pend (s.th u))
    (hn : ∀ r, s'.th u = .pushOut r → r.dedup = true →
      A.edges.find? (fun e => e.src == r.src && e.tgt == r.tgt) = none) :
    LinInv A0 prog s' A lin := by
  have hpend : ∀ v, pend (s'.th v) = pend (s.th v) := by
    intro v
    by_cases hv : v = u
    · subst hv; exact hpe
    · rw [(ho v hv).1]
  refine ⟨h.calls, ?_, ?_, h.inv, by rw [hg]; exact h.nodes, by rw [hg]; exact h.nextEdge,
    by rw [hg]; exact h.out, by rw [hg]; exact h.idx, by rw [hg]; exact h.innNodup, ?_, ?_, ?_, ?_⟩
  · intro v
    by_cases hv : v = u
    · subst hv; rw [hp]; exact h.prg v
    · rw [(ho v hv).1, (ho v hv).2.1]; exact h.prg v
  · intro v
    by_cases hv : v = u
    · subst hv; rw [hl]; exact h.log v
    · rw [(ho v hv).1, (ho v hv).2.2]; exact h.log v
  · intro n e
    rw [hg]
    simp only [hpend]
    exact h.innMem n e
  · intro v r e; rw [hpend]; exact h.pendMem v r e
  · intro v w r r' e; rw [hpend, hpend]; exact h.pendUniq v w r r' e
  · intro v r hv hd
    by_cases hvu : v = u
    · subst hvu; exact hn r hv hd
    · rw [(ho v hvu).1] at hv; exact h.none v r hv hd

theorem abs_calls_snoc {A0 A A' : AbsGraph} {o : GOut} {op : GOp} : ∀ {ops : List GOp}
    {os : List GOut} {A0 : AbsGraph}, A0.calls ops = some (A, os) → A.call op = some (A', o) →
    A0.calls (ops ++ [op]) = some (A', os ++ [o]) := by
  intro ops
  induction ops with
  | nil =>
    intro os A0 h hc
    simp only [AbsGraph.calls, Option.some.injEq, Prod.mk.injEq] at h
    obtain ⟨rfl, rfl⟩ := h
    simp [AbsGraph.calls, hc]
  | cons p ops ih =>
    intro os A0 h hc
    simp only [AbsGraph.calls, List.cons_append] at h ⊢
    cases hp : A0.call p with
    | none => rw [hp] at h; cases h
    | some x =>
      obtain ⟨A1, o1⟩ := x
      rw [hp] at h
      simp only at h ⊢
      cases h1 : A1.calls ops with
      | none => rw [h1] at h; cases h
      | some y =>
        obtain ⟨A2, os2⟩ := y
        rw [h1] at h
        simp only [Option.some.injEq, Prod.mk.injEq] at h
        obtain ⟨rfl, rfl⟩ := h
        rw [ih h1 hc]
        rfl

theorem ofThread_snoc (lin : List Done) (d : Done) (u : Nat) :
    ofThread (lin ++ [d]) u = ofThread lin u ++ if d.thread = u then [(d.req, d.edge)] else [] := by
  unfold ofThread
  by_cases h : d.thread = u <;> simp [List.filter_append, List.filter_cons, h]

theorem calls_snoc_lin {A0 A A' : AbsGraph} {lin : List Done} {d : Done}
    (h : A0.calls (lin.map fun d => reqOp d.req) = some (A, lin.map fun d => .edge d.edge))
    (hc : A.call (reqOp d.req) = some (A', .edge d.edge)) :
    A0.calls ((lin ++ [d]).map fun d => reqOp d.req) =
      some (A', (lin ++ [d]).map fun d => .edge d.edge) := by
  simp only [List.map_append, List.map_cons, List.map_nil]
  exact abs_calls_snoc (A0 := A0) h hc

theorem pushOut_idx {n : NodeObj} {e : Edge}
    (h : ∀ ix, n.index = some ix → ∀ t, ix t = n.outE.find? fun e => e.tgt == t) :
    ∀ ix, (pushOut n e).index = some ix → ∀ t, ix t = (pushOut n e).outE.find? fun e => e.tgt == t := by
  intro ix hix t
  simp only [pushOut] at hix ⊢
  split at hix
  · rename_i ix0 h0
    cases hix
    exact tryEmplace_find ix0 n.outE e (h ix0 h0) t
  · split at hix
    · cases hix; exact buildIndex_find _ t
    · cases hix

theorem linInv_step {A0 A : AbsGraph} {prog : List (List Req)} {s s' : LSt} {lin : List Done}
    {u : Nat} (hw : ∀ l ∈ prog, ∀ r ∈ l, r.src ∈ A0.nodes ∧ r.tgt ∈ A0.nodes)
    (ho : OwnInv prog s) (h : LinInv A0 prog s A lin) (hs : s.step u = some s') :
    ∃ A' lin', LinInv A0 prog s' A' lin' := by
  have hpu := h.none u
  have hmine : ∀ v n, holds (s.th u) n → holds (s.th v) n → v = u := by
    intro v n h1 h2
    rw [← ho.own] at h1 h2
    rw [h1] at h2; cases h2; rfl
  have hreq := ho.req u
  unfold LSt.step at hs
  cases hp : s.th u with
  | idle =>
    rw [hp] at hs
    simp only [LSt.stepAt] at hs
    split at hs
    · cases hs
    · rename_i r rest ht
      cases hs
      refine ⟨A, lin, lin_stutter (u := u) h rfl ?_ ?_ ?_ ?_ ?_⟩
      · intro v hv; simp [LSt.goto, hv]
      · simp [LSt.goto, unlin, hp, ht]
      · simp [LSt.goto, lined, hp]
      · simp [LSt.goto, pend, hp]
      · intro r' h'; simp [LSt.goto] at h'
  | lockSrc r =>
    rw [hp] at hs
    simp only [LSt.stepAt] at hs
    split at hs
    · cases hs
    · cases hs
      refine ⟨A, lin, lin_stutter (u := u) h rfl ?_ ?_ ?_ ?_ ?_⟩
      · intro v hv; simp [LSt.goto, LSt.own, hv]
      · cases r.dedup <;> simp [LSt.goto, LSt.own, unlin, hp]
      · cases r.dedup <;> simp [LSt.goto, LSt.own, lined, hp]
      · cases r.dedup <;> simp [LSt.goto, LSt.own, pend, hp]
      · intro r' h' hd
        cases hr : r.dedup with
        | true => simp [LSt.goto, LSt.own, hr] at h'
        | false =>
          simp only [LSt.goto, LSt.own, hr, ↓reduceIte, Bool.false_eq_true,
            LPhase.pushOut.injEq] at h'
          subst h'; rw [hr] at hd; cases hd
  | look r =>
    have hd : r.dedup = true := by have := ho.shp u; rw [hp] at this; exact this
    obtain ⟨l, hl, hrl⟩ := hreq r (by rw [hp]; rfl)
    have hin := hw l hl r hrl
    rw [← h.nodes.2.1] at hin
    have hlook : lookupOutEdge (s.g.obj r.src) r.tgt =
        A.edges.find? fun e => e.src == r.src && e.tgt == r.tgt := by
      rw [← find?_filter_and, ← h.out r.src]
      unfold lookupOutEdge
      split
      · rename_i ix hix; exact h.idx r.src ix hix r.tgt
      · rfl
    rw [hp] at hs
    simp only [LSt.stepAt] at hs
    rw [hlook] at hs
    split at hs
    · rename_i e he
      cases hs
      refine ⟨A, lin ++ [⟨u, r, e⟩], ?_⟩
      have hcall : A.call (reqOp r) = some (A, .edge e) := by
        simp [reqOp, hd, AbsGraph.call, hin, he]
      have hpend : ∀ v, pend ((s.goto u (.unlockSrc r e)).th v) = pend (s.th v) := by
        intro v
        by_cases hv : v = u
        · subst hv; simp [LSt.goto, hp, pend]
        · simp [LSt.goto, hv]
      refine ⟨calls_snoc_lin h.calls hcall, ?_, ?_, h.inv, h.nodes, h.nextEdge, h.out, h.idx,
        h.innNodup, ?_, ?_, ?_, ?_⟩
      · intro v
        rw [ofThread_snoc]
        have := h.prg v
        by_cases hv : v = u
        · subst hv; rw [hp] at this; simpa [LSt.goto, unlin] using this
        · have hv' : u ≠ v := fun h => hv h.symm
          simpa [LSt.goto, hv, hv'] using this
      · intro v
        rw [ofThread_snoc]
        have := h.log v
        by_cases hv : v = u
        · subst hv; rw [hp] at this; simpa [LSt.goto, lined] using this
        · have hv' : u ≠ v := fun h => hv h.symm
          simpa [LSt.goto, hv, hv'] using this
      · intro n e'; simp only [hpend]; exact h.innMem n e'
      · intro v r' e'; rw [hpend]; exact h.pendMem v r' e'
      · intro v w r1 r2 e'; rw [hpend, hpend]; exact h.pendUniq v w r1 r2 e'
      · intro v r' hv hd'
        by_cases hvu : v = u
        · subst hvu; simp [LSt.goto] at hv
        · simp only [LSt.goto, hvu, ↓reduceIte] at hv; exact h.none v r' hv hd'
    · rename_i he
      cases hs
      refine ⟨A, lin, lin_stutter (u := u) h rfl ?_ ?_ ?_ ?_ ?_⟩
      · intro v hv; simp [LSt.goto, hv]
      · simp [LSt.goto, unlin, hp]
      · simp [LSt.goto, lined, hp]
      · simp [LSt.goto, pend, hp]
      · intro r' h' _
        simp only [LSt.goto, ↓reduceIte, LPhase.pushOut.injEq] at h'
        subst h'; exact he
  | pushOut r =>
    obtain ⟨l, hl, hrl⟩ := hreq r (by rw [hp]; rfl)
    have hin := hw l hl r hrl
    rw [← h.nodes.2.1] at hin
    have hnone := hpu r hp
    rw [hp] at hs
    simp only [LSt.stepAt, Option.some.injEq] at hs
    rw [h.nextEdge] at hs
    have hcall : A.call (reqOp r) = some (⟨A.nodes, A.edges ++ [⟨A.nextEdge, r.src, r.tgt⟩],
        A.nextNode, A.nextEdge + 1⟩, .edge ⟨A.nextEdge, r.src, r.tgt⟩) := by
      cases hd : r.dedup with
      | true => simp [reqOp, hd, AbsGraph.call, hin, hnone hd]
      | false => simp [reqOp, hd, AbsGraph.call, hin]
    have hfresh : ∀ e ∈ A.edges, e ≠ (⟨A.nextEdge, r.src, r.tgt⟩ : Edge) := by
      intro e he hc
      have := (h.inv.ends e he).2.2
      rw [hc] at this
      exact Nat.lt_irrefl _ this
    generalize hq : (if r.src = r.tgt then LPhase.pushIn r ⟨A.nextEdge, r.src, r.tgt⟩
      else if r.dedup = true then .lockTgt r ⟨A.nextEdge, r.src, r.tgt⟩
      else .unlockEarly r ⟨A.nextEdge, r.src, r.tgt⟩) = q at hs
    have hq1 : unlin q = [] ∧ lined q = [(r, ⟨A.nextEdge, r.src, r.tgt⟩)] ∧
        pend q = some (r, ⟨A.nextEdge, r.src, r.tgt⟩) ∧ ∀ r', q ≠ .pushOut r' := by
      subst hq
      split
      · simp [unlin, lined, pend]
      · split <;> simp [unlin, lined, pend]
    clear hq
    subst hs
    refine ⟨_, lin ++ [⟨u, r, ⟨A.nextEdge, r.src, r.tgt⟩⟩], calls_snoc_lin h.calls hcall, ?_, ?_,
      absInv_call h.inv hcall, ?_, ?_, ?_, ?_, ?_, ?_, ?_, ?_, ?_⟩
    · intro v
      rw [ofThread_snoc]
      have := h.prg v
      by_cases hv : v = u
      · subst hv; rw [hp] at this
        have h0 : unlin (.pushOut r) = [r] := rfl
        rw [h0] at this
        simpa [LSt.goto, hq1] using this
      · have hv' : u ≠ v := fun h => hv h.symm
        simpa [LSt.goto, hv, hv'] using this
    · intro v
      rw [ofThread_snoc]
      have := h.log v
      by_cases hv : v = u
      · subst hv; rw [hp] at this
        simp only [lined, List.append_nil] at this
        simp [LSt.goto, hq1, this]
      · have hv' : u ≠ v := fun h => hv h.symm
        simpa [LSt.goto, hv, hv'] using this
    · exact h.nodes
    · rfl
    · intro n
      by_cases hn : n = r.src
      · subst hn
        simp [LSt.goto, DGraph.upd, pushOut, List.filter_append, h.out]
      · have : r.src ≠ n := fun h => hn h.symm
        simp [LSt.goto, DGraph.upd, hn, this, List.filter_append, h.out]
    · intro n
      by_cases hn : n = r.src
      · subst hn
        simpa [LSt.goto, DGraph.upd] using pushOut_idx (e := ⟨A.nextEdge, r.src, r.tgt⟩) (h.idx r.src)
      · simpa [LSt.goto, DGraph.upd, hn] using h.idx n
    · intro n
      have := h.innNodup n
      by_cases hn : n = r.src
      · subst hn; simpa [LSt.goto, DGraph.upd, pushOut] using this
      · simpa [LSt.goto, DGraph.upd, hn] using this
    · intro n e
      have hinn : ((({ s with g := { s.g.upd r.src (fun n => pushOut n ⟨A.nextEdge, r.src, r.tgt⟩)
          with nextEdge := A.nextEdge + 1 } } : LSt).goto u q).g.obj n).inE = (s.g.obj n).inE := by
        by_cases hn : n = r.src
        · subst hn; simp [LSt.goto, DGraph.upd, pushOut]
        · simp [LSt.goto, DGraph.upd, hn]
      rw [hinn, h.innMem]
      simp only [LSt.goto]
      constructor
      · rintro ⟨h1, h2, h3⟩
        refine ⟨List.mem_append_left _ h1, h2, ?_⟩
        intro v r'
        by_cases hv : v = u
        · simp only [hv, ↓reduceIte, hq1.2.2.1]
          intro hc
          simp only [Option.some.injEq, Prod.mk.injEq] at hc
          exact hfresh e h1 hc.2.symm
        · simp only [hv, ↓reduceIte]; exact h3 v r'
      · rintro ⟨h1, h2, h3⟩
        rcases List.mem_append.1 h1 with h1 | h1
        · refine ⟨h1, h2, ?_⟩
          intro v r' hc
          by_cases hv : v = u
          · subst hv; rw [hp] at hc; cases hc
          · exact h3 v r' (by simpa [hv] using hc)
        · simp only [List.mem_singleton] at h1
          subst h1
          exact absurd (by simp [hq1.2.2.1]) (h3 u r)
    · intro v r' e hv
      simp only [LSt.goto] at hv
      by_cases hvu : v = u
      · simp only [hvu, ↓reduceIte, hq1.2.2.1, Option.some.injEq, Prod.mk.injEq] at hv
        obtain ⟨rfl, rfl⟩ := hv
        exact ⟨by simp, rfl⟩
      · simp only [hvu, ↓reduceIte] at hv
        obtain ⟨h1, h2⟩ := h.pendMem v r' e hv
        exact ⟨List.mem_append_left _ h1, h2⟩
    · intro v w r1 r2 e h1 h2
      simp only [LSt.goto] at h1 h2
      by_cases hv : v = u
      · by_cases hw : w = u
        · rw [hv, hw]
        · simp only [hv, hw, ↓reduceIte, hq1.2.2.1, Option.some.injEq, Prod.mk.injEq] at h1 h2
          exact absurd h1.2.symm (hfresh e (h.pendMem w r2 e h2).1)
      · by_cases hw : w = u
        · simp only [hv, hw, ↓reduceIte, hq1.2.2.1, Option.some.injEq, Prod.mk.injEq] at h1 h2
          exact absurd h2.2.symm (hfresh e (h.pendMem v r1 e h1).1)
        · simp only [hv, hw, ↓reduceIte] at h1 h2
          exact h.pendUniq v w r1 r2 e h1 h2
    · intro v r' hv hd
      simp only [LSt.goto] at hv
      by_cases hvu : v = u
      · simp only [hvu, ↓reduceIte] at hv; exact absurd hv (hq1.2.2.2 r')
      · simp only [hvu, ↓reduceIte] at hv
        have h1 := h.none v r' hv hd
        have hne : r.src ≠ r'.src := by
          intro hc
          apply hvu
          refine hmine v r.src ?_ ?_
          · rw [hp]; rfl
          · rw [hv]; exact hc
        rw [List.find?_append, h1]
        simp [hne]
  | unlockEarly r e =>
    rw [hp] at hs
    simp only [LSt.stepAt, Option.some.injEq] at hs
    subst hs
    refine ⟨A, lin, lin_stutter (u := u) h rfl ?_ ?_ ?_ ?_ ?_⟩
    · intro v hv; simp [LSt.goto, LSt.own, hv]
    · simp [LSt.goto, LSt.own, unlin, hp]
    · simp [LSt.goto, LSt.own, lined, hp]
    · simp [LSt.goto, LSt.own, pend, hp]
    · intro r' h'; simp [LSt.goto] at h'
  | lockTgt r e =>
    rw [hp] at hs
    simp only [LSt.stepAt] at hs
    split at hs
    · cases hs
    · cases hs
      refine ⟨A, lin, lin_stutter (u := u) h rfl ?_ ?_ ?_ ?_ ?_⟩
      · intro v hv; simp [LSt.goto, LSt.own, hv]
      · simp [LSt.goto, LSt.own, unlin, hp]
      · simp [LSt.goto, LSt.own, lined, hp]
      · simp [LSt.goto, LSt.own, pend, hp]
      · intro r' h'; simp [LSt.goto] at h'
  | pushIn r e =>
    rw [hp] at hs
    simp only [LSt.stepAt, Option.some.injEq] at hs
    have hpm := h.pendMem u r e (by rw [hp]; rfl)
    generalize hq : (if r.src = r.tgt then LPhase.unlockSrc r e else .unlockTgt r e) = q at hs
    have hq1 : unlin q = [] ∧ lined q = [(r, e)] ∧ pend q = none ∧ ∀ r', q ≠ .pushOut r' := by
      subst hq
      split <;> simp [unlin, lined, pend]
    clear hq
    subst hs
    refine ⟨A, lin, h.calls, ?_, ?_, h.inv, h.nodes, h.nextEdge, ?_, ?_, ?_, ?_, ?_, ?_, ?_⟩
    · intro v
      have := h.prg v
      by_cases hv : v = u
      · subst hv; rw [hp] at this
        have h0 : unlin (.pushIn r e) = [] := rfl
        rw [h0] at this
        simpa [LSt.goto, hq1] using this
      · simpa [LSt.goto, hv] using this
    · intro v
      have := h.log v
      by_cases hv : v = u
      · subst hv; rw [hp] at this
        have h0 : lined (.pushIn r e) = [(r, e)] := rfl
        rw [h0] at this
        simpa [LSt.goto, hq1] using this
      · simpa [LSt.goto, hv] using this
    · intro n
      have := h.out n
      by_cases hn : n = r.tgt
      · subst hn; simpa [LSt.goto, DGraph.upd, pushIn] using this
      · simpa [LSt.goto, DGraph.upd, hn] using this
    · intro n
      have := h.idx n
      by_cases hn : n = r.tgt
      · subst hn; simpa [LSt.goto, DGraph.upd, pushIn] using this
      · simpa [LSt.goto, DGraph.upd, hn] using this
    · intro n
      have := h.innNodup n
      by_cases hn : n = r.tgt
      · subst hn
        have hne : e ∉ (s.g.obj r.tgt).inE := by
          rw [h.innMem]
          rintro ⟨_, _, h3⟩
          exact h3 u r (by rw [hp]; rfl)
        simp only [LSt.goto, DGraph.upd, pushIn, ↓reduceIte]
        rw [List.nodup_append]
        refine ⟨this, by simp, ?_⟩
        intro a ha b hb
        simp only [List.mem_singleton] at hb
        rintro rfl
        subst hb
        exact hne ha
      · simpa [LSt.goto, DGraph.upd, hn] using this
    · intro n e'
      have hpnd : (∀ v r', pend (if v = u then q else s.th v) ≠ some (r', e')) ↔
          e' = e ∨ ∀ v r', pend (s.th v) ≠ some (r', e') := by
        constructor
        · intro hall
          by_cases hee : e' = e
          · exact Or.inl hee
          · right
            intro v r' hc
            by_cases hv : v = u
            · subst hv
              rw [hp] at hc
              simp only [pend, Option.some.injEq, Prod.mk.injEq] at hc
              exact hee hc.2.symm
            · exact hall v r' (by simpa [hv] using hc)
        · rintro (rfl | hall) v r' hc
          · by_cases hv : v = u
            · simp [hv, hq1] at hc
            · simp only [hv, ↓reduceIte] at hc
              exact hv (h.pendUniq v u r' r e' hc (by rw [hp]; rfl))
          · by_cases hv : v = u
            · simp [hv, hq1] at hc
            · simp only [hv, ↓reduceIte] at hc
              exact hall v r' hc
      have hgoal : (e' ∈ if n = r.tgt then (s.g.obj r.tgt).inE ++ [e] else (s.g.obj n).inE) ↔
          e' ∈ A.edges ∧ e'.tgt = n ∧ (e' = e ∨ ∀ v r', pend (s.th v) ≠ some (r', e')) := by
        by_cases hn : n = r.tgt
        · subst hn
          simp only [↓reduceIte, List.mem_append, List.mem_singleton, h.innMem]
          constructor
          · rintro (⟨h1, h2, h3⟩ | rfl)
            · exact ⟨h1, h2, Or.inr h3⟩
            · exact ⟨hpm.1, hpm.2, Or.inl rfl⟩
          · rintro ⟨h1, h2, h3 | h3⟩
            · exact Or.inr h3
            · exact Or.inl ⟨h1, h2, h3⟩
        · simp only [hn, ↓reduceIte, h.innMem]
          constructor
          · rintro ⟨h1, h2, h3⟩; exact ⟨h1, h2, Or.inr h3⟩
          · rintro ⟨h1, h2, h3 | h3⟩
            · subst h3; exact absurd (h2.symm.trans hpm.2) hn
            · exact ⟨h1, h2, h3⟩
      rw [← hpnd] at hgoal
      refine Iff.trans ?_ hgoal
      by_cases hn : n = r.tgt
      · subst hn; simp [LSt.goto, DGraph.upd, pushIn]
      · simp [LSt.goto, DGraph.upd, hn]
    · intro v r' e' hv
      simp only [LSt.goto] at hv
      by_cases hvu : v = u
      · simp [hvu, hq1] at hv
      · simp only [hvu, ↓reduceIte] at hv; exact h.pendMem v r' e' hv
    · intro v w r1 r2 e' h1 h2
      simp only [LSt.goto] at h1 h2
      by_cases hv : v = u
      · simp [hv, hq1] at h1
      · by_cases hw : w = u
        · simp [hw, hq1] at h2
        · simp only [hv, hw, ↓reduceIte] at h1 h2
          exact h.pendUniq v w r1 r2 e' h1 h2
    · intro v r' hv hd
      simp only [LSt.goto] at hv
      by_cases hvu : v = u
      · simp only [hvu, ↓reduceIte] at hv; exact absurd hv (hq1.2.2.2 r')
      · simp only [hvu, ↓reduceIte] at hv; exact h.none v r' hv hd
  | unlockTgt r e =>
    rw [hp] at hs
    simp only [LSt.stepAt, Option.some.injEq] at hs
    subst hs
    refine ⟨A, lin, ?_⟩
    cases hd : r.dedup with
    | true =>
      refine lin_stutter (u := u) h rfl ?_ ?_ ?_ ?_ ?_
      · intro v hv; simp [LSt.goto, LSt.own, hv]
      · simp [LSt.goto, LSt.own, unlin, hp]
      · simp [LSt.goto, LSt.own, lined, hp]
      · simp [LSt.goto, LSt.own, pend, hp]
      · intro r' h'; simp [LSt.goto] at h'
    | false =>
      refine lin_stutter (u := u) h rfl ?_ ?_ ?_ ?_ ?_
      · intro v hv; simp [LSt.goto, LSt.own, LSt.ret, hv]
      · simp [LSt.goto, LSt.own, LSt.ret, unlin, hp]
      · simp [LSt.goto, LSt.own, LSt.ret, lined, hp]
      · simp [LSt.goto, LSt.own, LSt.ret, pend, hp]
      · intro r' h'; simp [LSt.goto, LSt.ret] at h'
  | unlockSrc r e =>
    rw [hp] at hs
    simp only [LSt.stepAt, Option.some.injEq] at hs
    subst hs
    refine ⟨A, lin, lin_stutter (u := u) h rfl ?_ ?_ ?_ ?_ ?_⟩
    · intro v hv; simp [LSt.goto, LSt.own, LSt.ret, hv]
    · simp [LSt.goto, LSt.own, LSt.ret, unlin, hp]
    · simp [LSt.goto, LSt.own, LSt.ret, lined, hp]
    · simp [LSt.goto, LSt.own, LSt.ret, pend, hp]
    · intro r' h'; simp [LSt.goto, LSt.ret] at h'

theorem linInv_run {A0 : AbsGraph} {prog : List (List Req)}
    (hw : ∀ l ∈ prog, ∀ r ∈ l, r.src ∈ A0.nodes ∧ r.tgt ∈ A0.nodes) : ∀ (l : List Nat) {s s' : LSt}
    {A : AbsGraph} {lin : List Done}, OwnInv prog s → LinInv A0 prog s A lin → s.run l = some s' →
    ∃ A' lin', LinInv A0 prog s' A' lin' := by
  intro l
  induction l with
  | nil => intro s s' A lin _ h hs; cases hs; exact ⟨A, lin, h⟩
  | cons u l ih =>
    intro s s' A lin ho h hs
    simp only [LSt.run] at hs
    split at hs
    · cases hs
    · rename_i s1 h1
      obtain ⟨A1, lin1, h2⟩ := linInv_step hw ho h h1
      exact ih (ownInv_step ho h1) h2 hs

end Verif.Proofs
