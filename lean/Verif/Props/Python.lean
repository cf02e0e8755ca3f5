import Verif.Proofs.Python

/-!
C85: the Python bindings. Which calls are defined, which handles protect their graph, and what calls give.
-/
namespace Verif.Props
open Verif.Spec Verif.Model Verif.Proofs

/-- C85, in part: after any program, a call is defined exactly if every graph at whose nodes it looks is still
alive and it is none of the listed misuses. Missing: that all calls are defined, which is false
(`py_lookup_dangles`, `py_iteration_dangles`, `py_misuse`). -/
theorem py_defined_partial {rx : Str → Str → Bool} {s : PySt} (h : PyRan rx s) (op : PyOp) :
    (s.step rx op).isSome = true ↔ (∀ g, PyLooks s op g → Alive s g) ∧ ¬ Misuse s op := by
  have hok := ran_ok h
  have triv : ∀ {op : PyOp}, (∀ g, ¬ PyLooks s op g) → ¬ Misuse s op → (s.step rx op).isSome = true →
      ((s.step rx op).isSome = true ↔ (∀ g, PyLooks s op g → Alive s g) ∧ ¬ Misuse s op) := by
    intro op h1 h2 h3
    exact ⟨fun _ => ⟨fun g hg => absurd hg (h1 g), h2⟩, fun _ => h3⟩
  cases op with
  | newGraph => exact triv (fun _ hg => nomatch hg) (fun hm => nomatch hm) rfl
  | build g ops =>
    simp only [PySt.step]
    cases hg : s.graphOf g with
    | none =>
      refine ⟨fun _ => ⟨fun k hk => (nomatch hk), ?_⟩, fun _ => rfl⟩
      rintro (_ | _ | _ | _ | ⟨hm, hv, _⟩)
      rw [graphOf_iff.2 ⟨hm, hv⟩] at hg
      cases hg
    | some x =>
      obtain ⟨ss, b⟩ := x
      obtain ⟨hm, hv⟩ := graphOf_iff.1 hg
      dsimp only
      by_cases hr : ops.any NetOp.removes = true
      · rw [if_pos hr]
        refine ⟨fun _ => ⟨fun k hk => (nomatch hk), ?_⟩, fun _ => rfl⟩
        rintro (_ | _ | _ | _ | ⟨_, _, ho, _⟩)
        obtain ⟨o, ho1, ho2⟩ := List.any_eq_true.1 hr
        rw [ho o ho1] at ho2
        cases ho2
      · rw [if_neg hr]
        have hno : ∀ op ∈ ops, op.removes = false := by
          intro op hop
          cases hx : op.removes with
          | false => rfl
          | true => exact absurd (List.any_eq_true.2 ⟨op, hop, hx⟩) hr
        cases hc : ss.net.calls ops with
        | none =>
          refine ⟨fun hh => (by cases hh), ?_⟩
          rintro ⟨_, hmis⟩
          exact absurd (Misuse.build hm hv hno hc) hmis
        | some net =>
          refine ⟨fun _ => ⟨fun k hk => (nomatch hk), ?_⟩, fun _ => rfl⟩
          rintro (_ | _ | _ | _ | ⟨_, hv', _, hc'⟩)
          rw [hv] at hv'
          simp only [PyVal.graph.injEq] at hv'
          rw [← hv'.1, hc] at hc'
          cases hc'
  | query g q =>
    refine triv (fun _ hg => nomatch hg) (fun hm => nomatch hm) ?_
    simp only [PySt.step]
    split <;> rfl
  | cone g q x =>
    simp only [PySt.step]
    have hmis : ¬ Misuse s (.cone g q x) := fun hm => nomatch hm
    cases hg : s.graphOf g with
    | none =>
      refine ⟨fun _ => ⟨?_, hmis⟩, fun _ => rfl⟩
      rintro k (_ | ⟨hG, _⟩)
      rw [← graphOf_holds, hg] at hG
      cases hG
    | some y =>
      cases hx : s.nodeOf x with
      | none =>
        refine ⟨fun _ => ⟨?_, hmis⟩, fun _ => rfl⟩
        rintro k (_ | ⟨_, hN⟩)
        rw [nodeOf_iff.2 hN] at hx
        cases hx
      | some z =>
        obtain ⟨k, n⟩ := z
        have hN := nodeOf_iff.1 hx
        have hmem := mem_owned hok (node_owned hok hN.2)
        dsimp only
        cases hm : s.mem k with
        | none =>
          refine ⟨fun hh => (by cases hh), ?_⟩
          rintro ⟨ha, _⟩
          have := hmem.2 (ha k (.cone (graphOf_holds.1 (by rw [hg]; rfl)) hN))
          rw [hm] at this
          cases this
        | some ss =>
          refine ⟨fun _ => ⟨?_, hmis⟩, fun _ => rfl⟩
          rintro k' (_ | ⟨_, hN'⟩)
          have e := hN'.2
          rw [hN.2] at e
          simp only [PyVal.node.injEq] at e
          rw [← e.1]
          exact hmem.1 (by rw [hm]; rfl)
  | sensitivity g x =>
    simp only [PySt.step]
    have hmis : ¬ Misuse s (.sensitivity g x) := fun hm => nomatch hm
    cases hg : s.graphOf g with
    | none =>
      refine ⟨fun _ => ⟨?_, hmis⟩, fun _ => rfl⟩
      rintro k (_ | _ | ⟨hG, _⟩)
      rw [← graphOf_holds, hg] at hG
      cases hG
    | some y =>
      cases hx : s.nodeOf x with
      | none =>
        refine ⟨fun _ => ⟨?_, hmis⟩, fun _ => rfl⟩
        rintro k (_ | _ | ⟨_, hN⟩)
        rw [nodeOf_iff.2 hN] at hx
        cases hx
      | some z =>
        obtain ⟨k, n⟩ := z
        have hN := nodeOf_iff.1 hx
        have hmem := mem_owned hok (node_owned hok hN.2)
        dsimp only
        cases hm : s.mem k with
        | none =>
          refine ⟨fun hh => (by cases hh), ?_⟩
          rintro ⟨ha, _⟩
          have := hmem.2 (ha k (.clocks (graphOf_holds.1 (by rw [hg]; rfl)) hN))
          rw [hm] at this
          cases this
        | some ss =>
          refine ⟨fun _ => ⟨?_, hmis⟩, fun _ => rfl⟩
          rintro k' (_ | _ | ⟨_, hN'⟩)
          have e := hN'.2
          rw [hN.2] at e
          simp only [PyVal.node.injEq] at e
          rw [← e.1]
          exact hmem.1 (by rw [hm]; rfl)
  | counts g =>
    refine triv (fun _ hg => nomatch hg) (fun hm => nomatch hm) ?_
    simp only [PySt.step]
    split <;> rfl
  | iter i =>
    refine triv (fun _ hg => nomatch hg) (fun hm => nomatch hm) ?_
    simp only [PySt.step]
    split <;> rfl
  | next i =>
    simp only [PySt.step]
    by_cases hi : i ∈ s.vars
    · rw [if_pos hi]
      have ho := hok.objs i
      cases hv : s.val i with
      | iter g pos b =>
        rw [hv] at ho
        obtain ⟨hk, ss, b', hgv⟩ := ho
        have hA : Alive s g := .kept (.var hi) (by rw [hk]; simp)
        dsimp only
        rw [hgv]
        dsimp only
        have nolook : ∀ k, ¬ PyLooks s (.next i) k := by
          intro k hk'
          cases hk' with
          | next _ hv' _ _ => rw [hv] at hv'; cases hv'
        by_cases hb : b' = b
        · rw [if_pos ⟨(mem_live hok).2 hA, hb⟩]
          have hres : (match ss.net.g.nodes[pos]? with
              | none => some (s, PyRet.stop)
              | some n => (s.set i (.iter g (pos + 1) b)).give (some (g, n)) [i]).isSome = true := by
            cases hn : ss.net.g.nodes[pos]? with
            | none => rfl
            | some n =>
              obtain ⟨h1, h2⟩ := next_set hok hi hv
              refine (give_isSome h1 ?_).2 ⟨g, n, rfl, set_alive.2 hA⟩
              intro y hy
              simp only [Option.some.injEq] at hy
              rw [← hy]
              exact later_owned h2 ⟨ss, b', hgv, List.mem_of_getElem? hn⟩
          refine ⟨fun _ => ⟨fun k hk' => absurd hk' (nolook k), ?_⟩, fun _ => hres⟩
          intro hm
          cases hm with
          | next _ hv' hgv' hne =>
            rw [hv] at hv'
            simp only [PyVal.iter.injEq] at hv'
            rw [← hv'.1, hgv] at hgv'
            simp only [PyVal.graph.injEq] at hgv'
            exact hne (by rw [← hgv'.2, ← hv'.2.2]; exact hb)
        · rw [if_neg fun hc => hb hc.2]
          refine ⟨fun hh => (by cases hh), ?_⟩
          rintro ⟨_, hmis⟩
          exact absurd (Misuse.next hi hv hgv hb) hmis
      | pathIter p pos =>
        rw [hv] at ho
        obtain ⟨hk, ns, hpv⟩ := ho
        have hA : Alive s p := .kept (.var hi) (by rw [hk]; simp)
        dsimp only
        rw [hpv]
        dsimp only
        rw [if_pos ((mem_live hok).2 hA)]
        have hmis : ¬ Misuse s (.next i) := by
          intro hm
          cases hm with
          | next _ hv' _ _ => rw [hv] at hv'; cases hv'
        cases hx : ns[pos]? with
        | none =>
          refine ⟨fun _ => ⟨?_, hmis⟩, fun _ => rfl⟩
          intro k hk'
          cases hk' with
          | next _ hv' hpv' hx' =>
            rw [hv] at hv'
            simp only [PyVal.pathIter.injEq] at hv'
            rw [← hv'.1, hpv] at hpv'
            simp only [PyVal.path.injEq] at hpv'
            rw [← hpv', ← hv'.2, hx] at hx'
            cases hx'
        | some x =>
          obtain ⟨g, n⟩ := x
          obtain ⟨h1, h2⟩ := pathNext_set hok hi hv
          dsimp only
          rw [give_isSome h1 (by
            intro y hy
            simp only [Option.some.injEq] at hy
            rw [← hy]
            exact later_owned h2 (path_owned hok hpv _ (List.mem_of_getElem? hx)))]
          constructor
          · rintro ⟨g', n', e, ha⟩
            simp only [Option.some.injEq, Prod.mk.injEq] at e
            rw [set_alive, ← e.1] at ha
            refine ⟨?_, hmis⟩
            intro k hk'
            cases hk' with
            | next _ hv' hpv' hx' =>
              rw [hv] at hv'
              simp only [PyVal.pathIter.injEq] at hv'
              rw [← hv'.1, hpv] at hpv'
              simp only [PyVal.path.injEq] at hpv'
              rw [← hpv', ← hv'.2, hx] at hx'
              simp only [Option.some.injEq, Prod.mk.injEq] at hx'
              rw [← hx'.1]; exact ha
          · rintro ⟨ha, _⟩
            exact ⟨g, n, rfl, set_alive.2 (ha g (.next hi hv hpv hx))⟩
      | graph ss b =>
        refine ⟨fun _ => ⟨?_, ?_⟩, fun _ => rfl⟩
        · intro k hk
          cases hk with
          | next _ hv' _ _ => rw [hv] at hv'; cases hv'
        · intro hm
          cases hm with
          | next _ hv' _ _ => rw [hv] at hv'; cases hv'
      | node g n =>
        refine ⟨fun _ => ⟨?_, ?_⟩, fun _ => rfl⟩
        · intro k hk
          cases hk with
          | next _ hv' _ _ => rw [hv] at hv'; cases hv'
        · intro hm
          cases hm with
          | next _ hv' _ _ => rw [hv] at hv'; cases hv'
      | path ns =>
        refine ⟨fun _ => ⟨?_, ?_⟩, fun _ => rfl⟩
        · intro k hk
          cases hk with
          | next _ hv' _ _ => rw [hv] at hv'; cases hv'
        · intro hm
          cases hm with
          | next _ hv' _ _ => rw [hv] at hv'; cases hv'
    · rw [if_neg hi]
      refine ⟨fun _ => ⟨?_, ?_⟩, fun _ => rfl⟩
      · intro k hk
        cases hk with
        | next hi' _ _ _ => exact absurd hi' hi
      · intro hm
        cases hm with
        | next hi' _ _ _ => exact absurd hi' hi
  | findPath comb a b =>
    simp only [PySt.step]
    have hmis : ¬ Misuse s (.findPath comb a b) := fun hm => nomatch hm
    cases ha : s.nodeOf a with
    | none =>
      refine ⟨fun _ => ⟨?_, hmis⟩, fun _ => rfl⟩
      intro k hk
      cases hk with
      | start h1 h2 => rw [nodeOf_iff.2 h1] at ha; cases ha
      | stop h1 h2 => rw [nodeOf_iff.2 h1] at ha; cases ha
    | some x =>
      obtain ⟨g, n⟩ := x
      cases hb : s.nodeOf b with
      | none =>
        refine ⟨fun _ => ⟨?_, hmis⟩, fun _ => rfl⟩
        intro k hk
        cases hk with
        | start h1 h2 => rw [nodeOf_iff.2 h2] at hb; cases hb
        | stop h1 h2 => rw [nodeOf_iff.2 h2] at hb; cases hb
      | some y =>
        obtain ⟨k, m⟩ := y
        have hA := nodeOf_iff.1 ha
        have hB := nodeOf_iff.1 hb
        have hma := mem_owned hok (node_owned hok hA.2)
        have hmb := mem_owned hok (node_owned hok hB.2)
        dsimp only
        cases hmg : s.mem g with
        | none =>
          refine ⟨fun hh => (by cases hh), ?_⟩
          rintro ⟨hh, _⟩
          have := hma.2 (hh g (.start hA hB))
          rw [hmg] at this
          cases this
        | some ss =>
          cases hmk : s.mem k with
          | none =>
            refine ⟨fun hh => (by cases hh), ?_⟩
            rintro ⟨hh, _⟩
            have := hmb.2 (hh k (.stop hA hB))
            rw [hmk] at this
            cases this
          | some ss2 =>
            dsimp only
            have hl : ∃ l, (if g ≠ k then some [] else if comb then findComb ss.net n m else
                Verif.Model.findPath ss.net n m) = some l := by
              by_cases e : g = k
              · rw [if_neg (by simpa using e)]
                obtain ⟨_, bb, hgv⟩ := (mem_iff hok).1 hmg
                obtain ⟨ss', b', hv', hn⟩ := node_owned hok hA.2
                rw [hgv] at hv'
                simp only [PyVal.graph.injEq] at hv'
                obtain ⟨l, hl, _⟩ := path_in (graph_ok hok hgv).1 (by rw [hv'.1]; exact hn) comb m
                exact ⟨l, hl⟩
              · exact ⟨[], if_pos e⟩
            obtain ⟨l, hl⟩ := hl
            rw [hl]
            refine ⟨fun _ => ⟨?_, hmis⟩, fun _ => rfl⟩
            intro k' hk'
            cases hk' with
            | start h1 h2 =>
              have e := h1.2
              rw [hA.2] at e
              simp only [PyVal.node.injEq] at e
              rw [← e.1]; exact hma.1 (by rw [hmg]; rfl)
            | stop h1 h2 =>
              have e := h2.2
              rw [hB.2] at e
              simp only [PyVal.node.injEq] at e
              rw [← e.1]; exact hmb.1 (by rw [hmk]; rfl)
  | newPath hs =>
    refine triv (fun _ hg => nomatch hg) (fun hm => nomatch hm) ?_
    simp only [PySt.step]
    split <;> rfl
  | len p =>
    refine triv (fun _ hg => nomatch hg) (fun hm => nomatch hm) ?_
    simp only [PySt.step]
    split <;> rfl
  | front p =>
    simp only [PySt.step]
    cases hp : s.pathOf p with
    | none =>
      refine ⟨fun _ => ⟨?_, ?_⟩, fun _ => rfl⟩
      · intro k hk
        cases hk with
        | front h1 => rw [pathOf_iff.2 h1] at hp; cases hp
      · intro hm
        cases hm with
        | front h1 => rw [pathOf_iff.2 h1] at hp; cases hp
    | some ns =>
      have hP := pathOf_iff.1 hp
      dsimp only
      rw [give_isSome hok fun y hy => path_owned hok hP.2 y (List.mem_of_mem_head? hy)]
      constructor
      · rintro ⟨g, n, e, ha⟩
        refine ⟨?_, ?_⟩
        · intro k hk
          cases hk with
          | front h1 =>
            have e1 := h1.2
            rw [hP.2] at e1
            simp only [PyVal.path.injEq] at e1
            rw [e1] at e
            simp only [List.head?_cons, Option.some.injEq, Prod.mk.injEq] at e
            rw [e.1]; exact ha
        · intro hm
          cases hm with
          | front h1 =>
            have e1 := h1.2
            rw [hP.2] at e1
            simp only [PyVal.path.injEq] at e1
            rw [e1] at e
            cases e
      · rintro ⟨ha, hmis⟩
        cases ns with
        | nil => exact absurd (Misuse.front hP) hmis
        | cons x ns => exact ⟨x.1, x.2, rfl, ha x.1 (.front hP)⟩
  | back p =>
    simp only [PySt.step]
    cases hp : s.pathOf p with
    | none =>
      refine ⟨fun _ => ⟨?_, ?_⟩, fun _ => rfl⟩
      · intro k hk
        cases hk with
        | back h1 => rw [pathOf_iff.2 h1] at hp; cases hp
      · intro hm
        cases hm with
        | back h1 => rw [pathOf_iff.2 h1] at hp; cases hp
    | some ns =>
      have hP := pathOf_iff.1 hp
      dsimp only
      rw [give_isSome hok fun y hy => path_owned hok hP.2 y (List.mem_of_getLast? hy)]
      constructor
      · rintro ⟨g, n, e, ha⟩
        refine ⟨?_, ?_⟩
        · intro k hk
          cases hk with
          | back h1 =>
            have e1 := h1.2
            rw [hP.2] at e1
            simp only [PyVal.path.injEq] at e1
            rw [e1] at e
            simp only [List.getLast?_append, List.getLast?_singleton, Option.some_or, Option.some.injEq,
              Prod.mk.injEq] at e
            rw [e.1]; exact ha
        · intro hm
          cases hm with
          | back h1 =>
            have e1 := h1.2
            rw [hP.2] at e1
            simp only [PyVal.path.injEq] at e1
            rw [e1] at e
            cases e
      · rintro ⟨ha, hmis⟩
        rcases List.eq_nil_or_concat ns with e | ⟨ms, x, e⟩
        · rw [e] at hP; exact absurd (Misuse.back hP) hmis
        · rw [List.concat_eq_append] at e
          rw [e] at hP ⊢
          exact ⟨x.1, x.2, by simp, ha x.1 (.back hP)⟩
  | item p i =>
    simp only [PySt.step]
    cases hp : s.pathOf p with
    | none =>
      refine ⟨fun _ => ⟨?_, ?_⟩, fun _ => rfl⟩
      · intro k hk
        cases hk with
        | item h1 _ => rw [pathOf_iff.2 h1] at hp; cases hp
      · intro hm
        cases hm with
        | item h1 _ => rw [pathOf_iff.2 h1] at hp; cases hp
    | some ns =>
      have hP := pathOf_iff.1 hp
      dsimp only
      rw [give_isSome hok fun y hy => path_owned hok hP.2 y (List.mem_of_getElem? hy)]
      constructor
      · rintro ⟨g, n, e, ha⟩
        refine ⟨?_, ?_⟩
        · intro k hk
          cases hk with
          | item h1 h2 =>
            have e1 := h1.2
            rw [hP.2] at e1
            simp only [PyVal.path.injEq] at e1
            rw [← e1, e] at h2
            simp only [Option.some.injEq, Prod.mk.injEq] at h2
            rw [← h2.1]; exact ha
        · intro hm
          cases hm with
          | item h1 h2 =>
            have e1 := h1.2
            rw [hP.2] at e1
            simp only [PyVal.path.injEq] at e1
            rw [← e1, ← List.getElem?_eq_none_iff, e] at h2
            cases h2
      · rintro ⟨ha, hmis⟩
        cases hx : ns[i]? with
        | none => exact absurd (Misuse.item hP (List.getElem?_eq_none_iff.1 hx)) hmis
        | some x => exact ⟨x.1, x.2, rfl, ha x.1 (.item hP hx)⟩
  | read x =>
    simp only [PySt.step]
    have hmis : ¬ Misuse s (.read x) := fun hm => nomatch hm
    cases hx : s.nodeOf x with
    | none =>
      refine ⟨fun _ => ⟨?_, hmis⟩, fun _ => rfl⟩
      intro k hk
      cases hk with
      | read h1 => rw [nodeOf_iff.2 h1] at hx; cases hx
    | some z =>
      obtain ⟨k, n⟩ := z
      have hN := nodeOf_iff.1 hx
      have hmem := mem_owned hok (node_owned hok hN.2)
      dsimp only
      cases hm : s.mem k with
      | none =>
        refine ⟨fun hh => (by cases hh), ?_⟩
        rintro ⟨ha, _⟩
        have := hmem.2 (ha k (.read hN))
        rw [hm] at this
        cases this
      | some ss =>
        refine ⟨fun _ => ⟨?_, hmis⟩, fun _ => rfl⟩
        intro k' hk'
        cases hk' with
        | read h1 =>
          have e := h1.2
          rw [hN.2] at e
          simp only [PyVal.node.injEq] at e
          rw [← e.1]
          exact hmem.1 (by rw [hm]; rfl)
  | drop i =>
    refine triv (fun _ hg => nomatch hg) (fun hm => nomatch hm) ?_
    simp only [PySt.step]
    split <;> rfl

/-- C85: a handle made by iterating over a graph keeps the graph: whatever the program does next, as long
as it holds the handle, reading it is defined. -/
theorem py_iterated_safe {rx : Str → Str → Bool} {s s1 s2 : PySt} (h : PyRan rx s) {i g pos b j : Nat}
    (hv : s.val i = .iter g pos b) (hn : s.step rx (.next i) = some (s1, .objs [j])) (hnew : s.size ≤ j)
    {ops : List PyOp} (hr : s1.run rx ops = some s2) (hj : j ∈ s2.vars) :
    Alive s2 g ∧ (s2.step rx (.read j)).isSome = true := by
  have hok := ran_ok h
  have hi : i ∈ s.vars := by
    refine Classical.byContradiction fun hc => ?_
    simp only [PySt.step] at hn
    rw [if_neg hc] at hn
    simp at hn
  have ho := hok.objs i
  rw [hv] at ho
  obtain ⟨hk, ss, b', hgv⟩ := ho
  have hgi : g ≠ i := by rintro rfl; rw [hgv] at hv; cases hv
  obtain ⟨h1, h2⟩ := next_set hok hi hv
  simp only [PySt.step] at hn
  rw [if_pos hi, hv] at hn
  dsimp only at hn
  rw [hgv] at hn
  dsimp only at hn
  split at hn
  · split at hn
    · simp at hn
    · rename_i n hnn
      obtain ⟨g', n', j', hx, hr', _, hh, hcast⟩ := give_handed h1 (by simpa using (set_alive.2 (Alive.var hi)))
        (by
          intro y hy
          simp only [Option.some.injEq] at hy
          rw [← hy]
          exact later_owned h2 ⟨ss, b', hgv, List.mem_of_getElem? hnn⟩) hn
      simp only [PyRet.objs.injEq, List.cons.injEq, and_true] at hr'
      simp only [Option.some.injEq, Prod.mk.injEq] at hx
      rw [← hx.1, ← hx.2, ← hr'] at hh
      have hkj : s1.keeps j = [i] := by
        have := (castNode_keeps (s.set i (.iter g (pos + 1) b)) g' n' [i] h1).1
        rw [← hcast, ← hr'] at this
        exact this hnew
      have hjs : j < s1.size := hh.ok.vars j hh.holds.1
      have hki : s1.keeps i = [g] := (hh.later.keeps i (hok.vars i hi)).trans hk
      obtain ⟨hok2, hl2⟩ := run_ok ops hh.ok hr
      have his : i < s1.size := Nat.lt_of_lt_of_le (hok.vars i hi) hh.later.size
      have hA : Alive s2 g := by
        refine .kept (.kept (.var hj) (i := i) ?_) ?_
        · rw [hl2.keeps j hjs, hkj]; simp
        · rw [hl2.keeps i his, hki]; simp
      refine ⟨hA, ?_⟩
      have hv2 := hl2.node j g n hh.holds.2
      have hmem := (mem_owned hok2 (node_owned hok2 hv2)).2 hA
      simp only [PySt.step]
      rw [nodeOf_iff.2 ⟨hj, hv2⟩]
      dsimp only
      obtain ⟨x, hx⟩ := Option.isSome_iff_exists.1 hmem
      rw [hx]; rfl
  · cases hn

/-- C85: no handle made by a query keeps its graph: if the program gives up everything else, reading the
handle is undefined. -/
theorem py_query_unprotected {rx : Str → Str → Bool} {s s1 : PySt} (h : PyRan rx s) {g i : Nat} {q : PyQuery}
    {is : List Nat} (hq : s.step rx (.query g q) = some (s1, .objs is)) (hi : i ∈ is) (hnew : s.size ≤ i) :
    ∃ drops : List Nat, i ∉ drops ∧ s1.run rx (drops.map .drop ++ [.read i]) = none := by
  have hok := ran_ok h
  simp only [PySt.step] at hq
  split at hq
  · simp at hq
  · rename_i ss b hg
    obtain ⟨hgm, hgv⟩ := graphOf_iff.1 hg
    obtain ⟨h1, h2, h3⟩ := query_handed (rx := rx) hok hgm hgv q
    simp only [Option.some.injEq, Prod.mk.injEq, PyRet.objs.injEq] at hq
    have hkeep := castNodes_keeps (q.run rx ss) h1 (fun n hm =>
      later_owned h2 ⟨ss, b, hgv, query_in (graph_ok hok hgv).1 (graph_ok hok hgv).2 q n hm⟩) i
      (by rw [hq.2]; exact hi) hnew
    rw [hq.1] at hkeep h3
    rw [hq.2] at h3
    have hval : s1.val i ∈ is.map s1.val := List.mem_map.2 ⟨i, hi, rfl⟩
    rw [h3.vals] at hval
    obtain ⟨n, _, e⟩ := List.mem_map.1 hval
    refine ⟨s1.vars.filter (· != i), by simp, ?_⟩
    exact bare_handle h3.ok ⟨h3.held i hi, e.symm⟩ hkeep

/-- C85: two live handles of the same node are the same object, so handles can be compared with `is`. -/
theorem py_same_object {rx : Str → Str → Bool} {s : PySt} (h : PyRan rx s) {i j g n : Nat} (hi : Alive s i)
    (hj : Alive s j) (vi : s.val i = .node g n) (vj : s.val j = .node g n) : i = j :=
  (ran_ok h).once i j g n hi hj vi vj

/-- C85: a query by name gives handles for exactly the nodes that the library gives, in that order. -/
theorem py_query_exact {rx : Str → Str → Bool} {s : PySt} (h : PyRan rx s) {g b : Nat} {ss : Session} (hg : g ∈ s.vars)
    (hv : s.val g = .graph ss b) (q : PyQuery) :
    ∃ s1 is, s.step rx (.query g q) = some (s1, .objs is) ∧ is.map s1.val = (q.run rx ss).map (.node g) ∧
      (∀ i ∈ is, i ∈ s1.vars) ∧ ∃ ss1, s1.val g = .graph ss1 b ∧ ss1.net = ss.net := by
  have hok := ran_ok h
  obtain ⟨h1, h2, h3⟩ := query_handed (rx := rx) hok hg hv q
  refine ⟨_, _, ?_, h3.vals, h3.held, ?_⟩
  · simp only [PySt.step]
    rw [graphOf_iff.2 ⟨hg, hv⟩]
  · refine ⟨_, ?_, (query_idx (graph_ok hok hv).2 q).1⟩
    rw [h3.same g (hok.vars g hg)]
    show (if g = g then _ else _) = _
    rw [if_pos rfl]

/-- C85: the first query by name freezes the names of a graph. Whatever the program does afterwards, even
build more into the graph, a later query by name (`lookup`, `find_nodes`, `find_nodes_regex`) gives the nodes
it would have given before that first query. -/
theorem py_names_frozen {rx : Str → Str → Bool} {s s1 s2 : PySt} (h : PyRan rx s) {g b : Nat} {ss : Session}
    (hg : g ∈ s.vars) (hv : s.val g = .graph ss b) {q q' : PyQuery} {r : PyRet} {ops : List PyOp}
    (hq : ∀ name lo hi, q ≠ .drivers name lo hi)
    (hq' : (∃ name, q' = .lookup name) ∨ (∃ pat, q' = .find pat) ∨ ∃ pat, q' = .findRegex pat)
    (h1 : s.step rx (.query g q) = some (s1, r)) (h2 : s1.run rx ops = some s2) (hg2 : g ∈ s2.vars) :
    ∃ sa ia sb ib, s.step rx (.query g q') = some (sa, .objs ia) ∧ s2.step rx (.query g q') = some (sb, .objs ib) ∧
      ib.map sb.val = ia.map sa.val := by
  have hok := ran_ok h
  obtain ⟨x1, x2, x3⟩ := query_handed (rx := rx) hok hg hv q
  have e1 : s1.val g = .graph ss.ensureIndex.1 b := by
    simp only [PySt.step] at h1
    rw [graphOf_iff.2 ⟨hg, hv⟩] at h1
    simp only [Option.some.injEq, Prod.mk.injEq] at h1
    rw [← h1.1, x3.same g (hok.vars g hg)]
    show (if g = g then _ else _) = _
    rw [if_pos rfl]
    have : q.indexed = true := by
      cases q with
      | drivers name lo hi => exact absurd rfl (hq name lo hi)
      | _ => rfl
    rw [this]; rfl
  obtain ⟨hok1, _⟩ := pyStep_ok hok h1
  obtain ⟨hok2, hl2⟩ := run_ok ops hok1 h2
  obtain ⟨ss2, b2, hv2, _, _, hx⟩ := hl2.graph g _ _ e1
  have hix : ss2.index = some ss.ensureIndex.2 := by
    apply hx
    unfold Session.ensureIndex
    split
    · assumption
    · rfl
  have hen : ss2.ensureIndex.2 = ss.ensureIndex.2 := by
    conv => lhs; unfold Session.ensureIndex
    rw [hix]
  have hrun : q'.run rx ss2 = q'.run rx ss := by
    rcases hq' with ⟨n, rfl⟩ | ⟨n, rfl⟩ | ⟨n, rfl⟩
    · simp only [PyQuery.run, Session.lookup, hen]
    · simp only [PyQuery.run, Session.findNodes, hen]
    · simp only [PyQuery.run, Session.findNodes, hen]
  have key : ∀ {t : PySt} {tt : Session} {c : Nat}, PyOk t → g ∈ t.vars → t.val g = .graph tt c →
      ∃ t1 is, t.step rx (.query g q') = some (t1, .objs is) ∧ is.map t1.val = (q'.run rx tt).map (.node g) := by
    intro t tt c ht hgt hvt
    obtain ⟨_, _, y3⟩ := query_handed (rx := rx) ht hgt hvt q'
    refine ⟨_, _, ?_, y3.vals⟩
    simp only [PySt.step]
    rw [graphOf_iff.2 ⟨hgt, hvt⟩]
  obtain ⟨sa, ia, a1, a2⟩ := key hok hg hv
  obtain ⟨sb, ib, b1, b2'⟩ := key hok2 hg2 hv2
  exact ⟨sa, ia, sb, ib, a1, b1, by rw [b2', a2, hrun]⟩

/-- C85: `get_drivers` does not freeze anything: it leaves the graph as it is. -/
theorem py_drivers_keep {rx : Str → Str → Bool} {s s1 : PySt} (h : PyRan rx s) {g b : Nat} {ss : Session} (hg : g ∈ s.vars)
    (hv : s.val g = .graph ss b) {name : Str} {lo hi : Int} {r : PyRet}
    (h1 : s.step rx (.query g (.drivers name lo hi)) = some (s1, r)) : s1.val g = .graph ss b := by
  obtain ⟨_, _, x3⟩ := query_handed (rx := rx) (ran_ok h) hg hv (.drivers name lo hi)
  simp only [PySt.step] at h1
  rw [graphOf_iff.2 ⟨hg, hv⟩] at h1
  simp only [Option.some.injEq, Prod.mk.injEq] at h1
  rw [← h1.1, x3.same g ((ran_ok h).vars g hg)]
  show (if g = g then _ else _) = _
  rw [if_pos rfl]; rfl

/-- C85: `get_drivers` gives handles for exactly the nodes with an edge that carries a bit of the range of
the named variable, whichever way round the bounds are given. -/
theorem py_drivers {rx : Str → Str → Bool} {s : PySt} (h : PyRan rx s) {g b : Nat} {ss : Session} (hg : g ∈ s.vars)
    (hv : s.val g = .graph ss b) (name : Str) (lo hi : Int) :
    ∃ s1 is, s.step rx (.query g (.drivers name lo hi)) = some (s1, .objs is) ∧ (is.map s1.val).Nodup ∧
      ∀ d, (∃ i ∈ is, s1.val i = .node g d) ↔
        ∃ e ∈ (ss.net.g.obj d).outE, ∃ k, CarriesBit ss.net name e k ∧ min lo hi ≤ k ∧ k ≤ max lo hi := by
  obtain ⟨s1, is, h1, h2, _⟩ := py_query_exact h hg hv (.drivers name lo hi)
  obtain ⟨hnd, hex⟩ := getDrivers_exact ss.net (graph_ok (ran_ok h) hv).1 name ⟨lo, hi⟩
  refine ⟨s1, is, h1, ?_, ?_⟩
  · rw [h2, List.nodup_iff_pairwise_ne, List.pairwise_map]
    exact List.Pairwise.imp (fun hne e => hne (by simpa using e)) hnd
  · intro d
    have key : (∃ i ∈ is, s1.val i = .node g d) ↔ d ∈ getDrivers ss.net name ⟨lo, hi⟩ := by
      have : (∃ i ∈ is, s1.val i = .node g d) ↔ PyVal.node g d ∈ is.map s1.val := by simp [List.mem_map]
      rw [this, h2]
      constructor
      · intro hm
        obtain ⟨d', hd, e⟩ := List.mem_map.1 hm
        simp only [PyVal.node.injEq, true_and] at e
        rw [← e]; exact hd
      · intro hm; exact List.mem_map.2 ⟨d, hm, rfl⟩
    rw [key, hex d]
    have hlo : (BitRange.mk lo hi).lower = min lo hi := rfl
    have hhi : (BitRange.mk lo hi).upper = max lo hi := rfl
    rw [hlo, hhi]

/-- C85: a query on a node gives handles for exactly the nodes the library gives, in that order, whichever
graph object it is called on. -/
theorem py_cone_exact {rx : Str → Str → Bool} {s : PySt} (h : PyRan rx s) {k x g n b : Nat} {ss : Session} (hk : HoldsGraph s k)
    (hx : HoldsNode s x g n) (ha : Alive s g) (hv : s.val g = .graph ss b) (q : PyCone) :
    n ∈ ss.net.g.nodes ∧ ∃ s1 is, s.step rx (.cone k q x) = some (s1, .objs is) ∧
      is.map s1.val = (q.run ss.net n).map (.node g) ∧ ∀ i ∈ is, i ∈ s1.vars := by
  have hok := ran_ok h
  obtain ⟨ss', b', hv', hn⟩ := node_owned hok hx.2
  rw [hv] at hv'
  simp only [PyVal.graph.injEq] at hv'
  rw [← hv'.1] at hn
  have hh := castNodes_handed (q.run ss.net n) hok fun m hm =>
    ⟨ss, b, hv, cone_in (graph_ok hok hv).1 hn q m hm⟩
  refine ⟨hn, _, _, ?_, hh.vals, hh.held⟩
  obtain ⟨y, hy⟩ := Option.isSome_iff_exists.1 (graphOf_holds.2 hk)
  simp only [PySt.step]
  rw [hy, nodeOf_iff.2 hx]
  dsimp only
  rw [(mem_iff hok).2 ⟨ha, b, hv⟩]

/-- C85: the sensitivity of a node is given as handles for exactly the nodes the library gives, in that order,
each with its edge kind. -/
theorem py_sensitivity_exact {rx : Str → Str → Bool} {s : PySt} (h : PyRan rx s) {k x g n b : Nat} {ss : Session}
    (hk : HoldsGraph s k) (hx : HoldsNode s x g n) (ha : Alive s g) (hv : s.val g = .graph ss b) :
    ∃ s1 l, s.step rx (.sensitivity k x) = some (s1, .clocks l) ∧
      (l.map fun y => (s1.val y.1, y.2)) = (sensitivity ss.net n).map fun y => (.node g y.1, y.2) := by
  have hok := ran_ok h
  obtain ⟨ss', b', hv', hn⟩ := node_owned hok hx.2
  rw [hv] at hv'
  simp only [PyVal.graph.injEq] at hv'
  rw [← hv'.1] at hn
  have hh := castNodes_handed ((sensitivity ss.net n).map Prod.fst) hok fun m hm =>
    ⟨ss, b, hv, sensitivity_in (graph_ok hok hv).1 hn m hm⟩
  refine ⟨(s.castNodes g ((sensitivity ss.net n).map Prod.fst)).1,
    (s.castNodes g ((sensitivity ss.net n).map Prod.fst)).2.zip ((sensitivity ss.net n).map Prod.snd), ?_, ?_⟩
  · obtain ⟨y, hy⟩ := Option.isSome_iff_exists.1 (graphOf_holds.2 hk)
    simp only [PySt.step]
    rw [hy, nodeOf_iff.2 hx]
    dsimp only
    rw [(mem_iff hok).2 ⟨ha, b, hv⟩]
  · have hvals := hh.vals
    generalize (s.castNodes g ((sensitivity ss.net n).map Prod.fst)).1 = s1 at hvals ⊢
    generalize (s.castNodes g ((sensitivity ss.net n).map Prod.fst)).2 = is at hvals ⊢
    generalize sensitivity ss.net n = l at hvals ⊢
    induction l generalizing is with
    | nil => simp
    | cons y l ih =>
      cases is with
      | nil => simp at hvals
      | cons i is =>
        simp only [List.map_cons, List.cons.injEq] at hvals
        simp only [List.map_cons, List.zip_cons_cons, List.cons.injEq]
        exact ⟨by rw [hvals.1], ih is hvals.2⟩

/-- C85: the path finder gives a path object: empty exactly if there is no path between the two different
nodes, and otherwise a simple path between them over enabled edges (with the combinational finder, none of
which enters a register). -/
theorem py_find_path {rx : Str → Str → Bool} {s : PySt} (h : PyRan rx s) (comb : Bool) {a c g n m b : Nat} {ss : Session}
    (ha : HoldsNode s a g n) (hc : HoldsNode s c g m) (hg : Alive s g) (hv : s.val g = .graph ss b) (hne : n ≠ m) :
    ∃ s1 p l, s.step rx (.findPath comb a c) = some (s1, .objs [p]) ∧ HoldsPath s1 p (l.map fun x => (g, x)) ∧
      (l ≠ [] ↔ Reach (if comb then CombStep ss.net else Step ss.net) n m) ∧
      (l ≠ [] → SimplePath (if comb then CombStep ss.net else Step ss.net) n m l) := by
  have hok := ran_ok h
  obtain ⟨ss', b', hv', hn⟩ := node_owned hok ha.2
  rw [hv] at hv'
  simp only [PyVal.graph.injEq] at hv'
  rw [← hv'.1] at hn
  have hr := (graph_ok hok hv).1
  have hl : ∃ l, (if comb then findComb ss.net n m else Verif.Model.findPath ss.net n m) = some l ∧
      (l ≠ [] ↔ Reach (if comb then CombStep ss.net else Step ss.net) n m) ∧
      (l ≠ [] → SimplePath (if comb then CombStep ss.net else Step ss.net) n m l) := by
    cases comb with
    | true =>
      obtain ⟨l, h1, h2, h3⟩ := comb_path_sound_complete ss.net hr n m hn hne
      exact ⟨l, by simpa using h1, by simpa using h3, by simpa using fun hh => (h2 hh).1⟩
    | false =>
      obtain ⟨l, h1, h2, h3⟩ := path_sound_complete ss.net hr n m hn hne
      exact ⟨l, by simpa using h1, by simpa using h3, by simpa using h2⟩
  obtain ⟨l, h1, h2, h3⟩ := hl
  refine ⟨(s.make (.path (l.map fun x => (g, x))) []).1, s.size, l, ?_, ?_, h2, h3⟩
  · simp only [PySt.step]
    rw [nodeOf_iff.2 ha, nodeOf_iff.2 hc]
    dsimp only
    rw [(mem_iff hok).2 ⟨hg, b, hv⟩]
    dsimp only
    rw [if_neg (by simp), h1]
    rfl
  · exact ⟨List.mem_cons_self, make_val s _ _⟩

/-- C85: a path object answers as the list of its nodes: its length, its ends and its entries. -/
theorem py_path {rx : Str → Str → Bool} {s : PySt} (h : PyRan rx s) {p : Nat} {ns : List (Nat × Nat)}
    (hp : HoldsPath s p ns) :
    s.step rx (.len p) = some (s, .num ns.length 0) ∧
    (∀ i g n, ns[i]? = some (g, n) → Alive s g →
      ∃ s1 j, s.step rx (.item p i) = some (s1, .objs [j]) ∧ HoldsNode s1 j g n) ∧
    (∀ g n ms, ns = (g, n) :: ms → Alive s g →
      ∃ s1 j, s.step rx (.front p) = some (s1, .objs [j]) ∧ HoldsNode s1 j g n) ∧
    (∀ g n ms, ns = ms ++ [(g, n)] → Alive s g →
      ∃ s1 j, s.step rx (.back p) = some (s1, .objs [j]) ∧ HoldsNode s1 j g n) := by
  have hok := ran_ok h
  have key : ∀ g n, (g, n) ∈ ns → Alive s g → ∃ s1 j, s.give (some (g, n)) [] = some (s1, .objs [j]) ∧
      HoldsNode s1 j g n := by
    intro g n hm ha
    have ho : ∀ y, some (g, n) = some y → Owned s y.1 y.2 := by
      intro y hy
      simp only [Option.some.injEq] at hy
      rw [← hy]; exact path_owned hok hp.2 _ hm
    obtain ⟨⟨s1, r⟩, hr⟩ := Option.isSome_iff_exists.1 ((give_isSome hok (parent := []) ho).2 ⟨g, n, rfl, ha⟩)
    obtain ⟨g', n', j, hx, hj, _, hh, _⟩ := give_handed hok (by simp) ho hr
    simp only [Option.some.injEq, Prod.mk.injEq] at hx
    rw [← hx.1, ← hx.2] at hh
    exact ⟨s1, j, by rw [hr, hj], hh.holds⟩
  have hpo := pathOf_iff.2 hp
  refine ⟨?_, ?_, ?_, ?_⟩
  · simp only [PySt.step]; rw [hpo]
  · intro i g n hi ha
    obtain ⟨s1, j, h1, h2⟩ := key g n (List.mem_of_getElem? hi) ha
    refine ⟨s1, j, ?_, h2⟩
    simp only [PySt.step]; rw [hpo]; dsimp only; rw [hi]; exact h1
  · intro g n ms e ha
    obtain ⟨s1, j, h1, h2⟩ := key g n (by rw [e]; simp) ha
    refine ⟨s1, j, ?_, h2⟩
    simp only [PySt.step]; rw [hpo]; dsimp only; rw [e]; exact h1
  · intro g n ms e ha
    obtain ⟨s1, j, h1, h2⟩ := key g n (by rw [e]; simp) ha
    refine ⟨s1, j, ?_, h2⟩
    simp only [PySt.step]; rw [hpo]; dsimp only; rw [e, List.getLast?_append]; exact h1

/-- C85: iterating over a graph gives a handle for each of its nodes, in order and once, and then stops. -/
theorem py_iterate {rx : Str → Str → Bool} {s : PySt} (h : PyRan rx s) {g b : Nat} {ss : Session} (hg : g ∈ s.vars)
    (hv : s.val g = .graph ss b) :
    ss.net.g.nodes.Nodup ∧ ∃ s1 it, s.step rx (.iter g) = some (s1, .objs [it]) ∧
      ∃ s2 is, nexts rx it ss.net.g.nodes.length s1 = some (s2, is) ∧
        is.map s2.val = ss.net.g.nodes.map (.node g) ∧ (∀ i ∈ is, i ∈ s2.vars) ∧
        s2.step rx (.next it) = some (s2, .stop) := by
  have hok := ran_ok h
  refine ⟨(reachable_wf (graph_ok hok hv).1).nodup, ?_⟩
  have hstep : s.step rx (.iter g) = some ((s.make (.iter g 0 b) [g]).1, .objs [s.size]) := by
    simp only [PySt.step]
    rw [graphOf_iff.2 ⟨hg, hv⟩]
    rfl
  obtain ⟨h1, h2⟩ := pyStep_ok hok hstep
  have hgv : (s.make (.iter g 0 b) [g]).1.val g = .graph ss b := by
    show (if g = s.size then _ else s.val g) = _
    rw [if_neg (Nat.ne_of_lt (hok.vars g hg))]
    exact hv
  obtain ⟨s2, is, q1, q2, _, _, q5, _, q7⟩ := nexts_all (rx := rx) ss.net.g.nodes h1 List.mem_cons_self (make_val s _ _)
    hgv rfl
  exact ⟨_, _, hstep, s2, is, q1, q2, q5, q7⟩

/-- C85: iterating over a path gives a handle for each of its nodes, in order, and then stops. -/
theorem py_path_iterate {rx : Str → Str → Bool} {s : PySt} (h : PyRan rx s) {p : Nat} {ns : List (Nat × Nat)}
    (hp : HoldsPath s p ns) (ha : ∀ x ∈ ns, Alive s x.1) :
    ∃ s1 it, s.step rx (.iter p) = some (s1, .objs [it]) ∧ ∃ s2 is, nexts rx it ns.length s1 = some (s2, is) ∧
      is.map s2.val = ns.map (fun x => .node x.1 x.2) ∧ (∀ i ∈ is, i ∈ s2.vars) ∧
      s2.step rx (.next it) = some (s2, .stop) := by
  have hok := ran_ok h
  have hg : s.graphOf p = none := by
    cases hg : s.graphOf p with
    | none => rfl
    | some x =>
      have := (graphOf_iff (ss := x.1) (b := x.2).1 hg).2
      rw [hp.2] at this
      cases this
  have hstep : s.step rx (.iter p) = some ((s.make (.pathIter p 0) [p]).1, .objs [s.size]) := by
    simp only [PySt.step]
    rw [hg, pathOf_iff.2 hp]
    rfl
  obtain ⟨h1, h2⟩ := pyStep_ok hok hstep
  obtain ⟨s2, is, q1, q2, _, q5, _, q7⟩ := nexts_path (rx := rx) ns h1 List.mem_cons_self (make_val s _ _)
    (h2.path p ns (hok.vars p hp.1) hp.2) rfl fun x hx => (make_alive hok (by simpa using Alive.var hp.1)).2 (.inr (ha x hx))
  exact ⟨_, _, hstep, s2, is, q1, q2, q5, q7⟩

/-- C85: a path object made from a list of handles has their nodes in that order. -/
theorem py_new_path {rx : Str → Str → Bool} {s : PySt} {hs : List Nat} {ns : List (Nat × Nat)}
    (hh : hs.length = ns.length ∧ ∀ k h g n : Nat, hs[k]? = some h → ns[k]? = some (g, n) → HoldsNode s h g n) :
    ∃ s1 p, s.step rx (.newPath hs) = some (s1, .objs [p]) ∧ HoldsPath s1 p ns := by
  have hm : hs.mapM s.nodeOf = some ns := by
    obtain ⟨hl, hk⟩ := hh
    induction hs generalizing ns with
    | nil => cases ns with
      | nil => rfl
      | cons _ _ => simp at hl
    | cons a hs ih =>
      cases ns with
      | nil => simp at hl
      | cons x ns =>
        simp only [List.mapM_cons, Option.bind_eq_bind, Option.pure_def]
        rw [nodeOf_iff.2 (hk 0 a x.1 x.2 rfl rfl), ih (by simpa using hl) fun k h g n h1 h2 =>
          hk (k + 1) h g n (by simpa using h1) (by simpa using h2)]
        rfl
  refine ⟨(s.make (.path ns) []).1, s.size, ?_, List.mem_cons_self, make_val s _ _⟩
  simp only [PySt.step]
  rw [hm]
  rfl

/-- C85: the counts of a graph are the number of its nodes and of their out-edges. -/
theorem py_counts {rx : Str → Str → Bool} {s : PySt} {g b : Nat} {ss : Session} (hg : g ∈ s.vars)
    (hv : s.val g = .graph ss b) : ∃ m, s.step rx (.counts g) = some (s, .num ss.net.g.nodes.length m) ∧
      m = (ss.net.g.nodes.flatMap fun n => (ss.net.g.obj n).outE).length := by
  refine ⟨(ss.net.g.nodes.map fun n => (ss.net.g.obj n).outE.length).sum, ?_, by rw [List.length_flatMap]⟩
  simp only [PySt.step]
  rw [graphOf_iff.2 ⟨hg, hv⟩]

/-! ### Concrete cases -/

def pyRx : Str → Str → Bool := fun _ _ => false

/-- A graph with ports `a` and `b` and an edge between them. -/
def pyBuilt : List PyOp := [.newGraph, .build 0 [.addNode (sPort "a"), .addNode (sPort "b"), .addEdge 0 1]]

/-- Handles from a lookup dangle once the graph is gone. -/
theorem py_lookup_dangles : (PySt.run pyRx {} (pyBuilt ++ [.query 0 (.lookup "a".toList), .read 1])).isSome = true ∧
    PySt.run pyRx {} (pyBuilt ++ [.query 0 (.lookup "a".toList), .drop 0, .read 1]) = none := by
  constructor
  · decide +kernel
  · rw [← Option.isNone_iff_eq_none]; decide +kernel

/-- A handle from an iteration keeps the graph, but not if a lookup had given a handle of that node before. -/
theorem py_iteration_dangles :
    (PySt.run pyRx {} (pyBuilt ++ [.iter 0, .next 1, .drop 0, .drop 1, .read 2])).isSome = true ∧
    PySt.run pyRx {} (pyBuilt ++ [.query 0 (.lookup "a".toList), .iter 0, .next 2, .drop 0, .drop 2, .read 1]) = none := by
  constructor
  · decide +kernel
  · rw [← Option.isNone_iff_eq_none]; decide +kernel

/-- The path from a node to itself is empty, and its front is undefined; so is the entry one past the end of
a path, and going on with an iteration after a build. -/
theorem py_misuse :
    PySt.run pyRx {} (pyBuilt ++ [.query 0 (.lookup "a".toList), .findPath false 1 1, .front 2]) = none ∧
    PySt.run pyRx {} (pyBuilt ++ [.query 0 (.lookup "a".toList), .query 0 (.lookup "b".toList), .findPath false 1 2,
      .item 3 2]) = none ∧
    PySt.run pyRx {} (pyBuilt ++ [.iter 0, .next 1, .build 0 [.addNode (sPort "c")], .next 1]) = none := by
  refine ⟨?_, ?_, ?_⟩ <;> (rw [← Option.isNone_iff_eq_none]; decide +kernel)

/-- The state after a program. -/
def pyEnd (ops : List PyOp) : PySt := (PySt.run pyRx {} ops).getD {}

theorem pyEnd_ran {ops : List PyOp} (h : (PySt.run pyRx {} ops).isSome = true) : PyRan pyRx (pyEnd ops) := by
  obtain ⟨s, hs⟩ := Option.isSome_iff_exists.1 h
  exact ⟨ops, by rw [hs]; unfold pyEnd; rw [hs]; rfl⟩

/-- The graph and handles for both of its ports. -/
def pyPair : PySt := pyEnd (pyBuilt ++ [.query 0 (.lookup "a".toList), .query 0 (.lookup "b".toList)])

/-- Both handles refer to different nodes of the live graph, as the theorems about calls ask. -/
example : PyRan pyRx pyPair ∧ HoldsNode pyPair 1 0 0 ∧ HoldsNode pyPair 2 0 1 ∧ HoldsGraph pyPair 0 ∧ Alive pyPair 0 ∧
    PyLooks pyPair (.findPath false 1 2) 0 := by
  have h1 : HoldsNode pyPair 1 0 0 := ⟨by decide +kernel, isNode_iff.1 (by decide +kernel)⟩
  have h2 : HoldsNode pyPair 2 0 1 := ⟨by decide +kernel, isNode_iff.1 (by decide +kernel)⟩
  have h0 : 0 ∈ pyPair.vars := by decide +kernel
  exact ⟨pyEnd_ran (by decide +kernel), h1, h2, graphOf_holds.1 (by decide +kernel), .var h0, .start h1 h2⟩

/-- The path found between them has both nodes. -/
example : (match pyPair.step pyRx (.findPath false 1 2) with
    | some (s, .objs [p]) => (match s.val p with | .path ns => ns == [(0, 0), (0, 1)] | _ => false)
    | _ => false) = true := by decide +kernel

/-- An iteration that gives a new handle, kept while everything else is given up. -/
example : (match (pyEnd (pyBuilt ++ [.iter 0])).step pyRx (.next 1) with
    | some (s, .objs [j]) => j == (pyEnd (pyBuilt ++ [.iter 0])).size &&
      (match s.run pyRx [.drop 0, .drop 1] with | some s2 => s2.vars == [j] | none => false)
    | _ => false) = true := by decide +kernel

/-- A lookup that gives a new handle. -/
example : (match (pyEnd pyBuilt).step pyRx (.query 0 (.lookup "a".toList)) with
    | some (_, .objs [j]) => j == (pyEnd pyBuilt).size
    | _ => false) = true := by decide +kernel

/-- Looking up a node twice gives the same object. -/
example : (match pyPair.step pyRx (.query 0 (.lookup "a".toList)) with
    | some (_, .objs [j]) => j == 1
    | _ => false) = true := by decide +kernel

/-- Iterating over the graph gives the two handles held already. -/
example : (match nexts pyRx 3 2 (pyEnd (pyBuilt ++ [.query 0 (.lookup "a".toList), .query 0 (.lookup "b".toList), .iter 0]))
    with | some (_, is) => is == [1, 2] | none => false) = true := by decide +kernel

/-- The names frozen by a query: a port built into the graph after a lookup is not found, though iterating
over the graph gives it. Without the lookup, or with a query for drivers in its place, it is found. -/
theorem py_names_stale :
    (∀ q : PyQuery, q = .lookup "a".toList ∨ q = .find "a".toList ∨ q = .lookupByRange "a".toList 0 0 ∨
        q = .findRegex "a".toList →
      (match (pyEnd (pyBuilt ++ [.query 0 q, .build 0 [.addNode (sPort "c")]])).step pyRx
        (.query 0 (.lookup "c".toList)) with | some (_, .objs is) => is.length | _ => 9) = 0) ∧
    (match (pyEnd (pyBuilt ++ [.query 0 (.drivers "a".toList 0 0), .build 0 [.addNode (sPort "c")]])).step pyRx
      (.query 0 (.lookup "c".toList)) with | some (_, .objs is) => is.length | _ => 9) = 1 ∧
    (match (pyEnd (pyBuilt ++ [.query 0 (.lookup "a".toList), .build 0 [.addNode (sPort "c")]])).step pyRx
      (.counts 0) with | some (_, .num n _) => n | _ => 0) = 3 := by
  refine ⟨?_, by decide +kernel, by decide +kernel⟩
  rintro q (rfl | rfl | rfl | rfl) <;> decide +kernel

end Verif.Props
