import Verif.Model.Lookup
import Verif.Proofs.Net

/-!
Property theorems C16-C18: name lookups, driver queries and black-box coverage.
-/
set_option linter.unusedSimpArgs false
namespace Verif.Props
open Verif.Spec Verif.Model Verif.Proofs

/-! ### C16 -/

theorem indexAdd_lookup (ix : List (Str × List Nat)) (p q : Str) (n : Nat) :
    (indexAdd ix p n).lookup q =
      if q = p then some ((ix.lookup p).getD [] ++ [n]) else ix.lookup q := by
  induction ix with
  | nil =>
    simp only [indexAdd, List.lookup]
    by_cases h : q = p
    · simp [h]
    · simp [h, beq_false_of_ne h]
  | cons b ix ih =>
    obtain ⟨k, ns⟩ := b
    simp only [indexAdd]
    split
    · rename_i hk
      subst hk
      by_cases h : q = k
      · simp [h, List.lookup]
      · simp [h, List.lookup, beq_false_of_ne h]
    · rename_i hk
      by_cases h : q = k
      · subst h
        simp [List.lookup, hk]
      · have hpk : (p == k) = false := beq_false_of_ne (fun hc => hk hc.symm)
        simp only [List.lookup, beq_false_of_ne h, ih, hpk]

theorem mkIndex_lookup (net : NetGraph) (ns : List Nat) (ix : List (Str × List Nat)) (q : Str) :
    (mkIndex net ns ix).lookup q =
      if ns.filter (fun n => (net.data n).path == some q) = [] then ix.lookup q
      else some ((ix.lookup q).getD [] ++ ns.filter fun n => (net.data n).path == some q) := by
  induction ns generalizing ix with
  | nil => simp [mkIndex]
  | cons n ns ih =>
    simp only [mkIndex]
    split
    · rename_i p hp
      rw [ih, indexAdd_lookup]
      by_cases h : q = p
      · subst h
        simp only [hp, List.filter_cons, beq_self_eq_true, ↓reduceIte, Option.getD_some,
          List.append_assoc, List.singleton_append, reduceCtorEq]
        split
        · rename_i h; rw [h]
        · rfl
      · have h' : (some p == some q) = false := beq_false_of_ne (fun hc => h (Option.some.inj hc).symm)
        simp [h, hp, List.filter_cons, h']
    · rename_i hp
      rw [ih]
      simp [List.filter_cons, hp]

theorem indexAdd_flatMap (m : Str → Bool) (ix : List (Str × List Nat)) (p : Str) (n : Nat) :
    ((indexAdd ix p n).flatMap fun b => if m b.1 then b.2 else []).Perm
      ((ix.flatMap fun b => if m b.1 then b.2 else []) ++ if m p then [n] else []) := by
  induction ix with
  | nil => simp [indexAdd]
  | cons b ix ih =>
    obtain ⟨k, ns⟩ := b
    simp only [indexAdd]
    split
    · rename_i hk
      subst hk
      simp only [List.flatMap_cons]
      split
      · rw [List.append_assoc, List.append_assoc]
        exact List.Perm.append_left _ List.perm_append_comm
      · simp
    · simp only [List.flatMap_cons, List.append_assoc]
      exact List.Perm.append_left _ ih

theorem mkIndex_flatMap (net : NetGraph) (m : Str → Bool) (ns : List Nat)
    (ix : List (Str × List Nat)) :
    ((mkIndex net ns ix).flatMap fun b => if m b.1 then b.2 else []).Perm
      ((ix.flatMap fun b => if m b.1 then b.2 else []) ++
        ns.filter fun n => match (net.data n).path with | some p => m p | none => false) := by
  induction ns generalizing ix with
  | nil => simp [mkIndex]
  | cons n ns ih =>
    simp only [mkIndex]
    split
    · rename_i p hp
      refine (ih _).trans ?_
      refine (List.Perm.append_right _ (indexAdd_flatMap m ix p n)).trans ?_
      rw [List.append_assoc]
      refine List.Perm.append_left _ ?_
      simp only [List.filter_cons, hp]
      split <;> simp
    · rename_i hp
      refine (ih _).trans ?_
      simp [List.filter_cons, hp]

/-- C16: a node has a path and bounds iff it is a port, a variable or a register, and then they are the ones
it was made with. -/
theorem named_nodes (d : NodeData) :
    (∀ p, d.path = some p ↔ ∃ n l b, (∃ dir, d = .port n p l dir b) ∨ d = .variable n p l b ∨ d = .state n p l b) ∧
    (∀ b, d.bounds = some b ↔ ∃ n p l, (∃ dir, d = .port n p l dir b) ∨ d = .variable n p l b ∨ d = .state n p l b) := by
  constructor <;> intro x <;> cases d <;> simp [NodeData.path, NodeData.bounds, eq_comm]

example : (NodeData.state ['r'] ['m', '.', 'r'] {} ⟨0, 7⟩).bounds = some ⟨0, 7⟩ ∧
    (NodeData.assignment {}).path = none := by decide

/-- The index is absent, or was built from the current netlist. -/
def Fresh (s : Session) : Prop :=
  s.index = none ∨ s.index = some (mkIndex s.net s.net.g.nodes [])

theorem fresh_index {s : Session} (h : Fresh s) :
    s.ensureIndex.2 = mkIndex s.net s.net.g.nodes [] := by
  rcases h with h | h <;> simp [Session.ensureIndex, h]

/-- C16 (partial): as long as no node was added or removed since the first name query, lookup by
name returns the first node with that path, or nothing if there is none; lookup by name and range
returns exactly the nodes with that path whose bounds overlap, in order; pattern search returns
exactly the named nodes whose path matches, each once.

Missing: the same without `Fresh`; it fails, see `lookup_is_stale`. -/
theorem lookup_exact_partial (s : Session) (h : Fresh s) :
    (∀ name, s.lookup name =
      s.net.g.nodes.find? fun n => (s.net.data n).path == some name) ∧
    (∀ name r, s.lookupRange name r = s.net.g.nodes.filter fun n =>
      (s.net.data n).path == some name && ((s.net.data n).bounds.any fun b =>
        decide (b.lower ≤ r.upper) && decide (r.lower ≤ b.upper))) ∧
    (∀ m : Str → Bool, (s.findNodes m).Perm
      (s.net.g.nodes.filter fun n => (s.net.data n).path.any m)) := by
  have hix := fresh_index h
  refine ⟨?_, ?_, ?_⟩
  · intro name
    simp only [Session.lookup, hix, mkIndex_lookup, List.lookup_nil]
    rw [← List.head?_filter]
    split
    · rename_i h1
      split at h1
      · rename_i h2; rw [h2]; rfl
      · cases h1
    · rename_i ns h1
      split at h1
      · cases h1
      · simp at h1; rw [h1]
  · intro name r
    have hb : ∀ n, (match (s.net.data n).bounds with
        | some b => b.overlaps r
        | none => false) = ((s.net.data n).bounds.any fun b =>
        decide (b.lower ≤ r.upper) && decide (r.lower ≤ b.upper)) := by
      intro n
      cases (s.net.data n).bounds <;> simp [BitRange.overlaps]
    have hsplit : (s.net.g.nodes.filter fun n =>
        (s.net.data n).path == some name && ((s.net.data n).bounds.any fun b =>
        decide (b.lower ≤ r.upper) && decide (r.lower ≤ b.upper))) =
        (s.net.g.nodes.filter fun n => (s.net.data n).path == some name).filter fun n =>
          ((s.net.data n).bounds.any fun b =>
        decide (b.lower ≤ r.upper) && decide (r.lower ≤ b.upper)) := by
      rw [List.filter_filter]
      apply List.filter_congr
      intro n _
      exact Bool.and_comm _ _
    rw [hsplit]
    simp only [Session.lookupRange, hix, mkIndex_lookup, List.lookup_nil]
    split
    · rename_i h1
      split at h1
      · rename_i h2; rw [h2]; rfl
      · cases h1
    · rename_i ns h1
      split at h1
      · cases h1
      · simp at h1; rw [h1]
        apply List.filter_congr
        intro n _
        rw [← hb n]
        cases (s.net.data n).bounds <;> rfl
  · intro m
    simp only [Session.findNodes, hix]
    refine (mkIndex_flatMap s.net m s.net.g.nodes []).trans ?_
    simp only [List.flatMap_nil, List.nil_append]
    have : (fun n => match (s.net.data n).path with | some p => m p | none => false) =
        fun n => (s.net.data n).path.any m := by
      funext n; cases (s.net.data n).path <;> rfl
    rw [this]

/-- Sessions that first build the netlist and then only query are `Fresh`, so
`lookup_exact_partial` applies to them. -/
theorem build_then_query_fresh (ops : List NetOp) (k : Nat) (s : Session)
    (h : Session.steps {} (ops.map SOp.mutate ++ List.replicate k .query) = some s) :
    Fresh s ∧ NetGraph.calls {} ops = some s.net := by
  have hq : ∀ (k : Nat) (s s' : Session), Fresh s →
      Session.steps s (List.replicate k .query) = some s' → Fresh s' ∧ s'.net = s.net := by
    intro k
    induction k with
    | zero => intro s s' hf h; simp [Session.steps] at h; subst h; exact ⟨hf, rfl⟩
    | succ k ih =>
      intro s s' hf h
      simp only [List.replicate_succ, Session.steps, Session.step] at h
      have hf' : Fresh s.ensureIndex.1 ∧ s.ensureIndex.1.net = s.net := by
        rcases hf with hf | hf
        · simp only [Session.ensureIndex, hf]; exact ⟨.inr rfl, trivial⟩
        · simp only [Session.ensureIndex, hf]; exact ⟨.inr hf, trivial⟩
      obtain ⟨h1, h2⟩ := ih _ _ hf'.1 h
      exact ⟨h1, h2.trans hf'.2⟩
  have hm : ∀ (ops : List NetOp) (s0 : Session) (rest : List SOp), s0.index = none →
      Session.steps s0 (ops.map SOp.mutate ++ rest) = some s →
      ∃ net, NetGraph.calls s0.net ops = some net ∧ Session.steps ⟨net, none⟩ rest = some s := by
    intro ops
    induction ops with
    | nil =>
      intro s0 rest hi h
      refine ⟨s0.net, rfl, ?_⟩
      have : (⟨s0.net, none⟩ : Session) = s0 := by cases s0; simp_all
      rw [this]; simpa using h
    | cons op ops ih =>
      intro s0 rest hi h
      simp only [List.map_cons, List.cons_append, Session.steps, Session.step] at h
      cases hc : s0.net.call op with
      | none => rw [hc] at h; cases h
      | some n1 =>
        rw [hc] at h
        simp only [Option.map_some] at h
        obtain ⟨net, h1, h2⟩ := ih _ rest (by exact hi) h
        exact ⟨net, by simp only [NetGraph.calls, hc]; exact h1, h2⟩
  obtain ⟨net, h1, h2⟩ := hm ops {} _ rfl h
  obtain ⟨h3, h4⟩ := hq k ⟨net, none⟩ s (.inl rfl) h2
  exact ⟨h3, by rw [h4]; exact h1⟩

def vNode (p : String) : NodeData := .variable p.toList p.toList {} ⟨3, 0⟩

/-- C16, disagreement: a node added after the first name query is never found by name, and a
removed node is still returned (a dangling pointer). -/
theorem lookup_is_stale :
    (∃ ops s, Session.steps {} ops = some s ∧ ∃ n ∈ s.net.g.nodes, ∃ name,
      (s.net.data n).path = some name ∧ s.lookup name = none) ∧
    (∃ ops s, Session.steps {} ops = some s ∧ ∃ name n,
      s.lookup name = some n ∧ n ∉ s.net.g.nodes) := by
  constructor
  · refine ⟨[.mutate (.addNode (vNode "a")), .query, .mutate (.addNode (vNode "b"))],
      _, rfl, 1, by decide, "b".toList, by decide, by decide⟩
  · exact ⟨[.mutate (.addNode (vNode "a")), .query, .mutate (.removeNode 0)],
      _, rfl, "a".toList, 0, by decide, by decide⟩

/-- Non-vacuity: two nodes of one signal, one of another, one unnamed node. -/
def namedOps : List NetOp :=
  [.addNode (vNode "top.a"), .addNode (.assignment {}), .addNode (vNode "top.b"),
   .addNode (.state "a".toList "top.a".toList {} ⟨7, 4⟩)]

example : ∃ s, Session.steps {} (namedOps.map SOp.mutate ++ List.replicate 2 .query) = some s ∧
    s.lookup "top.a".toList = some 0 ∧ s.lookup "top.c".toList = none ∧
    s.lookupRange "top.a".toList ⟨5, 5⟩ = [3] ∧ s.lookupRange "top.a".toList ⟨4, 3⟩ = [0, 3] :=
  ⟨_, rfl, by decide, by decide, by decide, by decide⟩

/-! ### C17 -/

theorem driversEdges_mem (net : NetGraph) (name : Str) (r : BitRange) (es : List Edge)
    (acc : List Nat) (d : Nat) :
    d ∈ driversEdges net name r es acc ↔ d ∈ acc ∨ ∃ e ∈ es, e.src = d ∧
      edgeNamed net name e = true ∧ (net.attr e.id).bounds.overlaps r = true := by
  induction es generalizing acc with
  | nil => simp [driversEdges]
  | cons e es ih =>
    simp only [driversEdges, List.mem_cons, exists_eq_or_imp]
    by_cases h1 : edgeNamed net name e = true
    · by_cases h2 : (net.attr e.id).bounds.overlaps r = true
      · simp only [h1, h2, Bool.not_true, Bool.false_eq_true, ↓reduceIte, and_self, and_true]
        split
        · rename_i h3
          rw [ih]
          constructor
          · rintro (h | h)
            · exact .inl h
            · exact .inr (.inr h)
          · rintro (h | h | h)
            · exact .inl h
            · exact .inl (h ▸ h3)
            · exact .inr h
        · rw [ih]
          simp only [List.mem_append, List.mem_singleton, or_assoc, eq_comm]
      · simp [h2, h1, ih]
    · simp [h1, ih]

theorem driversEdges_nodup (net : NetGraph) (name : Str) (r : BitRange) (es : List Edge)
    (acc : List Nat) (h : acc.Nodup) : (driversEdges net name r es acc).Nodup := by
  induction es generalizing acc with
  | nil => exact h
  | cons e es ih =>
    simp only [driversEdges]
    split
    · exact ih acc h
    · split
      · exact ih acc h
      · split
        · exact ih acc h
        · rename_i hn
          apply ih
          rw [List.nodup_append]
          refine ⟨h, by simp, ?_⟩
          intro a ha b hb hab
          simp at hb; subst hb; subst hab
          exact hn ha

/-- Edge `e` carries bit `b` of the symbol `name`. -/
def CarriesBit (net : NetGraph) (name : Str) (e : Edge) (b : Int) : Prop :=
  (∃ s, (net.attr e.id).symbol = some s ∧ s.path = name) ∧
  (net.attr e.id).bounds.lower ≤ b ∧ b ≤ (net.attr e.id).bounds.upper

theorem edgeNamed_iff (net : NetGraph) (name : Str) (e : Edge) :
    edgeNamed net name e = true ↔ ∃ s, (net.attr e.id).symbol = some s ∧ s.path = name := by
  unfold edgeNamed
  cases (net.attr e.id).symbol <;> simp

theorem BitRange.lower_le_upper (r : BitRange) : r.lower ≤ r.upper := by
  unfold BitRange.lower BitRange.upper; omega

/-- C17: the driver query returns, each once, exactly the nodes with an out-edge carrying some
bit of the symbol in the queried range. -/
theorem getDrivers_exact (net : NetGraph) (hr : Reachable net) (name : Str) (r : BitRange) :
    (getDrivers net name r).Nodup ∧
    ∀ d, d ∈ getDrivers net name r ↔
      ∃ e ∈ (net.g.obj d).outE, ∃ b, CarriesBit net name e b ∧ r.lower ≤ b ∧ b ≤ r.upper := by
  have hw := reachable_wf hr
  have gen : ∀ (ns acc : List Nat), acc.Nodup →
      (ns.foldl (fun acc n => driversEdges net name r (net.g.obj n).outE acc) acc).Nodup ∧
      ∀ d, d ∈ ns.foldl (fun acc n => driversEdges net name r (net.g.obj n).outE acc) acc ↔
        d ∈ acc ∨ ∃ n ∈ ns, ∃ e ∈ (net.g.obj n).outE, e.src = d ∧ edgeNamed net name e = true ∧
          (net.attr e.id).bounds.overlaps r = true := by
    intro ns
    induction ns with
    | nil => intro acc h; simp [h]
    | cons n ns ih =>
      intro acc h
      obtain ⟨h1, h2⟩ := ih _ (driversEdges_nodup net name r (net.g.obj n).outE acc h)
      refine ⟨h1, fun d => ?_⟩
      rw [List.foldl_cons, h2, driversEdges_mem]
      simp only [List.mem_cons, exists_eq_or_imp, or_assoc]
  obtain ⟨h1, h2⟩ := gen net.g.nodes [] List.nodup_nil
  refine ⟨h1, fun d => ?_⟩
  unfold getDrivers
  rw [h2]
  simp only [List.not_mem_nil, false_or]
  constructor
  · rintro ⟨n, _, e, he, hs, hn, ho⟩
    have := (hw.out n e he).1
    subst hs; subst this
    simp only [BitRange.overlaps, Bool.and_eq_true, decide_eq_true_eq] at ho
    have l1 := BitRange.lower_le_upper (net.attr e.id).bounds
    have l2 := BitRange.lower_le_upper r
    exact ⟨e, he, max (net.attr e.id).bounds.lower r.lower,
      ⟨(edgeNamed_iff _ _ _).1 hn, by omega, by omega⟩, by omega, by omega⟩
  · rintro ⟨e, he, b, ⟨hn, hb1, hb2⟩, hb3, hb4⟩
    have := hw.out d e he
    refine ⟨d, this.2.1, e, he, this.1, (edgeNamed_iff _ _ _).2 hn, ?_⟩
    simp only [BitRange.overlaps, Bool.and_eq_true, decide_eq_true_eq]
    omega

theorem bitDriversEdges_mem (net : NetGraph) (name : Str) (r : BitRange) (es : List Edge)
    (x : BitDriver) :
    x ∈ bitDriversEdges net name r es ↔ ∃ e ∈ es, edgeNamed net name e = true ∧
      (net.attr e.id).bounds.intersection r = some x.bounds ∧ x.driver = e.src := by
  induction es with
  | nil => simp [bitDriversEdges]
  | cons e es ih =>
    simp only [bitDriversEdges, List.mem_cons, exists_eq_or_imp]
    by_cases h1 : edgeNamed net name e = true
    · simp only [h1, Bool.not_true, Bool.false_eq_true, ↓reduceIte, true_and]
      split
      · rename_i h2; rw [ih]; simp [h2]
      · rename_i c h2
        rw [List.mem_cons, ih, h2]
        apply or_congr _ Iff.rfl
        constructor
        · rintro rfl; exact ⟨rfl, rfl⟩
        · rintro ⟨ha, hb⟩
          cases x; simp only [Option.some.injEq] at ha hb ⊢; simp [ha, hb]
    · simp only [Bool.not_eq_true] at h1
      simp [h1, ih]

theorem bdInsert_mem (b x : BitDriver) (l : List BitDriver) :
    x ∈ bdInsert b l ↔ x = b ∨ x ∈ l := by
  induction l with
  | nil => simp [bdInsert]
  | cons c l ih =>
    simp only [bdInsert]
    split
    · simp only [List.mem_cons, ih]
      constructor
      · rintro (h | h | h)
        · exact .inr (.inl h)
        · exact .inl h
        · exact .inr (.inr h)
      · rintro (h | h | h)
        · exact .inr (.inl h)
        · exact .inl h
        · exact .inr (.inr h)
    · simp

theorem bdSort_mem (x : BitDriver) (l : List BitDriver) : x ∈ bdSort l ↔ x ∈ l := by
  induction l with
  | nil => simp [bdSort]
  | cons b l ih => simp [bdSort, bdInsert_mem, ih]

/-- Sort key order, non-strict. -/
def keyLe (a b : BitDriver) : Prop :=
  a.key.1 < b.key.1 ∨ (a.key.1 = b.key.1 ∧ (a.key.2.1 < b.key.2.1 ∨
    (a.key.2.1 = b.key.2.1 ∧ a.key.2.2 ≤ b.key.2.2)))

/-- Sort key order, strict: lower bound first, then upper bound, then driver address. -/
def keyLt (a b : BitDriver) : Prop :=
  a.key.1 < b.key.1 ∨ (a.key.1 = b.key.1 ∧ (a.key.2.1 < b.key.2.1 ∨
    (a.key.2.1 = b.key.2.1 ∧ a.key.2.2 < b.key.2.2)))

theorem less_iff (a b : BitDriver) : a.less b = true ↔ keyLt a b := by
  unfold BitDriver.less keyLt
  split
  · simp only [true_iff]; omega
  · split
    · simp only [Bool.false_eq_true, false_iff]; omega
    · split
      · simp only [true_iff]; omega
      · split
        · simp only [Bool.false_eq_true, false_iff]; omega
        · simp only [decide_eq_true_eq]; omega

theorem bdInsert_sorted (b : BitDriver) (l : List BitDriver) (h : l.Pairwise keyLe) :
    (bdInsert b l).Pairwise keyLe := by
  induction l with
  | nil => simp [bdInsert]
  | cons c l ih =>
    have h' := List.pairwise_cons.1 h
    simp only [bdInsert]
    split
    · rename_i hl
      rw [less_iff] at hl
      rw [List.pairwise_cons]
      refine ⟨?_, ih h'.2⟩
      intro x hx
      rcases (bdInsert_mem b x l).1 hx with rfl | hx
      · unfold keyLt at hl; unfold keyLe; omega
      · exact h'.1 x hx
    · rename_i hl
      rw [less_iff] at hl
      have hbc : keyLe b c := by unfold keyLt at hl; unfold keyLe; omega
      rw [List.pairwise_cons]
      refine ⟨?_, h⟩
      intro x hx
      rcases List.mem_cons.1 hx with rfl | hx
      · exact hbc
      · have := h'.1 x hx
        unfold keyLe at *; omega

theorem bdSort_sorted (l : List BitDriver) : (bdSort l).Pairwise keyLe := by
  induction l with
  | nil => simp [bdSort]
  | cons b l ih => exact bdInsert_sorted b _ ih

theorem bdUnique_spec (l : List BitDriver) (h : l.Pairwise keyLe)
    (hk : ∀ a ∈ l, ∀ b ∈ l, a.key = b.key → a = b) :
    (bdUnique l).Pairwise keyLt ∧ ∀ x, x ∈ bdUnique l ↔ x ∈ l := by
  fun_induction bdUnique l with
  | case1 => simp
  | case2 b => simp
  | case3 a b l hab ih =>
    have hab' := hk a (by simp) b (by simp) hab
    subst hab'
    have h' := List.pairwise_cons.1 h
    obtain ⟨h1, h2⟩ := ih h'.2 (fun x hx y hy => hk x (List.mem_cons_of_mem _ hx) y
      (List.mem_cons_of_mem _ hy))
    refine ⟨h1, fun x => ?_⟩
    rw [h2]; simp
  | case4 a b l hab ih =>
    have h' := List.pairwise_cons.1 h
    obtain ⟨h1, h2⟩ := ih h'.2 (fun x hx y hy => hk x (List.mem_cons_of_mem _ hx) y
      (List.mem_cons_of_mem _ hy))
    refine ⟨?_, fun x => by simp [h2]⟩
    rw [List.pairwise_cons]
    refine ⟨?_, h1⟩
    intro x hx
    rw [h2] at hx
    have hle := h'.1 x hx
    have hb := h'.1 b (by simp)
    have hbx : keyLe b x := by
      rcases List.mem_cons.1 hx with rfl | hx
      · unfold keyLe; omega
      · exact (List.pairwise_cons.1 h'.2).1 x hx
    have hne : ¬ (a.key.1 = b.key.1 ∧ a.key.2.1 = b.key.2.1 ∧ a.key.2.2 = b.key.2.2) := by
      rintro ⟨e1, e2, e3⟩
      exact hab (Prod.ext e1 (Prod.ext e2 e3))
    unfold keyLe at hle hb hbx; unfold keyLt; omega

theorem intersection_bounds {a r c : BitRange} (h : a.intersection r = some c) :
    c.left ≤ c.right ∧ c.lower = max a.lower r.lower ∧ c.upper = min a.upper r.upper := by
  unfold BitRange.intersection at h
  split at h
  · rename_i ho
    simp only [BitRange.overlaps, Bool.and_eq_true, decide_eq_true_eq] at ho
    cases h
    have l1 := BitRange.lower_le_upper a
    have l2 := BitRange.lower_le_upper r
    simp only [BitRange.lower, BitRange.upper] at *
    omega
  · cases h

/-- C17: the per-bit driver query lists exactly the (driver, clipped range) pairs of out-edges
annotated with the symbol, strictly sorted by bit position (so without duplicates), and a bit lies
in an entry of driver `d` exactly when it is in the queried range and some out-edge of `d` carries
that bit. -/
theorem getBitDrivers_exact (net : NetGraph) (hr : Reachable net) (name : Str) (r : BitRange) :
    ((getBitDrivers net name r).Pairwise keyLt) ∧
    (∀ x, x ∈ getBitDrivers net name r ↔ ∃ e ∈ (net.g.obj x.driver).outE,
      (∃ s, (net.attr e.id).symbol = some s ∧ s.path = name) ∧
      (net.attr e.id).bounds.lower ≤ r.upper ∧ r.lower ≤ (net.attr e.id).bounds.upper ∧
      x.bounds = ⟨max (net.attr e.id).bounds.lower r.lower,
        min (net.attr e.id).bounds.upper r.upper⟩) ∧
    (∀ d b, (∃ x ∈ getBitDrivers net name r, x.driver = d ∧ x.bounds.lower ≤ b ∧
        b ≤ x.bounds.upper) ↔
      (r.lower ≤ b ∧ b ≤ r.upper ∧ ∃ e ∈ (net.g.obj d).outE, CarriesBit net name e b)) := by
  have hw := reachable_wf hr
  have hmemAll : ∀ x, x ∈ (net.g.nodes.flatMap fun n =>
      bitDriversEdges net name r (net.g.obj n).outE) ↔ ∃ e ∈ (net.g.obj x.driver).outE,
      edgeNamed net name e = true ∧ (net.attr e.id).bounds.intersection r = some x.bounds := by
    intro x
    rw [List.mem_flatMap]
    constructor
    · rintro ⟨n, _, hx⟩
      obtain ⟨e, he, h1, h2, h3⟩ := (bitDriversEdges_mem _ _ _ _ _).1 hx
      have := (hw.out n e he).1
      refine ⟨e, ?_, h1, h2⟩
      rw [h3, this]; exact he
    · rintro ⟨e, he, h1, h2⟩
      have := hw.out _ e he
      exact ⟨x.driver, this.2.1, (bitDriversEdges_mem _ _ _ _ _).2 ⟨e, he, h1, h2, this.1.symm⟩⟩
  have hkey : ∀ a ∈ bdSort (net.g.nodes.flatMap fun n =>
      bitDriversEdges net name r (net.g.obj n).outE), ∀ b ∈ bdSort (net.g.nodes.flatMap fun n =>
      bitDriversEdges net name r (net.g.obj n).outE), a.key = b.key → a = b := by
    intro a ha b hb hab
    rw [bdSort_mem, hmemAll] at ha hb
    obtain ⟨_, _, _, h1⟩ := ha
    obtain ⟨_, _, _, h2⟩ := hb
    have i1 := (intersection_bounds h1).1
    have i2 := (intersection_bounds h2).1
    obtain ⟨⟨al, ar⟩, ad⟩ := a
    obtain ⟨⟨bl, br⟩, bd⟩ := b
    simp only [BitDriver.key, BitRange.lower, BitRange.upper, Prod.mk.injEq] at hab i1 i2
    obtain ⟨e1, e2, e3⟩ := hab
    have : al = bl := by omega
    have : ar = br := by omega
    subst_vars; rfl
  obtain ⟨h1, h2⟩ := bdUnique_spec _ (bdSort_sorted _) hkey
  have hmem : ∀ x, x ∈ getBitDrivers net name r ↔ ∃ e ∈ (net.g.obj x.driver).outE,
      edgeNamed net name e = true ∧ (net.attr e.id).bounds.intersection r = some x.bounds := by
    intro x
    unfold getBitDrivers
    rw [h2, bdSort_mem, hmemAll]
  refine ⟨h1, ?_, ?_⟩
  · intro x
    rw [hmem]
    constructor
    · rintro ⟨e, he, hn, hi⟩
      refine ⟨e, he, (edgeNamed_iff _ _ _).1 hn, ?_⟩
      unfold BitRange.intersection at hi
      split at hi
      · rename_i ho
        simp only [BitRange.overlaps, Bool.and_eq_true, decide_eq_true_eq] at ho
        exact ⟨ho.1, ho.2, (Option.some.inj hi).symm⟩
      · cases hi
    · rintro ⟨e, he, hn, ha, hb, hx⟩
      refine ⟨e, he, (edgeNamed_iff _ _ _).2 hn, ?_⟩
      unfold BitRange.intersection
      rw [if_pos (by simp only [BitRange.overlaps, Bool.and_eq_true, decide_eq_true_eq]; exact ⟨ha, hb⟩),
        hx]
  · intro d b
    constructor
    · rintro ⟨x, hx, rfl, hb1, hb2⟩
      obtain ⟨e, he, hn, hi⟩ := (hmem x).1 hx
      obtain ⟨_, hl, hu⟩ := intersection_bounds hi
      refine ⟨by omega, by omega, e, he, (edgeNamed_iff _ _ _).1 hn, by omega, by omega⟩
    · rintro ⟨hb1, hb2, e, he, hn, hb3, hb4⟩
      have ho : (net.attr e.id).bounds.overlaps r = true := by
        simp only [BitRange.overlaps, Bool.and_eq_true, decide_eq_true_eq]; omega
      have hi : (net.attr e.id).bounds.intersection r = some ⟨max (net.attr e.id).bounds.lower r.lower,
          min (net.attr e.id).bounds.upper r.upper⟩ := by
        unfold BitRange.intersection; rw [if_pos ho]
      refine ⟨⟨⟨_, _⟩, d⟩, (hmem _).2 ⟨e, he, (edgeNamed_iff _ _ _).2 hn, hi⟩, rfl, ?_, ?_⟩
      · simp only [BitRange.lower, BitRange.upper] at *; omega
      · simp only [BitRange.lower, BitRange.upper] at *; omega

/-- C17: the whole-symbol query reports every bit position a 32-bit signed index can name from 0
up; bits at negative positions are not covered. -/
theorem getBitDriversAll_exact (net : NetGraph) (hr : Reachable net) (name : Str) (d : Nat)
    (b : Int) :
    (∃ x ∈ getBitDriversAll net name, x.driver = d ∧ x.bounds.lower ≤ b ∧ b ≤ x.bounds.upper) ↔
      (0 ≤ b ∧ b ≤ 2147483647 ∧ ∃ e ∈ (net.g.obj d).outE, CarriesBit net name e b) := by
  have := (getBitDrivers_exact net hr name wholeRange).2.2 d b
  have hl : wholeRange.lower = 0 := by decide
  have hu : wholeRange.upper = 2147483647 := by decide
  rw [hl, hu] at this
  exact this

/-- Non-vacuity: two drivers of one signal with overlapping ranges and a parallel edge. -/
def driveOps : List NetOp :=
  let s : SymRef := ⟨['s'], ['t', '.', 's'], {}⟩
  [.addNode (.assignment {}), .addNode (.assignment {}), .addNode (vNode "t.s"),
   .addEdge 0 2, .setAttr 0 { symbol := some s, bounds := ⟨5, 2⟩ },
   .addEdge 1 2, .setAttr 1 { symbol := some s, bounds := ⟨0, 3⟩ },
   .addNewEdge 0 2, .setAttr 2 { symbol := some s, bounds := ⟨8, 9⟩ }]

def driveNet : NetGraph := (NetGraph.calls {} driveOps).getD {}

example : Reachable driveNet := ⟨driveOps, rfl⟩
example : getDrivers driveNet "t.s".toList ⟨3, 4⟩ = [0, 1] := by decide
example : getBitDrivers driveNet "t.s".toList ⟨3, 9⟩ =
    [⟨⟨3, 3⟩, 1⟩, ⟨⟨3, 5⟩, 0⟩, ⟨⟨8, 9⟩, 0⟩] := by
  have h : (bdSort (driveNet.g.nodes.flatMap fun n =>
      bitDriversEdges driveNet "t.s".toList ⟨3, 9⟩ (driveNet.g.obj n).outE)) =
      [⟨⟨3, 3⟩, 1⟩, ⟨⟨3, 5⟩, 0⟩, ⟨⟨8, 9⟩, 0⟩] := by decide
  simp only [getBitDrivers, h, bdUnique, BitDriver.key, BitRange.lower, BitRange.upper]
  decide

/-! ### C18 -/

/-- `path` lies strictly below instance `box`: it is `box`, a dot, and `rest`. -/
def Below (box path rest : Str) : Prop := path = box ++ '.' :: rest

/-- Box `box` puts a node (with the given path) inside. -/
def Inside (isPort : Bool) (path box : Str) : Prop :=
  path = box ∨ ∃ rest, Below box path rest ∧ ¬ (isPort = true ∧ '.' ∉ rest)

/-- Box `box` puts a node on its boundary: a port directly below. -/
def OnBoundary (isPort : Bool) (path box : Str) : Prop :=
  isPort = true ∧ ∃ rest, Below box path rest ∧ '.' ∉ rest

theorem coverLoop_spec (isPort : Bool) (path : Str) (bs : List Str) (r : Coverage)
    (hr : r ≠ .contained) :
    ∃ c, coverLoop isPort path bs r = some c ∧
      (c = .contained ↔ ∃ b ∈ bs, Inside isPort path b) ∧
      (c = .boundary ↔ (¬ ∃ b ∈ bs, Inside isPort path b) ∧
        (r = .boundary ∨ ∃ b ∈ bs, OnBoundary isPort path b)) := by
  induction bs generalizing r with
  | nil => exact ⟨r, rfl, by simp [hr], by simp⟩
  | cons b bs ih =>
    simp only [coverLoop, List.mem_cons, exists_eq_or_imp]
    have hskip : (¬ Inside isPort path b) → (¬ OnBoundary isPort path b) →
        ∃ c, coverLoop isPort path bs r = some c ∧
        (c = .contained ↔ Inside isPort path b ∨ ∃ b ∈ bs, Inside isPort path b) ∧
        (c = .boundary ↔ (¬ (Inside isPort path b ∨ ∃ b ∈ bs, Inside isPort path b)) ∧
          (r = .boundary ∨ OnBoundary isPort path b ∨ ∃ b ∈ bs, OnBoundary isPort path b)) := by
      intro h1 h2
      obtain ⟨c, hc, h3, h4⟩ := ih r hr
      refine ⟨c, hc, ?_, ?_⟩
      · rw [h3]; simp only [eq_false h1, false_or]
      · rw [h4]; simp only [eq_false h1, eq_false h2, false_or]
    by_cases hp : b.isPrefixOf path = true
    · simp only [hp, Bool.not_true, Bool.false_eq_true, ↓reduceIte]
      rw [List.isPrefixOf_iff_prefix] at hp
      obtain ⟨t, rfl⟩ := hp
      cases t with
      | nil =>
        simp only [List.append_nil, ↓reduceIte]
        refine ⟨.contained, rfl, ?_, ?_⟩
        · simp [Inside]
        · simp [Inside]
      | cons ch rest =>
        have hlen : ¬ (b ++ ch :: rest).length = b.length := by simp
        have hget : (b ++ ch :: rest)[b.length]? = some ch := by simp
        have hdrop : (b ++ ch :: rest).drop (b.length + 1) = rest := by
          rw [← List.drop_drop]; simp
        simp only [hlen, ↓reduceIte, hget, hdrop]
        have hbelow : ∀ rest', Below b (b ++ ch :: rest) rest' ↔ ch = '.' ∧ rest' = rest := by
          intro rest'
          simp only [Below, List.append_cancel_left_eq, List.cons.injEq]
          constructor
          · rintro ⟨h1, h2⟩; exact ⟨h1, h2.symm⟩
          · rintro ⟨h1, h2⟩; exact ⟨h1, h2.symm⟩
        have hself : ¬ (b ++ ch :: rest) = b := by
          intro h; exact hlen (congrArg List.length h)
        by_cases hch : ch = '.'
        · subst hch
          simp only [ne_eq, not_true_eq_false, ↓reduceIte]
          by_cases hport : (isPort && !rest.contains '.') = true
          · simp only [hport, ↓reduceIte]
            simp only [Bool.and_eq_true, Bool.not_eq_true', List.contains_eq_mem,
              decide_eq_false_iff_not] at hport
            have h1 : ¬ Inside isPort (b ++ '.' :: rest) b := by
              rintro (h | ⟨rest', hb, hn⟩)
              · exact hself h
              · obtain ⟨_, rfl⟩ := (hbelow _).1 hb
                exact hn hport
            have h2 : OnBoundary isPort (b ++ '.' :: rest) b :=
              ⟨hport.1, rest, (hbelow rest).2 ⟨rfl, rfl⟩, hport.2⟩
            obtain ⟨c, hc, h3, h4⟩ := ih .boundary (by simp)
            refine ⟨c, hc, ?_, ?_⟩
            · rw [h3]; simp only [eq_false h1, false_or]
            · rw [h4]; simp only [eq_false h1, eq_true h2, false_or, true_or, or_true]
          · simp only [hport, Bool.false_eq_true, ↓reduceIte]
            have h1 : Inside isPort (b ++ '.' :: rest) b := by
              refine .inr ⟨rest, (hbelow rest).2 ⟨rfl, rfl⟩, ?_⟩
              rintro ⟨ha, hb⟩
              apply hport
              simp [ha, hb]
            refine ⟨.contained, rfl, ?_, ?_⟩
            · simp only [eq_true h1, true_or]
            · simp [eq_true h1]
        · simp only [ne_eq, hch, not_false_eq_true, ↓reduceIte]
          apply hskip
          · rintro (h | ⟨rest', hb, _⟩)
            · exact hself h
            · exact hch ((hbelow _).1 hb).1
          · rintro ⟨_, rest', hb, _⟩
            exact hch ((hbelow _).1 hb).1
    · simp only [hp, Bool.not_false, ↓reduceIte]
      have hnp : ∀ x, path ≠ b ++ x := by
        intro x hx
        apply hp
        rw [hx, List.isPrefixOf_iff_prefix]
        exact List.prefix_append b x
      apply hskip
      · rintro (h | ⟨rest', hb, _⟩)
        · exact hnp [] (by simpa using h)
        · exact hnp _ hb
      · rintro ⟨_, rest', hb, _⟩
        exact hnp _ hb

/-- C18: the classification never reads outside the path; a node without a path is outside; a
node is contained iff some recorded box contains it, on the boundary iff none does and it is a
port directly below some box, and outside otherwise. The characterisation mentions the boxes only
as a set, so the answer does not depend on the order in which they were recorded. -/
theorem coverage_exact (net : NetGraph) (n : Nat) :
    ∃ c, coverage net n = some c ∧
      (c = .contained ↔ ∃ p, (net.data n).path = some p ∧
        ∃ b ∈ net.blackBoxes, Inside (net.kind n == .port) p b) ∧
      (c = .boundary ↔ ∃ p, (net.data n).path = some p ∧
        (¬ ∃ b ∈ net.blackBoxes, Inside (net.kind n == .port) p b) ∧
        ∃ b ∈ net.blackBoxes, OnBoundary (net.kind n == .port) p b) := by
  unfold coverage
  cases hp : (net.data n).path with
  | none => exact ⟨.outside, rfl, by simp, by simp⟩
  | some p =>
    obtain ⟨c, hc, h1, h2⟩ := coverLoop_spec (net.kind n == .port) p net.blackBoxes .outside
      (by simp)
    refine ⟨c, hc, ?_, ?_⟩
    · rw [h1]; simp
    · rw [h2]; simp

/-- C18: order independence, stated outright. -/
theorem coverage_order_independent (net net' : NetGraph) (n : Nat)
    (hd : net'.data n = net.data n) (hb : net'.blackBoxes.Perm net.blackBoxes) :
    coverage net' n = coverage net n := by
  obtain ⟨c, hc, h1, h2⟩ := coverage_exact net n
  obtain ⟨c', hc', h1', h2'⟩ := coverage_exact net' n
  rw [hc, hc']
  have hk : net'.kind n = net.kind n := by simp [NetGraph.kind, hd]
  have e1 : c = .contained ↔ c' = .contained := by
    rw [h1, h1', hd, hk]; simp only [hb.mem_iff]
  have e2 : c = .boundary ↔ c' = .boundary := by
    rw [h2, h2', hd, hk]; simp only [hb.mem_iff]
  cases c <;> cases c' <;> simp_all

def boxPort : NodeData := .port ['p'] "t.u.p".toList {} .input ⟨0, 0⟩

example : coverage { data := fun _ => boxPort, blackBoxes := ["t.u".toList, "t".toList] } 0 =
    some .contained ∧
    coverage { data := fun _ => boxPort, blackBoxes := ["t.u".toList, "t.ux".toList] } 0 =
    some .boundary ∧
    coverage { data := fun _ => boxPort, blackBoxes := ["t.u.p.x".toList, "t.".toList] } 0 =
    some .outside := by decide

/-- Queries after building use a current index; the order of the black boxes does not matter; bit 3 of the
driven signal has both assignments as drivers, bit 9 only the first. -/
example : (∃ s, Session.steps {} (namedOps.map SOp.mutate ++ List.replicate 2 .query) = some s ∧ Fresh s) ∧
    coverage { data := fun _ => boxPort, blackBoxes := ["t".toList, "t.u".toList] } 0 =
      coverage { data := fun _ => boxPort, blackBoxes := ["t.u".toList, "t".toList] } 0 ∧
    (∀ d b, (∃ x ∈ getBitDriversAll driveNet "t.s".toList, x.driver = d ∧ x.bounds.lower ≤ b ∧
        b ≤ x.bounds.upper) ↔ (0 ≤ b ∧ b ≤ 2147483647 ∧
          ∃ e ∈ (driveNet.g.obj d).outE, CarriesBit driveNet "t.s".toList e b)) ∧
    (∃ e ∈ (driveNet.g.obj 1).outE, CarriesBit driveNet "t.s".toList e 3) :=
  ⟨⟨_, rfl, (build_then_query_fresh namedOps 2 _ rfl).1⟩,
   coverage_order_independent _ _ 0 rfl (.swap ..),
   fun d b => getBitDriversAll_exact driveNet ⟨driveOps, rfl⟩ _ d b,
   ⟨⟨1, 1, 2⟩, by decide, ⟨_, rfl, rfl⟩, by decide, by decide⟩⟩

end Verif.Props
