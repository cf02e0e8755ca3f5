import Verif.Proofs.ReloadQuery
import Verif.Props.Serial

/-! Helper lemmas: netlists that look alike give the same reports, and a loaded netlist looks like the
saved one. -/
namespace Verif.Proofs
open Verif.Model Verif.Spec Verif.Props

/-- Two lists with equal images, taken together. -/
theorem two_lists {α β γ : Type} {f : α → γ} {g : β → γ} {P : List α → List β → Prop} (h0 : P [] [])
    (h1 : ∀ a b l l', f a = g b → P l l' → P (a :: l) (b :: l')) :
    ∀ {l : List α} {l' : List β}, l.map f = l'.map g → P l l' := by
  intro l
  induction l with
  | nil => intro l' h; cases l' with
    | nil => exact h0
    | cons _ _ => simp at h
  | cons a l ih => intro l' h; cases l' with
    | nil => simp at h
    | cons b l' =>
      simp only [List.map_cons, List.cons.injEq] at h
      exact h1 a b l l' h.1 (ih h.2)

/-! ### Traversals -/

/-- The common view of two alike netlists. -/
def viewAdj (net : NetGraph) (ok : Nat × Nat × EdgeAttr → Bool) : Adj (Nat × Nat × EdgeAttr) where
  edges n := (net.g.obj n).outE.map (seenNorm net)
  ok := ok
  next x := x.2.1

section
variable {net net' : NetGraph} (h : Alike net net')
include h

theorem run_norm (ok : Nat × Nat × EdgeAttr → Bool) {p p' : Edge → Bool} (hp : ∀ e, ok (seenNorm net e) = p e)
    (hp' : ∀ e, ok (seen net' e) = p' e) (n : Nat) :
    (dfsRun (fwdAdj net' p') net'.g.nodes n).log.map (evMap (seen net')) =
      (dfsRun (fwdAdj net p) net.g.nodes n).log.map (evMap (seenNorm net)) := by
  have h1 := dfsRun_map (G := fwdAdj net p) (H := viewAdj net ok) (φ := seenNorm net) (fun _ => rfl) hp
    (fun _ => rfl) net.g.nodes n
  have h2 := dfsRun_map (G := fwdAdj net' p') (H := viewAdj net ok) (φ := seen net') (fun m => (h.out m).symm) hp'
    (fun _ => rfl) net.g.nodes n
  rw [h.nodes]
  have := congrArg DfsState.log (h2.symm.trans h1)
  exact this

theorem enabled_norm (n : Nat) :
    (dfsRun (fwdAdj net' (enabledPred net')) net'.g.nodes n).log.map (evMap (seen net')) =
      (dfsRun (fwdAdj net (enabledPred net)) net.g.nodes n).log.map (evMap (seenNorm net)) :=
  run_norm h (fun x => !x.2.2.disabled) (fun _ => rfl) (fun _ => rfl) n

theorem comb_norm (n : Nat) :
    (dfsRun (fwdAdj net' (combPred net')) net'.g.nodes n).log.map (evMap (seen net')) =
      (dfsRun (fwdAdj net (combPred net)) net.g.nodes n).log.map (evMap (seenNorm net)) :=
  run_norm h (fun x => !x.2.2.disabled && net.kind x.2.1 != .state) (fun _ => rfl)
    (fun e => by simp only [seen, combPred, kind_norm h.joins]) n

omit h in
theorem ev_cases {e' e : Ev Edge} (he : evMap (seen net') e' = evMap (seenNorm net) e) :
    (∃ n, e' = .visitNode n ∧ e = .visitNode n) ∨ (∃ n, e' = .visitedNode n ∧ e = .visitedNode n) ∨
      (e' = .popNode ∧ e = .popNode) ∨
      ∃ x y, e' = .visitEdge x ∧ e = .visitEdge y ∧ seen net' x = seenNorm net y := by
  cases e' <;> cases e <;> simp [evMap] at he ⊢ <;> first | assumption | exact he.symm

omit h in
theorem parentMap_norm {l' l : List (Ev Edge)} (hl : l'.map (evMap (seen net')) = l.map (evMap (seenNorm net))) :
    parentMap l' = parentMap l := by
  refine two_lists (P := fun l' l => parentMap l' = parentMap l) rfl (fun e' e k' k he ih => ?_) hl
  unfold parentMap
  rw [ih]
  rcases ev_cases he with ⟨n, rfl, rfl⟩ | ⟨n, rfl, rfl⟩ | ⟨rfl, rfl⟩ | ⟨x, y, rfl, rfl, hs⟩
  · rfl
  · rfl
  · rfl
  · obtain ⟨s1, s2, _⟩ := seen_eq hs
    simp only [s1, s2]

omit h in
theorem collect_norm {l' l : List (Ev Edge)} (hl : l'.map (evMap (seen net')) = l.map (evMap (seenNorm net))) :
    collect l' = collect l := by
  refine two_lists (P := fun l' l => collect l' = collect l) rfl (fun e' e k' k he ih => ?_) hl
  rcases ev_cases he with ⟨n, rfl, rfl⟩ | ⟨n, rfl, rfl⟩ | ⟨rfl, rfl⟩ | ⟨x, y, rfl, rfl, hs⟩
  · exact congrArg (n :: ·) ih
  · exact ih
  · exact ih
  · exact ih

omit h in
theorem cyc_norm (id : Nat → Nat) {l' l : List (Ev Edge)}
    (hl : l'.map (evMap (seen net')) = l.map (evMap (seenNorm net))) :
    ∀ v, l'.foldl (cycEvent id) v = l.foldl (cycEvent id) v := by
  refine two_lists (P := fun l' l => ∀ v, l'.foldl (cycEvent id) v = l.foldl (cycEvent id) v) (fun _ => rfl)
    (fun e' e k' k he ih v => ?_) hl
  rcases ev_cases he with ⟨n, rfl, rfl⟩ | ⟨n, rfl, rfl⟩ | ⟨rfl, rfl⟩ | ⟨x, y, rfl, rfl, hs⟩
  · exact ih _
  · exact ih _
  · exact ih _
  · exact ih _

theorem findPath_norm (a b : Nat) : findPath net' a b = findPath net a b := by
  unfold findPath findPathWith
  rw [parentMap_norm (enabled_norm h a)]

theorem fanOut_norm (n : Nat) : combFanOut net' n = combFanOut net n := by
  unfold combFanOut dfsEvents
  refine collect_norm (net := net) (net' := net') ?_
  rw [List.map_reverse, List.map_reverse, comb_norm h]

theorem cycles_norm (n : Nat) : cyclesFrom net' (combPred net') n = cyclesFrom net (combPred net) n := by
  unfold cyclesFrom dfsEvents
  rw [h.id]
  congr 1
  refine cyc_norm (net := net) (net' := net') _ ?_ _
  rw [List.map_reverse, List.map_reverse, comb_norm h]

theorem loops_norm : combLoops net' = combLoops net := by
  have : ∀ ns vis cs, detectLoop net' (combPred net') ns vis cs = detectLoop net (combPred net) ns vis cs := by
    intro ns
    induction ns with
    | nil => intro _ _; rfl
    | cons n ns ih => intro vis cs; simp only [detectLoop, cycles_norm h, ih]
  unfold combLoops detectCycles
  rw [h.nodes, h.id, this]

/-! ### Texts -/

omit h in
theorem nodeText_norm (files : List Str) (d : NodeData) :
    reportNodeText files (normData (fun v => v) d) = reportNodeText files d := by cases d <;> rfl

omit h in
theorem describe_norm (d : NodeData) : describeDriver (normData (fun v => v) d) = describeDriver d := by
  cases d <;> rfl

omit h in
theorem writeNode_norm (id : Nat) (d : NodeData) : writeNode id (normData (fun v => v) d) = writeNode id d := by
  cases d <;> simp only [normData, writeNode, normRange_text]

omit h in
theorem edgeText_norm (files : List Str) (a : EdgeAttr) : reportEdgeText files (normAttr a) = reportEdgeText files a := by
  simp only [reportEdgeText, normAttr, normRange_text]

theorem edgeTo_norm (a b : Nat) :
    (net'.g.findEdgeTo a b = none ∧ net.g.findEdgeTo a b = none) ∨
      ∃ e' e, net'.g.findEdgeTo a b = some e' ∧ net.g.findEdgeTo a b = some e ∧ net'.attr e'.id = normAttr (net.attr e.id) := by
  unfold DGraph.findEdgeTo
  refine two_lists (f := seen net') (g := seenNorm net)
    (P := fun l' l => (l'.find? (fun e => e.tgt == b) = none ∧ l.find? (fun e => e.tgt == b) = none) ∨
      ∃ e' e, l'.find? (fun e => e.tgt == b) = some e' ∧ l.find? (fun e => e.tgt == b) = some e ∧
        net'.attr e'.id = normAttr (net.attr e.id)) (.inl ⟨rfl, rfl⟩) (fun e' e l' l he ih => ?_) (h.out a)
  obtain ⟨_, s2, s3⟩ := seen_eq he
  by_cases hb : e.tgt = b
  · right
    refine ⟨e', e, ?_, ?_, s3⟩
    · simp [s2, hb]
    · simp [hb]
  · have hb' : (e.tgt == b) = false := by simp [hb]
    have hb'' : (e'.tgt == b) = false := by simp [s2, hb]
    rw [List.find?_cons, List.find?_cons, hb', hb'']
    exact ih

theorem reportPath_norm (files : List Str) (p : List Nat) : reportPath net' files p = reportPath net files p := by
  induction p with
  | nil => rfl
  | cons a p ih =>
    cases p with
    | nil => simp only [reportPath, h.data, nodeText_norm]
    | cons b p =>
      unfold reportPath
      rcases edgeTo_norm h a b with ⟨h1, h2⟩ | ⟨e', e, h1, h2, h3⟩
      · rw [h1, h2]
      · rw [h1, h2]
        simp only [h.data, nodeText_norm, h3, edgeText_norm, ih]

theorem reportLoops_norm (files : List Str) (cs : List (List Nat)) :
    reportLoops net' files cs = reportLoops net files cs := by
  induction cs with
  | nil => rfl
  | cons c cs ih => simp only [reportLoops, reportPath_norm h, ih]

/-! ### Drivers -/

theorem bitDrivers_norm (name : Str) (r : BitRange) (n : Nat) :
    bitDriversEdges net' name r (net'.g.obj n).outE = bitDriversEdges net name r (net.g.obj n).outE := by
  refine two_lists (f := seen net') (g := seenNorm net)
    (P := fun l' l => bitDriversEdges net' name r l' = bitDriversEdges net name r l) rfl
    (fun e' e l' l he ih => ?_) (h.out n)
  obtain ⟨s1, _, s3⟩ := seen_eq he
  have hn : edgeNamed net' name e' = edgeNamed net name e := by simp only [edgeNamed, s3, normAttr]
  have hb : (net'.attr e'.id).bounds.intersection r = (net.attr e.id).bounds.intersection r := by
    rw [s3]; exact normRange_intersection _ r
  simp only [bitDriversEdges, hn, hb, s1, ih]

theorem drivers_norm (name : Str) (r : BitRange) : getBitDrivers net' name r = getBitDrivers net name r := by
  unfold getBitDrivers
  rw [h.nodes]
  simp only [bitDrivers_norm h]

theorem driverRows_norm (files : List Str) (ds : List BitDriver) :
    driverRows net' files ds = driverRows net files ds := by
  induction ds with
  | nil => rfl
  | cons d ds ih => simp only [driverRows, h.data, norm_loc, describe_norm, ih]

/-! ### DOT -/

theorem writeEdge_norm {n : Nat} {e' e : Edge} (he : seen net' e' = seenNorm net e) :
    writeEdge net' n e' = writeEdge net n e := by
  obtain ⟨_, s2, s3⟩ := seen_eq he
  simp only [writeEdge, s2, s3, h.id, normAttr, normRange_text]

theorem dotOut_norm {F F' : Option (List Nat)} (hF : ∀ n, dotIncluded F' n = dotIncluded F n) (n : Nat) :
    ∀ buf, dotOutEdges net' F' n buf (net'.g.obj n).outE = dotOutEdges net F n buf (net.g.obj n).outE := by
  refine two_lists (f := seen net') (g := seenNorm net)
    (P := fun l' l => ∀ buf, dotOutEdges net' F' n buf l' = dotOutEdges net F n buf l) (fun _ => rfl)
    (fun e' e l' l he ih buf => ?_) (h.out n)
  obtain ⟨_, s2, s3⟩ := seen_eq he
  simp only [dotOutEdges, s3, s2, hF, writeEdge_norm h he, ih]
  rfl

theorem dot_norm {F F' : Option (List Nat)} (hF : ∀ n, dotIncluded F' n = dotIncluded F n) :
    renderDot net' F' = renderDot net F := by
  have h1 : ∀ ns buf, dotNodes net' F' buf ns = dotNodes net F buf ns := by
    intro ns
    induction ns with
    | nil => intro _; rfl
    | cons n ns ih => intro buf; simp only [dotNodes, hF, h.id, h.data, writeNode_norm, ih]
  have h2 : ∀ ns buf, dotEdges net' F' buf ns = dotEdges net F buf ns := by
    intro ns
    induction ns with
    | nil => intro _; rfl
    | cons n ns ih => intro buf; simp only [dotEdges, hF, dotOut_norm h hF, ih]
  simp only [renderDot, h.nodes, h1, h2]

/-! ### Sensitivity -/

theorem clocked_norm (r s : Nat) (k : EdgeKind) : ClockedBy net' r s k ↔ ClockedBy net r s k := by
  obtain ⟨h1, h2⟩ := mem_seen (h.out s)
  unfold ClockedBy
  constructor
  · rintro ⟨e, he, ht, hd, hk⟩
    obtain ⟨e', he', hs⟩ := h2 e he
    obtain ⟨_, s2, s3⟩ := seen_eq hs
    rw [s3] at hd hk
    exact ⟨e', he', s2.symm.trans ht, hd, hk⟩
  · rintro ⟨e, he, ht, hd, hk⟩
    obtain ⟨e', he', hs⟩ := h1 e he
    obtain ⟨_, s2, s3⟩ := seen_eq hs
    exact ⟨e', he', s2.trans ht, by rw [s3]; exact hd, by rw [s3]; exact hk⟩

theorem feeds_norm (n r : Nat) : Feeds net' n r ↔ Feeds net n r := by
  unfold Feeds
  rw [kind_norm h.joins]
  constructor
  · rintro ⟨h1, m, h2, h3⟩
    exact ⟨h1, m, (reach_iff (combStep_norm h.joins)).1 h2, (h.joins.step m r).1 h3⟩
  · rintro ⟨h1, m, h2, h3⟩
    exact ⟨h1, m, (reach_iff (combStep_norm h.joins)).2 h2, (h.joins.step m r).2 h3⟩

theorem sensitivity_mem {n : Nat} (hn : n ∈ net.g.nodes) (x : Nat × EdgeKind) :
    x ∈ sensitivity net' n ↔ x ∈ sensitivity net n := by
  obtain ⟨s, k⟩ := x
  by_cases hk : net.kind n = .state
  · rw [(sensitivity_of_register net h.reach n hk).2,
      (sensitivity_of_register net' h.reach' n (by rw [kind_norm h.joins]; exact hk)).2]
    exact clocked_norm h n s k
  · rw [(sensitivity_of_comb net h.reach n hn hk).2,
      (sensitivity_of_comb net' h.reach' n (by rw [h.nodes]; exact hn) (by rw [kind_norm h.joins]; exact hk)).2]
    constructor
    · rintro ⟨r, h1, h2⟩; exact ⟨r, (feeds_norm h n r).1 h1, (clocked_norm h r s k).1 h2⟩
    · rintro ⟨r, h1, h2⟩; exact ⟨r, (feeds_norm h n r).2 h1, (clocked_norm h r s k).2 h2⟩

omit h in
theorem addNew_mem (ss : List (Nat × EdgeKind)) : ∀ (acc : List (Nat × EdgeKind)), acc.Nodup →
    (addNewSources acc ss).Nodup ∧ ∀ x, x ∈ addNewSources acc ss ↔ x ∈ acc ∨ x ∈ ss := by
  induction ss with
  | nil => intro acc ha; exact ⟨ha, by simp [addNewSources]⟩
  | cons s ss ih =>
    intro acc ha
    unfold addNewSources
    by_cases hs : s ∈ acc
    · rw [if_pos hs]
      refine ⟨(ih acc ha).1, fun x => ?_⟩
      rw [(ih acc ha).2]
      grind
    · rw [if_neg hs]
      have hn : (acc ++ [s]).Nodup := by
        rw [List.nodup_append]
        exact ⟨ha, by simp, by grind⟩
      refine ⟨(ih _ hn).1, fun x => ?_⟩
      rw [(ih _ hn).2]
      grind

omit h in
theorem aggregate_mem (m : NetGraph) (ns : List Nat) : ∀ (acc : List (Nat × EdgeKind)), acc.Nodup →
    (aggregateSources m acc ns).Nodup ∧
      ∀ x, x ∈ aggregateSources m acc ns ↔ x ∈ acc ∨ ∃ n ∈ ns, x ∈ sensitivity m n := by
  induction ns with
  | nil => intro acc ha; exact ⟨ha, by simp [aggregateSources]⟩
  | cons n ns ih =>
    intro acc ha
    unfold aggregateSources
    obtain ⟨a1, a2⟩ := addNew_mem (sensitivity m n) acc ha
    refine ⟨(ih _ a1).1, fun x => ?_⟩
    rw [(ih _ a1).2, a2]
    simp only [List.mem_cons, exists_eq_or_imp]
    grind

theorem aggregate_perm {ns : List Nat} (hn : ∀ n ∈ ns, n ∈ net.g.nodes) :
    (aggregateSources net' [] ns).Perm (aggregateSources net [] ns) := by
  obtain ⟨a1, a2⟩ := aggregate_mem net ns [] List.nodup_nil
  obtain ⟨b1, b2⟩ := aggregate_mem net' ns [] List.nodup_nil
  refine (List.perm_ext_iff_of_nodup b1 a1).2 fun x => ?_
  rw [a2, b2]
  constructor
  · rintro (h1 | ⟨n, h1, h2⟩)
    · exact .inl h1
    · exact .inr ⟨n, h1, (sensitivity_mem h (hn n h1) x).1 h2⟩
  · rintro (h1 | ⟨n, h1, h2⟩)
    · exact .inl h1
    · exact .inr ⟨n, h1, (sensitivity_mem h (hn n h1) x).2 h2⟩

end

/-- The row of a source. -/
def sensRow (net : NetGraph) (files scopes names : List Str) (x : Nat × EdgeKind) :
    Except CliErr (Option (List Str)) :=
  match cliPasses scopes names ((net.data x.1).path.getD []) with
  | .error e => .error e
  | .ok false => .ok none
  | .ok true =>
    match optLocText files (net.data x.1).loc with
    | .error e => .error e
    | .ok l => .ok (some [(net.data x.1).path.getD (lit "(unnamed)"), x.2.text, l])

theorem sensRows_eq (net : NetGraph) (files scopes names : List Str) (xs : List (Nat × EdgeKind)) :
    sensRows net files scopes names xs = rowsM (sensRow net files scopes names) xs := by
  induction xs with
  | nil => rfl
  | cons x xs ih =>
    obtain ⟨n, k⟩ := x
    unfold sensRows rowsM
    generalize rowsM (sensRow net files scopes names) xs = R at ih ⊢
    unfold sensRow
    cases cliPasses scopes names ((net.data n).path.getD []) with
    | error e => rfl
    | ok b =>
      cases b with
      | false => exact ih
      | true =>
        dsimp only
        cases optLocText files (net.data n).loc with
        | error e => rfl
        | ok l =>
          simp only [bind, Except.bind, pure, Except.pure, ih, if_true]
          cases R <;> rfl

theorem sensRow_error {net : NetGraph} {files scopes names : List Str} {x : Nat × EdgeKind} {e : CliErr}
    (h : sensRow net files scopes names x = .error e) : e = .message := by
  unfold sensRow at h
  rw [cliPasses_ok] at h
  split at h
  · rename_i h1; cases h1
  · cases h
  · split at h
    · rename_i h1; cases h; exact loc_error h1
    · cases h

theorem sensRow_norm {net net' : NetGraph} (h : Joins net net') (files scopes names : List Str) :
    sensRow net' files scopes names = sensRow net files scopes names := by
  funext n
  simp only [sensRow, h.data, norm_path, norm_loc]

/-- Found nodes are nodes. -/
theorem find_mem {net : NetGraph} {m : Str → Bool} {n : Nat} (h : n ∈ Session.findNodes ⟨net, none⟩ m) :
    n ∈ net.g.nodes := by
  have := ((lookup_exact_partial ⟨net, none⟩ (.inl rfl)).2.2 m).mem_iff.1 h
  exact (List.mem_filter.1 this).1

/-- Every report of alike netlists is the same. -/
theorem alike_report (rx : Str → Str → Bool) {net net' : NetGraph} (h : Alike net net')
    (files scopes names : List Str) (a : Action) :
    SameReport (runAction rx ⟨net, none⟩ files scopes names a) (runAction rx ⟨net', none⟩ files scopes names a) ∧
      (¬ ByInEdges a →
        runAction rx ⟨net', none⟩ files scopes names a = runAction rx ⟨net, none⟩ files scopes names a) := by
  have exact_ : ∀ {r r' : Except CliErr Report}, r' = r → SameReport r r' ∧ (¬ ByInEdges a → r' = r) := by
    rintro r r' rfl; exact ⟨same_refl _, fun _ => rfl⟩
  cases a with
  | registers => exact exact_ (by simp only [runAction, h.nodes, registerRows_norm h.joins])
  | find p => exact exact_ (by simp only [runAction, findNodes_norm h.joins, findRows_norm h.joins])
  | findRegex p => exact exact_ (by simp only [runAction, findNodes_norm h.joins, findRows_norm h.joins])
  | fanOut name =>
    refine exact_ ?_
    simp only [runAction, require_norm h.joins, fanOut_norm h, coneRows_eq, coneRow_norm h.joins]
  | noAction => exact exact_ rfl
  | loops => exact exact_ (by simp only [runAction, loops_norm h, reportLoops_norm h])
  | dot file scope =>
    refine exact_ ?_
    have same : ∀ F : Option (List Nat), renderDot net' F = renderDot net F := fun F => dot_norm h fun _ => rfl
    cases scope with
    | all => simp only [runAction, scopeNodes, same]
    | fanOut m => simp only [runAction, scopeNodes, require_norm h.joins, fanOut_norm h, same]
    | path a b => simp only [runAction, scopeNodes, require_norm h.joins, requirePath, findPath_norm h, same]
    | fanIn m =>
      simp only [runAction, scopeNodes, require_norm h.joins]
      cases hm : requireNode ⟨net, none⟩ m with
      | error e => rfl
      | ok n =>
        have : renderDot net' (some (n :: combFanIn net' n)) = renderDot net (some (n :: combFanIn net n)) := by
          refine dot_norm h fun k => ?_
          have hp := (fanIn_perm h.joins (require_mem hm)).mem_iff (a := k)
          simp only [dotIncluded, List.contains_eq_mem, List.mem_cons, hp]
        simp only [bind, Except.bind, pure, Except.pure, this]
  | drivers spec =>
    refine exact_ ?_
    have hd : ∀ name r, getBitDrivers net' name r = getBitDrivers net name r := drivers_norm h
    have ha : ∀ name, getBitDriversAll net' name = getBitDriversAll net name := fun name => hd name _
    simp only [runAction, require_norm h.joins, driverRows_norm h, hd, ha]
  | path a b =>
    refine exact_ ?_
    simp only [runAction, require_norm h.joins, requirePath, findPath_norm h, reportPath_norm h]
  | fanIn name => exact ⟨joins_report rx h.joins files scopes names trivial, fun k => (k trivial).elim⟩
  | constants name => exact ⟨joins_report rx h.joins files scopes names trivial, fun k => (k trivial).elim⟩
  | sensitivity name =>
    refine ⟨?_, fun k => (k trivial).elim⟩
    simp only [runAction, findNodes_norm h.joins]
    have hm : ∀ n ∈ Session.findNodes ⟨net, none⟩ (globName name), n ∈ net.g.nodes := fun n => find_mem
    split
    · exact same_refl _
    · rename_i n ns e
      rw [e] at hm
      refine same_table ?_
      rw [sensRows_eq, sensRows_eq, sensRow_norm h.joins]
      exact rowsM_perm (fun _ _ _ => sensRow_error) (aggregate_perm h hm)

/-! ### A loaded netlist -/

/-- The text of a constant that survives. -/
theorem norm_consts {c : ConstCodec} {d : NodeData} (h : ∀ v w l, d = .constant v w l → readBack c v = v) :
    normData (readBack c) d = normData (fun v => v) d := by
  cases d <;> simp only [normData]
  rw [h _ _ _ rfl]

section
variable {net : NetGraph} {c : ConstCodec} {files : List Str} {st : LoadSt}

theorem loaded_next (ht : Tidy net) (hl : Tidy st.net) (hn : st.net.g.nodes = List.range net.g.nodes.length) :
    st.net.g.nextNode = net.g.nextNode ∧ st.net.g.nodes = net.g.nodes := by
  rw [ht.nodes, List.length_range] at hn
  have := congrArg List.length (hl.nodes.symm.trans hn)
  simp only [List.length_range] at this
  exact ⟨this, hn.trans ht.nodes.symm⟩

theorem loaded_data (ht : Tidy net) (hl : Tidy st.net) (hn : st.net.g.nodes = List.range net.g.nodes.length)
    (hc : ConstsKept c net) (hd : ∀ i n, net.g.nodes[i]? = some n → st.net.data i = normData (readBack c) (net.data n))
    (n : Nat) : st.net.data n = normData (fun v => v) (net.data n) := by
  obtain ⟨h1, _⟩ := loaded_next ht hl hn
  by_cases hm : n < net.g.nextNode
  · have hi : net.g.nodes[n]? = some n := by rw [ht.nodes]; simp [hm]
    rw [hd n n hi]
    exact norm_consts (hc n (List.mem_of_getElem? hi))
  · rw [ht.data n (by omega), hl.data n (by omega)]; rfl

theorem range_idxOf {k t : Nat} (h : t < k) : (List.range k).idxOf t = t := by
  have hg : (List.range k)[t]'(by simpa using h) = t := by simp
  conv => lhs; rw [← hg]
  exact List.nodup_range.idxOf_getElem _ _

/-- The out-edges of a tidy netlist. -/
theorem tidy_view {net : NetGraph} (ht : Tidy net) (hr : Reachable net) (n : Nat) :
    outView net n = (net.g.obj n).outE.map fun e => (e.tgt, net.attr e.id) := by
  unfold outView
  refine List.map_congr_left fun e he => ?_
  have := ((reachable_wf hr).out n e he).2.2
  rw [ht.nodes] at this ⊢
  rw [range_idxOf (List.mem_range.1 this)]

theorem out_outside {net : NetGraph} (hr : Reachable net) {n : Nat} (hn : n ∉ net.g.nodes) :
    (net.g.obj n).outE = [] := by
  refine List.eq_nil_iff_forall_not_mem.2 fun e he => hn ?_
  exact ((reachable_wf hr).out n e he).2.1

theorem load_alike (hr : Reachable net) (ht : Tidy net) (hs : Savable net) (hf : files.Nodup) (hp : NoParallel net)
    (hc : ConstsKept c net) :
    ∃ st, load c (save net files) = .ok st ∧ st.files = files ∧ st.net.blackBoxes = net.blackBoxes ∧
      Alike net st.net := by
  obtain ⟨st, h1, hr', h2, h3, h4, h5⟩ := save_load_partial c hr (tidy_unique ht) hs hf
  obtain ⟨st', g1, _, _, _, g5⟩ := save_load_simple c hr (tidy_unique ht) hs hf hp
  rw [h1] at g1
  cases g1
  have hl := load_tidy h1
  obtain ⟨n1, n2⟩ := loaded_next ht hl h4
  refine ⟨st, h1, h2, h3, hr, hr', n2, ?_, loaded_data ht hl h4 hc fun i n hi => (h5 i n hi).1, fun n => ?_⟩
  · funext n
    rw [ht.ids, hl.ids, n1]
  · by_cases hn : n ∈ net.g.nodes
    · have hi : net.g.nodes[n]? = some n := by
        rw [ht.nodes] at hn ⊢; simp [List.mem_range.1 hn]
      have hv := (g5 n n hi).2
      rw [tidy_view hl hr', tidy_view ht hr, List.map_map] at hv
      have a1 : (st.net.g.obj n).outE.map (seen st.net) =
          ((st.net.g.obj n).outE.map fun e => (e.tgt, st.net.attr e.id)).map fun x => (n, x.1, x.2) := by
        rw [List.map_map]
        refine List.map_congr_left fun e he => ?_
        simp only [seen, Function.comp, ((reachable_wf hr').out n e he).1]
      have a2 : (net.g.obj n).outE.map (seenNorm net) =
          ((net.g.obj n).outE.map ((fun x => (x.1, normAttr x.2)) ∘ fun e => (e.tgt, net.attr e.id))).map
            fun x => (n, x.1, x.2) := by
        rw [List.map_map]
        refine List.map_congr_left fun e he => ?_
        simp only [seenNorm, Function.comp, ((reachable_wf hr).out n e he).1]
      rw [a1, a2, hv]
    · rw [out_outside hr hn, out_outside hr' (by rw [n2]; exact hn)]
      rfl

theorem mergePar_mem {l : List (Nat × EdgeAttr)} {x : Nat × EdgeAttr} (h : x ∈ mergePar l) :
    ∃ y ∈ l, y.1 = x.1 ∧ y.2 = x.2 := by
  induction l with
  | nil => cases h
  | cons a l ih =>
    obtain ⟨t, a⟩ := a
    simp only [mergePar, List.mem_cons] at h
    rcases h with h | h
    · subst h
      cases hf : l.reverse.find? fun x => x.1 == t with
      | none => exact ⟨(t, a), List.mem_cons_self, rfl, by simp⟩
      | some y =>
        have hm := List.mem_of_find?_eq_some hf
        have hq := List.find?_some hf
        exact ⟨y, List.mem_cons_of_mem _ (List.mem_reverse.1 hm), by simpa using hq, by simp⟩
    · obtain ⟨y, hy, h1⟩ := ih (List.mem_filter.1 h).1
      exact ⟨y, List.mem_cons_of_mem _ hy, h1⟩

theorem load_joins (hr : Reachable net) (ht : Tidy net) (hs : Savable net) (hf : files.Nodup)
    (hd : ∀ e, (net.attr e).disabled = false) (hc : ConstsKept c net) :
    ∃ st, load c (save net files) = .ok st ∧ st.files = files ∧ st.net.blackBoxes = net.blackBoxes ∧
      Joins net st.net := by
  obtain ⟨st, h1, hr', h2, h3, h4, h5⟩ := save_load_partial c hr (tidy_unique ht) hs hf
  have hl := load_tidy h1
  obtain ⟨n1, n2⟩ := loaded_next ht hl h4
  have view : ∀ n ∈ net.g.nodes, ((st.net.g.obj n).outE.map fun e => (e.tgt, st.net.attr e.id)) =
      mergePar ((net.g.obj n).outE.map fun e => (e.tgt, normAttr (net.attr e.id))) := by
    intro n hn
    have hi : net.g.nodes[n]? = some n := by
      rw [ht.nodes] at hn ⊢; simp [List.mem_range.1 hn]
    have hv := (h5 n n hi).2
    rw [tidy_view hl hr', tidy_view ht hr, List.map_map] at hv
    exact hv
  have back : ∀ n, ∀ e' ∈ (st.net.g.obj n).outE, ∃ e ∈ (net.g.obj n).outE, e.tgt = e'.tgt ∧
      (st.net.attr e'.id).disabled = false := by
    intro n e' he'
    have hn : n ∈ net.g.nodes := by rw [← n2]; exact ((reachable_wf hr').out n e' he').2.1
    have hm : (e'.tgt, st.net.attr e'.id) ∈ mergePar ((net.g.obj n).outE.map fun e => (e.tgt, normAttr (net.attr e.id))) := by
      rw [← view n hn]; exact List.mem_map.2 ⟨e', he', rfl⟩
    obtain ⟨y, hy, y1, y2⟩ := mergePar_mem hm
    obtain ⟨e, he, rfl⟩ := List.mem_map.1 hy
    dsimp only at y1 y2
    exact ⟨e, he, y1, by rw [← y2]; exact hd e.id⟩
  have forth : ∀ n, ∀ e ∈ (net.g.obj n).outE, ∃ e' ∈ (st.net.g.obj n).outE, e'.tgt = e.tgt := by
    intro n e he
    have hn : n ∈ net.g.nodes := ((reachable_wf hr).out n e he).2.1
    have hk := mergePar_keys ((net.g.obj n).outE.map fun e => (e.tgt, normAttr (net.attr e.id))) e.tgt
    rw [← view n hn] at hk
    have : ((net.g.obj n).outE.map fun e => (e.tgt, normAttr (net.attr e.id))).any (fun x => x.1 == e.tgt) = true :=
      List.any_eq_true.2 ⟨_, List.mem_map.2 ⟨e, he, rfl⟩, by simp⟩
    rw [this] at hk
    obtain ⟨x, hx, hx2⟩ := List.any_eq_true.1 hk
    obtain ⟨e', he', rfl⟩ := List.mem_map.1 hx
    exact ⟨e', he', by simpa using hx2⟩
  refine ⟨st, h1, h2, h3, hr, hr', n2, loaded_data ht hl h4 hc fun i n hi => (h5 i n hi).1, fun a b => ?_, fun a b => ?_⟩
  · unfold Step
    rw [n2]
    constructor
    · rintro ⟨ha, e, he, rfl, _⟩
      obtain ⟨e', he', k1, _⟩ := back a e he
      exact ⟨ha, e', he', k1, hd _⟩
    · rintro ⟨ha, e, he, rfl, _⟩
      obtain ⟨e', he', k1⟩ := forth a e he
      obtain ⟨_, _, _, k2⟩ := back a e' he'
      exact ⟨ha, e', he', k1, k2⟩
  · constructor
    · rintro ⟨e, he, rfl⟩
      obtain ⟨e', he', k1, _⟩ := back a e he
      exact ⟨e', he', k1⟩
    · rintro ⟨e, he, rfl⟩
      obtain ⟨e', he', k1⟩ := forth a e he
      exact ⟨e', he', k1⟩
end

end Verif.Proofs
