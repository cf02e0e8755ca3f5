import Verif.Props.Elab

/-! C73: the netlist of a text of signals, without undefined behaviour. -/
namespace Verif.Props
open Verif.Model Verif.Spec Verif.Proofs

/-- Texts that the analysis can look at are built as what it sees of them. -/
theorem runTexts_of {S : SynEnv} {place : TextLoc → Nat → TextLoc} {ord : Tracker → List (Nat × Nat)}
    {text : Deferred → SDeferred} : ∀ {bs : List Deferred} {s : Bld},
    (∀ b ∈ bs, ∃ b', elabBlock S place (text b) = .ok b') →
    s.runTexts S place ord (bs.map text) = s.runBlocks S.T.D ord (bs.map (seen S place text))
  | [], _, _ => rfl
  | b :: bs, s, h => by
    obtain ⟨b', hb⟩ := h b (by simp)
    have hs : seen S place text b = b' := by simp only [seen, hb]
    simp only [List.map_cons, Bld.runTexts, Bld.runBlocks, hb, hs]
    cases s.handleBlock S.T.D ord b' with
    | error e => rfl
    | ok s' => exact runTexts_of fun b hb => h b (by simp [hb])

/-- C73. If both sides of every assignment follow the width rules and select from signals, the analysis can
look at every block, and the netlist of the text is that of the design it sees; if that design can be built,
there is one. Missing: assignments that select from something that has no symbol, such as the result of a
call, on which the aligned walk dereferences a null pointer (`rootless_select`). -/
theorem text_total_partial {E : TravEnv} {auto : Nat → Bool} {place : TextLoc → Nat → TextLoc}
    {boxed : Str → Str → Bool} {ord : Tracker → List (Nat × Nat)} {src : SrcDesign} {c : Col}
    (hc : phase1 E src.tree = .ok c)
    (hl : ∀ b ∈ blocksOf (eventsAll boxed E.opts.propCuts src.tree),
      Legal ⟨E, c.synCuts E, auto⟩ (SDeferred.stmt (src.text b)))
    (hb : Buildable E boxed ord (seenAll ⟨E, c.synCuts E, auto⟩ place src)) :
    (∀ b ∈ blocksOf (eventsAll boxed E.opts.propCuts src.tree), ∃ b',
      elabBlock ⟨E, c.synCuts E, auto⟩ place (src.text b) = .ok b') ∧
    ∃ net, netlistOf E auto place ord src = .ok net ∧
      netlist E ord (seenAll ⟨E, c.synCuts E, auto⟩ place src) = .ok net := by
  have htree : Elaborated E boxed src.tree := elaborated_with hb.design
  obtain ⟨c2, a1, a2, a3⟩ := walked htree
  rw [hc] at a1
  cases a1
  have hcuts : CutsOk (c.synCuts E) := by
    unfold Col.synCuts
    split
    · exact a3.fine.cuts
    · intro x l h; cases h
  have hel : ∀ b ∈ blocksOf (eventsAll boxed E.opts.propCuts src.tree), ∃ b',
      elabBlock ⟨E, c.synCuts E, auto⟩ place (src.text b) = .ok b' :=
    fun b hb => elabBlock_total (S := ⟨E, c.synCuts E, auto⟩) hcuts place (hl b hb)
  refine ⟨hel, ?_⟩
  obtain ⟨c', s, net, h1, h2, _, h4, h5, _⟩ := netlist_total_partial hb
  refine ⟨net, ?_, h5⟩
  have hc' : swapCol (seen ⟨E, c.synCuts E, auto⟩ place src.text) c = c' := by
    rw [seenAll, swap_phase1, hc] at h1
    exact Except.ok.inj h1
  subst hc'
  have hs : c.start = .ok s := h2
  have hbl : ∀ b ∈ c.blocks, ∃ b', elabBlock ⟨E, c.synCuts E, auto⟩ place (src.text b) = .ok b' := by
    intro b hb
    rw [a3.blocks] at hb
    exact hel b hb
  simp only [netlistOf, hc, hs, runTexts_of hbl]
  exact h4

/-! ### Concrete cases -/

/-- The nibble swap of `txSrc`. -/
example : ∃ net, netlistOf hdE (fun _ => false) atLoc Tracker.slots (moveDesign id txSrc) = .ok net := by
  obtain ⟨_, net, h, _⟩ := text_total_partial (boxed := hdBoxed) (src := moveDesign id txSrc) (c := txCol) (auto := fun _ => false)
    (place := atLoc) (ord := Tracker.slots) tx_phase1 (by
      intro b hb
      rw [tx_env]
      have hb : b ∈ blocksOf (eventsAll hdBoxed hdE.opts.propCuts (txTop (txK 1) (txK 2))) := hb
      rw [tx_events, tx_blocks] at hb
      simp at hb
      rcases hb with rfl | rfl <;>
        simp [moveDesign, txSrc, txText, txK, txAt, txOne, txTwo, moveTextBlock, moveText, SDeferred.stmt, Legal, WT,
          WTs, Rooted, RootedOps, hdWhole, txSwap, SExpr.width])
    (by rw [tx_seen_at]; exact tx_build)
  exact ⟨net, h⟩

/-- A select from the result of a call, `b = f(a)[7:0]`, at line 2. -/
def rlAsg : SAsg := { loc := txAt 2, origin := txAt 2, lhs := hdWhole 1, rhs := .lsp 8 ⟨none, 0, 7⟩ [] }

/-- The code violates the property without the assumption on selects: the bits selected from the result of a
call are given to the aligned walk as those of a signal, whose symbol is then dereferenced though there is
none; the walk that does not resolve bits skips the same select. -/
theorem rootless_select (r : Bool) (S : SynEnv) (h : S.T.opts.resolveBits = r) (hc : S.cuts = fun _ => none) :
    WT S.cuts rlAsg.lhs ∧ WT S.cuts rlAsg.rhs ∧ rlAsg.lhs.width = rlAsg.rhs.width ∧
    elabAsg S atLoc rlAsg = if r then .error .oob else .ok (.legacy (notesOf S true rlAsg.lhs)) := by
  obtain ⟨T, cuts, auto⟩ := S
  simp only at hc h
  subst hc
  refine ⟨by simp [rlAsg, hdWhole, WT], by simp [rlAsg, WT], rfl, ?_⟩
  cases r
  · simp only [elabAsg, h]
    simp [rlAsg, assignWalk, notesOf, SynEnv.note, notesAll]
  · simp only [elabAsg, h]
    rfl

/-! ### Assignments taken as a whole -/

mutual
theorem notes_of_reads {S : SynEnv} : ∀ (e : SExpr), ∀ n ∈ notesOf S false e, ∃ p ∈ e.paths, ∃ x,
    p.root = some x ∧ n = ⟨false, S.ref x p ⟨p.lo, p.hi⟩⟩
  | .lsp w p sels, n, h => by
    simp only [notesOf, List.mem_append, SynEnv.note, Option.mem_toList, Option.mem_def,
      Option.map_eq_some_iff] at h
    rcases h with h | ⟨x, hx, rfl⟩
    · obtain ⟨q, hq, h⟩ := notes_of_reads_list sels n h
      exact ⟨q, by simp [SExpr.paths, hq], h⟩
    · exact ⟨p, by simp [SExpr.paths], x, hx, rfl⟩
  | .concat w ops, n, h => by
    simp only [notesOf] at h
    simpa only [SExpr.paths] using notes_of_reads_list ops n h
  | .repl w c inner, n, h => by
    simp only [notesOf] at h
    simpa only [SExpr.paths] using notes_of_reads inner n h
  | .conv w s f inner, n, h => by
    simp only [notesOf] at h
    simpa only [SExpr.paths] using notes_of_reads inner n h
  | .condOp w k pt more c l r, n, h => by
    simp only [notesOf, List.mem_append, List.mem_filterMap, SynEnv.note, Option.map_eq_some_iff] at h
    simp only [SExpr.paths, List.mem_append]
    rcases h with ((h | ⟨p, hp, x, hx, rfl⟩) | h) | h
    · obtain ⟨q, hq, h⟩ := notes_of_reads c n h; exact ⟨q, by simp [hq], h⟩
    · exact ⟨p, by simp [hp], x, hx, rfl⟩
    · obtain ⟨q, hq, h⟩ := notes_of_reads l n h; exact ⟨q, by simp [hq], h⟩
    · obtain ⟨q, hq, h⟩ := notes_of_reads r n h; exact ⟨q, by simp [hq], h⟩
  | .other w f reads, n, h => by
    simp only [notesOf, List.mem_filterMap, SynEnv.note, Option.map_eq_some_iff] at h
    obtain ⟨p, hp, x, hx, rfl⟩ := h
    exact ⟨p, by simpa only [SExpr.paths] using hp, x, hx, rfl⟩

theorem notes_of_reads_list {S : SynEnv} : ∀ (es : List SExpr), ∀ n ∈ notesAll S false es, ∃ p ∈ pathsList es, ∃ x,
    p.root = some x ∧ n = ⟨false, S.ref x p ⟨p.lo, p.hi⟩⟩
  | [], _, h => by simp [notesAll] at h
  | e :: es, n, h => by
    simp only [notesAll, List.mem_append] at h
    simp only [pathsList, List.mem_append]
    rcases h with h | h
    · obtain ⟨q, hq, h⟩ := notes_of_reads e n h; exact ⟨q, .inl hq, h⟩
    · obtain ⟨q, hq, h⟩ := notes_of_reads_list es n h; exact ⟨q, .inr hq, h⟩
end

theorem read_notes_iff {S : SynEnv} (es : List SExpr) (n : Note) : n ∈ notesAll S false es ↔ ∃ p ∈ pathsList es, ∃ x,
    p.root = some x ∧ n = ⟨false, S.ref x p ⟨p.lo, p.hi⟩⟩ := by
  refine ⟨notes_of_reads_list es n, ?_⟩
  rintro ⟨p, hp, x, hx, rfl⟩
  exact notes_pathsList es p x hp hx

mutual
theorem left_notes_iff {S : SynEnv} (w : Bool) : ∀ (e : SExpr), Lvalue e → ∀ n, n ∈ notesOf S w e ↔ ∃ p x, p.root = some x ∧
    ((Target e p ∧ n = ⟨w, S.ref x p ⟨p.lo, p.hi⟩⟩) ∨ (Index e p ∧ n = ⟨false, S.ref x p ⟨p.lo, p.hi⟩⟩))
  | .lsp v q sels, _, n => by
    simp only [notesOf, List.mem_append, SynEnv.note, Option.mem_toList, Option.mem_def, Option.map_eq_some_iff,
      read_notes_iff, Target, Index]
    constructor
    · rintro (⟨p, hp, x, hx, rfl⟩ | ⟨x, hx, rfl⟩)
      · exact ⟨p, x, hx, .inr ⟨hp, rfl⟩⟩
      · exact ⟨q, x, hx, .inl ⟨rfl, rfl⟩⟩
    · rintro ⟨p, x, hx, ⟨rfl, rfl⟩ | ⟨hp, rfl⟩⟩
      · exact .inr ⟨x, hx, rfl⟩
      · exact .inl ⟨p, hp, x, hx, rfl⟩
  | .concat v ops, h, n => by
    simp only [Lvalue] at h
    simp only [notesOf, Target, Index]
    exact left_notes_list w ops h n
  | .repl .., h, _ | .conv .., h, _ | .condOp .., h, _ | .other .., h, _ => absurd h (by simp [Lvalue])

theorem left_notes_list {S : SynEnv} (w : Bool) : ∀ (es : List SExpr), LvalueOps es → ∀ n, n ∈ notesAll S w es ↔
    ∃ p x, p.root = some x ∧ ((TargetOps es p ∧ n = ⟨w, S.ref x p ⟨p.lo, p.hi⟩⟩) ∨
      (IndexOps es p ∧ n = ⟨false, S.ref x p ⟨p.lo, p.hi⟩⟩))
  | [], _, n => by simp [notesAll, TargetOps, IndexOps]
  | e :: es, h, n => by
    simp only [LvalueOps] at h
    have h1 := left_notes_iff (S := S) w e h.1 n
    have h2 := left_notes_list (S := S) w es h.2 n
    simp only [notesAll, List.mem_append, TargetOps, IndexOps, h1, h2]
    constructor
    · rintro (⟨p, x, hx, ⟨h, rfl⟩ | ⟨h, rfl⟩⟩ | ⟨p, x, hx, ⟨h, rfl⟩ | ⟨h, rfl⟩⟩)
      · exact ⟨p, x, hx, .inl ⟨.inl h, rfl⟩⟩
      · exact ⟨p, x, hx, .inr ⟨.inl h, rfl⟩⟩
      · exact ⟨p, x, hx, .inl ⟨.inr h, rfl⟩⟩
      · exact ⟨p, x, hx, .inr ⟨.inr h, rfl⟩⟩
    · rintro ⟨p, x, hx, ⟨h | h, rfl⟩ | ⟨h | h, rfl⟩⟩
      · exact .inl ⟨p, x, hx, .inl ⟨h, rfl⟩⟩
      · exact .inr ⟨p, x, hx, .inl ⟨h, rfl⟩⟩
      · exact .inl ⟨p, x, hx, .inr ⟨h, rfl⟩⟩
      · exact .inr ⟨p, x, hx, .inr ⟨h, rfl⟩⟩
end

/-- C74. An assignment taken as a whole (bits are not resolved, a side is not integral, or the widths differ)
that is not in a `force` statement: the paths noted as written are those its left side assigns, and those
noted as read stand in selectors of the left side or, unless it is an output argument, anywhere in the right
side; each with its full bounds. -/
theorem whole_assignment_exact {S : SynEnv} {place : TextLoc → Nat → TextLoc} {a : SAsg} {ns : List Note}
    (h : elabAsg S place a = .ok (.legacy ns)) (hl : Lvalue a.lhs) (hf : a.force = false) (n : Note) :
    n ∈ ns ↔ ∃ p x, p.root = some x ∧ n.ref = ⟨x, ⟨p.lo, p.hi⟩, S.T.lspId p, S.auto x⟩ ∧
      if n.write then Target a.lhs p else Index a.lhs p ∨ a.lvalueArg = false ∧ p ∈ a.rhs.paths := by
  have hns : ns = notesOf S true a.lhs ++ if a.lvalueArg then [] else notesOf S false a.rhs := by
    unfold elabAsg at h
    split at h
    · cases h; simp [hf]
    · cases h
    · cases h
    · split at h <;> cases h
  subst hns
  rw [List.mem_append, left_notes_iff true a.lhs hl n]
  constructor
  · rintro (⟨p, x, hx, ⟨h, rfl⟩ | ⟨h, rfl⟩⟩ | h)
    · exact ⟨p, x, hx, rfl, by simpa using h⟩
    · exact ⟨p, x, hx, rfl, by simp [h]⟩
    · cases hv : a.lvalueArg
      · rw [hv] at h
        obtain ⟨p, hp, x, hx, rfl⟩ := notes_of_reads a.rhs n (by simpa using h)
        exact ⟨p, x, hx, rfl, by simp [hp]⟩
      · rw [hv] at h; simp at h
  · rintro ⟨p, x, hx, hr, h⟩
    obtain ⟨w, r⟩ := n
    simp only at hr
    subst hr
    cases w
    · simp only [Bool.false_eq_true, if_false] at h
      rcases h with h | ⟨h1, h2⟩
      · exact .inl ⟨p, x, hx, .inr ⟨h, rfl⟩⟩
      · refine .inr ?_
        rw [h1]
        exact notes_paths a.rhs p x h2 hx
    · exact .inl ⟨p, x, hx, .inl ⟨by simpa using h, rfl⟩⟩

/-- `{y[i], z} = b` with `i` a signal. -/
def waAsg : SAsg :=
  { loc := txAt 1, origin := txAt 1, integral := false, rhs := .lsp 2 ⟨some 4, 0, 1⟩ [],
    lhs := .concat 2 [.lsp 1 ⟨some 1, 0, 7⟩ [.lsp 3 ⟨some 2, 0, 2⟩ []], .lsp 1 ⟨some 3, 0, 0⟩ []] }

/-- `y` and `z` are written, `i` and `b` read. -/
example (S : SynEnv) : Lvalue waAsg.lhs ∧ ∃ ns, elabAsg S atLoc waAsg = .ok (.legacy ns) ∧
    ns.map (fun n => (n.write, n.ref.sym)) = [(false, 2), (true, 1), (true, 3), (false, 4)] := by
  refine ⟨by simp [waAsg, Lvalue, LvalueOps],
    notesOf S true waAsg.lhs ++ notesOf S false waAsg.rhs, ?_, by simp [waAsg, notesOf, notesAll, SynEnv.note, SynEnv.ref]⟩
  simp only [elabAsg, assignWalk]
  simp [waAsg]

/-- `force b = a`. -/
def foAsg : SAsg := { loc := txAt 1, origin := txAt 1, force := true, lhs := hdWhole 1, rhs := hdWhole 0 }

/-- The code disagrees with itself on `force` statements: the walk that takes the assignment as a whole
notes the target as read, the aligned walk notes nothing for it. -/
theorem force_reads_target (S : SynEnv) (r : Bool) (h : S.T.opts.resolveBits = r) (hc : S.cuts = fun _ => none) :
    elabAsg S atLoc foAsg =
      .ok (if r then .aligned [⟨[], [.lsp ⟨0, ⟨0, 7⟩, S.T.lspId ⟨some 0, 0, 7⟩, S.auto 0⟩], txAt 1⟩]
        else .legacy [⟨false, ⟨1, ⟨0, 7⟩, S.T.lspId ⟨some 1, 0, 7⟩, S.auto 1⟩⟩,
          ⟨false, ⟨0, ⟨0, 7⟩, S.T.lspId ⟨some 0, 0, 7⟩, S.auto 0⟩⟩]) := by
  obtain ⟨T, cuts, auto⟩ := S
  simp only at hc h
  subst hc
  cases r <;> simp only [elabAsg, h] <;> rfl

end Verif.Props
