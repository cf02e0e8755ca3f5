import Verif.Proofs.Serial

/-! C40, C41, C49: saving and loading a netlist. -/
set_option linter.unusedSimpArgs false
namespace Verif.Props
open Verif.Spec Verif.Model Verif.Proofs

/-! ### C49 -/

/-- C49: every node kind, edge kind and direction is read back from its name. -/
theorem names_round_trip :
    (∀ k, kindOf (kindName k) = k) ∧ (∀ k, edgeOf (edgeName k) = k) ∧
    (∀ d, dirOf (dirName d) = d) :=
  ⟨kindOf_name, edgeOf_name, dirOf_name⟩

/-- C49: distinct values have distinct names. -/
theorem names_distinct :
    (∀ k l, kindName k = kindName l → k = l) ∧ (∀ k l, edgeName k = edgeName l → k = l) ∧
    (∀ d e, dirName d = dirName e → d = e) :=
  ⟨fun k l h => by rw [← kindOf_name k, h, kindOf_name],
    fun k l h => by rw [← edgeOf_name k, h, edgeOf_name],
    fun k l h => by rw [← dirOf_name k, h, dirOf_name]⟩

/-- C49: any other text is read as the default: a bare node, no edge kind, an input. -/
theorem unknown_names (s : Str) :
    ((∀ k, s ≠ kindName k) → kindOf s = .none) ∧ ((∀ k, s ≠ edgeName k) → edgeOf s = .none) ∧
    ((∀ d, s ≠ dirName d) → dirOf s = .input) := by
  refine ⟨?_, ?_, ?_⟩
  · intro h
    cases hk : kindOf s with
    | none => rfl
    | _ => exact absurd ((kindOf_eq (by simp)).1 hk) (h _)
  · intro h
    unfold edgeOf
    have h1 := h .posEdge
    have h2 := h .negEdge
    have h3 := h .bothEdges
    simp only [edgeName] at h1 h2 h3
    rw [if_neg h1, if_neg h2, if_neg h3]
  · intro h
    unfold dirOf
    have h1 := h .output
    have h2 := h .inout
    have h3 := h .ref
    simp only [dirName] at h1 h2 h3
    rw [if_neg h1, if_neg h2, if_neg h3]

/-- Non-vacuity: a misspelt name is none of them. -/
example : (∀ k, ['p', 'o', 'r', 't'] ≠ kindName k) ∧ kindOf ['p', 'o', 'r', 't'] = .none := by
  refine ⟨fun k => ?_, by decide⟩
  cases k <;> decide

/-! ### C41 -/

/-- C41: loading succeeds exactly on well-formed files: an accepted version, every required member
present with the right type, and every edge between IDs that some node carries. -/
theorem load_ok_iff (c : ConstCodec) (j : Json) :
    (∃ st, load c j = .ok st) ↔ ∃ nodes edges, WellFormed j nodes edges := by
  constructor
  · rintro ⟨st, h⟩; exact load_wf h
  · rintro ⟨nodes, edges, h⟩
    obtain ⟨st, _, _, _, _, _, h, _⟩ := load_spec c h
    exact ⟨st, h⟩

/-- C41: no file makes an assertion of the graph fail while loading. -/
theorem load_never_asserts (c : ConstCodec) (j : Json) : load c j ≠ .error .assertion := load_na c j

theorem mem_putEdge (es : List (Nat × Nat × EdgeAttr)) (s t a b : Nat) (at' : EdgeAttr) :
    (∃ x, (a, b, x) ∈ putEdge es s t at') ↔ (∃ x, (a, b, x) ∈ es) ∨ (a = s ∧ b = t) := by
  unfold putEdge
  split
  · rename_i hany
    obtain ⟨y, hy, hp⟩ := List.any_eq_true.1 hany
    simp only [Bool.and_eq_true, beq_iff_eq] at hp
    simp only [List.mem_map]
    constructor
    · rintro ⟨x, z, hz, he⟩
      split at he
      · simp only [Prod.mk.injEq] at he; exact Or.inr ⟨he.1.symm, he.2.1.symm⟩
      · subst he; exact Or.inl ⟨x, hz⟩
    · rintro (⟨x, hx⟩ | ⟨rfl, rfl⟩)
      · by_cases h : a = s ∧ b = t
        · exact ⟨at', (a, b, x), hx, by simp [h]⟩
        · exact ⟨x, (a, b, x), hx, by simp [h]⟩
      · exact ⟨at', y, hy, by simp [hp]⟩
  · simp [exists_or]

theorem mem_foldl_putEdge (l es : List (Nat × Nat × EdgeAttr)) (a b : Nat) :
    (∃ x, (a, b, x) ∈ l.foldl (fun es x => putEdge es x.1 x.2.1 x.2.2) es) ↔
      (∃ x, (a, b, x) ∈ es) ∨ ∃ x, (a, b, x) ∈ l := by
  induction l generalizing es with
  | nil => simp
  | cons y l ih =>
    obtain ⟨s, t, at'⟩ := y
    simp only [List.foldl_cons]
    rw [ih, mem_putEdge]
    simp only [List.mem_cons, Prod.mk.injEq, exists_or]
    constructor
    · rintro ((h | h) | h)
      · exact Or.inl h
      · exact Or.inr (Or.inl ⟨at', h.1, h.2, rfl⟩)
      · exact Or.inr (Or.inr h)
    · rintro (h | ⟨x, h1, h2, h3⟩ | h)
      · exact Or.inl (Or.inl h)
      · exact Or.inl (Or.inr ⟨h1, h2⟩)
      · exact Or.inr h

theorem readEdge_ends {idMap : Nat → Option Nat} {syms syms' : List SymRef} {j : Json} {a b : Nat}
    {x : EdgeAttr} (h : readEdge idMap syms j = .ok (syms', a, b, x)) (p q : Nat) :
    (p = a ∧ q = b) ↔ ∃ s t, IdField j "source" s ∧ IdField j "target" t ∧ idMap s = some p ∧
      idMap t = some q := by
  have hid : ∀ k i, IdField j k i ↔ j.member k Json.getSize = .ok i := by
    intro k i
    rw [member_ok]; unfold IdField Has; simp only [getSize_ok]
  simp only [hid]
  unfold readEdge at h
  cases h1 : j.member "source" Json.getSize with
  | error e => simp [h1] at h
  | ok s =>
    cases h2 : j.member "target" Json.getSize with
    | error e => simp [h1, h2] at h
    | ok t =>
      simp only [h1, h2] at h
      cases h3 : idMap s with
      | none => simp [h3] at h
      | some a' =>
        cases h4 : idMap t with
        | none => simp [h3, h4] at h
        | some b' =>
          simp only [h3, h4] at h
          split at h
          · cases h
          · simp only [Except.ok.injEq, Prod.mk.injEq] at h
            obtain ⟨_, rfl, rfl, _⟩ := h
            constructor
            · rintro ⟨rfl, rfl⟩; exact ⟨s, t, rfl, rfl, h3, h4⟩
            · rintro ⟨s', t', e1, e2, e3, e4⟩
              cases e1; cases e2
              rw [h3] at e3; rw [h4] at e4
              cases e3; cases e4
              exact ⟨rfl, rfl⟩

theorem readEdges_mem {idMap : Nat → Option Nat} {syms syms' : List SymRef} {js : List Json}
    {l : List (Nat × Nat × EdgeAttr)} (h : readEdges idMap syms js = .ok (syms', l)) (p q : Nat) :
    (∃ x, (p, q, x) ∈ l) ↔ ∃ j ∈ js, ∃ s t, IdField j "source" s ∧ IdField j "target" t ∧
      idMap s = some p ∧ idMap t = some q := by
  induction js generalizing syms syms' l with
  | nil => simp only [readEdges, Except.ok.injEq, Prod.mk.injEq] at h; simp [← h.2]
  | cons j js ih =>
    simp only [readEdges] at h
    split at h
    · cases h
    · rename_i s1 y hy
      obtain ⟨a, b, x⟩ := y
      split at h
      · cases h
      · rename_i s2 xs hxs
        simp only [Except.ok.injEq, Prod.mk.injEq] at h
        obtain ⟨_, rfl⟩ := h
        simp only [List.mem_cons, Prod.mk.injEq, exists_or, exists_eq_or_imp]
        rw [ih hxs, ← readEdge_ends hy p q]
        refine or_congr ⟨?_, ?_⟩ Iff.rfl
        · rintro ⟨_, h1, h2, _⟩; exact ⟨h1, h2⟩
        · rintro ⟨h1, h2⟩; exact ⟨x, h1, h2, rfl⟩

theorem edges_of_built {st : LoadSt} {ds : List (Nat × NodeData)}
    {es : List (Nat × Nat × EdgeAttr)} (hb : Built st ds es) (n : Nat) :
    (st.net.g.obj n).outE.map (fun e => (e.tgt, st.net.attr e.id)) =
      (es.filter fun x => x.1 == n).map Prod.snd := by
  obtain ⟨A, hr, hi, hn, hnn, he, hu⟩ := hb.ex
  rw [hr.out, ← he, List.filter_map, List.map_map]
  rfl

theorem nodes_of_built {st : LoadSt} {ds : List (Nat × NodeData)}
    {es : List (Nat × Nat × EdgeAttr)} (hb : Built st ds es) :
    st.net.g.nodes = List.range ds.length := by
  obtain ⟨A, hr, hi, hn, hnn, he, hu⟩ := hb.ex
  rw [hr.nodes, hn]

/-- C41: in a loaded file, node `i` comes from entry `i`, and two nodes are joined by an edge exactly
when some edge entry names their IDs; an ID refers to the last node entry that carries it. -/
theorem load_edges_partial {c : ConstCodec} {j : Json} {st : LoadSt} (h : load c j = .ok st)
    {nodes edges : List Json} (hw : WellFormed j nodes edges) :
    st.net.g.nodes = List.range nodes.length ∧ Reachable st.net ∧
    ∀ a b, (∃ e ∈ (st.net.g.obj a).outE, e.tgt = b) ↔
      ∃ x ∈ edges, ∃ s t, IdField x "source" s ∧ IdField x "target" t ∧
        Carries nodes a s ∧ Carries nodes b t := by
  obtain ⟨st', files, boxes, ds, l, syms, h', _, _, hds, hl, hb, _, _⟩ := load_spec c hw
  rw [h] at h'
  cases h'
  have hlen : nodes.length = ds.length := by simpa using congrArg List.length hds
  refine ⟨by rw [nodes_of_built hb, hlen], hb.reach, fun a b => ?_⟩
  simp only [carries_iff hds]
  rw [← readEdges_mem hl a b]
  have h1 := mem_foldl_putEdge l [] a b
  simp only [List.not_mem_nil, exists_false, false_or] at h1
  rw [← h1]
  have h2 := edges_of_built hb a
  have h3 : ∀ x : Nat × EdgeAttr, x ∈ (st.net.g.obj a).outE.map
      (fun e => (e.tgt, st.net.attr e.id)) ↔ (a, x.1, x.2) ∈
        l.foldl (fun es x => putEdge es x.1 x.2.1 x.2.2) [] := by
    intro x
    rw [h2]
    simp only [List.mem_map, List.mem_filter, beq_iff_eq]
    constructor
    · rintro ⟨⟨p, q, y⟩, ⟨hm, rfl⟩, rfl⟩; exact hm
    · intro hm; exact ⟨_, ⟨hm, rfl⟩, rfl⟩
  constructor
  · rintro ⟨e, he, rfl⟩
    exact ⟨st.net.attr e.id, (h3 (e.tgt, st.net.attr e.id)).1 (List.mem_map.2 ⟨e, he, rfl⟩)⟩
  · rintro ⟨x, hx⟩
    obtain ⟨e, he, heq⟩ := List.mem_map.1 ((h3 (b, x)).2 hx)
    simp only [Prod.mk.injEq] at heq
    exact ⟨e, he, heq.1⟩

/-- A file with two nodes and an edge, with a chosen version. -/
def tinyFile (v : Json) : Json :=
  let loc : Json := .obj [("column", .int 1), ("fileIndex", .int 0), ("line", .int 2)]
  .obj [("edges", .arr [.obj [("bounds", .arr [.int 0, .int 3]), ("disabled", .bool false),
      ("edgeKind", .str ['N', 'o', 'n', 'e']), ("source", .int 7), ("symbol", .obj []),
      ("target", .int 9)]]),
    ("fileTable", .arr []),
    ("nodes", .arr [.obj [("id", .int 7), ("kind", .str ['C', 'a', 's', 'e']), ("location", loc)],
      .obj [("id", .int 9), ("kind", .str ['M', 'e', 'r', 'g', 'e'])]]),
    ("version", v)]

/-- Edges of the loaded graph, for samples. -/
def loadedEdges (r : Except LoadErr LoadSt) : Option (List (List (Nat × EdgeAttr))) :=
  match r with
  | .ok st => some (st.net.g.nodes.map fun n => outView st.net n)
  | .error _ => none

theorem ok_of_edges {r : Except LoadErr LoadSt} (h : loadedEdges r ≠ none) : ∃ st, r = .ok st := by
  cases r with
  | ok st => exact ⟨st, rfl⟩
  | error e => exact absurd rfl h

/-- Non-vacuity: the sample loads and its edge joins the two nodes. -/
example : loadedEdges (load ⟨some, []⟩ (tinyFile (.int 3))) =
    some [[(1, { bounds := ⟨0, 3⟩ })], []] := by decide

example : ∃ nodes edges, WellFormed (tinyFile (.int 3)) nodes edges := by
  rw [← load_ok_iff ⟨some, []⟩]
  exact ok_of_edges (by decide)

/-- C41: what the version check does establish: a file that loads has a version member that is 3
modulo 2^32, or a number with a fraction between 3 and 4. -/
theorem load_version_partial {c : ConstCodec} {j : Json} {st : LoadSt} (h : load c j = .ok st) :
    ∃ v, Member j "version" v ∧ ((∃ k : Int, v = .int (3 + k * 2 ^ 32)) ∨ v = .flt 3) := by
  obtain ⟨nodes, edges, ⟨v, hv, h3⟩, _⟩ := load_wf h
  refine ⟨v, hv, ?_⟩
  rcases h3 with ⟨k, hk, _⟩ | ⟨hk, _⟩ | ⟨_, hk⟩ | ⟨_, hk⟩
  · exact Or.inl ⟨k, hk⟩
  · exact Or.inr hk
  · cases hk
  · cases hk

/-- C41, disagreement: files with version 4294967299 or 3.5 are accepted, because the number is
converted to `int` before it is compared (source/NetlistSerializer.cpp:269-270). -/
theorem version_check_is_lossy :
    (∃ st, load ⟨some, []⟩ (tinyFile (.int 4294967299)) = .ok st) ∧
    (∃ st, load ⟨some, []⟩ (tinyFile (.flt 3)) = .ok st) ∧
    load ⟨some, []⟩ (tinyFile (.int 4)) = .error .version :=
  ⟨ok_of_edges (by decide), ok_of_edges (by decide), rfl⟩

/-! ### C40 -/

theorem loadFiles_back (pre l : List Str) (h : (pre ++ l).Nodup) :
    loadFiles pre (l.map .str) = .ok (pre ++ l) := by
  induction l generalizing pre with
  | nil => simp [loadFiles]
  | cons s l ih =>
    have hn : s ∉ pre := by
      intro hc
      exact (List.nodup_append.1 h).2.2 s hc s List.mem_cons_self rfl
    simp only [List.map_cons, loadFiles, Json.getStr, addFileSeq, hn, ↓reduceIte]
    rw [ih (pre ++ [s]) (by simpa using h)]
    simp

theorem loadBoxes_back (pre l : List Str) : loadBoxes pre (l.map .str) = .ok (pre ++ l) := by
  induction l generalizing pre with
  | nil => simp [loadBoxes]
  | cons s l ih =>
    simp only [List.map_cons, loadBoxes, Json.getStr]
    rw [ih (pre ++ [s])]
    simp

theorem loadNodes_back (c : ConstCodec) (l : List (Nat × NodeData))
    (hl : ∀ x ∈ l, x.1 < 2 ^ 64 ∧ DataFits x.2) :
    (l.map fun x => nodeJson x.1 x.2).map (nodeOf c) =
      (l.map fun x => (x.1, normData (readBack c) x.2)).map .ok := by
  rw [List.map_map, List.map_map]
  exact List.map_congr_left fun x hx => node_back c (hl x hx).1 (hl x hx).2

theorem idxOf_map_inj {α β : Type} [BEq α] [LawfulBEq α] [BEq β] [LawfulBEq β] {f : α → β}
    {l : List α} (h : ∀ a ∈ l, ∀ b ∈ l, f a = f b → a = b) {x : α} (hx : x ∈ l) :
    (l.map f).idxOf (f x) = l.idxOf x := by
  induction l with
  | nil => cases hx
  | cons a l ih =>
    simp only [List.map_cons, List.idxOf_cons]
    by_cases he : a = x
    · simp [he]
    · have h1 : f a ≠ f x := fun hc => he (h a List.mem_cons_self x hx hc)
      have h2 : x ∈ l := by
        rcases List.mem_cons.1 hx with h | h
        · exact absurd h.symm he
        · exact h
      have := ih (fun a ha b hb => h a (List.mem_cons_of_mem _ ha) b (List.mem_cons_of_mem _ hb)) h2
      rw [this, beq_eq_false_iff_ne.2 h1, beq_eq_false_iff_ne.2 he]

theorem filter_flatMap_nodup {l : List Nat} (hl : l.Nodup) (f : Nat → List (Nat × Nat × EdgeAttr))
    (hf : ∀ n ∈ l, ∀ x ∈ f n, x.1 = l.idxOf n) {i n : Nat} (hi : l[i]? = some n) :
    (l.flatMap f).filter (fun x => x.1 == i) = f n := by
  suffices H : ∀ (l : List Nat) (k : Nat), (∀ j m, l[j]? = some m → ∀ x ∈ f m, x.1 = k + j) →
      ∀ i n, l[i]? = some n → (l.flatMap f).filter (fun x => x.1 == k + i) = f n by
    have := H l 0 (fun j m hj x hx => by
      have hm : m ∈ l := List.mem_of_getElem? hj
      rw [hf m hm x hx]
      obtain ⟨h1, h2⟩ := List.getElem?_eq_some_iff.1 hj
      rw [← h2, hl.idxOf_getElem]; simp) i n hi
    simpa using this
  intro l
  induction l with
  | nil => intro k _ i n h; simp at h
  | cons a l ih =>
    intro k h i n hn
    simp only [List.flatMap_cons, List.filter_append]
    have htail : ∀ j m, l[j]? = some m → ∀ x ∈ f m, x.1 = (k + 1) + j := by
      intro j m hj x hx
      have := h (j + 1) m (by simpa using hj) x hx
      omega
    cases i with
    | zero =>
      simp only [List.getElem?_cons_zero, Option.some.injEq] at hn
      subst hn
      have h1 : (f a).filter (fun x => x.1 == k + 0) = f a := by
        rw [List.filter_eq_self]
        intro x hx
        simpa using h 0 a rfl x hx
      have h2 : (l.flatMap f).filter (fun x => x.1 == k + 0) = [] := by
        rw [List.filter_eq_nil_iff]
        intro x hx
        obtain ⟨m, hm, hx⟩ := List.mem_flatMap.1 hx
        obtain ⟨j, hj⟩ := List.getElem?_of_mem hm
        have := htail j m hj x hx
        simp; omega
      rw [h1, h2, List.append_nil]
    | succ i =>
      have h1 : (f a).filter (fun x => x.1 == k + (i + 1)) = [] := by
        rw [List.filter_eq_nil_iff]
        intro x hx
        have := h 0 a rfl x hx
        simp; omega
      have h2 := ih (k + 1) htail i n (by simpa using hn)
      rw [h1, List.nil_append, show k + (i + 1) = k + 1 + i by omega]
      exact h2

/-- C40: loading what was saved succeeds for every netlist whose numbers are those of the machine
types and whose symbols are determined by their path. The nodes come back in order with the same
data (ranges normalised, constants through the codec), each with the same out-edges in the same
order, except that parallel edges are merged; files and black boxes come back unchanged. -/
theorem save_load_partial (c : ConstCodec) {net : NetGraph} (hr : Reachable net)
    (hu : UniqueIds net) (hs : Savable net) {files : List Str} (hf : files.Nodup) :
    ∃ st, load c (save net files) = .ok st ∧ Reachable st.net ∧
      st.files = files ∧ st.net.blackBoxes = net.blackBoxes ∧
      st.net.g.nodes = List.range net.g.nodes.length ∧
      ∀ i n, net.g.nodes[i]? = some n →
        st.net.data i = normData (readBack c) (net.data n) ∧
        outView st.net i = mergePar ((outView net n).map fun x => (x.1, normAttr x.2)) := by
  have hwf := reachable_wf hr
  let ids := net.g.nodes.map net.id
  have hids : ids.Nodup := by
    rw [List.nodup_iff_pairwise_ne, List.pairwise_map]
    refine (List.Pairwise.imp_of_mem ?_ (List.nodup_iff_pairwise_ne.1 hwf.nodup))
    intro a b ha hb hab he
    exact hab (hu a ha b hb he)
  -- the edge entries, with the positions of their ends
  let es := net.g.nodes.flatMap fun n => (net.g.obj n).outE
  have hmem : ∀ e ∈ es, EdgeOf net e := by
    intro e he
    obtain ⟨n, hn, hx⟩ := List.mem_flatMap.1 he
    exact ⟨n, hn, hx⟩
  have hends : ∀ e ∈ es, e.src ∈ net.g.nodes ∧ e.tgt ∈ net.g.nodes := by
    intro e he
    obtain ⟨n, hn, hx⟩ := hmem e he
    obtain ⟨h1, h2, h3⟩ := hwf.out n e hx
    exact ⟨by rw [h1]; exact h2, h3⟩
  have hpos : ∀ n ∈ net.g.nodes, lastPos ids (net.id n) = some (net.g.nodes.idxOf n) := by
    intro n hn
    rw [lastPos_nodup hids (List.mem_map_of_mem hn)]
    rw [idxOf_map_inj hu hn]
  obtain ⟨syms, hread⟩ := edges_back
    (S := fun s => ∃ e, EdgeOf net e ∧ (net.attr e.id).symbol = some s)
    (fun s t ⟨e, he, h1⟩ ⟨f, hf', h2⟩ h3 => hs.syms e f s t he hf' h1 h2 h3)
    es (fun e => net.id e.src) (fun e => net.id e.tgt) (fun e => net.attr e.id)
    (fun e => (net.g.nodes.idxOf e.src, net.g.nodes.idxOf e.tgt))
    (idMap := lastPos ids) (syms := []) (by simp) (by
      intro e he
      have hm := hmem e he
      obtain ⟨h1, h2⟩ := hends e he
      exact ⟨hs.attr e hm, fun s h => ⟨e, hm, h⟩, hs.ids _ h1, hs.ids _ h2, hpos _ h1, hpos _ h2⟩)
  have hej : (net.g.nodes.flatMap fun n => (net.g.obj n).outE.map fun e =>
      edgeJson (net.id e.src) (net.id e.tgt) (net.attr e.id)) =
      es.map fun e => edgeJson (net.id e.src) (net.id e.tgt) (net.attr e.id) := by
    simp only [es, List.map_flatMap]
  have hnj := loadNodes_back c (net.g.nodes.map fun n => (net.id n, net.data n)) (by
    intro x hx
    obtain ⟨n, hn, rfl⟩ := List.mem_map.1 hx
    exact ⟨hs.ids n hn, hs.data n hn⟩)
  simp only [List.map_map] at hnj
  have hidsEq : ((net.g.nodes.map fun n => (net.id n, net.data n)).map fun x =>
      (x.1, normData (readBack c) x.2)).map Prod.fst = ids := by
    simp [ids, List.map_map, Function.comp_def]
  -- the file is well formed
  let nodesJ := net.g.nodes.map fun n => nodeJson (net.id n) (net.data n)
  let edgesJ := es.map fun e => edgeJson (net.id e.src) (net.id e.tgt) (net.attr e.id)
  let ds := net.g.nodes.map fun n => (net.id n, normData (readBack c) (net.data n))
  have hds : nodesJ.map (nodeOf c) = ds.map .ok := by
    simp only [nodesJ, ds, List.map_map]
    exact hnj
  have hdsids : ds.map Prod.fst = ids := by simp [ds, ids, List.map_map, Function.comp_def]
  have hedges := (readEdges_rd ids [] edgesJ).1 ⟨_, hread⟩
  have hsave : save net files = .obj [("blackBoxes", .arr (net.blackBoxes.map .str)),
      ("edges", .arr edgesJ), ("fileTable", .arr (files.map .str)), ("nodes", .arr nodesJ),
      ("version", .int formatVersion)] := by
    unfold save; rw [hej]
  have mem : ∀ k v, List.lookup k [("blackBoxes", Json.arr (net.blackBoxes.map .str)),
      ("edges", .arr edgesJ), ("fileTable", .arr (files.map .str)), ("nodes", .arr nodesJ),
      ("version", .int formatVersion)] = some v → Member (save net files) k v := by
    intro k v h; rw [hsave]; exact ⟨_, rfl, h⟩
  have m1 := mem "version" (.int formatVersion) (by simp [List.lookup])
  have m2 := mem "fileTable" (.arr (files.map .str)) (by simp [List.lookup])
  have m3 := mem "nodes" (.arr nodesJ) (by simp [List.lookup])
  have m4 := mem "edges" (.arr edgesJ) (by simp [List.lookup])
  have m5 := mem "blackBoxes" (.arr (net.blackBoxes.map .str)) (by simp [List.lookup])
  have hwfj : WellFormed (save net files) nodesJ edgesJ := by
    refine ⟨⟨_, m1, Or.inl ⟨0, by simp [formatVersion], by omega, by omega⟩⟩, ⟨_, m2, ?_⟩, ?_,
      ⟨_, m3, rfl⟩, ⟨_, m4, rfl⟩, ?_, fun x hx => (hedges x hx).1, ?_⟩
    · intro x hx
      obtain ⟨s, _, rfl⟩ := List.mem_map.1 hx
      exact ⟨s, rfl⟩
    · intro b hb x hx
      rw [member_unique hb m5] at hx
      obtain ⟨s, _, rfl⟩ := List.mem_map.1 hx
      exact ⟨s, rfl⟩
    · intro x hx
      rw [← node_rd c]
      have : nodeOf c x ∈ ds.map .ok := by rw [← hds]; exact List.mem_map_of_mem hx
      obtain ⟨d, _, hd⟩ := List.mem_map.1 this
      exact ⟨d, hd.symm⟩
    · intro x hx i hi
      exact (mem_ids hds i).1 (by rw [hdsids]; exact (hedges x hx).2 i hi)
  obtain ⟨st, files', boxes, ds', l, syms', hload, ⟨f, hf1, hf2⟩, hbox, hds', hl, hb, hfe, hbe⟩ :=
    load_spec c hwfj
  have hdd : ds' = ds := by
    have := hds'.symm.trans hds
    exact (List.map_inj_right (fun a b h => by simpa using h)).1 this
  subst hdd
  rw [hdsids, hread] at hl
  simp only [Except.ok.injEq, Prod.mk.injEq] at hl
  obtain ⟨_, hl⟩ := hl
  have hfiles : files' = files := by
    rw [member_unique hf1 m2] at hf2
    have := loadFiles_back [] files (by simpa using hf)
    simp only [Json.iter] at hf2
    rw [hf2] at this
    simpa using this
  have hboxes : boxes = net.blackBoxes := by
    rcases hbox with ⟨b, hb1, hb2⟩ | ⟨hno, _⟩
    · rw [member_unique hb1 m5] at hb2
      simp only [Json.iter] at hb2
      rw [loadBoxes_back] at hb2
      simpa using hb2.symm
    · exact absurd ⟨_, m5⟩ hno
  have hnodes : st.net.g.nodes = List.range net.g.nodes.length := by
    rw [nodes_of_built hb]; simp [ds]
  refine ⟨st, hload, hb.reach, by rw [hfe, hfiles], by rw [hbe, hboxes], hnodes, ?_⟩
  intro i n hi
  refine ⟨hb.data i _ (by simp only [ds, List.getElem?_map, hi]; rfl), ?_⟩
  have hout := edges_of_built hb i
  rw [foldl_putEdge_src, ← hl] at hout
  simp only [List.filter_nil, List.map_nil, foldl_putOut] at hout
  have hlen : i < net.g.nodes.length := (List.getElem?_eq_some_iff.1 hi).1
  have hnm : n ∈ net.g.nodes := List.mem_of_getElem? hi
  have hfil : ((es.map fun e => (net.g.nodes.idxOf e.src, net.g.nodes.idxOf e.tgt,
      normAttr (net.attr e.id))).filter fun x => x.1 == i) =
      (net.g.obj n).outE.map fun e => (net.g.nodes.idxOf e.src, net.g.nodes.idxOf e.tgt,
        normAttr (net.attr e.id)) := by
    simp only [es, List.map_flatMap]
    refine filter_flatMap_nodup hwf.nodup _ ?_ hi
    intro m hm x hx
    obtain ⟨e, he, rfl⟩ := List.mem_map.1 hx
    simp only [(hwf.out m e he).1]
  rw [hfil, List.map_map] at hout
  have hview : outView st.net i = (st.net.g.obj i).outE.map fun e => (e.tgt, st.net.attr e.id) := by
    unfold outView
    refine List.map_congr_left fun e he => ?_
    have hlt : e.tgt < net.g.nodes.length := by
      have := ((reachable_wf hb.reach).out i e he).2.2
      rw [hnodes] at this
      exact List.mem_range.1 this
    have : (List.range net.g.nodes.length).idxOf e.tgt = e.tgt := by
      have hg : (List.range net.g.nodes.length)[e.tgt]'(by simpa using hlt) = e.tgt := by simp
      conv => lhs; rw [← hg]
      exact List.nodup_range.idxOf_getElem _ _
    rw [hnodes, this]
  rw [hview, hout]
  unfold outView
  rw [List.map_map]
  rfl

/-- C40: without parallel edges every edge comes back. -/
theorem save_load_simple (c : ConstCodec) {net : NetGraph} (hr : Reachable net)
    (hu : UniqueIds net) (hs : Savable net) {files : List Str} (hf : files.Nodup)
    (hp : ∀ n ∈ net.g.nodes, ((net.g.obj n).outE.map Edge.tgt).Nodup) :
    ∃ st, load c (save net files) = .ok st ∧
      st.files = files ∧ st.net.blackBoxes = net.blackBoxes ∧
      st.net.g.nodes = List.range net.g.nodes.length ∧
      ∀ i n, net.g.nodes[i]? = some n →
        st.net.data i = normData (readBack c) (net.data n) ∧
        outView st.net i = (outView net n).map fun x => (x.1, normAttr x.2) := by
  obtain ⟨st, h1, _, h2, h3, h4, h5⟩ := save_load_partial c hr hu hs hf
  refine ⟨st, h1, h2, h3, h4, fun i n hi => ⟨(h5 i n hi).1, ?_⟩⟩
  rw [(h5 i n hi).2]
  apply mergePar_id
  have hn : n ∈ net.g.nodes := List.mem_of_getElem? hi
  have hwf := reachable_wf hr
  have : ((outView net n).map fun x => (x.1, normAttr x.2)).map Prod.fst =
      ((net.g.obj n).outE.map Edge.tgt).map net.g.nodes.idxOf := by
    unfold outView; simp [List.map_map, Function.comp_def]
  rw [this, List.nodup_iff_pairwise_ne, List.pairwise_map]
  refine List.Pairwise.imp_of_mem ?_ (List.nodup_iff_pairwise_ne.1 (hp n hn))
  intro a b ha hb hab he
  obtain ⟨e, he1, rfl⟩ := List.mem_map.1 ha
  obtain ⟨f, hf1, rfl⟩ := List.mem_map.1 hb
  have m1 := (hwf.out n e he1).2.2
  have m2 := (hwf.out n f hf1).2.2
  apply hab
  have g1 := List.getElem_idxOf (List.idxOf_lt_length_of_mem m1)
  have g2 := List.getElem_idxOf (List.idxOf_lt_length_of_mem m2)
  rw [← g1, ← g2]
  simp only [he]

/-- A sample: two ports, a constant and a register; two parallel edges. -/
def saveOps : List NetOp :=
  let s : SymRef := ⟨['s'], ['t', '.', 's'], ⟨0, 4, 2⟩⟩
  [.addBlackBox ['t', '.', 'u'], .addNode (.port ['a'] ['t', '.', 'a'] ⟨0, 1, 1⟩ .input ⟨3, 0⟩),
   .addNode (.port ['b'] ['t', '.', 'b'] ⟨0, 1, 8⟩ .output ⟨0, 3⟩),
   .addNode (.constant ['1'] 4 {}), .addNode (.state ['s'] ['t', '.', 's'] ⟨0, 4, 2⟩ ⟨0, 7⟩),
   .addEdge 0 3, .setAttr 0 { symbol := some s, bounds := ⟨3, 0⟩ },
   .addEdge 2 3, .setAttr 1 { symbol := some s, bounds := ⟨4, 7⟩, edgeKind := .posEdge },
   .addEdge 3 1, .setAttr 2 { disabled := true },
   .addNewEdge 0 3, .setAttr 3 { symbol := some s, bounds := ⟨5, 6⟩ }]

def saveNet : NetGraph := (NetGraph.calls {} saveOps).getD {}

theorem saveNet_reachable : Reachable saveNet := ⟨saveOps, rfl⟩

theorem saveNet_unique : UniqueIds saveNet := by
  have : ∀ a ∈ saveNet.g.nodes, ∀ b ∈ saveNet.g.nodes, saveNet.id a = saveNet.id b → a = b := by
    decide
  exact this

/-- Non-vacuity: the sample meets the hypotheses of `save_load_partial`. -/
theorem saveNet_savable : Savable saveNet := by
  have hn : saveNet.g.nodes = [0, 1, 2, 3] := by decide
  have he : ∀ e, EdgeOf saveNet e → e ∈ [⟨0, 0, 3⟩, ⟨3, 0, 3⟩, ⟨1, 2, 3⟩, ⟨2, 3, 1⟩] := by
    rintro e ⟨n, h1, h2⟩
    rw [hn] at h1
    simp only [List.mem_cons, List.not_mem_nil, or_false] at h1
    rcases h1 with rfl | rfl | rfl | rfl
    · exact (by decide : ∀ e ∈ (saveNet.g.obj 0).outE,
        e ∈ [⟨0, 0, 3⟩, ⟨3, 0, 3⟩, ⟨1, 2, 3⟩, ⟨2, 3, 1⟩]) e h2
    · exact (by decide : ∀ e ∈ (saveNet.g.obj 1).outE,
        e ∈ [⟨0, 0, 3⟩, ⟨3, 0, 3⟩, ⟨1, 2, 3⟩, ⟨2, 3, 1⟩]) e h2
    · exact (by decide : ∀ e ∈ (saveNet.g.obj 2).outE,
        e ∈ [⟨0, 0, 3⟩, ⟨3, 0, 3⟩, ⟨1, 2, 3⟩, ⟨2, 3, 1⟩]) e h2
    · exact (by decide : ∀ e ∈ (saveNet.g.obj 3).outE,
        e ∈ [⟨0, 0, 3⟩, ⟨3, 0, 3⟩, ⟨1, 2, 3⟩, ⟨2, 3, 1⟩]) e h2
  let s : SymRef := ⟨['s'], ['t', '.', 's'], ⟨0, 4, 2⟩⟩
  have a0 : saveNet.attr 0 = ⟨.none, some s, ⟨3, 0⟩, false⟩ := by decide
  have a1 : saveNet.attr 1 = ⟨.posEdge, some s, ⟨4, 7⟩, false⟩ := by decide
  have a2 : saveNet.attr 2 = ⟨.none, none, {}, true⟩ := by decide
  have a3 : saveNet.attr 3 = ⟨.none, some s, ⟨5, 6⟩, false⟩ := by decide
  refine ⟨?_, ?_, ?_, ?_⟩
  · rw [hn]; intro n h
    simp only [List.mem_cons, List.not_mem_nil, or_false] at h
    rcases h with rfl | rfl | rfl | rfl <;> decide
  · rw [hn]; intro n h
    simp only [List.mem_cons, List.not_mem_nil, or_false] at h
    rcases h with rfl | rfl | rfl | rfl
    · exact ⟨⟨by decide, by decide, by decide⟩, by decide, by decide, by decide, by decide⟩
    · exact ⟨⟨by decide, by decide, by decide⟩, by decide, by decide, by decide, by decide⟩
    · exact ⟨by decide, by decide, by decide, by decide⟩
    · exact ⟨⟨by decide, by decide, by decide⟩, by decide, by decide, by decide, by decide⟩
  · intro e h
    have := he e h
    simp only [List.mem_cons, List.not_mem_nil, or_false] at this
    rcases this with rfl | rfl | rfl | rfl <;>
      simp only [a0, a1, a2, a3, AttrFits, RangeFits, LocFits, Option.some.injEq, reduceCtorEq] <;>
      refine ⟨by omega, ?_⟩ <;> intro s hs
    · subst hs; decide
    · subst hs; decide
    · subst hs; decide
    · exact absurd hs (by simp)
  · intro e f s t h1 h2 h3 h4 _
    have q1 := he e h1
    have q2 := he f h2
    simp only [List.mem_cons, List.not_mem_nil, or_false] at q1 q2
    rcases q1 with rfl | rfl | rfl | rfl <;> rcases q2 with rfl | rfl | rfl | rfl <;>
      simp only [a0, a1, a2, a3, Option.some.injEq, reduceCtorEq] at h3 h4 <;>
      rw [← h3, ← h4]

/-- Loading the sample again. -/
def saveBack : Except LoadErr LoadSt := load ⟨some, []⟩ (save saveNet [['f']])

/-- C40, disagreement: parallel edges are not preserved. The sample has four edges, the loaded netlist
three: the two edges between the same nodes, for bits 3 to 0 and 6 to 5, become one with the range
of the second. -/
theorem parallel_edges_lost :
    Reachable saveNet ∧ UniqueIds saveNet ∧ Savable saveNet ∧ saveNet.g.numEdges = 4 ∧
    ∃ st, load ⟨some, []⟩ (save saveNet [['f']]) = .ok st ∧ st.net.g.numEdges = 3 ∧
      (st.net.g.obj 0).outE.map (fun e => (st.net.attr e.id).bounds) = [⟨5, 6⟩] := by
  refine ⟨saveNet_reachable, saveNet_unique, saveNet_savable, by decide, ?_⟩
  have h : (match saveBack with
    | .ok st => some (st.net.g.numEdges,
        (st.net.g.obj 0).outE.map fun e => (st.net.attr e.id).bounds)
    | .error _ => none) = some (3, [⟨5, 6⟩]) := by decide
  unfold saveBack at h
  split at h
  · rename_i st hst
    simp only [Option.some.injEq, Prod.mk.injEq] at h
    exact ⟨st, hst, h.1, h.2⟩
  · cases h

/-- C40: unique IDs cannot be dropped: with a repeated ID the loaded edge leaves another node. -/
theorem repeated_ids_move_edges :
    let ops : List NetOp := [.addNode .merge, .resetIds, .addNode .merge, .addNode (.case {}),
      .addEdge 0 2]
    ∃ net st, NetGraph.calls {} ops = some net ∧ load ⟨some, []⟩ (save net []) = .ok st ∧
      (net.g.obj 0).outE ≠ [] ∧ (st.net.g.obj 0).outE = [] ∧ (st.net.g.obj 1).outE ≠ [] := by
  intro ops
  refine ⟨(NetGraph.calls {} ops).getD {}, ?_⟩
  have h : (match load ⟨some, []⟩ (save ((NetGraph.calls {} ops).getD {}) []) with
    | .ok st => some (decide ((st.net.g.obj 0).outE = []), decide ((st.net.g.obj 1).outE = []))
    | .error _ => none) = some (true, false) := by decide
  split at h
  · rename_i st hst
    simp only [Option.some.injEq, Prod.mk.injEq, decide_eq_true_eq, decide_eq_false_iff_not] at h
    exact ⟨st, rfl, hst, by decide, h.1, h.2⟩
  · cases h

/-- C40: the order of a node's in-edges is not preserved: edges are written by source, so the loaded
in-list is ordered by source. -/
theorem in_edge_order_changes :
    let ops : List NetOp := [.addNode .merge, .addNode .merge, .addNode .merge,
      .addEdge 1 2, .addEdge 0 2]
    ∃ net st, NetGraph.calls {} ops = some net ∧ load ⟨some, []⟩ (save net []) = .ok st ∧
      (net.g.obj 2).inE.map Edge.src = [1, 0] ∧ (st.net.g.obj 2).inE.map Edge.src = [0, 1] := by
  intro ops
  refine ⟨(NetGraph.calls {} ops).getD {}, ?_⟩
  have h : (match load ⟨some, []⟩ (save ((NetGraph.calls {} ops).getD {}) []) with
    | .ok st => some ((st.net.g.obj 2).inE.map Edge.src)
    | .error _ => none) = some [0, 1] := by decide
  split at h
  · rename_i st hst
    simp only [Option.some.injEq] at h
    exact ⟨st, rfl, hst, by decide, h⟩
  · cases h

/-- The theorems about loading applied to the sample file: the version is 3 and the edge joins the nodes
that carry its IDs. -/
example : ∃ st nodes edges, load ⟨some, []⟩ (tinyFile (.int 3)) = .ok st ∧
    WellFormed (tinyFile (.int 3)) nodes edges ∧ st.net.g.nodes = List.range nodes.length ∧
    (∃ v, Member (tinyFile (.int 3)) "version" v ∧ ((∃ k : Int, v = .int (3 + k * 2 ^ 32)) ∨ v = .flt 3)) := by
  obtain ⟨st, h⟩ : ∃ st, load ⟨some, []⟩ (tinyFile (.int 3)) = .ok st := ok_of_edges (by decide)
  obtain ⟨nodes, edges, hw⟩ := (load_ok_iff ⟨some, []⟩ (j := tinyFile (.int 3))).1 ⟨st, h⟩
  exact ⟨st, nodes, edges, h, hw, (load_edges_partial h hw).1, load_version_partial h⟩

/-- The sample without the parallel edge. -/
def singleNet : NetGraph := (NetGraph.calls {} (saveOps.take 11)).getD {}

theorem singleNet_savable : Savable singleNet := by
  have hn : singleNet.g.nodes = [0, 1, 2, 3] := by decide
  have he : ∀ e, EdgeOf singleNet e → e ∈ [⟨0, 0, 3⟩, ⟨1, 2, 3⟩, ⟨2, 3, 1⟩] := by
    have h : ∀ n ∈ singleNet.g.nodes, ∀ e ∈ (singleNet.g.obj n).outE,
        e ∈ [⟨0, 0, 3⟩, ⟨1, 2, 3⟩, ⟨2, 3, 1⟩] := by decide
    rintro e ⟨n, h1, h2⟩
    exact h n h1 e h2
  let s : SymRef := ⟨['s'], ['t', '.', 's'], ⟨0, 4, 2⟩⟩
  have a0 : singleNet.attr 0 = ⟨.none, some s, ⟨3, 0⟩, false⟩ := by decide
  have a1 : singleNet.attr 1 = ⟨.posEdge, some s, ⟨4, 7⟩, false⟩ := by decide
  have a2 : singleNet.attr 2 = ⟨.none, none, {}, true⟩ := by decide
  refine ⟨?_, ?_, ?_, ?_⟩
  · rw [hn]; intro n h
    simp only [List.mem_cons, List.not_mem_nil, or_false] at h
    rcases h with rfl | rfl | rfl | rfl <;> decide
  · rw [hn]; intro n h
    simp only [List.mem_cons, List.not_mem_nil, or_false] at h
    rcases h with rfl | rfl | rfl | rfl
    · exact ⟨⟨by decide, by decide, by decide⟩, by decide, by decide, by decide, by decide⟩
    · exact ⟨⟨by decide, by decide, by decide⟩, by decide, by decide, by decide, by decide⟩
    · exact ⟨by decide, by decide, by decide, by decide⟩
    · exact ⟨⟨by decide, by decide, by decide⟩, by decide, by decide, by decide, by decide⟩
  · intro e h
    have := he e h
    simp only [List.mem_cons, List.not_mem_nil, or_false] at this
    rcases this with rfl | rfl | rfl <;>
      simp only [a0, a1, a2, AttrFits, RangeFits, LocFits, Option.some.injEq, reduceCtorEq] <;>
      refine ⟨by omega, ?_⟩ <;> intro s hs
    · subst hs; decide
    · subst hs; decide
    · exact absurd hs (by simp)
  · intro e f s t h1 h2 h3 h4 _
    have q1 := he e h1
    have q2 := he f h2
    simp only [List.mem_cons, List.not_mem_nil, or_false] at q1 q2
    rcases q1 with rfl | rfl | rfl <;> rcases q2 with rfl | rfl | rfl <;>
      simp only [a0, a1, a2, Option.some.injEq, reduceCtorEq] at h3 h4 <;>
      rw [← h3, ← h4]

theorem singleNet_unique : UniqueIds singleNet := by
  have : ∀ a ∈ singleNet.g.nodes, ∀ b ∈ singleNet.g.nodes, singleNet.id a = singleNet.id b → a = b := by
    decide
  exact this

/-- Its register is loaded with the edge it has. -/
example : ∃ st, load ⟨some, []⟩ (save singleNet [['f']]) = .ok st ∧ st.files = [['f']] ∧
    st.net.blackBoxes = [['t', '.', 'u']] ∧
    outView st.net 3 = [(1, { disabled := true })] := by
  obtain ⟨st, h1, h2, h3, _, h4⟩ := save_load_simple ⟨some, []⟩ (net := singleNet) ⟨saveOps.take 11, rfl⟩
    singleNet_unique singleNet_savable (files := [['f']]) (by decide) (by decide)
  exact ⟨st, h1, h2, h3, (h4 3 3 (by decide)).2.trans (by decide)⟩

end Verif.Props
