import Verif.Spec.Serial
import Verif.Proofs.Net

/-! Helper lemmas: reading JSON values, and what the loading loops build. -/
set_option linter.unusedSimpArgs false
namespace Verif.Proofs
open Verif.Spec Verif.Model

/-! ### Readers -/

theorem at_ok {j : Json} {k : String} {v : Json} : j.at k = .ok v ↔ Member j k v := by
  unfold Json.at Member
  cases j <;> simp
  rename_i l
  cases h : l.lookup k <;> simp

theorem contains_ok {j : Json} {k : String} : j.contains k = true ↔ ∃ v, Member j k v := by
  unfold Json.contains Member
  cases j with
  | obj l =>
    simp only [Json.obj.injEq]
    constructor
    · intro h
      obtain ⟨v, hv⟩ := Option.isSome_iff_exists.1 h
      exact ⟨v, l, rfl, hv⟩
    · rintro ⟨v, l', rfl, h⟩
      rw [h]; rfl
  | _ => simp

theorem member_ok {α : Type} {j : Json} {k : String} {get : Json → Except LoadErr α} {a : α} :
    j.member k get = .ok a ↔ ∃ v, Member j k v ∧ get v = .ok a := by
  unfold Json.member
  constructor
  · intro h
    cases hv : j.at k with
    | error e => rw [hv] at h; cases h
    | ok v => rw [hv] at h; exact ⟨v, at_ok.1 hv, h⟩
  · rintro ⟨v, hv, h⟩
    rw [at_ok.2 hv]; exact h

theorem member_unique {j : Json} {k : String} {v w : Json} (h : Member j k v)
    (h' : Member j k w) : v = w := by
  obtain ⟨l, rfl, h1⟩ := h
  obtain ⟨l', h2, h3⟩ := h'
  cases h2
  rw [h1] at h3; exact Option.some.inj h3

theorem getStr_ok {j : Json} {s : Str} : j.getStr = .ok s ↔ j = .str s := by
  cases j <;> simp [Json.getStr]

theorem getBool_ok {j : Json} {b : Bool} : j.getBool = .ok b ↔ j = .bool b := by
  cases j <;> simp [Json.getBool]

theorem getI32_ok {j : Json} {v : Int} : j.getI32 = .ok v ↔ I32Val j v := by
  cases j with
  | int n =>
    simp only [Json.getI32, wrapS32, Except.ok.injEq, I32Val, Json.int.injEq, reduceCtorEq, false_and,
      or_false]
    constructor
    · intro h
      exact ⟨(n + 2147483648) / 4294967296, by omega, by omega, by omega⟩
    · rintro ⟨k, h⟩; omega
  | flt t =>
    simp only [Json.getI32, I32Val, Json.flt.injEq, reduceCtorEq, false_and, or_false, exists_const,
      false_or]
    split <;> simp <;> omega
  | bool b => cases b <;> simp [Json.getI32, I32Val] <;> omega
  | _ => simp [Json.getI32, I32Val]

theorem getU32_ok {j : Json} {v : Nat} : j.getU32 = .ok v ↔ U32Val j v := by
  cases j with
  | int n =>
    simp only [Json.getU32, Except.ok.injEq, U32Val, Json.int.injEq, reduceCtorEq, false_and,
      or_false]
    constructor
    · intro h
      exact ⟨n / 4294967296, by omega, by omega⟩
    · rintro ⟨k, h⟩; omega
  | flt t =>
    simp only [Json.getU32, U32Val, Json.flt.injEq, reduceCtorEq, false_and, or_false, exists_const,
      false_or]
    split <;> simp <;> omega
  | bool b => cases b <;> simp [Json.getU32, U32Val] <;> omega
  | _ => simp [Json.getU32, U32Val]

theorem getSize_ok {j : Json} {v : Nat} : j.getSize = .ok v ↔ SizeVal j v := by
  cases j with
  | int n =>
    simp only [Json.getSize, Except.ok.injEq, SizeVal, Json.int.injEq, reduceCtorEq, false_and,
      or_false]
    constructor
    · intro h
      exact ⟨n / 18446744073709551616, by omega, by omega⟩
    · rintro ⟨k, h⟩; omega
  | flt t =>
    simp only [Json.getSize, SizeVal, Json.flt.injEq, reduceCtorEq, false_and, or_false,
      exists_const, false_or]
    split <;> simp <;> omega
  | _ => simp [Json.getSize, SizeVal]

theorem has_of {α : Type} {j : Json} {k : String} {get : Json → Except LoadErr α}
    {P : Json → Prop} (hP : ∀ v, (∃ a, get v = .ok a) ↔ P v) :
    (∃ a, j.member k get = .ok a) ↔ Has j k P := by
  constructor
  · rintro ⟨a, h⟩
    obtain ⟨v, hv, hg⟩ := member_ok.1 h
    exact ⟨v, hv, (hP v).1 ⟨a, hg⟩⟩
  · rintro ⟨v, hv, hp⟩
    obtain ⟨a, ha⟩ := (hP v).2 hp
    exact ⟨a, member_ok.2 ⟨v, hv, ha⟩⟩

theorem str_rd (v : Json) : (∃ a, v.getStr = .ok a) ↔ IsStr v := by simp [getStr_ok, IsStr]

theorem bool_rd (v : Json) : (∃ a, v.getBool = .ok a) ↔ IsBool v := by
  simp only [getBool_ok, IsBool]

theorem size_rd (v : Json) : (∃ a, v.getSize = .ok a) ↔ IsSize v := by simp [getSize_ok, IsSize]

theorem loc_rd (j : Json) : (∃ a, locOf j = .ok a) ↔ IsLoc j := by
  unfold IsLoc
  rw [← has_of (get := Json.getU32) (fun v => by simp [getU32_ok, IsU32]), ← has_of size_rd,
    ← has_of size_rd]
  unfold locOf
  cases j.member "fileIndex" Json.getU32 <;> cases j.member "line" Json.getSize <;>
    cases j.member "column" Json.getSize <;> simp

theorem sym_rd (j : Json) : (∃ a, symOf j = .ok a) ↔ IsSym j := by
  unfold IsSym
  rw [← has_of str_rd, ← has_of str_rd, ← has_of loc_rd]
  unfold symOf
  cases j.member "name" Json.getStr <;> cases j.member "path" Json.getStr <;>
    cases j.member "location" locOf <;> simp

theorem i32_rd (v : Json) : (∃ a, v.getI32 = .ok a) ↔ IsI32 v := by simp [getI32_ok, IsI32]

theorem range_rd (j : Json) : (∃ a, boundsOf j = .ok a) ↔ IsRange j := by
  unfold IsRange
  simp only [← i32_rd]
  unfold boundsOf
  cases j with
  | arr l =>
    cases l with
    | nil => simp [Json.elem, Json.getI32]
    | cons a l =>
      cases l with
      | nil =>
        have hn : Json.null.getI32 = .error .type := rfl
        simp only [Json.elem, List.getD_cons_zero, List.getD_cons_succ, List.getD_nil, hn,
          Json.arr.injEq, List.cons.injEq]
        cases a.getI32 <;> simp
      | cons b l =>
        simp only [Json.elem, List.getD_cons_zero, List.getD_cons_succ, Json.arr.injEq,
          List.cons.injEq]
        constructor
        · rintro ⟨r, h⟩
          refine ⟨a, b, l, ⟨rfl, rfl, rfl⟩, ?_⟩
          cases h1 : a.getI32 with
          | error e => rw [h1] at h; simp at h
          | ok x =>
            cases h2 : b.getI32 with
            | error e => rw [h1, h2] at h; simp at h
            | ok y => exact ⟨⟨x, rfl⟩, y, rfl⟩
        · rintro ⟨a', b', l', ⟨rfl, rfl, rfl⟩, ⟨x, hx⟩, y, hy⟩
          exact ⟨⟨x, y⟩, by simp [hx, hy]⟩
  | null => simp [Json.elem, Json.getI32]
  | _ => simp [Json.elem]

theorem named_rd (j : Json) : (∃ a, namedOf j = .ok a) ↔ IsNamed j := by
  unfold IsNamed
  rw [← has_of str_rd, ← has_of str_rd, ← has_of loc_rd, ← has_of range_rd]
  unfold namedOf
  rw [Json.member.eq_1 j "bounds"]
  cases j.at "bounds" with
  | error e => simp
  | ok bj =>
    simp only
    cases j.member "name" Json.getStr <;> cases j.member "path" Json.getStr <;>
      cases j.member "location" locOf <;> cases boundsOf bj <;> simp

/-! ### Names -/

theorem kindOf_name (k : NodeKind) : kindOf (kindName k) = k := by cases k <;> decide

theorem edgeOf_name (k : EdgeKind) : edgeOf (edgeName k) = k := by cases k <;> decide

theorem dirOf_name (d : ArgDir) : dirOf (dirName d) = d := by cases d <;> decide

theorem kindOf_eq {s : Str} {k : NodeKind} (hk : k ≠ .none) : kindOf s = k ↔ s = kindName k := by
  constructor
  · intro h
    subst h
    revert hk
    unfold kindOf
    repeat' split
    all_goals first | (intro hk; exact absurd rfl hk) | (intro _; assumption)
  · rintro rfl; exact kindOf_name k

theorem data_rd (c : ConstCodec) (j : Json) (s : Str) :
    (∃ d, nodeDataOf c (kindOf s) j = .ok d) ↔
    (s = kindName .port → IsNamed j ∧ Has j "direction" IsStr) ∧
    (s = kindName .variable ∨ s = kindName .state → IsNamed j) ∧
    (s = kindName .assignment ∨ s = kindName .conditional ∨ s = kindName .case →
      Has j "location" IsLoc) ∧
    (s = kindName .constant →
      Has j "width" IsSize ∧ Has j "value" IsStr ∧ Has j "location" IsLoc) := by
  simp only [← kindOf_eq (k := .port) (by simp), ← kindOf_eq (k := .variable) (by simp),
    ← kindOf_eq (k := .state) (by simp), ← kindOf_eq (k := .assignment) (by simp),
    ← kindOf_eq (k := .conditional) (by simp), ← kindOf_eq (k := .case) (by simp),
    ← kindOf_eq (k := .constant) (by simp)]
  rw [← named_rd, ← has_of str_rd, ← has_of size_rd, ← has_of loc_rd, ← has_of str_rd]
  cases kindOf s <;> simp [nodeDataOf]
  · rcases namedOf j with _ | ⟨_, _, _, _⟩ <;> cases j.member "direction" Json.getStr <;> simp
  · rcases namedOf j with _ | ⟨_, _, _, _⟩ <;> simp [Except.map]
  · cases j.member "location" locOf <;> simp [Except.map]
  · cases j.member "location" locOf <;> simp [Except.map]
  · cases j.member "location" locOf <;> simp [Except.map]
  · rcases namedOf j with _ | ⟨_, _, _, _⟩ <;> simp [Except.map]
  · cases j.member "width" Json.getSize <;> cases j.member "value" Json.getStr <;>
      cases j.member "location" locOf <;> simp

theorem node_rd (c : ConstCodec) (j : Json) : (∃ a, nodeOf c j = .ok a) ↔ NodeEntry j := by
  unfold NodeEntry
  rw [← has_of size_rd]
  unfold nodeOf
  constructor
  · rintro ⟨a, h⟩
    cases h1 : j.member "id" Json.getSize with
    | error e => simp [h1] at h
    | ok id =>
      cases h2 : j.member "kind" Json.getStr with
      | error e => simp [h1, h2] at h
      | ok s =>
        cases h3 : nodeDataOf c (kindOf s) j with
        | error e => simp [h1, h2, h3] at h
        | ok d =>
          obtain ⟨v, hv, hs⟩ := member_ok.1 h2
          rw [getStr_ok] at hs; subst hs
          exact ⟨⟨id, rfl⟩, s, hv, (data_rd c j s).1 ⟨d, h3⟩⟩
  · rintro ⟨⟨id, h1⟩, s, hs, h⟩
    obtain ⟨d, hd⟩ := (data_rd c j s).2 h
    have h2 : j.member "kind" Json.getStr = .ok s := member_ok.2 ⟨_, hs, rfl⟩
    exact ⟨(id, d), by simp [h1, h2, hd]⟩

theorem nodeOf_id {c : ConstCodec} {j : Json} {i : Nat} {d : NodeData}
    (h : nodeOf c j = .ok (i, d)) (k : Nat) : IdField j "id" k ↔ k = i := by
  unfold nodeOf at h
  have h1 : j.member "id" Json.getSize = .ok i := by
    cases h1 : j.member "id" Json.getSize with
    | error e => simp [h1] at h
    | ok id =>
      cases h2 : j.member "kind" Json.getStr with
      | error e => simp [h1, h2] at h
      | ok s =>
        cases h3 : nodeDataOf c (kindOf s) j with
        | error e => simp [h1, h2, h3] at h
        | ok d' => simp [h1, h2, h3] at h; rw [h.1]
  unfold IdField Has
  simp only [← getSize_ok]
  rw [← member_ok, h1]
  simp only [Except.ok.injEq]
  exact eq_comm

theorem attr_rd (syms : List SymRef) (j : Json) :
    (∃ a, edgeAttrOf syms j = .ok a) ↔ Has j "edgeKind" IsStr ∧
      Has j "symbol" (fun s => ∀ nm, Member s "name" nm → IsSym s) ∧
      Has j "bounds" IsRange ∧ Has j "disabled" IsBool := by
  rw [← has_of str_rd, ← has_of range_rd, ← has_of bool_rd]
  unfold edgeAttrOf
  cases j.member "edgeKind" Json.getStr with
  | error e => simp
  | ok k =>
    simp only [Except.ok.injEq, exists_eq', true_and]
    cases hs : j.at "symbol" with
    | error e =>
      simp only [reduceCtorEq, exists_false, false_iff, not_and]
      rintro ⟨v, hv, _⟩
      rw [at_ok.2 hv] at hs; cases hs
    | ok sj =>
      have hm := at_ok.1 hs
      simp only
      have hh : Has j "symbol" (fun s => ∀ nm, Member s "name" nm → IsSym s) ↔
          (sj.contains "name" = true → ∃ a, symOf sj = .ok a) := by
        rw [sym_rd, contains_ok]
        constructor
        · rintro ⟨v, hv, h⟩ ⟨nm, hn⟩
          rw [member_unique hm hv] at *
          exact h nm hn
        · intro h
          exact ⟨sj, hm, fun nm hn => h ⟨nm, hn⟩⟩
      rw [hh]
      by_cases hc : sj.contains "name" = true
      · simp only [hc, ↓reduceIte, forall_const]
        cases symOf sj with
        | error e => simp
        | ok s =>
          simp only
          cases j.member "bounds" boundsOf <;> cases j.member "disabled" Json.getBool <;> simp
      · simp only [hc, Bool.false_eq_true, ↓reduceIte]
        cases j.member "bounds" boundsOf <;> cases j.member "disabled" Json.getBool <;> simp

theorem files_rd (fs : List Str) (l : List Json) :
    (∃ a, loadFiles fs l = .ok a) ↔ ∀ x ∈ l, IsStr x := by
  induction l generalizing fs with
  | nil => simp [loadFiles]
  | cons j js ih =>
    simp only [loadFiles, List.forall_mem_cons]
    rw [← str_rd]
    cases j.getStr <;> simp [ih]

theorem boxes_rd (fs : List Str) (l : List Json) :
    (∃ a, loadBoxes fs l = .ok a) ↔ ∀ x ∈ l, IsStr x := by
  induction l generalizing fs with
  | nil => simp [loadBoxes]
  | cons j js ih =>
    simp only [loadBoxes, List.forall_mem_cons]
    rw [← str_rd]
    cases j.getStr <;> simp [ih]

/-! ### What the loops build -/

/-- Insert an edge between two nodes, or replace the annotations of the one that exists. -/
def putEdge (es : List (Nat × Nat × EdgeAttr)) (s t : Nat) (a : EdgeAttr) :
    List (Nat × Nat × EdgeAttr) :=
  if es.any (fun x => x.1 == s && x.2.1 == t) then
    es.map fun x => if x.1 = s ∧ x.2.1 = t then (s, t, a) else x
  else es ++ [(s, t, a)]

/-- The last position with an ID. -/
def lastPos (ids : List Nat) (k : Nat) : Option Nat :=
  match ids with
  | [] => none
  | i :: is =>
    match lastPos is k with
    | some p => some (p + 1)
    | none => if k = i then some 0 else none

theorem lastPos_snoc (ids : List Nat) (i k : Nat) :
    lastPos (ids ++ [i]) k = if k = i then some ids.length else lastPos ids k := by
  induction ids with
  | nil => simp [lastPos]
  | cons a ids ih =>
    simp only [List.cons_append, lastPos, ih, List.length_cons]
    by_cases h : k = i <;> simp [h]

theorem lastPos_iff (ids : List Nat) (k p : Nat) :
    lastPos ids k = some p ↔ ids[p]? = some k ∧ ∀ q, p < q → ids[q]? ≠ some k := by
  induction ids generalizing p with
  | nil => simp [lastPos]
  | cons a ids ih =>
    simp only [lastPos]
    cases h : lastPos ids k with
    | some r =>
      have hr := (ih r).1 h
      simp only [Option.some.injEq]
      constructor
      · rintro rfl
        refine ⟨by simpa using hr.1, ?_⟩
        intro q hq
        cases q with
        | zero => omega
        | succ q => simpa using hr.2 q (by omega)
      · rintro ⟨h1, h2⟩
        cases p with
        | zero => exact absurd (by simpa using hr.1) (h2 (r + 1) (by omega))
        | succ p =>
          have := (ih p).2 ⟨by simpa using h1, fun q hq => by simpa using h2 (q + 1) (by omega)⟩
          rw [h] at this
          simp only [Option.some.injEq] at this
          omega
    | none =>
      have hn : ∀ q : Nat, ids[q]? ≠ some k := by
        intro q hq
        obtain ⟨q', hq', hmax⟩ : ∃ q : Nat, ids[q]? = some k ∧
            ∀ q' : Nat, q < q' → ids[q']? ≠ some k := by
          have hex : ∃ n q : Nat, ids[q]? = some k ∧ ids.length ≤ q + n := ⟨ids.length, q, hq, by omega⟩
          clear hq ih h
          obtain ⟨n, q, hq, hn⟩ := hex
          induction n generalizing q with
          | zero => exact absurd hq (by rw [List.getElem?_eq_none (by omega)]; simp)
          | succ n ihn =>
            by_cases hh : ∃ q', q < q' ∧ ids[q']? = some k
            · obtain ⟨q', h1, h2⟩ := hh
              exact ihn q' h2 (by omega)
            · exact ⟨q, hq, fun q' h1 h2 => hh ⟨q', h1, h2⟩⟩
        have := (ih q').2 ⟨hq', hmax⟩
        rw [h] at this; cases this
      by_cases hk : k = a
      · subst hk
        simp only [↓reduceIte, Option.some.injEq]
        constructor
        · rintro rfl
          refine ⟨rfl, ?_⟩
          intro q hq
          cases q with
          | zero => omega
          | succ q => simpa using hn q
        · rintro ⟨h1, h2⟩
          cases p with
          | zero => rfl
          | succ p => exact absurd (by simpa using h1) (hn p)
      · simp only [hk, ↓reduceIte, reduceCtorEq, false_iff, not_and]
        intro h1
        cases p with
        | zero => simp at h1; exact absurd h1.symm hk
        | succ p => exact absurd (by simpa using h1) (hn p)

theorem lastPos_mem (ids : List Nat) (k : Nat) : (∃ p, lastPos ids k = some p) ↔ k ∈ ids := by
  induction ids with
  | nil => simp [lastPos]
  | cons a ids ih =>
    simp only [lastPos, List.mem_cons]
    cases h : lastPos ids k with
    | some r => simp [ih.1 ⟨r, h⟩]
    | none =>
      have hn : k ∉ ids := fun hc => by
        obtain ⟨p, hp⟩ := ih.2 hc
        rw [h] at hp; cases hp
      by_cases hk : k = a <;> simp [hk, hn]

theorem map_inj_of_nodup {α β : Type} {f : α → β} {l : List α} (h : (l.map f).Nodup) {x y : α}
    (hx : x ∈ l) (hy : y ∈ l) (he : f x = f y) : x = y := by
  induction l with
  | nil => simp at hx
  | cons a l ih =>
    simp only [List.map_cons, List.nodup_cons] at h
    rcases List.mem_cons.1 hx with hx' | hx' <;> rcases List.mem_cons.1 hy with hy' | hy'
    · rw [hx', hy']
    · subst hx'; exact absurd (he ▸ List.mem_map_of_mem hy') h.1
    · subst hy'; exact absurd (he ▸ List.mem_map_of_mem hx') h.1
    · exact ih h.2 hx' hy'

/-- What the loops have built so far: nodes `ds` (ID in the file, data) and edges `es`. -/
structure Built (st : LoadSt) (ds : List (Nat × NodeData)) (es : List (Nat × Nat × EdgeAttr)) :
    Prop where
  ex : ∃ A, Rel st.net.g A ∧ AbsInv A ∧ A.nodes = List.range ds.length ∧
    A.nextNode = ds.length ∧
    A.edges.map (fun e => (e.src, e.tgt, st.net.attr e.id)) = es ∧
    (A.edges.map fun e => (e.src, e.tgt)).Nodup
  data : ∀ i d, ds[i]? = some d → st.net.data i = d.2
  ids : ∀ k, st.idMap k = lastPos (ds.map Prod.fst) k
  reach : Reachable st.net

theorem built_node {st : LoadSt} {ds : List (Nat × NodeData)} {es : List (Nat × Nat × EdgeAttr)}
    (hb : Built st ds es) (id : Nat) (d : NodeData) :
    ∃ net', st.net.call (.addNode d) = some net' ∧
      Built { st with
          net := net'
          idMap := fun k => if k = id then some st.net.g.nextNode else st.idMap k }
        (ds ++ [(id, d)]) es ∧ net'.blackBoxes = st.net.blackBoxes := by
  obtain ⟨A, hr, hi, hn, hnn, he, hu⟩ := hb.ex
  have hgn : st.net.g.nextNode = ds.length := by rw [hr.nextNode, hnn]
  refine ⟨_, rfl, ⟨?_, ?_, ?_, reach_call (op := .addNode d) hb.reach rfl⟩, rfl⟩
  · have hs := call_sim hr hi .addNode
    have hsim : Rel (st.net.g.addNode).1
        { A with nodes := A.nodes ++ [A.nextNode], nextNode := A.nextNode + 1 } ∧
        AbsInv { A with nodes := A.nodes ++ [A.nextNode], nextNode := A.nextNode + 1 } := by
      refine ⟨?_, absInv_call (op := .addNode) hi rfl⟩
      obtain ⟨g', h1, h2⟩ : ∃ g', st.net.g.call .addNode = some (g', .node A.nextNode) ∧
        Rel g' { A with nodes := A.nodes ++ [A.nextNode], nextNode := A.nextNode + 1 } := hs
      simp only [DGraph.call, Option.some.injEq, Prod.mk.injEq] at h1
      rw [h1.1]; exact h2
    refine ⟨_, hsim.1, hsim.2, ?_, ?_, ?_, hu⟩
    · simp [hn, hnn, List.range_succ]
    · simp [hnn]
    · rw [← he]
      refine List.map_congr_left fun e hemem => ?_
      have : e.id ≠ st.net.g.nextEdge := by
        have := (hi.ends e hemem).2.2
        rw [hr.nextEdge]; omega
      simp [this]
  · intro i d' hd'
    simp only
    by_cases h : i = ds.length
    · subst h
      simp at hd'
      subst hd'
      simp [hgn]
    · have : i < ds.length := by
        have := (List.getElem?_eq_some_iff.1 hd').1
        simp at this; omega
      rw [List.getElem?_append_left this] at hd'
      simp only [hgn, h, ↓reduceIte]
      exact hb.data i d' hd'
  · intro k
    simp only [List.map_append, List.map_cons, List.map_nil, lastPos_snoc, List.length_map, hb.ids,
      hgn]

theorem mem_range_nodes {A : AbsGraph} {n a : Nat} (h : A.nodes = List.range n) (ha : a < n) :
    a ∈ A.nodes := by rw [h]; exact List.mem_range.2 ha

theorem built_edge {st : LoadSt} {ds : List (Nat × NodeData)} {es : List (Nat × Nat × EdgeAttr)}
    (hb : Built st ds es) {a b : Nat} (ha : a < ds.length) (hbb : b < ds.length)
    (syms' : List SymRef) (attr : EdgeAttr) :
    ∃ net' net'', st.net.call (.addEdge a b) = some net' ∧
      net'.call (.setAttr (st.net.g.addEdge a b).2.id attr) = some net'' ∧
      Built { st with net := net'', syms := syms' } ds (putEdge es a b attr) ∧
      net''.blackBoxes = st.net.blackBoxes := by
  obtain ⟨A, hr, hi, hn, hnn, he, hu⟩ := hb.ex
  have ham := mem_range_nodes hn ha
  have hbm := mem_range_nodes hn hbb
  have hcall : st.net.g.call (.addEdge a b) =
      some ((st.net.g.addEdge a b).1, .edge (st.net.g.addEdge a b).2) := by
    simp [DGraph.call, hr.nodes, ham, hbm]
  have hc1 : st.net.call (.addEdge a b) = some { st.net with
      g := (st.net.g.addEdge a b).1
      attr := fun e => if e = st.net.g.nextEdge then {} else st.net.attr e } := by
    simp only [NetGraph.call, NetOp.gop, hcall]
  refine ⟨_, _, hc1, rfl, ⟨?_, hb.data, hb.ids, reach_call (reach_call hb.reach hc1)
    (op := .setAttr (st.net.g.addEdge a b).2.id attr) rfl⟩, rfl⟩
  have hany : es.any (fun x => x.1 == a && x.2.1 == b) =
      A.edges.any (fun e => e.src == a && e.tgt == b) := by
    rw [← he, List.any_map]; rfl
  rcases rel_addEdge hr a b with ⟨e, hf, heq⟩ | ⟨hf, heq⟩
  · refine ⟨A, by simpa [heq] using hr, hi, hn, hnn, ?_, hu⟩
    have hmem := List.mem_of_find?_eq_some hf
    have hp := List.find?_some hf
    simp only [Bool.and_eq_true, beq_iff_eq] at hp
    have : es.any (fun x => x.1 == a && x.2.1 == b) = true := by
      rw [hany]; exact List.any_eq_true.2 ⟨e, hmem, by simp [hp]⟩
    simp only [putEdge, this, ↓reduceIte, heq]
    rw [← he, List.map_map]
    refine List.map_congr_left fun f hfm => ?_
    have hfn : f.id ≠ st.net.g.nextEdge := by
      have := (hi.ends f hfm).2.2
      rw [hr.nextEdge]; omega
    have huni : ∀ f ∈ A.edges, (f.src = a ∧ f.tgt = b ↔ f = e) := by
      intro f hfm
      constructor
      · rintro ⟨h1, h2⟩
        exact map_inj_of_nodup hu hfm hmem (by simp [h1, h2, hp])
      · rintro rfl; exact hp
    have hid : f.id = e.id ↔ f = e := by
      constructor
      · intro h
        exact map_inj_of_nodup (f := Edge.id) (by
          rw [List.nodup_iff_pairwise_ne, List.pairwise_map]
          exact hi.sorted.imp fun h => Nat.ne_of_lt h) hfm hmem h
      · rintro rfl; rfl
    by_cases h : f = e
    · subst h; simp [hp]
    · have h1 : ¬ (f.src = a ∧ f.tgt = b) := fun hc => h ((huni f hfm).1 hc)
      have h2 : f.id ≠ e.id := fun hc => h (hid.1 hc)
      simp [h1, h2, hfn]
  · obtain ⟨hr', he'⟩ := rel_addNewEdge hr a b
    have hi' := absInv_call (op := .addNewEdge a b) hi (A' := _) (o := _) (by
      simp only [AbsGraph.call, ham, hbm, and_self, ↓reduceIte]; rfl)
    refine ⟨_, by rw [heq]; exact hr', hi', hn, hnn, ?_, ?_⟩
    · have : es.any (fun x => x.1 == a && x.2.1 == b) = false := by
        rw [hany]
        simpa using hf
      simp only [putEdge, this, Bool.false_eq_true, ↓reduceIte, heq, he', List.map_append,
        List.map_cons, List.map_nil]
      congr 1
      rw [← he]
      refine List.map_congr_left fun f hfm => ?_
      have hfn := (hi.ends f hfm).2.2
      have h1 : f.id ≠ A.nextEdge := by omega
      have h2 : f.id ≠ st.net.g.nextEdge := by rw [hr.nextEdge]; exact h1
      simp [h1, h2]
    · simp only [List.map_append, List.map_cons, List.map_nil, List.nodup_append]
      refine ⟨hu, by simp, ?_⟩
      intro x hx y hy
      simp only [List.mem_singleton] at hy
      obtain ⟨f, hfm, rfl⟩ := List.mem_map.1 hx
      rintro h
      rw [hy] at h
      simp only [Prod.mk.injEq] at h
      have := List.find?_eq_none.1 hf f hfm
      simp [h] at this

theorem loadNodes_ok {c : ConstCodec} (js : List Json) {st : LoadSt} {ds : List (Nat × NodeData)}
    {es : List (Nat × Nat × EdgeAttr)} (hb : Built st ds es) (h : ∀ x ∈ js, NodeEntry x) :
    ∃ st' ds', loadNodes c st js = .ok st' ∧ Built st' (ds ++ ds') es ∧
      js.map (nodeOf c) = ds'.map .ok ∧ st'.files = st.files ∧ st'.syms = st.syms ∧
      st'.net.blackBoxes = st.net.blackBoxes := by
  induction js generalizing st ds with
  | nil => exact ⟨st, [], rfl, by simpa using hb, rfl, rfl, rfl, rfl⟩
  | cons j js ih =>
    obtain ⟨⟨id, d⟩, hd⟩ := (node_rd c j).2 (h j List.mem_cons_self)
    obtain ⟨net', hc, hb', hbox⟩ := built_node hb id d
    obtain ⟨st', ds', h1, h2, h3, h4, h5, h6⟩ := ih hb' fun x hx => h x (List.mem_cons_of_mem _ hx)
    refine ⟨st', (id, d) :: ds', ?_, by simpa using h2, ?_, h4, h5, ?_⟩
    · simp only [loadNodes, hd, hc]; exact h1
    · simp [hd, h3]
    · rw [h6]; exact hbox

theorem loadNodes_entries {c : ConstCodec} (js : List Json) {st st' : LoadSt}
    (h : loadNodes c st js = .ok st') : ∀ x ∈ js, NodeEntry x := by
  induction js generalizing st with
  | nil => simp
  | cons j js ih =>
    simp only [loadNodes] at h
    split at h
    · cases h
    · rename_i id d hd
      split at h
      · cases h
      · intro x hx
        rcases List.mem_cons.1 hx with rfl | hx
        · exact (node_rd c _).1 ⟨_, hd⟩
        · exact ih h x hx

/-- Reading one edge entry, without the graph. -/
def readEdge (idMap : Nat → Option Nat) (syms : List SymRef) (j : Json) :
    Except LoadErr (List SymRef × Nat × Nat × EdgeAttr) :=
  match j.member "source" Json.getSize, j.member "target" Json.getSize with
  | .error e, _ => .error e
  | _, .error e => .error e
  | .ok s, .ok t =>
    match idMap s, idMap t with
    | some a, some b =>
      match edgeAttrOf syms j with
      | .error e => .error e
      | .ok (syms', attr) => .ok (syms', a, b, attr)
    | _, _ => .error .unknownNode

/-- Reading all edge entries, without the graph. -/
def readEdges (idMap : Nat → Option Nat) (syms : List SymRef) :
    List Json → Except LoadErr (List SymRef × List (Nat × Nat × EdgeAttr))
  | [] => .ok (syms, [])
  | j :: js =>
    match readEdge idMap syms j with
    | .error e => .error e
    | .ok (syms', x) =>
      match readEdges idMap syms' js with
      | .error e => .error e
      | .ok (syms'', xs) => .ok (syms'', x :: xs)

theorem lastPos_lt {ids : List Nat} {k p : Nat} (h : lastPos ids k = some p) : p < ids.length :=
  (List.getElem?_eq_some_iff.1 ((lastPos_iff ids k p).1 h).1).1

theorem loadEdge_spec {st : LoadSt} {ds : List (Nat × NodeData)}
    {es : List (Nat × Nat × EdgeAttr)} (hb : Built st ds es) (j : Json) :
    match readEdge st.idMap st.syms j with
    | .error e => loadEdge st j = .error e
    | .ok (syms', a, b, attr) => ∃ st', loadEdge st j = .ok st' ∧
        Built st' ds (putEdge es a b attr) ∧ st'.syms = syms' ∧ st'.files = st.files ∧
        st'.net.blackBoxes = st.net.blackBoxes ∧ st'.idMap = st.idMap := by
  unfold readEdge loadEdge
  cases j.member "source" Json.getSize with
  | error e => simp
  | ok s =>
    cases j.member "target" Json.getSize with
    | error e => simp
    | ok t =>
      simp only
      cases hs : st.idMap s with
      | none => simp
      | some a =>
        cases ht : st.idMap t with
        | none => simp
        | some b =>
          simp only
          have ha : a < ds.length := by
            rw [hb.ids] at hs; simpa using lastPos_lt hs
          have hbb : b < ds.length := by
            rw [hb.ids] at ht; simpa using lastPos_lt ht
          cases hat : edgeAttrOf st.syms j with
          | error e =>
            obtain ⟨net', _, h1, _⟩ := built_edge hb ha hbb st.syms {}
            simp [h1]
          | ok r =>
            obtain ⟨syms', attr⟩ := r
            obtain ⟨net', net'', h1, h2, h3, h4⟩ := built_edge hb ha hbb syms' attr
            simp only [h1, h2]
            exact ⟨_, rfl, h3, rfl, rfl, h4, rfl⟩

theorem loadEdges_spec (js : List Json) {st : LoadSt} {ds : List (Nat × NodeData)}
    {es : List (Nat × Nat × EdgeAttr)} (hb : Built st ds es) :
    match readEdges st.idMap st.syms js with
    | .error e => loadEdges st js = .error e
    | .ok (_, l) => ∃ st', loadEdges st js = .ok st' ∧
        Built st' ds (l.foldl (fun es x => putEdge es x.1 x.2.1 x.2.2) es) ∧
        st'.files = st.files ∧ st'.net.blackBoxes = st.net.blackBoxes := by
  induction js generalizing st es with
  | nil => exact ⟨st, rfl, hb, rfl, rfl⟩
  | cons j js ih =>
    have h1 := loadEdge_spec hb j
    simp only [readEdges, loadEdges]
    cases hr : readEdge st.idMap st.syms j with
    | error e => rw [hr] at h1; simp only at h1 ⊢; rw [h1]
    | ok r =>
      obtain ⟨syms', a, b, attr⟩ := r
      rw [hr] at h1
      obtain ⟨st1, e1, b1, s1, f1, x1, m1⟩ := h1
      have h2 := ih b1
      rw [s1, m1] at h2
      simp only [e1]
      cases hrs : readEdges st.idMap syms' js with
      | error e => rw [hrs] at h2; exact h2
      | ok r =>
        obtain ⟨syms'', l⟩ := r
        rw [hrs] at h2
        obtain ⟨st2, e2, b2, f2, x2⟩ := h2
        exact ⟨st2, e2, b2, by rw [f2, f1], by rw [x2, x1]⟩

theorem readEdge_rd (ids : List Nat) (syms : List SymRef) (j : Json) :
    (∃ a, readEdge (lastPos ids) syms j = .ok a) ↔
      EdgeEntry j ∧ ∀ i, IdField j "source" i ∨ IdField j "target" i → i ∈ ids := by
  unfold EdgeEntry
  have hid : ∀ k i, IdField j k i ↔ j.member k Json.getSize = .ok i := by
    intro k i
    rw [member_ok]; unfold IdField Has; simp only [getSize_ok]
  simp only [hid, ← has_of size_rd]
  rw [← attr_rd syms]
  unfold readEdge
  cases j.member "source" Json.getSize with
  | error e => simp
  | ok s =>
    cases j.member "target" Json.getSize with
    | error e => simp
    | ok t =>
      simp only [Except.ok.injEq, exists_eq', true_and]
      have hm := lastPos_mem ids
      cases hs : lastPos ids s with
      | none =>
        have : s ∉ ids := fun h => by obtain ⟨p, hp⟩ := (hm s).2 h; rw [hs] at hp; cases hp
        simp only [reduceCtorEq, exists_false, false_iff, not_and]
        exact fun _ h => this (h s (Or.inl rfl))
      | some a =>
        have hsm := (hm s).1 ⟨a, hs⟩
        cases ht : lastPos ids t with
        | none =>
          have : t ∉ ids := fun h => by obtain ⟨p, hp⟩ := (hm t).2 h; rw [ht] at hp; cases hp
          simp only [reduceCtorEq, exists_false, false_iff, not_and]
          exact fun _ h => this (h t (Or.inr rfl))
        | some b =>
          have htm := (hm t).1 ⟨b, ht⟩
          have : ∀ i, s = i ∨ t = i → i ∈ ids := by rintro i (rfl | rfl) <;> assumption
          cases edgeAttrOf syms j with
          | error e => simp
          | ok r => simp only [Except.ok.injEq, exists_eq', true_and, true_iff]; exact this

theorem readEdges_rd (ids : List Nat) (syms : List SymRef) (js : List Json) :
    (∃ a, readEdges (lastPos ids) syms js = .ok a) ↔
      ∀ x ∈ js, EdgeEntry x ∧ ∀ i, IdField x "source" i ∨ IdField x "target" i → i ∈ ids := by
  induction js generalizing syms with
  | nil => simp [readEdges]
  | cons j js ih =>
    simp only [List.forall_mem_cons, readEdges]
    rw [← readEdge_rd ids syms j]
    cases readEdge (lastPos ids) syms j with
    | error e => simp
    | ok r =>
      obtain ⟨syms', x⟩ := r
      have := ih syms'
      simp only [Except.ok.injEq, exists_eq', true_and]
      rw [← this]
      cases readEdges (lastPos ids) syms' js <;> simp

/-- The state in which the node loop starts. -/
theorem built_start (boxes files : List Str) :
    Built { net := { blackBoxes := boxes }, files := files } [] [] := by
  refine ⟨⟨{}, rel_empty, absInv_empty, rfl, rfl, rfl, by simp⟩, by simp, by simp [lastPos], ?_⟩
  suffices H : ∀ l pre, NetGraph.calls { blackBoxes := pre } (l.map .addBlackBox) =
      some { blackBoxes := pre ++ l } by
    exact ⟨boxes.map .addBlackBox, by simpa using H boxes []⟩
  intro l
  induction l with
  | nil => intro pre; simp [NetGraph.calls]
  | cons b l ih =>
    intro pre
    simpa [NetGraph.calls, NetGraph.call, NetOp.gop] using ih (pre ++ [b])

theorem mem_ids {c : ConstCodec} {js : List Json} {ds : List (Nat × NodeData)}
    (h : js.map (nodeOf c) = ds.map .ok) (i : Nat) :
    i ∈ ds.map Prod.fst ↔ ∃ y ∈ js, IdField y "id" i := by
  induction js generalizing ds with
  | nil =>
    cases ds with
    | nil => simp
    | cons d ds => simp at h
  | cons j js ih =>
    cases ds with
    | nil => simp at h
    | cons d ds =>
      obtain ⟨k, d⟩ := d
      simp only [List.map_cons, List.cons.injEq] at h
      rw [List.map_cons, List.mem_cons, ih h.2]
      simp [nodeOf_id h.1]

theorem map_ok_get {c : ConstCodec} {js : List Json} {ds : List (Nat × NodeData)}
    (h : js.map (nodeOf c) = ds.map .ok) (i : Nat) (x : Json) (hx : js[i]? = some x) :
    ∃ d, ds[i]? = some d ∧ nodeOf c x = .ok d := by
  have h1 : (js.map (nodeOf c))[i]? = some (nodeOf c x) := by simp [hx]
  rw [h, List.getElem?_map] at h1
  cases hd : ds[i]? with
  | none => simp [hd] at h1
  | some d => exact ⟨d, rfl, by simpa [hd] using h1.symm⟩

theorem carries_iff {c : ConstCodec} {js : List Json} {ds : List (Nat × NodeData)}
    (h : js.map (nodeOf c) = ds.map .ok) (a i : Nat) :
    Carries js a i ↔ lastPos (ds.map Prod.fst) i = some a := by
  have hlen : js.length = ds.length := by simpa using congrArg List.length h
  have key : ∀ b : Nat, (ds.map Prod.fst)[b]? = some i ↔ ∃ y, js[b]? = some y ∧ IdField y "id" i := by
    intro b
    constructor
    · intro hb
      have hlt : b < js.length := by
        have := (List.getElem?_eq_some_iff.1 hb).1
        simpa [hlen] using this
      obtain ⟨d, hd, hn⟩ := map_ok_get h b js[b] (by simp [hlt])
      refine ⟨js[b], by simp [hlt], ?_⟩
      obtain ⟨k, d⟩ := d
      rw [nodeOf_id hn]
      simpa [hd] using hb.symm
    · rintro ⟨y, hy, hid⟩
      obtain ⟨⟨k, d⟩, hd, hn⟩ := map_ok_get h b y hy
      rw [nodeOf_id hn] at hid
      simp [hd, hid]
  rw [lastPos_iff]
  unfold Carries
  refine and_congr (key a).symm ?_
  constructor
  · intro hh q hq hc
    obtain ⟨y, hy, hid⟩ := (key q).1 hc
    exact hh q y hq hy hid
  · intro hh q y hq hy hid
    exact hh q hq ((key q).2 ⟨y, hy, hid⟩)

/-- A loop over a JSON value visits its elements. -/
theorem iter_elements : Json.iter = elements := by
  funext j; cases j <;> rfl

/-- Everything about a successful load. -/
theorem load_spec (c : ConstCodec) {j : Json} {nodes edges : List Json}
    (hw : WellFormed j nodes edges) :
    ∃ st files boxes ds l syms,
      load c j = .ok st ∧
      (∃ f, Member j "fileTable" f ∧ loadFiles [] f.iter = .ok files) ∧
      ((∃ b, Member j "blackBoxes" b ∧ loadBoxes [] b.iter = .ok boxes) ∨
        ((¬ ∃ b, Member j "blackBoxes" b) ∧ boxes = [])) ∧
      nodes.map (nodeOf c) = ds.map .ok ∧
      readEdges (lastPos (ds.map Prod.fst)) [] edges = .ok (syms, l) ∧
      Built st ds (l.foldl (fun es x => putEdge es x.1 x.2.1 x.2.2) []) ∧
      st.files = files ∧ st.net.blackBoxes = boxes := by
  rw [WellFormed, ← iter_elements] at hw
  obtain ⟨⟨v, hv, hv3⟩, ⟨f, hf, hfs⟩, hbx, ⟨nj, hnj, rfl⟩, ⟨ej, hej, rfl⟩, hne, hee, hknown⟩ := hw
  obtain ⟨files, hfiles⟩ := (files_rd [] f.iter).2 hfs
  have hver : j.member "version" Json.getI32 = .ok 3 := member_ok.2 ⟨v, hv, getI32_ok.2 hv3⟩
  obtain ⟨boxes, hboxes, hboxspec⟩ : ∃ boxes, boxesOf j = .ok boxes ∧
      ((∃ b, Member j "blackBoxes" b ∧ loadBoxes [] b.iter = .ok boxes) ∨
        ((¬ ∃ b, Member j "blackBoxes" b) ∧ boxes = [])) := by
    unfold boxesOf
    by_cases hc : j.contains "blackBoxes" = true
    · obtain ⟨b, hb⟩ := contains_ok.1 hc
      obtain ⟨boxes, hb'⟩ := (boxes_rd [] b.iter).2 (hbx b hb)
      refine ⟨boxes, ?_, Or.inl ⟨b, hb, hb'⟩⟩
      rw [if_pos hc, at_ok.2 hb]; exact hb'
    · exact ⟨[], if_neg hc, Or.inr ⟨fun h => hc (contains_ok.2 h), rfl⟩⟩
  obtain ⟨st1, ds, hn1, hb1, hds, hf1, hs1, hx1⟩ :=
    loadNodes_ok (c := c) nj.iter (built_start boxes files) hne
  simp only [List.nil_append] at hb1
  have hids := mem_ids hds
  have hmap : st1.idMap = lastPos (ds.map Prod.fst) := funext hb1.ids
  obtain ⟨⟨syms, l⟩, hl⟩ := (readEdges_rd (ds.map Prod.fst) [] ej.iter).2 fun x hx =>
    ⟨hee x hx, fun i hi => (hids i).2 (hknown x hx i hi)⟩
  have hspec := loadEdges_spec ej.iter hb1
  rw [hmap, hs1] at hspec
  simp only [hl] at hspec
  obtain ⟨st, he, hb, hf2, hx2⟩ := hspec
  refine ⟨st, files, boxes, ds, l, syms, ?_, ⟨f, hf, hfiles⟩, hboxspec, hds, hl, hb,
    by rw [hf2, hf1], by rw [hx2, hx1]⟩
  unfold load
  rw [hver]
  simp only [formatVersion, ne_eq, not_true_eq_false, ↓reduceIte, at_ok.2 hf, hfiles,
    hboxes, at_ok.2 hnj, hn1, at_ok.2 hej, he]

/-- A successful load had a well-formed file. -/
theorem load_wf {c : ConstCodec} {j : Json} {st : LoadSt} (h : load c j = .ok st) :
    ∃ nodes edges, WellFormed j nodes edges := by
  unfold load at h
  split at h
  · cases h
  rename_i v hv
  obtain ⟨vj, hvj, hv'⟩ := member_ok.1 hv
  split at h
  · cases h
  rename_i hv3
  have hv3' : v = 3 := by simpa [formatVersion] using hv3
  subst hv3'
  split at h
  · cases h
  rename_i f hf
  split at h
  · cases h
  rename_i files hfiles
  split at h
  · cases h
  rename_i boxes hboxes
  split at h
  · cases h
  rename_i nj hnj
  split at h
  · cases h
  rename_i st1 hn1
  split at h
  · cases h
  rename_i ej hej
  have hne := loadNodes_entries _ hn1
  obtain ⟨st1', ds, hn1', hb1, hds, _, hs1, _⟩ :=
    loadNodes_ok (c := c) nj.iter (built_start boxes files) hne
  rw [hn1] at hn1'
  cases hn1'
  simp only [List.nil_append] at hb1
  have hids := mem_ids hds
  have hmap : st1.idMap = lastPos (ds.map Prod.fst) := funext hb1.ids
  have hspec := loadEdges_spec ej.iter hb1
  rw [hmap, hs1] at hspec
  have hread : ∃ a, readEdges (lastPos (ds.map Prod.fst)) [] ej.iter = .ok a := by
    cases hl : readEdges (lastPos (ds.map Prod.fst)) [] ej.iter with
    | error e =>
      simp only [hl] at hspec
      rw [hspec] at h; cases h
    | ok a => exact ⟨a, rfl⟩
  have hee := (readEdges_rd _ _ _).1 hread
  refine ⟨nj.iter, ej.iter, ?_⟩
  rw [WellFormed, ← iter_elements]
  refine ⟨⟨vj, hvj, getI32_ok.1 hv'⟩,
    ⟨f, at_ok.1 hf, (files_rd [] _).1 ⟨files, hfiles⟩⟩, ?_, ⟨nj, at_ok.1 hnj, rfl⟩,
    ⟨ej, at_ok.1 hej, rfl⟩, hne, fun x hx => (hee x hx).1,
    fun x hx i hi => (hids i).1 ((hee x hx).2 i hi)⟩
  intro b hb
  rw [boxesOf, if_pos (contains_ok.2 ⟨b, hb⟩), at_ok.2 hb] at hboxes
  exact (boxes_rd [] _).1 ⟨boxes, hboxes⟩

/-! ### The graph's assertions never fail -/

theorem at_na (j : Json) (k : String) : j.at k ≠ .error .assertion := by
  unfold Json.at
  cases j <;> simp
  split <;> simp

theorem member_na {α : Type} (j : Json) (k : String) {get : Json → Except LoadErr α}
    (h : ∀ v, get v ≠ .error .assertion) : j.member k get ≠ .error .assertion := by
  unfold Json.member
  split
  · rename_i e he
    have := at_na j k
    rw [he] at this; simpa using this
  · exact h _

theorem getStr_na (j : Json) : j.getStr ≠ .error .assertion := by cases j <;> simp [Json.getStr]

theorem getBool_na (j : Json) : j.getBool ≠ .error .assertion := by cases j <;> simp [Json.getBool]

theorem getI32_na (j : Json) : j.getI32 ≠ .error .assertion := by
  cases j <;> simp [Json.getI32]
  split <;> simp

theorem getU32_na (j : Json) : j.getU32 ≠ .error .assertion := by
  cases j <;> simp [Json.getU32]
  split <;> simp

theorem getSize_na (j : Json) : j.getSize ≠ .error .assertion := by
  cases j <;> simp [Json.getSize]
  split <;> simp

theorem locOf_na (j : Json) : locOf j ≠ .error .assertion := by
  have h1 := member_na j "fileIndex" getU32_na
  have h2 := member_na j "line" getSize_na
  have h3 := member_na j "column" getSize_na
  unfold locOf
  split <;> simp_all

theorem symOf_na (j : Json) : symOf j ≠ .error .assertion := by
  have h1 := member_na j "name" getStr_na
  have h2 := member_na j "path" getStr_na
  have h3 := member_na j "location" locOf_na
  unfold symOf
  split <;> simp_all

theorem elem_na (j : Json) (i : Nat) : j.elem i ≠ .error .assertion := by
  cases j <;> simp [Json.elem]

theorem boundsOf_na (j : Json) : boundsOf j ≠ .error .assertion := by
  have h1 := elem_na j 0
  have h2 := elem_na j 1
  unfold boundsOf
  split
  · rename_i a b _ _
    have h3 := getI32_na a
    have h4 := getI32_na b
    split <;> simp_all
  · simp_all
  · simp_all

theorem namedOf_na (j : Json) : namedOf j ≠ .error .assertion := by
  have h0 := at_na j "bounds"
  have h1 := member_na j "name" getStr_na
  have h2 := member_na j "path" getStr_na
  have h3 := member_na j "location" locOf_na
  unfold namedOf
  split
  · simp_all
  · rename_i bj _
    have h4 := boundsOf_na bj
    split <;> simp_all

theorem map_na {α β : Type} {x : Except LoadErr α} (f : α → β) (h : x ≠ .error .assertion) :
    x.map f ≠ .error .assertion := by
  cases x <;> simp_all [Except.map]

theorem nodeDataOf_na (c : ConstCodec) (k : NodeKind) (j : Json) :
    nodeDataOf c k j ≠ .error .assertion := by
  have h0 := namedOf_na j
  have h1 := member_na j "direction" getStr_na
  have h2 := member_na j "width" getSize_na
  have h3 := member_na j "location" locOf_na
  have h4 := member_na j "value" getStr_na
  cases k with
  | port => unfold nodeDataOf; simp only; split <;> simp_all
  | constant => unfold nodeDataOf; simp only; split <;> simp_all
  | «variable» => exact map_na _ h0
  | state => exact map_na _ h0
  | assignment => exact map_na _ h3
  | conditional => exact map_na _ h3
  | case => exact map_na _ h3
  | merge => simp [nodeDataOf]
  | none => simp [nodeDataOf]

theorem nodeOf_na (c : ConstCodec) (j : Json) : nodeOf c j ≠ .error .assertion := by
  have h0 := member_na j "id" getSize_na
  have h1 := member_na j "kind" getStr_na
  unfold nodeOf
  split
  · rename_i k _ _
    have h2 := nodeDataOf_na c (kindOf k) j
    split <;> simp_all
  · simp_all
  · simp_all

theorem attr_na (syms : List SymRef) (j : Json) : edgeAttrOf syms j ≠ .error .assertion := by
  have h0 := member_na j "edgeKind" getStr_na
  have h1 := at_na j "symbol"
  have h2 := member_na j "bounds" boundsOf_na
  have h3 := member_na j "disabled" getBool_na
  unfold edgeAttrOf
  split
  · simp_all
  · split
    · simp_all
    · rename_i sj _
      have h4 := symOf_na sj
      by_cases hc : sj.contains "name" = true
      · simp only [hc, ↓reduceIte]
        cases hs : symOf sj with
        | error e => simp_all
        | ok s => simp only; split <;> simp_all
      · simp only [hc, Bool.false_eq_true, ↓reduceIte]
        split <;> simp_all

theorem readEdge_na (idMap : Nat → Option Nat) (syms : List SymRef) (j : Json) :
    readEdge idMap syms j ≠ .error .assertion := by
  have h0 := member_na j "source" getSize_na
  have h1 := member_na j "target" getSize_na
  have h2 := attr_na syms j
  unfold readEdge
  split
  · simp_all
  · simp_all
  · split
    · split <;> simp_all
    · simp

theorem readEdges_na (idMap : Nat → Option Nat) (syms : List SymRef) (js : List Json) :
    readEdges idMap syms js ≠ .error .assertion := by
  induction js generalizing syms with
  | nil => simp [readEdges]
  | cons j js ih =>
    have h1 := readEdge_na idMap syms j
    unfold readEdges
    split
    · simp_all
    · rename_i syms' x _
      have h2 := ih syms'
      split <;> simp_all

theorem loadNodes_na (c : ConstCodec) (js : List Json) {st : LoadSt}
    {ds : List (Nat × NodeData)} {es : List (Nat × Nat × EdgeAttr)} (hb : Built st ds es) :
    loadNodes c st js ≠ .error .assertion := by
  induction js generalizing st ds with
  | nil => simp [loadNodes]
  | cons j js ih =>
    have h1 := nodeOf_na c j
    unfold loadNodes
    split
    · simp_all
    · rename_i id d _
      obtain ⟨net', hc, hb', _⟩ := built_node hb id d
      simp only [hc]
      exact ih hb'

theorem files_na (fs : List Str) (js : List Json) : loadFiles fs js ≠ .error .assertion := by
  induction js generalizing fs with
  | nil => simp [loadFiles]
  | cons j js ih =>
    have h1 := getStr_na j
    unfold loadFiles
    split <;> simp_all

theorem boxes_na (fs : List Str) (js : List Json) : loadBoxes fs js ≠ .error .assertion := by
  induction js generalizing fs with
  | nil => simp [loadBoxes]
  | cons j js ih =>
    have h1 := getStr_na j
    unfold loadBoxes
    split <;> simp_all

theorem load_na (c : ConstCodec) (j : Json) : load c j ≠ .error .assertion := by
  have h1 := member_na j "version" getI32_na
  have h2 := at_na j "fileTable"
  have h3 := at_na j "nodes"
  have h4 := at_na j "edges"
  have h5 : boxesOf j ≠ .error .assertion := by
    have := at_na j "blackBoxes"
    unfold boxesOf
    split
    · split
      · simp_all
      · exact boxes_na _ _
    · simp
  unfold load
  split
  · simp_all
  split
  · simp
  split
  · simp_all
  split
  · rename_i f hf _ e he
    have := files_na [] f.iter
    simp_all
  split
  · simp_all
  split
  · simp_all
  rename_i files _ _ boxes _ _ nj hnj
  split
  · rename_i e he
    have := loadNodes_na c nj.iter (built_start boxes files)
    simp_all
  rename_i st1 hn1
  split
  · simp_all
  rename_i ej _
  obtain ⟨st1', ds, hn1', hb1, -⟩ :=
    loadNodes_ok (c := c) nj.iter (built_start boxes files) (loadNodes_entries _ hn1)
  rw [hn1] at hn1'
  cases hn1'
  have hs := loadEdges_spec ej.iter hb1
  have hna := readEdges_na st1.idMap st1.syms ej.iter
  split at hs
  · rename_i e he
    rw [hs]; rw [he] at hna; simpa using hna
  · obtain ⟨st', he, -⟩ := hs
    rw [he]; simp

/-! ### Reading back what was written -/

theorem int_i32 {v : Int} (h1 : -2 ^ 31 ≤ v) (h2 : v < 2 ^ 31) : (Json.int v).getI32 = .ok v := by
  rw [getI32_ok]; exact Or.inl ⟨0, by simp, h1, h2⟩

theorem int_u32 {v : Nat} (h : v < 2 ^ 32) : (Json.int v).getU32 = .ok v := by
  rw [getU32_ok]; exact Or.inl ⟨0, by simp, h⟩

theorem int_size {v : Nat} (h : v < 2 ^ 64) : (Json.int v).getSize = .ok v := by
  rw [getSize_ok]; exact Or.inl ⟨0, by simp, h⟩

theorem loc_back {l : TextLoc} (h : LocFits l) : locOf (locJson l) = .ok l := by
  obtain ⟨h1, h2, h3⟩ := h
  simp [locOf, locJson, Json.member, Json.at, List.lookup, int_u32 h1, int_size h2, int_size h3]

theorem sym_back {s : SymRef} (h : LocFits s.loc) : symOf (symJson s) = .ok s := by
  simp [symOf, symJson, Json.member, Json.at, List.lookup, Json.getStr, loc_back h]

theorem bounds_back {b : BitRange} (h : RangeFits b) :
    boundsOf (boundsJson b) = .ok (normRange b) := by
  obtain ⟨h1, h2, h3, h4⟩ := h
  have ha : (Json.int b.lower).getI32 = .ok b.lower :=
    int_i32 (by unfold BitRange.lower; omega) (by unfold BitRange.lower; omega)
  have hb : (Json.int b.upper).getI32 = .ok b.upper :=
    int_i32 (by unfold BitRange.upper; omega) (by unfold BitRange.upper; omega)
  simp only [boundsOf, boundsJson, Json.elem, List.getD_cons_zero, List.getD_cons_succ, ha, hb]
  rfl

theorem load_readBack (c : ConstCodec) (v : Str) : c.load v = readBack c v := by
  cases v with
  | nil => rfl
  | cons x v =>
    simp only [ConstCodec.load, readBack, reduceCtorEq, if_false]
    cases c.decode (x :: v) <;> rfl

theorem node_back (c : ConstCodec) {id : Nat} (hid : id < 2 ^ 64) {d : NodeData}
    (h : DataFits d) : nodeOf c (nodeJson id d) = .ok (id, normData (readBack c) d) := by
  cases d with
  | bare =>
    simp [nodeOf, nodeJson, Json.member, Json.at, List.lookup, int_size hid, Json.getStr,
      kindOf_name, nodeDataOf, normData]
  | merge =>
    simp [nodeOf, nodeJson, Json.member, Json.at, List.lookup, int_size hid, Json.getStr,
      kindOf_name, nodeDataOf, normData]
  | port n p l d b =>
    simp [nodeOf, nodeJson, Json.member, Json.at, List.lookup, int_size hid, Json.getStr,
      kindOf_name, nodeDataOf, normData, namedOf, loc_back h.1, bounds_back h.2, dirOf_name]
  | «variable» n p l b =>
    simp [nodeOf, nodeJson, Json.member, Json.at, List.lookup, int_size hid, Json.getStr,
      kindOf_name, nodeDataOf, normData, namedOf, loc_back h.1, bounds_back h.2, Except.map]
  | state n p l b =>
    simp [nodeOf, nodeJson, Json.member, Json.at, List.lookup, int_size hid, Json.getStr,
      kindOf_name, nodeDataOf, normData, namedOf, loc_back h.1, bounds_back h.2, Except.map]
  | assignment l =>
    simp [nodeOf, nodeJson, Json.member, Json.at, List.lookup, int_size hid, Json.getStr,
      kindOf_name, nodeDataOf, normData, loc_back (l := l) h, Except.map]
  | conditional l =>
    simp [nodeOf, nodeJson, Json.member, Json.at, List.lookup, int_size hid, Json.getStr,
      kindOf_name, nodeDataOf, normData, loc_back (l := l) h, Except.map]
  | case l =>
    simp [nodeOf, nodeJson, Json.member, Json.at, List.lookup, int_size hid, Json.getStr,
      kindOf_name, nodeDataOf, normData, loc_back (l := l) h, Except.map]
  | constant v w l =>
    simp [nodeOf, nodeJson, Json.member, Json.at, List.lookup, int_size hid, Json.getStr,
      kindOf_name, nodeDataOf, normData, int_size h.1, loc_back h.2, load_readBack]

/-- Interning keeps records of a consistent family and returns the record given. -/
theorem intern_cons {S : SymRef → Prop} (hS : ∀ s t, S s → S t → s.path = t.path → s = t)
    {syms : List SymRef} (h : ∀ r ∈ syms, S r) {s : SymRef} (hs : S s) :
    (internSym syms s).2 = s ∧ ∀ r ∈ (internSym syms s).1, S r := by
  unfold internSym
  split
  · rename_i r hf
    have hp := List.find?_some hf
    exact ⟨hS r s (h r (List.mem_of_find?_eq_some hf)) hs (by simpa using hp), h⟩
  · refine ⟨rfl, ?_⟩
    intro r hr
    rcases List.mem_append.1 hr with hr | hr
    · exact h r hr
    · simp only [List.mem_singleton] at hr; subst hr; exact hs

theorem attr_back {S : SymRef → Prop} (hS : ∀ s t, S s → S t → s.path = t.path → s = t)
    {syms : List SymRef} (h : ∀ r ∈ syms, S r) {a : EdgeAttr} (hf : AttrFits a)
    (ha : ∀ s, a.symbol = some s → S s) (x y : Nat) :
    ∃ syms', edgeAttrOf syms (edgeJson x y a) = .ok (syms', normAttr a) ∧ ∀ r ∈ syms', S r := by
  obtain ⟨k, so, b, d⟩ := a
  have hb := bounds_back hf.1
  simp only at hb
  cases so with
  | none =>
    refine ⟨syms, ?_, h⟩
    simp [edgeAttrOf, edgeJson, Json.member, Json.at, List.lookup, Json.getStr, Json.contains,
      Json.getBool, hb, edgeOf_name, normAttr]
  | some s =>
    obtain ⟨h1, h2⟩ := intern_cons hS h (ha s rfl)
    refine ⟨_, ?_, h2⟩
    have hc : (symJson s).contains "name" = true := by simp [symJson, Json.contains, List.lookup]
    simp [edgeAttrOf, edgeJson, Json.member, Json.at, List.lookup, Json.getStr, hc,
      sym_back (hf.2 s rfl), Json.getBool, hb, edgeOf_name, normAttr, h1]

theorem edge_back {S : SymRef → Prop} (hS : ∀ s t, S s → S t → s.path = t.path → s = t)
    {syms : List SymRef} (h : ∀ r ∈ syms, S r) {a : EdgeAttr} (hf : AttrFits a)
    (ha : ∀ s, a.symbol = some s → S s) {x y p q : Nat} (hx : x < 2 ^ 64) (hy : y < 2 ^ 64)
    {idMap : Nat → Option Nat} (hp : idMap x = some p) (hq : idMap y = some q) :
    ∃ syms', readEdge idMap syms (edgeJson x y a) = .ok (syms', p, q, normAttr a) ∧
      ∀ r ∈ syms', S r := by
  obtain ⟨syms', h1, h2⟩ := attr_back hS h hf ha x y
  refine ⟨syms', ?_, h2⟩
  have hsrc : (edgeJson x y a).member "source" Json.getSize = .ok x := by
    simp [edgeJson, Json.member, Json.at, List.lookup, int_size hx]
  have htgt : (edgeJson x y a).member "target" Json.getSize = .ok y := by
    simp [edgeJson, Json.member, Json.at, List.lookup, int_size hy]
  simp [readEdge, hsrc, htgt, hp, hq, h1]

theorem edges_back {S : SymRef → Prop} (hS : ∀ s t, S s → S t → s.path = t.path → s = t)
    {α : Type} (l : List α) (src tgt : α → Nat) (at' : α → EdgeAttr) (pos : α → Nat × Nat)
    {idMap : Nat → Option Nat} {syms : List SymRef} (h : ∀ r ∈ syms, S r)
    (hl : ∀ e ∈ l, AttrFits (at' e) ∧ (∀ s, (at' e).symbol = some s → S s) ∧ src e < 2 ^ 64 ∧
      tgt e < 2 ^ 64 ∧ idMap (src e) = some (pos e).1 ∧ idMap (tgt e) = some (pos e).2) :
    ∃ syms', readEdges idMap syms (l.map fun e => edgeJson (src e) (tgt e) (at' e)) =
      .ok (syms', l.map fun e => ((pos e).1, (pos e).2, normAttr (at' e))) := by
  induction l generalizing syms with
  | nil => exact ⟨syms, rfl⟩
  | cons e l ih =>
    obtain ⟨h1, h2, h3, h4, h5, h6⟩ := hl e List.mem_cons_self
    obtain ⟨s1, e1, c1⟩ := edge_back hS h h1 h2 h3 h4 h5 h6
    obtain ⟨s2, e2⟩ := ih c1 fun f hf => hl f (List.mem_cons_of_mem _ hf)
    exact ⟨s2, by simp [readEdges, e1, e2]⟩

/-! ### Merging parallel edges -/

/-- `putEdge` on the out-list of one node. -/
def putOut (l : List (Nat × EdgeAttr)) (t : Nat) (a : EdgeAttr) : List (Nat × EdgeAttr) :=
  if l.any (fun x => x.1 == t) then l.map fun x => if x.1 = t then (t, a) else x
  else l ++ [(t, a)]

theorem putEdge_src (es : List (Nat × Nat × EdgeAttr)) (s t : Nat) (a : EdgeAttr) (n : Nat) :
    ((putEdge es s t a).filter fun x => x.1 == n).map Prod.snd =
      if s = n then putOut ((es.filter fun x => x.1 == n).map Prod.snd) t a
      else (es.filter fun x => x.1 == n).map Prod.snd := by
  have hany : ((es.filter fun x => x.1 == s).map Prod.snd).any (fun x => x.1 == t) =
      es.any fun x => x.1 == s && x.2.1 == t := by
    rw [List.any_map, any_filter_and]; rfl
  unfold putEdge
  by_cases hs : s = n
  · subst hs
    simp only [↓reduceIte, putOut, hany]
    split
    · rw [List.filter_map, List.map_map, List.map_map]
      have : ((fun x : Nat × Nat × EdgeAttr => x.1 == s) ∘
          fun x => if x.1 = s ∧ x.2.1 = t then (s, t, a) else x) = fun x => x.1 == s := by
        funext x
        simp only [Function.comp]
        split <;> simp_all
      rw [this]
      refine List.map_congr_left fun x hx => ?_
      have hx1 : x.1 = s := by simpa using (List.mem_filter.1 hx).2
      simp only [Function.comp, hx1, true_and]
      split <;> rfl
    · simp [List.filter_append]
  · simp only [hs, ↓reduceIte]
    split
    · rw [List.filter_map, List.map_map]
      have : ((fun x : Nat × Nat × EdgeAttr => x.1 == n) ∘
          fun x => if x.1 = s ∧ x.2.1 = t then (s, t, a) else x) = fun x => x.1 == n := by
        funext x
        simp only [Function.comp]
        split
        · rename_i h; simp [h.1]
        · rfl
      rw [this]
      refine List.map_congr_left fun x hx => ?_
      have hx1 : x.1 = n := by simpa using (List.mem_filter.1 hx).2
      have : ¬ (x.1 = s ∧ x.2.1 = t) := fun h => hs (h.1.symm.trans hx1)
      simp [Function.comp, this]
    · simp [List.filter_append, hs]

theorem foldl_putEdge_src (l es : List (Nat × Nat × EdgeAttr)) (n : Nat) :
    ((l.foldl (fun es x => putEdge es x.1 x.2.1 x.2.2) es).filter fun x => x.1 == n).map Prod.snd =
      ((l.filter fun x => x.1 == n).map Prod.snd).foldl (fun o x => putOut o x.1 x.2)
        ((es.filter fun x => x.1 == n).map Prod.snd) := by
  induction l generalizing es with
  | nil => rfl
  | cons x l ih =>
    simp only [List.foldl_cons]
    rw [ih, putEdge_src]
    by_cases h : x.1 = n
    · simp [h]
    · simp [h]

theorem mergePar_keys (l : List (Nat × EdgeAttr)) (t : Nat) :
    (mergePar l).any (fun x => x.1 == t) = l.any (fun x => x.1 == t) := by
  induction l with
  | nil => rfl
  | cons y l ih =>
    obtain ⟨s, b⟩ := y
    simp only [mergePar, List.any_cons]
    by_cases h : s = t
    · simp [h]
    · have hs : (s == t) = false := by simpa using h
      rw [hs, Bool.false_or, Bool.false_or, any_filter_and, ← ih]
      congr 1
      funext x
      by_cases hx : x.1 = t
      · simp [hx, Ne.symm h]
      · simp [hx]

theorem mergePar_snoc (l : List (Nat × EdgeAttr)) (t : Nat) (a : EdgeAttr) :
    mergePar (l ++ [(t, a)]) = putOut (mergePar l) t a := by
  induction l with
  | nil => simp [mergePar, putOut]
  | cons y l ih =>
    obtain ⟨s, b⟩ := y
    simp only [List.cons_append, mergePar, ih, List.reverse_append, List.reverse_cons,
      List.reverse_nil, List.nil_append, List.find?_cons]
    by_cases h : t = s
    · subst h
      simp only [BEq.rfl, Option.map_some, Option.getD_some]
      simp only [putOut, List.any_cons, BEq.rfl, Bool.true_or, ↓reduceIte, List.map_cons]
      congr 1
      have hf : ∀ m : List (Nat × EdgeAttr), (m.filter fun x => x.1 != t).map
          (fun x => if x.1 = t then (t, a) else x) = m.filter fun x => x.1 != t := by
        intro m
        conv => rhs; rw [← List.map_id (m.filter fun x => x.1 != t)]
        refine List.map_congr_left fun x hx => ?_
        have : x.1 ≠ t := by simpa using (List.mem_filter.1 hx).2
        simp [this]
      rw [hf]
      split
      · rw [List.filter_map]
        have : ((fun x : Nat × EdgeAttr => x.1 != t) ∘
            fun x => if x.1 = t then (t, a) else x) = fun x => x.1 != t := by
          funext x
          simp only [Function.comp]
          split <;> simp_all
        rw [this, hf]
      · simp [List.filter_append]
    · have hts : (t == s) = false := by simpa using h
      have hst : (s == t) = false := by simpa using Ne.symm h
      simp only [hts]
      unfold putOut
      simp only [List.any_cons, hst, Bool.false_or, any_filter_and]
      have hq : ((mergePar l).any fun x => x.1 != s && x.1 == t) =
          (mergePar l).any fun x => x.1 == t := by
        congr 1; funext x
        by_cases hx : x.1 = t
        · simp [hx, h]
        · simp [hx]
      rw [hq]
      split
      · simp only [List.map_cons]
        have : ¬ s = t := Ne.symm h
        simp only [this, ↓reduceIte]
        congr 1
        rw [List.filter_map]
        congr 2
        funext x
        simp only [Function.comp]
        split
        · rename_i hx; simp [hx]
        · rfl
      · simp [List.filter_append, h]

theorem foldl_putOut (l : List (Nat × EdgeAttr)) :
    l.foldl (fun o x => putOut o x.1 x.2) [] = mergePar l := by
  suffices H : ∀ l pre, l.foldl (fun o x => putOut o x.1 x.2) (mergePar pre) = mergePar (pre ++ l) by
    simpa [mergePar] using H l []
  intro l
  induction l with
  | nil => intro pre; simp
  | cons x l ih =>
    intro pre
    simp only [List.foldl_cons]
    rw [← mergePar_snoc, ih]
    simp

theorem mergePar_id {l : List (Nat × EdgeAttr)} (h : (l.map Prod.fst).Nodup) : mergePar l = l := by
  induction l with
  | nil => rfl
  | cons x l ih =>
    obtain ⟨t, a⟩ := x
    simp only [List.map_cons, List.nodup_cons] at h
    have hn : ∀ x ∈ l, x.1 ≠ t := fun x hx hc => h.1 (hc ▸ List.mem_map_of_mem hx)
    have hf : (l.reverse.find? fun x => x.1 == t) = none := by
      rw [List.find?_eq_none]; intro x hx; simpa using hn x (List.mem_reverse.1 hx)
    simp only [mergePar, ih h.2, hf, Option.map_none, Option.getD_none]
    congr 1
    rw [List.filter_eq_self]
    intro x hx; simpa using hn x hx

theorem lastPos_nodup {ids : List Nat} (h : ids.Nodup) {k : Nat} (hk : k ∈ ids) :
    lastPos ids k = some (ids.idxOf k) := by
  rw [lastPos_iff]
  have hlt := List.idxOf_lt_length_of_mem hk
  have hget : ids[ids.idxOf k]? = some k := by
    rw [List.getElem?_eq_getElem hlt, List.getElem_idxOf]
  refine ⟨hget, ?_⟩
  intro q hq hc
  obtain ⟨hq1, hq2⟩ := List.getElem?_eq_some_iff.1 hc
  obtain ⟨hi1, hi2⟩ := List.getElem?_eq_some_iff.1 hget
  have := (List.pairwise_iff_getElem.1 h) _ _ hi1 hq1 hq
  exact this (hi2.trans hq2.symm)

end Verif.Proofs
