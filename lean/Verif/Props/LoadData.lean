import Verif.Props.Serial
import Verif.Spec.LoadData

/-! C107: what is loaded. -/
namespace Verif.Props
open Verif.Model Verif.Spec Verif.Proofs

theorem locVal_iff {j : Json} {l : TextLoc} : locOf j = .ok l ↔ LocVal j l := by
  have e : LocVal j l ↔ j.member "fileIndex" Json.getU32 = .ok l.file ∧ j.member "line" Json.getSize = .ok l.line ∧
      j.member "column" Json.getSize = .ok l.col := by
    simp only [member_ok, getU32_ok, getSize_ok]; rfl
  rw [e]
  unfold locOf
  cases j.member "fileIndex" Json.getU32 <;> cases j.member "line" Json.getSize <;>
    cases j.member "column" Json.getSize <;> simp
  rename_i a b c
  cases l
  simp

theorem symVal_iff {j : Json} {r : SymRef} : symOf j = .ok r ↔ SymVal j r := by
  have e : SymVal j r ↔ j.member "name" Json.getStr = .ok r.name ∧ j.member "path" Json.getStr = .ok r.path ∧
      j.member "location" locOf = .ok r.loc := by
    simp only [member_ok, getStr_ok, locVal_iff, SymVal, Has, exists_eq_right]
  rw [e]
  unfold symOf
  cases j.member "name" Json.getStr <;> cases j.member "path" Json.getStr <;>
    cases j.member "location" locOf <;> simp
  rename_i a b c
  cases r
  simp

theorem rangeVal_of {j : Json} {b : BitRange} (h : boundsOf j = .ok b) : RangeVal j b := by
  obtain ⟨x, y, l, rfl, _, _⟩ := (range_rd j).1 ⟨b, h⟩
  refine ⟨x, y, l, rfl, ?_⟩
  simp only [boundsOf, Json.elem, List.getD_cons_zero, List.getD_cons_succ] at h
  rw [← getI32_ok, ← getI32_ok]
  cases hx : x.getI32 <;> cases hy : y.getI32 <;> simp [hx, hy] at h
  subst h
  exact ⟨rfl, rfl⟩

theorem namedVal_of {j : Json} {n p : Str} {l : TextLoc} {b : BitRange} (h : namedOf j = .ok (n, p, l, b)) :
    NamedVal j n p l b := by
  unfold namedOf at h
  cases hb : j.at "bounds" with
  | error e => simp [hb] at h
  | ok bj =>
    cases h1 : j.member "name" Json.getStr <;> cases h2 : j.member "path" Json.getStr <;>
      cases h3 : j.member "location" locOf <;> cases h4 : boundsOf bj <;> simp [hb, h1, h2, h3, h4] at h
    obtain ⟨rfl, rfl, rfl, rfl⟩ := h
    simp only [member_ok, getStr_ok, locVal_iff, exists_eq_right] at h1 h2 h3
    exact ⟨h1, h2, h3, bj, at_ok.1 hb, rangeVal_of h4⟩

theorem kindIs_of {j : Json} {s : Str} {k : NodeKind} (hk : k ≠ .none) (h : Member j "kind" (.str s)) (e : kindOf s = k) :
    KindIs j k := by
  rw [(kindOf_eq hk).1 e] at h
  exact h

theorem load_readBack (c : ConstCodec) (s : Str) : c.load s = readBack c s := by
  unfold ConstCodec.load readBack
  cases s with
  | nil => rfl
  | cons x v =>
    simp only [reduceCtorEq, if_false]
    cases c.decode (x :: v) <;> rfl

theorem nodeSays_of {c : ConstCodec} {j : Json} {i : Nat} {d : NodeData} (h : nodeOf c j = .ok (i, d)) :
    NodeSays (readBack c) j d := by
  unfold nodeOf at h
  cases h1 : j.member "id" Json.getSize <;> cases h2 : j.member "kind" Json.getStr <;> simp [h1, h2] at h
  rename_i id k
  have hk : Member j "kind" (.str k) := by
    simpa only [member_ok, getStr_ok, exists_eq_right] using h2
  cases hd : nodeDataOf c (kindOf k) j with
  | error e => simp [hd] at h
  | ok d' =>
    simp only [hd, Except.ok.injEq, Prod.mk.injEq] at h
    obtain ⟨rfl, rfl⟩ := h
    have hloc : ∀ {l : TextLoc}, j.member "location" locOf = .ok l → Has j "location" fun v => LocVal v l := by
      intro l h
      simp only [member_ok, locVal_iff] at h
      exact h
    cases hK : kindOf k with
    | none =>
      simp only [hK, nodeDataOf, Except.ok.injEq] at hd
      subst hd
      refine ⟨k, hk, fun m hm e => ?_⟩
      rw [e, kindOf_name] at hK
      exact hm hK
    | merge =>
      simp only [hK, nodeDataOf, Except.ok.injEq] at hd
      subst hd
      exact kindIs_of (by simp) hk hK
    | port =>
      simp only [hK, nodeDataOf] at hd
      cases hn : namedOf j <;> cases hdir : j.member "direction" Json.getStr <;> simp [hn, hdir] at hd
      rename_i x s
      subst hd
      refine ⟨kindIs_of (by simp) hk hK, namedVal_of hn, s, ?_, ?_⟩
      · simpa only [member_ok, getStr_ok, exists_eq_right] using hdir
      · by_cases he : ∃ e, s = dirName e
        · obtain ⟨e, rfl⟩ := he
          exact .inl (by rw [dirOf_name])
        · have he' : ∀ e, s ≠ dirName e := fun e h => he ⟨e, h⟩
          exact .inr ⟨(unknown_names s).2.2 fun e => he' e, he'⟩
    | «variable» =>
      simp only [hK, nodeDataOf] at hd
      cases hn : namedOf j <;> simp [hn, Except.map] at hd
      subst hd
      exact ⟨kindIs_of (by simp) hk hK, namedVal_of hn⟩
    | state =>
      simp only [hK, nodeDataOf] at hd
      cases hn : namedOf j <;> simp [hn, Except.map] at hd
      subst hd
      exact ⟨kindIs_of (by simp) hk hK, namedVal_of hn⟩
    | assignment =>
      simp only [hK, nodeDataOf] at hd
      cases hn : j.member "location" locOf <;> simp [hn, Except.map] at hd
      subst hd
      exact ⟨kindIs_of (by simp) hk hK, hloc hn⟩
    | conditional =>
      simp only [hK, nodeDataOf] at hd
      cases hn : j.member "location" locOf <;> simp [hn, Except.map] at hd
      subst hd
      exact ⟨kindIs_of (by simp) hk hK, hloc hn⟩
    | case =>
      simp only [hK, nodeDataOf] at hd
      cases hn : j.member "location" locOf <;> simp [hn, Except.map] at hd
      subst hd
      exact ⟨kindIs_of (by simp) hk hK, hloc hn⟩
    | constant =>
      simp only [hK, nodeDataOf] at hd
      cases hw : j.member "width" Json.getSize <;> cases hv : j.member "value" Json.getStr <;>
        cases hn : j.member "location" locOf <;> simp [hw, hv, hn] at hd
      subst hd
      refine ⟨kindIs_of (by simp) hk hK, ?_, ⟨_, ?_, load_readBack c _⟩, hloc hn⟩
      · simp only [member_ok, getSize_ok] at hw
        exact hw
      · simpa only [member_ok, getStr_ok, exists_eq_right] using hv

theorem entrySym_iff {j sj : Json} (h : Member j "symbol" sj) {r : SymRef} : EntrySym j r ↔ symOf sj = .ok r := by
  rw [symVal_iff]
  constructor
  · rintro ⟨s, h1, h2⟩
    rwa [member_unique h1 h] at h2
  · exact fun k => ⟨sj, h, k⟩

/-- What the annotations of an entry are, and what becomes of the symbol table. -/
theorem edgeSays_of {syms syms' : List SymRef} {j : Json} {a : EdgeAttr} (h : edgeAttrOf syms j = .ok (syms', a)) :
    EdgeSays j a ∧
    ((a.symbol = none ∧ syms' = syms ∧ ∀ q, ¬ EntrySym j q) ∨
      ∃ q r, EntrySym j q ∧ (∀ q', EntrySym j q' → q' = q) ∧ internSym syms q = (syms', r) ∧ a.symbol = some r) := by
  unfold edgeAttrOf at h
  cases h1 : j.member "edgeKind" Json.getStr with
  | error e => simp [h1] at h
  | ok k =>
    cases h2 : j.at "symbol" with
    | error e => simp [h1, h2] at h
    | ok sj =>
      have hsj := at_ok.1 h2
      have hkind : ∃ s, Member j "edgeKind" (.str s) ∧
          (s = edgeName (edgeOf k) ∨ edgeOf k = .none ∧ ∀ e, s ≠ edgeName e) := by
        refine ⟨k, by simpa only [member_ok, getStr_ok, exists_eq_right] using h1, ?_⟩
        by_cases he : ∃ e, k = edgeName e
        · obtain ⟨e, rfl⟩ := he
          exact .inl (by rw [edgeOf_name])
        · have he' : ∀ e, k ≠ edgeName e := fun e h => he ⟨e, h⟩
          exact .inr ⟨(unknown_names k).2.1 fun e => he' e, he'⟩
      have hb : ∀ {b : BitRange}, j.member "bounds" boundsOf = .ok b → Has j "bounds" fun v => RangeVal v b := by
        intro b h
        obtain ⟨v, hv, hb⟩ := member_ok.1 h
        exact ⟨v, hv, rangeVal_of hb⟩
      have hd : ∀ {d : Bool}, j.member "disabled" Json.getBool = .ok d → Member j "disabled" (.bool d) := by
        intro d h
        simpa only [member_ok, getBool_ok, exists_eq_right] using h
      simp only [h1, h2] at h
      by_cases hc : sj.contains "name" = true
      · cases hs : symOf sj with
        | error e => simp [hc, hs] at h
        | ok q =>
          simp only [hc, hs, if_true] at h
          cases h3 : j.member "bounds" boundsOf <;> cases h4 : j.member "disabled" Json.getBool <;>
            simp [h3, h4] at h
          obtain ⟨rfl, rfl⟩ := h
          have hq : EntrySym j q := (entrySym_iff hsj).2 hs
          have hp : (internSym syms q).2.path = q.path := by
            unfold internSym
            split
            · rename_i r hr
              simpa using List.find?_some hr
            · rfl
          refine ⟨⟨hkind, ⟨q, hq, hp.symm⟩, hb h3, hd h4⟩, .inr ⟨q, _, hq, fun q' h' => ?_, rfl, rfl⟩⟩
          have := (entrySym_iff hsj).1 h'
          rw [hs] at this
          cases this
          rfl
      · simp only [hc, if_false, Bool.false_eq_true] at h
        cases h3 : j.member "bounds" boundsOf <;> cases h4 : j.member "disabled" Json.getBool <;>
          simp [h3, h4] at h
        obtain ⟨rfl, rfl⟩ := h
        have hno : ∀ v, ¬ Member sj "name" v := fun v hv => hc (contains_ok.2 ⟨v, hv⟩)
        refine ⟨⟨hkind, ⟨sj, hsj, hno⟩, hb h3, hd h4⟩, .inl ⟨rfl, rfl, fun q hq => ?_⟩⟩
        obtain ⟨s, e1, e2⟩ := hq
        rw [member_unique e1 hsj] at e2
        exact hno _ e2.1

theorem readEdge_attr {idMap : Nat → Option Nat} {syms syms' : List SymRef} {j : Json} {a b : Nat} {x : EdgeAttr}
    (h : readEdge idMap syms j = .ok (syms', a, b, x)) : edgeAttrOf syms j = .ok (syms', x) := by
  unfold readEdge at h
  cases h1 : j.member "source" Json.getSize <;> cases h2 : j.member "target" Json.getSize <;> simp [h1, h2] at h
  rename_i s t
  cases h3 : idMap s <;> cases h4 : idMap t <;> simp [h3, h4] at h
  cases h5 : edgeAttrOf syms j <;> simp [h5] at h
  obtain ⟨h1, rfl, rfl, h2⟩ := h
  rw [← h1, ← h2]

/-- The entries one by one. -/
theorem readEdges_at {idMap : Nat → Option Nat} (js : List Json) : ∀ {syms syms' : List SymRef}
    {l : List (Nat × Nat × EdgeAttr)}, readEdges idMap syms js = .ok (syms', l) →
    l.length = js.length ∧ ∀ (i : Nat) x a b y, js[i]? = some x → l[i]? = some (a, b, y) →
      (∀ p q, (p = a ∧ q = b) ↔ ∃ s t, IdField x "source" s ∧ IdField x "target" t ∧ idMap s = some p ∧ idMap t = some q) ∧
      EdgeSays x y ∧
      ∀ r, y.symbol = some r → syms.find? (fun q => decide (q.path = r.path)) = some r ∨
        (syms.find? (fun q => decide (q.path = r.path)) = none ∧ FirstSym js r) := by
  induction js with
  | nil =>
    intro syms syms' l h
    simp only [readEdges, Except.ok.injEq, Prod.mk.injEq] at h
    obtain ⟨_, rfl⟩ := h
    exact ⟨rfl, by simp⟩
  | cons j js ih =>
    intro syms syms' l h
    simp only [readEdges] at h
    cases h1 : readEdge idMap syms j with
    | error e => simp [h1] at h
    | ok v =>
      obtain ⟨s1, a, b, y⟩ := v
      cases h2 : readEdges idMap s1 js with
      | error e => simp [h1, h2] at h
      | ok w =>
        obtain ⟨s2, xs⟩ := w
        simp only [h1, h2, Except.ok.injEq, Prod.mk.injEq] at h
        obtain ⟨rfl, rfl⟩ := h
        obtain ⟨hlen, hat⟩ := ih h2
        obtain ⟨hs, ht⟩ := edgeSays_of (readEdge_attr h1)
        refine ⟨by simp [hlen], fun i x a' b' y' hx hy => ?_⟩
        cases i with
        | zero =>
          simp only [List.getElem?_cons_zero, Option.some.injEq, Prod.mk.injEq] at hx hy
          obtain ⟨rfl, rfl, rfl⟩ := hy
          subst hx
          refine ⟨readEdge_ends h1, hs, fun r hr => ?_⟩
          rcases ht with ⟨hn, _, _⟩ | ⟨q, r', hq, hu, hi, hsym⟩
          · rw [hn] at hr; cases hr
          · rw [hsym] at hr
            cases hr
            unfold internSym at hi
            split at hi
            · rename_i r0 hr0
              simp only [Prod.mk.injEq] at hi
              obtain ⟨_, rfl⟩ := hi
              have hp : r0.path = q.path := by simpa using List.find?_some hr0
              exact .inl (by rw [hp]; exact hr0)
            · rename_i hr0
              simp only [Prod.mk.injEq] at hi
              obtain ⟨_, rfl⟩ := hi
              exact .inr ⟨hr0, 0, j, rfl, hq, fun m z q' hm => absurd hm (by omega)⟩
        | succ i =>
          simp only [List.getElem?_cons_succ] at hx hy
          obtain ⟨g1, g2, g3⟩ := hat i x a' b' y' hx hy
          refine ⟨g1, g2, fun r hr => ?_⟩
          rcases ht with ⟨_, hse, hno⟩ | ⟨q, r', hq, hu, hi, _⟩
          · subst hse
            rcases g3 r hr with g | ⟨g, k, z, hz, hzr, hk⟩
            · exact .inl g
            · refine .inr ⟨g, k + 1, z, by simpa using hz, hzr, fun m z' q' hm hz' hq' => ?_⟩
              cases m with
              | zero => simp only [List.getElem?_cons_zero, Option.some.injEq] at hz'; subst hz'; exact absurd hq' (hno q')
              | succ m => exact hk m z' q' (by omega) (by simpa using hz') hq'
          · unfold internSym at hi
            split at hi
            · rename_i r0 hr0
              simp only [Prod.mk.injEq] at hi
              obtain ⟨hse, _⟩ := hi
              subst hse
              have hp : r0.path = q.path := by simpa using List.find?_some hr0
              rcases g3 r hr with g | ⟨g, k, z, hz, hzr, hk⟩
              · exact .inl g
              · refine .inr ⟨g, k + 1, z, by simpa using hz, hzr, fun m z' q' hm hz' hq' => ?_⟩
                cases m with
                | zero =>
                  simp only [List.getElem?_cons_zero, Option.some.injEq] at hz'
                  subst hz'
                  intro he
                  rw [hu q' hq'] at he
                  have := List.find?_eq_none.1 g r0 (List.mem_of_find?_eq_some hr0)
                  simp [hp, he] at this
                | succ m => exact hk m z' q' (by omega) (by simpa using hz') hq'
            · rename_i hr0
              simp only [Prod.mk.injEq] at hi
              obtain ⟨hse, rfl⟩ := hi
              subst hse
              simp only [List.find?_append] at g3
              rcases g3 r hr with g | ⟨g, k, z, hz, hzr, hk⟩
              · cases hf : syms.find? (fun q => decide (q.path = r.path)) with
                | some r0 => rw [hf] at g; exact .inl (by simpa using g)
                | none =>
                  rw [hf] at g
                  have hrq : q = r := by
                    simp at g
                    exact g.2
                  subst hrq
                  exact .inr ⟨rfl, 0, j, rfl, hq, fun m z q' hm => absurd hm (by omega)⟩
              · cases hf : syms.find? (fun q => decide (q.path = r.path)) with
                | some r0 => rw [hf] at g; simp at g
                | none =>
                  rw [hf] at g
                  refine .inr ⟨rfl, k + 1, z, by simpa using hz, hzr, fun m z' q' hm hz' hq' => ?_⟩
                  cases m with
                  | zero =>
                    simp only [List.getElem?_cons_zero, Option.some.injEq] at hz'
                    subst hz'
                    rw [hu q' hq']
                    intro he
                    simp [he] at g
                  | succ m => exact hk m z' q' (by omega) (by simpa using hz') hq'

theorem mem_putEdge_iff (es : List (Nat × Nat × EdgeAttr)) (s t a b : Nat) (x y : EdgeAttr)
    (h : (a, b, y) ∈ putEdge es s t x) : (a = s ∧ b = t ∧ y = x) ∨ (¬ (a = s ∧ b = t) ∧ (a, b, y) ∈ es) := by
  unfold putEdge at h
  split at h
  · obtain ⟨z, hz, he⟩ := List.mem_map.1 h
    split at he
    · simp only [Prod.mk.injEq] at he
      exact .inl ⟨he.1.symm, he.2.1.symm, he.2.2.symm⟩
    · subst he
      rename_i hn
      exact .inr ⟨hn, hz⟩
  · rename_i hn
    rcases List.mem_append.1 h with h | h
    · refine .inr ⟨fun he => hn (List.any_eq_true.2 ⟨_, h, by simp [he]⟩), h⟩
    · simp only [List.mem_singleton, Prod.mk.injEq] at h
      exact .inl h

/-- An edge has the annotations of the last entry for its two nodes. -/
theorem foldl_putEdge_last (l : List (Nat × Nat × EdgeAttr)) : ∀ {es : List (Nat × Nat × EdgeAttr)} {a b : Nat}
    {y : EdgeAttr}, (a, b, y) ∈ l.foldl (fun es x => putEdge es x.1 x.2.1 x.2.2) es →
    (∃ i : Nat, l[i]? = some (a, b, y) ∧ ∀ (k : Nat) (z : Nat × Nat × EdgeAttr), i < k → l[k]? = some z → ¬ (z.1 = a ∧ z.2.1 = b)) ∨
    ((a, b, y) ∈ es ∧ ∀ z ∈ l, ¬ (z.1 = a ∧ z.2.1 = b)) := by
  induction l with
  | nil => intro es a b y h; exact .inr ⟨h, by simp⟩
  | cons x l ih =>
    intro es a b y h
    rcases ih h with ⟨i, h1, h2⟩ | ⟨h1, h2⟩
    · refine .inl ⟨i + 1, by simpa using h1, fun k z hk hz => ?_⟩
      cases k with
      | zero => omega
      | succ k => exact h2 k z (by omega) (by simpa using hz)
    · obtain ⟨s, t, v⟩ := x
      rcases mem_putEdge_iff _ _ _ _ _ _ _ h1 with ⟨rfl, rfl, rfl⟩ | ⟨hn, h1⟩
      · refine .inl ⟨0, rfl, fun k z hk hz => ?_⟩
        cases k with
        | zero => omega
        | succ k => exact h2 z (List.mem_of_getElem? (by simpa using hz))
      · refine .inr ⟨h1, fun z hz => ?_⟩
        rcases List.mem_cons.1 hz with rfl | hz
        · exact fun he => hn ⟨he.1.symm, he.2.symm⟩
        · exact h2 z hz

theorem nodup_map_eq {α β : Type} {f : α → β} : ∀ {l : List α}, (l.map f).Nodup → ∀ {x y}, x ∈ l → y ∈ l →
    f x = f y → x = y := by
  intro l
  induction l with
  | nil => intro _ x y hx; cases hx
  | cons z l ih =>
    intro h x y hx hy he
    simp only [List.map_cons, List.nodup_cons, List.mem_map, not_exists, not_and] at h
    rcases List.mem_cons.1 hx with rfl | hx' <;> rcases List.mem_cons.1 hy with rfl | hy'
    · rfl
    · exact absurd he.symm (h.1 y (by assumption))
    · exact absurd he (h.1 x (by assumption))
    · exact ih h.2 hx' hy' he

/-- C107: a loaded netlist is what the file says. Node `i` is the one that entry `i` describes; two nodes are joined by
at most one edge, with the annotations of the last entry that names their IDs; the name and the location of the symbol
of an edge are those of the first entry with a symbol of this path. -/
theorem loaded_says {c : ConstCodec} {j : Json} {st : LoadSt} (h : load c j = .ok st) {nodes edges : List Json}
    (hw : WellFormed j nodes edges) :
    (∀ (i : Nat) y, nodes[i]? = some y → NodeSays (readBack c) y (st.net.data i)) ∧
    ∀ a, ∀ e ∈ (st.net.g.obj a).outE,
      (∀ e' ∈ (st.net.g.obj a).outE, e'.tgt = e.tgt → e' = e) ∧
      (∃ (i : Nat) (x : Json), edges[i]? = some x ∧ Links nodes x a e.tgt ∧ EdgeSays x (st.net.attr e.id) ∧
        ∀ (k : Nat) (z : Json), i < k → edges[k]? = some z → ¬ Links nodes z a e.tgt) ∧
      ∀ r, (st.net.attr e.id).symbol = some r → FirstSym edges r := by
  obtain ⟨st', files, boxes, ds, l, syms, h', _, _, hds, hl, hb, _, _⟩ := load_spec c hw
  rw [h] at h'
  cases h'
  refine ⟨fun i y hy => ?_, fun a e he => ?_⟩
  · have h1 : (nodes.map (nodeOf c))[i]? = some (nodeOf c y) := by simp [hy]
    rw [hds] at h1
    simp only [List.getElem?_map, Option.map_eq_some_iff] at h1
    obtain ⟨d, hd, hd'⟩ := h1
    rw [hb.data i d hd]
    exact nodeSays_of (i := d.1) hd'.symm
  · have hmem : (a, e.tgt, st.net.attr e.id) ∈ l.foldl (fun es x => putEdge es x.1 x.2.1 x.2.2) [] := by
      have h2 := edges_of_built hb a
      have : (e.tgt, st.net.attr e.id) ∈ (st.net.g.obj a).outE.map fun e => (e.tgt, st.net.attr e.id) :=
        List.mem_map.2 ⟨e, he, rfl⟩
      rw [h2] at this
      obtain ⟨⟨p, q, y⟩, hm, heq⟩ := List.mem_map.1 this
      simp only [List.mem_filter, beq_iff_eq] at hm
      obtain ⟨hm, rfl⟩ := hm
      simp only [Prod.mk.injEq] at heq
      rw [← heq.1, ← heq.2]
      exact hm
    obtain ⟨hlen, hat⟩ := readEdges_at edges hl
    have hlinks : ∀ {k : Nat} {z : Json} {p q : Nat} {v : EdgeAttr}, edges[k]? = some z → l[k]? = some (p, q, v) →
        ∀ a b, Links nodes z a b ↔ a = p ∧ b = q := by
      intro k z p q v hz hv a b
      rw [(hat k z p q v hz hv).1 a b]
      unfold Links
      simp only [carries_iff hds]
    rcases foldl_putEdge_last l hmem with ⟨i, h1, h2⟩ | ⟨h1, _⟩
    · have hi : i < edges.length := by
        rw [← hlen]
        exact (List.getElem?_eq_some_iff.1 h1).1
      have hx : edges[i]? = some edges[i] := List.getElem?_eq_getElem hi
      obtain ⟨_, g2, g3⟩ := hat i _ _ _ _ hx h1
      refine ⟨fun e' he' ht => ?_, ⟨i, _, hx, (hlinks hx h1 _ _).2 ⟨rfl, rfl⟩, g2, fun k z hk hz hlz => ?_⟩,
        fun r hr => ?_⟩
      · obtain ⟨A, hr, hi, hn, hnn, hee, hu⟩ := hb.ex
        rw [hr.out] at he he'
        simp only [List.mem_filter, beq_iff_eq] at he he'
        exact nodup_map_eq hu he'.1 he.1 (by simp [he.2, he'.2, ht])
      · have hk' : k < l.length := by
          rw [hlen]
          exact (List.getElem?_eq_some_iff.1 hz).1
        have hv : l[k]? = some l[k] := List.getElem?_eq_getElem hk'
        have := (hlinks hz hv _ _).1 hlz
        exact h2 k _ hk hv ⟨this.1.symm, this.2.symm⟩
      · rcases g3 r hr with g | ⟨_, g⟩
        · simp at g
        · exact g
    · cases h1

/-- The hypotheses are met by the sample file of `load_ok_iff`. -/
example : (∃ nodes edges st, WellFormed (tinyFile (.int 3)) nodes edges ∧ load ⟨some, []⟩ (tinyFile (.int 3)) = .ok st ∧
    nodes.length = 2) := by
  obtain ⟨st, h⟩ : ∃ st, load ⟨some, []⟩ (tinyFile (.int 3)) = .ok st := ok_of_edges (by decide)
  obtain ⟨nodes, edges, hw⟩ := (load_ok_iff _ _).1 ⟨st, h⟩
  refine ⟨nodes, edges, st, hw, h, ?_⟩
  have h1 := (load_edges_partial h hw).1
  have h2 : st.net.g.nodes.length = 2 := by
    have : (match load ⟨some, []⟩ (tinyFile (.int 3)) with
      | .ok st => st.net.g.nodes.length
      | .error _ => 0) = 2 := by decide
    rwa [h] at this
  rw [h1] at h2
  simpa using h2

/-- A file with two entries for the same two nodes and one for others, whose symbols have the same path. -/
def symFile : Json :=
  let loc : Json := .obj [("column", .int 1), ("fileIndex", .int 0), ("line", .int 2)]
  let edge := fun (s t : Int) (lo : Int) (nm : Char) => Json.obj [("bounds", .arr [.int lo, .int 3]),
    ("disabled", .bool false), ("edgeKind", .str ['N', 'o', 'n', 'e']), ("source", .int s),
    ("symbol", .obj [("location", loc), ("name", .str [nm]), ("path", .str ['p'])]), ("target", .int t)]
  .obj [("edges", .arr [edge 7 9 0 'a', edge 7 9 1 'b', edge 9 7 2 'c']),
    ("fileTable", .arr []),
    ("nodes", .arr [.obj [("id", .int 7), ("kind", .str ['C', 'a', 's', 'e']), ("location", loc)],
      .obj [("id", .int 9), ("kind", .str ['M', 'e', 'r', 'g', 'e'])]]),
    ("version", .int 3)]

/-- The edge takes the range of the last entry and all take the name of the first symbol. -/
example : loadedEdges (load ⟨some, []⟩ symFile) =
    some [[(1, { bounds := ⟨1, 3⟩, symbol := some ⟨['a'], ['p'], ⟨0, 2, 1⟩⟩ })],
      [(0, { bounds := ⟨2, 3⟩, symbol := some ⟨['a'], ['p'], ⟨0, 2, 1⟩⟩ })]] := by decide

end Verif.Props
