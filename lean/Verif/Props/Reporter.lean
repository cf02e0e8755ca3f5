import Verif.Proofs.Reporter

/-!
The companion tool (C75 to C78): scopes, items, formats and the choice of the report.
-/
namespace Verif.Props
open Verif.Model Verif.Spec Verif.Proofs

/-! ### Example tree -/

/-- A port declaration. -/
def rpPort (id : Nat) (path : String) : SymTree :=
  .leaf ⟨id, path.toList, [], .port .input 8 none⟩

/-- The root with an instance `top` that has a port and an instance `u` with a port. -/
def rpRoot : SymTree :=
  .scope ⟨0, [], [], .other⟩
    [.inst ⟨1, "top".toList, [], .other⟩ false
      [rpPort 2 "top.p",
       .inst ⟨3, "top.u".toList, [], .other⟩ false [rpPort 4 "top.u.p"] none] none]

/-- Looking up a path in the example tree. -/
def rpLook (n : Str) : Option SymTree := (symsOf rpRoot).find? fun t => decide (t.head.path = n)

theorem rp_once : ((symsOf rpRoot).map fun t => t.head.id).Nodup := by decide

/-- Distinct identities tell the symbols of a tree apart. -/
theorem identified_of {root : SymTree} {lookup : Str → Option SymTree}
    (h : ((symsOf root).map fun t => t.head.id).Nodup)
    (hl : ∀ n t, lookup n = some t → Beneath root t) : Identified root lookup := by
  refine ⟨?_, hl⟩
  intro t t' ht ht' he
  rw [← mem_symsOf] at ht ht'
  generalize symsOf root = l at h ht ht'
  induction l with
  | nil => exact nomatch ht
  | cons x l ih =>
    simp only [List.map_cons, List.nodup_cons] at h
    rcases List.mem_cons.1 ht with h4 | h4
    · rcases List.mem_cons.1 ht' with h5 | h5
      · rw [h4, h5]
      · exact absurd (List.mem_map.2 ⟨t', h5, by rw [← he, h4]⟩) h.1
    · rcases List.mem_cons.1 ht' with h5 | h5
      · exact absurd (List.mem_map.2 ⟨t, h4, by rw [he, h5]⟩) h.1
      · exact ih h.2 h4 h5

theorem rp_found : ∀ n t, rpLook n = some t → Beneath rpRoot t := fun _ _ h =>
  (mem_symsOf _ _).1 (List.mem_of_find?_eq_some h)

theorem rp_identified : Identified rpRoot rpLook := identified_of rp_once rp_found

/-- The identities of the resolved scopes, for stating examples. -/
def rpScopes (ns : List String) : Option (List Nat) :=
  match resolveScopes rpRoot rpLook (ns.map String.toList) ([], []) with
  | .ok s => some (s.2.map fun t => t.head.id)
  | .error _ => none

/-! ### C75: scopes -/

/-- C75: the resolved scopes are exactly the symbols that the arguments ask for, each once, and the
resolution succeeds if and only if every argument asks for a symbol and every pattern for one that no
argument before it asks for; an error names an argument that is a pattern without a new symbol or a path
without a symbol. The last condition on patterns is not in the documentation, see
`covered_pattern_rejected`. -/
theorem scopes_exact_partial {root : SymTree} {lookup : Str → Option SymTree}
    (hi : Identified root lookup) (ns : List Str) :
    (∀ s, resolveScopes root lookup ns ([], []) = .ok s →
      (s.2.map fun t => t.head.id).Nodup ∧ ∀ t, t ∈ s.2 ↔ ∃ n ∈ ns, AsksFor root lookup n t) ∧
    ((∃ s, resolveScopes root lookup ns ([], []) = .ok s) ↔
      ∀ done n rest, ns = done ++ n :: rest →
        ∃ t, AsksFor root lookup n t ∧ (Wild n → ∀ p ∈ done, ¬ AsksFor root lookup p t)) ∧
    (∀ e, resolveScopes root lookup ns ([], []) = .error e →
      ∃ n ∈ ns, (Wild n ∧ e = .unmatched n) ∨
        (¬ Wild n ∧ e = .missing n ∧ ∀ t, ¬ AsksFor root lookup n t)) := by
  have hnew : ∀ (ns done : List Str), NewEach root lookup done ns ↔
      ∀ pre n rest, ns = pre ++ n :: rest →
        ∃ t, AsksFor root lookup n t ∧ (Wild n → ∀ p ∈ done ++ pre, ¬ AsksFor root lookup p t) := by
    intro ns
    induction ns with
    | nil =>
      intro done
      simp only [NewEach, true_iff]
      intro pre n rest h
      cases pre <;> exact nomatch h
    | cons m ns ih =>
      intro done
      simp only [NewEach, ih]
      constructor
      · rintro ⟨h1, h2⟩ pre n rest he
        cases pre with
        | nil =>
          simp only [List.nil_append, List.cons.injEq] at he
          rw [List.append_nil, ← he.1]; exact h1
        | cons x pre =>
          simp only [List.cons_append, List.cons.injEq] at he
          obtain ⟨t, ht, hp⟩ := h2 pre n rest he.2
          refine ⟨t, ht, fun hw p hpm => hp hw p ?_⟩
          rw [List.append_assoc]; simpa [he.1] using hpm
      · intro h
        refine ⟨by simpa using h [] m ns rfl, fun pre n rest he => ?_⟩
        obtain ⟨t, ht, hp⟩ := h (m :: pre) n rest (by rw [he]; rfl)
        refine ⟨t, ht, fun hw p hpm => hp hw p ?_⟩
        simpa using hpm
  rcases resolve_all hi ns [] ([], []) (resOk_start root lookup) with
    ⟨s, hs, hok, hx⟩ | ⟨e, he, hx, hd⟩
  · refine ⟨?_, ?_, ?_⟩
    · intro s' hs'
      rw [hs] at hs'; cases hs'
      exact ⟨hok.nodup, fun t => by simpa using hok.mem t⟩
    · exact ⟨fun _ => by simpa using (hnew ns []).1 hx, fun _ => ⟨s, hs⟩⟩
    · intro e he; rw [hs] at he; exact nomatch he
  · refine ⟨?_, ?_, ?_⟩
    · intro s hs; rw [he] at hs; exact nomatch hs
    · refine ⟨?_, fun h => absurd ((hnew ns []).2 (by simpa using h)) hx⟩
      rintro ⟨s, hs⟩; rw [he] at hs; exact nomatch hs
    · intro e' he'; rw [he] at he'; cases he'; exact hd

/-- The hypotheses hold for the example tree; a pattern and a path select the two instances. -/
example : Identified rpRoot rpLook ∧ rpScopes ["top.u", "t*"] = some [3, 1] :=
  ⟨rp_identified, by decide +kernel⟩

/-- C75: the symbols one pattern selects are listed in the order of the tree. -/
theorem pattern_in_order (root : SymTree) (lookup : Str → Option SymTree) (n : Str) (hw : Wild n)
    (s : List Nat × List SymTree) (h : resolveScopes root lookup [n] ([], []) = .ok s) :
    s.2.Sublist (symsAll root.kids) := by
  obtain ⟨s', he, -, new, hn, hsub, -⟩ :=
    take_fold n (openedAll root.kids) ([], []) (by intro i; simp)
  simp only [resolveScopes, resolveScope, (hasGlobChar_iff n).2 hw, if_true, collectGlobs_eq, he] at h
  by_cases hl : s'.2.length = ([] : List SymTree).length
  · rw [if_pos hl] at h; exact nomatch h
  · rw [if_neg hl] at h
    cases h
    rw [hn, List.nil_append]
    exact hsub.trans (openedAll_sub _)

/-- C75: an argument that asks for nothing is an error, whatever else is given. -/
theorem unmatched_scope_rejected {root : SymTree} {lookup : Str → Option SymTree}
    (hi : Identified root lookup) {ns : List Str} {n : Str} (hn : n ∈ ns)
    (h : ∀ t, ¬ AsksFor root lookup n t) :
    ∃ e, resolveScopes root lookup ns ([], []) = .error e := by
  cases hr : resolveScopes root lookup ns ([], []) with
  | error e => exact ⟨e, rfl⟩
  | ok s =>
    obtain ⟨pre, rest, he⟩ := List.append_of_mem hn
    obtain ⟨t, ht, -⟩ := (scopes_exact_partial hi ns).2.1.1 ⟨s, hr⟩ pre n rest he
    exact absurd ht (h t)

example : ∀ t, ¬ AsksFor rpRoot rpLook "top.v".toList t := by
  rintro t (⟨hw, -⟩ | ⟨-, h⟩)
  · rw [← hasGlobChar_iff] at hw
    exact absurd hw (by decide)
  · exact absurd h (by
      have : rpLook "top.v".toList = none := by decide +kernel
      rw [this]; exact fun h => nomatch h)

/-- Negation of the documented rule: a pattern that matches a symbol is rejected as matching none if the
arguments before it select the symbols already (tools/report/report.cpp:183-189). -/
theorem covered_pattern_rejected :
    rpScopes ["t?p"] = some [1] ∧ rpScopes ["top"] = some [1] ∧ rpScopes ["top", "t?p"] = none ∧
      (∃ t, AsksFor rpRoot rpLook "t?p".toList t) ∧
      (∀ s, resolveScopes rpRoot rpLook ["top".toList, "t?p".toList] ([], []) ≠ .ok s) := by
  refine ⟨by decide +kernel, by decide +kernel, by decide +kernel, ?_, ?_⟩
  · refine ⟨_, .inl ⟨.inr (.inl (by decide)), ⟨_, List.mem_cons_self, .here _⟩, by decide, ?_⟩⟩
    rw [← globName_iff]; decide +kernel
  · intro s hs
    have h : rpScopes ["top", "t?p"] = none := by decide +kernel
    simp only [rpScopes, List.map_cons, List.map_nil, hs] at h
    exact nomatch h

/-! ### C76: items -/

/-- C76: a report lists exactly the declarations it is about that lie in a requested scope and pass the
name filters, each once, and without scopes in the order of the tree. This is for trees in which no
instance is elaborated in the body of another and for scopes that are not nested; see
`nested_scopes_repeat` and `shared_body_misreported`. -/
theorem report_exact_partial {root : SymTree} {lookup : Str → Option SymTree} (hp : Proper' root)
    (hu : Unshared root) (hl : ∀ n t, lookup n = some t → Beneath root t) (a : RptAct)
    (names ns : List Str) {s : List Nat × List SymTree}
    (hs : resolveScopes root lookup ns ([], []) = .ok s)
    (hx : ∀ n ∈ ns, ∀ n' ∈ ns, ∀ t t', AsksFor root lookup n t → AsksFor root lookup n' t' →
      Beneath t t' → t = t') :
    ((reportItems a names root s.2).map Head.id).Nodup ∧
    (∀ h, h ∈ reportItems a names root s.2 ↔ About a h.kind ∧ NamePasses names h.path ∧
      ∃ t, t.head = h ∧ Beneath root t ∧
        (ns = [] ∨ ∃ n ∈ ns, ∃ sc, AsksFor root lookup n sc ∧ Beneath sc t)) ∧
    (ns = [] → (reportItems a names root s.2).Sublist ((symsOf root).map SymTree.head)) := by
  have hi := identified_of hp.once hl
  obtain ⟨hok, -, -⟩ := scopes_exact_partial hi ns
  obtain ⟨hnd, hmem⟩ := hok s hs
  cases ns with
  | nil =>
    cases hs
    have he : reportItems a names root ([] : List SymTree) = visitSym a names root := rfl
    have hsub := visitSym_sub a names root hu
    refine ⟨?_, ?_, fun _ => hsub⟩
    · have := hsub.map Head.id
      rw [List.map_map] at this
      exact this.nodup hp.once
    · intro h
      rw [he, mem_visitSym]
      constructor
      · rintro ⟨y, hc, hy, hk, hn⟩
        exact ⟨(handles_iff _ _).1 hk, hn, y, hy, (rptEnters_iff hu hp.decl).1 hc, .inl rfl⟩
      · rintro ⟨hk, hn, y, hy, hc, -⟩
        exact ⟨y, (rptEnters_iff hu hp.decl).2 hc, hy, (handles_iff _ _).2 hk, hn⟩
  | cons n ns =>
    have hne : s.2 ≠ [] := by
      obtain ⟨t, ht, -⟩ := (scopes_exact_partial hi (n :: ns)).2.1.1 ⟨s, hs⟩ [] n ns rfl
      exact List.ne_nil_of_mem ((hmem t).2 ⟨n, List.mem_cons_self, ht⟩)
    have he : reportItems a names root s.2 = visitSyms a names s.2 := by
      simp only [reportItems]; exact if_neg hne
    have hb : ∀ t ∈ s.2, Beneath root t := fun t ht => by
      obtain ⟨m, -, hm⟩ := (hmem t).1 ht
      exact asks_beneath hi hm
    rw [he]
    refine ⟨?_, ?_, fun h => nomatch h⟩
    · refine visit_nodup hp.once hu a names s.2 hnd hb ?_
      intro t ht t' ht' hc
      obtain ⟨m, hm, hma⟩ := (hmem t).1 ht
      obtain ⟨m', hm', hma'⟩ := (hmem t').1 ht'
      exact hx m hm m' hm' t t' hma hma' hc
    · intro h
      rw [mem_visitSyms]
      have hent : ∀ t ∈ s.2, ∀ y, Chain (rptEnters a) t y ↔ Beneath t y := fun t ht y =>
        rptEnters_iff (fun y hy => hu y (chain_trans (hb t ht) hy))
          (fun y hy => hp.decl y (chain_trans (hb t ht) hy))
      constructor
      · rintro ⟨t, ht, y, hc, hy, hk, hn⟩
        obtain ⟨m, hm, hma⟩ := (hmem t).1 ht
        have hc' := (hent t ht y).1 hc
        exact ⟨(handles_iff _ _).1 hk, hn, y, hy, chain_trans (hb t ht) hc', .inr ⟨m, hm, t, hma, hc'⟩⟩
      · rintro ⟨hk, hn, y, hy, -, h | ⟨m, hm, t, hma, hc⟩⟩
        · exact nomatch h
        · have ht := (hmem t).2 ⟨m, hm, hma⟩
          exact ⟨t, ht, y, (hent t ht y).2 hc, hy, (handles_iff _ _).2 hk, hn⟩

theorem rp_proper : Proper' rpRoot := by
  refine ⟨rp_once, fun t ht => ?_⟩
  rw [← mem_symsOf] at ht
  simp only [rpRoot, rpPort, symsOf, symsAll, List.append_nil, List.mem_cons, List.nil_append,
    List.cons_append, List.not_mem_nil, or_false] at ht
  rcases ht with rfl | rfl | rfl | rfl | rfl
  · exact .inr rfl
  · exact .inr rfl
  · exact .inl ⟨_, rfl⟩
  · exact .inr rfl
  · exact .inl ⟨_, rfl⟩

theorem rp_unshared : Unshared rpRoot := by
  intro t ht h u b c
  rw [← mem_symsOf] at ht
  simp only [rpRoot, rpPort, symsOf, symsAll, List.append_nil, List.mem_cons, List.nil_append,
    List.cons_append, List.not_mem_nil, or_false] at ht
  rcases ht with rfl | rfl | rfl | rfl | rfl <;> exact fun h => nomatch h

/-- The identities of the items of a port report, for stating examples. -/
def rpItems (root : SymTree) (ns : List String) : Option (List Nat) :=
  match resolveScopes root (fun n => (symsOf root).find? fun t => decide (t.head.path = n))
      (ns.map String.toList) ([], []) with
  | .ok s => some ((reportItems .ports [] root s.2).map Head.id)
  | .error _ => none

/-- The hypotheses hold for the example tree and the scope `top.u`. -/
example : Proper' rpRoot ∧ Unshared rpRoot ∧ (∀ n t, rpLook n = some t → Beneath rpRoot t) ∧
    rpItems rpRoot ["top.u"] = some [4] ∧ rpItems rpRoot [] = some [2, 4] ∧
    (∀ n ∈ ["top.u".toList], ∀ n' ∈ ["top.u".toList], ∀ t t', AsksFor rpRoot rpLook n t →
      AsksFor rpRoot rpLook n' t' → Beneath t t' → t = t') := by
  refine ⟨rp_proper, rp_unshared, rp_found, by decide +kernel, by decide +kernel, ?_⟩
  intro n hn n' hn' t t' h h' _
  simp only [List.mem_singleton] at hn hn'
  subst hn hn'
  rcases h with ⟨hw, -⟩ | ⟨-, h⟩
  · rw [← hasGlobChar_iff] at hw; exact absurd hw (by decide)
  · rcases h' with ⟨hw, -⟩ | ⟨-, h'⟩
    · rw [← hasGlobChar_iff] at hw; exact absurd hw (by decide)
    · rw [h] at h'; exact Option.some.inj h'

/-- Negation in general: scopes that lie one in the other list the declarations in both twice; with
`**` every declaration is listed once for each symbol above it and for itself. -/
theorem nested_scopes_repeat :
    rpItems rpRoot ["top", "top.u"] = some [2, 4, 4] ∧ rpItems rpRoot ["**"] = some [2, 4, 2, 4, 4] := by
  decide +kernel

/-- The root with two instances of a module, the second of which is elaborated in the body of the
first. -/
def rpShared : SymTree :=
  .scope ⟨0, [], [], .other⟩
    [.inst ⟨1, "u".toList, [], .other⟩ false [rpPort 2 "u.p"] none,
     .inst ⟨3, "v".toList, [], .other⟩ false [rpPort 4 "v.p"] (some [rpPort 2 "u.p"])]

/-- Negation in general: the declarations of the second instance are not listed, those of the first are
listed twice; a report of the second instance alone lists the port of the first. -/
theorem shared_body_misreported :
    rpItems rpShared [] = some [2, 2] ∧ rpItems rpShared ["v"] = some [2] ∧
      rpItems rpShared ["v.p"] = some [4] := by
  decide +kernel

/-! ### C77: formats -/

/-- The report that is made: ports before variables before drivers. -/
def ChosenBy (f : RptFlags) (a : RptAct) : Prop :=
  match a with
  | .ports => f.ports.isSome
  | .variables => f.ports = none ∧ f.variables.isSome
  | .drivers => f.ports = none ∧ f.variables = none ∧ f.drivers.isSome

theorem rows_say {a : RptAct} {h : Head} (hk : About a h.kind) :
    rowsSaying a (itemJson a h) = itemRows a h := by
  obtain ⟨id, path, loc, kind⟩ := h
  cases a with
  | ports =>
    obtain ⟨d, w, n, rfl⟩ := hk
    simp [rowsSaying, itemJson, itemRows, cellOf, List.lookup]
  | variables =>
    rcases hk with ⟨t, w, ds, rfl⟩ | ⟨n, t, w, ds, rfl⟩ <;>
      simp [rowsSaying, itemJson, itemRows, cellOf, List.lookup]
  | drivers =>
    have hd : ∀ ds : List DriverFact, (ds.map driverJson).map (fun d =>
        lit "↳" :: ["range", "driver", "kind", "location"].map (cellOf d)) = ds.map driverRow := by
      intro ds
      rw [List.map_map]
      refine List.map_congr_left fun d _ => ?_
      simp [driverJson, driverRow, cellOf, List.lookup]
    have hj : itemJson .drivers ⟨id, path, loc, kind⟩ = .obj [("value", .str path),
        ("location", .str loc), ("drivers", .arr (kind.drivers.map driverJson))] := by
      cases kind <;> rfl
    have hr : itemRows .drivers ⟨id, path, loc, kind⟩ =
        [path, [], [], [], loc] :: kind.drivers.map driverRow := by
      cases kind <;> rfl
    rw [hj, hr, ← hd]
    simp [rowsSaying, cellOf, listOf, List.lookup]

theorem items_about {a : RptAct} {names : List Str} {root : SymTree} {scopes : List SymTree} {h : Head}
    (hh : h ∈ reportItems a names root scopes) : About a h.kind := by
  simp only [reportItems] at hh
  split at hh
  · obtain ⟨_, _, _, hk, _⟩ := (mem_visitSym a names root h).1 hh
    exact (handles_iff _ _).1 hk
  · obtain ⟨_, _, _, _, _, hk, _⟩ := (mem_visitSyms a names scopes h).1 hh
    exact (handles_iff _ _).1 hk

theorem main_report {root : SymTree} {lookup : Str → Option SymTree} {f : RptFlags}
    (ha : f.astJson = none) {json : Bool} (hf : rptFormat f.format = .ok json) {r : Option Str × RptText}
    (h : reportMain root lookup f = .ok r) :
    ∃ a s, ChosenBy f a ∧ resolveScopes root lookup f.scopes ([], []) = .ok s ∧
      r = emitReport root f s.2 json a := by
  simp only [reportMain] at h
  split at h
  · exact nomatch h
  · rename_i seen scopes hs
    simp only [ha, hf] at h
    cases hp : f.ports with
    | some b => simp only [hp, Option.isSome_some, if_true] at h; cases h
                exact ⟨.ports, _, by simp [ChosenBy, hp], hs, rfl⟩
    | none =>
      cases hv : f.variables with
      | some b =>
        simp only [hp, hv, Option.isSome_none, Option.isSome_some, if_true, Bool.false_eq_true,
          if_false] at h
        cases h
        exact ⟨.variables, _, by simp [ChosenBy, hp, hv], hs, rfl⟩
      | none =>
        cases hd : f.drivers with
        | some b =>
          simp only [hp, hv, hd, Option.isSome_none, Option.isSome_some, if_true, Bool.false_eq_true,
            if_false] at h
          cases h
          exact ⟨.drivers, _, by simp [ChosenBy, hp, hv, hd], hs, rfl⟩
        | none =>
          simp only [hp, hv, hd, Option.isSome_none, Bool.false_eq_true, if_false] at h
          exact nomatch h

theorem chosen_unique {f : RptFlags} {a b : RptAct} (ha : ChosenBy f a) (hb : ChosenBy f b) : a = b := by
  cases a <;> cases b <;> simp_all [ChosenBy]

theorem format_json : rptFormat (some (lit "json")) = .ok true := by simp [rptFormat]

/-- C77: with the same other options the table and the JSON report go to the same place and say the
same: the rows are those read off the objects, in order, under the headings of those members. -/
theorem report_formats_agree {root : SymTree} {lookup : Str → Option SymTree} {f : RptFlags}
    (ha : f.astJson = none) {d d' : Option Str} {t t' : RptText}
    (h1 : reportMain root lookup { f with format := some (lit "json") } = .ok (d, t))
    (h2 : reportMain root lookup { f with format := none } = .ok (d', t')) :
    d = d' ∧ ∃ a objs, ChosenBy f a ∧ t = .json (.arr objs) ∧
      t' = .table (formatTable (headings a) (objs.flatMap (rowsSaying a)) 2) := by
  obtain ⟨a, s, hc, hs, hr⟩ := main_report (json := true) (by exact ha) format_json h1
  obtain ⟨a', s', hc', hs', hr'⟩ := main_report (json := false) (by exact ha) rfl h2
  have hcf : ChosenBy f a := by cases a <;> exact hc
  have hcf' : ChosenBy f a' := by cases a' <;> exact hc'
  have := chosen_unique hcf hcf'
  subst this
  have hs2 : s = s' := by
    have h3 : resolveScopes root lookup f.scopes ([], []) = .ok s := hs
    rw [show resolveScopes root lookup f.scopes ([], []) = .ok s' from hs'] at h3
    exact (Except.ok.inj h3).symm
  subst hs2
  have e1 := congrArg Prod.fst hr
  have e2 := congrArg Prod.snd hr
  have e1' := congrArg Prod.fst hr'
  have e2' := congrArg Prod.snd hr'
  simp only [emitReport, if_true, Bool.false_eq_true, if_false] at e1 e2 e1' e2'
  refine ⟨by rw [e1, e1'], a, _, hcf, e2, ?_⟩
  have hh : headings a = rptHeader a := by cases a <;> rfl
  rw [e2', List.flatMap_map, hh]
  refine congrArg RptText.table (congrArg (fun r => formatTable (rptHeader a) r 2) ?_)
  have : ∀ l : List Head, (∀ h ∈ l, About a h.kind) →
      l.flatMap (itemRows a) = l.flatMap fun h => rowsSaying a (itemJson a h) := by
    intro l hl
    induction l with
    | nil => rfl
    | cons x l ih =>
      rw [List.flatMap_cons, List.flatMap_cons, ih fun h hh => hl h (List.mem_cons_of_mem _ hh),
        rows_say (hl x List.mem_cons_self)]
  exact this _ fun h hh => items_about hh

/-- C77: what the objects say about a declaration. -/
theorem report_objects_exact (h : Head) :
    (∀ d w n, h.kind = .port d w n →
      ["name", "direction", "width", "netType", "location"].map (cellOf (itemJson .ports h)) =
        [h.path, d.text, decNat w, n.getD (lit "var"), h.loc]) ∧
    (∀ t w ds, h.kind = .var t w ds →
      ["name", "type", "width", "kind", "drivers", "location"].map (cellOf (itemJson .variables h)) =
        [h.path, t, decNat w, lit "var", decNat ds.length, h.loc]) ∧
    (∀ n t w ds, h.kind = .net n t w ds →
      ["name", "type", "width", "kind", "drivers", "location"].map (cellOf (itemJson .variables h)) =
        [h.path, t, decNat w, n, decNat ds.length, h.loc]) ∧
    (∀ ds, (∃ t w, h.kind = .var t w ds) ∨ (∃ n t w, h.kind = .net n t w ds) ∨ h.kind = .value ds →
      cellOf (itemJson .drivers h) "value" = h.path ∧ cellOf (itemJson .drivers h) "location" = h.loc ∧
      (listOf (itemJson .drivers h) "drivers").map
          (fun j => ["range", "driver", "kind", "location"].map (cellOf j)) =
        ds.map fun d =>
          [rangeText d.bounds, d.prefix_, if d.proc then lit "proc" else lit "cont", d.loc]) := by
  obtain ⟨id, path, loc, kind⟩ := h
  refine ⟨?_, ?_, ?_, ?_⟩
  · rintro d w n rfl; simp [itemJson, cellOf, List.lookup, portNetTypeName]
  · rintro t w ds rfl; simp [itemJson, cellOf, List.lookup]
  · rintro n t w ds rfl; simp [itemJson, cellOf, List.lookup]
  · intro ds hk
    have hj : itemJson .drivers ⟨id, path, loc, kind⟩ = .obj [("value", .str path),
        ("location", .str loc), ("drivers", .arr (ds.map driverJson))] := by
      rcases hk with ⟨_, _, rfl⟩ | ⟨_, _, _, rfl⟩ | rfl <;> rfl
    rw [hj]
    refine ⟨by simp [cellOf, List.lookup], by simp [cellOf, List.lookup], ?_⟩
    simp [listOf, List.lookup, cellOf, driverJson, driverKindStr, Function.comp_def]

/-- The hypotheses hold for a port report of the example tree. -/
example : ∃ d t t', reportMain rpRoot rpLook { ports := some true, format := some (lit "json") } =
      .ok (d, t) ∧ reportMain rpRoot rpLook { ports := some true } = .ok (d, t') ∧
    (reportItems .ports [] rpRoot []).map Head.id = [2, 4] := by
  refine ⟨none, (emitReport rpRoot { ports := some true } [] true .ports).2, _, ?_, rfl,
    by decide +kernel⟩
  simp only [reportMain, resolveScopes, format_json]; rfl

/-! ### C78: the choice of the report -/

/-- Which of the four actions are given. -/
def givenActions (f : RptFlags) : Nat :=
  f.astJson.toList.length + f.ports.toList.length + f.variables.toList.length + f.drivers.toList.length

/-- C78: if exactly one action is given, scopes resolve and the format is one of the two known ones, the
tool makes that report and sends it to the file of `-o`, or of `--ast-json`, unless that is `-`. Without
an action, or with another format and a tabular action, or with a scope that does not resolve, it makes
none. Several actions are accepted, see `several_actions_accepted`. -/
theorem report_choice_partial (root : SymTree) (lookup : Str → Option SymTree) (f : RptFlags) :
    (∀ s, resolveScopes root lookup f.scopes ([], []) = .ok s →
      (givenActions f = 0 → ∃ e, reportMain root lookup f = .error e) ∧
      (givenActions f = 1 →
        (∀ file, f.astJson = some file → ∃ syms, reportMain root lookup f =
          .ok (if file = lit "-" then none else some file, .ast syms) ∧
            ((f.scopes = [] ∧ syms = [root]) ∨ (f.scopes ≠ [] ∧ syms = s.2))) ∧
        (f.astJson = none → f.format ≠ none → f.format ≠ some (lit "json") →
          f.format ≠ some (lit "table") → ∃ e, reportMain root lookup f = .error e) ∧
        (∀ a, (a = .ports ∧ f.ports ≠ none) ∨ (a = .variables ∧ f.variables ≠ none) ∨
            (a = .drivers ∧ f.drivers ≠ none) →
          ∀ json, (json = true ∧ f.format = some (lit "json")) ∨
            (json = false ∧ (f.format = none ∨ f.format = some (lit "table"))) →
          ∃ txt, reportMain root lookup f =
            .ok (f.output.bind fun o => if o = lit "-" then none else some o, txt) ∧
            (json = true → txt = .json (.arr ((reportItems a f.names root s.2).map (itemJson a)))) ∧
            (json = false → txt = .table (formatTable (rptHeader a)
              ((reportItems a f.names root s.2).flatMap (itemRows a)) 2))))) ∧
    (∀ e, resolveScopes root lookup f.scopes ([], []) = .error e →
      reportMain root lookup f = .error e) := by
  refine ⟨?_, ?_⟩
  · intro s hs
    obtain ⟨seen, scopes⟩ := s
    obtain ⟨p, v, d, aj, fm, scs, nms, out⟩ := f
    simp only [givenActions]
    refine ⟨?_, ?_⟩
    · intro h0
      have h1 : aj = none ∧ p = none ∧ v = none ∧ d = none := by
        cases aj <;> cases p <;> cases v <;> cases d <;> simp at h0 <;> simp
      obtain ⟨rfl, rfl, rfl, rfl⟩ := h1
      simp only [reportMain, hs]
      cases rptFormat fm with
      | error e => exact ⟨e, rfl⟩
      | ok j => exact ⟨.noAction, rfl⟩
    · intro h1
      refine ⟨?_, ?_, ?_⟩
      · rintro file hf
        have hf' : aj = some file := hf
        subst hf'
        refine ⟨if scopes = [] then [root] else scopes, ?_, ?_⟩
        · simp only [reportMain, hs, rptTarget]
        · by_cases h : scs = []
          · subst h
            cases hs
            exact .inl ⟨rfl, rfl⟩
          · exact .inr ⟨h, if_neg (resolved_nonempty h (by intro i; simp) hs)⟩
      · intro hf hn hj ht
        have hf' : aj = none := hf
        subst hf'
        cases fm with
        | none => exact absurd rfl hn
        | some m =>
          have h2 : m ≠ lit "json" := fun h => hj (by rw [h])
          have h3 : m ≠ lit "table" := fun h => ht (by rw [h])
          exact ⟨.format m, by simp only [reportMain, hs, rptFormat, if_neg h2, if_neg h3]⟩
      · intro a ha json hfm
        have hfmt : rptFormat fm = .ok json := by
          rcases hfm with ⟨rfl, h⟩ | ⟨rfl, h | h⟩
          · have : fm = some (lit "json") := h
            rw [this]; exact format_json
          · have : fm = none := h
            rw [this]; rfl
          · have : fm = some (lit "table") := h
            rw [this]
            have hne : lit "table" ≠ lit "json" := by decide +kernel
            simp [rptFormat, hne]
        have hout : rptTarget out = out.bind fun o => if o = lit "-" then none else some o := by
          cases out <;> rfl
        have hmain : reportMain root lookup ⟨p, v, d, aj, fm, scs, nms, out⟩ =
            .ok (emitReport root ⟨p, v, d, aj, fm, scs, nms, out⟩ scopes json a) := by
          rcases ha with ⟨rfl, h⟩ | ⟨rfl, h⟩ | ⟨rfl, h⟩
          · have : aj = none ∧ v = none ∧ d = none := by
              cases aj <;> cases p <;> cases v <;> cases d <;> simp at h1 h <;> simp
            obtain ⟨rfl, rfl, rfl⟩ := this
            cases p with
            | none => exact absurd rfl h
            | some b => simp [reportMain, hs, hfmt]
          · have : aj = none ∧ p = none ∧ d = none := by
              cases aj <;> cases p <;> cases v <;> cases d <;> simp at h1 h <;> simp
            obtain ⟨rfl, rfl, rfl⟩ := this
            cases v with
            | none => exact absurd rfl h
            | some b => simp [reportMain, hs, hfmt]
          · have : aj = none ∧ p = none ∧ v = none := by
              cases aj <;> cases p <;> cases v <;> cases d <;> simp at h1 h <;> simp
            obtain ⟨rfl, rfl, rfl⟩ := this
            cases d with
            | none => exact absurd rfl h
            | some b => simp [reportMain, hs, hfmt]
        refine ⟨_, by rw [hmain, ← hout]; rfl, ?_, ?_⟩
        · rintro rfl; simp [emitReport]
        · rintro rfl; simp [emitReport]
  · intro e he
    simp only [reportMain, he]

/-- The hypotheses hold for a variable report of one scope. -/
example : givenActions { variables := some true, scopes := ["top".toList] } = 1 ∧
    rpScopes ["top"] = some [1] := by decide +kernel

/-- Negations: two actions are accepted and one is ignored, an action switched off is made, and an unknown
format is accepted with `--ast-json`. -/
theorem several_actions_accepted (root : SymTree) (lookup : Str → Option SymTree) :
    reportMain root lookup { ports := some true, drivers := some true } =
      reportMain root lookup { ports := some true } ∧
    reportMain root lookup { ports := some false, variables := some true } =
      reportMain root lookup { ports := some true } ∧
    reportMain root lookup { astJson := some (lit "-"), format := some (lit "xml") } =
      .ok (none, .ast [root]) := by
  refine ⟨rfl, rfl, ?_⟩
  simp [reportMain, resolveScopes, rptTarget]

end Verif.Props
