import Verif.Spec.Reporter
import Verif.Props.Cli

/-! Lemmas on the companion tool. -/
namespace Verif.Proofs
open Verif.Model Verif.Spec Verif.Props

theorem hasGlobChar_iff (s : Str) : hasGlobChar s = true ↔ Wild s := by
  fun_induction hasGlobChar s with
  | case1 =>
    constructor
    · intro h; exact nomatch h
    · rintro (h | h | ⟨a, b, h⟩)
      · simp at h
      · simp at h
      · simp at h
  | case2 r => simp [Wild]
  | case3 r => simp [Wild]
  | case4 r => simp only [true_iff]; exact .inr (.inr ⟨[], r, rfl⟩)
  | case5 c r h1 h2 h3 ih =>
    rw [ih]
    constructor
    · rintro (h | h | ⟨a, b, h⟩)
      · exact .inl (List.mem_cons_of_mem _ h)
      · exact .inr (.inl (List.mem_cons_of_mem _ h))
      · exact .inr (.inr ⟨c :: a, b, by simp [h]⟩)
    · rintro (h | h | ⟨a, b, h⟩)
      · rcases List.mem_cons.1 h with rfl | h
        · exact absurd rfl h1
        · exact .inl h
      · rcases List.mem_cons.1 h with rfl | h
        · exact absurd rfl h2
        · exact .inr (.inl h)
      · cases a with
        | nil =>
          simp only [List.nil_append, List.cons_append, List.cons.injEq] at h
          exact (h3 b h.1 (by simpa using h.2)).elim
        | cons x a =>
          simp only [List.cons_append, List.cons.injEq] at h
          exact .inr (.inr ⟨a, b, by simpa using h.2⟩)

mutual
/-- The opened symbols of a tree, a symbol before its members. -/
def opened : SymTree → List SymTree
  | .leaf h => [.leaf h]
  | .scope h ms => .scope h ms :: openedAll ms
  | .inst h u body c => .inst h u body c :: if u then [] else openedAll body

/-- The opened symbols of several trees. -/
def openedAll : List SymTree → List SymTree
  | [] => []
  | t :: ts => opened t ++ openedAll ts
end

mutual
theorem collectGlob_eq (p : Str) : ∀ t s, collectGlob p t s = (opened t).foldl (fun s t => globTake p t s) s
  | .leaf h, s => by simp [collectGlob, opened]
  | .scope h ms, s => by simp only [collectGlob, opened, List.foldl_cons]; exact collectGlobs_eq p ms _
  | .inst h u body c, s => by
    cases u with
    | true => simp [collectGlob, opened]
    | false =>
      simp only [collectGlob, opened, List.foldl_cons, Bool.false_eq_true, if_false]
      exact collectGlobs_eq p body _

theorem collectGlobs_eq (p : Str) :
    ∀ ts s, collectGlobs p ts s = (openedAll ts).foldl (fun s t => globTake p t s) s
  | [], s => by simp [collectGlobs, openedAll]
  | t :: ts, s => by
    simp only [collectGlobs, openedAll, List.foldl_append]
    rw [collectGlobs_eq p ts, collectGlob_eq p t]
end

mutual
theorem mem_opened : ∀ t x, x ∈ opened t ↔ Chain SymTree.opens t x
  | .leaf h, x => by
    simp only [opened, List.mem_singleton]
    constructor
    · rintro rfl; exact .here _
    · intro hc
      cases hc with
      | here => rfl
      | down hm _ => simp [SymTree.opens, SymTree.kids] at hm
  | .scope h ms, x => by
    simp only [opened, List.mem_cons, mem_openedAll ms x]
    constructor
    · rintro (rfl | ⟨m, hm, hc⟩)
      · exact .here _
      · exact .down (by exact hm) hc
    · intro hc
      cases hc with
      | here => exact .inl rfl
      | down hm hc => exact .inr ⟨_, hm, hc⟩
  | .inst h u body c, x => by
    cases u with
    | true =>
      simp only [opened, List.mem_singleton, if_true]
      constructor
      · rintro rfl; exact .here _
      · intro hc
        cases hc with
        | here => rfl
        | down hm _ => simp [SymTree.opens] at hm
    | false =>
      simp only [opened, List.mem_cons, Bool.false_eq_true, if_false, mem_openedAll body x]
      constructor
      · rintro (rfl | ⟨m, hm, hc⟩)
        · exact .here _
        · exact .down (by exact hm) hc
      · intro hc
        cases hc with
        | here => exact .inl rfl
        | down hm hc => exact .inr ⟨_, hm, hc⟩

theorem mem_openedAll : ∀ ts x, x ∈ openedAll ts ↔ ∃ m ∈ ts, Chain SymTree.opens m x
  | [], x => by simp [openedAll]
  | t :: ts, x => by simp [openedAll, mem_opened t x, mem_openedAll ts x]
end

mutual
theorem opened_sub : ∀ t, (opened t).Sublist (symsOf t)
  | .leaf h => by simp [opened, symsOf]
  | .scope h ms => by simp only [opened, symsOf]; exact (openedAll_sub ms).cons₂ _
  | .inst h u body c => by
    cases u with
    | true => simp only [opened, symsOf, if_true]; exact (List.nil_sublist _).cons₂ _
    | false =>
      simp only [opened, symsOf, Bool.false_eq_true, if_false]; exact (openedAll_sub body).cons₂ _

theorem openedAll_sub : ∀ ts, (openedAll ts).Sublist (symsAll ts)
  | [] => by simp [openedAll, symsAll]
  | t :: ts => by simp only [openedAll, symsAll]; exact (opened_sub t).append (openedAll_sub ts)
end

theorem chain_trans {next : SymTree → List SymTree} {a b c : SymTree} (h : Chain next a b)
    (h' : Chain next b c) : Chain next a c := by
  induction h with
  | here => exact h'
  | down hm _ ih => exact .down hm (ih h')

theorem opens_kids {a b : SymTree} (h : Chain SymTree.opens a b) : Beneath a b := by
  induction h with
  | here => exact .here _
  | @down s m t hm _ ih =>
    refine .down ?_ ih
    cases s with
    | leaf h => exact hm
    | scope h ms => exact hm
    | inst h u b c =>
      cases u with
      | true => exact nomatch hm
      | false => exact hm

/-- The set of seen symbols are those in the output list. -/
def SeenOk (s : List Nat × List SymTree) : Prop := ∀ i, i ∈ s.1 ↔ ∃ t ∈ s.2, t.head.id = i

/-- A symbol the pattern takes. -/
def Taken (p : Str) (t : SymTree) : Prop := t.head.path ≠ [] ∧ globName p t.head.path = true

theorem take_fold (p : Str) : ∀ (L : List SymTree) (s : List Nat × List SymTree), SeenOk s →
    ∃ s', L.foldl (fun s t => globTake p t s) s = s' ∧ SeenOk s' ∧
      ∃ new, s'.2 = s.2 ++ new ∧ new.Sublist L ∧ (∀ t ∈ new, Taken p t ∧ t.head.id ∉ s.1) ∧
        (∀ t ∈ L, Taken p t → t.head.id ∈ s'.1) ∧ (∀ i ∈ s.1, i ∈ s'.1) ∧
        ((s.2.map fun t => t.head.id).Nodup → (s'.2.map fun t => t.head.id).Nodup)
  | [], s, hs => ⟨s, rfl, hs, [], by simp, .slnil, by simp, by simp, fun _ h => h, fun h => h⟩
  | t :: L, s, hs => by
    rw [List.foldl_cons]
    by_cases hc : t.head.path ≠ [] ∧ globName p t.head.path = true ∧ t.head.id ∉ s.1
    · have h1 : globTake p t s = (t.head.id :: s.1, s.2 ++ [t]) := by simp only [globTake]; exact if_pos hc
      rw [h1]
      have hs1 : SeenOk (t.head.id :: s.1, s.2 ++ [t]) := by
        intro i
        simp only [List.mem_cons, List.mem_append, List.mem_singleton, hs i]
        constructor
        · rintro (rfl | ⟨x, hx, rfl⟩)
          · exact ⟨t, .inr (.inl rfl), rfl⟩
          · exact ⟨x, .inl hx, rfl⟩
        · rintro ⟨x, hx | rfl | hx, rfl⟩
          · exact .inr ⟨x, hx, rfl⟩
          · exact .inl rfl
          · exact nomatch hx
      obtain ⟨s', he, hs', new, hn, hsub, hnew, hall, hkeep, hnd⟩ := take_fold p L _ hs1
      refine ⟨s', he, hs', t :: new, by simp [hn], hsub.cons₂ _, ?_, ?_, ?_, ?_⟩
      · intro x hx
        rcases List.mem_cons.1 hx with rfl | hx
        · exact ⟨⟨hc.1, hc.2.1⟩, hc.2.2⟩
        · obtain ⟨h2, h3⟩ := hnew x hx
          exact ⟨h2, fun h => h3 (List.mem_cons_of_mem _ h)⟩
      · intro x hx hx2
        rcases List.mem_cons.1 hx with rfl | hx
        · exact hkeep _ List.mem_cons_self
        · exact hall x hx hx2
      · intro i hi; exact hkeep i (List.mem_cons_of_mem _ hi)
      · intro hd
        refine hnd ?_
        simp only [List.map_append, List.map_cons, List.map_nil]
        refine List.nodup_append.2 ⟨hd, by simp, ?_⟩
        intro a ha b hb
        simp only [List.mem_singleton] at hb
        subst hb
        rintro rfl
        obtain ⟨x, hx, hxa⟩ := List.mem_map.1 ha
        exact hc.2.2 ((hs _).2 ⟨x, hx, hxa⟩)
    · have h1 : globTake p t s = s := by simp only [globTake]; exact if_neg hc
      rw [h1]
      obtain ⟨s', he, hs', new, hn, hsub, hnew, hall, hkeep, hnd⟩ := take_fold p L _ hs
      refine ⟨s', he, hs', new, hn, hsub.cons _, hnew, ?_, hkeep, hnd⟩
      intro x hx hx2
      rcases List.mem_cons.1 hx with rfl | hx
      · refine hkeep _ ?_
        refine Classical.byContradiction fun h => hc ⟨hx2.1, hx2.2, h⟩
      · exact hall x hx hx2

theorem selected_iff (root : SymTree) (p : Str) (t : SymTree) :
    Selected root p t ↔ t ∈ openedAll root.kids ∧ Taken p t := by
  simp only [Selected, Taken, mem_openedAll, globName_iff]

theorem selected_beneath {root : SymTree} {p : Str} {t : SymTree} (h : Selected root p t) :
    Beneath root t := by
  obtain ⟨⟨m, hm, hc⟩, -⟩ := h
  exact .down hm (opens_kids hc)

theorem asks_beneath {root : SymTree} {lookup : Str → Option SymTree} (hi : Identified root lookup)
    {n : Str} {t : SymTree} (h : AsksFor root lookup n t) : Beneath root t := by
  rcases h with ⟨-, h⟩ | ⟨-, h⟩
  · exact selected_beneath h
  · exact hi.found _ _ h

/-- The state after the arguments `done`. -/
structure ResOk (root : SymTree) (lookup : Str → Option SymTree) (done : List Str)
    (s : List Nat × List SymTree) : Prop where
  seen : SeenOk s
  nodup : (s.2.map fun t => t.head.id).Nodup
  mem : ∀ t, t ∈ s.2 ↔ ∃ n ∈ done, AsksFor root lookup n t

theorem resolve_one {root : SymTree} {lookup : Str → Option SymTree} (hi : Identified root lookup)
    {done : List Str} {s : List Nat × List SymTree} (hs : ResOk root lookup done s) (n : Str) :
    (∃ s', resolveScope root lookup n s = .ok s' ∧ ResOk root lookup (done ++ [n]) s' ∧
      ∃ t, AsksFor root lookup n t ∧ (Wild n → ∀ p ∈ done, ¬ AsksFor root lookup p t)) ∨
    ((∀ t, AsksFor root lookup n t → Wild n ∧ ∃ p ∈ done, AsksFor root lookup p t) ∧
      ((Wild n ∧ resolveScope root lookup n s = .error (.unmatched n)) ∨
       (¬ Wild n ∧ resolveScope root lookup n s = .error (.missing n)))) := by
  have hben : ∀ t ∈ s.2, Beneath root t := fun t ht => by
    obtain ⟨p, -, hp⟩ := (hs.mem t).1 ht
    exact asks_beneath hi hp
  have hin : ∀ t, Beneath root t → (t.head.id ∈ s.1 ↔ t ∈ s.2) := by
    intro t ht
    rw [hs.seen]
    constructor
    · rintro ⟨t', ht', he⟩
      rw [← hi.inj t' t (hben t' ht') ht he]; exact ht'
    · exact fun h => ⟨t, h, rfl⟩
  cases hg : hasGlobChar n with
  | true =>
    have hw : Wild n := (hasGlobChar_iff n).1 hg
    have hask : ∀ t, AsksFor root lookup n t ↔ t ∈ openedAll root.kids ∧ Taken n t := fun t => by
      rw [← selected_iff]
      exact ⟨fun h => h.elim (fun h => h.2) (fun h => absurd hw h.1), fun h => .inl ⟨hw, h⟩⟩
    obtain ⟨s', he, hs', new, hn, hsub, hnew, hall, hkeep, hnd⟩ :=
      take_fold n (openedAll root.kids) s hs.seen
    have hres : resolveScope root lookup n s =
        if s'.2.length = s.2.length then .error (.unmatched n) else .ok s' := by
      simp only [resolveScope, hg, if_true, collectGlobs_eq, he]
    cases new with
    | nil =>
      refine .inr ⟨?_, .inl ⟨hw, ?_⟩⟩
      · intro t ht
        refine ⟨hw, ?_⟩
        have h1 := hall t ((hask t).1 ht).1 ((hask t).1 ht).2
        rw [hs'] at h1
        simp only [List.append_nil] at hn
        rw [hn] at h1
        obtain ⟨t', ht', he'⟩ := h1
        rw [← hi.inj t' t (hben t' ht') (asks_beneath hi ht) he']
        exact (hs.mem t').1 ht'
      · rw [hres]; exact if_pos (by simp [hn])
    | cons x new =>
      have hx := hnew x List.mem_cons_self
      have hxo : x ∈ openedAll root.kids := hsub.subset List.mem_cons_self
      have hxa : AsksFor root lookup n x := (hask x).2 ⟨hxo, hx.1⟩
      refine .inl ⟨s', ?_, ⟨hs', hnd hs.nodup, ?_⟩, x, hxa, ?_⟩
      · rw [hres]; exact if_neg (by simp [hn])
      · intro t
        rw [hn, List.mem_append, hs.mem]
        constructor
        · rintro (⟨p, hp, h⟩ | h)
          · exact ⟨p, List.mem_append_left _ hp, h⟩
          · exact ⟨n, by simp, (hask t).2 ⟨hsub.subset h, (hnew t h).1⟩⟩
        · rintro ⟨p, hp, h⟩
          rcases List.mem_append.1 hp with hp | hp
          · exact .inl ⟨p, hp, h⟩
          · simp only [List.mem_singleton] at hp
            subst hp
            have h1 := hall t ((hask t).1 h).1 ((hask t).1 h).2
            rw [hs'] at h1
            obtain ⟨t', ht', he'⟩ := h1
            have hb : Beneath root t' := by
              rw [hn] at ht'
              rcases List.mem_append.1 ht' with ht' | ht'
              · exact hben t' ht'
              · exact asks_beneath hi ((hask t').2 ⟨hsub.subset ht', (hnew t' ht').1⟩)
            have := hi.inj t' t hb (asks_beneath hi h) he'
            subst this
            rw [hn] at ht'
            rcases List.mem_append.1 ht' with ht' | ht'
            · exact .inl ((hs.mem _).1 ht')
            · exact .inr ht'
      · intro _ p hp h
        exact hx.2 ((hin x (asks_beneath hi hxa)).2 ((hs.mem x).2 ⟨p, hp, h⟩))
  | false =>
    have hw : ¬ Wild n := fun h => by rw [(hasGlobChar_iff n).2 h] at hg; exact nomatch hg
    have hask : ∀ t, AsksFor root lookup n t ↔ lookup n = some t := fun t =>
      ⟨fun h => h.elim (fun h => absurd h.1 hw) (fun h => h.2), fun h => .inr ⟨hw, h⟩⟩
    cases hl : lookup n with
    | none =>
      refine .inr ⟨fun t ht => ?_, .inr ⟨hw, ?_⟩⟩
      · have := (hask t).1 ht
        rw [hl] at this; exact nomatch this
      · simp only [resolveScope, hg, hl, Bool.false_eq_true, if_false]
    | some t =>
      have hta := (hask t).2 hl
      have htb := asks_beneath hi hta
      by_cases hm : t.head.id ∈ s.1
      · refine .inl ⟨s, ?_, ⟨hs.seen, hs.nodup, ?_⟩, t, hta, fun h => absurd h hw⟩
        · simp only [resolveScope, hg, hl, Bool.false_eq_true, if_false]; exact if_pos hm
        · intro x
          rw [hs.mem]
          constructor
          · rintro ⟨p, hp, h⟩; exact ⟨p, List.mem_append_left _ hp, h⟩
          · rintro ⟨p, hp, h⟩
            rcases List.mem_append.1 hp with hp | hp
            · exact ⟨p, hp, h⟩
            · simp only [List.mem_singleton] at hp
              subst hp
              have := (hask x).1 h
              rw [hl] at this
              cases this
              exact (hs.mem _).1 ((hin t htb).1 hm)
      · refine .inl ⟨(t.head.id :: s.1, s.2 ++ [t]), ?_, ⟨?_, ?_, ?_⟩, t, hta, fun h => absurd h hw⟩
        · simp only [resolveScope, hg, hl, Bool.false_eq_true, if_false]; exact if_neg hm
        · intro i
          simp only [List.mem_cons, List.mem_append, hs.seen i]
          constructor
          · rintro (rfl | ⟨x, hx, rfl⟩)
            · exact ⟨t, .inr (.inl rfl), rfl⟩
            · exact ⟨x, .inl hx, rfl⟩
          · rintro ⟨x, hx | rfl | hx, rfl⟩
            · exact .inr ⟨x, hx, rfl⟩
            · exact .inl rfl
            · exact nomatch hx
        · simp only [List.map_append, List.map_cons, List.map_nil]
          refine List.nodup_append.2 ⟨hs.nodup, by simp, ?_⟩
          intro a ha b hb
          simp only [List.mem_singleton] at hb
          subst hb
          rintro rfl
          obtain ⟨x, hx, hxa⟩ := List.mem_map.1 ha
          exact hm ((hs.seen _).2 ⟨x, hx, hxa⟩)
        · intro x
          simp only [List.mem_append, List.mem_singleton, hs.mem]
          constructor
          · rintro (⟨p, hp, h⟩ | rfl)
            · exact ⟨p, .inl hp, h⟩
            · exact ⟨n, .inr rfl, hta⟩
          · rintro ⟨p, hp | rfl, h⟩
            · exact .inl ⟨p, hp, h⟩
            · have := (hask x).1 h
              rw [hl] at this
              cases this
              exact .inr rfl

/-- Every argument asks for a symbol, and a pattern for one that the arguments before it did not ask
for. -/
def NewEach (root : SymTree) (lookup : Str → Option SymTree) : List Str → List Str → Prop
  | _, [] => True
  | done, n :: ns => (∃ t, AsksFor root lookup n t ∧ (Wild n → ∀ p ∈ done, ¬ AsksFor root lookup p t)) ∧
      NewEach root lookup (done ++ [n]) ns

theorem resolve_all {root : SymTree} {lookup : Str → Option SymTree} (hi : Identified root lookup) :
    ∀ (ns done : List Str) (s : List Nat × List SymTree), ResOk root lookup done s →
      (∃ s', resolveScopes root lookup ns s = .ok s' ∧ ResOk root lookup (done ++ ns) s' ∧
        NewEach root lookup done ns) ∨
      (∃ e, resolveScopes root lookup ns s = .error e ∧ ¬ NewEach root lookup done ns ∧
        ∃ n ∈ ns, (Wild n ∧ e = .unmatched n) ∨
          (¬ Wild n ∧ e = .missing n ∧ ∀ t, ¬ AsksFor root lookup n t))
  | [], done, s, hs => .inl ⟨s, rfl, by simpa using hs, trivial⟩
  | n :: ns, done, s, hs => by
    rcases resolve_one hi hs n with ⟨s1, h1, hs1, hx⟩ | ⟨hno, he⟩
    · rcases resolve_all hi ns (done ++ [n]) s1 hs1 with ⟨s2, h2, hs2, hx2⟩ | ⟨e, h2, hx2, m, hm, hd⟩
      · refine .inl ⟨s2, by simp only [resolveScopes, h1, h2], by simpa using hs2, hx, hx2⟩
      · refine .inr ⟨e, by simp only [resolveScopes, h1, h2], fun h => hx2 h.2, m,
          List.mem_cons_of_mem _ hm, hd⟩
    · have hnot : ¬ NewEach root lookup done (n :: ns) := by
        rintro ⟨⟨t, ht, hp⟩, -⟩
        obtain ⟨hw, p, hpd, hpa⟩ := hno t ht
        exact hp hw p hpd hpa
      rcases he with ⟨hw, he⟩ | ⟨hw, he⟩
      · exact .inr ⟨_, by simp only [resolveScopes, he], hnot, n, List.mem_cons_self, .inl ⟨hw, rfl⟩⟩
      · exact .inr ⟨_, by simp only [resolveScopes, he], hnot, n, List.mem_cons_self,
          .inr ⟨hw, rfl, fun t ht => hw (hno t ht).1⟩⟩

theorem resOk_start (root : SymTree) (lookup : Str → Option SymTree) : ResOk root lookup [] ([], []) :=
  ⟨by intro i; simp, by simp, by simp⟩

theorem resolved_nonempty {root : SymTree} {lookup : Str → Option SymTree} :
    ∀ {ns : List Str} {s s' : List Nat × List SymTree}, ns ≠ [] → SeenOk s →
      resolveScopes root lookup ns s = .ok s' → s'.2 ≠ []
  | [], _, _, hne, _, _ => absurd rfl hne
  | n :: ns, s, s', _, hs, h => by
    have one : ∀ s1, resolveScope root lookup n s = .ok s1 → SeenOk s1 ∧ s1.2 ≠ [] := by
      intro s1 h1
      simp only [resolveScope] at h1
      split at h1
      · obtain ⟨s2, he, hs2, new, hn, -⟩ := take_fold n (openedAll root.kids) s hs
        rw [collectGlobs_eq, he] at h1
        by_cases hl : s2.2.length = s.2.length
        · rw [if_pos hl] at h1; exact nomatch h1
        · rw [if_neg hl] at h1
          cases h1
          refine ⟨hs2, fun h => hl ?_⟩
          rw [hn, List.append_eq_nil_iff] at h
          rw [hn, h.1, h.2]; rfl
      · split at h1
        · exact nomatch h1
        · rename_i t ht
          by_cases hm : t.head.id ∈ s.1
          · rw [if_pos hm] at h1
            cases h1
            obtain ⟨x, hx, -⟩ := (hs _).1 hm
            exact ⟨hs, List.ne_nil_of_mem hx⟩
          · rw [if_neg hm] at h1
            cases h1
            refine ⟨?_, by simp⟩
            intro i
            simp only [List.mem_cons, List.mem_append, hs i]
            constructor
            · rintro (rfl | ⟨x, hx, rfl⟩)
              · exact ⟨t, .inr (.inl rfl), rfl⟩
              · exact ⟨x, .inl hx, rfl⟩
            · rintro ⟨x, hx | rfl | hx, rfl⟩
              · exact .inr ⟨x, hx, rfl⟩
              · exact .inl rfl
              · exact nomatch hx
    simp only [resolveScopes] at h
    split at h
    · exact nomatch h
    · rename_i s1 h1
      obtain ⟨hs1, hne1⟩ := one s1 h1
      cases ns with
      | nil => cases h; exact hne1
      | cons m ns => exact resolved_nonempty (by simp) hs1 h

/-! ### Items -/

theorem handles_iff (a : RptAct) (k : DeclKind) : handles a k = true ↔ About a k := by
  cases a <;> cases k <;> simp [handles, About]

theorem nameMatches_iff (fs : List Str) (p : Str) : nameMatches fs p = true ↔ NamePasses fs p := by
  by_cases h : fs = []
  · simp [nameMatches, NamePasses, h]
  · simp [nameMatches, NamePasses, h, globName_iff]

theorem mem_recordItem (fs : List Str) (h x : Head) :
    x ∈ recordItem fs h ↔ x = h ∧ NamePasses fs h.path := by
  cases hn : nameMatches fs h.path with
  | true => simp [recordItem, hn, (nameMatches_iff fs h.path).1 hn]
  | false =>
    have : ¬ NamePasses fs h.path := fun hh => by rw [(nameMatches_iff _ _).2 hh] at hn; exact nomatch hn
    simp [recordItem, hn, this]

/-- Where the visitor goes from a symbol. -/
def rptEnters (a : RptAct) (t : SymTree) : List SymTree :=
  if handles a t.head.kind then []
  else
    match t with
    | .inst _ _ _ (some c) => c
    | t => t.kids

mutual
theorem mem_visitSym (a : RptAct) (fs : List Str) : ∀ t x, x ∈ visitSym a fs t ↔
    ∃ y, Chain (rptEnters a) t y ∧ y.head = x ∧ handles a x.kind = true ∧ NamePasses fs x.path
  | .leaf h, x => by
    cases hk : handles a h.kind with
    | true =>
      simp only [visitSym, hk, if_true, mem_recordItem]
      constructor
      · rintro ⟨rfl, hp⟩; exact ⟨_, .here _, rfl, hk, hp⟩
      · rintro ⟨y, hc, rfl, -, hp⟩
        cases hc with
        | here => exact ⟨rfl, hp⟩
        | down hm _ => simp [rptEnters, SymTree.head, hk] at hm
    | false =>
      simp only [visitSym, hk, Bool.false_eq_true, if_false]
      constructor
      · intro h; exact nomatch h
      · rintro ⟨y, hc, rfl, hy, -⟩
        cases hc with
        | here => simp only [SymTree.head] at hy; rw [hk] at hy; exact nomatch hy
        | down hm _ => simp [rptEnters, SymTree.head, SymTree.kids, hk] at hm
  | .scope h ms, x => by
    cases hk : handles a h.kind with
    | true =>
      simp only [visitSym, hk, if_true, mem_recordItem]
      constructor
      · rintro ⟨rfl, hp⟩; exact ⟨_, .here _, rfl, hk, hp⟩
      · rintro ⟨y, hc, rfl, -, hp⟩
        cases hc with
        | here => exact ⟨rfl, hp⟩
        | down hm _ => simp [rptEnters, SymTree.head, hk] at hm
    | false =>
      have he : rptEnters a (.scope h ms) = ms := by simp [rptEnters, SymTree.head, hk, SymTree.kids]
      simp only [visitSym, hk, Bool.false_eq_true, if_false, mem_visitSyms a fs ms x]
      constructor
      · rintro ⟨m, hm, y, hc, hy⟩; exact ⟨y, .down (he.symm ▸ hm) hc, hy⟩
      · rintro ⟨y, hc, hy⟩
        cases hc with
        | here =>
          obtain ⟨rfl, hy, -⟩ := hy
          simp only [SymTree.head] at hy; rw [hk] at hy; exact nomatch hy
        | down hm hc => exact ⟨_, he ▸ hm, y, hc, hy⟩
  | .inst h u body none, x => by
    cases hk : handles a h.kind with
    | true =>
      simp only [visitSym, hk, if_true, mem_recordItem]
      constructor
      · rintro ⟨rfl, hp⟩; exact ⟨_, .here _, rfl, hk, hp⟩
      · rintro ⟨y, hc, rfl, -, hp⟩
        cases hc with
        | here => exact ⟨rfl, hp⟩
        | down hm _ => simp [rptEnters, SymTree.head, hk] at hm
    | false =>
      have he : rptEnters a (.inst h u body none) = body := by
        simp [rptEnters, SymTree.head, hk, SymTree.kids]
      simp only [visitSym, hk, Bool.false_eq_true, if_false, mem_visitSyms a fs body x]
      constructor
      · rintro ⟨m, hm, y, hc, hy⟩; exact ⟨y, .down (he.symm ▸ hm) hc, hy⟩
      · rintro ⟨y, hc, hy⟩
        cases hc with
        | here =>
          obtain ⟨rfl, hy, -⟩ := hy
          simp only [SymTree.head] at hy; rw [hk] at hy; exact nomatch hy
        | down hm hc => exact ⟨_, he ▸ hm, y, hc, hy⟩
  | .inst h u body (some c), x => by
    cases hk : handles a h.kind with
    | true =>
      simp only [visitSym, hk, if_true, mem_recordItem]
      constructor
      · rintro ⟨rfl, hp⟩; exact ⟨_, .here _, rfl, hk, hp⟩
      · rintro ⟨y, hc, rfl, -, hp⟩
        cases hc with
        | here => exact ⟨rfl, hp⟩
        | down hm _ => simp [rptEnters, SymTree.head, hk] at hm
    | false =>
      have he : rptEnters a (.inst h u body (some c)) = c := by
        simp [rptEnters, SymTree.head, hk]
      simp only [visitSym, hk, Bool.false_eq_true, if_false, mem_visitSyms a fs c x]
      constructor
      · rintro ⟨m, hm, y, hc, hy⟩; exact ⟨y, .down (he.symm ▸ hm) hc, hy⟩
      · rintro ⟨y, hc, hy⟩
        cases hc with
        | here =>
          obtain ⟨rfl, hy, -⟩ := hy
          simp only [SymTree.head] at hy; rw [hk] at hy; exact nomatch hy
        | down hm hc => exact ⟨_, he ▸ hm, y, hc, hy⟩

theorem mem_visitSyms (a : RptAct) (fs : List Str) : ∀ ts x, x ∈ visitSyms a fs ts ↔
    ∃ t ∈ ts, ∃ y, Chain (rptEnters a) t y ∧ y.head = x ∧ handles a x.kind = true ∧ NamePasses fs x.path
  | [], x => by simp [visitSyms]
  | t :: ts, x => by
    simp only [visitSyms, List.mem_append, mem_visitSym a fs t x, mem_visitSyms a fs ts x,
      List.mem_cons, exists_eq_or_imp]
end

theorem recordItem_sub (fs : List Str) (h : Head) (l : List SymTree) (t : SymTree) (ht : t.head = h) :
    (recordItem fs h).Sublist ((t :: l).map SymTree.head) := by
  simp only [recordItem, List.map_cons, ht]
  split
  · exact (List.nil_sublist _).cons₂ _
  · exact List.nil_sublist _

mutual
theorem visitSym_sub (a : RptAct) (fs : List Str) : ∀ t, Unshared t →
    (visitSym a fs t).Sublist ((symsOf t).map SymTree.head)
  | .leaf h, _ => by
    simp only [visitSym, symsOf]
    split
    · exact recordItem_sub fs h _ _ rfl
    · exact List.nil_sublist _
  | .scope h ms, hu => by
    simp only [visitSym, symsOf]
    split
    · exact recordItem_sub fs h _ _ rfl
    · exact (visitSyms_sub a fs ms fun m hm t ht => hu t (.down hm ht)).cons _
  | .inst h u body none, hu => by
    simp only [visitSym, symsOf]
    split
    · exact recordItem_sub fs h _ _ rfl
    · exact (visitSyms_sub a fs body fun m hm t ht => hu t (.down hm ht)).cons _
  | .inst h u body (some c), hu => absurd rfl (hu _ (.here _) h u body c)

theorem visitSyms_sub (a : RptAct) (fs : List Str) : ∀ ts, (∀ t ∈ ts, Unshared t) →
    (visitSyms a fs ts).Sublist ((symsAll ts).map SymTree.head)
  | [], _ => by simp [visitSyms, symsAll]
  | t :: ts, hu => by
    simp only [visitSyms, symsAll, List.map_append]
    exact (visitSym_sub a fs t (hu t List.mem_cons_self)).append
      (visitSyms_sub a fs ts fun m hm => hu m (List.mem_cons_of_mem _ hm))
end

mutual
theorem mem_symsOf : ∀ t x, x ∈ symsOf t ↔ Beneath t x
  | .leaf h, x => by
    simp only [symsOf, List.mem_singleton]
    constructor
    · rintro rfl; exact .here _
    · intro hc
      cases hc with
      | here => rfl
      | down hm _ => simp [SymTree.kids] at hm
  | .scope h ms, x => by
    simp only [symsOf, List.mem_cons, mem_symsAll ms x]
    constructor
    · rintro (rfl | ⟨m, hm, hc⟩)
      · exact .here _
      · exact .down (by exact hm) hc
    · intro hc
      cases hc with
      | here => exact .inl rfl
      | down hm hc => exact .inr ⟨_, hm, hc⟩
  | .inst h u body c, x => by
    simp only [symsOf, List.mem_cons, mem_symsAll body x]
    constructor
    · rintro (rfl | ⟨m, hm, hc⟩)
      · exact .here _
      · exact .down (by exact hm) hc
    · intro hc
      cases hc with
      | here => exact .inl rfl
      | down hm hc => exact .inr ⟨_, hm, hc⟩

theorem mem_symsAll : ∀ ts x, x ∈ symsAll ts ↔ ∃ m ∈ ts, Beneath m x
  | [], x => by simp [symsAll]
  | t :: ts, x => by simp [symsAll, mem_symsOf t x, mem_symsAll ts x]
end

/-- The identities of a tree. -/
def idsOf (t : SymTree) : List Nat := (symsOf t).map fun t => t.head.id

/-- The identities of several trees. -/
def idsAll (ts : List SymTree) : List Nat := (symsAll ts).map fun t => t.head.id

theorem idsOf_kids (t : SymTree) : idsOf t = t.head.id :: idsAll t.kids := by
  cases t <;> simp [idsOf, idsAll, symsOf, symsAll, SymTree.kids, SymTree.head]

theorem idsAll_mem {ts : List SymTree} {m : SymTree} (hm : m ∈ ts) : (idsOf m).Sublist (idsAll ts) := by
  induction ts with
  | nil => exact nomatch hm
  | cons t ts ih =>
    simp only [idsAll, symsAll, List.map_append]
    rcases List.mem_cons.1 hm with rfl | hm
    · exact List.sublist_append_left _ _
    · exact (ih hm).trans (List.sublist_append_right _ _)

/-- Below a tree with distinct identities, trees have distinct identities. -/
theorem ids_down {a b : SymTree} (h : Beneath a b) (hn : (idsOf a).Nodup) : (idsOf b).Nodup := by
  induction h with
  | here => exact hn
  | down hm _ ih =>
    rw [idsOf_kids] at hn
    exact ih ((idsAll_mem hm).nodup (List.nodup_cons.1 hn).2)

theorem id_mem {a b : SymTree} (h : Beneath a b) : b.head.id ∈ idsOf a :=
  List.mem_map_of_mem ((mem_symsOf a b).2 h)

/-- Two members that share an identity are the same member. -/
theorem member_eq {ts : List SymTree} (hn : (idsAll ts).Nodup) {m m' : SymTree} (hm : m ∈ ts)
    (hm' : m' ∈ ts) {i : Nat} (hi : i ∈ idsOf m) (hi' : i ∈ idsOf m') : m = m' := by
  induction ts with
  | nil => exact nomatch hm
  | cons t ts ih =>
    have hn' : (idsOf t ++ idsAll ts).Nodup := by simpa [idsAll, idsOf, symsAll] using hn
    obtain ⟨h1, h2, h3⟩ := List.nodup_append.1 hn'
    rcases List.mem_cons.1 hm with h4 | h4
    · rcases List.mem_cons.1 hm' with h5 | h5
      · rw [h4, h5]
      · exact absurd rfl (h3 i (h4 ▸ hi) i ((idsAll_mem h5).subset hi'))
    · rcases List.mem_cons.1 hm' with h5 | h5
      · exact absurd rfl (h3 i (h5 ▸ hi') i ((idsAll_mem h4).subset hi))
      · exact ih h2 h4 h5

/-- Two symbols above the same identity lie one below the other. -/
theorem nested_of_shared {root : SymTree} (hn : (idsOf root).Nodup) {a b : SymTree}
    (ha : Beneath root a) (hb : Beneath root b) {i : Nat} (hia : i ∈ idsOf a) (hib : i ∈ idsOf b) :
    Beneath a b ∨ Beneath b a := by
  induction ha with
  | here => exact .inl hb
  | @down s m a hm hma ih =>
    cases hb with
    | here => exact .inr (.down hm hma)
    | @down _ m' _ hm' hmb =>
      rw [idsOf_kids] at hn
      have hn' := (List.nodup_cons.1 hn).2
      have up : ∀ {x y : SymTree}, Beneath x y → i ∈ idsOf y → i ∈ idsOf x := by
        intro x y hxy hi
        obtain ⟨z, hz, rfl⟩ := List.mem_map.1 hi
        exact id_mem (chain_trans hxy ((mem_symsOf _ _).1 hz))
      have := member_eq hn' hm hm' (up hma hia) (up hmb hib)
      subst this
      exact ih ((idsAll_mem hm).nodup hn') hmb hia

/-- Where nothing is shared and only leaves are declarations, the visitor reaches the declarations
below. -/
theorem rptEnters_iff {a : RptAct} {t x : SymTree} (hu : Unshared t)
    (hd : ∀ y, Beneath t y → (∃ h, y = .leaf h) ∨ y.head.kind = .other) :
    Chain (rptEnters a) t x ↔ Beneath t x := by
  have key : ∀ s, Beneath t s → rptEnters a s = s.kids := by
    intro s hs
    rcases hd s hs with ⟨h, rfl⟩ | ho
    · simp [rptEnters, SymTree.kids]
    · have hh : handles a s.head.kind = false := by rw [ho]; cases a <;> rfl
      cases s with
      | leaf h => simp [rptEnters, SymTree.kids]
      | scope h ms => simp [rptEnters, hh]
      | inst h u b c =>
        cases c with
        | none => simp [rptEnters, hh]
        | some c => exact absurd rfl (hu _ hs h u b c)
  constructor
  · intro hc
    induction hc with
    | here => exact .here _
    | @down s m x hm _ ih =>
      rw [key s (.here _)] at hm
      exact .down hm (ih (fun y hy => hu y (.down hm hy)) (fun y hy => hd y (.down hm hy))
        (fun y hy => key y (.down hm hy)))
  · intro hc
    induction hc with
    | here => exact .here _
    | @down s m x hm _ ih =>
      refine .down ?_ (ih (fun y hy => hu y (.down hm hy)) (fun y hy => hd y (.down hm hy))
        (fun y hy => key y (.down hm hy)))
      rw [key s (.here _)]; exact hm

theorem visit_nodup {root : SymTree} (hn : (idsOf root).Nodup) (hu : Unshared root) (a : RptAct)
    (fs : List Str) : ∀ (ts : List SymTree), (ts.map fun t => t.head.id).Nodup →
      (∀ t ∈ ts, Beneath root t) → (∀ t ∈ ts, ∀ t' ∈ ts, Beneath t t' → t = t') →
      ((visitSyms a fs ts).map Head.id).Nodup
  | [], _, _, _ => by simp [visitSyms]
  | t :: ts, hd, hb, hx => by
    have ht := hb t List.mem_cons_self
    have hsub : ∀ x, Beneath root x → ((visitSym a fs x).map Head.id).Sublist (idsOf x) := by
      intro x hxb
      have h1 := visitSym_sub a fs x fun y hy => hu y (chain_trans hxb hy)
      have h2 := h1.map Head.id
      rw [List.map_map] at h2
      exact h2
    simp only [visitSyms, List.map_append]
    simp only [List.map_cons, List.nodup_cons] at hd
    refine List.nodup_append.2 ⟨(hsub t ht).nodup (ids_down ht hn),
      visit_nodup hn hu a fs ts hd.2 (fun x h => hb x (List.mem_cons_of_mem _ h))
        (fun x h y h' => hx x (List.mem_cons_of_mem _ h) y (List.mem_cons_of_mem _ h')), ?_⟩
    intro i hi j hj
    rintro rfl
    have hi' := (hsub t ht).subset hi
    obtain ⟨x, hx1, hx2⟩ := List.mem_map.1 hj
    obtain ⟨t', ht', hx3⟩ : ∃ t' ∈ ts, x ∈ visitSym a fs t' := by
      rw [mem_visitSyms] at hx1
      obtain ⟨t', ht', y, hy⟩ := hx1
      exact ⟨t', ht', (mem_visitSym a fs t' x).2 ⟨y, hy⟩⟩
    have hb' := hb t' (List.mem_cons_of_mem _ ht')
    have hi2 : i ∈ idsOf t' := (hsub t' hb').subset (hx2 ▸ List.mem_map_of_mem hx3)
    have : t = t' := by
      rcases nested_of_shared hn ht hb' hi' hi2 with h | h
      · exact hx t List.mem_cons_self t' (List.mem_cons_of_mem _ ht') h
      · exact (hx t' (List.mem_cons_of_mem _ ht') t List.mem_cons_self h).symm
    subst this
    exact hd.1 (List.mem_map_of_mem (f := fun t => t.head.id) ht')

end Verif.Proofs
