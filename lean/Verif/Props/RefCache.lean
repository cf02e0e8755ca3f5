import Verif.Spec.RefCache
import Verif.Props.Cli

/-!
C84: the symbol-reference cache changes nothing and never answers for another graph.
-/
namespace Verif.Props
open Verif.Model Verif.Spec

/-- The requests between two clearings are for one graph; `c` is the graph of the current stretch. -/
def Stretches : Option Nat → List RefOp → Prop
  | _, [] => True
  | _, .clear :: l => Stretches none l
  | none, .use g _ :: l => Stretches (some g) l
  | some g, .use g' _ :: l => g' = g ∧ Stretches (some g) l

theorem stretches_prefix {l l' : List RefOp} : ∀ {c : Option Nat}, Stretches c (l ++ l') → Stretches c l := by
  induction l with
  | nil => intro c _; cases c <;> trivial
  | cons a l ih =>
    intro c h
    cases a with
    | clear => cases c <;> exact ih (c := none) h
    | use g y =>
      cases c with
      | none => exact ih (c := some g) h
      | some k => exact ⟨h.1, ih h.2⟩

theorem stretches_uses (g : Nat) {l : List RefOp} (ys : List Nat) :
    ∀ {c : Option Nat}, (c = none ∨ c = some g) → (∀ c', (c' = none ∨ c' = some g) → Stretches c' l) →
      Stretches c (ys.map (.use g) ++ l) := by
  induction ys with
  | nil => intro c hc hl; exact hl c hc
  | cons y ys ih =>
    intro c hc hl
    rcases hc with rfl | rfl
    · exact ih (.inr rfl) hl
    · exact ⟨rfl, ih (.inr rfl) hl⟩

theorem stretches_any {l : List RefOp} (h : Stretches none l) (hl : l = [] ∨ ∃ l', l = .clear :: l') (c : Option Nat) :
    Stretches c l := by
  rcases hl with rfl | ⟨l', rfl⟩
  · cases c <;> trivial
  · cases c <;> exact h

theorem jobs_stretches (jobs : List RefJob) :
    Stretches none (jobs.flatMap RefJob.ops) ∧
      (jobs.flatMap RefJob.ops = [] ∨ ∃ l, jobs.flatMap RefJob.ops = .clear :: l) := by
  induction jobs with
  | nil => exact ⟨trivial, .inl rfl⟩
  | cons j jobs ih =>
    have hany := stretches_any ih.1 ih.2
    cases j with
    | task g ys =>
      simp only [List.flatMap_cons, RefJob.ops, List.cons_append]
      exact ⟨stretches_uses g ys (.inl rfl) fun c' _ => hany c', .inr ⟨_, rfl⟩⟩
    | build g par p1 p2 fin =>
      simp only [List.flatMap_cons, RefJob.ops, List.cons_append]
      refine ⟨?_, .inr ⟨_, rfl⟩⟩
      show Stretches none _
      rw [List.append_assoc]
      refine stretches_uses g p1 (.inl rfl) fun c' hc' => ?_
      have hfin : ∀ c', (c' = none ∨ c' = some g) →
          Stretches c' (fin.map (.use g) ++ jobs.flatMap RefJob.ops) := fun c' hc' =>
        stretches_uses g fin hc' fun c'' _ => hany c''
      cases par with
      | true => exact hfin c' hc'
      | false =>
        rw [List.append_assoc]
        have : Stretches none (p2.map (.use g) ++ (fin.map (.use g) ++ jobs.flatMap RefJob.ops)) :=
          stretches_uses g p2 (.inl rfl) hfin
        cases c' <;> exact this

/-- What is cached by a thread is what its current graph's table says. -/
def CacheOk (D : Nat → Nat → SymRef) (s : RefSt) (cur : Nat → Option Nat) : Prop :=
  ∀ t y r, s.cache t y = some r → ∃ g i, cur t = some g ∧ r = (g, i) ∧
    (s.tabs g).findIdx? (fun x => decide (x.path = (D g y).path)) = some i

theorem intern_found {tab : List SymRef} {s : SymRef} :
    (internAt tab s).1.findIdx? (fun x => decide (x.path = s.path)) = some (internAt tab s).2 := by
  unfold internAt
  split
  · assumption
  · rename_i h
    rw [List.findIdx?_append, h]
    simp [List.findIdx?_cons]

theorem intern_keeps {tab : List SymRef} {s : SymRef} {p : SymRef → Bool} {i : Nat} (h : tab.findIdx? p = some i) :
    (internAt tab s).1.findIdx? p = some i := by
  unfold internAt
  split
  · exact h
  · rw [List.findIdx?_append, h]; rfl

theorem intern_known {tab : List SymRef} {s : SymRef} {i : Nat}
    (h : tab.findIdx? (fun x => decide (x.path = s.path)) = some i) : internAt tab s = (tab, i) := by
  unfold internAt; rw [h]

theorem threadOps_cons (t u : Nat) (op : RefOp) (tr : List (Nat × RefOp)) :
    threadOps u ((t, op) :: tr) = if t = u then op :: threadOps u tr else threadOps u tr := by
  unfold threadOps
  by_cases h : t = u <;> simp [h]

theorem run_plain (D : Nat → Nat → SymRef) (tr : List (Nat × RefOp)) : ∀ (s : RefSt) (cur : Nat → Option Nat),
    CacheOk D s cur → (∀ t, Stretches (cur t) (threadOps t tr)) →
    ((s.run D tr).tabs, (s.run D tr).log) = plainRun D s.tabs s.log tr := by
  induction tr with
  | nil => intro s cur _ _; rfl
  | cons x tr ih =>
    intro s cur hc hs
    obtain ⟨t, op⟩ := x
    cases op with
    | clear =>
      refine ih (s.step D t .clear) (fun u => if u = t then none else cur u) ?_ ?_
      · intro u y r hr
        simp only [RefSt.step] at hr
        split at hr
        · cases hr
        · rename_i hu
          obtain ⟨g, i, h1, h2, h3⟩ := hc u y r hr
          exact ⟨g, i, (if_neg hu).trans h1, h2, h3⟩
      · intro u
        have := hs u
        rw [threadOps_cons] at this
        by_cases hu : t = u
        · subst hu
          rw [if_pos rfl] at this ⊢
          cases hcur : cur t <;> rw [hcur] at this <;> exact this
        · rw [if_neg hu] at this
          rw [if_neg (fun e => hu e.symm)]
          exact this
    | use g y =>
      have hst := hs t
      rw [threadOps_cons, if_pos rfl] at hst
      have hcur : cur t = none ∨ cur t = some g := by
        cases hcur : cur t with
        | none => exact .inl rfl
        | some k => rw [hcur] at hst; exact .inr (by rw [hst.1])
      have hrest : Stretches (some g) (threadOps t tr) := by
        rcases hcur with h | h
        · rw [h] at hst; exact hst
        · rw [h] at hst; exact hst.2
      have hs' : ∀ u, Stretches (if u = t then some g else cur u) (threadOps u tr) := by
        intro u
        by_cases hu : u = t
        · subst hu; rw [if_pos rfl]; exact hrest
        · have := hs u
          rw [threadOps_cons, if_neg (fun e => hu e.symm)] at this
          rw [if_neg hu]; exact this
      show ((RefSt.run D (s.use D t g y) tr).tabs, (RefSt.run D (s.use D t g y) tr).log) = _
      simp only [plainRun]
      unfold RefSt.use
      cases hca : s.cache t y with
      | some r =>
        obtain ⟨k, i, h1, h2, h3⟩ := hc t y r hca
        have hk : k = g := by
          rcases hcur with h | h
          · rw [h] at h1; cases h1
          · rw [h] at h1; cases h1; rfl
        subst hk
        have he := intern_known h3
        rw [he]
        have htab : (fun k' => if k' = k then s.tabs k else s.tabs k') = s.tabs := by
          funext k'; split <;> simp_all
        dsimp only
        rw [htab, ← h2]
        refine ih { s with log := (k, y, r) :: s.log } (fun u => if u = t then some k else cur u) ?_ hs'
        intro u z q hq
        obtain ⟨g', i', k1, k2, k3⟩ := hc u z q hq
        refine ⟨g', i', ?_, k2, k3⟩
        by_cases hu : u = t
        · subst hu; exact (if_pos rfl).trans (h1.symm.trans k1)
        · exact (if_neg hu).trans k1
      | none =>
        dsimp only
        refine ih _ (fun u => if u = t then some g else cur u) ?_ hs'
        intro u z q hq
        dsimp only at hq ⊢
        split at hq
        · rename_i huz
          obtain ⟨rfl, rfl⟩ := huz
          cases hq
          exact ⟨g, _, if_pos rfl, rfl, by rw [if_pos rfl]; exact intern_found⟩
        · obtain ⟨g', i', k1, k2, k3⟩ := hc u z q hq
          refine ⟨g', i', ?_, k2, ?_⟩
          · by_cases hu : u = t
            · subst hu
              rcases hcur with h | h
              · rw [h] at k1; cases k1
              · rw [if_pos rfl, ← h]; exact k1
            · rw [if_neg hu]; exact k1
          · split
            · rename_i e; subst e; exact intern_keeps k3
            · exact k3

/-- C84: whatever builds run on whatever threads, in whatever order their steps happen, and however
addresses of symbols are used again by later compilations: the tables and every answer are those of a
build that asks the table of its own graph each time. -/
theorem cache_transparent (D : Nat → Nat → SymRef) {tr : List (Nat × RefOp)} (h : Jobs tr) :
    ((RefSt.run D {} tr).tabs, (RefSt.run D {} tr).log) = plainRun D (fun _ => []) [] tr := by
  refine run_plain D tr {} (fun _ => none) (fun t y r hr => by cases hr) fun t => ?_
  obtain ⟨jobs, l, hl⟩ := h t
  have := (jobs_stretches jobs).1
  rw [← hl] at this
  exact stretches_prefix this

theorem plain_answers (D : Nat → Nat → SymRef) (tr : List (Nat × RefOp)) :
    ∀ (tabs : Nat → List SymRef) (log : List (Nat × Nat × Nat × Nat)),
    (∀ x ∈ log, x.2.2.1 = x.1 ∧ (tabs x.1).findIdx? (fun s => decide (s.path = (D x.1 x.2.1).path)) = some x.2.2.2) →
    ∀ x ∈ (plainRun D tabs log tr).2, x.2.2.1 = x.1 ∧
      ((plainRun D tabs log tr).1 x.1).findIdx? (fun s => decide (s.path = (D x.1 x.2.1).path)) = some x.2.2.2 := by
  induction tr with
  | nil => intro tabs log h; exact h
  | cons a tr ih =>
    intro tabs log h
    obtain ⟨t, op⟩ := a
    cases op with
    | clear => exact ih tabs log h
    | use g y =>
      simp only [plainRun]
      refine ih _ _ ?_
      intro x hx
      rcases List.mem_cons.1 hx with rfl | hx
      · exact ⟨rfl, by dsimp only; rw [if_pos rfl]; exact intern_found⟩
      · obtain ⟨h1, h2⟩ := h x hx
        refine ⟨h1, ?_⟩
        split
        · rename_i e; rw [e] at h2 ⊢; exact intern_keeps h2
        · exact h2

/-- C84: every reference handed out points into the table of the graph it was asked for, to the entry
with the path of the symbol, and two symbols of one graph with the same path get the same reference. -/
theorem cache_answers (D : Nat → Nat → SymRef) {tr : List (Nat × RefOp)} (h : Jobs tr) {g y k i : Nat}
    (hx : (g, y, k, i) ∈ (RefSt.run D {} tr).log) :
    k = g ∧ (∃ s, ((RefSt.run D {} tr).tabs g)[i]? = some s ∧ s.path = (D g y).path) ∧
    ∀ y' i', (g, y', g, i') ∈ (RefSt.run D {} tr).log → (D g y').path = (D g y).path → i' = i := by
  have he := cache_transparent D h
  have hp := plain_answers D tr (fun _ => []) [] (by simp)
  rw [← he] at hp
  dsimp only at hp
  obtain ⟨h1, h2⟩ := hp _ hx
  dsimp only at h1 h2
  refine ⟨h1, ?_, fun y' i' hy' hpath => ?_⟩
  · rw [List.findIdx?_eq_some_iff_getElem] at h2
    obtain ⟨hlt, hd, _⟩ := h2
    exact ⟨_, List.getElem?_eq_getElem hlt, by simpa using hd⟩
  · have := (hp _ hy').2
    dsimp only at this
    rw [hpath, h2] at this
    cases this; rfl

/-! ### Locations -/

/-- C84: the location recorded for a symbol is printed as the file, line and column it has in the source,
however the file table grows afterwards (if the table has fewer than 2^32 − 1 files). -/
theorem text_location_exact (files more : List Str) (name : Str) (line col : Nat)
    (hlen : (toTextLocation files (some (name, line, col))).1.length ≤ noFile) :
    locText ((toTextLocation files (some (name, line, col))).1 ++ more)
        (toTextLocation files (some (name, line, col))).2 =
      .ok (name ++ lit ":" ++ decNat line ++ lit ":" ++ decNat col) ∧
    locText files (toTextLocation files none).2 = .ok (lit "?") := by
  refine ⟨?_, rfl⟩
  have hm : name ∈ addFileSeq files name := by
    unfold addFileSeq; split
    · assumption
    · simp
  have hlt := List.idxOf_lt_length_of_mem hm
  simp only [toTextLocation] at hlen ⊢
  unfold locText
  rw [if_neg (by dsimp only; omega)]
  dsimp only
  rw [List.getElem?_append_left hlt, List.getElem?_eq_getElem hlt, List.getElem_idxOf]

/-! ### Concrete cases -/

def rcD (g y : Nat) : SymRef := ⟨[Char.ofNat (97 + y)], [Char.ofNat (97 + g), '.', Char.ofNat (97 + y)], {}⟩

/-- Thread 0 builds graph 0 and then graph 1 in another compilation that has a symbol at the same address
5; threads 1 and 2 work on blocks of both. -/
def rcTrace : List (Nat × RefOp) :=
  [(0, .clear), (0, .use 0 5), (1, .clear), (1, .use 0 5), (2, .clear), (2, .use 0 6), (0, .use 0 6),
    (0, .clear), (0, .use 1 5), (1, .clear), (1, .use 1 5), (0, .clear), (0, .use 1 6), (0, .use 1 5)]

theorem rc_jobs : Jobs rcTrace := by
  intro t
  by_cases h0 : t = 0
  · subst h0
    exact ⟨[.build 0 true [5] [] [6], .build 1 false [5] [6] [5]], ⟨[], by decide⟩⟩
  · by_cases h1 : t = 1
    · subst h1; exact ⟨[.task 0 [5], .task 1 [5]], ⟨[], by decide⟩⟩
    · by_cases h2 : t = 2
      · subst h2; exact ⟨[.task 0 [6]], ⟨[], by decide⟩⟩
      · have e : threadOps t rcTrace = [] := by
          simp only [threadOps, rcTrace]
          have a0 : (0 == t) = false := by simp; omega
          have a1 : (1 == t) = false := by simp; omega
          have a2 : (2 == t) = false := by simp; omega
          simp [List.filter, a0, a1, a2]
        exact ⟨[], by rw [e]; exact List.nil_prefix⟩

/-- The hypotheses of `cache_transparent` and `cache_answers` are met, and eight requests are answered. -/
example : Jobs rcTrace ∧ (RefSt.run rcD {} rcTrace).log.length = 8 ∧
    (1, 5, 1, 0) ∈ (RefSt.run rcD {} rcTrace).log := ⟨rc_jobs, by decide, by decide⟩

/-- The clearing at the start of a build is needed: without it the second build is given a pointer into
the table of the first graph. -/
example : (RefSt.run rcD {} [(0, .clear), (0, .use 0 5), (0, .use 1 5)]).log = [(1, 5, 0, 0), (0, 5, 0, 0)] := by
  decide

/-- The hypothesis of `text_location_exact` is met. -/
example : (toTextLocation [['f']] (some (['g'], 3, 4))) = ([['f'], ['g']], ⟨1, 3, 4⟩) ∧
    (toTextLocation [['f']] (some (['g'], 3, 4))).1.length ≤ noFile := ⟨by decide, by decide⟩

end Verif.Props
