import Verif.Spec.Locks
import Verif.Proofs.DirectedGraph

/-! Invariants of concurrent edge insertion. -/
set_option linter.unusedSimpArgs false
namespace Verif.Proofs
open Verif.Model Verif.Spec

/-- The mutexes a thread holds in each phase. -/
def holds : LPhase → Nat → Prop
  | .idle, _ => False
  | .lockSrc _, _ => False
  | .look r, n => n = r.src
  | .pushOut r, n => n = r.src
  | .unlockEarly r _, n => n = r.src
  | .lockTgt r _, n => r.dedup = true ∧ n = r.src
  | .pushIn r _, n => n = r.tgt ∨ (r.dedup = true ∧ n = r.src)
  | .unlockTgt r _, n => n = r.tgt ∨ (r.dedup = true ∧ n = r.src)
  | .unlockSrc r _, n => n = r.src

/-- What is known about the request in each phase. -/
def shape : LPhase → Prop
  | .look r => r.dedup = true
  | .unlockEarly r _ => r.dedup = false ∧ r.src ≠ r.tgt
  | .lockTgt r _ => r.src ≠ r.tgt
  | .unlockTgt r _ => r.src ≠ r.tgt
  | _ => True

/-- The request a phase belongs to. -/
def reqOf : LPhase → Option Req
  | .idle => none
  | .lockSrc r | .look r | .pushOut r => some r
  | .unlockEarly r _ | .lockTgt r _ | .pushIn r _ | .unlockTgt r _ | .unlockSrc r _ => some r

structure OwnInv (prog : List (List Req)) (s : LSt) : Prop where
  own : ∀ n u, s.owner n = some u ↔ holds (s.th u) n
  shp : ∀ u, shape (s.th u)
  req : ∀ u r, reqOf (s.th u) = some r → ∃ l ∈ prog, r ∈ l
  todo : ∀ u, ∀ r ∈ s.todo u, ∃ l ∈ prog, r ∈ l
  fin : ∀ u, prog.length ≤ u → s.th u = .idle ∧ s.todo u = []

theorem ownInv_begin (g : DGraph) (prog : List (List Req)) : OwnInv prog (.begin g prog) := by
  refine ⟨?_, ?_, ?_, ?_, ?_⟩
  · intro n u; simp [LSt.begin, holds]
  · intro u; simp [LSt.begin, shape]
  · intro u r h; simp [LSt.begin, reqOf] at h
  · intro u r h
    simp only [LSt.begin] at h
    cases hp : prog[u]? with
    | none => simp [hp] at h
    | some l => simp only [hp, Option.getD_some] at h; exact ⟨l, List.mem_of_getElem? hp, h⟩
  · intro u h
    simp [LSt.begin, List.getElem?_eq_none h]

/-- A step that leaves the mutexes alone. -/
theorem own_keep {s : LSt} {u : Nat} {p : LPhase}
    (h : ∀ n v, s.owner n = some v ↔ holds (s.th v) n) (hp : ∀ n, holds p n ↔ holds (s.th u) n) :
    ∀ n v, s.owner n = some v ↔ holds (if v = u then p else s.th v) n := by
  intro n v
  by_cases hv : v = u
  · subst hv; simp only [↓reduceIte, hp]; exact h n v
  · simp only [hv, ↓reduceIte]; exact h n v

/-- A step that takes the free mutex of `x`. -/
theorem own_take {s : LSt} {u x : Nat} {p : LPhase}
    (h : ∀ n v, s.owner n = some v ↔ holds (s.th v) n) (hx : s.owner x = none)
    (hp : ∀ n, holds p n ↔ holds (s.th u) n ∨ n = x) :
    ∀ n v, (if n = x then some u else s.owner n) = some v ↔
      holds (if v = u then p else s.th v) n := by
  intro n v
  by_cases hv : v = u
  · subst hv
    simp only [↓reduceIte, hp]
    by_cases hn : n = x
    · simp [hn]
    · simp only [hn, ↓reduceIte, or_false]; exact h n v
  · simp only [hv, ↓reduceIte]
    by_cases hn : n = x
    · subst hn
      simp only [↓reduceIte, Option.some.injEq]
      constructor
      · intro h'; exact absurd h'.symm hv
      · intro h'; rw [← h] at h'; rw [hx] at h'; cases h'
    · simp only [hn, ↓reduceIte]; exact h n v

/-- A step that releases the mutex of `x`, held by the thread. -/
theorem own_drop {s : LSt} {u x : Nat} {p : LPhase}
    (h : ∀ n v, s.owner n = some v ↔ holds (s.th v) n) (hx : holds (s.th u) x)
    (hp : ∀ n, holds p n ↔ holds (s.th u) n ∧ n ≠ x) :
    ∀ n v, (if n = x then none else s.owner n) = some v ↔
      holds (if v = u then p else s.th v) n := by
  intro n v
  by_cases hv : v = u
  · subst hv
    simp only [↓reduceIte, hp]
    by_cases hn : n = x
    · simp [hn]
    · simp only [hn, ↓reduceIte, ne_eq, not_false_eq_true, and_true]; exact h n v
  · simp only [hv, ↓reduceIte]
    by_cases hn : n = x
    · subst hn
      simp only [↓reduceIte, reduceCtorEq, false_iff]
      rw [← h] at hx ⊢
      rw [hx]
      simpa using fun h => hv h.symm
    · simp only [hn, ↓reduceIte]; exact h n v

theorem ownInv_step {prog : List (List Req)} {s s' : LSt} {u : Nat} (h : OwnInv prog s)
    (hs : s.step u = some s') : OwnInv prog s' := by
  have hu : u < prog.length := by
    apply Classical.byContradiction
    intro hc
    obtain ⟨h1, h2⟩ := h.fin u (by omega)
    simp [LSt.step, LSt.stepAt, h1, h2] at hs
  have hshp := h.shp u
  have hreq := h.req u
  -- what every step has in common
  have hcommon : ∀ p, shape p → (∀ r, reqOf p = some r → ∃ l ∈ prog, r ∈ l) →
      (∀ v, shape (if v = u then p else s.th v)) ∧
      (∀ v r, reqOf (if v = u then p else s.th v) = some r → ∃ l ∈ prog, r ∈ l) ∧
      (∀ v, prog.length ≤ v → (if v = u then p else s.th v) = .idle ∧ s.todo v = []) := by
    intro p hp hr
    refine ⟨?_, ?_, ?_⟩
    · intro v; by_cases hv : v = u <;> simp [hv, hp, h.shp]
    · intro v r; by_cases hv : v = u
      · simp only [hv, ↓reduceIte]; exact hr r
      · simp only [hv, ↓reduceIte]; exact h.req v r
    · intro v hv
      have : v ≠ u := by omega
      simp only [this, ↓reduceIte]; exact h.fin v hv
  unfold LSt.step at hs
  cases hp : s.th u with
  | idle =>
    rw [hp] at hs
    simp only [LSt.stepAt] at hs
    split at hs
    · cases hs
    · rename_i r rest htodo
      cases hs
      have hr : ∃ l ∈ prog, r ∈ l := h.todo u r (by rw [htodo]; exact List.mem_cons_self)
      obtain ⟨c1, c2, c3⟩ := hcommon (.lockSrc r) trivial (by intro r' hr'; cases hr'; exact hr)
      refine ⟨own_keep h.own (by simp [hp, holds]), c1, c2, ?_, ?_⟩
      · intro v r' hr'
        simp only at hr'
        by_cases hv : v = u
        · rw [if_pos hv] at hr'
          exact h.todo u r' (by rw [htodo]; exact List.mem_cons_of_mem _ hr')
        · rw [if_neg hv] at hr'; exact h.todo v r' hr'
      · intro v hv
        have : v ≠ u := by omega
        simp only [LSt.goto, this, ↓reduceIte]; exact h.fin v hv
  | lockSrc r =>
    rw [hp] at hs hreq
    simp only [LSt.stepAt] at hs
    split at hs
    · cases hs
    · rename_i hfree
      cases hs
      obtain ⟨c1, c2, c3⟩ := hcommon (if r.dedup then .look r else .pushOut r)
        (by cases hd : r.dedup <;> simp [shape, hd])
        (by intro r' hr'; apply hreq; revert hr'; cases r.dedup <;> exact fun h => h)
      refine ⟨own_take h.own hfree ?_, c1, c2, h.todo, c3⟩
      intro n; cases r.dedup <;> simp [hp, holds]
  | look r =>
    rw [hp] at hs hreq hshp
    simp only [LSt.stepAt] at hs
    split at hs
    · rename_i e _
      cases hs
      obtain ⟨c1, c2, c3⟩ := hcommon (.unlockSrc r e) trivial hreq
      exact ⟨own_keep h.own (by simp [hp, holds]), c1, c2, h.todo, c3⟩
    · cases hs
      obtain ⟨c1, c2, c3⟩ := hcommon (.pushOut r) trivial hreq
      exact ⟨own_keep h.own (by simp [hp, holds]), c1, c2, h.todo, c3⟩
  | pushOut r =>
    rw [hp] at hs hreq
    simp only [LSt.stepAt, Option.some.injEq] at hs
    subst hs
    by_cases hst : r.src = r.tgt
    · simp only [hst, ↓reduceIte]
      obtain ⟨c1, c2, c3⟩ := hcommon (.pushIn r ⟨s.g.nextEdge, r.tgt, r.tgt⟩) trivial hreq
      exact ⟨own_keep h.own (by intro n; simp only [hp, holds, hst]; omega), c1, c2, h.todo, c3⟩
    · simp only [hst, ↓reduceIte]
      cases hd : r.dedup with
      | true =>
        simp only [↓reduceIte]
        obtain ⟨c1, c2, c3⟩ := hcommon (.lockTgt r ⟨s.g.nextEdge, r.src, r.tgt⟩) hst hreq
        exact ⟨own_keep h.own (by simp [hp, holds, hd]), c1, c2, h.todo, c3⟩
      | false =>
        simp only [Bool.false_eq_true, ↓reduceIte]
        obtain ⟨c1, c2, c3⟩ := hcommon (.unlockEarly r ⟨s.g.nextEdge, r.src, r.tgt⟩) ⟨hd, hst⟩ hreq
        exact ⟨own_keep h.own (by simp [hp, holds, hd]), c1, c2, h.todo, c3⟩
  | unlockEarly r e =>
    rw [hp] at hs hreq hshp
    simp only [LSt.stepAt, Option.some.injEq] at hs
    subst hs
    obtain ⟨c1, c2, c3⟩ := hcommon (.lockTgt r e) hshp.2 hreq
    exact ⟨own_drop h.own (by simp [hp, holds]) (by intro n; simp [hp, holds, hshp.1]), c1, c2,
      h.todo, c3⟩
  | lockTgt r e =>
    rw [hp] at hs hreq
    simp only [LSt.stepAt] at hs
    split at hs
    · cases hs
    · rename_i hfree
      cases hs
      obtain ⟨c1, c2, c3⟩ := hcommon (.pushIn r e) trivial hreq
      refine ⟨own_take h.own hfree ?_, c1, c2, h.todo, c3⟩
      intro n; simp only [hp, holds]; exact Or.comm
  | pushIn r e =>
    rw [hp] at hs hreq
    simp only [LSt.stepAt, Option.some.injEq] at hs
    subst hs
    by_cases hst : r.src = r.tgt
    · simp only [hst, ↓reduceIte]
      obtain ⟨c1, c2, c3⟩ := hcommon (.unlockSrc r e) trivial hreq
      exact ⟨own_keep h.own (by intro n; simp only [hp, holds, hst]; omega), c1, c2, h.todo, c3⟩
    · simp only [hst, ↓reduceIte]
      obtain ⟨c1, c2, c3⟩ := hcommon (.unlockTgt r e) hst hreq
      exact ⟨own_keep h.own (by simp [hp, holds]), c1, c2, h.todo, c3⟩
  | unlockTgt r e =>
    rw [hp] at hs hreq hshp
    simp only [LSt.stepAt, Option.some.injEq] at hs
    subst hs
    have hshp' : r.src ≠ r.tgt := hshp
    cases hd : r.dedup with
    | true =>
      simp only [↓reduceIte]
      obtain ⟨c1, c2, c3⟩ := hcommon (.unlockSrc r e) trivial hreq
      refine ⟨own_drop h.own (by simp [hp, holds]) ?_, c1, c2, h.todo, c3⟩
      intro n; simp only [hp, holds, hd, true_and]; omega
    | false =>
      simp only [Bool.false_eq_true, ↓reduceIte]
      obtain ⟨c1, c2, c3⟩ := hcommon .idle trivial (by intro r' h'; cases h')
      refine ⟨own_drop h.own (by simp [hp, holds]) ?_, c1, c2, h.todo, c3⟩
      intro n; simp only [hp, holds, hd]; simp
  | unlockSrc r e =>
    rw [hp] at hs
    simp only [LSt.stepAt, Option.some.injEq] at hs
    subst hs
    obtain ⟨c1, c2, c3⟩ := hcommon .idle trivial (by intro r' h'; cases h')
    exact ⟨own_drop h.own (by simp [hp, holds]) (by simp [hp, holds]), c1, c2, h.todo, c3⟩

theorem ownInv_run {prog : List (List Req)} : ∀ (l : List Nat) {s s' : LSt}, OwnInv prog s →
    s.run l = some s' → OwnInv prog s' := by
  intro l
  induction l with
  | nil => intro s s' h hs; cases hs; exact h
  | cons u l ih =>
    intro s s' h hs
    simp only [LSt.run] at hs
    split at hs
    · cases hs
    · rename_i s1 h1
      exact ih (ownInv_step h h1) hs

/-! ### Progress -/

/-- A thread that cannot step is finished, or waits for the source, or for the target. -/
theorem stuck_cases {s : LSt} {u : Nat} (h : s.step u = none) :
    (s.th u = .idle ∧ s.todo u = []) ∨
    (∃ r v, s.th u = .lockSrc r ∧ s.owner r.src = some v) ∨
    ∃ r e v, s.th u = .lockTgt r e ∧ s.owner r.tgt = some v := by
  unfold LSt.step at h
  cases hp : s.th u with
  | idle =>
    rw [hp] at h
    simp only [LSt.stepAt] at h
    split at h
    · rename_i ht; exact Or.inl ⟨rfl, ht⟩
    · cases h
  | lockSrc r =>
    rw [hp] at h
    simp only [LSt.stepAt] at h
    split at h
    · rename_i v hv; exact Or.inr (Or.inl ⟨r, v, rfl, hv⟩)
    · cases h
  | lockTgt r e =>
    rw [hp] at h
    simp only [LSt.stepAt] at h
    split at h
    · rename_i v hv; exact Or.inr (Or.inr ⟨r, e, v, rfl, hv⟩)
    · cases h
  | look r =>
    rw [hp] at h
    simp only [LSt.stepAt] at h
    split at h <;> cases h
  | pushOut r => rw [hp] at h; simp [LSt.stepAt] at h
  | unlockEarly r e => rw [hp] at h; simp [LSt.stepAt] at h
  | pushIn r e => rw [hp] at h; simp [LSt.stepAt] at h
  | unlockTgt r e => rw [hp] at h; simp [LSt.stepAt] at h
  | unlockSrc r e => rw [hp] at h; simp [LSt.stepAt] at h

/-- If nobody can step, the holder of a mutex is an `addEdge` waiting for its target. -/
theorem stuck_holder {prog : List (List Req)} {s : LSt} (h : OwnInv prog s)
    (hst : ∀ u, s.step u = none) {n v : Nat} (ho : s.owner n = some v) :
    ∃ r e w, s.th v = .lockTgt r e ∧ r.dedup = true ∧ r.src = n ∧ s.owner r.tgt = some w := by
  have hh := (h.own n v).1 ho
  rcases stuck_cases (hst v) with ⟨h1, _⟩ | ⟨r, w, h1, _⟩ | ⟨r, e, w, h1, h2⟩
  · rw [h1] at hh; exact hh.elim
  · rw [h1] at hh; exact hh.elim
  · rw [h1] at hh
    exact ⟨r, e, w, h1, hh.1, hh.2.symm, h2⟩

theorem no_stuck {prog : List (List Req)} {s : LSt} (h : OwnInv prog s) (rank : Nat → Nat)
    (hr : ∀ l ∈ prog, ∀ r ∈ l, r.dedup = true → r.src ≠ r.tgt → rank r.src < rank r.tgt)
    (hd : ¬ AllDone s) : ∃ u, (s.step u).isSome := by
  apply Classical.byContradiction
  intro hc
  have hst : ∀ u, s.step u = none := by
    intro u
    cases hu : s.step u with
    | none => rfl
    | some x => exact absurd ⟨u, by simp [hu]⟩ hc
  -- ranks of the targets in the programs are bounded
  obtain ⟨K, hK⟩ : ∃ K, ∀ l ∈ prog, ∀ r ∈ l, rank r.tgt < K := by
    have hb : ∀ l : List Req, ∃ K, ∀ r ∈ l, rank r.tgt < K := by
      intro l
      induction l with
      | nil => exact ⟨0, by simp⟩
      | cons a l ih =>
        obtain ⟨K, hK⟩ := ih
        refine ⟨max K (rank a.tgt + 1), ?_⟩
        intro r hr
        rcases List.mem_cons.1 hr with rfl | hr
        · omega
        · have := hK r hr; omega
    obtain ⟨K, hK⟩ := hb prog.flatten
    exact ⟨K, fun l hl r hr => hK r (List.mem_flatten.2 ⟨l, hl, hr⟩)⟩
  have key : ∀ k n v, s.owner n = some v → K ≤ rank n + k → False := by
    intro k
    induction k with
    | zero =>
      intro n v ho hk
      obtain ⟨r, e, w, h1, h2, h3, h4⟩ := stuck_holder h hst ho
      obtain ⟨l, hl, hrl⟩ := h.req v r (by rw [h1]; rfl)
      have hne : r.src ≠ r.tgt := by have := h.shp v; rw [h1] at this; exact this
      have := hr l hl r hrl h2 hne
      have := hK l hl r hrl
      subst h3; omega
    | succ k ih =>
      intro n v ho hk
      obtain ⟨r, e, w, h1, h2, h3, h4⟩ := stuck_holder h hst ho
      obtain ⟨l, hl, hrl⟩ := h.req v r (by rw [h1]; rfl)
      have hne : r.src ≠ r.tgt := by have := h.shp v; rw [h1] at this; exact this
      have := hr l hl r hrl h2 hne
      refine ih r.tgt w h4 ?_
      subst h3; omega
  apply hd
  intro u
  rcases stuck_cases (hst u) with h1 | ⟨r, v, _, h2⟩ | ⟨r, e, v, _, h2⟩
  · exact h1
  · exact (key K _ v h2 (by omega)).elim
  · exact (key K _ v h2 (by omega)).elim

/-- Steps a thread still has to take inside its call, at most. -/
def phaseWeight : LPhase → Nat
  | .idle => 0
  | .lockSrc _ => 8
  | .look _ => 7
  | .pushOut _ => 6
  | .unlockEarly _ _ => 5
  | .lockTgt _ _ => 4
  | .pushIn _ _ => 3
  | .unlockTgt _ _ => 2
  | .unlockSrc _ _ => 1

/-- Steps still to take by the threads below `k`, at most. -/
def work (s : LSt) : Nat → Nat
  | 0 => 0
  | k + 1 => work s k + phaseWeight (s.th k) + 9 * (s.todo k).length

theorem work_congr {s s' : LSt} : ∀ {k : Nat},
    (∀ u, u < k → s'.th u = s.th u ∧ s'.todo u = s.todo u) → work s' k = work s k := by
  intro k
  induction k with
  | zero => intro _; rfl
  | succ k ih =>
    intro h
    simp only [work]
    rw [ih (fun u hu => h u (by omega)), (h k (by omega)).1, (h k (by omega)).2]

theorem work_lt {s s' : LSt} {u : Nat} : ∀ {k : Nat}, u < k →
    (∀ v, v ≠ u → s'.th v = s.th v ∧ s'.todo v = s.todo v) →
    phaseWeight (s'.th u) + 9 * (s'.todo u).length < phaseWeight (s.th u) + 9 * (s.todo u).length →
    work s' k < work s k := by
  intro k
  induction k with
  | zero => intro h; omega
  | succ k ih =>
    intro hk h1 h2
    simp only [work]
    by_cases hu : u = k
    · subst hu
      rw [work_congr (s := s) (s' := s') (fun v hv => h1 v (by omega))]
      omega
    · have := ih (by omega) h1 h2
      rw [(h1 k (fun h => hu h.symm)).1, (h1 k (fun h => hu h.symm)).2]
      omega

theorem step_local {s s' : LSt} {u : Nat} (hs : s.step u = some s') :
    (∀ v, v ≠ u → s'.th v = s.th v ∧ s'.todo v = s.todo v) ∧
    phaseWeight (s'.th u) + 9 * (s'.todo u).length < phaseWeight (s.th u) + 9 * (s.todo u).length := by
  unfold LSt.step at hs
  cases hp : s.th u with
  | idle =>
    rw [hp] at hs
    simp only [LSt.stepAt] at hs
    split at hs
    · cases hs
    · rename_i r rest ht
      cases hs
      refine ⟨fun v hv => by simp [LSt.goto, hv], ?_⟩
      simp only [LSt.goto, ↓reduceIte, phaseWeight, hp, ht, List.length_cons]
      omega
  | lockSrc r =>
    rw [hp] at hs
    simp only [LSt.stepAt] at hs
    split at hs
    · cases hs
    · cases hs
      refine ⟨fun v hv => by simp [LSt.goto, LSt.own, hv], ?_⟩
      cases r.dedup <;> simp [LSt.goto, LSt.own, phaseWeight, hp]
  | look r =>
    rw [hp] at hs
    simp only [LSt.stepAt] at hs
    split at hs <;> cases hs <;>
      exact ⟨fun v hv => by simp [LSt.goto, hv], by simp [LSt.goto, phaseWeight, hp]⟩
  | pushOut r =>
    rw [hp] at hs
    simp only [LSt.stepAt, Option.some.injEq] at hs
    subst hs
    refine ⟨fun v hv => by simp [LSt.goto, hv], ?_⟩
    simp only [LSt.goto, ↓reduceIte, hp]
    split
    · simp [phaseWeight]
    · split <;> simp [phaseWeight]
  | unlockEarly r e =>
    rw [hp] at hs
    simp only [LSt.stepAt, Option.some.injEq] at hs
    subst hs
    exact ⟨fun v hv => by simp [LSt.goto, LSt.own, hv], by simp [LSt.goto, LSt.own, phaseWeight, hp]⟩
  | lockTgt r e =>
    rw [hp] at hs
    simp only [LSt.stepAt] at hs
    split at hs
    · cases hs
    · cases hs
      exact ⟨fun v hv => by simp [LSt.goto, LSt.own, hv],
        by simp [LSt.goto, LSt.own, phaseWeight, hp]⟩
  | pushIn r e =>
    rw [hp] at hs
    simp only [LSt.stepAt, Option.some.injEq] at hs
    subst hs
    refine ⟨fun v hv => by simp [LSt.goto, hv], ?_⟩
    simp only [LSt.goto, ↓reduceIte, hp]
    split <;> simp [phaseWeight]
  | unlockTgt r e =>
    rw [hp] at hs
    simp only [LSt.stepAt, Option.some.injEq] at hs
    subst hs
    cases r.dedup <;>
      exact ⟨fun v hv => by simp [LSt.goto, LSt.own, LSt.ret, hv],
        by simp [LSt.goto, LSt.own, LSt.ret, phaseWeight, hp]⟩
  | unlockSrc r e =>
    rw [hp] at hs
    simp only [LSt.stepAt, Option.some.injEq] at hs
    subst hs
    exact ⟨fun v hv => by simp [LSt.goto, LSt.own, LSt.ret, hv],
      by simp [LSt.goto, LSt.own, LSt.ret, phaseWeight, hp]⟩

theorem step_work {prog : List (List Req)} {s s' : LSt} {u : Nat} (h : OwnInv prog s)
    (hs : s.step u = some s') : work s' prog.length < work s prog.length := by
  have hu : u < prog.length := by
    apply Classical.byContradiction
    intro hc
    obtain ⟨h1, h2⟩ := h.fin u (by omega)
    simp [LSt.step, LSt.stepAt, h1, h2] at hs
  obtain ⟨h1, h2⟩ := step_local hs
  exact work_lt hu h1 h2

theorem run_append (a : List Nat) : ∀ (s : LSt) (b : List Nat),
    s.run (a ++ b) = (s.run a).bind fun s' => s'.run b := by
  induction a with
  | nil => intro s b; rfl
  | cons u a ih =>
    intro s b
    simp only [List.cons_append, LSt.run]
    cases s.step u with
    | none => rfl
    | some s1 => exact ih s1 b

theorem run_bounded {prog : List (List Req)} : ∀ (l : List Nat) {s s' : LSt}, OwnInv prog s →
    s.run l = some s' → l.length + work s' prog.length ≤ work s prog.length := by
  intro l
  induction l with
  | nil => intro s s' _ hs; cases hs; simp
  | cons u l ih =>
    intro s s' h hs
    simp only [LSt.run] at hs
    split at hs
    · cases hs
    · rename_i s1 h1
      have := ih (ownInv_step h h1) hs
      have := step_work h h1
      simp only [List.length_cons]; omega

theorem work_begin (g : DGraph) : ∀ (prog : List (List Req)),
    work (.begin g prog) prog.length = 9 * prog.flatten.length := by
  intro prog
  have : ∀ k, k ≤ prog.length → work (.begin g prog) k = 9 * (prog.take k).flatten.length := by
    intro k
    induction k with
    | zero => intro _; rfl
    | succ k ih =>
      intro hk
      have hk' : k < prog.length := by omega
      rw [work, ih (by omega)]
      simp only [List.take_succ, LSt.begin, phaseWeight,
        List.getElem?_eq_getElem hk', Option.toList_some, List.flatten_append, Option.getD_some,
        List.length_append, List.flatten_cons, List.flatten_nil, List.append_nil]
      omega
  have := this prog.length (Nat.le_refl _)
  rwa [List.take_length] at this

end Verif.Proofs
