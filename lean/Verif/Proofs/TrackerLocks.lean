import Verif.Spec.TrackerLocks
import Verif.Props.ValueTracker

/-! Invariants of concurrent recording of drivers. -/
namespace Verif.Proofs
open Verif.Model Verif.Spec Verif.Props

/-- The phases in which a thread holds the shared lock. -/
def vReads : VPhase → Bool
  | .check .. | .release .. | .lock .. | .refer .. | .update .. | .unlock .. | .leave .. => true
  | _ => false

/-- The phases in which a thread holds the exclusive lock. -/
def vWrites : VPhase → Bool
  | .grow .. | .downgrade .. => true
  | _ => false

/-- The slot whose lock a thread holds. -/
def vSlot : VPhase → Option Nat
  | .refer _ i | .update _ i _ _ | .unlock _ i => some i
  | _ => none

/-- The symbol and slot of a call once the slot is known. -/
def vIdx : VPhase → Option (Nat × Nat)
  | .name c i | .enter c i | .check c i | .release c i | .upgrade c i | .grow c i | .downgrade c i
  | .reenter c i | .lock c i | .refer c i | .update c i _ _ | .unlock c i | .leave c i => some (c.1, i)
  | _ => none

/-- The number drawn from the counter and not used yet. -/
def vCand : VPhase → Option Nat
  | .emplace _ k => some k
  | _ => none

/-- The slot for which the vectors are known to be long enough. -/
def vSized : VPhase → Option Nat
  | .downgrade _ i | .reenter _ i | .lock _ i | .refer _ i | .update _ i _ _ => some i
  | _ => none

/-- The slot that is about to be entered in the reverse mapping. -/
def vName : VPhase → Option (Nat × Nat)
  | .name c i => some (c.1, i)
  | _ => none

/-- The call of a thread, until its update. -/
def vCall : VPhase → List (Nat × Rec)
  | .find c | .draw c | .emplace c _ | .name c _ | .enter c _ | .check c _ | .release c _ | .upgrade c _
  | .grow c _ | .downgrade c _ | .reenter c _ | .lock c _ | .refer c _ | .update c _ _ _ => [c]
  | _ => []

/-- What is known about the slots. -/
structure SlotInv (t : Tracker) (names : List (Nat × Nat)) (th : Nat → VPhase) : Prop where
  fresh : ∀ p ∈ t.slots, p.2 < t.next
  inj : ∀ p ∈ t.slots, ∀ q ∈ t.slots, p.2 = q.2 → p = q
  keys : (t.slots.map (·.1)).Nodup
  cand : ∀ u k, vCand (th u) = some k → k < t.next ∧ ∀ p ∈ t.slots, p.2 ≠ k
  cands : ∀ u v k, vCand (th u) = some k → vCand (th v) = some k → u = v
  idx : ∀ u p, vIdx (th u) = some p → p ∈ t.slots
  names : ∀ i sym, (sym, i) ∈ t.slots ↔ (i, sym) ∈ names ∨ ∃ u, vName (th u) = some (sym, i)

/-- What is known about the locks. -/
structure LockInv (R : List Nat) (W : Option Nat) (L : Nat → Option Nat) (th : Nat → VPhase) : Prop where
  readers : ∀ u, u ∈ R ↔ vReads (th u) = true
  nodup : R.Nodup
  writer : ∀ u, W = some u ↔ vWrites (th u) = true
  excl : ∀ u, W = some u → R = []
  slot : ∀ i u, L i = some u ↔ vSlot (th u) = some i

/-- What is known about the driver maps. -/
structure MapsInv (t0 : Tracker) (drv0 : List DMap) (t : Tracker) (drv : List DMap) (mem gen : Nat)
    (log : List (Nat × Nat × Rec)) (th : Nat → VPhase) : Prop where
  sized : ∀ u i, vSized (th u) = some i → i < drv.length ∧ i < mem
  upd : ∀ u c i m g, th u = .update c i m g → g = gen ∧ drv[i]? = some m
  blank : ∀ (i : Nat) m, drv[i]? = some m → (∀ p ∈ t.slots, p.2 ≠ i) → m = {}
  maps : ∀ sym, (mapFor t0 drv0 sym).run (histOf (log.map (·.2)) sym) = .ok (mapFor t drv sym)

/-- All that is known about a state of the threads. -/
structure VInv (t0 : Tracker) (drv0 : List DMap) (prog : List (List (Nat × Rec))) (s : VSt) : Prop where
  slots : SlotInv s.trk s.names s.th
  locks : LockInv s.readers s.writer s.slot s.th
  maps : MapsInv t0 drv0 s.trk s.drv s.mem s.gen s.log s.th
  prog : ∀ u, callsOf s.log u ++ vCall (s.th u) ++ s.todo u = (prog[u]?).getD []

variable {t t0 : Tracker} {names : List (Nat × Nat)} {th : Nat → VPhase} {drv drv0 : List DMap} {mem gen : Nat}
  {log : List (Nat × Nat × Rec)} {readers : List Nat} {writer : Option Nat} {slot : Nat → Option Nat} {u : Nat}
  {p : VPhase}

theorem SlotInv.goto (h : SlotInv t names th) (h1 : vCand p = none) (h2 : ∀ q, vIdx p = some q → q ∈ t.slots)
    (h3 : vName p = none) (h4 : vName (th u) = none) :
    SlotInv t names (fun v => if v = u then p else th v) := by
  refine ⟨h.fresh, h.inj, h.keys, ?_, ?_, ?_, ?_⟩
  · intro v k hk
    by_cases hv : v = u
    · simp [hv, h1] at hk
    · simp only [hv, ↓reduceIte] at hk; exact h.cand v k hk
  · intro v w k hk hl
    by_cases hv : v = u
    · simp [hv, h1] at hk
    · by_cases hw : w = u
      · simp [hw, h1] at hl
      · simp only [hv, hw, ↓reduceIte] at hk hl; exact h.cands v w k hk hl
  · intro v q hq
    by_cases hv : v = u
    · simp only [hv, ↓reduceIte] at hq; exact h2 q hq
    · simp only [hv, ↓reduceIte] at hq; exact h.idx v q hq
  · intro i sym
    rw [h.names i sym]
    constructor
    · rintro (h5 | ⟨v, hv⟩)
      · exact .inl h5
      · refine .inr ⟨v, ?_⟩
        have : v ≠ u := by rintro rfl; rw [h4] at hv; cases hv
        simpa [this] using hv
    · rintro (h5 | ⟨v, hv⟩)
      · exact .inl h5
      · refine .inr ⟨v, ?_⟩
        by_cases hw : v = u
        · simp [hw, h3] at hv
        · simpa [hw] using hv

theorem SlotInv.draw (h : SlotInv t names th) {c : Nat × Rec} (hu : th u = .draw c) :
    SlotInv { t with next := t.next + 1 } names (fun v => if v = u then .emplace c t.next else th v) := by
  refine ⟨fun p hp => Nat.lt_succ_of_lt (h.fresh p hp), h.inj, h.keys, ?_, ?_, ?_, ?_⟩
  · intro v k hk
    by_cases hv : v = u
    · simp only [hv, ↓reduceIte, vCand, Option.some.injEq] at hk
      subst hk
      exact ⟨Nat.lt_succ_self _, fun p hp => Nat.ne_of_lt (h.fresh p hp)⟩
    · simp only [hv, ↓reduceIte] at hk
      exact ⟨Nat.lt_succ_of_lt (h.cand v k hk).1, (h.cand v k hk).2⟩
  · intro v w k hk hl
    by_cases hv : v = u
    · by_cases hw : w = u
      · rw [hv, hw]
      · simp only [hv, hw, ↓reduceIte, vCand, Option.some.injEq] at hk hl
        have := (h.cand w k hl).1
        omega
    · by_cases hw : w = u
      · simp only [hv, hw, ↓reduceIte, vCand, Option.some.injEq] at hk hl
        have := (h.cand v k hk).1
        omega
      · simp only [hv, hw, ↓reduceIte] at hk hl; exact h.cands v w k hk hl
  · intro v q hq
    by_cases hv : v = u
    · simp [hv, vIdx] at hq
    · simp only [hv, ↓reduceIte] at hq; exact h.idx v q hq
  · intro i sym
    rw [h.names i sym]
    constructor
    · rintro (h5 | ⟨v, hv⟩)
      · exact .inl h5
      · refine .inr ⟨v, ?_⟩
        have : v ≠ u := by rintro rfl; rw [hu] at hv; cases hv
        simpa [this] using hv
    · rintro (h5 | ⟨v, hv⟩)
      · exact .inl h5
      · refine .inr ⟨v, ?_⟩
        by_cases hw : v = u
        · simp [hw, vName] at hv
        · simpa [hw] using hv

theorem SlotInv.emplace (h : SlotInv t names th) {c : Nat × Rec} {k : Nat} (hu : th u = .emplace c k)
    (hc : t.getSlot c.1 = none) :
    SlotInv { t with slots := t.slots ++ [(c.1, k)] } names (fun v => if v = u then .name c k else th v) := by
  obtain ⟨hk1, hk2⟩ := h.cand u k (by rw [hu]; rfl)
  have hn := getSlot_none hc
  refine ⟨?_, ?_, ?_, ?_, ?_, ?_, ?_⟩
  · intro p hp
    rcases List.mem_append.1 hp with hp | hp
    · exact h.fresh p hp
    · cases List.mem_singleton.1 hp; exact hk1
  · intro p hp q hq e
    rcases List.mem_append.1 hp with hp | hp <;> rcases List.mem_append.1 hq with hq | hq
    · exact h.inj p hp q hq e
    · cases List.mem_singleton.1 hq; exact absurd e (hk2 p hp)
    · cases List.mem_singleton.1 hp; exact absurd e.symm (hk2 q hq)
    · cases List.mem_singleton.1 hp; cases List.mem_singleton.1 hq; rfl
  · rw [List.map_append]
    refine List.nodup_append.2 ⟨h.keys, by simp, ?_⟩
    intro a ha b hb e
    simp only [List.map_cons, List.map_nil, List.mem_singleton] at hb
    subst hb
    subst e
    exact hn ha
  · intro v j hj
    by_cases hv : v = u
    · simp [hv, vCand] at hj
    · simp only [hv, ↓reduceIte] at hj
      refine ⟨(h.cand v j hj).1, fun p hp => ?_⟩
      rcases List.mem_append.1 hp with hp | hp
      · exact (h.cand v j hj).2 p hp
      · cases List.mem_singleton.1 hp
        rintro rfl
        exact hv (h.cands v u _ hj (by rw [hu]; rfl))
  · intro v w j hj hl
    by_cases hv : v = u
    · simp [hv, vCand] at hj
    · by_cases hw : w = u
      · simp [hw, vCand] at hl
      · simp only [hv, hw, ↓reduceIte] at hj hl; exact h.cands v w j hj hl
  · intro v q hq
    by_cases hv : v = u
    · simp only [hv, ↓reduceIte, vIdx, Option.some.injEq] at hq
      subst hq
      exact List.mem_append_right _ (by simp)
    · simp only [hv, ↓reduceIte] at hq; exact List.mem_append_left _ (h.idx v q hq)
  · intro i sym
    rw [List.mem_append, h.names i sym]
    constructor
    · rintro ((h5 | ⟨v, hv⟩) | h5)
      · exact .inl h5
      · refine .inr ⟨v, ?_⟩
        have : v ≠ u := by rintro rfl; rw [hu] at hv; cases hv
        simpa [this] using hv
      · cases List.mem_singleton.1 h5
        exact .inr ⟨u, by simp [vName]⟩
    · rintro (h5 | ⟨v, hv⟩)
      · exact .inl (.inl h5)
      · by_cases hw : v = u
        · simp only [hw, ↓reduceIte, vName, Option.some.injEq] at hv
          rw [← hv]
          exact .inr (by simp)
        · exact .inl (.inr ⟨v, by simpa [hw] using hv⟩)

theorem SlotInv.name (h : SlotInv t names th) {c : Nat × Rec} {k : Nat} (hu : th u = .name c k) :
    SlotInv t (names ++ [(k, c.1)]) (fun v => if v = u then .enter c k else th v) := by
  refine ⟨h.fresh, h.inj, h.keys, ?_, ?_, ?_, ?_⟩
  · intro v k hk
    by_cases hv : v = u
    · simp [hv, vCand] at hk
    · simp only [hv, ↓reduceIte] at hk; exact h.cand v k hk
  · intro v w k hk hl
    by_cases hv : v = u
    · simp [hv, vCand] at hk
    · by_cases hw : w = u
      · simp [hw, vCand] at hl
      · simp only [hv, hw, ↓reduceIte] at hk hl; exact h.cands v w k hk hl
  · intro v q hq
    by_cases hv : v = u
    · simp only [hv, ↓reduceIte] at hq; exact h.idx u q (by rw [hu]; exact hq)
    · simp only [hv, ↓reduceIte] at hq; exact h.idx v q hq
  · intro i sym
    rw [h.names i sym]
    constructor
    · rintro (h5 | ⟨v, hv⟩)
      · exact .inl (List.mem_append_left _ h5)
      · by_cases hw : v = u
        · rw [hw, hu] at hv
          simp only [vName, Option.some.injEq, Prod.mk.injEq] at hv
          rw [← hv.1, ← hv.2]
          exact .inl (List.mem_append_right _ (by simp))
        · exact .inr ⟨v, by simpa [hw] using hv⟩
    · rintro (h5 | ⟨v, hv⟩)
      · rcases List.mem_append.1 h5 with h5 | h5
        · exact .inl h5
        · cases List.mem_singleton.1 h5
          exact .inr ⟨u, by rw [hu]; rfl⟩
      · refine .inr ⟨v, ?_⟩
        by_cases hw : v = u
        · simp [hw, vName] at hv
        · simpa [hw] using hv

/-! ### Locks -/

theorem LockInv.goto (h : LockInv readers writer slot th) (h1 : vReads p = vReads (th u))
    (h2 : vWrites p = vWrites (th u)) (h3 : vSlot p = vSlot (th u)) :
    LockInv readers writer slot (fun v => if v = u then p else th v) := by
  refine ⟨fun v => ?_, h.nodup, fun v => ?_, h.excl, fun i v => ?_⟩
  · by_cases hv : v = u
    · simp only [hv, ↓reduceIte, h1]; exact h.readers u
    · simp only [hv, ↓reduceIte]; exact h.readers v
  · by_cases hv : v = u
    · simp only [hv, ↓reduceIte, h2]; exact h.writer u
    · simp only [hv, ↓reduceIte]; exact h.writer v
  · by_cases hv : v = u
    · simp only [hv, ↓reduceIte, h3]; exact h.slot i u
    · simp only [hv, ↓reduceIte]; exact h.slot i v

theorem LockInv.read (h : LockInv readers writer slot th) (hw : writer = none) (h0 : vReads (th u) = false)
    (h1 : vReads p = true) (h2 : vWrites p = vWrites (th u)) (h3 : vSlot p = vSlot (th u)) :
    LockInv (u :: readers) writer slot (fun v => if v = u then p else th v) := by
  refine ⟨fun v => ?_, ?_, fun v => ?_, fun v hv => ?_, fun i v => ?_⟩
  · by_cases hv : v = u
    · simp [hv, h1]
    · simp only [hv, ↓reduceIte, List.mem_cons, false_or]; exact h.readers v
  · refine List.nodup_cons.2 ⟨fun hm => ?_, h.nodup⟩
    rw [(h.readers u).1 hm] at h0; cases h0
  · by_cases hv : v = u
    · simp only [hv, ↓reduceIte, h2]; exact h.writer u
    · simp only [hv, ↓reduceIte]; exact h.writer v
  · rw [hw] at hv; cases hv
  · by_cases hv : v = u
    · simp only [hv, ↓reduceIte, h3]; exact h.slot i u
    · simp only [hv, ↓reduceIte]; exact h.slot i v

theorem LockInv.unread (h : LockInv readers writer slot th) 
    (h1 : vReads p = false) (h2 : vWrites p = vWrites (th u)) (h3 : vSlot p = vSlot (th u)) :
    LockInv (readers.erase u) writer slot (fun v => if v = u then p else th v) := by
  refine ⟨fun v => ?_, h.nodup.erase u, fun v => ?_, fun v hv => ?_, fun i v => ?_⟩
  · by_cases hv : v = u
    · subst hv
      simp [h1, h.nodup.mem_erase_iff]
    · simp only [hv, ↓reduceIte, h.nodup.mem_erase_iff, ne_eq, not_false_eq_true, true_and]; exact h.readers v
  · by_cases hv : v = u
    · simp only [hv, ↓reduceIte, h2]; exact h.writer u
    · simp only [hv, ↓reduceIte]; exact h.writer v
  · rw [h.excl v hv]; rfl
  · by_cases hv : v = u
    · simp only [hv, ↓reduceIte, h3]; exact h.slot i u
    · simp only [hv, ↓reduceIte]; exact h.slot i v

theorem LockInv.write (h : LockInv [] none slot th) 
    (h1 : vReads p = vReads (th u)) (h2 : vWrites p = true) (h3 : vSlot p = vSlot (th u)) :
    LockInv [] (some u) slot (fun v => if v = u then p else th v) := by
  refine ⟨fun v => ?_, h.nodup, fun v => ?_, fun _ _ => rfl, fun i v => ?_⟩
  · by_cases hv : v = u
    · simp only [hv, ↓reduceIte, h1]; exact h.readers u
    · simp only [hv, ↓reduceIte]; exact h.readers v
  · by_cases hv : v = u
    · simp [hv, h2]
    · simp only [hv, ↓reduceIte, Option.some.injEq]
      constructor
      · rintro rfl; exact absurd rfl hv
      · intro hw; have := (h.writer v).2 hw; cases this
  · by_cases hv : v = u
    · simp only [hv, ↓reduceIte, h3]; exact h.slot i u
    · simp only [hv, ↓reduceIte]; exact h.slot i v

theorem LockInv.unwrite (h : LockInv readers writer slot th) (h0 : vWrites (th u) = true)
    (h1 : vReads p = vReads (th u)) (h2 : vWrites p = false) (h3 : vSlot p = vSlot (th u)) :
    LockInv readers none slot (fun v => if v = u then p else th v) := by
  refine ⟨fun v => ?_, h.nodup, fun v => ?_, (fun v hv => by cases hv), fun i v => ?_⟩
  · by_cases hv : v = u
    · simp only [hv, ↓reduceIte, h1]; exact h.readers u
    · simp only [hv, ↓reduceIte]; exact h.readers v
  · by_cases hv : v = u
    · simp [hv, h2]
    · simp only [hv, ↓reduceIte, reduceCtorEq, false_iff]
      intro hw
      have e := (h.writer v).2 hw
      rw [(h.writer u).2 h0] at e
      exact hv (Option.some.inj e).symm
  · by_cases hv : v = u
    · simp only [hv, ↓reduceIte, h3]; exact h.slot i u
    · simp only [hv, ↓reduceIte]; exact h.slot i v

theorem LockInv.take (h : LockInv readers writer slot th) {i : Nat} (hi : slot i = none)
    (h0 : vSlot (th u) = none) (h1 : vReads p = vReads (th u)) (h2 : vWrites p = vWrites (th u))
    (h3 : vSlot p = some i) :
    LockInv readers writer (fun j => if j = i then some u else slot j) (fun v => if v = u then p else th v) := by
  refine ⟨fun v => ?_, h.nodup, fun v => ?_, h.excl, fun j v => ?_⟩
  · by_cases hv : v = u
    · simp only [hv, ↓reduceIte, h1]; exact h.readers u
    · simp only [hv, ↓reduceIte]; exact h.readers v
  · by_cases hv : v = u
    · simp only [hv, ↓reduceIte, h2]; exact h.writer u
    · simp only [hv, ↓reduceIte]; exact h.writer v
  · by_cases hv : v = u
    · subst hv
      simp only [↓reduceIte, h3, Option.some.injEq]
      by_cases hj : j = i
      · simp [hj]
      · simp only [hj, ↓reduceIte]
        rw [h.slot j v, h0]
        simpa using fun e => hj e.symm
    · simp only [hv, ↓reduceIte]
      by_cases hj : j = i
      · subst hj
        rw [← h.slot j v, hi]
        simpa using fun e => hv e.symm
      · simp only [hj, ↓reduceIte]; exact h.slot j v

theorem LockInv.drop (h : LockInv readers writer slot th) {i : Nat} (h0 : vSlot (th u) = some i)
    (h1 : vReads p = vReads (th u)) (h2 : vWrites p = vWrites (th u)) (h3 : vSlot p = none) :
    LockInv readers writer (fun j => if j = i then none else slot j) (fun v => if v = u then p else th v) := by
  refine ⟨fun v => ?_, h.nodup, fun v => ?_, h.excl, fun j v => ?_⟩
  · by_cases hv : v = u
    · simp only [hv, ↓reduceIte, h1]; exact h.readers u
    · simp only [hv, ↓reduceIte]; exact h.readers v
  · by_cases hv : v = u
    · simp only [hv, ↓reduceIte, h2]; exact h.writer u
    · simp only [hv, ↓reduceIte]; exact h.writer v
  · by_cases hv : v = u
    · subst hv
      simp only [↓reduceIte, h3, reduceCtorEq, iff_false]
      by_cases hj : j = i
      · simp [hj]
      · simp only [hj, ↓reduceIte]
        rw [h.slot j v, h0]
        simpa using fun e => hj e.symm
    · simp only [hv, ↓reduceIte]
      by_cases hj : j = i
      · subst hj
        simp only [↓reduceIte, reduceCtorEq, false_iff]
        intro hw
        have e := (h.slot j v).2 hw
        rw [(h.slot j u).2 h0] at e
        exact hv (Option.some.inj e).symm
      · simp only [hj, ↓reduceIte]; exact h.slot j v

/-! ### Driver maps -/

theorem dmap_run_snoc (l : List Rec) (r : Rec) : ∀ m : DMap, m.run (l ++ [r]) =
    match m.run l with
    | .error f => .error f
    | .ok m' => m'.addDrivers r.bounds r.drivers r.merge := by
  induction l with
  | nil =>
    intro m
    simp only [List.nil_append, DMap.run, bind, Except.bind]
    cases m.addDrivers r.bounds r.drivers r.merge <;> rfl
  | cons a l ih =>
    intro m
    simp only [List.cons_append, DMap.run, bind, Except.bind]
    cases m.addDrivers a.bounds a.drivers a.merge with
    | error f => rfl
    | ok m' => exact ih m'

theorem MapsInv.goto (h : MapsInv t0 drv0 t drv mem gen log th)
    (h1 : ∀ i, vSized p = some i → i < drv.length ∧ i < mem)
    (h2 : ∀ c i m g, p = .update c i m g → g = gen ∧ drv[i]? = some m) :
    MapsInv t0 drv0 t drv mem gen log (fun v => if v = u then p else th v) := by
  refine ⟨fun v i hv => ?_, fun v c i m g hv => ?_, h.blank, h.maps⟩
  · by_cases hw : v = u
    · simp only [hw, ↓reduceIte] at hv; exact h1 i hv
    · simp only [hw, ↓reduceIte] at hv; exact h.sized v i hv
  · by_cases hw : v = u
    · simp only [hw, ↓reduceIte] at hv; exact h2 c i m g hv
    · simp only [hw, ↓reduceIte] at hv; exact h.upd v c i m g hv

theorem MapsInv.counter (h : MapsInv t0 drv0 t drv mem gen log th) (n : Nat) :
    MapsInv t0 drv0 { t with next := n } drv mem gen log th := ⟨h.sized, h.upd, h.blank, h.maps⟩

theorem getSlot_snoc (t : Tracker) (c k sym : Nat) : ({ t with slots := t.slots ++ [(c, k)] } : Tracker).getSlot sym =
    match t.getSlot sym with
    | some i => some i
    | none => if c = sym then some k else none := by
  unfold Tracker.getSlot
  rw [List.find?_append]
  cases t.slots.find? fun p => p.1 == sym with
  | some q => rfl
  | none =>
    simp only [Option.map_none, Option.none_or, List.find?_cons, List.find?_nil]
    by_cases h : c = sym
    · simp [h]
    · rw [show (c == sym) = false by simpa using h]; simp [h]

theorem MapsInv.emplace (h : MapsInv t0 drv0 t drv mem gen log th) {c k : Nat} (hc : t.getSlot c = none)
    (hk : ∀ p ∈ t.slots, p.2 ≠ k) :
    MapsInv t0 drv0 { t with slots := t.slots ++ [(c, k)] } drv mem gen log th := by
  refine ⟨h.sized, h.upd, fun i m hi hp => h.blank i m hi fun p hp' => hp p (List.mem_append_left _ hp'), ?_⟩
  intro sym
  rw [h.maps sym]
  unfold mapFor
  rw [getSlot_snoc]
  cases hs : t.getSlot sym with
  | some i => rfl
  | none =>
    by_cases e : c = sym
    · simp only [e, ↓reduceIte]
      cases hd : drv[k]? with
      | none => rfl
      | some m => rw [h.blank k m hd hk]; rfl
    · simp only [e, ↓reduceIte]

theorem growTo_getD (drv : List DMap) (i j : Nat) : ((growTo drv i)[j]?).getD {} = (drv[j]?).getD {} := by
  unfold growTo
  by_cases h : j < drv.length
  · rw [List.getElem?_append_left h]
  · rw [List.getElem?_append_right (by omega), List.getElem?_replicate, List.getElem?_eq_none (by omega)]
    split <;> rfl

theorem growTo_len (drv : List DMap) (i : Nat) : i < (growTo drv i).length ∧ drv.length ≤ (growTo drv i).length := by
  unfold growTo
  rw [List.length_append, List.length_replicate]
  omega

theorem MapsInv.grow (h : MapsInv t0 drv0 t drv mem gen log th) (i g : Nat)
    (hn : ∀ v c j m g, th v ≠ .update c j m g) :
    MapsInv t0 drv0 t (growTo drv i) (if mem ≤ i then i + 1 else mem) g log th := by
  have hl := growTo_len drv i
  refine ⟨fun v j hv => ?_, fun v c j m g hv => absurd hv (hn v c j m g), fun j m hj hp => ?_, fun sym => ?_⟩
  · have := h.sized v j hv
    split <;> omega
  · have e := growTo_getD drv i j
    rw [hj, Option.getD_some] at e
    rw [e]
    cases hd : drv[j]? with
    | none => rfl
    | some m' => exact h.blank j m' hd hp
  · rw [h.maps sym]
    unfold mapFor
    cases t.getSlot sym with
    | none => rfl
    | some j => simp only [growTo_getD]

theorem histOf_log (log : List (Nat × Nat × Rec)) (u : Nat) (c : Nat × Rec) (sym : Nat) :
    histOf ((log ++ [(u, c)]).map (·.2)) sym =
      if c.1 = sym then histOf (log.map (·.2)) sym ++ [c.2] else histOf (log.map (·.2)) sym := by
  rw [List.map_append]
  exact histOf_snoc _ _ _ _

theorem MapsInv.update (h : MapsInv t0 drv0 t drv mem gen log th) (hs : SlotInv t names th)
    {c : Nat × Rec} {i : Nat} {m m' : DMap} (hi : (c.1, i) ∈ t.slots) (hd : drv[i]? = some m)
    (hu : th u = .update c i m gen) (hx : ∀ v c' m' g, th v = .update c' i m' g → v = u)
    (ha : m.addDrivers c.2.bounds c.2.drivers c.2.merge = .ok m') :
    MapsInv t0 drv0 t (drv.set i m') mem gen (log ++ [(u, c)]) (fun v => if v = u then .unlock c i else th v) := by
  refine ⟨fun v j hv => ?_, fun v c' j m1 g hv => ?_, fun j m1 hj hp => ?_, fun sym => ?_⟩
  · rw [List.length_set]
    by_cases hw : v = u
    · simp [hw, vSized] at hv
    · simp only [hw, ↓reduceIte] at hv; exact h.sized v j hv
  · by_cases hw : v = u
    · simp [hw] at hv
    · simp only [hw, ↓reduceIte] at hv
      refine ⟨(h.upd v c' j m1 g hv).1, ?_⟩
      rw [List.getElem?_set_ne]
      · exact (h.upd v c' j m1 g hv).2
      · rintro rfl; exact hw (hx v c' m1 g hv)
  · have : i ≠ j := fun e => hp _ hi e
    rw [List.getElem?_set_ne this] at hj
    exact h.blank j m1 hj hp
  · have hg := getSlot_of_mem hs.keys hi
    have hlt := (List.getElem?_eq_some_iff.1 hd).1
    rw [histOf_log]
    by_cases e : c.1 = sym
    · rw [if_pos e, dmap_run_snoc, h.maps sym]
      subst e
      simp only [mapFor, hg, hd, Option.getD_some]
      rw [ha]
      simp [hlt]
    · rw [if_neg e, h.maps sym]
      congr 1
      unfold mapFor
      cases hsy : t.getSlot sym with
      | none => rfl
      | some j =>
        have : i ≠ j := by
          rintro rfl
          exact e (Prod.mk.inj (hs.inj _ hi _ (getSlot_mem hsy) rfl)).1
        simp only [List.getElem?_set_ne this]

/-- An update that goes wrong goes wrong in the recordings of the symbol one after the other. -/
theorem MapsInv.wrong (h : MapsInv t0 drv0 t drv mem gen log th) (hs : SlotInv t names th)
    {c : Nat × Rec} {i : Nat} {m : DMap} (hi : (c.1, i) ∈ t.slots) (hd : drv[i]? = some m) {f : Fault}
    (ha : m.addDrivers c.2.bounds c.2.drivers c.2.merge = .error f) :
    (mapFor t0 drv0 c.1).run (histOf ((log ++ [(u, c)]).map (·.2)) c.1) = .error f := by
  rw [histOf_log, if_pos rfl, dmap_run_snoc, h.maps c.1]
  simp only [mapFor, getSlot_of_mem hs.keys hi, hd, Option.getD_some]
  exact ha

/-! ### Steps -/

theorem callsOf_snoc (log : List (Nat × Nat × Rec)) (u v : Nat) (c : Nat × Rec) :
    callsOf (log ++ [(u, c)]) v = if u = v then callsOf log v ++ [c] else callsOf log v := by
  unfold callsOf
  rw [List.filter_append, List.map_append]
  by_cases h : u = v
  · simp [h]
  · rw [if_neg h]
    simp [show (u == v) = false by simpa using h]

/-- The calls still to make do not change while a call is under way. -/
theorem prog_goto {prog : List (List (Nat × Rec))} {todo : Nat → List (Nat × Rec)}
    (h : ∀ v, callsOf log v ++ vCall (th v) ++ todo v = (prog[v]?).getD []) (hp : vCall p = vCall (th u)) :
    ∀ v, callsOf log v ++ vCall (if v = u then p else th v) ++ todo v = (prog[v]?).getD [] := by
  intro v
  by_cases hv : v = u
  · simp only [hv, ↓reduceIte, hp]; exact h u
  · simp only [hv, ↓reduceIte]; exact h v

variable {prog : List (List (Nat × Rec))}

/-- A step keeps what is known, or the update goes wrong as it would without other threads. -/
theorem vinv_step {s : VSt} {r : Except Fault VSt} (h : VInv t0 drv0 prog s) (hs : s.step u = some r) :
    (∃ s', r = .ok s' ∧ VInv t0 drv0 prog s') ∨
      ∃ c f, r = .error f ∧ vCall (s.th u) = [c] ∧
        (mapFor t0 drv0 c.1).run (histOf ((s.log ++ [(u, c)]).map (·.2)) c.1) = .error f := by
  obtain ⟨h1, h2, h3, h4⟩ := h
  unfold VSt.step at hs
  cases hp : s.th u with
  | idle =>
    rw [hp] at hs
    simp only [VSt.stepAt] at hs
    split at hs
    · cases hs
    · rename_i c rest ht
      cases hs
      refine .inl ⟨_, rfl, h1.goto (p := .find c) rfl (by simp [vIdx]) rfl (by rw [hp]; rfl),
        h2.goto (p := .find c) (by rw [hp]; rfl) (by rw [hp]; rfl) (by rw [hp]; rfl),
        h3.goto (p := .find c) (by simp [vSized]) (by simp), fun v => ?_⟩
      have := h4 v
      simp only [VSt.goto]
      by_cases hv : v = u
      · subst hv
        rw [hp, ht] at this
        simpa [vCall] using this
      · simp only [hv, ↓reduceIte]; exact this
  | find c =>
    rw [hp] at hs
    simp only [VSt.stepAt] at hs
    split at hs
    · rename_i i hi
      cases hs
      exact .inl ⟨_, rfl, h1.goto (p := .enter c i) rfl
        (fun q hq => by simp only [vIdx, Option.some.injEq] at hq; rw [← hq]; exact getSlot_mem hi) rfl
        (by rw [hp]; rfl),
        h2.goto (p := .enter c i) (by rw [hp]; rfl) (by rw [hp]; rfl) (by rw [hp]; rfl),
        h3.goto (p := .enter c i) (by simp [vSized]) (by simp), prog_goto h4 (by rw [hp]; rfl)⟩
    · cases hs
      exact .inl ⟨_, rfl, h1.goto (p := .draw c) rfl (by simp [vIdx]) rfl (by rw [hp]; rfl),
        h2.goto (p := .draw c) (by rw [hp]; rfl) (by rw [hp]; rfl) (by rw [hp]; rfl),
        h3.goto (p := .draw c) (by simp [vSized]) (by simp), prog_goto h4 (by rw [hp]; rfl)⟩
  | draw c =>
    rw [hp] at hs
    simp only [VSt.stepAt] at hs
    cases hs
    exact .inl ⟨_, rfl, h1.draw hp,
      h2.goto (p := .emplace c _) (by rw [hp]; rfl) (by rw [hp]; rfl) (by rw [hp]; rfl),
      (h3.goto (p := .emplace c _) (by simp [vSized]) (by simp)).counter _, prog_goto h4 (by rw [hp]; rfl)⟩
  | emplace c k =>
    rw [hp] at hs
    simp only [VSt.stepAt] at hs
    split at hs
    · rename_i i hi
      cases hs
      exact .inl ⟨_, rfl, h1.goto (p := .enter c i) rfl
        (fun q hq => by simp only [vIdx, Option.some.injEq] at hq; rw [← hq]; exact getSlot_mem hi) rfl
        (by rw [hp]; rfl),
        h2.goto (p := .enter c i) (by rw [hp]; rfl) (by rw [hp]; rfl) (by rw [hp]; rfl),
        h3.goto (p := .enter c i) (by simp [vSized]) (by simp), prog_goto h4 (by rw [hp]; rfl)⟩
    · rename_i hi
      cases hs
      exact .inl ⟨_, rfl, h1.emplace hp hi,
        h2.goto (p := .name c k) (by rw [hp]; rfl) (by rw [hp]; rfl) (by rw [hp]; rfl),
        (h3.goto (p := .name c k) (by simp [vSized]) (by simp)).emplace hi (h1.cand u k (by rw [hp]; rfl)).2,
        prog_goto h4 (by rw [hp]; rfl)⟩
  | name c i =>
    rw [hp] at hs
    simp only [VSt.stepAt] at hs
    cases hs
    exact .inl ⟨_, rfl, h1.name hp,
      h2.goto (p := .enter c i) (by rw [hp]; rfl) (by rw [hp]; rfl) (by rw [hp]; rfl),
      h3.goto (p := .enter c i) (by simp [vSized]) (by simp), prog_goto h4 (by rw [hp]; rfl)⟩
  | enter c i =>
    have hidx : ∀ q, some (c.1, i) = some q → q ∈ s.trk.slots := fun q hq => h1.idx u q (by rw [hp]; exact hq)
    rw [hp] at hs
    simp only [VSt.stepAt] at hs
    split at hs
    · cases hs
    · rename_i hw
      cases hs
      exact .inl ⟨_, rfl, h1.goto (p := .check c i) rfl hidx rfl (by rw [hp]; rfl),
        h2.read (p := .check c i) hw (by rw [hp]; rfl) rfl (by rw [hp]; rfl) (by rw [hp]; rfl),
        h3.goto (p := .check c i) (by simp [vSized]) (by simp), prog_goto h4 (by rw [hp]; rfl)⟩
  | check c i =>
    have hidx : ∀ q, some (c.1, i) = some q → q ∈ s.trk.slots := fun q hq => h1.idx u q (by rw [hp]; exact hq)
    rw [hp] at hs
    simp only [VSt.stepAt] at hs
    cases hs
    split
    · exact .inl ⟨_, rfl, h1.goto (p := .release c i) rfl hidx rfl (by rw [hp]; rfl),
        h2.goto (p := .release c i) (by rw [hp]; rfl) (by rw [hp]; rfl) (by rw [hp]; rfl),
        h3.goto (p := .release c i) (by simp [vSized]) (by simp), prog_goto h4 (by rw [hp]; rfl)⟩
    · exact .inl ⟨_, rfl, h1.goto (p := .lock c i) rfl hidx rfl (by rw [hp]; rfl),
        h2.goto (p := .lock c i) (by rw [hp]; rfl) (by rw [hp]; rfl) (by rw [hp]; rfl),
        h3.goto (p := .lock c i) (fun j hj => by simp only [vSized, Option.some.injEq] at hj; omega) (by simp),
        prog_goto h4 (by rw [hp]; rfl)⟩
  | release c i =>
    have hidx : ∀ q, some (c.1, i) = some q → q ∈ s.trk.slots := fun q hq => h1.idx u q (by rw [hp]; exact hq)
    rw [hp] at hs
    simp only [VSt.stepAt] at hs
    cases hs
    exact .inl ⟨_, rfl, h1.goto (p := .upgrade c i) rfl hidx rfl (by rw [hp]; rfl),
      h2.unread (p := .upgrade c i) rfl (by rw [hp]; rfl) (by rw [hp]; rfl),
      h3.goto (p := .upgrade c i) (by simp [vSized]) (by simp), prog_goto h4 (by rw [hp]; rfl)⟩
  | upgrade c i =>
    have hidx : ∀ q, some (c.1, i) = some q → q ∈ s.trk.slots := fun q hq => h1.idx u q (by rw [hp]; exact hq)
    rw [hp] at hs
    simp only [VSt.stepAt] at hs
    split at hs
    · rename_i hw hr
      cases hs
      rw [hw, hr] at h2
      refine .inl ⟨_, rfl, h1.goto (p := .grow c i) rfl hidx rfl (by rw [hp]; rfl), ?_,
        h3.goto (p := .grow c i) (by simp [vSized]) (by simp), prog_goto h4 (by rw [hp]; rfl)⟩
      simp only [VSt.goto, hr]
      exact h2.write (p := .grow c i) (by rw [hp]; rfl) rfl (by rw [hp]; rfl)
    · cases hs
  | grow c i =>
    have hidx : ∀ q, some (c.1, i) = some q → q ∈ s.trk.slots := fun q hq => h1.idx u q (by rw [hp]; exact hq)
    rw [hp] at hs
    simp only [VSt.stepAt] at hs
    cases hs
    have hr : s.readers = [] := h2.excl u ((h2.writer u).2 (by rw [hp]; rfl))
    have hn : ∀ v c j m g, s.th v ≠ .update c j m g := by
      intro v c j m g e
      have := (h2.readers v).2 (by rw [e]; rfl)
      rw [hr] at this
      cases this
    refine .inl ⟨_, rfl, h1.goto (p := .downgrade c i) rfl hidx rfl (by rw [hp]; rfl),
      h2.goto (p := .downgrade c i) (by rw [hp]; rfl) (by rw [hp]; rfl) (by rw [hp]; rfl), ?_,
      prog_goto h4 (by rw [hp]; rfl)⟩
    refine (h3.grow i _ hn).goto (p := .downgrade c i) (fun j hj => ?_) (by simp)
    simp only [vSized, Option.some.injEq] at hj
    subst hj
    refine ⟨(growTo_len _ _).1, ?_⟩
    split <;> omega
  | downgrade c i =>
    have hidx : ∀ q, some (c.1, i) = some q → q ∈ s.trk.slots := fun q hq => h1.idx u q (by rw [hp]; exact hq)
    have hsz := h3.sized u i (by rw [hp]; rfl)
    rw [hp] at hs
    simp only [VSt.stepAt] at hs
    cases hs
    exact .inl ⟨_, rfl, h1.goto (p := .reenter c i) rfl hidx rfl (by rw [hp]; rfl),
      h2.unwrite (p := .reenter c i) (by rw [hp]; rfl) (by rw [hp]; rfl) rfl (by rw [hp]; rfl),
      h3.goto (p := .reenter c i) (fun j hj => by simp only [vSized, Option.some.injEq] at hj; exact hj ▸ hsz) (by simp),
      prog_goto h4 (by rw [hp]; rfl)⟩
  | reenter c i =>
    have hidx : ∀ q, some (c.1, i) = some q → q ∈ s.trk.slots := fun q hq => h1.idx u q (by rw [hp]; exact hq)
    have hsz := h3.sized u i (by rw [hp]; rfl)
    rw [hp] at hs
    simp only [VSt.stepAt] at hs
    split at hs
    · cases hs
    · rename_i hw
      cases hs
      exact .inl ⟨_, rfl, h1.goto (p := .lock c i) rfl hidx rfl (by rw [hp]; rfl),
        h2.read (p := .lock c i) hw (by rw [hp]; rfl) rfl (by rw [hp]; rfl) (by rw [hp]; rfl),
        h3.goto (p := .lock c i) (fun j hj => by simp only [vSized, Option.some.injEq] at hj; exact hj ▸ hsz) (by simp),
        prog_goto h4 (by rw [hp]; rfl)⟩
  | lock c i =>
    have hidx : ∀ q, some (c.1, i) = some q → q ∈ s.trk.slots := fun q hq => h1.idx u q (by rw [hp]; exact hq)
    have hsz := h3.sized u i (by rw [hp]; rfl)
    rw [hp] at hs
    simp only [VSt.stepAt] at hs
    split at hs
    · omega
    · split at hs
      · cases hs
      · rename_i hl
        cases hs
        exact .inl ⟨_, rfl, h1.goto (p := .refer c i) rfl hidx rfl (by rw [hp]; rfl),
          h2.take (p := .refer c i) hl (by rw [hp]; rfl) (by rw [hp]; rfl) (by rw [hp]; rfl) rfl,
          h3.goto (p := .refer c i) (fun j hj => by simp only [vSized, Option.some.injEq] at hj; exact hj ▸ hsz) (by simp),
          prog_goto (th := s.th) h4 (by rw [hp]; rfl)⟩
  | refer c i =>
    have hidx : ∀ q, some (c.1, i) = some q → q ∈ s.trk.slots := fun q hq => h1.idx u q (by rw [hp]; exact hq)
    have hsz := h3.sized u i (by rw [hp]; rfl)
    rw [hp] at hs
    simp only [VSt.stepAt] at hs
    split at hs
    · rename_i hd
      rw [List.getElem?_eq_none_iff] at hd
      omega
    · rename_i m hd
      cases hs
      refine .inl ⟨_, rfl, h1.goto (p := .update c i m s.gen) rfl hidx rfl (by rw [hp]; rfl),
        h2.goto (p := .update c i m s.gen) (by rw [hp]; rfl) (by rw [hp]; rfl) (by rw [hp]; rfl),
        h3.goto (p := .update c i m s.gen)
          (fun j hj => by simp only [vSized, Option.some.injEq] at hj; exact hj ▸ hsz) ?_,
        prog_goto h4 (by rw [hp]; rfl)⟩
      intro c' i' m' g' e
      cases e
      exact ⟨rfl, hd⟩
  | update c i m g =>
    have hidx : ∀ q, some (c.1, i) = some q → q ∈ s.trk.slots := fun q hq => h1.idx u q (by rw [hp]; exact hq)
    obtain ⟨hg, hd⟩ := h3.upd u c i m g hp
    subst hg
    rw [hp] at hs
    simp only [VSt.stepAt, ne_eq, not_true_eq_false, ↓reduceIte] at hs
    split at hs
    · rename_i f hf
      cases hs
      exact .inr ⟨c, f, rfl, rfl, h3.wrong h1 (hidx _ rfl) hd hf⟩
    · rename_i m' hf
      cases hs
      refine .inl ⟨_, rfl, h1.goto (p := .unlock c i) rfl hidx rfl (by rw [hp]; rfl),
        h2.goto (p := .unlock c i) (by rw [hp]; rfl) (by rw [hp]; rfl) (by rw [hp]; rfl),
        h3.update h1 (hidx _ rfl) hd hp ?_ hf, fun v => ?_⟩
      · intro v c' m1 g1 e
        have e1 := (h2.slot i v).2 (by rw [e]; rfl)
        have e2 := (h2.slot i u).2 (by rw [hp]; rfl)
        rw [e1] at e2
        exact Option.some.inj e2
      · have := h4 v
        simp only [VSt.goto]
        rw [callsOf_snoc]
        by_cases hv : v = u
        · subst hv
          rw [hp] at this
          simpa [vCall] using this
        · rw [if_neg (fun e => hv e.symm)]
          simp only [hv, ↓reduceIte]; exact this
  | unlock c i =>
    have hidx : ∀ q, some (c.1, i) = some q → q ∈ s.trk.slots := fun q hq => h1.idx u q (by rw [hp]; exact hq)
    rw [hp] at hs
    simp only [VSt.stepAt] at hs
    cases hs
    exact .inl ⟨_, rfl, h1.goto (p := .leave c i) rfl hidx rfl (by rw [hp]; rfl),
      h2.drop (p := .leave c i) (by rw [hp]; rfl) (by rw [hp]; rfl) (by rw [hp]; rfl) rfl,
      h3.goto (p := .leave c i) (by simp [vSized]) (by simp), prog_goto (th := s.th) h4 (by rw [hp]; rfl)⟩
  | leave c i =>
    rw [hp] at hs
    simp only [VSt.stepAt] at hs
    cases hs
    exact .inl ⟨_, rfl, h1.goto (p := .idle) rfl (by simp [vIdx]) rfl (by rw [hp]; rfl),
      h2.unread (p := .idle) rfl (by rw [hp]; rfl) (by rw [hp]; rfl),
      h3.goto (p := .idle) (by simp [vSized]) (by simp), prog_goto h4 (by rw [hp]; rfl)⟩

end Verif.Proofs
