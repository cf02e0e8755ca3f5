import Verif.Proofs.TrackerLocks

/-! Runs of threads that record drivers: the same recordings one at a time, progress and termination. -/
set_option linter.unusedSimpArgs false
namespace Verif.Proofs
open Verif.Model Verif.Spec Verif.Props

/-! ### Recordings one at a time -/

/-- What recordings made one at a time keep. -/
structure SeqOk (t : Tracker) (drv : List DMap) : Prop where
  fresh : ∀ p ∈ t.slots, p.2 < t.next
  inj : ∀ p ∈ t.slots, ∀ q ∈ t.slots, p.2 = q.2 → p = q
  keys : (t.slots.map (·.1)).Nodup
  blank : ∀ (i : Nat) m, drv[i]? = some m → (∀ p ∈ t.slots, p.2 ≠ i) → m = {}

theorem slotFor_seqOk {t : Tracker} {drv : List DMap} (h : SeqOk t drv) (sym : Nat) :
    SeqOk (t.slotFor sym).1 drv ∧ (sym, (t.slotFor sym).2) ∈ (t.slotFor sym).1.slots ∧
      ∀ x, mapFor (t.slotFor sym).1 drv x = mapFor t drv x := by
  unfold Tracker.slotFor
  cases hg : t.getSlot sym with
  | some i => exact ⟨h, getSlot_mem hg, fun _ => rfl⟩
  | none =>
    have hn := getSlot_none hg
    dsimp only
    have hk : ∀ p ∈ t.slots, p.2 ≠ t.next := fun p hp => Nat.ne_of_lt (h.fresh p hp)
    refine ⟨⟨fun p hp => ?_, fun p hp q hq e => ?_, ?_, fun i m hi hp => ?_⟩, by simp, fun x => ?_⟩
    · rcases List.mem_append.1 hp with hp | hp
      · exact Nat.lt_succ_of_lt (h.fresh p hp)
      · cases List.mem_singleton.1 hp; exact Nat.lt_succ_self _
    · rcases List.mem_append.1 hp with hp | hp <;> rcases List.mem_append.1 hq with hq | hq
      · exact h.inj p hp q hq e
      · cases List.mem_singleton.1 hq; exact absurd e (hk p hp)
      · cases List.mem_singleton.1 hp; exact absurd e.symm (hk q hq)
      · cases List.mem_singleton.1 hp; cases List.mem_singleton.1 hq; rfl
    · rw [List.map_append]
      refine List.nodup_append.2 ⟨h.keys, by simp, ?_⟩
      intro a ha b hb e
      simp only [List.map_cons, List.map_nil, List.mem_singleton] at hb
      subst hb
      subst e
      exact hn ha
    · exact h.blank i m hi fun p hp' => hp p (List.mem_append_left _ hp')
    · have e := getSlot_snoc { t with next := t.next + 1 } sym t.next x
      unfold mapFor
      rw [show (({ slots := t.slots ++ [(sym, t.next)], next := t.next + 1 } : Tracker)).getSlot x = _ from e]
      rw [show ({ t with next := t.next + 1 } : Tracker).getSlot x = t.getSlot x from rfl]
      cases hs : t.getSlot x with
      | some i => rfl
      | none =>
        by_cases e : sym = x
        · simp only [e, ↓reduceIte]
          cases hd : drv[t.next]? with
          | none => rfl
          | some m => rw [h.blank _ m hd hk]; rfl
        · simp only [e, ↓reduceIte]

/-- One recording, in terms of the driver map of its symbol. -/
theorem seq_step {t : Tracker} {drv : List DMap} (h : SeqOk t drv) (sym : Nat) (r : Rec) :
    match (mapFor t drv sym).addDrivers r.bounds r.drivers r.merge with
    | .error f => t.addDrivers drv sym r = .error f
    | .ok m' => ∃ t' drv', t.addDrivers drv sym r = .ok (t', drv') ∧ SeqOk t' drv' ∧
        ∀ x, mapFor t' drv' x = if sym = x then m' else mapFor t drv x := by
  obtain ⟨h1, h2, h3⟩ := slotFor_seqOk h sym
  rw [← h3 sym]
  unfold Tracker.addDrivers
  generalize t.slotFor sym = q at h1 h2 h3
  obtain ⟨t', i⟩ := q
  dsimp only at h1 h2 h3 ⊢
  have hlen := (growTo_len drv i).1
  have hm : (growTo drv i)[i]? = some (mapFor t' drv sym) := by
    have e := growTo_getD drv i i
    rw [List.getElem?_eq_getElem hlen, Option.getD_some] at e
    unfold mapFor
    rw [getSlot_of_mem h1.keys h2, List.getElem?_eq_getElem hlen, e]
  rw [hm]
  dsimp only
  cases ha : (mapFor t' drv sym).addDrivers r.bounds r.drivers r.merge with
  | error f => simp [bind, Except.bind]
  | ok m' =>
    dsimp only
    refine ⟨t', (growTo drv i).set i m', by simp [bind, Except.bind, pure, Except.pure], ?_, ?_⟩
    · refine ⟨h1.fresh, h1.inj, h1.keys, fun j m hj hp => ?_⟩
      have hij : i ≠ j := fun e => hp _ h2 e
      rw [List.getElem?_set_ne hij] at hj
      have e := growTo_getD drv i j
      rw [hj, Option.getD_some] at e
      rw [e]
      cases hd : drv[j]? with
      | none => rfl
      | some m1 => exact h1.blank j m1 hd hp
    · intro x
      rw [← h3 x]
      by_cases e : sym = x
      · subst e
        unfold mapFor
        rw [getSlot_of_mem h1.keys h2]
        simp [List.getElem?_set_self, hlen]
      · rw [if_neg e]
        unfold mapFor
        cases hg : t'.getSlot x with
        | none => rfl
        | some j =>
          have hij : i ≠ j := by
            rintro rfl
            have := h1.inj _ h2 _ (getSlot_mem hg) rfl
            exact e (congrArg Prod.fst this)
          simp only [List.getElem?_set_ne hij, growTo_getD]

/-- Recordings made one at a time succeed if they do on the map of each symbol. -/
theorem seq_run (hist : List (Nat × Rec)) : ∀ {t : Tracker} {drv : List DMap}, SeqOk t drv →
    (∀ x, ∃ m, (mapFor t drv x).run (histOf hist x) = .ok m) →
    ∃ t' drv', t.run drv hist = .ok (t', drv') ∧ SeqOk t' drv' ∧
      ∀ x, (mapFor t drv x).run (histOf hist x) = .ok (mapFor t' drv' x) := by
  induction hist with
  | nil => intro t drv h _; exact ⟨t, drv, rfl, h, fun _ => rfl⟩
  | cons c hist ih =>
    intro t drv h hm
    obtain ⟨sym, r⟩ := c
    have hh : ∀ x, histOf ((sym, r) :: hist) x = if sym = x then r :: histOf hist x else histOf hist x := by
      intro x
      unfold histOf
      by_cases e : sym = x
      · simp [e]
      · rw [if_neg e, List.filter_cons, show (sym == x) = false by simpa using e]; simp
    have h1 := seq_step h sym r
    cases ha : (mapFor t drv sym).addDrivers r.bounds r.drivers r.merge with
    | error f =>
      obtain ⟨m, hm⟩ := hm sym
      rw [hh, if_pos rfl, DMap.run, ha] at hm
      cases hm
    | ok m' =>
      rw [ha] at h1
      obtain ⟨t1, d1, e1, h2, h3⟩ := h1
      have hr : ∀ x, (mapFor t drv x).run (histOf ((sym, r) :: hist) x) = (mapFor t1 d1 x).run (histOf hist x) := by
        intro x
        rw [hh, h3 x]
        by_cases e : sym = x
        · subst e
          simp only [↓reduceIte, DMap.run, ha, bind, Except.bind]
        · simp only [e, ↓reduceIte]
      obtain ⟨t2, d2, e2, h4, h5⟩ := ih h2 (fun x => by rw [← hr x]; exact hm x)
      exact ⟨t2, d2, by simp only [Tracker.run, e1, bind, Except.bind, e2], h4, fun x => by rw [hr x]; exact h5 x⟩

theorem tracker_run_snoc (hist : List (Nat × Rec)) (c : Nat × Rec) : ∀ (t : Tracker) (drv : List DMap),
    t.run drv (hist ++ [c]) =
      match t.run drv hist with
      | .error f => .error f
      | .ok (t', drv') => t'.addDrivers drv' c.1 c.2 := by
  induction hist with
  | nil =>
    intro t drv
    simp only [List.nil_append, Tracker.run, bind, Except.bind]
    cases t.addDrivers drv c.1 c.2 <;> rfl
  | cons a hist ih =>
    intro t drv
    simp only [List.cons_append, Tracker.run, bind, Except.bind]
    cases t.addDrivers drv a.1 a.2 with
    | error f => rfl
    | ok q => exact ih q.1 q.2

theorem tracker_run_append (h1 h2 : List (Nat × Rec)) : ∀ (t : Tracker) (drv : List DMap),
    t.run drv (h1 ++ h2) =
      match t.run drv h1 with
      | .error f => .error f
      | .ok (t', drv') => t'.run drv' h2 := by
  induction h1 with
  | nil => intro t drv; rfl
  | cons a h1 ih =>
    intro t drv
    simp only [List.cons_append, Tracker.run, bind, Except.bind]
    cases t.addDrivers drv a.1 a.2 with
    | error f => rfl
    | ok q => exact ih q.1 q.2

theorem seqOk_run (hist : List (Nat × Rec)) : ∀ {t : Tracker} {drv : List DMap}, SeqOk t drv →
    ∀ {t' drv'}, t.run drv hist = .ok (t', drv') → SeqOk t' drv' := by
  induction hist with
  | nil => intro t drv h t' drv' e; cases e; exact h
  | cons c hist ih =>
    intro t drv h t' drv' e
    obtain ⟨sym, r⟩ := c
    have h1 := seq_step h sym r
    simp only [Tracker.run, bind, Except.bind] at e
    cases ha : (mapFor t drv sym).addDrivers r.bounds r.drivers r.merge with
    | error f =>
      rw [ha] at h1
      dsimp only at h1
      rw [h1] at e
      cases e
    | ok m' =>
      rw [ha] at h1
      obtain ⟨t1, d1, e1, h2, -⟩ := h1
      rw [e1] at e
      exact ih h2 e

theorem seqOk_of {t : Tracker} {names : List (Nat × Nat)} {drv : List DMap} (h : TrackerOk t names drv) :
    SeqOk t drv := ⟨h.fresh, h.inj, h.keys, h.blank⟩

/-- The drivers reported for a symbol are those in its map. -/
theorem intervals_mapFor (t : Tracker) (drv : List DMap) (sym : Nat) (b : BitRange) :
    t.intervals drv sym b = (mapFor t drv sym).intervals b := by
  unfold Tracker.intervals mapFor
  cases t.getSlot sym with
  | none => rfl
  | some i => cases hd : drv[i]? <;> simp [hd] <;> rfl

/-! ### Runs -/

variable {t0 : Tracker} {drv0 : List DMap} {prog : List (List (Nat × Rec))} {u : Nat}

theorem vinv_begin {names : List (Nat × Nat)} (h : TrackerOk t0 names drv0) (mem : Nat) :
    VInv t0 drv0 prog (VSt.begin t0 names drv0 mem prog) := by
  refine ⟨⟨h.fresh, h.inj, h.keys, (by simp [VSt.begin, vCand]), (by simp [VSt.begin, vCand]),
    (by simp [VSt.begin, vIdx]), fun i sym => ?_⟩, ⟨by simp [VSt.begin, vReads], by simp [VSt.begin],
    by simp [VSt.begin, vWrites], by simp [VSt.begin], by simp [VSt.begin, vSlot]⟩,
    ⟨by simp [VSt.begin, vSized], by simp [VSt.begin], h.blank, fun _ => rfl⟩, fun u => ?_⟩
  · simp [VSt.begin, vName, h.names]
  · simp [VSt.begin, vCall, callsOf]

theorem vinv_run (l : List Nat) : ∀ {s : VSt} {r : Except Fault VSt}, VInv t0 drv0 prog s → s.run l = some r →
    (∃ s', r = .ok s' ∧ VInv t0 drv0 prog s') ∨
      ∃ s1 u c f, r = .error f ∧ VInv t0 drv0 prog s1 ∧ vCall (s1.th u) = [c] ∧
        (mapFor t0 drv0 c.1).run (histOf ((s1.log ++ [(u, c)]).map (·.2)) c.1) = .error f := by
  induction l with
  | nil => intro s r h hs; cases hs; exact .inl ⟨s, rfl, h⟩
  | cons u l ih =>
    intro s r h hs
    simp only [VSt.run] at hs
    split at hs
    · cases hs
    · rename_i f h1
      split at hs
      · cases hs
        rcases vinv_step h h1 with ⟨s', e, _⟩ | ⟨c, f', e, h2, h3⟩
        · cases e
        · cases e
          exact .inr ⟨s, u, c, f, rfl, h, h2, h3⟩
      · cases hs
    · rename_i s' h1
      rcases vinv_step h h1 with ⟨s'', e, h2⟩ | ⟨c, f', e, _⟩
      · cases e
        exact ih h2 hs
      · cases e

theorem vrun_append (a : List Nat) : ∀ (s s' : VSt) (b : List Nat), s.run a = some (.ok s') →
    s.run (a ++ b) = s'.run b := by
  induction a with
  | nil => intro s s' b h; cases h; rfl
  | cons u a ih =>
    intro s s' b h
    simp only [List.cons_append, VSt.run] at h ⊢
    split at h
    · cases h
    · split at h <;> cases h
    · exact ih _ _ _ h

/-- Steps that remain in a call, at most. -/
def vRank : VPhase → Nat
  | .idle => 0 | .leave .. => 1 | .unlock .. => 2 | .update .. => 3 | .refer .. => 4 | .lock .. => 5
  | .reenter .. => 6 | .downgrade .. => 7 | .grow .. => 8 | .upgrade .. => 9 | .release .. => 10
  | .check .. => 11 | .enter .. => 12 | .name .. => 13 | .emplace .. => 14 | .draw .. => 15 | .find .. => 16

/-- Steps that remain for a thread, at most. -/
def vCost (s : VSt) (u : Nat) : Nat := vRank (s.th u) + 17 * (s.todo u).length

/-- Steps that remain for the first threads, at most. -/
def vWork (s : VSt) : Nat → Nat
  | 0 => 0
  | n + 1 => vWork s n + vCost s n

theorem vstep_local {s s' : VSt} (hs : s.step u = some (.ok s')) :
    (∀ v, v ≠ u → s'.th v = s.th v ∧ s'.todo v = s.todo v) ∧ vCost s' u < vCost s u := by
  unfold VSt.step at hs
  unfold vCost
  cases hp : s.th u with
  | idle =>
    rw [hp] at hs
    simp only [VSt.stepAt] at hs
    split at hs
    · cases hs
    · rename_i r rest ht
      cases hs
      refine ⟨fun v hv => by simp [VSt.goto, hv], ?_⟩
      simp only [VSt.goto, ↓reduceIte, vRank, hp, ht, List.length_cons]
      omega
  | check c i =>
    rw [hp] at hs
    simp only [VSt.stepAt, Option.some.injEq, Except.ok.injEq] at hs
    subst hs
    refine ⟨fun v hv => by simp [VSt.goto, hv], ?_⟩
    simp only [VSt.goto, ↓reduceIte, hp]
    split <;> simp [vRank]
  | _ =>
    rw [hp] at hs
    simp only [VSt.stepAt] at hs
    repeat' split at hs
    all_goals first | cases hs; done | skip
    all_goals
      cases hs
      exact ⟨fun v hv => by simp [VSt.goto, VSt.hold, hv], by simp [VSt.goto, VSt.hold, vRank, hp]⟩

theorem vstep_cost {s : VSt} {r : Except Fault VSt} (hs : s.step u = some r) : 0 < vCost s u := by
  unfold VSt.step at hs
  unfold vCost
  cases hp : s.th u with
  | idle =>
    rw [hp] at hs
    simp only [VSt.stepAt] at hs
    split at hs
    · cases hs
    · rename_i r rest ht
      simp only [ht, List.length_cons]
      omega
  | _ => simp only [vRank]; omega

theorem vWork_congr {s s' : VSt} : ∀ {n : Nat}, (∀ v, v < n → vCost s' v = vCost s v) → vWork s' n = vWork s n := by
  intro n
  induction n with
  | zero => intro _; rfl
  | succ n ih => intro h; simp only [vWork, ih (fun v hv => h v (by omega)), h n (by omega)]

theorem vWork_lt {s s' : VSt} : ∀ {n : Nat}, u < n → (∀ v, v ≠ u → vCost s' v = vCost s v) →
    vCost s' u < vCost s u → vWork s' n < vWork s n := by
  intro n
  induction n with
  | zero => intro h; omega
  | succ n ih =>
    intro h h1 h2
    simp only [vWork]
    by_cases e : u = n
    · subst e
      rw [vWork_congr (s := s) (s' := s') (fun v hv => h1 v (by omega))]
      omega
    · rw [h1 n (fun h => e h.symm)]
      have := ih (by omega) h1 h2
      omega

theorem vWork_pos {s : VSt} : ∀ {n : Nat}, u < n → 0 < vCost s u → 0 < vWork s n := by
  intro n
  induction n with
  | zero => intro h; omega
  | succ n ih =>
    intro h h1
    simp only [vWork]
    by_cases e : u = n
    · subst e; omega
    · have := ih (by omega) h1; omega

/-- Threads beyond the given ones do nothing. -/
def VFin (prog : List (List (Nat × Rec))) (s : VSt) : Prop :=
  ∀ u, prog.length ≤ u → s.th u = .idle ∧ s.todo u = []

theorem vfin_lt {s : VSt} {r : Except Fault VSt} (h : VFin prog s) (hs : s.step u = some r) : u < prog.length := by
  apply Classical.byContradiction
  intro hc
  obtain ⟨h1, h2⟩ := h u (by omega)
  simp [VSt.step, VSt.stepAt, h1, h2] at hs

theorem vfin_step {s s' : VSt} (h : VFin prog s) (hs : s.step u = some (.ok s')) :
    VFin prog s' ∧ vWork s' prog.length < vWork s prog.length := by
  have hu := vfin_lt h hs
  obtain ⟨h1, h2⟩ := vstep_local hs
  refine ⟨fun v hv => ?_, vWork_lt hu (fun v hv => ?_) h2⟩
  · rw [(h1 v (by omega)).1, (h1 v (by omega)).2]; exact h v hv
  · unfold vCost; rw [(h1 v hv).1, (h1 v hv).2]

theorem vfin_begin (names : List (Nat × Nat)) (mem : Nat) : VFin prog (VSt.begin t0 names drv0 mem prog) := by
  intro u hu
  refine ⟨rfl, ?_⟩
  simp [VSt.begin, List.getElem?_eq_none hu]

theorem vrun_bounded (l : List Nat) : ∀ {s : VSt} {r : Except Fault VSt}, VFin prog s → s.run l = some r →
    l.length ≤ vWork s prog.length ∧ ∀ s', r = .ok s' → VFin prog s' := by
  induction l with
  | nil => intro s r h hs; cases hs; exact ⟨Nat.zero_le _, fun s' e => by cases e; exact h⟩
  | cons u l ih =>
    intro s r h hs
    simp only [VSt.run] at hs
    split at hs
    · cases hs
    · rename_i f h1
      split at hs
      · rename_i hl
        cases hs
        have := vWork_pos (vfin_lt h h1) (vstep_cost h1)
        subst hl
        exact ⟨this, fun s' e => by cases e⟩
      · cases hs
    · rename_i s1 h1
      obtain ⟨h2, h3⟩ := vfin_step h h1
      obtain ⟨h4, h5⟩ := ih h2 hs
      exact ⟨by simp only [List.length_cons]; omega, h5⟩

theorem vWork_begin (names : List (Nat × Nat)) (mem : Nat) : ∀ n, n ≤ prog.length →
    vWork (VSt.begin t0 names drv0 mem prog) n = 17 * (prog.take n).flatten.length := by
  intro n
  induction n with
  | zero => intro _; rfl
  | succ n ih =>
    intro hn
    have hn' : n < prog.length := by omega
    have hc : vCost (VSt.begin t0 names drv0 mem prog) n = 17 * (prog[n]).length := by
      simp [vCost, VSt.begin, vRank, List.getElem?_eq_getElem hn']
    rw [vWork, ih (by omega), hc, List.take_add_one, List.getElem?_eq_getElem hn', Option.toList_some,
      List.flatten_append, List.length_append, List.flatten_singleton]
    omega

/-- While calls remain, some thread can go on that is not held back by one asking for the exclusive
lock. -/
theorem vprogress {s : VSt} (h : VInv t0 drv0 prog s) (hd : ¬ VDone s) :
    ∃ u, ¬ HeldBack s u ∧ (s.step u).isSome := by
  have hl := h.locks
  by_cases hw : ∃ u, s.writer = some u
  · obtain ⟨u, hw⟩ := hw
    have h1 := (hl.writer u).1 hw
    refine ⟨u, ?_, ?_⟩
    · rintro ⟨⟨c, i, e | e⟩, -⟩ <;> rw [e] at h1 <;> cases h1
    · unfold VSt.step
      cases hp : s.th u <;> rw [hp] at h1 <;> first | cases h1; done | rfl
  have hw : s.writer = none := by
    cases e : s.writer with
    | none => rfl
    | some u => exact absurd ⟨u, e⟩ hw
  by_cases hs : ∃ u i, vSlot (s.th u) = some i
  · obtain ⟨u, i, h1⟩ := hs
    refine ⟨u, ?_, ?_⟩
    · rintro ⟨⟨c, i, e | e⟩, -⟩ <;> rw [e] at h1 <;> cases h1
    · unfold VSt.step
      cases hp : s.th u <;> rw [hp] at h1 <;> first | cases h1; done | skip
      · simp only [VSt.stepAt]; split <;> rfl
      · simp only [VSt.stepAt]; split
        · rfl
        · split <;> rfl
      · rfl
  have hs : ∀ i, s.slot i = none := by
    intro i
    cases e : s.slot i with
    | none => rfl
    | some u => exact absurd ⟨u, i, (hl.slot i u).1 e⟩ hs
  by_cases hr : ∃ u, vReads (s.th u) = true
  · obtain ⟨u, h1⟩ := hr
    refine ⟨u, ?_, ?_⟩
    · rintro ⟨⟨c, i, e | e⟩, -⟩ <;> rw [e] at h1 <;> cases h1
    · unfold VSt.step
      cases hp : s.th u <;> rw [hp] at h1 <;> first | cases h1; done | skip
      · rfl
      · rfl
      · simp only [VSt.stepAt, hs]; split <;> rfl
      · simp only [VSt.stepAt]; split <;> rfl
      · simp only [VSt.stepAt]; split
        · rfl
        · split <;> rfl
      · rfl
      · rfl
  have hR : s.readers = [] := by
    cases e : s.readers with
    | nil => rfl
    | cons u l => exact absurd ⟨u, (hl.readers u).1 (by rw [e]; simp)⟩ hr
  by_cases hg : ∃ u c i, s.th u = .upgrade c i
  · obtain ⟨u, c, i, h1⟩ := hg
    refine ⟨u, ?_, ?_⟩
    · rintro ⟨⟨c, i, e | e⟩, -⟩ <;> rw [e] at h1 <;> cases h1
    · simp [VSt.step, h1, VSt.stepAt, hw, hR]
  · obtain ⟨u, hu⟩ : ∃ u, ¬ (s.th u = .idle ∧ s.todo u = []) := Classical.not_forall.1 hd
    refine ⟨u, fun hh => hg hh.2, ?_⟩
    unfold VSt.step
    have h1 : vReads (s.th u) ≠ true := fun e => hr ⟨u, e⟩
    have h2 : vWrites (s.th u) ≠ true := fun e => by have := (hl.writer u).2 e; rw [hw] at this; cases this
    cases hp : s.th u <;> rw [hp] at h1 h2 <;> first | (exact absurd rfl h1) | (exact absurd rfl h2) | skip
    · simp only [VSt.stepAt]
      split
      · rename_i e; exact absurd ⟨hp, e⟩ hu
      · rfl
    · simp only [VSt.stepAt]; split <;> rfl
    · rfl
    · simp only [VSt.stepAt]; split <;> rfl
    · rfl
    · simp [VSt.stepAt, hw]
    · exact absurd ⟨u, _, _, hp⟩ hg
    · simp [VSt.stepAt, hw]

end Verif.Proofs
