import Verif.Proofs.Pipeline

/-!
Property theorems C42: the parallel analysis of the deferred blocks hands the same reads to the
resolution as the sequential one, and reports exceptions.
-/
namespace Verif.Props
open Verif.Model Verif.Spec Verif.Proofs
variable {σ α ε : Type}

/-! ### Sequential mode -/

theorem task_runSeq {t : Task σ α ε} {l : List α} {o : Option ε} (h : Emits t l o) :
    ∀ (s : σ) (q : List α), (t.runSeq s q).queue = q ++ l ∧ (t.runSeq s q).exn = o := by
  induction h with
  | ret => intro s q; simp [Task.runSeq]
  | thr e => intro s q; simp [Task.runSeq]
  | enq _ ih => intro s q; simp [Task.runSeq, ih]
  | act _ ih => intro s q; exact ih s _ q

/-- Sequential mode when no block throws: all reads, block after block. -/
theorem sequential_reads {ts : List (Task σ α ε)} : ∀ {L : Nat → List α} {O : Nat → Option ε}
    (_ : ∀ (i : Nat) t, ts[i]? = some t → Emits t (L i) (O i))
    (_ : ∀ i, i < ts.length → O i = none) (s : σ) (q : List α),
    (runPhase2Sequential ts s q).exn = none ∧
    (runPhase2Sequential ts s q).queue = q ++ (List.range ts.length).flatMap L := by
  induction ts with
  | nil => intro L O _ _ s q; simp [runPhase2Sequential]
  | cons t ts ih =>
    intro L O he ho s q
    obtain ⟨h1, h2⟩ := task_runSeq (he 0 t rfl) s q
    rw [ho 0 (by simp)] at h2
    generalize hr : t.runSeq s q = r at h1 h2
    obtain ⟨s', q', x⟩ := r
    dsimp only at h1 h2
    subst h1; subst h2
    have hstep : runPhase2Sequential (t :: ts) s q = runPhase2Sequential ts s' (q ++ L 0) := by
      simp only [runPhase2Sequential, hr]
    obtain ⟨h3, h4⟩ := ih (L := fun i => L (i + 1)) (O := fun i => O (i + 1))
      (fun i t' hi => he (i + 1) t' (by simpa using hi))
      (fun i hi => ho (i + 1) (by simp only [List.length_cons]; omega)) s' (q ++ L 0)
    rw [hstep]
    refine ⟨h3, ?_⟩
    rw [h4, List.length_cons, List.range_succ_eq_map]
    simp [List.flatMap_map]

/-- Sequential mode when some block throws: the exception of the first such block. -/
theorem sequential_exception {ts : List (Task σ α ε)} : ∀ {L : Nat → List α} {O : Nat → Option ε}
    (_ : ∀ (i : Nat) t, ts[i]? = some t → Emits t (L i) (O i)) {i : Nat} {e : ε}
    (_ : i < ts.length) (_ : O i = some e) (_ : ∀ j, j < i → O j = none) (s : σ) (q : List α),
    (runPhase2Sequential ts s q).exn = some e := by
  induction ts with
  | nil => intro L O _ i e hi; simp at hi
  | cons t ts ih =>
    intro L O he i e hi ho hj s q
    obtain ⟨h1, h2⟩ := task_runSeq (he 0 t rfl) s q
    generalize hr : t.runSeq s q = r at h1 h2
    obtain ⟨s', q', x⟩ := r
    dsimp only at h1 h2
    subst h1; subst h2
    cases i with
    | zero =>
      rw [ho] at hr
      simp only [runPhase2Sequential, hr]
    | succ i =>
      rw [hj 0 (by omega)] at hr
      simp only [runPhase2Sequential, hr]
      exact ih (L := fun i => L (i + 1)) (O := fun i => O (i + 1))
        (fun i t' hi => he (i + 1) t' (by simpa using hi)) (by simp at hi; omega) ho
        (fun j hji => hj (j + 1) (by omega)) s' _

/-! ### Parallel mode -/

theorem choose_outcomes {ts : List (Task σ α ε)} (h : ∀ t ∈ ts, ∃ l o, Emits t l o) :
    ∃ (L : Nat → List α) (O : Nat → Option ε), ∀ (i : Nat) t, ts[i]? = some t → Emits t (L i) (O i) := by
  have : ∀ i : Nat, ∃ p : List α × Option ε, ∀ t, ts[i]? = some t → Emits t p.1 p.2 := by
    intro i
    cases hi : ts[i]? with
    | none => exact ⟨([], none), fun t ht => by cases ht⟩
    | some t =>
      obtain ⟨l, o, hl⟩ := h t (List.mem_of_getElem? hi)
      exact ⟨(l, o), fun t' ht => by cases ht; exact hl⟩
  refine ⟨fun i => (Classical.choose (this i)).1, fun i => (Classical.choose (this i)).2, ?_⟩
  intro i t ht
  exact Classical.choose_spec (this i) t ht

theorem emits_unique {t : Task σ α ε} {l : List α} {o : Option ε} (h : Emits t l o) (s0 : σ) :
    ∀ {l' : List α} {o' : Option ε}, Emits t l' o' → l' = l ∧ o' = o := by
  induction h with
  | ret => intro l' o' h'; cases h'; exact ⟨rfl, rfl⟩
  | thr e => intro l' o' h'; cases h'; exact ⟨rfl, rfl⟩
  | enq _ ih => intro l' o' h'; cases h' with | enq h' => obtain ⟨h1, h2⟩ := ih h'; exact ⟨by rw [h1], h2⟩
  | act _ ih => intro l' o' h'; cases h' with | act h' => exact ih s0 (h' s0)

/-- C42, the reads: whatever the schedule, when the parallel phase returns, the sequential one would
have too, and the queue handed to the resolution holds the same reads in the same order. -/
theorem parallel_reads_equal_sequential {ts : List (Task σ α ε)} (hts : ∀ t ∈ ts, ∃ l o, Emits t l o)
    {W : Nat} {sh : σ} {q0 : List α} {s : Par σ α ε} (hr : ParReach ts W (Par.init sh q0) s)
    (hd : s.main = .done) :
    (runPhase2Sequential ts sh q0).exn = none ∧ s.queue = (runPhase2Sequential ts sh q0).queue := by
  obtain ⟨L, O, hem⟩ := choose_outcomes hts
  have h := pinv_reach hem hr
  have hm := h.main
  rw [hd] at hm
  obtain ⟨_, hm2, hm3, hm4, hm5, _⟩ := hm
  have hO : ∀ i, i < ts.length → O i = none := by
    intro i hi
    refine Classical.byContradiction fun hc => ?_
    exact (h.fin i (by omega) (fun w => by rw [hm3 w]; simp [held])).1 hc hm4
  obtain ⟨h1, h2⟩ := sequential_reads hem hO sh q0
  exact ⟨h1, by rw [hm5, h2]⟩

/-- C42, exceptions: a block that throws keeps the parallel phase from returning normally, and what is
thrown comes from a block. -/
theorem parallel_exception {ts : List (Task σ α ε)} (hts : ∀ t ∈ ts, ∃ l o, Emits t l o)
    {W : Nat} {sh : σ} {q0 : List α} {s : Par σ α ε} (hr : ParReach ts W (Par.init sh q0) s) :
    (s.main = .done → ∀ t ∈ ts, ∀ l e, ¬ Emits t l (some e)) ∧
    (∀ e, s.main = .thrown e → ∃ t ∈ ts, ∃ l, Emits t l (some e)) := by
  obtain ⟨L, O, hem⟩ := choose_outcomes hts
  have h := pinv_reach hem hr
  have hm := h.main
  constructor
  · intro hd t ht l e hc
    rw [hd] at hm
    obtain ⟨_, hm2, hm3, hm4, hm5, _⟩ := hm
    obtain ⟨i, hi, rfl⟩ := List.mem_iff_getElem.1 ht
    have h1 := hem i ts[i] (List.getElem?_eq_getElem hi)
    have h2 := (emits_unique h1 sh hc).2
    exact (h.fin i (by omega) (fun w => by rw [hm3 w]; simp [held])).1 (by rw [← h2]; simp) hm4
  · intro e he
    rw [he] at hm
    obtain ⟨_, _, _, hm4, _⟩ := hm
    obtain ⟨i, hi, hO⟩ := h.exn_from e hm4
    refine ⟨ts[i], List.getElem_mem hi, L i, ?_⟩
    have := hem i ts[i] (List.getElem?_eq_getElem hi)
    rwa [hO] at this

/-- C42, progress: with at least one worker the phase never blocks: where no thread can move, it has
returned or thrown. -/
theorem phase2_progress {ts : List (Task σ α ε)} (hts : ∀ t ∈ ts, ∃ l o, Emits t l o)
    {W : Nat} (hW : 0 < W) {sh : σ} {q0 : List α} {s : Par σ α ε}
    (hr : ParReach ts W (Par.init sh q0) s) (hst : Stuck ts W s) :
    s.main = .done ∨ ∃ e, s.main = .thrown e := by
  obtain ⟨L, O, hem⟩ := choose_outcomes hts
  have h := pinv_reach hem hr
  have hidle : ∀ w, s.th w = .idle := by
    intro w
    have hw := hst (some w)
    simp only [Par.step] at hw
    by_cases hlt : w < W
    · rw [if_pos hlt] at hw
      unfold Par.worker at hw
      split at hw
      · assumption
      · rename_i i hp
        have := h.held_lt w i (by rw [hp]; rfl)
        have h1 := h.next_le
        have h2 := h.avail_le
        rw [List.getElem?_eq_getElem (by omega)] at hw
        simp at hw
      · simp at hw
      · simp at hw
      · simp at hw
      · simp at hw
      · rename_i i e hp
        split at hw
        · simp at hw
        · rename_i hl
          cases hlk : s.lock with
          | none => exact (hl hlk).elim
          | some u =>
            obtain ⟨j, e', hu⟩ := (h.lock u).1 hlk
            have hu' := hst (some u)
            have hult : u < W := by
              refine Classical.byContradiction fun hc => ?_
              have := h.out u (by omega)
              rw [hu] at this; cases this
            simp [Par.step, hult, Par.worker, hu] at hu'
      · simp at hw
      · simp at hw
    · exact h.out w (by omega)
  have h0 := hst (some 0)
  simp only [Par.step, hW, if_true, Par.worker, hidle 0] at h0
  have hnx : ¬ s.next < s.avail := by
    intro hc; rw [if_pos hc] at h0; cases h0
  have hn := h.next_le
  have hmain := hst none
  simp only [Par.step, Par.mainStep] at hmain
  split at hmain
  · split at hmain <;> cases hmain
  · rw [if_pos ⟨by omega, quiet_iff.2 (fun w _ => hidle w)⟩] at hmain; cases hmain
  · split at hmain <;> cases hmain
  · split at hmain <;> cases hmain
  · rename_i hm; exact .inl hm
  · rename_i e hm; exact .inr ⟨e, hm⟩

/-! Termination. -/

/-- Steps left for the main thread when there are `n` blocks. -/
def mainCost (n : Nat) : MPc ε → Nat
  | .submit i => (n - i) + n + 5
  | .wait => n + 4
  | .check => n + 3
  | .drain i => n - i + 1
  | .done => 0
  | .thrown _ => 0

/-- A bound on the steps left for a worker when no block takes more than `M`. -/
def WCost (M : Nat) : WPc σ α ε → Nat → Prop
  | .idle, c => c = 0
  | .start _, c => c = M + 5
  | .body _ k, c => ∃ b, Within k b ∧ c = b + 4
  | .want _ _, c => c = 3
  | .save _ _, c => c = 2
  | .finish _, c => c = 1

theorem sum_update (c : Nat → Nat) (w x : Nat) : ∀ W, w < W →
    ((List.range W).map fun u => if u = w then x else c u).sum + c w =
    ((List.range W).map c).sum + x := by
  have key : ∀ W, ((List.range W).map fun u => if u = w then x else c u).sum +
      (if w < W then c w else 0) = ((List.range W).map c).sum + (if w < W then x else 0) := by
    intro W
    induction W with
    | zero => simp
    | succ W ih =>
      rw [List.range_succ]
      simp only [List.map_append, List.map_cons, List.map_nil, List.sum_append, List.sum_cons, List.sum_nil]
      by_cases h1 : W = w
      · subst h1; simp at ih ⊢; omega
      · rw [if_neg h1]
        by_cases h2 : w < W
        · rw [if_pos h2, if_pos h2] at ih
          rw [if_pos (by omega), if_pos (by omega)]; omega
        · rw [if_neg h2, if_neg h2] at ih
          rw [if_neg (by omega), if_neg (by omega)]; omega
  intro W hw
  have := key W
  rw [if_pos hw, if_pos hw] at this
  exact this

/-- `m` bounds the number of steps left. -/
def Pot (n W M : Nat) (s : Par σ α ε) (m : Nat) : Prop :=
  ∃ c : Nat → Nat, (∀ w, WCost M (s.th w) (c w)) ∧
    m = mainCost n s.main + (n - s.next) * (M + 6) + ((List.range W).map c).sum

theorem pot_worker {n W M : Nat} {s s' : Par σ α ε} {w m : Nat} {p : WPc σ α ε} (hw : w < W)
    (h : Pot n W M s m) (hth : ∀ u, s'.th u = if u = w then p else s.th u) (hm : s'.main = s.main)
    (hc : ∀ c, WCost M (s.th w) c → ∃ x, WCost M p x ∧
      (n - s'.next) * (M + 6) + x < (n - s.next) * (M + 6) + c) : ∃ m', Pot n W M s' m' ∧ m' < m := by
  obtain ⟨c, hc1, hc2⟩ := h
  obtain ⟨x, hx1, hx2⟩ := hc (c w) (hc1 w)
  refine ⟨_, ⟨fun u => if u = w then x else c u, ?_, rfl⟩, ?_⟩
  · intro u
    rw [hth]
    by_cases hu : u = w
    · simp only [hu, if_true]; exact hx1
    · simp only [hu, if_false]; exact hc1 u
  · have := sum_update c w x W hw
    rw [hm]
    omega

theorem pot_step {ts : List (Task σ α ε)} {W M : Nat} (hM : ∀ t ∈ ts, Within t M) {L : Nat → List α}
    {O : Nat → Option ε} {q0 : List α} {s s' : Par σ α ε} {t : Option Nat} {m : Nat}
    (hi : PInv ts.length W L O q0 s) (h : Pot ts.length W M s m) (hs : s.step ts W t = some s') :
    ∃ m', Pot ts.length W M s' m' ∧ m' < m := by
  have hnl := hi.next_le
  have hal := hi.avail_le
  cases t with
  | none =>
    simp only [Par.step] at hs
    obtain ⟨c, hc1, hc2⟩ := h
    have key : s'.th = s.th ∧ s'.next = s.next ∧
        mainCost ts.length s'.main < mainCost ts.length s.main := by
      unfold Par.mainStep at hs
      split at hs
      · rename_i i hmi
        split at hs <;> cases hs <;> refine ⟨rfl, rfl, ?_⟩ <;> simp only [hmi, mainCost] <;> omega
      · rename_i hmi
        split at hs <;> cases hs
        refine ⟨rfl, rfl, ?_⟩; simp only [hmi, mainCost]; omega
      · rename_i hmi
        split at hs <;> cases hs <;> refine ⟨rfl, rfl, ?_⟩ <;> simp only [hmi, mainCost] <;> omega
      · rename_i i hmi
        split at hs <;> cases hs <;> refine ⟨rfl, rfl, ?_⟩ <;> simp only [hmi, mainCost] <;> omega
      · cases hs
      · cases hs
    obtain ⟨k1, k2, k3⟩ := key
    exact ⟨_, ⟨c, by rw [k1]; exact hc1, rfl⟩, by rw [k2]; omega⟩
  | some w =>
    simp only [Par.step] at hs
    split at hs
    · rename_i hw
      unfold Par.worker at hs
      split at hs
      · rename_i hp
        split at hs
        · rename_i hlt
          cases hs
          refine pot_worker (p := .start s.next) hw h (fun u => rfl) rfl (fun c hc => ⟨M + 5, rfl, ?_⟩)
          dsimp only [Par.goto]
          have : ts.length - s.next = (ts.length - (s.next + 1)) + 1 := by omega
          rw [this, Nat.add_mul]; omega
        · cases hs
      · rename_i i hp
        split at hs
        · cases hs
        · rename_i t hti
          cases hs
          refine pot_worker (p := .body i t) hw h (fun u => rfl) rfl (fun c hc =>
            ⟨M + 4, ⟨M, hM t (List.mem_of_getElem? hti), rfl⟩, ?_⟩)
          rw [hp] at hc; simp only [WCost] at hc
          dsimp only [Par.goto, Par.setTaskBuffer]; omega
      · rename_i i hp
        cases hs
        refine pot_worker (p := .finish i) hw h (fun u => rfl) rfl (fun c hc => ⟨1, rfl, ?_⟩)
        rw [hp] at hc; obtain ⟨b, _, hb⟩ := hc
        dsimp only [Par.goto]; omega
      · rename_i i e hp
        cases hs
        refine pot_worker (p := .want i e) hw h (fun u => rfl) rfl (fun c hc => ⟨3, rfl, ?_⟩)
        rw [hp] at hc; obtain ⟨b, _, hb⟩ := hc
        dsimp only [Par.goto]; omega
      · rename_i i a k hp
        cases hs
        refine pot_worker (p := .body i k) hw h (fun u => ?_) ?_ (fun c hc => ?_)
        · dsimp only [Par.goto]; unfold Par.enqueue; cases s.tls w <;> rfl
        · dsimp only [Par.goto]; unfold Par.enqueue; split <;> rfl
        · have hn : ((s.enqueue w a).goto w (.body i k)).next = s.next := by
            dsimp only [Par.goto]; unfold Par.enqueue; split <;> rfl
          rw [hn]
          rw [hp] at hc; obtain ⟨b, hb1, hb2⟩ := hc
          cases hb1 with
          | @enq _ _ b' hb => exact ⟨b' + 4, ⟨b', hb, rfl⟩, by omega⟩
      · rename_i i f k hp
        cases hs
        refine pot_worker (p := .body i (k s.shared)) hw h (fun u => rfl) rfl (fun c hc => ?_)
        rw [hp] at hc; obtain ⟨b, hb1, hb2⟩ := hc
        cases hb1 with
        | @act _ _ b' hb => exact ⟨b' + 4, ⟨b', hb _, rfl⟩, by dsimp only [Par.goto]; omega⟩
      · rename_i i e hp
        split at hs
        · cases hs
          refine pot_worker (p := .save i e) hw h (fun u => rfl) rfl (fun c hc => ⟨2, rfl, ?_⟩)
          rw [hp] at hc; simp only [WCost] at hc
          dsimp only [Par.goto]; omega
        · cases hs
      · rename_i i e hp
        cases hs
        refine pot_worker (p := .finish i) hw h (fun u => rfl) rfl (fun c hc => ⟨1, rfl, ?_⟩)
        rw [hp] at hc; simp only [WCost] at hc
        dsimp only [Par.goto]; omega
      · rename_i i hp
        cases hs
        refine pot_worker (p := .idle) hw h (fun u => rfl) rfl (fun c hc => ⟨0, rfl, ?_⟩)
        rw [hp] at hc; simp only [WCost] at hc
        dsimp only [Par.goto, Par.setTaskBuffer]; omega
    · cases hs

theorem reach_of_run {ts : List (Task σ α ε)} {W k : Nat} {s0 s : Par σ α ε}
    (h : ParRun ts W s0 k s) : ParReach ts W s0 s := by
  induction h with
  | start => exact .start
  | step _ hs ih => exact .step ih hs

/-- C42, termination: when the blocks take a bounded number of operations each, so does the phase under
every schedule. With `phase2_progress`: it always ends by returning or throwing. -/
theorem phase2_bounded {ts : List (Task σ α ε)} (hts : ∀ t ∈ ts, ∃ l o, Emits t l o) {M : Nat}
    (hM : ∀ t ∈ ts, Within t M) (W : Nat) (sh : σ) (q0 : List α) {k : Nat} {s : Par σ α ε}
    (hr : ParRun ts W (Par.init sh q0) k s) : k ≤ ts.length * (M + 8) + 5 := by
  obtain ⟨L, O, hem⟩ := choose_outcomes hts
  have key : ∃ m, Pot ts.length W M s m ∧ m + k ≤ ts.length * (M + 8) + 5 := by
    induction hr with
    | start =>
      refine ⟨_, ⟨fun _ => 0, fun w => rfl, rfl⟩, ?_⟩
      simp only [Par.init, mainCost]
      have : ((List.range W).map fun _ => 0).sum = 0 := by
        generalize List.range W = l
        induction l <;> simp_all
      rw [this]
      simp only [Nat.mul_add, Nat.sub_zero]; omega
    | step hr hs ih =>
      obtain ⟨m, hm1, hm2⟩ := ih
      obtain ⟨m', h1, h2⟩ := pot_step hM (pinv_reach hem (reach_of_run hr)) hm1 hs
      exact ⟨m', h1, by omega⟩
  obtain ⟨m, _, h⟩ := key
  omega

/-- A read handed over by a thread is added at the end of the buffer the thread was given, or of the shared
queue if it was given none, and changes nothing else. -/
theorem enqueue_exact (s : Par σ α ε) (w : Nat) (a : α) :
    (∀ i, s.tls w = some i → (s.enqueue w a).queue = s.queue ∧ (s.enqueue w a).bufs i = s.bufs i ++ [a] ∧
      ∀ j, j ≠ i → (s.enqueue w a).bufs j = s.bufs j) ∧
    (s.tls w = none → (s.enqueue w a).queue = s.queue ++ [a] ∧ (s.enqueue w a).bufs = s.bufs) ∧
    (s.enqueue w a).shared = s.shared ∧ (s.enqueue w a).tls = s.tls ∧ (s.enqueue w a).main = s.main ∧
    (s.enqueue w a).th = s.th := by
  cases h : s.tls w with
  | none => simp [Par.enqueue, h]
  | some i =>
    refine ⟨fun k hk => ?_, fun hk => (nomatch hk), by simp [Par.enqueue, h], by simp [Par.enqueue, h],
      by simp [Par.enqueue, h], by simp [Par.enqueue, h]⟩
    cases hk
    exact ⟨by simp [Par.enqueue, h], by simp [Par.enqueue, h], fun j hj => by simp [Par.enqueue, h, hj]⟩

/-- A thread without a buffer and one with buffer 3. -/
example : let s : Par Unit Nat Unit := { shared := (), queue := [7], tls := fun w => if w = 1 then some 3 else none }
    (s.enqueue 0 9).queue = [7, 9] ∧ (s.enqueue 1 9).queue = [7] ∧ (s.enqueue 1 9).bufs 3 = [9] :=
  ⟨rfl, rfl, rfl⟩

/-- C42, no data race on the reads: two workers are never inside the same block, a worker queues into
the buffer of its own block, and while a worker is inside a block nobody has touched the shared
queue. -/
theorem buffers_private {ts : List (Task σ α ε)} (hts : ∀ t ∈ ts, ∃ l o, Emits t l o)
    {W : Nat} {sh : σ} {q0 : List α} {s : Par σ α ε} (hr : ParReach ts W (Par.init sh q0) s) :
    (∀ w w' i, Holds s w i → Holds s w' i → w = w') ∧
    (∀ w i k, s.th w = .body i k → s.tls w = some i) ∧
    (∀ w i, Holds s w i → s.queue = q0) := by
  obtain ⟨L, O, hem⟩ := choose_outcomes hts
  have h := pinv_reach hem hr
  refine ⟨fun w w' i h1 h2 => h.uniq w w' i (holds_iff.1 h1) (holds_iff.1 h2), ?_, ?_⟩
  · intro w i k hp
    have := h.wok w
    rw [hp] at this
    obtain ⟨_, _, _, h3⟩ := this
    exact h3
  · intro w i hw
    have hm := h.main
    rcases working (w := w) h (.inl (fun hc => by rw [holds_iff, hc] at hw; simp [held] at hw)) with ⟨j, hj⟩ | hj
    · rw [hj] at hm; exact hm.2
    · rw [hj] at hm; exact hm.2

/-- C42, the profile: the count reported for drained reads is the number of reads the blocks queued. -/
theorem drained_count {ts : List (Task σ α ε)} (hts : ∀ t ∈ ts, ∃ l o, Emits t l o)
    {W : Nat} {sh : σ} {q0 : List α} {s : Par σ α ε} (hr : ParReach ts W (Par.init sh q0) s)
    (hd : s.main = .done) : s.queue.length = q0.length + s.moved := by
  obtain ⟨L, O, hem⟩ := choose_outcomes hts
  have hm := (pinv_reach hem hr).main
  rw [hd] at hm
  obtain ⟨_, _, _, _, h5, h6⟩ := hm
  rw [h5, h6, List.length_append]

theorem reach_run {ts : List (Task σ α ε)} {W : Nat} {s0 : Par σ α ε} (sched : List (Option Nat)) :
    ∀ {s : Par σ α ε}, ParReach ts W s0 s → ParReach ts W s0 (s.run ts W sched) := by
  induction sched with
  | nil => intro s h; exact h
  | cons t sched ih =>
    intro s h
    simp only [Par.run]
    apply ih
    cases hs : s.step ts W t with
    | none => exact h
    | some s' => exact .step h hs

/-! ### Witnesses -/

/-- Two blocks: each changes the shared state, queues reads, and finishes. -/
def twoTasks : List (Task Nat Nat Nat) :=
  [.act (· + 1) fun _ => .enq 10 (.enq 11 .ret), .enq 20 (.act (· * 2) fun _ => .enq 21 .ret)]

/-- Two workers, strictly alternating. -/
def alternate (n : Nat) : List (Option Nat) :=
  List.replicate 3 none ++ (List.replicate n [some 1, some 0]).flatten ++ List.replicate 6 none

/-- The hypotheses are met, and interleaving the two blocks on two workers returns with the reads in
block order although the second block's read was queued first. -/
example : (∀ t ∈ twoTasks, ∃ l o, Emits t l o) ∧ (∀ t ∈ twoTasks, Within t 3) ∧
    ParReach twoTasks 2 (Par.init 5 [1]) ((Par.init 5 [1]).run twoTasks 2 (alternate 8)) ∧
    ((Par.init 5 [1]).run twoTasks 2 (alternate 8)).main = .done ∧
    ((Par.init 5 [1]).run twoTasks 2 (alternate 8)).queue = [1, 10, 11, 20, 21] ∧
    (runPhase2Sequential twoTasks 5 [1]).queue = [1, 10, 11, 20, 21] := by
  refine ⟨?_, ?_, reach_run _ .start, rfl, rfl, rfl⟩
  · intro t ht
    simp only [twoTasks, List.mem_cons, List.not_mem_nil, or_false] at ht
    rcases ht with rfl | rfl
    · exact ⟨[10, 11], none, .act fun _ => .enq (.enq .ret)⟩
    · exact ⟨[20, 21], none, .enq (.act fun _ => .enq .ret)⟩
  · intro t ht
    simp only [twoTasks, List.mem_cons, List.not_mem_nil, or_false] at ht
    rcases ht with rfl | rfl
    · exact .act fun _ => .enq (.enq .ret)
    · exact .enq (.act fun _ => .enq .ret)

/-- Which exception is reported depends on the schedule when two blocks throw; sequential mode reports
the first block's. -/
theorem exception_choice_depends_on_schedule :
    let ts : List (Task Unit Nat Nat) := [.thr 1, .thr 2]
    let s0 : Par Unit Nat Nat := Par.init () []
    (s0.run ts 2 (List.replicate 3 none ++ List.replicate 7 (some 0) ++ List.replicate 7 (some 0) ++
      List.replicate 3 none)).main = .thrown 1 ∧
    (s0.run ts 2 (List.replicate 3 none ++ [some 0] ++ List.replicate 7 (some 1) ++
      List.replicate 7 (some 0) ++ List.replicate 3 none)).main = .thrown 2 ∧
    (runPhase2Sequential ts () []).exn = some 1 := ⟨rfl, rfl, rfl⟩

/-- The condition that a block's reads do not depend on the shared state is needed: here the second
block queues a read only if the first has run. -/
theorem dependent_reads_depend_on_schedule :
    let ts : List (Task Bool Nat Nat) :=
      [.act (fun _ => true) fun _ => .ret, .act id fun b => if b then .enq 7 .ret else .ret]
    let s0 : Par Bool Nat Nat := Par.init false []
    let a := s0.run ts 2 (List.replicate 3 none ++ List.replicate 20 (some 0) ++ List.replicate 6 none)
    let b := s0.run ts 2 (List.replicate 3 none ++ [some 0] ++ List.replicate 7 (some 1) ++
      List.replicate 20 (some 0) ++ List.replicate 6 none)
    a.main = .done ∧ b.main = .done ∧ a.queue = [7] ∧ b.queue = [] := ⟨rfl, rfl, rfl, rfl⟩

end Verif.Props
