import Verif.Spec.Pipeline

/-! Invariant of the parallel phase 2. -/
namespace Verif.Proofs
open Verif.Model Verif.Spec
variable {σ α ε : Type}

/-- The block a worker is inside of. -/
def held : WPc σ α ε → Option Nat
  | .idle => none
  | .start j | .body j _ | .want j _ | .save j _ | .finish j => some j

theorem holds_iff {s : Par σ α ε} {w i : Nat} : Holds s w i ↔ held (s.th w) = some i := by
  unfold Holds held; split <;> simp_all

/-- What is true of a worker's block at each place. -/
def WOk (L : Nat → List α) (O : Nat → Option ε) (bufs : Nat → List α) (exn : Option ε)
    (tls : Option Nat) : WPc σ α ε → Prop
  | .idle => True
  | .start i => bufs i = []
  | .body i k => ∃ l, bufs i ++ l = L i ∧ Emits k l (O i) ∧ tls = some i
  | .want i e => bufs i = L i ∧ O i = some e
  | .save i e => bufs i = L i ∧ O i = some e
  | .finish i => bufs i = L i ∧ (O i ≠ none → exn ≠ none)

/-- The buffers have not been drained yet. -/
def Before (m : MPc ε) : Prop := match m with | .drain _ => False | .done => False | _ => True

/-- What is true at each place of the main thread. -/
def MOk (n : Nat) (L : Nat → List α) (q0 : List α) (s : Par σ α ε) : MPc ε → Prop
  | .submit i => s.avail = i ∧ s.queue = q0
  | .wait => s.avail = n ∧ s.queue = q0
  | .check => s.avail = n ∧ s.next = n ∧ (∀ w, s.th w = .idle) ∧ s.queue = q0
  | .drain i => s.avail = n ∧ s.next = n ∧ (∀ w, s.th w = .idle) ∧ s.exn = none ∧ i ≤ n ∧
      s.queue = q0 ++ (List.range i).flatMap L ∧ s.moved = ((List.range i).flatMap L).length ∧
      ∀ j, i ≤ j → j < n → s.bufs j = L j
  | .done => s.avail = n ∧ s.next = n ∧ (∀ w, s.th w = .idle) ∧ s.exn = none ∧
      s.queue = q0 ++ (List.range n).flatMap L ∧ s.moved = ((List.range n).flatMap L).length
  | .thrown e => s.avail = n ∧ s.next = n ∧ (∀ w, s.th w = .idle) ∧ s.exn = some e ∧ s.queue = q0

structure PInv (n W : Nat) (L : Nat → List α) (O : Nat → Option ε) (q0 : List α) (s : Par σ α ε) :
    Prop where
  next_le : s.next ≤ s.avail
  avail_le : s.avail ≤ n
  held_lt : ∀ w i, held (s.th w) = some i → i < s.next
  uniq : ∀ w w' i, held (s.th w) = some i → held (s.th w') = some i → w = w'
  untouched : ∀ i, s.next ≤ i → s.bufs i = []
  wok : ∀ w, WOk L O s.bufs s.exn (s.tls w) (s.th w)
  fin : ∀ i, i < s.next → (∀ w, held (s.th w) ≠ some i) →
    (O i ≠ none → s.exn ≠ none) ∧ (Before s.main → s.bufs i = L i)
  exn_from : ∀ e, s.exn = some e → ∃ i, i < n ∧ O i = some e
  lock : ∀ w, s.lock = some w ↔ ∃ i e, s.th w = .save i e
  out : ∀ w, W ≤ w → s.th w = .idle
  unmoved : Before s.main → s.moved = 0
  main : MOk n L q0 s s.main

theorem pinv_init (n W : Nat) (L : Nat → List α) (O : Nat → Option ε) (q0 : List α) (sh : σ) :
    PInv n W L O q0 (Par.init sh q0 : Par σ α ε) := by
  constructor <;> simp [Par.init, held, WOk, MOk, Before]

theorem quiet_iff {W : Nat} {s : Par σ α ε} :
    s.quiet W = true ↔ ∀ w, w < W → s.th w = .idle := by
  simp only [Par.quiet, List.all_eq_true, List.mem_range]
  constructor
  · intro h w hw
    have := h w hw
    split at this <;> simp_all
  · intro h w hw
    rw [h w hw]

theorem wok_congr {L : Nat → List α} {O : Nat → Option ε} {bufs bufs' : Nat → List α}
    {exn exn' : Option ε} {tls tls' : Option Nat} {p : WPc σ α ε} (h : WOk L O bufs exn tls p)
    (hb : ∀ i, held p = some i → bufs' i = bufs i) (he : exn ≠ none → exn' ≠ none)
    (ht : tls' = tls) : WOk L O bufs' exn' tls' p := by
  subst ht
  cases p <;> simp_all [WOk, held]

theorem pinv_main {ts : List (Task σ α ε)} {W : Nat} {L : Nat → List α} {O : Nat → Option ε}
    {q0 : List α} {s s' : Par σ α ε} (h : PInv ts.length W L O q0 s) (hs : s.mainStep ts W = some s') :
    PInv ts.length W L O q0 s' := by
  have hm := h.main
  have hn := h.next_le
  have ha := h.avail_le
  unfold Par.mainStep at hs
  split at hs
  · rename_i i hmi
    have hb : Before s.main := by rw [hmi]; trivial
    rw [hmi] at hm
    obtain ⟨hm1, hm2⟩ := hm
    split at hs
    · cases hs
      exact ⟨by dsimp only; omega, by dsimp only; omega, h.held_lt, h.uniq, h.untouched, h.wok,
        fun i hi hw => ⟨(h.fin i hi hw).1, fun _ => (h.fin i hi hw).2 hb⟩, h.exn_from, h.lock, h.out,
        fun _ => h.unmoved hb, ⟨rfl, hm2⟩⟩
    · cases hs
      exact ⟨hn, ha, h.held_lt, h.uniq, h.untouched, h.wok,
        fun i hi hw => ⟨(h.fin i hi hw).1, fun _ => (h.fin i hi hw).2 hb⟩, h.exn_from, h.lock, h.out,
        fun _ => h.unmoved hb, ⟨by dsimp only; omega, hm2⟩⟩
  · rename_i hmi
    have hb : Before s.main := by rw [hmi]; trivial
    rw [hmi] at hm
    obtain ⟨hm1, hm2⟩ := hm
    split at hs
    · rename_i hc
      cases hs
      have hq : ∀ w, s.th w = .idle := by
        intro w
        by_cases hw : w < W
        · exact quiet_iff.1 hc.2 w hw
        · exact h.out w (by omega)
      exact ⟨hn, ha, h.held_lt, h.uniq, h.untouched, h.wok,
        fun i hi hw => ⟨(h.fin i hi hw).1, fun _ => (h.fin i hi hw).2 hb⟩, h.exn_from, h.lock, h.out,
        fun _ => h.unmoved hb, ⟨hm1, by dsimp only; omega, hq, hm2⟩⟩
    · cases hs
  · rename_i hmi
    have hb : Before s.main := by rw [hmi]; trivial
    rw [hmi] at hm
    obtain ⟨hm1, hm2, hm3, hm4⟩ := hm
    have hbuf : ∀ j, j < ts.length → s.bufs j = L j := fun j hj =>
      (h.fin j (by omega) (fun w => by rw [hm3 w]; simp [held])).2 hb
    split at hs
    · rename_i e he
      cases hs
      exact ⟨hn, ha, h.held_lt, h.uniq, h.untouched, h.wok,
        fun i hi hw => ⟨(h.fin i hi hw).1, fun _ => (h.fin i hi hw).2 hb⟩, h.exn_from, h.lock, h.out,
        fun _ => h.unmoved hb, ⟨hm1, hm2, hm3, he, hm4⟩⟩
    · rename_i he
      cases hs
      exact ⟨hn, ha, h.held_lt, h.uniq, h.untouched, h.wok,
        fun i hi hw => ⟨(h.fin i hi hw).1, fun hf => hf.elim⟩, h.exn_from, h.lock, h.out,
        fun hf => hf.elim, ⟨hm1, hm2, hm3, he, by omega, by simpa using hm4,
          by simpa using h.unmoved hb, fun j _ hj => hbuf j hj⟩⟩
  · rename_i i hmi
    rw [hmi] at hm
    obtain ⟨hm1, hm2, hm3, hm4, hm5, hm6, hm7, hm8⟩ := hm
    split at hs
    · rename_i hi
      cases hs
      refine ⟨hn, ha, h.held_lt, h.uniq, ?_, ?_,
        fun j hj hw => ⟨(h.fin j hj hw).1, fun hf => hf.elim⟩, h.exn_from, h.lock, h.out,
        fun hf => hf.elim, ⟨hm1, hm2, hm3, hm4, by omega, ?_, ?_, ?_⟩⟩
      · intro j hj
        dsimp only at hj ⊢
        split
        · rfl
        · exact h.untouched j hj
      · intro w
        dsimp only
        rw [hm3 w]; trivial
      · dsimp only
        rw [hm8 i (Nat.le_refl _) hi, hm6, List.range_succ]; simp
      · dsimp only
        rw [hm8 i (Nat.le_refl _) hi, hm7, List.range_succ]; simp
      · intro j hj hj'
        dsimp only
        rw [if_neg (by omega)]
        exact hm8 j (by omega) hj'
    · cases hs
      have : i = ts.length := by omega
      subst this
      exact ⟨hn, ha, h.held_lt, h.uniq, h.untouched, h.wok,
        fun i hi hw => ⟨(h.fin i hi hw).1, fun hf => hf.elim⟩, h.exn_from, h.lock, h.out,
        fun hf => hf.elim, ⟨hm1, hm2, hm3, hm4, hm6, hm7⟩⟩
  · cases hs
  · cases hs

/-- A worker can only move before the buffers are drained. -/
theorem working {n W : Nat} {L : Nat → List α} {O : Nat → Option ε} {q0 : List α} {s : Par σ α ε}
    (h : PInv n W L O q0 s) {w : Nat} (hw : s.th w ≠ .idle ∨ s.next < s.avail) :
    (∃ i, s.main = .submit i) ∨ s.main = .wait := by
  have hm := h.main
  have := h.next_le
  rcases hmi : s.main with i | _ | _ | i | _ | e
  · exact .inl ⟨i, rfl⟩
  · exact .inr rfl
  all_goals
    rw [hmi] at hm
    exfalso
    have h1 := hm.1
    have h2 := hm.2.1
    have h3 := hm.2.2.1
    rcases hw with hw | hw
    · exact hw (h3 w)
    · omega

theorem mok_of {n : Nat} {L : Nat → List α} {q0 : List α} {s s' : Par σ α ε}
    (hm : MOk n L q0 s s.main) (hw : (∃ i, s.main = .submit i) ∨ s.main = .wait)
    (h1 : s'.main = s.main) (h2 : s'.avail = s.avail) (h3 : s'.queue = s.queue) :
    MOk n L q0 s' s'.main := by
  rw [h1]
  rcases hw with ⟨i, hw⟩ | hw <;> rw [hw] at hm ⊢ <;> simp_all [MOk]

theorem pinv_move {n W : Nat} {L : Nat → List α} {O : Nat → Option ε} {q0 : List α}
    {s s' : Par σ α ε} {w i : Nat} {p' : WPc σ α ε} (h : PInv n W L O q0 s) (hwW : w < W)
    (hh : held (s.th w) = some i) (hp' : held p' = some i ∨ held p' = none)
    (h1 : s'.avail = s.avail) (h2 : s'.next = s.next) (h3 : s'.main = s.main)
    (h4 : s'.moved = s.moved) (h5 : s'.queue = s.queue)
    (hth : ∀ u, s'.th u = if u = w then p' else s.th u)
    (hb : ∀ j, j ≠ i → s'.bufs j = s.bufs j) (ht : ∀ u, u ≠ w → s'.tls u = s.tls u)
    (he : s.exn ≠ none → s'.exn ≠ none) (hef : ∀ e, s'.exn = some e → ∃ i, i < n ∧ O i = some e)
    (hw : WOk L O s'.bufs s'.exn (s'.tls w) p')
    (hd : held p' = none → (O i ≠ none → s'.exn ≠ none) ∧ s'.bufs i = L i)
    (hl : ∀ u, s'.lock = some u ↔ ∃ i e, s'.th u = .save i e) : PInv n W L O q0 s' := by
  have hlt := h.held_lt w i hh
  have hwk := working (w := w) h (.inl (fun hc => by rw [hc] at hh; simp [held] at hh))
  refine ⟨by rw [h1, h2]; exact h.next_le, by rw [h1]; exact h.avail_le, ?_, ?_, ?_, ?_, ?_, hef, hl,
    ?_, by rw [h3, h4]; exact h.unmoved, mok_of h.main hwk h3 h1 h5⟩
  · intro u j hu
    rw [hth] at hu
    rw [h2]
    split at hu
    · rcases hp' with hp' | hp' <;> rw [hp'] at hu <;> simp at hu
      omega
    · exact h.held_lt u j hu
  · intro u v j hu hv
    rw [hth] at hu hv
    have key : ∀ x, held (if x = w then p' else s.th x) = some j → held (s.th x) = some j := by
      clear hu hv
      intro x hu
      split at hu
      · rename_i hc; subst hc
        rcases hp' with hp' | hp' <;> rw [hp'] at hu <;> simp at hu
        rw [hh, hu]
      · exact hu
    exact h.uniq u v j (key u hu) (key v hv)
  · intro j hj
    rw [h2] at hj
    rw [hb j (by omega)]; exact h.untouched j hj
  · intro u
    rw [hth]
    split
    · rename_i hc; subst hc; exact hw
    · rename_i hc
      refine wok_congr (h.wok u) (fun j hj => hb j ?_) he (ht u hc)
      intro hji; subst hji
      exact hc (h.uniq u w j hj hh)
  · intro j hj hu
    rw [h2] at hj
    by_cases hji : j = i
    · subst hji
      have := hu w
      rw [hth, if_pos rfl] at this
      have hp := hp'.resolve_left this
      exact ⟨(hd hp).1, fun _ => (hd hp).2⟩
    · have hf := h.fin j hj (fun u => by
        have := hu u
        rw [hth] at this
        split at this
        · rename_i hc; subst hc; rw [hh]; simp; omega
        · exact this)
      rw [h3, hb j hji]
      exact ⟨fun hO => he (hf.1 hO), hf.2⟩
  · intro u hu
    rw [hth, if_neg (by omega)]
    exact h.out u hu

/-- A move that neither takes nor releases the mutex. -/
theorem lock_move {s s' : Par σ α ε} {w : Nat} {p' : WPc σ α ε}
    (h : ∀ u, s.lock = some u ↔ ∃ i e, s.th u = .save i e) (hl : s'.lock = s.lock)
    (hth : ∀ u, s'.th u = if u = w then p' else s.th u)
    (hp : ∀ i e, s.th w ≠ .save i e) (hp' : ∀ i e, p' ≠ .save i e) :
    ∀ u, s'.lock = some u ↔ ∃ i e, s'.th u = .save i e := by
  intro u
  rw [hl, h, hth]
  split
  · rename_i hc; subst hc
    exact ⟨fun ⟨i, e, hx⟩ => (hp i e hx).elim, fun ⟨i, e, hx⟩ => (hp' i e hx).elim⟩
  · rfl

theorem pinv_worker {ts : List (Task σ α ε)} {W : Nat} {L : Nat → List α} {O : Nat → Option ε}
    (hem : ∀ (i : Nat) t, ts[i]? = some t → Emits t (L i) (O i))
    {q0 : List α} {s s' : Par σ α ε} {w : Nat} (hwW : w < W) (h : PInv ts.length W L O q0 s)
    (hs : s.worker ts w = some s') : PInv ts.length W L O q0 s' := by
  have hwok := h.wok w
  have hn := h.next_le
  have ha := h.avail_le
  have hheld := h.held_lt
  have huniq := h.uniq
  unfold Par.worker at hs
  split at hs
  · rename_i hp
    split at hs
    · rename_i hlt
      have hwk := working (w := w) h (.inr hlt)
      cases hs
      refine ⟨by dsimp only [Par.goto]; omega, ha, ?_, ?_, ?_, ?_, ?_, h.exn_from, ?_, ?_, h.unmoved, mok_of h.main hwk rfl rfl rfl⟩ <;> dsimp only [Par.goto]
      · intro u i hu
        split at hu
        · simp [held] at hu; omega
        · have := hheld u i hu; omega
      · intro u v i hu hv
        split at hu <;> split at hv
        · omega
        · simp [held] at hu; have := hheld v i hv; omega
        · simp [held] at hv; have := hheld u i hu; omega
        · exact huniq u v i hu hv
      · intro i hi; exact h.untouched i (by omega)
      · intro u
        split
        · exact h.untouched _ (Nat.le_refl _)
        · exact h.wok u
      · intro i hi hu
        have h1 := hu w
        simp [held] at h1
        refine h.fin i (by omega) (fun u => ?_)
        have h2 := hu u
        split at h2
        · rename_i he; subst he; rw [hp]; simp [held]
        · exact h2
      · intro u
        rw [h.lock u]
        split
        · rename_i he; subst he; rw [hp]; simp
        · rfl
      · intro u hu
        rw [if_neg (by omega)]
        exact h.out u hu
    · cases hs
  · rename_i i hp
    rw [hp] at hwok
    split at hs
    · cases hs
    · rename_i t hti
      cases hs
      refine pinv_move (p' := .body i t) (i := i) h hwW (by rw [hp]; rfl) (.inl rfl) rfl rfl rfl rfl rfl (fun u => rfl) (fun j _ => rfl)
        (fun u hu => if_neg hu) id h.exn_from ?_ (fun hc => by simp [held] at hc)
        (lock_move h.lock rfl (fun u => rfl) (by simp [hp]) (by simp))
      exact ⟨L i, by simpa [Par.goto, Par.setTaskBuffer, WOk] using hwok, hem i t hti, if_pos rfl⟩
  · rename_i i hp
    rw [hp] at hwok
    obtain ⟨l, hl1, hl2, hl3⟩ := hwok
    cases hs
    refine pinv_move (p' := .finish i) (i := i) h hwW (by rw [hp]; rfl) (.inl rfl) rfl rfl rfl rfl rfl (fun u => rfl) (fun j _ => rfl)
      (fun u hu => rfl) id h.exn_from ?_ (fun hc => by simp [held] at hc)
      (lock_move h.lock rfl (fun u => rfl) (by simp [hp]) (by simp))
    generalize hO : O i = o at hl2
    cases hl2
    exact ⟨by simpa [Par.goto] using hl1, fun hc => (hc hO).elim⟩
  · rename_i i e hp
    rw [hp] at hwok
    obtain ⟨l, hl1, hl2, hl3⟩ := hwok
    cases hs
    refine pinv_move (p' := .want i e) (i := i) h hwW (by rw [hp]; rfl) (.inl rfl) rfl rfl rfl rfl rfl (fun u => rfl) (fun j _ => rfl)
      (fun u hu => rfl) id h.exn_from ?_ (fun hc => by simp [held] at hc)
      (lock_move h.lock rfl (fun u => rfl) (by simp [hp]) (by simp))
    generalize hO : O i = o at hl2
    cases hl2
    exact ⟨by simpa [Par.goto] using hl1, hO⟩
  · rename_i i a k hp
    rw [hp] at hwok
    obtain ⟨l, hl1, hl2, hl3⟩ := hwok
    have hq : s.enqueue w a = { s with bufs := fun j => if j = i then s.bufs i ++ [a] else s.bufs j } := by
      unfold Par.enqueue; rw [hl3]
    rw [hq] at hs
    cases hs
    refine pinv_move (p' := .body i k) (i := i) h hwW (by rw [hp]; rfl) (.inl rfl) rfl rfl rfl rfl rfl (fun u => rfl)
      (fun j hj => if_neg hj)
      (fun u hu => rfl) id h.exn_from ?_ (fun hc => by simp [held] at hc)
      (lock_move h.lock rfl (fun u => rfl) (by simp [hp]) (by simp))
    generalize hO : O i = o at hl2
    cases hl2
    rename_i l hl2
    exact ⟨l, by simpa [Par.goto] using hl1, by rw [hO]; exact hl2, hl3⟩
  · rename_i i f k hp
    rw [hp] at hwok
    obtain ⟨l, hl1, hl2, hl3⟩ := hwok
    cases hs
    refine pinv_move (p' := .body i (k s.shared)) (i := i) h hwW (by rw [hp]; rfl) (.inl rfl) rfl rfl rfl rfl rfl (fun u => rfl)
      (fun j hj => rfl)
      (fun u hu => rfl) id h.exn_from ?_ (fun hc => by simp [held] at hc)
      (lock_move h.lock rfl (fun u => rfl) (by simp [hp]) (by simp))
    generalize hO : O i = o at hl2
    cases hl2
    rename_i hl2
    exact ⟨l, hl1, by rw [hO]; exact hl2 _, hl3⟩
  · rename_i i e hp
    rw [hp] at hwok
    split at hs
    · rename_i hlk
      cases hs
      refine pinv_move (p' := .save i e) (i := i) h hwW (by rw [hp]; rfl) (.inl rfl) rfl rfl rfl rfl rfl (fun u => rfl)
        (fun j hj => rfl) (fun u hu => rfl) id h.exn_from hwok (fun hc => by simp [held] at hc) ?_
      intro u
      dsimp only [Par.goto]
      split
      · rename_i hc; subst hc; simp
      · rename_i hc
        constructor
        · intro hx; simp at hx; exact (hc hx.symm).elim
        · intro hx
          have := (h.lock u).2 hx
          rw [hlk] at this; cases this
    · cases hs
  · rename_i i e hp
    rw [hp] at hwok
    have hlk := (h.lock w).2 ⟨i, e, hp⟩
    cases hs
    refine pinv_move (p' := .finish i) (i := i) h hwW (by rw [hp]; rfl) (.inl rfl) rfl rfl rfl rfl rfl (fun u => rfl)
      (fun j hj => rfl) (fun u hu => rfl) ?_ ?_ ⟨hwok.1, ?_⟩ (fun hc => by simp [held] at hc) ?_
    · intro hx; dsimp only [Par.goto]; cases hxx : s.exn <;> simp_all
    · intro e' hx
      dsimp only [Par.goto] at hx
      cases hxx : s.exn with
      | none =>
        rw [hxx] at hx; simp at hx; subst hx
        have := hheld w i (by rw [hp]; rfl)
        exact ⟨i, by omega, hwok.2⟩
      | some e2 => rw [hxx] at hx; simp at hx; subst hx; exact h.exn_from _ hxx
    · intro _; dsimp only [Par.goto]; cases s.exn <;> simp
    · intro u
      dsimp only [Par.goto]
      split
      · simp
      · rename_i hc
        constructor
        · intro hx; cases hx
        · intro hx
          have := (h.lock u).2 hx
          rw [hlk] at this; simp at this; exact (hc this.symm).elim
  · rename_i i hp
    rw [hp] at hwok
    cases hs
    exact pinv_move (p' := .idle) (i := i) h hwW (by rw [hp]; rfl) (.inr rfl) rfl rfl rfl rfl rfl (fun u => rfl)
      (fun j hj => rfl) (fun u hu => if_neg hu) id h.exn_from trivial (fun _ => ⟨hwok.2, hwok.1⟩)
      (lock_move h.lock rfl (fun u => rfl) (by simp [hp]) (by simp))

theorem pinv_reach {ts : List (Task σ α ε)} {W : Nat} {L : Nat → List α} {O : Nat → Option ε}
    (hem : ∀ (i : Nat) t, ts[i]? = some t → Emits t (L i) (O i)) {sh : σ} {q0 : List α}
    {s : Par σ α ε} (h : ParReach ts W (Par.init sh q0) s) : PInv ts.length W L O q0 s := by
  induction h with
  | start => exact pinv_init _ _ _ _ _ _
  | @step s s' t _ hs ih =>
    cases t with
    | none => exact pinv_main ih hs
    | some w =>
      simp only [Par.step] at hs
      split at hs
      · rename_i hw; exact pinv_worker hem hw ih hs
      · cases hs

end Verif.Proofs
