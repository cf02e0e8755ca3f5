import Verif.Proofs.Schedule

/-!
Two orders of the operations of several blocks end in builders that differ only in the names of nodes, also
after the pending reads are resolved.
-/
namespace Verif.Proofs
open Verif.Model Verif.Spec Verif.Props

variable {s0 s s1 s2 : Bld} {as done : Nat → List BAct} {envs E e1 e2 : Nat → List Nat} {S : Nat → Bld}

/-! ### The beginning -/

theorem trkOk_run {hist : List (Nat × Rec)} : ∀ {t : Tracker} {drv : List DMap} {t' : Tracker} {drv' : List DMap},
    TrkOk t → t.run drv hist = .ok (t', drv') → TrkOk t' := by
  induction hist with
  | nil =>
    intro t drv t' drv' h hr
    simp only [Tracker.run, Except.ok.injEq, Prod.mk.injEq] at hr
    exact hr.1 ▸ h
  | cons x hist ih =>
    obtain ⟨sym, r⟩ := x
    intro t drv t' drv' h hr
    simp only [Tracker.run, bind, Except.bind] at hr
    cases ha : t.addDrivers drv sym r with
    | error f => rw [ha] at hr; cases hr
    | ok p =>
      rw [ha] at hr
      refine ih (t := p.1) ?_ hr
      simp only [Tracker.addDrivers, bind, Except.bind] at ha
      split at ha
      · cases ha
      · split at ha
        · cases ha
        · cases ha
          exact (slotFor_ok h sym).1

theorem begun_tracks {hist : List (Nat × Rec)} (h : Begun s0 hist) : TracksAll s0.trk s0.drv hist := by
  obtain ⟨t, drv, h1, h2⟩ := tracksAll_run hist {} [] []
    ⟨by simp, by simp, by simp, by simp, by simp, by simp [histOf], by simp⟩ (by simpa using h.range)
    (by simpa using h.splits)
  rw [h.run] at h1
  cases h1
  simpa using h2

theorem begun_view {hist : List (Nat × Rec)} (h : Begun s0 hist) : DrvView s0.trk s0.drv (BaseView s0) := by
  have ht := begun_tracks h
  refine ⟨trkOk_run trkOk_empty h.run, ht.short, ?_, fun y b l => Iff.rfl⟩
  intro y i m h1 h2
  obtain ⟨m', h3, h4⟩ := ht.some_ _ h1
  rw [h2] at h3
  cases h3
  exact h4.inv

theorem begun_nodes {hist : List (Nat × Rec)} (h : Begun s0 hist) {y : Nat} {b : BitRange} {l : List DriverInfo}
    (hv : BaseView s0 y b l) : ∀ d ∈ l, ∀ n, d.node = some n → n ∈ s0.net.g.nodes := by
  intro d hd n hn
  obtain ⟨i, m, h1, h2, e, he, rfl, hl⟩ := hv
  obtain ⟨m', h3, h4⟩ := (begun_tracks h).some_ _ h1
  rw [h2] at h3
  cases h3
  have hle := h4.inv.ok.1 e he
  obtain ⟨pre, r, post, h5, _, ⟨d', h6, h7⟩, _⟩ :=
    (h4.drv e.lo (some n)).1 ⟨e, he, Int.le_refl _, hle, l, hl, d, hd, hn⟩
  have hr : r ∈ histOf hist y := by rw [h5]; simp
  obtain ⟨x, hx, rfl⟩ := List.mem_map.1 hr
  exact h.nodes x (List.mem_filter.1 hx).1 d' h6 n h7

theorem mix_start {hist : List (Nat × Rec)} (h : Begun s0 hist) (as : Nat → List BAct) :
    MixInv s0 as (fun _ => []) s0 (fun _ => []) (fun _ => s0) (fun _ => []) := by
  have hg := ginv_start h.reach
  have hd : ∀ P, DrvView s0.trk s0.drv (driveView s0 (fun _ => []) (fun _ => []) P) := by
    intro P
    refine (begun_view h).congr fun y b l => ⟨?_, Or.inl⟩
    rintro (hb | ⟨w, _, c, m, hm, _⟩)
    · exact hb
    · simp at hm
  refine ⟨hg, h.vars, fun _ => h.vars, h.sorted, fun _ => h.sorted, fun _ _ => rfl, fun _ _ _ => rfl, ?_, h.pend,
    fun _ => h.pend, ?_, fun w y b l hm => by simp at hm, hd _, fun _ => hd _⟩
  · intro w sym c _
    refine (Rw.self _).mono ?_
    rintro p x ⟨rfl, hm⟩
    obtain ⟨e, he, rfl⟩ := List.mem_map.1 hm
    exact Or.inl ⟨(hg.base _ (h.vars sym e (List.mem_filter.1 he).1)).2, rfl⟩
  · rintro w p x (⟨_, rfl⟩ | ⟨i, hi, _⟩)
    · rfl
    · simp at hi

/-! ### All operations -/

theorem acts_snoc {D : Design} {a : BAct} : ∀ {l : List BAct} {s : Bld} {env : List Nat} {s' : Bld} {env' : List Nat},
    s.acts D env l = .ok (s', env') → s.acts D env (l ++ [a]) = s'.act D env' a := by
  intro l
  induction l with
  | nil =>
    intro s env s' env' h
    simp only [Bld.acts, Except.ok.injEq, Prod.mk.injEq] at h
    obtain ⟨rfl, rfl⟩ := h
    simp only [List.nil_append, Bld.acts]
    cases s.act D env a <;> rfl
  | cons b l ih =>
    intro s env s' env' h
    simp only [List.cons_append, Bld.acts] at h ⊢
    cases hb : s.act D env b with
    | error f => rw [hb] at h; cases h
    | ok p => rw [hb] at h; exact ih h

theorem acts_fail {D : Design} {f : Fault} {m : List BAct} : ∀ {l : List BAct} {s : Bld} {env : List Nat},
    s.acts D env l = .error f → s.acts D env (l ++ m) = .error f := by
  intro l
  induction l with
  | nil => intro s env h; simp [Bld.acts] at h
  | cons b l ih =>
    intro s env h
    simp only [List.cons_append, Bld.acts] at h ⊢
    cases hb : s.act D env b with
    | error g => rw [hb] at h; exact h
    | ok p => rw [hb] at h; exact ih h

theorem opsOf_cons (w : Nat) (a : BAct) (l : List (Nat × BAct)) (v : Nat) :
    opsOf ((w, a) :: l) v = if v = w then a :: opsOf l v else opsOf l v := by
  unfold opsOf
  by_cases h : v = w
  · subst h; simp
  · have : w ≠ v := fun e => h e.symm
    simp [h, this]

/-- Operations in any order: the builder is that of the blocks alone, or a block alone goes wrong. -/
theorem mixed_inv {D : Design} (hsep : Separate D s0 as) (hb : DrvView s0.trk s0.drv (BaseView s0))
    (hv0 : ∀ sym, ∀ e ∈ s0.vars sym, e.val ∈ s0.net.g.nodes) : ∀ (l : List (Nat × BAct)) {done : Nat → List BAct}
    {s : Bld} {envs : Nat → List Nat} {S : Nat → Bld} {E : Nat → List Nat}, MixInv s0 as done s envs S E →
    (∀ w, as w = done w ++ opsOf l w) → (∀ w, s0.acts D [] (done w) = .ok (S w, E w)) →
    (∀ s' envs', s.mixed D envs l = .ok (s', envs') →
      ∃ S' E', MixInv s0 as as s' envs' S' E' ∧ ∀ w, s0.acts D [] (as w) = .ok (S' w, E' w)) ∧
    (∀ f, s.mixed D envs l = .error f → ∃ w, s0.acts D [] (as w) = .error f) := by
  intro l
  induction l with
  | nil =>
    intro done s envs S E h hl hs
    have : as = done := by funext w; rw [hl w]; simp [opsOf]
    subst this
    refine ⟨fun s' envs' hm => ?_, fun f hm => by simp [Bld.mixed] at hm⟩
    simp only [Bld.mixed, Except.ok.injEq, Prod.mk.injEq] at hm
    obtain ⟨rfl, rfl⟩ := hm
    exact ⟨S, E, h, hs⟩
  | cons x l ih =>
    obtain ⟨w, a⟩ := x
    intro done s envs S E h hl hs
    have hw : as w = done w ++ a :: opsOf l w := by rw [hl w, opsOf_cons, if_pos rfl]
    have hst := h.step hsep hb hv0 w hw fun v => ⟨_, hl v⟩
    have hsn := acts_snoc (a := a) (hs w)
    cases h1 : s.act D (envs w) a with
    | error f =>
      rw [h1] at hst
      cases h2 : (S w).act D (E w) a with
      | ok p => rw [h2] at hst; exact hst.elim
      | error g =>
        rw [h2] at hst
        obtain rfl : g = f := hst
        refine ⟨fun s' envs' hm => by simp [Bld.mixed, h1] at hm, fun f hm => ⟨w, ?_⟩⟩
        simp only [Bld.mixed, h1, Except.error.injEq] at hm
        subst hm
        rw [h2] at hsn
        have := acts_fail (m := opsOf l w) hsn
        rwa [List.append_assoc, List.singleton_append, ← hw] at this
    | ok p' =>
      rw [h1] at hst
      cases h2 : (S w).act D (E w) a with
      | error g => rw [h2] at hst; exact hst.elim
      | ok p =>
        rw [h2] at hst
        have hst : MixInv s0 as (upd done w (done w ++ [a])) p'.1 (upd envs w p'.2) (upd S w p.1)
          (upd E w p.2) := hst
        have := ih hst (fun v => ?_) (fun v => ?_)
        · simp only [Bld.mixed, h1]
          exact this
        · by_cases hv : v = w
          · subst hv; rw [upd_same, hw]; simp
          · rw [upd_ne _ _ hv, hl v, opsOf_cons, if_neg hv]
        · by_cases hv : v = w
          · subst hv; simp only [upd_same]; rw [hsn, h2]
          · simp only [upd_ne _ _ hv]; exact hs v

/-! ### Two orders -/

/-- Nodes of two builders that stand for each other: the same old node, or the same node of a block. -/
def Mate (s0 : Bld) (e1 e2 : Nat → List Nat) (x y : Nat) : Prop :=
  (x ∈ s0.net.g.nodes ∧ y = x) ∨ ∃ w i : Nat, (e1 w)[i]? = some x ∧ (e2 w)[i]? = some y

/-- Drivers that stand for each other. -/
def MateD (M : Nat → Nat → Prop) (a b : DriverInfo) : Prop :=
  b.lsp = a.lsp ∧ ((a.node = none ∧ b.node = none) ∨ ∃ x y, a.node = some x ∧ b.node = some y ∧ M x y)

/-- Two builders whose nodes stand for each other. -/
structure Mated (M : Nat → Nat → Prop) (a b : Bld) : Prop where
  reach : Reachable a.net
  reach' : Reachable b.net
  into : ∀ x y, M x y → x ∈ a.net.g.nodes ∧ y ∈ b.net.g.nodes
  left : ∀ x ∈ a.net.g.nodes, ∃ y, M x y
  right : ∀ y ∈ b.net.g.nodes, ∃ x, M x y
  func : ∀ x y z, M x y → M x z → y = z
  inj : ∀ x y z, M x z → M y z → x = y
  data : ∀ x y, M x y → b.net.data y = a.net.data x
  ann : ∀ x y x' y', M x y → M x' y' → annots b.net y y' = annots a.net x x'
  asked : ∀ x y, M x y → askedBy b.queue y = askedBy a.queue x
  qin : ∀ p ∈ a.queue, ∀ t, p.node = some t → t ∈ a.net.g.nodes
  qin' : ∀ p ∈ b.queue, ∀ t, p.node = some t → t ∈ b.net.g.nodes
  look : ∀ sym c, (a.vars.lookup sym c = none ∧ b.vars.lookup sym c = none) ∨
    ∃ x y, a.vars.lookup sym c = some x ∧ b.vars.lookup sym c = some y ∧ M x y
  ivs : ∀ sym c, ∃ o o', a.trk.intervals a.drv sym c = .ok o ∧ b.trk.intervals b.drv sym c = .ok o' ∧
    Rw (fun p q => q.1 = p.1 ∧ Rw (MateD M) p.2 q.2) o o'

theorem corr_mate (h1 : MixInv s0 as done s1 e1 S E) {w p x y : Nat}
    (hx : Corr s0.net.g.nextNode (E w) (e1 w) p x) (hy : Corr s0.net.g.nextNode (E w) (e2 w) p y)
    (hm : x ∈ s1.net.g.nodes) : Mate s0 e1 e2 x y := by
  rcases hx with ⟨a, b⟩ | ⟨i, a, b⟩
  · rcases hy with ⟨c, d⟩ | ⟨j, c, d⟩
    · left
      refine ⟨?_, by omega⟩
      rcases h1.g.nodes x hm with h | ⟨v, h⟩
      · exact h
      · have := (h1.g.own v x h).2; omega
    · have := (h1.g.sown w p (List.mem_of_getElem? c)).2; omega
  · rcases hy with ⟨c, d⟩ | ⟨j, c, d⟩
    · have := (h1.g.sown w p (List.mem_of_getElem? a)).2; omega
    · have := nodup_get (h1.g.snodup w) a c
      subst this
      exact Or.inr ⟨w, i, b, d⟩

theorem mate_corr (h1 : MixInv s0 as done s1 e1 S E) (h2 : MixInv s0 as done s2 e2 S E) {x y : Nat}
    (h : Mate s0 e1 e2 x y) : (∀ w, Corr s0.net.g.nextNode (E w) (e1 w) x x ∧
        Corr s0.net.g.nextNode (E w) (e2 w) x y ∧ x ∈ s0.net.g.nodes) ∨
      ∃ w p, Corr s0.net.g.nextNode (E w) (e1 w) p x ∧ Corr s0.net.g.nextNode (E w) (e2 w) p y ∧ x ∈ e1 w ∧
        y ∈ e2 w := by
  rcases h with ⟨h, rfl⟩ | ⟨w, i, h3, h4⟩
  · exact Or.inl fun w => ⟨Or.inl ⟨(h1.g.base _ h).2, rfl⟩, Or.inl ⟨(h1.g.base _ h).2, rfl⟩, h⟩
  · have hi : i < (E w).length := by rw [← h1.g.len]; exact (List.getElem?_eq_some_iff.1 h3).1
    have h5 := List.getElem?_eq_getElem hi
    exact Or.inr ⟨w, _, Or.inr ⟨i, h5, h3⟩, Or.inr ⟨i, h5, h4⟩, List.mem_of_getElem? h3, List.mem_of_getElem? h4⟩

theorem one_reg {D : Design} (hsep : Separate D s0 as) (sym : Nat) (c : BitRange) :
    ∃ w, ∀ v b i, v ≠ w → BAct.reg sym b i ∈ as v → ascRange b ≠ c := by
  by_cases h : ∃ w b i, BAct.reg sym b i ∈ as w ∧ ascRange b = c
  · obtain ⟨w, b, k, h1, rfl⟩ := h
    refine ⟨w, fun v b' k' hv h2 => asc_ne ?_⟩
    obtain ⟨i, hi⟩ := hsep.regs w v sym b b' k k' h1 h2 fun e => hv e.symm
    refine ⟨i, fun h => hi ?_⟩
    rw [← h, inRng_iff, inRng_iff, (asc_ends b).1, (asc_ends b).2]
  · exact ⟨0, fun v b i _ h1 h2 => h ⟨v, b, i, h1, h2⟩⟩

theorem view_mate (h1 : MixInv s0 as done s1 e1 S E) (h2 : MixInv s0 as done s2 e2 S E)
    (hbn : ∀ y b l, BaseView s0 y b l → ∀ d ∈ l, ∀ n, d.node = some n → n ∈ s0.net.g.nodes) {P : Nat → Prop}
    {y : Nat} {b : BitRange} {l : List DriverInfo} (h : driveView s0 done e1 P y b l) :
    ∃ l', driveView s0 done e2 P y b l' ∧ Rw (MateD (Mate s0 e1 e2)) l l' := by
  rcases h with h | ⟨w, hw, c, m, h3, h4, h5⟩
  · refine ⟨l, Or.inl h, (Rw.self l).mono ?_⟩
    rintro d d' ⟨hdd, hd⟩
    subst d'
    refine ⟨rfl, ?_⟩
    cases hn : d.node with
    | none => exact Or.inl ⟨rfl, rfl⟩
    | some n => exact Or.inr ⟨n, n, rfl, rfl, Or.inl ⟨hbn _ _ _ h d hd n hn, rfl⟩⟩
  · obtain ⟨l', hl'⟩ := h2.dd w y c m h3
    refine ⟨l', Or.inr ⟨w, hw, c, m, h3, h4, hl'⟩, ?_⟩
    rcases driversOf_rel (E := e1 w) (env := e2 w) (by rw [h1.g.len, h2.g.len]) m with ⟨h6, _⟩ | ⟨p, x, h6, h7, h8⟩
    · rw [h5] at h6; cases h6
    · rw [h5] at h6
      rw [hl'] at h7
      cases h6
      cases h7
      refine h8.mono ?_
      rintro a d ⟨q1, q2, _⟩
      refine ⟨q1, ?_⟩
      rcases q2 with q2 | ⟨i, x, y, q3, q4, q5, q6⟩
      · exact Or.inl q2
      · exact Or.inr ⟨x, y, q5, q6, Or.inr ⟨w, i, q3, q4⟩⟩

theorem Mate.symm {x y : Nat} (h : Mate s0 e1 e2 x y) : Mate s0 e2 e1 y x := by
  rcases h with ⟨h, rfl⟩ | ⟨w, i, h1, h2⟩
  · exact Or.inl ⟨h, rfl⟩
  · exact Or.inr ⟨w, i, h2, h1⟩

theorem MateD.symm {a b : DriverInfo} (h : MateD (Mate s0 e2 e1) a b) : MateD (Mate s0 e1 e2) b a := by
  obtain ⟨h1, h2⟩ := h
  refine ⟨h1.symm, ?_⟩
  rcases h2 with ⟨h2, h3⟩ | ⟨x, y, h2, h3, h4⟩
  · exact Or.inl ⟨h3, h2⟩
  · exact Or.inr ⟨y, x, h3, h2, h4.symm⟩

theorem Rw.symm {α β : Type} {R : α → β → Prop} {Q : β → α → Prop} {l : List α} {l' : List β} (h : Rw R l l')
    (hq : ∀ a b, R a b → Q b a) : Rw Q l' l :=
  ⟨h.1.symm, fun i a b ha hb => hq b a (h.2 i b a hb ha)⟩

theorem paired_of_mix {D : Design} (hsep : Separate D s0 as)
    (hbn : ∀ y b l, BaseView s0 y b l → ∀ d ∈ l, ∀ n, d.node = some n → n ∈ s0.net.g.nodes)
    (h1 : MixInv s0 as done s1 e1 S E) (h2 : MixInv s0 as done s2 e2 S E) :
    Mated (Mate s0 e1 e2) s1 s2 := by
  have hlow : ∀ {e : Nat → List Nat} {s : Bld}, MixInv s0 as done s e S E → ∀ w x, x ∈ e w → x ∉ s0.net.g.nodes := by
    intro e s h w x hx hb
    have := (h.g.own w x hx).2
    have := (h.g.base x hb).2
    omega
  have total : ∀ {e e' : Nat → List Nat} {s s' : Bld}, MixInv s0 as done s e S E → MixInv s0 as done s' e' S E →
      ∀ x ∈ s.net.g.nodes, ∃ y, Mate s0 e e' x y := by
    intro e e' s s' h h' x hx
    rcases h.g.nodes x hx with hb | ⟨w, hw⟩
    · exact ⟨x, Or.inl ⟨hb, rfl⟩⟩
    · obtain ⟨i, hi⟩ := List.getElem?_of_mem hw
      have : i < (e' w).length := by
        rw [h'.g.len, ← h.g.len]; exact (List.getElem?_eq_some_iff.1 hi).1
      exact ⟨_, Or.inr ⟨w, i, hi, List.getElem?_eq_getElem this⟩⟩
  have func : ∀ {e e' : Nat → List Nat} {s s' : Bld}, MixInv s0 as done s e S E → MixInv s0 as done s' e' S E →
      ∀ x y z, Mate s0 e e' x y → Mate s0 e e' x z → y = z := by
    intro e e' s s' h h' x y z hy hz
    rcases hy with ⟨a, rfl⟩ | ⟨w, i, a, b⟩
    · rcases hz with ⟨c, rfl⟩ | ⟨v, j, c, d⟩
      · rfl
      · exact absurd a (hlow h v _ (List.mem_of_getElem? c))
    · rcases hz with ⟨c, rfl⟩ | ⟨v, j, c, d⟩
      · exact absurd c (hlow h w _ (List.mem_of_getElem? a))
      · obtain rfl := h.g.disj w v x (List.mem_of_getElem? a) (List.mem_of_getElem? c)
        obtain rfl := nodup_get (h.g.nodup w) a c
        rw [b] at d
        exact Option.some.inj d
  refine ⟨h1.g.reach, h2.g.reach, ?_, total h1 h2, ?_, func h1 h2, ?_, ?_, ?_, ?_, h1.qin, h2.qin, ?_, ?_⟩
  · rintro x y (⟨a, rfl⟩ | ⟨w, i, a, b⟩)
    · exact ⟨(h1.g.base _ a).1, (h2.g.base _ a).1⟩
    · exact ⟨(h1.g.own w x (List.mem_of_getElem? a)).1, (h2.g.own w y (List.mem_of_getElem? b)).1⟩
  · intro y hy
    obtain ⟨x, hx⟩ := total h2 h1 y hy
    exact ⟨x, hx.symm⟩
  · intro x y z hx hy
    exact func h2 h1 z x y hx.symm hy.symm
  · intro x y h
    rcases mate_corr h1 h2 h with h | ⟨w, p, c1, c2, _⟩
    · rw [h1.g.corr_data (h 0).1, h2.g.corr_data (h 0).2.1]
    · rw [h1.g.corr_data c1, h2.g.corr_data c2]
  · intro x y x' y' h h'
    rcases mate_corr h1 h2 h with h | ⟨w, p, c1, c2, c3, c4⟩
    · rcases mate_corr h1 h2 h' with h' | ⟨v, q, d1, d2, d3, d4⟩
      · rw [h1.g.ann 0 _ _ _ _ (h 0).1 (h' 0).1, h2.g.ann 0 _ _ _ _ (h 0).2.1 (h' 0).2.1]
      · rw [h1.g.ann v _ _ _ _ (h v).1 d1, h2.g.ann v _ _ _ _ (h v).2.1 d2]
    · rcases mate_corr h1 h2 h' with h' | ⟨v, q, d1, d2, d3, d4⟩
      · rw [h1.g.ann w _ _ _ _ c1 (h' w).1, h2.g.ann w _ _ _ _ c2 (h' w).2.1]
      · by_cases hv : w = v
        · subst hv
          rw [h1.g.ann w _ _ _ _ c1 d1, h2.g.ann w _ _ _ _ c2 d2]
        · rw [h1.g.cross w v x x' hv c3 d3, h2.g.cross w v y y' hv c4 d4]
  · intro x y h
    rcases mate_corr h1 h2 h with h | ⟨w, p, c1, c2, _⟩
    · rw [h1.q 0 _ _ (h 0).1, h2.q 0 _ _ (h 0).2.1]
    · rw [h1.q w _ _ c1, h2.q w _ _ c2]
  · intro sym c
    obtain ⟨w, hw⟩ := one_reg hsep sym c
    rcases h1.lookup w hw with ⟨a1, a2⟩ | ⟨p, x, a1, a2, a3, _, a4⟩
    · rcases h2.lookup w hw with ⟨_, b2⟩ | ⟨q, y, b1, _⟩
      · exact Or.inl ⟨a2, b2⟩
      · rw [a1] at b1; cases b1
    · rcases h2.lookup w hw with ⟨b1, _⟩ | ⟨q, y, b1, b2, b3, _⟩
      · rw [a1] at b1; cases b1
      · rw [a1] at b1
        obtain rfl := Option.some.inj b1
        exact Or.inr ⟨x, y, a2, b2, corr_mate h1 a3 b3 a4⟩
  · intro sym c
    obtain ⟨o, a1, a2, a3⟩ := h1.d.intervals sym c
    obtain ⟨o', b1, b2, b3⟩ := h2.d.intervals sym c
    refine ⟨o, o', a1, b1, intervals_rel a2 b2 ?_ ?_⟩
    · rintro ⟨b, l⟩ hx
      obtain ⟨c1, c2⟩ := (a3 b l).1 hx
      obtain ⟨l', c3, c4⟩ := view_mate h1 h2 hbn c1
      exact ⟨(b, l'), (b3 b l').2 ⟨c3, c2⟩, rfl, c4⟩
    · rintro ⟨b, l⟩ hx
      obtain ⟨c1, c2⟩ := (b3 b l).1 hx
      obtain ⟨l', c3, c4⟩ := view_mate h2 h1 hbn c1
      exact ⟨(b, l'), (a3 b l').2 ⟨c3, c2⟩, rfl, c4.symm fun _ _ h => h.symm⟩

/-! ### Resolution -/

variable {M : Nat → Nat → Prop} {a b : Bld}

/-- Dependencies that stand for each other. -/
def MateDep (M : Nat → Nat → Prop) (d d' : Dep) : Prop :=
  M d.src d'.src ∧ M d.tgt d'.tgt ∧ d'.sym = d.sym ∧ d'.bounds = d.bounds ∧ d'.kind = d.kind

theorem Mated.emit {D : Design} (h : Mated M a b) {x y : Nat} (hm : M x y) (sym : Nat) (c : BitRange)
    (k : EdgeKind) : ∃ ds ds', emitDeps (a.ctx D) ⟨sym, c, some x, k⟩ = .ok ds ∧
      emitDeps (b.ctx D) ⟨sym, c, some y, k⟩ = .ok ds' ∧ Rw (MateDep M) ds ds' := by
  unfold emitDeps Bld.ctx
  dsimp only
  rcases h.look sym c with ⟨h1, h2⟩ | ⟨p, q, h1, h2, h3⟩
  · rw [h1, h2]
    obtain ⟨o, o', h3, h4, h5⟩ := h.ivs sym c
    rw [h3, h4]
    refine ⟨_, _, rfl, rfl, h5.flatMap ?_⟩
    rintro ⟨r, l⟩ ⟨r', l'⟩ ⟨hr, hl⟩
    dsimp only at hr hl
    subst hr
    unfold intervalDeps
    dsimp only
    cases hi : r'.intersection c with
    | none => exact Rw.nil
    | some e =>
      refine hl.filterMap ?_
      rintro d d' ⟨_, ⟨h6, h7⟩ | ⟨u, v, h6, h7, h8⟩⟩
      · rw [h6, h7]; exact Or.inl ⟨rfl, rfl⟩
      · rw [h6, h7]; exact Or.inr ⟨_, _, rfl, rfl, h8, hm, rfl, rfl, rfl⟩
  · rw [h1, h2]
    exact ⟨_, _, rfl, rfl, Rw.cons ⟨h3, hm, rfl, rfl, rfl⟩ Rw.nil⟩

/-- The pending reads a list asks for. -/
def askFor (y : Nat) (l : List (Nat × BitRange × EdgeKind)) : List Pending :=
  l.map fun x => ⟨x.1, x.2.1, some y, x.2.2⟩

theorem Mated.emitAsk {D : Design} (h : Mated M a b) {x y : Nat} (hm : M x y)
    (l : List (Nat × BitRange × EdgeKind)) : ∃ ds ds', emitAll (a.ctx D) (askFor x l) = .ok ds ∧
      emitAll (b.ctx D) (askFor y l) = .ok ds' ∧ Rw (MateDep M) ds ds' := by
  induction l with
  | nil => exact ⟨[], [], rfl, rfl, Rw.nil⟩
  | cons p l ih =>
    obtain ⟨ds, ds', h1, h2, h3⟩ := ih
    obtain ⟨es, es', h4, h5, h6⟩ := h.emit (D := D) hm p.1 p.2.1 p.2.2
    refine ⟨es ++ ds, es' ++ ds', ?_, ?_, h6.append h3⟩
    · have : askFor x (p :: l) = ⟨p.1, p.2.1, some x, p.2.2⟩ :: askFor x l := rfl
      rw [this]; simp only [emitAll, h4, h1]
    · have : askFor y (p :: l) = ⟨p.1, p.2.1, some y, p.2.2⟩ :: askFor y l := rfl
      rw [this]; simp only [emitAll, h5, h2]

/-- The dependencies on a node come from what is asked for it. -/
theorem emit_target {c : ResolveCtx} (y : Nat) : ∀ {q : List Pending} {ds : List Dep}, emitAll c q = .ok ds →
    emitAll c (askFor y (askedBy q y)) = .ok (ds.filter fun d => d.tgt == y) := by
  intro q
  induction q with
  | nil => intro ds h; cases h; rfl
  | cons p q ih =>
    intro ds h
    simp only [emitAll] at h
    cases hp : emitDeps c p with
    | error f => rw [hp] at h; cases h
    | ok es =>
      rw [hp] at h
      cases hq : emitAll c q with
      | error f => rw [hq] at h; cases h
      | ok fs =>
        rw [hq] at h
        obtain rfl : es ++ fs = ds := Except.ok.inj h
        have ht := emitDeps_tgt hp
        rw [List.filter_append]
        by_cases hn : p.node = some y
        · have e1 : askedBy (p :: q) y = (p.sym, p.bounds, p.kind) :: askedBy q y := by
            simp [askedBy, hn]
          have e2 : (⟨p.sym, p.bounds, some y, p.kind⟩ : Pending) = p := by rw [← hn]
          have e3 : es.filter (fun d => d.tgt == y) = es := by
            rw [List.filter_eq_self]
            intro d hd
            have := (ht d hd).1
            rw [hn] at this
            simp [Option.some.inj this]
          rw [e1, e3]
          have e4 : askFor y ((p.sym, p.bounds, p.kind) :: askedBy q y) = p :: askFor y (askedBy q y) := by
            simp only [askFor, List.map_cons, e2]
          rw [e4]
          simp only [emitAll, hp, ih hq]
        · have e1 : askedBy (p :: q) y = askedBy q y := by simp [askedBy, hn]
          have e3 : es.filter (fun d => d.tgt == y) = [] := by
            rw [List.filter_eq_nil_iff]
            intro d hd he
            have := (ht d hd).1
            rw [eq_of_beq he] at this
            exact hn this
          rw [e1, e3]
          exact ih hq

theorem emits_ok {c : ResolveCtx} {q : List Pending} (h : ∀ p ∈ q, ∃ es, emitDeps c p = .ok es) :
    ∃ ds, emitAll c q = .ok ds := by
  induction q with
  | nil => exact ⟨[], rfl⟩
  | cons p q ih =>
    obtain ⟨es, h1⟩ := h p (by simp)
    obtain ⟨fs, h2⟩ := ih fun r hr => h r (by simp [hr])
    exact ⟨es ++ fs, by simp only [emitAll, h1, h2]⟩

/-- Resolution of the pending reads keeps the pairing. -/
theorem Mated.resolve {D : Design} (h : Mated M a b) :
    Resolvable (a.ctx D) a.net a.queue ∧ Resolvable (b.ctx D) b.net b.queue ∧
    ∃ n n', resolveSequential (a.ctx D) a.net a.queue = .ok n ∧ resolveSequential (b.ctx D) b.net b.queue = .ok n' ∧
      (n.g.nodes = a.net.g.nodes ∧ n.data = a.net.data) ∧ (n'.g.nodes = b.net.g.nodes ∧ n'.data = b.net.data) ∧
      ∀ x y x' y', M x y → M x' y' → annots n' y y' = annots n x x' := by
  have hdep : ∀ {ds ds' : List Dep}, Rw (MateDep M) ds ds' →
      (∀ d ∈ ds, d.src ∈ a.net.g.nodes ∧ d.tgt ∈ a.net.g.nodes) ∧
      (∀ d ∈ ds', d.src ∈ b.net.g.nodes ∧ d.tgt ∈ b.net.g.nodes) := by
    intro ds ds' hr
    constructor
    · intro d hd
      obtain ⟨d', _, h1, h2, _⟩ := hr.mem_left hd
      exact ⟨(h.into _ _ h1).1, (h.into _ _ h2).1⟩
    · intro d hd
      obtain ⟨d', _, h1, h2, _⟩ := hr.mem_right hd
      exact ⟨(h.into _ _ h1).2, (h.into _ _ h2).2⟩
  have ea : ∀ p ∈ a.queue, ∃ es, emitDeps (a.ctx D) p = .ok es ∧
      ∀ d ∈ es, d.src ∈ a.net.g.nodes ∧ d.tgt ∈ a.net.g.nodes := by
    intro p hp
    obtain ⟨sym, c, nd, k⟩ := p
    cases nd with
    | none => exact ⟨[], rfl, by simp⟩
    | some x =>
      obtain ⟨y, hy⟩ := h.left x (h.qin _ hp x rfl)
      obtain ⟨ds, ds', h1, _, h3⟩ := h.emit (D := D) hy sym c k
      exact ⟨ds, h1, (hdep h3).1⟩
  have eb : ∀ p ∈ b.queue, ∃ es, emitDeps (b.ctx D) p = .ok es ∧
      ∀ d ∈ es, d.src ∈ b.net.g.nodes ∧ d.tgt ∈ b.net.g.nodes := by
    intro p hp
    obtain ⟨sym, c, nd, k⟩ := p
    cases nd with
    | none => exact ⟨[], rfl, by simp⟩
    | some y =>
      obtain ⟨x, hx⟩ := h.right y (h.qin' _ hp y rfl)
      obtain ⟨ds, ds', _, h1, h3⟩ := h.emit (D := D) hx sym c k
      exact ⟨ds', h1, (hdep h3).2⟩
  have ra : Resolvable (a.ctx D) a.net a.queue := by
    obtain ⟨ds, hd⟩ := emits_ok fun p hp => (ea p hp).imp fun _ h => h.1
    refine ⟨ds, hd, fun d hm => ?_⟩
    obtain ⟨p, hp, es, h1, h2⟩ := (emitAll_mem hd d).1 hm
    obtain ⟨es', h3, h4⟩ := ea p hp
    rw [h1] at h3
    cases h3
    exact h4 d h2
  have rb : Resolvable (b.ctx D) b.net b.queue := by
    obtain ⟨ds, hd⟩ := emits_ok fun p hp => (eb p hp).imp fun _ h => h.1
    refine ⟨ds, hd, fun d hm => ?_⟩
    obtain ⟨p, hp, es, h1, h2⟩ := (emitAll_mem hd d).1 hm
    obtain ⟨es', h3, h4⟩ := eb p hp
    rw [h1] at h3
    cases h3
    exact h4 d h2
  obtain ⟨ds, n, p1, p2, p3, p4, p5⟩ := seq_of_resolvable h.reach ra
  obtain ⟨ds', n', q1, q2, q3, q4, q5⟩ := seq_of_resolvable h.reach' rb
  obtain ⟨_, r1, _, r2, r3, _⟩ := addDependencies_spec h.reach p4
  obtain ⟨_, t1, _, t2, t3, _⟩ := addDependencies_spec h.reach' q4
  rw [p3] at r1
  rw [q3] at t1
  cases r1
  cases t1
  refine ⟨ra, rb, n, n', p2, q2, ⟨r3, r2⟩, ⟨t3, t2⟩, ?_⟩
  intro x y x' y' hx hx'
  rw [p5, q5, h.ann x y x' y' hx hx']
  refine annFold_rel ?_
  have f1 := emit_target x' p1
  have f2 := emit_target y' q1
  obtain ⟨es, es', g1, g2, g3⟩ := h.emitAsk (D := D) hx' (askedBy a.queue x')
  rw [g1] at f1
  rw [h.asked x' y' hx', g2] at f2
  obtain rfl := Except.ok.inj f1
  obtain rfl := Except.ok.inj f2
  have e1 : ∀ (l : List Dep) (u v : Nat), reqs l u v = (l.filter fun d => d.tgt == v).filter fun d => d.src == u := by
    intro l u v
    unfold reqs
    rw [List.filter_filter]
  rw [e1, e1]
  have : Rw (MateDep M) ((ds.filter fun d => d.tgt == x').filter fun d => d.src == x)
      ((ds'.filter fun d => d.tgt == y').filter fun d => d.src == y) := by
    refine g3.filter fun d d' hd => ?_
    have : d'.src = y ↔ d.src = x := by
      constructor
      · rintro rfl; exact h.inj _ _ _ hd.1 hx
      · rintro rfl; exact h.func _ _ _ hd.1 hx
    rw [Bool.eq_iff_iff]
    simp only [beq_iff_eq, this]
  exact this.mono fun d d' hd => ⟨h.data _ _ hd.1, hd.2.2⟩

/-! ### Renaming -/

/-- The node that stands for a node. -/
noncomputable def mateOf (M : Nat → Nat → Prop) (x : Nat) : Nat :=
  open Classical in if h : ∃ y, M x y then Classical.choose h else x

theorem mateOf_spec {x y : Nat} (hf : ∀ x y z, M x y → M x z → y = z) (h : M x y) : mateOf M x = y := by
  have hx : ∃ y, M x y := ⟨y, h⟩
  unfold mateOf
  rw [dif_pos hx]
  exact hf x _ _ (Classical.choose_spec hx) h

theorem Mated.renamed (h : Mated M a b) {n n' : NetGraph} (h1 : n.g.nodes = a.net.g.nodes ∧ n.data = a.net.data)
    (h2 : n'.g.nodes = b.net.g.nodes ∧ n'.data = b.net.data)
    (h3 : ∀ x y x' y', M x y → M x' y' → annots n' y y' = annots n x x') : Renamed (mateOf M) n n' := by
  have hs : ∀ x ∈ n.g.nodes, M x (mateOf M x) := by
    intro x hx
    obtain ⟨y, hy⟩ := h.left x (h1.1 ▸ hx)
    rw [mateOf_spec h.func hy]; exact hy
  refine ⟨fun x hx => h2.1 ▸ (h.into _ _ (hs x hx)).2, fun y hy => ?_, fun x hx y hy e => ?_, fun x hx => ?_,
    fun x hx y hy => h3 _ _ _ _ (hs x hx) (hs y hy)⟩
  · obtain ⟨x, hx⟩ := h.right y (h2.1 ▸ hy)
    exact ⟨x, h1.1 ▸ (h.into _ _ hx).1, mateOf_spec h.func hx⟩
  · exact h.inj _ _ _ (hs x hx) (e ▸ hs y hy)
  · rw [h1.2, h2.2]; exact h.data _ _ (hs x hx)

end Verif.Proofs
