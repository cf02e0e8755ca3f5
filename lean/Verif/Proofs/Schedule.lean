import Verif.Spec.Schedule
import Verif.Proofs.ScheduleNet
import Verif.Proofs.ScheduleMaps

/-!
The builder while the operations of several blocks are done in some order, compared with the builders on
which each block alone does its operations.
-/
namespace Verif.Proofs
open Verif.Model Verif.Spec Verif.Props

theorem upd_self {α : Type} (f : Nat → α) (w : Nat) : upd f w (f w) = f := by
  funext v; by_cases h : v = w
  · subst h; rw [upd_same]
  · rw [upd_ne _ _ h]

theorem upd_all {α : Type} {P : α → Prop} {f : Nat → α} {w : Nat} {a : α} (v : Nat) (h1 : v ≠ w → P (f v))
    (h2 : P a) : P (upd f w a v) := by
  by_cases hv : v = w
  · subst hv; rw [upd_same]; exact h2
  · rw [upd_ne _ _ hv]; exact h1 hv

/-! ### Lists -/

theorem Rw.filterMap {α β γ δ : Type} {R : α → β → Prop} {Q : γ → δ → Prop} {f : α → Option γ}
    {g : β → Option δ} {l : List α} {l' : List β} (h : Rw R l l')
    (hfg : ∀ a b, R a b → (f a = none ∧ g b = none) ∨ ∃ c d, f a = some c ∧ g b = some d ∧ Q c d) :
    Rw Q (l.filterMap f) (l'.filterMap g) := by
  induction l generalizing l' with
  | nil =>
    have : l' = [] := List.length_eq_zero_iff.1 h.1.symm
    subst this; exact Rw.nil
  | cons a l ih =>
    obtain ⟨b, l', rfl, hab, ht⟩ := h.inv
    rcases hfg a b hab with ⟨h1, h2⟩ | ⟨c, d, h1, h2, h3⟩
    · rw [List.filterMap_cons_none h1, List.filterMap_cons_none h2]; exact ih ht
    · rw [List.filterMap_cons_some h1, List.filterMap_cons_some h2]; exact Rw.cons h3 (ih ht)

theorem Rw.flatMap {α β γ δ : Type} {R : α → β → Prop} {Q : γ → δ → Prop} {f : α → List γ}
    {g : β → List δ} {l : List α} {l' : List β} (h : Rw R l l') (hfg : ∀ a b, R a b → Rw Q (f a) (g b)) :
    Rw Q (l.flatMap f) (l'.flatMap g) := by
  induction l generalizing l' with
  | nil =>
    have : l' = [] := List.length_eq_zero_iff.1 h.1.symm
    subst this; exact Rw.nil
  | cons a l ih =>
    obtain ⟨b, l', rfl, hab, ht⟩ := h.inv
    rw [List.flatMap_cons, List.flatMap_cons]
    exact (hfg a b hab).append (ih ht)

theorem Rw.self {α : Type} (l : List α) : Rw (fun a b => b = a ∧ a ∈ l) l l :=
  ⟨rfl, fun i a b ha hb => by rw [ha] at hb; cases hb; exact ⟨rfl, List.mem_of_getElem? ha⟩⟩

theorem Rw.mem_right {α β : Type} {R : α → β → Prop} {l : List α} {l' : List β} (h : Rw R l l') {b : β}
    (hb : b ∈ l') : ∃ a ∈ l, R a b := by
  obtain ⟨i, hi⟩ := List.getElem?_of_mem hb
  rcases h.get i with ⟨_, h2⟩ | ⟨a, c, h1, h2, h3⟩
  · rw [hi] at h2; cases h2
  · rw [hi] at h2; cases h2; exact ⟨a, List.mem_of_getElem? h1, h3⟩

theorem Rw.mem_left {α β : Type} {R : α → β → Prop} {l : List α} {l' : List β} (h : Rw R l l') {a : α}
    (ha : a ∈ l) : ∃ b ∈ l', R a b := by
  obtain ⟨i, hi⟩ := List.getElem?_of_mem ha
  rcases h.get i with ⟨h2, _⟩ | ⟨c, b, h1, h2, h3⟩
  · rw [hi] at h2; cases h2
  · rw [hi] at h1; cases h1; exact ⟨b, List.mem_of_getElem? h2, h3⟩

theorem Rw.head {α β : Type} {R : α → β → Prop} {l : List α} {l' : List β} (h : Rw R l l') :
    (l.head? = none ∧ l'.head? = none) ∨ ∃ a b, l.head? = some a ∧ l'.head? = some b ∧ R a b := by
  rw [List.head?_eq_getElem?, List.head?_eq_getElem?]
  exact h.get 0

/-! ### Drivers by position -/

/-- The nodes at the same position of two lists, or no nodes. -/
def PosC (E env : List Nat) (o o' : Option Nat) : Prop :=
  (o = none ∧ o' = none) ∨ ∃ i p x : Nat, E[i]? = some p ∧ env[i]? = some x ∧ o = some p ∧ o' = some x

theorem ownNode_rel {E env : List Nat} (hl : env.length = E.length) (a : Option Nat) :
    (ownNode E a = none ∧ ownNode env a = none) ∨
      ∃ o o', ownNode E a = some o ∧ ownNode env a = some o' ∧ PosC E env o o' := by
  cases a with
  | none => exact Or.inr ⟨none, none, rfl, rfl, Or.inl ⟨rfl, rfl⟩⟩
  | some i =>
    by_cases hi : i < E.length
    · have h1 := List.getElem?_eq_getElem hi
      have h2 := List.getElem?_eq_getElem (l := env) (i := i) (by omega)
      exact Or.inr ⟨_, _, by simp only [ownNode, h1, Option.map_some], by simp only [ownNode, h2, Option.map_some],
        Or.inr ⟨i, _, _, h1, h2, rfl, rfl⟩⟩
    · have h1 := List.getElem?_eq_none (l := E) (i := i) (by omega)
      have h2 := List.getElem?_eq_none (l := env) (i := i) (by omega)
      exact Or.inl ⟨by simp only [ownNode, h1, Option.map_none], by simp only [ownNode, h2, Option.map_none]⟩

/-- Corresponding drivers. -/
def DrvC (E env : List Nat) (l : List DriverInfo) (a b : DriverInfo) : Prop :=
  b.lsp = a.lsp ∧ PosC E env a.node b.node ∧ ∃ d ∈ l, d.lsp = a.lsp

theorem driversOf_rel {E env : List Nat} (hl : env.length = E.length) (l : List DriverInfo) :
    (driversOf E l = none ∧ driversOf env l = none) ∨
      ∃ p x, driversOf E l = some p ∧ driversOf env l = some x ∧ Rw (DrvC E env l) p x := by
  induction l with
  | nil => exact Or.inr ⟨[], [], rfl, rfl, Rw.nil⟩
  | cons d l ih =>
    rcases ownNode_rel hl d.node with ⟨h1, h2⟩ | ⟨o, o', h1, h2, h3⟩
    · exact Or.inl ⟨by simp only [driversOf, h1], by simp only [driversOf, h2]⟩
    · rcases ih with ⟨h4, h5⟩ | ⟨p, x, h4, h5, h6⟩
      · exact Or.inl ⟨by simp only [driversOf, h1, h4], by simp only [driversOf, h2, h5]⟩
      · refine Or.inr ⟨_, _, driversOf_mk h1 h4, driversOf_mk h2 h5, ?_⟩
        refine Rw.cons ⟨rfl, h3, d, by simp, rfl⟩ (h6.mono ?_)
        rintro a b ⟨q1, q2, e, he, q3⟩
        exact ⟨q1, q2, e, by simp [he], q3⟩

/-! ### The invariant -/

/-- What a queue asks for a node. -/
def askedBy (q : List Pending) (t : Nat) : List (Nat × BitRange × EdgeKind) :=
  q.filterMap fun p => if p.node = some t then some (p.sym, p.bounds, p.kind) else none

/-- The intervals in the driver maps at the beginning. -/
def BaseView (s : Bld) (y : Nat) (b : BitRange) (l : List DriverInfo) : Prop :=
  ∃ i m, (y, i) ∈ s.trk.slots ∧ s.drv[i]? = some m ∧ Stored m b l

/-- The intervals in the driver maps after the operations `done` of the blocks in `P`. -/
def driveView (s : Bld) (done : Nat → List BAct) (envs : Nat → List Nat) (P : Nat → Prop) (y : Nat)
    (b : BitRange) (l : List DriverInfo) : Prop :=
  BaseView s y b l ∨ ∃ w, P w ∧ ∃ c m, BAct.drive y c m ∈ done w ∧ b = ascRange c ∧
    driversOf (envs w) m = some l

/-- The builder of all blocks and the builders of the blocks alone, after the operations `done`. -/
structure MixInv (s0 : Bld) (as done : Nat → List BAct) (s : Bld) (envs : Nat → List Nat) (S : Nat → Bld)
    (E : Nat → List Nat) : Prop where
  g : GInv s0.net s.net envs (fun w => (S w).net) E
  vin : ∀ sym, ∀ e ∈ s.vars sym, e.val ∈ s.net.g.nodes
  svin : ∀ w sym, ∀ e ∈ (S w).vars sym, e.val ∈ (S w).net.g.nodes
  vsort : VarSorted s.vars
  svsort : ∀ w, VarSorted (S w).vars
  v1 : ∀ sym, NoReg as sym → s.vars sym = s0.vars sym
  sv1 : ∀ w sym, NoReg as sym → (S w).vars sym = s0.vars sym
  v2 : ∀ w sym c, (∀ v b i, v ≠ w → BAct.reg sym b i ∈ as v → ascRange b ≠ c) →
    Rw (Corr s0.net.g.nextNode (E w) (envs w)) (varCell (S w).vars sym c) (varCell s.vars sym c)
  qin : ∀ p ∈ s.queue, ∀ t, p.node = some t → t ∈ s.net.g.nodes
  sqin : ∀ w, ∀ p ∈ (S w).queue, ∀ t, p.node = some t → t ∈ (S w).net.g.nodes
  q : ∀ w p x, Corr s0.net.g.nextNode (E w) (envs w) p x → askedBy s.queue x = askedBy (S w).queue p
  dd : ∀ w y b l, BAct.drive y b l ∈ done w → ∃ l', driversOf (envs w) l = some l'
  d : DrvView s.trk s.drv (driveView s0 done envs fun _ => True)
  sd : ∀ w, DrvView (S w).trk (S w).drv (driveView s0 done E (· = w))

variable {s0 s : Bld} {as done : Nat → List BAct} {envs E : Nat → List Nat} {S : Nat → Bld}

theorem nets_upd (S : Nat → Bld) (w : Nat) (s' : Bld) :
    (fun v => (upd S w s' v).net) = upd (fun v => (S v).net) w s'.net := by
  funext v; by_cases h : v = w
  · subst h; simp only [upd_same]
  · simp only [upd_ne _ _ h]

/-- Only the graph changes, and only in its edges. -/
theorem MixInv.net (h : MixInv s0 as done s envs S E) (w : Nat) {n' m' : NetGraph}
    (hg : GInv s0.net n' envs (upd (fun v => (S v).net) w m') E) (hn : n'.g.nodes = s.net.g.nodes)
    (hm : m'.g.nodes = (S w).net.g.nodes) :
    MixInv s0 as done { s with net := n' } envs (upd S w { S w with net := m' }) E := by
  refine ⟨by rw [nets_upd]; exact hg, fun sym e he => hn ▸ h.vin sym e he, fun v => ?_, h.vsort, fun v => ?_,
    h.v1, fun v => ?_, fun v => ?_, fun p hp t ht => hn ▸ h.qin p hp t ht, fun v => ?_, fun v => ?_, h.dd, h.d,
    fun v => ?_⟩
  · exact upd_all (P := fun B : Bld => ∀ sym, ∀ e ∈ B.vars sym, e.val ∈ B.net.g.nodes) v (fun _ => h.svin v)
      (fun sym e he => hm ▸ h.svin w sym e he)
  · exact upd_all (P := fun B : Bld => VarSorted B.vars) v (fun _ => h.svsort v) (h.svsort w)
  · exact upd_all (P := fun B : Bld => ∀ sym, NoReg as sym → B.vars sym = s0.vars sym) v (fun _ => h.sv1 v)
      (h.sv1 w)
  · by_cases hv : v = w
    · subst hv; rw [upd_same]; exact h.v2 v
    · rw [upd_ne _ _ hv]; exact h.v2 v
  · exact upd_all (P := fun B : Bld => ∀ p ∈ B.queue, ∀ t, p.node = some t → t ∈ B.net.g.nodes) v
      (fun _ => h.sqin v) (fun p hp t ht => hm ▸ h.sqin w p hp t ht)
  · by_cases hv : v = w
    · subst hv; rw [upd_same]; exact h.q v
    · rw [upd_ne _ _ hv]; exact h.q v
  · by_cases hv : v = w
    · subst hv; rw [upd_same]; exact h.sd v
    · rw [upd_ne _ _ hv]; exact h.sd v

/-- Corresponding dependencies between nodes of the graphs. -/
def DepM (s0 s S : Bld) (E env : List Nat) (d d' : Dep) : Prop :=
  DepC s0.net.g.nextNode E env d d' ∧ (d.src ∈ S.net.g.nodes ∧ d.tgt ∈ S.net.g.nodes) ∧
    (d'.src ∈ s.net.g.nodes ∧ d'.tgt ∈ s.net.g.nodes)

theorem MixInv.deps (h : MixInv s0 as done s envs S E) (w : Nat) {ds ds' : List Dep}
    (hr : Rw (DepM s0 s (S w) (E w) (envs w)) ds ds') :
    ∃ s' S', s.addDeps ds' = .ok s' ∧ (S w).addDeps ds = .ok S' ∧ MixInv s0 as done s' envs (upd S w S') E := by
  have h1 : ∀ d ∈ ds, d.src ∈ (S w).net.g.nodes ∧ d.tgt ∈ (S w).net.g.nodes := fun d hd => by
    obtain ⟨_, _, hx⟩ := hr.mem_left hd; exact hx.2.1
  have h2 : ∀ d ∈ ds', d.src ∈ s.net.g.nodes ∧ d.tgt ∈ s.net.g.nodes := fun d hd => by
    obtain ⟨_, _, hx⟩ := hr.mem_right hd; exact hx.2.2
  obtain ⟨n', m', a1, a2, a3⟩ := h.g.deps w (hr.mono fun _ _ hx => hx.1) h1 h2
  obtain ⟨n1, b1, _, _, b2, _⟩ := addDependencies_spec h.g.reach h2
  obtain ⟨m1, c1, _, _, c2, _⟩ := addDependencies_spec (h.g.sreach w) h1
  rw [a1] at b1
  rw [a2] at c1
  cases b1
  cases c1
  exact ⟨_, _, by simp only [Bld.addDeps, a1], by simp only [Bld.addDeps, a2], h.net w a3 b2 c2⟩

theorem MixInv.edge (h : MixInv s0 as done s envs S E) (w : Nat) {i j a b x y : Nat} (ha : (E w)[i]? = some a)
    (hb : (E w)[j]? = some b) (hx : (envs w)[i]? = some x) (hy : (envs w)[j]? = some y) :
    ∃ n' m', s.net.call (.addEdge x y) = some n' ∧ (S w).net.call (.addEdge a b) = some m' ∧
      MixInv s0 as done { s with net := n' } envs (upd S w { S w with net := m' }) E := by
  obtain ⟨n', m', a1, a2, a3⟩ := h.g.edge w ha hb hx hy
  obtain ⟨n1, b1, _, _, b2, _⟩ := addEdge_spec h.g.reach (h.g.own w x (List.mem_of_getElem? hx)).1
    (h.g.own w y (List.mem_of_getElem? hy)).1
  obtain ⟨m1, c1, _, _, c2, _⟩ := addEdge_spec (h.g.sreach w) (h.g.sown w a (List.mem_of_getElem? ha)).1
    (h.g.sown w b (List.mem_of_getElem? hb)).1
  rw [a1] at b1
  rw [a2] at c1
  cases b1
  cases c1
  exact ⟨n', m', a1, a2, h.net w a3 b2 c2⟩

theorem corr_upd {N w v p x : Nat} {E envs : Nat → List Nat} {ps xs : List Nat}
    (hl : (envs w).length = (E w).length) (h : Corr N (E v) (envs v) p x) :
    Corr N (upd E w (E w ++ ps) v) (upd envs w (envs w ++ xs) v) p x := by
  by_cases hv : v = w
  · subst hv; rw [upd_same, upd_same]; exact h.mono ps xs hl
  · rw [upd_ne _ _ hv, upd_ne _ _ hv]; exact h

theorem view_upd {P : Nat → Prop} (h : ∀ w y b l, BAct.drive y b l ∈ done w → ∃ l', driversOf (envs w) l = some l')
    (w : Nat) (xs : List Nat) (y : Nat) (b : BitRange) (l : List DriverInfo) :
    driveView s0 done (upd envs w (envs w ++ xs)) P y b l ↔ driveView s0 done envs P y b l := by
  have key : ∀ v c m, BAct.drive y c m ∈ done v →
      (driversOf (upd envs w (envs w ++ xs) v) m = some l ↔ driversOf (envs v) m = some l) := by
    intro v c m hm
    by_cases hv : v = w
    · subst hv
      rw [upd_same]
      obtain ⟨l', hl'⟩ := h v y c m hm
      rw [driversOf_mono xs hl', hl']
    · rw [upd_ne _ _ hv]
  unfold driveView
  constructor
  · rintro (hb | ⟨v, hp, c, m, h1, h2, h3⟩)
    · exact Or.inl hb
    · exact Or.inr ⟨v, hp, c, m, h1, h2, (key v c m h1).1 h3⟩
  · rintro (hb | ⟨v, hp, c, m, h1, h2, h3⟩)
    · exact Or.inl hb
    · exact Or.inr ⟨v, hp, c, m, h1, h2, (key v c m h1).2 h3⟩

theorem MixInv.sdd (h : MixInv s0 as done s envs S E) :
    ∀ w y b l, BAct.drive y b l ∈ done w → ∃ l', driversOf (E w) l = some l' := by
  intro w y b l hm
  obtain ⟨l', hl'⟩ := h.dd w y b l hm
  rcases driversOf_rel (h.g.len w) l with ⟨_, h2⟩ | ⟨p, x, h1, _⟩
  · rw [hl'] at h2; cases h2
  · exact ⟨p, h1⟩

theorem askedBy_none {q : List Pending} {t : Nat} (h : ∀ p ∈ q, p.node ≠ some t) : askedBy q t = [] := by
  unfold askedBy
  rw [List.filterMap_eq_nil_iff]
  intro p hp
  rw [if_neg (h p hp)]

/-- A new node. -/
theorem MixInv.node (h : MixInv s0 as done s envs S E) (w : Nat) (d : NodeData) {n' m' : NetGraph}
    (h1 : s.net.call (.addNode d) = some n') (h2 : (S w).net.call (.addNode d) = some m') :
    MixInv s0 as done { s with net := n' } (upd envs w (envs w ++ [s.net.g.nextNode]))
      (upd S w { S w with net := m' }) (upd E w (E w ++ [(S w).net.g.nextNode])) := by
  have hg := h.g.node w d h1 h2
  obtain ⟨n1, a1, _, a3, a4, _⟩ := newNode_spec h.g.reach d
  obtain ⟨m1, b1, _, b3, b4, _⟩ := newNode_spec (h.g.sreach w) d
  rw [h1] at a1
  rw [h2] at b1
  cases a1
  cases b1
  have hn : ∀ x ∈ s.net.g.nodes, x ∈ n'.g.nodes := fun x hx => a3 ▸ List.mem_append_left _ hx
  have hm : ∀ x ∈ (S w).net.g.nodes, x ∈ m'.g.nodes := fun x hx => b3 ▸ List.mem_append_left _ hx
  refine ⟨by rw [nets_upd]; exact hg, fun sym e he => hn _ (h.vin sym e he), fun v => ?_, h.vsort, fun v => ?_,
    h.v1, fun v => ?_, fun v sym c hc => ?_, fun p hp t ht => hn _ (h.qin p hp t ht), fun v => ?_,
    fun v p x hx => ?_, fun v y b l hd => ?_, ?_, fun v => ?_⟩
  · exact upd_all (P := fun B : Bld => ∀ sym, ∀ e ∈ B.vars sym, e.val ∈ B.net.g.nodes) v (fun _ => h.svin v)
      (fun sym e he => hm _ (h.svin w sym e he))
  · exact upd_all (P := fun B : Bld => VarSorted B.vars) v (fun _ => h.svsort v) (h.svsort w)
  · exact upd_all (P := fun B : Bld => ∀ sym, NoReg as sym → B.vars sym = s0.vars sym) v (fun _ => h.sv1 v)
      (h.sv1 w)
  · have := (h.v2 v sym c hc).mono fun p x hx => corr_upd (ps := [(S w).net.g.nextNode])
      (xs := [s.net.g.nextNode]) (h.g.len w) hx
    by_cases hv : v = w
    · subst hv; rw [upd_same (f := S)]; exact this
    · rw [upd_ne S _ hv]; exact this
  · exact upd_all (P := fun B : Bld => ∀ p ∈ B.queue, ∀ t, p.node = some t → t ∈ B.net.g.nodes) v
      (fun _ => h.sqin v) (fun p hp t ht => hm _ (h.sqin w p hp t ht))
  · by_cases hv : v = w
    · subst hv
      simp only [upd_same] at hx ⊢
      rcases hx with hx | ⟨i, c1, c2⟩
      · exact h.q v p x (Or.inl hx)
      · by_cases hi : i < (E v).length
        · rw [List.getElem?_append_left hi] at c1
          rw [List.getElem?_append_left (by rw [h.g.len]; exact hi)] at c2
          exact h.q v p x (Or.inr ⟨i, c1, c2⟩)
        · have hi' : i = (E v).length := by
            have := (List.getElem?_eq_some_iff.1 c1).1
            simp at this; omega
          subst hi'
          rw [← h.g.len] at c2
          simp at c1 c2
          subst c1
          subst c2
          rw [askedBy_none fun p hp e => a4 (h.qin p hp _ e), askedBy_none fun p hp e => b4 (h.sqin v p hp _ e)]
    · rw [upd_ne _ _ hv, upd_ne _ _ hv] at hx
      rw [upd_ne _ _ hv]
      exact h.q v p x hx
  · obtain ⟨l', hl'⟩ := h.dd v y b l hd
    by_cases hv : v = w
    · subst hv; rw [upd_same]; exact ⟨l', driversOf_mono _ hl'⟩
    · rw [upd_ne _ _ hv]; exact ⟨l', hl'⟩
  · exact h.d.congr (view_upd h.dd w _)
  · by_cases hv : v = w
    · subst hv; rw [upd_same]; exact (h.sd v).congr (view_upd h.sdd v _)
    · rw [upd_ne _ _ hv]; exact (h.sd v).congr (view_upd h.sdd w _)

/-- A node of the block becomes a variable node. -/
theorem MixInv.vars (h : MixInv s0 as done s envs S E) (w : Nat) {sym : Nat} {b : BitRange} {i p x : Nat}
    (hreg : BAct.reg sym b i ∈ as w) (hp : (E w)[i]? = some p) (hx : (envs w)[i]? = some x) :
    MixInv s0 as done { s with vars := s.vars.insert sym b x } envs
      (upd S w { S w with vars := (S w).vars.insert sym b p }) E := by
  have hin : ∀ (t : VarTab) (n : Nat) (N : List Nat), (∀ y, ∀ e ∈ t y, e.val ∈ N) → n ∈ N →
      ∀ y, ∀ e ∈ t.insert sym b n y, e.val ∈ N := by
    intro t n N ht hn y e he
    unfold VarTab.insert at he
    split at he
    · rcases imInsert_mem.1 he with rfl | he
      · exact hn
      · exact ht _ e he
    · exact ht y e he
  have hno : ∀ (t : VarTab) (n y : Nat), NoReg as y → t.insert sym b n y = t y := by
    intro t n y hy
    unfold VarTab.insert
    rw [if_neg]
    rintro rfl
    exact hy w b i hreg
  refine ⟨by rw [nets_upd, upd_self (fun v => (S v).net)]; exact h.g,
    hin _ _ _ h.vin (h.g.own w x (List.mem_of_getElem? hx)).1, fun v => ?_, varSorted_insert h.vsort _ _ _,
    fun v => ?_, fun y hy => (hno _ _ y hy).trans (h.v1 y hy), fun v => ?_, fun v y c hc => ?_, h.qin,
    fun v => ?_, fun v => ?_, h.dd, h.d, fun v => ?_⟩
  · exact upd_all (P := fun B : Bld => ∀ sym, ∀ e ∈ B.vars sym, e.val ∈ B.net.g.nodes) v (fun _ => h.svin v)
      (hin _ _ _ (h.svin w) (h.g.sown w p (List.mem_of_getElem? hp)).1)
  · exact upd_all (P := fun B : Bld => VarSorted B.vars) v (fun _ => h.svsort v)
      (varSorted_insert (h.svsort w) _ _ _)
  · exact upd_all (P := fun B : Bld => ∀ sym, NoReg as sym → B.vars sym = s0.vars sym) v (fun _ => h.sv1 v)
      (fun y hy => (hno _ _ y hy).trans (h.sv1 w y hy))
  · by_cases hv : v = w
    · subst hv
      rw [upd_same, varCell_insert h.vsort, varCell_insert (h.svsort v)]
      refine (h.v2 v y c hc).append ?_
      split
      · exact Rw.cons (Or.inr ⟨i, hp, hx⟩) Rw.nil
      · exact Rw.nil
    · rw [upd_ne _ _ hv, varCell_insert h.vsort, if_neg, List.append_nil]
      · exact h.v2 v y c hc
      · rintro ⟨rfl, rfl⟩
        exact hc w b i (fun e => hv e.symm) hreg rfl
  · exact upd_all (P := fun B : Bld => ∀ p ∈ B.queue, ∀ t, p.node = some t → t ∈ B.net.g.nodes) v
      (fun _ => h.sqin v) (h.sqin w)
  · by_cases hv : v = w
    · subst hv; rw [upd_same]; exact h.q v
    · rw [upd_ne _ _ hv]; exact h.q v
  · by_cases hv : v = w
    · subst hv; rw [upd_same]; exact h.sd v
    · rw [upd_ne _ _ hv]; exact h.sd v

theorem askedBy_append (q : List Pending) (p : Pending) (t : Nat) :
    askedBy (q ++ [p]) t = askedBy q t ++ if p.node = some t then [(p.sym, p.bounds, p.kind)] else [] := by
  unfold askedBy
  rw [List.filterMap_append]
  congr 1
  by_cases h : p.node = some t <;> simp [h]

/-- A pending read of a node of the block. -/
theorem MixInv.queue (h : MixInv s0 as done s envs S E) (w : Nat) {sym : Nat} {b : BitRange} {k : EdgeKind}
    {o o' : Option Nat} (hc : PosC (E w) (envs w) o o') :
    MixInv s0 as done { s with queue := s.queue ++ [⟨sym, b, o', k⟩] } envs
      (upd S w { S w with queue := (S w).queue ++ [⟨sym, b, o, k⟩] }) E := by
  have hx : ∀ t, o' = some t → t ∈ envs w := by
    intro t ht
    rcases hc with ⟨_, h2⟩ | ⟨i, p, x, _, h2, _, h4⟩
    · rw [h2] at ht; cases ht
    · rw [h4] at ht; cases ht; exact List.mem_of_getElem? h2
  have hp : ∀ t, o = some t → t ∈ E w := by
    intro t ht
    rcases hc with ⟨h2, _⟩ | ⟨i, p, x, h2, _, h4, _⟩
    · rw [h2] at ht; cases ht
    · rw [h4] at ht; cases ht; exact List.mem_of_getElem? h2
  refine ⟨by rw [nets_upd, upd_self (fun v => (S v).net)]; exact h.g, h.vin, fun v => ?_, h.vsort, fun v => ?_,
    h.v1, fun v => ?_, fun v => ?_, ?_, fun v => ?_, fun v p x hcx => ?_, h.dd, h.d, fun v => ?_⟩
  · exact upd_all (P := fun B : Bld => ∀ sym, ∀ e ∈ B.vars sym, e.val ∈ B.net.g.nodes) v (fun _ => h.svin v)
      (h.svin w)
  · exact upd_all (P := fun B : Bld => VarSorted B.vars) v (fun _ => h.svsort v) (h.svsort w)
  · exact upd_all (P := fun B : Bld => ∀ sym, NoReg as sym → B.vars sym = s0.vars sym) v (fun _ => h.sv1 v)
      (h.sv1 w)
  · by_cases hv : v = w
    · subst hv; rw [upd_same]; exact h.v2 v
    · rw [upd_ne _ _ hv]; exact h.v2 v
  · intro e he t ht
    rcases List.mem_append.1 he with he | he
    · exact h.qin e he t ht
    · rw [List.mem_singleton.1 he] at ht
      exact (h.g.own w t (hx t ht)).1
  · refine upd_all (P := fun B : Bld => ∀ p ∈ B.queue, ∀ t, p.node = some t → t ∈ B.net.g.nodes) v
      (fun _ => h.sqin v) ?_
    intro e he t ht
    rcases List.mem_append.1 he with he | he
    · exact h.sqin w e he t ht
    · rw [List.mem_singleton.1 he] at ht
      exact (h.g.sown w t (hp t ht)).1
  · rw [askedBy_append]
    by_cases hv : v = w
    · subst hv
      rw [upd_same, askedBy_append, h.q v p x hcx]
      congr 1
      rcases hc with ⟨h1, h2⟩ | ⟨i, p', x', h1, h2, h3, h4⟩
      · rw [h1, h2]; rfl
      · rw [h3, h4]
        have : some x' = some x ↔ some p' = some p := by
          simp only [Option.some.injEq]
          constructor
          · rintro rfl; exact h.g.corr_inj (Or.inr ⟨i, h1, h2⟩) hcx
          · rintro rfl; exact h.g.corr_fun (Or.inr ⟨i, h1, h2⟩) hcx
        simp only [this]
    · rw [upd_ne _ _ hv, if_neg, List.append_nil]
      · exact h.q v p x hcx
      · intro e
        have h1 := hx x e
        rcases hcx.of with h2 | h2
        · have := (h.g.own w x h1).2; omega
        · exact hv (h.g.disj v w x h2 h1)
  · by_cases hv : v = w
    · subst hv; rw [upd_same]; exact h.sd v
    · rw [upd_ne _ _ hv]; exact h.sd v

/-- An operation that records no drivers is done. -/
theorem MixInv.did (h : MixInv s0 as done s envs S E) (w : Nat) {a : BAct} (ha : ∀ y b l, a ≠ .drive y b l) :
    MixInv s0 as (upd done w (done w ++ [a])) s envs S E := by
  have hm : ∀ v y b l, BAct.drive y b l ∈ upd done w (done w ++ [a]) v ↔ BAct.drive y b l ∈ done v := by
    intro v y b l
    by_cases hv : v = w
    · subst hv
      rw [upd_same, List.mem_append, List.mem_singleton]
      exact ⟨fun h => h.resolve_right fun e => ha y b l e.symm, Or.inl⟩
    · rw [upd_ne _ _ hv]
  refine ⟨h.g, h.vin, h.svin, h.vsort, h.svsort, h.v1, h.sv1, h.v2, h.qin, h.sqin, h.q,
    fun v y b l hd => h.dd v y b l ((hm v y b l).1 hd), h.d.congr ?_, fun v => (h.sd v).congr ?_⟩
  · intro y b l; simp only [driveView, hm]
  · intro y b l; simp only [driveView, hm]

theorem noCommon_apart {a b : BitRange} (h : NoCommonBit a b) : a.upper < b.lower ∨ b.upper < a.lower := by
  refine Classical.byContradiction fun hn => ?_
  have h1 := lower_le a
  have h2 := lower_le b
  by_cases hc : a.lower ≤ b.lower
  · exact h b.lower ((inRng_iff a _).2 (by omega)) ((inRng_iff b _).2 (by omega))
  · exact h a.lower ((inRng_iff a _).2 (by omega)) ((inRng_iff b _).2 (by omega))

theorem asc_ne {a b : BitRange} (h : BitsDiffer a b) : ascRange b ≠ a := by
  rintro rfl
  obtain ⟨i, hi⟩ := h
  have := lower_le b
  refine hi ⟨fun h => (inRng_iff b i).2 ?_, fun h => (inRng_iff _ i).2 ?_⟩
  · rw [inRng_iff] at h
    simp only [ascRange, BitRange.lower, BitRange.upper] at h this ⊢
    omega
  · rw [inRng_iff] at h
    simp only [ascRange, BitRange.lower, BitRange.upper] at h this ⊢
    omega

theorem asc_ends (b : BitRange) : (ascRange b).lower = b.lower ∧ (ascRange b).upper = b.upper := by
  have := lower_le b
  simp only [ascRange, BitRange.lower, BitRange.upper] at this ⊢
  omega

/-- A block records drivers. -/
theorem MixInv.drive {D : Design} (hsep : Separate D s0 as) (hb : DrvView s0.trk s0.drv (BaseView s0))
    (h : MixInv s0 as done s envs S E) (w : Nat) {y : Nat} {b : BitRange} {l p x : List DriverInfo}
    {rest : List BAct} (ha : as w = done w ++ .drive y b l :: rest) (hdone : ∀ v, ∃ t, as v = done v ++ t)
    (hp : driversOf (E w) l = some p) (hx : driversOf (envs w) l = some x) :
    ∃ t drv t' drv', s.trk.addDrivers s.drv y ⟨b, x, true⟩ = .ok (t, drv) ∧
      (S w).trk.addDrivers (S w).drv y ⟨b, p, true⟩ = .ok (t', drv') ∧
      MixInv s0 as (upd done w (done w ++ [.drive y b l])) { s with trk := t, drv := drv } envs
        (upd S w { S w with trk := t', drv := drv' }) E := by
  have hmem : BAct.drive y b l ∈ as w := by rw [ha]; simp
  have hrng : -2147483648 ≤ b.lower ∧ b.upper < 2147483647 := by
    have := lower_le b
    exact ⟨(hsep.range w y b l hmem b.lower ((inRng_iff b _).2 (by omega))).1,
      (hsep.range w y b l hmem b.upper ((inRng_iff b _).2 (by omega))).2⟩
  have hbase : ∀ c m, BaseView s0 y c m → c.upper < b.lower ∨ b.upper < c.lower := by
    intro c m hc
    obtain ⟨out, h1, _, h3⟩ := hb.intervals y b
    rw [hsep.before w y b l hmem] at h1
    cases h1
    refine Classical.byContradiction fun hn => ?_
    exact absurd ((h3 c m).2 ⟨hc, by omega, by omega⟩) (by simp)
  have hdis : ∀ v c m, BAct.drive y c m ∈ done v → (ascRange c).upper < b.lower ∨ b.upper < (ascRange c).lower := by
    intro v c m hm
    rw [(asc_ends c).1, (asc_ends c).2]
    apply noCommon_apart
    by_cases hv : v = w
    · subst hv
      have hpw := hsep.own v
      rw [ha] at hpw
      exact (List.pairwise_append.1 hpw).2.2 _ hm _ List.mem_cons_self y c m b l rfl rfl
    · obtain ⟨t, ht⟩ := hdone v
      exact hsep.other v w hv _ (by rw [ht]; exact List.mem_append_left _ hm) _ hmem y c m b l rfl rfl
  have hview : ∀ (en : Nat → List Nat) P c m, driveView s0 done en P y c m → c.upper < b.lower ∨ b.upper < c.lower := by
    rintro en P c m (hc | ⟨v, _, c', m', h1, rfl, _⟩)
    · exact hbase c m hc
    · exact hdis v c' m' h1
  obtain ⟨t, drv, a1, a2⟩ := h.d.add (ds := x) hrng.1 hrng.2 (hview _ _) true
  obtain ⟨t', drv', b1, b2⟩ := (h.sd w).add (ds := p) hrng.1 hrng.2 (hview _ _) true
  have hm : ∀ v z c m, BAct.drive z c m ∈ upd done w (done w ++ [.drive y b l]) v ↔
      BAct.drive z c m ∈ done v ∨ (v = w ∧ z = y ∧ c = b ∧ m = l) := by
    intro v z c m
    by_cases hv : v = w
    · subst hv
      rw [upd_same, List.mem_append, List.mem_singleton]
      simp only [BAct.drive.injEq, true_and]
    · rw [upd_ne _ _ hv]; simp [hv]
  have hnew : ∀ (en : Nat → List Nat) (P : Nat → Prop) (r : List DriverInfo), P w → driversOf (en w) l = some r →
      ∀ z c m, driveView s0 (upd done w (done w ++ [.drive y b l])) en P z c m ↔
        driveView s0 done en P z c m ∨ (z = y ∧ c = ascRange b ∧ m = r) := by
    intro en P r hP hr z c m
    constructor
    · rintro (hc | ⟨v, hv, c', m', h1, rfl, h3⟩)
      · exact Or.inl (Or.inl hc)
      · rcases (hm v z c' m').1 h1 with h1 | ⟨rfl, rfl, rfl, rfl⟩
        · exact Or.inl (Or.inr ⟨v, hv, c', m', h1, rfl, h3⟩)
        · rw [hr] at h3; cases h3; exact Or.inr ⟨rfl, rfl, rfl⟩
    · rintro ((hc | ⟨v, hv, c', m', h1, rfl, h3⟩) | ⟨rfl, rfl, rfl⟩)
      · exact Or.inl hc
      · exact Or.inr ⟨v, hv, c', m', (hm v z c' m').2 (Or.inl h1), rfl, h3⟩
      · exact Or.inr ⟨w, hP, b, l, (hm w z b l).2 (Or.inr ⟨rfl, rfl, rfl, rfl⟩), rfl, hr⟩
  refine ⟨t, drv, t', drv', a1, b1, ?_⟩
  refine ⟨by rw [nets_upd, upd_self (fun v => (S v).net)]; exact h.g, h.vin, fun v => ?_, h.vsort, fun v => ?_,
    h.v1, fun v => ?_, fun v => ?_, h.qin, fun v => ?_, fun v => ?_, ?_,
    a2.congr (hnew envs (fun _ => True) x trivial hx), fun v => ?_⟩
  · exact upd_all (P := fun B : Bld => ∀ sym, ∀ e ∈ B.vars sym, e.val ∈ B.net.g.nodes) v (fun _ => h.svin v)
      (h.svin w)
  · exact upd_all (P := fun B : Bld => VarSorted B.vars) v (fun _ => h.svsort v) (h.svsort w)
  · exact upd_all (P := fun B : Bld => ∀ sym, NoReg as sym → B.vars sym = s0.vars sym) v (fun _ => h.sv1 v)
      (h.sv1 w)
  · by_cases hv : v = w
    · subst hv; rw [upd_same]; exact h.v2 v
    · rw [upd_ne _ _ hv]; exact h.v2 v
  · exact upd_all (P := fun B : Bld => ∀ p ∈ B.queue, ∀ t, p.node = some t → t ∈ B.net.g.nodes) v
      (fun _ => h.sqin v) (h.sqin w)
  · by_cases hv : v = w
    · subst hv; rw [upd_same]; exact h.q v
    · rw [upd_ne _ _ hv]; exact h.q v
  · intro v z c m hd
    rcases (hm v z c m).1 hd with hd | ⟨rfl, rfl, rfl, rfl⟩
    · exact h.dd v z c m hd
    · exact ⟨x, hx⟩
  · by_cases hv : v = w
    · subst hv; rw [upd_same]; exact b2.congr (hnew E (· = v) p rfl hp)
    · rw [upd_ne _ _ hv]
      refine (h.sd v).congr fun z c m => ?_
      constructor
      · rintro (hc | ⟨u, rfl, c', m', h1, h2, h3⟩)
        · exact Or.inl hc
        · rw [upd_ne _ _ hv] at h1; exact Or.inr ⟨u, rfl, c', m', h1, h2, h3⟩
      · rintro (hc | ⟨u, rfl, c', m', h1, h2, h3⟩)
        · exact Or.inl hc
        · exact Or.inr ⟨u, rfl, c', m', by rw [upd_ne _ _ hv]; exact h1, h2, h3⟩

/-! ### Lookups -/

/-- Both builders find the same node, or neither finds one. -/
theorem MixInv.lookup (h : MixInv s0 as done s envs S E) (w : Nat) {sym : Nat} {c : BitRange}
    (hc : ∀ v b i, v ≠ w → BAct.reg sym b i ∈ as v → ascRange b ≠ c) :
    ((S w).vars.lookup sym c = none ∧ s.vars.lookup sym c = none) ∨
      ∃ p x, (S w).vars.lookup sym c = some p ∧ s.vars.lookup sym c = some x ∧
        Corr s0.net.g.nextNode (E w) (envs w) p x ∧ p ∈ (S w).net.g.nodes ∧ x ∈ s.net.g.nodes := by
  rw [lookup_cell, lookup_cell]
  have hin : ∀ (t : VarTab) (N : List Nat), (∀ sym, ∀ e ∈ t sym, e.val ∈ N) → ∀ n ∈ varCell t sym c, n ∈ N := by
    intro t N ht n hn
    obtain ⟨e, he, rfl⟩ := List.mem_map.1 hn
    exact ht sym e (List.mem_filter.1 he).1
  rcases (h.v2 w sym c hc).head with h1 | ⟨p, x, h1, h2, h3⟩
  · exact Or.inl h1
  · exact Or.inr ⟨p, x, h1, h2, h3, hin _ _ (h.svin w) p (List.mem_of_mem_head? h1),
      hin _ _ h.vin x (List.mem_of_mem_head? h2)⟩

theorem noReg_lookup {sym : Nat} (h : NoReg as sym) (w : Nat) (c : BitRange) :
    ∀ v b i, v ≠ w → BAct.reg sym b i ∈ as v → ascRange b ≠ c := fun v b i _ hm => absurd hm (h v b i)

theorem MixInv.pos (h : MixInv s0 as done s envs S E) {w i p x : Nat} (hp : (E w)[i]? = some p)
    (hx : (envs w)[i]? = some x) : Corr s0.net.g.nextNode (E w) (envs w) p x ∧ p ∈ (S w).net.g.nodes ∧
      x ∈ s.net.g.nodes ∧ x ∈ envs w :=
  ⟨Or.inr ⟨i, hp, hx⟩, (h.g.sown w p (List.mem_of_getElem? hp)).1, (h.g.own w x (List.mem_of_getElem? hx)).1,
    List.mem_of_getElem? hx⟩

/-! ### One operation -/

theorem find_congr {α : Type} {f g : α → Bool} {l : List α} (h : ∀ a ∈ l, f a = g a) : l.find? f = l.find? g := by
  induction l with
  | nil => rfl
  | cons a l ih =>
    rw [List.find?_cons, List.find?_cons, h a (by simp), ih fun b hb => h b (by simp [hb])]

/-- The node of a port that is no register. -/
theorem port_same {B : Bld} {z : Nat} (b : BitRange) (hv : B.vars z = s0.vars z)
    (hd : ∀ e ∈ s0.vars z, B.net.data e.val = s0.net.data e.val) : portNodeFor B z b = portNodeFor s0 z b := by
  unfold portNodeFor VarTab.lookup VarTab.lookupAll
  rw [hv]
  rw [find_congr (l := (s0.vars z).map (·.val))]
  intro n hn
  obtain ⟨e, he, rfl⟩ := List.mem_map.1 hn
  rw [hd e he]

theorem port_old {z n : Nat} {b : BitRange} (hv0 : ∀ sym, ∀ e ∈ s0.vars sym, e.val ∈ s0.net.g.nodes)
    (h : portNodeFor s0 z b = some n) : n ∈ s0.net.g.nodes := by
  unfold portNodeFor at h
  split at h
  · rename_i m hm
    cases h
    rw [lookup_cell] at hm
    obtain ⟨e, he, rfl⟩ := List.mem_map.1 (List.mem_of_mem_head? hm)
    exact hv0 z e (List.mem_filter.1 he).1
  · obtain ⟨e, he, rfl⟩ := List.mem_map.1 (List.mem_of_find?_eq_some h)
    exact hv0 z e he

theorem MixInv.ports (h : MixInv s0 as done s envs S E) (hv0 : ∀ sym, ∀ e ∈ s0.vars sym, e.val ∈ s0.net.g.nodes)
    (w : Nat) {z : Nat} (hz : NoReg as z) (b : BitRange) : portNodeFor (S w) z b = portNodeFor s z b ∧
      ∀ n, portNodeFor s z b = some n → n ∈ s0.net.g.nodes := by
  have h1 := port_same (B := s) b (h.v1 z hz) fun e he => h.g.dataB _ (h.g.base _ (hv0 z e he)).2
  have h2 := port_same (B := S w) b (h.sv1 w z hz) fun e he => h.g.sdataB w _ (h.g.base _ (hv0 z e he)).2
  exact ⟨h2.trans h1.symm, fun n hn => port_old hv0 (h1 ▸ hn)⟩

theorem MixInv.old (h : MixInv s0 as done s envs S E) {w n : Nat} (hn : n ∈ s0.net.g.nodes) :
    Corr s0.net.g.nextNode (E w) (envs w) n n ∧ n ∈ (S w).net.g.nodes ∧ n ∈ s.net.g.nodes :=
  ⟨Or.inl ⟨(h.g.base n hn).2, rfl⟩, h.g.sbase w n hn, (h.g.base n hn).1⟩

theorem MixInv.driverDeps (h : MixInv s0 as done s envs S E) (w : Nat) {l p x : List DriverInfo}
    (hr : Rw (DrvC (E w) (envs w) l) p x) {t t' : Nat} (ht : Corr s0.net.g.nextNode (E w) (envs w) t t')
    (h1 : t ∈ (S w).net.g.nodes) (h2 : t' ∈ s.net.g.nodes) (ref : SymRef) (b : BitRange) :
    Rw (DepM s0 s (S w) (E w) (envs w)) (Model.driverDeps p t ref b) (Model.driverDeps x t' ref b) := by
  unfold Model.driverDeps
  refine hr.filterMap ?_
  rintro d d' ⟨_, hc, _⟩
  rcases hc with ⟨h3, h4⟩ | ⟨i, n, n', h3, h4, h5, h6⟩
  · rw [h3, h4]; exact Or.inl ⟨rfl, rfl⟩
  · rw [h5, h6]
    obtain ⟨q1, q2, q3, q4⟩ := h.pos h3 h4
    exact Or.inr ⟨_, _, rfl, rfl, ⟨q1, ht, rfl, rfl, rfl, Or.inl q4⟩, ⟨q2, h1⟩, q3, h2⟩

theorem MixInv.hookDeps {D : Design} (h : MixInv s0 as done s envs S E)
    (hv0 : ∀ sym, ∀ e ∈ s0.vars sym, e.val ∈ s0.net.g.nodes) (w : Nat) {sym : Nat} {b : BitRange}
    {l p x : List DriverInfo} (hr : Rw (DrvC (E w) (envs w) l) p x)
    (hp : ∀ z, D.port sym = some z → NoReg as z) :
    Rw (DepM s0 s (S w) (E w) (envs w)) (hookupDeps D (S w) sym b p) (hookupDeps D s sym b x) := by
  unfold hookupDeps
  cases hq : D.port sym with
  | none => exact Rw.nil
  | some z =>
    dsimp only
    obtain ⟨h1, h2⟩ := h.ports hv0 w (hp z hq) b
    rw [h1]
    cases hn : portNodeFor s z b with
    | none => exact Rw.nil
    | some n =>
      obtain ⟨c1, c2, c3⟩ := h.old (w := w) (h2 n hn)
      exact h.driverDeps w hr c1 c2 c3 _ _

theorem MixInv.modDeps {D : Design} (h : MixInv s0 as done s envs S E) (w : Nat) {r : Ref} {b : BitRange}
    {i p x : Nat} (hp : (E w)[i]? = some p) (hx : (envs w)[i]? = some x)
    (hv : ∀ v ∈ D.iface r.sym r.lsp, NoReg as v.1) :
    Rw (DepM s0 s (S w) (E w) (envs w)) (modportDeps ⟨D, (S w).vars, none⟩ r b p)
      (modportDeps ⟨D, s.vars, none⟩ r b x) := by
  unfold modportDeps
  dsimp only
  refine (Rw.self _).filterMap ?_
  rintro u v ⟨hvu, hm⟩
  subst hvu
  rcases h.lookup w (noReg_lookup (hv _ hm) w v.2) with ⟨h1, h2⟩ | ⟨q, y, h1, h2, h3, h4, h5⟩
  · rw [h1, h2]; exact Or.inl ⟨rfl, rfl⟩
  · rw [h1, h2]
    obtain ⟨q1, q2, q3, q4⟩ := h.pos hp hx
    exact Or.inr ⟨_, _, rfl, rfl, ⟨h3, q1, rfl, rfl, rfl, Or.inr q4⟩, ⟨h4, q2⟩, h5, q3⟩

theorem MixInv.extraDeps {D : Design} (h : MixInv s0 as done s envs S E) (w : Nat) {sym : Nat} {b : BitRange}
    {l p x : List DriverInfo} (hr : Rw (DrvC (E w) (envs w) l) p x)
    (hw : D.kind sym = .modportPort → ∀ d ∈ l, ∀ v ∈ D.iface sym d.lsp, NoReg as v.1)
    (hv : D.kind sym = .variable → ∀ v c i, v ≠ w → BAct.reg sym c i ∈ as v → BitsDiffer b c) :
    Rw (DepM s0 s (S w) (E w) (envs w)) (Model.extraDeps D (S w) sym b p) (Model.extraDeps D s sym b x) := by
  unfold Model.extraDeps
  refine hr.flatMap ?_
  rintro d d' ⟨hl, hc, e, he, hle⟩
  rcases hc with ⟨h3, h4⟩ | ⟨i, n, n', h3, h4, h5, h6⟩
  · rw [h3, h4]; exact Rw.nil
  · rw [h5, h6]
    obtain ⟨q1, q2, q3, q4⟩ := h.pos h3 h4
    dsimp only
    cases hk : D.kind sym with
    | other => exact Rw.nil
    | modportPort =>
      dsimp only
      rw [hl]
      refine (Rw.self _).filterMap ?_
      rintro u v ⟨hvu, hm⟩
      subst hvu
      rcases h.lookup w (noReg_lookup (hw hk e he v (hle ▸ hm)) w v.2) with ⟨h1, h2⟩ | ⟨q, y, h1, h2, h3, h4, h5⟩
      · rw [h1, h2]; exact Or.inl ⟨rfl, rfl⟩
      · rw [h1, h2]
        exact Or.inr ⟨_, _, rfl, rfl, ⟨q1, h3, rfl, rfl, rfl, Or.inl q4⟩, ⟨q2, h4⟩, q3, h5⟩
    | «variable» =>
      dsimp only
      rcases h.lookup (sym := sym) (c := b) w (fun v c i hne hm => asc_ne (hv hk v c i hne hm)) with
        ⟨h1, h2⟩ | ⟨q, y, h1, h2, h3, h4, h5⟩
      · rw [h1, h2]; exact Rw.nil
      · rw [h1, h2]
        dsimp only
        refine Rw.cons ⟨⟨q1, h3, rfl, ?_, rfl, Or.inl q4⟩, ⟨q2, h4⟩, q3, h5⟩ Rw.nil
        dsimp only
        rw [h.g.corr_data h3]

theorem upd_eq {α : Type} (f : Nat → α) (w : Nat) (a : α) :
    upd f w a = fun v => if v = w then a else f v := rfl

/-- One operation does the same to the common builder and to the builder of its block. -/
theorem MixInv.step {D : Design} (hsep : Separate D s0 as) (hb : DrvView s0.trk s0.drv (BaseView s0))
    (hv0 : ∀ sym, ∀ e ∈ s0.vars sym, e.val ∈ s0.net.g.nodes) (h : MixInv s0 as done s envs S E) (w : Nat)
    {a : BAct} {rest : List BAct} (ha : as w = done w ++ a :: rest) (hdone : ∀ v, ∃ t, as v = done v ++ t) :
    ExR (fun p p' => MixInv s0 as (upd done w (done w ++ [a])) p'.1 (upd envs w p'.2) (upd S w p.1)
      (upd E w p.2)) ((S w).act D (E w) a) (s.act D (envs w) a) := by
  have hmem : a ∈ as w := by rw [ha]; simp
  have hlen := h.g.len w
  have hget : ∀ i : Nat, ((E w)[i]? = none ∧ (envs w)[i]? = none) ∨
      ∃ p x, (E w)[i]? = some p ∧ (envs w)[i]? = some x := by
    intro i
    by_cases hi : i < (E w).length
    · exact Or.inr ⟨_, _, List.getElem?_eq_getElem hi, List.getElem?_eq_getElem (by omega)⟩
    · exact Or.inl ⟨List.getElem?_eq_none (by omega), List.getElem?_eq_none (by omega)⟩
  have same : ∀ {s' : Bld} {S' : Bld}, MixInv s0 as (upd done w (done w ++ [a])) s' envs (upd S w S') E →
      MixInv s0 as (upd done w (done w ++ [a])) s' (upd envs w (envs w)) (upd S w S') (upd E w (E w)) := by
    intro s' S' hx; rw [upd_self, upd_self]; exact hx
  cases a with
  | node d =>
    obtain ⟨n', a1, _⟩ := newNode_spec h.g.reach d
    obtain ⟨m', b1, _⟩ := newNode_spec (h.g.sreach w) d
    simp only [Bld.act, a1, b1]
    exact (h.node w d a1 b1).did w (by simp)
  | edge i j =>
    rcases hget i with ⟨h1, h2⟩ | ⟨p, x, h1, h2⟩
    · simp only [Bld.act, h1, h2]; exact rfl
    rcases hget j with ⟨h3, h4⟩ | ⟨q, y, h3, h4⟩
    · simp only [Bld.act, h1, h2, h3, h4]; exact rfl
    obtain ⟨n', m', a1, a2, a3⟩ := h.edge w h1 h3 h2 h4
    simp only [Bld.act, h1, h2, h3, h4, a1, a2]
    exact same (a3.did w (by simp))
  | dep d =>
    rcases hget d.src with ⟨h1, h2⟩ | ⟨p, x, h1, h2⟩
    · simp only [Bld.act, h1, h2]; exact rfl
    rcases hget d.tgt with ⟨h3, h4⟩ | ⟨q, y, h3, h4⟩
    · simp only [Bld.act, h1, h2, h3, h4]; exact rfl
    obtain ⟨q1, q2, q3, q4⟩ := h.pos h1 h2
    obtain ⟨r1, r2, r3, r4⟩ := h.pos h3 h4
    obtain ⟨s', S', a1, a2, a3⟩ := h.deps w (ds := [⟨p, q, d.sym, d.bounds, d.kind⟩])
      (ds' := [⟨x, y, d.sym, d.bounds, d.kind⟩])
      (Rw.cons ⟨⟨q1, r1, rfl, rfl, rfl, Or.inl q4⟩, ⟨q2, r2⟩, q3, r3⟩ Rw.nil)
    simp only [Bld.addDeps, NetGraph.addDependencies] at a1 a2
    simp only [Bld.act, h1, h2, h3, h4]
    cases c1 : s.net.addDependency ⟨x, y, d.sym, d.bounds, d.kind⟩ with
    | none => rw [c1] at a1; cases a1
    | some n' =>
      cases c2 : (S w).net.addDependency ⟨p, q, d.sym, d.bounds, d.kind⟩ with
      | none => rw [c2] at a2; cases a2
      | some m' =>
        rw [c1] at a1
        rw [c2] at a2
        cases a1
        cases a2
        exact same (a3.did w (by simp))
  | read sym b i k =>
    rcases ownNode_rel hlen i with ⟨h1, h2⟩ | ⟨o, o', h1, h2, h3⟩
    · simp only [Bld.act, h1, h2]; exact rfl
    · simp only [Bld.act, h1, h2]
      exact same ((h.queue w h3).did w (by simp))
  | mread r b i =>
    rcases hget i with ⟨h1, h2⟩ | ⟨p, x, h1, h2⟩
    · simp only [Bld.act, h1, h2]; exact rfl
    obtain ⟨s', S', a1, a2, a3⟩ := h.deps w (h.modDeps (b := b) w h1 h2 (hsep.reads w r b i hmem))
    simp only [Bld.act, h1, h2, a1, a2]
    exact same (a3.did w (by simp))
  | drive y b l =>
    rcases driversOf_rel hlen l with ⟨h1, h2⟩ | ⟨p, x, h1, h2, _⟩
    · simp only [Bld.act, h1, h2]; exact rfl
    obtain ⟨t, drv, t', drv', a1, a2, a3⟩ := h.drive hsep hb w ha hdone h1 h2
    simp only [Bld.act, h1, h2, a1, a2]
    exact same a3
  | hook sym b l =>
    rcases driversOf_rel hlen l with ⟨h1, h2⟩ | ⟨p, x, h1, h2, h3⟩
    · simp only [Bld.act, h1, h2]; exact rfl
    obtain ⟨s', S', a1, a2, a3⟩ := h.deps w (h.hookDeps (D := D) (b := b) hv0 w h3
      fun z hz => hsep.ports w sym b l z hmem hz)
    simp only [Bld.act, h1, h2, a1, a2]
    exact same (a3.did w (by simp))
  | extra sym b l =>
    rcases driversOf_rel hlen l with ⟨h1, h2⟩ | ⟨p, x, h1, h2, h3⟩
    · simp only [Bld.act, h1, h2]; exact rfl
    obtain ⟨s', S', a1, a2, a3⟩ := h.deps w (h.extraDeps (D := D) (b := b) w h3
      (hsep.writes w sym b l hmem) (hsep.vars w sym b l hmem))
    simp only [Bld.act, h1, h2, a1, a2]
    exact same (a3.did w (by simp))
  | reg sym b i =>
    rcases hget i with ⟨h1, h2⟩ | ⟨p, x, h1, h2⟩
    · simp only [Bld.act, h1, h2]; exact rfl
    simp only [Bld.act, h1, h2]
    exact same ((h.vars w hmem h1 h2).did w (by simp))
  | fault f => exact rfl

end Verif.Proofs
