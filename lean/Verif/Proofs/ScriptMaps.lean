import Verif.Spec.Script

/-! Helper lemmas for C93: driver maps treat nodes as names, so that maps with corresponding nodes stay
corresponding. -/
namespace Verif.Proofs
open Verif.Spec Verif.Model

/-- Same fault, or corresponding results. -/
def ExR {α β : Type} (R : α → β → Prop) : Except Fault α → Except Fault β → Prop
  | .error f, .error g => f = g
  | .ok a, .ok b => R a b
  | _, _ => False

theorem ExR.bind {α β γ δ : Type} {R : α → β → Prop} {S : γ → δ → Prop} {x : Except Fault α}
    {y : Except Fault β} {f : α → Except Fault γ} {g : β → Except Fault δ} (h : ExR R x y)
    (hf : ∀ a b, R a b → ExR S (f a) (g b)) : ExR S (x >>= f) (y >>= g) := by
  cases x <;> cases y
  · exact h
  · exact h.elim
  · exact h.elim
  · exact hf _ _ h

theorem ExR.refl {α : Type} (x : Except Fault α) : ExR Eq x x := by
  cases x <;> rfl

theorem ExR.pure {α β : Type} {R : α → β → Prop} {a : α} {b : β} (h : R a b) :
    ExR R (Pure.pure a) (Pure.pure b) := h

theorem ExR.mono {α β : Type} {R S : α → β → Prop} {x : Except Fault α} {y : Except Fault β} (h : ExR R x y)
    (hs : ∀ a b, R a b → S a b) : ExR S x y := by
  cases x <;> cases y
  · exact h
  · exact h.elim
  · exact h.elim
  · exact hs _ _ h

/-- Corresponding lists. -/
def Rw {α β : Type} (R : α → β → Prop) (l : List α) (l' : List β) : Prop :=
  l.length = l'.length ∧ ∀ (i : Nat) a b, l[i]? = some a → l'[i]? = some b → R a b

theorem Rw.nil {α β : Type} {R : α → β → Prop} : Rw R [] [] := ⟨rfl, fun i a b h => by simp at h⟩

theorem Rw.cons {α β : Type} {R : α → β → Prop} {a : α} {b : β} {l : List α} {l' : List β} (h : R a b)
    (hl : Rw R l l') : Rw R (a :: l) (b :: l') := by
  refine ⟨by simp [hl.1], ?_⟩
  intro i x y hx hy
  cases i with
  | zero => simp at hx hy; subst hx; subst hy; exact h
  | succ i => simp at hx hy; exact hl.2 i x y hx hy

theorem Rw.inv {α β : Type} {R : α → β → Prop} {a : α} {l : List α} {l' : List β} (h : Rw R (a :: l) l') :
    ∃ b t, l' = b :: t ∧ R a b ∧ Rw R l t := by
  cases l' with
  | nil => exact absurd h.1 (by simp)
  | cons b t =>
    refine ⟨b, t, rfl, h.2 0 a b rfl rfl, by have := h.1; simpa using this, ?_⟩
    intro i x y hx hy
    exact h.2 (i + 1) x y (by simpa using hx) (by simpa using hy)

theorem Rw.append {α β : Type} {R : α → β → Prop} {l m : List α} {l' m' : List β} (h : Rw R l l')
    (hm : Rw R m m') : Rw R (l ++ m) (l' ++ m') := by
  refine ⟨by simp [h.1, hm.1], ?_⟩
  intro i a b ha hb
  by_cases hi : i < l.length
  · rw [List.getElem?_append_left hi] at ha
    rw [List.getElem?_append_left (h.1 ▸ hi)] at hb
    exact h.2 i a b ha hb
  · rw [List.getElem?_append_right (by omega)] at ha
    rw [List.getElem?_append_right (by rw [← h.1]; omega)] at hb
    exact hm.2 _ a b ha (by rw [h.1]; exact hb)

theorem Rw.set {α β : Type} {R : α → β → Prop} {l : List α} {l' : List β} {a : α} {b : β} (h : Rw R l l')
    (hab : R a b) (i : Nat) : Rw R (l.set i a) (l'.set i b) := by
  refine ⟨by simp [h.1], ?_⟩
  intro j x y hx hy
  rw [List.getElem?_set] at hx hy
  by_cases hij : i = j
  · subst hij
    by_cases hi : i < l.length
    · rw [if_pos rfl, if_pos hi] at hx
      rw [if_pos rfl, if_pos (h.1 ▸ hi)] at hy
      cases hx; cases hy; exact hab
    · rw [if_pos rfl, if_neg hi] at hx; cases hx
  · rw [if_neg hij] at hx hy
    exact h.2 j x y hx hy

theorem Rw.get {α β : Type} {R : α → β → Prop} {l : List α} {l' : List β} (h : Rw R l l') (i : Nat) :
    (l[i]? = none ∧ l'[i]? = none) ∨ ∃ a b, l[i]? = some a ∧ l'[i]? = some b ∧ R a b := by
  by_cases hi : i < l.length
  · have hi' : i < l'.length := h.1 ▸ hi
    exact Or.inr ⟨_, _, List.getElem?_eq_getElem hi, List.getElem?_eq_getElem hi',
      h.2 i _ _ (List.getElem?_eq_getElem hi) (List.getElem?_eq_getElem hi')⟩
  · exact Or.inl ⟨List.getElem?_eq_none (by omega), List.getElem?_eq_none (by rw [← h.1]; omega)⟩

theorem Rw.mono {α β : Type} {R S : α → β → Prop} {l : List α} {l' : List β} (h : Rw R l l')
    (hs : ∀ a b, R a b → S a b) : Rw S l l' :=
  ⟨h.1, fun i a b ha hb => hs a b (h.2 i a b ha hb)⟩

/-! ### Nodes and lists of drivers -/

theorem ownNode_mono {env : List Nat} {o o' : Option Nat} (h : ownNode env o = some o') (xs : List Nat) :
    ownNode (env ++ xs) o = some o' := by
  cases o with
  | none => exact h
  | some i =>
    simp only [ownNode, Option.map_eq_some_iff] at h ⊢
    obtain ⟨a, ha, rfl⟩ := h
    have : i < env.length := (List.getElem?_eq_some_iff.1 ha).1
    exact ⟨a, by rw [List.getElem?_append_left this]; exact ha, rfl⟩

theorem driversOf_mono {env : List Nat} (xs : List Nat) {l : List DriverInfo} : ∀ {l' : List DriverInfo},
    driversOf env l = some l' → driversOf (env ++ xs) l = some l' := by
  induction l with
  | nil => intro l' h; exact h
  | cons d ds ih =>
    intro l' h
    simp only [driversOf] at h ⊢
    cases h1 : ownNode env d.node with
    | none => rw [h1] at h; cases h
    | some n =>
      cases h2 : driversOf env ds with
      | none => rw [h1, h2] at h; cases h
      | some t =>
        rw [h1, h2] at h
        rw [ownNode_mono h1 xs, ih h2]
        exact h

theorem ownNode_inj {env : List Nat} (hn : env.Nodup) {o p o' p' : Option Nat} (h : ownNode env o = some o')
    (hp : ownNode env p = some p') : (o == p) = (o' == p') := by
  cases o <;> cases p <;> simp only [ownNode, Option.map_eq_some_iff, Option.some.injEq] at h hp
  · subst h; subst hp; rfl
  · obtain ⟨a, _, rfl⟩ := hp; subst h; rfl
  · obtain ⟨a, _, rfl⟩ := h; subst hp; rfl
  · rename_i i j
    obtain ⟨a, ha, rfl⟩ := h
    obtain ⟨b, hb, rfl⟩ := hp
    rw [Bool.eq_iff_iff]
    simp only [beq_iff_eq, Option.some.injEq]
    constructor
    · intro e; subst e; rw [ha] at hb; cases hb; rfl
    · intro e
      subst e
      have h1 := (List.getElem?_eq_some_iff.1 ha)
      have h2 := (List.getElem?_eq_some_iff.1 hb)
      obtain ⟨h1, e1⟩ := h1
      obtain ⟨h2, e2⟩ := h2
      exact (List.getElem_inj hn).1 (e1.trans e2.symm)

theorem driversOf_cons {env : List Nat} {d : DriverInfo} {ds l' : List DriverInfo}
    (h : driversOf env (d :: ds) = some l') :
    ∃ n t, l' = ⟨n, d.lsp⟩ :: t ∧ ownNode env d.node = some n ∧ driversOf env ds = some t := by
  simp only [driversOf] at h
  cases h1 : ownNode env d.node with
  | none => rw [h1] at h; cases h
  | some n =>
    cases h2 : driversOf env ds with
    | none => rw [h1, h2] at h; cases h
    | some t => rw [h1, h2] at h; cases h; exact ⟨n, t, rfl, rfl, rfl⟩

theorem driversOf_mk {env : List Nat} {d : DriverInfo} {ds t : List DriverInfo} {n : Option Nat}
    (h1 : ownNode env d.node = some n) (h2 : driversOf env ds = some t) :
    driversOf env (d :: ds) = some (⟨n, d.lsp⟩ :: t) := by
  simp only [driversOf, h1, h2]

theorem driversOf_append {env : List Nat} {a b a' b' : List DriverInfo} (ha : driversOf env a = some a')
    (hb : driversOf env b = some b') : driversOf env (a ++ b) = some (a' ++ b') := by
  induction a generalizing a' with
  | nil => cases ha; exact hb
  | cons d ds ih =>
    obtain ⟨n, t, rfl, h1, h2⟩ := driversOf_cons ha
    exact driversOf_mk h1 (ih h2)

theorem driversOf_any {env : List Nat} (hn : env.Nodup) {l l' : List DriverInfo} {o o' : Option Nat}
    (h : driversOf env l = some l') (ho : ownNode env o = some o') :
    l.any (fun x => x.node == o) = l'.any (fun x => x.node == o') := by
  induction l generalizing l' with
  | nil => cases h; rfl
  | cons d ds ih =>
    obtain ⟨n, t, rfl, h1, h2⟩ := driversOf_cons h
    simp only [List.any_cons, ih h2, ownNode_inj hn h1 ho]

theorem driversOf_insert {env : List Nat} (hn : env.Nodup) {l l' : List DriverInfo} {d : DriverInfo}
    {n : Option Nat} (h : driversOf env l = some l') (hd : ownNode env d.node = some n) :
    driversOf env (dlInsert l d) = some (dlInsert l' ⟨n, d.lsp⟩) := by
  unfold dlInsert
  rw [driversOf_any hn h hd]
  dsimp only
  split
  · exact h
  · exact driversOf_append h (driversOf_mk hd rfl)

theorem driversOf_insertAll {env : List Nat} (hn : env.Nodup) {ds : List DriverInfo} :
    ∀ {l l' ds' : List DriverInfo}, driversOf env l = some l' → driversOf env ds = some ds' →
    driversOf env (dlInsertAll l ds) = some (dlInsertAll l' ds') := by
  induction ds with
  | nil => intro l l' ds' h hd; cases hd; exact h
  | cons d ds ih =>
    intro l l' ds' h hd
    obtain ⟨n, t, rfl, h1, h2⟩ := driversOf_cons hd
    exact ih (l' := dlInsert l' ⟨n, d.lsp⟩) (driversOf_insert hn h h1) h2

/-! ### Driver maps -/

/-- Corresponding slots of the list storage. -/
def SlotR (env : List Nat) : Option (List DriverInfo) → Option (List DriverInfo) → Prop
  | none, none => True
  | some l, some l' => driversOf env l = some l'
  | _, _ => False

/-- Corresponding driver maps. -/
structure MapR (env : List Nat) (m m' : DMap) : Prop where
  ivls : m'.ivls = m.ivls
  free : m'.lists.free = m.lists.free
  slots : Rw (SlotR env) m.lists.slots m'.lists.slots

theorem SlotR.mono {env : List Nat} (xs : List Nat) {a b : Option (List DriverInfo)} (h : SlotR env a b) :
    SlotR (env ++ xs) a b := by
  cases a <;> cases b
  · trivial
  · exact h
  · exact h
  · exact driversOf_mono xs h

theorem MapR.mono {env : List Nat} (xs : List Nat) {m m' : DMap} (h : MapR env m m') :
    MapR (env ++ xs) m m' := ⟨h.ivls, h.free, h.slots.mono fun _ _ => SlotR.mono xs⟩

theorem MapR.empty (env : List Nat) : MapR env {} {} := ⟨rfl, rfl, Rw.nil⟩

theorem map_getList {env : List Nat} {m m' : DMap} (h : MapR env m m') (k : Nat) :
    ExR (fun l l' => driversOf env l = some l') (m.getList k) (m'.getList k) := by
  unfold DMap.getList ExtMgr.get
  rcases h.slots.get k with ⟨h1, h2⟩ | ⟨a, b, h1, h2, hr⟩
  · rw [h1, h2]; exact rfl
  · rw [h1, h2]
    cases a <;> cases b
    · exact rfl
    · exact hr.elim
    · exact hr.elim
    · exact hr

theorem map_putList {env : List Nat} {m m' : DMap} {l l' : List DriverInfo} (h : MapR env m m') (k : Nat)
    (hl : driversOf env l = some l') : ExR (MapR env) (m.putList k l) (m'.putList k l') := by
  unfold DMap.putList ExtMgr.put
  rcases h.slots.get k with ⟨h1, h2⟩ | ⟨a, b, h1, h2, hr⟩
  · rw [h1, h2]; exact rfl
  · rw [h1, h2]
    cases a <;> cases b
    · exact rfl
    · exact hr.elim
    · exact hr.elim
    · exact ⟨h.ivls, h.free, h.slots.set (a := some l) (b := some l') hl k⟩

/-- Corresponding maps and equal handles. -/
def MapHR (env : List Nat) (p p' : DMap × Nat) : Prop := MapR env p.1 p'.1 ∧ p'.2 = p.2

theorem map_addList {env : List Nat} {m m' : DMap} {l l' : List DriverInfo} (h : MapR env m m')
    (hl : driversOf env l = some l') : ExR (MapHR env) (m.addList l) (m'.addList l') := by
  unfold DMap.addList ExtMgr.allocate
  rw [h.free]
  have hnil : SlotR env (some []) (some []) := by simp [SlotR, driversOf]
  cases hf : m.lists.free with
  | nil =>
    dsimp only
    have hs : Rw (SlotR env) (m.lists.slots ++ [some []]) (m'.lists.slots ++ [some []]) :=
      h.slots.append (Rw.cons hnil Rw.nil)
    rw [← h.slots.1]
    unfold ExtMgr.put
    dsimp only
    rcases hs.get (m.lists.slots.length % 4294967296) with ⟨h1, h2⟩ | ⟨a, b, h1, h2, hr⟩
    · rw [h1, h2]; exact rfl
    · rw [h1, h2]
      cases a <;> cases b
      · exact rfl
      · exact hr.elim
      · exact hr.elim
      · exact ⟨⟨h.ivls, rfl, hs.set (a := some l) (b := some l') hl _⟩, rfl⟩
  | cons i rest =>
    dsimp only
    rw [← h.slots.1]
    by_cases hi : i < m.lists.slots.length
    · rw [if_pos hi, if_pos hi]
      have hs : Rw (SlotR env) (m.lists.slots.set i (some [])) (m'.lists.slots.set i (some [])) :=
        h.slots.set hnil i
      unfold ExtMgr.put
      dsimp only
      rcases hs.get i with ⟨h1, h2⟩ | ⟨a, b, h1, h2, hr⟩
      · rw [h1, h2]; exact rfl
      · rw [h1, h2]
        cases a <;> cases b
        · exact rfl
        · exact hr.elim
        · exact hr.elim
        · exact ⟨⟨h.ivls, rfl, hs.set (a := some l) (b := some l') hl _⟩, rfl⟩
    · rw [if_neg hi, if_neg hi]; exact rfl

theorem map_insert {env : List Nat} {m m' : DMap} (h : MapR env m m') (lo hi : Int) (k : Nat) :
    MapR env (m.insert lo hi k) (m'.insert lo hi k) :=
  ⟨by simp only [DMap.insert, h.ivls], h.free, h.slots⟩

theorem map_eraseAt {env : List Nat} {m m' : DMap} (h : MapR env m m') (e : Ivl Nat) :
    MapR env (m.eraseAt e) (m'.eraseAt e) :=
  ⟨by simp only [DMap.eraseAt, h.ivls], h.free, h.slots⟩

theorem map_free {env : List Nat} {m m' : DMap} (h : MapR env m m') (k : Nat) :
    ExR (MapR env) (m.freeIfValid k) (m'.freeIfValid k) := by
  unfold DMap.freeIfValid ExtMgr.valid ExtMgr.erase
  rcases h.slots.get k with ⟨h1, h2⟩ | ⟨a, b, h1, h2, hr⟩
  · rw [h1, h2]; exact h
  · rw [h1, h2]
    cases a <;> cases b
    · exact h
    · exact hr.elim
    · exact hr.elim
    · exact ⟨h.ivls, by simp only [h.free], h.slots.set (by trivial) k⟩

/-- Corresponding ends of an iteration. -/
def StepR (env : List Nat) : AddStep → AddStep → Prop
  | .done m, .done m' => MapR env m m'
  | .again m lo, .again m' lo' => MapR env m m' ∧ lo' = lo
  | .skip, .skip => True
  | _, _ => False

theorem ex_ite {α β : Type} {R : α → β → Prop} {c : Prop} [Decidable c] {x y : Except Fault α}
    {x' y' : Except Fault β} (h1 : c → ExR R x x') (h2 : ¬ c → ExR R y y') :
    ExR R (if c then x else y) (if c then x' else y') := by
  by_cases h : c
  · rw [if_pos h, if_pos h]; exact h1 h
  · rw [if_neg h, if_neg h]; exact h2 h

theorem map_split {env : List Nat} (hn : env.Nodup) {m m' : DMap} {ds ds' : List DriverInfo}
    (h : MapR env m m') (hd : driversOf env ds = some ds') (lo hi : Int) (merge : Bool) (e : Ivl Nat) :
    ExR (StepR env) (stepSplit m lo hi ds merge e) (stepSplit m' lo hi ds' merge e) := by
  unfold stepSplit
  dsimp only
  have h2 : MapR env (if e.lo < lo then (m.eraseAt e).insert e.lo (decr32 lo) e.val else m.eraseAt e)
      (if e.lo < lo then (m'.eraseAt e).insert e.lo (decr32 lo) e.val else m'.eraseAt e) := by
    split
    · exact map_insert (map_eraseAt h e) _ _ _
    · exact map_eraseAt h e
  generalize (if e.lo < lo then (m.eraseAt e).insert e.lo (decr32 lo) e.val else m.eraseAt e) = q at h2 ⊢
  generalize (if e.lo < lo then (m'.eraseAt e).insert e.lo (decr32 lo) e.val else m'.eraseAt e) = q' at h2 ⊢
  have key : ∀ p p', MapR env p p' → ExR (StepR env)
      (if merge = true then do
          let l ← p.getList e.val
          let x ← p.addList (dlInsertAll l ds)
          pure (AddStep.done (x.1.insert lo hi x.2))
        else do
          let x ← p.addList ds
          pure (AddStep.done (x.1.insert lo hi x.2)))
      (if merge = true then do
          let l ← p'.getList e.val
          let x ← p'.addList (dlInsertAll l ds')
          pure (AddStep.done (x.1.insert lo hi x.2))
        else do
          let x ← p'.addList ds'
          pure (AddStep.done (x.1.insert lo hi x.2))) := by
    intro p p' hp
    refine ex_ite (fun _ => ?_) (fun _ => ?_)
    · refine (map_getList hp _).bind fun l l' hl => ?_
      refine (map_addList hp (driversOf_insertAll hn hl hd)).bind fun x x' hx => ?_
      refine ExR.pure ?_
      show MapR _ _ _
      rw [hx.2]; exact map_insert hx.1 _ _ _
    · refine (map_addList hp hd).bind fun x x' hx => ?_
      refine ExR.pure ?_
      show MapR _ _ _
      rw [hx.2]; exact map_insert hx.1 _ _ _
  refine ex_ite (fun _ => ?_) (fun _ => key _ _ h2)
  refine (ExR.refl (incr32 hi)).bind fun a b hab => ?_
  subst hab
  exact key _ _ (map_insert h2 _ _ _)

theorem map_left {env : List Nat} (hn : env.Nodup) {m m' : DMap} {ds ds' : List DriverInfo}
    (h : MapR env m m') (hd : driversOf env ds = some ds') (lo hi : Int) (merge : Bool) (e : Ivl Nat) :
    ExR (StepR env) (stepLeft m lo hi ds merge e) (stepLeft m' lo hi ds' merge e) := by
  unfold stepLeft
  dsimp only
  have h2 := map_insert (map_eraseAt h e) e.lo (decr32 lo) e.val
  have key : ∀ p p', MapR env p p' → ExR (StepR env)
      (do
        let lo' ← incr32 e.hi
        if lo' > hi then pure (AddStep.done p) else pure (AddStep.again p lo'))
      (do
        let lo' ← incr32 e.hi
        if lo' > hi then pure (AddStep.done p') else pure (AddStep.again p' lo')) := by
    intro p p' hp
    refine (ExR.refl (incr32 e.hi)).bind fun a b hab => ?_
    subst hab
    exact ex_ite (fun _ => ExR.pure hp) (fun _ => ExR.pure ⟨hp, rfl⟩)
  refine ex_ite (fun _ => ?_) (fun _ => ?_)
  · refine (map_addList h2 hd).bind fun x x' hx => ?_
    rw [hx.2]; exact key _ _ (map_insert hx.1 _ _ _)
  · refine (map_getList h2 _).bind fun l l' hl => ?_
    refine (map_addList h2 (driversOf_insertAll hn hl hd)).bind fun x x' hx => ?_
    rw [hx.2]; exact key _ _ (map_insert hx.1 _ _ _)

theorem map_right {env : List Nat} (hn : env.Nodup) {m m' : DMap} {ds ds' : List DriverInfo}
    (h : MapR env m m') (hd : driversOf env ds = some ds') (lo hi : Int) (merge : Bool) (e : Ivl Nat) :
    ExR (StepR env) (stepRight m lo hi ds merge e) (stepRight m' lo hi ds' merge e) := by
  unfold stepRight
  dsimp only
  have key : ∀ p p', MapR env p p' → ExR (StepR env)
      (do
        let n ← incr32 hi
        pure (AddStep.done (p.insert n e.hi e.val)))
      (do
        let n ← incr32 hi
        pure (AddStep.done (p'.insert n e.hi e.val))) := by
    intro p p' hp
    refine (ExR.refl (incr32 hi)).bind fun a b hab => ?_
    subst hab
    exact ExR.pure (map_insert hp _ _ _)
  refine (map_addList (map_eraseAt h e) hd).bind fun x x' hx => ?_
  have h1 := hx.1
  have h2 := hx.2
  refine ex_ite (fun _ => ?_) (fun _ => ?_)
  · rw [h2]; exact key _ _ (map_insert h1 _ _ _)
  · rw [h2]
    have h3 := map_insert h1 lo (decr32 e.lo) x.2
    refine (map_getList h3 _).bind fun l l' hl => ?_
    refine (map_addList h3 (driversOf_insertAll hn hl hd)).bind fun y y' hy => ?_
    rw [hy.2]; exact key _ _ (map_insert hy.1 _ _ _)

theorem map_contained {env : List Nat} (hn : env.Nodup) {m m' : DMap} {ds ds' : List DriverInfo}
    (h : MapR env m m') (hd : driversOf env ds = some ds') (lo hi : Int) (e : Ivl Nat) :
    ExR (StepR env) (stepMergeContained m lo hi ds e) (stepMergeContained m' lo hi ds' e) := by
  unfold stepMergeContained
  refine (map_getList h _).bind fun l l' hl => ?_
  refine (map_putList h _ (driversOf_insertAll hn hl hd)).bind fun p p' hp => ?_
  have key : ∀ p p', MapR env p p' → ExR (StepR env)
      (do
        let lo' ← incr32 e.hi
        if lo' > hi then pure (AddStep.done p) else pure (AddStep.again p lo'))
      (do
        let lo' ← incr32 e.hi
        if lo' > hi then pure (AddStep.done p') else pure (AddStep.again p' lo')) := by
    intro p p' hp
    refine (ExR.refl (incr32 e.hi)).bind fun a b hab => ?_
    subst hab
    exact ex_ite (fun _ => ExR.pure hp) (fun _ => ExR.pure ⟨hp, rfl⟩)
  refine ex_ite (fun _ => ?_) (fun _ => key _ _ hp)
  refine (map_addList hp hd).bind fun x x' hx => ?_
  have h2 := hx.2
  obtain ⟨q, k⟩ := x
  obtain ⟨q', k'⟩ := x'
  dsimp only at h2
  subst h2
  exact key _ _ (map_insert hx.1 _ _ _)

theorem map_step {env : List Nat} (hn : env.Nodup) {m m' : DMap} {ds ds' : List DriverInfo}
    (h : MapR env m m') (hd : driversOf env ds = some ds') (lo hi : Int) (merge : Bool) (e : Ivl Nat) :
    ExR (StepR env) (addStep m lo hi ds merge e) (addStep m' lo hi ds' merge e) := by
  unfold addStep
  refine ex_ite (fun _ => ex_ite (fun _ => ?_) (fun _ => ?_)) fun _ =>
    ex_ite (fun _ => map_split hn h hd lo hi merge e) fun _ => ex_ite (fun _ => ex_ite (fun _ => ?_)
      (fun _ => map_contained hn h hd lo hi e)) fun _ =>
    ex_ite (fun _ => map_left hn h hd lo hi merge e) fun _ =>
    ex_ite (fun _ => map_right hn h hd lo hi merge e) fun _ => ExR.pure trivial
  · refine (map_getList h _).bind fun l l' hl => ?_
    exact (map_putList h _ (driversOf_insertAll hn hl hd)).bind fun p p' hp => ExR.pure hp
  · refine (map_getList h _).bind fun l l' hl => ?_
    exact (map_putList h _ (driversOf_insertAll hn (l := []) (l' := []) rfl hd)).bind
      fun p p' hp => ExR.pure hp
  · exact (map_free (map_eraseAt h e) _).bind fun p p' hp => ExR.pure ⟨hp, rfl⟩

theorem map_loop {env : List Nat} (hn : env.Nodup) {ds ds' : List DriverInfo}
    (hd : driversOf env ds = some ds') (merge : Bool) (hi : Int) (fuel : Nat) :
    ∀ {m m' : DMap} (_ : MapR env m m') (lo : Int) (it : List (Ivl Nat)),
    ExR (MapR env) (addLoop ds merge hi fuel m lo it) (addLoop ds' merge hi fuel m' lo it) := by
  induction fuel with
  | zero => intro m m' h lo it; exact rfl
  | succ fuel ih =>
    intro m m' h lo it
    cases it with
    | nil =>
      simp only [addLoop]
      refine (map_addList h hd).bind fun x x' hx => ?_
      refine ExR.pure ?_
      rw [hx.2]; exact map_insert hx.1 _ _ _
    | cons e es =>
      simp only [addLoop]
      refine (map_step hn h hd lo hi merge e).bind fun x x' hx => ?_
      cases x <;> cases x' <;> try exact hx.elim
      · exact ExR.pure hx
      · obtain ⟨h1, rfl⟩ := hx
        dsimp only
        rw [h1.ivls]
        exact ih h1 _ _
      · exact ih h lo es

theorem map_addDrivers {env : List Nat} (hn : env.Nodup) {m m' : DMap} {ds ds' : List DriverInfo}
    (h : MapR env m m') (hd : driversOf env ds = some ds') (b : BitRange) (merge : Bool) :
    ExR (MapR env) (m.addDrivers b ds merge) (m'.addDrivers b ds' merge) := by
  unfold DMap.addDrivers
  rw [h.ivls]
  exact map_loop hn hd merge _ _ h _ _

/-- The same table of symbols and corresponding maps. -/
def TrkR (env : List Nat) (p p' : Tracker × List DMap) : Prop := p'.1 = p.1 ∧ Rw (MapR env) p.2 p'.2

theorem trk_addDrivers {env : List Nat} (hn : env.Nodup) {drv drv' : List DMap} {ds ds' : List DriverInfo}
    (h : Rw (MapR env) drv drv') (hd : driversOf env ds = some ds') (t : Tracker) (sym : Nat) (b : BitRange)
    (merge : Bool) :
    ExR (TrkR env) (t.addDrivers drv sym ⟨b, ds, merge⟩) (t.addDrivers drv' sym ⟨b, ds', merge⟩) := by
  unfold Tracker.addDrivers
  generalize t.slotFor sym = p
  obtain ⟨t', i⟩ := p
  dsimp only
  have hg : Rw (MapR env) (growTo drv i) (growTo drv' i) := by
    unfold growTo
    rw [← h.1]
    refine h.append ⟨by simp, ?_⟩
    intro j a c ha hc
    rw [List.getElem?_replicate] at ha hc
    split at ha
    · cases ha; rw [if_pos (by assumption)] at hc; cases hc; exact MapR.empty env
    · cases ha
  rcases hg.get i with ⟨h1, h2⟩ | ⟨m, m', h1, h2, hr⟩
  · rw [h1, h2]; exact rfl
  · rw [h1, h2]
    dsimp only
    refine (map_addDrivers hn hr hd b merge).bind fun x x' hx => ?_
    exact ExR.pure ⟨rfl, hg.set hx i⟩

end Verif.Proofs
