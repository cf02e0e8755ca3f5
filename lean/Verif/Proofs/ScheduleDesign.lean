import Verif.Proofs.ScheduleEnd
import Verif.Proofs.Script
import Verif.Proofs.Tasks
import Verif.Props.Dataflow

/-!
The operations of a block, said by the writes in it.
-/
namespace Verif.Proofs
open Verif.Model Verif.Spec Verif.Props

/-- The operation is about a driven range. -/
inductive OnRange (sym : Nat) (bd : BitRange) : BAct → Prop
  | drive (l : List DriverInfo) : OnRange sym bd (.drive sym bd l)
  | hook (l : List DriverInfo) : OnRange sym bd (.hook sym bd l)
  | extra (l : List DriverInfo) : OnRange sym bd (.extra sym bd l)
  | reg (i : Nat) : OnRange sym bd (.reg sym bd i)

/-- All bits of the range are written in the block. -/
def WrittenIn (b : Deferred) (sym : Nat) (bd : BitRange) : Prop :=
  ∀ p, InRng bd p → ∃ w ∈ allWrites b.stmt, w.sym = sym ∧ InRng w.bounds p

/-- What the operations of a block are about. -/
structure Does (D : Design) (b : Deferred) (as : List BAct) : Prop where
  covered : ∀ a ∈ as, ∀ sym bd, OnRange sym bd a → WrittenIn b sym bd
  mread : ∀ r bd a, BAct.mread r bd a ∈ as → D.kind r.sym = .modportPort
  own : as.Pairwise Unmet

/-! ### The driven ranges -/

theorem mapM_keys {m : DMap} {sym : Nat} (es : List (Ivl Nat)) : ∀ {vs : List Driven},
    (es.mapM fun e => do
      let l ← m.getList e.val
      return (⟨sym, ⟨e.lo, e.hi⟩, l⟩ : Driven)) = .ok vs →
    vs.map (fun w => (w.sym, w.bounds)) = es.map fun e => (sym, (⟨e.lo, e.hi⟩ : BitRange)) := by
  induction es with
  | nil => intro vs h; cases h; rfl
  | cons e es ih =>
    intro vs h
    rw [List.mapM_cons] at h
    cases h1 : m.getList e.val with
    | error f => rw [h1] at h; cases h
    | ok l =>
      rw [h1] at h
      cases h2 : (es.mapM fun e => do
          let l ← m.getList e.val
          return (⟨sym, ⟨e.lo, e.hi⟩, l⟩ : Driven)) with
      | error f => rw [h2] at h; cases h
      | ok vs' =>
        rw [h2] at h
        cases h
        rw [List.map_cons, List.map_cons, ih h2]

/-- The ranges of a driver map. -/
def rangesOf (drv : List DMap) (x : Nat × Nat) : List (Nat × BitRange) :=
  match drv[x.2]? with
  | none => []
  | some m => m.ivls.map fun e => (x.1, ⟨e.lo, e.hi⟩)

theorem drivenOf_keys {drv : List DMap} (order : List (Nat × Nat)) : ∀ {ws : List Driven},
    drivenOf drv order = .ok ws → ws.map (fun w => (w.sym, w.bounds)) = order.flatMap (rangesOf drv) := by
  induction order with
  | nil => intro ws h; cases h; rfl
  | cons x order ih =>
    intro ws h
    obtain ⟨sym, i⟩ := x
    simp only [drivenOf] at h
    cases h1 : drivenOf drv order with
    | error f => rw [h1] at h; cases h
    | ok vs =>
      rw [h1] at h
      dsimp only at h
      rw [List.flatMap_cons, ← ih h1]
      cases h2 : drv[i]? with
      | none =>
        rw [h2] at h
        cases h
        simp [rangesOf, h2]
      | some m =>
        rw [h2] at h
        dsimp only at h
        split at h
        · cases h
        · rename_i vs' h3
          cases h
          rw [List.map_append, mapM_keys _ h3]
          simp [rangesOf, h2]

theorem ranges_apart {drv : List DMap} {order : List (Nat × Nat)} (hk : (order.map (·.1)).Nodup)
    (hm : ∀ y i m, (y, i) ∈ order → drv[i]? = some m → MapOk m.ivls) :
    (order.flatMap (rangesOf drv)).Pairwise fun a b => a.1 = b.1 → NoCommonBit a.2 b.2 := by
  induction order with
  | nil => exact List.Pairwise.nil
  | cons x order ih =>
    obtain ⟨y, i⟩ := x
    rw [List.map_cons, List.nodup_cons] at hk
    rw [List.flatMap_cons, List.pairwise_append]
    refine ⟨?_, ih hk.2 fun y' i' m h => hm y' i' m (by simp [h]), ?_⟩
    · unfold rangesOf
      cases h : drv[i]? with
      | none => exact List.Pairwise.nil
      | some m =>
        have ok := hm y i m (by simp) h
        dsimp only
        rw [List.pairwise_map]
        refine (List.Pairwise.and_mem.1 ok.2).imp ?_
        rintro a b ⟨ha, hb, hlt⟩ _ p h1 h2
        have := ok.1 a ha
        have := ok.1 b hb
        simp only [InRng] at h1 h2
        omega
    · intro a ha b hb e
      exfalso
      refine hk.1 ?_
      obtain ⟨z, hz, hb⟩ := List.mem_flatMap.1 hb
      have key : ∀ (z : Nat × Nat) (b : Nat × BitRange), b ∈ rangesOf drv z → b.1 = z.1 := by
        intro z b hb
        unfold rangesOf at hb
        split at hb
        · cases hb
        · obtain ⟨e, _, rfl⟩ := List.mem_map.1 hb
          rfl
      rw [key _ _ hb, key _ _ ha] at e
      rw [show y = z.1 from e]
      exact List.mem_map.2 ⟨z, hz, rfl⟩

theorem mergeActs_ranges {D : Design} {sens : List SensEntry} {ws : List Driven} : ∀ {k : Nat} {a : BAct},
    a ∈ mergeActs D sens k ws → (∀ sym bd, OnRange sym bd a → ∃ w ∈ ws, w.sym = sym ∧ w.bounds = bd) ∧
      ∀ r bd i, a ≠ .mread r bd i := by
  induction ws with
  | nil => intro k a h; cases h
  | cons w ws ih =>
    intro k a h
    have hrest : ∀ {k : Nat}, a ∈ mergeActs D sens k ws →
        (∀ sym bd, OnRange sym bd a → ∃ v ∈ w :: ws, v.sym = sym ∧ v.bounds = bd) ∧
        ∀ r bd i, a ≠ .mread r bd i := by
      intro k h
      obtain ⟨h1, h2⟩ := ih h
      refine ⟨fun sym bd ho => ?_, h2⟩
      obtain ⟨v, hv, h3⟩ := h1 sym bd ho
      exact ⟨v, by simp [hv], h3⟩
    have hw : a = .drive w.sym w.bounds w.drivers ∨ a = .hook w.sym w.bounds w.drivers ∨
        a = .extra w.sym w.bounds w.drivers ∨ a = .reg w.sym w.bounds k ∨
        a = .hook w.sym w.bounds [⟨some k, 0⟩] →
        (∀ sym bd, OnRange sym bd a → ∃ v ∈ w :: ws, v.sym = sym ∧ v.bounds = bd) ∧
        ∀ r bd i, a ≠ .mread r bd i := by
      rintro (rfl | rfl | rfl | rfl | rfl) <;>
        exact ⟨fun sym bd ho => ⟨w, by simp, by cases ho <;> exact ⟨rfl, rfl⟩⟩, fun r bd i e => by cases e⟩
    rw [mergeActs] at h
    split at h
    · rcases List.mem_append.1 h with h | h
      · simp only [List.mem_cons, List.not_mem_nil, or_false] at h
        exact hw (by rcases h with h | h | h <;> simp [h])
      · exact hrest h
    · rcases List.mem_append.1 h with h | h
      · simp only [List.mem_cons, List.mem_append, List.not_mem_nil, or_false] at h
        rcases h with h | h | h | h | h | h
        · subst h
          exact ⟨fun sym bd ho => (by cases ho), fun r bd i e => by cases e⟩
        · exact hw (by simp [h])
        · unfold clockActs at h
          obtain ⟨e, _, h⟩ := List.mem_filterMap.1 h
          split at h
          · cases h
          · cases h
            exact ⟨fun sym bd ho => (by cases ho), fun r bd i e => by cases e⟩
        · obtain ⟨d, _, rfl⟩ := List.mem_map.1 h
          exact ⟨fun sym bd ho => (by cases ho), fun r bd i e => by cases e⟩
        · exact hw (by simp [h])
        · exact hw (by simp [h])
      · exact hrest h

theorem unmet_left {a b : BAct} (h : ∀ sym x l, a ≠ .drive sym x l) : Unmet a b :=
  fun sym x l _ _ e _ => absurd e (h sym x l)

theorem unmet_right {a b : BAct} (h : ∀ sym x l, b ≠ .drive sym x l) : Unmet a b :=
  fun sym _ _ y m _ e => absurd e (h sym y m)

theorem mergeActs_apart {D : Design} {sens : List SensEntry} {ws : List Driven}
    (h : ws.Pairwise fun a b => a.sym = b.sym → NoCommonBit a.bounds b.bounds) : ∀ k,
    (mergeActs D sens k ws).Pairwise Unmet := by
  induction ws with
  | nil => intro k; exact List.Pairwise.nil
  | cons w ws ih =>
    intro k
    rw [List.pairwise_cons] at h
    rw [mergeActs]
    split
    · rw [List.pairwise_append]
      refine ⟨?_, ih h.2 k, ?_⟩
      · refine .cons ?_ (.cons ?_ (.cons (by simp) .nil))
        · intro b hb
          refine unmet_right fun sym x l e => ?_
          subst e
          simp at hb
        · intro b hb
          exact unmet_left fun sym x l e => by cases e
      · intro a ha b hb
        intro sym x l y m ea eb
        subst ea eb
        obtain ⟨v, hv, h1, h2⟩ := (mergeActs_ranges hb).1 sym y (.drive m)
        simp only [List.mem_cons, List.not_mem_nil, or_false, reduceCtorEq, BAct.drive.injEq] at ha
        obtain ⟨rfl, rfl, _⟩ := ha
        have := h.1 v hv h1.symm
        rw [h2] at this
        exact this
    · rename_i hs
      have hno : ∀ k' b, b ∈ mergeActs D sens k' ws → ∀ sym x l, b ≠ .drive sym x l := by
        intro k' b hb sym x l e
        subst e
        clear h ih
        induction ws generalizing k' with
        | nil => cases hb
        | cons w ws ih =>
          rw [mergeActs, if_neg hs] at hb
          rcases List.mem_append.1 hb with hb | hb
          · simp only [List.mem_cons, List.mem_append, List.not_mem_nil, or_false, reduceCtorEq, false_or,
              or_false] at hb
            rcases hb with hb | hb
            · unfold clockActs at hb
              obtain ⟨e, _, h⟩ := List.mem_filterMap.1 hb
              split at h <;> cases h
            · obtain ⟨d, _, h⟩ := List.mem_map.1 hb
              cases h
          · exact ih _ hb
      refine List.pairwise_of_forall_mem_list fun a ha b hb => unmet_left ?_
      have := hno
      intro sym x l e
      subst e
      rcases List.mem_append.1 ha with ha | ha
      · simp only [List.mem_cons, List.mem_append, List.not_mem_nil, or_false, reduceCtorEq, false_or,
          or_false] at ha
        rcases ha with hb | hb
        · unfold clockActs at hb
          obtain ⟨e, _, h⟩ := List.mem_filterMap.1 hb
          split at h <;> cases h
        · obtain ⟨d, _, h⟩ := List.mem_map.1 hb
          cases h
      · exact hno _ _ ha sym x l rfl

/-! ### Registers are used with care -/

/-- The nodes of the block after several operations. -/
def kindsAll (ks : List Bool) (as : List BAct) : List Bool := as.foldl kindsAfter ks

theorem tame_append {as bs : List BAct} : ∀ {ks : List Bool}, Tame ks as → Tame (kindsAll ks as) bs →
    Tame ks (as ++ bs) := by
  induction as with
  | nil => intro ks _ h; exact h
  | cons a as ih => intro ks h h'; exact ⟨h.1, ih h.2 h'⟩

theorem own_tame {D : Design} {as : List BAct} : ∀ {ks : List Bool}, OwnActs D as → (∀ b ∈ ks, b = false) →
    Tame ks as ∧ ∀ b ∈ kindsAll ks as, b = false := by
  induction as with
  | nil => intro ks _ h; exact ⟨trivial, h⟩
  | cons a as ih =>
    intro ks ho h
    have h1 := ho a List.mem_cons_self
    have hno : ∀ i : Nat, ks[i]? ≠ some true := by
      intro i e
      have := h _ (List.mem_of_getElem? e)
      cases this
    have h2 : ∀ b ∈ kindsAfter ks a, b = false := by
      intro b hb
      cases a with
      | node d =>
        rcases List.mem_append.1 hb with hb | hb
        · exact h b hb
        · rw [List.mem_singleton.1 hb]
          cases d <;> first | exact h1.elim | rfl
      | reg => exact h1.elim
      | _ => exact h b hb
    obtain ⟨h3, h4⟩ := ih (ks := kindsAfter ks a) (fun x hx => ho x (List.mem_cons_of_mem _ hx)) h2
    refine ⟨⟨?_, h3⟩, h4⟩
    cases a with
    | reg => exact h1.elim
    | edge i j => exact ⟨hno i, hno j⟩
    | dep d => exact hno _
    | mread r b i => exact hno i
    | extra => exact h1.elim
    | _ => trivial

theorem act_kinds {D : Design} {s s' : Bld} {env env' : List Nat} {a : BAct} {ks : List Bool}
    (h : s.act D env a = .ok (s', env')) (hl : ks.length = env.length) :
    (kindsAfter ks a).length = env'.length := by
  cases a <;> simp only [Bld.act] at h
  case node d => split at h <;> cases h; simp [kindsAfter, hl]
  case fault => cases h
  all_goals
    simp only [kindsAfter]
    repeat' (first | (cases h; done) | (cases h; exact hl) | split at h)

theorem acts_kinds {D : Design} {as : List BAct} : ∀ {s s' : Bld} {env env' : List Nat} {ks : List Bool},
    s.acts D env as = .ok (s', env') → ks.length = env.length → (kindsAll ks as).length = env'.length := by
  induction as with
  | nil => intro s s' env env' ks h hl; cases h; exact hl
  | cons a as ih =>
    intro s s' env env' ks h hl
    simp only [Bld.acts] at h
    split at h
    · cases h
    · rename_i s1 e1 h1
      exact ih h (act_kinds h1 hl)

/-- The positions of drivers. -/
def PosBelow (k : Nat) (ws : List Driven) : Prop :=
  ∀ w ∈ ws, ∀ d ∈ w.drivers, ∀ i, d.node = some i → i < k

theorem reads_tame {sens : List SensEntry} {D : Design} {k : Nat} {ks : List Bool} {as : List BAct} (h : Tame ks as) :
    Tame ks (clockActs D sens k ++ as) := by
  unfold clockActs
  induction sens with
  | nil => exact h
  | cons e sens ih =>
    by_cases hw : D.width e.signal = 0
    · simp only [List.filterMap_cons, hw, if_true]
      exact ih
    · simp only [List.filterMap_cons, hw, if_false]
      exact ⟨trivial, ih⟩

theorem deps_tame {ds : List Dep} {ks : List Bool} {as : List BAct} (hd : ∀ d ∈ ds, ks[d.src]? ≠ some true)
    (h : Tame ks as) : Tame ks (ds.map .dep ++ as) := by
  induction ds with
  | nil => exact h
  | cons d ds ih => exact ⟨hd d List.mem_cons_self, ih fun x hx => hd x (List.mem_cons_of_mem _ hx)⟩

theorem merge_tame {D : Design} {sens : List SensEntry} {ws : List Driven} {n : Nat} : ∀ {k : Nat} {ks : List Bool},
    (∀ i, i < n → ks[i]? ≠ some true) → PosBelow n ws → n ≤ ks.length → k = ks.length →
    Tame ks (mergeActs D sens k ws) := by
  induction ws with
  | nil => intro k ks _ _ _ _; trivial
  | cons w ws ih =>
    intro k ks h hw hn hk
    have hd : ∀ d ∈ w.drivers, ∀ i, d.node = some i → ks[i]? ≠ some true :=
      fun d hd i hi => h i (hw w List.mem_cons_self d hd i hi)
    have hw' : PosBelow n ws := fun v hv => hw v (List.mem_cons_of_mem _ hv)
    rw [mergeActs]
    split
    · exact ⟨trivial, trivial, hd, ih h hw' hn hk⟩
    · have hks : ∀ i, i < n → (ks ++ [true])[i]? ≠ some true := by
        intro i hi
        rw [List.getElem?_append_left (by omega)]
        exact h i hi
      have hlen : n ≤ (ks ++ [true]).length := by rw [List.length_append]; omega
      refine ⟨trivial, ?_⟩
      simp only [kindsAfter, NodeData.kind, decide_true]
      refine ⟨by show (ks ++ [true])[k]? = some true; rw [hk]; simp, ?_⟩
      show Tame (ks ++ [true]) _
      rw [List.append_eq, List.append_assoc, List.append_assoc]
      refine reads_tame (deps_tame ?_ ⟨trivial, ?_, ih hks hw' hlen (by rw [hk]; exact (List.length_append (as := ks) (bs := [true])).symm)⟩)
      · intro d hd'
        unfold driverDeps at hd'
        obtain ⟨di, h1, h2⟩ := List.mem_filterMap.1 hd'
        cases hi : di.node with
        | none => rw [hi] at h2; cases h2
        | some i =>
          rw [hi] at h2
          cases h2
          exact hks i (hw w List.mem_cons_self di h1 i hi)
      · exact fun d hd i hi => hks i (hw w List.mem_cons_self d hd i hi)

theorem driversOf_below {env : List Nat} {l : List DriverInfo} : ∀ {l' : List DriverInfo}, driversOf env l = some l' →
    ∀ d ∈ l, ∀ i, d.node = some i → i < env.length := by
  induction l with
  | nil => intro l' _ d hd; cases hd
  | cons a l ih =>
    intro l' h d hd i hi
    simp only [driversOf] at h
    split at h
    · rename_i m ds h1 h2
      rcases List.mem_cons.1 hd with rfl | hd
      · rw [hi] at h1
        simp only [ownNode] at h1
        cases he : env[i]? with
        | none => rw [he] at h1; cases h1
        | some x => exact (List.getElem?_eq_some_iff.1 he).1
      · exact ih h2 d hd i hi
    · cases h

/-! ### Blocks -/

/-- The analysis of a block on the empty builder. -/
theorem analyse_empty {D : Design} {b : Deferred} (hp : Plain (allWrites b.stmt)) :
    ∃ d, analyse b ⟨D, fun _ => [], none⟩ { net := {} } = .ok d ∧ TrkOk d.trk ∧
      DrvOk (allWrites b.stmt) d.trk d.cur.drv := by
  have hr : Ready ⟨D, fun _ => [], none⟩ ({} : NetGraph) :=
    ⟨⟨[], rfl⟩, fun y b n h => by simp [VarTab.lookup, imFind] at h, fun n h => by cases h⟩
  obtain ⟨s1, h1, h2, h3, h4, h5⟩ := exec_start hr hp (fun w h => h)
  cases b with
  | continuous loc a => exact ⟨s1, h1, h2.trk, h2.flow.drv⟩
  | procedural k body st =>
    obtain ⟨l, e1, e2⟩ := h3.nba
    simp only [List.nil_append] at e1
    subst e1
    obtain ⟨s2, g1, g2, _⟩ := processNba_at hp s1.nba s1 _ h2 h2.nba e2
    refine ⟨s2, ?_, g2.trk, g2.flow.drv⟩
    simp only [Deferred.stmt] at h1
    simp only [analyse, Dfa.runBlock, h1, g1]

theorem block_does {D : Design} {ord : Tracker → List (Nat × Nat)} (hv : Visits ord) {b : Deferred}
    (hp : Plain (allWrites b.stmt)) : ∃ as, Scripted D ord b as ∧ Does D b as ∧ Tame [] as := by
  obtain ⟨as, k, P, ho, h⟩ := has_analyse D b 0 { net := {} }
  rcases block_script D ord b h with ⟨f, h⟩ | ⟨sens, hs⟩
  · refine ⟨_, h, ⟨?_, ?_, ?_⟩, trivial, trivial⟩
    · intro a ha sym bd h
      rw [List.mem_singleton] at ha
      subst ha
      cases h
    · intro r bd a h
      simp at h
    · simp
  · refine ⟨_, hs, ?_⟩
    have hown : ∀ a ∈ as, ∀ sym bd, ¬ OnRange sym bd a := by
      intro a ha sym bd h
      have := ho a ha
      cases h <;> exact this
    have hmr : ∀ r bd a, BAct.mread r bd a ∈ as → D.kind r.sym = .modportPort := fun r bd a h => ho _ h
    have hnd : ∀ a ∈ as, ∀ sym x l, a ≠ .drive sym x l := by
      intro a ha sym x l e
      subst e
      exact hown _ ha sym x (.drive l)
    obtain ⟨d, h1, h2, h3⟩ := analyse_empty (D := D) hp
    have hsim := h {} [] _ (pre_start {})
    have hsim : ExR (Post {} [] k P) (analyse b ⟨D, fun _ => [], none⟩ { net := {} })
        ((putDfa {} { net := {} }).acts D [] as) := hsim
    rw [h1] at hsim
    cases hacts : (putDfa {} { net := {} }).acts D [] as with
    | error f => rw [hacts] at hsim; exact hsim.elim
    | ok p =>
      rw [hacts] at hsim
      obtain ⟨_, _, hp'⟩ := hsim
      obtain ⟨t1, t2⟩ := own_tame (ks := []) ho (by simp)
      have t3 := acts_kinds (ks := []) hacts rfl
      have hmem : ∀ y i, (y, i) ∈ ord P.trk → (y, i) ∈ d.trk.slots := by
        intro y i hm
        rw [hp'.trk]
        exact (hv P.trk).mem_iff.1 hm
      have hmaps : ∀ y i m, (y, i) ∈ ord P.trk → P.cur.drv[i]? = some m →
          MapOk m.ivls ∧ ∀ x ∈ m.ivls, Fits (allWrites b.stmt) y x.lo x.hi := by
        intro y i m hm hg
        rcases hp'.cur.drv.get i with ⟨e1, _⟩ | ⟨m1, m2, e1, e2, hr⟩
        · rw [hg] at e1; cases e1
        · rw [hg] at e1
          cases e1
          have := h3.maps y i m2 (hmem y i hm) e2
          rw [hr.ivls] at this
          exact ⟨this.1.ok |> fun h => hr.ivls ▸ h, this.2⟩
      have hkeys : ((ord P.trk).map (·.1)).Nodup := by
        rw [((hv P.trk).map _).nodup_iff, ← hp'.trk]
        exact h2.keys
      cases hD : drivenOf P.cur.drv (ord P.trk) with
      | error f =>
        refine ⟨⟨?_, ?_, ?_⟩, tame_append t1 ⟨trivial, trivial⟩⟩
        · intro a ha sym bd hon
          rcases List.mem_append.1 ha with ha | ha
          · exact (hown a ha sym bd hon).elim
          · simp only [endActs, List.mem_singleton] at ha
            subst ha
            cases hon
        · intro r bd a ha
          rcases List.mem_append.1 ha with ha | ha
          · exact hmr r bd a ha
          · simp [endActs] at ha
        · rw [List.pairwise_append]
          exact ⟨List.pairwise_of_forall_mem_list fun a ha b hb => unmet_left (hnd a ha), by simp [endActs],
            fun a ha b hb => unmet_left (hnd a ha)⟩
      | ok ws =>
        have hk := drivenOf_keys _ hD
        have hpw := ranges_apart hkeys fun y i m h h' => (hmaps y i m h h').1
        rw [← hk, List.pairwise_map] at hpw
        have hrel := drivenOf_rel hp'.cur.drv (ord P.trk)
        rw [hD] at hrel
        have hpos : PosBelow p.2.length ws := by
          intro w hw di hd i hi
          cases hD' : drivenOf d.cur.drv (ord P.trk) with
          | error f => rw [hD'] at hrel; exact hrel.elim
          | ok ws' =>
            rw [hD'] at hrel
            obtain ⟨w', _, hww⟩ := Rw.mem_left hrel hw
            exact driversOf_below hww.2.2 di hd i hi
        refine ⟨⟨?_, ?_, ?_⟩, tame_append t1 (merge_tame (fun i _ e => ?_) (t3.symm ▸ hpos) (Nat.le_refl _)
          (hp'.len.symm.trans t3.symm))⟩
        · intro a ha sym bd hon
          rcases List.mem_append.1 ha with ha | ha
          · exact (hown a ha sym bd hon).elim
          · obtain ⟨w, hw, rfl, rfl⟩ := (mergeActs_ranges ha).1 sym bd hon
            have : (w.sym, w.bounds) ∈ (ord P.trk).flatMap (rangesOf P.cur.drv) := by
              rw [← hk]
              exact List.mem_map.2 ⟨w, hw, rfl⟩
            obtain ⟨⟨y, i⟩, hyi, hr⟩ := List.mem_flatMap.1 this
            unfold rangesOf at hr
            dsimp only at hr
            split at hr
            · cases hr
            · rename_i m hm
              obtain ⟨e, he, heq⟩ := List.mem_map.1 hr
              cases w
              simp only [Prod.mk.injEq] at heq
              obtain ⟨rfl, rfl⟩ := heq
              obtain ⟨h4, h5⟩ := hmaps y i m hyi hm
              intro p hin
              obtain ⟨w, hw, g1, g2, g3⟩ := (h5 e he).inside
              refine ⟨w, hw, g1, ?_⟩
              have := h4.1 e he
              simp only [InRng, BitRange.lower, BitRange.upper] at *
              omega
        · intro r bd a ha
          rcases List.mem_append.1 ha with ha | ha
          · exact hmr r bd a ha
          · exact ((mergeActs_ranges ha).2 r bd a rfl).elim
        · rw [List.pairwise_append]
          exact ⟨List.pairwise_of_forall_mem_list fun a ha b hb => unmet_left (hnd a ha), mergeActs_apart hpw k,
            fun a ha b hb => unmet_left (hnd a ha)⟩
        · cases t2 _ (List.mem_of_getElem? e)

end Verif.Proofs
