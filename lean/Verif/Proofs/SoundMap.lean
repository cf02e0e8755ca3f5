import Verif.Proofs.DataflowBase

/-!
Helper lemmas: what is known about the drivers in driver maps, with the ranges of all recordings
aligned (bit by bit) and in general (signal by signal).
-/
namespace Verif.Proofs
open Verif.Spec Verif.Model Verif.Props

/-! ### One driver map in general -/

/-- Intervals are not empty and all drivers in stored lists satisfy `N`. -/
structure GoodM (N : Option Nat → Prop) (m : DMap) : Prop where
  wf : ∀ e ∈ m.ivls, e.lo ≤ e.hi
  all : ∀ h l, m.lists.get h = some l → ∀ d, HasN l d → N d

theorem good_empty (N : Option Nat → Prop) : GoodM N {} := ⟨by simp, by intro h l hl; cases hl⟩

theorem good_insert {N : Option Nat → Prop} {m : DMap} (h : GoodM N m) {lo hi : Int} (k : Nat)
    (hl : lo ≤ hi) : GoodM N (m.insert lo hi k) := by
  refine ⟨fun e he => ?_, h.all⟩
  rcases imInsert_mem.1 he with rfl | he
  · exact hl
  · exact h.wf e he

theorem good_erase {N : Option Nat → Prop} {m : DMap} (h : GoodM N m) (e : Ivl Nat) :
    GoodM N (m.eraseAt e) := ⟨fun x hx => h.wf x (List.mem_of_mem_erase hx), h.all⟩

theorem get_set {l : List (Option (List DriverInfo))} {i k : Nat} {o : Option (List DriverInfo)}
    {f : List Nat} {x : List DriverInfo}
    (h : (ExtMgr.mk (l.set i o) f).get k = some x) : o = some x ∨ (ExtMgr.mk l f).get k = some x := by
  rw [ext_get_eq] at h ⊢
  simp only at h ⊢
  by_cases hik : i = k
  · subst hik
    by_cases hl : i < l.length
    · rw [List.getElem?_set_self hl] at h
      left
      simpa using h
    · rw [List.getElem?_eq_none (by simpa using hl)] at h
      cases h
  · rw [List.getElem?_set_ne hik] at h
    exact .inr h

theorem get_free {l : List (Option (List DriverInfo))} {f g : List Nat} {k : Nat} :
    (ExtMgr.mk l f).get k = (ExtMgr.mk l g).get k := rfl

theorem good_put {N : Option Nat → Prop} {m m' : DMap} (h : GoodM N m) {k : Nat} {l : List DriverInfo}
    (hl : ∀ d, HasN l d → N d) (hp : m.putList k l = .ok m') : GoodM N m' := by
  unfold DMap.putList at hp
  split at hp
  · cases hp
  · rename_i ls he
    cases hp
    unfold ExtMgr.put at he
    split at he
    · cases he
      refine ⟨h.wf, fun j x hx => ?_⟩
      rcases get_set hx with h1 | h1
      · cases h1; exact hl
      · exact h.all j x h1
    · cases he

theorem good_free {N : Option Nat → Prop} {m m' : DMap} (h : GoodM N m) {k : Nat}
    (hp : m.freeIfValid k = .ok m') : GoodM N m' := by
  unfold DMap.freeIfValid at hp
  split at hp
  · split at hp
    · cases hp
    · rename_i ls he
      cases hp
      unfold ExtMgr.erase at he
      split at he
      · cases he
        refine ⟨h.wf, fun j x hx => ?_⟩
        rcases get_set hx with h1 | h1
        · cases h1
        · exact h.all j x h1
      · cases he
  · cases hp; exact h

theorem good_add {N : Option Nat → Prop} {m m' : DMap} (h : GoodM N m) {k : Nat} {l : List DriverInfo}
    (hl : ∀ d, HasN l d → N d) (hp : m.addList l = .ok (m', k)) : GoodM N m' := by
  unfold DMap.addList at hp
  split at hp
  · cases hp
  · rename_i ls h1 ha
    split at hp
    · cases hp
    · rename_i ls' hq
      cases hp
      have hg : GoodM N { m with lists := ls } := by
        refine ⟨h.wf, fun j x hx => ?_⟩
        unfold ExtMgr.allocate at ha
        split at ha
        · split at ha
          · cases ha
            rcases get_set hx with h2 | h2
            · cases h2; rintro d ⟨_, hd, _⟩; cases hd
            · exact h.all j x h2
          · cases ha
        · cases ha
          rw [ext_get_eq] at hx
          simp only at hx
          by_cases hj : j < m.lists.slots.length
          · rw [List.getElem?_append_left hj] at hx
            exact h.all j x (by rw [ext_get_eq]; exact hx)
          · rw [List.getElem?_append_right (by omega)] at hx
            by_cases h0 : j - m.lists.slots.length = 0
            · rw [h0] at hx
              simp at hx
              subst hx
              rintro d ⟨_, hd, _⟩; cases hd
            · rw [List.getElem?_eq_none (by simp; omega)] at hx
              cases hx
      exact good_put hg hl (by
        show DMap.putList { m with lists := ls } k l = .ok { m with lists := ls' }
        unfold DMap.putList
        simp only [hq])

theorem good_get {N : Option Nat → Prop} {m : DMap} (h : GoodM N m) {k : Nat} {l : List DriverInfo}
    (hl : m.getList k = .ok l) : ∀ d, HasN l d → N d := by
  unfold DMap.getList at hl
  split at hl
  · cases hl
  · rename_i x hx
    cases hl
    exact h.all k l hx

theorem good_both {N : Option Nat → Prop} {l ds : List DriverInfo} (h1 : ∀ d, HasN l d → N d)
    (h2 : ∀ d, HasN ds d → N d) : ∀ d, HasN (dlInsertAll l ds) d → N d := by
  intro d hd
  rcases hasN_insertAll.1 hd with h | h
  · exact h1 d h
  · exact h2 d h

/-- What a step leaves. -/
def StepGd (N : Option Nat → Prop) (hi : Int) : AddStep → Prop
  | .done m' => GoodM N m'
  | .again m' lo' => GoodM N m' ∧ lo' ≤ hi
  | .skip => True

theorem addStep_good {N : Option Nat → Prop} {m : DMap} {lo hi : Int} {ds : List DriverInfo} {merge : Bool}
    {e : Ivl Nat} (hm : GoodM N m) (he : e ∈ m.ivls) (hlh : lo ≤ hi) (hds : ∀ d, HasN ds d → N d)
    {o : AddStep} (ho : addStep m lo hi ds merge e = .ok o) : StepGd N hi o := by
  have hne := hm.wf e he
  have d1 : ∀ x : Int, decr32 x = x - 1 := fun x => rfl
  have hnil : ∀ d, HasN [] d → N d := by rintro d ⟨_, hd, _⟩; cases hd
  unfold addStep at ho
  split at ho
  · split at ho
    · obtain ⟨l, hg, ho⟩ := bind_ok ho
      obtain ⟨m', hp, ho⟩ := bind_ok ho
      cases ho
      exact good_put hm (good_both (good_get hm hg) hds) hp
    · obtain ⟨l, hg, ho⟩ := bind_ok ho
      obtain ⟨m', hp, ho⟩ := bind_ok ho
      cases ho
      exact good_put hm (good_both hnil hds) hp
  split at ho
  · -- split
    rename_i hc
    unfold stepSplit at ho
    have i1 : GoodM N (m.eraseAt e) := good_erase hm e
    have i2 : GoodM N (if e.lo < lo then (m.eraseAt e).insert e.lo (decr32 lo) e.val
        else m.eraseAt e) := by
      split
      · exact good_insert i1 _ (by rw [d1]; omega)
      · exact i1
    have fin : ∀ m3 : DMap, GoodM N m3 →
        (if merge = true then do
          let l ← m3.getList e.val
          let (m4, h) ← m3.addList (dlInsertAll l ds)
          pure (AddStep.done (m4.insert lo hi h))
        else do
          let (m4, h) ← m3.addList ds
          pure (AddStep.done (m4.insert lo hi h)) : Except Fault AddStep) = .ok o →
        StepGd N hi o := by
      intro m3 i3 ho
      split at ho
      · obtain ⟨l, hg, ho⟩ := bind_ok ho
        obtain ⟨⟨m4, h⟩, hp, ho⟩ := bind_ok ho
        cases ho
        exact good_insert (good_add i3 (good_both (good_get i3 hg) hds) hp) _ hlh
      · obtain ⟨⟨m4, h⟩, hp, ho⟩ := bind_ok ho
        cases ho
        exact good_insert (good_add i3 hds hp) _ hlh
    dsimp only at ho
    split at ho
    · obtain ⟨n, hn, ho⟩ := bind_ok ho
      exact fin _ (good_insert i2 _ (by rw [incr32_eq hn]; omega)) ho
    · exact fin _ i2 ho
  split at ho
  · split at ho
    · obtain ⟨m1, hf, ho⟩ := bind_ok ho
      cases ho
      exact ⟨good_free (good_erase hm e) hf, hlh⟩
    · unfold stepMergeContained at ho
      obtain ⟨l, hg, ho⟩ := bind_ok ho
      obtain ⟨m1, hp, ho⟩ := bind_ok ho
      have i1 : GoodM N m1 := good_put hm (good_both (good_get hm hg) hds) hp
      have fin : ∀ m2 : DMap, GoodM N m2 →
          (do
            let lo' ← incr32 e.hi
            if lo' > hi then pure (AddStep.done m2) else pure (AddStep.again m2 lo') :
              Except Fault AddStep) = .ok o → StepGd N hi o := by
        intro m2 i2 ho
        obtain ⟨lo', hl, ho⟩ := bind_ok ho
        split at ho
        · cases ho; exact i2
        · cases ho; exact ⟨i2, by omega⟩
      dsimp only at ho
      split at ho
      · obtain ⟨⟨m', h⟩, hp, ho⟩ := bind_ok ho
        exact fin _ (good_insert (good_add i1 hds hp) _ (by rw [d1]; omega)) ho
      · exact fin _ i1 ho
  split at ho
  · unfold stepLeft at ho
    have i2 : GoodM N ((m.eraseAt e).insert e.lo (decr32 lo) e.val) :=
      good_insert (good_erase hm e) _ (by rw [d1]; omega)
    have fin : ∀ m4 : DMap, GoodM N m4 →
        (do
          let lo' ← incr32 e.hi
          if lo' > hi then pure (AddStep.done m4) else pure (AddStep.again m4 lo') :
            Except Fault AddStep) = .ok o → StepGd N hi o := by
      intro m4 i4 ho
      obtain ⟨lo', hl, ho⟩ := bind_ok ho
      split at ho
      · cases ho; exact i4
      · cases ho; exact ⟨i4, by omega⟩
    dsimp only at ho
    split at ho
    · obtain ⟨⟨m', h⟩, hp, ho⟩ := bind_ok ho
      exact fin _ (good_insert (good_add i2 hds hp) _ (by omega)) ho
    · obtain ⟨l, hg, ho⟩ := bind_ok ho
      obtain ⟨⟨m', h⟩, hp, ho⟩ := bind_ok ho
      exact fin _ (good_insert (good_add i2 (good_both (good_get i2 hg) hds) hp) _ (by omega)) ho
  split at ho
  · unfold stepRight at ho
    obtain ⟨⟨m2, lh⟩, hp, ho⟩ := bind_ok ho
    have i2 : GoodM N m2 := good_add (good_erase hm e) hds hp
    have fin : ∀ m5 : DMap, GoodM N m5 →
        (do
          let n ← incr32 hi
          pure (AddStep.done (m5.insert n e.hi e.val)) : Except Fault AddStep) = .ok o →
        StepGd N hi o := by
      intro m5 i5 ho
      obtain ⟨n, hn, ho⟩ := bind_ok ho
      cases ho
      exact good_insert i5 _ (by rw [incr32_eq hn]; omega)
    dsimp only at ho
    split at ho
    · exact fin _ (good_insert i2 _ hlh) ho
    · obtain ⟨l, hg, ho⟩ := bind_ok ho
      obtain ⟨⟨m', h⟩, hp', ho⟩ := bind_ok ho
      have i3 : GoodM N (m2.insert lo (decr32 e.lo) lh) := good_insert i2 _ (by rw [d1]; omega)
      exact fin _ (good_insert (good_add i3 (good_both (good_get i3 hg) hds) hp') _ (by omega)) ho
  · cases ho; trivial

theorem addLoop_good {N : Option Nat → Prop} {ds : List DriverInfo} {merge : Bool} {hi : Int}
    (hds : ∀ d, HasN ds d → N d) (fuel : Nat) :
    ∀ (m : DMap) (lo : Int) (es : List (Ivl Nat)) (m' : DMap), GoodM N m → lo ≤ hi →
      (∀ e ∈ es, e ∈ m.ivls) → addLoop ds merge hi fuel m lo es = .ok m' → GoodM N m' := by
  induction fuel with
  | zero => intro m lo es m' _ _ _ h; cases h
  | succ fuel ih =>
    intro m lo es m' hm h1 hes h
    cases es with
    | nil =>
      obtain ⟨⟨m1, k⟩, hp, h⟩ := bind_ok h
      cases h
      exact good_insert (good_add hm hds hp) _ h1
    | cons e es =>
      obtain ⟨o, ho, h⟩ := bind_ok h
      have hs := addStep_good hm (hes e List.mem_cons_self) h1 hds ho
      cases o with
      | done m1 => cases h; exact hs
      | again m1 lo' =>
        exact ih m1 lo' _ m' hs.1 hs.2 (fun e he => (List.mem_filter.1 he).1) h
      | skip => exact ih m lo es m' hm h1 (fun x hx => hes x (List.mem_cons_of_mem _ hx)) h

theorem bounds_le (b : BitRange) : b.lower ≤ b.upper := by
  unfold BitRange.lower BitRange.upper; omega

/-- The drivers after a recording. -/
theorem addDrivers_good {N : Option Nat → Prop} {m m' : DMap} {b : BitRange} {ds : List DriverInfo}
    {merge : Bool} (hm : GoodM N m) (hds : ∀ d, HasN ds d → N d)
    (h : m.addDrivers b ds merge = .ok m') : GoodM N m' :=
  addLoop_good hds _ m b.lower _ m' hm (bounds_le b) (fun _ he => (List.mem_filter.1 he).1) h

/-! ### Pieces of a difference -/

theorem subtractLoop_inside {α β : Type} {start stop : Int} {v : α} (rs : List (Ivl β)) :
    ∀ (result : List (Ivl α)) (current : Int) (out : List (Ivl α)), start ≤ current →
      (∀ e ∈ result, start ≤ e.lo ∧ e.hi ≤ stop) → subtractLoop result stop v current rs = .ok out →
      ∀ e ∈ out, start ≤ e.lo ∧ e.hi ≤ stop := by
  have hins : ∀ {l : List (Ivl α)} {lo hi : Int}, (∀ e ∈ l, start ≤ e.lo ∧ e.hi ≤ stop) →
      start ≤ lo → hi ≤ stop → ∀ e ∈ imInsert lo hi v l, start ≤ e.lo ∧ e.hi ≤ stop := by
    intro l lo hi hl h1 h2 e he
    rcases imInsert_mem.1 he with rfl | he
    · exact ⟨h1, h2⟩
    · exact hl e he
  induction rs with
  | nil =>
    intro result current out hc hr ho
    simp only [subtractLoop, Except.ok.injEq] at ho
    subst ho
    split
    · exact hins hr hc (Int.le_refl _)
    · exact hr
  | cons r rs ih =>
    intro result current out hc hr ho
    unfold subtractLoop at ho
    have hres : ∀ e ∈ (if r.lo > current then imInsert current (min stop (r.lo - 1)) v result
        else result), start ≤ e.lo ∧ e.hi ≤ stop := by
      split
      · exact hins hr hc (by omega)
      · exact hr
    split at ho
    · exact ih result current out hc hr ho
    · split at ho
      · exact ih result current out hc hr ho
      · dsimp only at ho
        split at ho
        · cases ho
        · rename_i nxt _
          split at ho
          · simp only [Except.ok.injEq] at ho
            subst ho
            split
            · exact hins hres (by omega) (Int.le_refl _)
            · exact hres
          · exact ih _ _ out (by omega) hres ho

/-- What is left of one interval lies inside it. -/
theorem difference_inside {β : Type} {lo hi : Int} (hlh : lo ≤ hi) {second : List (Ivl β)}
    {out : List (Ivl Unit)} (ho : imDifference [⟨lo, hi, ()⟩] second = .ok out) :
    ∀ e ∈ out, lo ≤ e.lo ∧ e.lo ≤ e.hi ∧ e.hi ≤ hi := by
  have h1 := difference_wf (first := [(⟨lo, hi, ()⟩ : Ivl Unit)]) (by simpa using hlh) ho
  suffices h : ∀ e ∈ out, lo ≤ e.lo ∧ e.hi ≤ hi from
    fun e he => ⟨(h e he).1, h1 e he, (h e he).2⟩
  unfold imDifference at ho
  split at ho
  · cases ho; simp
  · simp only [differenceLoop] at ho
    split at ho
    · cases ho
    · rename_i r hr
      cases ho
      exact subtractLoop_inside second [] lo out (Int.le_refl _) (by simp) hr

/-! ### Driver maps of several signals -/

/-- What can be known about the drivers in driver maps: `I N t drv` if every driver recorded for bit
`p` of `y` satisfies `N y p`, for predicates that are `adm`; `fit` are the ranges that may be
recorded, `full` the lists. -/
structure Disc where
  I : (Nat → Int → Option Nat → Prop) → Tracker → List DMap → Prop
  fit : Nat → BitRange → Prop
  full : (Nat → Int → Option Nat → Prop) → Nat → List DriverInfo → Prop
  adm : (Nat → Int → Option Nat → Prop) → Prop
  len : ∀ {N t drv}, I N t drv → drv.length ≤ t.next
  empty : ∀ N t, I N t []
  mono : ∀ {N N' t t' drv}, TrkLe t t' → (∀ y p d, N y p d → N' y p d) → I N t drv → I N' t' drv
  fullMono : ∀ {N N' y l}, (∀ y p d, N y p d → N' y p d) → full N y l → full N' y l
  one : ∀ {N : Nat → Int → Option Nat → Prop} {y p d}, N y p d → ∀ lsp, full N y [⟨d, lsp⟩]
  add : ∀ {N t drv y b ds m t' drv'}, adm N → TrkOk t → I N t drv → fit y b → full N y ds →
    (∀ d, HasN ds d → ∀ p, InRng b p → N y p d) → t.addDrivers drv y ⟨b, ds, m⟩ = .ok (t', drv') →
    I N t' drv'
  get : ∀ {N t drv y i m e l}, adm N → TrkOk t → I N t drv → (y, i) ∈ t.slots → drv[i]? = some m →
    e ∈ m.ivls → m.getList e.val = .ok l → e.lo ≤ e.hi ∧ fit y ⟨e.lo, e.hi⟩ ∧ full N y l ∧
      ∀ d, HasN l d → ∀ p, e.lo ≤ p → p ≤ e.hi → N y p d
  some : ∀ {N y l p}, adm N → full N y l → (∀ d, HasN l d → N y p d) → ∃ d, N y p d

theorem addDrivers_trk {t t' : Tracker} {drv drv' : List DMap} {y : Nat} {r : Rec}
    (h : t.addDrivers drv y r = .ok (t', drv')) : t' = (t.slotFor y).1 := by
  unfold Tracker.addDrivers at h
  dsimp only at h
  split at h
  · cases h
  · obtain ⟨m', _, h⟩ := bind_ok h
    cases h; rfl

theorem addDrivers_parts {t t' : Tracker} {drv drv' : List DMap} {y : Nat} {r : Rec}
    (h : t.addDrivers drv y r = .ok (t', drv')) :
    ∃ m m', (growTo drv (t.slotFor y).2)[(t.slotFor y).2]? = some m ∧
      m.addDrivers r.bounds r.drivers r.merge = .ok m' ∧
      drv' = (growTo drv (t.slotFor y).2).set (t.slotFor y).2 m' := by
  unfold Tracker.addDrivers at h
  dsimp only at h
  split at h
  · cases h
  · rename_i m hm
    obtain ⟨m', h1, h⟩ := bind_ok h
    cases h
    exact ⟨m, m', hm, h1, rfl⟩

/-- Signal by signal: nothing is assumed of ranges. -/
def coarse : Disc where
  I N t drv := drv.length ≤ t.next ∧ ∀ y i m, (y, i) ∈ t.slots → drv[i]? = some m →
    (m.ivls ≠ [] → ∃ j d, N y j d) ∧ GoodM (fun d => ∃ j, N y j d) m
  fit _ _ := True
  full N y _ := ∃ j d, N y j d
  adm N := ∀ y p q d, N y p d → N y q d
  len h := h.1
  empty N t := ⟨Nat.zero_le _, by intro y i m _ h; simp at h⟩
  mono := by
    rintro N N' t t' drv hle hN ⟨h1, h2⟩
    refine ⟨Nat.le_trans h1 hle.next, fun y i m hy hm => ?_⟩
    obtain ⟨h3, h4⟩ := h2 y i m (slots_old hle h1 hy hm) hm
    refine ⟨fun h => ?_, h4.wf, fun h l hl d hd => ?_⟩
    · obtain ⟨j, d, hj⟩ := h3 h; exact ⟨j, d, hN _ _ _ hj⟩
    · obtain ⟨j, hj⟩ := h4.all h l hl d hd; exact ⟨j, hN _ _ _ hj⟩
  fullMono := by rintro N N' y l hN ⟨j, d, h⟩; exact ⟨j, d, hN _ _ _ h⟩
  one := by intro N y p d h _; exact ⟨p, d, h⟩
  add := by
    rintro N t drv y b ds mg t' drv' _ ht ⟨h1, h2⟩ _ hfull hds h
    have e1 := addDrivers_trk h
    subst e1
    obtain ⟨m, m', hm, ha, rfl⟩ := addDrivers_parts h
    obtain ⟨ht', hle, hs⟩ := slotFor_ok ht y
    have hlt := ht'.fresh _ hs
    generalize hi : (t.slotFor y).2 = i at *
    generalize ht1 : (t.slotFor y).1 = t1 at *
    have hold : ∀ z k mk, (z, k) ∈ t1.slots → (growTo drv i)[k]? = some mk →
        (mk.ivls ≠ [] → ∃ j d, N z j d) ∧ GoodM (fun d => ∃ j, N z j d) mk := by
      intro z k mk hz hk
      rw [growTo_get] at hk
      split at hk
      · exact h2 z k mk (slots_old hle h1 hz hk) hk
      · split at hk
        · cases hk; exact ⟨fun h => absurd rfl h, good_empty _⟩
        · cases hk
    refine ⟨by rw [List.length_set, growTo_length]; have := hle.next; omega, fun z k mk hz hk => ?_⟩
    by_cases hik : i = k
    · subst hik
      have hil : i < (growTo drv i).length := by rw [growTo_length]; omega
      rw [List.getElem?_set_self hil] at hk
      cases hk
      have := ht'.sym_unique hz hs
      subst this
      refine ⟨fun _ => hfull, addDrivers_good (hold z i m hz hm).2 (fun d hd => ?_) ha⟩
      exact ⟨b.lower, hds d hd _ ((inRng_iff _ _).2 ⟨Int.le_refl _, bounds_le b⟩)⟩
    · rw [List.getElem?_set_ne hik] at hk
      exact hold z k mk hz hk
  get := by
    rintro N t drv y i m e l had _ ⟨_, h2⟩ hy hm he hl
    obtain ⟨h3, h4⟩ := h2 y i m hy hm
    refine ⟨h4.wf e he, trivial, h3 (fun h => by rw [h] at he; cases he), fun d hd p _ _ => ?_⟩
    obtain ⟨j, hj⟩ := good_get h4 hl d hd
    exact had _ _ _ _ hj
  some := by rintro N y l p had ⟨j, d, h⟩ _; exact ⟨d, had _ _ _ _ h⟩

/-- Bit by bit, if the ranges of the writes are aligned. -/
def fine {W : List Wr} (hW : Plain W) : Disc where
  I N t drv := DrvOk W t drv ∧ ∀ y p d, DAt t drv y p d → N y p d
  fit y b := Fits W y b.lower b.upper
  full _ _ l := ∃ d, HasN l d
  adm _ := True
  len h := h.1.len
  empty N t := ⟨drvOk_empty W t, fun _ _ _ h => absurd h dAt_empty⟩
  mono := by
    rintro N N' t t' drv hle hN ⟨h1, h2⟩
    exact ⟨drvOk_mono hle h1, fun y p d h => hN _ _ _ (h2 y p d ((dAt_mono hle h1.len).1 h))⟩
  fullMono := fun _ h => h
  one := by intro N y p d _ lsp; exact ⟨d, _, List.mem_singleton_self _, rfl⟩
  add := by
    rintro N t drv y b ds mg t' drv' _ ht ⟨h1, h2⟩ hf hfull hds h
    obtain ⟨dv, a1, a2, a3, a4⟩ := addDrivers_at hW ht h1 hf ds hfull mg
    rw [h] at a1
    cases a1
    refine ⟨a2, fun z p d hz => ?_⟩
    by_cases hzy : z = y
    · subst hzy
      rcases (a3 p d).1 hz with ⟨g1, g2, g3⟩ | ⟨g1, _⟩
      · exact hds d g3 p ((inRng_iff _ _).2 ⟨g1, g2⟩)
      · exact h2 _ _ _ g1
    · exact h2 _ _ _ ((a4 z p d hzy).1 hz)
  get := by
    rintro N t drv y i m e l _ ht ⟨h1, h2⟩ hy hm he hl
    obtain ⟨hI, hf⟩ := h1.maps y i m hy hm
    have hne := hI.ok.1 e he
    have hlow : (BitRange.mk e.lo e.hi).lower = e.lo := by simp [BitRange.lower]; omega
    have hup : (BitRange.mk e.lo e.hi).upper = e.hi := by simp [BitRange.upper]; omega
    obtain ⟨l', hl'⟩ := hI.live e he
    rw [getList_ok hl'] at hl
    cases hl
    refine ⟨hne, by rw [hlow, hup]; exact hf e he, ?_, fun d hd p h3 h4 =>
      h2 y p d ⟨i, m, hy, hm, e, he, h3, h4, l, hl', hd⟩⟩
    obtain ⟨d, e', he', g1, g2, l', hl'', hn⟩ := h1.full y i m hy hm e.lo ⟨e, he, Int.le_refl _, hne⟩
    have := ivl_unique hI.ok he' he g1 g2 (Int.le_refl _) hne
    subst this
    rw [hl'] at hl''; cases hl''
    exact ⟨d, hn⟩
  some := by rintro N y l p _ ⟨d, h⟩ hd; exact ⟨d, hd d h⟩

/-! ### Merging and listing -/

theorem symbolOf_mem {t : Tracker} {y i : Nat} (h : t.symbolOf i = some y) : (y, i) ∈ t.slots := by
  unfold Tracker.symbolOf at h
  cases hf : t.slots.find? (fun p => p.2 == i) with
  | none => rw [hf] at h; cases h
  | some q =>
    rw [hf] at h
    cases h
    have h2 : (q.2 == i) = true := by have := List.find?_some hf; exact this
    simp only [beq_iff_eq] at h2
    subst h2
    exact List.mem_of_find?_eq_some hf

theorem disc_add (K : Disc) {N : Nat → Int → Option Nat → Prop} {t t' : Tracker} {drv drv' : List DMap}
    {y : Nat} {b : BitRange} {ds : List DriverInfo} {m : Bool} (ha : K.adm N) (ht : TrkOk t)
    (hI : K.I N t drv) (hf : K.fit y b) (hl : K.full N y ds)
    (hd : ∀ d, HasN ds d → ∀ p, InRng b p → N y p d)
    (h : t.addDrivers drv y ⟨b, ds, m⟩ = .ok (t', drv')) :
    TrkOk t' ∧ TrkLe t t' ∧ K.I N t' drv' := by
  have h1 := K.add ha ht hI hf hl hd h
  have e1 := addDrivers_trk h
  subst e1
  obtain ⟨h2, h3, _⟩ := slotFor_ok ht y
  exact ⟨h2, h3, h1⟩

theorem disc_mergeIvls (K : Disc) {N : Nat → Int → Option Nat → Prop} (ha : K.adm N) {m : DMap}
    {y : Nat} (es : List (Ivl Nat))
    (hes : ∀ e ∈ es, ∀ l, m.getList e.val = .ok l → e.lo ≤ e.hi ∧ K.fit y ⟨e.lo, e.hi⟩ ∧ K.full N y l ∧
      ∀ d, HasN l d → ∀ p, e.lo ≤ p → p ≤ e.hi → N y p d) :
    ∀ {t t' : Tracker} {drv drv' : List DMap}, TrkOk t → K.I N t drv →
      mergeIvls m (some y) t drv es = .ok (t', drv') → TrkOk t' ∧ TrkLe t t' ∧ K.I N t' drv' := by
  induction es with
  | nil => intro t t' drv drv' ht hI h; cases h; exact ⟨ht, TrkLe.refl _, hI⟩
  | cons e es ih =>
    intro t t' drv drv' ht hI h
    unfold mergeIvls at h
    split at h
    · cases h
    · rename_i hs; cases hs
    · rename_i l y' hl hy
      cases hy
      split at h
      · cases h
      · rename_i t1 drv1 h1
        obtain ⟨g1, g2, g3, g4⟩ := hes e List.mem_cons_self l hl
        obtain ⟨a1, a2, a3⟩ := disc_add K ha ht hI g2 g3 (fun d hd p hp => g4 d hd p
          (by have := (inRng_iff _ _).1 hp; simp only [BitRange.lower, BitRange.upper] at this; omega)
          (by have := (inRng_iff _ _).1 hp; simp only [BitRange.lower, BitRange.upper] at this; omega)) h1
        obtain ⟨b1, b2, b3⟩ := ih (fun x hx => hes x (List.mem_cons_of_mem _ hx)) a1 a3 h
        exact ⟨b1, a2.trans b2, b3⟩

theorem disc_mergeDrv (K : Disc) {N : Nat → Int → Option Nat → Prop} (ha : K.adm N) {other : List DMap}
    (ms : List DMap) : ∀ (pre : List DMap) {t t' : Tracker} {drv drv' : List DMap}, other = pre ++ ms →
      TrkOk t → K.I N t other → K.I N t drv → mergeDrv t drv pre.length ms = .ok (t', drv') →
      TrkOk t' ∧ TrkLe t t' ∧ K.I N t' drv' := by
  induction ms with
  | nil => intro pre t t' drv drv' _ ht _ hI h; cases h; exact ⟨ht, TrkLe.refl _, hI⟩
  | cons m ms ih =>
    intro pre t t' drv drv' he ht ho hI h
    unfold mergeDrv at h
    split at h
    · cases h
    · rename_i t1 drv1 h1
      have hat : other[pre.length]? = some m := by rw [he]; simp
      have hlt : pre.length < t.next := by
        have := K.len ho
        rw [he] at this
        simp at this
        omega
      obtain ⟨y, hy⟩ := ht.full _ hlt
      rw [symbolOf_eq ht hy] at h1
      obtain ⟨a1, a2, a3⟩ := disc_mergeIvls K ha m.ivls
        (fun e hem l hl => K.get ha ht ho hy hat hem hl) ht hI h1
      obtain ⟨b1, b2, b3⟩ := ih (pre ++ [m]) (by simp [he]) a1 (K.mono a2 (fun _ _ _ h => h) ho) a3
        (by simpa using h)
      exact ⟨b1, a2.trans b2, b3⟩

theorem disc_merge (K : Disc) {N : Nat → Int → Option Nat → Prop} (ha : K.adm N) {t t' : Tracker}
    {drv drv' other : List DMap} (ht : TrkOk t) (hd : K.I N t drv) (ho : K.I N t other)
    (h : mergeDrv t drv 0 other = .ok (t', drv')) : TrkOk t' ∧ TrkLe t t' ∧ K.I N t' drv' :=
  disc_mergeDrv K ha other [] rfl ht ho hd h

theorem mapM_mem {α β : Type} {f : α → Except Fault β} (es : List α) : ∀ {vs : List β},
    es.mapM f = .ok vs → ∀ v ∈ vs, ∃ e ∈ es, f e = .ok v := by
  induction es with
  | nil => intro vs h v hv; cases h; cases hv
  | cons e es ih =>
    intro vs h v hv
    rw [List.mapM_cons] at h
    obtain ⟨x, hx, h⟩ := bind_ok h
    obtain ⟨xs, hxs, h⟩ := bind_ok h
    cases h
    rcases List.mem_cons.1 hv with rfl | hv
    · exact ⟨e, List.mem_cons_self, hx⟩
    · obtain ⟨e', he', h'⟩ := ih hxs v hv
      exact ⟨e', List.mem_cons_of_mem _ he', h'⟩

/-- The driven ranges of a block. -/
theorem disc_driven (K : Disc) {N : Nat → Int → Option Nat → Prop} (ha : K.adm N) {t : Tracker}
    (ht : TrkOk t) {drv : List DMap} (hI : K.I N t drv) (order : List (Nat × Nat))
    (ho : ∀ p ∈ order, p ∈ t.slots) : ∀ {ws : List Driven}, drivenOf drv order = .ok ws →
      ∀ w ∈ ws, K.fit w.sym w.bounds ∧ K.full N w.sym w.drivers ∧
        ∀ d, HasN w.drivers d → ∀ p, InRng w.bounds p → N w.sym p d := by
  induction order with
  | nil => intro ws h w hw; cases h; cases hw
  | cons q qs ih =>
    obtain ⟨y, i⟩ := q
    intro ws h w hw
    have ho' := fun p hp => ho p (List.mem_cons_of_mem _ hp)
    unfold drivenOf at h
    split at h
    · cases h
    · rename_i ws1 h1
      split at h
      · cases h; exact ih ho' h1 w hw
      · rename_i m hm
        split at h
        · cases h
        · rename_i vs hv
          cases h
          rcases List.mem_append.1 hw with hw | hw
          · obtain ⟨e, he, hf⟩ := mapM_mem _ hv w hw
            obtain ⟨l, hl, hf⟩ := bind_ok hf
            cases hf
            obtain ⟨g1, g2, g3, g4⟩ := K.get ha ht hI (ho _ List.mem_cons_self) hm he hl
            refine ⟨g2, g3, fun d hd p hp => g4 d hd p ?_ ?_⟩
            all_goals
              have := (inRng_iff _ _).1 hp
              simp only [BitRange.lower, BitRange.upper] at this
              omega
          · exact ih ho' h1 w hw

/-- The intervals found for a read. -/
theorem disc_intervals (K : Disc) {N : Nat → Int → Option Nat → Prop} (ha : K.adm N) {t : Tracker}
    (ht : TrkOk t) {drv : List DMap} (hI : K.I N t drv) {y : Nat} {b : BitRange}
    {out : List (BitRange × List DriverInfo)} (h : t.intervals drv y b = .ok out) :
    ∀ x ∈ out, ∀ d, HasN x.2 d → ∀ p, InRng x.1 p → N y p d := by
  intro x hx d hd p hp
  unfold Tracker.intervals at h
  split at h
  · cases h; cases hx
  · rename_i i hi
    split at h
    · cases h; cases hx
    · rename_i m hm
      obtain ⟨e, he, hf⟩ := mapM_mem _ h x hx
      obtain ⟨l, hl, hf⟩ := bind_ok hf
      cases hf
      obtain ⟨g1, _, _, g4⟩ := K.get ha ht hI (getSlot_mem hi) hm (List.mem_filter.1 he).1 hl
      refine g4 d hd p ?_ ?_
      all_goals
        have := (inRng_iff _ _).1 hp
        simp only [BitRange.lower, BitRange.upper] at this
        omega

end Verif.Proofs
