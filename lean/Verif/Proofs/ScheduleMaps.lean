import Verif.Proofs.ScriptMaps
import Verif.Proofs.DataflowBase

/-!
The variable nodes with exactly one range, and driver maps as sets of intervals with their lists, for
recordings that do not overlap.
-/
namespace Verif.Proofs
open Verif.Model Verif.Spec Verif.Props

/-! ### Variable nodes by range -/

/-- The nodes registered for exactly the range. -/
def varCell (t : VarTab) (sym : Nat) (c : BitRange) : List Nat :=
  ((t sym).filter fun e => decide ((⟨e.lo, e.hi⟩ : BitRange) = c)).map Ivl.val

/-- The range with its ends in ascending order. -/
def ascRange (b : BitRange) : BitRange := ⟨b.lower, b.upper⟩

theorem lower_le (b : BitRange) : b.lower ≤ b.upper := by
  simp only [BitRange.lower, BitRange.upper]; omega

theorem lookup_cell (t : VarTab) (sym : Nat) (b : BitRange) : t.lookup sym b = (varCell t sym b).head? := by
  unfold VarTab.lookup varCell imFind
  rw [List.head?_map, List.head?_filter, List.find?_filter]
  congr 1
  congr 1
  funext e
  by_cases h : (⟨e.lo, e.hi⟩ : BitRange) = b
  · subst h
    rw [Bool.eq_iff_iff]
    simp only [Ivl.hits, decide_true, Bool.and_eq_true, decide_eq_true_eq, BitRange.lower,
      BitRange.upper, iff_true]
    exact ⟨⟨decide_eq_true (by omega), decide_eq_true (by omega)⟩, trivial⟩
  · simp [h]

/-- Entries come in ascending order. -/
def VarSorted (t : VarTab) : Prop := ∀ sym, (t sym).Pairwise fun a b => a.lo ≤ b.lo

theorem imInsert_sorted {lo hi : Int} {v : Nat} {m : List (Ivl Nat)} (h : m.Pairwise fun a b => a.lo ≤ b.lo) :
    (imInsert lo hi v m).Pairwise fun a b => a.lo ≤ b.lo := by
  induction m with
  | nil => simp [imInsert]
  | cons a as ih =>
    obtain ⟨h1, h2⟩ := List.pairwise_cons.1 h
    unfold imInsert
    split
    · rename_i hlt
      refine List.pairwise_cons.2 ⟨?_, h⟩
      intro x hx
      rcases List.mem_cons.1 hx with rfl | hx
      · exact Int.le_of_lt hlt
      · have := h1 x hx; simp only; omega
    · rename_i hlt
      refine List.pairwise_cons.2 ⟨?_, ih h2⟩
      intro x hx
      rcases imInsert_mem.1 hx with rfl | hx
      · simp only; omega
      · exact h1 x hx

theorem varSorted_insert {t : VarTab} (h : VarSorted t) (sym : Nat) (b : BitRange) (n : Nat) :
    VarSorted (t.insert sym b n) := by
  intro y
  unfold VarTab.insert
  split
  · exact imInsert_sorted (h sym)
  · exact h y

theorem imInsert_key {lo hi : Int} {v : Nat} {m : List (Ivl Nat)} (h : m.Pairwise fun a b => a.lo ≤ b.lo)
    (c : BitRange) :
    (imInsert lo hi v m).filter (fun e => decide ((⟨e.lo, e.hi⟩ : BitRange) = c)) =
      m.filter (fun e => decide ((⟨e.lo, e.hi⟩ : BitRange) = c)) ++
        if (⟨lo, hi⟩ : BitRange) = c then [⟨lo, hi, v⟩] else [] := by
  induction m with
  | nil => by_cases hc : (⟨lo, hi⟩ : BitRange) = c <;> simp [imInsert, hc]
  | cons a as ih =>
    obtain ⟨h1, h2⟩ := List.pairwise_cons.1 h
    unfold imInsert
    split
    · rename_i hlt
      by_cases hc : (⟨lo, hi⟩ : BitRange) = c
      · have hnone : (a :: as).filter (fun e => decide ((⟨e.lo, e.hi⟩ : BitRange) = c)) = [] := by
          rw [List.filter_eq_nil_iff]
          intro x hx hxc
          subst hc
          simp only [decide_eq_true_eq, BitRange.mk.injEq] at hxc
          rcases List.mem_cons.1 hx with rfl | hx
          · omega
          · have := h1 x hx; omega
        rw [List.filter_cons, hnone]
        simp [hc]
      · rw [List.filter_cons]
        simp [hc]
    · rw [List.filter_cons, List.filter_cons, ih h2]
      split <;> simp

theorem varCell_insert {t : VarTab} (h : VarSorted t) (sym : Nat) (b : BitRange) (n y : Nat) (c : BitRange) :
    varCell (t.insert sym b n) y c = varCell t y c ++ if y = sym ∧ ascRange b = c then [n] else [] := by
  unfold varCell VarTab.insert
  by_cases hy : y = sym
  · subst hy
    simp only [if_pos, true_and]
    rw [imInsert_key (h y), List.map_append]
    unfold ascRange
    split <;> simp
  · simp [hy]

/-! ### Driver maps as sets of intervals -/

/-- The interval with its list stands in the map. -/
def Stored (m : DMap) (b : BitRange) (l : List DriverInfo) : Prop :=
  ∃ e ∈ m.ivls, b = ⟨e.lo, e.hi⟩ ∧ m.lists.get e.val = some l

/-- The driver maps of all signals hold exactly the given intervals. -/
structure DrvView (t : Tracker) (drv : List DMap) (V : Nat → BitRange → List DriverInfo → Prop) : Prop where
  trk : TrkOk t
  len : drv.length ≤ t.next
  maps : ∀ y i m, (y, i) ∈ t.slots → drv[i]? = some m → DInv m
  view : ∀ y b l, V y b l ↔ ∃ i m, (y, i) ∈ t.slots ∧ drv[i]? = some m ∧ Stored m b l

theorem DrvView.congr {t : Tracker} {drv : List DMap} {V V' : Nat → BitRange → List DriverInfo → Prop}
    (h : DrvView t drv V) (hv : ∀ y b l, V' y b l ↔ V y b l) : DrvView t drv V' :=
  ⟨h.trk, h.len, h.maps, fun y b l => (hv y b l).trans (h.view y b l)⟩

theorem stored_asc {m : DMap} (hi : DInv m) {b : BitRange} {l : List DriverInfo} (h : Stored m b l) :
    b.lower = b.left ∧ b.upper = b.right ∧ b.left ≤ b.right := by
  obtain ⟨e, he, rfl, _⟩ := h
  have := hi.ok.1 e he
  simp only [BitRange.lower, BitRange.upper]
  omega

/-- Inserting into a map where nothing overlaps. -/
theorem add_apart {m : DMap} (hi : DInv m) {b : BitRange} {ds : List DriverInfo}
    (hb1 : -2147483648 ≤ b.lower) (hb2 : b.upper < 2147483647)
    (hd : ∀ c l, Stored m c l → c.upper < b.lower ∨ b.upper < c.lower) (merge : Bool) :
    ∃ m', m.addDrivers b ds merge = .ok m' ∧ DInv m' ∧
      ∀ c l, Stored m' c l ↔ Stored m c l ∨ (c = ascRange b ∧ l = ds) := by
  have hnone : ∀ e ∈ m.ivls, e.hi < b.lower ∨ b.upper < e.lo := by
    intro e he
    obtain ⟨l, hl⟩ := hi.live e he
    have h1 := stored_asc hi ⟨e, he, rfl, hl⟩
    have h2 := hd _ _ ⟨e, he, rfl, hl⟩
    simp only at h1
    omega
  obtain ⟨ls, h, hadd, hA⟩ := addList_ok hi ds
  obtain ⟨a1, _⟩ := add_ok (iv := m.ivls) (ls := m.lists) hi hA hb1 (lower_le b) hb2 hnone
  refine ⟨⟨imInsert b.lower b.upper h m.ivls, ls⟩, ?_, a1, ?_⟩
  · have hfind : imFind m.ivls b.lower b.upper = [] := by
      unfold imFind
      rw [List.filter_eq_nil_iff]
      intro e he
      have := hnone e he
      simp only [Ivl.hits, Bool.and_eq_true, decide_eq_true_eq]
      omega
    have hadd1 : m.addList ds = .ok (⟨m.ivls, ls⟩, h) := hadd m.ivls
    unfold DMap.addDrivers
    rw [hfind]
    simp only [addLoop, hadd1, bind, Except.bind, pure, Except.pure, DMap.insert]
  · intro c l
    have hnot : ∀ e ∈ m.ivls, e.val ≠ h := by
      intro e he heq
      obtain ⟨l, hl⟩ := hi.live e he
      rw [heq, hA.fresh] at hl
      cases hl
    constructor
    · rintro ⟨e, he, rfl, hl⟩
      simp only at he hl
      rcases imInsert_mem.1 he with rfl | he
      · rw [hA.get, if_pos rfl] at hl
        cases hl
        exact Or.inr ⟨rfl, rfl⟩
      · rw [hA.get, if_neg (hnot e he)] at hl
        exact Or.inl ⟨e, he, rfl, hl⟩
    · rintro (⟨e, he, rfl, hl⟩ | ⟨rfl, rfl⟩)
      · exact ⟨e, imInsert_mem.2 (.inr he), rfl, by simp only [hA.get, if_neg (hnot e he), hl]⟩
      · exact ⟨⟨b.lower, b.upper, h⟩, imInsert_mem.2 (.inl rfl), rfl, by simp only [hA.get, if_pos]⟩

/-- Recording drivers for a range that overlaps nothing recorded. -/
theorem DrvView.add {t : Tracker} {drv : List DMap} {V : Nat → BitRange → List DriverInfo → Prop}
    (h : DrvView t drv V) {sym : Nat} {b : BitRange} {ds : List DriverInfo}
    (hb1 : -2147483648 ≤ b.lower) (hb2 : b.upper < 2147483647)
    (hd : ∀ c l, V sym c l → c.upper < b.lower ∨ b.upper < c.lower) (merge : Bool) :
    ∃ t' drv', t.addDrivers drv sym ⟨b, ds, merge⟩ = .ok (t', drv') ∧
      DrvView t' drv' fun y c l => V y c l ∨ (y = sym ∧ c = ascRange b ∧ l = ds) := by
  obtain ⟨ht', hle, hs⟩ := slotFor_ok h.trk sym
  have hi := ht'.fresh _ hs
  generalize hi' : (t.slotFor sym).2 = i at hs hi
  generalize ht1 : (t.slotFor sym).1 = t1 at *
  have hlen := h.len
  have hnext := hle.next
  have hmaps : ∀ y k m, (y, k) ∈ t1.slots → (growTo drv i)[k]? = some m →
      DInv m ∧ ∀ c l, Stored m c l → V y c l := by
    intro y k m h1 h2
    rw [growTo_get] at h2
    split at h2
    · have h3 := slots_old hle h.len h1 h2
      exact ⟨h.maps y k m h3 h2, fun c l hc => (h.view y c l).2 ⟨k, m, h3, h2, hc⟩⟩
    · split at h2
      · cases h2; exact ⟨dInv_empty, fun c l ⟨e, he, _⟩ => by simp at he⟩
      · cases h2
  obtain ⟨m, hm⟩ : ∃ m, (growTo drv i)[i]? = some m := by
    have : i < (growTo drv i).length := by rw [growTo_length]; omega
    exact ⟨_, List.getElem?_eq_getElem this⟩
  obtain ⟨hI, hV⟩ := hmaps sym i m hs hm
  obtain ⟨m', ho, hI', hst⟩ := add_apart (ds := ds) hI hb1 hb2 (fun c l hc => hd c l (hV c l hc)) merge
  have hlt : i < (growTo drv i).length := by rw [growTo_length]; omega
  have hget : ∀ k, ((growTo drv i).set i m')[k]? = if k = i then some m' else (growTo drv i)[k]? := by
    intro k
    rw [List.getElem?_set]
    by_cases hk : i = k
    · subst hk; simp [hlt]
    · rw [if_neg hk, if_neg fun e => hk e.symm]
  refine ⟨t1, (growTo drv i).set i m', ?_, ht', ?_, ?_, ?_⟩
  · simp only [Tracker.addDrivers, hi', ht1, hm, ho, bind, Except.bind, pure, Except.pure]
  · rw [List.length_set, growTo_length]; omega
  · intro y k mm h1 h2
    rw [hget] at h2
    split at h2
    · cases h2; exact hI'
    · exact (hmaps y k mm h1 h2).1
  · intro y c l
    constructor
    · rintro (hv | ⟨rfl, rfl, rfl⟩)
      · obtain ⟨k, mm, h1, h2, h3⟩ := (h.view y c l).1 hv
        have hk : k < drv.length := by rw [List.getElem?_eq_some_iff] at h2; exact h2.1
        have h2' : (growTo drv i)[k]? = some mm := by rw [growTo_get, if_pos hk, h2]
        by_cases hki : k = i
        · subst hki
          rw [hm] at h2'
          cases h2'
          exact ⟨k, m', hle.old _ h1, by rw [hget, if_pos rfl], (hst c l).2 (Or.inl h3)⟩
        · exact ⟨k, mm, hle.old _ h1, by rw [hget, if_neg hki, h2'], h3⟩
      · exact ⟨i, m', hs, by rw [hget, if_pos rfl], (hst _ _).2 (Or.inr ⟨rfl, rfl⟩)⟩
    · rintro ⟨k, mm, h1, h2, h3⟩
      rw [hget] at h2
      split at h2
      · rename_i hk
        subst hk
        cases h2
        obtain rfl := ht'.sym_unique h1 hs
        rcases (hst c l).1 h3 with h3 | ⟨rfl, rfl⟩
        · exact Or.inl (hV c l h3)
        · exact Or.inr ⟨rfl, rfl, rfl⟩
      · exact Or.inl ((hmaps y k mm h1 h2).2 c l h3)

/-- Reading the intervals that overlap a range. -/
theorem DrvView.intervals {t : Tracker} {drv : List DMap} {V : Nat → BitRange → List DriverInfo → Prop}
    (h : DrvView t drv V) (sym : Nat) (q : BitRange) :
    ∃ out, t.intervals drv sym q = .ok out ∧ out.Pairwise (fun x y => x.1.upper < y.1.lower) ∧
      ∀ b l, (b, l) ∈ out ↔ V sym b l ∧ b.lower ≤ q.upper ∧ q.lower ≤ b.upper := by
  unfold Tracker.intervals
  cases hg : t.getSlot sym with
  | none =>
    refine ⟨[], rfl, List.Pairwise.nil, ?_⟩
    intro b l
    simp only [List.not_mem_nil, false_iff]
    rintro ⟨hv, _⟩
    obtain ⟨i, m, h1, _⟩ := (h.view sym b l).1 hv
    exact getSlot_none hg (List.mem_map_of_mem (f := (·.1)) h1)
  | some i =>
    have hs := getSlot_mem hg
    cases hm : drv[i]? with
    | none =>
      refine ⟨[], by simp only [hm], List.Pairwise.nil, ?_⟩
      intro b l
      simp only [List.not_mem_nil, false_iff]
      rintro ⟨hv, _⟩
      obtain ⟨j, m, h1, h2, _⟩ := (h.view sym b l).1 hv
      obtain rfl := h.trk.slot_unique hs h1
      rw [hm] at h2; cases h2
    | some m =>
      have hI := h.maps sym i m hs hm
      simp only [hm]
      have key : ∀ iv : List (Ivl Nat), (∀ e ∈ iv, e ∈ m.ivls) → (iv.Pairwise fun a b => a.hi < b.lo) →
          ∃ out, iv.mapM (fun e : Ivl Nat => (do
              let l ← m.getList e.val
              return ((⟨e.lo, e.hi⟩ : BitRange), l) : Except Fault (BitRange × List DriverInfo))) = .ok out ∧
            out.Pairwise (fun x y => x.1.upper < y.1.lower) ∧
            ∀ b l, (b, l) ∈ out ↔ ∃ e ∈ iv, b = ⟨e.lo, e.hi⟩ ∧ m.lists.get e.val = some l := by
        intro iv
        induction iv with
        | nil => intro _ _; exact ⟨[], rfl, List.Pairwise.nil, by simp⟩
        | cons e iv ih =>
          intro hmem hp
          obtain ⟨hp1, hp2⟩ := List.pairwise_cons.1 hp
          obtain ⟨out, ho, hs1, hs2⟩ := ih (fun x hx => hmem x (by simp [hx])) hp2
          obtain ⟨l, hl⟩ := hI.live e (hmem e (by simp))
          refine ⟨(⟨e.lo, e.hi⟩, l) :: out, ?_, List.pairwise_cons.2 ⟨?_, hs1⟩, ?_⟩
          · rw [List.mapM_cons, ho]
            simp only [getList_ok hl, bind, Except.bind, pure, Except.pure]
          · rintro ⟨b, l'⟩ hx
            obtain ⟨e', he', rfl, _⟩ := (hs2 b l').1 hx
            have h1 := hp1 e' he'
            have h2 := hI.ok.1 e (hmem e (by simp))
            have h3 := hI.ok.1 e' (hmem e' (by simp [he']))
            simp only [BitRange.lower, BitRange.upper]
            omega
          · intro b l'
            rw [List.mem_cons, hs2]
            constructor
            · rintro (heq | ⟨e', he', h1, h2⟩)
              · cases heq; exact ⟨e, by simp, rfl, hl⟩
              · exact ⟨e', by simp [he'], h1, h2⟩
            · rintro ⟨e', he', h1, h2⟩
              rcases List.mem_cons.1 he' with rfl | he'
              · rw [hl] at h2; cases h2; subst h1; exact Or.inl rfl
              · exact Or.inr ⟨e', he', h1, h2⟩
      obtain ⟨out, ho, hs1, hs2⟩ := key (imFind m.ivls q.lower q.upper)
        (fun e he => (List.mem_filter.1 he).1) (hI.ok.2.sublist List.filter_sublist)
      refine ⟨out, ho, hs1, ?_⟩
      intro b l
      rw [hs2]
      constructor
      · rintro ⟨e, he, rfl, hl⟩
        obtain ⟨h1, h2⟩ := List.mem_filter.1 he
        refine ⟨(h.view sym _ _).2 ⟨i, m, hs, hm, e, h1, rfl, hl⟩, ?_⟩
        have := hI.ok.1 e h1
        simp only [Ivl.hits, Bool.and_eq_true, decide_eq_true_eq] at h2
        simp only [BitRange.lower, BitRange.upper] at h2 ⊢
        omega
      · rintro ⟨hv, h1, h2⟩
        obtain ⟨j, m', h3, h4, e, he, rfl, hl⟩ := (h.view sym b l).1 hv
        obtain rfl := h.trk.slot_unique hs h3
        rw [hm] at h4
        cases h4
        refine ⟨e, List.mem_filter.2 ⟨he, ?_⟩, rfl, hl⟩
        have := hI.ok.1 e he
        simp only [Ivl.hits, Bool.and_eq_true, decide_eq_true_eq]
        simp only [BitRange.lower, BitRange.upper] at h1 h2 ⊢
        omega

/-- Two ascending lists of intervals with the same ranges, and related lists at the same range. -/
theorem intervals_rel {R : List DriverInfo → List DriverInfo → Prop}
    {o o' : List (BitRange × List DriverInfo)} (h : o.Pairwise fun x y => x.1.upper < y.1.lower)
    (h' : o'.Pairwise fun x y => x.1.upper < y.1.lower)
    (h1 : ∀ x ∈ o, ∃ y ∈ o', y.1 = x.1 ∧ R x.2 y.2) (h2 : ∀ y ∈ o', ∃ x ∈ o, y.1 = x.1 ∧ R x.2 y.2) :
    Rw (fun x y => y.1 = x.1 ∧ R x.2 y.2) o o' := by
  induction o generalizing o' with
  | nil =>
    cases o' with
    | nil => exact Rw.nil
    | cons y ys => obtain ⟨x, hx, _⟩ := h2 y (by simp); simp at hx
  | cons x xs ih =>
    cases o' with
    | nil => obtain ⟨y, hy, _⟩ := h1 x (by simp); simp at hy
    | cons y ys =>
      obtain ⟨p1, p2⟩ := List.pairwise_cons.1 h
      obtain ⟨q1, q2⟩ := List.pairwise_cons.1 h'
      have hx := lower_le x.1
      have hy := lower_le y.1
      have hxy : y.1 = x.1 ∧ R x.2 y.2 := by
        obtain ⟨y', hy', e1, r1⟩ := h1 x (by simp)
        rcases List.mem_cons.1 hy' with rfl | hy'
        · exact ⟨e1, r1⟩
        · obtain ⟨x', hx', e2, r2⟩ := h2 y (by simp)
          rcases List.mem_cons.1 hx' with rfl | hx'
          · exact ⟨e2, r2⟩
          · have a1 := q1 y' hy'
            have a2 := p1 x' hx'
            rw [e1] at a1
            rw [← e2] at a2
            omega
      refine Rw.cons hxy (ih p2 q2 ?_ ?_)
      · intro a ha
        obtain ⟨b, hb, e, r⟩ := h1 a (by simp [ha])
        rcases List.mem_cons.1 hb with rfl | hb
        · have := p1 a ha
          rw [← e, hxy.1] at this
          omega
        · exact ⟨b, hb, e, r⟩
      · intro b hb
        obtain ⟨a, ha, e, r⟩ := h2 b (by simp [hb])
        rcases List.mem_cons.1 ha with rfl | ha
        · have := q1 b hb
          rw [e, hxy.1] at this
          omega
        · exact ⟨a, ha, e, r⟩

end Verif.Proofs
