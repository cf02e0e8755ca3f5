import Verif.Proofs.Ends
import Verif.Proofs.Sensitivity
import Verif.Props.ValueTracker
import Verif.Spec.Dataflow

/-! Helper lemmas for the data flow analysis: growth of the graph, and driver maps of several
signals under recordings and merges. -/
namespace Verif.Proofs
open Verif.Spec Verif.Model Verif.Props

/-! ### The graph only grows -/

/-- Nodes, their data and connections of `a` are kept in `b`. -/
structure NetLe (a b : NetGraph) : Prop where
  nodes : ∀ n ∈ a.g.nodes, n ∈ b.g.nodes
  data : ∀ n ∈ a.g.nodes, b.data n = a.data n
  join : ∀ s t, Joined a s t → Joined b s t

theorem NetLe.refl (a : NetGraph) : NetLe a a := ⟨fun _ h => h, fun _ _ => rfl, fun _ _ h => h⟩

theorem NetLe.trans {a b c : NetGraph} (h : NetLe a b) (k : NetLe b c) : NetLe a c :=
  ⟨fun n hn => k.nodes n (h.nodes n hn),
    fun n hn => (k.data n (h.nodes n hn)).trans (h.data n hn),
    fun s t hj => k.join s t (h.join s t hj)⟩

/-- A plain edge. -/
theorem addEdge_spec {net : NetGraph} (hr : Reachable net) {a b : Nat} (ha : a ∈ net.g.nodes)
    (hb : b ∈ net.g.nodes) :
    ∃ net', net.call (.addEdge a b) = some net' ∧ Reachable net' ∧ net'.data = net.data ∧
      net'.g.nodes = net.g.nodes ∧
      ∀ s t, annots net' s t = if a = s ∧ b = t ∧ annots net s t = [] then [{}]
        else annots net s t := by
  obtain ⟨A, hrel, hi⟩ := reachable_rel hr
  have hc := call_addEdge (net := net) ha hb
  refine ⟨_, hc, reach_call hr hc, rfl, ?_⟩
  have hattr : ∀ k, k < A.nextEdge →
      (if k = net.g.nextEdge then ({} : EdgeAttr) else net.attr k) = net.attr k := by
    intro k hk
    have : k ≠ net.g.nextEdge := by rw [hrel.nextEdge]; omega
    simp [this]
  rcases rel_addEdge hrel a b with ⟨e, hf, heq⟩ | ⟨hf, heq⟩
  · refine ⟨by simp only [heq], fun s t => ?_⟩
    have hne : a = s ∧ b = t → annots net s t ≠ [] := by
      rintro ⟨rfl, rfl⟩ h
      rw [annots_eq hrel, annotsA, List.map_eq_nil_iff, List.filter_eq_nil_iff] at h
      exact h e (List.mem_of_find?_eq_some hf)
        (by have := List.find?_some hf; exact this)
    rw [if_neg fun h => hne ⟨h.1, h.2.1⟩ h.2.2, annots_eq hrel, annots_eq (by rw [heq]; exact hrel)]
    unfold annotsA
    refine List.map_congr_left fun e he => ?_
    exact hattr _ (hi.ends e (List.mem_filter.1 he).1).2.2
  · have hrel1 := (rel_addNewEdge (g := net.g) hrel a b)
    refine ⟨by simp only [heq]; rw [hrel1.1.nodes, hrel.nodes], fun s t => ?_⟩
    rw [annots_eq hrel, annots_eq (by rw [heq]; exact hrel1.1)]
    refine (annotsA_push hi (attr := net.attr) (a := {}) (by simp [hrel.nextEdge]) hattr s t).trans ?_
    by_cases hst : a = s ∧ b = t
    · obtain ⟨rfl, rfl⟩ := hst
      have : annotsA A net.attr a b = [] := by
        unfold annotsA
        rw [List.map_eq_nil_iff, List.filter_eq_nil_iff]
        rw [List.find?_eq_none] at hf
        exact hf
      rw [this]
      simp
    · rw [if_neg hst, if_neg fun h => hst ⟨h.1, h.2.1⟩]
      simp

theorem addEdge_le {net : NetGraph} (hr : Reachable net) {a b : Nat} (ha : a ∈ net.g.nodes)
    (hb : b ∈ net.g.nodes) :
    ∃ net', net.call (.addEdge a b) = some net' ∧ Reachable net' ∧ NetLe net net' ∧
      net'.g.nodes = net.g.nodes ∧
      ∀ s t, Joined net' s t ↔ Joined net s t ∨ (a = s ∧ b = t) := by
  obtain ⟨net', h1, h2, h3, h4, h5⟩ := addEdge_spec hr ha hb
  have hj : ∀ s t, Joined net' s t ↔ Joined net s t ∨ (a = s ∧ b = t) := by
    intro s t
    rw [joined_iff, joined_iff, h5]
    split
    · rename_i h; simp [h.1, h.2.1]
    · rename_i h
      constructor
      · exact Or.inl
      · rintro (h' | h')
        · exact h'
        · intro hc; exact h ⟨h'.1, h'.2, hc⟩
  exact ⟨net', h1, h2, ⟨fun n hn => h4 ▸ hn, fun n _ => by rw [h3], fun s t h => (hj s t).2 (.inl h)⟩,
    h4, hj⟩

theorem addNode_le {net : NetGraph} (hr : Reachable net) (d : NodeData) :
    ∃ net', net.call (.addNode d) = some net' ∧ Reachable net' ∧ NetLe net net' ∧
      net'.g.nodes = net.g.nodes ++ [net.g.nextNode] ∧ net.g.nextNode ∉ net.g.nodes ∧
      net'.data net.g.nextNode = d ∧ (∀ s t, Joined net' s t ↔ Joined net s t) ∧
      ∀ s t, (s = net.g.nextNode ∨ t = net.g.nextNode) → ¬ Joined net' s t := by
  obtain ⟨net', h1, h2, h3, h4, h5, h6, h7⟩ := newNode_spec hr d
  have hj : ∀ s t, Joined net' s t ↔ Joined net s t := by
    intro s t; rw [joined_iff, joined_iff, h6]
  refine ⟨net', h1, h2, ⟨?_, ?_, fun s t h => (hj s t).2 h⟩, h3, h4, by simp [h5], hj, ?_⟩
  · intro n hn; rw [h3]; exact List.mem_append_left _ hn
  · intro n hn
    rw [h5]
    simp only
    rw [if_neg]
    rintro rfl
    exact h4 hn
  · intro s t hst hc
    rw [hj, joined_iff] at hc
    exact hc (h7 s t hst)

theorem deps_le {net : NetGraph} (hr : Reachable net) {ds : List Dep}
    (hn : ∀ d ∈ ds, d.src ∈ net.g.nodes ∧ d.tgt ∈ net.g.nodes) :
    ∃ net', net.addDependencies ds = some net' ∧ Reachable net' ∧ NetLe net net' ∧
      net'.g.nodes = net.g.nodes ∧ net'.data = net.data ∧
      ∀ s t, Joined net' s t ↔ Joined net s t ∨ ∃ d ∈ ds, d.src = s ∧ d.tgt = t := by
  obtain ⟨net', h1, h2, h3, h4, _⟩ := addDependencies_spec hr hn
  have hj := dependencies_join hr hn h1
  exact ⟨net', h1, h2, ⟨fun n h => h4 ▸ h, fun n _ => by rw [h3],
    fun s t h => (hj s t).2 (.inl h)⟩, h4, h3, hj⟩

/-! ### The symbol table -/

/-- Slots are numbered without gaps, one per symbol. -/
structure TrkOk (t : Tracker) : Prop where
  fresh : ∀ p ∈ t.slots, p.2 < t.next
  inj : ∀ p ∈ t.slots, ∀ q ∈ t.slots, p.2 = q.2 → p = q
  keys : (t.slots.map (·.1)).Nodup
  full : ∀ i, i < t.next → ∃ y, (y, i) ∈ t.slots

/-- `t'` has the slots of `t` and possibly further ones. -/
structure TrkLe (t t' : Tracker) : Prop where
  old : ∀ p ∈ t.slots, p ∈ t'.slots
  new : ∀ p ∈ t'.slots, p ∈ t.slots ∨ t.next ≤ p.2
  next : t.next ≤ t'.next

theorem TrkLe.refl (t : Tracker) : TrkLe t t := ⟨fun _ h => h, fun _ h => .inl h, Nat.le_refl _⟩

theorem TrkLe.trans {a b c : Tracker} (h : TrkLe a b) (k : TrkLe b c) : TrkLe a c := by
  refine ⟨fun p hp => k.old p (h.old p hp), ?_, Nat.le_trans h.next k.next⟩
  intro p hp
  rcases k.new p hp with hp | hp
  · exact h.new p hp
  · exact .inr (Nat.le_trans h.next hp)

theorem trkOk_empty : TrkOk {} := ⟨by simp, by simp, by simp, by simp⟩

theorem slotFor_ok {t : Tracker} (ht : TrkOk t) (sym : Nat) :
    TrkOk (t.slotFor sym).1 ∧ TrkLe t (t.slotFor sym).1 ∧
      (sym, (t.slotFor sym).2) ∈ (t.slotFor sym).1.slots := by
  unfold Tracker.slotFor
  cases hg : t.getSlot sym with
  | some i => exact ⟨ht, TrkLe.refl t, getSlot_mem hg⟩
  | none =>
    have hn := getSlot_none hg
    refine ⟨⟨?_, ?_, ?_, ?_⟩, ⟨?_, ?_, ?_⟩, ?_⟩
    · intro p hp
      rcases List.mem_append.1 hp with hp | hp
      · have := ht.fresh p hp; simp only; omega
      · simp only [List.mem_singleton] at hp; subst hp; simp
    · intro p hp q hq hpq
      rcases List.mem_append.1 hp with hp | hp <;> rcases List.mem_append.1 hq with hq | hq
      · exact ht.inj p hp q hq hpq
      · simp only [List.mem_singleton] at hq; subst hq
        have := ht.fresh p hp
        simp only at hpq; omega
      · simp only [List.mem_singleton] at hp; subst hp
        have := ht.fresh q hq
        simp only at hpq; omega
      · simp only [List.mem_singleton] at hp hq; rw [hp, hq]
    · simp only [List.map_append, List.map_cons, List.map_nil]
      rw [List.nodup_append]
      refine ⟨ht.keys, by simp, ?_⟩
      intro a ha b hb hab
      simp only [List.mem_singleton] at hb
      subst hb; subst hab
      exact hn ha
    · intro i hi
      simp only at hi
      by_cases h : i < t.next
      · obtain ⟨y, hy⟩ := ht.full i h
        exact ⟨y, List.mem_append_left _ hy⟩
      · have : i = t.next := by omega
        subst this
        exact ⟨sym, by simp⟩
    · intro p hp; exact List.mem_append_left _ hp
    · intro p hp
      rcases List.mem_append.1 hp with hp | hp
      · exact .inl hp
      · simp only [List.mem_singleton] at hp; subst hp; exact .inr (Nat.le_refl _)
    · simp
    · simp

theorem TrkOk.sym_unique {t : Tracker} (ht : TrkOk t) {a b i : Nat} (ha : (a, i) ∈ t.slots)
    (hb : (b, i) ∈ t.slots) : a = b := (Prod.mk.inj (ht.inj _ ha _ hb rfl)).1

theorem TrkOk.slot_unique {t : Tracker} (ht : TrkOk t) {a i j : Nat} (ha : (a, i) ∈ t.slots)
    (hb : (a, j) ∈ t.slots) : i = j := by
  have h1 := getSlot_of_mem ht.keys ha
  have h2 := getSlot_of_mem ht.keys hb
  rw [h1] at h2
  exact Option.some.inj h2

/-! ### Driver maps of several signals -/

/-- An interval fits the writes: it lies inside a written range and ends at cuts. -/
structure Fits (W : List Wr) (sym : Nat) (lo hi : Int) : Prop where
  inside : ∃ w ∈ W, w.sym = sym ∧ w.bounds.lower ≤ lo ∧ hi ≤ w.bounds.upper
  lo : Cut W sym lo
  hi : Cut W sym (hi + 1)

theorem fits_noIn {W : List Wr} (hW : Plain W) {sym : Nat} {a b c d : Int} (h1 : Fits W sym a b)
    (h2 : Fits W sym c d) (hcd : c ≤ d) : ¬ (a < c ∧ d < b) := by
  rintro ⟨h3, h4⟩
  obtain ⟨w, hw, rfl, h5, h6⟩ := h1.inside
  exact hW.cuts w hw c (d + 1) h2.lo h2.hi (by omega) (by omega) (by omega)

theorem fits_write {W : List Wr} {w : Wr} (hw : w ∈ W) : Fits W w.sym w.bounds.lower w.bounds.upper :=
  ⟨⟨w, hw, rfl, Int.le_refl _, Int.le_refl _⟩, ⟨w, hw, rfl, .inl rfl⟩, ⟨w, hw, rfl, .inr rfl⟩⟩

theorem ivl_unique {m : List (Ivl Nat)} (h : MapOk m) {a b : Ivl Nat} (ha : a ∈ m) (hb : b ∈ m)
    {p : Int} (h1 : a.lo ≤ p) (h2 : p ≤ a.hi) (h3 : b.lo ≤ p) (h4 : p ≤ b.hi) : a = b := by
  have := h.2
  induction m with
  | nil => cases ha
  | cons x xs ih =>
    rw [List.pairwise_cons] at this
    rcases List.mem_cons.1 ha with ha' | ha'
    · rcases List.mem_cons.1 hb with hb' | hb'
      · rw [ha', hb']
      · have := this.1 b hb'; rw [← ha'] at this; omega
    · rcases List.mem_cons.1 hb with hb' | hb'
      · have := this.1 a ha'; rw [← hb'] at this; omega
      · exact ih ⟨fun e he => h.1 e (List.mem_cons_of_mem _ he), this.2⟩ ha' hb' this.2

/-- Every interval has a driver. -/
def Full (m : DMap) : Prop := ∀ p, Covers m.ivls p → ∃ d, Drv m p d

/-- Well-formed driver maps. -/
structure DrvOk (W : List Wr) (t : Tracker) (drv : List DMap) : Prop where
  len : drv.length ≤ t.next
  maps : ∀ y i m, (y, i) ∈ t.slots → drv[i]? = some m →
    DInv m ∧ ∀ x ∈ m.ivls, Fits W y x.lo x.hi
  full : ∀ y i m, (y, i) ∈ t.slots → drv[i]? = some m → Full m

/-- Node `d` is recorded for bit `p` of `y`. -/
def DAt (t : Tracker) (drv : List DMap) (y : Nat) (p : Int) (d : Option Nat) : Prop :=
  ∃ i m, (y, i) ∈ t.slots ∧ drv[i]? = some m ∧ Drv m p d

theorem drvOk_empty (W : List Wr) (t : Tracker) : DrvOk W t [] :=
  ⟨Nat.zero_le _, by intro y i m _ h; simp at h, by intro y i m _ h; simp at h⟩

theorem dAt_empty {t : Tracker} {y : Nat} {p : Int} {d : Option Nat} : ¬ DAt t [] y p d := by
  rintro ⟨i, m, _, h, _⟩; simp at h

theorem slots_old {t t' : Tracker} (h : TrkLe t t') {drv : List DMap} (hl : drv.length ≤ t.next)
    {y i : Nat} {m : DMap} (hy : (y, i) ∈ t'.slots) (hm : drv[i]? = some m) : (y, i) ∈ t.slots := by
  rcases h.new _ hy with h1 | h1
  · exact h1
  · have : i < drv.length := by
      rw [List.getElem?_eq_some_iff] at hm; exact hm.1
    simp only at h1; omega

theorem dAt_mono {t t' : Tracker} (h : TrkLe t t') {drv : List DMap} (hl : drv.length ≤ t.next)
    {y : Nat} {p : Int} {d : Option Nat} : DAt t' drv y p d ↔ DAt t drv y p d := by
  constructor
  · rintro ⟨i, m, h1, h2, h3⟩; exact ⟨i, m, slots_old h hl h1 h2, h2, h3⟩
  · rintro ⟨i, m, h1, h2, h3⟩; exact ⟨i, m, h.old _ h1, h2, h3⟩

theorem drvOk_mono {W : List Wr} {t t' : Tracker} (h : TrkLe t t') {drv : List DMap}
    (hd : DrvOk W t drv) : DrvOk W t' drv :=
  ⟨Nat.le_trans hd.len h.next, fun y i m h1 h2 => hd.maps y i m (slots_old h hd.len h1 h2) h2,
    fun y i m h1 h2 => hd.full y i m (slots_old h hd.len h1 h2) h2⟩

theorem growTo_get (drv : List DMap) (i k : Nat) :
    (growTo drv i)[k]? = if k < drv.length then drv[k]? else if k ≤ i then some {} else none := by
  unfold growTo
  split
  · rename_i h; rw [List.getElem?_append_left h]
  · rename_i h
    rw [List.getElem?_append_right (by omega), List.getElem?_replicate]
    split
    · rename_i h'; rw [if_pos (by omega)]
    · rename_i h'; rw [if_neg (by omega)]

theorem growTo_length (drv : List DMap) (i : Nat) :
    (growTo drv i).length = max drv.length (i + 1) := by
  unfold growTo; simp; omega

theorem drv_empty {p : Int} {d : Option Nat} : ¬ Drv {} p d := by
  rintro ⟨e, he, _⟩; simp at he

theorem growTo_ok {W : List Wr} {t : Tracker} {drv : List DMap} (hd : DrvOk W t drv) {i : Nat}
    (hi : i < t.next) : DrvOk W t (growTo drv i) ∧
      ∀ y p d, DAt t (growTo drv i) y p d ↔ DAt t drv y p d := by
  refine ⟨⟨by rw [growTo_length]; have := hd.len; omega, ?_, ?_⟩, ?_⟩
  · intro y k m h1 h2
    rw [growTo_get] at h2
    split at h2
    · exact hd.maps y k m h1 h2
    · split at h2
      · cases h2; exact ⟨dInv_empty, by simp⟩
      · cases h2
  · intro y k m h1 h2
    rw [growTo_get] at h2
    split at h2
    · exact hd.full y k m h1 h2
    · split at h2
      · cases h2; rintro p ⟨e, he, _⟩; simp at he
      · cases h2
  · intro y p d
    constructor
    · rintro ⟨k, m, h1, h2, h3⟩
      rw [growTo_get] at h2
      split at h2
      · exact ⟨k, m, h1, h2, h3⟩
      · split at h2
        · cases h2; exact absurd h3 drv_empty
        · cases h2
    · rintro ⟨k, m, h1, h2, h3⟩
      refine ⟨k, m, h1, ?_, h3⟩
      have : k < drv.length := by rw [List.getElem?_eq_some_iff] at h2; exact h2.1
      rw [growTo_get, if_pos this, h2]

/-- One recording on a fitting range. -/
theorem addDrivers_at {W : List Wr} (hW : Plain W) {t : Tracker} (ht : TrkOk t) {drv : List DMap}
    (hd : DrvOk W t drv) {sym : Nat} {b : BitRange} (hb : Fits W sym b.lower b.upper)
    (ds : List DriverInfo) (hds : ∃ d, HasN ds d) (merge : Bool) :
    ∃ drv', t.addDrivers drv sym ⟨b, ds, merge⟩ = .ok ((t.slotFor sym).1, drv') ∧
      DrvOk W (t.slotFor sym).1 drv' ∧
      (∀ p d, DAt (t.slotFor sym).1 drv' sym p d ↔ (b.lower ≤ p ∧ p ≤ b.upper ∧ HasN ds d) ∨
        (DAt t drv sym p d ∧ (b.lower ≤ p ∧ p ≤ b.upper → merge = true))) ∧
      ∀ y p d, y ≠ sym → (DAt (t.slotFor sym).1 drv' y p d ↔ DAt t drv y p d) := by
  obtain ⟨ht', hle, hs⟩ := slotFor_ok ht sym
  have hlh : b.lower ≤ b.upper := by simp only [BitRange.lower, BitRange.upper]; omega
  have hi := ht'.fresh _ hs
  generalize hi' : (t.slotFor sym).2 = i at hs hi
  generalize ht1 : (t.slotFor sym).1 = t1 at *
  have hd1 : DrvOk W t1 drv := drvOk_mono hle hd
  obtain ⟨hg, hat⟩ := growTo_ok hd1 hi
  have hget : ∃ m, (growTo drv i)[i]? = some m := by
    have : i < (growTo drv i).length := by rw [growTo_length]; omega
    exact ⟨_, List.getElem?_eq_getElem this⟩
  obtain ⟨m, hm⟩ := hget
  obtain ⟨hI, hf⟩ := hg.maps sym i m hs hm
  obtain ⟨w, hw, hws, hw1, hw2⟩ := hb.inside
  have hrng := hW.rng w hw
  obtain ⟨m', ho, hI', hsub, hcov, hdrv⟩ := addDrivers_ok (ds := ds) (merge := merge) hI (b := b)
    (by omega) (by omega) (fun x hx => fits_noIn hW (hf x hx) hb hlh)
  have hends := addDrivers_ends (K := Cut W sym) (fun x hx => ⟨(hf x hx).lo, (hf x hx).hi⟩) hb.lo hb.hi ho
  have hil : i < (growTo drv i).length := by rw [growTo_length]; omega
  refine ⟨(growTo drv i).set i m', ?_, ⟨by rw [List.length_set]; exact hg.len, ?_, ?_⟩, ?_, ?_⟩
  · have : t.slotFor sym = (t1, i) := by rw [← ht1, ← hi']
    simp only [Tracker.addDrivers, this, hm, ho, bind, Except.bind, pure, Except.pure]
  · intro y k mk h1 h2
    by_cases hk : i = k
    · subst hk
      rw [List.getElem?_set_self hil] at h2
      cases h2
      have hy := ht'.sym_unique h1 hs
      subst hy
      refine ⟨hI', fun x hx => ⟨?_, (hends x hx).1, (hends x hx).2⟩⟩
      rcases hsub x hx with ⟨e, he, h3, h4⟩ | ⟨h3, h4⟩
      · obtain ⟨v, hv, hvs, hv1, hv2⟩ := (hf e he).inside
        exact ⟨v, hv, hvs, by omega, by omega⟩
      · exact ⟨w, hw, hws, by omega, by omega⟩
    · rw [List.getElem?_set_ne hk] at h2
      exact hg.maps y k mk h1 h2
  · intro y k mk h1 h2
    by_cases hk : i = k
    · subst hk
      rw [List.getElem?_set_self hil] at h2
      cases h2
      intro p hp
      by_cases hin : b.lower ≤ p ∧ p ≤ b.upper
      · obtain ⟨d, hd⟩ := hds
        exact ⟨d, (hdrv p d).2 (.inl ⟨hin.1, hin.2, hd⟩)⟩
      · rcases (hcov p).1 hp with h | h
        · obtain ⟨d, hd⟩ := hg.full sym i m hs hm p h
          exact ⟨d, (hdrv p d).2 (.inr ⟨hd, fun h => absurd h hin⟩)⟩
        · exact absurd h hin
    · rw [List.getElem?_set_ne hk] at h2
      exact hg.full y k mk h1 h2
  · intro p d
    have hold : DAt t drv sym p d ↔ Drv m p d := by
      rw [← dAt_mono hle hd.len, ← hat]
      constructor
      · rintro ⟨k, mk, h1, h2, h3⟩
        have := ht'.slot_unique h1 hs
        subst this
        rw [hm] at h2; cases h2; exact h3
      · intro h; exact ⟨i, m, hs, hm, h⟩
    have hnew : DAt t1 ((growTo drv i).set i m') sym p d ↔ Drv m' p d := by
      constructor
      · rintro ⟨k, mk, h1, h2, h3⟩
        have := ht'.slot_unique h1 hs
        subst this
        rw [List.getElem?_set_self hil] at h2
        cases h2; exact h3
      · intro h; exact ⟨i, m', hs, List.getElem?_set_self hil, h⟩
    rw [hnew, hold, hdrv]
    rfl
  · intro y p d hy
    rw [← dAt_mono hle hd.len, ← hat]
    have hk : ∀ k, (y, k) ∈ t1.slots → i ≠ k := by
      rintro k h1 rfl
      exact hy (ht'.sym_unique h1 hs)
    constructor
    · rintro ⟨k, mk, h1, h2, h3⟩
      rw [List.getElem?_set_ne (hk k h1)] at h2
      exact ⟨k, mk, h1, h2, h3⟩
    · rintro ⟨k, mk, h1, h2, h3⟩
      exact ⟨k, mk, h1, by rw [List.getElem?_set_ne (hk k h1)]; exact h2, h3⟩

/-- Reading the drivers of a bit. -/
theorem drives_iff {W : List Wr} {t : Tracker} (ht : TrkOk t) {drv : List DMap}
    (hd : DrvOk W t drv) (y : Nat) (p : Int) (d : Option Nat) :
    Drives t drv y p d ↔ DAt t drv y p d := by
  have hlow : (BitRange.mk p p).lower = p := by simp [BitRange.lower]
  have hup : (BitRange.mk p p).upper = p := by simp [BitRange.upper]
  unfold Drives Tracker.intervals
  cases hg : t.getSlot y with
  | none =>
    constructor
    · rintro ⟨out, h, x, hx, _⟩; cases h; simp at hx
    · rintro ⟨i, m, h1, _⟩
      exact absurd (List.mem_map.2 ⟨_, h1, rfl⟩) (getSlot_none hg)
  | some i =>
    have hi := getSlot_mem hg
    cases hm : drv[i]? with
    | none =>
      simp only [hm]
      constructor
      · rintro ⟨out, h, x, hx, _⟩; cases h; simp at hx
      · rintro ⟨k, m, h1, h2, _⟩
        rw [ht.slot_unique h1 hi, hm] at h2; cases h2
    | some m =>
      simp only [hm]
      obtain ⟨hI, _⟩ := hd.maps y i m hi hm
      have hdat : DAt t drv y p d ↔ Drv m p d := by
        constructor
        · rintro ⟨k, mk, h1, h2, h3⟩
          rw [ht.slot_unique h1 hi, hm] at h2; cases h2; exact h3
        · intro h; exact ⟨i, m, hi, hm, h⟩
      rw [hdat]
      unfold DMap.intervals
      rw [hlow, hup]
      have key : ∀ es : List (Ivl Nat), (∀ e ∈ es, e ∈ m.ivls) →
          ∃ out, (es.mapM fun e => do
            let l ← m.getList e.val
            return ((⟨e.lo, e.hi⟩ : BitRange), l)) = .ok out ∧
            ((∃ x ∈ out, ∃ i ∈ x.2, i.node = d) ↔
              ∃ e ∈ es, ∃ l, m.lists.get e.val = some l ∧ HasN l d) := by
        intro es
        induction es with
        | nil => intro _; exact ⟨[], rfl, by simp⟩
        | cons e es ih =>
          intro h
          obtain ⟨out, ho, hs⟩ := ih fun x hx => h x (List.mem_cons_of_mem _ hx)
          obtain ⟨l, hl⟩ := hI.live e (h e List.mem_cons_self)
          refine ⟨(⟨e.lo, e.hi⟩, l) :: out, ?_, ?_⟩
          · rw [List.mapM_cons, ho]
            simp only [getList_ok hl, bind, Except.bind, pure, Except.pure]
          · simp only [List.mem_cons, exists_eq_or_imp, hs, hl, Option.some.injEq, exists_eq_left']
            rfl
      obtain ⟨out, ho, hs⟩ := key (imFind m.ivls p p) fun e he => (List.mem_filter.1 he).1
      constructor
      · rintro ⟨out', h, hx⟩
        rw [ho] at h; cases h
        obtain ⟨e, he, l, hl, hn⟩ := hs.1 hx
        obtain ⟨h1, h2⟩ := List.mem_filter.1 he
        simp [Ivl.hits] at h2
        exact ⟨e, h1, h2.1, h2.2, l, hl, hn⟩
      · rintro ⟨e, he, h1, h2, h3⟩
        exact ⟨out, ho, hs.2 ⟨e, List.mem_filter.2 ⟨he, by simp [Ivl.hits]; omega⟩, h3⟩⟩

/-! ### Merging -/

theorem symbolOf_eq {t : Tracker} (ht : TrkOk t) {y i : Nat} (h : (y, i) ∈ t.slots) :
    t.symbolOf i = some y := by
  unfold Tracker.symbolOf
  cases hf : t.slots.find? (fun p => p.2 == i) with
  | none =>
    rw [List.find?_eq_none] at hf
    exact absurd (by simp) (hf _ h)
  | some q =>
    have h1 := List.mem_of_find?_eq_some hf
    have h2 : (q.2 == i) = true := by have := List.find?_some hf; exact this
    simp only [beq_iff_eq] at h2
    have : q = (y, i) := ht.inj _ h1 _ h h2
    subst this
    rfl

theorem slotFor_mem {t : Tracker} (ht : TrkOk t) {y i : Nat} (h : (y, i) ∈ t.slots) :
    t.slotFor y = (t, i) := by
  unfold Tracker.slotFor
  rw [getSlot_of_mem ht.keys h]

theorem mergeIvls_at {W : List Wr} (hW : Plain W) {t : Tracker} (ht : TrkOk t) {m : DMap}
    (hI : DInv m) (hF : Full m) {y i : Nat} (hy : (y, i) ∈ t.slots) (es : List (Ivl Nat)) :
    ∀ drv : List DMap, DrvOk W t drv → (∀ e ∈ es, e ∈ m.ivls ∧ Fits W y e.lo e.hi) →
      ∃ drv', mergeIvls m (some y) t drv es = .ok (t, drv') ∧ DrvOk W t drv' ∧
        (∀ p d, DAt t drv' y p d ↔ DAt t drv y p d ∨
          ∃ e ∈ es, e.lo ≤ p ∧ p ≤ e.hi ∧ ∃ l, m.lists.get e.val = some l ∧ HasN l d) ∧
        ∀ z p d, z ≠ y → (DAt t drv' z p d ↔ DAt t drv z p d) := by
  induction es with
  | nil => intro drv hd _; exact ⟨drv, rfl, hd, by simp, fun _ _ _ _ => Iff.rfl⟩
  | cons e es ih =>
    intro drv hd he
    obtain ⟨h1, h2⟩ := he e List.mem_cons_self
    obtain ⟨l, hl⟩ := hI.live e h1
    have hne := hI.ok.1 e h1
    have hlow : (BitRange.mk e.lo e.hi).lower = e.lo := by simp [BitRange.lower]; omega
    have hup : (BitRange.mk e.lo e.hi).upper = e.hi := by simp [BitRange.upper]; omega
    obtain ⟨drv1, a1, a2, a3, a4⟩ := addDrivers_at hW ht hd (b := ⟨e.lo, e.hi⟩)
      (by rw [hlow, hup]; exact h2) l (by
        obtain ⟨d, e', he', g1, g2, l', hl', hn⟩ := hF e.lo ⟨e, h1, Int.le_refl _, hne⟩
        have := ivl_unique hI.ok he' h1 g1 g2 (Int.le_refl _) hne
        subst this
        rw [hl] at hl'; cases hl'
        exact ⟨d, hn⟩) true
    rw [slotFor_mem ht hy] at a1 a2 a3 a4
    obtain ⟨drv2, b1, b2, b3, b4⟩ := ih drv1 a2 fun x hx => he x (List.mem_cons_of_mem _ hx)
    refine ⟨drv2, by simp only [mergeIvls, getList_ok hl, a1, b1], b2, ?_, ?_⟩
    · intro p d
      rw [b3, a3, hlow, hup]
      simp only [List.mem_cons, exists_eq_or_imp, hl, Option.some.injEq, exists_eq_left', implies_true,
        and_true]
      constructor
      · rintro ((h | h) | h)
        · exact .inr (.inl h)
        · exact .inl h
        · exact .inr (.inr h)
      · rintro (h | h | h)
        · exact .inl (.inr h)
        · exact .inl (.inl h)
        · exact .inr h
    · intro z p d hz
      rw [b4 z p d hz, a4 z p d hz]

theorem mergeDrv_at {W : List Wr} (hW : Plain W) {t : Tracker} (ht : TrkOk t) {other : List DMap}
    (ho : DrvOk W t other) (ms : List DMap) :
    ∀ (pre : List DMap) (drv : List DMap), other = pre ++ ms → DrvOk W t drv →
      ∃ drv', mergeDrv t drv pre.length ms = .ok (t, drv') ∧ DrvOk W t drv' ∧
        ∀ y p d, DAt t drv' y p d ↔ DAt t drv y p d ∨
          ∃ i m, pre.length ≤ i ∧ (y, i) ∈ t.slots ∧ other[i]? = some m ∧ Drv m p d := by
  induction ms with
  | nil =>
    intro pre drv he hd
    refine ⟨drv, rfl, hd, fun y p d => ⟨.inl, ?_⟩⟩
    rintro (h | ⟨i, m, h1, _, h3, _⟩)
    · exact h
    · rw [he, List.append_nil, List.getElem?_eq_none h1] at h3; cases h3
  | cons m ms ih =>
    intro pre drv he hd
    have hat : other[pre.length]? = some m := by rw [he]; simp
    have hlt : pre.length < t.next := by
      have := ho.len
      rw [he] at this
      simp at this
      omega
    obtain ⟨y0, hy0⟩ := ht.full _ hlt
    obtain ⟨hI, hf⟩ := ho.maps y0 _ m hy0 hat
    obtain ⟨drv1, a1, a2, a3, a4⟩ := mergeIvls_at hW ht hI (ho.full y0 _ m hy0 hat) hy0 m.ivls drv hd
      (fun e he => ⟨he, hf e he⟩)
    obtain ⟨drv2, b1, b2, b3⟩ := ih (pre ++ [m]) drv1 (by simp [he]) a2
    have hlen : (pre ++ [m]).length = pre.length + 1 := by simp
    rw [hlen] at b1 b3
    refine ⟨drv2, by simp only [mergeDrv, symbolOf_eq ht hy0, a1, b1], b2, ?_⟩
    intro y p d
    rw [b3]
    by_cases hy : y = y0
    · subst hy
      rw [a3]
      constructor
      · rintro ((h | h) | ⟨i, mi, h1, h2, h3, h4⟩)
        · exact .inl h
        · exact .inr ⟨_, m, Nat.le_refl _, hy0, hat, h⟩
        · exact .inr ⟨i, mi, by omega, h2, h3, h4⟩
      · rintro (h | ⟨i, mi, h1, h2, h3, h4⟩)
        · exact .inl (.inl h)
        · have := ht.slot_unique h2 hy0
          subst this
          rw [hat] at h3; cases h3
          exact .inl (.inr h4)
    · rw [a4 y p d hy]
      constructor
      · rintro (h | ⟨i, mi, h1, h2, h3, h4⟩)
        · exact .inl h
        · exact .inr ⟨i, mi, by omega, h2, h3, h4⟩
      · rintro (h | ⟨i, mi, h1, h2, h3, h4⟩)
        · exact .inl h
        · refine .inr ⟨i, mi, ?_, h2, h3, h4⟩
          have : i ≠ pre.length := by
            rintro rfl
            exact hy (ht.sym_unique h2 hy0)
          omega

/-- Merging two states: a bit has the drivers of either. -/
theorem merge_at {W : List Wr} (hW : Plain W) {t : Tracker} (ht : TrkOk t) {drv other : List DMap}
    (hd : DrvOk W t drv) (ho : DrvOk W t other) :
    ∃ drv', mergeDrv t drv 0 other = .ok (t, drv') ∧ DrvOk W t drv' ∧
      ∀ y p d, DAt t drv' y p d ↔ DAt t drv y p d ∨ DAt t other y p d := by
  obtain ⟨drv', h1, h2, h3⟩ := mergeDrv_at hW ht ho other [] drv rfl hd
  refine ⟨drv', h1, h2, fun y p d => ?_⟩
  rw [h3]
  simp only [List.length_nil, Nat.zero_le, true_and]
  rfl

end Verif.Proofs
