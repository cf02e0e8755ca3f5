import Verif.Model.ValueTracker
import Verif.Props.External
import Verif.Props.Interval

/-!
Invariant and per-bit behaviour of one iteration of the driver map update.
-/
set_option linter.unusedSimpArgs false
namespace Verif.Proofs
open Verif.Model Verif.Props

/-- The list names node `n`. -/
def HasN (l : List DriverInfo) (n : Option Nat) : Prop := ∃ d ∈ l, d.node = n

theorem hasN_insert {l : List DriverInfo} {d : DriverInfo} {n : Option Nat} :
    HasN (dlInsert l d) n ↔ HasN l n ∨ d.node = n := by
  unfold dlInsert HasN
  split
  · rename_i h
    simp only [List.any_eq_true, beq_iff_eq] at h
    obtain ⟨x, hx, hn⟩ := h
    constructor
    · exact .inl
    · rintro (h | rfl)
      · exact h
      · exact ⟨x, hx, hn⟩
  · simp only [List.mem_append, List.mem_singleton]
    constructor
    · rintro ⟨x, hx | rfl, hn⟩
      · exact .inl ⟨x, hx, hn⟩
      · exact .inr hn
    · rintro (⟨x, hx, hn⟩ | h)
      · exact ⟨x, .inl hx, hn⟩
      · exact ⟨d, .inr rfl, h⟩

theorem hasN_insertAll {ds : List DriverInfo} {n : Option Nat} :
    ∀ {l : List DriverInfo}, HasN (dlInsertAll l ds) n ↔ HasN l n ∨ HasN ds n := by
  induction ds with
  | nil => intro l; simp [dlInsertAll, HasN]
  | cons d ds ih =>
    intro l
    have : dlInsertAll l (d :: ds) = dlInsertAll (dlInsert l d) ds := rfl
    rw [this, ih, hasN_insert]
    have : HasN (d :: ds) n ↔ d.node = n ∨ HasN ds n := by
      simp only [HasN, List.mem_cons, exists_eq_or_imp]
    rw [this, or_assoc]

/-- Node `n` drives bit `p`. -/
def Drv (m : DMap) (p : Int) (n : Option Nat) : Prop :=
  ∃ e ∈ m.ivls, e.lo ≤ p ∧ p ≤ e.hi ∧ ∃ l, m.lists.get e.val = some l ∧ HasN l n

/-- Invariant of a driver map in which no two intervals share a list. -/
structure DInv (m : DMap) : Prop where
  ok : MapOk m.ivls
  bnd : ∀ e ∈ m.ivls, -2147483648 ≤ e.lo ∧ e.hi < 2147483647
  live : ∀ e ∈ m.ivls, ∃ l, m.lists.get e.val = some l
  inj : ∀ a ∈ m.ivls, ∀ b ∈ m.ivls, a.val = b.val → a = b
  ext : ExtInv m.lists
  cnt : m.lists.slots.length ≤ m.ivls.length + m.lists.free.length

theorem mapOk_tail {α : Type} {e : Ivl α} {m : List (Ivl α)} (h : MapOk (e :: m)) : MapOk m :=
  ⟨fun x hx => h.1 x (by simp [hx]), (List.pairwise_cons.1 h.2).2⟩

theorem mapOk_len {α : Type} (m : List (Ivl α)) : ∀ A B : Int, A ≤ B → MapOk m →
    (∀ e ∈ m, A ≤ e.lo ∧ e.hi < B) → (m.length : Int) ≤ B - A := by
  induction m with
  | nil => intro A B h _ _; simp; omega
  | cons e es ih =>
    intro A B h hok hb
    have h1 := hok.1 e (by simp)
    have h2 := hb e (by simp)
    have := ih (e.hi + 1) B (by omega) (mapOk_tail hok) (fun x hx => by
      have := (List.pairwise_cons.1 hok.2).1 x hx
      have := hb x (by simp [hx])
      omega)
    simp only [List.length_cons]
    omega

theorem mapOk_disj {α : Type} {m : List (Ivl α)} (h : MapOk m) {a b : Ivl α} (ha : a ∈ m)
    (hb : b ∈ m) (hne : a ≠ b) : a.hi < b.lo ∨ b.hi < a.lo := by
  obtain ⟨i, hi, rfl⟩ := List.mem_iff_getElem.1 ha
  obtain ⟨j, hj, rfl⟩ := List.mem_iff_getElem.1 hb
  rcases Nat.lt_trichotomy i j with hij | hij | hij
  · exact .inl (List.pairwise_iff_getElem.1 h.2 i j hi hj hij)
  · subst hij; exact absurd rfl hne
  · exact .inr (List.pairwise_iff_getElem.1 h.2 j i hj hi hij)

theorem mapOk_nodup {α : Type} {m : List (Ivl α)} (h : MapOk m) : m.Nodup := by
  refine List.Pairwise.imp_of_mem ?_ h.2
  intro a b ha _ hab heq
  subst heq
  have := h.1 a ha
  omega

theorem mapOk_insert {α : Type} {lo hi : Int} {v : α} (hlh : lo ≤ hi) (m : List (Ivl α))
    (h : MapOk m) (hd : ∀ e ∈ m, e.hi < lo ∨ hi < e.lo) : MapOk (imInsert lo hi v m) := by
  refine ⟨?_, ?_⟩
  · intro e he
    rcases imInsert_mem.1 he with rfl | he
    · exact hlh
    · exact h.1 e he
  · induction m with
    | nil => simp [imInsert]
    | cons a as ih =>
      unfold imInsert
      have ha := h.1 a (by simp)
      have hda := hd a (by simp)
      split
      · rename_i hlt
        refine List.pairwise_cons.2 ⟨?_, h.2⟩
        intro x hx
        rcases List.mem_cons.1 hx with rfl | hx
        · simp only; omega
        · have := (List.pairwise_cons.1 h.2).1 x hx
          simp only; omega
      · rename_i hlt
        refine List.pairwise_cons.2 ⟨?_, ih (mapOk_tail h) fun e he => hd e (by simp [he])⟩
        intro x hx
        rcases imInsert_mem.1 hx with rfl | hx
        · simp only; omega
        · exact (List.pairwise_cons.1 h.2).1 x hx

theorem imInsert_length {α : Type} {lo hi : Int} {v : α} (m : List (Ivl α)) :
    (imInsert lo hi v m).length = m.length + 1 := by
  induction m with
  | nil => rfl
  | cons a as ih => unfold imInsert; split <;> simp [ih]

theorem imInsert_comm {α : Type} {a b c d : Int} {v w : α} (hne : a ≠ c) (m : List (Ivl α)) :
    imInsert a b v (imInsert c d w m) = imInsert c d w (imInsert a b v m) := by
  induction m with
  | nil =>
    simp only [imInsert]
    by_cases h : a < c
    · rw [if_pos h, if_neg (by omega)]
    · rw [if_neg h, if_pos (by omega)]
  | cons x xs ih =>
    simp only [imInsert]
    by_cases h1 : c < x.lo
    · rw [if_pos h1]
      by_cases h2 : a < x.lo
      · rw [if_pos h2]
        simp only [imInsert, if_pos h1, if_pos h2]
        by_cases h : a < c
        · rw [if_pos h, if_neg (by omega)]
        · rw [if_neg h, if_pos (by omega)]
      · rw [if_neg h2]
        simp only [imInsert, if_pos h1, if_neg h2]
        rw [if_neg (by omega)]
    · rw [if_neg h1]
      by_cases h2 : a < x.lo
      · rw [if_pos h2]
        simp only [imInsert, if_pos h2, if_neg h1]
        rw [if_neg (by omega)]
      · rw [if_neg h2]
        simp only [imInsert, if_neg h1, if_neg h2, ih]

theorem mapOk_erase {α : Type} [DecidableEq α] {m : List (Ivl α)} (h : MapOk m) (e : Ivl α) :
    MapOk (m.erase e) :=
  ⟨fun x hx => h.1 x (List.mem_of_mem_erase hx), h.2.sublist List.erase_sublist⟩

theorem mem_erase {m : List (Ivl Nat)} (h : MapOk m) {e x : Ivl Nat} :
    x ∈ m.erase e ↔ x ≠ e ∧ x ∈ m := (mapOk_nodup h).mem_erase_iff

theorem imFind_nil {m : List (Ivl Nat)} {lo hi : Int} (h : imFind m lo hi = []) :
    ∀ e ∈ m, e.hi < lo ∨ hi < e.lo := by
  intro e he
  have := List.filter_eq_nil_iff.1 h e he
  simp [Ivl.hits] at this
  omega

/-- What one allocation does. -/
structure Allocd (ls : ExtMgr (List DriverInfo)) (c : List DriverInfo)
    (ls' : ExtMgr (List DriverInfo)) (h : Nat) : Prop where
  fresh : ls.get h = none
  ext : ExtInv ls'
  cnt : ls'.slots.length + ls.free.length = ls.slots.length + ls'.free.length + 1
  get : ∀ k, ls'.get k = if k = h then some c else ls.get k

theorem DInv.len {m : DMap} (h : DInv m) : m.ivls.length < 4294967296 := by
  have := mapOk_len m.ivls (-2147483648) 2147483647 (by omega) h.ok h.bnd
  omega

theorem put_cnt {α : Type} {m m' : ExtMgr α} {h : Nat} {x : α} (hp : m.put h x = some m') :
    m'.slots.length = m.slots.length ∧ m'.free = m.free := by
  unfold ExtMgr.put at hp
  split at hp
  · simp only [Option.some.injEq] at hp; subst hp; simp
  · cases hp

theorem addList_ok {m : DMap} (hi : DInv m) (c : List DriverInfo) :
    ∃ ls h, (∀ iv, (DMap.mk iv m.lists).addList c = .ok (⟨iv, ls⟩, h)) ∧
      Allocd m.lists c ls h := by
  have hfull : m.lists.free = [] → m.lists.slots.length < 4294967296 := by
    intro hf
    have h1 := hi.cnt
    have h2 := hi.len
    rw [hf] at h1
    simp at h1
    omega
  obtain ⟨l1, h, ha, hg, hinv, _, hk⟩ := ext_alloc hi.ext hfull ([] : List DriverInfo)
  have hput := ext_put hinv h c
  rw [hk h, if_pos rfl] at hput
  obtain ⟨l2, hp, hinv2, hlen, hk2⟩ := hput
  refine ⟨l2, h, ?_, hg, hinv2, ?_, ?_⟩
  · intro iv
    simp only [DMap.addList, ha, hp]
  · obtain ⟨h1, h2⟩ := put_cnt hp
    rw [h1, h2]
    unfold ExtMgr.allocate at ha
    cases hf : m.lists.free with
    | nil =>
      rw [hf] at ha
      simp only [Option.some.injEq, Prod.mk.injEq] at ha
      rw [← ha.1]
      simp [hf]
    | cons i rest =>
      rw [hf] at ha
      simp only at ha
      split at ha
      · simp only [Option.some.injEq, Prod.mk.injEq] at ha
        rw [← ha.1]
        simp
        omega
      · cases ha
  · intro k
    rw [hk2, hk]
    split <;> rfl

/-- The driver list of the interval holding a bit decides the drivers of the bit. -/
theorem drv_at {m : DMap} (hok : MapOk m.ivls) {e : Ivl Nat} (he : e ∈ m.ivls) {p : Int}
    (h1 : e.lo ≤ p) (h2 : p ≤ e.hi) {l : List DriverInfo} (hl : m.lists.get e.val = some l)
    {n : Option Nat} : Drv m p n ↔ HasN l n := by
  constructor
  · rintro ⟨x, hx, h3, h4, l', hl', hn⟩
    by_cases hxe : x = e
    · subst hxe
      rw [hl] at hl'
      cases hl'
      exact hn
    · rcases mapOk_disj hok hx he hxe with h | h <;> omega
  · exact fun hn => ⟨e, he, h1, h2, l, hl, hn⟩

/-- Outside all intervals there is no driver. -/
theorem drv_none {m : DMap} {p : Int} (h : ¬ Covers m.ivls p) {n : Option Nat} : ¬ Drv m p n :=
  fun ⟨e, he, h1, h2, _⟩ => h ⟨e, he, h1, h2⟩

/-- Shrinking an interval. -/
theorem shrink_ok {iv : List (Ivl Nat)} {ls : ExtMgr (List DriverInfo)} (hi : DInv ⟨iv, ls⟩)
    {e : Ivl Nat} (he : e ∈ iv) {a b : Int} (h1 : e.lo ≤ a) (h2 : a ≤ b) (h3 : b ≤ e.hi) :
    DInv ⟨imInsert a b e.val (iv.erase e), ls⟩ ∧
    (∀ x, x ∈ imInsert a b e.val (iv.erase e) ↔ x = ⟨a, b, e.val⟩ ∨ (x ≠ e ∧ x ∈ iv)) ∧
    ∀ p n, Drv ⟨imInsert a b e.val (iv.erase e), ls⟩ p n ↔
      Drv ⟨iv, ls⟩ p n ∧ ¬ (e.lo ≤ p ∧ p ≤ e.hi ∧ ¬ (a ≤ p ∧ p ≤ b)) := by
  have hok : MapOk iv := hi.ok
  have hmem : ∀ x, x ∈ imInsert a b e.val (iv.erase e) ↔
      x = ⟨a, b, e.val⟩ ∨ (x ≠ e ∧ x ∈ iv) := by
    intro x; rw [imInsert_mem, mem_erase hok]
  obtain ⟨l, hl⟩ := hi.live e he
  have hdis : ∀ x ∈ iv, x ≠ e → x.hi < e.lo ∨ e.hi < x.lo := fun x hx hne => mapOk_disj hok hx he hne
  have hbe := hi.bnd e he
  refine ⟨⟨?_, ?_, ?_, ?_, hi.ext, ?_⟩, hmem, ?_⟩
  · refine mapOk_insert h2 _ (mapOk_erase hok e) ?_
    intro x hx
    obtain ⟨hne, hx⟩ := (mem_erase hok).1 hx
    rcases hdis x hx hne with h | h <;> omega
  · intro x hx
    rcases (hmem x).1 hx with rfl | ⟨hne, hx⟩
    · simp only at hbe ⊢; omega
    · exact hi.bnd x hx
  · intro x hx
    rcases (hmem x).1 hx with rfl | ⟨hne, hx⟩
    · exact ⟨l, hl⟩
    · exact hi.live x hx
  · intro x hx y hy hxy
    rcases (hmem x).1 hx with rfl | ⟨hne, hx⟩ <;> rcases (hmem y).1 hy with rfl | ⟨hne', hy⟩
    · rfl
    · exact absurd (hi.inj y hy e he hxy.symm) hne'
    · exact absurd (hi.inj x hx e he hxy) hne
    · exact hi.inj x hx y hy hxy
  · have h4 := hi.cnt
    have h5 := List.length_erase_of_mem he
    have h6 : 0 < iv.length := List.length_pos_of_mem he
    simp only [imInsert_length] at h4 ⊢
    omega
  · intro p n
    constructor
    · rintro ⟨x, hx, h4, h5, l', hl', hn⟩
      simp only at hx hl'
      rcases (hmem x).1 hx with rfl | ⟨hne, hx⟩
      · simp only at h4 h5 hl'
        exact ⟨⟨e, he, by omega, by omega, l', hl', hn⟩, by omega⟩
      · refine ⟨⟨x, hx, h4, h5, l', hl', hn⟩, ?_⟩
        rcases hdis x hx hne with h | h <;> omega
    · rintro ⟨⟨x, hx, h4, h5, l', hl', hn⟩, hnot⟩
      simp only at hx hl'
      by_cases hxe : x = e
      · subst hxe
        exact ⟨⟨a, b, x.val⟩, (hmem _).2 (.inl rfl), by simp only; omega, by simp only; omega, l', hl', hn⟩
      · exact ⟨x, (hmem _).2 (.inr ⟨hxe, hx⟩), h4, h5, l', hl', hn⟩

/-- Inserting a disjoint interval with a new list. -/
theorem add_ok {iv : List (Ivl Nat)} {ls ls' : ExtMgr (List DriverInfo)} (hi : DInv ⟨iv, ls⟩)
    {c : List DriverInfo} {h : Nat} (hA : Allocd ls c ls' h) {a b : Int} (h1 : -2147483648 ≤ a)
    (h2 : a ≤ b) (h3 : b < 2147483647) (hd : ∀ e ∈ iv, e.hi < a ∨ b < e.lo) :
    DInv ⟨imInsert a b h iv, ls'⟩ ∧
    ∀ p n, Drv ⟨imInsert a b h iv, ls'⟩ p n ↔ Drv ⟨iv, ls⟩ p n ∨ (a ≤ p ∧ p ≤ b ∧ HasN c n) := by
  have hnot : ∀ e ∈ iv, e.val ≠ h := by
    intro e he heq
    obtain ⟨l, hl⟩ := hi.live e he
    simp only at hl
    rw [heq, hA.fresh] at hl
    cases hl
  refine ⟨⟨mapOk_insert h2 iv hi.ok hd, ?_, ?_, ?_, hA.ext, ?_⟩, ?_⟩
  · intro e he
    rcases imInsert_mem.1 he with rfl | he
    · exact ⟨h1, h3⟩
    · exact hi.bnd e he
  · intro e he
    rcases imInsert_mem.1 he with rfl | he
    · exact ⟨c, by simp only [hA.get, if_pos]⟩
    · simp only [hA.get, if_neg (hnot e he)]
      exact hi.live e he
  · intro x hx y hy hxy
    rcases imInsert_mem.1 hx with rfl | hx <;> rcases imInsert_mem.1 hy with rfl | hy
    · rfl
    · exact absurd hxy.symm (hnot y hy)
    · exact absurd hxy (hnot x hx)
    · exact hi.inj x hx y hy hxy
  · have h4 := hi.cnt
    have h5 := hA.cnt
    simp only [imInsert_length] at h4 ⊢
    omega
  · intro p n
    constructor
    · rintro ⟨x, hx, h4, h5, l, hl, hn⟩
      simp only at hx hl
      rcases imInsert_mem.1 hx with rfl | hx
      · simp only [hA.get, if_pos] at hl h4 h5
        cases hl
        exact .inr ⟨h4, h5, hn⟩
      · rw [hA.get, if_neg (hnot x hx)] at hl
        exact .inl ⟨x, hx, h4, h5, l, hl, hn⟩
    · rintro (⟨x, hx, h4, h5, l, hl, hn⟩ | ⟨h4, h5, hn⟩)
      · simp only at hx hl
        exact ⟨x, imInsert_mem.2 (.inr hx), h4, h5, l, by simp only [hA.get, if_neg (hnot x hx), hl], hn⟩
      · exact ⟨⟨a, b, h⟩, imInsert_mem.2 (.inl rfl), h4, h5, c, by simp only [hA.get, if_pos], hn⟩

/-- Replacing the list of one interval. -/
theorem put_ok {m : DMap} (hi : DInv m) {e : Ivl Nat} (he : e ∈ m.ivls) (c : List DriverInfo) :
    ∃ ls, m.putList e.val c = .ok ⟨m.ivls, ls⟩ ∧ DInv ⟨m.ivls, ls⟩ ∧
      (∀ k, ls.get k = if k = e.val then some c else m.lists.get k) ∧
      ∀ p n, Drv ⟨m.ivls, ls⟩ p n ↔
        if e.lo ≤ p ∧ p ≤ e.hi then HasN c n else Drv m p n := by
  obtain ⟨l, hl⟩ := hi.live e he
  have hput := ext_put hi.ext e.val c
  rw [hl] at hput
  obtain ⟨ls, hp, hext, hlen, hget⟩ := hput
  have hinv : DInv ⟨m.ivls, ls⟩ := by
    refine ⟨hi.ok, hi.bnd, ?_, hi.inj, hext, ?_⟩
    · intro x hx
      simp only [hget]
      split
      · exact ⟨c, rfl⟩
      · exact hi.live x hx
    · have h1 := put_cnt hp
      have h2 := hi.cnt
      simp only [h1]
      exact h2
  refine ⟨ls, by simp only [DMap.putList, hp], hinv, hget, ?_⟩
  intro p n
  split
  · rename_i hin
    exact drv_at hinv.ok he hin.1 hin.2 (by rw [hget, if_pos rfl])
  · rename_i hout
    constructor
    · rintro ⟨x, hx, h4, h5, l', hl', hn⟩
      have hne : x.val ≠ e.val := by
        intro heq
        have := hi.inj x hx e he heq
        subst this
        exact hout ⟨h4, h5⟩
      simp only [hget, if_neg hne] at hl'
      exact ⟨x, hx, h4, h5, l', hl', hn⟩
    · rintro ⟨x, hx, h4, h5, l', hl', hn⟩
      have hne : x.val ≠ e.val := by
        intro heq
        have := hi.inj x hx e he heq
        subst this
        exact hout ⟨h4, h5⟩
      exact ⟨x, hx, h4, h5, l', by simp only [hget, if_neg hne, hl'], hn⟩

/-- Removing an interval and releasing its list. -/
theorem drop_ok {m : DMap} (hi : DInv m) {e : Ivl Nat} (he : e ∈ m.ivls) :
    ∃ ls, (m.eraseAt e).freeIfValid e.val = .ok ⟨m.ivls.erase e, ls⟩ ∧
      DInv ⟨m.ivls.erase e, ls⟩ ∧
      ∀ p n, Drv ⟨m.ivls.erase e, ls⟩ p n ↔ Drv m p n ∧ ¬ (e.lo ≤ p ∧ p ≤ e.hi) := by
  obtain ⟨l, hl⟩ := hi.live e he
  have her := ext_erase hi.ext e.val
  rw [hl] at her
  obtain ⟨ls, hp, hext, hlen, hget⟩ := her
  have hok := hi.ok
  have hvalid : m.lists.valid e.val = true := by
    unfold ExtMgr.valid
    rw [ext_get_eq] at hl
    cases hc : m.lists.slots[e.val]? with
    | none => rw [hc] at hl; cases hl
    | some q =>
      cases q with
      | none => rw [hc] at hl; cases hl
      | some y => rfl
  have hcnt : ls.free.length = m.lists.free.length + 1 := by
    unfold ExtMgr.erase at hp
    split at hp
    · simp only [Option.some.injEq] at hp; subst hp; simp
    · cases hp
  have hne : ∀ x ∈ m.ivls, x ≠ e → x.val ≠ e.val := fun x hx h heq => h (hi.inj x hx e he heq)
  refine ⟨ls, ?_, ⟨mapOk_erase hok e, ?_, ?_, ?_, hext, ?_⟩, ?_⟩
  · simp only [DMap.freeIfValid, DMap.eraseAt, hvalid, if_pos, hp]
  · intro x hx
    exact hi.bnd x (List.mem_of_mem_erase hx)
  · intro x hx
    obtain ⟨h1, h2⟩ := (mem_erase hok).1 hx
    simp only [hget, if_neg (hne x h2 h1)]
    exact hi.live x h2
  · intro x hx y hy
    exact hi.inj x (List.mem_of_mem_erase hx) y (List.mem_of_mem_erase hy)
  · have h4 := hi.cnt
    have h5 := List.length_erase_of_mem he
    have h6 : 0 < m.ivls.length := List.length_pos_of_mem he
    simp only
    omega
  · intro p n
    constructor
    · rintro ⟨x, hx, h4, h5, l', hl', hn⟩
      obtain ⟨h1, h2⟩ := (mem_erase hok).1 hx
      simp only [hget, if_neg (hne x h2 h1)] at hl'
      refine ⟨⟨x, h2, h4, h5, l', hl', hn⟩, ?_⟩
      rcases mapOk_disj hok h2 he h1 with h | h <;> omega
    · rintro ⟨⟨x, hx, h4, h5, l', hl', hn⟩, hnot⟩
      have h1 : x ≠ e := by rintro rfl; exact hnot ⟨h4, h5⟩
      exact ⟨x, (mem_erase hok).2 ⟨h1, hx⟩, h4, h5, l', by simp only [hget, if_neg (hne x hx h1), hl'], hn⟩

theorem covers_insert {α : Type} {a b : Int} {v : α} {m : List (Ivl α)} {p : Int} :
    Covers (imInsert a b v m) p ↔ (a ≤ p ∧ p ≤ b) ∨ Covers m p := by
  unfold Covers
  constructor
  · rintro ⟨x, hx, h1, h2⟩
    rcases imInsert_mem.1 hx with rfl | hx
    · exact .inl ⟨h1, h2⟩
    · exact .inr ⟨x, hx, h1, h2⟩
  · rintro (h | ⟨x, hx, h⟩)
    · exact ⟨_, imInsert_mem.2 (.inl rfl), h⟩
    · exact ⟨x, imInsert_mem.2 (.inr hx), h⟩

theorem covers_erase {m : List (Ivl Nat)} (hok : MapOk m) {e : Ivl Nat} (he : e ∈ m) {p : Int} :
    Covers (m.erase e) p ↔ Covers m p ∧ ¬ (e.lo ≤ p ∧ p ≤ e.hi) := by
  unfold Covers
  constructor
  · rintro ⟨x, hx, h1, h2⟩
    obtain ⟨hne, hx⟩ := (mem_erase hok).1 hx
    refine ⟨⟨x, hx, h1, h2⟩, ?_⟩
    rcases mapOk_disj hok hx he hne with h | h <;> omega
  · rintro ⟨⟨x, hx, h1, h2⟩, hn⟩
    exact ⟨x, (mem_erase hok).2 ⟨by rintro rfl; exact hn ⟨h1, h2⟩, hx⟩, h1, h2⟩

/-- The drivers wanted once `[lo, hi]` has been handled. -/
def Tgt (m : DMap) (lo hi : Int) (ds : List DriverInfo) (merge : Bool) (p : Int) (n : Option Nat) :
    Prop :=
  (lo ≤ p ∧ p ≤ hi ∧ HasN ds n) ∨ (Drv m p n ∧ (lo ≤ p ∧ p ≤ hi → merge = true))

/-- Every interval of `m'` lies inside `[lo, hi]`, or inside one of `m` and apart from the bits from `lo` to
below `cut`. -/
def Sub (m m' : DMap) (lo hi cut : Int) : Prop :=
  ∀ x ∈ m'.ivls, (∃ e ∈ m.ivls, e.lo ≤ x.lo ∧ x.hi ≤ e.hi ∧ (x.hi < lo ∨ cut ≤ x.lo ∨ cut ≤ lo)) ∨
    (lo ≤ x.lo ∧ x.hi ≤ hi)

/-- No interval extends `[lo, hi]` on both sides. -/
def NoIn (m : DMap) (lo hi : Int) : Prop := ∀ x ∈ m.ivls, ¬ (x.lo < lo ∧ hi < x.hi)

/-- Number of intervals overlapping `[lo, hi]`. -/
def hitCount (m : DMap) (lo hi : Int) : Nat := m.ivls.countP fun e => e.hits lo hi

/-- What one iteration must achieve. -/
def StepOk (m : DMap) (lo hi : Int) (ds : List DriverInfo) (merge : Bool) : AddStep → Prop
  | .done m' => DInv m' ∧ Sub m m' lo hi (hi + 1) ∧
      (∀ p, Covers m'.ivls p ↔ Covers m.ivls p ∨ (lo ≤ p ∧ p ≤ hi)) ∧
      ∀ p n, Drv m' p n ↔ Tgt m lo hi ds merge p n
  | .again m' lo' => DInv m' ∧ Sub m m' lo hi lo' ∧ lo ≤ lo' ∧ lo' ≤ hi ∧ NoIn m' lo' hi ∧
      hitCount m' lo' hi < hitCount m lo hi ∧
      (∀ p, Covers m'.ivls p ∨ (lo' ≤ p ∧ p ≤ hi) ↔ Covers m.ivls p ∨ (lo ≤ p ∧ p ≤ hi)) ∧
      ∀ p n, Tgt m' lo' hi ds merge p n ↔ Tgt m lo hi ds merge p n
  | .skip => False

theorem getList_ok {m : DMap} {h : Nat} {l : List DriverInfo} (hl : m.lists.get h = some l) :
    m.getList h = .ok l := by simp only [DMap.getList, hl]

theorem incr32_ok {x : Int} (h : x < 2147483647) : incr32 x = .ok (x + 1) := by
  unfold incr32 int32Max; rw [if_pos h]

theorem countP_imInsert {lo hi : Int} {v : Nat} {f : Ivl Nat → Bool} (m : List (Ivl Nat)) :
    (imInsert lo hi v m).countP f = m.countP f + (if f ⟨lo, hi, v⟩ then 1 else 0) := by
  induction m with
  | nil => simp [imInsert, List.countP_cons]
  | cons a as ih =>
    unfold imInsert
    split
    · simp only [List.countP_cons]
    · simp only [List.countP_cons, ih]; omega

theorem countP_lt {f g : Ivl Nat → Bool} {e : Ivl Nat} (m : List (Ivl Nat)) (he : e ∈ m)
    (hfg : ∀ x ∈ m, f x = true → g x = true) (hf : f e = false) (hg : g e = true) :
    m.countP f < m.countP g := by
  induction m with
  | nil => simp at he
  | cons a as ih =>
    have hmono : as.countP f ≤ as.countP g :=
      List.countP_mono_left fun x hx h => hfg x (by simp [hx]) h
    simp only [List.countP_cons]
    rcases List.mem_cons.1 he with rfl | he
    · simp only [hf, hg]
      simp
      omega
    · have := ih he fun x hx => hfg x (by simp [hx])
      have h2 : (if f a = true then 1 else 0) ≤ (if g a = true then 1 else 0) := by
        by_cases h : f a = true
        · rw [if_pos h, if_pos (hfg a (by simp) h)]; exact Nat.le_refl _
        · rw [if_neg h]; exact Nat.zero_le _
      omega

section Steps
variable {m : DMap} {lo hi : Int} {ds : List DriverInfo} {merge : Bool} {e : Ivl Nat}

theorem step_match (hi' : DInv m) (he : e ∈ m.ivls) (c : List DriverInfo) (l : List DriverInfo)
    (hl : m.lists.get e.val = some l)
    (h1 : e.lo = lo) (h2 : e.hi = hi)
    (hc : ∀ n, HasN c n ↔ HasN ds n ∨ (merge = true ∧ HasN l n)) :
    ∃ m', m.putList e.val c = .ok m' ∧ StepOk m lo hi ds merge (.done m') := by
  obtain ⟨ls, hp, hinv, _, hd⟩ := put_ok hi' he c
  refine ⟨_, hp, hinv, ?_, ?_, ?_⟩
  · intro x hx
    by_cases hxe : x = e
    · exact .inr (by subst hxe; omega)
    · rcases mapOk_disj hi'.ok hx he hxe with h | h <;> exact .inl ⟨x, hx, by omega, by omega, by omega⟩
  · intro p
    refine ⟨.inl, ?_⟩
    rintro (h | h)
    · exact h
    · exact ⟨e, he, by omega, by omega⟩
  · intro p n
    rw [hd]
    unfold Tgt
    split
    · rename_i hin
      rw [hc, drv_at hi'.ok he hin.1 hin.2 hl]
      subst h1 h2
      grind
    · rename_i hout
      subst h1 h2
      grind

/-- Shrink `e` to a part outside the new bounds and put a new list on the part inside. -/
theorem split_ok (hi' : DInv m) (he : e ∈ m.ivls) {a b c d : Int} {cs : List DriverInfo}
    {ls : ExtMgr (List DriverInfo)} {h : Nat} (hA : Allocd m.lists cs ls h)
    (h1 : e.lo ≤ a) (h2 : a ≤ b) (h3 : b ≤ e.hi)
    (h4 : c ≤ d) (h6 : -2147483648 ≤ c) (h7 : d < 2147483647)
    (h5 : b < c ∨ d < a)
    (h8 : ∀ x ∈ m.ivls, x ≠ e → x.hi < c ∨ d < x.lo)  :
    DInv ⟨imInsert c d h (imInsert a b e.val (m.ivls.erase e)), ls⟩ ∧
    (∀ p, Covers (imInsert c d h (imInsert a b e.val (m.ivls.erase e))) p ↔
      (c ≤ p ∧ p ≤ d) ∨ (Covers m.ivls p ∧ ¬ (e.lo ≤ p ∧ p ≤ e.hi ∧ ¬ (a ≤ p ∧ p ≤ b)))) ∧
    (∀ p n, Drv ⟨imInsert c d h (imInsert a b e.val (m.ivls.erase e)), ls⟩ p n ↔
      (c ≤ p ∧ p ≤ d ∧ HasN cs n) ∨
        (Drv m p n ∧ ¬ (e.lo ≤ p ∧ p ≤ e.hi ∧ ¬ (a ≤ p ∧ p ≤ b)))) ∧
    ∀ x, x ∈ imInsert c d h (imInsert a b e.val (m.ivls.erase e)) ↔
      x = ⟨c, d, h⟩ ∨ x = ⟨a, b, e.val⟩ ∨ (x ≠ e ∧ x ∈ m.ivls) := by
  obtain ⟨s1, s2, s3⟩ := shrink_ok (iv := m.ivls) (ls := m.lists) hi' he h1 h2 h3
  obtain ⟨a1, a2⟩ := add_ok s1 hA h6 h4 h7 (by
    intro x hx
    rcases (s2 x).1 hx with rfl | ⟨hne, hx⟩
    · exact h5
    · exact h8 x hx hne)
  refine ⟨a1, ?_, ?_, ?_⟩
  · intro p
    rw [covers_insert, covers_insert, covers_erase hi'.ok he]
    have : e.lo ≤ p ∧ p ≤ e.hi → Covers m.ivls p := fun h => ⟨e, he, h⟩
    grind
  · intro p n
    rw [a2, s3, or_comm]
  · intro x
    rw [imInsert_mem, s2]

theorem hasN_content {l ds : List DriverInfo} {merge : Bool} {n : Option Nat} :
    HasN (if merge then dlInsertAll l ds else ds) n ↔ HasN ds n ∨ (merge = true ∧ HasN l n) := by
  cases merge
  · simp
  · simp only [if_pos, hasN_insertAll]
    simp [or_comm]

theorem stepSplit_ok (hI : DInv m) (he : e ∈ m.ivls)
    (hlh : lo ≤ hi) (hb1 : -2147483648 ≤ lo) (hb2 : hi < 2147483647) (hno : NoIn m lo hi)
    (hm : ¬ (e.lo = lo ∧ e.hi = hi)) (hs : e.lo ≤ lo ∧ hi ≤ e.hi) :
    ∃ o, stepSplit m lo hi ds merge e = .ok o ∧ StepOk m lo hi ds merge o := by
  have hok := hI.ok
  obtain ⟨l, hl⟩ := hI.live e he
  have hnoe := hno e he
  have hdis : ∀ x ∈ m.ivls, x ≠ e → x.hi < e.lo ∨ e.hi < x.lo :=
    fun x hx h => mapOk_disj hok hx he h
  obtain ⟨ls, h, hadd, hA⟩ := addList_ok hI (if merge then dlInsertAll l ds else ds)
  by_cases hlt : e.lo < lo
  · have heq : e.hi = hi := by omega
    obtain ⟨s1, s2, s3, s4⟩ := split_ok hI he hA (a := e.lo) (b := lo - 1) (c := lo) (d := hi)
      (by omega) (by omega) (by omega) hlh hb1 hb2 (by omega)
      (fun x hx hx' => by rcases hdis x hx hx' with h | h <;> omega)
    refine ⟨.done ⟨imInsert lo hi h (imInsert e.lo (lo - 1) e.val (m.ivls.erase e)), ls⟩, ?_,
      s1, ?_, ?_, ?_⟩
    · unfold stepSplit
      have hng : ¬ e.hi > hi := by omega
      cases merge
      · have := hadd (imInsert e.lo (lo - 1) e.val (m.ivls.erase e))
        simp only [Bool.false_eq_true, if_false] at this
        simp only [if_pos hlt, if_neg hng, DMap.eraseAt, DMap.insert, decr32, bind, Except.bind, pure,
          Except.pure, this, Bool.false_eq_true, if_false]
      · have := hadd (imInsert e.lo (lo - 1) e.val (m.ivls.erase e))
        simp only [if_true] at this
        simp only [if_pos hlt, if_neg hng, DMap.eraseAt, DMap.insert, decr32, bind, Except.bind, pure,
          Except.pure, if_true, DMap.getList, hl, this]
    · intro x hx
      rcases (s4 x).1 hx with rfl | rfl | ⟨hxe, hx⟩
      · exact .inr ⟨Int.le_refl _, Int.le_refl _⟩
      · exact .inl ⟨e, he, by simp only; omega, by simp only; omega, by simp only; omega⟩
      · exact .inl ⟨x, hx, Int.le_refl _, Int.le_refl _, by rcases hdis x hx hxe with h | h <;> omega⟩
    · intro p
      simp only [s2]
      have : e.lo ≤ p ∧ p ≤ e.hi → Covers m.ivls p := fun h => ⟨e, he, h⟩
      by_cases hin : lo ≤ p ∧ p ≤ hi
      · simp [hin]
      · simp only [hin, false_or, or_false]
        refine ⟨fun h => h.1, fun h => ⟨h, by omega⟩⟩
    · intro p n
      rw [s3, hasN_content]
      unfold Tgt
      by_cases hin : lo ≤ p ∧ p ≤ hi
      · rw [drv_at hok he (by omega) (by omega) hl]
        have : ¬ (lo - 1 ≥ p) := by omega
        grind
      · have : ¬ (e.lo ≤ p ∧ p ≤ e.hi ∧ ¬(e.lo ≤ p ∧ p ≤ lo - 1)) := by omega
        simp only [this, not_false_eq_true, and_true]
        grind
  · have heq : e.lo = lo := by omega
    have hgt : e.hi > hi := by omega
    have hbe := hI.bnd e he
    obtain ⟨s1, s2, s3, s4⟩ := split_ok hI he hA (a := hi + 1) (b := e.hi) (c := lo) (d := hi)
      (by omega) (by omega) (by omega) hlh hb1 hb2 (by omega)
      (fun x hx hx' => by rcases hdis x hx hx' with h | h <;> omega)
    refine ⟨.done ⟨imInsert lo hi h (imInsert (hi + 1) e.hi e.val (m.ivls.erase e)), ls⟩, ?_,
      s1, ?_, ?_, ?_⟩
    · unfold stepSplit
      cases merge
      · have := hadd (imInsert (hi + 1) e.hi e.val (m.ivls.erase e))
        simp only [Bool.false_eq_true, if_false] at this
        simp only [if_neg hlt, if_pos hgt, DMap.eraseAt, DMap.insert, decr32, bind, Except.bind, pure,
          Except.pure, this, Bool.false_eq_true, if_false, incr32_ok hb2]
      · have := hadd (imInsert (hi + 1) e.hi e.val (m.ivls.erase e))
        simp only [if_true] at this
        simp only [if_neg hlt, if_pos hgt, DMap.eraseAt, DMap.insert, decr32, bind, Except.bind, pure,
          Except.pure, if_true, DMap.getList, hl, this, incr32_ok hb2]
    · intro x hx
      rcases (s4 x).1 hx with rfl | rfl | ⟨hxe, hx⟩
      · exact .inr ⟨Int.le_refl _, Int.le_refl _⟩
      · exact .inl ⟨e, he, by simp only; omega, by simp only; omega, by simp only; omega⟩
      · exact .inl ⟨x, hx, Int.le_refl _, Int.le_refl _, by rcases hdis x hx hxe with h | h <;> omega⟩
    · intro p
      simp only [s2]
      have : e.lo ≤ p ∧ p ≤ e.hi → Covers m.ivls p := fun h => ⟨e, he, h⟩
      by_cases hin : lo ≤ p ∧ p ≤ hi
      · simp [hin]
      · simp only [hin, false_or, or_false]
        refine ⟨fun h => h.1, fun h => ⟨h, by omega⟩⟩
    · intro p n
      rw [s3, hasN_content]
      unfold Tgt
      by_cases hin : lo ≤ p ∧ p ≤ hi
      · rw [drv_at hok he (by omega) (by omega) hl]
        have : ¬ (hi + 1 ≤ p) := by omega
        grind
      · have : ¬ (e.lo ≤ p ∧ p ≤ e.hi ∧ ¬(hi + 1 ≤ p ∧ p ≤ e.hi)) := by omega
        simp only [this, not_false_eq_true, and_true]
        grind

theorem hitCount_lt {m m' : DMap} {lo lo' hi : Int} {e : Ivl Nat} (he : e ∈ m.ivls)
    (hhit : e.hits lo hi = true) (hlo : e.hi < lo') (hll : lo ≤ lo')
    (hcnt : hitCount m' lo' hi ≤ m.ivls.countP fun x => x.hits lo' hi) :
    hitCount m' lo' hi < hitCount m lo hi := by
  refine Nat.lt_of_le_of_lt hcnt (countP_lt m.ivls he ?_ ?_ hhit)
  · intro x _ hx
    simp [Ivl.hits] at hx ⊢
    omega
  · simp [Ivl.hits]
    omega

theorem countP_erase_le {m : List (Ivl Nat)} {e : Ivl Nat} {f : Ivl Nat → Bool} :
    (m.erase e).countP f ≤ m.countP f := List.Sublist.countP_le List.erase_sublist

theorem stepFree_ok (hI : DInv m) (he : e ∈ m.ivls) (hhit : e.hits lo hi = true)
    (hlh : lo ≤ hi) (hno : NoIn m lo hi) (hc : lo ≤ e.lo ∧ e.hi ≤ hi) :
    ∃ m', (m.eraseAt e).freeIfValid e.val = .ok m' ∧ StepOk m lo hi ds false (.again m' lo) := by
  obtain ⟨ls, h1, h2, h3⟩ := drop_ok hI he
  refine ⟨_, h1, h2, ?_, Int.le_refl _, hlh, ?_, ?_, ?_, ?_⟩
  · intro x hx
    exact .inl ⟨x, List.mem_of_mem_erase hx, Int.le_refl _, Int.le_refl _, .inr (.inr (Int.le_refl _))⟩
  · intro x hx
    exact hno x (List.mem_of_mem_erase hx)
  · unfold hitCount
    simp only
    have := (List.perm_cons_erase he).countP_eq (fun x : Ivl Nat => x.hits lo hi)
    rw [this, List.countP_cons, if_pos hhit]
    omega
  · intro p
    rw [covers_erase hI.ok he]
    by_cases hin : lo ≤ p ∧ p ≤ hi
    · simp [hin]
    · simp only [hin, or_false]
      exact ⟨fun h => h.1, fun h => ⟨h, by omega⟩⟩
  · intro p n
    unfold Tgt
    rw [h3]
    by_cases hin : lo ≤ p ∧ p ≤ hi
    · simp [hin]
    · simp only [hin, false_implies, and_true]
      have : ¬ (e.lo ≤ p ∧ p ≤ e.hi) := by omega
      simp [this]

/-- `e` is the first interval overlapping `[lo, hi]`. -/
def First (m : DMap) (lo hi : Int) (e : Ivl Nat) : Prop :=
  ∀ x ∈ m.ivls, x ≠ e → x.hi < lo ∨ e.hi < x.lo

theorem stepMergeContained_ok (hI : DInv m) (he : e ∈ m.ivls) (hhit : e.hits lo hi = true)
    (hlh : lo ≤ hi) (hb1 : -2147483648 ≤ lo) (hb2 : hi < 2147483647)
    (hf : First m lo hi e) (hc : lo ≤ e.lo ∧ e.hi ≤ hi) :
    ∃ o, stepMergeContained m lo hi ds e = .ok o ∧ StepOk m lo hi ds true o := by
  have hok := hI.ok
  obtain ⟨l, hl⟩ := hI.live e he
  have hne := hok.1 e he
  have hdis : ∀ x ∈ m.ivls, x ≠ e → x.hi < e.lo ∨ e.hi < x.lo :=
    fun x hx h => mapOk_disj hok hx he h
  obtain ⟨ls1, hp, hI1, hg1, hd1⟩ := put_ok hI he (dlInsertAll l ds)
  -- the state after the optional insertion of the gap
  have hmid : ∃ m2, (if e.lo > lo then do
        let (m', h) ← (DMap.mk m.ivls ls1).addList ds
        pure (m'.insert lo (decr32 e.lo) h)
      else pure (DMap.mk m.ivls ls1)) = (Except.ok m2 : Except Fault DMap) ∧ DInv m2 ∧
      (∀ x ∈ m2.ivls, x ∈ m.ivls ∨ (x.lo = lo ∧ x.hi = e.lo - 1)) ∧
      (∀ p, Covers m2.ivls p ↔ Covers m.ivls p ∨ (lo ≤ p ∧ p < e.lo)) ∧
      (m2.ivls.countP fun x => x.hits (e.hi + 1) hi) = (m.ivls.countP fun x => x.hits (e.hi + 1) hi) ∧
      ∀ p n, Drv m2 p n ↔ Drv ⟨m.ivls, ls1⟩ p n ∨ (lo ≤ p ∧ p < e.lo ∧ HasN ds n) := by
    by_cases hgap : e.lo > lo
    · obtain ⟨ls2, h, hadd, hA⟩ := addList_ok hI1 ds
      obtain ⟨a1, a2⟩ := add_ok (iv := m.ivls) (ls := ls1) hI1 hA (a := lo) (b := e.lo - 1) hb1
        (by omega) (by omega) (fun x hx => by
          by_cases hxe : x = e
          · subst hxe; omega
          · rcases hf x hx hxe with h | h
            · exact .inl h
            · omega)
      refine ⟨⟨imInsert lo (e.lo - 1) h m.ivls, ls2⟩, ?_, a1, ?_, ?_, ?_, ?_⟩
      · have := hadd m.ivls
        simp only at this
        simp only [if_pos hgap, this, bind, Except.bind, pure, Except.pure, DMap.insert, decr32]
      · intro x hx
        rcases imInsert_mem.1 hx with rfl | hx
        · exact .inr ⟨rfl, rfl⟩
        · exact .inl hx
      · intro p
        rw [covers_insert, or_comm]
        have : p ≤ e.lo - 1 ↔ p < e.lo := by omega
        rw [this]
      · rw [countP_imInsert]
        have : (Ivl.mk lo (e.lo - 1) h).hits (e.hi + 1) hi = false := by
          simp [Ivl.hits]; omega
        simp [this]
      · intro p n
        rw [a2]
        have : p ≤ e.lo - 1 ↔ p < e.lo := by omega
        rw [this]
    · refine ⟨⟨m.ivls, ls1⟩, ?_, hI1, fun x hx => .inl hx, ?_, rfl, ?_⟩
      · simp only [if_neg hgap, pure, Except.pure]
      · intro p
        have : ¬ (lo ≤ p ∧ p < e.lo) := by omega
        simp [this]
      · intro p n
        have : ¬ (lo ≤ p ∧ p < e.lo ∧ HasN ds n) := fun h => by omega
        simp [this]
  obtain ⟨m2, hm2, hI2, hmem2, hcov2, hcnt2, hdrv2⟩ := hmid
  have hrun : stepMergeContained m lo hi ds e =
      (if e.hi + 1 > hi then .ok (.done m2) else .ok (.again m2 (e.hi + 1))) := by
    unfold stepMergeContained
    simp only [bind, Except.bind, pure, Except.pure] at hm2
    simp only [bind, Except.bind, pure, Except.pure, getList_ok hl, hp, incr32_ok (show e.hi < 2147483647 by omega)]
    by_cases hgap : e.lo > lo
    · rw [if_pos hgap] at hm2 ⊢
      split at hm2
      · cases hm2
      · simp only [Except.ok.injEq] at hm2
        simp only [hm2]
    · rw [if_neg hgap] at hm2 ⊢
      simp only [Except.ok.injEq] at hm2
      rw [hm2]
  have hsub : Sub m m2 lo hi (e.hi + 1) := by
    intro x hx
    rcases hmem2 x hx with h | h
    · by_cases hxe : x = e
      · exact .inr (by subst hxe; omega)
      · exact .inl ⟨x, h, Int.le_refl _, Int.le_refl _, by rcases hf x h hxe with h | h <;> omega⟩
    · exact .inr ⟨by omega, by omega⟩
  have hdrv : ∀ p n, Drv m2 p n ↔ (lo ≤ p ∧ p ≤ e.hi ∧ HasN ds n) ∨ Drv m p n := by
    intro p n
    rw [hdrv2, hd1]
    by_cases h1 : e.lo ≤ p ∧ p ≤ e.hi
    · rw [if_pos h1, drv_at hok he h1.1 h1.2 hl, hasN_insertAll]
      have : ¬ p < e.lo := by omega
      have : lo ≤ p := by omega
      grind
    · rw [if_neg h1]
      by_cases h2 : lo ≤ p ∧ p < e.lo
      · have : p ≤ e.hi := by omega
        grind
      · have : ¬ (lo ≤ p ∧ p ≤ e.hi) := by omega
        grind
  rw [hrun]
  by_cases hend : e.hi + 1 > hi
  · rw [if_pos hend]
    refine ⟨_, rfl, hI2, by rw [show hi = e.hi by omega] at hsub ⊢; exact hsub, ?_, ?_⟩
    · intro p
      rw [hcov2]
      have : e.lo ≤ p ∧ p ≤ e.hi → Covers m.ivls p := fun h => ⟨e, he, h⟩
      constructor
      · rintro (h | h)
        · exact .inl h
        · exact .inr (by omega)
      · rintro (h | h)
        · exact .inl h
        · by_cases h2 : p < e.lo
          · exact .inr ⟨h.1, h2⟩
          · exact .inl (this (by omega))
    · intro p n
      rw [hdrv]
      unfold Tgt
      have : e.hi = hi := by omega
      rw [this]
      simp
  · rw [if_neg hend]
    refine ⟨_, rfl, hI2, hsub, by omega, by omega, ?_, ?_, ?_, ?_⟩
    · intro x hx
      rcases hmem2 x hx with h | h
      · by_cases hxe : x = e
        · subst hxe; omega
        · rcases hdis x h hxe with h | h <;> omega
      · omega
    · exact hitCount_lt he hhit (by omega) (by omega) (by unfold hitCount; omega)
    · intro p
      rw [hcov2]
      have : e.lo ≤ p ∧ p ≤ e.hi → Covers m.ivls p := fun h => ⟨e, he, h⟩
      constructor
      · rintro ((h | h) | h)
        · exact .inl h
        · exact .inr (by omega)
        · exact .inr (by omega)
      · rintro (h | h)
        · exact .inl (.inl h)
        · by_cases h2 : p < e.lo
          · exact .inl (.inr ⟨h.1, h2⟩)
          · by_cases h3 : p ≤ e.hi
            · exact .inl (.inl (this (by omega)))
            · exact .inr (by omega)
    · intro p n
      unfold Tgt
      rw [hdrv]
      have : (lo ≤ p ∧ p ≤ e.hi ∧ HasN ds n) ∨ (e.hi + 1 ≤ p ∧ p ≤ hi ∧ HasN ds n) ↔
          lo ≤ p ∧ p ≤ hi ∧ HasN ds n := by
        constructor
        · rintro (h | h)
          · exact ⟨h.1, by omega, h.2.2⟩
          · exact ⟨by omega, h.2.1, h.2.2⟩
        · intro h
          by_cases h2 : p ≤ e.hi
          · exact .inl ⟨h.1, h2, h.2.2⟩
          · exact .inr ⟨by omega, h.2⟩
      rw [← this]
      simp only [implies_true, and_true]
      grind

theorem stepLeft_ok (hI : DInv m) (he : e ∈ m.ivls) (hhit : e.hits lo hi = true)
    (hlh : lo ≤ hi) (hb1 : -2147483648 ≤ lo) (hb2 : hi < 2147483647)
    (hL : e.lo < lo ∧ e.hi ≥ lo) (hLt : e.hi < hi) :
    ∃ o, stepLeft m lo hi ds merge e = .ok o ∧ StepOk m lo hi ds merge o := by
  have hok := hI.ok
  obtain ⟨l, hl⟩ := hI.live e he
  have hdis : ∀ x ∈ m.ivls, x ≠ e → x.hi < e.lo ∨ e.hi < x.lo :=
    fun x hx h => mapOk_disj hok hx he h
  obtain ⟨ls, h, hadd, hA⟩ := addList_ok hI (if merge then dlInsertAll l ds else ds)
  obtain ⟨s1, s2, s3, s4⟩ := split_ok hI he hA (a := e.lo) (b := lo - 1) (c := lo) (d := e.hi)
    (by omega) (by omega) (by omega) (by omega) hb1 (by omega) (by omega)
    (fun x hx hx' => by rcases hdis x hx hx' with h | h <;> omega)
  refine ⟨.again ⟨imInsert lo e.hi h (imInsert e.lo (lo - 1) e.val (m.ivls.erase e)), ls⟩ (e.hi + 1),
    ?_, s1, ?_, by omega, by omega, ?_, ?_, ?_, ?_⟩
  · unfold stepLeft
    have hng : ¬ e.hi + 1 > hi := by omega
    cases merge
    · have := hadd (imInsert e.lo (lo - 1) e.val (m.ivls.erase e))
      simp only [Bool.false_eq_true, if_false] at this
      simp only [if_neg hng, DMap.eraseAt, DMap.insert, decr32, bind, Except.bind, pure,
        Except.pure, this, Bool.not_false, if_true, incr32_ok (show e.hi < 2147483647 by omega)]
    · have := hadd (imInsert e.lo (lo - 1) e.val (m.ivls.erase e))
      simp only [if_true] at this
      simp only [if_neg hng, DMap.eraseAt, DMap.insert, decr32, bind, Except.bind, pure,
        Except.pure, Bool.not_true, Bool.false_eq_true, if_false, DMap.getList, hl, this,
        incr32_ok (show e.hi < 2147483647 by omega)]
  · intro x hx
    rcases (s4 x).1 hx with rfl | rfl | ⟨hxe, hx⟩
    · exact .inr ⟨Int.le_refl _, by simp only; omega⟩
    · exact .inl ⟨e, he, by simp only; omega, by simp only; omega, by simp only; omega⟩
    · exact .inl ⟨x, hx, Int.le_refl _, Int.le_refl _, by rcases hdis x hx hxe with h | h <;> omega⟩
  · intro x hx
    rcases (s4 x).1 hx with rfl | rfl | ⟨hne, hx⟩
    · simp only; omega
    · simp only; omega
    · rcases hdis x hx hne with h | h <;> omega
  · refine hitCount_lt he hhit (by omega) (by omega) ?_
    unfold hitCount
    simp only [countP_imInsert]
    have h1 : (Ivl.mk lo e.hi h).hits (e.hi + 1) hi = false := by simp [Ivl.hits]; omega
    have h2 : (Ivl.mk e.lo (lo - 1) e.val).hits (e.hi + 1) hi = false := by simp [Ivl.hits]; omega
    simp only [h1, h2, Bool.false_eq_true, if_false, Nat.add_zero]
    exact countP_erase_le
  · intro p
    simp only [s2]
    have : e.lo ≤ p ∧ p ≤ e.hi → Covers m.ivls p := fun h => ⟨e, he, h⟩
    by_cases hin : lo ≤ p ∧ p ≤ hi
    · by_cases h2 : p ≤ e.hi
      · simp [hin, h2]
      · have : e.hi + 1 ≤ p := by omega
        simp [hin, this]
    · have h2 : ¬ (lo ≤ p ∧ p ≤ e.hi) := by omega
      have h3 : ¬ (e.hi + 1 ≤ p ∧ p ≤ hi) := by omega
      simp only [hin, h2, h3, false_or, or_false]
      refine ⟨fun h => h.1, fun h => ⟨h, by omega⟩⟩
  · intro p n
    unfold Tgt
    rw [s3, hasN_content]
    by_cases hin : lo ≤ p ∧ p ≤ e.hi
    · rw [drv_at hok he (by omega) hin.2 hl]
      have h1 : ¬ (e.hi + 1 ≤ p) := by omega
      have h2 : p ≤ hi := by omega
      have h3 : e.lo ≤ p ∧ p ≤ e.hi ∧ ¬ (e.lo ≤ p ∧ p ≤ lo - 1) := by omega
      grind
    · have h3 : ¬ (e.lo ≤ p ∧ p ≤ e.hi ∧ ¬ (e.lo ≤ p ∧ p ≤ lo - 1)) := by omega
      have h4 : (e.hi + 1 ≤ p ∧ p ≤ hi) ↔ (lo ≤ p ∧ p ≤ hi) := by omega
      have h5 : ∀ q : Prop, (e.hi + 1 ≤ p ∧ p ≤ hi ∧ q) ↔ (lo ≤ p ∧ p ≤ hi ∧ q) := by
        intro q; rw [← and_assoc, ← and_assoc, h4]
      rw [h4, h5]
      simp only [h3, not_false_eq_true, and_true]
      have h6 : ∀ q : Prop, ¬ (lo ≤ p ∧ p ≤ e.hi ∧ q) := fun q h => hin ⟨h.1, h.2.1⟩
      simp only [h6, false_or]

theorem stepRight_ok (hI : DInv m) (he : e ∈ m.ivls)
    (hlh : lo ≤ hi) (hb1 : -2147483648 ≤ lo) (hb2 : hi < 2147483647)
    (hf : First m lo hi e) (hR : lo < e.lo ∧ e.lo ≤ hi) (hRt : hi < e.hi) :
    ∃ o, stepRight m lo hi ds merge e = .ok o ∧ StepOk m lo hi ds merge o := by
  have hok := hI.ok
  obtain ⟨l, hl⟩ := hI.live e he
  have hbe := hI.bnd e he
  obtain ⟨ls, h, hadd, hA⟩ := addList_ok hI ds
  have hadd1 := hadd (m.ivls.erase e)
  have hevne : e.val ≠ h := by
    intro heq
    have := hA.fresh
    rw [← heq, hl] at this
    cases this
  cases merge with
  | false =>
    obtain ⟨s1, s2, s3, s4⟩ := split_ok hI he hA (a := hi + 1) (b := e.hi) (c := lo) (d := hi)
      (by omega) (by omega) (by omega) hlh hb1 hb2 (by omega)
      (fun x hx hx' => by rcases hf x hx hx' with h | h <;> omega)
    have hcomm := imInsert_comm (a := hi + 1) (b := e.hi) (c := lo) (d := hi) (v := e.val) (w := h)
      (by omega) (m.ivls.erase e)
    refine ⟨.done ⟨imInsert (hi + 1) e.hi e.val (imInsert lo hi h (m.ivls.erase e)), ls⟩, ?_, ?_⟩
    · unfold stepRight
      simp only [DMap.eraseAt, hadd1, DMap.insert, bind, Except.bind, pure, Except.pure,
        Bool.not_false, if_true, incr32_ok hb2]
    · rw [hcomm]
      refine ⟨s1, ?_, ?_, ?_⟩
      · intro x hx
        rcases (s4 x).1 hx with rfl | rfl | ⟨hxe, hx⟩
        · exact .inr ⟨Int.le_refl _, Int.le_refl _⟩
        · exact .inl ⟨e, he, by simp only; omega, by simp only; omega, by simp only; omega⟩
        · exact .inl ⟨x, hx, Int.le_refl _, Int.le_refl _, by rcases hf x hx hxe with h | h <;> omega⟩
      · intro p
        simp only [s2]
        by_cases hin : lo ≤ p ∧ p ≤ hi
        · simp [hin]
        · simp only [hin, false_or, or_false]
          refine ⟨fun h => h.1, fun h => ⟨h, by omega⟩⟩
      · intro p n
        rw [s3]
        unfold Tgt
        by_cases hin : lo ≤ p ∧ p ≤ hi
        · simp only [hin, true_and, and_true, Bool.false_eq_true, imp_false, not_true, and_false,
            or_false, true_implies]
          constructor
          · rintro (h | ⟨⟨x, hx, h1, h2, _⟩, h3⟩)
            · exact h
            · exfalso
              by_cases hxe : x = e
              · subst hxe; omega
              · rcases hf x hx hxe with h | h <;> omega
          · exact .inl
        · have h1 : ¬ (e.lo ≤ p ∧ p ≤ e.hi ∧ ¬ (hi + 1 ≤ p ∧ p ≤ e.hi)) := by omega
          simp only [h1, hin, not_false_eq_true, and_true, false_implies]
  | true =>
    -- shrink first, then add the two new intervals
    obtain ⟨s1, s2, s3, s4⟩ := split_ok hI he hA (a := hi + 1) (b := e.hi) (c := lo) (d := e.lo - 1)
      (by omega) (by omega) (by omega) (by omega) hb1 (by omega) (by omega)
      (fun x hx hx' => by rcases hf x hx hx' with h | h <;> omega)
    obtain ⟨ls2, h2, hadd2, hA2⟩ := addList_ok s1 (dlInsertAll l ds)
    obtain ⟨a1, a2⟩ := add_ok s1 hA2 (a := e.lo) (b := hi) (by omega) (by omega) hb2 (by
      intro x hx
      rcases (s4 x).1 hx with rfl | rfl | ⟨hne, hx⟩
      · simp only; omega
      · simp only; omega
      · rcases hf x hx hne with h | h <;> omega)
    have hl2 : ls.get e.val = some l := by rw [hA.get, if_neg hevne, hl]
    have hcomm1 := imInsert_comm (a := hi + 1) (b := e.hi) (c := e.lo) (d := hi) (v := e.val)
      (w := h2) (by omega) (imInsert lo (e.lo - 1) h (m.ivls.erase e))
    have hcomm2 := imInsert_comm (a := hi + 1) (b := e.hi) (c := lo) (d := e.lo - 1) (v := e.val)
      (w := h) (by omega) (m.ivls.erase e)
    refine ⟨.done ⟨imInsert (hi + 1) e.hi e.val (imInsert e.lo hi h2
      (imInsert lo (e.lo - 1) h (m.ivls.erase e))), ls2⟩, ?_, ?_⟩
    · unfold stepRight
      have := hadd2 (imInsert lo (e.lo - 1) h (m.ivls.erase e))
      simp only at this
      simp only [DMap.eraseAt, hadd1, DMap.insert, bind, Except.bind, pure, Except.pure,
        Bool.not_true, Bool.false_eq_true, if_false, incr32_ok hb2, DMap.getList, hl2, decr32, this]
    · rw [hcomm1, hcomm2]
      refine ⟨a1, ?_, ?_, ?_⟩
      · intro x hx
        rcases imInsert_mem.1 hx with rfl | hx
        · exact .inr ⟨by simp only; omega, by simp only; omega⟩
        rcases (s4 x).1 hx with rfl | rfl | ⟨hxe, hx⟩
        · exact .inr ⟨Int.le_refl _, by simp only; omega⟩
        · exact .inl ⟨e, he, by simp only; omega, by simp only; omega, by simp only; omega⟩
        · exact .inl ⟨x, hx, Int.le_refl _, Int.le_refl _, by rcases hf x hx hxe with h | h <;> omega⟩
      · intro p
        simp only [covers_insert (a := e.lo), s2]
        by_cases hin : lo ≤ p ∧ p ≤ hi
        · by_cases h3 : e.lo ≤ p
          · simp [hin, h3]
          · have : p ≤ e.lo - 1 := by omega
            simp [hin, this]
        · have h3 : ¬ (e.lo ≤ p ∧ p ≤ hi) := by omega
          have h4 : ¬ (lo ≤ p ∧ p ≤ e.lo - 1) := by omega
          simp only [hin, h3, h4, false_or, or_false]
          refine ⟨fun h => h.1, fun h => ⟨h, by omega⟩⟩
      · intro p n
        rw [a2, s3, hasN_insertAll]
        unfold Tgt
        simp only [implies_true, and_true]
        by_cases hin : e.lo ≤ p ∧ p ≤ hi
        · rw [drv_at hok he hin.1 (by omega) hl]
          have h3 : lo ≤ p := by omega
          have h4 : ¬ p ≤ e.lo - 1 := by omega
          have h5 : ¬ hi + 1 ≤ p := by omega
          have h6 : p ≤ e.hi := by omega
          simp only [hin, h3, h4, h5, h6]
          simp only [true_and, and_true, false_and, and_false, not_false_eq_true, not_true, false_or]
          exact or_comm
        · have h3 : ¬ (e.lo ≤ p ∧ p ≤ e.hi ∧ ¬ (hi + 1 ≤ p ∧ p ≤ e.hi)) := by omega
          have h4 : ∀ q : Prop, ¬ (e.lo ≤ p ∧ p ≤ hi ∧ q) := fun q h => hin ⟨h.1, h.2.1⟩
          have h5 : ∀ q : Prop, (lo ≤ p ∧ p ≤ e.lo - 1 ∧ q) ↔ (lo ≤ p ∧ p ≤ hi ∧ q) := by
            intro q
            constructor
            · rintro ⟨a, b, c⟩; exact ⟨a, by omega, c⟩
            · rintro ⟨a, b, c⟩; exact ⟨a, by omega, c⟩
          simp only [h3, h4, h5, not_false_eq_true, and_true, or_false]

theorem addStep_ok (hI : DInv m) (he : e ∈ m.ivls) (hhit : e.hits lo hi = true)
    (hlh : lo ≤ hi) (hb1 : -2147483648 ≤ lo) (hb2 : hi < 2147483647) (hno : NoIn m lo hi)
    (hf : First m lo hi e) :
    ∃ o, addStep m lo hi ds merge e = .ok o ∧ StepOk m lo hi ds merge o := by
  have hok := hI.ok
  obtain ⟨l, hl⟩ := hI.live e he
  have hbe := hI.bnd e he
  have hne := hok.1 e he
  have hnoe := hno e he
  have hdis : ∀ x ∈ m.ivls, x ≠ e → x.hi < e.lo ∨ e.hi < x.lo :=
    fun x hx h => mapOk_disj hok hx he h
  have hdrv : ∀ p n, e.lo ≤ p → p ≤ e.hi → (Drv m p n ↔ HasN l n) :=
    fun p n h1 h2 => drv_at hok he h1 h2 hl
  have hcov : ∀ p, e.lo ≤ p → p ≤ e.hi → Covers m.ivls p := fun p h1 h2 => ⟨e, he, h1, h2⟩
  have hh1 : e.lo ≤ hi ∧ lo ≤ e.hi := by simpa [Ivl.hits] using hhit
  unfold addStep
  by_cases hm : e.lo = lo ∧ e.hi = hi
  · -- same bounds
    rw [if_pos hm]
    cases merge with
    | true =>
      obtain ⟨m', h1, h2⟩ := step_match (ds := ds) (merge := true) hI he (dlInsertAll l ds) l hl hm.1 hm.2
        (fun n => by rw [hasN_insertAll]; simp [or_comm])
      refine ⟨_, ?_, h2⟩
      simp only [if_pos, getList_ok hl, h1, bind, Except.bind, pure, Except.pure]
    | false =>
      obtain ⟨m', h1, h2⟩ := step_match (ds := ds) (merge := false) hI he (dlInsertAll [] ds) l hl hm.1 hm.2
        (fun n => by rw [hasN_insertAll]; simp [HasN])
      refine ⟨_, ?_, h2⟩
      simp only [getList_ok hl, h1, bind, Except.bind, pure, Except.pure]
      rfl
  rw [if_neg hm]
  by_cases hs : e.lo ≤ lo ∧ hi ≤ e.hi
  · -- the entry contains the bounds: one side is left over
    rw [if_pos hs]
    exact stepSplit_ok hI he hlh hb1 hb2 hno hm hs
  rw [if_neg hs]
  by_cases hc : lo ≤ e.lo ∧ e.hi ≤ hi
  · -- the bounds contain the entry
    rw [if_pos hc]
    cases merge with
    | false =>
      obtain ⟨m', h1, h2⟩ := stepFree_ok (ds := ds) hI he hhit hlh hno hc
      refine ⟨_, ?_, h2⟩
      simp only [Bool.not_false, if_true, h1, bind, Except.bind, pure, Except.pure]
    | true =>
      simp only [Bool.not_true, Bool.false_eq_true, if_false]
      exact stepMergeContained_ok hI he hhit hlh hb1 hb2 hf hc
  rw [if_neg hc]
  by_cases hL : e.lo ≤ lo ∧ e.hi ≥ lo
  · rw [if_pos hL]
    exact stepLeft_ok hI he hhit hlh hb1 hb2 (by omega) (by omega)
  rw [if_neg hL]
  by_cases hR : e.lo ≤ hi ∧ e.hi ≥ hi
  · rw [if_pos hR]
    exact stepRight_ok hI he hlh hb1 hb2 hf (by omega) (by omega)
  exfalso
  omega

end Steps

theorem first_of_find {m : DMap} {lo hi : Int} (hok : MapOk m.ivls) {e : Ivl Nat}
    {es : List (Ivl Nat)} (h : imFind m.ivls lo hi = e :: es) :
    e ∈ m.ivls ∧ e.hits lo hi = true ∧ First m lo hi e := by
  have hmem : e ∈ imFind m.ivls lo hi := by rw [h]; simp
  obtain ⟨he, hhit⟩ := List.mem_filter.1 hmem
  refine ⟨he, hhit, ?_⟩
  intro x hx hne
  have hh : e.lo ≤ hi ∧ lo ≤ e.hi := by simpa [Ivl.hits] using hhit
  by_cases hxh : x.hits lo hi = true
  · have hxm : x ∈ imFind m.ivls lo hi := List.mem_filter.2 ⟨hx, hxh⟩
    have hpw : (imFind m.ivls lo hi).Pairwise fun a b => a.hi < b.lo := hok.2.sublist List.filter_sublist
    rw [h] at hxm hpw
    rcases List.mem_cons.1 hxm with rfl | hxm
    · exact absurd rfl hne
    · exact .inr ((List.pairwise_cons.1 hpw).1 x hxm)
  · have : ¬ (x.lo ≤ hi ∧ lo ≤ x.hi) := by simpa [Ivl.hits] using hxh
    rcases mapOk_disj hok hx he hne with h | h
    · have := hok.1 x hx
      omega
    · exact .inr h

theorem addLoop_ok {ds : List DriverInfo} {merge : Bool} {hi : Int} (hb2 : hi < 2147483647)
    (fuel : Nat) : ∀ (m : DMap) (lo : Int), DInv m → lo ≤ hi → -2147483648 ≤ lo → NoIn m lo hi →
      hitCount m lo hi < fuel →
      ∃ m', addLoop ds merge hi fuel m lo (imFind m.ivls lo hi) = .ok m' ∧
        StepOk m lo hi ds merge (.done m') := by
  induction fuel with
  | zero => intro m lo _ _ _ _ h; omega
  | succ fuel ih =>
    intro m lo hI hlh hb1 hno hcnt
    cases hfind : imFind m.ivls lo hi with
    | nil =>
      have hnone := imFind_nil hfind
      obtain ⟨ls, h, hadd, hA⟩ := addList_ok hI ds
      obtain ⟨a1, a2⟩ := add_ok (iv := m.ivls) (ls := m.lists) hI hA hb1 hlh hb2 hnone
      refine ⟨⟨imInsert lo hi h m.ivls, ls⟩, ?_, a1, ?_, ?_, ?_⟩
      · have hadd1 : m.addList ds = .ok (⟨m.ivls, ls⟩, h) := hadd m.ivls
        simp only [addLoop, hadd1, bind, Except.bind, pure, Except.pure, DMap.insert]
      · intro x hx
        rcases imInsert_mem.1 hx with rfl | hx
        · exact .inr ⟨Int.le_refl _, Int.le_refl _⟩
        · exact .inl ⟨x, hx, Int.le_refl _, Int.le_refl _, by rcases hnone x hx with h | h <;> omega⟩
      · intro p
        rw [covers_insert, or_comm]
      · intro p n
        rw [a2]
        unfold Tgt
        constructor
        · rintro (⟨x, hx, h1, h2, h3⟩ | h)
          · refine .inr ⟨⟨x, hx, h1, h2, h3⟩, fun h => ?_⟩
            rcases hnone x hx with h | h <;> omega
          · exact .inl h
        · rintro (h | h)
          · exact .inr h
          · exact .inl h.1
    | cons e es =>
      obtain ⟨he, hhit, hf⟩ := first_of_find hI.ok hfind
      obtain ⟨o, ho, hs⟩ := addStep_ok (ds := ds) (merge := merge) hI he hhit hlh hb1 hb2 hno hf
      cases o with
      | done m' =>
        exact ⟨m', by simp only [addLoop, ho, bind, Except.bind, pure, Except.pure], hs⟩
      | again m' lo' =>
        obtain ⟨hI', hsub, h1, h2, hno', hlt, hcov, hdrv⟩ := hs
        obtain ⟨m'', hr, hI'', hsub'', hcov'', hdrv''⟩ := ih m' lo' hI' h2 (by omega) hno' (by omega)
        refine ⟨m'', by simp only [addLoop, ho, bind, Except.bind, pure, Except.pure, hr], hI'', ?_, ?_, ?_⟩
        · intro x hx
          have hxo := hI''.ok.1 x hx
          rcases hsub'' x hx with ⟨y, hy, h3, h4, h7⟩ | h
          · rcases hsub y hy with ⟨z, hz, h5, h6, h8⟩ | h
            · exact .inl ⟨z, hz, by omega, by omega, by omega⟩
            · exact .inr ⟨by omega, by omega⟩
          · exact .inr ⟨by omega, by omega⟩
        · intro p; rw [hcov'', hcov]
        · intro p n; rw [hdrv'', hdrv]
      | skip => exact hs.elim

/-- The invariant holds of the empty map. -/
theorem dInv_empty : DInv {} := by
  refine ⟨⟨by simp, by simp⟩, by simp, by simp, by simp, ⟨by simp, by simp⟩, by simp⟩

/-- One recording: never a fault, exact per-bit effect. -/
theorem addDrivers_ok {m : DMap} (hI : DInv m) {b : BitRange} {ds : List DriverInfo} {merge : Bool}
    (hb1 : -2147483648 ≤ b.lower) (hb2 : b.upper < 2147483647) (hno : NoIn m b.lower b.upper) :
    ∃ m', m.addDrivers b ds merge = .ok m' ∧
      StepOk m b.lower b.upper ds merge (.done m') := by
  have hlh : b.lower ≤ b.upper := by simp only [BitRange.lower, BitRange.upper]; omega
  refine addLoop_ok hb2 _ m b.lower hI hlh hb1 hno ?_
  have : hitCount m b.lower b.upper ≤ m.ivls.length := List.countP_le_length
  omega

/-- Reading a bit through `getDrivers`. -/
theorem getDrivers_bit {m : DMap} (hI : DInv m) (p : Int) :
    ∃ l, m.getDrivers ⟨p, p⟩ = .ok l ∧ ∀ n, HasN l n ↔ Drv m p n := by
  have hlow : (BitRange.mk p p).lower = p := by simp [BitRange.lower]
  have hup : (BitRange.mk p p).upper = p := by simp [BitRange.upper]
  have key : ∀ (es : List (Ivl Nat)) (acc : List DriverInfo),
      (∀ e ∈ es, e ∈ m.ivls ∧ e.lo ≤ p ∧ p ≤ e.hi) →
      ∃ l, getLoop m ⟨p, p⟩ acc es = .ok l ∧ ∀ n, HasN l n ↔ HasN acc n ∨
        ∃ e ∈ es, ∃ l, m.lists.get e.val = some l ∧ HasN l n := by
    intro es
    induction es with
    | nil => intro acc _; exact ⟨acc, rfl, fun n => by simp⟩
    | cons e es ih =>
      intro acc h
      obtain ⟨he, h1, h2⟩ := h e (by simp)
      obtain ⟨l, hl⟩ := hI.live e he
      obtain ⟨out, ho, hs⟩ := ih (dlInsertAll acc l) (fun x hx => h x (by simp [hx]))
      have hcon : BitRange.containsRange ⟨e.lo, e.hi⟩ ⟨p, p⟩ = true := by
        simp only [BitRange.containsRange, hlow, hup, BitRange.lower, BitRange.upper]
        simp
        omega
      refine ⟨out, ?_, fun n => ?_⟩
      · simp only [getLoop, hcon, if_true, getList_ok hl, bind, Except.bind, ho]
      · rw [hs, hasN_insertAll]
        simp only [List.mem_cons, exists_eq_or_imp, hl, Option.some.injEq, exists_eq_left', or_assoc]
  obtain ⟨l, ho, hs⟩ := key (imFind m.ivls p p) [] (by
    intro e he
    obtain ⟨h1, h2⟩ := List.mem_filter.1 he
    simp [Ivl.hits] at h2
    exact ⟨h1, h2⟩)
  refine ⟨l, ?_, fun n => ?_⟩
  · unfold DMap.getDrivers
    rw [hlow, hup]
    exact ho
  · rw [hs]
    constructor
    · rintro (⟨_, h, _⟩ | ⟨e, he, h⟩)
      · simp at h
      · obtain ⟨h1, h2⟩ := List.mem_filter.1 he
        simp [Ivl.hits] at h2
        exact ⟨e, h1, h2.1, h2.2, h⟩
    · rintro ⟨e, he, h1, h2, h⟩
      exact .inr ⟨e, List.mem_filter.2 ⟨he, by simp [Ivl.hits]; omega⟩, h⟩

end Verif.Proofs
