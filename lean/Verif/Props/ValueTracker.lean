import Verif.Proofs.Boundaries

/-!
Property theorems C28, C29, C30: the driver map of a signal.
-/
namespace Verif.Props
open Verif.Model Verif.Proofs

/-- The recording covers bit `p`. -/
def _root_.Verif.Model.Rec.Covers (r : Rec) (p : Int) : Prop :=
  r.bounds.lower ≤ p ∧ p ≤ r.bounds.upper

/-- Specification: node `n` drives bit `p` after a history. It was recorded for the bit, and every
later recording covering the bit was a merge. -/
def LastDriver (hist : List Rec) (p : Int) (n : Option Nat) : Prop :=
  ∃ pre r post, hist = pre ++ r :: post ∧ r.Covers p ∧ (∃ d ∈ r.drivers, d.node = n) ∧
    ∀ q ∈ post, q.Covers p → q.merge = true

/-- The ranges are 32-bit, and do not reach the largest 32-bit value. -/
def InRange (hist : List Rec) : Prop :=
  ∀ r ∈ hist, -2147483648 ≤ r.bounds.lower ∧ r.bounds.upper < 2147483647

/-- No range lies strictly inside (away from both ends of) an earlier one. -/
def NeverInside (hist : List Rec) : Prop :=
  hist.Pairwise fun a b => ¬ (a.bounds.lower < b.bounds.lower ∧ b.bounds.upper < a.bounds.upper)

/-- After the recordings `pre`, range `b` lies strictly inside (away from both ends of) a range recorded
before, and no later recording met `b` or a bit next to it. -/
def InsideLast (pre : List Rec) (b : BitRange) : Prop :=
  ∃ l a l', pre = l ++ a :: l' ∧ a.bounds.lower < b.lower ∧ b.upper < a.bounds.upper ∧
    ∀ q ∈ l', q.bounds.upper < b.lower - 1 ∨ b.upper + 1 < q.bounds.lower

/-- No range is recorded strictly inside an earlier one whose bits there, and next to it, were not recorded
again in between. -/
def NeverSplits (hist : List Rec) : Prop :=
  ∀ pre r post, hist = pre ++ r :: post → ¬ InsideLast pre r.bounds

theorem never_splits {hist : List Rec} (h : NeverInside hist) : NeverSplits hist := by
  rintro pre r post rfl ⟨l, a, l', rfl, h1, h2, -⟩
  exact (List.pairwise_append.1 h).2.2 a (by simp) r (by simp) ⟨h1, h2⟩

theorem insideLast_snoc {pre : List Rec} {q : Rec} {b : BitRange} : InsideLast (pre ++ [q]) b ↔
    (q.bounds.lower < b.lower ∧ b.upper < q.bounds.upper) ∨
      (InsideLast pre b ∧ (q.bounds.upper < b.lower - 1 ∨ b.upper + 1 < q.bounds.lower)) := by
  constructor
  · rintro ⟨l, a, l', heq, h1, h2, h3⟩
    rcases List.eq_nil_or_concat l' with rfl | ⟨l'', z, rfl⟩
    · obtain ⟨-, h⟩ := List.append_inj' heq rfl
      cases h
      exact .inl ⟨h1, h2⟩
    · have h4 : pre ++ [q] = (l ++ a :: l'') ++ [z] := by simp [heq]
      obtain ⟨rfl, h5⟩ := List.append_inj' h4 rfl
      cases h5
      exact .inr ⟨⟨l, a, l'', rfl, h1, h2, fun x hx => h3 x (by simp [hx])⟩, h3 q (by simp)⟩
  · rintro (⟨h1, h2⟩ | ⟨⟨l, a, l', rfl, h1, h2, h3⟩, h⟩)
    · exact ⟨pre, q, [], rfl, h1, h2, by simp⟩
    · refine ⟨l, a, l' ++ [q], by simp, h1, h2, fun x hx => ?_⟩
      rcases List.mem_append.1 hx with hx | hx
      · exact h3 x hx
      · cases List.mem_singleton.1 hx; exact h

theorem neverSplits_snoc {hist : List Rec} {r : Rec} (h : NeverSplits hist) (hr : ¬ InsideLast hist r.bounds) :
    NeverSplits (hist ++ [r]) := by
  intro pre q post heq
  rcases List.eq_nil_or_concat post with rfl | ⟨post', z, rfl⟩
  · obtain ⟨rfl, h5⟩ := List.append_inj' heq rfl
    cases h5
    exact hr
  · have h4 : hist ++ [r] = (pre ++ q :: post') ++ [z] := by simp [heq]
    obtain ⟨rfl, h5⟩ := List.append_inj' h4 rfl
    exact h pre q post' rfl

theorem neverSplits_nil : NeverSplits [] := by
  intro pre r post h
  simp at h

theorem lastDriver_snoc {hist : List Rec} {r : Rec} {p : Int} {n : Option Nat} :
    LastDriver (hist ++ [r]) p n ↔
      (r.Covers p ∧ ∃ d ∈ r.drivers, d.node = n) ∨
      (LastDriver hist p n ∧ (r.Covers p → r.merge = true)) := by
  constructor
  · rintro ⟨pre, q, post, heq, hc, hn, hm⟩
    rcases List.eq_nil_or_concat post with rfl | ⟨post', z, rfl⟩
    · have := List.append_inj' heq rfl
      simp only [List.cons.injEq, and_true] at this
      obtain ⟨_, rfl⟩ := this
      exact .inl ⟨hc, hn⟩
    · have h2 : hist ++ [r] = (pre ++ q :: post') ++ [z] := by simp [heq]
      obtain ⟨rfl, h3⟩ := List.append_inj' h2 rfl
      simp only [List.cons.injEq, and_true] at h3
      subst h3
      exact .inr ⟨⟨pre, q, post', rfl, hc, hn, fun x hx => hm x (by simp [hx])⟩, hm r (by simp)⟩
  · rintro (⟨hc, hn⟩ | ⟨⟨pre, q, post, rfl, hc, hn, hm⟩, hr⟩)
    · exact ⟨hist, r, [], rfl, hc, hn, by simp⟩
    · refine ⟨pre, q, post ++ [r], by simp, hc, hn, ?_⟩
      intro x hx
      rcases List.mem_append.1 hx with hx | hx
      · exact hm x hx
      · simp only [List.mem_singleton] at hx; subst hx; exact hr

/-- What a map must satisfy after a history. -/
structure Tracks (m : DMap) (hist : List Rec) : Prop where
  inv : DInv m
  sub : ∀ x ∈ m.ivls, ∃ pre r post, hist = pre ++ r :: post ∧ r.bounds.lower ≤ x.lo ∧ x.hi ≤ r.bounds.upper ∧
    ∀ q ∈ post, q.bounds.upper < x.lo ∨ x.hi < q.bounds.lower
  cov : ∀ p, Covers m.ivls p ↔ ∃ r ∈ hist, r.Covers p
  drv : ∀ p n, Drv m p n ↔ LastDriver hist p n

theorem tracks_empty : Tracks {} [] := by
  refine ⟨dInv_empty, by simp, by simp [Covers], ?_⟩
  intro p n
  constructor
  · rintro ⟨e, he, _⟩; simp at he
  · rintro ⟨pre, r, post, h, _⟩; simp at h

theorem tracks_step {m : DMap} {hist : List Rec} (ht : Tracks m hist) (r : Rec)
    (hr : -2147483648 ≤ r.bounds.lower ∧ r.bounds.upper < 2147483647)
    (hin : ¬ InsideLast hist r.bounds) :
    ∃ m', m.addDrivers r.bounds r.drivers r.merge = .ok m' ∧ Tracks m' (hist ++ [r]) := by
  have hno : NoIn m r.bounds.lower r.bounds.upper := by
    intro x hx
    rintro ⟨h3, h4⟩
    obtain ⟨pre, a, post, heq, h1, h2, h5⟩ := ht.sub x hx
    exact hin ⟨pre, a, post, heq, by omega, by omega, fun q hq => by rcases h5 q hq with h | h <;> omega⟩
  obtain ⟨m', ho, hI, hsub, hcov, hdrv⟩ := addDrivers_ok (ds := r.drivers) (merge := r.merge) ht.inv
    hr.1 hr.2 hno
  refine ⟨m', ho, hI, ?_, ?_, ?_⟩
  · intro x hx
    have hxo := hI.ok.1 x hx
    have hlh : r.bounds.lower ≤ r.bounds.upper := by simp only [BitRange.lower, BitRange.upper]; omega
    rcases hsub x hx with ⟨e, he, h1, h2, h7⟩ | h
    · obtain ⟨pre, a, post, rfl, h3, h4, h5⟩ := ht.sub e he
      refine ⟨pre, a, post ++ [r], by simp, by omega, by omega, fun q hq => ?_⟩
      rcases List.mem_append.1 hq with hq | hq
      · rcases h5 q hq with h | h <;> omega
      · cases List.mem_singleton.1 hq; omega
    · exact ⟨hist, r, [], rfl, h.1, h.2, by simp⟩
  · intro p
    rw [hcov, ht.cov]
    simp only [List.mem_append, List.mem_singleton, Rec.Covers]
    constructor
    · rintro (⟨a, ha, h⟩ | h)
      · exact ⟨a, .inl ha, h⟩
      · exact ⟨r, .inr rfl, h⟩
    · rintro ⟨a, ha | rfl, h⟩
      · exact .inl ⟨a, ha, h⟩
      · exact .inr h
  · intro p n
    rw [hdrv, lastDriver_snoc, ← ht.drv]
    simp only [Tgt, HasN, Rec.Covers, and_assoc]

theorem tracks_run (rest : List Rec) : ∀ (m : DMap) (pre : List Rec), Tracks m pre →
    InRange (pre ++ rest) → NeverSplits (pre ++ rest) →
    ∃ m', m.run rest = .ok m' ∧ Tracks m' (pre ++ rest) := by
  induction rest with
  | nil => intro m pre ht _ _; exact ⟨m, rfl, by simpa using ht⟩
  | cons r rs ih =>
    intro m pre ht hr hn
    obtain ⟨m1, h1, ht1⟩ := tracks_step ht r (hr r (by simp)) (hn pre r rs rfl)
    obtain ⟨m2, h2, ht2⟩ := ih m1 (pre ++ [r]) ht1 (by simpa using hr) (by simpa using hn)
    exact ⟨m2, by simp only [DMap.run, h1, bind, Except.bind, h2], by simpa using ht2⟩

/-- C28 and C29 (partial): for every history of overwrites and merges in which no range is recorded
strictly inside an earlier one unless the bits there or next to it were recorded again in between, all
recordings succeed (no released list is ever touched), and the drivers reported for each single bit are
those of the last overwrite covering it plus all later merges covering it. Missing: histories where a range falls strictly inside an earlier one, for which the
claims can be false (`overwrite_leaks_to_other_bits`, `released_list_is_used`). -/
theorem driver_map_exact_partial {hist : List Rec} (hr : InRange hist) (hn : NeverSplits hist) :
    ∃ m, ({} : DMap).run hist = .ok m ∧ ∀ p : Int, ∃ l, m.getDrivers ⟨p, p⟩ = .ok l ∧
      ∀ n, (∃ d ∈ l, d.node = n) ↔ LastDriver hist p n := by
  obtain ⟨m, hm, ht⟩ := tracks_run hist {} [] tracks_empty (by simpa using hr) (by simpa using hn)
  refine ⟨m, hm, fun p => ?_⟩
  obtain ⟨l, hl, hs⟩ := getDrivers_bit ht.inv p
  refine ⟨l, hl, fun n => ?_⟩
  have := hs n
  unfold HasN at this
  rw [this, ht.drv]
  simp

/-- The bit lies in the range. -/
def InBits (b : BitRange) (p : Int) : Prop := (b.left ≤ p ∧ p ≤ b.right) ∨ (b.right ≤ p ∧ p ≤ b.left)

theorem inBits_iff {b : BitRange} {p : Int} : InBits b p ↔ b.lower ≤ p ∧ p ≤ b.upper := by
  unfold InBits BitRange.lower BitRange.upper; omega

/-- C28 (partial): for histories as above, the drivers reported for a range are last drivers of bits of the
range. They are the last drivers of all its bits if the recordings that are last for some bit of the range all
lie inside it, or the recordings that meet the range all cover it. Missing: ranges that a recording meets only in part, whose drivers are lost
(`partial_overlap_not_read`). -/
theorem driver_range_exact_partial {hist : List Rec} (hr : InRange hist) (hn : NeverSplits hist) :
    ∃ m, ({} : DMap).run hist = .ok m ∧ ∀ b : BitRange, ∃ l, m.getDrivers b = .ok l ∧
      (∀ n, (∃ d ∈ l, d.node = n) → ∃ p, InBits b p ∧ LastDriver hist p n) ∧
      ((∀ pre r post, hist = pre ++ r :: post →
          (∃ p, InBits b p ∧ r.Covers p ∧ ∀ q ∈ post, ¬ q.Covers p) → ∀ p, r.Covers p → InBits b p) ∨
        (∀ r ∈ hist, (∃ p, InBits b p ∧ r.Covers p) → ∀ p, InBits b p → r.Covers p) →
        ∀ n p, InBits b p → LastDriver hist p n → ∃ d ∈ l, d.node = n) := by
  obtain ⟨m, hm, ht⟩ := tracks_run hist {} [] tracks_empty (by simpa using hr) (by simpa using hn)
  refine ⟨m, hm, fun b => ?_⟩
  simp only [List.nil_append] at ht
  obtain ⟨l, hl, hs⟩ := getDrivers_range ht.inv b
  simp only [HasN] at hs
  refine ⟨l, hl, fun n h => ?_, fun hal n p hp hd => ?_⟩
  · obtain ⟨e, he, h1, h2, h3, l', h4, h5⟩ := (hs n).1 h
    have w := ht.inv.ok.1 e he
    have w' : b.lower ≤ b.upper := by unfold BitRange.lower BitRange.upper; omega
    refine ⟨max e.lo b.lower, inBits_iff.2 (by omega), (ht.drv _ n).1 ⟨e, he, by omega, by omega, l', h4, h5⟩⟩
  · obtain ⟨e, he, h1, h2, l', h4, h5⟩ := (ht.drv p n).2 hd
    have w := ht.inv.ok.1 e he
    rw [inBits_iff] at hp
    refine (hs n).2 ⟨e, he, by omega, by omega, ?_, l', h4, h5⟩
    rcases hal with hal | hal
    · obtain ⟨pre, r, post, heq, g1, g2, g3⟩ := ht.sub e he
      have key := hal pre r post heq ⟨p, inBits_iff.2 hp, by constructor <;> omega, fun q hq hc => by
        unfold Rec.Covers at hc
        rcases g3 q hq with h | h <;> omega⟩
      have a1 := inBits_iff.1 (key e.lo ⟨by omega, by omega⟩)
      have a2 := inBits_iff.1 (key e.hi ⟨by omega, by omega⟩)
      exact .inr ⟨a1.1, a2.2⟩
    · have hcut : Ends (fun c => c ≤ b.lower ∨ b.upper < c) m.ivls := by
        refine run_ends hist (m := {}) (fun x hx => by cases hx) (fun r hr' => ?_) hm
        by_cases ho : ∃ q, InBits b q ∧ r.Covers q
        · have a1 := hal r hr' ho b.lower (inBits_iff.2 (by omega))
          have a2 := hal r hr' ho b.upper (inBits_iff.2 (by omega))
          unfold Rec.Covers at a1 a2
          constructor <;> omega
        · have wr : r.bounds.lower ≤ r.bounds.upper := by unfold BitRange.lower BitRange.upper; omega
          have b1 : ∀ q, ¬ ((b.lower ≤ q ∧ q ≤ b.upper) ∧ r.bounds.lower ≤ q ∧ q ≤ r.bounds.upper) :=
            fun q hq => ho ⟨q, inBits_iff.2 hq.1, hq.2⟩
          have c1 := b1 r.bounds.lower
          have c2 := b1 r.bounds.upper
          constructor <;> omega
      have := hcut e he
      dsimp only at this
      omega

/-- Two recordings that share bits: the range 5..4 lies in both, and 7..0 contains both. -/
example : InRange [⟨⟨5, 0⟩, [⟨some 1, 0⟩], false⟩, ⟨⟨7, 4⟩, [⟨some 2, 0⟩], true⟩] ∧
    NeverSplits [⟨⟨5, 0⟩, [⟨some 1, 0⟩], false⟩, ⟨⟨7, 4⟩, [⟨some 2, 0⟩], true⟩] ∧
    (do let m ← ({} : DMap).run [⟨⟨5, 0⟩, [⟨some 1, 0⟩], false⟩, ⟨⟨7, 4⟩, [⟨some 2, 0⟩], true⟩]
        m.getDrivers ⟨7, 0⟩) = (.ok [⟨some 1, 0⟩, ⟨some 2, 0⟩] : Except Fault (List DriverInfo)) ∧
    (do let m ← ({} : DMap).run [⟨⟨5, 0⟩, [⟨some 1, 0⟩], false⟩, ⟨⟨7, 4⟩, [⟨some 2, 0⟩], true⟩]
        m.getDrivers ⟨4, 5⟩) = (.ok [⟨some 1, 0⟩, ⟨some 2, 0⟩] : Except Fault (List DriverInfo)) := by
  refine ⟨?_, ?_, by decide, by decide⟩
  · intro r hr
    simp only [List.mem_cons, List.not_mem_nil, or_false] at hr
    rcases hr with rfl | rfl <;> decide
  · refine never_splits ?_
    simp only [NeverInside, List.pairwise_cons]
    decide

theorem mapM_ok {α β : Type} {f : α → Except Fault β} {P : α → β → Prop} (l : List α)
    (h : ∀ a ∈ l, ∃ b, f a = .ok b ∧ P a b) :
    ∃ out, l.mapM f = .ok out ∧ (∀ a ∈ l, ∃ b ∈ out, P a b) ∧ ∀ b ∈ out, ∃ a ∈ l, P a b := by
  induction l with
  | nil => exact ⟨[], rfl, by simp, by simp⟩
  | cons a as ih =>
    obtain ⟨b, hb, hp⟩ := h a (by simp)
    obtain ⟨out, ho, h1, h2⟩ := ih fun x hx => h x (by simp [hx])
    refine ⟨b :: out, ?_, ?_, ?_⟩
    · rw [List.mapM_cons, hb, ho]; rfl
    · intro x hx
      rcases List.mem_cons.1 hx with rfl | hx
      · exact ⟨b, by simp, hp⟩
      · obtain ⟨y, hy, hq⟩ := h1 x hx
        exact ⟨y, by simp [hy], hq⟩
    · intro y hy
      rcases List.mem_cons.1 hy with rfl | hy
      · exact ⟨a, by simp, hp⟩
      · obtain ⟨x, hx, hq⟩ := h2 y hy
        exact ⟨x, by simp [hx], hq⟩

theorem tracks_intervals {m : DMap} {hist : List Rec} (ht : Tracks m hist) (q : BitRange) :
    ∃ out, m.intervals q = .ok out ∧
      ∀ p : Int, q.lower ≤ p → p ≤ q.upper →
        ((∃ x ∈ out, x.1.lower ≤ p ∧ p ≤ x.1.upper) ↔ ∃ r ∈ hist, r.Covers p) ∧
        ∀ n, (∃ x ∈ out, x.1.lower ≤ p ∧ p ≤ x.1.upper ∧ ∃ d ∈ x.2, d.node = n) ↔
          LastDriver hist p n := by
  have hbounds : ∀ e ∈ m.ivls, (BitRange.mk e.lo e.hi).lower = e.lo ∧
      (BitRange.mk e.lo e.hi).upper = e.hi := by
    intro e he
    have := ht.inv.ok.1 e he
    simp only [BitRange.lower, BitRange.upper]
    omega
  obtain ⟨out, ho, h1, h2⟩ := mapM_ok (f := fun e : Ivl Nat => (do
      let l ← m.getList e.val
      return ((⟨e.lo, e.hi⟩ : BitRange), l) : Except Fault (BitRange × List DriverInfo)))
    (P := fun e b => b.1 = ⟨e.lo, e.hi⟩ ∧ m.lists.get e.val = some b.2)
    (imFind m.ivls q.lower q.upper) (by
      intro e he
      obtain ⟨l, hl⟩ := ht.inv.live e (List.mem_filter.1 he).1
      exact ⟨(⟨e.lo, e.hi⟩, l), by simp only [getList_ok hl, bind, Except.bind, pure, Except.pure], rfl, hl⟩)
  refine ⟨out, ho, fun p hp1 hp2 => ⟨?_, fun n => ?_⟩⟩
  · rw [← ht.cov]
    constructor
    · rintro ⟨x, hx, h3, h4⟩
      obtain ⟨e, he, h5, h6⟩ := h2 x hx
      have hem := (List.mem_filter.1 he).1
      rw [h5, (hbounds e hem).1] at h3
      rw [h5, (hbounds e hem).2] at h4
      exact ⟨e, hem, h3, h4⟩
    · rintro ⟨e, he, h3, h4⟩
      obtain ⟨x, hx, h5, h6⟩ := h1 e (List.mem_filter.2 ⟨he, by simp [Ivl.hits]; omega⟩)
      exact ⟨x, hx, by rw [h5, (hbounds e he).1]; exact h3, by rw [h5, (hbounds e he).2]; exact h4⟩
  · rw [← ht.drv]
    constructor
    · rintro ⟨x, hx, h3, h4, h7⟩
      obtain ⟨e, he, h5, h6⟩ := h2 x hx
      have hem := (List.mem_filter.1 he).1
      rw [h5, (hbounds e hem).1] at h3
      rw [h5, (hbounds e hem).2] at h4
      exact ⟨e, hem, h3, h4, x.2, h6, h7⟩
    · rintro ⟨e, he, h3, h4, l, hl, h7⟩
      obtain ⟨x, hx, h5, h6⟩ := h1 e (List.mem_filter.2 ⟨he, by simp [Ivl.hits]; omega⟩)
      rw [hl] at h6
      simp only [Option.some.injEq] at h6
      refine ⟨x, hx, by rw [h5, (hbounds e he).1]; exact h3, by rw [h5, (hbounds e he).2]; exact h4, ?_⟩
      rw [← h6]
      exact h7

/-- C28, interval view (partial, same condition): the intervals reported for a queried range give,
for each bit of that range, exactly the drivers of the bit, and they cover exactly the recorded
bits. -/
theorem driver_intervals_exact_partial {hist : List Rec} (hr : InRange hist) (hn : NeverSplits hist)
    (q : BitRange) :
    ∃ m out, ({} : DMap).run hist = .ok m ∧ m.intervals q = .ok out ∧
      ∀ p : Int, q.lower ≤ p → p ≤ q.upper →
        ((∃ x ∈ out, x.1.lower ≤ p ∧ p ≤ x.1.upper) ↔ ∃ r ∈ hist, r.Covers p) ∧
        ∀ n, (∃ x ∈ out, x.1.lower ≤ p ∧ p ≤ x.1.upper ∧ ∃ d ∈ x.2, d.node = n) ↔
          LastDriver hist p n := by
  obtain ⟨m, hm, ht⟩ := tracks_run hist {} [] tracks_empty (by simpa using hr) (by simpa using hn)
  simp only [List.nil_append] at ht
  obtain ⟨out, ho, hs⟩ := tracks_intervals ht q
  exact ⟨m, out, hm, ho, hs⟩

/-- The recordings of one symbol. -/
def histOf (hist : List (Nat × Rec)) (sym : Nat) : List Rec :=
  (hist.filter fun x => x.1 == sym).map (·.2)

/-- Every symbol's map tracks that symbol's recordings. -/
structure TracksAll (t : Tracker) (drv : List DMap) (hist : List (Nat × Rec)) : Prop where
  fresh : ∀ p ∈ t.slots, p.2 < t.next
  inj : ∀ p ∈ t.slots, ∀ q ∈ t.slots, p.2 = q.2 → p = q
  len : ∀ p ∈ t.slots, p.2 < drv.length
  keys : (t.slots.map (·.1)).Nodup
  short : drv.length ≤ t.next
  none_ : ∀ sym, sym ∉ t.slots.map (·.1) → histOf hist sym = []
  some_ : ∀ p ∈ t.slots, ∃ m, drv[p.2]? = some m ∧ Tracks m (histOf hist p.1)

theorem getSlot_mem {t : Tracker} {sym i : Nat} (h : t.getSlot sym = some i) :
    (sym, i) ∈ t.slots := by
  unfold Tracker.getSlot at h
  cases hf : t.slots.find? (fun p => p.1 == sym) with
  | none => rw [hf] at h; cases h
  | some p =>
    rw [hf] at h
    simp at h
    have h1 := List.mem_of_find?_eq_some hf
    have h2 := List.find?_some hf
    simp at h2
    subst h2 h
    exact h1

theorem getSlot_none {t : Tracker} {sym : Nat} (h : t.getSlot sym = none) :
    sym ∉ t.slots.map (·.1) := by
  unfold Tracker.getSlot at h
  simp only [Option.map_eq_none_iff, List.find?_eq_none, beq_iff_eq] at h
  intro hm
  obtain ⟨p, hp, rfl⟩ := List.mem_map.1 hm
  exact h p hp rfl

theorem getSlot_of_mem {t : Tracker} {sym i : Nat} (hk : (t.slots.map (·.1)).Nodup)
    (h : (sym, i) ∈ t.slots) : t.getSlot sym = some i := by
  cases hg : t.getSlot sym with
  | none => exact absurd (List.mem_map.2 ⟨_, h, rfl⟩) (getSlot_none hg)
  | some j =>
    have hj := getSlot_mem hg
    have : ∀ (l : List (Nat × Nat)), (l.map (·.1)).Nodup → (sym, i) ∈ l → (sym, j) ∈ l → i = j := by
      intro l
      induction l with
      | nil => simp
      | cons a as ih =>
        intro hnd h1 h2
        rw [List.map_cons, List.nodup_cons] at hnd
        rcases List.mem_cons.1 h1 with h1 | h1' <;> rcases List.mem_cons.1 h2 with h2 | h2'
        · exact (Prod.mk.inj (h1.trans h2.symm)).2
        · subst h1; exact absurd (List.mem_map.2 ⟨_, h2', rfl⟩) hnd.1
        · subst h2; exact absurd (List.mem_map.2 ⟨_, h1', rfl⟩) hnd.1
        · exact ih hnd.2 h1' h2'
    rw [this t.slots hk h hj]

theorem histOf_snoc (hist : List (Nat × Rec)) (s : Nat) (r : Rec) (sym : Nat) :
    histOf (hist ++ [(s, r)]) sym = if s = sym then histOf hist sym ++ [r] else histOf hist sym := by
  unfold histOf
  rw [List.filter_append, List.map_append]
  by_cases h : s = sym
  · subst h; simp
  · rw [if_neg h]
    simp [h]

theorem tracksAll_step {t : Tracker} {drv : List DMap} {hist : List (Nat × Rec)}
    (ht : TracksAll t drv hist) (s : Nat) (r : Rec)
    (hr : -2147483648 ≤ r.bounds.lower ∧ r.bounds.upper < 2147483647)
    (hin : ¬ InsideLast (histOf hist s) r.bounds) :
    ∃ t' drv', t.addDrivers drv s r = .ok (t', drv') ∧ TracksAll t' drv' (hist ++ [(s, r)]) := by
  unfold Tracker.addDrivers Tracker.slotFor
  cases hg : t.getSlot s with
  | some i =>
    have hmem := getSlot_mem hg
    obtain ⟨m, hm, htm⟩ := ht.some_ _ hmem
    simp only at hm htm
    have hlt : i < drv.length := ht.len _ hmem
    have hgrow : growTo drv i = drv := by
      unfold growTo
      rw [Nat.sub_eq_zero_of_le hlt]
      simp
    obtain ⟨m', ho, htm'⟩ := tracks_step htm r hr hin
    refine ⟨t, drv.set i m', ?_, ht.fresh, ht.inj, by simpa using ht.len, ht.keys,
      by simpa using ht.short, ?_, ?_⟩
    · simp only [hgrow, hm, ho, bind, Except.bind, pure, Except.pure]
    · intro sym hsym
      rw [histOf_snoc, if_neg]
      · exact ht.none_ sym hsym
      · rintro rfl
        exact hsym (List.mem_map.2 ⟨_, hmem, rfl⟩)
    · intro p hp
      by_cases hpi : p = (s, i)
      · subst hpi
        refine ⟨m', by simp [hlt], ?_⟩
        rw [histOf_snoc, if_pos rfl]
        exact htm'
      · obtain ⟨mp, h1, h2⟩ := ht.some_ p hp
        have hne : p.2 ≠ i := fun h => hpi (ht.inj p hp _ hmem h)
        have hne1 : s ≠ p.1 := by
          rintro rfl
          have h3 := getSlot_of_mem ht.keys (show (p.1, p.2) ∈ t.slots from hp)
          rw [hg] at h3
          exact hne (Option.some.inj h3).symm
        refine ⟨mp, by rw [List.getElem?_set_ne (Ne.symm hne)]; exact h1, ?_⟩
        rw [histOf_snoc, if_neg hne1]
        exact h2
  | none =>
    have hnone := getSlot_none hg
    have hh := ht.none_ s hnone
    obtain ⟨m', ho, htm'⟩ := tracks_step tracks_empty r hr (by rintro ⟨l, a, l', h, -⟩; simp at h)
    have hlen : (growTo drv t.next).length = t.next + 1 := by
      have := ht.short
      unfold growTo
      simp
      omega
    have hlast : (growTo drv t.next)[t.next]? = some {} := by
      have := ht.short
      unfold growTo
      rw [List.getElem?_append_right this, List.getElem?_replicate, if_pos (by omega)]
    have hold : ∀ k, k < drv.length → (growTo drv t.next)[k]? = drv[k]? := by
      intro k hk
      unfold growTo
      rw [List.getElem?_append_left hk]
    refine ⟨{ slots := t.slots ++ [(s, t.next)], next := t.next + 1 },
      (growTo drv t.next).set t.next m', ?_, ?_, ?_, ?_, ?_, ?_, ?_, ?_⟩
    · simp only [hlast, ho, bind, Except.bind, pure, Except.pure]
    · intro p hp
      rcases List.mem_append.1 hp with hp | hp
      · have := ht.fresh p hp; simp only; omega
      · simp only [List.mem_singleton] at hp; subst hp; simp
    · intro p hp q hq hpq
      rcases List.mem_append.1 hp with hp | hp <;> rcases List.mem_append.1 hq with hq | hq
      · exact ht.inj p hp q hq hpq
      · simp only [List.mem_singleton] at hq; subst hq
        have := ht.fresh p hp
        simp only at hpq; omega
      · simp only [List.mem_singleton] at hp; subst hp
        have := ht.fresh q hq
        simp only at hpq; omega
      · simp only [List.mem_singleton] at hp hq; rw [hp, hq]
    · intro p hp
      rw [List.length_set, hlen]
      rcases List.mem_append.1 hp with hp | hp
      · have := ht.fresh p hp; omega
      · simp only [List.mem_singleton] at hp; subst hp; simp
    · simp only [List.map_append, List.map_cons, List.map_nil]
      rw [List.nodup_append]
      refine ⟨ht.keys, by simp, ?_⟩
      intro a ha b hb hab
      simp only [List.mem_singleton] at hb
      subst hb; subst hab
      exact hnone ha
    · rw [List.length_set, hlen]; exact Nat.le_refl _
    · intro sym hsym
      simp only [List.map_append, List.map_cons, List.map_nil, List.mem_append, List.mem_singleton,
        not_or] at hsym
      rw [histOf_snoc, if_neg (Ne.symm hsym.2)]
      exact ht.none_ sym hsym.1
    · intro p hp
      rcases List.mem_append.1 hp with hp' | hp
      · obtain ⟨mp, h1, h2⟩ := ht.some_ p hp'
        have hlt := ht.fresh p hp'
        have hne1 : s ≠ p.1 := by
          rintro rfl
          exact hnone (List.mem_map.2 ⟨_, hp', rfl⟩)
        refine ⟨mp, ?_, ?_⟩
        · rw [List.getElem?_set_ne (by omega), hold _ (ht.len p hp')]; exact h1
        · rw [histOf_snoc, if_neg hne1]; exact h2
      · simp only [List.mem_singleton] at hp
        subst hp
        refine ⟨m', by simp [hlen], ?_⟩
        rw [histOf_snoc, if_pos rfl, hh]
        exact htm'

theorem tracksAll_run (rest : List (Nat × Rec)) : ∀ (t : Tracker) (drv : List DMap)
    (pre : List (Nat × Rec)), TracksAll t drv pre →
    (∀ s, InRange (histOf (pre ++ rest) s)) → (∀ s, NeverSplits (histOf (pre ++ rest) s)) →
    ∃ t' drv', t.run drv rest = .ok (t', drv') ∧ TracksAll t' drv' (pre ++ rest) := by
  induction rest with
  | nil => intro t drv pre ht _ _; exact ⟨t, drv, rfl, by simpa using ht⟩
  | cons x rs ih =>
    obtain ⟨s, r⟩ := x
    intro t drv pre ht hr hn
    have hsplit : histOf (pre ++ (s, r) :: rs) s = histOf pre s ++ r :: histOf rs s := by
      unfold histOf; simp
    have hr1 := hr s
    have hn1 := hn s
    rw [hsplit] at hr1 hn1
    obtain ⟨t1, d1, h1, ht1⟩ := tracksAll_step ht s r (hr1 r (by simp)) (hn1 _ r _ rfl)
    obtain ⟨t2, d2, h2, ht2⟩ := ih t1 d1 (pre ++ [(s, r)]) ht1 (by simpa using hr) (by simpa using hn)
    exact ⟨t2, d2, by simp only [Tracker.run, h1, bind, Except.bind, h2], by simpa using ht2⟩

/-- C28 for a design (partial, same condition per signal): after any history of recordings on any
signals, the intervals reported for a range of a signal give each bit exactly the drivers recorded
for that signal: those of the last overwrite covering the bit plus all later merges covering it.
Signals never recorded have none. -/
theorem tracker_exact_partial {hist : List (Nat × Rec)} (hr : ∀ s, InRange (histOf hist s))
    (hn : ∀ s, NeverSplits (histOf hist s)) :
    ∃ t drv, ({} : Tracker).run [] hist = .ok (t, drv) ∧ ∀ (sym : Nat) (q : BitRange),
      ∃ out, t.intervals drv sym q = .ok out ∧ ∀ p : Int, q.lower ≤ p → p ≤ q.upper →
        ∀ n, (∃ x ∈ out, x.1.lower ≤ p ∧ p ≤ x.1.upper ∧ ∃ d ∈ x.2, d.node = n) ↔
          LastDriver (histOf hist sym) p n := by
  obtain ⟨t, drv, hrun, ht⟩ := tracksAll_run hist {} [] []
    ⟨by simp, by simp, by simp, by simp, by simp, by simp [histOf], by simp⟩
    (by simpa using hr) (by simpa using hn)
  simp only [List.nil_append] at ht
  refine ⟨t, drv, hrun, fun sym q => ?_⟩
  unfold Tracker.intervals
  cases hg : t.getSlot sym with
  | none =>
    refine ⟨[], rfl, fun p _ _ n => ?_⟩
    rw [ht.none_ sym (getSlot_none hg)]
    constructor
    · rintro ⟨x, hx, _⟩; simp at hx
    · rintro ⟨pre, r, post, h, _⟩; simp at h
  | some i =>
    obtain ⟨m, hm, htm⟩ := ht.some_ _ (getSlot_mem hg)
    simp only at hm htm
    simp only [hm]
    obtain ⟨out, ho, hs⟩ := tracks_intervals htm q
    exact ⟨out, ho, fun p h1 h2 n => (hs p h1 h2).2 n⟩

theorem lastDriver_merges {hist : List Rec} (hm : ∀ r ∈ hist, r.merge = true) (p : Int)
    (n : Option Nat) :
    LastDriver hist p n ↔ ∃ r ∈ hist, r.Covers p ∧ ∃ d ∈ r.drivers, d.node = n := by
  constructor
  · rintro ⟨pre, r, post, rfl, hc, hn, _⟩
    exact ⟨r, by simp, hc, hn⟩
  · rintro ⟨r, hr, hc, hn⟩
    obtain ⟨pre, post, rfl⟩ := List.append_of_mem hr
    exact ⟨pre, r, post, rfl, hc, hn, fun q hq _ => hm q (by simp [hq])⟩

/-- C30 (partial): recording the same merges in two orders gives the same drivers for every bit, provided
that in neither order a range is recorded strictly inside an earlier one as in `NeverSplits`; no order does
that if no range lies strictly inside another (`never_splits`). Missing: other orders, for which the result
may differ (`merge_order_matters`). -/
theorem merge_order_independent_partial {h1 h2 : List Rec} (hp : h1.Perm h2)
    (hm : ∀ r ∈ h1, r.merge = true) (hr : InRange h1) (hn1 : NeverSplits h1) (hn2 : NeverSplits h2) :
    ∃ m1 m2, ({} : DMap).run h1 = .ok m1 ∧ ({} : DMap).run h2 = .ok m2 ∧
      ∀ p : Int, ∃ l1 l2, m1.getDrivers ⟨p, p⟩ = .ok l1 ∧ m2.getDrivers ⟨p, p⟩ = .ok l2 ∧
        ∀ n, (∃ d ∈ l1, d.node = n) ↔ ∃ d ∈ l2, d.node = n := by
  have hmem : ∀ r, r ∈ h1 ↔ r ∈ h2 := fun r => hp.mem_iff
  have hr2 : InRange h2 := fun r h => hr r ((hmem r).2 h)
  obtain ⟨m1, e1, d1⟩ := driver_map_exact_partial hr hn1
  obtain ⟨m2, e2, d2⟩ := driver_map_exact_partial hr2 hn2
  refine ⟨m1, m2, e1, e2, fun p => ?_⟩
  obtain ⟨l1, g1, s1⟩ := d1 p
  obtain ⟨l2, g2, s2⟩ := d2 p
  refine ⟨l1, l2, g1, g2, fun n => ?_⟩
  rw [s1, s2, lastDriver_merges hm, lastDriver_merges (fun r h => hm r ((hmem r).2 h))]
  simp only [hmem]

/-- C28 is false in general. Node 1 writes bits 7..0, node 2 writes bits 4..3, node 3 writes bits
2..0: bit 6 is then reported as driven by node 3, although node 1 was the last to write it. -/
theorem overwrite_leaks_to_other_bits :
    (do let m ← ({} : DMap).run [⟨⟨7, 0⟩, [⟨some 1, 0⟩], false⟩, ⟨⟨4, 3⟩, [⟨some 2, 0⟩], false⟩,
          ⟨⟨2, 0⟩, [⟨some 3, 0⟩], false⟩]
        m.getDrivers ⟨6, 6⟩) = (.ok [⟨some 3, 0⟩] : Except Fault (List DriverInfo)) ∧
    ¬ LastDriver [⟨⟨7, 0⟩, [⟨some 1, 0⟩], false⟩, ⟨⟨4, 3⟩, [⟨some 2, 0⟩], false⟩,
          ⟨⟨2, 0⟩, [⟨some 3, 0⟩], false⟩] 6 (some 3) := by
  refine ⟨by decide, ?_⟩
  rintro ⟨pre, r, post, heq, hc, hn, -⟩
  have hr : r ∈ [(⟨⟨7, 0⟩, [⟨some 1, 0⟩], false⟩ : Rec), ⟨⟨4, 3⟩, [⟨some 2, 0⟩], false⟩,
          ⟨⟨2, 0⟩, [⟨some 3, 0⟩], false⟩] := by rw [heq]; simp
  simp only [List.mem_cons, List.not_mem_nil, or_false] at hr
  rcases hr with rfl | rfl | rfl
  · simp at hn
  · simp at hn
  · simp only [Rec.Covers, BitRange.lower, BitRange.upper] at hc
    omega

/-- C29 is false in general. Node 1 writes bits 7..0, node 2 writes bits 4..3, node 3 writes bits
7..3: the list of node 1 is released although bits 2..0 still refer to it, and reading those bits
dereferences it. -/
theorem released_list_is_used :
    (do let m ← ({} : DMap).run [⟨⟨7, 0⟩, [⟨some 1, 0⟩], false⟩, ⟨⟨4, 3⟩, [⟨some 2, 0⟩], false⟩,
          ⟨⟨7, 3⟩, [⟨some 3, 0⟩], false⟩]
        m.getDrivers ⟨2, 0⟩) = (.error .oob : Except Fault (List DriverInfo)) := by decide

/-- C29, confusion of lists: after node 3 writes bits 4..0 instead, the released list is reused for
node 3, and bits 7..5, written only by node 1, are reported as driven by node 3. -/
theorem released_list_is_reused :
    (do let m ← ({} : DMap).run [⟨⟨7, 0⟩, [⟨some 1, 0⟩], false⟩, ⟨⟨4, 3⟩, [⟨some 2, 0⟩], false⟩,
          ⟨⟨4, 0⟩, [⟨some 3, 0⟩], false⟩]
        m.getDrivers ⟨7, 5⟩) = (.ok [⟨some 3, 0⟩] : Except Fault (List DriverInfo)) := by decide

/-- The liveness check before releasing a list is needed: bits 7..5 and 2..0 share a list, and an
overwrite of all of them releases it once, without a fault. -/
theorem shared_list_released_once :
    (do let m ← ({} : DMap).run [⟨⟨7, 0⟩, [⟨some 1, 0⟩], false⟩, ⟨⟨4, 3⟩, [⟨some 2, 0⟩], false⟩,
          ⟨⟨9, 0⟩, [⟨some 3, 0⟩], false⟩]
        m.getDrivers ⟨7, 0⟩) = (.ok [⟨some 3, 0⟩] : Except Fault (List DriverInfo)) := by decide

/-- C30 is false in general: the same three merges in two orders give bit 6 different drivers. -/
theorem merge_order_matters :
    (do let m ← ({} : DMap).run [⟨⟨7, 0⟩, [⟨some 1, 0⟩], true⟩, ⟨⟨4, 3⟩, [⟨some 2, 0⟩], true⟩,
          ⟨⟨2, 0⟩, [⟨some 3, 0⟩], true⟩]
        m.getDrivers ⟨6, 6⟩) =
      (.ok [⟨some 1, 0⟩, ⟨some 3, 0⟩] : Except Fault (List DriverInfo)) ∧
    (do let m ← ({} : DMap).run [⟨⟨7, 0⟩, [⟨some 1, 0⟩], true⟩, ⟨⟨2, 0⟩, [⟨some 3, 0⟩], true⟩,
          ⟨⟨4, 3⟩, [⟨some 2, 0⟩], true⟩]
        m.getDrivers ⟨6, 6⟩) = (.ok [⟨some 1, 0⟩] : Except Fault (List DriverInfo)) := by
  constructor <;> decide

/-- Reading a range does not see an interval that overlaps it only partially. -/
theorem partial_overlap_not_read :
    (do let m ← ({} : DMap).run [⟨⟨3, 0⟩, [⟨some 1, 0⟩], false⟩]
        m.getDrivers ⟨5, 2⟩) = (.ok [] : Except Fault (List DriverInfo)) := by decide

/-- A recording that ends at the largest 32-bit value overflows when it meets an existing interval
ending there. -/
theorem driver_map_overflow :
    (match ({} : DMap).run [⟨⟨2147483647, 0⟩, [⟨some 1, 0⟩], false⟩,
        ⟨⟨2147483647, -1⟩, [⟨some 2, 0⟩], true⟩] with
      | .ok _ => false
      | .error f => f = .oob) = true := by decide

/-- A history with overlaps, containment and a merge that meets the hypotheses. -/
def sampleHist : List Rec :=
  [⟨⟨3, 0⟩, [⟨some 1, 0⟩], false⟩, ⟨⟨5, 2⟩, [⟨some 2, 0⟩], false⟩, ⟨⟨9, 0⟩, [⟨some 3, 0⟩], true⟩,
    ⟨⟨9, 4⟩, [⟨some 4, 0⟩], false⟩, ⟨⟨12, 7⟩, [⟨some 5, 0⟩], true⟩]

example : InRange sampleHist ∧ NeverSplits sampleHist := by
  constructor
  · unfold InRange sampleHist; decide
  · exact never_splits (by unfold NeverInside sampleHist; decide)

/-- A default for the whole signal, then its three parts from the lowest up: each part lies strictly inside
the default or next to its end, but the one before it was recorded next to it. -/
def partsHist : List Rec :=
  [⟨⟨11, 0⟩, [⟨some 1, 0⟩], false⟩, ⟨⟨3, 0⟩, [⟨some 2, 0⟩], false⟩, ⟨⟨7, 4⟩, [⟨some 3, 0⟩], false⟩,
    ⟨⟨11, 8⟩, [⟨some 4, 0⟩], false⟩]

theorem parts_fine : InRange partsHist ∧ NeverSplits partsHist ∧ ¬ NeverInside partsHist := by
  refine ⟨by unfold InRange partsHist; decide, ?_, by unfold NeverInside partsHist; decide⟩
  have nil : ∀ b, ¬ InsideLast [] b := by rintro b ⟨l, a, l', h, -⟩; simp at h
  have h1 : NeverSplits ([] ++ [partsHist[0]]) := neverSplits_snoc neverSplits_nil (nil _)
  have h2 : NeverSplits ([] ++ [partsHist[0]] ++ [partsHist[1]]) := neverSplits_snoc h1 (by
    simp only [insideLast_snoc, nil, false_and, or_false]; decide)
  have h3 : NeverSplits ([] ++ [partsHist[0]] ++ [partsHist[1]] ++ [partsHist[2]]) := neverSplits_snoc h2 (by
    simp only [insideLast_snoc, nil, false_and, or_false]; decide)
  exact neverSplits_snoc h3 (by simp only [insideLast_snoc, nil, false_and, or_false]; decide)

example : ∃ m, ({} : DMap).run partsHist = .ok m ∧ ∀ p : Int, ∃ l, m.getDrivers ⟨p, p⟩ = .ok l ∧
    ∀ n, (∃ d ∈ l, d.node = n) ↔ LastDriver partsHist p n := driver_map_exact_partial parts_fine.1 parts_fine.2.1

example : (do let m ← ({} : DMap).run sampleHist
              m.getDrivers ⟨8, 8⟩) =
    (.ok [⟨some 4, 0⟩, ⟨some 5, 0⟩] : Except Fault (List DriverInfo)) := by decide

example : (do let m ← ({} : DMap).run sampleHist
              m.intervals ⟨3, 0⟩) =
    (.ok [(⟨0, 1⟩, [⟨some 1, 0⟩, ⟨some 3, 0⟩]), (⟨2, 3⟩, [⟨some 2, 0⟩, ⟨some 3, 0⟩])] :
      Except Fault (List (BitRange × List DriverInfo))) := by decide

/-- Two signals, recordings interleaved. -/
def sampleHist2 : List (Nat × Rec) :=
  [(7, ⟨⟨3, 0⟩, [⟨some 1, 0⟩], false⟩), (4, ⟨⟨3, 0⟩, [⟨some 9, 0⟩], false⟩),
    (7, ⟨⟨5, 2⟩, [⟨some 2, 0⟩], false⟩)]

example : (∀ s, InRange (histOf sampleHist2 s)) ∧ (∀ s, NeverSplits (histOf sampleHist2 s)) := by
  constructor
  · intro s r hr
    obtain ⟨x, hx, rfl⟩ := List.mem_map.1 hr
    have hx := (List.mem_filter.1 hx).1
    simp only [sampleHist2, List.mem_cons, List.not_mem_nil, or_false] at hx
    rcases hx with rfl | rfl | rfl <;> decide
  · intro s
    refine never_splits ?_
    unfold NeverInside histOf
    refine List.Pairwise.map _ (fun _ _ h => h) (List.Pairwise.filter _ ?_)
    unfold sampleHist2
    decide

example : (do let (t, drv) ← ({} : Tracker).run [] sampleHist2
              t.intervals drv 7 ⟨5, 0⟩) =
    (.ok [(⟨0, 1⟩, [⟨some 1, 0⟩]), (⟨2, 3⟩, [⟨some 2, 0⟩]), (⟨4, 5⟩, [⟨some 2, 0⟩])] :
      Except Fault (List (BitRange × List DriverInfo))) := by decide

end Verif.Props
