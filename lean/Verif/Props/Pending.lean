import Verif.Model.Pending
import Verif.Props.Dependency
import Verif.Props.ValueTracker
import Verif.Props.Cuts

/-! C43, C44: resolution of pending reads. -/
set_option linter.unusedSimpArgs false
namespace Verif.Props
open Verif.Model Verif.Spec Verif.Proofs

/-! ### C44: one pending read -/

theorem inRng_intersection {a b r : BitRange} (h : a.intersection b = some r) (i : Int) :
    InRng r i ↔ InRng a i ∧ InRng b i := by
  unfold BitRange.intersection at h
  split at h
  · rename_i ho
    cases h
    simp only [BitRange.overlaps, Bool.and_eq_true, decide_eq_true_eq] at ho
    simp only [inRng_iff]
    have h1 : a.lower ≤ a.upper := by unfold BitRange.lower BitRange.upper; omega
    have h2 : b.lower ≤ b.upper := by unfold BitRange.lower BitRange.upper; omega
    generalize a.lower = al at *
    generalize a.upper = au at *
    generalize b.lower = bl at *
    generalize b.upper = bu at *
    unfold BitRange.lower BitRange.upper
    simp only
    omega
  · cases h

theorem intersection_none {a b : BitRange} (h : a.intersection b = none) (i : Int) :
    ¬ (InRng a i ∧ InRng b i) := by
  unfold BitRange.intersection at h
  split at h
  · cases h
  · rename_i ho
    rw [overlaps_iff] at ho
    exact fun hc => ho ⟨i, hc⟩

theorem mem_intervalDeps {ref : SymRef} {n : Nat} {p : Pending} {x : BitRange × List DriverInfo}
    {d : Dep} : d ∈ intervalDeps ref n p x ↔ ∃ eb, x.1.intersection p.bounds = some eb ∧
      (∃ i ∈ x.2, i.node = some d.src) ∧ d = ⟨d.src, n, some ref, eb, p.kind⟩ := by
  unfold intervalDeps
  split
  · rename_i h; simp [h]
  · rename_i eb h
    simp only [h, Option.some.injEq, exists_eq_left', List.mem_filterMap, Option.map_eq_some_iff]
    constructor
    · rintro ⟨i, hi, s, hs, rfl⟩; exact ⟨⟨i, hi, hs⟩, rfl⟩
    · rintro ⟨⟨i, hi, hs⟩, hd⟩; exact ⟨i, hi, d.src, hs, hd.symm⟩

/-- C44: if a node is registered for exactly the range read, the read is connected to it and to
nothing else; otherwise it is connected to exactly the drivers in the intervals that share a bit
with the range, each edge being labelled with the shared bits. For all variable tables and driver
maps (whatever intervals the map reports). A read without a target node adds nothing. -/
theorem pending_read_exact (c : ResolveCtx) (p : Pending) :
    match p.node with
    | none => emitDeps c p = .ok []
    | some n =>
      match c.vars.lookup p.sym p.bounds with
      | some v => emitDeps c p = .ok [⟨v, n, some (c.ref p.sym), p.bounds, p.kind⟩]
      | none => ∀ ivs, c.trk.intervals c.drv p.sym p.bounds = .ok ivs →
        ∃ ds, emitDeps c p = .ok ds ∧
          (∀ d ∈ ds, d.tgt = n ∧ d.sym = some (c.ref p.sym) ∧ d.kind = p.kind) ∧
          (∀ d ∈ ds, ∃ x ∈ ivs, (∃ i ∈ x.2, i.node = some d.src) ∧
            ∀ i, InRng d.bounds i ↔ InRng x.1 i ∧ InRng p.bounds i) ∧
          ∀ x ∈ ivs, (∃ i, InRng x.1 i ∧ InRng p.bounds i) → ∀ s, (∃ i ∈ x.2, i.node = some s) →
            ∃ d ∈ ds, d.src = s ∧ ∀ i, InRng d.bounds i ↔ InRng x.1 i ∧ InRng p.bounds i := by
  unfold emitDeps
  cases p.node with
  | none => rfl
  | some n =>
    simp only
    cases c.vars.lookup p.sym p.bounds with
    | some v => rfl
    | none =>
      simp only
      intro ivs hiv
      rw [hiv]
      refine ⟨_, rfl, ?_, ?_, ?_⟩
      · intro d hd
        obtain ⟨x, _, hx⟩ := List.mem_flatMap.1 hd
        obtain ⟨eb, _, _, h⟩ := mem_intervalDeps.1 hx
        rw [h]; exact ⟨rfl, rfl, rfl⟩
      · intro d hd
        obtain ⟨x, hx, hd⟩ := List.mem_flatMap.1 hd
        obtain ⟨eb, h1, h2, h3⟩ := mem_intervalDeps.1 hd
        refine ⟨x, hx, h2, ?_⟩
        rw [h3]
        exact inRng_intersection h1
      · rintro x hx ⟨i, hi⟩ s hs
        cases he : x.1.intersection p.bounds with
        | none => exact absurd hi (intersection_none he i)
        | some eb =>
          refine ⟨⟨s, n, some (c.ref p.sym), eb, p.kind⟩, ?_, rfl, inRng_intersection he⟩
          exact List.mem_flatMap.2 ⟨x, hx, mem_intervalDeps.2 ⟨eb, he, hs, rfl⟩⟩

/-- C44, from the recordings: if the variable nodes were registered and the drivers recorded by the
given histories, a read is connected, bit by bit, to exactly the nodes that drive the bit. Limited
to driver histories for which the driver map is exact (see `tracker_exact_partial`) and to ranges
given in ascending order (see `descending_range_not_found`). -/
theorem pending_read_drivers_partial {reg : List (Nat × BitRange × Nat)} {hist : List (Nat × Rec)}
    (hr : ∀ s, InRange (histOf hist s)) (hn : ∀ s, NeverSplits (histOf hist s)) (ref : Nat → SymRef)
    {p : Pending} {n : Nat} (hp : p.node = some n) (hasc : p.bounds.left ≤ p.bounds.right) :
    ∃ t drv ds, ({} : Tracker).run [] hist = .ok (t, drv) ∧
      emitDeps ⟨VarTab.run (fun _ => []) reg, t, drv, ref⟩ p = .ok ds ∧
      ((∃ v, RegisteredNode reg p.sym p.bounds.left p.bounds.right v ∧
          ds = [⟨v, n, some (ref p.sym), p.bounds, p.kind⟩]) ∨
        ((∀ v, ¬ RegisteredNode reg p.sym p.bounds.left p.bounds.right v) ∧
          (∀ d ∈ ds, d.tgt = n ∧ d.sym = some (ref p.sym) ∧ d.kind = p.kind) ∧
          ∀ s i, (∃ d ∈ ds, d.src = s ∧ InRng d.bounds i) ↔
            InRng p.bounds i ∧ LastDriver (histOf hist p.sym) i (some s))) := by
  obtain ⟨t, drv, hrun, hex⟩ := tracker_exact_partial hr hn
  obtain ⟨ivs, hiv, hbits⟩ := hex p.sym p.bounds
  have hpe := pending_read_exact ⟨VarTab.run (fun _ => []) reg, t, drv, ref⟩ p
  rw [hp] at hpe
  simp only at hpe
  have hl := variable_lookup_exact_partial reg p.sym p.bounds hasc
  cases hv : (VarTab.run (fun _ => []) reg).lookup p.sym p.bounds with
  | some v =>
    rw [hv] at hpe hl
    exact ⟨t, drv, _, hrun, hpe, Or.inl ⟨v, hl, rfl⟩⟩
  | none =>
    rw [hv] at hpe hl
    obtain ⟨ds, h1, h2, h3, h4⟩ := hpe ivs hiv
    refine ⟨t, drv, ds, hrun, h1, Or.inr ⟨hl, h2, ?_⟩⟩
    intro s i
    constructor
    · rintro ⟨d, hd, rfl, hi⟩
      obtain ⟨x, hx, hxs, hb⟩ := h3 d hd
      obtain ⟨hx1, hx2⟩ := (hb i).1 hi
      refine ⟨hx2, ?_⟩
      have hx2' := (inRng_iff ..).1 hx2
      refine (hbits i hx2'.1 hx2'.2 (some d.src)).1 ⟨x, hx, ?_⟩
      have := (inRng_iff ..).1 hx1
      exact ⟨this.1, this.2, hxs⟩
    · rintro ⟨hi, hld⟩
      have hi' := (inRng_iff ..).1 hi
      obtain ⟨x, hx, hx1, hx2, hxs⟩ := (hbits i hi'.1 hi'.2 (some s)).2 hld
      have hxi : InRng x.1 i := (inRng_iff ..).2 ⟨hx1, hx2⟩
      obtain ⟨d, hd, rfl, hb⟩ := h4 x hx ⟨i, hxi, hi⟩ s hxs
      exact ⟨d, hd, rfl, (hb i).2 ⟨hxi, hi⟩⟩

/-- Non-vacuity: bits 3..0 of signal 7 driven by node 1 and bits 5..2 by node 2; a read of 3..1 by
node 9, without and with a register node for exactly that range. -/
example :
    (match ({} : Tracker).run [] sampleHist2 with
      | .ok (t, drv) =>
        ((emitDeps ⟨fun _ => [], t, drv, fun _ => oneSym 'x'⟩ ⟨7, ⟨1, 3⟩, some 9, .none⟩).toOption,
        (emitDeps ⟨VarTab.run (fun _ => []) [(7, ⟨1, 3⟩, 5)], t, drv, fun _ => oneSym 'x'⟩
          ⟨7, ⟨1, 3⟩, some 9, .none⟩).toOption)
      | .error _ => (none, none)) =
    (some [⟨1, 9, some (oneSym 'x'), ⟨1, 1⟩, .none⟩, ⟨2, 9, some (oneSym 'x'), ⟨2, 3⟩, .none⟩],
      some [⟨5, 9, some (oneSym 'x'), ⟨1, 3⟩, .none⟩]) := by decide

/-! ### C43: grouping and interleaving -/

theorem slices_flatten (q : List Pending) : ∀ (a : Nat) (l : List Nat),
    (a :: l).Pairwise (· ≤ ·) → (slicesOf q (a :: l)).flatten =
      (q.take ((a :: l).getLast (by simp))).drop a := by
  intro a l
  induction l generalizing a with
  | nil => intro _; simp [slicesOf]
  | cons b l ih =>
    intro h
    have hb := (List.pairwise_cons.1 h).2
    have hab : a ≤ b := (List.pairwise_cons.1 h).1 b List.mem_cons_self
    rw [slicesOf, List.flatten_cons, ih b hb, List.getLast_cons (List.cons_ne_nil b l)]
    have hne : b :: l ≠ [] := by simp
    have hbl : b ≤ (b :: l).getLast hne := by
      rcases List.mem_cons.1 (List.getLast_mem hne) with h1 | h1
      · rw [h1]; omega
      · exact (List.pairwise_cons.1 hb).1 _ h1
    generalize (b :: l).getLast hne = z at *
    rw [show (q.take z).drop a = ((q.take z).drop a).take (b - a) ++ ((q.take z).drop a).drop (b - a)
      from (List.take_append_drop _ _).symm]
    congr 1
    · rw [List.take_drop, List.take_take]
      congr 2; omega
    · rw [List.drop_drop]; congr 1; omega

theorem runStarts_sorted (q : List Pending) (h : firstReal q < q.length) :
    (runStarts q).Pairwise (· < ·) := by
  unfold runStarts
  simp only [h, ↓reduceIte, List.pairwise_cons, List.pairwise_append]
  refine ⟨?_, (List.pairwise_lt_range' ..).filter _, by simp, ?_⟩
  · intro x hx
    rcases List.mem_append.1 hx with hx | hx
    · have := List.mem_range'_1.1 (List.mem_filter.1 hx).1; omega
    · simp only [List.mem_singleton] at hx; omega
  · intro x hx y hy
    have := List.mem_range'_1.1 (List.mem_filter.1 hx).1
    simp only [List.mem_singleton] at hy
    omega

theorem dropWhile_eq_drop {α : Type} (P : α → Bool) (l : List α) :
    l.dropWhile P = l.drop (l.takeWhile P).length := by
  induction l with
  | nil => rfl
  | cons a l ih =>
    by_cases h : P a
    · simp [List.dropWhile_cons, List.takeWhile_cons, h, ih]
    · simp [List.dropWhile_cons, List.takeWhile_cons, h]

/-- The runs cut the queue, after the leading entries without target, into consecutive pieces. -/
theorem runs_flatten (q : List Pending) :
    (runs q).flatten = q.dropWhile fun p => p.node.isNone := by
  rw [dropWhile_eq_drop]
  unfold runs
  by_cases h : firstReal q < q.length
  · have hs := runStarts_sorted q h
    unfold runStarts at hs ⊢
    simp only [h, ↓reduceIte] at hs ⊢
    rw [slices_flatten q _ _ (hs.imp Nat.le_of_lt)]
    rw [List.getLast_cons (by simp), List.getLast_append_of_ne_nil _ (by simp)]
    simp [firstReal]
  · have : (q.takeWhile fun p => p.node.isNone).length = q.length := by
      have h1 := (List.takeWhile_prefix (p := fun p : Pending => p.node.isNone) (l := q)).length_le
      unfold firstReal at h; omega
    simp [runStarts, h, slicesOf, this]

/-- A slice is one of the consecutive pieces. -/
theorem mem_slices (q : List Pending) : ∀ (S : List Nat) (r : List Pending), r ∈ slicesOf q S →
    ∃ pre a b post, S = pre ++ a :: b :: post ∧ r = (q.take b).drop a := by
  intro S
  induction S with
  | nil => intro r h; cases h
  | cons a l ih =>
    intro r h
    cases l with
    | nil => cases h
    | cons b l =>
      rw [slicesOf] at h
      rcases List.mem_cons.1 h with rfl | h
      · exact ⟨[], a, b, l, rfl, rfl⟩
      · obtain ⟨pre, a', b', post, h1, h2⟩ := ih r h
        exact ⟨a :: pre, a', b', post, by rw [h1]; rfl, h2⟩

theorem mem_slice {q : List Pending} {a b : Nat} {p : Pending} (h : p ∈ (q.take b).drop a) :
    ∃ i, a ≤ i ∧ i < b ∧ q[i]? = some p := by
  obtain ⟨i, hi, rfl⟩ := List.getElem_of_mem h
  rw [List.getElem_drop, List.getElem_take]
  simp only [List.length_drop, List.length_take] at hi
  exact ⟨a + i, by omega, by omega, List.getElem?_eq_getElem (by omega)⟩

/-- Positions between two consecutive run starts have the same target. -/
theorem same_run {q : List Pending} {pre post : List Nat} {a b : Nat}
    (hS : runStarts q = pre ++ a :: b :: post) : ∀ i, a ≤ i → i < b →
      (q[i]?).map Pending.node = (q[a]?).map Pending.node := by
  have hlt : firstReal q < q.length := by
    apply Classical.byContradiction
    intro h
    rw [runStarts] at hS
    simp [h] at hS
  have hsorted := runStarts_sorted q hlt
  have hmemb : b ∈ runStarts q := by rw [hS]; simp
  have hmema : a ∈ runStarts q := by rw [hS]; simp
  have hbl : b ≤ q.length ∧ firstReal q ≤ a := by
    unfold runStarts at hmema hmemb
    simp only [hlt, ↓reduceIte, List.mem_cons, List.mem_append, List.mem_filter,
      List.mem_range'_1, List.not_mem_nil, or_false] at hmema hmemb
    omega
  intro i
  induction i with
  | zero => intro h _; have : a = 0 := by omega
            subst this; rfl
  | succ i ih =>
    intro h1 h2
    by_cases hia : a = i + 1
    · rw [hia]
    · rw [← ih (by omega) (by omega)]
      have hni : i + 1 ∉ runStarts q := by
        intro hc
        rw [hS] at hc hsorted
        rw [List.pairwise_append] at hsorted
        rcases List.mem_append.1 hc with hc | hc
        · have := hsorted.2.2 _ hc a (by simp); omega
        · rcases List.mem_cons.1 hc with hc | hc
          · omega
          · rcases List.mem_cons.1 hc with hc | hc
            · omega
            · have := (List.pairwise_cons.1 (List.pairwise_cons.1 hsorted.2.1).2).1 _ hc
              omega
      unfold runStarts at hni
      simp only [hlt, ↓reduceIte, List.mem_cons, List.mem_append, List.mem_filter,
        List.mem_range'_1, List.not_mem_nil, or_false, not_or, not_and] at hni
      have := hni.2.1 (by omega)
      simpa [startsRun] using this

theorem slices_pairwise (q : List Pending) (S : List Nat) (hS : S.Pairwise (· < ·)) :
    (slicesOf q S).Pairwise fun r r' => ∃ s, s ∈ S.tail ∧ s ∈ S.dropLast ∧
      (∀ p ∈ r, ∃ i, i < s ∧ q[i]? = some p) ∧ ∀ p ∈ r', ∃ i, s ≤ i ∧ q[i]? = some p := by
  induction S with
  | nil => exact List.Pairwise.nil
  | cons a l ih =>
    cases l with
    | nil => exact List.Pairwise.nil
    | cons b l =>
      rw [slicesOf, List.pairwise_cons]
      have hb := (List.pairwise_cons.1 hS).2
      constructor
      · intro r' hr'
        obtain ⟨pre, a', b', post, h1, h2⟩ := mem_slices q _ r' hr'
        have hle : b ≤ a' := by
          cases pre with
          | nil => simp at h1; omega
          | cons x pre =>
            simp only [List.cons_append, List.cons.injEq] at h1
            have : a' ∈ l := by rw [h1.2]; simp
            exact Nat.le_of_lt ((List.pairwise_cons.1 hb).1 a' this)
        refine ⟨b, by simp, ?_, ?_, ?_⟩
        · cases l with
          | nil =>
            cases pre with
            | nil => simp at h1
            | cons x pre => simp at h1
          | cons c l => simp
        · intro p hp
          obtain ⟨i, _, h4, h5⟩ := mem_slice hp
          exact ⟨i, h4, h5⟩
        · intro p hp
          rw [h2] at hp
          obtain ⟨i, h3, _, h5⟩ := mem_slice hp
          exact ⟨i, by omega, h5⟩
      · refine (ih hb).imp ?_
        rintro r r' ⟨s, h1, h2, h3, h4⟩
        refine ⟨s, ?_, ?_, h3, h4⟩
        · simp only [List.tail_cons] at h1 ⊢; exact List.mem_cons_of_mem _ h1
        · rw [List.dropLast_cons_of_ne_nil (by simp)]; exact List.mem_cons_of_mem _ h2

theorem targetKey_inj {addr : Nat → Nat} (hinj : ∀ a b, addr a = addr b → a = b)
    {x y : Option Nat} (h : targetKey addr x = targetKey addr y) : x = y := by
  cases x <;> cases y <;> simp [targetKey] at h ⊢
  exact hinj _ _ h

/-- C43, grouping: every pending read with a target is in exactly one run (as often as it was
queued), all reads of a run have one target, and different runs have different targets. -/
theorem runs_partition {addr : Nat → Nat} (hinj : ∀ a b, addr a = addr b → a = b)
    {q q' : List Pending} (hs : SortsTo addr q q') :
    (runs q').flatten.Perm (q.filter fun p => p.node.isSome) ∧
    (∀ r ∈ runs q', ∀ a ∈ r, ∀ b ∈ r, a.node = b.node) ∧
    (runs q').Pairwise fun r r' => ∀ a ∈ r, ∀ b ∈ r', a.node ≠ b.node := by
  obtain ⟨hperm, hsort⟩ := hs
  have hkey : ∀ (i j : Nat) (a b : Pending), i ≤ j → q'[i]? = some a → q'[j]? = some b →
      targetKey addr a.node ≤ targetKey addr b.node := by
    intro i j a b hij ha hb
    obtain ⟨h1, rfl⟩ := List.getElem?_eq_some_iff.1 ha
    obtain ⟨h2, rfl⟩ := List.getElem?_eq_some_iff.1 hb
    rcases Nat.lt_or_eq_of_le hij with h | h
    · exact List.pairwise_iff_getElem.1 hsort i j h1 h2 h
    · subst h; exact Nat.le_refl _
  refine ⟨?_, ?_, ?_⟩
  · rw [runs_flatten]
    have : q'.dropWhile (fun p => p.node.isNone) = q'.filter fun p => p.node.isSome := by
      clear hperm hkey
      induction q' with
      | nil => rfl
      | cons a l ih =>
        have h1 := List.pairwise_cons.1 hsort
        by_cases ha : a.node.isNone
        · have : a.node.isSome = false := by simpa using ha
          rw [List.dropWhile_cons_of_pos (p := fun p : Pending => p.node.isNone) ha, List.filter_cons_of_neg (by simp [this]), ih h1.2]
        · rw [List.dropWhile_cons_of_neg (p := fun p : Pending => p.node.isNone) ha, List.filter_eq_self.2]
          intro b hb
          rcases List.mem_cons.1 hb with rfl | hb
          · cases hn : b.node <;> simp [hn] at ha ⊢
          · have := h1.1 b hb
            cases hn : a.node with
            | none => simp [hn] at ha
            | some n =>
              cases hm : b.node with
              | none => rw [hn, hm] at this; simp [targetKey] at this
              | some m => rfl
    rw [this]
    exact hperm.filter _
  · intro r hr a ha b hb
    obtain ⟨pre, x, y, post, h1, h2⟩ := mem_slices q' _ r hr
    subst h2
    obtain ⟨i, hi1, hi2, hi3⟩ := mem_slice ha
    obtain ⟨j, hj1, hj2, hj3⟩ := mem_slice hb
    have e1 := same_run h1 i hi1 hi2
    have e2 := same_run h1 j hj1 hj2
    rw [hi3] at e1; rw [hj3] at e2
    rw [← e2] at e1
    simpa using e1
  · by_cases hlt : firstReal q' < q'.length
    · refine (slices_pairwise q' _ (runStarts_sorted q' hlt)).imp ?_
      rintro r r' ⟨s, hs1, hs2, h3, h4⟩ a ha b hb heq
      obtain ⟨i, hi, hia⟩ := h3 a ha
      obtain ⟨j, hj, hjb⟩ := h4 b hb
      have hbd : firstReal q' + 1 ≤ s ∧ s < q'.length ∧ startsRun q' s = true := by
        unfold runStarts at hs1 hs2
        simp only [hlt, ↓reduceIte, List.tail_cons] at hs1 hs2
        have hne : s ≠ q'.length := by
          intro hc
          have hsorted := runStarts_sorted q' hlt
          unfold runStarts at hsorted
          simp only [hlt, ↓reduceIte] at hsorted
          rw [← List.cons_append] at hs2 hsorted
          rw [List.dropLast_append_of_ne_nil (by simp)] at hs2
          have := (List.pairwise_append.1 hsorted).2.2 s (by simpa using hs2) q'.length (by simp)
          omega
        simp only [List.mem_append, List.mem_filter, List.mem_range'_1, List.mem_cons,
          List.not_mem_nil, or_false] at hs1
        rcases hs1 with hs1 | hs1
        · exact ⟨hs1.1.1, by omega, hs1.2⟩
        · exact absurd hs1 hne
      have hs0 : q'[s]? = some q'[s] := List.getElem?_eq_getElem hbd.2.1
      have hsp : q'[s - 1]? = some (q'[s - 1]'(by omega)) := List.getElem?_eq_getElem (by omega)
      have hne : q'[s].node ≠ (q'[s - 1]'(by omega)).node := by
        have := hbd.2.2
        unfold startsRun at this
        rw [hs0, hsp] at this
        simpa using this
      have k1 := hkey i (s - 1) a _ (by omega) hia hsp
      have k2 := hkey (s - 1) s _ _ (by omega) hsp hs0
      have k3 := hkey s j _ b (by omega) hs0 hjb
      rw [heq] at k1
      apply hne
      exact targetKey_inj hinj (by omega)
    · unfold runs runStarts
      simp [hlt, slicesOf]

theorem interleave_filter {α : Type} (P : α → Bool) {ls : List (List α)} {ys : List α}
    (h : Interleave ls ys)
    (hp : ls.Pairwise fun a b => a.filter P = [] ∨ b.filter P = []) :
    ys.filter P = (ls.map (List.filter P)).flatten := by
  induction h with
  | done hnil =>
    symm
    rw [List.filter_nil, List.flatten_eq_nil_iff]
    intro l hl
    obtain ⟨m, hm, rfl⟩ := List.mem_map.1 hl
    rw [hnil m hm]; rfl
  | @step pre post x xs ys _ ih =>
    rw [List.pairwise_append, List.pairwise_cons] at hp
    obtain ⟨p1, ⟨p2, p3⟩, p4⟩ := hp
    have hsub : (x :: xs).filter P = [] → xs.filter P = [] := by
      intro h
      rw [List.filter_eq_nil_iff] at h ⊢
      exact fun y hy => h y (List.mem_cons_of_mem _ hy)
    have ih' := ih (by
      rw [List.pairwise_append, List.pairwise_cons]
      refine ⟨p1, ⟨fun b hb => (p2 b hb).imp_left hsub, p3⟩, ?_⟩
      intro a ha b hb
      rcases List.mem_cons.1 hb with rfl | hb
      · exact (p4 a ha (x :: b) List.mem_cons_self).imp_right hsub
      · exact p4 a ha b (List.mem_cons_of_mem _ hb))
    by_cases hx : P x
    · have hpre : (pre.map (List.filter P)).flatten = [] := by
        rw [List.flatten_eq_nil_iff]
        intro l hl
        obtain ⟨m, hm, rfl⟩ := List.mem_map.1 hl
        rcases p4 m hm (x :: xs) List.mem_cons_self with h1 | h1
        · exact h1
        · rw [List.filter_cons_of_pos hx] at h1; cases h1
      rw [List.filter_cons_of_pos hx, ih']
      simp [hpre, hx]
    · rw [List.filter_cons_of_neg hx, ih']
      simp [hx]

theorem emitAll_append (c : ResolveCtx) : ∀ (a b : List Pending) (ds es : List Dep),
    emitAll c a = .ok ds → emitAll c b = .ok es → emitAll c (a ++ b) = .ok (ds ++ es) := by
  intro a
  induction a with
  | nil => intro b ds es h1 h2; cases h1; simpa using h2
  | cons p a ih =>
    intro b ds es h1 h2
    simp only [emitAll, List.cons_append] at h1 ⊢
    cases hp : emitDeps c p with
    | error e => rw [hp] at h1; cases h1
    | ok ds1 =>
      rw [hp] at h1
      cases ha : emitAll c a with
      | error e => rw [ha] at h1; cases h1
      | ok ds2 =>
        rw [ha] at h1
        cases h1
        simp [ih b ds2 es ha h2]

theorem emitBlocks_flatten (c : ResolveCtx) : ∀ (bs : List (List (List Pending)))
    (dss : List (List Dep)), emitBlocks c bs = .ok dss →
      emitAll c bs.flatten.flatten = .ok dss.flatten := by
  intro bs
  induction bs with
  | nil => intro dss h; cases h; rfl
  | cons b bs ih =>
    intro dss h
    simp only [emitBlocks] at h
    cases hb : emitAll c b.flatten with
    | error e => rw [hb] at h; cases h
    | ok ds =>
      rw [hb] at h
      cases hbs : emitBlocks c bs with
      | error e => rw [hbs] at h; cases h
      | ok es =>
        rw [hbs] at h
        cases h
        simpa using emitAll_append c _ _ _ _ hb (ih es hbs)

theorem emitDeps_tgt {c : ResolveCtx} {p : Pending} {ds : List Dep} (h : emitDeps c p = .ok ds) :
    ∀ d ∈ ds, p.node = some d.tgt ∧ d.sym = some (c.ref p.sym) := by
  intro d hd
  unfold emitDeps at h
  cases hn : p.node with
  | none => rw [hn] at h; cases h; cases hd
  | some n =>
    rw [hn] at h
    simp only at h
    split at h
    · cases h
      simp only [List.mem_singleton] at hd
      subst hd; exact ⟨rfl, rfl⟩
    · split at h
      · cases h
      · cases h
        obtain ⟨x, _, hx⟩ := List.mem_flatMap.1 hd
        obtain ⟨eb, _, _, h⟩ := mem_intervalDeps.1 hx
        rw [h]; exact ⟨rfl, rfl⟩

theorem emitAll_mem {c : ResolveCtx} : ∀ {q : List Pending} {ds : List Dep},
    emitAll c q = .ok ds → ∀ d, d ∈ ds ↔ ∃ p ∈ q, ∃ es, emitDeps c p = .ok es ∧ d ∈ es := by
  intro q
  induction q with
  | nil => intro ds h; cases h; simp
  | cons p q ih =>
    intro ds h d
    simp only [emitAll] at h
    cases hp : emitDeps c p with
    | error e => rw [hp] at h; cases h
    | ok ds1 =>
      rw [hp] at h
      cases ha : emitAll c q with
      | error e => rw [ha] at h; cases h
      | ok ds2 =>
        rw [ha] at h
        cases h
        rw [List.mem_append, ih ha d]
        constructor
        · rintro (h | ⟨p', h1, h2⟩)
          · exact ⟨p, List.mem_cons_self, ds1, hp, h⟩
          · exact ⟨p', List.mem_cons_of_mem _ h1, h2⟩
        · rintro ⟨p', h1, es, h2, h3⟩
          rcases List.mem_cons.1 h1 with rfl | h1
          · rw [hp] at h2; cases h2; exact Or.inl h3
          · exact Or.inr ⟨p', h1, es, h2, h3⟩

/-- Reads without target contribute nothing, so they may be dropped or moved. -/
theorem emitAll_ok_of_perm {c : ResolveCtx} {q q' : List Pending} (hp : q'.Perm q)
    {ds : List Dep} (h : emitAll c q = .ok ds) : ∃ ds', emitAll c q' = .ok ds' := by
  have hall : ∀ (l : List Pending), (∃ x, emitAll c l = .ok x) ↔ ∀ p ∈ l, ∃ es, emitDeps c p = .ok es := by
    intro l
    induction l with
    | nil => simp [emitAll]
    | cons p l ih =>
      simp only [emitAll, List.forall_mem_cons]
      rw [← ih]
      cases emitDeps c p with
      | error e => simp
      | ok ds1 =>
        cases emitAll c l with
        | error e => simp
        | ok es => simp
  rw [hall]
  have := (hall q).1 ⟨ds, h⟩
  exact fun p hm => this p (hp.mem_iff.1 hm)

theorem emitAll_dropWhile {c : ResolveCtx} : ∀ {q : List Pending} {ds : List Dep},
    emitAll c q = .ok ds → emitAll c (q.dropWhile fun p => p.node.isNone) = .ok ds := by
  intro q
  induction q with
  | nil => intro ds h; exact h
  | cons p q ih =>
    intro ds h
    by_cases hn : p.node.isNone
    · rw [List.dropWhile_cons_of_pos (p := fun p : Pending => p.node.isNone) hn]
      apply ih
      simp only [emitAll] at h
      have : emitDeps c p = .ok [] := by
        unfold emitDeps
        cases hh : p.node with
        | none => rfl
        | some n => simp [hh] at hn
      rw [this] at h
      simp only at h
      cases hq : emitAll c q with
      | error e => rw [hq] at h; cases h
      | ok es => rw [hq] at h; simpa using h
    · rw [List.dropWhile_cons_of_neg (p := fun p : Pending => p.node.isNone) hn]; exact h

theorem emitBlocks_get {c : ResolveCtx} : ∀ {bs : List (List (List Pending))}
    {dss : List (List Dep)}, emitBlocks c bs = .ok dss →
    ∀ R : List Dep → List Dep → Prop, ∀ S : List (List Pending) → List (List Pending) → Prop,
    bs.Pairwise S → (∀ b b' d d', S b b' → emitAll c b.flatten = .ok d →
      emitAll c b'.flatten = .ok d' → R d d') → dss.Pairwise R := by
  intro bs
  induction bs with
  | nil => intro dss h R S _ _; cases h; exact List.Pairwise.nil
  | cons b bs ih =>
    intro dss h R S hS himp
    simp only [emitBlocks] at h
    cases hb : emitAll c b.flatten with
    | error e => rw [hb] at h; cases h
    | ok ds =>
      rw [hb] at h
      cases hbs : emitBlocks c bs with
      | error e => rw [hbs] at h; cases h
      | ok es =>
        rw [hbs] at h
        cases h
        rw [List.pairwise_cons] at hS ⊢
        refine ⟨?_, ih hbs R S hS.2 himp⟩
        have hmem : ∀ {bs : List (List (List Pending))} {es : List (List Dep)},
            emitBlocks c bs = .ok es → ∀ d' ∈ es, ∃ b' ∈ bs, emitAll c b'.flatten = .ok d' := by
          intro bs
          induction bs with
          | nil => intro es h d' hd; cases h; cases hd
          | cons b0 bs ih0 =>
            intro es h d' hd
            simp only [emitBlocks] at h
            cases hb0 : emitAll c b0.flatten with
            | error e => rw [hb0] at h; cases h
            | ok ds0 =>
              rw [hb0] at h
              cases hbs0 : emitBlocks c bs with
              | error e => rw [hbs0] at h; cases h
              | ok es0 =>
                rw [hbs0] at h
                cases h
                rcases List.mem_cons.1 hd with rfl | hd
                · exact ⟨b0, List.mem_cons_self, hb0⟩
                · obtain ⟨b', h1, h2⟩ := ih0 hbs0 d' hd
                  exact ⟨b', List.mem_cons_of_mem _ h1, h2⟩
        intro d' hd'
        obtain ⟨b', h1, h2⟩ := hmem hbs d' hd'
        exact himp b b' ds d' (hS.1 b' h1) hb h2

/-- The dependencies of a pair of nodes are added in queue order by every schedule. -/
theorem parallel_reqs {c : ResolveCtx} {addr : Nat → Nat}
    (hinj : ∀ a b, addr a = addr b → a = b) {q q' : List Pending} (hs : SortsTo addr q q')
    {blocks : List (List (List Pending))} (hb : blocks.flatten = runs q') {dss : List (List Dep)}
    (he : emitBlocks c blocks = .ok dss) {ds : List Dep} (hi : Interleave dss ds) :
    ∃ all, emitAll c (runs q').flatten = .ok all ∧ ∀ s t, reqs ds s t = reqs all s t := by
  have hfl := emitBlocks_flatten c blocks dss he
  rw [hb] at hfl
  refine ⟨_, hfl, ?_⟩
  intro s t
  unfold reqs
  have hdisj := (runs_partition hinj hs).2.2
  rw [← hb] at hdisj
  have hpw : blocks.Pairwise fun b b' => ∀ r ∈ b, ∀ r' ∈ b', ∀ a ∈ r, ∀ x ∈ r', a.node ≠ x.node :=
    (List.pairwise_flatten.1 hdisj).2
  rw [interleave_filter _ hi]
  · rw [List.filter_flatten]
  · refine emitBlocks_get he _ _ hpw ?_
    intro b b' d d' hS h1 h2
    by_cases hd : d.filter (fun d => d.src == s && d.tgt == t) = []
    · exact Or.inl hd
    · right
      rw [List.filter_eq_nil_iff]
      intro x hx hc
      obtain ⟨y, hy⟩ := List.exists_mem_of_ne_nil _ hd
      obtain ⟨hy1, hy2⟩ := List.mem_filter.1 hy
      simp only [Bool.and_eq_true, beq_iff_eq] at hc hy2
      obtain ⟨p, hp, es, hpe, hpm⟩ := (emitAll_mem h1 y).1 hy1
      obtain ⟨p', hp', es', hpe', hpm'⟩ := (emitAll_mem h2 x).1 hx
      obtain ⟨r, hr, hpr⟩ := List.mem_flatten.1 hp
      obtain ⟨r', hr', hpr'⟩ := List.mem_flatten.1 hp'
      apply hS r hr r' hr' p hpr p' hpr'
      rw [(emitDeps_tgt hpe y hpm).1, (emitDeps_tgt hpe' x hpm').1, hy2.2, hc.2]

/-- Emitting does not fault and all nodes are in the graph. -/
def Resolvable (c : ResolveCtx) (net : NetGraph) (q : List Pending) : Prop :=
  ∃ ds, emitAll c q = .ok ds ∧ ∀ d ∈ ds, d.src ∈ net.g.nodes ∧ d.tgt ∈ net.g.nodes

theorem seq_of_resolvable {c : ResolveCtx} {net : NetGraph} (hr : Reachable net)
    {q : List Pending} (h : Resolvable c net q) :
    ∃ ds net', emitAll c q = .ok ds ∧ resolveSequential c net q = .ok net' ∧
      net.addDependencies ds = some net' ∧
      (∀ d ∈ ds, d.src ∈ net.g.nodes ∧ d.tgt ∈ net.g.nodes) ∧
      ∀ s t, annots net' s t = annFold net.data (annots net s t) (reqs ds s t) := by
  obtain ⟨ds, h1, h2⟩ := h
  obtain ⟨net', h3, _, _, _, h7⟩ := addDependencies_spec hr h2
  exact ⟨ds, net', h1, by simp [resolveSequential, h1, h3], h3, h2, h7⟩

/-- C43: every outcome of the parallel resolution joins the same nodes as the sequential one. -/
theorem parallel_joins_same {c : ResolveCtx} {addr : Nat → Nat}
    (hinj : ∀ a b, addr a = addr b → a = b) {net : NetGraph} (hr : Reachable net)
    {q : List Pending} (hq : Resolvable c net q) {net1 : NetGraph}
    (h : ResolvesParallel c addr net q net1) :
    ∃ net2, resolveSequential c net q = .ok net2 ∧
      ∀ s t, Joined net1 s t ↔ Joined net2 s t := by
  obtain ⟨ds, net2, h1, h2, h3, h4, h5⟩ := seq_of_resolvable hr hq
  refine ⟨net2, h2, ?_⟩
  obtain ⟨q', blocks, dss, ds', hs, hb, he, hi, ha⟩ := h
  obtain ⟨all, hall, hreq⟩ := parallel_reqs hinj hs hb he hi
  have hmem : ∀ d, d ∈ ds' ↔ d ∈ ds := by
    intro d
    have e1 : d ∈ ds' ↔ d ∈ all := by
      have := congrArg (fun l => d ∈ l) (hreq d.src d.tgt)
      simp only [mem_reqs, and_self, and_true, eq_iff_iff] at this
      exact this
    rw [e1, emitAll_mem hall, emitAll_mem h1]
    have hp := (runs_partition hinj hs).1
    constructor
    · rintro ⟨p, hp1, es, hp2, hp3⟩
      exact ⟨p, (List.mem_filter.1 (hp.mem_iff.1 hp1)).1, es, hp2, hp3⟩
    · rintro ⟨p, hp1, es, hp2, hp3⟩
      refine ⟨p, hp.mem_iff.2 (List.mem_filter.2 ⟨hp1, ?_⟩), es, hp2, hp3⟩
      rw [(emitDeps_tgt hp2 d hp3).1]; rfl
  have hn' : ∀ d ∈ ds', d.src ∈ net.g.nodes ∧ d.tgt ∈ net.g.nodes :=
    fun d hd => h4 d ((hmem d).1 hd)
  intro s t
  rw [dependencies_join hr hn' ha, dependencies_join hr h4 h3]
  constructor
  · rintro (h | ⟨d, hd, h⟩)
    · exact Or.inl h
    · exact Or.inr ⟨d, (hmem d).1 hd, h⟩
  · rintro (h | ⟨d, hd, h⟩)
    · exact Or.inl h
    · exact Or.inr ⟨d, (hmem d).2 hd, h⟩

/-- C43: whatever the division into blocks and the schedule, the annotations of every pair of nodes
are those of resolving the sorted queue sequentially. -/
theorem parallel_is_sorted_sequential {c : ResolveCtx} {addr : Nat → Nat}
    (hinj : ∀ a b, addr a = addr b → a = b) {net : NetGraph} (hr : Reachable net)
    {q : List Pending} (hq : Resolvable c net q) {net1 : NetGraph}
    (h : ResolvesParallel c addr net q net1) :
    ∃ q' net2, SortsTo addr q q' ∧ resolveSequential c net q' = .ok net2 ∧
      ∀ s t, annots net1 s t = annots net2 s t := by
  obtain ⟨q', blocks, dss, ds', hs, hb, he, hi, ha⟩ := h
  obtain ⟨ds, h1, h4⟩ := hq
  obtain ⟨dq, hdq⟩ := emitAll_ok_of_perm hs.1 h1
  obtain ⟨all, hall, hreq⟩ := parallel_reqs hinj hs hb he hi
  rw [runs_flatten, emitAll_dropWhile hdq] at hall
  cases hall
  have hmem : ∀ d, d ∈ dq ↔ d ∈ ds := by
    intro d
    rw [emitAll_mem hdq, emitAll_mem h1]
    constructor <;> rintro ⟨p, hp1, hp2⟩
    · exact ⟨p, hs.1.mem_iff.1 hp1, hp2⟩
    · exact ⟨p, hs.1.mem_iff.2 hp1, hp2⟩
  have hn : ∀ d ∈ dq, d.src ∈ net.g.nodes ∧ d.tgt ∈ net.g.nodes :=
    fun d hd => h4 d ((hmem d).1 hd)
  have hn' : ∀ d ∈ ds', d.src ∈ net.g.nodes ∧ d.tgt ∈ net.g.nodes := by
    intro d hd
    have : d ∈ reqs ds' d.src d.tgt := mem_reqs.2 ⟨hd, rfl, rfl⟩
    rw [hreq] at this
    exact hn d (mem_reqs.1 this).1
  obtain ⟨ds2, net2, e1, e2, e3, e4, e5⟩ := seq_of_resolvable (q := q') hr ⟨dq, hdq, hn⟩
  rw [hdq] at e1
  cases e1
  obtain ⟨n1, a1, _, _, _, a5⟩ := addDependencies_spec hr hn'
  rw [ha] at a1
  cases a1
  refine ⟨q', net2, hs, e2, ?_⟩
  intro s t
  rw [a5, e5, hreq]

/-- C43, annotations: when the reads by node `t` from node `s` concern one signal, parallel and
sequential resolution record the same bits between them. Without that condition it is false
(`sort_order_shows`). -/
theorem parallel_bits_same_partial {c : ResolveCtx} {addr : Nat → Nat}
    (hinj : ∀ a b, addr a = addr b → a = b) {net : NetGraph} (hr : Reachable net)
    {q : List Pending} {ds : List Dep} (hds : emitAll c q = .ok ds)
    (hn : ∀ d ∈ ds, d.src ∈ net.g.nodes ∧ d.tgt ∈ net.g.nodes) {s t : Nat} {path : Str}
    (ho : OnlyFor net s t path) (hk : AskOnly ds s t path) {net1 : NetGraph}
    (h : ResolvesParallel c addr net q net1) :
    ∃ net2, resolveSequential c net q = .ok net2 ∧
      ∀ p i, Carried net1 s t p i ↔ Carried net2 s t p i := by
  obtain ⟨q', net3, hs, h1, h2⟩ := parallel_is_sorted_sequential hinj hr ⟨ds, hds, hn⟩ h
  obtain ⟨ds2, net2, e1, e2, e3, e4, e5⟩ := seq_of_resolvable hr ⟨ds, hds, hn⟩
  rw [hds] at e1; cases e1
  obtain ⟨dq, hdq⟩ := emitAll_ok_of_perm hs.1 hds
  have hmem : ∀ d, d ∈ dq ↔ d ∈ ds := by
    intro d
    rw [emitAll_mem hdq, emitAll_mem hds]
    constructor <;> rintro ⟨p, hp1, hp2⟩
    · exact ⟨p, hs.1.mem_iff.1 hp1, hp2⟩
    · exact ⟨p, hs.1.mem_iff.2 hp1, hp2⟩
  obtain ⟨n3, a3, k3⟩ := dependencies_exact_partial hr
    (fun d hd => hn d ((hmem d).1 hd)) ho (fun d hd => hk d ((hmem d).1 hd))
  obtain ⟨n2, a2, k2⟩ := dependencies_exact_partial hr hn ho hk
  rw [e3] at a2; cases a2
  simp only [resolveSequential, hdq, a3] at h1
  cases h1
  refine ⟨net2, e2, ?_⟩
  intro p i
  rw [carried_iff, h2, ← carried_iff, k3, k2]
  constructor
  · rintro (h | ⟨d, hd, h⟩)
    · exact Or.inl h
    · exact Or.inr ⟨d, (hmem d).1 hd, h⟩
  · rintro (h | ⟨d, hd, h⟩)
    · exact Or.inl h
    · exact Or.inr ⟨d, (hmem d).2 hd, h⟩

/-- The path taken by `resolve` gives, either way, the connections of the sequential one. -/
theorem resolve_choice (parallel pool : Bool) (size threshold : Nat) :
    resolvesSequentially parallel pool size threshold = false ↔
      parallel = true ∧ pool = true ∧ threshold ≤ size := by
  cases parallel <;> cases pool <;> simp [resolvesSequentially]

/-! A queue of two reads of different signals driven by one node: node 0 drives `a` (signal 0) and
`b` (signal 1), node 1 reads both. -/

/-- Node 0 drives both signals. -/
def twoSigs : ResolveCtx :=
  match ({} : Tracker).run [] [(0, ⟨⟨3, 0⟩, [⟨some 0, 0⟩], true⟩), (1, ⟨⟨3, 0⟩, [⟨some 0, 0⟩], true⟩)] with
  | .ok (t, drv) => ⟨fun _ => [], t, drv, fun s => if s = 0 then oneSym 'a' else oneSym 'b'⟩
  | .error _ => ⟨fun _ => [], {}, [], fun _ => oneSym 'a'⟩

/-- The queue, and the same queue in another sorted order. -/
def twoReads : List Pending := [⟨0, ⟨0, 3⟩, some 1, .none⟩, ⟨1, ⟨0, 3⟩, some 1, .none⟩]

/-- The annotations left between node 0 and node 1. -/
def leftOn (q : List Pending) : Option (List EdgeAttr) :=
  (resolveSequential twoSigs depNet q).toOption.map fun n => annots n 0 1

/-- C43 in full is false for annotations: both orders of the two reads are sorted by target, and they
leave different signals on the edge. -/
theorem sort_order_shows :
    SortsTo id twoReads twoReads ∧ SortsTo id twoReads twoReads.reverse ∧
    leftOn twoReads = some [{ symbol := some (oneSym 'b'), bounds := ⟨0, 3⟩ }] ∧
    leftOn twoReads.reverse = some [{ symbol := some (oneSym 'a'), bounds := ⟨0, 3⟩ }] := by
  refine ⟨⟨List.Perm.refl _, by decide⟩, ⟨List.reverse_perm _, by decide⟩, by decide, by decide⟩

/-- Non-vacuity: reads by two nodes, one read without target; two blocks, whose work is interleaved. -/
def mixedReads : List Pending :=
  [⟨0, ⟨0, 3⟩, some 1, .none⟩, ⟨0, ⟨0, 0⟩, none, .none⟩, ⟨1, ⟨2, 3⟩, some 0, .none⟩]

example : Resolvable twoSigs depNet mixedReads ∧
    ∃ net', ResolvesParallel twoSigs id depNet mixedReads net' := by
  have he : emitAll twoSigs mixedReads = .ok [⟨0, 1, some (oneSym 'a'), ⟨0, 3⟩, .none⟩,
      ⟨0, 0, some (oneSym 'b'), ⟨2, 3⟩, .none⟩] := rfl
  refine ⟨⟨_, he, by decide⟩, ?_⟩
  have hadd : ∃ n, depNet.addDependencies [⟨0, 1, some (oneSym 'a'), ⟨0, 3⟩, .none⟩,
      ⟨0, 0, some (oneSym 'b'), ⟨2, 3⟩, .none⟩] = some n := ⟨_, rfl⟩
  obtain ⟨n, hadd⟩ := hadd
  refine ⟨n, [⟨0, ⟨0, 0⟩, none, .none⟩, ⟨1, ⟨2, 3⟩, some 0, .none⟩, ⟨0, ⟨0, 3⟩, some 1, .none⟩],
    [[[⟨1, ⟨2, 3⟩, some 0, .none⟩]], [[⟨0, ⟨0, 3⟩, some 1, .none⟩]]],
    [[⟨0, 0, some (oneSym 'b'), ⟨2, 3⟩, .none⟩], [⟨0, 1, some (oneSym 'a'), ⟨0, 3⟩, .none⟩]],
    [⟨0, 1, some (oneSym 'a'), ⟨0, 3⟩, .none⟩, ⟨0, 0, some (oneSym 'b'), ⟨2, 3⟩, .none⟩],
    ⟨by decide, by decide⟩, by decide, rfl, ?_, hadd⟩
  refine Interleave.step (pre := [_]) (post := []) (xs := []) ?_
  refine Interleave.step (pre := []) (post := [[]]) (xs := []) ?_
  exact Interleave.done (by simp)

end Verif.Props
