import Verif.Proofs.Ends

/-!
Where the intervals of a driver map begin and end after a history, and what `getDrivers` gives for a range.
-/
namespace Verif.Proofs
open Verif.Model

/-- A history puts boundaries only where its recordings end. -/
theorem run_ends {K : Int → Prop} : ∀ (hist : List Rec) {m m' : DMap}, Ends K m.ivls →
    (∀ r ∈ hist, K r.bounds.lower ∧ K (r.bounds.upper + 1)) → m.run hist = .ok m' → Ends K m'.ivls := by
  intro hist
  induction hist with
  | nil => intro m m' h _ q; cases q; exact h
  | cons r rs ih =>
    intro m m' h hk q
    unfold DMap.run at q
    obtain ⟨m1, q1, q⟩ := bind_ok q
    obtain ⟨k1, k2⟩ := hk r (by simp)
    exact ih (addDrivers_ends h k1 k2 q1) (fun x hx => hk x (by simp [hx])) q

/-- What `getDrivers` gives for a range: the drivers of the overlapping intervals that lie inside the
range or contain it. -/
theorem getDrivers_range {m : DMap} (hI : DInv m) (b : BitRange) :
    ∃ l, m.getDrivers b = .ok l ∧ ∀ n, HasN l n ↔ ∃ e ∈ m.ivls, e.lo ≤ b.upper ∧ b.lower ≤ e.hi ∧
      ((e.lo ≤ b.lower ∧ b.upper ≤ e.hi) ∨ (b.lower ≤ e.lo ∧ e.hi ≤ b.upper)) ∧
      ∃ l, m.lists.get e.val = some l ∧ HasN l n := by
  have key : ∀ (es : List (Ivl Nat)) (acc : List DriverInfo), (∀ e ∈ es, e ∈ m.ivls) →
      ∃ l, getLoop m b acc es = .ok l ∧ ∀ n, HasN l n ↔ HasN acc n ∨ ∃ e ∈ es,
        ((e.lo ≤ b.lower ∧ b.upper ≤ e.hi) ∨ (b.lower ≤ e.lo ∧ e.hi ≤ b.upper)) ∧
        ∃ l, m.lists.get e.val = some l ∧ HasN l n := by
    intro es
    induction es with
    | nil => intro acc _; exact ⟨acc, rfl, fun n => by simp⟩
    | cons e es ih =>
      intro acc h
      have he := h e (by simp)
      obtain ⟨l, hl⟩ := hI.live e he
      have w : e.lo ≤ e.hi := hI.ok.1 e he
      have hlow : (BitRange.mk e.lo e.hi).lower = e.lo := by simp only [BitRange.lower]; omega
      have hup : (BitRange.mk e.lo e.hi).upper = e.hi := by simp only [BitRange.upper]; omega
      have c1 : BitRange.containsRange ⟨e.lo, e.hi⟩ b = true ↔ e.lo ≤ b.lower ∧ b.upper ≤ e.hi := by
        simp [BitRange.containsRange, hlow, hup]
      have c2 : BitRange.containsRange b ⟨e.lo, e.hi⟩ = true ↔ b.lower ≤ e.lo ∧ e.hi ≤ b.upper := by
        simp [BitRange.containsRange, hlow, hup]
      have hrest := fun x hx => h x (List.mem_cons_of_mem e hx)
      by_cases hc : (e.lo ≤ b.lower ∧ b.upper ≤ e.hi) ∨ (b.lower ≤ e.lo ∧ e.hi ≤ b.upper)
      · obtain ⟨out, ho, hs⟩ := ih (dlInsertAll acc l) hrest
        refine ⟨out, ?_, fun n => ?_⟩
        · unfold getLoop
          by_cases hc1 : e.lo ≤ b.lower ∧ b.upper ≤ e.hi
          · rw [if_pos (c1.2 hc1)]
            simp only [getList_ok hl, bind, Except.bind, ho]
          · rw [if_neg (fun h => hc1 (c1.1 h)), if_pos (c2.2 (hc.resolve_left hc1))]
            simp only [getList_ok hl, bind, Except.bind, ho]
        · rw [hs, hasN_insertAll]
          simp only [List.mem_cons, exists_eq_or_imp, hl, Option.some.injEq, exists_eq_left', or_assoc, hc,
            true_and]
      · obtain ⟨out, ho, hs⟩ := ih acc hrest
        refine ⟨out, ?_, fun n => ?_⟩
        · unfold getLoop
          rw [if_neg (fun h => hc (.inl (c1.1 h))), if_neg (fun h => hc (.inr (c2.1 h)))]
          exact ho
        · rw [hs]
          simp only [List.mem_cons, exists_eq_or_imp, hc, false_and, false_or]
  obtain ⟨l, ho, hs⟩ := key (imFind m.ivls b.lower b.upper) [] fun e he => (List.mem_filter.1 he).1
  refine ⟨l, ho, fun n => ?_⟩
  rw [hs]
  simp only [HasN, List.not_mem_nil, false_and, exists_false, false_or, imFind, List.mem_filter, Ivl.hits,
    Bool.and_eq_true, decide_eq_true_eq, and_assoc]

end Verif.Proofs
