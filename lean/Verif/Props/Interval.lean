import Verif.Model.Interval

/-!
Property theorems C31: interval difference.
-/
namespace Verif.Props
open Verif.Model

/-- Point `p` carries value `v` in an interval map. -/
def At {α : Type} (m : List (Ivl α)) (p : Int) (v : α) : Prop :=
  ∃ e ∈ m, e.lo ≤ p ∧ p ≤ e.hi ∧ e.val = v

/-- Point `p` is covered by an interval map. -/
def Covers {α : Type} (m : List (Ivl α)) (p : Int) : Prop := ∃ e ∈ m, e.lo ≤ p ∧ p ≤ e.hi

/-- A well-formed interval map: entries are non-empty, in ascending order and disjoint. -/
def MapOk {α : Type} (m : List (Ivl α)) : Prop :=
  (∀ e ∈ m, e.lo ≤ e.hi) ∧ m.Pairwise fun a b => a.hi < b.lo

theorem imInsert_mem {α : Type} {lo hi : Int} {v : α} {m : List (Ivl α)} {e : Ivl α} :
    e ∈ imInsert lo hi v m ↔ e = ⟨lo, hi, v⟩ ∨ e ∈ m := by
  induction m with
  | nil => simp [imInsert]
  | cons a as ih =>
    unfold imInsert
    split
    · simp
    · simp only [List.mem_cons, ih]
      grind

theorem imInsert_at {α : Type} {lo hi : Int} {v w : α} {m : List (Ivl α)} {p : Int} :
    At (imInsert lo hi v m) p w ↔ (lo ≤ p ∧ p ≤ hi ∧ v = w) ∨ At m p w := by
  unfold At
  constructor
  · rintro ⟨e, he, h1, h2, h3⟩
    rcases imInsert_mem.1 he with rfl | he
    · exact .inl ⟨h1, h2, h3⟩
    · exact .inr ⟨e, he, h1, h2, h3⟩
  · rintro (⟨h1, h2, h3⟩ | ⟨e, he, h⟩)
    · exact ⟨_, imInsert_mem.2 (.inl rfl), h1, h2, h3⟩
    · exact ⟨e, imInsert_mem.2 (.inr he), h⟩

/-- What the loop keeps: the points from `current` on that the rest of the second map does not
cover, and the last point if an earlier interval ends just before it. -/
theorem subtractLoop_spec {α β : Type} {stop : Int} {v : α} (rs : List (Ivl β)) :
    ∀ (result : List (Ivl α)) (current : Int), MapOk rs → current ≤ stop →
      (∀ r ∈ rs, r.hi < int32Max) →
      ∃ out, subtractLoop result stop v current rs = .ok out ∧
        ∀ p w, At out p w ↔ At result p w ∨ (v = w ∧ current ≤ p ∧ p ≤ stop ∧
          (¬ Covers rs p ∨ (p = stop ∧ ∃ r ∈ rs, r.hi + 1 = stop ∧ current ≤ r.hi))) := by
  induction rs with
  | nil =>
    intro result current _ hc _
    refine ⟨_, rfl, fun p w => ?_⟩
    rw [if_pos hc, imInsert_at]
    simp [Covers]
    grind
  | cons r rs ih =>
    intro result current hok hc h32
    have hok' : MapOk rs := ⟨fun e he => hok.1 e (by simp [he]), (List.pairwise_cons.1 hok.2).2⟩
    have hr := hok.1 r (by simp)
    have hafter : ∀ e ∈ rs, r.hi < e.lo := (List.pairwise_cons.1 hok.2).1
    have h32' : ∀ e ∈ rs, e.hi < int32Max := fun e he => h32 e (by simp [he])
    unfold subtractLoop
    split
    · rename_i h1
      obtain ⟨out, ho, hs⟩ := ih result current hok' hc h32'
      refine ⟨out, ho, fun p w => ?_⟩
      rw [hs]
      simp only [Covers, List.mem_cons]
      constructor
      · rintro (h | ⟨rfl, a, b, c⟩)
        · exact .inl h
        · refine .inr ⟨rfl, a, b, ?_⟩
          rcases c with c | ⟨c, x, hx, d⟩
          · left
            rintro ⟨e, rfl | he, h⟩
            · omega
            · exact c ⟨e, he, h⟩
          · exact .inr ⟨c, x, .inr hx, d⟩
      · rintro (h | ⟨rfl, a, b, c⟩)
        · exact .inl h
        · refine .inr ⟨rfl, a, b, ?_⟩
          rcases c with c | ⟨c, x, rfl | hx, d⟩
          · left
            rintro ⟨e, he, h⟩
            exact c ⟨e, .inr he, h⟩
          · omega
          · exact .inr ⟨c, x, hx, d⟩
    · rename_i h1
      split
      · rename_i h2
        obtain ⟨out, ho, hs⟩ := ih result current hok' hc h32'
        refine ⟨out, ho, fun p w => ?_⟩
        rw [hs]
        simp only [Covers, List.mem_cons]
        constructor
        · rintro (h | ⟨rfl, a, b, c⟩)
          · exact .inl h
          · refine .inr ⟨rfl, a, b, ?_⟩
            rcases c with c | ⟨c, x, hx, d⟩
            · left
              rintro ⟨e, rfl | he, h⟩
              · omega
              · exact c ⟨e, he, h⟩
            · exact .inr ⟨c, x, .inr hx, d⟩
        · rintro (h | ⟨rfl, a, b, c⟩)
          · exact .inl h
          · refine .inr ⟨rfl, a, b, ?_⟩
            rcases c with c | ⟨c, x, rfl | hx, d⟩
            · left
              rintro ⟨e, he, h⟩
              exact c ⟨e, .inr he, h⟩
            · omega
            · exact .inr ⟨c, x, hx, d⟩
      · rename_i h2
        have hinc : incr32 r.hi = .ok (r.hi + 1) := by
          unfold incr32
          rw [if_pos (h32 r (by simp))]
        simp only [hinc]
        have hmax : max current (r.hi + 1) = r.hi + 1 := by omega
        rw [hmax]
        generalize hres : (if r.lo > current then imInsert current (min stop (r.lo - 1)) v result
          else result) = result'
        have hres' : ∀ p w, At result' p w ↔ At result p w ∨
            (v = w ∧ current ≤ p ∧ p ≤ stop ∧ p < r.lo) := by
          intro p w
          rw [← hres]
          split
          · rw [imInsert_at]; grind
          · grind
        split
        · rename_i h3
          refine ⟨_, rfl, fun p w => ?_⟩
          have hkey : ∀ q, q ≤ stop → (Covers (r :: rs) q ↔ r.lo ≤ q ∧ q ≤ r.hi ∨
              (q = stop ∧ Covers rs stop)) := by
            intro q hq
            simp only [Covers, List.mem_cons]
            constructor
            · rintro ⟨e, rfl | he, h⟩
              · exact .inl h
              · have := hafter e he
                have : q = stop := by omega
                subst this
                exact .inr ⟨rfl, e, he, h⟩
            · rintro (h | ⟨rfl, e, he, h⟩)
              · exact ⟨r, .inl rfl, h⟩
              · exact ⟨e, .inr he, h⟩
          have hcase : At (if r.hi + 1 ≤ stop then imInsert (r.hi + 1) stop v result' else result') p w
              ↔ At result' p w ∨ (v = w ∧ r.hi + 1 = stop ∧ p = stop) := by
            split
            · rw [imInsert_at]; grind
            · grind
          rw [hcase, hres']
          constructor
          · rintro ((h | ⟨rfl, a, b, c⟩) | ⟨rfl, a, b⟩)
            · exact .inl h
            · refine .inr ⟨rfl, a, b, .inl ?_⟩
              rw [hkey p b]
              rintro (h | ⟨rfl, e, he, h⟩)
              · omega
              · have := hafter e he
                omega
            · subst b
              exact .inr ⟨rfl, by omega, by omega, .inr ⟨rfl, r, by simp, a, by omega⟩⟩
          · rintro (h | ⟨rfl, a, b, c⟩)
            · exact .inl (.inl h)
            · rcases c with c | ⟨rfl, x, hx, d, e⟩
              · rw [hkey p b] at c
                by_cases hp : p < r.lo
                · exact .inl (.inr ⟨rfl, a, b, hp⟩)
                · have : ¬ p ≤ r.hi := fun h => c (.inl ⟨by omega, h⟩)
                  exact .inr ⟨rfl, by omega, by omega⟩
              · rcases List.mem_cons.1 hx with rfl | hx
                · exact .inr ⟨rfl, d, rfl⟩
                · have := hafter x hx
                  have := hok'.1 x hx
                  omega
        · rename_i h3
          obtain ⟨out, ho, hs⟩ := ih result' (r.hi + 1) hok' (by omega) h32'
          refine ⟨out, ho, fun p w => ?_⟩
          rw [hs, hres']
          simp only [Covers, List.mem_cons]
          constructor
          · rintro ((h | ⟨rfl, a, b, c⟩) | ⟨rfl, a, b, c⟩)
            · exact .inl h
            · refine .inr ⟨rfl, a, b, .inl ?_⟩
              rintro ⟨e, rfl | he, h⟩
              · omega
              · have := hafter e he
                omega
            · refine .inr ⟨rfl, by omega, b, ?_⟩
              rcases c with c | ⟨c, x, hx, d⟩
              · left
                rintro ⟨e, rfl | he, h⟩
                · omega
                · exact c ⟨e, he, h⟩
              · exact .inr ⟨c, x, .inr hx, by omega⟩
          · rintro (h | ⟨rfl, a, b, c⟩)
            · exact .inl (.inl h)
            · rcases c with c | ⟨c, x, rfl | hx, d⟩
              · by_cases hp : p < r.lo
                · exact .inl (.inr ⟨rfl, a, b, hp⟩)
                · have hp' : ¬ p ≤ r.hi := fun h => c ⟨r, .inl rfl, by omega, h⟩
                  refine .inr ⟨rfl, by omega, b, .inl ?_⟩
                  rintro ⟨e, he, h⟩
                  exact c ⟨e, .inr he, h⟩
              · omega
              · have := hafter x hx
                have := hok'.1 x hx
                exact .inr ⟨rfl, by omega, b, .inr ⟨c, x, hx, by omega⟩⟩

theorem differenceLoop_spec {α β : Type} {second : List (Ivl β)} (hok : MapOk second)
    (h32 : ∀ r ∈ second, r.hi < int32Max) (first : List (Ivl α)) :
    ∀ result : List (Ivl α), (∀ e ∈ first, e.lo ≤ e.hi) →
      ∃ out, differenceLoop second result first = .ok out ∧
        ∀ p w, At out p w ↔ At result p w ∨ ∃ e ∈ first, e.val = w ∧ e.lo ≤ p ∧ p ≤ e.hi ∧
          (¬ Covers second p ∨ (p = e.hi ∧ ∃ r ∈ second, r.hi + 1 = e.hi ∧ e.lo ≤ r.hi)) := by
  induction first with
  | nil => intro result _; exact ⟨result, rfl, fun p w => by simp⟩
  | cons a as ih =>
    intro result hne
    obtain ⟨o1, h1, hs1⟩ := subtractLoop_spec (v := a.val) second result a.lo hok (hne a (by simp)) h32
    obtain ⟨o2, h2, hs2⟩ := ih o1 (fun e he => hne e (by simp [he]))
    refine ⟨o2, ?_, fun p w => ?_⟩
    · simp only [differenceLoop, subtractSingle, h1, h2]
    · rw [hs2, hs1]
      simp only [List.mem_cons, exists_eq_or_imp, or_assoc]

/-- C31, exact characterisation. The difference never faults, and the points it holds are those of
the first map that the second map does not cover, plus one kind of extra point: the last point of an
interval of the first map when an interval of the second map ends just before it. -/
theorem difference_characterised {α β : Type} {first : List (Ivl α)} {second : List (Ivl β)}
    (h1 : MapOk first) (h2 : MapOk second) (h32 : ∀ r ∈ second, r.hi < int32Max) :
    ∃ out, imDifference first second = .ok out ∧
      ∀ p w, At out p w ↔ ∃ e ∈ first, e.val = w ∧ e.lo ≤ p ∧ p ≤ e.hi ∧
        (¬ Covers second p ∨ (p = e.hi ∧ ∃ r ∈ second, r.hi + 1 = e.hi ∧ e.lo ≤ r.hi)) := by
  unfold imDifference
  split
  · rename_i h
    have : second = [] := by simpa using h
    subst this
    refine ⟨first, rfl, fun p w => ?_⟩
    simp only [At, Covers]
    grind
  · obtain ⟨out, ho, hs⟩ := differenceLoop_spec h2 h32 first [] h1.1
    refine ⟨out, ho, fun p w => ?_⟩
    rw [hs]
    simp [At]

/-- C31 (partial): the difference of two interval maps holds exactly the points of the first that
are not in the second, provided no two intervals of the second map touch (the first ending at
`x - 1`, the next starting at `x`) with `x` the last point of an interval of the first map. Without
that condition the claim is false: `difference_keeps_covered_point`. -/
theorem difference_exact_partial {α β : Type} {first : List (Ivl α)} {second : List (Ivl β)}
    (h1 : MapOk first) (h2 : MapOk second) (h32 : ∀ r ∈ second, r.hi < int32Max)
    (hgap : ∀ e ∈ first, ∀ r ∈ second, ∀ s ∈ second, r.hi + 1 = e.hi → s.lo ≠ e.hi) :
    ∃ out, imDifference first second = .ok out ∧
      ∀ p w, At out p w ↔ At first p w ∧ ¬ Covers second p := by
  obtain ⟨out, ho, hs⟩ := difference_characterised h1 h2 h32
  refine ⟨out, ho, fun p w => ?_⟩
  rw [hs]
  constructor
  · rintro ⟨e, he, rfl, a, b, c⟩
    refine ⟨⟨e, he, a, b, rfl⟩, ?_⟩
    rcases c with c | ⟨rfl, r, hr, d, f⟩
    · exact c
    · rintro ⟨s, hs', g, h⟩
      have hne := hgap e he r hr s hs' d
      -- `s` starts before `e.hi` and reaches it, so it overlaps `r`
      have hpw := h2.2
      by_cases hrs : s = r
      · subst hrs; omega
      · have hcmp : r.hi < s.lo ∨ s.hi < r.lo := by
          obtain ⟨i, hi, rfl⟩ := List.mem_iff_getElem.1 hr
          obtain ⟨j, hj, rfl⟩ := List.mem_iff_getElem.1 hs'
          rcases Nat.lt_trichotomy i j with hij | hij | hij
          · exact .inl (List.pairwise_iff_getElem.1 hpw i j hi hj hij)
          · subst hij; exact absurd rfl hrs
          · exact .inr (List.pairwise_iff_getElem.1 hpw j i hj hi hij)
        have := h2.1 r hr
        omega
  · rintro ⟨⟨e, he, a, b, rfl⟩, c⟩
    exact ⟨e, he, rfl, a, b, .inl c⟩

/-- In every case the difference keeps all the points it should, and only points of the first map. -/
theorem difference_bounds {α β : Type} {first : List (Ivl α)} {second : List (Ivl β)}
    (h1 : MapOk first) (h2 : MapOk second) (h32 : ∀ r ∈ second, r.hi < int32Max) :
    ∃ out, imDifference first second = .ok out ∧
      (∀ p w, At first p w → ¬ Covers second p → At out p w) ∧ ∀ p w, At out p w → At first p w := by
  obtain ⟨out, ho, hs⟩ := difference_characterised h1 h2 h32
  refine ⟨out, ho, ?_, ?_⟩
  · rintro p w ⟨e, he, a, b, c⟩ h
    exact (hs p w).2 ⟨e, he, c, a, b, .inl h⟩
  · intro p w h
    obtain ⟨e, he, a, b, c, _⟩ := (hs p w).1 h
    exact ⟨e, he, b, c, a⟩

theorem subtractLoop_wf {α β : Type} {stop : Int} {v : α} (rs : List (Ivl β)) :
    ∀ (result : List (Ivl α)) (current : Int) (out : List (Ivl α)), current ≤ stop →
      (∀ e ∈ result, e.lo ≤ e.hi) → subtractLoop result stop v current rs = .ok out →
      ∀ e ∈ out, e.lo ≤ e.hi := by
  have hins : ∀ {l : List (Ivl α)} {lo hi : Int}, (∀ e ∈ l, e.lo ≤ e.hi) → lo ≤ hi →
      ∀ e ∈ imInsert lo hi v l, e.lo ≤ e.hi := by
    intro l lo hi hl h e he
    rcases imInsert_mem.1 he with rfl | he
    · exact h
    · exact hl e he
  induction rs with
  | nil =>
    intro result current out hc hr ho
    simp only [subtractLoop, if_pos hc, Except.ok.injEq] at ho
    subst ho
    exact hins hr hc
  | cons r rs ih =>
    intro result current out hc hr ho
    unfold subtractLoop at ho
    have hres : ∀ e ∈ (if r.lo > current then imInsert current (min stop (r.lo - 1)) v result
        else result), e.lo ≤ e.hi := by
      split
      · exact hins hr (by omega)
      · exact hr
    split at ho
    · exact ih result current out hc hr ho
    · split at ho
      · exact ih result current out hc hr ho
      · dsimp only at ho
        split at ho
        · cases ho
        · rename_i nxt _
          split at ho
          · simp only [Except.ok.injEq] at ho
            subst ho
            split
            · rename_i h
              exact hins hres h
            · exact hres
          · exact ih _ _ out (by omega) hres ho

/-- The difference of non-empty intervals consists of non-empty intervals. -/
theorem difference_wf {α β : Type} {first : List (Ivl α)} {second : List (Ivl β)}
    (h1 : ∀ e ∈ first, e.lo ≤ e.hi) {out : List (Ivl α)} (ho : imDifference first second = .ok out) :
    ∀ e ∈ out, e.lo ≤ e.hi := by
  unfold imDifference at ho
  split at ho
  · cases ho; exact h1
  · have key : ∀ (es result out : List (Ivl α)), (∀ e ∈ es, e.lo ≤ e.hi) →
        (∀ e ∈ result, e.lo ≤ e.hi) → differenceLoop second result es = .ok out →
        ∀ e ∈ out, e.lo ≤ e.hi := by
      intro es
      induction es with
      | nil => intro result out _ hr h; cases h; exact hr
      | cons a as ih =>
        intro result out hes hr h
        unfold differenceLoop at h
        split at h
        · cases h
        · rename_i r' hs
          exact ih r' out (fun e he => hes e (List.mem_cons_of_mem _ he))
            (subtractLoop_wf second result a.lo r' (hes a List.mem_cons_self) hr hs) h
    exact key first [] out h1 (by simp) ho

/-- C31 is false in general: subtracting `[0,6]` and `[7,7]` from `[0,7]` leaves `[7,7]`. -/
theorem difference_keeps_covered_point :
    imDifference [(⟨0, 7, ()⟩ : Ivl Unit)] [(⟨0, 6, ()⟩ : Ivl Unit), ⟨7, 7, ()⟩] =
      .ok [⟨7, 7, ()⟩] := by decide

/-- The increment past an interval ending at the largest 32-bit value overflows. -/
theorem difference_overflow :
    imDifference [(⟨0, 2147483647, ()⟩ : Ivl Unit)] [(⟨3, 2147483647, ()⟩ : Ivl Unit)] =
      .error .oob := by decide

/-- The hypotheses of the partial theorem hold of maps with several intervals. -/
example : ∃ out, imDifference [(⟨0, 7, 'a'⟩ : Ivl Char), ⟨10, 12, 'b'⟩]
      [(⟨2, 3, ()⟩ : Ivl Unit), ⟨6, 10, ()⟩] = .ok out ∧
    ∀ p w, At out p w ↔ At [(⟨0, 7, 'a'⟩ : Ivl Char), ⟨10, 12, 'b'⟩] p w ∧
      ¬ Covers [(⟨2, 3, ()⟩ : Ivl Unit), ⟨6, 10, ()⟩] p :=
  difference_exact_partial ⟨by decide, by decide⟩ ⟨by decide, by decide⟩ (by decide) (by decide)

/-- A case meeting the hypotheses of the partial theorem, with its value. -/
example : (MapOk [(⟨0, 7, 'a'⟩ : Ivl Char), ⟨10, 12, 'b'⟩] ∧
    MapOk [(⟨2, 3, ()⟩ : Ivl Unit), ⟨6, 10, ()⟩]) ∧
    imDifference [(⟨0, 7, 'a'⟩ : Ivl Char), ⟨10, 12, 'b'⟩] [(⟨2, 3, ()⟩ : Ivl Unit), ⟨6, 10, ()⟩] =
      .ok [⟨0, 1, 'a'⟩, ⟨4, 5, 'a'⟩, ⟨11, 12, 'b'⟩] := by
  refine ⟨⟨⟨by decide, by decide⟩, ⟨by decide, by decide⟩⟩, by decide⟩

example := difference_bounds (first := [(⟨0, 7, 'a'⟩ : Ivl Char), ⟨10, 12, 'b'⟩]) (second := [(⟨2, 3, ()⟩ : Ivl Unit), ⟨6, 10, ()⟩])
  ⟨by decide, by decide⟩ ⟨by decide, by decide⟩ (by decide)

end Verif.Props
