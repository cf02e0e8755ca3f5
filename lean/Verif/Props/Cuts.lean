import Verif.Model.Cuts
import Verif.Props.Interval

/-!
Property theorems C37 (cut registry), C38 (variable nodes), C45 (port segments).
-/
namespace Verif.Props
open Verif.Model

/-! ### sorting without duplicates -/

theorem mem_uniqueAdj {c : Nat} (l : List Nat) : c ∈ uniqueAdj l ↔ c ∈ l := by
  fun_induction uniqueAdj l with
  | case1 => simp
  | case2 => simp
  | case3 a l ih => simp [ih]
  | case4 a b l h ih => simp [ih]

theorem uniqueAdj_strict (l : List Nat) (h : l.Pairwise (· ≤ ·)) :
    (uniqueAdj l).Pairwise (· < ·) := by
  fun_induction uniqueAdj l with
  | case1 => simp
  | case2 => simp
  | case3 a l ih => exact ih (List.pairwise_cons.1 h).2
  | case4 a b l hab ih =>
    obtain ⟨h1, h2⟩ := List.pairwise_cons.1 h
    refine List.pairwise_cons.2 ⟨fun x hx => ?_, ih h2⟩
    rw [mem_uniqueAdj] at hx
    have hb := h1 b (by simp)
    rcases List.mem_cons.1 hx with rfl | hx
    · omega
    · have := (List.pairwise_cons.1 h2).1 x hx
      omega

theorem mem_insertAsc {c a : Nat} {l : List Nat} : c ∈ insertAsc a l ↔ c = a ∨ c ∈ l := by
  induction l with
  | nil => simp [insertAsc]
  | cons b l ih => simp only [insertAsc]; split <;> simp [ih] <;> grind

theorem mem_sortAsc {c : Nat} {l : List Nat} : c ∈ sortAsc l ↔ c ∈ l := by
  induction l with
  | nil => simp [sortAsc]
  | cons a l ih => simp [sortAsc, mem_insertAsc, ih]

theorem insertAsc_sorted {a : Nat} {l : List Nat} (h : l.Pairwise (· ≤ ·)) :
    (insertAsc a l).Pairwise (· ≤ ·) := by
  induction l with
  | nil => simp [insertAsc]
  | cons b l ih =>
    obtain ⟨h1, h2⟩ := List.pairwise_cons.1 h
    simp only [insertAsc]
    split
    · refine List.pairwise_cons.2 ⟨fun x hx => ?_, h⟩
      rcases List.mem_cons.1 hx with rfl | hx
      · assumption
      · have := h1 x hx; omega
    · refine List.pairwise_cons.2 ⟨fun x hx => ?_, ih h2⟩
      rcases mem_insertAsc.1 hx with rfl | hx
      · omega
      · exact h1 x hx

theorem sortAsc_sorted (l : List Nat) : (sortAsc l).Pairwise (· ≤ ·) := by
  induction l with
  | nil => simp [sortAsc]
  | cons a l ih => exact insertAsc_sorted ih

theorem mem_sortUnique {c : Nat} {l : List Nat} : c ∈ sortUnique l ↔ c ∈ l := by
  unfold sortUnique
  rw [mem_uniqueAdj, mem_sortAsc]

theorem sortUnique_strict (l : List Nat) : (sortUnique l).Pairwise (· < ·) :=
  uniqueAdj_strict _ (sortAsc_sorted l)

/-! ### C37 -/

/-- Offset `c` was registered for `sym` in the history and lies strictly inside its width. -/
def Registered (width : Nat → Nat) (hist : List (Nat × List Nat)) (sym c : Nat) : Prop :=
  (∃ call ∈ hist, call.1 = sym ∧ c ∈ call.2) ∧ 0 < c ∧ c < width sym

theorem cutReg_run (width : Nat → Nat) (hist : List (Nat × List Nat)) :
    ∀ r : CutReg, (∀ sym l, r sym = some l → l.Pairwise (· < ·)) → ∀ sym,
      (∀ l, (r.run width hist) sym = some l → l.Pairwise (· < ·) ∧
        ∀ c, c ∈ l ↔ c ∈ r.at sym ∨ Registered width hist sym c) ∧
      ((r.run width hist) sym = none ↔
        r sym = none ∧ ∀ call ∈ hist, call.1 = sym → call.2 = []) := by
  induction hist with
  | nil =>
    intro r hr sym
    refine ⟨fun l hl => ⟨hr sym l hl, fun c => ?_⟩, by simp [CutReg.run]⟩
    have hl' : r sym = some l := hl
    simp [Registered, CutReg.at, hl']
  | cons call hist ih =>
    obtain ⟨s, cuts⟩ := call
    intro r hr sym
    have hstep : ∀ sym l, (r.addCuts (width s) s cuts) sym = some l → l.Pairwise (· < ·) := by
      intro sym l hl
      unfold CutReg.addCuts at hl
      split at hl
      · exact hr sym l hl
      · simp only at hl
        split at hl
        · cases hl; exact sortUnique_strict _
        · exact hr sym l hl
    obtain ⟨i1, i2⟩ := ih _ hstep sym
    have hat : ∀ c, c ∈ (r.addCuts (width s) s cuts).at sym ↔
        c ∈ r.at sym ∨ (s = sym ∧ c ∈ cuts ∧ 0 < c ∧ c < width sym) := by
      intro c
      by_cases hc : cuts = []
      · subst hc; simp [CutReg.addCuts]
      · have hne : cuts.isEmpty = false := by simpa using hc
        by_cases hs : sym = s
        · subst hs
          simp only [CutReg.at, CutReg.addCuts, hne]
          simp [mem_sortUnique]
        · have hs' : ¬ s = sym := fun h => hs h.symm
          simp [CutReg.at, CutReg.addCuts, hne, hs, hs']
    constructor
    · intro l hl
      obtain ⟨h1, h2⟩ := i1 l hl
      refine ⟨h1, fun c => ?_⟩
      rw [h2, hat]
      simp only [Registered, List.mem_cons, exists_eq_or_imp]
      grind
    · show (CutReg.run width (r.addCuts (width s) s cuts) hist) sym = none ↔ _
      rw [i2]
      by_cases hc : cuts = []
      · subst hc; simp [CutReg.addCuts]
      · have hne : cuts.isEmpty = false := by simpa using hc
        by_cases hs : sym = s
        · subst hs; simp [CutReg.addCuts, hne, hc]
        · have hs' : ¬ s = sym := fun h => hs h.symm
          simp [CutReg.addCuts, hne, hs, hs']

/-- C37: after any sequence of registrations, the cuts known for a symbol are exactly the registered
offsets strictly inside its width, ascending and without duplicates; a symbol with no recorded set
never had an offset registered. -/
theorem cuts_exact (width : Nat → Nat) (hist : List (Nat × List Nat)) (sym : Nat) :
    match (CutReg.run width (fun _ => none) hist).cutsFor sym with
    | some l => l.Pairwise (· < ·) ∧ ∀ c, c ∈ l ↔ Registered width hist sym c
    | none => ∀ call ∈ hist, call.1 = sym → call.2 = [] := by
  obtain ⟨h1, h2⟩ := cutReg_run width hist (fun _ => none) (by simp) sym
  unfold CutReg.cutsFor
  split
  · rename_i l hl
    obtain ⟨a, b⟩ := h1 l hl
    refine ⟨a, fun c => ?_⟩
    rw [b]
    simp [CutReg.at]
  · rename_i hn
    exact (h2.1 hn).2

/-- A concrete history: the cuts come out sorted, without duplicates and without end points. -/
example : (CutReg.run (fun _ => 8) (fun _ => none) [(1, [6, 2, 8]), (2, [3]), (1, [0, 4, 2])]).cutsFor 1
    = some [2, 4, 6] := by
  simp [CutReg.run, CutReg.addCuts, CutReg.cutsFor, CutReg.at, sortUnique, sortAsc, insertAsc,
    List.MergeSort.Internal.splitInTwo, uniqueAdj, List.merge]

/-! ### C45 -/

theorem takeWhile_length_le {p q : Nat → Bool} (h : ∀ c, p c → q c) (l : List Nat) :
    (l.takeWhile p).length ≤ (l.takeWhile q).length := by
  induction l with
  | nil => simp
  | cons a l ih =>
    by_cases hp : p a
    · simp [hp, h a hp, ih]
    · simp [hp]

theorem take_lower {l : List Nat} (hl : l.Pairwise (· < ·)) (x : Nat) :
    l.take (lowerBound l x) = l.filter fun c => decide (c < x) := by
  induction l with
  | nil => simp [lowerBound]
  | cons a l ih =>
    obtain ⟨h1, h2⟩ := List.pairwise_cons.1 hl
    by_cases ha : a < x
    · have : lowerBound (a :: l) x = lowerBound l x + 1 := by simp [lowerBound, ha]
      rw [this, List.take_succ_cons, ih h2]
      simp [ha]
    · have : lowerBound (a :: l) x = 0 := by simp [lowerBound, ha]
      rw [this]
      symm
      simp only [List.take_zero, List.filter_eq_nil_iff, List.mem_cons, decide_eq_true_eq]
      rintro c (rfl | hc)
      · exact ha
      · have := h1 c hc; omega

theorem drop_upper {l : List Nat} (hl : l.Pairwise (· < ·)) (x : Nat) :
    l.drop (upperBound l x) = l.filter fun c => decide (x < c) := by
  induction l with
  | nil => simp [upperBound]
  | cons a l ih =>
    obtain ⟨h1, h2⟩ := List.pairwise_cons.1 hl
    by_cases ha : a ≤ x
    · have : upperBound (a :: l) x = upperBound l x + 1 := by simp [upperBound, ha]
      rw [this, List.drop_succ_cons, ih h2]
      have : ¬ x < a := by omega
      simp [this]
    · have : upperBound (a :: l) x = 0 := by simp [upperBound, ha]
      rw [this]
      symm
      simp only [List.drop_zero, List.filter_eq_self, List.mem_cons, decide_eq_true_eq]
      rintro c (rfl | hc)
      · omega
      · have := h1 c hc; omega

theorem upperBound_filter {l : List Nat} (hl : l.Pairwise (· < ·)) {x y : Nat} (h : x < y) :
    upperBound (l.filter fun c => decide (c < y)) x = upperBound l x := by
  induction l with
  | nil => rfl
  | cons a l ih =>
    obtain ⟨h1, h2⟩ := List.pairwise_cons.1 hl
    by_cases ha : a ≤ x
    · have hy : a < y := by omega
      have := ih h2
      simp only [upperBound] at this ⊢
      simp [hy, ha, this]
    · by_cases hy : a < y
      · simp [upperBound, hy, ha]
      · have : (a :: l).filter (fun c => decide (c < y)) = [] := by
          simp only [List.filter_eq_nil_iff, List.mem_cons, decide_eq_true_eq]
          rintro c (rfl | hc)
          · exact hy
          · have := h1 c hc; omega
        rw [this]
        simp [upperBound, ha]

/-- The elements between the two bounds are those strictly inside, in order; the iterators never
cross. -/
theorem hintsInside_exact {hints : List Nat} (hs : hints.Pairwise (· < ·)) {lo hi : Nat}
    (h : lo < hi) :
    hintsInside hints lo hi = .ok (hints.filter fun c => decide (lo < c) && decide (c < hi)) := by
  unfold hintsInside
  have hle : upperBound hints lo ≤ lowerBound hints hi :=
    takeWhile_length_le (fun c hc => by simp at *; omega) hints
  simp only [hle, if_true]
  congr 1
  rw [take_lower hs]
  have hs' := hs.filter (fun c => decide (c < hi))
  have := drop_upper hs' lo
  rw [upperBound_filter hs h] at this
  rw [this, List.filter_filter]

/-- Segments are non-empty and each starts where the one before it ended, from `lo` to `hi`. -/
def Tile : Int → Int → List BitRange → Prop
  | _, _, [] => False
  | lo, hi, [s] => s.left = lo ∧ s.right = hi ∧ lo ≤ hi
  | lo, hi, s :: rest => s.left = lo ∧ s.left ≤ s.right ∧ Tile (s.right + 1) hi rest

theorem splitLoop_tile (hi : Nat) (cs : List Nat) : ∀ prev : Nat,
    (prev :: cs).Pairwise (· < ·) → (∀ c ∈ prev :: cs, c < hi) →
    Tile prev ((hi : Int) - 1) (splitLoop hi prev cs) ∧
      (splitLoop hi prev cs).tail.map BitRange.left = cs.map Int.ofNat := by
  induction cs with
  | nil =>
    intro prev _ hlt
    have := hlt prev (by simp)
    refine ⟨⟨rfl, rfl, by omega⟩, by simp [splitLoop]⟩
  | cons c cs ih =>
    intro prev hp hlt
    obtain ⟨h1, h2⟩ := List.pairwise_cons.1 hp
    have hpc := h1 c (by simp)
    obtain ⟨i1, i2⟩ := ih c h2 (fun x hx => hlt x (List.mem_cons_of_mem _ hx))
    constructor
    · have : splitLoop hi c cs ≠ [] := by cases cs <;> simp [splitLoop]
      simp only [splitLoop]
      cases hsp : splitLoop hi c cs with
      | nil => exact absurd hsp this
      | cons s ss =>
        rw [hsp] at i1
        refine ⟨rfl, by show (prev : Int) ≤ (c : Int) - 1; omega, ?_⟩
        show Tile ((c : Int) - 1 + 1) _ _
        have : (c : Int) - 1 + 1 = c := by omega
        rw [this]
        exact i1
    · simp only [splitLoop, List.tail_cons]
      cases cs with
      | nil => simp [splitLoop]
      | cons d ds =>
        simp only [splitLoop, List.map_cons, List.tail_cons] at i2 ⊢
        rw [i2]; rfl

/-- C45: the nodes created for a driven range of a port are contiguous and cover exactly that range,
and the places where a node after the first begins are exactly the registered cuts strictly inside
the range, in order. (The registered cuts are ascending by C37.) -/
theorem port_segments_tile {hints : List Nat} (hs : hints.Pairwise (· < ·)) {first second : Nat}
    (h : first ≤ second) :
    ∃ segs, portSegments (some hints) first second = .ok segs ∧
      Tile first second segs ∧
      segs.tail.map BitRange.left =
        (hints.filter fun c => decide (first < c) && decide (c ≤ second)).map Int.ofNat := by
  have hx := hintsInside_exact hs (lo := first) (hi := second + 1) (by omega)
  refine ⟨splitLoop (second + 1) first
    (hints.filter fun c => decide (first < c) && decide (c < second + 1)), ?_, ?_⟩
  · simp only [portSegments, hx]
  obtain ⟨a, b⟩ := splitLoop_tile (second + 1)
    (hints.filter fun c => decide (first < c) && decide (c < second + 1)) first
    (List.pairwise_cons.2 ⟨fun c hc => by simp at hc; omega, hs.filter _⟩)
    (fun c hc => by simp at hc; omega)
  refine ⟨?_, ?_⟩
  · have : ((second + 1 : Nat) : Int) - 1 = second := by omega
    rw [this] at a
    exact a
  · rw [b]
    simp only [Nat.lt_succ_iff]

/-- C45 without hints: one node for the whole range. -/
theorem port_segments_plain (first second : Nat) (h : first ≤ second) :
    portSegments none first second = .ok [⟨first, second⟩] ∧
      Tile first second [⟨first, second⟩] := ⟨rfl, rfl, rfl, by omega⟩

/-- Every bit of the driven range is in exactly one segment of a tiling. -/
theorem tile_bit {segs : List BitRange} : ∀ {lo hi : Int}, Tile lo hi segs → ∀ p : Int,
    lo ≤ p → p ≤ hi → ∃ l r s, segs = l ++ s :: r ∧ s.left ≤ p ∧ p ≤ s.right ∧
      ∀ s' ∈ l ++ r, ¬ (s'.left ≤ p ∧ p ≤ s'.right) := by
  have before : ∀ {segs : List BitRange} {lo hi : Int}, Tile lo hi segs → ∀ s ∈ segs, lo ≤ s.left := by
    intro segs
    induction segs with
    | nil => intro lo hi h; exact h.elim
    | cons a as ih =>
      intro lo hi h s hs
      cases as with
      | nil => simp only [Tile] at h; simp at hs; subst hs; omega
      | cons b bs =>
        simp only [Tile] at h
        rcases List.mem_cons.1 hs with rfl | hs
        · omega
        · have := ih h.2.2 s hs; omega
  induction segs with
  | nil => intro lo hi h; exact h.elim
  | cons a as ih =>
    intro lo hi h p hp1 hp2
    cases as with
    | nil =>
      simp only [Tile] at h
      exact ⟨[], [], a, rfl, by omega, by omega, by simp⟩
    | cons b bs =>
      simp only [Tile] at h
      by_cases hp : p ≤ a.right
      · refine ⟨[], b :: bs, a, rfl, by omega, hp, ?_⟩
        intro s hs
        have := before h.2.2 s (by simpa using hs)
        omega
      · obtain ⟨l, r, s, e, h1, h2, h3⟩ := ih h.2.2 p (by omega) hp2
        refine ⟨a :: l, r, s, by rw [e]; rfl, h1, h2, ?_⟩
        intro s' hs'
        rcases List.mem_append.1 hs' with hs' | hs'
        · rcases List.mem_cons.1 hs' with rfl | hs'
          · omega
          · exact h3 s' (by simp [hs'])
        · exact h3 s' (by simp [hs'])

/-- A concrete driven range with cuts inside, on and outside its ends. -/
example : portSegments (some [2, 4, 6, 8]) 4 8 = .ok [⟨4, 5⟩, ⟨6, 7⟩, ⟨8, 8⟩] ∧
    [2, 4, 6, 8].Pairwise (· < ·) := by decide

/-! ### C38 -/

/-- Some insertion of the history registers `node` for `sym` with these end points. -/
def RegisteredNode (hist : List (Nat × BitRange × Nat)) (sym : Nat) (lo hi : Int) (node : Nat) :
    Prop :=
  ∃ c ∈ hist, c.1 = sym ∧ c.2.1.lower = lo ∧ c.2.1.upper = hi ∧ c.2.2 = node

theorem varTab_run (hist : List (Nat × BitRange × Nat)) : ∀ (t : VarTab) (sym : Nat) (e : Ivl Nat),
    e ∈ (t.run hist) sym ↔ e ∈ t sym ∨ RegisteredNode hist sym e.lo e.hi e.val := by
  induction hist with
  | nil => intro t sym e; simp [VarTab.run, RegisteredNode]
  | cons c hist ih =>
    obtain ⟨s, b, n⟩ := c
    intro t sym e
    simp only [VarTab.run]
    rw [ih]
    have : e ∈ (t.insert s b n) sym ↔ e ∈ t sym ∨ (s = sym ∧ b.lower = e.lo ∧ b.upper = e.hi ∧ n = e.val) := by
      unfold VarTab.insert
      by_cases hs : sym = s
      · subst hs
        simp only [if_true, imInsert_mem]
        constructor
        · rintro (rfl | h)
          · right; simp
          · exact .inl h
        · rintro (h | ⟨_, h1, h2, h3⟩)
          · exact .inr h
          · left; cases e; simp_all
      · have hs' : ¬ s = sym := fun h => hs h.symm
        simp [hs, hs']
    rw [this]
    simp only [RegisteredNode, List.mem_cons, exists_eq_or_imp]
    grind

theorem varTab_insert_perm (t : VarTab) (sym : Nat) (b : BitRange) (n : Nat) :
    ((t.insert sym b n) sym).Perm (⟨b.lower, b.upper, n⟩ :: t sym) := by
  unfold VarTab.insert
  simp only [if_true]
  generalize t sym = m
  induction m with
  | nil => simp [imInsert]
  | cons a as ih =>
    unfold imInsert
    split
    · exact .refl _
    · exact (ih.cons a).trans (.swap ..)

/-- C38: looking up an ascending range returns a node registered for exactly that range if there is
one, and nothing if none was ever registered for it. (Bounds given in descending order are the case
of `descending_range_not_found`.) -/
theorem variable_lookup_exact_partial (hist : List (Nat × BitRange × Nat)) (sym : Nat) (b : BitRange)
    (hasc : b.left ≤ b.right) :
    match (VarTab.run (fun _ => []) hist).lookup sym b with
    | some n => RegisteredNode hist sym b.left b.right n
    | none => ∀ n, ¬ RegisteredNode hist sym b.left b.right n := by
  have hrun := varTab_run hist (fun _ => []) sym
  have hlow : b.lower = b.left := by simp only [BitRange.lower]; omega
  have hupp : b.upper = b.right := by simp only [BitRange.upper]; omega
  unfold VarTab.lookup
  split
  · rename_i n hn
    obtain ⟨e, he, rfl⟩ := Option.map_eq_some_iff.1 hn
    have hp := List.find?_some he
    have hm := List.mem_of_find?_eq_some he
    simp only [decide_eq_true_eq] at hp
    have hm' := (List.mem_filter.1 hm).1
    have := (hrun e).1 hm'
    simp at this
    rw [← hp]
    exact this
  · rename_i hn
    intro n hr
    rw [Option.map_eq_none_iff, List.find?_eq_none] at hn
    have hmem : (⟨b.left, b.right, n⟩ : Ivl Nat) ∈ (VarTab.run (fun _ => []) hist) sym :=
      (hrun _).2 (.inr hr)
    refine hn ⟨b.left, b.right, n⟩ (List.mem_filter.2 ⟨hmem, ?_⟩) (by simp)
    simp [Ivl.hits, hlow, hupp, hasc]

/-- If exactly one node was ever registered for the range, that node is returned. -/
theorem variable_lookup_unique_partial (hist : List (Nat × BitRange × Nat)) (sym : Nat) (b : BitRange)
    (hasc : b.left ≤ b.right) (n : Nat) (h : RegisteredNode hist sym b.left b.right n)
    (huniq : ∀ n', RegisteredNode hist sym b.left b.right n' → n' = n) :
    (VarTab.run (fun _ => []) hist).lookup sym b = some n := by
  have := variable_lookup_exact_partial hist sym b hasc
  split at this
  · rename_i m hm
    rw [hm, huniq m this]
  · exact absurd h (this n)

/-- Looking up a symbol returns exactly the nodes registered for it, each as often as it was
registered. -/
theorem variable_lookupAll_exact (hist : List (Nat × BitRange × Nat)) (sym : Nat) :
    ((VarTab.run (fun _ => []) hist).lookupAll sym).Perm
      ((hist.filter fun c => c.1 == sym).map fun c => c.2.2) := by
  have : ∀ (hist : List (Nat × BitRange × Nat)) (t : VarTab), ((t.run hist).lookupAll sym).Perm
      ((t sym).map Ivl.val ++ (hist.filter fun c => c.1 == sym).map fun c => c.2.2) := by
    intro hist
    induction hist with
    | nil => intro t; simp [VarTab.run, VarTab.lookupAll]
    | cons c hist ih =>
      obtain ⟨s, b, n⟩ := c
      intro t
      simp only [VarTab.run]
      refine (ih _).trans ?_
      by_cases hs : s = sym
      · subst hs
        have hp := ((varTab_insert_perm t s b n).map Ivl.val).append_right
          ((hist.filter fun c => c.1 == s).map fun c => c.2.2)
        refine hp.trans ?_
        simp only [List.map_cons, List.filter_cons, beq_self_eq_true, if_true]
        exact List.perm_middle.symm
      · have hs' : ¬ sym = s := fun h => hs h.symm
        simp [VarTab.insert, hs, hs']
  simpa using this hist (fun _ => [])

/-- A node registered for `[7:0]` is not found when the same range is given as `7 .. 0`. -/
theorem descending_range_not_found :
    (VarTab.run (fun _ => []) [(1, ⟨7, 0⟩, 42)]).lookup 1 ⟨7, 0⟩ = none ∧
    (VarTab.run (fun _ => []) [(1, ⟨7, 0⟩, 42)]).lookup 1 ⟨0, 7⟩ = some 42 := by decide

/-- A concrete table with overlapping registrations. -/
example : (VarTab.run (fun _ => []) [(1, ⟨0, 7⟩, 5), (1, ⟨0, 3⟩, 6), (2, ⟨0, 3⟩, 7)]).lookup 1 ⟨0, 3⟩ =
    some 6 := by decide

/-- The theorems apply to these cases. -/
example := port_segments_plain 4 8 (by decide)
example := port_segments_tile (hints := [2, 4, 6, 8]) (by decide) (first := 4) (second := 8) (by decide)
example := variable_lookup_unique_partial [(1, ⟨0, 7⟩, 5), (1, ⟨0, 3⟩, 6), (2, ⟨0, 3⟩, 7)] 1 ⟨0, 3⟩ (by decide) 6
  ⟨(1, ⟨0, 3⟩, 6), by decide, by decide⟩ (by
    rintro n ⟨c, hc, h1, h2, h3, h4⟩
    simp only [List.mem_cons, List.not_mem_nil, or_false] at hc
    rcases hc with rfl | rfl | rfl
    · exact absurd h3 (by decide)
    · exact h4.symm
    · simp at h1)

end Verif.Props
