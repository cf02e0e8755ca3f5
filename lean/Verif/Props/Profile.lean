import Verif.Model.Profile

/-! Statistics of the task times (C80). -/
namespace Verif.Props
open Verif.Model

/-- Twice the number of elements of a list that satisfy a test is at least its length. -/
def AtLeastHalf (l : List Nat) (p : Nat → Bool) : Prop := l.length ≤ 2 * l.countP p

theorem foldl_sum (l : List Nat) : ∀ a, l.foldl (· + ·) a = a + l.sum := by
  induction l with
  | nil => intro a; simp
  | cons x l ih => intro a; rw [List.foldl_cons, ih, List.sum_cons]; omega

theorem sum_ge {l : List Nat} {m : Nat} (h : ∀ x ∈ l, m ≤ x) : m * l.length ≤ l.sum := by
  induction l with
  | nil => simp
  | cons x l ih =>
    have h1 := h x List.mem_cons_self
    have h2 := ih fun y hy => h y (List.mem_cons_of_mem _ hy)
    simp only [List.length_cons, List.sum_cons, Nat.mul_succ]
    omega

theorem sum_le {l : List Nat} {m : Nat} (h : ∀ x ∈ l, x ≤ m) : l.sum ≤ m * l.length := by
  induction l with
  | nil => simp
  | cons x l ih =>
    have h1 := h x List.mem_cons_self
    have h2 := ih fun y hy => h y (List.mem_cons_of_mem _ hy)
    simp only [List.length_cons, List.sum_cons, Nat.mul_succ]
    omega

/-- In a sorted list the elements up to a place are at most the one there. -/
theorem count_low {l : List Nat} (hs : l.Pairwise (· ≤ ·)) {k : Nat} (hk : k < l.length) {b : Nat}
    (hb : l[k] ≤ b) : k + 1 ≤ l.countP fun x => decide (x ≤ b) := by
  have h1 : (l.take (k + 1)).countP (fun x => decide (x ≤ b)) = k + 1 := by
    rw [List.countP_eq_length.2, List.length_take]
    · omega
    · intro x hx
      obtain ⟨i, hi, rfl⟩ := List.mem_iff_getElem.1 hx
      rw [List.length_take] at hi
      rw [List.getElem_take]
      refine decide_eq_true (Nat.le_trans ?_ hb)
      by_cases h : i = k
      · subst h; exact Nat.le_refl _
      · exact List.pairwise_iff_getElem.1 hs i k (by omega) hk (by omega)
  rw [← h1]
  exact (List.take_sublist _ _).countP_le

theorem count_high {l : List Nat} (hs : l.Pairwise (· ≤ ·)) {k : Nat} (hk : k < l.length) {b : Nat}
    (hb : b ≤ l[k]) : l.length - k ≤ l.countP fun x => decide (b ≤ x) := by
  have h1 : (l.drop k).countP (fun x => decide (b ≤ x)) = l.length - k := by
    rw [List.countP_eq_length.2, List.length_drop]
    intro x hx
    obtain ⟨i, hi, rfl⟩ := List.mem_iff_getElem.1 hx
    rw [List.length_drop] at hi
    rw [List.getElem_drop]
    refine decide_eq_true (Nat.le_trans hb ?_)
    by_cases h : i = 0
    · subst h; exact Nat.le_refl _
    · exact List.pairwise_iff_getElem.1 hs k (k + i) hk (by omega) (by omega)
  rw [← h1]
  exact (List.drop_sublist _ _).countP_le

/-- C80: the statistics are those of the recorded times: the least and the greatest time, their sum and
number, and a median, at or below which and at or above which at least half of the times lie. -/
theorem task_stats_exact {times : List Nat} {s : TaskStats} (h : taskStats times = some s) :
    (s.min ∈ times ∧ ∀ x ∈ times, s.min ≤ x) ∧ (s.max ∈ times ∧ ∀ x ∈ times, x ≤ s.max) ∧
    s.total = times.sum ∧ s.meanDen = times.length ∧ 0 < s.meanDen ∧
    s.min * s.meanDen ≤ s.total ∧ s.total ≤ s.max * s.meanDen ∧
    2 * s.min ≤ s.median2 ∧ s.median2 ≤ 2 * s.max ∧
    AtLeastHalf times (fun x => decide (2 * x ≤ s.median2)) ∧
    AtLeastHalf times (fun x => decide (s.median2 ≤ 2 * x)) := by
  simp only [taskStats] at h
  by_cases he : times = []
  · rw [if_pos he] at h; exact nomatch h
  rw [if_neg he] at h
  have hp : (times.mergeSort (fun a b => decide (a ≤ b))).Perm times := List.mergeSort_perm _ _
  have hs : (times.mergeSort (fun a b => decide (a ≤ b))).Pairwise (· ≤ ·) := by
    have := List.pairwise_mergeSort (le := fun a b => decide (a ≤ b))
      (by intro a b c h1 h2; simp only [decide_eq_true_eq] at *; omega)
      (by intro a b; simp only [Bool.or_eq_true, decide_eq_true_eq]; omega) times
    simpa using this
  generalize times.mergeSort (fun a b => decide (a ≤ b)) = t at h hp hs
  have hlen := hp.length_eq
  have hpos : 0 < t.length := by
    rw [hlen]; exact List.length_pos_iff.2 he
  cases h
  have hmin : t.headD 0 = t[0] := by
    cases t with
    | nil => exact absurd hpos (by simp)
    | cons x t => rfl
  have hmax : t.getLastD 0 = t[t.length - 1] := by
    rw [List.getLastD_eq_getLast?, List.getLast?_eq_getElem?, List.getElem?_eq_getElem (by omega)]
    rfl
  have hsum : t.foldl (· + ·) 0 = times.sum := by rw [foldl_sum, hp.sum_nat]; omega
  have lo : ∀ x ∈ t, t[0] ≤ x := by
    intro x hx
    obtain ⟨i, hi, rfl⟩ := List.mem_iff_getElem.1 hx
    by_cases h : i = 0
    · subst h; exact Nat.le_refl _
    · exact List.pairwise_iff_getElem.1 hs 0 i hpos hi (by omega)
  have hi : ∀ x ∈ t, x ≤ t[t.length - 1] := by
    intro x hx
    obtain ⟨i, hi, rfl⟩ := List.mem_iff_getElem.1 hx
    by_cases h : i = t.length - 1
    · subst h; exact Nat.le_refl _
    · exact List.pairwise_iff_getElem.1 hs i (t.length - 1) hi (by omega) (by omega)
  have lo' : ∀ x ∈ times, t[0] ≤ x := fun x hx => lo x (hp.mem_iff.2 hx)
  have hi' : ∀ x ∈ times, x ≤ t[t.length - 1] := fun x hx => hi x (hp.mem_iff.2 hx)
  have half : ∀ p : Nat → Bool, t.length ≤ 2 * t.countP p → AtLeastHalf times p := by
    intro p h
    rw [AtLeastHalf, ← hlen, ← hp.countP_eq]; exact h
  dsimp only
  rw [hmin, hmax, hsum]
  refine ⟨⟨hp.mem_iff.1 (List.getElem_mem _), lo'⟩, ⟨hp.mem_iff.1 (List.getElem_mem _), hi'⟩, rfl, hlen,
    hpos, by rw [hlen]; exact sum_ge lo', Nat.le_trans (sum_le hi') (by rw [← hlen]; exact Nat.le_refl _), ?_⟩
  by_cases hev : t.length % 2 = 0
  · rw [if_pos hev]
    have h1 : t.length / 2 - 1 < t.length := by omega
    have h2 : t.length / 2 < t.length := by omega
    have e1 : t.getD (t.length / 2 - 1) 0 = t[t.length / 2 - 1] := by
      simp [List.getD_eq_getElem?_getD, h1]
    have e2 : t.getD (t.length / 2) 0 = t[t.length / 2] := by
      simp [List.getD_eq_getElem?_getD, h2]
    rw [e1, e2]
    have o : t[t.length / 2 - 1] ≤ t[t.length / 2] :=
      List.pairwise_iff_getElem.1 hs _ _ h1 h2 (by omega)
    have a1 := lo _ (List.getElem_mem h1)
    have a2 := hi _ (List.getElem_mem h2)
    refine ⟨by omega, by omega, half _ ?_, half _ ?_⟩
    · have := count_low hs h1 (Nat.le_refl _)
      have le : t.countP (fun x => decide (x ≤ t[t.length / 2 - 1])) ≤
          t.countP fun x => decide (2 * x ≤ t[t.length / 2 - 1] + t[t.length / 2]) :=
        List.countP_mono_left fun x _ hx => by
          simp only [decide_eq_true_eq] at hx ⊢; omega
      omega
    · have := count_high hs h2 (Nat.le_refl _)
      have le : t.countP (fun x => decide (t[t.length / 2] ≤ x)) ≤
          t.countP fun x => decide (t[t.length / 2 - 1] + t[t.length / 2] ≤ 2 * x) :=
        List.countP_mono_left fun x _ hx => by
          simp only [decide_eq_true_eq] at hx ⊢; omega
      omega
  · rw [if_neg hev]
    have h2 : t.length / 2 < t.length := by omega
    have e2 : t.getD (t.length / 2) 0 = t[t.length / 2] := by
      simp [List.getD_eq_getElem?_getD, h2]
    rw [e2]
    have a1 := lo _ (List.getElem_mem h2)
    have a2 := hi _ (List.getElem_mem h2)
    refine ⟨by omega, by omega, half _ ?_, half _ ?_⟩
    · have := count_low hs h2 (Nat.le_refl _)
      have le : t.countP (fun x => decide (x ≤ t[t.length / 2])) ≤
          t.countP fun x => decide (2 * x ≤ 2 * t[t.length / 2]) :=
        List.countP_mono_left fun x _ hx => by
          simp only [decide_eq_true_eq] at hx ⊢; omega
      omega
    · have := count_high hs h2 (Nat.le_refl _)
      have le : t.countP (fun x => decide (t[t.length / 2] ≤ x)) ≤
          t.countP fun x => decide (2 * t[t.length / 2] ≤ 2 * x) :=
        List.countP_mono_left fun x _ hx => by
          simp only [decide_eq_true_eq] at hx ⊢; omega
      omega

/-- C80: the statistics do not depend on the order of the tasks, and are set unless there are none. -/
theorem task_stats_order {a b : List Nat} (h : a.Perm b) :
    taskStats a = taskStats b ∧ (taskStats a = none ↔ a = []) := by
  have hsort : a.mergeSort (fun a b => decide (a ≤ b)) = b.mergeSort (fun a b => decide (a ≤ b)) := by
    have tr : ∀ a b c : Nat, decide (a ≤ b) = true → decide (b ≤ c) = true → decide (a ≤ c) = true := by
      intro a b c h1 h2; simp only [decide_eq_true_eq] at *; omega
    have tt : ∀ a b : Nat, (decide (a ≤ b) || decide (b ≤ a)) = true := by
      intro a b; simp only [Bool.or_eq_true, decide_eq_true_eq]; omega
    refine List.Perm.eq_of_pairwise (le := fun a b => decide (a ≤ b) = true) ?_ ?_ ?_ ?_
    · intro x y _ _ h1 h2
      simp only [decide_eq_true_eq] at h1 h2; omega
    · exact List.pairwise_mergeSort tr tt a
    · exact List.pairwise_mergeSort tr tt b
    · exact (List.mergeSort_perm _ _).trans (h.trans (List.mergeSort_perm _ _).symm)
  have hnil : a = [] ↔ b = [] := by
    constructor
    · rintro rfl; exact h.nil_eq.symm
    · rintro rfl; exact h.eq_nil
  refine ⟨?_, ?_⟩
  · simp only [taskStats, hsort, hnil]
  · by_cases he : a = []
    · simp [taskStats, he]
    · simp [taskStats, he]

/-- Four tasks: the median lies between the two middle times. -/
example : taskStats [5, 1, 4, 2] = some ⟨1, 5, 12, 4, 6⟩ ∧ [5, 1, 4, 2].Perm [2, 4, 1, 5] := by
  refine ⟨?_, by decide⟩
  simp [taskStats, List.mergeSort, List.MergeSort.Internal.splitInTwo]

/-- The theorems apply to it. -/
example := task_stats_exact (times := [5, 1, 4, 2]) (s := ⟨1, 5, 12, 4, 6⟩)
  (by simp [taskStats, List.mergeSort, List.MergeSort.Internal.splitInTwo])
example := task_stats_order (a := [5, 1, 4, 2]) (b := [2, 4, 1, 5]) (by decide)

end Verif.Props
