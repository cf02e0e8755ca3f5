import Verif.Proofs.Net
import Verif.Props.Dfs

/-! Helper lemmas for cycle detection. -/
set_option linter.unusedSimpArgs false
namespace Verif.Proofs
open Verif.Spec Verif.Model Verif.Props

section walk
variable {α : Type} {R : α → α → Prop}

theorem walk_append {a b : List α} :
    Walk R (a ++ b) ↔ Walk R a ∧ Walk R b ∧
      ∀ x y, a.getLast? = some x → b.head? = some y → R x y := by
  induction a with
  | nil => simp [Walk]
  | cons c a ih =>
    cases a with
    | nil =>
      cases b with
      | nil => simp [Walk]
      | cons d b =>
        simp only [List.cons_append, List.nil_append, Walk, true_and, List.getLast?_singleton,
          Option.some.injEq, List.head?_cons]
        constructor
        · rintro ⟨h1, h2⟩; exact ⟨h2, fun x y hx hy => hx ▸ hy ▸ h1⟩
        · rintro ⟨h1, h2⟩; exact ⟨h2 c d rfl rfl, h1⟩
    | cons d a =>
      simp only [List.cons_append] at ih ⊢
      simp only [Walk, ih, List.getLast?_cons_cons, and_assoc]

theorem walk_reverse {l : List α} : Walk R l.reverse ↔ Walk (fun a b => R b a) l := by
  induction l with
  | nil => simp [Walk]
  | cons a l ih =>
    rw [List.reverse_cons, walk_append, ih]
    cases l with
    | nil => simp [Walk]
    | cons b l =>
      simp only [Walk, true_and, List.getLast?_reverse, List.head?_cons, Option.some.injEq]
      constructor
      · rintro ⟨h1, h2⟩; exact ⟨h2 b a rfl rfl, h1⟩
      · rintro ⟨h1, h2⟩; exact ⟨h2, fun x y hx hy => hx ▸ hy ▸ h1⟩

theorem simpleCycle_rotate {a b : List α} (h : SimpleCycle R (a ++ b)) :
    SimpleCycle R (b ++ a) := by
  obtain ⟨hne, hw, hc, hn⟩ := h
  rw [walk_append] at hw
  obtain ⟨wa, wb, wab⟩ := hw
  refine ⟨?_, ?_, ?_, ?_⟩
  · intro h; apply hne
    have := List.append_eq_nil_iff.1 h
    simp [this.1, this.2]
  · rw [walk_append]
    refine ⟨wb, wa, ?_⟩
    intro x y hx hy
    apply hc y x
    · cases a with
      | nil => cases hy
      | cons c a => simpa using hy
    · rw [List.getLast?_append, hx]; rfl
  · intro x y hx hy
    cases a with
    | nil => simp only [List.append_nil] at hx hy; exact hc x y (by simpa using hx) (by simpa using hy)
    | cons c a =>
      cases b with
      | nil => simp only [List.nil_append] at hx hy; exact hc x y (by simpa using hx) (by simpa using hy)
      | cons d b =>
        apply wab y x
        · rw [List.getLast?_append] at hy
          cases h : (c :: a).getLast? with
          | none => simp at h
          | some z => rw [h] at hy; simpa using hy
        · simpa using hx
  · exact (List.perm_append_comm.nodup_iff).1 hn

end walk

theorem minPos_spec (id : Nat → Nat) (l : List Nat) (hne : l ≠ []) :
    ∃ x, l[minPos id l]? = some x ∧ ∀ y ∈ l, id x ≤ id y := by
  induction l with
  | nil => exact absurd rfl hne
  | cons a l ih =>
    cases l with
    | nil => exact ⟨a, by simp [minPos]⟩
    | cons b l =>
      obtain ⟨x, hx, hmin⟩ := ih (by simp)
      simp only [minPos, hx]
      by_cases h : id x < id a
      · simp only [h, ↓reduceIte]
        refine ⟨x, by simpa using hx, ?_⟩
        intro y hy
        rcases List.mem_cons.1 hy with rfl | hy
        · omega
        · exact hmin y hy
      · simp only [h, ↓reduceIte]
        refine ⟨a, by simp, ?_⟩
        intro y hy
        rcases List.mem_cons.1 hy with rfl | hy
        · exact Nat.le_refl _
        · have := hmin y hy; omega

/-- What every reported cycle satisfies. -/
structure GoodCycle (R : Nat → Nat → Prop) (id : Nat → Nat) (c : List Nat) : Prop where
  cyc : SimpleCycle R c
  least : ∀ a, c.head? = some a → ∀ x ∈ c, id a ≤ id x

theorem rotateMin_perm (id : Nat → Nat) (l : List Nat) : (rotateMin id l).Perm l := by
  unfold rotateMin
  refine List.perm_append_comm.trans ?_
  rw [List.take_append_drop]

theorem rotateMin_good {R : Nat → Nat → Prop} (id : Nat → Nat) {l : List Nat}
    (h : SimpleCycle R l) : GoodCycle R id (rotateMin id l) := by
  constructor
  · unfold rotateMin
    apply simpleCycle_rotate
    rw [List.take_append_drop]
    exact h
  · intro a ha x hx
    obtain ⟨y, hy, hmin⟩ := minPos_spec id l h.nonempty
    have hd : (rotateMin id l).head? = some y := by
      unfold rotateMin
      rw [List.head?_append, List.head?_drop, hy]; rfl
    rw [hd] at ha
    cases ha
    exact hmin x ((rotateMin_perm id l).mem_iff.1 hx)

/-- Visitor state as a function of the callback log (newest first). -/
def cycOf (id : Nat → Nat) (log : List (Ev Edge)) : CycVisitor :=
  log.foldr (fun ev v => cycEvent id v ev) {}

structure CycInv (net : NetGraph) (ok : Edge → Bool) (start : Nat) (s : DfsState Edge) : Prop where
  inv : DfsInv (fwdAdj net ok) start s
  stk : (cycOf net.id s.log).stack = s.stack.map Prod.fst
  good : ∀ c ∈ (cycOf net.id s.log).cycles, GoodCycle (Acc (fwdAdj net ok)) net.id c ∧
    ∀ x ∈ c, x ∈ s.visited
  found : Ev.visitedNode start ∈ s.log → ∃ c ∈ (cycOf net.id s.log).cycles, start ∈ c

theorem stackFrom_cycle {R : Nat → Nat → Prop} {n top : Nat} {stk : List Nat}
    (hw : Walk (fun a b => R b a) (top :: stk)) (hn : (top :: stk).Nodup)
    (hmem : n ∈ top :: stk) (hc : R top n) : SimpleCycle R (stackFrom n (top :: stk)) ∧
      n ∈ stackFrom n (top :: stk) ∧ ∀ x ∈ stackFrom n (top :: stk), x ∈ top :: stk := by
  have hw' : Walk R (top :: stk).reverse := walk_reverse.2 hw
  have hn' : (top :: stk).reverse.Nodup :=
    List.pairwise_reverse.2 (hn.imp fun h => h.symm)
  have hlast : (top :: stk).reverse.getLast? = some top := by simp
  have hmem' : n ∈ (top :: stk).reverse := List.mem_reverse.2 hmem
  have hmono : ∀ x ∈ stackFrom n (top :: stk), x ∈ top :: stk := by
    intro x hx
    exact List.mem_reverse.1 ((List.dropWhile_sublist _).mem hx)
  unfold stackFrom at hmono ⊢
  generalize (top :: stk).reverse = l at *
  have hsplit := (List.takeWhile_append_dropWhile (p := fun m => m != n) (l := l))
  have hne : l.dropWhile (fun m => m != n) ≠ [] := by
    intro h
    rw [h, List.append_nil] at hsplit
    rw [← hsplit] at hmem'
    have := List.all_takeWhile (p := fun m => m != n) (l := l)
    rw [List.all_eq_true] at this
    have := this n hmem'
    simp at this
  obtain ⟨a, r, har⟩ := List.exists_cons_of_ne_nil hne
  have ha : a = n := by
    have := List.head?_dropWhile_not (p := fun m => m != n) (l := l)
    rw [har] at this
    simpa using this
  subst ha
  refine ⟨⟨hne, ?_, ?_, hn'.sublist (List.dropWhile_sublist _)⟩, by rw [har]; simp, hmono⟩
  · rw [← hsplit, walk_append] at hw'; exact hw'.2.1
  · intro x y hx hy
    rw [har] at hx
    cases hx
    rw [← hsplit, List.getLast?_append, hy] at hlast
    simp at hlast
    subst hlast
    exact hc

theorem cycInv_init (net : NetGraph) (ok : Edge → Bool) (start : Nat) :
    CycInv net ok start (dfsInit (fwdAdj net ok) start) := by
  refine ⟨dfsInv_init _ _, ?_, ?_, ?_⟩ <;> simp [dfsInit, cycOf, cycEvent]

theorem cycInv_step {net : NetGraph} {ok : Edge → Bool} {start : Nat} {s : DfsState Edge}
    (h : CycInv net ok start s) : CycInv net ok start (dfsStep (fwdAdj net ok) s) := by
  refine ⟨dfsInv_step h.inv, ?_, ?_, ?_⟩
  all_goals
    obtain ⟨visited, stack, log⟩ := s
    obtain ⟨hinv, hstk, hgood, hfound⟩ := h
    simp only at hstk hgood hfound
    unfold dfsStep
    split
  · exact hstk
  · rename_i n rest heq
    simp only at heq; subst heq
    simp [cycOf, cycEvent] at hstk ⊢
    rw [hstk]; rfl
  · rename_i n e es rest heq
    simp only at heq; subst heq
    split
    · simpa using hstk
    · split
      · simp only [cycOf, List.foldr_cons, cycEvent] at hstk ⊢
        split <;> simpa using hstk
      · simp only [cycOf, List.foldr_cons, cycEvent] at hstk ⊢
        simp only [hstk, List.map_cons]
  · exact hgood
  · rename_i n rest heq
    simp only at heq; subst heq
    simpa [cycOf, cycEvent] using hgood
  · rename_i n e es rest heq
    simp only at heq; subst heq
    split
    · exact hgood
    · rename_i hok
      simp only [Bool.not_eq_true', Bool.not_eq_false] at hok
      split
      · rename_i hv
        simp only [cycOf, List.foldr_cons, cycEvent] at hstk hgood ⊢
        split
        · rename_i hmem
          intro c hc
          rcases List.mem_append.1 hc with hc | hc
          · exact hgood c hc
          · simp only [List.mem_singleton] at hc
            subst hc
            rw [hstk] at hmem ⊢
            have hacc : Acc (fwdAdj net ok) n ((fwdAdj net ok).next e) := by
              obtain ⟨pre, hpre, _⟩ := hinv.suffix (n, e :: es) (by simp)
              refine ⟨e, ?_, hok, rfl⟩
              simp only at hpre
              rw [hpre]; simp
            have hcyc := stackFrom_cycle (R := Acc (fwdAdj net ok)) hinv.chain hinv.stackNodup
              hmem hacc
            refine ⟨rotateMin_good _ hcyc.1, ?_⟩
            intro x hx
            have := hcyc.2.2 x ((rotateMin_perm _ _).mem_iff.1 hx)
            have : x ∈ ((n, e :: es) :: rest).map Prod.fst := this
            obtain ⟨p, hp, rfl⟩ := List.mem_map.1 this
            exact hinv.stackV p hp
        · exact hgood
      · simp only [cycOf, List.foldr_cons, cycEvent] at hgood ⊢
        intro c hc
        obtain ⟨h1, h2⟩ := hgood c hc
        exact ⟨h1, fun x hx => List.mem_cons_of_mem _ (h2 x hx)⟩
  · exact hfound
  · rename_i n rest heq
    simp only at heq; subst heq
    simpa [cycOf, cycEvent] using hfound
  · rename_i n e es rest heq
    simp only at heq; subst heq
    split
    · exact hfound
    · rename_i hok
      simp only [Bool.not_eq_true', Bool.not_eq_false] at hok
      split
      · rename_i hv
        simp only [cycOf, List.foldr_cons, cycEvent] at hstk hfound ⊢
        intro hlog
        rcases List.mem_cons.1 hlog with hlog | hlog
        · simp only [Ev.visitedNode.injEq] at hlog
          have hbot := hinv.bottom (by simp)
          have hmem : start ∈ ((n, e :: es) :: rest).map Prod.fst :=
            List.mem_of_getLast? hbot
          rw [← hlog, hstk]
          simp only [hmem, ↓reduceIte]
          refine ⟨_, List.mem_append_right _ (List.mem_singleton.2 rfl), ?_⟩
          have hacc : Acc (fwdAdj net ok) n start := by
            obtain ⟨pre, hpre, _⟩ := hinv.suffix (n, e :: es) (by simp)
            refine ⟨e, ?_, hok, hlog.symm⟩
            simp only at hpre
            rw [hpre]; simp
          have hcyc := stackFrom_cycle (R := Acc (fwdAdj net ok)) hinv.chain hinv.stackNodup
            hmem hacc
          rw [(rotateMin_perm _ _).mem_iff]
          exact hcyc.2.1
        · obtain ⟨c, hc, hs⟩ := hfound hlog
          split
          · exact ⟨c, List.mem_append_left _ hc, hs⟩
          · exact ⟨c, hc, hs⟩
      · simp only [cycOf, List.foldr_cons, cycEvent] at hfound ⊢
        intro hlog
        rcases List.mem_cons.1 hlog with hlog | hlog
        · cases hlog
        · rcases List.mem_cons.1 hlog with hlog | hlog
          · cases hlog
          · exact hfound hlog

theorem cyclesFrom_eq (net : NetGraph) (ok : Edge → Bool) (start : Nat) :
    cyclesFrom net ok start =
      (cycOf net.id (dfsRun (fwdAdj net ok) net.g.nodes start).log).cycles := by
  unfold cyclesFrom cycOf dfsEvents
  rw [List.foldl_reverse]

theorem cyclesFrom_inv (net : NetGraph) (ok : Edge → Bool) (start : Nat) :
    CycInv net ok start (dfsRun (fwdAdj net ok) net.g.nodes start) :=
  dfsIter_induct (P := CycInv net ok start) (fun _ h => cycInv_step h) _ (cycInv_init net ok start)

/-- Cycles found from one start node. -/
theorem cyclesFrom_spec {net : NetGraph} (hw : NetWF net) (ok : Edge → Bool) (start : Nat)
    (hs : start ∈ net.g.nodes) :
    (∀ c ∈ cyclesFrom net ok start, GoodCycle (Acc (fwdAdj net ok)) net.id c ∧
      ∀ x ∈ c, x ∈ net.g.nodes) ∧
    (OnCycle (Acc (fwdAdj net ok)) start → ∃ c ∈ cyclesFrom net ok start, start ∈ c) := by
  have hci := cyclesFrom_inv net ok start
  rw [cyclesFrom_eq]
  refine ⟨?_, ?_⟩
  · intro c hc
    obtain ⟨h1, h2⟩ := hci.good c hc
    exact ⟨h1, fun x hx => reach_univ (closed_fwd hw ok) hs (hci.inv.reach x (h2 x hx))⟩
  · rintro ⟨u, hu, e, he, hok, hnext⟩
    apply hci.found
    have hperm := dfs_examines_each_edge_once (fwdAdj net ok) net.g.nodes start
      (closed_fwd hw ok) hs
    have hmem : start ∈ (((dfsEvents (fwdAdj net ok) net.g.nodes start).filterMap evNode).flatMap
        fun n => (((fwdAdj net ok).edges n).filter (fwdAdj net ok).ok).map (fwdAdj net ok).next) := by
      rw [List.mem_flatMap]
      refine ⟨u, ?_, List.mem_map.2 ⟨e, List.mem_filter.2 ⟨he, hok⟩, hnext⟩⟩
      rw [dfsEvents_nodes, List.mem_reverse]
      exact (dfsRun_visited (closed_fwd hw ok) hs u).2 hu
    rw [← hperm.mem_iff, List.mem_filterMap] at hmem
    obtain ⟨ev, hev, htgt⟩ := hmem
    unfold dfsEvents at hev
    rw [List.mem_reverse] at hev
    cases ev with
    | visitNode n => simp [evTarget] at htgt
    | popNode => simp [evTarget] at htgt
    | visitedNode n =>
      simp only [evTarget, Option.some.injEq] at htgt
      rw [← htgt]; rw [htgt] at hev ⊢; exact hev
    | visitEdge e' =>
      exfalso
      simp only [evTarget, Option.some.injEq] at htgt
      have := tree_start_notin hci.inv.tree
      exact this (List.mem_map.2 ⟨e', List.mem_filterMap.2 ⟨_, hev, rfl⟩, htgt⟩)

theorem insertCycles_mem (cs acc : List (List Nat)) (c : List Nat) :
    c ∈ cs.foldl insertCycle acc ↔ c ∈ acc ∨ c ∈ cs := by
  induction cs generalizing acc with
  | nil => simp
  | cons d cs ih =>
    rw [List.foldl_cons, ih]
    unfold insertCycle
    split
    · rename_i h
      constructor
      · rintro (h1 | h1)
        · exact .inl h1
        · exact .inr (List.mem_cons_of_mem _ h1)
      · rintro (h1 | h1)
        · exact .inl h1
        · rcases List.mem_cons.1 h1 with rfl | h1
          · exact .inl h
          · exact .inr h1
    · simp [or_assoc]

theorem insertCycles_nodup (cs acc : List (List Nat)) (h : acc.Nodup) :
    (cs.foldl insertCycle acc).Nodup := by
  induction cs generalizing acc with
  | nil => exact h
  | cons d cs ih =>
    rw [List.foldl_cons]
    apply ih
    unfold insertCycle
    split
    · exact h
    · rename_i hd
      rw [List.nodup_append]
      refine ⟨h, by simp, ?_⟩
      intro a ha b hb hab
      simp at hb; subst hb; subst hab
      exact hd ha

theorem detectLoop_spec {net : NetGraph} (hw : NetWF net) (ok : Edge → Bool)
    (ns visited : List Nat) (cycles : List (List Nat))
    (hns : ∀ n ∈ ns, n ∈ net.g.nodes) (hnd : ns.Nodup)
    (hvis : ∀ n ∈ ns, n ∈ visited → ∃ c ∈ cycles, n ∈ c)
    (hgood : ∀ c ∈ cycles, GoodCycle (Acc (fwdAdj net ok)) net.id c ∧ ∀ x ∈ c, x ∈ net.g.nodes)
    (hcn : cycles.Nodup) :
    (∀ c ∈ detectLoop net ok ns visited cycles,
      GoodCycle (Acc (fwdAdj net ok)) net.id c ∧ ∀ x ∈ c, x ∈ net.g.nodes) ∧
    (∀ c ∈ cycles, c ∈ detectLoop net ok ns visited cycles) ∧
    (∀ n ∈ ns, OnCycle (Acc (fwdAdj net ok)) n →
      ∃ c ∈ detectLoop net ok ns visited cycles, n ∈ c) ∧
    (detectLoop net ok ns visited cycles).Nodup := by
  induction ns generalizing visited cycles with
  | nil => exact ⟨hgood, fun c h => h, by simp, hcn⟩
  | cons n ns ih =>
    have hnd' := List.nodup_cons.1 hnd
    simp only [detectLoop]
    split
    · rename_i hv
      obtain ⟨h1, h2, h3, h4⟩ := ih visited cycles (fun m hm => hns m (List.mem_cons_of_mem _ hm))
        hnd'.2 (fun m hm => hvis m (List.mem_cons_of_mem _ hm)) hgood hcn
      refine ⟨h1, h2, ?_, h4⟩
      intro m hm hon
      rcases List.mem_cons.1 hm with rfl | hm
      · obtain ⟨c, hc, hmc⟩ := hvis m (by simp) hv
        exact ⟨c, h2 c hc, hmc⟩
      · exact h3 m hm hon
    · obtain ⟨g1, g2⟩ := cyclesFrom_spec hw ok n (hns n (by simp))
      obtain ⟨h1, h2, h3, h4⟩ := ih (n :: visited ++ (cyclesFrom net ok n).flatten)
        ((cyclesFrom net ok n).foldl insertCycle cycles)
        (fun m hm => hns m (List.mem_cons_of_mem _ hm)) hnd'.2
        (by
          intro m hm hmv
          have hmn : m ≠ n := fun hc => hnd'.1 (hc ▸ hm)
          rcases List.mem_append.1 hmv with hmv | hmv
          · rcases List.mem_cons.1 hmv with hmv | hmv
            · exact absurd hmv hmn
            · obtain ⟨c, hc, hx⟩ := hvis m (List.mem_cons_of_mem _ hm) hmv
              exact ⟨c, (insertCycles_mem _ _ _).2 (.inl hc), hx⟩
          · obtain ⟨c, hc, hx⟩ := List.mem_flatten.1 hmv
            exact ⟨c, (insertCycles_mem _ _ _).2 (.inr hc), hx⟩)
        (by
          intro c hc
          rcases (insertCycles_mem _ _ _).1 hc with hc | hc
          · exact hgood c hc
          · exact g1 c hc)
        (insertCycles_nodup _ _ hcn)
      refine ⟨h1, fun c hc => h2 c ((insertCycles_mem _ _ _).2 (.inl hc)), ?_, h4⟩
      intro m hm hon
      rcases List.mem_cons.1 hm with rfl | hm
      · obtain ⟨c, hc, hx⟩ := g2 hon
        exact ⟨c, h2 c ((insertCycles_mem _ _ _).2 (.inr hc)), hx⟩
      · exact h3 m hm hon

/-! ### Sorting -/

theorem insertSorted_perm (id : Nat → Nat) (c : List Nat) (ds : List (List Nat)) :
    (insertSorted id c ds).Perm (c :: ds) := by
  induction ds with
  | nil => exact List.Perm.refl _
  | cons d ds ih =>
    simp only [insertSorted]
    split
    · exact (List.Perm.cons d ih).trans (List.Perm.swap c d ds)
    · exact List.Perm.refl _

theorem sortCycles_perm (id : Nat → Nat) (cs : List (List Nat)) : (sortCycles id cs).Perm cs := by
  induction cs with
  | nil => exact List.Perm.refl _
  | cons c cs ih => exact (insertSorted_perm id c _).trans (List.Perm.cons c ih)

theorem lexLess_trans (id : Nat → Nat) (a b c : List Nat) (h1 : lexLess id a b = true)
    (h2 : lexLess id b c = true) : lexLess id a c = true := by
  induction a generalizing b c with
  | nil =>
    cases b with
    | nil => simp [lexLess] at h1
    | cons y b => cases c <;> simp [lexLess] at *
  | cons x a ih =>
    cases b with
    | nil => simp [lexLess] at h1
    | cons y b =>
      cases c with
      | nil => simp [lexLess] at h2
      | cons z c =>
        simp only [lexLess] at h1 h2 ⊢
        split at h1
        · split at h2
          · rw [if_pos (by omega)]
          · split at h2
            · cases h2
            · rw [if_pos (by omega)]
        · split at h1
          · cases h1
          · split at h2
            · rw [if_pos (by omega)]
            · split at h2
              · cases h2
              · rw [if_neg (by omega), if_neg (by omega)]; exact ih b c h1 h2

theorem lexLess_tri (id : Nat → Nat) (a b : List Nat) (hne : a.map id ≠ b.map id)
    (h : lexLess id a b = false) : lexLess id b a = true := by
  induction a generalizing b with
  | nil =>
    cases b with
    | nil => exact absurd rfl hne
    | cons y b => simp [lexLess] at h
  | cons x a ih =>
    cases b with
    | nil => simp [lexLess]
    | cons y b =>
      simp only [lexLess] at h ⊢
      split at h
      · cases h
      · split at h
        · rw [if_pos (by omega)]
        · rw [if_neg (by omega), if_neg (by omega)]
          apply ih b _ h
          intro hc
          apply hne
          simp only [List.map_cons, hc, List.cons.injEq, and_true]
          omega

theorem insertSorted_sorted (id : Nat → Nat) (c : List Nat) (ds : List (List Nat))
    (hs : ds.Pairwise fun a b => lexLess id a b = true)
    (hne : ∀ d ∈ ds, d.map id ≠ c.map id) :
    (insertSorted id c ds).Pairwise fun a b => lexLess id a b = true := by
  induction ds with
  | nil => simp [insertSorted]
  | cons d ds ih =>
    have hs' := List.pairwise_cons.1 hs
    simp only [insertSorted]
    split
    · rename_i h
      rw [List.pairwise_cons]
      refine ⟨?_, ih hs'.2 fun x hx => hne x (List.mem_cons_of_mem _ hx)⟩
      intro x hx
      rcases List.mem_cons.1 ((insertSorted_perm id c ds).mem_iff.1 hx) with rfl | hx
      · exact h
      · exact hs'.1 x hx
    · rename_i h
      simp only [Bool.not_eq_true] at h
      have hcd := lexLess_tri id d c (hne d (by simp)) h
      rw [List.pairwise_cons]
      refine ⟨?_, hs⟩
      intro x hx
      rcases List.mem_cons.1 hx with rfl | hx
      · exact hcd
      · exact lexLess_trans id c d x hcd (hs'.1 x hx)

theorem sortCycles_sorted (id : Nat → Nat) (cs : List (List Nat))
    (hne : cs.Pairwise fun a b => a.map id ≠ b.map id) :
    (sortCycles id cs).Pairwise fun a b => lexLess id a b = true := by
  induction cs with
  | nil => simp [sortCycles]
  | cons c cs ih =>
    have hne' := List.pairwise_cons.1 hne
    refine insertSorted_sorted id c _ (ih hne'.2) ?_
    intro d hd
    exact (hne'.1 d ((sortCycles_perm id cs).mem_iff.1 hd)).symm

theorem map_id_inj {net : NetGraph} (hu : UniqueIds net) {a b : List Nat}
    (ha : ∀ x ∈ a, x ∈ net.g.nodes) (hb : ∀ x ∈ b, x ∈ net.g.nodes)
    (h : a.map net.id = b.map net.id) : a = b := by
  induction a generalizing b with
  | nil => cases b with
    | nil => rfl
    | cons y b => simp at h
  | cons x a ih =>
    cases b with
    | nil => simp at h
    | cons y b =>
      simp only [List.map_cons, List.cons.injEq] at h
      have hxy := hu x (ha x (by simp)) y (hb y (by simp)) h.1
      have := ih (fun z hz => ha z (List.mem_cons_of_mem _ hz))
        (fun z hz => hb z (List.mem_cons_of_mem _ hz)) h.2
      rw [hxy, this]

end Verif.Proofs
