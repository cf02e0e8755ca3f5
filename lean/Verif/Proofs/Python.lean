import Verif.Spec.Python
import Verif.Props.Query
import Verif.Props.Lookup

/-!
Proofs about the Python bindings: liveness, and what all programs maintain.
-/
namespace Verif.Proofs
open Verif.Spec Verif.Model Verif.Props

/-! ### Liveness -/

theorem liveFrom_roots {keeps : Nat → List Nat} : ∀ (k : Nat) (roots : List Nat) {i : Nat}, i ∈ roots → i < k →
    i ∈ liveFrom keeps k roots
  | 0, _, _, _, h => by omega
  | k + 1, roots, i, hi, hk => by
    unfold liveFrom
    by_cases e : i = k
    · rw [if_pos (e ▸ hi), e]; simp
    · split
      · exact List.mem_cons_of_mem _ (liveFrom_roots k _ (by simp [hi]) (by omega))
      · exact liveFrom_roots k _ hi (by omega)

theorem liveFrom_closed {keeps : Nat → List Nat} (hk : ∀ i j, j ∈ keeps i → j < i) : ∀ (k : Nat) (roots : List Nat)
    {i j : Nat}, i ∈ liveFrom keeps k roots → j ∈ keeps i → j ∈ liveFrom keeps k roots
  | 0, _, _, _, h, _ => by simp [liveFrom] at h
  | k + 1, roots, i, j, hi, hj => by
    unfold liveFrom at hi ⊢
    split at hi
    · rename_i hr
      rw [if_pos hr]
      rcases List.mem_cons.1 hi with e | e
      · rw [e] at hj
        exact List.mem_cons_of_mem _ (liveFrom_roots k _ (by simp [hj]) (hk _ _ hj))
      · exact List.mem_cons_of_mem _ (liveFrom_closed hk k _ e hj)
    · rename_i hr
      rw [if_neg hr]
      exact liveFrom_closed hk k _ hi hj

theorem liveFrom_sound {keeps : Nat → List Nat} {Q : Nat → Prop} (hc : ∀ i j, Q i → j ∈ keeps i → Q j) :
    ∀ (k : Nat) (roots : List Nat), (∀ i ∈ roots, Q i) → ∀ {i : Nat}, i ∈ liveFrom keeps k roots → Q i
  | 0, _, _, _, h => by simp [liveFrom] at h
  | k + 1, roots, hr, i, hi => by
    unfold liveFrom at hi
    split at hi
    · rename_i hm
      rcases List.mem_cons.1 hi with e | e
      · rw [e]; exact hr _ hm
      · refine liveFrom_sound hc k _ ?_ e
        intro j hj
        rcases List.mem_append.1 hj with h | h
        · exact hc _ _ (hr _ hm) h
        · exact hr _ h
    · exact liveFrom_sound hc k _ hr hi

theorem alive_congr {s s' : PySt} (hk : s'.keeps = s.keeps) (hv : s'.vars = s.vars) {i : Nat} :
    Alive s' i ↔ Alive s i := by
  constructor
  · intro h
    induction h with
    | var h => rw [hv] at h; exact .var h
    | kept _ h ih => rw [hk] at h; exact .kept ih h
  · intro h
    induction h with
    | var h => rw [← hv] at h; exact .var h
    | kept _ h ih => rw [← hk] at h; exact .kept ih h

/-! ### What all programs maintain -/

/-- The index lists nodes of the netlist. -/
def IdxIn (ss : Session) : Prop := ∀ ix, ss.index = some ix → ∀ b ∈ ix, ∀ n ∈ b.2, n ∈ ss.net.g.nodes

/-- Node `n` belongs to graph object `g`. -/
def Owned (s : PySt) (g n : Nat) : Prop := ∃ ss b, s.val g = .graph ss b ∧ n ∈ ss.net.g.nodes

/-- The object makes sense in the state. -/
def ObjOk (s : PySt) (i : Nat) : PyVal → Prop
  | .graph ss _ => Reachable ss.net ∧ IdxIn ss
  | .node g n => Owned s g n
  | .iter g _ _ => s.keeps i = [g] ∧ ∃ ss b, s.val g = .graph ss b
  | .path ns => ∀ x ∈ ns, Owned s x.1 x.2
  | .pathIter p _ => s.keeps i = [p] ∧ ∃ ns, s.val p = .path ns

/-- What all programs maintain. -/
structure PyOk (s : PySt) : Prop where
  vars : ∀ i ∈ s.vars, i < s.size
  older : ∀ i j, j ∈ s.keeps i → j < i
  none : ∀ i, s.size ≤ i → s.keeps i = [] ∧ s.val i = .path []
  objs : ∀ i, ObjOk s i (s.val i)
  once : ∀ i j g n, Alive s i → Alive s j → s.val i = .node g n → s.val j = .node g n → i = j

theorem alive_lt {s : PySt} (h : PyOk s) {i : Nat} (ha : Alive s i) : i < s.size := by
  induction ha with
  | var hv => exact h.vars _ hv
  | kept _ hk ih => exact Nat.lt_trans (h.older _ _ hk) ih

theorem mem_live {s : PySt} (h : PyOk s) {i : Nat} : i ∈ s.live ↔ Alive s i := by
  constructor
  · intro hi
    exact liveFrom_sound (Q := Alive s) (fun _ _ ha hk => .kept ha hk) _ _ (fun _ hv => .var hv) hi
  · intro ha
    induction ha with
    | var hv => exact liveFrom_roots _ _ hv (h.vars _ hv)
    | kept _ hk ih => exact liveFrom_closed h.older _ _ ih hk

/-- Later states: old objects are what they were (up to the content of graphs and the position of
iterators). -/
structure Later (s s' : PySt) : Prop where
  size : s.size ≤ s'.size
  keeps : ∀ i, i < s.size → s'.keeps i = s.keeps i
  node : ∀ i g n, s.val i = .node g n → s'.val i = .node g n
  path : ∀ i ns, i < s.size → s.val i = .path ns → s'.val i = .path ns
  graph : ∀ i ss b, s.val i = .graph ss b → ∃ ss' b', s'.val i = .graph ss' b' ∧ b ≤ b' ∧
    (∀ n, n ∈ ss.net.g.nodes → n ∈ ss'.net.g.nodes) ∧ ∀ ix, ss.index = some ix → ss'.index = some ix
  iter : ∀ i g p b, s.val i = .iter g p b → ∃ p', s'.val i = .iter g p' b
  pathIter : ∀ i p k, s.val i = .pathIter p k → ∃ k', s'.val i = .pathIter p k'

theorem later_refl (s : PySt) : Later s s :=
  ⟨Nat.le_refl _, fun _ _ => rfl, fun _ _ _ h => h, fun _ _ _ h => h,
    fun _ ss b h => ⟨ss, b, h, Nat.le_refl _, fun _ hn => hn, fun _ hx => hx⟩, fun _ _ p _ h => ⟨p, h⟩, fun _ _ k h => ⟨k, h⟩⟩

theorem later_trans {s s' s'' : PySt} (h : Later s s') (h' : Later s' s'') : Later s s'' where
  size := Nat.le_trans h.size h'.size
  keeps i hi := (h'.keeps i (Nat.lt_of_lt_of_le hi h.size)).trans (h.keeps i hi)
  node i g n hv := h'.node i g n (h.node i g n hv)
  path i ns hi hv := h'.path i ns (Nat.lt_of_lt_of_le hi h.size) (h.path i ns hi hv)
  graph i ss b hv := by
    obtain ⟨ss1, b1, h1, h2, h3, x1⟩ := h.graph i ss b hv
    obtain ⟨ss2, b2, h4, h5, h6, x2⟩ := h'.graph i ss1 b1 h1
    exact ⟨ss2, b2, h4, Nat.le_trans h2 h5, fun n hn => h6 n (h3 n hn), fun ix hx => x2 ix (x1 ix hx)⟩
  iter i g p b hv := by
    obtain ⟨p1, h1⟩ := h.iter i g p b hv
    exact h'.iter i g p1 b h1
  pathIter i p k hv := by
    obtain ⟨k1, h1⟩ := h.pathIter i p k hv
    exact h'.pathIter i p k1 h1

theorem later_owned {s s' : PySt} (h : Later s s') {g n : Nat} (ho : Owned s g n) : Owned s' g n := by
  obtain ⟨ss, b, h1, h2⟩ := ho
  obtain ⟨ss', b', h3, _, h4, _⟩ := h.graph g ss b h1
  exact ⟨ss', b', h3, h4 n h2⟩

theorem ne_size_of {s : PySt} (h : PyOk s) {i : Nat} (hv : s.val i ≠ .path []) : i < s.size := by
  refine Classical.byContradiction fun hc => hv (h.none i (by omega)).2

/-! ### Making and changing objects -/

theorem make_later {s : PySt} (h : PyOk s) (v : PyVal) (ks : List Nat) : Later s (s.make v ks).1 := by
  have hne : ∀ i, s.val i ≠ .path [] → i ≠ s.size := fun i hi => Nat.ne_of_lt (ne_size_of h hi)
  refine ⟨Nat.le_succ _, ?_, ?_, ?_, ?_, ?_, ?_⟩
  · intro i hi; show (if i = s.size then ks else s.keeps i) = _; rw [if_neg (by omega)]
  · intro i g n hv
    show (if i = s.size then v else s.val i) = _
    rw [if_neg (hne i (by rw [hv]; simp))]; exact hv
  · intro i ns hi hv
    show (if i = s.size then v else s.val i) = _
    rw [if_neg (by omega)]; exact hv
  · intro i ss b hv
    refine ⟨ss, b, ?_, Nat.le_refl _, fun _ hn => hn, fun _ hx => hx⟩
    show (if i = s.size then v else s.val i) = _
    rw [if_neg (hne i (by rw [hv]; simp))]; exact hv
  · intro i g p b hv
    refine ⟨p, ?_⟩
    show (if i = s.size then v else s.val i) = _
    rw [if_neg (hne i (by rw [hv]; simp))]; exact hv
  · intro i p k hv
    refine ⟨k, ?_⟩
    show (if i = s.size then v else s.val i) = _
    rw [if_neg (hne i (by rw [hv]; simp))]; exact hv

theorem make_alive {s : PySt} (h : PyOk s) {v : PyVal} {ks : List Nat} (hks : ∀ j ∈ ks, Alive s j) {i : Nat} :
    Alive (s.make v ks).1 i ↔ i = s.size ∨ Alive s i := by
  constructor
  · intro ha
    induction ha with
    | var hv =>
      rcases List.mem_cons.1 hv with e | e
      · exact .inl e
      · exact .inr (.var e)
    | kept _ hk ih =>
      rename_i a b _
      have hk' : a ∈ (if b = s.size then ks else s.keeps b) := hk
      split at hk'
      · exact .inr (hks _ hk')
      · rename_i hne
        rcases ih with e | e
        · exact absurd e hne
        · exact .inr (.kept e hk')
  · rintro (e | e)
    · exact .var (by rw [e]; exact List.mem_cons_self)
    · induction e with
      | var hv => exact .var (List.mem_cons_of_mem _ hv)
      | kept ha hk ih =>
        refine .kept ih ?_
        rename_i a b
        show a ∈ (if b = s.size then ks else s.keeps b)
        rw [if_neg (Nat.ne_of_lt (alive_lt h ha))]
        exact hk

theorem objOk_later {s s' : PySt} (h : PyOk s) (hl : Later s s') {i : Nat} (hi : i < s.size) {v : PyVal}
    (ho : ObjOk s i v) : ObjOk s' i v := by
  cases v with
  | graph ss b => exact ho
  | node g n => exact later_owned hl ho
  | iter g p b =>
    obtain ⟨h1, ss, b', h2⟩ := ho
    obtain ⟨ss', b'', h3, _⟩ := hl.graph g ss b' h2
    exact ⟨(hl.keeps i hi).trans h1, ss', b'', h3⟩
  | path ns => exact fun x hx => later_owned hl (ho x hx)
  | pathIter p k =>
    obtain ⟨h1, ns, h2⟩ := ho
    have hp : p < s.size := by
      have := h.older i p (by rw [h1]; simp)
      omega
    exact ⟨(hl.keeps i hi).trans h1, ns, hl.path p ns hp h2⟩

theorem make_ok {s : PySt} (h : PyOk s) {v : PyVal} {ks : List Nat} (hks : ∀ j ∈ ks, Alive s j)
    (hv : ObjOk (s.make v ks).1 s.size v) (hn : ∀ g n, v = .node g n → ∀ i, Alive s i → s.val i ≠ .node g n) :
    PyOk (s.make v ks).1 := by
  have hl := make_later h v ks
  refine ⟨?_, ?_, ?_, ?_, ?_⟩
  · intro i hi
    show i < s.size + 1
    rcases List.mem_cons.1 hi with e | e
    · omega
    · have := h.vars i e; omega
  · intro i j hj
    have hj' : j ∈ (if i = s.size then ks else s.keeps i) := hj
    split at hj'
    · rename_i e; rw [e]; exact alive_lt h (hks j hj')
    · exact h.older i j hj'
  · intro i hi
    have hi' : s.size + 1 ≤ i := hi
    constructor
    · show (if i = s.size then ks else s.keeps i) = []
      rw [if_neg (by omega)]; exact (h.none i (by omega)).1
    · show (if i = s.size then v else s.val i) = _
      rw [if_neg (by omega)]; exact (h.none i (by omega)).2
  · intro i
    show ObjOk (s.make v ks).1 i (if i = s.size then v else s.val i)
    by_cases e : i = s.size
    · rw [if_pos e, e]; exact hv
    · rw [if_neg e]
      by_cases hi : i < s.size
      · exact objOk_later h hl hi (h.objs i)
      · rw [(h.none i (by omega)).2]
        intro x hx; simp at hx
  · intro i j g n hi hj hvi hvj
    have hvi' : (if i = s.size then v else s.val i) = .node g n := hvi
    have hvj' : (if j = s.size then v else s.val j) = .node g n := hvj
    rw [make_alive h hks] at hi hj
    by_cases ei : i = s.size
    · by_cases ej : j = s.size
      · rw [ei, ej]
      · rw [if_pos ei] at hvi'; rw [if_neg ej] at hvj'
        rcases hj with e | e
        · exact absurd e ej
        · exact absurd hvj' (hn g n hvi' j e)
    · rw [if_neg ei] at hvi'
      by_cases ej : j = s.size
      · rw [if_pos ej] at hvj'
        rcases hi with e | e
        · exact absurd e ei
        · exact absurd hvi' (hn g n hvj' i e)
      · rw [if_neg ej] at hvj'
        rcases hi with e | e
        · exact absurd e ei
        · rcases hj with e' | e'
          · exact absurd e' ej
          · exact h.once i j g n e e' hvi' hvj'

theorem set_later {s : PySt} {i : Nat} {v : PyVal} (hg : ∀ ss b, s.val i = .graph ss b → ∃ ss' b', v = .graph ss' b' ∧
      b ≤ b' ∧ (∀ n, n ∈ ss.net.g.nodes → n ∈ ss'.net.g.nodes) ∧ ∀ ix, ss.index = some ix → ss'.index = some ix)
    (hi : ∀ g p b, s.val i = .iter g p b → ∃ p', v = .iter g p' b)
    (hp : ∀ p k, s.val i = .pathIter p k → ∃ k', v = .pathIter p k')
    (hn : ∀ g n, s.val i ≠ .node g n) (hq : ∀ ns, s.val i ≠ .path ns) : Later s (s.set i v) := by
  have hv : ∀ j, (s.set i v).val j = if j = i then v else s.val j := fun _ => rfl
  refine ⟨Nat.le_refl _, fun _ _ => rfl, ?_, ?_, ?_, ?_, ?_⟩
  · intro j g n h
    rw [hv]; split
    · rename_i e; rw [e] at h; exact absurd h (hn g n)
    · exact h
  · intro j ns _ h
    rw [hv]; split
    · rename_i e; rw [e] at h; exact absurd h (hq ns)
    · exact h
  · intro j ss b h
    rw [hv]; split
    · rename_i e; rw [e] at h; exact hg ss b h
    · exact ⟨ss, b, h, Nat.le_refl _, fun _ hn => hn, fun _ hx => hx⟩
  · intro j g p b h
    rw [hv]; split
    · rename_i e; rw [e] at h; exact hi g p b h
    · exact ⟨p, h⟩
  · intro j p k h
    rw [hv]; split
    · rename_i e; rw [e] at h; exact hp p k h
    · exact ⟨k, h⟩

theorem set_ok {s : PySt} (h : PyOk s) {i : Nat} {v : PyVal} (hi : i < s.size) (hl : Later s (s.set i v))
    (hv : ObjOk (s.set i v) i v) (hn : ∀ g n, v ≠ .node g n) : PyOk (s.set i v) := by
  refine ⟨h.vars, h.older, ?_, ?_, ?_⟩
  · intro j hj
    refine ⟨(h.none j hj).1, ?_⟩
    show (if j = i then v else s.val j) = _
    have hj' : s.size ≤ j := hj
    rw [if_neg (by omega)]
    exact (h.none j hj).2
  · intro j
    show ObjOk (s.set i v) j (if j = i then v else s.val j)
    by_cases e : j = i
    · rw [if_pos e, e]; exact hv
    · rw [if_neg e]
      by_cases hj : j < s.size
      · exact objOk_later h hl hj (h.objs j)
      · rw [(h.none j (by omega)).2]
        intro x hx; simp at hx
  · intro a b g n ha hb hva hvb
    have hva' : (if a = i then v else s.val a) = .node g n := hva
    have hvb' : (if b = i then v else s.val b) = .node g n := hvb
    have hc : ∀ j, Alive (s.set i v) j → Alive s j := fun j hj =>
      (alive_congr (s := s) (s' := s.set i v) rfl rfl).1 hj
    by_cases ea : a = i
    · rw [if_pos ea] at hva'; exact absurd hva' (hn g n)
    · by_cases eb : b = i
      · rw [if_pos eb] at hvb'; exact absurd hvb' (hn g n)
      · rw [if_neg ea] at hva'; rw [if_neg eb] at hvb'
        exact h.once a b g n (hc a ha) (hc b hb) hva' hvb'

theorem hold_alive {s : PySt} {i : Nat} (hi : Alive s i) {j : Nat} :
    Alive { s with vars := i :: s.vars } j ↔ Alive s j := by
  constructor
  · intro h
    induction h with
    | var h =>
      rcases List.mem_cons.1 h with e | e
      · rw [e]; exact hi
      · exact .var e
    | kept _ h ih => exact .kept ih h
  · intro h
    induction h with
    | var h => exact .var (List.mem_cons_of_mem _ h)
    | kept _ h ih => exact .kept ih h

theorem hold_ok {s : PySt} (h : PyOk s) {i : Nat} (hi : Alive s i) : PyOk { s with vars := i :: s.vars } := by
  refine ⟨?_, h.older, h.none, ?_, ?_⟩
  · intro j hj
    rcases List.mem_cons.1 hj with e | e
    · rw [e]; exact alive_lt h hi
    · exact h.vars j e
  · intro j
    have := h.objs j
    show ObjOk { s with vars := i :: s.vars } j (s.val j)
    cases hv : s.val j <;> rw [hv] at this <;> exact this
  · intro a b g n ha hb
    exact h.once a b g n ((hold_alive hi).1 ha) ((hold_alive hi).1 hb)

theorem hold_later (s : PySt) (vs : List Nat) : Later s { s with vars := vs } :=
  ⟨Nat.le_refl _, fun _ _ => rfl, fun _ _ _ h => h, fun _ _ _ h => h,
    fun _ ss b h => ⟨ss, b, h, Nat.le_refl _, fun _ hn => hn, fun _ hx => hx⟩, fun _ _ p _ h => ⟨p, h⟩, fun _ _ k h => ⟨k, h⟩⟩

theorem pyDrop_ok {s : PySt} (h : PyOk s) (i : Nat) : PyOk { s with vars := s.vars.erase i } := by
  have hm : ∀ j, j ∈ s.vars.erase i → j ∈ s.vars := fun j hj => List.mem_of_mem_erase hj
  have ha : ∀ j, Alive { s with vars := s.vars.erase i } j → Alive s j := by
    intro j hj
    induction hj with
    | var h => exact .var (hm _ h)
    | kept _ h ih => exact .kept ih h
  refine ⟨fun j hj => h.vars j (hm j hj), h.older, h.none, ?_, ?_⟩
  · intro j
    have := h.objs j
    show ObjOk { s with vars := s.vars.erase i } j (s.val j)
    cases hv : s.val j <;> rw [hv] at this <;> exact this
  · intro a b g n hA hB
    exact h.once a b g n (ha a hA) (ha b hB)

/-! ### Handing out nodes -/

theorem isNode_iff {v : PyVal} {g n : Nat} : v.isNode g n = true ↔ v = .node g n := by
  cases v <;> simp [PyVal.isNode]

/-- What handing out a node does. -/
structure Handed (s s' : PySt) (g n i : Nat) : Prop where
  ok : PyOk s'
  later : Later s s'
  holds : HoldsNode s' i g n
  held : ∀ j ∈ s.vars, j ∈ s'.vars
  alive : ∀ j, Alive s j → Alive s' j
  vals : ∀ j, j < s.size → s'.val j = s.val j
  fresh : s.size ≤ i → (∀ j, Alive s j → s.val j ≠ .node g n)

theorem castNode_handed {s : PySt} (h : PyOk s) {g n : Nat} (ho : Owned s g n) {parent : List Nat}
    (hp : ∀ j ∈ parent, Alive s j) : Handed s (s.castNode g n parent).1 g n (s.castNode g n parent).2 := by
  unfold PySt.castNode
  cases hf : s.live.find? fun i => (s.val i).isNode g n with
  | some i =>
    have hi := (mem_live h).1 (List.mem_of_find?_eq_some hf)
    have hv : s.val i = .node g n := isNode_iff.1 (by simpa using List.find?_some hf)
    refine ⟨hold_ok h hi, hold_later s _, ⟨List.mem_cons_self, hv⟩, fun j hj => List.mem_cons_of_mem _ hj,
      fun j hj => (hold_alive hi).2 hj, fun _ _ => rfl, ?_⟩
    intro hs
    have := alive_lt h hi
    exact absurd hs (by show ¬ s.size ≤ i; omega)
  | none =>
    have hno : ∀ j, Alive s j → s.val j ≠ .node g n := by
      intro j hj hv
      have := List.find?_eq_none.1 hf j ((mem_live h).2 hj)
      exact this (isNode_iff.2 hv)
    have hl := make_later h (.node g n) parent
    refine ⟨make_ok h hp (later_owned hl ho) ?_, hl, ⟨List.mem_cons_self, ?_⟩, fun j hj => List.mem_cons_of_mem _ hj,
      fun j hj => (make_alive h hp).2 (.inr hj), ?_, fun _ => hno⟩
    · intro g' n' e i hi
      simp only [PyVal.node.injEq] at e
      rw [← e.1, ← e.2]
      exact hno i hi
    · show (if s.size = s.size then PyVal.node g n else _) = _
      rw [if_pos rfl]
    · intro j hj
      show (if j = s.size then PyVal.node g n else s.val j) = _
      rw [if_neg (by omega)]

/-- What handing out a list of nodes does. -/
structure HandedAll (s s' : PySt) (g : Nat) (ns is : List Nat) : Prop where
  ok : PyOk s'
  later : Later s s'
  vals : is.map s'.val = ns.map (PyVal.node g)
  held : ∀ i ∈ is, i ∈ s'.vars
  keeps : ∀ j ∈ s.vars, j ∈ s'.vars
  same : ∀ j, j < s.size → s'.val j = s.val j

theorem castNodes_handed {g : Nat} : ∀ (ns : List Nat) {s : PySt}, PyOk s → (∀ n ∈ ns, Owned s g n) →
    HandedAll s (s.castNodes g ns).1 g ns (s.castNodes g ns).2
  | [], s, h, _ => ⟨h, later_refl s, rfl, by intro i hi; simp [PySt.castNodes] at hi, fun _ hj => hj, fun _ _ => rfl⟩
  | n :: ns, s, h, ho => by
    have h1 := castNode_handed h (ho n (by simp)) (parent := []) (by simp)
    have h2 := castNodes_handed ns h1.ok fun m hm => later_owned h1.later (ho m (by simp [hm]))
    have hsz := h1.later.size
    refine ⟨h2.ok, later_trans h1.later h2.later, ?_, ?_, fun j hj => h2.keeps j (h1.held j hj), ?_⟩
    · show (_ :: _) = _ :: _
      congr 1
      · exact h2.later.node _ g n h1.holds.2
      · exact h2.vals
    · intro i hi
      rcases List.mem_cons.1 hi with e | e
      · rw [e]; exact h2.keeps _ h1.holds.1
      · exact h2.held i e
    · intro j hj
      exact (h2.same j (by omega)).trans (h1.vals j hj)

/-! ### Nodes stay -/

theorem removeEdge_nodes {g g' : DGraph} {s t : Nat} {b : Bool} (h : g.removeEdge s t = some (g', b)) :
    g'.nodes = g.nodes := by
  unfold DGraph.removeEdge at h
  split at h
  · dsimp only at h
    split at h
    · simp only [Option.some.injEq, Prod.mk.injEq] at h
      rw [← h.1]; rfl
    · cases h
  · simp only [Option.some.injEq, Prod.mk.injEq] at h
    rw [← h.1]

theorem removeFrom_nodes {n : Nat} : ∀ (ss : List Nat) {g g' : DGraph}, g.removeFrom n ss = some g' →
    g'.nodes = g.nodes
  | [], g, g', h => by simp only [DGraph.removeFrom, Option.some.injEq] at h; rw [h]
  | s :: ss, g, g', h => by
    simp only [DGraph.removeFrom] at h
    cases hr : g.removeEdge s n with
    | none => rw [hr] at h; cases h
    | some r =>
      rw [hr] at h
      exact (removeFrom_nodes ss h).trans (removeEdge_nodes hr)

theorem dropInEdges_nodes {n : Nat} : ∀ (es : List Edge) (g : DGraph), (g.dropInEdges n es).nodes = g.nodes
  | [], _ => rfl
  | e :: es, g => by
    rw [DGraph.dropInEdges, dropInEdges_nodes es]; rfl

theorem clearAllEdges_nodes {g g' : DGraph} {n : Nat} (h : g.clearAllEdges n = some g') : g'.nodes = g.nodes := by
  simp only [DGraph.clearAllEdges] at h
  split at h
  · cases h
  · rename_i g3 hr
    split at h
    · simp only [Option.some.injEq] at h
      rw [← h, removeFrom_nodes _ hr]
      exact dropInEdges_nodes _ _
    · cases h

theorem addNewEdge_nodes (g : DGraph) (s t : Nat) : (g.addNewEdge s t).1.nodes = g.nodes := rfl

theorem addEdge_nodes (g : DGraph) (s t : Nat) : (g.addEdge s t).1.nodes = g.nodes := by
  unfold DGraph.addEdge
  split <;> rfl

theorem call_keeps_nodes {net net' : NetGraph} {op : NetOp} (hop : op.removes = false)
    (h : net.call op = some net') {n : Nat} (hn : n ∈ net.g.nodes) : n ∈ net'.g.nodes := by
  have key : ∀ gop, op.gop = some gop → (∀ m, gop ≠ .removeNode m) → n ∈ net'.g.nodes := by
    intro gop hg hnr
    simp only [NetGraph.call, hg] at h
    cases hc : net.g.call gop with
    | none => rw [hc] at h; cases h
    | some r =>
      rw [hc] at h
      obtain ⟨g', o⟩ := r
      simp only [Option.some.injEq] at h
      have e : net'.g = g' := by rw [← h]
      rw [e]
      cases gop with
      | addNode =>
        simp only [DGraph.call, Option.some.injEq, Prod.mk.injEq] at hc
        rw [← hc.1]
        exact List.mem_append_left _ hn
      | addEdge s t =>
        simp only [DGraph.call] at hc
        split at hc
        · simp only [Option.some.injEq, Prod.mk.injEq] at hc
          rw [← hc.1, addEdge_nodes]; exact hn
        · cases hc
      | addNewEdge s t =>
        simp only [DGraph.call] at hc
        split at hc
        · simp only [Option.some.injEq, Prod.mk.injEq] at hc
          rw [← hc.1, addNewEdge_nodes]; exact hn
        · cases hc
      | removeEdge s t =>
        simp only [DGraph.call] at hc
        split at hc
        · cases hr : net.g.removeEdge s t with
          | none => rw [hr] at hc; cases hc
          | some r =>
            rw [hr] at hc
            simp only [Option.map_some, Option.some.injEq, Prod.mk.injEq] at hc
            rw [← hc.1, removeEdge_nodes (b := r.2) hr]; exact hn
        · cases hc
      | clearAllEdges m =>
        simp only [DGraph.call] at hc
        split at hc
        · cases hr : net.g.clearAllEdges m with
          | none => rw [hr] at hc; cases hc
          | some r =>
            rw [hr] at hc
            simp only [Option.map_some, Option.some.injEq, Prod.mk.injEq] at hc
            rw [← hc.1, clearAllEdges_nodes hr]; exact hn
        · cases hc
      | removeNode m => exact absurd rfl (hnr m)
  cases op with
  | addNode d => exact key _ rfl (by simp)
  | addEdge s t => exact key _ rfl (by simp)
  | addNewEdge s t => exact key _ rfl (by simp)
  | removeEdge s t => exact key _ rfl (by simp)
  | clearAllEdges m => exact key _ rfl (by simp)
  | removeNode m => simp [NetOp.removes] at hop
  | setAttr e a => simp only [NetGraph.call, NetOp.gop, Option.some.injEq] at h; rw [← h]; exact hn
  | resetIds => simp only [NetGraph.call, NetOp.gop, Option.some.injEq] at h; rw [← h]; exact hn
  | addBlackBox p => simp only [NetGraph.call, NetOp.gop, Option.some.injEq] at h; rw [← h]; exact hn

theorem calls_keep_nodes : ∀ (ops : List NetOp) {net net' : NetGraph}, (∀ op ∈ ops, op.removes = false) →
    net.calls ops = some net' → ∀ n ∈ net.g.nodes, n ∈ net'.g.nodes
  | [], net, net', _, h, n, hn => by simp only [NetGraph.calls, Option.some.injEq] at h; rw [← h]; exact hn
  | op :: ops, net, net', ho, h, n, hn => by
    simp only [NetGraph.calls] at h
    cases hc : net.call op with
    | none => rw [hc] at h; cases h
    | some net1 =>
      rw [hc] at h
      exact calls_keep_nodes ops (fun o hm => ho o (by simp [hm])) h n (call_keeps_nodes (ho op (by simp)) hc hn)

theorem calls_append : ∀ (ops ops' : List NetOp) (net : NetGraph), net.calls (ops ++ ops') =
    (net.calls ops).bind fun n => n.calls ops'
  | [], _, _ => rfl
  | op :: ops, ops', net => by
    simp only [List.cons_append, NetGraph.calls]
    cases net.call op with
    | none => rfl
    | some n => exact calls_append ops ops' n

theorem reachable_calls {net net' : NetGraph} {ops : List NetOp} (hr : Reachable net) (h : net.calls ops = some net') :
    Reachable net' := by
  obtain ⟨ops0, h0⟩ := hr
  exact ⟨ops0 ++ ops, by rw [calls_append, h0]; exact h⟩

/-! ### Queries give nodes of the netlist -/

theorem indexAdd_mem {n : Nat} {p : Str} : ∀ (ix : List (Str × List Nat)) {b : Str × List Nat}, b ∈ indexAdd ix p n →
    ∀ m ∈ b.2, m = n ∨ ∃ c ∈ ix, m ∈ c.2
  | [], b, hb, m, hm => by
    simp only [indexAdd, List.mem_singleton] at hb
    rw [hb] at hm
    exact .inl (by simpa using hm)
  | (q, ns) :: ix, b, hb, m, hm => by
    simp only [indexAdd] at hb
    split at hb
    · rcases List.mem_cons.1 hb with e | e
      · rw [e] at hm
        rcases List.mem_append.1 hm with h | h
        · exact .inr ⟨(q, ns), by simp, h⟩
        · exact .inl (by simpa using h)
      · exact .inr ⟨b, by simp [e], hm⟩
    · rcases List.mem_cons.1 hb with e | e
      · exact .inr ⟨(q, ns), by simp, e ▸ hm⟩
      · rcases indexAdd_mem ix e m hm with h | ⟨c, hc, h⟩
        · exact .inl h
        · exact .inr ⟨c, by simp [hc], h⟩

theorem mkIndex_in {net : NetGraph} : ∀ (ns : List Nat) (ix : List (Str × List Nat)) {b : Str × List Nat},
    b ∈ mkIndex net ns ix → ∀ m ∈ b.2, m ∈ ns ∨ ∃ c ∈ ix, m ∈ c.2
  | [], ix, b, hb, m, hm => .inr ⟨b, hb, hm⟩
  | n :: ns, ix, b, hb, m, hm => by
    simp only [mkIndex] at hb
    split at hb
    · rcases mkIndex_in ns _ hb m hm with h | ⟨c, hc, h⟩
      · exact .inl (by simp [h])
      · rcases indexAdd_mem ix hc m h with h | h
        · exact .inl (by simp [h])
        · exact .inr h
    · rcases mkIndex_in ns _ hb m hm with h | h
      · exact .inl (by simp [h])
      · exact .inr h

theorem ensureIndex_in {ss : Session} (hi : IdxIn ss) : ∀ b ∈ ss.ensureIndex.2, ∀ n ∈ b.2, n ∈ ss.net.g.nodes := by
  intro b hb n hn
  unfold Session.ensureIndex at hb
  cases hx : ss.index with
  | some ix => rw [hx] at hb; exact hi ix hx b hb n hn
  | none =>
    rw [hx] at hb
    rcases mkIndex_in _ _ hb n hn with h | ⟨c, hc, _⟩
    · exact h
    · simp at hc

theorem ensureIndex_net (ss : Session) : ss.ensureIndex.1.net = ss.net := by
  unfold Session.ensureIndex
  cases ss.index <;> rfl

theorem ensureIndex_ok {ss : Session} (hi : IdxIn ss) : IdxIn ss.ensureIndex.1 := by
  intro ix hix b hb n hn
  rw [ensureIndex_net]
  refine ensureIndex_in hi b ?_ n hn
  unfold Session.ensureIndex at hix ⊢
  cases hx : ss.index with
  | some ix' => rw [hx] at hix; simp only [hx, Option.some.injEq] at hix; rw [hix]; exact hb
  | none => rw [hx] at hix; simp only [Option.some.injEq] at hix; rw [hix]; exact hb

theorem lookup_mem {ix : List (Str × List Nat)} {p : Str} {ns : List Nat} (h : ix.lookup p = some ns) :
    ∃ b ∈ ix, b.2 = ns := by
  induction ix with
  | nil => cases h
  | cons b ix ih =>
    obtain ⟨q, ms⟩ := b
    rw [List.lookup_cons] at h
    split at h
    · exact ⟨(q, ms), by simp, by simpa using h⟩
    · obtain ⟨b, hb, e⟩ := ih h
      exact ⟨b, by simp [hb], e⟩

theorem query_in {rx : Str → Str → Bool} {ss : Session} (hr : Reachable ss.net) (hi : IdxIn ss) (q : PyQuery) :
    ∀ n ∈ q.run rx ss, n ∈ ss.net.g.nodes := by
  have hf : ∀ m, ∀ n ∈ ss.findNodes m, n ∈ ss.net.g.nodes := by
    intro m n hn
    obtain ⟨b, hb, h⟩ := List.mem_flatMap.1 hn
    split at h
    · exact ensureIndex_in hi b hb n h
    · simp at h
  intro n hn
  cases q with
  | lookup name =>
    simp only [PyQuery.run, Session.lookup, Option.mem_toList] at hn
    split at hn
    · cases hn
    · rename_i ns hl
      obtain ⟨b, hb, e⟩ := lookup_mem hl
      exact ensureIndex_in hi b hb n (e ▸ List.mem_of_mem_head? hn)
  | lookupByRange name lo hi' =>
    simp only [PyQuery.run, Session.lookupRange] at hn
    split at hn
    · simp at hn
    · rename_i ns hl
      obtain ⟨b, hb, e⟩ := lookup_mem hl
      exact ensureIndex_in hi b hb n (e ▸ (List.mem_filter.1 hn).1)
  | drivers name lo hi' =>
    obtain ⟨e, he, _⟩ := ((getDrivers_exact ss.net hr name ⟨lo, hi'⟩).2 n).1 hn
    exact ((reachable_wf hr).out n e he).2.1
  | find pat => exact hf _ n hn
  | findRegex pat => exact hf _ n hn

theorem reach_in {net : NetGraph} (hw : NetWF net) {R : Nat → Nat → Prop} (hR : ∀ a b, R a b → Step net a b) {a b : Nat}
    (ha : a ∈ net.g.nodes) (h : Reach R a b) : b ∈ net.g.nodes := by
  induction h with
  | refl => exact ha
  | tail _ h _ =>
    obtain ⟨_, e, he, ht, _⟩ := hR _ _ h
    rw [← ht]; exact (hw.out _ e he).2.2

theorem reach_from_in {net : NetGraph} {R : Nat → Nat → Prop} (hR : ∀ a b, R a b → Step net a b) {a b : Nat}
    (hb : b ∈ net.g.nodes) (h : Reach R a b) : a ∈ net.g.nodes := by
  induction h with
  | refl => exact hb
  | tail _ h ih => exact ih (hR _ _ h).1

theorem cone_in {net : NetGraph} (hr : Reachable net) {n : Nat} (hn : n ∈ net.g.nodes) (q : PyCone) :
    ∀ m ∈ q.run net n, m ∈ net.g.nodes := by
  have hw := reachable_wf hr
  have hfi : ∀ m ∈ combFanIn net n, m ∈ net.g.nodes := fun m hm =>
    reach_from_in (fun _ _ h => h.1) hn (((combFanIn_exact net hr n hn).2 m).1 hm)
  intro m hm
  cases q with
  | fanOut => exact reach_in hw (fun _ _ h => h.1) hn (((combFanOut_exact net hr n hn).2 m).1 hm)
  | fanIn => exact hfi m hm
  | constants =>
    simp only [PyCone.run, constantDrivers, constLoop_spec] at hm
    split at hm
    · simp at hm
    · rename_i cs hc
      split at hc
      · cases hc
      · simp only [List.nil_append, Option.some.injEq] at hc
        rw [← hc] at hm
        exact hfi m (List.mem_filter.1 hm).1

theorem sensitivity_in {net : NetGraph} (hr : Reachable net) {n : Nat} (hn : n ∈ net.g.nodes) :
    ∀ m ∈ (sensitivity net n).map Prod.fst, m ∈ net.g.nodes := by
  have hw := reachable_wf hr
  intro m hm
  obtain ⟨⟨s, k⟩, hs, e⟩ := List.mem_map.1 hm
  have hc : ∀ r, ClockedBy net r s k → s ∈ net.g.nodes := fun r ⟨e, he, _⟩ => (hw.out s e he).2.1
  rw [← e]
  by_cases hk : net.kind n = .state
  · exact hc n (((sensitivity_of_register net hr n hk).2 s k).1 hs)
  · obtain ⟨r, _, h⟩ := ((sensitivity_of_comb net hr n hn hk).2 s k).1 hs
    exact hc r h

theorem walk_in {net : NetGraph} (hw : NetWF net) {R : Nat → Nat → Prop} (hR : ∀ a b, R a b → Step net a b) :
    ∀ (l : List Nat), (∀ a, l.head? = some a → a ∈ net.g.nodes) → Walk R l → ∀ x ∈ l, x ∈ net.g.nodes
  | [], _, _, x, hx => by simp at hx
  | [a], h, _, x, hx => by rw [List.mem_singleton.1 hx]; exact h a rfl
  | a :: b :: l, h, hl, x, hx => by
    rcases List.mem_cons.1 hx with e | e
    · rw [e]; exact h a rfl
    · refine walk_in hw hR (b :: l) ?_ hl.2 x e
      intro c hc
      simp only [List.head?_cons, Option.some.injEq] at hc
      obtain ⟨_, ed, he, ht, _⟩ := hR _ _ hl.1
      rw [← hc, ← ht]; exact (hw.out _ ed he).2.2

theorem path_in {net : NetGraph} (hr : Reachable net) {n : Nat} (hn : n ∈ net.g.nodes) (comb : Bool) (m : Nat) :
    ∃ l, (if comb then findComb net n m else findPath net n m) = some l ∧ ∀ x ∈ l, x ∈ net.g.nodes := by
  have hw := reachable_wf hr
  by_cases e : n = m
  · have := path_to_self_is_empty net hr n hn
    refine ⟨[], ?_, by simp⟩
    rw [← e]
    cases comb <;> simp [this]
  · have go : ∀ (R : Nat → Nat → Prop), (∀ a b, R a b → Step net a b) → ∀ l, (l ≠ [] → SimplePath R n m l) →
        ∀ x ∈ l, x ∈ net.g.nodes := by
      intro R hR l hl x hx
      have hne : l ≠ [] := by rintro rfl; simp at hx
      have hp := hl hne
      refine walk_in hw hR l ?_ hp.walk x hx
      intro a ha
      rw [hp.first] at ha
      simp only [Option.some.injEq] at ha
      rw [← ha]; exact hn
    cases comb with
    | true =>
      obtain ⟨l, h1, h2, _⟩ := comb_path_sound_complete net hr n m hn e
      exact ⟨l, by simpa using h1, go (CombStep net) (fun _ _ h => h.1) l fun hne => (h2 hne).1⟩
    | false =>
      obtain ⟨l, h1, h2, _⟩ := path_sound_complete net hr n m hn e
      exact ⟨l, by simpa using h1, go (Step net) (fun _ _ h => h) l h2⟩

/-! ### One call -/

theorem graphOf_iff {s : PySt} {g : Nat} {ss : Session} {b : Nat} : s.graphOf g = some (ss, b) ↔
    g ∈ s.vars ∧ s.val g = .graph ss b := by
  unfold PySt.graphOf
  by_cases hg : g ∈ s.vars
  · rw [if_pos hg]
    cases hv : s.val g <;> simp [hg]
  · rw [if_neg hg]; simp [hg]

theorem graphOf_holds {s : PySt} {g : Nat} : (s.graphOf g).isSome = true ↔ HoldsGraph s g := by
  rw [Option.isSome_iff_exists]
  constructor
  · rintro ⟨⟨ss, b⟩, h⟩
    exact ⟨(graphOf_iff.1 h).1, ss, b, (graphOf_iff.1 h).2⟩
  · rintro ⟨h, ss, b, hv⟩
    exact ⟨(ss, b), graphOf_iff.2 ⟨h, hv⟩⟩

theorem nodeOf_iff {s : PySt} {h g n : Nat} : s.nodeOf h = some (g, n) ↔ HoldsNode s h g n := by
  unfold PySt.nodeOf HoldsNode
  by_cases hg : h ∈ s.vars
  · rw [if_pos hg]
    cases hv : s.val h <;> simp [hg]
  · rw [if_neg hg]; simp [hg]

theorem pathOf_iff {s : PySt} {p : Nat} {ns : List (Nat × Nat)} : s.pathOf p = some ns ↔ HoldsPath s p ns := by
  unfold PySt.pathOf HoldsPath
  by_cases hg : p ∈ s.vars
  · rw [if_pos hg]
    cases hv : s.val p <;> simp [hg]
  · rw [if_neg hg]; simp [hg]

theorem mem_iff {s : PySt} (h : PyOk s) {g : Nat} {ss : Session} : s.mem g = some ss ↔
    Alive s g ∧ ∃ b, s.val g = .graph ss b := by
  unfold PySt.mem
  by_cases ha : Alive s g
  · rw [if_pos ((mem_live h).2 ha)]
    cases hv : s.val g <;> simp [ha]
  · rw [if_neg fun hc => ha ((mem_live h).1 hc)]; simp [ha]

theorem mem_owned {s : PySt} (h : PyOk s) {g n : Nat} (ho : Owned s g n) : (s.mem g).isSome = true ↔ Alive s g := by
  rw [Option.isSome_iff_exists]
  constructor
  · rintro ⟨ss, hm⟩
    exact ((mem_iff h).1 hm).1
  · intro ha
    obtain ⟨ss, b, hv, _⟩ := ho
    exact ⟨ss, (mem_iff h).2 ⟨ha, b, hv⟩⟩

theorem node_owned {s : PySt} (h : PyOk s) {i g n : Nat} (hv : s.val i = .node g n) : Owned s g n := by
  have := h.objs i; rw [hv] at this; exact this

theorem path_owned {s : PySt} (h : PyOk s) {i : Nat} {ns : List (Nat × Nat)} (hv : s.val i = .path ns) :
    ∀ x ∈ ns, Owned s x.1 x.2 := by
  have := h.objs i; rw [hv] at this; exact this

theorem graph_ok {s : PySt} (h : PyOk s) {i b : Nat} {ss : Session} (hv : s.val i = .graph ss b) :
    Reachable ss.net ∧ IdxIn ss := by
  have := h.objs i; rw [hv] at this; exact this

theorem give_handed {s s' : PySt} {r : PyRet} (h : PyOk s) {x : Option (Nat × Nat)} {parent : List Nat}
    (hp : ∀ j ∈ parent, Alive s j) (ho : ∀ y, x = some y → Owned s y.1 y.2) (hg : s.give x parent = some (s', r)) :
    ∃ g n i, x = some (g, n) ∧ r = .objs [i] ∧ Alive s g ∧ Handed s s' g n i ∧ (s', i) = s.castNode g n parent := by
  unfold PySt.give at hg
  cases x with
  | none => cases hg
  | some y =>
    obtain ⟨g, n⟩ := y
    dsimp only at hg
    cases hm : s.mem g with
    | none => rw [hm] at hg; cases hg
    | some ss =>
      rw [hm] at hg
      simp only [Option.some.injEq, Prod.mk.injEq] at hg
      have hh := castNode_handed h (ho (g, n) rfl) hp
      rw [hg.1] at hh
      exact ⟨g, n, _, rfl, hg.2.symm, ((mem_iff h).1 hm).1, hh, by rw [← hg.1]⟩

theorem give_isSome {s : PySt} (h : PyOk s) {x : Option (Nat × Nat)} {parent : List Nat}
    (ho : ∀ y, x = some y → Owned s y.1 y.2) : (s.give x parent).isSome = true ↔ ∃ g n, x = some (g, n) ∧ Alive s g := by
  unfold PySt.give
  cases x with
  | none => simp
  | some y =>
    obtain ⟨g, n⟩ := y
    have := mem_owned h (ho (g, n) rfl)
    dsimp only at this ⊢
    cases hm : s.mem g with
    | none => rw [hm] at this; simpa using this
    | some ss => rw [hm] at this; simpa using this

theorem query_set {s : PySt} (h : PyOk s) {g b : Nat} {ss ss' : Session} (hg : g ∈ s.vars) (hv : s.val g = .graph ss b)
    (hn : ss'.net = ss.net) (hi : IdxIn ss') (hx : ∀ ix, ss.index = some ix → ss'.index = some ix) :
    PyOk (s.set g (.graph ss' b)) ∧ Later s (s.set g (.graph ss' b)) := by
  have hl : Later s (s.set g (.graph ss' b)) := by
    refine set_later ?_ (by simp [hv]) (by simp [hv]) (by simp [hv]) (by simp [hv])
    intro s0 b0 h0
    rw [hv] at h0
    simp only [PyVal.graph.injEq] at h0
    refine ⟨ss', b, rfl, by omega, ?_, ?_⟩
    · intro n hnn
      rw [hn, h0.1]; exact hnn
    · intro ix e
      rw [← h0.1] at e; exact hx ix e
  exact ⟨set_ok h (h.vars g hg) hl ⟨hn ▸ (graph_ok h hv).1, hi⟩ (by simp), hl⟩

theorem query_idx {ss : Session} (hi : IdxIn ss) (q : PyQuery) :
    (if q.indexed then ss.ensureIndex.1 else ss).net = ss.net ∧ IdxIn (if q.indexed then ss.ensureIndex.1 else ss) := by
  split
  · exact ⟨ensureIndex_net ss, ensureIndex_ok hi⟩
  · exact ⟨rfl, hi⟩

theorem query_frozen (ss : Session) (q : PyQuery) :
    ∀ ix, ss.index = some ix → (if q.indexed then ss.ensureIndex.1 else ss).index = some ix := by
  intro ix h
  split
  · simp [Session.ensureIndex, h]
  · exact h

theorem query_handed {s : PySt} (h : PyOk s) {rx : Str → Str → Bool} {g b : Nat} {ss : Session} (hg : g ∈ s.vars)
    (hv : s.val g = .graph ss b) (q : PyQuery) :
    PyOk (s.set g (.graph (if q.indexed then ss.ensureIndex.1 else ss) b)) ∧
    Later s (s.set g (.graph (if q.indexed then ss.ensureIndex.1 else ss) b)) ∧
    HandedAll (s.set g (.graph (if q.indexed then ss.ensureIndex.1 else ss) b))
      ((s.set g (.graph (if q.indexed then ss.ensureIndex.1 else ss) b)).castNodes g (q.run rx ss)).1 g (q.run rx ss)
      ((s.set g (.graph (if q.indexed then ss.ensureIndex.1 else ss) b)).castNodes g (q.run rx ss)).2 := by
  have hok := graph_ok h hv
  obtain ⟨hn, hi⟩ := query_idx hok.2 q
  obtain ⟨h1, h2⟩ := query_set h hg hv hn hi (query_frozen ss q)
  refine ⟨h1, h2, castNodes_handed _ h1 ?_⟩
  intro n hm
  exact later_owned h2 ⟨ss, b, hv, query_in hok.1 hok.2 q n hm⟩

theorem mapM_nodes {s : PySt} : ∀ (hs : List Nat) {ns : List (Nat × Nat)}, hs.mapM s.nodeOf = some ns →
    hs.map s.val = ns.map fun x => .node x.1 x.2
  | [], ns, h => by simp only [List.mapM_nil, Option.pure_def, Option.some.injEq] at h; subst h; rfl
  | a :: hs, ns, h => by
    simp only [List.mapM_cons, Option.bind_eq_bind, Option.pure_def] at h
    cases ha : s.nodeOf a with
    | none => rw [ha] at h; cases h
    | some x =>
      rw [ha] at h
      cases hr : hs.mapM s.nodeOf with
      | none => rw [hr] at h; cases h
      | some ms =>
        rw [hr] at h
        simp only [Option.bind_some, Option.some.injEq] at h
        rw [← h, List.map_cons, List.map_cons, mapM_nodes hs hr]
        obtain ⟨g, n⟩ := x
        rw [(nodeOf_iff.1 ha).2]

theorem make_both {s : PySt} (h : PyOk s) {v : PyVal} {ks : List Nat} (hks : ∀ j ∈ ks, Alive s j)
    (hv : ObjOk (s.make v ks).1 s.size v) (hn : ∀ g n, v ≠ .node g n) :
    PyOk (s.make v ks).1 ∧ Later s (s.make v ks).1 :=
  ⟨make_ok h hks hv (fun g n e => absurd e (hn g n)), make_later h v ks⟩

theorem make_keeps (s : PySt) (v : PyVal) (ks : List Nat) : (s.make v ks).1.keeps s.size = ks := by
  show (if s.size = s.size then ks else _) = ks
  rw [if_pos rfl]

theorem make_val (s : PySt) (v : PyVal) (ks : List Nat) : (s.make v ks).1.val s.size = v := by
  show (if s.size = s.size then v else _) = v
  rw [if_pos rfl]

theorem next_set {s : PySt} (h : PyOk s) {i g pos b : Nat} (hi : i ∈ s.vars) (hv : s.val i = .iter g pos b) :
    PyOk (s.set i (.iter g (pos + 1) b)) ∧ Later s (s.set i (.iter g (pos + 1) b)) := by
  have hl : Later s (s.set i (.iter g (pos + 1) b)) := by
    refine set_later (by simp [hv]) ?_ (by simp [hv]) (by simp [hv]) (by simp [hv])
    intro g' p' b' e
    rw [hv] at e
    simp only [PyVal.iter.injEq] at e
    exact ⟨pos + 1, by rw [e.1, e.2.2]⟩
  refine ⟨set_ok h (h.vars i hi) hl ?_ (by simp), hl⟩
  have ho := h.objs i
  rw [hv] at ho
  obtain ⟨h1, ss, b', h2⟩ := ho
  obtain ⟨ss', b'', h3, _⟩ := hl.graph g ss b' h2
  exact ⟨h1, ss', b'', h3⟩

theorem pathNext_set {s : PySt} (h : PyOk s) {i p pos : Nat} (hi : i ∈ s.vars) (hv : s.val i = .pathIter p pos) :
    PyOk (s.set i (.pathIter p (pos + 1))) ∧ Later s (s.set i (.pathIter p (pos + 1))) := by
  have hl : Later s (s.set i (.pathIter p (pos + 1))) := by
    refine set_later (by simp [hv]) (by simp [hv]) ?_ (by simp [hv]) (by simp [hv])
    intro p' k' e
    rw [hv] at e
    simp only [PyVal.pathIter.injEq] at e
    exact ⟨pos + 1, by rw [e.1]⟩
  refine ⟨set_ok h (h.vars i hi) hl ?_ (by simp), hl⟩
  have ho := h.objs i
  rw [hv] at ho
  obtain ⟨h1, ns, h2⟩ := ho
  have hp : p < s.size := by
    have := h.older i p (by rw [h1]; simp)
    have := h.vars i hi
    omega
  exact ⟨h1, ns, hl.path p ns hp h2⟩

theorem set_alive {s : PySt} {i j : Nat} {v : PyVal} : Alive (s.set i v) j ↔ Alive s j :=
  alive_congr (s := s) (s' := s.set i v) rfl rfl

theorem pyStep_ok {rx : Str → Str → Bool} {s s' : PySt} {op : PyOp} {r : PyRet} (h : PyOk s)
    (hs : s.step rx op = some (s', r)) : PyOk s' ∧ Later s s' := by
  have same : ∀ {x : PyRet}, some (s, x) = some (s', r) → PyOk s' ∧ Later s s' := by
    intro x e
    simp only [Option.some.injEq, Prod.mk.injEq] at e
    rw [← e.1]; exact ⟨h, later_refl s⟩
  have giv : ∀ {s1 : PySt} {x : Option (Nat × Nat)} {parent : List Nat}, PyOk s1 → Later s s1 →
      (∀ j ∈ parent, Alive s1 j) → (∀ y, x = some y → Owned s1 y.1 y.2) → s1.give x parent = some (s', r) →
      PyOk s' ∧ Later s s' := by
    intro s1 x parent h1 hl hp ho hg
    obtain ⟨g, n, i, _, _, _, hh, _⟩ := give_handed h1 hp ho hg
    exact ⟨hh.ok, later_trans hl hh.later⟩
  cases op with
  | newGraph =>
    simp only [PySt.step, Option.some.injEq, Prod.mk.injEq] at hs
    rw [← hs.1]
    exact make_both h (by simp) ⟨⟨[], rfl⟩, by intro ix hx; cases hx⟩ (by simp)
  | build g ops =>
    simp only [PySt.step] at hs
    split at hs
    · exact same hs
    · rename_i ss b hg
      obtain ⟨hgm, hgv⟩ := graphOf_iff.1 hg
      split at hs
      · exact same hs
      · rename_i hno
        split at hs
        · cases hs
        · rename_i net hc
          simp only [Option.some.injEq, Prod.mk.injEq] at hs
          rw [← hs.1]
          have hrem : ∀ op ∈ ops, op.removes = false := by
            intro op hop
            cases hx : op.removes with
            | false => rfl
            | true => exact absurd (List.any_eq_true.2 ⟨op, hop, hx⟩) hno
          have hkeep := calls_keep_nodes ops hrem hc
          have hl : Later s (s.set g (.graph { ss with net := net } (b + 1))) := by
            refine set_later ?_ (by simp [hgv]) (by simp [hgv]) (by simp [hgv]) (by simp [hgv])
            intro s0 b0 h0
            rw [hgv] at h0
            simp only [PyVal.graph.injEq] at h0
            refine ⟨_, _, rfl, by omega, ?_, ?_⟩
            · intro n hn
              rw [← h0.1] at hn
              exact hkeep n hn
            · intro ix e
              rw [← h0.1] at e; exact e
          have hok := graph_ok h hgv
          refine ⟨set_ok h (h.vars g hgm) hl ⟨reachable_calls hok.1 hc, ?_⟩ (by simp), hl⟩
          intro ix hx bk hb n hn
          exact hkeep n (hok.2 ix hx bk hb n hn)
  | query g q =>
    simp only [PySt.step] at hs
    split at hs
    · exact same hs
    · rename_i ss b hg
      obtain ⟨hgm, hgv⟩ := graphOf_iff.1 hg
      simp only [Option.some.injEq, Prod.mk.injEq] at hs
      obtain ⟨_, h2, h3⟩ := query_handed (rx := rx) h hgm hgv q
      rw [hs.1] at h3
      exact ⟨h3.ok, later_trans h2 h3.later⟩
  | cone g q x =>
    simp only [PySt.step] at hs
    split at hs
    · rename_i k n _ hx
      split at hs
      · cases hs
      · rename_i ss hm
        simp only [Option.some.injEq, Prod.mk.injEq] at hs
        obtain ⟨_, b, hkv⟩ := (mem_iff h).1 hm
        obtain ⟨ss', b', hv', hn⟩ := node_owned h (nodeOf_iff.1 hx).2
        rw [hkv] at hv'
        simp only [PyVal.graph.injEq] at hv'
        have hh := castNodes_handed (q.run ss.net n) h fun m hmm =>
          ⟨ss, b, hkv, cone_in (graph_ok h hkv).1 (by rw [hv'.1]; exact hn) q m hmm⟩
        rw [hs.1] at hh
        exact ⟨hh.ok, hh.later⟩
    · exact same hs
  | sensitivity g x =>
    simp only [PySt.step] at hs
    split at hs
    · rename_i k n _ hx
      split at hs
      · cases hs
      · rename_i ss hm
        simp only [Option.some.injEq, Prod.mk.injEq] at hs
        obtain ⟨_, b, hkv⟩ := (mem_iff h).1 hm
        obtain ⟨ss', b', hv', hn⟩ := node_owned h (nodeOf_iff.1 hx).2
        rw [hkv] at hv'
        simp only [PyVal.graph.injEq] at hv'
        have hh := castNodes_handed ((Verif.Model.sensitivity ss.net n).map Prod.fst) h fun m hmm =>
          ⟨ss, b, hkv, sensitivity_in (graph_ok h hkv).1 (by rw [hv'.1]; exact hn) m hmm⟩
        rw [hs.1] at hh
        exact ⟨hh.ok, hh.later⟩
    · exact same hs
  | counts g =>
    simp only [PySt.step] at hs
    split at hs <;> exact same hs
  | iter i =>
    simp only [PySt.step] at hs
    split at hs
    · rename_i _ _ ss b hg
      obtain ⟨hgm, hgv⟩ := graphOf_iff.1 hg
      simp only [Option.some.injEq, Prod.mk.injEq] at hs
      rw [← hs.1]
      refine make_both h (by simpa using Alive.var hgm) ⟨make_keeps s _ _, ?_⟩ (by simp)
      obtain ⟨ss', b', h3, _⟩ := (make_later h (.iter i 0 b) [i]).graph i _ _ hgv
      exact ⟨ss', b', h3⟩
    · rename_i ns _ hp
      obtain ⟨hpm, hpv⟩ := pathOf_iff.1 hp
      simp only [Option.some.injEq, Prod.mk.injEq] at hs
      rw [← hs.1]
      refine make_both h (by simpa using Alive.var hpm) ⟨make_keeps s _ _, ns, ?_⟩ (by simp)
      exact (make_later h (.pathIter i 0) [i]).path i ns (h.vars i hpm) hpv
    · exact same hs
  | next i =>
    simp only [PySt.step] at hs
    split at hs
    · rename_i hi
      split at hs
      · rename_i g pos b hv
        split at hs
        · rename_i ss b' hgv
          split at hs
          · split at hs
            · exact same hs
            · rename_i n hn
              obtain ⟨h1, h2⟩ := next_set h hi hv
              refine giv h1 h2 (by simpa using (set_alive.2 (Alive.var hi))) ?_ hs
              intro y hy
              simp only [Option.some.injEq] at hy
              rw [← hy]
              exact later_owned h2 ⟨ss, b', hgv, List.mem_of_getElem? hn⟩
          · cases hs
        · cases hs
      · rename_i p pos hv
        split at hs
        · rename_i ns hpv
          split at hs
          · split at hs
            · exact same hs
            · rename_i x hx
              obtain ⟨h1, h2⟩ := pathNext_set h hi hv
              refine giv h1 h2 (by simpa using (set_alive.2 (Alive.var hi))) ?_ hs
              intro y hy
              simp only [Option.some.injEq] at hy
              rw [← hy]
              exact later_owned h2 (path_owned h hpv x (List.mem_of_getElem? hx))
          · cases hs
        · cases hs
      · exact same hs
    · exact same hs
  | findPath comb a b =>
    simp only [PySt.step] at hs
    split at hs
    · rename_i g n k m ha hb
      split at hs
      · rename_i ss _ hm _
        split at hs
        · cases hs
        · rename_i l hl
          simp only [Option.some.injEq, Prod.mk.injEq] at hs
          rw [← hs.1]
          refine make_both h (by simp) ?_ (by simp)
          intro x hx
          obtain ⟨y, hy, e⟩ := List.mem_map.1 hx
          rw [← e]
          obtain ⟨_, bb, hgv⟩ := (mem_iff h).1 hm
          refine later_owned (make_later h _ _) ⟨ss, bb, hgv, ?_⟩
          obtain ⟨ss', b', hv', hn⟩ := node_owned h (nodeOf_iff.1 ha).2
          rw [hgv] at hv'
          simp only [PyVal.graph.injEq] at hv'
          obtain ⟨l', hl', hin⟩ := path_in (graph_ok h hgv).1 (by rw [hv'.1]; exact hn) comb m
          split at hl
          · simp only [Option.some.injEq] at hl; rw [← hl] at hy; simp at hy
          · rw [hl'] at hl
            simp only [Option.some.injEq] at hl
            exact hin y (by rw [hl]; exact hy)
      · cases hs
    · exact same hs
  | newPath hs' =>
    simp only [PySt.step] at hs
    split at hs
    · exact same hs
    · rename_i ns hm
      simp only [Option.some.injEq, Prod.mk.injEq] at hs
      rw [← hs.1]
      refine make_both h (by simp) ?_ (by simp)
      intro x hx
      have hv : PyVal.node x.1 x.2 ∈ hs'.map s.val := by
        rw [mapM_nodes hs' hm]
        exact List.mem_map.2 ⟨x, hx, rfl⟩
      obtain ⟨i, _, e⟩ := List.mem_map.1 hv
      exact later_owned (make_later h _ _) (node_owned h e)
  | len p =>
    simp only [PySt.step] at hs
    split at hs <;> exact same hs
  | front p =>
    simp only [PySt.step] at hs
    split at hs
    · exact same hs
    · rename_i ns hp
      refine giv h (later_refl s) (by simp) ?_ hs
      intro y hy
      exact path_owned h (pathOf_iff.1 hp).2 y (List.mem_of_mem_head? hy)
  | back p =>
    simp only [PySt.step] at hs
    split at hs
    · exact same hs
    · rename_i ns hp
      refine giv h (later_refl s) (by simp) ?_ hs
      intro y hy
      exact path_owned h (pathOf_iff.1 hp).2 y (List.mem_of_getLast? hy)
  | item p i =>
    simp only [PySt.step] at hs
    split at hs
    · exact same hs
    · rename_i ns hp
      refine giv h (later_refl s) (by simp) ?_ hs
      intro y hy
      exact path_owned h (pathOf_iff.1 hp).2 y (List.mem_of_getElem? hy)
  | read x =>
    simp only [PySt.step] at hs
    split at hs
    · exact same hs
    · split at hs
      · cases hs
      · exact same hs
  | drop i =>
    simp only [PySt.step] at hs
    split at hs
    · simp only [Option.some.injEq, Prod.mk.injEq] at hs
      rw [← hs.1]
      exact ⟨pyDrop_ok h i, hold_later s _⟩
    · exact same hs

theorem empty_ok : PyOk {} :=
  ⟨by simp, by simp, by simp, by intro i x hx; simp at hx, by intro i j g n _ _ h; simp at h⟩

theorem run_ok {rx : Str → Str → Bool} : ∀ (ops : List PyOp) {s s' : PySt}, PyOk s → s.run rx ops = some s' →
    PyOk s' ∧ Later s s'
  | [], s, s', h, hr => by
    simp only [PySt.run, Option.some.injEq] at hr
    rw [← hr]; exact ⟨h, later_refl s⟩
  | op :: ops, s, s', h, hr => by
    simp only [PySt.run] at hr
    cases hs : s.step rx op with
    | none => rw [hs] at hr; cases hr
    | some r =>
      rw [hs] at hr
      obtain ⟨h1, h2⟩ := pyStep_ok h hs
      obtain ⟨h3, h4⟩ := run_ok ops h1 hr
      exact ⟨h3, later_trans h2 h4⟩

theorem ran_ok {rx : Str → Str → Bool} {s : PySt} (h : PyRan rx s) : PyOk s := by
  obtain ⟨ops, hr⟩ := h
  exact (run_ok ops empty_ok hr).1

/-! ### What handles keep -/

theorem castNode_keeps (s : PySt) (g n : Nat) (parent : List Nat) (h : PyOk s) :
    (s.size ≤ (s.castNode g n parent).2 → (s.castNode g n parent).1.keeps (s.castNode g n parent).2 = parent) ∧
    ((s.castNode g n parent).1.size ≤ s.size + 1) ∧
    ((s.castNode g n parent).1.size = s.size + 1 → (s.castNode g n parent).2 = s.size) := by
  unfold PySt.castNode
  cases hf : s.live.find? fun i => (s.val i).isNode g n with
  | some i =>
    have hi := alive_lt h ((mem_live h).1 (List.mem_of_find?_eq_some hf))
    refine ⟨fun hc => absurd hc (by show ¬ s.size ≤ i; omega), Nat.le_succ _, ?_⟩
    intro hc
    have hc' : s.size = s.size + 1 := hc
    omega
  | none => exact ⟨fun _ => make_keeps s _ _, Nat.le_refl _, fun _ => rfl⟩

theorem castNodes_keeps {g : Nat} : ∀ (ns : List Nat) {s : PySt}, PyOk s → (∀ n ∈ ns, Owned s g n) →
    ∀ i ∈ (s.castNodes g ns).2, s.size ≤ i → (s.castNodes g ns).1.keeps i = []
  | [], s, _, _, i, hi, _ => by simp [PySt.castNodes] at hi
  | n :: ns, s, h, ho, i, hi, hs => by
    have h1 := castNode_handed h (ho n (by simp)) (parent := []) (by simp)
    have hon : ∀ m ∈ ns, Owned (s.castNode g n []).1 g m := fun m hm => later_owned h1.later (ho m (by simp [hm]))
    have h2 := castNodes_handed ns h1.ok hon
    obtain ⟨k1, k2, k3⟩ := castNode_keeps s g n [] h
    have hfirst : i = (s.castNode g n []).2 → (s.castNodes g (n :: ns)).1.keeps i = [] := by
      intro e
      rw [e] at hs ⊢
      exact (h2.later.keeps _ (h1.ok.vars _ h1.holds.1)).trans (k1 hs)
    rcases List.mem_cons.1 hi with e | e
    · exact hfirst e
    · by_cases hb : (s.castNode g n []).1.size ≤ i
      · exact castNodes_keeps ns h1.ok hon i e hb
      · have hsz := h1.later.size
        have he : (s.castNode g n []).1.size = s.size + 1 := by omega
        exact hfirst (by rw [k3 he]; omega)

/-- Giving up a list of references. -/
theorem drops_run {rx : Str → Str → Bool} : ∀ (l : List Nat) (s : PySt), s.run rx (l.map .drop) =
    some { s with vars := l.foldl (fun v i => v.erase i) s.vars }
  | [], s => rfl
  | i :: l, s => by
    simp only [List.map_cons, PySt.run, PySt.step]
    by_cases hi : i ∈ s.vars
    · rw [if_pos hi]
      dsimp only
      rw [drops_run l]
      rfl
    · rw [if_neg hi]
      dsimp only
      rw [drops_run l, List.foldl_cons, List.erase_of_not_mem hi]

theorem pyRun_append {rx : Str → Str → Bool} : ∀ (a b : List PyOp) (s : PySt), s.run rx (a ++ b) =
    (s.run rx a).bind fun t => t.run rx b
  | [], _, _ => rfl
  | op :: a, b, s => by
    simp only [List.cons_append, PySt.run]
    cases s.step rx op with
    | none => rfl
    | some r => exact pyRun_append a b r.1

theorem erase_all {h : Nat} : ∀ (l v : List Nat), (∀ x ∈ v, x ≠ h → v.count x ≤ l.count x) → (∀ x ∈ l, x ≠ h) → h ∈ v →
    (∀ x ∈ l.foldl (fun v i => v.erase i) v, x = h) ∧ h ∈ l.foldl (fun v i => v.erase i) v
  | [], v, hc, _, hv => by
    refine ⟨?_, hv⟩
    intro x hx
    refine Classical.byContradiction fun hn => ?_
    have := hc x hx hn
    have h2 : 0 < v.count x := List.count_pos_iff.2 hx
    have h3 : ([] : List Nat).count x = 0 := rfl
    omega
  | i :: l, v, hc, hl, hv => by
    rw [List.foldl_cons]
    refine erase_all l (v.erase i) ?_ (fun x hx => hl x (by simp [hx])) ?_
    · intro x hx hn
      have hx' := List.mem_of_mem_erase hx
      have := hc x hx' hn
      rw [List.count_erase]
      rw [List.count_cons] at this
      by_cases e : i = x
      · simp [e] at this ⊢; omega
      · have e' : ¬ x = i := fun h => e h.symm
        simp [e, e'] at this ⊢
        omega
    · exact (List.mem_erase_of_ne (Ne.symm (hl i (by simp)))).2 hv

/-- A handle that keeps nothing can be left alone by dropping all else. -/
theorem bare_handle {rx : Str → Str → Bool} {s : PySt} (h : PyOk s) {i g n : Nat} (hi : HoldsNode s i g n)
    (hk : s.keeps i = []) : s.run rx ((s.vars.filter (· != i)).map .drop ++ [.read i]) = none := by
  obtain ⟨ha, hb⟩ := erase_all (h := i) (s.vars.filter (· != i)) s.vars (by
    intro x _ hn
    rw [List.count_filter (by simpa using hn)]
    exact Nat.le_refl _) (by intro x hx; simpa using (List.mem_filter.1 hx).2) hi.1
  rw [pyRun_append, drops_run]
  have hok : PyOk { s with vars := (s.vars.filter (· != i)).foldl (fun v i => v.erase i) s.vars } :=
    (run_ok (rx := rx) _ h (drops_run _ s)).1
  generalize hv : (s.vars.filter (· != i)).foldl (fun v i => v.erase i) s.vars = vs at *
  have hal : ∀ k, Alive { s with vars := vs } k → k = i := by
    intro k hk'
    induction hk' with
    | var hm => exact ha _ hm
    | kept _ hm ih =>
      have hm' := hm
      rw [ih] at hm'
      have : (_ : Nat) ∈ s.keeps i := hm'
      rw [hk] at this
      simp at this
  simp only [Option.bind_some, PySt.run, PySt.step]
  have hnode : PySt.nodeOf { s with vars := vs } i = some (g, n) := nodeOf_iff.2 ⟨hb, hi.2⟩
  rw [hnode]
  dsimp only
  have hmem : PySt.mem { s with vars := vs } g = none := by
    cases hm : PySt.mem { s with vars := vs } g with
    | none => rfl
    | some ss =>
      obtain ⟨hA, b, hv'⟩ := (mem_iff hok).1 hm
      have e := hal g hA
      have hv'' : s.val g = .graph ss b := hv'
      rw [e, hi.2] at hv''
      cases hv''
  rw [hmem]

/-! ### Iterations -/

theorem nexts_all {rx : Str → Str → Bool} {it g b : Nat} {ss : Session} : ∀ (rest : List Nat) {s : PySt} {pos : Nat},
    PyOk s → it ∈ s.vars → s.val it = .iter g pos b → s.val g = .graph ss b → ss.net.g.nodes.drop pos = rest →
    ∃ s2 is, nexts rx it rest.length s = some (s2, is) ∧ is.map s2.val = rest.map (PyVal.node g) ∧ PyOk s2 ∧
      Later s s2 ∧ (∀ i ∈ is, i ∈ s2.vars) ∧ (∀ i ∈ s.vars, i ∈ s2.vars) ∧
      s2.step rx (.next it) = some (s2, .stop)
  | [], s, pos, h, hi, hv, hg, hd => by
    refine ⟨s, [], rfl, rfl, h, later_refl s, by simp, fun _ hi => hi, ?_⟩
    have ho := h.objs it
    rw [hv] at ho
    have hal : g ∈ s.live := (mem_live h).2 (.kept (.var hi) (by rw [ho.1]; simp))
    have hnone : ss.net.g.nodes[pos]? = none := by
      rw [List.getElem?_eq_none_iff]
      exact List.drop_eq_nil_iff.1 hd
    simp only [PySt.step]
    rw [if_pos hi, hv]
    dsimp only
    rw [hg]
    dsimp only
    rw [if_pos ⟨hal, rfl⟩, hnone]
  | n :: rest, s, pos, h, hi, hv, hg, hd => by
    have ho := h.objs it
    rw [hv] at ho
    have hAl : Alive s g := .kept (.var hi) (by rw [ho.1]; simp)
    have hal : g ∈ s.live := (mem_live h).2 hAl
    have hn : ss.net.g.nodes[pos]? = some n := by
      have := congrArg List.head? hd
      rw [List.head?_drop] at this
      simpa using this
    obtain ⟨h1, h2⟩ := next_set h hi hv
    have hgi : g ≠ it := by rintro rfl; rw [hg] at hv; cases hv
    have hgv1 : (s.set it (.iter g (pos + 1) b)).val g = .graph ss b := by
      show (if g = it then _ else s.val g) = _
      rw [if_neg hgi]; exact hg
    have hown : Owned (s.set it (.iter g (pos + 1) b)) g n := ⟨ss, b, hgv1, List.mem_of_getElem? hn⟩
    have hstep : s.step rx (.next it) = (s.set it (.iter g (pos + 1) b)).give (some (g, n)) [it] := by
      simp only [PySt.step]
      rw [if_pos hi, hv]
      dsimp only
      rw [hg]
      dsimp only
      rw [if_pos ⟨hal, rfl⟩, hn]
    have hgive : ((s.set it (.iter g (pos + 1) b)).give (some (g, n)) [it]).isSome = true := by
      rw [give_isSome h1 (by intro y hy; simp only [Option.some.injEq] at hy; rw [← hy]; exact hown)]
      exact ⟨g, n, rfl, set_alive.2 hAl⟩
    obtain ⟨⟨s1, r⟩, hr⟩ := Option.isSome_iff_exists.1 hgive
    obtain ⟨g', n', i, hx, hri, _, hh, _⟩ := give_handed h1 (by simpa using (set_alive.2 (Alive.var hi)))
      (by intro y hy; simp only [Option.some.injEq] at hy; rw [← hy]; exact hown) hr
    simp only [Option.some.injEq, Prod.mk.injEq] at hx
    rw [← hx.1, ← hx.2] at hh
    have hlt : it < s.size := h.vars it hi
    have hglt : g < s.size := alive_lt h hAl
    have hv1 : s1.val it = .iter g (pos + 1) b := by
      rw [hh.vals it hlt]
      show (if it = it then _ else _) = _
      rw [if_pos rfl]
    have hg1 : s1.val g = .graph ss b := by rw [hh.vals g hglt]; exact hgv1
    have hd1 : ss.net.g.nodes.drop (pos + 1) = rest := by
      have := congrArg List.tail hd
      rw [List.tail_drop] at this
      simpa using this
    obtain ⟨s2, is, q1, q2, q3, q4, q5, q6, q7⟩ := nexts_all rest hh.ok (hh.held it hi) hv1 hg1 hd1
    refine ⟨s2, i :: is, ?_, ?_, q3, later_trans h2 (later_trans hh.later q4), ?_, fun j hj => q6 j (hh.held j hj), q7⟩
    · simp only [List.length_cons, nexts]
      rw [hstep, hr, hri]
      dsimp only
      rw [q1]; rfl
    · rw [List.map_cons, List.map_cons, q2, q4.node i g n hh.holds.2]
    · intro j hj
      rcases List.mem_cons.1 hj with e | e
      · rw [e]; exact q6 i hh.holds.1
      · exact q5 j e

theorem nexts_path {rx : Str → Str → Bool} {it p : Nat} {ns : List (Nat × Nat)} : ∀ (rest : List (Nat × Nat)) {s : PySt}
    {pos : Nat}, PyOk s → it ∈ s.vars → s.val it = .pathIter p pos → s.val p = .path ns → ns.drop pos = rest →
    (∀ x ∈ rest, Alive s x.1) →
    ∃ s2 is, nexts rx it rest.length s = some (s2, is) ∧ is.map s2.val = rest.map (fun x => .node x.1 x.2) ∧
      Later s s2 ∧ (∀ i ∈ is, i ∈ s2.vars) ∧ (∀ i ∈ s.vars, i ∈ s2.vars) ∧
      s2.step rx (.next it) = some (s2, .stop)
  | [], s, pos, h, hi, hv, hp, hd, _ => by
    refine ⟨s, [], rfl, rfl, later_refl s, by simp, fun _ hi => hi, ?_⟩
    have ho := h.objs it
    rw [hv] at ho
    have hal : p ∈ s.live := (mem_live h).2 (.kept (.var hi) (by rw [ho.1]; simp))
    have hnone : ns[pos]? = none := by
      rw [List.getElem?_eq_none_iff]
      exact List.drop_eq_nil_iff.1 hd
    simp only [PySt.step]
    rw [if_pos hi, hv]
    dsimp only
    rw [hp]
    dsimp only
    rw [if_pos hal, hnone]
  | x :: rest, s, pos, h, hi, hv, hp, hd, hA => by
    have ho := h.objs it
    rw [hv] at ho
    have hAp : Alive s p := .kept (.var hi) (by rw [ho.1]; simp)
    have hal : p ∈ s.live := (mem_live h).2 hAp
    have hn : ns[pos]? = some x := by
      have := congrArg List.head? hd
      rw [List.head?_drop] at this
      simpa using this
    obtain ⟨h1, h2⟩ := pathNext_set h hi hv
    have hgi : p ≠ it := by rintro rfl; rw [hp] at hv; cases hv
    have hpv1 : (s.set it (.pathIter p (pos + 1))).val p = .path ns := by
      show (if p = it then _ else s.val p) = _
      rw [if_neg hgi]; exact hp
    have hown : ∀ y, some x = some y → Owned (s.set it (.pathIter p (pos + 1))) y.1 y.2 := by
      intro y hy
      simp only [Option.some.injEq] at hy
      rw [← hy]
      exact path_owned h1 hpv1 x (List.mem_of_getElem? hn)
    have hstep : s.step rx (.next it) = (s.set it (.pathIter p (pos + 1))).give (some x) [it] := by
      simp only [PySt.step]
      rw [if_pos hi, hv]
      dsimp only
      rw [hp]
      dsimp only
      rw [if_pos hal, hn]
    obtain ⟨⟨s1, r⟩, hr⟩ := Option.isSome_iff_exists.1 ((give_isSome h1 (parent := [it]) hown).2
      ⟨x.1, x.2, rfl, set_alive.2 (hA x (by simp))⟩)
    obtain ⟨g', n', i, hx, hri, _, hh, _⟩ := give_handed h1 (by simpa using (set_alive.2 (Alive.var hi))) hown hr
    simp only [Option.some.injEq] at hx
    have hv1 : s1.val it = .pathIter p (pos + 1) := by
      rw [hh.vals it (h.vars it hi)]
      show (if it = it then _ else _) = _
      rw [if_pos rfl]
    have hp1 : s1.val p = .path ns := by rw [hh.vals p (alive_lt h hAp)]; exact hpv1
    have hd1 : ns.drop (pos + 1) = rest := by
      have := congrArg List.tail hd
      rw [List.tail_drop] at this
      simpa using this
    obtain ⟨s2, is, q1, q2, q4, q5, q6, q7⟩ := nexts_path rest hh.ok (hh.held it hi) hv1 hp1 hd1
      fun y hy => hh.alive _ (set_alive.2 (hA y (by simp [hy])))
    refine ⟨s2, i :: is, ?_, ?_, later_trans h2 (later_trans hh.later q4), ?_, fun j hj => q6 j (hh.held j hj), q7⟩
    · simp only [List.length_cons, nexts]
      rw [hstep, hr, hri]
      dsimp only
      rw [q1]; rfl
    · rw [List.map_cons, List.map_cons, q2, q4.node i g' n' hh.holds.2, hx]
    · intro j hj
      rcases List.mem_cons.1 hj with e | e
      · rw [e]; exact q6 i hh.holds.1
      · exact q5 j e

end Verif.Proofs
