import Verif.Proofs.Script
import Verif.Proofs.DataflowBase

/-!
The graph while several blocks are analysed, compared with the graphs in which each of them is analysed
alone.
-/
namespace Verif.Proofs
open Verif.Model Verif.Spec Verif.Props

/-- One value of a function changed. -/
def upd {α : Type} (f : Nat → α) (w : Nat) (a : α) : Nat → α := fun v => if v = w then a else f v

theorem upd_same {α : Type} (f : Nat → α) (w : Nat) (a : α) : upd f w a w = a := by simp [upd]

theorem upd_ne {α : Type} (f : Nat → α) {w v : Nat} (a : α) (h : v ≠ w) : upd f w a v = f v := by
  simp [upd, h]

/-- The node `x` of one graph stands for the node `p` of another: both are the same node below `N`, or
they have the same position in the lists of nodes of the block. -/
def Corr (N : Nat) (E env : List Nat) (p x : Nat) : Prop :=
  (p < N ∧ x = p) ∨ ∃ i : Nat, E[i]? = some p ∧ env[i]? = some x

theorem Corr.mono {N : Nat} {E env : List Nat} {p x : Nat} (h : Corr N E env p x) (ps xs : List Nat)
    (hl : env.length = E.length) : Corr N (E ++ ps) (env ++ xs) p x := by
  rcases h with h | ⟨i, h1, h2⟩
  · exact Or.inl h
  · refine Or.inr ⟨i, ?_, ?_⟩
    · rw [List.getElem?_append_left (List.getElem?_eq_some_iff.1 h1).1]; exact h1
    · rw [List.getElem?_append_left (List.getElem?_eq_some_iff.1 h2).1]; exact h2

/-- The graph of all blocks and the graphs of the blocks alone. -/
structure GInv (n0 n : NetGraph) (envs : Nat → List Nat) (M : Nat → NetGraph) (E : Nat → List Nat) : Prop where
  reach : Reachable n
  sreach : ∀ w, Reachable (M w)
  base : ∀ k ∈ n0.g.nodes, k ∈ n.g.nodes ∧ k < n0.g.nextNode
  sbase : ∀ w, ∀ k ∈ n0.g.nodes, k ∈ (M w).g.nodes
  next : n0.g.nextNode ≤ n.g.nextNode
  snext : ∀ w, n0.g.nextNode ≤ (M w).g.nextNode
  own : ∀ w, ∀ x ∈ envs w, x ∈ n.g.nodes ∧ n0.g.nextNode ≤ x
  sown : ∀ w, ∀ p ∈ E w, p ∈ (M w).g.nodes ∧ n0.g.nextNode ≤ p
  nodes : ∀ k ∈ n.g.nodes, k ∈ n0.g.nodes ∨ ∃ w, k ∈ envs w
  nodup : ∀ w, (envs w).Nodup
  snodup : ∀ w, (E w).Nodup
  disj : ∀ w v x, x ∈ envs w → x ∈ envs v → w = v
  len : ∀ w, (envs w).length = (E w).length
  dataB : ∀ k, k < n0.g.nextNode → n.data k = n0.data k
  sdataB : ∀ w k, k < n0.g.nextNode → (M w).data k = n0.data k
  data : ∀ w (i p x : Nat), (E w)[i]? = some p → (envs w)[i]? = some x → n.data x = (M w).data p
  ann : ∀ w p q x y, Corr n0.g.nextNode (E w) (envs w) p x → Corr n0.g.nextNode (E w) (envs w) q y →
    annots n x y = annots (M w) p q
  cross : ∀ w v x y, w ≠ v → x ∈ envs w → y ∈ envs v → annots n x y = []

theorem nodup_get {l : List Nat} (h : l.Nodup) {i j x : Nat} (hi : l[i]? = some x) (hj : l[j]? = some x) :
    i = j := by
  obtain ⟨h1, h2⟩ := List.getElem?_eq_some_iff.1 hi
  obtain ⟨h3, h4⟩ := List.getElem?_eq_some_iff.1 hj
  refine Classical.byContradiction fun hne => ?_
  rcases Nat.lt_or_gt_of_ne hne with hlt | hlt
  · exact List.pairwise_iff_getElem.1 h i j h1 h3 hlt (h2.trans h4.symm)
  · exact List.pairwise_iff_getElem.1 h j i h3 h1 hlt (h4.trans h2.symm)

variable {n0 n : NetGraph} {envs : Nat → List Nat} {M : Nat → NetGraph} {E : Nat → List Nat}

theorem GInv.corr_fun (h : GInv n0 n envs M E) {w p x x' : Nat}
    (h1 : Corr n0.g.nextNode (E w) (envs w) p x) (h2 : Corr n0.g.nextNode (E w) (envs w) p x') : x = x' := by
  rcases h1 with ⟨a, b⟩ | ⟨i, a, b⟩
  · rcases h2 with ⟨c, d⟩ | ⟨j, c, d⟩
    · rw [b, d]
    · have := (h.sown w p (List.mem_of_getElem? c)).2; omega
  · rcases h2 with ⟨c, d⟩ | ⟨j, c, d⟩
    · have := (h.sown w p (List.mem_of_getElem? a)).2; omega
    · have := nodup_get (h.snodup w) a c
      subst this
      rw [b] at d
      exact Option.some.inj d

theorem GInv.corr_inj (h : GInv n0 n envs M E) {w p p' x : Nat}
    (h1 : Corr n0.g.nextNode (E w) (envs w) p x) (h2 : Corr n0.g.nextNode (E w) (envs w) p' x) : p = p' := by
  rcases h1 with ⟨a, b⟩ | ⟨i, a, b⟩
  · rcases h2 with ⟨c, d⟩ | ⟨j, c, d⟩
    · rw [← b, ← d]
    · have := (h.own w x (List.mem_of_getElem? d)).2; omega
  · rcases h2 with ⟨c, d⟩ | ⟨j, c, d⟩
    · have := (h.own w x (List.mem_of_getElem? b)).2; omega
    · have := nodup_get (h.nodup w) b d
      subst this
      rw [a] at c
      exact Option.some.inj c

/-- A corresponding node belongs to the block or to what was there before. -/
theorem Corr.of {N : Nat} {E env : List Nat} {p x : Nat} (h : Corr N E env p x) : x < N ∨ x ∈ env := by
  rcases h with ⟨a, b⟩ | ⟨i, _, b⟩
  · exact Or.inl (b ▸ a)
  · exact Or.inr (List.mem_of_getElem? b)

theorem GInv.fresh (h : GInv n0 n envs M E) : n.g.nextNode ∉ n.g.nodes := by
  obtain ⟨_, _, _, _, h4, _⟩ := newNode_spec h.reach .merge
  exact h4

theorem GInv.sfresh (h : GInv n0 n envs M E) (w : Nat) : (M w).g.nextNode ∉ (M w).g.nodes := by
  obtain ⟨_, _, _, _, h4, _⟩ := newNode_spec (h.sreach w) .merge
  exact h4

theorem GInv.corr_data (h : GInv n0 n envs M E) {w p x : Nat}
    (hc : Corr n0.g.nextNode (E w) (envs w) p x) : n.data x = (M w).data p := by
  rcases hc with ⟨a, b⟩ | ⟨i, a, b⟩
  · rw [b, h.dataB p a, h.sdataB w p a]
  · exact h.data w i p x a b

/-- The old graph is its own beginning. -/
theorem ginv_start (hr : Reachable n0) : GInv n0 n0 (fun _ => []) (fun _ => n0) (fun _ => []) := by
  obtain ⟨A, hrel, hi⟩ := reachable_rel hr
  refine ⟨hr, fun _ => hr, fun k hk => ⟨hk, ?_⟩, fun _ k hk => hk, Nat.le_refl _, fun _ => Nat.le_refl _,
    fun _ x hx => by simp at hx, fun _ x hx => by simp at hx, fun k hk => Or.inl hk, fun _ => List.nodup_nil,
    fun _ => List.nodup_nil, fun w v x hx => by simp at hx, fun _ => rfl, fun _ _ => rfl, fun _ _ _ => rfl,
    fun w i p x h => by simp at h, ?_, fun w v x y _ hx => by simp at hx⟩
  · rw [hrel.nextNode]
    exact hi.fresh k (hrel.nodes ▸ hk)
  · intro w p q x y h1 h2
    rcases h1 with ⟨_, rfl⟩ | ⟨i, h, _⟩
    · rcases h2 with ⟨_, rfl⟩ | ⟨i, h, _⟩
      · rfl
      · simp at h
    · simp at h

/-- A new node on both sides. -/
theorem GInv.node (h : GInv n0 n envs M E) (w : Nat) (d : NodeData) {n' m' : NetGraph}
    (h1 : n.call (.addNode d) = some n') (h2 : (M w).call (.addNode d) = some m') :
    GInv n0 n' (upd envs w (envs w ++ [n.g.nextNode])) (upd M w m') (upd E w (E w ++ [(M w).g.nextNode])) := by
  obtain ⟨n1, a1, a2, a3, a4, a5, a6, a7⟩ := newNode_spec h.reach d
  obtain ⟨m1, b1, b2, b3, b4, b5, b6, b7⟩ := newNode_spec (h.sreach w) d
  obtain rfl : n1 = n' := Option.some.inj (a1.symm.trans h1)
  obtain rfl : m1 = m' := Option.some.inj (b1.symm.trans h2)
  have a8 : n1.g.nextNode = n.g.nextNode + 1 := by
    obtain ⟨_, c1, c2⟩ := call_node n d
    rw [a1] at c1; cases c1; exact c2
  have b8 : m1.g.nextNode = (M w).g.nextNode + 1 := by
    obtain ⟨_, c1, c2⟩ := call_node (M w) d
    rw [b1] at c1; cases c1; exact c2
  have hnew : ∀ v, n.g.nextNode ∉ envs v := fun v hx => a4 (h.own v _ hx).1
  have hsnew : (M w).g.nextNode ∉ E w := fun hx => b4 (h.sown w _ hx).1
  have hmem : ∀ v x, x ∈ upd envs w (envs w ++ [n.g.nextNode]) v →
      x ∈ envs v ∨ (v = w ∧ x = n.g.nextNode) := by
    intro v x hx
    by_cases hv : v = w
    · subst hv
      rw [upd_same] at hx
      rcases List.mem_append.1 hx with hx | hx
      · exact Or.inl hx
      · exact Or.inr ⟨rfl, by simpa using hx⟩
    · rw [upd_ne _ _ hv] at hx; exact Or.inl hx
  have hdat : ∀ x, x ≠ n.g.nextNode → n1.data x = n.data x := fun x hx => by rw [a5]; simp [hx]
  have hcorr : ∀ v p x, Corr n0.g.nextNode (upd E w (E w ++ [(M w).g.nextNode]) v)
      (upd envs w (envs w ++ [n.g.nextNode]) v) p x →
      Corr n0.g.nextNode (E v) (envs v) p x ∨ (v = w ∧ p = (M w).g.nextNode ∧ x = n.g.nextNode) := by
    intro v p x hc
    by_cases hv : v = w
    · subst hv
      rw [upd_same, upd_same] at hc
      rcases hc with hc | ⟨i, c1, c2⟩
      · exact Or.inl (Or.inl hc)
      · by_cases hi : i < (E v).length
        · rw [List.getElem?_append_left hi] at c1
          rw [List.getElem?_append_left (by rw [h.len]; exact hi)] at c2
          exact Or.inl (Or.inr ⟨i, c1, c2⟩)
        · have hi' : i = (E v).length := by
            have := (List.getElem?_eq_some_iff.1 c1).1
            simp at this; omega
          subst hi'
          rw [← h.len] at c2
          simp at c1 c2
          exact Or.inr ⟨rfl, c1.symm, c2.symm⟩
    · rw [upd_ne _ _ hv, upd_ne _ _ hv] at hc; exact Or.inl hc
  refine ⟨a2, ?_, fun k hk => ⟨a3 ▸ List.mem_append_left _ (h.base k hk).1, (h.base k hk).2⟩, ?_,
    by have := h.next; omega, ?_, ?_, ?_, ?_, ?_, ?_, ?_, ?_, ?_, ?_, ?_, ?_, ?_⟩
  · intro v
    by_cases hv : v = w
    · subst hv; rw [upd_same]; exact b2
    · rw [upd_ne _ _ hv]; exact h.sreach v
  · intro v k hk
    by_cases hv : v = w
    · subst hv; rw [upd_same, b3]; exact List.mem_append_left _ (h.sbase _ k hk)
    · rw [upd_ne _ _ hv]; exact h.sbase v k hk
  · intro v
    by_cases hv : v = w
    · subst hv; rw [upd_same, b8]; have := h.snext v; omega
    · rw [upd_ne _ _ hv]; exact h.snext v
  · intro v x hx
    rcases hmem v x hx with hx | ⟨_, rfl⟩
    · exact ⟨a3 ▸ List.mem_append_left _ (h.own v x hx).1, (h.own v x hx).2⟩
    · exact ⟨a3 ▸ by simp, h.next⟩
  · intro v p hp
    by_cases hv : v = w
    · subst hv
      rw [upd_same] at hp ⊢
      rw [b3]
      rcases List.mem_append.1 hp with hp | hp
      · exact ⟨List.mem_append_left _ (h.sown v p hp).1, (h.sown v p hp).2⟩
      · rw [List.mem_singleton.1 hp]
        exact ⟨by simp, h.snext v⟩
    · rw [upd_ne _ _ hv] at hp ⊢; exact h.sown v p hp
  · intro k hk
    rw [a3] at hk
    rcases List.mem_append.1 hk with hk | hk
    · rcases h.nodes k hk with hk | ⟨v, hk⟩
      · exact Or.inl hk
      · refine Or.inr ⟨v, ?_⟩
        by_cases hv : v = w
        · subst hv; rw [upd_same]; exact List.mem_append_left _ hk
        · rw [upd_ne _ _ hv]; exact hk
    · exact Or.inr ⟨w, by rw [upd_same]; exact List.mem_append_right _ hk⟩
  · intro v
    by_cases hv : v = w
    · subst hv; rw [upd_same]
      exact List.nodup_append.2 ⟨h.nodup v, by simp, fun a ha b hb => by
        rw [List.mem_singleton.1 hb]; rintro rfl; exact hnew v ha⟩
    · rw [upd_ne _ _ hv]; exact h.nodup v
  · intro v
    by_cases hv : v = w
    · subst hv; rw [upd_same]
      exact List.nodup_append.2 ⟨h.snodup v, by simp, fun a ha b hb => by
        rw [List.mem_singleton.1 hb]; rintro rfl; exact hsnew ha⟩
    · rw [upd_ne _ _ hv]; exact h.snodup v
  · intro v u x hx hy
    rcases hmem v x hx with h1 | ⟨h1, h2⟩
    · rcases hmem u x hy with h3 | ⟨_, h4⟩
      · exact h.disj v u x h1 h3
      · exact absurd (h4 ▸ h1) (hnew v)
    · rcases hmem u x hy with h3 | ⟨h3, _⟩
      · exact absurd (h2 ▸ h3) (hnew u)
      · rw [h1, h3]
  · intro v
    by_cases hv : v = w
    · subst hv; rw [upd_same, upd_same]; simp [h.len]
    · rw [upd_ne _ _ hv, upd_ne _ _ hv]; exact h.len v
  · intro k hk
    rw [hdat k (by have := h.next; omega)]; exact h.dataB k hk
  · intro v k hk
    by_cases hv : v = w
    · subst hv
      rw [upd_same, b5]
      have := h.snext v
      dsimp only
      rw [if_neg (by omega)]; exact h.sdataB v k hk
    · rw [upd_ne _ _ hv]; exact h.sdataB v k hk
  · intro v i p x hp hx
    rcases hcorr v p x (Or.inr ⟨i, hp, hx⟩) with hc | ⟨rfl, rfl, rfl⟩
    · have hx' : x ≠ n.g.nextNode := by
        rintro rfl
        rcases hc.of with h' | h'
        · have := h.next; omega
        · exact hnew v h'
      rw [hdat x hx', h.corr_data hc]
      by_cases hv : v = w
      · subst hv
        rw [upd_same, b5]
        have hp' : p ≠ (M v).g.nextNode := by
          rintro rfl
          rcases hc with ⟨h', _⟩ | ⟨j, h', _⟩
          · have := h.snext v; omega
          · exact hsnew (List.mem_of_getElem? h')
        simp [hp']
      · rw [upd_ne _ _ hv]
    · rw [upd_same, a5, b5]; simp
  · intro v p q x y h1 h2
    rw [a6]
    have hM : ∀ p q, annots (upd M w m1 v) p q = annots (M v) p q := by
      intro p q
      by_cases hv : v = w
      · subst hv; rw [upd_same, b6]
      · rw [upd_ne _ _ hv]
    rw [hM]
    rcases hcorr v p x h1 with c1 | ⟨rfl, rfl, rfl⟩
    · rcases hcorr v q y h2 with c2 | ⟨rfl, rfl, rfl⟩
      · exact h.ann v p q x y c1 c2
      · rw [a7 _ _ (Or.inr rfl), b7 _ _ (Or.inr rfl)]
    · rw [a7 _ _ (Or.inl rfl), b7 _ _ (Or.inl rfl)]
  · intro v u x y hvu hx hy
    rw [a6]
    rcases hmem v x hx with hx | ⟨_, rfl⟩
    · rcases hmem u y hy with hy | ⟨_, rfl⟩
      · exact h.cross v u x y hvu hx hy
      · exact a7 _ _ (Or.inr rfl)
    · exact a7 _ _ (Or.inl rfl)

/-! ### Edges -/

/-- Corresponding dependencies of a block. -/
def DepC (N : Nat) (E env : List Nat) (d d' : Dep) : Prop :=
  Corr N E env d.src d'.src ∧ Corr N E env d.tgt d'.tgt ∧ d'.sym = d.sym ∧ d'.bounds = d.bounds ∧
    d'.kind = d.kind ∧ (d'.src ∈ env ∨ d'.tgt ∈ env)

/-- Edges that join the nodes of a block to each other or to older ones. -/
theorem GInv.grow (h : GInv n0 n envs M E) (w : Nat) {n' m' : NetGraph} (hr : Reachable n')
    (hr' : Reachable m') (hnn : n'.g.nodes = n.g.nodes) (hmn : m'.g.nodes = (M w).g.nodes)
    (hnx : n'.g.nextNode = n.g.nextNode) (hmx : m'.g.nextNode = (M w).g.nextNode)
    (hd : n'.data = n.data) (hd' : m'.data = (M w).data)
    (hsame : ∀ p q x y, Corr n0.g.nextNode (E w) (envs w) p x → Corr n0.g.nextNode (E w) (envs w) q y →
      annots n' x y = annots m' p q)
    (hold : ∀ x y, (x ∉ envs w ∧ y ∉ envs w) ∨ (¬ x < n0.g.nextNode ∧ x ∉ envs w) ∨
      (¬ y < n0.g.nextNode ∧ y ∉ envs w) → annots n' x y = annots n x y) :
    GInv n0 n' envs (upd M w m') E := by
  have hM : ∀ {P : NetGraph → Prop} (v : Nat), P (M v) → (v = w → P m') → P (upd M w m' v) := by
    intro P v h1 h2
    by_cases hv : v = w
    · subst hv; rw [upd_same]; exact h2 rfl
    · rw [upd_ne _ _ hv]; exact h1
  have hlow : ∀ v x, x ∈ envs v → ¬ x < n0.g.nextNode := fun v x hx => by have := (h.own v x hx).2; omega
  refine ⟨hr, fun v => hM v (h.sreach v) fun _ => hr', fun k hk => ⟨hnn ▸ (h.base k hk).1, (h.base k hk).2⟩,
    fun v k hk => hM (P := fun m => k ∈ m.g.nodes) v (h.sbase v k hk) fun _ => hmn ▸ h.sbase w k hk,
    hnx ▸ h.next, fun v => hM (P := fun m => n0.g.nextNode ≤ m.g.nextNode) v (h.snext v) fun _ => hmx ▸ h.snext w,
    fun v x hx => ⟨hnn ▸ (h.own v x hx).1, (h.own v x hx).2⟩,
    fun v p hp => hM (P := fun m => p ∈ m.g.nodes ∧ n0.g.nextNode ≤ p) v (h.sown v p hp)
      fun e => ⟨hmn ▸ (h.sown w p (e ▸ hp)).1, (h.sown v p hp).2⟩,
    fun k hk => h.nodes k (hnn ▸ hk), h.nodup, h.snodup, h.disj, h.len, fun k hk => hd ▸ h.dataB k hk,
    fun v k hk => hM (P := fun m => m.data k = n0.data k) v (h.sdataB v k hk) fun _ => hd' ▸ h.sdataB w k hk,
    fun v i p x h1 h2 => hM (P := fun m => n'.data x = m.data p) v (hd ▸ h.data v i p x h1 h2)
      fun e => by subst e; rw [hd, hd']; exact h.data v i p x h1 h2, ?_, ?_⟩
  · intro v p q x y c1 c2
    by_cases hv : v = w
    · subst hv; rw [upd_same]; exact hsame p q x y c1 c2
    · rw [upd_ne _ _ hv, ← h.ann v p q x y c1 c2]
      apply hold
      have hn : ∀ z p, Corr n0.g.nextNode (E v) (envs v) p z → z ∉ envs w := by
        intro z p hc hz
        rcases hc.of with h' | h'
        · exact hlow w z hz h'
        · exact hv (h.disj v w z h' hz)
      exact Or.inl ⟨hn x p c1, hn y q c2⟩
  · intro v u x y hvu hx hy
    rw [← h.cross v u x y hvu hx hy]
    apply hold
    by_cases hvw : v = w
    · subst hvw
      exact Or.inr (Or.inr ⟨hlow u y hy, fun hy' => hvu (h.disj v u y hy' hy)⟩)
    · exact Or.inr (Or.inl ⟨hlow v x hx, fun hx' => hvw (h.disj v w x hx hx')⟩)

theorem corr_nodes (h : GInv n0 n envs M E) {w p x : Nat} (hc : Corr n0.g.nextNode (E w) (envs w) p x)
    (hp : p ∈ (M w).g.nodes → p ∈ n0.g.nodes ∨ p ∈ E w) :
    x ∈ n.g.nodes ↔ p ∈ (M w).g.nodes := by
  constructor
  · intro hx
    rcases hc with ⟨a, rfl⟩ | ⟨i, a, b⟩
    · rcases h.nodes x hx with hx | ⟨v, hx⟩
      · exact h.sbase w x hx
      · have := (h.own v x hx).2; omega
    · exact (h.sown w p (List.mem_of_getElem? a)).1
  · intro hpn
    rcases hc with ⟨a, rfl⟩ | ⟨i, a, b⟩
    · rcases hp hpn with hp | hp
      · exact (h.base x hp).1
      · have := (h.sown w x hp).2; omega
    · exact (h.own w x (List.mem_of_getElem? b)).1

/-- A plain edge on both sides. -/
theorem GInv.edge (h : GInv n0 n envs M E) (w : Nat) {i j a b x y : Nat} (ha : (E w)[i]? = some a)
    (hb : (E w)[j]? = some b) (hx : (envs w)[i]? = some x) (hy : (envs w)[j]? = some y) :
    ∃ n' m', n.call (.addEdge x y) = some n' ∧ (M w).call (.addEdge a b) = some m' ∧
      GInv n0 n' envs (upd M w m') E := by
  have hxm := List.mem_of_getElem? hx
  have hym := List.mem_of_getElem? hy
  obtain ⟨n', a1, a2, a3, a4, a5⟩ := addEdge_spec h.reach (h.own w x hxm).1 (h.own w y hym).1
  obtain ⟨m', b1, b2, b3, b4, b5⟩ := addEdge_spec (h.sreach w) (h.sown w a (List.mem_of_getElem? ha)).1
    (h.sown w b (List.mem_of_getElem? hb)).1
  refine ⟨n', m', a1, b1, h.grow w a2 b2 a4 b4 (call_edge_same a1).1 (call_edge_same b1).1 a3 b3 ?_ ?_⟩
  · intro p q z t c1 c2
    rw [a5, b5, h.ann w p q z t c1 c2]
    have e1 : x = z ↔ a = p := by
      constructor
      · rintro rfl; exact h.corr_inj (Or.inr ⟨i, ha, hx⟩) c1
      · rintro rfl; exact h.corr_fun (Or.inr ⟨i, ha, hx⟩) c1
    have e2 : y = t ↔ b = q := by
      constructor
      · rintro rfl; exact h.corr_inj (Or.inr ⟨j, hb, hy⟩) c2
      · rintro rfl; exact h.corr_fun (Or.inr ⟨j, hb, hy⟩) c2
    simp only [e1, e2]
  · intro z t hzt
    rw [a5, if_neg]
    rintro ⟨rfl, rfl, _⟩
    rcases hzt with ⟨h1, _⟩ | ⟨_, h1⟩ | ⟨_, h1⟩
    · exact h1 hxm
    · exact h1 hxm
    · exact h1 hym

theorem annFold_rel {data data' : Nat → NodeData} {ds ds' : List Dep} {l : List EdgeAttr}
    (h : Rw (fun d d' => data' d'.src = data d.src ∧ d'.sym = d.sym ∧ d'.bounds = d.bounds ∧ d'.kind = d.kind)
      ds ds') : annFold data' l ds' = annFold data l ds := by
  induction ds generalizing ds' l with
  | nil =>
    have : ds' = [] := List.length_eq_zero_iff.1 h.1.symm
    subst this; rfl
  | cons d ds ih =>
    obtain ⟨d', ds', rfl, ⟨h1, h2, h3, h4⟩, ht⟩ := h.inv
    simp only [annFold, List.foldl_cons] at ih ⊢
    rw [h1, h2, h3, h4]
    exact ih ht

theorem Rw.filter {α β : Type} {R : α → β → Prop} {f : α → Bool} {g : β → Bool} {l : List α} {l' : List β}
    (h : Rw R l l') (hfg : ∀ a b, R a b → f a = g b) : Rw R (l.filter f) (l'.filter g) := by
  induction l generalizing l' with
  | nil =>
    have : l' = [] := List.length_eq_zero_iff.1 h.1.symm
    subst this; exact Rw.nil
  | cons a l ih =>
    obtain ⟨b, l', rfl, hab, ht⟩ := h.inv
    cases hf : f a with
    | true =>
      rw [List.filter_cons_of_pos hf, List.filter_cons_of_pos (by rw [← hfg a b hab, hf])]
      exact Rw.cons hab (ih ht)
    | false =>
      rw [List.filter_cons_of_neg (by simp [hf]), List.filter_cons_of_neg (by simp [← hfg a b hab, hf])]
      exact ih ht

/-- Dependencies on both sides. -/
theorem GInv.deps (h : GInv n0 n envs M E) (w : Nat) {ds ds' : List Dep}
    (hr : Rw (DepC n0.g.nextNode (E w) (envs w)) ds ds')
    (hn : ∀ d ∈ ds, d.src ∈ (M w).g.nodes ∧ d.tgt ∈ (M w).g.nodes)
    (hn' : ∀ d ∈ ds', d.src ∈ n.g.nodes ∧ d.tgt ∈ n.g.nodes) :
    ∃ n' m', n.addDependencies ds' = some n' ∧ (M w).addDependencies ds = some m' ∧
      GInv n0 n' envs (upd M w m') E := by
  obtain ⟨n', a1, a2, a3, a4, a5⟩ := addDependencies_spec h.reach hn'
  obtain ⟨m', b1, b2, b3, b4, b5⟩ := addDependencies_spec (h.sreach w) hn
  have hmem : ∀ d' ∈ ds', ∃ d, DepC n0.g.nextNode (E w) (envs w) d d' := by
    intro d' hd'
    obtain ⟨i, hi⟩ := List.getElem?_of_mem hd'
    rcases hr.get i with ⟨_, h2⟩ | ⟨a, b, h1, h2, h3⟩
    · rw [hi] at h2; cases h2
    · rw [hi] at h2; cases h2; exact ⟨a, h3⟩
  refine ⟨n', m', a1, b1, h.grow w a2 b2 a4 b4 (deps_same a1).1 (deps_same b1).1 a3 b3 ?_ ?_⟩
  · intro p q x y c1 c2
    rw [a5, b5, h.ann w p q x y c1 c2]
    refine annFold_rel ?_
    have : Rw (DepC n0.g.nextNode (E w) (envs w)) (reqs ds p q) (reqs ds' x y) := by
      refine hr.filter fun d d' hd => ?_
      obtain ⟨h1, h2, _⟩ := hd
      have e1 : d'.src = x ↔ d.src = p := by
        constructor
        · rintro rfl; exact h.corr_inj h1 c1
        · rintro rfl; exact h.corr_fun h1 c1
      have e2 : d'.tgt = y ↔ d.tgt = q := by
        constructor
        · rintro rfl; exact h.corr_inj h2 c2
        · rintro rfl; exact h.corr_fun h2 c2
      rw [Bool.eq_iff_iff]
      simp only [Bool.and_eq_true, beq_iff_eq, e1, e2]
    exact this.mono fun d d' hd => ⟨h.corr_data hd.1, hd.2.2.1, hd.2.2.2.1, hd.2.2.2.2.1⟩
  · intro x y hxy
    rw [a5]
    have : reqs ds' x y = [] := by
      unfold reqs
      rw [List.filter_eq_nil_iff]
      intro d' hd' hc
      simp only [Bool.and_eq_true, beq_iff_eq] at hc
      obtain ⟨rfl, rfl⟩ := hc
      obtain ⟨d, c1, c2, _, _, _, c6⟩ := hmem d' hd'
      rcases hxy with ⟨h1, h2⟩ | ⟨h1, h2⟩ | ⟨h1, h2⟩
      · rcases c6 with c | c
        · exact h1 c
        · exact h2 c
      · rcases c1.of with c | c
        · exact h1 c
        · exact h2 c
      · rcases c2.of with c | c
        · exact h1 c
        · exact h2 c
    rw [this]
    rfl

end Verif.Proofs
