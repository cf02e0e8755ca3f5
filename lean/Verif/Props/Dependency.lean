import Verif.Proofs.Dependency

/-! C35: annotated dependencies. -/
set_option linter.unusedSimpArgs false
namespace Verif.Props
open Verif.Model Verif.Spec Verif.Proofs

theorem inRng_iff (b : BitRange) (i : Int) : InRng b i ↔ b.lower ≤ i ∧ i ≤ b.upper := by
  unfold InRng BitRange.lower BitRange.upper; omega

theorem inRng_union {a b : BitRange} (h : a.contiguous b = true) (i : Int) :
    InRng (a.unionWith b) i ↔ InRng a i ∨ InRng b i := by
  simp only [inRng_iff]
  simp only [BitRange.contiguous, ge_iff_le, Bool.and_eq_true, decide_eq_true_eq] at h
  have h1 : a.lower ≤ a.upper := by unfold BitRange.lower BitRange.upper; omega
  have h2 : b.lower ≤ b.upper := by unfold BitRange.lower BitRange.upper; omega
  have h3 : (a.unionWith b).lower = min a.lower b.lower := by
    unfold BitRange.unionWith; simp only [BitRange.lower] at *; simp only [BitRange.upper] at *; omega
  have h4 : (a.unionWith b).upper = max a.upper b.upper := by
    unfold BitRange.unionWith; simp only [BitRange.upper] at *; simp only [BitRange.lower] at *; omega
  omega

theorem overlaps_iff (a b : BitRange) : a.overlaps b = true ↔ ∃ j, InRng a j ∧ InRng b j := by
  have h1 : a.lower ≤ a.upper := by unfold BitRange.lower BitRange.upper; omega
  have h2 : b.lower ≤ b.upper := by unfold BitRange.lower BitRange.upper; omega
  simp only [BitRange.overlaps, Bool.and_eq_true, decide_eq_true_eq, inRng_iff]
  constructor
  · intro h; exact ⟨max a.lower b.lower, by omega⟩
  · rintro ⟨j, h⟩; omega

theorem inRng_depBounds (nb : Option BitRange) (b : BitRange) (i : Int) :
    InRng (depBounds nb b) i ↔ InRng b i ∧
      ∀ n, nb = some n → (∃ j, InRng b j ∧ InRng n j) → InRng n i := by
  cases nb with
  | none => simp [depBounds]
  | some n =>
    simp only [depBounds, BitRange.intersection, Option.some.injEq, forall_eq', ← overlaps_iff]
    by_cases h : b.overlaps n = true
    · simp only [h, ↓reduceIte, true_implies, inRng_iff]
      simp only [BitRange.overlaps, Bool.and_eq_true, decide_eq_true_eq] at h
      have h1 : b.lower ≤ b.upper := by unfold BitRange.lower BitRange.upper; omega
      have h2 : n.lower ≤ n.upper := by unfold BitRange.lower BitRange.upper; omega
      generalize b.lower = bl at *
      generalize b.upper = bu at *
      generalize n.lower = nl at *
      generalize n.upper = nu at *
      unfold BitRange.lower BitRange.upper
      simp only
      omega
    · simp [h]

theorem sameSym_iff {a b : Option SymRef} (ha : a.isSome) :
    sameSym a b = true ↔ ∃ r q, a = some r ∧ b = some q ∧ r.path = q.path := by
  cases a with
  | none => cases ha
  | some r => cases b <;> simp [sameSym]

/-- An annotation names the signal with path `p`. -/
def Names (a : EdgeAttr) (p : Str) : Prop := ∃ r, a.symbol = some r ∧ r.path = p

/-- Some annotation in the list covers bit `i` of `p`. -/
def BitsOf (l : List EdgeAttr) (p : Str) (i : Int) : Prop :=
  ∃ a ∈ l, Names a p ∧ InRng a.bounds i

theorem carried_iff (net : NetGraph) (s t : Nat) (p : Str) (i : Int) :
    Carried net s t p i ↔ BitsOf (annots net s t) p i := by
  unfold Carried BitsOf annots Names
  constructor
  · rintro ⟨e, he, ht, hs, hb⟩
    exact ⟨_, List.mem_map.2 ⟨e, List.mem_filter.2 ⟨he, by simp [ht]⟩, rfl⟩, hs, hb⟩
  · rintro ⟨a, ha, hs, hb⟩
    obtain ⟨e, he, rfl⟩ := List.mem_map.1 ha
    obtain ⟨he, ht⟩ := List.mem_filter.1 he
    exact ⟨e, he, by simpa using ht, hs, hb⟩

theorem joined_iff (net : NetGraph) (s t : Nat) : Joined net s t ↔ annots net s t ≠ [] := by
  unfold Joined annots
  rw [Ne, List.map_eq_nil_iff, List.filter_eq_nil_iff]
  simp

/-- The five ways a request changes the annotations of its pair. -/
theorem setVariable_cases (a : EdgeAttr) (sym : Option SymRef) (b : BitRange) :
    (∃ r q, a.symbol = some r ∧ sym = some q ∧ r.path = q.path ∧
      ((a.bounds.contiguous b = true ∧
          a.setVariable sym b = ({ a with bounds := a.bounds.unionWith b }, true)) ∨
        a.setVariable sym b = (a, false))) ∨
    ((∀ r q, a.symbol = some r → sym = some q → r.path ≠ q.path) ∧
      a.setVariable sym b = ({ a with symbol := sym, bounds := b }, true)) := by
  unfold EdgeAttr.setVariable
  by_cases h : (a.symbol.isSome && sameSym a.symbol sym) = true
  · left
    have h' := h
    rw [Bool.and_eq_true] at h'
    obtain ⟨r, q, h1, h2, h3⟩ := (sameSym_iff h'.1).1 h'.2
    refine ⟨r, q, h1, h2, h3, ?_⟩
    rw [if_pos h]
    split
    · rename_i hc; exact Or.inl ⟨hc, rfl⟩
    · exact Or.inr rfl
  · right
    rw [if_neg h]
    refine ⟨?_, rfl⟩
    intro r q h1 h2 h3
    apply h
    simp [h1, h2, h3, sameSym]

theorem annStep_sound {l : List EdgeAttr} {sym : Option SymRef} {b : BitRange} {k : EdgeKind}
    {p : Str} {i : Int} (h : BitsOf (annStep l sym b k) p i) :
    BitsOf l p i ∨ ((∃ r, sym = some r ∧ r.path = p) ∧ InRng b i) := by
  obtain ⟨a, ha, ⟨r, hr, hp⟩, hb⟩ := h
  unfold annStep at ha
  split at ha
  · simp only [List.mem_singleton] at ha
    subst ha
    exact Or.inr ⟨⟨r, hr, hp⟩, hb⟩
  · rename_i c cs
    rcases setVariable_cases c sym b with ⟨r0, q0, h1, h2, h3, ⟨hc, h4⟩ | h4⟩ | ⟨_, h4⟩
    · rw [h4] at ha
      simp only [↓reduceIte, List.mem_cons] at ha
      rcases ha with rfl | ha
      · simp only at hr hb
        rw [inRng_union hc] at hb
        rw [h1] at hr
        cases hr
        rcases hb with hb | hb
        · exact Or.inl ⟨c, List.mem_cons_self, ⟨_, h1, hp⟩, hb⟩
        · exact Or.inr ⟨⟨q0, h2, h3 ▸ hp⟩, hb⟩
      · exact Or.inl ⟨a, List.mem_cons_of_mem _ ha, ⟨r, hr, hp⟩, hb⟩
    · rw [h4] at ha
      simp only [Bool.false_eq_true, ↓reduceIte, List.mem_append, List.mem_singleton] at ha
      rcases ha with ha | rfl
      · exact Or.inl ⟨a, ha, ⟨r, hr, hp⟩, hb⟩
      · exact Or.inr ⟨⟨r, hr, hp⟩, hb⟩
    · rw [h4] at ha
      simp only [↓reduceIte, List.mem_cons] at ha
      rcases ha with rfl | ha
      · exact Or.inr ⟨⟨r, hr, hp⟩, hb⟩
      · exact Or.inl ⟨a, List.mem_cons_of_mem _ ha, ⟨r, hr, hp⟩, hb⟩

theorem annStep_latest {l : List EdgeAttr} {sym : Option SymRef} {b : BitRange} {k : EdgeKind}
    {p : Str} {i : Int} (hs : ∃ r, sym = some r ∧ r.path = p) (hb : InRng b i) :
    BitsOf (annStep l sym b k) p i := by
  obtain ⟨r, hr, hp⟩ := hs
  unfold annStep
  split
  · exact ⟨_, List.mem_singleton.2 rfl, ⟨r, hr, hp⟩, hb⟩
  · rename_i c cs
    rcases setVariable_cases c sym b with ⟨r0, q0, h1, h2, h3, ⟨hc, h4⟩ | h4⟩ | ⟨_, h4⟩
    · rw [h4]
      simp only [↓reduceIte]
      refine ⟨_, List.mem_cons_self, ⟨r0, h1, ?_⟩, (inRng_union hc i).2 (Or.inr hb)⟩
      rw [hr] at h2; cases h2; rw [h3, hp]
    · rw [h4]
      exact ⟨freshAttr sym b k, by simp, ⟨r, hr, hp⟩, hb⟩
    · rw [h4]
      exact ⟨_, List.mem_cons_self, ⟨r, hr, hp⟩, hb⟩

/-- A bit is lost only from the first edge of the pair, and only to another signal. -/
theorem annStep_keeps {l : List EdgeAttr} {sym : Option SymRef} {b : BitRange} {k : EdgeKind}
    {p : Str} {i : Int} (h : BitsOf l p i) :
    BitsOf (annStep l sym b k) p i ∨
      ((∃ a as, l = a :: as ∧ Names a p ∧ InRng a.bounds i) ∧
        ∀ r, sym = some r → r.path ≠ p) := by
  obtain ⟨a, ha, ⟨r, hr, hp⟩, hb⟩ := h
  unfold annStep
  cases l with
  | nil => cases ha
  | cons c cs =>
    simp only
    rcases setVariable_cases c sym b with ⟨r0, q0, h1, h2, h3, ⟨hc, h4⟩ | h4⟩ | ⟨h5, h4⟩
    · rw [h4]
      left
      rcases List.mem_cons.1 ha with rfl | ha
      · refine ⟨_, List.mem_cons_self, ⟨r, hr, hp⟩, (inRng_union hc i).2 (Or.inl hb)⟩
      · exact ⟨a, List.mem_cons_of_mem _ ha, ⟨r, hr, hp⟩, hb⟩
    · rw [h4]
      left
      exact ⟨a, by rw [if_neg (by simp)]; exact List.mem_append_left _ ha, ⟨r, hr, hp⟩, hb⟩
    · rw [h4]
      rcases List.mem_cons.1 ha with rfl | ha
      · right
        refine ⟨⟨a, cs, rfl, ⟨r, hr, hp⟩, hb⟩, ?_⟩
        intro q hq hqp
        exact h5 r q hr hq (hp.trans hqp.symm)
      · exact Or.inl ⟨a, List.mem_cons_of_mem _ ha, ⟨r, hr, hp⟩, hb⟩

theorem annStep_only {l : List EdgeAttr} {sym : Option SymRef} {b : BitRange} {k : EdgeKind}
    {p : Str} (h : ∀ a ∈ l, ∀ r, a.symbol = some r → r.path = p)
    (hs : ∀ r, sym = some r → r.path = p) :
    ∀ a ∈ annStep l sym b k, ∀ r, a.symbol = some r → r.path = p := by
  intro a ha r hr
  unfold annStep at ha
  split at ha
  · simp only [List.mem_singleton] at ha
    subst ha
    exact hs r hr
  · rename_i c cs
    rcases setVariable_cases c sym b with ⟨r0, q0, h1, h2, h3, ⟨hc, h4⟩ | h4⟩ | ⟨_, h4⟩
    · rw [h4] at ha
      rcases List.mem_cons.1 (by simpa using ha) with rfl | ha
      · exact h c List.mem_cons_self r hr
      · exact h a (List.mem_cons_of_mem _ ha) r hr
    · rw [h4] at ha
      simp only [Bool.false_eq_true, ↓reduceIte, List.mem_append, List.mem_singleton] at ha
      rcases ha with ha | rfl
      · exact h a ha r hr
      · exact hs r hr
    · rw [h4] at ha
      rcases List.mem_cons.1 (by simpa using ha) with rfl | ha
      · exact hs r hr
      · exact h a (List.mem_cons_of_mem _ ha) r hr

theorem annStep_ne (l : List EdgeAttr) (sym : Option SymRef) (b : BitRange) (k : EdgeKind) :
    annStep l sym b k ≠ [] := by
  unfold annStep
  split
  · simp
  · split <;> simp

/-- The requests of one pair applied to its annotations. -/
def annFold (data : Nat → NodeData) (l : List EdgeAttr) (ds : List Dep) : List EdgeAttr :=
  ds.foldl (fun l d => annStep l d.sym (depBounds (data d.src).bounds d.bounds) d.kind) l

/-- The requests of one pair. -/
def reqs (ds : List Dep) (s t : Nat) : List Dep := ds.filter fun d => d.src == s && d.tgt == t

theorem addDependencies_spec {net : NetGraph} (hr : Reachable net) {ds : List Dep}
    (hn : ∀ d ∈ ds, d.src ∈ net.g.nodes ∧ d.tgt ∈ net.g.nodes) :
    ∃ net', net.addDependencies ds = some net' ∧ Reachable net' ∧ net'.data = net.data ∧
      net'.g.nodes = net.g.nodes ∧
      ∀ s t, annots net' s t = annFold net.data (annots net s t) (reqs ds s t) := by
  induction ds generalizing net with
  | nil => exact ⟨net, rfl, hr, rfl, rfl, fun _ _ => rfl⟩
  | cons d ds ih =>
    obtain ⟨h1, h2⟩ := hn d List.mem_cons_self
    obtain ⟨n1, e1, r1, d1, g1, a1⟩ := addDependency_spec hr h1 h2
    obtain ⟨n2, e2, r2, d2, g2, a2⟩ := ih r1 (fun x hx => by
      rw [g1]; exact hn x (List.mem_cons_of_mem _ hx))
    refine ⟨n2, by simp [NetGraph.addDependencies, e1, e2], r2, d2.trans d1, g2.trans g1, ?_⟩
    intro s t
    rw [a2, a1, d1]
    unfold reqs annFold
    by_cases hst : d.src = s ∧ d.tgt = t
    · rw [if_pos hst, List.filter_cons_of_pos (by simp [hst]), List.foldl_cons]
    · have : (d.src == s && d.tgt == t) = false := by
        cases hh : (d.src == s && d.tgt == t)
        · rfl
        · simp at hh; exact absurd hh hst
      rw [if_neg hst, List.filter_cons_of_neg (by simp [this])]

theorem mem_reqs {ds : List Dep} {s t : Nat} {d : Dep} :
    d ∈ reqs ds s t ↔ d ∈ ds ∧ d.src = s ∧ d.tgt = t := by
  simp [reqs]

theorem asks_iff (net : NetGraph) (d : Dep) (p : Str) (i : Int) :
    Asks net d p i ↔ (∃ r, d.sym = some r ∧ r.path = p) ∧
      InRng (depBounds (net.data d.src).bounds d.bounds) i := by
  rw [inRng_depBounds]; rfl

theorem annFold_sound (data : Nat → NodeData) {ds : List Dep} {p : Str} {i : Int} :
    ∀ l, BitsOf (annFold data l ds) p i → BitsOf l p i ∨ ∃ d ∈ ds,
      (∃ r, d.sym = some r ∧ r.path = p) ∧ InRng (depBounds (data d.src).bounds d.bounds) i := by
  induction ds with
  | nil => intro l h; exact Or.inl h
  | cons d ds ih =>
    intro l h
    rcases ih _ h with h1 | ⟨d', hd, h1⟩
    · rcases annStep_sound h1 with h2 | h2
      · exact Or.inl h2
      · exact Or.inr ⟨d, List.mem_cons_self, h2⟩
    · exact Or.inr ⟨d', List.mem_cons_of_mem _ hd, h1⟩

theorem annFold_complete (data : Nat → NodeData) {ds : List Dep} {p : Str} {i : Int}
    (hs : ∀ d ∈ ds, ∃ r, d.sym = some r ∧ r.path = p) :
    ∀ l, (∀ a ∈ l, ∀ r, a.symbol = some r → r.path = p) →
      (BitsOf l p i ∨ ∃ d ∈ ds, InRng (depBounds (data d.src).bounds d.bounds) i) →
      BitsOf (annFold data l ds) p i := by
  induction ds with
  | nil => intro l _ h; rcases h with h | ⟨d, hd, _⟩; exact h; cases hd
  | cons d ds ih =>
    intro l hl h
    obtain ⟨r, hr, hp⟩ := hs d List.mem_cons_self
    refine ih (fun x hx => hs x (List.mem_cons_of_mem _ hx)) _
      (annStep_only hl fun q hq => by rw [hr] at hq; cases hq; exact hp) ?_
    rcases h with h | ⟨d', hd, h⟩
    · rcases annStep_keeps (sym := d.sym) (b := depBounds (data d.src).bounds d.bounds)
        (k := d.kind) h with h1 | ⟨_, h1⟩
      · exact Or.inl h1
      · exact absurd hp (h1 r hr)
    · rcases List.mem_cons.1 hd with rfl | hd
      · exact Or.inl (annStep_latest ⟨r, hr, hp⟩ h)
      · exact Or.inr ⟨d', hd, h⟩

theorem onlyFor_iff (net : NetGraph) (s t : Nat) (p : Str) :
    OnlyFor net s t p ↔ ∀ a ∈ annots net s t, ∀ r, a.symbol = some r → r.path = p := by
  unfold OnlyFor annots
  constructor
  · intro h a ha
    obtain ⟨e, he, rfl⟩ := List.mem_map.1 ha
    obtain ⟨he, ht⟩ := List.mem_filter.1 he
    exact h e he (by simpa using ht)
  · intro h e he ht
    exact h _ (List.mem_map.2 ⟨e, List.mem_filter.2 ⟨he, by simp [ht]⟩, rfl⟩)

/-- C35: if all requests from `s` to `t` concern one signal, and the edges already there do too, the
bits carried from `s` to `t` are exactly those carried before and those requested. The full claim
drops the condition on the signal; it is false (`second_signal_replaces_first`). -/
theorem dependencies_exact_partial {net : NetGraph} (hr : Reachable net) {ds : List Dep}
    (hn : ∀ d ∈ ds, d.src ∈ net.g.nodes ∧ d.tgt ∈ net.g.nodes) {s t : Nat} {p : Str}
    (ho : OnlyFor net s t p) (ha : AskOnly ds s t p) :
    ∃ net', net.addDependencies ds = some net' ∧ ∀ q i, Carried net' s t q i ↔
      Carried net s t q i ∨ ∃ d ∈ ds, d.src = s ∧ d.tgt = t ∧ Asks net d q i := by
  obtain ⟨net', h1, _, _, _, h5⟩ := addDependencies_spec hr hn
  refine ⟨net', h1, ?_⟩
  intro q i
  rw [carried_iff, carried_iff, h5]
  rw [onlyFor_iff] at ho
  have hs : ∀ d ∈ reqs ds s t, ∃ r, d.sym = some r ∧ r.path = p := by
    intro d hd
    obtain ⟨h1, h2, h3⟩ := mem_reqs.1 hd
    exact ha d h1 h2 h3
  constructor
  · intro h
    rcases annFold_sound net.data _ h with h | ⟨d, hd, h⟩
    · exact Or.inl h
    · obtain ⟨h1, h2, h3⟩ := mem_reqs.1 hd
      exact Or.inr ⟨d, h1, h2, h3, (asks_iff ..).2 h⟩
  · intro h
    have hq : q = p := by
      rcases h with ⟨a, ha', ⟨r, h1, h2⟩, _⟩ | ⟨d, hd, h1, h2, ⟨r, h3, h4⟩, _⟩
      · rw [← h2]; exact ho a ha' r h1
      · obtain ⟨r', h5, h6⟩ := ha d hd h1 h2
        rw [h3] at h5; cases h5
        rw [← h4, h6]
    subst hq
    refine annFold_complete net.data hs _ ho ?_
    rcases h with h | ⟨d, hd, h1, h2, h3⟩
    · exact Or.inl h
    · exact Or.inr ⟨d, mem_reqs.2 ⟨hd, h1, h2⟩, ((asks_iff ..).1 h3).2⟩

/-- C35, for all sequences of requests: no bit is carried that was not there or requested. -/
theorem dependencies_sound {net net' : NetGraph} (hr : Reachable net) {ds : List Dep}
    (hn : ∀ d ∈ ds, d.src ∈ net.g.nodes ∧ d.tgt ∈ net.g.nodes)
    (h : net.addDependencies ds = some net') {s t : Nat} {p : Str} {i : Int}
    (hc : Carried net' s t p i) :
    Carried net s t p i ∨ ∃ d ∈ ds, d.src = s ∧ d.tgt = t ∧ Asks net d p i := by
  obtain ⟨n1, h1, _, _, _, h5⟩ := addDependencies_spec hr hn
  rw [h] at h1; cases h1
  rw [carried_iff, h5] at hc
  rcases annFold_sound net.data _ hc with h | ⟨d, hd, h⟩
  · exact Or.inl ((carried_iff ..).2 h)
  · obtain ⟨h1, h2, h3⟩ := mem_reqs.1 hd
    exact Or.inr ⟨d, h1, h2, h3, (asks_iff ..).2 h⟩

/-- C35, for all sequences of requests: the nodes joined are exactly those joined before and those
of the requests. -/
theorem dependencies_join {net net' : NetGraph} (hr : Reachable net) {ds : List Dep}
    (hn : ∀ d ∈ ds, d.src ∈ net.g.nodes ∧ d.tgt ∈ net.g.nodes)
    (h : net.addDependencies ds = some net') (s t : Nat) :
    Joined net' s t ↔ Joined net s t ∨ ∃ d ∈ ds, d.src = s ∧ d.tgt = t := by
  obtain ⟨n1, h1, _, _, _, h5⟩ := addDependencies_spec hr hn
  rw [h] at h1; cases h1
  rw [joined_iff, joined_iff, h5]
  have key : ∀ (rs : List Dep) l, annFold net.data l rs ≠ [] ↔ l ≠ [] ∨ rs ≠ [] := by
    intro rs
    induction rs with
    | nil => intro l; simp [annFold]
    | cons d rs ih =>
      intro l
      show annFold net.data (annStep l _ _ _) rs ≠ [] ↔ _
      rw [ih]
      simp [annStep_ne]
  rw [key]
  have : reqs ds s t ≠ [] ↔ ∃ d ∈ ds, d.src = s ∧ d.tgt = t := by
    constructor
    · intro h
      obtain ⟨d, hd⟩ := List.exists_mem_of_ne_nil _ h
      exact ⟨d, mem_reqs.1 hd⟩
    · rintro ⟨d, hd⟩ hc
      have := mem_reqs.2 hd
      rw [hc] at this
      cases this
  rw [this]

/-- C35: a request takes effect, whatever was there, and costs at most what the first edge of its
pair carried for another signal. -/
theorem dependency_step {net : NetGraph} (hr : Reachable net) {d : Dep}
    (hs : d.src ∈ net.g.nodes) (ht : d.tgt ∈ net.g.nodes) :
    ∃ net', net.addDependency d = some net' ∧
      (∀ p i, Asks net d p i → Carried net' d.src d.tgt p i) ∧
      ∀ s t p i, Carried net s t p i → Carried net' s t p i ∨
        (s = d.src ∧ t = d.tgt ∧ (∀ r, d.sym = some r → r.path ≠ p) ∧
          ∃ e, net.g.findEdgeTo s t = some e ∧
            (∃ r, (net.attr e.id).symbol = some r ∧ r.path = p) ∧ InRng (net.attr e.id).bounds i) := by
  obtain ⟨net', h1, _, _, _, h5⟩ := addDependency_spec hr hs ht
  refine ⟨net', h1, ?_, ?_⟩
  · intro p i h
    rw [asks_iff] at h
    rw [carried_iff, h5, if_pos ⟨rfl, rfl⟩]
    exact annStep_latest h.1 h.2
  · intro s t p i h
    rw [carried_iff] at h
    rw [carried_iff, h5]
    split
    · rename_i hst
      obtain ⟨rfl, rfl⟩ := hst
      rcases annStep_keeps (sym := d.sym) (b := depBounds (net.data d.src).bounds d.bounds)
        (k := d.kind) h with h2 | ⟨⟨a, as, hl, hna, hb⟩, h3⟩
      · exact Or.inl h2
      · refine Or.inr ⟨rfl, rfl, h3, ?_⟩
        unfold annots at hl
        cases hf : (net.g.obj d.src).outE.filter (fun e => e.tgt == d.tgt) with
        | nil => rw [hf] at hl; cases hl
        | cons e es =>
          rw [hf] at hl
          simp only [List.map_cons, List.cons.injEq] at hl
          refine ⟨e, ?_, ?_, ?_⟩
          · unfold DGraph.findEdgeTo
            rw [← List.head?_filter, hf]; rfl
          · rw [hl.1]; exact hna
          · rw [hl.1]; exact hb
    · exact Or.inl h

/-- C35: the order of the requests does not matter for the bits carried, when each pair of nodes is
asked about one signal. -/
theorem dependencies_any_order_partial {net : NetGraph} (hr : Reachable net) {ds es : List Dep}
    (hp : ds.Perm es) (hn : ∀ d ∈ ds, d.src ∈ net.g.nodes ∧ d.tgt ∈ net.g.nodes) {s t : Nat}
    {p : Str} (ho : OnlyFor net s t p) (ha : AskOnly ds s t p) :
    ∃ n1 n2, net.addDependencies ds = some n1 ∧ net.addDependencies es = some n2 ∧
      ∀ q i, Carried n1 s t q i ↔ Carried n2 s t q i := by
  obtain ⟨n1, h1, k1⟩ := dependencies_exact_partial hr hn ho ha
  obtain ⟨n2, h2, k2⟩ := dependencies_exact_partial (ds := es) hr
    (fun d hd => hn d (hp.mem_iff.2 hd)) ho (fun d hd => ha d (hp.mem_iff.2 hd))
  refine ⟨n1, n2, h1, h2, ?_⟩
  intro q i
  rw [k1, k2]
  constructor
  · rintro (h | ⟨d, hd, h⟩)
    · exact Or.inl h
    · exact Or.inr ⟨d, hp.mem_iff.1 hd, h⟩
  · rintro (h | ⟨d, hd, h⟩)
    · exact Or.inl h
    · exact Or.inr ⟨d, hp.mem_iff.2 hd, h⟩

/-- C55: if all requests from `s` to `t` have one clocking edge kind, and so have the edges already
there, so has every edge from `s` to `t` afterwards. The full claim is that every requested kind is
found on an edge; it is false (`second_kind_replaces_first`). -/
theorem kinds_kept_partial {net net' : NetGraph} (hr : Reachable net) {ds : List Dep}
    (hn : ∀ d ∈ ds, d.src ∈ net.g.nodes ∧ d.tgt ∈ net.g.nodes)
    (h : net.addDependencies ds = some net') {s t : Nat} {k : EdgeKind}
    (ho : ∀ e ∈ (net.g.obj s).outE, e.tgt = t → (net.attr e.id).edgeKind = k)
    (ha : ∀ d ∈ ds, d.src = s → d.tgt = t → d.kind = k) :
    ∀ e ∈ (net'.g.obj s).outE, e.tgt = t → (net'.attr e.id).edgeKind = k := by
  obtain ⟨n1, h1, _, _, _, h5⟩ := addDependencies_spec hr hn
  rw [h] at h1; cases h1
  have hl : ∀ a ∈ annots net s t, a.edgeKind = k := by
    intro a ha
    obtain ⟨e, he, rfl⟩ := List.mem_map.1 ha
    obtain ⟨he, ht⟩ := List.mem_filter.1 he
    exact ho e he (by simpa using ht)
  have hd : ∀ d ∈ reqs ds s t, d.kind = k := by
    intro d hd
    obtain ⟨h1, h2, h3⟩ := mem_reqs.1 hd
    exact ha d h1 h2 h3
  have key : ∀ (rs : List Dep), (∀ d ∈ rs, d.kind = k) → ∀ l : List EdgeAttr,
      (∀ a ∈ l, a.edgeKind = k) → ∀ a ∈ annFold net.data l rs, a.edgeKind = k := by
    intro rs
    induction rs with
    | nil => intro _ l h; exact h
    | cons d rs ih =>
      intro hk l hl
      refine ih (fun x hx => hk x (List.mem_cons_of_mem _ hx)) (annStep l _ _ _) ?_
      intro a ha
      unfold annStep at ha
      split at ha
      · simp only [List.mem_singleton] at ha
        subst ha
        exact hk d List.mem_cons_self
      · split at ha
        · rcases List.mem_cons.1 ha with rfl | ha
          · exact hk d List.mem_cons_self
          · exact hl a (List.mem_cons_of_mem _ ha)
        · simp only [List.mem_append, List.mem_singleton] at ha
          rcases ha with ha | rfl
          · exact hl a ha
          · exact hk d List.mem_cons_self
  intro e he ht
  refine key _ hd _ hl (net'.attr e.id) ?_
  rw [← h5]
  exact List.mem_map.2 ⟨e, List.mem_filter.2 ⟨he, by simp [ht]⟩, rfl⟩

/-- Two nodes: an assignment and a register of bits 7..0. -/
def depNet : NetGraph :=
  (NetGraph.calls {} [.addNode (.assignment {}), .addNode (.state ['q'] ['q'] {} ⟨7, 0⟩)]).getD {}

/-- A signal named by one character. -/
def oneSym (c : Char) : SymRef := ⟨[c], [c], {}⟩

/-- C35 is false in general: node 0 drives signal `a` and signal `b`, and node 1 reads both. Only
`b` is left on the edge. -/
theorem second_signal_replaces_first :
    (depNet.addDependencies [⟨0, 1, some (oneSym 'a'), ⟨3, 0⟩, .none⟩,
      ⟨0, 1, some (oneSym 'b'), ⟨3, 0⟩, .none⟩]).map (fun n => annots n 0 1) =
    some [{ symbol := some (oneSym 'b'), bounds := ⟨3, 0⟩ }] := by decide

/-- With one signal, a second range that does not touch the first gets its own edge. -/
theorem separate_ranges_kept :
    (depNet.addDependencies [⟨0, 1, some (oneSym 'a'), ⟨1, 0⟩, .none⟩,
      ⟨0, 1, some (oneSym 'a'), ⟨5, 4⟩, .none⟩, ⟨0, 1, some (oneSym 'a'), ⟨2, 2⟩, .none⟩]).map
        (fun n => annots n 0 1) =
    some [{ symbol := some (oneSym 'a'), bounds := ⟨0, 2⟩ },
      { symbol := some (oneSym 'a'), bounds := ⟨5, 4⟩ }] := by decide

/-- C55 is false in general: a second request with another edge kind, or with no
edge kind, on the same pair of nodes and signal replaces the first kind. -/
theorem second_kind_replaces_first :
    (depNet.addDependencies [⟨0, 1, some (oneSym 'c'), ⟨0, 0⟩, .posEdge⟩,
      ⟨0, 1, some (oneSym 'c'), ⟨0, 0⟩, .negEdge⟩]).map (fun n => annots n 0 1) =
      some [{ edgeKind := .negEdge, symbol := some (oneSym 'c'), bounds := ⟨0, 0⟩ }] ∧
    (depNet.addDependencies [⟨0, 1, some (oneSym 'c'), ⟨0, 0⟩, .posEdge⟩,
      ⟨0, 1, some (oneSym 'c'), ⟨0, 0⟩, .none⟩]).map (fun n => annots n 0 1) =
      some [{ edgeKind := .none, symbol := some (oneSym 'c'), bounds := ⟨0, 0⟩ }] := by
  constructor <;> decide

/-- Requests for one signal between the two nodes, with one cut down to the register's bits, and a request for
another signal the other way round. -/
def depAsks : List Dep := [⟨1, 0, some (oneSym 'q'), ⟨9, 6⟩, .none⟩,
  ⟨1, 0, some (oneSym 'q'), ⟨2, 0⟩, .none⟩, ⟨0, 1, some (oneSym 'd'), ⟨3, 0⟩, .none⟩]

theorem dep_reachable : Reachable depNet :=
  ⟨[.addNode (.assignment {}), .addNode (.state ['q'] ['q'] {} ⟨7, 0⟩)], rfl⟩

theorem dep_nodes : ∀ d ∈ depAsks, d.src ∈ depNet.g.nodes ∧ d.tgt ∈ depNet.g.nodes := by decide

theorem dep_free (p : Str) : OnlyFor depNet 1 0 p := by
  intro e he
  have : (depNet.g.obj 1).outE = [] := by decide
  rw [this] at he; cases he

theorem dep_only : AskOnly depAsks 1 0 ['q'] := by
  intro d hd h1 h2
  simp only [depAsks, List.mem_cons, List.not_mem_nil, or_false] at hd
  rcases hd with rfl | rfl | rfl
  · exact ⟨_, rfl, rfl⟩
  · exact ⟨_, rfl, rfl⟩
  · simp at h1

/-- What the requests leave on the edges from the register. -/
example : (depNet.addDependencies depAsks).map (fun n => annots n 1 0) =
    some [{ symbol := some (oneSym 'q'), bounds := ⟨6, 7⟩ }, { symbol := some (oneSym 'q'), bounds := ⟨0, 2⟩ }] := by
  decide

/-- The theorems apply to these requests. -/
example := dependencies_any_order_partial dep_reachable (List.reverse_perm depAsks).symm dep_nodes (dep_free ['q']) dep_only
example := dependency_step dep_reachable (d := ⟨1, 0, some (oneSym 'q'), ⟨9, 6⟩, .none⟩) (by decide) (by decide)
example := dependencies_sound (net' := (depNet.addDependencies depAsks).getD {}) dep_reachable dep_nodes rfl
  (s := 1) (t := 0) (p := ['q']) (i := 7)
  ⟨⟨0, 1, 0⟩, by decide, rfl, ⟨oneSym 'q', by decide, rfl⟩, (inRng_iff _ _).2 (by decide)⟩
example := kinds_kept_partial (net' := (depNet.addDependencies depAsks).getD {}) dep_reachable dep_nodes rfl
  (s := 1) (t := 0) (k := .none) (by
    intro e he
    have : (depNet.g.obj 1).outE = [] := by decide
    rw [this] at he; cases he) (by decide)

/-- C35: a second range of the same signal goes onto the existing edge exactly if no bit lies between the
two ranges; otherwise the call says that another edge is needed. -/
theorem range_extends_iff_touching (a : EdgeAttr) (r q : SymRef) (b : BitRange) (ha : a.symbol = some r)
    (hp : r.path = q.path) :
    (a.setVariable (some q) b).2 = true ↔ ∃ i j, InRng a.bounds i ∧ InRng b j ∧ i ≤ j + 1 ∧ j ≤ i + 1 := by
  have h1 : a.bounds.lower ≤ a.bounds.upper := by unfold BitRange.lower BitRange.upper; omega
  have h2 : b.lower ≤ b.upper := by unfold BitRange.lower BitRange.upper; omega
  have hs : (a.symbol.isSome && sameSym a.symbol (some q)) = true := by simp [ha, sameSym, hp]
  unfold EdgeAttr.setVariable
  rw [if_pos hs]
  have hc : a.bounds.contiguous b = true ↔ a.bounds.upper + 1 ≥ b.lower ∧ b.upper + 1 ≥ a.bounds.lower := by
    simp [BitRange.contiguous]
  simp only [inRng_iff]
  constructor
  · intro h
    split at h
    · rename_i h'
      have := hc.1 h'
      rcases Int.le_total a.bounds.upper b.lower with hh | hh
      · exact ⟨a.bounds.upper, b.lower, by omega⟩
      rcases Int.le_total b.upper a.bounds.lower with hh' | hh'
      · exact ⟨a.bounds.lower, b.upper, by omega⟩
      · exact ⟨max a.bounds.lower b.lower, max a.bounds.lower b.lower, by omega⟩
    · cases h
  · rintro ⟨i, j, h⟩
    rw [if_pos (hc.2 (by omega))]

example : (({ symbol := some ⟨['x'], ['m', '.', 'x'], {}⟩, bounds := ⟨0, 3⟩ } : EdgeAttr).setVariable
      (some ⟨['x'], ['m', '.', 'x'], {}⟩) ⟨4, 7⟩).2 = true ∧
    ¬ (({ symbol := some ⟨['x'], ['m', '.', 'x'], {}⟩, bounds := ⟨0, 3⟩ } : EdgeAttr).setVariable
      (some ⟨['x'], ['m', '.', 'x'], {}⟩) ⟨5, 7⟩).2 = true := by
  rw [range_extends_iff_touching _ _ _ _ rfl rfl, range_extends_iff_touching _ _ _ _ rfl rfl]
  simp only [InRng]
  exact ⟨⟨3, 4, by omega⟩, by rintro ⟨i, j, h⟩; omega⟩

end Verif.Props
