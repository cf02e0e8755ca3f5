import Verif.Spec.Canonical

/-! Lemmas on pairing two scopes and on the caches of the resolver. -/
namespace Verif.Proofs
open Verif.Model Verif.Spec

/-! ### Positions -/

theorem nth_zero {ms : Mems} {it : Item} {r : Mems} (h : ms.uncons = some (it, r)) :
    nth ms 0 = some it ∧ ∀ i, nth ms (i + 1) = nth r i := by
  cases ms <;> simp [Mems.uncons] at h <;> obtain ⟨rfl, rfl⟩ := h <;> exact ⟨rfl, fun i => rfl⟩

theorem nth_none {ms : Mems} (h : ms.uncons = none) (i : Nat) : nth ms i = none := by
  cases ms <;> simp [Mems.uncons] at h
  cases i <;> rfl

/-- What it means that `x` and `y` are opposite inside two members at the same position. -/
def Opp0 (F : Forest) (it it' : Item) (x : CQuery) (y : Nat) : Prop :=
  match it, it' with
  | .value v, .value w => x = .value v ∧ y = w
  | .inst b _ l, .inst b' c' _ => (x = .body b ∧ y = c'.getD b') ∨
      (c'.getD b' ≠ b ∧ Opposite F l (F.members (c'.getD b')) x y)
  | .scope k l, .scope k' l' => k = k' ∧ Opposite F l l' x y
  | _, _ => False

theorem opp_cons {F : Forest} {ms cs r rs : Mems} {it it' : Item} (hm : ms.uncons = some (it, r))
    (hc : cs.uncons = some (it', rs)) (x : CQuery) (y : Nat) :
    Opposite F ms cs x y ↔ Opp0 F it it' x y ∨ Opposite F r rs x y := by
  obtain ⟨hm0, hm1⟩ := nth_zero hm
  obtain ⟨hc0, hc1⟩ := nth_zero hc
  constructor
  · intro h
    cases h with
    | @value _ _ i v w h1 h2 =>
      cases i with
      | zero => rw [hm0] at h1; rw [hc0] at h2; cases h1; cases h2; exact .inl ⟨rfl, rfl⟩
      | succ i => rw [hm1] at h1; rw [hc1] at h2; exact .inr (.value h1 h2)
    | @body _ _ i b b' c c' l l' h1 h2 =>
      cases i with
      | zero => rw [hm0] at h1; rw [hc0] at h2; cases h1; cases h2; exact .inl (.inl ⟨rfl, rfl⟩)
      | succ i => rw [hm1] at h1; rw [hc1] at h2; exact .inr (.body h1 h2)
    | @inside _ _ i b b' c c' l l' _ _ h1 h2 h3 h4 =>
      cases i with
      | zero => rw [hm0] at h1; rw [hc0] at h2; cases h1; cases h2; exact .inl (.inr ⟨h3, h4⟩)
      | succ i => rw [hm1] at h1; rw [hc1] at h2; exact .inr (.inside h1 h2 h3 h4)
    | @scope _ _ i k l l' _ _ h1 h2 h3 =>
      cases i with
      | zero => rw [hm0] at h1; rw [hc0] at h2; cases h1; cases h2; exact .inl ⟨rfl, h3⟩
      | succ i => rw [hm1] at h1; rw [hc1] at h2; exact .inr (.scope h1 h2 h3)
  · rintro (h | h)
    · unfold Opp0 at h
      split at h
      · obtain ⟨rfl, rfl⟩ := h; exact .value hm0 hc0
      · rcases h with ⟨rfl, rfl⟩ | ⟨h1, h2⟩
        · exact .body hm0 hc0
        · exact .inside hm0 hc0 h1 h2
      · obtain ⟨rfl, h⟩ := h; exact .scope hm0 hc0 h
      · exact h.elim
    · cases h with
      | value h1 h2 => exact .value (by rw [hm1]; exact h1) (by rw [hc1]; exact h2)
      | body h1 h2 => exact .body (by rw [hm1]; exact h1) (by rw [hc1]; exact h2)
      | inside h1 h2 h3 h4 => exact .inside (by rw [hm1]; exact h1) (by rw [hc1]; exact h2) h3 h4
      | scope h1 h2 h3 => exact .scope (by rw [hm1]; exact h1) (by rw [hc1]; exact h2) h3

theorem opp_nil {F : Forest} {ms cs : Mems} (h : ms.uncons = none ∨ cs.uncons = none) (x : CQuery)
    (y : Nat) : ¬ Opposite F ms cs x y := by
  intro ho
  rcases h with h | h <;> cases ho with
  | value h1 h2 => simp [nth_none h] at h1 h2
  | body h1 h2 => simp [nth_none h] at h1 h2
  | inside h1 h2 => simp [nth_none h] at h1 h2
  | scope h1 h2 => simp [nth_none h] at h1 h2

/-! ### The pairs a traversal registers -/

/-- The entries `populate` adds, in order. -/
def pairs (F : Forest) : Mems → Mems → List (CQuery × Nat)
  | .nil, _ => []
  | .value v r, cs =>
    match cs.uncons with
    | none => []
    | some (.value w, cs') => (.value v, w) :: pairs F r cs'
    | some (_, cs') => pairs F r cs'
  | .inst b _ ms r, cs =>
    match cs.uncons with
    | none => []
    | some (.inst b' c' _, cs') =>
      let t := c'.getD b'
      if b ≠ t then (.body b, t) :: (pairs F ms (F.members t) ++ pairs F r cs')
      else (.body b, b) :: pairs F r cs'
    | some (_, cs') => pairs F r cs'
  | .scope k ms r, cs =>
    match cs.uncons with
    | none => []
    | some (.scope k' ms', cs') => if k = k' then pairs F ms ms' ++ pairs F r cs' else pairs F r cs'
    | some (_, cs') => pairs F r cs'
  | .other r, cs =>
    match cs.uncons with
    | none => []
    | some (_, cs') => pairs F r cs'

/-- Add one entry to the cache of its kind. -/
def addE (C : Caches) (e : CQuery × Nat) : Caches :=
  match e.1 with
  | .value v => C.addV v e.2
  | .body b => C.addB b e.2

theorem populate_eq (F : Forest) (ms : Mems) : ∀ (cs : Mems) (C : Caches),
    populate F ms cs C = (pairs F ms cs).foldl addE C := by
  induction ms with
  | nil => intro cs C; rfl
  | value v r ih =>
    intro cs C
    simp only [populate, pairs]
    rcases hc : cs.uncons with _ | ⟨it, cs'⟩
    · rfl
    · cases it <;> simp [ih, addE]
  | inst b c ms r ih1 ih2 =>
    intro cs C
    simp only [populate, pairs]
    rcases hc : cs.uncons with _ | ⟨it, cs'⟩
    · rfl
    · cases it with
      | inst b' c' l =>
        dsimp only
        split
        · simp [ih1, ih2, addE]
        · simp [ih2, addE]
      | _ => simp [ih2]
  | scope k ms r ih1 ih2 =>
    intro cs C
    simp only [populate, pairs]
    rcases hc : cs.uncons with _ | ⟨it, cs'⟩
    · rfl
    · cases it with
      | scope k' l =>
        dsimp only
        split
        · simp [ih1, ih2]
        · simp [ih2]
      | _ => simp [ih2]
  | other r ih =>
    intro cs C
    simp only [populate, pairs]
    rcases hc : cs.uncons with _ | ⟨it, cs'⟩
    · rfl
    · simp [ih]

theorem mem_pairs (F : Forest) (ms : Mems) : ∀ (cs : Mems) (x : CQuery) (y : Nat),
    (x, y) ∈ pairs F ms cs ↔ Opposite F ms cs x y := by
  induction ms with
  | nil =>
    intro cs x y
    simp only [pairs, List.not_mem_nil, false_iff]
    exact opp_nil (.inl rfl) x y
  | value v r ih =>
    intro cs x y
    simp only [pairs]
    rcases hc : cs.uncons with _ | ⟨it, cs'⟩
    · simpa using opp_nil (.inr hc) x y
    · rw [opp_cons rfl hc]
      cases it <;> simp [ih, Opp0]
  | inst b c ms r ih1 ih2 =>
    intro cs x y
    simp only [pairs]
    rcases hc : cs.uncons with _ | ⟨it, cs'⟩
    · simpa using opp_nil (.inr hc) x y
    · rw [opp_cons rfl hc]
      cases it with
      | inst b' c' l =>
        dsimp only [Opp0]
        split
        · rename_i hne
          simp only [List.mem_cons, List.mem_append, ih1, ih2, Prod.mk.injEq]
          constructor
          · rintro (h | h | h)
            · exact .inl (.inl h)
            · exact .inl (.inr ⟨fun hc => hne hc.symm, h⟩)
            · exact .inr h
          · rintro ((h | h) | h)
            · exact .inl h
            · exact .inr (.inl h.2)
            · exact .inr (.inr h)
        · rename_i hne
          have hne : b = c'.getD b' := Classical.byContradiction hne
          simp only [List.mem_cons, ih2, Prod.mk.injEq]
          rw [← hne]
          simp
      | _ => simp [ih2, Opp0]
  | scope k ms r ih1 ih2 =>
    intro cs x y
    simp only [pairs]
    rcases hc : cs.uncons with _ | ⟨it, cs'⟩
    · simpa using opp_nil (.inr hc) x y
    · rw [opp_cons rfl hc]
      cases it with
      | scope k' l =>
        dsimp only [Opp0]
        split
        · rename_i hk; simp [ih1, ih2, hk]
        · rename_i hk; simp [ih2, hk]
      | _ => simp [ih2, Opp0]
  | other r ih =>
    intro cs x y
    simp only [pairs]
    rcases hc : cs.uncons with _ | ⟨it, cs'⟩
    · simpa using opp_nil (.inr hc) x y
    · rw [opp_cons rfl hc]
      cases it <;> simp [ih, Opp0]

theorem opp_below {F : Forest} (ms : Mems) : ∀ {cs : Mems} {x : CQuery} {y : Nat},
    Opposite F ms cs x y → x ∈ below ms := by
  induction ms with
  | nil => intro cs x y h; exact (opp_nil (.inl rfl) x y h).elim
  | value v r ih =>
    intro cs x y h
    rcases hc : cs.uncons with _ | ⟨it, cs'⟩
    · exact (opp_nil (.inr hc) x y h).elim
    · rw [opp_cons rfl hc] at h
      simp only [below, List.mem_cons]
      rcases h with h | h
      · cases it <;> simp [Opp0] at h; exact .inl h.1
      · exact .inr (ih h)
  | inst b c ms r ih1 ih2 =>
    intro cs x y h
    rcases hc : cs.uncons with _ | ⟨it, cs'⟩
    · exact (opp_nil (.inr hc) x y h).elim
    · rw [opp_cons rfl hc] at h
      simp only [below, List.mem_cons, List.mem_append]
      rcases h with h | h
      · cases it <;> simp [Opp0] at h
        rcases h with h | h
        · exact .inl h.1
        · exact .inr (.inl (ih1 h.2))
      · exact .inr (.inr (ih2 h))
  | scope k ms r ih1 ih2 =>
    intro cs x y h
    rcases hc : cs.uncons with _ | ⟨it, cs'⟩
    · exact (opp_nil (.inr hc) x y h).elim
    · rw [opp_cons rfl hc] at h
      simp only [below, List.mem_append]
      rcases h with h | h
      · cases it <;> simp [Opp0] at h
        exact .inl (ih1 h.2)
      · exact .inr (ih2 h)
  | other r ih =>
    intro cs x y h
    rcases hc : cs.uncons with _ | ⟨it, cs'⟩
    · exact (opp_nil (.inr hc) x y h).elim
    · rw [opp_cons rfl hc] at h
      simp only [below]
      rcases h with h | h
      · simp [Opp0] at h
      · exact ih h

theorem opp_unique {F : Forest} (ms : Mems) : ∀ {cs : Mems} {x : CQuery} {y y' : Nat},
    (below ms).Nodup → Opposite F ms cs x y → Opposite F ms cs x y' → y = y' := by
  induction ms with
  | nil => intro cs x y y' _ h; exact (opp_nil (.inl rfl) x y h).elim
  | value v r ih =>
    intro cs x y y' hn h h'
    rcases hc : cs.uncons with _ | ⟨it, cs'⟩
    · exact (opp_nil (.inr hc) x y h).elim
    · rw [opp_cons rfl hc] at h h'
      simp only [below, List.nodup_cons] at hn
      rcases h with h | h <;> rcases h' with h' | h'
      · cases it <;> simp [Opp0] at h h'; rw [h.2, h'.2]
      · cases it <;> simp [Opp0] at h
        exact (hn.1 (by rw [← h.1]; exact opp_below r h')).elim
      · cases it <;> simp [Opp0] at h'
        exact (hn.1 (by rw [← h'.1]; exact opp_below r h)).elim
      · exact ih hn.2 h h'
  | inst b c ms r ih1 ih2 =>
    intro cs x y y' hn h h'
    rcases hc : cs.uncons with _ | ⟨it, cs'⟩
    · exact (opp_nil (.inr hc) x y h).elim
    · rw [opp_cons rfl hc] at h h'
      simp only [below, List.nodup_cons, List.nodup_append, List.mem_append, not_or] at hn
      obtain ⟨⟨hn1, hn2⟩, hn3, hn4, hn5⟩ := hn
      rcases h with h | h <;> rcases h' with h' | h'
      · cases it <;> simp [Opp0] at h h'
        rcases h with h | h <;> rcases h' with h' | h'
        · rw [h.2, h'.2]
        · exact (hn1 (by rw [← h.1]; exact opp_below ms h'.2)).elim
        · exact (hn1 (by rw [← h'.1]; exact opp_below ms h.2)).elim
        · exact ih1 hn3 h.2 h'.2
      · have hb := opp_below r h'
        cases it <;> simp [Opp0] at h
        rcases h with h | h
        · exact (hn2 (by rw [← h.1]; exact hb)).elim
        · exact (hn5 x (opp_below ms h.2) x hb rfl).elim
      · have hb := opp_below r h
        cases it <;> simp [Opp0] at h'
        rcases h' with h' | h'
        · exact (hn2 (by rw [← h'.1]; exact hb)).elim
        · exact (hn5 x (opp_below ms h'.2) x hb rfl).elim
      · exact ih2 hn4 h h'
  | scope k ms r ih1 ih2 =>
    intro cs x y y' hn h h'
    rcases hc : cs.uncons with _ | ⟨it, cs'⟩
    · exact (opp_nil (.inr hc) x y h).elim
    · rw [opp_cons rfl hc] at h h'
      simp only [below, List.nodup_append] at hn
      obtain ⟨hn3, hn4, hn5⟩ := hn
      rcases h with h | h <;> rcases h' with h' | h'
      · cases it <;> simp [Opp0] at h h'
        exact ih1 hn3 h.2 h'.2
      · cases it <;> simp [Opp0] at h
        exact (hn5 x (opp_below ms h.2) x (opp_below r h') rfl).elim
      · cases it <;> simp [Opp0] at h'
        exact (hn5 x (opp_below ms h'.2) x (opp_below r h) rfl).elim
      · exact ih2 hn4 h h'
  | other r ih =>
    intro cs x y y' hn h h'
    rcases hc : cs.uncons with _ | ⟨it, cs'⟩
    · exact (opp_nil (.inr hc) x y h).elim
    · rw [opp_cons rfl hc] at h h'
      simp only [below] at hn
      rcases h with h | h <;> rcases h' with h' | h'
      · simp [Opp0] at h
      · simp [Opp0] at h
      · simp [Opp0] at h'
      · exact ih hn h h'

/-! ### The tree -/

theorem inlined_inst {F : Forest} (ms : Mems) : ∀ {i b : Nat} {c : Option Nat} {l : Mems},
    Inlined F ms → nth ms i = some (.inst b c l) → F.members b = l ∧ Inlined F l := by
  induction ms with
  | nil => intro i b c l _ h; simp [nth] at h
  | value v r ih =>
    intro i b c l hi h
    cases i with
    | zero => simp [nth] at h
    | succ i => exact ih hi h
  | inst b' c' l' r _ ih =>
    intro i b c l hi h
    cases i with
    | zero => simp [nth] at h; obtain ⟨rfl, rfl, rfl⟩ := h; exact ⟨hi.1, hi.2.1⟩
    | succ i => exact ih hi.2.2 h
  | scope k l' r _ ih =>
    intro i b c l hi h
    cases i with
    | zero => simp [nth] at h
    | succ i => exact ih hi.2 h
  | other r ih =>
    intro i b c l hi h
    cases i with
    | zero => simp [nth] at h
    | succ i => exact ih hi h

theorem inlined_scope {F : Forest} (ms : Mems) : ∀ {i : Nat} {k : ScopeKind} {l : Mems},
    Inlined F ms → nth ms i = some (.scope k l) → Inlined F l := by
  induction ms with
  | nil => intro i k l _ h; simp [nth] at h
  | value v r ih =>
    intro i k l hi h
    cases i with
    | zero => simp [nth] at h
    | succ i => exact ih hi h
  | inst b' c' l' r _ ih =>
    intro i k l hi h
    cases i with
    | zero => simp [nth] at h
    | succ i => exact ih hi.2.2 h
  | scope k' l' r _ ih =>
    intro i k l hi h
    cases i with
    | zero => simp [nth] at h; obtain ⟨rfl, rfl⟩ := h; exact hi.1
    | succ i => exact ih hi.2 h
  | other r ih =>
    intro i k l hi h
    cases i with
    | zero => simp [nth] at h
    | succ i => exact ih hi h

/-- Pairs below a nested pair of bodies are pairs of the outer scopes. -/
theorem opp_trans {F : Forest} {ms cs : Mems} {q : CQuery} {r : Nat} (h : Opposite F ms cs q r) :
    ∀ {b : Nat} {x : CQuery} {y : Nat}, q = .body b → Inlined F ms → r ≠ b →
    Opposite F (F.members b) (F.members r) x y → Opposite F ms cs x y := by
  induction h with
  | value h1 h2 => intro b x y hq; cases hq
  | body h1 h2 =>
    intro b x y hq hi hr ho
    cases hq
    rw [(inlined_inst _ hi h1).1] at ho
    exact .inside h1 h2 hr ho
  | inside h1 h2 h3 h4 ih =>
    intro b x y hq hi hr ho
    exact .inside h1 h2 h3 (ih hq (inlined_inst _ hi h1).2 hr ho)
  | scope h1 h2 h3 ih =>
    intro b x y hq hi hr ho
    exact .scope h1 h2 (ih hq (inlined_scope _ hi h1) hr ho)

/-- What is below body `a` has `a` among its enclosing bodies. -/
theorem below_chain {F : Forest} (hF : ForestOk F) (ms : Mems) : ∀ {a : Nat} {x : CQuery},
    Inlined F ms → (∀ q ∈ direct ms, q ∈ direct (F.members a)) → x ∈ below ms →
    ∃ b l, bodyOf F x = some b ∧ F.chain b = l ++ F.chain a ∧ (∀ b', x = .body b' → l ≠ []) := by
  induction ms with
  | nil => intro a x _ _ h; simp [below] at h
  | value v r ih =>
    intro a x hi hd h
    simp only [below, List.mem_cons] at h
    rcases h with rfl | h
    · exact ⟨a, [], hF.home a v (hd _ (by simp [direct])), rfl, fun b' hc => by cases hc⟩
    · exact ih hi (fun q hq => hd q (by simp [direct, hq])) h
  | inst b c l r ih1 ih2 =>
    intro a x hi hd h
    have hb := hF.chain a b (hd _ (by simp [direct]))
    simp only [below, List.mem_cons, List.mem_append] at h
    rcases h with rfl | h | h
    · exact ⟨b, [b], rfl, by rw [hb]; rfl, fun b' _ => by simp⟩
    · obtain ⟨b1, l1, h1, h2, h3⟩ := ih1 (a := b) hi.2.1 (fun q hq => by rw [hi.1]; exact hq) h
      refine ⟨b1, l1 ++ [b], h1, ?_, fun _ _ => by simp⟩
      rw [h2, hb]; simp
    · exact ih2 hi.2.2 (fun q hq => hd q (by simp [direct, hq])) h
  | scope k l r ih1 ih2 =>
    intro a x hi hd h
    simp only [below, List.mem_append] at h
    rcases h with h | h
    · exact ih1 hi.1 (fun q hq => hd q (by simp [direct, hq])) h
    · exact ih2 hi.2 (fun q hq => hd q (by simp [direct, hq])) h
  | other r ih =>
    intro a x hi hd h
    exact ih hi (fun q hq => hd q (by simpa [direct] using hq)) h

theorem below_body {F : Forest} (hF : ForestOk F) {a : Nat} {x : CQuery}
    (h : x ∈ below (F.members a)) : (∃ b, bodyOf F x = some b ∧ a ∈ F.chain b) ∧ x ≠ .body a := by
  obtain ⟨b, l, h1, h2, h3⟩ := below_chain hF _ (hF.inlined a) (fun q hq => hq) h
  obtain ⟨l', hl'⟩ := hF.self a
  refine ⟨⟨b, h1, by rw [h2, hl']; simp⟩, fun hx => ?_⟩
  have := h3 a hx
  subst hx
  simp only [bodyOf, Option.some.injEq] at h1
  subst h1
  have hlen := congrArg List.length h2
  simp only [List.length_append] at hlen
  exact this (List.length_eq_zero_iff.1 (by omega))

theorem counterpart_unique {F : Forest} (hF : ForestOk F) (h1 : OneAnchor F) {x : CQuery} {y y' : Nat}
    (h : Counterpart F x y) (h' : Counterpart F x y') : y = y' := by
  obtain ⟨a, c, ha, hy⟩ := h
  obtain ⟨a', c', ha', hy'⟩ := h'
  have haa := h1 x a a' c c' ha ha'
  subst haa
  have hcc : c = c' := by
    obtain ⟨_, _, _, h3, _⟩ := ha
    obtain ⟨_, _, _, h3', _⟩ := ha'
    rw [h3] at h3'; cases h3'; rfl
  subst hcc
  rcases hy with ⟨hx, hy⟩ | hy <;> rcases hy' with ⟨hx', hy'⟩ | hy'
  · rw [hy, hy']
  · exact ((below_body hF (opp_below _ hy')).2 hx).elim
  · exact ((below_body hF (opp_below _ hy)).2 hx').elim
  · exact opp_unique _ (hF.nodup a) hy hy'

theorem canonical_unique {F : Forest} (hF : ForestOk F) (h1 : OneAnchor F) {x : CQuery} {y y' : Nat}
    (h : Canonical F x y) (h' : Canonical F x y') : y = y' := by
  rcases h with h | ⟨h, hn⟩ <;> rcases h' with h' | ⟨h', hn'⟩
  · exact counterpart_unique hF h1 h h'
  · exact (hn' _ h).elim
  · exact (hn _ h').elim
  · rw [h, h']

/-- Entries paired below an anchor are counterparts. -/
theorem opp_counterpart {F : Forest} (hF : ForestOk F) {a c : Nat} (hc : F.canon a = some c)
    (hne : c ≠ a) {x : CQuery} {y : Nat} (h : Opposite F (F.members a) (F.members c) x y) :
    Counterpart F x y := by
  obtain ⟨⟨b, hb, hab⟩, _⟩ := below_body hF (opp_below _ h)
  exact ⟨a, c, ⟨b, hb, hab, hc, hne⟩, .inr h⟩

end Verif.Proofs
