import Verif.Proofs.Canonical

/-! Property theorems C47: the counterpart of a signal in the canonical body. -/
namespace Verif.Props
open Verif.Model Verif.Spec Verif.Proofs

/-- The entry for `x`. -/
def cached (C : Caches) : CQuery → Option Nat
  | .value v => C.v v
  | .body b => C.b b

theorem cached_addE (C : Caches) (x z : CQuery) (y : Nat) :
    cached (addE C (x, y)) z = if z = x then (cached C x).or (some y) else cached C z := by
  cases x <;> cases z <;> simp [addE, cached, Caches.addV, Caches.addB]

theorem caches_ext {C C' : Caches} (h : ∀ z, cached C z = cached C' z) : C = C' := by
  cases C; cases C'
  simp only [Caches.mk.injEq]
  exact ⟨funext fun v => h (.value v), funext fun b => h (.body b)⟩

theorem fold_keep (l : List (CQuery × Nat)) : ∀ {C : Caches} {z : CQuery} {r : Nat},
    cached C z = some r → cached (l.foldl addE C) z = some r := by
  induction l with
  | nil => intro C z r h; exact h
  | cons e l ih =>
    intro C z r h
    refine ih ?_
    obtain ⟨x, y⟩ := e
    rw [cached_addE]
    split
    · rename_i hz; subst hz; rw [h]; rfl
    · exact h

theorem fold_has (l : List (CQuery × Nat)) : ∀ {C : Caches} {z : CQuery} {y : Nat},
    (z, y) ∈ l → cached (l.foldl addE C) z ≠ none := by
  induction l with
  | nil => intro C z y h; simp at h
  | cons e l ih =>
    intro C z y h
    rcases List.mem_cons.1 h with h | h
    · subst h
      have : ∃ r, cached (addE C (z, y)) z = some r := by
        rw [cached_addE, if_pos rfl]; cases cached C z <;> simp
      obtain ⟨r, hr⟩ := this
      simp only [List.foldl_cons]
      rw [fold_keep l hr]; simp
    · exact ih h

theorem fold_from (l : List (CQuery × Nat)) : ∀ {C : Caches} {z : CQuery} {r : Nat},
    cached (l.foldl addE C) z = some r → cached C z = some r ∨ (z, r) ∈ l := by
  induction l with
  | nil => intro C z r h; exact .inl h
  | cons e l ih =>
    intro C z r h
    rcases ih h with h | h
    · obtain ⟨x, y⟩ := e
      rw [cached_addE] at h
      split at h
      · rename_i hz; subst hz
        cases hc : cached C z with
        | none => rw [hc] at h; simp at h; subst h; exact .inr (by simp)
        | some r' => rw [hc] at h; simp at h; subst h; exact .inl rfl
      · exact .inl h
    · exact .inr (by simp [h])

theorem fold_noop (l : List (CQuery × Nat)) {C : Caches}
    (h : ∀ x y, (x, y) ∈ l → cached C x ≠ none) : l.foldl addE C = C := by
  apply caches_ext
  intro z
  cases hc : cached C z with
  | some r => exact fold_keep l hc
  | none =>
    cases hf : cached (l.foldl addE C) z with
    | none => rfl
    | some r =>
      rcases fold_from l hf with h1 | h1
      · rw [hc] at h1; cases h1
      · exact (h z r h1 hc).elim

/-- All pairs below the anchor `a` are cached. -/
def FullAt (F : Forest) (C : Caches) (a c : Nat) : Prop :=
  ∀ x y, Opposite F (F.members a) (F.members c) x y → cached C x ≠ none

structure CInv (F : Forest) (C : Caches) : Prop where
  sound : ∀ x y, cached C x = some y → Canonical F x y
  full : ∀ b r a c, C.b b = some r → Anchor F (.body b) a c → FullAt F C a c

theorem fullAt_mono {F : Forest} {C C' : Caches} {a c : Nat} (h : FullAt F C a c)
    (hk : ∀ z r, cached C z = some r → cached C' z = some r) : FullAt F C' a c := by
  intro x y ho hn
  cases hx : cached C x with
  | none => exact h x y ho hx
  | some r => rw [hk x r hx] at hn; cases hn

theorem addE_keep {C : Caches} {x z : CQuery} {y r : Nat} (h : cached C z = some r) :
    cached (addE C (x, y)) z = some r := by
  rw [cached_addE]
  split
  · rename_i hz; subst hz; rw [h]; rfl
  · exact h

theorem cinv_add {F : Forest} {C : Caches} (h : CInv F C) {x : CQuery} {y : Nat}
    (hs : Canonical F x y)
    (hf : ∀ b a c, x = .body b → Anchor F (.body b) a c → FullAt F C a c) :
    CInv F (addE C (x, y)) := by
  constructor
  · intro z r hz
    rw [cached_addE] at hz
    split at hz
    · rename_i hzx; subst hzx
      cases hc : cached C z with
      | none => rw [hc] at hz; simp at hz; subst hz; exact hs
      | some r' => rw [hc] at hz; simp at hz; subst hz; exact h.sound z _ hc
    · exact h.sound z r hz
  · intro b r a c hb ha
    refine fullAt_mono (C := C) ?_ (fun z r hz => addE_keep hz)
    by_cases hx : x = .body b
    · exact hf b a c hx ha
    · refine h.full b r a c ?_ ha
      have : cached (addE C (x, y)) (.body b) = some r := hb
      rwa [cached_addE, if_neg (fun hc => hx hc.symm)] at this

theorem findAnchor_none {F : Forest} {C : Caches} : ∀ {l : List Nat}, findAnchor F C l = none →
    ∀ cur ∈ l, C.b cur = none ∧ ∀ d, F.canon cur = some d → d = cur
  | [], _, cur, hc => by simp at hc
  | a :: l, h, cur, hc => by
    simp only [findAnchor] at h
    split at h
    · cases h
    · rename_i hb
      split at h
      · rename_i d hd
        split at h
        · cases h
        · rename_i hne
          rcases List.mem_cons.1 hc with rfl | hc
          · exact ⟨hb, fun d' hd' => by rw [hd] at hd'; cases hd'; exact Classical.byContradiction hne⟩
          · exact findAnchor_none h cur hc
      · rename_i hd
        rcases List.mem_cons.1 hc with rfl | hc
        · exact ⟨hb, fun d' hd' => by rw [hd] at hd'; cases hd'⟩
        · exact findAnchor_none h cur hc

theorem findAnchor_some {F : Forest} {C : Caches} {a c : Nat} : ∀ {l : List Nat},
    findAnchor F C l = some (a, c) → ∃ pre post, l = pre ++ a :: post ∧
    (∀ cur ∈ pre, C.b cur = none ∧ ∀ d, F.canon cur = some d → d = cur) ∧
    (C.b a = some c ∨ C.b a = none ∧ F.canon a = some c ∧ c ≠ a)
  | [], h => by simp [findAnchor] at h
  | b :: l, h => by
    have rest : C.b b = none → (∀ d, F.canon b = some d → d = b) → findAnchor F C l = some (a, c) →
        ∃ pre post, b :: l = pre ++ a :: post ∧
        (∀ cur ∈ pre, C.b cur = none ∧ ∀ d, F.canon cur = some d → d = cur) ∧
        (C.b a = some c ∨ C.b a = none ∧ F.canon a = some c ∧ c ≠ a) := by
      intro h1 h2 h3
      obtain ⟨pre, post, e1, e2, e3⟩ := findAnchor_some h3
      refine ⟨b :: pre, post, by rw [e1]; rfl, ?_, e3⟩
      intro cur hc
      rcases List.mem_cons.1 hc with rfl | hc
      · exact ⟨h1, h2⟩
      · exact e2 cur hc
    simp only [findAnchor] at h
    split at h
    · rename_i c' hb
      cases h
      exact ⟨[], l, rfl, by simp, .inl hb⟩
    · rename_i hb
      split at h
      · rename_i d hd
        split at h
        · rename_i hne
          cases h
          exact ⟨[], l, rfl, by simp, .inr ⟨hb, hd, hne⟩⟩
        · rename_i hne
          exact rest hb (fun d' hd' => by
            rw [hd] at hd'; cases hd'; exact Classical.byContradiction hne) h
      · rename_i hd
        exact rest hb (fun d' hd' => by rw [hd] at hd'; cases hd') h

theorem canon_same {F : Forest} {x x' : CQuery} {a c c' : Nat} (h : Anchor F x a c)
    (h' : Anchor F x' a c') : c = c' := by
  obtain ⟨_, _, _, h3, _⟩ := h
  obtain ⟨_, _, _, h3', _⟩ := h'
  rw [h3] at h3'; cases h3'; rfl

theorem getCanonicalBody_ok {F : Forest} (hF : ForestOk F) (h1 : OneAnchor F) {C : Caches}
    (h : CInv F C) (b : Nat) :
    CInv F (getCanonicalBody F C b).1 ∧ (getCanonicalBody F C b).1.b b ≠ none ∧
    Canonical F (.body b) (getCanonicalBody F C b).2 := by
  unfold getCanonicalBody
  cases hb : C.b b with
  | some r => exact ⟨h, by simp [hb], h.sound (.body b) r hb⟩
  | none =>
    dsimp only
    have has : ∀ C : Caches, (C.addB b b).b b ≠ none := by
      intro C; simp only [Caches.addB, if_true]; cases C.b b <;> simp
    obtain ⟨tl, htl⟩ := hF.self b
    cases hfa : findAnchor F C (F.chain b) with
    | none =>
      have hn := findAnchor_none hfa
      have hna : ∀ a c, ¬ Anchor F (.body b) a c := by
        rintro a c ⟨b', hb', ha, hc, hne⟩
        cases hb'
        exact hne ((hn a ha).2 c hc)
      have hcan : Canonical F (.body b) b := .inr ⟨rfl, fun z ⟨a, c, ha, _⟩ => hna a c ha⟩
      exact ⟨cinv_add h hcan (fun b' a c hx ha => by cases hx; exact (hna a c ha).elim), has C, hcan⟩
    | some p =>
      obtain ⟨a, c⟩ := p
      obtain ⟨pre, post, hch, hpre, hac⟩ := findAnchor_some hfa
      have hup := hF.up b pre a post hch
      -- an anchor of `b` is an anchor of `a`
      have hsub : ∀ a' c', Anchor F (.body b) a' c' → Anchor F (.body a) a' c' := by
        rintro a' c' ⟨b', hb', ha', hc', hne'⟩
        cases hb'
        refine ⟨a, rfl, ?_, hc', hne'⟩
        rw [hch] at ha'
        rw [hup]
        rcases List.mem_append.1 ha' with ha' | ha'
        · exact (hne' ((hpre a' ha').2 c' hc')).elim
        · exact ha'
      dsimp only
      rcases hac with hca | ⟨hca, hcan, hne⟩
      · -- the anchor was cached
        have hab : a ≠ b := by rintro rfl; rw [hb] at hca; cases hca
        have hbp : b ∈ pre := by
          cases pre with
          | nil =>
            rw [htl] at hch; simp at hch; exact (hab hch.1.symm).elim
          | cons p0 ps => rw [htl] at hch; simp at hch; simp [hch.1]
        have hful : ∀ a' c', Anchor F (.body b) a' c' → FullAt F C a' c' :=
          fun a' c' ha' => h.full a c a' c' hca (hsub a' c' ha')
        have hno : ∀ z, ¬ Counterpart F (.body b) z := by
          rintro z ⟨a', c', ha', hx | hx⟩
          · obtain ⟨hx, _⟩ := hx
            cases hx
            obtain ⟨_, _, _, hc', hne'⟩ := ha'
            exact hne' ((hpre b hbp).2 c' hc')
          · exact hful a' c' ha' _ _ hx hb
        have hcn : Canonical F (.body b) b := .inr ⟨rfl, hno⟩
        split
        · exact ⟨cinv_add h hcn (fun b' a' c' hx ha' => by cases hx; exact hful a' c' ha'), has C, hcn⟩
        · rename_i hcne
          have hadd : C.addB a c = C := by
            apply caches_ext
            intro z
            have := cached_addE C (.body a) z c
            simp only [addE] at this
            rw [this]
            split
            · rename_i hz; subst hz; simp [cached, hca]
            · rfl
          have hpop : populate F (F.members a) (F.members c) (C.addB a c) = C := by
            rw [hadd, populate_eq]
            refine fold_noop _ (fun x y hxy => ?_)
            rw [mem_pairs] at hxy
            rcases h.sound (.body a) c hca with ⟨a', c', ha', hx⟩ | ⟨hx, _⟩
            · have hf := h.full a c a' c' hca ha'
              rcases hx with ⟨hx, hy⟩ | hx
              · cases hx; subst hy; exact hf x y hxy
              · exact hf x y (opp_trans hx rfl (hF.inlined a') hcne hxy)
            · exact (hcne hx).elim
          rw [hpop, hb]
          exact ⟨cinv_add h hcn (fun b' a' c' hx ha' => by cases hx; exact hful a' c' ha'), has C, hcn⟩
      · -- the anchor carries its canonical body
        rw [if_neg hne]
        rw [populate_eq]
        have hanc : Anchor F (.body b) a c := ⟨b, rfl, by rw [hch]; simp, hcan, hne⟩
        have hanca : Anchor F (.body a) a c := ⟨a, rfl, by rw [hup]; simp, hcan, hne⟩
        generalize hC' : (pairs F (F.members a) (F.members c)).foldl addE (C.addB a c) = C'
        have hkeep : ∀ z r, cached C z = some r → cached C' z = some r := by
          intro z r hz
          rw [← hC']
          exact fold_keep _ (addE_keep (x := .body a) (y := c) hz)
        have hfull : FullAt F C' a c := by
          intro x y hxy
          rw [← hC']
          exact fold_has _ ((mem_pairs F _ _ x y).2 hxy)
        have hfrom : ∀ z r, cached C' z = some r → cached C z = some r ∨ (z = .body a ∧ r = c) ∨
            Opposite F (F.members a) (F.members c) z r := by
          intro z r hz
          rw [← hC'] at hz
          rcases fold_from _ hz with hz | hz
          · have hz2 : cached (addE C (.body a, c)) z = some r := hz
            rw [cached_addE] at hz2
            by_cases hza : z = .body a
            · subst hza
              have : cached C (.body a) = none := hca
              rw [if_pos rfl, this] at hz2
              simp at hz2
              exact .inr (.inl ⟨rfl, hz2.symm⟩)
            · rw [if_neg hza] at hz2
              exact .inl hz2
          · exact .inr (.inr ((mem_pairs F _ _ z r).1 hz))
        have hinv : CInv F C' := by
          constructor
          · intro z r hz
            rcases hfrom z r hz with hz | ⟨rfl, rfl⟩ | hz
            · exact h.sound z r hz
            · exact .inl ⟨a, r, hanca, .inl ⟨rfl, rfl⟩⟩
            · exact .inl (opp_counterpart hF hcan hne hz)
          · intro b' r a' c' hb' ha'
            rcases hfrom (.body b') r hb' with hz | ⟨hz, _⟩ | hz
            · exact fullAt_mono (h.full b' r a' c' hz ha') hkeep
            · cases hz
              have := h1 _ _ _ _ _ ha' hanca
              subst this
              rw [canon_same ha' hanca]; exact hfull
            · obtain ⟨⟨b2, hb2, hab2⟩, _⟩ := below_body hF (opp_below _ hz)
              cases hb2
              have hA : Anchor F (.body b') a c := ⟨b', rfl, hab2, hcan, hne⟩
              have := h1 _ _ _ _ _ ha' hA
              subst this
              rw [canon_same ha' hA]; exact hfull
        cases hb' : C'.b b with
        | some r => exact ⟨hinv, by simp [hb'], hinv.sound (.body b) r hb'⟩
        | none =>
          have hno : ∀ z, ¬ Counterpart F (.body b) z := by
            rintro z ⟨a', c', ha', hx⟩
            have := h1 _ _ _ _ _ ha' hanc
            subst this
            have hcc := canon_same ha' hanc
            subst hcc
            rcases hx with ⟨hx, _⟩ | hx
            · cases hx
              have : cached C' (.body b) = some c' := by
                rw [← hC']
                refine fold_keep _ ?_
                have : cached (addE C (.body b, c')) (.body b) = some c' := by
                  rw [cached_addE, if_pos rfl]
                  have : cached C (.body b) = none := hca
                  rw [this]; rfl
                exact this
              have h2 : C'.b b = some c' := this
              rw [hb'] at h2; cases h2
            · exact hfull _ _ hx hb'
          have hcn : Canonical F (.body b) b := .inr ⟨rfl, hno⟩
          refine ⟨cinv_add hinv hcn (fun b' a' c' hx ha' => ?_), has C', hcn⟩
          cases hx
          have := h1 _ _ _ _ _ ha' hanc
          subst this
          rw [canon_same ha' hanc]; exact hfull

theorem getCanonicalValueSymbol_ok {F : Forest} (hF : ForestOk F) (h1 : OneAnchor F) {C : Caches}
    (h : CInv F C) (v : Nat) :
    CInv F (getCanonicalValueSymbol F C v).1 ∧
    Canonical F (.value v) (getCanonicalValueSymbol F C v).2 := by
  unfold getCanonicalValueSymbol
  cases hv : C.v v with
  | some r => exact ⟨h, h.sound (.value v) r hv⟩
  | none =>
    dsimp only
    cases hh : F.home v with
    | none =>
      have hcn : Canonical F (.value v) v := by
        refine .inr ⟨rfl, ?_⟩
        rintro z ⟨a, c, ⟨b, hb, _⟩, _⟩
        simp only [bodyOf] at hb
        rw [hh] at hb; cases hb
      exact ⟨cinv_add h hcn (fun b a c hx => by cases hx), hcn⟩
    | some b =>
      dsimp only
      obtain ⟨hi, hbn, _⟩ := getCanonicalBody_ok hF h1 h b
      cases hv' : (getCanonicalBody F C b).1.v v with
      | some r => exact ⟨hi, hi.sound (.value v) r hv'⟩
      | none =>
        have hcn : Canonical F (.value v) v := by
          refine .inr ⟨rfl, ?_⟩
          rintro z ⟨a, c, ⟨b', hb', ha, hc, hne⟩, hx⟩
          simp only [bodyOf] at hb'
          rw [hh] at hb'; cases hb'
          rcases hx with ⟨hx, _⟩ | hx
          · cases hx
          · cases hr : (getCanonicalBody F C b).1.b b with
            | none => exact hbn hr
            | some r => exact hi.full b r a c hr ⟨b, rfl, ha, hc, hne⟩ _ _ hx hv'
        exact ⟨cinv_add hi hcn (fun b a c hx => by cases hx), hcn⟩

theorem cinv_empty (F : Forest) : CInv F {} :=
  ⟨fun x y h => by cases x <;> simp [cached] at h, fun b r a c h => by simp at h⟩

theorem ask_ok {F : Forest} (hF : ForestOk F) (h1 : OneAnchor F) {C : Caches} (h : CInv F C)
    (q : CQuery) : CInv F (q.ask F C).1 ∧ Canonical F q (q.ask F C).2 := by
  cases q with
  | value v => exact getCanonicalValueSymbol_ok hF h1 h v
  | body b => exact ⟨(getCanonicalBody_ok hF h1 h b).1, (getCanonicalBody_ok hF h1 h b).2.2⟩

theorem askAll_inv {F : Forest} (hF : ForestOk F) (h1 : OneAnchor F) : ∀ (qs : List CQuery)
    {C : Caches}, CInv F C → CInv F (askAll F C qs)
  | [], _, h => h
  | q :: qs, _, h => askAll_inv hF h1 qs (ask_ok hF h1 h q).1

/-- C47, positional pairing (partial: where at most one enclosing body is marked as a copy): after any
queries, the answer to a query is the symbol at the same place of the canonical body, or the symbol
itself when there is none. -/
theorem canonical_answer_partial {F : Forest} (hF : ForestOk F) (h1 : OneAnchor F)
    (earlier : List CQuery) (q : CQuery) : Canonical F q (q.ask F (askAll F {} earlier)).2 :=
  (ask_ok hF h1 (askAll_inv hF h1 earlier (cinv_empty F)) q).2

/-- C47, independence of earlier queries (partial, same condition). -/
theorem canonical_order_independent_partial {F : Forest} (hF : ForestOk F) (h1 : OneAnchor F)
    (earlier earlier' : List CQuery) (q : CQuery) :
    (q.ask F (askAll F {} earlier)).2 = (q.ask F (askAll F {} earlier')).2 :=
  canonical_unique hF h1 (canonical_answer_partial hF h1 earlier q)
    (canonical_answer_partial hF h1 earlier' q)

/-! ### A concrete design -/

/-- `top` (body 0) instantiates a module twice: body 1, and body 3 which is marked as a copy of body 1.
The module declares a value and instantiates a leaf (bodies 2 and 4) inside a generate block. -/
def twice : Forest where
  members := fun
    | 0 => .inst 1 none (.value 10 (.scope .generateBlock (.inst 2 none (.other (.value 11 .nil)) .nil) .nil))
        (.inst 3 (some 1) (.value 12 (.scope .generateBlock (.inst 4 none (.other (.value 13 .nil)) .nil) .nil)) .nil)
    | 1 => .value 10 (.scope .generateBlock (.inst 2 none (.other (.value 11 .nil)) .nil) .nil)
    | 2 => .other (.value 11 .nil)
    | 3 => .value 12 (.scope .generateBlock (.inst 4 none (.other (.value 13 .nil)) .nil) .nil)
    | 4 => .other (.value 13 .nil)
    | _ => .nil
  canon := fun b => if b = 3 then some 1 else none
  chain := fun
    | 0 => [0] | 1 => [1, 0] | 2 => [2, 1, 0] | 3 => [3, 0] | 4 => [4, 3, 0] | n => [n]
  home := fun
    | 10 => some 1 | 11 => some 2 | 12 => some 3 | 13 => some 4 | _ => none

theorem twice_ok : ForestOk twice := by
  constructor
  · intro a
    match a with
    | 0 | 1 | 2 | 3 | 4 => decide
    | n + 5 => exact List.nodup_nil
  · intro a
    match a with
    | 0 | 1 | 2 | 3 | 4 => simp [twice, Inlined]
    | n + 5 => trivial
  · intro a v h
    match a with
    | 0 | 1 | 2 | 3 | 4 => simp [twice, direct] at h <;> subst h <;> rfl
    | n + 5 => simp [twice, direct] at h
  · intro a b h
    match a with
    | 0 => simp [twice, direct] at h; rcases h with rfl | rfl <;> rfl
    | 1 | 3 => simp [twice, direct] at h; subst h; rfl
    | 2 | 4 => simp [twice, direct] at h
    | n + 5 => simp [twice, direct] at h
  · intro b
    match b with
    | 0 | 1 | 2 | 3 | 4 => exact ⟨_, rfl⟩
    | n + 5 => exact ⟨[], rfl⟩
  · intro b l a r h
    match b with
    | 0 | 1 | 2 | 3 | 4 =>
      rcases l with _ | ⟨x, _ | ⟨y, _ | ⟨z, l⟩⟩⟩ <;> simp [twice] at h <;>
        (try (obtain ⟨rfl, rfl⟩ := h; rfl)) <;> (try (obtain ⟨_, rfl, rfl⟩ := h; rfl)) <;>
        (try (obtain ⟨_, _, rfl, rfl⟩ := h; rfl))
    | n + 5 =>
      rcases l with _ | ⟨x, l⟩ <;> simp [twice] at h
      obtain ⟨rfl, rfl⟩ := h; rfl

theorem twice_one : OneAnchor twice := by
  intro x a a' c c' ⟨_, _, _, h, _⟩ ⟨_, _, _, h', _⟩
  simp only [twice] at h h'
  split at h
  · split at h'
    · omega
    · cases h'
  · cases h

/-- The hypotheses are met; the leaf's value 13 of the copy is redirected to 11, whether or not the
enclosing bodies were asked about before, and the originals stay. -/
example : ForestOk twice ∧ OneAnchor twice ∧
    (CQuery.ask twice {} (.value 13)).2 = 11 ∧
    (CQuery.ask twice (askAll twice {} [.body 0, .value 12, .body 4, .body 1]) (.value 13)).2 = 11 ∧
    (CQuery.ask twice {} (.value 12)).2 = 10 ∧ (CQuery.ask twice {} (.body 4)).2 = 2 ∧
    (CQuery.ask twice {} (.value 10)).2 = 10 ∧ (CQuery.ask twice {} (.value 99)).2 = 99 :=
  ⟨twice_ok, twice_one, rfl, rfl, rfl, rfl, rfl, rfl⟩

/-- The same design with the nested leaf of the copy marked too, as a copy of another body 5. -/
def marked : Forest := { twice with canon := fun b => if b = 3 then some 1 else if b = 4 then some 5 else none }

/-- C47 fails without the condition: when an instance inside a copy is itself marked, the answer
depends on whether the enclosing copy was asked about before. -/
theorem canonical_order_matters :
    (CQuery.ask marked {} (.body 4)).2 = 5 ∧
    (CQuery.ask marked (askAll marked {} [.body 3]) (.body 4)).2 = 2 ∧
    (CQuery.ask marked {} (.value 13)).2 = 13 ∧
    (CQuery.ask marked (askAll marked {} [.value 12]) (.value 13)).2 = 11 := ⟨rfl, rfl, rfl, rfl⟩

/-- The theorem applies to the first design. -/
example := canonical_order_independent_partial twice_ok twice_one [.body 0, .value 12] [] (.value 13)

end Verif.Props
