import Verif.Spec.Bits
import Verif.Props.Cuts

/-!
Helper lemmas for the bit-slice properties: tilings, the cut-point grid of two tilings, and the
invariant of `buildInto`.
-/
namespace Verif.Proofs
open Verif.Model Verif.Props Verif.Spec

theorem tiled_le {l : List Slice} : ∀ {lo hi : Nat}, Tiled lo hi l → lo ≤ hi := by
  induction l with
  | nil => intro lo hi h; simp only [Tiled] at h; omega
  | cons s ss ih =>
    intro lo hi h
    have := ih h.2.2
    have := h.1
    have := h.2.1
    omega

theorem tiled_append {l r : List Slice} : ∀ {a b c : Nat}, Tiled a b l → Tiled b c r →
    Tiled a c (l ++ r) := by
  induction l with
  | nil => intro a b c h1 h2; simp only [Tiled] at h1; subst h1; exact h2
  | cons s ss ih => intro a b c h1 h2; exact ⟨h1.1, h1.2.1, ih h1.2.2 h2⟩

theorem tiled_mem {l : List Slice} : ∀ {lo hi : Nat}, Tiled lo hi l → ∀ s ∈ l,
    lo ≤ s.lo ∧ s.lo < s.hi ∧ s.hi ≤ hi := by
  induction l with
  | nil => intro lo hi _ s hs; simp at hs
  | cons a as ih =>
    intro lo hi h s hs
    have h1 := h.1
    have h2 := h.2.1
    have h3 := tiled_le h.2.2
    rcases List.mem_cons.1 hs with rfl | hs
    · omega
    · have := ih h.2.2 s hs; omega

theorem tiled_width {l : List Slice} : ∀ {lo hi : Nat}, Tiled lo hi l → l ≠ [] →
    listWidth l = hi := by
  induction l with
  | nil => intro lo hi _ h; exact absurd rfl h
  | cons a as ih =>
    intro lo hi h _
    cases as with
    | nil => simp only [Tiled] at h; simp [listWidth, h.2.2]
    | cons b bs =>
      have := ih h.2.2 (by simp)
      simpa [listWidth] using this

theorem listWidth_append {out blk : List Slice} {hi : Nat} (h : Tiled (listWidth out) hi blk) :
    listWidth (out ++ blk) = hi := by
  cases blk with
  | nil => simp only [Tiled] at h; simpa using h
  | cons a as =>
    have := tiled_width h (by simp)
    rw [← this]
    have hx : (a :: as).getLast? = some ((a :: as).getLast (by simp)) := List.getLast?_eq_some_getLast _
    simp only [listWidth, List.getLast?_append, hx, Option.some_or]

theorem tiled_zero_width {l : List Slice} {hi : Nat} (h : Tiled 0 hi l) : listWidth l = hi := by
  have := listWidth_append (out := []) (blk := l) (hi := hi) (by simpa [listWidth] using h)
  simpa using this

theorem tiled_find {l : List Slice} : ∀ {lo hi k : Nat}, Tiled lo hi l → lo ≤ k → k < hi →
    ∃ s ∈ l, findSlice l k = some s ∧ s.lo ≤ k ∧ k < s.hi := by
  induction l with
  | nil => intro lo hi k h h1 h2; simp only [Tiled] at h; omega
  | cons a as ih =>
    intro lo hi k h h1 h2
    by_cases hk : k < a.hi
    · have := h.1
      refine ⟨a, by simp, ?_, by omega, hk⟩
      have hle : k ≥ a.lo := by omega
      simp [findSlice, hk, hle]
    · obtain ⟨s, hs, hf, h3⟩ := ih h.2.2 (by omega) h2
      refine ⟨s, by simp [hs], ?_, h3⟩
      simp only [findSlice] at hf ⊢
      simp [hk, hf]

/-! ### the grid of two tilings -/

/-- Consecutive pairs tile. -/
def PTile : Nat → Nat → List (Nat × Nat) → Prop
  | lo, hi, [] => lo = hi
  | lo, hi, c :: cs => c.1 = lo ∧ c.1 < c.2 ∧ PTile c.2 hi cs

theorem pairs_tile (l : List Nat) : ∀ {a z : Nat}, (a :: l).Pairwise (· < ·) →
    (∀ x ∈ a :: l, x ≤ z) → z ∈ a :: l → PTile a z (pairs (a :: l)) := by
  induction l with
  | nil => intro a z _ _ hz; simp at hz; simp [pairs, PTile, hz]
  | cons b l ih =>
    intro a z hp hle hz
    obtain ⟨h1, h2⟩ := List.pairwise_cons.1 hp
    have hab := h1 b (by simp)
    refine ⟨rfl, hab, ih h2 (fun x hx => hle x (List.mem_cons_of_mem _ hx)) ?_⟩
    rcases List.mem_cons.1 hz with rfl | hz
    · have := hle b (by simp); omega
    · exact hz

theorem pairs_gap (l : List Nat) (hp : l.Pairwise (· < ·)) : ∀ c ∈ pairs l,
    c.1 ∈ l ∧ c.2 ∈ l ∧ c.1 < c.2 ∧ ∀ x ∈ l, x ≤ c.1 ∨ c.2 ≤ x := by
  induction l with
  | nil => simp [pairs]
  | cons a l ih =>
    cases l with
    | nil => simp [pairs]
    | cons b l =>
      obtain ⟨h1, h2⟩ := List.pairwise_cons.1 hp
      intro c hc
      simp only [pairs, List.mem_cons] at hc
      rcases hc with rfl | hc
      · refine ⟨by simp, by simp, h1 b (by simp), fun x hx => ?_⟩
        rcases List.mem_cons.1 hx with rfl | hx
        · left; simp
        · right
          rcases List.mem_cons.1 hx with rfl | hx
          · simp
          · have := (List.pairwise_cons.1 h2).1 x hx
            simp; omega
      · obtain ⟨i1, i2, i3, i4⟩ := ih h2 c hc
        refine ⟨List.mem_cons_of_mem _ i1, List.mem_cons_of_mem _ i2, i3, fun x hx => ?_⟩
        rcases List.mem_cons.1 hx with rfl | hx
        · have := h1 c.1 i1
          left; omega
        · exact i4 x hx

theorem collectCuts_mem {l : List Slice} {W : Nat} (h : Tiled 0 W l) :
    0 ∈ collectCuts l ∧ W ∈ collectCuts l ∧ ∀ x ∈ collectCuts l, x ≤ W := by
  refine ⟨by simp [collectCuts], ?_, ?_⟩
  · cases l with
    | nil => simp only [Tiled] at h; subst h; simp [collectCuts]
    | cons a as =>
      have := tiled_width h (by simp)
      simp only [listWidth] at this
      split at this
      · rename_i hn; simp at hn
      · rename_i s hs
        have := List.mem_of_getLast? hs
        simp only [collectCuts, List.mem_cons, List.mem_map]
        exact .inr ⟨s, by simpa using this, by assumption⟩
  · intro x hx
    simp only [collectCuts, List.mem_cons, List.mem_map] at hx
    rcases hx with rfl | ⟨s, hs, rfl⟩
    · omega
    · exact (tiled_mem h s hs).2.2

/-- The grid of two tilings of the same width tiles that width, and every grid cell lies inside one
slice of either tiling, the one found at its low end. -/
theorem grid_ok {l r : List Slice} {W : Nat} (hl : Tiled 0 W l) (hr : Tiled 0 W r) :
    PTile 0 W (pairs (mergeCuts (collectCuts l) (collectCuts r))) ∧
    ∀ c ∈ pairs (mergeCuts (collectCuts l) (collectCuts r)), c.1 < c.2 ∧ c.2 ≤ W ∧
      (∃ s ∈ l, sourcesAt l c.1 = s.sources ∧ s.lo ≤ c.1 ∧ c.2 ≤ s.hi) ∧
      (∃ s ∈ r, sourcesAt r c.1 = s.sources ∧ s.lo ≤ c.1 ∧ c.2 ≤ s.hi) := by
  generalize hg : mergeCuts (collectCuts l) (collectCuts r) = g
  have hstr : g.Pairwise (· < ·) := by rw [← hg]; exact sortUnique_strict _
  have hmem : ∀ x, x ∈ g ↔ x ∈ collectCuts l ∨ x ∈ collectCuts r := by
    intro x; rw [← hg, mergeCuts, mem_sortUnique, List.mem_append]
  obtain ⟨l0, lW, lle⟩ := collectCuts_mem hl
  obtain ⟨r0, rW, rle⟩ := collectCuts_mem hr
  have hle : ∀ x ∈ g, x ≤ W := fun x hx => by
    rcases (hmem x).1 hx with h | h
    · exact lle x h
    · exact rle x h
  have h0 : 0 ∈ g := (hmem 0).2 (.inl l0)
  have hW : W ∈ g := (hmem W).2 (.inl lW)
  constructor
  · cases g with
    | nil => simp at h0
    | cons a g =>
      have : a = 0 := by
        rcases List.mem_cons.1 h0 with h | h
        · exact h.symm
        · have := (List.pairwise_cons.1 hstr).1 0 h; omega
      subst this
      exact pairs_tile g hstr hle hW
  · intro c hc
    obtain ⟨h1, h2, h3, h4⟩ := pairs_gap g hstr c hc
    have hcW := hle c.2 h2
    have side : ∀ t : List Slice, Tiled 0 W t → (∀ x ∈ collectCuts t, x ∈ g) →
        ∃ s ∈ t, sourcesAt t c.1 = s.sources ∧ s.lo ≤ c.1 ∧ c.2 ≤ s.hi := by
      intro t ht hsub
      obtain ⟨s, hs, hf, h5, h6⟩ := tiled_find ht (Nat.zero_le c.1) (by omega)
      refine ⟨s, hs, by simp [sourcesAt, hf], h5, ?_⟩
      have : s.hi ∈ g := hsub _ (by simp only [collectCuts, List.mem_cons, List.mem_map]; exact .inr ⟨s, hs, rfl⟩)
      have := h4 _ this
      omega
    exact ⟨h3, hcW, side l hl (fun x hx => (hmem x).2 (.inl hx)),
      side r hr (fun x hx => (hmem x).2 (.inr hx))⟩

/-! ### what a slice says about a bit -/

/-- Where one bit of an expression comes from. -/
inductive Origin where
  | sig (p : LspPath) (bit : Nat)
  | pad
  | opaque (e : SExpr)
  | port (node off : Nat)
  | constBit (b : LBit)

/-- The origin a source gives to bit `k` of the decomposed value. -/
def originAt (k : Nat) : Src → Origin
  | .lsp p lo _ => .sig p (p.lo + (k - lo))
  | .padding _ => .pad
  | .opaque e => .opaque e
  | .portNode n lo _ => .port n (k - lo)
  | .const v lo _ => .constBit (v.getD (k - lo) .x)

/-- The recorded source range contains the slice, and a constant has the width of its range. -/
def SrcOk (lo hi : Nat) : Src → Prop
  | .lsp _ sLo sHi => sLo ≤ lo ∧ hi ≤ sHi
  | .portNode _ sLo sHi => sLo ≤ lo ∧ hi ≤ sHi
  | .const v sLo sHi => sLo ≤ lo ∧ hi ≤ sHi ∧ sLo + v.length = sHi
  | _ => True

mutual
/-- Bit by bit, where an expression's bits come from: the reading of `buildInto` without slices. -/
def orig : SExpr → Nat → List Origin
  | .lsp _ p _, k => [.sig p (p.lo + k)]
  | .concat _ ops, k => origOps ops k
  | .repl w count inner, k =>
    match count with
    | none => [.opaque (.repl w none inner)]
    | some _ => orig inner (k % inner.width)
  | .conv w signExt fold inner, k =>
    if fold.any (fun v => v.length == w) then [.constBit ((fold.getD []).getD k .x)]
    else if w = inner.width then orig inner k
    else if w > inner.width then
      if k < inner.width then orig inner k
      else if signExt then [.pad] else [.constBit .zero]
    else [.opaque (.conv w signExt fold inner)]
  | .condOp w nConds pattern more c l r, k =>
    if l.width ≠ r.width ∨ l.width ≠ w ∨ nConds ≠ 1 ∨ pattern = true then
      [.opaque (.condOp w nConds pattern more c l r)]
    else orig l k ++ orig r k ++ [.opaque c]
  | .other w fold reads, k =>
    if fold.any (fun v => v.length == w) then [.constBit ((fold.getD []).getD k .x)]
    else [.opaque (.other w fold reads)]

/-- Bits of a concatenation, operands most significant first. -/
def origOps : List SExpr → Nat → List Origin
  | [], _ => []
  | e :: es, k =>
    let low := (es.map SExpr.width).sum
    if k < low then origOps es k else orig e (k - low)
end

/-- What one expression contributes to the list: a tiling of its width, each slice saying of each of
its bits what `orig` says. -/
def Good (f : Nat → List Origin) (base W : Nat) (blk : List Slice) : Prop :=
  Tiled base (base + W) blk ∧ ∀ s ∈ blk, (∀ src ∈ s.sources, SrcOk s.lo s.hi src) ∧
    ∀ k, s.lo ≤ k → k < s.hi → s.sources.map (originAt k) = f (k - base)

theorem good_single {f : Nat → List Origin} {base W : Nat} {srcs : List Src} (hW : 0 < W)
    (hs : ∀ src ∈ srcs, SrcOk base (base + W) src)
    (hf : ∀ k, base ≤ k → k < base + W → srcs.map (originAt k) = f (k - base)) :
    Good f base W [⟨base, base + W, srcs⟩] := by
  refine ⟨⟨rfl, by show base < base + W; omega, rfl⟩, ?_⟩
  intro s h
  simp only [List.mem_singleton] at h
  subst h
  exact ⟨hs, hf⟩

theorem good_nil {f : Nat → List Origin} {base : Nat} : Good f base 0 [] := ⟨rfl, by simp⟩

theorem good_append {f g : Nat → List Origin} {base a b : Nat} {l r : List Slice}
    (hl : Good f base a l) (hr : Good g (base + a) b r) :
    Good (fun k => if k < a then f k else g (k - a)) base (a + b) (l ++ r) := by
  refine ⟨?_, ?_⟩
  · have h2 := hr.1
    rw [Nat.add_assoc] at h2
    exact tiled_append hl.1 h2
  · intro s hs
    rcases List.mem_append.1 hs with hs | hs
    · obtain ⟨h1, h2⟩ := hl.2 s hs
      refine ⟨h1, fun k hk1 hk2 => ?_⟩
      have := tiled_mem hl.1 s hs
      rw [h2 k hk1 hk2]
      have : k - base < a := by omega
      simp [this]
    · obtain ⟨h1, h2⟩ := hr.2 s hs
      refine ⟨h1, fun k hk1 hk2 => ?_⟩
      have := tiled_mem hr.1 s hs
      rw [h2 k hk1 hk2]
      have h3 : ¬ k - base < a := by omega
      simp only [h3, if_false]
      congr 1
      omega

theorem good_congr {f g : Nat → List Origin} {base W : Nat} {l : List Slice} (h : Good f base W l)
    (hfg : ∀ k < W, f k = g k) : Good g base W l := by
  refine ⟨h.1, fun s hs => ?_⟩
  obtain ⟨h1, h2⟩ := h.2 s hs
  refine ⟨h1, fun k hk1 hk2 => ?_⟩
  have := tiled_mem h.1 s hs
  rw [h2 k hk1 hk2]
  exact hfg _ (by omega)

theorem pushOpaque_good (out : List Slice) (e : SExpr) {f : Nat → List Origin}
    (hf : ∀ k, f k = [.opaque e]) :
    ∃ blk, pushOpaque out e = out ++ blk ∧ Good f (listWidth out) e.width blk := by
  unfold pushOpaque
  split
  · rename_i h
    exact ⟨[], by simp, by rw [h]; exact good_nil⟩
  · refine ⟨_, rfl, good_single (by omega) (by simp [SrcOk]) ?_⟩
    intro k _ _
    simp [hf, originAt]

theorem pushConstant_good (out : List Slice) (w : Nat) (v : List LBit) (hv : v.length = w)
    {f : Nat → List Origin} (hf : ∀ k, f k = [.constBit (v.getD k .x)]) :
    ∃ blk, pushConstant out w v = out ++ blk ∧ Good f (listWidth out) w blk := by
  unfold pushConstant
  split
  · rename_i h
    exact ⟨[], by simp, by rw [h]; exact good_nil⟩
  · refine ⟨_, rfl, good_single (by omega) (by simp [SrcOk, hv]) ?_⟩
    intro k _ _
    simp [hf, originAt]

theorem emitLoop_good (p : LspPath) (base : Nat) (cs : List Nat) : ∀ prev : Nat,
    p.lo ≤ prev → (prev :: cs).Pairwise (· < ·) → (∀ c ∈ prev :: cs, c < p.hi + 1) →
    let src := Src.lsp p base (base + (p.hi + 1 - p.lo))
    let blk := emitLoop base p.lo (p.hi + 1) src prev cs
    Tiled (base + (prev - p.lo)) (base + (p.hi + 1 - p.lo)) blk ∧
      ∀ s ∈ blk, s.sources = [src] := by
  induction cs with
  | nil =>
    intro prev h1 _ h3
    have := h3 prev (by simp)
    refine ⟨⟨rfl, ?_, rfl⟩, by simp [emitLoop]⟩
    show base + (prev - p.lo) < base + (p.hi + 1 - p.lo)
    omega
  | cons c cs ih =>
    intro prev h1 h2 h3
    obtain ⟨h4, h5⟩ := List.pairwise_cons.1 h2
    have hc := h4 c (by simp)
    obtain ⟨i1, i2⟩ := ih c (by omega) h5 (fun x hx => h3 x (List.mem_cons_of_mem _ hx))
    refine ⟨⟨rfl, ?_, i1⟩, ?_⟩
    · show base + (prev - p.lo) < base + (c - p.lo)
      omega
    · intro s hs
      simp only [emitLoop, List.mem_cons] at hs
      rcases hs with rfl | hs
      · rfl
      · exact i2 s hs

theorem hintsOf_exact {hints : List Nat} (hs : hints.Pairwise (· < ·)) (p : LspPath) :
    hintsOf hints p = hints.filter fun c => decide (p.lo < c) && decide (c < p.hi + 1) := by
  have h := hintsInside_exact hs (lo := p.lo) (hi := p.hi + 1) (by unfold LspPath.hi; omega)
  unfold hintsInside at h
  simp only at h
  split at h
  · exact Except.ok.inj h
  · cases h

theorem pushLsp_good (cuts : CutReg) (hcuts : ∀ sym l, cuts sym = some l → l.Pairwise (· < ·))
    (out : List Slice) (w : Nat) (p : LspPath)
    (hw : w = p.extra + 1 ∨ ∀ sym, p.root = some sym → cuts.cutsFor sym = none) :
    ∃ blk, pushLsp cuts out w p = out ++ blk ∧
      Good (fun k => [.sig p (p.lo + k)]) (listWidth out) w blk := by
  unfold pushLsp
  split
  · rename_i h
    exact ⟨[], by simp, by rw [h]; exact good_nil⟩
  · rename_i hw0
    have hplain : Good (fun k => [.sig p (p.lo + k)]) (listWidth out) w
        [⟨listWidth out, listWidth out + w, [.lsp p (listWidth out) (listWidth out + w)]⟩] :=
      good_single (by omega) (by simp [SrcOk]) (fun k _ _ => by simp [originAt])
    simp only
    split
    · exact ⟨_, rfl, hplain⟩
    · rename_i sym hroot
      split
      · exact ⟨_, rfl, hplain⟩
      · rename_i hints hh
        split
        · exact ⟨_, rfl, hplain⟩
        · rename_i c cs hcs
          have hsorted := hcuts sym hints hh
          have hwx : w = p.extra + 1 := by
            rcases hw with h | h
            · exact h
            · rw [h sym hroot] at hh; cases hh
          have hx := hintsOf_exact hsorted p
          rw [hcs] at hx
          have hin : ∀ x ∈ c :: cs, p.lo < x ∧ x < p.hi + 1 := by
            intro x hxm
            rw [hx] at hxm
            have := (List.mem_filter.1 hxm).2
            simp at this
            omega
          have hpw : (c :: cs).Pairwise (· < ·) := by rw [hx]; exact hsorted.filter _
          have hwid : p.hi + 1 - p.lo = w := by unfold LspPath.hi; omega
          obtain ⟨e1, e2⟩ := emitLoop_good p (listWidth out) (c :: cs) p.lo (by omega)
            (List.pairwise_cons.2 ⟨fun x hxm => (hin x hxm).1, hpw⟩)
            (fun x hxm => by
              rcases List.mem_cons.1 hxm with rfl | hxm
              · unfold LspPath.hi; omega
              · exact (hin x hxm).2)
          refine ⟨_, rfl, ?_, ?_⟩
          · simp only [Nat.sub_self, Nat.add_zero] at e1
            rw [hwid] at e1 ⊢
            exact e1
          · intro s hs
            have hmem := tiled_mem e1 s hs
            simp only [Nat.sub_self, Nat.add_zero] at hmem
            rw [e2 s hs]
            refine ⟨by simp [SrcOk]; omega, fun k _ _ => by simp [originAt]⟩

theorem iterate_good {f : Nat → List Origin} {step : List Slice → List Slice} {W : Nat}
    (hstep : ∀ out, ∃ blk, step out = out ++ blk ∧ Good f (listWidth out) W blk) (n : Nat) :
    ∀ out, ∃ blk, iterate step n out = out ++ blk ∧
      Good (fun k => f (k % W)) (listWidth out) (n * W) blk := by
  induction n with
  | zero => intro out; exact ⟨[], by simp [iterate], by simpa using good_nil⟩
  | succ n ih =>
    intro out
    obtain ⟨b1, h1, g1⟩ := hstep out
    obtain ⟨b2, h2, g2⟩ := ih (step out)
    refine ⟨b1 ++ b2, ?_, ?_⟩
    · simp only [iterate]; rw [h2, h1]; simp
    · have hw : listWidth (step out) = listWidth out + W := by rw [h1]; exact listWidth_append g1.1
      rw [hw] at g2
      have := good_append g1 g2
      rw [Nat.succ_mul, Nat.add_comm]
      refine good_congr this fun k hk => ?_
      split
      · rename_i hlt; rw [Nat.mod_eq_of_lt hlt]
      · rename_i hlt
        have hWk : W ≤ k := by omega
        rw [Nat.mod_eq_sub_mod hWk]

theorem originAt_translate (base k : Nat) (s : Src) :
    originAt (base + k) (s.translate base) = originAt k s := by
  cases s with
  | lsp p lo hi =>
    simp only [Src.translate, originAt]
    have : base + k - (lo + base) = k - lo := by omega
    rw [this]
  | portNode n lo hi =>
    simp only [Src.translate, originAt]
    have : base + k - (lo + base) = k - lo := by omega
    rw [this]
  | const v lo hi =>
    simp only [Src.translate, originAt]
    have : base + k - (lo + base) = k - lo := by omega
    rw [this]
  | padding b => rfl
  | «opaque» e => rfl

theorem srcOk_translate (base : Nat) {lo hi : Nat} {s : Src} (h : SrcOk lo hi s) :
    SrcOk (base + lo) (base + hi) (s.translate base) := by
  cases s <;> simp only [Src.translate, SrcOk] at * <;> omega

theorem srcOk_mono {lo hi lo' hi' : Nat} {s : Src} (h : SrcOk lo hi s) (h1 : lo ≤ lo')
    (h2 : hi' ≤ hi) : SrcOk lo' hi' s := by
  cases s <;> simp only [SrcOk] at * <;> omega

theorem unify_tiled (base : Nat) (l r : List Slice) (c : Src) (grid : List (Nat × Nat)) :
    ∀ {lo hi : Nat}, PTile lo hi grid → Tiled (base + lo) (base + hi) (unify base l r c grid) := by
  induction grid with
  | nil => intro lo hi h; simp only [PTile] at h; subst h; exact rfl
  | cons a as ih =>
    intro lo hi h
    obtain ⟨h1, h2, h3⟩ := h
    refine ⟨?_, ?_, ih h3⟩
    · show base + a.1 = base + lo; omega
    · show base + a.1 < base + a.2; omega

theorem unify_good (base W : Nat) {l r : List Slice} {f g : Nat → List Origin} (c : SExpr)
    (hl : Good f 0 W l) (hr : Good g 0 W r) :
    Good (fun k => f k ++ g k ++ [.opaque c]) base W
      (unify base l r (.opaque c) (pairs (mergeCuts (collectCuts l) (collectCuts r)))) := by
  have hl1 : Tiled 0 W l := by simpa using hl.1
  have hr1 : Tiled 0 W r := by simpa using hr.1
  obtain ⟨g1, g2⟩ := grid_ok hl1 hr1
  refine ⟨by simpa using unify_tiled base l r (.opaque c) _ g1, ?_⟩
  intro s hs
  simp only [unify, List.mem_map] at hs
  obtain ⟨cell, hc, rfl⟩ := hs
  obtain ⟨h1, h2, ⟨sl, hsl, el, a1, a2⟩, ⟨sr, hsr, er, b1, b2⟩⟩ := g2 cell hc
  obtain ⟨l1, l2⟩ := hl.2 sl hsl
  obtain ⟨r1, r2⟩ := hr.2 sr hsr
  simp only [el, er]
  constructor
  · intro src hsrc
    rcases List.mem_append.1 hsrc with hsrc | hsrc
    · rcases List.mem_append.1 hsrc with hsrc | hsrc
      · obtain ⟨x, hx, rfl⟩ := List.mem_map.1 hsrc
        exact srcOk_translate base (srcOk_mono (l1 x hx) a1 a2)
      · obtain ⟨x, hx, rfl⟩ := List.mem_map.1 hsrc
        exact srcOk_translate base (srcOk_mono (r1 x hx) b1 b2)
    · simp at hsrc; subst hsrc; simp [SrcOk]
  · intro k hk1 hk2
    obtain ⟨k', rfl⟩ : ∃ k', k = base + k' := ⟨k - base, by omega⟩
    have e1 := l2 k' (by omega) (by omega)
    have e2 := r2 k' (by omega) (by omega)
    simp only [Nat.sub_zero] at e1 e2
    have hcomp : originAt (base + k') ∘ Src.translate base = originAt k' := by
      funext s; exact originAt_translate base k' s
    simp only [List.map_append, List.map_map, hcomp, e1, e2]
    have : base + k' - base = k' := by omega
    simp [this, originAt]

mutual
theorem buildInto_good (cuts : CutReg) (hcuts : ∀ sym l, cuts sym = some l → l.Pairwise (· < ·)) :
    ∀ (e : SExpr), WT cuts e → ∀ out, ∃ blk, buildInto cuts out e = out ++ blk ∧
      Good (orig e) (listWidth out) e.width blk
  | .lsp w p _, h, out => by
    obtain ⟨blk, h1, h2⟩ := pushLsp_good cuts hcuts out w p h
    exact ⟨blk, by simpa only [buildInto] using h1, good_congr h2 fun k _ => by simp [orig]⟩
  | .concat w ops, h, out => by
    simp only [WT] at h
    obtain ⟨blk, h1, h2⟩ := buildOps_good cuts hcuts ops h.2 out
    refine ⟨blk, by simpa only [buildInto] using h1, ?_⟩
    simp only [SExpr.width, h.1]
    exact good_congr h2 fun k _ => by simp [orig]
  | .repl w count inner, h, out => by
    cases count with
    | none =>
      simp only [buildInto]
      exact pushOpaque_good out (.repl w none inner) (fun k => by simp [orig])
    | some c =>
      simp only [WT] at h
      have ih := buildInto_good cuts hcuts inner h.2
      obtain ⟨blk, h1, h2⟩ := iterate_good (step := fun o => buildInto cuts o inner) ih c.toNat out
      refine ⟨blk, by simpa only [buildInto] using h1, ?_⟩
      simp only [SExpr.width, h.1]
      exact good_congr h2 fun k _ => by simp [orig]
  | .conv w signExt fold inner, h, out => by
    simp only [WT] at h
    have ih := buildInto_good cuts hcuts inner h out
    simp only [buildInto]
    by_cases hfold : fold.any (fun v => v.length == w) = true
    · simp only [hfold, if_true]
      refine pushConstant_good out w _ ?_ (fun k => by simp [orig, hfold])
      cases fold with
      | none => simp at hfold
      | some v => simpa using hfold
    · simp only [Bool.not_eq_true] at hfold
      simp only [hfold, Bool.false_eq_true, if_false]
      split
      · rename_i hw
        obtain ⟨blk, h1, h2⟩ := ih
        refine ⟨blk, h1, ?_⟩
        simp only [SExpr.width]
        rw [hw]
        exact good_congr h2 fun k hk => by simp [orig, hfold, ← hw]
      · rename_i hw
        split
        · rename_i hgt
          obtain ⟨blk, h1, h2⟩ := ih
          have hlw : listWidth (buildInto cuts out inner) = listWidth out + inner.width := by
            rw [h1]; exact listWidth_append h2.1
          have hpad : Good (fun _ => if signExt then [.pad] else [.constBit .zero])
              (listWidth out + inner.width) (w - inner.width)
              [⟨listWidth out + inner.width, listWidth out + inner.width + (w - inner.width),
                [padSource signExt (listWidth out + inner.width) (w - inner.width)]⟩] := by
            refine good_single (by omega) ?_ ?_
            · cases signExt <;> simp [padSource, SrcOk]
            · intro k hk1 hk2
              cases signExt
              · simp only [padSource, List.map_cons, List.map_nil, originAt, Bool.false_eq_true,
                  if_false, List.cons.injEq, Origin.constBit.injEq, and_true]
                rw [List.getD_eq_getElem?_getD, List.getElem?_replicate]
                rw [if_pos (by omega)]
                rfl
              · simp [padSource, originAt]
          refine ⟨blk ++ [⟨listWidth out + inner.width,
              listWidth out + inner.width + (w - inner.width),
              [padSource signExt (listWidth out + inner.width) (w - inner.width)]⟩], ?_, ?_⟩
          · rw [hlw, h1]; simp
          · have := good_append h2 hpad
            have hsum : inner.width + (w - inner.width) = w := by omega
            rw [hsum] at this
            refine good_congr this fun k hk => ?_
            simp [orig, hfold, hw, hgt]
        · rename_i hgt
          exact pushOpaque_good out (.conv w signExt fold inner)
            (fun k => by simp [orig, hfold, hw, hgt])
  | .condOp w nConds pattern more c l r, h, out => by
    simp only [WT] at h
    simp only [buildInto]
    split
    · rename_i hne
      refine pushOpaque_good out (.condOp w nConds pattern more c l r) (fun k => ?_)
      simp only [orig]
      rw [if_pos]
      grind
    · rename_i hne
      split
      · rename_i hne2
        refine pushOpaque_good out (.condOp w nConds pattern more c l r) (fun k => ?_)
        simp only [orig]
        rw [if_pos]
        grind
      · rename_i hne2
        obtain ⟨bl, l1, l2⟩ := buildInto_good cuts hcuts l h.1 []
        obtain ⟨br, r1, r2⟩ := buildInto_good cuts hcuts r h.2.1 []
        simp only [List.nil_append] at l1 r1
        have hz : listWidth ([] : List Slice) = 0 := rfl
        rw [hz] at l2 r2
        have hlw : l.width = w := by omega
        have hrw : r.width = w := by omega
        rw [hlw] at l2
        rw [hrw] at r2
        have tl : Tiled 0 w bl := by simpa using l2.1
        have tr : Tiled 0 w br := by simpa using r2.1
        rw [l1, r1]
        have heq : ¬ listWidth bl ≠ listWidth br := by
          rw [tiled_zero_width tl, tiled_zero_width tr]; simp
        rw [if_neg heq]
        refine ⟨_, rfl, ?_⟩
        refine good_congr (unify_good (listWidth out) w c l2 r2) fun k _ => ?_
        simp only [orig]
        rw [if_neg]
        grind
  | .other w fold reads, _, out => by
    simp only [buildInto]
    by_cases hfold : fold.any (fun v => v.length == w) = true
    · simp only [hfold, if_true]
      refine pushConstant_good out w _ ?_ (fun k => by simp [orig, hfold])
      cases fold with
      | none => simp at hfold
      | some v => simpa using hfold
    · simp only [Bool.not_eq_true] at hfold
      simp only [hfold, Bool.false_eq_true, if_false]
      exact pushOpaque_good out (.other w fold reads) (fun k => by simp [orig, hfold])

theorem buildOps_good (cuts : CutReg) (hcuts : ∀ sym l, cuts sym = some l → l.Pairwise (· < ·)) :
    ∀ (es : List SExpr), WTs cuts es → ∀ out, ∃ blk, buildOps cuts out es = out ++ blk ∧
      Good (origOps es) (listWidth out) (es.map SExpr.width).sum blk
  | [], _, out => ⟨[], by simp [buildOps], by simpa using good_nil⟩
  | e :: es, h, out => by
    simp only [WTs] at h
    obtain ⟨b1, h1, g1⟩ := buildOps_good cuts hcuts es h.2 out
    obtain ⟨b2, h2, g2⟩ := buildInto_good cuts hcuts e h.1 (buildOps cuts out es)
    refine ⟨b1 ++ b2, ?_, ?_⟩
    · simp only [buildOps]; rw [h2, h1]; simp
    · have hw : listWidth (buildOps cuts out es) = listWidth out + (es.map SExpr.width).sum := by
        rw [h1]; exact listWidth_append g1.1
      rw [hw] at g2
      have := good_append g1 g2
      simp only [List.map_cons, List.sum_cons]
      rw [Nat.add_comm e.width]
      refine good_congr this fun k _ => ?_
      simp only [origOps]
end

end Verif.Proofs
