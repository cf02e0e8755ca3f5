import Verif.Proofs.Denote
import Verif.Proofs.Influence

/-! Helper lemmas: what the analysis sees of an assignment, and its run. -/
namespace Verif.Proofs
open Verif.Spec Verif.Model Verif.Props

mutual
theorem notes_paths {S : SynEnv} : ∀ (e : SExpr) (p : LspPath) (x : Nat), p ∈ e.paths → p.root = some x →
    ⟨false, S.ref x p ⟨p.lo, p.hi⟩⟩ ∈ notesOf S false e
  | .lsp w p' sels, p, x, hp, hx => by
    simp only [SExpr.paths, List.mem_cons] at hp
    simp only [notesOf, List.mem_append]
    rcases hp with rfl | hp
    · exact .inr (by simp [SynEnv.note, hx])
    · exact .inl (notes_pathsList sels p x hp hx)
  | .concat w ops, p, x, hp, hx => by
    simp only [SExpr.paths] at hp
    simp only [notesOf]
    exact notes_pathsList ops p x hp hx
  | .repl w c inner, p, x, hp, hx => by
    simp only [SExpr.paths] at hp
    simp only [notesOf]
    exact notes_paths inner p x hp hx
  | .conv w s f inner, p, x, hp, hx => by
    simp only [SExpr.paths] at hp
    simp only [notesOf]
    exact notes_paths inner p x hp hx
  | .condOp w n pt more c l r, p, x, hp, hx => by
    simp only [SExpr.paths, List.mem_append] at hp
    simp only [notesOf, List.mem_append, List.mem_filterMap]
    rcases hp with ((hp | hp) | hp) | hp
    · exact .inl (.inl (.inl (notes_paths c p x hp hx)))
    · exact .inl (.inl (.inr ⟨p, hp, by simp [SynEnv.note, hx]⟩))
    · exact .inl (.inr (notes_paths l p x hp hx))
    · exact .inr (notes_paths r p x hp hx)
  | .other w f reads, p, x, hp, hx => by
    simp only [SExpr.paths] at hp
    simp only [notesOf, List.mem_filterMap]
    exact ⟨p, hp, by simp [SynEnv.note, hx]⟩

theorem notes_pathsList {S : SynEnv} : ∀ (es : List SExpr) (p : LspPath) (x : Nat), p ∈ pathsList es →
    p.root = some x → ⟨false, S.ref x p ⟨p.lo, p.hi⟩⟩ ∈ notesAll S false es
  | [], _, _, h, _ => by simp [pathsList] at h
  | e :: es, p, x, h, hx => by
    simp only [pathsList, List.mem_append] at h
    simp only [notesAll, List.mem_append]
    rcases h with h | h
    · exact .inl (notes_paths e p x h hx)
    · exact .inr (notes_pathsList es p x h hx)
end

mutual
theorem no_paths_no_notes {S : SynEnv} {w : Bool} : ∀ (e : SExpr), e.paths = [] → notesOf S w e = []
  | .lsp .., h => by simp [SExpr.paths] at h
  | .concat _ ops, h => by simp only [SExpr.paths] at h; simp only [notesOf]; exact no_paths_no_notes_list ops h
  | .repl _ _ inner, h => by simp only [SExpr.paths] at h; simp only [notesOf]; exact no_paths_no_notes inner h
  | .conv _ _ _ inner, h => by simp only [SExpr.paths] at h; simp only [notesOf]; exact no_paths_no_notes inner h
  | .condOp _ _ _ more c l r, h => by
    simp only [SExpr.paths, List.append_eq_nil_iff] at h
    obtain ⟨⟨⟨h1, h2⟩, h3⟩, h4⟩ := h
    simp [notesOf, no_paths_no_notes c h1, h2, no_paths_no_notes l h3, no_paths_no_notes r h4]
  | .other _ _ reads, h => by simp only [SExpr.paths] at h; simp [notesOf, h]

theorem no_paths_no_notes_list {S : SynEnv} {w : Bool} : ∀ (es : List SExpr), pathsList es = [] → notesAll S w es = []
  | [], _ => by simp [notesAll]
  | e :: es, h => by
    simp only [pathsList, List.append_eq_nil_iff] at h
    simp [notesAll, no_paths_no_notes e h.1, no_paths_no_notes_list es h.2]
end

theorem elabLhs_drives {S : SynEnv} {seg : Seg} : ∀ {xs : List Src} {rs : List Ref}, elabLhs S seg xs = .ok rs →
    rs.map (fun r => (r.sym, r.bounds)) = xs.filterMap fun s =>
      match s with
      | .lsp p lo _ => p.root.map fun r => (r, lspRange p lo seg)
      | _ => none := by
  intro xs
  induction xs with
  | nil => intro rs h; cases h; rfl
  | cons x xs ih =>
    intro rs h
    cases x with
    | lsp p lo hi =>
      simp only [elabLhs] at h
      cases hp : p.root with
      | none => rw [hp] at h; cases h
      | some y =>
        rw [hp] at h
        simp only at h
        cases he : elabLhs S seg xs with
        | error e => rw [he] at h; cases h
        | ok l =>
          rw [he] at h
          cases h
          simp [ih he, hp, SynEnv.ref]
    | _ => simp only [elabLhs] at h; simpa using ih h

theorem elabRhs_reads {S : SynEnv} (hauto : ∀ x, S.auto x = false) {a : SAsg} {seg : Seg} :
    ∀ {xs : List Src} {rs : List RSrc}, elabRhs S a seg xs = .ok rs → ∀ s ∈ xs, ∀ d ∈ s.reads seg,
      ∃ y ∈ rs, ∃ r, SrcReads y r ∧ r.sym = d.1 ∧ r.bounds = d.2 := by
  intro xs
  induction xs with
  | nil => intro rs h s hs; cases hs
  | cons x xs ih =>
    intro rs h s hs d hd
    simp only [elabRhs] at h
    cases he : elabRhs S a seg xs with
    | error e => rw [he] at h; cases h
    | ok l =>
      rw [he] at h
      simp only at h
      have tail : s ∈ xs → ∀ z, rs = z :: l → ∃ y ∈ rs, ∃ r, SrcReads y r ∧ r.sym = d.1 ∧ r.bounds = d.2 := by
        intro hm z hz
        obtain ⟨y, hy, hr⟩ := ih he s hm d hd
        exact ⟨y, hz ▸ List.mem_cons_of_mem _ hy, hr⟩
      cases x with
      | lsp p lo hi =>
        simp only at h
        cases hp : p.root with
        | none => rw [hp] at h; cases h
        | some y =>
          rw [hp] at h
          cases h
          rcases List.mem_cons.1 hs with rfl | hs
          · simp only [Src.reads, hp, Option.toList_some, List.map_cons, List.map_nil, List.mem_singleton] at hd
            subst hd
            exact ⟨_, List.mem_cons_self, _, .lsp _, rfl, rfl⟩
          · exact tail hs _ rfl
      | «opaque» e =>
        cases h
        rcases List.mem_cons.1 hs with rfl | hs
        · simp only [Src.reads, List.mem_filterMap] at hd
          obtain ⟨p, hp, hx⟩ := hd
          cases hr : p.root with
          | none => rw [hr] at hx; cases hx
          | some y =>
            rw [hr] at hx
            cases hx
            exact ⟨_, List.mem_cons_self, S.ref y p ⟨p.lo, p.hi⟩,
              .inside (List.mem_map.2 ⟨_, notes_paths e p y hp hr, rfl⟩) (hauto y), rfl, rfl⟩
        · exact tail hs _ rfl
      | padding b =>
        cases h
        rcases List.mem_cons.1 hs with rfl | hs
        · simp [Src.reads] at hd
        · exact tail hs _ rfl
      | const v lo hi =>
        cases h
        rcases List.mem_cons.1 hs with rfl | hs
        · simp [Src.reads] at hd
        · exact tail hs _ rfl
      | portNode => cases h

/-- A segment and what the analysis sees of it. -/
structure SegSeen (a : SAsg) (seg : Seg) (g : DSeg) : Prop where
  writes : ∀ x (p : Int), (∃ r ∈ g.lhs, r.sym = x ∧ InRng r.bounds p) ↔ ∃ k, seg.lo ≤ k ∧ k < seg.hi ∧ StandsFor a.lhs k x p
  reads : ∀ k, seg.lo ≤ k → k < seg.hi → ∀ x q : Nat, Routes a.rhs k x q →
    ∃ y ∈ g.rhs, ∃ r, SrcReads y r ∧ r.sym = x ∧ InRng r.bounds q

theorem seg_seen {S : SynEnv} (hc : CutsOk S.cuts) (hauto : ∀ x, S.auto x = false) {a : SAsg} (hp : Proper S a)
    (hrs : Static a.rhs) {segs : List Seg} (hw : assignWalk true true S.cuts a.lhs a.rhs = .segments segs)
    {seg : Seg} (hm : seg ∈ segs) {l : List Ref} {r : List RSrc} (hl : elabLhs S seg seg.lhs = .ok l)
    (hr : elabRhs S a seg seg.rhs = .ok r) (loc : TextLoc) : seg.lo < seg.hi ∧ SegSeen a seg ⟨l, r, loc⟩ := by
  obtain ⟨segs', e1, e2, e3⟩ := assign_bits_partial hc hp.left hp.right hp.width hp.target hp.fixed hrs
  obtain ⟨segs'', f1, f2, f3⟩ := assign_origins hc hp.left hp.right hp.width
  rw [hw] at e1 f1
  cases e1
  cases f1
  have hlt : seg.lo < seg.hi := by
    have : ∀ (lo hi : Nat) (l : List Seg), TiledSeg lo hi l → seg ∈ l → seg.lo < seg.hi := by
      intro lo hi l
      induction l generalizing lo with
      | nil => intro _ h; cases h
      | cons s l ih =>
        intro ht h
        rcases List.mem_cons.1 h with rfl | h
        · exact ht.2.1
        · exact ih _ ht.2.2 h
    exact this _ _ _ e2 hm
  have hle := (f3 seg hm).2.2.1
  have hdr : l.map (fun r => (r.sym, r.bounds)) = seg.drives := elabLhs_drives hl
  have hwid : ∀ d ∈ seg.drives, ∃ q : Nat, d.2.left = q ∧ d.2.right = d.2.left + (seg.hi - seg.lo : Nat) - 1 := by
    intro d hd
    simp only [Seg.drives, List.mem_filterMap] at hd
    obtain ⟨s, _, hs⟩ := hd
    cases s with
    | lsp p lo hi =>
      simp only [Option.map_eq_some_iff] at hs
      obtain ⟨y, _, rfl⟩ := hs
      exact ⟨p.lo + (seg.lo - lo), by simp only [lspRange]; omega, by simp only [lspRange, Seg.width]⟩
    | _ => cases hs
  refine ⟨hlt, ⟨fun x p => ?_, fun k k1 k2 x q hq => ?_⟩⟩
  · constructor
    · rintro ⟨rf, hrf, rfl, hin⟩
      have hd : (rf.sym, rf.bounds) ∈ seg.drives := hdr ▸ List.mem_map.2 ⟨rf, hrf, rfl⟩
      obtain ⟨q, g1, g2⟩ := hwid _ hd
      simp only at g1 g2
      have hin' := (inRng_iff _ _).1 hin
      simp only [BitRange.lower, BitRange.upper] at hin'
      have h1 : (q : Int) ≤ p := by omega
      obtain ⟨n, hn⟩ : ∃ n : Nat, p = n := ⟨p.toNat, by omega⟩
      refine ⟨seg.lo + (n - q), by omega, by omega, stands_iff.2 ⟨n, hn, ?_⟩⟩
      rw [lhsBit_routes a.lhs hp.left hp.target hp.fixed _ (by omega)]
      refine ((e3 seg hm _ (by omega) (by omega) rf.sym n).1).1 ⟨_, hd, rfl, ?_, g2⟩
      simp only
      omega
    · rintro ⟨k, k1, k2, hst⟩
      obtain ⟨q, rfl, hq⟩ := stands_iff.1 hst
      rw [lhsBit_routes a.lhs hp.left hp.target hp.fixed _ (by omega)] at hq
      obtain ⟨d, hd, d1, d2, d3⟩ := ((e3 seg hm k k1 k2 x q).1).2 hq
      rw [← hdr] at hd
      obtain ⟨rf, hrf, rfl⟩ := List.mem_map.1 hd
      refine ⟨rf, hrf, d1, (inRng_iff _ _).2 ?_⟩
      simp only [BitRange.lower, BitRange.upper] at d2 d3 ⊢
      omega
  · obtain ⟨s, hs, hrd⟩ := (e3 seg hm k k1 k2 x q).2.1 hq
    have : ∃ d ∈ s.reads seg, d.1 = x ∧ InRng d.2 q := by
      cases s with
      | «opaque» e =>
        obtain ⟨d, hd, h1, h2, h3⟩ := hrd
        refine ⟨d, hd, h1, (inRng_iff _ _).2 ?_⟩
        simp only [BitRange.lower, BitRange.upper]
        omega
      | _ =>
        obtain ⟨d, hd, h1, h2, h3⟩ := hrd
        refine ⟨d, hd, h1, (inRng_iff _ _).2 ?_⟩
        simp only [BitRange.lower, BitRange.upper]
        omega
    obtain ⟨d, hd, d1, d2⟩ := this
    obtain ⟨y, hy, rf, g1, g2, g3⟩ := elabRhs_reads hauto hr s hs d hd
    exact ⟨y, hy, rf, g1, g2.trans d1, g3 ▸ d2⟩

/-! ### Assignments taken as a whole -/

mutual
theorem notes_read {S : SynEnv} : ∀ (e : SExpr), ∀ n ∈ notesOf S false e, n.write = false
  | .lsp w p sels, n, h => by
    simp only [notesOf, List.mem_append] at h
    rcases h with h | h
    · exact notes_read_list sels n h
    · simp only [SynEnv.note, Option.mem_toList, Option.mem_def, Option.map_eq_some_iff] at h
      obtain ⟨x, _, rfl⟩ := h
      rfl
  | .concat w ops, n, h => by simp only [notesOf] at h; exact notes_read_list ops n h
  | .repl w c inner, n, h => by simp only [notesOf] at h; exact notes_read inner n h
  | .conv w s f inner, n, h => by simp only [notesOf] at h; exact notes_read inner n h
  | .condOp w k pt more c l r, n, h => by
    simp only [notesOf, List.mem_append, List.mem_filterMap] at h
    rcases h with ((h | ⟨p, _, h⟩) | h) | h
    · exact notes_read c n h
    · simp only [SynEnv.note, Option.map_eq_some_iff] at h
      obtain ⟨x, _, rfl⟩ := h
      rfl
    · exact notes_read l n h
    · exact notes_read r n h
  | .other w f reads, n, h => by
    simp only [notesOf, List.mem_filterMap] at h
    obtain ⟨p, _, h⟩ := h
    simp only [SynEnv.note, Option.map_eq_some_iff] at h
    obtain ⟨x, _, rfl⟩ := h
    rfl

theorem notes_read_list {S : SynEnv} : ∀ (es : List SExpr), ∀ n ∈ notesAll S false es, n.write = false
  | [], _, h => by simp [notesAll] at h
  | e :: es, n, h => by
    simp only [notesAll, List.mem_append] at h
    rcases h with h | h
    · exact notes_read e n h
    · exact notes_read_list es n h
end

/-- A note of a write of bit `p` of `x`. -/
def WritesBit (x : Nat) (p : Int) (n : Note) : Prop :=
  n.write = true ∧ n.ref.auto = false ∧ n.ref.sym = x ∧ InRng n.ref.bounds p

mutual
theorem notes_write {S : SynEnv} (hauto : ∀ x, S.auto x = false) (x : Nat) (p : Int) : ∀ (e : SExpr),
    WT S.cuts e → Lvalue e → Static e → ((∃ n ∈ notesOf S true e, WritesBit x p n) ↔ ∃ k, k < e.width ∧ StandsFor e k x p)
  | .lsp w q sels, _, hl, hs => by
    simp only [Static] at hs
    simp only [Lvalue] at hl
    cases hq : q.root with
    | none => exact absurd hq hl
    | some y =>
      simp only [notesOf, no_paths_no_notes_list sels hs.2, List.nil_append, SynEnv.note, hq, Option.map_some,
        Option.toList_some, List.mem_singleton, exists_eq_left, WritesBit, SynEnv.ref, hauto, true_and, SExpr.width,
        stands_iff, lhsBit, inRng_iff, BitRange.lower, BitRange.upper, LspPath.hi, Option.some.injEq, Prod.mk.injEq]
      constructor
      · rintro ⟨rfl, h1, h2⟩
        exact ⟨(p - q.lo).toNat, by omega, q.lo + (p - q.lo).toNat, by omega, rfl, rfl⟩
      · rintro ⟨k, hk, n, rfl, rfl, rfl⟩
        exact ⟨rfl, by omega, by omega⟩
  | .concat w ops, hw, hl, hs => by
    simp only [WT] at hw
    simp only [Lvalue] at hl
    simp only [Static] at hs
    simp only [notesOf, SExpr.width, hw.1, stands_iff, lhsBit]
    exact notes_writes hauto x p ops hw.2 hl hs
  | .repl .., _, h, _ => by simp [Lvalue] at h
  | .conv .., _, h, _ => by simp [Lvalue] at h
  | .condOp .., _, h, _ => by simp [Lvalue] at h
  | .other .., _, h, _ => by simp [Lvalue] at h

theorem notes_writes {S : SynEnv} (hauto : ∀ x, S.auto x = false) (x : Nat) (p : Int) : ∀ (es : List SExpr),
    WTs S.cuts es → LvalueOps es → StaticOps es → ((∃ n ∈ notesAll S true es, WritesBit x p n) ↔
      ∃ k, k < (es.map SExpr.width).sum ∧ ∃ q : Nat, p = q ∧ lhsBitOps es k = some (x, q))
  | [], _, _, _ => by simp [notesAll]
  | e :: es, hw, hl, hs => by
    simp only [WTs] at hw
    simp only [LvalueOps] at hl
    simp only [StaticOps] at hs
    have h1 := notes_write hauto x p e hw.1 hl.1 hs.1
    have h2 := notes_writes hauto x p es hw.2 hl.2 hs.2
    simp only [notesAll, List.mem_append, List.map_cons, List.sum_cons, lhsBitOps]
    constructor
    · rintro ⟨n, hn | hn, hwn⟩
      · obtain ⟨k, hk, hst⟩ := h1.1 ⟨n, hn, hwn⟩
        obtain ⟨q, hq, hb⟩ := stands_iff.1 hst
        exact ⟨k + (es.map SExpr.width).sum, by omega, q, hq, by rw [if_neg (by omega), Nat.add_sub_cancel, hb]⟩
      · obtain ⟨k, hk, q, hq, hb⟩ := h2.1 ⟨n, hn, hwn⟩
        exact ⟨k, by omega, q, hq, by rw [if_pos hk, hb]⟩
    · rintro ⟨k, hk, q, hq, hb⟩
      by_cases h : k < (es.map SExpr.width).sum
      · rw [if_pos h] at hb
        obtain ⟨n, hn, hwn⟩ := h2.2 ⟨k, h, q, hq, hb⟩
        exact ⟨n, .inr hn, hwn⟩
      · rw [if_neg h] at hb
        obtain ⟨n, hn, hwn⟩ := h1.2 ⟨k - (es.map SExpr.width).sum, by omega, stands_iff.2 ⟨q, hq, hb⟩⟩
        exact ⟨n, .inl hn, hwn⟩
end

/-! ### Assignments -/

variable {V : Type}

/-- The values some bits of an assignment give to the bits of signals. -/
def partOf (M : Sense V) (a : SAsg) (lo hi : Nat) (ρ : Vals V) (x : Nat) (p : Int) : V :=
  match lastBit a.lhs x p lo hi with
  | some k => M.value a.loc ρ k
  | none => M.bit .zero

/-- The values given by node `i` of an assignment. -/
def partAt (S : SynEnv) (M : Sense V) (a : SAsg) (i : Nat) : Vals V → Nat → Int → V :=
  match assignWalk S.T.opts.resolveBits a.integral S.cuts a.lhs a.rhs with
  | .segments segs =>
    match segs[i]? with
    | some seg => partOf M a seg.lo seg.hi
    | none => partOf M a 0 0
  | _ => partOf M a 0 a.lhs.width

theorem part_looks {M : Sense V} {a : SAsg} {lo hi : Nat} {R : Nat → Int → Prop}
    (h : ∀ k, lo ≤ k → k < hi → LooksAt R fun ρ => M.value a.loc ρ k) : LooksAt R (partOf M a lo hi) := by
  intro ρ ρ' he
  funext x p
  simp only [partOf]
  cases hl : lastBit a.lhs x p lo hi with
  | none => rfl
  | some k =>
    obtain ⟨h1, h2, _⟩ := lastBit_some hl
    exact h k h1 h2 ρ ρ' he

theorem elabSegs_at {S : SynEnv} {place : TextLoc → Nat → TextLoc} {a : SAsg} (hf : a.force = false)
    (hv : a.lvalueArg = false) : ∀ {segs : List Seg} {gs : List DSeg} {i : Nat}, elabSegs S place a i segs = .ok gs →
    ∀ g ∈ gs, ∃ j seg, segs[j]? = some seg ∧ elabLhs S seg seg.lhs = .ok g.lhs ∧ elabRhs S a seg seg.rhs = .ok g.rhs ∧
      g.loc = place a.loc (i + j) := by
  intro segs
  induction segs with
  | nil => intro gs i h; cases h; simp
  | cons seg segs ih =>
    intro gs i h
    simp only [elabSegs, hf, hv, Bool.false_eq_true, if_false] at h
    cases hl : elabLhs S seg seg.lhs with
    | error e => rw [hl] at h; cases h
    | ok l =>
      cases hr : elabRhs S a seg seg.rhs with
      | error e => rw [hl, hr] at h; cases h
      | ok r =>
        cases hs : elabSegs S place a (i + 1) segs with
        | error e => rw [hl, hr, hs] at h; cases h
        | ok l' =>
          rw [hl, hr, hs] at h
          cases h
          intro g hg
          rcases List.mem_cons.1 hg with rfl | hg
          · exact ⟨0, seg, rfl, hl, hr, rfl⟩
          · obtain ⟨j, s, h1, h2, h3, h4⟩ := ih hs g hg
            exact ⟨j + 1, s, h1, h2, h3, by rw [h4]; congr 1; omega⟩

theorem segs_store {S : SynEnv} {a : SAsg} (hf : a.force = false) (hv : a.lvalueArg = false) {M : Sense V}
    {M' : Meaning V} : ∀ {segs : List Seg} {gs : List DSeg} {i lo hi : Nat}, elabSegs S spot a i segs = .ok gs →
    TiledSeg lo hi segs →
    (∀ seg ∈ segs, ∀ l r loc, elabLhs S seg seg.lhs = .ok l → elabRhs S a seg seg.rhs = .ok r →
      SegSeen a seg ⟨l, r, loc⟩) →
    (∀ j seg, segs[j]? = some seg → M'.value (spot a.loc (i + j)) = partOf M a seg.lo seg.hi) →
    lo ≤ hi ∧ ∀ loc (ρ0 ρ : Vals V) x p, store M' ρ0 (asgWrites loc true (.aligned gs)) ρ x p =
      match lastBit a.lhs x p lo hi with | some k => M.value a.loc ρ0 k | none => ρ x p := by
  intro segs
  induction segs with
  | nil =>
    intro gs i lo hi h ht _ _
    cases h
    simp only [TiledSeg] at ht
    subst ht
    refine ⟨Nat.le_refl _, fun loc ρ0 ρ x p => ?_⟩
    cases hl : lastBit a.lhs x p lo lo with
    | none => rfl
    | some k => have := lastBit_some hl; omega
  | cons seg segs ih =>
    intro gs i lo hi h ht hs hval
    simp only [elabSegs, hf, hv, Bool.false_eq_true, if_false] at h
    cases hl : elabLhs S seg seg.lhs with
    | error e => rw [hl] at h; cases h
    | ok l =>
      cases hr : elabRhs S a seg seg.rhs with
      | error e => rw [hl, hr] at h; cases h
      | ok r =>
        cases hsg : elabSegs S spot a (i + 1) segs with
        | error e => rw [hl, hr, hsg] at h; cases h
        | ok l' =>
          rw [hl, hr, hsg] at h
          cases h
          obtain ⟨t1, t2, t3⟩ := ht
          subst t1
          obtain ⟨i1, i2⟩ := ih hsg t3 (fun s hs' => hs s (List.mem_cons_of_mem _ hs')) fun j s hj => by
            have := hval (j + 1) s hj
            rw [← this]; congr 2; omega
          refine ⟨by omega, fun loc ρ0 ρ x p => ?_⟩
          have hsn := hs seg List.mem_cons_self l r (spot a.loc i) hl hr
          have hv0 : M'.value (spot a.loc i) = partOf M a seg.lo seg.hi := hval 0 seg rfl
          have happ : ∀ (u v : List Wr) (ρ : Vals V), store M' ρ0 (u ++ v) ρ = store M' ρ0 v (store M' ρ0 u ρ) := by
            intro u
            induction u with
            | nil => intros; rfl
            | cons w u ihu => intro v ρ; simp only [List.cons_append, store, ihu]
          have hwr : asgWrites loc true (.aligned (⟨l, r, spot a.loc i⟩ :: l')) =
              (l.map fun r => (⟨r.sym, r.bounds, spot a.loc i, true⟩ : Wr)) ++ asgWrites loc true (.aligned l') := rfl
          rw [hwr, happ, i2, lastBit_join (Nat.le_of_lt t2) hi i1]
          cases lastBit a.lhs x p seg.hi hi with
          | some k => rfl
          | none =>
            have hbl : ∀ w ∈ l.map fun r => (⟨r.sym, r.bounds, spot a.loc i, true⟩ : Wr), w.blocking = true := by
              intro w hw
              obtain ⟨_, _, rfl⟩ := List.mem_map.1 hw
              rfl
            simp only
            rcases store_cases (M := M') hbl x p with ⟨h1, h2⟩ | ⟨w, hw, h1, h2⟩
            · rw [h2]
              cases hlb : lastBit a.lhs x p seg.lo seg.hi with
              | none => rfl
              | some k =>
                obtain ⟨k1, k2, k3⟩ := lastBit_some hlb
                obtain ⟨rf, hrf, e1, e2⟩ := (hsn.writes x p).2 ⟨k, k1, k2, k3⟩
                exact absurd ⟨rfl, e1, e2⟩ (h1 _ (List.mem_map.2 ⟨rf, hrf, rfl⟩))
            · rw [h2]
              obtain ⟨rf0, _, rfl⟩ := List.mem_map.1 hw
              simp only
              rw [hv0, partOf]
              obtain ⟨_, w, _, e0, e1, _, _⟩ := h1
              have hw' : w ∈ l.map fun r => (⟨r.sym, r.bounds, spot a.loc i, true⟩ : Wr) := by rw [e0]; simp
              obtain ⟨rf, hrf, rfl⟩ := List.mem_map.1 hw'
              obtain ⟨k, k1, k2, k3⟩ := (hsn.writes x p).1 ⟨rf, hrf, e1.2.1, e1.2.2⟩
              cases hlb : lastBit a.lhs x p seg.lo seg.hi with
              | none => exact absurd k3 (lastBit_none hlb k k1 k2)
              | some k => rfl

/-- What the analysis sees of an assignment: the run is that of the text, the values are computed from
what is read, and the bits written are those of the left side. -/
theorem asg_seen {S : SynEnv} (hc : CutsOk S.cuts) (hauto : ∀ x, S.auto x = false) {a : SAsg} (hp : Proper S a)
    {M : Sense V} (hd : Denotes M.bit a.rhs (M.value a.loc)) {M' : Meaning V}
    (hval : ∀ i, M'.value (spot a.loc i) = partAt S M a i) {x : Asg} (hx : elabAsg S spot a = .ok x) :
    (∀ ρ, store M' ρ (asgWrites (spot a.loc 0) true x) ρ = putBits (M.value a.loc) a.lhs ρ) ∧
    (∀ l ∈ asgLocs (spot a.loc 0) x, LooksAt (BitsIn (AsgReads (spot a.loc 0) x l)) (M'.value l)) ∧
    ∀ y p, (∃ w ∈ asgWrites (spot a.loc 0) true x, Hits true y p w) ↔ ∃ k, k < a.lhs.width ∧ StandsFor a.lhs k y p := by
  by_cases hb : S.T.opts.resolveBits = true ∧ a.integral = true
  · have hrs := hp.static hb.1 hb.2
    obtain ⟨segs, e1, e2, e3⟩ := assign_origins hc hp.left hp.right hp.width
    have hw : assignWalk S.T.opts.resolveBits a.integral S.cuts a.lhs a.rhs = .segments segs := by
      rw [hb.1, hb.2]; exact e1
    simp only [elabAsg, hw] at hx
    cases hg : elabSegs S spot a 0 segs with
    | error e => rw [hg] at hx; cases hx
    | ok gs =>
      rw [hg] at hx
      cases hx
      have hseen : ∀ seg ∈ segs, ∀ l r loc, elabLhs S seg seg.lhs = .ok l → elabRhs S a seg seg.rhs = .ok r →
          SegSeen a seg ⟨l, r, loc⟩ :=
        fun seg hm l r loc hl hr => (seg_seen hc hauto hp hrs e1 hm hl hr loc).2
      have hv : ∀ j seg, segs[j]? = some seg → M'.value (spot a.loc j) = partOf M a seg.lo seg.hi := by
        intro j seg hj
        rw [hval j, partAt, hw]
        simp only [hj]
      obtain ⟨_, hst⟩ := segs_store hp.force hp.lvalueArg hg e2 hseen (M := M) (M' := M') fun j seg hj => by
        rw [Nat.zero_add]; exact hv j seg hj
      refine ⟨fun ρ => by funext y p; rw [hst]; rfl, fun l hl => ?_, fun y p => ⟨?_, ?_⟩⟩
      · obtain ⟨g, hg1, rfl⟩ := List.mem_map.1 hl
        obtain ⟨j, seg, f1, f2, f3, f4⟩ := elabSegs_at hp.force hp.lvalueArg hg g hg1
        have hm : seg ∈ segs := List.mem_of_getElem? f1
        rw [Nat.zero_add] at f4
        rw [f4, hv j seg f1]
        refine part_looks fun k k1 k2 => ?_
        have hle := (e3 seg hm).2.2.1
        refine looks_mono (denotes_routes S.cuts a.rhs hp.right hrs _ hd k (by rw [← hp.width]; omega)) ?_
        rintro y p ⟨q, rfl, hr⟩
        obtain ⟨z, hz, r, r1, r2, r3⟩ := (hseen seg hm g.lhs g.rhs (spot a.loc j) f2 f3).reads k k1 k2 y q hr
        exact ⟨r, f4 ▸ .seg hg1 hz r1, r2, r3⟩
      · rintro ⟨w, hw', h1, h2, h3⟩
        simp only [asgWrites, List.mem_flatMap, List.mem_map] at hw'
        obtain ⟨g, hg1, r, hr, rfl⟩ := hw'
        obtain ⟨j, seg, f1, f2, f3, f4⟩ := elabSegs_at hp.force hp.lvalueArg hg g hg1
        have hm : seg ∈ segs := List.mem_of_getElem? f1
        obtain ⟨k, k1, k2, k3⟩ := ((hseen seg hm g.lhs g.rhs (spot a.loc j) f2 f3).writes y p).1 ⟨r, hr, h2, h3⟩
        have hle := (e3 seg hm).2.2.1
        exact ⟨k, by omega, k3⟩
      · rintro ⟨k, hk, hst'⟩
        refine Classical.byContradiction fun hno => ?_
        have hno' : ∀ w ∈ asgWrites (spot a.loc 0) true (.aligned gs), ¬ Hits true y p w := fun w h1 h2 => hno ⟨w, h1, h2⟩
        -- the segment with bit `k`
        have hcov : ∀ (l : List Seg) (lo hi : Nat), TiledSeg lo hi l → lo ≤ k → k < hi → ∃ (j : Nat) (seg : Seg), l[j]? = some seg ∧
            seg.lo ≤ k ∧ k < seg.hi := by
          intro l
          induction l with
          | nil => intro lo hi ht h1 h2; simp only [TiledSeg] at ht; omega
          | cons s l ih =>
            intro lo hi ht h1 h2
            obtain ⟨t1, t2, t3⟩ := ht
            by_cases h : k < s.hi
            · exact ⟨0, s, rfl, by omega, h⟩
            · obtain ⟨j, seg, g1, g2⟩ := ih _ _ t3 (by omega) h2
              exact ⟨j + 1, seg, g1, g2⟩
        obtain ⟨j, seg, f1, f2, f3⟩ := hcov segs 0 _ e2 (by omega) hk
        have hat : ∀ {l : List Seg} {gs : List DSeg} {i : Nat}, elabSegs S spot a i l = .ok gs → ∀ (j : Nat) (seg : Seg), l[j]? = some seg →
            ∃ g ∈ gs, elabLhs S seg seg.lhs = .ok g.lhs ∧ elabRhs S a seg seg.rhs = .ok g.rhs := by
          intro l
          induction l with
          | nil => intro gs i _ j seg hj; simp at hj
          | cons s l ih =>
            intro gs i h j seg hj
            simp only [elabSegs, hp.force, hp.lvalueArg, Bool.false_eq_true, if_false] at h
            cases hl : elabLhs S s s.lhs with
            | error e => rw [hl] at h; cases h
            | ok l1 =>
              cases hr : elabRhs S a s s.rhs with
              | error e => rw [hl, hr] at h; cases h
              | ok r1 =>
                cases hsg : elabSegs S spot a (i + 1) l with
                | error e => rw [hl, hr, hsg] at h; cases h
                | ok l' =>
                  rw [hl, hr, hsg] at h
                  cases h
                  cases j with
                  | zero => cases hj; exact ⟨_, List.mem_cons_self, hl, hr⟩
                  | succ j =>
                    obtain ⟨g, h1, h2⟩ := ih hsg j seg hj
                    exact ⟨g, List.mem_cons_of_mem _ h1, h2⟩
        obtain ⟨g, g1, g2, g3⟩ := hat hg j seg f1
        have hm : seg ∈ segs := List.mem_of_getElem? f1
        obtain ⟨r, hr, r1, r2⟩ := ((hseen seg hm g.lhs g.rhs g.loc g2 g3).writes y p).2 ⟨k, f2, f3, hst'⟩
        exact hno' ⟨r.sym, r.bounds, g.loc, true⟩
          (List.mem_flatMap.2 ⟨g, g1, List.mem_map.2 ⟨r, hr, rfl⟩⟩) ⟨rfl, r1, r2⟩
  · have hw : assignWalk S.T.opts.resolveBits a.integral S.cuts a.lhs a.rhs = .legacy :=
      (assign_walk_choice hc hp.left hp.right _ _).2.2 fun h => hb ⟨h.1, h.2.1⟩
    simp only [elabAsg, hw, hp.force, hp.lvalueArg, Bool.not_false, Bool.false_eq_true, if_false] at hx
    cases hx
    have hwr : ∀ y p, (∃ w ∈ asgWrites (spot a.loc 0) true (.legacy (notesOf S true a.lhs ++ notesOf S false a.rhs)),
        Hits true y p w) ↔ ∃ k, k < a.lhs.width ∧ StandsFor a.lhs k y p := by
      intro y p
      rw [← notes_write hauto y p a.lhs hp.left hp.target hp.fixed]
      simp only [asgWrites, targets, List.map_map, List.mem_map, List.mem_filter, List.mem_append]
      constructor
      · rintro ⟨w, ⟨n, ⟨hn, hf⟩, rfl⟩, _, h2, h3⟩
        simp only [Bool.and_eq_true, Bool.not_eq_true'] at hf
        rcases hn with hn | hn
        · exact ⟨n, hn, hf.1, hf.2, h2, h3⟩
        · rw [notes_read a.rhs n hn] at hf
          exact absurd hf.1 (by simp)
      · rintro ⟨n, hn, h1, h2, h3, h4⟩
        exact ⟨_, ⟨n, ⟨.inl hn, by simp [h1, h2]⟩, rfl⟩, rfl, h3, h4⟩
    have hv : M'.value (spot a.loc 0) = partOf M a 0 a.lhs.width := by rw [hval 0, partAt, hw]
    refine ⟨fun ρ => ?_, fun l hl => ?_, hwr⟩
    · funext y p
      simp only [putBits]
      rcases store_cases (M := M') (writes_blocking (loc := spot a.loc 0)
        (a := .legacy (notesOf S true a.lhs ++ notesOf S false a.rhs))) y p with ⟨h1, h2⟩ | ⟨w, hw', h1, h2⟩
      · rw [h2]
        cases hlb : lastBit a.lhs y p 0 a.lhs.width with
        | none => rfl
        | some k =>
          obtain ⟨_, k2, k3⟩ := lastBit_some hlb
          obtain ⟨w, w1, w2⟩ := (hwr y p).2 ⟨k, k2, k3⟩
          exact absurd w2 (h1 w w1)
      · rw [h2]
        have hl := writes_locs w hw'
        simp only [asgLocs, List.mem_singleton] at hl
        rw [hl, hv, partOf]
        obtain ⟨_, v, _, e0, e1, _, _⟩ := h1
        obtain ⟨k, k2, k3⟩ := (hwr y p).1 ⟨v, by rw [e0]; simp, e1⟩
        cases hlb : lastBit a.lhs y p 0 a.lhs.width with
        | none => exact absurd k3 (lastBit_none hlb k (Nat.zero_le _) k2)
        | some k => rfl
    · simp only [asgLocs, List.mem_singleton] at hl
      subst hl
      rw [hv]
      refine part_looks fun k _ k2 => ?_
      refine looks_mono (denotes_paths S.cuts a.rhs hp.right _ hd k (by rw [← hp.width]; exact k2)) ?_
      rintro y p ⟨q, rfl, pt, hpt, h1, h2, h3⟩
      refine ⟨S.ref y pt ⟨pt.lo, pt.hi⟩, .note (List.mem_append_right _ (notes_paths a.rhs pt y hpt h1)) (hauto y), rfl,
        (inRng_iff _ _).2 ?_⟩
      simp only [SynEnv.ref, BitRange.lower, BitRange.upper]
      omega

end Verif.Proofs
