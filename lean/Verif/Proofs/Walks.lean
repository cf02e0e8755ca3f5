import Verif.Spec.Walks
import Verif.Proofs.Force
import Verif.Proofs.DataflowUse

/-! The walk by bits and the walk by sides write the same bits. -/
namespace Verif.Proofs
open Verif.Spec Verif.Model Verif.Props

theorem lastAt_cat {b : Bool} {u v : List Wr} {x : Nat} {p : Int} {l : TextLoc} :
    LastAt b (u ++ v) x p l ↔ LastAt b v x p l ∨ ((∀ k, ¬ LastAt b v x p k) ∧ LastAt b u x p l) := by
  have hv : (∀ k, ¬ LastAt b v x p k) ↔ ∀ w ∈ v, ¬ Hits b x p w := by
    constructor
    · intro h w hw hh
      obtain ⟨k, hk⟩ := lastAt_of_hit ⟨w, hw, hh⟩
      exact h k hk
    · intro h k hk
      obtain ⟨w, hw, hh⟩ := lastAt_hits hk
      exact h w hw hh
  rw [hv]
  clear hv
  induction u with
  | nil =>
    simp only [List.nil_append]
    refine ⟨.inl, fun h => h.elim id fun h => ?_⟩
    obtain ⟨w, hw, _⟩ := lastAt_hits h.2
    cases hw
  | cons w u ih =>
    rw [List.cons_append, lastAt_cons, lastAt_cons]
    simp only [List.mem_append]
    grind

theorem sameLast_refl (u : List Wr) : SameLast u u := fun _ _ _ _ => .rfl

theorem sameLast_append {u u' v v' : List Wr} (h : SameLast u u') (k : SameLast v v') : SameLast (u ++ v) (u' ++ v') := by
  intro b x p l
  simp only [lastAt_cat, h b x p, k b x p]

theorem elabSegs_hit {S : SynEnv} {place : TextLoc → Nat → TextLoc} {a : SAsg} (hf : a.force = false)
    (hv : a.lvalueArg = false) : ∀ {l : List Seg} {gs : List DSeg} {i : Nat}, elabSegs S place a i l = .ok gs →
    ∀ seg ∈ l, ∃ g ∈ gs, elabLhs S seg seg.lhs = .ok g.lhs ∧ elabRhs S a seg seg.rhs = .ok g.rhs := by
  intro l
  induction l with
  | nil => intro gs i _ seg hj; cases hj
  | cons s l ih =>
    intro gs i h seg hj
    simp only [elabSegs, hf, hv, Bool.false_eq_true, if_false] at h
    cases hl : elabLhs S s s.lhs with
    | error e => rw [hl] at h; cases h
    | ok l1 =>
      cases hr : elabRhs S a s s.rhs with
      | error e => rw [hl, hr] at h; cases h
      | ok r1 =>
        cases hsg : elabSegs S place a (i + 1) l with
        | error e => rw [hl, hr, hsg] at h; cases h
        | ok l' =>
          rw [hl, hr, hsg] at h
          cases h
          rcases List.mem_cons.1 hj with rfl | hj
          · exact ⟨_, List.mem_cons_self, hl, hr⟩
          · obtain ⟨g, h1, h2⟩ := ih hsg seg hj
            exact ⟨g, List.mem_cons_of_mem _ h1, h2⟩

theorem tiledSeg_at {k : Nat} : ∀ (l : List Seg) (lo hi : Nat), TiledSeg lo hi l → lo ≤ k → k < hi →
    ∃ seg ∈ l, seg.lo ≤ k ∧ k < seg.hi := by
  intro l
  induction l with
  | nil => intro lo hi ht h1 h2; simp only [TiledSeg] at ht; omega
  | cons s l ih =>
    intro lo hi ht h1 h2
    obtain ⟨t1, t2, t3⟩ := ht
    by_cases h : k < s.hi
    · exact ⟨s, List.mem_cons_self, by omega, h⟩
    · obtain ⟨seg, g1, g2⟩ := ih _ _ t3 (by omega) h2
      exact ⟨seg, List.mem_cons_of_mem _ g1, g2⟩

/-- In either walk the bits written are those of the left side. -/
theorem asg_bits {S : SynEnv} (hc : CutsOk S.cuts) (hauto : ∀ x, S.auto x = false) {a : SAsg} (hp : Proper S a)
    {place : TextLoc → Nat → TextLoc} {x : Asg} (hx : elabAsg S place a = .ok x) (loc : TextLoc) (b : Bool) (y : Nat)
    (p : Int) : (∃ w ∈ asgWrites loc b x, w.sym = y ∧ InRng w.bounds p) ↔ ∃ k, k < a.lhs.width ∧ StandsFor a.lhs k y p := by
  by_cases hb : S.T.opts.resolveBits = true ∧ a.integral = true
  · have hrs := hp.static hb.1 hb.2
    obtain ⟨segs, e1, e2, e3⟩ := assign_origins hc hp.left hp.right hp.width
    have hw : assignWalk S.T.opts.resolveBits a.integral S.cuts a.lhs a.rhs = .segments segs := by
      rw [hb.1, hb.2]; exact e1
    simp only [elabAsg, hw] at hx
    cases hg : elabSegs S place a 0 segs with
    | error e => rw [hg] at hx; cases hx
    | ok gs =>
      rw [hg] at hx
      cases hx
      have hseen : ∀ seg ∈ segs, ∀ l r loc, elabLhs S seg seg.lhs = .ok l → elabRhs S a seg seg.rhs = .ok r →
          SegSeen a seg ⟨l, r, loc⟩ :=
        fun seg hm l r loc hl hr => (seg_seen hc hauto hp hrs e1 hm hl hr loc).2
      constructor
      · rintro ⟨w, hw', h2, h3⟩
        simp only [asgWrites, List.mem_flatMap, List.mem_map] at hw'
        obtain ⟨g, hg1, r, hr, rfl⟩ := hw'
        obtain ⟨j, seg, f1, f2, f3, f4⟩ := elabSegs_at hp.force hp.lvalueArg hg g hg1
        have hm : seg ∈ segs := List.mem_of_getElem? f1
        obtain ⟨k, k1, k2, k3⟩ := ((hseen seg hm g.lhs g.rhs loc f2 f3).writes y p).1 ⟨r, hr, h2, h3⟩
        have hle := (e3 seg hm).2.2.1
        exact ⟨k, by omega, k3⟩
      · rintro ⟨k, hk, hst'⟩
        obtain ⟨seg, hm, f2, f3⟩ := tiledSeg_at segs 0 _ e2 (Nat.zero_le k) hk
        obtain ⟨g, g1, g2, g3⟩ := elabSegs_hit hp.force hp.lvalueArg hg seg hm
        obtain ⟨r, hr, r1, r2⟩ := ((hseen seg hm g.lhs g.rhs g.loc g2 g3).writes y p).2 ⟨k, f2, f3, hst'⟩
        exact ⟨⟨r.sym, r.bounds, g.loc, b⟩, List.mem_flatMap.2 ⟨g, g1, List.mem_map.2 ⟨r, hr, rfl⟩⟩, r1, r2⟩
  · have hw : assignWalk S.T.opts.resolveBits a.integral S.cuts a.lhs a.rhs = .legacy :=
      (assign_walk_choice hc hp.left hp.right _ _).2.2 fun h => hb ⟨h.1, h.2.1⟩
    simp only [elabAsg, hw, hp.force, hp.lvalueArg, Bool.not_false, Bool.false_eq_true, if_false] at hx
    cases hx
    rw [← notes_write hauto y p a.lhs hp.left hp.target hp.fixed]
    simp only [asgWrites, targets, List.map_map, List.mem_map, List.mem_filter, List.mem_append]
    constructor
    · rintro ⟨w, ⟨n, ⟨hn, hf⟩, rfl⟩, h2, h3⟩
      simp only [Bool.and_eq_true, Bool.not_eq_true'] at hf
      rcases hn with hn | hn
      · exact ⟨n, hn, hf.1, hf.2, h2, h3⟩
      · rw [notes_read a.rhs n hn] at hf
        exact absurd hf.1 (by simp)
    · rintro ⟨n, hn, h1, h2, h3, h4⟩
      exact ⟨_, ⟨n, ⟨.inl hn, by simp [h1, h2]⟩, rfl⟩, h3, h4⟩

theorem lastAt_const {ws : List Wr} {l : TextLoc} {b c : Bool} {x : Nat} {p : Int} {k : TextLoc}
    (h : ∀ w ∈ ws, w.loc = l ∧ w.blocking = b) :
    LastAt c ws x p k ↔ k = l ∧ c = b ∧ ∃ w ∈ ws, w.sym = x ∧ InRng w.bounds p := by
  constructor
  · rintro ⟨pre, w, post, rfl, ⟨h1, h2, h3⟩, h4, _⟩
    obtain ⟨a1, a2⟩ := h w (by simp)
    exact ⟨h4 ▸ a1, by rw [← h1, a2], w, by simp, h2, h3⟩
  · rintro ⟨rfl, rfl, w, hw, h1, h2⟩
    obtain ⟨k', hk⟩ := lastAt_of_hit ⟨w, hw, (h w hw).2, h1, h2⟩
    obtain ⟨pre, v, post, rfl, h3, h4, h5⟩ := hk
    exact ⟨pre, v, post, rfl, h3, (h v (by simp)).1, h5⟩

theorem segs_place {S : SynEnv} {a : SAsg} : ∀ {l : List Seg} {gs : List DSeg} {i : Nat},
    elabSegs S atLoc a i l = .ok gs → ∀ g ∈ gs, g.loc = a.loc
  | [], gs, i, h => by simp only [elabSegs, Except.ok.injEq] at h; subst h; simp
  | s :: l, gs, i, h => by
    simp only [elabSegs] at h
    split at h
    · cases h
    · split at h
      · cases h
      · split at h
        · cases h
        · rename_i gs' h'
          simp only [Except.ok.injEq] at h
          subst h
          intro g hg
          rcases List.mem_cons.1 hg with rfl | hg
          · rfl
          · exact segs_place h' g hg

theorem asg_const {S : SynEnv} {a : SAsg} {x : Asg} (hx : elabAsg S atLoc a = .ok x) (b : Bool) :
    ∀ w ∈ asgWrites a.loc b x, w.loc = a.loc ∧ w.blocking = b := by
  intro w hw
  cases x with
  | legacy ns =>
    simp only [asgWrites, List.mem_map] at hw
    obtain ⟨r, _, rfl⟩ := hw
    exact ⟨rfl, rfl⟩
  | aligned gs =>
    simp only [asgWrites, List.mem_flatMap, List.mem_map] at hw
    obtain ⟨g, hg, r, _, rfl⟩ := hw
    refine ⟨?_, rfl⟩
    unfold elabAsg at hx
    split at hx
    · cases hx
    · cases hx; cases hg
    · cases hx
    · split at hx
      · cases hx
      · rename_i gs' h'
        cases hx
        exact segs_place h' g hg

/-- What two analyses see of a text: path by path the same last writes. -/
structure SameEnds (u v : Stmt) : Prop where
  live : Spec.live u = true ∧ Spec.live v = true
  there : ∀ tr, Runs u tr → ∃ tr', Runs v tr' ∧ SameLast tr tr'
  back : ∀ tr, Runs v tr → ∃ tr', Runs u tr' ∧ SameLast tr tr'
  nba : SameLast (nbaWrites true u) (nbaWrites true v)

theorem sameEnds_refl {u : Stmt} (h : Spec.live u = true) : SameEnds u u :=
  ⟨⟨h, h⟩, fun tr h => ⟨tr, h, sameLast_refl tr⟩, fun tr h => ⟨tr, h, sameLast_refl tr⟩, sameLast_refl _⟩

theorem sameEnds_seq {s t u v : Stmt} (h : SameEnds s u) (k : SameEnds t v) : SameEnds (.seq s t) (.seq u v) := by
  refine ⟨by simp [Spec.live, h.live, k.live], fun tr ht => ?_, fun tr ht => ?_, ?_⟩
  · obtain ⟨a, b, h1, h2, rfl⟩ := runs_seq_iff.1 ht
    obtain ⟨a', i1, i2⟩ := h.there a h1
    obtain ⟨b', j1, j2⟩ := k.there b h2
    exact ⟨a' ++ b', .seq i1 j1, sameLast_append i2 j2⟩
  · obtain ⟨a, b, h1, h2, rfl⟩ := runs_seq_iff.1 ht
    obtain ⟨a', i1, i2⟩ := h.back a h1
    obtain ⟨b', j1, j2⟩ := k.back b h2
    exact ⟨a' ++ b', .seq i1 j1, sameLast_append i2 j2⟩
  · simp only [nbaWrites, h.live, Bool.and_self]
    exact sameLast_append h.nba k.nba

theorem sameEnds_choose {f : Bool} {s t u v : Stmt} (h : SameEnds s u) (k : SameEnds t v) :
    SameEnds (.choose f s t) (.choose f u v) := by
  refine ⟨by simp [Spec.live, h.live, k.live], fun tr ht => ?_, fun tr ht => ?_, sameLast_append h.nba k.nba⟩
  · rcases runs_choose_iff.1 ht with ht | ht
    · obtain ⟨a, i1, i2⟩ := h.there tr ht; exact ⟨a, .first i1, i2⟩
    · obtain ⟨a, i1, i2⟩ := k.there tr ht; exact ⟨a, .second i1, i2⟩
  · rcases runs_choose_iff.1 ht with ht | ht
    · obtain ⟨a, i1, i2⟩ := h.back tr ht; exact ⟨a, .first i1, i2⟩
    · obtain ⟨a, i1, i2⟩ := k.back tr ht; exact ⟨a, .second i1, i2⟩

theorem nba_assign {loc : TextLoc} {b : Bool} {x : Asg} :
    nbaWrites true (.assign loc b x) = if b then [] else asgWrites loc b x := by
  cases b <;> cases x <;> rfl

theorem tidy_ends {S S' : SynEnv} (hc : CutsOk S.cuts) (hc' : CutsOk S'.cuts) (ha : ∀ x, S.auto x = false)
    (ha' : ∀ x, S'.auto x = false) : ∀ {st : SStmt} {u v : Stmt}, OrdText S st → OrdText S' st →
    elabStmt S atLoc st = .ok u → elabStmt S' atLoc st = .ok v → SameEnds u v
  | .skip, u, v, _, _, h, h' => by cases h; cases h'; exact sameEnds_refl rfl
  | .eval e, u, v, _, _, h, h' => by
    cases h; cases h'
    refine ⟨⟨rfl, rfl⟩, fun tr ht => ?_, fun tr ht => ?_, sameLast_refl _⟩ <;>
    · cases ht; exact ⟨[], .reads _, sameLast_refl _⟩
  | .dead, _, _, t, _, _, _ => t.elim
  | .assign b a, u, v, t, t', h, h' => by
    simp only [elabStmt] at h h'
    split at h
    · cases h
    · rename_i x hx
      split at h'
      · cases h'
      · rename_i x' hx'
        cases h; cases h'
        have hs : SameLast (asgWrites (atLoc a.loc 0) b x) (asgWrites (atLoc a.loc 0) b x') := by
          by_cases hf : a.force = true
          · rw [elabAsg_force hf hx, elabAsg_force hf hx']
            exact sameLast_refl _
          have t := t.resolve_left hf
          have t' := t'.resolve_left hf
          intro c y p l
          simp only [atLoc]
          rw [lastAt_const (asg_const hx b), lastAt_const (asg_const hx' b), asg_bits hc ha t hx, asg_bits hc' ha' t' hx']
        have hs' : SameLast (asgWrites (atLoc a.loc 0) b x') (asgWrites (atLoc a.loc 0) b x) :=
          fun c y p l => (hs c y p l).symm
        refine ⟨⟨rfl, rfl⟩, fun tr ht => ?_, fun tr ht => ?_, ?_⟩
        · cases ht; exact ⟨_, .assign .., hs⟩
        · cases ht; exact ⟨_, .assign .., hs'⟩
        · rw [nba_assign, nba_assign]
          cases b
          · exact hs
          · exact sameLast_refl _
  | .cond k loc es t, u, v, hT, hT', h, h' => by
    simp only [elabStmt] at h h'
    split at h
    · cases h
    · rename_i x hx
      split at h'
      · cases h'
      · rename_i x' hx'
        cases h; cases h'
        refine sameEnds_seq (sameEnds_refl rfl) (sameEnds_seq ?_ (tidy_ends (st := t) hc hc' ha ha' hT hT' hx hx'))
        refine ⟨⟨rfl, rfl⟩, fun tr ht => ?_, fun tr ht => ?_, sameLast_refl _⟩ <;>
        · cases ht; exact ⟨[], .reads _, sameLast_refl _⟩
  | .seq s t, u, v, hT, hT', h, h' => by
    simp only [elabStmt] at h h'
    split at h
    · cases h
    · rename_i x hx
      split at h
      · cases h
      · rename_i y hy
        split at h'
        · cases h'
        · rename_i x' hx'
          split at h'
          · cases h'
          · rename_i y' hy'
            cases h; cases h'
            exact sameEnds_seq (tidy_ends hc hc' ha ha' hT.1 hT'.1 hx hx') (tidy_ends hc hc' ha ha' hT.2 hT'.2 hy hy')
  | .choose f s t, u, v, hT, hT', h, h' => by
    simp only [elabStmt] at h h'
    split at h
    · cases h
    · rename_i x hx
      split at h
      · cases h
      · rename_i y hy
        split at h'
        · cases h'
        · rename_i x' hx'
          split at h'
          · cases h'
          · rename_i y' hy'
            cases h; cases h'
            exact sameEnds_choose (tidy_ends hc hc' ha ha' hT.1 hT'.1 hx hx') (tidy_ends hc hc' ha ha' hT.2 hT'.2 hy hy')

end Verif.Proofs
