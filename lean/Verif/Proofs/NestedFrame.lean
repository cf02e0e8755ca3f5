import Verif.Proofs.Nested
import Verif.Proofs.DataflowUse

/-! Node `m` gets no further edges while it is not the current node. -/
namespace Verif.Proofs
open Verif.Model Verif.Spec Verif.Props

/-- Between the two states node `m` got no edge and no pending read. -/
structure Frozen (m : Nat) (s s' : Dfa) : Prop where
  join : ∀ a, Joined s'.net a m → Joined s.net a m
  queue : ∀ x ∈ s'.queue, x.node = some m → x ∈ s.queue

theorem Frozen.trans {m : Nat} {a b c : Dfa} (h : Frozen m a b) (k : Frozen m b c) : Frozen m a c :=
  ⟨fun x hx => h.join x (k.join x hx), fun x hx hm => h.queue x (k.queue x hx hm) hm⟩

theorem addRvalue_frozen {c : DfaCtx} {W : List Wr} {s s' : Dfa} (hok : Ok c W s) {r : Ref} {b : BitRange}
    {n m : Nat} (hn : n ∈ s.net.g.nodes) (hne : n ≠ m) (h : s.addRvalue c r b (some n) = .ok s') : Frozen m s s' := by
  obtain ⟨s1, h1, _, h3, h4⟩ := addRvalue_ok hok r b (node := some n) (by intro k hk; cases hk; exact hn)
  rw [h] at h1
  cases h1
  by_cases hk : c.D.kind r.sym = .modportPort
  · obtain ⟨g1, g2⟩ := h4 n hk rfl
    refine ⟨fun a ha => ?_, fun x hx _ => g1 ▸ hx⟩
    rcases (g2 a m).1 ha with h | h
    · exact h
    · exact absurd h.2.symm hne
  · obtain ⟨g1, g2⟩ := h3 (.inl hk)
    refine ⟨fun a ha => g1 ▸ ha, fun x hx hm => ?_⟩
    rw [g2] at hx
    rcases List.mem_append.1 hx with hx | hx
    · exact hx
    · cases List.mem_singleton.1 hx
      exact absurd (Option.some.inj hm) hne

theorem addRvalues_frozen {c : DfaCtx} {W : List Wr} {s s' : Dfa} (hok : Ok c W s) {r : Ref}
    {n m : Nat} (hn : n ∈ s.net.g.nodes) (hne : n ≠ m) {es : List (Ivl Unit)}
    (h : s.addRvalues c r (some n) es = .ok s') : Frozen m s s' := by
  obtain ⟨s1, h1, _, h3, h4⟩ := addRvalues_ok r es s hok hn
  rw [h] at h1
  cases h1
  by_cases hk : c.D.kind r.sym = .modportPort
  · obtain ⟨g1, g2⟩ := h4 hk
    refine ⟨fun a ha => ?_, fun x hx _ => g1 ▸ hx⟩
    rcases (g2 a m).1 ha with h | h
    · exact h
    · exact absurd h.2.2.symm hne
  · obtain ⟨g1, g2⟩ := h3 hk
    refine ⟨fun a ha => g1 ▸ ha, fun x hx hm => ?_⟩
    rw [g2] at hx
    rcases List.mem_append.1 hx with hx | hx
    · exact hx
    · obtain ⟨e, _, rfl⟩ := List.mem_map.1 hx
      exact absurd (Option.some.inj hm) hne

theorem handleRvalue_frozen {c : DfaCtx} {W : List Wr} {s s' : Dfa} (hok : Ok c W s) {r : Ref} {n m : Nat}
    (hn : s.cur.node = some n) (hne : n ≠ m) (h : s.handleRvalue c r = .ok s') : Frozen m s s' := by
  have hnn := hok.flow.node n hn
  unfold Dfa.handleRvalue at h
  cases hg : (s.trk.getSlot r.sym).bind (fun i => s.cur.drv[i]?) with
  | none =>
    rw [hg, hn] at h
    exact addRvalue_frozen hok hnn hne h
  | some mp =>
    rw [hg] at h
    simp only [hn] at h
    obtain ⟨i, hi, hm⟩ := Option.bind_eq_some_iff.1 hg
    have his := getSlot_mem hi
    obtain ⟨hI, _⟩ := hok.flow.drv.maps _ i mp his hm
    obtain ⟨ds, fin, h1, h2, _, _⟩ := readLoop_spec hI r.bounds n (c.D.ref r.sym)
      (imFind mp.ivls r.bounds.lower r.bounds.upper) (fun e he => by
        obtain ⟨g1, g2⟩ := List.mem_filter.1 he
        simp [Ivl.hits] at g2
        exact ⟨g1, g2⟩)
    obtain ⟨s1, k1, k2, k3, k4⟩ := dfa_addDeps hok.net (ds := ds) (by
      intro d hd
      obtain ⟨g1, _, _, e, he, _, l, hl, hh⟩ := h2 d hd
      have hem := (List.mem_filter.1 he).1
      obtain ⟨loc, n', hn', hs, _⟩ := hok.flow.assign r.sym e.lo (some d.src)
        ⟨i, mp, his, hm, e, hem, Int.le_refl _, hI.ok.1 e hem, l, hl, hh⟩
      cases hs
      exact ⟨hn', g1 ▸ hnn⟩)
    have hf1 : Frozen m s s1 := by
      refine ⟨fun a ha => ?_, fun x hx _ => k3 ▸ hx⟩
      rcases (k4 a m).1 ha with h | ⟨d, hd, _, ht⟩
      · exact h
      · exact absurd ((h2 d hd).1.symm.trans ht) hne
    rw [h1] at h
    simp only [k1] at h
    split at h
    · cases h; exact hf1
    · split at h
      · cases h
      · exact hf1.trans (addRvalues_frozen (k2.ok hok) (k2.nodes ▸ hnn) hne h)

theorem handleLvalue_frozen {s s' : Dfa} {b : Bool} {r : Ref} {m : Nat} (h : s.handleLvalue b r = .ok s') :
    Frozen m s s' := by
  unfold Dfa.handleLvalue at h
  split at h
  · cases h; exact ⟨fun _ h => h, fun _ h _ => h⟩
  · split at h
    · cases h
    · cases h; exact ⟨fun _ h => h, fun _ h _ => h⟩

theorem noteRefs_frozen {c : DfaCtx} {W : List Wr} (hW : Plain W) {b : Bool} {loc : TextLoc} {n m : Nat} (hne : n ≠ m)
    (xs : List Note) : ∀ {s s' : Dfa}, Ok c W s → s.cur.node = some n → IsAssign s.net (some n) loc →
    (∀ w ∈ noteWrites loc b xs, w ∈ W) → s.noteRefs c b xs = .ok s' → Frozen m s s' := by
  induction xs with
  | nil => intro s s' _ _ _ _ h; cases h; exact ⟨fun _ h => h, fun _ h _ => h⟩
  | cons x xs ih =>
    intro s s' hok hn ha hw h
    have hsplit : ∀ w, w ∈ noteWrites loc b (x :: xs) ↔ w ∈ noteWrites loc b [x] ∨ w ∈ noteWrites loc b xs := by
      intro w
      have : noteWrites loc b (x :: xs) = noteWrites loc b [x] ++ noteWrites loc b xs := by
        simp only [noteWrites, ← List.map_append, ← List.filter_append]
        rfl
      rw [this, List.mem_append]
    obtain ⟨s1, h1, h2, h3, _, h5, _, _⟩ := noteRefs_ok hW (blocking := b) (loc := loc) [x] s hok
      (fun _ => by rw [hn]; exact ha) (fun w hw' => hw w ((hsplit w).2 (.inl hw')))
    have e : s.noteRef c b x = .ok s1 := by
      simp only [Dfa.noteRefs] at h1
      split at h1
      · cases h1
      · rename_i h'; rw [h', h1]
    simp only [Dfa.noteRefs, e] at h
    have hf : Frozen m s s1 := by
      unfold Dfa.noteRef at e
      split at e
      · cases e; exact ⟨fun _ h => h, fun _ h _ => h⟩
      · split at e
        · cases e; exact ⟨fun _ h => h, fun _ h _ => h⟩
        · split at e
          · exact handleLvalue_frozen e
          · exact handleRvalue_frozen hok hn hne e
    obtain ⟨k, hk, e1, e2⟩ := ha
    exact hf.trans (ih h2 (h5.node.trans hn) ⟨k, h3.net.nodes k hk, e1, by rw [h3.net.data k hk]; exact e2⟩
      (fun w hw' => hw w ((hsplit w).2 (.inr hw'))) h)

theorem startAssign_frozen {c : DfaCtx} {W : List Wr} {s s' : Dfa} (hok : Ok c W s) {loc : TextLoc} {m : Nat}
    (hm : m ∈ s.net.g.nodes) (h : s.startAssign loc = .ok s') : Frozen m s s' := by
  obtain ⟨s1, n, h1, h2, h3, h3q, h4, h5, h6, h7, _⟩ := dfa_newNode hok.net (.assignment loc)
  have hok1 : Ok c W s1 := h2.ok hok
    (fun k hk => h2.net.nodes k (hok.flow.node k (by rw [← h3]; exact hk)))
    (fun k hk => h2.net.nodes k (hok.flow.cond k (by rw [← h3]; exact hk)))
  have hn1 : n ∈ s1.net.g.nodes := by rw [h4]; simp
  obtain ⟨s2, g1, g2, g3, g3q, g4, g5, g6, g7⟩ := updateNode_ok hok1 hn1 false
  simp only [Dfa.startAssign, h1, g1, Except.ok.injEq] at h
  subst h
  refine ⟨fun a ha => ?_, fun x hx _ => h3q ▸ g3q ▸ hx⟩
  rcases (g7 a m).1 ha with h | h
  · exact (h7 a m).1 h
  · rw [h.2] at hm; exact absurd hm h5

theorem assign_frozen {c : DfaCtx} {W : List Wr} (hW : Plain W) {s s' : Dfa} (hok : Ok c W s) {loc : TextLoc} {b : Bool}
    {ns : List Note} (hw : ∀ w ∈ asgWrites loc b (.legacy ns), w ∈ W) {m : Nat} (hm : m ∈ s.net.g.nodes)
    (h : s.assign c loc b (.legacy ns) = .ok s') : Frozen m s s' := by
  obtain ⟨s1, n, a1, a2, a3, a4, a5, a6, _⟩ := startAssign_ok hok loc
  simp only [Dfa.assign, a1] at h
  exact (startAssign_frozen hok hm a1).trans
    (noteRefs_frozen hW (fun (e : n = m) => a6 (by rw [e]; exact hm)) ns a3 a4 a5 (by rw [noteWrites_eq]; exact hw) h)

theorem inTurn_frozen {c : DfaCtx} {W : List Wr} (hW : Plain W) {m : Nat}
    (gs : List (TextLoc × Bool × List Note)) : ∀ {s s' : Dfa}, Ok c W s → (∀ w ∈ groupWrites gs, w ∈ W) →
    m ∈ s.net.g.nodes → s.exec c (inTurn gs) = .ok s' → Frozen m s s' ∧ NetLe s.net s'.net := by
  induction gs with
  | nil => intro s s' _ _ _ h; cases h; exact ⟨⟨fun _ h => h, fun _ h _ => h⟩, NetLe.refl _⟩
  | cons g gs ih =>
    obtain ⟨l, b, ns⟩ := g
    intro s s' hok hw hm h
    have hw1 : ∀ w ∈ asgWrites l b (.legacy ns), w ∈ W := fun w hw' => hw w (List.mem_append_left _ hw')
    obtain ⟨s1, h1, h2, h3, _⟩ := assign_ok hW hok l b (.legacy ns) hw1
    simp only [inTurn, Dfa.exec, h1] at h
    obtain ⟨k1, k2⟩ := ih h2 (fun w hw' => hw w (List.mem_append_right _ hw')) (h3.net.nodes m hm) h
    exact ⟨(assign_frozen hW hok hw1 hm h1).trans k1, h3.net.trans k2⟩

theorem takenOut_onto (xs : List Note) (v : EVis) :
    takenOut (onto xs v) = (xs ++ (takenOut v).1, (takenOut v).2) := by
  induction xs with
  | nil => rfl
  | cons x xs ih => simp [onto, takenOut, ih]

theorem sideWise_onto (xs : List Note) (v : EVis) : SideWise (onto xs v) ↔ SideWise v := by
  induction xs with
  | nil => rfl
  | cons x xs ih => exact ih

end Verif.Proofs
