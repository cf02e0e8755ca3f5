import Verif.Spec.Meaning
import Verif.Proofs.DataflowUse

/-! Two runs of a block: where they can differ. -/
namespace Verif.Proofs
open Verif.Model Verif.Spec Verif.Props

variable {V : Type} {M : Meaning V}

/-- A bit after the writes of an assignment: it keeps its value, or has that of the last write. -/
theorem store_cases {ws : List Wr} (hb : ∀ w ∈ ws, w.blocking = true) (x : Nat) (p : Int) :
    ((∀ w ∈ ws, ¬ Hits true x p w) ∧ ∀ (ρ0 ρ : Vals V), store M ρ0 ws ρ x p = ρ x p) ∨
      ∃ w ∈ ws, LastAt true ws x p w.loc ∧ ∀ (ρ0 ρ : Vals V), store M ρ0 ws ρ x p = M.value w.loc ρ0 x p := by
  induction ws with
  | nil => exact .inl ⟨by simp, fun _ _ => rfl⟩
  | cons w ws ih =>
    rcases ih (fun v hv => hb v (.tail _ hv)) with ⟨h1, h2⟩ | ⟨v, h1, h2, h3⟩
    · by_cases hw : Hits true x p w
      · refine .inr ⟨w, .head _, lastAt_cons.2 (.inr ⟨h1, hw, rfl⟩), fun ρ0 ρ => ?_⟩
        rw [store, h2, if_pos ⟨hw.2.1, (inRng_iff _ _).1 hw.2.2⟩]
      · refine .inl ⟨List.forall_mem_cons.2 ⟨hw, h1⟩, fun ρ0 ρ => ?_⟩
        rw [store, h2, if_neg fun hc => hw ⟨hb w (.head _), hc.1, (inRng_iff _ _).2 hc.2⟩]
    · exact .inr ⟨v, .tail _ h1, lastAt_cons.2 (.inl h2), fun ρ0 ρ => by rw [store, h3]⟩

theorem writes_blocking {loc : TextLoc} {a : Asg} : ∀ w ∈ asgWrites loc true a, w.blocking = true := by
  intro w hw
  cases a with
  | legacy notes => simp only [asgWrites, List.mem_map] at hw; obtain ⟨r, _, rfl⟩ := hw; rfl
  | aligned segs =>
    simp only [asgWrites, List.mem_flatMap, List.mem_map] at hw; obtain ⟨g, _, r, _, rfl⟩ := hw; rfl

theorem writes_locs {loc : TextLoc} {b : Bool} {a : Asg} : ∀ w ∈ asgWrites loc b a, w.loc ∈ asgLocs loc a := by
  intro w hw
  cases a with
  | legacy notes => simp only [asgWrites, List.mem_map] at hw; obtain ⟨r, _, rfl⟩ := hw; simp [asgLocs]
  | aligned segs =>
    simp only [asgWrites, List.mem_flatMap, List.mem_map] at hw; obtain ⟨g, hg, r, _, rfl⟩ := hw
    exact List.mem_map.2 ⟨g, hg, rfl⟩

theorem quiet_run {s : Stmt} (h : Quiet s) : ∀ (sel : Nat → Bool) (ρ : Vals V), run M s sel ρ = ρ := by
  induction h with
  | skip => intros; rfl
  | reads => intros; rfl
  | seq _ _ ih1 ih2 => intro sel ρ; rw [run, ih1, ih2]

theorem quiet_runs {s : Stmt} (h : Quiet s) : Runs s [] := by
  induction h with
  | skip => exact .skip
  | reads => exact .reads _
  | seq _ _ ih1 ih2 => exact .seq (u := []) (v := []) ih1 ih2

theorem quiet_writes {s : Stmt} (h : Quiet s) : allWrites s = [] := by
  induction h with
  | skip => rfl
  | reads => rfl
  | seq _ _ ih1 ih2 => rw [allWrites, ih1, ih2]; rfl

theorem quiet_enter {s : Stmt} (h : Quiet s) (ρ : Vals V) (sel : Nat → Bool) : enter M ρ sel s = sel := by
  cases h <;> rfl

theorem comb_enter {W : List Wr} {s : Stmt} (h : Comb W s) (ρ : Vals V) (sel : Nat → Bool) : enter M ρ sel s = sel := by
  cases h with
  | quiet h => exact quiet_enter h ρ sel
  | _ => rfl

/-- A run follows a path and changes what is written on it only. -/
theorem run_path {W : List Wr} {st : Stmt} (h : Comb W st) : ∀ (sel : Nat → Bool) (ρ : Vals V),
    ∃ tr, Runs st tr ∧ ∀ x p, (∀ w ∈ tr, ¬ Hits true x p w) → run M st sel ρ x p = ρ x p := by
  induction h with
  | quiet h => intro sel ρ; exact ⟨[], quiet_runs h, fun x p _ => by rw [quiet_run h]⟩
  | @assign loc a _ _ =>
    intro sel ρ
    refine ⟨_, .assign _ _ _, fun x p hn => ?_⟩
    rcases store_cases (M := M) (writes_blocking (loc := loc) (a := a)) x p with ⟨_, h⟩ | ⟨w, _, h, _⟩
    · exact h ρ ρ
    · obtain ⟨v, hv, hh⟩ := lastAt_hits h
      exact absurd hh (hn v hv)
  | @cond k loc rs t _ _ _ ih =>
    intro sel ρ
    obtain ⟨tr, h1, h2⟩ := ih (M.pick k loc ρ) ρ
    exact ⟨[] ++ ([] ++ tr), .seq (.branch _ _) (.seq (.reads _) h1), h2⟩
  | @seq s t hs _ ih1 ih2 =>
    intro sel ρ
    obtain ⟨u, h1, h2⟩ := ih1 sel ρ
    obtain ⟨v, h3, h4⟩ := ih2 sel (run M s sel ρ)
    refine ⟨u ++ v, .seq h1 h3, fun x p hn => ?_⟩
    rw [run, comb_enter hs, h4 x p fun w hw => hn w (List.mem_append_right _ hw),
      h2 x p fun w hw => hn w (List.mem_append_left _ hw)]
  | @choose f s t _ _ ih1 ih2 =>
    intro sel ρ
    cases hs : sel 0 with
    | true =>
      obtain ⟨u, h1, h2⟩ := ih1 (fun n => sel (n + 1)) ρ
      exact ⟨u, .first h1, fun x p hn => by rw [run, if_pos hs, h2 x p hn]⟩
    | false =>
      obtain ⟨u, h1, h2⟩ := ih2 (fun n => sel (n + 1)) ρ
      exact ⟨u, .second h1, fun x p hn => by rw [run, if_neg (by simp [hs]), h2 x p hn]⟩

/-- The writes on a path are among those of the statement. -/
theorem runs_writes {st : Stmt} {tr : List Wr} (h : Runs st tr) : ∀ w ∈ tr, w ∈ allWrites st := by
  induction h with
  | skip => simp
  | reads => simp
  | assign => intro w hw; exact hw
  | branch => simp
  | seq _ _ ih1 ih2 =>
    intro w hw
    rcases List.mem_append.1 hw with h | h
    · exact List.mem_append_left _ (ih1 w h)
    · exact List.mem_append_right _ (ih2 w h)
  | first _ ih => intro w hw; exact List.mem_append_left _ (ih w hw)
  | second _ ih => intro w hw; exact List.mem_append_right _ (ih w hw)

theorem use_paths {P Q : List Wr → Prop} {st : Stmt} {who : NodeData} {r : Ref} (h : Use P st who r Q) :
    ∀ tr, Q tr → ∃ u v, P u ∧ tr = u ++ v ∧ ∀ w ∈ v, w ∈ allWrites st := by
  induction h with
  | note => exact fun tr h => ⟨tr, [], h, by simp, by simp⟩
  | seg => exact fun tr h => ⟨tr, [], h, by simp, by simp⟩
  | cond => exact fun tr h => ⟨tr, [], h, by simp, by simp⟩
  | left _ ih =>
    intro tr h
    obtain ⟨u, v, h1, h2, h3⟩ := ih tr h
    exact ⟨u, v, h1, h2, fun w hw => List.mem_append_left _ (h3 w hw)⟩
  | right _ ih =>
    intro tr h
    obtain ⟨u, v, ⟨u', v', g1, g2, rfl⟩, rfl, h3⟩ := ih tr h
    refine ⟨u', v' ++ v, g1, by simp, fun w hw => ?_⟩
    rcases List.mem_append.1 hw with hw | hw
    · exact List.mem_append_left _ (runs_writes g2 w hw)
    · exact List.mem_append_right _ (h3 w hw)
  | first _ ih =>
    intro tr h
    obtain ⟨u, v, h1, h2, h3⟩ := ih tr h
    exact ⟨u, v, h1, h2, fun w hw => List.mem_append_left _ (h3 w hw)⟩
  | second _ ih =>
    intro tr h
    obtain ⟨u, v, h1, h2, h3⟩ := ih tr h
    exact ⟨u, v, h1, h2, fun w hw => List.mem_append_right _ (h3 w hw)⟩

/-- What holds of the first nodes of a brief statement, and passes from conditions on, holds of all its
assignments. -/
theorem brief_all {Bad : NodeData → Prop} {st : Stmt} (h : Brief st) : (∀ d, Heads st d → Bad d) →
    (∀ u v, Guards st u v → Bad u → Bad v) → ∀ w ∈ allWrites st, Bad (.assignment w.loc) := by
  induction h with
  | quiet h => intro _ _ w hw; rw [quiet_writes h] at hw; cases hw
  | assign => intro h1 _ w hw; exact h1 _ (.assign (writes_locs w hw))
  | @cond k loc rs t _ ih =>
    intro h1 h2 w hw
    refine ih (fun d hd => h2 _ d (.here (.right (.reads _) hd)) (h1 _ (.left .branch)))
      (fun u v hg => h2 u v (.right (.right hg))) w ?_
    simpa [allWrites] using hw
  | after hq _ ih =>
    intro h1 h2 w hw
    rw [allWrites, quiet_writes hq] at hw
    exact ih (fun d hd => h1 d (.right hq hd)) (fun u v hg => h2 u v (.right hg)) w hw
  | before _ hq ih =>
    intro h1 h2 w hw
    rw [allWrites, quiet_writes hq, List.append_nil] at hw
    exact ih (fun d hd => h1 d (.left hd)) (fun u v hg => h2 u v (.left hg)) w hw
  | choose _ _ ih1 ih2 =>
    intro h1 h2 w hw
    rcases List.mem_append.1 hw with hw | hw
    · exact ih1 (fun d hd => h1 d (.first hd)) (fun u v hg => h2 u v (.first hg)) w hw
    · exact ih2 (fun d hd => h1 d (.second hd)) (fun u v hg => h2 u v (.second hg)) w hw

/-- The two states agree on a bit if no assignment that can have written it last is one of `Bad`, and
the values outside agree if it may not have been written. -/
def Inv (σ σ' : Vals V) (Bad : NodeData → Prop) (P : List Wr → Prop) (ρ ρ' : Vals V) : Prop :=
  ∀ x p, (∀ tr loc, P tr → LastAt true tr x p loc → ¬ Bad (.assignment loc)) →
    ((∃ tr, P tr ∧ ∀ w ∈ tr, ¬ Hits true x p w) → σ x p = σ' x p) → ρ x p = ρ' x p

/-- `Bad` contains what depends on its members within the statement, and on the values outside. -/
structure Closes (σ σ' : Vals V) (Bad : NodeData → Prop) (W : List Wr) (P : List Wr → Prop) (st : Stmt) : Prop where
  defs : ∀ who r Q, Use P st who r Q → ReadFits W r.sym r.bounds → ∀ p tr loc, InRng r.bounds p → Q tr →
    LastAt true tr r.sym p loc → Bad (.assignment loc) → Bad who
  out : ∀ who r Q, Use P st who r Q → ReadFits W r.sym r.bounds → ∀ p, InRng r.bounds p →
    (∃ tr, Q tr ∧ ∀ w ∈ tr, ¬ Hits true r.sym p w) → σ r.sym p ≠ σ' r.sym p → Bad who
  ctrl : ∀ u v, Guards st u v → Bad u → Bad v
  once : ∀ loc, ¬ Rereads W P st loc

variable {σ σ' : Vals V} {Bad : NodeData → Prop} {W : List Wr}

theorem inv_mono {P P' : List Wr → Prop} {ρ ρ' : Vals V} (h : ∀ tr, P tr → P' tr) (hi : Inv σ σ' Bad P ρ ρ') :
    Inv σ σ' Bad P' ρ ρ' :=
  fun x p h1 h2 => hi x p (fun tr loc ht => h1 tr loc (h tr ht)) fun ⟨tr, ht, hn⟩ => h2 ⟨tr, h tr ht, hn⟩

/-- What a node outside `Bad` reads agrees. -/
theorem use_agree {P : List Wr → Prop} {st : Stmt} {ρ ρ' : Vals V} (hc : Closes σ σ' Bad W P st)
    (hi : Inv σ σ' Bad P ρ ρ') {who : NodeData} {r : Ref} (hu : Use P st who r P) (hf : ReadFits W r.sym r.bounds)
    (hb : ¬ Bad who) {p : Int} (hp : InRng r.bounds p) : ρ r.sym p = ρ' r.sym p :=
  hi r.sym p (fun tr loc ht hl h => hb (hc.defs who r P hu hf p tr loc hp ht hl h)) fun he =>
    Classical.byContradiction fun hne => hb (hc.out who r P hu hf p hp he hne)

theorem apart_append {loc : TextLoc} {as bs : List DSeg} {g : DSeg} {r : Ref}
    (h1 : Apart (asgWrites loc true (.aligned as)) r) (h2 : Apart (asgWrites loc true (.aligned [g])) r)
    (h3 : Apart (asgWrites loc true (.aligned bs)) r) : Apart (asgWrites loc true (.aligned (as ++ g :: bs))) r := by
  intro p hp w hw
  simp only [asgWrites, List.flatMap_append, List.flatMap_cons, List.mem_append] at hw
  rcases hw with hw | hw | hw
  · exact h1 p hp w hw
  · exact h2 p hp w (by simpa [asgWrites] using hw)
  · exact h3 p hp w hw

theorem apart_notes {loc : TextLoc} {pre post : List Note} {r : Ref}
    (h1 : Apart (asgWrites loc true (.legacy pre)) r) (h3 : Apart (asgWrites loc true (.legacy post)) r) :
    Apart (asgWrites loc true (.legacy (pre ++ ⟨false, r⟩ :: post))) r := by
  intro p hp w hw
  simp only [asgWrites, targets, List.filter_append, List.filter_cons, List.map_append, List.mem_append] at hw
  rcases hw with hw | hw
  · exact h1 p hp w (by simpa [asgWrites, targets] using hw)
  · exact h3 p hp w (by simpa [asgWrites, targets] using hw)

/-- A read of an assignment is a use, unless the assignment reads what it writes. -/
theorem reads_use {P : List Wr → Prop} {loc l : TextLoc} {a : Asg} {r : Ref} (hP : ∃ tr, P tr) (ho : Orderly loc a)
    (hr : AsgReads loc a l r) (hf : ReadFits W r.sym r.bounds)
    (hn : ∀ loc', ¬ Rereads W P (.assign loc true a) loc') : Use P (.assign loc true a) (.assignment l) r P := by
  cases hr with
  | note h1 h2 =>
    obtain ⟨pre, post, rfl⟩ := List.append_of_mem h1
    refine .note h1 h2 (apart_notes (fun p hp w hw hh => ?_) (ho pre r post rfl))
    exact hn _ (.note hP h2 hp ⟨w, hw, hh⟩ hf)
  | @seg segs g x _ h1 h2 h3 =>
    obtain ⟨as, bs, rfl⟩ := List.append_of_mem h1
    obtain ⟨k1, k2⟩ := ho as g bs rfl x h2 r h3
    refine .seg h1 h2 h3 (apart_append k1 (fun p hp w hw hh => ?_) k2)
    simp only [asgWrites, List.flatMap_cons, List.flatMap_nil, List.append_nil, List.mem_map] at hw
    obtain ⟨q, hq, rfl⟩ := hw
    exact hn _ (.seg hP h1 h2 h3 hq hh.2.1 hh.2.2 hp hf)

theorem after_quiet {P : List Wr → Prop} {k : Bool} {loc : TextLoc} {rs : List Ref} :
    After (After P (.branch k loc)) (.reads rs) = P := by
  funext tr
  refine propext ⟨?_, fun h => ⟨tr, [], ⟨tr, [], h, .branch _ _, by simp⟩, .reads _, by simp⟩⟩
  rintro ⟨u, v, ⟨u', v', h1, h2, rfl⟩, h3, rfl⟩
  cases h2; cases h3
  simpa using h1

/-- Two runs of a statement from agreeing states end in agreeing states. -/
theorem inv_run {st : Stmt} (h : Comb W st) : ∀ {P : List Wr → Prop} {ρ ρ' : Vals V} {sel : Nat → Bool},
    Reflects M st → Closes σ σ' Bad W P st → (∃ tr, P tr) → Inv σ σ' Bad P ρ ρ' →
    Inv σ σ' Bad (After P st) (run M st sel ρ) (run M st sel ρ') := by
  induction h with
  | quiet h =>
    intro P ρ ρ' sel _ _ _ hi
    rw [quiet_run h, quiet_run h]
    exact inv_mono (fun tr ht => ⟨tr, [], ht, quiet_runs h, by simp⟩) hi
  | @assign loc a ho hf =>
    intro P ρ ρ' sel hr hc hP hi x p h1 h2
    rcases store_cases (M := M) (writes_blocking (loc := loc) (a := a)) x p with ⟨hn, h⟩ | ⟨w, hw, hl, h⟩
    · rw [run, run, if_pos rfl, if_pos rfl, h ρ ρ, h ρ' ρ']
      refine hi x p (fun tr l ht hl => h1 _ l ⟨tr, _, ht, .assign _ _ _, rfl⟩ ((lastAt_append_apart hn).2 hl)) ?_
      rintro ⟨tr, ht, hm⟩
      refine h2 ⟨_, ⟨tr, _, ht, .assign _ _ _, rfl⟩, fun w hw => ?_⟩
      rcases List.mem_append.1 hw with hw | hw
      · exact hm w hw
      · exact hn w hw
    · rw [run, run, if_pos rfl, if_pos rfl, h ρ ρ, h ρ' ρ']
      obtain ⟨tr, ht⟩ := hP
      have hb : ¬ Bad (.assignment w.loc) := h1 _ _ ⟨tr, _, ht, .assign _ _ _, rfl⟩ (lastAt_app hl)
      refine congrFun (congrFun (hr w.loc (writes_locs w hw) ρ ρ' ?_) x) p
      rintro _ q ⟨r, hr, rfl, hq⟩
      exact use_agree hc hi (reads_use ⟨tr, ht⟩ ho hr (hf _ r hr) hc.once) (hf _ r hr) hb hq
  | @cond k loc rs t hb hct hf ih =>
    intro P ρ ρ' sel hr hc hP hi
    obtain ⟨_, ⟨_, hrt, _⟩, hp⟩ := hr
    have hct' : Closes σ σ' Bad W P t := by
      refine ⟨fun who r Q hu => hc.defs who r Q ?_, fun who r Q hu => hc.out who r Q ?_,
        fun u v hg => hc.ctrl u v (.right (.right hg)), fun loc' hx => hc.once loc' (.right (.right ?_))⟩
      · exact .right (.right (by rw [after_quiet]; exact hu))
      · exact .right (.right (by rw [after_quiet]; exact hu))
      · rw [after_quiet]; exact hx
    show Inv σ σ' Bad _ (run M t (M.pick k loc ρ) ρ) (run M t (M.pick k loc ρ') ρ')
    have hsub : ∀ tr, After P t tr → After P (.seq (.branch k loc) (.seq (.reads rs) t)) tr := by
      rintro _ ⟨u, v, h1, h2, rfl⟩
      exact ⟨u, [] ++ ([] ++ v), h1, .seq (.branch _ _) (.seq (.reads _) h2), by simp⟩
    by_cases hbad : Bad (if k then .case loc else .conditional loc)
    · have hall := brief_all hb (fun d hd => hc.ctrl _ d (.here (.right (.reads _) hd)) hbad)
        (fun u v hg => hc.ctrl u v (.right (.right hg)))
      obtain ⟨t1, a1, a2⟩ := run_path (M := M) hct (M.pick k loc ρ) ρ
      obtain ⟨t2, b1, b2⟩ := run_path (M := M) hct (M.pick k loc ρ') ρ'
      intro x p h1 h2
      obtain ⟨tr0, htr0⟩ := hP
      have hno : ∀ {v}, Runs t v → ∀ w ∈ v, ¬ Hits true x p w := by
        intro v hv w hw hh
        obtain ⟨l, hl⟩ := lastAt_of_hit ⟨w, hw, hh⟩
        refine h1 _ l (hsub _ ⟨tr0, v, htr0, hv, rfl⟩) (lastAt_app hl) ?_
        obtain ⟨pre, w', post, e, _, e2, _⟩ := hl
        rw [← e2]
        exact hall w' (runs_writes hv w' (by rw [e]; simp))
      rw [a2 x p (hno a1), b2 x p (hno b1)]
      refine hi x p (fun tr l ht hl => h1 _ l (hsub _ ⟨tr, t1, ht, a1, rfl⟩) ((lastAt_append_apart (hno a1)).2 hl)) ?_
      rintro ⟨tr, ht, hm⟩
      refine h2 ⟨_, hsub _ ⟨tr, t1, ht, a1, rfl⟩, fun w hw => ?_⟩
      rcases List.mem_append.1 hw with hw | hw
      · exact hm w hw
      · exact hno a1 w hw
    · have he : M.pick k loc ρ = M.pick k loc ρ' := by
        refine hp k loc rs t rfl rfl ρ ρ' ?_
        rintro _ q ⟨r, ⟨hr1, hr2⟩, rfl, hq⟩
        exact use_agree hc hi (.cond hr1 hr2) (hf r hr1 hr2) hbad hq
      rw [← he]
      exact inv_mono hsub (ih hrt hct' hP hi)
  | @seq s t hs _ ih1 ih2 =>
    intro P ρ ρ' sel hr hc hP hi
    rw [run, run, comb_enter hs, comb_enter hs]
    have h1 := ih1 (sel := sel) hr.1 ⟨fun who r Q hu => hc.defs who r Q (.left hu), fun who r Q hu => hc.out who r Q (.left hu),
      fun u v hg => hc.ctrl u v (.left hg), fun loc hx => hc.once loc (.left hx)⟩ hP hi
    obtain ⟨tr, ht⟩ := hP
    obtain ⟨u, hu, _⟩ := run_path (M := M) hs sel ρ
    have h2 := ih2 (sel := sel) hr.2.1 ⟨fun who r Q hu => hc.defs who r Q (.right hu), fun who r Q hu => hc.out who r Q (.right hu),
      fun u v hg => hc.ctrl u v (.right hg), fun loc hx => hc.once loc (.right hx)⟩ ⟨_, tr, u, ht, hu, rfl⟩ h1
    refine inv_mono ?_ h2
    rintro _ ⟨_, v, ⟨u1, u2, g1, g2, rfl⟩, g3, rfl⟩
    exact ⟨u1, u2 ++ v, g1, .seq g2 g3, by simp⟩
  | @choose f s t _ _ ih1 ih2 =>
    intro P ρ ρ' sel hr hc hP hi
    cases hs : sel 0 with
    | true =>
      rw [run, run, if_pos hs, if_pos hs]
      refine inv_mono ?_ (ih1 (sel := fun n => sel (n + 1)) hr.1 ⟨fun who r Q hu => hc.defs who r Q (.first hu),
        fun who r Q hu => hc.out who r Q (.first hu), fun u v hg => hc.ctrl u v (.first hg),
        fun loc hx => hc.once loc (.first hx)⟩ hP hi)
      rintro _ ⟨u, v, g1, g2, rfl⟩
      exact ⟨u, v, g1, .first g2, rfl⟩
    | false =>
      rw [run, run, if_neg (by simp [hs]), if_neg (by simp [hs])]
      refine inv_mono ?_ (ih2 (sel := fun n => sel (n + 1)) hr.2 ⟨fun who r Q hu => hc.defs who r Q (.second hu),
        fun who r Q hu => hc.out who r Q (.second hu), fun u v hg => hc.ctrl u v (.second hg),
        fun loc hx => hc.once loc (.second hx)⟩ hP hi)
      rintro _ ⟨u, v, g1, g2, rfl⟩
      exact ⟨u, v, g1, .second g2, rfl⟩

end Verif.Proofs
