import Verif.Spec.Iface
import Verif.Props.Sequential

/-! References through modport ports (C79). -/
namespace Verif.Props
open Verif.Model Verif.Spec Verif.Proofs

/-- The symbol and expression of a path. -/
theorem names_dec (p : PathFact) : (∃ sym lsp, PathFact.Names p sym lsp) ∨ ∀ sym lsp, ¬ PathFact.Names p sym lsp := by
  obtain ⟨e, l, r, b⟩ := p
  cases e with
  | true => exact .inr fun _ _ h => nomatch h.1
  | false =>
    cases l with
    | none => exact .inr fun _ _ h => nomatch h.2.2
    | some l =>
      cases r with
      | none => exact .inr fun _ _ h => nomatch h.2.1
      | some r => exact .inl ⟨r, l, rfl, rfl, rfl⟩

/-- One path of the callback. -/
theorem ifacePath_iff (kind : Nat → SymKind) (again : Nat → Except Fault (List (Nat × BitRange)))
    (p : PathFact) (here : List (Nat × BitRange)) :
    ifacePath kind again p = .ok here ↔
      (here = [] ∧ ∀ sym lsp, PathFact.Names p sym lsp → kind sym = .other) ∨
      ∃ sym lsp, PathFact.Names p sym lsp ∧
        ((kind sym = .variable ∧ here = [(sym, p.bounds)]) ∨
         (kind sym = .modportPort ∧ again lsp = .ok here)) := by
  rcases names_dec p with ⟨s, l, hn⟩ | hno
  · have hu : ∀ s' l', PathFact.Names p s' l' → s' = s ∧ l' = l := fun s' l' h =>
      ⟨Option.some.inj (h.2.1.symm.trans hn.2.1), Option.some.inj (h.2.2.symm.trans hn.2.2)⟩
    have he : ifacePath kind again p = match kind s with
        | .variable => .ok [(s, p.bounds)]
        | .modportPort => again l
        | .other => .ok [] := by
      simp only [ifacePath, hn.1, hn.2.1, hn.2.2]
      cases kind s <;> rfl
    cases hk : kind s with
    | «variable» =>
      rw [he, hk]
      constructor
      · intro h; cases h; exact .inr ⟨s, l, hn, .inl ⟨hk, rfl⟩⟩
      · rintro (⟨-, ho⟩ | ⟨s', l', hn', ⟨-, rfl⟩ | ⟨hk', -⟩⟩)
        · rw [ho s l hn] at hk; exact nomatch hk
        · rw [(hu s' l' hn').1]
        · rw [(hu s' l' hn').1, hk] at hk'; exact nomatch hk'
    | modportPort =>
      rw [he, hk]
      constructor
      · intro h; exact .inr ⟨s, l, hn, .inr ⟨hk, h⟩⟩
      · rintro (⟨-, ho⟩ | ⟨s', l', hn', ⟨hk', -⟩ | ⟨-, h⟩⟩)
        · rw [ho s l hn] at hk; exact nomatch hk
        · rw [(hu s' l' hn').1, hk] at hk'; exact nomatch hk'
        · rw [(hu s' l' hn').2] at h; exact h
    | other =>
      rw [he, hk]
      constructor
      · intro h; cases h; exact .inl ⟨rfl, fun s' l' h => by rw [(hu s' l' h).1]; exact hk⟩
      · rintro (⟨rfl, -⟩ | ⟨s', l', hn', ⟨hk', -⟩ | ⟨hk', -⟩⟩)
        · rfl
        · rw [(hu s' l' hn').1, hk] at hk'; exact nomatch hk'
        · rw [(hu s' l' hn').1, hk] at hk'; exact nomatch hk'
  · have he : ifacePath kind again p = .ok [] := by
      obtain ⟨e, l, r, b⟩ := p
      cases e with
      | true => rfl
      | false =>
        cases l with
        | none => rfl
        | some l =>
          cases r with
          | none => rfl
          | some r => exact absurd ⟨rfl, rfl, rfl⟩ (hno r l)
    rw [he]
    constructor
    · intro h; cases h; exact .inl ⟨rfl, fun s l h => absurd h (hno s l)⟩
    · rintro (⟨rfl, -⟩ | ⟨s, l, h, -⟩)
      · rfl
      · exact absurd h (hno s l)

/-- The first of several paths. -/
theorem ifacePaths_cons (kind : Nat → SymKind) (again : Nat → Except Fault (List (Nat × BitRange)))
    (p : PathFact) (ps : List PathFact) {r : List (Nat × BitRange)} :
    ifacePaths kind again (p :: ps) = .ok r ↔
      ∃ here rest, r = here ++ rest ∧ ifacePaths kind again ps = .ok rest ∧
        ((here = [] ∧ ∀ sym lsp, PathFact.Names p sym lsp → kind sym = .other) ∨
         ∃ sym lsp, PathFact.Names p sym lsp ∧
          ((kind sym = .variable ∧ here = [(sym, p.bounds)]) ∨
           (kind sym = .modportPort ∧ again lsp = .ok here))) := by
  simp only [← ifacePath_iff, ifacePaths]
  cases ifacePath kind again p with
  | error f => simp
  | ok a =>
    cases ifacePaths kind again ps with
    | error f => simp
    | ok c =>
      simp only [Except.ok.injEq]
      constructor
      · rintro rfl; exact ⟨a, c, rfl, rfl, rfl⟩
      · rintro ⟨_, _, h, rfl, rfl⟩; exact h.symm

theorem ifacePaths_mono {kind : Nat → SymKind} {f g : Nat → Except Fault (List (Nat × BitRange))}
    (h : ∀ e r, f e = .ok r → g e = .ok r) : ∀ (ps : List PathFact) r,
      ifacePaths kind f ps = .ok r → ifacePaths kind g ps = .ok r
  | [], r, hr => hr
  | p :: ps, r, hr => by
    rw [ifacePaths_cons] at hr ⊢
    obtain ⟨here, rest, h1, h2, h3⟩ := hr
    refine ⟨here, rest, h1, ifacePaths_mono h ps _ h2, ?_⟩
    rcases h3 with h3 | ⟨s, l, hn, h3 | ⟨hk, h3⟩⟩
    · exact .inl h3
    · exact .inr ⟨s, l, hn, .inl h3⟩
    · exact .inr ⟨s, l, hn, .inr ⟨hk, h _ _ h3⟩⟩

theorem resolveIface_succ {kind : Nat → SymKind} {expand : Nat → List PathFact} :
    ∀ (n e : Nat) r, resolveIface kind expand n e = .ok r → resolveIface kind expand (n + 1) e = .ok r
  | 0, e, r, h => nomatch h
  | n + 1, e, r, h => by
    simp only [resolveIface] at h ⊢
    exact ifacePaths_mono (fun e r he => resolveIface_succ n e r he) _ _ h

theorem resolveIface_le {kind : Nat → SymKind} {expand : Nat → List PathFact} {n m e : Nat}
    {r : List (Nat × BitRange)} (hle : n ≤ m) (h : resolveIface kind expand n e = .ok r) :
    resolveIface kind expand m e = .ok r := by
  induction hle with
  | refl => exact h
  | step _ ih => exact resolveIface_succ _ _ _ ih

theorem paths_gather {kind : Nat → SymKind} {expand : Nat → List PathFact} :
    ∀ (n : Nat) (ps : List PathFact) r, ifacePaths kind (resolveIface kind expand n) ps = .ok r →
      Gathers kind expand ps r
  | n, [], r, h => by cases h; exact .nil
  | n, p :: ps, r, h => by
    rw [ifacePaths_cons] at h
    obtain ⟨here, rest, rfl, h2, h3⟩ := h
    have ih := paths_gather n ps rest h2
    rcases h3 with ⟨rfl, h3⟩ | ⟨s, l, hn, ⟨hk, rfl⟩ | ⟨hk, h3⟩⟩
    · exact .skip h3 ih
    · exact .var hn hk ih
    · cases n with
      | zero => exact nomatch h3
      | succ n => exact .port hn hk (paths_gather n _ _ h3) ih
termination_by n ps => (n, ps.length)

/-- C79: the result is the list of the variables at the ends of the chains, in order; any larger bound on
the depth gives the same. -/
theorem interface_ref_exact (kind : Nat → SymKind) (expand : Nat → List PathFact) (e : Nat)
    (vs : List (Nat × BitRange)) :
    (∃ n, ∀ m, n ≤ m → resolveIface kind expand m e = .ok vs) ↔ Gathers kind expand (expand e) vs := by
  constructor
  · rintro ⟨n, h⟩
    exact paths_gather n _ _ (h (n + 1) (Nat.le_succ n))
  · intro h
    have key : ∀ {ps vs}, Gathers kind expand ps vs →
        ∃ n, ifacePaths kind (resolveIface kind expand n) ps = .ok vs := by
      intro ps vs h
      induction h with
      | nil => exact ⟨0, rfl⟩
      | skip h _ ih =>
        obtain ⟨n, hn⟩ := ih
        exact ⟨n, (ifacePaths_cons ..).2 ⟨[], _, rfl, hn, .inl ⟨rfl, h⟩⟩⟩
      | var h hk _ ih =>
        obtain ⟨n, hn⟩ := ih
        exact ⟨n, (ifacePaths_cons ..).2 ⟨[_], _, rfl, hn, .inr ⟨_, _, h, .inl ⟨hk, rfl⟩⟩⟩⟩
      | @port p ps vs ws s l h hk _ _ ih1 ih2 =>
        obtain ⟨n1, h1⟩ := ih1
        obtain ⟨n2, h2⟩ := ih2
        refine ⟨max (n1 + 1) n2, (ifacePaths_cons ..).2 ⟨ws, vs, rfl, ?_, .inr ⟨s, l, h, .inr ⟨hk, ?_⟩⟩⟩⟩
        · exact ifacePaths_mono (fun e r => resolveIface_le (Nat.le_max_right _ _)) _ _ h2
        · exact resolveIface_le (Nat.le_max_left _ _) h1
    obtain ⟨n, hn⟩ := key h
    exact ⟨n + 1, fun m hm => resolveIface_le hm hn⟩

/-- C79: a variable range is in the result if and only if a chain of connections ends in it. -/
theorem interface_ref_members {kind : Nat → SymKind} {expand : Nat → List PathFact} {n e : Nat}
    {vs : List (Nat × BitRange)} (h : resolveIface kind expand n e = .ok vs) (v : Nat × BitRange) :
    v ∈ vs ↔ ChainEnd kind expand e v := by
  have hg : Gathers kind expand (expand e) vs := by
    cases n with
    | zero => exact nomatch h
    | succ n => exact paths_gather n _ _ h
  have key : ∀ {ps vs}, Gathers kind expand ps vs → ∀ v, v ∈ vs ↔
      ∃ p ∈ ps, ∃ sym lsp, PathFact.Names p sym lsp ∧
        ((kind sym = .variable ∧ v = (sym, p.bounds)) ∨
         (kind sym = .modportPort ∧ ChainEnd kind expand lsp v)) := by
    intro ps vs h
    induction h with
    | nil => intro v; simp
    | @skip p ps vs h _ ih =>
      intro v
      rw [ih]
      constructor
      · rintro ⟨q, hq, hx⟩; exact ⟨q, List.mem_cons_of_mem _ hq, hx⟩
      · rintro ⟨q, hq, s, l, hn, hx⟩
        rcases List.mem_cons.1 hq with rfl | hq
        · have := h s l hn
          rcases hx with ⟨hk, -⟩ | ⟨hk, -⟩ <;> (rw [this] at hk; exact nomatch hk)
        · exact ⟨q, hq, s, l, hn, hx⟩
    | @var p ps vs s l h hk _ ih =>
      intro v
      rw [List.mem_cons, ih]
      constructor
      · rintro (rfl | ⟨q, hq, hx⟩)
        · exact ⟨p, List.mem_cons_self, s, l, h, .inl ⟨hk, rfl⟩⟩
        · exact ⟨q, List.mem_cons_of_mem _ hq, hx⟩
      · rintro ⟨q, hq, s', l', hn, hx⟩
        rcases List.mem_cons.1 hq with rfl | hq
        · have e1 : s' = s := Option.some.inj (hn.2.1.symm.trans h.2.1)
          subst e1
          rcases hx with ⟨-, hx⟩ | ⟨hk', -⟩
          · exact .inl hx
          · rw [hk] at hk'; exact nomatch hk'
        · exact .inr ⟨q, hq, s', l', hn, hx⟩
    | @port p ps vs ws s l h hk _ _ ih1 ih2 =>
      intro v
      rw [List.mem_append, ih1, ih2]
      have hends : (∃ q ∈ expand l, ∃ sym lsp, PathFact.Names q sym lsp ∧
          ((kind sym = .variable ∧ v = (sym, q.bounds)) ∨
           (kind sym = .modportPort ∧ ChainEnd kind expand lsp v))) ↔ ChainEnd kind expand l v := by
        constructor
        · rintro ⟨q, hq, s', l', hn, ⟨hk', rfl⟩ | ⟨hk', hc⟩⟩
          · exact .var hq hn hk'
          · exact .port hq hn hk' hc
        · intro hc
          cases hc with
          | var hq hn hk' => exact ⟨_, hq, _, _, hn, .inl ⟨hk', rfl⟩⟩
          | port hq hn hk' hc => exact ⟨_, hq, _, _, hn, .inr ⟨hk', hc⟩⟩
      rw [hends]
      constructor
      · rintro (hc | ⟨q, hq, hx⟩)
        · exact ⟨p, List.mem_cons_self, s, l, h, .inr ⟨hk, hc⟩⟩
        · exact ⟨q, List.mem_cons_of_mem _ hq, hx⟩
      · rintro ⟨q, hq, s', l', hn, hx⟩
        rcases List.mem_cons.1 hq with rfl | hq
        · have e1 : s' = s := Option.some.inj (hn.2.1.symm.trans h.2.1)
          have e2 : l' = l := Option.some.inj (hn.2.2.symm.trans h.2.2)
          subst e1 e2
          rcases hx with ⟨hk', -⟩ | ⟨-, hx⟩
          · rw [hk] at hk'; exact nomatch hk'
          · exact .inl hx
        · exact .inr ⟨q, hq, s', l', hn, hx⟩
  rw [key hg]
  constructor
  · rintro ⟨p, hp, s, l, hn, ⟨hk, rfl⟩ | ⟨hk, hc⟩⟩
    · exact .var hp hn hk
    · exact .port hp hn hk hc
  · intro hc
    cases hc with
    | var hq hn hk => exact ⟨_, hq, _, _, hn, .inl ⟨hk, rfl⟩⟩
    | port hq hn hk hc => exact ⟨_, hq, _, _, hn, .inr ⟨hk, hc⟩⟩

/-- C79: the recursion ends if no chain of connections is endless, see `self_expanding_reference`. -/
theorem interface_ref_ends_partial {kind : Nat → SymKind} {expand : Nat → List PathFact} {e : Nat}
    (h : Acc (Follows kind expand) e) : ∃ vs, Gathers kind expand (expand e) vs := by
  induction h with
  | intro e _ ih =>
    have : ∀ ps : List PathFact, (∀ p ∈ ps, p ∈ expand e) → ∃ vs, Gathers kind expand ps vs := by
      intro ps
      induction ps with
      | nil => exact fun _ => ⟨[], .nil⟩
      | cons p ps ih2 =>
        intro hp
        obtain ⟨vs, hvs⟩ := ih2 fun q hq => hp q (List.mem_cons_of_mem _ hq)
        rcases names_dec p with ⟨s, l, hn⟩ | hno
        · cases hk : kind s with
          | «variable» => exact ⟨_, .var hn hk hvs⟩
          | modportPort =>
            obtain ⟨ws, hws⟩ := ih l ⟨p, hp p List.mem_cons_self, s, hn, hk⟩
            exact ⟨_, .port hn hk hws hvs⟩
          | other =>
            refine ⟨_, .skip (fun s' l' hn' => ?_) hvs⟩
            have e1 : s' = s := Option.some.inj (hn'.2.1.symm.trans hn.2.1)
            rw [e1]; exact hk
        · exact ⟨_, .skip (fun s l hn => absurd hn (hno s l)) hvs⟩
    exact this _ fun _ h => h

/-- Negation in general: if the expansion of a reference delivers the reference itself, as for a modport
port that is not connected, the recursion does not end at any depth. -/
theorem self_expanding_reference {kind : Nat → SymKind} {expand : Nat → List PathFact} {e : Nat}
    (h : Follows kind expand e e) (n : Nat) : ∀ vs, resolveIface kind expand n e ≠ .ok vs := by
  induction n with
  | zero => intro vs h; exact nomatch h
  | succ n ih =>
    intro vs hv
    obtain ⟨p, hp, s, hn, hk⟩ := h
    have : ∀ (ps : List PathFact), p ∈ ps → ∀ r, ifacePaths kind (resolveIface kind expand n) ps ≠ .ok r := by
      intro ps
      induction ps with
      | nil => intro hp; exact nomatch hp
      | cons q ps ih2 =>
        intro hq r hr
        rw [ifacePaths_cons] at hr
        obtain ⟨here, rest, -, h2, h3⟩ := hr
        rcases List.mem_cons.1 hq with rfl | hq
        · rcases h3 with ⟨-, h3⟩ | ⟨s', l', hn', h3⟩
          · rw [h3 s e hn] at hk; exact nomatch hk
          · have e1 : s' = s := Option.some.inj (hn'.2.1.symm.trans hn.2.1)
            have e2 : l' = e := Option.some.inj (hn'.2.2.symm.trans hn.2.2)
            subst e1 e2
            rcases h3 with ⟨hk', -⟩ | ⟨-, h3⟩
            · rw [hk] at hk'; exact nomatch hk'
            · exact ih _ h3
        · exact ih2 hq _ h2
    exact this _ hp _ hv

/-- C79 with C59: a write through a modport port is connected to the nodes of the variables at the ends
of its chains. -/
theorem modport_write_connected {D : Design} {expand : Nat → List PathFact} {sens : List SensEntry}
    (hD : ∀ sym e vs, Gathers D.kind expand (expand e) vs → D.iface sym e = vs)
    (ws : List Driven) {s s' : Bld} (hs : BldOk s) (hw : ∀ w ∈ ws, DriversIn s.net w)
    (h : s.mergeDrivers D sens ws = .ok s') {w : Driven} (hm : w ∈ ws) {d : DriverInfo}
    (hd : d ∈ w.drivers) {n : Nat} (hn : d.node = some n) (hk : D.kind w.sym = .modportPort)
    (hacc : Acc (Follows D.kind expand) d.lsp) {v : Nat × BitRange}
    (hv : ChainEnd D.kind expand d.lsp v) (hnode : HasNode s v.1 v.2) : Reaches s' n v.1 v.2 := by
  obtain ⟨vs, hvs⟩ := interface_ref_ends_partial hacc
  obtain ⟨k, hk2⟩ := (interface_ref_exact _ _ _ _).2 hvs
  have hmem : v ∈ vs := (interface_ref_members (hk2 k (Nat.le_refl k)) v).2 hv
  refine interface_write_connected ws hs hw h w hm d hd n hn v ?_ hnode
  exact .inl ⟨hk, by rw [hD w.sym d.lsp vs hvs]; exact hmem⟩

/-- Expression 0 reads through a modport port (symbol 9) whose connection (expression 1) is a variable
(symbol 5) indexed with a parameter (symbol 7). -/
def ifKind (s : Nat) : SymKind := if s = 9 then .modportPort else if s = 5 then .variable else .other

/-- The paths of those expressions. -/
def ifExpand (e : Nat) : List PathFact :=
  if e = 0 then [{ lsp := some 1, root := some 9, bounds := ⟨0, 7⟩ }]
  else if e = 1 then [{ lsp := some 2, root := some 5, bounds := ⟨0, 3⟩ },
    { lsp := some 3, root := some 7, bounds := ⟨0, 31⟩ }]
  else []

example : resolveIface ifKind ifExpand 2 0 = .ok [(5, ⟨0, 3⟩)] ∧ Acc (Follows ifKind ifExpand) 0 ∧
    ChainEnd ifKind ifExpand 0 (5, ⟨0, 3⟩) := by
  have h1 : resolveIface ifKind ifExpand 2 0 = .ok [(5, ⟨0, 3⟩)] := rfl
  refine ⟨h1, ?_, (interface_ref_members h1 _).1 List.mem_cons_self⟩
  refine ⟨_, fun e he => ?_⟩
  obtain ⟨p, hp, s, hn, hk⟩ := he
  have hp' : p = { lsp := some 1, root := some 9, bounds := ⟨0, 7⟩ } := List.mem_singleton.1 hp
  subst hp'
  have : e = 1 := (Option.some.inj hn.2.2).symm
  subst this
  refine ⟨_, fun e he => ?_⟩
  obtain ⟨p, hp, s, hn, hk⟩ := he
  have hp' : p ∈ [({ lsp := some 2, root := some 5, bounds := ⟨0, 3⟩ } : PathFact),
    { lsp := some 3, root := some 7, bounds := ⟨0, 31⟩ }] := hp
  simp only [List.mem_cons, List.not_mem_nil, or_false] at hp'
  rcases hp' with rfl | rfl
  · have : s = 5 := (Option.some.inj hn.2.1).symm
    subst this; exact absurd hk (by decide)
  · have : s = 7 := (Option.some.inj hn.2.1).symm
    subst this; exact absurd hk (by decide)

/-- A modport port that expands to itself. -/
example : Follows (fun _ => .modportPort) (fun e => [{ lsp := some e, root := some 0, bounds := ⟨0, 0⟩ }])
    4 4 := ⟨_, List.mem_cons_self, 0, ⟨rfl, rfl, rfl⟩, rfl⟩

end Verif.Props
