import Verif.Model.Intern

/-! C39: interning under every interleaving. -/
set_option linter.unusedSimpArgs false
namespace Verif.Props
open Verif.Model

/-- Thread `t` is between taking and releasing the mutex. -/
def Inside' {α : Type} (p : IPhase α) : Prop :=
  match p with
  | .second _ => True
  | .store _ => True
  | .publish _ _ => True
  | .leave _ _ => True
  | _ => False

/-- The entry waiting to be published, if any. -/
def pendingOf {α : Type} (p : IPhase α) : Option (α × Nat) :=
  match p with
  | .publish a i => some (a, i)
  | _ => none

/-- The invariant. -/
structure IInv {α : Type} (cfg : ICfg α) (s : ITab α) : Prop where
  /-- exactly the holder of the mutex is inside -/
  excl : ∀ t, Inside' (s.th t) ↔ s.lock = some t
  /-- published indices are right -/
  sound : ∀ (k : Str) (r : Nat), s.map k = some r →
    ∃ (i : Nat) (a : α), s.entries[i]? = some a ∧ cfg.key a = k ∧ r = cfg.index i
  /-- entries are published unless a thread is about to do so -/
  complete : ∀ (i : Nat) (a : α), s.entries[i]? = some a → s.map (cfg.key a) = some (cfg.index i) ∨
    ∃ t, s.th t = .publish a (cfg.index i)
  /-- no key twice -/
  uniq : ∀ (i j : Nat) (a b : α), s.entries[i]? = some a → s.entries[j]? = some b →
    cfg.key a = cfg.key b → i = j
  /-- a thread about to append found no entry -/
  fresh : ∀ t a, s.th t = .store a → s.map (cfg.key a) = none
  pub : ∀ t a i, s.th t = .publish a i →
    s.map (cfg.key a) = none ∧ ∃ p : Nat, s.entries[p]? = some a ∧ i = cfg.index p
  ret : ∀ t a r, s.th t = .leave a r → s.map (cfg.key a) = some r
  done : ∀ a r, (a, r) ∈ s.log → s.map (cfg.key a) = some r

theorem iinv_empty {α : Type} (cfg : ICfg α) : IInv cfg ({} : ITab α) := by
  constructor <;> simp [Inside']

theorem only_inside {α : Type} {cfg : ICfg α} {s : ITab α} (h : IInv cfg s) {t u : Nat}
    (ht : Inside' (s.th t)) (hu : Inside' (s.th u)) : t = u := by
  have h1 := (h.excl t).1 ht
  have h2 := (h.excl u).1 hu
  rw [h1] at h2; exact Option.some.inj h2

/-- A step that changes neither the entries nor the map. -/
theorem iinv_quiet {α : Type} {cfg : ICfg α} {s : ITab α} (h : IInv cfg s) (t : Nat)
    (p : IPhase α) (lk : Option Nat) (lg : List (α × Nat))
    (hin : Inside' p ↔ lk = some t) (hlk : ∀ u, u ≠ t → (lk = some u ↔ s.lock = some u))
    (hold : ∀ a i, s.th t ≠ .publish a i) (hnew : ∀ a i, p ≠ .publish a i)
    (hst : ∀ a, p = .store a → s.map (cfg.key a) = none)
    (hlv : ∀ a r, p = .leave a r → s.map (cfg.key a) = some r)
    (hlg : ∀ a r, (a, r) ∈ lg → s.map (cfg.key a) = some r) :
    IInv cfg { s.goto t p with lock := lk, log := lg } := by
  refine ⟨?_, h.sound, ?_, h.uniq, ?_, ?_, ?_, hlg⟩
  · intro u
    by_cases hu : u = t
    · subst hu; simpa [ITab.goto] using hin
    · simpa [ITab.goto, hu, hlk u hu] using h.excl u
  · intro i b hb
    rcases h.complete i b hb with h1 | ⟨u, hu⟩
    · exact Or.inl h1
    · have hne : u ≠ t := fun hc => hold _ _ (hc ▸ hu)
      exact Or.inr ⟨u, by simp [ITab.goto, hne, hu]⟩
  · intro u b hb
    by_cases hu : u = t
    · subst hu; exact hst b (by simpa [ITab.goto] using hb)
    · exact h.fresh u b (by simpa [ITab.goto, hu] using hb)
  · intro u b i hb
    by_cases hu : u = t
    · subst hu; exact absurd (by simpa [ITab.goto] using hb) (hnew b i)
    · exact h.pub u b i (by simpa [ITab.goto, hu] using hb)
  · intro u b r hb
    by_cases hu : u = t
    · subst hu; exact hlv b r (by simpa [ITab.goto] using hb)
    · exact h.ret u b r (by simpa [ITab.goto, hu] using hb)

theorem iinv_step {α : Type} {cfg : ICfg α} {s s' : ITab α} {t : Nat} {a : α} (h : IInv cfg s)
    (hs : s.step cfg t a = some s') : IInv cfg s' := by
  have hex := h.excl t
  unfold ITab.step at hs
  split at hs
  · rename_i hp
    simp only [Option.some.injEq] at hs; subst hs
    rw [hp] at hex
    exact iinv_quiet h t (.first a) s.lock s.log (by simpa [Inside'] using hex) (fun _ _ => Iff.rfl)
      (by simp [hp]) (by simp) (by simp) (by simp) h.done
  · rename_i b hp
    rw [hp] at hex
    split at hs <;> (simp only [Option.some.injEq] at hs; subst hs)
    · rename_i r hr
      refine iinv_quiet h t .idle s.lock ((b, r) :: s.log) (by simpa [Inside'] using hex)
        (fun _ _ => Iff.rfl) (by simp [hp]) (by simp) (by simp) (by simp) ?_
      intro c q hc
      rcases List.mem_cons.1 hc with h1 | h1
      · cases h1; exact hr
      · exact h.done c q h1
    · exact iinv_quiet h t (.want b) s.lock s.log (by simpa [Inside'] using hex)
        (fun _ _ => Iff.rfl) (by simp [hp]) (by simp) (by simp) (by simp) h.done
  · rename_i b hp
    rw [hp] at hex
    split at hs
    · cases hs
    · rename_i hl
      simp only [Option.some.injEq] at hs; subst hs
      exact iinv_quiet h t (.second b) (some t) s.log (by simp [Inside'])
        (fun u hu => by simp [hl, Ne.symm hu]) (by simp [hp]) (by simp) (by simp) (by simp) h.done
  · rename_i b hp
    rw [hp] at hex
    split at hs <;> (simp only [Option.some.injEq] at hs; subst hs)
    · rename_i r hr
      exact iinv_quiet h t (.leave b r) s.lock s.log (by simpa [Inside'] using hex)
        (fun _ _ => Iff.rfl) (by simp [hp]) (by simp) (by simp)
        (fun c q hc => by cases hc; exact hr) h.done
    · rename_i hr
      exact iinv_quiet h t (.store b) s.lock s.log (by simpa [Inside'] using hex)
        (fun _ _ => Iff.rfl) (by simp [hp]) (by simp) (fun c hc => by cases hc; exact hr)
        (by simp) h.done
  · -- appending
    rename_i b hp
    have hno : ∀ u c i, s.th u ≠ .publish c i := by
      intro u c i hu
      have := only_inside h (t := t) (u := u) (by simp [hp, Inside']) (by simp [hu, Inside'])
      subst this; rw [hp] at hu; cases hu
    have hfresh := h.fresh t b hp
    have hnone : ∀ (i : Nat) c, s.entries[i]? = some c → cfg.key c ≠ cfg.key b := by
      intro i c hc hk
      rcases h.complete i c hc with h1 | ⟨u, hu⟩
      · rw [hk, hfresh] at h1; cases h1
      · exact hno u _ _ hu
    have hget : ∀ (i : Nat) c, (s.entries ++ [b])[i]? = some c →
        s.entries[i]? = some c ∨ (i = s.entries.length ∧ c = b) := by
      intro i c hc
      by_cases hi : i < s.entries.length
      · rw [List.getElem?_append_left hi] at hc; exact Or.inl hc
      · have hlt := (List.getElem?_eq_some_iff.1 hc).1
        simp only [List.length_append, List.length_cons, List.length_nil] at hlt
        have : i = s.entries.length := by omega
        subst this
        simp at hc
        exact Or.inr ⟨rfl, hc.symm⟩
    have hkeep : ∀ (i : Nat) c, s.entries[i]? = some c → (s.entries ++ [b])[i]? = some c := by
      intro i c hc
      rw [List.getElem?_append_left (List.getElem?_eq_some_iff.1 hc).1]; exact hc
    simp only [Option.some.injEq] at hs; subst hs
    rw [hp] at hex
    refine ⟨?_, ?_, ?_, ?_, ?_, ?_, ?_, h.done⟩
    · intro u
      by_cases hu : u = t
      · subst hu; simpa [ITab.goto, Inside'] using hex
      · simpa [ITab.goto, hu] using h.excl u
    · intro k r hr
      obtain ⟨i, c, h1, h2, h3⟩ := h.sound k r hr
      exact ⟨i, c, hkeep i c h1, h2, h3⟩
    · intro i c hc
      rcases hget i c hc with h1 | ⟨rfl, rfl⟩
      · rcases h.complete i c h1 with h2 | ⟨u, hu⟩
        · exact Or.inl h2
        · exact absurd hu (hno u _ _)
      · exact Or.inr ⟨t, by simp [ITab.goto]⟩
    · intro i j c d hc hd hk
      rcases hget i c hc with h1 | ⟨rfl, rfl⟩ <;> rcases hget j d hd with h2 | ⟨rfl, rfl⟩
      · exact h.uniq i j c d h1 h2 hk
      · exact absurd hk (hnone i c h1)
      · exact absurd hk.symm (hnone j d h2)
      · rfl
    · intro u c hc
      by_cases hu : u = t
      · subst hu; simp [ITab.goto] at hc
      · exact h.fresh u c (by simpa [ITab.goto, hu] using hc)
    · intro u c i hc
      by_cases hu : u = t
      · subst hu
        simp only [ITab.goto, if_true, IPhase.publish.injEq] at hc
        obtain ⟨rfl, rfl⟩ := hc
        exact ⟨hfresh, s.entries.length, by simp, rfl⟩
      · exact absurd (by simpa [ITab.goto, hu] using hc) (hno u c i)
    · intro u c r hc
      by_cases hu : u = t
      · subst hu; simp [ITab.goto] at hc
      · exact h.ret u c r (by simpa [ITab.goto, hu] using hc)
  · -- publishing
    rename_i b i hp
    obtain ⟨hnone, q, hq, hiq⟩ := h.pub t b i hp
    have honly : ∀ u, Inside' (s.th u) → u = t := fun u hu =>
      only_inside h hu (by simp [hp, Inside'])
    simp only [Option.some.injEq] at hs; subst hs
    rw [hp] at hex
    refine ⟨?_, ?_, ?_, h.uniq, ?_, ?_, ?_, ?_⟩
    · intro u
      by_cases hu : u = t
      · subst hu; simpa [ITab.goto, Inside'] using hex
      · simpa [ITab.goto, hu] using h.excl u
    · intro k r hr
      by_cases hk : k = cfg.key b
      · subst hk
        simp only [if_true, hnone, Option.getD_none, Option.some.injEq] at hr
        subst hr
        exact ⟨q, b, hq, rfl, hiq⟩
      · simp only [hk, if_false] at hr
        exact h.sound k r hr
    · intro j c hc
      by_cases hk : cfg.key c = cfg.key b
      · have := h.uniq j q c b hc hq hk
        subst this
        refine Or.inl ?_
        simp [hk, hnone, hiq]
      · rcases h.complete j c hc with h1 | ⟨u, hu⟩
        · exact Or.inl (by simpa [hk] using h1)
        · have := honly u (by simp [hu, Inside'])
          subst this
          rw [hp] at hu
          cases hu
          exact absurd rfl hk
    · intro u c hc
      by_cases hu : u = t
      · subst hu; simp [ITab.goto] at hc
      · have hc' : s.th u = .store c := by simpa [ITab.goto, hu] using hc
        exact absurd (honly u (by simp [hc', Inside'])) hu
    · intro u c j hc
      by_cases hu : u = t
      · subst hu; simp [ITab.goto] at hc
      · have hc' : s.th u = .publish c j := by simpa [ITab.goto, hu] using hc
        exact absurd (honly u (by simp [hc', Inside'])) hu
    · intro u c r hc
      by_cases hu : u = t
      · subst hu
        simp only [ITab.goto, if_true, IPhase.leave.injEq] at hc
        obtain ⟨rfl, rfl⟩ := hc
        simp [hnone]
      · have hc' : s.th u = .leave c r := by simpa [ITab.goto, hu] using hc
        exact absurd (honly u (by simp [hc', Inside'])) hu
    · intro c r hc
      have h1 := h.done c r hc
      by_cases hk : cfg.key c = cfg.key b
      · rw [hk, hnone] at h1; cases h1
      · simpa [hk] using h1
  · rename_i b r hp
    have hlock := hex.1 (by simp [hp, Inside'])
    simp only [Option.some.injEq] at hs; subst hs
    refine iinv_quiet h t .idle none ((b, r) :: s.log) (by simp [Inside'])
      (fun u hu => by simp [hlock, Ne.symm hu]) (by simp [hp]) (by simp) (by simp) (by simp) ?_
    intro c q hc
    rcases List.mem_cons.1 hc with h1 | h1
    · cases h1; exact h.ret t b r hp
    · exact h.done c q h1

theorem iinv_run {α : Type} {cfg : ICfg α} {s s' : ITab α} {l : List (Nat × α)} (h : IInv cfg s)
    (hs : s.run cfg l = some s') : IInv cfg s' := by
  induction l generalizing s with
  | nil => simp only [ITab.run, Option.some.injEq] at hs; subst hs; exact h
  | cons x l ih =>
    obtain ⟨t, a⟩ := x
    simp only [ITab.run] at hs
    split at hs
    · cases hs
    · rename_i s1 h1
      exact ih (iinv_step h h1) hs

/-- Entries are only ever appended. -/
theorem entries_grow {α : Type} {cfg : ICfg α} {s s' : ITab α} {l : List (Nat × α)}
    (hs : s.run cfg l = some s') : ∃ more, s'.entries = s.entries ++ more := by
  induction l generalizing s with
  | nil => simp only [ITab.run, Option.some.injEq] at hs; subst hs; exact ⟨[], by simp⟩
  | cons x l ih =>
    obtain ⟨t, a⟩ := x
    simp only [ITab.run] at hs
    split at hs
    · cases hs
    · rename_i s1 h1
      obtain ⟨m, hm⟩ := ih hs
      have : ∃ m1, s1.entries = s.entries ++ m1 := by
        unfold ITab.step at h1
        split at h1
        · cases h1; exact ⟨[], by simp [ITab.goto]⟩
        · split at h1 <;> cases h1 <;> exact ⟨[], by simp [ITab.goto]⟩
        · split at h1 <;> cases h1; exact ⟨[], by simp [ITab.goto]⟩
        · split at h1 <;> cases h1 <;> exact ⟨[], by simp [ITab.goto]⟩
        · cases h1; exact ⟨_, rfl⟩
        · cases h1; exact ⟨[], by simp [ITab.goto]⟩
        · cases h1; exact ⟨[], by simp [ITab.goto]⟩
      obtain ⟨m1, hm1⟩ := this
      exact ⟨m1 ++ m, by rw [hm, hm1, List.append_assoc]⟩

/-- C39, files: whatever the threads do, while there are fewer files than 32-bit indices, a finished
call's index leads back to its name, now and after any further steps; equal names have got equal
indices and different names different ones; no two threads append at once. The index that stands for no
file is never given out, and asking for its name gives the empty name. -/
theorem file_indices_consistent {l : List (Nat × Str)} {s : ITab Str}
    (hs : ITab.run fileCfg {} l = some s) (hn : s.entries.length ≤ noFile) :
    getFilename s noFile = some [] ∧
    (∀ a r, (a, r) ∈ s.log → getFilename s r = some a ∧ r ≠ noFile) ∧
    (∀ a b r q, (a, r) ∈ s.log → (b, q) ∈ s.log → (r = q ↔ a = b)) ∧
    (∀ t u, Inside' (s.th t) → Inside' (s.th u) → t = u) ∧
    ∀ l' s', s.run fileCfg l' = some s' → s'.entries.length ≤ noFile →
      ∀ a r, (a, r) ∈ s.log → getFilename s' r = some a := by
  have hi := iinv_run (iinv_empty fileCfg) hs
  have hlt : ∀ i, i < s.entries.length → fileCfg.index i = i ∧ i ≠ noFile := by
    intro i h
    unfold noFile at *
    refine ⟨Nat.mod_eq_of_lt (by omega), by omega⟩
  have hget : ∀ a r, (a, r) ∈ s.log → s.entries[r]? = some a ∧ r ≠ noFile := by
    intro a r h
    obtain ⟨i, b, h1, h2, h3⟩ := hi.sound _ _ (hi.done a r h)
    have hl := hlt i (List.getElem?_eq_some_iff.1 h1).1
    rw [hl.1] at h3
    subst h3
    have : b = a := h2
    exact ⟨this ▸ h1, hl.2⟩
  refine ⟨by simp [getFilename], ?_, ?_, fun t u => only_inside hi, ?_⟩
  · intro a r h
    obtain ⟨h1, h2⟩ := hget a r h
    simp [getFilename, h1, h2]
  · intro a b r q h1 h2
    have g1 := hget a r h1
    have g2 := hget b q h2
    constructor
    · rintro rfl
      rw [g1.1] at g2
      exact Option.some.inj g2.1
    · rintro rfl
      exact hi.uniq r q a a g1.1 g2.1 rfl
  · intro l' s' hs' _ a r h
    obtain ⟨h1, h2⟩ := hget a r h
    obtain ⟨m, hm⟩ := entries_grow hs'
    have h3 : s'.entries[r]? = some a := by
      rw [hm, List.getElem?_append_left (List.getElem?_eq_some_iff.1 h1).1]; exact h1
    simp [getFilename, h3, h2]

/-- C39, symbols: a finished call returned a record with the requested path; equal paths got the
same record, different paths different records, and the record never changes afterwards. -/
theorem symbol_records_stable {l : List (Nat × SymRef)} {s : ITab SymRef}
    (hs : ITab.run symCfg {} l = some s) :
    (∀ a r, (a, r) ∈ s.log → ∃ rec, s.entries[r]? = some rec ∧ rec.path = a.path) ∧
    (∀ a b r q, (a, r) ∈ s.log → (b, q) ∈ s.log → (r = q ↔ a.path = b.path)) ∧
    ∀ l' s', s.run symCfg l' = some s' →
      ∀ a r, (a, r) ∈ s.log → s'.entries[r]? = s.entries[r]? := by
  have hi := iinv_run (iinv_empty symCfg) hs
  have hget : ∀ a r, (a, r) ∈ s.log → ∃ rec, s.entries[r]? = some rec ∧ rec.path = a.path := by
    intro a r h
    obtain ⟨i, b, h1, h2, h3⟩ := hi.sound _ _ (hi.done a r h)
    have : r = i := h3
    subst this
    exact ⟨b, h1, h2⟩
  refine ⟨hget, ?_, ?_⟩
  · intro a b r q h1 h2
    obtain ⟨x, g1, e1⟩ := hget a r h1
    obtain ⟨y, g2, e2⟩ := hget b q h2
    constructor
    · rintro rfl
      rw [g1] at g2; cases g2
      rw [← e1, e2]
    · intro h
      exact hi.uniq r q x y g1 g2 (by show x.path = y.path; rw [e1, e2, h])
  · intro l' s' hs' a r h
    obtain ⟨x, g1, _⟩ := hget a r h
    obtain ⟨m, hm⟩ := entries_grow hs'
    rw [hm, List.getElem?_append_left (List.getElem?_eq_some_iff.1 g1).1]

/-- C39: a record is the argument of some call: name and location are not mixed between callers. -/
theorem entries_are_arguments {α : Type} {cfg : ICfg α} {l : List (Nat × α)} {s : ITab α}
    (hs : ITab.run cfg {} l = some s) : ∀ a ∈ s.entries, ∃ t, (t, a) ∈ l := by
  suffices H : ∀ (l : List (Nat × α)) (P : α → Prop) (s0 : ITab α), (∀ a ∈ s0.entries, P a) →
      (∀ t, match s0.th t with
        | .first a => P a
        | .want a => P a
        | .second a => P a
        | .store a => P a
        | _ => True) → (∀ x ∈ l, P x.2) → ITab.run cfg s0 l = some s → ∀ a ∈ s.entries, P a by
    exact H l (fun a => ∃ t, (t, a) ∈ l) {} (by simp) (by simp) (fun x hx => ⟨x.1, hx⟩) hs
  intro l P
  induction l with
  | nil =>
    intro s0 h1 _ _ h; simp only [ITab.run, Option.some.injEq] at h; subst h; exact h1
  | cons x l ih =>
    obtain ⟨t, a⟩ := x
    intro s0 h1 h2 h3 h
    simp only [ITab.run] at h
    split at h
    · cases h
    · rename_i s1 hst
      have ht := h2 t
      have hPa : P a := h3 (t, a) List.mem_cons_self
      refine ih s1 ?_ ?_ (fun y hy => h3 y (List.mem_cons_of_mem _ hy)) h
      · unfold ITab.step at hst
        split at hst
        · cases hst; exact h1
        · split at hst <;> cases hst <;> exact h1
        · split at hst <;> cases hst; exact h1
        · split at hst <;> cases hst <;> exact h1
        · rename_i b hb
          cases hst
          intro c hc
          rcases List.mem_append.1 hc with hc | hc
          · exact h1 c hc
          · rw [hb] at ht
            simp only [List.mem_singleton] at hc
            rw [hc]; exact ht
        · cases hst; exact h1
        · cases hst; exact h1
      · intro u
        have hu := h2 u
        unfold ITab.step at hst
        by_cases hut : u = t
        · subst hut
          split at hst
          · cases hst; simpa [ITab.goto] using hPa
          · rename_i b hb
            rw [hb] at ht
            split at hst <;> cases hst <;> simp [ITab.goto] <;> exact ht
          · rename_i b hb
            rw [hb] at ht
            split at hst <;> cases hst; simp [ITab.goto]; exact ht
          · rename_i b hb
            rw [hb] at ht
            split at hst <;> cases hst <;> simp [ITab.goto] <;> exact ht
          · cases hst; simp [ITab.goto]
          · cases hst; simp [ITab.goto]
          · cases hst; simp [ITab.goto]
        · have key : ∀ p (x : ITab α), x.th = (s0.goto t p).th →
              (match x.th u with
              | .first a => P a
              | .want a => P a
              | .second a => P a
              | .store a => P a
              | _ => True) := by
            intro p x hx
            rw [hx]
            simp only [ITab.goto, hut, if_false]
            exact hu
          split at hst
          · cases hst; exact key _ _ rfl
          · split at hst <;> cases hst <;> exact key _ _ rfl
          · split at hst <;> cases hst; exact key _ _ rfl
          · split at hst <;> cases hst <;> exact key _ _ rfl
          · cases hst; exact key _ _ rfl
          · cases hst; exact key _ _ rfl
          · cases hst; exact key _ _ rfl

/-- C39: no deadlock: whenever a call is in progress, some thread inside a call can step. -/
theorem interning_progresses {α : Type} {cfg : ICfg α} {l : List (Nat × α)} {s : ITab α}
    (hs : ITab.run cfg {} l = some s) {t : Nat} (ht : s.th t ≠ .idle) (a : α) :
    ∃ u s', s.th u ≠ .idle ∧ s.step cfg u a = some s' := by
  have hi := iinv_run (iinv_empty cfg) hs
  have hcan : ∀ u, (∀ b, s.th u ≠ .want b) → ∃ s', s.step cfg u a = some s' := by
    intro u hu
    unfold ITab.step
    split
    · exact ⟨_, rfl⟩
    · split <;> exact ⟨_, rfl⟩
    · rename_i b hb; exact absurd hb (hu b)
    · split <;> exact ⟨_, rfl⟩
    all_goals exact ⟨_, rfl⟩
  cases hl : s.lock with
  | none =>
    refine ⟨t, ?_⟩
    by_cases hw : ∃ b, s.th t = .want b
    · obtain ⟨b, hb⟩ := hw
      exact ⟨{ s.goto t (.second b) with lock := some t }, ht, by simp [ITab.step, hb, hl]⟩
    · obtain ⟨s', h⟩ := hcan t (fun b hb => hw ⟨b, hb⟩)
      exact ⟨s', ht, h⟩
  | some u =>
    have hin := (hi.excl u).2 hl
    obtain ⟨s', h⟩ := hcan u (fun b hb => by rw [hb] at hin; exact hin)
    exact ⟨u, s', fun hc => by rw [hc] at hin; exact hin, h⟩

/-- Non-vacuity: two threads race to add the same name; the second finds it under the mutex, and a
third name gets the next index. -/
def raceSched : List (Nat × Str) :=
  [(0, ['a']), (1, ['a']), (0, []), (1, []), (0, []), (0, []), (0, []), (0, []), (0, []),
   (1, []), (1, []), (1, []), (0, ['b']), (0, []), (0, []), (0, []), (0, []), (0, []), (0, [])]

example : (ITab.run fileCfg {} raceSched).map (fun s => (s.log, s.entries)) =
    some ([(['b'], 1), (['a'], 0), (['a'], 0)], [['a'], ['b']]) := by decide

/-- The table after the race. -/
def raceEnd : ITab Str := (ITab.run fileCfg {} raceSched).getD {}

theorem race_end : ITab.run fileCfg {} raceSched = some raceEnd := rfl

/-- The theorems apply to the race, and to the moment when both threads are inside the call. -/
example := file_indices_consistent race_end (by decide)
example := entries_are_arguments race_end
example := interning_progresses (cfg := fileCfg) (l := raceSched.take 4) (s := (ITab.run fileCfg {} (raceSched.take 4)).getD {})
  rfl (t := 1) (fun h => nomatch h) []

/-- Two symbols with the same path, interned one after the other. -/
def symSched : List (Nat × SymRef) :=
  [(0, ⟨['a'], ['t', '.', 'a'], {}⟩), (0, ⟨[], [], {}⟩), (0, ⟨[], [], {}⟩), (0, ⟨[], [], {}⟩), (0, ⟨[], [], {}⟩),
   (0, ⟨[], [], {}⟩), (0, ⟨[], [], {}⟩), (1, ⟨['b'], ['t', '.', 'a'], {}⟩), (1, ⟨[], [], {}⟩), (1, ⟨[], [], {}⟩)]

example : (ITab.run symCfg {} symSched).map (fun s => s.log.length) = some 2 := by decide
example := symbol_records_stable (l := symSched) (s := (ITab.run symCfg {} symSched).getD {}) rfl

end Verif.Props
