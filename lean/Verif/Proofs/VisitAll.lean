import Verif.Spec.VisitAll

/-! Lemmas for C89. -/
namespace Verif.Proofs
open Verif.Spec Verif.Model

/-- Whether a visit goes on below an element. -/
def opens : AstKind → Bool
  | .value => false
  | .inst u _ => !u
  | .decl s => !s
  | _ => true

theorem opens_iff {k : AstKind} : opens k = true ↔ Opened k := by
  unfold Opened
  cases k with
  | inst u b => cases u <;> simp [opens]
  | decl s => cases s <;> simp [opens]
  | _ => simp [opens]

mutual
/-- The elements visited, in order. -/
def visited : Ast → List Ast
  | .mk id k ps => .mk id k ps :: (if opens k then visitedIn ps else [])
def visitedIn : List Ast → List Ast
  | [] => []
  | a :: as => visited a ++ visitedIn as
end

/-- Whether an element is a value. -/
def isValue (a : Ast) : Bool := astKind a == .value

mutual
theorem visitAll_eq : ∀ (a : Ast) (v : Visitor), a.visitAll v =
    { count := v.count + ((visited a).filter isValue).length, seen := v.seen ++ (visited a).map astId }
  | .mk id k ps, v => by
    have ih := fun w => visitParts_eq ps w
    cases k with
    | value => simp [Ast.visitAll, visited, opens, isValue, astKind, astId]
    | inst u b => cases u <;> simp [Ast.visitAll, visited, opens, isValue, astKind, astId, ih]
    | decl u => cases u <;> simp [Ast.visitAll, visited, opens, isValue, astKind, astId, ih]
    | _ => simp [Ast.visitAll, visited, opens, isValue, astKind, astId, ih]
theorem visitParts_eq : ∀ (as : List Ast) (v : Visitor), Ast.visitParts as v =
    { count := v.count + ((visitedIn as).filter isValue).length, seen := v.seen ++ (visitedIn as).map astId }
  | [], v => by simp [Ast.visitParts, visitedIn]
  | a :: as, v => by
    rw [Ast.visitParts, visitAll_eq a v, visitParts_eq as]
    simp [visitedIn, Nat.add_assoc]
end

mutual
theorem visited_ids : ∀ a : Ast, ((visited a).map astId).Sublist (astIds a)
  | .mk id k ps => by
    have ih := visitedIn_ids ps
    simp only [visited, astIds, List.map_cons, astId]
    refine .cons_cons _ ?_
    split
    · exact ih
    · simp
theorem visitedIn_ids : ∀ as : List Ast, ((visitedIn as).map astId).Sublist (astIdsIn as)
  | [] => by simp [visitedIn]
  | a :: as => by
    simp only [visitedIn, astIdsIn, List.map_append]
    exact (visited_ids a).append (visitedIn_ids as)
end

mutual
theorem visited_through : ∀ (a : Ast) {c : Ast}, c ∈ visited a → Through Opened a c
  | .mk id k ps, c, h => by
    simp only [visited, List.mem_cons] at h
    rcases h with rfl | h
    · exact .here _
    · split at h
      · rename_i ho
        obtain ⟨b, hb, hc⟩ := visitedIn_through ps h
        exact .part (a := .mk id k ps) (opens_iff.1 ho) hb hc
      · cases h
theorem visitedIn_through : ∀ (as : List Ast) {c : Ast}, c ∈ visitedIn as → ∃ b ∈ as, Through Opened b c
  | [], c, h => by simp [visitedIn] at h
  | a :: as, c, h => by
    simp only [visitedIn, List.mem_append] at h
    rcases h with h | h
    · exact ⟨a, by simp, visited_through a h⟩
    · obtain ⟨b, hb, hc⟩ := visitedIn_through as h
      exact ⟨b, by simp [hb], hc⟩
end

theorem visitedIn_of : ∀ {as : List Ast} {b c : Ast}, b ∈ as → c ∈ visited b → c ∈ visitedIn as
  | a :: as, b, c, hb, hc => by
    simp only [visitedIn, List.mem_append]
    rcases List.mem_cons.1 hb with rfl | hb
    · exact .inl hc
    · exact .inr (visitedIn_of hb hc)

theorem through_visited {a c : Ast} (h : Through Opened a c) : c ∈ visited a := by
  induction h with
  | here a => cases a; simp [visited]
  | @part a b c hp hb _ ih =>
    obtain ⟨id, k, ps⟩ := a
    simp only [visited, List.mem_cons]
    right
    have hp' : opens k = true := opens_iff.2 hp
    rw [if_pos hp']
    exact visitedIn_of hb ih

theorem visited_iff {a c : Ast} : c ∈ visited a ↔ Through Opened a c := ⟨visited_through a, through_visited⟩

theorem through_trans {P : AstKind → Prop} {a b c : Ast} (h : Through P a b) (h' : Through P b c) : Through P a c := by
  induction h with
  | here _ => exact h'
  | part hp hm _ ih => exact .part hp hm (ih h')

theorem through_mono {P Q : AstKind → Prop} (h : ∀ k, P k → Q k) {a c : Ast} (ht : Through P a c) : Through Q a c := by
  induction ht with
  | here a => exact .here a
  | part hp hm _ ih => exact .part (h _ hp) hm ih

theorem netlisted_opened (k : AstKind) (h : Netlisted k) : Opened k := by
  rcases h with rfl | rfl | rfl <;> simp [Opened]

theorem executes_opened (k : AstKind) (h : Executes k) : Opened k := by
  rcases h with rfl | rfl | rfl <;> simp [Opened]

/-! ### Deferred blocks and what is analysed -/

mutual
theorem deferred_through : ∀ (a : Ast) {b : Ast}, b ∈ a.deferred → Through Netlisted a b ∧ astKind b = .block
  | .mk id k ps, b, h => by
    have ih := fun {b : Ast} (h : b ∈ Ast.deferredIn ps) => deferredIn_through ps h
    have go : Netlisted k → b ∈ Ast.deferredIn ps → Through Netlisted (.mk id k ps) b ∧ astKind b = .block := by
      intro he hb
      obtain ⟨c, hc, h1, h2⟩ := ih hb
      exact ⟨.part (a := .mk id k ps) he hc h1, h2⟩
    cases k with
    | value => simp [Ast.deferred] at h
    | inst u x =>
      cases u <;> cases x <;> simp [Ast.deferred] at h
      exact go (.inr (.inl rfl)) h
    | gen u =>
      cases u <;> simp [Ast.deferred] at h
      exact go (.inr (.inr rfl)) h
    | block =>
      simp only [Ast.deferred, List.mem_singleton] at h
      subst h; exact ⟨.here _, rfl⟩
    | decl s => simp [Ast.deferred] at h
    | other => simp only [Ast.deferred] at h; exact go (.inl rfl) h
theorem deferredIn_through : ∀ (as : List Ast) {b : Ast}, b ∈ Ast.deferredIn as →
    ∃ c ∈ as, Through Netlisted c b ∧ astKind b = .block
  | [], b, h => by simp [Ast.deferredIn] at h
  | a :: as, b, h => by
    simp only [Ast.deferredIn, List.mem_append] at h
    rcases h with h | h
    · exact ⟨a, by simp, deferred_through a h⟩
    · obtain ⟨c, hc, h1⟩ := deferredIn_through as h
      exact ⟨c, by simp [hc], h1⟩
end

theorem deferredIn_of : ∀ {as : List Ast} {c b : Ast}, c ∈ as → b ∈ c.deferred → b ∈ Ast.deferredIn as
  | a :: as, c, b, hc, hb => by
    simp only [Ast.deferredIn, List.mem_append]
    rcases List.mem_cons.1 hc with rfl | hc
    · exact .inl hb
    · exact .inr (deferredIn_of hc hb)

theorem through_deferred {a b : Ast} (h : Through Netlisted a b) (hb : astKind b = .block) : b ∈ a.deferred := by
  induction h with
  | here a =>
    obtain ⟨id, k, ps⟩ := a
    cases hb
    simp [Ast.deferred]
  | @part a c b hp hc _ ih =>
    obtain ⟨id, k, ps⟩ := a
    have hm := deferredIn_of hc (ih hb)
    rcases hp with h | h | h <;> cases h <;> simp only [Ast.deferred] <;> exact hm

mutual
theorem analysed_through : ∀ (a : Ast) {n : Nat}, n ∈ a.analysed →
    ∃ c, Through Executes a c ∧ Code (astKind c) ∧ astId c = n
  | .mk id k ps, n, h => by
    have ih := fun (h : n ∈ Ast.analysedIn ps) => analysedIn_through ps h
    have go : Executes k → n ∈ id :: Ast.analysedIn ps →
        ∃ c, Through Executes (.mk id k ps) c ∧ Code (astKind c) ∧ astId c = n := by
      intro he hm
      rcases List.mem_cons.1 hm with rfl | hm
      · exact ⟨_, .here _, .inl he, rfl⟩
      · obtain ⟨b, hb, c, h1, h2⟩ := ih hm
        exact ⟨c, .part (a := .mk id k ps) he hb h1, h2⟩
    cases k with
    | value => simp [Ast.analysed] at h
    | inst u x => simp [Ast.analysed] at h
    | gen u => simp [Ast.analysed] at h
    | block => exact go (.inr (.inl rfl)) (by simpa only [Ast.analysed] using h)
    | decl s =>
      cases s with
      | false => exact go (.inr (.inr rfl)) (by simpa [Ast.analysed] using h)
      | true =>
        simp [Ast.analysed] at h
        exact ⟨_, .here _, .inr rfl, h.symm⟩
    | other => exact go (.inl rfl) (by simpa only [Ast.analysed] using h)
theorem analysedIn_through : ∀ (as : List Ast) {n : Nat}, n ∈ Ast.analysedIn as →
    ∃ b ∈ as, ∃ c, Through Executes b c ∧ Code (astKind c) ∧ astId c = n
  | [], n, h => by simp [Ast.analysedIn] at h
  | a :: as, n, h => by
    simp only [Ast.analysedIn, List.mem_append] at h
    rcases h with h | h
    · exact ⟨a, by simp, analysed_through a h⟩
    · obtain ⟨b, hb, h1⟩ := analysedIn_through as h
      exact ⟨b, by simp [hb], h1⟩
end

theorem analysedIn_of : ∀ {as : List Ast} {b : Ast} {n : Nat}, b ∈ as → n ∈ b.analysed → n ∈ Ast.analysedIn as
  | a :: as, b, n, hb, hn => by
    simp only [Ast.analysedIn, List.mem_append]
    rcases List.mem_cons.1 hb with rfl | hb
    · exact .inl hn
    · exact .inr (analysedIn_of hb hn)

theorem through_analysed {a c : Ast} (h : Through Executes a c) (hc : Code (astKind c)) : astId c ∈ a.analysed := by
  induction h with
  | here a =>
    obtain ⟨id, k, ps⟩ := a
    rcases hc with (h | h | h) | h <;> cases h <;> simp [Ast.analysed, astId]
  | @part a b c hp hb _ ih =>
    obtain ⟨id, k, ps⟩ := a
    have hm := analysedIn_of hb (ih hc)
    rcases hp with h | h | h <;> cases h <;> (simp [Ast.analysed]; exact .inr hm)

end Verif.Proofs
