import Verif.Proofs.VisitAll

/-!
C89: what is visited before the compilation is frozen, and that the phases after it look at nothing else.
-/
namespace Verif.Props
open Verif.Spec Verif.Model Verif.Proofs

/-- C89: an element is visited exactly if there is no value, no instance outside the design and no declaration of
a static variable above it. -/
theorem visit_exact (a : Ast) (n : Nat) :
    n ∈ (a.visitAll {}).seen ↔ ∃ c, Through Opened a c ∧ astId c = n := by
  rw [visitAll_eq]
  simp only [List.nil_append, List.mem_map, visited_iff]

/-- C89: the elements are visited in the order in which they stand, none of them twice. -/
theorem visit_once (a : Ast) : ((a.visitAll {}).seen).Sublist (astIds a) ∧
    ((astIds a).Nodup → ((a.visitAll {}).seen).Nodup) := by
  have h : ((a.visitAll {}).seen).Sublist (astIds a) := by
    rw [visitAll_eq]; simpa using visited_ids a
  exact ⟨h, fun hn => h.nodup hn⟩

/-- C89: `count` is the number of values that are visited. -/
theorem visit_count {a : Ast} (ha : (astIds a).Nodup) {vs : List Nat} (hn : vs.Nodup)
    (hv : ∀ n, n ∈ vs ↔ ∃ c, Through Opened a c ∧ astKind c = .value ∧ astId c = n) :
    (a.visitAll {}).count = vs.length := by
  rw [visitAll_eq]
  simp only [Nat.zero_add]
  have hs : (((visited a).filter isValue).map astId).Nodup :=
    ((List.filter_sublist.map astId).trans (visited_ids a)).nodup ha
  have hm : ∀ n, n ∈ vs ↔ n ∈ ((visited a).filter isValue).map astId := by
    intro n
    rw [hv]
    simp only [List.mem_map, List.mem_filter, visited_iff, isValue, beq_iff_eq, and_assoc]
  have := ((List.perm_ext_iff_of_nodup hn hs).2 hm).length_eq
  rw [this, List.length_map]

/-- C89: the blocks that the first phase defers are those of the design that are not inside a black box. -/
theorem deferred_exact (a b : Ast) : b ∈ a.deferred ↔ Through Netlisted a b ∧ astKind b = .block :=
  ⟨deferred_through a, fun h => through_deferred h.1 h.2⟩

/-- C89: the analysis of a block looks at its statements and expressions, except for the initializers of static
variables. -/
theorem analysed_exact (b : Ast) (n : Nat) :
    n ∈ b.analysed ↔ ∃ c, Through Executes b c ∧ Code (astKind c) ∧ astId c = n :=
  ⟨analysed_through b, fun ⟨_, h1, h2, e⟩ => e ▸ through_analysed h1 h2⟩

/-- C89, in part: whatever the analysis of any deferred block looks at was visited before the compilation was
frozen, so that nothing is constructed while several threads run. Missing: that the whole AST is visited, which
is false (`visit_skips`). -/
theorem visit_covers_partial {a b : Ast} {n : Nat} (hb : b ∈ a.deferred) (hn : n ∈ b.analysed) :
    n ∈ (a.visitAll {}).seen := by
  obtain ⟨h1, _⟩ := (deferred_exact a b).1 hb
  obtain ⟨c, h2, _, h3⟩ := (analysed_exact b n).1 hn
  exact (visit_exact a n).2
    ⟨c, through_trans (through_mono netlisted_opened h1) (through_mono executes_opened h2), h3⟩

/-! ### A concrete design -/

/-- A leaf of an AST. -/
def vaLeaf (id : Nat) (k : AstKind) : Ast := .mk id k []

/-- A block that declares a variable with an initializer (10) and a static one with an initializer (12), and
assigns (13). -/
def vaBlock : Ast := .mk 8 .block [.mk 9 (.decl false) [vaLeaf 10 .other], .mk 11 (.decl true) [vaLeaf 12 .other],
  .mk 13 .other [vaLeaf 14 .other]]

/-- The root with a design (2) that has a net with an initializer (4), an instance (5) with a variable, the block and
a generate block that is not instantiated, and a black box (18) with a continuous assignment; and a module that is
not part of the design (15). -/
def vaRoot : Ast := .mk 1 .other [
  .mk 2 (.inst false false) [.mk 3 .value [vaLeaf 4 .other], .mk 5 (.inst false false) [vaLeaf 6 .value, vaBlock,
    .mk 16 (.gen true) [vaLeaf 17 .block]], .mk 18 (.inst false true) [vaLeaf 19 .block]],
  .mk 7 (.inst true false) [vaLeaf 15 .block]]

example : (astIds vaRoot).Nodup ∧ (vaRoot.visitAll {}).count = 2 ∧
    (vaRoot.visitAll {}).seen = [1, 2, 3, 5, 6, 8, 9, 10, 11, 13, 14, 16, 17, 18, 19, 7] := by decide +kernel

/-- The block is deferred, and its analysis looks at the initializer of the first variable. -/
example : vaBlock ∈ vaRoot.deferred ∧ 10 ∈ vaBlock.analysed ∧ vaRoot.deferred.length = 1 := by
  have h : vaRoot.deferred = [vaBlock] := rfl
  rw [h]
  exact ⟨by simp, by decide +kernel, rfl⟩

/-- The values counted in the example of `visit_count`. -/
example : ∀ n, n ∈ [3, 6] ↔ ∃ c, Through Opened vaRoot c ∧ astKind c = .value ∧ astId c = n := by
  intro n
  have h : ((visited vaRoot).filter isValue).map astId = [3, 6] := rfl
  rw [← h]
  simp only [List.mem_map, List.mem_filter, visited_iff, isValue, beq_iff_eq, and_assoc]

/-- The visit does not reach the whole AST, as its description says: it leaves out initializers of values (4),
initializers of static variables (12), and modules outside the design (15). -/
theorem visit_skips : ∀ n ∈ [4, 12, 15], n ∈ astIds vaRoot ∧ n ∉ (vaRoot.visitAll {}).seen := by decide +kernel

end Verif.Props
