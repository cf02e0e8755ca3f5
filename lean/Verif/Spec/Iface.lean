import Verif.Model.Iface

/-!
What a reference through a modport port stands for: the interface variables at the end of its chains of
connections (comment at source/NetlistBuilder.cpp:224-228).
-/
namespace Verif.Spec
open Verif.Model

/-- A delivered path that names a symbol. -/
def PathFact.Names (p : PathFact) (sym lsp : Nat) : Prop :=
  p.empty = false ∧ p.root = some sym ∧ p.lsp = some lsp

/-- `v` is a variable at the end of a chain of modport connections that starts at the expression. -/
inductive ChainEnd (kind : Nat → SymKind) (expand : Nat → List PathFact) :
    Nat → Nat × BitRange → Prop where
  | var {e sym lsp : Nat} {p : PathFact} : p ∈ expand e → PathFact.Names p sym lsp →
      kind sym = .variable → ChainEnd kind expand e (sym, p.bounds)
  | port {e sym lsp : Nat} {p : PathFact} {v : Nat × BitRange} : p ∈ expand e →
      PathFact.Names p sym lsp → kind sym = .modportPort → ChainEnd kind expand lsp v →
      ChainEnd kind expand e v

/-- The variables in the order of the paths, a chain at the place of its first path. -/
inductive Gathers (kind : Nat → SymKind) (expand : Nat → List PathFact) :
    List PathFact → List (Nat × BitRange) → Prop where
  | nil : Gathers kind expand [] []
  | skip {p : PathFact} {ps : List PathFact} {vs : List (Nat × BitRange)} :
      (∀ sym lsp, PathFact.Names p sym lsp → kind sym = .other) → Gathers kind expand ps vs →
      Gathers kind expand (p :: ps) vs
  | var {p : PathFact} {ps : List PathFact} {vs : List (Nat × BitRange)} {sym lsp : Nat} :
      PathFact.Names p sym lsp → kind sym = .variable → Gathers kind expand ps vs →
      Gathers kind expand (p :: ps) ((sym, p.bounds) :: vs)
  | port {p : PathFact} {ps : List PathFact} {vs ws : List (Nat × BitRange)} {sym lsp : Nat} :
      PathFact.Names p sym lsp → kind sym = .modportPort → Gathers kind expand (expand lsp) ws →
      Gathers kind expand ps vs → Gathers kind expand (p :: ps) (ws ++ vs)

/-- The recursion goes from `e` to `e'`. -/
def Follows (kind : Nat → SymKind) (expand : Nat → List PathFact) (e' e : Nat) : Prop :=
  ∃ p ∈ expand e, ∃ sym, PathFact.Names p sym e' ∧ kind sym = .modportPort

end Verif.Spec
