import Verif.Props.Cli
import Verif.Props.Dot
import Verif.Props.PathReport

/-!
Property theorem C86: what the driver, constant, sensitivity and DOT reports of the tool contain.
-/
set_option linter.unusedSimpArgs false
namespace Verif.Props
open Verif.Model Verif.Spec Verif.Proofs

/-! ### The specification of a row -/

/-- Every sort of node comes from a place in the source, except a merge point. -/
inductive LocatedAt : NodeData → TextLoc → Prop
  | port (nm p : Str) (l : TextLoc) (d : ArgDir) (b : BitRange) : LocatedAt (.port nm p l d b) l
  | «variable» (nm p : Str) (l : TextLoc) (b : BitRange) : LocatedAt (.variable nm p l b) l
  | register (nm p : Str) (l : TextLoc) (b : BitRange) : LocatedAt (.state nm p l b) l
  | assignment (l : TextLoc) : LocatedAt (.assignment l) l
  | conditional (l : TextLoc) : LocatedAt (.conditional l) l
  | case (l : TextLoc) : LocatedAt (.case l) l
  | constant (v : Str) (w : Nat) (l : TextLoc) : LocatedAt (.constant v w l) l

theorem loc_iff (d : NodeData) (l : TextLoc) : d.loc = some l ↔ LocatedAt d l := by
  constructor
  · intro h
    cases d <;> simp only [NodeData.loc, Option.some.injEq, reduceCtorEq] at h <;> subst h <;>
      constructor
  · rintro (_ | _) <;> rfl

/-- The location cell of a row: file, line and column, or nothing for a node without a place. -/
def LocCell (files : List Str) (d : NodeData) (t : Str) : Prop :=
  (∃ l, LocatedAt d l ∧ t = locSpec files l) ∨ (∀ l, ¬ LocatedAt d l) ∧ t = []

/-- The words a driver is described with. -/
inductive Described : NodeData → Str → Prop
  | input (nm p : Str) (l : TextLoc) (b : BitRange) :
    Described (.port nm p l .input b) ("input port ".toList ++ p)
  | output (nm p : Str) (l : TextLoc) (b : BitRange) :
    Described (.port nm p l .output b) ("output port ".toList ++ p)
  | inout (nm p : Str) (l : TextLoc) (b : BitRange) :
    Described (.port nm p l .inout b) ("inout port ".toList ++ p)
  | ref (nm p : Str) (l : TextLoc) (b : BitRange) :
    Described (.port nm p l .ref b) ("inout port ".toList ++ p)
  | «variable» (nm p : Str) (l : TextLoc) (b : BitRange) :
    Described (.variable nm p l b) ("variable ".toList ++ p)
  | register (nm p : Str) (l : TextLoc) (b : BitRange) :
    Described (.state nm p l b) ("register ".toList ++ p)
  | constant (v : Str) (w : Nat) (l : TextLoc) :
    Described (.constant v w l) ("constant ".toList ++ v)
  | assignment (l : TextLoc) : Described (.assignment l) "assignment".toList
  | conditional (l : TextLoc) : Described (.conditional l) "conditional".toList
  | case (l : TextLoc) : Described (.case l) "case".toList
  | merge : Described .merge "merge".toList
  | bare : Described .bare "unknown".toList

/-- The name of a clock edge. -/
inductive EdgeWord : EdgeKind → Str → Prop
  | none : EdgeWord .none "None".toList
  | rising : EdgeWord .posEdge "PosEdge".toList
  | falling : EdgeWord .negEdge "NegEdge".toList
  | both : EdgeWord .bothEdges "BothEdges".toList

/-- Row for row, two lists are related. -/
inductive Rowwise {α β : Type} (R : α → β → Prop) : List α → List β → Prop
  | nil : Rowwise R [] []
  | cons {a : α} {b : β} {as : List α} {bs : List β} : R a b → Rowwise R as bs →
    Rowwise R (a :: as) (b :: bs)

theorem Rowwise.nil_iff {α β : Type} {R : α → β → Prop} {as : List α} {bs : List β}
    (h : Rowwise R as bs) : as = [] ↔ bs = [] := by
  cases h <;> simp

theorem locCell_ok {net : NetGraph} {files : List Str} (h : LocsOk net files) (n : Nat) :
    ∃ t, optLocText files (net.data n).loc = .ok t ∧ LocCell files (net.data n) t := by
  refine ⟨_, optLocText_ok h n, ?_⟩
  cases hl : (net.data n).loc with
  | none => exact .inr ⟨fun l h' => (by rw [(loc_iff _ _).2 h'] at hl; cases hl), rfl⟩
  | some l => exact .inl ⟨l, (loc_iff _ _).1 hl, rfl⟩

theorem described_ok (d : NodeData) : Described d (describeDriver d) := by
  cases d with
  | port nm p l dir b =>
    cases dir
    · simpa [describeDriver, lit] using Described.input nm p l b
    · simpa [describeDriver, lit] using Described.output nm p l b
    · simpa [describeDriver, lit] using Described.inout nm p l b
    · simpa [describeDriver, lit] using Described.ref nm p l b
  | «variable» nm p l b => simpa [describeDriver, lit] using Described.variable nm p l b
  | state nm p l b => simpa [describeDriver, lit] using Described.register nm p l b
  | constant v w l => simpa [describeDriver, lit] using Described.constant v w l
  | assignment l => simpa [describeDriver, lit] using Described.assignment l
  | conditional l => simpa [describeDriver, lit] using Described.conditional l
  | case l => simpa [describeDriver, lit] using Described.case l
  | merge => simpa [describeDriver, lit] using Described.merge
  | bare => simpa [describeDriver, lit] using Described.bare

theorem edgeWord_ok (k : EdgeKind) : EdgeWord k k.text := by
  cases k
  · simpa [EdgeKind.text, lit] using EdgeWord.none
  · simpa [EdgeKind.text, lit] using EdgeWord.rising
  · simpa [EdgeKind.text, lit] using EdgeWord.falling
  · simpa [EdgeKind.text, lit] using EdgeWord.both

/-- The first letters of the description of each kind of driver. -/
def opening : NodeData → List Char
  | .port _ _ _ .input _ => ['i', 'n', 'p', 'u']
  | .port _ _ _ .output _ => ['o', 'u', 't', 'p']
  | .port _ _ _ _ _ => ['i', 'n', 'o', 'u']
  | .variable .. => ['v', 'a', 'r', 'i']
  | .state .. => ['r', 'e', 'g', 'i']
  | .constant .. => ['c', 'o', 'n', 's']
  | .assignment _ => ['a', 's', 's', 'i']
  | .conditional _ => ['c', 'o', 'n', 'd']
  | .case _ => ['c', 'a', 's', 'e']
  | .merge => ['m', 'e', 'r', 'g']
  | .bare => ['u', 'n', 'k', 'n']

theorem described_opening {d : NodeData} {t : Str} (h : Described d t) : t.take 4 = opening d := by
  cases h <;> simp [opening]

theorem opening_port {nm p : Str} {l : TextLoc} {dir : ArgDir} {b : BitRange} {x : NodeData}
    (h : opening (.port nm p l dir b) = opening x) :
    ∃ nm' p' l' dir' b', x = .port nm' p' l' dir' b' ∧
      opening (.port nm p l dir b) = opening (.port nm p l dir' b) := by
  cases x with
  | port nm' p' l' dir' b' =>
    refine ⟨nm', p', l', dir', b', rfl, ?_⟩
    rw [h]
    cases dir' <;> rfl
  | _ => cases dir <;> simp [opening] at h

theorem opening_other {d d' : NodeData} (hd : d.kind ≠ .port) (h : opening d = opening d') :
    d.kind = d'.kind := by
  cases d' with
  | port nm p l dir b =>
    obtain ⟨_, _, _, _, _, rfl, _⟩ := opening_port h.symm
    exact absurd rfl hd
  | _ => cases d <;> simp [opening, NodeData.kind] at h hd ⊢

/-- C86: a description tells the kind of the driver, and its path or constant value: two nodes
described by the same words are of the same kind and have the same path, and constants have the same
value. (An inout and a ref port are described alike.) -/
theorem description_identifies {d d' : NodeData} {t : Str} (h : Described d t)
    (h' : Described d' t) : d.kind = d'.kind ∧ d.path = d'.path ∧
      ∀ v w l, d = .constant v w l → ∃ w' l', d' = .constant v w' l' := by
  have ho : opening d = opening d' := by rw [← described_opening h, ← described_opening h']
  cases d with
  | port nm p l dir b =>
    obtain ⟨nm', p', l', dir', b', rfl, hq⟩ := opening_port ho
    refine ⟨rfl, ?_, by intro v w l e; cases e⟩
    show some p = some p'
    generalize ht : t = u at h'
    cases dir <;> cases dir' <;> first
      | (simp [opening] at hq; done)
      | (cases h; cases h'; simpa using ht)
  | _ =>
    have hk := opening_other (by simp [NodeData.kind]) ho
    generalize ht : t = u at h'
    cases d' <;> first
      | (simp [NodeData.kind] at hk; done)
      | (cases h; cases h'; simpa [NodeData.kind, NodeData.path, eq_comm] using ht)

/-! ### The driver report -/

/-- A row of the driver report: bits, description and location of the driver. -/
def DriverRow (net : NetGraph) (files : List Str) (x : BitDriver) (row : List Str) : Prop :=
  ∃ desc loc, row = [rangeText x.bounds, desc, loc] ∧ Described (net.data x.driver) desc ∧
    LocCell files (net.data x.driver) loc

theorem driverRows_ok {net : NetGraph} {files : List Str} (h : LocsOk net files)
    (ds : List BitDriver) : ∃ rows, driverRows net files ds = .ok rows ∧
      Rowwise (DriverRow net files) ds rows := by
  induction ds with
  | nil => exact ⟨[], rfl, .nil⟩
  | cons d ds ih =>
    obtain ⟨rows, h1, h2⟩ := ih
    obtain ⟨t, h3, h4⟩ := locCell_ok h d.driver
    exact ⟨_, by simp only [driverRows, h3, h1, bind, Except.bind, pure, Except.pure],
      .cons ⟨_, t, rfl, described_ok _, h4⟩ h2⟩

/-- The bits a driver request asks about: those given, or all from zero up. -/
def AskedBits : Option BitRange → Int → Prop
  | some r, b => r.lower ≤ b ∧ b ≤ r.upper
  | none, b => 0 ≤ b ∧ b ≤ 2147483647

/-- C86: a driver request names a path and possibly bits (see C23 for the notation). If no node has the
path the tool reports an error. Otherwise there is a row for each driving node and each range of an
edge out of it that carries asked bits of the path, cut to the asked bits, each once, in ascending
order; the row gives the range, the driver's description and its location. -/
theorem drivers_report_exact (rx : Str → Str → Bool) {s : Session}
    (hr : Reachable s.net) {files : List Str} (hl : LocsOk s.net files) (scopes names : List Str)
    {spec path : Str} {range : Option BitRange}
    (hp : parseNameAndRange spec = .ok (path, range)) :
    (s.lookup path = none →
      runAction rx s files scopes names (.drivers spec) = .error .message) ∧
    (s.lookup path ≠ none → ∃ ds rows,
      runAction rx s files scopes names (.drivers spec) =
        .ok (.table ["Bits".toList, "Driver".toList, "Location".toList] rows) ∧
      Rowwise (DriverRow s.net files) ds rows ∧ ds.Pairwise keyLt ∧
      (∀ x, x ∈ ds ↔ ∃ e ∈ (s.net.g.obj x.driver).outE,
        (∃ y, (s.net.attr e.id).symbol = some y ∧ y.path = path) ∧
        (∃ b, (s.net.attr e.id).bounds.lower ≤ b ∧ b ≤ (s.net.attr e.id).bounds.upper ∧
          AskedBits range b) ∧ x.bounds.right ≥ x.bounds.left ∧
        (∀ b, x.bounds.left ≤ b ∧ b ≤ x.bounds.right ↔
          ((s.net.attr e.id).bounds.lower ≤ b ∧ b ≤ (s.net.attr e.id).bounds.upper) ∧
            AskedBits range b))) := by
  simp only [runAction, hp]
  constructor
  · intro h
    simp [requireNode, h, bind, Except.bind]
  · intro h
    cases hk : s.lookup path with
    | none => exact absurd hk h
    | some n =>
      have hd1 : lit "Bits" = "Bits".toList := by simp [lit]
      have hd2 : lit "Driver" = "Driver".toList := by simp [lit]
      have hd3 : lit "Location" = "Location".toList := by simp [lit]
      have key : ∀ r : BitRange, (∀ b, AskedBits range b ↔ r.lower ≤ b ∧ b ≤ r.upper) →
          ∃ ds rows, ds = getBitDrivers s.net path r ∧ driverRows s.net files ds = .ok rows ∧
          Rowwise (DriverRow s.net files) ds rows ∧ ds.Pairwise keyLt ∧
          (∀ x, x ∈ ds ↔ ∃ e ∈ (s.net.g.obj x.driver).outE,
            (∃ y, (s.net.attr e.id).symbol = some y ∧ y.path = path) ∧
            (∃ b, (s.net.attr e.id).bounds.lower ≤ b ∧ b ≤ (s.net.attr e.id).bounds.upper ∧
              AskedBits range b) ∧ x.bounds.right ≥ x.bounds.left ∧
            (∀ b, x.bounds.left ≤ b ∧ b ≤ x.bounds.right ↔
              ((s.net.attr e.id).bounds.lower ≤ b ∧ b ≤ (s.net.attr e.id).bounds.upper) ∧
                AskedBits range b)) := by
        intro r hask
        obtain ⟨rows, h1, h2⟩ := driverRows_ok hl (getBitDrivers s.net path r)
        obtain ⟨h3, h4, _⟩ := getBitDrivers_exact s.net hr path r
        refine ⟨_, rows, rfl, h1, h2, h3, fun x => ?_⟩
        rw [h4]
        simp only [hask]
        have hrle : r.lower ≤ r.upper := by unfold BitRange.lower BitRange.upper; omega
        constructor
        · rintro ⟨e, he, hs, ho1, ho2, hb⟩
          have hle : (s.net.attr e.id).bounds.lower ≤ (s.net.attr e.id).bounds.upper := by
            unfold BitRange.lower BitRange.upper; omega
          refine ⟨e, he, hs, ⟨max (s.net.attr e.id).bounds.lower r.lower, ?_⟩, ?_, fun b => ?_⟩
          · omega
          · rw [hb]; show min _ _ ≥ max _ _; omega
          · rw [hb]; show max _ _ ≤ b ∧ b ≤ min _ _ ↔ _; omega
        · rintro ⟨e, he, hs, ⟨b, hb1, hb2, hb3, hb4⟩, hxle, hx⟩
          have e1 := hx x.bounds.left
          have e2 := hx x.bounds.right
          have e3 := hx (max (s.net.attr e.id).bounds.lower r.lower)
          have e4 := hx (min (s.net.attr e.id).bounds.upper r.upper)
          refine ⟨e, he, hs, by omega, by omega, ?_⟩
          have f1 : x.bounds.left = max (s.net.attr e.id).bounds.lower r.lower := by omega
          have f2 : x.bounds.right = min (s.net.attr e.id).bounds.upper r.upper := by omega
          rw [← f1, ← f2]
      cases range with
      | some r =>
        obtain ⟨ds, rows, h0, h1, h2⟩ := key r (fun b => Iff.rfl)
        subst h0
        refine ⟨_, rows, ?_, h2⟩
        simp only [requireNode, hk, h1, bind, Except.bind, pure, Except.pure, hd1, hd2, hd3]
      | none =>
        obtain ⟨ds, rows, h0, h1, h2⟩ := key wholeRange (fun b => Iff.rfl)
        subst h0
        refine ⟨_, rows, ?_, h2⟩
        simp only [requireNode, hk, getBitDriversAll, h1, bind, Except.bind, pure, Except.pure, hd1,
          hd2, hd3]

/-! ### The constant report -/

/-- A row of the constant report: the value and where it is written. -/
def ConstRow (net : NetGraph) (files : List Str) (c : Nat) (row : List Str) : Prop :=
  ∃ v w l, net.data c = .constant v w l ∧ row = [v, locSpec files l]

theorem constantRows_ok {net : NetGraph} {files : List Str} (h : LocsOk net files)
    (cs : List Nat) (hc : ∀ c ∈ cs, net.kind c = .constant) :
    ∃ rows, constantRows net files cs = .ok rows ∧ Rowwise (ConstRow net files) cs rows := by
  induction cs with
  | nil => exact ⟨[], rfl, .nil⟩
  | cons c cs ih =>
    obtain ⟨rows, h1, h2⟩ := ih fun c hm => hc c (by simp [hm])
    have hk := hc c (by simp)
    cases hd : net.data c with
    | constant v w l =>
      have hlo : LocOk files l := h.node c l (by rw [hd]; rfl)
      exact ⟨_, by simp only [constantRows, hd, locText_ok hlo, h1, bind, Except.bind, pure,
        Except.pure], .cons ⟨v, w, l, hd, rfl⟩ h2⟩
    | _ => simp [NetGraph.kind, NodeData.kind, hd] at hk

/-- C86: the constant report of an unknown name is an error. That of a known name is always defined;
if it has rows, they are exactly the constants the node is tied to, each once, with value and location,
and no port without drivers is involved; if it has none, there is no such constant or there is such a
port. (`constant_drivers_ignore_registers` and `constant_drivers_ignore_disabled` apply here too.) -/
theorem constants_report_partial (rx : Str → Str → Bool) {s : Session} (hf : Fresh s)
    (hr : Reachable s.net) {files : List Str} (hl : LocsOk s.net files) (scopes names : List Str)
    (name : Str) :
    (s.lookup name = none →
      runAction rx s files scopes names (.constants name) = .error .message) ∧
    (∀ n, s.lookup name = some n → ∃ cs rows,
      runAction rx s files scopes names (.constants name) =
        .ok (.table ["Value".toList, "Location".toList] rows) ∧
      Rowwise (ConstRow s.net files) cs rows ∧ cs.Nodup ∧
      (rows ≠ [] →
        (∀ c, c ∈ cs ↔ c ≠ n ∧ s.net.kind c = .constant ∧ Reach (CombBackStep s.net) c n) ∧
        (∀ p, p ≠ n → s.net.kind p = .port → Reach (CombBackStep s.net) p n →
          (s.net.g.obj p).inE ≠ [])) ∧
      (rows = [] →
        (∀ c, c ≠ n → s.net.kind c = .constant → ¬ Reach (CombBackStep s.net) c n) ∨
        (∃ p, p ≠ n ∧ s.net.kind p = .port ∧ (s.net.g.obj p).inE = [] ∧
          Reach (CombBackStep s.net) p n))) := by
  refine ⟨fun h => by simp [runAction, requireNode, h, bind, Except.bind], fun n h => ?_⟩
  obtain ⟨h1, h2⟩ := constantDrivers_partial s.net hr n (fresh_lookup_mem hf h)
  have hc : ∀ c ∈ constantDrivers s.net n, s.net.kind c = .constant := by
    intro c hm
    by_cases he : constantDrivers s.net n = []
    · rw [he] at hm; cases hm
    · exact (((h1 he).2.1 c).1 hm).2.1
  obtain ⟨rows, h3, h4⟩ := constantRows_ok hl _ hc
  have hd1 : lit "Value" = "Value".toList := by simp [lit]
  have hd3 : lit "Location" = "Location".toList := by simp [lit]
  refine ⟨_, rows, ?_, h4, ?_, ?_, ?_⟩
  · simp only [runAction, requireNode, h, h3, bind, Except.bind, pure, Except.pure, hd1, hd3]
  · by_cases he : constantDrivers s.net n = []
    · rw [he]; exact List.nodup_nil
    · exact (h1 he).1
  · intro hne
    have := h1 (fun e => hne (h4.nil_iff.1 e))
    exact this.2
  · intro he
    exact h2 (h4.nil_iff.2 he)

/-! ### The sensitivity report -/

/-- Node `m` clocks node `n` on edge `k`: `n` is a register and `m` its clock (or other event), or `n`
feeds, without passing a register, a register that `m` clocks. -/
def SensitiveTo (net : NetGraph) (n m : Nat) (k : EdgeKind) : Prop :=
  (net.kind n = .state ∧ ClockedBy net n m k) ∨
  (net.kind n ≠ .state ∧ ∃ r, Feeds net n r ∧ ClockedBy net r m k)

/-- A row of the sensitivity report. -/
def SensRow (net : NetGraph) (files : List Str) (x : Nat × EdgeKind) (row : List Str) : Prop :=
  ∃ name edge loc, row = [name, edge, loc] ∧
    ((net.data x.1).path = some name ∨ (net.data x.1).path = none ∧ name = "(unnamed)".toList) ∧
    EdgeWord x.2 edge ∧ LocCell files (net.data x.1) loc

theorem addNewSources_spec (acc ss : List (Nat × EdgeKind)) (h : acc.Nodup) :
    (addNewSources acc ss).Nodup ∧ ∀ x, x ∈ addNewSources acc ss ↔ x ∈ acc ∨ x ∈ ss := by
  induction ss generalizing acc with
  | nil => exact ⟨h, by simp [addNewSources]⟩
  | cons s ss ih =>
    unfold addNewSources
    split
    · rename_i hm
      obtain ⟨h1, h2⟩ := ih acc h
      refine ⟨h1, fun x => ?_⟩
      rw [h2, List.mem_cons]
      constructor
      · rintro (h | h)
        · exact .inl h
        · exact .inr (.inr h)
      · rintro (h | rfl | h)
        · exact .inl h
        · exact .inl hm
        · exact .inr h
    · rename_i hm
      obtain ⟨h1, h2⟩ := ih (acc ++ [s]) (by
        rw [List.nodup_append]
        refine ⟨h, by simp, ?_⟩
        intro a ha b hb
        simp only [List.mem_singleton] at hb
        subst hb
        exact fun e => hm (e ▸ ha))
      refine ⟨h1, fun x => ?_⟩
      rw [h2]
      simp [or_assoc]

theorem aggregateSources_spec (net : NetGraph) (acc : List (Nat × EdgeKind)) (ns : List Nat)
    (h : acc.Nodup) : (aggregateSources net acc ns).Nodup ∧
      ∀ x, x ∈ aggregateSources net acc ns ↔ x ∈ acc ∨ ∃ n ∈ ns, x ∈ sensitivity net n := by
  induction ns generalizing acc with
  | nil => exact ⟨h, by simp [aggregateSources]⟩
  | cons n ns ih =>
    unfold aggregateSources
    obtain ⟨h1, h2⟩ := addNewSources_spec acc (sensitivity net n) h
    obtain ⟨h3, h4⟩ := ih _ h1
    refine ⟨h3, fun x => ?_⟩
    rw [h4, h2]
    simp [or_assoc]

open Classical in
theorem sensRows_ok {net : NetGraph} {files : List Str} (h : LocsOk net files)
    (scopes names : List Str) (xs : List (Nat × EdgeKind)) :
    ∃ rows, sensRows net files scopes names xs = .ok rows ∧
      Rowwise (SensRow net files) (xs.filter fun x =>
        decide (Passes scopes names ((net.data x.1).path.getD []))) rows := by
  induction xs with
  | nil => exact ⟨[], rfl, .nil⟩
  | cons x xs ih =>
    obtain ⟨n, k⟩ := x
    obtain ⟨rows, h1, h2⟩ := ih
    obtain ⟨t, h3, h4⟩ := locCell_ok h n
    by_cases hq : Passes scopes names ((net.data n).path.getD [])
    · refine ⟨_, by simp only [sensRows, cliPasses_ok, hq, decide_true, if_true, h3, h1, bind,
        Except.bind, pure, Except.pure]; rfl, ?_⟩
      rw [List.filter_cons_of_pos (by simpa using hq)]
      refine .cons ⟨_, _, t, rfl, ?_, edgeWord_ok k, h4⟩ h2
      cases hp : (net.data n).path with
      | none => exact .inr ⟨rfl, by simp [lit]⟩
      | some p => exact .inl rfl
    · refine ⟨rows, by simp [sensRows, cliPasses_ok, hq, h1, bind, Except.bind, pure,
        Except.pure], ?_⟩
      rw [List.filter_cons_of_neg (by simpa using hq)]
      exact h2

/-- C86: the sensitivity report of a pattern no path matches is an error. Otherwise it lists exactly the
pairs of a node and an edge by which some matching node is clocked and whose path passes the filters,
each pair once. -/
theorem sensitivity_report_exact (rx : Str → Str → Bool) {s : Session} (hf : Fresh s)
    (hr : Reachable s.net) {files : List Str} (hl : LocsOk s.net files) (scopes names : List Str)
    (pattern : Str) :
    let Hit := fun n => n ∈ s.net.g.nodes ∧
      ∃ p, (s.net.data n).path = some p ∧ Matches (pieces (visible pattern)) (visible p)
    ((∀ n, ¬ Hit n) →
      runAction rx s files scopes names (.sensitivity pattern) = .error .message) ∧
    ((∃ n, Hit n) → ∃ xs rows,
      runAction rx s files scopes names (.sensitivity pattern) =
        .ok (.table ["Name".toList, "Edge".toList, "Location".toList] rows) ∧
      Rowwise (SensRow s.net files) xs rows ∧ xs.Nodup ∧
      ∀ m k, (m, k) ∈ xs ↔ (∃ n, Hit n ∧ SensitiveTo s.net n m k) ∧
        Passes scopes names ((s.net.data m).path.getD [])) := by
  intro Hit
  have hperm := (lookup_exact_partial s hf).2.2 (globName pattern)
  have hmem : ∀ m, m ∈ s.findNodes (globName pattern) ↔ Hit m := by
    intro m
    rw [hperm.mem_iff, List.mem_filter]
    show _ ↔ m ∈ s.net.g.nodes ∧ _
    cases (s.net.data m).path <;> simp [globName_iff]
  have hsens : ∀ n m k, n ∈ s.net.g.nodes →
      ((m, k) ∈ sensitivity s.net n ↔ SensitiveTo s.net n m k) := by
    intro n m k hn
    unfold SensitiveTo
    by_cases hk : s.net.kind n = .state
    · rw [(sensitivity_of_register s.net hr n hk).2]; simp [hk]
    · rw [(sensitivity_of_comb s.net hr n hn hk).2]; simp [hk]
  simp only [runAction]
  constructor
  · intro hno
    have : s.findNodes (globName pattern) = [] := by
      cases hl : s.findNodes (globName pattern) with
      | nil => rfl
      | cons n ns => exact absurd ((hmem n).1 (by rw [hl]; simp)) (hno n)
    rw [this]
  · rintro ⟨n, hn⟩
    have hn' := (hmem n).2 hn
    obtain ⟨h1, h2⟩ := aggregateSources_spec s.net [] (s.findNodes (globName pattern)) List.nodup_nil
    obtain ⟨rows, h3, h4⟩ := sensRows_ok hl scopes names
      (aggregateSources s.net [] (s.findNodes (globName pattern)))
    have hd1 : lit "Name" = "Name".toList := by simp [lit]
    have hd2 : lit "Edge" = "Edge".toList := by simp [lit]
    have hd3 : lit "Location" = "Location".toList := by simp [lit]
    refine ⟨_, rows, ?_, h4, h1.sublist List.filter_sublist, ?_⟩
    · cases hc : s.findNodes (globName pattern) with
      | nil => rw [hc] at hn'; cases hn'
      | cons a as =>
        rw [hc] at h3
        simp only [h3, bind, Except.bind, pure, Except.pure, hd1, hd2, hd3]
    · intro m k
      rw [List.mem_filter, h2]
      simp only [List.not_mem_nil, false_or, decide_eq_true_eq]
      constructor
      · rintro ⟨⟨a, ha, hs⟩, hq⟩
        have ha' := (hmem a).1 ha
        exact ⟨⟨a, ha', (hsens a m k ha'.1).1 hs⟩, hq⟩
      · rintro ⟨⟨a, ha, hs⟩, hq⟩
        exact ⟨⟨a, (hmem a).2 ha, (hsens a m k ha.1).2 hs⟩, hq⟩

/-! ### The DOT report -/

open Classical in
/-- A text draws the part of the netlist on the set `S` of nodes: a statement for each node of the set,
in the order of the netlist, and one for each enabled edge within the set. -/
def Draws (net : NetGraph) (S : Nat → Prop) (t : Str) : Prop :=
  ∃ es : List Edge, es.Nodup ∧
    (∀ e, e ∈ es ↔ e ∈ (net.g.obj e.src).outE ∧ (net.attr e.id).disabled = false ∧
      S e.src ∧ S e.tgt) ∧
    t = "digraph {\n".toList ++ "  node [shape=record];\n".toList ++
      (net.g.nodes.filter (fun n => decide (S n))).flatMap (nodeStmt net) ++
      es.flatMap (edgeStmt net) ++ "}\n".toList

theorem draws_of {net : NetGraph} (hr : Reachable net) (filter : Option (List Nat))
    {S : Nat → Prop} (hS : ∀ n, Selected filter n ↔ S n)
    (hk : ∀ n ∈ net.g.nodes, S n → net.data n ≠ .bare) :
    ∃ t, renderDot net filter = some t ∧ Draws net S t := by
  obtain ⟨es, h1, h2, h3⟩ := dot_exact hr filter (fun n hn hs => hk n hn ((hS n).1 hs))
  refine ⟨_, h3, es, h1, fun e => ?_, ?_⟩
  · rw [h2, hS, hS]
  · have e1 : lit "digraph {\n" = "digraph {\n".toList := by simp [lit]
    have e2 : lit "  node [shape=record];\n" = "  node [shape=record];\n".toList := by simp [lit]
    have e3 : lit "}\n" = "}\n".toList := by simp [lit]
    have e4 : (fun n => decide (Selected filter n)) = fun n => @decide (S n) (Classical.propDecidable _) := by
      funext n
      have := hS n
      by_cases hs : S n
      · simp [hs, this]
      · simp [hs, this]
    rw [e1, e2, e3, e4]

/-- C86: the DOT report draws the whole netlist, the combinational fan-out or fan-in cone of the named
node, or a simple path of enabled edges between the two named nodes; unknown names and unconnected
endpoints are errors. -/
theorem dot_report_exact (rx : Str → Str → Bool) {s : Session} (hf : Fresh s)
    (hr : Reachable s.net) {files : List Str} (scopes names : List Str) (file : Str)
    (hk : ∀ n ∈ s.net.g.nodes, s.net.data n ≠ .bare) :
    (∃ t, runAction rx s files scopes names (.dot file .all) = .ok (.dot file t) ∧
      Draws s.net (fun _ => True) t) ∧
    (∀ name, s.lookup name = none →
      runAction rx s files scopes names (.dot file (.fanOut name)) = .error .message ∧
      runAction rx s files scopes names (.dot file (.fanIn name)) = .error .message ∧
      ∀ other, runAction rx s files scopes names (.dot file (.path name other)) = .error .message ∧
        runAction rx s files scopes names (.dot file (.path other name)) = .error .message) ∧
    (∀ name n, s.lookup name = some n →
      (∃ t, runAction rx s files scopes names (.dot file (.fanOut name)) = .ok (.dot file t) ∧
        Draws s.net (Reach (CombStep s.net) n) t) ∧
      (∃ t, runAction rx s files scopes names (.dot file (.fanIn name)) = .ok (.dot file t) ∧
        Draws s.net (fun m => Reach (CombBackStep s.net) m n) t)) ∧
    (∀ a b na nb, s.lookup a = some na → s.lookup b = some nb → na ≠ nb →
      (¬ Reach (Step s.net) na nb →
        runAction rx s files scopes names (.dot file (.path a b)) = .error .message) ∧
      (Reach (Step s.net) na nb → ∃ p t, SimplePath (Step s.net) na nb p ∧
        runAction rx s files scopes names (.dot file (.path a b)) = .ok (.dot file t) ∧
        Draws s.net (· ∈ p) t)) := by
  refine ⟨?_, ?_, ?_, ?_⟩
  · obtain ⟨t, h1, h2⟩ := draws_of hr none (S := fun _ => True) (by simp [Selected])
      (fun n hn _ => hk n hn)
    exact ⟨t, by simp [runAction, scopeNodes, h1, bind, Except.bind, pure, Except.pure], h2⟩
  · intro name h
    refine ⟨by simp [runAction, scopeNodes, requireNode, h, bind, Except.bind],
      by simp [runAction, scopeNodes, requireNode, h, bind, Except.bind], fun other => ⟨?_, ?_⟩⟩
    · simp [runAction, scopeNodes, requireNode, h, bind, Except.bind]
    · cases ho : s.lookup other <;>
        simp [runAction, scopeNodes, requireNode, h, ho, bind, Except.bind]
  · intro name n h
    have hn := fresh_lookup_mem hf h
    constructor
    · obtain ⟨t, h1, h2⟩ := draws_of hr (some (n :: combFanOut s.net n))
        (S := Reach (CombStep s.net) n) (by
          intro m
          simp only [Selected, Option.some.injEq]
          constructor
          · intro hs
            rcases List.mem_cons.1 (hs _ rfl) with rfl | hm
            · exact .refl
            · exact ((combFanOut_exact s.net hr n hn).2 m).1 hm
          · rintro hs l rfl
            exact List.mem_cons_of_mem _ (((combFanOut_exact s.net hr n hn).2 m).2 hs))
        (fun m hm _ => hk m hm)
      exact ⟨t, by simp [runAction, scopeNodes, requireNode, h, h1, bind, Except.bind, pure,
        Except.pure], h2⟩
    · obtain ⟨t, h1, h2⟩ := draws_of hr (some (n :: combFanIn s.net n))
        (S := fun m => Reach (CombBackStep s.net) m n) (by
          intro m
          simp only [Selected, Option.some.injEq]
          constructor
          · intro hs
            rcases List.mem_cons.1 (hs _ rfl) with rfl | hm
            · exact .refl
            · exact ((combFanIn_exact s.net hr n hn).2 m).1 hm
          · rintro hs l rfl
            exact List.mem_cons_of_mem _ (((combFanIn_exact s.net hr n hn).2 m).2 hs))
        (fun m hm _ => hk m hm)
      exact ⟨t, by simp [runAction, scopeNodes, requireNode, h, h1, bind, Except.bind, pure,
        Except.pure], h2⟩
  · intro a b na nb ha hb hne
    obtain ⟨p, hp, h1, h2⟩ := path_sound_complete s.net hr na nb (fresh_lookup_mem hf ha) hne
    constructor
    · intro hno
      cases p with
      | nil => simp [runAction, scopeNodes, requireNode, requirePath, ha, hb, hp, bind, Except.bind]
      | cons x xs => exact absurd (h2.1 (by simp)) hno
    · intro hy
      cases p with
      | nil => exact absurd (h2.2 hy) (by simp)
      | cons x xs =>
        obtain ⟨t, h3, h4⟩ := draws_of hr (some (x :: xs)) (S := (· ∈ x :: xs)) (by
          intro m
          simp only [Selected, Option.some.injEq]
          exact ⟨fun hs => hs _ rfl, by rintro hs l rfl; exact hs⟩) (fun m hm _ => hk m hm)
        exact ⟨x :: xs, t, h1 (by simp), by simp [runAction, scopeNodes, requireNode, requirePath,
          ha, hb, hp, h3, bind, Except.bind, pure, Except.pure], h4⟩

/-! ### Concrete cases -/

/-- A two-bit signal driven by an assignment and an input port, a register fed by it on the falling edge
of a clock, and a constant feeding the assignment. -/
def repOps : List NetOp :=
  let s : SymRef := ⟨['s'], ['t', '.', 's'], {}⟩
  [.addNode (.port ['c'] ['t', '.', 'c'] ⟨0, 1, 1⟩ .input ⟨0, 0⟩), .addNode (.assignment ⟨0, 5, 3⟩),
   .addNode (.variable ['s'] ['t', '.', 's'] ⟨0, 2, 1⟩ ⟨1, 0⟩),
   .addNode (.state ['r'] ['t', '.', 'r'] ⟨0, 3, 1⟩ ⟨0, 0⟩), .addNode (.constant ['1'] 1 ⟨0, 5, 7⟩),
   .addEdge 4 1, .addEdge 1 2, .setAttr 1 { symbol := some s, bounds := ⟨1, 0⟩ },
   .addEdge 2 3, .addEdge 0 3, .setAttr 3 { edgeKind := .negEdge }]

def repNet : NetGraph := (NetGraph.calls {} repOps).getD {}

theorem repNet_reachable : Reachable repNet := ⟨repOps, rfl⟩

theorem rep_locs : LocsOk repNet [['f']] := by
  have hn : ∀ n, n < 5 → ∀ l, (repNet.data n).loc = some l → LocOk [['f']] l := by
    intro n hn l hl
    have : ∀ n, n < 5 → (repNet.data n).loc.all (fun l => decide (l.file = noFile ∨ l.file < 1)) = true := by
      decide
    have := this n hn
    rw [hl] at this
    simpa [LocOk] using this
  refine ⟨fun n l hl => ?_, fun e s hs => ?_⟩
  · by_cases h : n < 5
    · exact hn n h l hl
    · have hd : repNet.data n = .bare := by
        have h5 : ∀ k : Nat, n = k + 5 → repNet.data n = .bare := by rintro k rfl; rfl
        exact h5 (n - 5) (by omega)
      rw [hd] at hl; cases hl
  · by_cases h : e < 4
    · have : ∀ e, e < 4 → (repNet.attr e).symbol.all (fun s => decide (s.loc.file = noFile)) = true := by
        decide
      have := this e h
      rw [hs] at this
      exact .inl (by simpa using this)
    · have hd : repNet.attr e = {} := by
        have h5 : ∀ k : Nat, e = k + 4 → repNet.attr e = {} := by rintro k rfl; rfl
        exact h5 (e - 4) (by omega)
      rw [hd] at hs; cases hs

/-- The hypotheses of the theorems above are met, and the rows are as expected. -/
example : Fresh ⟨repNet, none⟩ ∧ (⟨repNet, none⟩ : Session).lookup ['t', '.', 's'] = some 2 ∧
    (∀ n ∈ repNet.g.nodes, repNet.data n ≠ .bare) ∧
    parseNameAndRange ['t', '.', 's'] = .ok (['t', '.', 's'], none) ∧
    (⟨⟨0, 1⟩, 1⟩ : BitDriver) ∈ getBitDriversAll repNet ['t', '.', 's'] ∧
    constantDrivers repNet 2 = [4] ∧ sensitivity repNet 2 = [(0, .negEdge)] := by
  refine ⟨.inl rfl, ?_, ?_, ?_, ?_, ?_, ?_⟩ <;> decide +kernel

example : Described (repNet.data 1) "assignment".toList ∧ LocCell [['f']] (repNet.data 4)
    (locSpec [['f']] ⟨0, 5, 7⟩) :=
  ⟨.assignment _, .inl ⟨_, .constant _ _ _, rfl⟩⟩

/-- The four descriptions and the location differ from those of the other kinds of port. -/
example : Described (.port ['o'] ['o'] {} .output {}) "output port o".toList := by
  simpa using Described.output ['o'] ['o'] {} {}

/-- The theorems applied to this netlist: the drivers of bit 0 of `t.s`, the constants that reach it, the
clocks of everything, the drawing of the whole and of a path, and an unknown name. -/
example (rx : Str → Str → Bool) :
    (∃ ds rows, runAction rx ⟨repNet, none⟩ [['f']] [] [] (.drivers "t.s[0]".toList) =
        .ok (.table ["Bits".toList, "Driver".toList, "Location".toList] rows) ∧
      Rowwise (DriverRow repNet [['f']]) ds rows) ∧
    (∃ cs rows, runAction rx ⟨repNet, none⟩ [['f']] [] [] (.constants ['t', '.', 's']) =
        .ok (.table ["Value".toList, "Location".toList] rows) ∧
      Rowwise (ConstRow repNet [['f']]) cs rows) ∧
    (∃ xs rows, runAction rx ⟨repNet, none⟩ [['f']] [] [] (.sensitivity ['t', '.', '*']) =
        .ok (.table ["Name".toList, "Edge".toList, "Location".toList] rows) ∧
      Rowwise (SensRow repNet [['f']]) xs rows) ∧
    (∃ t, runAction rx ⟨repNet, none⟩ [['f']] [] [] (.dot ['o'] .all) = .ok (.dot ['o'] t) ∧
      Draws repNet (fun _ => True) t) ∧
    (∃ p t, SimplePath (Step repNet) 2 3 p ∧
      runAction rx ⟨repNet, none⟩ [['f']] [] [] (.dot ['o'] (.path ['t', '.', 's'] ['t', '.', 'r'])) =
        .ok (.dot ['o'] t) ∧ Draws repNet (· ∈ p) t) ∧
    runAction rx ⟨repNet, none⟩ [['f']] [] [] (.dot ['o'] (.fanIn ['x'])) = .error .message := by
  have hf : Fresh ⟨repNet, none⟩ := .inl rfl
  have hr : Reachable (⟨repNet, none⟩ : Session).net := repNet_reachable
  have hl : LocsOk (⟨repNet, none⟩ : Session).net [['f']] := rep_locs
  have hs : (⟨repNet, none⟩ : Session).lookup ['t', '.', 's'] = some 2 := by decide +kernel
  have ht : (⟨repNet, none⟩ : Session).lookup ['t', '.', 'r'] = some 3 := by decide +kernel
  have hd := dot_report_exact rx hf hr (files := [['f']]) [] [] ['o'] (by decide +kernel)
  refine ⟨?_, ?_, ?_, hd.1, ?_, (hd.2.1 ['x'] (by decide +kernel)).2.1⟩
  · obtain ⟨ds, rows, h1, h2, _⟩ := (drivers_report_exact rx hr hl [] []
      (spec := "t.s[0]".toList) (path := ['t', '.', 's']) (range := some ⟨0, 0⟩) (by decide +kernel)).2
      (by rw [hs]; simp)
    exact ⟨ds, rows, h1, h2⟩
  · obtain ⟨cs, rows, h1, h2, _⟩ := (constants_report_partial rx hf hr hl [] [] ['t', '.', 's']).2 2 hs
    exact ⟨cs, rows, h1, h2⟩
  · obtain ⟨xs, rows, h1, h2, _⟩ := (sensitivity_report_exact rx hf hr hl [] [] ['t', '.', '*']).2
      ⟨3, by decide +kernel, _, rfl, (globName_iff _ _).1 (by decide +kernel)⟩
    exact ⟨xs, rows, h1, h2⟩
  · exact (hd.2.2.2 _ _ 2 3 hs ht (by decide)).2
      (.tail .refl ⟨by decide +kernel, ⟨2, 2, 3⟩, by decide +kernel, rfl, rfl⟩)

/-- A description that fits two nodes names the same path. -/
example (d : NodeData) (h : Described d "output port o".toList) : d.kind = .port ∧ d.path = some ['o'] :=
  have hi := description_identifies (d' := .port ['o'] ['o'] {} .output {}) h
    (by simpa using Described.output ['o'] ['o'] {} {})
  ⟨hi.1, hi.2.1⟩

end Verif.Props
