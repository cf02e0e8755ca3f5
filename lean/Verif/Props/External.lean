import Verif.Model.External

/-!
Property theorem C46: handle-based storage behaves like a partial map.
-/
set_option linter.unusedSimpArgs false
namespace Verif.Props
open Verif.Model

/-- Specification state: two partial maps from handles to values. -/
abbrev Maps (α : Type) := Bool → Nat → Option α

def Maps.set {α : Type} (M : Maps α) (b : Bool) (h : Nat) (v : Option α) : Maps α :=
  fun b' h' => if b' = b ∧ h' = h then v else M b' h'

/-- What each call may do. `none` as result means a misuse (handle not live), which the code
answers with a failed assertion or undefined behaviour. -/
inductive SpecStep {α : Type} : Maps α → ExtOp α → Option (ExtOut α) → Maps α → Prop
  | alloc {M b x h} : M b h = none →
      SpecStep M (.alloc b x) (some (.handle h)) (M.set b h (some x))
  | get {M b h x} : M b h = some x → SpecStep M (.get b h) (some (.value x)) M
  | getBad {M b h} : M b h = none → SpecStep M (.get b h) none M
  | put {M b h x y} : M b h = some y → SpecStep M (.put b h x) (some .unit) (M.set b h (some x))
  | putBad {M b h x} : M b h = none → SpecStep M (.put b h x) none M
  | erase {M b h y} : M b h = some y → SpecStep M (.erase b h) (some .unit) (M.set b h none)
  | eraseBad {M b h} : M b h = none → SpecStep M (.erase b h) none M
  | valid {M b h} : SpecStep M (.valid b h) (some (.flag (M b h).isSome)) M
  | copy {M b} : SpecStep M (.copy b) (some .unit) (fun b' => if b' = b then M (!b) else M b')

/-- A history and its results; a misuse ends it. -/
inductive SpecRun {α : Type} : Maps α → List (ExtOp α) → Option (List (ExtOut α)) → Prop
  | nil {M} : SpecRun M [] (some [])
  | cons {M M' op o ops os} : SpecStep M op (some o) M' → SpecRun M' ops os →
      SpecRun M (op :: ops) (os.map (o :: ·))
  | misuse {M M' op ops} : SpecStep M op none M' → SpecRun M (op :: ops) none

/-- Representation invariant of one manager: the free list holds distinct empty slots. -/
structure ExtInv {α : Type} (m : ExtMgr α) : Prop where
  nodup : m.free.Nodup
  empty : ∀ i ∈ m.free, m.slots[i]? = some none

theorem ext_get_eq {α : Type} (m : ExtMgr α) (h : Nat) :
    m.get h = (m.slots[h]?).join := by
  unfold ExtMgr.get
  cases m.slots[h]? <;> rfl

theorem ext_alloc {α : Type} {m : ExtMgr α} (hi : ExtInv m)
    (hs : m.free = [] → m.slots.length < 4294967296) (x : α) : ∃ m' h, m.allocate x = some (m', h) ∧ m.get h = none ∧ ExtInv m' ∧
      m'.slots.length ≤ m.slots.length + 1 ∧
      ∀ k, m'.get k = if k = h then some x else m.get k := by
  unfold ExtMgr.allocate
  cases hf : m.free with
  | nil =>
    have hs := hs hf
    refine ⟨_, _, rfl, ?_, ⟨?_, ?_⟩, ?_, ?_⟩
    · rw [ext_get_eq, Nat.mod_eq_of_lt hs]; simp
    · simp [hf]
    · simp [hf]
    · simp
    · intro k
      rw [ext_get_eq, ext_get_eq, Nat.mod_eq_of_lt hs]
      simp only
      rcases Nat.lt_trichotomy k m.slots.length with h | h | h
      · rw [List.getElem?_append_left h, if_neg (by omega)]
      · subst h; simp
      · rw [List.getElem?_eq_none (by simp; omega), List.getElem?_eq_none (by omega),
          if_neg (by omega)]
  | cons i rest =>
    have he := hi.empty i (by simp [hf])
    have hlt : i < m.slots.length := (List.getElem?_eq_some_iff.1 he).1
    have hnd := hi.nodup
    rw [hf, List.nodup_cons] at hnd
    simp only [if_pos hlt]
    refine ⟨_, _, rfl, ?_, ⟨?_, ?_⟩, ?_, ?_⟩
    · rw [ext_get_eq, he]; rfl
    · exact hnd.2
    · intro j hj
      have hne : j ≠ i := by rintro rfl; exact hnd.1 hj
      simp only
      rw [List.getElem?_set_ne (Ne.symm hne)]
      exact hi.empty j (by simp [hf, hj])
    · simp
    · intro k
      rw [ext_get_eq, ext_get_eq]
      simp only
      by_cases hk : k = i
      · subst hk; simp [hlt]
      · rw [List.getElem?_set_ne (Ne.symm hk), if_neg hk]

theorem ext_put {α : Type} {m : ExtMgr α} (hi : ExtInv m) (h : Nat) (x : α) :
    match m.get h with
    | none => m.put h x = none
    | some _ => ∃ m', m.put h x = some m' ∧ ExtInv m' ∧ m'.slots.length = m.slots.length ∧
        ∀ k, m'.get k = if k = h then some x else m.get k := by
  unfold ExtMgr.put
  cases hg : m.get h with
  | none =>
    rw [ext_get_eq] at hg
    simp only
    split
    · rename_i hx; rw [hx] at hg; simp at hg
    · rfl
  | some y =>
    rw [ext_get_eq] at hg
    have he : m.slots[h]? = some (some y) := by
      cases hc : m.slots[h]? with
      | none => rw [hc] at hg; cases hg
      | some p => rw [hc] at hg; simp at hg; rw [hg]
    have hlt : h < m.slots.length := (List.getElem?_eq_some_iff.1 he).1
    simp only [he]
    refine ⟨_, rfl, ⟨hi.nodup, ?_⟩, by simp, ?_⟩
    · intro j hj
      have hne : j ≠ h := by
        rintro rfl; rw [hi.empty j hj] at he; simp at he
      simp only
      rw [List.getElem?_set_ne (Ne.symm hne)]
      exact hi.empty j hj
    · intro k
      rw [ext_get_eq, ext_get_eq]
      simp only
      by_cases hk : k = h
      · subst hk; simp [hlt]
      · rw [List.getElem?_set_ne (Ne.symm hk), if_neg hk]

theorem ext_erase {α : Type} {m : ExtMgr α} (hi : ExtInv m) (h : Nat) :
    match m.get h with
    | none => m.erase h = none
    | some _ => ∃ m', m.erase h = some m' ∧ ExtInv m' ∧ m'.slots.length = m.slots.length ∧
        ∀ k, m'.get k = if k = h then none else m.get k := by
  unfold ExtMgr.erase
  cases hg : m.get h with
  | none =>
    rw [ext_get_eq] at hg
    simp only
    split
    · rename_i hx; rw [hx] at hg; simp at hg
    · rfl
  | some y =>
    rw [ext_get_eq] at hg
    have he : m.slots[h]? = some (some y) := by
      cases hc : m.slots[h]? with
      | none => rw [hc] at hg; cases hg
      | some p => rw [hc] at hg; simp at hg; rw [hg]
    have hlt : h < m.slots.length := (List.getElem?_eq_some_iff.1 he).1
    have hnm : h ∉ m.free := fun hc => by rw [hi.empty h hc] at he; simp at he
    simp only [he]
    refine ⟨_, rfl, ⟨?_, ?_⟩, by simp, ?_⟩
    · rw [List.nodup_append]
      refine ⟨hi.nodup, by simp, ?_⟩
      intro a ha b hb hab
      simp at hb; subst hb; subst hab; exact hnm ha
    · intro j hj
      simp only
      rcases List.mem_append.1 (show j ∈ m.free ++ [h] from hj) with hj' | hj
      · have hne : j ≠ h := by rintro rfl; exact hnm hj'
        rw [List.getElem?_set_ne (Ne.symm hne)]
        exact hi.empty j hj'
      · simp at hj; subst hj; simp [hlt]
    · intro k
      rw [ext_get_eq, ext_get_eq]
      simp only
      by_cases hk : k = h
      · subst hk; simp [hlt]
      · rw [List.getElem?_set_ne (Ne.symm hk), if_neg hk]

theorem ext_copy {α : Type} (m : ExtMgr α) : m.copyFrom = m := by
  cases m with
  | mk slots free =>
    simp only [ExtMgr.copyFrom, ExtMgr.mk.injEq, and_true]
    conv => rhs; rw [← List.map_id slots]
    apply List.map_congr_left
    intro a _
    cases a <;> rfl

theorem ext_run {α : Type} (ops : List (ExtOp α)) (p : ExtPair α) (M : Maps α)
    (hi : ∀ b, ExtInv (p.sel b)) (hM : ∀ b h, (p.sel b).get h = M b h)
    (hs : ∀ b, (p.sel b).slots.length + ops.length < 4294967296) :
    SpecRun M ops ((p.calls ops).map Prod.snd) := by
  have hsel : ∀ (p : ExtPair α) b b' m, (p.upd b m).sel b' = if b' = b then m else p.sel b' := by
    intro p b b' m
    cases b <;> cases b' <;> simp [ExtPair.upd, ExtPair.sel]
  induction ops generalizing p M with
  | nil => exact .nil
  | cons op ops ih =>
    have cont : ∀ p' M' o, p.call op = some (p', o) → SpecStep M op (some o) M' →
        (∀ b, ExtInv (p'.sel b)) → (∀ b h, (p'.sel b).get h = M' b h) →
        (∀ b, (p'.sel b).slots.length + ops.length < 4294967296) →
        SpecRun M (op :: ops) ((p.calls (op :: ops)).map Prod.snd) := by
      intro p' M' o hc hst h1 h2 h3
      have := SpecRun.cons hst (ih p' M' h1 h2 h3)
      have e : (p.calls (op :: ops)).map Prod.snd =
          ((p'.calls ops).map Prod.snd).map (o :: ·) := by
        simp only [ExtPair.calls, hc]
        cases p'.calls ops with
        | none => rfl
        | some r => rfl
      rw [e]; exact this
    have stop : ∀ M', p.call op = none → SpecStep M op none M' →
        SpecRun M (op :: ops) ((p.calls (op :: ops)).map Prod.snd) := by
      intro M' hc hst
      simp only [ExtPair.calls, hc]
      exact .misuse hst
    have hs' : ∀ b, (p.sel b).slots.length + ops.length + 1 < 4294967296 := by
      intro b; have := hs b; simp at this; omega
    cases op with
    | alloc b x =>
      obtain ⟨m', h, ha, hg, hi', hl, hk⟩ := ext_alloc (hi b) (fun _ => by have := hs' b; omega) x
      refine cont _ (M.set b h (some x)) _ (by simp only [ExtPair.call, ha]; rfl)
        (.alloc (by rw [← hM]; exact hg)) ?_ ?_ ?_
      · intro b'; rw [hsel]; split
        · exact hi'
        · exact hi b'
      · intro b' k; rw [hsel]; simp only [Maps.set]
        by_cases hb : b' = b
        · subst hb; simp only [↓reduceIte, true_and, hk, hM]
        · simp [hb, hM]
      · intro b'; rw [hsel]; split
        · rename_i hb; subst hb; have := hs' b'; (try dsimp only); omega
        · have := hs' b'; omega
    | get b h =>
      cases hg : (p.sel b).get h with
      | none => exact stop M (by simp [ExtPair.call, hg]) (.getBad (by rw [← hM]; exact hg))
      | some x =>
        exact cont p M _ (by simp only [ExtPair.call, hg]; rfl) (.get (by rw [← hM]; exact hg))
          hi hM (fun b => by have := hs' b; omega)
    | put b h x =>
      have hp := ext_put (hi b) h x
      cases hg : (p.sel b).get h with
      | none =>
        rw [hg] at hp
        exact stop M (by simp only [ExtPair.call]; rw [hp]; rfl) (.putBad (by rw [← hM]; exact hg))
      | some y =>
        rw [hg] at hp
        obtain ⟨m', ha, hi', hl, hk⟩ := hp
        refine cont _ (M.set b h (some x)) _ (by simp only [ExtPair.call, ha]; rfl)
          (.put (by rw [← hM]; exact hg)) ?_ ?_ ?_
        · intro b'; rw [hsel]; split
          · exact hi'
          · exact hi b'
        · intro b' k; rw [hsel]; simp only [Maps.set]
          by_cases hb : b' = b
          · subst hb; simp only [↓reduceIte, true_and, hk, hM]
          · simp [hb, hM]
        · intro b'; rw [hsel]; split
          · rename_i hb; subst hb; have := hs' b'; (try dsimp only); omega
          · have := hs' b'; omega
    | erase b h =>
      have hp := ext_erase (hi b) h
      cases hg : (p.sel b).get h with
      | none =>
        rw [hg] at hp
        exact stop M (by simp only [ExtPair.call]; rw [hp]; rfl)
          (.eraseBad (by rw [← hM]; exact hg))
      | some y =>
        rw [hg] at hp
        obtain ⟨m', ha, hi', hl, hk⟩ := hp
        refine cont _ (M.set b h none) _ (by simp only [ExtPair.call, ha]; rfl)
          (.erase (by rw [← hM]; exact hg)) ?_ ?_ ?_
        · intro b'; rw [hsel]; split
          · exact hi'
          · exact hi b'
        · intro b' k; rw [hsel]; simp only [Maps.set]
          by_cases hb : b' = b
          · subst hb; simp only [↓reduceIte, true_and, hk, hM]
          · simp [hb, hM]
        · intro b'; rw [hsel]; split
          · rename_i hb; subst hb; have := hs' b'; (try dsimp only); omega
          · have := hs' b'; omega
    | valid b h =>
      have hv : (p.sel b).valid h = (M b h).isSome := by
        rw [← hM, ext_get_eq]
        unfold ExtMgr.valid
        split
        · rename_i hx; rw [hx]; rfl
        · rename_i hx
          cases hc : (p.sel b).slots[h]? with
          | none => rfl
          | some q =>
            cases q with
            | none => rfl
            | some y => exact absurd hc (hx y)
      refine cont p M (.flag (M b h).isSome) (by simp only [ExtPair.call, hv]) .valid hi hM
        (fun b => by have := hs' b; omega)
    | copy b =>
      refine cont _ _ _ rfl .copy ?_ ?_ ?_
      · intro b'; rw [hsel]; split
        · rw [ext_copy]; exact hi _
        · exact hi b'
      · intro b' k; rw [hsel]
        by_cases hb : b' = b
        · simp only [hb, ↓reduceIte, ext_copy, hM]
        · simp [hb, hM]
      · intro b'; rw [hsel]; split
        · rw [ext_copy]; have := hs' (!b); omega
        · have := hs' b'; omega

/-- C46: every history of fewer than 2^32 calls on two managers that may be copied into each other
behaves like two independent partial maps: an allocated handle was not live, reading yields what
was stored last, freeing and storing affect one handle of one manager, and a call goes wrong only
if its handle is not live. -/
theorem external_is_partial_map {α : Type} (ops : List (ExtOp α))
    (hs : ops.length < 4294967296) :
    SpecRun (fun _ _ => none) ops ((ExtPair.calls {} ops).map Prod.snd) := by
  apply ext_run
  · intro b; cases b <;> exact ⟨by simp [ExtPair.sel], by simp [ExtPair.sel]⟩
  · intro b h; cases b <;> rfl
  · intro b; cases b <;> simpa [ExtPair.sel] using hs

/-- Non-vacuity: reuse of a freed handle, and a copy unaffected by later changes. -/
example : (ExtPair.calls {} [.alloc false 5, .alloc false 6, .copy true, .erase false 0,
    .alloc false 7, .get true 0, .get false 0]).map Prod.snd =
    some [.handle 0, .handle 1, .unit, .unit, .handle 0, .value 5, .value 7] := by decide

/-- The theorem applies to this history. -/
example := external_is_partial_map (α := Nat) [.alloc false 5, .alloc false 6, .copy true, .erase false 0,
    .alloc false 7, .get true 0, .get false 0] (by decide)

end Verif.Props
