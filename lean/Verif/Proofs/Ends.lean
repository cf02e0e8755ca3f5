import Verif.Proofs.ValueTracker

/-! Recording drivers puts interval boundaries only where there was one or where the range ends. -/
namespace Verif.Proofs
open Verif.Model Verif.Props

/-- Both boundaries of every interval satisfy `K`. -/
def Ends (K : Int → Prop) (iv : List (Ivl Nat)) : Prop := ∀ x ∈ iv, K x.lo ∧ K (x.hi + 1)

theorem ends_insert {K : Int → Prop} {lo hi : Int} {h : Nat} {iv : List (Ivl Nat)}
    (h1 : K lo) (h2 : K (hi + 1)) (hi' : Ends K iv) : Ends K (imInsert lo hi h iv) := by
  intro x hx
  rcases imInsert_mem.1 hx with rfl | hx
  · exact ⟨h1, h2⟩
  · exact hi' x hx

theorem ends_erase {K : Int → Prop} {e : Ivl Nat} {iv : List (Ivl Nat)} (h : Ends K iv) :
    Ends K (iv.erase e) := fun x hx => h x (List.mem_of_mem_erase hx)

theorem addList_ivls {m m' : DMap} {ds : List DriverInfo} {h : Nat}
    (he : m.addList ds = .ok (m', h)) : m'.ivls = m.ivls := by
  unfold DMap.addList at he
  split at he
  · cases he
  · split at he
    · cases he
    · cases he; rfl

theorem putList_ivls {m m' : DMap} {l : List DriverInfo} {h : Nat}
    (he : m.putList h l = .ok m') : m'.ivls = m.ivls := by
  unfold DMap.putList at he
  split at he
  · cases he
  · cases he; rfl

theorem free_ivls {m m' : DMap} {h : Nat} (he : m.freeIfValid h = .ok m') : m'.ivls = m.ivls := by
  unfold DMap.freeIfValid at he
  split at he
  · split at he
    · cases he
    · cases he; rfl
  · cases he; rfl

theorem incr32_eq {x y : Int} (h : incr32 x = .ok y) : y = x + 1 := by
  unfold incr32 at h
  split at h
  · cases h; rfl
  · cases h

theorem bind_ok {α β : Type} {x : Except Fault α} {f : α → Except Fault β} {b : β}
    (h : x.bind f = .ok b) : ∃ a, x = .ok a ∧ f a = .ok b := by
  cases x with
  | error e => cases h
  | ok a => exact ⟨a, rfl, h⟩

/-- What a step leaves. -/
def StepEnds (K : Int → Prop) : AddStep → Prop
  | .done m' => Ends K m'.ivls
  | .again m' lo' => Ends K m'.ivls ∧ K lo'
  | .skip => True

theorem addStep_ends {K : Int → Prop} {m : DMap} {lo hi : Int} {ds : List DriverInfo} {merge : Bool}
    {e : Ivl Nat} (hm : Ends K m.ivls) (he : e ∈ m.ivls) (h1 : K lo) (h2 : K (hi + 1))
    {o : AddStep} (ho : addStep m lo hi ds merge e = .ok o) : StepEnds K o := by
  obtain ⟨e1, e2⟩ := hm e he
  have d1 : ∀ x : Int, decr32 x + 1 = x := fun x => by unfold decr32; omega
  unfold addStep at ho
  split at ho
  · split at ho
    · obtain ⟨l, _, ho⟩ := bind_ok ho
      obtain ⟨m', hp, ho⟩ := bind_ok ho
      cases ho
      show Ends K m'.ivls
      rw [putList_ivls hp]; exact hm
    · obtain ⟨l, _, ho⟩ := bind_ok ho
      obtain ⟨m', hp, ho⟩ := bind_ok ho
      cases ho
      show Ends K m'.ivls
      rw [putList_ivls hp]; exact hm
  split at ho
  · -- split
    unfold stepSplit at ho
    have i1 : Ends K (m.eraseAt e).ivls := ends_erase hm
    have i2 : Ends K (if e.lo < lo then (m.eraseAt e).insert e.lo (decr32 lo) e.val
        else m.eraseAt e).ivls := by
      split
      · exact ends_insert e1 (by rw [d1]; exact h1) i1
      · exact i1
    have fin : ∀ m3 : DMap, Ends K m3.ivls →
        (if merge = true then do
          let l ← m3.getList e.val
          let (m4, h) ← m3.addList (dlInsertAll l ds)
          pure (AddStep.done (m4.insert lo hi h))
        else do
          let (m4, h) ← m3.addList ds
          pure (AddStep.done (m4.insert lo hi h)) : Except Fault AddStep) = .ok o →
        StepEnds K o := by
      intro m3 i3 ho
      split at ho
      · obtain ⟨l, _, ho⟩ := bind_ok ho
        obtain ⟨⟨m4, h⟩, hp, ho⟩ := bind_ok ho
        cases ho
        exact ends_insert h1 h2 (by rw [addList_ivls hp]; exact i3)
      · obtain ⟨⟨m4, h⟩, hp, ho⟩ := bind_ok ho
        cases ho
        exact ends_insert h1 h2 (by rw [addList_ivls hp]; exact i3)
    dsimp only at ho
    split at ho
    · obtain ⟨n, hn, ho⟩ := bind_ok ho
      exact fin _ (ends_insert (by rw [incr32_eq hn]; exact h2) e2 i2) ho
    · exact fin _ i2 ho
  split at ho
  · split at ho
    · obtain ⟨m1, hf, ho⟩ := bind_ok ho
      cases ho
      exact ⟨by rw [free_ivls hf]; exact ends_erase hm, h1⟩
    · unfold stepMergeContained at ho
      obtain ⟨l, _, ho⟩ := bind_ok ho
      obtain ⟨m1, hp, ho⟩ := bind_ok ho
      have i1 : Ends K m1.ivls := by rw [putList_ivls hp]; exact hm
      have fin : ∀ m2 : DMap, Ends K m2.ivls →
          (do
            let lo' ← incr32 e.hi
            if lo' > hi then pure (AddStep.done m2) else pure (AddStep.again m2 lo') :
              Except Fault AddStep) = .ok o → StepEnds K o := by
        intro m2 i2 ho
        obtain ⟨lo', hl, ho⟩ := bind_ok ho
        split at ho
        · cases ho; exact i2
        · cases ho; exact ⟨i2, by rw [incr32_eq hl]; exact e2⟩
      dsimp only at ho
      split at ho
      · obtain ⟨⟨m', h⟩, hp, ho⟩ := bind_ok ho
        exact fin _ (ends_insert h1 (by rw [d1]; exact e1) (by rw [addList_ivls hp]; exact i1)) ho
      · exact fin _ i1 ho
  split at ho
  · unfold stepLeft at ho
    have i2 : Ends K ((m.eraseAt e).insert e.lo (decr32 lo) e.val).ivls :=
      ends_insert e1 (by rw [d1]; exact h1) (ends_erase hm)
    have fin : ∀ m4 : DMap, Ends K m4.ivls →
        (do
          let lo' ← incr32 e.hi
          if lo' > hi then pure (AddStep.done m4) else pure (AddStep.again m4 lo') :
            Except Fault AddStep) = .ok o → StepEnds K o := by
      intro m4 i4 ho
      obtain ⟨lo', hl, ho⟩ := bind_ok ho
      split at ho
      · cases ho; exact i4
      · cases ho; exact ⟨i4, by rw [incr32_eq hl]; exact e2⟩
    dsimp only at ho
    split at ho
    · obtain ⟨⟨m', h⟩, hp, ho⟩ := bind_ok ho
      exact fin _ (ends_insert h1 e2 (by rw [addList_ivls hp]; exact i2)) ho
    · obtain ⟨l, _, ho⟩ := bind_ok ho
      obtain ⟨⟨m', h⟩, hp, ho⟩ := bind_ok ho
      exact fin _ (ends_insert h1 e2 (by rw [addList_ivls hp]; exact i2)) ho
  split at ho
  · unfold stepRight at ho
    obtain ⟨⟨m2, lh⟩, hp, ho⟩ := bind_ok ho
    have i2 : Ends K m2.ivls := by rw [addList_ivls hp]; exact ends_erase hm
    have fin : ∀ m5 : DMap, Ends K m5.ivls →
        (do
          let n ← incr32 hi
          pure (AddStep.done (m5.insert n e.hi e.val)) : Except Fault AddStep) = .ok o →
        StepEnds K o := by
      intro m5 i5 ho
      obtain ⟨n, hn, ho⟩ := bind_ok ho
      cases ho
      exact ends_insert (by rw [incr32_eq hn]; exact h2) e2 i5
    dsimp only at ho
    split at ho
    · exact fin _ (ends_insert h1 h2 i2) ho
    · obtain ⟨l, _, ho⟩ := bind_ok ho
      obtain ⟨⟨m', h⟩, hp', ho⟩ := bind_ok ho
      exact fin _ (ends_insert e1 h2 (by
        rw [addList_ivls hp']; exact ends_insert h1 (by rw [d1]; exact e1) i2)) ho
  · cases ho; trivial

theorem addLoop_ends {K : Int → Prop} {ds : List DriverInfo} {merge : Bool} {hi : Int}
    (h2 : K (hi + 1)) (fuel : Nat) : ∀ (m : DMap) (lo : Int) (es : List (Ivl Nat)) (m' : DMap),
      Ends K m.ivls → K lo → (∀ e ∈ es, e ∈ m.ivls) →
      addLoop ds merge hi fuel m lo es = .ok m' → Ends K m'.ivls := by
  induction fuel with
  | zero => intro m lo es m' _ _ _ h; cases h
  | succ fuel ih =>
    intro m lo es m' hm h1 hes h
    cases es with
    | nil =>
      obtain ⟨⟨m1, k⟩, hp, h⟩ := bind_ok h
      cases h
      exact ends_insert h1 h2 (by rw [addList_ivls hp]; exact hm)
    | cons e es =>
      obtain ⟨o, ho, h⟩ := bind_ok h
      have hs := addStep_ends hm (hes e List.mem_cons_self) h1 h2 ho
      cases o with
      | done m1 => cases h; exact hs
      | again m1 lo' =>
        exact ih m1 lo' _ m' hs.1 hs.2 (fun e he => (List.mem_filter.1 he).1) h
      | skip => exact ih m lo es m' hm h1 (fun x hx => hes x (List.mem_cons_of_mem _ hx)) h

/-- Boundaries after a recording. -/
theorem addDrivers_ends {K : Int → Prop} {m m' : DMap} {b : BitRange} {ds : List DriverInfo}
    {merge : Bool} (hm : Ends K m.ivls) (h1 : K b.lower) (h2 : K (b.upper + 1))
    (h : m.addDrivers b ds merge = .ok m') : Ends K m'.ivls :=
  addLoop_ends h2 _ m b.lower _ m' hm h1 (fun _ he => (List.mem_filter.1 he).1) h

end Verif.Proofs
