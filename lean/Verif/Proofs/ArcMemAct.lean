import Verif.Proofs.ArcMemRun

/-! Running the system with its memory orderings on a list of actions, for examples; what happens with
sequentially consistent memory happens here as well. -/

namespace Lokky
variable {α : Type} {mx n : Nat} {s : ArcSys α} {m : ArcMem}

open ArcOp ArcSys

/-- Something to do: as before, or a load that reads message `j`. -/
inductive ArcWAct (α : Type)
  | of (a : ArcAct α)
  | old (t j : Nat)

/-- Memory after `a`, which leads from `s` to `s'`. -/
def ArcMem.act (mx : Nat) (s s' : ArcSys α) (m : ArcMem) : ArcAct α → ArcMem
  | .new t _ =>
    let m' := m.apply t 0 (.init s.objs.length)
    { m' with hnd := fun h => if h = s.hands.length then m'.thr t else m'.hnd h }
  | .call t cmd =>
    match cmd.borrows, cmd.takes with
    | some (h, _), _ => m.learn t (m.hnd h)
    | _, some (h, _) => m.learn t (m.hnd h ++ m.ret h)
    | _, _ => m
  | .dropWeak _ => m
  | .run t ch =>
    match s.threads[t]? with
    | some (some op) =>
      (m.apply t (m.latest ((Arc.loads op).elim .strong (·.1)) ((Arc.loads op).elim 0 (·.2.1)))
        (Arc.eff mx ch s op)).close t op s s'
    | _ => m

/-- Doing it. -/
def ArcWAct.act (mx : Nat) (calm : Bool) (y : ArcSys α × ArcMem) : ArcWAct α → Option (ArcSys α × ArcMem)
  | .of a => (y.1.act mx calm a).map fun s' => (s', y.2.act mx y.1 s' a)
  | .old t j =>
    match y.1.threads[t]? with
    | some (some op) =>
      match Arc.loads op with
      | some (c, p, acq) =>
        match (y.2.msgs c p)[j]? with
        | some x =>
          if ((y.2.msgs c p).drop (j + 1)).all (fun z => !(y.2.thr t).contains z.evt) then
            match Arc.loaded mx t x.val op with
            | some f =>
              match (do let _ ← Arc.obj p; f) y.1 with
              | .ok () s' => some (s', (y.2.apply t j (.load c p acq)).close t op y.1 s')
              | _ => none
            | none => none
          else none
        | none => none
      | none => none
    | _ => none

/-- Doing one thing after the other. -/
def ArcWAct.acts (mx : Nat) (calm : Bool) (y : ArcSys α × ArcMem) :
    List (ArcWAct α) → Option (ArcSys α × ArcMem)
  | [] => some y
  | a :: l => (a.act mx calm y).bind fun z => acts mx calm z l

theorem ArcWAct.act_step {calm : Bool} {a : ArcWAct α} {y z : ArcSys α × ArcMem}
    (h : a.act mx calm y = some z) : ArcWStep mx (calm = true) y z := by
  obtain ⟨s, m⟩ := y
  cases a with
  | of a =>
    simp only [ArcWAct.act, Option.map_eq_some_iff] at h
    obtain ⟨s', h, rfl⟩ := h
    cases a with
    | new t x =>
      simp only [ArcSys.act] at h
      split at h
      · cases h
        exact .new t x ‹_›
      · cases h
    | call t cmd =>
      simp only [ArcSys.act] at h
      split at h
      · split at h
        · cases h
          rename_i h1 hb _ _ hp
          simp only [ArcMem.act, hb]
          exact .borrow t cmd h1 hb hp
        · cases h
      · rename_i h1 h2 _
        split at h
        · split at h
          · split at h
            · cases h
              rename_i hall
              simp only [ArcMem.act]
              have hb : cmd.borrows = none := by
                cases cmd <;> simp_all [ArcCmd.borrows, ArcCmd.takes]
              simp only [hb, h2]
              refine .take t cmd ‹_› ‹_› ‹_› ‹_› ?_
              intro t' op ht'
              have := List.all_eq_true.1 hall _ (List.mem_of_getElem? ht')
              simpa using this
            · cases h
          · cases h
        · cases h
      · cases h
    | dropWeak p =>
      simp only [ArcSys.act] at h
      split at h
      · split at h
        · cases h
          exact .dropWeak p ‹_› ‹_›
        · cases h
      · cases h
    | run t ch =>
      simp only [ArcSys.act] at h
      split at h
      · rename_i op ht
        split at h
        · cases h
        · split at h
          · cases h
            rename_i hb _ _ hs
            simp only [ArcMem.act, ht]
            refine .run t ch ht hs ?_
            intro hc hl
            rw [hc, (loses_iff _ _).2 hl] at hb
            exact hb rfl
          · cases h
      · cases h
  | old t j =>
    simp only [ArcWAct.act] at h
    split at h
    · rename_i op ht
      split at h
      · rename_i c p acq hl
        split at h
        · rename_i x hx
          split at h
          · rename_i hr
            split at h
            · rename_i f hf
              split at h
              · rename_i s' hs
                cases h
                refine .load t j ht hl hx ?_ hf hs
                intro i z hi hz hm
                have := List.all_eq_true.1 hr z (by
                  refine List.mem_of_getElem? (i := i - (j + 1)) ?_
                  rw [List.getElem?_drop, show j + 1 + (i - (j + 1)) = i by omega]
                  exact hz)
                simp [hm] at this
              · cases h
            · cases h
          · cases h
        · cases h
      · cases h
    · cases h

theorem ArcWAct.acts_steps {calm : Bool} {l : List (ArcWAct α)} {y0 y z : ArcSys α × ArcMem} {k : Nat}
    (h0 : ArcWSteps mx (calm = true) y0 k y) (h : acts mx calm y l = some z) :
    ArcWSteps mx (calm = true) y0 (k + l.length) z := by
  induction l generalizing y k with
  | nil =>
    cases h
    exact h0
  | cons a l ih =>
    simp only [ArcWAct.acts] at h
    cases hs : a.act mx calm y with
    | none => rw [hs] at h; cases h
    | some y2 =>
      rw [hs] at h
      have := ih (h0.tail (ArcWAct.act_step hs)) h
      rw [List.length_cons, show k + (l.length + 1) = k + 1 + l.length by omega]
      exact this

theorem ArcWSteps.weaken {calm calm' : Prop} (hc : calm' → calm) {y0 y : ArcSys α × ArcMem} {k : Nat}
    (h : ArcWSteps mx calm y0 k y) : ArcWSteps mx calm' y0 k y := by
  induction h with
  | refl => exact .refl
  | tail h hs ih =>
    refine ih.tail ?_
    cases hs with
    | new t x ht => exact .new t x ht
    | borrow t cmd ht hc hh => exact .borrow t cmd ht hc hh
    | take t cmd ht hc hh ho hu => exact .take t cmd ht hc hh ho hu
    | dropWeak p ho hw => exact .dropWeak p ho hw
    | run t ch ht hs hl => exact .run t ch ht hs fun h => hl (hc h)
    | load t j ht h1 h2 h3 h4 hs => exact .load t j ht h1 h2 h3 h4 hs

/-- What sequentially consistent memory allows can happen. -/
theorem ArcWReaches.of_sc {calm : Prop} (h : ArcReaches mx calm n s) : ∃ m, ArcWReaches mx calm n s m := by
  obtain ⟨k, h⟩ := h
  induction h with
  | refl => exact ⟨_, k, .refl⟩
  | @tail n s s' _ hs ih =>
    obtain ⟨m, k, ih⟩ := ih
    cases hs with
    | new t x ht => exact ⟨_, k, ih.tail (.new t x ht)⟩
    | borrow t cmd ht hc hh => exact ⟨_, k, ih.tail (.borrow t cmd ht hc hh)⟩
    | take t cmd ht hc hh ho hu => exact ⟨_, k, ih.tail (.take t cmd ht hc hh ho hu)⟩
    | dropWeak p ho h => exact ⟨_, k, ih.tail (.dropWeak p ho h)⟩
    | run t ch ht hs hl => exact ⟨_, k, ih.tail (.run t ch ht hs hl)⟩

end Lokky
