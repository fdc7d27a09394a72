import Verif.Proofs.RcRun

/-!
# Running concrete programs with `Rc`
-/

namespace Lokky
open Spec
variable {α : Type} {c : Cfg α}

/-- `Callable`, decided. -/
def rcCallable (H : Hands) : RcCmd α → Bool
  | .new _ => true
  | .weakNew => true
  | .clone h => match H[h]? with | some (some _) => true | _ => false
  | .drop h => match H[h]? with | some (some _) => true | _ => false
  | .strongCount h => match H[h]? with | some (some _) => true | _ => false
  | .weakCount h => match H[h]? with | some (some _) => true | _ => false
  | .upgrade h => match H[h]? with | some (some (.weak _)) => true | _ => false
  | .downgrade h => match H[h]? with | some (some (.rc _)) => true | _ => false
  | .read h => match H[h]? with | some (some (.rc _)) => true | _ => false
  | .setMut h _ => match H[h]? with | some (some (.rc _)) => true | _ => false
  | .makeMut h _ => match H[h]? with | some (some (.rc _)) => true | _ => false
  | .tryUnwrap h => match H[h]? with | some (some (.rc _)) => true | _ => false
  | .ptrEq h h' => match H[h]?, H[h']? with
    | some (some (.rc _)), some (some (.rc _)) => true
    | some (some (.weak _)), some (some (.weak _)) => true
    | _, _ => false

/-- `Permitted`, decided. -/
def rcPermitted (H : Hands) (cmd : RcCmd α) : Bool :=
  rcCallable H cmd &&
  match cmd with
  | .makeMut h _ => match H[h]? with
    | some (some (.rc p)) => H.weaks p == 0 || decide (2 ≤ H.rcs p)
    | _ => false
  | .tryUnwrap h => match H[h]? with
    | some (some (.rc p)) => H.weaks p == 0
    | _ => false
  | _ => true

theorem rcCallable_sound {H : Hands} {cmd : RcCmd α} (h : rcCallable H cmd = true) :
    cmd.Callable H := by
  cases cmd <;> simp only [rcCallable, RcCmd.Callable] at h ⊢ <;> try trivial
  all_goals (split at h <;> try cases h)
  all_goals first
    | exact ⟨_, by assumption⟩
    | exact Or.inl ⟨_, _, by assumption, by assumption⟩
    | exact Or.inr ⟨_, _, by assumption, by assumption⟩

theorem rcPermitted_sound {H : Hands} {cmd : RcCmd α} (h : rcPermitted H cmd = true) :
    cmd.Permitted H := by
  simp only [rcPermitted, Bool.and_eq_true] at h
  obtain ⟨h1, h2⟩ := h
  refine ⟨⟨rcCallable_sound h1, ?_⟩, ?_⟩
  · cases cmd <;> try trivial
    intro p hp
    simp only [hp] at h2
    simpa using h2
  · cases cmd <;> try trivial
    intro p hp
    simp only [hp] at h2
    simpa using h2

/-- Run calls as long as they are allowed; the events and the final state. -/
def rcTrace (c : Cfg α) (ok : Hands → RcCmd α → Bool) :
    List (RcCmd α) → RcPool α → Option (List (RcEvent α) × RcPool α)
  | [], P => some ([], P)
  | cmd :: cs, P =>
    if ok P.hands cmd then
      match runRc c cmd P with
      | .ok o P' => (rcTrace c ok cs P').map fun r =>
          (⟨some o, P'.w.refusals != P.w.refusals⟩ :: r.1, r.2)
      | .panic P' => (rcTrace c ok cs P').map fun r =>
          (⟨none, P'.w.refusals != P.w.refusals⟩ :: r.1, r.2)
      | _ => none
    else none

theorem rcTrace_reaches {okB : Hands → RcCmd α → Bool} {ok : Hands → RcCmd α → Prop}
    (hok : ∀ H cmd, okB H cmd = true → ok H cmd) (cs : List (RcCmd α)) {hist : RcHistory α}
    {P P' : RcPool α} {evs : List (RcEvent α)} (hP : RcReaches c ok hist P)
    (h : rcTrace c okB cs P = some (evs, P')) : RcReaches c ok (hist ++ cs.zip evs) P' := by
  induction cs generalizing hist P evs with
  | nil =>
    cases h
    simpa using hP
  | cons cmd cs ih =>
    simp only [rcTrace] at h
    split at h
    · rename_i ho
      cases hr : runRc c cmd P with
      | ok o P1 =>
        simp only [hr, Option.map_eq_some_iff] at h
        obtain ⟨⟨es, P2⟩, h1, h2⟩ := h
        cases h2
        have := ih (hP.step (hok _ _ ho) (.ret hr)) h1
        simpa using this
      | panic P1 =>
        simp only [hr, Option.map_eq_some_iff] at h
        obtain ⟨⟨es, P2⟩, h1, h2⟩ := h
        cases h2
        have := ih (hP.step (hok _ _ ho) (.panic hr)) h1
        simpa using this
      | abort => rw [hr] at h; cases h
      | ub u => rw [hr] at h; cases h
    · cases h

/-- Running from the start. -/
theorem rcTrace_callable {cs : List (RcCmd α)} {P : RcPool α} {evs : List (RcEvent α)}
    (h : rcTrace c rcCallable cs .start = some (evs, P)) :
    RcReaches c RcCmd.Callable (cs.zip evs) P :=
  rcTrace_reaches (fun _ _ => rcCallable_sound) cs .start h

theorem rcTrace_permitted {cs : List (RcCmd α)} {P : RcPool α} {evs : List (RcEvent α)}
    (h : rcTrace c rcPermitted cs .start = some (evs, P)) :
    RcReaches c RcCmd.Permitted (cs.zip evs) P :=
  rcTrace_reaches (fun _ _ => rcPermitted_sound) cs .start h

end Lokky
