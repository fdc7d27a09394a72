import Verif.Proofs.UrcLost

/-!
# Running concrete programs with `Urc`
-/

namespace Lokky
variable {α : Type} {c : Cfg α}

/-- `Callable`, decided. -/
def urcCallable (P : UrcPool α) : UrcCmd α → Bool
  | .new _ => true
  | .drop h => match P.hands[h]? with | some (some _) => true | _ => false
  | .strongCount h | .weakCount h => match P.hands[h]? with
    | some (some (.urc _)) => true
    | some (some (.fence _)) => true
    | _ => false
  | .fromFence h => match P.hands[h]? with | some (some (.fence _)) => true | _ => false
  | .clone h | .downgrade h | .envelop h | .read h | .isSole h | .setMut h _ | .makeMut h _
  | .tryUnwrap h | .intoFence h => match P.hands[h]? with | some (some (.urc _)) => true | _ => false

/-- `Permitted`, decided. -/
def urcPermitted (c : Cfg α) (P : UrcPool α) (cmd : UrcCmd α) : Bool :=
  urcCallable P cmd &&
  match cmd with
  | .makeMut h _ => match P.hands[h]? with
    | some (some (.urc f)) => match P.w.fences[f]? with
      | some (some F) => match P.w.masters[F.master]? with
        | some (some x) => x.sf != 1 || (x.wf == 1 && F.weak != 0 && F.strong != 1) ||
          (!c.debug && F.strong == 1 && c.grant P.w.tick c.size && c.grant (P.w.tick + 1) c.size)
        | _ => false
      | _ => false
    | _ => false
  | .tryUnwrap h => match P.hands[h]? with
    | some (some (.urc f)) => match P.w.fences[f]? with
      | some (some F) => match P.w.masters[F.master]? with
        | some (some x) => x.sf != 1 || (F.strong == 1 && F.weak != 0)
        | _ => false
      | _ => false
    | _ => false
  | .fromFence _ => false
  | _ => true

theorem urcCallable_sound {P : UrcPool α} {cmd : UrcCmd α} (h : urcCallable P cmd = true) :
    cmd.Callable P := by
  cases cmd <;> simp only [urcCallable, UrcCmd.Callable] at h ⊢ <;> try trivial
  all_goals (split at h <;> try cases h)
  all_goals first
    | exact ⟨_, by assumption⟩
    | exact Or.inl ⟨_, by assumption⟩
    | exact Or.inr ⟨_, by assumption⟩

theorem urcPermitted_sound {P : UrcPool α} {cmd : UrcCmd α} (h : urcPermitted c P cmd = true) :
    cmd.Permitted c P := by
  simp only [urcPermitted, Bool.and_eq_true] at h
  obtain ⟨h1, h2⟩ := h
  refine ⟨urcCallable_sound h1, ?_⟩
  cases cmd with
  | makeMut i g =>
    intro f F x hf hF hx
    simp only [hf, hF, hx, Bool.or_eq_true, Bool.and_eq_true, bne_iff_ne, beq_iff_eq, Bool.not_eq_true'] at h2
    rcases h2 with (h2 | ⟨⟨a, b⟩, d⟩) | ⟨⟨⟨a, b⟩, d⟩, e⟩
    · exact Or.inl h2
    · exact Or.inr (Or.inl ⟨a, b, d⟩)
    · exact Or.inr (Or.inr ⟨a, b, d, e⟩)
  | tryUnwrap i =>
    intro f F x hf hF hx
    simpa only [hf, hF, hx, Bool.or_eq_true, Bool.and_eq_true, bne_iff_ne, beq_iff_eq] using h2
  | fromFence i => cases h2
  | _ => trivial

/-- Run calls as long as they are allowed; what they return, and the final state. -/
def urcTrace (c : Cfg α) (ok : UrcPool α → UrcCmd α → Bool) :
    List (UrcCmd α) → UrcPool α → Option (List (Option (UrcOut α)) × UrcPool α)
  | [], P => some ([], P)
  | cmd :: cs, P =>
    if ok P cmd then
      match runUrc c cmd P with
      | .ok o P' => (urcTrace c ok cs P').map fun r => (some o :: r.1, r.2)
      | .panic P' => (urcTrace c ok cs P').map fun r => (none :: r.1, r.2)
      | _ => none
    else none

theorem urcTrace_reaches {okB : UrcPool α → UrcCmd α → Bool} {ok : UrcPool α → UrcCmd α → Prop}
    (hok : ∀ P cmd, okB P cmd = true → ok P cmd) (cs : List (UrcCmd α))
    {hist : List (UrcCmd α × Option (UrcOut α))}
    {P P' : UrcPool α} {evs : List (Option (UrcOut α))} (hP : UrcReaches c ok hist P)
    (h : urcTrace c okB cs P = some (evs, P')) : UrcReaches c ok (hist ++ cs.zip evs) P' := by
  induction cs generalizing hist P evs with
  | nil =>
    cases h
    simpa using hP
  | cons cmd cs ih =>
    simp only [urcTrace] at h
    split at h
    · rename_i ho
      cases hr : runUrc c cmd P with
      | ok o P1 =>
        simp only [hr, Option.map_eq_some_iff] at h
        obtain ⟨⟨es, P2⟩, h1, h2⟩ := h
        cases h2
        have := ih (hP.step (hok _ _ ho) (.ret hr)) h1
        simpa using this
      | panic P1 =>
        simp only [hr, Option.map_eq_some_iff] at h
        obtain ⟨⟨es, P2⟩, h1, h2⟩ := h
        cases h2
        have := ih (hP.step (hok _ _ ho) (.panic hr)) h1
        simpa using this
      | abort => rw [hr] at h; cases h
      | ub u => rw [hr] at h; cases h
    · cases h

/-- Running from the start. -/
theorem urcTrace_callable {cs : List (UrcCmd α)} {P : UrcPool α} {evs : List (Option (UrcOut α))}
    (h : urcTrace c urcCallable cs .start = some (evs, P)) :
    UrcReaches c (fun P cmd => cmd.Callable P) (cs.zip evs) P :=
  urcTrace_reaches (fun _ _ => urcCallable_sound) cs .start h

theorem urcTrace_permitted {cs : List (UrcCmd α)} {P : UrcPool α} {evs : List (Option (UrcOut α))}
    (h : urcTrace c (urcPermitted c) cs .start = some (evs, P)) :
    UrcReaches c (UrcCmd.Permitted c) (cs.zip evs) P :=
  urcTrace_reaches (fun _ _ => urcPermitted_sound) cs .start h

end Lokky
