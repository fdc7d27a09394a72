import Verif.Model.SmallPool

/-!
# Client programs using `SmallVec`s whose destructors may panic

Not code of the crate: the way a client calls it.
-/

namespace Lokky
variable {α : Type}

/-- A heap vector is only cleared if the destructors of its elements do not panic (C21, C120). -/
def Spec.SCmd.Mild (c : Cfg α) (P : SPool α) (cmd : Spec.SCmd α) : Prop :=
  ∀ x, cmd = .on x .clear → ∀ v, P.vecs[x]? = some (some v) → Small.isHeap v = true →
    ∀ l s, Small.asSlice c ⟨v, P.w⟩ = .ok l s → ∀ a ∈ l, c.dropPanics a = false

/-- A client program that caught every panic and went on, and cleared no heap vector with an element whose destructor
panics: the history it saw and the state it reached. -/
inductive SReachesP (c : Cfg α) (P0 : SPool α) : Spec.SHistory α → SPool α → Prop
  | start : SReachesP c P0 [] P0
  | step {h P cmd ev P'} : SReachesP c P0 h P → cmd.Legal c P → cmd.Mild c P → SHappens c P cmd ev P' →
      SReachesP c P0 (h ++ [(cmd, ev)]) P'

/-- A test for `Mild`. -/
def mildly (c : Cfg α) (P : SPool α) : Spec.SCmd α → Bool
  | .on x .clear =>
    match P.vecs[x]? with
    | some (some v) => !Small.isHeap v || (match Small.asSlice c ⟨v, P.w⟩ with
      | .ok l _ => l.all fun a => !c.dropPanics a
      | _ => true)
    | _ => true
  | _ => true

theorem mildly_mild {c : Cfg α} {P : SPool α} {cmd : Spec.SCmd α} (h : mildly c P cmd = true) : cmd.Mild c P := by
  rintro x rfl v hx hh l s hr a ha
  simp only [mildly, hx, hh, hr, Bool.not_true, Bool.false_or, List.all_eq_true] at h
  simpa using h a ha

/-- Run a list of calls, to get examples of `SReachesP`. -/
def srunAllP (c : Cfg α) : List (Spec.SCmd α) → Spec.SHistory α → SPool α →
    Option (Spec.SHistory α × SPool α)
  | [], h, P => some (h, P)
  | cmd :: cmds, h, P =>
    if cmd.Legal c P ∧ mildly c P cmd = true then
      match runSCmd c cmd P with
      | .ok o P' => srunAllP c cmds (h ++ [(cmd, ⟨some o, P'.w.refusals != P.w.refusals⟩)]) P'
      | .panic P' => srunAllP c cmds (h ++ [(cmd, ⟨none, P'.w.refusals != P.w.refusals⟩)]) P'
      | _ => none
    else none

theorem srunAllP_reaches {c : Cfg α} {P0 : SPool α} (cmds : List (Spec.SCmd α))
    {h h' : Spec.SHistory α} {P P' : SPool α} (hr : SReachesP c P0 h P)
    (he : srunAllP c cmds h P = some (h', P')) : SReachesP c P0 h' P' := by
  induction cmds generalizing h P with
  | nil =>
    simp only [srunAllP, Option.some.injEq, Prod.mk.injEq] at he
    obtain ⟨rfl, rfl⟩ := he; exact hr
  | cons cmd cmds ih =>
    unfold srunAllP at he
    split at he
    · rename_i hl
      split at he
      · rename_i o P1 h1
        exact ih (.step hr hl.1 (mildly_mild hl.2) (.ret h1)) he
      · rename_i P1 h1
        exact ih (.step hr hl.1 (mildly_mild hl.2) (.panic h1)) he
      · cases he
    · cases he

/-- Such a program is one of those of C28. -/
theorem SReachesP.reaches {c : Cfg α} {P0 P : SPool α} {hist : Spec.SHistory α} (h : SReachesP c P0 hist P) :
    SReaches c P0 hist P := by
  induction h with
  | start => exact .start
  | step _ hl _ he ih => exact .step ih hl he

end Lokky
