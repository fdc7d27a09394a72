import Verif.Model.Nesting
import Verif.Proofs.Chests

/-!
# Containers nested to any depth
-/

namespace Lokky
variable {α σ : Type} {c : Cfg α} {co : Cfg Nat} {T : Things σ}
open Spec

/-! ## Which containers a call leaves -/

/-- There is a container under number `x`. -/
def Spec.Mix.Has (S : Mix α) (x : Nat) : Prop :=
  Lists.Has S.vecs x ∨ Lists.Has S.smalls x ∨ x ∈ S.objs.map Prod.fst

theorem has_lt {L : Lists α} {x : Nat} (h : L.Has x) : x < L.length := by
  obtain ⟨l, hl⟩ := h
  exact (List.getElem?_eq_some_iff.mp hl).1

theorem has_pad {n : Nat} {L : Lists α} {x : Nat} : Lists.Has (pad n L) x ↔ L.Has x := by
  simp only [Lists.Has, pad_some]

/-- Nothing comes back, and what is new is there. -/
structure Grows (L L' : Lists α) : Prop where
  le : L.length ≤ L'.length
  old : ∀ x, L'.Has x → L.Has x ∨ L.length ≤ x
  new : ∀ x, L.length ≤ x → x < L'.length → L'.Has x

theorem Grows.refl (L : Lists α) : Grows L L := ⟨Nat.le_refl _, fun _ h => .inl h, fun _ _ _ => by omega⟩

theorem Grows.trans {L M N : Lists α} (h : Grows L M) (h' : Grows M N) (hl : M.length = L.length) :
    Grows L N := by
  refine ⟨Nat.le_trans h.le h'.le, fun x hx => ?_, fun x h1 h2 => ?_⟩
  · rcases h'.old x hx with a | a
    · exact h.old x a
    · have := h.le
      exact .inr (by omega)
  · exact h'.new x (by omega) h2

theorem Grows.snoc (L : Lists α) (l : List α) : Grows L (L ++ [some l]) := by
  refine ⟨by simp, fun x hx => ?_, fun x h1 h2 => ?_⟩
  · rcases (has_snoc L l x).mp hx with a | a
    · exact .inl a
    · exact .inr (by omega)
  · simp only [List.length_append, List.length_singleton] at h2
    exact (has_snoc L l x).mpr (.inr (by omega))

theorem Grows.set {L : Lists α} {x : Nat} {l : List α} (h : L[x]? = some (some l)) (l' : List α) :
    Grows L (L.set x (some l')) :=
  ⟨by simp, fun y hy => .inl ((has_set h l' y).mp hy), fun y h1 h2 => by simp at h2; omega⟩

theorem Grows.unset (L : Lists α) (x : Nat) : Grows L (L.set x none) :=
  ⟨by simp, fun y hy => .inl ((has_unset L x y).mp hy).1, fun y h1 h2 => by simp at h2; omega⟩

theorem Spec.Step.grows {cl : CloneRel α} {cmd : Cmd α} {ev : Event α} {L L' : Lists α} {made dropped : List α}
    (h : Step cl cmd ev L L' made dropped) : Grows L L' := by
  obtain ⟨h1, h2⟩ := h.has
  refine ⟨h1, fun x hx => ?_, fun x a b => (h2 x).mpr (.inr ⟨a, b⟩)⟩
  rcases (h2 x).mp hx with a | a
  · exact .inl a.1
  · exact .inr a.1

theorem Spec.StepP.grows {cl : CloneRel α} {dp : α → Prop} {cmd : Cmd α} {ev : Event α} {L L' : Lists α}
    {made dropped leaked : List α} (h : StepP cl dp cmd ev L L' made dropped leaked) : Grows L L' := by
  cases h with
  | step h => exact h.grows
  | on _ _ _ _ _ _ _ _ hx => exact .set hx _
  | drop => exact .unset _ _

theorem Spec.SStepP.grows {cl : CloneRel α} {dp : α → Prop} {cmd : SCmd α} {ev : Event α} {L L' : Lists α}
    {made dropped leaked : List α} (h : SStepP cl dp cmd ev L L' made dropped leaked) : Grows L L' := by
  cases h with
  | on _ _ _ _ _ _ _ _ _ hx => exact .set hx _
  | drop => exact .unset _ _
  | step h =>
    cases h
    case on hx _ => exact .set hx _
    case onLate hx _ => exact .set hx _
    case append x y l l' hne hx hy =>
      exact (Grows.set hx _).trans (Grows.set (l := l') (by rw [List.getElem?_set_ne hne]; exact hy) _) (by simp)
    case splitOff x n k l hk hx => exact (Grows.set hx _).trans (Grows.snoc _ _) (by simp)
    case viaVec hx => exact (Grows.unset _ _).trans (Grows.snoc _ _) (by simp)
    case viaVecRefused => exact .unset _ _
    case drop => exact .unset _ _
    all_goals first
      | exact .refl _
      | exact .snoc _ _

/-- Which containers a call leaves. -/
theorem Spec.YStep.has {cl : CloneRel α} {dp : α → Prop} {cmd : YCmd α} {ev : Event α} {S S' : Mix α}
    {made dropped leaked : List α} (h : YStep cl dp cmd ev S S' made dropped leaked)
    (hl : S.vecs.length = S.smalls.length) :
    S.vecs.length ≤ S'.vecs.length ∧ (∀ x, S'.Has x → S.Has x ∨ S.vecs.length ≤ x) ∧
      ∀ x, S.vecs.length ≤ x → x < S'.vecs.length → S'.Has x := by
  cases h with
  | vec h =>
    cases h with
    | call h =>
      have g := h.grows
      refine ⟨g.le, fun x hx => ?_, fun x a b => .inl (g.new x a b)⟩
      rcases hx with hx | hx | hx
      · exact (g.old x hx).imp_left .inl
      · exact .inl (.inr (.inl (has_pad.mp hx)))
      · exact .inl (.inr (.inr hx))
    | scan _ hx =>
      have g := Grows.set hx
      refine ⟨by simp, fun x hx => ?_, fun x a b => by simp at b; omega⟩
      rcases hx with hx | hx | hx
      · exact ((g _).old x hx).imp_left .inl
      · exact .inl (.inr (.inl (has_pad.mp hx)))
      · exact .inl (.inr (.inr hx))
    | @intoIter y l _ hy | @intoBoxed y l _ hy =>
      refine ⟨by simp, fun x hx => ?_, fun x a b => by simp at b; omega⟩
      rcases hx with hx | hx | hx
      · exact .inl (.inl ((has_unset _ _ _).mp hx).1)
      · exact .inl (.inr (.inl (has_pad.mp hx)))
      · rcases List.mem_cons.mp hx with e | e
        · simp only at e
          subst e
          exact .inl (.inl ⟨_, hy⟩)
        · exact .inl (.inr (.inr e))
    | intoBoxedRefused =>
      refine ⟨by simp, fun x hx => ?_, fun x a b => by simp at b; omega⟩
      rcases hx with hx | hx | hx
      · exact .inl (.inl ((has_unset _ _ _).mp hx).1)
      · exact .inl (.inr (.inl (has_pad.mp hx)))
      · exact .inl (.inr (.inr hx))
    | next hp | nextBack hp =>
      refine ⟨Nat.le_refl _, fun x hx => ?_, fun x a b => by simp at b; omega⟩
      rcases hx with hx | hx | hx
      · exact .inl (.inl hx)
      · exact .inl (.inr (.inl (has_pad.mp hx)))
      · exact .inl (.inr (.inr ((hp.map Prod.fst).mem_iff.mpr hx)))
    | rest | readBox =>
      refine ⟨Nat.le_refl _, fun x hx => ?_, fun x a b => by simp at b; omega⟩
      rcases hx with hx | hx | hx
      · exact .inl (.inl hx)
      · exact .inl (.inr (.inl (has_pad.mp hx)))
      · exact .inl (.inr (.inr hx))
    | dropIter hp | dropIterBoom hp | dropBox hp | dropBoxBoom hp =>
      refine ⟨Nat.le_refl _, fun x hx => ?_, fun x a b => by simp at b; omega⟩
      rcases hx with hx | hx | hx
      · exact .inl (.inl hx)
      · exact .inl (.inr (.inl (has_pad.mp hx)))
      · exact .inl (.inr (.inr ((hp.map Prod.fst).mem_iff.mpr (List.mem_cons_of_mem _ hx))))
    | @fromBoxed y m _ O hy hp =>
      refine ⟨by simp, fun x hx => ?_, fun x a b => by simp at b; omega⟩
      rcases hx with hx | hx | hx
      · by_cases e : y = x
        · subst e
          exact .inl (.inr (.inr ((hp.map Prod.fst).mem_iff.mpr (by simp))))
        · simp only [Lists.Has] at hx
          rw [List.getElem?_set_ne e] at hx
          exact .inl (.inl hx)
      · exact .inl (.inr (.inl (has_pad.mp hx)))
      · exact .inl (.inr (.inr ((hp.map Prod.fst).mem_iff.mpr (List.mem_cons_of_mem _ hx))))
  | small h =>
    have g := h.grows
    have le : (pad (_ : Lists α).length S.vecs).length = _ := pad_length (l := S.vecs) (hl ▸ g.le)
    refine ⟨?_, fun x hx => ?_, fun x a b => ?_⟩
    · show S.vecs.length ≤ (pad _ S.vecs).length
      rw [le, hl]; exact g.le
    · rcases hx with hx | hx | hx
      · exact .inl (.inl (has_pad.mp hx))
      · rcases g.old x hx with a | a
        · exact .inl (.inr (.inl a))
        · exact .inr (by omega)
      · exact .inl (.inr (.inr hx))
    · refine .inr (.inl (g.new x (by omega) ?_))
      have b : x < (pad _ S.vecs).length := b
      rwa [le] at b
  | scan _ hx =>
    refine ⟨Nat.le_refl _, fun x h => ?_, fun x a b => by simp at b; omega⟩
    rcases h with h | h | h
    · exact .inl (.inl h)
    · exact .inl (.inr (.inl ((has_set hx _ _).mp h)))
    · exact .inl (.inr (.inr h))
  | @intoVec y l _ hy hv =>
    refine ⟨by simp, fun x h => ?_, fun x a b => by simp at b; omega⟩
    rcases h with h | h | h
    · by_cases e : y = x
      · subst e
        exact .inl (.inr (.inl ⟨_, hy⟩))
      · simp only [Lists.Has] at h
        rw [List.getElem?_set_ne e] at h
        exact .inl (.inl h)
    · exact .inl (.inr (.inl ((has_unset _ _ _).mp h).1))
    · exact .inl (.inr (.inr h))
  | intoVecRefused | intoBoxedRefused =>
    refine ⟨Nat.le_refl _, fun x h => ?_, fun x a b => by simp at b; omega⟩
    rcases h with h | h | h
    · exact .inl (.inl h)
    · exact .inl (.inr (.inl ((has_unset _ _ _).mp h).1))
    · exact .inl (.inr (.inr h))
  | @toSmall y n l _ hy hv =>
    refine ⟨by simp, fun x h => ?_, fun x a b => by simp at b; omega⟩
    rcases h with h | h | h
    · exact .inl (.inl ((has_unset _ _ _).mp h).1)
    · by_cases e : y = x
      · subst e
        exact .inl (.inl ⟨_, hy⟩)
      · simp only [Lists.Has] at h
        rw [List.getElem?_set_ne e] at h
        exact .inl (.inr (.inl h))
    · exact .inl (.inr (.inr h))
  | @intoBoxed y l _ hy =>
    refine ⟨Nat.le_refl _, fun x h => ?_, fun x a b => by simp at b; omega⟩
    rcases h with h | h | h
    · exact .inl (.inl h)
    · exact .inl (.inr (.inl ((has_unset _ _ _).mp h).1))
    · rcases List.mem_cons.mp h with e | e
      · simp only at e
        subst e
        exact .inl (.inr (.inl ⟨_, hy⟩))
      · exact .inl (.inr (.inr e))
  | @boxToSmall y n m _ O hp hv =>
    refine ⟨Nat.le_refl _, fun x h => ?_, fun x a b => by simp at b; omega⟩
    rcases h with h | h | h
    · exact .inl (.inl h)
    · by_cases e : y = x
      · subst e
        exact .inl (.inr (.inr ((hp.map Prod.fst).mem_iff.mpr (by simp))))
      · simp only [Lists.Has] at h
        rw [List.getElem?_set_ne e] at h
        exact .inl (.inr (.inl h))
    · exact .inl (.inr (.inr ((hp.map Prod.fst).mem_iff.mpr (List.mem_cons_of_mem _ h))))

section
variable {Y : YPool α} {S : Mix α} {lost : List Nat} {G : List (Option VecH)} {K : Lists α}

theorem YPool.there_iff {x : Nat} : Y.there x = true ↔ (∃ v, Y.x.pool.vecs[x]? = some (some v)) ∨
    (∃ v, Y.smalls[x]? = some (some v)) ∨ ∃ o, Y.x.objs x = some o := by
  unfold YPool.there
  simp only [Bool.or_eq_true, Option.isSome_iff_exists, or_assoc]
  refine or_congr ?_ (or_congr ?_ Iff.rfl)
  · cases Y.x.pool.vecs[x]? with
    | none => simp
    | some o => cases o <;> simp
  · cases Y.smalls[x]? with
    | none => simp
    | some o => cases o <;> simp

theorem YInv.lens (h : YInv c Y S lost G K) : S.vecs.length = Y.x.pool.vecs.length := h.lenV.trans h.len

theorem YInv.vec_iff (h : YInv c Y S lost G K) (x : Nat) :
    (∃ v, Y.x.pool.vecs[x]? = some (some v)) ↔ Lists.Has S.vecs x := by
  constructor
  · rintro ⟨v, hv⟩
    obtain ⟨l, hl, _⟩ := h.x.inv.rep hv
    exact ⟨l, hl⟩
  · rintro ⟨l, hl⟩
    rcases get_or (l := Y.x.pool.vecs) (x := x) (h.lens ▸ get_lt hl) with e | e
    · rw [h.x.inv.gone x e] at hl; cases hl
    · exact e

theorem YInv.small_iff (h : YInv c Y S lost G K) (x : Nat) :
    (∃ v, Y.smalls[x]? = some (some v)) ↔ Lists.Has S.smalls x := by
  constructor
  · rintro ⟨v, hv⟩
    obtain ⟨_, _, l, hl, _⟩ := h.small x v hv
    exact ⟨l, hl⟩
  · rintro ⟨l, hl⟩
    rcases get_or (l := Y.smalls) (x := x) (h.lenS ▸ get_lt hl) with e | e
    · rw [h.gone x e] at hl; cases hl
    · exact e

theorem YInv.obj_iff (h : YInv c Y S lost G K) (x : Nat) :
    (∃ o, Y.x.objs x = some o) ↔ x ∈ S.objs.map Prod.fst := by
  constructor
  · rintro ⟨o, ho⟩
    obtain ⟨_, _, l, _, _, h5⟩ := h.x.obj x o ho
    exact List.mem_map.mpr ⟨_, h5, rfl⟩
  · intro hx
    obtain ⟨⟨y, r⟩, hy, rfl⟩ := List.mem_map.mp hx
    exact h.x.key y r hy

theorem YInv.there_iff (h : YInv c Y S lost G K) (x : Nat) : Y.there x = true ↔ S.Has x := by
  rw [YPool.there_iff, h.vec_iff, h.small_iff, h.obj_iff]
  rfl

theorem YInv.there_lt (h : YInv c Y S lost G K) {x : Nat} (hx : Y.there x = true) : x < Y.x.pool.vecs.length := by
  rcases YPool.there_iff.mp hx with ⟨v, e⟩ | ⟨v, e⟩ | ⟨o, e⟩
  · exact get_lt e
  · exact h.len ▸ get_lt e
  · exact get_lt (h.x.obj x o e).1

/-- A number has one kind. -/
theorem YInv.one_kind (h : YInv c Y S lost G K) (x : Nat) :
    (Lists.Has S.vecs x → ¬ Lists.Has S.smalls x ∧ x ∉ S.objs.map Prod.fst) ∧
      (Lists.Has S.smalls x → x ∉ S.objs.map Prod.fst) := by
  rw [← h.vec_iff, ← h.small_iff, ← h.obj_iff]
  refine ⟨?_, ?_⟩
  · rintro ⟨v, hv⟩
    refine ⟨?_, ?_⟩
    · rintro ⟨s, hs⟩
      rw [(h.small x s hs).1] at hv; cases hv
    · rintro ⟨o, ho⟩
      rw [(h.x.obj x o ho).1] at hv; cases hv
  · rintro ⟨s, hs⟩ ⟨o, ho⟩
    rw [(h.small x s hs).2.1] at ho; cases ho

theorem Spec.YStep.dropped {cl : CloneRel α} {dp : α → Prop} {cmd : YCmd α} {ev : Event α} {S' : Mix α}
    {made dropped leaked : List α} {x : Nat} (h : YStep cl dp cmd ev S S' made dropped leaked)
    (hd : ∀ a, ¬ dp a) (inv : YInv c Y S lost G K) (hx : Y.there x = true) (hc : cmd = Y.dropCmd x) :
    ev.out = some .unit ∧ S'.vecs.length = S.vecs.length ∧ ∀ y, S'.Has y ↔ S.Has y ∧ y ≠ x := by
  have h0 := (inv.there_iff x).mp hx
  have hV : S.vecs.length = S.smalls.length := inv.lenV.trans inv.lenS.symm
  obtain ⟨k1, k2⟩ := inv.one_kind x
  have objs : ∀ {r : Obj α} {O : List (Nat × Obj α)}, S.objs.Perm ((x, r) :: O) → ∀ y,
      y ∈ O.map Prod.fst ↔ y ∈ S.objs.map Prod.fst ∧ y ≠ x := by
    intro r O hp y
    have nd := (hp.map Prod.fst).nodup_iff.mp inv.x.nodup
    rw [(hp.map Prod.fst).mem_iff]
    simp only [List.map_cons, List.nodup_cons] at nd
    simp only [List.map_cons, List.mem_cons]
    constructor
    · intro hy; exact ⟨.inr hy, fun e => nd.1 (e ▸ hy)⟩
    · rintro ⟨a | a, b⟩
      · exact (b a).elim
      · exact a
  have obj : ∀ {r : Obj α} {O : List (Nat × Obj α)}, S.objs.Perm ((x, r) :: O) → ∀ y,
      Mix.Has ⟨⟨S.vecs, O⟩, pad S.vecs.length S.smalls⟩ y ↔ S.Has y ∧ y ≠ x := by
    intro r O hp y
    have mem : x ∈ S.objs.map Prod.fst := (hp.map Prod.fst).mem_iff.mpr (by simp)
    simp only [Mix.Has, has_pad, objs hp y]
    constructor
    · rintro (a | a | a)
      · exact ⟨.inl a, fun e => (k1 (e ▸ a)).2 mem⟩
      · exact ⟨.inr (.inl a), fun e => k2 (e ▸ a) mem⟩
      · exact ⟨.inr (.inr a.1), a.2⟩
    · rintro ⟨a | a | a, b⟩
      · exact .inl a
      · exact .inr (.inl a)
      · exact .inr (.inr ⟨a, b⟩)
  have vec : Lists.Has S.vecs x → ∀ y,
      Mix.Has ⟨⟨S.vecs.set x none, S.objs⟩, pad (S.vecs.set x none).length S.smalls⟩ y ↔ S.Has y ∧ y ≠ x := by
    intro hv y
    simp only [Mix.Has, has_pad, has_unset]
    constructor
    · rintro (a | a | a)
      · exact ⟨.inl a.1, fun e => a.2 e.symm⟩
      · exact ⟨.inr (.inl a), fun e => (k1 hv).1 (e ▸ a)⟩
      · exact ⟨.inr (.inr a), fun e => (k1 hv).2 (e ▸ a)⟩
    · rintro ⟨a | a | a, b⟩
      · exact .inl ⟨a, fun e => b e.symm⟩
      · exact .inr (.inl a)
      · exact .inr (.inr a)
  have small : Lists.Has S.smalls x → ∀ y,
      Mix.Has ⟨⟨pad (S.smalls.set x none).length S.vecs, S.objs⟩, S.smalls.set x none⟩ y ↔ S.Has y ∧ y ≠ x := by
    intro hv y
    simp only [Mix.Has, has_pad, has_unset]
    constructor
    · rintro (a | a | a)
      · exact ⟨.inl a, fun e => (k1 (e ▸ a)).1 hv⟩
      · exact ⟨.inr (.inl a.1), fun e => a.2 e.symm⟩
      · exact ⟨.inr (.inr a), fun e => k2 hv (e ▸ a)⟩
    · rintro ⟨a | a | a, b⟩
      · exact .inl a
      · exact .inr (.inl ⟨a, fun e => b e.symm⟩)
      · exact .inr (.inr a)
  unfold YPool.dropCmd at hc
  split at hc
  · rename_i v hv
    subst hc
    have hs := (inv.small_iff x).mp ⟨v, hv⟩
    have len : (pad (S.smalls.set x none).length S.vecs).length = S.vecs.length := by
      rw [pad_length (by simp [hV])]; simp [hV]
    cases h with
    | small h =>
      cases h with
      | drop _ _ a _ _ _ ha => exact (hd a ha).elim
      | step h =>
        cases h with
        | drop => exact ⟨rfl, len, small hs⟩
    | scan h => cases h
  · subst hc
    cases h with
    | vec h =>
      cases h with
      | dropIter hp => exact ⟨rfl, rfl, obj hp⟩
      | dropIterBoom _ ha => exact (hd _ ha).elim
      | scan h => cases h
    | scan h => cases h
  · subst hc
    cases h with
    | vec h =>
      cases h with
      | dropBox hp => exact ⟨rfl, rfl, obj hp⟩
      | dropBoxBoom _ ha => obtain ⟨a, _, ha⟩ := ha; exact (hd _ ha).elim
      | scan h => cases h
    | scan h => cases h
  · subst hc
    cases h with
    | vec h =>
      cases h with
      | call h =>
        cases h with
        | drop _ _ a _ _ _ ha => exact (hd a ha).elim
        | step h =>
          cases h with
          | drop => rename_i hl; exact ⟨rfl, by simp, vec ⟨_, hl⟩⟩
      | scan h => cases h
    | scan h => cases h

theorem YInv.drop_legal (h : YInv c Y S lost G K) {x : Nat} (hx : Y.there x = true) : (Y.dropCmd x).Legal c Y := by
  unfold YPool.dropCmd
  split
  · rename_i v hv
    exact ⟨⟨v, hv, trivial⟩, fun _ e => by cases e⟩
  · rename_i it ho _
    exact ⟨it, ho⟩
  · rename_i b ho _
    exact ⟨b, ho⟩
  · rename_i ho hs
    rcases YPool.there_iff.mp hx with ⟨v, e⟩ | ⟨v, e⟩ | ⟨o, e⟩
    · exact ⟨⟨v, e⟩, fun _ e => by cases e⟩
    · exact (hs v e).elim
    · rw [ho] at e; cases e

theorem YPool.dropCmd_plain (Y : YPool α) (x : Nat) : (Y.dropCmd x).Plain ∧ (Y.dropCmd x).given = [] ∧
    (∀ ev, ytaken (Y.dropCmd x) ev = []) ∧ ¬ (Y.dropCmd x).Scans := by
  unfold YPool.dropCmd
  split <;> refine ⟨trivial, rfl, fun ev => ?_, id⟩
  · rfl
  · simp only [ytaken, xtaken]
  · simp only [ytaken, xtaken]
  · rfl

/-- The destructor of a container returns, and nothing else changes. -/
theorem YInv.drop_runs (hs : c.size ≠ 0) (hd : ∀ a, c.dropPanics a = false) (h : YInv c Y S lost G K) {x : Nat}
    (hx : Y.there x = true) : ∃ o Y', runY c (Y.dropCmd x) Y = .ok o Y' ∧
      Y'.x.pool.vecs.length = Y.x.pool.vecs.length ∧ ∀ y, Y'.there y = true ↔ Y.there y = true ∧ y ≠ x := by
  have hl := h.drop_legal hx
  have hn : ∀ a, ¬ c.dropRel a := fun a ha => by rw [Cfg.dropRel, hd a] at ha; cases ha
  have key := runY_spec hs h _ hl
  cases hr : runY c (Y.dropCmd x) Y with
  | ok o Y' =>
    rw [hr] at key
    obtain ⟨S', _, _, _, h1, ⟨_, _, _, h2⟩, _⟩ := key
    obtain ⟨_, k2, k3⟩ := h1.dropped hn h hx rfl
    refine ⟨o, Y', rfl, by rw [← h2.lens, ← h.lens, k2], fun y => ?_⟩
    rw [h2.there_iff, h.there_iff, k3]
  | panic Y' =>
    rw [hr] at key
    obtain ⟨S', _, _, _, h1, ⟨_, _, _, h2⟩, _⟩ := key
    obtain ⟨k1, _⟩ := h1.dropped hn h hx rfl
    cases k1
  | abort =>
    rw [hr] at key
    obtain ⟨a, ha⟩ := key
    rw [hd a] at ha; cases ha
  | ub u => rw [hr] at key; exact key.elim

/-- What a call does to the numbers. -/
theorem YHappens.there (hs : c.size ≠ 0) (h : YInv c Y S lost G K) {cmd : YCmd α} {ev : Event α} {Y' : YPool α}
    (hl : cmd.Legal c Y) (he : YHappens c Y cmd ev Y') :
    Y.x.pool.vecs.length ≤ Y'.x.pool.vecs.length ∧
      (∀ x, Y'.there x = true → Y.there x = true ∨ Y.x.pool.vecs.length ≤ x) ∧
      ∀ x, Y.x.pool.vecs.length ≤ x → x < Y'.x.pool.vecs.length → Y'.there x = true := by
  obtain ⟨S', _, _, _, h1, ⟨_, _, _, h2⟩, _⟩ := he.ok hs h hl
  have k := h1.has (h.lenV.trans h.lenS.symm)
  rw [h.lens, h2.lens] at k
  refine ⟨k.1, fun x hx => ?_, fun x a b => (h2.there_iff x).mpr (k.2.2 x a b)⟩
  rw [h2.there_iff] at hx
  rw [h.there_iff]
  exact k.2.1 x hx

/-- A permitted call returns or panics. -/
theorem YInv.happens (hs : c.size ≠ 0) (hd : ∀ a, c.dropPanics a = false) (h : YInv c Y S lost G K) {cmd : YCmd α}
    (hl : cmd.Legal c Y) : ∃ ev Y', YHappens c Y cmd ev Y' := by
  have key := runY_spec hs h cmd hl
  cases hr : runY c cmd Y with
  | ok o Y' => exact ⟨_, _, .ret hr⟩
  | panic Y' => exact ⟨_, _, .panic hr⟩
  | abort =>
    rw [hr] at key
    obtain ⟨a, ha⟩ := key
    rw [hd a] at ha; cases ha
  | ub u => rw [hr] at key; exact key.elim

end

theorem YPool.empty_of {Y : YPool α} (h : ∀ x, Y.there x = false) : Y.Empty := by
  have n : ∀ x, ¬ Y.there x = true := fun x e => by rw [h x] at e; cases e
  simp only [YPool.there_iff, not_or, not_exists] at n
  refine ⟨fun x v => (n x).1 v, fun x v => (n x).2.1 v, fun x => ?_⟩
  cases e : Y.x.objs x with
  | none => rfl
  | some o => exact ((n x).2.2 o e).elim

/-! ## Containers of values as things -/

/-- Reached by a program of C127. -/
def YAfter (c : Cfg α) (Y0 : YPool α) : Nat → YPool α → Prop := fun _ Y => ∃ hist, YReaches c Y0 hist Y

theorem yThings_good {Y0 : YPool α} (hs : c.size ≠ 0) (hd : ∀ a, c.dropPanics a = false) (h0 : Y0.Initial) (B : Nat) :
    (yThings c).Good (YAfter c Y0) B where
  lt := by
    rintro n Y x ⟨hist, hr⟩ ha
    obtain ⟨_, _, _, _, _, _, _, h⟩ := hr.inv hs h0
    exact h.there_lt ha
  use := by
    rintro n Y Y' ⟨hist, hr⟩ _ ⟨cmd, ev, hl, he⟩
    obtain ⟨_, _, _, _, _, _, _, h⟩ := hr.inv hs h0
    exact ⟨⟨_, hr.step hl he⟩, (he.there hs h hl).1, (he.there hs h hl).2.1⟩
  fresh := by
    rintro n Y Y' ⟨hist, hr⟩ _ ⟨cmd, ev, hl, he⟩
    obtain ⟨_, _, _, _, _, _, _, h⟩ := hr.inv hs h0
    exact (he.there hs h hl).2.2
  drop := by
    rintro n Y x ⟨hist, hr⟩ _ ha
    obtain ⟨_, _, _, _, _, _, _, h⟩ := hr.inv hs h0
    obtain ⟨o, Y', k1, k2, k3⟩ := h.drop_runs hs hd ha
    refine ⟨Y', ?_, ⟨_, hr.step (h.drop_legal ha) (.ret k1)⟩, k2, k3⟩
    simp only [yThings, k1]

/-! ## Containers of things as things -/

/-- What a call drops exists and is dropped once. -/
theorem ChestInv.drops {I : Nat → σ → Prop} {n : Nat} {N0 N : Chest σ} {ho : YHistory Nat} {S : Mix Nat}
    {left : List Nat} {cmd : YCmd Nat} {ev : Event Nat} {Y' : YPool Nat} {rest : List Nat}
    (hso : co.size ≠ 0) (h : ChestInv T I co N0 N n ho S left)
    (hl : cmd.Legal co N.boxes) (hp : cmd.Plain) (hh : N.held.Perm (cmd.given ++ rest))
    (he : YHappens co N.boxes cmd ev Y') :
    (droppedIn N.boxes Y').Nodup ∧ ∀ x ∈ droppedIn N.boxes Y', T.alive N.things x = true := by
  obtain ⟨lost, G, K, po⟩ := h.po
  obtain ⟨S', made, dropped, leaked, h1, h2, h3⟩ := he.ok hso po hl
  have hm := h1.plain hp
  subst hm
  have hdr : droppedIn N.boxes Y' = dropped := by simp [droppedIn, h3]
  have cons := h1.conserve
  simp only [List.append_nil] at cons
  have all : (N.held ++ (S.contents ++ left)).Perm
      (dropped ++ ((rest ++ ytaken cmd ev) ++ (S'.contents ++ (leaked ++ left)))) := by
    refine List.perm_iff_count.mpr fun a => ?_
    have e1 := List.perm_iff_count.mp hh a
    have e2 := List.perm_iff_count.mp cons a
    simp only [List.count_append] at e1 e2 ⊢
    omega
  rw [hdr]
  exact ⟨(List.nodup_append.mp (all.nodup_iff.mp h.nodup)).1, fun x hx =>
    (h.owned x).mp (all.mem_iff.mpr (by simp [hx]))⟩

/-- The invariant of a client of C145 all of whose calls of containers are allowed by `A`. -/
def ChestAfter (T : Things σ) (I : Nat → σ → Prop) (co : Cfg Nat) (A : YCmd Nat → Prop) (N0 : Chest σ) :
    Nat → Chest σ → Prop :=
  fun _ N => ∃ m ho S left, ChestInv T I co N0 N m ho S left ∧ ∀ e ∈ ho, A e.1 ∨ ¬ e.1.Scans

theorem ChestStep.inv {I : Nat → σ → Prop} {A : YCmd Nat → Prop} {N0 N N' : Chest σ} {n : Nat}
    (g : ∀ B, T.Good I B) (hso : co.size ≠ 0) (hdo : ∀ a, co.dropPanics a = false)
    (h : ChestAfter T I co A N0 n N) (hu : ChestStep T co A N N') :
    ChestAfter T I co A N0 (n + 1) N' := by
  obtain ⟨m, ho, S, left, h, hA⟩ := h
  cases hu with
  | use hu hh =>
    obtain ⟨k1, k2, k3⟩ := (g (m + 1)).use_owned h.good (by omega) hu h.nodup h.owned hh
    exact ⟨m + 1, ho, S, left, ⟨k1, h.ro, h.po, k2, k3, h.none_left⟩, hA⟩
  | call ha hl hp hh he hk =>
    obtain ⟨s', S', left', k1, k2⟩ := h.call (g _) hso hdo (Nat.le_refl _) hl hp hh he
    rw [hk] at k1
    cases k1
    refine ⟨_, _, S', left', k2, fun e he => ?_⟩
    rcases List.mem_append.mp he with he | he
    · exact hA e he
    · rw [List.mem_singleton.mp he]; exact .inl ha

theorem chestThings_good {I : Nat → σ → Prop} {A : YCmd Nat → Prop} {N0 : Chest σ} (g : ∀ B, T.Good I B)
    (hso : co.size ≠ 0) (hdo : ∀ a, co.dropPanics a = false) (B : Nat) :
    (chestThings T co A).Good (ChestAfter T I co A N0) B where
  lt := by
    rintro n N x ⟨m, ho, S, left, h, hA⟩ ha
    obtain ⟨_, _, _, po⟩ := h.po
    exact po.there_lt ha
  use := by
    rintro n N N' h _ hu
    refine ⟨ChestStep.inv g hso hdo h hu, ?_⟩
    obtain ⟨m, ho, S, left, h, hA⟩ := h
    obtain ⟨_, _, _, po⟩ := h.po
    cases hu with
    | use hu hh => exact ⟨Nat.le_refl _, fun x hx => .inl hx⟩
    | call ha hl hp hh he hk => exact ⟨(he.there hso po hl).1, (he.there hso po hl).2.1⟩
  fresh := by
    rintro n N N' ⟨m, ho, S, left, h, hA⟩ _ hu x h1 h2
    obtain ⟨_, _, _, po⟩ := h.po
    cases hu with
    | use hu hh =>
      have h1 : N.boxes.x.pool.vecs.length ≤ x := h1
      have h2 : x < N.boxes.x.pool.vecs.length := h2
      omega
    | call ha hl hp hh he hk => exact (he.there hso po hl).2.2 x h1 h2
  drop := by
    rintro n N x ⟨m, ho, S, left, h, hA⟩ _ ha
    obtain ⟨_, _, _, po⟩ := h.po
    obtain ⟨o, Y', k1, k2, k3⟩ := po.drop_runs hso hdo ha
    obtain ⟨p1, p2, p3, p4⟩ := N.boxes.dropCmd_plain x
    have he := YHappens.ret k1
    obtain ⟨s', S', left', q1, q2⟩ := h.call (g _) hso hdo (Nat.le_refl _) (po.drop_legal ha) p1
      (rest := N.held) (by rw [p2]; exact .refl _) he
    rw [p3, List.append_nil] at q2
    refine ⟨⟨s', Y', N.held⟩, ?_, ⟨_, _, S', left', q2, fun e he => ?_⟩, k2, k3⟩
    · simp only [chestThings, k1, q1]
    · rcases List.mem_append.mp he with he | he
      · exact hA e he
      · rw [List.mem_singleton.mp he]; exact .inr p4

theorem Things.Reaches.inv {I : Nat → σ → Prop} {s0 s : σ} {n : Nat} (g : ∀ B, T.Good I B) (hi : I 0 s0)
    (h : T.Reaches s0 n s) : I n s := by
  induction h with
  | start => exact hi
  | step _ hu ih => exact ((g _).use ih (Nat.lt_succ_self _) hu).1

/-! ## Any depth -/

section
variable {co : Nat → Cfg Nat} {A : Nat → YCmd Nat → Prop} {Y0 : YPool α} {O0 : YPool Nat}

/-- What holds of the containers of the levels up to `k`. -/
def NestAfter (c : Cfg α) (co : Nat → Cfg Nat) (A : Nat → YCmd Nat → Prop) (Y0 : YPool α) (O0 : YPool Nat) :
    (k : Nat) → Nat → Nested α k → Prop
  | 0 => YAfter c Y0
  | k + 1 => ChestAfter (nestThings c co A k) (NestAfter c co A Y0 O0 k) (co k) (A k) (nest0 Y0 O0 (k + 1))

theorem nest_alive (k : Nat) (N : Nested α k) (x : Nat) :
    (nestThings c co A k).alive N x = Nested.there k N x := by
  cases k <;> rfl

theorem nest_good (hs : c.size ≠ 0) (hd : ∀ a, c.dropPanics a = false) (hso : ∀ k, (co k).size ≠ 0)
    (hdo : ∀ k a, (co k).dropPanics a = false) (h0 : Y0.Initial) (k : Nat) :
    ∀ B, (nestThings c co A k).Good (NestAfter c co A Y0 O0 k) B := by
  induction k with
  | zero => exact yThings_good hs hd h0
  | succ k ih => exact chestThings_good ih (hso k) (hdo k)

theorem initial_there {Y : YPool α} (h : Y.Initial) (x : Nat) : Y.there x = false := by
  cases e : Y.there x with
  | false => rfl
  | true =>
    obtain ⟨⟨⟨h1, _⟩, h2⟩, h3⟩ := h
    rcases YPool.there_iff.mp e with ⟨v, e⟩ | ⟨v, e⟩ | ⟨o, e⟩
    · rw [h1] at e; cases e
    · rw [h3] at e; cases e
    · rw [h2] at e; cases e

theorem nest_start (hs : c.size ≠ 0) (hd : ∀ a, c.dropPanics a = false) (hso : ∀ k, (co k).size ≠ 0)
    (hdo : ∀ k a, (co k).dropPanics a = false) (h0 : Y0.Initial) (h1 : O0.Initial) (k : Nat) :
    NestAfter c co A Y0 O0 k 0 (nest0 Y0 O0 k) := by
  induction k with
  | zero => exact ⟨[], .start⟩
  | succ k ih =>
    have al : ∀ x, (nestThings c co A k).alive (nest0 Y0 O0 k) x = false := by
      intro x
      cases k with
      | zero => exact initial_there h0 x
      | succ k => exact initial_there h1 x
    obtain ⟨S, left, i⟩ := (CReaches.start (T := nestThings c co A k) (co := co k) (N0 := nest0 Y0 O0 (k + 1))).inv
      (nest_good hs hd hso hdo h0 k 0) ih al (hso k) (hdo k) ⟨rfl, h1, rfl⟩ (Nat.le_refl _)
    exact ⟨0, [], S, left, i, by simp⟩

theorem nest_inv (hs : c.size ≠ 0) (hd : ∀ a, c.dropPanics a = false) (hso : ∀ k, (co k).size ≠ 0)
    (hdo : ∀ k a, (co k).dropPanics a = false) (h0 : Y0.Initial) (h1 : O0.Initial) {k n : Nat} {N : Nested α k}
    (h : (nestThings c co A k).Reaches (nest0 Y0 O0 k) n N) : NestAfter c co A Y0 O0 k n N :=
  h.inv (nest_good hs hd hso hdo h0 k) (nest_start hs hd hso hdo h0 h1 k)

/-! ## Running examples -/

theorem chestAll_one {κ : Type} {step : κ → σ → Option σ} {co : Cfg Nat} {a : YCmd Nat → Bool} {N : Chest σ}
    {r : Nat × Chest σ} {cmd : ChestCmd κ} (hst : ∀ {k s'}, step k N.things = some s' → T.use N.things s')
    (hlt : ∀ x, T.alive N.things x = true → x < T.made N.things) (ha : cmd.may a = true)
    (hc : chestAll T step co [cmd] 0 N = some r) : ChestStep T co (fun cmd => a cmd = true) N r.2 := by
  cases cmd with
  | use q =>
    unfold chestAll at hc
    split at hc
    · rename_i s' hs'
      split at hc
      · rename_i ht
        simp only [chestAll, Option.some.injEq] at hc
        subst hc
        refine .use (hst hs') fun x h1 h2 => ?_
        have := List.all_eq_true.mp ht x (List.mem_range.mpr (hlt x h1))
        simpa [h1, h2] using this
      · cases hc
    · cases hc
  | call cmd =>
    unfold chestAll at hc
    split at hc
    · rename_i hl
      simp only [Bool.and_eq_true, decide_eq_true_eq] at hl
      split at hc
      · rename_i h1
        split at hc
        · rename_i h2
          simp only [chestAll, Option.some.injEq] at hc
          subst hc
          exact .call ha (YCmd.legal_iff hl.1.1) (YCmd.plain_iff hl.1.2) hl.2 (.ret h1) h2
        · cases hc
      · rename_i h1
        split at hc
        · rename_i h2
          simp only [chestAll, Option.some.injEq] at hc
          subst hc
          exact .call ha (YCmd.legal_iff hl.1.1) (YCmd.plain_iff hl.1.2) hl.2 (.panic h1) h2
        · cases hc
      · cases hc
    · cases hc

theorem nestStep_use {a : YCmd Nat → Bool} (hs : c.size ≠ 0) (hd : ∀ a, c.dropPanics a = false)
    (hso : ∀ k, (co k).size ≠ 0) (hdo : ∀ k a, (co k).dropPanics a = false) (h0 : Y0.Initial) {k n : Nat}
    {N N' : Nested α k} {cmd : NestCmd α k} (h : NestAfter c co (fun _ cmd => a cmd = true) Y0 O0 k n N)
    (he : nestStep c co a k cmd N = some N') :
    (nestThings c co (fun _ cmd => a cmd = true) k).use N N' := by
  induction k generalizing n with
  | zero =>
    unfold nestStep at he
    split at he
    · rename_i hl
      split at he
      · rename_i h1
        cases he
        exact ⟨_, _, YCmd.legal_iff hl, .ret h1⟩
      · rename_i h1
        cases he
        exact ⟨_, _, YCmd.legal_iff hl, .panic h1⟩
      · cases he
    · cases he
  | succ k ih =>
    obtain ⟨m, ho, S, left, i, _⟩ := h
    have g := nest_good (O0 := O0) (A := fun _ cmd => a cmd = true) hs hd hso hdo h0 k 0
    unfold nestStep at he
    split at he
    · rename_i ha
      cases hc : chestAll (nestThings c co (fun _ cmd => a cmd = true) k) (nestStep c co a k) (co k) [cmd] 0 N with
      | none => rw [hc] at he; cases he
      | some r =>
        rw [hc] at he
        have he : r.2 = N' := Option.some.inj he
        subst he
        exact chestAll_one (fun hs' => ih i.good hs') (fun x h => g.lt i.good h) ha hc
    · cases he

theorem nestRun_reaches {a : YCmd Nat → Bool} (hs : c.size ≠ 0) (hd : ∀ a, c.dropPanics a = false)
    (hso : ∀ k, (co k).size ≠ 0) (hdo : ∀ k a, (co k).dropPanics a = false) (h0 : Y0.Initial) (h1 : O0.Initial)
    {k : Nat} (cmds : List (NestCmd α k)) {n : Nat} {N N' : Nested α k}
    (h : (nestThings c co (fun _ cmd => a cmd = true) k).Reaches (nest0 Y0 O0 k) n N)
    (he : nestRun c co a k cmds N = some N') :
    (nestThings c co (fun _ cmd => a cmd = true) k).Reaches (nest0 Y0 O0 k) (n + cmds.length) N' := by
  induction cmds generalizing n N with
  | nil => simp only [nestRun, Option.some.injEq] at he; subst he; exact h
  | cons cmd cmds ih =>
    unfold nestRun at he
    split at he
    · rename_i N1 h2
      have := ih (h.step (nestStep_use hs hd hso hdo h0 (nest_inv hs hd hso hdo h0 h1 h) h2)) he
      rw [List.length_cons]
      have e : n + (cmds.length + 1) = n + 1 + cmds.length := by omega
      rw [e]; exact this
    · cases he

theorem Spec.YCmd.scanning_iff {cmd : YCmd α} : cmd.scanning = true ↔ cmd.Scans := by
  cases cmd with
  | vec cmd => cases cmd <;> simp [YCmd.scanning, YCmd.Scans]
  | _ => simp [YCmd.scanning, YCmd.Scans]

end

end Lokky
