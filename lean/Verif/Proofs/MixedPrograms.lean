import Verif.Model.MixedPrograms
import Verif.Proofs.VecPrograms
import Verif.Proofs.SmallPoolPanic

/-!
# Programs with vectors, small vectors, iterators and boxed slices keep their invariant
-/

namespace Lokky.Spec
variable {α : Type} {cl : CloneRel α} {dp : α → Prop}

theorem pad_length {β : Type} {n : Nat} {l : List (Option β)} (h : l.length ≤ n) : (pad n l).length = n := by
  simp only [pad, List.length_append, List.length_replicate]; omega

theorem pad_get {β : Type} {n x : Nat} {l : List (Option β)} (h : x < l.length) : (pad n l)[x]? = l[x]? :=
  List.getElem?_append_left h

theorem pad_new {β : Type} {n x : Nat} {l : List (Option β)} (h : l.length ≤ x) (hn : x < n) :
    (pad n l)[x]? = some none := by
  simp only [pad]
  rw [List.getElem?_append_right h, List.getElem?_replicate, if_pos (by omega)]

theorem pad_some {β : Type} {n x : Nat} {l : List (Option β)} {v : β} :
    (pad n l)[x]? = some (some v) ↔ l[x]? = some (some v) := by
  by_cases h : x < l.length
  · rw [pad_get h]
  · simp only [pad]
    rw [List.getElem?_append_right (by omega), List.getElem?_replicate, List.getElem?_eq_none (by omega)]
    split <;> simp

theorem pad_self {β : Type} {l : List (Option β)} : pad l.length l = l := by simp [pad]

theorem contents_pad [DecidableEq α] (n : Nat) (L : Lists α) (a : α) :
    (Lists.contents (pad n L)).count a = (Lists.contents L).count a := by
  have : ∀ k, Lists.contents (List.replicate k (none : Option (List α))) = [] := by
    intro k
    induction k with
    | zero => rfl
    | succ k ih => simpa [Lists.contents, List.replicate_succ] using ih
  simp only [pad, Lists.contents, List.flatMap_append, List.count_append]
  have := this (n - L.length)
  simp only [Lists.contents] at this
  simp [this]

theorem contents_put [DecidableEq α] {L : Lists α} {x : Nat} (h : L[x]? = some none) (l : List α) (a : α) :
    (Lists.contents (L.set x (some l))).count a = l.count a + (Lists.contents L).count a := by
  have hlt := (List.getElem?_eq_some_iff.mp h).1
  have e := contents_set (List.getElem?_set_self (l := L) (a := some l) hlt) none a
  rw [List.set_set, set_self h] at e
  simp only [Option.getD_none, List.count_nil] at e
  omega

theorem YStep.conserve {cmd : YCmd α} {ev : Event α} {S S' : Mix α} {made dropped leaked : List α}
    (h : YStep cl dp cmd ev S S' made dropped leaked) :
    (cmd.given ++ made ++ S.contents).Perm (dropped ++ ytaken cmd ev ++ S'.contents ++ leaked) := by
  classical
  refine perm_of_count fun a => ?_
  cases h with
  | vec h =>
    have := List.perm_iff_count.mp h.conserve a
    simp only [YCmd.given, ytaken, Mix.contents, List.count_append, contents_pad] at this ⊢
    omega
  | small h =>
    have := List.perm_iff_count.mp h.conserve a
    simp only [YCmd.given, ytaken, Mix.contents, Objs.contents, List.count_append, contents_pad] at this ⊢
    omega
  | @scan _ _ _ _ _ _ l' _ _ h1 h2 h3 h4 h5 h6 =>
    have e1 := List.perm_iff_count.mp h5 a
    have e2 := contents_set h2 (some l') a
    cases cmd <;> simp only [YCmd.scans, reduceCtorEq] at h1
    all_goals
      simp only [YCmd.given, ytaken, Mix.contents, List.count_append, Option.getD_some,
        List.count_nil] at e1 e2 ⊢
      omega
  | @intoVec _ l _ h h' =>
    have e1 := contents_set h none a
    have e2 := contents_put h' l a
    simp only [YCmd.given, ytaken, Mix.contents, Objs.contents, List.count_append, Option.getD_none,
      List.count_nil] at e1 e2 ⊢
    omega
  | intoVecRefused h | intoBoxedRefused h =>
    have e1 := contents_set h none a
    simp only [YCmd.given, ytaken, Mix.contents, Objs.contents, List.count_append, Option.getD_none,
      List.count_nil] at e1 ⊢
    omega
  | @toSmall _ _ l _ h h' =>
    have e1 := contents_set h none a
    have e2 := contents_put h' l a
    simp only [YCmd.given, ytaken, Mix.contents, Objs.contents, List.count_append, Option.getD_none,
      List.count_nil] at e1 e2 ⊢
    omega
  | intoBoxed h =>
    have e1 := contents_set h none a
    simp only [YCmd.given, ytaken, Mix.contents, Objs.contents, List.count_append, Option.getD_none,
      List.count_nil, List.flatMap_cons, Obj.elems] at e1 ⊢
    omega
  | @boxToSmall _ _ m _ O h h' =>
    have e2 := contents_put h' m a
    have e1 := List.perm_iff_count.mp (h.flatMap_right fun o => o.2.elems) a
    simp only [YCmd.given, ytaken, Mix.contents, Objs.contents, List.count_append,
      List.count_nil, List.flatMap_cons, Obj.elems] at e1 e2 ⊢
    omega

theorem YRuns.conserve {h : YHistory α} {S : Mix α} {made dropped leaked : List α}
    (hr : YRuns cl dp h S made dropped leaked) :
    (h.given ++ made).Perm (dropped ++ h.taken ++ S.contents ++ leaked) := by
  classical
  induction hr with
  | start => simp [YHistory.given, YHistory.taken, Mix.contents, Objs.contents, Lists.contents]
  | step _ hs ih =>
    refine perm_of_count fun a => ?_
    have h1 := List.perm_iff_count.mp ih a
    have h2 := List.perm_iff_count.mp hs.conserve a
    simp only [YHistory.given, YHistory.taken, List.flatMap_append, List.flatMap_cons,
      List.flatMap_nil, List.count_append, List.append_nil] at h1 h2 ⊢
    omega

/-! ## Numbers are only added -/

theorem StepP.longer {cmd : Cmd α} {ev : Event α} {L L' : Lists α} {made dropped leaked : List α}
    (h : StepP cl dp cmd ev L L' made dropped leaked) : L.length ≤ L'.length := by
  cases h with
  | step h => cases h <;> simp
  | _ => simp

theorem XStep.longer {cmd : XCmd α} {ev : Event α} {S S' : Objs α} {made dropped leaked : List α}
    (h : XStep cl dp cmd ev S S' made dropped leaked) : S.vecs.length ≤ S'.vecs.length := by
  cases h with
  | call h => exact h.longer
  | _ => simp

theorem SStepP.longer {cmd : SCmd α} {ev : Event α} {L L' : Lists α} {made dropped leaked : List α}
    (h : SStepP cl dp cmd ev L L' made dropped leaked) : L.length ≤ L'.length := by
  cases h with
  | step h => cases h <;> simp
  | _ => simp

end Lokky.Spec

namespace Lokky
open Spec (Event Out XCmd SCmd YCmd Obj Objs Mix pad pad_length pad_get pad_new pad_some pad_self)
variable {α : Type} {c : Cfg α}

/-! ## The memory behind small vectors and vectors -/

/-- The heap vector of a small vector. -/
def SmallH.block (v : SmallH α) : Option VecH :=
  match v.store with
  | .stack _ _ => none
  | .heap h => some h

theorem SmallH.ptr_block {v : SmallH α} {p : Nat} (h : v.ptr = some p) :
    ∃ u, v.block = some u ∧ u.ptr = some p := by
  cases hs : v.store with
  | stack _ _ => simp [SmallH.ptr, hs] at h
  | heap u => exact ⟨u, by simp [SmallH.block, hs], by simpa [SmallH.ptr, hs] using h⟩

theorem SmallH.block_ptr {v : SmallH α} {u : VecH} (h : v.block = some u) : v.ptr = u.ptr := by
  cases hs : v.store with
  | stack _ _ => simp [SmallH.block, hs] at h
  | heap u =>
    simp only [SmallH.block, hs, Option.some.injEq] at h
    simp [SmallH.ptr, hs, h]

theorem SRep.of_block {v : SmallH α} {u : VecH} {w : World α} {l : List α} (h : SRep c v w l)
    (hb : v.block = some u) : Rep c u w l := by
  cases hs : v.store with
  | stack _ _ => simp [SmallH.block, hs] at hb
  | heap u' =>
    simp only [SmallH.block, hs, Option.some.injEq] at hb
    subst hb
    exact h.heap _ hs

theorem SRep.in_world {v : SmallH α} {w w' : World α} {l : List α} (h : SRep c v w l)
    (hb : ∀ u, v.block = some u → Rep c u w' l) : SRep c v w' l :=
  ⟨h.fits, h.stack, fun u hu => hb u (by simp [SmallH.block, hu])⟩

@[simp] theorem block_fromVec (n : Nat) (v : VecH) : (Small.fromVec n v : SmallH α).block = some v := rfl

/-- Everything that holds memory, seen as small vectors. -/
def asSmalls (V : List (Option (SmallH α))) (G : List (Option VecH)) : List (Option (SmallH α)) :=
  List.zipWith (fun s g => s.or (g.map (Small.fromVec 0))) V G

/-- What it shows. -/
def showSmalls (L K : Spec.Lists α) : Spec.Lists α := List.zipWith (fun s k => s.or k) L K

/-- The memory of everything. -/
def blocks (V : List (Option (SmallH α))) : List (Option VecH) := V.map fun s => s.bind SmallH.block

/-- What it shows. -/
def showBlocks (V : List (Option (SmallH α))) (K : Spec.Lists α) : Spec.Lists α :=
  List.zipWith (fun s k => match s.bind SmallH.block with | some _ => k | none => none) V K

/-! ## The invariant -/

/-- The program state `Y` holds what `S` says. -/
structure YInv (c : Cfg α) (Y : YPool α) (S : Mix α) (lost : List Nat) (G : List (Option VecH))
    (K : Spec.Lists α) : Prop where
  x : XInv c (fun x => ∃ s, Y.smalls[x]? = some (some s)) Y.x S.toObjs lost G K
  len : Y.smalls.length = Y.x.pool.vecs.length
  lenS : S.smalls.length = Y.smalls.length
  small : ∀ (x : Nat) s, Y.smalls[x]? = some (some s) → Y.x.pool.vecs[x]? = some none ∧ Y.x.objs x = none ∧
    ∃ l, S.smalls[x]? = some (some l) ∧ SRep c s Y.w l ∧ G[x]? = some s.block ∧
      K[x]? = some (s.block.map fun _ => l)
  gone : ∀ x : Nat, Y.smalls[x]? = some none → S.smalls[x]? = some none

variable {Y : YPool α} {S : Mix α} {lost : List Nat} {G : List (Option VecH)} {K : Spec.Lists α}

theorem YInv.lenG (h : YInv c Y S lost G K) : G.length = Y.smalls.length := by
  rw [h.len, h.x.inv.len]

theorem YInv.lenK (h : YInv c Y S lost G K) : K.length = Y.smalls.length := by
  have := h.x.inv.inv.len
  simp only at this
  rw [← this, h.lenG]

theorem YInv.lenV (h : YInv c Y S lost G K) : S.vecs.length = Y.smalls.length := by
  rw [h.x.inv.lenL, h.lenK]

theorem get_or {β : Type} {l : List (Option β)} {x : Nat} (h : x < l.length) :
    l[x]? = some none ∨ ∃ v, l[x]? = some (some v) := by
  rw [List.getElem?_eq_getElem h]
  cases l[x] with
  | none => exact Or.inl rfl
  | some v => exact Or.inr ⟨v, rfl⟩

theorem asSmalls_here {V : List (Option (SmallH α))} {G : List (Option VecH)} {x : Nat} {s : SmallH α}
    (hx : V[x]? = some (some s)) (hG : x < G.length) : (asSmalls V G)[x]? = some (some s) := by
  simp [asSmalls, List.getElem?_zipWith, hx, List.getElem?_eq_getElem hG]

theorem asSmalls_gone {V : List (Option (SmallH α))} {G : List (Option VecH)} {x : Nat} {g : Option VecH}
    (hx : V[x]? = some none) (hG : G[x]? = some g) :
    (asSmalls V G)[x]? = some (g.map (Small.fromVec 0)) := by
  simp [asSmalls, List.getElem?_zipWith, hx, hG]

theorem showSmalls_here {L K : Spec.Lists α} {x : Nat} {l : List α}
    (hx : L[x]? = some (some l)) (hK : x < K.length) : (showSmalls L K)[x]? = some (some l) := by
  simp [showSmalls, List.getElem?_zipWith, hx, List.getElem?_eq_getElem hK]

theorem showSmalls_gone {L K : Spec.Lists α} {x : Nat}
    (hx : L[x]? = some none) : (showSmalls L K)[x]? = K[x]? := by
  simp only [showSmalls, List.getElem?_zipWith, hx]
  cases K[x]? <;> simp

theorem blocks_get {V : List (Option (SmallH α))} {x : Nat} {s : Option (SmallH α)} (hx : V[x]? = some s) :
    (blocks V)[x]? = some (s.bind SmallH.block) := by
  simp [blocks, hx]

theorem blocks_some {V : List (Option (SmallH α))} {x : Nat} {u : VecH} (hx : (blocks V)[x]? = some (some u)) :
    ∃ s, V[x]? = some (some s) ∧ s.block = some u := by
  simp only [blocks, List.getElem?_map, Option.map_eq_some_iff] at hx
  obtain ⟨s, h1, h2⟩ := hx
  cases s with
  | none => cases h2
  | some s => exact ⟨s, h1, h2⟩

theorem showBlocks_get {V : List (Option (SmallH α))} {K : Spec.Lists α} {x : Nat} {s : SmallH α} {l : List α}
    (hx : V[x]? = some (some s)) (hk : K[x]? = some (some l)) :
    (showBlocks V K)[x]? = some (s.block.map fun _ => l) := by
  simp only [showBlocks, List.getElem?_zipWith, hx, hk, Option.bind_some]
  cases s.block <;> rfl

theorem showBlocks_none {V : List (Option (SmallH α))} {K : Spec.Lists α} {x : Nat}
    (hx : V[x]? = some none) (hk : x < K.length) : (showBlocks V K)[x]? = some none := by
  simp [showBlocks, List.getElem?_zipWith, hx, List.getElem?_eq_getElem hk]

theorem showBlocks_some {V : List (Option (SmallH α))} {K : Spec.Lists α} {x : Nat} {l : List α}
    (hx : (showBlocks V K)[x]? = some (some l)) :
    ∃ s u, V[x]? = some (some s) ∧ s.block = some u ∧ K[x]? = some (some l) := by
  simp only [showBlocks, List.getElem?_zipWith] at hx
  cases hv : V[x]? with
  | none => rw [hv] at hx; cases hx
  | some s =>
    cases hk : K[x]? with
    | none => rw [hv, hk] at hx; cases hx
    | some k =>
      rw [hv, hk] at hx
      simp only [Option.some.injEq] at hx
      cases hb : s.bind SmallH.block with
      | none => rw [hb] at hx; cases hx
      | some u =>
        rw [hb] at hx
        simp only at hx
        subst hx
        cases s with
        | none => cases hb
        | some s => exact ⟨s, u, rfl, hb, rfl⟩

/-- The places of the small vectors that are gone. -/
def gonePlaces (V : List (Option (SmallH α))) : List Nat :=
  (List.range V.length).filter fun x => match V[x]? with | some none => true | _ => false

theorem mem_gonePlaces {V : List (Option (SmallH α))} {x : Nat} :
    x ∈ gonePlaces V ↔ V[x]? = some none := by
  simp only [gonePlaces, List.mem_filter, List.mem_range]
  constructor
  · rintro ⟨_, h⟩
    split at h
    · assumption
    · cases h
  · intro h
    refine ⟨get_lt h, ?_⟩
    rw [h]

/-- Seen from its small vectors, the program is one of those of C120 in which everything else is lost. -/
theorem YInv.toS (h : YInv c Y S lost G K) :
    SGInv c ⟨Y.smalls, Y.w⟩ S.smalls (gonePlaces Y.smalls) (asSmalls Y.smalls G) (showSmalls S.smalls K) := by
  have lG := h.lenG
  have lK := h.lenK
  have lS := h.lenS
  have get : ∀ {x : Nat} {v : SmallH α}, (asSmalls Y.smalls G)[x]? = some (some v) →
      Y.smalls[x]? = some (some v) ∨
        (Y.smalls[x]? = some none ∧ ∃ u, G[x]? = some (some u) ∧ v = Small.fromVec 0 u) := by
    intro x v hx
    have hlt : x < Y.smalls.length := by
      have := get_lt hx
      simp only [asSmalls, List.length_zipWith] at this
      omega
    rcases get_or hlt with hy | ⟨s, hy⟩
    · obtain ⟨g, hg⟩ : ∃ g, G[x]? = some g := ⟨_, List.getElem?_eq_getElem (by omega)⟩
      rw [asSmalls_gone hy hg] at hx
      cases g with
      | none => cases hx
      | some u => exact Or.inr ⟨hy, u, hg, by simpa using hx.symm⟩
    · rw [asSmalls_here hy (by omega)] at hx
      exact Or.inl (by simpa using hy.trans hx)
  have ptr : ∀ {x : Nat} {v : SmallH α} {p : Nat}, (asSmalls Y.smalls G)[x]? = some (some v) →
      v.ptr = some p → ∃ u, G[x]? = some (some u) ∧ u.ptr = some p := by
    intro x v p hx hp
    rcases get hx with hy | ⟨hy, u, hu, rfl⟩
    · obtain ⟨_, _, l, _, _, h1, _⟩ := h.small x v hy
      obtain ⟨u, hu, hp⟩ := SmallH.ptr_block hp
      exact ⟨u, by rw [h1, hu], hp⟩
    · exact ⟨u, hu, hp⟩
  refine ⟨⟨?_, ?_, ?_, ?_, ?_, h.x.inv.inv.wf⟩, ?_, ?_, ?_, h.gone, ?_⟩
  · simp [asSmalls, showSmalls, lG, lK, lS]
  · intro x v hx
    rcases get hx with hy | ⟨hy, u, hu, rfl⟩
    · obtain ⟨_, _, l, h1, h2, _⟩ := h.small x v hy
      exact ⟨l, showSmalls_here h1 (by rw [lK, ← lS]; exact get_lt h1), h2⟩
    · obtain ⟨l, h1, h2⟩ := h.x.inv.inv.rep x u hu
      exact ⟨l, by rw [showSmalls_gone (h.gone x hy)]; exact h1,
        sfromVec_rep (by simp [Cfg.Fits]) h2⟩
  · intro x l hx
    have hlt : x < Y.smalls.length := by
      have := get_lt hx
      simp only [showSmalls, List.length_zipWith] at this
      omega
    rcases get_or hlt with hy | ⟨s, hy⟩
    · rw [showSmalls_gone (h.gone x hy)] at hx
      obtain ⟨u, hu⟩ := h.x.inv.inv.live x l hx
      exact ⟨Small.fromVec 0 u, asSmalls_gone hy hu⟩
    · exact ⟨s, asSmalls_here hy (by omega)⟩
  · intro x y v v' p hx hy hp hp'
    obtain ⟨u, h1, h2⟩ := ptr hx hp
    obtain ⟨u', h3, h4⟩ := ptr hy hp'
    exact h.x.inv.inv.inj x y u u' p h1 h3 h2 h4
  · intro p b hp
    obtain ⟨x, u, hu, hup⟩ := h.x.inv.inv.owned p b hp
    simp only at hu
    rcases get_or (show x < Y.smalls.length by rw [← lG]; exact get_lt hu) with hy | ⟨s, hy⟩
    · exact ⟨x, Small.fromVec 0 u, asSmalls_gone hy hu, hup⟩
    · refine ⟨x, s, asSmalls_here hy (by rw [lG]; exact get_lt hy), ?_⟩
      obtain ⟨_, _, l, _, _, h1, _⟩ := h.small x s hy
      rw [hu] at h1
      rw [SmallH.block_ptr (Option.some.inj h1).symm, hup]
  · simp [asSmalls, lG]
  · simp [showSmalls, lK, lS]
  · intro x v hx
    obtain ⟨_, _, l, h1, _⟩ := h.small x v hx
    exact ⟨asSmalls_here hx (by rw [lG]; exact get_lt hx),
      h1.trans (showSmalls_here h1 (by rw [lK, ← lS]; exact get_lt h1)).symm⟩
  · intro x v hx
    rcases get hx with hy | ⟨hy, _⟩
    · exact Or.inl hy
    · exact Or.inr (mem_gonePlaces.mpr hy)

/-- Small vectors as blocks. -/
theorem SPInv.blocks {V : List (Option (SmallH α))} {w : World α} {K : Spec.Lists α} (h : SPInv c ⟨V, w⟩ K) :
    PInv c ⟨blocks V, w⟩ (showBlocks V K) := by
  refine ⟨?_, ?_, ?_, ?_, ?_, h.wf⟩
  · have := h.len
    simp only at this
    simp [Lokky.blocks, showBlocks, this]
  · intro x u hu
    obtain ⟨s, hs, hb⟩ := blocks_some hu
    obtain ⟨l, h1, h2⟩ := h.rep x s hs
    exact ⟨l, by rw [showBlocks_get hs h1, hb]; rfl, h2.of_block hb⟩
  · intro x l hl
    obtain ⟨s, u, h1, h2, _⟩ := showBlocks_some hl
    exact ⟨u, by rw [blocks_get h1]; exact congrArg some h2⟩
  · intro x y u u' p hx hy hp hp'
    obtain ⟨s, hs, hb⟩ := blocks_some hx
    obtain ⟨s', hs', hb'⟩ := blocks_some hy
    exact h.inj x y s s' p hs hs' (by rw [SmallH.block_ptr hb, hp]) (by rw [SmallH.block_ptr hb', hp'])
  · intro p b hp
    obtain ⟨x, s, hs, hsp⟩ := h.owned p b hp
    obtain ⟨u, hu, hup⟩ := SmallH.ptr_block hsp
    exact ⟨x, u, by rw [blocks_get hs]; exact congrArg some hu, hup⟩

/-- The places of the small vectors that are there. -/
def herePlaces (V : List (Option (SmallH α))) : List Nat :=
  (List.range V.length).filter fun x => match V[x]? with | some (some _) => true | _ => false

theorem mem_herePlaces {V : List (Option (SmallH α))} {x : Nat} :
    x ∈ herePlaces V ↔ ∃ s, V[x]? = some (some s) := by
  simp only [herePlaces, List.mem_filter, List.mem_range]
  constructor
  · rintro ⟨_, h⟩
    split at h
    · rename_i s hs; exact ⟨s, hs⟩
    · cases h
  · rintro ⟨s, h⟩
    refine ⟨get_lt h, ?_⟩
    rw [h]

/-- A call on the small vectors keeps the invariant. -/
theorem YInv.ofS (h : YInv c Y S lost G K) {V' G' : List (Option (SmallH α))} {w' : World α}
    {L' K' : Spec.Lists α} {extra : List Nat}
    (hi : SGInv c ⟨V', w'⟩ L' (gonePlaces Y.smalls ++ extra) G' K')
    (hk : Keeps Y.smalls V' (asSmalls Y.smalls G) G' (showSmalls S.smalls K) K')
    (hn : Y.smalls.length ≤ V'.length) (hc : (∀ a, c.dropPanics a = false) → extra = []) :
    ∃ lost' G'' K'', YInv c ⟨{ Y.x with pool := ⟨pad V'.length Y.x.pool.vecs, w'⟩ }, V'⟩
      ⟨⟨pad L'.length S.vecs, S.objs⟩, L'⟩ lost' G'' K'' := by
  have lG := h.lenG
  have lK := h.lenK
  have lV := h.lenV
  have len := h.len
  have lG' : V'.length = G'.length := hi.len
  have lK' : G'.length = K'.length := hi.inv.len
  have lL' : L'.length = K'.length := hi.lenL
  have keep : ∀ x : Nat, Y.smalls[x]? = some none → V'[x]? = some none ∧ (blocks G')[x]? = G[x]? ∧
      (showBlocks G' K')[x]? = K[x]? := by
    intro x hx
    obtain ⟨k1, k2, k3⟩ := hk x hx
    have hlt := get_lt hx
    rw [showSmalls_gone (h.gone x hx)] at k3
    rcases get_or (show x < G.length by omega) with hg | ⟨u, hg⟩
    · rw [asSmalls_gone hx hg] at k2
      refine ⟨k1, by rw [blocks_get k2, hg]; rfl, ?_⟩
      rw [showBlocks_none k2 (by rw [← lK', ← lG']; omega)]
      rcases get_or (show x < K.length by omega) with hK | ⟨l, hK⟩
      · exact hK.symm
      · obtain ⟨u, hu⟩ := h.x.inv.inv.live x l hK
        simp only at hu
        rw [hg] at hu; cases hu
    · obtain ⟨l, hl, _⟩ := h.x.inv.inv.rep x u hg
      rw [asSmalls_gone hx hg] at k2
      rw [hl] at k3
      exact ⟨k1, by rw [blocks_get k2, hg]; rfl, by rw [showBlocks_get k2 k3, hl]; rfl⟩
  have here : ∀ x : Nat, (∃ s, V'[x]? = some (some s)) → (pad V'.length Y.x.pool.vecs)[x]? = some none ∧
      Y.x.objs x = none := by
    rintro x ⟨s, hs⟩
    by_cases hlt : x < Y.smalls.length
    · rcases get_or hlt with hx | ⟨s', hx⟩
      · have := (keep x hx).1
        rw [hs] at this; cases this
      · obtain ⟨h1, h2, _⟩ := h.small x s' hx
        exact ⟨by rw [pad_get (by omega)]; exact h1, h2⟩
    · refine ⟨pad_new (by omega) (get_lt hs), ?_⟩
      cases ho : Y.x.objs x with
      | none => rfl
      | some o =>
        have := get_lt (h.x.obj x o ho).1
        omega
  have vec : ∀ {x : Nat} {v : VecH}, Y.x.pool.vecs[x]? = some (some v) → Y.smalls[x]? = some none := by
    intro x v hx
    rcases get_or (show x < Y.smalls.length by rw [len]; exact get_lt hx) with hy | ⟨s, hy⟩
    · exact hy
    · have := (h.small x s hy).1
      rw [hx] at this; cases this
  have obj : ∀ {x : Nat} {o : ObjH}, Y.x.objs x = some o → Y.smalls[x]? = some none := by
    intro x o hx
    rcases get_or (show x < Y.smalls.length by rw [len]; exact get_lt (h.x.obj x o hx).1) with hy | ⟨s, hy⟩
    · exact hy
    · have := (h.small x s hy).2.1
      rw [hx] at this; cases this
  refine ⟨lost ++ herePlaces V' ++ extra, blocks G', showBlocks G' K',
    ⟨⟨hi.inv.blocks, ?_, ?_, ?_, ?_, ?_⟩, ?_, h.x.key, h.x.nodup, ?_⟩, ?_, ?_, ?_, hi.gone⟩
  · show (pad V'.length Y.x.pool.vecs).length = _
    rw [pad_length (by omega)]
    simp [blocks, lG']
  · show (pad L'.length S.vecs).length = _
    rw [pad_length (by omega)]
    simp [showBlocks, lL', lK']
  · intro x v hx
    have hx := pad_some.mp hx
    obtain ⟨h1, h2⟩ := h.x.inv.sub x v hx
    obtain ⟨k1, k2, k3⟩ := keep x (vec hx)
    refine ⟨k2.trans h1, ?_⟩
    show (pad L'.length S.vecs)[x]? = _
    rw [pad_get (by have := get_lt hx; omega), k3]
    exact h2
  · intro x hx
    by_cases hlt : x < Y.smalls.length
    · have hx : Y.x.pool.vecs[x]? = some none := by
        rw [← hx]; exact (pad_get (by omega)).symm
      show (pad L'.length S.vecs)[x]? = _
      rw [pad_get (by omega)]
      exact h.x.inv.gone x hx
    · have := get_lt hx
      simp only at this
      rw [pad_length (by omega)] at this
      exact pad_new (by omega) (by omega)
  · intro x u hu
    obtain ⟨s, hs, hb⟩ := blocks_some hu
    rcases hi.extra x s hs with h1 | h1
    · exact Or.inr (by simp [mem_herePlaces.mpr ⟨s, h1⟩])
    · rcases List.mem_append.mp h1 with h1 | h1
      · obtain ⟨_, k2, _⟩ := keep x (mem_gonePlaces.mp h1)
        rw [k2] at hu
        rcases h.x.inv.extra x u hu with h2 | h2
        · exact Or.inl (pad_some.mpr h2)
        · exact Or.inr (by simp [h2])
      · exact Or.inr (by simp [h1])
  · intro x o hx
    obtain ⟨h1, h2, l, h3, h4, h5⟩ := h.x.obj x o hx
    obtain ⟨_, k2, k3⟩ := keep x (obj hx)
    refine ⟨?_, k2.trans h2, l, k3.trans h3, h4, h5⟩
    show (pad V'.length Y.x.pool.vecs)[x]? = _
    rw [pad_get (get_lt h1)]; exact h1
  · intro hd x hx
    rw [hc hd, List.append_nil] at hx
    rcases List.mem_append.mp hx with hx | hx
    · obtain ⟨h1, h2⟩ := h.x.tidy hd x hx
      have hlt := get_lt h1
      refine ⟨by show (pad V'.length Y.x.pool.vecs)[x]? = _; rw [pad_get hlt]; exact h1, ?_⟩
      rcases get_or (show x < Y.smalls.length by omega) with hy | ⟨s, hy⟩
      · obtain ⟨k1, k2, k3⟩ := keep x hy
        rcases h2 with h2 | h2 | ⟨s, h2⟩
        · exact Or.inl h2
        · exact Or.inr (Or.inl (k2.trans h2))
        · rw [hy] at h2; cases h2
      · refine Or.inr ?_
        rcases get_or (show x < G'.length by omega) with hg | ⟨s', hg⟩
        · exact Or.inl (by rw [blocks_get hg]; rfl)
        · rcases hi.extra x s' hg with h3 | h3
          · exact Or.inr ⟨s', h3⟩
          · rw [hc hd, List.append_nil, mem_gonePlaces, hy] at h3
            cases h3
    · obtain ⟨s, hs⟩ := mem_herePlaces.mp hx
      exact ⟨(here x ⟨s, hs⟩).1, Or.inr (Or.inr ⟨s, hs⟩)⟩
  · show V'.length = (pad V'.length Y.x.pool.vecs).length
    rw [pad_length (by omega)]
  · show L'.length = V'.length
    omega
  · intro x s hs
    obtain ⟨h1, h2⟩ := here x ⟨s, hs⟩
    obtain ⟨l, k1, k2, k3⟩ := hi.rep hs
    have k4 := (hi.sub x s hs).1
    exact ⟨h1, h2, l, k1, k3, by rw [blocks_get k4]; rfl, showBlocks_get k4 k2⟩

/-- A call on the vectors, iterators and boxed slices keeps the invariant. -/
theorem YInv.ofX (h : YInv c Y S lost G K) {X' : XPool α} {O : Objs α} {lost' : List Nat}
    {G' : List (Option VecH)} {K' : Spec.Lists α}
    (hi : XInv c (fun x => ∃ s, Y.smalls[x]? = some (some s)) X' O lost' G' K')
    (hk : XKeeps Y.x X' G G' K K') (hn : S.vecs.length ≤ O.vecs.length) :
    YInv c ⟨X', pad X'.pool.vecs.length Y.smalls⟩ ⟨O, pad O.vecs.length S.smalls⟩ lost' G' K' := by
  have lV := h.lenV
  have lS := h.lenS
  have l1 := hi.inv.len
  have l2 := hi.inv.lenL
  have l3 := hi.inv.inv.len
  simp only at l3
  refine ⟨⟨hi.inv, hi.obj, hi.key, hi.nodup, ?_⟩, ?_, ?_, ?_, ?_⟩
  · intro hd x hx
    obtain ⟨h1, h2⟩ := hi.tidy hd x hx
    exact ⟨h1, h2.imp_right (Or.imp_right fun ⟨s, hs⟩ => ⟨s, pad_some.mpr hs⟩)⟩
  · show (pad _ _).length = _
    rw [pad_length (by omega)]
  · show (pad _ _).length = (pad _ _).length
    rw [pad_length (by omega), pad_length (by omega)]
    omega
  · intro x s hs
    have hs := pad_some.mp hs
    obtain ⟨h1, h2, l, h3, h4, h5, h6⟩ := h.small x s hs
    obtain ⟨k1, k2, k3, k4⟩ := hk x h1 h2
    refine ⟨k1, k2, l, pad_some.mpr h3, h4.in_world fun u hu => ?_, k3.trans h5, k4.trans h6⟩
    rw [h5, hu] at k3
    rw [h6, hu] at k4
    obtain ⟨l', h7, h8⟩ := hi.inv.inv.rep x u k3
    rw [k4] at h7
    obtain rfl : l = l' := by simpa using h7
    exact h8
  · intro x hx
    have := get_lt hx
    simp only at this
    rw [pad_length (by omega)] at this
    by_cases hlt : x < Y.smalls.length
    · have hx : Y.smalls[x]? = some none := by rw [← hx]; exact (pad_get hlt).symm
      show (pad _ _)[x]? = _
      rw [pad_get (by omega)]
      exact h.gone x hx
    · exact pad_new (by omega) (by omega)

/-! ## One call -/

/-- A call in a state that holds `S` is allowed by the specification, and the invariant holds again. -/
def YOk (c : Cfg α) (cmd : YCmd α) (S : Mix α) (Y : YPool α) (out : Option (Out α)) (Y' : YPool α) : Prop :=
  ∃ S' made dropped leaked,
    Spec.YStep c.cloneRel c.dropRel cmd ⟨out, Y'.w.refusals != Y.w.refusals⟩ S S' made dropped leaked ∧
    (∃ lost G K, YInv c Y' S' lost G K) ∧ Y'.w.log.drops = Y.w.log.drops ++ dropped

theorem YOk.same {cmd : YCmd α} {out : Option (Out α)} {Y' : YPool α} {S' : Mix α}
    {made dropped leaked : List α} (hr : Y'.w.refusals = Y.w.refusals)
    (he : Spec.YStep c.cloneRel c.dropRel cmd ⟨out, false⟩ S S' made dropped leaked)
    (hi : ∃ lost G K, YInv c Y' S' lost G K)
    (hd : Y'.w.log.drops = Y.w.log.drops ++ dropped) : YOk c cmd S Y out Y' := by
  refine ⟨S', made, dropped, leaked, ?_, hi, hd⟩
  have : (Y'.w.refusals != Y.w.refusals) = false := by simp [hr]
  rw [this]; exact he

theorem YOk.refused {cmd : YCmd α} {out : Option (Out α)} {Y' : YPool α} {S' : Mix α}
    {made dropped leaked : List α} (hr : Y'.w.refusals = Y.w.refusals + 1)
    (he : Spec.YStep c.cloneRel c.dropRel cmd ⟨out, true⟩ S S' made dropped leaked)
    (hi : ∃ lost G K, YInv c Y' S' lost G K)
    (hd : Y'.w.log.drops = Y.w.log.drops ++ dropped) : YOk c cmd S Y out Y' := by
  refine ⟨S', made, dropped, leaked, ?_, hi, hd⟩
  have : (Y'.w.refusals != Y.w.refusals) = true := by simp [hr]
  rw [this]; exact he

theorem onS_sat {β : Type} {m : M (SPool α) β} {Q : β → YPool α → Prop} {E : YPool α → Prop}
    (h : Sat c (m ⟨Y.smalls, Y.w⟩)
      (fun a P => Q a ⟨{ Y.x with pool := ⟨pad P.vecs.length Y.x.pool.vecs, P.w⟩ }, P.vecs⟩)
      (fun P => E ⟨{ Y.x with pool := ⟨pad P.vecs.length Y.x.pool.vecs, P.w⟩ }, P.vecs⟩)) :
    Sat c (onS m Y) Q E := by
  unfold onS
  cases hr : m ⟨Y.smalls, Y.w⟩ <;> rw [hr] at h <;> exact h

theorem onX_sat {β : Type} {m : M (XPool α) β} {Q : β → YPool α → Prop} {E : YPool α → Prop}
    (h : Sat c (m Y.x) (fun a X => Q a ⟨X, pad X.pool.vecs.length Y.smalls⟩)
      (fun X => E ⟨X, pad X.pool.vecs.length Y.smalls⟩)) : Sat c (onX m Y) Q E := by
  unfold onX
  cases hr : m Y.x <;> rw [hr] at h <;> exact h

theorem onAny_refusals {β : Type} {m : M (Buf α) β} {s : SSt α} :
    (∀ a s', Small.onAny c m s = .ok a s' → s'.w.refusals = s.w.refusals) ∧
      ∀ s', Small.onAny c m s = .panic s' → s'.w.refusals = s.w.refusals := by
  unfold Small.onAny Small.onStore
  constructor
  · intro a s' h
    split at h
    · split at h <;> cases h
      rfl
    · split at h <;> cases h
      rename_i hr
      unfold Vec.onBuf at hr
      split at hr <;> cases hr
      simp [St.putHeap]
  · intro s' h
    split at h
    · split at h <;> cases h
      rfl
    · split at h <;> cases h
      rename_i hr
      unfold Vec.onBuf at hr
      split at hr <;> cases hr
      simp [St.putHeap]

theorem pad_eq {β : Type} {n : Nat} {l : List (Option β)} (h : n = l.length) : pad n l = l := by
  subst h; exact pad_self

theorem slostNow_calm {cl : Spec.CloneRel α} {dp : α → Prop} {cmd : SCmd α} {ev : Event α}
    {L L' : Spec.Lists α} {made dropped leaked : List α} (h : Spec.SStepP cl dp cmd ev L L' made dropped leaked)
    (hd : ∀ a, ¬ dp a) : slostNow cmd ev.out = [] := by
  cases h with
  | step h => cases h <;> simp [slostNow, Event.ret]
  | on => simp [slostNow]
  | drop y ys a zs _ _ hp _ => exact absurd hp (hd a)

/-- Changing one small vector. -/
theorem YInv.supdate (h : YInv c Y S lost G K) {x : Nat} {v : SmallH α} (hx : Y.smalls[x]? = some (some v))
    {l' d : List α} {s' : SSt α} (ht : STrans c l' d ⟨v, Y.w⟩ s') :
    ∃ lost G K, YInv c ⟨Y.x.setW s'.w, Y.smalls.set x (some s'.self)⟩
      ⟨S.toObjs, S.smalls.set x (some l')⟩ lost G K := by
  have := h.ofS (extra := []) ((h.toS.update hx ht).more []) (.set hx _ _ _ _ _) (by simp) (fun _ => rfl)
  rw [pad_eq (by simp [h.len]), pad_eq (by rw [List.length_set, h.lenS, h.lenV])] at this
  exact this

/-- Dropping one small vector. -/
theorem YInv.sremove (h : YInv c Y S lost G K) {x : Nat} {v : SmallH α} (hx : Y.smalls[x]? = some (some v))
    (d : List α) :
    ∃ lost G K, YInv c ((Y.setSmall x none).setW ((Y.w.refuse.free v.ptr).addDrops d))
      ⟨S.toObjs, S.smalls.set x none⟩ lost G K := by
  have h1 := (h.toS.clean (.refuse h.x.inv.inv.wf)).remove hx d
  have := h.ofS (extra := []) (h1.more []) (.set hx _ _ _ _ _) (by simp) (fun _ => rfl)
  rw [pad_eq (by simp [h.len]), pad_eq (by rw [List.length_set, h.lenS, h.lenV])] at this
  exact this

theorem smallScan_ok {m : M (Buf α) Unit} {cmd : YCmd α} {x : Nat} {p : Prop} {v : SmallH α}
    (hs : c.size ≠ 0) (hc : cmd.scans = some (x, p)) (h : YInv c Y S lost G K)
    (hx : Y.smalls[x]? = some (some v)) (hm : ∀ l, SScanSafe c p l (Small.onAny c m)) :
    Sat c (onS (onSmalls x (quiet (Small.onAny c m)) .unit) Y) (fun out => YOk c cmd S Y (some out))
      (YOk c cmd S Y none) := by
  obtain ⟨_, _, l, hL, hv, _⟩ := h.small x v hx
  have calm : ∀ {d : List α}, Calm c d → ∀ a ∈ d, ¬ c.dropRel a := by
    intro d hd a ha hp
    rw [Cfg.dropRel, hd a ha] at hp; cases hp
  have e : ∀ {o : Option (SmallH α)} {w}, (⟨{ Y.x with pool := ⟨pad (Y.smalls.set x o).length Y.x.pool.vecs, w⟩ },
      Y.smalls.set x o⟩ : YPool α) = ⟨Y.x.setW w, Y.smalls.set x o⟩ := by
    intro o w
    rw [pad_eq (by simp [h.len])]; rfl
  have key : Sat c (Small.onAny c m ⟨v, Y.w⟩)
      (fun _ s' => YOk c cmd S Y (some .unit) ⟨Y.x.setW s'.w, Y.smalls.set x (some s'.self)⟩)
      (fun s' => YOk c cmd S Y none ⟨Y.x.setW s'.w, Y.smalls.set x (some s'.self)⟩) := by
    have key := hm l ⟨v, Y.w⟩ hv h.x.inv.inv.wf
    obtain ⟨r1, r2⟩ := onAny_refusals (c := c) (m := m) (s := ⟨v, Y.w⟩)
    cases hr : Small.onAny c m ⟨v, Y.w⟩ with
    | ok a s =>
      rw [hr] at key
      obtain ⟨l', d, h1, ⟨h2, h3, lo, h4⟩, h5⟩ := key
      exact YOk.same (r1 a s hr) (.scan hc hL h2 h3 h4 (.ret (calm h5))) (h.supdate hx h1) h1.drops
    | panic s =>
      rw [hr] at key
      obtain ⟨l', d, h1, ⟨h2, h3, lo, h4⟩, h5⟩ := key
      refine YOk.same (r2 s hr) (.scan hc hL h2 h3 h4 ?_) (h.supdate hx h1) h1.drops
      rcases h5 with ⟨d0, a, rfl, h6, h7⟩ | ⟨h6, h7⟩
      · exact .boom (calm h6) h7
      · exact .test (calm h6) h7
    | abort => rw [hr] at key; exact key
    | ub u => rw [hr] at key; exact key
  refine onS_sat (onSmalls_sat (P := ⟨Y.smalls, Y.w⟩) hx ?_)
  simp only [e]
  exact quiet_sat (Q := fun o (s' : SSt α) => YOk c cmd S Y o ⟨Y.x.setW s'.w, Y.smalls.set x (some s'.self)⟩) key

/-! ## Conversions -/

theorem put_same {X : XPool α} {x : Nat} {o : Option ObjH} (h : X.objs x = o) : X.put x o = X := by
  obtain ⟨P, ob⟩ := X
  simp only [XPool.put, XPool.mk.injEq, true_and]
  funext y
  split
  · rename_i e; subst e; exact h.symm
  · rfl

/-- A vector becomes a small vector. -/
theorem YInv.toSmall (h : YInv c Y S lost G K) {x : Nat} {v : VecH} {n : Nat}
    (hx : Y.x.pool.vecs[x]? = some (some v)) (hn : c.Fits n) :
    ∃ l, S.vecs[x]? = some (some l) ∧ S.smalls[x]? = some none ∧
      YInv c ⟨Y.x.setVec x none, Y.smalls.set x (some (Small.fromVec n v))⟩
        ⟨⟨S.vecs.set x none, S.objs⟩, S.smalls.set x (some l)⟩ (lost ++ [x]) G K := by
  obtain ⟨l, hL, hK, hv⟩ := h.x.inv.rep hx
  have hlt : x < Y.smalls.length := by rw [h.len]; exact get_lt hx
  have hs : Y.smalls[x]? = some none := by
    rcases get_or hlt with hy | ⟨s, hy⟩
    · exact hy
    · have := (h.small x s hy).1
      rw [hx] at this; cases this
  have ho : Y.x.objs x = none := by
    cases ho : Y.x.objs x with
    | none => rfl
    | some o => have := (h.x.obj x o ho).1; rw [hx] at this; cases this
  refine ⟨l, hL, h.gone x hs, ⟨h.x.inv.turn hx, ?_, h.x.key, h.x.nodup, ?_⟩, ?_, ?_, ?_, ?_⟩
  · intro y o hy
    obtain ⟨h1, h2⟩ := h.x.obj y o hy
    refine ⟨?_, h2⟩
    show (Y.x.pool.vecs.set x none)[y]? = _
    rw [List.getElem?_set_ne (by rintro rfl; exact nomatch (ho.symm.trans hy : none = some o))]
    exact h1
  · intro hd y hy
    show (Y.x.pool.vecs.set x none)[y]? = _ ∧ (_ ∨ _ ∨ ∃ s, (Y.smalls.set x _)[y]? = _)
    by_cases hyx : x = y
    · subst hyx
      exact ⟨by simp [get_lt hx], Or.inr (Or.inr ⟨_, by rw [List.getElem?_set_self hlt]⟩)⟩
    · rw [List.getElem?_set_ne hyx, List.getElem?_set_ne hyx]
      rcases List.mem_append.mp hy with hy | hy
      · exact h.x.tidy hd y hy
      · exact absurd (List.mem_singleton.mp hy).symm hyx
  · simp [XPool.setVec, h.len]
  · simp [h.lenS]
  · intro y s hy
    rcases set_get hy with ⟨rfl, e, _⟩ | ⟨hne, hy⟩
    · cases e
      exact ⟨by simp [XPool.setVec, get_lt hx], ho, l, by simp [h.lenS, hlt], sfromVec_rep hn hv,
        (h.x.inv.sub x v hx).1, hK⟩
    · obtain ⟨h1, h2, l', h3⟩ := h.small y s hy
      refine ⟨?_, h2, l', ?_⟩
      · show (Y.x.pool.vecs.set x none)[y]? = _
        rw [List.getElem?_set_ne hne]; exact h1
      · rw [List.getElem?_set_ne hne]; exact h3
  · intro y hy
    rcases set_get hy with ⟨rfl, e, _⟩ | ⟨hne, hy⟩
    · cases e
    · show (S.smalls.set x _)[y]? = _
      rw [List.getElem?_set_ne hne]; exact h.gone y hy

/-- A small vector becomes a vector. -/
theorem YInv.toVec (h : YInv c Y S lost G K) {x : Nat} {s : SmallH α} {r : VecH} {l : List α}
    (hx : Y.smalls[x]? = some (some s)) (hb : s.block = some r) (hl : S.smalls[x]? = some (some l)) :
    YInv c ⟨Y.x.setVec x (some r), Y.smalls.set x none⟩
        ⟨⟨S.vecs.set x (some l), S.objs⟩, S.smalls.set x none⟩ (lost.filter (· != x)) G K := by
  obtain ⟨h1, ho, l', h3, h4, h5, h6⟩ := h.small x s hx
  obtain rfl : l = l' := by rw [hl] at h3; simpa using h3
  rw [hb] at h5 h6
  have hlt := get_lt hx
  refine ⟨⟨h.x.inv.back h1 h5 h6, ?_, h.x.key, h.x.nodup, ?_⟩, ?_, ?_, ?_, ?_⟩
  · intro y o hy
    obtain ⟨h1, h2⟩ := h.x.obj y o hy
    refine ⟨?_, h2⟩
    show (Y.x.pool.vecs.set x _)[y]? = _
    rw [List.getElem?_set_ne (by rintro rfl; exact nomatch (ho.symm.trans hy : none = some o))]
    exact h1
  · intro hd y hy
    obtain ⟨hy, hne⟩ := List.mem_filter.mp hy
    have hyx : x ≠ y := by rintro rfl; simp at hne
    show (Y.x.pool.vecs.set x _)[y]? = _ ∧ (_ ∨ _ ∨ ∃ s, (Y.smalls.set x _)[y]? = _)
    rw [List.getElem?_set_ne hyx, List.getElem?_set_ne hyx]
    exact h.x.tidy hd y hy
  · simp [XPool.setVec, h.len]
  · simp [h.lenS]
  · intro y s hy
    rcases set_get hy with ⟨rfl, e, _⟩ | ⟨hne, hy⟩
    · cases e
    · obtain ⟨h1, h2, l', h3⟩ := h.small y s hy
      refine ⟨?_, h2, l', ?_⟩
      · show (Y.x.pool.vecs.set x _)[y]? = _
        rw [List.getElem?_set_ne hne]; exact h1
      · rw [List.getElem?_set_ne hne]; exact h3
  · intro y hy
    show (S.smalls.set x _)[y]? = _
    rcases set_get hy with ⟨rfl, e, _⟩ | ⟨hne, hy⟩
    · simp [h.lenS, hlt]
    · rw [List.getElem?_set_ne hne]; exact h.gone y hy

/-- A boxed slice becomes a small vector. -/
theorem YInv.boxToSmall (h : YInv c Y S lost G K) {x : Nat} {b : Vec.BoxSliceH} {n : Nat}
    (hx : Y.x.objs x = some (.box b)) (hn : c.Fits n) :
    ∃ l O, S.objs.Perm ((x, .box l) :: O) ∧ S.smalls[x]? = some none ∧
      YInv c ⟨Y.x.put x none, Y.smalls.set x (some (Small.ofBoxedSlice n b))⟩
        ⟨⟨S.vecs, O⟩, S.smalls.set x (some l)⟩ lost G K := by
  obtain ⟨h1, h2, l, h3, h4, h5⟩ := h.x.obj x _ hx
  obtain ⟨O, hp, hO, hn'⟩ := h.x.split h5
  obtain ⟨l', e1, hr⟩ := h.x.inv.inv.rep x _ h2
  obtain rfl : l = l' := by rw [h3] at e1; simpa using e1
  have hlt : x < Y.smalls.length := by rw [h.len]; exact get_lt h1
  have hs : Y.smalls[x]? = some none := by
    rcases get_or hlt with hy | ⟨s, hy⟩
    · exact hy
    · have := (h.small x s hy).2.1
      rw [hx] at this; cases this
  refine ⟨l, O, hp, h.gone x hs, ⟨h.x.inv, ?_, ?_, hn', ?_⟩, ?_, ?_, ?_, ?_⟩
  · intro y o hy
    simp only [XPool.put] at hy
    by_cases hyx : y = x
    · rw [if_pos hyx] at hy; cases hy
    · rw [if_neg hyx] at hy
      obtain ⟨k1, k2, m, k3, k4, k5⟩ := h.x.obj y o hy
      exact ⟨k1, k2, m, k3, k4, (hO _ _).mpr ⟨hyx, k5⟩⟩
  · intro y r hy
    obtain ⟨hyx, hy⟩ := (hO y r).mp hy
    simp only [XPool.put]
    rw [if_neg hyx]
    exact h.x.key y r hy
  · intro hd y hy
    show Y.x.pool.vecs[y]? = _ ∧ ((∃ o, (Y.x.put x none).objs y = _) ∨ _ ∨ ∃ s, (Y.smalls.set x _)[y]? = _)
    by_cases hyx : x = y
    · subst hyx
      exact ⟨h1, Or.inr (Or.inr ⟨_, by rw [List.getElem?_set_self hlt]⟩)⟩
    · rw [List.getElem?_set_ne hyx]
      simp only [XPool.put]
      rw [if_neg (Ne.symm hyx)]
      exact h.x.tidy hd y hy
  · simp [XPool.put, h.len]
  · simp [h.lenS]
  · intro y s hy
    rcases set_get hy with ⟨rfl, e, _⟩ | ⟨hne, hy⟩
    · cases e
      exact ⟨h1, by simp [XPool.put], l, by simp [h.lenS, hlt], sfromVec_rep hn hr, h2, h3⟩
    · obtain ⟨k1, k2, l', k3⟩ := h.small y s hy
      refine ⟨k1, by simp only [XPool.put]; rw [if_neg (Ne.symm hne)]; exact k2, l', ?_⟩
      rw [List.getElem?_set_ne hne]; exact k3
  · intro y hy
    rcases set_get hy with ⟨rfl, e, _⟩ | ⟨hne, hy⟩
    · cases e
    · show (S.smalls.set x _)[y]? = _
      rw [List.getElem?_set_ne hne]; exact h.gone y hy

/-- `into_vec` of a small vector. -/
theorem YInv.intoVec (hs : c.size ≠ 0) (h : YInv c Y S lost G K) {x : Nat} {v : SmallH α}
    (hx : Y.smalls[x]? = some (some v)) (hf : c.Fits (Small.lenOf v + Vec.minNonZeroCap c)) :
    ∃ l, S.smalls[x]? = some (some l) ∧ S.vecs[x]? = some none ∧ Small.lenOf v = l.length ∧
      Sat c (Small.intoVec c v Y.w)
        (fun r w => w.refusals = Y.w.refusals ∧ w.log = Y.w.log ∧ ∃ lost G K,
          YInv c ⟨(Y.x.setVec x (some r)).setW w, Y.smalls.set x none⟩
            ⟨⟨S.vecs.set x (some l), S.objs⟩, S.smalls.set x none⟩ lost G K)
        (fun w => w = (Y.w.refuse.free v.ptr).addDrops l) := by
  obtain ⟨h1, ho, l, h3, h4, h5, h6⟩ := h.small x v hx
  have hl : Small.lenOf v = l.length := h4.lenOf
  rw [hl] at hf
  refine ⟨l, h3, h.x.inv.gone x h1, hl, (sintoVec_spec hs h4 h.x.inv.inv.wf hf).mono ?_ fun _ h => h⟩
  intro r w hr
  refine ⟨hr.refusals, hr.log, ?_⟩
  obtain ⟨lost', G', K', hi⟩ := h.supdate hx hr.trans
  have := hi.toVec (x := x) (s := { v with store := .heap r }) (r := r) (l := l)
    (by simp [get_lt hx]) rfl (by simp [get_lt h3])
  simp only [List.set_set] at this
  exact ⟨_, _, _, this⟩

/-! ## All calls -/

theorem YInv.vecCall (h : YInv c Y S lost G K) {cmd : XCmd α} {o : Option (Out α)} {X' : XPool α}
    (hx : XOk c (fun x => ∃ s, Y.smalls[x]? = some (some s)) cmd S.toObjs G K Y.x o X') :
    YOk c (.vec cmd) S Y o ⟨X', pad X'.pool.vecs.length Y.smalls⟩ := by
  obtain ⟨O, made, dropped, leaked, h1, ⟨lost', G', K', h2, h3⟩, h4⟩ := hx
  exact ⟨_, made, dropped, leaked, .vec h1, ⟨_, _, _, h.ofX h2 h3 h1.longer⟩, h4⟩

theorem YInv.smallCall (h : YInv c Y S lost G K) {cmd : SCmd α} {o : Option (Out α)} {P' : SPool α}
    (hx : SCmdOkP c cmd S.smalls (gonePlaces Y.smalls) (asSmalls Y.smalls G) (showSmalls S.smalls K)
      ⟨Y.smalls, Y.w⟩ o P') :
    YOk c (.small cmd) S Y o ⟨{ Y.x with pool := ⟨pad P'.vecs.length Y.x.pool.vecs, P'.w⟩ }, P'.vecs⟩ := by
  obtain ⟨L, made, dropped, leaked, h1, ⟨G', K', h2, h3⟩, h4⟩ := hx
  refine ⟨⟨⟨pad L.length S.vecs, S.objs⟩, L⟩, made, dropped, leaked, .small h1, h.ofS h2 h3 ?_ ?_, h4⟩
  · have e1 := h1.longer
    have e2 := h2.lenL
    have e3 := h2.inv.len
    have e4 := h2.len
    have e5 := h.lenS
    simp only at e3 e4
    omega
  · intro hd
    exact slostNow_calm h1 fun a hp => by rw [Cfg.dropRel, hd a] at hp; cases hp

theorem set_back {β : Type} {l : List (Option β)} {x : Nat} {b : Option β} (h : l[x]? = some none) :
    (l.set x b).set x none = l := by
  rw [List.set_set]
  refine List.ext_getElem? fun y => ?_
  by_cases e : x = y
  · subst e; rw [List.getElem?_set_self (get_lt h), h]
  · rw [List.getElem?_set_ne e]

theorem runY_spec (hs : c.size ≠ 0) (h : YInv c Y S lost G K) (cmd : YCmd α) (hl : cmd.Legal c Y) :
    Sat c (runY c cmd Y) (fun out => YOk c cmd S Y (some out)) (YOk c cmd S Y none) := by
  cases cmd with
  | vec cmd =>
    exact onX_sat ((runX_spec hs h.x cmd hl).mono (fun _ _ h' => h.vecCall h') (fun _ h' => h.vecCall h'))
  | small cmd =>
    exact onS_sat ((runSCmd_panics hs h.toS cmd hl.1 hl.2).mono (fun _ _ h' => h.smallCall h')
      (fun _ h' => h.smallCall h'))
  | retain x f =>
    obtain ⟨v, hx⟩ := hl
    exact smallScan_ok hs rfl h hx fun l => (C121_retain hs f l).2
  | dedupBy x same =>
    obtain ⟨v, hx⟩ := hl
    exact smallScan_ok hs rfl h hx fun l => (C121_dedup_by hs same l).2
  | dedupByKey x key =>
    obtain ⟨v, hx⟩ := hl
    exact smallScan_ok hs rfl h hx fun l => (C121_dedup_by_key hs key l).2
  | intoVec x =>
    obtain ⟨v, hx, hf⟩ := hl
    obtain ⟨l, h1, h2, _, key⟩ := h.intoVec hs hx hf
    unfold runY
    simp only [hx]
    cases hr : Small.intoVec c v Y.w with
    | ok r w =>
      rw [hr] at key
      obtain ⟨k1, k2, k3⟩ := key
      exact YOk.same k1 (.intoVec h1 h2) k3 (by rw [List.append_nil]; exact congrArg Log.drops k2)
    | panic w =>
      rw [hr] at key
      simp only
      show YOk c (.intoVec x) S Y none ((Y.setSmall x none).setW w)
      rw [show w = _ from key]
      exact YOk.refused rfl (.intoVecRefused h1) (h.sremove hx l) rfl
    | abort => rw [hr] at key; exact key
    | ub u => rw [hr] at key; exact key
  | toSmall x n =>
    obtain ⟨⟨v, hx⟩, hn⟩ := hl
    obtain ⟨l, h1, h2, h3⟩ := h.toSmall hx hn
    unfold runY
    simp only [hx]
    exact YOk.same rfl (.toSmall h1 h2) ⟨_, _, _, h3⟩ (List.append_nil _).symm
  | intoBoxed x =>
    obtain ⟨v, hx, hf, hne⟩ := hl
    obtain ⟨l, h1, h2, h0, key⟩ := h.intoVec hs hx hf
    unfold runY
    simp only [hx]
    have hvx := (h.small x v hx).1
    have hlt := get_lt hvx
    cases hr : Small.intoVec c v Y.w with
    | ok r w =>
      rw [hr] at key
      obtain ⟨k1, k2, lost', G', K', k3⟩ := key
      have hb : Small.intoBoxedSlice c v Y.w = Vec.intoBoxedSlice c r w := by
        unfold Small.intoBoxedSlice
        rw [M.bind_ok hr]
      rw [hb]
      have hv : ((Y.x.setVec x (some r)).setW w).pool.vecs[x]? = some (some r) := by
        simp [XPool.setVec, XPool.setW, hlt]
      have hrl : r.len ≠ 0 := by
        obtain ⟨l', e1, _, e2⟩ := k3.x.inv.rep hv
        simp only [List.getElem?_set_self (get_lt h2), Option.some.injEq] at e1
        rw [e2.len, ← e1, ← h0]
        exact hne
      have key := runX_spec hs k3.x (.intoBoxed x) ⟨r, hv, hrl⟩
      simp only [runX, hv, show ((Y.x.setVec x (some r)).setW w).pool.w = w from rfl] at key
      have e : (Y.x.pool.vecs.set x (some r)).set x none = Y.x.pool.vecs := set_back hvx
      have ev : (S.vecs.set x (some l)).set x none = S.vecs := set_back h2
      have ep : pad Y.x.pool.vecs.length (Y.smalls.set x none) = Y.smalls.set x none :=
        pad_eq (by simp [h.len])
      cases hr' : Vec.intoBoxedSlice c r w with
      | ok b w' =>
        rw [hr'] at key
        have := k3.vecCall key
        simp only [XPool.setVec, XPool.setW, XPool.put, e, ep] at this
        obtain ⟨S', made, dropped, leaked, j1, j2, j3⟩ := this
        generalize hg : (w'.refusals != w.refusals) = q at j1
        cases j1 with
        | scan j => cases j
        | vec j1 =>
          cases j1 with
          | scan j => cases j
          | intoBoxed j =>
            simp only [List.getElem?_set_self (get_lt h2), Option.some.injEq] at j
            subst j
            simp only [ev, h.lenV] at j2
            rw [pad_eq (by simp [h.lenS])] at j2
            refine YOk.same (S' := ⟨⟨S.vecs, (x, .box l) :: S.objs⟩, S.smalls.set x none⟩) ?_ (.intoBoxed h1) j2 ?_
            · have : w'.refusals = w.refusals := by simpa using hg
              exact this.trans k1
            · refine j3.trans ?_
              rw [show w.log.drops = Y.w.log.drops from congrArg Log.drops k2]
      | panic w' =>
        rw [hr'] at key
        have := k3.vecCall key
        simp only [XPool.setVec, XPool.setW, e, ep] at this
        obtain ⟨S', made, dropped, leaked, j1, j2, j3⟩ := this
        generalize hg : (w'.refusals != w.refusals) = q at j1
        cases j1 with
        | scan j => cases j
        | vec j1 =>
          cases j1 with
          | scan j => cases j
          | intoBoxedRefused j =>
            simp only [List.getElem?_set_self (get_lt h2), Option.some.injEq] at j
            subst j
            simp only [ev, h.lenV] at j2
            rw [pad_eq (by simp [h.lenS])] at j2
            refine ⟨⟨S.toObjs, S.smalls.set x none⟩, [], l, [], ?_, j2, ?_⟩
            · have : (w'.refusals != Y.w.refusals) = true := by rw [← k1]; exact hg
              show Spec.YStep _ _ _ ⟨none, w'.refusals != Y.w.refusals⟩ _ _ _ _ _
              rw [this]
              exact .intoBoxedRefused h1
            · refine j3.trans ?_
              rw [show w.log.drops = Y.w.log.drops from congrArg Log.drops k2]
      | abort => rw [hr'] at key; exact key
      | ub u => rw [hr'] at key; exact key
    | panic w =>
      rw [hr] at key
      have hb : Small.intoBoxedSlice c v Y.w = .panic w := by
        unfold Small.intoBoxedSlice
        rw [M.bind_panic hr]
      rw [hb]
      simp only
      show YOk c (.intoBoxed x) S Y none ((Y.setSmall x none).setW w)
      rw [show w = _ from key]
      exact YOk.refused rfl (.intoBoxedRefused h1) (h.sremove hx l) rfl
    | abort =>
      rw [hr] at key
      have hb : Small.intoBoxedSlice c v Y.w = .abort := by
        unfold Small.intoBoxedSlice
        simp only [M.bind_apply, hr]
      rw [hb]
      exact key
    | ub u => rw [hr] at key; exact key.elim
  | boxToSmall x n =>
    obtain ⟨⟨b, hx⟩, hn⟩ := hl
    obtain ⟨l, O, h1, h2, h3⟩ := h.boxToSmall hx hn
    unfold runY
    simp only [hx]
    exact YOk.same rfl (.boxToSmall h1 h2) ⟨_, _, _, h3⟩ (List.append_nil _).symm

/-! ## Whole histories -/

theorem YReaches.inv {Y0 : YPool α} {hist : Spec.YHistory α} (hs : c.size ≠ 0) (h0 : Y0.Initial)
    (h : YReaches c Y0 hist Y) :
    ∃ S made leaked, Spec.YRuns c.cloneRel c.dropRel hist S made Y.w.log.drops leaked ∧
      ∃ lost G K, YInv c Y S lost G K := by
  induction h with
  | start =>
    obtain ⟨⟨⟨hv, hh, hd⟩, ho⟩, hsm⟩ := h0
    refine ⟨⟨⟨[], []⟩, []⟩, [], [], by rw [show Y0.w.log.drops = [] from hd]; exact .start, [], [], [], ?_⟩
    refine ⟨⟨⟨?_, by simp [hv], rfl, ?_, ?_, ?_⟩, ?_, ?_, List.nodup_nil, ?_⟩, by simp [hv, hsm],
      by simp [hsm], ?_, ?_⟩
    · have := PInv.initial (c := c) (P := Y0.x.pool) ⟨hv, hh, hd⟩
      have e : Y0.x.pool = ⟨[], Y0.x.pool.w⟩ := by rw [← hv]
      rwa [e] at this
    · intro x v hx; simp [hv] at hx
    · intro x hx; simp [hv] at hx
    · intro x v hx; simp at hx
    · intro x o hx; rw [ho] at hx; cases hx
    · intro x r hx; cases hx
    · intro _ x hx; cases hx
    · intro x s hx; simp [hsm] at hx
    · intro x hx; simp [hsm] at hx
  | @step hist Y cmd ev Y' _ hl he ih =>
    obtain ⟨S, made, leaked, h1, lost, G, K, h2⟩ := ih
    have key := runY_spec hs h2 cmd hl
    cases he with
    | ret hr =>
      rw [hr] at key
      obtain ⟨S', made', dropped', leaked', h3, h4, h5⟩ := key
      exact ⟨S', _, _, by rw [h5]; exact .step h1 h3, h4⟩
    | panic hr =>
      rw [hr] at key
      obtain ⟨S', made', dropped', leaked', h3, h4, h5⟩ := key
      exact ⟨S', _, _, by rw [h5]; exact .step h1 h3, h4⟩

end Lokky
