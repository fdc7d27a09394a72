import Verif.Proofs.HandleClonesGood
import Verif.Proofs.VecZst
import Verif.Props.Handles

/-!
# C144: handles and vectors that vectors clone

`KReaches K co N0 n N`: a client that keeps things `K` (`Rc`, `Urc` and `Weak` handles, or vectors) in vectors and also
clones such vectors, extends them from slices and resizes them, made `n` calls of things, clones and destructors
run by vectors included, and arrived at `N` (Verif/Model/HandleClones.lean).
-/

namespace Lokky
open Spec
variable {α β : Type} {c : Cfg α} {co : Cfg Nat} {n : Nat}

theorem handAt_iff {κ : Type} {H : List (Option κ)} {x : Nat} {k : κ} :
    handAt H x = some k ↔ H[x]? = some (some k) := by
  rw [handAt]
  cases H[x]? with
  | none => simp
  | some o => simp

theorem not_there {κ : Type} {H : List (Option κ)} {x : Nat} (h : isThere H x = false) (k : κ) :
    H[x]? ≠ some (some k) := by
  intro e
  rw [isThere_iff.mpr ⟨k, e⟩] at h
  cases h

/-! ## `Rc` -/

section RcClones
variable {N0 N : Shelf (RcPool α)}

/-- C144 for `Rc` and `Weak`. Every handle that exists, clones made by vectors included, has exactly one owner: the client
holds it, or it is one element of one vector. Every vector shows its elements, and they are handles that exist. -/
theorem C144_rc_owner (hcl : FaithfulClone c) (hso : co.size ≠ 0) (hdo : ∀ a, co.dropPanics a = false)
    (h0 : N0.Initial .start) (h : KReaches (rcClonables c RcCmd.Tame) co N0 n N) (hn : n + 2 ≤ c.usizeMax) :
    (∀ (x : Nat) (v : VecH), N.vecs.vecs[x]? = some (some v) →
      ∃ l, Vec.asSlice co ⟨v, N.vecs.w⟩ = .ok l ⟨v, N.vecs.w⟩) ∧
    (N.held ++ N.kept co).Nodup ∧
    ∀ x, x ∈ N.held ++ N.kept co ↔ ∃ k, N.things.hands[x]? = some (some k) := by
  obtain ⟨L, i⟩ := h.inv (rcClonables_good hcl) ⟨[], rfl, .start⟩ (fun _ => rfl) hso hdo h0 (by omega)
  rw [i.kept_eq hso]
  refine ⟨fun x v hv => ?_, i.nodup, fun x => (i.owned x).trans isThere_iff⟩
  obtain ⟨l, _, e⟩ := i.shows hso hv
  exact ⟨l, e⟩

/-- C144 for `Rc` and `Weak`. The handles are in a state that a client who keeps and clones them without vectors also
reaches, with as many calls, so what is proved of those programs (C51 to C58) holds. -/
theorem C144_rc_history (hcl : FaithfulClone c) (hso : co.size ≠ 0) (hdo : ∀ a, co.dropPanics a = false)
    (h0 : N0.Initial .start) (h : KReaches (rcClonables c RcCmd.Tame) co N0 n N) (hn : n + 2 ≤ c.usizeMax) :
    ∃ hist, hist.length = n ∧ RcReaches c RcCmd.Tame hist N.things := by
  obtain ⟨L, i⟩ := h.inv (rcClonables_good hcl) ⟨[], rfl, .start⟩ (fun _ => rfl) hso hdo h0 (by omega)
  exact i.good

/-- C144 for `Rc` and `Weak`. Every permitted call of a vector returns or panics. -/
theorem C144_rc_safe (hcl : FaithfulClone c) (hso : co.size ≠ 0) (hdo : ∀ a, co.dropPanics a = false)
    (h0 : N0.Initial .start) (h : KReaches (rcClonables c RcCmd.Tame) co N0 n N) (hn : n + 2 ≤ c.usizeMax)
    {cmd : Spec.Cmd Nat} {rest : List Nat} (hm : N.May (rcClonables c RcCmd.Tame) co cmd rest) :
    (∃ ev O', N.Calls (rcClonables c RcCmd.Tame) co cmd ev O') ∧
    ∀ u, runCmd ((rcClonables c RcCmd.Tame).during co (N.sources co cmd) N.things N.vecs.w.log.calls) cmd N.vecs ≠
      .ub u := by
  obtain ⟨L, i⟩ := h.inv (rcClonables_good hcl) ⟨[], rfl, .start⟩ (fun _ => rfl) hso hdo h0 (by omega)
  exact i.calls hso hdo hm

/-- C144 for `Rc` and `Weak`. What a permitted call of a vector does. Its clones and the destructors of what it drops all
find their handle and return. The vectors change as the specification of vectors says, where a clone is a new handle
of the same kind to the same value as its source, and no clone panics. Every handle that was there is
still the same until a destructor takes it, and the others stay. -/
theorem C144_rc_calls (hcl : FaithfulClone c) (hso : co.size ≠ 0) (hdo : ∀ a, co.dropPanics a = false)
    (h0 : N0.Initial .start) (h : KReaches (rcClonables c RcCmd.Tame) co N0 n N)
    {cmd : Spec.Cmd Nat} {rest : List Nat} (hm : N.May (rcClonables c RcCmd.Tame) co cmd rest)
    {ev : Spec.Event Nat} {O' : Pool Nat} (he : N.Calls (rcClonables c RcCmd.Tame) co cmd ev O')
    (hn : n + (N.sources co cmd).length + 2 ≤ c.usizeMax)
    (hb : n + (N.cloned co cmd O').length + (droppedBy N.vecs O').length + 2 ≤ c.usizeMax) :
    ∃ P1 P' made, (rcClonables c RcCmd.Tame).afterClones (N.cloned co cmd O') N.things = some P1 ∧
      (rcClonables c RcCmd.Tame).dropEach (droppedBy N.vecs O') P1 = .ok () P' ∧
      Spec.Step (fun a r => match r with
          | some y => (∀ k, N.things.hands[y]? ≠ some (some k)) ∧
              ∃ k, N.things.hands[a]? = some (some k) ∧ P1.hands[y]? = some (some k)
          | none => False) cmd ev (N.vecs.lists co) (O'.lists co) made (droppedBy N.vecs O') ∧
      made.Nodup ∧
      (∀ (y : Nat) k, N.things.hands[y]? = some (some k) → P1.hands[y]? = some (some k)) ∧
      (∀ (y : Nat) k, P1.hands[y]? = some (some k) → N.things.hands[y]? = some (some k) ∨ y ∈ made) ∧
      ∀ (y : Nat) k, P'.hands[y]? = some (some k) ↔ P1.hands[y]? = some (some k) ∧ y ∉ droppedBy N.vecs O' := by
  obtain ⟨L, i⟩ := h.inv (rcClonables_good hcl) ⟨[], rfl, .start⟩ (fun _ => rfl) hso hdo h0 (by omega)
  obtain ⟨P1, P', made, a1, a2, a3, a4, a5, a6, a7⟩ := i.does
    (cl := fun P1 a r => match r with
          | some y => (∀ k, N.things.hands[y]? ≠ some (some k)) ∧
              ∃ k, N.things.hands[a]? = some (some k) ∧ P1.hands[y]? = some (some k)
          | none => False) (rcClonables_good hcl) hso hdo (by omega) (fun _ => by omega) hm he
    (fun s1 a y h1 h2 h3 => by
      obtain ⟨k, hk⟩ := isThere_iff.mp h2
      exact ⟨not_there h1, k, handAt_iff.mp (h3.symm.trans (handAt_iff.mpr hk)), hk⟩)
    (fun _ _ h => h)
  refine ⟨P1, P', made, a1, a2, a3, a4, fun y k hy => ?_, fun y k hy => ?_, fun y k => ⟨fun hy => ?_, fun ⟨hy, hd⟩ => ?_⟩⟩
  · exact handAt_iff.mp ((a5 y (isThere_iff.mpr ⟨k, hy⟩)).2.trans (handAt_iff.mpr hy))
  · rcases (a6 y).mp (isThere_iff.mpr ⟨k, hy⟩) with h | h
    · exact .inl (handAt_iff.mp ((a5 y h).2.symm.trans (handAt_iff.mpr hy)))
    · exact .inr h
  · have ht := isThere_iff.mpr ⟨k, hy⟩
    exact ⟨handAt_iff.mp (((a7 y).2 ht).symm.trans (handAt_iff.mpr hy)), ((a7 y).1.mp ht).2⟩
  · have ht := (a7 y).1.mpr ⟨isThere_iff.mpr ⟨k, hy⟩, hd⟩
    exact handAt_iff.mp (((a7 y).2 ht).trans (handAt_iff.mpr hy))

/-- C144 for `Rc` and `Weak`: `clone` of a vector of handles. It returns a vector whose `i`-th element is a new handle of the
same kind to the same value as the `i`-th element of the original, the vectors that were there and their handles stay as
they are; or memory is refused, it panics, and nothing changed. -/
theorem C144_rc_clone (hcl : FaithfulClone c) (hso : co.size ≠ 0) (hdo : ∀ a, co.dropPanics a = false)
    (h0 : N0.Initial .start) (h : KReaches (rcClonables c RcCmd.Tame) co N0 n N)
    {x : Nat} {l rest : List Nat} (hm : N.May (rcClonables c RcCmd.Tame) co (.clone x) rest)
    (hx : (N.vecs.lists co)[x]? = some (some l)) (hn : n + l.length + 2 ≤ c.usizeMax)
    {ev : Spec.Event Nat} {O' : Pool Nat} (he : N.Calls (rcClonables c RcCmd.Tame) co (.clone x) ev O')
    (hb : n + (N.cloned co (.clone x) O').length + (droppedBy N.vecs O').length + 2 ≤ c.usizeMax) :
    ∃ P', (rcClonables c RcCmd.Tame).afterClones (N.cloned co (.clone x) O') N.things = some P' ∧
      (∀ (y : Nat) k, N.things.hands[y]? = some (some k) → P'.hands[y]? = some (some k)) ∧
      ((ev = .ret .unit ∧ ∃ l', O'.lists co = N.vecs.lists co ++ [some l'] ∧ l'.length = l.length ∧ l'.Nodup ∧
          ∀ (i a b : Nat), l[i]? = some a → l'[i]? = some b → (∀ k, N.things.hands[b]? ≠ some (some k)) ∧
            ∃ k, N.things.hands[a]? = some (some k) ∧ P'.hands[b]? = some (some k)) ∨
        (ev = .refuse ∧ O'.lists co = N.vecs.lists co ∧
          ∀ (y : Nat) k, P'.hands[y]? = some (some k) → N.things.hands[y]? = some (some k))) := by
  have hsrc : N.sources co (.clone x) = l := by simp only [Shelf.sources, Spec.Cmd.sources, hx]
  obtain ⟨P1, P', made, a1, -, a3, a4, a5, a6, -⟩ := C144_rc_calls hcl hso hdo h0 h hm he (by rw [hsrc]; omega) hb
  refine ⟨P1, a1, a5, ?_⟩
  generalize droppedBy N.vecs O' = dr at a3
  generalize hO : O'.lists co = L' at a3 ⊢
  generalize hL : N.vecs.lists co = L at a3 hx ⊢
  cases a3 with
  | clone _ l1 ys _ hL1 hcs =>
    rw [hx] at hL1
    cases hL1
    refine .inl ⟨rfl, made, rfl, hcs.length.symm, a4, fun i a b ha hb => ?_⟩
    exact hcs.get i ha hb
  | cloneRefused =>
    refine .inr ⟨rfl, rfl, fun y k hy => (a6 y k hy).resolve_right (by simp)⟩
  | clonePanic _ pre a post ys _ hL1 hcs hno => exact hno.elim

/-- C144 for `Rc` and `Weak`. `weak_count` of a value is the number of its `Weak` handles among those the client holds and
those in vectors, clones included. -/
theorem C144_rc_weak_count (hcl : FaithfulClone c) (hso : co.size ≠ 0) (hdo : ∀ a, co.dropPanics a = false)
    (h0 : N0.Initial .start) (h : KReaches (rcClonables c RcCmd.Tame) co N0 n N) (hn : n + 2 ≤ c.usizeMax)
    {i p : Nat} (hk : N.things.hands[i]? = some (some (.rc p)) ∨ N.things.hands[i]? = some (some (.weak (some p)))) :
    runRc c (.weakCount i) N.things = .ok (.nat ((N.held ++ N.kept co).countP fun x =>
      N.things.hands[x]?.getD none == some (.weak (some p)))) N.things := by
  obtain ⟨hist, e, hr⟩ := C144_rc_history hcl hso hdo h0 h hn
  obtain ⟨_, nd, ow⟩ := C144_rc_owner hcl hso hdo h0 h hn
  rw [C55_weak_exact (hr.weaken fun _ _ h => h.1) (by omega) hk, Spec.Hands.weaks, List.count,
    countP_owned nd (fun x => (ow x).trans isThere_iff.symm) rfl]

/-- C144 for `Rc` and `Weak`. `strong_count` of a value is the number of its `Rc` handles among those the client holds and
those in vectors, clones included, or one more (if the value once had no `Rc` handle, C55). -/
theorem C144_rc_strong_count (hcl : FaithfulClone c) (hso : co.size ≠ 0) (hdo : ∀ a, co.dropPanics a = false)
    (h0 : N0.Initial .start) (h : KReaches (rcClonables c RcCmd.Tame) co N0 n N) (hn : n + 2 ≤ c.usizeMax)
    {i p : Nat} (hk : N.things.hands[i]? = some (some (.rc p)) ∨ N.things.hands[i]? = some (some (.weak (some p)))) :
    ∃ k ≤ 1, runRc c (.strongCount i) N.things = .ok (.nat ((N.held ++ N.kept co).countP (fun x =>
      N.things.hands[x]?.getD none == some (.rc p)) + k)) N.things := by
  obtain ⟨hist, e, hr⟩ := C144_rc_history hcl hso hdo h0 h hn
  obtain ⟨_, nd, ow⟩ := C144_rc_owner hcl hso hdo h0 h hn
  have ec : N.things.hands.rcs p = (N.held ++ N.kept co).countP fun x =>
      N.things.hands[x]?.getD none == some (.rc p) := by
    rw [Spec.Hands.rcs, List.count, countP_owned nd (fun x => (ow x).trans isThere_iff.symm) rfl]
  obtain ⟨S, ob, _, _, _, h1, h2⟩ := C55_strong_partial hr hcl (by omega) hk
  rw [ec] at h1 h2
  cases eo : ob.orphan with
  | false => exact ⟨0, by omega, h1 eo⟩
  | true => exact ⟨1, by omega, h2 eo⟩

/-- C144 for `Rc` and `Weak`. Once the vectors are dropped and the client holds no handle, no handle exists, and the vectors
left no memory behind. -/
theorem C144_rc_end (hcl : FaithfulClone c) (hso : co.size ≠ 0) (hdo : ∀ a, co.dropPanics a = false)
    (h0 : N0.Initial .start) (h : KReaches (rcClonables c RcCmd.Tame) co N0 n N) (hn : n + 2 ≤ c.usizeMax)
    (hheld : N.held = []) (hv : ∀ x, ¬ N.vecs.Alive x) :
    (∀ (x : Nat) k, N.things.hands[x]? ≠ some (some k)) ∧ ∀ p, N.vecs.w.heap p = none := by
  obtain ⟨L, i⟩ := h.inv (rcClonables_good hcl) ⟨[], rfl, .start⟩ (fun _ => rfl) hso hdo h0 (by omega)
  obtain ⟨a, b⟩ := i.gone hheld hv
  exact ⟨fun x k => not_there (a x) k, b⟩

end RcClones

/-! ## `Urc` -/

section UrcClones
variable {N0 N : Shelf (UrcPool α)}

/-- C144 for `Urc` and `Weak`. Every handle that exists, clones made by vectors included, has exactly one owner: the client
holds it, or it is one element of one vector. Every vector shows its elements, and they are handles that exist. -/
theorem C144_urc_owner (hso : co.size ≠ 0) (hdo : ∀ a, co.dropPanics a = false)
    (h0 : N0.Initial .start) (h : KReaches (urcClonables c (UrcCmd.Permitted c)) co N0 n N) (hn : n ≤ c.usizeMax) :
    (∀ (x : Nat) (v : VecH), N.vecs.vecs[x]? = some (some v) →
      ∃ l, Vec.asSlice co ⟨v, N.vecs.w⟩ = .ok l ⟨v, N.vecs.w⟩) ∧
    (N.held ++ N.kept co).Nodup ∧
    ∀ x, x ∈ N.held ++ N.kept co ↔ ∃ k, N.things.hands[x]? = some (some k) := by
  obtain ⟨L, i⟩ := h.inv urcClonables_good ⟨[], rfl, .start⟩ (fun _ => rfl) hso hdo h0 hn
  rw [i.kept_eq hso]
  refine ⟨fun x v hv => ?_, i.nodup, fun x => (i.owned x).trans isThere_iff⟩
  obtain ⟨l, _, e⟩ := i.shows hso hv
  exact ⟨l, e⟩

/-- C144 for `Urc` and `Weak`. The handles are in a state that a client who keeps and clones them without vectors also
reaches, with as many calls, so what is proved of those programs (C67 to C73) holds. -/
theorem C144_urc_history (hso : co.size ≠ 0) (hdo : ∀ a, co.dropPanics a = false)
    (h0 : N0.Initial .start) (h : KReaches (urcClonables c (UrcCmd.Permitted c)) co N0 n N) (hn : n ≤ c.usizeMax) :
    ∃ hist, hist.length = n ∧ UrcReaches c (UrcCmd.Permitted c) hist N.things := by
  obtain ⟨L, i⟩ := h.inv urcClonables_good ⟨[], rfl, .start⟩ (fun _ => rfl) hso hdo h0 hn
  exact i.good

/-- C144 for `Urc` and `Weak`. Every permitted call of a vector returns or panics. -/
theorem C144_urc_safe (hso : co.size ≠ 0) (hdo : ∀ a, co.dropPanics a = false)
    (h0 : N0.Initial .start) (h : KReaches (urcClonables c (UrcCmd.Permitted c)) co N0 n N) (hn : n ≤ c.usizeMax)
    {cmd : Spec.Cmd Nat} {rest : List Nat} (hm : N.May (urcClonables c (UrcCmd.Permitted c)) co cmd rest) :
    (∃ ev O', N.Calls (urcClonables c (UrcCmd.Permitted c)) co cmd ev O') ∧
    ∀ u, runCmd ((urcClonables c (UrcCmd.Permitted c)).during co (N.sources co cmd) N.things N.vecs.w.log.calls) cmd
      N.vecs ≠ .ub u := by
  obtain ⟨L, i⟩ := h.inv urcClonables_good ⟨[], rfl, .start⟩ (fun _ => rfl) hso hdo h0 hn
  exact i.calls hso hdo hm

/-- C144 for `Urc` and `Weak`. What a permitted call of a vector does. Its clones and the destructors of what it drops all
find their handle and return. The vectors change as the specification of vectors says, where a clone is a new handle
behind the same fence as its source, and no clone panics. Every handle that was there is still the same until a
destructor takes it, and the others stay. -/
theorem C144_urc_calls (hso : co.size ≠ 0) (hdo : ∀ a, co.dropPanics a = false)
    (h0 : N0.Initial .start) (h : KReaches (urcClonables c (UrcCmd.Permitted c)) co N0 n N)
    {cmd : Spec.Cmd Nat} {rest : List Nat} (hm : N.May (urcClonables c (UrcCmd.Permitted c)) co cmd rest)
    {ev : Spec.Event Nat} {O' : Pool Nat} (he : N.Calls (urcClonables c (UrcCmd.Permitted c)) co cmd ev O')
    (hn : n + (N.sources co cmd).length ≤ c.usizeMax)
    (hb : n + (N.cloned co cmd O').length + (droppedBy N.vecs O').length ≤ c.usizeMax) :
    ∃ P1 P' made, (urcClonables c (UrcCmd.Permitted c)).afterClones (N.cloned co cmd O') N.things = some P1 ∧
      (urcClonables c (UrcCmd.Permitted c)).dropEach (droppedBy N.vecs O') P1 = .ok () P' ∧
      Spec.Step (fun a r => match r with
          | some y => (∀ k, N.things.hands[y]? ≠ some (some k)) ∧
              ∃ k, N.things.hands[a]? = some (some k) ∧ P1.hands[y]? = some (some k)
          | none => False) cmd ev (N.vecs.lists co) (O'.lists co) made (droppedBy N.vecs O') ∧
      made.Nodup ∧
      (∀ (y : Nat) k, N.things.hands[y]? = some (some k) → P1.hands[y]? = some (some k)) ∧
      (∀ (y : Nat) k, P1.hands[y]? = some (some k) → N.things.hands[y]? = some (some k) ∨ y ∈ made) ∧
      ∀ (y : Nat) k, P'.hands[y]? = some (some k) ↔ P1.hands[y]? = some (some k) ∧ y ∉ droppedBy N.vecs O' := by
  obtain ⟨L, i⟩ := h.inv urcClonables_good ⟨[], rfl, .start⟩ (fun _ => rfl) hso hdo h0 (by omega)
  obtain ⟨P1, P', made, a1, a2, a3, a4, a5, a6, a7⟩ := i.does
    (cl := fun P1 a r => match r with
          | some y => (∀ k, N.things.hands[y]? ≠ some (some k)) ∧
              ∃ k, N.things.hands[a]? = some (some k) ∧ P1.hands[y]? = some (some k)
          | none => False) urcClonables_good hso hdo hb (fun _ => hn) hm he
    (fun s1 a y h1 h2 h3 => by
      obtain ⟨k, hk⟩ := isThere_iff.mp h2
      exact ⟨not_there h1, k, handAt_iff.mp (h3.symm.trans (handAt_iff.mpr hk)), hk⟩)
    (fun _ _ h => h)
  refine ⟨P1, P', made, a1, a2, a3, a4, fun y k hy => ?_, fun y k hy => ?_, fun y k => ⟨fun hy => ?_, fun ⟨hy, hd⟩ => ?_⟩⟩
  · exact handAt_iff.mp ((a5 y (isThere_iff.mpr ⟨k, hy⟩)).2.trans (handAt_iff.mpr hy))
  · rcases (a6 y).mp (isThere_iff.mpr ⟨k, hy⟩) with h | h
    · exact .inl (handAt_iff.mp ((a5 y h).2.symm.trans (handAt_iff.mpr hy)))
    · exact .inr h
  · have ht := isThere_iff.mpr ⟨k, hy⟩
    exact ⟨handAt_iff.mp (((a7 y).2 ht).symm.trans (handAt_iff.mpr hy)), ((a7 y).1.mp ht).2⟩
  · have ht := (a7 y).1.mpr ⟨isThere_iff.mpr ⟨k, hy⟩, hd⟩
    exact handAt_iff.mp (((a7 y).2 ht).trans (handAt_iff.mpr hy))

/-- C144 for `Urc` and `Weak`. `fence_strong_count` is the number of `Urc` handles of the fence among those the client holds
and those in vectors, clones included. -/
theorem C144_urc_strong_count (hso : co.size ≠ 0) (hdo : ∀ a, co.dropPanics a = false)
    (h0 : N0.Initial .start) (h : KReaches (urcClonables c (UrcCmd.Permitted c)) co N0 n N) (hn : n ≤ c.usizeMax)
    {i f : Nat} (hk : N.things.hands[i]? = some (some (.urc f))) :
    runUrc c (.strongCount i) N.things = .ok (.nat ((N.held ++ N.kept co).countP fun x =>
      (N.things.hands[x]?.getD none).any (· == .urc f))) N.things := by
  obtain ⟨hist, e, hr⟩ := C144_urc_history hso hdo h0 h hn
  obtain ⟨_, nd, ow⟩ := C144_urc_owner hso hdo h0 h hn
  rw [C73_strong hr (by omega) hk, UrcPool.many,
    countP_owned nd (fun x => (ow x).trans isThere_iff.symm) rfl]

/-- C144 for `Urc` and `Weak`. Once the vectors are dropped and the client holds no handle, no handle exists, and the vectors
left no memory behind. -/
theorem C144_urc_end (hso : co.size ≠ 0) (hdo : ∀ a, co.dropPanics a = false)
    (h0 : N0.Initial .start) (h : KReaches (urcClonables c (UrcCmd.Permitted c)) co N0 n N) (hn : n ≤ c.usizeMax)
    (hheld : N.held = []) (hv : ∀ x, ¬ N.vecs.Alive x) :
    (∀ (x : Nat) k, N.things.hands[x]? ≠ some (some k)) ∧ ∀ p, N.vecs.w.heap p = none := by
  obtain ⟨L, i⟩ := h.inv urcClonables_good ⟨[], rfl, .start⟩ (fun _ => rfl) hso hdo h0 hn
  obtain ⟨a, b⟩ := i.gone hheld hv
  exact ⟨fun x k => not_there (a x) k, b⟩

end UrcClones

/-! ## `Vec` -/

section VecClones
variable {P0 : Pool α} {N0 N : Shelf (Pool α)}

theorem Pool.Initial.none_alive (h : P0.Initial) (x : Nat) : P0.alive x = false := by
  cases e : P0.alive x with
  | false => rfl
  | true =>
    obtain ⟨v, hv⟩ := Pool.alive_iff.mp e
    rw [h.1] at hv
    simp at hv

/-- C144 for vectors of vectors. Every inner vector that exists, clones included, has exactly one owner: the client holds it,
or it is one element of one outer vector, whatever clones panicked. -/
theorem C144_vec_owner (hs : c.size ≠ 0) (hd : ∀ a, c.dropPanics a = false) (hi : P0.Initial) (hso : co.size ≠ 0)
    (hdo : ∀ a, co.dropPanics a = false) (h0 : N0.Initial P0) (h : KReaches (vecClonables c) co N0 n N) :
    (∀ (x : Nat) (v : VecH), N.vecs.vecs[x]? = some (some v) →
      ∃ l, Vec.asSlice co ⟨v, N.vecs.w⟩ = .ok l ⟨v, N.vecs.w⟩) ∧
    (N.held ++ N.kept co).Nodup ∧
    ∀ x, x ∈ N.held ++ N.kept co ↔ N.things.Alive x := by
  obtain ⟨L, i⟩ := h.inv (vecClonables_good hs hd hi (f := fun _ => ()) (fun _ _ _ => rfl) n) ⟨[], rfl, .start⟩
    hi.none_alive hso hdo h0 (Nat.le_refl _)
  rw [i.kept_eq hso]
  refine ⟨fun x v hv => ?_, i.nodup, fun x => (i.owned x).trans Pool.alive_iff⟩
  obtain ⟨l, _, e⟩ := i.shows hso hv
  exact ⟨l, e⟩

/-- C144 for vectors of vectors. The inner vectors are in a state that a client who keeps and clones them without outer
vectors also reaches, with as many calls, so what is proved of those programs (C01 to C04) holds. -/
theorem C144_vec_history (hs : c.size ≠ 0) (hd : ∀ a, c.dropPanics a = false) (hi : P0.Initial) (hso : co.size ≠ 0)
    (hdo : ∀ a, co.dropPanics a = false) (h0 : N0.Initial P0) (h : KReaches (vecClonables c) co N0 n N) :
    ∃ hist : Spec.History α, hist.length = n ∧ Reaches c P0 hist N.things := by
  obtain ⟨L, i⟩ := h.inv (vecClonables_good hs hd hi (f := fun _ => ()) (fun _ _ _ => rfl) n) ⟨[], rfl, .start⟩
    hi.none_alive hso hdo h0 (Nat.le_refl _)
  exact i.good

/-- C144 for vectors of vectors. Every permitted call of an outer vector returns or panics. -/
theorem C144_vec_safe (hs : c.size ≠ 0) (hd : ∀ a, c.dropPanics a = false) (hi : P0.Initial) (hso : co.size ≠ 0)
    (hdo : ∀ a, co.dropPanics a = false) (h0 : N0.Initial P0) (h : KReaches (vecClonables c) co N0 n N)
    {cmd : Spec.Cmd Nat} {rest : List Nat} (hm : N.May (vecClonables c) co cmd rest) :
    (∃ ev O', N.Calls (vecClonables c) co cmd ev O') ∧
    ∀ u, runCmd ((vecClonables c).during co (N.sources co cmd) N.things N.vecs.w.log.calls) cmd N.vecs ≠ .ub u := by
  obtain ⟨L, i⟩ := h.inv (vecClonables_good hs hd hi (f := fun _ => ()) (fun _ _ _ => rfl) n) ⟨[], rfl, .start⟩
    hi.none_alive hso hdo h0 (Nat.le_refl _)
  exact i.calls hso hdo hm

/-- C144 for vectors of vectors. What a permitted call of an outer vector does. Its clones and the destructors of what it
drops all find their vector. The outer vectors change as the specification of vectors says, where a clone is a
new vector that agrees with its source in all that clones of elements preserve (`f`: the length in any case, the
contents if clones of elements equal them). Every inner vector that was there shows the same until a destructor takes
it, and the others stay. -/
theorem C144_vec_calls (hs : c.size ≠ 0) (hd : ∀ a, c.dropPanics a = false) (hi : P0.Initial) (hso : co.size ≠ 0)
    (hdo : ∀ a, co.dropPanics a = false) (h0 : N0.Initial P0) (h : KReaches (vecClonables c) co N0 n N)
    {f : List α → β} (hf : ∀ l ys, Spec.Clones c.cloneRel l ys → f ys = f l)
    {cmd : Spec.Cmd Nat} {rest : List Nat} (hm : N.May (vecClonables c) co cmd rest)
    {ev : Spec.Event Nat} {O' : Pool Nat} (he : N.Calls (vecClonables c) co cmd ev O') :
    ∃ P1 P' made, (vecClonables c).afterClones (N.cloned co cmd O') N.things = some P1 ∧
      (vecClonables c).dropEach (droppedBy N.vecs O') P1 = .ok () P' ∧
      Spec.Step (fun a r => match r with
          | some y => ¬ N.things.Alive y ∧ P1.Alive y ∧ (listAt c P1 y).map f = (listAt c N.things a).map f
          | none => True) cmd ev (N.vecs.lists co) (O'.lists co) made (droppedBy N.vecs O') ∧
      made.Nodup ∧
      (∀ y, N.things.Alive y → P1.Alive y ∧ (listAt c P1 y).map f = (listAt c N.things y).map f) ∧
      (∀ y, P1.Alive y ↔ N.things.Alive y ∨ y ∈ made) ∧
      ∀ y, (P'.Alive y ↔ P1.Alive y ∧ y ∉ droppedBy N.vecs O') ∧
        (P'.Alive y → (listAt c P' y).map f = (listAt c P1 y).map f) := by
  have g := vecClonables_good hs hd hi (f := fun o : Option (List α) => o.map f)
    (fun l ys h => by simp [hf l ys h]) (n + (N.cloned co cmd O').length + (droppedBy N.vecs O').length)
  obtain ⟨L, i⟩ := h.inv g ⟨[], rfl, .start⟩ hi.none_alive hso hdo h0 (by omega)
  have na : ∀ {P : Pool α} {y : Nat}, P.alive y = false → ¬ P.Alive y := fun h h' => by
    rw [Pool.alive_iff.mpr h'] at h; cases h
  obtain ⟨P1, P', made, a1, a2, a3, a4, a5, a6, a7⟩ := i.does
    (cl := fun P1 a r => match r with
          | some y => ¬ N.things.Alive y ∧ P1.Alive y ∧ (listAt c P1 y).map f = (listAt c N.things a).map f
          | none => True) g hso hdo (Nat.le_refl _) (fun h => (h trivial).elim) hm he
    (fun s1 a y h1 h2 h3 => ⟨na h1, Pool.alive_iff.mp h2, h3⟩)
    (fun _ _ h => h)
  refine ⟨P1, P', made, a1, a2, a3, a4, fun y hy => ?_, fun y => ?_, fun y => ⟨?_, fun hy => ?_⟩⟩
  · have := a5 y (Pool.alive_iff.mpr hy)
    exact ⟨Pool.alive_iff.mp this.1, this.2⟩
  · have : P1.alive y = true ↔ N.things.alive y = true ∨ y ∈ made := a6 y
    rwa [Pool.alive_iff, Pool.alive_iff] at this
  · have : P'.alive y = true ↔ P1.alive y = true ∧ y ∉ droppedBy N.vecs O' := (a7 y).1
    rwa [Pool.alive_iff, Pool.alive_iff] at this
  · exact (a7 y).2 (Pool.alive_iff.mpr hy)

/-- C144 for vectors of vectors: `clone` with clones of elements that equal them. It returns an outer vector whose `i`-th inner
vector is a new one with the contents of the `i`-th inner vector of the original; or it panics, and no vector that was
there before changed and none is left that was not. -/
theorem C144_vec_clone (hcl : FaithfulClone c) (hs : c.size ≠ 0) (hd : ∀ a, c.dropPanics a = false) (hi : P0.Initial)
    (hso : co.size ≠ 0) (hdo : ∀ a, co.dropPanics a = false) (h0 : N0.Initial P0)
    (h : KReaches (vecClonables c) co N0 n N) {x : Nat} {l rest : List Nat}
    (hm : N.May (vecClonables c) co (.clone x) rest) (hx : (N.vecs.lists co)[x]? = some (some l))
    {ev : Spec.Event Nat} {O' : Pool Nat} (he : N.Calls (vecClonables c) co (.clone x) ev O') :
    ∃ P1 P', (vecClonables c).afterClones (N.cloned co (.clone x) O') N.things = some P1 ∧
      (vecClonables c).dropEach (droppedBy N.vecs O') P1 = .ok () P' ∧
      (∀ y, N.things.Alive y → P'.Alive y ∧ listAt c P' y = listAt c N.things y) ∧
      ((ev = .ret .unit ∧ ∃ l', O'.lists co = N.vecs.lists co ++ [some l'] ∧ l'.length = l.length ∧ l'.Nodup ∧
          ∀ (i a b : Nat), l[i]? = some a → l'[i]? = some b →
            ¬ N.things.Alive b ∧ P'.Alive b ∧ listAt c P' b = listAt c N.things a) ∨
        (ev.out = none ∧ O'.lists co = N.vecs.lists co ∧ ∀ y, P'.Alive y → N.things.Alive y)) := by
  obtain ⟨P1, P', made, a1, a2, a3, a4, a5, a6, a7⟩ := C144_vec_calls hs hd hi hso hdo h0 h (f := id)
    (fun l ys h => h.eq_of_faithful hcl) hm he
  simp only [Option.map_id_fun, id] at a3 a5 a7
  have hdr : ∀ y, N.things.Alive y → y ∉ droppedBy N.vecs O' := by
    intro y hy hyd
    generalize droppedBy N.vecs O' = dr at a3 hyd
    generalize O'.lists co = L' at a3
    generalize N.vecs.lists co = L at a3
    cases a3 with
    | clone => cases hyd
    | cloneRefused => cases hyd
    | clonePanic _ pre a post ys _ hL1 hcs hno =>
      obtain ⟨j, hj⟩ := List.getElem?_of_mem hyd
      have hjl : j < pre.length := by
        rw [hcs.length]; exact (List.getElem?_eq_some_iff.mp hj).1
      exact (hcs.get j (List.getElem?_eq_getElem hjl) hj).1 hy
  refine ⟨P1, P', a1, a2, fun y hy => ?_, ?_⟩
  · have b := a5 y hy
    have e : P'.Alive y := (a7 y).1.mpr ⟨b.1, hdr y hy⟩
    exact ⟨e, ((a7 y).2 e).trans b.2⟩
  · generalize droppedBy N.vecs O' = dr at a3 a7
    generalize hO : O'.lists co = L' at a3 ⊢
    generalize hL : N.vecs.lists co = L at a3 hx ⊢
    cases a3 with
    | clone _ l1 ys _ hL1 hcs =>
      rw [hx] at hL1
      cases hL1
      refine .inl ⟨rfl, made, rfl, hcs.length.symm, a4, fun i a b ha hb => ?_⟩
      obtain ⟨k1, k2, k3⟩ := hcs.get i ha hb
      have e : P'.Alive b := (a7 b).1.mpr ⟨k2, by simp⟩
      exact ⟨k1, e, ((a7 b).2 e).trans k3⟩
    | cloneRefused =>
      exact .inr ⟨rfl, rfl, fun y hy => ((a6 y).mp ((a7 y).1.mp hy).1).resolve_right (by simp)⟩
    | clonePanic _ pre a post ys _ hL1 hcs hno =>
      exact .inr ⟨rfl, rfl, fun y hy => ((a6 y).mp ((a7 y).1.mp hy).1).resolve_right ((a7 y).1.mp hy).2⟩

/-- C144 for vectors of vectors. Once the outer vectors are dropped and the client holds no inner one, none exists, and no
memory is left behind by either. -/
theorem C144_vec_end (hs : c.size ≠ 0) (hd : ∀ a, c.dropPanics a = false) (hi : P0.Initial) (hso : co.size ≠ 0)
    (hdo : ∀ a, co.dropPanics a = false) (h0 : N0.Initial P0) (h : KReaches (vecClonables c) co N0 n N)
    (hheld : N.held = []) (hv : ∀ x, ¬ N.vecs.Alive x) :
    (∀ x, ¬ N.things.Alive x) ∧ (∀ p, N.things.w.heap p = none) ∧ ∀ p, N.vecs.w.heap p = none := by
  obtain ⟨L, i⟩ := h.inv (vecClonables_good hs hd hi (f := fun _ => ()) (fun _ _ _ => rfl) n) ⟨[], rfl, .start⟩
    hi.none_alive hso hdo h0 (Nat.le_refl _)
  obtain ⟨a, b⟩ := i.gone hheld hv
  have no : ∀ x, ¬ N.things.Alive x := fun x hx => by
    have : N.things.alive x = false := a x
    rw [Pool.alive_iff.mpr hx] at this; cases this
  obtain ⟨hist, _, hr⟩ := i.good
  exact ⟨no, (C04_no_leak hs hd hi hr).2.2 (Pool.all_none no), b⟩

end VecClones

/-! ## Non-trivial cases -/

/-- An `Rc` (0) of the value 7, its clone (1) and a `Weak` (2); 0 and 2 are moved into a vector, which is cloned (3, 4);
the first vector is extended by a clone (5) of 1, the second resized with 1 and one clone of it (6); the first vector is
dropped. -/
def rcKeepProg : List (ShelfCmd (RcCmd Nat)) :=
  [.use (.new 7), .use (.clone 0), .use (.downgrade 0), .vec .new, .vec (.on 0 (.push 0)), .vec (.on 0 (.push 2)),
    .vec (.clone 0), .vec (.on 0 (.extendFromSlice [1])), .vec (.on 1 (.resize 4 1)), .vec (.drop 0)]

example : rcStoreSummary (keepAll (rcClonables cfg64 RcCmd.Tame) rcStep cfg64 (rcKeepProg.take 9) 0
    ⟨.start, ⟨[], world0⟩, []⟩) =
    some (7, [], [0, 2, 5, 3, 4, 6, 1], [some (.rc 0), some (.rc 0), some (.weak (some 0)), some (.rc 0),
      some (.weak (some 0)), some (.rc 0), some (.rc 0)]) := by
  decide +kernel

example : ∃ n N, KReaches (rcClonables cfg64 RcCmd.Tame) cfg64 ⟨.start, ⟨[], world0⟩, []⟩ n N ∧
    (⟨.start, ⟨[], world0⟩, []⟩ : Shelf (RcPool Nat)).Initial .start ∧ n + 2 ≤ cfg64.usizeMax ∧
    N.held = [] ∧ N.kept cfg64 = [3, 4, 6, 1] ∧ N.things.hands = [none, some (.rc 0), none, some (.rc 0),
      some (.weak (some 0)), none, some (.rc 0)] := by
  have hsum : rcStoreSummary (keepAll (rcClonables cfg64 RcCmd.Tame) rcStep cfg64 rcKeepProg 0
      ⟨.start, ⟨[], world0⟩, []⟩) = some (10, [], [3, 4, 6, 1], [none, some (.rc 0), none, some (.rc 0),
      some (.weak (some 0)), none, some (.rc 0)]) := by decide +kernel
  cases h : keepAll (rcClonables cfg64 RcCmd.Tame) rcStep cfg64 rcKeepProg 0 ⟨.start, ⟨[], world0⟩, []⟩ with
  | none => rw [h] at hsum; cases hsum
  | some r =>
    rw [h] at hsum
    simp only [rcStoreSummary, Option.map_some, Option.some.injEq, Prod.mk.injEq] at hsum
    have hr := keepAll_reaches (K := rcClonables cfg64 RcCmd.Tame) rcStep_use (fun h => isThere_lt h) rcKeepProg .start h
    exact ⟨_, _, hr, ⟨rfl, ⟨rfl, fun _ => rfl, rfl⟩, rfl⟩, by rw [hsum.1]; decide, hsum.2⟩

/-- The same with `Urc`, without the `Weak`, which cannot be cloned. -/
def urcKeepProg : List (ShelfCmd (UrcCmd Nat)) :=
  [.use (.new 7), .use (.clone 0), .use (.envelop 0), .vec .new, .vec (.on 0 (.push 0)), .vec (.on 0 (.push 2)),
    .vec (.clone 0), .vec (.on 0 (.extendFromSlice [1])), .vec (.on 1 (.resize 4 1)), .vec (.drop 0)]

example : ∃ n N, KReaches (urcClonables cfg64 (UrcCmd.Permitted cfg64)) cfg64 ⟨.start, ⟨[], world0⟩, []⟩ n N ∧
    (⟨.start, ⟨[], world0⟩, []⟩ : Shelf (UrcPool Nat)).Initial .start ∧ n ≤ cfg64.usizeMax ∧
    N.held = [] ∧ N.kept cfg64 = [3, 4, 6, 1] ∧ N.things.hands = [none, some (.urc 0), none, some (.urc 0),
      some (.urc 1), none, some (.urc 0)] := by
  have hsum : urcStoreSummary (keepAll (urcClonables cfg64 (UrcCmd.Permitted cfg64)) urcStep cfg64 urcKeepProg 0
      ⟨.start, ⟨[], world0⟩, []⟩) = some (10, [], [3, 4, 6, 1], [none, some (.urc 0), none, some (.urc 0),
      some (.urc 1), none, some (.urc 0)]) := by decide +kernel
  cases h : keepAll (urcClonables cfg64 (UrcCmd.Permitted cfg64)) urcStep cfg64 urcKeepProg 0
      ⟨.start, ⟨[], world0⟩, []⟩ with
  | none => rw [h] at hsum; cases hsum
  | some r =>
    rw [h] at hsum
    simp only [urcStoreSummary, Option.map_some, Option.some.injEq, Prod.mk.injEq] at hsum
    have hr := keepAll_reaches (K := urcClonables cfg64 (UrcCmd.Permitted cfg64)) urcStep_use (fun h => isThere_lt h)
      urcKeepProg .start h
    exact ⟨_, _, hr, ⟨rfl, ⟨rfl, fun _ => rfl, rfl⟩, rfl⟩, by rw [hsum.1]; decide, hsum.2⟩

/-- Clones of 9 panic. -/
def cfgNine : Cfg Nat := { cfg64 with clone := fun _ a => if a = 9 then none else some a }

/-- A call of an inner vector for `keepAll`. -/
def vecStep (cmd : Spec.Cmd Nat) (P : Pool Nat) : Option (Pool Nat) :=
  if cmd.legal cfgNine P then
    match runCmd cfgNine cmd P with
    | .ok _ P' => some P'
    | .panic P' => some P'
    | _ => none
  else none

theorem vecStep_use {cmd : Spec.Cmd Nat} {P P' : Pool Nat} (h : vecStep cmd P = some P') :
    (vecClonables cfgNine).use P P' := by
  unfold vecStep at h
  split at h
  · rename_i hp
    split at h
    · rename_i e; cases h; exact ⟨cmd, _, Spec.Cmd.legal_iff hp, .ret e⟩
    · rename_i e; cases h; exact ⟨cmd, _, Spec.Cmd.legal_iff hp, .panic e⟩
    · cases h
  · cases h

/-- What the client holds, what the outer vectors show, and the inner vectors. -/
def vecKeepSummary (r : Option (Nat × Shelf (Pool Nat))) :
    Option (Nat × List Nat × Spec.Lists Nat × Spec.Lists Nat) :=
  r.map fun r => (r.1, r.2.held, r.2.vecs.lists cfg64, r.2.things.lists cfgNine)

/-- Two inner vectors, `[1, 2]` and `[5]`, are moved into an outer one, which is cloned; then a 9 is pushed to the second
inner vector, and the clone of the outer one panics: the inner vector cloned before that is dropped. -/
def vecKeepProg : List (ShelfCmd (Spec.Cmd Nat)) :=
  [.use .new, .use .new, .use (.on 0 (.push 1)), .use (.on 0 (.push 2)), .use (.on 1 (.push 5)), .vec .new,
    .vec (.on 0 (.push 0)), .vec (.on 0 (.push 1)), .vec (.clone 0), .use (.on 1 (.push 9)), .vec (.clone 0)]

example : vecKeepSummary (keepAll (vecClonables cfgNine) vecStep cfg64 (vecKeepProg.take 10) 0
    ⟨⟨[], world0⟩, ⟨[], world0⟩, []⟩) =
    some (8, [], [some [0, 1], some [2, 3]], [some [1, 2], some [5, 9], some [1, 2], some [5]]) := by
  decide +kernel

example : ∃ n N, KReaches (vecClonables cfgNine) cfg64 ⟨⟨[], world0⟩, ⟨[], world0⟩, []⟩ n N ∧
    (⟨⟨[], world0⟩, ⟨[], world0⟩, []⟩ : Shelf (Pool Nat)).Initial ⟨[], world0⟩ ∧
    N.held = [] ∧ N.vecs.lists cfg64 = [some [0, 1], some [2, 3]] ∧
    N.things.lists cfgNine = [some [1, 2], some [5, 9], some [1, 2], some [5], none] := by
  have hsum : vecKeepSummary (keepAll (vecClonables cfgNine) vecStep cfg64 vecKeepProg 0
      ⟨⟨[], world0⟩, ⟨[], world0⟩, []⟩) =
      some (11, [], [some [0, 1], some [2, 3]], [some [1, 2], some [5, 9], some [1, 2], some [5], none]) := by
    decide +kernel
  cases h : keepAll (vecClonables cfgNine) vecStep cfg64 vecKeepProg 0 ⟨⟨[], world0⟩, ⟨[], world0⟩, []⟩ with
  | none => rw [h] at hsum; cases hsum
  | some r =>
    rw [h] at hsum
    simp only [vecKeepSummary, Option.map_some, Option.some.injEq, Prod.mk.injEq] at hsum
    have hr := keepAll_reaches (K := vecClonables cfgNine) vecStep_use (fun {s x} h => ?_) vecKeepProg .start h
    · exact ⟨_, _, hr, ⟨rfl, ⟨rfl, fun _ => rfl, rfl⟩, rfl⟩, hsum.2⟩
    · obtain ⟨v, hv⟩ := Pool.alive_iff.mp h
      exact (List.getElem?_eq_some_iff.mp hv).1

/-- The hypotheses of `C144_vec_calls` hold for the length whatever clones of elements give. -/
example (l ys : List α) (h : Spec.Clones c.cloneRel l ys) : ys.length = l.length := h.length.symm

end Lokky
