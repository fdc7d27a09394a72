import Verif.Proofs.HandlesUrc
import Verif.Proofs.RcTrace
import Verif.Proofs.UrcTrace
import Verif.Props.Rc
import Verif.Props.Urc
import Verif.Props.VecHistory

/-!
# C143: handles in vectors

`TReaches T co N0 n ho N`: a client that keeps things `T` (here `Rc`, `Urc` and `Weak` handles) in vectors made `n`
calls of things, those of destructors run by vectors included, saw the history `ho` of the vectors and arrived at `N`
(Verif/Model/Handles.lean). `L` are the contents of the vectors.
-/

namespace Lokky
open Spec
variable {α : Type} {c : Cfg α} {co : Cfg Nat} {n : Nat} {ho : Spec.History Nat}

/-! ## `Rc` -/

section RcHandles
variable {N0 N : Shelf (RcPool α)}

/-- C143 for `Rc` and `Weak`. Every handle that exists has exactly one owner: the client holds it, or it is one element of one
vector. Every vector shows its elements, and they are handles that exist. -/
theorem C143_rc_owner (hcl : FaithfulClone c) (hso : co.size ≠ 0) (hdo : ∀ a, co.dropPanics a = false)
    (h0 : N0.Initial .start) (h : TReaches (rcThings c RcCmd.Tame) co N0 n ho N) (hn : n + 2 ≤ c.usizeMax) :
    (∀ (x : Nat) (v : VecH), N.vecs.vecs[x]? = some (some v) →
      ∃ l, Vec.asSlice co ⟨v, N.vecs.w⟩ = .ok l ⟨v, N.vecs.w⟩) ∧
    (N.held ++ N.kept co).Nodup ∧
    ∀ x, x ∈ N.held ++ N.kept co ↔ ∃ k, N.things.hands[x]? = some (some k) := by
  obtain ⟨L, i⟩ := h.inv (rcThings_good hcl) ⟨[], rfl, .start⟩ (fun _ => rfl) hso hdo h0 (by omega)
  rw [i.kept_eq hso]
  refine ⟨fun x v hv => ?_, i.nodup, fun x => (i.owned x).trans isThere_iff⟩
  obtain ⟨l, hl, _⟩ := i.po.rep x v hv
  exact ⟨l, i.shows hso hv hl⟩

/-- C143 for `Rc` and `Weak`. The handles are in a state that a client who keeps them without vectors also reaches, with as
many calls, so what is proved of those programs (C51 to C58) holds wherever the handles are kept. -/
theorem C143_rc_history (hcl : FaithfulClone c) (hso : co.size ≠ 0) (hdo : ∀ a, co.dropPanics a = false)
    (h0 : N0.Initial .start) (h : TReaches (rcThings c RcCmd.Tame) co N0 n ho N) (hn : n + 2 ≤ c.usizeMax) :
    ∃ hist, hist.length = n ∧ RcReaches c RcCmd.Tame hist N.things := by
  obtain ⟨L, i⟩ := h.inv (rcThings_good hcl) ⟨[], rfl, .start⟩ (fun _ => rfl) hso hdo h0 (by omega)
  exact i.good

/-- C143 for `Rc` and `Weak`. Every call on a handle, wherever it is kept, returns or panics. -/
theorem C143_rc_use (hcl : FaithfulClone c) (hso : co.size ≠ 0) (hdo : ∀ a, co.dropPanics a = false)
    (h0 : N0.Initial .start) (h : TReaches (rcThings c RcCmd.Tame) co N0 n ho N) (hn : n + 2 ≤ c.usizeMax)
    {cmd : RcCmd α} (hc : cmd.Callable N.things.hands) :
    (∃ ev P', RcHappens c N.things cmd ev P') ∧ ∀ u, runRc c cmd N.things ≠ .ub u := by
  obtain ⟨hist, e, hr⟩ := C143_rc_history hcl hso hdo h0 h hn
  exact C51_memory_safe (hr.weaken fun _ _ h => h.1) (by omega) hc

/-- C143 for `Rc` and `Weak`. Every permitted call of a vector returns or panics, and the destructors of the handles it
drops all find their handle alive and return. -/
theorem C143_rc_safe (hcl : FaithfulClone c) (hso : co.size ≠ 0) (hdo : ∀ a, co.dropPanics a = false)
    (h0 : N0.Initial .start) (h : TReaches (rcThings c RcCmd.Tame) co N0 n ho N) (hn : n + 2 ≤ c.usizeMax)
    (cmd : Spec.Cmd Nat) (hl : cmd.Legal co N.vecs) (hp : cmd.Plain) (rest : List Nat)
    (hh : N.held.Perm (cmd.given ++ rest)) :
    (∃ ev O', Happens co N.vecs cmd ev O') ∧ (∀ u, runCmd co cmd N.vecs ≠ .ub u) ∧
    ∀ ev O', Happens co N.vecs cmd ev O' → n + (droppedBy N.vecs O').length + 2 ≤ c.usizeMax →
      ∃ P', (rcThings c RcCmd.Tame).dropEach (droppedBy N.vecs O') N.things = .ok () P' := by
  obtain ⟨L, i⟩ := h.inv (rcThings_good hcl) ⟨[], rfl, .start⟩ (fun _ => rfl) hso hdo h0 (by omega)
  obtain ⟨a, b⟩ := C02_vec_memory_safe hso hdo h0.2.1 i.ro cmd hl
  refine ⟨a, b, fun ev O' he hb => ?_⟩
  obtain ⟨P', _, k, _⟩ := i.vec (rcThings_good hcl) hso hdo (by omega) hl hp hh he
  exact ⟨P', k⟩

/-- C143 for `Rc` and `Weak`. `weak_count` of a value is the number of its `Weak` handles among those the client holds and
those in vectors. -/
theorem C143_rc_weak_count (hcl : FaithfulClone c) (hso : co.size ≠ 0) (hdo : ∀ a, co.dropPanics a = false)
    (h0 : N0.Initial .start) (h : TReaches (rcThings c RcCmd.Tame) co N0 n ho N) (hn : n + 2 ≤ c.usizeMax)
    {i p : Nat} (hk : N.things.hands[i]? = some (some (.rc p)) ∨ N.things.hands[i]? = some (some (.weak (some p)))) :
    runRc c (.weakCount i) N.things = .ok (.nat ((N.held ++ N.kept co).countP fun x =>
      N.things.hands[x]?.getD none == some (.weak (some p)))) N.things := by
  obtain ⟨hist, e, hr⟩ := C143_rc_history hcl hso hdo h0 h hn
  obtain ⟨_, nd, ow⟩ := C143_rc_owner hcl hso hdo h0 h hn
  rw [C55_weak_exact (hr.weaken fun _ _ h => h.1) (by omega) hk, Spec.Hands.weaks, List.count,
    countP_owned nd (fun x => (ow x).trans isThere_iff.symm) rfl]

/-- C143 for `Rc` and `Weak`. `strong_count` of a value is the number of its `Rc` handles among those the client holds and
those in vectors, or one more (if the value once had no `Rc` handle, C55). -/
theorem C143_rc_strong_count (hcl : FaithfulClone c) (hso : co.size ≠ 0) (hdo : ∀ a, co.dropPanics a = false)
    (h0 : N0.Initial .start) (h : TReaches (rcThings c RcCmd.Tame) co N0 n ho N) (hn : n + 2 ≤ c.usizeMax)
    {i p : Nat} (hk : N.things.hands[i]? = some (some (.rc p)) ∨ N.things.hands[i]? = some (some (.weak (some p)))) :
    ∃ k ≤ 1, runRc c (.strongCount i) N.things = .ok (.nat ((N.held ++ N.kept co).countP (fun x =>
      N.things.hands[x]?.getD none == some (.rc p)) + k)) N.things := by
  obtain ⟨hist, e, hr⟩ := C143_rc_history hcl hso hdo h0 h hn
  obtain ⟨_, nd, ow⟩ := C143_rc_owner hcl hso hdo h0 h hn
  have ec : N.things.hands.rcs p = (N.held ++ N.kept co).countP fun x =>
      N.things.hands[x]?.getD none == some (.rc p) := by
    rw [Spec.Hands.rcs, List.count, countP_owned nd (fun x => (ow x).trans isThere_iff.symm) rfl]
  obtain ⟨S, ob, _, _, _, h1, h2⟩ := C55_strong_partial hr hcl (by omega) hk
  rw [ec] at h1 h2
  cases eo : ob.orphan with
  | false => exact ⟨0, by omega, h1 eo⟩
  | true => exact ⟨1, by omega, h2 eo⟩

/-- C143 for `Rc` and `Weak`. Once the vectors are dropped and the client holds no handle, no handle exists, and the vectors
left no memory behind. -/
theorem C143_rc_end (hcl : FaithfulClone c) (hso : co.size ≠ 0) (hdo : ∀ a, co.dropPanics a = false)
    (h0 : N0.Initial .start) (h : TReaches (rcThings c RcCmd.Tame) co N0 n ho N) (hn : n + 2 ≤ c.usizeMax)
    (hheld : N.held = []) (hv : ∀ x, ¬ N.vecs.Alive x) :
    (∀ (x : Nat) k, N.things.hands[x]? ≠ some (some k)) ∧ ∀ p, N.vecs.w.heap p = none := by
  obtain ⟨L, i⟩ := h.inv (rcThings_good hcl) ⟨[], rfl, .start⟩ (fun _ => rfl) hso hdo h0 (by omega)
  refine ⟨fun x k e => ?_, (C04_no_leak hso hdo h0.2.1 i.ro).2.2 (Pool.all_none hv)⟩
  have := i.gone hheld hv x
  rw [show (rcThings c RcCmd.Tame).alive N.things x = true from isThere_iff.mpr ⟨k, e⟩] at this
  cases this

end RcHandles

/-! ## `Urc` -/

section UrcHandles
variable {N0 N : Shelf (UrcPool α)}

/-- C143 for `Urc` and `Weak`. Every handle that exists has exactly one owner: the client holds it, or it is one element of one
vector. Every vector shows its elements, and they are handles that exist. -/
theorem C143_urc_owner (hso : co.size ≠ 0) (hdo : ∀ a, co.dropPanics a = false)
    (h0 : N0.Initial .start) (h : TReaches (urcThings c (UrcCmd.Permitted c)) co N0 n ho N) (hn : n ≤ c.usizeMax) :
    (∀ (x : Nat) (v : VecH), N.vecs.vecs[x]? = some (some v) →
      ∃ l, Vec.asSlice co ⟨v, N.vecs.w⟩ = .ok l ⟨v, N.vecs.w⟩) ∧
    (N.held ++ N.kept co).Nodup ∧
    ∀ x, x ∈ N.held ++ N.kept co ↔ ∃ k, N.things.hands[x]? = some (some k) := by
  obtain ⟨L, i⟩ := h.inv urcThings_good ⟨[], rfl, .start⟩ (fun _ => rfl) hso hdo h0 (by omega)
  rw [i.kept_eq hso]
  refine ⟨fun x v hv => ?_, i.nodup, fun x => (i.owned x).trans isThere_iff⟩
  obtain ⟨l, hl, _⟩ := i.po.rep x v hv
  exact ⟨l, i.shows hso hv hl⟩

/-- C143 for `Urc` and `Weak`. The handles are in a state that a client who keeps them without vectors also reaches, with as
many calls, so what is proved of those programs (C67 to C73) holds wherever the handles are kept. -/
theorem C143_urc_history (hso : co.size ≠ 0) (hdo : ∀ a, co.dropPanics a = false)
    (h0 : N0.Initial .start) (h : TReaches (urcThings c (UrcCmd.Permitted c)) co N0 n ho N) (hn : n ≤ c.usizeMax) :
    ∃ hist, hist.length = n ∧ UrcReaches c (UrcCmd.Permitted c) hist N.things := by
  obtain ⟨L, i⟩ := h.inv urcThings_good ⟨[], rfl, .start⟩ (fun _ => rfl) hso hdo h0 (by omega)
  exact i.good

/-- C143 for `Urc` and `Weak`. Every permitted call on a handle, wherever it is kept, returns or panics. -/
theorem C143_urc_use (hso : co.size ≠ 0) (hdo : ∀ a, co.dropPanics a = false)
    (h0 : N0.Initial .start) (h : TReaches (urcThings c (UrcCmd.Permitted c)) co N0 n ho N) (hn : n < c.usizeMax)
    {cmd : UrcCmd α} (hc : cmd.Permitted c N.things) :
    (∃ o P', UrcHappens c N.things cmd o P') ∧ ∀ u, runUrc c cmd N.things ≠ .ub u := by
  obtain ⟨hist, e, hr⟩ := C143_urc_history hso hdo h0 h (Nat.le_of_lt hn)
  exact C67_safe_partial hr (by omega) hc

/-- C143 for `Urc` and `Weak`. Every permitted call of a vector returns or panics, and the destructors of the handles it
drops all find their handle alive and return. -/
theorem C143_urc_safe (hso : co.size ≠ 0) (hdo : ∀ a, co.dropPanics a = false)
    (h0 : N0.Initial .start) (h : TReaches (urcThings c (UrcCmd.Permitted c)) co N0 n ho N) (hn : n ≤ c.usizeMax)
    (cmd : Spec.Cmd Nat) (hl : cmd.Legal co N.vecs) (hp : cmd.Plain) (rest : List Nat)
    (hh : N.held.Perm (cmd.given ++ rest)) :
    (∃ ev O', Happens co N.vecs cmd ev O') ∧ (∀ u, runCmd co cmd N.vecs ≠ .ub u) ∧
    ∀ ev O', Happens co N.vecs cmd ev O' → n + (droppedBy N.vecs O').length ≤ c.usizeMax →
      ∃ P', (urcThings c (UrcCmd.Permitted c)).dropEach (droppedBy N.vecs O') N.things = .ok () P' := by
  obtain ⟨L, i⟩ := h.inv urcThings_good ⟨[], rfl, .start⟩ (fun _ => rfl) hso hdo h0 (by omega)
  obtain ⟨a, b⟩ := C02_vec_memory_safe hso hdo h0.2.1 i.ro cmd hl
  refine ⟨a, b, fun ev O' he hb => ?_⟩
  obtain ⟨P', _, k, _⟩ := i.vec urcThings_good hso hdo (by omega) hl hp hh he
  exact ⟨P', k⟩

/-- C143 for `Urc` and `Weak`. `fence_strong_count` is the number of `Urc` handles of the fence among those the client holds and those in
vectors. -/
theorem C143_urc_strong_count (hso : co.size ≠ 0) (hdo : ∀ a, co.dropPanics a = false)
    (h0 : N0.Initial .start) (h : TReaches (urcThings c (UrcCmd.Permitted c)) co N0 n ho N) (hn : n ≤ c.usizeMax)
    {i f : Nat} (hk : N.things.hands[i]? = some (some (.urc f))) :
    runUrc c (.strongCount i) N.things = .ok (.nat ((N.held ++ N.kept co).countP fun x =>
      (N.things.hands[x]?.getD none).any (· == .urc f))) N.things := by
  obtain ⟨hist, e, hr⟩ := C143_urc_history hso hdo h0 h hn
  obtain ⟨_, nd, ow⟩ := C143_urc_owner hso hdo h0 h hn
  rw [C73_strong hr (by omega) hk, UrcPool.many,
    countP_owned nd (fun x => (ow x).trans isThere_iff.symm) rfl]

/-- C143 for `Urc` and `Weak`. `fence_weak_count` is the number of `Weak` handles of the fence among those the client holds and those in
vectors. -/
theorem C143_urc_weak_count (hso : co.size ≠ 0) (hdo : ∀ a, co.dropPanics a = false)
    (h0 : N0.Initial .start) (h : TReaches (urcThings c (UrcCmd.Permitted c)) co N0 n ho N) (hn : n ≤ c.usizeMax)
    {i f : Nat} (hk : N.things.hands[i]? = some (some (.urc f))) :
    runUrc c (.weakCount i) N.things = .ok (.nat ((N.held ++ N.kept co).countP fun x =>
      (N.things.hands[x]?.getD none).any (UrcHand.isWeakOf f))) N.things := by
  obtain ⟨hist, e, hr⟩ := C143_urc_history hso hdo h0 h hn
  obtain ⟨_, nd, ow⟩ := C143_urc_owner hso hdo h0 h hn
  rw [C73_weak hr (by omega) hk, UrcPool.many,
    countP_owned nd (fun x => (ow x).trans isThere_iff.symm) rfl]

/-- C143 for `Urc` and `Weak`. Once the vectors are dropped and the client holds no handle, no handle exists, and the vectors
left no memory behind. -/
theorem C143_urc_end (hso : co.size ≠ 0) (hdo : ∀ a, co.dropPanics a = false)
    (h0 : N0.Initial .start) (h : TReaches (urcThings c (UrcCmd.Permitted c)) co N0 n ho N) (hn : n ≤ c.usizeMax)
    (hheld : N.held = []) (hv : ∀ x, ¬ N.vecs.Alive x) :
    (∀ (x : Nat) k, N.things.hands[x]? ≠ some (some k)) ∧ ∀ p, N.vecs.w.heap p = none := by
  obtain ⟨L, i⟩ := h.inv urcThings_good ⟨[], rfl, .start⟩ (fun _ => rfl) hso hdo h0 (by omega)
  refine ⟨fun x k e => ?_, (C04_no_leak hso hdo h0.2.1 i.ro).2.2 (Pool.all_none hv)⟩
  have := i.gone hheld hv x
  rw [show (urcThings c (UrcCmd.Permitted c)).alive N.things x = true from isThere_iff.mpr ⟨k, e⟩] at this
  cases this

end UrcHandles

/-! ## Non-trivial cases -/

/-- A call of `Rc` for `storeAll`. -/
def rcStep (cmd : RcCmd Nat) (P : RcPool Nat) : Option (RcPool Nat) :=
  if rcPermitted P.hands cmd then
    match runRc cfg64 cmd P with
    | .ok _ P' => some P'
    | .panic P' => some P'
    | _ => none
  else none

theorem rcStep_use {cmd : RcCmd Nat} {P P' : RcPool Nat} (h : rcStep cmd P = some P') :
    (rcThings cfg64 RcCmd.Tame).use P P' := by
  unfold rcStep at h
  split at h
  · rename_i hp
    split at h
    · rename_i e; cases h; exact ⟨cmd, _, (rcPermitted_sound hp).1, .ret e⟩
    · rename_i e; cases h; exact ⟨cmd, _, (rcPermitted_sound hp).1, .panic e⟩
    · cases h
  · cases h

/-- A call of `Urc` for `storeAll`. -/
def urcStep (cmd : UrcCmd Nat) (P : UrcPool Nat) : Option (UrcPool Nat) :=
  if urcPermitted cfg64 P cmd then
    match runUrc cfg64 cmd P with
    | .ok _ P' => some P'
    | .panic P' => some P'
    | _ => none
  else none

theorem urcStep_use {cmd : UrcCmd Nat} {P P' : UrcPool Nat} (h : urcStep cmd P = some P') :
    (urcThings cfg64 (UrcCmd.Permitted cfg64)).use P P' := by
  unfold urcStep at h
  split at h
  · rename_i hp
    split at h
    · rename_i e; cases h; exact ⟨cmd, _, urcPermitted_sound hp, .ret e⟩
    · rename_i e; cases h; exact ⟨cmd, _, urcPermitted_sound hp, .panic e⟩
    · cases h
  · cases h

/-- Two `Rc` handles (0, 1) of the value 7 and a `Weak` (2) are made and moved into two vectors; a handle is cloned
where it is (3); the vector of `Rc`s is truncated, which drops handle 1, then `remove` gives handle 0 back; the
vector with the `Weak` is dropped. -/
def rcStoreProg : List (ShelfCmd (RcCmd Nat)) :=
  [.use (.new 7), .use (.clone 0), .use (.downgrade 0), .vec .new, .vec .new, .vec (.on 0 (.push 1)),
    .vec (.on 1 (.push 2)), .vec (.on 0 (.insert 0 0)), .use (.clone 0), .vec (.on 0 (.truncate 1)),
    .vec (.on 0 (.push 3)), .vec (.on 0 (.remove 0)), .vec (.drop 1)]

/-- What the client holds, what the vectors show, and the handles. -/
def rcStoreSummary (r : Option (Nat × Shelf (RcPool Nat))) : Option (Nat × List Nat × List Nat × Spec.Hands) :=
  r.map fun r => (r.1, r.2.held, r.2.kept cfg64, r.2.things.hands)

example : rcStoreSummary (storeAll (rcThings cfg64 RcCmd.Tame) rcStep cfg64 (rcStoreProg.take 9) 0
    ⟨.start, ⟨[], world0⟩, []⟩) =
    some (4, [3], [0, 1, 2], [some (.rc 0), some (.rc 0), some (.weak (some 0)), some (.rc 0)]) := by
  decide +kernel

example : ∃ n ho N, TReaches (rcThings cfg64 RcCmd.Tame) cfg64 ⟨.start, ⟨[], world0⟩, []⟩ n ho N ∧
    (⟨.start, ⟨[], world0⟩, []⟩ : Shelf (RcPool Nat)).Initial .start ∧ n + 2 ≤ cfg64.usizeMax ∧
    N.held = [0] ∧ N.kept cfg64 = [3] ∧ N.things.hands = [some (.rc 0), none, none, some (.rc 0)] := by
  have hsum : rcStoreSummary (storeAll (rcThings cfg64 RcCmd.Tame) rcStep cfg64 rcStoreProg 0
      ⟨.start, ⟨[], world0⟩, []⟩) = some (6, [0], [3], [some (.rc 0), none, none, some (.rc 0)]) := by decide +kernel
  cases h : storeAll (rcThings cfg64 RcCmd.Tame) rcStep cfg64 rcStoreProg 0 ⟨.start, ⟨[], world0⟩, []⟩ with
  | none => rw [h] at hsum; cases hsum
  | some r =>
    rw [h] at hsum
    simp only [rcStoreSummary, Option.map_some, Option.some.injEq, Prod.mk.injEq] at hsum
    obtain ⟨ho, hr⟩ := storeAll_reaches rcStep_use (fun h => isThere_lt h) rcStoreProg .start h
    exact ⟨_, ho, _, hr, ⟨rfl, ⟨rfl, fun _ => rfl, rfl⟩, rfl⟩, by rw [hsum.1]; decide, hsum.2⟩

/-- The same with `Urc`, and everything is dropped at the end. -/
def urcStoreProg : List (ShelfCmd (UrcCmd Nat)) :=
  [.use (.new 7), .use (.clone 0), .use (.downgrade 0), .use (.envelop 0), .vec .new, .vec .new, .vec (.on 0 (.push 1)),
    .vec (.on 1 (.push 2)), .vec (.on 0 (.insert 0 0)), .use (.clone 0), .vec (.on 0 (.truncate 1)),
    .vec (.on 0 (.push 3)), .vec (.on 0 (.remove 0)), .vec (.drop 1), .use (.drop 0), .vec (.on 0 (.push 4)),
    .vec (.drop 0)]

/-- What the client holds, what the vectors show, and the handles. -/
def urcStoreSummary (r : Option (Nat × Shelf (UrcPool Nat))) :
    Option (Nat × List Nat × List Nat × List (Option UrcHand)) :=
  r.map fun r => (r.1, r.2.held, r.2.kept cfg64, r.2.things.hands)

example : urcStoreSummary (storeAll (urcThings cfg64 (UrcCmd.Permitted cfg64)) urcStep cfg64 (urcStoreProg.take 13) 0
    ⟨.start, ⟨[], world0⟩, []⟩) =
    some (6, [4, 0], [3, 2], [some (.urc 0), none, some (.weak 0 0), some (.urc 1), some (.urc 0)]) := by
  decide +kernel

example : ∃ n ho N, TReaches (urcThings cfg64 (UrcCmd.Permitted cfg64)) cfg64 ⟨.start, ⟨[], world0⟩, []⟩ n ho N ∧
    (⟨.start, ⟨[], world0⟩, []⟩ : Shelf (UrcPool Nat)).Initial .start ∧ n ≤ cfg64.usizeMax ∧
    N.held = [] ∧ N.kept cfg64 = [] ∧ N.things.hands = [none, none, none, none, none] := by
  have hsum : urcStoreSummary (storeAll (urcThings cfg64 (UrcCmd.Permitted cfg64)) urcStep cfg64 urcStoreProg 0
      ⟨.start, ⟨[], world0⟩, []⟩) = some (10, [], [], [none, none, none, none, none]) := by decide +kernel
  cases h : storeAll (urcThings cfg64 (UrcCmd.Permitted cfg64)) urcStep cfg64 urcStoreProg 0
      ⟨.start, ⟨[], world0⟩, []⟩ with
  | none => rw [h] at hsum; cases hsum
  | some r =>
    rw [h] at hsum
    simp only [urcStoreSummary, Option.map_some, Option.some.injEq, Prod.mk.injEq] at hsum
    obtain ⟨ho, hr⟩ := storeAll_reaches urcStep_use (fun h => isThere_lt h) urcStoreProg .start h
    exact ⟨_, ho, _, hr, ⟨rfl, ⟨rfl, fun _ => rfl, rfl⟩, rfl⟩, by rw [hsum.1]; decide, hsum.2⟩

end Lokky
