import Verif.Proofs.Chests
import Verif.Proofs.HandleClonesGood
import Verif.Props.Handles
import Verif.Props.HandleClones
import Verif.Props.MixedPrograms

/-!
# C145: handles and vectors in containers of all kinds

`CReaches T co N0 n ho N`: a client that keeps things `T` (here `Rc`, `Urc` and `Weak` handles, and vectors) in vectors,
small vectors, by-value iterators and boxed slices made `n` calls of things, those of destructors run by containers
included, saw the history `ho` of the containers and arrived at `N` (Verif/Model/Chests.lean).

`retain` and `dedup` lose an element (C09, C10), and with it a handle or a vector: `C145_rc_owner_refuted`.
-/

namespace Lokky
open Spec
variable {α : Type} {c : Cfg α} {co : Cfg Nat} {n : Nat} {ho : Spec.YHistory Nat}

/-! ## `Rc` -/

section RcHandles
variable {N0 N : Chest (RcPool α)}

/-- C145 for `Rc` and `Weak`. Whatever is called, no handle has two owners: what the client holds and what the
containers show are different, and exist. -/
theorem C145_rc_once (hcl : FaithfulClone c) (hso : co.size ≠ 0) (hdo : ∀ a, co.dropPanics a = false)
    (h0 : N0.Initial .start) (h : CReaches (rcThings c RcCmd.Tame) co N0 n ho N) (hn : n + 2 ≤ c.usizeMax) :
    (N.held ++ N.kept co).Nodup ∧ ∀ x ∈ N.held ++ N.kept co, ∃ k, N.things.hands[x]? = some (some k) := by
  obtain ⟨S, left, i⟩ := h.inv (rcThings_good hcl) ⟨[], rfl, .start⟩ (fun _ => rfl) hso hdo h0 (by omega)
  obtain ⟨a, b⟩ := i.shown hso
  exact ⟨(List.nodup_append.mp a).1, fun x hx => isThere_iff.mp ((b x).mp (List.mem_append.mpr (.inl hx)))⟩

/-- C145 for `Rc` and `Weak`, the part that holds: without `retain` and `dedup`, every handle that exists has exactly one
owner: the client holds it, or it is one element of one vector, small vector, iterator or boxed slice. -/
theorem C145_rc_owner_partial (hcl : FaithfulClone c) (hso : co.size ≠ 0) (hdo : ∀ a, co.dropPanics a = false)
    (h0 : N0.Initial .start) (h : CReaches (rcThings c RcCmd.Tame) co N0 n ho N) (hn : n + 2 ≤ c.usizeMax)
    (hq : ∀ e ∈ ho, ¬ e.1.Scans) :
    (N.held ++ N.kept co).Nodup ∧ ∀ x, x ∈ N.held ++ N.kept co ↔ ∃ k, N.things.hands[x]? = some (some k) := by
  obtain ⟨S, left, i⟩ := h.inv (rcThings_good hcl) ⟨[], rfl, .start⟩ (fun _ => rfl) hso hdo h0 (by omega)
  obtain ⟨a, b⟩ := i.shown hso
  rw [i.none_left hq, List.append_nil] at a b
  exact ⟨a, fun x => (b x).trans isThere_iff⟩

/-- C145 for `Rc` and `Weak`. The handles are in a state that a client who keeps them without containers also reaches, with as
many calls. -/
theorem C145_rc_history (hcl : FaithfulClone c) (hso : co.size ≠ 0) (hdo : ∀ a, co.dropPanics a = false)
    (h0 : N0.Initial .start) (h : CReaches (rcThings c RcCmd.Tame) co N0 n ho N) (hn : n + 2 ≤ c.usizeMax) :
    ∃ hist, hist.length = n ∧ RcReaches c RcCmd.Tame hist N.things := by
  obtain ⟨S, left, i⟩ := h.inv (rcThings_good hcl) ⟨[], rfl, .start⟩ (fun _ => rfl) hso hdo h0 (by omega)
  exact i.good

/-- C145 for `Rc` and `Weak`. Every permitted call of a container returns or panics, `retain` and `dedup` included, and the
destructors of the handles it drops all find their handle alive and return. -/
theorem C145_rc_safe (hcl : FaithfulClone c) (hso : co.size ≠ 0) (hdo : ∀ a, co.dropPanics a = false)
    (h0 : N0.Initial .start) (h : CReaches (rcThings c RcCmd.Tame) co N0 n ho N) (hn : n + 2 ≤ c.usizeMax)
    (cmd : Spec.YCmd Nat) (hl : cmd.Legal co N.boxes) (hp : cmd.Plain) (rest : List Nat)
    (hh : N.held.Perm (cmd.given ++ rest)) :
    (∃ ev Y', YHappens co N.boxes cmd ev Y') ∧ (∀ u, runY co cmd N.boxes ≠ .ub u) ∧
    ∀ ev Y', YHappens co N.boxes cmd ev Y' → n + (droppedIn N.boxes Y').length + 2 ≤ c.usizeMax →
      ∃ P', (rcThings c RcCmd.Tame).dropEach (droppedIn N.boxes Y') N.things = .ok () P' := by
  obtain ⟨S, left, i⟩ := h.inv (rcThings_good hcl) ⟨[], rfl, .start⟩ (fun _ => rfl) hso hdo h0 (by omega)
  obtain ⟨a, b⟩ := C127_safe_partial hso h0.2.1 i.ro hl
  refine ⟨?_, b, fun ev Y' he hb => ?_⟩
  · rcases a with a | ⟨_, a, ha⟩
    · exact a
    · rw [hdo a] at ha; cases ha
  · obtain ⟨P', _, _, k, _⟩ := i.call (rcThings_good hcl) hso hdo (by omega) hl hp hh he
    exact ⟨P', k⟩

/-- C145 for `Rc` and `Weak`. Every call on a handle, wherever it is kept, returns or panics. -/
theorem C145_rc_use (hcl : FaithfulClone c) (hso : co.size ≠ 0) (hdo : ∀ a, co.dropPanics a = false)
    (h0 : N0.Initial .start) (h : CReaches (rcThings c RcCmd.Tame) co N0 n ho N) (hn : n + 2 ≤ c.usizeMax)
    {cmd : RcCmd α} (hc : cmd.Callable N.things.hands) :
    (∃ ev P', RcHappens c N.things cmd ev P') ∧ ∀ u, runRc c cmd N.things ≠ .ub u := by
  obtain ⟨hist, e, hr⟩ := C145_rc_history hcl hso hdo h0 h hn
  exact C51_memory_safe (hr.weaken fun _ _ h => h.1) (by omega) hc

/-- C145 for `Rc` and `Weak`, the part that holds: without `retain` and `dedup`, `weak_count` of a value is the
number of its `Weak` handles among those the client holds and those in containers. -/
theorem C145_rc_weak_count_partial (hcl : FaithfulClone c) (hso : co.size ≠ 0) (hdo : ∀ a, co.dropPanics a = false)
    (h0 : N0.Initial .start) (h : CReaches (rcThings c RcCmd.Tame) co N0 n ho N) (hn : n + 2 ≤ c.usizeMax)
    (hq : ∀ e ∈ ho, ¬ e.1.Scans)
    {i p : Nat} (hk : N.things.hands[i]? = some (some (.rc p)) ∨ N.things.hands[i]? = some (some (.weak (some p)))) :
    runRc c (.weakCount i) N.things = .ok (.nat ((N.held ++ N.kept co).countP fun x =>
      N.things.hands[x]?.getD none == some (.weak (some p)))) N.things := by
  obtain ⟨hist, e, hr⟩ := C145_rc_history hcl hso hdo h0 h hn
  obtain ⟨nd, ow⟩ := C145_rc_owner_partial hcl hso hdo h0 h hn hq
  rw [C55_weak_exact (hr.weaken fun _ _ h => h.1) (by omega) hk, Spec.Hands.weaks, List.count,
    countP_owned nd (fun x => (ow x).trans isThere_iff.symm) rfl]

/-- C145 for `Rc` and `Weak`, the part that holds: without `retain` and `dedup`, `strong_count` of a value is the
number of its `Rc` handles among those the client holds and those in containers, or one more (if the value once had
no `Rc` handle, C55). -/
theorem C145_rc_strong_count_partial (hcl : FaithfulClone c) (hso : co.size ≠ 0) (hdo : ∀ a, co.dropPanics a = false)
    (h0 : N0.Initial .start) (h : CReaches (rcThings c RcCmd.Tame) co N0 n ho N) (hn : n + 2 ≤ c.usizeMax)
    (hq : ∀ e ∈ ho, ¬ e.1.Scans)
    {i p : Nat} (hk : N.things.hands[i]? = some (some (.rc p)) ∨ N.things.hands[i]? = some (some (.weak (some p)))) :
    ∃ k ≤ 1, runRc c (.strongCount i) N.things = .ok (.nat ((N.held ++ N.kept co).countP (fun x =>
      N.things.hands[x]?.getD none == some (.rc p)) + k)) N.things := by
  obtain ⟨hist, e, hr⟩ := C145_rc_history hcl hso hdo h0 h hn
  obtain ⟨nd, ow⟩ := C145_rc_owner_partial hcl hso hdo h0 h hn hq
  have ec : N.things.hands.rcs p = (N.held ++ N.kept co).countP fun x =>
      N.things.hands[x]?.getD none == some (.rc p) := by
    rw [Spec.Hands.rcs, List.count, countP_owned nd (fun x => (ow x).trans isThere_iff.symm) rfl]
  obtain ⟨S, ob, _, _, _, h1, h2⟩ := C55_strong_partial hr hcl (by omega) hk
  rw [ec] at h1 h2
  cases eo : ob.orphan with
  | false => exact ⟨0, by omega, h1 eo⟩
  | true => exact ⟨1, by omega, h2 eo⟩

/-- C145 for `Rc` and `Weak`, the part that holds: without `retain` and `dedup`, once the containers are gone and the
client holds no handle, no handle exists, and the containers left no memory behind. -/
theorem C145_rc_end_partial (hcl : FaithfulClone c) (hso : co.size ≠ 0) (hdo : ∀ a, co.dropPanics a = false)
    (h0 : N0.Initial .start) (h : CReaches (rcThings c RcCmd.Tame) co N0 n ho N) (hn : n + 2 ≤ c.usizeMax)
    (hq : ∀ e ∈ ho, ¬ e.1.Scans) (hheld : N.held = []) (hv : N.boxes.Empty) :
    (∀ (x : Nat) k, N.things.hands[x]? ≠ some (some k)) ∧ ∀ p, N.boxes.w.heap p = none := by
  obtain ⟨S, left, i⟩ := h.inv (rcThings_good hcl) ⟨[], rfl, .start⟩ (fun _ => rfl) hso hdo h0 (by omega)
  refine ⟨fun x k e => ?_, C127_no_leak_partial hso hdo h0.2.1 i.ro hv.1 hv.2.1 hv.2.2⟩
  have := i.gone hso hheld hv hq x
  rw [show (rcThings c RcCmd.Tame).alive N.things x = true from isThere_iff.mpr ⟨k, e⟩] at this
  cases this

end RcHandles

/-! ## `Urc` -/

section UrcHandles
variable {N0 N : Chest (UrcPool α)}

/-- C145 for `Urc` and `Weak`. Whatever is called, no handle has two owners: what the client holds and what the
containers show are different, and exist. -/
theorem C145_urc_once (hso : co.size ≠ 0) (hdo : ∀ a, co.dropPanics a = false)
    (h0 : N0.Initial .start) (h : CReaches (urcThings c (UrcCmd.Permitted c)) co N0 n ho N) (hn : n ≤ c.usizeMax) :
    (N.held ++ N.kept co).Nodup ∧ ∀ x ∈ N.held ++ N.kept co, ∃ k, N.things.hands[x]? = some (some k) := by
  obtain ⟨S, left, i⟩ := h.inv urcThings_good ⟨[], rfl, .start⟩ (fun _ => rfl) hso hdo h0 (by omega)
  obtain ⟨a, b⟩ := i.shown hso
  exact ⟨(List.nodup_append.mp a).1, fun x hx => isThere_iff.mp ((b x).mp (List.mem_append.mpr (.inl hx)))⟩

/-- C145 for `Urc` and `Weak`, the part that holds: without `retain` and `dedup`, every handle that exists has exactly one
owner: the client holds it, or it is one element of one vector, small vector, iterator or boxed slice. -/
theorem C145_urc_owner_partial (hso : co.size ≠ 0) (hdo : ∀ a, co.dropPanics a = false)
    (h0 : N0.Initial .start) (h : CReaches (urcThings c (UrcCmd.Permitted c)) co N0 n ho N) (hn : n ≤ c.usizeMax)
    (hq : ∀ e ∈ ho, ¬ e.1.Scans) :
    (N.held ++ N.kept co).Nodup ∧ ∀ x, x ∈ N.held ++ N.kept co ↔ ∃ k, N.things.hands[x]? = some (some k) := by
  obtain ⟨S, left, i⟩ := h.inv urcThings_good ⟨[], rfl, .start⟩ (fun _ => rfl) hso hdo h0 (by omega)
  obtain ⟨a, b⟩ := i.shown hso
  rw [i.none_left hq, List.append_nil] at a b
  exact ⟨a, fun x => (b x).trans isThere_iff⟩

/-- C145 for `Urc` and `Weak`. The handles are in a state that a client who keeps them without containers also reaches, with as
many calls. -/
theorem C145_urc_history (hso : co.size ≠ 0) (hdo : ∀ a, co.dropPanics a = false)
    (h0 : N0.Initial .start) (h : CReaches (urcThings c (UrcCmd.Permitted c)) co N0 n ho N) (hn : n ≤ c.usizeMax) :
    ∃ hist, hist.length = n ∧ UrcReaches c (UrcCmd.Permitted c) hist N.things := by
  obtain ⟨S, left, i⟩ := h.inv urcThings_good ⟨[], rfl, .start⟩ (fun _ => rfl) hso hdo h0 (by omega)
  exact i.good

/-- C145 for `Urc` and `Weak`. Every permitted call of a container returns or panics, `retain` and `dedup` included, and the
destructors of the handles it drops all find their handle alive and return. -/
theorem C145_urc_safe (hso : co.size ≠ 0) (hdo : ∀ a, co.dropPanics a = false)
    (h0 : N0.Initial .start) (h : CReaches (urcThings c (UrcCmd.Permitted c)) co N0 n ho N) (hn : n ≤ c.usizeMax)
    (cmd : Spec.YCmd Nat) (hl : cmd.Legal co N.boxes) (hp : cmd.Plain) (rest : List Nat)
    (hh : N.held.Perm (cmd.given ++ rest)) :
    (∃ ev Y', YHappens co N.boxes cmd ev Y') ∧ (∀ u, runY co cmd N.boxes ≠ .ub u) ∧
    ∀ ev Y', YHappens co N.boxes cmd ev Y' → n + (droppedIn N.boxes Y').length ≤ c.usizeMax →
      ∃ P', (urcThings c (UrcCmd.Permitted c)).dropEach (droppedIn N.boxes Y') N.things = .ok () P' := by
  obtain ⟨S, left, i⟩ := h.inv urcThings_good ⟨[], rfl, .start⟩ (fun _ => rfl) hso hdo h0 (by omega)
  obtain ⟨a, b⟩ := C127_safe_partial hso h0.2.1 i.ro hl
  refine ⟨?_, b, fun ev Y' he hb => ?_⟩
  · rcases a with a | ⟨_, a, ha⟩
    · exact a
    · rw [hdo a] at ha; cases ha
  · obtain ⟨P', _, _, k, _⟩ := i.call urcThings_good hso hdo (by omega) hl hp hh he
    exact ⟨P', k⟩

/-- C145 for `Urc` and `Weak`. Every permitted call on a handle, wherever it is kept, returns or panics. -/
theorem C145_urc_use (hso : co.size ≠ 0) (hdo : ∀ a, co.dropPanics a = false)
    (h0 : N0.Initial .start) (h : CReaches (urcThings c (UrcCmd.Permitted c)) co N0 n ho N) (hn : n < c.usizeMax)
    {cmd : UrcCmd α} (hc : cmd.Permitted c N.things) :
    (∃ o P', UrcHappens c N.things cmd o P') ∧ ∀ u, runUrc c cmd N.things ≠ .ub u := by
  obtain ⟨hist, e, hr⟩ := C145_urc_history hso hdo h0 h (Nat.le_of_lt hn)
  exact C67_safe_partial hr (by omega) hc

/-- C145 for `Urc` and `Weak`, the part that holds: without `retain` and `dedup`, `fence_strong_count` and
`fence_weak_count` are the numbers of `Urc` and `Weak` handles of the fence among those the client holds and those in
containers. -/
theorem C145_urc_counts_partial (hso : co.size ≠ 0) (hdo : ∀ a, co.dropPanics a = false)
    (h0 : N0.Initial .start) (h : CReaches (urcThings c (UrcCmd.Permitted c)) co N0 n ho N) (hn : n ≤ c.usizeMax)
    (hq : ∀ e ∈ ho, ¬ e.1.Scans) {i f : Nat} (hk : N.things.hands[i]? = some (some (.urc f))) :
    runUrc c (.strongCount i) N.things = .ok (.nat ((N.held ++ N.kept co).countP fun x =>
      (N.things.hands[x]?.getD none).any (· == .urc f))) N.things ∧
    runUrc c (.weakCount i) N.things = .ok (.nat ((N.held ++ N.kept co).countP fun x =>
      (N.things.hands[x]?.getD none).any (UrcHand.isWeakOf f))) N.things := by
  obtain ⟨hist, e, hr⟩ := C145_urc_history hso hdo h0 h hn
  obtain ⟨nd, ow⟩ := C145_urc_owner_partial hso hdo h0 h hn hq
  rw [C73_strong hr (by omega) hk, C73_weak hr (by omega) hk, UrcPool.many, UrcPool.many,
    countP_owned nd (fun x => (ow x).trans isThere_iff.symm) rfl,
    countP_owned nd (fun x => (ow x).trans isThere_iff.symm) rfl]
  exact ⟨rfl, rfl⟩

/-- C145 for `Urc` and `Weak`, the part that holds: without `retain` and `dedup`, once the containers are gone and the
client holds no handle, no handle exists, and the containers left no memory behind. -/
theorem C145_urc_end_partial (hso : co.size ≠ 0) (hdo : ∀ a, co.dropPanics a = false)
    (h0 : N0.Initial .start) (h : CReaches (urcThings c (UrcCmd.Permitted c)) co N0 n ho N) (hn : n ≤ c.usizeMax)
    (hq : ∀ e ∈ ho, ¬ e.1.Scans) (hheld : N.held = []) (hv : N.boxes.Empty) :
    (∀ (x : Nat) k, N.things.hands[x]? ≠ some (some k)) ∧ ∀ p, N.boxes.w.heap p = none := by
  obtain ⟨S, left, i⟩ := h.inv urcThings_good ⟨[], rfl, .start⟩ (fun _ => rfl) hso hdo h0 (by omega)
  refine ⟨fun x k e => ?_, C127_no_leak_partial hso hdo h0.2.1 i.ro hv.1 hv.2.1 hv.2.2⟩
  have := i.gone hso hheld hv hq x
  rw [show (urcThings c (UrcCmd.Permitted c)).alive N.things x = true from isThere_iff.mpr ⟨k, e⟩] at this
  cases this

end UrcHandles

/-! ## Vectors -/

section Vectors
variable {N0 N : Chest (Pool α)} {P0 : Pool α}

/-- C145 for vectors. Whatever is called, no vector has two owners: what the client holds and what the
containers show are different, and exist. -/
theorem C145_vec_once (hs : c.size ≠ 0) (hd : ∀ a, c.dropPanics a = false) (hi : P0.Initial) (hso : co.size ≠ 0)
    (hdo : ∀ a, co.dropPanics a = false)
    (h0 : N0.Initial P0) (h : CReaches (vecThings c) co N0 n ho N) :
    (N.held ++ N.kept co).Nodup ∧ ∀ x ∈ N.held ++ N.kept co, N.things.Alive x := by
  obtain ⟨S, left, i⟩ := h.inv (vecThings_good hs hd hi n) ⟨[], rfl, .start⟩ hi.none_alive hso hdo h0 (Nat.le_refl _)
  obtain ⟨a, b⟩ := i.shown hso
  exact ⟨(List.nodup_append.mp a).1, fun x hx => Pool.alive_iff.mp ((b x).mp (List.mem_append.mpr (.inl hx)))⟩

/-- C145 for vectors, the part that holds: without `retain` and `dedup`, every vector that exists has exactly one
owner: the client holds it, or it is one element of one vector, small vector, iterator or boxed slice. -/
theorem C145_vec_owner_partial (hs : c.size ≠ 0) (hd : ∀ a, c.dropPanics a = false) (hi : P0.Initial) (hso : co.size ≠ 0)
    (hdo : ∀ a, co.dropPanics a = false)
    (h0 : N0.Initial P0) (h : CReaches (vecThings c) co N0 n ho N)
    (hq : ∀ e ∈ ho, ¬ e.1.Scans) :
    (N.held ++ N.kept co).Nodup ∧ ∀ x, x ∈ N.held ++ N.kept co ↔ N.things.Alive x := by
  obtain ⟨S, left, i⟩ := h.inv (vecThings_good hs hd hi n) ⟨[], rfl, .start⟩ hi.none_alive hso hdo h0 (Nat.le_refl _)
  obtain ⟨a, b⟩ := i.shown hso
  rw [i.none_left hq, List.append_nil] at a b
  exact ⟨a, fun x => (b x).trans Pool.alive_iff⟩

/-- C145 for vectors. The vectors are in a state that a client who keeps them without containers also reaches, with as
many calls. -/
theorem C145_vec_history (hs : c.size ≠ 0) (hd : ∀ a, c.dropPanics a = false) (hi : P0.Initial) (hso : co.size ≠ 0)
    (hdo : ∀ a, co.dropPanics a = false)
    (h0 : N0.Initial P0) (h : CReaches (vecThings c) co N0 n ho N) :
    ∃ hist, hist.length = n ∧ Reaches c P0 hist N.things := by
  obtain ⟨S, left, i⟩ := h.inv (vecThings_good hs hd hi n) ⟨[], rfl, .start⟩ hi.none_alive hso hdo h0 (Nat.le_refl _)
  exact i.good

/-- C145 for vectors. Every permitted call of a container returns or panics, `retain` and `dedup` included, and the
destructors of the vectors it drops all find their vector alive and return. -/
theorem C145_vec_safe (hs : c.size ≠ 0) (hd : ∀ a, c.dropPanics a = false) (hi : P0.Initial) (hso : co.size ≠ 0)
    (hdo : ∀ a, co.dropPanics a = false)
    (h0 : N0.Initial P0) (h : CReaches (vecThings c) co N0 n ho N)
    (cmd : Spec.YCmd Nat) (hl : cmd.Legal co N.boxes) (hp : cmd.Plain) (rest : List Nat)
    (hh : N.held.Perm (cmd.given ++ rest)) :
    (∃ ev Y', YHappens co N.boxes cmd ev Y') ∧ (∀ u, runY co cmd N.boxes ≠ .ub u) ∧
    ∀ ev Y', YHappens co N.boxes cmd ev Y' →
      ∃ P', (vecThings c).dropEach (droppedIn N.boxes Y') N.things = .ok () P' := by
  obtain ⟨S, left, i⟩ := h.inv (vecThings_good hs hd hi n) ⟨[], rfl, .start⟩ hi.none_alive hso hdo h0 (Nat.le_refl _)
  obtain ⟨a, b⟩ := C127_safe_partial hso h0.2.1 i.ro hl
  refine ⟨?_, b, fun ev Y' he => ?_⟩
  · rcases a with a | ⟨_, a, ha⟩
    · exact a
    · rw [hdo a] at ha; cases ha
  · obtain ⟨P', _, _, k, _⟩ := ChestInv.call (vecThings_good hs hd hi _) hso hdo i (Nat.le_refl _) hl hp hh he
    exact ⟨P', k⟩

/-- C145 for vectors. Every permitted call on a vector, wherever it is kept, returns or panics. -/
theorem C145_vec_use (hs : c.size ≠ 0) (hd : ∀ a, c.dropPanics a = false) (hi : P0.Initial) (hso : co.size ≠ 0)
    (hdo : ∀ a, co.dropPanics a = false) (h0 : N0.Initial P0) (h : CReaches (vecThings c) co N0 n ho N)
    (cmd : Spec.Cmd α) (hl : cmd.Legal c N.things) :
    (∃ ev P', Happens c N.things cmd ev P') ∧ ∀ u, runCmd c cmd N.things ≠ .ub u := by
  obtain ⟨hist, _, hr⟩ := C145_vec_history hs hd hi hso hdo h0 h
  exact C02_vec_memory_safe hs hd hi hr cmd hl

/-- C145 for vectors, the part that holds: without `retain` and `dedup`, once the containers are gone and the client
holds no vector, no vector exists, and neither the vectors nor the containers left memory behind. -/
theorem C145_vec_end_partial (hs : c.size ≠ 0) (hd : ∀ a, c.dropPanics a = false) (hi : P0.Initial)
    (hso : co.size ≠ 0) (hdo : ∀ a, co.dropPanics a = false) (h0 : N0.Initial P0)
    (h : CReaches (vecThings c) co N0 n ho N) (hq : ∀ e ∈ ho, ¬ e.1.Scans) (hheld : N.held = [])
    (hv : N.boxes.Empty) :
    (∀ x, ¬ N.things.Alive x) ∧ (∀ p, N.things.w.heap p = none) ∧ ∀ p, N.boxes.w.heap p = none := by
  obtain ⟨S, left, i⟩ := h.inv (vecThings_good hs hd hi n) ⟨[], rfl, .start⟩ hi.none_alive hso hdo h0 (Nat.le_refl _)
  have no : ∀ x, ¬ N.things.Alive x := fun x hx => by
    have : N.things.alive x = false := i.gone hso hheld hv hq x
    rw [Pool.alive_iff.mpr hx] at this; cases this
  obtain ⟨hist, _, hr⟩ := i.good
  exact ⟨no, (C04_no_leak hs hd hi hr).2.2 (Pool.all_none no),
    C127_no_leak_partial hso hdo h0.2.1 i.ro hv.1 hv.2.1 hv.2.2⟩

end Vectors

/-! ## Non-trivial cases -/

/-- Nothing made yet. -/
def rcChest0 : Chest (RcPool Nat) := ⟨.start, ypool0, []⟩

theorem rcChest0_initial : rcChest0.Initial .start := ⟨rfl, ypool0_initial, rfl⟩

/-- Three `Rc` handles (0, 1, 2) of the value 7 and a `Weak` (3). The `Rc`s go into a small vector, which spills, becomes a vector
and an iterator; one is taken out of it. The `Weak` goes into a vector, which becomes a small vector and a boxed slice.
The iterator is dropped. -/
def rcChestProg : List (ChestCmd (RcCmd Nat)) :=
  [.use (.new 7), .use (.clone 0), .use (.clone 0), .use (.downgrade 0), .call (.small (.new 2)),
    .call (.small (.on 0 (.push 0))), .call (.small (.on 0 (.push 1))), .call (.small (.on 0 (.push 2))),
    .call (.intoVec 0), .call (.vec (.intoIter 0)), .call (.vec (.call (.fromArray [3]))), .call (.toSmall 1 2),
    .call (.vec (.next 0)), .call (.intoBoxed 1), .call (.vec (.dropIter 0)), .call (.small (.new 1))]

/-- What the client holds, what the containers show, and the handles. -/
def rcChestSummary (r : Option (Nat × Chest (RcPool Nat))) : Option (Nat × List Nat × List Nat × Spec.Hands) :=
  r.map fun r => (r.1, r.2.held, r.2.kept cfg64, r.2.things.hands)

example : rcChestSummary (chestAll (rcThings cfg64 RcCmd.Tame) rcStep cfg64 (rcChestProg.take 14) 0 rcChest0) =
    some (4, [0], [1, 2, 3], [some (.rc 0), some (.rc 0), some (.rc 0), some (.weak (some 0))]) := by
  decide +kernel

/-- No call of a list is one of `retain` or `dedup`, as a test. -/
def noScans (l : List (Spec.YCmd Nat)) : Bool := l.all fun cmd => match cmd with
  | .vec (.retain _ _) | .vec (.dedupBy _ _) | .vec (.dedupByKey _ _) => false
  | .retain _ _ | .dedupBy _ _ | .dedupByKey _ _ => false
  | _ => true

theorem noScans_iff {ho : Spec.YHistory Nat} (h : noScans (ho.map Prod.fst) = true) : ∀ e ∈ ho, ¬ e.1.Scans := by
  intro e he hs
  have := List.all_eq_true.mp h e.1 (List.mem_map.mpr ⟨e, he, rfl⟩)
  obtain ⟨cmd, ev⟩ := e
  cases cmd with
  | vec cmd => cases cmd <;> first | exact hs.elim | cases this
  | _ => first | exact hs.elim | cases this

example : ∃ n ho N, CReaches (rcThings cfg64 RcCmd.Tame) cfg64 rcChest0 n ho N ∧ rcChest0.Initial .start ∧
    n + 2 ≤ cfg64.usizeMax ∧ (∀ e ∈ ho, ¬ e.1.Scans) ∧ N.held = [0] ∧ N.kept cfg64 = [3] ∧
    N.things.hands = [some (.rc 0), none, none, some (.weak (some 0))] := by
  have hsum : rcChestSummary (chestAll (rcThings cfg64 RcCmd.Tame) rcStep cfg64 rcChestProg 0 rcChest0) =
      some (6, [0], [3], [some (.rc 0), none, none, some (.weak (some 0))]) := by decide +kernel
  cases h : chestAll (rcThings cfg64 RcCmd.Tame) rcStep cfg64 rcChestProg 0 rcChest0 with
  | none => rw [h] at hsum; cases hsum
  | some r =>
    rw [h] at hsum
    simp only [rcChestSummary, Option.map_some, Option.some.injEq, Prod.mk.injEq] at hsum
    obtain ⟨ho, hr, e⟩ := chestAll_reaches rcStep_use (fun h => isThere_lt h) rcChestProg .start h
    exact ⟨_, _, _, hr, rcChest0_initial, by rw [hsum.1]; decide, noScans_iff (by rw [List.nil_append, e]; rfl), hsum.2⟩

/-- Two `Urc` handles (0, 1), one more of another fence (2) and a `Weak` (3); everything is dropped at the end. -/
def urcChestProg : List (ChestCmd (UrcCmd Nat)) :=
  [.use (.new 7), .use (.clone 0), .use (.envelop 0), .use (.downgrade 0), .call (.vec (.call (.fromArray [1, 2]))),
    .call (.small (.new 1)), .call (.small (.on 1 (.push 3))), .call (.small (.on 1 (.push 0))), .call (.vec (.intoBoxed 0)),
    .call (.boxToSmall 0 4), .call (.small (.append 0 1)), .call (.small (.drop 1)), .call (.intoVec 0),
    .call (.vec (.intoIter 0)), .call (.vec (.nextBack 0)), .use (.drop 0), .call (.vec (.dropIter 0))]

/-- What the client holds, what the containers show, and the handles. -/
def urcChestSummary (r : Option (Nat × Chest (UrcPool Nat))) :
    Option (Nat × List Nat × List Nat × List (Option UrcHand)) :=
  r.map fun r => (r.1, r.2.held, r.2.kept cfg64, r.2.things.hands)

example : urcChestSummary (chestAll (urcThings cfg64 (UrcCmd.Permitted cfg64)) urcStep cfg64 (urcChestProg.take 15) 0
    ⟨.start, ypool0, []⟩) =
    some (4, [0], [1, 2, 3], [some (.urc 0), some (.urc 0), some (.urc 1), some (.weak 0 0)]) := by
  decide +kernel

example : ∃ n ho N, CReaches (urcThings cfg64 (UrcCmd.Permitted cfg64)) cfg64 ⟨.start, ypool0, []⟩ n ho N ∧
    (⟨.start, ypool0, []⟩ : Chest (UrcPool Nat)).Initial .start ∧ n ≤ cfg64.usizeMax ∧ (∀ e ∈ ho, ¬ e.1.Scans) ∧
    N.held = [] ∧ N.kept cfg64 = [] ∧ N.things.hands = [none, none, none, none] := by
  have hsum : urcChestSummary (chestAll (urcThings cfg64 (UrcCmd.Permitted cfg64)) urcStep cfg64 urcChestProg 0
      ⟨.start, ypool0, []⟩) = some (8, [], [], [none, none, none, none]) := by decide +kernel
  cases h : chestAll (urcThings cfg64 (UrcCmd.Permitted cfg64)) urcStep cfg64 urcChestProg 0 ⟨.start, ypool0, []⟩ with
  | none => rw [h] at hsum; cases hsum
  | some r =>
    rw [h] at hsum
    simp only [urcChestSummary, Option.map_some, Option.some.injEq, Prod.mk.injEq] at hsum
    obtain ⟨ho, hr, e⟩ := chestAll_reaches urcStep_use (fun h => isThere_lt h) urcChestProg .start h
    exact ⟨_, _, _, hr, ⟨rfl, ypool0_initial, rfl⟩, by rw [hsum.1]; decide,
      noScans_iff (by rw [List.nil_append, e]; rfl), hsum.2⟩

/-- Two inner vectors are moved into a small vector, which becomes a boxed slice; one is changed where it is. -/
def vecChestProg : List (ChestCmd (Spec.Cmd Nat)) :=
  [.use (.fromArray [1, 2]), .use (.fromArray [5]), .use .new, .call (.small (.fromArray 1 [0, 1])), .use (.on 1 (.push 9)),
    .call (.intoBoxed 0), .call (.vec (.fromBoxed 0)), .call (.vec (.call (.on 0 (.insert 1 2)))),
    .call (.vec (.call (.on 0 (.truncate 2))))]

/-- What the client holds, what the containers show, and the inner vectors. -/
def vecChestSummary (r : Option (Nat × Chest (Pool Nat))) :
    Option (List Nat × List Nat × List (Option (List Nat))) :=
  r.map fun r => (r.2.held, r.2.kept cfg64, r.2.things.lists cfgNine)

example : ∃ n ho N, CReaches (vecThings cfgNine) cfg64 ⟨⟨[], world0⟩, ypool0, []⟩ n ho N ∧
    (⟨⟨[], world0⟩, ypool0, []⟩ : Chest (Pool Nat)).Initial ⟨[], world0⟩ ∧ (⟨[], world0⟩ : Pool Nat).Initial ∧
    (∀ e ∈ ho, ¬ e.1.Scans) ∧ N.held = [] ∧ N.kept cfg64 = [0, 2] ∧
    N.things.lists cfgNine = [some [1, 2], none, some []] := by
  have hsum : vecChestSummary (chestAll (vecThings cfgNine) vecStep cfg64 vecChestProg 0 ⟨⟨[], world0⟩, ypool0, []⟩) =
      some ([], [0, 2], [some [1, 2], none, some []]) := by decide +kernel
  cases h : chestAll (vecThings cfgNine) vecStep cfg64 vecChestProg 0 ⟨⟨[], world0⟩, ypool0, []⟩ with
  | none => rw [h] at hsum; cases hsum
  | some r =>
    rw [h] at hsum
    simp only [vecChestSummary, Option.map_some, Option.some.injEq, Prod.mk.injEq] at hsum
    obtain ⟨ho, hr, e⟩ := chestAll_reaches (T := vecThings cfgNine) vecStep_use (fun {s x} h => by
      obtain ⟨v, hv⟩ := Pool.alive_iff.mp h
      exact (List.getElem?_eq_some_iff.mp hv).1) vecChestProg .start h
    exact ⟨_, _, _, hr, ⟨rfl, ypool0_initial, rfl⟩, ⟨rfl, fun _ => rfl, rfl⟩,
      noScans_iff (by rw [List.nil_append, e]; rfl), hsum⟩

/-! ## What is missing -/

/-- Two handles of one value are stored in a vector; `retain(|_| true)` loses the second; the vector is dropped. -/
def rcLossProg : List (ChestCmd (RcCmd Nat)) :=
  [.use (.new 7), .use (.clone 0), .call (.vec (.call (.fromArray [0, 1]))),
    .call (.vec (.retain 0 fun _ _ => some true)), .call (.vec (.call (.drop 0)))]

/-- C145 is false with `retain`: a program that has dropped everything it had leaves a handle that nobody owns, and the
count of the value stays at 1: its destructor never runs and its memory is never given back. -/
theorem C145_rc_owner_refuted : ∃ n ho N, CReaches (rcThings cfg64 RcCmd.Tame) cfg64 rcChest0 n ho N ∧
    n + 2 ≤ cfg64.usizeMax ∧ N.held = [] ∧ N.boxes.Empty ∧ N.things.hands = [none, some (.rc 0)] ∧
    (∃ P', runRc cfg64 (.strongCount 1) N.things = .ok (.nat 1) P') ∧ N.things.w.dropped = [] := by
  have hsum : (chestAll (rcThings cfg64 RcCmd.Tame) rcStep cfg64 rcLossProg 0 rcChest0).map (fun r =>
      (r.1, r.2.held, r.2.things.hands, r.2.things.w.dropped)) = some (3, [], [none, some (.rc 0)], []) := by
    decide +kernel
  have hsum2 : (chestAll (rcThings cfg64 RcCmd.Tame) rcStep cfg64 rcLossProg 0 rcChest0).map (fun r =>
      (r.2.boxes.x.pool.vecs.map Option.isSome, r.2.boxes.smalls.map Option.isSome,
        (r.2.boxes.x.objs 0).isSome,
        match runRc cfg64 (.strongCount 1) r.2.things with
        | .ok o _ => some o
        | _ => none)) = some ([false], [false], false, some (.nat 1)) := by
    decide +kernel
  cases h : chestAll (rcThings cfg64 RcCmd.Tame) rcStep cfg64 rcLossProg 0 rcChest0 with
  | none => rw [h] at hsum; cases hsum
  | some r =>
    rw [h] at hsum hsum2
    simp only [Option.map_some, Option.some.injEq, Prod.mk.injEq] at hsum hsum2
    obtain ⟨ho, hr, e⟩ := chestAll_reaches rcStep_use (fun h => isThere_lt h) rcLossProg .start h
    have none_in : ∀ {β : Type} {l : List (Option β)}, l.map Option.isSome = [false] →
        ∀ (x : Nat) v, l[x]? ≠ some (some v) := by
      intro β l hl x v hx
      have : (l.map Option.isSome)[x]? = some true := by rw [List.getElem?_map, hx]; rfl
      rw [hl] at this
      cases x <;> simp at this
    have hobj : ∀ x, r.2.boxes.x.objs x = none := by
      obtain ⟨S, left, i⟩ := hr.inv (rcThings_good (c := cfg64) (fun k a b e => by cases e; rfl)) ⟨[], rfl, .start⟩
        (fun _ => rfl) (by decide) (fun _ => rfl) rcChest0_initial (by rw [hsum.1]; decide)
      obtain ⟨lost, G, K, po⟩ := i.po
      intro x
      cases ho : r.2.boxes.x.objs x with
      | none => rfl
      | some o =>
        have hlt := (List.getElem?_eq_some_iff.mp (po.x.obj x o ho).1).1
        have : r.2.boxes.x.pool.vecs.length = 1 := by
          have := congrArg List.length hsum2.1
          rwa [List.length_map] at this
        have : x = 0 := by omega
        subst this
        rw [ho] at hsum2
        exact absurd hsum2.2.2.1 (by simp)
    refine ⟨_, _, _, hr, by rw [hsum.1]; decide, hsum.2.1, ⟨none_in hsum2.1, none_in hsum2.2.1, hobj⟩,
      hsum.2.2.1, ?_, hsum.2.2.2⟩
    have key := hsum2.2.2.2
    cases hk : runRc cfg64 (.strongCount 1) r.2.things with
    | ok o P' => rw [hk] at key; cases key; exact ⟨P', rfl⟩
    | _ => rw [hk] at key; cases key

end Lokky
