import Verif.Proofs.BoxPrograms
import Verif.Props.Boxed
import Verif.Props.Chests

/-!
# C150: programs with any number of boxes

`BoxReaches c P0 hist P`: a client called functions of any number of boxes of one type, in any order and in any scopes, caught
every panic, saw `hist` and arrived at `P` (Verif/Model/BoxPrograms.lean). `Spec.BoxRun` is what it expects (Verif/Spec/Boxes.lean).

Missing, because it is false: types with a destructor and zero-sized types (C26; `C150_refuted_new`, `C150_refuted_zst`), and `into_inner` (C27;
`C150_refuted_into_inner`), and, with boxes in containers, `retain` and `dedup` (C09, C10; `C150_kept_refuted`).
-/

namespace Lokky
open Spec
variable {α : Type} {c : Cfg α} {P0 P : BoxPool α} {hist : List (BoxCmd α × Option (BoxOut α))}

/-! ## What is expected -/

theorem boxes_set {S : Boxes α} {i : Nat} {a : α} (h : S[i]? = some (some a)) (o : Option α) :
    (S.filterMap id ++ o.toList).Perm ((S.set i o).filterMap id ++ [a]) := by
  induction S generalizing i with
  | nil => simp at h
  | cons y S ih =>
    cases i with
    | zero =>
      simp only [List.getElem?_cons_zero, Option.some.injEq] at h
      subst h
      cases o with
      | none => simpa using List.perm_append_comm (l₁ := [a]) (l₂ := S.filterMap id)
      | some b =>
        simp only [List.set_cons_zero, List.filterMap_cons, id, Option.toList_some, List.cons_append]
        exact ((List.perm_append_comm (l₁ := S.filterMap id) (l₂ := [b])).cons a).trans
          ((List.Perm.swap b a _).trans ((List.perm_append_comm (l₁ := [a]) (l₂ := S.filterMap id)).cons b))
    | succ i =>
      have := ih (i := i) (by simpa using h)
      cases y with
      | none => simpa using this
      | some y => simpa using this

/-- Every value that was handed over is in a box, was dropped, or was handed back: exactly one of these, once. -/
theorem Spec.BoxRun.owned {S : Boxes α} {d : List α} (h : BoxRun hist S d) :
    (hist.flatMap fun e => e.1.given).Perm (S.filterMap id ++ d ++ hist.flatMap fun e => e.1.taken e.2) := by
  induction h with
  | nil => exact .refl _
  | @snoc h S S' d d' cmd o _ hst ih =>
    simp only [List.flatMap_append, List.flatMap_cons, List.flatMap_nil, List.append_nil]
    have key : (S.filterMap id ++ cmd.given).Perm (S'.filterMap id ++ d' ++ cmd.taken o) := by
      cases hst with
      | new x m => simp [BoxCmd.given, BoxCmd.taken]
      | refused x m => simp [BoxCmd.given, BoxCmd.taken]
      | read _ => simp [BoxCmd.given, BoxCmd.taken]
      | assign x h1 => simpa [BoxCmd.given, BoxCmd.taken] using boxes_set h1 (some x)
      | eq e _ _ => simp [BoxCmd.given, BoxCmd.taken]
      | intoInner h1 => simpa [BoxCmd.given, BoxCmd.taken] using boxes_set h1 none
      | drop h1 => simpa [BoxCmd.given, BoxCmd.taken] using boxes_set h1 none
      | scope f => simp [BoxCmd.given, BoxCmd.taken]
    classical
    rw [List.perm_iff_count] at ih key ⊢
    intro x
    have h1 := ih x
    have h2 := key x
    simp only [List.count_append] at h1 h2 ⊢
    omega

/-! ## The part that holds -/

/-- C150, the part that holds: for types of non-zero size without destructor, and without `into_inner`, the client sees what it expects;
each box reads its value; the values that were dropped are those that were replaced, refused, or whose box was dropped,
in that order; every value handed over is in one box, or was dropped, once. -/
theorem C150_model_partial (hs : c.size ≠ 0) (hn : c.needsDrop = false) (hd : ∀ a, c.dropPanics a = false) (h0 : P0.Initial)
    (h : BoxReaches c P0 hist P) (hu : ∀ e ∈ hist, ¬ e.1.Unboxes) :
    ∃ S, BoxRun hist S P.w.log.drops ∧ (hist.flatMap fun e => e.1.given).Perm (S.filterMap id ++ P.w.log.drops) ∧
      ∀ (i : Nat) (a : α), S[i]? = some (some a) ↔ ∃ b, P.boxes[i]? = some (some b) ∧ Boxed.read c ⟨b, P.w⟩ = .ok a ⟨b, P.w⟩ := by
  obtain ⟨S, d, hr, I⟩ := h.inv hs hn hd h0 hu
  refine ⟨S, I.drops ▸ hr, ?_, fun i a => ⟨fun ha => ?_, ?_⟩⟩
  · have := hr.owned
    rw [I.drops]
    rwa [show (hist.flatMap fun e => e.1.taken e.2) = [] from List.flatMap_eq_nil_iff.mpr fun e he => ?_, List.append_nil] at this
    have hx := hu e he
    obtain ⟨cmd, o⟩ := e
    cases cmd <;> first | rfl | exact (hx trivial).elim
  · obtain ⟨b, hb⟩ := isThere_iff.mp ((I.there i).mpr ⟨a, ha⟩)
    obtain ⟨x, h1, h2⟩ := I.has i b hb
    rw [ha] at h1
    cases h1
    exact ⟨b, hb, Boxed.read_eq hs h2⟩
  · rintro ⟨b, hb, he⟩
    obtain ⟨x, h1, h2⟩ := I.has i b hb
    rw [Boxed.read_eq hs h2] at he
    cases he
    exact h1

/-- C150, the part that holds: the memory in use is one block for each box, of the size of the value and of the allocator the box
remembers, and no other. -/
theorem C150_memory_partial (hs : c.size ≠ 0) (hn : c.needsDrop = false) (hd : ∀ a, c.dropPanics a = false) (h0 : P0.Initial)
    (h : BoxReaches c P0 hist P) (hu : ∀ e ∈ hist, ¬ e.1.Unboxes) :
    (∀ (i : Nat) (b : BoxH), P.boxes[i]? = some (some b) → ∃ k, P.w.heap b.ptr = some k ∧ k.alloc = b.alloc ∧ k.bytes = c.size) ∧
    ∀ p k, P.w.heap p = some k → ∃! i : Nat, ∃ b, P.boxes[i]? = some (some b) ∧ b.ptr = p := by
  obtain ⟨S, d, hr, I⟩ := h.inv hs hn hd h0 hu
  refine ⟨fun i b hb => ?_, fun p k hp => ?_⟩
  · obtain ⟨x, _, h2⟩ := I.has i b hb
    exact ⟨_, h2, rfl, rfl⟩
  · obtain ⟨i, b, h1, h2⟩ := I.used p (by rw [hp]; simp)
    refine ⟨i, ⟨b, h1, h2⟩, ?_⟩
    rintro j ⟨b', h3, h4⟩
    exact I.ne j i b' b h3 h1 (h4.trans h2.symm)

/-- C150, the part that holds: every call but `into_inner` returns, or is `new` and the allocator refuses memory. -/
theorem C150_safe_partial (hs : c.size ≠ 0) (hn : c.needsDrop = false) (hd : ∀ a, c.dropPanics a = false) (h0 : P0.Initial)
    (h : BoxReaches c P0 hist P) (hu : ∀ e ∈ hist, ¬ e.1.Unboxes) {cmd : BoxCmd α} (hh : P.Has cmd) (hc : ¬ cmd.Unboxes) :
    (∃ o P', runBox c cmd P = .ok o P') ∨
    (c.grant P.w.tick c.size = false ∧ (∃ x m, cmd = .new x m) ∧ ∃ P', runBox c cmd P = .panic P' ∧ P'.boxes = P.boxes ∧ P'.w.heap = P.w.heap) := by
  obtain ⟨S, d, hr, I⟩ := h.inv hs hn hd h0 hu
  rcases I.does hs hn hd hh hc with ⟨o, P', S', d', e, _⟩ | ⟨P', S', d', e, hst, _⟩
  · exact .inl ⟨o, P', e⟩
  · right
    cases hst with
    | refused x m =>
      cases hg : c.grant P.w.tick c.size with
      | true =>
        simp only [runBox, Boxed.newWith, M.bind_apply, Boxed.tryNew_granted hs hg, hn] at e
        cases e
      | false =>
        refine ⟨rfl, ⟨x, m, rfl⟩, P', e, ?_⟩
        simp only [runBox, Boxed.newWith, M.bind_apply, Boxed.tryNew_refused hs hg, World.onLog, dropVal, hd x] at e
        cases e
        exact ⟨rfl, rfl⟩

/-- C150, the part that holds: a box comes from the allocator that the scope at hand chooses for its marker, which the box keeps, and
whatever else is called, box and allocator stay the same until the box is gone. -/
theorem C150_allocator_partial {x : α} {m : Marker} {o : Option (BoxOut α)} {P' : BoxPool α} (h : BoxHappens c P (.new x m) o P')
    (ho : o ≠ none) (hs : c.size ≠ 0) (hn : c.needsDrop = false) :
    ∃ b, P'.boxes = P.boxes ++ [some b] ∧ b.marker = m ∧ b.alloc = P.w.allocFor m := by
  cases h with
  | ret h =>
    cases hg : c.grant P.w.tick c.size with
    | true =>
      simp only [runBox, Boxed.newWith, M.bind_apply, Boxed.tryNew_granted hs hg, hn] at h
      cases h
      exact ⟨_, rfl, rfl, rfl⟩
    | false =>
      simp only [runBox, Boxed.newWith, M.bind_apply, Boxed.tryNew_refused hs hg, World.onLog, dropVal] at h
      cases hp : c.dropPanics x <;> rw [hp] at h <;> cases h
  | panic h => exact (ho rfl).elim

/-- … see `C150_allocator_partial`. -/
theorem C150_stays {cmd : BoxCmd α} {o : Option (BoxOut α)} {P' : BoxPool α} (h : BoxHappens c P cmd o P') {i : Nat} {b : BoxH}
    (hb : P.boxes[i]? = some (some b)) : P'.boxes[i]? = some (some b) ∨ cmd = .drop i ∨ cmd = .intoInner i := by
  have on : ∀ {β : Type} {m : M (BSt α) β} {j : Nat} {r : Res (BoxPool α) β}, BoxPool.on j m P = r →
      (∀ a P', r = .ok a P' → P'.boxes = P.boxes) ∧ ∀ P', r = .panic P' → P'.boxes = P.boxes := by
    intro β m j r e
    simp only [BoxPool.on] at e
    subst e
    constructor
    · intro a P' e
      split at e
      · split at e <;> cases e
        rfl
      · cases e
    · intro P' e
      split at e
      · split at e <;> cases e
        rfl
      · cases e
  have set : ∀ {j : Nat}, i ≠ j → (P.boxes.set j none)[i]? = some (some b) := by
    intro j hne
    rw [List.getElem?_set_ne (fun e => hne e.symm)]; exact hb
  cases cmd with
  | new x m =>
    left
    cases h with
    | ret h =>
      simp only [runBox] at h
      split at h <;> cases h
      rw [List.getElem?_append_left (List.getElem?_eq_some_iff.mp hb).1]; exact hb
    | panic h =>
      simp only [runBox] at h
      split at h <;> cases h
      exact hb
  | read j =>
    left
    cases h with
    | ret h =>
      simp only [runBox, M.bind_apply] at h
      split at h <;> cases h
      rename_i e
      rw [(on e).1 _ _ rfl]; exact hb
    | panic h =>
      simp only [runBox, M.bind_apply] at h
      split at h <;> cases h
      rename_i e
      rw [(on e).2 _ rfl]; exact hb
  | assign j x =>
    left
    cases h with
    | ret h =>
      simp only [runBox, M.bind_apply] at h
      split at h <;> cases h
      rename_i e
      rw [(on e).1 _ _ rfl]; exact hb
    | panic h =>
      simp only [runBox, M.bind_apply] at h
      split at h <;> cases h
      rename_i e
      rw [(on e).2 _ rfl]; exact hb
  | eq j k e =>
    left
    cases h with
    | ret h =>
      simp only [runBox] at h
      split at h
      · split at h <;> cases h
        exact hb
      · cases h
    | panic h =>
      simp only [runBox] at h
      split at h
      · split at h <;> cases h
        exact hb
      · cases h
  | intoInner j =>
    by_cases e : i = j
    · subst e; exact .inr (.inr rfl)
    · left
      cases h with
      | ret h =>
        simp only [runBox, BoxPool.losing, M.bind_apply] at h
        cases e1 : BoxPool.on j (Boxed.intoInner c) P with
        | ok a P1 => rw [e1] at h; cases h; rw [(on e1).1 _ _ rfl]; exact set e
        | panic P1 => rw [e1] at h; cases h
        | abort => rw [e1] at h; cases h
        | ub u => rw [e1] at h; cases h
      | panic h =>
        simp only [runBox, BoxPool.losing, M.bind_apply] at h
        cases e1 : BoxPool.on j (Boxed.intoInner c) P with
        | ok a P1 => rw [e1] at h; cases h
        | panic P1 => rw [e1] at h; cases h; rw [(on e1).2 _ rfl]; exact set e
        | abort => rw [e1] at h; cases h
        | ub u => rw [e1] at h; cases h
  | drop j =>
    by_cases e : i = j
    · subst e; exact .inr (.inl rfl)
    · left
      cases h with
      | ret h =>
        simp only [runBox, BoxPool.losing, M.bind_apply] at h
        cases e1 : BoxPool.on j (Boxed.drop c) P with
        | ok a P1 => rw [e1] at h; cases h; rw [(on e1).1 _ _ rfl]; exact set e
        | panic P1 => rw [e1] at h; cases h
        | abort => rw [e1] at h; cases h
        | ub u => rw [e1] at h; cases h
      | panic h =>
        simp only [runBox, BoxPool.losing, M.bind_apply] at h
        cases e1 : BoxPool.on j (Boxed.drop c) P with
        | ok a P1 => rw [e1] at h; cases h
        | panic P1 => rw [e1] at h; cases h; rw [(on e1).2 _ rfl]; exact set e
        | abort => rw [e1] at h; cases h
        | ub u => rw [e1] at h; cases h
  | scope f =>
    left
    cases h with
    | ret h => cases h; exact hb
    | panic h => cases h

/-- C150, the part that holds: when all boxes are gone, no memory is in use, and every value was dropped once. -/
theorem C150_end_partial (hs : c.size ≠ 0) (hn : c.needsDrop = false) (hd : ∀ a, c.dropPanics a = false) (h0 : P0.Initial)
    (h : BoxReaches c P0 hist P) (hu : ∀ e ∈ hist, ¬ e.1.Unboxes) (hg : ∀ (i : Nat) b, P.boxes[i]? ≠ some (some b)) :
    (∀ p, P.w.heap p = none) ∧ (hist.flatMap fun e => e.1.given).Perm P.w.log.drops := by
  obtain ⟨S, d, hr, I⟩ := h.inv hs hn hd h0 hu
  refine ⟨fun p => ?_, ?_⟩
  · by_contra hp
    obtain ⟨i, b, h1, _⟩ := I.used p hp
    exact hg i b h1
  · obtain ⟨S', _, h1, h2⟩ := C150_model_partial hs hn hd h0 h hu
    have e : S'.filterMap id = [] := by
      rw [List.filterMap_eq_nil_iff]
      intro o ho
      cases o with
      | none => rfl
      | some a =>
        obtain ⟨i, hi⟩ := List.getElem?_of_mem ho
        obtain ⟨b, hb, _⟩ := (h2 i a).mp hi
        exact (hg i b hb).elim
    rwa [e, List.nil_append] at h1

/-! ## What is missing -/

/-- C150 is false for `into_inner`, in every state with a box: the memory is freed twice. -/
theorem C150_refuted_into_inner (hs : c.size ≠ 0) (hn : c.needsDrop = false) (hd : ∀ a, c.dropPanics a = false) (h0 : P0.Initial)
    (h : BoxReaches c P0 hist P) (hu : ∀ e ∈ hist, ¬ e.1.Unboxes) {i : Nat} {b : BoxH} (hb : P.boxes[i]? = some (some b)) :
    runBox c (.intoInner i) P = .ub .oob := by
  obtain ⟨S, d, hr, I⟩ := h.inv hs hn hd h0 hu
  obtain ⟨x, _, h2⟩ := I.has i b hb
  simp only [runBox, BoxPool.losing, M.bind_apply, BoxPool.on, hb, C27_refuted hs b P.w x h2]

/-- C150 is false for types with a destructor: `new` drops what it finds in the fresh memory. -/
theorem C150_refuted_new (hs : c.size ≠ 0) (hn : c.needsDrop = true) (hg : c.grant P.w.tick c.size = true) (x : α) (m : Marker) :
    runBox c (.new x m) P = .ub .uninit := by
  simp only [runBox, C26_refuted hs hn x m P.w hg]

/-- C150 is false for zero-sized types: `new` asks the allocator for zero bytes. -/
theorem C150_refuted_zst (hs : c.size = 0) (x : α) (m : Marker) : runBox c (.new x m) P = .ub .zeroSize := by
  simp only [runBox, C26_refuted_zst hs x m P.w]

example : cfg64.size ≠ 0 ∧ cfg64.needsDrop = true ∧ cfg64.grant world0.tick cfg64.size = true := ⟨by decide, rfl, rfl⟩

/-! ## Boxes in containers -/

section Kept
variable {co : Cfg Nat} {N0 N : Chest (BoxPool α)} {n : Nat} {ho : Spec.YHistory Nat}

/-- C150: boxes in vectors, small vectors, by-value iterators and boxed slices. Whatever is called on the containers, no box has two
owners: what the client holds and what the containers show are different boxes, and each can be read. -/
theorem C150_kept_once_partial (hs : c.size ≠ 0) (hn : c.needsDrop = false) (hd : ∀ a, c.dropPanics a = false) (hi : P0.Initial)
    (hso : co.size ≠ 0) (hdo : ∀ a, co.dropPanics a = false) (h0 : N0.Initial P0) (h : CReaches (boxThings c) co N0 n ho N) :
    (N.held ++ N.kept co).Nodup ∧ ∀ x ∈ N.held ++ N.kept co, ∃ b a, N.things.boxes[x]? = some (some b) ∧
      Boxed.read c ⟨b, N.things.w⟩ = .ok a ⟨b, N.things.w⟩ := by
  obtain ⟨S, left, i⟩ := h.inv (boxThings_good hs hn hd hi n) ⟨[], rfl, by simp, .start⟩ (fun x => by
    simp [boxThings, isThere, hi.1]) hso hdo h0 (Nat.le_refl _)
  obtain ⟨a, b⟩ := i.shown hso
  obtain ⟨hist, _, hu, hr⟩ := i.good
  obtain ⟨S', d', _, I⟩ := hr.inv hs hn hd hi hu
  refine ⟨(List.nodup_append.mp a).1, fun x hx => ?_⟩
  obtain ⟨p, hp⟩ := isThere_iff.mp ((b x).mp (List.mem_append.mpr (.inl hx)))
  obtain ⟨v, _, h2⟩ := I.has x p hp
  exact ⟨p, v, hp, Boxed.read_eq hs h2⟩

/-- C150: boxes in containers. Without `retain` and `dedup`, which lose boxes (C09, C10), every box has exactly one owner: the client holds
it, or it is one element of one container. -/
theorem C150_kept_owner_partial (hs : c.size ≠ 0) (hn : c.needsDrop = false) (hd : ∀ a, c.dropPanics a = false) (hi : P0.Initial)
    (hso : co.size ≠ 0) (hdo : ∀ a, co.dropPanics a = false) (h0 : N0.Initial P0) (h : CReaches (boxThings c) co N0 n ho N)
    (hq : ∀ e ∈ ho, ¬ e.1.Scans) :
    (N.held ++ N.kept co).Nodup ∧ ∀ x, x ∈ N.held ++ N.kept co ↔ ∃ b, N.things.boxes[x]? = some (some b) := by
  obtain ⟨S, left, i⟩ := h.inv (boxThings_good hs hn hd hi n) ⟨[], rfl, by simp, .start⟩ (fun x => by
    simp [boxThings, isThere, hi.1]) hso hdo h0 (Nat.le_refl _)
  obtain ⟨a, b⟩ := i.shown hso
  rw [i.none_left hq, List.append_nil] at a b
  exact ⟨a, fun x => (b x).trans isThere_iff⟩

/-- C150: boxes in containers. Clients that keep the boxes without containers also get there, so what is proved above holds. -/
theorem C150_kept_history (hs : c.size ≠ 0) (hn : c.needsDrop = false) (hd : ∀ a, c.dropPanics a = false) (hi : P0.Initial)
    (hso : co.size ≠ 0) (hdo : ∀ a, co.dropPanics a = false) (h0 : N0.Initial P0) (h : CReaches (boxThings c) co N0 n ho N) :
    ∃ hist, hist.length = n ∧ (∀ e ∈ hist, ¬ e.1.Unboxes) ∧ BoxReaches c P0 hist N.things := by
  obtain ⟨S, left, i⟩ := h.inv (boxThings_good hs hn hd hi n) ⟨[], rfl, by simp, .start⟩ (fun x => by
    simp [boxThings, isThere, hi.1]) hso hdo h0 (Nat.le_refl _)
  exact i.good

/-- C150: boxes in containers. Every permitted call of a container returns or panics, and the destructors of the boxes it drops
all return. -/
theorem C150_kept_safe_partial (hs : c.size ≠ 0) (hn : c.needsDrop = false) (hd : ∀ a, c.dropPanics a = false) (hi : P0.Initial)
    (hso : co.size ≠ 0) (hdo : ∀ a, co.dropPanics a = false) (h0 : N0.Initial P0) (h : CReaches (boxThings c) co N0 n ho N)
    (cmd : Spec.YCmd Nat) (hl : cmd.Legal co N.boxes) (hp : cmd.Plain) (rest : List Nat) (hh : N.held.Perm (cmd.given ++ rest)) :
    (∃ ev Y', YHappens co N.boxes cmd ev Y') ∧ (∀ u, runY co cmd N.boxes ≠ .ub u) ∧
    ∀ ev Y', YHappens co N.boxes cmd ev Y' → ∃ s', (boxThings c).dropEach (droppedIn N.boxes Y') N.things = .ok () s' := by
  obtain ⟨S, left, i⟩ := h.inv (boxThings_good hs hn hd hi n) ⟨[], rfl, by simp, .start⟩ (fun x => by
    simp [boxThings, isThere, hi.1]) hso hdo h0 (Nat.le_refl _)
  obtain ⟨a, b⟩ := C127_safe_partial hso h0.2.1 i.ro hl
  refine ⟨?_, b, fun ev Y' he => ?_⟩
  · rcases a with a | ⟨_, a, ha⟩
    · exact a
    · rw [hdo a] at ha; cases ha
  · obtain ⟨P', _, _, k, _⟩ := i.call (boxThings_good hs hn hd hi (n + (droppedIn N.boxes Y').length)) hso hdo (Nat.le_refl _) hl hp hh he
    exact ⟨P', k⟩

/-- C150: boxes in containers. Without `retain` and `dedup`, once the containers are gone and the client holds no box, no memory is in
use, neither of boxes nor of containers. -/
theorem C150_kept_end_partial (hs : c.size ≠ 0) (hn : c.needsDrop = false) (hd : ∀ a, c.dropPanics a = false) (hi : P0.Initial)
    (hso : co.size ≠ 0) (hdo : ∀ a, co.dropPanics a = false) (h0 : N0.Initial P0) (h : CReaches (boxThings c) co N0 n ho N)
    (hq : ∀ e ∈ ho, ¬ e.1.Scans) (hheld : N.held = []) (hv : N.boxes.Empty) :
    (∀ p, N.things.w.heap p = none) ∧ ∀ p, N.boxes.w.heap p = none := by
  obtain ⟨S, left, i⟩ := h.inv (boxThings_good hs hn hd hi n) ⟨[], rfl, by simp, .start⟩ (fun x => by
    simp [boxThings, isThere, hi.1]) hso hdo h0 (Nat.le_refl _)
  obtain ⟨hist, _, hu, hr⟩ := i.good
  refine ⟨(C150_end_partial hs hn hd hi hr hu fun x b hb => ?_).1,
    C127_no_leak_partial hso hdo h0.2.1 i.ro hv.1 hv.2.1 hv.2.2⟩
  have := i.gone hso hheld hv hq x
  rw [show (boxThings c).alive N.things x = true from isThere_iff.mpr ⟨b, hb⟩] at this
  cases this

end Kept

/-! ## Non-trivial cases -/

/-- `BoxPool.Has` and not `Unboxes`, computed. -/
def BoxPool.may {α : Type} (P : BoxPool α) : BoxCmd α → Bool
  | .new _ _ | .scope _ => true
  | .read i | .assign i _ | .drop i => isThere P.boxes i
  | .eq i j _ => isThere P.boxes i && isThere P.boxes j
  | .intoInner _ => false

theorem BoxPool.may_iff {P : BoxPool α} {cmd : BoxCmd α} (h : P.may cmd = true) : P.Has cmd ∧ ¬ cmd.Unboxes := by
  cases cmd <;> simp_all [BoxPool.may, BoxPool.Has, BoxCmd.Unboxes]

/-- A call: what it returned, and the state after it. -/
def boxCall (c : Cfg Nat) (cmd : BoxCmd Nat) (P : BoxPool Nat) : Option (Option (BoxOut Nat) × BoxPool Nat) :=
  if P.may cmd then
    match runBox c cmd P with
    | .ok o P' => some (some o, P')
    | .panic P' => some (none, P')
    | _ => none
  else none

theorem boxCall_happens {c : Cfg Nat} {cmd : BoxCmd Nat} {P P' : BoxPool Nat} {o : Option (BoxOut Nat)}
    (h : boxCall c cmd P = some (o, P')) : P.Has cmd ∧ ¬ cmd.Unboxes ∧ BoxHappens c P cmd o P' := by
  unfold boxCall at h
  split at h
  · rename_i hm
    obtain ⟨h1, h2⟩ := BoxPool.may_iff hm
    split at h
    · rename_i e; cases h; exact ⟨h1, h2, .ret e⟩
    · rename_i e; cases h; exact ⟨h1, h2, .panic e⟩
    · cases h
  · cases h

/-- Calls one after the other. -/
def boxCalls (c : Cfg Nat) : List (BoxCmd Nat) → BoxPool Nat → Option (List (Option (BoxOut Nat)) × BoxPool Nat)
  | [], P => some ([], P)
  | cmd :: cmds, P => match boxCall c cmd P with
    | some (o, P') => (boxCalls c cmds P').map fun r => (o :: r.1, r.2)
    | none => none

theorem boxCalls_reaches {c : Cfg Nat} {P0 : BoxPool Nat} (cmds : List (BoxCmd Nat)) {P P' : BoxPool Nat} {os : List (Option (BoxOut Nat))}
    {hist : List (BoxCmd Nat × Option (BoxOut Nat))} (h0 : BoxReaches c P0 hist P) (hu : ∀ e ∈ hist, ¬ e.1.Unboxes)
    (h : boxCalls c cmds P = some (os, P')) :
    BoxReaches c P0 (hist ++ cmds.zip os) P' ∧ ∀ e ∈ hist ++ cmds.zip os, ¬ e.1.Unboxes := by
  induction cmds generalizing hist P os with
  | nil => cases h; simp only [List.zip_nil_left, List.append_nil]; exact ⟨h0, hu⟩
  | cons cmd cmds ih =>
    simp only [boxCalls] at h
    split at h
    · rename_i o P1 e
      obtain ⟨r, hr, e2⟩ := Option.map_eq_some_iff.mp h
      cases e2
      obtain ⟨h1, h2, h3⟩ := boxCall_happens e
      have := ih (.step h0 h1 h3) (fun e he => by
        rcases List.mem_append.mp he with he | he
        · exact hu e he
        · rw [List.mem_singleton.mp he]; exact h2) hr
      rw [List.append_assoc] at this
      exact this
    · cases h

/-- Values without destructor; the fourth request for memory is refused. -/
def cfgSparse : Cfg Nat := { cfg64 with needsDrop := false, grant := fun t _ => t != 3 }

/-- No boxes. -/
def boxPool0 : BoxPool Nat := ⟨[], world0⟩

theorem boxPool0_initial : boxPool0.Initial := ⟨rfl, fun _ => rfl, rfl⟩

/-- Boxes are made in two scopes, with and without marker, changed, compared, and dropped in another order; one is refused. -/
def boxProg : List (BoxCmd Nat) :=
  [.new 7 none, .scope (fun m => if m = some 4 then 2 else 1), .new 8 (some 4), .new 9 none, .assign 0 5, .eq 0 1 (· == ·), .new 6 none,
    .drop 1, .read 0, .new 5 none, .eq 0 3 (· == ·), .read 2]

set_option synthInstance.maxSize 1000 in
example : ∃ P hist, BoxReaches cfgSparse boxPool0 hist P ∧ boxPool0.Initial ∧ (∀ e ∈ hist, ¬ e.1.Unboxes) ∧
    hist.map Prod.snd = [some .unit, some .unit, some .unit, some .unit, some .unit, some (.bool false), none, some .unit, some (.val 5),
      some .unit, some (.bool true), some (.val 9)] ∧
    P.w.log.drops = [7, 6, 8] ∧ P.boxes.map (Option.map fun b => (b.alloc, b.marker)) = [some (0, none), none, some (1, none), some (1, none)] := by
  have hsum : (boxCalls cfgSparse boxProg boxPool0).map (fun r =>
      (r.1, r.2.w.log.drops, r.2.boxes.map (Option.map fun b => (b.alloc, b.marker)))) =
      some ([some .unit, some .unit, some .unit, some .unit, some .unit, some (.bool false), none, some .unit, some (.val 5),
      some .unit, some (.bool true), some (.val 9)], [7, 6, 8], [some (0, none), none, some (1, none), some (1, none)]) := by
    decide +kernel
  cases h : boxCalls cfgSparse boxProg boxPool0 with
  | none => rw [h] at hsum; cases hsum
  | some r =>
    rw [h] at hsum
    simp only [Option.map_some, Option.some.injEq, Prod.mk.injEq] at hsum
    obtain ⟨h1, h2⟩ := boxCalls_reaches (hist := []) boxProg .start (by simp) (os := r.1) (P' := r.2) h
    refine ⟨r.2, _, h1, boxPool0_initial, h2, ?_, hsum.2⟩
    rw [hsum.1]
    rfl

/-- Boxes 0, 1 and 2 go into a small vector, which becomes a vector; box 1 is changed where it is; the vector is truncated. -/
def boxChestProg : List (ChestCmd (BoxCmd Nat)) :=
  [.use (.new 7 none), .use (.new 8 none), .use (.new 9 (some 4)), .call (.small (.new 2)), .call (.small (.on 0 (.push 0))),
    .call (.small (.on 0 (.push 1))), .call (.small (.on 0 (.push 2))), .call (.intoVec 0), .use (.assign 1 3),
    .call (.vec (.call (.on 0 (.truncate 2)))), .use (.read 1)]

example : ∃ n ho N, CReaches (boxThings cfgPlain) cfg64 ⟨boxPool0, ypool0, []⟩ n ho N ∧
    (⟨boxPool0, ypool0, []⟩ : Chest (BoxPool Nat)).Initial boxPool0 ∧ (∀ e ∈ ho, ¬ e.1.Scans) ∧ N.held = [] ∧ N.kept cfg64 = [0, 1] ∧
    N.things.boxes.map Option.isSome = [true, true, false] ∧ N.things.w.log.drops = [8, 9] := by
  have hsum : (chestAll (boxThings cfgPlain) (fun k P => (boxCall cfgPlain k P).map Prod.snd) cfg64 boxChestProg 0 ⟨boxPool0, ypool0, []⟩).map
      (fun r => (r.2.held, r.2.kept cfg64, r.2.things.boxes.map Option.isSome, r.2.things.w.log.drops)) =
      some ([], [0, 1], [true, true, false], [8, 9]) := by decide +kernel
  cases h : chestAll (boxThings cfgPlain) (fun k P => (boxCall cfgPlain k P).map Prod.snd) cfg64 boxChestProg 0 ⟨boxPool0, ypool0, []⟩ with
  | none => rw [h] at hsum; cases hsum
  | some r =>
    rw [h] at hsum
    simp only [Option.map_some, Option.some.injEq, Prod.mk.injEq] at hsum
    obtain ⟨ho, hr, e⟩ := chestAll_reaches (T := boxThings cfgPlain) (fun {k s s'} hk => by
      obtain ⟨r, h1, h2⟩ := Option.map_eq_some_iff.mp hk
      cases h2
      obtain ⟨a, b, c⟩ := boxCall_happens (o := r.1) (P' := r.2) h1
      exact ⟨k, r.1, a, b, c⟩) (fun h => isThere_lt h) boxChestProg .start h
    exact ⟨_, _, _, hr, ⟨rfl, ypool0_initial, rfl⟩, noScans_iff (by rw [List.nil_append, e]; rfl), hsum⟩

/-- Two boxes are stored in a vector; `retain(|_| true)` loses the second; the vector is dropped. -/
def boxLossProg : List (ChestCmd (BoxCmd Nat)) :=
  [.use (.new 7 none), .use (.new 8 none), .call (.vec (.call (.fromArray [0, 1]))), .call (.vec (.retain 0 fun _ _ => some true)),
    .call (.vec (.call (.drop 0)))]

/-- C150 is false with `retain` on a vector of boxes: the client holds no box, the containers hold none, but a box is left, whose memory
is never given back and whose value is never dropped. -/
theorem C150_kept_refuted : ∃ n ho N, CReaches (boxThings cfgPlain) cfg64 ⟨boxPool0, ypool0, []⟩ n ho N ∧
    (⟨boxPool0, ypool0, []⟩ : Chest (BoxPool Nat)).Initial boxPool0 ∧ N.held = [] ∧ N.kept cfg64 = [] ∧
    N.things.boxes.map Option.isSome = [false, true] ∧ N.things.w.log.drops = [7] ∧ ((N.things.w.heap 1).isSome = true) := by
  have hsum : (chestAll (boxThings cfgPlain) (fun k P => (boxCall cfgPlain k P).map Prod.snd) cfg64 boxLossProg 0 ⟨boxPool0, ypool0, []⟩).map
      (fun r => (r.2.held, r.2.kept cfg64, r.2.things.boxes.map Option.isSome, r.2.things.w.log.drops,
        (r.2.things.w.heap 1).isSome)) = some ([], [], [false, true], [7], true) := by decide +kernel
  cases h : chestAll (boxThings cfgPlain) (fun k P => (boxCall cfgPlain k P).map Prod.snd) cfg64 boxLossProg 0 ⟨boxPool0, ypool0, []⟩ with
  | none => rw [h] at hsum; cases hsum
  | some r =>
    rw [h] at hsum
    simp only [Option.map_some, Option.some.injEq, Prod.mk.injEq] at hsum
    obtain ⟨ho, hr, e⟩ := chestAll_reaches (T := boxThings cfgPlain) (fun {k s s'} hk => by
      obtain ⟨r, h1, h2⟩ := Option.map_eq_some_iff.mp hk
      cases h2
      obtain ⟨a, b, c⟩ := boxCall_happens (o := r.1) (P' := r.2) h1
      exact ⟨k, r.1, a, b, c⟩) (fun h => isThere_lt h) boxLossProg .start h
    exact ⟨_, _, _, hr, ⟨rfl, ypool0_initial, rfl⟩, hsum⟩

end Lokky
