import Verif.Proofs.Nesting
import Verif.Props.Chests

/-!
# C146 Containers nested to any depth

Vectors, small vectors, by-value iterators and boxed slices of such containers, to any depth `k`. The theorems need not
know the depth. Missing, because it is false (C09, C10): that containers in a container on which `retain` or `dedup` is called
keep their owners; the theorems that speak of this exclude these calls above level 0 (`hA`). Destructors that panic
are excluded (`hd`, `hdo`).
-/

namespace Lokky
variable {α : Type} {c : Cfg α} {co : Nat → Cfg Nat} {A : Nat → Spec.YCmd Nat → Prop} {Y0 : YPool α} {O0 : YPool Nat}
  {k n : Nat} {N : Nested α k}

/-- C146, no two owners: on every level, the containers held by the client and those shown by the containers of the
next level are all different, and exist; whatever calls were made. -/
theorem C146_once_partial (hs : c.size ≠ 0) (hd : ∀ a, c.dropPanics a = false) (hso : ∀ k, (co k).size ≠ 0)
    (hdo : ∀ k a, (co k).dropPanics a = false) (h0 : Y0.Initial) (h1 : O0.Initial)
    (h : (nestThings c co A k).Reaches (nest0 Y0 O0 k) n N) : Nested.Once co k N := by
  replace h := nest_inv hs hd hso hdo h0 h1 h
  clear h1
  induction k generalizing n with
  | zero => trivial
  | succ k ih =>
    obtain ⟨m, ho, S, left, i, _⟩ := h
    obtain ⟨p1, p2⟩ := i.shown (hso k)
    refine ⟨ih i.good, (List.nodup_append.mp p1).1, fun x hx => ?_⟩
    rw [← nest_alive (c := c) (co := co) (A := A)]
    exact (p2 x).mp (List.mem_append.mpr (.inl hx))

/-- C146, an owner: on every level but the top, each container that exists is held by the client or shown by a container
of the next level. -/
theorem C146_owned_partial (hs : c.size ≠ 0) (hd : ∀ a, c.dropPanics a = false) (hso : ∀ k, (co k).size ≠ 0)
    (hdo : ∀ k a, (co k).dropPanics a = false) (h0 : Y0.Initial) (h1 : O0.Initial)
    (h : (nestThings c co A k).Reaches (nest0 Y0 O0 k) n N) (hA : ∀ j cmd, A j cmd → ¬ cmd.Scans) :
    Nested.Owned co k N := by
  replace h := nest_inv hs hd hso hdo h0 h1 h
  clear h1
  induction k generalizing n with
  | zero => trivial
  | succ k ih =>
    obtain ⟨m, ho, S, left, i, q⟩ := h
    obtain ⟨p1, p2⟩ := i.shown (hso k)
    refine ⟨ih i.good, fun x hx => ?_⟩
    rw [← nest_alive (c := c) (co := co) (A := A)] at hx
    have := (p2 x).mpr hx
    rwa [i.none_left fun e he => (q e he).elim (hA k e.1) id, List.append_nil] at this

/-- C146, safety: on every level, every call a client may make returns or panics. It drops no container twice, and
the destructors of the containers it drops, with all that is in them, return. -/
theorem C146_safe_partial (hs : c.size ≠ 0) (hd : ∀ a, c.dropPanics a = false) (hso : ∀ k, (co k).size ≠ 0)
    (hdo : ∀ k a, (co k).dropPanics a = false) (h0 : Y0.Initial) (h1 : O0.Initial)
    (h : (nestThings c co A k).Reaches (nest0 Y0 O0 k) n N) : Nested.Safe c co A k N := by
  replace h := nest_inv hs hd hso hdo h0 h1 h
  clear h1
  induction k generalizing n with
  | zero =>
    obtain ⟨hist, hr⟩ := h
    obtain ⟨_, _, _, _, _, _, _, i⟩ := hr.inv hs h0
    exact fun cmd hl => i.happens hs hd hl
  | succ k ih =>
    obtain ⟨m, ho, S, left, i, q⟩ := h
    obtain ⟨_, _, _, po⟩ := i.po
    refine ⟨ih i.good, fun cmd rest hl hp hh => ⟨po.happens (hso k) (hdo k) hl, fun ev Y' he => ?_⟩⟩
    obtain ⟨n1, a1⟩ := i.drops (hso k) hl hp hh he
    obtain ⟨s', k1, _, _, k4⟩ := (nest_good hs hd hso hdo h0 k _).dropEach _ i.good (Nat.le_refl _) n1 a1
    refine ⟨n1, s', k1, fun y => ?_⟩
    have := k4 y
    rwa [nest_alive, nest_alive] at this

/-- C146, destructors: dropping a container of the top level returns, with the destructors of everything in it, and
leaves the other containers of this level. -/
theorem C146_drop_partial (hs : c.size ≠ 0) (hd : ∀ a, c.dropPanics a = false) (hso : ∀ k, (co k).size ≠ 0)
    (hdo : ∀ k a, (co k).dropPanics a = false) (h0 : Y0.Initial) (h1 : O0.Initial)
    (h : (nestThings c co A k).Reaches (nest0 Y0 O0 k) n N) {x : Nat} (hx : Nested.there k N x = true) :
    ∃ N', (nestThings c co A k).drop x N = .ok () N' ∧
      ∀ y, Nested.there k N' y = true ↔ Nested.there k N y = true ∧ y ≠ x := by
  replace h := nest_inv hs hd hso hdo h0 h1 h
  rw [← nest_alive (c := c) (co := co) (A := A)] at hx
  obtain ⟨N', k1, _, _, k4⟩ := (nest_good hs hd hso hdo h0 k (n + 1)).drop h (Nat.lt_succ_self _) hx
  refine ⟨N', k1, fun y => ?_⟩
  have := k4 y
  rwa [nest_alive, nest_alive] at this

/-- C146, the levels do what C127 says: the containers of each level, with the calls made on them and the destructors that
ran, are those of a program of C127, so that its theorems hold of their elements. -/
theorem C146_levels_partial (hs : c.size ≠ 0) (hd : ∀ a, c.dropPanics a = false) (hso : ∀ k, (co k).size ≠ 0)
    (hdo : ∀ k a, (co k).dropPanics a = false) (h0 : Y0.Initial) (h1 : O0.Initial)
    (h : (nestThings c co A k).Reaches (nest0 Y0 O0 k) n N) :
    (∃ hist, YReaches c Y0 hist (Nested.bottom k N)) ∧
      ∀ (j : Nat) Y, (Nested.upper k N)[j]? = some Y → ∃ hist, YReaches (co j) O0 hist Y := by
  replace h := nest_inv hs hd hso hdo h0 h1 h
  clear h1
  suffices hq : (Nested.upper k N).length = k ∧ (∃ hist, YReaches c Y0 hist (Nested.bottom k N)) ∧
      ∀ (j : Nat) Y, (Nested.upper k N)[j]? = some Y → ∃ hist, YReaches (co j) O0 hist Y from hq.2
  induction k generalizing n with
  | zero => exact ⟨rfl, h, fun j Y e => by cases e⟩
  | succ k ih =>
    obtain ⟨m, ho, S, left, i, q⟩ := h
    obtain ⟨e1, e2, e3⟩ := ih i.good
    refine ⟨by simp [Nested.upper, e1], e2, fun j Y e => ?_⟩
    simp only [Nested.upper] at e
    rcases Nat.lt_trichotomy j k with hj | hj | hj
    · rw [List.getElem?_append_left (by omega)] at e
      exact e3 j Y e
    · subst hj
      rw [List.getElem?_append_right (by omega), e1, Nat.sub_self] at e
      cases e
      exact ⟨ho, i.ro⟩
    · rw [List.getElem?_append_right (by omega), e1, List.getElem?_eq_none (by simp; omega)] at e
      cases e

/-- C146, the end: once the client holds nothing and there are no containers on the top level, there are none on any
level and all memory of all levels is given back. -/
theorem C146_freed_partial (hs : c.size ≠ 0) (hd : ∀ a, c.dropPanics a = false) (hso : ∀ k, (co k).size ≠ 0)
    (hdo : ∀ k a, (co k).dropPanics a = false) (h0 : Y0.Initial) (h1 : O0.Initial)
    (h : (nestThings c co A k).Reaches (nest0 Y0 O0 k) n N) (hA : ∀ j cmd, A j cmd → ¬ cmd.Scans)
    (hh : Nested.NoneHeld k N) (ht : ∀ x, Nested.there k N x = false) :
    Nested.Freed k N ∧ (∀ x, (Nested.bottom k N).there x = false) ∧
      ∀ Y ∈ Nested.upper k N, ∀ x, Y.there x = false := by
  replace h := nest_inv hs hd hso hdo h0 h1 h
  induction k generalizing n with
  | zero =>
    obtain ⟨hist, hr⟩ := h
    obtain ⟨e1, e2, e3⟩ := YPool.empty_of ht
    exact ⟨C127_no_leak_partial hs hd h0 hr e1 e2 e3, ht, fun Y hY => by cases hY⟩
  | succ k ih =>
    obtain ⟨m, ho, S, left, i, q⟩ := h
    have he := YPool.empty_of ht
    have below : ∀ x, Nested.there k (Chest.things N) x = false := by
      intro x
      rw [← nest_alive (c := c) (co := co) (A := A)]
      exact i.gone (hso k) hh.2 he (fun e he => (q e he).elim (hA k e.1) id) x
    obtain ⟨k1, k2, k3⟩ := ih hh.1 below i.good
    refine ⟨⟨k1, C127_no_leak_partial (hso k) (hdo k) h1 i.ro he.1 he.2.1 he.2.2⟩, k2, fun Y hY => ?_⟩
    rcases List.mem_append.mp hY with hY | hY
    · exact k3 Y hY
    · rw [List.mem_singleton.mp hY]; exact ht

/-! ## A non-trivial case: depth 2 -/

/-- Level 0: vectors 0 and 2 and a spilled small vector 1. Level 1: the vector 0 of the containers 0 and 1, and the small
vector 1 of the container 2. Level 2: the vector 0 of both, which becomes an iterator; vector 0 of level 1 is taken out again
and loses its second element to the client, and the iterator is dropped with what it still has. -/
def deepProg : List (NestCmd Nat 2) :=
  [ChestCmd.use (ChestCmd.use (Spec.YCmd.vec (.call (.fromArray [1, 2])))),
    ChestCmd.use (ChestCmd.use (Spec.YCmd.small (.fromArray 1 [5, 6]))),
    ChestCmd.use (ChestCmd.use (Spec.YCmd.vec (.call (.fromArray [7])))),
    ChestCmd.use (ChestCmd.call (.vec (.call (.fromArray [0, 1])))),
    ChestCmd.use (ChestCmd.call (.small (.new 2))),
    ChestCmd.use (ChestCmd.call (.small (.on 1 (.push 2)))),
    ChestCmd.call (.vec (.call (.fromArray [0, 1]))),
    ChestCmd.use (ChestCmd.use (Spec.YCmd.vec (.call (.on 0 (.push 9))))),
    ChestCmd.call (.vec (.intoIter 0)), ChestCmd.call (.vec (.next 0)), ChestCmd.call (.vec (.dropIter 0)),
    ChestCmd.use (ChestCmd.call (.vec (.call (.on 0 .pop))))]

/-- The rest: everything goes back into containers and is dropped. -/
def deepEnd : List (NestCmd Nat 2) :=
  [ChestCmd.use (ChestCmd.call (.vec (.call (.on 0 (.push 1))))), ChestCmd.call (.vec (.call (.fromArray [0]))),
    ChestCmd.call (.vec (.intoBoxed 1)), ChestCmd.call (.vec (.dropBox 1))]

/-- What the client holds and what the containers show, from the top, and which containers of level 0 there are. -/
def deepSummary (r : Option (Nested Nat 2)) : Option (List (List Nat) × List Bool) :=
  r.map fun (N : Chest (Chest (YPool Nat))) => ([N.held, N.kept cfg64, N.things.held, N.things.kept cfg64,
    N.things.things.vecsShow cfg64 ++ N.things.things.smallsShow cfg64],
    [N.boxes.there 0, N.boxes.there 1, N.things.things.there 0, N.things.things.there 1, N.things.things.there 2])

/-- No `retain` and `dedup`. -/
def noScan (cmd : Spec.YCmd Nat) : Bool := !cmd.scanning

example : deepSummary (nestRun cfg64 (fun _ => cfg64) noScan 2 (deepProg.take 8) (nest0 ypool0 ypool0 2)) =
    some ([[], [0, 1], [], [0, 1, 2], [1, 2, 9, 7, 5, 6]], [true, false, true, true, true]) := by decide +kernel

example : deepSummary (nestRun cfg64 (fun _ => cfg64) noScan 2 deepProg (nest0 ypool0 ypool0 2)) =
    some ([[0], [], [1], [0], [1, 2, 9, 5, 6]], [false, false, true, true, false]) := by decide +kernel

example : ∃ n N, (nestThings cfg64 (fun _ => cfg64) (fun _ cmd => noScan cmd = true) 2).Reaches
      (nest0 ypool0 ypool0 2) n N ∧ ypool0.Initial ∧ (∀ (_ : Nat) cmd, noScan cmd = true → ¬ cmd.Scans) ∧
    deepSummary (some N) = some ([[0], [], [1], [0], [1, 2, 9, 5, 6]], [false, false, true, true, false]) := by
  have hsum : deepSummary (nestRun cfg64 (fun _ => cfg64) noScan 2 deepProg (nest0 ypool0 ypool0 2)) =
    some ([[0], [], [1], [0], [1, 2, 9, 5, 6]], [false, false, true, true, false]) := by decide +kernel
  cases h : nestRun cfg64 (fun _ => cfg64) noScan 2 deepProg (nest0 ypool0 ypool0 2) with
  | none => rw [h] at hsum; cases hsum
  | some N =>
    rw [h] at hsum
    exact ⟨_, N, nestRun_reaches (by decide) (fun _ => rfl) (fun _ => by decide) (fun _ _ => rfl) ypool0_initial
      ypool0_initial deepProg .start h, ypool0_initial, fun _ cmd hc => by
        rw [← Spec.YCmd.scanning_iff]; simpa [noScan] using hc, hsum⟩

/-- What the client holds, how many containers of level 2 were made, and which of them there are. -/
def deepEndSummary (r : Option (Nested Nat 2)) : Option (List Nat × List Nat × Nat × Bool × Bool) :=
  r.map fun (N : Chest (Chest (YPool Nat))) => (N.held, N.things.held, N.boxes.x.pool.vecs.length,
    N.boxes.there 0, N.boxes.there 1)

/-- The hypotheses of `C146_freed_partial`. -/
example : ∃ n N, (nestThings cfg64 (fun _ => cfg64) (fun _ cmd => noScan cmd = true) 2).Reaches
      (nest0 ypool0 ypool0 2) n N ∧ Nested.NoneHeld 2 N ∧ ∀ x, Nested.there 2 N x = false := by
  have hsum : deepEndSummary (nestRun cfg64 (fun _ => cfg64) noScan 2 (deepProg ++ deepEnd) (nest0 ypool0 ypool0 2)) =
      some ([], [], 2, false, false) := by decide +kernel
  cases h : nestRun cfg64 (fun _ => cfg64) noScan 2 (deepProg ++ deepEnd) (nest0 ypool0 ypool0 2) with
  | none => rw [h] at hsum; cases hsum
  | some N =>
    rw [h] at hsum
    injection hsum with hsum
    injection hsum with e1 hsum
    injection hsum with e2 hsum
    injection hsum with e3 hsum
    injection hsum with e4 e5
    have hr := nestRun_reaches (by decide) (fun _ => rfl) (fun _ => by decide) (fun _ _ => rfl) ypool0_initial
      ypool0_initial (deepProg ++ deepEnd) .start h
    refine ⟨_, N, hr, ⟨⟨trivial, e2⟩, e1⟩, fun x => ?_⟩
    cases hx : Nested.there 2 N x with
    | false => rfl
    | true =>
      have hi := nest_inv (by decide) (fun _ => rfl) (fun _ => by decide) (fun _ _ => rfl) ypool0_initial ypool0_initial hr
      have hlt : x < (Chest.boxes N).x.pool.vecs.length := (nest_good (A := fun _ cmd => noScan cmd = true) (O0 := ypool0) (by decide)
        (fun _ => rfl) (fun _ => by decide) (fun _ _ => rfl) ypool0_initial 2 0).lt hi hx
      rw [e3] at hlt
      have : x = 0 ∨ x = 1 := by omega
      rcases this with rfl | rfl
      · rw [← hx]; exact e4
      · rw [← hx]; exact e5

/-! ## What is missing -/

/-- Two vectors in a vector; `retain(|_| true)` loses the second; the outer vector is dropped. -/
def deepLoss : List (NestCmd Nat 1) :=
  [ChestCmd.use (Spec.YCmd.vec (.call (.fromArray [1, 2]))), ChestCmd.use (Spec.YCmd.vec (.call (.fromArray [7]))),
    ChestCmd.call (.vec (.call (.fromArray [0, 1]))), ChestCmd.call (.vec (.retain 0 fun _ _ => some true)),
    ChestCmd.call (.vec (.call (.drop 0)))]

/-- What the client holds, how many containers of level 1 were made, whether there is one, whether there is container 1 of
level 0, and whether its memory is live. -/
def deepLossSummary (r : Option (Nested Nat 1)) : Option (List Nat × Nat × Bool × Bool × Bool) :=
  r.map fun (N : Chest (YPool Nat)) => (N.held, N.boxes.x.pool.vecs.length, N.boxes.there 0, N.things.there 1,
    match N.things.x.pool.vecs[1]? with
    | some (some v) => v.ptr.any fun p => (N.things.w.heap p).isSome
    | _ => false)

/-- C146 is false with `retain`: a program that has dropped everything it had leaves a vector that nobody owns, whose
memory is never given back. -/
theorem C146_refuted : ∃ n N, (nestThings cfg64 (fun _ => cfg64) (fun _ _ => True) 1).Reaches
      (nest0 ypool0 ypool0 1) n N ∧ Nested.NoneHeld 1 N ∧ (∀ x, Nested.there 1 N x = false) ∧
    (Nested.bottom 1 N).there 1 = true ∧ ¬ Nested.Freed 1 N := by
  have hsum : deepLossSummary (nestRun cfg64 (fun _ => cfg64) (fun _ => true) 1 deepLoss (nest0 ypool0 ypool0 1)) =
      some ([], 1, false, true, true) := by decide +kernel
  cases h : nestRun cfg64 (fun _ => cfg64) (fun _ => true) 1 deepLoss (nest0 ypool0 ypool0 1) with
  | none => rw [h] at hsum; cases hsum
  | some N =>
    rw [h] at hsum
    injection hsum with hsum
    injection hsum with e1 hsum
    injection hsum with e2 hsum
    injection hsum with e3 hsum
    injection hsum with e4 e5
    have hr := nestRun_reaches (by decide) (fun _ => rfl) (fun _ => by decide) (fun _ _ => rfl) ypool0_initial
      ypool0_initial deepLoss .start h
    have eA : (fun (_ : Nat) (_ : Spec.YCmd Nat) => true = true) = fun _ _ => True := by simp
    rw [eA] at hr
    refine ⟨_, N, hr, ⟨trivial, e1⟩, fun x => ?_, e4, fun hf => ?_⟩
    · cases hx : Nested.there 1 N x with
      | false => rfl
      | true =>
        have hi := nest_inv (by decide) (fun _ => rfl) (fun _ => by decide) (fun _ _ => rfl) ypool0_initial
          ypool0_initial hr
        have hlt : x < (Chest.boxes N).x.pool.vecs.length := (nest_good (A := fun _ _ => True) (O0 := ypool0)
          (by decide) (fun _ => rfl) (fun _ => by decide) (fun _ _ => rfl) ypool0_initial 1 0).lt hi hx
        rw [e2] at hlt
        have : x = 0 := by omega
        subst this
        rw [← hx]; exact e3
    · have hf : ∀ p, (Chest.things N).w.heap p = none := hf.1
      split at e5
      · simp [hf] at e5
      · cases e5

end Lokky
