import Verif.Props.Urc
import Verif.Props.Arc
import Verif.Props.Rc

/-!
# C128: handles that are forgotten

`mem::forget` is safe, so that a program can make handles without end: a handle that is forgotten is one that
is never used again. `Rc` and `Urc` do not look at the size of their counts (rc.rs 41-44; urc.rs 74-77), which wrap
around in release builds. `Arc` does (arc.rs 482-493), but panics, which can be caught, after it has already
raised the count.
-/

namespace Lokky
open Spec
variable {α : Type}

theorem uadd_wraps {σ : Type} {c : Cfg α} (hd : c.debug = false) {a : Nat} (ha : a ≤ c.usizeMax) (s : σ) :
    uadd c a 1 s = .ok ((a + 1) % (c.usizeMax + 1)) s := by
  unfold uadd
  by_cases h : a + 1 ≤ c.usizeMax
  · rw [if_pos h, Nat.mod_eq_of_lt (by omega)]
    rfl
  · rw [if_neg h, hd]
    rfl

theorem mod_succ (k m : Nat) : ((k + 1) % m + 1) % m = (k + 1 + 1) % m := by
  rw [Nat.mod_add_mod]

theorem replicate_snoc {β : Type} (n : Nat) (a : β) : List.replicate n a ++ [a] = List.replicate (n + 1) a := by
  rw [List.replicate_succ']

theorem replicate_get {β : Type} {n i : Nat} (a : β) (h : i < n) : (List.replicate n a)[i]? = some a := by
  simp [List.getElem?_replicate, h]

/-! ## `Rc` -/

/-- A release build: `Rc::new(x)` and `k` clones of it. -/
theorem rc_clones {c : Cfg α} (hd : c.debug = false) (hg : c.grant 0 c.size = true) (x : α) (k : Nat) :
    ∃ hist, RcReaches c RcCmd.Permitted hist ⟨List.replicate (k + 1) (some (.rc 0)),
      ⟨[some ⟨(k + 1) % (c.usizeMax + 1), 0, x⟩], 1, 0, 0, []⟩⟩ := by
  have hM : 1 ≤ c.usizeMax := by unfold Cfg.usizeMax; omega
  induction k with
  | zero =>
    refine ⟨_, RcReaches.step (cmd := .new x) .start ⟨⟨trivial, trivial⟩, trivial⟩ (.ret (o := .unit) ?_)⟩
    simp [runRc, RcPool.make, RcPool.on, Rc.new, Rc.alloc, M.bind_apply, M.pure_apply, RcPool.start, hg,
      Nat.mod_eq_of_lt (show 1 < c.usizeMax + 1 by omega)]
  | succ k ih =>
    obtain ⟨hist, ih⟩ := ih
    have h0 : (List.replicate (k + 1) (some (Hand.rc 0)))[0]? = some (some (.rc 0)) :=
      replicate_get _ (by omega)
    refine ⟨_, RcReaches.step (cmd := .clone 0) ih ⟨⟨⟨_, h0⟩, trivial⟩, trivial⟩ (.ret (o := .unit) ?_)⟩
    have hs : (k + 1) % (c.usizeMax + 1) ≤ c.usizeMax := by
      have := Nat.mod_lt (k + 1) (show 0 < c.usizeMax + 1 by omega)
      omega
    simp only [runRc, h0, RcPool.make, RcPool.on, Rc.clone, Rc.incStrong, M.bind_apply, M.pure_apply, Rc.inner,
      List.getElem?_cons_zero, uadd_wraps hd hs, Rc.put, M.modify, mod_succ, Function.comp, replicate_snoc,
      List.set_cons_zero]

/-- C128 is false for `Rc` in release builds: after `usize::MAX + 1` clones the count is one again. `get_mut` on
handle 0 gives access to the value that handle 1 reads. -/
theorem C128_rc_refuted : ∃ hist P, RcReaches cfgRcRelease RcCmd.Permitted hist P ∧
    P.hands[0]? = some (some (.rc 0)) ∧ P.hands[1]? = some (some (.rc 0)) ∧
    runRc cfgRcRelease (.strongCount 0) P = .ok (.nat 1) P ∧
    ∃ P', runRc cfgRcRelease (.setMut 0 9) P = .ok (.opt (some 7)) P' ∧
      runRc cfgRcRelease (.read 1) P' = .ok (.val 9) P' := by
  obtain ⟨hist, h⟩ := rc_clones (c := cfgRcRelease) rfl rfl 7 (cfgRcRelease.usizeMax + 1)
  rw [show (cfgRcRelease.usizeMax + 1 + 1) % (cfgRcRelease.usizeMax + 1) = 1 from by
    rw [Nat.add_mod_left]; rfl] at h
  have h0 : (List.replicate (cfgRcRelease.usizeMax + 1 + 1) (some (Hand.rc 0)))[0]? = some (some (.rc 0)) :=
    replicate_get _ (by omega)
  have h1 : (List.replicate (cfgRcRelease.usizeMax + 1 + 1) (some (Hand.rc 0)))[1]? = some (some (.rc 0)) :=
    replicate_get _ (by omega)
  refine ⟨hist, _, h, h0, h1, ?_, ⟨List.replicate (cfgRcRelease.usizeMax + 1 + 1) (some (.rc 0)),
    ⟨[some ⟨1, 0, 9⟩], 1, 0, 0, []⟩⟩, ?_, ?_⟩
  · simp only [runRc, h0, RcPool.look, RcPool.on, Rc.strongCount, M.bind_apply, M.pure_apply, Rc.inner,
      List.getElem?_cons_zero]
  · simp [runRc, h0, RcPool.look, RcPool.on, Rc.getMut, Rc.write, M.bind_apply, M.pure_apply, Rc.inner, Rc.put,
      M.modify]
  · simp only [runRc, h1, RcPool.look, RcPool.on, Rc.asRef, M.bind_apply, M.pure_apply, Rc.inner,
      List.getElem?_cons_zero]

/-- C128 for `Rc` in debug builds, any number of clones: as many handles as the count says; it is never
exceeded, as further calls panic. -/
theorem C128_rc_debug_partial {c : Cfg α} (hd : c.debug = true) (hg : c.grant 0 c.size = true) (x : α) (k : Nat) :
    ∃ hist P, RcReaches c RcCmd.Permitted hist P ∧ hist.map (·.1) = .new x :: List.replicate k (.clone 0) ∧
      P.hands = List.replicate (min (k + 1) c.usizeMax) (some (.rc 0)) ∧
      ∀ i, P.hands[i]? = some (some (.rc 0)) →
        runRc c (.strongCount i) P = .ok (.nat (P.hands.rcs 0)) P ∧ runRc c (.read i) P = .ok (.val x) P := by
  have hM : 1 ≤ c.usizeMax := by unfold Cfg.usizeMax; omega
  suffices H : ∃ hist, RcReaches c RcCmd.Permitted hist ⟨List.replicate (min (k + 1) c.usizeMax) (some (.rc 0)),
      ⟨[some ⟨min (k + 1) c.usizeMax, 0, x⟩], 1, 0, 0, []⟩⟩ ∧
      hist.map (·.1) = .new x :: List.replicate k (.clone 0) by
    obtain ⟨hist, h, e⟩ := H
    refine ⟨hist, _, h, e, rfl, fun i hi => ⟨?_, ?_⟩⟩
    · simp only [runRc, hi, RcPool.look, RcPool.on, Rc.strongCount, M.bind_apply, M.pure_apply, Rc.inner,
        List.getElem?_cons_zero, Hands.rcs, List.count_replicate_self]
    · simp only [runRc, hi, RcPool.look, RcPool.on, Rc.asRef, M.bind_apply, M.pure_apply, Rc.inner,
        List.getElem?_cons_zero]
  induction k with
  | zero =>
    refine ⟨_, RcReaches.step (cmd := .new x) .start ⟨⟨trivial, trivial⟩, trivial⟩ (.ret (o := .unit) ?_), rfl⟩
    simp [runRc, RcPool.make, RcPool.on, Rc.new, Rc.alloc, M.bind_apply, M.pure_apply, RcPool.start, hg,
      show min 1 c.usizeMax = 1 by omega]
  | succ k ih =>
    obtain ⟨hist, ih, e⟩ := ih
    have h0 : (List.replicate (min (k + 1) c.usizeMax) (some (Hand.rc 0)))[0]? = some (some (.rc 0)) :=
      replicate_get _ (by omega)
    by_cases hk : k + 1 < c.usizeMax
    · rw [show min (k + 1) c.usizeMax = k + 1 by omega] at ih h0
      rw [show min (k + 1 + 1) c.usizeMax = k + 1 + 1 by omega]
      refine ⟨_, RcReaches.step (cmd := .clone 0) ih ⟨⟨⟨_, h0⟩, trivial⟩, trivial⟩ (.ret (o := .unit) ?_), ?_⟩
      · simp only [runRc, h0, RcPool.make, RcPool.on, Rc.clone, Rc.incStrong, M.bind_apply, M.pure_apply, Rc.inner,
          List.getElem?_cons_zero, uadd, if_pos (show k + 1 + 1 ≤ c.usizeMax by omega), Rc.put, M.modify,
          Function.comp, replicate_snoc, List.set_cons_zero]
      · rw [List.map_append, e, List.replicate_succ' (n := k) (a := (RcCmd.clone 0 : RcCmd α))]
        rfl
    · rw [show min (k + 1) c.usizeMax = c.usizeMax by omega] at ih h0
      rw [show min (k + 1 + 1) c.usizeMax = c.usizeMax by omega]
      refine ⟨_, RcReaches.step (cmd := .clone 0) ih ⟨⟨⟨_, h0⟩, trivial⟩, trivial⟩ (.panic ?_), ?_⟩
      · simp only [runRc, h0, RcPool.make, RcPool.on, Rc.clone, Rc.incStrong, M.bind_apply, Rc.inner,
          List.getElem?_cons_zero, uadd, if_neg (show ¬ c.usizeMax + 1 ≤ c.usizeMax by omega), hd, if_true,
          M.boom]
      · rw [List.map_append, e, List.replicate_succ' (n := k) (a := (RcCmd.clone 0 : RcCmd α))]
        rfl

example : cfg64.debug = true ∧ cfg64.grant 0 cfg64.size = true := ⟨rfl, rfl⟩

/-! ## `Urc` -/

/-- A release build: `Urc::new(x)` and `k` clones of it. -/
theorem urc_clones {c : Cfg α} (hd : c.debug = false) (hg : c.grant 0 c.size = true) (hg' : c.grant 1 c.size = true)
    (x : α) (k : Nat) :
    ∃ hist, UrcReaches c (UrcCmd.Permitted c) hist ⟨List.replicate (k + 1) (some (.urc 0)),
      ⟨[some ⟨1, 0, x, true, 0⟩], [some ⟨(k + 1) % (c.usizeMax + 1), 0, 0⟩], 2, 0, []⟩⟩ := by
  have hM : 1 ≤ c.usizeMax := by unfold Cfg.usizeMax; omega
  induction k with
  | zero =>
    refine ⟨_, UrcReaches.step (cmd := .new x) .start ⟨trivial, trivial⟩ (.ret (o := .unit) ?_)⟩
    simp [runUrc, UrcPool.make, UrcPool.on, Urc.new, Urc.allocMaster, Urc.allocFence, M.bind_apply, M.pure_apply,
      UrcPool.start, hg, hg', Nat.mod_eq_of_lt (show 1 < c.usizeMax + 1 by omega)]
  | succ k ih =>
    obtain ⟨hist, ih⟩ := ih
    have h0 : (List.replicate (k + 1) (some (UrcHand.urc 0)))[0]? = some (some (.urc 0)) :=
      replicate_get _ (by omega)
    refine ⟨_, UrcReaches.step (cmd := .clone 0) ih ⟨⟨_, h0⟩, trivial⟩ (.ret (o := .unit) ?_)⟩
    have hs : (k + 1) % (c.usizeMax + 1) ≤ c.usizeMax := by
      have := Nat.mod_lt (k + 1) (show 0 < c.usizeMax + 1 by omega)
      omega
    simp only [runUrc, h0, UrcPool.make, UrcPool.on, Urc.clone, Urc.incStrong, M.bind_apply, M.pure_apply, Urc.fence,
      List.getElem?_cons_zero, uadd_wraps hd hs, Urc.putFence, M.modify, mod_succ, replicate_snoc,
      List.set_cons_zero]

/-- C128 is false for `Urc` in release builds: after `usize::MAX + 1` clones the count is one again. Dropping handle
1 releases the fence, and any use of it through handle 0, as in `clone`, `drop` and `strong_count`, is undefined
behaviour. -/
theorem C128_urc_refuted : ∃ hist P P', UrcReaches cfgRcRelease (UrcCmd.Permitted cfgRcRelease) hist P ∧
    P.hands[0]? = some (some (.urc 0)) ∧ P.hands[1]? = some (some (.urc 0)) ∧
    runUrc cfgRcRelease (.drop 1) P = .ok .unit P' ∧ P'.hands[0]? = some (some (.urc 0)) ∧
    runUrc cfgRcRelease (.clone 0) P' = .ub .oob ∧ runUrc cfgRcRelease (.drop 0) P' = .ub .oob ∧
    runUrc cfgRcRelease (.strongCount 0) P' = .ub .oob := by
  obtain ⟨hist, h⟩ := urc_clones (c := cfgRcRelease) rfl rfl rfl 7 (cfgRcRelease.usizeMax + 1)
  rw [show (cfgRcRelease.usizeMax + 1 + 1) % (cfgRcRelease.usizeMax + 1) = 1 from by
    rw [Nat.add_mod_left]; rfl] at h
  have h0 : (List.replicate (cfgRcRelease.usizeMax + 1 + 1) (some (UrcHand.urc 0)))[0]? = some (some (.urc 0)) :=
    replicate_get _ (by omega)
  have h1 : (List.replicate (cfgRcRelease.usizeMax + 1 + 1) (some (UrcHand.urc 0)))[1]? = some (some (.urc 0)) :=
    replicate_get _ (by omega)
  have h2 : ((List.replicate (cfgRcRelease.usizeMax + 1 + 1) (some (UrcHand.urc 0))).set 1 none)[0]? =
      some (some (.urc 0)) := by
    rw [List.getElem?_set_ne (by omega), h0]
  refine ⟨hist, _, ⟨(List.replicate (cfgRcRelease.usizeMax + 1 + 1) (some (.urc 0))).set 1 none,
    ⟨[some ⟨0, 0, 7, true, 0⟩], [none], 2, 0, []⟩⟩, h, h0, h1, ?_, h2, ?_, ?_, ?_⟩
  · simp [runUrc, h1, UrcPool.on, Urc.drop, Urc.fence, Urc.freeFence, Urc.master, Urc.putMaster, M.bind_apply,
      M.pure_apply, M.modify, Urc.wrapSub, Urc.dropData, Urc.dropMaster]
  · simp only [runUrc, h2, UrcPool.make, UrcPool.on, Urc.clone, Urc.incStrong, Urc.fence, M.bind_apply,
      List.getElem?_cons_zero]
  · simp only [runUrc, h2, UrcPool.on, Urc.drop, Urc.fence, M.bind_apply, List.getElem?_cons_zero]
  · simp only [runUrc, h2, UrcPool.look, UrcPool.on, Urc.fence, List.getElem?_cons_zero]

/-- C128 for `Urc` in debug builds, any number of clones in one thread: as many handles as the count says; it is
never exceeded, as further calls panic. -/
theorem C128_urc_debug_partial {c : Cfg α} (hd : c.debug = true) (hg : c.grant 0 c.size = true)
    (hg' : c.grant 1 c.size = true) (x : α) (k : Nat) :
    ∃ hist P, UrcReaches c (UrcCmd.Permitted c) hist P ∧
      hist.map (·.1) = .new x :: List.replicate k (.clone 0) ∧
      P.hands = List.replicate (min (k + 1) c.usizeMax) (some (.urc 0)) ∧
      ∀ i, P.hands[i]? = some (some (.urc 0)) →
        runUrc c (.strongCount i) P = .ok (.nat (P.hands.count (some (.urc 0)))) P ∧
        runUrc c (.read i) P = .ok (.val x) P := by
  have hM : 1 ≤ c.usizeMax := by unfold Cfg.usizeMax; omega
  suffices H : ∃ hist, UrcReaches c (UrcCmd.Permitted c) hist
      ⟨List.replicate (min (k + 1) c.usizeMax) (some (.urc 0)),
        ⟨[some ⟨1, 0, x, true, 0⟩], [some ⟨min (k + 1) c.usizeMax, 0, 0⟩], 2, 0, []⟩⟩ ∧
      hist.map (·.1) = .new x :: List.replicate k (.clone 0) by
    obtain ⟨hist, h, e⟩ := H
    refine ⟨hist, _, h, e, rfl, fun i hi => ⟨?_, ?_⟩⟩
    · simp only [runUrc, hi, UrcPool.look, UrcPool.on, Urc.fence, List.getElem?_cons_zero, List.count_replicate_self]
    · simp [runUrc, hi, UrcPool.look, UrcPool.on, Urc.asRef, Urc.data, Urc.master, M.bind_apply, M.pure_apply,
        Urc.fence]
  induction k with
  | zero =>
    refine ⟨_, UrcReaches.step (cmd := .new x) .start ⟨trivial, trivial⟩ (.ret (o := .unit) ?_), rfl⟩
    simp [runUrc, UrcPool.make, UrcPool.on, Urc.new, Urc.allocMaster, Urc.allocFence, M.bind_apply, M.pure_apply,
      UrcPool.start, hg, hg', show min 1 c.usizeMax = 1 by omega]
  | succ k ih =>
    obtain ⟨hist, ih, e⟩ := ih
    have h0 : (List.replicate (min (k + 1) c.usizeMax) (some (UrcHand.urc 0)))[0]? = some (some (.urc 0)) :=
      replicate_get _ (by omega)
    by_cases hk : k + 1 < c.usizeMax
    · rw [show min (k + 1) c.usizeMax = k + 1 by omega] at ih h0
      rw [show min (k + 1 + 1) c.usizeMax = k + 1 + 1 by omega]
      refine ⟨_, UrcReaches.step (cmd := .clone 0) ih ⟨⟨_, h0⟩, trivial⟩ (.ret (o := .unit) ?_), ?_⟩
      · simp only [runUrc, h0, UrcPool.make, UrcPool.on, Urc.clone, Urc.incStrong, M.bind_apply, M.pure_apply,
          Urc.fence, List.getElem?_cons_zero, uadd, if_pos (show k + 1 + 1 ≤ c.usizeMax by omega), Urc.putFence,
          M.modify, replicate_snoc, List.set_cons_zero]
      · rw [List.map_append, e, List.replicate_succ' (n := k) (a := (UrcCmd.clone 0 : UrcCmd α))]
        rfl
    · rw [show min (k + 1) c.usizeMax = c.usizeMax by omega] at ih h0
      rw [show min (k + 1 + 1) c.usizeMax = c.usizeMax by omega]
      refine ⟨_, UrcReaches.step (cmd := .clone 0) ih ⟨⟨_, h0⟩, trivial⟩ (.panic ?_), ?_⟩
      · simp only [runUrc, h0, UrcPool.make, UrcPool.on, Urc.clone, Urc.incStrong, M.bind_apply, Urc.fence,
          List.getElem?_cons_zero, uadd, if_neg (show ¬ c.usizeMax + 1 ≤ c.usizeMax by omega), hd, if_true,
          M.boom]
      · rw [List.map_append, e, List.replicate_succ' (n := k) (a := (UrcCmd.clone 0 : UrcCmd α))]
        rfl

example : cfg64.debug = true ∧ cfg64.grant 0 cfg64.size = true ∧ cfg64.grant 1 cfg64.size = true :=
  ⟨rfl, rfl, rfl⟩

/-! ## `Arc` -/

/-- The count after `k` clones. -/
theorem incr_mod (mx k : Nat) : Arc.incr mx ((k + 1) % (2 * mx + 2)) = (k + 1 + 1) % (2 * mx + 2) := by
  have hm := Nat.mod_lt (k + 1) (show 0 < 2 * mx + 2 by omega)
  rw [← mod_succ]
  unfold Arc.incr Arc.lock
  split
  · rename_i h
    rw [h]
    exact (Nat.mod_self _).symm
  · exact (Nat.mod_eq_of_lt (by omega)).symm

/-- One thread: `Arc::new(x)` and `k` clones of it, catching the panics. The first `isize::MAX` clones give
handles. -/
theorem arc_clones {mx : Nat} (hmx : 1 ≤ mx) (x : α) (k : Nat) :
    ∃ (n m : Nat) (log : List (Nat × ArcOut α)),
      ArcReaches mx True n ⟨[⟨(k + 1) % (2 * mx + 2), 0, x, true, 0, 0, false, 0, 0, false⟩],
        List.replicate m (some 0), [none], log⟩ ∧ min (k + 1) (mx + 1) ≤ m ∧
      (k ≤ mx → m = k + 1 ∧ log = List.replicate k (0, .unit)) := by
  induction k with
  | zero =>
    have h : ArcReaches mx True 1 (α := α) ⟨[⟨1, 0, x, true, 0, 0, false, 0, 0, false⟩], [some 0], [none], []⟩ :=
      ⟨1, .tail .refl (.new 0 x rfl)⟩
    have e : (0 + 1) % (2 * mx + 2) = 1 := Nat.mod_eq_of_lt (by omega)
    rw [e]
    exact ⟨1, 1, [], h, by omega, fun _ => ⟨rfl, rfl⟩⟩
  | succ k ih =>
    obtain ⟨n, m, log, ⟨th, ih⟩, hm, hk⟩ := ih
    have h0 : (List.replicate m (some 0))[0]? = some (some 0) := replicate_get _ (by omega)
    have h1 := ArcSteps.tail ih (ArcStep.borrow 0 (.clone 0) rfl rfl h0)
    by_cases hc : (k + 1) % (2 * mx + 2) > mx
    · have := Nat.mod_le (k + 1) (2 * mx + 2)
      refine ⟨n + 1 + 1, m, (0, .panic) :: log, ⟨th, .tail h1 (.run 0 {} rfl ?_ (by simp [ArcLoses]))⟩, by omega,
        fun h => by omega⟩
      simp [Arc.step, M.bind_apply, Arc.obj, Arc.put, M.modify, hc, Arc.done, incr_mod]
    · refine ⟨n + 1 + 1, m + 1, (0, .unit) :: log, ⟨th, .tail h1 (.run 0 {} rfl ?_ (by simp [ArcLoses]))⟩, by omega,
        fun h => ?_⟩
      · simp [Arc.step, M.bind_apply, Arc.obj, Arc.put, M.modify, hc, Arc.done, incr_mod, Arc.give,
          replicate_snoc]
      · obtain ⟨h2, h3⟩ := hk (by omega)
        exact ⟨by omega, by rw [h3, List.replicate_succ]⟩

/-- C128 is false for `Arc`: the count goes on rising while `clone` panics, and is one again after `usize::MAX + 1`
clones. Dropping handle 1 drops the value, and reading through handle 0 is undefined behaviour. -/
theorem C128_arc_refuted : ∃ (n : Nat) (s : ArcSys Nat), ArcReaches arcMax True n s ∧
    s.hands[0]? = some (some 0) ∧ s.threads[0]? = some (some (.read 0 0)) ∧
    ∀ ch, Arc.step arcMax ch 0 (.read 0 0) s = .ub .oob := by
  obtain ⟨n, m, log, ⟨th, h⟩, hm, -⟩ := arc_clones (mx := arcMax) (by decide) 7 (2 * arcMax + 2)
  rw [show (2 * arcMax + 2 + 1) % (2 * arcMax + 2) = 1 from by decide] at h
  have hm2 : 2 ≤ m := by
    have : 2 ≤ min (2 * arcMax + 2 + 1) (arcMax + 1) := by decide
    omega
  have h1 : (List.replicate m (some 0))[1]? = some (some 0) := replicate_get _ (by omega)
  have h0 : ((List.replicate m (some 0)).set 1 none)[0]? = some (some 0) := by
    rw [List.getElem?_set_ne (by omega), replicate_get _ (by omega)]
  have a1 := ArcSteps.tail h (ArcStep.take 0 (.drop 1) rfl rfl h1 rfl (fun t op ht => by
    rcases t with _ | t <;> simp at ht))
  have a2 := ArcSteps.tail a1 (.run 0 {} rfl (by
    simp [Arc.step, M.bind_apply, Arc.obj, Arc.put, M.modify, Arc.goto, Arc.decr]; rfl) (by simp [ArcLoses]))
  have a3 := ArcSteps.tail a2 (.run 0 {} rfl (by
    simp [Arc.step, M.bind_apply, Arc.obj, Arc.data, M.pure_apply, Arc.put, M.modify, Arc.goto]; rfl)
    (by simp [ArcLoses]))
  have a4 := ArcSteps.tail a3 (.run 0 {} rfl (by
    simp [Arc.step, M.bind_apply, Arc.obj, M.modify, Arc.goto]; rfl) (by simp [ArcLoses]))
  have a5 := ArcSteps.tail a4 (.run 0 {} rfl (by
    simp [Arc.step, M.bind_apply, Arc.obj, Arc.put, M.modify, Arc.after, Arc.done]; rfl) (by simp [ArcLoses]))
  have a6 := ArcSteps.tail a5 (ArcStep.borrow 0 (.read 0) rfl rfl h0)
  exact ⟨_, _, ⟨th, a6⟩, h0, rfl, fun ch => by simp [Arc.step, M.bind_apply, Arc.data, Arc.obj]⟩

/-- C128 for `Arc` as long as no panic is caught: the first `isize::MAX` clones give a handle each, and the count
is the number of handles; the next one panics. -/
theorem C128_arc_partial {mx : Nat} (hmx : 1 ≤ mx) (x : α) {k : Nat} (hk : k ≤ mx) :
    ∃ (n : Nat) (s : ArcSys α), ArcReaches mx True n s ∧ s.threads = [none] ∧
      s.hands = List.replicate (k + 1) (some 0) ∧ s.log = List.replicate k (0, .unit) ∧
      s.objs.map (·.strong) = [k + 1] ∧ s.objs.map (·.alive) = [true] ∧
      ∀ ch, ∃ s', Arc.step mx ch 0 (.clone 0 0) s = .ok () s' ∧
        s'.log = (0, if k = mx then .panic else .unit) :: s.log := by
  obtain ⟨n, m, log, h, -, hl⟩ := arc_clones hmx x k
  obtain ⟨rfl, rfl⟩ := hl hk
  have e : (k + 1) % (2 * mx + 2) = k + 1 := Nat.mod_eq_of_lt (by omega)
  rw [e] at h
  refine ⟨n, _, h, rfl, rfl, rfl, rfl, rfl, fun ch => ?_⟩
  by_cases hc : k = mx
  · subst hc
    simp [Arc.step, M.bind_apply, Arc.obj, Arc.put, M.modify, Arc.done]
  · have : ¬ k + 1 > mx := by omega
    simp [Arc.step, M.bind_apply, Arc.obj, Arc.put, M.modify, Arc.done, Arc.give, hc, this]

example : 1 ≤ arcMax ∧ 1000 ≤ arcMax := by decide

end Lokky
