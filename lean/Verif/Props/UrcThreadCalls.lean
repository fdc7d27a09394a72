import Verif.Props.UrcThreads

/-!
# C73, C85, C98, and what calls on handles give, for threads whose steps interleave

Runs as in Props/UrcThreads.lean. `s.nU f`, `s.nW f`: how many handles of fence `f` there are that are not `Weak`s,
and that are (Spec/UrcThreads.lean).
-/

namespace Lokky
variable {α : Type} {dbg : Bool} {mx n t f i : Nat} {s s' : UrcSys α}

/-! ## C98 -/

/-- C98 for threads: whatever other threads do, no call on a handle panics unless memory is refused or `T::clone`
panics. Missing: as C118; and in debug builds `make_mut` may panic when it moves the value out (`C98_refuted`). -/
theorem C98_threads_partial (h : UrcTReaches dbg mx true true n s) (hn : n < mx) (a : UrcAct α)
    (he : a.enabled true s = true) (hf : a.faulty s = false) (hg : a.choice.grant = true)
    (hb : a.choice.boom = false) (hd : dbg = true → ∀ op, s.At a.thread op → ¬ op.movesOut) :
    ¬ a.panics dbg mx s := by
  intro hp
  rcases (UrcTInv.reaches h (Nat.le_of_lt hn)).act_panics hn a he hf hp with h1 | h1 | ⟨h1, op, h2, h3⟩
  · rw [hg] at h1; cases h1
  · rw [hb] at h1; cases h1
  · exact hd h1 op h2 h3

/-- … and the calls other than `make_mut` only panic if memory is refused; that is, only `envelop` does. -/
theorem C98_threads_calls_partial (h : UrcTReaches dbg mx true true n s) (hn : n < mx) {cmd : UrcCall α}
    {ch : UrcChoice α} (he : (UrcAct.call t i cmd ch).enabled true s = true)
    (hf : (UrcAct.call t i cmd ch).faulty s = false) (hp : (UrcAct.call t i cmd ch).panics dbg mx s) :
    ch.grant = false := by
  obtain ⟨t', k, s', e, h1⟩ := hp
  simp only [UrcAct.enabled] at he
  split at he
  · rename_i t'' k' ht e'
    rw [e] at e'
    cases e'
    simp only [Bool.and_eq_true, beq_iff_eq] at he
    obtain ⟨⟨rfl, h2⟩, h3⟩ := he
    exact ((UrcTInv.reaches h (Nat.le_of_lt hn)).call_ok hn ch ht e h2 (by rintro x rfl; simp at h3) hf).why h1
  · cases he

/-- Refused memory makes `envelop` panic. -/
example : ∃ s : UrcSys Nat, UrcTReaches false (2 ^ 64 - 1) true true 1 s ∧
    (UrcAct.call 0 0 .envelop { grant := false }).panics false (2 ^ 64 - 1) s := by
  obtain ⟨s, h1, h2⟩ := urcTry_reaches (calm := true) (sync := true) (l := [.new 0 7])
    (look := fun s : UrcSys Nat => match s.hands[0]?, UrcT.call false (2 ^ 64 - 1) { grant := false } 0 0 .envelop (.urc 0) s with
      | some (some (UrcHold.own 0 (.urc 0))), .panic _ => some true
      | _, _ => none) (by decide +kernel)
  split at h2
  · rename_i h3 h4
    exact ⟨s, h1, 0, .urc 0, _, h3, h4⟩
  · cases h2

/-! ## C73 -/

/-- C73 for threads: `fence_strong_count` and `fence_weak_count` tell how many handles of the fence there are, and
change nothing. Missing: as C118. -/
theorem C73_threads_partial (h : UrcTReaches dbg mx true true n s) (hn : n ≤ mx) (ht : s.threads[t]? = some none)
    (e : s.hands[i]? = some (some (.own t (.urc f)))) (ch : UrcChoice α) :
    (UrcAct.call t i .strongCount ch).act dbg mx s =
      .ok () { s with threads := s.threads.set t none, log := (t, some (.nat (s.nU f))) :: s.log } ∧
    (UrcAct.call t i .weakCount ch).act dbg mx s =
      .ok () { s with threads := s.threads.set t none, log := (t, some (.nat (s.nW f))) :: s.log } := by
  obtain ⟨F, eF, -, -, -, -, -, hs, hw, -⟩ := (UrcTInv.reaches h hn).base ht e
  constructor <;> simp only [UrcAct.act, e, UrcT.caught, UrcT.call] <;> rw [M.bind_ok (UrcT.fence_ok eF)]
  · rw [← hs]; rfl
  · rw [← hw]; rfl

/-- Two handles and a `Weak` in thread 0; the one that was sent has a fence of its own. -/
example : urcTry true true [.new 0 7, .call 0 0 .clone {}, .call 0 0 .envelop {}, .recv 1 2, .call 0 1 .downgrade {},
    .call 0 0 .strongCount {}, .call 0 1 .weakCount {}, .call 1 2 .strongCount {}]
    (fun s => some (decide (s.log.take 3 =
      [(1, some (.nat 1)), (0, some (.nat 1)), (0, some (.nat 2))]))) = some true := by decide +kernel

/-! ## C85 -/

/-- C85 for threads: `try_into_fence` gives the fence exactly if the handle is the only one of it, and changes nothing
else. Missing: as C118. -/
theorem C85_threads_partial (h : UrcTReaches dbg mx true true n s) (hn : n ≤ mx) (ht : s.threads[t]? = some none)
    (e : s.hands[i]? = some (some (.own t (.urc f)))) (ch : UrcChoice α) :
    ∃ b s', (UrcAct.call t i .intoFence ch).act dbg mx s = .ok () s' ∧ s'.log = (t, some (.bool b)) :: s.log ∧
      (b = true ↔ s.nU f = 1 ∧ s.nW f = 0) ∧ s'.vals = s.vals ∧ s'.fences = s.fences ∧ s'.mem = s.mem ∧
      s'.hands = if b then s.hands.set i (some (.own t (.fence f))) else s.hands := by
  obtain ⟨F, eF, -, -, -, -, -, hs, hw, -⟩ := (UrcTInv.reaches h hn).base ht e
  rw [← hs, ← hw]
  simp only [UrcAct.act, e, UrcT.caught, UrcT.call]
  rw [M.bind_ok (UrcT.fence_ok eF)]
  by_cases hc : F.strong = 1 ∧ F.weak = 0
  · rw [if_pos hc]
    exact ⟨true, _, rfl, rfl, by simp [hc], rfl, rfl, rfl, rfl⟩
  · rw [if_neg hc]
    exact ⟨false, _, rfl, rfl, by simp [hc], rfl, rfl, rfl, rfl⟩

example : urcTry true true [.new 0 7, .call 0 0 .clone {}, .call 0 0 .intoFence {}, .call 0 1 .drop {},
    .call 0 0 .intoFence {}]
    (fun s => some (decide (s.log.map (·.2) =
      [some (.bool true), some .unit, some (.bool false), some .unit]))) = some true := by decide +kernel

/-- `Weak` handles can be dropped, and fences that were taken out be asked for their counts. -/
example : urcTry true true [.new 0 7, .call 0 0 .downgrade {}, .call 0 1 .drop {}]
    (fun s => some (decide (s.log.map (·.2) = [some .unit, some .unit]))) = some true := by decide +kernel

example : urcTry true true [.new 0 7, .call 0 0 .intoFence {}, .call 0 0 .strongCount {}, .call 0 0 .weakCount {}]
    (fun s => some (decide (s.log.map (·.2) = [some (.nat 0), some (.nat 1), some (.bool true)]))) = some true := by
  decide +kernel

/-! ## What new handles are -/

/-- Nobody else's handles change when a handle is added. -/
theorem UrcSys.reads_append {x : UrcHold} {s s' : UrcSys α} (hh : s'.hands = s.hands ++ [some x])
    (hf : ∀ (j : Nat) (y : UrcHold), s.hands[j]? = some (some y) → (s'.fences[y.fen]?).map (Option.map UrcFence.master) =
      (s.fences[y.fen]?).map (Option.map UrcFence.master)) (hv : s'.vals = s.vals) {j : Nat} (hj : j < s.hands.length) :
    s'.reads j = s.reads j ∧ s'.master j = s.master j := by
  have hm : s'.master j = s.master j := by
    unfold UrcSys.master
    rw [hh, List.getElem?_append_left hj]
    cases e : s.hands[j]? with
    | none => rfl
    | some a =>
      cases a with
      | none => rfl
      | some y =>
        have := hf j y e
        simp only
        cases h1 : s'.fences[y.fen]? with
        | none =>
          cases h2 : s.fences[y.fen]? with
          | none => rfl
          | some b => rw [h1, h2] at this; cases this
        | some a =>
          cases h2 : s.fences[y.fen]? with
          | none => rw [h1, h2] at this; cases this
          | some b =>
            rw [h1, h2] at this
            cases a <;> cases b <;> simp at this ⊢
            exact this
  refine ⟨?_, hm⟩
  unfold UrcSys.reads
  rw [hm, hv]

/-- `clone` and `downgrade` give the thread one more handle of the same value, and of the same fence: a `Urc`, which
reads the value, or a `Weak`. No other handle is changed. Missing: as C118. -/
theorem C67_threads_clone_partial (h : UrcTReaches dbg mx true true n s) (hn : n < mx)
    (ht : s.threads[t]? = some none) (e : s.hands[i]? = some (some (.own t (.urc f)))) (ch : UrcChoice α)
    {cmd : UrcCall α} (hc : cmd = .clone ∨ cmd = .downgrade) :
    ∃ k s', (UrcAct.call t i cmd ch).act dbg mx s = .ok () s' ∧ s'.log = (t, some .unit) :: s.log ∧
      s'.hands = s.hands ++ [some (.own t k)] ∧ k.fen = f ∧ (cmd = .clone → k = .urc f) ∧
      (cmd = .downgrade → ∃ p, k = .weak f p ∧ s.master i = some p) ∧
      s'.master s.hands.length = s.master i ∧ s'.reads s.hands.length = s.reads i ∧
      ∀ j, j < s.hands.length → s'.reads j = s.reads j ∧ s'.master j = s.master j := by
  have G := UrcTInv.reaches h (Nat.le_of_lt hn)
  obtain ⟨F, eF, hF, hp, ⟨v, hv⟩, -, -, hs, hw, -⟩ := G.base ht e
  obtain ⟨hlt, -⟩ := List.getElem?_eq_some_iff.1 eF
  have h1 := G.nU_le f
  have h2 := G.nW_le f
  have hmi : s.master i = some F.master := UrcSys.master_eq.2 ⟨_, e, hF⟩
  have fin : ∀ (k : UrcHand) (F' : UrcFence), k.fen = f → F'.master = F.master → ∀ s' : UrcSys α,
      s'.hands = s.hands ++ [some (UrcHold.own t k)] → s'.fences = s.fences.set f (some F') → s'.vals = s.vals →
      s'.master s.hands.length = s.master i ∧ s'.reads s.hands.length = s.reads i ∧
      ∀ j, j < s.hands.length → s'.reads j = s.reads j ∧ s'.master j = s.master j := by
    intro k F' hk hF' s' e1 e2 e3
    have hm : s'.master s.hands.length = some F.master := by
      simp [UrcSys.master, e1, e2, hk, List.getElem?_set_self hlt, hF']
    refine ⟨hm.trans hmi.symm, ?_, fun j hj => UrcSys.reads_append e1 ?_ e3 hj⟩
    · unfold UrcSys.reads
      rw [hm, hmi, e3]
    intro j y hy
    rw [e2]
    by_cases hg : y.fen = f
    · rw [hg, List.getElem?_set_self hlt, eF]
      simp [hF']
    · rw [List.getElem?_set_ne (Ne.symm hg)]
  rcases hc with rfl | rfl
  · refine ⟨.urc f, { s with
        hands := s.hands ++ [some (.own t (.urc f))]
        fences := s.fences.set f (some { F with strong := F.strong + 1 })
        threads := s.threads.set t none
        log := (t, some .unit) :: s.log }, ?_, rfl, rfl, rfl, fun _ => rfl, (fun h => nomatch h),
      fin (.urc f) { F with strong := F.strong + 1 } rfl rfl _ rfl rfl rfl⟩
    simp only [UrcAct.act, e, UrcT.caught, UrcT.call]
    rw [M.bind_ok (UrcTInv.incStrong_ok hn eF (by omega))]
    rfl
  · refine ⟨.weak f F.master, { s with
        hands := s.hands ++ [some (.own t (.weak f F.master))]
        fences := s.fences.set f (some { F with weak := F.weak + 1 })
        threads := s.threads.set t none
        log := (t, some .unit) :: s.log }, ?_, rfl, rfl, rfl, (fun h => nomatch h), fun _ => ⟨_, rfl, hmi⟩,
      fin (.weak f F.master) { F with weak := F.weak + 1 } rfl rfl _ rfl rfl rfl⟩
    simp only [UrcAct.act, e, UrcT.caught, UrcT.call]
    rw [M.bind_ok (UrcTInv.incWeak_ok hn eF (by omega)),
      M.bind_ok (UrcT.fence_ok (F := { F with weak := F.weak + 1 }) (by simp [List.getElem?_set_self hlt]))]
    rfl

/-- Cloned after being received: reads what was sent; the `Weak` has the same master. -/
example : urcTry true true [.new 0 7, .call 0 0 .envelop {}, .recv 1 1, .call 1 1 .clone {}, .call 1 2 .downgrade {}]
    (fun s => some (decide (s.reads 2 = some 7 ∧ s.reads 0 = some 7 ∧ s.master 3 = s.master 0 ∧
      s.hands[3]? = some (some (.own 1 (.weak 1 0)))))) = some true := by decide +kernel

end Lokky
