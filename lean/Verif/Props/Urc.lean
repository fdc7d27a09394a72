import Verif.Proofs.UrcTrace
import Verif.Props.Rc

/-!
# C67–C73 and C84–C87: `Urc` and its `Weak`

`UrcReaches c ok hist P` says: client programs (of any number of threads, which make their calls one at a
time) that make calls of `Urc` allowed by `ok`, catching every panic, see the history `hist` and arrive at the
handles `P.hands` and the memory `P.w`. `UrcCmd.Callable` allows every call on handles the client has.
`UrcCmd.Permitted` leaves out the calls of `try_unwrap`, `make_mut` and `into_inner` that go wrong, as shown
below; all calls of other functions are permitted.

Histories are at most `usize::MAX` long, so that the counts cannot overflow.
-/

namespace Lokky
variable {α : Type} {c : Cfg α} {hist : List (UrcCmd α × Option (UrcOut α))} {P : UrcPool α}

/-- Every call on handles that are there. -/
abbrev UrcAny : UrcPool α → UrcCmd α → Prop := fun P cmd => cmd.Callable P

/-- Where the value of handle `i` lies. -/
def UrcPool.valueAt (P : UrcPool α) (i : Nat) : Option Nat :=
  match P.hands[i]? with
  | some (some k) => match P.w.fences[k.at]? with
    | some (some F) => some F.master
    | _ => none
  | _ => none

/-- Handles `i` and `j` (`Urc`, `Weak`, or a fence taken out of a `Urc`) are of the same value. -/
def UrcPool.Shares (P : UrcPool α) (i j : Nat) : Prop := ∃ m, P.valueAt i = some m ∧ P.valueAt j = some m

/-- Handle `i` reads the value `v`. -/
def UrcPool.Reads (c : Cfg α) (P : UrcPool α) (i : Nat) (v : α) : Prop :=
  runUrc c (.read i) P = .ok (.val v) P

theorem valueAt_eq {i : Nat} {k : UrcHand} {F : UrcFence} (hk : P.hands[i]? = some (some k))
    (hF : P.w.fences[k.at]? = some (some F)) : P.valueAt i = some F.master := by
  simp only [UrcPool.valueAt, hk, hF]

theorem valueAt_some {i m : Nat} (h : P.valueAt i = some m) : ∃ k F, P.hands[i]? = some (some k) ∧
    P.w.fences[k.at]? = some (some F) ∧ F.master = m := by
  unfold UrcPool.valueAt at h
  split at h
  · rename_i k hk
    split at h
    · rename_i F hF
      exact ⟨k, F, hk, hF, Option.some.inj h⟩
    · cases h
  · cases h

theorem reads_iff {i f : Nat} (hk : P.hands[i]? = some (some (.urc f))) {v : α} :
    P.Reads c i v ↔ UrcSees P.w f v := by
  unfold UrcPool.Reads UrcSees
  constructor
  · intro h
    simp only [runUrc, hk, UrcPool.look, UrcPool.on] at h
    cases hf : P.w.fences[f]? with
    | none => simp [Urc.asRef, M.bind_apply, Urc.fence, hf] at h
    | some o => cases o with
      | none => simp [Urc.asRef, M.bind_apply, Urc.fence, hf] at h
      | some F => cases hx : P.w.masters[F.master]? with
        | none => simp [Urc.asRef, Urc.data, M.bind_apply, Urc.fence, Urc.master, hf, hx] at h
        | some o => cases o with
          | none => simp [Urc.asRef, Urc.data, M.bind_apply, Urc.fence, Urc.master, hf, hx] at h
          | some x =>
            cases ha : x.alive with
            | false => simp [Urc.asRef, Urc.data, M.bind_apply, Urc.fence, Urc.master, hf, hx, ha] at h
            | true =>
              rw [Urc.asRef_eq hf hx ha] at h
              injection h with h1 h2
              injection h1 with h1
              exact ⟨F, x, rfl, hx, ha, h1⟩
  · rintro ⟨F, x, hF, hx, ha, rfl⟩
    simp only [runUrc, hk, UrcPool.look, UrcPool.on, Urc.asRef_eq hF hx ha]

namespace UrcInv
variable {n : Nat}

/-- If the counts say that a handle is the only one of its value, it is. -/
theorem unshared (I : UrcInv n P) {i f : Nat} (hk : P.hands[i]? = some (some (.urc f))) {F : UrcFence}
    {x : UrcMaster α} (hF : P.w.fences[f]? = some (some F)) (hx : P.w.masters[F.master]? = some (some x))
    (ha : x.alive = true) (hs : x.sf = 1) (h1 : urcCount P.hands (.urc f) = 1) {j : Nat} (hj : j ≠ i)
    (hsh : P.Shares i j) : P.hands[j]? = some (some (.weak f F.master)) := by
  obtain ⟨m, hm1, hm2⟩ := hsh
  rw [valueAt_eq hk hF] at hm1
  cases hm1
  obtain ⟨k, G, hkj, hG, hGm⟩ := valueAt_some hm2
  have hpos := urcCount_pos hkj
  have hat : k.at = f := I.ok.only (k := .urc f) (by omega) hF hx ha hs hpos hG hGm
  have hoth := urcCount_other hk hj hkj
  obtain ⟨a1, a2, a3⟩ := I.ok.atUrc (by omega) hF
  cases k with
  | urc g => simp only [UrcHand.at] at hat; subst hat; rw [lessHand_self] at hoth; omega
  | fence g => simp only [UrcHand.at] at hat; subst hat; omega
  | weak g m =>
    simp only [UrcHand.at] at hat
    subst hat
    have hm : F.master = m := (I.ok.fence _ F hF).fits _ hpos rfl
    rw [hm]
    exact hkj

theorem counts_one {H : List (Option UrcHand)} {i : Nat} {k : UrcHand} (hk : H[i]? = some (some k))
    (h : ∀ j, j ≠ i → H[j]? ≠ some (some k)) : urcCount H k = 1 := by
  have h0 : urcCount (H.set i none) k = 0 := by
    refine List.count_eq_zero.mpr fun hm => ?_
    obtain ⟨j, hj, e⟩ := List.getElem_of_mem hm
    have e' : (H.set i none)[j]? = some (some k) := by rw [List.getElem?_eq_getElem hj, e]
    by_cases hji : i = j
    · subst hji
      rw [List.getElem?_set_self (List.getElem?_eq_some_iff.mp hk).1] at e'
      cases e'
    · rw [List.getElem?_set_ne hji] at e'
      exact h j (Ne.symm hji) e'
  rw [urcCount_less hk, lessHand_self] at h0
  have := urcCount_pos hk
  omega

theorem counts_zero {H : List (Option UrcHand)} {k : UrcHand} (h : ∀ j : Nat, H[j]? ≠ some (some k)) :
    urcCount H k = 0 := by
  refine List.count_eq_zero.mpr fun hm => ?_
  obtain ⟨j, hj, e⟩ := List.getElem_of_mem hm
  exact h j (by rw [List.getElem?_eq_getElem hj, e])

/-- The only handle of a value, according to the counts. -/
theorem sole (I : UrcInv n P) {i f : Nat} (hk : P.hands[i]? = some (some (.urc f))) {F : UrcFence}
    (hF : P.w.fences[f]? = some (some F)) (h : ∀ j, j ≠ i → ¬ P.Shares i j) :
    urcCount P.hands (.urc f) = 1 ∧ urcCount P.hands (.weak f F.master) = 0 := by
  have hv := valueAt_eq hk hF
  constructor
  · exact counts_one hk fun j hj e => h j hj ⟨_, hv, valueAt_eq e hF⟩
  · refine counts_zero fun j e => ?_
    have hj : j ≠ i := by rintro rfl; rw [hk] at e; cases e
    exact h j hj ⟨_, hv, valueAt_eq e hF⟩

end UrcInv

/-! ## C67 -/

/-- C67 for permitted histories: reading through a `Urc` reads a value. -/
theorem C67_read_partial (h : UrcReaches c (UrcCmd.Permitted c) hist P) (hl : hist.length ≤ c.usizeMax)
    {i f : Nat} (hk : P.hands[i]? = some (some (.urc f))) : ∃ v, P.Reads c i v := by
  obtain ⟨F, x, hF, hx, ha, _⟩ := (h.inv hl).ok.owner (urcCount_pos hk) trivial
  exact ⟨x.val, (reads_iff hk).mpr ⟨F, x, hF, hx, ha, rfl⟩⟩

/-- C67 for permitted histories: every permitted call returns or panics, and touches no memory that was
released or moved out. -/
theorem C67_safe_partial (h : UrcReaches c (UrcCmd.Permitted c) hist P) (hl : hist.length < c.usizeMax)
    {cmd : UrcCmd α} (hc : cmd.Permitted c P) :
    (∃ o P', UrcHappens c P cmd o P') ∧ ∀ u, runUrc c cmd P ≠ .ub u := by
  have hd := (h.inv (Nat.le_of_lt hl)).does (c := c) hl hc
  cases hr : runUrc c cmd P with
  | ok o P' => exact ⟨⟨_, _, .ret hr⟩, fun u hu => by cases hu⟩
  | panic P' => exact ⟨⟨_, _, .panic hr⟩, fun u hu => by cases hu⟩
  | abort => rw [hr] at hd; exact hd.elim
  | ub u => rw [hr] at hd; exact hd.elim

/-- C67 for permitted histories: a call leaves the `Urc` handles it does not take alone, and what they read. -/
theorem C67_frame_partial (h : UrcReaches c (UrcCmd.Permitted c) hist P) (hl : hist.length < c.usizeMax)
    {cmd : UrcCmd α} {o : Option (UrcOut α)} {P' : UrcPool α} (hc : cmd.Permitted c P)
    (hh : UrcHappens c P cmd o P') {i f : Nat} {v : α} (hi : cmd.target ≠ some i)
    (hk : P.hands[i]? = some (some (.urc f))) (hv : P.Reads c i v) :
    P'.hands[i]? = some (some (.urc f)) ∧ P'.Reads c i v := by
  have hd := ((h.inv (Nat.le_of_lt hl)).does (c := c) hl hc).happens hh
  obtain ⟨h1, h2⟩ := hd.2 i f hi hk
  exact ⟨h1, (reads_iff h1).mpr (h2 v ((reads_iff hk).mp hv))⟩

/-- C67 for permitted histories: a new handle reads the value it was made of; a clone, and the handle another
thread receives, read what the original reads. -/
theorem C67_value_partial (h : UrcReaches c (UrcCmd.Permitted c) hist P) (hl : hist.length < c.usizeMax)
    {P' : UrcPool α} {o : UrcOut α} :
    (∀ x, runUrc c (.new x) P = .ok o P' → P'.Reads c P.hands.length x) ∧
    (∀ i v, P.Reads c i v → ∀ f, P.hands[i]? = some (some (.urc f)) →
      (runUrc c (.clone i) P = .ok o P' → P'.Reads c P.hands.length v) ∧
      (runUrc c (.envelop i) P = .ok o P' → P'.Reads c P.hands.length v)) := by
  have I := h.inv (Nat.le_of_lt hl)
  refine ⟨fun x e => ?_, fun i v hv f hk => ⟨fun e => ?_, fun e => ?_⟩⟩
  · simp only [runUrc, UrcPool.make, UrcPool.on] at e
    have hn := (I.ok.more (Nat.le_succ _)).new (c := c) (by omega) x
    cases hr : Urc.new c x P.w with
    | ok f w' =>
      rw [hr] at e hn
      obtain ⟨_, _, rfl, hf, hm⟩ := hn
      injection e with _ e
      subst e
      rw [reads_iff (f := P.w.fences.length) (by simp)]
      exact ⟨⟨1, 0, P.w.masters.length⟩, ⟨1, 0, x, true, 0⟩, by simp [hf], by simp [hm], rfl, rfl⟩
    | panic w' => rw [hr] at e; cases e
    | abort => rw [hr] at e; cases e
    | ub u => rw [hr] at e; cases e
  · obtain ⟨w', hr, _, hkeep⟩ := I.ok.clone (c := c) (urcCount_pos hk) hl
    simp only [runUrc, hk, UrcPool.make, UrcPool.on, hr] at e
    injection e with _ e
    subst e
    rw [reads_iff (f := f) (by simp)]
    exact hkeep f v trivial ((reads_iff hk).mp hv)
  · have hn := I.ok.envelop (c := c) (urcCount_pos hk) hl
    simp only [runUrc, hk, UrcPool.make, UrcPool.on] at e
    cases hr : Urc.envelop c f P.w with
    | ok g w' =>
      rw [hr] at e hn
      injection e with _ e
      subst e
      rw [reads_iff (f := g) (by simp)]
      exact hn.2.2 v ((reads_iff hk).mp hv)
    | panic w' => rw [hr] at e; cases e
    | abort => rw [hr] at e; cases e
    | ub u => rw [hr] at e; cases e

/-- C67 is false in a release build: `make_mut` on a handle with a clone moves the value away from the clone, and
reading the clone reads a value that was moved out. -/
theorem C67_refuted_release : ∃ P, UrcReaches cfgRcRelease UrcAny
    [(.new 7, some .unit), (.clone 0, some .unit), (.makeMut 0 (· + 1), some (.val 7))] P ∧
    P.hands[1]? = some (some (.urc 0)) ∧ runUrc cfgRcRelease (.read 1) P = .ub .uninit :=
  ⟨_, urcTrace_callable (cs := [.new 7, .clone 0, .makeMut 0 (· + 1)])
    (evs := [some .unit, some .unit, some (.val 7)]) (P := ⟨[some (.urc 1), some (.urc 0)],
      ⟨[some ⟨0, 1, 7, false, 0⟩, some ⟨1, 0, 8, true, 0⟩],
       [some ⟨2 ^ 64 - 1, 2 ^ 64 - 1, 0⟩, some ⟨1, 0, 1⟩], 4, 0, []⟩⟩) (by decide +kernel), rfl, rfl⟩

/-- C67 is false in a debug build too, if there is a `Weak` as well; `make_mut` then panics after moving the
value. -/
theorem C67_refuted_debug : ∃ P, UrcReaches cfg64 UrcAny
    [(.new 7, some .unit), (.clone 0, some .unit), (.downgrade 0, some .unit), (.makeMut 0 (· + 1), none)] P ∧
    P.hands[1]? = some (some (.urc 0)) ∧ runUrc cfg64 (.read 1) P = .ub .uninit :=
  ⟨_, urcTrace_callable (cs := [.new 7, .clone 0, .downgrade 0, .makeMut 0 (· + 1)])
    (evs := [some .unit, some .unit, some .unit, none])
    (P := ⟨[some (.urc 1), some (.urc 0), some (.weak 0 0)],
      ⟨[some ⟨0, 0, 7, false, 0⟩, some ⟨1, 0, 7, true, 0⟩],
       [some ⟨0, 1, 0⟩, some ⟨1, 0, 1⟩], 4, 0, []⟩⟩) (by decide +kernel), rfl, rfl⟩

/-- A permitted program that uses all functions but `into_inner`. -/
def urcProg : List (UrcCmd Nat) :=
  [.new 7, .clone 0, .downgrade 1, .envelop 0, .tryUnwrap 0, .makeMut 3 (· + 1), .read 3, .read 0,
   .drop 1, .drop 2, .strongCount 0, .weakCount 0, .makeMut 0 (· + 5), .read 0, .downgrade 3, .tryUnwrap 3,
   .isSole 0, .setMut 0 3, .drop 4, .new 1, .intoFence 5, .strongCount 5]

def urcProgSees : List (Option (UrcOut Nat)) :=
  [some .unit, some .unit, some .unit, some .unit, some (.opt none), some (.val 7), some (.val 8), some (.val 7),
   some .unit, some .unit, some (.nat 1), some (.nat 0), some (.val 7), some (.val 12), some .unit, some (.opt (some 8)),
   some (.bool true), some (.opt (some 12)), some .unit, some .unit, some (.bool true), some (.nat 1)]

def urcProgEnd : UrcPool Nat :=
  ⟨[some (.urc 3), none, none, none, none, some (.fence 4)],
    ⟨[some ⟨0, 1, 7, false, 1⟩, some ⟨0, 0, 8, false, 0⟩, some ⟨1, 0, 3, true, 0⟩, some ⟨1, 0, 1, true, 0⟩],
     [some ⟨2 ^ 64 - 1, 2 ^ 64 - 1, 0⟩, none, some ⟨1, 0, 1⟩, some ⟨1, 0, 2⟩, some ⟨1, 0, 3⟩], 9, 1, []⟩⟩

theorem urcProg_reaches :
    UrcReaches cfgRcRelease (UrcCmd.Permitted cfgRcRelease) (urcProg.zip urcProgSees) urcProgEnd :=
  urcTrace_permitted (by decide +kernel)

example : UrcReaches cfgRcRelease (UrcCmd.Permitted cfgRcRelease) (urcProg.zip urcProgSees) urcProgEnd ∧
    (urcProg.zip urcProgSees).length < cfgRcRelease.usizeMax ∧
    urcProgEnd.hands[0]? = some (some (.urc 3)) ∧ urcProgEnd.Reads cfgRcRelease 0 3 ∧
    (UrcCmd.drop 5 : UrcCmd Nat).Permitted cfgRcRelease urcProgEnd ∧
    (UrcCmd.drop 5 : UrcCmd Nat).target ≠ some 0 ∧
    ∃ o P', UrcHappens cfgRcRelease urcProgEnd (.drop 5) o P' :=
  ⟨urcProg_reaches, by decide +kernel, rfl, rfl, ⟨⟨_, rfl⟩, trivial⟩, by decide, _, _, .ret rfl⟩

/-! ## C68 -/

/-- C68 for permitted histories: if `get_mut` gives access, there is no other `Urc` or `Weak` of the value in any
thread. It gives access to the value the handle reads, and what is written is what it reads afterwards. -/
theorem C68_exclusive_partial (h : UrcReaches c (UrcCmd.Permitted c) hist P) (hl : hist.length ≤ c.usizeMax)
    {i f : Nat} (hk : P.hands[i]? = some (some (.urc f))) {x a : α} {P' : UrcPool α}
    (he : runUrc c (.setMut i x) P = .ok (.opt (some a)) P') :
    (∀ j, j ≠ i → ¬ P.Shares i j) ∧ P.Reads c i a ∧ P'.Reads c i x := by
  have I := h.inv hl
  obtain ⟨r, w', F, y, hr, hF, hy, ha, J, _, hsome, _, _⟩ := I.setMut (c := c) hk x
  rw [he] at hr
  injection hr with h1 h2
  injection h1 with h1
  subst h2 h1
  obtain ⟨e1, e2, e3, e4, e5⟩ := hsome (by simp)
  refine ⟨fun j hj hsh => ?_, ?_, ?_⟩
  · have := urcCount_pos (I.unshared hk hF hy ha e2 e3 hj hsh)
    omega
  · exact (reads_iff hk).mpr ⟨F, y, hF, hy, ha, (Option.some.inj e1).symm⟩
  · exact (reads_iff (P := ⟨P.hands, w'⟩) hk).mpr e5

/-- C68 for permitted histories: if `get_mut` gives no access, it changes nothing that can be read. -/
theorem C68_refused_partial (h : UrcReaches c (UrcCmd.Permitted c) hist P) (hl : hist.length ≤ c.usizeMax)
    {i f : Nat} (hk : P.hands[i]? = some (some (.urc f))) {x : α} {P' : UrcPool α}
    (he : runUrc c (.setMut i x) P = .ok (.opt none) P') :
    P'.hands = P.hands ∧ ∀ j g v, P.hands[j]? = some (some (.urc g)) → P.Reads c j v → P'.Reads c j v := by
  have I := h.inv hl
  obtain ⟨r, w', F, y, hr, hF, hy, ha, J, _, _, hnone, _⟩ := I.setMut (c := c) hk x
  rw [he] at hr
  injection hr with h1 h2
  injection h1 with h1
  subst h2
  refine ⟨rfl, fun j g v hj hv => ?_⟩
  exact (reads_iff (P := ⟨P.hands, w'⟩) hj).mpr (hnone h1.symm g v trivial ((reads_iff hj).mp hv))

/-- C68 is false: a failed `try_unwrap` sets the number of fences to zero. Sending the value to another thread
makes it one, so that the other thread gets `&mut` access to the value that handles 0 and 1 read. -/
theorem C68_refuted : ∃ P, UrcReaches cfg64 UrcAny
    [(.new 7, some .unit), (.clone 0, some .unit), (.tryUnwrap 0, some (.opt none)), (.envelop 0, some .unit),
     (.setMut 2 9, some (.opt (some 7))), (.read 0, some (.val 9))] P ∧ P.Shares 0 2 ∧ P.Shares 1 2 :=
  ⟨_, urcTrace_callable (cs := [.new 7, .clone 0, .tryUnwrap 0, .envelop 0, .setMut 2 9, .read 0])
    (evs := [some .unit, some .unit, some (.opt none), some .unit, some (.opt (some 7)), some (.val 9)])
    (P := ⟨[some (.urc 0), some (.urc 0), some (.urc 1)],
      ⟨[some ⟨1, 0, 9, true, 1⟩], [some ⟨2, 0, 0⟩, some ⟨1, 0, 0⟩], 3, 0, []⟩⟩) (by decide +kernel),
    ⟨0, rfl, rfl⟩, ⟨0, rfl, rfl⟩⟩

/-- Sent to another thread, dropped there, and then written. -/
theorem urcSent_reaches : UrcReaches cfg64 (UrcCmd.Permitted cfg64)
    [(.new 7, some .unit), (.envelop 0, some .unit), (.read 1, some (.val 7)), (.drop 1, some .unit)]
    ⟨[some (.urc 0), none], ⟨[some ⟨1, 0, 7, true, 1⟩], [some ⟨1, 0, 0⟩, none], 3, 0, []⟩⟩ :=
  urcTrace_permitted (cs := [.new 7, .envelop 0, .read 1, .drop 1])
    (evs := [some .unit, some .unit, some (.val 7), some .unit]) (by decide +kernel)

example : ∃ hist P P', UrcReaches cfg64 (UrcCmd.Permitted cfg64) hist P ∧ hist.length ≤ cfg64.usizeMax ∧
    P.hands[0]? = some (some (.urc 0)) ∧ runUrc cfg64 (.setMut 0 9) P = .ok (.opt (some 7)) P' :=
  ⟨_, _, _, urcSent_reaches, by decide +kernel, rfl, rfl⟩

example : ∃ hist P P', UrcReaches cfg64 (UrcCmd.Permitted cfg64) hist P ∧ hist.length ≤ cfg64.usizeMax ∧
    P.hands[0]? = some (some (.urc 0)) ∧ P.hands[1]? = some (some (.urc 0)) ∧ P.Reads cfg64 1 7 ∧
    runUrc cfg64 (.setMut 0 9) P = .ok (.opt none) P' :=
  ⟨_, _, _, urcTrace_permitted (cs := [.new 7, .clone 0]) (evs := [some .unit, some .unit])
    (P := ⟨[some (.urc 0), some (.urc 0)], ⟨[some ⟨1, 0, 7, true, 0⟩], [some ⟨2, 0, 0⟩], 2, 0, []⟩⟩)
    (by decide +kernel), by decide +kernel, rfl, rfl, rfl, rfl⟩

/-! ## C69 -/

/-- C69 for permitted histories in which nothing was sent to another thread: `get_mut` gives access iff there is
no other handle of the value. -/
theorem C69_sole_partial (h : UrcReaches c (UrcCmd.Permitted c) hist P) (hl : hist.length ≤ c.usizeMax)
    (hs : ∀ i o, (.envelop i, o) ∉ hist) {i f : Nat} (hk : P.hands[i]? = some (some (.urc f))) (x : α) :
    (∃ a P', runUrc c (.setMut i x) P = .ok (.opt (some a)) P') ↔ ∀ j, j ≠ i → ¬ P.Shares i j := by
  refine ⟨fun ⟨a, P', he⟩ => (C68_exclusive_partial h hl hk he).1, fun hn => ?_⟩
  have I := h.inv hl
  obtain ⟨r, w', F, y, hr, hF, hy, ha, J, _, _, _, hsole⟩ := I.setMut (c := c) hk x
  obtain ⟨h1, h2⟩ := I.sole hk hF hn
  rw [hsole (h.unsent hs _ _ hy) h1 h2] at hr
  exact ⟨_, _, hr⟩

/-- C69 is false: once `get_mut` was tried while another thread had a handle, it never gives access again. Here
handle 0 is the only one in the end. -/
theorem C69_refuted : ∃ P, UrcReaches cfg64 UrcAny
    [(.new 7, some .unit), (.envelop 0, some .unit), (.setMut 0 1, some (.opt none)), (.drop 1, some .unit),
     (.setMut 0 1, some (.opt none))] P ∧ P.hands = [some (.urc 0), none] :=
  ⟨_, urcTrace_callable (cs := [.new 7, .envelop 0, .setMut 0 1, .drop 1, .setMut 0 1])
    (evs := [some .unit, some .unit, some (.opt none), some .unit, some (.opt none)])
    (P := ⟨[some (.urc 0), none],
      ⟨[some ⟨1, 2 ^ 64 - 1, 7, true, 1⟩], [some ⟨1, 0, 0⟩, none], 3, 0, []⟩⟩) (by decide +kernel), rfl⟩

/-- A `Weak` and a clone were there and were dropped. -/
theorem urcLocal_reaches : UrcReaches cfg64 (UrcCmd.Permitted cfg64)
    [(.new 7, some .unit), (.clone 0, some .unit), (.downgrade 1, some .unit), (.setMut 0 1, some (.opt none)),
     (.drop 1, some .unit), (.drop 2, some .unit)]
    ⟨[some (.urc 0), none, none], ⟨[some ⟨1, 0, 7, true, 0⟩], [some ⟨1, 0, 0⟩], 2, 0, []⟩⟩ :=
  urcTrace_permitted (cs := [.new 7, .clone 0, .downgrade 1, .setMut 0 1, .drop 1, .drop 2])
    (evs := [some .unit, some .unit, some .unit, some (.opt none), some .unit, some .unit]) (by decide +kernel)

theorem urcLocal_sole {P : UrcPool Nat} (h : P.hands = [some (.urc 0), none, none]) :
    ∀ j, j ≠ 0 → ¬ P.Shares 0 j := by
  rintro j hj ⟨m, _, hm⟩
  obtain ⟨k, F, hk, _⟩ := valueAt_some hm
  rw [h] at hk
  match j, hj, hk with
  | 1, _, hk => cases hk
  | 2, _, hk => cases hk
  | j + 3, _, hk => cases hk

example : ∃ hist P P', UrcReaches cfg64 (UrcCmd.Permitted cfg64) hist P ∧ hist.length ≤ cfg64.usizeMax ∧
    (∀ i o, (.envelop i, o) ∉ hist) ∧ P.hands[0]? = some (some (.urc 0)) ∧ (∀ j, j ≠ 0 → ¬ P.Shares 0 j) ∧
    runUrc cfg64 (.setMut 0 9) P = .ok (.opt (some 7)) P' :=
  ⟨_, _, _, urcLocal_reaches, by decide +kernel, by simp, rfl, urcLocal_sole rfl, rfl⟩

/-! ## C70 -/

/-- C70 is false for every program: no call of `Urc` ever runs the destructor of a value. -/
theorem C70_refuted_drop {ok : UrcPool α → UrcCmd α → Prop} (h : UrcReaches c ok hist P) : P.w.dropped = [] :=
  h.dropped

/-- C70 is false for every program: no call of `Urc` ever releases the memory of a value. -/
theorem C70_refuted_release {cmd : UrcCmd α} {o : Option (UrcOut α)} {P' : UrcPool α}
    (hh : UrcHappens c P cmd o P') (m : Nat) (x : UrcMaster α) (hm : P.w.masters[m]? = some (some x)) :
    ∃ x', P'.w.masters[m]? = some (some x') := hh.held.masters m x hm

/-- In particular here: all handles are gone, and the value was not dropped; its memory, and that of the fence,
because there was a `Weak`, were not released. -/
theorem C70_refuted : ∃ P x F, UrcReaches cfg64 UrcAny
    [(.new 7, some .unit), (.downgrade 0, some .unit), (.drop 0, some .unit), (.drop 1, some .unit)] P ∧
    P.hands = [none, none] ∧ P.w.dropped = [] ∧ P.w.masters = [some x] ∧ P.w.fences = [some F] ∧ x.val = 7 :=
  ⟨_, _, _, urcTrace_callable (cs := [.new 7, .downgrade 0, .drop 0, .drop 1])
    (evs := [some .unit, some .unit, some .unit, some .unit])
    (P := ⟨[none, none], ⟨[some ⟨1, 2 ^ 64 - 1, 7, true, 0⟩], [some ⟨0, 1, 0⟩], 2, 0, []⟩⟩)
    (by decide +kernel), rfl, rfl, rfl, rfl, rfl⟩

/-- C70, as far as it is true, for permitted histories: the fence of a handle is not released while the handle
is there, nor the master. What is missing: everything else (see above). -/
theorem C70_kept_partial (h : UrcReaches c (UrcCmd.Permitted c) hist P) (hl : hist.length ≤ c.usizeMax)
    {i : Nat} {k : UrcHand} (hk : P.hands[i]? = some (some k)) :
    ∃ F x, P.w.fences[k.at]? = some (some F) ∧ P.w.masters[F.master]? = some (some x) := by
  have I := h.inv hl
  obtain ⟨F, hF⟩ := I.ok.live _ (urcCount_pos hk)
  obtain ⟨x, hx⟩ := I.ok.hasMaster _ _ hF
  exact ⟨F, x, hF, hx⟩

/-- C70, as far as it is true, for permitted histories: dropping the only handle of a fence releases the fence. -/
theorem C70_fence_partial (h : UrcReaches c (UrcCmd.Permitted c) hist P) (hl : hist.length ≤ c.usizeMax)
    {i f : Nat} (hk : P.hands[i]? = some (some (.urc f)))
    (hs : ∀ j k, j ≠ i → P.hands[j]? = some (some k) → k.at ≠ f) :
    ∃ P', runUrc c (.drop i) P = .ok .unit P' ∧ P'.w.fences[f]? = some none := by
  have I := h.inv hl
  obtain ⟨w', hr, _, _, F, hF, hrel, _⟩ := I.ok.drop (c := c) (urcCount_pos hk)
  have c1 : urcCount P.hands (.urc f) = 1 := UrcInv.counts_one hk fun j hj e => hs j _ hj e rfl
  have c2 : urcCount P.hands (.weak f F.master) = 0 := UrcInv.counts_zero fun j e => by
    have hj : j ≠ i := by rintro rfl; rw [hk] at e; cases e
    exact hs j _ hj e rfl
  obtain ⟨a1, a2, _⟩ := I.ok.atUrc (by omega) hF
  refine ⟨⟨P.hands.set i none, w'⟩, ?_, ?_⟩
  · simp only [runUrc, hk, UrcPool.on, hr]
  · simp only []
    rw [hrel ⟨by omega, by omega⟩, List.getElem?_set_self (List.getElem?_eq_some_iff.mp hF).1]

example : ∃ hist P, UrcReaches cfg64 (UrcCmd.Permitted cfg64) hist P ∧ hist.length ≤ cfg64.usizeMax ∧
    P.hands[1]? = some (some (.urc 1)) ∧
    (∀ j k, j ≠ 1 → P.hands[j]? = some (some k) → k.at ≠ 1) := by
  refine ⟨_, _, urcTrace_permitted (cs := [.new 7, .envelop 0]) (evs := [some .unit, some .unit])
    (P := ⟨[some (.urc 0), some (.urc 1)],
      ⟨[some ⟨2, 0, 7, true, 1⟩], [some ⟨1, 0, 0⟩, some ⟨1, 0, 0⟩], 3, 0, []⟩⟩)
    (by decide +kernel), by decide +kernel, rfl, fun j k hj hk => ?_⟩
  match j, hj, hk with
  | 0, _, hk => cases hk; simp [UrcHand.at]
  | j + 2, _, hk => cases hk

/-! ## C71 -/

/-- C71 for permitted calls: `try_unwrap` returns either the value, which the handle read, and then there was no
other `Urc` of it; or the handle, with everything as before. -/
theorem C71_partial (h : UrcReaches c (UrcCmd.Permitted c) hist P) (hl : hist.length ≤ c.usizeMax)
    {i f : Nat} (hk : P.hands[i]? = some (some (.urc f))) (hc : (UrcCmd.tryUnwrap i : UrcCmd α).Permitted c P) :
    runUrc c (.tryUnwrap i) P = .ok (.opt none) P ∨
    ∃ v w', runUrc c (.tryUnwrap i) P = .ok (.opt (some v)) ⟨P.hands.set i none, w'⟩ ∧ P.Reads c i v ∧
      ∀ j k, j ≠ i → P.Shares i j → P.hands[j]? = some (some k) → ∃ m, k = .weak f m := by
  have I := h.inv hl
  obtain ⟨F, x, hF, hx, ha, _⟩ := I.ok.owner (urcCount_pos hk) trivial
  rcases I.ok.tryUnwrap (urcCount_pos hk) hF hx (hc.2 f F x hk hF hx) with ⟨_, hr⟩ | ⟨h1, h2, w', hr, _⟩
  · left
    simp only [runUrc, hk, UrcPool.on, hr]
  · right
    refine ⟨x.val, w', ?_, (reads_iff hk).mpr ⟨F, x, hF, hx, ha, rfl⟩, fun j k hj hsh hkj => ?_⟩
    · simp only [runUrc, hk, UrcPool.on, hr]
    · rw [I.unshared hk hF hx ha h1 h2 hj hsh] at hkj
      cases hkj
      exact ⟨_, rfl⟩

/-- C71 is false whenever a handle that was never sent is the only one of its value: `try_unwrap` then uses the
fence after giving it back. -/
theorem C71_refuted_sole (h : UrcReaches c (UrcCmd.Permitted c) hist P) (hl : hist.length ≤ c.usizeMax)
    (hs : ∀ i o, (.envelop i, o) ∉ hist) {i f : Nat} (hk : P.hands[i]? = some (some (.urc f)))
    (hn : ∀ j, j ≠ i → ¬ P.Shares i j) : runUrc c (.tryUnwrap i) P = .ub .oob := by
  have I := h.inv hl
  obtain ⟨F, x, hF, hx, ha, _⟩ := I.ok.owner (urcCount_pos hk) trivial
  obtain ⟨h1, h2⟩ := I.sole hk hF hn
  obtain ⟨a1, a2, _⟩ := I.ok.atUrc (urcCount_pos hk) hF
  have hsf : x.sf = 1 :=
    ((I.ok.master _ _ hx).alone ha (h.unsent hs _ _ hx) (.urc f) F trivial (urcCount_pos hk) hF rfl).1
  have hfl := (List.getElem?_eq_some_iff.mp hF).1
  have hml := (List.getElem?_eq_some_iff.mp hx).1
  have hF' : P.w.fences[f]? = some (some F) := hF
  have hu : Urc.tryUnwrap f P.w = .ub .oob := by
    rw [Urc.tryUnwrap, M.bind_apply, Urc.fence_eq hF']
    simp only []
    rw [M.bind_apply, Urc.master_eq hx]
    simp only [hsf, if_true]
    rw [M.bind_apply]
    simp only [Urc.putMaster, M.modify]
    rw [if_neg (by omega)]
    rw [M.bind_apply, Urc.data_eq (x := { x with sf := 0 }) (by simp [hml]) ha]
    simp only []
    rw [M.bind_apply, Urc.master_eq (x := { x with sf := 0 }) (by simp [hml])]
    simp only [M.bind_apply, M.modify, List.set_set]
    rw [if_pos (show F.weak = 0 by omega)]
    rw [Urc.releaseBoth, M.bind_apply]
    simp only [Urc.freeFence, hF']
    rw [M.bind_apply]
    have hfl' : f < P.w.fences.length := hfl
    simp only [Urc.fence, List.getElem?_set_self hfl']
  simp only [runUrc, hk, UrcPool.on, hu]

/-- C71 is false also if it returns the handle: with a clone, `try_unwrap` returns the handle but leaves the
number of fences changed, so that the handle is no longer of the only fence. -/
theorem C71_refuted_counts : ∃ P, UrcReaches cfg64 UrcAny
    [(.new 7, some .unit), (.clone 0, some .unit), (.isSole 0, some (.bool true)),
     (.tryUnwrap 0, some (.opt none)), (.isSole 0, some (.bool false))] P :=
  ⟨_, urcTrace_callable (cs := [.new 7, .clone 0, .isSole 0, .tryUnwrap 0, .isSole 0])
    (evs := [some .unit, some .unit, some (.bool true), some (.opt none), some (.bool false)])
    (P := ⟨[some (.urc 0), some (.urc 0)],
      ⟨[some ⟨0, 0, 7, true, 0⟩], [some ⟨2, 0, 0⟩], 2, 0, []⟩⟩) (by decide +kernel)⟩

/-- C71 is false also in that the only `Urc` may not get the value: another thread dropped its handle, but has a
`Weak`, so that its fence still counts. -/
theorem C71_refuted_weak : ∃ P, UrcReaches cfg64 UrcAny
    [(.new 7, some .unit), (.envelop 0, some .unit), (.downgrade 1, some .unit), (.drop 1, some .unit),
     (.tryUnwrap 0, some (.opt none))] P ∧ P.hands = [some (.urc 0), none, some (.weak 1 0)] :=
  ⟨_, urcTrace_callable (cs := [.new 7, .envelop 0, .downgrade 1, .drop 1, .tryUnwrap 0])
    (evs := [some .unit, some .unit, some .unit, some .unit, some (.opt none)])
    (P := ⟨[some (.urc 0), none, some (.weak 1 0)],
      ⟨[some ⟨2, 0, 7, true, 1⟩], [some ⟨1, 0, 0⟩, some ⟨0, 1, 0⟩], 3, 0, []⟩⟩) (by decide +kernel), rfl⟩

example : ∃ hist P P', UrcReaches cfg64 (UrcCmd.Permitted cfg64) hist P ∧ hist.length ≤ cfg64.usizeMax ∧
    P.hands[0]? = some (some (.urc 0)) ∧ (UrcCmd.tryUnwrap 0 : UrcCmd Nat).Permitted cfg64 P ∧
    runUrc cfg64 (.tryUnwrap 0) P = .ok (.opt (some 7)) P' :=
  ⟨_, _, _, urcTrace_permitted (cs := [.new 7, .downgrade 0]) (evs := [some .unit, some .unit])
    (P := ⟨[some (.urc 0), some (.weak 0 0)], ⟨[some ⟨1, 0, 7, true, 0⟩], [some ⟨1, 1, 0⟩], 2, 0, []⟩⟩)
    (by decide +kernel), by decide +kernel, rfl, urcPermitted_sound (by decide +kernel), rfl⟩

example : ∃ hist P, UrcReaches cfg64 (UrcCmd.Permitted cfg64) hist P ∧ hist.length ≤ cfg64.usizeMax ∧
    (∀ i o, (.envelop i, o) ∉ hist) ∧ P.hands[0]? = some (some (.urc 0)) ∧ ∀ j, j ≠ 0 → ¬ P.Shares 0 j :=
  ⟨_, _, urcLocal_reaches, by decide +kernel, by simp, rfl, urcLocal_sole rfl⟩

/-! ## C72 -/

/-- C72 for permitted calls: `make_mut` gives access to an equal value that no other handle shares; or memory was
refused or `T::clone` panicked, and then the handle reads what it did. Other handles are left alone, by
`C67_frame_partial`. -/
theorem C72_partial (h : UrcReaches c (UrcCmd.Permitted c) hist P) (hl : hist.length < c.usizeMax)
    (hcl : FaithfulClone c) {i f : Nat} {v : α} (hk : P.hands[i]? = some (some (.urc f))) (hv : P.Reads c i v)
    {g : α → α} (hc : (UrcCmd.makeMut i g).Permitted c P) :
    (∃ P', runUrc c (.makeMut i g) P = .ok (.val v) P' ∧ P'.Reads c i (g v) ∧
      ∀ j, j ≠ i → ¬ P'.Shares i j) ∨
    (∃ P', runUrc c (.makeMut i g) P = .panic P' ∧ P'.hands = P.hands ∧ P'.Reads c i v ∧
      (¬ P.w.Granted c ∨ c.clone P.w.calls v = none)) := by
  have I := h.inv (Nat.le_of_lt hl)
  obtain ⟨F, x, hF, hx, ha, hxv⟩ := (reads_iff hk).mp hv
  have hm := I.makeMut (c := c) hk hF hx (hc.2 f F x hk hF hx) g
  cases hr : runUrc c (.makeMut i g) P with
  | ok o P' =>
    rw [hr] at hm
    obtain ⟨⟨I', _⟩, q, w', v', rfl, rfl, hs, h1, h2, hval, F', x', hF', hx', ha', hs'⟩ := hm
    have hq : (P.hands.set i (some (.urc q)))[i]? = some (some (.urc q)) :=
      List.getElem?_set_self (List.getElem?_eq_some_iff.mp hk).1
    have hvv : v' = v := by
      rcases hval with e | e
      · exact e.trans hxv
      · exact (hcl _ _ _ e).trans hxv
    subst hvv
    left
    refine ⟨_, rfl, (reads_iff (P := ⟨P.hands.set i (some (.urc q)), w'⟩) hq).mpr hs, fun j hj hsh => ?_⟩
    have h3 := urcCount_pos (I'.unshared hq hF' hx' ha' hs' h1 hj hsh)
    have h4 := h2 (.weak q F'.master) rfl (by simp)
    simp only [] at h3
    omega
  | panic P' =>
    rw [hr] at hm
    obtain ⟨_, hh, hkeep, hwhy⟩ := hm
    right
    refine ⟨P', rfl, hh, (reads_iff (hh ▸ hk)).mpr (hkeep f v trivial ((reads_iff hk).mp hv)), ?_⟩
    rw [← hxv]
    exact hwhy
  | abort => rw [hr] at hm; exact hm.elim
  | ub u => rw [hr] at hm; exact hm.elim

/-- C72 is false in a debug build whenever a handle that was never sent is the only one of its value: `make_mut`
panics. -/
theorem C72_refuted_debug (hd : c.debug = true) (h : UrcReaches c (UrcCmd.Permitted c) hist P)
    (hl : hist.length ≤ c.usizeMax) (hs : ∀ i o, (.envelop i, o) ∉ hist) {i f : Nat}
    (hk : P.hands[i]? = some (some (.urc f))) (hn : ∀ j, j ≠ i → ¬ P.Shares i j) (g : α → α) :
    ∃ P', runUrc c (.makeMut i g) P = .panic P' := by
  have I := h.inv hl
  obtain ⟨F, x, hF, hx, ha, _⟩ := I.ok.owner (urcCount_pos hk) trivial
  obtain ⟨h1, h2⟩ := I.sole hk hF hn
  obtain ⟨a1, a2, _⟩ := I.ok.atUrc (urcCount_pos hk) hF
  obtain ⟨hsf, hwf⟩ :=
    (I.ok.master _ _ hx).alone ha (h.unsent hs _ _ hx) (.urc f) F trivial (urcCount_pos hk) hF rfl
  have hF' : P.w.fences[f]? = some (some F) := hF
  have hw : F.weak = 0 := by omega
  have hu : ∃ s, Urc.makeMut c (f, P.w) = .panic s := by
    rw [Urc.makeMut_unfold hF' hx, if_pos hsf, if_neg (by omega)]
    have hadd : uadd c x.wf 1 P.w = .ok (x.wf + 1) P.w := by
      rw [uadd, if_pos (by simp only [Cfg.usizeMax]; omega)]
      rfl
    rw [M.bind_apply, Urc.lift_ok hadd]
    simp only []
    rw [M.bind_apply, Urc.lift_ok (m := Urc.putMaster F.master _) (by rfl)]
    simp only []
    have hwd : ∀ w : UrcWorld α, w.fences[f]? = some (some F) → Urc.weakDrop c f F.master w = .panic w := by
      intro w hFw
      rw [Urc.weakDrop, M.bind_apply, Urc.fence_eq hFw]
      simp only [hw]
      rw [if_neg (by omega), Urc.decWeak_debug hFw hw hd]
    rw [M.bind_apply, Urc.lift]
    simp only [hwd { P.w with masters := P.w.masters.set F.master (some { x with wf := x.wf + 1 }) } hF']
    exact ⟨_, rfl⟩
  obtain ⟨s, hu⟩ := hu
  exact ⟨⟨P.hands.set i (some (.urc s.1)), s.2⟩, by simp only [runUrc, hk, UrcPool.makeMut, hu]⟩

/-- C72 is false in a release build: the clone loses its value (see also `C67_refuted_release`). -/
theorem C72_refuted_release : ∃ P, UrcReaches cfgRcRelease UrcAny
    [(.new 7, some .unit), (.clone 0, some .unit), (.read 1, some (.val 7)), (.makeMut 0 (· + 1), some (.val 7))] P ∧
    P.hands[1]? = some (some (.urc 0)) ∧ ¬ P.Reads cfgRcRelease 1 7 :=
  ⟨_, urcTrace_callable (cs := [.new 7, .clone 0, .read 1, .makeMut 0 (· + 1)])
    (evs := [some .unit, some .unit, some (.val 7), some (.val 7)]) (P := ⟨[some (.urc 1), some (.urc 0)],
      ⟨[some ⟨0, 1, 7, false, 0⟩, some ⟨1, 0, 8, true, 0⟩],
       [some ⟨2 ^ 64 - 1, 2 ^ 64 - 1, 0⟩, some ⟨1, 0, 1⟩], 4, 0, []⟩⟩) (by decide +kernel), rfl,
    fun h => by cases h⟩

theorem cfg64_faithful : FaithfulClone cfg64 := fun _ _ _ h => by cases h; rfl

example : ∃ hist P P', UrcReaches cfg64 (UrcCmd.Permitted cfg64) hist P ∧ hist.length < cfg64.usizeMax ∧
    FaithfulClone cfg64 ∧ P.hands[0]? = some (some (.urc 0)) ∧ P.Reads cfg64 0 7 ∧
    (UrcCmd.makeMut 0 (· + 1)).Permitted cfg64 P ∧ P.Shares 0 1 ∧
    runUrc cfg64 (.makeMut 0 (· + 1)) P = .ok (.val 7) P' ∧ P'.Reads cfg64 0 8 ∧ P'.Reads cfg64 1 7 :=
  ⟨_, _, _, urcTrace_permitted (cs := [.new 7, .envelop 0]) (evs := [some .unit, some .unit])
    (P := ⟨[some (.urc 0), some (.urc 1)],
      ⟨[some ⟨2, 0, 7, true, 1⟩], [some ⟨1, 0, 0⟩, some ⟨1, 0, 0⟩], 3, 0, []⟩⟩)
    (by decide +kernel), by decide +kernel, cfg64_faithful, rfl, rfl, urcPermitted_sound (by decide +kernel),
    ⟨0, rfl, rfl⟩, rfl, rfl, rfl⟩

example : ∃ hist P, cfg64.debug = true ∧ UrcReaches cfg64 (UrcCmd.Permitted cfg64) hist P ∧
    hist.length ≤ cfg64.usizeMax ∧ (∀ i o, (.envelop i, o) ∉ hist) ∧ P.hands[0]? = some (some (.urc 0)) ∧
    ∀ j, j ≠ 0 → ¬ P.Shares 0 j :=
  ⟨_, _, rfl, urcLocal_reaches, by decide +kernel, by simp, rfl, urcLocal_sole rfl⟩

/-! ## C73 -/

/-- The number of handles for which `p` holds. -/
def UrcPool.many (P : UrcPool α) (p : UrcHand → Bool) : Nat := P.hands.countP fun o => o.any p

/-- A `Weak` of fence `f`. -/
def UrcHand.isWeakOf (f : Nat) : UrcHand → Bool
  | .weak g _ => g == f
  | _ => false

/-- C73 for permitted histories: `fence_strong_count` is the number of `Urc` handles of the fence. -/
theorem C73_strong (h : UrcReaches c (UrcCmd.Permitted c) hist P) (hl : hist.length ≤ c.usizeMax)
    {i f : Nat} (hk : P.hands[i]? = some (some (.urc f))) :
    runUrc c (.strongCount i) P = .ok (.nat (P.many (· == .urc f))) P := by
  have I := h.inv hl
  obtain ⟨F, x, hF, hx, ha, _⟩ := I.ok.owner (urcCount_pos hk) trivial
  obtain ⟨a1, _, _⟩ := I.ok.atUrc (urcCount_pos hk) hF
  have e : P.many (· == .urc f) = urcCount P.hands (.urc f) := by
    rw [UrcPool.many, urcCount, List.count]
    refine List.countP_congr fun o _ => ?_
    cases o <;> simp
  have hF' : P.w.fences[f]? = some (some F) := hF
  rw [e, ← a1]
  simp only [runUrc, hk, UrcPool.look, UrcPool.on, Urc.fence_eq hF']

/-- C73 for permitted histories: `fence_weak_count` is the number of `Weak` handles of the fence. -/
theorem C73_weak (h : UrcReaches c (UrcCmd.Permitted c) hist P) (hl : hist.length ≤ c.usizeMax)
    {i f : Nat} (hk : P.hands[i]? = some (some (.urc f))) :
    runUrc c (.weakCount i) P = .ok (.nat (P.many (UrcHand.isWeakOf f))) P := by
  have I := h.inv hl
  obtain ⟨F, x, hF, hx, ha, _⟩ := I.ok.owner (urcCount_pos hk) trivial
  obtain ⟨_, a2, _⟩ := I.ok.atUrc (urcCount_pos hk) hF
  have hF' : P.w.fences[f]? = some (some F) := hF
  have e : P.many (UrcHand.isWeakOf f) = urcCount P.hands (.weak f F.master) := by
    rw [UrcPool.many, urcCount, List.count]
    refine List.countP_congr fun o ho => ?_
    cases o with
    | none => simp
    | some k => cases k with
      | urc g => simp [UrcHand.isWeakOf]
      | fence g => simp [UrcHand.isWeakOf]
      | weak g m =>
        simp only [Option.any_some, UrcHand.isWeakOf, beq_iff_eq, Option.some.injEq, UrcHand.weak.injEq]
        refine ⟨fun e => ⟨e, ?_⟩, And.left⟩
        subst e
        exact ((I.ok.fence _ F hF').fits (.weak g m) (List.count_pos_iff.mpr ho) rfl).symm
  rw [e, ← a2]
  simp only [runUrc, hk, UrcPool.look, UrcPool.on, Urc.fence_eq hF']

example : ∃ hist P, UrcReaches cfg64 (UrcCmd.Permitted cfg64) hist P ∧ hist.length ≤ cfg64.usizeMax ∧
    P.hands[0]? = some (some (.urc 0)) ∧ P.many (· == .urc 0) = 2 ∧ P.many (UrcHand.isWeakOf 0) = 1 ∧
    P.many (fun _ => true) = 4 :=
  ⟨_, _, urcTrace_permitted (cs := [.new 7, .clone 0, .downgrade 0, .envelop 0])
    (evs := [some .unit, some .unit, some .unit, some .unit])
    (P := ⟨[some (.urc 0), some (.urc 0), some (.weak 0 0), some (.urc 1)],
      ⟨[some ⟨2, 0, 7, true, 1⟩], [some ⟨2, 1, 0⟩, some ⟨1, 0, 0⟩], 3, 0, []⟩⟩)
    (by decide +kernel), by decide +kernel, rfl, by decide, by decide, by decide⟩

/-! ## C84 -/

/-- C84 is false for every permitted program: `into_inner` of a fence gives its memory back twice. -/
theorem C84_refuted (h : UrcReaches c (UrcCmd.Permitted c) hist P) (hl : hist.length ≤ c.usizeMax)
    {i f : Nat} (hk : P.hands[i]? = some (some (.fence f))) : runUrc c (.fromFence i) P = .ub .badFree := by
  obtain ⟨F, hF⟩ := (h.inv hl).ok.live _ (urcCount_pos hk)
  have hF' : P.w.fences[f]? = some (some F) := hF
  have hfl : f < P.w.fences.length := (List.getElem?_eq_some_iff.mp hF').1
  have hu : Urc.fromFence c f P.w = .ub .badFree := by
    rw [Urc.fromFence, M.bind_apply, Urc.fence_eq hF']
    simp only []
    have e1 : Urc.freeFence f P.w = .ok () { P.w with fences := P.w.fences.set f none } := by
      simp only [Urc.freeFence, hF']
    have e2 : Urc.freeFence f { P.w with fences := P.w.fences.set f none } = .ub .badFree := by
      simp only [Urc.freeFence, List.getElem?_set_self hfl]
    rw [M.bind_apply, e1]
    simp only []
    rw [M.bind_apply, e2]
  simp only [runUrc, hk, UrcPool.on, hu]

/-- C84, as far as it is true, for permitted histories: a fence that was taken out keeps the value, and has the
counts 1 and 0. -/
theorem C84_counts_partial (h : UrcReaches c (UrcCmd.Permitted c) hist P) (hl : hist.length ≤ c.usizeMax)
    {i f : Nat} (hk : P.hands[i]? = some (some (.fence f))) :
    runUrc c (.strongCount i) P = .ok (.nat 1) P ∧ runUrc c (.weakCount i) P = .ok (.nat 0) P ∧
    ∃ F x, P.w.fences[f]? = some (some F) ∧ P.w.masters[F.master]? = some (some x) ∧ x.alive = true := by
  have I := h.inv hl
  obtain ⟨F, x, hF, hx, ha, _⟩ := I.ok.owner (urcCount_pos hk) trivial
  have hF' : P.w.fences[f]? = some (some F) := hF
  have K := I.ok.fence _ _ hF'
  have hp := urcCount_pos hk
  obtain ⟨b1, b2, b3⟩ := K.fence hp
  have a1 := K.strong (by omega)
  have a2 := K.weak _ hp rfl
  refine ⟨?_, ?_, F, x, hF', hx, ha⟩
  · simp only [runUrc, hk, UrcPool.look, UrcPool.on, Urc.fence_eq hF', show F.strong = 1 by omega]
  · simp only [runUrc, hk, UrcPool.look, UrcPool.on, Urc.fence_eq hF', show F.weak = 0 by omega]

example : UrcReaches cfgRcRelease (UrcCmd.Permitted cfgRcRelease) (urcProg.zip urcProgSees) urcProgEnd ∧
    (urcProg.zip urcProgSees).length ≤ cfgRcRelease.usizeMax ∧
    urcProgEnd.hands[5]? = some (some (.fence 4)) := ⟨urcProg_reaches, by decide +kernel, rfl⟩

/-! ## C85 -/

/-- C85 for permitted histories: `try_into_fence` takes the fence out iff the handle is the only one of its
fence, and otherwise gives the handle back, with everything as before. -/
theorem C85_into_fence (h : UrcReaches c (UrcCmd.Permitted c) hist P) (hl : hist.length ≤ c.usizeMax)
    {i f : Nat} (hk : P.hands[i]? = some (some (.urc f))) :
    ((∀ j k, j ≠ i → P.hands[j]? = some (some k) → k.at ≠ f) ∧
      runUrc c (.intoFence i) P = .ok (.bool true) ⟨P.hands.set i (some (.fence f)), P.w⟩) ∨
    ((∃ j k, j ≠ i ∧ P.hands[j]? = some (some k) ∧ k.at = f) ∧
      runUrc c (.intoFence i) P = .ok (.bool false) P) := by
  have I := h.inv hl
  have hp := urcCount_pos hk
  obtain ⟨F, hF, hc⟩ := I.ok.intoFence hp
  obtain ⟨a1, a2, a3⟩ := I.ok.atUrc hp hF
  rcases hc with ⟨h1, h2, hr, _⟩ | ⟨hn, hr⟩
  · left
    refine ⟨fun j k hj hkj hat => ?_, by simp [runUrc, hk, UrcPool.on, hr]⟩
    have hoth := urcCount_other hk hj hkj
    cases k with
    | urc g => simp only [UrcHand.at] at hat; subst hat; rw [lessHand_self] at hoth; omega
    | fence g =>
      simp only [UrcHand.at] at hat
      subst hat
      rw [lessHand_ne _ (by simp)] at hoth
      omega
    | weak g m =>
      simp only [UrcHand.at] at hat
      subst hat
      have hpos := urcCount_pos hkj
      have hm : F.master = m := (I.ok.fence _ F hF).fits _ hpos rfl
      subst hm
      omega
  · right
    refine ⟨?_, by simp [runUrc, hk, UrcPool.on, hr]⟩
    refine Classical.byContradiction fun hno => hn ⟨?_, ?_⟩
    · exact UrcInv.counts_one hk fun j hj e => hno ⟨j, _, hj, e, rfl⟩
    · refine UrcInv.counts_zero fun j e => ?_
      have hj : j ≠ i := by rintro rfl; rw [hk] at e; cases e
      exact hno ⟨j, _, hj, e, rfl⟩

example : ∃ hist P, UrcReaches cfg64 (UrcCmd.Permitted cfg64) hist P ∧ hist.length ≤ cfg64.usizeMax ∧
    P.hands[0]? = some (some (.urc 0)) ∧ P.hands[1]? = some (some (.weak 0 0)) ∧ P.hands[2]? = some (some (.urc 1)) :=
  ⟨_, _, urcTrace_permitted (cs := [.new 7, .downgrade 0, .envelop 0])
    (evs := [some .unit, some .unit, some .unit])
    (P := ⟨[some (.urc 0), some (.weak 0 0), some (.urc 1)],
      ⟨[some ⟨2, 0, 7, true, 1⟩], [some ⟨1, 1, 0⟩, some ⟨1, 0, 0⟩], 3, 0, []⟩⟩)
    (by decide +kernel), by decide +kernel, rfl, rfl, rfl⟩

/-! ## C86 -/

/-- C86 is false: the fence made for another thread was taken out and dropped, which leaves the number of fences
as it was. Handle 0, the only one, is then taken for one of several. -/
theorem C86_refuted : ∃ P, UrcReaches cfg64 UrcAny
    [(.new 7, some .unit), (.envelop 0, some .unit), (.intoFence 1, some (.bool true)), (.drop 1, some .unit),
     (.isSole 0, some (.bool false)), (.setMut 0 1, some (.opt none))] P ∧ P.hands = [some (.urc 0), none] :=
  ⟨_, urcTrace_callable (cs := [.new 7, .envelop 0, .intoFence 1, .drop 1, .isSole 0, .setMut 0 1])
    (evs := [some .unit, some .unit, some (.bool true), some .unit, some (.bool false), some (.opt none)])
    (P := ⟨[some (.urc 0), none],
      ⟨[some ⟨2, 2 ^ 64 - 1, 7, true, 1⟩], [some ⟨1, 0, 0⟩, none], 3, 0, []⟩⟩) (by decide +kernel), rfl⟩

/-- C86, as far as it is true, for permitted histories: dropping the fence releases it. -/
theorem C86_release_partial (h : UrcReaches c (UrcCmd.Permitted c) hist P) (hl : hist.length ≤ c.usizeMax)
    {i f : Nat} (hk : P.hands[i]? = some (some (.fence f))) :
    runUrc c (.drop i) P = .ok .unit ⟨P.hands.set i none, { P.w with fences := P.w.fences.set f none }⟩ := by
  obtain ⟨F, hF⟩ := (h.inv hl).ok.live _ (urcCount_pos hk)
  have hF' : P.w.fences[f]? = some (some F) := hF
  simp only [runUrc, hk, UrcPool.on, Urc.freeFence, hF']

/-! ## C87 -/

/-- C87 for permitted histories: if `is_sole_strong_fence` holds, every handle of the value is of the same fence,
and so in the same thread. -/
theorem C87_same_fence_partial (h : UrcReaches c (UrcCmd.Permitted c) hist P) (hl : hist.length ≤ c.usizeMax)
    {i f : Nat} (hk : P.hands[i]? = some (some (.urc f))) (hs : runUrc c (.isSole i) P = .ok (.bool true) P)
    {j : Nat} {k : UrcHand} (hkj : P.hands[j]? = some (some k)) (hsh : P.Shares i j) : k.at = f := by
  have I := h.inv hl
  obtain ⟨F, x, hF, hx, ha, _⟩ := I.ok.owner (urcCount_pos hk) trivial
  have hF' : P.w.fences[f]? = some (some F) := hF
  have h1 : x.sf = 1 := by
    simp only [runUrc, hk, UrcPool.look, UrcPool.on, Urc.isSole, M.bind_apply, Urc.fence_eq hF',
      Urc.master_eq hx, M.pure_apply] at hs
    injection hs with hs
    injection hs with hs
    simpa using hs
  obtain ⟨m, hm1, hm2⟩ := hsh
  rw [valueAt_eq hk hF'] at hm1
  cases hm1
  obtain ⟨k', G, hk', hG, hGm⟩ := valueAt_some hm2
  rw [hkj] at hk'
  cases hk'
  exact I.ok.only (k := .urc f) (urcCount_pos hk) hF hx ha h1 (urcCount_pos hkj) hG hGm

/-- C87 for permitted histories in which nothing was sent: `is_sole_strong_fence` holds. -/
theorem C87_unsent_partial (h : UrcReaches c (UrcCmd.Permitted c) hist P) (hl : hist.length ≤ c.usizeMax)
    (hs : ∀ i o, (.envelop i, o) ∉ hist) {i f : Nat} (hk : P.hands[i]? = some (some (.urc f))) :
    runUrc c (.isSole i) P = .ok (.bool true) P := by
  have I := h.inv hl
  obtain ⟨F, x, hF, hx, ha, _⟩ := I.ok.owner (urcCount_pos hk) trivial
  have hF' : P.w.fences[f]? = some (some F) := hF
  have hsf : x.sf = 1 :=
    ((I.ok.master _ _ hx).alone ha (h.unsent hs _ _ hx) (.urc f) F trivial (urcCount_pos hk) hF rfl).1
  simp only [runUrc, hk, UrcPool.look, UrcPool.on, Urc.isSole, M.bind_apply, Urc.fence_eq hF',
    Urc.master_eq hx, M.pure_apply, hsf]
  rfl

/-- C87 is false in general: the other thread dropped its `Urc`, having dropped its `Weak` last, and the fence
is still counted. Handle 0 is the only one. -/
theorem C87_refuted : ∃ P, UrcReaches cfg64 UrcAny
    [(.new 7, some .unit), (.envelop 0, some .unit), (.downgrade 1, some .unit), (.drop 1, some .unit),
     (.drop 2, some .unit), (.isSole 0, some (.bool false))] P ∧ P.hands = [some (.urc 0), none, none] :=
  ⟨_, urcTrace_callable (cs := [.new 7, .envelop 0, .downgrade 1, .drop 1, .drop 2, .isSole 0])
    (evs := [some .unit, some .unit, some .unit, some .unit, some .unit, some (.bool false)])
    (P := ⟨[some (.urc 0), none, none],
      ⟨[some ⟨2, 2 ^ 64 - 1, 7, true, 1⟩], [some ⟨1, 0, 0⟩, some ⟨0, 1, 0⟩], 3, 0, []⟩⟩) (by decide +kernel), rfl⟩

example : ∃ hist P, UrcReaches cfg64 (UrcCmd.Permitted cfg64) hist P ∧ hist.length ≤ cfg64.usizeMax ∧
    P.hands[0]? = some (some (.urc 0)) ∧ runUrc cfg64 (.isSole 0) P = .ok (.bool true) P ∧
    P.hands[1]? = some (some (.weak 0 0)) ∧ P.Shares 0 1 ∧ (∀ i o, (.envelop i, o) ∉ hist) :=
  ⟨_, _, urcTrace_permitted (cs := [.new 7, .downgrade 0]) (evs := [some .unit, some .unit])
    (P := ⟨[some (.urc 0), some (.weak 0 0)], ⟨[some ⟨1, 0, 7, true, 0⟩], [some ⟨1, 1, 0⟩], 2, 0, []⟩⟩)
    (by decide +kernel), by decide +kernel, rfl, rfl, rfl, ⟨0, rfl, rfl⟩, by simp⟩

end Lokky
