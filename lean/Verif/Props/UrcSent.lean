import Verif.Proofs.UrcPlain
import Verif.Props.Urc

/-!
# C69, C87 for values that were sent to other threads, and C98

`UrcCmd.Plain` (Verif/Proofs/UrcPlain.lean): histories without `downgrade`, `make_mut`, `try_unwrap`,
`try_into_fence` and `into_urc`, in which no memory was refused and `get_mut` was not tried in vain. What is
refuted in C69 and C87 needs one of these.
-/

namespace Lokky
variable {α : Type} {c : Cfg α} {hist : List (UrcCmd α × Option (UrcOut α))} {P : UrcPool α}

/-! ## C87 -/

/-- C87 for plain histories, in which values may be sent to other threads and dropped there:
`is_sole_strong_fence` holds iff every handle of the value is of the same fence. -/
theorem C87_sent_partial (h : UrcReaches c (UrcCmd.Permitted c) hist P) (hl : hist.length ≤ c.usizeMax)
    (hp : ∀ e ∈ hist, e.1.Plain e.2) {i f : Nat} (hk : P.hands[i]? = some (some (.urc f))) :
    ∃ b, runUrc c (.isSole i) P = .ok (.bool b) P ∧
      (b = true ↔ ∀ j k, P.hands[j]? = some (some k) → P.Shares i j → k.at = f) := by
  have I := h.inv hl
  have Q := h.plain hl hp
  obtain ⟨F, x, hF, hx, ha, -⟩ := I.ok.owner (urcCount_pos hk) trivial
  simp only [UrcHand.at] at hF
  refine ⟨x.sf == 1, ?_, ?_⟩
  · simp only [runUrc, hk, UrcPool.look, UrcPool.on, Urc.isSole, M.bind_apply, Urc.fence_eq hF,
      Urc.master_eq hx, M.pure_apply]
  · rw [beq_iff_eq, (Q.count _ x hx).1, fencesOf_one hF rfl]
    constructor
    · rintro hu j k hkj ⟨m, hm1, hm2⟩
      rw [valueAt_eq hk hF] at hm1
      cases hm1
      obtain ⟨k', G, hk', hG, hGm⟩ := valueAt_some hm2
      rw [hkj] at hk'
      cases hk'
      exact hu _ G hG hGm
    · intro hu g G hG hGm
      obtain ⟨j, hj⟩ := List.mem_iff_getElem?.mp (List.count_pos_iff.mp (Q.busy g G hG))
      exact hu j (.urc g) hj ⟨F.master, valueAt_eq hk hF, by rw [valueAt_eq hj (F := G) hG, hGm]⟩

/-! ## C69 -/

/-- C69 for plain histories, in which values may be sent to other threads and dropped there: `get_mut` gives
access iff there is no other handle of the value. -/
theorem C69_sent_partial (h : UrcReaches c (UrcCmd.Permitted c) hist P) (hl : hist.length ≤ c.usizeMax)
    (hp : ∀ e ∈ hist, e.1.Plain e.2) {i f : Nat} (hk : P.hands[i]? = some (some (.urc f))) (v : α) :
    (∃ a P', runUrc c (.setMut i v) P = .ok (.opt (some a)) P') ↔ ∀ j, j ≠ i → ¬ P.Shares i j := by
  refine ⟨fun ⟨a, P', he⟩ => (C68_exclusive_partial h hl hk he).1, fun hn => ?_⟩
  have I := h.inv hl
  have Q := h.plain hl hp
  obtain ⟨F, x, hF, hx, ha, -⟩ := I.ok.owner (urcCount_pos hk) trivial
  simp only [UrcHand.at] at hF
  obtain ⟨h1, h2⟩ := I.sole hk hF hn
  obtain ⟨e1, e2, -⟩ := I.ok.atUrc (urcCount_pos hk) hF
  have hsf : x.sf = 1 := by
    rw [(Q.count _ x hx).1, fencesOf_one hF rfl]
    intro g G hG hGm
    refine Decidable.byContradiction fun ne => ?_
    obtain ⟨j, hj⟩ := List.mem_iff_getElem?.mp (List.count_pos_iff.mp (Q.busy g G hG))
    refine hn j (fun e => ne ?_) ⟨F.master, valueAt_eq hk hF, by rw [valueAt_eq hj (F := G) hG, hGm]⟩
    subst e
    rw [hk] at hj
    cases hj
    rfl
  have hg := Urc.getMut_one (c := c) hF hx (Q.count _ x hx).2 hsf
  rw [show F.strong = 1 by omega, show F.weak = 0 by omega] at hg
  refine ⟨x.val, ⟨P.hands, { P.w with masters := P.w.masters.set F.master (some { x with val := v }) }⟩, ?_⟩
  simp [runUrc, hk, UrcPool.look, UrcPool.on, M.bind_apply, hg, Urc.write_eq hF hx ha, M.pure_apply]

/-- Sent to two other threads, one of which sent it on; all of them dropped it. -/
theorem urcPlain_reaches : UrcReaches cfg64 (UrcCmd.Permitted cfg64)
    [(.new 7, some .unit), (.envelop 0, some .unit), (.envelop 1, some .unit), (.clone 2, some .unit),
     (.isSole 2, some (.bool false)), (.drop 1, some .unit), (.drop 2, some .unit), (.drop 3, some .unit)]
    ⟨[some (.urc 0), none, none, none],
      ⟨[some ⟨1, 0, 7, true, 2⟩], [some ⟨1, 0, 0⟩, none, none], 4, 0, []⟩⟩ :=
  urcTrace_permitted (cs := [.new 7, .envelop 0, .envelop 1, .clone 2, .isSole 2, .drop 1, .drop 2, .drop 3])
    (evs := [some .unit, some .unit, some .unit, some .unit, some (.bool false), some .unit, some .unit,
      some .unit]) (by decide +kernel)

example : ∃ hist P, UrcReaches cfg64 (UrcCmd.Permitted cfg64) hist P ∧ hist.length ≤ cfg64.usizeMax ∧
    (∀ e ∈ hist, e.1.Plain e.2) ∧ P.hands[0]? = some (some (.urc 0)) ∧
    runUrc cfg64 (.isSole 0) P = .ok (.bool true) P ∧
    ∃ P', runUrc cfg64 (.setMut 0 9) P = .ok (.opt (some 7)) P' :=
  ⟨_, _, urcPlain_reaches, by decide +kernel, by simp [UrcCmd.Plain], rfl, rfl, _, rfl⟩

/-! ## C98 -/

/-- What a call needs in order to return: memory, and a clone that does not panic. -/
def UrcCmd.Provided (c : Cfg α) (P : UrcPool α) : UrcCmd α → Prop
  | .new _ | .envelop _ => P.w.Granted c
  | .makeMut _ _ => P.w.Granted c ∧ ∀ v, c.clone P.w.calls v ≠ none
  | _ => True

/-- C98 for permitted histories and calls: unless memory is refused or `T::clone` panics, every call returns. -/
theorem C98_partial (h : UrcReaches c (UrcCmd.Permitted c) hist P) (hl : hist.length < c.usizeMax)
    {cmd : UrcCmd α} (hc : cmd.Permitted c P) (hg : cmd.Provided c P) : ∃ o P', runUrc c cmd P = .ok o P' := by
  have I := h.inv (Nat.le_of_lt hl)
  have IO := I.ok.more (Nat.le_succ hist.length)
  obtain ⟨hc, hp⟩ := hc
  cases cmd with
  | new x =>
    have hn := IO.new (c := c) (by omega) x
    simp only [runUrc, UrcPool.make, UrcPool.on]
    cases hr : Urc.new c x P.w with
    | ok f w' => exact ⟨_, _, rfl⟩
    | panic w' => rw [hr] at hn; exact (hn.2.2.2 hg).elim
    | abort => rw [hr] at hn; exact hn.elim
    | ub u => rw [hr] at hn; exact hn.elim
  | clone i =>
    obtain ⟨f, hf⟩ := hc
    obtain ⟨w', hr, -⟩ := I.ok.clone (c := c) (urcCount_pos hf) hl
    simp only [runUrc, hf, UrcPool.make, UrcPool.on, hr]
    exact ⟨_, _, rfl⟩
  | downgrade i =>
    obtain ⟨f, hf⟩ := hc
    obtain ⟨w', m, hr, -⟩ := I.ok.downgrade (c := c) (urcCount_pos hf) hl
    simp only [runUrc, hf, UrcPool.make, UrcPool.on, hr]
    exact ⟨_, _, rfl⟩
  | envelop i =>
    obtain ⟨f, hf⟩ := hc
    obtain ⟨F, x, hF, hx, ha, -⟩ := I.ok.owner (urcCount_pos hf) trivial
    have := (I.ok.master _ _ hx).few
    simp only [runUrc, hf, UrcPool.make, UrcPool.on, Urc.envelop_eq (c := c) (f := f) hF hx (by omega) hg.1]
    exact ⟨_, _, rfl⟩
  | drop i =>
    obtain ⟨k, hk⟩ := hc
    cases k with
    | urc f =>
      obtain ⟨w', hr, -⟩ := I.ok.drop (c := c) (urcCount_pos hk)
      simp only [runUrc, hk, UrcPool.on, hr]
      exact ⟨_, _, rfl⟩
    | weak f m =>
      obtain ⟨w', hr, -⟩ := I.ok.weakDrop (c := c) (urcCount_pos hk)
      simp only [runUrc, hk, UrcPool.on, hr]
      exact ⟨_, _, rfl⟩
    | fence f =>
      obtain ⟨w', hr, -⟩ := I.ok.fenceDrop (urcCount_pos hk)
      simp only [runUrc, hk, UrcPool.on, hr]
      exact ⟨_, _, rfl⟩
  | read i =>
    obtain ⟨f, hf⟩ := hc
    obtain ⟨F, x, hF, hx, ha, -⟩ := I.ok.owner (urcCount_pos hf) trivial
    simp only [runUrc, hf, UrcPool.look, UrcPool.on, Urc.asRef_eq (f := f) hF hx ha]
    exact ⟨_, _, rfl⟩
  | strongCount i =>
    rcases hc with ⟨f, hf⟩ | ⟨f, hf⟩
    all_goals
      obtain ⟨F, hF⟩ := I.ok.live _ (urcCount_pos hf)
      simp only [runUrc, hf, UrcPool.look, UrcPool.on, Urc.fence_eq (f := f) hF]
      exact ⟨_, _, rfl⟩
  | weakCount i =>
    rcases hc with ⟨f, hf⟩ | ⟨f, hf⟩
    all_goals
      obtain ⟨F, hF⟩ := I.ok.live _ (urcCount_pos hf)
      simp only [runUrc, hf, UrcPool.look, UrcPool.on, Urc.fence_eq (f := f) hF]
      exact ⟨_, _, rfl⟩
  | isSole i =>
    obtain ⟨f, hf⟩ := hc
    obtain ⟨F, x, hF, hx, ha, -⟩ := I.ok.owner (urcCount_pos hf) trivial
    simp only [runUrc, hf, UrcPool.look, UrcPool.on, Urc.isSole, M.bind_apply, Urc.fence_eq (f := f) hF,
      Urc.master_eq hx, M.pure_apply]
    exact ⟨_, _, rfl⟩
  | setMut i v =>
    obtain ⟨f, hf⟩ := hc
    obtain ⟨r, w', F, y, hr, -⟩ := I.setMut (c := c) hf v
    exact ⟨_, _, hr⟩
  | makeMut i g =>
    obtain ⟨f, hf⟩ := hc
    obtain ⟨F, x, hF, hx, ha, -⟩ := I.ok.owner (urcCount_pos hf) trivial
    have hm := I.makeMut (c := c) hf hF hx (hp f F x hf hF hx) g
    cases hr : runUrc c (.makeMut i g) P with
    | ok o P' => exact ⟨_, _, rfl⟩
    | panic P' =>
      rw [hr] at hm
      rcases hm.2.2.2 with h1 | h1
      · exact (h1 hg.1).elim
      · exact (hg.2 _ h1).elim
    | abort => rw [hr] at hm; exact hm.elim
    | ub u => rw [hr] at hm; exact hm.elim
  | tryUnwrap i =>
    obtain ⟨f, hf⟩ := hc
    obtain ⟨F, x, hF, hx, ha, -⟩ := I.ok.owner (urcCount_pos hf) trivial
    rcases I.ok.tryUnwrap (urcCount_pos hf) hF hx (hp f F x hf hF hx) with ⟨_, hr⟩ | ⟨_, _, w', hr, -⟩
    all_goals
      simp only [runUrc, hf, UrcPool.on, hr]
      exact ⟨_, _, rfl⟩
  | intoFence i =>
    obtain ⟨f, hf⟩ := hc
    obtain ⟨F, hF, ⟨_, _, hr, -⟩ | ⟨_, hr⟩⟩ := I.ok.intoFence (urcCount_pos hf)
    all_goals
      simp only [runUrc, hf, UrcPool.on, hr]
      exact ⟨_, _, rfl⟩
  | fromFence i => exact hp.elim

/-- C98 is false: `make_mut` on the only handle panics in a debug build, though memory is granted and `T::clone`
does not panic. (`C72_refuted_debug` is the same for all such handles.) -/
theorem C98_refuted : ∃ P, UrcReaches cfg64 UrcAny [(.new 7, some .unit)] P ∧
    (UrcCmd.makeMut 0 (· + 1)).Callable P ∧ (UrcCmd.makeMut 0 (· + 1)).Provided cfg64 P ∧
    ∃ P', runUrc cfg64 (.makeMut 0 (· + 1)) P = .panic P' :=
  ⟨⟨[some (.urc 0)], ⟨[some ⟨1, 0, 7, true, 0⟩], [some ⟨1, 0, 0⟩], 2, 0, []⟩⟩,
    urcTrace_callable (cs := [.new 7]) (evs := [some .unit]) (by decide +kernel),
    ⟨0, rfl⟩, ⟨⟨rfl, rfl⟩, fun _ => by simp [cfg64]⟩, _, rfl⟩

example : ∃ hist P, UrcReaches cfg64 (UrcCmd.Permitted cfg64) hist P ∧ hist.length < cfg64.usizeMax ∧
    (UrcCmd.makeMut 0 (· + 1)).Permitted cfg64 P ∧ (UrcCmd.makeMut 0 (· + 1)).Provided cfg64 P :=
  ⟨_, _, urcTrace_permitted (cs := [.new 7, .envelop 0]) (evs := [some .unit, some .unit])
    (P := ⟨[some (.urc 0), some (.urc 1)],
      ⟨[some ⟨2, 0, 7, true, 1⟩], [some ⟨1, 0, 0⟩, some ⟨1, 0, 0⟩], 3, 0, []⟩⟩)
    (by decide +kernel), by decide +kernel, urcPermitted_sound (by decide +kernel), ⟨rfl, rfl⟩,
    fun _ => by simp [cfg64]⟩

end Lokky
