import Verif.Proofs.UrcTDuring

/-! What calls on handles give, in the `Urc` system of threads. -/

namespace Lokky
variable {α : Type} {n n' mx : Nat} {s s1 s' : UrcSys α} {dbg : Bool}

theorem ArcMem.racy_iff {m : ArcMem} {t p : Nat} {k : ArcKind} : m.racy t p k = true ↔ m.Race t p k := by
  unfold ArcMem.racy ArcMem.Race
  rw [List.any_eq_true]
  constructor
  · rintro ⟨i, -, h⟩
    split at h
    · rename_i q k' e
      simp only [Bool.and_eq_true, beq_iff_eq, Bool.not_eq_true', List.contains_eq_mem, decide_eq_false_iff_not] at h
      obtain ⟨⟨rfl, h2⟩, h3⟩ := h
      exact ⟨i, k', e, h2, h3⟩
    · cases h
  · rintro ⟨i, k', e, h2, h3⟩
    refine ⟨i, List.mem_range.2 (List.getElem?_eq_some_iff.1 e).1, ?_⟩
    simp only [e]
    simp [h2, h3]

theorem UrcAct.reaches {calm sync : Bool} {l : List (UrcAct α)} (h : UrcTReaches dbg mx calm sync n s)
    (e : UrcAct.acts dbg mx calm sync l s = some s') : UrcTReaches dbg mx calm sync (n + l.length) s' := by
  induction l generalizing n s with
  | nil => cases e; exact h
  | cons a l ih =>
    simp only [UrcAct.acts] at e
    split at e
    · rename_i h1
      simp only [Bool.and_eq_true, Bool.not_eq_true', Bool.and_eq_false_iff] at h1
      split at e
      · rename_i b s1 h2
        have := ih (.step a h h1.1 (fun hc => ?_) h2) e
        · rw [List.length_cons, ← Nat.add_assoc, Nat.add_right_comm]
          exact this
        · rcases h1.2 with h3 | h3
          · rw [h3] at hc; cases hc
          · exact h3
      · cases e
    · cases e

namespace UrcTInv
open UrcT

/-- No other handle of the master. -/
theorem alone (G : UrcTInv n s) {t h f p h' : Nat} {op : UrcOp α} (ht : s.At t op) (ho : op.hand = some (h, f, p))
    (h1 : op.sole = true) (h2 : op.only = true) (hm : s.master h' = some p) (hs : s.Strong h') : h' = h := by
  have o := G.L.ops t op ht
  obtain ⟨x, e, hF⟩ := UrcSys.master_eq.1 hm
  obtain ⟨x', e', hs⟩ := hs
  rw [e] at e'
  cases e'
  have hxf := o.sole h f p ho h1 _ hF
  by_contra ne
  have : 2 ≤ s.nU f := UrcSys.nU_two (o.own h f p ho) e ne rfl hs rfl hxf
  have := o.only h f p ho h2
  omega

theorem held_alone (G : UrcTInv n s) {t h f p h' : Nat} (ht : s.At t (.held h f p)) (hm : s.master h' = some p) :
    h' = h := by
  have o := G.L.ops t _ ht
  obtain ⟨x, e, hF⟩ := UrcSys.master_eq.1 hm
  by_cases hs : x.strong = true
  · exact G.alone ht rfl rfl rfl hm ⟨x, e, hs⟩
  · have h1 := UrcSys.nW_pos e (by simpa using hs) rfl
    rw [o.sole h f p rfl rfl _ hF] at h1
    have h2 := o.noWeak h f p rfl rfl
    omega

theorem idle_reads (G : UrcTInv n s) {t h f : Nat} (ht : s.threads[t]? = some none)
    (e : s.hands[h]? = some (some (.own t (.urc f)))) : ∃ v, s.reads h = some v := by
  obtain ⟨F, eF, hF, hp, ⟨v, hv⟩, -⟩ := G.base ht e
  exact ⟨v, (UrcSys.reads_eq (UrcSys.master_eq.2 ⟨_, e, hF⟩)).2 hv⟩

theorem read_gives (G : UrcTInv n s) (ch : UrcChoice α) {t h f : Nat} (ht : s.threads[t]? = some none)
    (e : s.hands[h]? = some (some (.own t (.urc f)))) :
    ∃ v s', s.reads h = some v ∧ (UrcAct.call t h .read ch).act dbg mx s = .ok () s' ∧
      s'.log = (t, some (.val v)) :: s.log ∧ s'.vals = s.vals ∧ s'.hands = s.hands ∧ s'.fences = s.fences := by
  obtain ⟨F, eF, hF, hp, ⟨v, hv⟩, -⟩ := G.base ht e
  refine ⟨v, { s with mem := s.mem.apply t 0 (.touch F.master .read)
                      threads := s.threads.set t none
                      log := (t, some (.val v)) :: s.log }, (UrcSys.reads_eq (UrcSys.master_eq.2 ⟨_, e, hF⟩)).2 hv, ?_, rfl, rfl, rfl, rfl⟩
  simp only [UrcAct.act, e, caught, call]
  rw [M.bind_ok (fence_ok eF), M.bind_ok (touch_ok (G.V.calm_read e hF)),
    M.bind_ok (data_ok (s := { s with mem := s.mem.apply t 0 (.touch F.master .read) }) (v := v) hv)]
  rfl

theorem isSole_gives (G : UrcTInv n s) (ch : UrcChoice α) {t h f : Nat} (ht : s.threads[t]? = some none)
    (e : s.hands[h]? = some (some (.own t (.urc f)))) :
    ∃ b s', (UrcAct.call t h .isSole ch).act dbg mx s = .ok () s' ∧ s'.log = (t, some (.bool b)) :: s.log ∧
      (b = true → ∀ h' x, s.hands[h']? = some (some x) → s.master h' = s.master h → ∃ k, x = .own t k) := by
  obtain ⟨F, eF, hF, hp, ha, hc, hm, -⟩ := G.base ht e
  obtain ⟨x, hx, hl, -⟩ := G.load ch (c := .strong) true hp hm
  refine ⟨x.val == 1, { s with
    mem := s.mem.apply t (s.mem.pick t .strong F.master ch.pos) (.load .strong F.master true)
    threads := s.threads.set t none
    log := (t, some (.bool (x.val == 1))) :: s.log }, ?_, rfl, ?_⟩
  · simp only [UrcAct.act, e, caught, call]
    rw [M.bind_ok (fence_ok eF), M.bind_ok hl]
    rfl
  · intro h1 h' y e' hm'
    obtain ⟨-, h2, -⟩ := G.load_one e hF ha hc hx (by simpa using h1)
    obtain ⟨p, hy⟩ := G.L.fen h' y e'
    rw [UrcSys.master_eq.2 ⟨_, e, hF⟩] at hm'
    obtain ⟨y', e'', hy'⟩ := UrcSys.master_eq.1 hm'
    rw [e'] at e''
    cases e''
    exact G.L.mine e e' (h2 _ hy')

/-- The value is moved out. -/
theorem unwrap_gives (G : UrcTInv n s) (ch : UrcChoice α) {t h f p : Nat} (ht : s.At t (.unw1 h f p)) :
    ∃ v s', s.reads h = some v ∧ (UrcAct.run t ch).act dbg mx s = .ok () s' ∧
      s'.log = (t, some (.opt (some v))) :: s.log ∧ s'.hands = s.hands.set h none ∧ s'.fences = s.fences ∧
      s'.vals = s.vals.set p (v, false) := by
  obtain ⟨F, eF, hF, hm, hp, -, e, hs, hw⟩ := G.busy ht rfl
  obtain ⟨v, hv⟩ := G.busy_alive ht rfl (by simp)
  have hW := (G.L.ops t _ ht).hasWeak h f p rfl rfl
  obtain ⟨h1, -⟩ := G.write_ok ht rfl rfl
  have h2 : (put p v false : M (UrcSys α) Unit) { s with mem := s.mem.apply t 0 (.touch p .write) } =
      .ok () { s with vals := s.vals.set p (v, false), mem := s.mem.apply t 0 (.touch p .write) } := rfl
  have h3 : (fence f : M (UrcSys α) UrcFence)
      { s with vals := s.vals.set p (v, false), mem := s.mem.apply t 0 (.touch p .write) } =
      .ok F { s with vals := s.vals.set p (v, false), mem := s.mem.apply t 0 (.touch p .write) } := fence_ok eF
  have hF0 : F.weak ≠ 0 := fun h0 => by
    have := hw h0
    omega
  refine ⟨v, { s with vals := s.vals.set p (v, false), hands := s.hands.set h none
                      threads := s.threads.set t none
                      log := (t, some (.opt (some v))) :: s.log
                      mem := s.mem.apply t 0 (.touch p .write) },
    (UrcSys.reads_eq (UrcSys.master_eq.2 ⟨_, e, hF⟩)).2 hv, ?_, rfl, rfl, rfl, rfl⟩
  have h4 := ht
  unfold UrcSys.At at h4
  simp only [UrcAct.act, h4, caught, step]
  rw [M.bind_ok h1, M.bind_ok (data_ok (s := { s with mem := s.mem.apply t 0 (.touch p .write) }) (v := v) hv),
    M.bind_ok h2, M.bind_ok h3, if_neg hF0]
  rfl

/-- `try_unwrap` begins to move the value out, or is over and changed nothing. -/
theorem unwrap_begins (G : UrcTInv n s) (ch : UrcChoice α) {t h f : Nat} (ht : s.threads[t]? = some none)
    (e : s.hands[h]? = some (some (.own t (.urc f)))) (hf : (UrcAct.call t h .tryUnwrap ch).faulty s = false) :
    ∃ s', (UrcAct.call t h .tryUnwrap ch).act dbg mx s = .ok () s' ∧ s'.hands = s.hands ∧ s'.fences = s.fences ∧
      s'.vals = s.vals ∧ ((∃ p, s'.At t (.unw1 h f p)) ∨
        s'.threads[t]? = some none ∧ s'.log = (t, some (.opt none)) :: s.log ∧
          ∀ c q, (s'.mem.msgs c q).map (·.val) = (s.mem.msgs c q).map (·.val)) := by
  obtain ⟨F, eF, hF, hp, ha, hc, hm, hs, hw, hU⟩ := G.base ht e
  obtain ⟨y, hy⟩ := pick_some G.V (t := t) (c := .strong) (j := ch.pos) hp
  obtain ⟨x, hx⟩ := G.V.last_some (c := .strong) hp
  have htl := (List.getElem?_eq_some_iff.1 ht).1
  have hend : ∀ j : Nat, ∃ s', (done t (.opt none) : M (UrcSys α) Unit)
      { s with mem := s.mem.apply t j (.load .strong F.master false) } = .ok () s' ∧ s'.hands = s.hands ∧
      s'.fences = s.fences ∧ s'.vals = s.vals ∧
        (s'.threads[t]? = some none ∧ s'.log = (t, some (.opt none)) :: s.log ∧
          ∀ c q, (s'.mem.msgs c q).map (·.val) = (s.mem.msgs c q).map (·.val)) := fun j =>
    ⟨_, rfl, rfl, rfl, rfl, List.getElem?_set_self htl, rfl, fun c q => by
      have P := load_pre t F.master j .strong false s.mem
      by_cases hq : q = F.master
      · subst hq
        have := P.msgsAt c
        simp only [List.append_nil] at this
        exact congrArg _ this
      · exact congrArg _ (P.msgs c q hq)⟩
  simp only [UrcAct.act, e, caught, call]
  rw [M.bind_ok (fence_ok eF)]
  by_cases h1 : (ch.fail && (false || y.val != 1)) = true
  · have : UrcT.cas ch false t .strong F.master 1 0 true false s = .ok (some y.val)
        { s with mem := s.mem.apply t (s.mem.pick t .strong F.master ch.pos) (.load .strong F.master false) } := by
      simp only [UrcT.cas, hy, hx, G.V.calm_atomic hm, Bool.false_eq_true, if_false, h1, if_true]
    rw [M.bind_ok this]
    obtain ⟨s', h3, h4, h5, h6, h7⟩ := hend (s.mem.pick t .strong F.master ch.pos)
    exact ⟨s', by simp only [h3], h4, h5, h6, Or.inr h7⟩
  · by_cases h2 : x.val = 1
    · have : UrcT.cas ch false t .strong F.master 1 0 true false s = .ok none
          { s with mem := s.mem.apply t 0 (.rmw .strong F.master 0 true false) } := by
        simp only [UrcT.cas, hy, hx, G.V.calm_atomic hm, Bool.false_eq_true, if_false, h1, h2, if_true]
      rw [M.bind_ok this]
      have h3 : F.strong = 1 ∧ F.weak ≠ 0 := by
        simp only [UrcAct.faulty, e, eF, hx, Option.any_some, h2, beq_self_eq_true, Bool.true_and,
          Bool.or_eq_false_iff, bne_eq_false_iff_eq, beq_eq_false_iff_ne] at hf
        exact hf
      simp only
      rw [if_pos h3.1]
      exact ⟨_, rfl, rfl, rfl, rfl, Or.inl ⟨_, List.getElem?_set_self htl⟩⟩
    · have : UrcT.cas ch false t .strong F.master 1 0 true false s = .ok (some x.val)
          { s with mem := s.mem.apply t (s.mem.latest .strong F.master) (.load .strong F.master false) } := by
        simp only [UrcT.cas, hy, hx, G.V.calm_atomic hm, Bool.false_eq_true, if_false, h1, h2]
      rw [M.bind_ok this]
      obtain ⟨s', h3, h4, h5, h6, h7⟩ := hend (s.mem.latest .strong F.master)
      exact ⟨s', by simp only [h3], h4, h5, h6, Or.inr h7⟩

/-- `make_mut` begins. -/
theorem makeMut_begins (G : UrcTInv n s) (ch : UrcChoice α) {t h f : Nat} (ht : s.threads[t]? = some none)
    (e : s.hands[h]? = some (some (.own t (.urc f)))) :
    ∃ s', (UrcAct.call t h .makeMut ch).act dbg mx s = .ok () s' ∧ s'.hands = s.hands ∧ s'.fences = s.fences ∧
      s'.vals = s.vals ∧ ∃ p, s'.At t (.mm1 h f p) ∨ s'.At t (.mmC h f p) := by
  obtain ⟨F, eF, hF, hp, ha, hc, hm, -⟩ := G.base ht e
  obtain ⟨x, hx, hl, -⟩ := G.load ch (c := .strong) true hp hm
  have htl := (List.getElem?_eq_some_iff.1 ht).1
  simp only [UrcAct.act, e, caught, call]
  rw [M.bind_ok (fence_ok eF), M.bind_ok hl]
  by_cases h1 : x.val = 1
  · rw [if_pos h1]
    exact ⟨_, rfl, rfl, rfl, rfl, F.master, Or.inl (List.getElem?_set_self htl)⟩
  · rw [if_neg h1]
    exact ⟨_, rfl, rfl, rfl, rfl, F.master, Or.inr (List.getElem?_set_self htl)⟩

theorem same_reads (h1 : s'.hands = s.hands) (h2 : s'.fences = s.fences) (h3 : s'.vals = s.vals) (h : Nat) :
    s'.reads h = s.reads h := by
  unfold UrcSys.reads UrcSys.master
  rw [h1, h2, h3]

end UrcTInv
end Lokky
