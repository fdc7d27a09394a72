import Verif.Proofs.UrcTDrop

/-! Steps of threads keep the invariant of the `Urc` system of threads. -/

namespace Lokky
variable {α : Type} {n n' mx : Nat} {s : UrcSys α} {dbg : Bool}

namespace UrcTInv
open UrcT

/-- What a thread in the middle of something with a `Urc` can rely on. -/
theorem busy (G : UrcTInv n s) {t h f p : Nat} {op : UrcOp α} (ht : s.At t op) (ho : op.hand = some (h, f, p)) :
    ∃ F, s.fences[f]? = some (some F) ∧ s.Fen f p ∧ F.master = p ∧ p < s.vals.length ∧ s.Made t p ∧
      s.hands[h]? = some (some (.own t (.urc f))) ∧ F.strong = s.nU f ∧ (F.weak = 0 → s.nW f = 0) := by
  have o := G.L.ops t op ht
  have e := o.own h f p ho
  have hF := o.fen h f p ho
  obtain ⟨F, eF, hm⟩ := id hF
  refine ⟨F, eF, hF, hm, G.L.mas _ _ hF, G.V.made e hF, e, G.L.strong_eq e rfl rfl eF, fun h0 => ?_⟩
  by_contra hc
  have := G.L.weak f F eF (by omega)
  omega

theorem at_inj {t : Nat} {op op' : UrcOp α} (h : s.At t op) (h' : s.At t op') : op' = op := by
  unfold UrcSys.At at h h'
  rw [h] at h'
  injection h' with h'
  injection h' with h'
  exact h'.symm

theorem busy_alive (G : UrcTInv n s) {t h f p : Nat} {op : UrcOp α} (ht : s.At t op)
    (ho : op.hand = some (h, f, p)) (hn : ∀ h' v, op ≠ .mv1 h' f p v) : s.Alive p := by
  obtain ⟨F, eF, hF, -, -, -, e, -, -⟩ := G.busy ht ho
  exact G.L.alive_of e rfl rfl hF fun op' h' => at_inj ht h' ▸ hn

/-- A write to the value by a thread that has the only fence. -/
theorem write_ok (G : UrcTInv n s) {t h f p : Nat} {op : UrcOp α} (ht : s.At t op) (ho : op.hand = some (h, f, p))
    (h1 : op.sole = true) :
    touch t p .write s = .ok () { s with mem := s.mem.apply t 0 (.touch p .write) } ∧
      UrcTInv n { s with mem := s.mem.apply t 0 (.touch p .write) } := by
  obtain ⟨F, eF, hF, -, hp, -, e, -, -⟩ := G.busy ht ho
  have hs := (G.L.ops t op ht).sole h f p ho h1
  refine ⟨touch_ok (G.V.calm_all (Or.inr rfl) (G.V.alone t op h f p ht ho h1)), ?_, ?_⟩
  · exact G.L.memory (l := s.log) (pre_strong (touch_pre t p 0 .write s.mem) rfl)
  · exact G.V.touch G.L e hF (Or.inr ⟨rfl, hs⟩)

theorem get1_ok (G : UrcTInv n s) (ch : UrcChoice α) {t h f p : Nat} (ht : s.At t (.get1 h f p)) :
    UrcFine False (n + 1) t (step dbg mx ch t (.get1 h f p) s) := by
  obtain ⟨F, eF, hF, -, hp, hm, e, -, -⟩ := G.busy ht rfl
  have ha := G.busy_alive ht rfl (by simp)
  have hc := G.L.count_of e rfl hF ha fun op' h' => at_inj ht h' ▸ by simp
  obtain ⟨x, hx, hl, key⟩ := G.load ch (c := .strong) true hp hm
  simp only [step]
  rw [M.bind_ok hl]
  by_cases h1 : x.val = 1
  · rw [if_pos h1]
    obtain ⟨-, h2, h3⟩ := G.load_one e hF ha hc hx h1
    refine .ok ((key.mono (Nat.le_succ n)).goes (a := some (.get1 h f p)) ht (fun _ h => by cases h; rfl) ?_
      (by simp [UrcOp.left]) ?_)
    · exact opOk (s := { s with mem := _ }) e hF rfl (fun _ => h2) (by simp [UrcOp.only])
        (by simp [UrcOp.noWeak]) (by simp [UrcOp.hasWeak]) rfl (by simp)
    · intro h' f' q' e' _
      cases e'
      exact h3
  · rw [if_neg h1]
    exact .ok ((key.mono (Nat.le_succ n)).idle (a := some (.get1 h f p)) ht (fun _ h => by cases h; rfl))

/-- A thread that has the only fence goes on. -/
theorem on (G : UrcTInv n s) {t h f p : Nat} {op op' : UrcOp α} (ht : s.At t op) (ho : op.hand = some (h, f, p))
    (h1 : op.sole = true) (ha : op.pinned = false) (ho' : op'.hand = some (h, f, p))
    (h2 : op'.only = true → s.nU f = 1) (h3 : op'.noWeak = true → s.nW f = 0)
    (h4 : op'.hasWeak = true → 1 ≤ s.nW f) (h5 : op'.left = none)
    (h6 : ∀ h f p v, op' ≠ .mv1 h f p v) : UrcTInv n { s with threads := s.threads.set t (some op') } := by
  obtain ⟨F, eF, hF, -, hp, hm, e, -, -⟩ := G.busy ht ho
  refine G.goes (a := some op) ht (fun _ h => by cases h; exact ha)
    (opOk e hF ho' (fun _ => (G.L.ops t op ht).sole h f p ho h1) h2 h3 h4 h5 h6) ?_ ?_
  · rw [h5]
    simp
  · intro h' f' q' e' _
    rw [ho'] at e'
    cases e'
    exact G.V.alone t op h f p ht ho h1

theorem get2_ok (G : UrcTInv n s) (ch : UrcChoice α) {t h f p : Nat} (ht : s.At t (.get2 h f p)) :
    UrcFine False (n + 1) t (step dbg mx ch t (.get2 h f p) s) := by
  obtain ⟨F, eF, hF, -, hp, hm, e, hs, hw⟩ := G.busy ht rfl
  obtain ⟨h1, key⟩ := G.store (t := t) (p := p) (v := 0) (rel := true) hp hm
  simp only [step]
  rw [M.bind_ok h1, M.bind_ok (fence_ok (s := { s with mem := s.mem.apply t 0 (.store .weak p 0 true) }) eF)]
  by_cases h2 : F.strong = 1 ∧ F.weak = 0
  · rw [if_pos h2]
    exact .ok ((key.mono (Nat.le_succ n)).on (op' := .held h f p) ht rfl rfl rfl rfl (fun _ => hs.symm.trans h2.1)
      (fun _ => hw h2.2) (by simp [UrcOp.hasWeak]) rfl (by simp))
  · rw [if_neg h2]
    exact .ok ((key.mono (Nat.le_succ n)).idle (a := some (.get2 h f p)) ht (fun _ h => by cases h; rfl))

theorem held_ok (G : UrcTInv n s) (ch : UrcChoice α) {t h f p : Nat} (ht : s.At t (.held h f p)) :
    UrcFine False (n + 1) t (step dbg mx ch t (.held h f p) s) := by
  simp only [step]
  cases ch.write with
  | none => exact .ok ((G.mono (Nat.le_succ n)).idle (a := some (.held h f p)) ht (fun _ h => by cases h; rfl))
  | some x =>
    obtain ⟨v, hv⟩ := G.busy_alive ht rfl (by simp)
    obtain ⟨h1, key⟩ := G.write_ok ht rfl rfl
    simp only
    rw [M.bind_ok h1, M.bind_ok (data_ok (s := { s with mem := s.mem.apply t 0 (.touch p .write) }) (v := v) hv)]
    refine .ok ((key.mono (Nat.le_succ n)).values (by simp) ?_)
    intro q
    have := UrcSys.alive_set (s := { s with mem := s.mem.apply t 0 (.touch p .write) }) (q := q) (x := x) (b := true) hv
    refine this.trans ?_
    by_cases eq : q = p
    · subst eq
      simp only [if_true, true_iff]
      exact ⟨v, hv⟩
    · simp [eq]

theorem fin_ok (G : UrcTInv n s) (ch : UrcChoice α) {t p : Nat} {k : Option (Nat × Nat × Nat)}
    (ht : s.At t (.fin p k)) : UrcFine False (n + 1) t (step dbg mx ch t (.fin p k) s) := by
  have o := G.L.ops t _ ht
  have hm : s.Made t p := fun i hi => G.V.knownF i p hi t _ ht rfl
  obtain ⟨x, hx, hl, key⟩ := G.load ch (c := .weak) true (o.left p rfl) hm
  simp only [step]
  rw [M.bind_ok hl]
  cases k with
  | none => exact .ok ((key.mono (Nat.le_succ n)).idle (a := some (.fin p none)) ht (fun _ h => by cases h; rfl))
  | some k =>
    obtain ⟨h, f, q⟩ := k
    exact .ok ((key.mono (Nat.le_succ n)).on (op' := .held h f q) ht rfl rfl rfl rfl
      (fun _ => o.only h f q rfl rfl) (fun _ => o.noWeak h f q rfl rfl) (by simp [UrcOp.hasWeak]) rfl (by simp))

theorem wfin_ok (G : UrcTInv n s) (ch : UrcChoice α) {t p : Nat} (ht : s.At t (.wfin p)) :
    UrcFine False (n + 1) t (step dbg mx ch t (.wfin p) s) := by
  have o := G.L.ops t _ ht
  have hm : s.Made t p := fun i hi => G.V.knownF i p hi t _ ht rfl
  obtain ⟨x, hx, hl, key⟩ := G.load ch (c := .strong) true (o.left p rfl) hm
  simp only [step]
  rw [M.bind_ok hl]
  exact .ok ((key.mono (Nat.le_succ n)).idle (a := some (.wfin p)) ht (fun _ h => by cases h; rfl))

theorem mm1_ok (G : UrcTInv n s) (ch : UrcChoice α) {t h f p : Nat} (ht : s.At t (.mm1 h f p)) :
    UrcFine False (n + 1) t (step dbg mx ch t (.mm1 h f p) s) := by
  obtain ⟨F, eF, hF, -, hp, hm, e, hs, hw⟩ := G.busy ht rfl
  obtain ⟨x, hx, hl, key⟩ := G.load ch (c := .weak) true hp hm
  simp only [step]
  rw [M.bind_ok hl, M.bind_ok (fence_ok (s := { s with
    mem := s.mem.apply t (s.mem.pick t .weak p ch.pos) (.load .weak p true) }) eF)]
  by_cases h2 : F.weak = 0
  · rw [if_pos h2]
    exact .ok ((key.mono (Nat.le_succ n)).on (op' := .mm2 h f p x.val) ht rfl rfl rfl rfl (by simp [UrcOp.only])
      (fun _ => hw h2) (by simp [UrcOp.hasWeak]) rfl (by simp))
  · rw [if_neg h2]
    by_cases h3 : x.val = 1 ∧ F.strong ≠ 1
    · rw [if_pos h3]
      exact .ok ((key.mono (Nat.le_succ n)).on (op' := .mmC h f p) ht rfl rfl rfl rfl (by simp [UrcOp.only])
        (by simp [UrcOp.noWeak]) (by simp [UrcOp.hasWeak]) rfl (by simp))
    · rw [if_neg h3]
      exact .ok ((key.mono (Nat.le_succ n)).on (op' := .mv0 h f p) ht rfl rfl rfl rfl (by simp [UrcOp.only])
        (by simp [UrcOp.noWeak]) (by simp [UrcOp.hasWeak]) rfl (by simp))

theorem mm2_ok (G : UrcTInv n s) (ch : UrcChoice α) {t h f p w : Nat} (ht : s.At t (.mm2 h f p w)) :
    UrcFine (dbg = true) (n + 1) t (step dbg mx ch t (.mm2 h f p w) s) := by
  obtain ⟨F, eF, hF, -, hp, hm, e, hs, hw⟩ := G.busy ht rfl
  have hW := (G.L.ops t _ ht).noWeak h f p rfl rfl
  have hF0 : F.weak = 0 := by
    rcases G.L.weak0 f F eF hW (UrcSys.nU_pos e rfl rfl) with h0 | ⟨t', op, h1, h2⟩
    · exact h0
    · by_cases et : t' = t
      · subst et
        rw [at_inj ht h1] at h2
        cases h2
      · cases op <;> simp [UrcOp.pins] at h2
        · exact absurd h2 (G.L.foreign e rfl h1 et rfl)
        · exact absurd h2 (G.L.foreign e rfl h1 et rfl)
  have hend : ∀ m', UrcTInv n { s with mem := m' } →
      UrcTInv (n + 1) { s with mem := m', threads := s.threads.set t none } :=
    fun m' key => (key.mono (Nat.le_succ n)).idle (l := s.log) (a := some (.mm2 h f p w)) ht (fun _ h => by cases h; rfl)
  simp only [step]
  by_cases hb : dbg = true ∧ w = mx
  · rw [if_pos hb]
    exact Or.inr ⟨hb.1, s, rfl, hend s.mem G⟩
  · rw [if_neg hb]
    obtain ⟨r, m', new, hr, P, hn⟩ := G.cas ch true (u := w) (v := incr mx w) (acq := false) (rel := true) hp hm
    have key := G.quiet P hp hn
    rw [M.bind_ok hr]
    cases r with
    | some v =>
      exact .ok ((key.mono (Nat.le_succ n)).on (op' := .mm2 h f p v) ht rfl rfl rfl rfl (by simp [UrcOp.only])
        (fun _ => hW) (by simp [UrcOp.hasWeak]) rfl (by simp))
    | none =>
      simp only
      by_cases hd : dbg = true
      · have : decWeak dbg mx f ({ s with mem := m' } : UrcSys α) = .panic { s with mem := m' } := by
          unfold decWeak
          rw [M.bind_ok (fence_ok (s := { s with mem := m' }) eF), if_pos ⟨hd, hF0⟩]
          rfl
        rw [M.bind_panic this]
        exact Or.inr ⟨hd, _, rfl, hend m' key⟩
      · have : decWeak dbg mx f ({ s with mem := m' } : UrcSys α) =
            .ok () { s with mem := m', fences := s.fences.set f (some { F with weak := mx }) } := by
          unfold decWeak
          rw [M.bind_ok (fence_ok (s := { s with mem := m' }) eF), if_neg (by simp [hd]), hF0]
          rfl
        rw [M.bind_ok this]
        refine .ok ⟨(key.L.wrap (F' := { F with weak := mx }) ht eF rfl rfl).mono (Nat.le_succ n), ?_⟩
        have V1 : UrcVInv { s with mem := m', fences := s.fences.set f (some { F with weak := mx }) } :=
          key.V.change key.L e rfl (F' := { F with weak := mx }) eF rfl (fun _ _ _ => Iff.rfl) (fun _ _ => rfl)
            (fun i x hx hf => key.L.mine e hx hf) (fun h => h)
        exact V1.rethread (l := s.log) (a := some (.mm2 h f p w)) (b := some (.mv0 h f p)) ht
          (fun _ _ h => by cases h; simp [UrcOp.left])
          (fun _ h f q e' h' _ => by cases e'; cases h'; exact Or.inl ⟨_, _, _, rfl, rfl, rfl⟩)

theorem unw1_ok (G : UrcTInv n s) (ch : UrcChoice α) {t h f p : Nat} (ht : s.At t (.unw1 h f p)) :
    UrcFine False (n + 1) t (step dbg mx ch t (.unw1 h f p) s) := by
  obtain ⟨F, eF, hF, hm, hp, -, e, hs, hw⟩ := G.busy ht rfl
  obtain ⟨v, hv⟩ := G.busy_alive ht rfl (by simp)
  have o := G.L.ops t _ ht
  have hW := o.hasWeak h f p rfl rfl
  obtain ⟨h1, key⟩ := G.write_ok ht rfl rfl
  have h2 : (put p v false : M (UrcSys α) Unit) { s with mem := s.mem.apply t 0 (.touch p .write) } =
      .ok () { s with vals := s.vals.set p (v, false), mem := s.mem.apply t 0 (.touch p .write) } := rfl
  have h3 : (fence f : M (UrcSys α) UrcFence)
      { s with vals := s.vals.set p (v, false), mem := s.mem.apply t 0 (.touch p .write) } =
      .ok F { s with vals := s.vals.set p (v, false), mem := s.mem.apply t 0 (.touch p .write) } := fence_ok eF
  have hF0 : F.weak ≠ 0 := fun h0 => by
    have := hw h0
    omega
  simp only [step]
  rw [M.bind_ok h1, M.bind_ok (data_ok (s := { s with mem := s.mem.apply t 0 (.touch p .write) }) (v := v) hv),
    M.bind_ok h2, M.bind_ok h3, if_neg hF0]
  have hA : ∀ q, ({ s with vals := s.vals.set p (v, false) } : UrcSys α).Alive q ↔
      if q = p then false = true else s.Alive q := fun q => UrcSys.alive_set hv
  have hA' : ∀ q, ({ s with vals := s.vals.set p (v, false), mem := s.mem.apply t 0 (.touch p .write) } :
      UrcSys α).Alive q ↔ if q = p then false = true else s.Alive q := hA
  have K : UrcTInv n { s with
      vals := s.vals.set p (v, false), hands := s.hands.set h none, fences := s.fences.set f (some F)
      threads := s.threads.set t none, mem := s.mem.apply t 0 (.touch p .write) } := by
    constructor
    · refine key.L.giveUp (F' := F) (V := s.vals.set p (v, false)) (m := s.mem.apply t 0 (.touch p .write))
        (op := .unw1 h f p) ht rfl rfl rfl eF rfl rfl (by simp) ?_ ?_ (fun _ _ => rfl) (key.L.bound p)
      · intro hc
        have := (hA' p).1 hc
        simp at this
      · intro q hq
        have := hA' q
        rw [if_neg hq] at this
        exact this
    · refine key.V.giveUp key.L (F' := F) (W := s.vals.set p (v, false)) (m := s.mem.apply t 0 (.touch p .write))
        (op := .unw1 h f p) ht rfl rfl rfl eF rfl (ArcPre.none t p _) (by simp) (by simp) (by simp) ?_ ?_
      · intro hc
        have := (hA' p).1 hc
        simp at this
      · intro q hq
        have := hA' q
        rw [if_neg hq] at this
        exact this
  rw [set_self eF] at K
  exact .ok ((K.mono (Nat.le_succ n)).log)

theorem mv0_ok (G : UrcTInv n s) (ch : UrcChoice α) {t h f p : Nat} (ht : s.At t (.mv0 h f p))
    (hf : UrcAct.faulty s (.run t ch) = false) :
    UrcFine False (n + 1) t (step dbg mx ch t (.mv0 h f p) s) := by
  obtain ⟨F, eF, hF, hm, hp, -, e, hs, hw⟩ := G.busy ht rfl
  have h1 : F.strong = 1 := by
    unfold UrcSys.At at ht
    simp only [UrcAct.faulty, ht, eF, bne_eq_false_iff_eq] at hf
    exact hf
  obtain ⟨v, hv⟩ := G.busy_alive ht rfl (by simp)
  obtain ⟨h2, key⟩ := G.write_ok ht rfl rfl
  have h3 : (put p v false : M (UrcSys α) Unit) { s with mem := s.mem.apply t 0 (.touch p .write) } =
      .ok () { s with vals := s.vals.set p (v, false), mem := s.mem.apply t 0 (.touch p .write) } := rfl
  simp only [step]
  rw [M.bind_ok h2, M.bind_ok (data_ok (s := { s with mem := s.mem.apply t 0 (.touch p .write) }) (v := v) hv),
    M.bind_ok h3]
  have hA : ∀ q, ({ s with vals := s.vals.set p (v, false), mem := s.mem.apply t 0 (.touch p .write) } :
      UrcSys α).Alive q ↔ if q = p then false = true else s.Alive q :=
    fun q => UrcSys.alive_set (s := { s with mem := s.mem.apply t 0 (.touch p .write) }) hv
  have hdead : ¬ ({ s with vals := s.vals.set p (v, false), mem := s.mem.apply t 0 (.touch p .write) } :
      UrcSys α).Alive p := fun hc => by
    have := (hA p).1 hc
    simp at this
  refine .ok ⟨(key.L.moved (V := s.vals.set p (v, false)) (v := v) ht eF h1 (by simp) hdead ?_).mono
    (Nat.le_succ n), ?_⟩
  · intro q hq
    have := hA q
    rw [if_neg hq] at this
    exact this
  · have V1 : UrcVInv { s with vals := s.vals.set p (v, false), mem := s.mem.apply t 0 (.touch p .write) } := by
      refine key.V.values (by simp) fun q hq => ?_
      have := (hA q).1 hq
      by_cases eq : q = p
      · rw [if_pos eq] at this
        cases this
      · rw [if_neg eq] at this
        exact this
    exact V1.rethread (l := s.log) (a := some (.mv0 h f p)) (b := some (.mv1 h f p v)) ht
      (fun _ _ h => by cases h; simp [UrcOp.left])
      (fun _ h f q e' h' _ => by cases e'; cases h'; exact Or.inl ⟨_, _, _, rfl, rfl, rfl⟩)

theorem mmC_ok (G : UrcTInv n s) (ch : UrcChoice α) {t h f p : Nat} (ht : s.At t (.mmC h f p)) :
    UrcFine (ch.boom = true) (n + 1) t (step dbg mx ch t (.mmC h f p) s) := by
  obtain ⟨F, eF, hF, hm, hp, -, e, hs, hw⟩ := G.busy ht rfl
  obtain ⟨v, hv⟩ := G.busy_alive ht rfl (by simp)
  have P := touch_pre t p 0 .read s.mem
  have key : UrcTInv (n + 1) { s with mem := s.mem.apply t 0 (.touch p .read) } :=
    UrcTInv.mono (n := n) ⟨G.L.memory (l := s.log) (pre_strong P rfl), G.V.touch G.L e hF (Or.inl rfl)⟩
      (Nat.le_succ n)
  simp only [step]
  rw [M.bind_ok (touch_ok (G.V.calm_read e hF)),
    M.bind_ok (data_ok (s := { s with mem := s.mem.apply t 0 (.touch p .read) }) (v := v) hv)]
  by_cases hb : ch.boom = true
  · rw [if_pos hb]
    exact Or.inr ⟨hb, _, rfl, key.idle (l := s.log) (a := some (.mmC h f p)) ht (fun _ h => by cases h; rfl)⟩
  · rw [if_neg hb]
    refine .ok (key.goes (a := some (.mmC h f p)) ht (fun _ h => by cases h; rfl) ?_ (by simp [UrcOp.left])
      (by simp [UrcOp.sole]))
    exact opOk (s := { s with mem := s.mem.apply t 0 (.touch p .read) }) e hF rfl (by simp [UrcOp.sole])
      (by simp [UrcOp.only]) (by simp [UrcOp.noWeak]) (by simp [UrcOp.hasWeak]) rfl (by simp)

/-! ## New handles -/

/-- `new` makes a fence and a master that nobody else knows. -/
theorem alloc_ok (G : UrcTInv n s) (t : Nat) (x : α) {s' : UrcSys α}
    (es : s' = { s with
      vals := s.vals ++ [(x, true)]
      fences := s.fences ++ [some ⟨1, 0, s.vals.length⟩]
      hands := s.hands ++ [some (.own t (.urc s.fences.length))]
      mem := s.mem.apply t 0 (.init s.vals.length) }) :
    UrcTInv (n + 1) s' ∧ s'.Fen s.fences.length s.vals.length ∧
      (∀ g, s'.Fen g s.vals.length → g = s.fences.length) ∧ s'.nU s.fences.length = 1 ∧
      s'.nW s.fences.length = 0 ∧ s'.Full t s.vals.length := by
  subst es
  have z : ∀ (i : Nat) (y : UrcHold), s.hands[i]? = some (some y) → y.fen < s.fences.length := by
    intro i y hy
    obtain ⟨p, F, eF, -⟩ := G.L.fen i y hy
    exact (List.getElem?_eq_some_iff.1 eF).1
  have zU : s.hands.countP (UrcHold.strongAt s.fences.length) = 0 := by
    rw [List.countP_eq_zero]
    intro a ha hc
    obtain ⟨i, hi⟩ := List.getElem?_of_mem ha
    cases a with
    | none => cases hc
    | some y =>
      simp [UrcHold.strongAt] at hc
      have := z i y hi
      omega
  have zW : s.hands.countP (UrcHold.weakAt s.fences.length) = 0 := by
    rw [List.countP_eq_zero]
    intro a ha hc
    obtain ⟨i, hi⟩ := List.getElem?_of_mem ha
    cases a with
    | none => cases hc
    | some y =>
      simp [UrcHold.weakAt] at hc
      have := z i y hi
      omega
  have nofen : ∀ g, ¬ s.Fen g s.vals.length := fun g hg => by
    have := G.L.mas _ _ hg
    omega
  have noop : ∀ t' op h f, s.At t' op → op.hand ≠ some (h, f, s.vals.length) := fun t' op h f h1 h2 =>
    nofen f ((G.L.ops t' op h1).fen h f _ h2)
  have hmsg : ((s.mem.apply t 0 (.init s.vals.length)).msgs .strong s.vals.length).getLast? =
      some ⟨1, s.mem.evts.length, []⟩ := by
    simp [ArcMem.apply, ArcMem.post]
  have hsf := UrcVInv.sf_last (s := { s with mem := s.mem.apply t 0 (.init s.vals.length) }) hmsg
  have hunf : s.unf s.vals.length = 0 := by
    by_contra hc
    obtain ⟨a, ha, hfo⟩ := List.countP_pos_iff.1 (Nat.pos_of_ne_zero hc)
    obtain ⟨i, hi⟩ := List.getElem?_of_mem ha
    cases a with
    | none => cases hfo
    | some F =>
      simp [fenceOf] at hfo
      exact nofen i ⟨F, hi, hfo⟩
  refine ⟨⟨?_, G.V.alloc G.L⟩, ⟨⟨1, 0, s.vals.length⟩, by simp, rfl⟩, ?_, ?_, ?_, ?_⟩
  · refine G.L.fresh (t := t) (Or.inl rfl) (by simp) ⟨x, by simp⟩ ?_ ?_ ?_ ?_ ?_ ?_
    · intro q hq
      simp [ArcMem.apply, ArcMem.post, ArcMem.note, ArcMem.learn, hq]
    · rintro q hq ⟨v, hv⟩
      have hlt := (List.getElem?_eq_some_iff.1 hv).1
      rcases getElem?_append_cases hv with hv | ⟨h1, -⟩
      · exact ⟨v, hv⟩
      · exfalso
        simp at hlt
        omega
    · exact Nat.le_trans (Nat.le_of_eq hsf) (by simp)
    · rw [hunf]
      exact Nat.le_of_eq hsf.symm
    · exact fun t' op h f h1 h2 => absurd h2 (noop t' op h f h1)
    · intro t' k h1
      have := (G.L.ops t' _ h1).left _ rfl
      omega
  · rintro g ⟨F, hF, hq⟩
    have hlt := (List.getElem?_eq_some_iff.1 hF).1
    rcases getElem?_append_cases hF with hF | ⟨h1, -⟩
    · exact absurd ⟨F, hF, hq⟩ (nofen g)
    · simp at hlt
      omega
  · show List.countP _ (s.hands ++ _) = 1
    rw [List.countP_append, zU]
    simp [UrcHold.strongAt, UrcHold.strong]
  · show List.countP _ (s.hands ++ _) = 0
    rw [List.countP_append, zW]
    simp [UrcHold.weakAt, UrcHold.strong]
  · intro i k hi _
    exact G.V.alloc_knows hi

/-- `dropUrc` does not look at what threads are in the middle of. -/
theorem dropUrc_threads {t f : Nat} {th : List (Option (UrcOp α))} {r : Option Nat} {s' : UrcSys α}
    (h : dropUrc dbg mx t f s = .ok r s') :
    dropUrc dbg mx t f { s with threads := th } = .ok r { s' with threads := th } := by
  unfold dropUrc at h ⊢
  cases e : s.fences[f]? with
  | none => simp [M.bind_apply, fence, e] at h
  | some a =>
    cases a with
    | none => simp [M.bind_apply, fence, e] at h
    | some F =>
      rw [M.bind_ok (fence_ok e)] at h
      rw [M.bind_ok (fence_ok (s := { s with threads := th }) e)]
      by_cases h1 : F.strong = 1 ∧ F.weak = 0
      · rw [if_pos h1] at h ⊢
        rw [M.bind_ok (freeFence_ok e)] at h
        rw [M.bind_ok (freeFence_ok (s := { s with threads := th }) e)]
        cases hx : (s.mem.msgs .strong F.master).getLast? with
        | none => simp [M.bind_apply, UrcT.rmw, hx] at h
        | some x =>
          cases hr : s.mem.racy t F.master .atomic with
          | true => simp [M.bind_apply, UrcT.rmw, hx, hr] at h
          | false =>
            simp only [M.bind_apply, UrcT.rmw, hx, hr, M.pure_apply, Bool.false_eq_true, if_false] at h ⊢
            cases h
            rfl
      · rw [if_neg h1] at h ⊢
        unfold decStrong at h ⊢
        simp only [M.bind_apply, fence, e] at h ⊢
        by_cases h2 : dbg = true ∧ F.strong = 0
        · rw [if_pos h2] at h
          simp [M.boom] at h
        · rw [if_neg h2] at h ⊢
          simp only [putFence, M.modify_apply, M.pure_apply] at h ⊢
          cases h
          rfl

theorem mmA_ok (G : UrcTInv n s) (ch : UrcChoice α) {t h f p : Nat} {x : α} (ht : s.At t (.mmA h f p x)) :
    UrcFine (ch.grant = false) (n + 1) t (step dbg mx ch t (.mmA h f p x) s) := by
  obtain ⟨F, eF, hF, hm, hp, -, e, -, -⟩ := G.busy ht rfl
  obtain ⟨hlt, -⟩ := List.getElem?_eq_some_iff.1 e
  obtain ⟨hltF, -⟩ := List.getElem?_eq_some_iff.1 eF
  obtain ⟨hltT, -⟩ := List.getElem?_eq_some_iff.1 ht
  have G0 : UrcTInv n { s with threads := s.threads.set t none } :=
    G.idle (l := s.log) (a := some (.mmA h f p x)) ht (fun _ h => by cases h; rfl)
  simp only [step]
  by_cases hg : ch.grant = true
  · rw [if_pos hg]
    have ha : UrcT.alloc t x s = .ok (s.fences.length, s.vals.length) { s with
        vals := s.vals ++ [(x, true)]
        fences := s.fences ++ [some ⟨1, 0, s.vals.length⟩]
        mem := s.mem.apply t 0 (.init s.vals.length) } := by
      simp only [UrcT.alloc, G.V.calm_new, Bool.false_eq_true, if_false]
    obtain ⟨s1, es1⟩ : ∃ s1 : UrcSys α, s1 = { s with
        vals := s.vals ++ [(x, true)]
        fences := s.fences ++ [some ⟨1, 0, s.vals.length⟩]
        hands := s.hands ++ [some (.own t (.urc s.fences.length))]
        threads := s.threads.set t none
        mem := s.mem.apply t 0 (.init s.vals.length) } := ⟨_, rfl⟩
    obtain ⟨G1, hFg, hsole, hU, hW, hfull⟩ := G0.alloc_ok t x es1
    have ht1 : s1.threads[t]? = some none := by rw [es1]; simp [List.getElem?_set_self hltT]
    have e1 : s1.hands[h]? = some (some (.own t (.urc f))) := by
      rw [es1]
      exact getElem?_append_some e
    obtain ⟨r, s2, hd, G2, d1, d2, d3, d4, d5, d6, d7, d8⟩ := G1.dropUrc_ok (dbg := dbg) (mx := mx) ht1 e1
    have hd' : dropUrc dbg mx t f { s with
        vals := s.vals ++ [(x, true)]
        fences := s.fences ++ [some ⟨1, 0, s.vals.length⟩]
        hands := (s.hands ++ [some (UrcHold.own t (.urc s.fences.length))]).set h none
        mem := s.mem.apply t 0 (.init s.vals.length) } = .ok r { s2 with threads := s.threads } := by
      have := dropUrc_threads (th := s.threads) hd
      rw [es1] at this
      exact this
    have eg : s.fences.length ≠ f := by omega
    obtain ⟨c1, c2, -, -, -⟩ := hand_set e1 rfl
    have own2 : s2.hands[s.hands.length]? = some (some (.own t (.urc s.fences.length))) := by
      rw [d4, List.getElem?_set_ne (by omega), es1]
      simp
    have fen2 : s2.Fen s.fences.length s.vals.length := by
      obtain ⟨F', hF', hq⟩ := hFg
      exact ⟨F', by rw [d6 _ eg]; exact hF', hq⟩
    have sole2 : ∀ g, s2.Fen g s.vals.length → g = s.fences.length := fun g hg => hsole g (d5 g _ hg)
    have nU2 : s2.nU s.fences.length = 1 := by
      show s2.hands.countP _ = 1
      rw [d4]
      exact (c2 _ eg).trans hU
    have nW2 : s2.nW s.fences.length = 0 := by
      show s2.hands.countP _ = 0
      have := countP_set_add (UrcHold.weakAt s.fences.length) e1 none
      have h' : UrcHold.weakAt s.fences.length (some (UrcHold.own t (.urc f))) = false := rfl
      have h0 : UrcHold.weakAt s.fences.length none = false := rfl
      rw [h', h0] at this
      simp only [Bool.toNat_false, Nat.add_zero] at this
      rw [d4, this]
      exact hW
    have ht2 : s2.threads[t]? = some none := by rw [d1]; exact ht1
    have full2 := d7 t _ hfull
    have hth : s2.threads.set t = fun a => s.threads.set t a := by
      funext a
      rw [d1, es1]
      simp
    rw [M.bind_ok ha]
    have hn : ∀ (s0 : UrcSys α), (UrcT.name : M (UrcSys α) Nat) s0 = .ok s0.hands.length s0 := fun _ => rfl
    rw [M.bind_ok (hn _)]
    have hgive : ∀ (s0 : UrcSys α) k, (UrcT.give t k : M (UrcSys α) Unit) s0 =
        .ok () { s0 with hands := s0.hands ++ [some (.own t k)] } := fun _ _ => rfl
    have hset : ∀ (s0 : UrcSys α), (UrcT.setHand h none : M (UrcSys α) Unit) s0 =
        .ok () { s0 with hands := s0.hands.set h none } := fun _ => rfl
    rw [M.bind_ok (hgive _ _), M.bind_ok (hset _), M.bind_ok hd']
    cases r with
    | none =>
      have K : UrcTInv (n + 1) { s2 with
          threads := s2.threads.set t (some (.held s.hands.length s.fences.length s.vals.length)) } := by
        refine G2.goes ht2 (fun _ h => by cases h) (opOk own2 fen2 rfl (fun _ => sole2) (fun _ => nU2)
          (fun _ => nW2) (by simp [UrcOp.hasWeak]) rfl (by simp)) (by simp [UrcOp.left]) ?_
        intro h' f' q' e' _
        cases e'
        exact full2
      rw [hth] at K
      exact .ok K
    | some p' =>
      obtain ⟨d9, d10, d11⟩ := d8 p' rfl
      have K : UrcTInv (n + 1) { s2 with
          threads := s2.threads.set t (some (.fin p' (some (s.hands.length, s.fences.length, s.vals.length)))) } := by
        refine G2.goes ht2 (fun _ h => by cases h) ?_ ?_ ?_
        · constructor
          · rintro h' f' q' e'
            cases e'
            exact own2
          · rintro h' f' q' e'
            cases e'
            exact fen2
          · rintro h' f' q' e' _
            cases e'
            exact sole2
          · rintro h' f' q' e' _
            cases e'
            exact nU2
          · rintro h' f' q' e' _
            cases e'
            exact nW2
          · rintro h' f' q' e' h''
            cases h''
          · rintro q e'
            cases e'
            exact d9
          · rintro q k e'
            cases e'
            exact d10
          · rintro h' f' q v e'
            cases e'
        · intro q e'
          cases e'
          exact d11
        · intro h' f' q' e' _
          cases e'
          exact full2
      rw [hth] at K
      exact .ok K
  · rw [if_neg hg]
    exact Or.inr ⟨by simpa using hg, s, rfl, G0.mono (Nat.le_succ n)⟩

theorem mv1_ok (G : UrcTInv n s) (ch : UrcChoice α) {t h f p : Nat} {x : α} (ht : s.At t (.mv1 h f p x))
    (hf : UrcAct.faulty s (.run t ch) = false) :
    UrcFine (dbg = true) (n + 1) t (step dbg mx ch t (.mv1 h f p x) s) := by
  obtain ⟨F, eF, hF, hm, hp, hmade, e, -, -⟩ := G.busy ht rfl
  obtain ⟨hlt, -⟩ := List.getElem?_eq_some_iff.1 e
  obtain ⟨hltF, -⟩ := List.getElem?_eq_some_iff.1 eF
  obtain ⟨hltT, -⟩ := List.getElem?_eq_some_iff.1 ht
  have o := G.L.ops t _ ht
  have hg : ch.grant = true := by
    unfold UrcSys.At at ht
    simpa only [UrcAct.faulty, ht, Bool.not_eq_false'] using hf
  obtain ⟨y, hy⟩ := G.V.last_some (c := .strong) hp
  obtain ⟨w, P⟩ := store_pre t p 0 0 .strong true s.mem
  have hl : ((s.mem.apply t 0 (.store .strong p 0 true)).msgs .strong p).getLast? =
      some ⟨0, s.mem.evts.length, w⟩ := by rw [P.msgsAt]; simp
  have hsf := UrcVInv.sf_last (s := { s with mem := s.mem.apply t 0 (.store .strong p 0 true) }) hl
  have K : ∀ F' : UrcFence, F'.master = F.master → F'.weak = F.weak → UrcTInv n { s with
      hands := s.hands.set h none, fences := s.fences.set f (some F')
      threads := s.threads.set t none, mem := s.mem.apply t 0 (.store .strong p 0 true) } := by
    intro F' hm' hw'
    constructor
    · exact G.L.giveUp (F' := F') (V := s.vals) ht rfl rfl rfl eF hm' hw' rfl (o.dead h f p x rfl)
        (fun _ _ => Iff.rfl) (fun q hq => P.msgs _ _ hq) (Nat.le_trans (Nat.le_of_eq hsf) (Nat.zero_le _))
    · exact G.V.giveUp G.L (F' := F') (W := s.vals) ht rfl rfl rfl eF hm' P (by simp) (by simp) rfl
        (o.dead h f p x rfl) (fun _ _ => Iff.rfl)
  obtain ⟨m1, em1⟩ : ∃ m1, m1 = s.mem.apply t 0 (.store .strong p 0 true) := ⟨_, rfl⟩
  rw [← em1] at K
  have hput : (putFence f { F with strong := 0 } : M (UrcSys α) Unit) s =
      .ok () { s with fences := s.fences.set f (some { F with strong := 0 }) } := rfl
  have hstore : UrcT.store t .strong p 0 true
      ({ s with fences := s.fences.set f (some { F with strong := 0 }) } : UrcSys α) =
      .ok () { s with fences := s.fences.set f (some { F with strong := 0 }), mem := m1 } := by
    simp only [UrcT.store, hy, G.V.calm_atomic hmade, Bool.false_eq_true, if_false, em1]
  have halloc : UrcT.alloc t x
      ({ s with fences := s.fences.set f (some { F with strong := 0 }), mem := m1 } : UrcSys α) =
      .ok (s.fences.length, s.vals.length) { s with
        vals := s.vals ++ [(x, true)]
        fences := s.fences.set f (some { F with strong := 0 }) ++ [some ⟨1, 0, s.vals.length⟩]
        mem := m1.apply t 0 (.init s.vals.length) } := by
    have := (K F rfl rfl).V.calm_new (t := t) (k := .init)
    simp only at this
    simp only [UrcT.alloc, this, Bool.false_eq_true, if_false, List.length_set]
  have hn : ∀ (s0 : UrcSys α), (UrcT.name : M (UrcSys α) Nat) s0 = .ok s0.hands.length s0 := fun _ => rfl
  have hgive : ∀ (s0 : UrcSys α) k, (UrcT.give t k : M (UrcSys α) Unit) s0 =
      .ok () { s0 with hands := s0.hands ++ [some (.own t k)] } := fun _ _ => rfl
  have hset : ∀ (s0 : UrcSys α), (UrcT.setHand h none : M (UrcSys α) Unit) s0 =
      .ok () { s0 with hands := s0.hands.set h none } := fun _ => rfl
  simp only [step]
  rw [M.bind_ok (fence_ok eF), M.bind_ok hput, M.bind_ok hstore, if_pos hg, M.bind_ok halloc]
  simp only
  rw [M.bind_ok (hn _), M.bind_ok (hgive _ _), M.bind_ok (hset _)]
  simp only
  rw [List.set_append_left _ _ hlt]
  have efn : (s.fences.set f (some { F with strong := 0 }) ++ [some ⟨1, 0, s.vals.length⟩])[f]? =
      some (some { F with strong := 0 }) :=
    getElem?_append_some (List.getElem?_set_self hltF)
  have hfen : ∀ (s0 : UrcSys α), s0.fences = s.fences.set f (some { F with strong := 0 }) ++
      [some ⟨1, 0, s.vals.length⟩] → fence f s0 = .ok { F with strong := 0 } s0 := fun s0 h0 =>
    fence_ok (by rw [h0]; exact efn)
  have K1 : ∀ F' : UrcFence, F'.master = F.master → F'.weak = F.weak → ∃ s1 : UrcSys α, s1 = { s with
      vals := s.vals ++ [(x, true)]
      hands := s.hands.set h none ++ [some (.own t (.urc s.fences.length))]
      fences := s.fences.set f (some F') ++ [some ⟨1, 0, s.vals.length⟩]
      threads := s.threads.set t none, mem := m1.apply t 0 (.init s.vals.length) } ∧ UrcTInv (n + 1) s1 ∧
      s1.Fen s.fences.length s.vals.length ∧
      (∀ g, s1.Fen g s.vals.length → g = s.fences.length) ∧ s1.nU s.fences.length = 1 ∧
      s1.nW s.fences.length = 0 ∧ s1.Full t s.vals.length := by
    intro F' h1 h2
    have := (K F' h1 h2).alloc_ok t x rfl
    simp only [List.length_set] at this
    exact ⟨_, rfl, this⟩
  by_cases hd : dbg = true
  · obtain ⟨s1, es1, G1, -⟩ := K1 { F with strong := 0 } rfl rfl
    have : dropUrc dbg mx t f ({ s with
        vals := s.vals ++ [(x, true)]
        hands := s.hands.set h none ++ [some (.own t (.urc s.fences.length))]
        fences := s.fences.set f (some { F with strong := 0 }) ++ [some ⟨1, 0, s.vals.length⟩]
        mem := m1.apply t 0 (.init s.vals.length) } : UrcSys α) = .panic { s with
        vals := s.vals ++ [(x, true)]
        hands := s.hands.set h none ++ [some (.own t (.urc s.fences.length))]
        fences := s.fences.set f (some { F with strong := 0 }) ++ [some ⟨1, 0, s.vals.length⟩]
        mem := m1.apply t 0 (.init s.vals.length) } := by
      unfold dropUrc decStrong
      rw [M.bind_ok (hfen _ rfl), if_neg (by simp)]
      refine M.bind_panic ?_
      rw [M.bind_ok (hfen _ rfl), if_pos ⟨hd, rfl⟩]
      rfl
    rw [M.bind_panic this]
    refine Or.inr ⟨hd, _, rfl, ?_⟩
    rw [es1] at G1
    exact G1
  · obtain ⟨s1, es1, G1, hFg, hsole, hU, hW, hfull⟩ := K1 { F with strong := mx } rfl rfl
    have : dropUrc dbg mx t f ({ s with
        vals := s.vals ++ [(x, true)]
        hands := s.hands.set h none ++ [some (.own t (.urc s.fences.length))]
        fences := s.fences.set f (some { F with strong := 0 }) ++ [some ⟨1, 0, s.vals.length⟩]
        mem := m1.apply t 0 (.init s.vals.length) } : UrcSys α) = .ok none { s with
        vals := s.vals ++ [(x, true)]
        hands := s.hands.set h none ++ [some (.own t (.urc s.fences.length))]
        fences := s.fences.set f (some { F with strong := mx }) ++ [some ⟨1, 0, s.vals.length⟩]
        mem := m1.apply t 0 (.init s.vals.length) } := by
      unfold dropUrc decStrong
      rw [M.bind_ok (hfen _ rfl), if_neg (by simp)]
      simp only [M.bind_apply]
      rw [hfen _ rfl]
      simp only
      rw [if_neg (by simp [hd])]
      simp only [putFence, M.modify_apply, M.pure_apply, decr, if_true]
      rw [List.set_append_left _ _ (by simpa using hltF), List.set_set]
    rw [M.bind_ok this]
    have ht1 : s1.threads[t]? = some none := by rw [es1]; simp [List.getElem?_set_self hltT]
    have own1 : s1.hands[s.hands.length]? = some (some (.own t (.urc s.fences.length))) := by
      rw [es1]
      simp
    have K2 : UrcTInv (n + 1) { s1 with
        threads := s1.threads.set t (some (.held s.hands.length s.fences.length s.vals.length)) } := by
      refine G1.goes ht1 (fun _ h => by cases h) (opOk own1 hFg rfl (fun _ => hsole) (fun _ => hU)
        (fun _ => hW) (by simp [UrcOp.hasWeak]) rfl (by simp)) (by simp [UrcOp.left]) ?_
      intro h' f' q' e' _
      cases e'
      exact hfull
    rw [es1] at K2
    simp only [List.set_set] at K2
    refine .ok ?_
    simpa using K2

end UrcTInv
end Lokky
