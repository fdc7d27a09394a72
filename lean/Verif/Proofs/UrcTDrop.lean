import Verif.Proofs.UrcTCall

/-! Dropping handles and sending them keeps the invariant of the `Urc` system of threads. -/

namespace Lokky
variable {α : Type} {n n' mx : Nat} {s : UrcSys α} {dbg : Bool}

namespace UrcTInv
open UrcT

theorem set_self {f : Nat} {F : UrcFence} (eF : s.fences[f]? = some (some F)) :
    s.fences.set f (some F) = s.fences := by
  obtain ⟨h1, h2⟩ := List.getElem?_eq_some_iff.1 eF
  rw [← h2, List.set_getElem_self]

/-- `drop` of a `Urc`, up to `fetch_sub`. -/
theorem dropUrc_ok (G : UrcTInv n s) {t h f : Nat} (ht : s.threads[t]? = some none)
    (e : s.hands[h]? = some (some (.own t (.urc f)))) :
    ∃ r s', dropUrc dbg mx t f { s with hands := s.hands.set h none } = .ok r s' ∧ UrcTInv n s' ∧
      s'.threads = s.threads ∧ s'.log = s.log ∧ s'.vals = s.vals ∧
      s'.hands = s.hands.set h none ∧ (∀ g q, s'.Fen g q → s.Fen g q) ∧
      (∀ g, g ≠ f → s'.fences[g]? = s.fences[g]?) ∧
      (∀ t' q, s.Full t' q → s'.Full t' q) ∧
      ∀ p, r = some p → p < s'.vals.length ∧ (∀ g, ¬ s'.Fen g p) ∧ s'.Made t p := by
  obtain ⟨F, eF, hF, hp, ha, hc, hm, hs, hw, hU⟩ := G.base ht e
  obtain ⟨c1, c2, c3, c4, c5⟩ := hand_set e rfl
  obtain ⟨hltF, -⟩ := List.getElem?_eq_some_iff.1 eF
  have eF' : ({ s with hands := s.hands.set h none } : UrcSys α).fences[f]? = some (some F) := eF
  unfold dropUrc
  rw [M.bind_ok (fence_ok eF')]
  by_cases h1 : F.strong = 1 ∧ F.weak = 0
  · rw [if_pos h1, M.bind_ok (freeFence_ok eF')]
    obtain ⟨x, hx⟩ := G.V.last_some (c := .strong) hp
    have hsf := UrcVInv.sf_last hx
    have hpos := UrcSys.unf_pos hF
    have hdec : decr mx x.val = x.val - 1 := by
      unfold decr
      rw [if_neg (by omega)]
    have hr : UrcT.rmw t .strong F.master (decr mx) (fun v => v == 1) true
        ({ s with hands := s.hands.set h none, fences := s.fences.set f none } : UrcSys α) = .ok x.val
        { s with
          hands := s.hands.set h none, fences := s.fences.set f none
          mem := s.mem.apply t 0 (.rmw .strong F.master (x.val - 1) (x.val == 1) true) } := by
      simp only [UrcT.rmw, hx, G.V.calm_atomic hm, Bool.false_eq_true, if_false, hdec]
    rw [M.bind_ok hr]
    obtain ⟨w, P, p1, p2, p3⟩ := rmw_pre t F.master (x.val - 1) 0 .strong (x.val == 1) true s.mem
    have hl : ((s.mem.apply t 0 (.rmw .strong F.master (x.val - 1) (x.val == 1) true)).msgs .strong
        F.master).getLast? = some ⟨x.val - 1, s.mem.evts.length, w⟩ := by rw [P.msgsAt]; simp
    have hsf' := UrcVInv.sf_last (s := { s with
      mem := s.mem.apply t 0 (.rmw .strong F.master (x.val - 1) (x.val == 1) true) }) hl
    have hv := ArcMem.viewAt_latest hx
    have hb := G.L.bound F.master
    refine ⟨_, _, rfl, ⟨?_, ?_⟩, rfl, rfl, rfl, rfl, ?_, ?_, fun t' q hq => pre_full P hq, ?_⟩
    · refine G.L.free ht e rfl hF rfl (by simp; omega) (by simp; omega) (fun q hq => P.msgs _ _ hq) ?_ ?_
      · rw [hsf']
        simp only
        omega
      · rw [hsf']
        simp only
        omega
    · refine G.V.free G.L ht e rfl hF rfl (by simp; omega) P (by simp) (Or.inr ⟨_, rfl, by simp only; omega,
        p2 rfl, ?_⟩)
      intro x' hx' i hi
      rw [hx] at hx'
      injection hx' with hx'
      subst hx'
      rw [← hv] at hi
      exact p1 i hi
    · rintro g q ⟨F', hF', hq⟩
      by_cases hg : g = f
      · subst hg
        simp only [List.getElem?_set_self hltF] at hF'
        cases hF'
      · simp only [List.getElem?_set_ne (Ne.symm hg)] at hF'
        exact ⟨F', hF', hq⟩
    · intro g hg
      simp only
      rw [List.getElem?_set_ne (Ne.symm hg)]
    · intro p hp'
      split at hp'
      · rename_i h1'
        cases hp'
        refine ⟨hp, ?_, pre_made P hm⟩
        rintro g ⟨G', hG, hq⟩
        simp only at hG
        by_cases eg : g = f
        · subst eg
          rw [List.getElem?_set_self hltF] at hG
          cases hG
        · rw [List.getElem?_set_ne (Ne.symm eg)] at hG
          exact eg (UrcSys.unf_one (by omega) hF ⟨G', hG, hq⟩)
      · cases hp'
  · rw [if_neg h1]
    have hd := decStrong_ok (dbg := dbg) (mx := mx) eF' (by omega)
    rw [M.bind_ok hd]
    simp only [UrcHold.strong, UrcHand.fen_urc, Bool.toNat_true, Bool.not_true, Bool.toNat_false] at c4 c5
    refine ⟨_, _, rfl, ?_, rfl, rfl, rfl, rfl, ?_, ?_, fun t' q hq => hq,
      fun _ h => by cases h⟩
    · refine G.give ht e rfl eF rfl ?_ ?_ ?_
      · intro _
        simp only [UrcHand.fen_urc]
        omega
      · intro _
        simp only [UrcHand.fen_urc]
        omega
      · intro h0 _
        simp only [UrcHand.fen_urc] at h0 ⊢
        omega
    · exact fun g q h => (UrcLInv.fen_set (F' := { F with strong := F.strong - 1 }) eF rfl).1 h
    · intro g hg
      simp only
      rw [List.getElem?_set_ne (Ne.symm hg)]

/-- A thread has left master `p`. -/
theorem opOk_left {t p : Nat} {op : UrcOp α} (ho : op = .fin p none ∧ (∀ g, ¬ s.Fen g p) ∨ op = .wfin p)
    (hp : p < s.vals.length) : UrcOpOk s t op := by
  rcases ho with ⟨rfl, hg⟩ | rfl
  · refine ⟨by simp [UrcOp.hand], by simp [UrcOp.hand], by simp [UrcOp.hand], by simp [UrcOp.hand],
      by simp [UrcOp.hand], by simp [UrcOp.hand], ?_, ?_, by simp⟩
    · intro q hq
      cases hq
      exact hp
    · intro q k hq
      cases hq
      exact hg
  · refine ⟨by simp [UrcOp.hand], by simp [UrcOp.hand], by simp [UrcOp.hand], by simp [UrcOp.hand],
      by simp [UrcOp.hand], by simp [UrcOp.hand], ?_, by simp, by simp⟩
    intro q hq
    cases hq
    exact hp

theorem drop_urc (G : UrcTInv n s) (ch : UrcChoice α) {t h f : Nat} (ht : s.threads[t]? = some none)
    (e : s.hands[h]? = some (some (.own t (.urc f)))) :
    UrcFine False (n + 1) t (call dbg mx ch t h .drop (.urc f) s) := by
  obtain ⟨r, s', h1, G', h2, -, -, -, -, -, -, h3⟩ := G.dropUrc_ok (dbg := dbg) (mx := mx) ht e
  have h0 : (setHand h none : M (UrcSys α) Unit) s = .ok () { s with hands := s.hands.set h none } := rfl
  have ht' : s'.threads[t]? = some none := by rw [h2]; exact ht
  simp only [call]
  rw [M.bind_ok h0, M.bind_ok h1]
  cases r with
  | none => exact .ok ((G'.mono (Nat.le_succ n)).idle ht' (fun _ h => by cases h))
  | some p =>
    obtain ⟨h4, h5, h6⟩ := h3 p rfl
    refine .ok ((G'.mono (Nat.le_succ n)).goes ht' (fun _ h => by cases h) (opOk_left (Or.inl ⟨rfl, h5⟩) h4) ?_ ?_)
    · intro q hq
      cases hq
      exact h6
    · intro h' f' q' hq
      cases hq

theorem drop_weak (G : UrcTInv n s) (ch : UrcChoice α) {t h f m : Nat} (ht : s.threads[t]? = some none)
    (e : s.hands[h]? = some (some (.own t (.weak f m)))) :
    UrcFine False (n + 1) t (call dbg mx ch t h .drop (.weak f m) s) := by
  obtain ⟨F, eF, hFm⟩ := G.L.weakm h t f m e
  have hF : s.Fen f m := ⟨F, eF, hFm⟩
  have hp := G.L.mas _ _ hF
  have hm := G.V.made e hF
  have hW := UrcSys.nW_pos e rfl rfl
  simp only [UrcHold.fen_own, UrcHand.fen_weak] at hW
  have hw := G.L.weak f F eF hW
  obtain ⟨c1, c2, c3, c4, c5⟩ := hand_set e rfl
  simp only [UrcHold.strong, UrcHand.fen_weak, Bool.toNat_true, Bool.not_false, Bool.toNat_false] at c4 c5
  have h0 : (setHand h none : M (UrcSys α) Unit) s = .ok () { s with hands := s.hands.set h none } := rfl
  have eF' : ({ s with hands := s.hands.set h none } : UrcSys α).fences[f]? = some (some F) := eF
  simp only [call]
  rw [M.bind_ok h0]
  by_cases h1 : F.weak = 1 ∧ F.strong = 0
  · have key : UrcTInv n { s with hands := s.hands.set h none, fences := s.fences.set f (some F) } := by
      refine G.give ht e rfl eF rfl ?_ ?_ ?_
      · simp only [UrcHand.fen_weak]
        intro h2
        have := G.L.strong f F eF (by omega)
        omega
      · simp only [UrcHand.fen_weak]
        omega
      · simp only [UrcHand.fen_weak]
        intro _ h2
        have := G.L.strong f F eF (by omega)
        omega
    rw [set_self eF] at key
    obtain ⟨v, m', r1, r2, r3⟩ := key.rmw (t := t) (p := m) (f := decr mx) (acq := fun v => v == 1) (rel := true)
      hp hm
    have hd : dropWeak dbg mx t f m { s with hands := s.hands.set h none } = .ok (v == 1)
        { s with hands := s.hands.set h none, mem := m' } := by
      unfold dropWeak
      rw [M.bind_ok (fence_ok eF'), if_pos h1, M.bind_ok r1]
      rfl
    rw [M.bind_ok hd]
    by_cases hv : (v == 1) = true
    · rw [if_pos hv]
      refine .ok ((r2.mono (Nat.le_succ n)).goes (a := none) ht (fun _ h => by cases h) (opOk_left (Or.inr rfl) hp) ?_ ?_)
      · intro q hq
        cases hq
        exact r3
      · intro h' f' q' hq
        cases hq
    · rw [if_neg hv]
      exact .ok ((r2.mono (Nat.le_succ n)).idle (a := none) ht (fun _ h => by cases h))
  · have hd : dropWeak dbg mx t f m { s with hands := s.hands.set h none } = .ok false
        { s with
          hands := s.hands.set h none
          fences := s.fences.set f (some { F with weak := F.weak - 1 }) } := by
      unfold dropWeak
      rw [M.bind_ok (fence_ok eF'), if_neg h1, M.bind_ok (decWeak_ok eF' (by omega))]
      rfl
    rw [M.bind_ok hd, if_neg (by simp)]
    refine .ok ?_
    have key : UrcTInv n { s with
        hands := s.hands.set h none, fences := s.fences.set f (some { F with weak := F.weak - 1 }) } := by
      refine G.give ht e rfl eF rfl ?_ ?_ ?_
      · simp only [UrcHand.fen_weak]
        intro h2
        have := G.L.strong f F eF (by omega)
        omega
      · simp only [UrcHand.fen_weak]
        omega
      · simp only [UrcHand.fen_weak]
        omega
    exact (key.mono (Nat.le_succ n)).idle (a := none) ht (fun _ h => by cases h)

theorem drop_fence (G : UrcTInv n s) (ch : UrcChoice α) {t h f : Nat} (ht : s.threads[t]? = some none)
    (e : s.hands[h]? = some (some (.own t (.fence f)))) :
    UrcFine False (n + 1) t (call dbg mx ch t h .drop (.fence f) s) := by
  obtain ⟨p, hF⟩ := G.L.fen h _ e
  obtain ⟨F, eF, hFp⟩ := id hF
  simp only [UrcHold.fen_own, UrcHand.fen_fence] at eF hF
  have lone : ∀ (i : Nat) (x : UrcHold), s.hands[i]? = some (some x) → x.fen = f → i = h := by
    intro i x hx hf
    rcases G.L.loc i h x _ hx e hf with h' | ⟨t', -, h'⟩
    · exact h'
    · cases h'
  have c := hand_set e rfl
  obtain ⟨c1, c2, c3, c4, c5⟩ := c
  simp only [UrcHold.strong, UrcHand.fen_fence, Bool.toNat_true, Bool.not_true, Bool.toNat_false] at c3 c4 c5
  obtain ⟨hlt, -⟩ := List.getElem?_eq_some_iff.1 e
  have z : ∀ (i : Nat) (x : UrcHold), (s.hands.set h none)[i]? = some (some x) → x.fen ≠ f := by
    intro i x hx hf
    have := lone i x (c3 i x hx) hf
    subst this
    rw [List.getElem?_set_self hlt] at hx
    cases hx
  have zU : (s.hands.set h none).countP (UrcHold.strongAt f) = 0 := by
    rw [List.countP_eq_zero]
    intro a ha hc
    obtain ⟨i, hi⟩ := List.getElem?_of_mem ha
    cases a with
    | none => cases hc
    | some x =>
      simp [UrcHold.strongAt] at hc
      exact z i x hi hc.2
  have zW : (s.hands.set h none).countP (UrcHold.weakAt f) = 0 := by
    rw [List.countP_eq_zero]
    intro a ha hc
    obtain ⟨i, hi⟩ := List.getElem?_of_mem ha
    cases a with
    | none => cases hc
    | some x =>
      simp [UrcHold.weakAt] at hc
      exact z i x hi hc.2
  have h0 : (setHand h none : M (UrcSys α) Unit) s = .ok () { s with hands := s.hands.set h none } := rfl
  have eF' : ({ s with hands := s.hands.set h none } : UrcSys α).fences[f]? = some (some F) := eF
  simp only [call]
  rw [M.bind_ok h0, M.bind_ok (freeFence_ok eF')]
  refine .ok ?_
  have key : UrcTInv n { s with hands := s.hands.set h none, fences := s.fences.set f none } := by
    have hb := G.L.bound p
    exact ⟨G.L.free (m := s.mem) ht e rfl hF rfl (by simp; omega) (by simp; omega) (fun _ _ => rfl) hb
        (by show s.sf p ≤ s.sf p + 1; omega),
      G.V.free G.L (m := s.mem) ht e rfl hF rfl (by simp; omega) (ArcPre.none t p s.mem) (by simp) (Or.inl rfl)⟩
  exact (key.mono (Nat.le_succ n)).idle (a := none) ht (fun _ h => by cases h)

theorem envelop_ok (G : UrcTInv n s) (hn : n < mx) (ch : UrcChoice α) {t h f : Nat} (ht : s.threads[t]? = some none)
    (e : s.hands[h]? = some (some (.own t (.urc f)))) :
    UrcFine (ch.grant = false) (n + 1) t (call dbg mx ch t h .envelop (.urc f) s) := by
  obtain ⟨F, eF, hF, hp, ha, hc, hm, hs, hw, hU⟩ := G.base ht e
  obtain ⟨x, hx⟩ := G.V.last_some (c := .strong) hp
  have hsf := UrcVInv.sf_last hx
  have hb := G.L.bound F.master
  have hinc : incr mx x.val = x.val + 1 := by
    unfold incr
    rw [if_neg (by omega)]
  have hr : UrcT.rmw t .strong F.master (incr mx) (fun _ => true) false s = .ok x.val
      { s with mem := s.mem.apply t 0 (.rmw .strong F.master (x.val + 1) true false) } := by
    simp only [UrcT.rmw, hx, G.V.calm_atomic hm, Bool.false_eq_true, if_false, hinc]
  obtain ⟨w, P, p1, p2, p3⟩ := rmw_pre t F.master (x.val + 1) 0 .strong true false s.mem
  have hl : ((s.mem.apply t 0 (.rmw .strong F.master (x.val + 1) true false)).msgs .strong
      F.master).getLast? = some ⟨x.val + 1, s.mem.evts.length, w⟩ := by rw [P.msgsAt]; simp
  have hsf' := UrcVInv.sf_last (s := { s with
    mem := s.mem.apply t 0 (.rmw .strong F.master (x.val + 1) true false) }) hl
  have hv := ArcMem.viewAt_latest hx
  have hye : s.mem.evts.length ∈ (s.mem.apply t 0 (.rmw .strong F.master (x.val + 1) true false)).thr t := by
    obtain ⟨-, -, h'⟩ := P.newEvt .strong ⟨x.val + 1, s.mem.evts.length, w⟩ (by simp)
    exact h'
  have hidle : ∀ op, ¬ s.At t op := fun op => UrcLInv.not_at ht
  simp only [call, UrcT.envelop]
  by_cases hg : ch.grant = true
  · have : (do
        let F ← fence f
        let _ ← UrcT.rmw t .strong F.master (incr mx) (fun _ => true) false
        if ch.grant = true then
          M.modify fun s => { s with
            fences := s.fences ++ [some ⟨1, 0, F.master⟩]
            hands := s.hands ++ [some (.env s.fences.length)]
            mem := { s.mem with hnd := fun h => if h = s.hands.length then s.mem.thr t else s.mem.hnd h } }
        else M.boom : M (UrcSys α) Unit) s = .ok () { s with
            fences := s.fences ++ [some ⟨1, 0, F.master⟩]
            hands := s.hands ++ [some (.env s.fences.length)]
            mem := { s.mem.apply t 0 (.rmw .strong F.master (x.val + 1) true false) with
              hnd := fun h => if h = s.hands.length
                then (s.mem.apply t 0 (.rmw .strong F.master (x.val + 1) true false)).thr t
                else (s.mem.apply t 0 (.rmw .strong F.master (x.val + 1) true false)).hnd h } } := by
      rw [M.bind_ok (fence_ok eF), M.bind_ok hr, if_pos hg]
      rfl
    rw [M.bind_ok this]
    suffices key : UrcTInv (n + 1) { s with
            fences := s.fences ++ [some ⟨1, 0, F.master⟩]
            hands := s.hands ++ [some (UrcHold.env s.fences.length)]
            mem := { s.mem.apply t 0 (.rmw .strong F.master (x.val + 1) true false) with
              hnd := fun h => if h = s.hands.length
                then (s.mem.apply t 0 (.rmw .strong F.master (x.val + 1) true false)).thr t
                else (s.mem.apply t 0 (.rmw .strong F.master (x.val + 1) true false)).hnd h } } from
      .ok (key.idle (a := none) ht (fun _ h => by cases h))
    refine ⟨?_, ?_⟩
    · have := G.L.fresh (t := t) (p := F.master) (x := .env s.fences.length) (V := []) (m := { s.mem.apply t 0 (.rmw .strong F.master (x.val + 1) true false) with
          hnd := fun h => if h = s.hands.length
            then (s.mem.apply t 0 (.rmw .strong F.master (x.val + 1) true false)).thr t
            else (s.mem.apply t 0 (.rmw .strong F.master (x.val + 1) true false)).hnd h })
          (Or.inr rfl) (by simpa using hp) (by simpa using ha) (fun q hq => P.msgs _ _ hq)
          (fun q _ hq => by simpa using hq) (Nat.le_trans (Nat.le_of_eq hsf') (by simp only; omega))
          (Nat.le_trans (by simp only; omega) (Nat.le_of_eq hsf'.symm)) ?_ ?_
      · simpa using this
      · intro t' op h' f' ht' ho
        by_cases et : t' = t
        · subst et
          exact absurd ht' (hidle op)
        · exact G.L.foreign_sole e hF ht' et ho
      · intro t' k ht'
        exact (G.L.ops t' _ ht').gone _ _ rfl f hF
    · refine G.V.envelop G.L ht e hF P (by simp) rfl (by simp only; omega) hye ?_
      intro x' hx' i hi
      rw [hx] at hx'
      injection hx' with hx'
      subst hx'
      rw [← hv] at hi
      exact p1 i hi
  · have : (do
        let F ← fence f
        let _ ← UrcT.rmw t .strong F.master (incr mx) (fun _ => true) false
        if ch.grant = true then
          M.modify fun s => { s with
            fences := s.fences ++ [some ⟨1, 0, F.master⟩]
            hands := s.hands ++ [some (.env s.fences.length)]
            mem := { s.mem with hnd := fun h => if h = s.hands.length then s.mem.thr t else s.mem.hnd h } }
        else M.boom : M (UrcSys α) Unit) s = .panic
          { s with mem := s.mem.apply t 0 (.rmw .strong F.master (x.val + 1) true false) } := by
      rw [M.bind_ok (fence_ok eF), M.bind_ok hr, if_neg hg]
      rfl
    rw [M.bind_panic this]
    suffices key : UrcTInv (n + 1)
        { s with mem := s.mem.apply t 0 (.rmw .strong F.master (x.val + 1) true false) } from
      Or.inr ⟨by simpa using hg, _, rfl, (key.idle (a := none) (l := s.log) ht (fun _ h => by cases h))⟩
    refine ⟨?_, ?_⟩
    · have I := G.L.mono (Nat.le_succ n)
      refine { I with
        bound := fun q => ?_
        count := fun q hq => ?_
        ops := fun t' op h' => (I.ops t' op h').same rfl rfl rfl }
      · by_cases eq : q = F.master
        · subst eq
          exact Nat.le_trans (Nat.le_of_eq hsf') (by simp only; omega)
        · have := I.bound q
          simp only [UrcSys.sf, P.msgs _ _ eq]
          exact this
      · by_cases eq : q = F.master
        · subst eq
          refine Or.inl ?_
          have h1 : s.unf F.master ≤ x.val + 1 := by omega
          exact Nat.le_trans h1 (Nat.le_of_eq hsf'.symm)
        · have := I.count q hq
          simp only [UrcSys.sf, P.msgs _ _ eq]
          exact this
    · exact G.V.refused G.L ht e hF P (by simp) rfl (by simp only; omega) hye

end UrcTInv
end Lokky
