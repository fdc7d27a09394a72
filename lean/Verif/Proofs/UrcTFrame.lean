import Verif.Proofs.UrcTRun

/-! What steps of the `Urc` system of threads leave as it is. -/

namespace Lokky
variable {α : Type} {n n' mx : Nat} {s s1 s' : UrcSys α} {dbg : Bool}

/-- From `s` to `s'`, thread `t` changed no value but, if any, that of master `w`, and the masters of handles
did not change. -/
structure UrcSys.Frame (t : Nat) (w : Option Nat) (s s' : UrcSys α) : Prop where
  vlen : s.vals.length ≤ s'.vals.length
  vals : ∀ q, q < s.vals.length → w ≠ some q → s'.vals[q]? = s.vals[q]?
  flen : s.fences.length ≤ s'.fences.length
  fen : ∀ (f : Nat) (F' : UrcFence), f < s.fences.length → s'.fences[f]? = some (some F') →
    ∃ F, s.fences[f]? = some (some F) ∧ F.master = F'.master
  hlen : s.hands.length ≤ s'.hands.length
  hand : ∀ (h : Nat) (x' : UrcHold), h < s.hands.length → s'.hands[h]? = some (some x') →
    ∃ x, s.hands[h]? = some (some x) ∧ x.fen = x'.fen ∧ x.strong = x'.strong
  thr : ∀ t', t' ≠ t → s'.threads[t']? = s.threads[t']?

namespace UrcSys.Frame

theorem refl (t : Nat) (w : Option Nat) (s : UrcSys α) : Frame t w s s :=
  ⟨Nat.le_refl _, fun _ _ _ => rfl, Nat.le_refl _, fun _ F' _ h => ⟨F', h, rfl⟩, Nat.le_refl _,
    fun _ x' _ h => ⟨x', h, rfl, rfl⟩, fun _ _ => rfl⟩

theorem trans {t : Nat} {w : Option Nat} (A : Frame t w s s1) (B : Frame t w s1 s') : Frame t w s s' where
  vlen := Nat.le_trans A.vlen B.vlen
  vals q h hw := (B.vals q (Nat.lt_of_lt_of_le h A.vlen) hw).trans (A.vals q h hw)
  flen := Nat.le_trans A.flen B.flen
  fen f F' h e := by
    obtain ⟨F1, h1, e1⟩ := B.fen f F' (Nat.lt_of_lt_of_le h A.flen) e
    obtain ⟨F, h2, e2⟩ := A.fen f F1 h h1
    exact ⟨F, h2, e2.trans e1⟩
  hlen := Nat.le_trans A.hlen B.hlen
  hand i x' h e := by
    obtain ⟨x1, h1, e1, d1⟩ := B.hand i x' (Nat.lt_of_lt_of_le h A.hlen) e
    obtain ⟨x, h2, e2, d2⟩ := A.hand i x1 h h1
    exact ⟨x, h2, e2.trans e1, d2.trans d1⟩
  thr t' h := (B.thr t' h).trans (A.thr t' h)

/-- Only memory, the log and what thread `t` is in the middle of change. -/
theorem same {t : Nat} {w : Option Nat} {th : List (Option (UrcOp α))} {l : List (Nat × Option (UrcOut α))}
    {m : ArcMem} (h : ∀ t', t' ≠ t → th[t']? = s.threads[t']?) :
    Frame t w s { s with mem := m, log := l, threads := th } :=
  { refl t w s with thr := h }

end UrcSys.Frame

/-- The result of a step is as `Frame` says. -/
def UrcFrames {β : Type} (t : Nat) (w : Option Nat) (s : UrcSys α) : Res (UrcSys α) β → Prop
  | .ok _ s' | .panic s' => s.Frame t w s'
  | _ => True

namespace UrcFrames
open UrcT
variable {β γ : Type} {t : Nat} {w : Option Nat}

theorem bind {m : M (UrcSys α) β} {f : β → M (UrcSys α) γ} (h1 : UrcFrames t w s (m s))
    (h2 : ∀ b s1, UrcFrames t w s1 (f b s1)) : UrcFrames t w s ((m >>= f) s) := by
  rw [M.bind_apply]
  cases e : m s with
  | ok b s1 =>
    rw [e] at h1
    have h2 := h2 b s1
    simp only
    cases e' : f b s1 with
    | ok c s2 => rw [e'] at h2; exact h1.trans h2
    | panic s2 => rw [e'] at h2; exact h1.trans h2
    | abort => trivial
    | ub u => trivial
  | panic s1 => rw [e] at h1; exact h1
  | abort => trivial
  | ub u => trivial

theorem pure (b : β) : UrcFrames t w s ((Pure.pure b : M (UrcSys α) β) s) := UrcSys.Frame.refl t w s

theorem boom : UrcFrames t w s ((M.boom : M (UrcSys α) β) s) := UrcSys.Frame.refl t w s

theorem ite {c : Prop} [Decidable c] {m m' : M (UrcSys α) β} (h1 : UrcFrames t w s (m s))
    (h2 : UrcFrames t w s (m' s)) : UrcFrames t w s ((if c then m else m') s) := by
  split <;> assumption

theorem fence (f : Nat) : UrcFrames t w s (UrcT.fence f s) := by
  unfold UrcT.fence
  split
  · exact UrcSys.Frame.refl t w s
  · trivial

theorem putFence {f : Nat} {F F' : UrcFence} (e : s.fences[f]? = some (some F)) (hm : F.master = F'.master) :
    UrcFrames t w s (UrcT.putFence f F' s) := by
  obtain ⟨hlt, -⟩ := List.getElem?_eq_some_iff.1 e
  refine { UrcSys.Frame.refl t w s with flen := by simp, fen := ?_ }
  intro g G h1 h2
  by_cases hg : g = f
  · subst hg
    simp only [List.getElem?_set_self hlt] at h2
    cases h2
    exact ⟨F, e, hm⟩
  · simp only [List.getElem?_set_ne (Ne.symm hg)] at h2
    exact ⟨G, h2, rfl⟩

theorem freeFence (f : Nat) : UrcFrames t w s (UrcT.freeFence f s) := by
  unfold UrcT.freeFence
  split
  · rename_i F e
    obtain ⟨hlt, -⟩ := List.getElem?_eq_some_iff.1 e
    refine { UrcSys.Frame.refl t w s with flen := by simp, fen := ?_ }
    intro g G h1 h2
    by_cases hg : g = f
    · subst hg
      simp only [List.getElem?_set_self hlt] at h2
      cases h2
    · simp only [List.getElem?_set_ne (Ne.symm hg)] at h2
      exact ⟨G, h2, rfl⟩
  · trivial

theorem update {f : Nat} {b : UrcFence → Prop} [∀ F, Decidable (b F)] {g : UrcFence → UrcFence}
    (hg : ∀ F, F.master = (g F).master) :
    UrcFrames t w s ((do let F ← UrcT.fence f; if b F then M.boom else UrcT.putFence f (g F) :
      M (UrcSys α) Unit) s) := by
  cases e : s.fences[f]? with
  | none => rw [M.bind_apply]; simp only [UrcT.fence, e]; trivial
  | some a =>
    cases a with
    | none => rw [M.bind_apply]; simp only [UrcT.fence, e]; trivial
    | some F =>
      rw [M.bind_ok (UrcT.fence_ok e)]
      exact ite boom (putFence e (hg F))

theorem incStrong (f : Nat) : UrcFrames t w s (UrcT.incStrong dbg mx f s) := update fun _ => rfl
theorem incWeak (f : Nat) : UrcFrames t w s (UrcT.incWeak dbg mx f s) := update fun _ => rfl
theorem decStrong (f : Nat) : UrcFrames t w s (UrcT.decStrong dbg mx f s) := update fun _ => rfl
theorem decWeak (f : Nat) : UrcFrames t w s (UrcT.decWeak dbg mx f s) := update fun _ => rfl

theorem touch {t' p : Nat} {k : ArcKind} : UrcFrames t w s (UrcT.touch t' p k s) := by
  unfold UrcT.touch
  split
  · trivial
  · exact UrcSys.Frame.same fun _ _ => rfl

theorem load {ch : UrcChoice α} {t' p : Nat} {c : ArcCtr} {acq : Bool} :
    UrcFrames t w s (UrcT.load ch t' c p acq s) := by
  unfold UrcT.load
  simp only
  split
  · split
    · trivial
    · exact UrcSys.Frame.same fun _ _ => rfl
  · trivial

theorem rmw {t' p : Nat} {c : ArcCtr} {f : Nat → Nat} {acq : Nat → Bool} {rel : Bool} :
    UrcFrames t w s (UrcT.rmw t' c p f acq rel s) := by
  unfold UrcT.rmw
  split
  · split
    · trivial
    · exact UrcSys.Frame.same fun _ _ => rfl
  · trivial

theorem store {t' p v : Nat} {c : ArcCtr} {rel : Bool} : UrcFrames t w s (UrcT.store t' c p v rel s) := by
  unfold UrcT.store
  split
  · split
    · trivial
    · exact UrcSys.Frame.same fun _ _ => rfl
  · trivial

theorem cas {ch : UrcChoice α} {b : Bool} {t' p u v : Nat} {c : ArcCtr} {acq rel : Bool} :
    UrcFrames t w s (UrcT.cas ch b t' c p u v acq rel s) := by
  unfold UrcT.cas
  simp only
  split
  · split
    · trivial
    · split
      · exact UrcSys.Frame.same fun _ _ => rfl
      · split
        · exact UrcSys.Frame.same fun _ _ => rfl
        · exact UrcSys.Frame.same fun _ _ => rfl
  · trivial

theorem data (p : Nat) : UrcFrames t w s (UrcT.data p s) := by
  unfold UrcT.data
  split
  · exact UrcSys.Frame.refl t w s
  · trivial
  · trivial

theorem put {p : Nat} {x : α} {b : Bool} : UrcFrames t (some p) s (UrcT.put p x b s) := by
  refine { UrcSys.Frame.refl t (some p) s with vlen := by simp, vals := ?_ }
  intro q _ hq
  have : p ≠ q := fun h => hq (by rw [h])
  simp [List.getElem?_set_ne this]

theorem goto {op : UrcOp α} : UrcFrames t w s (UrcT.goto t op s) :=
  UrcSys.Frame.same (m := s.mem) (l := s.log) fun _ h => List.getElem?_set_ne (Ne.symm h)

theorem done {out : UrcOut α} : UrcFrames t w s (UrcT.done t out s) :=
  UrcSys.Frame.same (m := s.mem) fun _ h => List.getElem?_set_ne (Ne.symm h)

theorem append {α : Type} {l l' : List α} {i : Nat} (h : i < l.length) : (l ++ l')[i]? = l[i]? :=
  List.getElem?_append_left h

theorem give {t' : Nat} {k : UrcHand} : UrcFrames t w s (UrcT.give t' k s) := by
  refine { UrcSys.Frame.refl t w s with hlen := by simp, hand := ?_ }
  intro i x' h e
  simp only [append h] at e
  exact ⟨x', e, rfl, rfl⟩

theorem name : UrcFrames t w s (UrcT.name s) := UrcSys.Frame.refl t w s

theorem setNone {h : Nat} : UrcFrames t w s (UrcT.setHand h none s) := by
  refine { UrcSys.Frame.refl t w s with hlen := by simp, hand := ?_ }
  intro i x' hi e
  by_cases eh : i = h
  · subst eh
    simp only [List.getElem?_set_self hi] at e
    cases e
  · simp only [List.getElem?_set_ne (Ne.symm eh)] at e
    exact ⟨x', e, rfl, rfl⟩

theorem setSome {h : Nat} {x y : UrcHold} (e : s.hands[h]? = some (some x)) (h1 : x.fen = y.fen)
    (h2 : x.strong = y.strong) : UrcFrames t w s (UrcT.setHand h (some y) s) := by
  refine { UrcSys.Frame.refl t w s with hlen := by simp, hand := ?_ }
  intro i x' hi e'
  by_cases eh : i = h
  · subst eh
    simp only [List.getElem?_set_self hi] at e'
    cases e'
    exact ⟨x, e, h1, h2⟩
  · simp only [List.getElem?_set_ne (Ne.symm eh)] at e'
    exact ⟨x', e', rfl, rfl⟩

theorem alloc {t' : Nat} {x : α} : UrcFrames t w s (UrcT.alloc t' x s) := by
  unfold UrcT.alloc
  simp only
  split
  · trivial
  · refine { UrcSys.Frame.refl t w s with vlen := by simp, flen := by simp, fen := ?_, vals := ?_ }
    · intro q h _
      exact append h
    · intro f F' h e
      simp only [append h] at e
      exact ⟨F', e, rfl⟩

theorem dropUrc {f : Nat} : UrcFrames t w s (UrcT.dropUrc dbg mx t f s) :=
  (fence f).bind fun _ _ => ite ((freeFence f).bind fun _ _ => rmw.bind fun _ _ => pure _)
    ((decStrong f).bind fun _ _ => pure _)

theorem dropWeak {f m : Nat} : UrcFrames t w s (UrcT.dropWeak dbg mx t f m s) :=
  (fence f).bind fun _ _ => ite (rmw.bind fun _ _ => pure _) ((decWeak f).bind fun _ _ => pure _)

theorem envelop {ch : UrcChoice α} {f : Nat} : UrcFrames t w s (UrcT.envelop mx ch t f s) := by
  refine (fence f).bind fun F s => rmw.bind fun _ s => ite ?_ boom
  refine { UrcSys.Frame.refl t w s with flen := by simp, fen := ?_, hlen := by simp, hand := ?_ }
  · intro f F' h e
    simp only [append h] at e
    exact ⟨F', e, rfl⟩
  · intro i x' h e
    simp only [append h] at e
    exact ⟨x', e, rfl, rfl⟩

end UrcFrames

/-- The master whose value a thread may change at its next step. -/
def UrcOp.writes : UrcOp α → Option Nat
  | .held _ _ p | .unw1 _ _ p | .mv0 _ _ p | .mv1 _ _ p _ => some p
  | _ => none

namespace UrcFrames
variable {t : Nat}

theorem call (ch : UrcChoice α) {t h : Nat} {k : UrcHand} {cmd : UrcCall α}
    (e : s.hands[h]? = some (some (.own t k))) (hp : ∀ x, cmd ≠ .poke x) :
    UrcFrames t none s (UrcT.call dbg mx ch t h cmd k s) := by
  cases k with
  | urc f =>
    cases cmd with
    | clone => exact (incStrong f).bind fun _ _ => give.bind fun _ _ => done
    | downgrade => exact (incWeak f).bind fun _ _ => (fence f).bind fun _ _ => give.bind fun _ _ => done
    | strongCount => exact (fence f).bind fun _ _ => done
    | weakCount => exact (fence f).bind fun _ _ => done
    | intoFence =>
      simp only [UrcT.call]
      cases e' : s.fences[f]? with
      | none => rw [M.bind_apply]; simp only [UrcT.fence, e']; trivial
      | some a =>
        cases a with
        | none => rw [M.bind_apply]; simp only [UrcT.fence, e']; trivial
        | some F =>
          rw [M.bind_ok (UrcT.fence_ok e')]
          exact ite (bind (setSome (y := .own t (.fence f)) e rfl rfl) fun _ _ => done) done
    | envelop => exact envelop.bind fun _ _ => done
    | read => exact (fence f).bind fun _ _ => touch.bind fun _ _ => (data _).bind fun _ _ => done
    | isSole => exact (fence f).bind fun _ _ => load.bind fun _ _ => done
    | getMut =>
      refine (fence f).bind fun F s => cas.bind fun r s => ?_
      cases r
      · exact goto
      · exact done
    | makeMut => exact (fence f).bind fun F s => load.bind fun r s => ite goto goto
    | tryUnwrap =>
      refine (fence f).bind fun F s => cas.bind fun r s => ?_
      cases r
      · exact ite goto done
      · exact done
    | drop =>
      refine setNone.bind fun _ _ => dropUrc.bind fun r s => ?_
      cases r
      · exact done
      · exact goto
    | poke x => exact absurd rfl (hp x)
  | weak f m =>
    cases cmd with
    | drop => exact setNone.bind fun _ _ => dropWeak.bind fun r s => ite goto done
    | _ => exact pure _
  | fence f =>
    cases cmd with
    | drop => exact setNone.bind fun _ _ => (freeFence f).bind fun _ _ => done
    | strongCount => exact (fence f).bind fun _ _ => done
    | weakCount => exact (fence f).bind fun _ _ => done
    | _ => exact pure _

theorem step (ch : UrcChoice α) {t : Nat} (op : UrcOp α) :
    UrcFrames t op.writes s (UrcT.step dbg mx ch t op s) := by
  cases op with
  | get1 h f p => exact load.bind fun _ _ => ite goto done
  | get2 h f p => exact store.bind fun _ _ => (fence f).bind fun _ _ => ite goto done
  | held h f p =>
    simp only [UrcT.step]
    cases ch.write with
    | none => exact done
    | some x => exact touch.bind fun _ _ => (data p).bind fun _ _ => put
  | fin p k =>
    refine load.bind fun _ _ => ?_
    cases k with
    | none => exact done
    | some k => exact goto
  | wfin p => exact load.bind fun _ _ => done
  | unw1 h f p =>
    refine touch.bind fun _ _ => (data p).bind fun _ _ => put.bind fun _ _ => (fence f).bind fun _ _ => ?_
    exact (ite ((freeFence f).bind fun _ _ => (fence f).bind fun _ _ => pure _) (pure _)).bind fun _ _ =>
      setNone.bind fun _ _ => done
  | mm1 h f p => exact load.bind fun _ _ => (fence f).bind fun _ _ => ite goto (ite goto goto)
  | mm2 h f p w =>
    refine ite boom (cas.bind fun r s => ?_)
    cases r
    · exact (decWeak f).bind fun _ _ => goto
    · exact goto
  | mv0 h f p => exact touch.bind fun _ _ => (data p).bind fun _ _ => put.bind fun _ _ => goto
  | mv1 h f p x =>
    simp only [UrcT.step]
    cases e : s.fences[f]? with
    | none => rw [M.bind_apply]; simp only [UrcT.fence, e]; trivial
    | some a =>
      cases a with
      | none => rw [M.bind_apply]; simp only [UrcT.fence, e]; trivial
      | some F =>
        rw [M.bind_ok (UrcT.fence_ok e)]
        refine bind (putFence (F' := { F with strong := 0 }) e rfl) fun _ _ => bind store fun _ _ => ?_
        refine ite ?_ (put.bind fun _ _ => boom)
        exact alloc.bind fun _ _ => name.bind fun _ _ => give.bind fun _ _ => setNone.bind fun _ _ =>
          dropUrc.bind fun _ _ => goto
  | mmC h f p => exact touch.bind fun _ _ => (data p).bind fun _ _ => ite boom goto
  | mmA h f p x =>
    refine ite (alloc.bind fun _ _ => name.bind fun _ _ => give.bind fun _ _ => setNone.bind fun _ _ =>
          dropUrc.bind fun r s => ?_) boom
    cases r
    · exact goto
    · exact goto

theorem caught {w : Option Nat} {m : M (UrcSys α) Unit} (h : UrcFrames t w s (m s)) :
    UrcFrames t w s (UrcT.caught t m s) := by
  unfold UrcT.caught
  cases e : m s with
  | panic s' =>
    rw [e] at h
    exact h.trans (UrcSys.Frame.same (m := s'.mem) fun _ h => List.getElem?_set_ne (Ne.symm h))
  | _ => rw [e] at h; exact h

end UrcFrames

/-- The master whose value the action may change. -/
def UrcAct.writes (s : UrcSys α) : UrcAct α → Option Nat
  | .run t _ => match s.threads[t]? with
    | some (some op) => op.writes
    | _ => none
  | _ => none

theorem UrcAct.frame (a : UrcAct α) (he : a.enabled true s = true) (h : a.act dbg mx s = .ok () s') :
    s.Frame a.thread (a.writes s) s' := by
  have key : UrcFrames a.thread (a.writes s) s (a.act dbg mx s) := by
    cases a with
    | new t x => exact UrcFrames.alloc.bind fun _ _ => UrcFrames.give
    | recv t i =>
      simp only [UrcAct.act]
      split
      · rename_i f e
        exact UrcSys.Frame.trans (s1 := { s with hands := s.hands.set i (some (.own t (.urc f))) })
          (UrcFrames.setSome e rfl rfl) (UrcSys.Frame.same fun _ _ => rfl)
      · exact UrcSys.Frame.refl _ _ _
    | call t h cmd ch =>
      simp only [UrcAct.enabled] at he
      split at he
      · rename_i t' k ht e
        simp only [Bool.and_eq_true, beq_iff_eq] at he
        obtain ⟨⟨rfl, h1⟩, h2⟩ := he
        simp only [UrcAct.act, e]
        refine (UrcFrames.call ch e ?_).caught
        rintro x rfl
        simp at h2
      · cases he
    | run t ch =>
      simp only [UrcAct.enabled] at he
      split at he
      · rename_i op ht
        simp only [UrcAct.act, UrcAct.writes, UrcAct.thread, ht]
        exact (UrcFrames.step ch op).caught
      · cases he
  rw [h] at key
  exact key

/-! ## What handles read -/

namespace UrcSys

theorem master_eq {h p : Nat} : s.master h = some p ↔ ∃ x, s.hands[h]? = some (some x) ∧ s.Fen x.fen p := by
  unfold UrcSys.master UrcSys.Fen
  cases s.hands[h]? with
  | none => simp
  | some a =>
    cases a with
    | none => simp
    | some x =>
      simp only [Option.some.injEq, exists_eq_left']
      cases s.fences[x.fen]? with
      | none => simp
      | some b => cases b <;> simp

theorem reads_eq {h p : Nat} {v : α} (hm : s.master h = some p) :
    s.reads h = some v ↔ s.vals[p]? = some (v, true) := by
  unfold UrcSys.reads
  simp only [hm]
  cases s.vals[p]? with
  | none => simp
  | some a =>
    obtain ⟨v', b⟩ := a
    cases b <;> simp

theorem reads_master {h : Nat} {v : α} (h' : s.reads h = some v) :
    ∃ p, s.master h = some p ∧ s.vals[p]? = some (v, true) := by
  cases hm : s.master h with
  | none =>
    unfold UrcSys.reads at h'
    rw [hm] at h'
    cases h'
  | some p => exact ⟨p, rfl, (reads_eq hm).1 h'⟩

theorem reads_congr {h h' p p' : Nat} (hm : s.master h = some p) (hm' : s'.master h' = some p')
    (hv : s'.vals[p']? = s.vals[p]?) : s'.reads h' = s.reads h := by
  unfold UrcSys.reads
  rw [hm, hm']
  simp only [hv]

end UrcSys

namespace UrcTInv

/-- Handles keep their master. -/
theorem master_kept (G : UrcTInv n s) (G' : UrcTInv n' s') {t : Nat} {w : Option Nat} (A : s.Frame t w s')
    {h : Nat} {x x' : UrcHold} (e : s.hands[h]? = some (some x)) (e' : s'.hands[h]? = some (some x')) :
    ∃ p, s.Fen x.fen p ∧ s'.Fen x'.fen p ∧ x.fen = x'.fen ∧ x.strong = x'.strong := by
  obtain ⟨hlt, -⟩ := List.getElem?_eq_some_iff.1 e
  obtain ⟨y, hy, h1, h2⟩ := A.hand h x' hlt e'
  rw [e] at hy
  cases hy
  obtain ⟨p, F', eF', hp⟩ := G'.L.fen h x' e'
  obtain ⟨q, F0, eF0, -⟩ := G.L.fen h x e
  obtain ⟨F, eF, hm⟩ := A.fen x'.fen F' (h1 ▸ (List.getElem?_eq_some_iff.1 eF0).1) eF'
  exact ⟨p, ⟨F, h1 ▸ eF, hm.trans hp⟩, ⟨F', eF', hp⟩, h1, h2⟩

/-- A thread that is about to change a value has the only strong handle of it. -/
theorem writes_only (G : UrcTInv n s) {t p : Nat} {op : UrcOp α} (ht : s.At t op) (hw : op.writes = some p)
    (hf : ∀ ch : UrcChoice α, op.writes = some p → UrcAct.faulty s (.run t ch) = false ∨ ∀ h f, op ≠ .mv0 h f p) :
    ∃ h f, op.hand = some (h, f, p) ∧
      ∀ (h' : Nat) (x : UrcHold), s.hands[h']? = some (some x) → x.strong = true → s.Fen x.fen p → h' = h := by
  have : ∃ h f, op.hand = some (h, f, p) ∧ op.sole = true ∧ (op.only = true ∨ op = .mv0 h f p) := by
    cases op <;> simp [UrcOp.writes] at hw <;> subst hw <;> simp [UrcOp.hand, UrcOp.sole, UrcOp.only]
  obtain ⟨h, f, ho, hs, h1⟩ := this
  refine ⟨h, f, ho, ?_⟩
  have o := G.L.ops t op ht
  have hU : s.nU f = 1 := by
    rcases h1 with h1 | rfl
    · exact o.only h f p ho h1
    · rcases hf {} hw with h2 | h2
      · obtain ⟨F, eF, -, -, -, -, -, h3, -⟩ := G.busy ht rfl
        unfold UrcSys.At at ht
        simp only [UrcAct.faulty, ht, eF, bne_eq_false_iff_eq] at h2
        omega
      · exact absurd rfl (h2 h f)
  intro h' x e hx hF
  have hg := o.sole h f p ho hs _ hF
  by_contra ne
  have : 2 ≤ s.nU f := UrcSys.nU_two (o.own h f p ho) e ne rfl hx rfl hg
  omega

/-- Whoever acts, handles that are not part of what the thread is in the middle of read what they did. -/
theorem reads_kept (G : UrcTInv n s) (G' : UrcTInv n' s') {a : UrcAct α} (he : a.enabled true s = true)
    (hf : a.faulty s = false) (ha : a.act dbg mx s = .ok () s') {h : Nat} {x x' : UrcHold}
    (e : s.hands[h]? = some (some x)) (hs : x.strong = true) (e' : s'.hands[h]? = some (some x'))
    (hh : ∀ op f p, s.At a.thread op → op.hand = some (h, f, p) → op.writes = none) :
    s'.reads h = s.reads h := by
  have A := a.frame he ha
  obtain ⟨p, h1, h2, -, -⟩ := G.master_kept G' A e e'
  refine UrcSys.reads_congr (UrcSys.master_eq.2 ⟨x, e, h1⟩) (UrcSys.master_eq.2 ⟨x', e', h2⟩)
    (A.vals p (G.L.mas _ _ h1) ?_)
  intro hw
  cases a with
  | run t ch =>
    simp only [UrcAct.writes] at hw
    split at hw
    · rename_i op ht
      obtain ⟨h0, f, ho, h3⟩ := G.writes_only (op := op) ht hw fun ch' _ => by
        cases op <;> simp [UrcAct.faulty, ht] at hf ⊢
        exact Or.inl hf
      have := h3 h x e hs h1
      subst this
      have := hh op f p ht ho
      rw [hw] at this
      cases this
    · cases hw
  | _ => cases hw

end UrcTInv
end Lokky
