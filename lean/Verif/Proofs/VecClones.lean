import Verif.Model.HandleClones
import Verif.Proofs.Nested

/-!
# Which elements calls of vectors clone, and in which order
-/

namespace Lokky
open Spec (Event Edit Op Cmd Out)
variable {α : Type} {c : Cfg α}

/-- `ys` are the results of cloning the elements `xs` one by one, beginning with the `k`-th clone. -/
inductive ClonedAt (c : Cfg α) : Nat → List α → List α → Prop
  | nil {k : Nat} : ClonedAt c k [] []
  | cons {k : Nat} {a b : α} {xs ys : List α} : c.clone k a = some b → ClonedAt c (k + 1) xs ys →
      ClonedAt c k (a :: xs) (b :: ys)

theorem ClonedAt.length {k : Nat} {xs ys : List α} (h : ClonedAt c k xs ys) : ys.length = xs.length := by
  induction h <;> simp_all

theorem ClonedAt.spec {k : Nat} {xs ys : List α} (h : ClonedAt c k xs ys) : Spec.Clones c.cloneRel xs ys := by
  induction h with
  | nil => exact .nil
  | cons h _ ih => exact .cons ⟨_, h⟩ ih

/-- The clones of `xs`, beginning with the `k`-th, gave `ys` before one panicked, and the next is the `k'`-th. -/
def ClonedTo (c : Cfg α) (k : Nat) (xs ys : List α) (k' : Nat) : Prop :=
  ∃ pre a post, xs = pre ++ a :: post ∧ ClonedAt c k pre ys ∧ c.clone (k + pre.length) a = none ∧
    k' = k + pre.length + 1

theorem pushClones_at {s : VSt α} {l : List α} (hs : c.size ≠ 0) (h : Rep c s.self s.w l)
    (hw : s.w.WF) (xs : List α) (hc : l.length + xs.length ≤ s.self.cap) :
    Sat c (Vec.pushClones c xs s)
      (fun _ s' => ∃ ys, ClonedAt c s.w.log.calls xs ys ∧ s'.w.log.calls = s.w.log.calls + xs.length ∧
        Trans c (l ++ ys) [] s s' ∧ s'.w.refusals = s.w.refusals ∧ s'.self.cap = s.self.cap)
      (fun s' => ∃ ys, ClonedTo c s.w.log.calls xs ys s'.w.log.calls ∧ Trans c (l ++ ys) [] s s' ∧
        s'.w.refusals = s.w.refusals) := by
  induction xs generalizing s l with
  | nil => exact ⟨[], .nil, rfl, by simpa using Trans.refl h hw, rfl, rfl⟩
  | cons a xs ih =>
    rw [Vec.pushClones]
    simp only [List.length_cons] at hc
    refine Sat.bind' (onLog_sat (cloneVal_spec a s.w.log)) ?_ ?_
    · rintro s' ⟨g, ⟨h1, rfl⟩, rfl⟩
      refine ⟨[], ⟨[], a, xs, rfl, .nil, h1, rfl⟩, ?_, rfl⟩
      have := (Trans.refl h hw).setLog (g := { s.w.log with calls := s.w.log.calls + 1 })
        (d' := []) (by simp)
      simpa using this
    · rintro b s' ⟨g, ⟨h1, rfl⟩, rfl⟩
      have t0 := (Trans.refl h hw).setLog (g := { s.w.log with calls := s.w.log.calls + 1 })
        (d' := []) (by simp)
      obtain ⟨s'', e1, e2, e3, e4⟩ := push_reserved hs t0.rep t0.wf
        (by simp only [St.setLog]; omega) b
      rw [M.bind_ok e1]
      have t1 := t0.trans hw e2.trans
      have hcap : s''.self.cap = s.self.cap := e3
      have hcalls : s''.w.log.calls = s.w.log.calls + 1 := by rw [e2.log]; rfl
      refine (ih e2.trans.rep e2.trans.wf (by simp; omega)).mono ?_ ?_
      · rintro _ s3 ⟨ys, h3, hk, h4, h5, h7⟩
        rw [hcalls] at h3 hk
        refine ⟨b :: ys, .cons h1 h3, by rw [hk, List.length_cons]; omega, ?_, h5.trans e2.refusals, h7.trans hcap⟩
        simpa using t1.trans hw h4
      · rintro s3 ⟨ys, ⟨pre, a', post, rfl, h3, h4, hk⟩, h5, h6⟩
        rw [hcalls] at h3 h4 hk
        refine ⟨b :: ys, ⟨a :: pre, a', post, rfl, .cons h1 h3, ?_, ?_⟩, ?_, h6.trans e2.refusals⟩
        · rw [List.length_cons]
          have : s.w.log.calls + (pre.length + 1) = s.w.log.calls + 1 + pre.length := by omega
          rw [this]; exact h4
        · rw [hk, List.length_cons]; omega
        · simpa using t1.trans hw h5

theorem extendFromSlice_at {s : VSt α} {l : List α} (hs : c.size ≠ 0) (h : Rep c s.self s.w l)
    (hw : s.w.WF) (xs : List α) (hf : c.Fits (l.length + xs.length)) :
    Sat c (Vec.extendFromSlice c xs s)
      (fun _ s' => ∃ ys, ClonedAt c s.w.log.calls xs ys ∧ s'.w.log.calls = s.w.log.calls + xs.length ∧
        Trans c (l ++ ys) [] s s' ∧ s'.w.refusals = s.w.refusals)
      (fun s' => s' = s.refuse ∨
        (∃ ys, ClonedTo c s.w.log.calls xs ys s'.w.log.calls ∧ Trans c (l ++ ys) [] s s' ∧
          s'.w.refusals = s.w.refusals)) := by
  unfold Vec.extendFromSlice
  refine Sat.bind' (reserveExact_spec hs h hw hf) ?_ ?_
  · rintro s' h1; exact Or.inl h1.1
  · rintro _ s' ⟨h1, h2, _⟩
    refine (pushClones_at hs h1.trans.rep h1.trans.wf xs (by omega)).mono ?_ ?_
    · rintro _ s3 ⟨ys, h3, hk, h4, h5, h7⟩
      rw [h1.log] at h3 hk
      exact ⟨ys, h3, hk, h1.trans.trans hw h4, h5.trans h1.refusals⟩
    · rintro s3 ⟨ys, h3, h5, h6⟩
      rw [h1.log] at h3
      exact Or.inr ⟨ys, h3, h1.trans.trans hw h5, h6.trans h1.refusals⟩

theorem resize_at {s : VSt α} {l : List α} (hs : c.size ≠ 0) (hd : ∀ a, c.dropPanics a = false)
    (h : Rep c s.self s.w l) (hw : s.w.WF) (k : Nat) (a : α) (hlt : l.length < k) (hf : c.Fits k) :
    Sat c (Vec.resize c k a s)
      (fun _ s' => ∃ ys, ClonedAt c s.w.log.calls (List.replicate (k - l.length - 1) a) ys ∧
        s'.w.log.calls = s.w.log.calls + (k - l.length - 1) ∧ Trans c (l ++ ys ++ [a]) [] s s' ∧
        s'.w.refusals = s.w.refusals)
      (fun s' => (s'.w.log.calls = s.w.log.calls ∧ Trans c l [a] s s' ∧ s'.w.refusals = s.w.refusals + 1) ∨
        (∃ ys, ClonedTo c s.w.log.calls (List.replicate (k - l.length - 1) a) ys s'.w.log.calls ∧
          Trans c (l ++ ys) [a] s s' ∧ s'.w.refusals = s.w.refusals)) := by
  unfold Vec.resize
  rw [M.bind_ok (M.get_apply s), h.len, if_neg (by omega)]
  have hsum : l.length + (k - l.length) = k := by omega
  refine Sat.bind (Q := fun _ s' => s'.w.refusals = s.w.refusals ∧ k ≤ s'.self.cap ∧
    ∃ ys, ClonedAt c s.w.log.calls (List.replicate (k - l.length - 1) a) ys ∧
      s'.w.log.calls = s.w.log.calls + (k - l.length - 1) ∧ Trans c (l ++ ys) [] s s') ?_ ?_
  · refine Sat.onUnwind (Q := fun _ s' => s'.w.refusals = s.w.refusals ∧ k ≤ s'.self.cap ∧
        ∃ ys, ClonedAt c s.w.log.calls (List.replicate (k - l.length - 1) a) ys ∧
          s'.w.log.calls = s.w.log.calls + (k - l.length - 1) ∧ Trans c (l ++ ys) [] s s')
      (E' := fun s' => s' = s.refuse ∨ (∃ ys,
        ClonedTo c s.w.log.calls (List.replicate (k - l.length - 1) a) ys s'.w.log.calls ∧
        Trans c (l ++ ys) [] s s' ∧ s'.w.refusals = s.w.refusals)) ?_ ?_
    · refine Sat.bind' (reserveExact_spec hs h hw (by rw [hsum]; exact hf)) ?_ ?_
      · rintro s' ⟨h1, _⟩; exact Or.inl h1
      · rintro _ s' ⟨h1, h2, _⟩
        rw [pushCopies_eq]
        refine (pushClones_at hs h1.trans.rep h1.trans.wf _ (by simp; omega)).mono ?_ ?_
        · rintro _ s3 ⟨ys, h3, hk, h4, h5, h7⟩
          rw [h1.log] at h3 hk
          rw [List.length_replicate] at hk
          exact ⟨h5.trans h1.refusals, by omega, ys, h3, hk, h1.trans.trans hw h4⟩
        · rintro s3 ⟨ys, h3, h5, h6⟩
          rw [h1.log] at h3
          exact Or.inr ⟨ys, h3, h1.trans.trans hw h5, h6.trans h1.refusals⟩
    · rintro s' (rfl | ⟨ys, h1, h2, h3⟩)
      · refine (Trans.dropVal a (Trans.refuse h hw)).mono ?_ (fun _ h => ⟨_, h.2.2⟩)
        rintro _ s'' ⟨h4, rfl, _⟩
        exact Or.inl ⟨rfl, h4, rfl⟩
      · refine (Trans.dropVal a h2).mono ?_ (fun _ h => ⟨_, h.2.2⟩)
        rintro _ s'' ⟨h6, rfl, _⟩
        exact Or.inr ⟨ys, h1, h6, h3⟩
  · rintro _ s' ⟨h1, h2, ys, h3, hk, h4⟩
    have hy := h3.length
    simp only [List.length_replicate] at hy
    obtain ⟨s'', e1, e2, e3, e4⟩ := push_reserved hs h4.rep h4.wf (by simp; omega) a
    rw [e1]
    exact ⟨ys, h3, by rw [e2.log]; exact hk, h4.trans hw e2.trans, e2.refusals.trans h1⟩

theorem cloneFrom_at {w : World α} (hs : c.size ≠ 0) (hd : ∀ a, c.dropPanics a = false) (hw : w.WF) (l : List α)
    (hf : c.Fits l.length) :
    Sat c (Vec.cloneFrom c l w)
      (fun v w' => ∃ ys, ClonedAt c w.log.calls l ys ∧ w'.log.calls = w.log.calls + l.length ∧
        Made c ys [] w v w' ∧ w'.refusals = w.refusals)
      (fun w' => (w'.log.calls = w.log.calls ∧ Clean [] w w' ∧ w'.refusals = w.refusals + 1) ∨
        (∃ ys, ClonedTo c w.log.calls l ys w'.log.calls ∧ Clean ys w w' ∧ w'.refusals = w.refusals)) := by
  unfold Vec.cloneFrom
  rw [M.bind_ok (new_eq w)]
  have hex := extendFromSlice_at (s := ⟨emptyVec w, w⟩) hs (emptyVec_rep w) hw l (by simpa using hf)
  refine Sat.bind' (Q := fun r w' => ∃ ys, ClonedAt c w.log.calls l ys ∧ w'.log.calls = w.log.calls + l.length ∧
        Made c ys [] w r.2 w' ∧ w'.refusals = w.refusals) (E := fun w' =>
      (w'.log.calls = w.log.calls ∧ Clean [] w w' ∧ w'.refusals = w.refusals + 1) ∨
        (∃ ys, ClonedTo c w.log.calls l ys w'.log.calls ∧ Clean ys w w' ∧ w'.refusals = w.refusals)) ?_
    (fun _ h => h) (fun r w' h => by obtain ⟨u, v⟩ := r; exact h)
  unfold withLocal
  cases hr : Vec.extendFromSlice c l ⟨emptyVec w, w⟩ with
  | ok u s' =>
    rw [hr] at hex
    obtain ⟨ys, h1, h2, h3, h4⟩ := hex
    rw [M.onUnwind_ok hr]
    exact ⟨ys, h1, h2, Trans.made (by simpa using h3), h4⟩
  | panic s' =>
    rw [hr] at hex
    have key : ∀ l', Rep c s'.self s'.w l' → ∃ v,
        (Vec.extendFromSlice c l).onUnwind (Vec.drop c) ⟨emptyVec w, w⟩ =
          .panic ⟨v, (s'.w.free s'.self.ptr).addDrops l'⟩ := by
      intro l' hl'
      obtain ⟨v, e, _⟩ := drop_spec_ok hs hl' (fun a _ => hd a)
      exact ⟨v, by simp only [M.onUnwind, hr, e]⟩
    have clean : ∀ l', Made c l' [] w s'.self s'.w → Clean l' w ((s'.w.free s'.self.ptr).addDrops l') := by
      intro l' hl'
      obtain ⟨v, e, _⟩ := drop_spec_ok hs hl'.rep (fun a _ => hd a)
      have := hl'.drop hs hw
      rw [e] at this
      simpa using this.1
    rcases hex with rfl | ⟨ys, h1, h2, h3⟩
    · have hm := Trans.made (Trans.refuse (emptyVec_rep (c := c) w) hw)
      obtain ⟨v, e⟩ := key [] hm.rep
      rw [e]
      exact Or.inl ⟨rfl, clean [] hm, rfl⟩
    · have hm : Made c ys [] w s'.self s'.w := Trans.made (by simpa using h2)
      obtain ⟨v, e⟩ := key ys hm.rep
      rw [e]
      exact Or.inr ⟨ys, h1, clean ys hm, h3⟩
  | abort => rw [hr] at hex; simp only [M.onUnwind, hr]; exact hex
  | ub u => rw [hr] at hex; exact hex.elim

/-- The clones of `xs`, beginning with the `k`-th, gave `ys`; the last of them may have panicked. -/
def Ran (c : Cfg α) (k : Nat) (xs ys : List α) : Prop :=
  ClonedAt c k xs ys ∨ ∃ pre a, xs = pre ++ [a] ∧ ClonedAt c k pre ys ∧ c.clone (k + pre.length) a = none

theorem ClonedAt.ran {k k' : Nat} {xs ys : List α} (h : ClonedAt c k xs ys) (hk : k' = k + xs.length) :
    Ran c k (xs.take (k' - k)) ys := by
  rw [show k' - k = xs.length by omega, List.take_length]
  exact .inl h

theorem ClonedTo.ran {k k' : Nat} {xs ys : List α} (h : ClonedTo c k xs ys k') : Ran c k (xs.take (k' - k)) ys := by
  obtain ⟨pre, a, post, rfl, h1, h2, rfl⟩ := h
  refine .inr ⟨pre, a, ?_, h1, h2⟩
  rw [show k + pre.length + 1 - k = pre.length + 1 by omega, List.take_length_add_append]
  simp

/-- A call follows the specification; the elements it made are clones of the sources, in order. -/
def CmdAt (c : Cfg α) (cmd : Cmd α) (L : Spec.Lists α) (P : Pool α) (out : Option (Out α)) (P' : Pool α) : Prop :=
  ∃ L' made dropped, Spec.Step c.cloneRel cmd ⟨out, P'.w.refusals != P.w.refusals⟩ L L' made dropped ∧
    PInv c P' L' ∧ P'.w.log.drops = P.w.log.drops ++ dropped ∧
    Ran c P.w.log.calls ((cmd.sources L).take (P'.w.log.calls - P.w.log.calls)) made

theorem CmdAt.of {cmd : Cmd α} {L L' : Spec.Lists α} {made dropped : List α} {P P' : Pool α}
    {out : Option (Out α)} {b : Bool} (hr : (P'.w.refusals != P.w.refusals) = b)
    (he : Spec.Step c.cloneRel cmd ⟨out, b⟩ L L' made dropped) (hp : PInv c P' L')
    (hd : P'.w.log.drops = P.w.log.drops ++ dropped)
    (hm : Ran c P.w.log.calls ((cmd.sources L).take (P'.w.log.calls - P.w.log.calls)) made) :
    CmdAt c cmd L P out P' := ⟨L', made, dropped, hr ▸ he, hp, hd, hm⟩

theorem bne_same {a b : Nat} (h : a = b) : (a != b) = false := by simp [h]
theorem bne_succ {a b : Nat} (h : a = b + 1) : (a != b) = true := by simp [h]

theorem Spec.Cmd.sources_plain {L : Spec.Lists α} {cmd : Cmd α} (h : cmd.Plain) : cmd.sources L = [] := by
  cases cmd with
  | clone x => exact h.elim
  | on x o => cases o <;> first | rfl | exact h.elim
  | _ => rfl

theorem runCmd_at {P : Pool α} {L : Spec.Lists α} (hs : c.size ≠ 0)
    (hd : ∀ a, c.dropPanics a = false) (h : PInv c P L) (cmd : Cmd α) (hl : cmd.Legal c P) (hn : cmd.CopiesOnly) :
    Sat c (runCmd c cmd P) (fun out P' => CmdAt c cmd L P (some out) P')
      (fun P' => CmdAt c cmd L P none P') := by
  have none' : ∀ {k : Nat} {d : Nat}, Ran c k (([] : List α).take d) [] := fun {k d} => by
    rw [List.take_nil]; exact .inl .nil
  by_cases hp : cmd.Plain
  · refine (runCmd_spec hs hd h cmd hl).mono ?_ ?_
    · rintro o P' ⟨L', made, dropped, h1, h2, h3⟩
      have := h1.plain hp
      subst this
      exact ⟨L', [], dropped, h1, h2, h3, by rw [Spec.Cmd.sources_plain hp]; exact none'⟩
    · rintro P' ⟨L', made, dropped, h1, h2, h3⟩
      have := h1.plain hp
      subst this
      exact ⟨L', [], dropped, h1, h2, h3, by rw [Spec.Cmd.sources_plain hp]; exact none'⟩
  cases cmd with
  | clone x =>
    obtain ⟨v, hx⟩ := hl
    obtain ⟨l, hL, hv⟩ := h.rep x v hx
    have e : onVecs x (Vec.asSlice c) [] P = .ok l P := by
      simp only [onVecs, hx, asSlice_spec (s := ⟨v, P.w⟩) hs hv, set_self hx]
    have hsrc : (Cmd.clone x).sources L = l := by simp [Spec.Cmd.sources, hL]
    show Sat c ((onVecs x (Vec.asSlice c) [] >>= fun l => creating (Vec.cloneFrom c l)) P) _ _
    rw [M.bind_ok e]
    have hfit : c.Fits l.length := by
      have h1 := hv.fits
      have h2 := hv.le_cap
      unfold Cfg.Fits at h1 ⊢
      exact Nat.le_trans (Nat.mul_le_mul_right _ h2) h1
    refine creating_sat ((cloneFrom_at hs hd h.wf l hfit).mono ?_ ?_)
    · rintro v' w' ⟨ys, h1, hk, h2, h3⟩
      exact .of (bne_same h3) (.clone x l ys L hL h1.spec) (h.add h2) h2.drops (by rw [hsrc]; exact h1.ran hk)
    · rintro w' (⟨hk, h1, h2⟩ | ⟨ys, h1, h4, h5⟩)
      · refine .of (bne_succ h2) (.cloneRefused x L) (h.clean h1) h1.drops ?_
        rw [show w'.log.calls = P.w.log.calls from hk, Nat.sub_self]
        exact .inl .nil
      · obtain ⟨pre, a, post, rfl, k1, k2, k3⟩ := id h1
        exact .of (bne_same h5) (.clonePanic x pre a post ys L hL k1.spec ⟨_, k2⟩) (h.clean h4) h4.drops
          (by rw [hsrc]; exact h1.ran)
  | on x o =>
    obtain ⟨v, hx, ho⟩ := hl
    obtain ⟨l, hL, hv⟩ := h.rep x v hx
    have key : ∀ (o : Op α) (b : Bool) {l' made dropped} {out : Option (Out α)} {s' : VSt α},
        (s'.w.refusals != P.w.refusals) = b →
        Edit c.cloneRel o ⟨out, b⟩ l l' made dropped →
        Trans c l' dropped ⟨v, P.w⟩ s' →
        Ran c P.w.log.calls (((Cmd.on x o).sources L).take (s'.w.log.calls - P.w.log.calls)) made →
        CmdAt c (.on x o) L P out ⟨P.vecs.set x (some s'.self), s'.w⟩ := by
      intro o b l' made dropped out s' hb he ht hr
      exact .of hb (.on x o _ l l' made dropped L hL he) (h.update hx ht) ht.drops hr
    cases o with
    | extendFromSlice xs =>
      refine onVecs_sat hx (quiet_sat (Q := fun out (s' : VSt α) => CmdAt c (.on x (.extendFromSlice xs)) L P out
        ⟨P.vecs.set x (some s'.self), s'.w⟩)
        ((extendFromSlice_at (s := ⟨v, P.w⟩) hs hv h.wf xs (by rw [← hv.len]; exact ho)).mono ?_ ?_))
      · rintro _ s' ⟨ys, h1, hk, h2, h3⟩
        exact key _ _ (bne_same h3) (.extendFromSlice xs ys l h1.spec) h2 (h1.ran hk)
      · rintro s' (rfl | ⟨ys, h1, h2, h3⟩)
        · refine key _ _ (bne_succ rfl) (.extendFromSliceRefused xs l) (Trans.refuse hv h.wf) ?_
          rw [show (St.refuse ⟨v, P.w⟩ : VSt α).w.log.calls = P.w.log.calls from rfl, Nat.sub_self]
          exact .inl .nil
        · obtain ⟨pre, a, post, rfl, k1, k2, k3⟩ := id h1
          exact key _ _ (bne_same h3) (.extendFromSlicePanic pre a post ys l k1.spec ⟨_, k2⟩) h2 h1.ran
    | resize k a =>
      have hsrc : (Cmd.on x (.resize k a)).sources L = List.replicate (k - l.length - 1) a := by
        simp [Spec.Cmd.sources, hL]
      by_cases hlt : l.length < k
      · refine onVecs_sat hx (quiet_sat (Q := fun out (s' : VSt α) => CmdAt c (.on x (.resize k a)) L P out
          ⟨P.vecs.set x (some s'.self), s'.w⟩)
          ((resize_at (s := ⟨v, P.w⟩) hs hd hv h.wf k a hlt (ho (by rw [hv.len]; exact hlt))).mono ?_ ?_))
        · rintro _ s' ⟨ys, h1, hk, h2, h3⟩
          refine key _ _ (bne_same h3) (.resizeUp k a ys l hlt h1.spec) h2 ?_
          rw [hsrc]
          exact h1.ran (by rw [List.length_replicate]; exact hk)
        · rintro s' (⟨hk, h1, h2⟩ | ⟨ys, h1, h2, h3⟩)
          · refine key _ _ (bne_succ h2) (.resizeRefused k a l hlt) h1 ?_
            rw [show s'.w.log.calls = P.w.log.calls from hk, Nat.sub_self]
            exact .inl .nil
          · obtain ⟨pre, b, post, hrep, k1, k2, k3⟩ := id h1
            have hb : b = a := List.eq_of_mem_replicate (hrep ▸ (by simp) : b ∈ List.replicate (k - l.length - 1) a)
            have hlen := congrArg List.length hrep
            simp only [List.length_replicate, List.length_append, List.length_cons] at hlen
            have hpre : pre = List.replicate pre.length a := by
              refine List.eq_replicate_iff.mpr ⟨rfl, fun y hy => ?_⟩
              exact List.eq_of_mem_replicate (hrep ▸ (by simp [hy]) : y ∈ List.replicate (k - l.length - 1) a)
            subst hb
            have k1' := k1.spec
            rw [hpre] at k1'
            refine key _ _ (bne_same h3) (.resizePanic k b pre.length ys l (by omega) k1' ⟨_, k2⟩) h2 ?_
            rw [hsrc]; exact h1.ran
      · have hdown : Sat c (runCmd c (.on x (.resize k a)) P) (fun o P' => CmdOk c (.on x (.resize k a)) L P (some o) P')
            (fun P' => CmdOk c (.on x (.resize k a)) L P none P') := runCmd_spec hs hd h _ ⟨v, hx, ho⟩
        have nil : ∀ {ev L' made dropped}, Spec.Step c.cloneRel (.on x (.resize k a)) ev L L' made dropped → made = [] := by
          intro ev L' made dropped hst
          cases hst with
          | on _ _ _ l1 _ _ _ _ hL1 he =>
            rw [hL] at hL1; cases hL1
            cases he <;> first | rfl | omega
        have hz : (Cmd.on x (.resize k a)).sources L = [] := by
          rw [hsrc, show k - l.length - 1 = 0 by omega]; rfl
        refine hdown.mono ?_ ?_
        · rintro o P' ⟨L', made, dropped, h1, h2, h3⟩
          have := nil h1
          subst this
          exact ⟨L', [], dropped, h1, h2, h3, by rw [hz]; exact none'⟩
        · rintro P' ⟨L', made, dropped, h1, h2, h3⟩
          have := nil h1
          subst this
          exact ⟨L', [], dropped, h1, h2, h3, by rw [hz]; exact none'⟩
    | resizeWith k f => exact hn.elim
    | _ => exact (hp trivial).elim
  | _ => exact (hp trivial).elim

end Lokky
