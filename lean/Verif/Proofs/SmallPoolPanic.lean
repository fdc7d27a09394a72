import Verif.Proofs.SmallPool
import Verif.Proofs.SmallConserve
import Verif.Proofs.VecPoolPanic
import Verif.Model.SmallPoolPanic
import Verif.Spec.SmallPanic

/-!
# Pools of small vectors when destructors may panic
-/

namespace Lokky.Spec
variable {α : Type} {cl : CloneRel α} {dp : α → Prop}

theorem SEditP.conserve {o : Op α} {ev : Event α} {l l' made dropped leaked : List α} {x : Nat}
    (h : SEditP cl dp o ev l l' made dropped leaked) :
    (o.given ++ made ++ l).Perm (dropped ++ taken (.on x o) ev ++ l' ++ leaked) := by
  cases h with
  | edit h => simpa using h.conserve (x := x)
  | late h => simpa using h.conserve (x := x)
  | clear ys a zs _ _ => simp [Op.given, taken]

theorem SStepP.conserve {cmd : SCmd α} {ev : Event α} {L L' : Lists α} {made dropped leaked : List α}
    (h : SStepP cl dp cmd ev L L' made dropped leaked) :
    (cmd.given ++ made ++ Lists.contents L).Perm
      (dropped ++ cmd.taken ev ++ Lists.contents L' ++ leaked) := by
  classical
  cases h with
  | step h => simpa using h.conserve
  | on x o _ l l' _ _ _ _ hx he =>
    have h1 := he.conserve (x := x)
    refine perm_of_count fun a => ?_
    have h2 := List.perm_iff_count.mp h1 a
    have h3 := contents_set hx (some l') a
    simp only [SCmd.given, SCmd.taken, List.count_append, Option.getD_some] at h2 h3 ⊢
    omega
  | drop x ys b zs _ hx _ _ =>
    refine perm_of_count fun a => ?_
    have h3 := contents_set hx none a
    simp only [SCmd.given, SCmd.taken, List.count_append, Option.getD_none, List.nil_append,
      List.count_nil, List.count_cons] at h3 ⊢
    omega

theorem SRunsP.conserve {h : SHistory α} {L : Lists α} {made dropped leaked : List α}
    (hr : SRunsP cl dp h L made dropped leaked) :
    (h.given ++ made).Perm (dropped ++ h.taken ++ Lists.contents L ++ leaked) := by
  classical
  induction hr with
  | start => simp [SHistory.given, SHistory.taken, Lists.contents]
  | step _ hs ih =>
    refine perm_of_count fun a => ?_
    have h1 := List.perm_iff_count.mp ih a
    have h2 := List.perm_iff_count.mp hs.conserve a
    simp only [SHistory.given, SHistory.taken, List.flatMap_append, List.flatMap_cons,
      List.flatMap_nil, List.count_append, List.append_nil] at h1 h2 ⊢
    omega

end Lokky.Spec

namespace Lokky
open Spec (Event Edit EditP SEditP Late Op SCmd Out)
variable {α : Type} {c : Cfg α}

/-- A call on a small vector with contents `l` is allowed by the specification with panicking destructors. -/
def SOpOkP (c : Cfg α) (o : Op α) (l : List α) (s : SSt α) (out : Option (Out α)) (s' : SSt α) : Prop :=
  ∃ l' made dropped leaked,
    SEditP c.cloneRel c.dropRel o ⟨out, s'.w.refusals != s.w.refusals⟩ l l' made dropped leaked ∧
    STrans c l' dropped s s'

theorem SOpOkP.same {o : Op α} {l l' made dropped leaked : List α} {s s' : SSt α} {out : Option (Out α)}
    (hr : s'.w.refusals = s.w.refusals)
    (he : SEditP c.cloneRel c.dropRel o ⟨out, false⟩ l l' made dropped leaked)
    (ht : STrans c l' dropped s s') : SOpOkP c o l s out s' := by
  refine ⟨l', made, dropped, leaked, ?_, ht⟩
  have : (s'.w.refusals != s.w.refusals) = false := by simp [hr]
  rw [this]; exact he

theorem SOpOk.panics {o : Op α} {l : List α} {s s' : SSt α} {out : Option (Out α)} (h : SOpOk c o l s out s') :
    SOpOkP c o l s out s' := by
  obtain ⟨l', made, dropped, (h1 | ⟨h1, h2⟩), h3⟩ := h
  · exact ⟨l', made, dropped, [], .edit (.edit h1), h3⟩
  · exact ⟨l', made, dropped, [], by rw [h1]; exact .late h2, h3⟩

theorem not_dropRel {ys : List α} (h : ∀ y ∈ ys, c.dropPanics y = false) : ∀ y ∈ ys, ¬ c.dropRel y := by
  intro y hy hp
  have := h y hy
  unfold Cfg.dropRel at hp
  rw [hp] at this; cases this

theorem runSOp_panics {s : SSt α} {l : List α} (hs : c.size ≠ 0)
    (h : SRep c s.self s.w l) (hw : s.w.WF) (o : Op α) (ho : o.SLegal c s.self)
    (hc : o = .clear → Small.isHeap s.self = true → ∀ a ∈ l, c.dropPanics a = false) :
    Sat c (runSOp c o s) (fun out s' => SOpOkP c o l s (some out) s')
      (fun s' => SOpOkP c o l s none s') := by
  by_cases hdo : o.destroys = false
  · refine (runSOp_spec hs o (fun e => by rw [hdo] at e; cases e) h hw ho).mono
      (fun _ _ h => h.panics) (fun _ h => h.panics)
  have hlen := h.lenOf
  cases o with
  | truncate k =>
    unfold Op.SLegal at ho
    rw [hlen] at ho
    refine quiet_sat ((struncate_spec hs h hw k ho).mono ?_ ?_)
    · rintro _ s' ⟨h1, h2⟩
      exact (SOpOk.same h2 (.truncate k l) h1).panics
    · rintro s' ⟨h1, h2, h5⟩
      exact .same h2 (.edit (.truncate k l h5)) h1
  | clear =>
    refine quiet_sat ((sclear_spec hs h hw).mono ?_ ?_)
    · rintro _ s' ⟨h1, h2⟩
      exact (SOpOk.same h2 (.clear l) h1).panics
    · rintro s' ⟨ys, a, zs, rfl, h2, h3, h4, h5⟩
      cases hh : Small.isHeap s.self with
      | true =>
        have := hc rfl hh a (by simp)
        rw [h2] at this; cases this
      | false =>
        rw [hh] at h3
        exact .same h4 (.clear ys a zs h2 (not_dropRel h5)) h3
  | resize k a =>
    unfold Op.SLegal at ho
    rw [hlen] at ho
    refine quiet_sat ((sresize_spec hs h hw k a ?_ ho.2).mono ?_ ?_)
    · intro hst
      obtain ⟨h1, h2⟩ := ho.1 hst
      refine ⟨h1, fun hk => ?_⟩
      rw [extra_stack hst, show s.self.n + (k - s.self.n) = k by omega]
      exact h2 hk
    · rintro _ s' ⟨h1, (⟨h2, h3⟩ | ⟨h2, ys, h3, h4⟩)⟩
      · exact (SOpOk.same h1 (.resizeDown k a l h2) h3).panics
      · exact (SOpOk.same h1 (.resizeUp k a ys l h2 h3.spec) h4).panics
    · rintro s' (⟨h0, h3, h4, h5⟩ | ⟨h2, h3⟩ | ⟨h1, h2, m, ys, h3, h4, ⟨j, h5⟩, h6⟩)
      · exact .same h4 (.edit (.resizeDown k a l h0 h5)) h3
      · by_cases hk : l.length < k
        · exact (SOpOk.refused h2 (.resizeRefused k a l hk) h3).panics
        · exact (SOpOk.late h2 (.resizeDown k a l (by omega)) h3).panics
      · exact (SOpOk.same h2 (.resizePanic k a m ys l h3 h4.spec ⟨j, h5⟩) h6).panics
  | resizeWith k f =>
    unfold Op.SLegal at ho
    rw [hlen] at ho
    refine quiet_sat ((sresizeWith_spec hs h hw f k ho.1 ho.2).mono ?_ ?_)
    · rintro _ s' ⟨h1, (⟨h2, h3⟩ | ⟨h2, ys, h3, h4⟩)⟩
      · exact (SOpOk.same h1 (.resizeWithDown k f l h2) h3).panics
      · exact (SOpOk.same h1 (.resizeWithUp k f ys l h2 h3) h4).panics
    · rintro s' (⟨h0, h3, h4, h5⟩ | ⟨h1, rfl⟩ | ⟨h1, h2, m, ys, h3, h4, h5, h6⟩)
      · exact .same h4 (.edit (.resizeWithDown k f l h0 h5)) h3
      · exact (SOpOk.refused rfl (.resizeWithRefused k f l h1) (STrans.refuse h hw)).panics
      · exact (SOpOk.same h2 (.resizeWithPanic k f m ys l h3 h4 h5) h6).panics
  | set i a =>
    refine quiet_sat ((sindexSet_spec hs h hw i a).mono ?_ ?_)
    · rintro _ s' ⟨hi, h1, h2⟩
      exact (SOpOk.same h2 (.set i a l hi) h1).panics
    · rintro s' ⟨h3, (⟨h1, h2⟩ | ⟨hi, h1, h2⟩)⟩
      · exact (SOpOk.same h3 (.setBad i a l h1) h2).panics
      · exact .same h3 (.edit (.set i a l hi h2)) h1
  | _ => exact absurd rfl hdo

/-! ## The pool invariant -/

/-- The pool holds the lists `L`. Beside the vectors of the pool there are those whose destruction was cut short by
a panic (`lost`): `G` holds both, and the lists `K` are what their memory shows. -/
structure SGInv (c : Cfg α) (P : SPool α) (L : Spec.Lists α) (lost : List Nat) (G : List (Option (SmallH α)))
    (K : Spec.Lists α) : Prop where
  inv : SPInv c ⟨G, P.w⟩ K
  len : P.vecs.length = G.length
  lenL : L.length = K.length
  sub : ∀ (x : Nat) (v : SmallH α), P.vecs[x]? = some (some v) → G[x]? = some (some v) ∧ L[x]? = K[x]?
  gone : ∀ x : Nat, P.vecs[x]? = some none → L[x]? = some none
  extra : ∀ (x : Nat) (v : SmallH α), G[x]? = some (some v) → P.vecs[x]? = some (some v) ∨ x ∈ lost

variable {P : SPool α} {L K : Spec.Lists α} {lost : List Nat} {G : List (Option (SmallH α))}

theorem SGInv.rep (h : SGInv c P L lost G K) {x : Nat} {v : SmallH α} (hx : P.vecs[x]? = some (some v)) :
    ∃ l, L[x]? = some (some l) ∧ K[x]? = some (some l) ∧ SRep c v P.w l := by
  obtain ⟨h1, h2⟩ := h.sub x v hx
  obtain ⟨l, h3, h4⟩ := h.inv.rep x v h1
  exact ⟨l, h2.trans h3, h3, h4⟩

/-- Changing vector `x` in the pool. -/
theorem SGInv.change (h : SGInv c P L lost G K) {x : Nat} {v v' : SmallH α} {l' : List α} {w' : World α}
    (hx : P.vecs[x]? = some (some v)) (hi : SPInv c ⟨G.set x (some v'), w'⟩ (K.set x (some l'))) :
    SGInv c ⟨P.vecs.set x (some v'), w'⟩ (L.set x (some l')) lost (G.set x (some v')) (K.set x (some l')) := by
  have hxl := get_lt hx
  refine ⟨hi, by simp [h.len], by simp [h.lenL], ?_, ?_, ?_⟩
  · intro y u hy
    rcases set_get hy with ⟨rfl, e, _⟩ | ⟨hne, hy⟩
    · cases e
      obtain ⟨l, h1, h2, _⟩ := h.rep hx
      simp [← h.len, hxl, get_lt h1, get_lt h2]
    · simp only [List.getElem?_set_ne hne]
      exact h.sub y u hy
  · intro y hy
    rcases set_get hy with ⟨rfl, e, _⟩ | ⟨hne, hy⟩
    · cases e
    · rw [List.getElem?_set_ne hne]; exact h.gone y hy
  · intro y u hy
    rcases set_get hy with ⟨rfl, e, _⟩ | ⟨hne, hy⟩
    · cases e
      exact Or.inl (by simp [hxl])
    · simp only [List.getElem?_set_ne hne]
      exact h.extra y u hy

theorem SGInv.update (h : SGInv c P L lost G K) {x : Nat} {v : SmallH α} (hx : P.vecs[x]? = some (some v))
    {l' d : List α} {s' : SSt α} (ht : STrans c l' d ⟨v, P.w⟩ s') :
    SGInv c ⟨P.vecs.set x (some s'.self), s'.w⟩ (L.set x (some l')) lost (G.set x (some s'.self))
      (K.set x (some l')) :=
  h.change hx (h.inv.update (h.sub x v hx).1 ht)

theorem SGInv.add (h : SGInv c P L lost G K) {v : SmallH α} {l d : List α} {w' : World α}
    (hm : SMade c l d P.w v w') :
    SGInv c ⟨P.vecs ++ [some v], w'⟩ (L ++ [some l]) lost (G ++ [some v]) (K ++ [some l]) := by
  refine ⟨h.inv.add hm, by simp [h.len], by simp [h.lenL], ?_, ?_, ?_⟩
  · intro y u hy
    rcases getElem?_snoc hy with hy | ⟨rfl, e⟩
    · obtain ⟨h1, h2⟩ := h.sub y u hy
      obtain ⟨l', h3, h4, _⟩ := h.rep hy
      rw [List.getElem?_append_left (get_lt h1), List.getElem?_append_left (get_lt h3),
        List.getElem?_append_left (get_lt h4)]
      exact ⟨h1, h2⟩
    · cases e
      have h1 := h.inv.len
      have h2 := h.lenL
      simp only [] at h1
      refine ⟨by rw [h.len]; simp, ?_⟩
      rw [h.len, h1, ← h2]
      simp [h2]
  · intro y hy
    rcases getElem?_snoc hy with hy | ⟨rfl, e⟩
    · have := h.gone y hy
      rw [List.getElem?_append_left (get_lt this)]; exact this
    · cases e
  · intro y u hy
    rcases getElem?_snoc hy with hy | ⟨rfl, e⟩
    · refine (h.extra y u hy).imp_left fun h1 => ?_
      simp only [List.getElem?_append_left (get_lt h1)]; exact h1
    · cases e
      exact Or.inl (by simp [← h.len])

theorem SGInv.clean (h : SGInv c P L lost G K) {d : List α} {w' : World α} (hm : Clean d P.w w') :
    SGInv c ⟨P.vecs, w'⟩ L lost G K :=
  ⟨h.inv.clean hm, h.len, h.lenL, h.sub, h.gone, h.extra⟩

theorem SGInv.remove (h : SGInv c P L lost G K) {x : Nat} {v : SmallH α} (hx : P.vecs[x]? = some (some v))
    (d : List α) :
    SGInv c ⟨P.vecs.set x none, (P.w.free v.ptr).addDrops d⟩ (L.set x none) lost (G.set x none)
      (K.set x none) := by
  refine ⟨h.inv.remove (h.sub x v hx).1 d, by simp [h.len], by simp [h.lenL], ?_, ?_, ?_⟩
  · intro y u hy
    rcases set_get hy with ⟨rfl, e, _⟩ | ⟨hne, hy⟩
    · cases e
    · simp only [List.getElem?_set_ne hne]
      exact h.sub y u hy
  · intro y hy
    rcases set_get hy with ⟨rfl, _, _⟩ | ⟨hne, hy⟩
    · obtain ⟨l, h1, _⟩ := h.rep hx
      simp [get_lt h1]
    · rw [List.getElem?_set_ne hne]; exact h.gone y hy
  · intro y u hy
    rcases set_get hy with ⟨rfl, e, _⟩ | ⟨hne, hy⟩
    · cases e
    · simp only [List.getElem?_set_ne hne]
      exact h.extra y u hy

/-- The destruction of vector `x` was cut short. -/
theorem SGInv.lose (h : SGInv c P L lost G K) {x : Nat} {v : SmallH α} (hx : P.vecs[x]? = some (some v))
    (d : List α) :
    SGInv c ⟨P.vecs.set x none, P.w.addDrops d⟩ (L.set x none) (lost ++ [x]) G K := by
  refine ⟨h.inv.clean ⟨fun _ => rfl, h.inv.wf, Nat.le_refl _, rfl, rfl⟩, by simp [h.len],
    by simp [h.lenL], ?_, ?_, ?_⟩
  · intro y u hy
    rcases set_get hy with ⟨rfl, e, _⟩ | ⟨hne, hy⟩
    · cases e
    · simp only [List.getElem?_set_ne hne]
      exact h.sub y u hy
  · intro y hy
    rcases set_get hy with ⟨rfl, _, _⟩ | ⟨hne, hy⟩
    · obtain ⟨l, h1, _⟩ := h.rep hx
      simp [get_lt h1]
    · rw [List.getElem?_set_ne hne]; exact h.gone y hy
  · intro y u hy
    by_cases hne : x = y
    · subst hne; exact Or.inr (by simp)
    · simp only [List.getElem?_set_ne hne]
      exact (h.extra y u hy).imp_right fun h => by simp [h]

/-- Moving vector `x` to a new place without touching memory. -/
theorem SGInv.move (h : SGInv c P L lost G K) {x : Nat} {v v' : SmallH α} (hx : P.vecs[x]? = some (some v))
    (hv : v'.ptr = v.ptr) {l : List α} (hr : SRep c v' P.w l) :
    SGInv c ⟨P.vecs.set x none ++ [some v'], P.w⟩ (L.set x none ++ [some l]) lost (G.set x none ++ [some v'])
      (K.set x none ++ [some l]) := by
  have hG := h.inv.len
  have hL := h.lenL
  have hP := h.len
  simp only [] at hG
  refine ⟨h.inv.move (h.sub x v hx).1 hv hr, by simp [h.len], by simp [h.lenL], ?_, ?_, ?_⟩
  · intro y u hy
    rcases getElem?_snoc hy with hy | ⟨rfl, e⟩
    · rcases set_get hy with ⟨rfl, e, _⟩ | ⟨hne, hy⟩
      · cases e
      · obtain ⟨h1, h2⟩ := h.sub y u hy
        obtain ⟨l', h3, h4, _⟩ := h.rep hy
        rw [List.getElem?_append_left (by simpa using get_lt h1), List.getElem?_append_left (by simpa using get_lt h3),
          List.getElem?_append_left (by simpa using get_lt h4), List.getElem?_set_ne hne, List.getElem?_set_ne hne,
          List.getElem?_set_ne hne]
        exact ⟨h1, h2⟩
    · cases e
      constructor
      · rw [List.getElem?_append_right (by simp [hP])]; simp [hP]
      · rw [List.getElem?_append_right (by simp [hP, hG, hL]), List.getElem?_append_right (by simp [hP, hG])]
        simp [hP, hG, hL]
  · intro y hy
    rcases getElem?_snoc hy with hy | ⟨rfl, e⟩
    · have hlt : y < L.length := by
        have := get_lt hy
        simp only [List.length_set] at this
        omega
      rw [List.getElem?_append_left (by simpa using hlt)]
      rcases set_get hy with ⟨rfl, _, _⟩ | ⟨hne, hy⟩
      · simp [hlt]
      · rw [List.getElem?_set_ne hne]; exact h.gone y hy
    · cases e
  · intro y u hy
    rcases getElem?_snoc hy with hy | ⟨rfl, e⟩
    · rcases set_get hy with ⟨rfl, e, _⟩ | ⟨hne, hy⟩
      · cases e
      · refine (h.extra y u hy).imp_left fun h1 => ?_
        simp only [List.getElem?_append_left (show y < (P.vecs.set x none).length by simpa using get_lt h1),
          List.getElem?_set_ne hne]
        exact h1
    · cases e
      refine Or.inl ?_
      show (P.vecs.set x none ++ [some v'])[_]? = _
      rw [List.getElem?_append_right (by simp [hP])]; simp [hP]

/-! ## One call of a client program -/

/-- Vectors whose destruction the call cut short. -/
def slostNow : SCmd α → Option (Out α) → List Nat
  | .drop x, none => [x]
  | _, _ => []

theorem SGInv.keeps (h : SGInv c P L lost G K) (v : Option (SmallH α)) (k : Option (List α)) :
    Keeps P.vecs (P.vecs ++ [v]) G (G ++ [v]) K (K ++ [k]) := by
  intro y hy
  have h1 := get_lt hy
  have h2 := h.len
  have h3 := h.inv.len
  simp only at h3
  rw [List.getElem?_append_left h1, List.getElem?_append_left (by omega),
    List.getElem?_append_left (by omega)]
  exact ⟨hy, rfl, rfl⟩

/-- A call in a pool with contents `L` is allowed by the specification with panicking destructors. -/
def SCmdOkP (c : Cfg α) (cmd : SCmd α) (L : Spec.Lists α) (lost : List Nat)
    (G : List (Option (SmallH α))) (K : Spec.Lists α) (P : SPool α)
    (out : Option (Out α)) (P' : SPool α) : Prop :=
  ∃ L' made dropped leaked,
    Spec.SStepP c.cloneRel c.dropRel cmd ⟨out, P'.w.refusals != P.w.refusals⟩ L L' made dropped leaked ∧
    (∃ G' K', SGInv c P' L' (lost ++ slostNow cmd out) G' K' ∧ Keeps P.vecs P'.vecs G G' K K') ∧ P'.w.log.drops = P.w.log.drops ++ dropped

theorem SGInv.more (h : SGInv c P L lost G K) (xs : List Nat) : SGInv c P L (lost ++ xs) G K :=
  ⟨h.inv, h.len, h.lenL, h.sub, h.gone, fun x v hx => (h.extra x v hx).imp_right fun h => by simp [h]⟩

theorem SCmdOkP.same {cmd : SCmd α} {L' K' : Spec.Lists α} {made dropped : List α} {P' : SPool α}
    {G' : List (Option (SmallH α))} {out : Option (Out α)} (hr : P'.w.refusals = P.w.refusals)
    (he : Spec.SStep c.cloneRel cmd ⟨out, false⟩ L L' made dropped) (hi : SGInv c P' L' lost G' K')
    (hk : Keeps P.vecs P'.vecs G G' K K')
    (hd : P'.w.log.drops = P.w.log.drops ++ dropped) : SCmdOkP c cmd L lost G K P out P' := by
  refine ⟨L', made, dropped, [], ?_, ⟨G', K', hi.more _, hk⟩, hd⟩
  have : (P'.w.refusals != P.w.refusals) = false := by simp [hr]
  rw [this]; exact .step he

theorem SCmdOkP.refused {cmd : SCmd α} {L' K' : Spec.Lists α} {made dropped : List α} {P' : SPool α}
    {G' : List (Option (SmallH α))} {out : Option (Out α)} (hr : P'.w.refusals = P.w.refusals + 1)
    (he : Spec.SStep c.cloneRel cmd ⟨out, true⟩ L L' made dropped) (hi : SGInv c P' L' lost G' K')
    (hk : Keeps P.vecs P'.vecs G G' K K')
    (hd : P'.w.log.drops = P.w.log.drops ++ dropped) : SCmdOkP c cmd L lost G K P out P' := by
  refine ⟨L', made, dropped, [], ?_, ⟨G', K', hi.more _, hk⟩, hd⟩
  have : (P'.w.refusals != P.w.refusals) = true := by simp [hr]
  rw [this]; exact .step he

theorem runSCmd_panics (hs : c.size ≠ 0) (h : SGInv c P L lost G K) (cmd : SCmd α) (hl : cmd.Legal c P)
    (hc : cmd.Mild c P) :
    Sat c (runSCmd c cmd P) (fun out P' => SCmdOkP c cmd L lost G K P (some out) P')
      (fun P' => SCmdOkP c cmd L lost G K P none P') := by
  cases cmd with
  | new n =>
    show Sat c (screating (Small.new n) P) _ _
    refine screating_sat (Q := SCmdOkP c (.new n) L lost G K P) ?_
    exact SCmdOkP.same (P' := ⟨P.vecs ++ [some (Small.withMarker n none)], P.w⟩) rfl (.new n L)
      (h.add (withMarker_made hl h.inv.wf)) (h.keeps _ _) (by simp)
  | withCapacity n k =>
    refine screating_sat ((swithCapacity_spec hs h.inv.wf hl.1 hl.2).mono ?_ ?_)
    · rintro v w' ⟨h1, _, _, _, h2, h3, _, _⟩
      exact .same h2 (.withCapacity n k L) (h.add h1) (h.keeps _ _) (by simp [h3])
    · rintro w' ⟨rfl, _, _⟩
      exact .refused rfl (.withCapacityRefused n k L) (h.clean (.refuse h.inv.wf)) (.refl _ _ _)
        (by simp [World.refuse])
  | fromArray n l =>
    refine screating_sat ((sfromArray_spec hs h.inv.wf l hl.1 hl.2.1 ?_).mono ?_ ?_)
    · exact hl.2.2.imp id fun e => List.length_eq_zero_iff.mp e
    · rintro v w' ⟨h1, _, h2⟩
      exact .same h2 (.fromArray n l L) (h.add h1) (h.keeps _ _) h1.drops
    · rintro w' ⟨h1, h2⟩
      exact .refused h2 (.fromArrayRefused n l L) (h.clean h1) (.refl _ _ _) h1.drops
  | fromIter n it =>
    refine screating_sat ((sfromIter_spec hs h.inv.wf it.iter hl.1 hl.2.1 hl.2.2).mono ?_ ?_)
    · rintro v w' ⟨h0, h1, h2⟩
      exact .same h2 (.fromIter n it L h0) (h.add h1) (h.keeps _ _) h1.drops
    · rintro w' ⟨d, h0, h1, (⟨h2, h3⟩ | h3)⟩
      · exact .same h3 (.fromIterPanic n it d L h2 h0) (h.clean h1) (.refl _ _ _) h1.drops
      · exact .refused h3 (.fromIterRefused n it d L h0) (h.clean h1) (.refl _ _ _) h1.drops
  | clone x =>
    obtain ⟨v, hx, hf⟩ := hl
    obtain ⟨l, hL, hK, hv⟩ := h.rep hx
    have e : onSmalls x (Small.asSlice c) [] P = .ok l P := by
      simp only [onSmalls, hx, sasSlice_spec (s := ⟨v, P.w⟩) hs hv, set_self hx]
    unfold runSCmd
    simp only [hx]
    rw [M.bind_ok e]
    rw [hv.lenOf] at hf
    refine screating_sat ((sfromSlice_spec hs h.inv.wf l hv.fits hf).mono ?_ ?_)
    · rintro v' w' ⟨ys, h1, h2, _, h3⟩
      exact .same h3 (.clone x l ys L hL h1.spec) (h.add h2) (h.keeps _ _) h2.drops
    · rintro w' (⟨h1, h2⟩ | ⟨pre, a, post, ys, rfl, h2,
        (⟨⟨k, h3⟩, h4, h5⟩ | ⟨b, ⟨k, h3⟩, h4, h5⟩)⟩)
      · exact .refused h2 (.cloneRefused x L) (h.clean h1) (.refl _ _ _) h1.drops
      · exact .same h5 (.clonePanic x pre a post ys L hL h2.spec ⟨k, h3⟩) (h.clean h4) (.refl _ _ _) h4.drops
      · exact .refused h5 (.cloneRefusedLate x pre a post ys b L hL h2.spec ⟨k, h3⟩) (h.clean h4) (.refl _ _ _)
          h4.drops
  | on x o =>
    obtain ⟨v, hx, ho⟩ := hl
    obtain ⟨l, hL, hK, hv⟩ := h.rep hx
    refine onSmalls_sat hx ((runSOp_panics (s := ⟨v, P.w⟩) hs hv h.inv.wf o ho ?_).mono ?_ ?_)
    · rintro rfl hh
      exact hc x rfl v hx hh l _ (sasSlice_spec (s := ⟨v, P.w⟩) hs hv)
    · rintro out s' ⟨l', made, dropped, leaked, h1, h2⟩
      exact ⟨_, made, dropped, leaked, .on x o _ l l' made dropped leaked L hL h1,
        ⟨_, _, (h.update hx h2).more _, .set hx _ _ _ _ _⟩, h2.drops⟩
    · rintro s' ⟨l', made, dropped, leaked, h1, h2⟩
      exact ⟨_, made, dropped, leaked, .on x o _ l l' made dropped leaked L hL h1,
        ⟨_, _, (h.update hx h2).more _, .set hx _ _ _ _ _⟩, h2.drops⟩
  | append x y =>
    obtain ⟨hxy, v, hx, v', hy, hf⟩ := hl
    obtain ⟨l, hL, hK, hv⟩ := h.rep hx
    obtain ⟨l', hL', hK', hv'⟩ := h.rep hy
    have hne : v.ptr ≠ v'.ptr ∨ v'.ptr = none := by
      cases hp : v'.ptr with
      | none => exact Or.inr rfl
      | some p => exact Or.inl fun e => hxy (h.inv.inj x y v v' p (h.sub x v hx).1 (h.sub y v' hy).1 e hp)
    have key := sappend_spec hs hv hv' h.inv.wf hne (by rw [← hv.lenOf, ← hv'.lenOf]; exact hf)
    unfold runSCmd
    simp only [hx, hy]
    cases hr : Small.append c ⟨(v, v'), P.w⟩ with
    | ok u s =>
      rw [hr] at key
      obtain ⟨v1, h1, h2, h3⟩ := key
      have i1 := h.update hx h2.trans
      have hy' : (P.vecs.set x (some v1))[y]? = some (some v') := by
        rw [List.getElem?_set_ne hxy, hy]
      have i2 := i1.change hy' (i1.inv.setList (v' := v'.withLen 0) (i1.sub y v' hy').1 (by simp) h3)
      simp only [h1]
      exact .same h2.refusals (.append x y l l' L hxy hL hL') i2 ((Keeps.set hx _ _ _ _ _).trans (.set hy' _ _ _ _ _))
        (by simpa using congrArg Log.drops h2.log)
    | panic s =>
      rw [hr] at key
      have key : s = St.refuse ⟨(v, v'), P.w⟩ := key
      subst key
      simp only [St.refuse, set_self hx, set_self hy]
      exact .refused rfl (.appendRefused x y L) (h.clean (.refuse h.inv.wf)) (.refl _ _ _) (by simp [World.refuse])
    | abort => rw [hr] at key; exact key
    | ub u => rw [hr] at key; exact key
  | drop x =>
    obtain ⟨v, hx, _⟩ := hl
    obtain ⟨l, hL, hK, hv⟩ := h.rep hx
    unfold runSCmd
    simp only [hx]
    have key := sdrop_spec (s := ⟨v, P.w⟩) hs hv
    cases hr : Small.drop c ⟨v, P.w⟩ with
    | ok u s =>
      rw [hr] at key
      show SCmdOkP c (.drop x) L lost G K P _ ⟨_, s.w⟩
      rw [show s.w = _ from key]
      exact .same rfl (.drop x l L hL) (h.remove hx l) (.set hx _ _ _ _ _) rfl
    | panic s =>
      rw [hr] at key
      obtain ⟨ys, a, zs, rfl, h1, h2, h3⟩ := key
      show SCmdOkP c (.drop x) L lost G K P _ ⟨_, s.w⟩
      rw [h3]
      refine ⟨L.set x none, [], ys ++ [a], zs, ?_, ⟨G, K, h.lose hx _, .unset hx _ _⟩, rfl⟩
      have : ((P.w.addDrops (ys ++ [a])).refusals != P.w.refusals) = false := by
        simp [World.addDrops]
      simp only [this]
      exact .drop x ys a zs L hL h1 (not_dropRel h2)
    | abort => rw [hr] at key; exact key
    | ub u => rw [hr] at key; exact key
  | moveToHeap x =>
    obtain ⟨v, hx, hf⟩ := hl
    obtain ⟨l, hL, hK, hv⟩ := h.rep hx
    rw [hv.lenOf] at hf
    refine onSmalls_sat hx (quiet_sat (Q := fun o s' => SCmdOkP c (.moveToHeap x) L lost G K P o
      ⟨P.vecs.set x (some s'.self), s'.w⟩)
      ((smoveToHeap_spec (s := ⟨v, P.w⟩) hs hv h.inv.wf hf).mono ?_ ?_))
    · rintro _ s' ⟨h1, _⟩
      have := h.update hx h1.trans
      rw [set_self hL] at this
      exact SCmdOkP.same h1.refusals (.moveToHeap x L) this (.set hx _ _ _ _ _) (by simpa using congrArg Log.drops h1.log)
    · rintro s' rfl
      simp only [St.refuse, set_self hx]
      exact .refused rfl (.moveToHeapRefused x L) (h.clean (.refuse h.inv.wf)) (.refl _ _ _) (by simp [World.refuse])
  | splitOff x n k =>
    obtain ⟨hn, v, hx, hk⟩ := hl
    obtain ⟨l, hL, hK, hv⟩ := h.rep hx
    rw [hv.lenOf] at hk
    unfold runSCmd
    simp only [hx]
    by_cases hlt : k < l.length
    · have key := ssplitOff_spec (s := ⟨v, P.w⟩) (n' := n) hs hv h.inv.wf hlt hn
      cases hr : Small.splitOffInto c n k ⟨v, P.w⟩ with
      | ok r s =>
        rw [hr] at key
        obtain ⟨h1, h2, h3, h4, h5, _⟩ := key
        have i1 := h.add h2
        have hxl : x < P.vecs.length := (List.getElem?_eq_some_iff.mp hx).1
        have hLl : x < L.length := (List.getElem?_eq_some_iff.mp hL).1
        have hx' : (P.vecs ++ [some r])[x]? = some (some v) := by
          rw [List.getElem?_append_left hxl, hx]
        have i2 := i1.change hx' (i1.inv.setList (v' := s.self) (i1.sub x v hx').1 (by rw [h1]; simp) h3)
        have hkeep := (h.keeps (some r) (some (l.drop k))).trans
          (.set hx' (G ++ [some r]) (K ++ [some (l.drop k)]) (some s.self) (some s.self) (some (l.take k)))
        simp only [List.set_append_left _ _ hxl, List.set_append_left _ _ hLl] at i2 hkeep
        exact .same h5 (.splitOff x n k l L hL (by omega)) i2 hkeep
          (by simpa using congrArg Log.drops h4)
      | panic s =>
        rw [hr] at key
        have key : s = St.refuse ⟨v, P.w⟩ := key
        subst key
        simp only [St.refuse, set_self hx]
        exact .refused rfl (.splitOffRefused x n k L) (h.clean (.refuse h.inv.wf)) (.refl _ _ _)
          (by simp [World.refuse])
      | abort => rw [hr] at key; exact key
      | ub u => rw [hr] at key; exact key
    · rw [ssplitOff_panic (s := ⟨v, P.w⟩) hv (by omega)]
      simp only [set_self hx]
      exact .same rfl (.splitOffBad x n k l L hL (by omega)) h (.refl _ _ _) (by simp)
  | viaVec x n =>
    obtain ⟨hn, v, hx, hf⟩ := hl
    obtain ⟨l, hL, hK, hv⟩ := h.rep hx
    rw [hv.lenOf] at hf
    have key := sintoVec_spec hs hv h.inv.wf hf
    unfold runSCmd
    simp only [hx]
    cases hr : Small.intoVec c v P.w with
    | ok r w' =>
      rw [hr] at key
      have key : SReserved c l ⟨v, P.w⟩ ⟨{ v with store := .heap r }, w'⟩ := key
      have i1 := h.update hx key.trans
      have hx' : (P.vecs.set x (some { v with store := .heap r }))[x]? =
          some (some { v with store := .heap r }) := by
        rw [List.getElem?_set_self (List.getElem?_eq_some_iff.mp hx).1]
      have i2 := i1.move (v' := Small.fromVec n r) hx' rfl
        (sfromVec_rep hn (key.trans.rep.heap r rfl))
      have i3 := i1.remove hx' []
      have hkeep := ((Keeps.set hx G K (some { v with store := .heap r }) (some { v with store := .heap r })
        (some l)).trans (.set hx' _ _ none none none)).trans (i3.keeps (some (Small.fromVec n r)) (some l))
      simp only [List.set_set] at i2 hkeep
      exact .same key.refusals (.viaVec x n l L hL) i2 hkeep (by simpa using congrArg Log.drops key.log)
    | panic w' =>
      rw [hr] at key
      have key : w' = (P.w.refuse.free v.ptr).addDrops l := key
      subst key
      have i1 := h.clean (.refuse h.inv.wf)
      exact .refused rfl (.viaVecRefused x n l L hL) (i1.remove hx l) (.set hx _ _ _ _ _) rfl
    | abort => rw [hr] at key; exact key
    | ub u => rw [hr] at key; exact key

/-! ## Whole histories -/

/-- The vectors whose destruction was cut short in a history. -/
def slostIn (h : Spec.SHistory α) : List Nat := h.flatMap fun e => slostNow e.1 e.2.out

theorem SReachesP.inv {P0 P : SPool α} {hist : Spec.SHistory α} (hs : c.size ≠ 0)
    (h0 : P0.Initial) (h : SReachesP c P0 hist P) :
    ∃ L made leaked, Spec.SRunsP c.cloneRel c.dropRel hist L made P.w.log.drops leaked ∧
      ∃ G K, SGInv c P L (slostIn hist) G K := by
  induction h with
  | start =>
    refine ⟨[], [], [], by rw [h0.2.2]; exact .start, [], [], ?_⟩
    have hv := h0.1
    refine ⟨?_, by simp [hv], rfl, ?_, ?_, ?_⟩
    · have := SPInv.initial (c := c) h0
      have e : P0 = ⟨[], P0.w⟩ := by rw [← hv]
      rwa [e] at this
    · intro x v hx; simp [hv] at hx
    · intro x hx; simp [hv] at hx
    · intro x v hx; simp at hx
  | @step hist P cmd ev P' _ hl hm he ih =>
    obtain ⟨L, made, leaked, h1, G, K, h2⟩ := ih
    have key := runSCmd_panics hs h2 cmd hl hm
    have hlost : ∀ ev, slostIn (hist ++ [(cmd, ev)]) = slostIn hist ++ slostNow cmd ev.out := by
      intro ev; simp [slostIn]
    cases he with
    | ret hr =>
      rw [hr] at key
      obtain ⟨L', made', dropped', leaked', h3, ⟨G', K', h4, _⟩, h5⟩ := key
      exact ⟨L', made ++ made', leaked ++ leaked', by rw [h5]; exact .step h1 h3,
        G', K', by rw [hlost]; exact h4⟩
    | panic hr =>
      rw [hr] at key
      obtain ⟨L', made', dropped', leaked', h3, ⟨G', K', h4, _⟩, h5⟩ := key
      exact ⟨L', made ++ made', leaked ++ leaked', by rw [h5]; exact .step h1 h3,
        G', K', by rw [hlost]; exact h4⟩

theorem slostIn_event {cl : Spec.CloneRel α} {dp : α → Prop} {hist : Spec.SHistory α}
    {made dropped leaked : List α} (h : Spec.SRunsP cl dp hist L made dropped leaked) {x : Nat}
    (hx : x ∈ slostIn hist) : (.drop x, ⟨none, false⟩) ∈ hist := by
  induction h with
  | start => cases hx
  | @step h L made dropped leaked cmd ev L' _ _ _ _ hs ih =>
    simp only [slostIn, List.flatMap_append, List.mem_append, List.flatMap_cons, List.flatMap_nil,
      List.append_nil] at hx
    rcases hx with hx | hx
    · exact List.mem_append_left _ (ih hx)
    · refine List.mem_append_right _ ?_
      cases hs with
      | step hs => cases hs <;> simp [slostNow, Event.ret] at hx
      | on => simp [slostNow] at hx
      | drop y ys a zs _ _ _ _ =>
        simp only [slostNow, Event.panic, List.mem_singleton] at hx
        subst hx
        exact List.mem_singleton.mpr rfl

end Lokky
