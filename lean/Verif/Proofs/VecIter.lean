import Verif.Proofs.VecBulk

/-!
# By-value iteration
-/

namespace Lokky
variable {α : Type} {c : Cfg α}

/-- The iterator still has to yield the list `m` (as long as it is used in the forward direction, or
backwards while something is left). -/
structure IRep (c : Cfg α) (s : St Vec.IntoIterH α) (m : List α) : Prop where
  ex : ∃ l, Rep c s.self.vec s.w l ∧ s.self.index ≤ l.length ∧ l.drop s.self.index = m
  wf : s.w.WF

theorem intoIter_rep {v : VecH} {w : World α} {l : List α} (h : Rep c v w l) (hw : w.WF) :
    IRep c ⟨Vec.intoIter v, w⟩ l := ⟨⟨l, h, by simp [Vec.intoIter], by simp [Vec.intoIter]⟩, hw⟩

theorem onVec_look {β : Type} {m : M (VSt α) β} {s : St Vec.IntoIterH α} {a : β}
    (h : m ⟨s.self.vec, s.w⟩ = .ok a ⟨s.self.vec, s.w⟩) : Vec.onVec m s = .ok a s := by
  simp [Vec.onVec, onPart, h]

/-- `next` on a vector iterator holding `l` at position `index`. -/
theorem iterNext_eq {s : St Vec.IntoIterH α} {l : List α} (hs : c.size ≠ 0)
    (h : Rep c s.self.vec s.w l) :
    Vec.iterNext c s = .ok l[s.self.index]? ⟨⟨s.self.vec,
      if s.self.index < l.length then s.self.index + 1 else s.self.index⟩, s.w⟩ := by
  unfold Vec.iterNext
  rw [M.bind_ok (M.get_apply s), h.len]
  by_cases hi : s.self.index < l.length
  · rw [if_pos hi, M.bind_ok (M.modify_apply _ _)]
    have e : Vec.onVec (Vec.onBuf c (Buf.read c s.self.index))
        ⟨⟨s.self.vec, s.self.index + 1⟩, s.w⟩ = .ok l[s.self.index]
          ⟨⟨s.self.vec, s.self.index + 1⟩, s.w⟩ := by
      refine onVec_look (onBuf_look (Buf.read_eq hs ?_))
      exact (Rep.brep (s := ⟨s.self.vec, s.w⟩) hs h).slot hi
    rw [M.bind_ok e]
    simp [hi]
  · rw [if_neg hi]
    simp only [hi, if_false, M.pure_apply]
    rw [List.getElem?_eq_none (by omega)]

theorem IRep.next {s : St Vec.IntoIterH α} {m : List α} (hs : c.size ≠ 0) (h : IRep c s m) :
    ∃ s', Vec.iterNext c s = .ok m.head? s' ∧ IRep c s' m.tail ∧ s'.w = s.w := by
  obtain ⟨⟨l, h1, h2, h3⟩, hw⟩ := h
  have e := iterNext_eq hs h1
  rw [← List.head?_drop, h3] at e
  refine ⟨_, e, ⟨⟨l, h1, ?_, ?_⟩, hw⟩, rfl⟩
  · simp only; split <;> omega
  · simp only
    split
    · rw [← h3, List.tail_drop]
    · have : l.drop s.self.index = [] := List.drop_eq_nil_of_le (by omega)
      rw [← h3, this]; rfl

theorem IRep.nextBack {s : St Vec.IntoIterH α} {m : List α} (hs : c.size ≠ 0) (h : IRep c s m)
    (hm : m ≠ []) :
    ∃ s', Vec.iterNextBack c s = .ok m.getLast? s' ∧ IRep c s' m.dropLast ∧
      s'.w.log = s.w.log := by
  obtain ⟨⟨l, h1, h2, h3⟩, hw⟩ := h
  obtain ⟨s', e1, e2, _, _⟩ := pop_spec (s := ⟨s.self.vec, s.w⟩) hs h1 hw
  have hlt : s.self.index < l.length := by
    apply Nat.lt_of_not_le
    intro hle
    exact hm (by rw [← h3]; exact List.drop_eq_nil_of_le hle)
  refine ⟨⟨⟨s'.self, s.self.index⟩, s'.w⟩, ?_, ⟨⟨l.dropLast, e2.trans.rep, ?_, ?_⟩, e2.trans.wf⟩,
    e2.log⟩
  · unfold Vec.iterNextBack Vec.onVec
    rw [onPart_ok e1, ← h3, List.getLast?_drop, if_neg (by omega)]
  · simp; omega
  · simp only
    rw [← h3, List.dropLast_eq_take, List.dropLast_eq_take, List.drop_take, List.length_drop]
    congr 1; omega

/-- The iterator after its `index` fronts were yielded shows the rest. -/
theorem iterAsSlice_eq {s : St Vec.IntoIterH α} {m : List α} (hs : c.size ≠ 0) (h : IRep c s m) :
    Vec.iterAsSlice c s = .ok m s := by
  obtain ⟨⟨l, h1, h2, h3⟩, hw⟩ := h
  unfold Vec.iterAsSlice
  rw [M.bind_ok (M.get_apply s), h1.len, M.bind_ok (usub_eq h2)]
  refine onVec_look (onBuf_look ?_)
  have hb := Rep.brep (s := ⟨s.self.vec, s.w⟩) hs h1
  have : l.length - s.self.index = m.length := by rw [← h3]; simp
  rw [this]
  refine Buf.readSlice_spec hs ?_
  intro k hk
  subst h3
  simp only [List.length_drop] at hk
  rw [hb.slot (by omega)]
  simp

/-- Dropping the iterator drops what is left and releases the buffer. -/
theorem iterDrop_spec {s : St Vec.IntoIterH α} {m : List α} (hs : c.size ≠ 0) (h : IRep c s m) :
    Sat c (Vec.iterDrop c s)
      (fun _ s' => s'.w = (s.w.free s.self.vec.ptr).addDrops m)
      (fun s' => ∃ ys a zs, m = ys ++ a :: zs ∧ c.dropPanics a = true ∧
        s'.w = (s.w.free s.self.vec.ptr).addDrops (ys ++ [a])) := by
  obtain ⟨⟨l, h1, h2, h3⟩, hw⟩ := h
  have hb := Rep.brep (s := ⟨s.self.vec, s.w⟩) hs h1
  -- the vector with length zero
  let v0 : VecH := { s.self.vec with len := 0 }
  have hr0 : ∀ d, Rep c v0 (s.w.addDrops d) [] := by
    intro d
    refine ⟨rfl, ?_⟩
    rcases h1.buf with ⟨h4, h5, _⟩ | ⟨p, b, rest, hp, hb', h4, h5, h6, h7, h8⟩
    · exact Or.inl ⟨h4, h5, rfl⟩
    · exact Or.inr ⟨p, b, b.slots, hp, hb', h4, h5, by simp, h7, h8⟩
  have hdrop : ∀ d, Sat c (Vec.onVec (Vec.drop c) ⟨⟨v0, s.self.index⟩, s.w.addDrops d⟩)
      (fun _ s' => s'.w = (s.w.free s.self.vec.ptr).addDrops d) (fun _ => False) := by
    intro d
    have := onPart_sat (get := Vec.IntoIterH.vec) (set := fun v (it : Vec.IntoIterH) => { it with vec := v })
      (s := ⟨⟨v0, s.self.index⟩, s.w.addDrops d⟩) (drop_spec (s := ⟨v0, s.w.addDrops d⟩) hs (hr0 d))
    refine this.mono ?_ ?_
    · rintro _ s' ⟨t, ⟨ht, _⟩, rfl⟩
      simp only [ht]
      simp [World.addDrops, World.free, Log.addDrops, v0]
    · rintro s' ⟨t, ⟨ys, a, zs, h0, _⟩, rfl⟩
      cases ys <;> cases h0
  have hloop : Sat c ((do
      let s ← M.get
      Vec.onVec (Vec.onBuf c (Buf.setLen c 0))
      let n ← usub c s.self.vec.len s.self.index
      Vec.onVec (Vec.onBuf c (Buf.dropLoop c s.self.index n)) : M (St Vec.IntoIterH α) Unit) s)
      (fun _ s' => s' = ⟨⟨v0, s.self.index⟩, s.w.addDrops m⟩)
      (fun s' => ∃ ys a zs, m = ys ++ a :: zs ∧ c.dropPanics a = true ∧
        s' = ⟨⟨v0, s.self.index⟩, s.w.addDrops (ys ++ [a])⟩) := by
    rw [M.bind_ok (M.get_apply s)]
    have e0 : Vec.onVec (Vec.onBuf c (Buf.setLen c 0)) s = .ok () ⟨⟨v0, s.self.index⟩, s.w⟩ := by
      unfold Vec.onVec
      rw [onPart_ok (setLen0_eq ⟨s.self.vec, s.w⟩)]
    rw [M.bind_ok e0, h1.len, M.bind_ok (usub_eq h2)]
    have hb0 : BRep (bufOf c ⟨v0, s.w⟩) [] := by
      have := (hr0 []).brep (s := ⟨v0, s.w.addDrops []⟩) hs
      simpa [World.addDrops] using this
    have hlen : l.length - s.self.index = m.length := by rw [← h3]; simp
    rw [hlen]
    have hl := Buf.dropLoop_spec (c := c) (b := bufOf c ⟨v0, s.w⟩) (xs := m) (i := s.self.index) hs (by
      intro k hk
      subst h3
      simp only [List.length_drop] at hk
      have := hb.slot (i := s.self.index + k) (by omega)
      simpa [bufOf] using this)
    have hput : ∀ d, putBuf (⟨v0, s.w⟩ : VSt α)
        { bufOf c ⟨v0, s.w⟩ with log := (bufOf c ⟨v0, s.w⟩).log.addDrops d }
        = ⟨v0, s.w.addDrops d⟩ := by
      intro d
      have := World.setSlots_slots s.w v0.ptr
      simp only [putBuf, bufOf, World.addDrops, this]
    unfold Vec.onVec
    refine (onPart_sat (Q := fun _ t => t = ⟨v0, s.w.addDrops m⟩)
      (E := fun t => ∃ ys a zs, m = ys ++ a :: zs ∧ c.dropPanics a = true ∧
        t = ⟨v0, s.w.addDrops (ys ++ [a])⟩) ?_).mono ?_ ?_
    · simp only
      rw [onBuf_eq]
      cases hr : Buf.dropLoop c s.self.index m.length (bufOf c ⟨v0, s.w⟩) with
      | ok a b => rw [hr] at hl; obtain ⟨rfl, _⟩ := hl; exact hput m
      | panic b =>
        rw [hr] at hl
        obtain ⟨ys, a, zs, g1, g2, _, rfl⟩ := hl
        exact ⟨ys, a, zs, g1, g2, hput _⟩
      | abort => rw [hr] at hl; exact hl
      | ub u => rw [hr] at hl; exact hl
    · rintro _ s' ⟨t, rfl, rfl⟩; rfl
    · rintro s' ⟨t, ⟨ys, a, zs, g1, g2, rfl⟩, rfl⟩
      exact ⟨ys, a, zs, g1, g2, rfl⟩
  unfold Vec.iterDrop
  refine Sat.andAlways hloop ?_ ?_
  · rintro s' ⟨ys, a, zs, g1, g2, rfl⟩
    refine (hdrop _).mono ?_ (fun _ h => h.elim)
    intro _ s'' hw'
    exact ⟨ys, a, zs, g1, g2, hw'⟩
  · rintro s' rfl
    exact (hdrop _).mono (fun _ _ h => h) (fun _ h => h.elim)

end Lokky
