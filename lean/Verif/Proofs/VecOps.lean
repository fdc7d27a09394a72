import Verif.Proofs.VecBuf

/-!
# Operations of `Vec`, one by one
-/

namespace Lokky
variable {α : Type} {c : Cfg α}

/-! ## The log -/

/-- Replace the log. -/
def St.setLog {S : Type} (s : St S α) (g : Log α) : St S α :=
  { s with w := { s.w with log := g } }

theorem onLog_sat {S β : Type} {m : M (Log α) β} {s : St S α} {Q : β → Log α → Prop}
    {E : Log α → Prop} (h : Sat c (m s.w.log) Q E) :
    Sat c (onLog m s) (fun a s' => ∃ g, Q a g ∧ s' = s.setLog g)
      (fun s' => ∃ g, E g ∧ s' = s.setLog g) := by
  unfold onLog liftW World.onLog
  cases hm : m s.w.log <;> simp_all [Sat, St.setLog]

theorem Trans.setLog {s s' : VSt α} {l d d' : List α} {g : Log α} (h : Trans c l d s s')
    (hg : g.drops = s'.w.log.drops ++ d') : Trans c l (d ++ d') s (s'.setLog g) :=
  ⟨h.rep.congr (fun _ _ => rfl), h.wf, ⟨h.own.frame, h.own.freed, h.own.fresh, h.own.kept,
    h.own.next⟩, ⟨h.place.marker, h.place.big, h.place.small, h.place.scope⟩, by
    simp only [St.setLog]; rw [hg, h.drops, List.append_assoc]⟩

/-- Dropping a value during unwinding or at the end. -/
theorem Trans.dropVal {s s' : VSt α} {l d : List α} (a : α) (h : Trans c l d s s') :
    Sat c (onLog (dropVal c a) s')
      (fun _ s'' => Trans c l (d ++ [a]) s s'' ∧ s'' = s'.setLog (s'.w.log.addDrops [a]) ∧
        c.dropPanics a = false)
      (fun s'' => Trans c l (d ++ [a]) s s'' ∧ s'' = s'.setLog (s'.w.log.addDrops [a]) ∧
        c.dropPanics a = true) := by
  refine (onLog_sat (dropVal_spec a s'.w.log)).mono ?_ ?_
  · rintro _ s'' ⟨g, ⟨rfl, hp⟩, rfl⟩
    exact ⟨h.setLog rfl, rfl, hp⟩
  · rintro s'' ⟨g, ⟨rfl, hp⟩, rfl⟩
    exact ⟨h.setLog rfl, rfl, hp⟩

theorem Trans.dropVals {s s' : VSt α} {l d : List α} (xs : List α) (h : Trans c l d s s') :
    Sat c (onLog (dropVals c xs) s')
      (fun _ s'' => Trans c l (d ++ xs) s s'' ∧ s'' = s'.setLog (s'.w.log.addDrops xs))
      (fun s'' => Trans c l (d ++ xs) s s'' ∧ s'' = s'.setLog (s'.w.log.addDrops xs) ∧
        ∃ a ∈ xs, c.dropPanics a = true) := by
  refine (onLog_sat (dropVals_spec xs s'.w.log)).mono ?_ ?_
  · rintro _ s'' ⟨g, rfl, rfl⟩
    exact ⟨h.setLog rfl, rfl⟩
  · rintro s'' ⟨g, ⟨rfl, hp⟩, rfl⟩
    exact ⟨h.setLog rfl, rfl, hp⟩

/-! ## push, pop, insert, remove -/

theorem onBuf_ok {β : Type} {m : M (Buf α) β} {s : VSt α} {l l' : List α} {a : β}
    (hs : c.size ≠ 0) (h : Rep c s.self s.w l) (hw : s.w.WF)
    (hm : ∀ b, BRep b l → b.cap = s.self.cap → ∃ b', m b = .ok a b' ∧ BTrans l' [] b b' ∧
      b'.log = b.log) :
    ∃ s', Vec.onBuf c m s = .ok a s' ∧ Reserved c l' s s' ∧ s'.self.cap = s.self.cap ∧
      s'.w.tick = s.w.tick := by
  obtain ⟨b', h1, h2, h3⟩ := hm (bufOf c s) (h.brep hs) (by simp [bufOf, capacity_eq hs])
  refine ⟨putBuf s b', ?_, ⟨putBuf_trans hs h hw h2, ?_, ?_⟩, rfl, ?_⟩
  · rw [onBuf_eq, h1]
  · simp [h3]
  · simp
  · simp

/-- A push that needs no new memory. -/
theorem push_reserved {s : VSt α} {l : List α} (hs : c.size ≠ 0) (h : Rep c s.self s.w l)
    (hw : s.w.WF) (hc : l.length < s.self.cap) (a : α) :
    ∃ s', Vec.push c a s = .ok () s' ∧ Reserved c (l ++ [a]) s s' ∧ s'.self.cap = s.self.cap ∧
      s'.w.tick = s.w.tick := by
  have hu : s.self.len + 1 ≤ c.usizeMax := by
    have := Fits.le_usize hs h.fits
    have := h.len
    omega
  unfold Vec.push
  rw [M.bind_ok (M.onUnwind_ok (reserveExact_noop hs hu (by have := h.len; omega)))]
  exact onBuf_ok hs h hw (fun b hb hcap => writeEnd_spec hs hb (by omega) a)

theorem push_spec {s : VSt α} {l : List α} (hs : c.size ≠ 0) (h : Rep c s.self s.w l)
    (hw : s.w.WF) (hf : c.Fits (l.length + 1)) (a : α) :
    Sat c (Vec.push c a s)
      (fun _ s' => Reserved c (l ++ [a]) s s' ∧ s'.self.cap = max s.self.cap (l.length + 1) ∧
        s'.w.tick = s.w.tick + (if s.self.cap < l.length + 1 then 1 else 0))
      (fun s' => Trans c l [a] s s' ∧ s' = s.refuse.setLog (s.w.log.addDrops [a]) ∧
        s.self.cap < l.length + 1 ∧
        c.grant s.w.tick ((l.length + 1) * c.size) = false) := by
  unfold Vec.push
  refine Sat.bind (Q := fun _ s' => Reserved c l s s' ∧
      s'.self.cap = max s.self.cap (l.length + 1) ∧
      s'.w.tick = s.w.tick + (if s.self.cap < l.length + 1 then 1 else 0)) ?_ ?_
  · refine Sat.onUnwind (reserveExact_spec hs h hw hf) ?_
    rintro s' ⟨rfl, h1, h2⟩
    refine (Trans.dropVal a (Trans.refuse h hw)).mono ?_ (fun _ h => ⟨_, h.2.2⟩)
    rintro _ s'' ⟨h3, rfl, _⟩
    exact ⟨h3, rfl, h1, h2⟩
  · rintro _ s' ⟨h1, h2, h3⟩
    obtain ⟨s'', e1, e2, e3, e4⟩ := onBuf_ok (l' := l ++ [a]) hs h1.trans.rep h1.trans.wf
      (fun b hb hcap => writeEnd_spec hs hb (by omega) a)
    rw [e1]
    exact ⟨⟨h1.trans.trans hw e2.trans, e2.log.trans h1.log, e2.refusals.trans h1.refusals⟩,
      e3.trans h2, e4.trans h3⟩

theorem pop_spec {s : VSt α} {l : List α} (hs : c.size ≠ 0) (h : Rep c s.self s.w l)
    (hw : s.w.WF) :
    ∃ s', Vec.pop c s = .ok l.getLast? s' ∧ Reserved c l.dropLast s s' ∧
      s'.self.cap = s.self.cap ∧ s'.w.tick = s.w.tick :=
  onBuf_ok hs h hw (fun _ hb _ => pop_buf hs hb)

theorem remove_spec {s : VSt α} {l : List α} (hs : c.size ≠ 0) (h : Rep c s.self s.w l)
    (hw : s.w.WF) {i : Nat} (hi : i < l.length) :
    ∃ s', Vec.remove c i s = .ok l[i] s' ∧ Reserved c (l.eraseIdx i) s s' ∧
      s'.self.cap = s.self.cap ∧ s'.w.tick = s.w.tick :=
  onBuf_ok hs h hw (fun _ hb _ => remove_buf hs hb hi)

theorem World.setSlots_slots (w : World α) (p : Option Nat) : w.setSlots p (w.slots p) = w := by
  cases p with
  | none => rfl
  | some q =>
    cases hb : w.heap q with
    | none => simp [World.setSlots, hb]
    | some b =>
      have : (fun r => if r = q then some b else w.heap r) = w.heap := by
        funext r
        split
        · rename_i e; rw [e, hb]
        · rfl
      simp [World.setSlots, World.slots, hb, this]

theorem putBuf_bufOf (s : VSt α) : putBuf s (bufOf c s) = s := by
  simp only [putBuf, bufOf, World.setSlots_slots]

theorem onBuf_panic {β : Type} {m : M (Buf α) β} {s : VSt α}
    (h : m (bufOf c s) = .panic (bufOf c s)) : Vec.onBuf c m s = .panic s := by
  rw [onBuf_eq, h]; simp [putBuf_bufOf]

theorem onBuf_look {β : Type} {m : M (Buf α) β} {s : VSt α} {a : β}
    (h : m (bufOf c s) = .ok a (bufOf c s)) : Vec.onBuf c m s = .ok a s := by
  rw [onBuf_eq, h]; simp [putBuf_bufOf]

theorem remove_panic {s : VSt α} {l : List α} (hs : c.size ≠ 0) (h : Rep c s.self s.w l)
    {i : Nat} (hi : ¬ i < l.length) : Vec.remove c i s = .panic s :=
  onBuf_panic (remove_buf_panic (h.brep hs) hi)

theorem swapRemove_spec {s : VSt α} {l : List α} (hs : c.size ≠ 0) (h : Rep c s.self s.w l)
    (hw : s.w.WF) {i : Nat} (hi : i < l.length)
    (hstrict : c.strict = true → i + 1 = l.length → l.length = 1) :
    ∃ s', Vec.swapRemove c i s = .ok l[i] s' ∧ Reserved c (swapRemoved l i) s s' ∧
      s'.self.cap = s.self.cap ∧ s'.w.tick = s.w.tick := by
  unfold Vec.swapRemove
  rw [M.bind_ok (M.get_apply s), M.bind_ok (assert_pos (by rw [h.len]; exact hi)), h.len]
  by_cases h1 : l.length = 1
  · rw [if_pos h1]
    obtain ⟨s', e1, e2⟩ := pop_spec hs h hw
    obtain ⟨a, rfl⟩ := List.length_eq_one_iff.mp h1
    have h0 : i = 0 := by simpa using hi
    subst h0
    rw [M.bind_ok e1]
    exact ⟨s', rfl, e2⟩
  · rw [if_neg h1]
    exact onBuf_ok hs h hw (fun _ hb _ => swapRemove_buf hs hb hi
      (fun hst e => h1 (hstrict hst e)))

theorem swapRemove_panic {s : VSt α} {l : List α} (h : Rep c s.self s.w l)
    {i : Nat} (hi : ¬ i < l.length) : Vec.swapRemove c i s = .panic s := by
  unfold Vec.swapRemove
  rw [M.bind_ok (M.get_apply s), M.bind_panic (assert_neg (by rw [h.len]; exact hi))]

theorem insert_spec {s : VSt α} {l : List α} (hs : c.size ≠ 0) (h : Rep c s.self s.w l)
    (hw : s.w.WF) {i : Nat} (hf : c.Fits (l.length + 1)) (a : α) :
    Sat c (Vec.insert c i a s)
      (fun _ s' => i ≤ l.length ∧ Reserved c (l.insertIdx i a) s s' ∧
        s'.self.cap = max s.self.cap (l.length + 1))
      (fun s' => Trans c l [a] s s' ∧
        ((l.length < i ∧ s' = s.setLog (s.w.log.addDrops [a])) ∨
          (i ≤ l.length ∧ s' = s.refuse.setLog (s.w.log.addDrops [a]) ∧
            s.self.cap = l.length ∧ c.grant s.w.tick ((l.length + 1) * c.size) = false))) := by
  have hcap := h.le_cap
  unfold Vec.insert
  refine Sat.bind (Q := fun _ s' => i ≤ l.length ∧ Reserved c l s s' ∧
      s'.self.cap = max s.self.cap (l.length + 1)) ?_ ?_
  · refine Sat.onUnwind (Q := fun _ s' => i ≤ l.length ∧ Reserved c l s s' ∧
        s'.self.cap = max s.self.cap (l.length + 1))
      (E' := fun s' => (l.length < i ∧ s' = s) ∨ (i ≤ l.length ∧ s' = s.refuse ∧
        s.self.cap = l.length ∧ c.grant s.w.tick ((l.length + 1) * c.size) = false)) ?_ ?_
    · rw [M.bind_ok (M.get_apply s), h.len]
      by_cases hi : i ≤ l.length
      · rw [M.bind_ok (assert_pos hi), capacity_eq hs]
        by_cases hfull : l.length = s.self.cap
        · rw [if_pos hfull]
          refine (reserveExact_spec hs h hw hf).mono ?_ ?_
          · rintro _ s' ⟨h1, h2, _⟩; exact ⟨hi, h1, h2⟩
          · rintro s' ⟨h1, _, h3⟩; exact Or.inr ⟨hi, h1, hfull.symm, h3⟩
        · rw [if_neg hfull]
          exact ⟨hi, ⟨Trans.refl h hw, rfl, rfl⟩, by omega⟩
      · rw [M.bind_panic (assert_neg hi)]
        exact Or.inl ⟨by omega, rfl⟩
    · rintro s' (⟨h1, rfl⟩ | ⟨h1, rfl, h2, h3⟩)
      · refine (Trans.dropVal a (Trans.refl h hw)).mono ?_ (fun _ h => ⟨_, h.2.2⟩)
        rintro _ s'' ⟨h4, rfl, _⟩
        exact ⟨h4, Or.inl ⟨h1, rfl⟩⟩
      · refine (Trans.dropVal a (Trans.refuse h hw)).mono ?_ (fun _ h => ⟨_, h.2.2⟩)
        rintro _ s'' ⟨h4, rfl, _⟩
        exact ⟨h4, Or.inr ⟨h1, rfl, h2, h3⟩⟩
  · rintro _ s' ⟨hi, h1, h2⟩
    obtain ⟨s'', e1, e2, e3, e4⟩ := onBuf_ok (l' := l.insertIdx i a) hs h1.trans.rep h1.trans.wf
      (fun b hb hcap => insert_buf hs hb hi (by omega) a)
    rw [e1]
    exact ⟨hi, ⟨h1.trans.trans hw e2.trans, e2.log.trans h1.log, e2.refusals.trans h1.refusals⟩,
      e3.trans h2⟩

/-! ## truncate, clear, index -/

theorem truncate_spec {s : VSt α} {l : List α} (hs : c.size ≠ 0) (h : Rep c s.self s.w l)
    (hw : s.w.WF) (k : Nat) :
    Sat c (Vec.truncate c k s)
      (fun _ s' => Trans c (l.take k) (l.drop k) s s' ∧ s'.w.log.calls = s.w.log.calls ∧
        s'.w.refusals = s.w.refusals ∧ s'.self.cap = s.self.cap)
      (fun s' => Trans c (l.take k) (l.drop k) s s' ∧ s'.w.log.calls = s.w.log.calls ∧
        s'.w.refusals = s.w.refusals ∧ s'.self.cap = s.self.cap ∧
        ∃ a ∈ l.drop k, c.dropPanics a = true) := by
  refine onBuf_sat hs h (Q := fun _ b' => BTrans (l.take k) (l.drop k) (bufOf c s) b' ∧
      b'.log.calls = s.w.log.calls)
    (E := fun b' => BTrans (l.take k) (l.drop k) (bufOf c s) b' ∧
      b'.log.calls = s.w.log.calls ∧ ∃ a ∈ l.drop k, c.dropPanics a = true) ?_ ?_ ?_
  · rintro b hb rfl; exact truncate_buf hs hb k
  · rintro _ b ⟨h1, h2⟩; exact ⟨putBuf_trans hs h hw h1, h2, by simp, rfl⟩
  · rintro b ⟨h1, h2, h3⟩; exact ⟨putBuf_trans hs h hw h1, h2, by simp, rfl, h3⟩

/-- `clear`: on success everything was dropped once. If a destructor panics, the vector keeps all
its elements although a prefix of them was dropped. -/
theorem clear_spec {s : VSt α} {l : List α} (hs : c.size ≠ 0) (h : Rep c s.self s.w l)
    (hw : s.w.WF) :
    Sat c (Vec.clear c s)
      (fun _ s' => Trans c [] l s s' ∧ s'.w.log.calls = s.w.log.calls ∧
        s'.w.refusals = s.w.refusals ∧ s'.self.cap = s.self.cap)
      (fun s' => ∃ ys a zs, l = ys ++ a :: zs ∧ c.dropPanics a = true ∧
        (∀ y ∈ ys, c.dropPanics y = false) ∧ Trans c l (ys ++ [a]) s s' ∧
        s'.w.log.calls = s.w.log.calls ∧ s'.w.refusals = s.w.refusals) := by
  refine onBuf_sat hs h (Q := fun _ b' => BTrans [] l (bufOf c s) b' ∧
      b'.log.calls = s.w.log.calls)
    (E := fun b' => ∃ ys a zs, l = ys ++ a :: zs ∧ c.dropPanics a = true ∧
        (∀ y ∈ ys, c.dropPanics y = false) ∧
        b' = { bufOf c s with log := s.w.log.addDrops (ys ++ [a]) }) ?_ ?_ ?_
  · rintro b hb rfl
    refine (clear_buf hs hb).mono ?_ ?_
    · rintro _ b ⟨h1, h2, _⟩; exact ⟨h1, h2⟩
    · rintro b' h; exact h
  · rintro _ b ⟨h1, h2⟩; exact ⟨putBuf_trans hs h hw h1, h2, by simp, rfl⟩
  · rintro b ⟨ys, a, zs, h1, h2, h3, rfl⟩
    refine ⟨ys, a, zs, h1, h2, h3, putBuf_trans hs h hw ⟨?_, rfl, rfl⟩, rfl, by simp⟩
    exact ⟨(h.brep hs).len, (h.brep hs).cap, (h.brep hs).holds⟩

theorem clear_returns {s : VSt α} {l : List α} (hs : c.size ≠ 0) (h : Rep c s.self s.w l) :
    Sat c (Vec.clear c s) (fun _ _ => ∀ a ∈ l, c.dropPanics a = false) (fun _ => True) :=
  onBuf_sat hs h (Q := fun _ _ => ∀ a ∈ l, c.dropPanics a = false) (E := fun _ => True)
    (fun _ hb _ => (clear_buf hs hb).mono (fun _ _ h => h.2.2) (fun _ _ => trivial))
    (fun _ _ h => h) (fun _ h => h)

theorem index_spec {s : VSt α} {l : List α} (hs : c.size ≠ 0) (h : Rep c s.self s.w l) (i : Nat) :
    Vec.index c i s = if hi : i < l.length then .ok l[i] s else .panic s := by
  have := index_buf hs (h.brep hs) i
  split
  · rename_i hi
    rw [dif_pos hi] at this
    exact onBuf_look this
  · rename_i hi
    rw [dif_neg hi] at this
    exact onBuf_panic this

theorem asSlice_spec {s : VSt α} {l : List α} (hs : c.size ≠ 0) (h : Rep c s.self s.w l) :
    Vec.asSlice c s = .ok l s := onBuf_look (asSlice_buf hs (h.brep hs))

theorem indexSet_spec {s : VSt α} {l : List α} (hs : c.size ≠ 0) (h : Rep c s.self s.w l)
    (hw : s.w.WF) (i : Nat) (a : α) :
    Sat c (Vec.indexSet c i a s)
      (fun _ s' => ∃ hi : i < l.length, Trans c (l.set i a) [l[i]] s s' ∧
        s'.w.log.calls = s.w.log.calls ∧ s'.w.refusals = s.w.refusals ∧
        s'.self.cap = s.self.cap)
      (fun s' => (l.length ≤ i ∧ Trans c l [a] s s' ∧ s'.w.refusals = s.w.refusals) ∨
        (∃ hi : i < l.length, Trans c (l.set i a) [l[i]] s s' ∧ c.dropPanics l[i] = true ∧
          s'.w.refusals = s.w.refusals)) := by
  unfold Vec.indexSet
  by_cases hi : i < l.length
  · rw [M.bind_ok (M.onUnwind_ok (s' := s) (a := ()) (by
      rw [M.bind_ok (M.get_apply s), assert_pos (by rw [h.len]; exact hi)]))]
    refine onBuf_sat hs h (Q := fun _ b' => BTrans (l.set i a) [l[i]] (bufOf c s) b' ∧
        b'.log.calls = s.w.log.calls ∧ c.dropPanics l[i] = false)
      (E := fun b' => BTrans (l.set i a) [l[i]] (bufOf c s) b' ∧
        b'.log.calls = s.w.log.calls ∧ c.dropPanics l[i] = true) ?_ ?_ ?_
    · rintro b hb rfl; exact indexSet_buf hs hb hi a
    · rintro _ b ⟨h1, h2, _⟩; exact ⟨hi, putBuf_trans hs h hw h1, h2, by simp, rfl⟩
    · rintro b ⟨h1, h2, h3⟩; exact Or.inr ⟨hi, putBuf_trans hs h hw h1, h3, by simp⟩
  · refine Sat.bind (Q := fun _ _ => False) ?_ (fun _ _ h => h.elim)
    refine Sat.onUnwind (Q := fun _ _ => False) (E' := fun s' => s' = s) ?_ ?_
    · rw [M.bind_ok (M.get_apply s), assert_neg (by rw [h.len]; exact hi)]
      exact rfl
    · rintro s' rfl
      refine (Trans.dropVal a (Trans.refl h hw)).mono ?_ (fun _ h => ⟨_, h.2.2⟩)
      rintro _ s'' ⟨h4, rfl, _⟩
      exact Or.inl ⟨by omega, h4, rfl⟩

/-! ## drop -/

/-- The world with entries added to the drop log. -/
def World.addDrops (w : World α) (d : List α) : World α := { w with log := w.log.addDrops d }

/-- The world without the block at `p`. -/
def World.free (w : World α) (p : Option Nat) : World α :=
  { w with heap := fun q => if some q = p then none else w.heap q }

theorem dealloc_spec {s : VSt α} {l : List α} (h : Rep c s.self s.w l) (hc : 0 < s.self.cap) :
    Vec.dealloc c s = .ok () { s with w := s.w.free s.self.ptr } := by
  rcases h.buf with ⟨_, h0, _⟩ | ⟨p, b, rest, hp, hb, h1, h2, _, _, _, _⟩
  · omega
  · simp [Vec.dealloc, M.bind_apply, liftW, rawDealloc, hp, hb, h1, h2, World.free]

/-- Dropping a vector drops its elements in order and releases its buffer. If a destructor panics,
the remaining elements and the buffer are leaked. -/
theorem drop_spec {s : VSt α} {l : List α} (hs : c.size ≠ 0) (h : Rep c s.self s.w l) :
    Sat c (Vec.drop c s)
      (fun _ s' => s'.w = (s.w.free s.self.ptr).addDrops l ∧
        ∀ a ∈ l, c.dropPanics a = false)
      (fun s' => ∃ ys a zs, l = ys ++ a :: zs ∧ c.dropPanics a = true ∧
        (∀ y ∈ ys, c.dropPanics y = false) ∧
        s'.w = s.w.addDrops (ys ++ [a])) := by
  unfold Vec.drop
  rw [M.bind_ok (M.get_apply s), capacity_eq hs]
  by_cases hc : 0 < s.self.cap
  · rw [if_pos hc]
    have hb := h.brep hs
    refine Sat.bind (Q := fun _ s' => s' = ⟨s.self, s.w.addDrops l⟩ ∧
      ∀ a ∈ l, c.dropPanics a = false) ?_ ?_
    · have key := Buf.dropLoop_spec (b := bufOf c s) (i := 0) hs (xs := l)
        (fun k hk => by rw [Nat.zero_add]; exact hb.slot hk)
      rw [← h.len] at key
      rw [onBuf_eq]
      have hput : ∀ d, putBuf s { bufOf c s with log := s.w.log.addDrops d } =
          ⟨s.self, s.w.addDrops d⟩ := by
        intro d
        simp only [putBuf, bufOf, World.setSlots_slots]; rfl
      cases hr : Buf.dropLoop c 0 s.self.len (bufOf c s) with
      | ok a b =>
        rw [hr] at key
        obtain ⟨rfl, hall⟩ := key
        exact ⟨hput _, hall⟩
      | panic b =>
        rw [hr] at key
        obtain ⟨ys, a, zs, h1, h2, h3, rfl⟩ := key
        refine ⟨ys, a, zs, h1, h2, h3, ?_⟩
        exact congrArg St.w (hput _)
      | abort => simpa [Sat, hr] using key
      | ub u => rw [hr] at key; exact key
    · rintro _ s' ⟨rfl, hall⟩
      have hrep : Rep c s.self (s.w.addDrops l) l := h.congr (fun _ _ => rfl)
      rw [dealloc_spec (s := ⟨s.self, s.w.addDrops l⟩) hrep hc]
      exact ⟨rfl, hall⟩
  · rw [if_neg hc]
    rcases h.buf with ⟨h0, _, h2⟩ | ⟨_, _, _, _, _, _, _, _, _, h5, _⟩
    · subst h2
      refine ⟨?_, by simp⟩
      simp [World.free, World.addDrops, h0]
    · omega

/-- Dropping a vector whose elements have well-behaved destructors. -/
theorem drop_spec_ok {s : VSt α} {l : List α} (hs : c.size ≠ 0) (h : Rep c s.self s.w l)
    (hdp : ∀ a ∈ l, c.dropPanics a = false) :
    ∃ v, Vec.drop c s = .ok () ⟨v, (s.w.free s.self.ptr).addDrops l⟩ ∧
      v.ptr = s.self.ptr := by
  have hd : ∀ (b : Buf α) (i : Nat) (xs : List α), (∀ a ∈ xs, c.dropPanics a = false) →
      (∀ k (hk : k < xs.length), b.slots[i + k]? = some (some xs[k])) →
      Buf.dropLoop c i xs.length b = .ok () { b with log := b.log.addDrops xs } := by
    intro b i xs
    induction xs generalizing b i with
    | nil => intro _ _; simp [Buf.dropLoop]
    | cons a l ih =>
      intro hp hk
      have h0 : b.slots[i]? = some (some a) := hk 0 (Nat.succ_pos _)
      have hpa : c.dropPanics a = false := hp a (by simp)
      have e : Buf.dropAt c i b = .ok () { b with log := b.log.addDrops [a] } := by
        simp [Buf.dropAt, hs, h0, Buf.onLog, dropVal, hpa, Log.addDrops]
      rw [List.length_cons, Buf.dropLoop, M.bind_ok e, ih]
      · simp
      · intro x hx; exact hp x (by simp [hx])
      · intro k hk'
        have := hk (k + 1) (by simpa using hk')
        simpa [Nat.add_assoc, Nat.add_comm 1 k] using this
  unfold Vec.drop
  rw [M.bind_ok (M.get_apply s), capacity_eq hs]
  by_cases hc : 0 < s.self.cap
  · rw [if_pos hc]
    have hb := h.brep hs
    have key := hd (bufOf c s) 0 l hdp (fun k hk => by rw [Nat.zero_add]; exact hb.slot hk)
    rw [← h.len] at key
    have hput : putBuf s { bufOf c s with log := s.w.log.addDrops l } =
        ⟨s.self, s.w.addDrops l⟩ := by
      simp only [putBuf, bufOf, World.setSlots_slots]; rfl
    have e : Vec.onBuf c (Buf.dropLoop c 0 s.self.len) s = .ok ()
        ⟨s.self, s.w.addDrops l⟩ := by
      rw [onBuf_eq, key, ← hput]; rfl
    have hrep : Rep c s.self (s.w.addDrops l) l := h.congr (fun _ _ => rfl)
    rw [M.bind_ok e, dealloc_spec (s := ⟨s.self, s.w.addDrops l⟩) hrep hc]
    exact ⟨s.self, rfl, rfl⟩
  · rw [if_neg hc]
    rcases h.buf with ⟨h0, _, h2⟩ | ⟨_, _, _, _, _, _, _, _, _, h5, _⟩
    · subst h2
      refine ⟨s.self, ?_, rfl⟩
      simp [World.free, World.addDrops, h0]
    · omega

end Lokky
