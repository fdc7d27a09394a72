import Verif.Proofs.Boxed
import Verif.Props.Witness

/-!
# Properties of `Box` (C26, C27, C80)
-/

namespace Lokky
variable {α : Type} {c : Cfg α}

/-! ## C26 -/

/-- C26 fails for every type with a destructor: `Box::new(x)` drops the uninitialised contents of
the fresh block before it stores `x`. -/
theorem C26_refuted (hs : c.size ≠ 0) (hn : c.needsDrop = true) (x : α) (m : Marker)
    (w : World α) (hg : c.grant w.tick c.size = true) :
    Boxed.newWith c x m w = .ub .uninit := by
  simp only [Boxed.newWith]
  exact M.bind_ub (by rw [Boxed.tryNew_granted hs hg, if_pos hn])

example : cfg64.size ≠ 0 ∧ cfg64.needsDrop = true ∧ cfg64.grant world0.tick cfg64.size = true :=
  by decide +kernel

/-- C26 fails for every zero-sized type: the allocator is asked for zero bytes. -/
theorem C26_refuted_zst (hs : c.size = 0) (x : α) (m : Marker) (w : World α) :
    Boxed.newWith c x m w = .ub .zeroSize := by
  simp only [Boxed.newWith]
  exact M.bind_ub (Boxed.tryNew_zst hs)

example : ({ cfg64 with size := 0 } : Cfg Nat).size = 0 := rfl

/-- C26 for types without destructor and of non-zero size. If the request is refused, creating the
box panics, the value is gone and no memory was taken. Otherwise exactly one block was taken, from
the allocator selected for the marker; whatever is assigned through the box afterwards, the box reads
back the last value; dropping it gives the block back, leaving the heap as before. Every value was
dropped once, in the order in which they were replaced.

Missing for the full statement: types with a destructor and zero-sized types, for which it is
false (`C26_refuted`, `C26_refuted_zst`). -/
theorem C26_partial (hs : c.size ≠ 0) (hn : c.needsDrop = false)
    (hd : ∀ a, c.dropPanics a = false) (x : α) (m : Marker) (w : World α) (hw : w.WF) :
    (c.grant w.tick c.size = false ∧ ∃ w', Boxed.newWith c x m w = .panic w' ∧
      w'.heap = w.heap ∧ w'.log.drops = w.log.drops ++ [x]) ∨
    (∃ b w1, Boxed.newWith c x m w = .ok b w1 ∧
      b.marker = m ∧ b.alloc = w.allocFor m ∧
      w.heap b.ptr = none ∧ (∀ p, p ≠ b.ptr → w1.heap p = w.heap p) ∧
      (∃ k, w1.heap b.ptr = some k ∧ k.alloc = w.allocFor m ∧ k.bytes = c.size) ∧
      w1.log.drops = w.log.drops ∧
      ∀ ys : List α, ∃ s2, Boxed.assigns c ys ⟨b, w1⟩ = .ok () s2 ∧
        Boxed.read c s2 = .ok ((x :: ys).getLast (by simp)) s2 ∧
        s2.w.log.drops = w.log.drops ++ (x :: ys).dropLast ∧
        ∃ s3, Boxed.drop c s2 = .ok () s3 ∧ s3.w.heap = w.heap ∧
          s3.w.log.drops = w.log.drops ++ (x :: ys)) := by
  cases hg : c.grant w.tick c.size with
  | false =>
    refine Or.inl ⟨rfl, ?_⟩
    simp only [Boxed.newWith, M.bind_apply, Boxed.tryNew_refused hs hg, World.onLog, dropVal, hd x]
    exact ⟨_, rfl, rfl, rfl⟩
  | true =>
    right
    have e : Boxed.newWith c x m w = .ok ⟨w.next, w.allocFor m, m⟩
        ((w.fresh c (w.allocFor m)).put c ⟨w.next, w.allocFor m, m⟩ x []) := by
      simp only [Boxed.newWith, M.bind_apply, Boxed.tryNew_granted hs hg, hn]
      rfl
    refine ⟨_, _, e, rfl, rfl, hw _ (Nat.le_refl _), ?_, ?_, ?_, ?_⟩
    · intro p hp
      simp only at hp
      simp [World.put, World.fresh, hp]
    · exact ⟨_, World.put_owns _ _ _ _, rfl, rfl⟩
    · simp [World.put, World.fresh]
    · intro ys
      have ho := World.put_owns (c := c) (w.fresh c (w.allocFor m))
        ⟨w.next, w.allocFor m, m⟩ x []
      have ea := Boxed.assigns_eq hs hd ys ho
      refine ⟨_, ea, Boxed.read_eq hs (World.put_owns _ _ _ _), ?_, ?_⟩
      · simp [World.put, World.fresh]
      · have ed := Boxed.drop_eq hs (World.put_owns (c := c)
          ((w.fresh c (w.allocFor m)).put c ⟨w.next, w.allocFor m, m⟩ x [])
          ⟨w.next, w.allocFor m, m⟩ ((x :: ys).getLast (by simp)) ((x :: ys).dropLast))
        rw [hd] at ed
        refine ⟨_, ed, ?_, ?_⟩
        · funext r
          by_cases hr : r = w.next
          · subst hr; simp [World.gone, World.put, World.fresh, hw _ (Nat.le_refl _)]
          · simp [World.gone, World.put, World.fresh, hr]
        · simp only [World.gone, World.put, World.fresh, List.append_nil]
          rw [List.append_assoc, List.dropLast_concat_getLast]

/-- Values without destructor. -/
def cfgPlain : Cfg Nat := { cfg64 with needsDrop := false }

example : cfgPlain.size ≠ 0 ∧ cfgPlain.needsDrop = false ∧ (∀ a, cfgPlain.dropPanics a = false) ∧
    world0.WF ∧ cfgPlain.grant world0.tick cfgPlain.size = true :=
  ⟨by decide, rfl, fun _ => rfl, world0_wf, rfl⟩

/-- C26 for `Box::new`, for types without destructor and of non-zero size, when memory is granted: one block is taken, from
the allocator for no marker; the box reads the value, and dropping it leaves the heap as before. -/
theorem C26_new_partial (hs : c.size ≠ 0) (hn : c.needsDrop = false) (hd : ∀ a, c.dropPanics a = false) (x : α)
    (w : World α) (hw : w.WF) (hg : c.grant w.tick c.size = true) :
    ∃ b w1, Boxed.new c x w = .ok b w1 ∧ b.marker = none ∧ b.alloc = w.allocFor none ∧
      w.heap b.ptr = none ∧ (∃ k, w1.heap b.ptr = some k ∧ k.alloc = w.allocFor none ∧ k.bytes = c.size) ∧
      Boxed.read c ⟨b, w1⟩ = .ok x ⟨b, w1⟩ ∧
      ∃ s3, Boxed.drop c ⟨b, w1⟩ = .ok () s3 ∧ s3.w.heap = w.heap ∧ s3.w.log.drops = w.log.drops ++ [x] := by
  rcases C26_partial hs hn hd x none w hw with ⟨h, _⟩ | ⟨b, w1, h1, h2, h3, h4, _, h6, _, h8⟩
  · rw [hg] at h; cases h
  · obtain ⟨s2, e, k1, _, k3⟩ := h8 []
    cases e
    exact ⟨b, w1, h1, h2, h3, h4, h6, k1, k3⟩

/-- C26 fails for `Box::new` of every type with a destructor: it drops what it finds in the fresh memory. -/
theorem C26_refuted_new (hs : c.size ≠ 0) (hn : c.needsDrop = true) (x : α) (w : World α)
    (hg : c.grant w.tick c.size = true) : Boxed.new c x w = .ub .uninit :=
  C26_refuted hs hn x none w hg

example : (∃ b w1, Boxed.new cfgPlain 7 world0 = .ok b w1) ∧ Boxed.new cfg64 7 world0 = .ub .uninit :=
  ⟨⟨_, _, rfl⟩, rfl⟩

/-! ## C27 -/

/-- C27 fails for every box: `into_inner` reads the value and releases the block, and then the box
itself is dropped at the end of the function, which accesses the released block. -/
theorem C27_refuted (hs : c.size ≠ 0) (b : BoxH) (w : World α) (x : α)
    (h : w.heap b.ptr = some ⟨b.alloc, c.size, [some x]⟩) :
    Boxed.intoInner c ⟨b, w⟩ = .ub .oob :=
  Boxed.intoInner_eq hs h

/-- In particular right after creating a box. -/
theorem C27_refuted_new (hs : c.size ≠ 0) (x : α) (m : Marker) (w : World α)
    {b : BoxH} {w1 : World α} (h : Boxed.newWith c x m w = .ok b w1) :
    Boxed.intoInner c ⟨b, w1⟩ = .ub .oob := by
  cases hg : c.grant w.tick c.size with
  | false =>
    rw [show Boxed.newWith c x m = Boxed.tryNew c x m >>= Vec.unwrap from rfl, M.bind_apply,
      Boxed.tryNew_refused hs hg] at h
    simp only [M.bind_apply, World.onLog, dropVal] at h
    cases hp : c.dropPanics x <;> simp [hp, Vec.unwrap] at h
  | true =>
    rw [show Boxed.newWith c x m = Boxed.tryNew c x m >>= Vec.unwrap from rfl, M.bind_apply,
      Boxed.tryNew_granted hs hg] at h
    cases hn : c.needsDrop with
    | true => rw [hn] at h; cases h
    | false =>
      rw [hn] at h
      injection h with h1 h2
      subst h1 h2
      exact Boxed.intoInner_eq hs (World.put_owns _ _ _ _)

example : ∃ b w1, Boxed.newWith cfgPlain 7 none world0 = .ok b w1 := ⟨_, _, rfl⟩

/-! ## C80 -/

/-- C80: comparing two boxes compares their values, changes nothing, and does not depend on where
the values are stored, nor on allocators and markers. -/
theorem C80_box_compares_values (hs : c.size ≠ 0) (b b' : BoxH) (w : World α) (x y : α)
    (h : w.heap b.ptr = some ⟨b.alloc, c.size, [some x]⟩)
    (h' : w.heap b'.ptr = some ⟨b'.alloc, c.size, [some y]⟩)
    (e : α → α → Bool) (o : α → α → Ordering) :
    Boxed.eq c e ⟨(b, b'), w⟩ = .ok (e x y) ⟨(b, b'), w⟩ ∧
    Boxed.cmp c o ⟨(b, b'), w⟩ = .ok (o x y) ⟨(b, b'), w⟩ := by
  constructor
  · simp [Boxed.eq, M.bind_apply, onPart, Boxed.read_eq hs h, Boxed.read_eq hs h']
  · simp [Boxed.cmp, M.bind_apply, onPart, Boxed.read_eq hs h, Boxed.read_eq hs h']

example : ∃ (b b' : BoxH) (w : World Nat), b.ptr ≠ b'.ptr ∧ b.marker ≠ b'.marker ∧
    w.heap b.ptr = some ⟨b.alloc, cfg64.size, [some 3]⟩ ∧
    w.heap b'.ptr = some ⟨b'.alloc, cfg64.size, [some 5]⟩ :=
  ⟨⟨0, 0, none⟩, ⟨1, 2, some 4⟩,
   { world0 with heap := fun p => if p = 0 then some ⟨0, 8, [some 3]⟩
      else if p = 1 then some ⟨2, 8, [some 5]⟩ else none }, by simp, by simp, rfl, rfl⟩

end Lokky
