import Verif.Props.Boxed
import Verif.Props.ArcGraph
import Verif.Model.Rc
import Verif.Model.Urc

/-!
# C135: a handle that cannot be made, as memory is refused, leaves nothing behind
-/

namespace Lokky
variable {α : Type} {c : Cfg α}

/-- C135 for `Box`: the value is dropped, once, and nothing else is changed. -/
theorem C135_box_partial (hs : c.size ≠ 0) (hd : ∀ a, c.dropPanics a = false) (x : α) (m : Marker) (w : World α)
    (hg : c.grant w.tick c.size = false) :
    ∃ w', Boxed.newWith c x m w = .panic w' ∧ w'.log.drops = w.log.drops ++ [x] ∧ w'.heap = w.heap ∧
      w'.next = w.next := by
  simp only [Boxed.newWith, M.bind_apply, Boxed.tryNew_refused hs hg, World.onLog, dropVal, hd x]
  exact ⟨_, rfl, rfl, rfl, rfl⟩

/-- C135 for `Rc`, the part that holds: memory stays as it was. -/
theorem C135_rc_partial (x : α) (w : RcWorld α) (hg : c.grant w.tick c.size = false) :
    ∃ w', Rc.new c x w = .panic w' ∧ w'.boxes = w.boxes := by
  simp only [Rc.new, M.bind_apply, Rc.alloc, hg]
  exact ⟨_, rfl, rfl⟩

/-- C135 does not hold for `Rc`: the value is gone and its destructor was not run. -/
theorem C135_rc_refuted (x : α) (w : RcWorld α) (hg : c.grant w.tick c.size = false) :
    ∃ w', Rc.new c x w = .panic w' ∧ w'.dropped = w.dropped ∧ w'.boxes = w.boxes := by
  simp only [Rc.new, M.bind_apply, Rc.alloc, hg]
  exact ⟨_, rfl, rfl, rfl⟩

/-- C135 does not hold for `Arc`: handles in the value are lost; the objects they refer to are never dropped. For any
state of the threads. -/
theorem C135_arc_refuted (mx t : Nat) (ops : List GOp) (u : Bool) (hs : List Nat) (s : GSys) :
    ∃ s', Graph.call mx t ops u false (.new hs) s = .ok () s' ∧ s'.objs = s.objs ∧ s'.threads = s.threads ∧
      s'.hands = s.hands.diff hs ∧ s'.lost = s.lost ++ hs := ⟨_, rfl, rfl, rfl, rfl, rfl⟩

/-- C135 for `Urc`, if the first of the two requests is refused: memory stays as it was. -/
theorem C135_urc_partial (x : α) (w : UrcWorld α) (hg : c.grant w.tick c.size = false) :
    ∃ w', Urc.new c x w = .panic w' ∧ w'.masters = w.masters ∧ w'.fences = w.fences := by
  simp only [Urc.new, M.bind_apply, Urc.allocMaster, hg]
  exact ⟨_, rfl, rfl, rfl⟩

/-- C135 does not hold for `Urc`: the value is gone and its destructor was not run. -/
theorem C135_urc_refuted (x : α) (w : UrcWorld α) (hg : c.grant w.tick c.size = false) :
    ∃ w', Urc.new c x w = .panic w' ∧ w'.dropped = w.dropped ∧ w'.masters = w.masters := by
  simp only [Urc.new, M.bind_apply, Urc.allocMaster, hg]
  exact ⟨_, rfl, rfl, rfl⟩

/-- C135 does not hold for `Urc`: if the second request is refused, the memory of the first is never given back, with the
value in it, and no fence leads to it. -/
theorem C135_urc_memory_refuted (x : α) (w : UrcWorld α) (hg : c.grant w.tick c.size = true)
    (hg' : c.grant (w.tick + 1) c.size = false) :
    ∃ w', Urc.new c x w = .panic w' ∧ w'.masters = w.masters ++ [some ⟨1, 0, x, true, 0⟩] ∧ w'.fences = w.fences ∧
      w'.dropped = w.dropped := by
  simp only [Urc.new, M.bind_apply, Urc.allocMaster, if_pos hg, Urc.allocFence, hg']
  exact ⟨_, rfl, rfl, rfl, rfl⟩

/-- C135 does not hold for sending a `Urc`: when that is refused memory, the value counts a thread more than have it, and
stays so. The only handle then gets no access to the value by `get_mut`, nor by `try_unwrap`. -/
theorem C135_envelop_refuted {f : Nat} {F : UrcFence} {x : UrcMaster α} {w : UrcWorld α}
    (hF : w.fences[f]? = some (some F)) (hx : w.masters[F.master]? = some (some x)) (h1 : x.sf = 1) (hm : 1 < c.usizeMax)
    (hg : c.grant w.tick c.size = false) :
    ∃ w', Urc.envelop c f w = .panic w' ∧ w'.fences = w.fences ∧
      (∃ w2, Urc.getMut c f w' = .ok false w2) ∧ Urc.tryUnwrap f w' = .ok none w' := by
  obtain ⟨hl, hx'⟩ := List.getElem?_eq_some_iff.mp hx
  have e1 : Urc.fence f w = .ok F w := by simp only [Urc.fence, hF]
  have e2 : Urc.master F.master w = .ok x w := by simp only [Urc.master, hx]
  have hw : Urc.wrapAdd c x.sf = 2 := by simp only [Urc.wrapAdd, h1]; rw [if_neg (by omega)]
  refine ⟨⟨w.masters.set F.master (some { x with sf := 2, sent := x.sent + 1 }), w.fences, w.tick + 1, w.calls, w.dropped⟩,
    ?_, rfl, ?_, ?_⟩
  · simp only [Urc.envelop, M.bind_apply, e1, e2, Urc.putMaster, M.modify_apply, Urc.allocFence, hg, hw]
    rfl
  · simp only [Urc.getMut, M.bind_apply, Urc.fence, hF, Urc.master, List.getElem?_set_self hl, Urc.putMaster]
    split
    · simp only [M.bind_apply, M.modify_apply, Urc.master, List.set_set, List.getElem?_set_self hl]
      rw [if_neg (by simp)]
      exact ⟨_, rfl⟩
    · exact ⟨_, rfl⟩
  · simp only [Urc.tryUnwrap, M.bind_apply, Urc.fence, hF, Urc.master, List.getElem?_set_self hl]
    rw [if_neg (by simp)]
    rfl

/-- A program sends a `Urc` a number of times, is refused memory each time, and catches the panics. -/
inductive EnvelopCaught (c : Cfg α) (f : Nat) : Nat → UrcWorld α → UrcWorld α → Prop
  | done (w : UrcWorld α) : EnvelopCaught c f 0 w w
  | again {n : Nat} {w w' w'' : UrcWorld α} : Urc.envelop c f w = .panic w' → EnvelopCaught c f n w' w'' →
    EnvelopCaught c f (n + 1) w w''

theorem envelopCaught {f : Nat} {F : UrcFence} (hg : ∀ t, c.grant t c.size = false) (n : Nat) :
    ∀ {x : UrcMaster α} {w : UrcWorld α}, w.fences[f]? = some (some F) → w.masters[F.master]? = some (some x) →
      x.sf ≤ c.usizeMax →
    ∃ w' t, EnvelopCaught c f n w w' ∧ w'.fences = w.fences ∧
      w'.masters = w.masters.set F.master (some { x with sf := (x.sf + n) % (c.usizeMax + 1), sent := t }) := by
  induction n with
  | zero =>
    intro x w hF hx hs
    obtain ⟨hl, hx'⟩ := List.getElem?_eq_some_iff.mp hx
    refine ⟨w, x.sent, .done w, rfl, ?_⟩
    rw [Nat.add_zero, Nat.mod_eq_of_lt (by omega)]
    conv_lhs => rw [← List.set_getElem_self hl, hx']
  | succ n ih =>
    intro x w hF hx hs
    obtain ⟨hl, hx'⟩ := List.getElem?_eq_some_iff.mp hx
    have hw : Urc.wrapAdd c x.sf = (x.sf + 1) % (c.usizeMax + 1) := by
      unfold Urc.wrapAdd
      split
      · next h => rw [h, Nat.mod_self]
      · rw [Nat.mod_eq_of_lt (by omega)]
    have e1 : Urc.envelop c f w = .panic ⟨w.masters.set F.master
        (some { x with sf := (x.sf + 1) % (c.usizeMax + 1), sent := x.sent + 1 }), w.fences, w.tick + 1, w.calls,
          w.dropped⟩ := by
      simp only [Urc.envelop, M.bind_apply, Urc.fence, hF, Urc.master, hx, Urc.putMaster, M.modify_apply, Urc.allocFence,
        hg, hw]
      rfl
    obtain ⟨w', t, h1, h2, h3⟩ := ih (x := { x with sf := (x.sf + 1) % (c.usizeMax + 1), sent := x.sent + 1 })
      (w := ⟨_, w.fences, w.tick + 1, w.calls, w.dropped⟩) hF (List.getElem?_set_self hl)
      (Nat.le_of_lt_succ (Nat.mod_lt _ (Nat.succ_pos _)))
    refine ⟨w', t, .again e1 h1, h2, ?_⟩
    rw [h3, List.set_set]
    simp only [Nat.mod_add_mod, Nat.add_assoc, Nat.add_comm 1 n]

/-- C135 does not hold for sending a `Urc`, with worse effect: no memory is needed to get the number of threads to wrap
around, and then `get_mut` gives access to a value that another thread has. -/
theorem C135_envelop_count_refuted {f g : Nat} {F G : UrcFence} {x : UrcMaster α} {w : UrcWorld α} (_hfg : f ≠ g)
    (hF : w.fences[f]? = some (some F)) (hG : w.fences[g]? = some (some G)) (hm : G.master = F.master)
    (hx : w.masters[F.master]? = some (some x)) (h2 : x.sf = 2) (h0 : x.wf = 0) (hs : F.strong = 1) (hw : F.weak = 0)
    (h1 : 2 ≤ c.usizeMax) (hg : ∀ t, c.grant t c.size = false) :
    ∃ w' w2, EnvelopCaught c f c.usizeMax w w' ∧ w'.fences[g]? = some (some G) ∧
      (∃ x', w'.masters[G.master]? = some (some x') ∧ x'.alive = x.alive ∧ x'.val = x.val) ∧
      Urc.getMut c f w' = .ok true w2 := by
  obtain ⟨w', t, hc, hf, hms⟩ := envelopCaught hg c.usizeMax hF hx (by omega)
  obtain ⟨hl, -⟩ := List.getElem?_eq_some_iff.mp hx
  have e : (x.sf + c.usizeMax) % (c.usizeMax + 1) = 1 := by
    rw [h2, show 2 + c.usizeMax = 1 + (c.usizeMax + 1) by omega, Nat.add_mod_right, Nat.mod_eq_of_lt (by omega)]
  rw [e] at hms
  obtain ⟨ms, fs, tk, cl, dr⟩ := w'
  simp only at hf hms
  subst hf; subst hms
  refine ⟨_, ?_, hc, hG, ⟨{ x with sf := 1, sent := t }, by rw [hm]; exact List.getElem?_set_self hl, rfl, rfl⟩, ?_⟩
  rotate_left
  · simp only [Urc.getMut, M.bind_apply, Urc.fence, hF, Urc.master, List.getElem?_set_self hl, Urc.putMaster, h0, if_true,
      M.modify_apply, List.set_set, M.pure_apply, hs, hw]
    rfl

/-- An allocator that has memory for two requests. -/
def cfgTwo : Cfg Nat := { cfg64 with grant := fun t _ => decide (t < 2) }

/-- A value is made, and cannot be sent; then nobody else has it, and `get_mut` gives no access. -/
example : (match (do let f ← Urc.new cfgTwo 7
                     pure f : M (UrcWorld Nat) Nat) ⟨[], [], 0, 0, []⟩ with
    | .ok f w => match Urc.envelop cfgTwo f w with
      | .panic w' => (match Urc.getMut cfgTwo f w' with | .ok b _ => some (b, w'.fences.length) | _ => none)
      | _ => none
    | _ => none) = some (false, 1) := by decide +kernel

/-- The second request is refused. -/
example : (match Urc.new { cfgTwo with grant := fun t _ => decide (t < 1) } 7 ⟨[], [], 0, 0, []⟩ with
    | .panic w => some (w.masters, w.fences.length, w.dropped)
    | _ => none) = some ([some ⟨1, 0, 7, true, 0⟩], 0, []) := by decide +kernel

example : ({ cfgTwo with grant := fun _ _ => false }).grant 0 cfg64.size = false ∧ cfgTwo.size ≠ 0 := by decide

/-- Two threads have a value, and there is no more memory. -/
example : ∃ w' w2, EnvelopCaught { cfg64 with grant := fun _ _ => false } 0 cfg64.usizeMax
      (⟨[some ⟨2, 0, 7, true, 1⟩], [some ⟨1, 0, 0⟩, some ⟨1, 0, 0⟩], 3, 0, []⟩ : UrcWorld Nat) w' ∧
    w'.fences[1]? = some (some ⟨1, 0, 0⟩) ∧ Urc.getMut { cfg64 with grant := fun _ _ => false } 0 w' = .ok true w2 := by
  obtain ⟨w', w2, h1, h2, -, h4⟩ := C135_envelop_count_refuted (c := { cfg64 with grant := fun _ _ => false }) (f := 0)
    (g := 1) (F := ⟨1, 0, 0⟩) (G := ⟨1, 0, 0⟩) (x := ⟨2, 0, 7, true, 1⟩)
    (w := ⟨[some ⟨2, 0, 7, true, 1⟩], [some ⟨1, 0, 0⟩, some ⟨1, 0, 0⟩], 3, 0, []⟩)
    (by decide) rfl rfl rfl rfl rfl rfl rfl rfl (by decide) (fun _ => rfl)
  exact ⟨w', w2, h1, h2, h4⟩

end Lokky
