import Verif.Model.Format
import Verif.Props.PtrEq
import Verif.Props.SmallCmp

/-!
# C142: `Debug`, `Display` and `Pointer` of handles and vectors
-/

namespace Lokky
open Spec
variable {α F : Type} {c : Cfg α} (d : Fmts α F)

/-- In state `s`, the call `m` does with every formatter what `g` does, returns what it returns and panics if it
panics, and changes nothing else. -/
def Shows {σ : Type} (m : F → M σ (F × Bool)) (g : F → F × FmtEnd) (s : σ) : Prop := ∀ f,
  (∀ f', g f = (f', .ok) → m f s = .ok (f', true) s) ∧
  (∀ f', g f = (f', .err) → m f s = .ok (f', false) s) ∧
  (∀ f', g f = (f', .panic) → m f s = .panic s)

theorem shows_of {σ : Type} {m : F → M σ (F × Bool)} {g : F → F × FmtEnd} {s : σ}
    (h : ∀ f, m f s = fmtEnd (g f) s) : Shows m g s := fun f =>
  ⟨fun f' e => by rw [h, e]; rfl, fun f' e => by rw [h, e]; rfl, fun f' e => by rw [h, e]; rfl⟩

/-- C142 for `Box`. -/
theorem C142_box (hs : c.size ≠ 0) (b : BoxH) (w : World α) (x : α)
    (h : w.heap b.ptr = some ⟨b.alloc, c.size, [some x]⟩) :
    Shows (Boxed.debug c d) (d.debug x) ⟨b, w⟩ ∧ Shows (Boxed.display c d) (d.display x) ⟨b, w⟩ :=
  ⟨shows_of fun f => by rw [Boxed.debug, M.bind_ok (Boxed.read_eq hs h)],
   shows_of fun f => by rw [Boxed.display, M.bind_ok (Boxed.read_eq hs h)]⟩

example : ∃ (b : BoxH) (w : World Nat), cfg64.size ≠ 0 ∧
    w.heap b.ptr = some ⟨b.alloc, cfg64.size, [some 3]⟩ :=
  ⟨⟨0, 0, none⟩, { world0 with heap := fun p => if p = 0 then some ⟨0, 8, [some 3]⟩ else none },
    by decide, rfl⟩

/-- C142 for `Rc`, after all histories: what is shown is the value that reading the handle gives. -/
theorem C142_rc {hist : RcHistory α} {P : RcPool α} (h : RcReaches c RcCmd.Callable hist P)
    (hl : hist.length < c.usizeMax) {i p : Nat} (hi : P.hands[i]? = some (some (.rc p))) :
    ∃ x, runRc c (.read i) P = .ok (.val x) P ∧
      Shows (Rc.debug d p) (d.debug x) P.w ∧ Shows (Rc.display d p) (d.display x) P.w := by
  obtain ⟨I, -⟩ := h.inv hl
  obtain ⟨b, hb, -⟩ := I.box p (I.rc_lt hi)
  refine ⟨b.val, ?_, shows_of fun f => ?_, shows_of fun f => ?_⟩
  · simp only [runRc, hi, RcPool.look, RcPool.on, Rc.asRef_eq hb]
  · rw [Rc.debug, M.bind_ok (Rc.asRef_eq hb)]
  · rw [Rc.display, M.bind_ok (Rc.asRef_eq hb)]

example : ∃ hist P, RcReaches cfg64 RcCmd.Callable hist P ∧ hist.length < cfg64.usizeMax ∧
    P.hands[0]? = some (some (.rc 0)) ∧ runRc cfg64 (.read 0) P = .ok (.val 7) P :=
  ⟨_, ⟨[some (.rc 0)], ⟨[some ⟨1, 0, 7⟩], 1, 0, 0, []⟩⟩,
    rcTrace_callable (cs := [.new 7]) (evs := [.ret .unit]) (by decide +kernel), by decide +kernel, rfl, rfl⟩

/-- C142 for `Arc`, in all runs in which `make_mut` is not refused memory: `Debug` and `Display`. -/
theorem C142_arc_partial {mx n : Nat} {s : ArcSys α} (h : ArcReaches mx True n s) (hn : n ≤ mx) {i p : Nat}
    (hi : s.hands[i]? = some (some p)) :
    ∃ o : ArcObj α, s.objs[p]? = some o ∧ o.alive = true ∧
      Shows (Arc.debug d p) (d.debug o.val) s ∧ Shows (Arc.display d p) (d.display o.val) s := by
  have I := h.inv hn
  obtain ⟨o, ho, -, ha, hf, -⟩ := I.live (ArcInv.own_pos_of_hand hi) (h.whole.not_lost p)
  have e := ArcInv.data_ok ho hf ha
  exact ⟨o, ho, ha, shows_of fun f => by rw [Arc.debug, M.bind_ok e],
    shows_of fun f => by rw [Arc.display, M.bind_ok e]⟩

example : ∃ (n : Nat) (s : ArcSys Nat), ArcReaches arcMax True n s ∧ n ≤ arcMax ∧ s.hands[0]? = some (some 0) :=
  ⟨_, arcEnd true [.new 0 7], arcEnd_calm (by decide +kernel), by decide +kernel, by decide +kernel⟩

/-- C142 is false for `Arc` where `make_mut` was refused memory: the value of handle 1 is gone, and reading it is
undefined behaviour. -/
theorem C142_arc_refuted : ∃ (n : Nat) (s : ArcSys Nat), ArcReaches arcMax False n s ∧ n < arcMax ∧
    s.hands[1]? = some (some 0) ∧ ∀ (d : Fmts Nat String) f, Arc.debug d 0 f s = .ub .uninit :=
  ⟨_, arcEnd false arcSpent, arcEnd_any (by decide +kernel), by decide +kernel, by decide +kernel, fun _ _ => rfl⟩

/-- C142 for `Arc`, in all runs: `Pointer` shows the same address for two handles exactly if `ptr_eq` is true. -/
theorem C142_arc_pointer {mx n : Nat} {calm : Prop} {s : ArcSys α} (h : ArcReaches mx calm n s) (hn : n ≤ mx)
    {i j p q : Nat} (hi : s.hands[i]? = some (some p)) (hj : s.hands[j]? = some (some q)) :
    ∃ a b, Shows (Arc.pointer d p) (d.pointer a) s ∧ Shows (Arc.pointer d q) (d.pointer b) s ∧
      Arc.ptrEq p q s = .ok (decide (a = b)) s := by
  obtain ⟨o, ho, hf⟩ := (h.inv hn).hand_obj hi
  obtain ⟨o', ho', hf'⟩ := (h.inv hn).hand_obj hj
  exact ⟨p, q, shows_of fun f => by rw [Arc.pointer, M.bind_ok (ArcInv.obj_ok ho hf)],
    shows_of fun f => by rw [Arc.pointer, M.bind_ok (ArcInv.obj_ok ho' hf')], C110_arc h hn hi hj⟩

/-- C142 for `Urc`, after permitted histories: `Debug` and `Display`. -/
theorem C142_urc_partial {hist : List (UrcCmd α × Option (UrcOut α))} {P : UrcPool α}
    (h : UrcReaches c (UrcCmd.Permitted c) hist P) (hl : hist.length ≤ c.usizeMax) {i f : Nat}
    (hi : P.hands[i]? = some (some (.urc f))) :
    ∃ x, P.Reads c i x ∧ Shows (Urc.debug d f) (d.debug x) P.w ∧ Shows (Urc.display d f) (d.display x) P.w := by
  have I := h.inv hl
  obtain ⟨F, x, hF, hx, ha, -⟩ := I.ok.owner (urcCount_pos hi) trivial
  have e : Urc.asRef f P.w = .ok x.val P.w := Urc.asRef_eq hF hx ha
  exact ⟨x.val, (reads_iff hi).mpr ⟨F, x, hF, hx, ha, rfl⟩, shows_of fun f => by rw [Urc.debug, M.bind_ok e],
    shows_of fun f => by rw [Urc.display, M.bind_ok e]⟩

example : ∃ hist P, UrcReaches cfg64 (UrcCmd.Permitted cfg64) hist P ∧ hist.length ≤ cfg64.usizeMax ∧
    P.hands[0]? = some (some (.urc 0)) ∧ P.Reads cfg64 0 7 :=
  ⟨_, ⟨[some (.urc 0)], ⟨[some ⟨1, 0, 7, true, 0⟩], [some ⟨1, 0, 0⟩], 2, 0, []⟩⟩,
    urcTrace_permitted (cs := [.new 7]) (evs := [some .unit]) (by decide +kernel), by decide +kernel, rfl, rfl⟩

/-- C142 is false for `Urc` after other histories: `make_mut` has moved the value of handle 1 away, and reading it
is undefined behaviour. -/
theorem C142_urc_refuted : ∃ P, UrcReaches cfgRcRelease UrcAny
    [(.new 7, some .unit), (.clone 0, some .unit), (.makeMut 0 (· + 1), some (.val 7))] P ∧
    P.hands[1]? = some (some (.urc 0)) ∧ ∀ (d : Fmts Nat String) f, Urc.debug d 0 f P.w = .ub .uninit :=
  ⟨_, urcTrace_callable (cs := [.new 7, .clone 0, .makeMut 0 (· + 1)])
    (evs := [some .unit, some .unit, some (.val 7)]) (P := ⟨[some (.urc 1), some (.urc 0)],
      ⟨[some ⟨0, 1, 7, false, 0⟩, some ⟨1, 0, 8, true, 0⟩],
       [some ⟨2 ^ 64 - 1, 2 ^ 64 - 1, 0⟩, some ⟨1, 0, 1⟩], 4, 0, []⟩⟩) (by decide +kernel), rfl, fun _ _ => rfl⟩

/-- C142 for `Urc`, after all histories: `Pointer` shows the same address for two handles exactly if `ptr_eq` is
true. -/
theorem C142_urc_pointer {hist : List (UrcCmd α × Option (UrcOut α))} {P : UrcPool α} {D : List Nat}
    (h : UrcHolds c hist P D) {i j f g : Nat}
    (hi : P.hands[i]? = some (some (.urc f))) (hj : P.hands[j]? = some (some (.urc g))) :
    ∃ a b, Shows (Urc.pointer d D i) (d.pointer a) P.w ∧ Shows (Urc.pointer d D j) (d.pointer b) P.w ∧
      Urc.ptrEqKept D i j P.w = .ok (decide (a = b)) P.w := by
  obtain ⟨x, hx⟩ := h.kept.there i _ hi
  obtain ⟨y, hy⟩ := h.kept.there j _ hj
  refine ⟨_, _, shows_of fun f => ?_, shows_of fun f => ?_, (C110_urc h hi hj).1⟩
  · rw [Urc.pointer, Urc.asPtr, M.bind_apply, M.bind_ok (Urc.master_eq hx)]; rfl
  · rw [Urc.pointer, Urc.asPtr, M.bind_apply, M.bind_ok (Urc.master_eq hy)]; rfl

/-- C142 for `Vec`: what slices with the content show. -/
theorem C142_vec {s : VSt α} {l : List α} (hz : c.size ≠ 0) (h : Rep c s.self s.w l) :
    Shows (Vec.debug c d) (d.debugSlice l) s :=
  shows_of fun f => by rw [Vec.debug, M.bind_ok (asSlice_spec hz h)]

/-- C142 for `SmallVec`: what slices with the content show, wherever the elements are. -/
theorem C142_small {s : SSt α} {l : List α} (hz : c.size ≠ 0) (h : SRep c s.self s.w l) :
    Shows (Small.debug c d) (d.debugSlice l) s :=
  shows_of fun f => by rw [Small.debug, M.bind_ok (sasSlice_spec hz h)]

/-- Formatting into a text that never fails. -/
def plainFmts (dbg disp : α → List Char) (ptr : Nat → List Char) : Fmts α (List Char) :=
  ⟨fun a s => (s ++ dbg a, .ok), fun a s => (s ++ disp a, .ok), fun p s => (s ++ ptr p, .ok),
   fun t s => (s ++ t.toList, .ok)⟩

theorem debugRest_plain {dbg disp : α → List Char} {ptr : Nat → List Char} (l : List α) (s : List Char) :
    (plainFmts dbg disp ptr).debugRest l s = (s ++ (l.map fun a => [',', ' '] ++ dbg a).flatten, .ok) := by
  induction l generalizing s with
  | nil => simp [Fmts.debugRest]
  | cons a l ih =>
    simp only [Fmts.debugRest, fmtThen, plainFmts] at ih ⊢
    rw [ih]
    simp

theorem intercalate_flatten (sep a : List Char) (l : List (List Char)) :
    sep.intercalate (a :: l) = a ++ (l.map fun b => sep ++ b).flatten := by
  induction l generalizing a with
  | nil => simp [List.intercalate]
  | cons b l ih =>
    have := ih b
    simp only [List.intercalate] at this ⊢
    simp [List.intersperse, this]

/-- C142 for vectors: the text is `[`, the elements with `, ` between them, and `]`. -/
theorem C142_text (dbg disp : α → List Char) (ptr : Nat → List Char) (hz : c.size ≠ 0) {l : List α}
    (f : List Char) :
    (∀ s : VSt α, Rep c s.self s.w l → Vec.debug c (plainFmts dbg disp ptr) f s
      = .ok (f ++ ['['] ++ [',', ' '].intercalate (l.map dbg) ++ [']'], true) s) ∧
    (∀ s : SSt α, SRep c s.self s.w l → Small.debug c (plainFmts dbg disp ptr) f s
      = .ok (f ++ ['['] ++ [',', ' '].intercalate (l.map dbg) ++ [']'], true) s) := by
  have e : (plainFmts dbg disp ptr).debugSlice l f
      = (f ++ ['['] ++ [',', ' '].intercalate (l.map dbg) ++ [']'], .ok) := by
    cases l with
    | nil => simp [Fmts.debugSlice, fmtThen, plainFmts, List.intercalate]
    | cons a l =>
      have := debugRest_plain (dbg := dbg) (disp := disp) (ptr := ptr) l (f ++ ['['] ++ dbg a)
      simp only [plainFmts] at this
      simp [Fmts.debugSlice, fmtThen, plainFmts] at this ⊢
      rw [this, intercalate_flatten]
      simp [List.map_map, Function.comp_def]
  exact ⟨fun s h => (C142_vec _ hz h f).1 _ e, fun s h => (C142_small _ hz h f).1 _ e⟩

example : SRep cfg64 (mixedPair [7, 8] [7, 8, 9]).self.1 (mixedPair [7, 8] [7, 8, 9]).w [7, 8] ∧
    SRep cfg64 (mixedPair [7, 8] [7, 8, 9]).self.2 (mixedPair [7, 8] [7, 8, 9]).w [7, 8, 9] :=
  ⟨inline_rep (by decide) (by decide), spilled_rep (by decide) (by decide) (by decide) (by decide)⟩

example : lookRes (Vec.debug cfg64 (plainFmts (fun n => List.replicate n 'x') (fun _ => []) (fun _ => [])) ['>']
    (stored cfg64 [1, 2, 3] 4)) = some (['>', '[', 'x', ',', ' ', 'x', 'x', ',', ' ', 'x', 'x', 'x', ']'], true) := by
  decide +kernel

end Lokky
