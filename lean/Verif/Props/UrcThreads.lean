import Verif.Proofs.UrcTUse

/-!
# C118, and C67, C68, C71, C72, C87 for threads whose steps interleave

`Urc` as a system of threads, with the memory orderings of the source (Model/UrcThreads.lean). Runs of `n` steps from
`UrcTReaches dbg mx calm sync n`: `calm` leaves out the faults of `try_unwrap` and `make_mut` refuted in C71 and C72
(`UrcAct.faulty`); `sync` leaves out writes through `&T`. A step is at most one access to memory that
others can see. `mx` is `usize::MAX`; runs are shorter than that.

`s.master h`: the value that handle `h` shares (Spec/UrcThreads.lean), `s.reads h`: what it reads.
-/

namespace Lokky
variable {α : Type} {dbg : Bool} {mx n m t h f : Nat} {s s0 s1 s2 s' : UrcSys α}

/-- A run of three threads in a release build, 64 bits, and what is next. -/
def urcTry (calm sync : Bool) (l : List (UrcAct Nat)) (look : UrcSys Nat → Option Bool) : Option Bool :=
  match UrcAct.acts false (2 ^ 64 - 1) calm sync l (.start 3) with
  | some s => look s
  | none => none

theorem urcTry_reaches {calm sync : Bool} {l : List (UrcAct Nat)} {look : UrcSys Nat → Option Bool}
    (h : urcTry calm sync l look = some true) :
    ∃ s, UrcTReaches false (2 ^ 64 - 1) calm sync l.length s ∧ look s = some true := by
  unfold urcTry at h
  split at h
  · rename_i s e
    have := UrcAct.reaches (.start 3) e
    rw [Nat.zero_add] at this
    exact ⟨s, this, h⟩
  · cases h

/-- The next step is a data race. -/
def urcRaces (sync : Bool) (a : UrcAct Nat) (s : UrcSys Nat) : Option Bool :=
  match a.act false (2 ^ 64 - 1) s with
  | .ub .race => some (a.enabled sync s)
  | _ => none

theorem urcRaces_iff {sync : Bool} {a : UrcAct Nat} {s : UrcSys Nat} (h : urcRaces sync a s = some true) :
    a.enabled sync s = true ∧ a.act false (2 ^ 64 - 1) s = .ub .race := by
  unfold urcRaces at h
  split at h
  · rename_i e
    exact ⟨by simpa using h, e⟩
  · cases h

/-! ## C118 -/

/-- C118 fails for values with `&T` that can be written through, such as `Cell`: an `Envelope` is `Send` whatever is
in it (scope.rs 211), so that two threads can have handles of the value. Two threads write at the same time. -/
theorem C118_refuted_sync : ∃ (n : Nat) (s : UrcSys Nat) (a : UrcAct Nat),
    UrcTReaches false (2 ^ 64 - 1) true false n s ∧ a.enabled false s = true ∧
      a.act false (2 ^ 64 - 1) s = .ub .race := by
  obtain ⟨s, h1, h2⟩ := urcTry_reaches (calm := true) (sync := false)
    (l := [.new 0 7, .call 0 0 .envelop {}, .recv 1 1, .call 0 0 (.poke 8) {}])
    (look := urcRaces false (.call 1 1 (.poke 9) {})) (by decide +kernel)
  exact ⟨_, s, _, h1, urcRaces_iff h2⟩

/-- What one handle writes, the other one reads. -/
example : (UrcAct.acts false (2 ^ 64 - 1) true false
      [.new 0 7, .call 0 0 .clone {}, .call 0 0 .read {}, .call 0 0 (.poke 8) {}, .call 0 1 .read {}]
      (.start 1 : UrcSys Nat)).any (fun s => s.log.map (·.2) = [some (.val 8), some .unit, some (.val 7), some .unit]) := by
  decide +kernel

/-- C118 fails after `try_unwrap` on a handle with a clone, which sets the number of fences to 0: then one of
two threads that have the value gets a `&mut` to it, and writes while the other one reads. -/
theorem C118_refuted_unwrap : ∃ (n : Nat) (s : UrcSys Nat) (a : UrcAct Nat),
    UrcTReaches false (2 ^ 64 - 1) false true n s ∧ a.enabled true s = true ∧
      a.act false (2 ^ 64 - 1) s = .ub .race := by
  obtain ⟨s, h1, h2⟩ := urcTry_reaches (calm := false) (sync := true)
    (l := [.new 0 7, .call 0 0 .clone {}, .call 0 0 .tryUnwrap {}, .call 0 1 .drop {}, .call 0 0 .envelop {},
      .recv 1 2, .call 1 2 .read {}, .call 0 0 .getMut {}, .run 0 { pos := 9 }, .run 0 {}])
    (look := urcRaces true (.run 0 { write := some 5 })) (by decide +kernel)
  exact ⟨_, s, _, h1, urcRaces_iff h2⟩

/-- C118 for values that are `Sync` and runs without the faults of C71 and C72: whatever a thread does next, in any
schedule and whatever counts its loads read, it is not undefined behaviour, a data race or else, and
does not abort. Missing: the two cases refuted. -/
theorem C118_partial (h : UrcTReaches dbg mx true true n s) (hn : n < mx) (a : UrcAct α)
    (he : a.enabled true s = true) (hf : a.faulty s = false) : ∃ s', a.act dbg mx s = .ok () s' := by
  obtain ⟨s', h1, -⟩ := (UrcTInv.reaches h (Nat.le_of_lt hn)).act_ok (dbg := dbg) hn a he hf
  exact ⟨s', h1⟩

/-- … in particular, who may write knows of all accesses to the value made so far, and who may read of all writes. -/
theorem C118_ordered_partial (h : UrcTReaches dbg mx true true n s) (hn : n ≤ mx) {i p : Nat} :
    (s.At t (.held i f p) → ¬ s.mem.Race t p .write) ∧
    (s.hands[i]? = some (some (.own t (.urc f))) → s.master i = some p → ¬ s.mem.Race t p .read) := by
  have G := UrcTInv.reaches h hn
  constructor
  · intro ht
    rw [← ArcMem.racy_iff, G.V.calm_all (Or.inr rfl) (G.V.alone t _ i f p ht rfl rfl)]
    simp
  · intro e hm
    obtain ⟨x, e', hF⟩ := UrcSys.master_eq.1 hm
    rw [e] at e'
    cases e'
    rw [← ArcMem.racy_iff, G.V.calm_read e hF]
    simp

/-- Thread 0 sends a handle to thread 1, which reads and drops it; then thread 0 gets a `&mut` and writes. -/
example : ∃ s s', UrcTReaches false (2 ^ 64 - 1) true true 8 s ∧
    (UrcAct.run 0 { write := some 5 }).act false (2 ^ 64 - 1) s = .ok () (s' : UrcSys Nat) ∧
    s'.reads 0 = some 5 := by
  obtain ⟨s, h1, h2⟩ := urcTry_reaches (calm := true) (sync := true)
    (l := [.new 0 7, .call 0 0 .envelop {}, .recv 1 1, .call 1 1 .read {}, .call 1 1 .drop {}, .call 0 0 .getMut {},
      .run 0 {}, .run 0 {}])
    (look := fun s => match (UrcAct.run 0 { write := some 5 }).act false (2 ^ 64 - 1) s with
      | .ok _ s' => some (decide (s'.reads 0 = some 5))
      | _ => none) (by decide +kernel)
  split at h2
  · rename_i _ s' e
    exact ⟨s, s', h1, e, by simpa using h2⟩
  · cases h2

/-! ## C67 -/

/-- C67 for threads: an idle thread that reads through its handle gets the value, and the call changes nothing.
Missing: as C118. -/
theorem C67_threads_partial (h : UrcTReaches dbg mx true true n s) (hn : n ≤ mx) (ht : s.threads[t]? = some none)
    {i : Nat} (e : s.hands[i]? = some (some (.own t (.urc f)))) (ch : UrcChoice α) :
    ∃ v s', s.reads i = some v ∧ (UrcAct.call t i .read ch).act dbg mx s = .ok () s' ∧
      s'.log = (t, some (.val v)) :: s.log ∧ ∀ j, s'.reads j = s.reads j := by
  obtain ⟨v, s', h1, h2, h3, h4, h5, h6⟩ := (UrcTInv.reaches h hn).read_gives (dbg := dbg) (mx := mx) ch ht e
  exact ⟨v, s', h1, h2, h3, fun j => UrcTInv.same_reads h5 h6 h4 j⟩

/-- … and the value that a handle reads (in any thread, or in an envelope) is only changed through a `&mut` from that
very handle, or moved out by `try_unwrap` or `make_mut` on that very handle. -/
theorem C67_threads_kept_partial (h : UrcTReaches dbg mx true true n s) (hn : n < mx) (a : UrcAct α)
    (he : a.enabled true s = true) (hf : a.faulty s = false) (ha : a.act dbg mx s = .ok () s') {i : Nat}
    (hs : s.Strong i) (hs' : s'.Strong i) :
    s'.reads i = s.reads i ∨ ∃ op, s.At a.thread op ∧ ∃ f p, op = .held i f p ∨ op = .unw1 i f p ∨ op = .mv0 i f p ∨
      ∃ x, op = .mv1 i f p x := by
  have G := UrcTInv.reaches h (Nat.le_of_lt hn)
  have G' := UrcTInv.reaches (.step a h he (fun _ => hf) ha) hn
  obtain ⟨x, e, hx⟩ := hs
  obtain ⟨x', e', -⟩ := hs'
  by_cases hc : ∀ op f p, s.At a.thread op → op.hand = some (i, f, p) → op.writes = none
  · exact Or.inl (G.reads_kept G' he hf ha e hx e' hc)
  · right
    push Not at hc
    obtain ⟨op, f, p, h1, h2, h3⟩ := hc
    refine ⟨op, h1, f, p, ?_⟩
    cases op <;> simp [UrcOp.hand, UrcOp.writes] at h2 h3 ⊢ <;> simp [h2]

/-! ## C68 -/

/-- C68 for threads: while a thread has a `&mut` from `get_mut` or `make_mut`, no other handle of the value is there,
neither `Urc` nor `Weak`, in no thread, and in no envelope. Missing: as C118. -/
theorem C68_threads_partial (h : UrcTReaches dbg mx true true n s) (hn : n ≤ mx) {i p : Nat}
    (ht : s.At t (.held i f p)) : s.master i = some p ∧ ∀ j, s.master j = s.master i → j = i := by
  have G := UrcTInv.reaches h hn
  have hm := G.hand_reads ht rfl
  exact ⟨hm, fun j hj => G.held_alone ht (hj.trans hm)⟩

/-! ## C71 -/

/-- C71 for threads: a call of `try_unwrap` begins to move the value out, or refuses it, and then no handle, no count
and no value is changed. Missing: as C118; also, the only handle may be refused. -/
theorem C71_threads_partial (h : UrcTReaches dbg mx true true n s) (hn : n ≤ mx) (ht : s.threads[t]? = some none)
    {i : Nat} (e : s.hands[i]? = some (some (.own t (.urc f)))) (ch : UrcChoice α)
    (hf : (UrcAct.call t i .tryUnwrap ch).faulty s = false) :
    ∃ s', (UrcAct.call t i .tryUnwrap ch).act dbg mx s = .ok () s' ∧ (∀ j, s'.reads j = s.reads j) ∧
      ((∃ p, s'.At t (.unw1 i f p)) ∨
        s'.threads[t]? = some none ∧ s'.log = (t, some (.opt none)) :: s.log ∧ s'.hands = s.hands ∧
          s'.fences = s.fences ∧ ∀ c q, (s'.mem.msgs c q).map (·.val) = (s.mem.msgs c q).map (·.val)) := by
  obtain ⟨s', h1, h2, h3, h4, h5⟩ := (UrcTInv.reaches h hn).unwrap_begins (dbg := dbg) (mx := mx) ch ht e hf
  refine ⟨s', h1, fun j => UrcTInv.same_reads h2 h3 h4 j, ?_⟩
  rcases h5 with h5 | ⟨h5, h6, h7⟩
  · exact Or.inl h5
  · exact Or.inr ⟨h5, h6, h2, h3, h7⟩

/-- … and if it moves the value out, then, whatever other threads did in between, there is no other `Urc` of the value
in any thread, and the caller gets what the handle read when the call was made; the handle is gone. -/
theorem C71_threads_moved_partial (h : UrcTReaches dbg mx true true n s0) {i p : Nat} {ch ch' : UrcChoice α}
    (he : (UrcAct.call t i .tryUnwrap ch).enabled true s0 = true)
    (hf : (UrcAct.call t i .tryUnwrap ch).faulty s0 = false)
    (ha : (UrcAct.call t i .tryUnwrap ch).act dbg mx s0 = .ok () s1) (d : UrcTDuring dbg mx t s1 m s2)
    (hn : n + m < mx) (ht : s2.At t (.unw1 i f p)) :
    (∀ j, s2.Strong j → s2.master j = s2.master i → j = i) ∧
    ∃ v s', s0.reads i = some v ∧ (UrcAct.run t ch').act dbg mx s2 = .ok () s' ∧
      s'.log = (t, some (.opt (some v))) :: s2.log ∧ s'.master i = none := by
  have R1 := UrcTReaches.step _ h he (fun _ => hf) ha
  have R2 := d.reaches R1
  have G := UrcTInv.reaches h (by omega)
  have G2 := UrcTInv.reaches R2 (by omega)
  refine ⟨fun j hs hj => G2.alone ht rfl rfl rfl (hj.trans (G2.hand_reads ht rfl)) hs, ?_⟩
  simp only [UrcAct.enabled] at he
  split at he
  · rename_i t' k h1 h2
    simp only [UrcAct.has, Bool.and_true, Bool.and_eq_true, beq_iff_eq] at he
    obtain ⟨rfl, he⟩ := he
    cases k with
    | urc g =>
      obtain ⟨s', h3, h4, h5, h6, h7⟩ := G.unwrap_begins (dbg := dbg) (mx := mx) ch h1 h2 hf
      rw [ha] at h3
      cases h3
      obtain ⟨v, hv⟩ := G.idle_reads h1 h2
      have hmid : ∀ op, s1.At t' op → UrcMid s1 i v op := by
        intro op hop
        rcases h7 with ⟨q, h7⟩ | ⟨h7, -⟩
        · rw [UrcTInv.at_inj h7 hop]
          exact ⟨rfl, (UrcTInv.same_reads h4 h5 h6 i).trans hv⟩
        · unfold UrcSys.At at hop
          rw [h7] at hop
          cases hop
      have hm := UrcTInv.mid_during R1 hmid d (by omega) ht
      obtain ⟨v', s', g1, g2, g3, g4, -, -⟩ := G2.unwrap_gives (dbg := dbg) (mx := mx) ch' ht
      rw [hm.2] at g1
      cases g1
      refine ⟨v, s', hv, g2, g3, ?_⟩
      unfold UrcSys.master
      have := (G2.L.ops t' _ ht).own i f p rfl
      rw [g4, List.getElem?_set_self (List.getElem?_eq_some_iff.1 this).1]
    | weak g q => simp at he
    | fence g => simp at he
  · cases he

/-- A handle that had been sent, with a `Weak`; the value is moved out after the other thread has dropped its one. -/
example : urcTry true true [.new 0 7, .call 0 0 .downgrade {}, .call 0 0 .envelop {}, .recv 1 2, .call 1 2 .drop {},
    .call 0 0 .tryUnwrap {}, .new 1 8, .run 0 {}]
    (fun s => some (decide (s.log.head? = some (0, some (.opt (some 7)))))) = some true := by decide +kernel

/-! ## C72 -/

/-- C72 for threads: when a call of `make_mut` has got to a `&mut` then, whatever other threads did in between, the
handle (a new name `j` if it was moved to a new value) reads what the old one read when the call was made, and no other
handle shares it. Missing: as C118; and the calls that C72 refutes. -/
theorem C72_threads_partial (h : UrcTReaches dbg mx true true n s0) {i j p : Nat} {ch : UrcChoice α}
    (he : (UrcAct.call t i .makeMut ch).enabled true s0 = true)
    (ha : (UrcAct.call t i .makeMut ch).act dbg mx s0 = .ok () s1) (d : UrcTDuring dbg mx t s1 m s2)
    (hn : n + m < mx) (ht : s2.At t (.held j f p)) :
    (∃ v, s0.reads i = some v ∧ s2.reads j = some v) ∧ s2.master i = none ∧
      ∀ k, s2.master k = s2.master j → k = j := by
  have hf : (UrcAct.call t i .makeMut ch).faulty s0 = false := rfl
  have R1 := UrcTReaches.step _ h he (fun _ => hf) ha
  have R2 := d.reaches R1
  have G := UrcTInv.reaches h (by omega)
  have hx := C68_threads_partial R2 (by omega) ht
  simp only [UrcAct.enabled] at he
  split at he
  · rename_i t' k h1 h2
    simp only [UrcAct.has, Bool.and_true, Bool.and_eq_true, beq_iff_eq] at he
    obtain ⟨rfl, he⟩ := he
    cases k with
    | urc g =>
      obtain ⟨s', h3, h4, h5, h6, q, h7⟩ := G.makeMut_begins (dbg := dbg) (mx := mx) ch h1 h2
      rw [ha] at h3
      cases h3
      obtain ⟨v, hv⟩ := G.idle_reads h1 h2
      have hmid : ∀ op, s1.At t' op → UrcMid s1 i v op := by
        intro op hop
        rcases h7 with h7 | h7
        all_goals
          rw [UrcTInv.at_inj h7 hop]
          exact ⟨rfl, (UrcTInv.same_reads h4 h5 h6 i).trans hv⟩
      have hm := UrcTInv.mid_during R1 hmid d (by omega) ht
      refine ⟨⟨v, hv, hm.1⟩, ?_, hx.2⟩
      unfold UrcSys.master
      rw [hm.2]
    | weak g q => simp at he
    | fence g => simp at he
  · cases he

/-- … and every other handle keeps what it reads at each step of the call, or of what else happens. -/
theorem C72_threads_others_partial (h : UrcTReaches dbg mx true true n s) (hn : n < mx) (a : UrcAct α)
    (he : a.enabled true s = true) (hf : a.faulty s = false) (ha : a.act dbg mx s = .ok () s') {i j p : Nat}
    {op : UrcOp α} (ht : s.At a.thread op) (ho : op.hand = some (i, f, p)) (hij : j ≠ i) (hs : s.Strong j) 
    (hs' : s'.Strong j) : s'.reads j = s.reads j := by
  rcases C67_threads_kept_partial h hn a he hf ha hs hs' with h1 | ⟨op', h1, g, q, h2⟩
  · exact h1
  · have := UrcTInv.at_inj ht h1
    subst this
    exfalso
    rcases h2 with rfl | rfl | rfl | ⟨x, rfl⟩
    all_goals
      cases ho
      exact hij rfl

/-- A value that two threads have: `make_mut` copies it; the other thread reads the old value. -/
example : urcTry true true [.new 0 7, .call 0 0 .envelop {}, .recv 1 1, .call 0 0 .makeMut {}, .run 0 {},
    .call 1 1 .downgrade {}, .run 0 {}, .run 0 { write := some 5 }, .run 0 {}, .call 1 1 .read {}]
    (fun s => some (decide (s.reads 3 = some 5 ∧ s.reads 1 = some 7 ∧ s.master 0 = none ∧
      s.log.head? = some (1, some (.val 7))))) = some true := by decide +kernel

/-! ## C87 -/

/-- C87 for threads, one direction: if `is_sole_strong_fence` is true then all handles of the value, also `Weak`s, are in
the thread of the caller, and none is in an envelope. Missing: as C118; and the other direction. -/
theorem C87_threads_partial (h : UrcTReaches dbg mx true true n s) (hn : n ≤ mx) (ht : s.threads[t]? = some none)
    {i : Nat} (e : s.hands[i]? = some (some (.own t (.urc f)))) (ch : UrcChoice α) :
    ∃ b s', (UrcAct.call t i .isSole ch).act dbg mx s = .ok () s' ∧ s'.log = (t, some (.bool b)) :: s.log ∧
      (b = true → ∀ j x, s.hands[j]? = some (some x) → s.master j = s.master i → ∃ k, x = .own t k) :=
  (UrcTInv.reaches h hn).isSole_gives ch ht e

/-- True again when the handle that was sent is dropped; not before. -/
example : urcTry true true [.new 0 7, .call 0 0 .envelop {}, .recv 1 1, .call 0 0 .isSole {}, .call 1 1 .drop {},
    .call 0 0 .isSole { pos := 2 }]
    (fun s => some (decide (s.log = [(0, some (.bool true)), (1, some .unit), (0, some (.bool false)),
      (0, some .unit)]))) = some true := by
  decide +kernel

end Lokky
