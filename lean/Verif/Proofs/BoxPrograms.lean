import Verif.Model.BoxPrograms
import Verif.Proofs.Boxed
import Verif.Proofs.HandlesUrc

/-!
# Programs with boxes: every box owns its block
-/

namespace Lokky
open Spec
variable {α : Type} {c : Cfg α} {P P' : BoxPool α} {S : Boxes α} {d : List α}

/-- Each box owns a block of its own, with the value that is expected; nothing else is in use. -/
structure BoxInv (c : Cfg α) (P : BoxPool α) (S : Boxes α) (d : List α) : Prop where
  len : S.length = P.boxes.length
  has : ∀ (i : Nat) (b : BoxH), P.boxes[i]? = some (some b) → ∃ x, S[i]? = some (some x) ∧ Owns c b P.w x
  gone : ∀ i : Nat, P.boxes[i]? = some none → S[i]? = some none
  ne : ∀ (i j : Nat) (b b' : BoxH), P.boxes[i]? = some (some b) → P.boxes[j]? = some (some b') → b.ptr = b'.ptr → i = j
  wf : P.w.WF
  used : ∀ p, P.w.heap p ≠ none → ∃ (i : Nat) (b : BoxH), P.boxes[i]? = some (some b) ∧ b.ptr = p
  drops : P.w.log.drops = d

namespace BoxInv

theorem init (h : P.Initial) : BoxInv c P [] [] := by
  obtain ⟨h1, h2, h3⟩ := h
  refine ⟨by rw [h1]; rfl, ?_, ?_, ?_, fun p _ => h2 p, fun p hp => (hp (h2 p)).elim, h3⟩ <;> rw [h1] <;> simp

theorem lt (I : BoxInv c P S d) {i : Nat} {b : BoxH} (hi : P.boxes[i]? = some (some b)) : i < S.length := by
  rw [I.len]; exact (List.getElem?_eq_some_iff.mp hi).1

/-- A new box. -/
theorem push (I : BoxInv c P S d) (x : α) (m : Marker) :
    BoxInv c ⟨P.boxes ++ [some ⟨P.w.next, P.w.allocFor m, m⟩],
      (P.w.fresh c (P.w.allocFor m)).put c ⟨P.w.next, P.w.allocFor m, m⟩ x []⟩ (S ++ [some x]) d := by
  have hfree : ∀ (i : Nat) (b : BoxH), P.boxes[i]? = some (some b) → b.ptr ≠ P.w.next := by
    intro i b hb e
    obtain ⟨y, _, ho⟩ := I.has i b hb
    unfold Owns at ho
    rw [e, I.wf _ (Nat.le_refl _)] at ho
    cases ho
  have old : ∀ {i : Nat} {b : BoxH}, (P.boxes ++ [some (⟨P.w.next, P.w.allocFor m, m⟩ : BoxH)])[i]? = some (some b) →
      (P.boxes[i]? = some (some b)) ∨ (i = P.boxes.length ∧ b = ⟨P.w.next, P.w.allocFor m, m⟩) := by
    intro i b h
    rw [List.getElem?_append] at h
    split at h
    · exact .inl h
    · right
      cases e : i - P.boxes.length with
      | zero =>
        rw [e] at h
        simp only [List.getElem?_cons_zero, Option.some.injEq] at h
        exact ⟨by omega, h.symm⟩
      | succ k => rw [e] at h; simp at h
  refine ⟨by simp [I.len], fun i b h => ?_, fun i h => ?_, fun i j b b' h h' e => ?_, fun p hp => ?_, fun p hp => ?_, ?_⟩
  · rcases old h with h | ⟨rfl, rfl⟩
    · obtain ⟨y, h1, h2⟩ := I.has i b h
      refine ⟨y, by rw [List.getElem?_append_left (I.lt h)]; exact h1, ?_⟩
      unfold Owns at h2 ⊢
      simp only [World.put, World.fresh, hfree i b h, if_false]
      exact h2
    · exact ⟨x, by rw [← I.len]; simp, World.put_owns _ _ _ _⟩
  · simp only [List.getElem?_append] at h ⊢
    rw [I.len]
    split at h
    · rename_i hl; rw [if_pos hl]; exact I.gone i h
    · cases e : i - P.boxes.length <;> simp [e] at h
  · rcases old h with h | ⟨rfl, rfl⟩ <;> rcases old h' with h' | ⟨rfl, rfl⟩
    · exact I.ne i j b b' h h' e
    · exact (hfree i b h e).elim
    · exact (hfree j b' h' e.symm).elim
    · rfl
  · simp only [World.put, World.fresh] at hp ⊢
    rw [if_neg (by omega), if_neg (by omega)]
    exact I.wf p (by omega)
  · by_cases e : p = P.w.next
    · exact ⟨P.boxes.length, ⟨P.w.next, P.w.allocFor m, m⟩, by simp, e.symm⟩
    · simp only [World.put, World.fresh, e, if_false] at hp
      obtain ⟨i, b, h1, h2⟩ := I.used p hp
      exact ⟨i, b, by rw [List.getElem?_append_left (List.getElem?_eq_some_iff.mp h1).1]; exact h1, h2⟩
  · simp only [World.put, World.fresh, List.append_nil]
    exact I.drops

/-- Memory is refused. -/
theorem refuse (I : BoxInv c P S d) (x : α) :
    BoxInv c ⟨P.boxes, { P.w with tick := P.w.tick + 1, refusals := P.w.refusals + 1, log := { P.w.log with drops := P.w.log.drops ++ [x] } }⟩ S
      (d ++ [x]) :=
  ⟨I.len, I.has, I.gone, I.ne, I.wf, I.used, by rw [← I.drops]⟩

/-- Another value is assigned. -/
theorem assign (I : BoxInv c P S d) {i : Nat} {b : BoxH} {x : α} (hi : P.boxes[i]? = some (some b)) (y : α) :
    BoxInv c ⟨P.boxes, P.w.put c b y [x]⟩ (S.set i (some y)) (d ++ [x]) := by
  refine ⟨by simp [I.len], fun j b' h => ?_, fun j h => ?_, I.ne, fun p hp => ?_, fun p hp => ?_, by rw [← I.drops]; rfl⟩
  · by_cases e : j = i
    · subst e
      rw [hi] at h
      cases h
      exact ⟨y, by rw [List.getElem?_set_self (I.lt hi)], World.put_owns _ _ _ _⟩
    · obtain ⟨z, h1, h2⟩ := I.has j b' h
      refine ⟨z, by rw [List.getElem?_set_ne (fun e' => e e'.symm)]; exact h1, ?_⟩
      have : b'.ptr ≠ b.ptr := fun e' => e (I.ne j i b' b h hi e')
      unfold Owns at h2 ⊢
      simp only [World.put, this, if_false]
      exact h2
  · have e : j ≠ i := by rintro rfl; rw [hi] at h; cases h
    rw [List.getElem?_set_ne (fun e' => e e'.symm)]
    exact I.gone j h
  · have : p ≠ b.ptr := by
      rintro rfl
      obtain ⟨z, _, h2⟩ := I.has i b hi
      unfold Owns at h2
      have := I.wf _ hp
      rw [h2] at this
      cases this
    simp only [World.put, this, if_false]
    exact I.wf p hp
  · by_cases e : p = b.ptr
    · exact ⟨i, b, hi, e.symm⟩
    · simp only [World.put, e, if_false] at hp
      exact I.used p hp

/-- A box is dropped. -/
theorem lose (I : BoxInv c P S d) {i : Nat} {b : BoxH} {x : α} (hi : P.boxes[i]? = some (some b)) :
    BoxInv c ⟨P.boxes.set i none, (P.w.put c b x [x]).gone b []⟩ (S.set i none) (d ++ [x]) := by
  have hh : ∀ p, ((P.w.put c b x [x]).gone b []).heap p = if p = b.ptr then none else P.w.heap p := by
    intro p
    simp only [World.gone, World.put]
    split
    · rfl
    · rfl
  have old : ∀ {j : Nat} {b' : BoxH}, (P.boxes.set i none)[j]? = some (some b') → j ≠ i ∧ P.boxes[j]? = some (some b') := by
    intro j b' h
    by_cases e : j = i
    · subst e
      rw [List.getElem?_set_self (List.getElem?_eq_some_iff.mp hi).1] at h
      cases h
    · rw [List.getElem?_set_ne (fun e' => e e'.symm)] at h
      exact ⟨e, h⟩
  refine ⟨by simp [I.len], fun j b' h => ?_, fun j h => ?_, fun j k b1 b2 h1 h2 e => ?_, fun p hp => ?_, fun p hp => ?_, ?_⟩
  · obtain ⟨e, h⟩ := old h
    obtain ⟨z, h1, h2⟩ := I.has j b' h
    refine ⟨z, by rw [List.getElem?_set_ne (fun e' => e e'.symm)]; exact h1, ?_⟩
    unfold Owns at h2 ⊢
    rw [hh, if_neg (fun e' => e (I.ne j i b' b h hi e'))]
    exact h2
  · by_cases e : j = i
    · subst e
      rw [List.getElem?_set_self (I.lt hi)]
    · rw [List.getElem?_set_ne (fun e' => e e'.symm)] at h ⊢
      exact I.gone j h
  · exact I.ne j k b1 b2 (old h1).2 (old h2).2 e
  · rw [hh]
    split
    · rfl
    · exact I.wf p hp
  · rw [hh] at hp
    split at hp
    · exact (hp rfl).elim
    · rename_i e
      obtain ⟨j, b', h1, h2⟩ := I.used p hp
      refine ⟨j, b', ?_, h2⟩
      rw [List.getElem?_set_ne]
      · exact h1
      · rintro rfl
        rw [hi] at h1
        cases h1
        exact e h2.symm
  · simp only [World.gone, World.put, List.append_nil, I.drops]

/-- Every call but `into_inner` does what is expected. -/
theorem does (hs : c.size ≠ 0) (hn : c.needsDrop = false) (hd : ∀ a, c.dropPanics a = false) (I : BoxInv c P S d) {cmd : BoxCmd α}
    (hh : P.Has cmd) (hu : ¬ cmd.Unboxes) :
    (∃ o P' S' d', runBox c cmd P = .ok o P' ∧ BoxStep cmd (some o) S S' d' ∧ BoxInv c P' S' (d ++ d')) ∨
    (∃ P' S' d', runBox c cmd P = .panic P' ∧ BoxStep cmd none S S' d' ∧ BoxInv c P' S' (d ++ d')) := by
  cases cmd with
  | new x m =>
    cases hg : c.grant P.w.tick c.size with
    | true =>
      refine .inl ⟨.unit, ⟨P.boxes ++ [some ⟨P.w.next, P.w.allocFor m, m⟩],
        (P.w.fresh c (P.w.allocFor m)).put c ⟨P.w.next, P.w.allocFor m, m⟩ x []⟩, S ++ [some x], [], ?_, .new x m, ?_⟩
      · simp only [runBox, Boxed.newWith, M.bind_apply, Boxed.tryNew_granted hs hg, hn]
        rfl
      · rw [List.append_nil]; exact I.push x m
    | false =>
      refine .inr ⟨_, S, [x], ?_, .refused x m, I.refuse x⟩
      simp only [runBox, Boxed.newWith, M.bind_apply, Boxed.tryNew_refused hs hg, World.onLog, dropVal, hd x]
      rfl
  | read i =>
    obtain ⟨b, hb⟩ := isThere_iff.mp hh
    obtain ⟨x, h1, h2⟩ := I.has i b hb
    refine .inl ⟨.val x, P, S, [], ?_, .read h1, by rw [List.append_nil]; exact I⟩
    simp only [runBox, M.bind_apply, BoxPool.on, hb, Boxed.read_eq hs h2]
    rfl
  | assign i y =>
    obtain ⟨b, hb⟩ := isThere_iff.mp hh
    obtain ⟨x, h1, h2⟩ := I.has i b hb
    refine .inl ⟨.unit, ⟨P.boxes, P.w.put c b y [x]⟩, S.set i (some y), [x], ?_, .assign y h1, I.assign hb y⟩
    simp only [runBox, M.bind_apply, BoxPool.on, hb, Boxed.assign_eq hs h2, hd x]
    rfl
  | eq i j e =>
    obtain ⟨b, hb⟩ := isThere_iff.mp hh.1
    obtain ⟨b', hb'⟩ := isThere_iff.mp hh.2
    obtain ⟨x, h1, h2⟩ := I.has i b hb
    obtain ⟨y, h3, h4⟩ := I.has j b' hb'
    refine .inl ⟨.bool (e x y), P, S, [], ?_, .eq e h1 h3, by rw [List.append_nil]; exact I⟩
    simp [runBox, hb, hb', Boxed.eq, M.bind_apply, onPart, Boxed.read_eq hs h2, Boxed.read_eq hs h4]
  | intoInner i => exact (hu trivial).elim
  | drop i =>
    obtain ⟨b, hb⟩ := isThere_iff.mp hh
    obtain ⟨x, h1, h2⟩ := I.has i b hb
    refine .inl ⟨.unit, ⟨P.boxes.set i none, (P.w.put c b x [x]).gone b []⟩, S.set i none, [x], ?_, .drop h1, I.lose hb⟩
    simp only [runBox, BoxPool.losing, M.bind_apply, BoxPool.on, hb, Boxed.drop_eq hs h2, hd x]
    rfl
  | scope f =>
    exact .inl ⟨.unit, _, S, [], rfl, .scope f, by
      rw [List.append_nil]; exact ⟨I.len, I.has, I.gone, I.ne, I.wf, I.used, I.drops⟩⟩

theorem happens (hs : c.size ≠ 0) (hn : c.needsDrop = false) (hd : ∀ a, c.dropPanics a = false) (I : BoxInv c P S d) {cmd : BoxCmd α}
    (hh : P.Has cmd) (hu : ¬ cmd.Unboxes) {o : Option (BoxOut α)} (h : BoxHappens c P cmd o P') :
    ∃ S' d', BoxStep cmd o S S' d' ∧ BoxInv c P' S' (d ++ d') := by
  rcases I.does hs hn hd hh hu with ⟨o1, P1, S', d', e, h1, h2⟩ | ⟨P1, S', d', e, h1, h2⟩
  · cases h with
    | ret h => rw [e] at h; cases h; exact ⟨S', d', h1, h2⟩
    | panic h => rw [e] at h; cases h
  · cases h with
    | ret h => rw [e] at h; cases h
    | panic h => rw [e] at h; cases h; exact ⟨S', d', h1, h2⟩

theorem there (I : BoxInv c P S d) (x : Nat) : isThere P.boxes x = true ↔ ∃ a, S[x]? = some (some a) := by
  rw [isThere_iff]
  constructor
  · rintro ⟨b, hb⟩
    obtain ⟨a, h, _⟩ := I.has x b hb
    exact ⟨a, h⟩
  · rintro ⟨a, h⟩
    have hl : x < P.boxes.length := by rw [← I.len]; exact (List.getElem?_eq_some_iff.mp h).1
    cases e : P.boxes[x] with
    | some b => exact ⟨b, by rw [List.getElem?_eq_getElem hl, e]⟩
    | none =>
      have := I.gone x (by rw [List.getElem?_eq_getElem hl, e])
      rw [h] at this
      cases this

end BoxInv

theorem BoxReaches.inv {P0 : BoxPool α} {h : List (BoxCmd α × Option (BoxOut α))} (hs : c.size ≠ 0) (hn : c.needsDrop = false)
    (hd : ∀ a, c.dropPanics a = false) (h0 : P0.Initial) (hr : BoxReaches c P0 h P) (hu : ∀ e ∈ h, ¬ e.1.Unboxes) :
    ∃ S d, BoxRun h S d ∧ BoxInv c P S d := by
  induction hr with
  | start => exact ⟨[], [], .nil, .init h0⟩
  | step _ hh he ih =>
    obtain ⟨S, d, h1, I⟩ := ih fun e he => hu e (by simp [he])
    obtain ⟨S', d', h2, I'⟩ := I.happens hs hn hd hh (hu (_, _) (List.mem_append.mpr (.inr (List.mem_singleton.mpr rfl)))) he
    exact ⟨S', d ++ d', .snoc h1 h2, I'⟩

/-! ## Boxes are things that containers can keep -/

/-- What is known of boxes after `n` calls. -/
def BoxAfter (c : Cfg α) (P0 : BoxPool α) (n : Nat) (P : BoxPool α) : Prop :=
  ∃ h, h.length = n ∧ (∀ e ∈ h, ¬ e.1.Unboxes) ∧ BoxReaches c P0 h P

theorem Spec.BoxStep.grow {cmd : BoxCmd α} {o : Option (BoxOut α)} {S S' : Boxes α} {d' : List α} (h : BoxStep cmd o S S' d') :
    S.length ≤ S'.length ∧ (∀ x a, S'[x]? = some (some a) → (∃ b, S[x]? = some (some b)) ∨ S.length ≤ x) ∧
    ∀ x, S.length ≤ x → x < S'.length → ∃ a, S'[x]? = some (some a) := by
  have same : S.length ≤ S.length ∧ (∀ x a, S[x]? = some (some a) → (∃ b, S[x]? = some (some b)) ∨ S.length ≤ x) ∧
      ∀ x, S.length ≤ x → x < S.length → ∃ a, S[x]? = some (some a) :=
    ⟨Nat.le_refl _, fun x a h => .inl ⟨a, h⟩, fun x h1 h2 => by omega⟩
  cases h with
  | new x m =>
    refine ⟨by simp, fun y a h => ?_, fun y h1 h2 => ⟨x, ?_⟩⟩
    · rcases Nat.lt_or_ge y S.length with hl | hl
      · rw [List.getElem?_append_left hl] at h; exact .inl ⟨a, h⟩
      · exact .inr hl
    · have : y = S.length := by simp at h2; omega
      subst this
      simp
  | assign y h1 =>
    refine ⟨by simp, fun y a h => ?_, fun y h1 h2 => by simp at h2; omega⟩
    rw [List.getElem?_set] at h
    split at h
    · rename_i e; subst e; exact .inl ⟨_, h1⟩
    · exact .inl ⟨a, h⟩
  | intoInner h1 =>
    refine ⟨by simp, fun y a h => ?_, fun y h1 h2 => by simp at h2; omega⟩
    rw [List.getElem?_set] at h
    split at h
    · rename_i e; subst e; exact .inl ⟨_, h1⟩
    · exact .inl ⟨a, h⟩
  | drop h1 =>
    refine ⟨by simp, fun y a h => ?_, fun y h1 h2 => by simp at h2; omega⟩
    rw [List.getElem?_set] at h
    split at h
    · rename_i e; subst e; exact .inl ⟨_, h1⟩
    · exact .inl ⟨a, h⟩
  | _ => exact same

theorem boxThings_good {P0 : BoxPool α} (hs : c.size ≠ 0) (hn : c.needsDrop = false) (hd : ∀ a, c.dropPanics a = false)
    (h0 : P0.Initial) (B : Nat) : (boxThings c).Good (BoxAfter c P0) B where
  lt := fun _ h => isThere_lt h
  use := by
    rintro n P P' ⟨h, hl, hu, hr⟩ _ ⟨cmd, o, h1, h2, h3⟩
    obtain ⟨S, d, _, I⟩ := hr.inv hs hn hd h0 hu
    obtain ⟨S', d', hst, I'⟩ := I.happens hs hn hd h1 h2 h3
    obtain ⟨g1, g2, _⟩ := hst.grow
    refine ⟨⟨h ++ [(cmd, o)], by simp [hl], ?_, .step hr h1 h3⟩, ?_, fun x hx => ?_⟩
    · intro e he
      rcases List.mem_append.mp he with he | he
      · exact hu e he
      · rw [List.mem_singleton.mp he]; exact h2
    · show P.boxes.length ≤ P'.boxes.length
      rw [← I.len, ← I'.len]; exact g1
    · obtain ⟨a, ha⟩ := (I'.there x).mp hx
      rcases g2 x a ha with hb | hb
      · exact .inl ((I.there x).mpr hb)
      · exact .inr (by show P.boxes.length ≤ x; rw [← I.len]; exact hb)
  fresh := by
    rintro n P P' ⟨h, hl, hu, hr⟩ _ ⟨cmd, o, h1, h2, h3⟩ x hx1 hx2
    obtain ⟨S, d, _, I⟩ := hr.inv hs hn hd h0 hu
    obtain ⟨S', d', hst, I'⟩ := I.happens hs hn hd h1 h2 h3
    obtain ⟨_, _, g3⟩ := hst.grow
    exact (I'.there x).mpr (g3 x (by rw [I.len]; exact hx1) (by rw [I'.len]; exact hx2))
  drop := by
    rintro n P x ⟨h, hl, hu, hr⟩ _ hx
    obtain ⟨S, d, _, I⟩ := hr.inv hs hn hd h0 hu
    obtain ⟨b, hb⟩ := isThere_iff.mp hx
    obtain ⟨a, h1, h2⟩ := I.has x b hb
    have e : runBox c (.drop x) P = .ok .unit ⟨P.boxes.set x none, (P.w.put c b a [a]).gone b []⟩ := by
      simp only [runBox, BoxPool.losing, M.bind_apply, BoxPool.on, hb, Boxed.drop_eq hs h2, hd a]
      rfl
    refine ⟨⟨P.boxes.set x none, (P.w.put c b a [a]).gone b []⟩, ?_, ⟨h ++ [(.drop x, some .unit)], by simp [hl], ?_, .step hr (cmd := .drop x) hx (.ret e)⟩, ?_, fun y => ?_⟩
    · simp only [boxThings, e]
    · intro e he
      rcases List.mem_append.mp he with he | he
      · exact hu e he
      · rw [List.mem_singleton.mp he]; exact id
    · simp [boxThings]
    · exact isThere_set

end Lokky
