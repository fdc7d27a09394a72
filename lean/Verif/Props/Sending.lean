import Verif.Model.Sending
import Mathlib.Data.List.Basic
import Mathlib.Tactic.Common

/-!
# C130, C131: data races between threads that send each other handles
-/

namespace Lokky

/-- `T: Send + Sync`. -/
def Ty.shared (T : Ty) : Bool := T.send && T.sync

/-- The next call puts only values into envelopes that may be used by several threads. -/
def TSys.bounded (P : TSys) (t : Nat) : TCmd → Bool
  | .envelop i _ =>
    match P.hand t i with
    | some (.arc T, _) => T.shared
    | some (.urc T, _) => T.shared
    | _ => true
  | _ => true

/-- A program whose envelopes carry only handles of values that may be used by several threads. -/
def TSys.Bounded (P : TSys) : List (Nat × TCmd) → Prop
  | [] => True
  | (t, c) :: cs => P.bounded t c = true ∧ ∀ P', P.step t c = some P' → P'.Bounded cs

/-! ### Who has what -/

/-- The value belongs to thread `t`, or to all threads. `own`, `tyOf`: the thread that an object belongs to, and the
type of its handles, `sh`: the types of values that belong to all threads. -/
def OwnedBy (sh : Ty → Bool) (own : Nat → Nat) (tyOf : Nat → Ty) (P : TSys) (t : Nat) : Ty → TVal → Prop
  | .int, .num _ => True
  | .cell, .num _ => True
  | .rc T, .ptr a =>
    a < P.heap.length ∧ tyOf a = .rc T ∧ own a = t ∧ ∀ v, P.load a = some v → OwnedBy sh own tyOf P t T v
  | .arc T, .ptr a =>
    a < P.heap.length ∧ tyOf a = .arc T ∧ (sh T = true ∨ own a = t) ∧
      ∀ v, P.load a = some v → OwnedBy sh own tyOf P t T v
  | .urc T, .ptr f =>
    f < P.heap.length ∧ tyOf f = .urc T ∧ own f = t ∧ ∀ v, P.load f = some v →
      ∃ a, v = .ptr a ∧ a < P.heap.length ∧ tyOf a = .arc T ∧ (sh T = true ∨ own a = t) ∧
        ∀ w, P.load a = some w → OwnedBy sh own tyOf P t T w
  | _, _ => False

variable {sh : Ty → Bool} {own own' : Nat → Nat} {tyOf tyOf' : Nat → Ty} {P P' : TSys} {t u : Nat} {T : Ty} {v : TVal}

theorem OwnedBy.num (h : OwnedBy sh own tyOf P t T (.num m)) (n : Int) : OwnedBy sh own tyOf P t T (.num n) := by
  cases T <;> simp_all [OwnedBy]

theorem OwnedBy.mono (hg : ∀ a < P.heap.length, own' a = own a ∧ tyOf' a = tyOf a)
    (hlen : P.heap.length ≤ P'.heap.length)
    (hl : ∀ a < P.heap.length, ∀ w, P'.load a = some w →
      ∃ v, P.load a = some v ∧ (w = v ∨ ∃ m n, v = .num m ∧ w = .num n))
    (h : OwnedBy sh own tyOf P t T v) : OwnedBy sh own' tyOf' P' t T v := by
  induction T generalizing v with
  | int => cases v <;> simp_all [OwnedBy]
  | cell => cases v <;> simp_all [OwnedBy]
  | rc T ih =>
    cases v with
    | num n => exact h
    | ptr a =>
      obtain ⟨h1, h2, h3, h4⟩ := h
      refine ⟨by omega, by rw [(hg a h1).2, h2], by rw [(hg a h1).1, h3], fun w hw => ?_⟩
      obtain ⟨v, e, rfl | ⟨m, n, rfl, rfl⟩⟩ := hl a h1 w hw
      · exact ih (h4 _ e)
      · exact (ih (h4 _ e)).num _
  | arc T ih =>
    cases v with
    | num n => exact h
    | ptr a =>
      obtain ⟨h1, h2, h3, h4⟩ := h
      refine ⟨by omega, by rw [(hg a h1).2, h2], by rw [(hg a h1).1]; exact h3, fun w hw => ?_⟩
      obtain ⟨v, e, rfl | ⟨m, n, rfl, rfl⟩⟩ := hl a h1 w hw
      · exact ih (h4 _ e)
      · exact (ih (h4 _ e)).num _
  | urc T ih =>
    cases v with
    | num n => exact h
    | ptr f =>
      obtain ⟨h1, h2, h3, h4⟩ := h
      refine ⟨by omega, by rw [(hg f h1).2, h2], by rw [(hg f h1).1, h3], fun w hw => ?_⟩
      obtain ⟨v, e, rfl | ⟨m, n, rfl, rfl⟩⟩ := hl f h1 w hw
      · obtain ⟨a, g0, g1, g2, g3, g4⟩ := h4 _ e
        refine ⟨a, g0, by omega, by rw [(hg a g1).2, g2], by rw [(hg a g1).1]; exact g3, fun w hw => ?_⟩
        obtain ⟨v, e, rfl | ⟨m, n, rfl, rfl⟩⟩ := hl a g1 w hw
        · exact ih (g4 _ e)
        · exact (ih (g4 _ e)).num _
      · obtain ⟨a, g0, _⟩ := h4 _ e
        cases g0

theorem shared_cases (h : T.shared = true) : T = .int ∨ ∃ S, T = .arc S ∧ S.shared = true := by
  cases T <;> simp_all [Ty.shared, Ty.send, Ty.sync]

/-- Only numbers and `Arc`s of them belong to all threads. -/
def Modest (sh : Ty → Bool) : Prop := ∀ T, sh T = true → T = .int ∨ ∃ S, T = .arc S ∧ sh S = true

theorem OwnedBy.all (hm : Modest sh) (hs : sh T = true) (h : OwnedBy sh own tyOf P t T v) (u : Nat) :
    OwnedBy sh own tyOf P u T v := by
  induction T generalizing v with
  | int => cases v <;> simp_all [OwnedBy]
  | arc T ih =>
    have hT : sh T = true := by
      rcases hm _ hs with h | ⟨S, h, hS⟩
      · cases h
      · cases h; exact hS
    cases v with
    | num n => exact h
    | ptr a =>
      obtain ⟨h1, h2, h3, h4⟩ := h
      exact ⟨h1, h2, .inl hT, fun w hw => ih hT (h4 w hw)⟩
  | _ => rcases hm _ hs with h | ⟨S, h, hS⟩ <;> cases h

/-- What may be sent. -/
def Sendable (sh : Ty → Bool) (T : Ty) : Prop := T = .int ∨ T = .cell ∨ ∃ S, T = .arc S ∧ sh S = true

theorem OwnedBy.sent (hm : Modest sh) (hs : Sendable sh T) (h : OwnedBy sh own tyOf P t T v) (u : Nat) :
    OwnedBy sh own tyOf P u T v := by
  rcases hs with rfl | rfl | ⟨S, rfl, hS⟩
  · cases v <;> simp_all [OwnedBy]
  · cases v <;> simp_all [OwnedBy]
  · cases v with
    | num n => exact h
    | ptr a => exact ⟨h.1, h.2.1, .inl hS, fun w hw => (h.2.2.2 w hw).all hm hS u⟩

/-- Only what belongs to all threads leaves the hands of a thread. -/
def Okay (sh : Ty → Bool) (P : TSys) (t : Nat) : TCmd → Prop
  | .send i _ => ∀ T v, P.hand t i = some (T, v) → T.send = true → Sendable sh T
  | .envelop i _ => ∀ T v, P.hand t i = some (T, v) → ∀ S, (T = .arc S ∨ T = .urc S) → sh S = true
  | _ => True

theorem OwnedBy.same (h : OwnedBy sh own tyOf P t T v) (e : P'.heap = P.heap) : OwnedBy sh own tyOf P' t T v :=
  h.mono (fun _ _ => ⟨rfl, rfl⟩) (by rw [e]; exact Nat.le_refl _) fun a _ w hw => ⟨w, by simpa [TSys.load, TSys.node, e] using hw, .inl rfl⟩

/-- Every value in the hands of a thread is its own or everybody's. -/
def Apart (sh : Ty → Bool) (own : Nat → Nat) (tyOf : Nat → Ty) (P : TSys) : Prop :=
  ∀ h, some h ∈ P.hands → OwnedBy sh own tyOf P h.thread h.ty h.val

theorem hand_mem {i : Nat} (h : P.hand t i = some (T, v)) : some ⟨t, T, v⟩ ∈ P.hands := by
  unfold TSys.hand at h
  cases e : P.hands[i]? with
  | none => simp [e] at h
  | some o =>
    cases o with
    | none => simp [e] at h
    | some x =>
      simp only [e, Option.join_some] at h
      split at h
      · next ht =>
        obtain ⟨x1, x2, x3⟩ := x
        simp only [Option.some.injEq, Prod.mk.injEq] at h
        simp only at ht
        rw [← h.1, ← h.2, ← ht]
        exact List.mem_of_getElem? e
      · exact absurd h (by simp)

theorem Apart.hand (h : Apart sh own tyOf P) {i : Nat} (hh : P.hand t i = some (T, v)) : OwnedBy sh own tyOf P t T v :=
  h _ (hand_mem hh)

theorem Apart.take (h : Apart sh own tyOf P) (i : Nat) : Apart sh own tyOf (P.take i) := by
  intro x hx
  have := List.mem_or_eq_of_mem_set hx
  rcases this with h1 | h1
  · exact (h x h1).same rfl
  · cases h1

theorem Apart.give (h : Apart sh own tyOf P) (ho : OwnedBy sh own tyOf P t T v) : Apart sh own tyOf (P.give t T v) := by
  intro x hx
  have : OwnedBy sh own tyOf P x.thread x.ty x.val := by
    rcases List.mem_append.mp hx with h1 | h1
    · exact h x h1
    · simp only [List.mem_singleton, Option.some.injEq] at h1
      subst h1
      exact ho
  exact this.same rfl

/-- Ghost functions for one more object. -/
def upd {β : Type} (f : Nat → β) (a : Nat) (b : β) : Nat → β := fun x => if x = a then b else f x

theorem load_make {x a : Nat} (ha : a < P.heap.length) : (P.make x v).load a = P.load a := by
  simp [TSys.make, TSys.load, TSys.node, List.getElem?_append_left ha]

theorem load_new {x : Nat} : (P.make x v).load P.heap.length = some v := by
  simp [TSys.make, TSys.load, TSys.node]

theorem OwnedBy.make {x : Nat} {w : TVal} {o : Nat} {S : Ty} (h : OwnedBy sh own tyOf P t T v) :
    OwnedBy sh (upd own P.heap.length o) (upd tyOf P.heap.length S) (P.make x w) t T v :=
  h.mono (fun a ha => by simp [upd, Nat.ne_of_lt ha]) (by simp [TSys.make])
    fun a ha w' hw => ⟨w', by rwa [load_make ha] at hw, .inl rfl⟩

theorem Apart.make {x : Nat} {w : TVal} {o : Nat} {S : Ty} (h : Apart sh own tyOf P) :
    Apart sh (upd own P.heap.length o) (upd tyOf P.heap.length S) (P.make x w) :=
  fun y hy => (h y hy).make

theorem load_free {a b : Nat} {w : TVal} (h : ({ P with heap := P.heap.set a none } : TSys).load b = some w) :
    P.load b = some w := by
  simp only [TSys.load, TSys.node, List.getElem?_set] at h ⊢
  split at h
  · split at h <;> simp at h
  · exact h

theorem OwnedBy.free {a : Nat} (h : OwnedBy sh own tyOf P t T v) :
    OwnedBy sh own tyOf ({ P with heap := P.heap.set a none } : TSys) t T v :=
  h.mono (fun _ _ => ⟨rfl, rfl⟩) (by simp) fun b _ w hw => ⟨w, load_free hw, .inl rfl⟩

theorem Apart.free {a : Nat} (h : Apart sh own tyOf P) : Apart sh own tyOf ({ P with heap := P.heap.set a none } : TSys) :=
  fun y hy => (h y hy).free

/-- Objects belong to the thread whose allocator they came from. -/
def Homed (own : Nat → Nat) (P : TSys) : Prop := ∀ a n, P.node a = some n → own a = n.alloc

theorem Homed.same (h : Homed own P) (e : P'.heap = P.heap) : Homed own P' :=
  fun a n hn => h a n (by simpa [TSys.node, e] using hn)

theorem Homed.make (h : Homed own P) : Homed (upd own P.heap.length t) (P.make t v) := by
  intro a n hn
  simp only [TSys.node, TSys.make] at hn
  by_cases ha : a < P.heap.length
  · rw [List.getElem?_append_left ha] at hn
    simp only [upd, Nat.ne_of_lt ha, if_false]
    exact h a n hn
  · by_cases ha' : a = P.heap.length
    · subst ha'
      simp at hn
      simp [upd, ← hn]
    · rw [List.getElem?_eq_none (by simp; omega)] at hn
      cases hn

theorem Homed.free {a : Nat} (h : Homed own P) : Homed own ({ P with heap := P.heap.set a none } : TSys) := by
  intro b n hn
  simp only [TSys.node, List.getElem?_set] at hn
  split at hn
  · split at hn <;> simp at hn
  · exact h b n hn

theorem Homed.set {a : Nat} {nd : TNode} (h : Homed own P) (hn : P.node a = some nd) :
    Homed own ({ P with heap := P.heap.set a (some { nd with content := v }) } : TSys) := by
  intro b n hb
  simp only [TSys.node, List.getElem?_set] at hb
  split at hb
  · next e =>
    subst e
    split at hb
    · simp only [Option.join_some, Option.some.injEq] at hb
      rw [← hb]
      exact h _ nd hn
    · simp at hb
  · exact h b n hb

theorem through_own {a : Nat} {S : Ty} (h : OwnedBy sh own tyOf P t T v) (e : P.through T v = some (a, S)) :
    a < P.heap.length ∧ (tyOf a = .rc S ∧ own a = t ∨ tyOf a = .arc S ∧ (sh S = true ∨ own a = t)) ∧
      (v = .ptr a ∨ ∃ f, P.load f = some (.ptr a)) ∧ ∀ w, P.load a = some w → OwnedBy sh own tyOf P t S w := by
  unfold TSys.through at e
  split at e
  · simp only [Option.some.injEq, Prod.mk.injEq] at e
    obtain ⟨rfl, rfl⟩ := e
    obtain ⟨h1, h2, h3, h4⟩ := h
    exact ⟨h1, .inl ⟨h2, h3⟩, .inl rfl, h4⟩
  · simp only [Option.some.injEq, Prod.mk.injEq] at e
    obtain ⟨rfl, rfl⟩ := e
    obtain ⟨h1, h2, h3, h4⟩ := h
    exact ⟨h1, .inr ⟨h2, h3⟩, .inl rfl, h4⟩
  · next f =>
    split at e
    · next b hb =>
      simp only [Option.some.injEq, Prod.mk.injEq] at e
      obtain ⟨rfl, rfl⟩ := e
      obtain ⟨h1, h2, h3, h4⟩ := h
      obtain ⟨a', g0, g1, g2, g3, g4⟩ := h4 _ hb
      cases g0
      exact ⟨g1, .inr ⟨g2, g3⟩, .inr ⟨_, hb⟩, g4⟩
    · cases e
  · cases e

theorem Apart.step (h : Apart sh own tyOf P) (hm : Modest sh) {c : TCmd} (hb : Okay sh P t c)
    (hs : P.step t c = some P') : ∃ own' tyOf', Apart sh own' tyOf' P' ∧
      ((∀ i x, c ≠ .envelop i x) → Homed own P → Homed own' P') := by
  cases c with
  | num n => cases hs; exact ⟨own, tyOf, h.give trivial, fun _ g => g.same rfl⟩
  | cell n => cases hs; exact ⟨own, tyOf, h.give trivial, fun _ g => g.same rfl⟩
  | newRc i =>
    simp only [TSys.step] at hs
    split at hs
    · next T v e =>
      cases hs
      refine ⟨upd own P.heap.length t, upd tyOf P.heap.length (.rc T), 
        Apart.give (P := (P.make t v).take i) (h.make.take i) ?_,
        fun _ g => g.make (v := v) |>.same rfl⟩
      refine ⟨by simp [TSys.make, TSys.take], by simp [upd], by simp [upd], fun w hw => ?_⟩
      have := hw.symm.trans (load_new (P := P) (x := t) (v := v))
      cases this
      exact (h.hand e).make.same rfl
    · cases hs
  | newArc i =>
    simp only [TSys.step] at hs
    split at hs
    · next T v e =>
      cases hs
      refine ⟨upd own P.heap.length t, upd tyOf P.heap.length (.arc T), 
        Apart.give (P := (P.make t v).take i) (h.make.take i) ?_,
        fun _ g => g.make (v := v) |>.same rfl⟩
      refine ⟨by simp [TSys.make, TSys.take], by simp [upd], .inr (by simp [upd]), fun w hw => ?_⟩
      have := hw.symm.trans (load_new (P := P) (x := t) (v := v))
      cases this
      exact (h.hand e).make.same rfl
    · cases hs
  | newUrc i =>
    simp only [TSys.step] at hs
    split at hs
    · next T v e =>
      cases hs
      have e1 : (P.make t v).heap.length = P.heap.length + 1 := by simp [TSys.make]
      refine ⟨upd (upd own P.heap.length t) (P.make t v).heap.length t,
        upd (upd tyOf P.heap.length (.arc T)) (P.make t v).heap.length (.urc T),
        Apart.give (P := ((P.make t v).make t (.ptr P.heap.length)).take i) (h.make.make.take i) ?_,
        fun _ g => (g.make (v := v)).make (v := .ptr P.heap.length) |>.same rfl⟩
      refine ⟨by simp [TSys.make, TSys.take], by rw [e1]; simp [upd], by rw [e1]; simp [upd], fun w hw => ?_⟩
      have h2 := load_new (P := P.make t v) (x := t) (v := .ptr P.heap.length)
      rw [e1] at h2
      have := hw.symm.trans h2
      cases this
      refine ⟨_, rfl, by simp [TSys.make, TSys.take], by rw [e1]; simp [upd], .inr (by rw [e1]; simp [upd]), fun w hw => ?_⟩
      have h3 : ((P.make t v).make t (.ptr P.heap.length)).load P.heap.length = some v := by
        rw [load_make (by omega), load_new]
      have := hw.symm.trans h3
      cases this
      exact (h.hand e).make.make.same rfl
    · cases hs
  | clone i =>
    simp only [TSys.step] at hs
    split at hs
    · next e => cases hs; exact ⟨own, tyOf, h.give (h.hand e), fun _ g => g.same rfl⟩
    · cases hs
  | inner i =>
    simp only [TSys.step] at hs
    split at hs
    · next e =>
      split at hs
      · next e2 =>
        split at hs
        · next e3 => cases hs; exact ⟨own, tyOf, h.give ((through_own (h.hand e) e2).2.2.2 _ e3), fun _ g => g.same rfl⟩
        · cases hs
      · cases hs
    · cases hs
  | get i =>
    simp only [TSys.step] at hs
    split at hs
    · split at hs
      · cases hs; exact ⟨own, tyOf, h, fun _ g => g⟩
      · cases hs
    · cases hs
  | set i n =>
    simp only [TSys.step] at hs
    split at hs
    · next e =>
      split at hs
      · next a e2 =>
        split at hs
        · next nd e3 =>
          cases hs
          refine ⟨own, tyOf, fun x hx => (h x hx).mono (fun _ _ => ⟨rfl, rfl⟩) (by simp) fun b _ w hw => ?_,
            fun _ g => g.set e3⟩
          simp only [TSys.load, TSys.node, List.getElem?_set] at hw
          split at hw
          · next hab =>
            rw [← hab]
            split at hw
            · simp only [Option.join_some, Option.map_some, Option.some.injEq] at hw
              have hc := show P.load a = some nd.content by rw [TSys.load, e3]; rfl
              have := (through_own (h.hand e) e2).2.2.2 _ hc
              refine ⟨_, hc, .inr ?_⟩
              cases hm : nd.content with
              | num m => exact ⟨m, n, rfl, hw.symm⟩
              | ptr b => rw [hm] at this; exact this.elim
            · simp at hw
          · exact ⟨w, hw, .inl rfl⟩
        · cases hs
      · cases hs
    · cases hs
  | drop i =>
    simp only [TSys.step] at hs
    split at hs
    · next e =>
      split at hs
      · split at hs
        · next e3 => 
          cases hs
          refine ⟨own, tyOf, (h.free.take i).give ?_, fun _ g => g.free.same rfl⟩
          have := (h.hand e).2.2.2 _ (by rw [TSys.load, e3]; rfl)
          exact this.free.same rfl
        · cases hs
      · cases hs; exact ⟨own, tyOf, h.take i, fun _ g => g.same rfl⟩
    · split at hs
      · cases hs; exact ⟨own, tyOf, h.free.take i, fun _ g => g.free.same rfl⟩
      · cases hs; exact ⟨own, tyOf, h.take i, fun _ g => g.same rfl⟩
    · cases hs; exact ⟨own, tyOf, h.take i, fun _ g => g.same rfl⟩
    · cases hs
  | send i x =>
    simp only [TSys.step] at hs
    split at hs
    · next e =>
      split at hs
      · next hT => cases hs; exact ⟨own, tyOf, (h.take i).give (P := P.take i) (((h.hand e).sent hm (hb _ _ e hT) x).same rfl), fun _ g => g.same rfl⟩
      · cases hs
    · cases hs
  | envelop i x =>
    simp only [TSys.step] at hs
    split at hs
    · next e =>
      cases hs
      exact ⟨own, tyOf, h.give ((h.hand e).sent hm (.inr (.inr ⟨_, rfl, hb _ _ e _ (.inl rfl)⟩)) x),
        fun g => absurd rfl (g i x)⟩
    · next T f e =>
      split at hs
      · next a e2 =>
        cases hs
        have hb := hb _ _ e _ (.inr rfl)
        obtain ⟨h1, h2, h3, h4⟩ := h.hand e
        obtain ⟨a', g0, g1, g2, g3, g4⟩ := h4 _ e2
        cases g0
        have hne : a ≠ P.heap.length := by omega
        refine ⟨upd own P.heap.length x, upd tyOf P.heap.length (.urc T), h.make.give ?_, fun g => absurd rfl (g i x)⟩
        refine ⟨by simp [TSys.make], by simp [upd], by simp [upd], fun w hw => ?_⟩
        have := hw.symm.trans load_new
        cases this
        refine ⟨_, rfl, by simp [TSys.make]; omega, by simp [upd, hne, g2], .inl hb, fun w hw => ?_⟩
        rw [load_make g1] at hw
        exact ((g4 w hw).all hm hb x).make
      · cases hs
    · cases hs


/-! ### What the next calls touch -/

/-- The object belongs to all threads. -/
def Everyones (tyOf : Nat → Ty) (a : Nat) : Prop := ∃ T, tyOf a = .arc T ∧ T.shared = true

/-- Accesses of thread `t`: atomic ones to the counts of `Arc`s, ones to its own objects, reads of objects that belong
to all, and the destruction of an object that nobody else has. -/
inductive Mine (own : Nat → Nat) (tyOf : Nat → Ty) (P : TSys) (t : Nat) (x : TAcc) : Prop
  | count (a : Nat) (T : Ty) (h1 : x.loc = .count a) (h2 : tyOf a = .arc T) (h3 : x.atomic = true)
  | alloc (k : Nat) (h1 : x.loc = .alloc k) (h3 : x.atomic = true)
  | private_count (a : Nat) (h1 : x.loc = .count a) (h2 : ∀ T, tyOf a ≠ .arc T) (h3 : own a = t)
  | private_content (a : Nat) (h1 : x.loc = .content a) (h2 : ¬ Everyones tyOf a) (h3 : own a = t)
  | reads (a : Nat) (h1 : x.loc = .content a) (h2 : Everyones tyOf a) (h3 : x.write = false)
      (h4 : (∃ T, some ⟨t, T, .ptr a⟩ ∈ P.hands) ∨ ∃ f, P.load f = some (.ptr a))
  | last (a : Nat) (h1 : x.loc = .content a) (h2 : Everyones tyOf a) (h3 : P.refs a = 1)
      (h4 : ∃ T, some ⟨t, T, .ptr a⟩ ∈ P.hands)

theorem Mine.ofCount {a : Nat} (h : OwnedBy Ty.shared own tyOf P t T (.ptr a)) : Mine own tyOf P t (countAcc T a) := by
  cases T with
  | int => exact h.elim
  | cell => exact h.elim
  | rc T => exact .private_count a rfl (by rw [h.2.1]; simp) h.2.2.1
  | arc T => exact .count a T rfl h.2.1 rfl
  | urc T => exact .private_count a rfl (by rw [h.2.1]; simp) h.2.2.1

theorem Mine.ofRead {a i : Nat} {S : Ty} (h : Apart Ty.shared own tyOf P) (e : P.hand t i = some (T, v))
    (e2 : P.through T v = some (a, S)) : Mine own tyOf P t ⟨.content a, false, false⟩ := by
  obtain ⟨h1, h2, h3, h4⟩ := through_own (h.hand e) e2
  rcases h2 with ⟨h2, h5⟩ | ⟨h2, h5⟩
  · exact .private_content a rfl (by rintro ⟨T, hT, _⟩; rw [h2] at hT; cases hT) h5
  · by_cases hS : S.shared = true
    · refine .reads a rfl ⟨S, h2, hS⟩ rfl ?_
      rcases h3 with rfl | ⟨f, hf⟩
      · exact .inl ⟨T, hand_mem e⟩
      · exact .inr ⟨f, hf⟩
    · refine .private_content a rfl (by rintro ⟨T, hT, hT'⟩; rw [h2] at hT; cases hT; exact hS hT') ?_
      rcases h5 with h5 | h5
      · exact absurd h5 hS
      · exact h5

theorem Mine.ofCall (h : Apart Ty.shared own tyOf P) {c : TCmd} (hs : (P.step t c).isSome) {x : TAcc}
    (hx : x ∈ P.accs true t c) : Mine own tyOf P t x := by
  cases c with
  | num n => cases hx
  | cell n => cases hx
  | newRc i => simp only [TSys.accs, List.mem_singleton] at hx; subst hx; exact .alloc t rfl rfl
  | newArc i => simp only [TSys.accs, List.mem_singleton] at hx; subst hx; exact .alloc t rfl rfl
  | newUrc i =>
    simp only [TSys.accs, List.mem_cons, List.not_mem_nil, or_false, or_self] at hx
    subst hx; exact .alloc t rfl rfl
  | clone i =>
    simp only [TSys.accs] at hx
    split at hx
    · next e => simp only [List.mem_singleton] at hx; subst hx; exact .ofCount (h.hand e)
    · cases hx
  | inner i =>
    simp only [TSys.accs] at hx
    split at hx
    · next e =>
      split at hx
      · next e2 =>
        rcases List.mem_cons.mp hx with rfl | hx
        · exact .ofRead h e e2
        · split at hx
          · next e3 =>
            simp only [List.mem_singleton] at hx
            subst hx
            exact .ofCount ((through_own (h.hand e) e2).2.2.2 _ e3)
          · cases hx
      · cases hx
    · cases hx
  | get i =>
    simp only [TSys.accs] at hx
    split at hx
    · next e =>
      split at hx
      · next e2 => simp only [List.mem_singleton] at hx; subst hx; exact .ofRead h e e2
      · cases hx
    · cases hx
  | set i n =>
    simp only [TSys.accs] at hx
    simp only [TSys.step] at hs
    split at hx
    · next e =>
      simp only [e] at hs
      split at hx
      · next a S e2 =>
        simp only [List.mem_singleton] at hx
        subst hx
        simp only [e2] at hs
        cases S with
        | cell =>
          obtain ⟨h1, h2, h3, h4⟩ := through_own (h.hand e) e2
          rcases h2 with ⟨h2, h5⟩ | ⟨h2, h5⟩
          · exact .private_content a rfl (by rintro ⟨T, hT, _⟩; rw [h2] at hT; cases hT) h5
          · refine .private_content a rfl (by rintro ⟨T, hT, hT'⟩; rw [h2] at hT; cases hT; exact absurd hT' (by decide)) ?_
            rcases h5 with h5 | h5
            · exact absurd h5 (by decide)
            · exact h5
        | _ => cases hs
      · cases hx
    · cases hx
  | drop i =>
    simp only [TSys.accs] at hx
    split at hx
    · next e => simp only [List.mem_singleton] at hx; subst hx; exact .ofCount (h.hand e)
    · next T a e =>
      rcases List.mem_cons.mp hx with rfl | hx
      · exact .ofCount (h.hand e)
      · split at hx
        · next hr =>
          split at hx
          · simp only [List.mem_cons, List.not_mem_nil, or_false] at hx
            rcases hx with rfl | rfl
            · obtain ⟨h1, h2, h3, h4⟩ := h.hand e
              by_cases hT : T.shared = true
              · exact .last a rfl ⟨T, h2, hT⟩ hr ⟨_, hand_mem e⟩
              · refine .private_content a rfl (by rintro ⟨S, hS, hS'⟩; rw [h2] at hS; cases hS; exact hT hS') ?_
                rcases h3 with h3 | h3
                · exact absurd h3 hT
                · exact h3
            · exact .alloc _ rfl rfl
          · cases hx
        · cases hx
    · next T f e =>
      have ho := h.hand e
      rcases List.mem_cons.mp hx with rfl | hx
      · exact .ofCount ho
      · split at hx
        · split at hx
          · next n hn =>
            simp only [List.mem_cons] at hx
            obtain ⟨h1, h2, h3, h4⟩ := ho
            rcases hx with rfl | rfl | hx
            · exact .private_content f rfl (by rintro ⟨S, hS, _⟩; rw [h2] at hS; cases hS) h3
            · exact .alloc _ rfl rfl
            · split at hx
              · next b hb =>
                simp only [List.mem_singleton] at hx
                subst hx
                obtain ⟨a', g0, g1, g2, _⟩ := h4 n.content (by rw [TSys.load, hn]; rfl)
                rw [hb] at g0
                cases g0
                exact .count _ T rfl g2 rfl
              · cases hx
          · cases hx
        · cases hx
    · cases hx
  | send i u => cases hx
  | envelop i u =>
    simp only [TSys.accs] at hx
    split at hx
    · next e => simp only [List.mem_singleton] at hx; subst hx; exact .ofCount (h.hand e)
    · next T f e =>
      obtain ⟨h1, h2, h3, h4⟩ := h.hand e
      simp only [List.mem_cons] at hx
      rcases hx with rfl | rfl | hx
      · exact .private_content f rfl (by rintro ⟨S, hS, _⟩; rw [h2] at hS; cases hS) h3
      · exact .alloc _ rfl rfl
      · split at hx
        · next b hb =>
          simp only [List.mem_singleton] at hx
          subst hx
          obtain ⟨a', g0, g1, g2, _⟩ := h4 _ hb
          cases g0
          exact .count _ T rfl g2 rfl
        · cases hx
    · cases hx

theorem refs_two {a : Nat} {S : Ty} (ht : some ⟨t, T, .ptr a⟩ ∈ P.hands) (hne : t ≠ u)
    (hu : some ⟨u, S, .ptr a⟩ ∈ P.hands ∨ ∃ f, P.load f = some (.ptr a)) : P.refs a ≠ 1 := by
  have h1 : ∀ l : List (Option THand), some ⟨t, T, .ptr a⟩ ∈ l → 0 < l.countP (fun h => h.any (·.val == .ptr a)) := by
    intro l hl
    exact List.countP_pos_iff.mpr ⟨_, hl, by simp⟩
  rcases hu with hu | ⟨f, hf⟩
  · have : 2 ≤ P.hands.countP (fun h => h.any (·.val == .ptr a)) := by
      obtain ⟨l1, l2, e⟩ := List.append_of_mem hu
      rw [e] at ht ⊢
      have ht' : some ⟨t, T, .ptr a⟩ ∈ l1 ++ l2 := by
        simp only [List.mem_append, List.mem_cons, Option.some.injEq, THand.mk.injEq] at ht ⊢
        rcases ht with h | ⟨h, _⟩ | h
        · exact .inl h
        · exact absurd h hne
        · exact .inr h
      have := h1 _ ht'
      simp only [List.countP_append, List.countP_cons] at this ⊢
      simp
      omega
    unfold TSys.refs
    omega
  · have h2 : 0 < P.heap.countP (fun n => n.any (·.content == .ptr a)) := by
      simp only [TSys.load, TSys.node] at hf
      cases e : P.heap[f]? with
      | none => simp [e] at hf
      | some o =>
        cases o with
        | none => simp [e] at hf
        | some n =>
          simp only [e, Option.join_some, Option.map_some, Option.some.injEq] at hf
          exact List.countP_pos_iff.mpr ⟨_, List.mem_of_getElem? e, by simp [hf]⟩
    have := h1 _ ht
    unfold TSys.refs
    omega

theorem Mine.no_conflict {x y : TAcc} (hx : Mine own tyOf P t x) (hy : Mine own tyOf P u y) (hne : t ≠ u) :
    ¬ x.conflict y := by
  rintro ⟨hl, hw, ha⟩
  rcases hx with ⟨a, T, h1, h2, h3⟩ | ⟨k, h1, h3⟩ | ⟨a, h1, h2, h3⟩ | ⟨a, h1, h2, h3⟩ | ⟨a, h1, h2, h3, h4⟩ | ⟨a, h1, h2, h3, h4⟩ <;>
  rcases hy with ⟨b, S, g1, g2, g3⟩ | ⟨k', g1, g3⟩ | ⟨b, g1, g2, g3⟩ | ⟨b, g1, g2, g3⟩ | ⟨b, g1, g2, g3, g4⟩ | ⟨b, g1, g2, g3, g4⟩ <;>
  rw [h1, g1] at hl <;> cases hl
  · exact ha ⟨h3, g3⟩
  · exact g2 _ h2
  · exact ha ⟨h3, g3⟩
  · exact h2 _ g2
  · exact hne (h3.symm.trans g3)
  · exact hne (h3.symm.trans g3)
  · exact h2 g2
  · exact h2 g2
  · exact g2 h2
  · rw [h3, g3] at hw; simp at hw
  · obtain ⟨T, hT⟩ := g4
    rcases h4 with ⟨S, hS⟩ | hf
    · exact refs_two hT (Ne.symm hne) (.inl hS) g3
    · exact refs_two (S := T) hT (Ne.symm hne) (.inr hf) g3
  · exact g2 h2
  · obtain ⟨T, hT⟩ := h4
    rcases g4 with ⟨S, hS⟩ | hf
    · exact refs_two hT hne (.inl hS) h3
    · exact refs_two (S := T) hT hne (.inr hf) h3
  · obtain ⟨T, hT⟩ := h4
    obtain ⟨S, hS⟩ := g4
    exact refs_two hT hne (.inl hS) h3

/-! ### C130 -/

theorem Bounded.okay {c : TCmd} (hb : P.bounded t c = true) : Okay Ty.shared P t c := by
  cases c with
  | send i x =>
    intro T v _ hT
    cases T with
    | int => exact .inl rfl
    | cell => exact .inr (.inl rfl)
    | arc T => exact .inr (.inr ⟨T, rfl, by simpa [Ty.shared, Ty.send, Ty.sync] using hT⟩)
    | _ => simp [Ty.send] at hT
  | envelop i x =>
    intro T v e S hS
    simp only [TSys.bounded, e] at hb
    rcases hS with rfl | rfl <;> exact hb
  | _ => trivial

/-- C130, for programs that respect the bounds which the code does not state: if envelopes carry only handles of values
that are `Send` and `Sync` and the allocators are `Sync`, no program that the compiler accepts has a data race. -/
theorem C130_partial {prog : List (Nat × TCmd)} (hb : TSys.init.Bounded prog) (hr : TSys.init.run prog = some P)
    (l : TLoc) : ¬ P.RaceOn true l := by
  have key : ∀ (prog : List (Nat × TCmd)) (Q : TSys) (own : Nat → Nat) (tyOf : Nat → Ty),
      Apart Ty.shared own tyOf Q → Q.Bounded prog → Q.run prog = some P → ∃ own tyOf, Apart Ty.shared own tyOf P := by
    intro prog
    induction prog with
    | nil => intro Q own tyOf h _ hr; cases hr; exact ⟨own, tyOf, h⟩
    | cons c cs ih =>
      intro Q own tyOf h hb hr
      obtain ⟨t, c⟩ := c
      simp only [TSys.run] at hr
      split at hr
      · next Q' e =>
        obtain ⟨own', tyOf', h', _⟩ := h.step (fun T hT => shared_cases hT) (Bounded.okay hb.1) e
        exact ih Q' own' tyOf' h' (hb.2 _ e) hr
      · cases hr
  obtain ⟨own, tyOf, h⟩ := key prog TSys.init (fun _ => 0) (fun _ => .int) (by intro h hh; cases hh) hb hr
  rintro ⟨t, u, c, d, hne, hc, hd, x, hx, y, hy, _, hxy⟩
  exact (Mine.ofCall h hc hx).no_conflict (Mine.ofCall h hd hy) hne hxy

/-- Two threads have the same `Cell` in an `Arc`: it was sent in an envelope. -/
def sharedCell : List (Nat × TCmd) := [(0, .cell 1), (0, .newArc 0), (0, .envelop 1 1)]

/-- Two threads have the same `Rc` in an `Arc`. -/
def sharedRc : List (Nat × TCmd) := [(0, .num 1), (0, .newRc 0), (0, .newArc 1), (0, .envelop 2 1)]

/-- Two threads have the same `Rc` in an `Urc`. -/
def sharedUrc : List (Nat × TCmd) := [(0, .num 1), (0, .newRc 0), (0, .newUrc 1), (0, .envelop 2 1)]

/-- C130 is false: `Envelop` is implemented for `Arc<T>` whatever `T` is, so safe code can let two threads write to
the same `Cell`. -/
theorem C130_arc_refuted : ∃ prog P l, TSys.init.run prog = some P ∧ P.RaceOn true l :=
  ⟨sharedCell, _, .content 0, rfl, 0, 1, .set 1 5, .set 2 6, by decide, rfl, rfl, _, List.mem_singleton.mpr rfl, _,
    List.mem_singleton.mpr rfl, rfl, rfl, .inl rfl, by decide⟩

/-- C130 is false: two threads can clone the same `Rc`, whose count is not atomic. -/
theorem C130_rc_refuted : ∃ prog P a, TSys.init.run prog = some P ∧ P.RaceOn true (.count a) ∧
    P.hand 0 2 = some (.arc (.rc .int), .ptr 1) ∧ P.hand 1 3 = some (.arc (.rc .int), .ptr 1) :=
  ⟨sharedRc, _, 0, rfl, ⟨0, 1, .inner 2, .inner 3, by decide, rfl, rfl, ⟨.count 0, true, false⟩, by decide,
    ⟨.count 0, true, false⟩, by decide, rfl, rfl, .inl rfl, by decide⟩, rfl, rfl⟩

/-- C130 is false: the same with an `Urc`. -/
theorem C130_urc_refuted : ∃ prog P a, TSys.init.run prog = some P ∧ P.RaceOn true (.count a) ∧
    (P.hand 0 2).map (·.1) = some (.urc (.rc .int)) ∧ (P.hand 1 3).map (·.1) = some (.urc (.rc .int)) :=
  ⟨sharedUrc, _, 0, rfl, ⟨0, 1, .inner 2, .inner 3, by decide, rfl, rfl, ⟨.count 0, true, false⟩, by decide,
    ⟨.count 0, true, false⟩, by decide, rfl, rfl, .inl rfl, by decide⟩, rfl, rfl⟩

/-- Without envelopes the compiler rejects all of this. -/
example : (TSys.init.run [(0, .cell 1), (0, .newArc 0), (0, .send 1 1)]) = none := rfl

/-- A program that C130 covers: three threads with `Arc`s, `Urc`s and `Rc`s, where `Arc`s are sent as they are. -/
def threeThreads : List (Nat × TCmd) :=
  [(0, .num 1), (0, .newArc 0), (0, .clone 1), (0, .send 2 1), (0, .newUrc 1), (0, .envelop 4 2), (1, .newRc 3),
   (2, .inner 5), (0, .drop 4), (1, .inner 6)]

example : TSys.init.Bounded threeThreads ∧ (TSys.init.run threeThreads).isSome := by
  refine ⟨?_, rfl⟩
  refine ⟨rfl, fun P h => ?_⟩; cases h
  refine ⟨rfl, fun P h => ?_⟩; cases h
  refine ⟨rfl, fun P h => ?_⟩; cases h
  refine ⟨rfl, fun P h => ?_⟩; cases h
  refine ⟨rfl, fun P h => ?_⟩; cases h
  refine ⟨rfl, fun P h => ?_⟩; cases h
  refine ⟨rfl, fun P h => ?_⟩; cases h
  refine ⟨rfl, fun P h => ?_⟩; cases h
  refine ⟨rfl, fun P h => ?_⟩; cases h
  refine ⟨rfl, fun P h => ?_⟩; cases h
  trivial

/-! ### C131 -/

/-- A program in which threads send each other plain values only. -/
def TSys.Local (P : TSys) : List (Nat × TCmd) → Prop
  | [] => True
  | (t, c) :: cs => (∀ i u, c ≠ .envelop i u) ∧
      (∀ i u T v, c = .send i u → P.hand t i = some (T, v) → T = .int ∨ T = .cell) ∧
      ∀ P', P.step t c = some P' → P'.Local cs

/-- C131, for programs in which no handle leaves its thread: every allocator, `Sync` or not, is used by one thread. -/
theorem C131_partial {prog : List (Nat × TCmd)} (hb : TSys.init.Local prog) (hr : TSys.init.run prog = some P)
    (k : Nat) : ¬ P.RaceOn false (.alloc k) := by
  have key : ∀ (prog : List (Nat × TCmd)) (Q : TSys) (own : Nat → Nat) (tyOf : Nat → Ty),
      Apart (fun _ => false) own tyOf Q → Homed own Q → Q.Local prog → Q.run prog = some P →
      ∃ own tyOf, Apart (fun _ => false) own tyOf P ∧ Homed own P := by
    intro prog
    induction prog with
    | nil => intro Q own tyOf h g _ hr; cases hr; exact ⟨own, tyOf, h, g⟩
    | cons c cs ih =>
      intro Q own tyOf h g hb hr
      obtain ⟨t, c⟩ := c
      simp only [TSys.run] at hr
      split at hr
      · next Q' e =>
        have hok : Okay (fun _ => false) Q t c := by
          cases c with
          | send i x => exact fun T v hh _ => (hb.2.1 i x T v rfl hh).elim .inl fun h => .inr (.inl h)
          | envelop i x => exact absurd rfl (hb.1 i x)
          | _ => trivial
        obtain ⟨own', tyOf', h', g'⟩ := h.step (fun T hT => by simp at hT) hok e
        exact ih Q' own' tyOf' h' (g' hb.1 g) (hb.2.2 _ e) hr
      · cases hr
  obtain ⟨own, tyOf, h, g⟩ := key prog TSys.init (fun _ => 0) (fun _ => .int) (by intro h hh; cases hh)
    (by intro a n hn; simp [TSys.node, TSys.init] at hn) hb hr
  have mine : ∀ t c x, x ∈ P.accs false t c → ∀ k, x.loc = .alloc k → k = t := by
    intro t c x hx k hk
    cases c with
    | drop i =>
      simp only [TSys.accs] at hx
      split at hx
      · simp only [List.mem_singleton] at hx; subst hx; cases hk
      · next T a e =>
        have := (h.hand e).2.2.1.resolve_left (by simp)
        rcases List.mem_cons.mp hx with rfl | hx
        · cases hk
        · split at hx
          · split at hx
            · next n hn =>
              simp only [List.mem_cons, List.not_mem_nil, or_false] at hx
              rcases hx with rfl | rfl
              · cases hk
              · cases hk
                rw [← g _ _ hn, this]
            · cases hx
          · cases hx
      · next T f e =>
        have := (h.hand e).2.2.1
        rcases List.mem_cons.mp hx with rfl | hx
        · cases hk
        · split at hx
          · split at hx
            · next n hn =>
              simp only [List.mem_cons] at hx
              rcases hx with rfl | rfl | hx
              · cases hk
              · cases hk
                rw [← g _ _ hn, this]
              · split at hx
                · simp only [List.mem_singleton] at hx; subst hx; cases hk
                · cases hx
            · cases hx
          · cases hx
      · cases hx
    | num n => cases hx
    | cell n => cases hx
    | send i u => cases hx
    | newRc i => simp only [TSys.accs, List.mem_singleton] at hx; subst hx; cases hk; rfl
    | newArc i => simp only [TSys.accs, List.mem_singleton] at hx; subst hx; cases hk; rfl
    | newUrc i =>
      simp only [TSys.accs, List.mem_cons, List.not_mem_nil, or_false, or_self] at hx
      subst hx; cases hk; rfl
    | clone i =>
      simp only [TSys.accs] at hx
      split at hx
      · next T a _ => simp only [List.mem_singleton] at hx; subst hx; cases T <;> cases hk
      · cases hx
    | inner i =>
      simp only [TSys.accs] at hx
      split at hx
      · split at hx
        · next S _ =>
          rcases List.mem_cons.mp hx with rfl | hx
          · cases hk
          · split at hx
            · simp only [List.mem_singleton] at hx; subst hx; cases S <;> cases hk
            · cases hx
        · cases hx
      · cases hx
    | get i =>
      simp only [TSys.accs] at hx
      split at hx
      · split at hx
        · simp only [List.mem_singleton] at hx; subst hx; cases hk
        · cases hx
      · cases hx
    | set i n =>
      simp only [TSys.accs] at hx
      split at hx
      · split at hx
        · simp only [List.mem_singleton] at hx; subst hx; cases hk
        · cases hx
      · cases hx
    | envelop i u =>
      simp only [TSys.accs] at hx
      split at hx
      · simp only [List.mem_singleton] at hx; subst hx; cases hk
      · simp only [List.mem_cons] at hx
        rcases hx with rfl | rfl | hx
        · cases hk
        · cases hk; rfl
        · split at hx
          · simp only [List.mem_singleton] at hx; subst hx; cases hk
          · cases hx
      · cases hx
  rintro ⟨t, u, c, d, hne, hc, hd, x, hx, y, hy, hl, hxy, _⟩
  exact hne ((mine t c x hx k hl).symm.trans (mine u d y hy k (hxy.symm.trans hl)))

/-- Thread 1 has got an `Arc` from thread 0, which has something else to allocate. -/
def lastArc : List (Nat × TCmd) := [(0, .num 1), (0, .newArc 0), (0, .num 2), (0, .send 1 1)]

/-- Thread 1 has got an `Urc` from thread 0 in an envelope. -/
def lastUrc : List (Nat × TCmd) := [(0, .num 1), (0, .newUrc 0), (0, .num 2), (0, .envelop 1 1)]

/-- C131 is false: `Arc<i32>` is `Send`, but the allocator it gives its memory back to need not be `Sync`. While
thread 1 drops the last `Arc`, thread 0 can use its allocator. -/
theorem C131_arc_refuted : ∃ prog P, TSys.init.Bounded prog ∧ TSys.init.run prog = some P ∧ P.RaceOn false (.alloc 0) := by
  refine ⟨lastArc, _, ?_, rfl, 0, 1, .newRc 2, .drop 3, by decide, rfl, rfl, ⟨.alloc 0, true, false⟩, by decide,
    ⟨.alloc 0, true, false⟩, by decide, rfl, rfl, .inl rfl, by decide⟩
  refine ⟨rfl, fun P h => ?_⟩; cases h
  refine ⟨rfl, fun P h => ?_⟩; cases h
  refine ⟨rfl, fun P h => ?_⟩; cases h
  refine ⟨rfl, fun P h => ?_⟩; cases h
  trivial

/-- C131 is false: the fence of an `Urc` that was put into an envelope comes from the allocator of the thread that
sends it and is given back by the thread that receives it, even if the value stays with the first. -/
theorem C131_urc_refuted : ∃ prog P, TSys.init.Bounded prog ∧ TSys.init.run prog = some P ∧
    P.RaceOn false (.alloc 0) ∧ (P.hand 0 1).map (·.1) = some (.urc .int) := by
  refine ⟨lastUrc, _, ?_, rfl, ⟨0, 1, .newRc 2, .drop 3, by decide, rfl, rfl, ⟨.alloc 0, true, false⟩, by decide,
    ⟨.alloc 0, true, false⟩, by decide, rfl, rfl, .inl rfl, by decide⟩, rfl⟩
  refine ⟨rfl, fun P h => ?_⟩; cases h
  refine ⟨rfl, fun P h => ?_⟩; cases h
  refine ⟨rfl, fun P h => ?_⟩; cases h
  refine ⟨rfl, fun P h => ?_⟩; cases h
  trivial

/-- A program that C131 covers: thread 0 makes an `Arc` and sends thread 1 a number, which puts it into an `Urc`. -/
example : TSys.init.Local [(0, .num 1), (0, .newArc 0), (0, .num 2), (0, .send 2 1), (1, .newUrc 3), (0, .drop 1)] ∧
    (TSys.init.run [(0, .num 1), (0, .newArc 0), (0, .num 2), (0, .send 2 1), (1, .newUrc 3), (0, .drop 1)]).isSome := by
  refine ⟨?_, rfl⟩
  refine ⟨by simp, by simp, fun P h => ?_⟩; cases h
  refine ⟨by simp, by simp, fun P h => ?_⟩; cases h
  refine ⟨by simp, by simp, fun P h => ?_⟩; cases h
  refine ⟨by simp, fun i u T v e => ?_, fun P h => ?_⟩
  · cases e; intro h; cases h; exact .inl rfl
  cases h
  refine ⟨by simp, by simp, fun P h => ?_⟩; cases h
  refine ⟨by simp, by simp, fun P h => ?_⟩; cases h
  trivial

end Lokky
