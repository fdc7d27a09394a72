import Verif.Proofs.Scope

/-!
# Properties of markers, selectors and scopes: C74–C78, C88–C90
-/

namespace Lokky

/-- No panic is caught in the program. -/
def ScopeProg.NoCatch : ScopeProg → Prop
  | .ret => True
  | .panic => True
  | .look k => k.NoCatch
  | .spawn init _ body k => init.NoCatch ∧ body.NoCatch ∧ k.NoCatch
  | .attempt _ _ => False

/-- Every scope that the program may spawn satisfies `q`. -/
def ScopeProg.Spawns (q : ScopeVal → Prop) : ScopeProg → Prop
  | .ret => True
  | .panic => True
  | .look k => k.Spawns q
  | .spawn init v body k => init.Spawns q ∧ q v ∧ body.Spawns q ∧ k.Spawns q
  | .attempt b k => b.Spawns q ∧ k.Spawns q

/-- What a program sees if the current scope is a matter of nesting alone: `c` is the current scope here, `into v n`
the one inside a scope `v` with number `n`. The result is what it sees and the next number; `none` if it panics. -/
def ScopeProg.lexical (into : ScopeVal → Nat → Nat) (c : Nat) : ScopeProg → Nat → Option (List ScopeEv × Nat)
  | .ret, n => some ([], n)
  | .panic, _ => none
  | .look k, n => (k.lexical into c n).map fun r => (.looked c :: r.1, r.2)
  | .spawn init v body k, n => do
    let a ← init.lexical into c n
    let b ← body.lexical into (into v a.2) (a.2 + 1)
    let d ← k.lexical into c b.2
    some (.given c :: a.1 ++ .entered a.2 :: b.1 ++ d.1, d.2)
  | .attempt _ _, _ => none

/-! ## C74 -/

/-- C74: when `spawn` returns, the current scope is what it was, whatever `scope_init` and the body did. -/
theorem C74_restored {β : Type} {init : Nat → M ScopeSt ScopeVal} {f : Nat → M ScopeSt β} {s s' : ScopeSt} {t : β}
    (h : Scope.spawn init f s = .ok t s') : s'.cur = s.cur := by
  rw [Scope.spawn_eq, Scope.spawned] at h
  cases hc : s.cur with
  | none => rw [hc] at h; cases h
  | some prev =>
    rw [hc] at h
    simp only [] at h
    split at h
    · cases hi : init prev s with
      | panic s1 => rw [hi] at h; cases h
      | abort => rw [hi] at h; cases h
      | ub u => rw [hi] at h; cases h
      | ok v s1 =>
        rw [hi] at h
        simp only [] at h
        split at h
        · cases h
        · cases hh : v.head with
          | none => rw [hh] at h; cases h
          | some x =>
            rw [hh] at h
            simp only [] at h
            split at h
            · cases hf : f s1.next { s1.placed with cur := some x } with
              | panic s2 => rw [hf] at h; cases h
              | abort => rw [hf] at h; cases h
              | ub u => rw [hf] at h; cases h
              | ok a s2 =>
                rw [hf] at h
                injection h with _ h
                rw [← h]
            · cases h
    · cases h

/-- C74 for whole programs that catch no panic, of any nesting: what they see of the current scope is determined by
the nesting alone. Inside a spawned scope it is the one `C75` is about; afterwards it is again the one outside. -/
theorem C74_lexical {p : ScopeProg} (hp : p.NoCatch) {s s' : ScopeSt} {u : Unit} {c : Nat} (hc : s.cur = some c)
    (h : p.run s = .ok u s') :
    ∃ l, p.lexical (fun v _ => v.head.getD 0) c s.next = some (l, s'.next) ∧ s'.log = s.log ++ l ∧ s'.cur = some c := by
  induction p generalizing s s' c with
  | ret => cases h; exact ⟨[], rfl, by simp, hc⟩
  | panic => cases h
  | attempt b k => exact hp.elim
  | look k ih =>
    rw [ScopeProg.run_look, hc] at h
    simp only [] at h
    split at h
    · obtain ⟨l, h1, h2, h3⟩ := ih hp (s := s.saw (.looked c)) hc h
      refine ⟨.looked c :: l, ?_, by simp [h2, ScopeSt.saw], h3⟩
      have h1' : k.lexical (fun v _ => v.head.getD 0) c s.next = some (l, s'.next) := h1
      simp [ScopeProg.lexical, h1']
    · cases h
  | spawn init v body k ihi ihb ihk =>
    obtain ⟨pi, pb, pk⟩ := hp
    rw [ScopeProg.run_spawn, hc] at h
    simp only [] at h
    split at h
    · cases hi : init.run (s.saw (.given c)) with
      | panic s1 => rw [hi] at h; cases h
      | abort => rw [hi] at h; cases h
      | ub u => rw [hi] at h; cases h
      | ok w s1 =>
        rw [hi] at h
        obtain ⟨l1, a1, a2, a3⟩ := ihi pi (s := s.saw (.given c)) hc hi
        simp only [] at h
        split at h
        · cases h
        · cases hh : v.head with
          | none => rw [hh] at h; cases h
          | some x =>
            rw [hh] at h
            simp only [] at h
            split at h
            · cases hb : body.run ({ s1.placed with cur := some x }.saw (.entered s1.next)) with
              | panic s2 => rw [hb] at h; cases h
              | abort => rw [hb] at h; cases h
              | ub u => rw [hb] at h; cases h
              | ok w2 s2 =>
                rw [hb] at h
                obtain ⟨l2, b1, b2, b3⟩ := ihb pb (c := x) (s := { s1.placed with cur := some x }.saw _) rfl hb
                obtain ⟨l3, d1, d2, d3⟩ :=
                  ihk pk (c := c) (s := { s2 with cur := some c, live := s2.live.erase s1.next }) rfl h
                refine ⟨.given c :: l1 ++ .entered s1.next :: l2 ++ l3, ?_, ?_, d3⟩
                · have a1' : init.lexical (fun v _ => v.head.getD 0) c s.next = some (l1, s1.next) := a1
                  have b1' : body.lexical (fun v _ => v.head.getD 0) x (s1.next + 1) = some (l2, s2.next) := b1
                  have d1' : k.lexical (fun v _ => v.head.getD 0) c s2.next = some (l3, s'.next) := d1
                  simp [ScopeProg.lexical, a1', b1', d1', hh]
                · have e2 : s2.log = (s1.log ++ [.entered s1.next]) ++ l2 := b2
                  have e1 : s1.log = (s.log ++ [.given c]) ++ l1 := a2
                  have e3 : s'.log = s2.log ++ l3 := d2
                  rw [e3, e2, e1]
                  simp
            · cases h
    · cases h

/-- A program that spawns scopes in `scope_init`, in the body and afterwards, and looks everywhere. -/
def scopeProg : ScopeProg :=
  .look (.spawn (.look (.spawn .ret ⟨24, some 0⟩ (.look .ret) (.look .ret))) ⟨16, some 1⟩
    (.look (.spawn .ret ⟨32, some 3⟩ (.look .ret) (.look .ret))) (.look .ret))

/-- Scope 0 is current; scope 1 is another that exists. -/
def scopeStart : ScopeSt := ⟨some 0, [0, 1], 2, []⟩

example : scopeProg.NoCatch ∧ scopeStart.cur = some 0 ∧ ∃ s', scopeProg.run scopeStart = .ok () s' ∧
    s'.log = [.looked 0, .given 0, .looked 0, .given 0, .entered 2, .looked 0, .looked 0, .entered 3, .looked 1,
      .given 1, .entered 4, .looked 3, .looked 1, .looked 0] :=
  ⟨by simp [scopeProg, ScopeProg.NoCatch], rfl, _, rfl, by decide⟩

example : ∃ s', Scope.spawn (fun _ => pure ⟨16, some 1⟩) (fun _ => Scope.attempt M.boom) scopeStart = .ok () s' :=
  ⟨_, rfl⟩

/-! ## C75 -/

/-- C75 is false for every scope: if the body is called at all, the current scope is not the new one. -/
theorem C75_refuted {init : ScopeProg} {v : ScopeVal} {s s' : ScopeSt} {u : Unit} (w : s.WF)
    (h : (ScopeProg.spawn init v (.look .ret) .ret).run s = .ok u s') :
    ∃ l n x, s'.log = l ++ [.entered n, .looked x] ∧ v.head = some x ∧ x ≠ n := by
  rw [ScopeProg.run_spawn] at h
  cases hc : s.cur with
  | none => rw [hc] at h; cases h
  | some c =>
    rw [hc] at h
    simp only [] at h
    split at h
    · cases hi : init.run (s.saw (.given c)) with
      | panic s1 => rw [hi] at h; cases h
      | abort => rw [hi] at h; cases h
      | ub u => rw [hi] at h; cases h
      | ok a s1 =>
        rw [hi] at h
        simp only [] at h
        split at h
        · cases h
        · cases hh : v.head with
          | none => rw [hh] at h; cases h
          | some x =>
            rw [hh] at h
            simp only [] at h
            split at h
            · rename_i hx
              have hx' : x ∈ s1.next :: s1.live := List.mem_cons_of_mem _ hx
              have w1 : s1.WF := ((s.saw_keeps (.given c)).trans (ScopeProg.keeps_ok hi)).wf w
              have hb : (ScopeProg.look .ret).run ({ s1.placed with cur := some x }.saw (.entered s1.next)) =
                  .ok () (({ s1.placed with cur := some x }.saw (.entered s1.next)).saw (.looked x)) := by
                rw [ScopeProg.run_look]
                exact if_pos hx'
              rw [hb] at h
              injection h with _ h
              subst h
              refine ⟨s1.log, s1.next, x, by simp [ScopeSt.saw, ScopeSt.placed], rfl, ?_⟩
              have := w1 x hx
              omega
            · cases h
    · cases h

/-- C75 is false for every scope smaller than a reference to a scope: `spawn` panics and the body is not called. -/
theorem C75_refuted_small {init body k : ScopeProg} {v : ScopeVal} {s : ScopeSt} (hv : v.size < 16) (body' k' : ScopeProg) :
    (ScopeProg.spawn init v body k).run s = (ScopeProg.spawn init v body' k').run s ∧
    ∀ u s', (ScopeProg.spawn init v body k).run s ≠ .ok u s' := by
  rw [ScopeProg.run_spawn, ScopeProg.run_spawn]
  cases hc : s.cur with
  | none => exact ⟨rfl, fun u s' h => by cases h⟩
  | some c =>
    simp only []
    split
    · cases hi : init.run (s.saw (.given c)) with
      | panic s1 => exact ⟨rfl, fun u s' h => by cases h⟩
      | abort => exact ⟨rfl, fun u s' h => by cases h⟩
      | ub u => exact ⟨rfl, fun u s' h => by cases h⟩
      | ok a s1 => simp only [if_pos hv]; exact ⟨trivial, fun u s' h => by cases h⟩
    · exact ⟨rfl, fun u s' h => by cases h⟩

/-- C75, as far as there is something true: if the first bytes of the new scope are a reference to a scope, the body
runs with that scope as the current one, and gets a scope that did not exist before. -/
theorem C75_head_partial {β : Type} {init : Nat → M ScopeSt ScopeVal} {f : Nat → M ScopeSt β} {s s1 : ScopeSt}
    {v : ScopeVal} {c x : Nat} (hc : s.cur = some c) (hl : c ∈ s.live) (hi : init c s = .ok v s1)
    (hz : 16 ≤ v.size) (hh : v.head = some x) (hx : x ∈ s1.live) :
    (∀ t s2, f s1.next ⟨some x, s1.next :: s1.live, s1.next + 1, s1.log⟩ = .ok t s2 →
      ∃ s', Scope.spawn init f s = .ok t s' ∧ s'.log = s2.log ∧ s'.cur = some c) ∧
    (∀ s2, f s1.next ⟨some x, s1.next :: s1.live, s1.next + 1, s1.log⟩ = .panic s2 →
      ∃ s', Scope.spawn init f s = .panic s' ∧ s'.log = s2.log ∧ s'.cur = s2.cur) := by
  rw [Scope.spawn_eq, Scope.spawned, hc]
  simp only [if_pos hl, hi, if_neg (Nat.not_lt.mpr hz), hh, if_pos hx, ScopeSt.placed]
  refine ⟨fun t s2 h => ?_, fun s2 h => ?_⟩ <;> rw [h] <;> exact ⟨_, rfl, rfl, rfl⟩

example : scopeStart.WF ∧ ∃ s', (ScopeProg.spawn .ret ⟨16, some 0⟩ (.look .ret) .ret).run scopeStart = .ok () s' :=
  ⟨by simp [scopeStart, ScopeSt.WF], _, rfl⟩

example : ∃ s2, scopeStart.cur = some 0 ∧ 0 ∈ scopeStart.live ∧ 1 ∈ scopeStart.live ∧
    (fun n => do Scope.note (.entered n); let x ← Scope.current; Scope.note (.looked x) : Nat → M ScopeSt Unit) 2
      ⟨some 1, [2, 0, 1], 3, []⟩ = .ok () s2 := ⟨_, rfl, by decide, by decide, rfl⟩

/-! ## C76 -/

/-- C76 is false for every body that panics, in a scope that starts with a reference to another scope: that other
scope stays the current one. -/
theorem C76_refuted {s : ScopeSt} {c x : Nat} (hc : s.cur = some c) (hl : c ∈ s.live) (hx : x ∈ s.live) (n : Nat)
    (hn : 16 ≤ n) : ∃ s', (ScopeProg.attempt (.spawn .ret ⟨n, some x⟩ .panic .ret) (.look .ret)).run s = .ok () s' ∧
      s'.cur = some x ∧ s'.log = s.log ++ [.given c, .entered s.next, .looked x] := by
  have h0 : (ScopeProg.spawn .ret ⟨n, some x⟩ .panic .ret).run s =
      .panic ⟨some x, s.live, s.next + 1, s.log ++ [.given c] ++ [.entered s.next]⟩ := by
    rw [ScopeProg.run_spawn, hc]
    have hx' : x ∈ (s.saw (.given c)).live := hx
    simp only [if_pos hl, ScopeProg.run, M.pure_apply, if_neg (Nat.not_lt.mpr hn), if_pos hx', M.boom_apply]
    simp [ScopeSt.saw, ScopeSt.placed]
  rw [ScopeProg.run_attempt, h0]
  simp only [ScopeProg.run_look, if_pos hx]
  exact ⟨_, rfl, rfl, by simp [ScopeSt.saw]⟩

/-- C76 is false also in that the current scope may be one that is gone. -/
theorem C76_refuted_gone :
    (ScopeProg.attempt (.spawn .ret ⟨16, some 0⟩ (.spawn .ret ⟨16, some 2⟩ .panic .ret) .ret) (.look .ret)).run
      scopeStart = .ub .oob := rfl

/-- C76 for programs all of whose scopes are smaller than a reference: whatever panics and is caught, the current
scope stays what it was. (The panic then comes from `spawn` itself or from `scope_init`.) -/
theorem C76_small_partial {p : ScopeProg} (hp : p.Spawns fun v => v.size < 16) (s : ScopeSt) :
    (p.run s).Leads fun s' => s'.cur = s.cur := by
  induction p generalizing s with
  | ret => exact rfl
  | panic => exact rfl
  | look k ih =>
    rw [ScopeProg.run_look]
    cases hc : s.cur with
    | none => exact hc
    | some x =>
      simp only []
      split
      · exact (ih hp (s.saw (.looked x))).imp fun _ h => h.trans hc
      · trivial
  | attempt b k ihb ihk =>
    rw [ScopeProg.run_attempt]
    have hb := ihb hp.1 s
    cases hr : b.run s with
    | ok u s' => rw [hr] at hb; exact (ihk hp.2 s').imp fun _ h => h.trans hb
    | panic s' => rw [hr] at hb; exact (ihk hp.2 s').imp fun _ h => h.trans hb
    | abort => trivial
    | ub u => trivial
  | spawn init v body k ihi ihb ihk =>
    rw [ScopeProg.run_spawn]
    cases hc : s.cur with
    | none => exact hc
    | some c =>
      simp only []
      split
      · have hi := ihi hp.1 (s.saw (.given c))
        cases hr : init.run (s.saw (.given c)) with
        | abort => trivial
        | ub u => trivial
        | panic s1 => rw [hr] at hi; exact hi.trans hc
        | ok u s1 =>
          rw [hr] at hi
          simp only [if_pos hp.2.1]
          exact hi.trans hc
      · trivial

/-- C76, what holds for all programs: whether scopes are left by returning or by panicking, they are gone
afterwards, and those outside still exist. -/
theorem C76_gone_partial (p : ScopeProg) (s : ScopeSt) : (p.run s).Leads fun s' => s'.live = s.live :=
  (ScopeProg.run_keeps p s).imp fun _ h => h.live

example : ∃ p s', p.Spawns (fun v => v.size < 16) ∧ ScopeProg.run p scopeStart = .ok () s' ∧
    s'.log = [.given 0, .looked 0] :=
  ⟨.attempt (.spawn .ret ⟨8, none⟩ .ret .ret) (.look .ret), _, by simp [ScopeProg.Spawns], rfl, by decide⟩

/-! ## C77 -/

/-- C77: equality of markers is an equivalence, and equal markers hash equally. -/
theorem C77_marker : (∀ a : AllocMarker, a.eq a = true) ∧ (∀ a b : AllocMarker, a.eq b = true → b.eq a = true) ∧
    (∀ a b d : AllocMarker, a.eq b = true → b.eq d = true → a.eq d = true) ∧
    (∀ a b : AllocMarker, a.eq b = true ↔ a.hash = b.hash) := by
  refine ⟨fun a => ?_, fun a b => ?_, fun a b d => ?_, fun a b => ?_⟩ <;> cases a <;>
    (try cases b) <;> (try cases d) <;> simp [AllocMarker.eq, AllocMarker.hash] <;> omega

/-- C77: equality of selectors is an equivalence, and equal selectors hash equally. -/
theorem C77_selector : (∀ a : AllocSelector, a.eq a = true) ∧ (∀ a b : AllocSelector, a.eq b = true → b.eq a = true) ∧
    (∀ a b d : AllocSelector, a.eq b = true → b.eq d = true → a.eq d = true) ∧
    (∀ a b : AllocSelector, a.eq b = true ↔ a.hash = b.hash) := by
  obtain ⟨m1, m2, m3, m4⟩ := C77_marker
  simp only [AllocSelector.eq, Bool.and_eq_true, beq_iff_eq, AllocSelector.hash]
  refine ⟨fun a => ⟨m1 _, trivial⟩, fun a b h => ⟨m2 _ _ h.1, h.2.symm⟩,
    fun a b d h h' => ⟨m3 _ _ _ h.1 h'.1, h.2.trans h'.2⟩, fun a b => ?_⟩
  rw [m4]
  constructor
  · rintro ⟨h1, h2⟩; rw [h1, h2]
  · intro h
    have := List.append_inj' h rfl
    exact ⟨this.1, by simpa using this.2⟩

example : ∃ a b d : AllocSelector, a ≠ b ∧ a.eq b = true ∧ b.eq d = false :=
  ⟨⟨.type ⟨8, [97]⟩, ⟨16, [98]⟩⟩, ⟨.type ⟨8, [97, 98]⟩, ⟨16, [98]⟩⟩, ⟨.none, ⟨16, [98]⟩⟩, by decide⟩

/-! ## C78 -/

/-- C78 for programs in which each type has one name, stored once, apart from those of other types. -/
theorem C78_partial {Site Ty : Type} {L : Linked Site Ty} (h1 : ∀ s s' t, L.addr s t = L.addr s' t)
    (h2 : ∀ s t t', L.addr s t = L.addr s t' → t = t') (s s' : Site) (t t' : Ty) :
    (L.marker s t).eq (L.marker s' t') = true ↔ t = t' := by
  simp only [Linked.marker, Linked.typeName, AllocMarker.eq, beq_iff_eq]
  rw [h1 s' s t']
  exact ⟨h2 s t t', fun h => by rw [h]⟩

/-- C78 is false: the name of a type may be stored twice, and then a marker is not equal to that of the same type
made elsewhere. -/
theorem C78_refuted_copies : ∃ (L : Linked Bool Unit) (s s' : Bool), (L.typeName s () ).text = (L.typeName s' ()).text ∧
    (L.marker s ()).eq (L.marker s' ()) = false :=
  ⟨⟨fun _ => [65], fun s _ => if s then 8 else 16⟩, true, false, rfl, rfl⟩

/-- C78 is false: two types may have the same name, stored once, and then their markers are equal. -/
theorem C78_refuted_names : ∃ (L : Linked Unit Bool), (L.marker () true).eq (L.marker () false) = true ∧ true ≠ false :=
  ⟨⟨fun _ => [65], fun _ _ => 8⟩, rfl, by decide⟩

example : ∃ L : Linked Bool Bool, (∀ s s' t, L.addr s t = L.addr s' t) ∧
    ∀ s t t', L.addr s t = L.addr s t' → t = t' :=
  ⟨⟨fun t => if t then [65] else [66], fun _ t => if t then 8 else 16⟩, by decide, by decide⟩

/-! ## C88 -/

/-- C88: `scope_init` is called with the scope that was current when `spawn` was called, and while it runs that scope
is current. -/
theorem C88_given {init body k : ScopeProg} {v : ScopeVal} {s s' : ScopeSt} {c : Nat} (hc : s.cur = some c)
    (h : (ScopeProg.spawn (.look init) v body k).run s = .ok () s' ∨
      (ScopeProg.spawn (.look init) v body k).run s = .panic s') :
    ∃ l, s'.log = s.log ++ .given c :: .looked c :: l := by
  have hk : ∀ t : ScopeSt, t.log = s.log ++ [.given c, .looked c] → ScopeKeeps t s' →
      ∃ l, s'.log = s.log ++ .given c :: .looked c :: l := by
    intro t ht hk
    obtain ⟨l, hl⟩ := hk.log
    exact ⟨l, by rw [← hl, ht]; simp⟩
  have key : ∀ t : ScopeSt, t.log = s.log ++ [.given c, .looked c] →
      ((ScopeProg.spawn (.look init) v body k).run s).Leads (ScopeKeeps t) →
      ∃ l, s'.log = s.log ++ .given c :: .looked c :: l := by
    intro t ht hl
    rcases h with h | h <;> rw [h] at hl <;> exact hk t ht hl
  refine key (((s.saw (.given c)).saw (.looked c))) (by simp [ScopeSt.saw]) ?_
  rw [ScopeProg.run_spawn, hc]
  simp only []
  split
  · rename_i hl
    have hl' : c ∈ (s.saw (.given c)).live := hl
    rw [ScopeProg.run_look]
    simp only [show (s.saw (.given c)).cur = some c from hc, if_pos hl']
    have hi := ScopeProg.run_keeps init ((s.saw (.given c)).saw (.looked c))
    cases hr : init.run ((s.saw (.given c)).saw (.looked c)) with
    | abort => trivial
    | ub u => trivial
    | panic s1 => rw [hr] at hi; exact hi
    | ok u s1 =>
      rw [hr] at hi
      simp only []
      split
      · exact hi
      · cases v.head with
        | none => trivial
        | some x =>
          simp only []
          split
          · have hb := ScopeProg.run_keeps body ({ s1.placed with cur := some x }.saw (.entered s1.next))
            cases hr2 : body.run ({ s1.placed with cur := some x }.saw (.entered s1.next)) with
            | abort => trivial
            | ub u => trivial
            | panic s2 => rw [hr2] at hb; exact ScopeKeeps.trans hi (ScopeKeeps.close hb s2.cur)
            | ok u s2 =>
              rw [hr2] at hb
              exact (ScopeProg.run_keeps k _).imp fun _ h' =>
                ScopeKeeps.trans (ScopeKeeps.trans hi (ScopeKeeps.close hb (some c))) h'
          · trivial
  · trivial

example : ∃ s', scopeStart.cur = some 0 ∧
    (ScopeProg.spawn (.look .panic) ⟨16, some 1⟩ .ret .ret).run scopeStart = .panic s' := ⟨_, rfl, rfl⟩

/-! ## C89 -/

/-- C89: before `ENV` is set, looking at the current scope and spawning scopes panics, without calling anything. -/
theorem C89_no_env {β : Type} (init : Nat → M ScopeSt ScopeVal) (f : Nat → M ScopeSt β) {s : ScopeSt}
    (hs : s.cur = none) : Scope.current s = .panic s ∧ Scope.spawn init f s = .panic s := by
  rw [Scope.spawn_eq, Scope.spawned, Scope.current, hs]
  exact ⟨rfl, rfl⟩

/-- C89 for whole programs: they see nothing and there is no undefined behaviour. -/
theorem C89_programs (p : ScopeProg) {s : ScopeSt} (hs : s.cur = none) : p.run s = .ok () s ∨ p.run s = .panic s := by
  induction p with
  | ret => exact .inl rfl
  | panic => exact .inr rfl
  | look k ih => rw [ScopeProg.run_look, hs]; exact .inr rfl
  | spawn init v body k => rw [ScopeProg.run_spawn, hs]; exact .inr rfl
  | attempt b k ihb ihk =>
    rw [ScopeProg.run_attempt]
    rcases ihb with h | h <;> rw [h] <;> exact ihk

example : ∃ s : ScopeSt, s.cur = none := ⟨⟨none, [], 0, []⟩, rfl⟩

/-! ## C90 -/

/-- C90 is false for every scope of at least 16 bytes that does not begin with a reference to a scope. -/
theorem C90_refuted {s : ScopeSt} {c : Nat} (hc : s.cur = some c) (hl : c ∈ s.live) (n : Nat) (hn : 16 ≤ n)
    (body k : ScopeProg) : (ScopeProg.spawn .ret ⟨n, none⟩ body k).run s = .ub .contract := by
  rw [ScopeProg.run_spawn, hc]
  simp only [if_pos hl, ScopeProg.run, M.pure_apply, if_neg (Nat.not_lt.mpr hn)]

/-- C90 for programs whose scopes are smaller than a reference, or begin with a reference to a scope that outlives
the program: there is no undefined behaviour, whatever panics and is caught. -/
theorem C90_partial {p : ScopeProg} {R : List Nat} (hp : p.Spawns fun v => v.size < 16 ∨ ∃ x ∈ R, v.head = some x)
    {s : ScopeSt} (hR : ∀ x ∈ R, x ∈ s.live) (hc : ∀ c, s.cur = some c → c ∈ R) :
    (p.run s).Safely fun s' => ∀ c, s'.cur = some c → c ∈ R := by
  induction p generalizing s with
  | ret => exact hc
  | panic => exact hc
  | look k ih =>
    rw [ScopeProg.run_look]
    cases hcc : s.cur with
    | none => exact hc
    | some x =>
      simp only [if_pos (hR x (hc x hcc))]
      exact ih hp (s := s.saw (.looked x)) hR hc
  | attempt b k ihb ihk =>
    rw [ScopeProg.run_attempt]
    have hb := ihb hp.1 hR hc
    cases hr : b.run s with
    | ok u s' =>
      rw [hr] at hb
      exact ihk hp.2 (fun x hx => (ScopeProg.keeps_ok hr).live ▸ hR x hx) hb
    | panic s' =>
      rw [hr] at hb
      exact ihk hp.2 (fun x hx => (ScopeProg.keeps_panic hr).live ▸ hR x hx) hb
    | abort => trivial
    | ub u => rw [hr] at hb; exact hb
  | spawn init v body k ihi ihb ihk =>
    obtain ⟨pi, pv, pb, pk⟩ := hp
    rw [ScopeProg.run_spawn]
    cases hcc : s.cur with
    | none => exact hc
    | some c =>
      simp only [if_pos (hR c (hc c hcc))]
      have hi := ihi pi (s := s.saw (.given c)) hR hc
      cases hr : init.run (s.saw (.given c)) with
      | abort => trivial
      | ub u => rw [hr] at hi; exact hi
      | panic s1 => rw [hr] at hi; exact hi
      | ok u s1 =>
        rw [hr] at hi
        have l1 : s1.live = s.live := (ScopeProg.keeps_ok hr).live
        simp only []
        split
        · exact hi
        · rename_i hz
          obtain ⟨x, hx, hh⟩ := pv.resolve_left hz
          rw [hh]
          simp only [if_pos (show x ∈ s1.live from l1 ▸ hR x hx)]
          have hb := ihb pb (s := { s1.placed with cur := some x }.saw (.entered s1.next))
            (fun y hy => List.mem_cons_of_mem _ (l1 ▸ hR y hy)) (fun y hy => by cases hy; exact hx)
          cases hr2 : body.run ({ s1.placed with cur := some x }.saw (.entered s1.next)) with
          | abort => trivial
          | ub u => rw [hr2] at hb; exact hb
          | panic s2 => rw [hr2] at hb; exact hb
          | ok u s2 =>
            have l2 := (ScopeKeeps.close (ScopeProg.keeps_ok hr2) (some c)).live
            refine ihk pk (s := { s2 with cur := some c, live := s2.live.erase s1.next }) (fun y hy => ?_)
              (fun y hy => by cases hy; exact hc c hcc)
            rw [l2, l1]
            exact hR y hy

example : ∃ (p : ScopeProg) (R : List Nat), ScopeProg.Spawns (fun v => v.size < 16 ∨ ∃ x ∈ R, v.head = some x) p ∧
    (∀ x ∈ R, x ∈ scopeStart.live) ∧ (∀ c, scopeStart.cur = some c → c ∈ R) ∧
    ∃ s', p.run scopeStart = .ok () s' ∧ s'.log = [.given 0, .entered 2, .given 1, .looked 1] :=
  ⟨.attempt (.spawn .ret ⟨16, some 1⟩ (.attempt (.spawn .ret ⟨4, none⟩ .ret .ret) .panic) .ret) (.look .ret), [0, 1],
    by simp [ScopeProg.Spawns], by decide, by decide, _, rfl, by decide⟩

end Lokky
