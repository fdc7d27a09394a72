import Verif.Model.Scope

/-!
# Lemmas on scopes
-/

namespace Lokky

/-- Scopes that exist were made. -/
def ScopeSt.WF (s : ScopeSt) : Prop := ∀ k ∈ s.live, k < s.next

/-- What holds for the states after a piece of code that returns or unwinds. -/
def Res.Leads {σ β : Type} (r : Res σ β) (P : σ → Prop) : Prop :=
  match r with
  | .ok _ s => P s
  | .panic s => P s
  | _ => True

/-- The same, and there is no undefined behaviour. -/
def Res.Safely {σ β : Type} (r : Res σ β) (P : σ → Prop) : Prop :=
  match r with
  | .ok _ s => P s
  | .panic s => P s
  | .abort => True
  | .ub _ => False

theorem Res.Leads.imp {σ β : Type} {r : Res σ β} {P Q : σ → Prop} (h : r.Leads P) (hi : ∀ s, P s → Q s) :
    r.Leads Q := by
  cases r <;> simp only [Res.Leads] at * <;> exact hi _ h

theorem Res.Safely.imp {σ β : Type} {r : Res σ β} {P Q : σ → Prop} (h : r.Safely P) (hi : ∀ s, P s → Q s) :
    r.Safely Q := by
  cases r <;> simp only [Res.Safely] at * <;> exact hi _ h

theorem Res.Leads.bind {σ β γ : Type} {m : M σ β} {f : β → M σ γ} {s : σ} {P : σ → Prop}
    (h : match m s with
      | .ok a s' => (f a s').Leads P
      | .panic s' => P s'
      | _ => True) : ((m >>= f) s).Leads P := by
  rw [M.bind_apply]
  cases hm : m s <;> rw [hm] at h <;> exact h

theorem Res.Safely.bind {σ β γ : Type} {m : M σ β} {f : β → M σ γ} {s : σ} {P : σ → Prop}
    (h : match m s with
      | .ok a s' => (f a s').Safely P
      | .panic s' => P s'
      | .abort => True
      | .ub _ => False) : ((m >>= f) s).Safely P := by
  rw [M.bind_apply]
  cases hm : m s <;> rw [hm] at h <;> exact h

/-- The scopes that exist are as before, no number was used again, and what was seen stays. -/
structure ScopeKeeps (s s' : ScopeSt) : Prop where
  live : s'.live = s.live
  next : s.next ≤ s'.next
  log : s.log <+: s'.log

theorem ScopeKeeps.refl (s : ScopeSt) : ScopeKeeps s s := ⟨rfl, Nat.le_refl _, List.prefix_refl _⟩

theorem ScopeKeeps.trans {s t u : ScopeSt} (h : ScopeKeeps s t) (h' : ScopeKeeps t u) : ScopeKeeps s u :=
  ⟨h'.live.trans h.live, Nat.le_trans h.next h'.next, h.log.trans h'.log⟩

theorem ScopeKeeps.wf {s s' : ScopeSt} (h : ScopeKeeps s s') (w : s.WF) : s'.WF := fun k hk =>
  Nat.lt_of_lt_of_le (w k (h.live ▸ hk)) h.next

/-- State with the new scope placed. -/
def ScopeSt.placed (s : ScopeSt) : ScopeSt := { s with live := s.next :: s.live, next := s.next + 1 }

theorem ScopeSt.WF.placed {s : ScopeSt} (w : s.WF) : s.placed.WF := fun k hk => by
  rcases List.mem_cons.mp hk with rfl | hk
  · exact Nat.lt_succ_self _
  · exact Nat.lt_succ_of_lt (w k hk)

/-- `spawn`, spelled out. -/
def Scope.spawned {β : Type} (init : Nat → M ScopeSt ScopeVal) (f : Nat → M ScopeSt β) (s : ScopeSt) : Res ScopeSt β :=
  match s.cur with
  | none => .panic s
  | some prev =>
    if prev ∈ s.live then
      match init prev s with
      | .ok v s1 =>
        if v.size < 16 then .panic s1
        else match v.head with
          | none => .ub .contract
          | some h =>
            if h ∈ s1.live then
              match f s1.next { s1.placed with cur := some h } with
              | .ok t s2 => .ok t { s2 with cur := some prev, live := s2.live.erase s1.next }
              | .panic s2 => .panic { s2 with live := s2.live.erase s1.next }
              | .abort => .abort
              | .ub u => .ub u
            else .ub .oob
      | .panic s1 => .panic s1
      | .abort => .abort
      | .ub u => .ub u
    else .ub .oob

theorem Scope.spawn_eq {β : Type} (init : Nat → M ScopeSt ScopeVal) (f : Nat → M ScopeSt β) (s : ScopeSt) :
    spawn init f s = spawned init f s := by
  rw [spawn, spawned, M.bind_apply, current]
  cases hc : s.cur with
  | none => rfl
  | some prev =>
    simp only []
    by_cases hp : prev ∈ s.live
    · rw [if_pos hp, if_pos hp]
      simp only []
      rw [M.bind_apply]
      cases hi : init prev s with
      | panic s1 => rfl
      | abort => rfl
      | ub u => rfl
      | ok v s1 =>
        simp only []
        rw [M.bind_apply, reinterpret]
        by_cases hz : v.size < 16
        · rw [if_pos hz, if_pos hz]
        · rw [if_neg hz, if_neg hz]
          cases hh : v.head with
          | none => rfl
          | some h =>
            simp only []
            by_cases hl : h ∈ s1.live
            · rw [if_pos hl, if_pos hl]
              simp only []
              rw [M.bind_apply]
              simp only [place]
              rw [M.bind_apply]
              simp only [M.modify]
              rw [M.bind_apply, M.onUnwind]
              simp only [ScopeSt.placed]
              cases hf : f s1.next { s1 with cur := some h, live := s1.next :: s1.live, next := s1.next + 1 } <;> rfl
            · rw [if_neg hl, if_neg hl]
    · rw [if_neg hp, if_neg hp]

/-- The state with one more thing seen. -/
def ScopeSt.saw (s : ScopeSt) (e : ScopeEv) : ScopeSt := { s with log := s.log ++ [e] }

theorem ScopeSt.saw_keeps (s : ScopeSt) (e : ScopeEv) : ScopeKeeps s (s.saw e) :=
  ⟨rfl, Nat.le_refl _, List.prefix_append _ _⟩

/-- What `scope_init` does in programs. -/
theorem ScopeProg.init_eq (init : ScopeProg) (v : ScopeVal) (p : Nat) (s : ScopeSt) :
    (do Scope.note (.given p); run init; pure v : M ScopeSt ScopeVal) s =
      match run init (s.saw (.given p)) with
      | .ok _ s' => .ok v s'
      | .panic s' => .panic s'
      | .abort => .abort
      | .ub u => .ub u := by
  rw [M.bind_apply]
  simp only [Scope.note, M.modify, ScopeSt.saw]
  rw [M.bind_apply]
  cases run init { s with log := s.log ++ [.given p] } <;> rfl

/-- What the body does in programs. -/
theorem ScopeProg.body_eq (body : ScopeProg) (n : Nat) (s : ScopeSt) :
    (do Scope.note (.entered n); run body : M ScopeSt Unit) s = run body (s.saw (.entered n)) := by
  rw [M.bind_apply]
  rfl

/-- A program of the form `spawn`, spelled out. -/
theorem ScopeProg.run_spawn (init : ScopeProg) (v : ScopeVal) (body k : ScopeProg) (s : ScopeSt) :
    run (.spawn init v body k) s =
      match s.cur with
      | none => .panic s
      | some prev =>
        if prev ∈ s.live then
          match run init (s.saw (.given prev)) with
          | .ok _ s1 =>
            if v.size < 16 then .panic s1
            else match v.head with
              | none => .ub .contract
              | some h =>
                if h ∈ s1.live then
                  match run body ({ s1.placed with cur := some h }.saw (.entered s1.next)) with
                  | .ok _ s2 => run k { s2 with cur := some prev, live := s2.live.erase s1.next }
                  | .panic s2 => .panic { s2 with live := s2.live.erase s1.next }
                  | .abort => .abort
                  | .ub u => .ub u
                else .ub .oob
          | .panic s1 => .panic s1
          | .abort => .abort
          | .ub u => .ub u
        else .ub .oob := by
  rw [run, M.bind_apply, Scope.spawn_eq, Scope.spawned]
  cases hc : s.cur with
  | none => rfl
  | some prev =>
    simp only []
    by_cases hp : prev ∈ s.live
    · rw [if_pos hp, if_pos hp, init_eq]
      cases hi : run init (s.saw (.given prev)) with
      | panic s1 => rfl
      | abort => rfl
      | ub u => rfl
      | ok u s1 =>
        simp only []
        by_cases hz : v.size < 16
        · rw [if_pos hz, if_pos hz]
        · rw [if_neg hz, if_neg hz]
          cases hh : v.head with
          | none => rfl
          | some h =>
            simp only []
            by_cases hl : h ∈ s1.live
            · rw [if_pos hl, if_pos hl, body_eq]
              cases run body ({ s1.placed with cur := some h }.saw (.entered s1.next)) <;> rfl
            · rw [if_neg hl, if_neg hl]
    · rw [if_neg hp, if_neg hp]

theorem ScopeProg.run_look (k : ScopeProg) (s : ScopeSt) :
    run (.look k) s =
      match s.cur with
      | none => .panic s
      | some x => if x ∈ s.live then run k (s.saw (.looked x)) else .ub .oob := by
  rw [run, M.bind_apply, Scope.current]
  cases hc : s.cur with
  | none => rfl
  | some x =>
    simp only []
    by_cases hx : x ∈ s.live
    · rw [if_pos hx, if_pos hx]
      rfl
    · rw [if_neg hx, if_neg hx]

theorem ScopeProg.run_attempt (b k : ScopeProg) (s : ScopeSt) :
    run (.attempt b k) s =
      match run b s with
      | .ok _ s' => run k s'
      | .panic s' => run k s'
      | .abort => .abort
      | .ub u => .ub u := by
  rw [run, M.bind_apply, Scope.attempt]
  cases run b s <;> rfl

/-- What the body of a spawned scope keeps, `spawn` keeps. -/
theorem ScopeKeeps.close {s1 s2 : ScopeSt} {h : Option Nat} {e : ScopeEv}
    (hk : ScopeKeeps ({ s1.placed with cur := h }.saw e) s2) (c : Option Nat) :
    ScopeKeeps s1 { s2 with cur := c, live := s2.live.erase s1.next } := by
  refine ⟨?_, ?_, ?_⟩
  · have : s2.live = s1.next :: s1.live := hk.live
    simp only [this, List.erase_cons_head]
  · exact Nat.le_trans (Nat.le_succ _) hk.next
  · exact (List.prefix_append s1.log [e]).trans hk.log

/-- Whether it returns or unwinds, a program leaves the scopes that exist, and what was seen. -/
theorem ScopeProg.run_keeps (p : ScopeProg) (s : ScopeSt) : (run p s).Leads (ScopeKeeps s) := by
  induction p generalizing s with
  | ret => exact .refl s
  | panic => exact .refl s
  | look k ih =>
    rw [run_look]
    cases s.cur with
    | none => exact .refl s
    | some x =>
      simp only []
      split
      · exact (ih _).imp fun s' h => (s.saw_keeps _).trans h
      · trivial
  | attempt b k ihb ihk =>
    rw [run_attempt]
    have hb := ihb s
    cases hr : run b s with
    | ok u s' => rw [hr] at hb; exact (ihk s').imp fun _ h => ScopeKeeps.trans hb h
    | panic s' => rw [hr] at hb; exact (ihk s').imp fun _ h => ScopeKeeps.trans hb h
    | abort => trivial
    | ub u => trivial
  | spawn init v body k ihi ihb ihk =>
    rw [run_spawn]
    cases s.cur with
    | none => exact .refl s
    | some prev =>
      simp only []
      split
      · have hi := ihi (s.saw (.given prev))
        cases hr : run init (s.saw (.given prev)) with
        | abort => trivial
        | ub u => trivial
        | panic s1 => rw [hr] at hi; exact (s.saw_keeps _).trans hi
        | ok u s1 =>
          rw [hr] at hi
          have h1 : ScopeKeeps s s1 := (s.saw_keeps _).trans hi
          simp only []
          split
          · exact h1
          · cases v.head with
            | none => trivial
            | some h =>
              simp only []
              split
              · have hb := ihb ({ s1.placed with cur := some h }.saw (.entered s1.next))
                cases hr2 : run body ({ s1.placed with cur := some h }.saw (.entered s1.next)) with
                | abort => trivial
                | ub u => trivial
                | panic s2 => rw [hr2] at hb; exact h1.trans (ScopeKeeps.close hb s2.cur)
                | ok u s2 =>
                  rw [hr2] at hb
                  exact (ihk _).imp fun _ h' => (h1.trans (ScopeKeeps.close hb (some prev))).trans h'
              · trivial
      · trivial

theorem ScopeProg.keeps_ok {p : ScopeProg} {s s' : ScopeSt} {u : Unit} (h : run p s = .ok u s') :
    ScopeKeeps s s' := by
  have := run_keeps p s
  rw [h] at this
  exact this

theorem ScopeProg.keeps_panic {p : ScopeProg} {s s' : ScopeSt} (h : run p s = .panic s') : ScopeKeeps s s' := by
  have := run_keeps p s
  rw [h] at this
  exact this

end Lokky
