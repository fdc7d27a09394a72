import Verif.Proofs.Scope

/-!
# Lemmas on programs that keep references to scopes
-/

namespace Lokky

namespace ScopeUse

theorem init_eq (init : ScopeUse) (v : ScopeVal) (p : Nat) (s : ScopeSt) :
    (do Scope.note (.given p); run init; pure v : M ScopeSt ScopeVal) s =
      match run init (s.saw (.given p)) with
      | .ok _ s' => .ok v s'
      | .panic s' => .panic s'
      | .abort => .abort
      | .ub u => .ub u := by
  rw [M.bind_apply]
  simp only [Scope.note, M.modify, ScopeSt.saw]
  rw [M.bind_apply]
  cases run init { s with log := s.log ++ [.given p] } <;> rfl

theorem body_eq (body : ScopeUse) (n : Nat) (e : ScopeEv) (s : ScopeSt) :
    (do Scope.note e; run body : M ScopeSt Unit) s = run body (s.saw e) := by
  rw [M.bind_apply]
  rfl

theorem run_spawn (init : ScopeUse) (v : ScopeVal) (body k : ScopeUse) (s : ScopeSt) :
    run (.spawn init v body k) s =
      match s.cur with
      | none => .panic s
      | some prev =>
        if prev ∈ s.live then
          match run init (s.saw (.given prev)) with
          | .ok _ s1 =>
            if v.size < 16 then .panic s1
            else match v.head with
              | none => .ub .contract
              | some h =>
                if h ∈ s1.live then
                  match run body ({ s1.placed with cur := some h }.saw (.entered s1.next)) with
                  | .ok _ s2 => run k { s2 with cur := some prev, live := s2.live.erase s1.next }
                  | .panic s2 => .panic { s2 with live := s2.live.erase s1.next }
                  | .abort => .abort
                  | .ub u => .ub u
                else .ub .oob
          | .panic s1 => .panic s1
          | .abort => .abort
          | .ub u => .ub u
        else .ub .oob := by
  rw [run, M.bind_apply, Scope.spawn_eq, Scope.spawned]
  cases hc : s.cur with
  | none => rfl
  | some prev =>
    simp only []
    by_cases hp : prev ∈ s.live
    · rw [if_pos hp, if_pos hp, init_eq]
      cases hi : run init (s.saw (.given prev)) with
      | panic s1 => rfl
      | abort => rfl
      | ub u => rfl
      | ok u s1 =>
        simp only []
        by_cases hz : v.size < 16
        · rw [if_pos hz, if_pos hz]
        · rw [if_neg hz, if_neg hz]
          cases hh : v.head with
          | none => rfl
          | some h =>
            simp only []
            by_cases hl : h ∈ s1.live
            · rw [if_pos hl, if_pos hl, body_eq _ s1.next]
              cases run body ({ s1.placed with cur := some h }.saw (.entered s1.next)) <;> rfl
            · rw [if_neg hl, if_neg hl]
    · rw [if_neg hp, if_neg hp]

theorem run_look (k : ScopeUse) (s : ScopeSt) :
    run (.look k) s =
      match s.cur with
      | none => .panic s
      | some x => if x ∈ s.live then run k (s.saw (.looked x)) else .ub .oob := by
  rw [run, M.bind_apply, Scope.current]
  cases hc : s.cur with
  | none => rfl
  | some x =>
    simp only []
    by_cases hx : x ∈ s.live
    · rw [if_pos hx, if_pos hx]
      rfl
    · rw [if_neg hx, if_neg hx]

theorem run_make (k : ScopeUse) (s : ScopeSt) :
    run (.make k) s =
      match s.cur with
      | none => .panic s
      | some x => if x ∈ s.live then run k (s.saw (.made x)) else .ub .oob := by
  rw [run, M.bind_apply, Scope.current]
  cases hc : s.cur with
  | none => rfl
  | some x =>
    simp only []
    by_cases hx : x ∈ s.live
    · rw [if_pos hx, if_pos hx]
      rfl
    · rw [if_neg hx, if_neg hx]

theorem run_use (i : Nat) (k : ScopeUse) (s : ScopeSt) :
    run (.use i k) s =
      match s.things[i]? with
      | none => run k s
      | some x => if x ∈ s.live then run k s else .ub .oob := by
  rw [run, M.bind_apply, useIt]
  cases s.things[i]? with
  | none => rfl
  | some x =>
    simp only []
    by_cases hx : x ∈ s.live
    · rw [if_pos hx, if_pos hx]
    · rw [if_neg hx, if_neg hx]

theorem run_block (b k : ScopeUse) (s : ScopeSt) :
    run (.block b k) s =
      match run b (s.placed.saw (.env s.next)) with
      | .ok _ s2 => run k { s2 with live := s2.live.erase s.next }
      | .panic s2 => .panic { s2 with live := s2.live.erase s.next }
      | .abort => .abort
      | .ub u => .ub u := by
  rw [run, M.bind_apply]
  simp only [Scope.place]
  rw [M.bind_apply, M.onUnwind, body_eq _ s.next]
  simp only [ScopeSt.placed]
  cases run b (ScopeSt.saw { s with live := s.next :: s.live, next := s.next + 1 } (.env s.next)) <;> rfl

theorem run_attempt (b k : ScopeUse) (s : ScopeSt) :
    run (.attempt b k) s =
      match run b s with
      | .ok _ s' => run k s'
      | .panic s' => run k s'
      | .abort => .abort
      | .ub u => .ub u := by
  rw [run, M.bind_apply, Scope.attempt]
  cases run b s <;> rfl

/-- Whether it returns or unwinds, a program leaves the scopes that exist, and what was seen. -/
theorem run_keeps (p : ScopeUse) (s : ScopeSt) : (run p s).Leads (ScopeKeeps s) := by
  induction p generalizing s with
  | ret => exact .refl s
  | panic => exact .refl s
  | look k ih =>
    rw [run_look]
    cases s.cur with
    | none => exact .refl s
    | some x =>
      simp only []
      split
      · exact (ih _).imp fun s' h => (s.saw_keeps _).trans h
      · trivial
  | make k ih =>
    rw [run_make]
    cases s.cur with
    | none => exact .refl s
    | some x =>
      simp only []
      split
      · exact (ih _).imp fun s' h => (s.saw_keeps _).trans h
      · trivial
  | use i k ih =>
    rw [run_use]
    cases s.things[i]? with
    | none => exact ih s
    | some x =>
      simp only []
      split
      · exact ih s
      · trivial
  | attempt b k ihb ihk =>
    rw [run_attempt]
    have hb := ihb s
    cases hr : run b s with
    | ok u s' => rw [hr] at hb; exact (ihk s').imp fun _ h => ScopeKeeps.trans hb h
    | panic s' => rw [hr] at hb; exact (ihk s').imp fun _ h => ScopeKeeps.trans hb h
    | abort => trivial
    | ub u => trivial
  | block b k ihb ihk =>
    rw [run_block]
    have hb := ihb (s.placed.saw (.env s.next))
    cases hr : run b (s.placed.saw (.env s.next)) with
    | ok u s' =>
      rw [hr] at hb
      have := ScopeKeeps.close (h := s.cur) hb s'.cur
      exact (ihk _).imp fun _ h => this.trans h
    | panic s' =>
      rw [hr] at hb
      exact ScopeKeeps.close (h := s.cur) hb s'.cur
    | abort => trivial
    | ub u => trivial
  | spawn init v body k ihi ihb ihk =>
    rw [run_spawn]
    cases s.cur with
    | none => exact .refl s
    | some prev =>
      simp only []
      split
      · have hi := ihi (s.saw (.given prev))
        cases hr : run init (s.saw (.given prev)) with
        | abort => trivial
        | ub u => trivial
        | panic s1 => rw [hr] at hi; exact (s.saw_keeps _).trans hi
        | ok u s1 =>
          rw [hr] at hi
          have h1 : ScopeKeeps s s1 := (s.saw_keeps _).trans hi
          simp only []
          split
          · exact h1
          · cases v.head with
            | none => trivial
            | some h =>
              simp only []
              split
              · have hb := ihb ({ s1.placed with cur := some h }.saw (.entered s1.next))
                cases hr2 : run body ({ s1.placed with cur := some h }.saw (.entered s1.next)) with
                | abort => trivial
                | ub u => trivial
                | panic s2 => rw [hr2] at hb; exact h1.trans (ScopeKeeps.close hb s2.cur)
                | ok u s2 =>
                  rw [hr2] at hb
                  exact (ihk _).imp fun _ h' => (h1.trans (ScopeKeeps.close hb (some prev))).trans h'
              · trivial
      · trivial

theorem keeps_ok {p : ScopeUse} {s s' : ScopeSt} {u : Unit} (h : run p s = .ok u s') : ScopeKeeps s s' := by
  have := run_keeps p s
  rw [h] at this
  exact this

theorem keeps_panic {p : ScopeUse} {s s' : ScopeSt} (h : run p s = .panic s') : ScopeKeeps s s' := by
  have := run_keeps p s
  rw [h] at this
  exact this

end ScopeUse

theorem ScopeSt.saw_things (s : ScopeSt) (e : ScopeEv) : (s.saw e).things = s.things ++ e.thing.toList := by
  simp only [things, saw, List.filterMap_append]
  cases h : e.thing <;> simp [List.filterMap, h]

/-- Things got stay. -/
theorem ScopeKeeps.things {s s' : ScopeSt} (h : ScopeKeeps s s') : s.things <+: s'.things := by
  obtain ⟨l, hl⟩ := h.log
  exact ⟨l.filterMap ScopeEv.thing, by simp [ScopeSt.things, ← hl]⟩

end Lokky
