import Verif.Proofs.ScopeUse

/-!
# What refers to scopes: C125, C126

Programs keep references to scopes, values allocated in scopes, and `Env`s made of scopes, and use them anywhere
(`ScopeUse`, Model/Scope.lean).
-/

namespace Lokky

namespace ScopeUse

/-- The program without its uses. -/
def unused : ScopeUse → ScopeUse
  | .ret => .ret
  | .panic => .panic
  | .look k => .look k.unused
  | .make k => .make k.unused
  | .use _ k => k.unused
  | .block b k => .block b.unused k.unused
  | .spawn i v b k => .spawn i.unused v b.unused k.unused
  | .attempt b k => .attempt b.unused k.unused

/-- No panic is caught. -/
def NoCatch : ScopeUse → Prop
  | .ret | .panic => True
  | .look k | .make k | .use _ k => k.NoCatch
  | .block b k => b.NoCatch ∧ k.NoCatch
  | .spawn i _ b k => i.NoCatch ∧ b.NoCatch ∧ k.NoCatch
  | .attempt _ _ => False

/-- How many things the program gets if it returns. -/
def gets : ScopeUse → Nat
  | .ret | .panic => 0
  | .look k | .make k => k.gets + 1
  | .use _ k => k.gets
  | .block b k => b.gets + 1 + k.gets
  | .spawn i _ b k => i.gets + b.gets + k.gets
  | .attempt b k => b.gets + k.gets

/-- Things are used only in the body in which they were got and in bodies inside it. `n` things were got before, those
in `ok` may be used. -/
def Local : ScopeUse → (ok : Nat → Prop) → (n : Nat) → Prop
  | .ret, _, _ | .panic, _, _ => True
  | .look k, ok, n | .make k, ok, n => k.Local (fun i => i = n ∨ ok i) (n + 1)
  | .use i k, ok, n => ok i ∧ k.Local ok n
  | .block b k, ok, n => b.Local (fun i => i = n ∨ ok i) (n + 1) ∧ k.Local ok (n + 1 + b.gets)
  | .spawn i _ b k, ok, n => i.Local ok n ∧ b.Local ok (n + i.gets) ∧ k.Local ok (n + i.gets + b.gets)
  | .attempt _ _, _, _ => False

/-- Every scope that the program may spawn satisfies `q`. -/
def Spawns (q : ScopeVal → Prop) : ScopeUse → Prop
  | .ret | .panic => True
  | .look k | .make k | .use _ k => k.Spawns q
  | .block b k | .attempt b k => b.Spawns q ∧ k.Spawns q
  | .spawn i v b k => i.Spawns q ∧ q v ∧ b.Spawns q ∧ k.Spawns q

/-- `Env::new` is not called. -/
def NoBlock : ScopeUse → Prop
  | .ret | .panic => True
  | .look k | .make k | .use _ k => k.NoBlock
  | .block _ _ => False
  | .attempt b k => b.NoBlock ∧ k.NoBlock
  | .spawn i _ b k => i.NoBlock ∧ b.NoBlock ∧ k.NoBlock

end ScopeUse

/-! ## C125 and C126 are false -/

/-- A program that spawns a scope and in it another one, which begins with a reference to the first. What is got inside
(`p`) depends on the first scope and is used when both are gone. -/
def escape (c n : Nat) (p : ScopeUse → ScopeUse) (i : Nat) : ScopeUse :=
  .spawn .ret ⟨16, some c⟩ (.spawn .ret ⟨16, some n⟩ (p .ret) .ret) (.use i .ret)

theorem ScopeUse.run_ret (s : ScopeSt) : ScopeUse.ret.run s = .ok () s := rfl

theorem escape_ub {s : ScopeSt} {c : Nat} (w : s.WF) (hc : s.cur = some c) (hl : c ∈ s.live) {p : ScopeUse → ScopeUse}
    {e : Nat → ScopeEv} (he : ∀ k, (e k).thing = some k)
    (hp : ∀ (t : ScopeSt) (x : Nat), t.cur = some x → x ∈ t.live → (p .ret).run t = .ok () (t.saw (e x))) :
    (escape c s.next p s.things.length).run s = .ub .oob ∧
    ∃ s', (ScopeUse.spawn .ret ⟨16, some c⟩ (.spawn .ret ⟨16, some s.next⟩ (p .ret) .ret) .ret).run s = .ok () s' := by
  have h1 : ∀ t : ScopeSt, t.cur = some c → c ∈ t.live → s.next ∈ t.live →
      (ScopeUse.spawn .ret ⟨16, some s.next⟩ (p .ret) .ret).run t =
        .ok () (({ t with next := t.next + 1, log := t.log ++ [.given c, .entered t.next] } : ScopeSt).saw (e s.next)) := by
    intro t h1 h2 h3
    rw [ScopeUse.run_spawn, h1]
    have h3' : s.next ∈ (t.saw (.given c)).live := h3
    simp only [if_pos h2, ScopeUse.run_ret, show ¬ (16 : Nat) < 16 by omega, if_false, if_pos h3']
    rw [hp _ s.next rfl (by simp [ScopeSt.saw, ScopeSt.placed]; exact Or.inr h3)]
    simp [ScopeSt.saw, ScopeSt.placed, h1]
  have h2 : ∀ k : ScopeUse, (ScopeUse.spawn .ret ⟨16, some c⟩ (.spawn .ret ⟨16, some s.next⟩ (p .ret) .ret) k).run s =
      k.run (({ s with next := s.next + 2, log := s.log ++ [.given c, .entered s.next, .given c, .entered (s.next + 1)] } :
        ScopeSt).saw (e s.next)) := by
    intro k
    rw [ScopeUse.run_spawn, hc]
    have hl' : c ∈ (s.saw (.given c)).live := hl
    simp only [if_pos hl, ScopeUse.run_ret, show ¬ (16 : Nat) < 16 by omega, if_false, if_pos hl']
    rw [h1 _ rfl (by simp [ScopeSt.saw, ScopeSt.placed]; exact Or.inr hl)
      (by simp [ScopeSt.saw, ScopeSt.placed])]
    simp [ScopeSt.saw, ScopeSt.placed, hc]
  refine ⟨?_, _, h2 .ret⟩
  rw [escape, h2, ScopeUse.run_use]
  have h3 : (({ s with
      next := s.next + 2
      log := s.log ++ [.given c, .entered s.next, .given c, .entered (s.next + 1)] } : ScopeSt).saw (e s.next)).things =
      s.things ++ [s.next] := by
    rw [ScopeSt.saw_things, he]
    simp [ScopeSt.things, ScopeEv.thing]
  rw [h3, List.getElem?_concat_length]
  have h4 : ¬ s.next ∈ s.live := fun h => Nat.lt_irrefl _ (w _ h)
  exact if_neg h4

/-- C125 is false: the reference that `current` gives may be kept until its scope is gone. Everything before the use is
fine. -/
theorem C125_refuted {s : ScopeSt} {c : Nat} (w : s.WF) (hc : s.cur = some c) (hl : c ∈ s.live) :
    (escape c s.next .look s.things.length).run s = .ub .oob ∧
    ∃ s', (ScopeUse.spawn .ret ⟨16, some c⟩ (.spawn .ret ⟨16, some s.next⟩ (.look .ret) .ret) .ret).run s = .ok () s' :=
  escape_ub w hc hl (e := .looked) (fun _ => rfl) fun t x h1 h2 => by
    rw [ScopeUse.run_look, h1]
    exact if_pos h2

/-- C125 is false for `Env` as well: it may be kept until the scope it was made of is gone. -/
theorem C125_refuted_env {s : ScopeSt} (w : s.WF) :
    (ScopeUse.block .ret (.use s.things.length .ret)).run s = .ub .oob ∧
    ∃ s', (ScopeUse.block .ret .ret).run s = .ok () s' := by
  have h2 : ∀ k : ScopeUse, (ScopeUse.block .ret k).run s =
      k.run (({ s with next := s.next + 1 } : ScopeSt).saw (.env s.next)) := by
    intro k
    rw [ScopeUse.run_block]
    simp [ScopeUse.run, ScopeSt.saw, ScopeSt.placed]
  refine ⟨?_, _, h2 .ret⟩
  rw [h2, ScopeUse.run_use, ScopeSt.saw_things]
  have : ({ s with next := s.next + 1 } : ScopeSt).things = s.things := rfl
  rw [this]
  simp only [ScopeEv.thing, Option.toList_some, List.getElem?_concat_length]
  have h4 : ¬ s.next ∈ s.live := fun h => Nat.lt_irrefl _ (w _ h)
  exact if_neg h4

/-- C126 is false: `spawn` returns values allocated in a scope that goes away with it. -/
theorem C126_refuted {s : ScopeSt} {c : Nat} (w : s.WF) (hc : s.cur = some c) (hl : c ∈ s.live) :
    (escape c s.next .make s.things.length).run s = .ub .oob ∧
    ∃ s', (ScopeUse.spawn .ret ⟨16, some c⟩ (.spawn .ret ⟨16, some s.next⟩ (.make .ret) .ret) .ret).run s = .ok () s' :=
  escape_ub w hc hl (e := .made) (fun _ => rfl) fun t x h1 h2 => by
    rw [ScopeUse.run_make, h1]
    exact if_pos h2

/-- Scope 0 is current, and some things were got already. -/
def useStart : ScopeSt := ⟨some 0, [0, 1], 2, [.looked 1, .made 0]⟩

example : useStart.WF ∧ useStart.cur = some 0 ∧ 0 ∈ useStart.live ∧
    (escape 0 2 .look 2).run useStart = .ub .oob ∧ (escape 0 2 .make 2).run useStart = .ub .oob := by
  refine ⟨by simp [useStart, ScopeSt.WF], rfl, by decide, rfl, rfl⟩

/-! ## What holds -/

/-- The things that may be used exist. -/
structure Usable (s : ScopeSt) (ok : Nat → Prop) (n : Nat) : Prop where
  got : s.things.length = n
  ok : ∀ i, ok i → ∃ x, s.things[i]? = some x ∧ x ∈ s.live

theorem Usable.saw {s : ScopeSt} {ok : Nat → Prop} {n : Nat} (h : Usable s ok n) {e : ScopeEv} (he : e.thing = none) :
    Usable (s.saw e) ok n := by
  have : (s.saw e).things = s.things := by rw [ScopeSt.saw_things, he]; simp
  exact ⟨by rw [this]; exact h.got, fun i hi => by rw [this]; exact h.ok i hi⟩

theorem Usable.get {s : ScopeSt} {ok : Nat → Prop} {n x : Nat} (h : Usable s ok n) {e : ScopeEv}
    (he : e.thing = some x) (hx : x ∈ s.live) : Usable (s.saw e) (fun i => i = n ∨ ok i) (n + 1) := by
  have h1 : (s.saw e).things = s.things ++ [x] := by rw [ScopeSt.saw_things, he]; rfl
  refine ⟨by rw [h1]; simp [h.got], fun i hi => ?_⟩
  rw [h1]
  rcases hi with rfl | hi
  · rw [← h.got, List.getElem?_concat_length]
    exact ⟨x, rfl, hx⟩
  · obtain ⟨y, h2, h3⟩ := h.ok i hi
    exact ⟨y, by rw [List.getElem?_append_left (List.getElem?_eq_some_iff.1 h2).1]; exact h2, h3⟩

/-- Later, when as many scopes exist. -/
theorem Usable.keep {s s' : ScopeSt} {ok : Nat → Prop} {n m : Nat} (h : Usable s ok n) (k : ScopeKeeps s s')
    (hm : s'.things.length = m) : Usable s' ok m := by
  refine ⟨hm, fun i hi => ?_⟩
  obtain ⟨x, h1, h2⟩ := h.ok i hi
  obtain ⟨l, hl⟩ := k.things
  exact ⟨x, by rw [← hl, List.getElem?_append_left (List.getElem?_eq_some_iff.1 h1).1]; exact h1, k.live ▸ h2⟩

/-- A program that catches nothing gets as many things as can be seen in it. -/
theorem ScopeUse.gets_ok {p : ScopeUse} (hp : p.NoCatch) {s s' : ScopeSt} {u : Unit} (h : p.run s = .ok u s') :
    s'.things.length = s.things.length + p.gets := by
  induction p generalizing s s' with
  | ret => cases h; rfl
  | panic => cases h
  | attempt b k => exact hp.elim
  | look k ih =>
    rw [run_look] at h
    split at h
    · cases h
    · split at h
      · rw [ih hp h, ScopeSt.saw_things]; simp [ScopeEv.thing, gets]; omega
      · cases h
  | make k ih =>
    rw [run_make] at h
    split at h
    · cases h
    · split at h
      · rw [ih hp h, ScopeSt.saw_things]; simp [ScopeEv.thing, gets]; omega
      · cases h
  | use i k ih =>
    rw [run_use] at h
    split at h
    · exact ih hp h
    · split at h
      · exact ih hp h
      · cases h
  | block b k ihb ihk =>
    rw [run_block] at h
    split at h
    · rename_i s2 hb
      have h1 := ihb hp.1 hb
      have h2 := ihk hp.2 h
      have h3 : ({ s2 with live := s2.live.erase s.next } : ScopeSt).things = s2.things := rfl
      rw [h2, h3, h1, ScopeSt.saw_things]
      have h4 : s.placed.things = s.things := rfl
      simp [ScopeEv.thing, gets, h4]; omega
    all_goals cases h
  | spawn i v b k ihi ihb ihk =>
    rw [run_spawn] at h
    split at h
    · cases h
    split at h
    · split at h
      · rename_i s1 hi
        split at h
        · cases h
        split at h
        · cases h
        split at h
        · split at h
          · rename_i x _ _ s2 hb
            have h0 := ihi hp.1 hi
            have h1 := ihb hp.2.1 hb
            have h2 := ihk hp.2.2 h
            rw [ScopeSt.saw_things] at h0 h1
            rename_i prev _ _ _ _ _ _
            have h3 : ∀ c l, ({ s2 with cur := c, live := l } : ScopeSt).things = s2.things := fun _ _ => rfl
            have h4 : ∀ c, ({ s1.placed with cur := c } : ScopeSt).things = s1.things := fun _ => rfl
            rw [h3] at h2
            rw [h4] at h1
            simp [ScopeEv.thing] at h0 h1
            simp only [gets]; omega
          all_goals cases h
        · cases h
      all_goals cases h
    · cases h

/-- C125 and C126 where they hold: if a program catches no panics and uses references, values and `Env`s only in the
bodies in which it got them, or inside these, its uses are all fine. It does what it does without the uses, of which C90
tells when it is safe. Missing: programs that catch panics, after which a scope that is gone may be current (C76). -/
theorem C125_local_partial {p : ScopeUse} {ok : Nat → Prop} {n : Nat} (hp : p.NoCatch) (h : p.Local ok n) {s : ScopeSt}
    (hs : Usable s ok n) : p.run s = p.unused.run s := by
  induction p generalizing s ok n with
  | ret => rfl
  | panic => rfl
  | attempt b k => exact hp.elim
  | look k ih =>
    rw [ScopeUse.unused, ScopeUse.run_look, ScopeUse.run_look]
    split
    · rfl
    · rename_i x _
      by_cases hx : x ∈ s.live
      · rw [if_pos hx, if_pos hx]
        exact ih hp h (hs.get rfl hx)
      · rw [if_neg hx, if_neg hx]
  | make k ih =>
    rw [ScopeUse.unused, ScopeUse.run_make, ScopeUse.run_make]
    split
    · rfl
    · rename_i x _
      by_cases hx : x ∈ s.live
      · rw [if_pos hx, if_pos hx]
        exact ih hp h (hs.get rfl hx)
      · rw [if_neg hx, if_neg hx]
  | use i k ih =>
    rw [ScopeUse.unused, ScopeUse.run_use]
    obtain ⟨x, h1, h2⟩ := hs.ok i h.1
    rw [h1]
    simp only [if_pos h2]
    exact ih hp h.2 hs
  | block b k ihb ihk =>
    rw [ScopeUse.unused, ScopeUse.run_block, ScopeUse.run_block]
    have hpl : Usable s.placed ok n := ⟨hs.got, fun i hi => by
      obtain ⟨x, h1, h2⟩ := hs.ok i hi
      exact ⟨x, h1, List.mem_cons_of_mem _ h2⟩⟩
    have hb := hpl.get (e := .env s.next) rfl (List.mem_cons_self ..)
    rw [← ihb hp.1 h.1 hb]
    split
    · rename_i s2 hr
      refine ihk hp.2 h.2 (hs.keep (ScopeKeeps.close (h := s.cur) (ScopeUse.keeps_ok hr) s2.cur) ?_)
      rw [← hb.got, ← ScopeUse.gets_ok hp.1 hr]
      rfl
    all_goals rfl
  | spawn i v b k ihi ihb ihk =>
    rw [ScopeUse.unused, ScopeUse.run_spawn, ScopeUse.run_spawn]
    cases hc : s.cur with
    | none => rfl
    | some c =>
      simp only
      by_cases hl : c ∈ s.live
      · rw [if_pos hl, if_pos hl]
        have hi := hs.saw (e := .given c) rfl
        rw [← ihi hp.1 h.1 hi]
        cases hr : i.run (s.saw (.given c)) with
        | abort => rfl
        | ub u => rfl
        | panic s1 => rfl
        | ok u s1 =>
          simp only
          by_cases hz : v.size < 16
          · rw [if_pos hz, if_pos hz]
          rw [if_neg hz, if_neg hz]
          cases v.head with
          | none => rfl
          | some x =>
            simp only
            by_cases hx : x ∈ s1.live
            · rw [if_pos hx, if_pos hx]
              have k1 : ScopeKeeps s s1 := (s.saw_keeps _).trans (ScopeUse.keeps_ok hr)
              have u1 : Usable s1 ok (n + i.gets) := hs.keep k1 (by rw [ScopeUse.gets_ok hp.1 hr, hi.got])
              have u2 : Usable ({ s1.placed with cur := some x }.saw (.entered s1.next)) ok (n + i.gets) := by
                refine Usable.saw (s := { s1.placed with cur := some x }) (e := .entered s1.next)
                  ⟨u1.got, fun j hj => ?_⟩ rfl
                obtain ⟨y, h1, h2⟩ := u1.ok j hj
                exact ⟨y, h1, List.mem_cons_of_mem _ h2⟩
              rw [← ihb hp.2.1 h.2.1 u2]
              cases hr2 : b.run ({ s1.placed with cur := some x }.saw (.entered s1.next)) with
              | abort => rfl
              | ub u => rfl
              | panic s1 => rfl
              | ok u s2 =>
                simp only
                refine ihk hp.2.2 h.2.2 (u1.keep (ScopeKeeps.close (ScopeUse.keeps_ok hr2) (some c)) ?_)
                rw [← u2.got, ← ScopeUse.gets_ok hp.2.1 hr2]
                rfl
            · rw [if_neg hx, if_neg hx]
      · rw [if_neg hl, if_neg hl]

/-- C125 and C126 where they hold with panics that are caught: if all scopes spawned are smaller than 16 bytes or begin with a
reference to a scope that outlives the program (`R`), and no `Env` is made, there is no undefined behaviour,
whatever is kept and used. Missing: as in C90. -/
theorem C125_outlive_partial {p : ScopeUse} {R : List Nat}
    (hp : p.Spawns fun v => v.size < 16 ∨ ∃ x ∈ R, v.head = some x) (hb : p.NoBlock) {s : ScopeSt}
    (hR : ∀ x ∈ R, x ∈ s.live) (hc : ∀ c, s.cur = some c → c ∈ R) (ht : ∀ x ∈ s.things, x ∈ R) :
    (p.run s).Safely fun s' => (∀ c, s'.cur = some c → c ∈ R) ∧ ∀ x ∈ s'.things, x ∈ R := by
  have hget : ∀ {s : ScopeSt} {e : ScopeEv} {x : Nat}, e.thing = some x → x ∈ R → (∀ x ∈ s.things, x ∈ R) →
      ∀ x ∈ (s.saw e).things, x ∈ R := by
    intro s e x he hx ht y hy
    rw [ScopeSt.saw_things, he] at hy
    simp at hy
    rcases hy with hy | rfl
    · exact ht y hy
    · exact hx
  have hsaw : ∀ {s : ScopeSt} {e : ScopeEv}, e.thing = none → (s.saw e).things = s.things := by
    intro s e he
    rw [ScopeSt.saw_things, he]
    simp
  induction p generalizing s with
  | ret => exact ⟨hc, ht⟩
  | panic => exact ⟨hc, ht⟩
  | look k ih =>
    rw [ScopeUse.run_look]
    cases hcc : s.cur with
    | none => exact ⟨hc, ht⟩
    | some x =>
      simp only [if_pos (hR x (hc x hcc))]
      exact ih hp hb (s := s.saw (.looked x)) hR hc (hget rfl (hc x hcc) ht)
  | make k ih =>
    rw [ScopeUse.run_make]
    cases hcc : s.cur with
    | none => exact ⟨hc, ht⟩
    | some x =>
      simp only [if_pos (hR x (hc x hcc))]
      exact ih hp hb (s := s.saw (.made x)) hR hc (hget rfl (hc x hcc) ht)
  | use i k ih =>
    rw [ScopeUse.run_use]
    split
    · exact ih hp hb hR hc ht
    · rename_i x hx
      rw [if_pos (hR x (ht x (List.mem_of_getElem? hx)))]
      exact ih hp hb hR hc ht
  | block b k => exact hb.elim
  | attempt b k ihb ihk =>
    rw [ScopeUse.run_attempt]
    have h1 := ihb hp.1 hb.1 hR hc ht
    cases hr : b.run s with
    | ok u s' =>
      rw [hr] at h1
      exact ihk hp.2 hb.2 (fun x hx => (ScopeUse.keeps_ok hr).live ▸ hR x hx) h1.1 h1.2
    | panic s' =>
      rw [hr] at h1
      exact ihk hp.2 hb.2 (fun x hx => (ScopeUse.keeps_panic hr).live ▸ hR x hx) h1.1 h1.2
    | abort => trivial
    | ub u => rw [hr] at h1; exact h1
  | spawn init v body k ihi ihb ihk =>
    obtain ⟨pi, pv, pb, pk⟩ := hp
    obtain ⟨bi, bb, bk⟩ := hb
    rw [ScopeUse.run_spawn]
    cases hcc : s.cur with
    | none => exact ⟨hc, ht⟩
    | some c =>
      simp only [if_pos (hR c (hc c hcc))]
      have hi := ihi pi bi (s := s.saw (.given c)) hR hc (by rw [hsaw rfl]; exact ht)
      cases hr : init.run (s.saw (.given c)) with
      | abort => trivial
      | ub u => rw [hr] at hi; exact hi
      | panic s1 => rw [hr] at hi; exact hi
      | ok u s1 =>
        rw [hr] at hi
        have l1 : s1.live = s.live := (ScopeUse.keeps_ok hr).live
        simp only []
        split
        · exact hi
        · rename_i hz
          obtain ⟨x, hx, hh⟩ := pv.resolve_left hz
          rw [hh]
          simp only [if_pos (show x ∈ s1.live from l1 ▸ hR x hx)]
          have hb := ihb pb bb (s := { s1.placed with cur := some x }.saw (.entered s1.next))
            (fun y hy => List.mem_cons_of_mem _ (l1 ▸ hR y hy)) (fun y hy => by cases hy; exact hx)
            (by rw [hsaw rfl]; exact hi.2)
          cases hr2 : body.run ({ s1.placed with cur := some x }.saw (.entered s1.next)) with
          | abort => trivial
          | ub u => rw [hr2] at hb; exact hb
          | panic s2 => rw [hr2] at hb; exact hb
          | ok u s2 =>
            rw [hr2] at hb
            have l2 := (ScopeKeeps.close (ScopeUse.keeps_ok hr2) (some c)).live
            refine ihk pk bk (s := { s2 with cur := some c, live := s2.live.erase s1.next }) (fun y hy => ?_)
              (fun y hy => by cases hy; exact hc c hcc) hb.2
            rw [l2, l1]
            exact hR y hy

/-- Two nested scopes; what was got outside is used inside, and the reverse not. -/
def localProg : ScopeUse :=
  .look (.spawn (.make (.use 2 (.use 3 .ret))) ⟨16, some 1⟩
    (.make (.use 2 (.spawn .ret ⟨24, some 3⟩ (.look (.use 4 (.use 5 .ret))) (.use 4 (.use 2 .ret)))))
    (.block (.use 6 .ret) (.use 2 .panic)))

example : localProg.NoCatch ∧ localProg.Local (fun i => i < 2) 2 ∧ Usable useStart (fun i => i < 2) 2 ∧
    localProg.run useStart = localProg.unused.run useStart := by
  have h1 : localProg.NoCatch := by simp [localProg, ScopeUse.NoCatch]
  have h2 : localProg.Local (fun i => i < 2) 2 := by simp [localProg, ScopeUse.Local, ScopeUse.gets]
  have h3 : Usable useStart (fun i => i < 2) 2 := by
    refine ⟨rfl, fun i hi => ?_⟩
    match i, hi with
    | 0, _ => exact ⟨1, rfl, by decide⟩
    | 1, _ => exact ⟨0, rfl, by decide⟩
  exact ⟨h1, h2, h3, C125_local_partial h1 h2 h3⟩

example : ∃ (p : ScopeUse) (R : List Nat), ScopeUse.Spawns (fun v => v.size < 16 ∨ ∃ x ∈ R, v.head = some x) p ∧
    p.NoBlock ∧ (∀ x ∈ R, x ∈ useStart.live) ∧ (∀ c, useStart.cur = some c → c ∈ R) ∧ (∀ x ∈ useStart.things, x ∈ R) ∧
    ∃ s', p.run useStart = .ok () s' ∧ s'.things = [1, 0, 1, 1] :=
  ⟨.attempt (.spawn .ret ⟨16, some 1⟩ (.look (.make .panic)) .ret) (.use 2 (.use 3 .ret)), [0, 1],
    by simp [ScopeUse.Spawns], by simp [ScopeUse.NoBlock], by decide, by decide, by decide, _, rfl, by decide⟩

end Lokky
