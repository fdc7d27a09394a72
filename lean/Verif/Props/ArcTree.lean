import Verif.Proofs.ArcTreeTold
import Verif.Proofs.ArcTreeLive

/-!
# C147 Trees of `Arc`s that are changed through `make_mut` behave like trees of one's own

A program on any number of threads builds trees of `Arc`s that share their nodes, and changes them through `make_mut`, `get_mut` and
`try_unwrap`. What it sees is what it would see if every handle had a whole tree of its own, and `clone` copied the whole tree:
`Spec.playTrees`, which knows nothing of sharing, accepts everything that the program does and sees.

Missing, because it is false: that this holds after `make_mut` was refused memory for a node that it has moved out
(`C147_refuted`; `CowReaches mx True` excludes it). Histories are of at most `mx = isize::MAX` steps, as numbers of handles are only checked
by calls that come too late (C46).
-/

namespace Lokky
variable {α : Type} [DecidableEq α] {mx n t : Nat} {s s' : CowSys α}

/-- The nodes that there are `&mut T`s of. -/
def CowOp.lends : CowOp α → List Nat
  | .held _ p => [p]
  | _ => []

/-- C147, values: what a program did and saw is what happens to trees that share nothing. Handles of the program have trees. -/
theorem C147_values_partial (h : CowReaches mx True n s) (hn : n ≤ mx) :
    ∃ f : List (Option (Spec.Tree α)), Spec.playTrees s.log = some f ∧ f.length = s.hands.length ∧
      ∀ k p : Nat, s.hands[k]? = some (some p) → ∃ u : Spec.Tree α, f[k]? = some (some u) := by
  obtain ⟨f, h1, I⟩ := h.good trivial hn
  refine ⟨f, h1, I.len, fun k p hk => ?_⟩
  obtain ⟨_, _, _, _, _, _, _, _, _, _, _, u, hu, _⟩ := I.hand hk
  exact ⟨u, hu⟩

/-- C147, calls: every call that the compiler allows returns. It does to the trees what it is to do, and shows what there is in the
trees. -/
theorem C147_calls_partial (h : CowReaches mx True n s) (hn : n ≤ mx) {ops : List (CowOp α)} (ht : s.threads[t]? = some ops)
    {cmd : CowCmd α} (hl : cmd.legal s ops) (grant : Bool) :
    ∃ f s', Spec.playTrees s.log = some f ∧ Cow.call mx t ops grant cmd s = .ok () s' ∧
      s'.log = s.log ++ cmd.shows grant (CowOp.mine ops) f := by
  have G := h.good trivial hn
  obtain ⟨f, h1, _⟩ := id G
  obtain ⟨s', h2, _⟩ := Cow.call_good (grant := grant) G hn ht hl
  exact ⟨f, s', h1, h2, Cow.call_told G hn ht hl h1 h2⟩

/-- C147, steps: every step inside of a call can be made, and the program notices nothing but the node that `try_unwrap` gives it. -/
theorem C147_steps_partial (h : CowReaches mx True n s) (hn : n ≤ mx) {op : CowOp α} {r : List (CowOp α)}
    (ht : s.threads[t]? = some (op :: r)) {ch : CowChoice} (hc : ¬ op.loses ch) :
    ∃ f s', Spec.playTrees s.log = some f ∧ Cow.step mx ch t r op s = .ok () s' ∧ s'.log = s.log ++ op.shows f := by
  have G := h.good trivial hn
  obtain ⟨f, h1, _⟩ := id G
  obtain ⟨s', h2, _⟩ := Cow.step_good G hn ht hc
  exact ⟨f, s', h1, h2, Cow.step_told G ht h1 h2⟩

/-- C147, `&mut T`: while a program has a `&mut T` of a node, the node is there, there is no other `&mut T` of it in any thread, no
handle of it, and no other node has it as a kid. -/
theorem C147_alone_partial (h : CowReaches mx True n s) (hn : n ≤ mx) {ops : List (CowOp α)} (ht : ops ∈ s.threads) {k p : Nat}
    (hp : .held k p ∈ ops) :
    (∃ o, s.objs[p]? = some o ∧ o.alive = true ∧ o.freed = false) ∧ (s.threads.flatten.flatMap CowOp.lends).count p = 1 ∧
      some p ∉ s.hands ∧ ∀ o ∈ s.objs, o.alive = true → p ∉ o.kids := by
  obtain ⟨f, h1, I⟩ := h.good trivial hn
  have hm : .held k p ∈ s.threads.flatten := List.mem_flatten.2 ⟨ops, ht, hp⟩
  obtain ⟨l1, l2, e⟩ := List.append_of_mem hm
  have pm : s.threads.flatten.Perm ([.held k p] ++ (l1 ++ l2)) := by
    rw [e]; simpa using List.perm_middle
  obtain ⟨o, h1, h2, h3, h4, h5, h6, h7, _⟩ := (I.perm pm).mine
  refine ⟨⟨o, h1, h2, h3⟩, ?_, ?_, ?_⟩
  · rw [(pm.flatMap_right _).count_eq]
    have : ((l1 ++ l2).flatMap CowOp.lends).count p = 0 := by
      rw [List.count_eq_zero] at h7 ⊢
      intro hh
      refine h7 ?_
      obtain ⟨op, a, b⟩ := List.mem_flatMap.1 hh
      refine List.mem_flatMap.2 ⟨op, a, ?_⟩
      cases op <;> simp_all [CowOp.lends, CowOp.refs]
    simp only [List.flatMap_append, List.flatMap_cons, List.flatMap_nil, List.append_nil, CowOp.lends, List.count_append,
      List.count_singleton_self] at this ⊢
    omega
  · intro hh
    rw [List.count_eq_zero] at h5
    exact h5 (List.mem_flatMap.2 ⟨some p, hh, by simp⟩)
  · intro o ho ha hh
    rw [List.count_eq_zero] at h6
    exact h6 (List.mem_flatMap.2 ⟨o, ho, by simpa [CowObj.held, ha] using hh⟩)

/-- The nodes that one can get at: the program has a handle, has forgotten one, or can go on from a node that it can get at. -/
inductive CowLives (s : CowSys α) : Nat → Prop
  | hand {p : Nat} : some p ∈ s.hands → CowLives s p
  | lost {p : Nat} : p ∈ s.lost → CowLives s p
  | kid {p q : Nat} {o : CowObj α} : CowLives s p → s.objs[p]? = some o → q ∈ o.kids → CowLives s q

/-- C147, what is left: while no call is under way and there is no `&mut T`, the nodes that are there are those that one can get at. -/
theorem C147_left_partial (h : CowReaches mx True n s) (hn : n ≤ mx) (hi : ∀ ops ∈ s.threads, ops = []) (p : Nat) :
    (∃ o, s.objs[p]? = some o ∧ o.alive = true) ↔ CowLives s p := by
  obtain ⟨f, h1, I⟩ := h.good trivial hn
  have e : s.threads.flatten = [] := by simpa [List.flatten_eq_nil_iff] using hi
  rw [e] at I
  constructor
  · rintro ⟨o, ho, ha⟩
    exact I.found (fun q hq => .hand hq) (fun q hq => .lost hq) (fun p q x hp hx _ hq => .kid hp hx hq) ho ha
  · intro hp
    have there : ∀ q, 0 < (allRefs s.objs s.hands s.lost []).count q → ∃ o, s.objs[q]? = some o ∧ o.alive = true := by
      intro q hq
      obtain ⟨o, a, b, _⟩ := I.there hq
      exact ⟨o, a, b⟩
    induction hp with
    | hand hp => exact there _ (List.count_pos_iff.2 (by simp [allRefs, hp]))
    | lost hp => exact there _ (List.count_pos_iff.2 (by simp [allRefs, hp]))
    | @kid p q o _ ho hq ih =>
      obtain ⟨x, a, b⟩ := ih
      rw [ho] at a; cases a
      refine there _ (List.count_pos_iff.2 ?_)
      have : q ∈ s.objs.flatMap CowObj.held := List.mem_flatMap.2 ⟨o, List.mem_of_getElem? ho, by simpa [CowObj.held, b] using hq⟩
      simp [allRefs, this]

/-- C147, the end: without handles, no node is left. -/
theorem C147_end_partial (h : CowReaches mx True n s) (hn : n ≤ mx) (hi : ∀ ops ∈ s.threads, ops = [])
    (hh : ∀ k ∈ s.hands, k = none) (hl : s.lost = []) : ∀ o ∈ s.objs, o.alive = false := by
  intro o ho
  by_contra ha
  obtain ⟨p, hp⟩ := List.mem_iff_getElem?.1 ho
  have hv := (C147_left_partial h hn hi p).1 ⟨o, hp, by simpa using ha⟩
  have no : ∀ q, ¬ CowLives s q := by
    intro q hq
    induction hq with
    | hand h => cases hh _ h
    | lost h => simp [hl] at h
    | kid _ _ _ ih => exact ih
  exact no p hv

/-! ## Examples -/

namespace ArcTreeExample

/-- Steps of thread `t`. -/
def steps (t k : Nat) : List (CowMove Nat) := List.replicate k (.run t {})

/-- A node 7 with a kid 5 has two handles. One thread changes the node through one of them, and its kid; another thread looks at
both through the other handle, and takes the node apart. -/
def script : List (CowMove Nat) :=
  [.call 0 true (.new 5 []), .call 0 true (.new 7 [0]), .call 0 true (.clone 1), .call 0 true (.makeMut 1)] ++ steps 0 2 ++
  [.call 1 true (.read 2 [0])] ++ steps 0 5 ++ [.call 0 true (.write 9), .call 0 true (.take 0), .call 0 true (.makeMut 3)] ++ steps 0 5 ++
  [.call 1 true (.read 2 []), .run 0 {}, .call 0 true (.write 6), .call 0 true .letGo, .call 0 true (.put 0 3), .call 0 true (.read 1 [0]),
    .call 0 true .letGo, .call 0 true (.read 1 []), .call 1 true (.read 2 [0]), .call 1 true (.unwrap 2)] ++ steps 1 3

/-- What the program did and saw. -/
def story : List (Spec.TreeEv Nat) :=
  [.new 5 [], .new 7 [0], .copy 1, .look 2 [0] (some (5, 0)), .write 1 9, .take 1 0, .look 2 [] (some (7, 1)), .write 3 6, .put 1 0 3,
    .look 1 [0] (some (6, 0)), .look 1 [] (some (9, 1)), .look 2 [0] (some (5, 0)), .apart 2 7]

/-- The hypotheses of `C147_values_partial` and `C147_calls_partial` are met, by a state in which handles 1 and 4 are left. -/
example : ∃ s, CowReaches 100 True 33 s ∧ s.log = story ∧ s.hands = [none, some 2, none, none, some 0] ∧
    (CowCmd.read 1 [0]).legal s [] ∧ s.threads = [[], []] := by
  refine ⟨⟨[⟨1, 0, 5, [], true, false⟩, ⟨0, 0, 7, [0], false, true⟩, ⟨1, 0, 9, [3], true, false⟩, ⟨1, 0, 6, [], true, false⟩],
    [none, some 2, none, none, some 0], [], [[], []], story⟩, ?_, rfl, rfl, ⟨2, rfl⟩, rfl⟩
  have h : (CowSys.start 2).moves 100 true script = some ⟨[⟨1, 0, 5, [], true, false⟩, ⟨0, 0, 7, [0], false, true⟩,
    ⟨1, 0, 9, [3], true, false⟩, ⟨1, 0, 6, [], true, false⟩], [none, some 2, none, none, some 0], [], [[], []], story⟩ := by decide +kernel
  simpa [script, steps] using CowSys.moves_reach (.start 2) h

/-- The handles that are left are dropped: the hypotheses of `C147_end_partial` are met, after four nodes were made. -/
example : ∃ s : CowSys Nat, CowReaches 100 True 47 s ∧ s.threads = [[], []] ∧ s.hands = [none, none, none, none, none] ∧ s.lost = [] ∧
    s.objs.length = 4 := by
  have h : ((CowSys.start 2).moves 100 true (script ++ [.call 0 true (.drop 1), .call 1 true (.drop 4)] ++ steps 0 8 ++ steps 1 4)).map
      (fun s => (s.threads, s.hands, s.lost, s.objs.length)) = some ([[], []], [none, none, none, none, none], [], 4) := by decide +kernel
  obtain ⟨s, h1, h2⟩ := Option.map_eq_some_iff.1 h
  simp only [Prod.mk.injEq] at h2
  refine ⟨s, ?_, h2⟩
  simpa [script, steps] using CowSys.moves_reach (.start 2) h1

/-- What is expected of these trees. -/
example : Spec.playTrees (story.take 10) =
    some [none, some (.node 9 [.node 6 []]), some (.node 7 [.node 5 []]), none] := rfl

example : Spec.playTrees story = some [none, some (.node 9 [.node 6 []]), none, none, some (.node 5 [])] := rfl

example : Spec.playTrees [.new 5 [], .new 6 [], .new 7 [1, 0], .copyKid 2 1, .gone [2]] =
    some [none, none, none, some (.node 5 [])] := rfl

/-- A program does not see anything else: a write through one handle through the other, or a value or kid that is not there. -/
example : Spec.playTrees [.new 7 [], .copy 0, .write 0 9, .look 1 [] (some (9, 0))] = none ∧
    Spec.playTrees [.new 7 [], .look 0 [0] (some (7, 0))] = none ∧ Spec.playTrees [.new 7 [], .apart 0 8] = none ∧
    Spec.playTrees [.new 7 [], .copyKid 0 0] = none ∧ Spec.playTrees [.new 7 [], .take 0 0] = none := ⟨rfl, rfl, rfl, rfl, rfl⟩

/-- Trees that are gone or used elsewhere cannot be used, and there are no gaps between kids. -/
example : Spec.playTrees [.new 7 [], .gone [0], .copy 0] = none ∧ Spec.playTrees [.new 7 [], .new 8 [0], .write 0 9] = none ∧
    Spec.playTrees [.new 7 [], .new 8 [1]] = none ∧ Spec.playTrees [.new 7 [], .new 8 [0, 0]] = none ∧
    Spec.playTrees [.new 7 [], .put 0 0 0] = none ∧ Spec.playTrees [.new 7 [], .new 8 [], .put 0 1 1] = none :=
  ⟨rfl, rfl, rfl, rfl, rfl, rfl⟩

/-- Half way, the thread has a `&mut T` of the kid as well as one of the node: the hypotheses of `C147_alone_partial`. -/
example : ∃ s : CowSys Nat, CowReaches 100 True 22 s ∧ s.threads = [[.held 3 3, .held 1 2], []] := by
  have h : ((CowSys.start 2).moves 100 true (script.take 22)).map CowSys.threads = some [[.held 3 3, .held 1 2], []] := by decide +kernel
  obtain ⟨s, h1, h2⟩ := Option.map_eq_some_iff.1 h
  refine ⟨s, ?_, h2⟩
  simpa [script, steps] using CowSys.moves_reach (.start 2) h1

/-- A step of `try_unwrap`: the hypotheses of `C147_steps_partial`. -/
example : ∃ s : CowSys Nat, CowReaches 100 True 30 s ∧ s.threads = [[], [.unw 2 1]] ∧ ¬ (CowOp.unw 2 1 : CowOp Nat).loses {} := by
  have h : ((CowSys.start 2).moves 100 true (script.take 30)).map CowSys.threads = some [[], [.unw 2 1]] := by decide +kernel
  obtain ⟨s, h1, h2⟩ := Option.map_eq_some_iff.1 h
  refine ⟨s, ?_, h2, id⟩
  simpa [script, steps] using CowSys.moves_reach (.start 2) h1

/-- A program that has a `Weak` of its node, is refused memory by `make_mut`, clones the handle and drops the clone. -/
def doomed : List (CowMove Nat) :=
  [.call 0 true (.new 5 []), .call 0 true (.downgrade 0), .call 0 true (.makeMut 0)] ++ steps 0 5 ++
  [.run 0 { grant := false }, .call 0 true (.clone 0), .call 0 true (.drop 1)] ++ steps 0 3

end ArcTreeExample

/-! ## Where it is false -/

/-- Not so once `make_mut` was refused memory for a node that it had moved out: the handle is there, and does not count. After it was
cloned and the clone dropped, reading through it is undefined behaviour. -/
theorem C147_refuted : ∃ (n : Nat) (s : CowSys Nat), n ≤ 100 ∧ CowReaches 100 False n s ∧ s.threads = [[]] ∧
    (CowCmd.read 0 []).legal s [] ∧ Cow.call 100 0 [] true (.read 0 []) s = .ub .uninit := by
  have h : (CowSys.start 1).moves 100 false ArcTreeExample.doomed = some ⟨[⟨0, 2, 5, [], false, false⟩], [some 0, none], [], [[]],
    [.new 5 [], .copy 0, .gone [1]]⟩ := by decide +kernel
  refine ⟨14, ⟨[⟨0, 2, 5, [], false, false⟩], [some 0, none], [], [[]], [.new 5 [], .copy 0, .gone [1]]⟩, by omega, ?_, ?_, ⟨0, ?_⟩, ?_⟩
  · have := CowSys.moves_reach (.start 1) h
    simpa [ArcTreeExample.doomed, ArcTreeExample.steps] using this
  all_goals rfl

end Lokky
