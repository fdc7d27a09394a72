import Verif.Proofs.ArcGraph

/-! Calls, and all runs, of `Arc`s that hold `Arc`s. -/

namespace Lokky

namespace Graph
variable {calm : Prop} {mx n : Nat} {s s' : GSys} {t : Nat} {r : List GOp} {u boom : Bool}

/-- What to check when the number of handles of `p` changes. -/
theorem shift {o o' : GObj} {th th' : GThread} {hands : List Nat} {p : Nat} (h : GraphInv calm n s) (ho : s.objs[p]? = some o)
    (ht : s.threads[t]? = some th) (es : s.upd p o' t th' hands = s')
    (cons : ∀ q, q ≠ p → hands.count q + o'.held.count q + (th'.ops.flatMap GOp.subs).count q =
      s.hands.count q + o.held.count q + (th.ops.flatMap GOp.subs).count q)
    (hs : o'.strong + (s.hands.count p + o.held.count p + (th.ops.flatMap GOp.subs).count p) =
      o.strong + (hands.count p + o'.held.count p + (th'.ops.flatMap GOp.subs).count p))
    (size : hands.length + o'.held.length + (th'.ops.flatMap GOp.subs).length ≤
      s.hands.length + o.held.length + (th.ops.flatMap GOp.subs).length + 1)
    (he : ∀ q, q ≠ p → (th'.ops.flatMap GOp.ends).count q = (th.ops.flatMap GOp.ends).count q)
    (hl : ∀ q, q ≠ p → (th'.ops.flatMap GOp.looks).count q = (th.ops.flatMap GOp.looks).count q)
    (fit : ∀ E L, E + (th.ops.flatMap GOp.ends).count p = s.ends.count p + (th'.ops.flatMap GOp.ends).count p →
      L + (th.ops.flatMap GOp.looks).count p = s.looks.count p + (th'.ops.flatMap GOp.looks).count p →
      (o'.alive = true → o'.freed = false ∧ o'.outs = 0 ∧ L = 0 ∧
        (o'.strong = 0 → E = 1) ∧ (0 < o'.strong → E = 0)) ∧
      (o'.alive = false → o'.strong = 0 ∧ o'.outs = 1 ∧ E = 0 ∧ L ≤ 1 ∧ (o'.freed = true → L = 0)) ∧
      (calm → o'.alive = false → o'.weak = 0 → o'.freed = true ∨ L = 1)) :
    GraphInv calm (n + 1) s' := by
  have U := fun P => GSys.upd_hc (o' := o') (th' := th') (hands := hands) ho ht P
  have UE := fun q => GSys.upd_ends (p := p) (o' := o') (th' := th') (hands := hands) ht q
  have UL := fun q => GSys.upd_looks (p := p) (o' := o') (th' := th') (hands := hands) ht q
  rw [es] at U UE UL
  have F := fit _ _ (UE p) (UL p)
  simp only [List.count] at cons hs
  refine h.upd ho ht es.symm ?_ ?_ ?_ ?_ ?_ F.1 F.2.1 ?_ F.2.2
  · intro q hq; have := U (· == q); have := cons q hq; omega
  · have := U (· == p); have := h.cnt p o ho; omega
  · intro q hq; have := UE q; have := he q hq; omega
  · intro q hq; have := UL q; have := hl q hq; omega
  · intro _ q hq; have := UL q; have := hl q hq; omega
  · have := U (fun _ => true)
    have := h.size
    simp only [List.countP_true] at *
    omega

theorem set_same {β : Type} {l : List β} {i : Nat} {a : β} (h : l[i]? = some a) : l.set i a = l := by
  obtain ⟨h1, h2⟩ := List.getElem?_eq_some_iff.1 h
  rw [← h2]; exact List.set_getElem_self h1

theorem incr_small {k : Nat} (h : k ≤ mx) : Arc.incr mx k = k + 1 := by
  simp only [Arc.incr, Arc.lock, show k ≠ 2 * mx + 1 by omega, if_false]

theorem hc_le_size (p : Nat) : s.hc (· == p) ≤ s.hc (fun _ => true) := by
  have M := fun l : List Nat => List.countP_mono_left (l := l) (p := (· == p)) (q := fun _ => true) (by simp)
  simp only [GSys.hc]
  have := M s.hands; have := M s.lost; have := M (s.objs.flatMap GObj.held)
  have := M (s.threads.flatMap fun th => th.ops.flatMap GOp.subs)
  omega

/-- Result of a new handle. -/
theorem grow_eq {p : Nat} (h : GraphInv calm n s) (hn : n ≤ mx) (hp : 0 < s.hc (· == p)) {th : GThread}
    (ht : s.threads[t]? = some th) : ∃ o, s.objs[p]? = some o ∧ grow mx p s =
      .ok () (s.upd p { o with strong := o.strong + 1 } t th (s.hands ++ [p])) := by
  obtain ⟨o, ho, ha, hf, hou, hs, he, hl⟩ := h.hand hp
  have := h.cnt p o ho
  have := hc_le_size (s := s) p
  have := h.size
  refine ⟨o, ho, ?_⟩
  simp only [grow, M.bind_apply, obj_ok ho hf, put, M.modify_apply, incr_small (mx := mx) (show o.strong ≤ mx by omega),
    show ¬ o.strong > mx by omega, if_false, GSys.upd, set_same ht]

theorem inv_grow {p : Nat} (h : GraphInv calm n s) (hn : n ≤ mx) (hp : 0 < s.hc (· == p)) {th : GThread}
    (ht : s.threads[t]? = some th) (e : grow mx p s = .ok () s') : GraphInv calm (n + 1) s' := by
  obtain ⟨o, ho, e'⟩ := grow_eq (mx := mx) h hn hp ht
  rw [e'] at e
  injection e with _ e
  obtain ⟨o1, ho1, ha, hf, hou, hs, he, hl⟩ := h.hand hp
  rw [ho] at ho1; injection ho1 with ho1; subst ho1
  refine shift h ho ht e ?_ ?_ ?_ (fun _ _ => rfl) (fun _ _ => rfl) ?_
  · intro q hq
    simp [GObj.held, show ¬ p = q from fun e => hq e.symm]
  · simp only [List.count_append, List.count_singleton_self, GObj.held]; omega
  · simp only [List.length_append, List.length_singleton, GObj.held]; omega
  · intro E L hE hL
    exact ⟨fun _ => ⟨hf, hou, by omega, by simp, fun _ => by omega⟩, by simp [ha], by simp [ha]⟩

/-- Values that can be used are there. -/
theorem access_ok {th : GThread} (h : GraphInv calm n s) (ht : s.threads[t]? = some th) {p : Nat} (hp : s.access th p) :
    ∃ o, s.objs[p]? = some o ∧ o.alive = true ∧ o.freed = false ∧ o.outs = 0 ∧ s.looks.count p = 0 := by
  rcases hp with hp | hp
  · obtain ⟨o, ho, ha, hf, hou, -, -, hl⟩ := h.hand (hands_hc hp)
    exact ⟨o, ho, ha, hf, hou, hl⟩
  · obtain ⟨r, hp⟩ : ∃ r, th.ops = .fin p :: r := by
      cases h : th.ops with
      | nil => simp [h] at hp
      | cons a r => simp only [h, List.head?_cons, Option.some.injEq] at hp; exact ⟨r, by rw [hp]⟩
    have := GSys.thread_ends ht p
    simp only [hp, List.flatMap_cons, GOp.ends, List.count_append, List.count_singleton_self] at this
    obtain ⟨o, ho, ha, hf, hou, -, -, hl, -⟩ := h.ending (p := p) (by omega)
    exact ⟨o, ho, ha, hf, hou, hl⟩

theorem refs_eq {p : Nat} {o : GObj} (ho : s.objs[p]? = some o) : s.refs p = o.refs := by
  simp [GSys.refs, ho]

theorem refs_hc {p q : Nat} {o : GObj} (ho : s.objs[p]? = some o) (ha : o.alive = true) (hq : q ∈ o.refs) :
    0 < s.hc (· == q) := by
  have := GSys.obj_hc ho (· == q)
  have h2 : 0 < o.held.countP (· == q) := List.countP_pos_iff.2 ⟨q, by simp [GObj.held, ha, hq], by simp⟩
  omega

theorem count_erase_mem {l : List Nat} {p : Nat} (hp : p ∈ l) (P : Nat → Bool) :
    (l.erase p).countP P + (if P p then 1 else 0) = l.countP P := by
  have := (List.perm_cons_erase hp).countP_eq P
  rw [this, List.countP_cons]

/-- Objects and threads stay, and handles only change places. -/
theorem inv_hands {hands lost : List Nat} (h : GraphInv calm n s)
    (cons : ∀ P, hands.countP P + lost.countP P = s.hands.countP P + s.lost.countP P) :
    GraphInv calm (n + 1) { s with hands := hands, lost := lost } := by
  have H : ∀ P, ({ s with hands := hands, lost := lost } : GSys).hc P = s.hc P := by
    intro P; have := cons P; simp only [GSys.hc]; omega
  refine ⟨?_, ?_, h.live, h.dead, ?_, h.calm⟩
  · intro p o ho; rw [H]; exact h.cnt p o ho
  · intro p hp; rw [H] at hp; exact h.ref p hp
  · rw [H]; have := h.size; omega

theorem countP_diff {hs l : List Nat} (hsub : ∀ q ∈ hs, hs.count q ≤ l.count q) (P : Nat → Bool) :
    (l.diff hs).countP P + hs.countP P = l.countP P := by
  have : (l.diff hs ++ hs).Perm l := by
    rw [List.perm_iff_count]
    intro a
    have : hs.count a ≤ l.count a := by
      by_cases ha : a ∈ hs
      · exact hsub a ha
      · rw [List.count_eq_zero.2 ha]; omega
    rw [List.count_append, List.count_diff]; omega
  rw [← this.countP_eq P, List.countP_append]

/-- A new object. -/
theorem inv_new {hs : List Nat} (h : GraphInv calm n s) (hsub : ∀ q ∈ hs, hs.count q ≤ s.hands.count q) :
    GraphInv calm (n + 1) { s with
      objs := s.objs ++ [⟨1, 0, hs, true, 0, false⟩]
      hands := s.hands.diff hs ++ [s.objs.length] } := by
  have H : ∀ P, ({ s with
      objs := s.objs ++ [⟨1, 0, hs, true, 0, false⟩]
      hands := s.hands.diff hs ++ [s.objs.length] } : GSys).hc P = s.hc P + if P s.objs.length then 1 else 0 := by
    intro P
    have := countP_diff hsub P
    simp only [GSys.hc, List.flatMap_append, List.flatMap_cons, List.flatMap_nil, GObj.held, if_true, List.append_nil,
      List.countP_append, List.countP_cons, List.countP_nil]
    omega
  have hz : s.hc (· == s.objs.length) + s.ends.count s.objs.length + s.looks.count s.objs.length = 0 := by
    by_contra hc
    have := h.ref s.objs.length (by omega)
    omega
  have get : ∀ {q x}, (s.objs ++ [(⟨1, 0, hs, true, 0, false⟩ : GObj)])[q]? = some x →
      (q = s.objs.length ∧ x = ⟨1, 0, hs, true, 0, false⟩) ∨ (q ≠ s.objs.length ∧ s.objs[q]? = some x) := by
    intro q x hx
    rcases Nat.lt_trichotomy q s.objs.length with e | e | e
    · rw [List.getElem?_append_left e] at hx; exact .inr ⟨by omega, hx⟩
    · subst e; simp only [List.getElem?_concat_length, Option.some.injEq] at hx; exact .inl ⟨rfl, hx.symm⟩
    · rw [List.getElem?_eq_none (by simp; omega)] at hx; simp at hx
  refine ⟨?_, ?_, ?_, ?_, ?_, ?_⟩
  · intro p o ho
    rw [H]
    rcases get ho with ⟨rfl, rfl⟩ | ⟨hq, ho⟩
    · simp only [beq_self_eq_true, if_true]; omega
    · simp only [show (s.objs.length == p) = false by simpa using fun e => hq e.symm, Bool.false_eq_true, if_false]
      exact h.cnt p o ho
  · intro p hp
    rw [H] at hp
    simp only [List.length_append, List.length_singleton]
    by_cases e : s.objs.length = p
    · omega
    · simp only [show (s.objs.length == p) = false by simpa using e, Bool.false_eq_true, if_false] at hp
      have := h.ref p hp
      omega
  · intro p o ho ha
    rcases get ho with ⟨rfl, rfl⟩ | ⟨hq, ho⟩
    · exact ⟨rfl, rfl, show s.looks.count _ = 0 by omega, by simp, fun _ => show s.ends.count _ = 0 by omega⟩
    · exact h.live p o ho ha
  · intro p o ho ha
    rcases get ho with ⟨rfl, rfl⟩ | ⟨hq, ho⟩
    · simp at ha
    · exact h.dead p o ho ha
  · rw [H]; have := h.size; simp only [if_true]; omega
  · intro c p o ho ha
    rcases get ho with ⟨rfl, rfl⟩ | ⟨hq, ho⟩
    · simp at ha
    · exact h.calm c p o ho ha

/-- Calls keep the invariant, and touch nothing that is gone. -/
theorem inv_call {cmd : GCmd} {th : GThread} {grant : Bool} (h : GraphInv calm n s) (hn : n ≤ mx)
    (ht : s.threads[t]? = some th) (hleg : cmd.legal s th) :
    ∃ s', call mx t th.ops th.unwinding grant cmd s = .ok () s' ∧ GraphInv calm (n + 1) s' := by
  cases cmd with
  | new hs =>
    simp only [GCmd.legal] at hleg
    cases grant with
    | true => exact ⟨_, by simp only [call, if_true, M.modify_apply], inv_new h hleg⟩
    | false =>
      refine ⟨_, by simp only [call, Bool.false_eq_true, if_false, M.modify_apply]; rfl, inv_hands h ?_⟩
      intro P
      have := countP_diff hleg P
      simp only [List.countP_append]; omega
  | clone p =>
    obtain ⟨o, ho, e⟩ := grow_eq (mx := mx) h hn (hands_hc hleg) ht
    exact ⟨_, e, inv_grow h hn (hands_hc hleg) ht e⟩
  | cloneIn p q =>
    obtain ⟨hacc, hq⟩ := hleg
    obtain ⟨o, ho, ha, hf, -, -⟩ := access_ok h ht hacc
    rw [refs_eq ho] at hq
    have hq := refs_hc ho ha hq
    obtain ⟨o', ho', e⟩ := grow_eq (mx := mx) h hn hq ht
    exact ⟨_, by simp only [call, M.bind_apply, data_ok ho hf ha]; exact e, inv_grow h hn hq ht e⟩
  | store p q =>
    obtain ⟨hacc, hq⟩ := hleg
    obtain ⟨o, ho, ha, hf, hou, hl⟩ := access_ok h ht hacc
    have hlv := h.live p o ho ha
    refine ⟨_, by simp only [call, M.bind_apply, data_ok ho hf ha, put, M.modify_apply]; rfl, ?_⟩
    refine move (o' := { o with refs := o.refs ++ [q] }) (th' := th) (hands := s.hands.erase q) h ho ht
      (by simp only [GSys.upd, set_same ht]) ?_ rfl (fun _ _ => rfl) (fun _ _ => Nat.le_refl _) (fun _ _ _ => rfl) ?_
    · intro P
      have := count_erase_mem hq P
      simp only [GObj.held, ha, if_true, List.countP_append, List.countP_cons, List.countP_nil]; omega
    · intro E L hE hL
      obtain rfl : E = s.ends.count p := by omega
      obtain rfl : L = s.looks.count p := by omega
      exact ⟨fun _ => hlv, by simp [ha], by simp [ha]⟩
  | take p q =>
    obtain ⟨hacc, hq⟩ := hleg
    obtain ⟨o, ho, ha, hf, hou, hl⟩ := access_ok h ht hacc
    rw [refs_eq ho] at hq
    have hlv := h.live p o ho ha
    refine ⟨_, by simp only [call, M.bind_apply, data_ok ho hf ha, put, M.modify_apply]; rfl, ?_⟩
    refine move (o' := { o with refs := o.refs.erase q }) (th' := th) (hands := s.hands ++ [q]) h ho ht
      (by simp only [GSys.upd, set_same ht]) ?_ rfl (fun _ _ => rfl) (fun _ _ => Nat.le_refl _) (fun _ _ _ => rfl) ?_
    · intro P
      have := count_erase_mem hq P
      simp only [GObj.held, ha, if_true, List.countP_append, List.countP_cons, List.countP_nil]; omega
    · intro E L hE hL
      obtain rfl : E = s.ends.count p := by omega
      obtain rfl : L = s.looks.count p := by omega
      exact ⟨fun _ => hlv, by simp [ha], by simp [ha]⟩
  | downgrade p =>
    obtain ⟨o, ho, ha, hf, -⟩ := h.hand (hands_hc hleg)
    have hlv := h.live p o ho ha
    refine ⟨_, by simp only [call, M.bind_apply, obj_ok ho hf, put, M.modify_apply]; rfl, ?_⟩
    refine move (o' := { o with weak := o.weak + 1 }) (th' := th) (hands := s.hands) h ho ht
      (by simp only [GSys.upd, set_same ht]) ?_ rfl (fun _ _ => rfl) (fun _ _ => Nat.le_refl _) (fun _ _ _ => rfl) ?_
    · intro P; rfl
    · intro E L hE hL
      obtain rfl : E = s.ends.count p := by omega
      obtain rfl : L = s.looks.count p := by omega
      exact ⟨fun _ => hlv, by simp [ha], by simp [ha]⟩
  | drop p =>
    obtain ⟨o, ho, ha, hf, -⟩ := h.hand (hands_hc hleg)
    have hlv := h.live p o ho ha
    refine ⟨_, by simp only [call, M.bind_apply, go, M.modify_apply]; rfl, ?_⟩
    refine move (o' := o) (th' := ⟨.sub p :: th.ops, th.unwinding && !(GOp.sub p :: th.ops).isEmpty⟩)
      (hands := s.hands.erase p) h ho ht
      (by simp only [GSys.upd, set_same ho]) ?_ rfl ?_ ?_ ?_ ?_
    · intro P
      have := count_erase_mem hleg P
      simp only [List.flatMap_cons, GOp.subs, List.countP_append, List.countP_cons, List.countP_nil]; omega
    · intro q _; simp [GOp.ends]
    · intro q _; simp [GOp.looks]
    · intro _ q _; simp [GOp.looks]
    · intro E L hE hL
      simp only [List.flatMap_cons, GOp.ends, GOp.looks, List.nil_append] at hE hL
      obtain rfl : E = s.ends.count p := by omega
      obtain rfl : L = s.looks.count p := by omega
      exact ⟨fun _ => hlv, by simp [ha], by simp [ha]⟩
  | unwrap p =>
    obtain ⟨o, ho, ha, hf, hou, hs, he, hl⟩ := h.hand (hands_hc hleg)
    by_cases h1 : o.strong = 1
    · refine ⟨_, by simp only [call, M.bind_apply, obj_ok ho hf, h1, if_true, put, go, M.modify_apply]; rfl, ?_⟩
      have hce := count_erase_mem hleg
      refine shift (o' := { o with strong := 0 }) (th' := ⟨.unw p :: th.ops, th.unwinding && !(GOp.unw p :: th.ops).isEmpty⟩)
        (hands := s.hands.erase p) h ho ht rfl ?_ ?_ ?_ ?_ ?_ ?_
      · intro q hq
        have := hce (· == q)
        simp only [show (p == q) = false by simpa using fun e => hq e.symm, Bool.false_eq_true, if_false] at this
        simp only [List.flatMap_cons, GOp.subs, List.nil_append, List.count, GObj.held]; omega
      · have := hce (· == p)
        simp only [beq_self_eq_true, if_true] at this
        simp only [List.flatMap_cons, GOp.subs, List.nil_append, List.count, GObj.held]; omega
      · have := hce (fun _ => true)
        simp only [if_true, List.countP_true] at this
        simp only [List.flatMap_cons, GOp.subs, List.nil_append, GObj.held]; omega
      · intro q hq; simp [GOp.ends, show ¬ p = q from fun e => hq e.symm]
      · intro q hq; simp [GOp.looks]
      · intro E L hE hL
        simp only [List.flatMap_cons, GOp.ends, GOp.looks, List.nil_append, List.count_append,
          List.count_singleton_self] at hE hL
        exact ⟨fun _ => ⟨hf, hou, by omega, fun _ => by omega, by simp⟩, by simp [ha], by simp [ha]⟩
    · refine ⟨s, by simp only [call, M.bind_apply, obj_ok ho hf, h1, if_false, M.pure_apply], ?_⟩
      exact inv_hands (hands := s.hands) (lost := s.lost) h (fun _ => rfl)
  | forget p =>
    refine ⟨_, by simp only [call, M.modify_apply]; rfl, inv_hands h ?_⟩
    intro P
    have := count_erase_mem hleg P
    simp only [List.countP_append, List.countP_cons, List.countP_nil]; omega

/-- Steps touch nothing that is gone. -/
theorem step_fine {op : GOp} (h : GraphInv calm n s) (ht : s.threads[t]? = some ⟨op :: r, u⟩) :
    (∃ s', step mx t r u boom op s = .ok () s') ∨ step mx t r u boom op s = .abort ∧ u = true ∧ boom = true := by
  have h1 := GSys.thread_hc ht
  have h2 := GSys.thread_ends ht
  have h3 := GSys.thread_looks ht
  cases op with
  | sub p =>
    have := h1 (· == p)
    simp only [List.flatMap_cons, GOp.subs, List.countP_append, List.countP_cons, beq_self_eq_true, if_true,
      List.countP_nil] at this
    obtain ⟨o, ho, ha, hf, -⟩ := h.hand (p := p) (by omega)
    exact .inl ⟨_, step_sub ho hf⟩
  | fin p =>
    have := h2 p
    simp only [List.flatMap_cons, GOp.ends, List.count_append, List.count_singleton_self] at this
    obtain ⟨o, ho, ha, hf, -⟩ := h.ending (p := p) (by omega)
    have hd := data_ok ho hf ha
    cases boom <;> cases u <;> simp only [step, M.bind_apply, hd, put, go, M.modify_apply, Bool.false_eq_true, if_true, if_false]
    · exact .inl ⟨_, rfl⟩
    · exact .inl ⟨_, rfl⟩
    · exact .inl ⟨_, rfl⟩
    · exact .inr (by simp)
  | glue p =>
    have := h2 p
    simp only [List.flatMap_cons, GOp.ends, List.count_append, List.count_singleton_self] at this
    obtain ⟨o, ho, ha, hf, -⟩ := h.ending (p := p) (by omega)
    simp [step, M.bind_apply, data_ok ho hf ha, put, go]
  | look p =>
    have := h3 p
    simp only [List.flatMap_cons, GOp.looks, List.count_append, List.count_singleton_self] at this
    obtain ⟨o, ho, ha, hf, -⟩ := h.looking (p := p) (by omega)
    simp [step, M.bind_apply, obj_ok ho hf, go]
  | free p =>
    have := h3 p
    simp only [List.flatMap_cons, GOp.looks, List.count_append, List.count_singleton_self] at this
    obtain ⟨o, ho, ha, hf, -⟩ := h.looking (p := p) (by omega)
    simp [step, M.bind_apply, obj_ok ho hf, put, go]
  | unw p =>
    have := h2 p
    simp only [List.flatMap_cons, GOp.ends, List.count_append, List.count_singleton_self] at this
    obtain ⟨o, ho, ha, hf, -⟩ := h.ending (p := p) (by omega)
    simp [step, M.bind_apply, data_ok ho hf ha, put, go]

end Graph

/-! ## What else steps do -/

/-- How many steps are left at most. -/
def GOp.wt : GOp → Nat
  | .sub _ | .look _ => 2
  | _ => 1

/-- How many steps it takes at most to drop the value. -/
def GObj.pot (o : GObj) : Nat := if o.alive then 2 * o.refs.length + 2 else 0

/-- A bound of the number of steps that threads make without beginning new calls. -/
def GSys.bound (s : GSys) : Nat :=
  (s.objs.map GObj.pot).sum + (s.threads.map fun th => (th.ops.map GOp.wt).sum).sum

/-- No destructor was left by a panic. -/
def GSys.Smooth (s : GSys) : Prop := ∀ (t : Nat) (th : GThread), s.threads[t]? = some th → ∀ p, GOp.glue p ∉ th.ops

/-- Values hold only handles of objects that were made before. -/
def GSys.Ordered (s : GSys) : Prop := ∀ (p : Nat) (o : GObj), s.objs[p]? = some o → ∀ q ∈ o.refs, q < p

theorem sum_map_set {β : Type} (f : β → Nat) {l : List β} {i : Nat} {a : β} (b : β) (h : l[i]? = some a) :
    ((l.set i b).map f).sum + f a = (l.map f).sum + f b := by
  induction l generalizing i with
  | nil => simp at h
  | cons x l ih =>
    cases i with
    | zero =>
      simp only [List.getElem?_cons_zero, Option.some.injEq] at h
      subst h
      simp only [List.set_cons_zero, List.map_cons, List.sum_cons]; omega
    | succ i =>
      simp only [List.getElem?_cons_succ] at h
      have := ih h
      simp only [List.set_cons_succ, List.map_cons, List.sum_cons]; omega

namespace Graph
variable {calm : Prop} {mx n : Nat} {s s' : GSys} {t : Nat} {r : List GOp} {u boom : Bool}

theorem wt_subs (l : List Nat) : ((l.map GOp.sub).map GOp.wt).sum = 2 * l.length := by
  induction l with
  | nil => rfl
  | cons a l ih =>
    simp only [List.map_cons, List.sum_cons, GOp.wt, List.length_cons] at ih ⊢; omega

theorem wt_unwound (l : List GOp) : ((unwound l).map GOp.wt).sum ≤ (l.map GOp.wt).sum := by
  induction l with
  | nil => simp [unwound]
  | cons a l ih => cases a <;> simp only [unwound, List.map_cons, List.sum_cons, GOp.wt] <;> omega

/-- Every step changes one object and one thread; the value holds what it held; there are fewer steps left. -/
theorem step_shape {op : GOp} (h : GraphInv calm n s) (ht : s.threads[t]? = some ⟨op :: r, u⟩)
    (e : step mx t r u boom op s = .ok () s') :
    ∃ p o o' th' hands, s.objs[p]? = some o ∧ s' = s.upd p o' t th' hands ∧ o'.refs = o.refs ∧
      (boom = false → (∀ q, GOp.glue q ∉ op :: r) → ∀ q, GOp.glue q ∉ th'.ops) ∧
      o'.pot + (th'.ops.map GOp.wt).sum < o.pot + ((op :: r).map GOp.wt).sum := by
  have h1 := GSys.thread_hc ht
  have h2 := GSys.thread_ends ht
  have h3 := GSys.thread_looks ht
  cases op with
  | sub p =>
    have := h1 (· == p)
    simp only [List.flatMap_cons, GOp.subs, List.countP_append, List.countP_cons, beq_self_eq_true, if_true,
      List.countP_nil] at this
    obtain ⟨o, ho, ha, hf, -⟩ := h.hand (p := p) (by omega)
    rw [step_sub ho hf] at e
    injection e with _ e
    refine ⟨p, o, _, _, _, ho, e.symm, rfl, ?_, ?_⟩
    · intro _ hg q
      simp only [List.mem_cons, not_or] at hg
      split <;> simp [hg]
    · simp only [GObj.pot, List.map_cons, List.sum_cons, GOp.wt]
      by_cases h1 : o.strong = 1
      · simp only [h1, if_true, List.map_cons, List.sum_cons, GOp.wt]; omega
      · simp only [h1, if_false]; omega
  | fin p =>
    have := h2 p
    simp only [List.flatMap_cons, GOp.ends, List.count_append, List.count_singleton_self] at this
    obtain ⟨o, ho, ha, hf, -⟩ := h.ending (p := p) (by omega)
    simp only [step, M.bind_apply, data_ok ho hf ha, put, go] at e
    cases boom with
    | false =>
      simp only [Bool.false_eq_true, if_false, M.bind_apply, M.modify_apply] at e
      injection e with _ e
      refine ⟨p, o, { o with alive := false, outs := o.outs + 1 },
        ⟨o.refs.map GOp.sub ++ .look p :: r, u && !(o.refs.map GOp.sub ++ .look p :: r).isEmpty⟩, s.hands, ho, e.symm, rfl, ?_, ?_⟩
      · intro _ hg q
        simp only [List.mem_cons, not_or] at hg
        simp [hg]
      · have := wt_subs o.refs
        simp only [GObj.pot, ha, if_true, Bool.false_eq_true, if_false, List.map_append, List.sum_append, List.map_cons,
          List.sum_cons, this, GOp.wt]
        omega
    | true =>
      cases u with
      | true => simp at e
      | false =>
        simp only [Bool.false_eq_true, if_true, if_false] at e
        injection e with _ e
        refine ⟨p, o, { o with alive := false, outs := o.outs + 1 },
          ⟨o.refs.map GOp.sub ++ unwound r, true && !(o.refs.map GOp.sub ++ unwound r).isEmpty⟩, s.hands, ho, e.symm, rfl,
          by simp, ?_⟩
        have := wt_subs o.refs
        have := wt_unwound r
        simp only [GObj.pot, ha, if_true, Bool.false_eq_true, if_false, List.map_append, List.sum_append, List.map_cons,
          List.sum_cons, GOp.wt]
        omega
  | glue p =>
    have := h2 p
    simp only [List.flatMap_cons, GOp.ends, List.count_append, List.count_singleton_self] at this
    obtain ⟨o, ho, ha, hf, -⟩ := h.ending (p := p) (by omega)
    simp only [step, M.bind_apply, data_ok ho hf ha, put, go, M.modify_apply] at e
    injection e with _ e
    refine ⟨p, o, { o with alive := false, outs := o.outs + 1 },
      ⟨o.refs.map GOp.sub ++ r, u && !(o.refs.map GOp.sub ++ r).isEmpty⟩, s.hands, ho, e.symm, rfl, ?_, ?_⟩
    · intro _ hg
      exact absurd List.mem_cons_self (hg p)
    · have := wt_subs o.refs
      simp only [GObj.pot, ha, if_true, Bool.false_eq_true, if_false, List.map_append, List.sum_append, List.map_cons,
        List.sum_cons, this, GOp.wt]
      omega
  | look p =>
    have := h3 p
    simp only [List.flatMap_cons, GOp.looks, List.count_append, List.count_singleton_self] at this
    obtain ⟨o, ho, ha, hf, -⟩ := h.looking (p := p) (by omega)
    simp only [step, M.bind_apply, obj_ok ho hf, go, M.modify_apply] at e
    injection e with _ e
    refine ⟨p, o, o, ⟨if o.weak = 0 then .free p :: r else r, u && !(if o.weak = 0 then GOp.free p :: r else r).isEmpty⟩,
      s.hands, ho, by rw [← e]; simp only [GSys.upd, set_same ho], rfl, ?_, ?_⟩
    · intro _ hg q
      simp only [List.mem_cons, not_or] at hg
      split <;> simp [hg]
    · simp only [List.map_cons, List.sum_cons, GOp.wt]
      by_cases h1 : o.weak = 0
      · simp only [h1, if_true, List.map_cons, List.sum_cons, GOp.wt]; omega
      · simp only [h1, if_false]; omega
  | free p =>
    have := h3 p
    simp only [List.flatMap_cons, GOp.looks, List.count_append, List.count_singleton_self] at this
    obtain ⟨o, ho, ha, hf, -⟩ := h.looking (p := p) (by omega)
    simp only [step, M.bind_apply, obj_ok ho hf, put, go, M.modify_apply] at e
    injection e with _ e
    refine ⟨p, o, { o with freed := true }, ⟨r, u && !r.isEmpty⟩, s.hands, ho, e.symm, rfl, ?_, ?_⟩
    · intro _ hg q
      simp only [List.mem_cons, not_or] at hg
      exact (hg q).2
    · simp only [GObj.pot, List.map_cons, List.sum_cons, GOp.wt]
      omega
  | unw p =>
    have := h2 p
    simp only [List.flatMap_cons, GOp.ends, List.count_append, List.count_singleton_self] at this
    obtain ⟨o, ho, ha, hf, -⟩ := h.ending (p := p) (by omega)
    simp only [step, M.bind_apply, data_ok ho hf ha, put, go, M.modify_apply] at e
    injection e with _ e
    refine ⟨p, o, { o with alive := false, outs := o.outs + 1 }, ⟨.look p :: r, u && !(GOp.look p :: r).isEmpty⟩,
      s.hands ++ o.refs, ho, e.symm, rfl, ?_, ?_⟩
    · intro _ hg q
      simp only [List.mem_cons, not_or] at hg
      simp [hg]
    · simp only [GObj.pot, ha, if_true, Bool.false_eq_true, if_false, List.map_cons, List.sum_cons, GOp.wt]
      omega

theorem step_bound {op : GOp} (h : GraphInv calm n s) (ht : s.threads[t]? = some ⟨op :: r, u⟩)
    (e : step mx t r u boom op s = .ok () s') : s'.bound < s.bound := by
  obtain ⟨p, o, o', th', hands, ho, rfl, -, -, hm⟩ := step_shape h ht e
  have h1 := sum_map_set GObj.pot o' ho
  have h2 := sum_map_set (fun th : GThread => (th.ops.map GOp.wt).sum) th' ht
  simp only [GSys.bound, GSys.upd] at *
  omega

theorem upd_smooth {p : Nat} {o' : GObj} {th' : GThread} {hands : List Nat} (h : s.Smooth)
    (hg : ∀ q, GOp.glue q ∉ th'.ops) : (s.upd p o' t th' hands).Smooth := by
  intro t' th ht
  simp only [GSys.upd, List.getElem?_set] at ht
  split at ht
  · split at ht
    · injection ht with ht; subst ht; exact hg
    · simp at ht
  · exact h t' th ht

theorem upd_ordered {p : Nat} {o o' : GObj} {th' : GThread} {hands : List Nat} (h : s.Ordered)
    (ho : s.objs[p]? = some o) (hr : ∀ q ∈ o'.refs, q ∈ o.refs) : (s.upd p o' t th' hands).Ordered := by
  intro p' x hx
  simp only [GSys.upd, List.getElem?_set] at hx
  split at hx
  · rename_i e
    split at hx
    · injection hx with hx; subst hx; subst e; exact fun q hq => h p o ho q (hr q hq)
    · simp at hx
  · exact h p' x hx

theorem call_smooth {cmd : GCmd} {th : GThread} {grant : Bool} (h : GraphInv calm n s) (hn : n ≤ mx)
    (ht : s.threads[t]? = some th) (hleg : cmd.legal s th)
    (e : call mx t th.ops th.unwinding grant cmd s = .ok () s') :
    (s.Smooth → s'.Smooth) ∧ (cmd.stores = false → s.Ordered → s'.Ordered) := by
  have h0 := fun hs : s.Smooth => hs t th ht
  cases cmd with
  | new hs' =>
    cases grant with
    | true =>
      simp only [call, if_true, M.modify_apply] at e
      injection e with _ e
      subst e
      refine ⟨fun hs => hs, fun _ ho p x hx => ?_⟩
      rcases Nat.lt_trichotomy p s.objs.length with e | e | e
      · rw [List.getElem?_append_left e] at hx; exact ho p x hx
      · subst e
        simp only [List.getElem?_concat_length, Option.some.injEq] at hx
        subst hx
        intro q hq
        have h1 : 0 < hs'.count q := List.count_pos_iff.2 hq
        have h2 := hleg q hq
        exact h.ref q (by have := hands_hc (s := s) (p := q) (List.count_pos_iff.1 (by omega)); omega)
      · rw [List.getElem?_eq_none (by simp; omega)] at hx; simp at hx
    | false =>
      simp only [call, Bool.false_eq_true, if_false, M.modify_apply] at e
      injection e with _ e
      subst e
      exact ⟨fun hs => hs, fun _ ho => ho⟩
  | clone p =>
    obtain ⟨o, ho, e'⟩ := grow_eq (mx := mx) h hn (hands_hc hleg) ht
    simp only [call] at e
    rw [e'] at e; injection e with _ e; subst e
    exact ⟨fun hs => upd_smooth hs (h0 hs), fun _ hor => upd_ordered hor ho (fun _ hq => hq)⟩
  | cloneIn p q =>
    obtain ⟨hacc, hq⟩ := hleg
    obtain ⟨o, ho, ha, hf, -, -⟩ := access_ok h ht hacc
    rw [refs_eq ho] at hq
    have hq := refs_hc ho ha hq
    obtain ⟨o', ho', e'⟩ := grow_eq (mx := mx) h hn hq ht
    simp only [call, M.bind_apply, data_ok ho hf ha] at e
    rw [e'] at e; injection e with _ e; subst e
    exact ⟨fun hs => upd_smooth hs (h0 hs), fun _ hor => upd_ordered hor ho' (fun _ hq => hq)⟩
  | store p q =>
    obtain ⟨hacc, hq⟩ := hleg
    obtain ⟨o, ho, ha, hf, hou, hl⟩ := access_ok h ht hacc
    simp only [call, M.bind_apply, data_ok ho hf ha, put, M.modify_apply] at e
    injection e with _ e; subst e
    exact ⟨fun hs => hs, fun hc => by simp [GCmd.stores] at hc⟩
  | take p q =>
    obtain ⟨hacc, hq⟩ := hleg
    obtain ⟨o, ho, ha, hf, hou, hl⟩ := access_ok h ht hacc
    rw [refs_eq ho] at hq
    simp only [call, M.bind_apply, data_ok ho hf ha, put, M.modify_apply] at e
    injection e with _ e; subst e
    refine ⟨fun hs => hs, fun _ hor => ?_⟩
    have := upd_ordered (t := t) (th' := th) (o' := { o with refs := o.refs.erase q }) (hands := s.hands ++ [q]) hor ho
      (fun _ hx => List.mem_of_mem_erase hx)
    simpa only [GSys.upd, set_same ht] using this
  | downgrade p =>
    obtain ⟨o, ho, ha, hf, -⟩ := h.hand (hands_hc hleg)
    simp only [call, M.bind_apply, obj_ok ho hf, put, M.modify_apply] at e
    injection e with _ e; subst e
    refine ⟨fun hs => hs, fun _ hor => ?_⟩
    have := upd_ordered (t := t) (th' := th) (o' := { o with weak := o.weak + 1 }) (hands := s.hands) hor ho
      (fun _ hx => hx)
    simpa only [GSys.upd, set_same ht] using this
  | drop p =>
    obtain ⟨o, ho, -⟩ := h.hand (hands_hc hleg)
    simp only [call, M.bind_apply, go, M.modify_apply] at e
    injection e with _ e; subst e
    refine ⟨fun hs => ?_, fun _ hor => hor⟩
    have := upd_smooth (t := t) (p := p) (o' := o) (hands := s.hands.erase p)
      (th' := ⟨.sub p :: th.ops, th.unwinding && !(GOp.sub p :: th.ops).isEmpty⟩) hs (by simpa using h0 hs)
    simpa only [GSys.upd, set_same ho] using this
  | unwrap p =>
    obtain ⟨o, ho, ha, hf, hou, hs', he, hl⟩ := h.hand (hands_hc hleg)
    by_cases h1 : o.strong = 1
    · simp only [call, M.bind_apply, obj_ok ho hf, h1, if_true, put, go, M.modify_apply] at e
      injection e with _ e; subst e
      refine ⟨fun hs => ?_, fun _ hor => ?_⟩
      · exact upd_smooth (t := t) (p := p) (o' := { o with strong := 0 }) (hands := s.hands.erase p)
          (th' := ⟨.unw p :: th.ops, th.unwinding && !(GOp.unw p :: th.ops).isEmpty⟩) hs (by simpa using h0 hs)
      · exact upd_ordered (t := t) (p := p) (o' := { o with strong := 0 }) (hands := s.hands.erase p)
          (th' := ⟨.unw p :: th.ops, th.unwinding && !(GOp.unw p :: th.ops).isEmpty⟩) hor ho (fun _ hx => hx)
    · simp only [call, M.bind_apply, obj_ok ho hf, h1, if_false, M.pure_apply] at e
      injection e with _ e; subst e
      exact ⟨fun hs => hs, fun _ hor => hor⟩
  | forget p =>
    simp only [call, M.modify_apply] at e
    injection e with _ e; subst e
    exact ⟨fun hs => hs, fun _ hor => hor⟩

end Graph

/-! ## All runs -/

variable {mx n : Nat} {calm fixed : Prop} {s s' : GSys}

theorem GraphInv.start (calm : Prop) (k : Nat) : GraphInv calm 0 (GSys.start k) := by
  have hc : ∀ P, (GSys.start k).hc P = 0 := by
    intro P; simp [GSys.hc, GSys.start]
  refine ⟨by simp [GSys.start], ?_, by simp [GSys.start], by simp [GSys.start], by simp [hc], by simp [GSys.start]⟩
  intro p hp
  have E : ∀ f : GOp → List Nat, ((List.replicate k (⟨[], false⟩ : GThread)).flatMap fun th => th.ops.flatMap f) = [] := by
    intro f
    rw [List.flatMap_eq_nil_iff]
    intro x hx
    rw [(List.mem_replicate.1 hx).2]; rfl
  rw [hc] at hp
  simp only [GSys.ends, GSys.looks, GSys.start, E, List.count_nil] at hp
  omega

theorem GReaches.all (h : GReaches mx calm fixed n s) (hn : n ≤ mx + 1) :
    GraphInv calm n s ∧ (calm → s.Smooth) ∧ (fixed → s.Ordered) := by
  induction h with
  | start k =>
    refine ⟨GraphInv.start calm k, fun _ t th ht => ?_, fun _ p o ho => by simp [GSys.start] at ho⟩
    simp only [GSys.start, List.getElem?_replicate] at ht
    split at ht
    · injection ht with ht; subst ht; simp
    · simp at ht
  | step _ st ih =>
    obtain ⟨hi, hs, ho⟩ := ih (by omega)
    cases st with
    | call t grant cmd ht hcl hleg e hg hfx =>
      obtain ⟨s1, e1, h1⟩ := Graph.inv_call (mx := mx) (grant := grant) hi (by omega) ht hleg
      rw [e] at e1; injection e1 with _ e1; subst e1
      have := Graph.call_smooth hi (by omega) ht hleg e
      exact ⟨h1, fun c => this.1 (hs c), fun f => this.2 (hfx f) (ho f)⟩
    | run t boom ht e hb =>
      rename_i op r u
      obtain ⟨p, o, o', th', hands, hob, es, hr, hg, -⟩ := Graph.step_shape hi ht e
      refine ⟨?_, fun c => ?_, fun f => ?_⟩
      · cases op with
        | sub p => exact Graph.inv_sub hi ht e
        | fin p => exact Graph.inv_fin hi ht hb e
        | glue p =>
          exact Graph.inv_glue hi ht (fun c => hs c t _ ht p List.mem_cons_self) e
        | look p => exact Graph.inv_look hi ht e
        | free p => exact Graph.inv_free hi ht e
        | unw p => exact Graph.inv_unw hi ht e
      · subst es
        exact Graph.upd_smooth (hs c) (hg (hb c) (hs c t _ ht))
      · subst es
        exact Graph.upd_ordered (ho f) hob (fun q hq => hr ▸ hq)

end Lokky
