import Verif.Model.ArcGraph
import Verif.Proofs.Basic
import Mathlib.Data.List.Count
import Mathlib.Tactic.ByContra

/-! The invariant of `Arc`s that hold `Arc`s. -/

namespace Lokky

/-! ## Where the handles are -/

/-- Handles that are about to be dropped. -/
def GOp.subs : GOp → List Nat
  | .sub p => [p]
  | _ => []

/-- Objects without handles whose value is about to go. -/
def GOp.ends : GOp → List Nat
  | .fin p | .glue p | .unw p => [p]
  | _ => []

/-- Objects without value whose memory may be about to go. -/
def GOp.looks : GOp → List Nat
  | .look p | .free p => [p]
  | _ => []

/-- The handles in the value, while it is there. -/
def GObj.held (o : GObj) : List Nat := if o.alive then o.refs else []

/-- All handles that satisfy `P`. -/
def GSys.hc (s : GSys) (P : Nat → Bool) : Nat :=
  s.hands.countP P + s.lost.countP P + (s.objs.flatMap GObj.held).countP P +
    (s.threads.flatMap fun th => th.ops.flatMap GOp.subs).countP P

def GSys.ends (s : GSys) : List Nat := s.threads.flatMap fun th => th.ops.flatMap GOp.ends
def GSys.looks (s : GSys) : List Nat := s.threads.flatMap fun th => th.ops.flatMap GOp.looks

theorem countP_flatMap_set {β γ : Type} (f : β → List γ) (P : γ → Bool) {l : List β} {i : Nat} {a : β} (b : β)
    (h : l[i]? = some a) :
    ((l.set i b).flatMap f).countP P + (f a).countP P = (l.flatMap f).countP P + (f b).countP P := by
  induction l generalizing i with
  | nil => simp at h
  | cons x l ih =>
    cases i with
    | zero =>
      simp only [List.getElem?_cons_zero, Option.some.injEq] at h
      subst h
      simp only [List.set_cons_zero, List.flatMap_cons, List.countP_append]; omega
    | succ i =>
      simp only [List.getElem?_cons_succ] at h
      have := ih h
      simp only [List.set_cons_succ, List.flatMap_cons, List.countP_append]; omega

/-- Objects and threads are as they can be after `n` steps. `calm`: no memory was abandoned. -/
structure GraphInv (calm : Prop) (n : Nat) (s : GSys) : Prop where
  cnt : ∀ p o, s.objs[p]? = some o → o.strong = s.hc (· == p)
  ref : ∀ p, 0 < s.hc (· == p) + s.ends.count p + s.looks.count p → p < s.objs.length
  live : ∀ p o, s.objs[p]? = some o → o.alive = true → o.freed = false ∧ o.outs = 0 ∧ s.looks.count p = 0 ∧
    (o.strong = 0 → s.ends.count p = 1) ∧ (0 < o.strong → s.ends.count p = 0)
  dead : ∀ p o, s.objs[p]? = some o → o.alive = false → o.strong = 0 ∧ o.outs = 1 ∧ s.ends.count p = 0 ∧
    s.looks.count p ≤ 1 ∧ (o.freed = true → s.looks.count p = 0)
  size : s.hc (fun _ => true) ≤ n
  calm : calm → ∀ p o, s.objs[p]? = some o → o.alive = false → o.weak = 0 → o.freed = true ∨ s.looks.count p = 1

/-! ## Changing one object and one thread -/

/-- Another object `p`, another thread `t`, and other hands. -/
def GSys.upd (s : GSys) (p : Nat) (o : GObj) (t : Nat) (th : GThread) (hands : List Nat) : GSys :=
  { s with objs := s.objs.set p o, threads := s.threads.set t th, hands := hands }

section
variable {s : GSys} {p t : Nat} {o o' : GObj} {th th' : GThread} {hands : List Nat}

theorem GSys.upd_hc (ho : s.objs[p]? = some o) (ht : s.threads[t]? = some th) (P : Nat → Bool) :
    (s.upd p o' t th' hands).hc P + s.hands.countP P + o.held.countP P + (th.ops.flatMap GOp.subs).countP P =
      s.hc P + hands.countP P + o'.held.countP P + (th'.ops.flatMap GOp.subs).countP P := by
  have h1 := countP_flatMap_set GObj.held P o' ho
  have h2 := countP_flatMap_set (fun th : GThread => th.ops.flatMap GOp.subs) P th' ht
  simp only [GSys.hc, GSys.upd] at *
  omega

theorem GSys.upd_ends (ht : s.threads[t]? = some th) (q : Nat) :
    (s.upd p o' t th' hands).ends.count q + (th.ops.flatMap GOp.ends).count q =
      s.ends.count q + (th'.ops.flatMap GOp.ends).count q :=
  countP_flatMap_set (fun th : GThread => th.ops.flatMap GOp.ends) (· == q) th' ht

theorem GSys.upd_looks (ht : s.threads[t]? = some th) (q : Nat) :
    (s.upd p o' t th' hands).looks.count q + (th.ops.flatMap GOp.looks).count q =
      s.looks.count q + (th'.ops.flatMap GOp.looks).count q :=
  countP_flatMap_set (fun th : GThread => th.ops.flatMap GOp.looks) (· == q) th' ht

/-- What to check when one object and one thread change. -/
theorem GraphInv.upd {calm : Prop} {n : Nat} (h : GraphInv calm n s) (ho : s.objs[p]? = some o) (ht : s.threads[t]? = some th)
    {s' : GSys} (es : s' = s.upd p o' t th' hands)
    (hc : ∀ q, q ≠ p → s'.hc (· == q) = s.hc (· == q))
    (hcp : o'.strong = s'.hc (· == p))
    (he : ∀ q, q ≠ p → s'.ends.count q = s.ends.count q)
    (hl : ∀ q, q ≠ p → s'.looks.count q ≤ s.looks.count q)
    (hlc : calm → ∀ q, q ≠ p → s'.looks.count q = s.looks.count q)
    (live : o'.alive = true → o'.freed = false ∧ o'.outs = 0 ∧ s'.looks.count p = 0 ∧
      (o'.strong = 0 → s'.ends.count p = 1) ∧ (0 < o'.strong → s'.ends.count p = 0))
    (dead : o'.alive = false → o'.strong = 0 ∧ o'.outs = 1 ∧ s'.ends.count p = 0 ∧
      s'.looks.count p ≤ 1 ∧ (o'.freed = true → s'.looks.count p = 0))
    (size : s'.hc (fun _ => true) ≤ n + 1)
    (cal : calm → o'.alive = false → o'.weak = 0 → o'.freed = true ∨ s'.looks.count p = 1) :
    GraphInv calm (n + 1) s' := by
  have hp : p < s.objs.length := List.getElem?_eq_some_iff.1 ho |>.1
  have get : ∀ {q x}, s'.objs[q]? = some x → (q = p ∧ x = o') ∨ (q ≠ p ∧ s.objs[q]? = some x) := by
    intro q x hx
    subst es
    simp only [GSys.upd, List.getElem?_set] at hx
    by_cases e : p = q
    · subst e; simp only [↓reduceIte, hp, Option.some.injEq] at hx; exact .inl ⟨rfl, hx.symm⟩
    · simp only [e, ↓reduceIte] at hx; exact .inr ⟨fun e' => e e'.symm, hx⟩
  refine ⟨?_, ?_, ?_, ?_, size, ?_⟩
  · intro q x hx
    rcases get hx with ⟨rfl, rfl⟩ | ⟨hq, hx⟩
    · exact hcp
    · rw [hc q hq]; exact h.cnt q x hx
  · intro q hq
    have el : s'.objs.length = s.objs.length := by subst es; simp [GSys.upd]
    rw [el]
    by_cases e : q = p
    · subst e; exact hp
    · have := hl q e
      rw [hc q e, he q e] at hq
      exact h.ref q (by omega)
  · intro q x hx ha
    rcases get hx with ⟨rfl, rfl⟩ | ⟨hq, hx⟩
    · exact live ha
    · have := hl q hq
      have h' := h.live q x hx ha
      rw [he q hq]
      exact ⟨h'.1, h'.2.1, by omega, h'.2.2.2⟩
  · intro q x hx ha
    rcases get hx with ⟨rfl, rfl⟩ | ⟨hq, hx⟩
    · exact dead ha
    · have := hl q hq
      have h' := h.dead q x hx ha
      rw [he q hq]
      exact ⟨h'.1, h'.2.1, h'.2.2.1, by omega, fun hf => by have := h'.2.2.2.2 hf; omega⟩
  · intro c q x hx ha hw
    rcases get hx with ⟨rfl, rfl⟩ | ⟨hq, hx⟩
    · exact cal c ha hw
    · rw [hlc c q hq]; exact h.calm c q x hx ha hw

end

/-! ## What the invariant says -/

section
variable {calm : Prop} {n : Nat} {s : GSys} {t p : Nat} {th : GThread}

theorem GSys.thread_hc (ht : s.threads[t]? = some th) (P : Nat → Bool) :
    (th.ops.flatMap GOp.subs).countP P ≤ s.hc P := by
  have := countP_flatMap_set (fun th : GThread => th.ops.flatMap GOp.subs) P ⟨[], false⟩ ht
  simp only [List.flatMap_nil, List.countP_nil] at this
  simp only [GSys.hc]; omega

theorem GSys.thread_ends (ht : s.threads[t]? = some th) (q : Nat) :
    (th.ops.flatMap GOp.ends).count q ≤ s.ends.count q := by
  have := countP_flatMap_set (fun th : GThread => th.ops.flatMap GOp.ends) (· == q) ⟨[], false⟩ ht
  simp only [List.flatMap_nil, List.countP_nil] at this
  simp only [GSys.ends, List.count]; omega

theorem GSys.thread_looks (ht : s.threads[t]? = some th) (q : Nat) :
    (th.ops.flatMap GOp.looks).count q ≤ s.looks.count q := by
  have := countP_flatMap_set (fun th : GThread => th.ops.flatMap GOp.looks) (· == q) ⟨[], false⟩ ht
  simp only [List.flatMap_nil, List.countP_nil] at this
  simp only [GSys.looks, List.count]; omega

theorem GSys.obj_hc {o : GObj} (ho : s.objs[p]? = some o) (P : Nat → Bool) : o.held.countP P ≤ s.hc P := by
  have := countP_flatMap_set GObj.held P ⟨0, 0, [], false, 0, false⟩ ho
  simp only [GObj.held, List.countP_nil, Bool.false_eq_true, ↓reduceIte] at this ⊢
  simp only [GSys.hc, GObj.held]; omega

theorem hands_hc (hp : p ∈ s.hands) : 0 < s.hc (· == p) := by
  have : 0 < s.hands.countP (· == p) := List.countP_pos_iff.2 ⟨p, hp, by simp⟩
  simp only [GSys.hc]; omega

/-- Objects with handles are there. -/
theorem GraphInv.hand (h : GraphInv calm n s) (hp : 0 < s.hc (· == p)) :
    ∃ o, s.objs[p]? = some o ∧ o.alive = true ∧ o.freed = false ∧ o.outs = 0 ∧ 0 < o.strong ∧ s.ends.count p = 0 ∧
      s.looks.count p = 0 := by
  have hl := h.ref p (by omega)
  refine ⟨s.objs[p], List.getElem?_eq_getElem hl, ?_⟩
  have ho := List.getElem?_eq_getElem hl
  have hs : 0 < s.objs[p].strong := by rw [h.cnt p _ ho]; exact hp
  have ha : s.objs[p].alive = true := by
    by_contra hc
    have := (h.dead p _ ho (by simpa using hc)).1
    omega
  have hl := h.live p _ ho ha
  exact ⟨ha, hl.1, hl.2.1, hs, hl.2.2.2.2 hs, hl.2.2.1⟩

/-- Objects that a thread is about to drop or to move out are there. -/
theorem GraphInv.ending (h : GraphInv calm n s) (hp : 0 < s.ends.count p) :
    ∃ o, s.objs[p]? = some o ∧ o.alive = true ∧ o.freed = false ∧ o.outs = 0 ∧ o.strong = 0 ∧ s.ends.count p = 1 ∧
      s.looks.count p = 0 ∧ s.hc (· == p) = 0 := by
  have hl := h.ref p (by omega)
  refine ⟨s.objs[p], List.getElem?_eq_getElem hl, ?_⟩
  have ho := List.getElem?_eq_getElem hl
  have ha : s.objs[p].alive = true := by
    by_contra hc
    have := (h.dead p _ ho (by simpa using hc)).2.2.1
    omega
  have hl := h.live p _ ho ha
  have hs : s.objs[p].strong = 0 := by
    by_contra hc
    have := hl.2.2.2.2 (by omega)
    omega
  exact ⟨ha, hl.1, hl.2.1, hs, hl.2.2.2.1 hs, hl.2.2.1, by rw [← h.cnt p _ ho]; exact hs⟩

/-- Objects whose memory may be about to go are still there. -/
theorem GraphInv.looking (h : GraphInv calm n s) (hp : 0 < s.looks.count p) :
    ∃ o, s.objs[p]? = some o ∧ o.alive = false ∧ o.freed = false ∧ o.outs = 1 ∧ o.strong = 0 ∧ s.ends.count p = 0 ∧
      s.looks.count p = 1 ∧ s.hc (· == p) = 0 := by
  have hl := h.ref p (by omega)
  refine ⟨s.objs[p], List.getElem?_eq_getElem hl, ?_⟩
  have ho := List.getElem?_eq_getElem hl
  have ha : s.objs[p].alive = false := by
    by_contra hc
    have := (h.live p _ ho (by simpa using hc)).2.2.1
    omega
  have hl := h.dead p _ ho ha
  have hf : s.objs[p].freed = false := by
    by_contra hc
    have := hl.2.2.2.2 (by simpa using hc)
    omega
  exact ⟨ha, hf, hl.2.1, hl.1, hl.2.2.1, by omega, by rw [← h.cnt p _ ho]; exact hl.1⟩

end

namespace Graph
variable {s : GSys} {p : Nat} {o : GObj}

theorem obj_ok (ho : s.objs[p]? = some o) (hf : o.freed = false) : obj p s = .ok o s := by
  simp [obj, ho, hf]

theorem data_ok (ho : s.objs[p]? = some o) (hf : o.freed = false) (ha : o.alive = true) : data p s = .ok o s := by
  simp [data, M.bind_apply, obj_ok ho hf, ha]

theorem flatMap_sub_subs (l : List Nat) : (l.map GOp.sub).flatMap GOp.subs = l := by
  induction l with
  | nil => rfl
  | cons a l ih => simp [GOp.subs, ih]

theorem flatMap_sub_ends (l : List Nat) : (l.map GOp.sub).flatMap GOp.ends = [] := by
  induction l with
  | nil => rfl
  | cons a l ih => simp [GOp.ends]

theorem flatMap_sub_looks (l : List Nat) : (l.map GOp.sub).flatMap GOp.looks = [] := by
  induction l with
  | nil => rfl
  | cons a l ih => simp [GOp.looks]

theorem unwound_subs (l : List GOp) : (unwound l).flatMap GOp.subs = l.flatMap GOp.subs := by
  induction l with
  | nil => rfl
  | cons a l ih => cases a <;> simp [unwound, GOp.subs, ih]

theorem unwound_ends (l : List GOp) : (unwound l).flatMap GOp.ends = l.flatMap GOp.ends := by
  induction l with
  | nil => rfl
  | cons a l ih => cases a <;> simp [unwound, GOp.ends, ih]

theorem unwound_looks (l : List GOp) (q : Nat) :
    ((unwound l).flatMap GOp.looks).count q ≤ (l.flatMap GOp.looks).count q := by
  induction l with
  | nil => simp [unwound]
  | cons a l ih =>
    cases a <;> simp only [unwound, GOp.looks, List.flatMap_cons, List.count_append, List.nil_append] <;> omega

end Graph

/-! ## Steps -/

namespace Graph
variable {calm : Prop} {mx n : Nat} {s s' : GSys} {t : Nat} {r : List GOp} {u boom : Bool}

theorem decr_pos {k : Nat} (h : 0 < k) : Arc.decr mx k = k - 1 := by
  simp only [Arc.decr, show k ≠ 0 by omega, if_false]

/-- Where a step goes: another object and another thread. -/
theorem step_sub {p : Nat} {o : GObj} (ho : s.objs[p]? = some o) (hf : o.freed = false) :
    step mx t r u boom (.sub p) s = .ok () (s.upd p { o with strong := Arc.decr mx o.strong } t
      ⟨if o.strong = 1 then .fin p :: r else r, u && !(if o.strong = 1 then .fin p :: r else r).isEmpty⟩ s.hands) := by
  simp only [step, M.bind_apply, obj_ok ho hf, put, go, M.modify_apply, GSys.upd]

theorem inv_sub {p : Nat} (h : GraphInv calm n s) (ht : s.threads[t]? = some ⟨.sub p :: r, u⟩)
    (e : step mx t r u boom (.sub p) s = .ok () s') : GraphInv calm (n + 1) s' := by
  have h1 := GSys.thread_hc ht (· == p)
  simp only [List.flatMap_cons, GOp.subs, List.countP_append, List.countP_cons, beq_self_eq_true, if_true,
    List.countP_nil] at h1
  obtain ⟨o, ho, ha, hf, hou, hs, he, hl⟩ := h.hand (p := p) (by omega)
  rw [step_sub ho hf] at e
  injection e with _ e
  have U := fun P => GSys.upd_hc (o' := { o with strong := Arc.decr mx o.strong })
    (th' := ⟨if o.strong = 1 then .fin p :: r else r, u && !(if o.strong = 1 then GOp.fin p :: r else r).isEmpty⟩)
    (hands := s.hands) ho ht P
  have UE := fun q => GSys.upd_ends (p := p) (o' := { o with strong := Arc.decr mx o.strong })
    (th' := ⟨if o.strong = 1 then .fin p :: r else r, u && !(if o.strong = 1 then GOp.fin p :: r else r).isEmpty⟩)
    (hands := s.hands) ht q
  have UL := fun q => GSys.upd_looks (p := p) (o' := { o with strong := Arc.decr mx o.strong })
    (th' := ⟨if o.strong = 1 then .fin p :: r else r, u && !(if o.strong = 1 then GOp.fin p :: r else r).isEmpty⟩)
    (hands := s.hands) ht q
  rw [e] at U UE UL
  have eh : ({ o with strong := Arc.decr mx o.strong } : GObj).held = o.held := rfl
  simp only [eh] at U
  have es : ∀ P : Nat → Bool, ((if o.strong = 1 then GOp.fin p :: r else r).flatMap GOp.subs).countP P =
      (r.flatMap GOp.subs).countP P := by
    intro P; split <;> simp [GOp.subs]
  have ee : ∀ q, ((if o.strong = 1 then GOp.fin p :: r else r).flatMap GOp.ends).count q =
      (r.flatMap GOp.ends).count q + if o.strong = 1 ∧ p = q then 1 else 0 := by
    intro q
    split <;> rename_i h1
    · by_cases e : p = q <;> simp [GOp.ends, List.count_cons, h1, e]
    · simp [h1]
  have el : ∀ q, ((if o.strong = 1 then GOp.fin p :: r else r).flatMap GOp.looks).count q =
      (r.flatMap GOp.looks).count q := by
    intro q; split <;> simp [GOp.looks]
  simp only [es, List.flatMap_cons, GOp.subs, List.countP_append, List.countP_cons, List.countP_nil] at U
  simp only [ee, List.flatMap_cons, GOp.ends, List.nil_append] at UE
  simp only [el, List.flatMap_cons, GOp.looks, List.nil_append] at UL
  have cp := h.cnt p o ho
  have Up := U (· == p)
  simp only [beq_self_eq_true, if_true] at Up
  have d := decr_pos (mx := mx) hs
  have UEp := UE p
  have ULp := UL p
  simp only [and_true] at UEp
  refine h.upd ho ht e.symm ?_ ?_ ?_ ?_ ?_ ?_ ?_ ?_ ?_
  · intro q hq
    have := U (· == q)
    simp only [show (p == q) = false by simpa using fun e => hq e.symm, Bool.false_eq_true, if_false] at this
    omega
  · simp only [d]; omega
  · intro q hq
    have := UE q
    simp only [show ¬ p = q from fun e => hq e.symm, and_false, if_false] at this
    omega
  · intro q _; have := UL q; omega
  · intro _ q _; have := UL q; omega
  · intro _
    refine ⟨hf, hou, by omega, ?_, ?_⟩
    · intro h0
      simp only [d] at h0
      rw [if_pos (by omega)] at UEp
      omega
    · intro h0
      simp only [d] at h0
      rw [if_neg (by omega)] at UEp
      omega
  · intro hc; simp [ha] at hc
  · have := U (fun _ => true)
    have := h.size
    simp only [if_true] at *
    omega
  · intro _ hc; simp [ha] at hc

/-- What to check when handles only change places. -/
theorem move {o o' : GObj} {th th' : GThread} {hands : List Nat} {p : Nat} (h : GraphInv calm n s) (ho : s.objs[p]? = some o)
    (ht : s.threads[t]? = some th) (es : s.upd p o' t th' hands = s')
    (cons : ∀ P : Nat → Bool, hands.countP P + o'.held.countP P + (th'.ops.flatMap GOp.subs).countP P =
      s.hands.countP P + o.held.countP P + (th.ops.flatMap GOp.subs).countP P)
    (hs : o'.strong = o.strong)
    (he : ∀ q, q ≠ p → (th'.ops.flatMap GOp.ends).count q = (th.ops.flatMap GOp.ends).count q)
    (hl : ∀ q, q ≠ p → (th'.ops.flatMap GOp.looks).count q ≤ (th.ops.flatMap GOp.looks).count q)
    (hlc : calm → ∀ q, q ≠ p → (th'.ops.flatMap GOp.looks).count q = (th.ops.flatMap GOp.looks).count q)
    (fit : ∀ E L, E + (th.ops.flatMap GOp.ends).count p = s.ends.count p + (th'.ops.flatMap GOp.ends).count p →
      L + (th.ops.flatMap GOp.looks).count p = s.looks.count p + (th'.ops.flatMap GOp.looks).count p →
      (o'.alive = true → o'.freed = false ∧ o'.outs = 0 ∧ L = 0 ∧
        (o'.strong = 0 → E = 1) ∧ (0 < o'.strong → E = 0)) ∧
      (o'.alive = false → o'.strong = 0 ∧ o'.outs = 1 ∧ E = 0 ∧ L ≤ 1 ∧ (o'.freed = true → L = 0)) ∧
      (calm → o'.alive = false → o'.weak = 0 → o'.freed = true ∨ L = 1)) :
    GraphInv calm (n + 1) s' := by
  have U := fun P => GSys.upd_hc (o' := o') (th' := th') (hands := hands) ho ht P
  have UE := fun q => GSys.upd_ends (p := p) (o' := o') (th' := th') (hands := hands) ht q
  have UL := fun q => GSys.upd_looks (p := p) (o' := o') (th' := th') (hands := hands) ht q
  rw [es] at U UE UL
  have H : ∀ P, s'.hc P = s.hc P := fun P => by have := U P; have := cons P; omega
  have F := fit _ _ (UE p) (UL p)
  refine h.upd ho ht es.symm (fun q _ => H _) ?_ ?_ ?_ ?_ F.1 F.2.1 ?_ F.2.2
  · rw [hs, H]; exact h.cnt p o ho
  · intro q hq; have := UE q; have := he q hq; omega
  · intro q hq; have := UL q; have := hl q hq; omega
  · intro c q hq; have := UL q; have := hlc c q hq; omega
  · rw [H]; have := h.size; omega

theorem inv_fin {p : Nat} (h : GraphInv calm n s) (ht : s.threads[t]? = some ⟨.fin p :: r, u⟩) (hb : calm → boom = false)
    (e : step mx t r u boom (.fin p) s = .ok () s') : GraphInv calm (n + 1) s' := by
  have h1 := GSys.thread_ends ht p
  simp only [List.flatMap_cons, GOp.ends, List.count_append, List.count_singleton_self] at h1
  obtain ⟨o, ho, ha, hf, hou, hs, he, hl, hh⟩ := h.ending (p := p) (by omega)
  simp only [step, M.bind_apply, data_ok ho hf ha] at e
  have hb1 := unwound_looks r
  cases boom with
  | true =>
    cases u with
    | true => simp at e
    | false =>
      simp only [M.bind_apply, put, go, M.modify_apply, if_true, Bool.false_eq_true, if_false] at e
      injection e with _ e
      refine move h ho ht e ?_ rfl ?_ ?_ ?_ ?_
      · intro P
        simp only [List.flatMap_append, List.flatMap_cons, flatMap_sub_subs, unwound_subs, GObj.held, ha, GOp.subs,
          List.countP_append, if_true, Bool.false_eq_true, if_false, List.countP_nil, List.nil_append]
        omega
      · intro q hq
        simp only [List.flatMap_append, flatMap_sub_ends, unwound_ends, List.nil_append, List.flatMap_cons, GOp.ends,
          List.count_append, List.count_cons, show (p == q) = false by simpa using fun e => hq e.symm, Bool.false_eq_true,
          if_false, List.count_nil]
        omega
      · intro q hq
        simp only [List.flatMap_append, flatMap_sub_looks, List.nil_append, List.flatMap_cons, GOp.looks]
        exact hb1 q
      · intro c; exact absurd (hb c) (by simp)
      · intro E L hE hL
        have := hb1 p
        simp only [List.flatMap_append, flatMap_sub_ends, flatMap_sub_looks, unwound_ends, List.flatMap_cons, GOp.ends, GOp.looks,
          List.nil_append, List.count_append, List.count_singleton_self] at hE hL
        refine ⟨by simp, fun _ => ⟨hs, by simp [hou], by omega, by omega, by omega⟩, fun c => absurd (hb c) (by simp)⟩
  | false =>
    simp only [M.bind_apply, put, go, M.modify_apply, Bool.false_eq_true, if_false] at e
    injection e with _ e
    refine move h ho ht e ?_ rfl ?_ ?_ ?_ ?_
    · intro P
      simp only [List.flatMap_append, List.flatMap_cons, flatMap_sub_subs, GObj.held, ha, GOp.subs,
        List.countP_append, if_true, Bool.false_eq_true, if_false, List.countP_nil, List.nil_append]
      omega
    · intro q hq
      simp only [List.flatMap_append, flatMap_sub_ends, List.nil_append, List.flatMap_cons, GOp.ends,
        List.count_append, List.count_cons, show (p == q) = false by simpa using fun e => hq e.symm, Bool.false_eq_true,
        if_false, List.count_nil]
      omega
    · intro q hq
      simp only [List.flatMap_append, flatMap_sub_looks, List.nil_append, List.flatMap_cons, GOp.looks,
        List.count_append, List.count_cons, show (p == q) = false by simpa using fun e => hq e.symm, Bool.false_eq_true,
        if_false, List.count_nil]
      omega
    · intro _ q hq
      simp only [List.flatMap_append, flatMap_sub_looks, List.nil_append, List.flatMap_cons, GOp.looks,
        List.count_append, List.count_cons, show (p == q) = false by simpa using fun e => hq e.symm, Bool.false_eq_true,
        if_false, List.count_nil]
      omega
    · intro E L hE hL
      simp only [List.flatMap_append, flatMap_sub_ends, flatMap_sub_looks, List.flatMap_cons, GOp.ends, GOp.looks,
        List.nil_append, List.count_append, List.count_singleton_self] at hE hL
      refine ⟨by simp, fun _ => ⟨hs, by simp [hou], by omega, by omega, by simp [hf]⟩, fun _ _ _ => .inr (by omega)⟩

theorem inv_glue {p : Nat} (h : GraphInv calm n s) (ht : s.threads[t]? = some ⟨.glue p :: r, u⟩) (hb : ¬ calm)
    (e : step mx t r u boom (.glue p) s = .ok () s') : GraphInv calm (n + 1) s' := by
  have h1 := GSys.thread_ends ht p
  simp only [List.flatMap_cons, GOp.ends, List.count_append, List.count_singleton_self] at h1
  obtain ⟨o, ho, ha, hf, hou, hs, he, hl, hh⟩ := h.ending (p := p) (by omega)
  simp only [step, M.bind_apply, data_ok ho hf ha, put, go, M.modify_apply] at e
  injection e with _ e
  refine move h ho ht e ?_ rfl ?_ ?_ (fun c => absurd c hb) ?_
  · intro P
    simp only [List.flatMap_append, List.flatMap_cons, flatMap_sub_subs, GObj.held, ha, GOp.subs,
      List.countP_append, if_true, Bool.false_eq_true, if_false, List.countP_nil, List.nil_append]
    omega
  · intro q hq
    simp only [List.flatMap_append, flatMap_sub_ends, List.nil_append, List.flatMap_cons, GOp.ends,
      List.count_append, List.count_cons, show (p == q) = false by simpa using fun e => hq e.symm, Bool.false_eq_true,
      if_false, List.count_nil]
    omega
  · intro q hq
    simp only [List.flatMap_append, flatMap_sub_looks, List.nil_append, List.flatMap_cons, GOp.looks]
    omega
  · intro E L hE hL
    simp only [List.flatMap_append, flatMap_sub_ends, flatMap_sub_looks, List.flatMap_cons, GOp.ends, GOp.looks,
      List.nil_append, List.count_append, List.count_singleton_self] at hE hL
    refine ⟨by simp, fun _ => ⟨hs, by simp [hou], by omega, by omega, by simp [hf]⟩, fun c => absurd c hb⟩

theorem inv_unw {p : Nat} (h : GraphInv calm n s) (ht : s.threads[t]? = some ⟨.unw p :: r, u⟩)
    (e : step mx t r u boom (.unw p) s = .ok () s') : GraphInv calm (n + 1) s' := by
  have h1 := GSys.thread_ends ht p
  simp only [List.flatMap_cons, GOp.ends, List.count_append, List.count_singleton_self] at h1
  obtain ⟨o, ho, ha, hf, hou, hs, he, hl, hh⟩ := h.ending (p := p) (by omega)
  simp only [step, M.bind_apply, data_ok ho hf ha, put, go, M.modify_apply] at e
  injection e with _ e
  refine move (hands := s.hands ++ o.refs) h ho ht e ?_ rfl ?_ ?_ ?_ ?_
  · intro P
    simp only [List.flatMap_cons, GObj.held, ha, GOp.subs,
      List.countP_append, if_true, Bool.false_eq_true, if_false, List.countP_nil, List.nil_append]
    omega
  · intro q hq
    simp only [List.nil_append, List.flatMap_cons, GOp.ends,
      List.count_append, List.count_cons, show (p == q) = false by simpa using fun e => hq e.symm, Bool.false_eq_true,
      if_false, List.count_nil]
    omega
  · intro q hq
    simp only [List.nil_append, List.flatMap_cons, GOp.looks,
      List.count_append, List.count_cons, show (p == q) = false by simpa using fun e => hq e.symm, Bool.false_eq_true,
      if_false, List.count_nil]
    omega
  · intro _ q hq
    simp only [List.nil_append, List.flatMap_cons, GOp.looks,
      List.count_append, List.count_cons, show (p == q) = false by simpa using fun e => hq e.symm, Bool.false_eq_true,
      if_false, List.count_nil]
    omega
  · intro E L hE hL
    simp only [List.flatMap_cons, GOp.ends, GOp.looks,
      List.nil_append, List.count_append, List.count_singleton_self] at hE hL
    refine ⟨by simp, fun _ => ⟨hs, by simp [hou], by omega, by omega, by simp [hf]⟩, fun _ _ _ => .inr (by omega)⟩

theorem inv_look {p : Nat} (h : GraphInv calm n s) (ht : s.threads[t]? = some ⟨.look p :: r, u⟩)
    (e : step mx t r u boom (.look p) s = .ok () s') : GraphInv calm (n + 1) s' := by
  have h1 := GSys.thread_looks ht p
  simp only [List.flatMap_cons, GOp.looks, List.count_append, List.count_singleton_self] at h1
  obtain ⟨o, ho, ha, hf, hou, hs, he, hl, hh⟩ := h.looking (p := p) (by omega)
  simp only [step, M.bind_apply, obj_ok ho hf, go, M.modify_apply] at e
  injection e with _ e
  have eo : s.objs.set p o = s.objs := by
    obtain ⟨h1, h2⟩ := List.getElem?_eq_some_iff.1 ho
    rw [← h2]; exact List.set_getElem_self h1
  refine move (o' := o) (hands := s.hands) (th' := ⟨if o.weak = 0 then .free p :: r else r,
    u && !(if o.weak = 0 then GOp.free p :: r else r).isEmpty⟩) h ho ht
    (by rw [← e]; simp only [GSys.upd, eo]) ?_ rfl ?_ ?_ ?_ ?_
  · intro P
    split <;> simp [GOp.subs]
  · intro q hq
    split <;> simp [GOp.ends]
  · intro q hq
    split <;> simp [GOp.looks, List.count_cons]
  · intro _ q hq
    split <;> simp [GOp.looks, List.count_cons, show ¬ p = q from fun e => hq e.symm]
  · intro E L hE hL
    simp only [List.flatMap_cons, GOp.ends, GOp.looks, List.nil_append, List.count_append,
      List.count_singleton_self] at hE hL
    by_cases hw : o.weak = 0
    · simp only [hw, if_true, List.flatMap_cons, GOp.ends, GOp.looks, List.nil_append, List.count_append,
        List.count_singleton_self] at hE hL
      refine ⟨by simp [ha], fun _ => ⟨hs, hou, by omega, by omega, by simp [hf]⟩, fun _ _ _ => .inr (by omega)⟩
    · simp only [hw, if_false] at hE hL
      refine ⟨by simp [ha], fun _ => ⟨hs, hou, by omega, by omega, by simp [hf]⟩, fun _ _ hc => absurd hc hw⟩

theorem inv_free {p : Nat} (h : GraphInv calm n s) (ht : s.threads[t]? = some ⟨.free p :: r, u⟩)
    (e : step mx t r u boom (.free p) s = .ok () s') : GraphInv calm (n + 1) s' := by
  have h1 := GSys.thread_looks ht p
  simp only [List.flatMap_cons, GOp.looks, List.count_append, List.count_singleton_self] at h1
  obtain ⟨o, ho, ha, hf, hou, hs, he, hl, hh⟩ := h.looking (p := p) (by omega)
  simp only [step, M.bind_apply, obj_ok ho hf, put, go, M.modify_apply] at e
  injection e with _ e
  refine move (hands := s.hands) h ho ht e ?_ rfl ?_ ?_ ?_ ?_
  · intro P
    simp [GOp.subs, GObj.held, ha]
  · intro q hq
    simp [GOp.ends]
  · intro q hq
    simp [GOp.looks, List.count_cons]
  · intro _ q hq
    simp [GOp.looks, List.count_cons, show ¬ p = q from fun e => hq e.symm]
  · intro E L hE hL
    simp only [List.flatMap_cons, GOp.ends, GOp.looks, List.nil_append, List.count_append,
      List.count_singleton_self] at hE hL
    refine ⟨by simp [ha], fun _ => ⟨hs, hou, by omega, by omega, fun _ => by omega⟩, fun _ _ _ => .inl rfl⟩

end Graph

end Lokky
