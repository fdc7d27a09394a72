import Verif.Proofs.UrcTStep

/-! All runs of the `Urc` system of threads keep its invariant. -/

namespace Lokky
variable {α : Type} {n n' mx : Nat} {s : UrcSys α} {dbg : Bool}

/-- Thread `t` panics at this step, in the middle of a call on a handle. -/
def UrcAct.panics (dbg : Bool) (mx : Nat) (s : UrcSys α) : UrcAct α → Prop
  | .call t h cmd ch => ∃ t' k s', s.hands[h]? = some (some (.own t' k)) ∧
      UrcT.call dbg mx ch t h cmd k s = .panic s'
  | .run t ch => ∃ op s', s.threads[t]? = some (some op) ∧ UrcT.step dbg mx ch t op s = .panic s'
  | _ => False

/-- What is not determined by the program, at this step. -/
def UrcAct.choice : UrcAct α → UrcChoice α
  | .call _ _ _ ch => ch
  | .run _ ch => ch
  | _ => {}

/-- The thread is about to move the value out in `make_mut`. -/
def UrcOp.movesOut : UrcOp α → Prop
  | .mm2 .. | .mv1 .. => True
  | _ => False

namespace UrcTInv
open UrcT

theorem call_ok (G : UrcTInv n s) (hn : n < mx) (ch : UrcChoice α) {t h : Nat} {k : UrcHand} {cmd : UrcCall α}
    (ht : s.threads[t]? = some none) (e : s.hands[h]? = some (some (.own t k))) (hh : UrcAct.has cmd k = true)
    (hp : ∀ x, cmd ≠ .poke x) (hf : UrcAct.faulty s (.call t h cmd ch) = false) :
    UrcFine (ch.grant = false) (n + 1) t (call dbg mx ch t h cmd k s) := by
  cases k with
  | urc f =>
    cases cmd with
    | clone => exact (G.clone_ok hn ch ht e).weaken False.elim
    | downgrade => exact (G.downgrade_ok hn ch ht e).weaken False.elim
    | strongCount => exact (G.count_ok ch ht e (by simp) (by simp)).weaken False.elim
    | weakCount => exact (G.count_ok ch ht e (by simp) (by simp)).weaken False.elim
    | intoFence => exact (G.intoFence_ok ch ht e).weaken False.elim
    | envelop => exact G.envelop_ok hn ch ht e
    | read => exact (G.read_ok ch ht e).weaken False.elim
    | isSole => exact (G.isSole_ok ch ht e).weaken False.elim
    | getMut => exact (G.getMut_ok ch ht e).weaken False.elim
    | makeMut => exact (G.makeMut_ok ch ht e).weaken False.elim
    | tryUnwrap => exact (G.tryUnwrap_ok ch ht e hf).weaken False.elim
    | drop => exact (G.drop_urc ch ht e).weaken False.elim
    | poke x => exact absurd rfl (hp x)
  | weak f m => cases cmd <;> first | (simp [UrcAct.has] at hh; done) | exact (G.drop_weak ch ht e).weaken False.elim
  | fence f =>
    cases cmd <;> first
      | (simp [UrcAct.has] at hh; done)
      | exact (G.drop_fence ch ht e).weaken False.elim
      | exact (G.count_ok ch ht e (by simp) (by simp)).weaken False.elim

theorem step_ok (G : UrcTInv n s) (ch : UrcChoice α) {t : Nat} {op : UrcOp α} (ht : s.At t op)
    (hf : UrcAct.faulty s (.run t ch) = false) : UrcFine (ch.grant = false ∨ ch.boom = true ∨ dbg = true ∧ op.movesOut) (n + 1) t
      (step dbg mx ch t op s) := by
  cases op with
  | get1 h f p => exact (G.get1_ok ch ht).weaken False.elim
  | get2 h f p => exact (G.get2_ok ch ht).weaken False.elim
  | held h f p => exact (G.held_ok ch ht).weaken False.elim
  | fin p k => exact (G.fin_ok ch ht).weaken False.elim
  | wfin p => exact (G.wfin_ok ch ht).weaken False.elim
  | unw1 h f p => exact (G.unw1_ok ch ht).weaken False.elim
  | mm1 h f p => exact (G.mm1_ok ch ht).weaken False.elim
  | mm2 h f p w => exact (G.mm2_ok ch ht).weaken (fun h => Or.inr (Or.inr ⟨h, trivial⟩))
  | mv0 h f p => exact (G.mv0_ok ch ht hf).weaken False.elim
  | mv1 h f p x => exact (G.mv1_ok ch ht hf).weaken (fun h => Or.inr (Or.inr ⟨h, trivial⟩))
  | mmC h f p => exact (G.mmC_ok ch ht).weaken (fun h => Or.inr (Or.inl h))
  | mmA h f p x => exact (G.mmA_ok ch ht).weaken Or.inl

/-- Whatever can happen, and is not one of the faults, happens without undefined behaviour. -/
theorem act_ok (G : UrcTInv n s) (hn : n < mx) (a : UrcAct α) (he : a.enabled true s = true)
    (hf : a.faulty s = false) : ∃ s', a.act dbg mx s = .ok () s' ∧ UrcTInv (n + 1) s' := by
  cases a with
  | new t x =>
    refine ⟨_, ?_, (G.alloc_ok t x rfl).1⟩
    have ha : UrcT.alloc t x s = .ok (s.fences.length, s.vals.length) { s with
        vals := s.vals ++ [(x, true)]
        fences := s.fences ++ [some ⟨1, 0, s.vals.length⟩]
        mem := s.mem.apply t 0 (.init s.vals.length) } := by
      simp only [UrcT.alloc, G.V.calm_new, Bool.false_eq_true, if_false]
    simp only [UrcAct.act]
    rw [M.bind_ok ha]
    rfl
  | recv t h =>
    simp only [UrcAct.enabled] at he
    split at he
    · rename_i f ht e
      refine ⟨{ s with hands := s.hands.set h (some (.own t (.urc f))), mem := s.mem.learn t (s.mem.hnd h) },
        by simp only [UrcAct.act, e], ?_⟩
      exact UrcTInv.mono (n := n) ⟨(G.L.receive e).memory (l := s.log) (fun _ => rfl), G.V.receive e⟩ (Nat.le_succ n)
    · cases he
  | call t h cmd ch =>
    simp only [UrcAct.enabled] at he
    split at he
    · rename_i t' k ht e
      simp only [Bool.and_eq_true, beq_iff_eq] at he
      obtain ⟨⟨rfl, h1⟩, h2⟩ := he
      simp only [UrcAct.act, e]
      refine (G.call_ok hn ch ht e h1 ?_ hf).caught
      rintro x rfl
      simp at h2
    · cases he
  | run t ch =>
    simp only [UrcAct.enabled] at he
    split at he
    · rename_i op ht
      simp only [UrcAct.act, ht]
      exact (G.step_ok ch ht hf).caught
    · cases he

/-- Panics have a reason. -/
theorem act_panics (G : UrcTInv n s) (hn : n < mx) (a : UrcAct α) (he : a.enabled true s = true)
    (hf : a.faulty s = false) (hp : a.panics dbg mx s) : a.choice.grant = false ∨ a.choice.boom = true ∨
      dbg = true ∧ ∃ op, s.At a.thread op ∧ op.movesOut := by
  cases a with
  | new t x => exact hp.elim
  | recv t h => exact hp.elim
  | call t h cmd ch =>
    obtain ⟨t', k, s', e, h1⟩ := hp
    simp only [UrcAct.enabled] at he
    split at he
    · rename_i t'' k' ht e'
      rw [e] at e'
      cases e'
      simp only [Bool.and_eq_true, beq_iff_eq] at he
      obtain ⟨⟨rfl, h2⟩, h3⟩ := he
      exact Or.inl ((G.call_ok hn ch ht e h2 (by rintro x rfl; simp at h3) hf).why h1)
    · cases he
  | run t ch =>
    obtain ⟨op, s', ht, h1⟩ := hp
    rcases (G.step_ok ch ht hf).why h1 with h2 | h2 | ⟨h2, h3⟩
    · exact Or.inl h2
    · exact Or.inr (Or.inl h2)
    · exact Or.inr (Or.inr ⟨h2, op, ht, h3⟩)

theorem start (k : Nat) : UrcTInv 0 (.start k : UrcSys α) := by
  have hno : ∀ t op, ¬ (UrcSys.start k : UrcSys α).At t op := by
    intro t op h
    unfold UrcSys.At UrcSys.start at h
    simp only [List.getElem?_replicate] at h
    split at h <;> cases h
  have hf : ∀ f p, ¬ (UrcSys.start k : UrcSys α).Fen f p := by
    rintro f p ⟨F, h, -⟩
    simp [UrcSys.start] at h
  constructor
  · exact
      { hlen := by simp [UrcSys.start]
        bound := fun p => by simp [UrcSys.sf, UrcSys.start, ArcMem.start]
        fen := fun h x e => by simp [UrcSys.start] at e
        mas := fun f p h => absurd h (hf f p)
        weakm := fun h t f m e => by simp [UrcSys.start] at e
        loc := fun h h' x x' e => by simp [UrcSys.start] at e
        strong := fun f F e => by simp [UrcSys.start] at e
        weak := fun f F e => by simp [UrcSys.start] at e
        weak0 := fun f F e => by simp [UrcSys.start] at e
        alive := fun h x p e => by simp [UrcSys.start] at e
        count := fun p ⟨v, e⟩ => by simp [UrcSys.start] at e
        ops := fun t op h => absurd h (hno t op) }
  · exact
      { some_ := fun c p h => by simp [UrcSys.start] at h
        empty := fun c p h => by simp [UrcSys.start, ArcMem.start]
        place := fun i p k h => by simp [UrcSys.start, ArcMem.start] at h
        known := fun i p k h => by simp [UrcSys.start, ArcMem.start] at h
        knownF := fun i p h => by simp [UrcSys.start, ArcMem.start] at h
        spread := fun i p k h => by simp [UrcSys.start, ArcMem.start] at h
        alone := fun t op h f p h' => absurd h' (hno t op)
        one := fun p j x h => by simp [UrcSys.start, ArcMem.start] at h }

/-- The invariant holds in all states that are reached. -/
theorem reaches (h : UrcTReaches dbg mx true true n s) (hn : n ≤ mx) : UrcTInv n s := by
  induction h with
  | start k => exact start k
  | step a _ he hf hs ih =>
    obtain ⟨s', h1, h2⟩ := (ih (by omega)).act_ok (dbg := dbg) (mx := mx) (by omega) a he (hf rfl)
    rw [hs] at h1
    cases h1
    exact h2

end UrcTInv
end Lokky
