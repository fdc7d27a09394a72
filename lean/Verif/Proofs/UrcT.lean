import Verif.Spec.UrcThreads
import Verif.Proofs.Arc

/-! The invariant of the `Urc` system of threads: handles, fences and values. -/

namespace Lokky
variable {α : Type}

/-! ## Handles -/

namespace UrcHold

/-- There may be other handles of the fence, with thread `t` too. -/
def shared (t : Nat) : UrcHold → Bool
  | .own t' (.urc _) | .own t' (.weak _ _) => t' == t
  | _ => false

end UrcHold

/-- The fence is there, and of master `p`. -/
def fenceOf (p : Nat) : Option UrcFence → Bool
  | some F => F.master == p
  | none => false

namespace UrcSys
variable (s : UrcSys α)

/-- How many fences of master `p` are not released. -/
def unf (p : Nat) : Nat := s.fences.countP (fenceOf p)

/-- `strong_fence` of master `p`. -/
def sf (p : Nat) : Nat :=
  match (s.mem.msgs .strong p).getLast? with
  | some x => x.val
  | none => 0

/-- The value of master `p` is there. -/
def Alive (p : Nat) : Prop := ∃ v, s.vals[p]? = some (v, true)

/-- Fence `f` is there, and of master `p`. -/
def Fen (f p : Nat) : Prop := ∃ F, s.fences[f]? = some (some F) ∧ F.master = p

end UrcSys

@[simp] theorem UrcHold.fen_own (t : Nat) (k : UrcHand) : (UrcHold.own t k).fen = k.fen := rfl
@[simp] theorem UrcHold.fen_env (f : Nat) : (UrcHold.env f).fen = f := rfl
@[simp] theorem UrcHand.fen_urc (f : Nat) : (UrcHand.urc f).fen = f := rfl
@[simp] theorem UrcHand.fen_weak (f m : Nat) : (UrcHand.weak f m).fen = f := rfl
@[simp] theorem UrcHand.fen_fence (f : Nat) : (UrcHand.fence f).fen = f := rfl

/-! ## What a thread is in the middle of -/

namespace UrcOp

/-- It relies on there being no other fence of the master. -/
def sole : UrcOp α → Bool
  | .get2 _ _ _ | .held _ _ _ | .unw1 _ _ _ | .mm1 _ _ _ | .mm2 _ _ _ _ | .mv0 _ _ _ | .mv1 _ _ _ _
  | .fin _ (some _) => true
  | _ => false

/-- It relies on there being no other `Urc` of the fence. -/
def only : UrcOp α → Bool
  | .held _ _ _ | .unw1 _ _ _ | .mv1 _ _ _ _ | .fin _ (some _) => true
  | _ => false

/-- It relies on there being no `Weak` of the fence. -/
def noWeak : UrcOp α → Bool
  | .held _ _ _ | .mm2 _ _ _ _ | .fin _ (some _) => true
  | _ => false

/-- It relies on there being a `Weak` of the fence. -/
def hasWeak : UrcOp α → Bool
  | .unw1 _ _ _ => true
  | _ => false

/-- `weak` of the fence may be wrong. -/
def pins (f : Nat) : UrcOp α → Bool
  | .mv0 _ g _ | .mv1 _ g _ _ => g == f
  | _ => false

/-- The master it has no handle of any more. -/
def left : UrcOp α → Option Nat
  | .fin p _ | .wfin p => some p
  | _ => none

end UrcOp

/-- What holds while thread `t` is in the middle of `op`. -/
structure UrcOpOk (s : UrcSys α) (t : Nat) (op : UrcOp α) : Prop where
  own : ∀ h f p, op.hand = some (h, f, p) → s.hands[h]? = some (some (.own t (.urc f)))
  fen : ∀ h f p, op.hand = some (h, f, p) → s.Fen f p
  sole : ∀ h f p, op.hand = some (h, f, p) → op.sole = true → ∀ g, s.Fen g p → g = f
  only : ∀ h f p, op.hand = some (h, f, p) → op.only = true → s.nU f = 1
  noWeak : ∀ h f p, op.hand = some (h, f, p) → op.noWeak = true → s.nW f = 0
  hasWeak : ∀ h f p, op.hand = some (h, f, p) → op.hasWeak = true → 1 ≤ s.nW f
  left : ∀ p, op.left = some p → p < s.vals.length
  gone : ∀ p k, op = .fin p k → ∀ g, ¬ s.Fen g p
  dead : ∀ h f p v, op = .mv1 h f p v → ¬ s.Alive p

/-- Handles, fences, values and `strong_fence`, after `n` steps. -/
structure UrcLInv (n : Nat) (s : UrcSys α) : Prop where
  hlen : s.hands.length ≤ n
  bound : ∀ p, s.sf p ≤ n
  fen : ∀ (h : Nat) (x : UrcHold), s.hands[h]? = some (some x) → ∃ p, s.Fen x.fen p
  mas : ∀ f p, s.Fen f p → p < s.vals.length
  weakm : ∀ (h t f m : Nat), s.hands[h]? = some (some (.own t (.weak f m))) → s.Fen f m
  loc : ∀ (h h' : Nat) (x x' : UrcHold), s.hands[h]? = some (some x) → s.hands[h']? = some (some x') →
    x.fen = x'.fen → h = h' ∨ ∃ t, x.shared t = true ∧ x'.shared t = true
  strong : ∀ (f : Nat) (F : UrcFence), s.fences[f]? = some (some F) → 1 ≤ s.nU f → F.strong = s.nU f
  weak : ∀ (f : Nat) (F : UrcFence), s.fences[f]? = some (some F) → 1 ≤ s.nW f → F.weak = s.nW f
  weak0 : ∀ (f : Nat) (F : UrcFence), s.fences[f]? = some (some F) → s.nW f = 0 → 1 ≤ s.nU f →
    F.weak = 0 ∨ ∃ t op, s.At t op ∧ op.pins f = true
  alive : ∀ (h : Nat) (x : UrcHold) p, s.hands[h]? = some (some x) → x.strong = true → s.Fen x.fen p →
    s.Alive p ∨ ∃ t h' v, s.At t (.mv1 h' x.fen p v)
  count : ∀ p, s.Alive p → s.unf p ≤ s.sf p ∨ ∃ t h f, s.At t (.unw1 h f p)
  ops : ∀ t op, s.At t op → UrcOpOk s t op

/-! ## Consequences -/

section
variable {n : Nat} {s s' : UrcSys α}

theorem UrcSys.Fen.inj {f p q : Nat} (h : s.Fen f p) (h' : s.Fen f q) : p = q := by
  obtain ⟨F, e, rfl⟩ := h
  obtain ⟨G, e', rfl⟩ := h'
  rw [e] at e'
  injection e' with e'
  injection e' with e'
  rw [e']

theorem UrcSys.nU_pos {h f : Nat} {x : UrcHold} (e : s.hands[h]? = some (some x)) (hs : x.strong = true)
    (hf : x.fen = f) : 1 ≤ s.nU f :=
  countP_pos_of _ e (by simp [UrcHold.strongAt, hs, hf])

theorem UrcSys.nW_pos {h f : Nat} {x : UrcHold} (e : s.hands[h]? = some (some x)) (hs : x.strong = false)
    (hf : x.fen = f) : 1 ≤ s.nW f :=
  countP_pos_of _ e (by simp [UrcHold.weakAt, hs, hf])

theorem UrcSys.nU_hand {f : Nat} (h : 1 ≤ s.nU f) :
    ∃ (h : Nat) (x : UrcHold), s.hands[h]? = some (some x) ∧ x.strong = true ∧ x.fen = f := by
  obtain ⟨a, ha, e⟩ := List.countP_pos_iff.1 h
  obtain ⟨i, hi⟩ := List.getElem?_of_mem ha
  cases a with
  | none => cases e
  | some x =>
    simp [UrcHold.strongAt] at e
    exact ⟨i, x, hi, e.1, e.2⟩

theorem UrcSys.unf_pos {f p : Nat} (h : s.Fen f p) : 1 ≤ s.unf p := by
  obtain ⟨F, e, hp⟩ := h
  exact countP_pos_of _ e (by simp [fenceOf, hp])

theorem UrcSys.unf_one {f g p : Nat} (h1 : s.unf p ≤ 1) (hf : s.Fen f p) (hg : s.Fen g p) : g = f := by
  obtain ⟨F, e, hp⟩ := hf
  obtain ⟨G, e', hp'⟩ := hg
  by_contra ne
  have : 2 ≤ s.unf p :=
    countP_two (β := UrcFence) _ rfl e e' ne (by simp [fenceOf, hp]) (by simp [fenceOf, hp'])
  omega

theorem UrcSys.nU_two {f h h' : Nat} {x x' : UrcHold} (e : s.hands[h]? = some (some x))
    (e' : s.hands[h']? = some (some x')) (ne : h' ≠ h) (hs : x.strong = true) (hs' : x'.strong = true)
    (hf : x.fen = f) (hf' : x'.fen = f) : 2 ≤ s.nU f :=
  countP_two (β := UrcHold) _ rfl e e' ne (by simp [UrcHold.strongAt, hs, hf])
    (by simp [UrcHold.strongAt, hs', hf'])

namespace UrcLInv

/-- A handle of a fence that thread `t` has a `Urc` of is with `t`. -/
theorem mine (I : UrcLInv n s) {t h h' f : Nat} {x : UrcHold}
    (e : s.hands[h]? = some (some (.own t (.urc f)))) (e' : s.hands[h']? = some (some x)) (hf : x.fen = f) :
    ∃ k, x = .own t k := by
  rcases I.loc h h' _ x e e' hf.symm with rfl | ⟨t', h1, h2⟩
  · rw [e] at e'
    injection e' with e'
    injection e' with e'
    exact ⟨_, e'.symm⟩
  · simp [UrcHold.shared] at h1
    subst h1
    cases x with
    | env f => simp [UrcHold.shared] at h2
    | own t' k =>
      cases k <;> simp [UrcHold.shared] at h2
      · exact ⟨_, by rw [h2]⟩
      · exact ⟨_, by rw [h2]⟩

/-- Another thread is not in the middle of something with the fence. -/
theorem foreign (I : UrcLInv n s) {t t' h h' f f' p : Nat} {k : UrcHand} {op : UrcOp α}
    (e : s.hands[h]? = some (some (.own t k))) (hf : k.fen = f) (ht : s.At t' op) (ne : t' ≠ t)
    (ho : op.hand = some (h', f', p)) : f' ≠ f := by
  intro hf'
  have e' := (I.ops t' op ht).own h' f' p ho
  obtain ⟨k', hk⟩ := I.mine e' e (by simp [UrcHold.fen, hf, hf'])
  injection hk with hk
  exact ne hk.symm

/-- … nor relies on being alone at the master. -/
theorem foreign_sole (I : UrcLInv n s) {t t' h h' f' p : Nat} {k : UrcHand} {op : UrcOp α}
    (e : s.hands[h]? = some (some (.own t k))) (hp : s.Fen k.fen p) (ht : s.At t' op) (ne : t' ≠ t)
    (ho : op.hand = some (h', f', p)) : op.sole = false := by
  by_contra hc
  have := (I.ops t' op ht).sole h' f' p ho (by simpa using hc) k.fen hp
  exact I.foreign e rfl ht ne ho this.symm

/-- Nobody else is in the middle of `try_unwrap` or of moving the value out. -/
theorem alive_of (I : UrcLInv n s) {t h f p : Nat} {k : UrcHand} (e : s.hands[h]? = some (some (.own t k)))
    (hs : (UrcHold.own t k).strong = true) (hf : k.fen = f) (hp : s.Fen f p)
    (hn : ∀ op, s.At t op → ∀ h' v, op ≠ .mv1 h' f p v) : s.Alive p := by
  subst hf
  rcases I.alive h _ p e hs hp with ha | ⟨t', h', v, ht⟩
  · exact ha
  · by_cases et : t' = t
    · subst et
      exact absurd rfl (hn _ ht h' v)
    · exact absurd rfl (I.foreign e rfl ht et rfl)

theorem count_of (I : UrcLInv n s) {t h f p : Nat} {k : UrcHand} (e : s.hands[h]? = some (some (.own t k)))
    (hf : k.fen = f) (hp : s.Fen f p) (ha : s.Alive p)
    (hn : ∀ op, s.At t op → ∀ h' f', op ≠ .unw1 h' f' p) : s.unf p ≤ s.sf p := by
  subst hf
  rcases I.count p ha with hc | ⟨t', h', f', ht⟩
  · exact hc
  · by_cases et : t' = t
    · subst et
      exact absurd rfl (hn _ ht h' f')
    · have := I.foreign_sole e hp ht et rfl
      cases this

end UrcLInv
end
end Lokky
