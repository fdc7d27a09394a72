import Verif.Model.BorrowsRc
import Verif.Proofs.Alias

/-!
# Lemmas on the pointers of `Rc` and `Arc`, whatever the aliasing rules are

What is needed of the rules is in `HRules`; everything else follows from it.
-/

namespace Lokky.Alias

/-- Code that works in every state that is `Blk`, and takes no `IsRef` away. -/
def ShrOn {σ β : Type} (Blk : σ → Prop) (IsRef : Nat → σ → Prop) (m : M σ β)
    (Q : β → σ → Prop) : Prop :=
  ∀ s, Blk s → ∃ b s', m s = some (b, s') ∧ Blk s' ∧ (∀ t, IsRef t s → IsRef t s') ∧ Q b s'

/-- Nothing more is known. -/
def Nothing {σ β : Type} (_ : β) (_ : σ) : Prop := True

/-- What the rules must allow. -/
class HRules (σ : Type) [Mach σ] where
  /-- the state of a counted block -/
  Blk : σ → Prop
  /-- a `&` to the value -/
  IsRef : Nat → σ → Prop
  /-- a `&mut` to the value -/
  IsMut : Nat → σ → Prop
  start : Blk (Mach.heap 3)
  load : ∀ i, i = 1 ∨ i = 2 → ShrOn Blk IsRef (loadCnt 0 i) Nothing
  store : ∀ i, i = 1 ∨ i = 2 → ShrOn Blk IsRef (storeCnt 0 i) Nothing
  bump : ∀ i, i = 1 ∨ i = 2 → ShrOn Blk IsRef (bumpCnt 0 i) Nothing
  deref : ShrOn Blk IsRef rcDeref IsRef
  single : ∀ strong, ShrOn Blk IsRef (rcIsSingle strong) Nothing
  upgrade : ShrOn Blk IsRef rcUpgrade Nothing
  value : ShrOn Blk IsRef (do let r ← boxRef 0; Mach.readAt r.2 0 1) Nothing
  asMut : ∀ s, Blk s → ∃ t s', rcAsMut s = some (t, s') ∧ Blk s' ∧ IsMut t s'
  readAt : ∀ t s, Blk s → IsRef t s →
    ∃ s', Mach.readAt t 0 1 s = some ((), s') ∧ Blk s' ∧ ∀ u, IsRef u s → IsRef u s'
  writeAt : ∀ t s, Blk s → IsMut t s →
    ∃ s', Mach.writeAt t 0 1 s = some ((), s') ∧ Blk s' ∧ IsMut t s'
  dropAt : ∀ t s, Blk s → IsMut t s → ∃ s', Alias.dropAt t 0 s = some ((), s') ∧ Blk s'

namespace Handles

open HRules

variable {σ : Type} [Mach σ] [HRules σ]

/-- `&`s to the value are still there. -/
def Kept (s s' : σ) : Prop := ∀ t, IsRef t s → IsRef t s'

theorem Kept.trans {s s' s'' : σ} (h : Kept s s') (h' : Kept s' s'') : Kept s s'' :=
  fun t ht => h' t (h t ht)

/-- Code that works in every state, and takes no `&` to the value away. -/
def Shr {β : Type} (m : M σ β) (Q : β → σ → Prop) : Prop :=
  ∀ s, Blk s → ∃ b s', m s = some (b, s') ∧ Blk s' ∧ Kept s s' ∧ Q b s'

theorem Shr.bind {β γ : Type} {m : M σ β} {k : β → M σ γ} {Q : β → σ → Prop} {R : γ → σ → Prop}
    (h : Shr (σ := σ) m Q) (hk : ∀ b, Shr (σ := σ) (k b) R) : Shr (σ := σ) (m >>= k) R := by
  intro s hs
  obtain ⟨b, s1, e1, h1, k1, _⟩ := h s hs
  obtain ⟨c, s2, e2, h2, k2, q2⟩ := hk b s1 h1
  exact ⟨c, s2, by rw [bind_some e1, e2], h2, k1.trans k2, q2⟩

/-- Nothing more is known. -/
abbrev Any {β : Type} : β → σ → Prop := Nothing

theorem Shr.any {β : Type} {m : M σ β} {Q : β → σ → Prop} (h : Shr (σ := σ) m Q) : Shr (σ := σ) m Any := by
  intro s hs
  obtain ⟨b, s1, e1, h1, k1, _⟩ := h s hs
  exact ⟨b, s1, e1, h1, k1, trivial⟩

theorem shr_ret {β : Type} (b : β) : Shr (σ := σ) (ret b) Any :=
  fun s hs => ⟨b, s, rfl, hs, fun _ hx => hx, trivial⟩

/-- Code that works in every state. -/
def Wrk {β : Type} (m : M σ β) (Q : β → σ → Prop) : Prop :=
  ∀ s, Blk s → ∃ b s', m s = some (b, s') ∧ Blk s' ∧ Q b s'

theorem Shr.wrk {β : Type} {m : M σ β} {Q : β → σ → Prop} (h : Shr (σ := σ) m Q) : Wrk (σ := σ) m Q := by
  intro s hs
  obtain ⟨b, s1, e1, h1, _, q1⟩ := h s hs
  exact ⟨b, s1, e1, h1, q1⟩

theorem Wrk.bind {β γ : Type} {m : M σ β} {k : β → M σ γ} {Q : β → σ → Prop} {R : γ → σ → Prop}
    (h : Wrk (σ := σ) m Q) (hk : ∀ b, Wrk (σ := σ) (k b) R) : Wrk (σ := σ) (m >>= k) R := by
  intro s hs
  obtain ⟨b, s1, e1, h1, _⟩ := h s hs
  obtain ⟨c, s2, e2, h2, q2⟩ := hk b s1 h1
  exact ⟨c, s2, by rw [bind_some e1, e2], h2, q2⟩

theorem shr_loadCnt {i : Nat} (hi : i = 1 ∨ i = 2) : Shr (σ := σ) (loadCnt 0 i : M σ Unit) Any := load i hi
theorem shr_storeCnt {i : Nat} (hi : i = 1 ∨ i = 2) : Shr (σ := σ) (storeCnt 0 i : M σ Unit) Any := store i hi
theorem shr_bumpCnt {i : Nat} (hi : i = 1 ∨ i = 2) : Shr (σ := σ) (bumpCnt 0 i : M σ Unit) Any := bump i hi
theorem shr_rcDeref : Shr (σ := σ) (rcDeref : M σ Nat) IsRef := deref
theorem wrk_asMut : Wrk (σ := σ) (rcAsMut : M σ Nat) IsMut := asMut
theorem wrk_rcIsSingle (strong : Nat) : Shr (σ := σ) (rcIsSingle strong : M σ Unit) Any := single strong
theorem shr_rcUpgrade : Shr (σ := σ) (rcUpgrade : M σ Unit) Any := upgrade


theorem wrk_rcDrop (strong : Nat) : Wrk (σ := σ) (rcDrop strong) Any := by
  refine (shr_loadCnt (.inl rfl)).wrk.bind fun _ => ?_
  split
  · exact wrk_asMut.bind fun _ => (shr_loadCnt (.inl rfl)).wrk
  · exact (shr_bumpCnt (.inl rfl)).wrk.bind fun _ => (shr_loadCnt (.inl rfl)).wrk

theorem shr_rcDrop {strong : Nat} (h : strong ≠ 1) : Shr (σ := σ) (rcDrop strong) Any := by
  refine (shr_loadCnt (.inl rfl)).bind fun _ => ?_
  rw [if_neg h]
  exact (shr_bumpCnt (.inl rfl)).bind fun _ => shr_loadCnt (.inl rfl)

theorem wrk_rcTryUnwrap : Wrk (σ := σ) (rcTryUnwrap 1) Any := by
  refine (shr_loadCnt (.inl rfl)).wrk.bind fun _ => ?_
  intro s h
  obtain ⟨_, s2, e2, h2, _⟩ := value s h
  obtain ⟨r, s1, e1, e2⟩ := bind_inv e2
  obtain ⟨b, s3, e3, h3, _⟩ := wrk_rcDrop 1 s2 h2
  refine ⟨b, s3, ?_, h3, trivial⟩
  rw [if_pos rfl, bind_some e1, bind_some e2, e3]

theorem shr_rcTryUnwrap {strong : Nat} (h : strong ≠ 1) : Shr (σ := σ) (rcTryUnwrap strong) Any := by
  refine (shr_loadCnt (.inl rfl)).bind fun _ => ?_
  rw [if_neg h]
  exact shr_ret ()

theorem wrk_rcMakeMutOnly : Wrk (σ := σ) rcMakeMutOnly IsMut :=
  (shr_loadCnt (.inl rfl)).wrk.bind fun _ => (shr_loadCnt (.inr rfl)).wrk.bind fun _ => wrk_asMut

theorem shr_read_then {m : M σ Unit} (hm : Shr (σ := σ) m Any) :
    Shr (σ := σ) (do let t ← rcDeref; Mach.readAt t 0 1; m) Any := by
  intro s h
  obtain ⟨u, s1, e1, h1, k1, m1⟩ := shr_rcDeref s h
  obtain ⟨s2, e2, h2, k2⟩ := readAt u s1 h1 m1
  obtain ⟨b, s3, e3, h3, k3, _⟩ := hm s2 h2
  exact ⟨b, s3, by rw [bind_some e1, bind_some e2, e3], h3,
    k1.trans (Kept.trans k2 k3), trivial⟩

theorem shr_rcMakeMutClone {strong : Nat} (h : strong ≠ 1) : Shr (σ := σ) (rcMakeMutClone strong) Any :=
  (shr_loadCnt (.inl rfl)).bind fun _ => shr_read_then (shr_rcDrop h)

theorem shr_arcIsUnique (weak : Nat) : Shr (σ := σ) (arcIsUnique weak) Any := by
  unfold arcIsUnique
  split
  · exact (shr_storeCnt (.inr rfl)).bind fun _ => (shr_loadCnt (.inl rfl)).bind fun _ =>
      shr_storeCnt (.inr rfl)
  · exact shr_loadCnt (.inr rfl)

theorem shr_arcDeref : Shr (σ := σ) arcDeref IsRef := shr_rcDeref

theorem wrk_arcGetMutUnchecked : Wrk (σ := σ) arcGetMutUnchecked IsMut := wrk_asMut

theorem shr_arcDrop {strong : Nat} (h : strong ≠ 1) : Shr (σ := σ) (arcDrop strong) Any := by
  refine (shr_storeCnt (.inl rfl)).bind fun _ => ?_
  rw [if_neg h]
  exact shr_ret ()

theorem wrk_arcDrop : Wrk (σ := σ) (arcDrop 1) Any := by
  refine (shr_storeCnt (.inl rfl)).wrk.bind fun _ => ?_
  rw [if_pos rfl]
  intro s h
  obtain ⟨t, s1, e1, h1, c1⟩ := wrk_arcGetMutUnchecked s h
  obtain ⟨s3, ed, h3⟩ := HRules.dropAt t s1 h1 c1
  obtain ⟨b, s4, e4, h4, _⟩ := shr_loadCnt (i := 2) (.inr rfl) s3 h3
  refine ⟨b, s4, ?_, h4, trivial⟩
  rw [bind_some e1, bind_some ed, e4]

theorem shr_arcTryUnwrap (strong : Nat) : Shr (σ := σ) (arcTryUnwrap strong) Any := by
  unfold arcTryUnwrap
  split
  · exact (shr_storeCnt (.inl rfl)).bind fun _ => shr_read_then (shr_loadCnt (.inr rfl))
  · exact shr_loadCnt (.inl rfl)

theorem wrk_arcMakeMutOnly : Wrk (σ := σ) arcMakeMutOnly IsMut :=
  (shr_loadCnt (.inl rfl)).wrk.bind fun _ => (shr_loadCnt (.inr rfl)).wrk.bind fun _ =>
    wrk_arcGetMutUnchecked

theorem shr_arcMakeMutClone {strong : Nat} (h : strong ≠ 1) : Shr (σ := σ) (arcMakeMutClone strong) Any :=
  (shr_loadCnt (.inl rfl)).bind fun _ => (shr_loadCnt (.inr rfl)).bind fun _ =>
    shr_read_then (shr_arcDrop h)

/-- `get_mut`: `Some` for the only handle, else nothing is touched. -/
theorem getMut_ok {m : M σ Unit} (hm : Shr (σ := σ) m Any) (strong weak : Nat) {s : σ} (h : Blk s) :
    ∃ o s', (do
      m
      if strong = 1 ∧ weak = 0 then do
        let t ← rcAsMut
        ret (some t)
      else ret none : M σ (Option Nat)) s = some (o, s') ∧ Blk s' ∧
      (o = none ∧ Kept s s' ∨
        ∃ t, o = some t ∧ strong = 1 ∧ weak = 0 ∧ IsMut t s') := by
  obtain ⟨b, s1, e1, h1, k1, _⟩ := hm s h
  rw [bind_some e1]
  by_cases hc : strong = 1 ∧ weak = 0
  · obtain ⟨t, s2, e2, h2, c2⟩ := asMut s1 h1
    refine ⟨some t, s2, ?_, h2, .inr ⟨t, rfl, hc.1, hc.2, c2⟩⟩
    rw [if_pos hc, bind_some e2]; rfl
  · exact ⟨none, s1, by rw [if_neg hc]; rfl, h1, .inl ⟨rfl, k1⟩⟩

/-! ## Programs -/

/-- The state of a program: there are not more handles than the counters say, the `&T`s can be
read, the `&mut T` can be written, and where there is one it is the only reference, of the only
handle. -/
structure HInv (g : HProg σ) : Prop where
  blk : Blk g.st
  le : g.hs.length ≤ g.strong
  wle : g.wk ≤ g.weak
  shr : ∀ r ∈ g.hs, ∀ t ∈ r.1, IsRef t g.st
  uniq : ∀ r ∈ g.hs, ∀ t, r.2 = some t →
    IsMut t g.st ∧ g.hs = [r] ∧ r.1 = [] ∧ g.weak = 0

theorem hinv_start : HInv (HProg.start : HProg σ) := by
  refine ⟨start, Nat.le_refl _, Nat.le_refl _, fun r hr t ht => ?_, fun r hr t ht => ?_⟩
  · simp [HProg.start] at hr; subst hr; cases ht
  · simp [HProg.start] at hr; subst hr; cases ht

theorem HInv.quiet {g : HProg σ} (h : HInv g) {i : Nat} {r : List Nat × Option Nat}
    (hi : g.hs[i]? = some r) (l : List Nat) : ∀ r' ∈ g.hs.set i (l, none), r'.2 = none := by
  intro r' hr'
  obtain ⟨j, hj⟩ := List.mem_iff_getElem?.1 hr'
  by_cases hji : i = j
  · subst hji
    rw [List.getElem?_set_self (List.getElem?_eq_some_iff.1 hi).1] at hj
    cases hj; rfl
  · rw [List.getElem?_set_ne hji] at hj
    cases ht : r'.2 with
    | none => rfl
    | some t =>
      have h1 := (h.uniq r' (List.mem_of_getElem? hj) t ht).2.1
      have h2 := (List.getElem?_eq_some_iff.1 hj).1
      have h3 := (List.getElem?_eq_some_iff.1 hi).1
      rw [h1] at h2 h3
      simp at h2 h3
      omega

theorem HInv.quiet_erase {g : HProg σ} (h : HInv g) {i : Nat} {r : List Nat × Option Nat}
    (hi : g.hs[i]? = some r) : ∀ r' ∈ g.hs.eraseIdx i, r'.2 = none := by
  intro r' hr'
  have hm := List.mem_of_mem_eraseIdx hr'
  cases ht : r'.2 with
  | none => rfl
  | some t =>
    have h1 := (h.uniq r' hm t ht).2.1
    have h3 := (List.getElem?_eq_some_iff.1 hi).1
    rw [h1] at h3 hr'
    simp at h3
    subst h3
    simp at hr'

theorem hinv_quiet {g : HProg σ} (blk : Blk g.st) (le : g.hs.length ≤ g.strong)
    (wle : g.wk ≤ g.weak) (hq : ∀ r ∈ g.hs, r.2 = none)
    (shr : ∀ r ∈ g.hs, ∀ t ∈ r.1, IsRef t g.st) : HInv g :=
  ⟨blk, le, wle, shr, fun r hr t ht => by rw [hq r hr] at ht; cases ht⟩

/-- Shared calls. -/
theorem HInv.shared {β : Type} {g : HProg σ} (h : HInv g) {i : Nat} {r : List Nat × Option Nat}
    (hi : g.hs[i]? = some r) {m : M σ β} {Q : β → σ → Prop} (hm : Shr (σ := σ) m Q)
    {k : β → HProg σ → HProg σ}
    (hk : ∀ b st, HInv { g with st := st, hs := g.hs.set i (r.1, none) } → Q b st →
      (∀ r' ∈ g.hs.set i (r.1, none), r'.2 = none) → HInv (k b { g with st := st })) :
    ∃ g', g.call m k = some g' ∧ HInv g' := by
  obtain ⟨b, s, e, hb, hkept, q⟩ := hm g.st h.blk
  refine ⟨k b { g with st := s }, by simp only [HProg.call, e], hk b s ?_ q (h.quiet hi _)⟩
  refine hinv_quiet hb (by simpa using h.le) h.wle (h.quiet hi _) fun r' hr' t ht => ?_
  refine hkept _ ?_
  rcases List.mem_or_eq_of_mem_set hr' with hr' | rfl
  · exact h.shr r' hr' t ht
  · exact h.shr r (List.mem_of_getElem? hi) t ht

/-- Calls on a handle that is gone afterwards, while there are others. -/
theorem HInv.leave {g : HProg σ} (h : HInv g) {i : Nat} {r : List Nat × Option Nat}
    (hi : g.hs[i]? = some r) {m : M σ Unit} (hm : Shr (σ := σ) m Any) (n : Nat)
    (hn : g.hs.length ≤ n + 1) :
    ∃ g', g.call m (fun _ g => { g with strong := n, hs := g.hs.eraseIdx i }) = some g' ∧
      HInv g' := by
  obtain ⟨b, s, e, hb, hkept, _⟩ := hm g.st h.blk
  refine ⟨{ g with st := s, strong := n, hs := g.hs.eraseIdx i }, by simp only [HProg.call, e],
    hinv_quiet hb ?_ h.wle (h.quiet_erase hi) fun r' hr' t ht => ?_⟩
  · have := (List.getElem?_eq_some_iff.1 hi).1
    show (g.hs.eraseIdx i).length ≤ n
    rw [List.length_eraseIdx_of_lt this]
    omega
  · exact hkept _ (h.shr r' (List.mem_of_mem_eraseIdx hr') t ht)

theorem HInv.only {g : HProg σ} (h : HInv g) {i : Nat} {r : List Nat × Option Nat}
    (hi : g.hs[i]? = some r) (h1 : g.strong = 1) : g.hs = [r] ∧ i = 0 := by
  have hl := h.le
  have := (List.getElem?_eq_some_iff.1 hi).1
  match hg : g.hs with
  | [] => rw [hg] at this; simp at this
  | [x] =>
    rw [hg] at this hi
    simp at this
    subst this
    simp at hi
    subst hi
    exact ⟨rfl, rfl⟩
  | x :: y :: l => rw [hg] at hl; simp at hl; omega

/-- Calls on the last handle, that is gone afterwards. -/
theorem HInv.last {g : HProg σ} (h : HInv g) {i : Nat} {r : List Nat × Option Nat}
    (hi : g.hs[i]? = some r) (h1 : g.strong = 1) {m : M σ Unit} (hm : Wrk (σ := σ) m Any) (n : Nat) :
    ∃ g', g.call m (fun _ g => { g with strong := n, hs := g.hs.eraseIdx i }) = some g' ∧
      HInv g' := by
  obtain ⟨b, s, e, hb, _⟩ := hm g.st h.blk
  obtain ⟨hg, rfl⟩ := h.only hi h1
  refine ⟨{ g with st := s, strong := n, hs := g.hs.eraseIdx 0 }, by simp only [HProg.call, e],
    hinv_quiet hb ?_ h.wle (h.quiet_erase hi) fun r' hr' t ht => ?_⟩
  · show (g.hs.eraseIdx 0).length ≤ n
    rw [hg]; simp
  · have : r' ∈ g.hs.eraseIdx 0 := hr'
    rw [hg] at this; simp at this

/-- Calls that make a `&mut` to the value of the only handle. -/
theorem HInv.toMut {g : HProg σ} (h : HInv g) {i : Nat} {r : List Nat × Option Nat}
    (hi : g.hs[i]? = some r) (h1 : g.strong = 1) (hw : g.weak = 0) {s : σ} {t : Nat} (hb : Blk s)
    (hc : IsMut t s) : HInv { g with st := s, hs := g.hs.set i ([], some t) } := by
  obtain ⟨hg, rfl⟩ := h.only hi h1
  have hset : g.hs.set 0 ([], some t) = [([], some t)] := by rw [hg]; rfl
  refine ⟨hb, ?_, h.wle, ?_, ?_⟩
  · simp only [hset]; simp; omega
  · simp only [hset]
    intro r' hr'
    simp at hr'
    subst hr'
    simp
  · simp only [hset]
    intro r' hr' t' ht'
    simp at hr'
    subst hr'
    cases ht'
    exact ⟨hc, rfl, rfl, hw⟩

theorem HInv.toGet {g : HProg σ} (h : HInv g) {i : Nat} {r : List Nat × Option Nat}
    (hi : g.hs[i]? = some r) {m : M σ (Option Nat)}
    (hm : ∃ o s', m g.st = some (o, s') ∧ Blk s' ∧
      (o = none ∧ Kept g.st s' ∨
        ∃ t, o = some t ∧ g.strong = 1 ∧ g.weak = 0 ∧ IsMut t s')) :
    ∃ g', g.call m (fun t g => { g with hs := g.hs.set i ([], t) }) = some g' ∧ HInv g' := by
  obtain ⟨o, s, e, hb, ho⟩ := hm
  refine ⟨{ g with st := s, hs := g.hs.set i ([], o) }, by simp only [HProg.call, e], ?_⟩
  rcases ho with ⟨rfl, hk⟩ | ⟨t, rfl, h1, hw, hc⟩
  · refine hinv_quiet hb (by simpa using h.le) h.wle (h.quiet hi _) fun r' hr' t ht => ?_
    rcases List.mem_or_eq_of_mem_set hr' with hr' | rfl
    · exact hk _ (h.shr r' hr' t ht)
    · cases ht
  · exact h.toMut hi h1 hw hb hc

theorem HInv.toMake {g : HProg σ} (h : HInv g) {i : Nat} {r : List Nat × Option Nat}
    (hi : g.hs[i]? = some r) (h1 : g.strong = 1) (hw : g.weak = 0) {m : M σ Nat}
    (hm : Wrk (σ := σ) m IsMut) :
    ∃ g', g.call m (fun t g => { g with hs := g.hs.set i ([], some t) }) = some g' ∧ HInv g' := by
  obtain ⟨t, s, e, hb, hc⟩ := hm g.st h.blk
  exact ⟨{ g with st := s, hs := g.hs.set i ([], some t) }, by simp only [HProg.call, e],
    h.toMut hi h1 hw hb hc⟩

theorem HInv.weakCall {g : HProg σ} (h : HInv g) (hw : 0 < g.wk) {m : M σ Unit} (hm : Shr (σ := σ) m Any)
    {k : Unit → HProg σ → HProg σ}
    (hk : ∀ st, HInv { g with st := st } → (∀ r ∈ g.hs, r.2 = none) → HInv (k () { g with st := st })) :
    ∃ g', g.call m k = some g' ∧ HInv g' := by
  obtain ⟨b, s, e, hb, hkept, _⟩ := hm g.st h.blk
  have hq : ∀ r ∈ g.hs, r.2 = none := fun r hr => by
    cases ht : r.2 with
    | none => rfl
    | some t =>
      have h1 := (h.uniq r hr t ht).2.2.2
      have := h.wle
      omega
  refine ⟨k () { g with st := s }, by simp only [HProg.call, e], hk s ?_ hq⟩
  exact hinv_quiet hb h.le h.wle hq fun r hr t ht => hkept _ (h.shr r hr t ht)

theorem HInv.step {g : HProg σ} (h : HInv g) (k : Kind) (c : HCall) :
    ∃ g', g.step k c = some g' ∧ HInv g' := by
  cases c with
  | deref i =>
    simp only [HProg.step]
    cases hi : g.hs[i]? with
    | none => exact ⟨g, rfl, h⟩
    | some r =>
      refine h.shared hi (Q := IsRef) (by cases k <;> exact shr_rcDeref) fun b st h' q hq => ?_
      have hm : ∀ r' ∈ g.hs.set i (r.1 ++ [b], none), r'.2 = none := h.quiet hi _
      refine hinv_quiet h'.blk (by simpa using h.le) h.wle hm fun r' hr' t ht => ?_
      rcases List.mem_or_eq_of_mem_set hr' with hr' | rfl
      · obtain ⟨j, hj⟩ := List.mem_iff_getElem?.1 hr'
        by_cases hji : i = j
        · subst hji
          rw [hi] at hj
          cases hj
          exact h'.shr (r.1, none) (List.mem_set (List.getElem?_eq_some_iff.1 hi).1 _) t ht
        · refine h'.shr r' (List.mem_of_getElem? (i := j) ?_) t ht
          show (g.hs.set i (r.1, none))[j]? = some r'
          rw [List.getElem?_set_ne hji, hj]
      · rcases List.mem_append.1 ht with ht | ht
        · exact h'.shr (r.1, none) (List.mem_set (List.getElem?_eq_some_iff.1 hi).1 _) t ht
        · simp at ht; subst ht; exact q
  | read i j =>
    simp only [HProg.step]
    cases hi : g.hs[i]? with
    | none => exact ⟨g, rfl, h⟩
    | some r =>
      cases hj : r.1[j]? with
      | none => simp only [hj]; exact ⟨g, rfl, h⟩
      | some t =>
        simp only [hj]
        have ht := List.mem_of_getElem? hj
        have hr := List.mem_of_getElem? hi
        obtain ⟨s, e, hb, hk⟩ := readAt t g.st h.blk (h.shr r hr t ht)
        refine ⟨{ g with st := s }, by simp only [HProg.call, e], hb, h.le, h.wle,
          fun r' hr' t' ht' => hk _ (h.shr r' hr' t' ht'), fun r' hr' t' ht' => ?_⟩
        obtain ⟨_, h2, h3, _⟩ := h.uniq r' hr' t' ht'
        rw [h2] at hr
        simp at hr
        subst hr
        rw [h3] at ht
        cases ht
  | getMut i =>
    simp only [HProg.step]
    cases hi : g.hs[i]? with
    | none => exact ⟨g, rfl, h⟩
    | some r =>
      refine h.toGet hi ?_
      cases k
      · exact getMut_ok (wrk_rcIsSingle g.strong) g.strong g.weak h.blk
      · exact getMut_ok (shr_arcIsUnique g.weak) g.strong g.weak h.blk
  | write i =>
    simp only [HProg.step]
    cases hi : g.hs[i]? with
    | none => exact ⟨g, rfl, h⟩
    | some r =>
      cases hj : r.2 with
      | none => simp only [hj]; exact ⟨g, rfl, h⟩
      | some t =>
        simp only [hj]
        have hr := List.mem_of_getElem? hi
        obtain ⟨hc, hg, hn, hw⟩ := h.uniq r hr t hj
        obtain ⟨s, e, hb, hc'⟩ := writeAt t g.st h.blk hc
        refine ⟨{ g with st := s }, by simp only [HProg.call, e], hb, h.le, h.wle,
          fun r' hr' t' ht' => ?_, fun r' hr' t' ht' => ?_⟩
        · have hr' : r' ∈ g.hs := hr'
          rw [hg] at hr'
          simp at hr'
          subst hr'
          rw [hn] at ht'
          cases ht'
        · have hr' : r' ∈ g.hs := hr'
          rw [hg] at hr'
          simp at hr'
          subst hr'
          rw [hj] at ht'
          cases ht'
          exact ⟨hc', hg, hn, hw⟩
  | strongCount i =>
    simp only [HProg.step]
    cases hi : g.hs[i]? with
    | none => exact ⟨g, rfl, h⟩
    | some r => exact h.shared hi (shr_loadCnt (.inl rfl)) fun b st h' _ _ => h'
  | weakCount i =>
    simp only [HProg.step]
    cases hi : g.hs[i]? with
    | none => exact ⟨g, rfl, h⟩
    | some r => exact h.shared hi (shr_loadCnt (.inr rfl)) fun b st h' _ _ => h'
  | clone i =>
    simp only [HProg.step]
    cases hi : g.hs[i]? with
    | none => exact ⟨g, rfl, h⟩
    | some r =>
      refine h.shared hi (Q := Any) (by
        cases k
        · exact shr_bumpCnt (.inl rfl)
        · exact shr_storeCnt (.inl rfl)) fun b st h' _ hq => ?_
      refine hinv_quiet h'.blk ?_ h.wle (fun r' hr' => ?_) fun r' hr' t ht => ?_
      · have := h.le
        simp; omega
      · rcases List.mem_append.1 hr' with hr' | hr'
        · exact hq r' hr'
        · simp at hr'; subst hr'; rfl
      · rcases List.mem_append.1 hr' with hr' | hr'
        · exact h'.shr r' hr' t ht
        · simp at hr'; subst hr'; cases ht
  | downgrade i =>
    simp only [HProg.step]
    cases hi : g.hs[i]? with
    | none => exact ⟨g, rfl, h⟩
    | some r =>
      refine h.shared hi (Q := Any) (by cases k <;> exact shr_bumpCnt (.inr rfl))
        fun b st h' _ hq => ?_
      exact hinv_quiet h'.blk h'.le (Nat.succ_le_succ h.wle) hq h'.shr
  | upgrade =>
    simp only [HProg.step]
    split
    · rename_i hc
      refine h.weakCall hc.2.1 shr_rcUpgrade fun st h' hq => ?_
      refine hinv_quiet h'.blk ?_ h.wle (fun r' hr' => ?_) fun r' hr' t ht => ?_
      · have := h.le
        simp; omega
      · rcases List.mem_append.1 hr' with hr' | hr'
        · exact hq r' hr'
        · simp at hr'; subst hr'; rfl
      · rcases List.mem_append.1 hr' with hr' | hr'
        · exact h'.shr r' hr' t ht
        · simp at hr'; subst hr'; cases ht
    · exact ⟨g, rfl, h⟩
  | cloneWeak =>
    simp only [HProg.step]
    split
    · rename_i hc
      refine h.weakCall hc.2 (shr_bumpCnt (.inr rfl)) fun st h' hq => ?_
      exact hinv_quiet h'.blk h'.le (Nat.succ_le_succ h.wle) hq h'.shr
    · exact ⟨g, rfl, h⟩
  | dropWeak =>
    simp only [HProg.step]
    split
    · rename_i hc
      cases k with
      | rc =>
        refine h.weakCall hc (shr_bumpCnt (.inr rfl)) fun st h' hq => ?_
        have := h.wle
        exact hinv_quiet h'.blk h'.le (by show g.wk - 1 ≤ g.weak - 1; omega) hq h'.shr
      | arc =>
        have := h.wle
        exact ⟨_, rfl, h.blk, h.le, by show g.wk - 1 ≤ g.weak; omega, h.shr, h.uniq⟩
    · exact ⟨g, rfl, h⟩
  | drop i =>
    simp only [HProg.step]
    cases hi : g.hs[i]? with
    | none => exact ⟨g, rfl, h⟩
    | some r =>
      have hl := h.le
      cases k with
      | rc =>
        by_cases h1 : g.strong = 1
        · have := h.last hi h1 (wrk_rcDrop g.strong) 1
          simpa only [HProg.call, h1, if_true] using this
        · have := h.leave hi (shr_rcDrop h1) (g.strong - 1) (by omega)
          simpa only [HProg.call, h1, if_false] using this
      | arc =>
        by_cases h1 : g.strong = 1
        · have := h.last hi h1 (m := arcDrop g.strong) (by rw [h1]; exact wrk_arcDrop)
            (g.strong - 1)
          exact this
        · exact h.leave hi (shr_arcDrop h1) (g.strong - 1) (by omega)
  | tryUnwrap i =>
    simp only [HProg.step]
    cases hi : g.hs[i]? with
    | none => exact ⟨g, rfl, h⟩
    | some r =>
      cases k with
      | rc =>
        by_cases h1 : g.strong = 1
        · have := h.last hi h1 (m := rcTryUnwrap g.strong) (by rw [h1]; exact wrk_rcTryUnwrap)
            g.strong
          simpa only [HProg.call, h1, if_true] using this
        · simp only [HProg.call]
          obtain ⟨b, s, e, hb, hk, _⟩ := shr_rcTryUnwrap h1 g.st h.blk
          refine ⟨({ g with st := s }).endAll i, by simp [e, h1], ?_⟩
          refine hinv_quiet hb (by simpa [HProg.endAll] using h.le) h.wle (h.quiet hi _)
            fun r' hr' t ht => ?_
          rcases List.mem_or_eq_of_mem_set hr' with hr' | rfl
          · exact hk _ (h.shr r' hr' t ht)
          · cases ht
      | arc =>
        by_cases h1 : g.strong = 1
        · have := h.last hi h1 (shr_arcTryUnwrap g.strong).wrk 0
          simpa only [HProg.call, h1, if_true] using this
        · simp only [HProg.call]
          obtain ⟨b, s, e, hb, hk, _⟩ := shr_arcTryUnwrap g.strong g.st h.blk
          refine ⟨({ g with st := s }).endAll i, by simp [e, h1], ?_⟩
          refine hinv_quiet hb (by simpa [HProg.endAll] using h.le) h.wle (h.quiet hi _)
            fun r' hr' t ht => ?_
          rcases List.mem_or_eq_of_mem_set hr' with hr' | rfl
          · exact hk _ (h.shr r' hr' t ht)
          · cases ht
  | makeMut i =>
    simp only [HProg.step]
    cases hi : g.hs[i]? with
    | none => exact ⟨g, rfl, h⟩
    | some r =>
      have hl := h.le
      by_cases h1 : g.strong = 1
      · rw [if_pos h1]
        by_cases hw : g.weak = 0
        · rw [if_pos hw]
          refine h.toMake hi h1 hw ?_
          cases k
          · exact wrk_rcMakeMutOnly
          · exact wrk_arcMakeMutOnly
        · rw [if_neg hw]; exact ⟨g, rfl, h⟩
      · rw [if_neg h1]
        refine h.leave hi ?_ (g.strong - 1) (by omega)
        cases k
        · exact shr_rcMakeMutClone h1
        · exact shr_arcMakeMutClone h1

theorem HInv.run {g : HProg σ} (h : HInv g) (k : Kind) (cs : List HCall) :
    ∃ g', g.run k cs = some g' ∧ HInv g' := by
  induction cs generalizing g with
  | nil => exact ⟨g, rfl, h⟩
  | cons c cs ih =>
    obtain ⟨g1, e1, h1⟩ := h.step k c
    obtain ⟨g2, e2, h2⟩ := ih h1
    exact ⟨g2, by simp only [HProg.run, e1, e2], h2⟩

/-- One step and the counters. -/
theorem step_counts {σ : Type} [Mach σ] (k : Kind) (g g' : HProg σ) (c : HCall) (e : g.step k c = some g')
    (h1 : g.hs.length ≤ g.strong) (h2 : g.wk ≤ g.weak) (h3 : k = .arc → g.strong = g.hs.length)
    (h4 : k = .rc → g.weak = g.wk) :
    g'.hs.length ≤ g'.strong ∧ g'.wk ≤ g'.weak ∧ (k = .arc → g'.strong = g'.hs.length) ∧
      (k = .rc → g'.weak = g'.wk) := by
  have hlt : ∀ h r, g.hs[h]? = some r → h < g.hs.length := fun h r e =>
    (List.getElem?_eq_some_iff.1 e).1
  cases c <;> simp only [HProg.step, HProg.call, HProg.endMut, HProg.endAll] at e <;>
    cases k <;> (try simp only [] at e) <;> repeat' split at e
  all_goals first
    | (cases e; done)
    | skip
  all_goals
    cases e
    try (rename_i hh _ _ _ _; have := hlt _ _ hh)
    try (rename_i hh _ _ _ _ _; have := hlt _ _ hh)
    try (rename_i hh _ _ _; have := hlt _ _ hh)
    try (rename_i hh _ _; have := hlt _ _ hh)
    clear hlt
    simp_all [List.length_eraseIdx]
    try omega

/-- `get_mut` of the only handle gives a `&mut T` that can be written through, after
anything that was done before. -/
theorem getMut_write {σ : Type} [Mach σ] [HRules σ] (k : Kind) (cs : List HCall) (g : HProg σ)
    (e : (HProg.start (σ := σ)).run k cs = some g) (h1 : g.strong = 1) (h2 : g.weak = 0)
    (hn : g.hs.length = 1) :
    ∃ g' t g'', g.step k (.getMut 0) = some g' ∧ g'.hs = [([], some t)] ∧
      g'.step k (.write 0) = some g'' ∧ (Mach.writeAt t 0 1 g'.st).isSome = true := by
  obtain ⟨g0, e0, h0⟩ := (hinv_start (σ := σ)).run k cs
  rw [e] at e0
  cases e0
  obtain ⟨r, hr⟩ := List.length_eq_one_iff.1 hn
  obtain ⟨g', e', h'⟩ := h0.step k (.getMut 0)
  have hget : g.hs[0]? = some r := by rw [hr]; rfl
  have hstep : ∃ t, g'.hs = [([], some t)] := by
    simp only [HProg.step, hget, HProg.call] at e'
    cases k
    · simp only [rcGetMut, h1, h2, and_self, if_true] at e'
      split at e'
      · rename_i b st eb
        cases e'
        obtain ⟨_, s1, _, e2⟩ := bind_inv eb
        obtain ⟨t, s2, _, e3⟩ := bind_inv e2
        cases e3
        exact ⟨t, by simp [hr]⟩
      · cases e'
    · simp only [arcGetMut, h1, h2, and_self, if_true] at e'
      split at e'
      · rename_i b st eb
        cases e'
        obtain ⟨_, s1, _, e2⟩ := bind_inv eb
        obtain ⟨t, s2, _, e3⟩ := bind_inv e2
        cases e3
        exact ⟨t, by simp [hr]⟩
      · cases e'
  obtain ⟨t, ht⟩ := hstep
  obtain ⟨g'', e'', _⟩ := h'.step k (.write 0)
  refine ⟨g', t, g'', e', ht, e'', ?_⟩
  simp only [HProg.step, ht, List.getElem?_cons_zero, HProg.call] at e''
  cases hw : Mach.writeAt t 0 1 g'.st with
  | none => simp [hw] at e''
  | some _ => rfl

end Handles

end Lokky.Alias
