import Verif.Model.Handles
import Verif.Proofs.Nested
import Verif.Proofs.RcRun

/-!
# Things in vectors: everything has one owner
-/

namespace Lokky
variable {α σ : Type} {c : Cfg α} {co : Cfg Nat} {T : Things σ}

/-- What the destructors and the other calls of things do to the things there are. `I n s` is what is known of the
state after `n` calls, for less than `B` calls. -/
structure Things.Good (T : Things σ) (I : Nat → σ → Prop) (B : Nat) : Prop where
  lt : ∀ {n s x}, I n s → T.alive s x = true → x < T.made s
  use : ∀ {n s s'}, I n s → n < B → T.use s s' → I (n + 1) s' ∧ T.made s ≤ T.made s' ∧
    ∀ x, T.alive s' x = true → T.alive s x = true ∨ T.made s ≤ x
  fresh : ∀ {n s s'}, I n s → n < B → T.use s s' → ∀ x, T.made s ≤ x → x < T.made s' → T.alive s' x = true
  drop : ∀ {n s x}, I n s → n < B → T.alive s x = true → ∃ s', T.drop x s = .ok () s' ∧ I (n + 1) s' ∧
    T.made s' = T.made s ∧ ∀ y, T.alive s' y = true ↔ T.alive s y = true ∧ y ≠ x

/-- Dropping things that exist, each once. -/
theorem Things.Good.dropEach {I : Nat → σ → Prop} {B : Nat} (g : T.Good I B) (xs : List Nat) :
    ∀ {n : Nat} {s : σ}, I n s → n + xs.length ≤ B → xs.Nodup → (∀ x ∈ xs, T.alive s x = true) →
      ∃ s', T.dropEach xs s = .ok () s' ∧ I (n + xs.length) s' ∧ T.made s' = T.made s ∧
        ∀ y, T.alive s' y = true ↔ T.alive s y = true ∧ y ∉ xs := by
  induction xs with
  | nil => intro n s h _ _ _; exact ⟨s, rfl, h, rfl, by simp⟩
  | cons x xs ih =>
    intro n s h hb hn ha
    simp only [List.length_cons] at hb
    obtain ⟨hn1, hn2⟩ := List.nodup_cons.mp hn
    obtain ⟨s1, e1, i1, m1, a1⟩ := g.drop h (by omega) (ha x (by simp))
    obtain ⟨s', e2, i2, m2, a2⟩ := ih i1 (by omega) hn2 (fun y hy =>
      (a1 y).mpr ⟨ha y (by simp [hy]), fun e => hn1 (e ▸ hy)⟩)
    refine ⟨s', ?_, ?_, m2.trans m1, fun y => ?_⟩
    · rw [Things.dropEach, if_pos (ha x (by simp)), e1]; exact e2
    · rw [List.length_cons]
      have : n + (xs.length + 1) = n + 1 + xs.length := by omega
      rw [this]; exact i2
    · rw [a2, a1]
      simp only [List.mem_cons, not_or, and_assoc]

/-- The vectors hold `L`; everything that exists is either held by the client or stored in one place of one
vector. -/
structure ShelfInv (T : Things σ) (I : Nat → σ → Prop) (co : Cfg Nat) (N0 N : Shelf σ) (n : Nat)
    (ho : Spec.History Nat) (L : Spec.Lists Nat) : Prop where
  good : I n N.things
  ro : Reaches co N0.vecs ho N.vecs
  po : PInv co N.vecs L
  nodup : (N.held ++ L.contents).Nodup
  owned : ∀ x, x ∈ N.held ++ L.contents ↔ T.alive N.things x = true

theorem ShelfInv.use {I : Nat → σ → Prop} {B n : Nat} {N0 N : Shelf σ} {ho : Spec.History Nat}
    {L : Spec.Lists Nat} {s' : σ} (g : T.Good I B) (h : ShelfInv T I co N0 N n ho L) (hb : n < B)
    (hu : T.use N.things s') (hh : ∀ x, T.alive N.things x = true → T.alive s' x = false → x ∈ N.held) :
    ShelfInv T I co N0 ⟨s', N.vecs, T.heldAfter N.things s' N.held⟩ (n + 1) ho L := by
  obtain ⟨i', hm, old⟩ := g.use h.good hb hu
  have fresh := g.fresh h.good hb hu
  obtain ⟨n1, n2, n3⟩ := List.nodup_append.mp h.nodup
  have lt : ∀ x, x ∈ N.held ++ L.contents → x < T.made N.things := fun x hx =>
    g.lt h.good ((h.owned x).mp hx)
  have inL : ∀ x, x ∈ L.contents → T.alive s' x = true := by
    intro x hx
    cases e : T.alive s' x with
    | true => rfl
    | false => exact (n3 x (hh x ((h.owned x).mp (by simp [hx])) e) x hx rfl).elim
  refine ⟨i', h.ro, h.po, ?_, fun x => ?_⟩
  · simp only [Things.heldAfter]
    rw [List.append_assoc, List.nodup_append]
    refine ⟨n1.filter _, ?_, ?_⟩
    · rw [List.nodup_append]
      refine ⟨List.nodup_range', n2, ?_⟩
      intro a ha b hb' e
      subst e
      have := List.mem_range'_1.mp ha
      have := lt a (by simp [hb'])
      omega
    · intro a ha b hb' e
      subst e
      have ha := (List.mem_filter.mp ha).1
      rcases List.mem_append.mp hb' with hb' | hb'
      · have := List.mem_range'_1.mp hb'
        have := lt a (by simp [ha])
        omega
      · exact n3 a ha a hb' rfl
  · simp only [Things.heldAfter, List.mem_append, List.mem_filter, List.mem_range'_1]
    constructor
    · rintro ((⟨_, a⟩ | ⟨a, b⟩) | a)
      · exact a
      · exact fresh x a (by omega)
      · exact inL x a
    · intro a
      rcases old x a with b | b
      · rcases List.mem_append.mp ((h.owned x).mpr b) with b | b
        · exact .inl (.inl ⟨b, a⟩)
        · exact .inr b
      · have := g.lt i' a
        exact .inl (.inr ⟨b, by omega⟩)

theorem ShelfInv.vec {I : Nat → σ → Prop} {B n : Nat} {N0 N : Shelf σ} {ho : Spec.History Nat}
    {L : Spec.Lists Nat} {cmd : Spec.Cmd Nat} {ev : Spec.Event Nat} {O' : Pool Nat} {rest : List Nat}
    (g : T.Good I B) (hso : co.size ≠ 0) (hdo : ∀ a, co.dropPanics a = false)
    (h : ShelfInv T I co N0 N n ho L) (hb : n + (droppedBy N.vecs O').length ≤ B)
    (hl : cmd.Legal co N.vecs) (hp : cmd.Plain) (hh : N.held.Perm (cmd.given ++ rest))
    (he : Happens co N.vecs cmd ev O') :
    ∃ s' L', T.dropEach (droppedBy N.vecs O') N.things = .ok () s' ∧
      ShelfInv T I co N0 ⟨s', O', rest ++ Spec.taken cmd ev⟩ (n + (droppedBy N.vecs O').length)
        (ho ++ [(cmd, ev)]) L' := by
  obtain ⟨L1, made, dropped, h1, h2, h3⟩ := he.ok hso hdo h.po hl
  have hm := h1.plain hp
  subst hm
  have hdr : droppedBy N.vecs O' = dropped := by simp [droppedBy, h3]
  have cons := h1.conserve
  simp only [List.append_nil] at cons
  have all : (N.held ++ L.contents).Perm (dropped ++ ((rest ++ Spec.taken cmd ev) ++ L1.contents)) := by
    refine List.perm_iff_count.mpr fun a => ?_
    have e1 := List.perm_iff_count.mp hh a
    have e2 := List.perm_iff_count.mp cons a
    simp only [List.count_append] at e1 e2 ⊢
    omega
  have hn := all.nodup_iff.mp h.nodup
  obtain ⟨n1, n2, n3⟩ := List.nodup_append.mp hn
  rw [hdr] at hb ⊢
  obtain ⟨s', k1, k2, k3, k4⟩ := g.dropEach dropped h.good hb n1 (fun x hx =>
    (h.owned x).mp (all.mem_iff.mpr (by simp [hx])))
  refine ⟨s', L1, k1, k2, h.ro.step hl he, h2, n2, fun x => ?_⟩
  show x ∈ (rest ++ Spec.taken cmd ev) ++ L1.contents ↔ T.alive s' x = true
  rw [k4, ← h.owned, all.mem_iff]
  constructor
  · intro hx
    exact ⟨List.mem_append.mpr (.inr hx), fun hy => n3 x hy x hx rfl⟩
  · rintro ⟨hx, hy⟩
    rcases List.mem_append.mp hx with hx | hx
    · exact (hy hx).elim
    · exact hx

theorem TReaches.inv {I : Nat → σ → Prop} {B n : Nat} {s0 : σ} {N0 N : Shelf σ} {ho : Spec.History Nat}
    (g : T.Good I B) (hi : I 0 s0) (ha : ∀ x, T.alive s0 x = false) (hso : co.size ≠ 0)
    (hdo : ∀ a, co.dropPanics a = false) (h0 : N0.Initial s0) (h : TReaches T co N0 n ho N) (hb : n ≤ B) :
    ∃ L, ShelfInv T I co N0 N n ho L := by
  induction h with
  | start =>
    obtain ⟨e1, e2, e3⟩ := h0
    refine ⟨[], e1 ▸ hi, .start, .initial e2, ?_, fun x => ?_⟩
    · rw [e3]; simp [Spec.Lists.contents]
    · rw [e3, e1, ha x]; simp [Spec.Lists.contents]
  | use _ hu hh ih =>
    obtain ⟨L, ih⟩ := ih (by omega)
    exact ⟨L, ih.use g (by omega) hu hh⟩
  | vec _ hl hp hh he hk ih =>
    obtain ⟨L, ih⟩ := ih (by omega)
    obtain ⟨s', L', k1, k2⟩ := ih.vec g hso hdo hb hl hp hh he
    rw [hk] at k1
    cases k1
    exact ⟨L', k2⟩

theorem ShelfInv.shows {I : Nat → σ → Prop} {N0 N : Shelf σ} {n : Nat} {ho : Spec.History Nat} {L : Spec.Lists Nat}
    (hso : co.size ≠ 0) (i : ShelfInv T I co N0 N n ho L) {x : Nat} {v : VecH} {l : List Nat}
    (hv : N.vecs.vecs[x]? = some (some v)) (hl : L[x]? = some (some l)) :
    Vec.asSlice co ⟨v, N.vecs.w⟩ = .ok l ⟨v, N.vecs.w⟩ := by
  obtain ⟨l', hl', hr⟩ := i.po.rep x v hv
  rw [hl] at hl'
  cases hl'
  exact asSlice_spec (s := ⟨v, N.vecs.w⟩) hso hr

theorem ShelfInv.kept_eq {I : Nat → σ → Prop} {N0 N : Shelf σ} {n : Nat} {ho : Spec.History Nat} {L : Spec.Lists Nat}
    (hso : co.size ≠ 0) (i : ShelfInv T I co N0 N n ho L) : N.kept co = L.contents := by
  unfold Shelf.kept Spec.Lists.contents
  rw [List.flatMap_def, List.flatMap_def]
  congr 1
  refine List.ext_getElem (by simp [i.po.len]) fun x h1 h2 => ?_
  simp only [List.length_map] at h1 h2
  rw [List.getElem_map, List.getElem_map]
  cases e : N.vecs.vecs[x] with
  | some v =>
    have e' : N.vecs.vecs[x]? = some (some v) := by rw [List.getElem?_eq_getElem h1, e]
    obtain ⟨l, hl, _⟩ := i.po.rep x v e'
    simp only [i.shows hso e' hl]
    rw [List.getElem?_eq_getElem h2, Option.some.injEq] at hl
    rw [hl]; rfl
  | none =>
    cases e2 : L[x] with
    | none => rfl
    | some l =>
      obtain ⟨v, hv⟩ := i.po.live x l (by rw [List.getElem?_eq_getElem h2, e2])
      rw [List.getElem?_eq_getElem h1, e] at hv
      cases hv

theorem ShelfInv.gone {I : Nat → σ → Prop} {N0 N : Shelf σ} {n : Nat} {ho : Spec.History Nat} {L : Spec.Lists Nat}
    (i : ShelfInv T I co N0 N n ho L) (hheld : N.held = []) (hv : ∀ x, ¬ N.vecs.Alive x) :
    ∀ x, T.alive N.things x = false := by
  intro x
  have hc : L.contents = [] := by
    simp only [Spec.Lists.contents, List.flatMap_eq_nil_iff]
    intro o ho
    obtain ⟨y, hy⟩ := List.getElem?_of_mem ho
    cases o with
    | none => rfl
    | some l => exact (hv y ((i.po.alive_iff y).mpr ⟨l, hy⟩)).elim
  have := i.owned x
  rw [hheld, hc] at this
  cases h : T.alive N.things x with
  | false => rfl
  | true => exact absurd (this.mpr h) (by simp)

theorem Pool.all_none {β : Type} {P : Pool β} (hP : ∀ x, ¬ P.Alive x) (x : Nat) (hx : P.vecs[x]? ≠ none) :
    P.vecs[x]? = some none := by
  cases e : P.vecs[x]? with
  | none => exact (hx e).elim
  | some o =>
    cases o with
    | none => rfl
    | some v => exact (hP x ⟨v, e⟩).elim

theorem storeAll_reaches {κ : Type} {step : κ → σ → Option σ} (hst : ∀ {k s s'}, step k s = some s' → T.use s s')
    (hlt : ∀ {s x}, T.alive s x = true → x < T.made s) {N0 : Shelf σ} (cmds : List (ShelfCmd κ)) {N : Shelf σ} {n : Nat}
    {ho : Spec.History Nat} {r : Nat × Shelf σ} (hr : TReaches T co N0 n ho N)
    (he : storeAll T step co cmds n N = some r) : ∃ ho', TReaches T co N0 r.1 ho' r.2 := by
  have pl : ∀ cmd : Spec.Cmd Nat, cmd.plain = true → cmd.Plain := by
    intro cmd
    cases cmd with
    | on x o => cases o <;> simp [Spec.Cmd.plain, Spec.Cmd.Plain, Spec.Op.Plain]
    | _ => simp [Spec.Cmd.plain, Spec.Cmd.Plain]
  induction cmds generalizing N n ho with
  | nil => simp only [storeAll, Option.some.injEq] at he; subst he; exact ⟨ho, hr⟩
  | cons cmd cmds ih =>
    cases cmd with
    | use k =>
      unfold storeAll at he
      split at he
      · rename_i s' hs
        split at he
        · rename_i ht
          refine ih (.use hr (hst hs) fun x h1 h2 => ?_) he
          have := List.all_eq_true.mp ht x (List.mem_range.mpr (hlt h1))
          simpa [h1, h2] using this
        · cases he
      · cases he
    | vec cmd =>
      unfold storeAll at he
      split at he
      · rename_i hl
        simp only [Bool.and_eq_true, decide_eq_true_eq] at hl
        split at he
        · rename_i h1
          split at he
          · rename_i h2
            exact ih (.vec hr (Spec.Cmd.legal_iff hl.1.1) (pl _ hl.1.2) hl.2 (.ret h1) h2) he
          · cases he
        · rename_i h1
          split at he
          · rename_i h2
            exact ih (.vec hr (Spec.Cmd.legal_iff hl.1.1) (pl _ hl.1.2) hl.2 (.panic h1) h2) he
          · cases he
        · cases he
      · cases he

/-- Counting the handles there are by their owners. -/
theorem countP_owned {κ : Type} {H : List (Option κ)} {l : List Nat} (nd : l.Nodup)
    (ow : ∀ x, x ∈ l ↔ isThere H x = true) {q : Option κ → Bool} (hq : q none = false) :
    H.countP q = l.countP fun x => q (H[x]?.getD none) := by
  have perm : l.Perm ((List.range H.length).filter (isThere H)) := by
    refine (List.perm_ext_iff_of_nodup nd (List.nodup_range.filter _)).mpr fun x => ?_
    rw [ow, List.mem_filter, List.mem_range]
    exact ⟨fun h => ⟨by unfold isThere at h; by_cases hx : x < H.length
                        · exact hx
                        · simp [List.getElem?_eq_none (Nat.le_of_not_lt hx)] at h, h⟩, fun h => h.2⟩
  rw [perm.countP_eq, List.countP_filter]
  have e : H = (List.range H.length).map fun x => H[x]?.getD none := by
    refine List.ext_getElem (by simp) fun i h1 h2 => ?_
    simp [List.getElem?_eq_getElem h1]
  conv => lhs; rw [e]
  rw [List.countP_map]
  refine List.countP_congr fun x hx => ?_
  simp only [Function.comp_apply, Bool.and_eq_true]
  refine ⟨fun h => ⟨h, ?_⟩, fun h => h.1⟩
  unfold isThere
  cases e2 : H[x]? with
  | none => rw [e2] at h; simp [hq] at h
  | some o => cases o with
    | none => rw [e2] at h; simp [hq] at h
    | some k => rfl

/-! ## `Rc` -/

open Spec

/-- A call that ends leaves handles as `Q` says. -/
def RcLeaves (Q : Hands → Prop) : Res (RcPool α) (RcOut α) → Prop
  | .ok _ P' => Q P'.hands
  | .panic P' => Q P'.hands
  | _ => True

theorem RcPool.on_leaves {β : Type} {Q : Hands → Prop} {m : M (RcWorld α) β} {H : β → Hands} {H' : Hands}
    {out : β → RcOut α} {P : RcPool α} (h1 : ∀ a, Q (H a)) (h2 : Q H') : RcLeaves Q (RcPool.on m H H' out P) := by
  unfold RcPool.on
  cases m P.w <;> first | exact h1 _ | exact h2 | trivial

/-- The handles after a call: as before; one was made; or one was changed or taken. -/
def HandsStep {κ : Type} (H H' : List (Option κ)) : Prop :=
  H' = H ∨ (∃ k, H' = H ++ [some k]) ∨ ∃ i k, (∃ a, H[i]? = some (some a)) ∧ H' = H.set i k

theorem runRc_leaves (P : RcPool α) (cmd : RcCmd α) : RcLeaves (HandsStep P.hands) (runRc c cmd P) := by
  have same : HandsStep P.hands P.hands := .inl rfl
  have push : ∀ k, HandsStep P.hands (P.hands ++ [some k]) := fun k => .inr (.inl ⟨k, rfl⟩)
  have set : ∀ {i a} (k), P.hands[i]? = some (some a) → HandsStep P.hands (P.hands.set i k) :=
    fun k h => .inr (.inr ⟨_, k, ⟨_, h⟩, rfl⟩)
  have none' : ∀ {i : Nat}, HandsStep P.hands (P.hands.set i none) := by
    intro i
    cases e : P.hands[i]? with
    | none =>
      left
      rw [List.set_eq_of_length_le (List.getElem?_eq_none_iff.mp e)]
    | some o =>
      cases o with
      | none =>
        left
        obtain ⟨h1, h2⟩ := List.getElem?_eq_some_iff.mp e
        rw [← h2, List.set_getElem_self]
      | some a => exact set none e
  cases cmd with
  | new x => exact RcPool.on_leaves (fun _ => push _) same
  | weakNew => exact push _
  | makeMut h f =>
    simp only [runRc]
    split
    · rename_i p e
      unfold RcPool.makeMut
      split
      · exact RcPool.on_leaves (fun _ => set _ e) (set _ e)
      · exact set _ e
      · trivial
      · trivial
    · exact same
  | upgrade h =>
    simp only [runRc]
    split
    · refine RcPool.on_leaves (fun a => ?_) same
      cases a with
      | none => exact same
      | some q => exact push _
    · exact same
  | tryUnwrap h =>
    simp only [runRc]
    split
    · rename_i p e
      refine RcPool.on_leaves (fun a => ?_) (set _ e)
      cases a with
      | none => exact same
      | some q => exact set _ e
    · exact same
  | _ =>
    simp only [runRc]
    split <;> first
      | exact RcPool.on_leaves (fun _ => push _) same
      | exact RcPool.on_leaves (fun _ => same) same
      | exact RcPool.on_leaves (fun _ => none') none'
      | exact push _
      | exact same
      | exact none'

theorem RcHappens.hands {P P' : RcPool α} {cmd : RcCmd α} {ev : RcEvent α} (h : RcHappens c P cmd ev P') :
    HandsStep P.hands P'.hands := by
  have key := runRc_leaves (c := c) P cmd
  cases h with
  | ret hr => rw [hr] at key; exact key
  | panic hr => rw [hr] at key; exact key

theorem isThere_iff {κ : Type} {H : List (Option κ)} {x : Nat} : isThere H x = true ↔ ∃ a, H[x]? = some (some a) := by
  unfold isThere
  cases e : H[x]? with
  | none => simp
  | some o => cases o <;> simp

theorem isThere_lt {κ : Type} {H : List (Option κ)} {x : Nat} (h : isThere H x = true) : x < H.length := by
  obtain ⟨a, h⟩ := isThere_iff.mp h
  exact (List.getElem?_eq_some_iff.mp h).1

theorem isThere_set {κ : Type} {H : List (Option κ)} {x y : Nat} :
    isThere (H.set x none) y = true ↔ isThere H y = true ∧ y ≠ x := by
  by_cases e : x = y
  · subst e
    have : isThere (H.set x none) x = false := by
      unfold isThere
      by_cases hx : x < H.length <;> simp [hx]
    simp [this]
  · have : isThere (H.set x none) y = isThere H y := by
      unfold isThere
      rw [List.getElem?_set_ne e]
    rw [this]
    exact ⟨fun h => ⟨h, fun h' => e h'.symm⟩, fun h => h.1⟩

theorem HandsStep.old {κ : Type} {H H' : List (Option κ)} (h : HandsStep H H') : H.length ≤ H'.length ∧
    (∀ x, isThere H' x = true → isThere H x = true ∨ H.length ≤ x) ∧
    ∀ x, H.length ≤ x → x < H'.length → isThere H' x = true := by
  rcases h with rfl | ⟨k, rfl⟩ | ⟨i, k, ⟨a, hi⟩, rfl⟩
  · exact ⟨Nat.le_refl _, fun x h => .inl h, fun x h1 h2 => by omega⟩
  · refine ⟨by simp, fun x h => ?_, fun x h1 h2 => ?_⟩
    · by_cases e : x < H.length
      · left
        rw [isThere_iff] at h ⊢
        rwa [List.getElem?_append_left e] at h
      · right; omega
    · simp only [List.length_append, List.length_singleton] at h2
      have : x = H.length := by omega
      subst this
      exact isThere_iff.mpr ⟨k, by simp⟩
  · refine ⟨by simp, fun x h => ?_, fun x h1 h2 => ?_⟩
    · left
      by_cases e : i = x
      · subst e; exact isThere_iff.mpr ⟨a, hi⟩
      · rw [isThere_iff] at h ⊢
        rwa [List.getElem?_set_ne e] at h
    · simp only [List.length_set] at h2; omega

/-- What is known of `Rc` handles after `n` calls. -/
def RcAfter (c : Cfg α) (n : Nat) (P : RcPool α) : Prop :=
  ∃ hist : RcHistory α, hist.length = n ∧ RcReaches c RcCmd.Tame hist P

theorem rcThings_alive {ok : Hands → RcCmd α → Prop} {P : RcPool α} {x : Nat} :
    (rcThings c ok).alive P x = isThere P.hands x := rfl

/-- Destructors of handles that are there return. -/
theorem RcSim.drop_ok {P : RcPool α} {S : RcState α} (I : RcSim P S) {x : Nat} (h : isThere P.hands x = true) :
    ∃ P', runRc c (.drop x) P = .ok .unit P' ∧ P'.hands = P.hands.set x none := by
  obtain ⟨k, hk⟩ := isThere_iff.mp h
  have d := I.does_drop (c := c) hk
  rw [RcSim.Does] at d
  cases hr : runRc c (.drop x) P with
  | ok o P' =>
    rw [hr] at d
    obtain ⟨S', hs, I', _⟩ := d
    refine ⟨P', ?_, ?_⟩
    · generalize hev : (⟨some o, P'.w.refusals != P.w.refusals⟩ : RcEvent α) = ev at hs
      cases hs <;> (injection hev with e1 e2; injection e1 with e1; rw [e1])
    · rw [I'.hands, I.hands]
      generalize (⟨some o, P'.w.refusals != P.w.refusals⟩ : RcEvent α) = ev at hs
      cases hs <;> rfl
  | panic P' =>
    rw [hr] at d
    obtain ⟨S', hs, _⟩ := d
    generalize hev : (⟨none, P'.w.refusals != P.w.refusals⟩ : RcEvent α) = ev at hs
    cases hs <;> cases hev
  | abort => rw [hr] at d; exact d.elim
  | ub u => rw [hr] at d; exact d.elim

theorem rcThings_good (hcl : ∀ k a b, c.clone k a = some b → b = a) :
    (rcThings c RcCmd.Tame).Good (RcAfter c) (c.usizeMax - 2) where
  lt := fun _ h => isThere_lt h
  use := by
    rintro n P P' ⟨hist, hn, hr⟩ hb ⟨cmd, ev, hc, he⟩
    obtain ⟨a, b, _⟩ := he.hands.old
    exact ⟨⟨hist ++ [(cmd, ev)], by simp [hn], hr.step hc he⟩, a, b⟩
  fresh := by
    rintro n P P' - - ⟨cmd, ev, _, he⟩
    exact he.hands.old.2.2
  drop := by
    rintro n P x ⟨hist, hn, hr⟩ hb hx
    obtain ⟨S, _, I, _⟩ := hr.sim hcl (by omega)
    obtain ⟨P', e, hh⟩ := I.drop_ok (c := c) hx
    refine ⟨P', ?_, ⟨hist ++ [(.drop x, _)], by simp [hn],
      hr.step (cmd := .drop x) ⟨isThere_iff.mp hx, trivial⟩ (.ret e)⟩, ?_, ?_⟩
    · simp only [rcThings, e]
    · simp only [rcThings, hh, List.length_set]
    · intro y
      rw [rcThings_alive, rcThings_alive, hh]
      exact isThere_set

end Lokky
