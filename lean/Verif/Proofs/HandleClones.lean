import Verif.Proofs.VecClones
import Verif.Proofs.HandlesUrc

/-!
# Things cloned by vectors: everything still has one owner
-/

namespace Lokky
variable {α β σ : Type} {c : Cfg α} {co : Cfg Nat} {K : Clonables σ}

/-- From `s` to `s'` the things `xs` were cloned: the new ones show (`val`) what their sources show, nothing else
changed. -/
structure Clonables.Copied (K : Clonables σ) (I : Nat → σ → Prop) (val : σ → Nat → β) (n : Nat) (s s' : σ)
    (xs : List Nat) : Prop where
  inv : I (n + xs.length) s'
  made : K.made s' = K.made s + xs.length
  alive : ∀ y, K.alive s' y = true ↔ K.alive s y = true ∨ (K.made s ≤ y ∧ y < K.made s + xs.length)
  clonable : ∀ y, K.clonable s y = true → K.clonable s' y = true
  old : ∀ y, K.alive s y = true → val s' y = val s y
  new : ∀ i (h : i < xs.length), val s' (K.made s + i) = val s xs[i]

/-- What `clone` and the other calls of things do. `pan`: `clone` may panic. -/
structure Clonables.Good (K : Clonables σ) (I : Nat → σ → Prop) (B : Nat) (val : σ → Nat → β) (pan : Prop) : Prop where
  base : K.toThings.Good I B
  alive : ∀ {n s x}, I n s → K.clonable s x = true → K.alive s x = true
  clone : ∀ {n s x}, I n s → n < B → K.clonable s x = true →
    (∃ s', K.clone x s = .ok (K.made s) s' ∧ K.Copied I val n s s' [x]) ∨
    (pan ∧ ∃ s', K.clone x s = .panic s' ∧ I (n + 1) s' ∧ K.made s' = K.made s ∧
      (∀ y, K.alive s' y = true ↔ K.alive s y = true) ∧ ∀ y, K.alive s y = true → val s' y = val s y)
  dropVal : ∀ {n s s' x}, I n s → n < B → K.alive s x = true → K.drop x s = .ok () s' →
    ∀ y, K.alive s' y = true → val s' y = val s y

variable {I : Nat → σ → Prop} {B n : Nat} {val : σ → Nat → β} {pan : Prop}

theorem Clonables.Copied.nil {s : σ} (h : I n s) : K.Copied I val n s s [] :=
  ⟨h, rfl, fun y => by simp; omega, fun _ h => h, fun _ _ => rfl, fun i h => absurd h (by simp)⟩

theorem Clonables.Copied.cons {s s1 s' : σ} {x : Nat} {xs : List Nat}
    (hx : ∀ y ∈ xs, K.alive s y = true) (h1 : K.Copied I val n s s1 [x]) (h2 : K.Copied I val (n + 1) s1 s' xs) :
    K.Copied I val n s s' (x :: xs) := by
  have m1 : K.made s1 = K.made s + 1 := h1.made
  refine ⟨?_, ?_, fun y => ?_, fun y h => h2.clonable y (h1.clonable y h), fun y h => ?_, fun i h => ?_⟩
  · have := h2.inv
    rw [List.length_cons, show n + (xs.length + 1) = n + 1 + xs.length by omega]
    exact this
  · rw [h2.made, m1, List.length_cons]; omega
  · rw [h2.alive, h1.alive, m1]
    simp only [List.length_cons, List.length_nil]
    constructor
    · rintro ((a | a) | a)
      · exact .inl a
      · exact .inr (by omega)
      · exact .inr (by omega)
    · rintro (a | a)
      · exact .inl (.inl a)
      · by_cases e : y = K.made s
        · exact .inl (.inr (by omega))
        · exact .inr (by omega)
  · rw [h2.old y ((h1.alive y).mpr (.inl h)), h1.old y h]
  · cases i with
    | zero =>
      have := h1.new 0 (by simp)
      rw [h2.old _ ((h1.alive _).mpr (.inr (by simp)))]
      exact this
    | succ i =>
      simp only [List.length_cons] at h
      have := h2.new i (by omega)
      rw [m1] at this
      rw [show K.made s + (i + 1) = K.made s + 1 + i by omega, this, List.getElem_cons_succ]
      exact h1.old _ (hx _ (List.getElem_mem _))

theorem range'_cons {a k : Nat} : List.range' a (k + 1) = a :: List.range' (a + 1) k := rfl

/-- Clones that return. -/
theorem Clonables.Good.cloneEach_ok (g : K.Good I B val pan) (xs : List Nat) :
    ∀ {n : Nat} {s s' : σ} {ys : List Nat}, I n s → n + xs.length ≤ B → (∀ x ∈ xs, K.clonable s x = true) →
      K.cloneEach xs s = .ok ys s' → ys = List.range' (K.made s) xs.length ∧ K.Copied I val n s s' xs := by
  induction xs with
  | nil =>
    intro n s s' ys h _ _ e
    cases e
    exact ⟨rfl, .nil h⟩
  | cons x xs ih =>
    intro n s s' ys h hb hc e
    simp only [List.length_cons] at hb
    rw [Clonables.cloneEach, if_pos (hc x (by simp))] at e
    rcases g.clone h (by omega) (hc x (by simp)) with ⟨s1, e1, k1⟩ | ⟨_, s1, e1, _⟩
    · rw [e1] at e
      dsimp only at e
      cases e2 : K.cloneEach xs s1 with
      | ok zs s2 =>
        rw [e2] at e
        cases e
        obtain ⟨rfl, k2⟩ := ih k1.inv (by simp; omega) (fun y hy => k1.clonable y (hc y (by simp [hy]))) e2
        refine ⟨?_, .cons (fun y hy => g.alive h (hc y (by simp [hy]))) k1 k2⟩
        rw [List.length_cons, range'_cons, k1.made]; rfl
      | panic s2 => rw [e2] at e; cases e
      | abort => rw [e2] at e; cases e
      | ub u => rw [e2] at e; cases e
    · rw [e1] at e; cases e

/-- If `clone` does not panic, cloning returns. -/
theorem Clonables.Good.cloneEach_total (g : K.Good I B val pan) (hp : ¬ pan) (xs : List Nat) :
    ∀ {n : Nat} {s : σ}, I n s → n + xs.length ≤ B → (∀ x ∈ xs, K.clonable s x = true) →
      ∃ ys s', K.cloneEach xs s = .ok ys s' := by
  induction xs with
  | nil => intro n s _ _ _; exact ⟨[], s, rfl⟩
  | cons x xs ih =>
    intro n s h hb hc
    simp only [List.length_cons] at hb
    rcases g.clone h (by omega) (hc x (by simp)) with ⟨s1, e1, k1⟩ | ⟨h', _⟩
    · obtain ⟨ys, s', e2⟩ := ih k1.inv (by simp; omega) (fun y hy => k1.clonable y (hc y (by simp [hy])))
      exact ⟨_, s', by rw [Clonables.cloneEach, if_pos (hc x (by simp)), e1]; simp only [e2]; rfl⟩
    · exact (hp h').elim

theorem Clonables.cloneEach_snoc {x : Nat} (xs : List Nat) : ∀ {s s1 : σ} {ys : List Nat},
    K.cloneEach xs s = .ok ys s1 → K.clonable s1 x = true →
    K.cloneEach (xs ++ [x]) s = match K.clone x s1 with
      | .ok y s2 => .ok (ys ++ [y]) s2
      | .panic s2 => .panic s2
      | .abort => .abort
      | .ub u => .ub u := by
  induction xs with
  | nil =>
    intro s s1 ys e hc
    cases e
    rw [List.nil_append, Clonables.cloneEach, if_pos hc]
    cases K.clone x s <;> rfl
  | cons a xs ih =>
    intro s s1 ys e hc
    rw [Clonables.cloneEach] at e
    split at e
    · rename_i ha
      rw [List.cons_append, Clonables.cloneEach, if_pos ha]
      cases e1 : K.clone a s with
      | ok b s2 =>
        rw [e1] at e
        dsimp only at e ⊢
        cases e2 : K.cloneEach xs s2 with
        | ok zs s3 =>
          rw [e2] at e
          cases e
          rw [ih e2 hc]
          cases K.clone x s1 <;> rfl
        | panic s3 => rw [e2] at e; cases e
        | abort => rw [e2] at e; cases e
        | ub u => rw [e2] at e; cases e
      | panic s2 => rw [e1] at e; cases e
      | abort => rw [e1] at e; cases e
      | ub u => rw [e1] at e; cases e
    · cases e

theorem ClonedAt.get {c : Cfg α} {k : Nat} {xs ys : List α} (h : ClonedAt c k xs ys) :
    ∀ (j : Nat) (a : α), xs[j]? = some a → ∃ b, ys[j]? = some b ∧ c.clone (k + j) a = some b := by
  induction h with
  | nil => intro j a e; simp at e
  | @cons k a b xs ys h1 _ ih =>
    intro j a' e
    cases j with
    | zero => simp only [List.getElem?_cons_zero, Option.some.injEq] at e; subst e; exact ⟨b, rfl, h1⟩
    | succ j =>
      simp only [List.getElem?_cons_succ] at e ⊢
      obtain ⟨b', e1, e2⟩ := ih j a' e
      exact ⟨b', e1, by rw [show k + (j + 1) = k + 1 + j by omega]; exact e2⟩

/-- What a call of a vector that cloned `srcs.take m` with the result `made` was told is what cloning them gives. -/
theorem Clonables.Good.told (g : K.Good I B val pan) {srcs made : List Nat} {s : σ} {k0 m : Nat} (hi : I n s)
    (hm : m ≤ srcs.length) (hb : n + m ≤ B) (hc : ∀ x ∈ srcs, K.clonable s x = true)
    (h : ClonedAt (K.during co srcs s k0) k0 (srcs.take m) made) :
    ∃ s', K.cloneEach (srcs.take m) s = .ok made s' := by
  have hlen := h.length
  rw [List.length_take, Nat.min_eq_left hm] at hlen
  have key : ∀ j, j ≤ m → ∃ s', K.cloneEach (srcs.take j) s = .ok (made.take j) s' := by
    intro j
    induction j with
    | zero => intro _; exact ⟨s, rfl⟩
    | succ j ih =>
      intro hj
      obtain ⟨s1, e1⟩ := ih (by omega)
      have hj' : j < srcs.length := by omega
      have htl : (srcs.take j).length = j := by rw [List.length_take]; omega
      obtain ⟨_, k1⟩ := g.cloneEach_ok (srcs.take j) hi (by omega) (fun x hx => hc x (List.mem_of_mem_take hx)) e1
      have ca : K.clonable s1 srcs[j] = true := k1.clonable _ (hc _ (List.getElem_mem hj'))
      have hsn := Clonables.cloneEach_snoc _ e1 ca
      rw [List.take_append_getElem hj'] at hsn
      obtain ⟨b, eb, ec⟩ := h.get j srcs[j] (by
        rw [List.getElem?_take, if_pos (by omega), List.getElem?_eq_getElem hj'])
      simp only [Clonables.during] at ec
      rw [show k0 + j - k0 = j by omega, if_pos ⟨by omega, List.getElem?_eq_getElem hj'⟩] at ec
      rcases g.clone k1.inv (by omega) ca with ⟨s2, e2, _⟩ | ⟨_, s2, e2, _⟩
      · rw [e2] at hsn
        rw [hsn] at ec ⊢
        simp only [List.getLast?_concat, Option.some.injEq] at ec
        refine ⟨s2, ?_⟩
        obtain ⟨hjm, eb⟩ := List.getElem?_eq_some_iff.mp eb
        rw [← List.take_append_getElem hjm, eb, ec]
      · rw [e2] at hsn
        rw [hsn] at ec
        cases ec
  obtain ⟨s', e⟩ := key m (Nat.le_refl _)
  rw [List.take_of_length_le (Nat.le_of_eq hlen)] at e
  exact ⟨s', e⟩

/-- The vectors hold `L`; everything that exists is either held by the client or stored in one place of one
vector. -/
structure KInv (K : Clonables σ) (I : Nat → σ → Prop) (co : Cfg Nat) (N : Shelf σ) (n : Nat)
    (L : Spec.Lists Nat) : Prop where
  good : I n N.things
  po : PInv co N.vecs L
  nodup : (N.held ++ L.contents).Nodup
  owned : ∀ x, x ∈ N.held ++ L.contents ↔ K.alive N.things x = true

/-- The invariant of vectors does not depend on what `clone` of the elements does. -/
theorem PInv.withClone {P : Pool α} {L : Spec.Lists α} (f : Nat → α → Option α) :
    PInv { c with clone := f } P L ↔ PInv c P L := by
  constructor
  · intro h
    refine ⟨h.len, fun x v hv => ?_, h.live, h.inj, h.owned, h.wf⟩
    obtain ⟨l, h1, h2⟩ := h.rep x v hv
    exact ⟨l, h1, ⟨h2.len, h2.buf⟩⟩
  · intro h
    refine ⟨h.len, fun x v hv => ?_, h.live, h.inj, h.owned, h.wf⟩
    obtain ⟨l, h1, h2⟩ := h.rep x v hv
    exact ⟨l, h1, ⟨h2.len, h2.buf⟩⟩

theorem Spec.Cmd.Legal.withClone {P : Pool α} {cmd : Spec.Cmd α} (f : Nat → α → Option α) (h : cmd.Legal c P) :
    cmd.Legal { c with clone := f } P := by
  cases cmd with
  | on x o => cases o <;> exact h
  | _ => exact h

theorem PInv.lists_eq {P : Pool α} {L : Spec.Lists α} (hs : c.size ≠ 0) (i : PInv c P L) : P.lists c = L := by
  unfold Pool.lists
  refine List.ext_getElem (by simp [i.len]) fun x h1 h2 => ?_
  simp only [List.length_map] at h1
  rw [List.getElem_map]
  cases e : P.vecs[x] with
  | some v =>
    have e' : P.vecs[x]? = some (some v) := by rw [List.getElem?_eq_getElem h1, e]
    obtain ⟨l, hl, hr⟩ := i.rep x v e'
    simp only [Option.map_some, asSlice_spec (s := ⟨v, P.w⟩) hs hr]
    rw [List.getElem?_eq_getElem h2, Option.some.injEq] at hl
    rw [hl]
  | none =>
    cases e2 : L[x] with
    | none => rfl
    | some l =>
      obtain ⟨v, hv⟩ := i.live x l (by rw [List.getElem?_eq_getElem h2, e2])
      rw [List.getElem?_eq_getElem h1, e] at hv
      cases hv

theorem Shelf.kept_lists (N : Shelf σ) : N.kept co = (N.vecs.lists co).contents := by
  unfold Shelf.kept Spec.Lists.contents Pool.lists
  rw [List.flatMap_map]
  congr 1
  funext o
  cases o with
  | none => rfl
  | some v =>
    show (match Vec.asSlice co ⟨v, N.vecs.w⟩ with
      | .ok l _ => l
      | _ => []) = _
    cases e : Vec.asSlice co ⟨v, N.vecs.w⟩ <;> simp [e]

/-- What a call of a vector did to the things and the vectors. -/
structure KStep (K : Clonables σ) (I : Nat → σ → Prop) (co : Cfg Nat) (val : σ → Nat → β) (pan : Prop) (N : Shelf σ)
    (n : Nat) (L : Spec.Lists Nat) (cmd : Spec.Cmd Nat) (ev : Spec.Event Nat) (O' : Pool Nat) (rest : List Nat)
    (s1 s' : σ) (L' : Spec.Lists Nat) (made : List Nat) : Prop where
  clones : K.afterClones (N.cloned co cmd O') N.things = some s1
  drops : K.dropEach (droppedBy N.vecs O') s1 = .ok () s'
  step : Spec.Step (K.during co (N.sources co cmd) N.things N.vecs.w.log.calls).cloneRel cmd ev L L' made
    (droppedBy N.vecs O')
  inv : KInv K I co ⟨s', O', rest ++ Spec.taken cmd ev⟩
    (n + (N.cloned co cmd O').length + (droppedBy N.vecs O').length) L'
  numbers : made = List.range' (K.made N.things) made.length
  len : made.length ≤ (N.sources co cmd).length
  new : ∀ (i x : Nat), i < made.length → (N.sources co cmd)[i]? = some x →
    val s1 (K.made N.things + i) = val N.things x
  old : ∀ y, K.alive N.things y = true → val s1 y = val N.things y
  kept : ∀ y, K.alive s' y = true → val s' y = val s1 y
  alive : ∀ y, K.alive s1 y = true ↔ K.alive N.things y = true ∨ y ∈ made
  dropped : ∀ x ∈ droppedBy N.vecs O', K.alive s1 x = true
  after : ∀ y, K.alive s' y = true ↔ K.alive s1 y = true ∧ y ∉ droppedBy N.vecs O'

theorem Clonables.Good.dropVals (g : K.Good I B val pan) (xs : List Nat) :
    ∀ {n : Nat} {s s' : σ}, I n s → n + xs.length ≤ B → xs.Nodup → (∀ x ∈ xs, K.alive s x = true) →
      K.dropEach xs s = .ok () s' → ∀ y, K.alive s' y = true → val s' y = val s y := by
  induction xs with
  | nil => intro n s s' _ _ _ _ e y _; cases e; rfl
  | cons x xs ih =>
    intro n s s' h hb hn ha e y hy
    simp only [List.length_cons] at hb
    obtain ⟨hn1, hn2⟩ := List.nodup_cons.mp hn
    obtain ⟨s1, e1, i1, _, a1⟩ := g.base.drop h (by omega) (ha x (by simp))
    rw [Things.dropEach, if_pos (ha x (by simp)), e1] at e
    have ha1 : ∀ z ∈ xs, K.alive s1 z = true := fun z hz =>
      (a1 z).mpr ⟨ha z (by simp [hz]), fun e => hn1 (e ▸ hz)⟩
    obtain ⟨s2, e2, _, _, a2⟩ := g.base.dropEach xs i1 (by omega) hn2 ha1
    dsimp only at e
    rw [e2] at e
    cases e
    rw [ih i1 (by omega) hn2 ha1 e2 y hy]
    exact g.dropVal h (by omega) (ha x (by simp)) e1 y ((a2 y).mp hy).1

theorem KInv.sources_eq {N : Shelf σ} {L : Spec.Lists Nat} (hso : co.size ≠ 0) (h : KInv K I co N n L)
    (cmd : Spec.Cmd Nat) : N.sources co cmd = cmd.sources L := by
  unfold Shelf.sources
  rw [h.po.lists_eq hso]

theorem KInv.vec {N : Shelf σ} {L : Spec.Lists Nat} {cmd : Spec.Cmd Nat} {ev : Spec.Event Nat} {O' : Pool Nat}
    {rest : List Nat} (g : K.Good I B val pan) (hso : co.size ≠ 0) (hdo : ∀ a, co.dropPanics a = false)
    (h : KInv K I co N n L) (hb : n + (N.cloned co cmd O').length + (droppedBy N.vecs O').length ≤ B)
    (hm : N.May K co cmd rest) (he : N.Calls K co cmd ev O') :
    ∃ s1 s' L' made, KStep K I co val pan N n L cmd ev O' rest s1 s' L' made := by
  have key : ∃ L' made dropped, Spec.Step (K.during co (N.sources co cmd) N.things N.vecs.w.log.calls).cloneRel
      cmd ev L L' made dropped ∧ PInv co O' L' ∧ O'.w.log.drops = N.vecs.w.log.drops ++ dropped ∧
      Ran (K.during co (N.sources co cmd) N.things N.vecs.w.log.calls) N.vecs.w.log.calls
        (N.cloned co cmd O') made := by
    have hat := runCmd_at (c := K.during co (N.sources co cmd) N.things N.vecs.w.log.calls) hso hdo
      ((PInv.withClone _).mpr h.po) cmd (hm.legal.withClone _) hm.copies
    have hsrc := h.sources_eq hso cmd
    cases he with
    | ret hr =>
      rw [hr] at hat
      obtain ⟨L', made, dropped, h1, h2, h3, h4⟩ := hat
      exact ⟨L', made, dropped, h1, (PInv.withClone _).mp h2, h3, by rw [Shelf.cloned, hsrc]; rw [hsrc] at h4; exact h4⟩
    | panic hr =>
      rw [hr] at hat
      obtain ⟨L', made, dropped, h1, h2, h3, h4⟩ := hat
      exact ⟨L', made, dropped, h1, (PInv.withClone _).mp h2, h3, by rw [Shelf.cloned, hsrc]; rw [hsrc] at h4; exact h4⟩
  obtain ⟨L', made, dropped, h1, h2, h3, h4⟩ := key
  have hdr : droppedBy N.vecs O' = dropped := by simp [droppedBy, h3]
  subst hdr
  -- the clones
  have hcl : ∃ s1, K.afterClones (N.cloned co cmd O') N.things = some s1 ∧ I (n + (N.cloned co cmd O').length) s1 ∧
      made = List.range' (K.made N.things) made.length ∧ made.length ≤ (N.cloned co cmd O').length ∧
      (∀ y, K.alive s1 y = true ↔ K.alive N.things y = true ∨ y ∈ made) ∧
      (∀ y, K.alive N.things y = true → val s1 y = val N.things y) ∧
      ∀ (i x : Nat), i < made.length → (N.sources co cmd)[i]? = some x →
        val s1 (K.made N.things + i) = val N.things x := by
    have hlen : ∀ m, m ≤ (N.sources co cmd).length → ((N.sources co cmd).take m).length = m := by
      intro m hm; rw [List.length_take]; omega
    have hcs : ∀ m, ∀ x ∈ (N.sources co cmd).take m, K.clonable N.things x = true :=
      fun m x hx => hm.clonable x (List.mem_of_mem_take hx)
    have copied : ∀ m s1 ys, m ≤ (N.sources co cmd).length → ys = List.range' (K.made N.things) ((N.sources co cmd).take m).length →
        K.Copied I val n N.things s1 ((N.sources co cmd).take m) →
        ys = List.range' (K.made N.things) ys.length ∧
        (∀ y, K.alive s1 y = true ↔ K.alive N.things y = true ∨ y ∈ ys) ∧
        (∀ y, K.alive N.things y = true → val s1 y = val N.things y) ∧
        ∀ (i x : Nat), i < ys.length → (N.sources co cmd)[i]? = some x →
          val s1 (K.made N.things + i) = val N.things x := by
      intro m s1 ys hmle hy k
      rw [hlen m hmle] at hy
      have hyl : ys.length = m := by rw [hy, List.length_range']
      refine ⟨by rw [hyl]; exact hy, fun y => ?_, k.old, fun i x hi hx => ?_⟩
      · rw [k.alive, hlen m hmle, hy, List.mem_range'_1]
      · have hi' : i < ((N.sources co cmd).take m).length := by rw [hlen m hmle]; omega
        rw [k.new i hi']
        congr 1
        have : ((N.sources co cmd).take m)[i]? = some x := by
          rw [List.getElem?_take, if_pos (by omega)]; exact hx
        rw [List.getElem?_eq_getElem hi'] at this
        exact Option.some.inj this
    rcases h4 with h4 | ⟨pre, a, hpre, h4, h5⟩
    · -- all returned
      have hcd : N.cloned co cmd O' = (N.sources co cmd).take (N.cloned co cmd O').length := by
        unfold Shelf.cloned
        rw [List.length_take, ← List.take_take, List.take_length]
      have hle : (N.cloned co cmd O').length ≤ (N.sources co cmd).length := by
        unfold Shelf.cloned; rw [List.length_take]; omega
      generalize hd : (N.cloned co cmd O').length = m at hcd hle hb
      rw [hcd] at h4 ⊢
      obtain ⟨s1, e1⟩ := g.told h.good hle (by omega) hm.clonable h4
      obtain ⟨hy, k1⟩ := g.cloneEach_ok _ h.good (by rw [hlen m hle]; omega) (hcs m) e1
      obtain ⟨p1, p2, p3, p4⟩ := copied m s1 made hle hy k1
      refine ⟨s1, by simp only [Clonables.afterClones, e1], hlen m hle ▸ k1.inv, p1, ?_, p2, p3, p4⟩
      rw [hy, List.length_range', hlen m hle]; exact Nat.le_refl _
    · -- the last one panicked
      have hcd : N.cloned co cmd O' = (N.sources co cmd).take (pre.length + 1) := by
        have e := congrArg List.length hpre
        rw [List.length_append, List.length_singleton] at e
        have hle : (N.cloned co cmd O').length ≤ (N.sources co cmd).length := by
          unfold Shelf.cloned; rw [List.length_take]; omega
        rw [← e]
        unfold Shelf.cloned
        rw [List.length_take, ← List.take_take, List.take_length]
      have hle : pre.length + 1 ≤ (N.sources co cmd).length := by
        have e := congrArg List.length hpre
        rw [List.length_append, List.length_singleton] at e
        unfold Shelf.cloned at e; rw [List.length_take] at e; omega
      have hp2 : pre = (N.sources co cmd).take pre.length := by
        have : (N.cloned co cmd O').take pre.length = pre := by rw [hpre]; simp
        rw [← this, hcd, List.take_take]
        simp
      have ha : (N.sources co cmd)[pre.length]? = some a := by
        have : (N.cloned co cmd O')[pre.length]? = some a := by rw [hpre]; simp
        rw [hcd, List.getElem?_take, if_pos (by omega)] at this
        exact this
      have hbl : (N.cloned co cmd O').length = pre.length + 1 := by rw [hpre]; simp
      rw [hbl] at hb
      rw [hp2] at h4
      obtain ⟨s1, e1⟩ := g.told h.good (by omega) (by omega) hm.clonable h4
      obtain ⟨hy, k1⟩ := g.cloneEach_ok _ h.good (by rw [hlen _ (by omega)]; omega) (hcs _) e1
      obtain ⟨p1, p2, p3, p4⟩ := copied pre.length s1 made (by omega) hy k1
      have ca : K.clonable s1 a = true := k1.clonable _ (hm.clonable a (List.mem_of_getElem? ha))
      have hsn := Clonables.cloneEach_snoc _ e1 ca
      rw [← hp2, ← hpre] at hsn
      simp only [Clonables.during] at h5
      rw [show N.vecs.w.log.calls + pre.length - N.vecs.w.log.calls = pre.length by omega, if_pos ⟨by omega, ha⟩,
        ← hcd] at h5
      have hin := k1.inv
      rw [hlen _ (by omega)] at hin
      rcases g.clone hin (by omega) ca with ⟨s2, e2, _⟩ | ⟨_, s2, e2, i2, m2, a2, v2⟩
      · rw [e2] at hsn
        rw [hsn] at h5
        simp at h5
      · rw [e2] at hsn
        refine ⟨s2, by simp only [Clonables.afterClones, hsn], by rw [hbl]; exact i2, p1, ?_, fun y => ?_,
          fun y hy' => ?_, fun i x hi hx => ?_⟩
        · rw [hbl, hy, List.length_range', hlen _ (by omega)]; omega
        · rw [a2, p2]
        · rw [v2 y ((p2 y).mpr (.inl hy')), p3 y hy']
        · rw [v2 _ ((p2 _).mpr (.inr ?_)), p4 i x hi hx]
          rw [p1, List.mem_range'_1]; omega
  obtain ⟨s1, c1, c2, c3, c4, c5, c6, c7⟩ := hcl
  have cons := h1.conserve
  have nm : made.Nodup := by rw [c3]; exact List.nodup_range'
  have fresh : ∀ x ∈ made, K.made N.things ≤ x := by
    intro x hx; rw [c3, List.mem_range'_1] at hx; exact hx.1
  have all : ((N.held ++ L.contents) ++ made).Perm
      (droppedBy N.vecs O' ++ ((rest ++ Spec.taken cmd ev) ++ L'.contents)) := by
    refine List.perm_iff_count.mpr fun a => ?_
    have e1 := List.perm_iff_count.mp hm.held a
    have e2 := List.perm_iff_count.mp cons a
    simp only [List.count_append] at e1 e2 ⊢
    omega
  have hn0 : ((N.held ++ L.contents) ++ made).Nodup := by
    rw [List.nodup_append]
    refine ⟨h.nodup, nm, fun a ha b hb' e => ?_⟩
    subst e
    have := g.base.lt h.good ((h.owned a).mp ha)
    have := fresh a hb'
    omega
  have hn := all.nodup_iff.mp hn0
  obtain ⟨n1, n2, n3⟩ := List.nodup_append.mp hn
  have own1 : ∀ x, x ∈ (N.held ++ L.contents) ++ made ↔ K.alive s1 x = true := by
    intro x
    rw [c5, List.mem_append, h.owned]
  have hda : ∀ x ∈ droppedBy N.vecs O', K.alive s1 x = true := fun x hx =>
    (own1 x).mp (all.mem_iff.mpr (by simp [hx]))
  obtain ⟨s', k1, k2, k3, k4⟩ := g.base.dropEach _ c2 hb n1 hda
  refine ⟨s1, s', L', made, c1, k1, h1, ⟨k2, h2, n2, fun x => ?_⟩, c3, ?_, c7, c6, ?_, c5, hda, k4⟩
  · show x ∈ (rest ++ Spec.taken cmd ev) ++ L'.contents ↔ K.alive s' x = true
    rw [k4, ← own1, all.mem_iff]
    constructor
    · intro hx
      exact ⟨List.mem_append.mpr (.inr hx), fun hy => n3 x hy x hx rfl⟩
    · rintro ⟨hx, hy⟩
      rcases List.mem_append.mp hx with hx | hx
      · exact (hy hx).elim
      · exact hx
  · refine Nat.le_trans c4 ?_
    unfold Shelf.cloned; rw [List.length_take]; omega
  · exact g.dropVals _ c2 hb n1 hda k1

theorem KInv.use {N : Shelf σ} {L : Spec.Lists Nat} {s' : σ} (g : K.toThings.Good I B) (h : KInv K I co N n L)
    (hb : n < B) (hu : K.use N.things s')
    (hh : ∀ x, K.alive N.things x = true → K.alive s' x = false → x ∈ N.held) :
    KInv K I co ⟨s', N.vecs, K.heldAfter N.things s' N.held⟩ (n + 1) L := by
  obtain ⟨i', hm, old⟩ := g.use h.good hb hu
  have fresh := g.fresh h.good hb hu
  obtain ⟨n1, n2, n3⟩ := List.nodup_append.mp h.nodup
  have lt : ∀ x, x ∈ N.held ++ L.contents → x < K.made N.things := fun x hx =>
    g.lt h.good ((h.owned x).mp hx)
  have inL : ∀ x, x ∈ L.contents → K.alive s' x = true := by
    intro x hx
    cases e : K.alive s' x with
    | true => rfl
    | false => exact (n3 x (hh x ((h.owned x).mp (by simp [hx])) e) x hx rfl).elim
  refine ⟨i', h.po, ?_, fun x => ?_⟩
  · simp only [Things.heldAfter]
    rw [List.append_assoc, List.nodup_append]
    refine ⟨n1.filter _, ?_, ?_⟩
    · rw [List.nodup_append]
      refine ⟨List.nodup_range', n2, ?_⟩
      intro a ha b hb' e
      subst e
      have := List.mem_range'_1.mp ha
      have := lt a (by simp [hb'])
      omega
    · intro a ha b hb' e
      subst e
      have ha := (List.mem_filter.mp ha).1
      rcases List.mem_append.mp hb' with hb' | hb'
      · have := List.mem_range'_1.mp hb'
        have := lt a (by simp [ha])
        omega
      · exact n3 a ha a hb' rfl
  · simp only [Things.heldAfter, List.mem_append, List.mem_filter, List.mem_range'_1]
    constructor
    · rintro ((⟨_, a⟩ | ⟨a, b⟩) | a)
      · exact a
      · exact fresh x a (by omega)
      · exact inL x a
    · intro a
      rcases old x a with b | b
      · rcases List.mem_append.mp ((h.owned x).mpr b) with b | b
        · exact .inl (.inl ⟨b, a⟩)
        · exact .inr b
      · have := g.lt i' a
        exact .inl (.inr ⟨b, by omega⟩)

theorem KReaches.inv {s0 : σ} {N0 N : Shelf σ} (g : K.Good I B val pan) (hi : I 0 s0)
    (ha : ∀ x, K.alive s0 x = false) (hso : co.size ≠ 0) (hdo : ∀ a, co.dropPanics a = false)
    (h0 : N0.Initial s0) (h : KReaches K co N0 n N) (hb : n ≤ B) : ∃ L, KInv K I co N n L := by
  induction h with
  | start =>
    obtain ⟨e1, e2, e3⟩ := h0
    refine ⟨[], e1 ▸ hi, .initial e2, ?_, fun x => ?_⟩
    · rw [e3]; simp [Spec.Lists.contents]
    · rw [e3, e1, ha x]; simp [Spec.Lists.contents]
  | use _ hu hh ih =>
    obtain ⟨L, ih⟩ := ih (by omega)
    exact ⟨L, ih.use g.base (by omega) hu hh⟩
  | vec _ hm hc h1 h2 ih =>
    obtain ⟨L, ih⟩ := ih (by omega)
    obtain ⟨s1, s', L', made, k⟩ := ih.vec g hso hdo hb hm hc
    have e1 := k.clones
    rw [h1] at e1
    cases e1
    have e2 := k.drops
    rw [h2] at e2
    cases e2
    exact ⟨L', k.inv⟩

theorem KInv.kept_eq {N : Shelf σ} {L : Spec.Lists Nat} (hso : co.size ≠ 0) (i : KInv K I co N n L) :
    N.kept co = L.contents := by
  rw [Shelf.kept_lists, i.po.lists_eq hso]

theorem KInv.shows {N : Shelf σ} {L : Spec.Lists Nat} (hso : co.size ≠ 0) (i : KInv K I co N n L) {x : Nat} {v : VecH}
    (hv : N.vecs.vecs[x]? = some (some v)) :
    ∃ l, L[x]? = some (some l) ∧ Vec.asSlice co ⟨v, N.vecs.w⟩ = .ok l ⟨v, N.vecs.w⟩ := by
  obtain ⟨l, hl, hr⟩ := i.po.rep x v hv
  exact ⟨l, hl, asSlice_spec (s := ⟨v, N.vecs.w⟩) hso hr⟩

theorem KInv.gone {N : Shelf σ} {L : Spec.Lists Nat} (i : KInv K I co N n L) (hheld : N.held = [])
    (hv : ∀ x, ¬ N.vecs.Alive x) : (∀ x, K.alive N.things x = false) ∧ ∀ p, N.vecs.w.heap p = none := by
  constructor
  · intro x
    have hc : L.contents = [] := by
      simp only [Spec.Lists.contents, List.flatMap_eq_nil_iff]
      intro o ho
      obtain ⟨y, hy⟩ := List.getElem?_of_mem ho
      cases o with
      | none => rfl
      | some l => exact (hv y ((i.po.alive_iff y).mpr ⟨l, hy⟩)).elim
    have := i.owned x
    rw [hheld, hc] at this
    cases h : K.alive N.things x with
    | false => rfl
    | true => exact absurd (this.mpr h) (by simp)
  · intro p
    cases e : N.vecs.w.heap p with
    | none => rfl
    | some b =>
      obtain ⟨x, v, hx, _⟩ := i.po.owned p b e
      exact (hv x ⟨v, hx⟩).elim

/-- Calls of vectors return or panic. -/
theorem KInv.calls {N : Shelf σ} {L : Spec.Lists Nat} (hso : co.size ≠ 0) (hdo : ∀ a, co.dropPanics a = false)
    (i : KInv K I co N n L) {cmd : Spec.Cmd Nat} {rest : List Nat} (hm : N.May K co cmd rest) :
    (∃ ev O', N.Calls K co cmd ev O') ∧
    ∀ u, runCmd (K.during co (N.sources co cmd) N.things N.vecs.w.log.calls) cmd N.vecs ≠ .ub u := by
  refine ⟨happens (c := K.during co (N.sources co cmd) N.things N.vecs.w.log.calls) hso hdo
    ((PInv.withClone _).mpr i.po) cmd (hm.legal.withClone _), fun u hu => ?_⟩
  have key := runCmd_spec (c := K.during co (N.sources co cmd) N.things N.vecs.w.log.calls) hso hdo
    ((PInv.withClone _).mpr i.po) cmd (hm.legal.withClone _)
  rw [hu] at key
  exact key

/-- If `clone` of the things does not panic, no clone made in a call of a vector does. -/
theorem KInv.noPanic {N : Shelf σ} {L : Spec.Lists Nat} (g : K.Good I B val pan) (hp : ¬ pan)
    (i : KInv K I co N n L) {cmd : Spec.Cmd Nat} {rest : List Nat} (hm : N.May K co cmd rest)
    (hb : n + (N.sources co cmd).length ≤ B) {a : Nat} :
    ¬ (K.during co (N.sources co cmd) N.things N.vecs.w.log.calls).cloneRel a none := by
  rintro ⟨k, hk⟩
  simp only [Clonables.during] at hk
  split at hk
  · rename_i hc
    obtain ⟨hlt, _⟩ := List.getElem?_eq_some_iff.mp hc.2
    have hlen : ((N.sources co cmd).take (k - N.vecs.w.log.calls + 1)).length = k - N.vecs.w.log.calls + 1 := by
      rw [List.length_take]; omega
    obtain ⟨ys, s', e⟩ := g.cloneEach_total hp ((N.sources co cmd).take (k - N.vecs.w.log.calls + 1)) i.good
      (by omega) (fun x hx => hm.clonable x (List.mem_of_mem_take hx))
    obtain ⟨hy, _⟩ := g.cloneEach_ok _ i.good (by omega) (fun x hx => hm.clonable x (List.mem_of_mem_take hx)) e
    rw [e] at hk
    simp only at hk
    rw [List.getLast?_eq_none_iff] at hk
    rw [hk, hlen] at hy
    cases hy
  · cases hk

theorem keepAll_reaches {κ : Type} {step : κ → σ → Option σ} (hst : ∀ {k s s'}, step k s = some s' → K.use s s')
    (hlt : ∀ {s x}, K.alive s x = true → x < K.made s) {N0 : Shelf σ} (cmds : List (ShelfCmd κ)) {N : Shelf σ}
    {r : Nat × Shelf σ} (hr : KReaches K co N0 n N) (he : keepAll K step co cmds n N = some r) :
    KReaches K co N0 r.1 r.2 := by
  have pl : ∀ cmd : Spec.Cmd Nat, cmd.copiesOnly = true → cmd.CopiesOnly := by
    intro cmd
    cases cmd with
    | on x o => cases o <;> simp [Spec.Cmd.copiesOnly, Spec.Cmd.CopiesOnly]
    | _ => simp [Spec.Cmd.CopiesOnly]
  induction cmds generalizing N n with
  | nil => simp only [keepAll, Option.some.injEq] at he; subst he; exact hr
  | cons cmd cmds ih =>
    cases cmd with
    | use k =>
      unfold keepAll at he
      split at he
      · rename_i s' hs
        split at he
        · rename_i ht
          refine ih (.use hr (hst hs) fun x h1 h2 => ?_) he
          have := List.all_eq_true.mp ht x (List.mem_range.mpr (hlt h1))
          simpa [h1, h2] using this
        · cases he
      · cases he
    | vec cmd =>
      unfold keepAll at he
      split at he
      · rename_i hl
        simp only [Bool.and_eq_true, decide_eq_true_eq, List.all_eq_true] at hl
        have hm : N.May K co cmd (cmd.given.foldl List.erase N.held) :=
          ⟨Spec.Cmd.legal_iff hl.1.1.1, pl _ hl.1.1.2, hl.1.2, hl.2⟩
        dsimp only at he
        split at he
        · rename_i h1
          split at he
          · rename_i r' hn
            split at hn
            · rename_i s1 h2
              split at hn
              · rename_i s' h3
                cases hn
                exact ih (.vec hr hm (.ret h1) h2 h3) he
              · cases hn
            · cases hn
          · cases he
        · rename_i h1
          split at he
          · rename_i r' hn
            split at hn
            · rename_i s1 h2
              split at hn
              · rename_i s' h3
                cases hn
                exact ih (.vec hr hm (.panic h1) h2 h3) he
              · cases hn
            · cases hn
          · cases he
        · cases he
      · cases he

end Lokky

namespace Lokky
variable {α β σ : Type} {co : Cfg Nat} {K : Clonables σ} {I : Nat → σ → Prop} {B n : Nat} {val : σ → Nat → β}
  {pan : Prop}

/-- Clones with another relation. -/
theorem Spec.Clones.relabel {cl cl' : Spec.CloneRel α} {xs ys : List α} (h : Spec.Clones cl xs ys)
    (hc : ∀ (i : Nat) a y, xs[i]? = some a → ys[i]? = some y → cl' a (some y)) : Spec.Clones cl' xs ys := by
  induction h with
  | nil => exact .nil
  | cons h _ ih =>
    refine .cons (hc 0 _ _ rfl rfl) (ih fun i a y h1 h2 => hc (i + 1) a y ?_ ?_)
    · simpa using h1
    · simpa using h2

theorem Spec.Clones.get {cl : Spec.CloneRel α} {xs ys : List α} (h : Spec.Clones cl xs ys) :
    ∀ (i : Nat) {a b}, xs[i]? = some a → ys[i]? = some b → cl a (some b) := by
  induction h with
  | nil => intro i a b h; simp at h
  | cons h _ ih =>
    intro i a b h1 h2
    cases i with
    | zero => cases h1; cases h2; exact h
    | succ i => exact ih i (by simpa using h1) (by simpa using h2)

theorem Spec.Clones.eq_of_faithful {c : Cfg α} (hcl : ∀ k a b, c.clone k a = some b → b = a) {xs ys : List α}
    (h : Spec.Clones c.cloneRel xs ys) : ys = xs := by
  induction h with
  | nil => rfl
  | cons h _ ih =>
    obtain ⟨k, hk⟩ := h
    rw [ih, hcl k _ _ hk]

theorem Spec.Edit.relabel {cl cl' : Spec.CloneRel α} {x : Nat} {o : Spec.Op α} {ev : Spec.Event α} {L : Spec.Lists α}
    {l l' made dropped : List α} (hL : L[x]? = some (some l)) (h : Spec.Edit cl o ev l l' made dropped)
    (hc : ∀ (i : Nat) a y, ((Spec.Cmd.on x o).sources L)[i]? = some a → made[i]? = some y → cl' a (some y))
    (hn : ∀ a, cl a none → cl' a none) : Spec.Edit cl' o ev l l' made dropped := by
  cases h
  case extendFromSlice h => exact .extendFromSlice _ _ _ (h.relabel hc)
  case extendFromSlicePanic pre a post h2 h1 =>
    refine .extendFromSlicePanic pre a post _ _ (h1.relabel fun i b y e1 e2 => hc i b y ?_ e2) (hn _ h2)
    show (pre ++ a :: post)[i]? = some b
    rw [List.getElem?_append_left (List.getElem?_eq_some_iff.mp e1).1]; exact e1
  case resizeUp k a h1 h2 =>
    refine .resizeUp k a _ _ h1 (h2.relabel fun i b y e1 e2 => hc i b y ?_ e2)
    simp only [Spec.Cmd.sources, hL]; exact e1
  case resizePanic k a m h3 h1 h2 =>
    refine .resizePanic k a m _ _ h1 (h2.relabel fun i b y e1 e2 => hc i b y ?_ e2) (hn _ h3)
    simp only [Spec.Cmd.sources, hL]
    obtain ⟨e1, e3⟩ := List.getElem?_eq_some_iff.mp e1
    rw [List.getElem_replicate] at e3
    rw [List.length_replicate] at e1
    rw [List.getElem?_replicate, if_pos (by omega), e3]
  all_goals (constructor <;> assumption)

/-- A step of the specification with another relation for clones. -/
theorem Spec.Step.relabel {cl cl' : Spec.CloneRel α} {cmd : Spec.Cmd α} {ev : Spec.Event α} {L L' : Spec.Lists α}
    {made dropped : List α} (h : Spec.Step cl cmd ev L L' made dropped)
    (hc : ∀ (i : Nat) a y, (cmd.sources L)[i]? = some a → made[i]? = some y → cl' a (some y))
    (hn : ∀ a, cl a none → cl' a none) : Spec.Step cl' cmd ev L L' made dropped := by
  cases h
  case clone x l hL h =>
    refine .clone x l _ _ hL (h.relabel fun i a y e1 e2 => hc i a y ?_ e2)
    simp only [Spec.Cmd.sources, hL]; exact e1
  case clonePanic x pre a post h2 hL h1 =>
    refine .clonePanic x pre a post _ _ hL (h1.relabel fun i b y e1 e2 => hc i b y ?_ e2) (hn _ h2)
    simp only [Spec.Cmd.sources, hL]
    rw [List.getElem?_append_left (List.getElem?_eq_some_iff.mp e1).1]; exact e1
  case on x o l l' hL h => exact .on x o _ l l' _ _ _ hL (h.relabel hL hc hn)
  all_goals (constructor <;> assumption)

/-- What a call of a vector does: the vectors change as the specification says, where a clone shows what its source
showed and is nothing that existed before; clones and destructors of the things run without fault. `cl s1`: what is to
be known of a clone. -/
theorem KInv.does {N : Shelf σ} {L : Spec.Lists Nat} {cmd : Spec.Cmd Nat} {ev : Spec.Event Nat} {O' : Pool Nat}
    {rest : List Nat} {cl : σ → Spec.CloneRel Nat} (g : K.Good I B val pan) (hso : co.size ≠ 0)
    (hdo : ∀ a, co.dropPanics a = false) (h : KInv K I co N n L)
    (hb : n + (N.cloned co cmd O').length + (droppedBy N.vecs O').length ≤ B)
    (hbp : ¬ pan → n + (N.sources co cmd).length ≤ B)
    (hm : N.May K co cmd rest) (he : N.Calls K co cmd ev O')
    (hc : ∀ s1 a y, K.alive N.things y = false → K.alive s1 y = true → val s1 y = val N.things a → cl s1 a (some y))
    (hn : ∀ s1 a, pan → cl s1 a none) :
    ∃ s1 s' made, K.afterClones (N.cloned co cmd O') N.things = some s1 ∧
      K.dropEach (droppedBy N.vecs O') s1 = .ok () s' ∧
      Spec.Step (cl s1) cmd ev (N.vecs.lists co) (O'.lists co) made (droppedBy N.vecs O') ∧
      made.Nodup ∧
      (∀ y, K.alive N.things y = true → K.alive s1 y = true ∧ val s1 y = val N.things y) ∧
      (∀ y, K.alive s1 y = true ↔ K.alive N.things y = true ∨ y ∈ made) ∧
      ∀ y, (K.alive s' y = true ↔ K.alive s1 y = true ∧ y ∉ droppedBy N.vecs O') ∧
        (K.alive s' y = true → val s' y = val s1 y) := by
  obtain ⟨s1, s', L', made, k⟩ := h.vec g hso hdo hb hm he
  have el := h.po.lists_eq hso
  have el' := k.inv.po.lists_eq hso
  have hnum := k.numbers
  have al1 : ∀ y, K.alive s1 y = true ↔ K.alive N.things y = true ∨ y ∈ made := k.alive
  have hda : ∀ x ∈ droppedBy N.vecs O', K.alive s1 x = true := k.dropped
  refine ⟨s1, s', made, k.clones, k.drops, ?_, by rw [hnum]; exact List.nodup_range',
    fun y hy => ⟨(al1 y).mpr (.inl hy), k.old y hy⟩, al1, fun y => ⟨k.after y, k.kept y⟩⟩
  rw [el, show O'.lists co = L' from el']
  refine k.step.relabel (fun i a y e1 e2 => ?_) (fun a ha => ?_)
  · have hi : i < made.length := (List.getElem?_eq_some_iff.mp e2).1
    have hy : y = K.made N.things + i := by
      rw [hnum, List.getElem?_range' (by simpa using hi)] at e2
      simpa using e2.symm
    refine hc s1 a y ?_ ((al1 y).mpr (.inr (List.mem_of_getElem? e2))) ?_
    · cases e : K.alive N.things y with
      | false => rfl
      | true => have := g.base.lt h.good e; omega
    · rw [hy]
      exact k.new i a hi (by rw [h.sources_eq hso]; exact e1)
  · by_cases hp : pan
    · exact hn s1 a hp
    · exact (h.noPanic g hp hm (hbp hp) ha).elim

end Lokky
