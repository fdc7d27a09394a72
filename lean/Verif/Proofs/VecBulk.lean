import Verif.Proofs.VecOps

/-!
# Bulk operations of `Vec`: append, extend, resize, and the constructors
-/

namespace Lokky
variable {α : Type} {c : Cfg α}

/-- `ys` are possible results of cloning the elements `xs` one by one. -/
inductive Cloned (c : Cfg α) : List α → List α → Prop
  | nil : Cloned c [] []
  | cons {a b : α} {xs ys : List α} (k : Nat) : c.clone k a = some b → Cloned c xs ys →
      Cloned c (a :: xs) (b :: ys)

theorem Cloned.length {xs ys : List α} (h : Cloned c xs ys) : ys.length = xs.length := by
  induction h <;> simp_all

theorem cloneVal_spec (a : α) (g : Log α) :
    Sat c (cloneVal c a g)
      (fun b g' => c.clone g.calls a = some b ∧ g' = { g with calls := g.calls + 1 })
      (fun g' => c.clone g.calls a = none ∧ g' = { g with calls := g.calls + 1 }) := by
  unfold cloneVal
  cases h : c.clone g.calls a <;> simp [Sat]

/-- Cloning an element and pushing the clones into reserved space. -/
theorem pushClones_spec {s : VSt α} {l : List α} (hs : c.size ≠ 0) (h : Rep c s.self s.w l)
    (hw : s.w.WF) (xs : List α) (hc : l.length + xs.length ≤ s.self.cap) :
    Sat c (Vec.pushClones c xs s)
      (fun _ s' => ∃ ys, Cloned c xs ys ∧ Trans c (l ++ ys) [] s s' ∧
        s'.w.refusals = s.w.refusals ∧ s'.w.tick = s.w.tick ∧ s'.self.cap = s.self.cap)
      (fun s' => ∃ pre a post ys, xs = pre ++ a :: post ∧ Cloned c pre ys ∧
        (∃ k, c.clone k a = none) ∧ Trans c (l ++ ys) [] s s' ∧
        s'.w.refusals = s.w.refusals ∧ s'.w.tick = s.w.tick ∧ s'.self.cap = s.self.cap) := by
  induction xs generalizing s l with
  | nil => exact ⟨[], .nil, by simpa using Trans.refl h hw, rfl, rfl, rfl⟩
  | cons a xs ih =>
    rw [Vec.pushClones]
    simp only [List.length_cons] at hc
    refine Sat.bind' (onLog_sat (cloneVal_spec a s.w.log)) ?_ ?_
    · rintro s' ⟨g, ⟨h1, rfl⟩, rfl⟩
      refine ⟨[], a, xs, [], rfl, .nil, ⟨_, h1⟩, ?_, rfl, rfl, rfl⟩
      have := (Trans.refl h hw).setLog (g := { s.w.log with calls := s.w.log.calls + 1 })
        (d' := []) (by simp)
      simpa using this
    · rintro b s' ⟨g, ⟨h1, rfl⟩, rfl⟩
      have t0 := (Trans.refl h hw).setLog (g := { s.w.log with calls := s.w.log.calls + 1 })
        (d' := []) (by simp)
      obtain ⟨s'', e1, e2, e3, e4⟩ := push_reserved hs t0.rep t0.wf
        (by simp only [St.setLog]; omega) b
      rw [M.bind_ok e1]
      have t1 := t0.trans hw e2.trans
      have hcap : s''.self.cap = s.self.cap := e3
      refine (ih e2.trans.rep e2.trans.wf (by simp; omega)).mono ?_ ?_
      · rintro _ s3 ⟨ys, h3, h4, h5, h6, h7⟩
        refine ⟨b :: ys, .cons _ h1 h3, ?_, h5.trans e2.refusals, h6.trans e4, h7.trans hcap⟩
        simpa using t1.trans hw h4
      · rintro s3 ⟨pre, a', post, ys, rfl, h3, h4, h5, h6, h7, h8⟩
        refine ⟨a :: pre, a', post, b :: ys, rfl, .cons _ h1 h3, h4, ?_, h6.trans e2.refusals,
          h7.trans e4, h8.trans hcap⟩
        simpa using t1.trans hw h5

theorem extendFromSlice_spec {s : VSt α} {l : List α} (hs : c.size ≠ 0) (h : Rep c s.self s.w l)
    (hw : s.w.WF) (xs : List α) (hf : c.Fits (l.length + xs.length)) :
    Sat c (Vec.extendFromSlice c xs s)
      (fun _ s' => ∃ ys, Cloned c xs ys ∧ Trans c (l ++ ys) [] s s' ∧
        s'.w.refusals = s.w.refusals ∧ s'.self.cap = max s.self.cap (l.length + xs.length))
      (fun s' => (s' = s.refuse ∧ s.self.cap < l.length + xs.length ∧
          c.grant s.w.tick ((l.length + xs.length) * c.size) = false) ∨
        (∃ pre a post ys, xs = pre ++ a :: post ∧ Cloned c pre ys ∧
          (∃ k, c.clone k a = none) ∧ Trans c (l ++ ys) [] s s' ∧
          s'.w.refusals = s.w.refusals)) := by
  unfold Vec.extendFromSlice
  refine Sat.bind' (reserveExact_spec hs h hw hf) ?_ ?_
  · rintro s' h1; exact Or.inl h1
  · rintro _ s' ⟨h1, h2, _⟩
    refine (pushClones_spec hs h1.trans.rep h1.trans.wf xs (by omega)).mono ?_ ?_
    · rintro _ s3 ⟨ys, h3, h4, h5, _, h7⟩
      exact ⟨ys, h3, h1.trans.trans hw h4, h5.trans h1.refusals, h7.trans h2⟩
    · rintro s3 ⟨pre, a', post, ys, h0, h3, h4, h5, h6, _⟩
      exact Or.inr ⟨pre, a', post, ys, h0, h3, h4, h1.trans.trans hw h5,
        h6.trans h1.refusals⟩

/-- Pushing the items of an iterator, growing when necessary. -/
theorem pushItems_spec {s : VSt α} {l : List α} (hs : c.size ≠ 0) (h : Rep c s.self s.w l)
    (hw : s.w.WF) (boom : Bool) (xs : List α) (hf : c.Fits (l.length + xs.length)) :
    Sat c (Vec.pushItems c boom xs s)
      (fun _ s' => boom = false ∧ Trans c (l ++ xs) [] s s' ∧ s'.w.refusals = s.w.refusals ∧
        s'.w.log = s.w.log)
      (fun s' => (boom = true ∧ Trans c (l ++ xs) [] s s' ∧ s'.w.refusals = s.w.refusals) ∨
        (∃ pre a post, xs = pre ++ a :: post ∧ Trans c (l ++ pre) (a :: post) s s' ∧
          s'.w.refusals = s.w.refusals + 1)) := by
  induction xs generalizing s l with
  | nil =>
    rw [Vec.pushItems]
    cases boom
    · exact ⟨rfl, by simpa using Trans.refl h hw, rfl, rfl⟩
    · exact Or.inl ⟨rfl, by simpa using Trans.refl h hw, rfl⟩
  | cons a xs ih =>
    rw [Vec.pushItems]
    simp only [List.length_cons] at hf
    have hf1 : c.Fits (l.length + 1) := by
      unfold Cfg.Fits at hf ⊢
      exact Nat.le_trans (Nat.mul_le_mul_right _ (by omega)) hf
    refine Sat.bind (Q := fun _ s' => Reserved c (l ++ [a]) s s') ?_ ?_
    · refine Sat.onUnwind ((push_spec hs h hw hf1 a).mono (fun _ _ h => h.1) (fun _ h => h)) ?_
      rintro s' ⟨h1, rfl, _, _⟩
      refine (Trans.dropVals xs h1).mono ?_ (fun _ h => ⟨_, h.2.2.choose_spec.2⟩)
      rintro _ s'' ⟨h2, rfl⟩
      refine Or.inr ⟨[], a, xs, rfl, ?_, ?_⟩
      · simpa using h2
      · simp [St.setLog, St.refuse, World.refuse]
    · rintro _ s' h1
      refine (ih h1.trans.rep h1.trans.wf (by simpa [Nat.add_assoc, Nat.add_comm 1] using hf)).mono
        ?_ ?_
      · rintro _ s3 ⟨h3, h4, h5, h6⟩
        refine ⟨h3, ?_, h5.trans h1.refusals, h6.trans h1.log⟩
        simpa using h1.trans.trans hw h4
      · rintro s3 (⟨h3, h4, h5⟩ | ⟨pre, a', post, rfl, h4, h5⟩)
        · refine Or.inl ⟨h3, ?_, h5.trans h1.refusals⟩
          simpa using h1.trans.trans hw h4
        · refine Or.inr ⟨a :: pre, a', post, rfl, ?_, ?_⟩
          · simpa using h1.trans.trans hw h4
          · rw [h5, h1.refusals]

/-- Outcome of feeding an iterator into a vector that held `l`. -/
def IterPanic (c : Cfg α) (l : List α) (it : Iter α) (s s' : VSt α) : Prop :=
  (it.boom = true ∧ Trans c (l ++ it.items) [] s s' ∧ s'.w.refusals = s.w.refusals) ∨
  (∃ pre post, it.items = pre ++ post ∧ Trans c (l ++ pre) post s s' ∧
    s'.w.refusals = s.w.refusals + 1)

theorem extendFromIter_spec {s : VSt α} {l : List α} (hs : c.size ≠ 0) (h : Rep c s.self s.w l)
    (hw : s.w.WF) (it : Iter α) (hf : c.Fits (l.length + it.items.length))
    (hf2 : c.Fits (l.length + it.hint)) :
    Sat c (Vec.extendFromIter c it s)
      (fun _ s' => it.boom = false ∧ Trans c (l ++ it.items) [] s s' ∧
        s'.w.refusals = s.w.refusals)
      (IterPanic c l it s) := by
  unfold Vec.extendFromIter
  refine Sat.bind (Q := fun _ s' => Reserved c l s s') ?_ ?_
  · refine Sat.onUnwind ((reserveExact_spec hs h hw hf2).mono (fun _ _ h => h.1) (fun _ h => h)) ?_
    rintro s' ⟨rfl, _, _⟩
    refine (Trans.dropVals it.items (Trans.refuse h hw)).mono ?_ (fun _ h => ⟨_, h.2.2.choose_spec.2⟩)
    rintro _ s'' ⟨h2, rfl⟩
    exact Or.inr ⟨[], it.items, rfl, by simpa using h2, rfl⟩
  · rintro _ s' h1
    refine (pushItems_spec hs h1.trans.rep h1.trans.wf it.boom it.items hf).mono ?_ ?_
    · rintro _ s3 ⟨h3, h4, h5, _⟩
      exact ⟨h3, h1.trans.trans hw h4, h5.trans h1.refusals⟩
    · rintro s3 (⟨h3, h4, h5⟩ | ⟨pre, a', post, h0, h4, h5⟩)
      · exact Or.inl ⟨h3, h1.trans.trans hw h4, h5.trans h1.refusals⟩
      · exact Or.inr ⟨pre, a' :: post, h0, h1.trans.trans hw h4, by rw [h5, h1.refusals]⟩

/-! ## resize -/

theorem pushCalls_spec {s : VSt α} {l : List α} (hs : c.size ≠ 0) (h : Rep c s.self s.w l)
    (hw : s.w.WF) (f : Nat → Option α) (n k : Nat) (hc : l.length + n ≤ s.self.cap) :
    Sat c (Vec.pushCalls c f k n s)
      (fun _ s' => ∃ ys, (List.range' k n).map f = ys.map some ∧ Trans c (l ++ ys) [] s s' ∧
        s'.w.refusals = s.w.refusals)
      (fun s' => ∃ m ys, m < n ∧ (List.range' k m).map f = ys.map some ∧ f (k + m) = none ∧
        Trans c (l ++ ys) [] s s' ∧ s'.w.refusals = s.w.refusals) := by
  induction n generalizing s l k with
  | zero => exact ⟨[], rfl, by simpa using Trans.refl h hw, rfl⟩
  | succ n ih =>
    rw [Vec.pushCalls]
    cases hf : f k with
    | none =>
      exact ⟨0, [], by omega, rfl, hf, by simpa using Trans.refl h hw, rfl⟩
    | some a =>
      simp only
      obtain ⟨s', e1, e2, e3, e4⟩ := push_reserved hs h hw (by omega) a
      rw [M.bind_ok e1]
      refine (ih e2.trans.rep e2.trans.wf (k + 1) (by simp; omega)).mono ?_ ?_
      · rintro _ s3 ⟨ys, h3, h4, h5⟩
        refine ⟨a :: ys, ?_, ?_, h5.trans e2.refusals⟩
        · simp [List.range'_succ, hf, h3]
        · simpa using e2.trans.trans hw h4
      · rintro s3 ⟨m, ys, hm, h3, h4, h5, h6⟩
        refine ⟨m + 1, a :: ys, by omega, ?_, ?_, ?_, h6.trans e2.refusals⟩
        · simp [List.range'_succ, hf, h3]
        · rw [← h4]; congr 1; omega
        · simpa using e2.trans.trans hw h5

theorem resizeWith_spec {s : VSt α} {l : List α} (hs : c.size ≠ 0) (h : Rep c s.self s.w l)
    (hw : s.w.WF) (f : Nat → Option α) (k : Nat) (hf : l.length < k → c.Fits k) :
    Sat c (Vec.resizeWith c k f s)
      (fun _ s' => s'.w.refusals = s.w.refusals ∧
        ((k ≤ l.length ∧ Trans c (l.take k) (l.drop k) s s') ∨
        (l.length < k ∧ ∃ ys, (List.range (k - l.length)).map f = ys.map some ∧
          Trans c (l ++ ys) [] s s')))
      (fun s' => (k ≤ l.length ∧ Trans c (l.take k) (l.drop k) s s' ∧
          s'.w.refusals = s.w.refusals ∧ ∃ a ∈ l.drop k, c.dropPanics a = true) ∨
        (l.length < k ∧ s' = s.refuse) ∨
        (l.length < k ∧ s'.w.refusals = s.w.refusals ∧ ∃ m ys, m < k - l.length ∧
          (List.range m).map f = ys.map some ∧ f m = none ∧ Trans c (l ++ ys) [] s s')) := by
  unfold Vec.resizeWith
  rw [M.bind_ok (M.get_apply s), h.len]
  by_cases hk : k ≤ l.length
  · rw [if_pos hk]
    refine (truncate_spec hs h hw k).mono ?_ ?_
    · rintro _ s' ⟨h1, _, h2, _⟩; exact ⟨h2, Or.inl ⟨hk, h1⟩⟩
    · rintro s' ⟨h1, _, h2, _, h3⟩; exact Or.inl ⟨hk, h1, h2, h3⟩
  · rw [if_neg hk]
    have hlt : l.length < k := by omega
    have hsum : l.length + (k - l.length) = k := by omega
    refine Sat.bind' (reserveExact_spec hs h hw (by rw [hsum]; exact hf hlt)) ?_ ?_
    · rintro s' ⟨h1, _⟩; exact Or.inr (Or.inl ⟨hlt, h1⟩)
    · rintro _ s' ⟨h1, h2, _⟩
      refine (pushCalls_spec hs h1.trans.rep h1.trans.wf f (k - l.length) 0 (by omega)).mono ?_ ?_
      · rintro _ s3 ⟨ys, h3, h4, h5⟩
        refine ⟨h5.trans h1.refusals, Or.inr ⟨hlt, ys, ?_, h1.trans.trans hw h4⟩⟩
        rwa [List.range_eq_range']
      · rintro s3 ⟨m, ys, hm, h3, h4, h5, h6⟩
        refine Or.inr (Or.inr ⟨hlt, h6.trans h1.refusals, m, ys, hm, ?_, by simpa using h4,
          h1.trans.trans hw h5⟩)
        rwa [List.range_eq_range']

theorem pushCopies_eq (a : α) (n : Nat) :
    Vec.pushCopies c a n = Vec.pushClones c (List.replicate n a) := by
  induction n with
  | zero => rfl
  | succ n ih => rw [Vec.pushCopies, ih, List.replicate_succ, Vec.pushClones]

theorem resize_spec {s : VSt α} {l : List α} (hs : c.size ≠ 0) (h : Rep c s.self s.w l)
    (hw : s.w.WF) (k : Nat) (a : α) (hf : l.length < k → c.Fits k) :
    Sat c (Vec.resize c k a s)
      (fun _ s' => s'.w.refusals = s.w.refusals ∧
        ((k ≤ l.length ∧ Trans c (l.take k) (l.drop k ++ [a]) s s') ∨
        (l.length < k ∧ ∃ ys, Cloned c (List.replicate (k - l.length - 1) a) ys ∧
          Trans c (l ++ ys ++ [a]) [] s s')))
      (fun s' => (k ≤ l.length ∧ Trans c (l.take k) (l.drop k ++ [a]) s s' ∧
          s'.w.refusals = s.w.refusals ∧ ∃ x ∈ l.drop k ++ [a], c.dropPanics x = true) ∨
        (l.length < k ∧ s'.w.refusals = s.w.refusals + 1 ∧ Trans c l [a] s s') ∨
        (l.length < k ∧ s'.w.refusals = s.w.refusals ∧ ∃ m ys, m < k - l.length - 1 ∧
          Cloned c (List.replicate m a) ys ∧ (∃ j, c.clone j a = none) ∧
          Trans c (l ++ ys) [a] s s')) := by
  unfold Vec.resize
  rw [M.bind_ok (M.get_apply s), h.len]
  by_cases hk : k ≤ l.length
  · rw [if_pos hk]
    refine Sat.andAlways (truncate_spec hs h hw k) ?_ ?_
    · rintro s' ⟨h1, _, h2, _, x, hx, h3⟩
      refine (Trans.dropVal a h1).mono ?_ (fun _ h => ⟨_, h.2.2⟩)
      rintro _ s'' ⟨h4, rfl, _⟩
      exact Or.inl ⟨hk, h4, h2, x, by simp [hx], h3⟩
    · rintro s' ⟨h1, _, h2, _⟩
      refine (Trans.dropVal a h1).mono ?_ ?_
      · rintro _ s'' ⟨h4, rfl, _⟩
        exact ⟨h2, Or.inl ⟨hk, h4⟩⟩
      · rintro s'' ⟨h4, rfl, h5⟩
        exact Or.inl ⟨hk, h4, h2, a, by simp, h5⟩
  · rw [if_neg hk]
    have hlt : l.length < k := by omega
    have hsum : l.length + (k - l.length) = k := by omega
    refine Sat.bind (Q := fun _ s' => s'.w.refusals = s.w.refusals ∧ k ≤ s'.self.cap ∧
      ∃ ys, Cloned c (List.replicate (k - l.length - 1) a) ys ∧ Trans c (l ++ ys) [] s s') ?_ ?_
    · refine Sat.onUnwind (Q := fun _ s' => s'.w.refusals = s.w.refusals ∧ k ≤ s'.self.cap ∧
          ∃ ys, Cloned c (List.replicate (k - l.length - 1) a) ys ∧ Trans c (l ++ ys) [] s s')
        (E' := fun s' => s' = s.refuse ∨ (s'.w.refusals = s.w.refusals ∧ ∃ m ys,
          m < k - l.length - 1 ∧ Cloned c (List.replicate m a) ys ∧
          (∃ j, c.clone j a = none) ∧ Trans c (l ++ ys) [] s s')) ?_ ?_
      · refine Sat.bind' (reserveExact_spec hs h hw (by rw [hsum]; exact hf hlt)) ?_ ?_
        · rintro s' ⟨h1, _⟩; exact Or.inl h1
        · rintro _ s' ⟨h1, h2, _⟩
          rw [pushCopies_eq]
          refine (pushClones_spec hs h1.trans.rep h1.trans.wf _ (by simp; omega)).mono ?_ ?_
          · rintro _ s3 ⟨ys, h3, h4, h5, _, h7⟩
            exact ⟨h5.trans h1.refusals, by omega, ys, h3, h1.trans.trans hw h4⟩
          · rintro s3 ⟨pre, a', post, ys, h0, h3, h4, h5, h6, _⟩
            have hpre : pre = List.replicate pre.length a := by
              refine List.eq_replicate_iff.mpr ⟨rfl, fun x hx => ?_⟩
              have : x ∈ List.replicate (k - l.length - 1) a := by rw [h0]; simp [hx]
              exact (List.mem_replicate.mp this).2
            have ha' : a' = a := by
              have : a' ∈ List.replicate (k - l.length - 1) a := by rw [h0]; simp
              exact (List.mem_replicate.mp this).2
            have hlen := congrArg List.length h0
            simp only [List.length_replicate, List.length_append, List.length_cons] at hlen
            refine Or.inr ⟨h6.trans h1.refusals, pre.length, ys, by omega, ?_, ?_,
              h1.trans.trans hw h5⟩
            · rw [← hpre]; exact h3
            · rw [← ha']; exact h4
      · rintro s' (rfl | ⟨h1, m, ys, h2, h3, h4, h5⟩)
        · refine (Trans.dropVal a (Trans.refuse h hw)).mono ?_ (fun _ h => ⟨_, h.2.2⟩)
          rintro _ s'' ⟨h4, rfl, _⟩
          exact Or.inr (Or.inl ⟨hlt, rfl, h4⟩)
        · refine (Trans.dropVal a h5).mono ?_ (fun _ h => ⟨_, h.2.2⟩)
          rintro _ s'' ⟨h6, rfl, _⟩
          exact Or.inr (Or.inr ⟨hlt, h1, m, ys, h2, h3, h4, h6⟩)
    · rintro _ s' ⟨h1, h2, ys, h3, h4⟩
      have hy := h3.length
      simp only [List.length_replicate] at hy
      obtain ⟨s'', e1, e2, e3, e4⟩ := push_reserved hs h4.rep h4.wf (by simp; omega) a
      rw [e1]
      exact ⟨e2.refusals.trans h1, Or.inr ⟨hlt, ys, h3, h4.trans hw e2.trans⟩⟩

/-! ## append -/

theorem onPart_sat {S T β : Type} {get : S → T} {set : T → S → S} {m : M (St T α) β}
    {s : St S α} {Q : β → St T α → Prop} {E : St T α → Prop} (h : Sat c (m ⟨get s.self, s.w⟩) Q E) :
    Sat c (onPart get set m s) (fun a s' => ∃ t, Q a t ∧ s' = ⟨set t.self s.self, t.w⟩)
      (fun s' => ∃ t, E t ∧ s' = ⟨set t.self s.self, t.w⟩) := by
  unfold onPart
  cases hm : m ⟨get s.self, s.w⟩ <;> rw [hm] at h
  · exact ⟨_, h, rfl⟩
  · exact ⟨_, h, rfl⟩
  · exact h
  · exact h

theorem onPart_ok {S T β : Type} {get : S → T} {set : T → S → S} {m : M (St T α) β}
    {s : St S α} {a : β} {t : St T α} (h : m ⟨get s.self, s.w⟩ = .ok a t) :
    onPart get set m s = .ok a ⟨set t.self s.self, t.w⟩ := by
  simp [onPart, h]

theorem onPart_panic {S T β : Type} {get : S → T} {set : T → S → S} {m : M (St T α) β}
    {s : St S α} {t : St T α} (h : m ⟨get s.self, s.w⟩ = .panic t) :
    onPart get set m s = .panic ⟨set t.self s.self, t.w⟩ := by
  simp [onPart, h]

theorem setLen0_eq (s : VSt α) :
    Vec.onBuf c (Buf.setLen c 0) s = .ok () ⟨{ s.self with len := 0 }, s.w⟩ := by
  rw [onBuf_eq, Buf.setLen_eq (by simp [bufOf])]
  simp only [putBuf, bufOf, World.setSlots_slots]

theorem append_spec {v o : VecH} {w : World α} {l1 l2 : List α} (hs : c.size ≠ 0)
    (h1 : Rep c v w l1) (h2 : Rep c o w l2) (hw : w.WF) (hne : v.ptr ≠ o.ptr ∨ o.ptr = none)
    (hf : c.Fits (l1.length + l2.length)) :
    Sat c (Vec.append c ⟨(v, o), w⟩)
      (fun _ s' => ∃ v', s'.self = (v', { o with len := 0 }) ∧
        Reserved c (l1 ++ l2) ⟨v, w⟩ ⟨v', s'.w⟩ ∧ Rep c { o with len := 0 } s'.w [] ∧
        v'.cap = max v.cap (l1.length + l2.length))
      (fun s' => s' = St.refuse ⟨(v, o), w⟩ ∧ v.cap < l1.length + l2.length ∧
        c.grant w.tick ((l1.length + l2.length) * c.size) = false) := by
  unfold Vec.append
  rw [M.bind_ok (M.get_apply _)]
  simp only [h2.len]
  have r1 := reserveExact_spec (s := ⟨v, w⟩) (k := l2.length) hs h1 hw hf
  refine Sat.bind' (onPart_sat r1) ?_ ?_
  · rintro s' ⟨t, ⟨rfl, h3, h4⟩, rfl⟩
    exact ⟨rfl, h3, h4⟩
  · rintro _ s' ⟨⟨v', w'⟩, ⟨h3, h4, _⟩, rfl⟩
    simp only at h3 h4
    -- the other vector's block is untouched
    have hother : ∀ p, o.ptr = some p → w'.heap p = w.heap p := by
      intro p hp
      have hpv : some p ≠ v.ptr := by
        rcases hne with h | h
        · rw [← hp]; exact fun e => h e.symm
        · rw [h] at hp; cases hp
      have hpv' : some p ≠ v'.ptr := by
        intro e
        have := h3.trans.own.fresh p e.symm (fun e => hpv e.symm)
        have := h2.ptr_lt hw hp
        simp only at *
        omega
      exact h3.trans.own.frame p hpv hpv'
    have h2' : Rep c o w' l2 := h2.congr hother
    have hne' : ∀ p, o.ptr = some p → v'.ptr ≠ some p := by
      intro p hp e
      by_cases hpv : v.ptr = some p
      · rcases hne with h | h
        · exact h (hpv.trans hp.symm)
        · rw [h] at hp; cases hp
      · have := h3.trans.own.fresh p e hpv
        have := h2.ptr_lt hw hp
        simp only at *
        omega
    rw [M.bind_ok (M.get_apply _)]
    have hsrc : ∃ rest, w'.slots o.ptr = l2.map some ++ rest :=
      (h2'.brep (s := ⟨o, w'⟩) hs).holds
    obtain ⟨t, e1, e2, e3, e4⟩ := onBuf_ok (l' := l1 ++ l2) (s := ⟨v', w'⟩) hs h3.trans.rep
      h3.trans.wf (fun b hb hcap => copyFrom_buf hs hb hsrc (by simp only at hcap; omega))
    rw [M.bind_ok (onPart_ok (s := ⟨(v', o), w'⟩) e1)]
    rw [onPart_ok (setLen0_eq _)]
    refine ⟨t.self, rfl, ⟨h3.trans.trans hw e2.trans, e2.log.trans h3.log,
      e2.refusals.trans h3.refusals⟩, ?_, e3.trans h4⟩
    -- the other vector keeps its block and is empty now
    have h2'' : Rep c o t.w l2 := by
      refine h2'.congr (fun p hp => ?_)
      refine e2.trans.own.frame p (fun e => hne' p hp e.symm) ?_
      intro e
      have := e2.trans.own.fresh p e.symm (fun e => hne' p hp e)
      have := h2'.ptr_lt h3.trans.wf hp
      simp only at *
      omega
    refine ⟨rfl, ?_⟩
    rcases h2''.buf with ⟨h0, h1, _⟩ | ⟨p, b, rest, hp, hb, h1, h2, h3, h4, h5, h6⟩
    · exact Or.inl ⟨h0, h1, rfl⟩
    · exact Or.inr ⟨p, b, b.slots, hp, hb, h1, h2, by simp, h4, h5, h6⟩

/-! ## Constructors -/

/-- A fresh vector `v` holding `l` was made in going from world `w` to `w'`; `d` was dropped. -/
structure Made (c : Cfg α) (l d : List α) (w : World α) (v : VecH) (w' : World α) : Prop where
  rep : Rep c v w' l
  wf : w'.WF
  frame : ∀ p, some p ≠ v.ptr → w'.heap p = w.heap p
  fresh : ∀ p, v.ptr = some p → w.next ≤ p
  next : w.next ≤ w'.next
  drops : w'.log.drops = w.log.drops ++ d
  scope : w'.allocFor = w.allocFor
  marker : v.marker = none
  alloc : v.alloc = w.allocFor none

/-- Nothing happened to memory; `d` was dropped. -/
structure Clean (d : List α) (w w' : World α) : Prop where
  heap : ∀ p, w'.heap p = w.heap p
  wf : w'.WF
  next : w.next ≤ w'.next
  drops : w'.log.drops = w.log.drops ++ d
  scope : w'.allocFor = w.allocFor

/-- An unallocated vector made by `Vec::new` in world `w`. -/
def emptyVec (w : World α) : VecH :=
  { ptr := none, cap := 0, alloc := w.allocFor none, marker := none, len := 0 }

theorem new_eq (w : World α) : Vec.new w = .ok (emptyVec w) w := rfl

theorem emptyVec_rep (w : World α) : Rep c (emptyVec w) w [] :=
  ⟨rfl, Or.inl ⟨rfl, rfl, rfl⟩⟩

theorem Trans.made {w : World α} {l d : List α} {s' : VSt α}
    (h : Trans c l d ⟨emptyVec w, w⟩ s') : Made c l d w s'.self s'.w := by
  refine ⟨h.rep, h.wf, ?_, ?_, h.own.next, h.drops, h.place.scope, h.place.marker, ?_⟩
  · intro p hp
    exact h.own.frame p (by simp [emptyVec]) hp
  · intro p hp
    exact h.own.fresh p hp (by simp [emptyVec])
  · rcases h.place.small rfl with ⟨_, h'⟩ | h'
    · exact h'
    · exact h'

/-- Dropping a freshly made vector cleans everything up. -/
theorem Made.drop {w : World α} {l d : List α} {s' : VSt α} (hs : c.size ≠ 0) (hw : w.WF)
    (h : Made c l d w s'.self s'.w) :
    Sat c (Vec.drop c s') (fun _ s'' => Clean (d ++ l) w s''.w ∧ s''.w.refusals = s'.w.refusals)
      (fun _ => c.MayAbort) := by
  refine (drop_spec hs h.rep).mono ?_ (fun _ h => h.elim fun _ h => h.elim fun a h => h.elim fun _ h => ⟨a, h.2.1⟩)
  rintro _ s'' ⟨e, _⟩
  refine ⟨⟨?_, ?_, ?_, ?_, ?_⟩, ?_⟩
  · intro p
    rw [e]
    simp only [World.addDrops, World.free]
    split
    · rename_i hp
      exact (hw p (h.fresh p hp.symm)).symm
    · rename_i hp
      exact h.frame p hp
  · intro p hp
    rw [e] at hp ⊢
    simp only [World.addDrops, World.free] at hp ⊢
    split
    · rfl
    · exact h.wf p hp
  · rw [e]; exact h.next
  · rw [e]; simp [World.addDrops, World.free, h.drops]
  · rw [e]; exact h.scope
  · rw [e]; rfl

/-- Code working on a local vector that is dropped on unwinding. -/
theorem withLocal_sat {β : Type} {w : World α} {m : M (VSt α) β} (hs : c.size ≠ 0) (hw : w.WF)
    {Q : β → VSt α → Prop} {E : List α → List α → VSt α → Prop} {v0 : VecH}
    (hm : Sat c (m ⟨v0, w⟩) Q (fun s' => ∃ l d, E l d s' ∧ Made c l d w s'.self s'.w)) :
    Sat c (withLocal v0 (Vec.drop c) m w)
      (fun r w' => Q r.1 ⟨r.2, w'⟩)
      (fun w' => ∃ l d s', E l d s' ∧ Clean (d ++ l) w w' ∧ w'.refusals = s'.w.refusals) := by
  unfold withLocal
  have key : Sat c (m.onUnwind (Vec.drop c) ⟨v0, w⟩) Q
      (fun s'' => ∃ l d s', E l d s' ∧ Clean (d ++ l) w s''.w ∧
        s''.w.refusals = s'.w.refusals) := by
    refine Sat.onUnwind hm ?_
    rintro s' ⟨l, d, hE, hmade⟩
    refine (hmade.drop hs hw).mono ?_ (fun _ h => h)
    rintro _ s'' ⟨h1, h2⟩
    exact ⟨l, d, s', hE, h1, h2⟩
  cases hr : m.onUnwind (Vec.drop c) ⟨v0, w⟩ <;> simp_all [Sat]

/-- `vec.clone()`. -/
theorem cloneFrom_spec {w : World α} (hs : c.size ≠ 0) (hw : w.WF) (l : List α)
    (hf : c.Fits l.length) :
    Sat c (Vec.cloneFrom c l w)
      (fun v w' => ∃ ys, Cloned c l ys ∧ Made c ys [] w v w' ∧ w'.refusals = w.refusals)
      (fun w' => (Clean [] w w' ∧ w'.refusals = w.refusals + 1) ∨
        (∃ pre a post ys, l = pre ++ a :: post ∧ Cloned c pre ys ∧ (∃ k, c.clone k a = none) ∧
          Clean ys w w' ∧ w'.refusals = w.refusals)) := by
  unfold Vec.cloneFrom
  rw [M.bind_ok (new_eq w)]
  have hex := extendFromSlice_spec (s := ⟨emptyVec w, w⟩) hs (emptyVec_rep w) hw l
    (by simpa using hf)
  have key := withLocal_sat (v0 := emptyVec w) (w := w) hs hw
    (E := fun l' d s' => (l' = [] ∧ d = [] ∧ s'.w.refusals = w.refusals + 1) ∨
      (d = [] ∧ s'.w.refusals = w.refusals ∧ ∃ pre a post, l = pre ++ a :: post ∧
        Cloned c pre l' ∧ (∃ k, c.clone k a = none)))
    (m := Vec.extendFromSlice c l)
    (Q := fun _ s' => ∃ ys, Cloned c l ys ∧ Made c ys [] w s'.self s'.w ∧
      s'.w.refusals = w.refusals) (hex.mono ?_ ?_)
  · refine Sat.bind' key ?_ ?_
    · rintro w' ⟨l', d, s', (⟨rfl, rfl, h1⟩ | ⟨rfl, h1, pre, a, post, h2, h3, h4⟩), h5, h6⟩
      · exact Or.inl ⟨by simpa using h5, by rw [h6, h1]⟩
      · exact Or.inr ⟨pre, a, post, l', h2, h3, h4, by simpa using h5, by rw [h6, h1]⟩
    · rintro ⟨_, v⟩ w' h; exact h
  · rintro _ s' ⟨ys, h1, h2, h3, _⟩
    exact ⟨ys, h1, Trans.made (by simpa using h2), h3⟩
  · rintro s' (⟨rfl, _, _⟩ | ⟨pre, a, post, ys, h1, h2, h3, h4, h5⟩)
    · exact ⟨[], [], Or.inl ⟨rfl, rfl, rfl⟩, Trans.made (Trans.refuse (emptyVec_rep w) hw)⟩
    · exact ⟨ys, [], Or.inr ⟨rfl, h5, pre, a, post, h1, h2, h3⟩,
        Trans.made (by simpa using h4)⟩

/-- `Vec::from(array)`. -/
theorem fromArray_spec {w : World α} (hs : c.size ≠ 0) (hw : w.WF) (l : List α)
    (hf : c.Fits l.length) :
    Sat c (Vec.fromArray c l w)
      (fun v w' => Made c l [] w v w' ∧ w'.refusals = w.refusals)
      (fun w' => Clean l w w' ∧ w'.refusals = w.refusals + 1) := by
  unfold Vec.fromArray
  rw [M.bind_ok (new_eq w)]
  have key := withLocal_sat (v0 := emptyVec w) (w := w) hs hw
    (E := fun l' d s' => l' = [] ∧ d = l ∧ s'.w.refusals = w.refusals + 1)
    (m := (do
      (Vec.reserveExact c l.length).onUnwind (onLog (dropVals c l))
      Vec.onBuf c do
        Buf.copyFrom c (l.map some) 0 l.length
        Buf.setLen c l.length : M (VSt α) Unit))
    (Q := fun _ s' => Made c l [] w s'.self s'.w ∧ s'.w.refusals = w.refusals) ?_
  · refine Sat.bind' key ?_ ?_
    · rintro w' ⟨l', d, s', ⟨rfl, rfl, h1⟩, h2, h3⟩
      exact ⟨by simpa using h2, by rw [h3, h1]⟩
    · rintro ⟨_, v⟩ w' h; exact h
  · refine Sat.bind (Q := fun _ s' => Reserved c [] ⟨emptyVec w, w⟩ s' ∧
      s'.self.cap = l.length) ?_ ?_
    · refine Sat.onUnwind ((reserveExact_spec (s := ⟨emptyVec w, w⟩) hs (emptyVec_rep w) hw
        (by simpa using hf)).mono (fun _ s' (h : _ ∧ _ ∧ _) => ⟨h.1, ?_⟩) (fun _ h => h)) ?_
      · rw [h.2.1]; simp [emptyVec]
      · rintro s' ⟨rfl, _, _⟩
        refine (Trans.dropVals l (Trans.refuse (emptyVec_rep w) hw)).mono ?_ (fun _ h => ⟨_, h.2.2.choose_spec.2⟩)
        rintro _ s'' ⟨h2, rfl⟩
        exact ⟨[], l, ⟨rfl, rfl, rfl⟩, Trans.made (by simpa using h2)⟩
    · rintro _ s' ⟨h1, h2⟩
      have hb : ∀ b : Buf α, BRep b [] → b.cap = s'.self.cap →
          ∃ b', (do
            Buf.copyFrom c (l.map some) 0 l.length
            Buf.setLen c l.length : M (Buf α) Unit) b = .ok () b' ∧ BTrans l [] b b' ∧
              b'.log = b.log := by
        intro b hb hcap
        have := copyFrom_buf (l2 := l) (src := l.map some) hs hb ⟨[], by simp⟩
          (by rw [hcap, h2]; simp)
        rw [M.bind_ok (Buf.getLen_apply b), hb.len] at this
        simpa using this
      obtain ⟨t, e1, e2, e3, e4⟩ := onBuf_ok hs h1.trans.rep h1.trans.wf hb
      rw [e1]
      exact ⟨Trans.made (by simpa using h1.trans.trans hw e2.trans), e2.refusals.trans h1.refusals⟩

theorem withCapacity_spec {w : World α} {n : Nat} (hs : c.size ≠ 0) (hw : w.WF)
    (hf : c.Fits n) :
    Sat c (Vec.withCapacity c n w)
      (fun v w' => Trans c [] [] ⟨emptyVec w, w⟩ ⟨v, w'⟩ ∧ v.cap = n ∧
        w'.refusals = w.refusals ∧ w'.log = w.log)
      (fun w' => w' = w.refuse ∧ 0 < n ∧ c.grant w.tick (n * c.size) = false) := by
  unfold Vec.withCapacity Vec.withCapacityAndMarker
  by_cases hn : n = 0
  · subst hn
    have e : Vec.tryWithCapacityAndMarker c 0 none w = .ok (.ok (emptyVec w)) w := by
      simp only [Vec.tryWithCapacityAndMarker, true_or, if_true, M.bind_apply, Vec.withMarker,
        M.pure_apply]
      rfl
    rw [M.bind_ok e]
    exact ⟨Trans.refl (emptyVec_rep w) hw, rfl, rfl, rfl⟩
  · refine Sat.bind' (tryWithCapacity_spec hs hw (Nat.pos_of_ne_zero hn) hf none)
      (fun _ h => h.elim) ?_
    rintro r w' (⟨v, rfl, hg, h1, h2, h3, h4, h5, h6, h7, h8, h9, h10, h11, h12, h13⟩ |
      ⟨rfl, hg, rfl⟩)
    · refine ⟨⟨h1, h2, ⟨?_, ?_, ?_, ?_, by simp [h9]⟩, ⟨h4, by simp [emptyVec], fun _ => Or.inr h5,
        h13⟩, by simp [h12]⟩, h3, h11, h12⟩
      · intro p _ hp
        have : p ≠ w.next := fun e => hp (by simp [e, h6])
        simp [h8, this]
      · intro p hp; simp [emptyVec] at hp
      · intro p hp _
        simp only [h6, Option.some.injEq] at hp
        exact Nat.le_of_eq hp
      · intro p hp; simp [emptyVec] at hp
    · exact ⟨rfl, Nat.pos_of_ne_zero hn, hg⟩

/-- `iter.collect::<Vec<_>>()`. -/
theorem fromIter_spec {w : World α} (hs : c.size ≠ 0) (hw : w.WF) (it : Iter α)
    (hf : c.Fits it.items.length) (hf2 : c.Fits it.hint) :
    Sat c (Vec.fromIter c it w)
      (fun v w' => it.boom = false ∧ Made c it.items [] w v w' ∧ w'.refusals = w.refusals)
      (fun w' => ∃ d, d.Perm it.items ∧ Clean d w w' ∧
        ((it.boom = true ∧ w'.refusals = w.refusals) ∨ w'.refusals = w.refusals + 1)) := by
  unfold Vec.fromIter
  refine Sat.bind (Q := fun v w' => Trans c [] [] ⟨emptyVec w, w⟩ ⟨v, w'⟩ ∧
    w'.refusals = w.refusals) ?_ ?_
  · refine Sat.onUnwind ((withCapacity_spec hs hw hf2).mono (fun _ _ h => ⟨h.1, h.2.2.1⟩)
      (fun _ h => h)) ?_
    rintro w' ⟨rfl, _, _⟩
    unfold World.onLog
    have := dropVals_spec (c := c) it.items w.refuse.log
    cases hr : dropVals c it.items w.refuse.log <;> rw [hr] at this
    · simp only [Sat] at this ⊢
      subst this
      refine ⟨it.items, List.Perm.refl _, ⟨fun _ => rfl, hw, Nat.le_refl _, rfl, rfl⟩, Or.inr rfl⟩
    · exact ⟨_, this.2.choose_spec.2⟩
    · exact this
    · exact this
  · rintro v w' ⟨h1, h2⟩
    have hitems := pushItems_spec (s := ⟨v, w'⟩) hs h1.rep h1.wf it.boom it.items (by simpa using hf)
    have key := withLocal_sat (v0 := v) (w := w') hs h1.wf
      (m := Vec.pushItems c it.boom it.items) (c := c)
      (E := fun _ _ _ => True) (Q := fun _ _ => True)
    -- the local started empty in `w`, so account relative to `w`
    have key2 : Sat c (withLocal v (Vec.drop c) (Vec.pushItems c it.boom it.items) w')
        (fun r w'' => it.boom = false ∧ Made c it.items [] w r.2 w'' ∧
          w''.refusals = w.refusals)
        (fun w'' => ∃ d, d.Perm it.items ∧ Clean d w w'' ∧
          ((it.boom = true ∧ w''.refusals = w.refusals) ∨ w''.refusals = w.refusals + 1)) := by
      clear key
      unfold withLocal
      have hu : Sat c ((Vec.pushItems c it.boom it.items).onUnwind (Vec.drop c) ⟨v, w'⟩)
          (fun _ s' => it.boom = false ∧ Made c it.items [] w s'.self s'.w ∧
            s'.w.refusals = w.refusals)
          (fun s' => ∃ d, d.Perm it.items ∧ Clean d w s'.w ∧
            ((it.boom = true ∧ s'.w.refusals = w.refusals) ∨
              s'.w.refusals = w.refusals + 1)) := by
        refine Sat.onUnwind (hitems.mono (Q' := fun _ s' => it.boom = false ∧
          Made c it.items [] w s'.self s'.w ∧ s'.w.refusals = w.refusals) ?_ (fun _ h => h)) ?_
        · rintro _ s' ⟨h3, h4, h5, _⟩
          exact ⟨h3, Trans.made (by simpa using h1.trans hw h4), by rw [h5, h2]⟩
        · rintro s' (⟨h3, h4, h5⟩ | ⟨pre, a, post, h3, h4, h5⟩)
          · have hm : Made c it.items [] w s'.self s'.w :=
              Trans.made (by simpa using h1.trans hw h4)
            refine (hm.drop hs hw).mono ?_ (fun _ h => h)
            rintro _ s'' ⟨h6, h7⟩
            exact ⟨it.items, List.Perm.refl _, by simpa using h6, Or.inl ⟨h3, by rw [h7, h5, h2]⟩⟩
          · have hm : Made c pre (a :: post) w s'.self s'.w :=
              Trans.made (by simpa using h1.trans hw h4)
            refine (hm.drop hs hw).mono ?_ (fun _ h => h)
            rintro _ s'' ⟨h6, h7⟩
            refine ⟨_, ?_, h6, Or.inr (by rw [h7, h5, h2])⟩
            rw [h3]
            exact List.perm_append_comm
      cases hr : (Vec.pushItems c it.boom it.items).onUnwind (Vec.drop c) ⟨v, w'⟩ <;>
        simp_all [Sat]
    refine Sat.bind key2 ?_
    rintro ⟨_, v'⟩ w'' h; exact h

end Lokky
