import Verif.Model.Urc

/-!
# The functions of `Urc`, and what holds for the memory between calls

`C k` is the number of handles `k`.
-/

namespace Lokky
variable {α : Type} {c : Cfg α}

/-- The fence of a handle. -/
def UrcHand.at : UrcHand → Nat
  | .urc f => f
  | .weak f _ => f
  | .fence f => f

/-- The handle keeps the value. -/
def UrcHand.Owns : UrcHand → Prop
  | .urc _ => True
  | .weak _ _ => False
  | .fence _ => True

/-- A `Weak` knows the master of its fence. -/
def UrcHand.Fits (F : UrcFence) : UrcHand → Prop
  | .weak _ m => F.master = m
  | _ => True

/-- What holds for the fence at `f`. -/
structure UrcFenceOk (f : Nat) (F : UrcFence) (C : UrcHand → Nat) : Prop where
  fits : ∀ k, 0 < C k → k.at = f → k.Fits F
  strong : 0 < C (.urc f) + C (.fence f) → F.strong = C (.urc f) + C (.fence f)
  weak : ∀ k, 0 < C k → k.at = f → F.weak = C (.weak f F.master)
  fence : 0 < C (.fence f) → C (.fence f) = 1 ∧ C (.urc f) = 0 ∧ C (.weak f F.master) = 0

/-- What holds for the master at `m`. -/
structure UrcMasterOk (n m : Nat) (x : UrcMaster α) (w : UrcWorld α) (C : UrcHand → Nat) : Prop where
  few : x.sf ≤ n
  alive : x.alive = true → ∃ L : List Nat, L.length ≤ x.sf ∧
    ∀ k F, 0 < C k → w.fences[k.at]? = some (some F) → F.master = m → k.at ∈ L
  dead : x.alive = false →
    ∀ k F, k.Owns → w.fences[k.at]? = some (some F) → F.master = m → C k = 0
  alone : x.alive = true → x.sent = 0 → ∀ k F, k.Owns → 0 < C k →
    w.fences[k.at]? = some (some F) → F.master = m → x.sf = 1 ∧ x.wf = 0

/-- What holds between calls, after at most `n` calls. -/
structure UrcOk (n : Nat) (w : UrcWorld α) (C : UrcHand → Nat) : Prop where
  small : ∀ k, C k ≤ n
  live : ∀ k, 0 < C k → ∃ F, w.fences[k.at]? = some (some F)
  hasMaster : ∀ (f : Nat) (F : UrcFence), w.fences[f]? = some (some F) → ∃ x, w.masters[F.master]? = some (some x)
  fence : ∀ (f : Nat) (F : UrcFence), w.fences[f]? = some (some F) → UrcFenceOk f F C
  master : ∀ (m : Nat) (x : UrcMaster α), w.masters[m]? = some (some x) → UrcMasterOk n m x w C

/-- Fence `g` leads to the value `v`. -/
def UrcSees (w : UrcWorld α) (g : Nat) (v : α) : Prop :=
  ∃ F x, w.fences[g]? = some (some F) ∧ w.masters[F.master]? = some (some x) ∧ x.alive = true ∧ x.val = v

namespace UrcOk
variable {n : Nat} {w : UrcWorld α} {C C' : UrcHand → Nat}

/-- A handle that keeps the value has a fence, a master with the value in it, and exact counts. -/
theorem owner (I : UrcOk n w C) {k : UrcHand} (hk : 0 < C k) (ho : k.Owns) :
    ∃ F x, w.fences[k.at]? = some (some F) ∧ w.masters[F.master]? = some (some x) ∧
      x.alive = true ∧ 1 ≤ x.sf := by
  obtain ⟨F, hF⟩ := I.live k hk
  obtain ⟨x, hx⟩ := I.hasMaster _ _ hF
  have M := I.master _ _ hx
  have ha : x.alive = true := by
    cases h : x.alive with
    | true => rfl
    | false => have := M.dead h k F ho hF rfl; omega
  refine ⟨F, x, hF, hx, ha, ?_⟩
  obtain ⟨L, hL, hm⟩ := M.alive ha
  have := List.length_pos_of_mem (hm k F hk hF rfl)
  omega

theorem more (I : UrcOk n w C) {n' : Nat} (h : n ≤ n') : UrcOk n' w C where
  small k := Nat.le_trans (I.small k) h
  live := I.live
  hasMaster := I.hasMaster
  fence := I.fence
  master m x hx :=
    have M := I.master m x hx
    ⟨Nat.le_trans M.few h, M.alive, M.dead, M.alone⟩

/-- A master is changed. -/
theorem setMaster (I : UrcOk n w C) {m : Nat} {x x' : UrcMaster α} (hx : w.masters[m]? = some (some x))
    {n' : Nat} (hn : n ≤ n') (hok : UrcMasterOk n' m x' w C) :
    UrcOk n' { w with masters := w.masters.set m (some x') } C where
  small k := Nat.le_trans (I.small k) hn
  live := I.live
  hasMaster f F hF := by
    obtain ⟨y, hy⟩ := I.hasMaster f F hF
    by_cases e : m = F.master
    · subst e
      have hl := (List.getElem?_eq_some_iff.mp hy).1
      exact ⟨x', by simp [hl]⟩
    · exact ⟨y, by simpa [List.getElem?_set, e] using hy⟩
  fence := I.fence
  master m' y hy := by
    by_cases e : m = m'
    · subst e
      have hl := (List.getElem?_eq_some_iff.mp hx).1
      simp only [List.getElem?_set_self hl, Option.some.injEq] at hy
      subst hy
      exact ⟨hok.few, hok.alive, hok.dead, hok.alone⟩
    · simp only [List.getElem?_set_ne e] at hy
      have M := I.master m' y hy
      exact ⟨Nat.le_trans M.few hn, M.alive, M.dead, M.alone⟩

/-- The counts of a fence and the handles of it are changed. -/
theorem setFence (I : UrcOk n w C) {f : Nat} {F F' : UrcFence} (hF : w.fences[f]? = some (some F))
    (hm : F'.master = F.master) (hC : ∀ k, k.at ≠ f → C' k = C k) (hs : ∀ k, C' k ≤ n)
    (hok : UrcFenceOk f F' C')
    (h1 : ∀ k, k.at = f → 0 < C' k → ∃ k', k'.at = f ∧ 0 < C k')
    (h2 : ∀ k, k.at = f → k.Owns → 0 < C' k → ∃ k', k'.at = f ∧ k'.Owns ∧ 0 < C k') :
    UrcOk n { w with fences := w.fences.set f (some F') } C' := by
  have hl := (List.getElem?_eq_some_iff.mp hF).1
  have hback : ∀ (k : UrcHand) G, (w.fences.set f (some F'))[k.at]? = some (some G) →
      ∃ G0, w.fences[k.at]? = some (some G0) ∧ G.master = G0.master := by
    intro k G hG
    by_cases e : f = k.at
    · rw [← e, List.getElem?_set_self hl] at hG
      simp only [Option.some.injEq] at hG
      subst hG
      exact ⟨F, e ▸ hF, hm⟩
    · rw [List.getElem?_set_ne e] at hG
      exact ⟨G, hG, rfl⟩
  refine ⟨hs, ?_, ?_, ?_, ?_⟩
  · intro k hk
    by_cases e : f = k.at
    · exact ⟨F', by simp only [← e, List.getElem?_set_self hl]⟩
    · rw [hC k (fun h => e h.symm)] at hk
      obtain ⟨G, hG⟩ := I.live k hk
      exact ⟨G, by simpa [List.getElem?_set_ne e] using hG⟩
  · intro g G hG
    obtain ⟨G0, h0, e0⟩ := hback (.urc g) G hG
    obtain ⟨x, hx⟩ := I.hasMaster _ _ h0
    exact ⟨x, e0 ▸ hx⟩
  · intro g G hG
    by_cases e : f = g
    · subst e
      simp only [List.getElem?_set_self hl, Option.some.injEq] at hG
      subst hG
      exact hok
    · simp only [List.getElem?_set_ne e] at hG
      have K := I.fence g G hG
      have e' : ∀ k : UrcHand, k.at = g → C' k = C k := fun k hk => hC k fun h => e (h.symm.trans hk)
      refine ⟨fun k hk ha => K.fits k (e' k ha ▸ hk) ha, ?_, fun k hk ha => ?_, ?_⟩
      · rw [e' (.urc g) rfl, e' (.fence g) rfl]; exact K.strong
      · rw [e' (.weak g G.master) rfl]; exact K.weak k (e' k ha ▸ hk) ha
      · rw [e' (.urc g) rfl, e' (.fence g) rfl, e' (.weak g G.master) rfl]; exact K.fence
  · intro m x hx
    have M := I.master m x hx
    have hb1 : ∀ (k : UrcHand) G, 0 < C' k → (w.fences.set f (some F'))[k.at]? = some (some G) → G.master = m →
        ∃ k' G', 0 < C k' ∧ w.fences[k'.at]? = some (some G') ∧ G'.master = m ∧ k'.at = k.at := by
      intro k G hk hG hmm
      obtain ⟨G0, h0, e0⟩ := hback k G hG
      by_cases e : k.at = f
      · obtain ⟨k', ha, hk'⟩ := h1 k e hk
        exact ⟨k', G0, hk', by rw [ha, ← e]; exact h0, e0 ▸ hmm, ha.trans e.symm⟩
      · exact ⟨k, G0, hC k e ▸ hk, h0, e0 ▸ hmm, rfl⟩
    have hb2 : ∀ (k : UrcHand) G, k.Owns → 0 < C' k → (w.fences.set f (some F'))[k.at]? = some (some G) →
        G.master = m → ∃ k' G', k'.Owns ∧ 0 < C k' ∧ w.fences[k'.at]? = some (some G') ∧ G'.master = m := by
      intro k G ho hk hG hmm
      obtain ⟨G0, h0, e0⟩ := hback k G hG
      by_cases e : k.at = f
      · obtain ⟨k', ha, ho', hk'⟩ := h2 k e ho hk
        exact ⟨k', G0, ho', hk', by rw [ha, ← e]; exact h0, e0 ▸ hmm⟩
      · exact ⟨k, G0, ho, hC k e ▸ hk, h0, e0 ▸ hmm⟩
    refine ⟨M.few, fun ha => ?_, fun ha k G ho hG hmm => ?_, fun ha hsent k G ho hk hG hmm => ?_⟩
    · obtain ⟨L, hL, hmem⟩ := M.alive ha
      refine ⟨L, hL, fun k G hk hG hmm => ?_⟩
      obtain ⟨k', G', hk', hG', hm', e⟩ := hb1 k G hk hG hmm
      exact e ▸ hmem k' G' hk' hG' hm'
    · refine Nat.eq_zero_of_not_pos fun hne => ?_
      obtain ⟨k', G', ho', hk', hG', hm'⟩ := hb2 k G ho (by omega) hG hmm
      have := M.dead ha k' G' ho' hG' hm'
      omega
    · obtain ⟨k', G', ho', hk', hG', hm'⟩ := hb2 k G ho hk hG hmm
      exact M.alone ha hsent k' G' ho' hk' hG' hm'

/-- A fence without handles is released. -/
theorem release (I : UrcOk n w C) {f : Nat} (hf : f < w.fences.length)
    (hC : ∀ k, k.at ≠ f → C' k = C k) (h0 : ∀ k, k.at = f → C' k = 0) :
    UrcOk n { w with fences := w.fences.set f none } C' := by
  have hback : ∀ (g : Nat) G, (w.fences.set f none)[g]? = some (some G) →
      f ≠ g ∧ w.fences[g]? = some (some G) := by
    intro g G hG
    by_cases e : f = g
    · subst e
      rw [List.getElem?_set_self hf] at hG
      cases hG
    · rw [List.getElem?_set_ne e] at hG
      exact ⟨e, hG⟩
  have hpos : ∀ k, 0 < C' k → k.at ≠ f ∧ 0 < C k := by
    intro k hk
    have : k.at ≠ f := fun e => by have := h0 k e; omega
    exact ⟨this, hC k this ▸ hk⟩
  refine ⟨?_, ?_, ?_, ?_, ?_⟩
  · intro k
    by_cases e : k.at = f
    · rw [h0 k e]; omega
    · rw [hC k e]; exact I.small k
  · intro k hk
    obtain ⟨h1, h2⟩ := hpos k hk
    obtain ⟨G, hG⟩ := I.live k h2
    exact ⟨G, by simpa [List.getElem?_set_ne (Ne.symm h1)] using hG⟩
  · intro g G hG
    exact I.hasMaster g G (hback g G hG).2
  · intro g G hG
    obtain ⟨e, hG⟩ := hback g G hG
    have K := I.fence g G hG
    have e' : ∀ k : UrcHand, k.at = g → C' k = C k := fun k hk => hC k fun h => e (h.symm.trans hk)
    refine ⟨fun k hk ha => K.fits k (e' k ha ▸ hk) ha, ?_, fun k hk ha => ?_, ?_⟩
    · rw [e' (.urc g) rfl, e' (.fence g) rfl]; exact K.strong
    · rw [e' (.weak g G.master) rfl]; exact K.weak k (e' k ha ▸ hk) ha
    · rw [e' (.urc g) rfl, e' (.fence g) rfl, e' (.weak g G.master) rfl]; exact K.fence
  · intro m x hx
    have M := I.master m x hx
    refine ⟨M.few, fun ha => ?_, fun ha k G ho hG hmm => ?_, fun ha hsent k G ho hk hG hmm => ?_⟩
    · obtain ⟨L, hL, hmem⟩ := M.alive ha
      exact ⟨L, hL, fun k G hk hG hmm => hmem k G (hpos k hk).2 (hback _ G hG).2 hmm⟩
    · obtain ⟨e, hG⟩ := hback _ G hG
      rw [hC k (Ne.symm e)]
      exact M.dead ha k G ho hG hmm
    · exact M.alone ha hsent k G ho (hpos k hk).2 (hback _ G hG).2 hmm

/-- Only fences, masters and handles matter. -/
theorem world (I : UrcOk n w C) {w' : UrcWorld α} (hm : w'.masters = w.masters)
    (hf : w'.fences = w.fences) : UrcOk n w' C where
  small := I.small
  live := hf ▸ I.live
  hasMaster := by rw [hf, hm]; exact I.hasMaster
  fence := by rw [hf]; exact I.fence
  master m x hx := by
    have M := I.master m x (hm ▸ hx)
    exact ⟨M.few, by rw [hf]; exact M.alive, by rw [hf]; exact M.dead, by rw [hf]; exact M.alone⟩

theorem handles (I : UrcOk n w C) (h : ∀ k, C' k = C k) : UrcOk n w C' := by
  rw [show C' = C from funext h]
  exact I

theorem outside (I : UrcOk n w C) {k : UrcHand} (h : w.fences.length ≤ k.at) : C k = 0 := by
  refine Nat.eq_zero_of_not_pos fun hne => ?_
  obtain ⟨F, hF⟩ := I.live k (by omega)
  have := (List.getElem?_eq_some_iff.mp hF).1
  omega

/-- A new master. -/
theorem pushMaster (I : UrcOk n w C) {x : UrcMaster α} (hs : x.sf ≤ n) :
    UrcOk n { w with masters := w.masters ++ [some x] } C := by
  have hnone : ∀ (f : Nat) (F : UrcFence), w.fences[f]? = some (some F) → F.master ≠ w.masters.length := by
    intro f F hF e
    obtain ⟨y, hy⟩ := I.hasMaster f F hF
    have := (List.getElem?_eq_some_iff.mp hy).1
    omega
  refine ⟨I.small, I.live, ?_, I.fence, ?_⟩
  · intro f F hF
    obtain ⟨y, hy⟩ := I.hasMaster f F hF
    exact ⟨y, by
      have := (List.getElem?_eq_some_iff.mp hy).1
      simpa only [List.getElem?_append_left this] using hy⟩
  · intro m y hy
    by_cases e : m < w.masters.length
    · simp only [List.getElem?_append_left e] at hy
      have M := I.master m y hy
      exact ⟨M.few, M.alive, M.dead, M.alone⟩
    · have e2 : m = w.masters.length := by
        have := (List.getElem?_eq_some_iff.mp hy).1
        simp only [List.length_append, List.length_cons, List.length_nil] at this
        omega
      subst e2
      simp at hy
      subst hy
      exact ⟨hs, fun _ => ⟨[], by simp, fun k F _ hF hmm => (hnone _ _ hF hmm).elim⟩,
        fun _ k F _ hF hmm => (hnone _ _ hF hmm).elim, fun _ _ k F _ _ hF hmm => (hnone _ _ hF hmm).elim⟩

/-- A new fence with one handle, for a master that has room for it. -/
theorem pushFence (I : UrcOk n w C) {m : Nat} {x : UrcMaster α} (hx : w.masters[m]? = some (some x))
    (ha : x.alive = true)
    (hroom : ∃ L : List Nat, L.length + 1 ≤ x.sf ∧
      ∀ k F, 0 < C k → w.fences[k.at]? = some (some F) → F.master = m → k.at ∈ L)
    (hsent : x.sent = 0 → x.sf = 1 ∧ x.wf = 0) (hn : 1 ≤ n)
    (hC : ∀ k, C' k = C k + if k = .urc w.fences.length then 1 else 0) :
    UrcOk n { w with fences := w.fences ++ [some ⟨1, 0, m⟩] } C' := by
  have hold : ∀ k : UrcHand, k.at ≠ w.fences.length → C' k = C k := by
    intro k hk
    rw [hC, if_neg (by rintro rfl; exact hk rfl)]; rfl
  have hnew : ∀ k : UrcHand, k.at = w.fences.length →
      C' k = if k = .urc w.fences.length then 1 else 0 := by
    intro k hk
    rw [hC, I.outside (by omega)]; omega
  have hback : ∀ (g : Nat) G, (w.fences ++ [some ⟨1, 0, m⟩])[g]? = some (some G) →
      (g < w.fences.length ∧ w.fences[g]? = some (some G)) ∨ (g = w.fences.length ∧ G = ⟨1, 0, m⟩) := by
    intro g G hG
    by_cases e : g < w.fences.length
    · rw [List.getElem?_append_left e] at hG
      exact Or.inl ⟨e, hG⟩
    · have e2 : g = w.fences.length := by
        have := (List.getElem?_eq_some_iff.mp hG).1
        simp only [List.length_append, List.length_cons, List.length_nil] at this
        omega
      subst e2
      simp at hG
      exact Or.inr ⟨rfl, hG.symm⟩
  refine ⟨?_, ?_, ?_, ?_, ?_⟩
  · intro k
    by_cases e : k.at = w.fences.length
    · rw [hnew k e]; split <;> omega
    · rw [hold k e]; exact I.small k
  · intro k hk
    by_cases e : k.at = w.fences.length
    · exact ⟨⟨1, 0, m⟩, by simp [e]⟩
    · rw [hold k e] at hk
      obtain ⟨G, hG⟩ := I.live k hk
      have := (List.getElem?_eq_some_iff.mp hG).1
      exact ⟨G, by simpa only [List.getElem?_append_left this] using hG⟩
  · intro g G hG
    rcases hback g G hG with ⟨_, h⟩ | ⟨_, h⟩
    · exact I.hasMaster g G h
    · subst h; exact ⟨x, hx⟩
  · intro g G hG
    rcases hback g G hG with ⟨hlt, h⟩ | ⟨e, h⟩
    · have K := I.fence g G h
      have e' : ∀ k : UrcHand, k.at = g → C' k = C k := fun k hk => hold k (by omega)
      refine ⟨fun k hk ha => K.fits k (e' k ha ▸ hk) ha, ?_, fun k hk ha => ?_, ?_⟩
      · rw [e' (.urc g) rfl, e' (.fence g) rfl]; exact K.strong
      · rw [e' (.weak g G.master) rfl]; exact K.weak k (e' k ha ▸ hk) ha
      · rw [e' (.urc g) rfl, e' (.fence g) rfl, e' (.weak g G.master) rfl]; exact K.fence
    · subst e h
      have e1 : C' (.urc w.fences.length) = 1 := by rw [hnew _ rfl]; simp
      have e2 : C' (.fence w.fences.length) = 0 := by rw [hnew _ rfl]; simp
      have e3 : ∀ m, C' (.weak w.fences.length m) = 0 := fun m => by rw [hnew _ rfl]; simp
      refine ⟨fun k hk ha' => ?_, fun _ => by rw [e1, e2], fun k _ _ => by rw [e3], fun h => by omega⟩
      cases k with
      | urc f => trivial
      | fence f => trivial
      | weak f q => cases ha'; have := e3 q; omega
  · intro m' y hy
    have M := I.master m' y hy
    have hkat : ∀ k : UrcHand, k.at < w.fences.length → C' k = C k := fun k h => hold k (by omega)
    by_cases em : m' = m
    · subst em
      obtain rfl : x = y := Option.some.inj (Option.some.inj (hx.symm.trans hy))
      refine ⟨M.few, fun _ => ?_, (fun h => by rw [ha] at h; cases h), fun _ hs k G ho hk hG hmm => hsent hs⟩
      obtain ⟨L, hL, hmem⟩ := hroom
      refine ⟨w.fences.length :: L, by simpa using hL, fun k G hk hG hmm => ?_⟩
      rcases hback _ G hG with ⟨hlt, h⟩ | ⟨e, _⟩
      · exact List.mem_cons_of_mem _ (hmem k G (hkat k hlt ▸ hk) h hmm)
      · rw [e]; exact List.mem_cons_self
    · have hb : ∀ (k : UrcHand) G, (w.fences ++ [some ⟨1, 0, m⟩])[k.at]? = some (some G) → G.master = m' →
          C' k = C k ∧ w.fences[k.at]? = some (some G) := by
        intro k G hG hmm
        rcases hback _ G hG with ⟨hlt, h⟩ | ⟨_, h⟩
        · exact ⟨hkat k hlt, h⟩
        · subst h; exact (em hmm.symm).elim
      refine ⟨M.few, fun ha => ?_, fun ha k G ho hG hmm => ?_, fun ha hsent k G ho hk hG hmm => ?_⟩
      · obtain ⟨L, hL, hmem⟩ := M.alive ha
        refine ⟨L, hL, fun k G hk hG hmm => ?_⟩
        obtain ⟨e1, e2⟩ := hb k G hG hmm
        exact hmem k G (e1 ▸ hk) e2 hmm
      · obtain ⟨e1, e2⟩ := hb k G hG hmm
        rw [e1]
        exact M.dead ha k G ho e2 hmm
      · obtain ⟨e1, e2⟩ := hb k G hG hmm
        exact M.alone ha hsent k G ho (e1 ▸ hk) e2 hmm

end UrcOk

end Lokky
