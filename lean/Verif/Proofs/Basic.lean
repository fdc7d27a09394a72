import Verif.Model.Vec

/-!
# Reasoning about outcomes and buffers
-/

namespace Lokky

/-- Some destructor panics; only then can a panic meet another panic and abort the process. -/
def Cfg.MayAbort {α : Type} (c : Cfg α) : Prop := ∃ a, c.dropPanics a = true

/-- A judgement on an outcome: no undefined behaviour; if it returned, `Q` holds; if it unwound,
`E` holds; if it aborted, some destructor panics. -/
def Sat {α σ β : Type} (c : Cfg α) (r : Res σ β) (Q : β → σ → Prop) (E : σ → Prop) : Prop :=
  match r with
  | .ok a s => Q a s
  | .panic s => E s
  | .abort => c.MayAbort
  | .ub _ => False

section Sat
variable {α σ β γ : Type} {c : Cfg α}

theorem Sat.mono {r : Res σ β} {Q Q' : β → σ → Prop} {E E' : σ → Prop} (h : Sat c r Q E)
    (hQ : ∀ a s, Q a s → Q' a s) (hE : ∀ s, E s → E' s) : Sat c r Q' E' := by
  cases r <;> simp_all [Sat]

theorem Sat.bind {m : M σ β} {f : β → M σ γ} {s : σ} {Q : β → σ → Prop} {R : γ → σ → Prop}
    {E : σ → Prop} (h : Sat c (m s) Q E) (hf : ∀ a s', Q a s' → Sat c (f a s') R E) :
    Sat c ((m >>= f) s) R E := by
  rw [M.bind_apply]
  cases hm : m s <;> simp_all [Sat]

theorem Sat.bind' {m : M σ β} {f : β → M σ γ} {s : σ} {Q : β → σ → Prop} {E' : σ → Prop}
    {R : γ → σ → Prop} {E : σ → Prop} (h : Sat c (m s) Q E')
    (hE : ∀ s', E' s' → E s') (hf : ∀ a s', Q a s' → Sat c (f a s') R E) :
    Sat c ((m >>= f) s) R E := Sat.bind (h.mono (fun _ _ h => h) hE) hf

theorem Sat.pure {a : β} {s : σ} {Q : β → σ → Prop} {E : σ → Prop} (h : Q a s) :
    Sat c ((Pure.pure a : M σ β) s) Q E := h

theorem Sat.onUnwind {m : M σ β} {k : M σ Unit} {s : σ} {Q : β → σ → Prop} {E' E : σ → Prop}
    (h : Sat c (m s) Q E') (hk : ∀ s', E' s' → Sat c (k s') (fun _ => E) (fun _ => c.MayAbort)) :
    Sat c (m.onUnwind k s) Q E := by
  unfold M.onUnwind
  cases hm : m s with
  | ok a s' => simp_all [Sat]
  | panic s' =>
    have := hk s' (by simpa [Sat, hm] using h)
    cases hk' : k s' <;> simp_all [Sat]
  | abort => simpa [Sat, hm] using h
  | ub u => simp_all [Sat]

theorem Sat.andAlways {m k : M σ Unit} {s : σ} {Q : Unit → σ → Prop} {E' : σ → Prop}
    {R : Unit → σ → Prop} {E : σ → Prop}
    (h : Sat c (m s) Q E') (hk : ∀ s', E' s' → Sat c (k s') (fun _ => E) (fun _ => c.MayAbort))
    (hk' : ∀ s', Q () s' → Sat c (k s') R E) :
    Sat c (m.andAlways k s) R E := by
  unfold M.andAlways
  rw [M.seq_eq_bind]
  exact Sat.bind (Sat.onUnwind h hk) (fun _ s' hs => hk' s' hs)

theorem Sat.of_eq_ok {r : Res σ β} {Q : β → σ → Prop} {E : σ → Prop} {a : β} {s : σ}
    (h : r = .ok a s) (hQ : Q a s) : Sat c r Q E := by rw [h]; exact hQ

theorem Sat.and {r : Res σ β} {Q Q' : β → σ → Prop} {E E' : σ → Prop} (h : Sat c r Q E)
    (h' : Sat c r Q' E') : Sat c r (fun a s => Q a s ∧ Q' a s) (fun s => E s ∧ E' s) := by
  cases r <;> simp_all [Sat]

theorem Sat.noUB {r : Res σ β} {Q : β → σ → Prop} {E : σ → Prop} (h : Sat c r Q E) (u : UB) :
    r ≠ .ub u := by rintro rfl; exact h

end Sat

/-! ## Buffers holding a list -/

variable {α : Type}

/-- The buffer holds exactly the list `l` in its first `len` slots. -/
structure BRep (b : Buf α) (l : List α) : Prop where
  len : b.len = l.length
  cap : b.slots.length = b.cap
  holds : ∃ rest, b.slots = l.map some ++ rest

/-- `b'` came from `b` by operations that kept the capacity and dropped `d`; now it holds `l'`. -/
structure BTrans (l' d : List α) (b b' : Buf α) : Prop where
  rep : BRep b' l'
  cap : b'.cap = b.cap
  drops : b'.log.drops = b.log.drops ++ d

theorem BRep.le_cap {b : Buf α} {l : List α} (h : BRep b l) : l.length ≤ b.cap := by
  obtain ⟨rest, hr⟩ := h.holds
  rw [← h.cap, hr]; simp

theorem BRep.slot {b : Buf α} {l : List α} (h : BRep b l) {i : Nat} (hi : i < l.length) :
    b.slots[i]? = some (some l[i]) := by
  obtain ⟨rest, hr⟩ := h.holds
  rw [hr, List.getElem?_append_left (by simpa using hi)]
  simp [hi]

theorem BTrans.refl {b : Buf α} {l : List α} (h : BRep b l) : BTrans l [] b b :=
  ⟨h, rfl, by simp⟩

theorem BTrans.trans {b b' b'' : Buf α} {l l' d d' : List α} (h : BTrans l d b b')
    (h' : BTrans l' d' b' b'') : BTrans l' (d ++ d') b b'' :=
  ⟨h'.rep, h'.cap.trans h.cap, by rw [h'.drops, h.drops, List.append_assoc]⟩

section Prims
variable {c : Cfg α}

theorem Buf.getLen_apply (b : Buf α) : Buf.getLen b = .ok b.len b := rfl

theorem Buf.setLen_eq {b : Buf α} {n : Nat} (h : n ≤ b.cap) :
    Buf.setLen c n b = .ok () { b with len := n } := by
  simp [Buf.setLen, M.bind_apply, debugAssert, Nat.not_lt.mpr h]

theorem Buf.read_eq {b : Buf α} {i : Nat} {a : α} (hs : c.size ≠ 0)
    (h : b.slots[i]? = some (some a)) : Buf.read c i b = .ok a b := by
  simp [Buf.read, hs, h]

theorem Buf.write_eq {b : Buf α} {i : Nat} {a : α} (hs : c.size ≠ 0)
    (h : i < b.slots.length) :
    Buf.write c i a b = .ok () { b with slots := b.slots.set i (some a) } := by
  simp [Buf.write, hs, h]

theorem Buf.copy_eq {b : Buf α} {src dst n : Nat} (hs : c.size ≠ 0)
    (h1 : src + n ≤ b.slots.length) (h2 : dst + n ≤ b.slots.length) :
    Buf.copy c src dst n b = .ok () { b with
      slots := b.slots.take dst ++ (b.slots.drop src).take n ++ b.slots.drop (dst + n) } := by
  by_cases hn : n = 0
  · subst hn
    simp [Buf.copy]
  · simp [Buf.copy, hs, hn, h1, h2]

theorem Buf.copyFrom_eq {b : Buf α} {src : List (Option α)} {dst n : Nat} (hs : c.size ≠ 0)
    (h1 : n ≤ src.length) (h2 : dst + n ≤ b.slots.length) :
    Buf.copyFrom c src dst n b = .ok () { b with
      slots := b.slots.take dst ++ src.take n ++ b.slots.drop (dst + n) } := by
  by_cases hn : n = 0
  · subst hn
    simp [Buf.copyFrom]
  · simp [Buf.copyFrom, hs, hn, h1, h2]

theorem uncheckedIndex_eq {σ : Type} {s : σ} {i n : Nat} (h : i < n) :
    uncheckedIndex c i n s = .ok () s := by
  have : ¬ n ≤ i := by omega
  simp [uncheckedIndex, this]

theorem assert_pos {σ : Type} {s : σ} {p : Prop} [Decidable p] (h : p) :
    assert p s = .ok () s := by simp [assert, h]

theorem assert_neg {σ : Type} {s : σ} {p : Prop} [Decidable p] (h : ¬ p) :
    assert p s = .panic s := by simp [assert, h]

theorem debugAssert_pos {σ : Type} {s : σ} {p : Prop} [Decidable p] (h : p) :
    debugAssert c p s = .ok () s := by simp [debugAssert, h]

theorem uadd_eq {σ : Type} {s : σ} {a b : Nat} (h : a + b ≤ c.usizeMax) :
    uadd c a b s = .ok (a + b) s := by simp [uadd, h]

theorem umul_eq {σ : Type} {s : σ} {a b : Nat} (h : a * b ≤ c.usizeMax) :
    umul c a b s = .ok (a * b) s := by simp [umul, h]

theorem usub_eq {σ : Type} {s : σ} {a b : Nat} (h : b ≤ a) :
    usub c a b s = .ok (a - b) s := by simp [usub, h]

/-! ### Dropping -/

/-- Adding entries to the drop log. -/
def Log.addDrops (g : Log α) (d : List α) : Log α := { g with drops := g.drops ++ d }

@[simp] theorem Log.addDrops_nil (g : Log α) : g.addDrops [] = g := by simp [Log.addDrops]
@[simp] theorem Log.addDrops_addDrops (g : Log α) (d d' : List α) :
    (g.addDrops d).addDrops d' = g.addDrops (d ++ d') := by simp [Log.addDrops]
@[simp] theorem Log.drops_addDrops (g : Log α) (d : List α) :
    (g.addDrops d).drops = g.drops ++ d := rfl
@[simp] theorem Log.calls_addDrops (g : Log α) (d : List α) :
    (g.addDrops d).calls = g.calls := rfl

theorem dropVal_spec (a : α) (g : Log α) :
    Sat c (dropVal c a g) (fun _ g' => g' = g.addDrops [a] ∧ c.dropPanics a = false)
      (fun g' => g' = g.addDrops [a] ∧ c.dropPanics a = true) := by
  unfold dropVal
  split <;> simp_all [Sat, Log.addDrops]

theorem dropVals_spec (l : List α) (g : Log α) :
    Sat c (dropVals c l g) (fun _ g' => g' = g.addDrops l)
      (fun g' => g' = g.addDrops l ∧ ∃ a ∈ l, c.dropPanics a = true) := by
  induction l generalizing g with
  | nil => simp [dropVals, Sat]
  | cons a l ih =>
    rw [dropVals]
    refine Sat.andAlways (dropVal_spec a g) ?_ ?_
    · rintro s' ⟨rfl, hp⟩
      refine (ih _).mono ?_ (fun _ h => ⟨_, h.2.choose_spec.2⟩)
      rintro _ g' rfl
      exact ⟨by simp, a, by simp, hp⟩
    · rintro s' ⟨rfl, hp⟩
      refine (ih _).mono ?_ ?_
      · rintro _ g' rfl; simp
      · rintro g' ⟨rfl, b, hb, hp⟩
        exact ⟨by simp, b, by simp [hb], hp⟩

theorem Buf.onLog_sat {β : Type} {m : M (Log α) β} {b : Buf α} {Q : β → Log α → Prop}
    {E : Log α → Prop} (h : Sat c (m b.log) Q E) :
    Sat c (Buf.onLog m b) (fun a b' => ∃ g, Q a g ∧ b' = { b with log := g })
      (fun b' => ∃ g, E g ∧ b' = { b with log := g }) := by
  unfold Buf.onLog
  cases hm : m b.log <;> simp_all [Sat]

theorem Buf.dropAt_spec {b : Buf α} {i : Nat} {a : α} (hs : c.size ≠ 0)
    (h : b.slots[i]? = some (some a)) :
    Sat c (Buf.dropAt c i b)
      (fun _ b' => b' = { b with log := b.log.addDrops [a] } ∧ c.dropPanics a = false)
      (fun b' => b' = { b with log := b.log.addDrops [a] } ∧ c.dropPanics a = true) := by
  have := Buf.onLog_sat (b := b) (dropVal_spec (c := c) a b.log)
  simp only [Buf.dropAt, hs, h, if_false]
  refine this.mono ?_ ?_
  · rintro _ b' ⟨g, ⟨rfl, hp⟩, rfl⟩; exact ⟨rfl, hp⟩
  · rintro b' ⟨g, ⟨rfl, hp⟩, rfl⟩; exact ⟨rfl, hp⟩

/-- Dropping a slice drops all its elements, in order, panicking or not. -/
theorem Buf.dropSlice_spec {b : Buf α} {xs : List α} {i : Nat} (hs : c.size ≠ 0)
    (h : ∀ k (hk : k < xs.length), b.slots[i + k]? = some (some xs[k])) :
    Sat c (Buf.dropSlice c i xs.length b)
      (fun _ b' => b' = { b with log := b.log.addDrops xs })
      (fun b' => b' = { b with log := b.log.addDrops xs } ∧ ∃ a ∈ xs, c.dropPanics a = true) := by
  induction xs generalizing b i with
  | nil => simp [Buf.dropSlice, Sat]
  | cons a l ih =>
    have h0 := h 0 (by simp)
    have h1 : ∀ (g : Log α) k (hk : k < l.length),
        ({ b with log := g } : Buf α).slots[i + 1 + k]? = some (some l[k]) := by
      intro g k hk
      have := h (k + 1) (by simpa using hk)
      simpa [Nat.add_assoc, Nat.add_comm 1 k] using this
    rw [List.length_cons, Buf.dropSlice]
    refine Sat.andAlways (Buf.dropAt_spec hs (by simpa using h0)) ?_ ?_
    · rintro s' ⟨rfl, hp⟩
      refine (ih (h1 _)).mono ?_ (fun _ h => ⟨_, h.2.choose_spec.2⟩)
      rintro _ g' rfl
      exact ⟨by simp, a, by simp, by simpa using hp⟩
    · rintro s' ⟨rfl, hp⟩
      refine (ih (h1 _)).mono ?_ ?_
      · rintro _ g' rfl; simp
      · rintro g' ⟨rfl, b', hb, hp⟩
        exact ⟨by simp, b', by simp [hb], hp⟩

/-- The explicit drop loop stops at the first panicking element. -/
theorem Buf.dropLoop_spec {b : Buf α} {xs : List α} {i : Nat} (hs : c.size ≠ 0)
    (h : ∀ k (hk : k < xs.length), b.slots[i + k]? = some (some xs[k])) :
    Sat c (Buf.dropLoop c i xs.length b)
      (fun _ b' => b' = { b with log := b.log.addDrops xs } ∧ ∀ a ∈ xs, c.dropPanics a = false)
      (fun b' => ∃ ys a zs, xs = ys ++ a :: zs ∧ c.dropPanics a = true ∧
        (∀ y ∈ ys, c.dropPanics y = false) ∧
        b' = { b with log := b.log.addDrops (ys ++ [a]) }) := by
  induction xs generalizing b i with
  | nil => simp [Buf.dropLoop, Sat]
  | cons a l ih =>
    have h0 := h 0 (by simp)
    have h1 : ∀ (g : Log α) k (hk : k < l.length),
        ({ b with log := g } : Buf α).slots[i + 1 + k]? = some (some l[k]) := by
      intro g k hk
      have := h (k + 1) (by simpa using hk)
      simpa [Nat.add_assoc, Nat.add_comm 1 k] using this
    rw [List.length_cons, Buf.dropLoop]
    refine Sat.bind' (Buf.dropAt_spec hs (by simpa using h0)) ?_ ?_
    · rintro s' ⟨rfl, hp⟩
      exact ⟨[], a, l, rfl, hp, by simp, by simp⟩
    · rintro _ s' ⟨rfl, hp⟩
      refine (ih (h1 _)).mono ?_ ?_
      · rintro _ g' ⟨rfl, hall⟩
        refine ⟨by simp, ?_⟩
        simpa using ⟨by simpa using hp, hall⟩
      · rintro g' ⟨ys, a', zs, rfl, hp', hys, rfl⟩
        refine ⟨a :: ys, a', zs, rfl, hp', ?_, by simp⟩
        simpa using ⟨by simpa using hp, hys⟩

theorem Buf.readSlice_spec {b : Buf α} {xs : List α} {i : Nat} (hs : c.size ≠ 0)
    (h : ∀ k (hk : k < xs.length), b.slots[i + k]? = some (some xs[k])) :
    Buf.readSlice c i xs.length b = .ok xs b := by
  induction xs generalizing i with
  | nil => simp [Buf.readSlice]
  | cons a l ih =>
    have h0 := h 0 (by simp)
    have h1 : ∀ k (hk : k < l.length), b.slots[i + 1 + k]? = some (some l[k]) := by
      intro k hk
      have := h (k + 1) (by simpa using hk)
      simpa [Nat.add_assoc, Nat.add_comm 1 k] using this
    rw [List.length_cons, Buf.readSlice, M.bind_ok (Buf.read_eq hs (by simpa using h0)),
      M.bind_ok (ih h1)]
    rfl

end Prims

end Lokky
