import Verif.Model.Nested
import Verif.Proofs.Conserve
import Verif.Proofs.VecPool

/-!
# Vectors of vectors: every inner vector has one owner
-/

namespace Lokky
variable {α : Type} {c : Cfg α} {co : Cfg Nat}

theorem Pool.alive_iff {P : Pool α} {x : Nat} : P.alive x = true ↔ P.Alive x := by
  unfold Pool.alive Pool.Alive
  cases P.vecs[x]? with
  | none => simp
  | some o => cases o <;> simp

/-- A list is there under number `x`. -/
def Spec.Lists.Has (L : Spec.Lists α) (x : Nat) : Prop := ∃ l, L[x]? = some (some l)

theorem PInv.alive_iff {P : Pool α} {L : Spec.Lists α} (h : PInv c P L) (x : Nat) :
    P.Alive x ↔ L.Has x := by
  constructor
  · rintro ⟨v, hv⟩
    obtain ⟨l, hl, _⟩ := h.rep x v hv
    exact ⟨l, hl⟩
  · rintro ⟨l, hl⟩
    exact h.live x l hl

theorem has_snoc (L : Spec.Lists α) (l : List α) (x : Nat) :
    Spec.Lists.Has (L ++ [some l]) x ↔ L.Has x ∨ x = L.length := by
  unfold Spec.Lists.Has
  rcases Nat.lt_trichotomy x L.length with h | h | h
  · rw [List.getElem?_append_left h]
    simp [Nat.ne_of_lt h]
  · subst h; simp
  · rw [List.getElem?_append_right (Nat.le_of_lt h)]
    have : x - L.length ≠ 0 := by omega
    have e : L[x]? = none := List.getElem?_eq_none (Nat.le_of_lt h)
    simp [e, this]
    omega

theorem has_set {L : Spec.Lists α} {x : Nat} {l : List α} (h : L[x]? = some (some l))
    (l' : List α) (y : Nat) : Spec.Lists.Has (L.set x (some l')) y ↔ L.Has y := by
  unfold Spec.Lists.Has
  by_cases e : x = y
  · subst e
    have := (List.getElem?_eq_some_iff.mp h).1
    rw [h]; simp [this]
  · rw [List.getElem?_set_ne e]

theorem has_unset (L : Spec.Lists α) (x y : Nat) :
    Spec.Lists.Has (L.set x none) y ↔ L.Has y ∧ x ≠ y := by
  unfold Spec.Lists.Has
  by_cases e : x = y
  · subst e
    by_cases hx : x < L.length <;> simp [hx]
  · rw [List.getElem?_set_ne e]; simp [e]

/-- Which lists a step leaves. -/
theorem Spec.Step.has {cl : Spec.CloneRel α} {cmd : Spec.Cmd α} {ev : Spec.Event α}
    {L L' : Spec.Lists α} {made dropped : List α} (h : Spec.Step cl cmd ev L L' made dropped) :
    L.length ≤ L'.length ∧ ∀ x, L'.Has x ↔
      (L.Has x ∧ cmd ≠ .drop x) ∨ (L.length ≤ x ∧ x < L'.length) := by
  have snoc : ∀ (l : List α) (cmd : Spec.Cmd α), (∀ x, cmd ≠ .drop x) →
      L.length ≤ (L ++ [some l]).length ∧ ∀ x, Spec.Lists.Has (L ++ [some l]) x ↔
        (L.Has x ∧ cmd ≠ .drop x) ∨ (L.length ≤ x ∧ x < (L ++ [some l]).length) := by
    intro l cmd hc
    refine ⟨by simp, fun x => ?_⟩
    rw [has_snoc]
    have := hc x
    simp only [List.length_append, List.length_singleton]
    constructor
    · rintro (h | rfl)
      · exact .inl ⟨h, this⟩
      · exact .inr ⟨Nat.le_refl _, by omega⟩
    · rintro (⟨h, _⟩ | ⟨h1, h2⟩)
      · exact .inl h
      · exact .inr (by omega)
  have same : ∀ (cmd : Spec.Cmd α), (∀ x, cmd ≠ .drop x) → L.length ≤ L.length ∧ ∀ x, L.Has x ↔
        (L.Has x ∧ cmd ≠ .drop x) ∨ (L.length ≤ x ∧ x < L.length) := by
    intro cmd hc
    refine ⟨Nat.le_refl _, fun x => ?_⟩
    have := hc x
    constructor
    · intro h; exact .inl ⟨h, this⟩
    · rintro (⟨h, _⟩ | ⟨h1, h2⟩)
      · exact h
      · omega
  cases h
  case on x o l l' hx he =>
    refine ⟨by simp, fun y => ?_⟩
    rw [has_set hx]
    simp only [List.length_set]
    constructor
    · intro h; exact .inl ⟨h, by simp⟩
    · rintro (⟨h, _⟩ | ⟨h1, h2⟩)
      · exact h
      · omega
  case append x y l l' hne hx hy =>
    refine ⟨by simp, fun z => ?_⟩
    rw [has_set (l := l') (by rw [List.getElem?_set_ne hne]; exact hy), has_set hx]
    simp only [List.length_set]
    constructor
    · intro h; exact .inl ⟨h, by simp⟩
    · rintro (⟨h, _⟩ | ⟨h1, h2⟩)
      · exact h
      · omega
  case drop x hx =>
    refine ⟨by simp, fun y => ?_⟩
    rw [has_unset]
    simp only [List.length_set, ne_eq, Spec.Cmd.drop.injEq]
    constructor
    · intro h; exact .inl h
    · rintro (h | ⟨h1, h2⟩)
      · exact h
      · omega
  all_goals first
    | exact snoc _ _ (by simp)
    | exact same _ (by simp)

theorem Spec.Edit.plain {cl : Spec.CloneRel α} {o : Spec.Op α} {ev : Spec.Event α}
    {l l' made dropped : List α} (h : Spec.Edit cl o ev l l' made dropped) (hp : o.Plain) :
    made = [] := by
  cases h <;> first | rfl | exact hp.elim

theorem Spec.Step.plain {cl : Spec.CloneRel α} {cmd : Spec.Cmd α} {ev : Spec.Event α}
    {L L' : Spec.Lists α} {made dropped : List α} (h : Spec.Step cl cmd ev L L' made dropped)
    (hp : cmd.Plain) : made = [] := by
  cases h
  case on he => exact he.plain hp
  all_goals first | rfl | exact hp.elim

/-- What a call that happened did, in terms of lists. -/
theorem Happens.ok {P P' : Pool α} {L : Spec.Lists α} {cmd : Spec.Cmd α} {ev : Spec.Event α}
    (hs : c.size ≠ 0) (hd : ∀ a, c.dropPanics a = false) (h : PInv c P L) (hl : cmd.Legal c P)
    (he : Happens c P cmd ev P') :
    ∃ L' made dropped, Spec.Step c.cloneRel cmd ev L L' made dropped ∧ PInv c P' L' ∧
      P'.w.log.drops = P.w.log.drops ++ dropped := by
  have key := runCmd_spec hs hd h cmd hl
  cases he with
  | ret hr => rw [hr] at key; exact key
  | panic hr => rw [hr] at key; exact key

/-- A permitted call happens. -/
theorem happens {P : Pool α} {L : Spec.Lists α} (hs : c.size ≠ 0)
    (hd : ∀ a, c.dropPanics a = false) (h : PInv c P L) (cmd : Spec.Cmd α) (hl : cmd.Legal c P) :
    ∃ ev P', Happens c P cmd ev P' := by
  have key := runCmd_spec hs hd h cmd hl
  cases hr : runCmd c cmd P with
  | ok o P' => exact ⟨_, P', .ret hr⟩
  | panic P' => exact ⟨_, P', .panic hr⟩
  | abort =>
    rw [hr] at key
    obtain ⟨a, ha⟩ := key
    rw [hd a] at ha; cases ha
  | ub u => rw [hr] at key; exact key.elim

/-- Dropping inner vectors that exist, each once. -/
theorem dropEach_ok {P0 : Pool α} (hs : c.size ≠ 0) (hd : ∀ a, c.dropPanics a = false)
    (xs : List Nat) : ∀ {P : Pool α} {L : Spec.Lists α} {hist : Spec.History α}, PInv c P L →
      Reaches c P0 hist P → xs.Nodup → (∀ x ∈ xs, P.Alive x) →
      ∃ P' L', dropEach c xs P = .ok () P' ∧ PInv c P' L' ∧
        Reaches c P0 (hist ++ dropCalls xs) P' ∧ P'.vecs.length = P.vecs.length ∧
        ∀ y, P'.Alive y ↔ P.Alive y ∧ y ∉ xs := by
  induction xs with
  | nil =>
    intro P L hist h hr _ _
    exact ⟨P, L, rfl, h, by simpa [dropCalls] using hr, rfl, by simp⟩
  | cons x xs ih =>
    intro P L hist h hr hn ha
    have hx := ha x (by simp)
    have hl : (Spec.Cmd.drop x : Spec.Cmd α).Legal c P := hx
    obtain ⟨ev, P1, he⟩ := happens hs hd h (.drop x) hl
    obtain ⟨L1, made, dropped, h1, h2, h3⟩ := he.ok hs hd h hl
    obtain ⟨g1, g2⟩ := h1.has
    have hev : ev = .ret .unit := by cases h1; rfl
    have hlen : L1.length = L.length := by cases h1; simp
    have hrun : ∃ o, runCmd c (.drop x) P = .ok o P1 := by
      cases he with
      | ret hr => exact ⟨_, hr⟩
      | panic hr => simp at hev
    obtain ⟨o, hrun⟩ := hrun
    have al : ∀ y, P1.Alive y ↔ P.Alive y ∧ x ≠ y := by
      intro y
      rw [h2.alive_iff, h.alive_iff, g2 y, hlen]
      simp only [ne_eq, Spec.Cmd.drop.injEq]
      constructor
      · rintro (h | ⟨k1, k2⟩)
        · exact h
        · omega
      · exact .inl
    obtain ⟨hn1, hn2⟩ := List.nodup_cons.mp hn
    obtain ⟨P', L', k1, k2, k3, k4, k5⟩ := ih h2 (hr.step hl he) hn2 (fun y hy =>
      (al y).mpr ⟨ha y (by simp [hy]), fun e => hn1 (e ▸ hy)⟩)
    refine ⟨P', L', ?_, k2, ?_, ?_, ?_⟩
    · rw [dropEach, if_pos (Pool.alive_iff.mpr hx), hrun]; exact k1
    · subst hev
      simpa [dropCalls] using k3
    · rw [k4, h2.len, h.len, hlen]
    · intro y
      rw [k5, al]
      simp only [List.mem_cons, not_or]
      constructor
      · rintro ⟨⟨a, b⟩, d⟩; exact ⟨a, fun e => b e.symm, d⟩
      · rintro ⟨a, b, d⟩; exact ⟨⟨a, fun e => b e.symm⟩, d⟩

/-- The outer vectors hold `Lo`, the inner ones `Li`; every inner vector that exists is either held
by the client or stored in one place of one outer vector. -/
structure NestInv (c : Cfg α) (co : Cfg Nat) (N0 N : Nest α) (hi : Spec.History α)
    (ho : Spec.History Nat) (Li : Spec.Lists α) (Lo : Spec.Lists Nat) : Prop where
  ri : Reaches c N0.inner hi N.inner
  ro : Reaches co N0.outer ho N.outer
  pi : PInv c N.inner Li
  po : PInv co N.outer Lo
  runs : Spec.Runs co.cloneRel ho Lo [] N.outer.w.log.drops
  nodup : (N.held ++ Lo.contents).Nodup
  owned : ∀ x, x ∈ N.held ++ Lo.contents ↔ N.inner.Alive x

theorem PInv.has_lt {L : Spec.Lists α} {x : Nat} (h : L.Has x) : x < L.length := by
  obtain ⟨l, hl⟩ := h
  exact (List.getElem?_eq_some_iff.mp hl).1

/-- What is held after a call on the inner vectors. -/
theorem NestInv.inner {N0 N : Nest α} {hi : Spec.History α} {ho : Spec.History Nat}
    {Li : Spec.Lists α} {Lo : Spec.Lists Nat} {cmd : Spec.Cmd α} {ev : Spec.Event α} {I' : Pool α}
    (hs : c.size ≠ 0) (hd : ∀ a, c.dropPanics a = false) (h : NestInv c co N0 N hi ho Li Lo)
    (hl : cmd.Legal c N.inner) (hh : ∀ x, cmd = .drop x → x ∈ N.held)
    (he : Happens c N.inner cmd ev I') :
    ∃ Li', NestInv c co N0 ⟨I', N.outer, heldAfter cmd N.inner I' N.held⟩ (hi ++ [(cmd, ev)]) ho
      Li' Lo := by
  obtain ⟨L1, made, dropped, h1, h2, h3⟩ := he.ok hs hd h.pi hl
  obtain ⟨g1, g2⟩ := h1.has
  have hn := h.nodup
  obtain ⟨n1, n2, n3⟩ := List.nodup_append.mp hn
  -- what is kept of the client's vectors
  have kept : ∀ x, x ∈ (match cmd with | .drop x => N.held.erase x | _ => N.held) ↔
      x ∈ N.held ∧ cmd ≠ .drop x := by
    intro x
    cases cmd <;> simp [List.Nodup.mem_erase_iff n1, and_comm]
    intro _; exact ⟨fun h e => h e.symm, fun h e => h e.symm⟩
  have keptN : (match cmd with | .drop x => N.held.erase x | _ => N.held).Nodup := by
    cases cmd <;> first | exact n1 | exact n1.erase _
  have fresh : ∀ x, x ∈ List.range' N.inner.vecs.length (I'.vecs.length - N.inner.vecs.length) ↔
      Li.length ≤ x ∧ x < L1.length := by
    intro x
    rw [List.mem_range'_1, h.pi.len, h2.len]
    omega
  have old : ∀ x, x ∈ N.held ++ Lo.contents → x < Li.length := fun x hx =>
    PInv.has_lt ((h.pi.alive_iff x).mp ((h.owned x).mp hx))
  refine ⟨L1, h.ri.step hl he, h.ro, h2, h.po, h.runs, ?_, ?_⟩
  · simp only [heldAfter]
    rw [List.append_assoc, List.nodup_append]
    refine ⟨keptN, ?_, ?_⟩
    · rw [List.nodup_append]
      refine ⟨List.nodup_range', n2, ?_⟩
      intro a ha b hb e
      subst e
      have := (fresh a).mp ha
      have := old a (by simp [hb])
      omega
    · intro a ha b hb e
      subst e
      obtain ⟨ha, _⟩ := (kept a).mp ha
      rcases List.mem_append.mp hb with hb | hb
      · have := (fresh a).mp hb
        have := old a (by simp [ha])
        omega
      · exact n3 a ha a hb rfl
  · intro x
    show x ∈ heldAfter cmd N.inner I' N.held ++ Lo.contents ↔ I'.Alive x
    rw [h2.alive_iff, g2 x]
    simp only [heldAfter, List.mem_append, fresh, ← h.pi.alive_iff, ← h.owned]
    constructor
    · rintro ((a | a) | a)
      · obtain ⟨a, b⟩ := (kept x).mp a
        exact .inl ⟨.inl a, b⟩
      · exact .inr a
      · refine .inl ⟨.inr a, ?_⟩
        intro e
        exact n3 x (hh x e) x a rfl
    · rintro (⟨a | a, b⟩ | a)
      · exact .inl (.inl ((kept x).mpr ⟨a, b⟩))
      · exact .inr a
      · exact .inl (.inr a)

/-- What an outer call drops is a part of what existed, each once. -/
theorem NestInv.outer {N0 N : Nest α} {hi : Spec.History α} {ho : Spec.History Nat}
    {Li : Spec.Lists α} {Lo : Spec.Lists Nat} {cmd : Spec.Cmd Nat} {ev : Spec.Event Nat}
    {O' : Pool Nat} {rest : List Nat}
    (hs : c.size ≠ 0) (hd : ∀ a, c.dropPanics a = false)
    (hso : co.size ≠ 0) (hdo : ∀ a, co.dropPanics a = false) (h : NestInv c co N0 N hi ho Li Lo)
    (hl : cmd.Legal co N.outer) (hp : cmd.Plain) (hh : N.held.Perm (cmd.given ++ rest))
    (he : Happens co N.outer cmd ev O') :
    ∃ I' Li' Lo', dropEach c (droppedBy N.outer O') N.inner = .ok () I' ∧
      NestInv c co N0 ⟨I', O', rest ++ Spec.taken cmd ev⟩
        (hi ++ dropCalls (droppedBy N.outer O')) (ho ++ [(cmd, ev)]) Li' Lo' := by
  obtain ⟨L1, made, dropped, h1, h2, h3⟩ := he.ok hso hdo h.po hl
  have hm := h1.plain hp
  subst hm
  have hdr : droppedBy N.outer O' = dropped := by simp [droppedBy, h3]
  have cons := h1.conserve
  simp only [List.append_nil] at cons
  -- everything the client and the outer vectors have, before and after
  have all : (N.held ++ Lo.contents).Perm (dropped ++ ((rest ++ Spec.taken cmd ev) ++ L1.contents)) := by
    refine List.perm_iff_count.mpr fun a => ?_
    have e1 := List.perm_iff_count.mp hh a
    have e2 := List.perm_iff_count.mp cons a
    simp only [List.count_append] at e1 e2 ⊢
    omega
  have hn := all.nodup_iff.mp h.nodup
  obtain ⟨n1, n2, n3⟩ := List.nodup_append.mp hn
  obtain ⟨I', Li', k1, k2, k3, k4, k5⟩ := dropEach_ok hs hd dropped h.pi h.ri n1 (fun x hx =>
    (h.owned x).mp (all.mem_iff.mpr (by simp [hx])))
  rw [hdr]
  refine ⟨I', Li', L1, k1, k3, h.ro.step hl he, k2, h2, ?_, n2, ?_⟩
  · have := h.runs.step h1
    rw [List.append_nil] at this
    rw [h3]; exact this
  · intro x
    show x ∈ (rest ++ Spec.taken cmd ev) ++ L1.contents ↔ I'.Alive x
    rw [k5, ← h.owned, all.mem_iff]
    constructor
    · intro hx
      exact ⟨List.mem_append.mpr (.inr hx), fun hy => n3 x hy x hx rfl⟩
    · rintro ⟨hx, hy⟩
      rcases List.mem_append.mp hx with hx | hx
      · exact (hy hx).elim
      · exact hx

theorem NReaches.inv {N0 N : Nest α} {hi : Spec.History α} {ho : Spec.History Nat}
    (hs : c.size ≠ 0) (hd : ∀ a, c.dropPanics a = false)
    (hso : co.size ≠ 0) (hdo : ∀ a, co.dropPanics a = false) (h0 : N0.Initial)
    (h : NReaches c co N0 hi ho N) : ∃ Li Lo, NestInv c co N0 N hi ho Li Lo := by
  induction h with
  | start =>
    refine ⟨[], [], .start, .start, .initial h0.1, .initial h0.2.1, ?_, ?_, ?_⟩
    · rw [h0.2.1.2.2]; exact .start
    · rw [h0.2.2]; simp [Spec.Lists.contents]
    · intro x
      rw [h0.2.2]
      simp [Spec.Lists.contents, Pool.Alive, h0.1.1]
  | inner _ hl hh he ih =>
    obtain ⟨Li, Lo, ih⟩ := ih
    obtain ⟨Li', h'⟩ := ih.inner hs hd hl hh he
    exact ⟨Li', Lo, h'⟩
  | outer _ hl hp hh he hk ih =>
    obtain ⟨Li, Lo, ih⟩ := ih
    obtain ⟨I', Li', Lo', k1, k2⟩ := ih.outer hs hd hso hdo hl hp hh he
    rw [hk] at k1
    cases k1
    exact ⟨Li', Lo', k2⟩

/-- Which vectors a history dropped. -/
theorem Spec.Runs.dropsOf {cl : Spec.CloneRel α} {h : Spec.History α} {L : Spec.Lists α}
    {made dropped : List α} (hr : Spec.Runs cl h L made dropped) :
    (Lokky.dropsOf h).Nodup ∧
      ∀ x : Nat, (x ∈ Lokky.dropsOf h ↔ x < L.length ∧ ¬ L.Has x) := by
  induction hr with
  | start => simp [Lokky.dropsOf]
  | @step h L made dropped cmd ev L' made' dropped' _ hs ih =>
    obtain ⟨i1, i2⟩ := ih
    obtain ⟨g1, g2⟩ := hs.has
    have lt : ∀ x, L.Has x → x < L.length := fun x hx => PInv.has_lt hx
    have split : (∃ x, cmd = .drop x ∧ L.Has x ∧ L'.length = L.length) ∨ ∀ x, cmd ≠ .drop x := by
      cases hs <;> simp
      rename_i hx
      exact ⟨_, hx⟩
    rcases split with ⟨x, rfl, hx, hlen⟩ | hn
    · have e : Lokky.dropsOf (h ++ [(.drop x, ev)]) = Lokky.dropsOf h ++ [x] := by
        simp [Lokky.dropsOf]
      have ne : x ∉ Lokky.dropsOf h := fun m => ((i2 x).mp m).2 hx
      rw [e]
      refine ⟨?_, fun y => ?_⟩
      · rw [List.nodup_append]
        refine ⟨i1, by simp, ?_⟩
        intro a ha b hb k
        simp only [List.mem_singleton] at hb
        rw [k, hb] at ha
        exact ne ha
      · rw [List.mem_append, i2 y, g2 y, hlen]
        simp only [List.mem_singleton, ne_eq, Spec.Cmd.drop.injEq]
        constructor
        · rintro (⟨a, b⟩ | rfl)
          · refine ⟨a, ?_⟩
            rintro (⟨d, _⟩ | ⟨d, d'⟩)
            · exact b d
            · omega
          · refine ⟨lt _ hx, ?_⟩
            rintro (⟨_, d⟩ | ⟨d, d'⟩)
            · exact d rfl
            · omega
        · rintro ⟨a, b⟩
          by_cases e : x = y
          · exact .inr e.symm
          · exact .inl ⟨a, fun d => b (.inl ⟨d, e⟩)⟩
    · have e : Lokky.dropsOf (h ++ [(cmd, ev)]) = Lokky.dropsOf h := by
        cases cmd <;> simp [Lokky.dropsOf]
        exact hn _ rfl
      rw [e]
      refine ⟨i1, fun y => ?_⟩
      rw [i2 y, g2 y]
      have := hn y
      constructor
      · rintro ⟨a, b⟩
        refine ⟨by omega, ?_⟩
        rintro (⟨d, _⟩ | ⟨d, d'⟩)
        · exact b d
        · omega
      · rintro ⟨a, b⟩
        refine ⟨?_, fun d => b (.inl ⟨d, this⟩)⟩
        by_cases hy : y < L.length
        · exact hy
        · exact (b (.inr ⟨by omega, a⟩)).elim

theorem nestAll_reaches {N0 : Nest α} (cmds : List (NCmd α)) {N N' : Nest α}
    {hi : Spec.History α} {ho : Spec.History Nat} (hr : NReaches c co N0 hi ho N)
    (he : nestAll c co cmds N = some N') : ∃ hi' ho', NReaches c co N0 hi' ho' N' := by
  have pl : ∀ cmd : Spec.Cmd Nat, cmd.plain = true → cmd.Plain := by
    intro cmd
    cases cmd with
    | on x o => cases o <;> simp [Spec.Cmd.plain, Spec.Cmd.Plain, Spec.Op.Plain]
    | _ => simp [Spec.Cmd.plain, Spec.Cmd.Plain]
  have dh : ∀ (held : List Nat) (cmd : Spec.Cmd α), dropsHeld held cmd = true →
      ∀ x, cmd = .drop x → x ∈ held := by
    intro held cmd h x e
    subst e
    simpa [dropsHeld] using h
  induction cmds generalizing N hi ho with
  | nil => simp only [nestAll, Option.some.injEq] at he; subst he; exact ⟨hi, ho, hr⟩
  | cons cmd cmds ih =>
    cases cmd with
    | inner cmd =>
      unfold nestAll at he
      split at he
      · rename_i hl
        simp only [Bool.and_eq_true] at hl
        split at he
        · rename_i h1
          exact ih (.inner hr (Spec.Cmd.legal_iff hl.1) (dh _ _ hl.2) (.ret h1)) he
        · rename_i h1
          exact ih (.inner hr (Spec.Cmd.legal_iff hl.1) (dh _ _ hl.2) (.panic h1)) he
        · cases he
      · cases he
    | outer cmd =>
      unfold nestAll at he
      split at he
      · rename_i hl
        simp only [Bool.and_eq_true, decide_eq_true_eq] at hl
        split at he
        · rename_i h1
          split at he
          · rename_i h2
            exact ih (.outer hr (Spec.Cmd.legal_iff hl.1.1) (pl _ hl.1.2) hl.2 (.ret h1) h2) he
          · cases he
        · rename_i h1
          split at he
          · rename_i h2
            exact ih (.outer hr (Spec.Cmd.legal_iff hl.1.1) (pl _ hl.1.2) hl.2 (.panic h1) h2) he
          · cases he
        · cases he
      · cases he

end Lokky
