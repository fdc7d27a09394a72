import Verif.Model.VecPrograms
import Verif.Proofs.VecPoolPanic
import Verif.Proofs.VecIter
import Verif.Proofs.VecMove
import Verif.Props.ScanPanic

/-!
# Programs with vectors, iterators and boxed slices keep their invariant
-/

namespace Lokky.Spec
variable {α : Type} {cl : CloneRel α} {dp : α → Prop}

theorem XStep.conserve {cmd : XCmd α} {ev : Event α} {S S' : Objs α} {made dropped leaked : List α}
    (h : XStep cl dp cmd ev S S' made dropped leaked) :
    (cmd.given ++ made ++ S.contents).Perm (dropped ++ xtaken cmd ev ++ S'.contents ++ leaked) := by
  classical
  have objs : ∀ {S : Objs α} {x : Nat} {o : Obj α} {O : List (Nat × Obj α)} (a : α),
      S.objs.Perm ((x, o) :: O) → (S.objs.flatMap fun o => o.2.elems).count a =
        o.elems.count a + (O.flatMap fun o => o.2.elems).count a := by
    intro S x o O a hp
    rw [List.perm_iff_count.mp (hp.flatMap_right fun o => o.2.elems) a]
    simp
  refine perm_of_count fun a => ?_
  cases h with
  | call h =>
    have := List.perm_iff_count.mp h.conserve a
    simp only [XCmd.given, xtaken, Objs.contents, List.count_append] at this ⊢
    omega
  | @scan _ _ _ _ _ _ l' _ _ h1 h2 h3 h4 h5 h6 =>
    have e1 := List.perm_iff_count.mp h5 a
    have e2 := contents_set h2 (some l') a
    cases cmd <;> simp only [XCmd.scans, reduceCtorEq] at h1
    all_goals
      simp only [XCmd.given, xtaken, Objs.contents, List.count_append, Option.getD_some,
        List.count_nil] at e1 e2 ⊢
      omega
  | intoIter h | intoBoxed h =>
    have e := contents_set h none a
    simp only [XCmd.given, xtaken, Objs.contents, List.count_append, List.flatMap_cons, Obj.elems,
      Option.getD_none, List.count_nil] at e ⊢
    omega
  | intoBoxedRefused h =>
    have e := contents_set h none a
    simp only [XCmd.given, xtaken, Objs.contents, List.count_append,
      Option.getD_none, List.count_nil] at e ⊢
    omega
  | @next x m _ _ h =>
    have e := objs a h
    cases m <;> simp [XCmd.given, xtaken, Objs.contents, Obj.elems, List.count_cons] at e ⊢ <;> omega
  | @nextBack x m _ _ h =>
    have e := objs a h
    rcases List.eq_nil_or_concat m with rfl | ⟨m, b, rfl⟩ <;>
      simp [XCmd.given, xtaken, Objs.contents, Obj.elems, List.count_cons] at e ⊢ <;> omega
  | rest h | readBox h => simp [XCmd.given, xtaken]
  | dropIter h | dropBox h =>
    have e := objs a h
    simp [XCmd.given, xtaken, Objs.contents, Obj.elems] at e ⊢
    omega
  | dropIterBoom h _ =>
    have e := objs a h
    simp [XCmd.given, xtaken, Objs.contents, Obj.elems, List.count_cons] at e ⊢
    omega
  | dropBoxBoom h _ =>
    have e := objs a h
    simp [XCmd.given, xtaken, Objs.contents, Obj.elems] at e ⊢
    omega
  | @fromBoxed _ m _ _ h0 h =>
    have hlt := (List.getElem?_eq_some_iff.mp h0).1
    have e := contents_set (List.getElem?_set_self (l := S.vecs) (a := some m) hlt) none a
    have e2 := objs a h
    rw [List.set_set, set_self h0] at e
    simp only [XCmd.given, xtaken, Objs.contents, List.count_append, Obj.elems,
      Option.getD_none, List.count_nil] at e e2 ⊢
    omega

theorem XRuns.conserve {h : XHistory α} {S : Objs α} {made dropped leaked : List α}
    (hr : XRuns cl dp h S made dropped leaked) :
    (h.given ++ made).Perm (dropped ++ h.taken ++ S.contents ++ leaked) := by
  classical
  induction hr with
  | start => simp [XHistory.given, XHistory.taken, Objs.contents, Lists.contents]
  | step _ hs ih =>
    refine perm_of_count fun a => ?_
    have h1 := List.perm_iff_count.mp ih a
    have h2 := List.perm_iff_count.mp hs.conserve a
    simp only [XHistory.given, XHistory.taken, List.flatMap_append, List.flatMap_cons,
      List.flatMap_nil, List.count_append, List.append_nil] at h1 h2 ⊢
    omega

end Lokky.Spec

namespace Lokky
open Spec (Event Cmd Out XCmd Obj Objs)
variable {α : Type} {c : Cfg α}

/-! ## Objects beside the pool -/

/-- The vector an object was made from. -/
def ObjH.vec : ObjH → VecH
  | .iter it => it.vec
  | .box b => Vec.ofBoxedSlice b

/-- What the object still holds when the memory of its vector shows `l`. -/
def ObjH.rest : ObjH → List α → Obj α
  | .iter it, l => .iter (l.drop it.index)
  | .box _, l => .box l

/-- The object can be used as it is. -/
def ObjH.Shows : ObjH → List α → Prop
  | .iter it, l => it.index ≤ l.length
  | .box _, l => l ≠ []

variable {P : Pool α} {L K : Spec.Lists α} {lost : List Nat} {G : List (Option VecH)}

theorem GInv.lost_of (h : GInv c P L lost G K) {x : Nat} {v : VecH} (hx : P.vecs[x]? = some none)
    (hg : G[x]? = some (some v)) : x ∈ lost :=
  (h.extra x v hg).resolve_left (by rw [hx]; simp)

/-- A vector turned into something else. -/
theorem GInv.turn (h : GInv c P L lost G K) {x : Nat} {v : VecH} (hx : P.vecs[x]? = some (some v)) :
    GInv c ⟨P.vecs.set x none, P.w⟩ (L.set x none) (lost ++ [x]) G K := by
  have := h.lose hx []
  simpa [World.addDrops, Log.addDrops] using this

/-- Releasing memory behind the pool. -/
theorem GInv.free (h : GInv c P L lost G K) {x : Nat} {v : VecH} (hx : P.vecs[x]? = some none)
    (hg : G[x]? = some (some v)) (d : List α) :
    GInv c ⟨P.vecs, (P.w.free v.ptr).addDrops d⟩ L lost (G.set x none) (K.set x none) := by
  refine ⟨h.inv.remove hg d, by simp [h.len], by simp [h.lenL], ?_, h.gone, ?_⟩
  · intro y u hy
    have hne : x ≠ y := by rintro rfl; rw [hx] at hy; cases hy
    simp only [List.getElem?_set_ne hne]
    exact h.sub y u hy
  · intro y u hy
    rcases set_get hy with ⟨rfl, e, _⟩ | ⟨hne, hy⟩
    · cases e
    · exact h.extra y u hy

/-- Changing memory behind the pool. -/
theorem GInv.behind (h : GInv c P L lost G K) {x : Nat} {v : VecH} (hx : P.vecs[x]? = some none)
    (hg : G[x]? = some (some v)) {l' d : List α} {s' : VSt α} (ht : Trans c l' d ⟨v, P.w⟩ s') :
    GInv c ⟨P.vecs, s'.w⟩ L lost (G.set x (some s'.self)) (K.set x (some l')) := by
  refine ⟨h.inv.update hg ht, by simp [h.len], by simp [h.lenL], ?_, h.gone, ?_⟩
  · intro y u hy
    have hne : x ≠ y := by rintro rfl; rw [hx] at hy; cases hy
    simp only [List.getElem?_set_ne hne]
    exact h.sub y u hy
  · intro y u hy
    rcases set_get hy with ⟨rfl, e, _⟩ | ⟨hne, hy⟩
    · exact Or.inr (h.lost_of hx hg)
    · exact h.extra y u hy

/-- Putting memory back into the pool. -/
theorem GInv.back (h : GInv c P L lost G K) {x : Nat} {v : VecH} {l : List α}
    (hx : P.vecs[x]? = some none) (hg : G[x]? = some (some v)) (hk : K[x]? = some (some l)) :
    GInv c ⟨P.vecs.set x (some v), P.w⟩ (L.set x (some l)) (lost.filter (· != x)) G K := by
  refine ⟨h.inv, by simp [h.len], by simp [h.lenL], ?_, ?_, ?_⟩
  · intro y u hy
    rcases set_get hy with ⟨rfl, e, _⟩ | ⟨hne, hy⟩
    · cases e
      refine ⟨hg, ?_⟩
      rw [List.getElem?_set_self (by rw [h.lenL]; exact get_lt hk), hk]
    · simp only [List.getElem?_set_ne hne]
      exact h.sub y u hy
  · intro y hy
    rcases set_get hy with ⟨rfl, e, _⟩ | ⟨hne, hy⟩
    · cases e
    · rw [List.getElem?_set_ne hne]; exact h.gone y hy
  · intro y u hy
    by_cases hne : x = y
    · subst hne
      rw [hg] at hy; cases hy
      exact Or.inl (by simp [get_lt hx])
    · simp only [List.getElem?_set_ne hne]
      exact (h.extra y u hy).imp_right fun h => by simp [h, Ne.symm hne]

/-! ## The invariant -/

/-- The program state `X` holds what `S` says. `lost` are the numbers of objects and of vectors and boxes whose
destruction was cut short, and those (`E`) under which others keep memory. -/
structure XInv (c : Cfg α) (E : Nat → Prop) (X : XPool α) (S : Objs α) (lost : List Nat)
    (G : List (Option VecH)) (K : Spec.Lists α) : Prop where
  inv : GInv c X.pool S.vecs lost G K
  obj : ∀ x o, X.objs x = some o → X.pool.vecs[x]? = some none ∧ G[x]? = some (some o.vec) ∧
    ∃ l, K[x]? = some (some l) ∧ o.Shows l ∧ (x, o.rest l) ∈ S.objs
  key : ∀ x r, (x, r) ∈ S.objs → ∃ o, X.objs x = some o
  nodup : (S.objs.map Prod.fst).Nodup
  tidy : (∀ a, c.dropPanics a = false) → ∀ x ∈ lost, X.pool.vecs[x]? = some none ∧
    ((∃ o, X.objs x = some o) ∨ G[x]? = some none ∨ E x)

variable {X : XPool α} {S : Objs α} {E : Nat → Prop}

/-- Nothing happens to the numbers under which the program has neither a vector nor an object. -/
def XKeeps (X X' : XPool α) (G G' : List (Option VecH)) (K K' : Spec.Lists α) : Prop :=
  ∀ x : Nat, X.pool.vecs[x]? = some none → X.objs x = none →
    X'.pool.vecs[x]? = some none ∧ X'.objs x = none ∧ G'[x]? = G[x]? ∧ K'[x]? = K[x]?

theorem XKeeps.refl (X : XPool α) (G : List (Option VecH)) (K : Spec.Lists α) : XKeeps X X G G K K :=
  fun _ h h' => ⟨h, h', rfl, rfl⟩

theorem XInv.pool (h : XInv c E X S lost G K) {P' : Pool α} {V' K' : Spec.Lists α} {lost' : List Nat}
    {G' : List (Option VecH)} (hi : GInv c P' V' lost' G' K') (hk : Keeps X.pool.vecs P'.vecs G G' K K')
    (hl : (∀ a, c.dropPanics a = false) → ∀ y ∈ lost', y ∈ lost) :
    XInv c E { X with pool := P' } ⟨V', S.objs⟩ lost' G' K' ∧
      XKeeps X { X with pool := P' } G G' K K' := by
  refine ⟨⟨hi, ?_, h.key, h.nodup, ?_⟩, fun x h1 h2 => ⟨(hk x h1).1, h2, (hk x h1).2⟩⟩
  · intro x o hx
    obtain ⟨h1, h2, l, h3, h4, h5⟩ := h.obj x o hx
    obtain ⟨k1, k2, k3⟩ := hk x h1
    exact ⟨k1, k2.trans h2, l, k3.trans h3, h4, h5⟩
  · intro hd x hx
    obtain ⟨h1, h2⟩ := h.tidy hd x (hl hd x hx)
    obtain ⟨k1, k2, k3⟩ := hk x h1
    exact ⟨k1, h2.imp_right (Or.imp_left k2.trans)⟩

theorem XInv.go (h : XInv c E X S lost G K) {x : Nat} {o' : Option ObjH} {r' : Obj α}
    {O : List (Nat × Obj α)} {P' : Pool α} {V' K' : Spec.Lists α} {lost' : List Nat}
    {G' : List (Option VecH)} (hO : ∀ y r, (y, r) ∈ O ↔ y ≠ x ∧ (y, r) ∈ S.objs)
    (hn : (O.map Prod.fst).Nodup) (hi : GInv c P' V' lost' G' K')
    (hk : ∀ y ≠ x, X.pool.vecs[y]? = some none →
      P'.vecs[y]? = some none ∧ G'[y]? = G[y]? ∧ K'[y]? = K[y]?)
    (hl : (∀ a, c.dropPanics a = false) → ∀ y ∈ lost', y ≠ x → y ∈ lost)
    (hx : ∀ o, o' = some o → P'.vecs[x]? = some none ∧ G'[x]? = some (some o.vec) ∧
      ∃ l, K'[x]? = some (some l) ∧ o.Shows l ∧ r' = o.rest l)
    (ht : o' = none → (∀ a, c.dropPanics a = false) → x ∈ lost' →
      P'.vecs[x]? = some none ∧ G'[x]? = some none) :
    XInv c E { (X.put x o') with pool := P' }
      ⟨V', (match o' with | some _ => [(x, r')] | none => []) ++ O⟩ lost' G' K' := by
  refine ⟨hi, ?_, ?_, ?_, ?_⟩
  · intro y o hy
    simp only [XPool.put] at hy
    by_cases hyx : y = x
    · subst hyx
      rw [if_pos rfl] at hy
      subst hy
      obtain ⟨h1, h2, l, h3, h4, rfl⟩ := hx o rfl
      exact ⟨h1, h2, l, h3, h4, by simp⟩
    · rw [if_neg hyx] at hy
      obtain ⟨h1, h2, l, h3, h4, h5⟩ := h.obj y o hy
      obtain ⟨k1, k2, k3⟩ := hk y hyx h1
      exact ⟨k1, k2.trans h2, l, k3.trans h3, h4, List.mem_append_right _ ((hO y _).mpr ⟨hyx, h5⟩)⟩
  · intro y r hy
    simp only [XPool.put]
    rcases List.mem_append.mp hy with hy | hy
    · cases o' with
      | none => cases hy
      | some o =>
        simp only [List.mem_singleton, Prod.mk.injEq] at hy
        exact ⟨o, by rw [if_pos hy.1]⟩
    · obtain ⟨h1, h2⟩ := (hO y r).mp hy
      rw [if_neg h1]
      exact h.key y r h2
  · cases o' with
    | none => simpa using hn
    | some o =>
      simp only [List.cons_append, List.nil_append, List.map_cons, List.nodup_cons, List.mem_map,
        not_exists, not_and]
      refine ⟨?_, hn⟩
      rintro ⟨y, r⟩ hy
      exact ((hO y r).mp hy).1
  · intro hd y hy
    simp only [XPool.put]
    by_cases hyx : y = x
    · subst hyx
      rw [if_pos rfl]
      cases o' with
      | none => obtain ⟨h1, h2⟩ := ht rfl hd hy; exact ⟨h1, Or.inr (Or.inl h2)⟩
      | some o => exact ⟨(hx o rfl).1, Or.inl ⟨o, rfl⟩⟩
    · rw [if_neg hyx]
      obtain ⟨h1, h2⟩ := h.tidy hd y (hl hd y hy hyx)
      obtain ⟨k1, k2, k3⟩ := hk y hyx h1
      exact ⟨k1, h2.imp_right (Or.imp_left k2.trans)⟩

theorem XInv.step (h : XInv c E X S lost G K) {x : Nat} {o' : Option ObjH} {r' : Obj α}
    {O : List (Nat × Obj α)} {P' : Pool α} {V' K' : Spec.Lists α} {lost' : List Nat}
    {G' : List (Option VecH)} (hb : X.pool.vecs[x]? = some none → X.objs x ≠ none) (hO : ∀ y r, (y, r) ∈ O ↔ y ≠ x ∧ (y, r) ∈ S.objs)
    (hn : (O.map Prod.fst).Nodup) (hi : GInv c P' V' lost' G' K')
    (hk : ∀ y ≠ x, X.pool.vecs[y]? = some none →
      P'.vecs[y]? = some none ∧ G'[y]? = G[y]? ∧ K'[y]? = K[y]?)
    (hl : (∀ a, c.dropPanics a = false) → ∀ y ∈ lost', y ≠ x → y ∈ lost)
    (hx : ∀ o, o' = some o → P'.vecs[x]? = some none ∧ G'[x]? = some (some o.vec) ∧
      ∃ l, K'[x]? = some (some l) ∧ o.Shows l ∧ r' = o.rest l)
    (ht : o' = none → (∀ a, c.dropPanics a = false) → x ∈ lost' →
      P'.vecs[x]? = some none ∧ G'[x]? = some none) :
    XInv c E { (X.put x o') with pool := P' }
      ⟨V', (match o' with | some _ => [(x, r')] | none => []) ++ O⟩ lost' G' K' ∧
      XKeeps X { (X.put x o') with pool := P' } G G' K K' := by
  refine ⟨h.go hO hn hi hk hl hx ht, ?_⟩
  intro y h1 h2
  have hyx : y ≠ x := by rintro rfl; exact hb h1 h2
  obtain ⟨k1, k2, k3⟩ := hk y hyx h1
  exact ⟨k1, by simp only [XPool.put]; rw [if_neg hyx]; exact h2, k2, k3⟩

theorem XInv.split (h : XInv c E X S lost G K) {x : Nat} {r : Obj α} (hx : (x, r) ∈ S.objs) :
    ∃ O, S.objs.Perm ((x, r) :: O) ∧ (∀ y q, (y, q) ∈ O ↔ y ≠ x ∧ (y, q) ∈ S.objs) ∧
      (O.map Prod.fst).Nodup := by
  obtain ⟨A, B, e⟩ := List.append_of_mem hx
  have hp : S.objs.Perm ((x, r) :: (A ++ B)) := by rw [e]; exact List.perm_middle
  have hn := ((hp.map Prod.fst).nodup_iff.mp h.nodup)
  rw [List.map_cons, List.nodup_cons] at hn
  refine ⟨A ++ B, hp, ?_, hn.2⟩
  intro y q
  rw [hp.mem_iff, List.mem_cons]
  constructor
  · intro hy
    refine ⟨?_, Or.inr hy⟩
    rintro rfl
    exact hn.1 (List.mem_map.mpr ⟨_, hy, rfl⟩)
  · rintro ⟨h1, h2 | h2⟩
    · cases h2; exact absurd rfl h1
    · exact h2

theorem XInv.fresh (h : XInv c E X S lost G K) {x : Nat} {v : VecH}
    (hx : X.pool.vecs[x]? = some (some v)) :
    ∀ y q, (y, q) ∈ S.objs ↔ y ≠ x ∧ (y, q) ∈ S.objs := by
  intro y q
  refine ⟨fun hy => ⟨?_, hy⟩, fun hy => hy.2⟩
  rintro rfl
  obtain ⟨o, ho⟩ := h.key y q hy
  have := (h.obj y o ho).1
  rw [hx] at this; cases this

/-! ## One call -/

/-- A call in a state that holds `S` is allowed by the specification, and the invariant holds again. -/
def XOk (c : Cfg α) (E : Nat → Prop) (cmd : XCmd α) (S : Objs α) (G : List (Option VecH)) (K : Spec.Lists α)
    (X : XPool α) (out : Option (Out α)) (X' : XPool α) : Prop :=
  ∃ S' made dropped leaked,
    Spec.XStep c.cloneRel c.dropRel cmd ⟨out, X'.pool.w.refusals != X.pool.w.refusals⟩ S S' made dropped leaked ∧
    (∃ lost G' K', XInv c E X' S' lost G' K' ∧ XKeeps X X' G G' K K') ∧ X'.pool.w.log.drops = X.pool.w.log.drops ++ dropped

theorem XOk.same {cmd : XCmd α} {out : Option (Out α)} {X' : XPool α} {S' : Objs α}
    {made dropped leaked : List α} (hr : X'.pool.w.refusals = X.pool.w.refusals)
    (he : Spec.XStep c.cloneRel c.dropRel cmd ⟨out, false⟩ S S' made dropped leaked)
    (hi : ∃ lost G' K', XInv c E X' S' lost G' K' ∧ XKeeps X X' G G' K K')
    (hd : X'.pool.w.log.drops = X.pool.w.log.drops ++ dropped) : XOk c E cmd S G K X out X' := by
  refine ⟨S', made, dropped, leaked, ?_, hi, hd⟩
  have : (X'.pool.w.refusals != X.pool.w.refusals) = false := by simp [hr]
  rw [this]; exact he

theorem XOk.refused {cmd : XCmd α} {out : Option (Out α)} {X' : XPool α} {S' : Objs α}
    {made dropped leaked : List α} (hr : X'.pool.w.refusals = X.pool.w.refusals + 1)
    (he : Spec.XStep c.cloneRel c.dropRel cmd ⟨out, true⟩ S S' made dropped leaked)
    (hi : ∃ lost G' K', XInv c E X' S' lost G' K' ∧ XKeeps X X' G G' K K')
    (hd : X'.pool.w.log.drops = X.pool.w.log.drops ++ dropped) : XOk c E cmd S G K X out X' := by
  refine ⟨S', made, dropped, leaked, ?_, hi, hd⟩
  have : (X'.pool.w.refusals != X.pool.w.refusals) = true := by simp [hr]
  rw [this]; exact he

theorem onPool_sat {β : Type} {m : M (Pool α) β} {Q : β → XPool α → Prop} {E : XPool α → Prop}
    (h : Sat c (m X.pool) (fun a P' => Q a { X with pool := P' }) (fun P' => E { X with pool := P' })) :
    Sat c (onPool m X) Q E := by
  unfold onPool
  cases hr : m X.pool <;> rw [hr] at h <;> exact h

theorem onIter_sat {x : Nat} {it : Vec.IntoIterH} {m : M (St Vec.IntoIterH α) (Out α)}
    {Q : Out α → XPool α → Prop} {E : XPool α → Prop} (hx : X.objs x = some (.iter it))
    (h : Sat c (m ⟨it, X.pool.w⟩) (fun a s => Q a ((X.put x (some (.iter s.self))).setW s.w))
      (fun s => E ((X.put x (some (.iter s.self))).setW s.w))) : Sat c (onIter x m X) Q E := by
  unfold onIter
  rw [hx]
  cases hr : m ⟨it, X.pool.w⟩ <;> rw [hr] at h <;> simp only [hr] <;> exact h

/-- `retain` and `dedup`, with the allocator's refusals. -/
theorem scan_ok {m : M (Buf α) Unit} {cmd : XCmd α} {x : Nat} {p : Prop} {v : VecH} (hs : c.size ≠ 0)
    (hc : cmd.scans = some (x, p)) (h : XInv c E X S lost G K) (hx : X.pool.vecs[x]? = some (some v))
    (hm : ∀ b l, BRep b l → Sat c (m b) (fun _ => EndsWell c l b) (EndsBoom c p l b)) :
    Sat c (onPool (onVecs x (quiet (Vec.onBuf c m)) .unit) X) (fun out => XOk c E cmd S G K X (some out))
      (XOk c E cmd S G K X none) := by
  obtain ⟨l, hL, hK, hv⟩ := h.inv.rep hx
  have calm : ∀ {d : List α}, Calm c d → ∀ a ∈ d, ¬ c.dropRel a := by
    intro d hd a ha hp
    rw [Cfg.dropRel, hd a ha] at hp; cases hp
  have inv : ∀ {l' d : List α} {b : Buf α}, BTrans l' d (bufOf c ⟨v, X.pool.w⟩) b →
      ∃ lost G' K', XInv c E { X with pool := ⟨X.pool.vecs.set x (some (putBuf ⟨v, X.pool.w⟩ b).self),
        (putBuf ⟨v, X.pool.w⟩ b).w⟩ } ⟨S.vecs.set x (some l'), S.objs⟩ lost G' K' ∧
        XKeeps X { X with pool := ⟨X.pool.vecs.set x (some (putBuf ⟨v, X.pool.w⟩ b).self),
        (putBuf ⟨v, X.pool.w⟩ b).w⟩ } G G' K K' := by
    intro l' d b hb
    exact ⟨_, _, _, h.pool (h.inv.update hx (putBuf_trans (s := ⟨v, X.pool.w⟩) hs hv h.inv.inv.wf hb))
      (.set hx _ _ _ _ _) (fun _ _ h => h)⟩
  refine onPool_sat (onVecs_sat hx (quiet_sat (Q := fun o s' => XOk c E cmd S G K X o
    { X with pool := ⟨X.pool.vecs.set x (some s'.self), s'.w⟩ })
    (onBuf_sat0 (hm _ l (hv.brep (s := ⟨v, X.pool.w⟩) hs)) ?_ ?_)))
  · rintro _ b ⟨l', d, h1, ⟨h2, h3, lo, h4⟩, h5⟩
    exact .same (by simp) (.scan hc hL h2 h3 h4 (.ret (calm h5))) (inv h1)
      (putBuf_trans (s := ⟨v, X.pool.w⟩) hs hv h.inv.inv.wf h1).drops
  · rintro b ⟨l', d, h1, ⟨h2, h3, lo, h4⟩, h5⟩
    refine .same (by simp) (.scan hc hL h2 h3 h4 ?_) (inv h1)
      (putBuf_trans (s := ⟨v, X.pool.w⟩) hs hv h.inv.inv.wf h1).drops
    rcases h5 with ⟨d0, a, rfl, h6, h7⟩ | ⟨h6, h7⟩
    · exact .boom (calm h6) h7
    · exact .test (calm h6) h7

/-- `into_boxed_slice` whatever destructors do. -/
theorem intoBoxedSlice_any {v : VecH} {w : World α} {l : List α} (hs : c.size ≠ 0)
    (h : Rep c v w l) (hw : w.WF) (hl : l ≠ []) :
    Sat c (Vec.intoBoxedSlice c v w)
      (fun b w' => ∃ v', Reserved c l ⟨v, w⟩ ⟨v', w'⟩ ∧ Vec.ofBoxedSlice b = v')
      (fun w' => w' = (w.refuse.free v.ptr).addDrops l) := by
  unfold Vec.intoBoxedSlice
  have key := shrinkToFit_spec (s := ⟨v, w⟩) hs h hw (Or.inl hl)
  cases hr : Vec.shrinkToFit c ⟨v, w⟩ with
  | ok a s =>
    rw [hr] at key
    obtain ⟨h1, h2⟩ := key
    rw [M.bind_ok (withLocal_ok hr)]
    refine ⟨s.self, h1, ?_⟩
    have h3 := h1.trans.rep.len
    obtain ⟨⟨p, cp, al, mk, ln⟩, w'⟩ := s
    simp only at h2 h3
    simp [Vec.ofBoxedSlice, h2, h3]
  | panic s =>
    rw [hr] at key
    obtain ⟨rfl, _⟩ := key
    have hd := drop_spec (s := St.refuse ⟨v, w⟩) hs (Rep.refuse (s := ⟨v, w⟩) h)
    cases he : Vec.drop c (St.refuse ⟨v, w⟩) with
    | ok a s =>
      rw [he] at hd
      rw [M.bind_panic (withLocal_panic hr he)]
      exact hd.1
    | panic s =>
      rw [he] at hd
      obtain ⟨ys, a, zs, _, h1, _⟩ := hd
      have : (withLocal v (Vec.drop c) (Vec.shrinkToFit c) : M (World α) _) w = .abort := by
        simp only [withLocal, M.onUnwind, hr, he]
      simp only [M.bind_apply, this]
      exact ⟨a, h1⟩
    | abort =>
      rw [he] at hd
      have : (withLocal v (Vec.drop c) (Vec.shrinkToFit c) : M (World α) _) w = .abort := by
        simp only [withLocal, M.onUnwind, hr, he]
      simp only [M.bind_apply, this]
      exact hd
    | ub u => rw [he] at hd; exact hd.elim
  | abort =>
    rw [hr] at key
    have : (withLocal v (Vec.drop c) (Vec.shrinkToFit c) : M (World α) _) w = .abort := by
      simp only [withLocal, M.onUnwind, hr]
    simp only [M.bind_apply, this]
    exact key
  | ub u => rw [hr] at key; exact key.elim

theorem Rep.box {b : Vec.BoxSliceH} {w : World α} {l : List α} (h : Rep c (Vec.ofBoxedSlice b) w l)
    (hl : l ≠ []) : BoxRep c b w l := h.boxed hl h.len

theorem lostNow_calm {cl : Spec.CloneRel α} {dp : α → Prop} {cmd : Cmd α} {ev : Event α} {L' : Spec.Lists α}
    {made dropped leaked : List α} (h : Spec.StepP cl dp cmd ev L L' made dropped leaked)
    (hd : ∀ a, ¬ dp a) : lostNow cmd ev.out = [] := by
  cases h with
  | step h => cases h <;> simp [lostNow]
  | on => simp [lostNow]
  | drop y ys a zs _ _ hp _ => exact absurd hp (hd a)

theorem runX_spec (hs : c.size ≠ 0) (h : XInv c E X S lost G K) (cmd : XCmd α) (hl : cmd.Legal c X) :
    Sat c (runX c cmd X) (fun out => XOk c E cmd S G K X (some out)) (XOk c E cmd S G K X none) := by
  cases cmd with
  | call cmd =>
    obtain ⟨hl, hc⟩ := hl
    have mild : cmd.Mild c S.vecs := by
      rintro x rfl l hL
      obtain ⟨v, hx, _⟩ := hl
      obtain ⟨l', h1, _, h2⟩ := h.inv.rep hx
      rw [h1] at hL
      cases hL
      exact hc x rfl v hx _ _ (asSlice_spec (s := ⟨v, X.pool.w⟩) hs h2)
    have key : ∀ {o P'}, CmdOkP c cmd S.vecs lost G K X.pool o P' →
        XOk c E (.call cmd) S G K X o { X with pool := P' } := by
      rintro o P' ⟨V, made, dropped, leaked, h1, ⟨G', K', h2, h3⟩, h4⟩
      refine ⟨_, made, dropped, leaked, .call h1, ⟨_, _, _, h.pool h2 h3 ?_⟩, h4⟩
      intro hd y hy
      rcases List.mem_append.mp hy with hy | hy
      · exact hy
      · rw [show lostNow cmd o = [] from lostNow_calm h1 fun a hp => by
          rw [Cfg.dropRel, hd a] at hp; cases hp] at hy
        cases hy
    exact onPool_sat ((runCmd_panics hs h.inv cmd hl mild).mono (fun _ _ => key) (fun _ => key))
  | retain x f =>
    obtain ⟨v, hx⟩ := hl
    exact scan_ok hs rfl h hx fun b l hb => retainBuf_ends hs f hb
  | dedupBy x same =>
    obtain ⟨v, hx⟩ := hl
    exact scan_ok hs rfl h hx fun b l hb => dedupByBuf_ends hs same hb
  | dedupByKey x key =>
    obtain ⟨v, hx⟩ := hl
    exact scan_ok hs rfl h hx fun b l hb => dedupByKeyBuf_ends hs key hb
  | intoIter x =>
    obtain ⟨v, hx⟩ := hl
    obtain ⟨l, hL, hK, hv⟩ := h.inv.rep hx
    unfold runX
    simp only [hx]
    refine XOk.same (S' := ⟨S.vecs.set x none, (x, .iter l) :: S.objs⟩) rfl (.intoIter hL)
      ⟨_, _, _, h.step (o' := some (.iter (Vec.intoIter v))) (fun e => by rw [hx] at e; cases e) (h.fresh hx) h.nodup (h.inv.turn hx)
        ?_ ?_ ?_ ?_⟩ (by simp [XPool.put, XPool.setVec])
    · intro y hy h1
      exact ⟨by rw [List.getElem?_set_ne hy.symm]; exact h1, rfl, rfl⟩
    · intro _ y hy hne
      simpa [hne] using hy
    · rintro o ⟨⟩
      refine ⟨by simp [get_lt hx], (h.inv.sub x v hx).1, l, hK, ?_, ?_⟩
      · simp [ObjH.Shows, Vec.intoIter]
      · simp [ObjH.rest, Vec.intoIter]
    · rintro ⟨⟩
  | next x =>
    obtain ⟨it, hx⟩ := hl
    obtain ⟨h1, h2, l, h3, h4, h5⟩ := h.obj x _ hx
    obtain ⟨O, hp, hO, hn⟩ := h.split h5
    obtain ⟨l', e1, hr⟩ := h.inv.inv.rep x _ h2
    obtain rfl : l = l' := by rw [h3] at e1; simpa using e1
    refine onIter_sat hx ?_
    have e := iterNext_eq (s := ⟨it, X.pool.w⟩) hs hr
    rw [M.bind_ok e]
    simp only [ObjH.rest] at hp
    refine XOk.same (made := []) (leaked := [])
      (S' := ⟨S.vecs, (x, .iter (l.drop it.index).tail) :: O⟩) rfl ?_
      ⟨lost, G, K, h.step (x := x) (o' := some (.iter _)) (fun _ e => by rw [hx] at e; cases e) hO hn h.inv ?_ ?_ ?_ ?_⟩
      (List.append_nil _).symm
    · have := Spec.XStep.next (cl := c.cloneRel) (dp := c.dropRel) hp
      rwa [List.head?_drop] at this
    · exact fun y _ h => ⟨h, rfl, rfl⟩
    · exact fun _ y h _ => h
    · rintro o ⟨⟩
      refine ⟨h1, h2, l, h3, ?_, ?_⟩
      · simp only [ObjH.Shows] at h4 ⊢
        split <;> omega
      · simp only [ObjH.rest]
        split
        · rw [List.tail_drop]
        · rw [List.drop_eq_nil_of_le (by omega)]; rfl
    · rintro ⟨⟩
  | nextBack x =>
    obtain ⟨it, hx, hlt⟩ := hl
    obtain ⟨h1, h2, l, h3, h4, h5⟩ := h.obj x _ hx
    obtain ⟨O, hp, hO, hn⟩ := h.split h5
    obtain ⟨l', e1, hr⟩ := h.inv.inv.rep x _ h2
    obtain rfl : l = l' := by rw [h3] at e1; simpa using e1
    have hlt' : it.index < l.length := by rw [← hr.len]; exact hlt
    refine onIter_sat hx ?_
    obtain ⟨s', e, e2, _, _⟩ := pop_spec (s := ⟨it.vec, X.pool.w⟩) hs hr h.inv.inv.wf
    have e' : Vec.iterNextBack c ⟨it, X.pool.w⟩ = .ok l.getLast? ⟨⟨s'.self, it.index⟩, s'.w⟩ := by
      unfold Vec.iterNextBack Vec.onVec
      rw [onPart_ok e]
    rw [M.bind_ok e']
    simp only [ObjH.rest] at hp
    have gi := h.inv.behind h1 h2 e2.trans
    refine XOk.same (made := []) (leaked := [])
      (S' := ⟨S.vecs, (x, .iter (l.drop it.index).dropLast) :: O⟩) e2.refusals ?_
      ⟨lost, _, _, h.step (x := x) (o' := some (.iter ⟨s'.self, it.index⟩)) (fun _ e => by rw [hx] at e; cases e) hO hn gi ?_ ?_ ?_ ?_⟩
      (by rw [List.append_nil]; exact congrArg Log.drops e2.log)
    · have := Spec.XStep.nextBack (cl := c.cloneRel) (dp := c.dropRel) hp
      rwa [List.getLast?_drop, if_neg (by omega)] at this
    · intro y hy h
      simp only [List.getElem?_set_ne (Ne.symm hy)]
      exact ⟨h, trivial, trivial⟩
    · exact fun _ y h _ => h
    · rintro o ⟨⟩
      refine ⟨h1, ?_, l.dropLast, ?_, ?_, ?_⟩
      · rw [List.getElem?_set_self (get_lt h2)]; rfl
      · rw [List.getElem?_set_self (get_lt h3)]
      · simp only [ObjH.Shows, List.length_dropLast]; omega
      · simp only [ObjH.rest]
        rw [List.dropLast_eq_take, List.dropLast_eq_take, List.drop_take, List.length_drop]
        congr 2; omega
    · rintro ⟨⟩
  | rest x =>
    obtain ⟨it, hx⟩ := hl
    obtain ⟨h1, h2, l, h3, h4, h5⟩ := h.obj x _ hx
    obtain ⟨l', e1, hr⟩ := h.inv.inv.rep x _ h2
    obtain rfl : l = l' := by rw [h3] at e1; simpa using e1
    refine onIter_sat hx ?_
    have e := iterAsSlice_eq (s := ⟨it, X.pool.w⟩) hs ⟨⟨l, hr, h4, rfl⟩, h.inv.inv.wf⟩
    rw [M.bind_ok e]
    have eX : (X.put x (some (.iter it))).setW X.pool.w = X := by
      obtain ⟨P, ob⟩ := X
      simp only [XPool.put, XPool.setW, XPool.mk.injEq, true_and]
      funext y
      split
      · rename_i e; subst e; exact hx.symm
      · rfl
    simp only [M.pure_apply]
    show XOk c _ _ _ _ _ _ _ _
    rw [eX]
    exact XOk.same rfl (.rest h5) ⟨_, _, _, h, .refl _ _ _⟩ (by simp)
  | dropIter x =>
    obtain ⟨it, hx⟩ := hl
    obtain ⟨h1, h2, l, h3, h4, h5⟩ := h.obj x _ hx
    obtain ⟨O, hp, hO, hn⟩ := h.split h5
    obtain ⟨l', e1, hr⟩ := h.inv.inv.rep x _ h2
    obtain rfl : l = l' := by rw [h3] at e1; simpa using e1
    simp only [ObjH.rest] at hp
    have key := iterDrop_spec (s := ⟨it, X.pool.w⟩) hs ⟨⟨l, hr, h4, rfl⟩, h.inv.inv.wf⟩
    have inv : ∀ d, ∃ lost G' K', XInv c E ((X.put x none).setW ((X.pool.w.free it.vec.ptr).addDrops d))
        ⟨S.vecs, O⟩ lost G' K' ∧
        XKeeps X ((X.put x none).setW ((X.pool.w.free it.vec.ptr).addDrops d)) G G' K K' := by
      intro d
      refine ⟨lost, _, _, h.step (x := x) (o' := none) (r' := .box []) (fun _ e => by rw [hx] at e; cases e) hO hn (h.inv.free h1 h2 d) ?_ ?_ ?_ ?_⟩
      · intro y hy h
        simp only [List.getElem?_set_ne (Ne.symm hy)]
        exact ⟨h, trivial, trivial⟩
      · exact fun _ y h _ => h
      · rintro o ⟨⟩
      · intro _ _ _
        exact ⟨h1, by simp [get_lt h2]⟩
    unfold runX
    simp only [hx]
    cases hr' : Vec.iterDrop c ⟨it, X.pool.w⟩ with
    | ok u s =>
      rw [hr'] at key
      simp only
      show XOk c _ _ _ _ _ _ _ _
      rw [show s.w = _ from key]
      exact XOk.same rfl (.dropIter hp) (inv _) rfl
    | panic s =>
      rw [hr'] at key
      obtain ⟨ys, a, zs, k1, k2, k3⟩ := key
      simp only
      show XOk c _ _ _ _ _ _ _ _
      rw [k3]
      rw [k1] at hp
      exact XOk.same rfl (.dropIterBoom hp k2) (inv _) rfl
    | abort => rw [hr'] at key; exact key
    | ub u => rw [hr'] at key; exact key
  | intoBoxed x =>
    obtain ⟨v, hx, hlen⟩ := hl
    obtain ⟨l, hL, hK, hv⟩ := h.inv.rep hx
    have hne : l ≠ [] := by rintro rfl; exact hlen hv.len
    have key := intoBoxedSlice_any hs hv h.inv.inv.wf hne
    unfold runX
    simp only [hx]
    cases hr : Vec.intoBoxedSlice c v X.pool.w with
    | ok b w' =>
      rw [hr] at key
      obtain ⟨v', k1, k2⟩ := key
      have g1 := h.inv.update hx k1.trans
      have hx' : (X.pool.vecs.set x (some v'))[x]? = some (some v') := by simp [get_lt hx]
      have g2 := g1.turn hx'
      simp only [List.set_set] at g2
      refine XOk.same (S' := ⟨S.vecs.set x none, (x, .box l) :: S.objs⟩) k1.refusals (.intoBoxed hL)
        ⟨_, _, _, h.step (o' := some (.box b)) (fun e => by rw [hx] at e; cases e) (h.fresh hx) h.nodup g2 ?_ ?_ ?_ ?_⟩
        (by simpa [XPool.put, XPool.setW] using congrArg Log.drops k1.log)
      · intro y hy h1
        simp only [List.getElem?_set_ne hy.symm]
        exact ⟨h1, trivial, trivial⟩
      · intro _ y hy hne
        simpa [hne] using hy
      · rintro o ⟨⟩
        refine ⟨by simp [get_lt hx], ?_, l, ?_, hne, rfl⟩
        · have := get_lt (h.inv.sub x v hx).1
          simp [this, ObjH.vec, k2]
        · simp [get_lt hK]
      · rintro ⟨⟩
    | panic w' =>
      rw [hr] at key
      simp only
      show XOk c _ _ _ _ _ _ _ _
      rw [show w' = _ from key]
      have g1 := (h.inv.clean (.refuse h.inv.inv.wf)).remove hx l
      exact XOk.refused (S' := ⟨S.vecs.set x none, S.objs⟩) rfl (.intoBoxedRefused hL)
        ⟨_, _, _, h.pool g1 (.set hx _ _ _ _ _) (fun _ _ h => h)⟩ rfl
    | abort => rw [hr] at key; exact key
    | ub u => rw [hr] at key; exact key
  | readBox x =>
    obtain ⟨b, hx⟩ := hl
    obtain ⟨h1, h2, l, h3, h4, h5⟩ := h.obj x _ hx
    obtain ⟨l', e1, hr⟩ := h.inv.inv.rep x _ h2
    obtain rfl : l = l' := by rw [h3] at e1; simpa using e1
    unfold runX
    simp only [hx]
    rw [show Vec.asSlice c ⟨Vec.ofBoxedSlice b, X.pool.w⟩ = _ from
      asSlice_spec (s := ⟨Vec.ofBoxedSlice b, X.pool.w⟩) hs hr]
    exact XOk.same rfl (.readBox h5) ⟨_, _, _, h, .refl _ _ _⟩ (by simp [XPool.setW])
  | fromBoxed x =>
    obtain ⟨b, hx⟩ := hl
    obtain ⟨h1, h2, l, h3, h4, h5⟩ := h.obj x _ hx
    obtain ⟨O, hp, hO, hn⟩ := h.split h5
    unfold runX
    simp only [hx]
    refine XOk.same (S' := ⟨S.vecs.set x (some l), O⟩) rfl (.fromBoxed (h.inv.gone x h1) hp)
      ⟨_, G, K, h.step (x := x) (o' := none) (r' := .box []) (fun _ e => by rw [hx] at e; cases e) hO hn (h.inv.back h1 h2 h3) ?_ ?_ ?_ ?_⟩
      (by simp [XPool.put, XPool.setVec])
    · intro y hy h
      simp only [List.getElem?_set_ne (Ne.symm hy)]
      exact ⟨h, trivial, trivial⟩
    · intro _ y hy _
      exact (List.mem_filter.mp hy).1
    · rintro o ⟨⟩
    · intro _ _ hy
      simp at hy
  | dropBox x =>
    obtain ⟨b, hx⟩ := hl
    obtain ⟨h1, h2, l, h3, h4, h5⟩ := h.obj x _ hx
    obtain ⟨O, hp, hO, hn⟩ := h.split h5
    obtain ⟨l', e1, hr⟩ := h.inv.inv.rep x _ h2
    obtain rfl : l = l' := by rw [h3] at e1; simpa using e1
    simp only [ObjH.rest] at hp
    have key := boxSliceDrop_spec hs (hr.box h4) h4 (by
      have := hr.fits
      rwa [show (ObjH.box b).vec.cap = l.length from hr.len] at this)
    unfold runX
    simp only [hx]
    cases hr' : Vec.boxSliceDrop c b X.pool.w with
    | ok u w' =>
      rw [hr'] at key
      simp only
      show XOk c _ _ _ _ _ _ _ _
      rw [show w' = _ from key]
      refine XOk.same (S' := ⟨S.vecs, O⟩) rfl (.dropBox hp)
        ⟨lost, _, _, h.step (x := x) (o' := none) (r' := .box []) (fun _ e => by rw [hx] at e; cases e) hO hn (h.inv.free h1 h2 l) ?_ ?_ ?_ ?_⟩ rfl
      · intro y hy h
        simp only [List.getElem?_set_ne (Ne.symm hy)]
        exact ⟨h, trivial, trivial⟩
      · exact fun _ y h _ => h
      · rintro o ⟨⟩
      · intro _ _ _
        exact ⟨h1, by simp [get_lt h2]⟩
    | panic w' =>
      rw [hr'] at key
      obtain ⟨k1, a, k2, k3⟩ := key
      simp only
      show XOk c _ _ _ _ _ _ _ _
      rw [k1]
      refine XOk.same (S' := ⟨S.vecs, O⟩) rfl (.dropBoxBoom hp ⟨a, k2, k3⟩)
        ⟨lost, G, K, h.step (x := x) (o' := none) (r' := .box []) (fun _ e => by rw [hx] at e; cases e) hO hn (h.inv.clean (d := l)
          (w' := X.pool.w.addDrops l) ⟨fun _ => rfl, h.inv.inv.wf, Nat.le_refl _, rfl, rfl⟩) ?_ ?_ ?_ ?_⟩ rfl
      · exact fun y _ h => ⟨h, rfl, rfl⟩
      · exact fun _ y h _ => h
      · rintro o ⟨⟩
      · intro _ hd _
        rw [hd a] at k3; cases k3
    | abort => rw [hr'] at key; exact key
    | ub u => rw [hr'] at key; exact key

/-! ## Whole histories -/

theorem XReaches.inv {X0 : XPool α} {hist : Spec.XHistory α} (hs : c.size ≠ 0) (h0 : X0.Initial)
    (h : XReaches c X0 hist X) :
    ∃ S made leaked, Spec.XRuns c.cloneRel c.dropRel hist S made X.pool.w.log.drops leaked ∧
      ∃ lost G K, XInv c (fun _ => False) X S lost G K := by
  induction h with
  | start =>
    obtain ⟨⟨hv, hh, hd⟩, ho⟩ := h0
    refine ⟨⟨[], []⟩, [], [], by rw [hd]; exact .start, [], [], [], ?_⟩
    refine ⟨⟨?_, by simp [hv], rfl, ?_, ?_, ?_⟩, ?_, ?_, List.nodup_nil, ?_⟩
    · have := PInv.initial (c := c) (P := X0.pool) ⟨hv, hh, hd⟩
      have e : X0.pool = ⟨[], X0.pool.w⟩ := by rw [← hv]
      rwa [e] at this
    · intro x v hx; simp [hv] at hx
    · intro x hx; simp [hv] at hx
    · intro x v hx; simp at hx
    · intro x o hx; rw [ho] at hx; cases hx
    · intro x r hx; cases hx
    · intro _ x hx; cases hx
  | @step hist X cmd ev X' _ hl he ih =>
    obtain ⟨S, made, leaked, h1, lost, G, K, h2⟩ := ih
    have key := runX_spec hs h2 cmd hl
    cases he with
    | ret hr =>
      rw [hr] at key
      obtain ⟨S', made', dropped', leaked', h3, ⟨lost', G', K', h4, _⟩, h5⟩ := key
      exact ⟨S', made ++ made', leaked ++ leaked', by rw [h5]; exact .step h1 h3, lost', G', K', h4⟩
    | panic hr =>
      rw [hr] at key
      obtain ⟨S', made', dropped', leaked', h3, ⟨lost', G', K', h4, _⟩, h5⟩ := key
      exact ⟨S', made ++ made', leaked ++ leaked', by rw [h5]; exact .step h1 h3, lost', G', K', h4⟩

end Lokky
