import Verif.Spec.Small
import Verif.Proofs.Conserve

/-!
# On lists, every element of a `SmallVec` program is in exactly one place

Facts about the specification alone.
-/

namespace Lokky.Spec
variable {α : Type} {cl : CloneRel α}

theorem Late.conserve {o : Op α} {l l' made dropped : List α} {x : Nat}
    (h : Late cl o l l' made dropped) :
    (o.given ++ made ++ l).Perm (dropped ++ taken (.on x o) .refuse ++ l') := by
  classical
  cases h
  all_goals
    refine perm_of_count fun a => ?_
    simp only [Op.given, taken, List.count_append, List.append_nil, List.nil_append,
      List.count_cons, List.count_nil]
  all_goals try omega

theorem SStep.conserve {cmd : SCmd α} {ev : Event α} {L L' : Lists α} {made dropped : List α}
    (h : SStep cl cmd ev L L' made dropped) :
    (cmd.given ++ made ++ Lists.contents L).Perm
      (dropped ++ cmd.taken ev ++ Lists.contents L') := by
  classical
  cases h
  case on x o l l' hx he =>
    have h1 := he.conserve (x := x)
    refine perm_of_count fun a => ?_
    have h2 := List.perm_iff_count.mp h1 a
    have h3 := contents_set hx (some l') a
    simp only [SCmd.given, SCmd.taken, List.count_append, Option.getD_some] at h2 h3 ⊢
    omega
  case onLate x o l l' hx he =>
    have h1 := he.conserve (x := x)
    refine perm_of_count fun a => ?_
    have h2 := List.perm_iff_count.mp h1 a
    have h3 := contents_set hx (some l') a
    simp only [SCmd.given, SCmd.taken, List.count_append, Option.getD_some] at h2 h3 ⊢
    omega
  case append x y l l' hne hx hy =>
    refine perm_of_count fun a => ?_
    have h3 := contents_set hx (some (l ++ l')) a
    have h4 := contents_set (L := L.set x (some (l ++ l'))) (x := y) (l := l')
      (by rw [List.getElem?_set_ne hne]; exact hy) (some []) a
    simp only [SCmd.given, SCmd.taken, List.count_append, Option.getD_some, List.nil_append,
      List.count_nil] at h3 h4 ⊢
    omega
  case drop x hx =>
    refine perm_of_count fun a => ?_
    have h3 := contents_set hx none a
    simp only [SCmd.given, SCmd.taken, List.count_append, Option.getD_none, List.nil_append,
      List.count_nil] at h3 ⊢
    omega
  case splitOff x n k l hk hx =>
    refine perm_of_count fun a => ?_
    have h3 := contents_set hx (some (l.take k)) a
    have h4 : (l.take k ++ l.drop k).count a = l.count a := by rw [List.take_append_drop]
    simp only [SCmd.given, SCmd.taken, contents_snoc, List.count_append, Option.getD_some,
      List.nil_append] at h3 h4 ⊢
    omega
  case viaVec x n l hx =>
    refine perm_of_count fun a => ?_
    have h3 := contents_set hx none a
    simp only [SCmd.given, SCmd.taken, contents_snoc, List.count_append, Option.getD_none,
      List.nil_append, List.count_nil] at h3 ⊢
    omega
  case viaVecRefused x n hx =>
    refine perm_of_count fun a => ?_
    have h3 := contents_set hx none a
    simp only [SCmd.given, SCmd.taken, List.count_append, Option.getD_none,
      List.nil_append, List.count_nil] at h3 ⊢
    omega
  case fromIterPanic =>
    rename_i hp
    refine perm_of_count fun a => ?_
    have h2 := List.perm_iff_count.mp hp a
    simp only [SCmd.given, SCmd.taken, List.count_append, List.count_nil]
    omega
  case fromIterRefused =>
    rename_i hp
    refine perm_of_count fun a => ?_
    have h2 := List.perm_iff_count.mp hp a
    simp only [SCmd.given, SCmd.taken, List.count_append, List.count_nil]
    omega
  all_goals
    refine perm_of_count fun a => ?_
    simp only [SCmd.given, SCmd.taken, contents_snoc, List.count_append, List.append_nil,
      List.nil_append, List.count_cons, List.count_nil]
  all_goals try omega

theorem SRuns.conserve {h : SHistory α} {L : Lists α} {made dropped : List α}
    (hr : SRuns cl h L made dropped) :
    (h.given ++ made).Perm (dropped ++ h.taken ++ Lists.contents L) := by
  classical
  induction hr with
  | start => simp [SHistory.given, SHistory.taken, Lists.contents]
  | step _ hs ih =>
    refine perm_of_count fun a => ?_
    have h1 := List.perm_iff_count.mp ih a
    have h2 := List.perm_iff_count.mp hs.conserve a
    simp only [SHistory.given, SHistory.taken, List.flatMap_append, List.flatMap_cons,
      List.flatMap_nil, List.count_append, List.append_nil] at h1 h2 ⊢
    omega

/-! ## The specification is deterministic when memory is not refused -/

/-- Cloning an element always has the same result. -/
def CloneRel.Det (cl : CloneRel α) : Prop := ∀ a r r', cl a r → cl a r' → r = r'

theorem Clones.det (hc : cl.Det) {xs ys zs : List α} (h : Clones cl xs ys) (h' : Clones cl xs zs) :
    ys = zs := by
  induction h generalizing zs with
  | nil => cases h'; rfl
  | cons h1 _ ih =>
    cases h' with
    | cons h2 h3 => rw [ih h3, Option.some.inj (hc _ _ _ h1 h2)]

theorem Clones.no_panic (hc : cl.Det) {pre post ys zs : List α} {a : α}
    (h : Clones cl (pre ++ a :: post) zs) (_h' : Clones cl pre ys) (ha : cl a none) : False := by
  induction pre generalizing ys zs with
  | nil =>
    cases h with
    | cons h1 _ => cases hc _ _ _ h1 ha
  | cons b pre ih =>
    cases h with
    | cons _ h2 =>
      cases _h' with
      | cons _ h3 => exact ih h2 h3

theorem Clones.panic_det (hc : cl.Det) {pre post pre' post' ys zs : List α} {a a' : α}
    (e : pre ++ a :: post = pre' ++ a' :: post') (h : Clones cl pre ys) (ha : cl a none)
    (h' : Clones cl pre' zs) (ha' : cl a' none) : ys = zs := by
  induction pre generalizing pre' ys zs with
  | nil =>
    cases pre' with
    | nil => cases h; cases h'; rfl
    | cons b pre' =>
      cases h' with
      | cons h1 _ =>
        simp only [List.nil_append, List.cons_append, List.cons.injEq] at e
        obtain ⟨rfl, _⟩ := e
        cases hc _ _ _ h1 ha
  | cons b pre ih =>
    cases h with
    | cons h1 h2 =>
      cases pre' with
      | nil =>
        simp only [List.nil_append, List.cons_append, List.cons.injEq] at e
        obtain ⟨rfl, _⟩ := e
        cases hc _ _ _ h1 ha'
      | cons b' pre' =>
        simp only [List.cons_append, List.cons.injEq] at e
        obtain ⟨rfl, e⟩ := e
        cases h' with
        | cons h3 h4 => rw [ih e h2 h4, Option.some.inj (hc _ _ _ h1 h3)]

theorem Clones.replicate_none (hc : cl.Det) {n : Nat} {a : α} {ys : List α}
    (h : Clones cl (List.replicate n a) ys) (ha : cl a none) : n = 0 := by
  cases n with
  | zero => rfl
  | succ n =>
    rw [List.replicate_succ] at h
    cases h with
    | cons h1 _ => cases hc _ _ _ h1 ha

theorem map_some_inj {ys zs : List α} (h : ys.map some = zs.map some) : ys = zs := by
  induction ys generalizing zs with
  | nil => cases zs <;> simp_all
  | cons a ys ih =>
    cases zs with
    | nil => simp at h
    | cons b zs =>
      simp only [List.map_cons, List.cons.injEq, Option.some.injEq] at h
      rw [h.1, ih h.2]

theorem range_none {f : Nat → Option α} {m n : Nat} {ys : List α} (hm : m < n) (hf : f m = none)
    (h : (List.range n).map f = ys.map some) : False := by
  have h1 := congrArg (·[m]?) h
  simp only [List.getElem?_map, List.getElem?_range hm, Option.map_some, hf] at h1
  cases h2 : ys[m]? <;> simp [h2] at h1

theorem Edit.det (hc : cl.Det) {o : Op α} {ev ev' : Event α} {l l1 l2 m1 m2 d1 d2 : List α}
    (h : Edit cl o ev l l1 m1 d1) (h' : Edit cl o ev' l l2 m2 d2)
    (hr : ev.refused = false) (hr' : ev'.refused = false) :
    ev = ev' ∧ l1 = l2 ∧ m1 = m2 ∧ d1 = d2 := by
  cases o
  case extendFromSlice xs =>
    generalize hxs : xs = xs' at h'
    cases h with
    | extendFromSlice _ ys _ h1 =>
      cases h' with
      | extendFromSlice _ zs _ h2 => subst hxs; cases h1.det hc h2; exact ⟨rfl, rfl, rfl, rfl⟩
      | extendFromSliceRefused => cases hr'
      | extendFromSlicePanic pre a post zs _ h2 h3 => subst hxs; exact (h1.no_panic hc h2 h3).elim
    | extendFromSliceRefused => cases hr
    | extendFromSlicePanic pre a post ys _ h1 h2 =>
      cases h' with
      | extendFromSlice _ zs _ h3 => subst hxs; exact (h3.no_panic hc h1 h2).elim
      | extendFromSliceRefused => cases hr'
      | extendFromSlicePanic pre' a' post' zs _ h3 h4 =>
        cases Clones.panic_det hc hxs h1 h2 h3 h4
        exact ⟨rfl, rfl, rfl, rfl⟩
  case resize k a =>
    cases h with
    | resizeRefused => cases hr
    | resizeDown _ _ _ h1 =>
      cases h' with
      | resizeRefused => cases hr'
      | resizeDown => exact ⟨rfl, rfl, rfl, rfl⟩
      | resizeUp => omega
      | resizePanic => omega
    | resizeUp _ _ ys _ h1 h2 =>
      cases h' with
      | resizeRefused => cases hr'
      | resizeDown => omega
      | resizeUp _ _ zs _ _ h3 => cases h2.det hc h3; exact ⟨rfl, rfl, rfl, rfl⟩
      | resizePanic _ _ m zs _ h3 h4 h5 => have := h2.replicate_none hc h5; omega
    | resizePanic _ _ m ys _ h1 h2 h3 =>
      cases h' with
      | resizeRefused => cases hr'
      | resizeDown => omega
      | resizeUp _ _ zs _ h4 h5 => have := h5.replicate_none hc h3; omega
      | resizePanic _ _ m' zs _ h4 h5 h6 =>
        cases h2.replicate_none hc h3
        cases h5.replicate_none hc h3
        cases h2.det hc h5
        exact ⟨rfl, rfl, rfl, rfl⟩
  case resizeWith k f =>
    cases h with
    | resizeWithRefused => cases hr
    | resizeWithDown _ _ _ h1 =>
      cases h' with
      | resizeWithRefused => cases hr'
      | resizeWithDown => exact ⟨rfl, rfl, rfl, rfl⟩
      | resizeWithUp => omega
      | resizeWithPanic => omega
    | resizeWithUp _ _ ys _ h1 h2 =>
      cases h' with
      | resizeWithRefused => cases hr'
      | resizeWithDown => omega
      | resizeWithUp _ _ zs _ _ h3 =>
        cases map_some_inj (h2.symm.trans h3)
        exact ⟨rfl, rfl, rfl, rfl⟩
      | resizeWithPanic _ _ m zs _ h3 h4 h5 => exact (range_none h3 h5 h2).elim
    | resizeWithPanic _ _ m ys _ h1 h2 h3 =>
      cases h' with
      | resizeWithRefused => cases hr'
      | resizeWithDown => omega
      | resizeWithUp _ _ zs _ h4 h5 => exact (range_none h1 h3 h5).elim
      | resizeWithPanic _ _ m' zs _ h4 h5 h6 =>
        rcases Nat.lt_trichotomy m m' with h7 | rfl | h7
        · exact (range_none h7 h3 h5).elim
        · cases map_some_inj (h2.symm.trans h5)
          exact ⟨rfl, rfl, rfl, rfl⟩
        · exact (range_none h7 h6 h2).elim
  all_goals cases h <;> cases h' <;>
    first
    | cases hr; done
    | cases hr'; done
    | exact ⟨rfl, rfl, rfl, rfl⟩
    | omega
    | simp_all

end Lokky.Spec
