import Verif.Spec.Lists
import Mathlib.Data.List.Perm.Basic

/-!
# On lists, every element is in exactly one place

Facts about the specification alone.
-/

namespace Lokky.Spec
variable {α : Type} {cl : CloneRel α}

theorem perm_of_count [DecidableEq α] {l l' : List α} (h : ∀ a, l.count a = l'.count a) :
    l.Perm l' := List.perm_iff_count.mpr h

theorem dropLast_perm (l : List α) : (l.getLast?.toList ++ l.dropLast).Perm l := by
  rcases List.eq_nil_or_concat l with rfl | ⟨l', a, rfl⟩
  · simp
  · simpa using (List.perm_append_comm (l₁ := [a]) (l₂ := l'))

theorem take_drop_perm (l : List α) (k : Nat) : (l.drop k ++ l.take k).Perm l := by
  have := (List.perm_append_comm (l₁ := l.drop k) (l₂ := l.take k))
  rwa [List.take_append_drop] at this

theorem insert_perm (l : List α) (i : Nat) (a : α) :
    (l.take i ++ a :: l.drop i).Perm (a :: l) := by
  have h : (l.take i ++ a :: l.drop i).Perm (a :: (l.take i ++ l.drop i)) := List.perm_middle
  rwa [List.take_append_drop] at h

theorem remove_perm (l : List α) (i : Nat) (h : i < l.length) :
    (l[i] :: (l.take i ++ l.drop (i + 1))).Perm l := by
  have h' : (l.take i ++ l[i] :: l.drop (i + 1)).Perm (l[i] :: (l.take i ++ l.drop (i + 1))) :=
    List.perm_middle
  rw [← List.drop_eq_getElem_cons h, List.take_append_drop] at h'
  exact h'.symm

theorem set_perm (l : List α) (i : Nat) (a : α) (h : i < l.length) :
    (l[i] :: l.set i a).Perm (a :: l) := by
  have e : l.set i a = l.take i ++ a :: l.drop (i + 1) := by
    rw [List.set_eq_take_append_cons_drop, if_pos h]
  rw [e]
  have h1 : (l.take i ++ a :: l.drop (i + 1)).Perm (a :: (l.take i ++ l.drop (i + 1))) :=
    List.perm_middle
  exact ((h1.cons _).trans (List.Perm.swap _ _ _)).trans ((remove_perm l i h).cons _)

theorem swap_perm (l : List α) (i : Nat) (h : i < l.length) :
    (l[i] :: (l.set i (l.getLast (List.ne_nil_of_length_pos
      (Nat.zero_lt_of_lt h)))).dropLast).Perm l := by
  have hne : l ≠ [] := List.ne_nil_of_length_pos (Nat.zero_lt_of_lt h)
  have h1 := set_perm l i (l.getLast hne) h
  have hne' : l.set i (l.getLast hne) ≠ [] := by
    intro e; have := congrArg List.length e; simp at this; exact hne this
  have hl : (l.set i (l.getLast hne)).getLast hne' = l.getLast hne := by
    rw [List.getLast_eq_getElem, List.getElem_set]
    split
    · rfl
    · simp [List.getLast_eq_getElem]
  have h2 := List.dropLast_append_getLast hne'
  rw [hl] at h2
  have h3 : (l[i] :: ((l.set i (l.getLast hne)).dropLast ++ [l.getLast hne])).Perm
      (l.getLast hne :: l) := by rw [h2]; exact h1
  have h4 : (l.getLast hne :: l[i] :: (l.set i (l.getLast hne)).dropLast).Perm
      (l.getLast hne :: l) := by
    refine List.Perm.trans ?_ h3
    refine (List.Perm.swap _ _ _).trans (List.Perm.cons _ ?_)
    exact (List.perm_append_comm (l₁ := [l.getLast hne]))
  exact h4.cons_inv

/-- Elements given by value in one call, returned by it. -/
theorem Edit.conserve {o : Op α} {ev : Event α} {l l' made dropped : List α} {x : Nat}
    (h : Edit cl o ev l l' made dropped) :
    (o.given ++ made ++ l).Perm (dropped ++ taken (.on x o) ev ++ l') := by
  classical
  cases h
  case pop =>
    have := dropLast_perm l
    cases hl : l.getLast? with
    | none => simp [Op.given, taken, hl] at this ⊢; exact this.symm
    | some a => simp [Op.given, taken, hl] at this ⊢; exact this.symm
  case remove i h => simpa [Op.given, taken] using (remove_perm l i h).symm
  case swapRemove i h => simpa [Op.given, taken] using (swap_perm l i h).symm
  case set i a h => simpa [Op.given, taken] using (set_perm l i a h).symm
  case insert i a h => simpa [Op.given, taken] using (insert_perm l i a).symm
  case truncate k => simpa [Op.given, taken] using (take_drop_perm l k).symm
  case resizeDown k a h =>
    simp only [Op.given, taken, List.append_nil]
    refine (((take_drop_perm l k).symm.append_left [a]).trans ?_)
    rw [← List.append_assoc]
    exact List.perm_append_comm.append_right _
  case resizeWithDown k f h => simpa [Op.given, taken] using (take_drop_perm l k).symm
  case extendFromIterRefused =>
    rename_i h
    refine perm_of_count fun a => ?_
    simp only [Op.given, taken, h, List.count_append, List.append_nil]
    omega
  all_goals
    refine perm_of_count fun a => ?_
    simp only [Op.given, taken, List.count_append, List.append_nil, List.nil_append,
      List.count_cons, List.count_nil]
  all_goals try omega

theorem contents_set {L : Lists α} {x : Nat} {l : List α} (h : L[x]? = some (some l))
    (o : Option (List α)) [DecidableEq α] (a : α) :
    (Lists.contents (L.set x o)).count a + l.count a =
      (Lists.contents L).count a + (o.getD []).count a := by
  induction L generalizing x with
  | nil => simp at h
  | cons m L ih =>
    cases x with
    | zero =>
      simp only [List.getElem?_cons_zero, Option.some.injEq] at h
      subst h
      simp only [Lists.contents, List.set_cons_zero, List.flatMap_cons, List.count_append,
        Option.getD_some]
      omega
    | succ x =>
      have := ih (x := x) (by simpa using h)
      simp only [Lists.contents, List.set_cons_succ, List.flatMap_cons, List.count_append] at this ⊢
      omega

theorem contents_snoc (L : Lists α) (l : List α) :
    Lists.contents (L ++ [some l]) = Lists.contents L ++ l := by
  simp [Lists.contents]

theorem Step.conserve {cmd : Cmd α} {ev : Event α} {L L' : Lists α} {made dropped : List α}
    (h : Step cl cmd ev L L' made dropped) :
    (cmd.given ++ made ++ Lists.contents L).Perm (dropped ++ taken cmd ev ++ Lists.contents L') := by
  classical
  cases h
  case on x o l l' hx he =>
    have h1 := he.conserve (x := x)
    refine perm_of_count fun a => ?_
    have h2 := List.perm_iff_count.mp h1 a
    have h3 := contents_set hx (some l') a
    simp only [Cmd.given, List.count_append, Option.getD_some] at h2 h3 ⊢
    omega
  case append x y l l' hne hx hy =>
    refine perm_of_count fun a => ?_
    have h3 := contents_set hx (some (l ++ l')) a
    have h4 := contents_set (L := L.set x (some (l ++ l'))) (x := y) (l := l')
      (by rw [List.getElem?_set_ne hne]; exact hy) (some []) a
    simp only [Cmd.given, taken, List.count_append, Option.getD_some, List.nil_append,
      List.count_nil] at h3 h4 ⊢
    omega
  case drop x hx =>
    refine perm_of_count fun a => ?_
    have h3 := contents_set hx none a
    simp only [Cmd.given, taken, List.count_append, Option.getD_none, List.nil_append,
      List.count_nil] at h3 ⊢
    omega
  case fromIterPanic =>
    rename_i hp
    refine perm_of_count fun a => ?_
    have h2 := List.perm_iff_count.mp hp a
    simp only [Cmd.given, taken, List.count_append, List.count_nil]
    omega
  case fromIterRefused =>
    rename_i hp
    refine perm_of_count fun a => ?_
    have h2 := List.perm_iff_count.mp hp a
    simp only [Cmd.given, taken, List.count_append, List.count_nil]
    omega
  all_goals
    refine perm_of_count fun a => ?_
    simp only [Cmd.given, taken, contents_snoc, List.count_append, List.append_nil, List.nil_append]
  all_goals try omega

theorem Runs.conserve {h : History α} {L : Lists α} {made dropped : List α}
    (hr : Runs cl h L made dropped) :
    (h.given ++ made).Perm (dropped ++ h.taken ++ Lists.contents L) := by
  classical
  induction hr with
  | start => simp [History.given, History.taken, Lists.contents]
  | step _ hs ih =>
    refine perm_of_count fun a => ?_
    have h1 := List.perm_iff_count.mp ih a
    have h2 := List.perm_iff_count.mp hs.conserve a
    simp only [History.given, History.taken, List.flatMap_append, List.flatMap_cons,
      List.flatMap_nil, List.count_append, List.append_nil] at h1 h2 ⊢
    omega

/-- The callbacks of a call do not panic and its index is in range. -/
def Op.Good (cl : CloneRel α) (l : List α) : Op α → Prop
  | .insert i _ => i ≤ l.length
  | .remove i => i < l.length
  | .swapRemove i => i < l.length
  | .get i => i < l.length
  | .set i _ => i < l.length
  | .extendFromSlice _ => ∀ a, ¬ cl a none
  | .resize _ _ => ∀ a, ¬ cl a none
  | .extendFromIter it => it.boom = false
  | .resizeWith _ f => ∀ k, f k ≠ none
  | _ => True

/-- The specification leaves no room for panics: a call whose index is in range, whose callbacks do
not panic and which is not refused memory returns. -/
theorem Edit.returns {o : Op α} {ev : Event α} {l l' made dropped : List α}
    (h : Edit cl o ev l l' made dropped) (hg : o.Good cl l) (hr : ev.refused = false) :
    ∃ out, ev.out = some out := by
  cases h <;> simp_all [Op.Good] <;> omega

end Lokky.Spec
