import Verif.Proofs.ArcTreeCalls

/-!
# Trees of `Arc`s: what calls show
-/

namespace Lokky
variable {α : Type}

namespace Cow
variable [DecidableEq α] {mx n t h p : Nat} {s s' : CowSys α} {ops r : List (CowOp α)} {f : List (Option (Spec.Tree α))}

omit [DecidableEq α] in
theorem grow_log {q : Nat} {o : CowObj α} {e : Spec.TreeEv α} (hn : n ≤ mx) (ho : s.objs[q]? = some o) (hf : o.freed = false) (hle : o.strong ≤ n)
    (hc : grow mx q e s = .ok () s') : s'.log = s.log ++ [e] := by
  simp only [grow, M.bind_apply, obj_ok ho hf, put, M.modify_apply, if_neg (show ¬ o.strong > mx by omega), more, tell] at hc
  cases hc; rfl

/-- What the program did and saw after a call. -/
theorem call_told {grant : Bool} {cmd : CowCmd α} (G : s.Good n) (hn : n ≤ mx) (ht : s.threads[t]? = some ops) (hl : cmd.legal s ops)
    (hf : Spec.playTrees s.log = some f) (hc : call mx t ops grant cmd s = .ok () s') :
    s'.log = s.log ++ cmd.shows grant (CowOp.mine ops) f := by
  obtain ⟨rest0, f0, hp0, I0⟩ := getTop G ht
  rw [hf] at hp0; cases hp0
  cases cmd with
  | new x hs =>
    simp only [call, new] at hc
    cases grant <;> (simp only [M.modify_apply, if_true, Bool.false_eq_true, if_false] at hc; cases hc; rfl)
  | clone h =>
    obtain ⟨p, hh⟩ := hl
    obtain ⟨o, h1, h2, h3, h4, h5, h6, _⟩ := I0.hand hh
    simp only [call, through, place_hand G ht hh] at hc
    exact grow_log hn h1 h3 h6 hc
  | cloneKid h i =>
    obtain ⟨p, hh⟩ := hl
    obtain ⟨o, h1, h2, h3, u, hu, m, hd⟩ := I0.seen hh
    simp only [call, through, growKid, hh, M.bind_apply, data_ok h1 h3 h2] at hc
    have hlen : o.kids.length = u.kids.length := by
      cases m with
      | zero => exact hd.elim
      | succ m =>
        obtain ⟨o', j1, j2, j3, j4⟩ := hd
        rw [h1] at j1; cases j1
        exact j4.length_eq
    simp only [CowCmd.shows, hu, Option.join_some, Option.map_some, Option.getD_some, ← hlen]
    cases e : o.kids[i]? with
    | none =>
      rw [e] at hc; cases hc
      rw [if_neg (by have := List.getElem?_eq_none_iff.1 e; omega), List.append_nil]
    | some q =>
      rw [e] at hc
      rw [if_pos (List.getElem?_eq_some_iff.1 e).1]
      have hm : q ∈ s.objs.flatMap CowObj.held :=
        List.mem_flatMap.2 ⟨o, List.mem_of_getElem? h1, by simpa [CowObj.held, h2] using List.mem_of_getElem? e⟩
      have hc' := List.count_pos_iff.2 hm
      obtain ⟨k, k1, k2, k3, k4⟩ := I0.there (q := q) (by rw [allRefs_count]; omega)
      have hsz := I0.size
      have hle := List.count_le_length (a := q) (l := allRefs s.objs s.hands s.lost (ops ++ rest0))
      exact grow_log hn k1 k3 (by omega) hc
  | read h path =>
    obtain ⟨p, hh⟩ := hl
    obtain ⟨o, h1, h2, h3, u, hu, m, hd⟩ := I0.seen hh
    simp only [call, through, hh, M.bind_apply, walk_ok I0.freed hd, tell, M.modify_apply] at hc
    cases hc
    simp [CowCmd.shows, hu]
  | downgrade h =>
    obtain ⟨p, hh⟩ := hl
    obtain ⟨o, h1, h2, h3, _⟩ := I0.hand hh
    simp only [call, through, downgrade, place_hand G ht hh, M.bind_apply, obj_ok h1 h3] at hc
    split at hc <;> (cases hc; simp [CowCmd.shows])
  | drop h =>
    obtain ⟨p, hh⟩ := hl
    simp only [call, through, place_hand G ht hh, give, tell, go, M.bind_apply, M.modify_apply] at hc
    cases hc; rfl
  | forget h =>
    obtain ⟨p, hh⟩ := hl
    simp only [call, through, place_hand G ht hh, give, tell, M.bind_apply, M.modify_apply] at hc
    cases hc; rfl
  | unwrap h =>
    obtain ⟨p, hh⟩ := hl
    obtain ⟨o, h1, h2, h3, _⟩ := I0.hand hh
    simp only [call, through, unwrap, place_hand G ht hh, M.bind_apply, obj_ok h1 h3] at hc
    split at hc <;> (cases hc; simp [CowCmd.shows])
  | getMut h =>
    obtain ⟨p, hh⟩ := hl
    simp only [call, through, place_hand G ht hh, give, go, M.bind_apply, M.modify_apply] at hc
    cases hc; simp [CowCmd.shows]
  | makeMut h =>
    obtain ⟨p, hh⟩ := hl
    simp only [call, through, place_hand G ht hh, give, go, M.bind_apply, M.modify_apply] at hc
    cases hc; simp [CowCmd.shows]
  | write x =>
    obtain ⟨h, p, r, rfl⟩ := hl
    have I0' : CowInv n s.objs s.hands s.lost ([.held h p] ++ (r ++ rest0)) f := I0
    obtain ⟨o, u, h1, h2, h3, h4, _⟩ := I0'.write_ok x
    simp only [call, within, M.bind_apply, data_ok h1 h3 h2, put, tell, M.modify_apply] at hc
    cases hc; rfl
  | put i h' =>
    obtain ⟨⟨h, p, r, rfl⟩, q, hq⟩ := hl
    have I0' : CowInv n s.objs s.hands s.lost ([.held h p] ++ (r ++ rest0)) f := I0
    obtain ⟨o, u, u', h1, h2, h3, h4, h5, h6, h7, _⟩ := I0'.put_ok (i := i) hq
    simp only [call, within, putKid, M.bind_apply, data_ok h1 h3 h2, M.get_apply, hq, Option.join_some] at hc
    simp only [CowCmd.shows, CowOp.mine, Option.toList, List.flatMap_cons, List.flatMap_nil, List.append_nil, h4, Option.join_some,
      Option.map_some, Option.getD_some, ← h7]
    split at hc
    · rw [if_pos ‹_›]; cases hc; rfl
    · rw [if_neg ‹_›]; cases hc; simp
  | take i =>
    obtain ⟨h, p, r, rfl⟩ := hl
    have I0' : CowInv n s.objs s.hands s.lost ([.held h p] ++ (r ++ rest0)) f := I0
    obtain ⟨o, h1, h2, h3, h4, h5, h6, h7, h8, h9, h10, h11, h12, u, m, h13, h14, h15⟩ := I0'.mine
    simp only [call, within, takeKid, M.bind_apply, data_ok h1 h3 h2] at hc
    simp only [CowCmd.shows, CowOp.mine, Option.toList, List.flatMap_cons, List.flatMap_nil, List.append_nil, h13, Option.join_some,
      Option.map_some, Option.getD_some, ← h15.length_eq]
    cases e : o.kids[i]? with
    | none =>
      rw [e] at hc; cases hc
      rw [if_neg (by have := List.getElem?_eq_none_iff.1 e; omega), List.append_nil]
    | some q =>
      rw [e] at hc
      rw [if_pos (List.getElem?_eq_some_iff.1 e).1]
      cases hc; rfl
  | letGo =>
    obtain ⟨h, p, r, rfl⟩ := hl
    simp only [call, within, give, go, M.bind_apply, M.modify_apply] at hc
    cases hc; simp [CowCmd.shows]

/-- The program does not notice. -/
def Silent {β : Type} (m : M (CowSys α) β) : Prop := ∀ s a s', m s = .ok a s' → s'.log = s.log

omit [DecidableEq α] in
theorem Silent.bind {β γ : Type} {m : M (CowSys α) β} {k : β → M (CowSys α) γ} (h1 : Silent m) (h2 : ∀ b, Silent (k b)) :
    Silent (m >>= k) := by
  intro s a s' e
  rw [M.bind_apply] at e
  cases hm : m s with
  | ok b s1 => rw [hm] at e; exact (h2 b _ _ _ e).trans (h1 _ _ _ hm)
  | _ => rw [hm] at e; cases e

omit [DecidableEq α] in
theorem Silent.pure {β : Type} (b : β) : Silent (pure b : M (CowSys α) β) := by
  intro s a s' e; cases e; rfl

omit [DecidableEq α] in
theorem Silent.get : Silent (M.get : M (CowSys α) (CowSys α)) := by
  intro s a s' e; cases e; rfl

omit [DecidableEq α] in
theorem Silent.modify {g : CowSys α → CowSys α} (hg : ∀ s, (g s).log = s.log) : Silent (M.modify g) := by
  intro s a s' e; cases e; exact hg s

omit [DecidableEq α] in
theorem Silent.obj (p : Nat) : Silent (obj p : M (CowSys α) (CowObj α)) := by
  intro s a s' e
  unfold Cow.obj at e
  split at e
  · split at e
    · cases e
    · cases e; rfl
  · cases e

omit [DecidableEq α] in
theorem Silent.data (p : Nat) : Silent (data p : M (CowSys α) (CowObj α)) := by
  refine (Silent.obj p).bind fun o => ?_
  split
  · exact Silent.pure _
  · intro s a s' e; cases e

omit [DecidableEq α] in
theorem Silent.put (p : Nat) (o : CowObj α) : Silent (put p o) := Silent.modify fun _ => rfl

omit [DecidableEq α] in
theorem Silent.go (t : Nat) (ops : List (CowOp α)) : Silent (go t ops) := Silent.modify fun _ => rfl

omit [DecidableEq α] in
theorem Silent.give (h : Nat) (p : Option Nat) : Silent (give h p : M (CowSys α) Unit) := Silent.modify fun _ => rfl

omit [DecidableEq α] in
theorem step_silent {ch : CowChoice} {op : CowOp α} (h : ∀ k p, op ≠ .unw k p) : Silent (step mx ch t r op) := by
  cases op with
  | unw k p => exact absurd rfl (h k p)
  | sub p z => exact (Silent.obj _).bind fun _ => (Silent.put _ _).bind fun _ => Silent.go _ _
  | fin p => exact (Silent.data _).bind fun _ => (Silent.put _ _).bind fun _ => Silent.go _ _
  | look p => exact (Silent.obj _).bind fun _ => Silent.go _ _
  | free p => exact (Silent.obj _).bind fun _ => (Silent.put _ _).bind fun _ => Silent.go _ _
  | get0 h p =>
    refine (Silent.obj _).bind fun _ => ?_
    split
    · exact (Silent.put _ _).bind fun _ => Silent.go _ _
    · exact (Silent.give _ _).bind fun _ => Silent.go _ _
  | get1 h p => exact (Silent.obj _).bind fun _ => Silent.go _ _
  | get2 h p u =>
    refine (Silent.obj _).bind fun _ => (Silent.put _ _).bind fun _ => ?_
    split
    · exact Silent.go _ _
    · exact (Silent.give _ _).bind fun _ => Silent.go _ _
  | mm0 h p => exact (Silent.obj _).bind fun _ => Silent.go _ _
  | mm1 h p k =>
    refine (Silent.obj _).bind fun _ => ?_
    split
    · split <;> exact Silent.go _ _
    · exact Silent.go _ _
  | mm2 h p w =>
    refine (Silent.obj _).bind fun _ => ?_
    split
    · exact (Silent.put _ _).bind fun _ => Silent.go _ _
    · exact Silent.go _ _
  | mm3 h p =>
    refine (Silent.obj _).bind fun _ => ?_
    split
    · exact (Silent.put _ _).bind fun _ => Silent.go _ _
    · exact Silent.go _ _
  | mm4 h p => exact (Silent.data _).bind fun _ => (Silent.put _ _).bind fun _ => Silent.go _ _
  | mmV h p =>
    refine (Silent.data _).bind fun _ => ?_
    split
    · exact (Silent.give _ _).bind fun _ => Silent.go _ _
    · exact Silent.go _ _
  | mmC h p x got =>
    refine (Silent.data _).bind fun _ => ?_
    split
    · refine (Silent.obj _).bind fun _ => (Silent.put _ _).bind fun _ => ?_
      split
      · exact (Silent.give _ _).bind fun _ => Silent.go _ _
      · exact Silent.go _ _
    · exact Silent.go _ _
  | mmA h p x ks z =>
    simp only [step]
    split
    · refine Silent.get.bind fun _ => Silent.bind ?_ fun _ => Silent.go _ _
      exact Silent.modify fun _ => rfl
    · refine (Silent.modify fun s => ?_).bind fun _ => (Silent.give _ _).bind fun _ => Silent.go _ _
      split <;> rfl
  | held h p => exact Silent.pure _

/-- What the program did and saw after a step. -/
theorem step_told {ch : CowChoice} {op : CowOp α} (G : s.Good n) (ht : s.threads[t]? = some (op :: r))
    (hf : Spec.playTrees s.log = some f) (hc : step mx ch t r op s = .ok () s') : s'.log = s.log ++ op.shows f := by
  by_cases hu : ∃ k p, op = .unw k p
  · obtain ⟨h, p, rfl⟩ := hu
    obtain ⟨rest0, f0, hp0, I0⟩ := getTop G ht
    rw [hf] at hp0; cases hp0
    have I0' : CowInv n s.objs s.hands s.lost ([.unw h p] ++ (r ++ rest0)) f := I0
    obtain ⟨o, h1, h2, h3, h4, k5, k6⟩ := I0'.ending (q := p) (by simp [CowOp.ends])
    obtain ⟨u, u1, u2, _⟩ := I0'.unw_ok h1 h2 h3 h4 k5 k6
    simp only [step, M.bind_apply, data_ok h1 h3 h2, put, go, more, tell, M.modify_apply] at hc
    cases hc
    simp [CowOp.shows, u1, u2]
  · have hs : op.shows f = [] := by
      cases op with
      | unw k p => exact absurd ⟨k, p, rfl⟩ hu
      | _ => rfl
    rw [hs, List.append_nil]
    exact step_silent (fun k p e => hu ⟨k, p, e⟩) _ _ _ hc

end Cow

theorem CowCmd.legal_of_fine {s : CowSys α} {ops : List (CowOp α)} {cmd : CowCmd α} (h : cmd.fine s ops = true) : cmd.legal s ops := by
  have hand : ∀ {k}, s.hasHand k = true → ∃ p, s.hands[k]? = some (some p) := fun {k} hk => by
    obtain ⟨p, hp⟩ := Option.isSome_iff_exists.1 hk
    exact ⟨p, Option.join_eq_some_iff.1 hp⟩
  have mine : (CowOp.mine ops).isSome = true → ∃ h p r, ops = .held h p :: r := fun hk => by
    unfold CowOp.mine at hk
    split at hk
    · exact ⟨_, _, _, rfl⟩
    · simp at hk
  cases cmd <;> simp only [fine, legal, Bool.and_eq_true, decide_eq_true_eq, List.all_eq_true] at h ⊢
  case new => exact ⟨h.1, fun k hk => hand (h.2 k hk)⟩
  case cloneKid => exact Option.isSome_iff_exists.1 h
  case read => exact Option.isSome_iff_exists.1 h
  case put => exact ⟨mine h.1, hand h.2⟩
  case write => exact mine h
  case take => exact mine h
  case letGo => exact mine h
  all_goals exact hand h

theorem CowSys.move_step {mx : Nat} {calm : Bool} {s s' : CowSys α} {m : CowMove α} (h : s.move mx calm m = some s') :
    CowStep mx (calm = true) s s' := by
  cases m with
  | call t grant cmd =>
    unfold CowSys.move at h
    dsimp only at h
    split at h
    · rename_i ops ht
      split at h
      · rename_i hc
        rw [Bool.and_eq_true] at hc
        split at h
        · rename_i e
          cases h
          exact .call t grant cmd ht hc.1 (CowCmd.legal_of_fine hc.2) e
        · cases h
      · cases h
    · cases h
  | run t ch =>
    unfold CowSys.move at h
    dsimp only at h
    split at h
    · rename_i op r ht
      split at h
      · cases h
      · rename_i hc
        split at h
        · rename_i e
          cases h
          refine .run t ch ht e fun hcalm hl => hc ?_
          subst hcalm
          cases op <;> simp_all [CowOp.loses, CowOp.losing]
        · cases h
    · cases h

theorem CowSys.moves_reach {mx n : Nat} {calm : Bool} {s s' : CowSys α} {l : List (CowMove α)} (h0 : CowReaches mx (calm = true) n s)
    (h : s.moves mx calm l = some s') : CowReaches mx (calm = true) (n + l.length) s' := by
  induction l generalizing s n with
  | nil => cases h; exact h0
  | cons m l ih =>
    simp only [CowSys.moves, List.foldlM_cons] at h
    cases hm : s.move mx calm m with
    | none => simp [hm] at h
    | some s1 =>
      rw [hm] at h
      have := ih (h0.step (CowSys.move_step hm)) h
      rwa [List.length_cons, show n + (l.length + 1) = n + 1 + l.length by omega]

end Lokky
