import Verif.Proofs.VecPool

/-!
# Concrete states used to show that hypotheses can be met
-/

namespace Lokky
variable {α : Type}

/-- 8-byte elements on a 64-bit machine, debug build, an allocator that grants everything. -/
def cfg64 : Cfg Nat where
  size := 8
  align := 8
  isizeMax := 2 ^ 63 - 1
  debug := true
  strict := true
  needsDrop := true
  dropPanics := fun _ => false
  zst := 0
  clone := fun _ a => some a
  grant := fun _ _ => true

/-- Nothing allocated yet. -/
def world0 : World Nat := ⟨fun _ => none, 0, 0, 0, fun _ => 0, ⟨[], 0⟩⟩

theorem world0_wf : world0.WF := fun _ _ => rfl

/-- A vector with contents `l` in a buffer of `cap` elements at address 0. -/
def stored (c : Cfg α) (l : List α) (cap : Nat) : VSt α :=
  ⟨⟨some 0, cap, 0, none, l.length⟩,
   ⟨fun p => if p = 0 then
      some ⟨0, cap * c.size, l.map some ++ List.replicate (cap - l.length) none⟩ else none,
    1, 1, 0, fun _ => 0, ⟨[], 0⟩⟩⟩

theorem stored_rep {c : Cfg α} {l : List α} {cap : Nat} (h : 0 < cap) (hl : l.length ≤ cap)
    (hf : c.Fits cap) : Rep c (stored c l cap).self (stored c l cap).w l := by
  refine ⟨rfl, Or.inr ⟨0, _, _, rfl, rfl, rfl, rfl, rfl, ?_, h, hf⟩⟩
  simp [stored]; omega

theorem stored_wf {c : Cfg α} {l : List α} {cap : Nat} : (stored c l cap).w.WF := by
  intro p hp
  have : p ≠ 0 := by simp [stored] at hp; omega
  simp [stored, this]

end Lokky
