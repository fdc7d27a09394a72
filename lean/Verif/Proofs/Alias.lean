import Verif.Model.BorrowsVec

/-!
# Lemmas on code of which only the pointers matter
-/

namespace Lokky.Alias

variable {σ β γ : Type}

theorem bind_some {m : M σ β} {k : β → M σ γ} {s s' : σ} {b : β}
    (h : m s = some (b, s')) : (m >>= k) s = k b s' := by
  show M.bind m k s = _
  simp [M.bind, h]

theorem bind_none {m : M σ β} {k : β → M σ γ} {s : σ} (h : m s = none) :
    (m >>= k) s = none := by
  show M.bind m k s = _
  simp [M.bind, h]

theorem bind_inv {m : M σ β} {k : β → M σ γ} {s : σ} {r : γ × σ}
    (h : (m >>= k) s = some r) : ∃ b s', m s = some (b, s') ∧ k b s' = some r := by
  change M.bind m k s = _ at h
  simp only [M.bind] at h
  split at h
  · rename_i b s' e
    exact ⟨b, s', e, h⟩
  · cases h

end Lokky.Alias
