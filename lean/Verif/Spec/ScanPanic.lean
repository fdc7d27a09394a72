import Verif.Spec.Scan

/-!
# Specification of retain and dedup when destructors panic
-/

namespace Lokky.Spec
variable {α : Type}

/-- The part of a scan up to and including the first rejected element whose destructor panics; the
whole scan if there is none. `r` lists the elements seen, `true` = kept. -/
def uptoBoom (p : α → Bool) : List (α × Bool) → List (α × Bool)
  | [] => []
  | (a, q) :: r => if !q && p a then [(a, q)] else (a, q) :: uptoBoom p r

end Lokky.Spec
