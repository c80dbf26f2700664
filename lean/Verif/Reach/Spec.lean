import Verif.Flow.Spec

/-!
# Specification vocabulary for the MODFLOW 6 stream network
-/

namespace Dany.Reach

variable {N : ℕ}

/-- The interpreter's recursion limit suffices for the stream: every flow path through stream cells
that repeats no cell has fewer than `limit` cells. -/
def Fits (d : Fin N → Fin N) (sa : Fin N → ℤ) (limit : ℕ) : Prop :=
  ∀ p : List (Fin N), p.IsChain (fun a b => d a = b) → p.Nodup → (∀ n ∈ p, sa n ≠ 0) →
    p.length + 1 ≤ limit

end Dany.Reach
