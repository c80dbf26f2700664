import Mathlib.Data.List.Rotate

/-!
# Specification vocabulary for grid-edge cells
-/

namespace Dany.Edge

variable {N : ℕ}

/-- The ring of a polygon: its vertex list without the repetition of the first vertex at the end. -/
def ring (p : List ℕ) : List ℕ := if p.head? = p.getLast? then p.dropLast else p

/-- `{a, b}` is a side of the closed ring `r`: two cyclically consecutive vertices. -/
def IsSide (r : List ℕ) (a b : ℕ) : Prop :=
  ∃ i < r.length, (r[i]? = some a ∧ r[(i + 1) % r.length]? = some b) ∨
    (r[i]? = some b ∧ r[(i + 1) % r.length]? = some a)

/-- Cell `n` has a side that no other cell shares. -/
def OnEdge (iverts : Fin N → List ℕ) (n : Fin N) : Prop :=
  ∃ a b, IsSide (ring (iverts n)) a b ∧ ∀ m, IsSide (ring (iverts m)) a b → m = n

end Dany.Edge
