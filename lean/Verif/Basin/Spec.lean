import Verif.Flow.Spec

/-!
# Specification vocabulary for watersheds and subbasins
-/

namespace Dany.Basin

variable {N : ℕ}

/-- `p` is the first member of `S` met when following flow directions from `u` (`u` itself
included). -/
def FirstOn (d : Fin N → Fin N) (S : Fin N → Prop) (u p : Fin N) : Prop :=
  ∃ k : ℕ, d^[k] u = p ∧ S p ∧ ∀ j < k, ¬ S (d^[j] u)

/-- The pour points whose next pour point downstream is `p`. -/
noncomputable def above (d : Fin N → Fin N) (cells : List (Fin N)) (p : Fin N) : Finset (Fin N) :=
  open Classical in Finset.univ.filter fun q => q ∈ cells ∧ q ≠ p ∧ FirstOn d (· ∈ cells) (d q) p

/-- The interpreter's recursion limit suffices for the pour points: any sequence of different pour
points, each upstream of the next, has fewer than `limit` members. -/
def PoursFit (d : Fin N → Fin N) (cells : List (Fin N)) (limit : ℕ) : Prop :=
  ∀ q : List (Fin N), q.IsChain (Flow.Reaches d) → q.Nodup → (∀ c ∈ q, c ∈ cells) → q.length + 1 ≤ limit

end Dany.Basin
