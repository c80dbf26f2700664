import Verif.Base
import Mathlib.Order.Defs.LinearOrder
import Mathlib.Data.List.Chain
import Mathlib.Logic.Relation

/-!
# Vocabulary for control points
-/

namespace Dany.Delin

variable {N : ℕ} {K : Type*} [LinearOrder K]

/-- `v` is a neighbour of `u` that flows into it and has accumulated the amount `a` -/
def Tributary (nbs : Fin N → List (Fin N)) (fdir : Fin N → ℤ) (facc : Fin N → Option K) (u v : Fin N)
    (a : K) : Prop := v ∈ nbs u ∧ fdir v = ((u : ℕ) : ℤ) ∧ facc v = some a

/-- `v` is a tributary of `u` with the largest accumulation -/
def Main (nbs : Fin N → List (Fin N)) (fdir : Fin N → ℤ) (facc : Fin N → Option K) (u v : Fin N) : Prop :=
  ∃ a, Tributary nbs fdir facc u v a ∧ ∀ w b, Tributary nbs fdir facc u w b → b ≤ a

/-- a chain of cells from `p` upstream, always along a main tributary, up to a cell without tributaries -/
structure MainStem (nbs : Fin N → List (Fin N)) (fdir : Fin N → ℤ) (facc : Fin N → Option K) (p : Fin N)
    (c : List (Fin N)) : Prop where
  start : c.head? = some p
  steps : c.IsChain (Main nbs fdir facc)
  ends : ∀ u, c.getLast? = some u → ∀ v a, ¬ Tributary nbs fdir facc u v a

/-- one step along the flow to another cell -/
def Flows (fdir : Fin N → ℤ) (a b : Fin N) : Prop := a ≠ b ∧ fdir a = ((b : ℕ) : ℤ)

/-- following flow directions from `p` to other cells one comes back to `p` -/
def OnLoop (fdir : Fin N → ℤ) (p : Fin N) : Prop := Relation.TransGen (Flows fdir) p p

end Dany.Delin
