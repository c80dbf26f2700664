import Verif.Base
import Mathlib.Dynamics.PeriodicPts.Defs
import Mathlib.Data.Fintype.Basic
import Mathlib.Data.Finset.Filter

/-!
# Flow networks: vocabulary of the specifications

A flow-direction array assigns to every cell an integer.  `Resolves fdir d` says that reading the
array the way numpy reads an index, cell `n` flows to cell `d n`.  `Legal fdir d` is the plain case
in which the array holds cell numbers.
-/

namespace Dany.Flow

variable {N : ℕ}

/-- The array holds the cell numbers `d`. -/
def Legal (fdir : Fin N → ℤ) (d : Fin N → Fin N) : Prop := ∀ n, fdir n = ((d n : ℕ) : ℤ)

/-- Used as numpy indices the entries denote the cells `d`: entry `i ≥ 0` is cell `i`, entry `i < 0`
is cell `N + i`. -/
def Resolves (fdir : Fin N → ℤ) (d : Fin N → Fin N) : Prop :=
  ∀ n, (0 ≤ fdir n ∧ ((d n : ℕ) : ℤ) = fdir n) ∨ (fdir n < 0 ∧ ((d n : ℕ) : ℤ) = N + fdir n)

/-- Following flow directions from `u` one comes through `n` (`u = n` included). -/
def Reaches (d : Fin N → Fin N) (u n : Fin N) : Prop := ∃ k : ℕ, d^[k] u = n

/-- `n` lies on a closed flow path with at least two different cells. -/
def OnCycle (d : Fin N → Fin N) (n : Fin N) : Prop := d n ≠ n ∧ ∃ k : ℕ, d^[k + 1] n = n

/-- The cells whose flow path passes through `n`. -/
noncomputable def upstream (d : Fin N → Fin N) (n : Fin N) : Finset (Fin N) :=
  open Classical in Finset.univ.filter (fun u => Reaches d u n)

end Dany.Flow
