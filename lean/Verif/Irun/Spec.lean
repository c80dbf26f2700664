import Verif.Base
import Mathlib.Logic.Relation

/-!
# Vocabulary for `irunbnd`

`fdir` are the flow directions; `sa` holds the segment number of every stream cell, a value not above 0
elsewhere.
-/

namespace Dany.Irun

variable {N : ℕ}

/-- cell `a` flows into cell `b` -/
def Into (fdir : Fin N → ℤ) (a b : Fin N) : Prop := fdir a = ((b : ℕ) : ℤ)

/-- `b` lies on the flow path of `a` (`a` itself included) -/
def Down (fdir : Fin N → ℤ) : Fin N → Fin N → Prop := Relation.ReflTransGen (Into fdir)

/-- `s` is a stream cell on the flow path of `u` -/
def Gets (fdir sa : Fin N → ℤ) (u s : Fin N) : Prop := 0 < sa s ∧ Down fdir u s

/-- `s` is the stream cell with the lowest cell number on the flow path of `u` -/
def Lowest (fdir sa : Fin N → ℤ) (u s : Fin N) : Prop :=
  Gets fdir sa u s ∧ ∀ t, Gets fdir sa u t → s ≤ t

/-- `f` is the first stream cell that the flow path of `u` meets -/
inductive First (fdir sa : Fin N → ℤ) : Fin N → Fin N → Prop
  | here {u} (h : 0 < sa u) : First fdir sa u u
  | step {u v f} (h : ¬ 0 < sa u) (h1 : Into fdir u v) (h2 : First fdir sa v f) : First fdir sa u f

end Dany.Irun
