import Verif.Flood.Spec

/-!
# Specification vocabulary for DEMs with nodata cells (`none`)
-/

namespace Dany.Nodata

variable {N : ℕ} {V : Type*} [LinearOrder V]

/-- a cell without elevation touches `n` -/
def BesideNodata (nbr : Fin N → List ℕ) (dem : Fin N → Option V) (n : Fin N) : Prop :=
  ∃ c, Flood.Adj nbr c n ∧ dem c = none

/-- From `n` one can walk from neighbour to neighbour, over cells with an elevation only, each step related by
`down (next) (current)`, until a cell of `S` is reached. -/
inductive Drains (down : V → V → Prop) (nbr : Fin N → List ℕ) (f : Fin N → Option V) (S : Fin N → Prop) : Fin N → Prop
  | outlet {s} : S s → Drains down nbr f S s
  | step {n c x y} : Flood.Adj nbr n c → f c = some x → f n = some y → down x y → Drains down nbr f S c →
      Drains down nbr f S n

/-- `v` is the highest ground elevation met on some path from a cell of `S` to `n` over cells with an elevation. -/
inductive PathTop (nbr : Fin N → List ℕ) (dem : Fin N → Option V) (S : Fin N → Prop) : Fin N → V → Prop
  | seed {s x} : S s → dem s = some x → PathTop nbr dem S s x
  | step {c n v x} : PathTop nbr dem S c v → Flood.Adj nbr c n → dem n = some x → PathTop nbr dem S n (max v x)

/-- The spill elevation: the lowest, over all paths from a cell of `S`, of the highest ground elevation on the path. -/
def IsSpill (nbr : Fin N → List ℕ) (dem : Fin N → Option V) (S : Fin N → Prop) (n : Fin N) (v : V) : Prop :=
  IsLeast {w | PathTop nbr dem S n w} v

/-- Water level reached at `n` along some path from a cell of `S`, over cells with an elevation, when every step must rise by
`raise` (by eps) or up to the ground, whichever is higher. -/
inductive PathRise (raise : V → V) (nbr : Fin N → List ℕ) (dem : Fin N → Option V) (S : Fin N → Prop) : Fin N → V → Prop
  | seed {s x} : S s → dem s = some x → PathRise raise nbr dem S s x
  | step {c n v x} : PathRise raise nbr dem S c v → Flood.Adj nbr n c → dem n = some x →
      PathRise raise nbr dem S n (max x (raise v))

end Dany.Nodata
