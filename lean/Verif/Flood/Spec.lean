import Mathlib.Order.Bounds.Basic
import Mathlib.Order.Lattice
import Verif.Flood.Model
import Verif.Edge.Spec

/-!
# Independent specification vocabulary for sink filling

Nothing here mentions the algorithm: only a neighbour relation, a ground surface and a set of
outlet ("seed") cells.  (From the model file only the grid record is used.)
-/

namespace Dany.Flood

variable {N : ℕ} {V : Type*} [LinearOrder V]

/-- `n` is listed as a neighbour of `c`. -/
def Adj (nbr : Fin N → List ℕ) (c n : Fin N) : Prop := n.val ∈ nbr c

/-- The neighbour lists are symmetric (FloPy's queen neighbours are). -/
def SymmNbr (nbr : Fin N → List ℕ) : Prop := ∀ a b : Fin N, Adj nbr a b → Adj nbr b a

/-- `n` can be reached from a seed by stepping from a cell to one of its neighbours. -/
inductive Reach (nbr : Fin N → List ℕ) (S : Fin N → Prop) : Fin N → Prop
  | seed {s} : S s → Reach nbr S s
  | step {c n} : Reach nbr S c → Adj nbr c n → Reach nbr S n

/-- `v` is the highest ground elevation met on some path from a seed to `n`. -/
inductive PathTop (nbr : Fin N → List ℕ) (dem : Fin N → V) (S : Fin N → Prop) : Fin N → V → Prop
  | seed {s} : S s → PathTop nbr dem S s (dem s)
  | step {c n v} : PathTop nbr dem S c v → Adj nbr c n → PathTop nbr dem S n (max v (dem n))

/-- The spill elevation of a cell: the lowest, over all paths from a seed, of the highest ground
elevation on the path. -/
def IsSpill (nbr : Fin N → List ℕ) (dem : Fin N → V) (S : Fin N → Prop) (n : Fin N) (v : V) : Prop :=
  IsLeast {w | PathTop nbr dem S n w} v

/-- Water level reached at `n` along some path from a seed when every step must rise by `raise`
(by eps) or up to the ground, whichever is higher. -/
inductive PathRise (raise : V → V) (nbr : Fin N → List ℕ) (dem : Fin N → V) (S : Fin N → Prop) :
    Fin N → V → Prop
  | seed {s} : S s → PathRise raise nbr dem S s (dem s)
  | step {c n v} : PathRise raise nbr dem S c v → Adj nbr n c →
      PathRise raise nbr dem S n (max (dem n) (raise v))

/-- From `n` one can walk from neighbour to neighbour, each step related by `down (next) (current)`
on surface `f`, until a cell of `S` is reached. -/
inductive Drains (down : V → V → Prop) (nbr : Fin N → List ℕ) (f : Fin N → V) (S : Fin N → Prop) :
    Fin N → Prop
  | outlet {s} : S s → Drains down nbr f S s
  | step {n c} : Adj nbr n c → down (f c) (f n) → Drains down nbr f S c → Drains down nbr f S n

/-- The cells water leaves through: the marked stream cells if a mask is given, else the cells on the
grid edge. -/
def Outlet (g : Grid N) (mask : Option (Fin N → Bool)) (n : Fin N) : Prop :=
  match mask with
  | some m => m n = true
  | none => Edge.OnEdge g.iverts n

/-- The documented method name that is in effect: names are case-insensitive; with a stream mask
anything else than "complete" means "priority"; without one, anything else than "priority" and
"complete" means "drain". -/
inductive Eff | priority | complete | drain
  deriving DecidableEq

def effective (mask : Option (Fin N → Bool)) (method : String) : Eff :=
  if method.toLower = "complete" then .complete
  else if method.toLower = "priority" ∨ mask.isSome then .priority
  else .drain

end Dany.Flood
