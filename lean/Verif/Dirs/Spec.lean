import Verif.Dirs.Model

/-!
# Vocabulary for the flow-direction properties

Nothing here mentions the algorithm.  `nbr n` is the list of neighbours the grid gives for cell `n`,
`dem n` the elevation (`none` is NaN), `thr` the burn threshold.
-/

namespace Dany.Dirs

variable {N : ℕ} {K : Type*} [Field K] [LinearOrder K]

/-- The neighbour table of a fresh object. -/
def table (nbr : Fin N → List (Fin N)) (n : Fin N) : List (Entry N) := (nbr n).map some

/-- the rise from elevation `a` to elevation `b`, as the machine computes it; one below the threshold counts
as none -/
def rise (G : Geo N K) (thr a b : K) : K :=
  if 0 < G.rnd (b - a) ∧ G.rnd (b - a) < thr then 0 else G.rnd (b - a)

/-- `s` is the slope from `n` to `m`, negative if downhill: the rise over the distance of the cell centres,
where a rise below the threshold counts as none, rounded.  Cells without elevation have no slope. -/
def Slope (G : Geo N K) (dem : Fin N → Option K) (thr : K) (n m : Fin N) (s : K) : Prop :=
  ∃ a b, dem n = some a ∧ dem m = some b ∧
    s = G.rnd (rise G thr a b / G.dist n m)

/-- What the arithmetic has to be like for slopes to tell up from down: rounding keeps the order and zero,
neighbours have a positive distance, and no fall between neighbours is lost in rounding. -/
structure Sound (G : Geo N K) (dem : Fin N → Option K) (nbr : Fin N → List (Fin N)) : Prop where
  mono : Monotone G.rnd
  zero : G.rnd 0 = 0
  dist : ∀ n, ∀ m ∈ nbr n, 0 < G.dist n m
  falls : ∀ n, ∀ m ∈ nbr n, ∀ a b, dem n = some a → dem m = some b → b < a →
    G.rnd (G.rnd (b - a) / G.dist n m) < 0

/-- `m` is a neighbour of `n` and no neighbour of `n` lies in a steeper direction. -/
def Steepest (G : Geo N K) (dem : Fin N → Option K) (thr : K) (nbr : Fin N → List (Fin N))
    (n m : Fin N) : Prop :=
  m ∈ nbr n ∧ ∃ s, Slope G dem thr n m s ∧ ∀ m' ∈ nbr n, ∀ s', Slope G dem thr n m' s' → s ≤ s'

/-- `n` has at most three equally steep neighbours, and any two of these are neighbours of each other: three
neighbours in a corner of a square grid, for instance, or two side by side, or a single one. -/
def EasyTie (G : Geo N K) (dem : Fin N → Option K) (thr : K) (nbr : Fin N → List (Fin N)) (n : Fin N) : Prop :=
  (∃ a b c, ∀ m, Steepest G dem thr nbr n m → m = a ∨ m = b ∨ m = c) ∧
    ∀ m m', Steepest G dem thr nbr n m → Steepest G dem thr nbr n m' → m ≠ m' → m' ∈ nbr m

/-- `n` has the lowest elevation of all cells. -/
def Lowest (dem : Fin N → Option K) (n : Fin N) : Prop :=
  ∃ v, dem n = some v ∧ ∀ m w, dem m = some w → v ≤ w

/-- The cells that are made terminal: those with the lowest elevation and those the user names. -/
def Terminal (dem : Fin N → Option K) (terminals : List ℤ) (n : Fin N) : Prop :=
  Lowest dem n ∨ ((n : ℕ) : ℤ) ∈ terminals

/-- The slopes that occur are below the value given to missing neighbours (1e10). -/
def Below (G : Geo N K) (dem : Fin N → Option K) (thr big : K) (nbr : Fin N → List (Fin N)) : Prop :=
  ∀ n, ∀ m ∈ nbr n, ∀ s, Slope G dem thr n m s → s < big

/-- Every cell with an elevation has a neighbour with an elevation. -/
def HasNbr (dem : Fin N → Option K) (nbr : Fin N → List (Fin N)) : Prop :=
  ∀ n, dem n ≠ none → ∃ m ∈ nbr n, dem m ≠ none

/-- The user's terminal cells are cell numbers. -/
def InRange (N : ℕ) (terminals : List ℤ) : Prop := ∀ t ∈ terminals, 0 ≤ t ∧ t < N

end Dany.Dirs
