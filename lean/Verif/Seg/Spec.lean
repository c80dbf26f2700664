import Verif.Base
import Mathlib.Logic.Relation

/-!
# Vocabulary for segmented stream networks

`fdir` are the flow directions, `sa` marks stream cells by nonzero values.
-/

namespace Dany.Seg

variable {N : ℕ}

/-- stream cell `a` flows into stream cell `b` -/
def Feeds (fdir sa : Fin N → ℤ) (a b : Fin N) : Prop :=
  sa a ≠ 0 ∧ sa b ≠ 0 ∧ fdir a = ((b : ℕ) : ℤ)

/-- a stream cell no stream cell flows into -/
def Headwater (fdir sa : Fin N → ℤ) (n : Fin N) : Prop := sa n ≠ 0 ∧ ∀ m, ¬ Feeds fdir sa m n

/-- a stream cell two different stream cells flow into -/
def Confluence (fdir sa : Fin N → ℤ) (n : Fin N) : Prop :=
  ∃ a b, a ≠ b ∧ Feeds fdir sa a n ∧ Feeds fdir sa b n

/-- the cells in which segments start -/
def Start (fdir sa : Fin N → ℤ) (n : Fin N) : Prop := Headwater fdir sa n ∨ Confluence fdir sa n

/-- following the stream from `a` through cells in which no segment starts, the next segment start is `b` -/
def NextStart (fdir sa : Fin N → ℤ) (a b : Fin N) : Prop :=
  Start fdir sa b ∧ ∃ l, Relation.ReflTransGen (fun x y => Feeds fdir sa x y ∧ ¬ Start fdir sa y) a l ∧
    Feeds fdir sa l b

/-- The interpreter's recursion limit suffices for the segments: every sequence of different segment
starts, each the next one downstream of its predecessor, has fewer than `limit` members. -/
def SegsFit (fdir sa : Fin N → ℤ) (limit : ℕ) : Prop :=
  ∀ p : List (Fin N), p.IsChain (NextStart fdir sa) → p.Nodup → (∀ n ∈ p, Start fdir sa n) →
    p.length + 1 ≤ limit

/-- The interpreter's recursion limit suffices for the cells: every flow path through stream cells that
repeats no cell has fewer than `limit` cells. -/
def CellsFit (fdir sa : Fin N → ℤ) (limit : ℕ) : Prop :=
  ∀ p : List (Fin N), p.IsChain (Feeds fdir sa) → p.Nodup → (∀ n ∈ p, sa n ≠ 0) → p.length + 1 ≤ limit

end Dany.Seg
