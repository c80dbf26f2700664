import Verif.Topo.Spec
import Verif.Vec.Model

/-!
# Vocabulary for stream vectors
-/

namespace Dany.Vec

open Topo

variable {N : ℕ}

/-- a segment no segment flows into -/
def HeadSeg (sg : Dict ℤ ℤ) (s : ℤ) : Prop := s ∈ sg.keys ∧ ∀ j, sg.get? j ≠ some s

/-- a segment downstream of a headwater segment -/
def Reached (sg : Dict ℤ ℤ) (s : ℤ) : Prop :=
  s ∈ sg.keys ∧ ∃ h, HeadSeg sg h ∧ Relation.ReflTransGen (FlowsTo sg) h s

/-- the cells of segment `s` in the order of the table, then the first cell of its outseg, if any -/
def line (sg : Dict ℤ ℤ) (nsr : List (Fin N × ℤ × ℤ)) (s : ℤ) : List (Fin N) :=
  (nsr.filter (fun r => r.2.1 = s)).map Prod.fst ++
    match sg.get? s with
    | none => []
    | some t => if t = 0 then [] else ((nsr.filter (fun r => r.2.1 = t)).map Prod.fst).take 1

/-- A segment graph and a table that fit: segments are nonzero, outsegs exist, every segment has cells. -/
structure Fits (sg : Dict ℤ ℤ) (nsr : List (Fin N × ℤ × ℤ)) : Prop where
  nodup : sg.keys.Nodup
  zero : (0 : ℤ) ∉ sg.keys
  refs : ∀ s t, sg.get? s = some t → t = 0 ∨ t ∈ sg.keys
  rows : ∀ s ∈ sg.keys, ∃ n r, (n, s, r) ∈ nsr

end Dany.Vec
