import Verif.Flood.Local
import Verif.Flood.CompareWitness

/-!
# Concrete runs for C187
-/

namespace Dany.Flood

def g35 : Grid 15 := rect 3 5
theorem symm35 : SymmNbr g35.nbr := by unfold SymmNbr Adj; decide +kernel

/-- a ridge of 8 at cell 7 between a hollow (cell 6) and a flat (cell 8) -/
def d35 : Fin 15 → ℚ := ![2, 9, 9, 4, 3, 9, 1, 8, 4, 9, 9, 9, 9, 9, 9]
/-- the ridge lowered to 5 -/
def d35' : Fin 15 → ℚ := ![2, 9, 9, 4, 3, 9, 1, 5, 4, 9, 9, 9, 9, 9, 9]

theorem d35_edit : ∀ a, d35' a ≠ d35 a → 4 < d35 a ∧ 4 < d35' a := by decide +kernel

/-- **C187**, 'priority': the increments are needed.  Cell 8 is left at 4; lowering the ridge beside it from 8
to 5, still above 4, makes the fill raise cell 8 to 11. -/
theorem C187_priority_differs : ∃ (g : Grid 15) (dem dem' out out' : Fin 15 → ℚ), SymmNbr g.nbr ∧
    fillSinks 16 (· + 3) 100 g dem none "priority" = .ok out ∧
    fillSinks 16 (· + 3) 100 g dem' none "priority" = .ok out' ∧
    (∀ a, dem' a ≠ dem a → out 8 < dem a ∧ out 8 < dem' a) ∧ out 8 = 4 ∧ out' 8 = 11 :=
  ⟨g35, d35, d35', ![2, 9, 9, 4, 3, 9, 5, 8, 4, 9, 9, 9, 9, 9, 9], ![2, 9, 9, 4, 3, 9, 5, 8, 11, 9, 9, 9, 9, 9, 9],
    symm35, by decide +kernel, by decide +kernel, by decide +kernel, by decide +kernel, by decide +kernel⟩

-- the other two methods on the same edit; the hollow (cell 6) is below the ridge too
theorem run35c : fillSinks 16 (· + 1) 100 g35 d35 none "complete" =
    .ok ![2, 9, 9, 4, 3, 9, 2, 8, 4, 9, 9, 9, 9, 9, 9] := by decide +kernel
theorem run35d : fillSinks 9 (· + 1) 100 g35 d35 none "drain" =
    .ok ![2, 9, 9, 4, 3, 9, 3, 8, 4, 9, 9, 9, 9, 9, 9] := by decide +kernel
example {o' : Fin 15 → ℚ} (h' : fillSinks 16 (· + 1) 100 g35 d35' none "complete" = .ok o') : o' 6 = 2 :=
  C187_complete (fun x => by linarith) (by decide +kernel) run35c h' 6 (by decide +kernel)
example {o' : Fin 15 → ℚ} (h' : fillSinks 9 (· + 1) 100 g35 d35' none "drain" = .ok o') : o' 6 = 3 :=
  C187_drain (fun x => by linarith) (fun _ _ h => by linarith) (by decide +kernel) (by decide +kernel)
    (by decide +kernel) run35d h' 6 (by decide +kernel)
example {o o' : Fin 15 → ℚ} (h : fillSinks 16 (· + 3) 100 g35 d35 none "priority" = .ok o) (h8 : o 8 = 4)
    (h' : fillSinks 16 (· + 3) 100 g35 d35' none "priority" = .ok o') : o' 8 ≤ (· + 3)^[15] (o 8) :=
  (C187_priority (fun x => by linarith) (fun _ _ h => by linarith) (by decide +kernel) h h' 8
    (by rw [h8]; exact d35_edit)).1
-- the runs exist
example : (∃ o, fillSinks 16 (· + 1) 100 g35 d35' none "complete" = .ok o) ∧
    ∃ o, fillSinks 9 (· + 1) 100 g35 d35' none "drain" = .ok o :=
  ⟨⟨![2, 9, 9, 4, 3, 9, 2, 5, 4, 9, 9, 9, 9, 9, 9], by decide +kernel⟩,
    ⟨![2, 9, 9, 4, 3, 9, 3, 5, 4, 9, 9, 9, 9, 9, 9], by decide +kernel⟩⟩

end Dany.Flood
