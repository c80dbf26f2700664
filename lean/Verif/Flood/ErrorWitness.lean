import Verif.Flood.Error
import Verif.Flood.CompareWitness

/-!
# Concrete runs for C174
-/

namespace Dany.Flood

/-- `d34` with the elevation of cell 0 raised by 1/8 -/
def d34e : Fin 12 → ℚ := ![17/8, 9, 2, 6, 9, 2, 1, 9, 4, 9, 6, 9]

theorem d34e_near : ∀ n, |d34 n - d34e n| ≤ 1/8 := by decide +kernel

example {o o' : Fin 12 → ℚ} (h : fillSinks 13 (· + 2) 100 g34 d34 none "complete" = .ok o)
    (h' : fillSinks 13 (· + 2) 100 g34 d34e none "complete" = .ok o') : |o 6 - o' 6| ≤ 1/8 :=
  C174_complete (by decide +kernel) d34e_near h h' 6
example {o o' : Fin 12 → ℚ} (h : fillSinks 13 (· + 2) 100 g34 d34 none "drain" = .ok o)
    (h' : fillSinks 13 (· + 2) 100 g34 d34e none "drain" = .ok o') : |o 6 - o' 6| ≤ 1/8 :=
  C174_drain (by norm_num) (by decide +kernel) d34e_near (by decide +kernel) (by decide +kernel) h h' 6
example {o o' : Fin 12 → ℚ} (h : fillSinks 13 (· + 2) 100 g34 d34 none "priority" = .ok o)
    (h' : fillSinks 13 (· + 2) 100 g34 d34e none "priority" = .ok o') : |o 6 - o' 6| ≤ 1/8 + (12 : ℕ) * 2 :=
  C174_priority (by norm_num) (by decide +kernel) d34e_near h h' 6
-- the runs exist
example : (∃ o, fillSinks 13 (· + 2) 100 g34 d34e none "complete" = .ok o) ∧
    ∃ o, fillSinks 13 (· + 2) 100 g34 d34e none "drain" = .ok o :=
  ⟨⟨![17/8, 9, 2, 6, 9, 2, 2, 9, 4, 9, 6, 9], by decide +kernel⟩,
    ⟨![17/8, 9, 2, 6, 9, 4, 4, 9, 4, 9, 6, 9], by decide +kernel⟩⟩

/-- **C174**, 'priority': the term with eps is needed.  An error of 1/8 in one elevation changes the result by
2, the value of eps. -/
theorem C174_priority_magnifies : ∃ (g : Grid 12) (dem dem' out out' : Fin 12 → ℚ), SymmNbr g.nbr ∧
    (∀ n, |dem n - dem' n| ≤ 1/8) ∧
    fillSinks 13 (· + 2) 100 g dem none "priority" = .ok out ∧
    fillSinks 13 (· + 2) 100 g dem' none "priority" = .ok out' ∧ out 6 - out' 6 = 2 :=
  ⟨g34, d34, d34e, ![2, 9, 2, 6, 9, 4, 6, 9, 4, 9, 6, 9], ![17/8, 9, 2, 6, 9, 4, 4, 9, 4, 9, 6, 9], symm34,
    d34e_near, by decide +kernel, by decide +kernel, by decide +kernel⟩

end Dany.Flood
