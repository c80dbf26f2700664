import Verif.Flood.Shift
import Verif.Flood.Witness

/-!
# Concrete runs for C120: metres to feet and another datum
-/

namespace Dany.Flood

/-- `dem44` in other units (factor 3) and above another datum (7 lower). -/
example : fillSinks 17 (· + 3 * (1/2)) 100 g44 (fun n => 3 * dem44 n + 7) none "Priority" =
    .ok (fun n => 3 * out44 n + 7) := by
  rw [C120_datum (by norm_num) 7 (1/2) 100 (by decide +kernel)]
  have h : fillSinks 17 (· + (1/2 : ℚ)) 100 g44 dem44 none "Priority" = .ok out44 := run_priority
  rw [h]; rfl

-- with a stream mask
example : fillSinks 17 (· + 3 * (1/2)) 100 g44 (fun n => 3 * dem44 n + 7) (some m44) "priority" =
    (fillSinks 17 (· + (1/2 : ℚ)) 100 g44 dem44 (some m44) "priority").map fun f n => 3 * f n + 7 :=
  C120_datum (by norm_num) 7 (1/2) 100 (by decide +kernel)

-- 'drain': the flood level is not converted
example {out' : Fin 16 → ℚ}
    (h : fillSinks 9 (· + 3 * (1/2)) 100 g44 (fun n => 3 * dem44 n + 7) none "drain" = .ok out') :
    out' 5 = 3 * (13/2) + 7 :=
  C120_datum_drain (eps := 1/2) (by norm_num) (by norm_num) (by decide +kernel) (by decide +kernel)
    (by decide +kernel) run_drain h 5 (by decide +kernel) (by decide +kernel)
example : ∃ out', fillSinks 9 (· + 3 * (1/2)) 100 g44 (fun n => 3 * dem44 n + 7) none "drain" = .ok out' :=
  ⟨fun n => 3 * out44 n + 7, by decide +kernel⟩

end Dany.Flood
