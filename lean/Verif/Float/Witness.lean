import Verif.Float.Props
import Verif.Flood.Witness

/-!
# Concrete runs for C110–C112
-/

namespace Dany.Float

open Flood

/-- `dem44` as `float64` -/
def demD : Fin 16 → double.Num := fun n => double.store (dem44 n)

/-- the two pit cells: 6 + 2e-06, rounded -/
def outD : Fin 16 → ℚ := fun n =>
  if n = 5 ∨ n = 6 then (double.store (6 + eps6.val)).val else com44 n

theorem runD : fillSinksF 17 double .weak eps6 g44 demD none "priority" = .ok outD := by decide +kernel

example : Drains (· < ·) g44.nbr outD (Edge.OnEdge g44.iverts) 5 :=
  C110_double (by norm_num) symm44 (by decide +kernel) (by decide +kernel) runD 5 reach44
example : (demD 5).val ≤ outD 5 := (C110_never_lowers .f64 eps6_nonneg (by decide +kernel) runD 5).1
-- the sum is not exact
example : outD 5 ≠ 6 + 2 / 10 ^ 6 := by decide +kernel

theorem runDc : fillSinksF 17 double .weak eps6 g44 demD none "complete" = .ok com44 := by decide +kernel
example : IsSpill g44.nbr (fun n => (demD n).val) (Edge.OnEdge g44.iverts) 5 (com44 5) :=
  C110_spill (by decide +kernel) runDc 5 reach44

/-- `dem44`, a hundred metres higher, as `float32` -/
def demS : Fin 16 → single.Num := fun n => single.store (dem44 n + 100)
def outS : Fin 16 → ℚ := fun n => com44 n + 100

/-- The pit of cells 5 and 6 becomes flat, in both versions of NumPy. -/
theorem runS (pr : Promo) : fillSinksF 17 single pr eps6 g44 demS none "priority" = .ok outS := by
  cases pr <;> decide +kernel

theorem inner5 : ¬ Edge.OnEdge g44.iverts 5 := by
  have h : Edge.edgeNodes g44.iverts = .ok [0, 1, 2, 3, 4, 7, 8, 11, 12, 13, 14, 15] := by
    decide +kernel
  rw [← (Edge.C15_edge_nodes h).2 5]; decide

example (pr : Promo) : ¬ Drains (· < ·) g44.nbr outS (Edge.OnEdge g44.iverts) 5 :=
  (C111_refuted (by decide +kernel) symm44 (by decide +kernel) (runS pr) 5 reach44 inner5
    (by unfold Adj; decide +kernel)).2
example (pr : Promo) : fillSinksF 17 single pr eps6 g44 demS none "priority" =
    fillSinksF 17 single pr eps6 g44 demS none "complete" :=
  C111_priority_is_complete (by decide +kernel) (by decide +kernel) (by decide +kernel)
example : Drains (fun x y => x < y ∨ ∃ z : single.Num, x = z.val ∧ y = z.val ∧
    raise single .weak eps6 z = z) g44.nbr outS (Edge.OnEdge g44.iverts) 5 :=
  C110_drains_exact .f32 eps6_nonneg symm44 (by decide +kernel) (runS .weak) 5 reach44

/-- The same DEM at sea level drains: 6 + 2e-06 is rounded up to the next `float32`. -/
def demL : Fin 16 → single.Num := fun n => single.store (dem44 n)
def outL : Fin 16 → ℚ := fun n => if n = 5 ∨ n = 6 then 6 + 1 / 2 ^ 19 else com44 n
theorem runL (pr : Promo) : fillSinksF 17 single pr eps6 g44 demL none "priority" = .ok outL := by
  cases pr <;> decide +kernel
example (pr : Promo) : Drains (· < ·) g44.nbr outL (Edge.OnEdge g44.iverts) 5 :=
  C111_single_partial symm44 (by decide +kernel) (by decide +kernel) (by decide +kernel) (runL pr) 5 reach44

/-- 'drain' is not affected by the type: the pits of `demS` drain. -/
def outE : Fin 16 → ℚ := fun n =>
  if n = 5 ∨ n = 6 then (double.store (106 + eps6.val)).val else com44 n + 100
theorem runE : fillSinksF 9 single .weak eps6 g44 demS none "drain" = .ok outE := by decide +kernel
example : Drains (· < ·) g44.nbr outE (Edge.OnEdge g44.iverts) 5 :=
  C112_drain_drains .f32 (by decide +kernel) (by decide +kernel) runE 5 (by decide +kernel)
example : ∃ out F, ∀ fuel, F ≤ fuel → fillSinksF fuel single .weak eps6 g44 demS none "drain" = .ok out :=
  C112_drain_terminates .f32 eps6_nonneg (by decide +kernel) (by decide +kernel) (by decide +kernel)
    (by decide +kernel)

/-- The four roundings are not vacuous: where the default eps starts to be lost. -/
example : raise single .weak eps6 (single.store 63) ≠ single.store 63 ∧
    raise single .weak eps6 (single.store 64) = single.store 64 ∧
    raise double .weak eps6 (double.store (10 ^ 10)) ≠ double.store (10 ^ 10) ∧
    raise double .weak eps6 (double.store (2 ^ 35)) = double.store (2 ^ 35) := by decide +kernel

end Dany.Float
