import Verif.Nodata.Drain
import Mathlib.Data.Fintype.Basic

/-!
# Concrete runs on DEMs with nodata cells: hypotheses of C138–C144 are satisfiable, C142 and C144 are refuted
-/

namespace Dany.Nodata

open Flood (rect rs rs_lt rs_mono Adj SymmNbr effective Grid Reach Outlet g44 symm44 edge44 reach44)

/-- 4 × 4 grid: nodata at an edge cell (3) and at an interior cell (10), pits at 5 and 6. -/
def demN : Fin 16 → Option ℚ :=
  ![some 9, some 9, some 9, none, some 9, some 1, some 2, some 7, some 9, some 8, none, some 9, some 9, some 9, some 9, some 5]
def priN : Fin 16 → Option ℚ :=
  ![some 9, some 9, some 9, none, some 9, some 8, some (15/2), some 7, some 9, some 8, none, some 9, some 9, some 9, some 9, some 5]
def comN : Fin 16 → Option ℚ :=
  ![some 9, some 9, some 9, none, some 9, some 7, some 7, some 7, some 9, some 8, none, some 9, some 9, some 9, some 9, some 5]
def draN : Fin 16 → Option ℚ :=
  ![some 9, some 9, some 9, none, some 9, some 8, some (15/2), some 7, some 9, some 8, some 100, some 9, some 9, some 9, some 9, some 5]

theorem run_priN : fillSinks 17 rs 100 g44 demN none "Priority" = .ok priN := by decide +kernel
theorem run_comN : fillSinks 17 rs 100 g44 demN none "complete" = .ok comN := by decide +kernel
theorem run_draN : fillSinks 17 rs 100 g44 demN none "drain" = .ok draN := by decide +kernel

theorem edges44 (n : Fin 16) : Edge.OnEdge g44.iverts n ↔ n ∈ ([0, 1, 2, 3, 4, 7, 8, 11, 12, 13, 14, 15] : List (Fin 16)) := by
  have h : Edge.edgeNodes g44.iverts = .ok [0, 1, 2, 3, 4, 7, 8, 11, 12, 13, 14, 15] := by decide +kernel
  exact ((Edge.C15_edge_nodes h).2 n).symm

-- C138
example : fillSinks 17 rs 100 g44 (fun n => some (Flood.dem44 n)) none "Priority" = .ok fun n => some (Flood.out44 n) := by
  rw [C138_heap, Flood.run_priority]; rfl
-- C139
example : (demN 10 = none ∧ priN 10 = none) ∨ ∃ x y, demN 10 = some x ∧ priN 10 = some y ∧ x ≤ y :=
  C139_nodata_kept (fun x => (rs_lt x).le) (by decide +kernel) run_priN 10
example : priN 3 = demN 3 :=
  C139_unchanged (fun x => (rs_lt x).le) (by decide +kernel) run_priN 3 (.inl ⟨rfl, (edges44 3).2 (by decide)⟩)
-- C145: a stream 0 1 2 3 on a single row; cell 1 lies 6 below its neighbours and is not filled, because cell 2 has no elevation
def demB : Fin 4 → Option ℚ := ![some 7, some 1, none, some 7]
example : fillSinks 5 rs 100 (rect 1 4) demB (some fun _ => true) "priority" = .ok demB := by decide +kernel
example (out : Fin 4 → Option ℚ) (h : fillSinks 5 rs 100 (rect 1 4) demB (some fun _ => true) "priority" = .ok out) :
    out 1 = demB 1 :=
  C145_beside_nodata (N := 4) (fun x => (rs_lt x).le) h 1 2 rfl (by unfold Adj; decide +kernel) rfl (by decide +kernel)
-- C140
example : ∃ out, ∀ fuel, 17 ≤ fuel → fillSinks fuel rs 100 g44 demN none "complete" = .ok out :=
  C140_terminates (fun x => (rs_lt x).le) (by decide +kernel) (by decide +kernel)
-- C141
example : Drains (· < ·) g44.nbr priN (fun c => Outlet g44 none c ∨ BesideNodata g44.nbr demN c) 5 :=
  C141_drains_strictly rs_lt symm44 (by decide +kernel) run_priN 5 reach44 (by decide +kernel)
example : Drains (· ≤ ·) g44.nbr comN (fun c => Outlet g44 none c ∨ BesideNodata g44.nbr demN c) 5 :=
  C141_drains (fun x => (rs_lt x).le) symm44 (by decide +kernel) run_comN 5 reach44 (by decide +kernel)
-- C143
example : ∃ y, draN 5 = some y ∧ IsLeast {v | v = 100 ∨ PathRise rs g44.nbr demN (Edge.OnEdge g44.iverts) 5 v} y :=
  C143_least (fun x => (rs_lt x).le) rs_mono (by decide +kernel) (by decide +kernel) run_draN 5 (by decide +kernel)
example : Drains (· < ·) g44.nbr draN (fun c => Edge.OnEdge g44.iverts c ∧ demN c ≠ none) 5 :=
  C143_drains (fun x => (rs_lt x).le) (fun x _ => rs_lt x) rs_mono (by decide +kernel) (by decide +kernel) run_draN 5 (y := 8)
    (by decide +kernel) (by norm_num)
example : ∃ out F, ∀ fuel, F ≤ fuel → fillSinks fuel rs 100 g44 demN none "drain" = .ok out :=
  C143_terminates (by decide +kernel) (by decide +kernel) (fun x => (rs_lt x).le) (by decide +kernel)
    (Flood.finite_orbit (1/2) 100 (by norm_num)) (by decide +kernel)
-- C144
example : draN 3 = demN 3 :=
  C144_edge_partial (fun x => (rs_lt x).le) (by decide +kernel) (by decide +kernel) run_draN 3 ((edges44 3).2 (by decide))
example : draN 10 = some 100 :=
  C144_interior (fun x => (rs_lt x).le) rs_mono (by decide +kernel) (by decide +kernel) run_draN 10 (by decide +kernel)
    (fun h => absurd ((edges44 10).1 h) (by decide))

/-- **C144 is false** of the code: a nodata cell comes out with the elevation 1e10. -/
theorem C144_refuted : ∃ (g : Grid 16) (dem out : Fin 16 → Option ℚ) (n : Fin 16),
    SymmNbr g.nbr ∧ fillSinks 17 (· + 1/2) 10000000000 g dem none "drain" = .ok out ∧ dem n = none ∧ out n = some 10000000000 :=
  ⟨g44, demN, Function.update draN 10 (some 10000000000), 10, symm44, by decide +kernel, by decide +kernel, by decide +kernel⟩

/-! ### C142 -/

def g34 : Grid 12 := rect 3 4
def demH : Fin 12 → Option ℚ :=
  ![some 8, some 5, some 6, none, some 9, some 2, some 5, some 6, some 6, some 1, some 3, some 2]
def comH : Fin 12 → Option ℚ :=
  ![some 8, some 5, some 6, none, some 9, some 5, some 5, some 6, some 6, some 1, some 3, some 2]

theorem run_comH : fillSinks 13 id 100 g34 demH none "complete" = .ok comH := by decide +kernel

theorem edge34 : Edge.OnEdge g34.iverts 9 := by
  have h : Edge.edgeNodes g34.iverts = .ok [0, 1, 2, 3, 4, 7, 8, 9, 10, 11] := by decide +kernel
  exact ((Edge.C15_edge_nodes h).2 9).1 (by decide)

theorem PathTop.ge {N : ℕ} {V : Type*} [LinearOrder V] {nbr : Fin N → List ℕ} {dem : Fin N → Option V} {S : Fin N → Prop}
    {n : Fin N} {v x : V} (h : PathTop nbr dem S n v) (hx : dem n = some x) : x ≤ v := by
  cases h with
  | seed _ h => rw [h] at hx; cases hx; exact le_rfl
  | step _ _ h => rw [h] at hx; cases hx; exact le_max_right _ _

theorem spillH {S : Fin 12 → Prop} (h : S 9) : IsSpill g34.nbr demH S 5 2 := by
  constructor
  · have := PathTop.step (nbr := g34.nbr) (dem := demH) (.seed (x := 1) h (by decide +kernel)) (n := 5) (x := 2)
      (by unfold Adj; decide +kernel) (by decide +kernel)
    rwa [show max (1 : ℚ) 2 = 2 by norm_num] at this
  · intro v hv; exact PathTop.ge hv (by decide +kernel)

-- C142: the hypotheses of the partial theorem
example : (2 : ℚ) ≤ 5 :=
  C142_at_least_partial (out := comH) (fun x => le_rfl) (by unfold SymmNbr Adj; decide +kernel) (by decide +kernel) run_comH 5
    (.step (.seed edge34) (by unfold Adj; decide +kernel)) (by decide +kernel) (spillH (.inl edge34))

/-- **C142 is false** of the code: one NaN on the grid edge upsets the order of the queue.  Cell 5 (elevation 2) touches the
edge cell 9 (elevation 1) and no nodata cell, so its spill elevation is 2, whether nodata cells are outlets or walls; yet
'complete' raises it to 5. -/
theorem C142_refuted : ∃ (g : Grid 12) (dem out : Fin 12 → Option ℚ) (n : Fin 12),
    SymmNbr g.nbr ∧ fillSinks 13 id 100 g dem none "complete" = .ok out ∧ ¬ BesideNodata g.nbr dem n ∧ out n = some 5 ∧
    IsSpill g.nbr dem (Edge.OnEdge g.iverts) n 2 ∧
    IsSpill g.nbr dem (fun c => Edge.OnEdge g.iverts c ∨ BesideNodata g.nbr dem c) n 2 :=
  ⟨g34, demH, comH, 5, by unfold SymmNbr Adj; decide +kernel, run_comH, by unfold BesideNodata Adj; decide +kernel,
    by decide +kernel, spillH edge34, spillH (.inl edge34)⟩

end Dany.Nodata
