import Verif.Flood.Compare
import Verif.Flood.Witness
import Mathlib.Data.Fin.Rev

/-!
# Concrete runs for C121–C124
-/

namespace Dany.Flood

-- C121
example : com44 5 ≤ out44 5 := C121_methods (by decide +kernel) (fun x => (rs_lt x).le) rs_mono symm44
  (by decide +kernel) run_complete run_priority 5 (by decide +kernel)
example : com44 6 ≤ out44 6 := C121_methods (by decide +kernel) (fun x => (rs_lt x).le) rs_mono symm44
  (by decide +kernel) run_complete run_drain 6 (by decide +kernel)
example {z : Fin 16 → ℚ} (hz : ∀ n, dem44 n ≤ z n) (hd : Drains (· ≤ ·) g44.nbr z (Edge.OnEdge g44.iverts) 5) :
    6 ≤ z 5 := C121_least (by decide +kernel) symm44 run_complete hz hd
-- `out44` is such a surface
example : Drains (· ≤ ·) g44.nbr out44 (Edge.OnEdge g44.iverts) 5 :=
  C03_complete_drains (fun x => (rs_lt x).le) symm44 (by decide +kernel) run_priority 5 reach44

-- C122: cell 5 is in a hollow, cell 10 is not
example : ¬ Drains (fun x _ => x ≤ dem44 5) g44.nbr dem44 (Edge.OnEdge g44.iverts) 5 := by
  rw [← C122_complete (fun x => (rs_lt x).le) (by decide +kernel) symm44 run_complete 5 reach44]
  decide +kernel
theorem ten : Drains (fun x _ => x ≤ dem44 10) g44.nbr dem44 (Edge.OnEdge g44.iverts) 10 :=
  .step (c := 15) (by unfold Adj; decide +kernel) (by decide +kernel) (.outlet edge44)
example : out44 10 ≤ rs^[16] (dem44 10) :=
  C122_priority (fun x => (rs_lt x).le) rs_mono (by decide +kernel) symm44 run_priority 10 ten

def g34 : Grid 12 := rect 3 4
theorem symm34 : SymmNbr g34.nbr := by unfold SymmNbr Adj; decide +kernel
theorem edge34 : Edge.edgeNodes g34.iverts = .ok [0, 1, 2, 3, 4, 7, 8, 9, 10, 11] := by decide +kernel

/-- **C122**, 'priority': cell 5 drops by 2 to the corner and is raised to 7, because the hollow
beside it is filled first and eps is added once more. -/
theorem C122_priority_raises : ∃ (g : Grid 12) (dem out : Fin 12 → ℚ), SymmNbr g.nbr ∧
    fillSinks 13 (· + 3) 100 g dem none "priority" = .ok out ∧
    Drains (fun x y => x ≤ dem 5 ∧ x < y) g.nbr dem (Edge.OnEdge g.iverts) 5 ∧ dem 5 = 4 ∧ out 5 = 7 := by
  refine ⟨g34, ![2, 9, 9, 4, 9, 4, 0, 1, 9, 9, 1, 9], ![2, 9, 9, 4, 9, 7, 4, 1, 9, 9, 1, 9], symm34,
    by decide +kernel, .step (c := 0) (by unfold Adj; decide +kernel) (by decide +kernel)
      (.outlet (((Edge.C15_edge_nodes edge34).2 0).1 (by decide))), by decide +kernel, by decide +kernel⟩

/-- The 3 × 4 grid numbered backwards. -/
def g34r : Grid 12 := ⟨fun n => g34.iverts n.rev, fun n => (g34.nbr n.rev).map fun k => 11 - k⟩

theorem renum34 : Renumbered Fin.revPerm g34 g34r where
  edge := edge_of_verts fun n => by simp [g34r]
  adj := by unfold Adj; decide +kernel

/-- **C123**, 'priority': the hollow is filled to 6 or to 4, depending on the numbers of its two
outlets of equal elevation. -/
theorem C123_priority_differs : ∃ (g g' : Grid 12) (σ : Fin 12 ≃ Fin 12) (dem dem' out out' : Fin 12 → ℚ),
    Renumbered σ g g' ∧ (∀ n, g'.iverts (σ n) = g.iverts n) ∧ SymmNbr g.nbr ∧ (∀ n, dem' (σ n) = dem n) ∧
    fillSinks 13 (· + 2) 100 g dem none "priority" = .ok out ∧
    fillSinks 13 (· + 2) 100 g' dem' none "priority" = .ok out' ∧ out 6 = 6 ∧ out' (σ 6) = 4 :=
  ⟨g34, g34r, Fin.revPerm, ![2, 9, 2, 6, 9, 2, 1, 9, 4, 9, 6, 9], ![9, 6, 9, 4, 9, 1, 2, 9, 6, 2, 9, 2],
    ![2, 9, 2, 6, 9, 4, 6, 9, 4, 9, 6, 9], ![9, 6, 9, 4, 9, 4, 4, 9, 6, 2, 9, 2], renum34, fun n => by simp [g34r], symm34,
    by decide +kernel, by decide +kernel, by decide +kernel, by decide +kernel, by decide +kernel⟩

def d34 : Fin 12 → ℚ := ![2, 9, 2, 6, 9, 2, 1, 9, 4, 9, 6, 9]
def d34r : Fin 12 → ℚ := ![9, 6, 9, 4, 9, 1, 2, 9, 6, 2, 9, 2]
example : ∀ n, d34r (Fin.revPerm n) = d34 n := by decide +kernel
example {o o' : Fin 12 → ℚ} (h : fillSinks 13 (· + 2) 100 g34 d34 none "complete" = .ok o)
    (h' : fillSinks 13 (· + 2) 100 g34r d34r none "complete" = .ok o') : o' 5 = o 6 :=
  C123_complete renum34 (fun x => by linarith) (by decide +kernel) (by decide +kernel) h h' 6
example {o o' : Fin 12 → ℚ} (h : fillSinks 13 (· + 2) 100 g34 d34 none "drain" = .ok o)
    (h' : fillSinks 13 (· + 2) 100 g34r d34r none "drain" = .ok o') : o' 5 = o 6 :=
  C123_drain renum34 (fun x => by linarith) (fun _ _ h => by linarith) (by decide +kernel)
    (by decide +kernel) (by decide +kernel) h h' 6
example {o o' : Fin 12 → ℚ} (h : fillSinks 13 (· + 2) 100 g34 d34 none "priority" = .ok o)
    (h' : fillSinks 13 (· + 2) 100 g34r d34r none "priority" = .ok o') : o' 5 ≤ (· + 2)^[12] (o 6) :=
  (C123_priority renum34 (fun x => by linarith) (fun _ _ h => by linarith) (by decide +kernel)
    (by decide +kernel) h h' 6).1
-- the runs exist
example : ∃ o, fillSinks 13 (· + 2) 100 g34 d34 none "complete" = .ok o :=
  ⟨![2, 9, 2, 6, 9, 2, 2, 9, 4, 9, 6, 9], by decide +kernel⟩
example : ∃ o, fillSinks 13 (· + 2) 100 g34r d34r none "complete" = .ok o :=
  ⟨![9, 6, 9, 4, 9, 2, 2, 9, 6, 2, 9, 2], by decide +kernel⟩
example : ∃ o, fillSinks 13 (· + 2) 100 g34 d34 none "drain" = .ok o :=
  ⟨![2, 9, 2, 6, 9, 4, 4, 9, 4, 9, 6, 9], by decide +kernel⟩
example : ∃ o, fillSinks 13 (· + 2) 100 g34r d34r none "drain" = .ok o :=
  ⟨![9, 6, 9, 4, 9, 4, 4, 9, 6, 2, 9, 2], by decide +kernel⟩

/-- **C124**, 'priority': raising the DEM at cell 6 from 2 to 5 lowers the result there from 6
to 5. -/
theorem C124_priority_lowers : ∃ (g : Grid 12) (dem dem' out out' : Fin 12 → ℚ), SymmNbr g.nbr ∧
    (∀ n, dem n ≤ dem' n) ∧ fillSinks 13 (· + 2) 100 g dem none "priority" = .ok out ∧
    fillSinks 13 (· + 2) 100 g dem' none "priority" = .ok out' ∧ out 6 = 6 ∧ out' 6 = 5 :=
  ⟨g34, ![9, 6, 9, 9, 9, 4, 2, 9, 9, 4, 9, 4], ![9, 6, 9, 9, 9, 4, 5, 9, 9, 4, 9, 4],
    ![9, 6, 9, 9, 9, 6, 6, 9, 9, 4, 9, 4], ![9, 6, 9, 9, 9, 6, 5, 9, 9, 4, 9, 4], symm34,
    by decide +kernel, by decide +kernel, by decide +kernel, by decide +kernel, by decide +kernel⟩

def e34 : Fin 12 → ℚ := ![9, 6, 9, 9, 9, 4, 2, 9, 9, 4, 9, 4]
def e34' : Fin 12 → ℚ := ![9, 6, 9, 9, 9, 4, 5, 9, 9, 4, 9, 4]
example {o o' : Fin 12 → ℚ} (h : fillSinks 13 (· + 2) 100 g34 e34 none "drain" = .ok o)
    (h' : fillSinks 13 (· + 2) 100 g34 e34' none "drain" = .ok o') : o 6 ≤ o' 6 :=
  C124_drain (fun x => by linarith) (fun _ _ h => by linarith) (by decide +kernel)
    (by decide +kernel) (by decide +kernel) h h' 6
example {o o' : Fin 12 → ℚ} (h : fillSinks 13 (· + 2) 100 g34 e34 none "priority" = .ok o)
    (h' : fillSinks 13 (· + 2) 100 g34 e34' none "priority" = .ok o') : o 6 ≤ (· + 2)^[12] (o' 6) :=
  C124_priority (fun x => by linarith) (fun _ _ h => by linarith) (by decide +kernel)
    (by decide +kernel) h h' 6
example : ∃ o, fillSinks 13 (· + 2) 100 g34 e34 none "drain" = .ok o :=
  ⟨![9, 6, 9, 9, 9, 6, 6, 9, 9, 4, 9, 4], by decide +kernel⟩
example : ∃ o, fillSinks 13 (· + 2) 100 g34 e34' none "drain" = .ok o :=
  ⟨![9, 6, 9, 9, 9, 6, 6, 9, 9, 4, 9, 4], by decide +kernel⟩

def g37 : Grid 21 := rect 3 7
def d37 : Fin 21 → ℚ := ![19, 19, 10, 19, 12, 19, 9, 5, 1, 9, 6, 2, 4, 19, 9, 19, 19, 19, 19, 19, 11]

/-- **C125**, 'priority': with eps = 3 the result at cell 10 is 18, with eps = 4 it is 17. -/
theorem C125_priority_lowers : ∃ (g : Grid 21) (dem out out' : Fin 21 → ℚ), SymmNbr g.nbr ∧
    fillSinks 22 (· + 3) 100 g dem none "priority" = .ok out ∧
    fillSinks 22 (· + 4) 100 g dem none "priority" = .ok out' ∧ out 10 = 18 ∧ out' 10 = 17 :=
  ⟨g37, d37, ![19, 19, 10, 19, 12, 19, 9, 5, 8, 9, 18, 15, 12, 19, 9, 19, 19, 19, 19, 19, 11],
    ![19, 19, 10, 19, 12, 19, 9, 5, 9, 13, 17, 21, 25, 19, 9, 19, 19, 19, 19, 19, 11],
    by unfold SymmNbr Adj; decide +kernel, by decide +kernel, by decide +kernel, by decide +kernel,
    by decide +kernel⟩

example {o o' : Fin 12 → ℚ} (h : fillSinks 13 (· + 2) 100 g34 e34 none "drain" = .ok o)
    (h' : fillSinks 13 (· + 3) 100 g34 e34 none "drain" = .ok o') : o 6 ≤ o' 6 :=
  C125_drain (fun x => by linarith) (fun _ _ h => by linarith) (fun _ _ h => by linarith)
    (fun x => by linarith) (by decide +kernel) (by decide +kernel) h h' 6
example : ∃ o, fillSinks 13 (· + 3) 100 g34 e34 none "drain" = .ok o :=
  ⟨![9, 6, 9, 9, 9, 7, 7, 9, 9, 4, 9, 4], by decide +kernel⟩
example {o o' : Fin 21 → ℚ} (h : fillSinks 22 (· + 3) 100 g37 d37 none "priority" = .ok o)
    (h' : fillSinks 22 (· + 4) 100 g37 d37 none "priority" = .ok o') : o 10 ≤ (· + 3)^[21] (o' 10) :=
  C125_priority (fun x => by linarith) (fun _ _ h => by linarith) (fun _ _ h => by linarith)
    (fun x => by linarith) (by decide +kernel) h h' 10

end Dany.Flood
