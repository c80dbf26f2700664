import Verif.Flood.Mask
import Verif.Flood.LocalWitness

/-!
# Concrete runs for C192 and C193
-/

namespace Dany.Flood

/-- a stream down the right edge of the 3 × 5 grid -/
def m35 : Fin 15 → Bool := fun n => n = 4 ∨ n = 9 ∨ n = 14
def o35 : Fin 15 → ℚ := ![8, 9, 9, 4, 3, 9, 8, 8, 4, 9, 9, 9, 9, 9, 9]

theorem run35m : fillSinks 16 (· + 1) 100 g35 d35 (some m35) "complete" = .ok o35 := by decide +kernel

theorem pit35 : ∀ c, m35 c = true → 2 ≤ ((inRange 15 (g35.nbr c)).filter (fun k => m35 k)).length →
    ∃ k, Adj g35.nbr c k ∧ m35 k = true ∧ d35 k ≤ d35 c := by unfold Adj; decide +kernel

theorem reach35 : Reach g35.nbr (fun k => m35 k = true) 6 := by
  have a : ∀ {x y : Fin 15}, y.val ∈ g35.nbr x → Adj g35.nbr x y := fun h => h
  exact ((((Reach.seed (s := 4) (by decide)).step (n := 3) (a (by decide +kernel))).step (n := 7)
    (a (by decide +kernel))).step (n := 6) (a (by decide +kernel)))

/-- the hollow behind the ridge is filled to the ridge: its water leaves by the stream, though the left edge is lower -/
example : IsSpill g35.nbr d35 (fun k => m35 k = true) 6 8 :=
  C192_spill (fun x => by linarith) (by decide +kernel) run35m (C192_kept pit35 run35m) 6 reach35

example {o : Fin 15 → ℚ} (h : fillSinks 16 (· + 3) 100 g35 d35 (some m35) "priority" = .ok o) :
    ∃ w, IsSpill g35.nbr d35 (fun k => m35 k = true) 6 w ∧ w ≤ o 6 ∧ o 6 ≤ (· + 3)^[15] w :=
  C192_overfill (fun x => by linarith) (fun _ _ h => by simpa using h) (by decide +kernel) h (C192_kept pit35 h) 6 reach35

example : fillSinks 16 (· + 3) 100 g35 d35 (some m35) "priority" =
    .ok ![14, 9, 9, 4, 3, 14, 11, 8, 4, 9, 14, 9, 9, 9, 9] := by decide +kernel

theorem edge35 (n : Fin 15) (h : m35 n = true) : Edge.OnEdge g35.iverts n := by
  have e : Edge.edgeNodes g35.iverts = .ok [0, 1, 2, 3, 4, 5, 9, 10, 11, 12, 13, 14] := by decide +kernel
  refine ((Edge.C15_edge_nodes e).2 n).1 ?_
  revert n
  decide +kernel

/-- the whole edge as outlet instead of the stream only: the hollow is filled to 2, not to 8 -/
example : (2 : ℚ) ≤ 8 :=
  C193_outlets (mask := some m35) (mask' := none) (n := 6) (fun x => by linarith) (by decide +kernel)
    edge35 run35m run35c
    (fun m hm => by cases hm; exact C192_kept pit35 run35m) (fun m hm => by cases hm) reach35

/-- **C192**: the condition is needed.  With the stream cell 9 at 1, below both stream cells beside it, the fill lifts it
to 3, above the stream's own elevation. -/
theorem C192_lifted : ∃ (g : Grid 15) (m : Fin 15 → Bool) (dem out : Fin 15 → ℚ),
    fillSinks 16 (· + 1) 100 g dem (some m) "complete" = .ok out ∧ m 9 = true ∧ dem 9 = 1 ∧ out 9 = 3 ∧
    ¬ IsSpill g.nbr dem (fun k => m k = true) 9 (out 9) := by
  refine ⟨g35, m35, ![2, 9, 9, 4, 3, 9, 1, 8, 4, 1, 9, 9, 9, 9, 9], ![8, 9, 9, 4, 3, 9, 8, 8, 4, 3, 9, 9, 9, 9, 9],
    by decide +kernel, by decide, by decide +kernel, by decide +kernel, fun h => ?_⟩
  have := h.2 (PathTop.seed (s := 9) (by decide))
  revert this
  decide +kernel

end Dany.Flood
