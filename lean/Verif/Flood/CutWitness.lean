import Verif.Flood.Cut
import Verif.Flood.LocalWitness

/-!
# C210: concrete runs

The grid of 3 × 5 cells and its first four columns.
-/

namespace Dany.Flood

def fourCols : Fin 12 → Fin 15 := fun a => ⟨a.val / 4 * 5 + a.val % 4, by omega⟩

theorem cut34 : Cut fourCols g35 g34 := by
  have e : ∀ a : Fin 12, a ≠ 5 → a ≠ 6 → Edge.OnEdge g34.iverts a := by
    obtain ⟨l, hl⟩ := Edge.C15_total (iverts := g34.iverts) (by decide)
    intro a h1 h2
    refine ((Edge.C15_edge_nodes hl).2 a).1 ?_
    have hl' : Edge.edgeNodes g34.iverts = .ok [0, 1, 2, 3, 4, 7, 8, 9, 10, 11] := by decide +kernel
    rw [hl] at hl'
    cases hl'
    revert a; decide
  have inner : ∀ n : Fin 15, n = 6 ∨ n = 7 → ¬ Edge.OnEdge g35.iverts n := by
    obtain ⟨l, hl⟩ := Edge.C15_total (iverts := g35.iverts) (by decide)
    intro n
    have := (Edge.C15_edge_nodes hl).2 n
    have hl' : Edge.edgeNodes g35.iverts = .ok [0, 1, 2, 3, 4, 5, 9, 10, 11, 12, 13, 14] := by decide +kernel
    rw [hl] at hl'
    cases hl'
    rw [← this]
    clear this
    revert n; decide
  refine ⟨?_, ?_, ?_⟩
  · unfold Adj; decide +kernel
  · intro a n h hno
    refine e a ?_ ?_ <;> rintro rfl <;> revert h hno <;> revert n <;> unfold Adj <;> decide +kernel
  · intro a h
    refine e a ?_ ?_ <;> rintro rfl
    · exact absurd h (inner _ (.inl (by decide)))
    · exact absurd h (inner _ (.inr (by decide)))

/-- a hollow behind a ridge: cell 6 spills at 3, to the west -/
def dCut : Fin 15 → ℚ := ![5, 5, 5, 5, 5, 3, 1, 2, 8, 4, 5, 5, 5, 5, 5]
theorem runCut : fillSinks 16 (· + 1) 100 g35 dCut none "complete" =
    .ok ![5, 5, 5, 5, 5, 3, 3, 3, 8, 4, 5, 5, 5, 5, 5] := by decide +kernel
theorem runCutd : fillSinks 20 (· + 1) 100 g35 dCut none "drain" =
    .ok ![5, 5, 5, 5, 5, 3, 4, 5, 8, 4, 5, 5, 5, 5, 5] := by decide +kernel

private theorem cutStep {n : Fin 15} (m : Fin 15) (hm : Edge.OnEdge g35.iverts m) (h : n.val ∈ g35.nbr m) :
    Reach g35.nbr (Edge.OnEdge g35.iverts) n := .step (.seed hm) h

private theorem cutSeed (n : Fin 15) (hn : n ∈ ([0, 1, 2, 3, 4, 5, 9, 10, 11, 12, 13, 14] : List (Fin 15))) :
    Edge.OnEdge g35.iverts n := by
  obtain ⟨l, hl⟩ := Edge.C15_total (iverts := g35.iverts) (by decide)
  have := (Edge.C15_edge_nodes hl).2 n
  have hl' : Edge.edgeNodes g35.iverts = .ok [0, 1, 2, 3, 4, 5, 9, 10, 11, 12, 13, 14] := by decide +kernel
  rw [hl] at hl'
  cases hl'
  exact this.1 hn

theorem cutReach (n : Fin 15) : Reach g35.nbr (Edge.OnEdge g35.iverts) n := by
  have : ∀ n : Fin 15, ∃ m ∈ ([0, 1, 2, 3, 4, 5, 9, 10, 11, 12, 13, 14] : List (Fin 15)), n.val ∈ g35.nbr m := by
    decide +kernel
  obtain ⟨m, hm, h⟩ := this n
  exact cutStep m (cutSeed m hm) h

/-- the edge of the window that is not on the edge of the whole: cell 7 -/
private theorem cutInner {b : Fin 12} (h : Edge.OnEdge g34.iverts b) (h' : ¬ Edge.OnEdge g35.iverts (fourCols b)) :
    b = 7 := by
  obtain ⟨l, hl⟩ := Edge.C15_total (iverts := g34.iverts) (by decide)
  have := ((Edge.C15_edge_nodes hl).2 b).2 h
  have hl' : Edge.edgeNodes g34.iverts = .ok [0, 1, 2, 3, 4, 7, 8, 9, 10, 11] := by decide +kernel
  rw [hl] at hl'
  cases hl'
  have h2 : fourCols b ∉ ([0, 1, 2, 3, 4, 5, 9, 10, 11, 12, 13, 14] : List (Fin 15)) := fun hm => h' (cutSeed _ hm)
  clear h h'
  revert this h2; revert b; decide

-- the border (cell 8, 8 high) is above the fill of cell 6
example {o : Fin 12 → ℚ} (h : fillSinks 16 (· + 1) 100 g34 (fun a => dCut (fourCols a)) none "complete" = .ok o) : o 5 = 3 :=
  (C210_complete cut34 symm35 (fun _ => rfl) (by decide +kernel) runCut h (a := 5) (cutReach _)).2 fun b h1 h2 => by
    obtain rfl := cutInner h1 h2
    decide +kernel
example {o : Fin 12 → ℚ} (h : fillSinks 20 (· + 1) 100 g34 (fun a => dCut (fourCols a)) none "drain" = .ok o) : o 5 = 4 :=
  (C210_drain cut34 (fun _ => rfl) (fun x => by linarith) (fun _ _ h => by linarith) (by decide +kernel)
    (by decide +kernel) runCutd h 5).2 fun b h1 h2 => by
    obtain rfl := cutInner h1 h2
    decide +kernel
-- the runs exist
example : fillSinks 16 (· + 1) 100 g34 (fun a => dCut (fourCols a)) none "complete" =
    .ok ![5, 5, 5, 5, 3, 3, 3, 8, 5, 5, 5, 5] ∧
  fillSinks 20 (· + 1) 100 g34 (fun a => dCut (fourCols a)) none "drain" =
    .ok ![5, 5, 5, 5, 3, 4, 5, 8, 5, 5, 5, 5] := by constructor <;> decide +kernel
-- the filled surface cut afterwards
example {o : Fin 12 → ℚ} (h : fillSinks 16 (· + 1) 100 g34
    (fun a => (![5, 5, 5, 5, 5, 3, 3, 3, 8, 4, 5, 5, 5, 5, 5] : Fin 15 → ℚ) (fourCols a)) none "complete" = .ok o) : o 5 = 3 :=
  C210_filled cut34 symm35 (fun x => by linarith) (fun _ _ h => by linarith) (fun _ x => by linarith)
    (fun h => absurd h (by decide +kernel)) (fun _ a => cutReach _) runCut h 5

-- with cell 5 as the stream (the first cell of the middle row), all cells outside the window are higher than the fill of cell 6
theorem runCutm : fillSinks 16 (· + 1) 100 g35 dCut (some fun n => n = 5) "complete" =
    .ok ![5, 5, 5, 5, 5, 3, 3, 3, 8, 5, 5, 5, 5, 5, 5] := by decide +kernel
theorem runCutm' : fillSinks 16 (· + 1) 100 g34 (fun a => dCut (fourCols a)) (some fun a => fourCols a = 5) "complete" =
    .ok ![5, 5, 5, 5, 3, 3, 3, 8, 5, 5, 5, 5] := by decide +kernel
example : (![5, 5, 5, 5, 3, 3, 3, 8, 5, 5, 5, 5] : Fin 12 → ℚ) 5 =
    (![5, 5, 5, 5, 5, 3, 3, 3, 8, 5, 5, 5, 5, 5, 5] : Fin 15 → ℚ) (fourCols 5) :=
  (C210_mask cut34 (by decide) (fun _ => rfl) (fun x => by linarith) (by decide +kernel) runCutm runCutm'
    (by decide +kernel) (by decide +kernel) (a := 5)
    (.step (c := 4) (.seed (by decide)) (by unfold Adj; decide +kernel))).2 (by decide +kernel)

/-- **C210**, 'priority': the increments are needed.  The whole leaves cell 6 (5 of the window) at 5; filling the window alone
raises it to 10. -/
theorem C210_priority_differs : ∃ (ι : Fin 12 → Fin 15) (g : Grid 15) (g' : Grid 12) (dem out : Fin 15 → ℚ)
    (out' : Fin 12 → ℚ), Cut ι g g' ∧ SymmNbr g.nbr ∧ (∀ n, Reach g.nbr (Edge.OnEdge g.iverts) n) ∧
    fillSinks 16 (· + 3) 100 g dem none "priority" = .ok out ∧
    fillSinks 16 (· + 3) 100 g' (fun a => dem (ι a)) none "priority" = .ok out' ∧ out (ι 5) = 5 ∧ out' 5 = 10 :=
  ⟨fourCols, g35, g34, ![9, 9, 9, 9, 9, 9, 5, 2, 4, 9, 9, 4, 9, 9, 9], ![9, 9, 9, 9, 9, 9, 5, 7, 10, 9, 9, 4, 9, 9, 9],
    ![9, 9, 9, 9, 9, 10, 7, 4, 9, 4, 9, 9], cut34, symm35, cutReach, by decide +kernel, by decide +kernel,
    by decide +kernel, by decide +kernel⟩

end Dany.Flood
