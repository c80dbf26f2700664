import Verif.Pipe.Rect
import Verif.Flood.Again

/-!
# C160: concrete structured grids
-/

namespace Dany.Pipe

open Flow

/-- a structured grid, its queen neighbours in ascending order -/
def rectGrid (nrow ncol : ℕ) : Flood.Grid (nrow * ncol) where
  iverts := Edge.structuredVerts nrow ncol
  nbr c := ((List.finRange (nrow * ncol)).filter fun n =>
    n ≠ c ∧ ∃ v ∈ Edge.structuredVerts nrow ncol c, v ∈ Edge.structuredVerts nrow ncol n).map Fin.val

/-- every structured grid has queen neighbours in the sense of `Queen` -/
theorem queen_rect (nrow ncol : ℕ) : Queen (rectGrid nrow ncol) := by
  refine ⟨fun c m => ?_, fun c => ?_⟩
  · simp only [rectGrid, List.mem_map, List.mem_filter, List.mem_finRange, true_and, decide_eq_true_eq]
    exact ⟨fun ⟨n, h, e⟩ => ⟨n, e, h⟩, fun ⟨n, e, h⟩ => ⟨n, h, e⟩⟩
  · exact ((List.nodup_finRange _).filter _).map Fin.val_injective

/-- three columns, the second twice as wide, turned by the angle with cosine 3/5 -/
noncomputable def layout13 : Layout 1 3 := ⟨fun k => if k = 1 then 2 else 1, fun _ => 1, 100, 200, 3/5, 4/5, by norm_num⟩

theorem layout13_r (k : ℕ) : 1 ≤ layout13.delr k := by
  unfold layout13; dsimp only; split <;> norm_num

/-- a valley sloping down to the last cell -/
noncomputable def dem13 : Fin (1 * 3) → ℝ := ![3, 2, 1]

theorem nbrs13 : nbrs (rectGrid 1 3) 0 = [1] ∧ nbrs (rectGrid 1 3) 1 = [0, 2] ∧ nbrs (rectGrid 1 3) 2 = [1] := by
  decide +kernel

theorem dist13 : layout13.geo.dist 1 0 = 3 / 2 ∧ layout13.geo.dist 1 2 = 3 / 2 := by
  rw [dist_eq, dist_eq]
  have hc : colOf (nrow := 1) (ncol := 3) 0 = 0 ∧ colOf (nrow := 1) (ncol := 3) 1 = 1 ∧
    colOf (nrow := 1) (ncol := 3) 2 = 2 := by decide
  have hr : rowOf (nrow := 1) (ncol := 3) 0 = 0 ∧ rowOf (nrow := 1) (ncol := 3) 1 = 0 ∧
    rowOf (nrow := 1) (ncol := 3) 2 = 0 := by decide
  have h : ∀ x : ℝ, x = (3 / 2) ^ 2 → Real.sqrt x = 3 / 2 := fun x hx => by
    rw [hx]; exact Real.sqrt_sq (by norm_num)
  constructor <;> apply h <;>
    simp [Layout.u, Layout.v, middle, layout13, hc, hr, Finset.sum_range_succ] <;> norm_num

theorem val13 : dem13 0 = 3 ∧ dem13 1 = 2 ∧ dem13 2 = 1 := by simp [dem13]

theorem lo13 : ∀ n, 1 ≤ dem13 n := by
  intro n
  have : n = 0 ∨ n = 1 ∨ n = 2 := by revert n; decide
  rcases this with rfl | rfl | rfl <;> simp [val13]

theorem hi13 : ∀ n, dem13 n ≤ 3 := by
  intro n
  have : n = 0 ∨ n = 1 ∨ n = 2 := by revert n; decide
  rcases this with rfl | rfl | rfl <;> simp [val13] <;> norm_num

theorem clean13 (thr : ℝ) (hthr : thr = 1/1000000) :
    Dirs.CleanEnds layout13.geo (Dirs.filled dem13) thr (ends (rectGrid 1 3) none dem13) (nbrs (rectGrid 1 3)) := by
  subst hthr
  intro n t _ ht hs
  refine Dirs.easyTie_of_unique (t := t) fun m hs' => ?_
  have hn : n = 0 ∨ n = 1 ∨ n = 2 := (by decide : ∀ n : Fin (1 * 3), n = 0 ∨ n = 1 ∨ n = 2) n
  have hsl := hs.1
  have hsm := hs'.1
  rcases hn with rfl | rfl | rfl
  · rw [nbrs13.1] at hsl hsm
    simp only [List.mem_singleton] at hsl hsm
    rw [hsl, hsm]
  · rw [nbrs13.2.1] at hsl hsm
    -- the slope to cell 2 is downhill, the one to cell 0 is not
    have no : ∀ x, Dirs.Steepest layout13.geo (Dirs.filled dem13) (1/1000000) (nbrs (rectGrid 1 3)) 1 x → x ≠ 0 := by
      rintro x ⟨_, s, ⟨a, b, ha, hb, rfl⟩, hmin⟩ rfl
      have := hmin 2 (by rw [nbrs13.2.1]; decide) _ ⟨_, _, rfl, rfl, rfl⟩
      simp only [Dirs.filled, Option.some.injEq] at ha hb
      subst ha hb
      rw [dist13.1, dist13.2, val13.1, val13.2.1, val13.2.2] at this
      unfold Dirs.rise layout13 Layout.geo at this
      norm_num at this
    have h0 := no t hs
    have h0' := no m hs'
    simp only [List.mem_cons, List.not_mem_nil, or_false] at hsl hsm
    rw [hsl.resolve_left h0, hsm.resolve_left h0']
  · rw [nbrs13.2.2] at hsl hsm
    simp only [List.mem_singleton] at hsl hsm
    rw [hsl, hsm]

/-- filling leaves the valley as it is -/
theorem fill13 {f : Fin (1 * 3) → ℝ}
    (h : Flood.fillSinks 4 (· + (1/100 : ℝ)) 0 (rectGrid 1 3) dem13 none "priority" = .ok f) : f = dem13 := by
  have hedge : ∀ n, Edge.OnEdge (rectGrid 1 3).iverts n := fun n =>
    (onEdge_iff rfl n).2 (.inl (by have := rowOf_lt n; omega))
  exact Flood.C118_priority (fun x => by norm_num) (queen_rect 1 3).symm (by decide +kernel)
    (fun n _ => .outlet (hedge n)) h

/-- non-vacuity of `C160_chain`, including its last condition: one row of three cells of different widths -/
example : ∃ (out : Fin (1 * 3) → ℤ) (d : Fin (1 * 3) → Fin (1 * 3)),
    (∀ fuel, 41 ≤ fuel → Dirs.flowDirections fuel layout13.geo (Dirs.filled dem13) 10000000000
      (Dirs.table (nbrs (rectGrid 1 3))) (1/1000000) (ends (rectGrid 1 3) none dem13) = .ok out) ∧
    Legal out d ∧ ∀ n, ¬ OnCycle d n := by
  obtain ⟨f, out, h1, h2, h3⟩ := C160_chain (g := rectGrid 1 3) (L := layout13) (eps := 1/100) (flood := 0)
    (big := 10000000000) (thr := 1/1000000) (b := 1) (lo := 1) (hi := 3) (dem := dem13) (queen_rect 1 3) rfl (by norm_num)
    (by norm_num) one_pos layout13_r (fun _ => le_refl _) (by norm_num) lo13 hi13 (by norm_num) (by norm_num)
  have hf : f = dem13 := fill13 (h1 4 (by norm_num))
  subst hf
  obtain ⟨d, hd1, hd2, _⟩ := h3 (clean13 _ rfl)
  exact ⟨out, d, h2, hd1, hd2⟩

/-- non-vacuity of `C160_fill`: 20 × 30 cells -/
example (dem : Fin (20 * 30) → ℝ) (h : ∀ n, dem n ≤ 9000) : ∃ f, (∀ fuel, 20 * 30 + 1 ≤ fuel →
    Flood.fillSinks fuel (· + 1/500000) 0 (rectGrid 20 30) dem none "priority" = .ok f) ∧ ∀ n, dem n ≤ f n := by
  obtain ⟨f, h1, h2⟩ := C160_fill (flood := 0) (eps := 1/500000) (queen_rect 20 30) rfl (by norm_num) (by norm_num) h
  exact ⟨f, h1, fun n => (h2 n).1⟩

end Dany.Pipe
