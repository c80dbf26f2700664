import Verif.Pipe.Window
import Verif.Pipe.RectWitness
import Verif.Flood.Cut

/-!
# C209, C210: rectangular windows of structured grids
-/

namespace Dany.Pipe

open Flow

variable {nrow ncol nr nc r0 c0 : ℕ} {ι : Fin (nr * nc) → Fin (nrow * ncol)} {g : Flood.Grid (nrow * ncol)}
  {g' : Flood.Grid (nr * nc)}

/-- A window of `nr` rows and `nc` columns whose upper left cell is in row `r0` and column `c0` of the whole. -/
structure Sub (ι : Fin (nr * nc) → Fin (nrow * ncol)) (r0 c0 : ℕ) : Prop where
  row : ∀ a, rowOf (ι a) = r0 + rowOf a
  col : ∀ a, colOf (ι a) = c0 + colOf a

theorem sub_exists (hr : r0 + nr ≤ nrow) (hc : c0 + nc ≤ ncol) : ∃ ι : Fin (nr * nc) → Fin (nrow * ncol), Sub ι r0 c0 := by
  have : ∀ a : Fin (nr * nc), ∃ n : Fin (nrow * ncol), rowOf n = r0 + rowOf a ∧ colOf n = c0 + colOf a := fun a =>
    cell_mk (by have := rowOf_lt a; omega) (by have := colOf_lt a; omega)
  choose ι h using this
  exact ⟨ι, fun a => (h a).1, fun a => (h a).2⟩

theorem Sub.inj (hι : Sub ι r0 c0) : Function.Injective ι := fun a b h =>
  cell_ext (by have := hι.row a; have := hι.row b; rw [h] at *; omega) (by have := hι.col a; have := hι.col b; rw [h] at *; omega)

/-- a cell in the rows and columns of the window is in the window -/
theorem Sub.inside (hι : Sub ι r0 c0) {n : Fin (nrow * ncol)} (h1 : r0 ≤ rowOf n) (h2 : rowOf n < r0 + nr)
    (h3 : c0 ≤ colOf n) (h4 : colOf n < c0 + nc) : ∃ a, ι a = n := by
  obtain ⟨a, ha, hb⟩ := cell_mk (nrow := nr) (ncol := nc) (y := rowOf n - r0) (x := colOf n - c0) (by omega) (by omega)
  refine ⟨a, cell_ext ?_ ?_⟩
  · rw [hι.row, ha]; omega
  · rw [hι.col, hb]; omega

/-- Cell `a` of the window has a neighbour in the whole that is not in the window. -/
def AtBorder (nrow ncol r0 c0 : ℕ) {nr nc : ℕ} (a : Fin (nr * nc)) : Prop :=
  (rowOf a = 0 ∧ r0 ≠ 0) ∨ (rowOf a + 1 = nr ∧ r0 + nr ≠ nrow) ∨ (colOf a = 0 ∧ c0 ≠ 0) ∨
    (colOf a + 1 = nc ∧ c0 + nc ≠ ncol)

theorem Sub.beside (hι : Sub ι r0 c0) (hq : Queen g) (hv : g.iverts = Edge.structuredVerts nrow ncol) {a : Fin (nr * nc)}
    {n : Fin (nrow * ncol)} (ha : Flood.Adj g.nbr (ι a) n) (hno : ∀ b, ι b ≠ n) : AtBorder nrow ncol r0 c0 a := by
  obtain ⟨-, h1, h2, h3, h4⟩ := (C160_neighbours hq hv _ _).1 ha
  rw [hι.row] at h1 h2
  rw [hι.col] at h3 h4
  have hlr := rowOf_lt n
  have hlc := colOf_lt n
  have ar := rowOf_lt a
  have ac := colOf_lt a
  have : ¬ (r0 ≤ rowOf n ∧ rowOf n < r0 + nr ∧ c0 ≤ colOf n ∧ colOf n < c0 + nc) := by
    rintro ⟨k1, k2, k3, k4⟩
    obtain ⟨b, hb⟩ := hι.inside k1 k2 k3 k4
    exact hno b hb
  unfold AtBorder
  omega

/-- **C210**: a rectangular window of a structured grid is a part in the sense of the theorems on filling. -/
theorem C210_structured (hι : Sub ι r0 c0) (hq : Queen g) (hv : g.iverts = Edge.structuredVerts nrow ncol)
    (hq' : Queen g') (hv' : g'.iverts = Edge.structuredVerts nr nc) : Flood.Cut ι g g' where
  adj a b := by
    rw [C160_neighbours hq' hv', C160_neighbours hq hv, hι.row, hι.row, hι.col, hι.col, hι.inj.ne_iff]
    refine and_congr_right fun _ => ?_
    omega
  border a n ha hno := by
    rw [onEdge_iff hv']
    rcases hι.beside hq hv ha hno with h | h | h | h
    · exact .inl h.1
    · exact .inr (.inl h.1)
    · exact .inr (.inr (.inl h.1))
    · exact .inr (.inr (.inr h.1))
  edge a h := by
    rw [onEdge_iff hv'] at *
    rw [onEdge_iff hv, hι.row, hι.col] at h
    have ar := rowOf_lt a
    have ac := colOf_lt a
    -- the last row of the window is not beyond that of the whole
    obtain ⟨x, hx, hx'⟩ := cell_mk (nrow := nr) (ncol := nc) (y := nr - 1) (x := nc - 1) (by omega) (by omega)
    have h1 := rowOf_lt (ι x)
    have h2 := colOf_lt (ι x)
    rw [hι.row] at h1
    rw [hι.col] at h2
    omega

variable {L : Layout nrow ncol} {L' : Layout nr nc}

private theorem middle_sub {w w' : ℕ → ℝ} {k0 n : ℕ} (hw : ∀ k < n, w' k = w (k0 + k)) {i : ℕ} (hi : i < n) :
    middle w (k0 + i) = (∑ k ∈ Finset.range k0, w k) + middle w' i := by
  unfold middle
  rw [Finset.sum_range_add, hw i hi, add_assoc]
  congr 2
  exact Finset.sum_congr rfl fun k hk => (hw k (by rw [Finset.mem_range] at hk; omega)).symm

/-- the distances in the window, wherever it is placed -/
theorem sub_dist (hι : Sub ι r0 c0) (hr : ∀ k < nc, L'.delr k = L.delr (c0 + k)) (hc : ∀ k < nr, L'.delc k = L.delc (r0 + k))
    (a b : Fin (nr * nc)) : L'.geo.dist a b = L.geo.dist (ι a) (ι b) := by
  rw [dist_eq, dist_eq]
  have h1 : (L'.u b - L'.u a) ^ 2 = (L.u (ι b) - L.u (ι a)) ^ 2 := by
    unfold Layout.u
    rw [hι.col, hι.col, middle_sub hr (colOf_lt a), middle_sub hr (colOf_lt b)]
    ring
  have h2 : (L'.v b - L'.v a) ^ 2 = (L.v (ι b) - L.v (ι a)) ^ 2 := by
    unfold Layout.v
    rw [hι.row, hι.row, middle_sub hc (rowOf_lt a), middle_sub hc (rowOf_lt b)]
    ring
  rw [h1, h2]

/-- **C209**: a rectangular window of a structured grid, with the cells named that have neighbours outside it, is a window
in the sense of the theorems on flow directions. -/
theorem C209_structured (hι : Sub ι r0 c0) (hq : Queen g) (hv : g.iverts = Edge.structuredVerts nrow ncol)
    (hq' : Queen g') (hv' : g'.iverts = Edge.structuredVerts nr nc) (hr : ∀ k < nc, L'.delr k = L.delr (c0 + k))
    (hc : ∀ k < nr, L'.delc k = L.delc (r0 + k)) {dem : Fin (nrow * ncol) → Option ℝ} {terminals terminals' : List ℤ}
    (hborder : ∀ a : Fin (nr * nc), AtBorder nrow ncol r0 c0 a → ((a : ℕ) : ℤ) ∈ terminals')
    (hnamed : ∀ a, ((ι a : ℕ) : ℤ) ∈ terminals → ((a : ℕ) : ℤ) ∈ terminals') :
    Window ι L.geo L'.geo dem (fun a => dem (ι a)) (nbrs g) (nbrs g') terminals terminals' where
  inj := hι.inj
  rnd := rfl
  dist := sub_dist hι hr hc
  elev _ := rfl
  adj a b := by
    have := (C210_structured hι hq hv hq' hv').adj a b
    exact mem_inRange.trans (this.trans mem_inRange.symm)
  border a x hx hno := hborder a (hι.beside hq hv (mem_inRange.1 hx) hno)
  named := hnamed

/-- the layout of the window, where the window lies -/
noncomputable def Layout.part (L : Layout nrow ncol) (nr nc r0 c0 : ℕ) : Layout nr nc :=
  ⟨fun k => L.delr (c0 + k), fun k => L.delc (r0 + k), L.x0, L.y0, L.c, L.s, L.unit⟩

example (hr : r0 + nr ≤ nrow) (hc : c0 + nc ≤ ncol) (dem : Fin (nrow * ncol) → Option ℝ) :
    ∃ ι : Fin (nr * nc) → Fin (nrow * ncol), Sub ι r0 c0 ∧
      Window ι L.geo (L.part nr nc r0 c0).geo dem (fun a => dem (ι a)) (nbrs (rectGrid nrow ncol)) (nbrs (rectGrid nr nc))
        [] ((List.finRange (nr * nc)).map fun a : Fin (nr * nc) => ((a : ℕ) : ℤ)) := by
  obtain ⟨ι, hι⟩ := sub_exists hr hc
  refine ⟨ι, hι, C209_structured hι (queen_rect _ _) rfl (queen_rect _ _) rfl (fun _ _ => rfl) (fun _ _ => rfl)
    (fun a _ => List.mem_map.2 ⟨a, List.mem_finRange a, rfl⟩) (fun a h => by simp at h)⟩

section Fill

variable {fuel fuel' : ℕ} {eps flood : ℝ} {dem f : Fin (nrow * ncol) → ℝ} {f' : Fin (nr * nc) → ℝ} {method : String}

private theorem noMask {N : ℕ} (x : Fin N → Bool) : (none : Option (Fin N → Bool)) ≠ some x := by simp

/-- **C210** on structured grids: filling a rectangular window raises no cell higher than filling the whole, and as high if no
cell of the window that has neighbours outside it is lower than that. -/
theorem C210_rect (hι : Sub ι r0 c0) (hq : Queen g) (hv : g.iverts = Edge.structuredVerts nrow ncol)
    (hq' : Queen g') (hv' : g'.iverts = Edge.structuredVerts nr nc) (h2 : 2 ≤ nrow * ncol) (he : 0 ≤ eps)
    (hfl : ∀ n, dem n ≤ flood)
    (hm : method.toLower = "complete" ∨ Flood.effective (none : Option (Fin (nrow * ncol) → Bool)) method = .drain)
    (hf : Flood.fillSinks fuel (· + eps) flood g dem none method = .ok f)
    (hf' : Flood.fillSinks fuel' (· + eps) flood g' (fun a => dem (ι a)) none method = .ok f') (a : Fin (nr * nc)) :
    f' a ≤ f (ι a) ∧ ((∀ b : Fin (nr * nc), AtBorder nrow ncol r0 c0 b → f (ι a) ≤ dem (ι b)) → f' a = f (ι a)) := by
  have hC := C210_structured hι hq hv hq' hv'
  have hat : ∀ b, Edge.OnEdge g'.iverts b → ¬ Edge.OnEdge g.iverts (ι b) → AtBorder nrow ncol r0 c0 b := by
    intro b h1 h2
    rw [onEdge_iff hv'] at h1
    rw [onEdge_iff hv, hι.row, hι.col] at h2
    unfold AtBorder
    omega
  have : f' a ≤ f (ι a) ∧ ((∀ b, Edge.OnEdge g'.iverts b → ¬ Edge.OnEdge g.iverts (ι b) → f (ι a) ≤ dem (ι b)) →
      f' a = f (ι a)) := by
    rcases hm with hm | hm
    · exact Flood.C210_complete hC hq.symm (fun _ => rfl) hm hf hf'
        ((C160_good hq hv h2 (mask := none) (fun m h => absurd h (noMask m))).conn _)
    · exact Flood.C210_drain hC (fun _ => rfl) (fun x => by linarith) (fun _ _ h => by linarith) hfl hm hf hf' a
  exact ⟨this.1, fun hh => this.2 fun b h1 h2 => hh b (hat b h1 h2)⟩

/-- **C210** on structured grids: a window of the filled surface needs no filling. -/
theorem C210_rect_filled (hι : Sub ι r0 c0) (hq : Queen g) (hv : g.iverts = Edge.structuredVerts nrow ncol)
    (hq' : Queen g') (hv' : g'.iverts = Edge.structuredVerts nr nc) (h2 : 2 ≤ nrow * ncol) (he : 0 < eps)
    (hfl : ∀ n, dem n ≤ flood) (hf : Flood.fillSinks fuel (· + eps) flood g dem none method = .ok f)
    (hf' : Flood.fillSinks fuel' (· + eps) flood g' (fun a => f (ι a)) none method = .ok f') (a : Fin (nr * nc)) :
    f' a = f (ι a) :=
  Flood.C210_filled (C210_structured hι hq hv hq' hv') hq.symm (fun x => by linarith)
    (fun _ _ h => by linarith) (fun _ x => by linarith) (fun _ => hfl)
    (fun _ b => (C160_good hq hv h2 (mask := none) (fun m h => absurd h (noMask m))).conn _) hf hf' a

-- runs with 'complete' exist for every window of every grid
example (h2 : 2 ≤ nrow * ncol) (hr : r0 + nr ≤ nrow) (hc : c0 + nc ≤ ncol) (dem : Fin (nrow * ncol) → ℝ) (a : Fin (nr * nc)) :
    ∃ (ι : Fin (nr * nc) → Fin (nrow * ncol)) (f : Fin (nrow * ncol) → ℝ) (f' : Fin (nr * nc) → ℝ), Sub ι r0 c0 ∧
      Flood.fillSinks (nrow * ncol + 1) (· + 1) (∑ n, |dem n|) (rectGrid nrow ncol) dem none "complete" = .ok f ∧
      Flood.fillSinks (nr * nc + 1) (· + 1) (∑ n, |dem n|) (rectGrid nr nc) (fun a => dem (ι a)) none "complete" = .ok f' ∧
      f' a ≤ f (ι a) := by
  obtain ⟨ι, hι⟩ := sub_exists hr hc
  have hc : "complete".toLower = "complete" := by decide +kernel
  obtain ⟨f, hf⟩ := Flood.C05_terminates (raise := (· + (1 : ℝ))) (flood := ∑ n, |dem n|) (g := rectGrid nrow ncol)
    (dem := dem) (mask := none) (method := "complete") (fun x => by linarith)
    (fun n => by simp [rectGrid, Edge.structuredVerts]) (by simp [Flood.effective, hc])
  obtain ⟨f', hf'⟩ := Flood.C05_terminates (raise := (· + (1 : ℝ))) (flood := ∑ n, |dem n|) (g := rectGrid nr nc)
    (dem := fun a => dem (ι a)) (mask := none) (method := "complete") (fun x => by linarith)
    (fun n => by simp [rectGrid, Edge.structuredVerts]) (by simp [Flood.effective, hc])
  have h1 := hf _ le_rfl
  have h1' := hf' _ le_rfl
  exact ⟨ι, f, f', hι, h1, h1', (C210_rect hι (queen_rect _ _) rfl (queen_rect _ _) rfl h2 (by norm_num)
    (fun n => (le_abs_self _).trans (Finset.single_le_sum (f := fun n => |dem n|) (fun _ _ => abs_nonneg _)
      (Finset.mem_univ n))) (.inl hc) h1 h1' a).1⟩

end Fill

end Dany.Pipe
