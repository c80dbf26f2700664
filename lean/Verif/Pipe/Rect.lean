import Verif.Pipe.Props
import Verif.Edge.Props
import Verif.Dirs.Cost
import Mathlib.Analysis.Real.Sqrt
import Mathlib.Logic.Equiv.Fin.Basic
import Mathlib.Tactic.LinearCombination

/-!
# Property C160: rectangular grids meet every condition on the grid

The other theorems on `fill_sinks` and `flow_directions` ask the grid for mutual neighbours, for a way from every cell to
an outlet, and for different cell centres.  Here these are proved for every structured grid: any
number of rows and columns, any column widths and row heights, any offset and rotation.
-/

namespace Dany.Pipe

open Flow

/-- Queen neighbours: `nbr c` lists, once each, the other cells with which `c` has a vertex in common
(the docstring of `fill_sinks`, dem_conditioning.py:9-10; computed by FloPy). -/
structure Queen {N : ℕ} (g : Flood.Grid N) : Prop where
  mem : ∀ (c : Fin N) (m : ℕ), m ∈ g.nbr c ↔ ∃ n : Fin N, n.val = m ∧ n ≠ c ∧ ∃ v ∈ g.iverts c, v ∈ g.iverts n
  nodup : ∀ c, (g.nbr c).Nodup

/-- **C160**: queen neighbours are mutual, on every grid. -/
theorem Queen.symm {N : ℕ} {g : Flood.Grid N} (hq : Queen g) : Flood.SymmNbr g.nbr := by
  intro a b h
  obtain ⟨n, hn, hne, v, h1, h2⟩ := (hq.mem a b).1 h
  have : n = b := Fin.ext hn
  subst this
  exact (hq.mem n a).2 ⟨a, rfl, hne.symm, v, h2, h1⟩

section

variable {nrow ncol : ℕ}

/-- row and column of a cell -/
def rowOf (n : Fin (nrow * ncol)) : ℕ := n.val / ncol
def colOf (n : Fin (nrow * ncol)) : ℕ := n.val % ncol

theorem ncol_pos (n : Fin (nrow * ncol)) : 0 < ncol := by
  rcases Nat.eq_zero_or_pos ncol with h0 | h0
  · have := n.isLt; simp [h0] at this
  · exact h0

theorem rowOf_lt (n : Fin (nrow * ncol)) : rowOf n < nrow := by
  unfold rowOf
  rw [Nat.div_lt_iff_lt_mul (ncol_pos n)]; exact n.isLt

theorem colOf_lt (n : Fin (nrow * ncol)) : colOf n < ncol := Nat.mod_lt _ (ncol_pos n)

theorem cell_ext {m n : Fin (nrow * ncol)} (h1 : rowOf m = rowOf n) (h2 : colOf m = colOf n) : m = n := by
  apply Fin.ext
  unfold rowOf at h1
  unfold colOf at h2
  rw [← Nat.div_add_mod m.val ncol, ← Nat.div_add_mod n.val ncol, h1, h2]

theorem cell_mk {y x : ℕ} (hy : y < nrow) (hx : x < ncol) :
    ∃ m : Fin (nrow * ncol), rowOf m = y ∧ colOf m = x := by
  have hlt : y * ncol + x < nrow * ncol := by
    calc y * ncol + x < y * ncol + ncol := by omega
      _ = (y + 1) * ncol := by ring
      _ ≤ nrow * ncol := Nat.mul_le_mul_right _ hy
  refine ⟨⟨y * ncol + x, hlt⟩, ?_, ?_⟩
  · show (y * ncol + x) / ncol = y
    rw [Nat.add_comm, Nat.add_mul_div_right _ _ (by omega), Nat.div_eq_of_lt hx, Nat.zero_add]
  · show (y * ncol + x) % ncol = x
    rw [Nat.add_comm, Nat.add_mul_mod_self_right, Nat.mod_eq_of_lt hx]

theorem mem_verts {n : Fin (nrow * ncol)} {y x : ℕ} (hx : x < ncol + 1) :
    y * (ncol + 1) + x ∈ Edge.structuredVerts nrow ncol n ↔
      (y = rowOf n ∨ y = rowOf n + 1) ∧ (x = colOf n ∨ x = colOf n + 1) := by
  have hj := colOf_lt n
  unfold Edge.structuredVerts
  change _ ∈ [rowOf n * (ncol + 1) + colOf n, rowOf n * (ncol + 1) + colOf n + 1,
    (rowOf n + 1) * (ncol + 1) + colOf n + 1, (rowOf n + 1) * (ncol + 1) + colOf n] ↔ _
  generalize rowOf n = i at *
  generalize colOf n = j at *
  simp only [List.mem_cons, List.not_mem_nil, or_false]
  constructor
  · rintro (h | h | h | h) <;> (try rw [Nat.add_assoc _ j 1] at h) <;>
      have e := Edge.vert_inj (by omega) (by omega) h <;> omega
  · rintro ⟨rfl | rfl, rfl | rfl⟩
    · exact .inl rfl
    · exact .inr (.inl rfl)
    · exact .inr (.inr (.inr rfl))
    · exact .inr (.inr (.inl rfl))

/-- every vertex of a cell is a grid point -/
theorem vert_point {n : Fin (nrow * ncol)} {v : ℕ} (h : v ∈ Edge.structuredVerts nrow ncol n) :
    ∃ y x, x < ncol + 1 ∧ v = y * (ncol + 1) + x := by
  refine ⟨v / (ncol + 1), v % (ncol + 1), Nat.mod_lt _ (by omega), ?_⟩
  rw [Nat.mul_comm]; exact (Nat.div_add_mod _ _).symm

/-- two cells of a rectangular grid have a vertex in common when row and column differ by at most one -/
theorem share_iff {m n : Fin (nrow * ncol)} :
    (∃ v ∈ Edge.structuredVerts nrow ncol m, v ∈ Edge.structuredVerts nrow ncol n) ↔
      rowOf m ≤ rowOf n + 1 ∧ rowOf n ≤ rowOf m + 1 ∧ colOf m ≤ colOf n + 1 ∧ colOf n ≤ colOf m + 1 := by
  constructor
  · rintro ⟨v, h1, h2⟩
    obtain ⟨y, x, hx, rfl⟩ := vert_point h1
    rw [mem_verts hx] at h1 h2
    omega
  · rintro ⟨h1, h2, h3, h4⟩
    have hm := colOf_lt m
    have hn := colOf_lt n
    have hx : max (colOf m) (colOf n) < ncol + 1 := by omega
    refine ⟨max (rowOf m) (rowOf n) * (ncol + 1) + max (colOf m) (colOf n), ?_, ?_⟩
    · rw [mem_verts hx]; omega
    · rw [mem_verts hx]; omega

variable {g : Flood.Grid (nrow * ncol)}

/-- **C160**: the neighbours of a cell of a structured grid are the (up to eight) other cells whose row and column differ
by at most one. -/
theorem C160_neighbours (hq : Queen g) (hv : g.iverts = Edge.structuredVerts nrow ncol) (c n : Fin (nrow * ncol)) :
    Flood.Adj g.nbr c n ↔ n ≠ c ∧
      rowOf c ≤ rowOf n + 1 ∧ rowOf n ≤ rowOf c + 1 ∧ colOf c ≤ colOf n + 1 ∧ colOf n ≤ colOf c + 1 := by
  unfold Flood.Adj
  rw [hq.mem, hv, ← share_iff]
  constructor
  · rintro ⟨k, hk, hne, h⟩
    have : k = n := Fin.ext hk
    subst this
    exact ⟨hne, h⟩
  · rintro ⟨hne, h⟩
    exact ⟨n, rfl, hne, h⟩

/-- every cell can be reached from the first one, and the first one from every cell -/
theorem reach_first (hq : Queen g) (hv : g.iverts = Edge.structuredVerts nrow ncol) {S : Fin (nrow * ncol) → Prop}
    {o : Fin (nrow * ncol)} (ho : rowOf o = 0 ∧ colOf o = 0) :
    (∀ n, Flood.Reach g.nbr S n → Flood.Reach g.nbr S o) ∧ (Flood.Reach g.nbr S o → ∀ n, Flood.Reach g.nbr S n) := by
  have adj := C160_neighbours hq hv
  -- one step towards the first cell
  have near : ∀ n, n ≠ o → ∃ m, rowOf m + colOf m < rowOf n + colOf n ∧ Flood.Adj g.nbr n m ∧ Flood.Adj g.nbr m n := by
    intro n hne
    have hr := rowOf_lt n
    have hc := colOf_lt n
    have key : ∃ m : Fin (nrow * ncol), rowOf m + colOf m < rowOf n + colOf n ∧
        rowOf n ≤ rowOf m + 1 ∧ rowOf m ≤ rowOf n + 1 ∧ colOf n ≤ colOf m + 1 ∧ colOf m ≤ colOf n + 1 := by
      rcases Nat.eq_zero_or_pos (rowOf n) with h0 | h0
      · have : colOf n ≠ 0 := fun h => hne (cell_ext (by omega) (by omega))
        obtain ⟨m, m1, m2⟩ := cell_mk hr (show colOf n - 1 < ncol by omega)
        exact ⟨m, by omega, by omega, by omega, by omega, by omega⟩
      · obtain ⟨m, m1, m2⟩ := cell_mk (show rowOf n - 1 < nrow by omega) hc
        exact ⟨m, by omega, by omega, by omega, by omega, by omega⟩
    obtain ⟨m, h1, h2, h3, h4, h5⟩ := key
    have hmn : m ≠ n := by rintro rfl; omega
    exact ⟨m, h1, (adj n m).2 ⟨hmn, h2, h3, h4, h5⟩, (adj m n).2 ⟨hmn.symm, h3, h2, h5, h4⟩⟩
  have ind : ∀ k n, rowOf n + colOf n = k → (Flood.Reach g.nbr S n → Flood.Reach g.nbr S o) ∧
      (Flood.Reach g.nbr S o → Flood.Reach g.nbr S n) := by
    intro k
    induction k using Nat.strong_induction_on with
    | _ k ih =>
      intro n hk
      by_cases hne : n = o
      · subst hne; exact ⟨id, id⟩
      · obtain ⟨m, h1, h2, h3⟩ := near n hne
        have := ih _ (by omega) m rfl
        exact ⟨fun h => this.1 (.step h h2), fun h => .step (this.2 h) h3⟩
  exact ⟨fun n => (ind _ n rfl).1, fun h n => (ind _ n rfl).2 h⟩

/-- **C160.**  Every structured grid with at least two cells is a grid as the theorems on filling and routing ask
for: neighbourship is mutual, every cell has a neighbour, and water can get from every cell to an outlet; with
a stream mask as soon as it marks one cell. -/
theorem C160_good (hq : Queen g) (hv : g.iverts = Edge.structuredVerts nrow ncol) (h2 : 2 ≤ nrow * ncol)
    {mask : Option (Fin (nrow * ncol) → Bool)} (hm : ∀ m, mask = some m → ∃ n, m n = true) : GoodGrid g mask := by
  have adj := C160_neighbours hq hv
  have hr0 : 0 < nrow := by rcases Nat.eq_zero_or_pos nrow with h | h; · simp [h] at h2
                            · exact h
  have hc0 : 0 < ncol := by rcases Nat.eq_zero_or_pos ncol with h | h; · simp [h] at h2
                            · exact h
  refine ⟨hq.symm, hq.nodup, fun n => ?_, fun n => ?_⟩
  · have hr := rowOf_lt n
    have hc := colOf_lt n
    have key : ∃ m : Fin (nrow * ncol), m ≠ n ∧ rowOf n ≤ rowOf m + 1 ∧ rowOf m ≤ rowOf n + 1 ∧
        colOf n ≤ colOf m + 1 ∧ colOf m ≤ colOf n + 1 := by
      have go : ∀ y x, y < nrow → x < ncol → (y ≠ rowOf n ∨ x ≠ colOf n) → rowOf n ≤ y + 1 → y ≤ rowOf n + 1 →
          colOf n ≤ x + 1 → x ≤ colOf n + 1 → ∃ m : Fin (nrow * ncol), m ≠ n ∧ rowOf n ≤ rowOf m + 1 ∧
            rowOf m ≤ rowOf n + 1 ∧ colOf n ≤ colOf m + 1 ∧ colOf m ≤ colOf n + 1 := by
        intro y x hy hx hne a b c d
        obtain ⟨m, m1, m2⟩ := cell_mk hy hx
        exact ⟨m, by rintro rfl; omega, by omega, by omega, by omega, by omega⟩
      by_cases h1 : 0 < rowOf n
      · exact go (rowOf n - 1) (colOf n) (by omega) hc (by omega) (by omega) (by omega) (by omega) (by omega)
      by_cases h3 : 0 < colOf n
      · exact go (rowOf n) (colOf n - 1) hr (by omega) (by omega) (by omega) (by omega) (by omega) (by omega)
      by_cases h4 : 1 < nrow
      · exact go 1 (colOf n) h4 hc (by omega) (by omega) (by omega) (by omega) (by omega)
      have h5 : 1 < ncol := by
        have : nrow = 1 := by omega
        rw [this] at h2; omega
      exact go (rowOf n) 1 hr h5 (by omega) (by omega) (by omega) (by omega) (by omega)
    obtain ⟨m, hne, hk⟩ := key
    have := (adj n m).2 ⟨hne, hk⟩
    exact List.ne_nil_of_mem (mem_inRange.2 this)
  · obtain ⟨o, o1, o2⟩ := cell_mk hr0 hc0
    have hfirst := reach_first hq hv (S := Flood.Outlet g mask) ⟨o1, o2⟩
    have hseed : ∃ s, Flood.Outlet g mask s := by
      cases mask with
      | some m => exact hm m rfl
      | none =>
        have hpoly : ∀ n, g.iverts n ≠ [] := by intro n; rw [hv]; simp [Edge.structuredVerts]
        obtain ⟨l, hl⟩ := Edge.C15_total hpoly
        have h1 := (Edge.C15_edge_nodes hl).2 o
        rw [hv] at hl
        exact ⟨o, h1.1 ((Edge.C16_structured_edge hl o).2 (.inl o1))⟩
    obtain ⟨s, hs⟩ := hseed
    exact hfirst.2 (hfirst.1 s (.seed hs)) n

/-- the edge of a structured grid, without reference to `_identify_edge_nodes` -/
theorem onEdge_iff (hv : g.iverts = Edge.structuredVerts nrow ncol) (n : Fin (nrow * ncol)) :
    Edge.OnEdge g.iverts n ↔ rowOf n = 0 ∨ rowOf n + 1 = nrow ∨ colOf n = 0 ∨ colOf n + 1 = ncol := by
  have hpoly : ∀ n, g.iverts n ≠ [] := by intro n; rw [hv]; simp [Edge.structuredVerts]
  obtain ⟨l, hl⟩ := Edge.C15_total hpoly
  rw [← (Edge.C15_edge_nodes hl).2 n]
  rw [hv] at hl
  exact Edge.C16_structured_edge hl n

end

/-! ### Cell centres -/

/-- What FloPy computes for a structured grid (external): column widths, row heights, offset, and rotation by an angle with
cosine `c` and sine `s`.  Row 0 is the uppermost. -/
structure Layout (nrow ncol : ℕ) where
  delr : ℕ → ℝ
  delc : ℕ → ℝ
  x0 : ℝ
  y0 : ℝ
  c : ℝ
  s : ℝ
  unit : c ^ 2 + s ^ 2 = 1

/-- the middle of interval `k` of a line of intervals with the given lengths -/
noncomputable def middle (w : ℕ → ℝ) (k : ℕ) : ℝ := (∑ i ∈ Finset.range k, w i) + w k / 2

/-- centres before the rotation -/
noncomputable def Layout.u {nrow ncol : ℕ} (L : Layout nrow ncol) (n : Fin (nrow * ncol)) : ℝ := middle L.delr (colOf n)
noncomputable def Layout.v {nrow ncol : ℕ} (L : Layout nrow ncol) (n : Fin (nrow * ncol)) : ℝ :=
  (∑ i ∈ Finset.range nrow, L.delc i) - middle L.delc (rowOf n)

/-- centres, and exact arithmetic -/
noncomputable def Layout.geo {nrow ncol : ℕ} (L : Layout nrow ncol) : Dirs.Geo (nrow * ncol) ℝ where
  xc n := L.x0 + (L.c * L.u n - L.s * L.v n)
  yc n := L.y0 + (L.s * L.u n + L.c * L.v n)
  sqrt := Real.sqrt
  rnd := id

theorem middle_apart {w : ℕ → ℝ} {b : ℝ} (hw : ∀ k, b ≤ w k) {i j : ℕ} (hij : i + 1 = j) :
    b ≤ middle w j - middle w i := by
  subst hij
  unfold middle
  rw [Finset.sum_range_succ]
  have := hw i
  have := hw (i + 1)
  linarith

section

variable {nrow ncol : ℕ} {g : Flood.Grid (nrow * ncol)} {L : Layout nrow ncol} {b : ℝ}

/-- the rotation does not matter for distances -/
theorem dist_eq (m n : Fin (nrow * ncol)) :
    L.geo.dist m n = Real.sqrt ((L.u n - L.u m) ^ 2 + (L.v n - L.v m) ^ 2) := by
  unfold Dirs.Geo.dist Layout.geo
  simp only [id]
  congr 1
  linear_combination ((L.u n - L.u m) ^ 2 + (L.v n - L.v m) ^ 2) * L.unit

/-- **C160**: the centres of neighbours are at least a cell width (of the narrowest) apart. -/
theorem C160_apart (hq : Queen g) (hv : g.iverts = Edge.structuredVerts nrow ncol) (hb : 0 < b)
    (hr : ∀ k, b ≤ L.delr k) (hc : ∀ k, b ≤ L.delc k) {m n : Fin (nrow * ncol)} (h : Flood.Adj g.nbr m n) :
    b ≤ L.geo.dist m n := by
  rw [dist_eq]
  obtain ⟨hne, h1, h2, h3, h4⟩ := (C160_neighbours hq hv m n).1 h
  have sq : ∀ x : ℝ, b ≤ x ∨ b ≤ -x → b ^ 2 ≤ x ^ 2 := by
    rintro x (h | h)
    · exact pow_le_pow_left₀ hb.le h 2
    · rw [← neg_sq x]; exact pow_le_pow_left₀ hb.le h 2
  apply Real.le_sqrt_of_sq_le
  by_cases hcol : colOf m = colOf n
  · have hrow : rowOf m ≠ rowOf n := fun h => hne (cell_ext h hcol).symm
    have : b ^ 2 ≤ (L.v n - L.v m) ^ 2 := by
      apply sq
      unfold Layout.v
      rcases Nat.lt_or_ge (rowOf m) (rowOf n) with hl | hl
      · have := middle_apart hc (show rowOf m + 1 = rowOf n by omega)
        right; linarith
      · have := middle_apart hc (show rowOf n + 1 = rowOf m by omega)
        left; linarith
    have := sq_nonneg (L.u n - L.u m)
    linarith
  · have : b ^ 2 ≤ (L.u n - L.u m) ^ 2 := by
      apply sq
      unfold Layout.u
      rcases Nat.lt_or_ge (colOf m) (colOf n) with hl | hl
      · have := middle_apart hr (show colOf m + 1 = colOf n by omega)
        left; linarith
      · have := middle_apart hr (show colOf n + 1 = colOf m by omega)
        right; linarith
    have := sq_nonneg (L.v n - L.v m)
    linarith

theorem sound_rect (hq : Queen g) (hv : g.iverts = Edge.structuredVerts nrow ncol) (hb : 0 < b)
    (hr : ∀ k, b ≤ L.delr k) (hc : ∀ k, b ≤ L.delc k) (dem : Fin (nrow * ncol) → Option ℝ) :
    Dirs.Sound L.geo dem (nbrs g) :=
  .exact rfl fun _ _ hm => hb.trans_le (C160_apart hq hv hb hr hc (mem_inRange.1 hm))

/-- slopes stay below 1e10 if the relief is less than 1e10 cell widths -/
theorem below_rect (hq : Queen g) (hv : g.iverts = Edge.structuredVerts nrow ncol) (hb : 0 < b)
    (hr : ∀ k, b ≤ L.delr k) (hc : ∀ k, b ≤ L.delc k) {f : Fin (nrow * ncol) → ℝ} {lo hi thr big : ℝ}
    (hlo : ∀ n, lo ≤ f n) (hhi : ∀ n, f n ≤ hi) (hbig : hi - lo < big * b) :
    Dirs.Below L.geo (Dirs.filled f) thr big (nbrs g) := by
  rintro n m hm s ⟨x, y, hx, hy, rfl⟩
  simp only [Dirs.filled, Option.some.injEq] at hx hy
  subst hx hy
  have hd := C160_apart hq hv hb hr hc (mem_inRange.1 hm)
  have hpos := hb.trans_le hd
  have hB : 0 < big := by
    have := hlo n
    have := hhi n
    by_contra h
    have := mul_nonpos_of_nonpos_of_nonneg (not_lt.1 h) hb.le
    linarith
  show (Dirs.rise L.geo thr (f n) (f m)) / _ < big
  rw [div_lt_iff₀ hpos]
  have h1 : Dirs.rise L.geo thr (f n) (f m) ≤ hi - lo := by
    unfold Dirs.rise Layout.geo
    simp only [id]
    have := hlo n
    have := hhi m
    have := hhi n
    split_ifs <;> linarith
  have := mul_le_mul_of_nonneg_left hd hB.le
  linarith

end

/-- the areas of all cells add up to the area of the rectangle -/
theorem sum_area {nrow ncol : ℕ} (L : Layout nrow ncol) :
    ∑ n : Fin (nrow * ncol), L.delr (colOf n) * L.delc (rowOf n) =
      (∑ j ∈ Finset.range ncol, L.delr j) * ∑ i ∈ Finset.range nrow, L.delc i := by
  rw [← finProdFinEquiv.sum_comp]
  rw [Fintype.sum_prod_type]
  have hrow : ∀ (y : Fin nrow) (x : Fin ncol), rowOf (finProdFinEquiv (y, x)) = y.val := by
    intro y x
    show (x.val + ncol * y.val) / ncol = y.val
    rw [Nat.add_mul_div_left _ _ (by have := x.isLt; omega), Nat.div_eq_of_lt x.isLt, Nat.zero_add]
  have hcol : ∀ (y : Fin nrow) (x : Fin ncol), colOf (finProdFinEquiv (y, x)) = x.val := by
    intro y x
    show (x.val + ncol * y.val) % ncol = x.val
    rw [Nat.add_mul_mod_self_left, Nat.mod_eq_of_lt x.isLt]
  simp only [hrow, hcol]
  rw [Finset.sum_range, Finset.sum_range, Finset.sum_mul_sum, Finset.sum_comm]

/-! ### The chain on a structured grid -/

/-- **C160**: a cell of a structured grid has at most eight neighbours. -/
theorem nbrs_le_eight {nrow ncol : ℕ} {g : Flood.Grid (nrow * ncol)} (hq : Queen g)
    (hv : g.iverts = Edge.structuredVerts nrow ncol) (hg : GoodGrid g none) (n : Fin (nrow * ncol)) :
    (nbrs g n).length ≤ 8 := by
  -- the neighbours lie in a 3 × 3 block, without the cell itself
  have hnd := nodup_nbrs hg n
  have hnot : n ∉ nbrs g n := fun h => ((C160_neighbours hq hv n n).1 (mem_inRange.1 h)).1 rfl
  let F : Fin (nrow * ncol) → ℕ × ℕ := fun m => (rowOf m + 1 - rowOf n, colOf m + 1 - colOf n)
  have hsub : ((n :: nbrs g n).map F).toFinset ⊆ Finset.range 3 ×ˢ Finset.range 3 := by
    intro p hp
    simp only [List.mem_toFinset, List.mem_map] at hp
    obtain ⟨m, hm, rfl⟩ := hp
    simp only [Finset.mem_product, Finset.mem_range, F]
    rcases List.mem_cons.1 hm with rfl | hm
    · omega
    · have := (C160_neighbours hq hv n m).1 (mem_inRange.1 hm)
      omega
  have hnd2 : ((n :: nbrs g n).map F).Nodup := by
    rw [List.nodup_map_iff_inj_on (List.nodup_cons.2 ⟨hnot, hnd⟩)]
    have hrange : ∀ m ∈ n :: nbrs g n, rowOf n ≤ rowOf m + 1 ∧ colOf n ≤ colOf m + 1 := by
      intro m hm
      rcases List.mem_cons.1 hm with rfl | hm
      · omega
      · have := (C160_neighbours hq hv n m).1 (mem_inRange.1 hm)
        omega
    intro x hx y hy hxy
    have h1 := hrange x hx
    have h3 := hrange y hy
    simp only [F, Prod.mk.injEq] at hxy
    exact cell_ext (by omega) (by omega)
  have := Finset.card_le_card hsub
  rw [List.toFinset_card_of_nodup hnd2] at this
  simp at this
  omega

/-- the terminal cells to name after filling: the edge cells without lower neighbour -/
noncomputable def ends {N : ℕ} {K : Type*} [LinearOrder K] (g : Flood.Grid N) (mask : Option (Fin N → Bool))
    (f : Fin N → K) : List ℤ := by
  classical
  exact ((List.finRange N).filter fun n => Flood.Outlet g mask n ∧ ∀ m ∈ nbrs g n, f n ≤ f m).map fun n : Fin N => ((n : ℕ) : ℤ)

theorem mem_ends {N : ℕ} {K : Type*} [LinearOrder K] {g : Flood.Grid N} {mask : Option (Fin N → Bool)} {f : Fin N → K}
    {n : Fin N} :
    ((n : ℕ) : ℤ) ∈ ends g mask f ↔ Flood.Outlet g mask n ∧ ∀ m ∈ nbrs g n, f n ≤ f m := by
  classical
  unfold ends
  simp only [List.mem_map, List.mem_filter, List.mem_finRange, true_and, decide_eq_true_eq]
  constructor
  · rintro ⟨k, hk, e⟩
    have : k = n := Fin.ext (by exact_mod_cast e)
    subst this; exact hk
  · intro h; exact ⟨n, h, rfl⟩

theorem good_ends {N : ℕ} {K : Type*} [Field K] [LinearOrder K] {g : Flood.Grid N} {mask : Option (Fin N → Bool)}
    {f : Fin N → K} :
    GoodEnds g mask f (ends g mask f) := by
  refine ⟨?_, fun n hn => (mem_ends.1 hn).1, fun n h1 h2 => .inl (mem_ends.2 ⟨h1, h2⟩)⟩
  intro t ht
  classical
  unfold ends at ht
  simp only [List.mem_map] at ht
  obtain ⟨k, _, rfl⟩ := ht
  exact ⟨by omega, by exact_mod_cast k.isLt⟩

section

variable {nrow ncol : ℕ} {g : Flood.Grid (nrow * ncol)} {L : Layout nrow ncol} {b lo hi eps flood thr big : ℝ}
  {dem : Fin (nrow * ncol) → ℝ}

/-- **C160**, filling.  On every structured grid, `fill_sinks` with method "priority" returns; from
every cell of the result a path leads strictly downhill, from neighbour to neighbour, to a cell in the first or last row or
column; no cell is lowered, and none rises above the highest by more than `eps` per cell of the grid. -/
theorem C160_fill (hq : Queen g) (hv : g.iverts = Edge.structuredVerts nrow ncol) (h2 : 2 ≤ nrow * ncol) (he : 0 < eps)
    (hhi : ∀ n, dem n ≤ hi) :
    ∃ f, (∀ fuel, nrow * ncol + 1 ≤ fuel → Flood.fillSinks fuel (· + eps) flood g dem none "priority" = .ok f) ∧
      ∀ n, dem n ≤ f n ∧ f n ≤ hi + (nrow * ncol : ℕ) * eps ∧
        Flood.Drains (· < ·) g.nbr f (fun e => rowOf e = 0 ∨ rowOf e + 1 = nrow ∨ colOf e = 0 ∨ colOf e + 1 = ncol) n := by
  have hg : GoodGrid g none := C160_good hq hv h2 (by simp)
  have hpoly : ∀ n, g.iverts n ≠ [] := by intro n; rw [hv]; simp [Edge.structuredVerts]
  have hinf : ∀ x : ℝ, x ≤ x + eps := fun x => by linarith
  have heff : Flood.effective (none : Option (Fin (nrow * ncol) → Bool)) "priority" = .priority := by
    unfold Flood.effective; rw [if_neg (by decide +kernel), if_pos (.inl (by decide +kernel))]
  obtain ⟨f, hf⟩ := Flood.C05_terminates (flood := flood) (dem := dem) (mask := none) (method := "priority") hinf hpoly
    (by rw [heff]; decide)
  have hrun := hf _ le_rfl
  have hedge : Flood.Outlet g none = fun e => rowOf e = 0 ∨ rowOf e + 1 = nrow ∨ colOf e = 0 ∨ colOf e + 1 = ncol :=
    funext fun e => propext (onEdge_iff hv e)
  refine ⟨f, hf, fun n => ⟨?_, ?_, ?_⟩⟩
  · exact Flood.C01_never_lowers hinf (fun h => by rw [heff] at h; cases h) hrun n
  · obtain ⟨w, hw, _, h3⟩ := Flood.C09_overfill hinf (fun x y h => by simpa using h) (by decide +kernel) hrun n (hg.conn n)
    have htop : ∀ k v, Flood.PathTop g.nbr dem (Edge.OnEdge g.iverts) k v → v ≤ hi := by
      intro k v h
      induction h with
      | seed _ => exact hhi _
      | step _ _ ih => exact max_le ih (hhi _)
    have hit : ∀ k : ℕ, (fun x : ℝ => x + eps)^[k] w = w + k * eps := by
      intro k
      induction k with
      | zero => simp
      | succ k ih => rw [Function.iterate_succ_apply', ih]; push_cast; ring
    rw [hit] at h3
    have := htop n w hw.1
    linarith
  · rw [← hedge]
    exact Flood.C03_drains_strictly (fun x => by linarith) hg.symm heff hrun n (hg.conn n)

/-- **C160**, routing.  On every structured grid of at least two cells whose relief is less than `big` (1e10) cell widths,
`flow_directions` returns, whatever the elevations and terminal cells. -/
theorem C160_returns (hq : Queen g) (hv : g.iverts = Edge.structuredVerts nrow ncol) (h2 : 2 ≤ nrow * ncol) (hb : 0 < b)
    (hr : ∀ k, b ≤ L.delr k) (hc : ∀ k, b ≤ L.delc k) (hlo : ∀ n, lo ≤ dem n) (hhi : ∀ n, dem n ≤ hi)
    (hbig : hi - lo < big * b) (htop : hi < big) {terminals : List ℤ} (ht : Dirs.InRange (nrow * ncol) terminals) :
    ∃ out, ∀ fuel, 10 * (nrow * ncol) + 11 ≤ fuel →
      Dirs.flowDirections fuel L.geo (Dirs.filled dem) big (Dirs.table (nbrs g)) thr terminals = .ok out := by
  have hg : GoodGrid g none := C160_good hq hv h2 (by simp)
  have hw := nbrs_le_eight hq hv hg
  obtain ⟨n0⟩ : Nonempty (Fin (nrow * ncol)) := ⟨⟨0, by omega⟩⟩
  obtain ⟨out, h⟩ := Dirs.C159_rounds (w := 8) L.geo thr ht
    (below_rect (thr := thr) hq hv hb hr hc hlo hhi hbig) (hasNbr hg)
    ⟨n0, dem n0, rfl, (hhi n0).trans_lt htop⟩ hw
  exact ⟨out, fun fuel hf => h fuel (by omega)⟩

/-- **C160**, the chain.  On every structured grid of 2 to 999999 cells, for every DEM: fill the sinks, name the edge cells
without lower neighbour as terminal cells (tied with other cells at most in easy ties, `CleanEnds`), and
`flow_directions` returns; from every cell water runs strictly downhill into one of those cells, and nothing runs in circles.
No condition on the grid is left but positive cell sizes. -/
theorem C160_chain (hq : Queen g) (hv : g.iverts = Edge.structuredVerts nrow ncol) (h2 : 2 ≤ nrow * ncol)
    (hN : nrow * ncol < 1000000) (hb : 0 < b) (hr : ∀ k, b ≤ L.delr k) (hc : ∀ k, b ≤ L.delc k) (he : 0 < eps)
    (hlo : ∀ n, lo ≤ dem n) (hhi : ∀ n, dem n ≤ hi) (hbig : hi + (nrow * ncol : ℕ) * eps - lo < big * b)
    (htop : hi + (nrow * ncol : ℕ) * eps < big) :
    ∃ f out, (∀ fuel, nrow * ncol + 1 ≤ fuel → Flood.fillSinks fuel (· + eps) flood g dem none "priority" = .ok f) ∧
      (∀ fuel, 10 * (nrow * ncol) + 11 ≤ fuel → Dirs.flowDirections fuel L.geo (Dirs.filled f) big
        (Dirs.table (nbrs g)) thr (ends g none f) = .ok out) ∧
      (Dirs.CleanEnds L.geo (Dirs.filled f) thr (ends g none f) (nbrs g) →
        ∃ d : Fin (nrow * ncol) → Fin (nrow * ncol), Legal out d ∧ (∀ n, ¬ OnCycle d n) ∧
          (∀ n, d n ≠ n → Flood.Adj g.nbr n (d n) ∧ f (d n) < f n) ∧
          ∀ n, ∃ e, Reaches d n e ∧ d e = e ∧ (rowOf e = 0 ∨ rowOf e + 1 = nrow ∨ colOf e = 0 ∨ colOf e + 1 = ncol)) := by
  have hg : GoodGrid g none := C160_good hq hv h2 (by simp)
  have heff : Flood.effective (none : Option (Fin (nrow * ncol) → Bool)) "priority" = .priority := by
    unfold Flood.effective; rw [if_neg (by decide +kernel), if_pos (.inl (by decide +kernel))]
  obtain ⟨f, hf, hfn⟩ := C160_fill (flood := flood) hq hv h2 he hhi
  have hflo : ∀ n, lo ≤ f n := fun n => (hlo n).trans (hfn n).1
  have hfhi : ∀ n, f n ≤ hi + (nrow * ncol : ℕ) * eps := fun n => (hfn n).2.1
  obtain ⟨out, hout⟩ := C160_returns (thr := thr) hq hv h2 hb hr hc hflo hfhi hbig htop
    (good_ends (g := g) (mask := none) (f := f)).range
  refine ⟨f, out, hf, hout, fun hend => ?_⟩
  obtain ⟨d, hnet, hdown⟩ := C99_network (method := "priority") (mask := none) hN (fun x => by linarith)
    heff (hf _ le_rfl) hg good_ends (sound_rect hq hv hb hr hc _)
    (below_rect hq hv hb hr hc hflo hfhi hbig) hend (hout _ le_rfl)
  refine ⟨d, hnet.legal, hnet.acyclic, hdown, fun n => ?_⟩
  obtain ⟨e, e1, e2, e3⟩ := hnet.ends n
  exact ⟨e, e1, e2, (onEdge_iff hv e).1 e3⟩

/-- **C160**, accumulation.  What `flow_accumulation` collects in the cells where the water leaves is the area of the rectangle,
its width times its height. -/
theorem C160_accumulation {out : Fin (nrow * ncol) → ℤ} {d : Fin (nrow * ncol) → Fin (nrow * ncol)} (hd : Legal out d)
    (hends : ∀ n, ∃ e, Reaches d n e ∧ d e = e) :
    ∃ facc, (∀ fuel, nrow * ncol < fuel →
        Acc.flowAccumulation fuel out (fun n => L.delr (colOf n) * L.delc (rowOf n)) false = .ok facc) ∧
      ∑ o ∈ Finset.univ.filter (fun o => d o = o), facc o =
        (∑ j ∈ Finset.range ncol, L.delr j) * ∑ i ∈ Finset.range nrow, L.delc i := by
  obtain ⟨facc, h⟩ := Acc.C31_terminates (fdir := out)
    (fun u => by have := hd u; have := (d u).isLt; omega) (fun n => L.delr (colOf n) * L.delc (rowOf n)) false
  refine ⟨facc, h, ?_⟩
  rw [← sum_area]
  refine Acc.C33_conservation hd.resolves (h _ (Nat.lt_succ_self _)) (fun u => ?_)
  obtain ⟨e, k1, k2⟩ := hends u
  exact ⟨e, k2, k1⟩

end

end Dany.Pipe
