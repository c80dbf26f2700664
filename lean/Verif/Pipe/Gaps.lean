import Verif.Pipe.RectWitness
import Verif.Nan.Props

/-!
# Property C161: elevations with gaps on structured grids

`fill_nan_values` treats the cells without a number in descending order, and goes on with a cell until a neighbour holds a
number (dem_conditioning.py:289-307).  On a structured grid every cell but the last has a neighbour with a higher number, so
that everything depends on the two rows and columns at the end of the grid.
-/

namespace Dany.Pipe

open Flow

section

variable {nrow ncol : ℕ} {g : Flood.Grid (nrow * ncol)} {method : String}

/-- the up to four cells in the last two rows and columns -/
def Corner (m : Fin (nrow * ncol)) : Prop := nrow ≤ rowOf m + 2 ∧ ncol ≤ colOf m + 2

theorem lt_of_row {m n : Fin (nrow * ncol)} (h : rowOf m < rowOf n) : m < n := by
  rw [Fin.lt_def]
  by_contra hc
  push Not at hc
  have := Nat.div_le_div_right (c := ncol) hc
  unfold rowOf at h
  omega

theorem lt_of_col {m n : Fin (nrow * ncol)} (h : rowOf m = rowOf n) (h' : colOf m < colOf n) : m < n := by
  rw [Fin.lt_def, ← Nat.div_add_mod m.val ncol, ← Nat.div_add_mod n.val ncol]
  unfold rowOf at h
  unfold colOf at h'
  rw [h]
  omega

theorem le_of_last {m n : Fin (nrow * ncol)} (h : rowOf n + 1 = nrow) (h' : colOf n + 1 = ncol) : m ≤ n := by
  have h1 := rowOf_lt m
  have h2 := colOf_lt m
  rcases Nat.lt_or_ge (rowOf m) (rowOf n) with hr | hr
  · exact (lt_of_row hr).le
  · rcases Nat.lt_or_ge (colOf m) (colOf n) with hc | hc
    · exact (lt_of_col (by omega) hc).le
    · exact (cell_ext (by omega) (by omega)).le

theorem queen_range (hq : Queen g) (c : Fin (nrow * ncol)) : ∀ n ∈ g.nbr c, n < nrow * ncol := by
  intro n hn
  obtain ⟨k, rfl, _⟩ := (hq.mem c n).1 hn
  exact k.isLt

theorem queen_ne (hq : Queen g) (hv : g.iverts = Edge.structuredVerts nrow ncol) (h2 : 2 ≤ nrow * ncol)
    (c : Fin (nrow * ncol)) : g.nbr c ≠ [] := by
  have hr := rowOf_lt c
  have hc := colOf_lt c
  obtain ⟨y, x, hy, hx, hne, h1, h2, h3, h4⟩ : ∃ y x, y < nrow ∧ x < ncol ∧ (y ≠ rowOf c ∨ x ≠ colOf c) ∧
      rowOf c ≤ y + 1 ∧ y ≤ rowOf c + 1 ∧ colOf c ≤ x + 1 ∧ x ≤ colOf c + 1 := by
    by_cases h : ncol = 1
    · subst h
      rcases Nat.eq_zero_or_pos (rowOf c) with h0 | h0
      · exact ⟨rowOf c + 1, colOf c, by omega, hc, by omega, by omega, by omega, by omega, by omega⟩
      · exact ⟨rowOf c - 1, colOf c, by omega, hc, by omega, by omega, by omega, by omega, by omega⟩
    · rcases Nat.eq_zero_or_pos (colOf c) with h0 | h0
      · exact ⟨rowOf c, colOf c + 1, hr, by omega, by omega, by omega, by omega, by omega, by omega⟩
      · exact ⟨rowOf c, colOf c - 1, hr, by omega, by omega, by omega, by omega, by omega, by omega⟩
  obtain ⟨m, e1, e2⟩ := cell_mk hy hx
  have : Flood.Adj g.nbr c m := (C160_neighbours hq hv c m).2 ⟨by rintro rfl; omega, by omega⟩
  intro e
  rw [Flood.Adj, e] at this
  cases this

variable {K : Type*} [Field K] [LinearOrder K] {dem : Fin (nrow * ncol) → Option K}

/-- on a structured grid the condition of C20 concerns the end of the grid only -/
theorem fillable_iff (hq : Queen g) (hv : g.iverts = Edge.structuredVerts nrow ncol) (h2 : 2 ≤ nrow * ncol) :
    Nan.Fillable g.nbr dem ↔ ∃ m, Corner m ∧ dem m ≠ none := by
  have hpos : 0 < nrow ∧ 0 < ncol := by
    constructor <;> (rcases Nat.eq_zero_or_pos nrow with h | h <;> rcases Nat.eq_zero_or_pos ncol with h' | h' <;> simp_all)
  obtain ⟨last, l1, l2⟩ := cell_mk (nrow := nrow) (ncol := ncol) (y := nrow - 1) (x := ncol - 1) (by omega) (by omega)
  constructor
  · intro h
    by_cases hl : dem last = none
    · obtain ⟨m, hm, h1 | h1⟩ := h last hl
      · have := (C160_neighbours hq hv last m).1 hm
        exact ⟨m, ⟨by omega, by omega⟩, h1⟩
      · exact absurd (le_of_last (m := m) (n := last) (by omega) (by omega)) (not_le.2 h1)
    · exact ⟨last, ⟨by omega, by omega⟩, hl⟩
  · rintro ⟨m, ⟨c1, c2⟩, hm⟩ c hc
    have hr := rowOf_lt c
    have hcl := colOf_lt c
    by_cases hx : colOf c + 1 < ncol
    · obtain ⟨k, e1, e2⟩ := cell_mk hr hx
      exact ⟨k, (C160_neighbours hq hv c k).2 ⟨by rintro rfl; omega, by omega⟩, .inr (lt_of_col e1.symm (by omega))⟩
    · by_cases hy : rowOf c + 1 < nrow
      · obtain ⟨k, e1, e2⟩ := cell_mk hy hcl
        exact ⟨k, (C160_neighbours hq hv c k).2 ⟨by rintro rfl; omega, by omega⟩, .inr (lt_of_row (by omega))⟩
      · have hmr := rowOf_lt m
        have hmc := colOf_lt m
        exact ⟨m, (C160_neighbours hq hv c m).2 ⟨by rintro rfl; exact hm hc, by omega⟩, .inl hm⟩

variable [IsStrictOrderedRing K]

/-- **C161**: on a structured grid of at least two cells, `fill_nan_values` returns exactly if one of the up to four cells in
the last two rows and columns holds a number — however large the other gaps are, and wherever the other numbers.  It takes
one step for each cell without a number, leaves the numbers as they were, and all new ones lie between the least and the
greatest of them. -/
theorem C161_returns (hm : Nan.Known method) (hq : Queen g) (hv : g.iverts = Edge.structuredVerts nrow ncol)
    (h2 : 2 ≤ nrow * ncol) (hc : ∃ m, Corner m ∧ dem m ≠ none) {lo hi : K}
    (hb : ∀ n v, dem n = some v → lo ≤ v ∧ v ≤ hi) :
    ∃ out : Fin (nrow * ncol) → K,
      (∀ fuel, nrow * ncol + 1 ≤ fuel → Nan.fillNan fuel method g.nbr dem = .ok (Dirs.filled out)) ∧
      (∀ n v, dem n = some v → out n = v) ∧ ∀ n, lo ≤ out n ∧ out n ≤ hi := by
  obtain ⟨r, hr⟩ := Nan.C20_terminates_partial hm (queen_range hq) ((fillable_iff hq hv h2).2 hc)
  have hrun := hr _ le_rfl
  choose out ho using Nan.C19_range hrun hb
  have hfun : r = Dirs.filled out := funext fun n => (ho n).1
  refine ⟨out, fun fuel hf => by rw [hr fuel hf, hfun], fun n v hn => ?_, fun n => (ho n).2⟩
  have := Nan.C18_keeps_valid hrun n v hn
  rw [(ho n).1] at this
  exact Option.some.inj this

/-- **C161**: otherwise it never returns, although a number elsewhere may touch every gap. -/
theorem C161_hangs (hm : Nan.Known method) (hq : Queen g) (hv : g.iverts = Edge.structuredVerts nrow ncol)
    (h2 : 2 ≤ nrow * ncol) (hc : ∀ m, Corner m → dem m = none) (fuel : ℕ) :
    Nan.fillNan fuel method g.nbr dem = .hang := by
  refine Nan.C20_diverges hm (queen_range hq) (queen_ne hq hv h2) ?_ fuel
  rw [fillable_iff hq hv h2]
  rintro ⟨m, h1, h3⟩
  exact h3 (hc m h1)

end

variable {nrow ncol : ℕ} {g : Flood.Grid (nrow * ncol)} {L : Layout nrow ncol} {b lo hi eps flood thr big : ℝ}
  {dem : Fin (nrow * ncol) → Option ℝ} {method : String}

/-- **C161**, the chain from a DEM with gaps.  On a structured grid of 2 to 999999 cells with a number in the last corner:
`fill_nan_values`, `fill_sinks` and `flow_directions` return one after the other; the final surface lies nowhere below a
number of the DEM; and, if the edge cells without lower neighbour are named terminal and tie with other cells at most in
easy ties (`CleanEnds`), water runs strictly downhill from every cell, gap or not, to the edge of the grid. -/
theorem C161_chain (hm : Nan.Known method) (hq : Queen g) (hv : g.iverts = Edge.structuredVerts nrow ncol)
    (h2 : 2 ≤ nrow * ncol) (hN : nrow * ncol < 1000000) (hb : 0 < b) (hr : ∀ k, b ≤ L.delr k) (hc : ∀ k, b ≤ L.delc k)
    (he : 0 < eps) (hcorner : ∃ m, Corner m ∧ dem m ≠ none) (hrange : ∀ n v, dem n = some v → lo ≤ v ∧ v ≤ hi)
    (hbig : hi + (nrow * ncol : ℕ) * eps - lo < big * b) (htop : hi + (nrow * ncol : ℕ) * eps < big) :
    ∃ v f out,
      (∀ fuel, nrow * ncol + 1 ≤ fuel → Nan.fillNan fuel method g.nbr dem = .ok (Dirs.filled v)) ∧
      (∀ fuel, nrow * ncol + 1 ≤ fuel → Flood.fillSinks fuel (· + eps) flood g v none "priority" = .ok f) ∧
      (∀ fuel, 10 * (nrow * ncol) + 11 ≤ fuel → Dirs.flowDirections fuel L.geo (Dirs.filled f) big
        (Dirs.table (nbrs g)) thr (ends g none f) = .ok out) ∧
      (∀ n x, dem n = some x → x ≤ f n) ∧ (∀ n, lo ≤ f n ∧ f n ≤ hi + (nrow * ncol : ℕ) * eps) ∧
      (Dirs.CleanEnds L.geo (Dirs.filled f) thr (ends g none f) (nbrs g) →
        ∃ d : Fin (nrow * ncol) → Fin (nrow * ncol), Legal out d ∧ (∀ n, ¬ OnCycle d n) ∧
          (∀ n, d n ≠ n → Flood.Adj g.nbr n (d n) ∧ f (d n) < f n) ∧
          ∀ n, ∃ e, Reaches d n e ∧ d e = e ∧ (rowOf e = 0 ∨ rowOf e + 1 = nrow ∨ colOf e = 0 ∨ colOf e + 1 = ncol)) := by
  obtain ⟨v, hv1, hv2, hv3⟩ := C161_returns hm hq hv h2 hcorner hrange
  obtain ⟨f, out, hf, hout, hd⟩ := C160_chain (L := L) (flood := flood) (thr := thr) (dem := v) hq hv h2 hN hb hr hc he
    (fun n => (hv3 n).1) (fun n => (hv3 n).2) hbig htop
  obtain ⟨f', hf', hfn⟩ := C160_fill (flood := flood) (dem := v) hq hv h2 he (fun n => (hv3 n).2)
  have e : f' = f := by
    have := hf' _ le_rfl
    rw [hf _ le_rfl] at this
    cases this; rfl
  subst e
  refine ⟨v, f', out, hv1, hf, hout, fun n x hx => ?_, fun n => ⟨(hv3 n).1.trans (hfn n).1, (hfn n).2.1⟩, hd⟩
  rw [← hv2 n x hx]
  exact (hfn n).1

/-! ### Concrete cases -/

/-- non-vacuity: 40 × 50 cells, a number in the last cell only -/
example : ∃ out : Fin (40 * 50) → ℝ, ∀ fuel, 2001 ≤ fuel → Nan.fillNan fuel "median" (rectGrid 40 50).nbr
    (fun n => if n.val = 1999 then some (7 : ℝ) else none) = .ok (Dirs.filled out) := by
  obtain ⟨out, h, _⟩ := C161_returns (g := rectGrid 40 50) (method := "median")
    (dem := fun n => if n.val = 1999 then some (7 : ℝ) else none) (lo := 7) (hi := 7) (by unfold Nan.Known; decide +kernel)
    (queen_rect 40 50) rfl (by norm_num) ⟨⟨1999, by norm_num⟩, by unfold Corner; decide, by simp⟩
    (by intro n v h; split at h <;> simp_all)
  exact ⟨out, h⟩

/-- and on the same grid with numbers everywhere but in the last 2 × 2 cells, it never returns -/
example (fuel : ℕ) : Nan.fillNan fuel "mean" (rectGrid 40 50).nbr
    (fun n : Fin (40 * 50) => if rowOf n < 38 ∨ colOf n < 48 then some (7 : ℚ) else none) = .hang := by
  refine C161_hangs (by unfold Nan.Known; decide +kernel) (queen_rect 40 50) rfl (by norm_num) ?_ fuel
  rintro m ⟨h1, h2⟩
  rw [if_neg (by omega)]

/-- non-vacuity of `C161_chain`: 3 cells, the first two without number -/
example : ∃ v f out, (∀ fuel, 4 ≤ fuel → Nan.fillNan fuel "mean" (rectGrid 1 3).nbr ![none, none, some 5] =
      .ok (Dirs.filled v)) ∧
    (∀ fuel, 4 ≤ fuel → Flood.fillSinks fuel (· + 1/100) 0 (rectGrid 1 3) v none "priority" = .ok f) ∧
    ∀ fuel, 41 ≤ fuel → Dirs.flowDirections fuel layout13.geo (Dirs.filled f) 10000000000
      (Dirs.table (nbrs (rectGrid 1 3))) (1/1000000) (ends (rectGrid 1 3) none f) = .ok out := by
  obtain ⟨v, f, out, h1, h2, h3, _⟩ := C161_chain (g := rectGrid 1 3) (L := layout13) (eps := 1/100) (flood := 0)
    (big := 10000000000) (thr := 1/1000000) (b := 1) (lo := 5) (hi := 5) (method := "mean")
    (dem := (![none, none, some 5] : Fin 3 → Option ℝ)) (by unfold Nan.Known; decide +kernel)
    (queen_rect 1 3) rfl (by norm_num) (by norm_num) one_pos layout13_r (fun _ => le_refl _) (by norm_num)
    ⟨(2 : Fin 3), by unfold Corner; decide, by simp⟩ (by
      intro n v h
      have : n = 0 ∨ n = 1 ∨ n = 2 := (by decide : ∀ n : Fin (1 * 3), n = 0 ∨ n = 1 ∨ n = 2) n
      rcases this with rfl | rfl | rfl
      · cases h
      · cases h
      · cases h; norm_num) (by norm_num) (by norm_num)
  exact ⟨v, f, out, h1, h2, h3⟩

end Dany.Pipe
