import Verif.Pipe.Mirror

/-!
# C208: a DEM turned by a quarter gives turned results

The other four of the eight symmetries of a structured grid: rows become columns.  The turned grid has the same number of
cells, in a type that differs (`Fin (ncol * nrow)`), so the general step is made for two cell types.
-/

namespace Dany.Pipe

open Flow

/-- Two grids, their cells numbered by `Fin N` and `Fin N'`, correspond: same edge, neighbours, distances, elevations and
terminal cells.  Both chains of calls then give corresponding results. -/
theorem C208_general {N N' : ℕ} {σ : Fin N ≃ Fin N'} {g : Flood.Grid N} {g' : Flood.Grid N'} {G : Dirs.Geo N ℝ}
    {G' : Dirs.Geo N' ℝ}
    (hedge : ∀ n, Edge.OnEdge g'.iverts (σ n) ↔ Edge.OnEdge g.iverts n)
    (hadj : ∀ a b, Flood.Adj g'.nbr (σ a) (σ b) ↔ Flood.Adj g.nbr a b)
    (hgood : GoodGrid g none) (hgood' : GoodGrid g' none) (hrnd : G'.rnd = G.rnd)
    (hdist : ∀ n m, G'.dist (σ n) (σ m) = G.dist n m)
    {fuel fuel' : ℕ} {eps flood : ℝ} (he : 0 ≤ eps)
    {dem f : Fin N → ℝ} {dem' f' : Fin N' → ℝ} (hdem : ∀ n, dem' (σ n) = dem n) (hfl : ∀ n, dem n ≤ flood) {method : String}
    (hm : method.toLower = "complete" ∨ Flood.effective (none : Option (Fin N → Bool)) method = .drain)
    (hf : Flood.fillSinks fuel (· + eps) flood g dem none method = .ok f)
    (hf' : Flood.fillSinks fuel' (· + eps) flood g' dem' none method = .ok f')
    {thr big : ℝ} (hb : Dirs.Below G (Dirs.filled f) thr big (nbrs g))
    (hnt : Dirs.NoTies G (Dirs.filled f) thr (nbrs g)) {terminals terminals' : List ℤ}
    (ht : Dirs.InRange N terminals) (ht' : Dirs.InRange N' terminals')
    (hterm : ∀ n, ((σ n : ℕ) : ℤ) ∈ terminals' ↔ ((n : ℕ) : ℤ) ∈ terminals)
    {k k' : ℕ} {out : Fin N → ℤ} {out' : Fin N' → ℤ}
    (ho : Dirs.flowDirections k G (Dirs.filled f) big (Dirs.table (nbrs g)) thr terminals = .ok out)
    (ho' : Dirs.flowDirections k' G' (Dirs.filled f') big (Dirs.table (nbrs g')) thr terminals' = .ok out')
    {area facc : Fin N → ℝ} {area' facc' : Fin N' → ℝ} (harea : ∀ n, area' (σ n) = area n) {l l' : ℕ}
    (ha : Acc.flowAccumulation l out area false = .ok facc)
    (ha' : Acc.flowAccumulation l' out' area' false = .ok facc') :
    (∀ n, f' (σ n) = f n) ∧ ∃ (d : Fin N → Fin N) (d' : Fin N' → Fin N'), Legal out d ∧ Legal out' d' ∧
      (∀ n, d' (σ n) = σ (d n)) ∧ ∀ n, ¬ OnCycle d n → facc' (σ n) = facc n := by
  obtain rfl : N = N' := Fin.equiv_iff_eq.1 ⟨σ⟩
  have hren : Flood.Renumbered σ g g' := ⟨hedge, hadj⟩
  have hinf : ∀ x : ℝ, x ≤ x + eps := fun x => by linarith
  have hfill : ∀ n, f' (σ n) = f n := by
    intro n
    rcases hm with hm | hm
    · exact Flood.C123_complete hren hinf hm hdem hf hf' n
    · exact Flood.C123_drain hren hinf (fun _ _ h => by dsimp only; linarith) hm hfl hdem hf hf' n
  have hR : Dirs.Renumbered σ G G' (Dirs.filled f) (Dirs.filled f') (nbrs g) (nbrs g') terminals terminals' :=
    { rnd := hrnd
      dist := hdist
      elev := fun n => by simp only [Dirs.filled, hfill]
      adj := fun n m => by
        unfold nbrs
        rw [mem_inRange, mem_inRange]
        exact hadj n m
      nodup := nodup_nbrs hgood
      nodup' := nodup_nbrs hgood'
      term := hterm
      inRange := ht
      inRange' := ht' }
  have hn : Dirs.HasNbr (Dirs.filled f) (nbrs g) := by
    intro n _
    obtain ⟨m, hm⟩ := List.exists_mem_of_ne_nil _ (hgood.some n)
    exact ⟨m, hm, by simp [Dirs.filled]⟩
  have hflow : SameFlow σ out out' := Dirs.C135_numbering hR hb hn hnt ho ho'
  have hval := Dirs.C135_value ht hb hn (nodup_nbrs hgood) hnt ho
  choose d hd _ using hval
  have hlegal : Legal out d := hd
  have hlegal' : Legal out' (fun n => σ (d (σ.symm n))) := by
    intro n
    obtain ⟨n, rfl⟩ := σ.surjective n
    show out' (σ n) = ((σ (d (σ.symm (σ n))) : ℕ) : ℤ)
    rw [σ.symm_apply_apply]
    exact (hflow n (d n)).1 (hd n)
  refine ⟨hfill, d, _, hlegal, hlegal', fun n => by rw [σ.symm_apply_apply], fun n hc1 => ?_⟩
  exact C190_accumulation hflow hlegal hlegal' harea ha ha' n hc1

variable {nrow ncol : ℕ}

/-- Cell `n` is mapped to the cell whose row is the column of `n`, counted from the other end if `ns`, and whose column is the
row of `n`, counted from the other end if `ew`: `ns` alone is a quarter turn to the left, `ew` alone one to the right, neither
is transposition, both is transposition along the other diagonal. -/
structure Turn (σ : Fin (nrow * ncol) ≃ Fin (ncol * nrow)) (ns ew : Bool) : Prop where
  row : ∀ n, rowOf (σ n) = if ns then ncol - 1 - colOf n else colOf n
  col : ∀ n, colOf (σ n) = if ew then nrow - 1 - rowOf n else rowOf n

variable {σ : Fin (nrow * ncol) ≃ Fin (ncol * nrow)} {ns ew : Bool} {g : Flood.Grid (nrow * ncol)}
  {g' : Flood.Grid (ncol * nrow)} {L : Layout nrow ncol} {L' : Layout ncol nrow}

theorem turn_edge (hσ : Turn σ ns ew) (hv : g.iverts = Edge.structuredVerts nrow ncol)
    (hv' : g'.iverts = Edge.structuredVerts ncol nrow) (n : Fin (nrow * ncol)) :
    Edge.OnEdge g'.iverts (σ n) ↔ Edge.OnEdge g.iverts n := by
  rw [onEdge_iff hv', onEdge_iff hv, hσ.row, hσ.col]
  have := rowOf_lt n
  have := colOf_lt n
  cases ns <;> cases ew <;> simp <;> omega

theorem turn_adj (hσ : Turn σ ns ew) (hq : Queen g) (hv : g.iverts = Edge.structuredVerts nrow ncol)
    (hq' : Queen g') (hv' : g'.iverts = Edge.structuredVerts ncol nrow) (a b : Fin (nrow * ncol)) :
    Flood.Adj g'.nbr (σ a) (σ b) ↔ Flood.Adj g.nbr a b := by
  rw [C160_neighbours hq' hv', C160_neighbours hq hv, hσ.row, hσ.row, hσ.col, hσ.col, σ.injective.ne_iff]
  have := rowOf_lt a
  have := colOf_lt a
  have := rowOf_lt b
  have := colOf_lt b
  refine and_congr_right fun _ => ?_
  cases ns <;> cases ew <;> simp <;> omega

/-- turning keeps distances -/
theorem turn_dist (hσ : Turn σ ns ew) (hr : Flipped nrow ew L.delc L'.delr) (hc : Flipped ncol ns L.delr L'.delc)
    (n m : Fin (nrow * ncol)) : L'.geo.dist (σ n) (σ m) = L.geo.dist n m := by
  rw [dist_eq, dist_eq]
  have hu := middle_gap hr (rowOf_lt n) (rowOf_lt m)
  have hv := middle_gap hc (colOf_lt n) (colOf_lt m)
  have h1 : (L'.u (σ m) - L'.u (σ n)) ^ 2 = (L.v m - L.v n) ^ 2 := by
    unfold Layout.u Layout.v
    rw [hσ.col, hσ.col]
    linear_combination hu
  have h2 : (L'.v (σ m) - L'.v (σ n)) ^ 2 = (L.u m - L.u n) ^ 2 := by
    unfold Layout.u Layout.v
    rw [hσ.row, hσ.row]
    linear_combination hv
  rw [h1, h2, add_comm]

/-- areas of turned cells -/
theorem turn_area (hσ : Turn σ ns ew) (hr : Flipped nrow ew L.delc L'.delr) (hc : Flipped ncol ns L.delr L'.delc)
    (n : Fin (nrow * ncol)) :
    L'.delr (colOf (σ n)) * L'.delc (rowOf (σ n)) = L.delr (colOf n) * L.delc (rowOf n) := by
  have h1 := colOf_lt n
  have h2 := rowOf_lt n
  rw [hr _ (colOf_lt _), hc _ (rowOf_lt _), hσ.row, hσ.col, mul_comm]
  cases ns <;> cases ew <;> simp only [Bool.false_eq_true, if_false, if_true]
  · rw [show nrow - 1 - (nrow - 1 - rowOf n) = rowOf n by omega]
  · rw [show ncol - 1 - (ncol - 1 - colOf n) = colOf n by omega]
  · rw [show ncol - 1 - (ncol - 1 - colOf n) = colOf n by omega, show nrow - 1 - (nrow - 1 - rowOf n) = rowOf n by omega]

/-- **C208.**  A structured grid and the same turned by a quarter or transposed (row heights become column widths and the
other way round), with a turned DEM: 'complete' and 'drain' fill it to the turned surface; where that has no ties, water
flows from cell to cell as in the turned grid, with turned terminal cells; and accumulated areas are turned (on cells of no
flow cycle). -/
theorem C208_chain (hσ : Turn σ ns ew) (hq : Queen g) (hv : g.iverts = Edge.structuredVerts nrow ncol)
    (hq' : Queen g') (hv' : g'.iverts = Edge.structuredVerts ncol nrow) (h2 : 2 ≤ nrow * ncol)
    (hr : Flipped nrow ew L.delc L'.delr) (hc : Flipped ncol ns L.delr L'.delc)
    {fuel fuel' : ℕ} {eps flood : ℝ} (he : 0 ≤ eps)
    {dem f : Fin (nrow * ncol) → ℝ} {dem' f' : Fin (ncol * nrow) → ℝ}
    (hdem : ∀ n, dem' (σ n) = dem n) (hfl : ∀ n, dem n ≤ flood) {method : String}
    (hm : method.toLower = "complete" ∨ Flood.effective (none : Option (Fin (nrow * ncol) → Bool)) method = .drain)
    (hf : Flood.fillSinks fuel (· + eps) flood g dem none method = .ok f)
    (hf' : Flood.fillSinks fuel' (· + eps) flood g' dem' none method = .ok f')
    {thr big : ℝ} (hb : Dirs.Below L.geo (Dirs.filled f) thr big (nbrs g))
    (hnt : Dirs.NoTies L.geo (Dirs.filled f) thr (nbrs g)) {terminals terminals' : List ℤ}
    (ht : Dirs.InRange (nrow * ncol) terminals) (ht' : Dirs.InRange (ncol * nrow) terminals')
    (hterm : ∀ n, ((σ n : ℕ) : ℤ) ∈ terminals' ↔ ((n : ℕ) : ℤ) ∈ terminals)
    {k k' : ℕ} {out : Fin (nrow * ncol) → ℤ} {out' : Fin (ncol * nrow) → ℤ}
    (ho : Dirs.flowDirections k L.geo (Dirs.filled f) big (Dirs.table (nbrs g)) thr terminals = .ok out)
    (ho' : Dirs.flowDirections k' L'.geo (Dirs.filled f') big (Dirs.table (nbrs g')) thr terminals' = .ok out')
    {l l' : ℕ} {facc : Fin (nrow * ncol) → ℝ} {facc' : Fin (ncol * nrow) → ℝ}
    (ha : Acc.flowAccumulation l out (fun n => L.delr (colOf n) * L.delc (rowOf n)) false = .ok facc)
    (ha' : Acc.flowAccumulation l' out' (fun n => L'.delr (colOf n) * L'.delc (rowOf n)) false = .ok facc') :
    (∀ n, f' (σ n) = f n) ∧ ∃ (d : Fin (nrow * ncol) → Fin (nrow * ncol)) (d' : Fin (ncol * nrow) → Fin (ncol * nrow)),
      Legal out d ∧ Legal out' d' ∧ (∀ n, d' (σ n) = σ (d n)) ∧ ∀ n, ¬ OnCycle d n → facc' (σ n) = facc n :=
  C208_general (turn_edge hσ hv hv') (turn_adj hσ hq hv hq' hv') (C160_good hq hv h2 (by simp))
    (C160_good hq' hv' (by rw [Nat.mul_comm]; exact h2) (by simp)) rfl (turn_dist hσ hr hc) he hdem hfl hm hf hf' hb hnt ht
    ht' hterm ho ho' (turn_area hσ hr hc) ha ha'

/-- **C208.**  Every structured grid can be turned. -/
theorem C208_turns (nrow ncol : ℕ) (ns ew : Bool) :
    ∃ σ : Fin (nrow * ncol) ≃ Fin (ncol * nrow), Turn σ ns ew := by
  have hex : ∀ n : Fin (nrow * ncol), ∃ m : Fin (ncol * nrow),
      rowOf m = (if ns then ncol - 1 - colOf n else colOf n) ∧ colOf m = if ew then nrow - 1 - rowOf n else rowOf n := by
    intro n
    have h1 := rowOf_lt n
    have h2 := colOf_lt n
    exact cell_mk (by split <;> omega) (by split <;> omega)
  choose f hf using hex
  have inj : Function.Injective f := by
    intro n m h
    have h1 := rowOf_lt n
    have h2 := colOf_lt n
    have h3 := rowOf_lt m
    have h4 := colOf_lt m
    have hr := (hf n).1
    have hc := (hf n).2
    rw [h, (hf m).1] at hr
    rw [h, (hf m).2] at hc
    refine cell_ext ?_ ?_
    · split at hc <;> omega
    · split at hr <;> omega
  have bij : Function.Bijective f := (Fintype.bijective_iff_injective_and_card f).2 ⟨inj, by simp [Nat.mul_comm]⟩
  exact ⟨Equiv.ofBijective f bij, fun n => (hf n).1, fun n => (hf n).2⟩

end Dany.Pipe
