import Verif.Pipe.Renumber
import Verif.Pipe.RectWitness
import Verif.Flood.Compare

/-!
# C205: a mirrored DEM gives mirrored results
-/

namespace Dany.Pipe

open Flow

variable {nrow ncol : ℕ}

/-- Cell `n` is mapped to cell `σ n` by exchanging first and last row (`ns`), first and last column (`ew`), or both
(half a turn). -/
structure Mirror (σ : Fin (nrow * ncol) ≃ Fin (nrow * ncol)) (ns ew : Bool) : Prop where
  row : ∀ n, rowOf (σ n) = if ns then nrow - 1 - rowOf n else rowOf n
  col : ∀ n, colOf (σ n) = if ew then ncol - 1 - colOf n else colOf n

/-- widths listed from the other end -/
def Flipped (K : ℕ) (flip : Bool) (w w' : ℕ → ℝ) : Prop := ∀ k < K, w' k = if flip then w (K - 1 - k) else w k

variable {σ : Fin (nrow * ncol) ≃ Fin (nrow * ncol)} {ns ew : Bool} {g g' : Flood.Grid (nrow * ncol)}
  {L L' : Layout nrow ncol}

/-- mirroring keeps edge and neighbours -/
theorem mirror_grid (hσ : Mirror σ ns ew) (hq : Queen g) (hv : g.iverts = Edge.structuredVerts nrow ncol)
    (hq' : Queen g') (hv' : g'.iverts = Edge.structuredVerts nrow ncol) : Flood.Renumbered σ g g' where
  edge n := by
    rw [onEdge_iff hv', onEdge_iff hv, hσ.row, hσ.col]
    have := rowOf_lt n
    have := colOf_lt n
    cases ns <;> cases ew <;> simp <;> omega
  adj a b := by
    rw [C160_neighbours hq' hv', C160_neighbours hq hv, hσ.row, hσ.row, hσ.col, hσ.col, σ.injective.ne_iff]
    have := rowOf_lt a
    have := colOf_lt a
    have := rowOf_lt b
    have := colOf_lt b
    refine and_congr_right fun _ => ?_
    cases ns <;> cases ew <;> simp <;> omega

/-- the middle of an interval, seen from the other end -/
theorem middle_flip {K k : ℕ} {w w' : ℕ → ℝ} (hw : Flipped K true w w') (hk : k < K) :
    middle w' (K - 1 - k) = (∑ i ∈ Finset.range K, w i) - middle w k := by
  have hw1 : ∀ i < K, w' i = w (K - 1 - i) := fun i hi => by simpa using hw i hi
  unfold middle
  rw [hw1 _ (by omega), show K - 1 - (K - 1 - k) = k by omega]
  have h1 : ∑ i ∈ Finset.range (K - 1 - k), w' i = ∑ i ∈ Finset.Ico (k + 1) K, w i := by
    refine Finset.sum_bij (fun i _ => K - 1 - i) ?_ ?_ ?_ ?_
    · intro i hi
      rw [Finset.mem_range] at hi
      rw [Finset.mem_Ico]
      omega
    · intro i hi j hj e
      rw [Finset.mem_range] at hi hj
      omega
    · intro j hj
      rw [Finset.mem_Ico] at hj
      exact ⟨K - 1 - j, by rw [Finset.mem_range]; omega, by omega⟩
    · intro i hi
      rw [Finset.mem_range] at hi
      exact hw1 i (by omega)
  have h2 := Finset.sum_range_add_sum_Ico w (show k + 1 ≤ K by omega)
  rw [Finset.sum_range_succ] at h2
  rw [h1]
  linarith

theorem middle_same {K k : ℕ} {w w' : ℕ → ℝ} (hw : Flipped K false w w') (hk : k < K) : middle w' k = middle w k := by
  have hw1 : ∀ i < K, w' i = w i := fun i hi => by simpa using hw i hi
  unfold middle
  rw [hw1 _ hk]
  congr 1
  exact Finset.sum_congr rfl fun i hi => hw1 i (by rw [Finset.mem_range] at hi; omega)

theorem middle_gap {K i j : ℕ} {flip : Bool} {w w' : ℕ → ℝ} (hw : Flipped K flip w w') (hi : i < K) (hj : j < K) :
    (middle w' (if flip then K - 1 - j else j) - middle w' (if flip then K - 1 - i else i)) ^ 2 =
      (middle w j - middle w i) ^ 2 := by
  cases flip with
  | false =>
    simp only [Bool.false_eq_true, if_false]
    rw [middle_same hw hi, middle_same hw hj]
  | true =>
    simp only [if_true]
    rw [middle_flip hw hi, middle_flip hw hj]
    ring

/-- mirroring keeps distances, also if the grids lie elsewhere and are turned -/
theorem mirror_dist (hσ : Mirror σ ns ew) (hr : Flipped ncol ew L.delr L'.delr) (hc : Flipped nrow ns L.delc L'.delc)
    (n m : Fin (nrow * ncol)) : L'.geo.dist (σ n) (σ m) = L.geo.dist n m := by
  rw [dist_eq, dist_eq]
  have hu := middle_gap hr (colOf_lt n) (colOf_lt m)
  have hv := middle_gap hc (rowOf_lt n) (rowOf_lt m)
  have h1 : (L'.u (σ m) - L'.u (σ n)) ^ 2 = (L.u m - L.u n) ^ 2 := by
    unfold Layout.u
    rw [hσ.col, hσ.col]
    exact hu
  have h2 : (L'.v (σ m) - L'.v (σ n)) ^ 2 = (L.v m - L.v n) ^ 2 := by
    unfold Layout.v
    rw [hσ.row, hσ.row]
    linear_combination hv
  rw [h1, h2]

/-- areas of mirrored cells -/
theorem mirror_area (hσ : Mirror σ ns ew) (hr : Flipped ncol ew L.delr L'.delr) (hc : Flipped nrow ns L.delc L'.delc)
    (n : Fin (nrow * ncol)) :
    L'.delr (colOf (σ n)) * L'.delc (rowOf (σ n)) = L.delr (colOf n) * L.delc (rowOf n) := by
  have h1 := colOf_lt n
  have h2 := rowOf_lt n
  rw [hr _ (colOf_lt _), hc _ (rowOf_lt _), hσ.row, hσ.col]
  cases ns <;> cases ew <;> simp only [Bool.false_eq_true, if_false, if_true]
  · rw [show ncol - 1 - (ncol - 1 - colOf n) = colOf n by omega]
  · rw [show nrow - 1 - (nrow - 1 - rowOf n) = rowOf n by omega]
  · rw [show ncol - 1 - (ncol - 1 - colOf n) = colOf n by omega, show nrow - 1 - (nrow - 1 - rowOf n) = rowOf n by omega]

/-- **C205** (filling). -/
theorem C205_fill (hσ : Mirror σ ns ew) (hq : Queen g) (hv : g.iverts = Edge.structuredVerts nrow ncol)
    (hq' : Queen g') (hv' : g'.iverts = Edge.structuredVerts nrow ncol) {fuel fuel' : ℕ} {eps flood : ℝ} (he : 0 ≤ eps)
    {dem dem' f f' : Fin (nrow * ncol) → ℝ} (hdem : ∀ n, dem' (σ n) = dem n) (hfl : ∀ n, dem n ≤ flood) {method : String}
    (hm : method.toLower = "complete" ∨ Flood.effective (none : Option (Fin (nrow * ncol) → Bool)) method = .drain)
    (hf : Flood.fillSinks fuel (· + eps) flood g dem none method = .ok f)
    (hf' : Flood.fillSinks fuel' (· + eps) flood g' dem' none method = .ok f') (n : Fin (nrow * ncol)) :
    f' (σ n) = f n := by
  have hinf : ∀ x : ℝ, x ≤ x + eps := fun x => by linarith
  rcases hm with hm | hm
  · exact Flood.C123_complete (mirror_grid hσ hq hv hq' hv') hinf hm hdem hf hf' n
  · exact Flood.C123_drain (mirror_grid hσ hq hv hq' hv') hinf (fun _ _ h => by dsimp only; linarith) hm hfl hdem hf hf' n

/-- **C205**, method 'priority': the mirrored surface differs (`C205_priority_differs`), but by no more than the rise over all
cells of the grid. -/
theorem C205_priority (hσ : Mirror σ ns ew) (hq : Queen g) (hv : g.iverts = Edge.structuredVerts nrow ncol)
    (hq' : Queen g') (hv' : g'.iverts = Edge.structuredVerts nrow ncol) {fuel fuel' : ℕ} {eps flood : ℝ} (he : 0 ≤ eps)
    {dem dem' f f' : Fin (nrow * ncol) → ℝ} (hdem : ∀ n, dem' (σ n) = dem n) {method : String}
    (hm : method.toLower = "priority")
    (hf : Flood.fillSinks fuel (· + eps) flood g dem none method = .ok f)
    (hf' : Flood.fillSinks fuel' (· + eps) flood g' dem' none method = .ok f') (n : Fin (nrow * ncol)) :
    |f' (σ n) - f n| ≤ (nrow * ncol : ℕ) * eps := by
  have hinf : ∀ x : ℝ, x ≤ x + eps := fun x => by linarith
  have iter : ∀ (k : ℕ) (x : ℝ), (· + eps)^[k] x = x + k * eps := by
    intro k
    induction k with
    | zero => intro x; simp
    | succ k ih => intro x; rw [Function.iterate_succ_apply', ih]; push_cast; ring
  obtain ⟨h1, h2⟩ := Flood.C123_priority (mirror_grid hσ hq hv hq' hv') hinf (fun _ _ h => by simpa using h) hm hdem
    hf hf' n
  rw [iter] at h1 h2
  rw [abs_le]
  constructor <;> linarith

/-- **C205.**  A structured grid and the same mirrored (widths listed from the other end, anywhere, at any angle), with a
mirrored DEM: 'complete' and 'drain' fill it to the mirrored surface; where that has no ties, water flows from cell to
cell as in the mirror, with mirrored terminal cells; and accumulated areas are mirrored (on cells of no flow cycle). -/
theorem C205_chain (hσ : Mirror σ ns ew) (hq : Queen g) (hv : g.iverts = Edge.structuredVerts nrow ncol)
    (hq' : Queen g') (hv' : g'.iverts = Edge.structuredVerts nrow ncol) (h2 : 2 ≤ nrow * ncol)
    (hr : Flipped ncol ew L.delr L'.delr) (hc : Flipped nrow ns L.delc L'.delc)
    {fuel fuel' : ℕ} {eps flood : ℝ} (he : 0 ≤ eps)
    {dem dem' f f' : Fin (nrow * ncol) → ℝ} (hdem : ∀ n, dem' (σ n) = dem n) (hfl : ∀ n, dem n ≤ flood) {method : String}
    (hm : method.toLower = "complete" ∨ Flood.effective (none : Option (Fin (nrow * ncol) → Bool)) method = .drain)
    (hf : Flood.fillSinks fuel (· + eps) flood g dem none method = .ok f)
    (hf' : Flood.fillSinks fuel' (· + eps) flood g' dem' none method = .ok f')
    {thr big : ℝ} (hb : Dirs.Below L.geo (Dirs.filled f) thr big (nbrs g))
    (hnt : Dirs.NoTies L.geo (Dirs.filled f) thr (nbrs g)) {terminals terminals' : List ℤ}
    (ht : Dirs.InRange (nrow * ncol) terminals) (ht' : Dirs.InRange (nrow * ncol) terminals')
    (hterm : ∀ n, ((σ n : ℕ) : ℤ) ∈ terminals' ↔ ((n : ℕ) : ℤ) ∈ terminals)
    {k k' : ℕ} {out out' : Fin (nrow * ncol) → ℤ}
    (ho : Dirs.flowDirections k L.geo (Dirs.filled f) big (Dirs.table (nbrs g)) thr terminals = .ok out)
    (ho' : Dirs.flowDirections k' L'.geo (Dirs.filled f') big (Dirs.table (nbrs g')) thr terminals' = .ok out')
    {l l' : ℕ} {facc facc' : Fin (nrow * ncol) → ℝ}
    (ha : Acc.flowAccumulation l out (fun n => L.delr (colOf n) * L.delc (rowOf n)) false = .ok facc)
    (ha' : Acc.flowAccumulation l' out' (fun n => L'.delr (colOf n) * L'.delc (rowOf n)) false = .ok facc') :
    (∀ n, f' (σ n) = f n) ∧ ∃ d d' : Fin (nrow * ncol) → Fin (nrow * ncol), Legal out d ∧ Legal out' d' ∧
      (∀ n, d' (σ n) = σ (d n)) ∧ ∀ n, ¬ OnCycle d n → facc' (σ n) = facc n := by
  have hfill := C205_fill hσ hq hv hq' hv' he hdem hfl hm hf hf'
  have hg := C160_good hq hv h2 (mask := none) (by simp)
  have hg' := C160_good hq' hv' h2 (mask := none) (by simp)
  have hR : Dirs.Renumbered σ L.geo L'.geo (Dirs.filled f) (Dirs.filled f') (nbrs g) (nbrs g') terminals terminals' :=
    { rnd := rfl
      dist := mirror_dist hσ hr hc
      elev := fun n => by simp only [Dirs.filled, hfill]
      adj := fun n m => by
        unfold nbrs
        rw [mem_inRange, mem_inRange]
        exact (mirror_grid hσ hq hv hq' hv').adj n m
      nodup := nodup_nbrs hg
      nodup' := nodup_nbrs hg'
      term := hterm
      inRange := ht
      inRange' := ht' }
  have hn : Dirs.HasNbr (Dirs.filled f) (nbrs g) := by
    intro n _
    obtain ⟨m, hm⟩ := List.exists_mem_of_ne_nil _ (hg.some n)
    exact ⟨m, hm, by simp [Dirs.filled]⟩
  have hflow : SameFlow σ out out' := Dirs.C135_numbering hR hb hn hnt ho ho'
  have hval := Dirs.C135_value ht hb hn (nodup_nbrs hg) hnt ho
  choose d hd _ using hval
  have hlegal : Legal out d := hd
  have hlegal' : Legal out' (fun n => σ (d (σ.symm n))) := by
    intro n
    obtain ⟨n, rfl⟩ := σ.surjective n
    show out' (σ n) = ((σ (d (σ.symm (σ n))) : ℕ) : ℤ)
    rw [σ.symm_apply_apply]
    exact (hflow n (d n)).1 (hd n)
  refine ⟨hfill, d, _, hlegal, hlegal', fun n => by rw [σ.symm_apply_apply], fun n hc1 => ?_⟩
  exact C190_accumulation hflow hlegal hlegal' (mirror_area hσ hr hc) ha ha' n hc1

end Dany.Pipe
