import Verif.Flood.Props

/-!
# Concrete runs of `fill_sinks`: the hypotheses of C01–C14 are satisfiable, C14 is refuted
-/

namespace Dany.Flood

/-- Queen neighbours on an `nrow × ncol` grid (what FloPy returns for a regular grid). -/
def queen (nrow ncol : ℕ) (n : Fin (nrow * ncol)) : List ℕ :=
  (List.range (nrow * ncol)).filter fun k =>
    k ≠ n.val ∧ k / ncol ≤ n.val / ncol + 1 ∧ n.val / ncol ≤ k / ncol + 1 ∧
      k % ncol ≤ n.val % ncol + 1 ∧ n.val % ncol ≤ k % ncol + 1

def rect (nrow ncol : ℕ) : Grid (nrow * ncol) := ⟨Edge.structuredVerts nrow ncol, queen nrow ncol⟩

/-- 4 × 4 grid with a two-cell pit in the interior. -/
def g44 : Grid 16 := rect 4 4

def dem44 : Fin 16 → ℚ := ![9, 9, 9, 9, 9, 1, 2, 7, 9, 8, 6, 9, 9, 9, 9, 5]
/-- priority fill of `dem44` with eps = 1/2 -/
def out44 : Fin 16 → ℚ := ![9, 9, 9, 9, 9, 13/2, 13/2, 7, 9, 8, 6, 9, 9, 9, 9, 5]
/-- complete fill of `dem44` -/
def com44 : Fin 16 → ℚ := ![9, 9, 9, 9, 9, 6, 6, 7, 9, 8, 6, 9, 9, 9, 9, 5]

def rs (x : ℚ) : ℚ := x + 1/2

theorem rs_lt (x : ℚ) : x < rs x := by unfold rs; linarith
theorem rs_mono : Monotone rs := fun a b h => by unfold rs; linarith

theorem run_priority : fillSinks 17 rs 100 g44 dem44 none "Priority" = .ok out44 := by decide +kernel
theorem run_complete : fillSinks 17 rs 100 g44 dem44 none "complete" = .ok com44 := by decide +kernel
theorem run_drain : fillSinks 9 rs 100 g44 dem44 none "drain" = .ok out44 := by decide +kernel
theorem run_drain0 : fillSinks 9 id 100 g44 dem44 none "drain" = .ok com44 := by decide +kernel

theorem symm44 : SymmNbr g44.nbr := by unfold SymmNbr Adj; decide +kernel
theorem edge44 : Edge.OnEdge g44.iverts 15 := by
  have h : Edge.edgeNodes g44.iverts = .ok [0, 1, 2, 3, 4, 7, 8, 11, 12, 13, 14, 15] := by
    decide +kernel
  exact ((Edge.C15_edge_nodes h).2 15).1 (by decide)
theorem reach44 : Reach g44.nbr (Edge.OnEdge g44.iverts) 5 :=
  .step (c := 10) (.step (c := 15) (.seed edge44) (by unfold Adj; decide +kernel))
    (by unfold Adj; decide +kernel)

-- C01, C02
example : dem44 5 ≤ out44 5 :=
  C01_never_lowers (fun x => (rs_lt x).le) (by decide +kernel) run_priority 5
example : out44 15 = dem44 15 := C02_edges_unchanged (fun x => (rs_lt x).le) run_drain 15 edge44
-- C03
example : Drains (· < ·) g44.nbr out44 (Edge.OnEdge g44.iverts) 5 :=
  C03_drains_strictly rs_lt symm44 (by decide +kernel) run_priority 5 reach44
example : Drains (· ≤ ·) g44.nbr com44 (Edge.OnEdge g44.iverts) 5 :=
  C03_complete_drains (fun x => (rs_lt x).le) symm44 (by decide +kernel) run_complete 5 reach44
example : Drains (· < ·) g44.nbr out44 (Edge.OnEdge g44.iverts) 5 :=
  C03_drain_drains (fun x => (rs_lt x).le) (fun x _ => rs_lt x) rs_mono (by decide +kernel) (by decide +kernel) run_drain 5
    (by decide +kernel)
-- C06–C09
example : IsSpill g44.nbr dem44 (Edge.OnEdge g44.iverts) 5 6 :=
  C06_spill (by decide +kernel) run_complete 5 reach44
theorem run_complete2 : fillSinks 17 rs 100 g44 com44 none "complete" = .ok com44 := by
  decide +kernel
example : com44 = com44 := C07_idempotent (by decide +kernel) run_complete run_complete2
example : com44 5 ≤ com44 5 :=
  C08_monotone (dem := dem44) (dem' := com44) (by decide +kernel) (by decide +kernel) run_complete run_complete2 5
example : ∃ w, IsSpill g44.nbr dem44 (Edge.OnEdge g44.iverts) 5 w ∧ w ≤ out44 5 ∧ out44 5 ≤ rs^[16] w :=
  C09_overfill (fun x => (rs_lt x).le) rs_mono (by decide +kernel) run_priority 5 reach44
-- C10–C12
example : IsLeast {v | v = 100 ∨ PathRise rs g44.nbr dem44 (Edge.OnEdge g44.iverts) 5 v} (13/2) :=
  C10_drain_least (fun x => (rs_lt x).le) rs_mono (by decide +kernel) (by decide +kernel) run_drain 5
example : ∃ out F, ∀ fuel, F ≤ fuel →
    fillSinks fuel (· + 1/2) 100 g44 dem44 none "drain" = .ok out :=
  C11_drain_terminates_rat (by decide +kernel) (by decide +kernel) (by decide +kernel) (by norm_num)
    (by decide +kernel)
example : com44 5 = com44 5 :=
  C12_drain_eq_complete symm44 (by decide +kernel) (by decide +kernel) (by decide +kernel) run_drain0
    run_complete 5 reach44

/-- A cell cut off from the edge (C04): a 3 × 3 grid whose centre has no neighbours. -/
def gIso : Grid 9 := ⟨Edge.structuredVerts 3 3, fun n => if n = 4 then [] else
  (queen 3 3 n).filter (· ≠ 4)⟩
theorem run_iso : fillSinks 10 rs 100 gIso ![9, 9, 9, 9, 1, 9, 9, 9, 9] none "priority" =
    .ok ![9, 9, 9, 9, 1, 9, 9, 9, 9] := by decide +kernel
theorem not_reach_iso : ¬ Reach gIso.nbr (Outlet gIso none) 4 := by
  intro h
  generalize hk : (4 : Fin 9) = k at h
  cases h with
  | seed h =>
    subst hk
    have he : Edge.edgeNodes gIso.iverts = .ok [0, 1, 2, 3, 5, 6, 7, 8] := by decide +kernel
    have := ((Edge.C15_edge_nodes he).2 4).2 h
    revert this; decide
  | @step c _ _ ha =>
    subst hk
    have : ∀ c : Fin 9, ¬ Adj gIso.nbr c 4 := by unfold Adj; decide +kernel
    exact this c ha
example : (![9, 9, 9, 9, 1, 9, 9, 9, 9] : Fin 9 → ℚ) 4 = (![9, 9, 9, 9, 1, 9, 9, 9, 9] : Fin 9 → ℚ) 4 :=
  C04_disconnected (fun x => (rs_lt x).le) (by decide +kernel) run_iso 4 not_reach_iso

/-! ### stream mask -/

/-- A row of four stream cells with a two-cell hollow. -/
def g14 : Grid 4 := rect 1 4
def dem14 : Fin 4 → ℚ := ![10, 1, 2, 10]
def out14 : Fin 4 → ℚ := ![10, 5/2, 3, 10]
theorem run_stream : fillSinks 5 rs 100 g14 dem14 (some fun _ => true) "drain" = .ok out14 := by
  decide +kernel

/-- **C14 is false of the code**: the second stream cell has two neighbouring stream cells and ends
lower than both, because its pit is filled before its neighbour's. -/
theorem C14_refuted : ∃ (g : Grid 4) (dem out : Fin 4 → ℚ) (m : Fin 4 → Bool),
    SymmNbr g.nbr ∧ fillSinks 5 (· + 1/2) 100 g dem (some m) "priority" = .ok out ∧
    m 1 = true ∧ 2 ≤ ((inRange 4 (g.nbr 1)).filter (fun k => m k)).length ∧
    ∀ k, Adj g.nbr 1 k → m k = true → out 1 < out k :=
  ⟨g14, dem14, out14, fun _ => true, by unfold SymmNbr Adj; decide +kernel, by decide +kernel, rfl,
    by decide +kernel, by unfold Adj; decide +kernel⟩

-- the partial theorem and C13 apply to this run
example : ∃ k, Adj g14.nbr 1 k ∧ true = true ∧ out14 k ≤ rs (out14 1) :=
  C14_stream_pits_partial (m := fun _ => true) (fun x => (rs_lt x).le) rs_mono
    (by unfold SymmNbr Adj; decide +kernel) run_stream 1 rfl (by decide +kernel)

/-- Mask on a 4 × 4 grid: cells 9, 10, 15 are streams. -/
def m44 : Fin 16 → Bool := fun n => n = 9 ∨ n = 10 ∨ n = 15
def mout44 : Fin 16 → ℚ := ![9, 9, 9, 9, 9, 13/2, 13/2, 7, 9, 8, 6, 9, 9, 9, 9, 5]
theorem run_mask : fillSinks 17 rs 100 g44 dem44 (some m44) "priority" = .ok mout44 := by decide +kernel
example : Drains (· < ·) g44.nbr mout44 (fun k => m44 k = true) 5 :=
  C13_stream_mask_drains rs_lt symm44 (by decide +kernel) run_mask 5
    (.step (c := 10) (.seed (by decide)) (by unfold Adj; decide +kernel))

/-- C14 for 'complete': the same hollow is levelled. -/
example : ∃ k, Adj g14.nbr 1 k ∧ true = true ∧ (![10, 2, 2, 10] : Fin 4 → ℚ) k ≤ (![10, 2, 2, 10] : Fin 4 → ℚ) 1 :=
  C14_complete (raise := rs) (flood := 100) (fuel := 5) (dem := dem14) (m := fun _ => true)
    (method := "Complete") (by decide +kernel) (by unfold SymmNbr Adj; decide +kernel)
    (by decide +kernel) 1 rfl (by decide +kernel)

end Dany.Flood
