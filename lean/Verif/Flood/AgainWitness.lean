import Verif.Flood.Again
import Verif.Flood.Witness

/-!
# Concrete runs for C117–C119
-/

namespace Dany.Flood

theorem run_again : fillSinks 17 rs 100 g44 out44 none "Priority" = .ok out44 := by decide +kernel
example : out44 = out44 := C117_idempotent (fun x => (rs_lt x).le) rs_mono symm44
  (by decide +kernel) run_priority run_again
example : ∀ r, fillSinks 9 rs 100 g44 out44 none "drain" = .ok r → r = out44 := fun _ h =>
  C117_idempotent (fun x => (rs_lt x).le) rs_mono symm44 (fun _ => by decide +kernel) run_drain h
example : fillSinks 9 rs 100 g44 out44 none "drain" = .ok out44 := by decide +kernel

theorem drains44 (n : Fin 16) (hn : Reach g44.nbr (Edge.OnEdge g44.iverts) n) :
    Drains (· < ·) g44.nbr out44 (Edge.OnEdge g44.iverts) n :=
  C03_drains_strictly rs_lt symm44 (by decide +kernel) run_priority n hn
-- with any eps, also a smaller or a larger one than that of the first run
example {eps : ℚ} (he : 0 ≤ eps) {fuel : ℕ} {r : Fin 16 → ℚ}
    (h : fillSinks fuel (· + eps) 100 g44 out44 none "priority" = .ok r) : r = out44 :=
  C118_priority (fun x => by linarith) symm44 (by decide +kernel) drains44 h
example : fillSinks 17 (· + 2) 100 g44 out44 none "priority" = .ok out44 := by decide +kernel
example {fuel : ℕ} {r : Fin 16 → ℚ} (h : fillSinks fuel rs 100 g44 out44 none "complete" = .ok r) :
    r = out44 :=
  C118_complete symm44 (by decide +kernel) (fun n hn => (drains44 n hn).imp fun _ _ h => h.le) h
-- cell 10 of the unfilled DEM drains by more than eps
example : out44 10 = dem44 10 := C118_drain (fun x => (rs_lt x).le) rs_mono (by decide +kernel)
  (by decide +kernel) run_drain (.step (c := 15) (by unfold Adj; decide +kernel) (by decide +kernel)
    (.outlet edge44))

/-! ### stream mask -/

example {fuel : ℕ} {r : Fin 16 → ℚ} (h : fillSinks fuel rs 100 g44 mout44 (some m44) "priority" = .ok r) :
    r = mout44 := by
  refine C118_mask (fun x => (rs_lt x).le) symm44 (fun n hn => ?_) (by unfold Adj; decide +kernel) h
  exact (C13_stream_mask_drains rs_lt symm44 (by decide +kernel) run_mask n hn).imp fun _ _ h => .inl h

/-- **C119 is false** of the code: the hollow in the stream rises with every call. -/
theorem C119_refuted : ∃ (g : Grid 4) (dem out out' : Fin 4 → ℚ) (m : Fin 4 → Bool),
    SymmNbr g.nbr ∧ fillSinks 5 (· + 1/2) 100 g dem (some m) "priority" = .ok out ∧
    fillSinks 5 (· + 1/2) 100 g out (some m) "priority" = .ok out' ∧ out 1 < out' 1 ∧ out 2 < out' 2 :=
  ⟨g14, dem14, out14, ![10, 7/2, 4, 10], fun _ => true, by unfold SymmNbr Adj; decide +kernel,
    by decide +kernel, by decide +kernel, by decide +kernel, by decide +kernel⟩

example {fuel fuel' : ℕ} {r r' : Fin 16 → ℚ} (h : fillSinks fuel rs 100 g44 dem44 (some m44) "Complete" = .ok r)
    (h' : fillSinks fuel' rs 100 g44 r (some m44) "Complete" = .ok r') : r' = r :=
  C119_complete_partial (fun x => (rs_lt x).le) symm44 (by decide +kernel) h h'
example : ∃ r, fillSinks 17 rs 100 g44 dem44 (some m44) "Complete" = .ok r :=
  ⟨![9, 9, 9, 9, 9, 6, 6, 7, 9, 8, 6, 9, 9, 9, 9, 5], by decide +kernel⟩

end Dany.Flood
