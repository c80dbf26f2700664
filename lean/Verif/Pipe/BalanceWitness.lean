import Verif.Pipe.Balance

/-!
# C170 on the sixteen cells of `Pipe.Witness` and on three cells
-/

namespace Dany.Pipe

open Flow

/-- the sixteen cells with streams that include every cell all of whose lower neighbours flow into cell 0 -/
def objF : Reach.Obj 16 := ⟨fdE, some ![1, 1, 1, 0, 1, 0, 0, 0, 1, 0, 1, 0, 0, 0, 0, 1], none⟩

theorem cascF : (Casc.getCascades 50 (slopeTable Dirs.geo44 (Dirs.filled fillC) Dirs.thr Dirs.big
    (nbrs Flood.g44)) objF none (fun _ => true) true).map (fun r => r.2.length) = .ok 35 := by decide +kernel

theorem fallE : ∀ n, nxE n ≠ n → nxE n ∈ nbrs Flood.g44 n ∧ Lower (Dirs.filled fillC) n (nxE n) := by
  have : ∀ n, nxE n ≠ n → nxE n ∈ nbrs Flood.g44 n ∧ fillC (nxE n) < fillC n := by decide +kernel
  exact fun n hn => ⟨(this n hn).1, _, _, rfl, rfl, (this n hn).2⟩

/-- all conditions of `C170_chain_partial` hold: sixteen units of rain arrive at the two outlets -/
example : ∃ (o' : Reach.Obj 16) (rows : List (Casc.Row ℚ)) (Q : Fin 16 → ℚ), Casc.getCascades 50 (slopeTable Dirs.geo44 (Dirs.filled fillC) Dirs.thr Dirs.big
    (nbrs Flood.g44)) objF none (fun _ => true) true = .ok (o', rows) ∧ Routed rows (fun _ => 1) Q ∧
    Q 0 + Q 15 = (16 : ℚ) := by
  classical
  obtain ⟨⟨o', rows⟩, h, _⟩ := Res.map_eq_ok.1 cascF
  obtain ⟨Q, h1, h2⟩ := C170_chain_partial (by norm_num) Flood.rs_lt (by decide +kernel) fillRunC good44
    endsC Dirs.sound44 belowC cleanC runE rfl (.inr ⟨rfl, rfl⟩) (by decide) (by decide +kernel) h (by decide +kernel)
    (fun _ => (1 : ℚ))
  refine ⟨o', rows, Q, h, (h1 Q).2 rfl, ?_⟩
  have hset : Finset.univ.filter (fun n : Fin 16 => fdE n = ((n : ℕ) : ℤ) ∧ Flood.Outlet Flood.g44 none n ∧
      (0 < (![1, 1, 1, 0, 1, 0, 0, 0, 1, 0, 1, 0, 0, 0, 0, 1] : Fin 16 → ℤ) n ∨ ∀ m ∈ nbrs Flood.g44 n, fillC n ≤ fillC m)) =
      {0, 15} := by
    ext n
    have hn : fdE n = ((n : ℕ) : ℤ) ↔ n = 0 ∨ n = 15 := by revert n; decide
    simp only [Finset.mem_filter, Finset.mem_univ, true_and, Finset.mem_insert, Finset.mem_singleton, hn]
    constructor
    · exact fun h => h.1
    · intro h
      refine ⟨h, networkE.fixed n (by rcases h with rfl | rfl <;> decide), .inl ?_⟩
      rcases h with rfl | rfl <;> decide
  rw [hset] at h2
  rw [Finset.sum_pair (by decide)] at h2
  rw [h2]; simp

/-- on the same sixteen cells with fewer streams the rain on cells 1, 2, 4 and 8 is lost, and all that reaches them -/
theorem C170_refuted_concrete : ∃ o' rows, Casc.getCascades 50 (slopeTable Dirs.geo44 (Dirs.filled fillC) Dirs.thr Dirs.big
    (nbrs Flood.g44)) objE none (fun _ => true) true = .ok (o', rows) ∧ (∃! Q : Fin 16 → ℚ, Routed rows (fun _ => (1 : ℚ)) Q) ∧
    ∀ Q : Fin 16 → ℚ, Routed rows (fun _ => (1 : ℚ)) Q → Q 0 + Q 15 < (16 : ℚ) ∧ passed rows (1 : Fin 16) = 0 := by
  classical
  obtain ⟨⟨o', rows⟩, h, _⟩ := Res.map_eq_ok.1 cascE
  refine ⟨o', rows, h, C170_unique (C148_no_circles Dirs.sound44 networkE.legal (fun n hn => (fallE n hn).2) h) _, fun Q hQ => ?_⟩
  obtain ⟨h1, h2⟩ := C170_refuted (n := 1) (nbr := nbrs Flood.g44) (sa := ![1, 0, 0, 0, 0, 0, 0, 0, 0, 0, 1, 0, 0, 0, 0, 1]) (d := nxE) Dirs.sound44
    networkE.legal fallE (.inr ⟨rfl, rfl⟩) (by decide) (by decide +kernel) h (fun _ => by norm_num) hQ (by norm_num)
    rfl (by decide) (by
      have : ∀ m ∈ nbrs Flood.g44 1, fillC m < fillC 1 → objE.fdir m = 0 := by decide +kernel
      rintro m hm ⟨a, b, ha, hb, hlt⟩
      simp only [Dirs.filled, Option.some.injEq] at ha hb
      exact this m hm (by rw [ha, hb]; exact hlt))
  refine ⟨?_, h2⟩
  have hsub : ({0, 15} : Finset (Fin 16)) ⊆ Finset.univ.filter (fun e => nxE e = e ∧
      (0 < (![1, 0, 0, 0, 0, 0, 0, 0, 0, 0, 1, 0, 0, 0, 0, 1] : Fin 16 → ℤ) e ∨
        ∀ m ∈ nbrs Flood.g44 e, ¬ Lower (Dirs.filled fillC) e m)) := by
    intro e he
    simp only [Finset.mem_insert, Finset.mem_singleton] at he
    rcases he with rfl | rfl
    · exact Finset.mem_filter.2 ⟨Finset.mem_univ _, by decide, .inl (by decide)⟩
    · exact Finset.mem_filter.2 ⟨Finset.mem_univ _, by decide, .inl (by decide)⟩
  have hnn := routed_nonneg (C148_no_circles Dirs.sound44 networkE.legal (fun n hn => (fallE n hn).2) h)
    (fun r hr => (pct_pos (sa := ![1, 0, 0, 0, 0, 0, 0, 0, 0, 0, 1, 0, 0, 0, 0, 1]) Dirs.sound44
      networkE.legal (.inr ⟨rfl, rfl⟩) (by decide) (by decide +kernel) h r hr).le) (fun _ => by norm_num) hQ
  have hle := Finset.sum_le_sum_of_subset_of_nonneg hsub (f := Q) (fun u _ _ => le_trans (by norm_num) (hnn u))
  rw [Finset.sum_pair (by decide)] at hle
  have : ∑ u : Fin 16, (1 : ℚ) = 16 := by simp
  refine lt_of_le_of_lt hle ?_
  rw [← this]
  convert h1 using 2

theorem acyclic3 : ∀ n, ¬ OnCycle (![2, 2, 2] : Fin 3 → Fin 3) n := by
  intro n hc
  obtain ⟨h1, h2⟩ := onCycle_iff.1 hc
  have : (![2, 2, 2] : Fin 3 → Fin 3) n = 2 := (by decide : ∀ n, (![2, 2, 2] : Fin 3 → Fin 3) n = 2) n
  rw [this] at h1 h2
  exact h1 (h2.of_fixed (by decide)).symm

/-- three cells, two of which flow to the third: with one unit of rain on each, the many-to-one table brings seven units
to the outlet -/
theorem C170_one_concrete : ∃ o' rows, Casc.getCascades (K := ℚ) 9 (fun _ => []) Casc.exObj none (fun _ => true) false =
    .ok (o', rows) ∧ Routed rows (fun _ => 1) ![1, 1, 7] := by
  obtain ⟨⟨o', rows⟩, h, _⟩ := Res.map_eq_ok.1 Casc.C61_refuted
  refine ⟨o', rows, h, ?_⟩
  have hl : Legal Casc.exObj.fdir ![2, 2, 2] := by unfold Legal; decide
  have hac := acyclic3
  refine ((C170_one_exact hl hac h _).2 _).2 ?_
  decide +kernel

/-- conditions of `C170_one_refuted` and `C170_one_partial` hold there -/
example : ∃ o' rows, Casc.getCascades (K := ℚ) 9 (fun _ => []) Casc.exObj none (fun _ => true) false = .ok (o', rows) ∧
    (∀ Q : Fin 3 → ℚ, Routed rows (fun _ => 1) Q → (3 : ℚ) < Q 2) ∧ ∀ Q : Fin 3 → ℚ, Routed rows.dedup (fun _ => (1 : ℚ)) Q → Q 2 = 3 := by
  obtain ⟨⟨o', rows⟩, h, _⟩ := Res.map_eq_ok.1 Casc.C61_refuted
  have hl : Legal Casc.exObj.fdir ![2, 2, 2] := by unfold Legal; decide
  have hac := acyclic3
  refine ⟨o', rows, h, fun Q hQ => ?_, fun Q hQ => ?_⟩
  · have := C170_one_refuted hl hac h (fun _ => by norm_num) hQ (n := 0) (by norm_num) (by decide)
    rw [show (Finset.univ.filter fun e : Fin 3 => (![2, 2, 2] : Fin 3 → Fin 3) e = e) = {2} by decide,
      Finset.sum_singleton] at this
    simpa using this
  · have hf : (Acc.flowAccumulation 4 Casc.exObj.fdir (fun _ => (1 : ℚ)) false).map List.ofFn = .ok [1, 1, 3] := by
      decide +kernel
    obtain ⟨facc, h1, h2⟩ := Res.map_eq_ok.1 hf
    rw [C170_one_partial hl hac h hQ h1]
    have := congrArg (fun l => l.getD 2 0) h2
    simpa using this

end Dany.Pipe
