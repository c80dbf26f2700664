import Verif.Dirs.Error
import Verif.Flood.Error
import Verif.Pipe.RectWitness
import Mathlib.Tactic.FinCases

/-!
# C201: errors of the DEM, through filling, to the flow directions
-/

namespace Dany.Pipe

open Dany.Dirs

variable {N : ℕ} {K : Type*} [Field K] [LinearOrder K] [IsStrictOrderedRing K]

/-- **C201** with filling before routing: two DEMs that differ by at most `δ` in every cell are filled with the same method
and `eps`, and routed.  If the *filled* surface of one of them has clear directions with respect to the error that
filling leaves (`δ` for 'drain', `δ + N·eps` for 'priority'), both give the same flow directions. -/
theorem C201_filled {fuel fuel' ffuel ffuel' : ℕ} {eps flood δ δ' thr big : K} {g : Flood.Grid N}
    {dem dem' f f' : Fin N → K} {method : String} (heps : 0 ≤ eps) (hδ0 : 0 ≤ δ') (hδ : ∀ n, |dem n - dem' n| ≤ δ)
    (hm : (method.toLower = "priority" ∧ δ' = δ + N * eps) ∨
      (Flood.effective (none : Option (Fin N → Bool)) method = .drain ∧ δ' = δ ∧
        (∀ n, dem n ≤ flood) ∧ ∀ n, dem' n ≤ flood))
    (hf : Flood.fillSinks ffuel (· + eps) flood g dem none method = .ok f)
    (hf' : Flood.fillSinks ffuel' (· + eps) flood g dem' none method = .ok f')
    {G : Geo N K} {nbr : Fin N → List (Fin N)} {terminals : List ℤ} {out out' : Fin N → ℤ}
    (hrnd : G.rnd = id) (hdist : ∀ n, ∀ m ∈ nbr n, 0 < G.dist n m) (hN : N < 1000000)
    (hr : InRange N terminals) (hn : ∀ n, nbr n ≠ []) (hnd : ∀ n, (nbr n).Nodup)
    (hb : Below G (filled f) thr big nbr) (hb' : Below G (filled f') thr big nbr)
    (hclear : ∀ n, ¬ Terminal (filled f) terminals n → ∃ m, Clear G (filled f) nbr δ' n m)
    (hlow : ∀ p, Lowest (filled f) p → ((p : ℕ) : ℤ) ∈ terminals ∨
      ∀ q, Terminal (filled f) terminals q → q ≠ p → f p + 2 * δ' < f q)
    (h : flowDirections fuel G (filled f) big (table nbr) thr terminals = .ok out)
    (h' : flowDirections fuel' G (filled f') big (table nbr) thr terminals = .ok out') : out' = out := by
  have hw : Within δ' (filled f) (filled f') := by
    intro n
    refine .inr ⟨f n, f' n, rfl, rfl, ?_⟩
    rcases hm with ⟨h1, rfl⟩ | ⟨h1, rfl, h2, h3⟩
    · exact Flood.C174_priority heps h1 hδ hf hf' n
    · exact Flood.C174_drain heps h1 hδ h2 h3 hf hf' n
  refine (C201_directions hrnd hδ0 hdist hN hr ?_ hnd hb hb' hw (fun n _ => hclear n) ?_ h h').1
  · intro n _
    obtain ⟨m, hm⟩ := List.exists_mem_of_ne_nil _ (hn n)
    exact ⟨m, hm, by simp [filled]⟩
  · intro p v hv hp
    rcases hlow p hp with h1 | h1
    · exact .inl h1
    · refine .inr fun q w hq hw hne => ?_
      simp only [filled, Option.some.injEq] at hv hw
      subst hv hw
      exact h1 q hq hne

/-! ### A concrete case: 3 × 3 cells, a pit in the middle, 'drain' with `eps = 1`, errors of a quarter -/

private def geoE : Geo 9 ℚ := ⟨![0, 1, 2, 0, 1, 2, 0, 1, 2], ![2, 2, 2, 1, 1, 1, 0, 0, 0], id, id⟩
private def demE : Fin 9 → ℚ := ![20, 5, 20, 20, 0, 20, 20, 20, 20]
private def demE' : Fin 9 → ℚ := ![20, 21 / 4, 20, 79 / 4, 1 / 4, 20, 20, 20, 20]
private def filE : Fin 9 → ℚ := ![20, 5, 20, 20, 6, 20, 20, 20, 20]
private def filE' : Fin 9 → ℚ := ![20, 21 / 4, 20, 79 / 4, 25 / 4, 20, 20, 20, 20]
private def endE : List ℤ := [0, 1, 2, 3, 5, 6, 7, 8]
private def outE : Fin 9 → ℤ := ![0, 1, 2, 3, 1, 5, 6, 7, 8]

private theorem lowE {p : Fin 9} (h : Lowest (filled filE) p) : p = 1 := by
  obtain ⟨v, hv, hmin⟩ := h
  have h1 := hmin 1 5 rfl
  fin_cases p <;> simp [filled, filE] at hv <;> subst hv <;> norm_num at h1 <;> rfl

/-- the hypotheses of `C201_filled` are met -/
example (out' : Fin 9 → ℤ) (h' : flowDirections 50 geoE (filled filE') 100 (table (nbrs (rectGrid 3 3))) (1 / 10) endE
    = .ok out') : out' = outE := by
  refine C201_filled (N := 9) (fuel := 50) (fuel' := 50) (ffuel := 50) (ffuel' := 50) (eps := 1) (flood := 100)
    (δ := 1 / 4) (δ' := 1 / 4) (thr := 1 / 10) (big := 100) (g := rectGrid 3 3) (dem := demE) (dem' := demE') (f := filE)
    (f' := filE') (method := "drain") (G := geoE) (nbr := nbrs (rectGrid 3 3)) (terminals := endE)
    (by norm_num) (by norm_num) (by decide +kernel) (.inr ⟨by decide +kernel, rfl, by decide +kernel, by decide +kernel⟩)
    (by decide +kernel) (by decide +kernel) rfl (by decide +kernel) (by norm_num) (by unfold InRange; decide +kernel)
    (by decide +kernel) (by decide +kernel) (below_of (by decide +kernel)) (below_of (by decide +kernel)) ?_ ?_
    (by decide +kernel) h'
  · intro n hn
    have : n = 4 := by
      by_contra hne
      exact hn (.inr ((by decide : ∀ n : Fin 9, n ≠ 4 → ((n : ℕ) : ℤ) ∈ endE) n hne))
    subst this
    refine ⟨1, by decide +kernel, 6, 5, rfl, rfl, by norm_num, ?_⟩
    intro k hk hne c hc e he
    obtain ⟨e1, e2⟩ := abs_le.1 he
    have hc' : c = 20 := by
      have hk4 : k ≠ 4 := by
        rintro rfl
        exact absurd hk (by decide +kernel)
      have h20 : ∀ k : Fin 9, k ≠ 1 → k ≠ 4 → filE k = 20 := by decide +kernel
      rw [← h20 k hne hk4]
      simpa [filled] using hc.symm
    subst hc'
    have hd : 0 < geoE.dist 4 k := (by decide +kernel : ∀ k ∈ nbrs (rectGrid 3 3) 4, 0 < geoE.dist 4 k) k hk
    have hd1 : geoE.dist 4 1 = 1 := by decide +kernel
    rw [hd1, div_one]
    have : (6 + e - (20 - 1 / 4)) / geoE.dist 4 k ≤ 0 := div_nonpos_of_nonpos_of_nonneg (by linarith) hd.le
    refine lt_of_le_of_lt this ?_
    linarith
  · intro p hp
    rw [lowE hp]
    left; decide

end Dany.Pipe
