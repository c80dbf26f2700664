import Verif.Basin.Cross
import Verif.Casc.Props
import Verif.Pipe.Packages

/-!
# C185: many-to-one cascades inside a watershed

`get_watershed_boundary` for an outlet, and `get_cascades(basin_boundary=..., many2many=False)` with it.
-/

namespace Dany.Pipe

open Flow Relation

variable {N : ℕ} {K : Type*} [Field K] [LinearOrder K] {d : Fin N → Fin N} {p : Fin N} {o o' : Reach.Obj N} {arg : Option (Fin N → ℤ)}
  {limit fuel : ℕ} {nbs : Fin N → List (Fin N × Option K)} {rows : List (Casc.Row K)} {s s' : Basin.State N} {ws : Fin N → ℕ}

private theorem inside (hd : Legal o.fdir d) (hs : s.fdir = o.fdir) (hc : Basin.Fresh s) (hf : 2 * N < fuel)
    (hw : Basin.watershed fuel s p (fun _ => 0) = .ok (s', ws)) (u : Fin N) :
    decide (ws u ≠ 0) = true ↔ Reaches d u p := by
  have hR : Resolves s.fdir d := by rw [hs]; exact hd.resolves
  have := (Basin.watershed_spec hR hc hf hw u).2
  simp only [ne_eq, decide_eq_true_eq, this, not_not]

/-- **C185.**  With the watershed of `p` as boundary: every row of the many-to-one cascades either passes the whole water of a cell
of the watershed to its receiver in the watershed, or, if the water of `p` leaves the watershed, is the row of the cell
outside that `p` flows to, which it passes to itself; and every cell of the watershed except `p` has a row, so that the
rows lead every cell of the watershed to `p`. -/
theorem C185_partial (hd : Legal o.fdir d) (hs : s.fdir = o.fdir) (hc : Basin.Fresh s) (hf : 2 * N < fuel)
    (hw : Basin.watershed fuel s p (fun _ => 0) = .ok (s', ws))
    (h : Casc.getCascades limit nbs o arg (fun n => decide (ws n ≠ 0)) false = .ok (o', rows)) :
    (∀ r ∈ rows, r.pct = 1 ∧
      ((∃ u : Fin N, Reaches d u p ∧ Reaches d (d u) p ∧ r.up = ((u : ℕ) : ℤ) + 1 ∧ r.down = ((d u : ℕ) : ℤ) + 1) ∨
        (¬ Reaches d (d p) p ∧ r.up = ((d p : ℕ) : ℤ) + 1 ∧ r.down = ((d p : ℕ) : ℤ) + 1))) ∧
      (∀ u, Reaches d u p → u ≠ p →
        ∃ r ∈ rows, r.pct = 1 ∧ r.up = ((u : ℕ) : ℤ) + 1 ∧ r.down = ((d u : ℕ) : ℤ) + 1) ∧
      (∀ u, Reaches d u p → ReflTransGen (Link rows) u p) ∧
      ((∀ r ∈ rows, ∃ u v : Fin N, r.up = ((u : ℕ) : ℤ) + 1 ∧ r.down = ((v : ℕ) : ℤ) + 1 ∧ Reaches d u p ∧ Reaches d v p) ↔
        Reaches d (d p) p) := by
  have hin := inside hd hs hc hf hw
  have h9 : ∀ n, o.fdir n ≠ -9 := by intro n; rw [hd n]; omega
  have hlinks := Casc.C62_links hd.resolves h9 h
  have hout : ∀ u : Fin N, decide (ws u ≠ 0) = false ↔ ¬ Reaches d u p := by
    intro u
    rw [← hin u, Bool.not_eq_true]
  have h1 : ∀ r ∈ rows, r.pct = 1 ∧
      ((∃ u : Fin N, Reaches d u p ∧ Reaches d (d u) p ∧ r.up = ((u : ℕ) : ℤ) + 1 ∧ r.down = ((d u : ℕ) : ℤ) + 1) ∨
        (¬ Reaches d (d p) p ∧ r.up = ((d p : ℕ) : ℤ) + 1 ∧ r.down = ((d p : ℕ) : ℤ) + 1)) := by
    rintro ⟨u, v, q, sg⟩ hr
    obtain ⟨h1, m, hm, hv, hcase⟩ := (hlinks u v q).1 ⟨sg, hr⟩
    rw [hin] at hm
    rw [hin, hout] at hcase
    rw [hd m] at hv
    refine ⟨h1, ?_⟩
    rcases hcase with ⟨ha, hu⟩ | ⟨ha, hu⟩
    · exact .inl ⟨m, hm, ha, hu, hv⟩
    · rcases hm.cases_head with rfl | hx
      · exact .inr ⟨ha, hu.trans hv, hv⟩
      · exact absurd hx ha
  have h2 : ∀ u, Reaches d u p → Reaches d (d u) p →
        ∃ r ∈ rows, r.pct = 1 ∧ r.up = ((u : ℕ) : ℤ) + 1 ∧ r.down = ((d u : ℕ) : ℤ) + 1 := by
    intro u hu hx
    obtain ⟨sg, hr⟩ := (hlinks (((u : ℕ) : ℤ) + 1) (((d u : ℕ) : ℤ) + 1) 1).2
      ⟨rfl, u, (hin u).2 hu, by rw [hd u], .inl ⟨(hin _).2 hx, rfl⟩⟩
    exact ⟨_, hr, rfl, rfl, rfl⟩
  have h2' : ∀ u, Reaches d u p → u ≠ p → Reaches d (d u) p := fun u hu hne => hu.cases_head.resolve_left hne
  refine ⟨h1, fun u hu hne => h2 u hu (h2' u hu hne), ?_, ?_, ?_⟩
  · rintro u ⟨k, hk⟩
    induction k generalizing u with
    | zero => exact hk ▸ .refl
    | succ k ih =>
      rw [Function.iterate_succ_apply] at hk
      by_cases hne : d u = u
      · exact ih u (by rwa [hne] at hk)
      · obtain ⟨r, hr, _, e1, e2⟩ := h2 u (Reaches.head ⟨k, hk⟩) ⟨k, hk⟩
        exact .head ⟨Ne.symm hne, r, hr, e1, e2⟩ (ih (d u) hk)
  · intro hall
    by_contra hno
    obtain ⟨sg, hr⟩ := (hlinks (((d p : ℕ) : ℤ) + 1) (((d p : ℕ) : ℤ) + 1) 1).2
      ⟨rfl, p, (hin p).2 (.refl p), by rw [hd p], .inr ⟨(hout _).2 hno, rfl⟩⟩
    obtain ⟨u, v, e1, _, hu, _⟩ := hall _ hr
    have : d p = u := Fin.ext (by simpa using e1)
    exact hno (this ▸ hu)
  · intro hp r hr
    rcases (h1 r hr).2 with ⟨u, a1, a2, a3, a4⟩ | ⟨hn, _⟩
    · exact ⟨u, d u, a3, a4, a1, a2⟩
    · exact absurd hp hn

/-- **C185 is false of the code** whenever the outlet of the watershed is not the end of its river: the cell below the outlet,
which is outside the basin, is listed, and the outlet is not. -/
theorem C185_refuted (hd : Legal o.fdir d) (hs : s.fdir = o.fdir) (hc : Basin.Fresh s) (hf : 2 * N < fuel)
    (hw : Basin.watershed fuel s p (fun _ => 0) = .ok (s', ws)) (hcyc : ¬ OnCycle d p) (hon : d p ≠ p)
    (h : Casc.getCascades limit nbs o arg (fun n => decide (ws n ≠ 0)) false = .ok (o', rows)) :
    ws (d p) = 0 ∧ (∃ r ∈ rows, r.up = ((d p : ℕ) : ℤ) + 1 ∧ r.down = ((d p : ℕ) : ℤ) + 1) ∧
      ∀ r ∈ rows, r.up ≠ ((p : ℕ) : ℤ) + 1 := by
  have hno : ¬ Reaches d (d p) p := fun hr => hcyc (onCycle_iff.2 ⟨hon, hr⟩)
  have hR : Resolves s.fdir d := by rw [hs]; exact hd.resolves
  have h9 : ∀ n, o.fdir n ≠ -9 := by intro n; rw [hd n]; omega
  refine ⟨(Basin.watershed_spec hR hc hf hw _).2.2 hno, ?_, ?_⟩
  · obtain ⟨sg, hr⟩ := (Casc.C62_links hd.resolves h9 h (((d p : ℕ) : ℤ) + 1) (((d p : ℕ) : ℤ) + 1) 1).2
      ⟨rfl, p, (inside hd hs hc hf hw p).2 (.refl p), by rw [hd p],
        .inr ⟨by rw [← Bool.not_eq_true, inside hd hs hc hf hw]; exact hno, rfl⟩⟩
    exact ⟨_, hr, rfl, rfl⟩
  · intro r hr e
    rcases ((C185_partial hd hs hc hf hw h).1 r hr).2 with ⟨u, _, hu, e1, _⟩ | ⟨_, e1, _⟩
    · have : p = u := Fin.ext (by have := e.symm.trans e1; simpa using this)
      exact hno (this ▸ hu)
    · have : p = d p := Fin.ext (by have := e.symm.trans e1; simpa using this)
      exact hon this.symm

/-! ### a concrete case: 0 → 1 → 2 → 3, the watershed of cell 1 and of the end 3 -/

private def wcF : Fin 4 → ℤ := ![1, 2, 3, 3]
private def wcObj : Reach.Obj 4 := ⟨wcF, some ![0, 1, 1, 1], none⟩

example : (Basin.watershed 20 ⟨wcF, none⟩ 1 (fun _ => 0)).map (fun r => List.ofFn r.2) = .ok [1, 1, 0, 0] := by
  decide +kernel
example : (Casc.getCascades (K := ℚ) 9 (fun _ => []) wcObj none ![true, true, false, false] false).map
    (fun r => r.2.map fun x => (x.up, x.down, x.pct)) = .ok [(1, 2, 1), (3, 3, 1)] := by decide +kernel
example : (Casc.getCascades (K := ℚ) 9 (fun _ => []) wcObj none (fun _ => true) false).map
    (fun r => r.2.map fun x => (x.up, x.down)) = .ok [(1, 2), (2, 3), (3, 4), (4, 4), (3, 4), (4, 4)] := by decide +kernel

end Dany.Pipe
