import Verif.Flood.Props
import Verif.Flood.Witness

/-!
# C130: the number of sweeps of the 'drain' method

The level of a cell always comes from a ground elevation (or the flood level) by one increment per cell of a
path without repetition: a cell that had given its level to a path is not higher than the path's end, so it
cannot be lowered to just above that end.  So there are at most `N (N + 1)` levels, and every sweep that
modifies something lowers a cell to one of them.
-/

namespace Dany.Flood

open Function

variable {N : ℕ} {V : Type*} [LinearOrder V]

/-- Where the levels come from. -/
def Derived (raise : V → V) (flood : V) (dem wf : Fin N → V) : Prop :=
  ∀ c, ∃ (l : List (Fin N)) (x : V), (c :: l).Nodup ∧ (x = flood ∨ ∃ k, x = dem k) ∧
    wf c = raise^[l.length] x ∧ ∀ m ∈ l, wf m ≤ wf c

theorem derived_init (raise : V → V) (flood : V) (dem : Fin N → V) (seed : List (Fin N)) :
    Derived raise flood dem (drainInit flood dem seed) := by
  intro c
  refine ⟨[], drainInit flood dem seed c, by simp, ?_, rfl, by simp⟩
  unfold drainInit
  split
  · exact .inr ⟨c, rfl⟩
  · exact .inl rfl

theorem derived_update {raise : V → V} {flood : V} {dem wf : Fin N → V} (hi : Derived raise flood dem wf)
    {c : Fin N} {x : V} (hx : x < wf c)
    (h : ∃ (l : List (Fin N)) (b : V), (c :: l).Nodup ∧ (b = flood ∨ ∃ k, b = dem k) ∧
      x = raise^[l.length] b ∧ ∀ m ∈ l, wf m ≤ x) : Derived raise flood dem (update wf c x) := by
  have hle : ∀ m, update wf c x m ≤ wf m := by
    intro m
    by_cases hm : m = c
    · subst hm; rw [update_self]; exact hx.le
    · rw [update_of_ne hm]
  intro n
  by_cases hn : n = c
  · subst hn
    obtain ⟨l, b, h1, h2, h3, h4⟩ := h
    exact ⟨l, b, h1, h2, by rw [update_self]; exact h3, fun m hm => by
      rw [update_self]; exact (hle m).trans (h4 m hm)⟩
  · obtain ⟨l, b, h1, h2, h3, h4⟩ := hi n
    exact ⟨l, b, h1, h2, by rw [update_of_ne hn]; exact h3, fun m hm => by
      rw [update_of_ne hn]; exact (hle m).trans (h4 m hm)⟩

/-- a cell update lowers one cell, to a level that is derived again, or does nothing -/
theorem derived_cell {raise : V → V} (hinf : ∀ x, x ≤ raise x) {flood : V} {nbr : Fin N → List ℕ}
    {dem : Fin N → V} {c : Fin N} {b b' : Bool} {wf wf' : Fin N → V} (hi : Derived raise flood dem wf)
    (h : drainCell raise nbr dem c (b, wf) = .ok (b', wf')) :
    (b' = b ∧ wf' = wf) ∨
      (b' = true ∧ Derived raise flood dem wf' ∧ ∃ x, x < wf c ∧ wf' = update wf c x) := by
  rcases drainCell_cases h with ⟨h1, h2, _⟩ | ⟨hb, hlt, m, ha, ⟨_, rfl⟩ | ⟨_, h1, rfl⟩⟩
  · exact .inl ⟨h1, h2⟩
  · exact .inr ⟨hb, derived_update hi hlt ⟨[], dem c, by simp, .inr ⟨c, rfl⟩, rfl, by simp⟩, _, hlt, rfl⟩
  · refine .inr ⟨hb, derived_update hi h1 ?_, _, h1, rfl⟩
    obtain ⟨l, x, e1, e2, e3, e4⟩ := hi m
    have hall : ∀ k ∈ m :: l, wf k ≤ raise (wf m) := by
      intro k hk
      rcases List.mem_cons.1 hk with rfl | hk
      · exact hinf _
      · exact (e4 k hk).trans (hinf _)
    refine ⟨m :: l, x, List.nodup_cons.2 ⟨fun hc => ?_, e1⟩, e2, ?_, hall⟩
    · exact absurd (hall c hc) (not_le.2 h1)
    · rw [List.length_cons, iterate_succ_apply', ← e3]

/-- the levels that can occur -/
def levelSet (raise : V → V) (flood : V) (dem : Fin N → V) : Finset V :=
  (Finset.range N ×ˢ (Finset.univ : Finset (Option (Fin N)))).image fun p =>
    raise^[p.1] (p.2.elim flood dem)

theorem levelSet_card (raise : V → V) (flood : V) (dem : Fin N → V) :
    (levelSet raise flood dem).card ≤ N * (N + 1) := by
  refine Finset.card_image_le.trans ?_
  rw [Finset.card_product, Finset.card_range]
  simp

theorem derived_mem {raise : V → V} {flood : V} {dem wf : Fin N → V} (hi : Derived raise flood dem wf) (c : Fin N) :
    wf c ∈ levelSet raise flood dem := by
  obtain ⟨l, x, h1, h2, h3, _⟩ := hi c
  have hlen : l.length < N := by
    have := h1.length_le_card
    rw [List.length_cons, Fintype.card_fin] at this
    omega
  rw [h3]
  rcases h2 with rfl | ⟨k, rfl⟩
  · exact Finset.mem_image.2 ⟨(l.length, none), by simp [hlen], rfl⟩
  · exact Finset.mem_image.2 ⟨(l.length, some k), by simp [hlen], rfl⟩

theorem drainLoop_sweeps {raise : V → V} (hinf : ∀ x, x ≤ raise x) {flood : V} {nbr : Fin N → List ℕ}
    (hr : ∀ c, ∀ n ∈ nbr c, n < N) {dem : Fin N → V} (fuel : ℕ) (wf : Fin N → V)
    (hwf : Derived raise flood dem wf) (hf : totalRank (levelSet raise flood dem) wf < fuel) :
    ∃ t, drainLoop raise nbr dem fuel wf = .ok t := by
  induction fuel generalizing wf with
  | zero => omega
  | succ k ih =>
    set S := levelSet raise flood dem
    obtain ⟨r, h1⟩ := foldRes_total (drainCell_total (raise := raise) hr dem) (List.finRange N) (false, wf)
    have hinv := foldRes_inv (fun s => Derived raise flood dem s.2 ∧ totalRank S s.2 ≤ totalRank S wf ∧
        (s.1 = true → totalRank S s.2 < totalRank S wf))
      (fun a s s' hs hf => by
        rcases derived_cell hinf (b := s.1) (b' := s'.1) hs.1 hf with ⟨h2, h3⟩ | ⟨_, hD, x, hx, h3⟩
        · rw [h2, h3]; exact hs
        · have hmem : x ∈ S := by
            have := derived_mem hD a
            rwa [h3, update_self] at this
          have hlt : totalRank S s'.2 < totalRank S s.2 := by
            rw [h3]; exact totalRank_update_lt hmem hx
          exact ⟨hD, hlt.le.trans hs.2.1, fun _ => hlt.trans_le hs.2.1⟩) _ _ _
      ⟨hwf, le_refl _, by simp⟩ h1
    simp only [drainLoop]
    rw [show drainSweep raise nbr dem wf = .ok r from h1, Res.bind_ok]
    split
    · rename_i hb
      have := hinv.2.2 hb
      exact ih r.2 hinv.1 (by omega)
    · exact ⟨_, rfl⟩

/-- **C130.**  'drain' ends after at most `N² (N + 1) + 1` sweeps over the cells (`N` the number of cells), for
every DEM, eps and flood level, in any arithmetic in which adding eps does not lower a value. -/
theorem C130_sweeps {raise : V → V} (hinf : ∀ x, x ≤ raise x) {flood : V} {g : Grid N} {dem : Fin N → V}
    {method : String} (hpoly : ∀ n, g.iverts n ≠ []) (hrange : ∀ c, ∀ n ∈ g.nbr c, n < N)
    (heff : effective (none : Option (Fin N → Bool)) method = .drain) :
    ∃ out, ∀ fuel, N ^ 2 * (N + 1) + 1 ≤ fuel → fillSinks fuel raise flood g dem none method = .ok out := by
  obtain ⟨edge, he⟩ := Edge.C15_total hpoly
  obtain ⟨t, ht⟩ := drainLoop_sweeps hinf (flood := flood) hrange (dem := dem) (N ^ 2 * (N + 1) + 1)
    (drainInit flood dem edge) (derived_init raise flood dem edge) (by
      refine Nat.lt_succ_of_le ?_
      unfold totalRank
      calc ∑ n, rank (levelSet raise flood dem) (drainInit flood dem edge n)
          ≤ ∑ _n : Fin N, N * (N + 1) := Finset.sum_le_sum fun n _ =>
            (Finset.card_filter_le _ _).trans (levelSet_card raise flood dem)
        _ = N ^ 2 * (N + 1) := by simp; ring)
  refine ⟨t, fun fuel hf => ?_⟩
  obtain ⟨k, rfl⟩ := Nat.exists_eq_add_of_le hf
  rw [fillSinks, he, Res.bind_ok, fillFrom_eq, if_pos heff]
  exact drainLoop_mono _ k _ _ ht

/-- **C130**, cells: every result of 'drain' is a ground elevation (or the flood level) raised fewer than `N`
times. -/
theorem C130_levels {raise : V → V} (hinf : ∀ x, x ≤ raise x) {flood : V} {g : Grid N} {dem out : Fin N → V}
    {method : String} {fuel : ℕ} (heff : effective (none : Option (Fin N → Bool)) method = .drain)
    (h : fillSinks fuel raise flood g dem none method = .ok out) (n : Fin N) :
    ∃ j < N, out n = raise^[j] flood ∨ ∃ k, out n = raise^[j] (dem k) := by
  obtain ⟨seed, hs, hseed, ⟨hd, _⟩ | ⟨_, h⟩⟩ := fillSinks_cases h
  · exact absurd heff hd
  obtain ⟨hi, _⟩ := drainLoop_inv (Derived raise flood dem)
    (fun c b wf b' wf' hp hc => by
      rcases derived_cell hinf hp hc with ⟨_, h3⟩ | ⟨_, hD, _⟩
      · rw [h3]; exact hp
      · exact hD) fuel _ out (derived_init raise flood dem seed) h
  obtain ⟨⟨j, o⟩, hm, he⟩ := Finset.mem_image.1 (derived_mem hi n)
  simp only [Finset.mem_product, Finset.mem_range, Finset.mem_univ, and_true] at hm
  cases o with
  | none => exact ⟨j, hm, .inl he.symm⟩
  | some k => exact ⟨j, hm, .inr ⟨k, he.symm⟩⟩

example : ∃ out, ∀ fuel, 16 ^ 2 * (16 + 1) + 1 ≤ fuel → fillSinks fuel rs 100 g44 dem44 none "drain" = .ok out :=
  C130_sweeps (fun x => (rs_lt x).le) (by decide +kernel) (by decide +kernel) (by decide +kernel)
example : ∃ j < 16, out44 5 = rs^[j] 100 ∨ ∃ k, out44 5 = rs^[j] (dem44 k) :=
  C130_levels (fun x => (rs_lt x).le) (by decide +kernel) run_drain 5

end Dany.Flood
