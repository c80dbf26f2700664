import Verif.Nodata.Props

/-!
# `method="drain"` on a DEM with nodata cells: C143, C144
-/

namespace Dany.Nodata

open Function
open Flood (Adj SymmNbr effective Grid)

variable {N : ℕ} {V : Type*} [LinearOrder V]

/-- The DEM with every nodata cell at the flood level. -/
def walls (flood : V) (dem : Fin N → Option V) (n : Fin N) : V := (dem n).getD flood

/-- The water surface with the nodata cells of the edge put back. -/
def view (dem : Fin N → Option V) (seed : List (Fin N)) (wf : Fin N → V) (n : Fin N) : Option V :=
  if dem n = none ∧ n ∈ seed then none else some (wf n)

/-- what holds of the surface all along -/
structure Lv (flood : V) (dem : Fin N → Option V) (wf : Fin N → V) : Prop where
  le : ∀ n, wf n ≤ flood
  none : ∀ n, dem n = none → wf n = flood

theorem view_some {dem : Fin N → Option V} {seed : List (Fin N)} {wf : Fin N → V} {n : Fin N} {x : V} (h : dem n = some x) :
    view dem seed wf n = some (wf n) := by simp [view, h]

theorem view_update {dem : Fin N → Option V} {seed : List (Fin N)} {wf : Fin N → V} {c : Fin N} {x : V} (h : dem c = some x)
    (v : V) : update (view dem seed wf) c (some v) = view dem seed (update wf c v) := by
  funext n
  by_cases hn : n = c
  · subst hn; simp [view, h]
  · simp [view, hn]

theorem foldl_maxO' (es : List (Fin N)) (f : Fin N → Option V) (wf : Fin N → V) (h : ∀ n ∈ es, f n = some (wf n)) (e : V) :
    (es.map f).foldl maxO (some e) = some ((es.map wf).foldl max e) := by
  have : es.map f = (es.map wf).map some := by
    rw [List.map_map]; exact List.map_congr_left h
  rw [this, foldl_maxO]

theorem drainCell_view {raise : V → V} {flood : V} {dem : Fin N → Option V} {seed : List (Fin N)} (hinf : ∀ x, x ≤ raise x)
    (nbr : Fin N → List ℕ) (c : Fin N) (b : Bool) {wf : Fin N → V} (hw : Lv flood dem wf) :
    drainCell raise nbr dem c (b, view dem seed wf) =
      (Flood.drainCell raise nbr (walls flood dem) c (b, wf)).map fun r => (r.1, view dem seed r.2) := by
  unfold drainCell Flood.drainCell
  dsimp only
  cases hd : dem c with
  | none =>
    have h1 : ¬ wf c > walls flood dem c := by rw [hw.none c hd]; simp [walls, hd]
    rw [if_neg h1]
    simp [ltO]
  | some x =>
    have hwc : walls flood dem c = x := by simp [walls, hd]
    rw [hwc, view_some hd]
    simp only [gt_iff_lt]
    by_cases h1 : x < wf c
    · rw [if_pos (show ltO (some x) (some (wf c)) = true from decide_eq_true h1), if_pos h1]
      cases Flood.indexAll N (nbr c) with
      | err e => rfl
      | hang => rfl
      | ok nc =>
        simp only [Res.bind_ok, ge_iff_le]
        have f1 : (nc.filter fun n => leO ((view dem seed wf n).map raise) (some x)) =
            nc.filter fun n => decide (raise (wf n) ≤ x) := by
          apply List.filter_congr
          intro n _
          by_cases hn : dem n = none ∧ n ∈ seed
          · have : view dem seed wf n = none := if_pos hn
            rw [this]
            symm
            simp only [Option.map_none, leO, decide_eq_false_iff_not, not_le]
            rw [hw.none n hn.1]
            exact h1.trans_le ((hw.le c).trans (hinf _))
          · have : view dem seed wf n = some (wf n) := if_neg hn
            rw [this]; rfl
        have f2 : (nc.filter fun n => ltO ((view dem seed wf n).map raise) (some (wf c))) =
            nc.filter fun n => decide (raise (wf n) < wf c) := by
          apply List.filter_congr
          intro n _
          by_cases hn : dem n = none ∧ n ∈ seed
          · have : view dem seed wf n = none := if_pos hn
            rw [this]
            symm
            simp only [Option.map_none, ltO, decide_eq_false_iff_not, not_lt]
            rw [hw.none n hn.1]
            exact (hw.le c).trans (hinf _)
          · have : view dem seed wf n = some (wf n) := if_neg hn
            rw [this]; rfl
        rw [f1, f2]
        have hvs : ∀ n ∈ nc.filter (fun n => decide (raise (wf n) < wf c)), view dem seed wf n = some (wf n) := by
          intro n hn
          simp only [List.mem_filter, decide_eq_true_eq] at hn
          refine if_neg fun hn' => ?_
          rw [hw.none n hn'.1] at hn
          exact absurd hn.2 (not_lt.2 ((hw.le c).trans (hinf _)))
        split_ifs with h2
        · rw [Res.map_ok, view_update hd]
        · cases hl : nc.filter (fun n => decide (raise (wf n) < wf c)) with
          | nil => rfl
          | cons m ms =>
            rw [hl] at hvs
            simp only [List.map_cons]
            rw [hvs m (by simp), foldl_maxO' ms _ wf (fun n hn => hvs n (by simp [hn]))]
            simp only [Option.map_some, Res.map_ok, view_update hd]
    · rw [if_neg (show ¬ ltO (some x) (some (wf c)) = true from by simpa [ltO] using h1), if_neg h1]; rfl

theorem lv_cell {raise : V → V} {flood : V} {dem : Fin N → Option V} {nbr : Fin N → List ℕ} {c : Fin N} {b b' : Bool}
    {wf wf' : Fin N → V} (hw : Lv flood dem wf)
    (h : Flood.drainCell raise nbr (walls flood dem) c (b, wf) = .ok (b', wf')) : Lv flood dem wf' := by
  rcases Flood.drainCell_cases h with ⟨_, h2, _⟩ | ⟨hb, hlt, m, ha, hh⟩
  · rw [h2]; exact hw
  obtain ⟨x, hx, rfl⟩ : ∃ x, x < wf c ∧ wf' = update wf c x := by
    rcases hh with ⟨h1, h2⟩ | ⟨h0, h1, h2⟩
    · exact ⟨_, hlt, h2⟩
    · exact ⟨_, h1, h2⟩
  have hc : dem c ≠ none := by
    intro hc
    rw [hw.none c hc] at hlt
    simp [walls, hc] at hlt
  constructor
  · intro n
    by_cases hn : n = c
    · subst hn; rw [update_self]; exact hx.le.trans (hw.le n)
    · rw [update_of_ne hn]; exact hw.le n
  · intro n hn
    rw [update_of_ne (by rintro rfl; exact hc hn)]; exact hw.none n hn

theorem drainLoop_view {raise : V → V} {flood : V} {dem : Fin N → Option V} {seed : List (Fin N)} (hinf : ∀ x, x ≤ raise x)
    (nbr : Fin N → List ℕ) (fuel : ℕ) {wf : Fin N → V} (hw : Lv flood dem wf) :
    drainLoop raise nbr dem fuel (view dem seed wf) =
      (Flood.drainLoop raise nbr (walls flood dem) fuel wf).map (view dem seed) := by
  have sweep : ∀ (l : List (Fin N)) (b : Bool) (wf : Fin N → V), Lv flood dem wf →
      Flood.foldRes (drainCell raise nbr dem) l (b, view dem seed wf) =
        (Flood.foldRes (Flood.drainCell raise nbr (walls flood dem)) l (b, wf)).map fun r => (r.1, view dem seed r.2) := by
    intro l
    induction l with
    | nil => intro b wf _; rfl
    | cons a l ih =>
      intro b wf hw
      simp only [Flood.foldRes, drainCell_view hinf nbr a b hw]
      cases hc : Flood.drainCell raise nbr (walls flood dem) a (b, wf) with
      | err e => rfl
      | hang => rfl
      | ok r => exact ih r.1 r.2 (lv_cell hw hc)
  induction fuel generalizing wf with
  | zero => rfl
  | succ k ih =>
    simp only [drainLoop, Flood.drainLoop, drainSweep, Flood.drainSweep, sweep _ _ _ hw]
    cases hc : Flood.foldRes (Flood.drainCell raise nbr (walls flood dem)) (List.finRange N) (false, wf) with
    | err e => rfl
    | hang => rfl
    | ok r =>
      have hr : Lv flood dem r.2 := Flood.foldRes_inv (fun s => Lv flood dem s.2)
        (fun a s s' hs hf => lv_cell (b := s.1) (b' := s'.1) (c := a) hs hf) _ _ _ hw hc
      simp only [Res.map_ok, Res.bind_ok]
      split
      · exact ih hr
      · rfl

theorem floodAndDrain_view {raise : V → V} {flood : V} {dem : Fin N → Option V} (hinf : ∀ x, x ≤ raise x)
    (hfl : ∀ n x, dem n = some x → x ≤ flood) (fuel : ℕ) (nbr : Fin N → List ℕ) (seed : List (Fin N)) :
    floodAndDrain fuel raise flood nbr dem seed =
      (Flood.floodAndDrain fuel raise flood nbr (walls flood dem) seed).map (view dem seed) := by
  unfold floodAndDrain Flood.floodAndDrain
  have hw : Lv flood dem (Flood.drainInit flood (walls flood dem) seed) := by
    constructor <;> intro n
    · unfold Flood.drainInit walls
      split
      · cases hd : dem n with
        | none => exact le_rfl
        | some x => exact hfl n x hd
      · exact le_rfl
    · intro hn
      unfold Flood.drainInit walls
      rw [hn]; simp
  rw [← drainLoop_view hinf nbr fuel hw]
  congr 1
  funext n
  unfold drainInit view Flood.drainInit walls
  cases hd : dem n with
  | none => by_cases hs : n ∈ seed <;> simp [hs]
  | some x => by_cases hs : n ∈ seed <;> simp [hs]

/-- **C143.**  'drain' on a DEM with nodata cells runs as on the DEM with all nodata cells at 1e10 (same result, exception or
endless loop), except that nodata cells on the grid edge come out as nodata. -/
theorem C143_as_walls {fuel : ℕ} {raise : V → V} {flood : V} {g : Grid N} {dem : Fin N → Option V} {method : String}
    (hinf : ∀ x, x ≤ raise x) (hfl : ∀ n x, dem n = some x → x ≤ flood)
    (heff : effective (none : Option (Fin N → Bool)) method = .drain) {out : Fin N → Option V} :
    fillSinks fuel raise flood g dem none method = .ok out ↔
      ∃ f, Flood.fillSinks fuel raise flood g (fun n => (dem n).getD flood) none method = .ok f ∧
        ∀ n, (dem n = none ∧ Edge.OnEdge g.iverts n → out n = none) ∧
          (¬ (dem n = none ∧ Edge.OnEdge g.iverts n) → out n = some (f n)) := by
  unfold fillSinks Flood.fillSinks
  cases he : Edge.edgeNodes g.iverts with
  | err e => simp [Res.bind]
  | hang => simp [Res.bind]
  | ok edge =>
    obtain ⟨_, h2⟩ := Edge.C15_edge_nodes he
    simp only [Res.bind_ok]
    rw [fillFrom_eq, Flood.fillFrom_eq, if_pos heff, if_pos heff, floodAndDrain_view hinf hfl, Res.map_eq_ok]
    show (∃ f, Flood.floodAndDrain fuel raise flood g.nbr (fun n => (dem n).getD flood) edge = .ok f ∧ view dem edge f = out) ↔ _
    refine exists_congr fun f => and_congr_right fun _ => ?_
    simp only [← h2]
    constructor
    · rintro rfl n
      exact ⟨fun h => if_pos h, fun h => if_neg h⟩
    · intro h
      funext n
      by_cases hn : dem n = none ∧ n ∈ edge
      · rw [(h n).1 hn]; exact if_pos hn
      · rw [(h n).2 hn]; exact if_neg hn

theorem hfl_walls {flood : V} {dem : Fin N → Option V} (hfl : ∀ n x, dem n = some x → x ≤ flood) (n : Fin N) :
    (dem n).getD flood ≤ flood := by
  cases hd : dem n with
  | none => exact le_rfl
  | some x => exact hfl n x hd

theorem PathRise.walls {raise : V → V} {flood : V} {nbr : Fin N → List ℕ} {dem : Fin N → Option V} {S : Fin N → Prop}
    {n : Fin N} {v : V} (h : PathRise raise nbr dem S n v) : Flood.PathRise raise nbr (fun n => (dem n).getD flood) S n v := by
  induction h with
  | @seed s x hs hx =>
    have := Flood.PathRise.seed (raise := raise) (nbr := nbr) (dem := fun n => (dem n).getD flood) hs
    simpa [hx] using this
  | @step c n v x _ ha hx ih =>
    have := Flood.PathRise.step ih ha
    simpa [hx] using this

theorem PathRise.of_walls {raise : V → V} (hinf : ∀ x, x ≤ raise x) {flood : V} {nbr : Fin N → List ℕ}
    {dem : Fin N → Option V} {S : Fin N → Prop} {n : Fin N} {v : V}
    (h : Flood.PathRise raise nbr (fun n => (dem n).getD flood) S n v) : flood ≤ v ∨ PathRise raise nbr dem S n v := by
  induction h with
  | @seed s hs =>
    cases hx : dem s with
    | none => left; simp
    | some x => right; simpa using PathRise.seed hs hx
  | @step c n v _ ha ih =>
    rcases ih with h | h
    · left; exact h.trans ((hinf v).trans (le_max_right _ _))
    · cases hx : dem n with
      | none => left; simp
      | some x => right; simpa using PathRise.step h ha hx

/-- **C143.**  A cell with an elevation gets the lowest surface that rises by eps or more along some path from the grid edge
over cells with elevations, or 1e10 if that is lower: nodata cells act as walls. -/
theorem C143_least {fuel : ℕ} {raise : V → V} {flood : V} {g : Grid N} {dem out : Fin N → Option V} {method : String}
    (hinf : ∀ x, x ≤ raise x) (hmono : Monotone raise) (hfl : ∀ n x, dem n = some x → x ≤ flood)
    (heff : effective (none : Option (Fin N → Bool)) method = .drain)
    (h : fillSinks fuel raise flood g dem none method = .ok out) (n : Fin N) (hn : dem n ≠ none) :
    ∃ y, out n = some y ∧ IsLeast {v | v = flood ∨ PathRise raise g.nbr dem (Edge.OnEdge g.iverts) n v} y := by
  obtain ⟨f, hf, ho⟩ := (C143_as_walls hinf hfl heff).1 h
  refine ⟨f n, (ho n).2 fun h => hn h.1, ?_⟩
  obtain ⟨h1, h2⟩ := Flood.C10_drain_least hinf hmono (hfl_walls hfl) heff hf n
  constructor
  · rcases h1 with h1 | h1
    · exact .inl h1
    · rcases PathRise.of_walls hinf h1 with h3 | h3
      · exact .inl (le_antisymm (h2 (.inl rfl)) h3)
      · exact .inr h3
  · rintro v (rfl | hv)
    · exact h2 (.inl rfl)
    · exact h2 (.inr hv.walls)

/-- **C143.**  A cell with an elevation that ends below 1e10 has a strictly descending path over cells with elevations to the
grid edge. -/
theorem C143_drains {fuel : ℕ} {raise : V → V} {flood : V} {g : Grid N} {dem out : Fin N → Option V} {method : String}
    (hinf : ∀ x, x ≤ raise x) (hstrict : ∀ x, x < flood → x < raise x) (hmono : Monotone raise)
    (hfl : ∀ n x, dem n = some x → x ≤ flood) (heff : effective (none : Option (Fin N → Bool)) method = .drain)
    (h : fillSinks fuel raise flood g dem none method = .ok out) (n : Fin N) {y : V} (hy : out n = some y) (hlt : y < flood) :
    Drains (· < ·) g.nbr out (fun c => Edge.OnEdge g.iverts c ∧ dem c ≠ none) n := by
  obtain ⟨f, hf, ho⟩ := (C143_as_walls hinf hfl heff).1 h
  have hl := Flood.C10_drain_least hinf hmono (hfl_walls hfl) heff hf
  have hwall : ∀ k, dem k = none → f k = flood := by
    intro k hk
    have h1 := Flood.C01_never_lowers hinf (fun _ => hfl_walls hfl) hf k
    rw [hk] at h1
    exact le_antisymm ((hl k).2 (.inl rfl)) h1
  have hval : ∀ k, f k < flood → dem k ≠ none ∧ out k = some (f k) := by
    intro k hk
    have : dem k ≠ none := fun h => hk.ne (hwall k h)
    exact ⟨this, (ho k).2 fun h => this h.1⟩
  have hfn : f n < flood := by
    by_cases hn : dem n = none ∧ Edge.OnEdge g.iverts n
    · rw [(ho n).1 hn] at hy; cases hy
    · rw [(ho n).2 hn] at hy; cases hy; exact hlt
  have hd := Flood.C03_drain_drains hinf hstrict hmono (hfl_walls hfl) heff hf n hfn
  clear hy hlt
  induction hd with
  | outlet hs => exact .outlet ⟨hs, (hval _ hfn).1⟩
  | step ha hl _ ih =>
    have hc := hl.trans hfn
    exact .step ha (hval _ hc).2 (hval _ hfn).2 hl (ih hc)

/-- **C143.**  'drain' finishes on every DEM with nodata cells, under the conditions of C11. -/
theorem C143_terminates {raise : V → V} {flood : V} {g : Grid N} {dem : Fin N → Option V} {method : String}
    (hpoly : ∀ n, g.iverts n ≠ []) (hrange : ∀ c, ∀ n ∈ g.nbr c, n < N) (hinf : ∀ x, x ≤ raise x)
    (hfl : ∀ n x, dem n = some x → x ≤ flood) (hfin : ∀ x, {y | y ≤ flood ∧ ∃ k : ℕ, y = raise^[k] x}.Finite)
    (heff : effective (none : Option (Fin N → Bool)) method = .drain) :
    ∃ out F, ∀ fuel, F ≤ fuel → fillSinks fuel raise flood g dem none method = .ok out := by
  classical
  obtain ⟨f, F, hF⟩ := Flood.C11_drain_terminates hpoly hrange (hfl_walls hfl) hfin heff
  refine ⟨fun n => if dem n = none ∧ Edge.OnEdge g.iverts n then none else some (f n), F, fun fuel hf => ?_⟩
  exact (C143_as_walls hinf hfl heff).2 ⟨f, hF fuel hf, fun n => ⟨fun h => if_pos h, fun h => if_neg h⟩⟩

/-- **C144, partial.**  'drain' leaves nodata cells on the grid edge without elevation.  Missing: the others, which come out
at 1e10 (`C144_interior`), see `C144_refuted`. -/
theorem C144_edge_partial {fuel : ℕ} {raise : V → V} {flood : V} {g : Grid N} {dem out : Fin N → Option V} {method : String}
    (hinf : ∀ x, x ≤ raise x) (hfl : ∀ n x, dem n = some x → x ≤ flood)
    (heff : effective (none : Option (Fin N → Bool)) method = .drain)
    (h : fillSinks fuel raise flood g dem none method = .ok out) (n : Fin N) (hn : Edge.OnEdge g.iverts n) :
    out n = dem n := by
  obtain ⟨f, hf, ho⟩ := (C143_as_walls hinf hfl heff).1 h
  cases hd : dem n with
  | none => exact (ho n).1 ⟨hd, hn⟩
  | some x =>
    rw [(ho n).2 (by simp [hd]), Flood.C02_edges_unchanged hinf hf n hn, hd]; rfl

/-- Every nodata cell off the grid edge is given the elevation 1e10. -/
theorem C144_interior {fuel : ℕ} {raise : V → V} {flood : V} {g : Grid N} {dem out : Fin N → Option V} {method : String}
    (hinf : ∀ x, x ≤ raise x) (hmono : Monotone raise) (hfl : ∀ n x, dem n = some x → x ≤ flood)
    (heff : effective (none : Option (Fin N → Bool)) method = .drain)
    (h : fillSinks fuel raise flood g dem none method = .ok out) (n : Fin N) (hd : dem n = none)
    (hn : ¬ Edge.OnEdge g.iverts n) : out n = some flood := by
  obtain ⟨f, hf, ho⟩ := (C143_as_walls hinf hfl heff).1 h
  rw [(ho n).2 fun h => hn h.2]
  congr 1
  have h1 := Flood.C01_never_lowers hinf (fun _ => hfl_walls hfl) hf n
  rw [hd] at h1
  exact le_antisymm ((Flood.C10_drain_least hinf hmono (hfl_walls hfl) heff hf n).2 (.inl rfl)) h1

end Dany.Nodata
