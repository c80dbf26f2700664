import Verif.Pipe.Witness
import Verif.Casc.Props

/-!
# The cascades at the end of the chain (C148)

`get_cascades` on the flow directions and the slopes that the chain of C99 leaves.
-/

namespace Dany.Pipe

open Flow

variable {N : ℕ} {K : Type*} [Field K] [LinearOrder K] [IsStrictOrderedRing K]

/-- `slopes = self._faobj._calculate_slopes()` beside `self._faobj._fneighbors` (stream_util.py:1295,
flow_directions.py:144-174): the neighbours of a cell with the slopes to them.  Simplified: the fill entries
of the table, whose slope is 1e10, are left out, as in `Casc.candidates`. -/
def slopeTable (G : Dirs.Geo N K) (dem : Fin N → Option K) (thr big : K) (nbr : Fin N → List (Fin N))
    (n : Fin N) : List (Fin N × Option K) :=
  (nbr n).map fun m => (m, Dirs.slopeTo G dem thr big n (some m))

/-- `v` lies lower than `u` -/
def Lower (dem : Fin N → Option K) (u v : Fin N) : Prop :=
  ∃ a b, dem u = some a ∧ dem v = some b ∧ b < a

/-- the table of cascades has a link from cell `u` to another cell `v` (numbered from 1 in the table) -/
def Link (rows : List (Casc.Row K)) (u v : Fin N) : Prop :=
  u ≠ v ∧ ∃ r ∈ rows, r.up = ((u : ℕ) : ℤ) + 1 ∧ r.down = ((v : ℕ) : ℤ) + 1

variable {G : Dirs.Geo N K} {dem : Fin N → Option K} {thr big : K} {nbr : Fin N → List (Fin N)}
  {o o' : Reach.Obj N} {d : Fin N → Fin N} {arg : Option (Fin N → ℤ)} {active : Fin N → Bool} {b : Bool}
  {limit : ℕ} {rows : List (Casc.Row K)}

/-- a falling slope leads to a lower neighbour -/
theorem lower_of_slope (hs : Dirs.Sound G dem nbr) {n m : Fin N} {s : K}
    (h : (m, some s) ∈ slopeTable G dem thr big nbr n) (h0 : s < 0) : m ∈ nbr n ∧ Lower dem n m := by
  obtain ⟨m', hm, he⟩ := List.mem_map.1 h
  simp only [Prod.mk.injEq] at he
  obtain ⟨rfl, he⟩ := he
  obtain ⟨x, y, hx, hy, hsl⟩ := Dirs.slopeTo_some.1 he
  refine ⟨hm, x, y, hx, hy, ?_⟩
  by_contra hc
  have h1 : 0 ≤ G.rnd (y - x) := by
    rw [← hs.zero]; exact hs.mono (sub_nonneg.2 (not_lt.1 hc))
  have h2 : 0 ≤ Dirs.rise G thr x y := by
    unfold Dirs.rise
    split
    · exact le_rfl
    · exact h1
  have h3 : 0 ≤ s := by
    rw [hsl, ← hs.zero]
    exact hs.mono (div_nonneg h2 (hs.dist n m' hm).le)
  exact absurd h0 (not_lt.2 h3)

/-- **C148.**  On flow directions that run strictly downhill, every link of the cascades, of either kind and
within any boundary, joins two cells of the grid and leads strictly downhill, or from a cell to itself. -/
theorem C148_downhill (hs : Dirs.Sound G dem nbr) (hl : Legal o.fdir d)
    (hfall : ∀ n, d n ≠ n → Lower dem n (d n))
    (h : Casc.getCascades limit (slopeTable G dem thr big nbr) o arg active b = .ok (o', rows)) :
    ∀ r ∈ rows, ∃ u v : Fin N, r.up = ((u : ℕ) : ℤ) + 1 ∧ r.down = ((v : ℕ) : ℤ) + 1 ∧
      (u = v ∨ Lower dem u v) := by
  have h9 : ∀ n, o.fdir n ≠ -9 := fun n => by rw [hl n]; omega
  intro r hr
  obtain ⟨sa, links, _, h2, h3⟩ := Casc.getCascades_inv h
  have hmem : (r.up - 1, r.down - 1, r.pct) ∈ links :=
    (Casc.mem_rows_iff h3).1 ⟨r.strmseg, hr⟩
  cases b with
  | false =>
    obtain ⟨_, m, _, hv, ⟨_, hu⟩ | ⟨_, hu⟩⟩ :=
      (Casc.C62_links hl.resolves h9 h r.up r.down r.pct).1 ⟨r.strmseg, hr⟩
    · refine ⟨m, d m, hu, by rw [hv, hl m], ?_⟩
      by_cases e : d m = m
      · exact .inl e.symm
      · exact .inr (hfall m e)
    · exact ⟨d m, d m, by rw [hu, hv, hl m], by rw [hv, hl m], .inl rfl⟩
  | true =>
    simp only [if_true] at h2
    have hup : ∃ n : Fin N, r.up - 1 = ((n : ℕ) : ℤ) := by
      have h2' := h2
      rw [Casc.manyToMany_ok hl.resolves h9] at h2'
      cases h2'
      obtain ⟨n, _, hn⟩ := List.mem_flatMap.1 hmem
      exact ⟨n, Casc.manySpec_up hn⟩
    obtain ⟨n, hn⟩ := hup
    rw [hn] at hmem
    obtain ⟨_, k1, k2⟩ := Casc.C64_links_partial hl.resolves h9 h2 hmem
    by_cases hsa : sa n > 0
    · obtain ⟨_, ⟨_, hv⟩ | ⟨_, hv⟩⟩ := k1 hsa
      · refine ⟨n, d n, by omega, by rw [hl n] at hv; omega, ?_⟩
        by_cases e : d n = n
        · exact .inl e.symm
        · exact .inr (hfall n e)
      · exact ⟨n, n, by omega, by omega, .inl rfl⟩
    · obtain ⟨c, hc, _, s, hcs, hs0⟩ := k2 hsa
      exact ⟨n, c, by omega, by omega, .inr (lower_of_slope hs hcs hs0).2⟩

/-- **C148**: water never runs in circles along the cascades. -/
theorem C148_no_circles (hs : Dirs.Sound G dem nbr) (hl : Legal o.fdir d)
    (hfall : ∀ n, d n ≠ n → Lower dem n (d n))
    (h : Casc.getCascades limit (slopeTable G dem thr big nbr) o arg active b = .ok (o', rows)) (u : Fin N) :
    ¬ Relation.TransGen (Link rows) u u := by
  have key : ∀ u v : Fin N, Link rows u v → Lower dem u v := by
    rintro u v ⟨hne, r, hr, hu, hv⟩
    obtain ⟨u', v', hu', hv', hc⟩ := C148_downhill hs hl hfall h r hr
    have e1 : u' = u := Fin.ext (by omega)
    have e2 : v' = v := Fin.ext (by omega)
    subst e1 e2
    exact hc.resolve_left hne
  have htr : ∀ u v : Fin N, Relation.TransGen (Link rows) u v → Lower dem u v := by
    intro u v h
    induction h with
    | single h => exact key _ _ h
    | tail _ h ih =>
      obtain ⟨a, b, ha, hb, hlt⟩ := ih
      obtain ⟨b', c, hb', hc, hlt'⟩ := key _ _ h
      rw [hb] at hb'
      cases hb'
      exact ⟨a, c, ha, hc, hlt'.trans hlt⟩
  intro hc
  obtain ⟨a, b, ha, hb, hlt⟩ := htr u u hc
  rw [ha] at hb
  cases hb
  exact lt_irrefl _ hlt

variable {g : Flood.Grid N} {mask : Option (Fin N → Bool)} {demo f : Fin N → K} {raise : K → K} {flood : K}
  {method : String} {terminals : List ℤ} {fuel fuel' : ℕ} {out : Fin N → ℤ}

/-- **C148** at the end of the chain: after `fill_sinks` with method "priority" and `flow_directions` under the
conditions of C99, whatever streams are delineated and whatever boundary is given, the cascades of either
kind only lead downhill, and never in circles. -/
theorem C148_chain (hN : N < 1000000) (hstrict : ∀ x, x < raise x)
    (heff : Flood.effective mask method = .priority)
    (hfill : Flood.fillSinks fuel raise flood g demo mask method = .ok f)
    (hg : GoodGrid g mask) (he : GoodEnds g mask f terminals) (hs : Dirs.Sound G (Dirs.filled f) (nbrs g))
    (hb : Dirs.Below G (Dirs.filled f) thr big (nbrs g))
    (hend : Dirs.CleanEnds G (Dirs.filled f) thr terminals (nbrs g))
    (hrun : Dirs.flowDirections fuel' G (Dirs.filled f) big (Dirs.table (nbrs g)) thr terminals = .ok out)
    (ho : o.fdir = out)
    (h : Casc.getCascades limit (slopeTable G (Dirs.filled f) thr big (nbrs g)) o arg active b =
      .ok (o', rows)) :
    (∀ r ∈ rows, ∃ u v : Fin N, r.up = ((u : ℕ) : ℤ) + 1 ∧ r.down = ((v : ℕ) : ℤ) + 1 ∧
      (u = v ∨ f v < f u)) ∧ ∀ u : Fin N, ¬ Relation.TransGen (Link rows) u u := by
  obtain ⟨d, h1, h2⟩ := C99_network hN hstrict heff hfill hg he hs hb hend hrun
  have hl : Legal o.fdir d := ho ▸ h1.legal
  have hfall : ∀ n, d n ≠ n → Lower (Dirs.filled f) n (d n) := fun n hn =>
    ⟨_, _, rfl, rfl, (h2 n hn).2⟩
  refine ⟨fun r hr => ?_, C148_no_circles hs hl hfall h⟩
  obtain ⟨u, v, hu, hv, hc⟩ := C148_downhill hs hl hfall h r hr
  refine ⟨u, v, hu, hv, hc.imp_right ?_⟩
  rintro ⟨a, c, ha, hc', hlt⟩
  simp only [Dirs.filled, Option.some.injEq] at ha hc'
  rw [ha, hc']; exact hlt

/-- **C148**, the shares: on such a network, a landscape cell within the boundary that drains to another
cell within it passes on all its water, in positive shares adding up to one, unless the cell it drains to
itself drains to the cell numbered 0 (see `Casc.C63_refuted`). -/
theorem C148_shares (hs : Dirs.Sound G dem nbr) (hl : Legal o.fdir d)
    (hfall : ∀ n, d n ≠ n → d n ∈ nbr n ∧ Lower dem n (d n)) {sa : Fin N → ℤ}
    (hsa : Casc.cascadeStreams limit o arg = .ok (o', sa))
    (h : Casc.getCascades limit (slopeTable G dem thr big nbr) o arg active true = .ok (o', rows)) {n : Fin N}
    (ha : active n = true) (hland : sa n = 0) (hdn : d n ≠ n) (had : active (d n) = true)
    (h0 : ((d (d n) : Fin N) : ℕ) ≠ 0) (hfew : (nbr n).length < 100) :
    (∀ r ∈ rows, r.up = ((n : ℕ) : ℤ) + 1 → 0 < r.pct) ∧
      ((rows.filter (fun r => r.up = ((n : ℕ) : ℤ) + 1)).map Casc.Row.pct).sum = 1 := by
  have h9 : ∀ n, o.fdir n ≠ -9 := fun n => by rw [hl n]; omega
  obtain ⟨sa', links, hsa', h2, h3⟩ := Casc.getCascades_inv h
  rw [hsa] at hsa'
  cases hsa'
  simp only [if_true] at h2
  obtain ⟨hm, x, y, hx, hy, hlt⟩ := hfall n hdn
  have hsl : (d n, some (G.rnd (G.rnd (y - x) / G.dist n (d n)))) ∈ slopeTable G dem thr big nbr n := by
    refine List.mem_map.2 ⟨d n, hm, ?_⟩
    rw [Prod.mk.injEq]
    refine ⟨rfl, Dirs.slopeTo_some.2 ⟨x, y, hx, hy, ?_⟩⟩
    rw [hs.rise_of_lt hlt]
  have hlen : (Casc.candidates (slopeTable G dem thr big nbr n)).length < 100 := by
    refine lt_of_le_of_lt (List.length_filterMap_le _ _) ?_
    simpa [slopeTable] using hfew
  obtain ⟨k1, k2⟩ := Casc.C63_fractions_partial hl.resolves h9 h2 ha (by omega)
    ⟨d n, _, hsl, hs.falls n (d n) hm x y hx hy hlt, by
      unfold Casc.masked
      rw [if_neg (by simp [had]), hl]
      exact_mod_cast h0⟩ hlen
  refine ⟨fun r hr hu => ?_, ?_⟩
  · exact k1 _ ((Casc.mem_rows_iff h3).1 ⟨r.strmseg, hr⟩) (by rw [hu]; simp)
  · rw [← k2]
    have := Casc.finishRows_inv h3
    clear h h2 h3 hsa k1 k2
    induction this with
    | nil => rfl
    | @cons l r ls rs hlr _ ih =>
      obtain ⟨e1, e2, e3, _⟩ := hlr
      have hiff : (r.up = ((n : ℕ) : ℤ) + 1) ↔ (l.1 = ((n : ℕ) : ℤ)) := by rw [e1]; omega
      simp only [List.filter_cons]
      by_cases hc : l.1 = ((n : ℕ) : ℤ)
      · rw [if_pos (by simpa using hiff.2 hc), if_pos (by simpa using hc)]
        simp only [List.map_cons, List.sum_cons, ih, e3]
      · rw [if_neg (by simpa using fun h => hc (hiff.1 h)), if_neg (by simpa using hc)]
        exact ih

/-! ### The chain of `Pipe.Witness`, with cascades -/

def objE : Reach.Obj 16 := ⟨fdE, some ![1, 0, 0, 0, 0, 0, 0, 0, 0, 0, 1, 0, 0, 0, 0, 1], none⟩

theorem cascE : (Casc.getCascades 50 (slopeTable Dirs.geo44 (Dirs.filled fillC) Dirs.thr Dirs.big
    (nbrs Flood.g44)) objE none (fun _ => true) true).map (fun r => r.2.map (fun x => (x.up, x.down))) =
      .ok [(1, 1), (4, 3), (6, 3), (6, 9), (6, 11), (7, 3), (7, 4), (7, 10), (7, 11), (8, 3), (8, 4), (8, 7),
        (8, 11), (10, 9), (10, 11), (10, 13), (11, 16), (12, 7), (12, 8), (12, 11), (12, 16), (13, 9), (14, 9),
        (14, 10), (14, 11), (14, 13), (15, 10), (15, 11), (15, 14), (15, 16), (16, 16)] := by decide +kernel

-- all conditions of C148 hold there: no circles, and the shares of cell 6 add up to one
example : ∃ o' rows, Casc.getCascades 50 (slopeTable Dirs.geo44 (Dirs.filled fillC) Dirs.thr Dirs.big
    (nbrs Flood.g44)) objE none (fun _ => true) true = .ok (o', rows) ∧ Link rows (6 : Fin 16) 9 ∧
    ∀ u : Fin 16, ¬ Relation.TransGen (Link rows) u u := by
  obtain ⟨⟨o', rows⟩, h, hr⟩ := Res.map_eq_ok.1 cascE
  refine ⟨o', rows, h, ⟨by decide, ?_⟩, (C148_chain (by norm_num) Flood.rs_lt (by decide +kernel) fillRunC good44
    endsC Dirs.sound44 belowC cleanC runE rfl h).2⟩
  have : ((7 : ℤ), (10 : ℤ)) ∈ rows.map (fun x => (x.up, x.down)) := by
    simp only at hr; rw [hr]; decide
  obtain ⟨r, h1, h2⟩ := List.mem_map.1 this
  simp only [Prod.mk.injEq] at h2
  exact ⟨r, h1, h2.1, h2.2⟩

example : ∃ o' rows, Casc.getCascades 50 (slopeTable Dirs.geo44 (Dirs.filled fillC) Dirs.thr Dirs.big
    (nbrs Flood.g44)) objE none (fun _ => true) true = .ok (o', rows) ∧
    ((rows.filter (fun r => r.up = (((6 : Fin 16) : ℕ) : ℤ) + 1)).map Casc.Row.pct).sum = 1 := by
  obtain ⟨⟨o', rows⟩, h, _⟩ := Res.map_eq_ok.1 cascE
  obtain ⟨sa, _, hsa, _⟩ := Casc.getCascades_inv h
  refine ⟨o', rows, h, (C148_shares (n := 6) (d := nxE) Dirs.sound44 networkE.legal ?_ hsa h rfl ?_
    (by decide) rfl (by decide) (by decide +kernel)).2⟩
  · have : ∀ n, nxE n ≠ n → nxE n ∈ nbrs Flood.g44 n ∧ fillC (nxE n) < fillC n := by decide +kernel
    exact fun n hn => ⟨(this n hn).1, _, _, rfl, rfl, (this n hn).2⟩
  · have : (Casc.cascadeStreams 50 objE none).map (fun r => r.2 6) = .ok 0 := by decide +kernel
    rw [hsa] at this
    simpa using this

end Dany.Pipe
