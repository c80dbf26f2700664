import Verif.Prms.Model
import Verif.Casc.Props
import Verif.Seg.Ungroup
import Verif.Geom.Props

/-!
# C88 – C90: PRMS connectivity and the builder object
-/

namespace Dany.Prms

open Flow Reach Casc Seg Relation

variable {N : ℕ} {d : Fin N → Fin N} {active : Fin N → Bool} {limit fuel : ℕ} {u : Bool}
  {o o' : Obj N} {arg : Option (Fin N → ℤ)} {sa : Fin N → ℤ}

theorem countNonzero_eq (sa : Fin N → ℤ) : countNonzero sa = nStream sa := by
  unfold countNonzero nStream
  rw [← filter_length_card]

/-- segments start in stream cells -/
theorem nSeg_le (fdir sa : Fin N → ℤ) : nSeg fdir sa ≤ nStream sa := by
  classical
  unfold nSeg nStream
  apply Finset.card_le_card
  intro n hn
  simp only [Finset.mem_filter, Finset.mem_univ, true_and] at hn ⊢
  rcases hn with h | ⟨a, _, _, h, _⟩
  · exact h.1
  · exact h.2.1

/-- Every stream cell lies downstream of a headwater. -/
def Headed (fdir sa : Fin N → ℤ) : Prop :=
  ∀ n, sa n ≠ 0 → ∃ h, Headwater fdir sa h ∧ ReflTransGen (Feeds fdir sa) h n

/-- What `get_stream_connectivity` leaves behind: the array `sa'` it stores and the graph `g` it returns,
in terms of the array `sa` it was given. -/
theorem connect_spec (hd : Legal o.fdir d) (hf : N ≤ fuel)
    (hsa : o.source arg = .ok sa) {group : Bool} {g : Dict ℤ ℤ}
    (h : connect limit fuel u o arg group = .ok (o', g)) :
    ∃ sa', o'.streamArray = some sa' ∧ o'.fdir = o.fdir ∧ o'.graph ≠ none ∧
      (∀ n, 0 ≤ sa' n ∧ sa' n ≤ g.length) ∧ (∀ n, sa n = 0 → sa' n = 0) ∧
      (group = false ∨ Headed o.fdir sa → ∀ n, sa n ≠ 0 → sa' n ≠ 0) ∧
      g.length = (if group = true then nSeg o.fdir sa else nStream sa) := by
  unfold connect at h
  cases group with
  | true =>
    rw [if_pos rfl, hsa, Res.bind_ok] at h
    obtain ⟨out, ho, he⟩ := Res.map_eq_ok.1 h
    simp only [Prod.mk.injEq] at he
    obtain ⟨rfl, rfl⟩ := he
    have hlen := (C58_numbers hf ho).2.1
    refine ⟨out.sa, rfl, rfl, by simp, ?_, (C56_rows hf ho).2.2.2.1, ?_, by simpa using hlen⟩
    · intro n
      have := grouped_bound hf ho n
      rw [hlen]; exact this
    · rintro (h | hh)
      · cases h
      · intro n hn
        obtain ⟨x, ⟨hx, rfl⟩, _⟩ := (C56_partition hf hh ho n).1 hn
        obtain ⟨n, s, r⟩ := x
        obtain ⟨_, h2, _⟩ := (C56_rows hf ho).2.2.1 n s r hx
        have hk := ((C58_numbers hf ho).2.2.2 s).2 ⟨n, r, hx⟩
        have := ((C58_numbers hf ho).2.2.1 s).1 hk
        dsimp only
        omega
  | false =>
    simp only [Bool.false_eq_true, if_false] at h
    unfold Obj.connectivity at h
    rw [hsa, Res.bind_ok] at h
    obtain ⟨⟨sa1, g1⟩, hm, he⟩ := Res.map_eq_ok.1 h
    simp only [Prod.mk.injEq] at he
    obtain ⟨rfl, rfl⟩ := he
    obtain ⟨L, hl, hm⟩ := mf6_lift hm d
    obtain ⟨sa', g, hm', h1, h2, h3, h4, h5, h6⟩ := C49_reach_numbers (sa := sa) hd.resolves hl
    rw [hm'] at hm
    simp only [Res.ok.injEq, Prod.mk.injEq] at hm
    obtain ⟨rfl, rfl⟩ := hm
    have hlen : g.length = nStream sa := by
      have := congrArg List.length h5
      simpa [Dict.keys] using this
    refine ⟨sa', rfl, rfl, by simp, ?_, h1, ?_, by simpa using hlen⟩
    · intro n
      rw [hlen]
      by_cases hn : sa n = 0
      · rw [h1 n hn]; exact ⟨le_refl _, by positivity⟩
      · have := h2 n hn; omega
    · intro _ n hn
      have := (h2 n hn).1; omega

section Field

variable {K : Type*} [Field K] [LinearOrder K] {nbs : Fin N → List (Fin N × Option K)} {rows : List (Row K)}

/-- with its default keyword this is the `get_cascades` of the cascade model -/
theorem cascades_eq (limit fuel : ℕ) (u : Bool) (o : Obj N) (arg : Option (Fin N → ℤ))
    (active : Fin N → Bool) (b : Bool) :
    cascades limit fuel u nbs o arg active b false = getCascades limit nbs o arg active b := by
  have : cascadeStreams limit fuel u o arg false = Casc.cascadeStreams limit o arg := by
    unfold cascadeStreams Casc.cascadeStreams connect
    simp only [Bool.false_eq_true, if_false]
    cases arg <;> cases o.graph <;> rfl
  unfold cascades getCascades
  rw [this]

theorem cascades_cached (hg : o.graph ≠ none) (b k : Bool) :
    cascades limit fuel u nbs o arg active b k = getCascades limit nbs o arg active b := by
  obtain ⟨g, hg'⟩ := Option.ne_none_iff_exists'.1 hg
  have : cascadeStreams limit fuel u o arg k = Casc.cascadeStreams limit o arg := by
    unfold cascadeStreams Casc.cascadeStreams
    rw [hg']
    cases arg <;> rfl
  unfold cascades getCascades
  rw [this]

/-- the cells of the links -/
theorem links_range (hd : Legal o.fdir d) {b : Bool} {links : List (ℤ × ℤ × K)}
    (h : (if b = true then manyToMany o.fdir active sa nbs else manyToOne o.fdir active) = .ok links) :
    ∀ l ∈ links, ∃ a c : Fin N, l.1 = ((a : ℕ) : ℤ) ∧ l.2.1 = ((c : ℕ) : ℤ) := by
  have h9 : ∀ n, o.fdir n ≠ -9 := fun n => by rw [hd n]; omega
  intro l hl
  cases b with
  | true =>
    rw [if_pos rfl, manyToMany_ok hd.resolves h9] at h
    cases h
    obtain ⟨n, _, hn⟩ := List.mem_flatMap.1 hl
    unfold manySpec at hn
    split at hn
    · cases hn
    · split at hn
      · rw [List.mem_singleton] at hn
        subst hn
        refine ⟨n, if active (d n) = false then n else d n, rfl, ?_⟩
        dsimp only
        split
        · rfl
        · exact hd n
      · unfold landLinks at hn
        obtain ⟨e, _, rfl⟩ := List.mem_map.1 hn
        exact ⟨n, e.1, rfl, rfl⟩
  | false =>
    simp only [Bool.false_eq_true, if_false] at h
    rw [manyToOne_ok hd.resolves h9] at h
    cases h
    obtain ⟨n, _, hn⟩ := List.mem_flatMap.1 hl
    unfold oneSpec at hn
    split at hn
    · cases hn
    · split at hn
      · rw [List.mem_singleton] at hn
        subst hn
        exact ⟨d n, d n, hd n, hd n⟩
      · obtain ⟨m, _, rfl⟩ := List.mem_map.1 hn
        exact ⟨m, d n, rfl, hd n⟩

theorem pyIndex_cell (c : Fin N) : pyIndex N ((c : ℕ) : ℤ) = .ok c := by
  have h := c.isLt
  unfold pyIndex
  simp [h]

theorem forall₂_mem {α β : Type*} {R : α → β → Prop} {l : List α} {r : List β} (h : List.Forall₂ R l r)
    {y : β} (hy : y ∈ r) : ∃ x ∈ l, R x y := by
  induction h with
  | nil => cases hy
  | cons h1 _ ih =>
    rcases List.mem_cons.1 hy with rfl | hy
    · exact ⟨_, by simp, h1⟩
    · obtain ⟨x, hx, h⟩ := ih hy
      exact ⟨x, by simp [hx], h⟩

/-- rows of `get_cascades` on an object with a connectivity -/
theorem rows_spec (hd : Legal o.fdir d) (hg : o.graph ≠ none) {b : Bool}
    (h : getCascades limit nbs o (some sa) active b = .ok (o', rows)) :
    o' = o ∧ ∀ row ∈ rows, ∃ a c : Fin N, row.up = ((a : ℕ) : ℤ) + 1 ∧ row.down = ((c : ℕ) : ℤ) + 1 ∧
      row.strmseg = sa c := by
  obtain ⟨rfl, hs⟩ := C76_cached hg (.inl rfl) h
  refine ⟨rfl, fun row hrow => ?_⟩
  obtain ⟨sa', links, _, h2, h3⟩ := getCascades_inv h
  obtain ⟨l, hl, e1, e2, _⟩ := forall₂_mem (finishRows_inv h3) hrow
  obtain ⟨a, c, ha, hc⟩ := links_range hd h2 l hl
  obtain ⟨j, hj, hseg⟩ := hs row hrow
  rw [e2, hc, show ((c : ℕ) : ℤ) + 1 - 1 = ((c : ℕ) : ℤ) by ring, pyIndex_cell] at hj
  obtain rfl := Res.ok.inj hj
  exact ⟨a, c, by rw [e1, ha], by rw [e2, hc], hseg⟩

/-- **C76**, the cell numbers: for legal directions every link, of either kind, goes from a cell of the grid to a cell of the
grid, both numbered from one. -/
theorem C76_ids (hd : Legal o.fdir d) {b : Bool} (h : getCascades limit nbs o arg active b = .ok (o', rows)) :
    ∀ row ∈ rows, ∃ a c : Fin N, row.up = ((a : ℕ) : ℤ) + 1 ∧ row.down = ((c : ℕ) : ℤ) + 1 := by
  intro row hrow
  obtain ⟨sa', links, _, h2, h3⟩ := getCascades_inv h
  obtain ⟨l, hl, e1, e2, _⟩ := forall₂_mem (finishRows_inv h3) hrow
  obtain ⟨a, c, ha, hc⟩ := links_range hd h2 l hl
  exact ⟨a, c, by rw [e1, ha], by rw [e2, hc]⟩

theorem finish_total (ls : List (ℤ × ℤ × K)) (h : ∀ l ∈ ls, ∃ c : Fin N, l.2.1 = ((c : ℕ) : ℤ))
    (sa : Fin N → ℤ) : ∃ rows, finishRows sa ls = .ok rows := by
  induction ls with
  | nil => exact ⟨[], rfl⟩
  | cons l ls ih =>
    obtain ⟨c, hc⟩ := h l (by simp)
    obtain ⟨rs, hrs⟩ := ih (fun x hx => h x (by simp [hx]))
    exact ⟨_, by simp only [finishRows, hc, pyIndex_cell, Res.bind_ok, hrs, Res.map_ok]; rfl⟩

end Field

/-! ### C88 -/

variable {nbs : Fin N → List (Fin N × Option ℝ)} {fa : Fa N} {group many : Bool} {b : Builder N}

theorem builder_inv (h : builder limit fuel u nbs fa o arg active group many = .ok (o', b)) :
    ∃ o1 g sa1, connect limit fuel u o arg group = .ok (o1, g) ∧
      getCascades limit nbs o1 o1.streamArray active many = .ok (o', b.rows) ∧
      (arg = some sa1 ∨ arg = none ∧ o'.streamArray = some sa1) ∧
      Geom.slope fa.fdir fa.xc fa.yc fa.dem = .ok b.slope ∧ Geom.aspect fa.fdir fa.xc fa.yc = .ok b.aspect ∧
      b.area = fa.area ∧ b.ncascade = b.rows.length ∧ b.flag = (if many = true then 0 else 1) ∧
      b.nsegments = g.length ∧ b.nreaches = nStream sa1 := by
  unfold builder at h
  obtain ⟨⟨o1, g⟩, h1, h⟩ := Res.bind_eq_ok.1 h
  obtain ⟨⟨o2, rows⟩, h2, h⟩ := Res.bind_eq_ok.1 h
  obtain ⟨sa1, h3, h⟩ := Res.bind_eq_ok.1 h
  obtain ⟨s, h4, h⟩ := Res.bind_eq_ok.1 h
  obtain ⟨a, h5, he⟩ := Res.map_eq_ok.1 h
  simp only [Prod.mk.injEq] at he
  obtain ⟨rfl, rfl⟩ := he
  rw [cascades_eq] at h2
  refine ⟨o1, g, sa1, h1, h2, ?_, h4, h5, rfl, rfl, rfl, rfl, countNonzero_eq _⟩
  cases arg with
  | some x => left; rw [Res.ok.inj h3]
  | none =>
    right
    refine ⟨rfl, ?_⟩
    dsimp only at h3
    unfold Obj.stream at h3
    cases hs : o2.streamArray with
    | none => rw [hs] at h3; cases h3
    | some x => rw [hs] at h3; rw [Res.ok.inj h3]

/-- **C88.** The builder object is consistent.  `sa` is the stream array given or stored.  The number of
cascades is the number of links, all with cell numbers in `1 … N` and stream segments in `0 … nsegments`;
the flag tells the kind of cascades; `nsegments` counts the segments (or reaches) of the network; a link
carries the number the stored array has at its receiving cell, 0 off the stream.  If segments are not
grouped or every stream cell lies downstream of a headwater, links into stream cells carry a segment, and
`nreaches` is the number of stream cells. -/
theorem C88_consistent (hd : Legal o.fdir d) (hf : N ≤ fuel)
    (hsa : o.source arg = .ok sa)
    (h : builder limit fuel u nbs fa o arg active group many = .ok (o', b)) :
    b.ncascade = b.rows.length ∧ b.flag = (if many = true then 0 else 1) ∧
      b.nsegments = (if group = true then nSeg o.fdir sa else nStream sa) ∧
      (arg.isSome → b.nreaches = nStream sa) ∧
      (group = false ∨ Headed o.fdir sa → b.nreaches = nStream sa) ∧
      ∃ sa', o'.streamArray = some sa' ∧ ∀ row ∈ b.rows, ∃ n m : Fin N,
        row.up = ((n : ℕ) : ℤ) + 1 ∧ row.down = ((m : ℕ) : ℤ) + 1 ∧ row.strmseg = sa' m ∧
        0 ≤ row.strmseg ∧ row.strmseg ≤ b.nsegments ∧ (sa m = 0 → row.strmseg = 0) ∧
        (group = false ∨ Headed o.fdir sa → sa m ≠ 0 → row.strmseg ≠ 0) := by
  obtain ⟨o1, g, sa1, h1, h2, h3, _, _, _, e1, e2, e3, e4⟩ := builder_inv h
  obtain ⟨sa', c1, c2, c3, c4, c5, c6, c7⟩ := connect_spec hd hf hsa h1
  rw [c1] at h2
  obtain ⟨rfl, hr⟩ := rows_spec (by rw [c2]; exact hd) c3 h2
  have hst : group = false ∨ Headed o.fdir sa → nStream sa' = nStream sa := by
    intro hh
    unfold nStream
    congr 1
    ext n
    simp only [Finset.mem_filter, Finset.mem_univ, true_and]
    exact ⟨fun hn h0 => hn (c5 n h0), c6 hh n⟩
  refine ⟨e1, e2, by rw [e3, c7], ?_, ?_, sa', c1, ?_⟩
  · intro hs
    rcases h3 with h3 | ⟨h3, _⟩
    · subst h3
      simp only [Obj.source, Res.ok.injEq] at hsa
      rw [e4, hsa]
    · rw [h3] at hs; cases hs
  · intro hh
    rcases h3 with h3 | ⟨_, h3⟩
    · subst h3
      simp only [Obj.source, Res.ok.injEq] at hsa
      rw [e4, hsa]
    · rw [c1] at h3
      rw [e4, ← Option.some.inj h3, hst hh]
  · intro row hrow
    obtain ⟨n, m, hu, hv, hs⟩ := hr row hrow
    refine ⟨n, m, hu, hv, hs, by rw [hs]; exact (c4 m).1, by rw [hs, e3]; exact (c4 m).2, ?_, ?_⟩
    · intro h0; rw [hs, c5 m h0]
    · intro hh h0; rw [hs]; exact c6 hh m h0

/-- **C88** (existence).  For legal directions the builder succeeds on structured and vertex grids, and
without grouping on every grid. -/
theorem C88_succeeds (hd : Legal o.fdir d) (hfa : ∃ d', Legal fa.fdir d') (hf : N ≤ fuel)
    (hl : if group = true then SegsFit o.fdir sa limit else Reach.Fits d sa limit)
    (hsa : o.source arg = .ok sa) (hu : group = false ∨ u = false) :
    ∃ r, builder limit fuel u nbs fa o arg active group many = .ok r := by
  have hc : ∃ o1 g, connect limit fuel u o arg group = .ok (o1, g) := by
    unfold connect
    cases group with
    | true =>
      obtain ⟨out, ho⟩ := C60_partial (b := u) (.inl (hu.resolve_left (by simp))) hf o.fdir sa true
        (by simpa using hl)
      rw [if_pos rfl, hsa, Res.bind_ok, ho]
      exact ⟨_, _, rfl⟩
    | false =>
      obtain ⟨sa', g, hm', _⟩ := C49_reach_numbers (sa := sa) hd.resolves (by simpa using hl)
      simp only [Bool.false_eq_true, if_false, Obj.connectivity, hsa, Res.bind_ok, hm', Res.map_ok]
      exact ⟨_, _, rfl⟩
  obtain ⟨o1, g, hc⟩ := hc
  obtain ⟨sa', c1, c2, c3, _⟩ := connect_spec hd hf hsa hc
  have hd1 : Legal o1.fdir d := by rw [c2]; exact hd
  have h9 : ∀ n, o1.fdir n ≠ -9 := fun n => by rw [hd1 n]; omega
  obtain ⟨links, hlinks⟩ : ∃ links : List (ℤ × ℤ × ℝ), (if many = true then
      manyToMany o1.fdir active sa' nbs else manyToOne o1.fdir active) = .ok links := by
    cases many with
    | true => exact ⟨_, by rw [if_pos rfl]; exact manyToMany_ok hd1.resolves h9⟩
    | false => exact ⟨_, by rw [if_neg (by simp)]; exact manyToOne_ok hd1.resolves h9⟩
  obtain ⟨rows, hrows⟩ := finish_total links (fun l hl => by
    obtain ⟨_, c, _, hc⟩ := links_range hd1 hlinks l hl; exact ⟨c, hc⟩) sa'
  have hcas : getCascades limit nbs o1 o1.streamArray active many = .ok (o1, rows) := by
    obtain ⟨g1, hg1⟩ := Option.ne_none_iff_exists'.1 c3
    unfold getCascades Casc.cascadeStreams
    rw [c1]
    simp only [hg1, Res.bind_ok, hlinks, hrows, Res.map_ok]
  obtain ⟨d', hd'⟩ := hfa
  obtain ⟨s, hs, _⟩ := Geom.C42_slope (xc := fa.xc) (yc := fa.yc) (dem := fa.dem) hd'.resolves
  obtain ⟨a, ha, _⟩ := Geom.C41_aspect (xc := fa.xc) (yc := fa.yc) hd'.resolves
  unfold builder
  rw [hc, Res.bind_ok, cascades_eq, hcas, Res.bind_ok]
  cases arg with
  | some x => exact ⟨_, by simp only [Res.bind_ok, hs, ha, Res.map_ok]; rfl⟩
  | none => exact ⟨_, by simp only [Obj.stream, c1, Res.bind_ok, hs, ha, Res.map_ok]; rfl⟩

/-! ### C89 -/

section Field

variable {K : Type*} [Field K] [LinearOrder K] {nbs : Fin N → List (Fin N × Option K)} {rows : List (Row K)}

/-- **C89, refuted.**  If the object already has a connectivity, `get_cascades(stream_array=sa)` with a
binary array sends every cascade into "segment" 1, whatever the network, and ignores `group_segments`. -/
theorem C89_refuted (hd : Legal o.fdir d) (hg : o.graph ≠ none) (hbin : ∀ n, sa n = 0 ∨ sa n = 1)
    {b k : Bool} (h : cascades limit fuel u nbs o (some sa) active b k = .ok (o', rows)) :
    o' = o ∧ ∀ row ∈ rows, ∃ m : Fin N, row.down = ((m : ℕ) : ℤ) + 1 ∧
      row.strmseg = if sa m = 0 then 0 else 1 := by
  rw [cascades_cached hg] at h
  obtain ⟨rfl, hr⟩ := rows_spec hd hg h
  refine ⟨rfl, fun row hrow => ?_⟩
  obtain ⟨_, m, _, hm, hs⟩ := hr row hrow
  refine ⟨m, hm, ?_⟩
  rcases hbin m with h0 | h1
  · rw [hs, h0]; rfl
  · rw [hs, h1]; rfl

/-- **C89, partial.**  The first call on a new object does use the numbers of the network of the array
given, with the requested grouping: they are those `get_stream_connectivity` leaves in the object. -/
theorem C89_first_partial (hd : Legal o.fdir d) (hf : N ≤ fuel)
    (hg : o.graph = none) {b k : Bool}
    (h : cascades limit fuel u nbs o (some sa) active b k = .ok (o', rows)) :
    ∃ g sa', connect limit fuel u o (some sa) k = .ok (o', g) ∧ o'.streamArray = some sa' ∧
      ∀ row ∈ rows, ∃ m : Fin N, row.down = ((m : ℕ) : ℤ) + 1 ∧ row.strmseg = sa' m ∧
        0 ≤ row.strmseg ∧ row.strmseg ≤ g.length ∧ (sa m = 0 → row.strmseg = 0) ∧
        (k = false ∨ Headed o.fdir sa → sa m ≠ 0 → row.strmseg ≠ 0) := by
  unfold cascades cascadeStreams at h
  simp only [hg, Res.bind_ok] at h
  obtain ⟨⟨o1, sa1⟩, h1, h⟩ := Res.bind_eq_ok.1 h
  obtain ⟨⟨o2, g⟩, hc, h1⟩ := Res.bind_eq_ok.1 h1
  obtain ⟨sa2, h2, he⟩ := Res.map_eq_ok.1 h1
  simp only [Prod.mk.injEq] at he
  obtain ⟨rfl, rfl⟩ := he
  obtain ⟨links, hlinks, h⟩ := Res.bind_eq_ok.1 h
  obtain ⟨rs, hrs, he⟩ := Res.map_eq_ok.1 h
  simp only [Prod.mk.injEq] at he
  obtain ⟨rfl, rfl⟩ := he
  obtain ⟨sa', c1, c2, c3, c4, c5, c6, c7⟩ := connect_spec hd hf rfl hc
  unfold Obj.stream at h2
  rw [c1] at h2
  obtain rfl := Res.ok.inj h2
  refine ⟨g, sa', hc, c1, fun row hrow => ?_⟩
  obtain ⟨l, hll, e1, e2, _, j, hj, hs⟩ := forall₂_mem (finishRows_inv hrs) hrow
  obtain ⟨a, c, ha, hcc⟩ := links_range hd hlinks l hll
  dsimp only at hs
  rw [hcc, pyIndex_cell] at hj
  obtain rfl := Res.ok.inj hj
  exact ⟨c, by rw [e2, hcc], hs, by rw [hs]; exact (c4 c).1, by rw [hs]; exact (c4 c).2,
    fun h0 => by rw [hs, c5 c h0], fun hh h0 => by rw [hs]; exact c6 hh c h0⟩

end Field

/-! ### C90 -/

/-- **C90.**  In the many-to-one builder object without a boundary every link goes from a cell to the cell it
flows to; the aspect of the upstream cell points from its centre to the centre of the downstream cell, the
slope is the drop over the distance between them, and the areas are those of the flow-direction object. -/
theorem C90_geometry (hd : Legal o.fdir d) (hfa : fa.fdir = o.fdir) (hf : N ≤ fuel)
    (hsa : o.source arg = .ok sa)
    (h : builder limit fuel u nbs fa o arg (fun _ => true) group false = .ok (o', b)) :
    b.area = fa.area ∧ ∀ row ∈ b.rows, ∃ n m : Fin N, row.up = ((n : ℕ) : ℤ) + 1 ∧
      row.down = ((m : ℕ) : ℤ) + 1 ∧ m = d n ∧ row.pct = 1 ∧
      fa.xc m - fa.xc n = Geom.dist fa.xc fa.yc n m * Real.cos (b.aspect n * (Real.pi / 180)) ∧
      fa.yc m - fa.yc n = Geom.dist fa.xc fa.yc n m * Real.sin (b.aspect n * (Real.pi / 180)) ∧
      ∀ x y, fa.dem n = some x → fa.dem m = some y → (fa.xc m, fa.yc m) ≠ (fa.xc n, fa.yc n) →
        1 / 1000000 ≤ x - y → b.slope n = some ((x - y) / Geom.dist fa.xc fa.yc n m) := by
  obtain ⟨o1, g, sa1, h1, h2, _, hs, ha, har, _⟩ := builder_inv h
  obtain ⟨sa', c1, c2, c3, _⟩ := connect_spec hd hf hsa h1
  have hd1 : Legal o1.fdir d := by rw [c2]; exact hd
  have hdf : Legal fa.fdir d := by rw [hfa]; exact hd
  obtain ⟨a, ha', hasp⟩ := Geom.C41_aspect (xc := fa.xc) (yc := fa.yc) hdf.resolves
  obtain ⟨s, hs', hslp⟩ := Geom.C42_slope (xc := fa.xc) (yc := fa.yc) (dem := fa.dem) hdf.resolves
  rw [ha] at ha'; rw [hs] at hs'
  obtain rfl := Res.ok.inj ha'
  obtain rfl := Res.ok.inj hs'
  refine ⟨har, fun row hrow => ?_⟩
  obtain ⟨hp, m, hu, hv⟩ := (C62_no_boundary hd1 h2 row.up row.down row.pct).1
    ⟨row.strmseg, by cases row; exact hrow⟩
  refine ⟨m, d m, hu, hv, rfl, hp, (hasp m).2.2.2.1, (hasp m).2.2.2.2, ?_⟩
  intro x y hx hy hne hxy
  exact ((hslp m).2.2 x y hx hy hne).2.1 (.inl hxy)

/-! ### Concrete cases -/

/-- two headwaters 0 and 1 meet in 2, which flows to 3, which flows to itself -/
def exObj : Obj 4 := ⟨![2, 2, 3, 3], some ![1, 1, 1, 1], none⟩

theorem exLegal : Legal exObj.fdir ![2, 2, 3, 3] := by unfold Legal; decide

example : nStream ![1, 1, 1, (1 : ℤ)] + 1 ≤ 9 := by decide +kernel

theorem exHeaded : Headed exObj.fdir ![1, 1, 1, 1] := by
  have hw : ∀ n : Fin 4, n = 0 ∨ n = 1 → Headwater exObj.fdir ![1, 1, 1, 1] n := by
    unfold Headwater Feeds; decide
  have f02 : Feeds exObj.fdir ![1, 1, 1, 1] 0 2 := by unfold Feeds; decide
  have f23 : Feeds exObj.fdir ![1, 1, 1, 1] 2 3 := by unfold Feeds; decide
  intro n _
  fin_cases n
  · exact ⟨0, hw 0 (.inl rfl), .refl⟩
  · exact ⟨1, hw 1 (.inr rfl), .refl⟩
  · exact ⟨0, hw 0 (.inl rfl), .tail .refl f02⟩
  · exact ⟨0, hw 0 (.inl rfl), .tail (.tail .refl f02) f23⟩

/-- the builder runs on it, with either grouping and either kind of cascade -/
example (nbs : Fin 4 → List (Fin 4 × Option ℝ)) (fa : Fa 4) (hfa : fa.fdir = exObj.fdir) (g m : Bool) :
    ∃ r, builder 9 9 false nbs fa exObj none (fun _ => true) g m = .ok r :=
  C88_succeeds exLegal ⟨_, by rw [hfa]; exact exLegal⟩ (by decide) (sa := ![1, 1, 1, 1])
    (by
      split
      · exact (cellsFit_of_count (by decide +kernel)).segs
      · exact fits_of_count (by decide +kernel)) rfl (.inr rfl)

/-- grouped numbers on a new object: cells 0, 1 enter segment 3 -/
example : (cascades (K := ℚ) 9 9 false (fun _ => []) exObj none (fun _ => true) false true).map
    (fun r => r.2.map (fun x => (x.up, x.down, x.strmseg))) =
      .ok [(1, 3, 3), (2, 3, 3), (1, 3, 3), (2, 3, 3), (3, 4, 4), (4, 4, 4), (3, 4, 4), (4, 4, 4)] := by
  decide +kernel

/-- C89 on this network: after `get_stream_connectivity`, passing the binary array again gives segment 1
everywhere -/
theorem C89_refuted_concrete :
    ((connect 9 9 false exObj none true).bind fun r =>
      (cascades (K := ℚ) 9 9 false (fun _ => []) r.1 (some ![1, 1, 1, 1]) (fun _ => true) false true).map
        (fun r => r.2.map (fun x => (x.up, x.down, x.strmseg)))) =
      .ok [(1, 3, 1), (2, 3, 1), (1, 3, 1), (2, 3, 1), (3, 4, 1), (4, 4, 1), (3, 4, 1), (4, 4, 1)] := by
  decide +kernel

end Dany.Prms
