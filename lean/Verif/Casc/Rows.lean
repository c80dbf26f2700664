import Verif.Casc.Props
import Mathlib.Tactic.FinCases

/-!
# C63, C64 on the rows that `get_cascades` returns

The statements of `Casc.Props` about the links of `_build_many_to_many_cascades`, carried over to the rows of
`get_cascades`.  The stream array is the one the caller gives, or else the one stored; `Drains` says in which case
the code lets a neighbour receive water.
-/

namespace Dany.Casc

open Flow Reach

variable {N : ℕ} {K : Type*} [Field K] [LinearOrder K]
  {d : Fin N → Fin N} {active : Fin N → Bool} {limit : ℕ}
  {nbs : Fin N → List (Fin N × Option K)} {o o' : Obj N} {arg : Option (Fin N → ℤ)} {rows : List (Row K)}
  {sa : Fin N → ℤ}

/-- the stream array a call works on: the one given, else the one stored -/
def Given (o : Obj N) (arg : Option (Fin N → ℤ)) (sa : Fin N → ℤ) : Prop :=
  arg = some sa ∨ (arg = none ∧ o.streamArray = some sa)

/-- `c` may receive water of a landscape cell: it lies outside the boundary, or does not flow into cell 0 -/
def Drains (fdir : Fin N → ℤ) (active : Fin N → Bool) (c : Fin N) : Prop := active c = false ∨ fdir c ≠ 0

/-- the rows of one cell -/
def rowsOf (rows : List (Row K)) (n : Fin N) : List (Row K) := rows.filter (fun r => r.up = ((n : ℕ) : ℤ) + 1)

theorem drains_iff {fdir : Fin N → ℤ} {c : Fin N} : masked fdir active c ≠ 0 ↔ Drains fdir active c := by
  unfold masked Drains
  split
  · simp [*]
  · rename_i h; simp [h]

/-- numbering the reaches changes neither which cells are on the stream nor which are not -/
theorem given_sign (hd : Resolves o.fdir d) (hg : Given o arg sa) {sa' : Fin N → ℤ}
    (h : cascadeStreams limit o arg = .ok (o', sa')) (n : Fin N) :
    (sa n = 0 → sa' n = 0) ∧ (0 < sa n → 0 < sa' n) := by
  have hsrc : cascadeStreams limit o arg = cascadeStreams limit o (some sa) := by
    rcases hg with rfl | ⟨rfl, hg⟩
    · rfl
    · simp [cascadeStreams, Obj.stream, hg]
  rw [hsrc] at h
  unfold cascadeStreams at h
  rw [Res.bind_ok] at h
  cases hgr : o.graph with
  | some g =>
    rw [hgr] at h
    cases h
    exact ⟨id, id⟩
  | none =>
    rw [hgr] at h
    simp only [Obj.connectivity, Obj.source, Res.bind_ok] at h
    obtain ⟨⟨o1, g1⟩, hc, h1⟩ := Res.bind_eq_ok.1 h
    obtain ⟨⟨sa1, g⟩, hm, he⟩ := Res.map_eq_ok.1 hc
    simp only [Prod.mk.injEq] at he
    obtain ⟨rfl, rfl⟩ := he
    simp only [Obj.stream, Res.map_ok, Res.ok.injEq, Prod.mk.injEq] at h1
    obtain ⟨rfl, rfl⟩ := h1
    obtain ⟨L, hl, hm'⟩ := mf6_lift hm d
    obtain ⟨sa2, g2, e2, k0, k1, _⟩ := C49_reach_numbers (sa := sa) hd hl
    rw [hm'] at e2
    cases e2
    exact ⟨k0 n, fun hp => by have := (k1 n (by omega)).1; omega⟩

/-- the shares of a cell's rows are those of its links -/
theorem rowsOf_pct {sa : Fin N → ℤ} {links : List (ℤ × ℤ × K)} (h : finishRows sa links = .ok rows) (n : Fin N) :
    (rowsOf rows n).map Row.pct = (links.filter (fun l => l.1 = ((n : ℕ) : ℤ))).map (fun l => l.2.2) := by
  have := finishRows_inv h
  clear h
  unfold rowsOf
  induction this with
  | nil => rfl
  | @cons l r ls rs hlr _ ih =>
    obtain ⟨e1, e2, e3, _⟩ := hlr
    have hiff : (r.up = ((n : ℕ) : ℤ) + 1) ↔ (l.1 = ((n : ℕ) : ℤ)) := by rw [e1]; omega
    simp only [List.filter_cons]
    by_cases hc : l.1 = ((n : ℕ) : ℤ)
    · rw [if_pos (by simpa using hiff.2 hc), if_pos (by simpa using hc)]
      simp only [List.map_cons, ih, e3]
    · rw [if_neg (by simpa using fun h => hc (hiff.1 h)), if_neg (by simpa using hc)]
      exact ih

theorem rowsOf_nil {links : List (ℤ × ℤ × K)} (h : finishRows sa links = .ok rows) {n : Fin N}
    (h0 : links.filter (fun l => l.1 = ((n : ℕ) : ℤ)) = []) : rowsOf rows n = [] := by
  have := rowsOf_pct h n
  rw [h0, List.map_nil, List.map_eq_nil_iff] at this
  exact this

section Ordered

variable [IsStrictOrderedRing K]

theorem few_candidates {l : List (Fin N × Option K)} (h : l.length < 100) : (candidates l).length < 100 :=
  lt_of_le_of_lt (List.length_filterMap_le _ _) h

/-- **C63** (partial), on the rows of `get_cascades` with `many2many=True`: an active landscape cell with fewer than
100 neighbours, one of which is strictly lower and lies outside the boundary or does not flow into cell 0, passes on
all its water: the fractions of its rows are positive and add up to 1.  Missing: the cells of `C63_rows_none`, for
which the claim is false. -/
theorem C63_rows_partial (hd : Resolves o.fdir d) (h9 : ∀ n, o.fdir n ≠ -9) (hg : Given o arg sa)
    (h : getCascades limit nbs o arg active true = .ok (o', rows)) {n : Fin N} (ha : active n = true)
    (hland : sa n = 0) (hlow : ∃ c s, (c, some s) ∈ nbs n ∧ s < 0 ∧ Drains o.fdir active c)
    (hfew : (nbs n).length < 100) :
    (∀ r ∈ rowsOf rows n, 0 < r.pct) ∧ ((rowsOf rows n).map Row.pct).sum = 1 := by
  obtain ⟨sa', links, h1, h2, h3⟩ := getCascades_inv h
  have hz := (given_sign hd hg h1 n).1 hland
  simp only [if_true] at h2
  obtain ⟨c, s, hc, hs, hm⟩ := hlow
  obtain ⟨k1, k2⟩ := C63_fractions_partial hd h9 h2 ha (by omega) ⟨c, s, hc, hs, drains_iff.2 hm⟩
    (few_candidates hfew)
  refine ⟨fun r hr => ?_, by rw [rowsOf_pct h3]; exact k2⟩
  rw [rowsOf, List.mem_filter, decide_eq_true_eq] at hr
  exact k1 _ ((mem_rows_iff h3).1 ⟨r.strmseg, hr.1⟩) (by rw [hr.2]; simp)

/-- **C63, where it fails**: an active landscape cell none of whose strictly lower neighbours lies outside the
boundary or flows elsewhere than into cell 0 gets no row at all: its water is lost, although it may have lower
neighbours. -/
theorem C63_rows_none (hd : Resolves o.fdir d) (h9 : ∀ n, o.fdir n ≠ -9) (hg : Given o arg sa)
    (h : getCascades limit nbs o arg active true = .ok (o', rows)) {n : Fin N}
    (hland : sa n = 0) (hlow : ∀ c s, (c, some s) ∈ nbs n → s < 0 → ¬ Drains o.fdir active c) :
    rowsOf rows n = [] := by
  obtain ⟨sa', links, h1, h2, h3⟩ := getCascades_inv h
  have hz := (given_sign hd hg h1 n).1 hland
  simp only [if_true] at h2
  apply rowsOf_nil h3
  rw [List.filter_eq_nil_iff]
  rintro ⟨u, v, p⟩ hl hu
  rw [decide_eq_true_eq] at hu
  dsimp only at hu
  subst hu
  obtain ⟨_, _, k⟩ := C64_links_partial hd h9 h2 hl
  obtain ⟨c, _, hm, s, hc, hs⟩ := k (by omega)
  exact hlow c s hc hs (drains_iff.1 hm)

/-- **C64** (partial), on the rows of `get_cascades` with `many2many=True`: every row starts at an active cell.  The
row of a stream cell goes to the cell it flows to if that is active, and else to the cell itself, with fraction 1; a
row of a landscape cell goes to a strictly lower neighbour, which lies outside the boundary or does not flow into
cell 0.  Missing: that the neighbour is inside the boundary, which is false (`C64_rows_leave`). -/
theorem C64_rows_partial (hd : Resolves o.fdir d) (h9 : ∀ n, o.fdir n ≠ -9) (hg : Given o arg sa)
    (h : getCascades limit nbs o arg active true = .ok (o', rows)) {r : Row K} (hr : r ∈ rows) :
    ∃ n : Fin N, r.up = ((n : ℕ) : ℤ) + 1 ∧ active n = true ∧
      (0 < sa n → r.pct = 1 ∧ ((active (d n) = true ∧ r.down = o.fdir n + 1) ∨
        (active (d n) = false ∧ r.down = r.up))) ∧
      (sa n = 0 → ∃ c : Fin N, r.down = ((c : ℕ) : ℤ) + 1 ∧ Drains o.fdir active c ∧
        ∃ s, (c, some s) ∈ nbs n ∧ s < 0) := by
  obtain ⟨sa', links, h1, h2, h3⟩ := getCascades_inv h
  simp only [if_true] at h2
  have hmem : (r.up - 1, r.down - 1, r.pct) ∈ links := (mem_rows_iff h3).1 ⟨r.strmseg, hr⟩
  have hup : ∃ n : Fin N, r.up - 1 = ((n : ℕ) : ℤ) := by
    have h2' := h2
    rw [manyToMany_ok hd h9] at h2'
    cases h2'
    obtain ⟨n, _, hn⟩ := List.mem_flatMap.1 hmem
    exact ⟨n, manySpec_up hn⟩
  obtain ⟨n, hn⟩ := hup
  rw [hn] at hmem
  obtain ⟨k0, k1, k2⟩ := C64_links_partial hd h9 h2 hmem
  refine ⟨n, by omega, k0, fun hs => ?_, fun hs => ?_⟩
  · obtain ⟨e, ⟨j, hv⟩ | ⟨j, hv⟩⟩ := k1 ((given_sign hd hg h1 n).2 hs)
    · exact ⟨e, .inl ⟨j, by omega⟩⟩
    · exact ⟨e, .inr ⟨j, by omega⟩⟩
  · have := (given_sign hd hg h1 n).1 hs
    obtain ⟨c, hc, hm, s, hcs, hs0⟩ := k2 (by omega)
    exact ⟨c, by omega, drains_iff.1 hm, s, hcs, hs0⟩

/-- **C64 is false of the code**, for every cell at the boundary of the following kind: if the only neighbour not
above an active landscape cell is a strictly lower one outside the boundary, all its water goes there. -/
theorem C64_rows_leave (hd : Resolves o.fdir d) (h9 : ∀ n, o.fdir n ≠ -9) (hg : Given o arg sa)
    (h : getCascades limit nbs o arg active true = .ok (o', rows)) {n c : Fin N} (ha : active n = true)
    (hland : sa n = 0) (hc : active c = false) {s : K} (hs : s < 0)
    (hone : (nbs n).filter (fun e => e.2.any (fun s => s ≤ 0)) = [(c, some s)]) :
    ∃ r ∈ rows, r.up = ((n : ℕ) : ℤ) + 1 ∧ r.down = ((c : ℕ) : ℤ) + 1 ∧ r.pct = 1 := by
  obtain ⟨sa', links, h1, h2, h3⟩ := getCascades_inv h
  have hz := (given_sign hd hg h1 n).1 hland
  simp only [if_true] at h2
  have hcand : candidates (nbs n) = [(c, s)] := by
    have key : ∀ l : List (Fin N × Option K),
        candidates l = (l.filter (fun e => e.2.any (fun s => s ≤ 0))).filterMap
          (fun e => e.2.map (fun s => (e.1, s))) := by
      intro l
      induction l with
      | nil => rfl
      | cons e l ih =>
        obtain ⟨c, o⟩ := e
        have hcons : candidates ((c, o) :: l) = candidates [(c, o)] ++ candidates l := by
          unfold candidates
          rw [← List.filterMap_append, List.singleton_append]
        rw [hcons, ih]
        cases o with
        | none => simp [candidates]
        | some t =>
          by_cases ht : t ≤ 0
          · simp [candidates, ht]
          · simp [candidates, ht]
    rw [key, hone]
    rfl
  have hl := C64_leaves hd h9 h2 ha (by omega) hc hs hcand
  obtain ⟨t, ht⟩ := (mem_rows_iff h3 (u := ((n : ℕ) : ℤ) + 1) (v := ((c : ℕ) : ℤ) + 1) (p := 1)).2 (by simpa using hl)
  exact ⟨_, ht, rfl, rfl, rfl⟩

end Ordered

/-! ### Concrete cases -/

/-- cell 3 is a stream outlet, the others are landscape; cell 2 lies above cells 0 and 1, and cell 1 is outside the
boundary -/
def rowSlopes : Fin 4 → List (Fin 4 × Option ℚ) :=
  ![[(3, some (-1)), (2, some 3)], [(3, some (-1)), (2, some 1)], [(0, some (-3)), (1, some (-1))], []]
def rowObj : Obj 4 := ⟨![3, 3, 3, 3], some ![0, 0, 0, 1], none⟩
def rowActive : Fin 4 → Bool := ![true, false, true, true]

theorem row_run : (getCascades (K := ℚ) 9 rowSlopes rowObj none rowActive true).map (fun r => r.2) =
    .ok [⟨1, 4, 1, 1⟩, ⟨3, 1, 3/4, 0⟩, ⟨3, 2, 1/4, 0⟩, ⟨4, 4, 1, 1⟩] := by decide +kernel

theorem row_resolves : Resolves rowObj.fdir (fun _ => 3) := by intro n; fin_cases n <;> decide

-- the conditions of `C63_rows_partial` hold of cell 2 there, whose two shares are 3/4 and 1/4
example : ∃ o' rows, getCascades (K := ℚ) 9 rowSlopes rowObj none rowActive true = .ok (o', rows) ∧
    (rowsOf rows (2 : Fin 4)).length = 2 ∧ ((rowsOf rows (2 : Fin 4)).map Row.pct).sum = 1 := by
  obtain ⟨⟨o', rows⟩, h, hr⟩ := Res.map_eq_ok.1 row_run
  refine ⟨o', rows, h, ?_, (C63_rows_partial (sa := ![0, 0, 0, 1]) row_resolves (by decide) (.inr ⟨rfl, rfl⟩) h
    (n := 2) rfl rfl ⟨0, -3, by decide, by norm_num, .inr (by decide)⟩ (by decide)).2⟩
  dsimp only at hr
  rw [hr]
  decide +kernel

-- and those of `C64_rows_leave` of cell 2, if cell 0 is not among its neighbours
example : ∃ o' rows, getCascades (K := ℚ) 9 (Function.update rowSlopes 2 [(1, some (-1)), (3, none)]) rowObj none
      rowActive true = .ok (o', rows) ∧ ∃ r ∈ rows, r.up = 3 ∧ r.down = 2 ∧ r.pct = 1 := by
  have hrun : (getCascades (K := ℚ) 9 (Function.update rowSlopes 2 [(1, some (-1)), (3, none)]) rowObj none
    rowActive true).map (fun r => r.2) = .ok [⟨1, 4, 1, 1⟩, ⟨3, 2, 1, 0⟩, ⟨4, 4, 1, 1⟩] := by decide +kernel
  obtain ⟨⟨o', rows⟩, h, hr⟩ := Res.map_eq_ok.1 hrun
  refine ⟨o', rows, h, ?_⟩
  have := C64_rows_leave (sa := ![0, 0, 0, 1]) row_resolves (by decide) (.inr ⟨rfl, rfl⟩) h (n := 2) (c := 1)
    rfl rfl rfl (s := -1) (by norm_num) (by decide +kernel)
  simpa using this

-- those of `C63_rows_none` of cell 2 of `C63_refuted`
example : ∃ o' rows, getCascades (K := ℚ) 9 ![[(1, some 1)], [(0, some (-1)), (2, some 1)], [(1, some (-1))]]
      (⟨![0, 0, 1], some ![1, 0, 0], none⟩ : Obj 3) none (fun _ => true) true = .ok (o', rows) ∧
      rowsOf rows (2 : Fin 3) = [] := by
  obtain ⟨⟨o', rows⟩, h, _⟩ := Res.map_eq_ok.1 C63_refuted
  refine ⟨o', rows, h, C63_rows_none (d := ![0, 0, 1]) (sa := ![1, 0, 0]) ?_ (by decide) (.inr ⟨rfl, rfl⟩) h rfl ?_⟩
  · intro n; fin_cases n <;> decide
  · rintro c s hc _
    have hc' : (c, some s) ∈ [((1 : Fin 3), some (-1 : ℚ))] := hc
    simp only [List.mem_singleton, Prod.mk.injEq] at hc'
    obtain ⟨rfl, -⟩ := hc'
    exact fun h => h.elim (fun h => nomatch h) (fun h => h rfl)

end Dany.Casc
