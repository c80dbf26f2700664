import Verif.Reach.Props

/-!
# C202: `ncon` of `packagedata` counts the stream cells that flow in and the one flowed to
-/

namespace Dany.Reach

open Function Flow

variable {N : ℕ} {K : Type*} {d : Fin N → Fin N} {sa : Fin N → ℤ} [Field K] [DecidableEq K] {sqrt : K → K}
  {G : Grid N K}

/-- the stream cells other than `n` that flow to `n` -/
def inflows (d : Fin N → Fin N) (sa : Fin N → ℤ) (n : Fin N) : Finset (Fin N) :=
  Finset.univ.filter fun m => sa m ≠ 0 ∧ d m = n ∧ m ≠ n

/-- 1 if `n` flows to another stream cell, else 0 -/
def outflows (d : Fin N → Fin N) (sa : Fin N → ℤ) (n : Fin N) : ℕ :=
  if sa (d n) ≠ 0 ∧ d n ≠ n then 1 else 0

/-- **C202.** After `get_stream_connectivity()` the record of every stream cell in `packagedata()` has `ncon` equal to
the number of other stream cells that flow into the cell, plus one if it flows to another stream cell; the row of
`connectiondata()` at the same place has as many entries. -/
theorem C202_ncon {o o' : Obj N} (hd : Resolves o.fdir d) {limit : ℕ} (hsa : o.streamArray = some sa) {g : Dict ℤ ℤ}
    (hg : o.connectivity limit none = .ok (o', g)) {recs : List (PRec N K)} {rows : List (ℤ × List ℤ)}
    (hrecs : o'.packageData sqrt G limit none = .ok (o', recs)) (hrows : o'.connData limit = .ok (o', rows))
    (n : Fin N) (hn : sa n ≠ 0) :
    ∃ (sa' : Fin N → ℤ) (i : ℕ) (rec : PRec N K) (row : ℤ × List ℤ), o'.streamArray = some sa' ∧ sa' n = (i : ℤ) + 1 ∧
      recs[i]? = some rec ∧ rows[i]? = some row ∧ rec.node = n ∧
      rec.ncon = (inflows d sa n).card + outflows d sa n ∧
      row.2.length = (inflows d sa n).card + outflows d sa n := by
  obtain ⟨sa1, recs1, rows1, a1, a2, a3, -, -, a4⟩ := C54_packagedata (sqrt := sqrt) (G := G) hd hsa hg
  rw [hrecs] at a2
  rw [hrows] at a3
  cases a2
  cases a3
  obtain ⟨i, b1, rec, row, b2, b3, b4, -, b5, b6, -⟩ := a4 n hn
  suffices hs : row.2.length = (inflows d sa n).card + outflows d sa n from
    ⟨sa1, i, rec, row, a1, b1, b2, b3, b5, b6.trans hs, hs⟩
  unfold Obj.connectivity Obj.source at hg
  rw [hsa] at hg
  simp only [Res.bind_ok] at hg
  obtain ⟨⟨sa', g'⟩, hm, he⟩ := Res.map_eq_ok.1 hg
  rw [Prod.mk.injEq] at he
  obtain ⟨rfl, rfl⟩ := he
  simp only [Option.some.injEq] at a1
  subst a1
  have hrg := mf6_reachGraph hd hm
  obtain ⟨L, hl, hm⟩ := mf6_lift hm d
  obtain ⟨sa2, g2, e1, k0, k1, k2, k3, k4, k5⟩ := C49_reach_numbers (sa := sa) hd hl
  rw [hm] at e1
  cases e1
  simp only [Obj.connData, Obj.graphOf, Res.bind_ok] at hrows
  rw [connectiondata_eq hrg.nodup hrg.pos hrg.refs, Res.map_ok] at hrows
  have hrow : row ∈ rows := List.mem_of_getElem? b3
  simp only [Res.ok.injEq, Prod.mk.injEq, true_and] at hrows
  rw [← hrows, List.mem_map] at hrow
  obtain ⟨r, hr, rfl⟩ := hrow
  have hrn : r = sa' n := by
    have b4' : r - 1 = (i : ℤ) := b4
    have b1' : sa' n = (i : ℤ) + 1 := b1
    omega
  subst hrn
  have hpos := (k1 n hn).1
  have hne : ∀ m, sa m ≠ 0 → sa' m ≠ 0 := fun m hm => by have := (k1 m hm).1; omega
  simp only [List.length_append, List.length_map, List.length_reverse]
  congr 1
  · rw [← List.toFinset_card_of_nodup (ups_nodup hrg.nodup _)]
    have : (ups (sortItems g') (sa' n)).toFinset = (inflows d sa n).image sa' := by
      ext u
      rw [List.mem_toFinset, mem_ups hrg.nodup (by omega), Finset.mem_image]
      constructor
      · rintro ⟨h1, h2⟩
        have hk := Dict.mem_keys_iff.2 ⟨_, h1⟩
        rw [k4, List.mem_map] at hk
        obtain ⟨j, hj, rfl⟩ := hk
        rw [List.mem_range] at hj
        obtain ⟨m, hm0, hmj⟩ := k3 (j + 1) (by omega) (by omega)
        have hmj' : sa' m = (j : ℤ) + 1 := by rw [hmj]; push_cast; rfl
        have hku := k5 m hm0
        rw [hmj', h1] at hku
        simp only [Option.some.injEq] at hku
        have hdm : sa (d m) ≠ 0 := fun h0 => by have := k0 _ h0; omega
        refine ⟨m, ?_, hmj'⟩
        simp only [inflows, Finset.mem_filter, Finset.mem_univ, true_and]
        refine ⟨hm0, k2 _ _ hdm hn hku.symm, fun hmn => h2 ?_⟩
        rw [← hmj', hmn]
      · rintro ⟨m, h1, rfl⟩
        simp only [inflows, Finset.mem_filter, Finset.mem_univ, true_and] at h1
        obtain ⟨h1, h2, h3⟩ := h1
        exact ⟨by rw [k5 m h1, h2], fun h => h3 (k2 _ _ h1 hn h)⟩
    rw [this, Finset.card_image_of_injOn]
    intro a ha b hb hab
    simp only [inflows, Finset.coe_filter, Finset.mem_univ, true_and, Set.mem_setOf_eq] at ha hb
    exact k2 _ _ ha.1 hb.1 hab
  · rw [downs_eq hrg.nodup (k5 n hn)]
    unfold outflows
    by_cases h0 : sa (d n) = 0
    · simp [h0, k0 _ h0]
    · have h1 := hne _ h0
      by_cases h2 : d n = n
      · simp [h2]
      · have h3 : sa' (d n) ≠ sa' n := fun h => h2 (k2 _ _ h0 hn h)
        simp [h0, h1, h2, h3]

end Dany.Reach
