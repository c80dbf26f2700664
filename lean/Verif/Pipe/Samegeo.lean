import Verif.Reach.PackProps
import Verif.Rdata.Props
import Verif.Geom.Props

/-!
# C207: the MODFLOW 6 and the MODFLOW-2005 package give connected reaches the same geometry
-/

namespace Dany.Pipe

open Flow Seg

variable {N : ℕ} {d : Fin N → Fin N} {sa : Fin N → ℤ}

/-- the top of a row is that of its cell -/
private theorem top_of_geo {K : Type*} [Field K] [DecidableEq K] {limit fuel : ℕ} {G : Rdata.SGrid N K} (hf : N ≤ fuel)
    {o o' : Rdata.Obj N} {arg : Option (Fin N → ℤ)} {grp : Bool} {tbl : List (Rdata.Row K)}
    (hs : o.Sound limit fuel) (h : o.reachData limit fuel G arg grp = .ok (o', tbl)) {r : Rdata.Row K} (hr : r ∈ tbl)
    {n : Fin N} (hn : r.node = n.val) : r.strtop = G.top n := by
  obtain ⟨sg, nsr, rows, _, _, _, hlen, hk⟩ := Rdata.C71_numbering hf hs h
  obtain ⟨k, hk1, hk2⟩ := List.mem_iff_getElem.1 hr
  obtain ⟨row, e1, _, e3, _, _, _, _, _, e9, _⟩ :=
    hk k (rows[k]'(by omega)).1 (rows[k]'(by omega)).2.1 (rows[k]'(by omega)).2.2
      (List.getElem?_eq_getElem (by omega))
  rw [List.getElem?_eq_getElem hk1] at e1
  simp only [Option.some.injEq] at e1
  rw [hk2] at e1
  subst e1
  have : (rows[k]'(by omega)).1 = n := Fin.ext (by rw [e3] at hn; exact_mod_cast hn)
  rw [e9, this]

/-- **C207.**  The same flow directions, stream array, cell centres and elevations: the record of `packagedata` and the row
of `reach_data` for a stream cell whose water goes on to another stream cell have the same length and top, and the same
gradient if it is not downhill by less than a millionth (then MODFLOW 6 gets 0).  Where a stream ends in a cell that flows
to itself, MODFLOW 6 gets gradient 0 and MODFLOW-2005 a ten-thousandth. -/
theorem C207_reaches {o o' : Reach.Obj N} {q q' : Rdata.Obj N} (hd : Legal o.fdir d) (hq : q.fdir = o.fdir)
    (hsa : o.streamArray = some sa) (hnet : q.net = none) {arg : Option (Fin N → ℤ)} (hsrc : q.source arg = .ok sa)
    {limit limit' fuel : ℕ} (hf : N ≤ fuel) {g : Dict ℤ ℤ} (hg : o.connectivity limit none = .ok (o', g))
    {G : Reach.Grid N ℝ} {G' : Rdata.SGrid N ℝ} (hx : G'.xc = G.xc) (hy : G'.yc = G.yc)
    (htop : ∀ n, G'.top n = some (G.top n)) (hsqrt : G'.sqrt = Real.sqrt)
    {s : Fin N → Option ℝ} (hs : Geom.slope o.fdir G.xc G.yc G'.top = .ok s) (hslope : ∀ n, s n = some (G.slope n))
    (hcent : ∀ n m : Fin N, n ≠ m → (G.xc n, G.yc n) ≠ (G.xc m, G.yc m))
    {recs : List (Reach.PRec N ℝ)} (hr : o'.packageData Real.sqrt G limit none = .ok (o', recs)) {grp : Bool}
    {tbl : List (Rdata.Row ℝ)} (ht : q.reachData limit' fuel G' arg grp = .ok (q', tbl)) :
    ∀ row ∈ tbl, ∃ n : Fin N, row.node = n.val ∧ sa n ≠ 0 ∧ ∃ rec ∈ recs, rec.node = n ∧ row.strtop = some rec.rtp ∧
      (d n ≠ n → sa (d n) ≠ 0 → rec.rlen = row.rchlen ∧ 0 < rec.rlen ∧
        (1 / 1000000 ≤ G.top n - G.top (d n) ∨ G.top n ≤ G.top (d n) → row.slope = some rec.rgrd) ∧
        (0 < G.top n - G.top (d n) ∧ G.top n - G.top (d n) < 1 / 1000000 → rec.rgrd = 0)) ∧
      (d n = n → rec.rgrd = 0 ∧ row.slope = some (1 / 10000)) := by
  obtain ⟨sa', recs', rows, -, hp, -, -, -, hcell⟩ := Reach.C54_packagedata (sqrt := Real.sqrt) (G := G) hd.resolves hsa hg
  rw [hr] at hp
  simp only [Res.ok.injEq, Prod.mk.injEq, true_and] at hp
  subst hp
  have hsound : q.Sound limit' fuel := by intro net h; rw [hnet] at h; cases h
  obtain ⟨sg, nsr, sa1, h1, -, h2, h3⟩ := Rdata.C78_length (G := G') hf hsound ht
  obtain rfl : sa1 = sa := by
    have := h2 hnet
    rw [hsrc, Res.ok.injEq] at this
    exact this.symm
  intro row hrow
  obtain ⟨n, hn, hst, hgo, hstop⟩ := h3 row hrow
  obtain ⟨i, -, rec, _, hi, -, -, -, hnode, -, hgrd, hrtp, hlen⟩ := hcell n hst
  have hstrtop := top_of_geo hf hsound ht hrow hn
  obtain ⟨s', e, hsl⟩ := Geom.C42_slope (xc := G.xc) (yc := G.yc) (dem := G'.top) hd.resolves
  rw [hs, Res.ok.injEq] at e
  subst e
  obtain ⟨hs0, -, hs1⟩ := hsl n
  refine ⟨n, hn, hst, rec, List.mem_of_getElem? hi, hnode, by rw [hstrtop, htop, hrtp], fun hne hsd => ?_, fun hself => ?_⟩
  · have hfeed : Feeds q.fdir sa1 n (d n) := ⟨hst, hsd, by rw [hq]; exact hd n⟩
    obtain ⟨l1, l2⟩ := hgo _ hfeed hne
    have hc := hcent _ _ hne
    obtain ⟨p1, p2, p3, -⟩ := hs1 _ _ (htop n) (htop (d n)) hc
    have hdist : Geom.dist G.xc G.yc n (d n) = Real.sqrt ((G.xc n - G.xc (d n)) ^ 2 + (G.yc n - G.yc (d n)) ^ 2) := by
      unfold Geom.dist; congr 1
    rw [hdist] at p1 p2
    rw [if_neg hsd] at hlen
    have hrl : rec.rlen = Real.sqrt ((G.xc n - G.xc (d n)) ^ 2 + (G.yc n - G.yc (d n)) ^ 2) * (3 / 2) := by
      rw [hlen]; unfold Reach.rlenOf; rw [if_neg p1.ne']
    have hrc : row.rchlen = 3 / 2 * Real.sqrt ((G.xc n - G.xc (d n)) ^ 2 + (G.yc n - G.yc (d n)) ^ 2) := by
      rw [l1, hsqrt, hx, hy]
    have hrc0 : row.rchlen ≠ 0 := by rw [hrc]; positivity
    refine ⟨by rw [hrl, hrc]; ring, by rw [hrl]; positivity, fun hbig => ?_, fun hsm => ?_⟩
    · rw [l2 _ _ (htop n) (htop (d n)) hrc0, hgrd]
      have := p2 (hbig.imp id fun h => by linarith)
      rw [hslope, Option.some.injEq] at this
      rw [this, hrc]
      congr 1
      field_simp
    · have := p3 hsm
      rw [hslope, Option.some.injEq] at this
      rw [hgrd, this, zero_div]
  · refine ⟨?_, (hstop fun m hm => ?_).2⟩
    · have := hs0 hself
      rw [hslope, Option.some.injEq] at this
      rw [hgrd, this, zero_div]
    · have h := hm.2.2
      rw [hq, hd n, hself] at h
      exact (Fin.ext (by exact_mod_cast h)).symm

/-! ### a concrete case: 0 → 1 → 2, three stream cells in a row -/

def row3geo : Reach.Obj 3 := ⟨![1, 2, 2], some fun _ => 1, none⟩
def row3geo' : Rdata.Obj 3 := ⟨![1, 2, 2], some fun _ => 1, none⟩
noncomputable def geo3 : Reach.Grid 3 ℝ := ⟨fun n => n.val, fun _ => 0, fun _ => 1, ![2 / 1, 1 / 1, 0], ![4, 2, 1]⟩
noncomputable def box3geo : Rdata.SGrid 3 ℝ :=
  ⟨3, fun n => n.val, fun _ => 0, fun n => some (geo3.top n), fun _ => 1, fun _ => 1, Real.sqrt⟩

theorem legal3geo : Legal row3geo.fdir ![1, 2, 2] := by unfold Legal; decide

example : ∃ o' g q' recs tbl, row3geo.connectivity 10 none = .ok (o', g) ∧
    o'.packageData Real.sqrt geo3 10 none = .ok (o', recs) ∧ row3geo'.reachData 10 10 box3geo none true = .ok (q', tbl) ∧
    (∃ row ∈ tbl, row.node = 0) ∧
    ∀ row ∈ tbl, row.node = 0 → ∃ rec ∈ recs, rec.node = 0 ∧ rec.rlen = row.rchlen ∧ row.slope = some rec.rgrd := by
  have hg : (row3geo.connectivity 10 none).map Prod.snd = .ok [(1, 2), (2, 3), (3, 3)] := by decide +kernel
  obtain ⟨⟨o', g⟩, hg, -⟩ := Res.map_eq_ok.1 hg
  have hq : (row3geo'.network 10 10 none true).map Prod.snd = .ok ([(1, 2), (2, 2)], [(0, 1, 1), (1, 1, 2), (2, 2, 1)]) := by
    decide +kernel
  obtain ⟨⟨q', net⟩, hq, rfl⟩ := Res.map_eq_ok.1 hq
  have hsound : row3geo'.Sound 10 10 := by intro net h; cases h
  obtain ⟨tbl, ht⟩ := ((Rdata.C72_exact_partial (G := box3geo) (by norm_num) hsound hq).1).2 ⟨by decide, by
    intro n s r h h1 h2
    simp only [List.mem_cons, Prod.mk.injEq, List.not_mem_nil, or_false] at h
    show Dict.get? [((1 : ℤ), (2 : ℤ)), (2, 2)] ((n.val % 3 : ℕ) : ℤ) ≠ some 0
    rcases h with ⟨rfl, rfl, rfl⟩ | ⟨rfl, rfl, rfl⟩ | ⟨rfl, rfl, rfl⟩ <;> decide⟩
  obtain ⟨_, recs, _, _, hr, _⟩ := Reach.C54_packagedata (sqrt := Real.sqrt) (G := geo3) legal3geo.resolves rfl hg
  obtain ⟨sl, hs, hsl⟩ := Geom.C42_slope (xc := geo3.xc) (yc := geo3.yc) (dem := box3geo.top) legal3geo.resolves
  have hc : ∀ n m : Fin 3, n ≠ m → (geo3.xc n, geo3.yc n) ≠ (geo3.xc m, geo3.yc m) := by
    intro n m hne h
    simp only [geo3, Prod.mk.injEq, and_true, Nat.cast_inj] at h
    exact hne (Fin.ext h)
  have hslope : ∀ n, sl n = some (geo3.slope n) := by
    have hd : ∀ n m : Fin 3, m.val = n.val + 1 → Geom.dist geo3.xc geo3.yc n m = 1 := by
      intro n m h
      unfold Geom.dist geo3
      simp only [h, Nat.cast_add, Nat.cast_one]
      norm_num
    intro n
    fin_cases n
    · have := ((hsl 0).2.2 _ _ rfl rfl (hc _ _ (by decide))).2.1 (.inl (by simp [geo3]; norm_num))
      rw [show ((⟨0, by decide⟩ : Fin 3)) = 0 from rfl, this, hd _ _ (by decide)]
      simp [geo3]
      norm_num
    · have := ((hsl 1).2.2 _ _ rfl rfl (hc _ _ (by decide))).2.1 (.inl (by simp [geo3]; norm_num))
      rw [show ((⟨1, by decide⟩ : Fin 3)) = 1 from rfl, this, hd _ _ (by decide)]
      simp [geo3]
      norm_num
    · exact (hsl 2).1 rfl
  have key := C207_reaches (q := row3geo') (q' := q') legal3geo rfl rfl rfl rfl (by norm_num) hg (G := geo3) (G' := box3geo) rfl rfl
    (fun _ => rfl) rfl hs hslope hc hr ht
  refine ⟨o', g, q', recs, tbl, hg, hr, ht, ?_, fun row hrow h0 => ?_⟩
  · obtain ⟨sg, nsr, rows, e1, hp, _, hlen, hk⟩ := Rdata.C71_numbering (by norm_num) hsound ht
    have hn := Rdata.network_ok hsound hq
    rw [hn.2.1] at e1
    simp only [Option.some.injEq, Prod.mk.injEq] at e1
    obtain ⟨-, rfl⟩ := e1
    have h0 : ((0 : Fin 3), (1 : ℤ), (1 : ℤ)) ∈ rows := hp.mem_iff.2 (by decide)
    obtain ⟨k, hk1, hk2⟩ := List.mem_iff_getElem.1 h0
    obtain ⟨row, r1, _, r3, _⟩ := hk k 0 1 1 (by rw [List.getElem?_eq_getElem hk1, hk2])
    exact ⟨row, List.mem_of_getElem? r1, r3⟩
  · obtain ⟨n, hn, -, rec, hrec, hnode, -, hgo, -⟩ := key row hrow
    obtain rfl : n = 0 := Fin.ext (by rw [h0] at hn; show n.val = 0; exact_mod_cast hn.symm)
    obtain ⟨e1, -, e2, -⟩ := hgo (by decide) (by decide)
    exact ⟨rec, hrec, hnode, e1, e2 (.inl (by simp [geo3]; norm_num))⟩

end Dany.Pipe
