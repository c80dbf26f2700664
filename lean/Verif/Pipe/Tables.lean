import Verif.Pipe.Renumber2
import Verif.Reach.Ncon
import Verif.Rdata.Props

/-!
# C203: the stream tables do not depend on the numbering of the cells

Cell `n` of the one grid is cell `σ n` of the other.
-/

namespace Dany.Pipe

open Dany.Flow

variable {N : ℕ} {K : Type*} {σ : Fin N ≃ Fin N} {d d' : Fin N → Fin N} [Field K] [DecidableEq K]

/-! ### MODFLOW 6 -/

/-- the same cells, with the same centres, sides, slopes and tops -/
def SameCells (σ : Fin N ≃ Fin N) (G G' : Reach.Grid N K) : Prop :=
  ∀ n, G'.xc (σ n) = G.xc n ∧ G'.yc (σ n) = G.yc n ∧ G'.side (σ n) = G.side n ∧ G'.slope (σ n) = G.slope n ∧
    G'.top (σ n) = G.top n

/-- **C203**, MODFLOW 6: in `packagedata()` of the one and the other numbering a cell has a record in both or in
neither, with the same length, gradient, top and number of connections. -/
theorem C203_packagedata {o o' o1 o1' : Reach.Obj N} (h : SameFlow σ o.fdir o'.fdir) (hd : Legal o.fdir d)
    (hd' : Legal o'.fdir d') {sa sa' : Fin N → ℤ} (hsa : ∀ n, sa' (σ n) = sa n) (ho : o.streamArray = some sa)
    (ho' : o'.streamArray = some sa') {limit limit' : ℕ} {g g' : Dict ℤ ℤ} (hg : o.connectivity limit none = .ok (o1, g))
    (hg' : o'.connectivity limit' none = .ok (o1', g')) {sqrt : K → K} {G G' : Reach.Grid N K} (hG : SameCells σ G G')
    {recs recs' : List (Reach.PRec N K)} (hr : o1.packageData sqrt G limit none = .ok (o1, recs))
    (hr' : o1'.packageData sqrt G' limit' none = .ok (o1', recs')) :
    recs'.length = recs.length ∧ (∀ rec ∈ recs, sa rec.node ≠ 0) ∧ ∀ n, sa n ≠ 0 →
      ∃ rec ∈ recs, ∃ rec' ∈ recs', rec.node = n ∧ rec'.node = σ n ∧ rec'.rlen = rec.rlen ∧ rec'.rgrd = rec.rgrd ∧
        rec'.rtp = rec.rtp ∧ rec'.ncon = rec.ncon := by
  obtain ⟨s1, q1, w1, a1, a2, a3, a4, a5, a6⟩ := Reach.C54_packagedata (sqrt := sqrt) (G := G) hd.resolves ho hg
  obtain ⟨s2, q2, w2, b1, b2, b3, b4, b5, b6⟩ := Reach.C54_packagedata (sqrt := sqrt) (G := G') hd'.resolves ho' hg'
  rw [hr] at a2
  rw [hr'] at b2
  cases a2
  cases b2
  have hst := same_step h hd hd'
  have hcard : Reach.nStream sa' = Reach.nStream sa := by
    unfold Reach.nStream
    refine (Finset.card_bij (fun n _ => σ n) ?_ ?_ ?_).symm
    · intro n hn
      simpa [hsa] using hn
    · intro n _ m _ e
      exact σ.injective e
    · intro m hm
      obtain ⟨n, rfl⟩ := σ.surjective m
      exact ⟨n, by simpa [hsa] using hm, rfl⟩
  refine ⟨by rw [a4, b4, hcard], ?_, ?_⟩
  · intro rec hrec
    -- the records of the stream cells are all the records
    by_contra h0
    have hinj : ∀ n (hn : sa n ≠ 0), ∃ i < recs.length, ∃ rec, recs[i]? = some rec ∧ rec.node = n := by
      intro n hn
      obtain ⟨i, _, r1, _, e1, _, _, _, e2, _⟩ := a6 n hn
      exact ⟨i, (List.getElem?_eq_some_iff.1 e1).1, r1, e1, e2⟩
    choose! i hi r1 hr1 hr2 using hinj
    obtain ⟨j, hj, rfl⟩ := List.getElem_of_mem hrec
    let S : Finset (Fin N) := Finset.univ.filter fun n => sa n ≠ 0
    have himg : S.image i ⊆ (Finset.range recs.length).erase j := by
      intro k hk
      obtain ⟨n, hn, rfl⟩ := Finset.mem_image.1 hk
      have hn' : sa n ≠ 0 := by simpa [S] using hn
      refine Finset.mem_erase.2 ⟨fun e => absurd h0 ?_, Finset.mem_range.2 (hi n hn')⟩
      have := hr1 n hn'
      rw [e, List.getElem?_eq_getElem hj] at this
      rw [Option.some.inj this, hr2 n hn']
      exact hn'
    have hc : (S.image i).card = S.card := by
      refine Finset.card_image_of_injOn ?_
      intro n hn m hm e
      have hn' : sa n ≠ 0 := by simpa [S] using hn
      have hm' : sa m ≠ 0 := by simpa [S] using hm
      have e1 := hr1 n hn'
      rw [e, hr1 m hm'] at e1
      rw [← hr2 n hn', ← hr2 m hm', Option.some.inj e1]
    have hle := Finset.card_le_card himg
    rw [hc, Finset.card_erase_of_mem (Finset.mem_range.2 hj), Finset.card_range, a4] at hle
    have : S.card = Reach.nStream sa := rfl
    have hpos : 0 < Reach.nStream sa := by rw [← a4]; omega
    omega
  · intro n hn
    obtain ⟨i, e0, r1, _, e1, _, _, _, e2, _, e3, e4, e5⟩ := a6 n hn
    obtain ⟨j, f0, r2, _, f1, _, _, _, f2, _, f3, f4, f5⟩ := b6 (σ n) (by rwa [hsa])
    obtain ⟨_, i1, c0, _, z1, z2, c1, -, -, c2, -⟩ := Reach.C202_ncon hd.resolves ho hg hr a3 n hn
    obtain ⟨_, j1, g0, _, y1, y2, g1, -, -, g2, -⟩ := Reach.C202_ncon hd'.resolves ho' hg' hr' b3 (σ n) (by rwa [hsa])
    rw [a1] at z1
    rw [b1] at y1
    cases z1
    cases y1
    have ei : i1 = i := by omega
    have ej : j1 = j := by omega
    subst ei ej
    rw [e1] at c1
    rw [f1] at g1
    cases c1
    cases g1
    refine ⟨_, List.mem_of_getElem? e1, _, List.mem_of_getElem? f1, e2, f2, ?_, ?_, ?_, ?_⟩
    · rw [e5, f5, hst, hsa]
      have : (if sa (d n) = 0 then σ n else σ (d n)) = σ (if sa (d n) = 0 then n else d n) := by split <;> rfl
      rw [this]
      unfold Reach.rlenOf
      simp only [hG _]
    · rw [e3, f3, (hG n).2.2.2.1]
    · rw [e4, f4, (hG n).2.2.2.2]
    · rw [c2, g2]
      congr 1
      · refine (Finset.card_bij (fun n _ => σ n) ?_ ?_ ?_).symm
        · intro m hm
          simp only [Reach.inflows, Finset.mem_filter, Finset.mem_univ, true_and] at hm ⊢
          rw [hsa, hst, σ.injective.eq_iff, σ.injective.ne_iff]
          exact hm
        · intro n _ m _ e
          exact σ.injective e
        · intro m hm
          obtain ⟨m, rfl⟩ := σ.surjective m
          simp only [Reach.inflows, Finset.mem_filter, Finset.mem_univ, true_and] at hm
          rw [hsa, hst, σ.injective.eq_iff, σ.injective.ne_iff] at hm
          exact ⟨m, by simpa [Reach.inflows] using hm, rfl⟩
      · unfold Reach.outflows
        rw [hst, hsa]
        simp only [ne_eq, σ.injective.eq_iff]

/-! ### MODFLOW-2005 -/

/-- the same cells of a structured grid, with the same centres, tops, and half perimeters -/
structure SameBoxes (σ : Fin N ≃ Fin N) (G G' : Rdata.SGrid N K) : Prop where
  xc : ∀ n, G'.xc (σ n) = G.xc n
  yc : ∀ n, G'.yc (σ n) = G.yc n
  top : ∀ n, G'.top (σ n) = G.top n
  box : ∀ n, G'.delr ((σ n).val % G'.ncol) + G'.delc ((σ n).val / G'.ncol) =
    G.delr (n.val % G.ncol) + G.delc (n.val / G.ncol)
  sqrt : G'.sqrt = G.sqrt

section

open Seg Rdata

private theorem lenSlope_same {G G' : SGrid N K} (hG : SameBoxes σ G G') (n : Fin N) (x : Option (Fin N)) :
    lenSlope G' (σ n) (x.map σ) = lenSlope G n x := by
  cases x with
  | none =>
    simp only [lenSlope, Option.map_none, SGrid.lrc]
    rw [hG.box]
  | some m =>
    simp only [lenSlope, Option.map_some, SGrid.lrc, ne_eq, σ.injective.eq_iff, SGrid.dist, SGrid.grade, hG.xc, hG.yc,
      hG.top, hG.sqrt, hG.box]
    rfl

private theorem dn_same {fdir fdir' sa sa' : Fin N → ℤ} (h : SameFlow σ fdir fdir') (hsa : ∀ n, sa' (σ n) = sa n)
    {n : Fin N} (hn : sa n ≠ 0) : dn fdir' sa' (σ n) = (dn fdir sa n).map σ := by
  have hf : ∀ m, Feeds fdir' sa' (σ n) (σ m) ↔ Feeds fdir sa n m := by
    intro m
    unfold Feeds
    rw [hsa, hsa, h n m]
  cases e : dn fdir sa n with
  | some m => exact (dn_feeds (by rwa [hsa])).2 ((hf m).2 ((dn_feeds hn).1 e))
  | none =>
    cases e' : dn fdir' sa' (σ n) with
    | none => rfl
    | some m =>
      obtain ⟨m, rfl⟩ := σ.surjective m
      have := (dn_feeds hn).2 ((hf m).1 ((dn_feeds (by rwa [hsa])).1 e'))
      rw [e] at this
      cases this

private theorem network_fresh {o o1 : Rdata.Obj N} (hn : o.net = none) {arg : Option (Fin N → ℤ)} {sa : Fin N → ℤ}
    (ho : o.source arg = .ok sa) {limit fuel : ℕ} {net : Dict ℤ ℤ × List (Fin N × ℤ × ℤ)}
    (h : o.network limit fuel arg true = .ok (o1, net)) :
    ∃ out, mf2005 limit fuel false o.fdir sa true = .ok out ∧ net = (out.sg, out.nsr) := by
  unfold Rdata.Obj.network at h
  rw [ho, Res.bind_ok, hn] at h
  obtain ⟨⟨q1, out⟩, hc, he1⟩ := Res.map_eq_ok.1 h
  obtain ⟨out', ho, he2⟩ := Res.map_eq_ok.1 hc
  simp only [Prod.mk.injEq] at he1 he2
  obtain ⟨_, rfl⟩ := he2
  exact ⟨out', ho, he1.2.symm⟩

private theorem reach_fresh {o o1 : Rdata.Obj N} (hn : o.net = none) {arg : Option (Fin N → ℤ)} {sa : Fin N → ℤ}
    (ho : o.source arg = .ok sa) {limit fuel : ℕ} (hf : N ≤ fuel) {G : Rdata.SGrid N K} {tbl : List (Rdata.Row K)}
    (ht : o.reachData limit fuel G arg true = .ok (o1, tbl)) :
    ∃ out ss, mf2005 limit fuel false o.fdir sa true = .ok out ∧ IsNet o.fdir sa out.sg out.nsr ss ∧
      tbl = ((ordered ss).zipIdx 1).map (rowOf G o.fdir sa) := by
  unfold Rdata.Obj.reachData at ht
  obtain ⟨⟨q, net⟩, h1, h2⟩ := Res.bind_eq_ok.1 ht
  obtain ⟨t, h4, h3⟩ := Res.map_eq_ok.1 h2
  simp only [Prod.mk.injEq] at h3
  obtain ⟨-, rfl⟩ := h3
  obtain ⟨out, hout, rfl⟩ := network_fresh hn ho h1
  obtain ⟨ss, hss⟩ := isNet_out hf hout
  refine ⟨out, ss, hout, hss, ?_⟩
  rcases reachTable_cases G hss with ⟨_, e⟩ | ⟨_, e⟩ | ⟨_, _, e⟩
  · rw [e] at h4; cases h4
  · rw [e] at h4; cases h4
  · rw [e] at h4; exact (Res.ok.inj h4).symm

private theorem segment_fresh {o o1 : Rdata.Obj N} (hn : o.net = none) {arg : Option (Fin N → ℤ)} {sa : Fin N → ℤ}
    (ho : o.source arg = .ok sa) {limit fuel : ℕ} {seg : List (Rdata.SRow K)} {out : Out N}
    (hout : mf2005 limit fuel false o.fdir sa true = .ok out)
    (hs : o.segmentData K limit fuel arg true = .ok (o1, seg)) : seg = segmentTable K out.sg := by
  unfold Rdata.Obj.segmentData at hs
  obtain ⟨⟨q, net⟩, h1, h2⟩ := Res.map_eq_ok.1 hs
  obtain ⟨out1, hout1, rfl⟩ := network_fresh hn ho h1
  rw [hout] at hout1
  cases hout1
  simp only [Prod.mk.injEq] at h2
  exact h2.2.symm

/-- **C203**, MODFLOW-2005: `reach_data` and `segment_data` of fresh objects for the one and the other numbering differ
by the numbers of cells, segments and reaches only: with `f` the renumbering of the segments, a cell is reach `r` of
segment `s` in the one table if it is reach `r` of segment `f s` in the other, with the same length, top and slope, and
segment `s` flows to `t` if `f s` flows to `f t`. -/
theorem C203_reach_data {o o' o1 o1' o2 o2' : Rdata.Obj N} (h : SameFlow σ o.fdir o'.fdir) {sa sa' : Fin N → ℤ}
    (hsa : ∀ n, sa' (σ n) = sa n) (hn : o.net = none) (hn' : o'.net = none) {arg arg' : Option (Fin N → ℤ)}
    (ho : o.source arg = .ok sa) (ho' : o'.source arg' = .ok sa') {limit limit' fuel fuel' : ℕ} (hf : N ≤ fuel)
    (hf' : N ≤ fuel') {G G' : Rdata.SGrid N K} (hG : SameBoxes σ G G') {tbl tbl' : List (Rdata.Row K)}
    (ht : o.reachData limit fuel G arg true = .ok (o1, tbl))
    (ht' : o'.reachData limit' fuel' G' arg' true = .ok (o1', tbl')) {seg seg' : List (Rdata.SRow K)}
    (hs : o.segmentData K limit fuel arg true = .ok (o2, seg))
    (hs' : o'.segmentData K limit' fuel' arg' true = .ok (o2', seg')) :
    tbl'.length = tbl.length ∧ seg'.length = seg.length ∧ ∃ f : ℤ → ℤ, f 0 = 0 ∧
      (∀ row ∈ tbl, ∃ n : Fin N, ∃ row' ∈ tbl', row.node = n.val ∧ row'.node = (σ n).val ∧ row'.iseg = f row.iseg ∧
        row'.ireach = row.ireach ∧ row'.rchlen = row.rchlen ∧ row'.strtop = row.strtop ∧ row'.slope = row.slope) ∧
      ∀ x ∈ seg, ∃ x' ∈ seg', x'.nseg = f x.nseg ∧ x'.outseg = f x.outseg := by
  obtain ⟨out, ss, hout, hss, rfl⟩ := reach_fresh hn ho hf ht
  obtain ⟨out', ss', hout', hss', rfl⟩ := reach_fresh hn' ho' hf' ht'
  have hseg := segment_fresh hn ho hout hs
  have hseg' := segment_fresh hn' ho' hout' hs'
  obtain ⟨f, f0, f1, f2, f3, f4, f5⟩ := C191_segments h hsa hf hf' hout hout'
  have knd : ∀ {fdir sa : Fin N → ℤ} {sg : Dict ℤ ℤ} {nsr ss}, IsNet fdir sa sg nsr ss → sg.keys.Nodup := by
    intro fdir sa sg nsr ss hss
    have e : sg.keys = ss.map (·.1) := by rw [hss.sg_eq]; simp [Dict.keys]
    rw [e]; exact hss.nums
  have hk := knd hss
  have hk' := knd hss'
  have hlen : out'.nsr.length = out.nsr.length := by
    have n1 := (C56_rows hf hout).1
    have n2 := (C56_rows hf' hout').1
    have : (out'.nsr.map Prod.fst).Perm ((out.nsr.map Prod.fst).map σ) := by
      refine (List.perm_ext_iff_of_nodup n2 (n1.map σ.injective)).2 fun m => ?_
      obtain ⟨m, rfl⟩ := σ.surjective m
      rw [List.mem_map_of_injective σ.injective]
      constructor
      · intro hm
        obtain ⟨⟨m', s, r⟩, hm, e⟩ := List.mem_map.1 hm
        dsimp only at e
        subst e
        obtain ⟨s, hs, rfl⟩ := f3 s (((C58_numbers hf' hout').2.2.2 s).2 ⟨_, _, hm⟩)
        exact List.mem_map.2 ⟨_, (f4 m s r).2 ⟨hm, hs⟩, rfl⟩
      · intro hm
        obtain ⟨⟨m', s, r⟩, hm2, e⟩ := List.mem_map.1 hm
        dsimp only at e
        subst e
        exact List.mem_map.2 ⟨_, ((f4 _ _ _).1 hm2).1, rfl⟩
    simpa using this.length_eq
  have hklen : out'.sg.length = out.sg.length := by
    have : out'.sg.keys.Perm (out.sg.keys.map f) := by
      refine (List.perm_ext_iff_of_nodup hk' (List.Nodup.map_on (fun a ha b hb e => f2 a ha b hb e) hk)).2 fun t => ?_
      rw [List.mem_map]
      constructor
      · intro h
        exact f3 t h
      · rintro ⟨s, hs, rfl⟩
        exact (f1 s).1 hs
    simpa [Dict.keys] using this.length_eq
  refine ⟨?_, ?_, f, f0, ?_, ?_⟩
  · simp only [List.length_map, List.length_zipIdx]
    rw [(ordered_perm hss).length_eq, (ordered_perm hss').length_eq, hlen]
  · rw [hseg, hseg']
    simp only [segmentTable, List.length_map]
    rw [(Reach.sortItems_perm _).length_eq, (Reach.sortItems_perm _).length_eq, hklen]
  · intro row hrow
    obtain ⟨⟨⟨n, s, r⟩, k⟩, hx, rfl⟩ := List.mem_map.1 hrow
    have hmem : (n, s, r) ∈ out.nsr := (ordered_perm hss).mem_iff.1 (by
      have := List.mem_zipIdx hx
      rw [this.2.2]
      exact List.getElem_mem _)
    have hmem' : (σ n, f s, r) ∈ ordered ss' := (ordered_perm hss').mem_iff.2 ((f4 n s r).1 hmem).1
    have hst := ((C56_rows hf hout).2.2.1 n s r hmem).1
    obtain ⟨j, hj, ej⟩ := List.getElem_of_mem hmem'
    refine ⟨n, rowOf G' o'.fdir sa' ((σ n, f s, r), j + 1), List.mem_map.2 ⟨_, ?_, rfl⟩, ?_, ?_, rfl, rfl, ?_, ?_, ?_⟩
    · rw [List.mk_mem_zipIdx_iff_le_and_getElem?_sub]
      exact ⟨by omega, by rw [Nat.add_sub_cancel, List.getElem?_eq_getElem hj, ej]⟩
    · show ((n.val / G.ncol * G.ncol + n.val % G.ncol : ℕ) : ℤ) = n.val
      rw [Nat.div_add_mod']
    · show (((σ n).val / G'.ncol * G'.ncol + (σ n).val % G'.ncol : ℕ) : ℤ) = (σ n).val
      rw [Nat.div_add_mod']
    · show (lenSlope G' (σ n) (dn o'.fdir sa' (σ n))).1 = (lenSlope G n (dn o.fdir sa n)).1
      rw [dn_same h hsa hst, lenSlope_same hG]
    · exact hG.top n
    · show (lenSlope G' (σ n) (dn o'.fdir sa' (σ n))).2 = (lenSlope G n (dn o.fdir sa n)).2
      rw [dn_same h hsa hst, lenSlope_same hG]
  · intro x hx
    rw [hseg] at hx
    rw [hseg']
    obtain ⟨⟨s, t⟩, he, rfl⟩ := List.mem_map.1 hx
    have hst := Dict.get?_of_mem hk ((Reach.sortItems_perm _).mem_iff.1 he)
    have := f5 s (Dict.mem_keys_iff.2 ⟨t, hst⟩) t hst
    exact ⟨_, List.mem_map.2 ⟨(f s, f t), (Reach.sortItems_perm _).mem_iff.2 (Dict.mem_of_get? this), rfl⟩, rfl, rfl⟩

end

/-! ### A concrete case: two headwaters, 0 and 1, meet in 2, which flows to 3 and on to 4; numbered from the other end -/

def forkF5 : Fin 5 → ℤ := ![2, 2, 3, 4, 4]
def forkR5 : Fin 5 → ℤ := ![0, 0, 1, 2, 2]
def rev5 : Fin 5 ≃ Fin 5 := Fin.revPerm
theorem fork5_same : SameFlow rev5 forkF5 forkR5 := by unfold SameFlow; decide +kernel
theorem fork5_legal : Legal forkF5 ![2, 2, 3, 4, 4] ∧ Legal forkR5 ![0, 0, 1, 2, 2] := by unfold Legal; decide +kernel
def all5 : Fin 5 → ℤ := fun _ => 1

def pack5 : Reach.Grid 5 ℚ := ⟨![0, 2, 1, 1, 1], ![0, 0, 1, 2, 4], fun _ => 1, ![3, 3, 2, 1, 0], ![9, 8, 5, 4, 3]⟩
def packR5 : Reach.Grid 5 ℚ := ⟨![1, 1, 1, 2, 0], ![4, 2, 1, 0, 0], fun _ => 1, ![0, 1, 2, 3, 3], ![3, 4, 5, 8, 9]⟩
theorem pack5_same : SameCells rev5 pack5 packR5 := by unfold SameCells; decide +kernel
def recO : Reach.Obj 5 := ⟨forkF5, some all5, none⟩
def recR : Reach.Obj 5 := ⟨forkR5, some all5, none⟩

example {o1 o1' : Reach.Obj 5} {g g' : Dict ℤ ℤ} (hg : recO.connectivity 10 none = .ok (o1, g))
    (hg' : recR.connectivity 10 none = .ok (o1', g')) {recs recs' : List (Reach.PRec 5 ℚ)}
    (hr : o1.packageData (fun x => x) pack5 10 none = .ok (o1, recs))
    (hr' : o1'.packageData (fun x => x) packR5 10 none = .ok (o1', recs')) :
    ∃ rec ∈ recs, ∃ rec' ∈ recs', rec.node = 2 ∧ rec'.node = 2 ∧ rec'.rlen = rec.rlen ∧ rec'.ncon = rec.ncon := by
  obtain ⟨_, _, hc⟩ := C203_packagedata (σ := rev5) (o := recO) (o' := recR) fork5_same fork5_legal.1 fork5_legal.2
    (sa := all5) (sa' := all5) (fun _ => rfl) rfl rfl hg hg' pack5_same hr hr'
  obtain ⟨rec, h1, rec', h2, h3, h4, h5, _, _, h6⟩ := hc 2 (by decide)
  exact ⟨rec, h1, rec', h2, h3, h4, h5, h6⟩

-- C202 at the confluence
example {o1 : Reach.Obj 5} {g : Dict ℤ ℤ} (hg : recO.connectivity 10 none = .ok (o1, g)) {recs : List (Reach.PRec 5 ℚ)}
    {rows : List (ℤ × List ℤ)} (hr : o1.packageData (fun x => x) pack5 10 none = .ok (o1, recs))
    (hc : o1.connData 10 = .ok (o1, rows)) : ∃ rec ∈ recs, rec.node = 2 ∧ rec.ncon = 3 := by
  obtain ⟨_, i, rec, _, _, _, h1, _, h2, h3, _⟩ := Reach.C202_ncon (o := recO) (d := ![2, 2, 3, 4, 4]) (sa := all5)
    fork5_legal.1.resolves rfl hg hr hc 2 (by decide)
  exact ⟨rec, List.mem_of_getElem? h1, h2, h3.trans (by decide +kernel)⟩

-- the tables: the confluence has 3 connections, the outlet 1; the numbers of the reaches differ
example : ((recO.connectivity 10 none).bind fun x => x.1.packageData (fun x => x) pack5 10 none).map
      (fun r => r.2.map fun q => (q.ifno, q.node, q.rlen, q.ncon)) =
    .ok [(0, 1, 3, 1), (1, 0, 3, 1), (2, 2, 3/2, 3), (3, 3, 6, 2), (4, 4, 3/2, 1)] ∧
    ((recR.connectivity 10 none).bind fun x => x.1.packageData (fun x => x) packR5 10 none).map
      (fun r => r.2.map fun q => (q.ifno, q.node, q.rlen, q.ncon)) =
    .ok [(0, 4, 3, 1), (1, 3, 3, 1), (2, 2, 3/2, 3), (3, 1, 6, 2), (4, 0, 3/2, 1)] := by
  constructor <;> decide +kernel

def box5 : Rdata.SGrid 5 ℚ :=
  ⟨5, ![0, 2, 1, 1, 1], ![0, 0, 1, 2, 4], ![some 9, some 8, some 5, some 4, none], fun _ => 1, fun _ => 2, fun x => x⟩
def boxR5 : Rdata.SGrid 5 ℚ :=
  ⟨5, ![1, 1, 1, 2, 0], ![4, 2, 1, 0, 0], ![none, some 4, some 5, some 8, some 9], fun _ => 1, fun _ => 2, fun x => x⟩
theorem box5_same : SameBoxes rev5 box5 boxR5 :=
  ⟨by decide +kernel, by decide +kernel, by decide +kernel, by decide +kernel, rfl⟩
def segO : Rdata.Obj 5 := ⟨forkF5, some all5, none⟩
def segR : Rdata.Obj 5 := ⟨forkR5, some all5, none⟩

example {o1 o1' o2 o2' : Rdata.Obj 5} {tbl tbl' : List (Rdata.Row ℚ)} {seg seg' : List (Rdata.SRow ℚ)}
    (ht : segO.reachData 10 10 box5 none true = .ok (o1, tbl))
    (ht' : segR.reachData 10 10 boxR5 none true = .ok (o1', tbl'))
    (hs : segO.segmentData ℚ 10 10 none true = .ok (o2, seg))
    (hs' : segR.segmentData ℚ 10 10 none true = .ok (o2', seg')) : tbl'.length = tbl.length ∧ seg'.length = seg.length := by
  obtain ⟨h1, h2, _⟩ := C203_reach_data (σ := rev5) (o := segO) (o' := segR) fork5_same (sa := all5) (sa' := all5)
    (fun _ => rfl) rfl rfl rfl rfl (by decide) (by decide) box5_same ht ht' hs hs'
  exact ⟨h1, h2⟩

-- the tables of both numberings exist
example : (segO.reachData 10 10 box5 none true).map (fun r => r.2.map fun q => (q.node, q.iseg, q.ireach, q.rchlen)) =
    .ok [(1, 1, 1, 3), (0, 2, 1, 3), (2, 3, 1, 3/2), (3, 3, 2, 6), (4, 4, 1, 9/4)] ∧
    (segR.reachData 10 10 boxR5 none true).map (fun r => r.2.map fun q => (q.node, q.iseg, q.ireach, q.rchlen)) =
    .ok [(4, 1, 1, 3), (3, 2, 1, 3), (2, 3, 1, 3/2), (1, 3, 2, 6), (0, 4, 1, 9/4)] := by
  constructor <;> decide +kernel
example : (segO.segmentData ℚ 10 10 none true).map (fun r => r.2.map fun q => (q.nseg, q.outseg)) =
    .ok [(1, 3), (2, 3), (3, 4), (4, 4)] := by decide +kernel

end Dany.Pipe
