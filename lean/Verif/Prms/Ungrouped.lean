import Verif.Prms.Couple
import Verif.Seg.Agree

/-!
# C166: the two halves of a GSFLOW model without grouped segments
-/

namespace Dany.Prms

open Reach Casc Seg Flow

variable {N : ℕ} {limit fuel cfuel : ℕ} {d : Fin N → Fin N} {sa : Fin N → ℤ}
variable {K : Type*} [Field K] [LinearOrder K] {G : Rdata.SGrid N K}
variable {nbs : Fin N → List (Fin N × Option ℝ)} {fa : Fa N} {active : Fin N → Bool} {many dflt : Bool}

/-- The full claim, for the grid `G` and one pair of objects: with `group_segments=False` in both builder
calls, the segment a cascade names is the one under which the reach table lists the receiving cell. -/
def UngroupedCoupled {K : Type*} [Field K] [LinearOrder K] (G : Rdata.SGrid N K) (fdir sa : Fin N → ℤ) : Prop :=
  ∀ (limit fuel cfuel : ℕ) (nbs : Fin N → List (Fin N × Option ℝ)) (fa : Fa N) (active : Fin N → Bool)
    (many dflt : Bool) (o' : Obj N) (b : Builder N) (q' : Rdata.Obj N) (rows : List (Rdata.Row K))
    (segs : List (Rdata.SRow K)) (irun : Fin N → ℤ), N ≤ fuel →
    builder limit fuel false nbs fa ⟨fdir, some sa, none⟩ none active false many = .ok (o', b) →
    (⟨fdir, some sa, none⟩ : Rdata.Obj N).builder limit fuel cfuel G none none none dflt false [] =
      .ok (q', rows, segs, irun) →
    ∀ link ∈ b.rows, ∀ r ∈ rows, link.down = r.node + 1 → r.iseg = link.strmseg

/-- **C166 (partial).**  The claim holds if the stream cell of lowest number drains into every stream cell that
flows to itself; the tables are then of equal size as well, and each cascade into a stream cell finds its
row and its segment. -/
theorem C166_coupling_partial {fdir : Fin N → ℤ} {o' : Obj N} {q' : Rdata.Obj N} {b : Builder N}
    {rows : List (Rdata.Row K)} {segs : List (Rdata.SRow K)} {irun : Fin N → ℤ}
    (hd : Legal fdir d) (hf : N ≤ fuel)
    (hcrit : ∀ c o, FirstCell sa c → sa o ≠ 0 → d o = o → Drains fdir sa c o)
    (hp : builder limit fuel false nbs fa ⟨fdir, some sa, none⟩ none active false many = .ok (o', b))
    (hs : (⟨fdir, some sa, none⟩ : Rdata.Obj N).builder limit fuel cfuel G none none none dflt false [] =
      .ok (q', rows, segs, irun)) :
    b.nsegments = segs.length ∧ b.nreaches = rows.length ∧
      ∀ link ∈ b.rows, ∃ m : Fin N, link.down = ((m : ℕ) : ℤ) + 1 ∧
        (∀ r ∈ rows, r.node = ((m : ℕ) : ℤ) → r.iseg = link.strmseg) ∧
        (sa m = 0 → link.strmseg = 0 ∧ ∀ r ∈ rows, r.node ≠ ((m : ℕ) : ℤ)) ∧
        (sa m ≠ 0 → link.strmseg ≠ 0 ∧ (((m : ℕ) : ℤ), link.strmseg) ∈ rows.map (fun r => (r.node, r.iseg)) ∧
          ∃ g ∈ segs, g.nseg = link.strmseg) := by
  obtain ⟨out, ho, hperm, hlen, hkeys⟩ := sfr_builder (q := ⟨fdir, some sa, none⟩) hf rfl rfl hs
  obtain ⟨_, _, c3, _, c5, sa', c6, c7⟩ := C88_consistent (o := ⟨fdir, some sa, none⟩) (sa := sa) hd hf rfl hp
  obtain ⟨o1, g, sa1, h1, h2, _⟩ := builder_inv hp
  unfold connect at h1
  rw [if_neg (by simp)] at h1
  unfold Reach.Obj.connectivity at h1
  obtain ⟨sa0, e0, h1⟩ := Res.bind_eq_ok.1 h1
  obtain rfl : sa0 = sa := by simpa [Reach.Obj.source] using e0.symm
  obtain ⟨r6, h6, h1⟩ := Res.map_eq_ok.1 h1
  simp only [Prod.mk.injEq] at h1
  obtain ⟨rfl, rfl⟩ := h1
  have hsa' : sa' = r6.1 := by
    have e := (rows_spec (o := ⟨fdir, some r6.1, some (someVals r6.2)⟩) hd (by simp) h2).1
    rw [e] at c6
    exact (Option.some.inj c6).symm
  have hnum : r6.1 = out.sa := (C166_exact hd h6 ho).2 hcrit
  obtain ⟨L, hL, _, hoL⟩ := mf2005_lift ho
  obtain ⟨out', hout', r1, r2, r3, _, r5, r6', r7, _⟩ := C59_ungrouped (fuel := fuel) hL
  obtain rfl : out' = out := by rw [hoL] at hout'; exact (Res.ok.inj hout').symm
  have hmem : ∀ (n : Fin N) (s : ℤ), (((n : ℕ) : ℤ), s) ∈ rows.map (fun r => (r.node, r.iseg)) ↔ sa0 n ≠ 0 ∧ s = out'.sa n := by
    intro n s
    rw [hperm.mem_iff, List.mem_map]
    constructor
    · rintro ⟨⟨n', s', r⟩, hx, he⟩
      simp only [Prod.mk.injEq] at he
      obtain ⟨h1, rfl⟩ := he
      obtain rfl : n' = n := Fin.ext (by exact_mod_cast h1)
      have := (r2 _ _ _).1 hx
      exact ⟨this.1, this.2.1⟩
    · rintro ⟨h1, rfl⟩
      exact ⟨_, (r2 n _ 1).2 ⟨h1, rfl, rfl⟩, rfl⟩
  have hrl : rows.length = out'.nsr.length := by simpa using hperm.length_eq
  have hnl : out'.nsr.length = nStream sa0 := by
    have h2 : out'.nsr.length = (out'.nsr.map Prod.fst).length := by simp
    rw [h2, ← List.toFinset_card_of_nodup r1]
    unfold nStream
    congr 1
    ext n
    simp only [Finset.mem_filter, Finset.mem_univ, true_and, List.mem_toFinset, List.mem_map]
    constructor
    · rintro ⟨⟨n', s, r⟩, hx, rfl⟩
      exact ((r2 _ _ _).1 hx).1
    · intro hn
      exact ⟨_, (r2 n _ 1).2 ⟨hn, rfl, rfl⟩, rfl⟩
  have hsl : out'.sg.length = nStream sa0 := by
    have h2 : out'.sg.length = out'.sg.keys.length := by simp [Dict.keys]
    rw [h2, ← List.toFinset_card_of_nodup r6']
    unfold nStream
    rw [← Finset.card_image_of_injOn (f := out'.sa)]
    · congr 1
      ext s
      simp only [List.mem_toFinset, r7, Finset.mem_image, Finset.mem_filter, Finset.mem_univ, true_and]
    · intro x hx y hy he
      exact r5 x y (by simpa using hx) (by simpa using hy) he
  refine ⟨by rw [c3, if_neg (by simp), hlen, hsl], by rw [c5 (.inl rfl), hrl, hnl], fun link hl => ?_⟩
  obtain ⟨n, m, hu, hv, hseg, _, _, h0, h1'⟩ := c7 link hl
  rw [hsa', hnum] at hseg
  have hr : ∀ r ∈ rows, r.node = ((m : ℕ) : ℤ) → sa0 m ≠ 0 ∧ r.iseg = link.strmseg := by
    intro r hr he
    obtain ⟨h2, h3⟩ := (hmem m r.iseg).1 (List.mem_map.2 ⟨r, hr, by rw [he]⟩)
    exact ⟨h2, by rw [hseg, h3]⟩
  refine ⟨m, hv, fun r hr' he => (hr r hr' he).2, fun hz => ⟨h0 hz, fun r hr' he => (hr r hr' he).1 hz⟩, ?_⟩
  intro hz
  refine ⟨h1' (.inl rfl) hz, (hmem m _).2 ⟨hz, hseg⟩, (hkeys _).2 ((r7 _).2 ⟨m, hz, hseg.symm⟩)⟩

/-- The claim, for one network, is what is stated in `UngroupedCoupled`. -/
theorem C166_claim_partial {fdir : Fin N → ℤ} (hd : Legal fdir d)
    (hcrit : ∀ c o, FirstCell sa c → sa o ≠ 0 → d o = o → Drains fdir sa c o) : UngroupedCoupled G fdir sa := by
  intro limit fuel cfuel nbs fa active many dflt o' b q' rows segs irun hf hp hs link hl r hr he
  obtain ⟨_, _, h⟩ := C166_coupling_partial hd hf hcrit hp hs
  obtain ⟨m, hm, h1, _⟩ := h link hl
  exact h1 r hr (by omega)

/-! ### Refutation -/

/-- two unit cells in a row -/
def pairG : Rdata.SGrid 2 ℚ := ⟨2, ![0, 1], ![0, 0], ![some 4, some 4], fun _ => 1, fun _ => 1, fun x => x⟩

/-- **C166, refuted.**  Two stream cells, each flowing to itself: the cascade into cell 0 names segment 2, the
reach table of `Sfr2005` lists the cell under segment 1. -/
theorem C166_refuted : ¬ UngroupedCoupled pairG ![0, 1] ![1, 1] := by
  intro h
  have hleg : Legal (![0, 1] : Fin 2 → ℤ) (fun n => n) := by unfold Legal; decide
  obtain ⟨t, ht, et⟩ := Res.map_eq_ok.1 (show
    ((⟨![0, 1], some ![1, 1], none⟩ : Rdata.Obj 2).builder 10 10 40 pairG none none none true false []).map
    (fun t => t.2.1.map (fun x => (x.node, x.iseg))) = .ok [(0, 1), (1, 2)] by decide +kernel)
  obtain ⟨⟨o', b⟩, hb⟩ := C88_succeeds (limit := 10) (fuel := 10) (u := false) (nbs := fun _ => [])
    (fa := ⟨![0, 1], fun _ => 0, fun _ => 0, fun _ => none, fun _ => 1⟩) (o := ⟨![0, 1], some ![1, 1], none⟩)
    (arg := none) (sa := ![1, 1]) (active := fun _ => true) (group := false) (many := false)
    hleg ⟨_, hleg⟩ (by omega)
    (by
      rw [if_neg (by simp)]
      refine fits_of_count ?_
      have h2 : nStream ![1, (1 : ℤ)] ≤ 2 := by decide +kernel
      omega) rfl (.inl rfl)
  obtain ⟨q', rows, segs, irun⟩ := t
  dsimp only at et
  have key : ∃ link ∈ b.rows, link.down = 1 ∧ link.strmseg = 2 := by
    obtain ⟨o1, g, _, h1, h2, _⟩ := builder_inv hb
    have hrun : ((connect 10 10 false ⟨![0, 1], some ![1, 1], none⟩ none false).bind fun r =>
        (getCascades (K := ℝ) 10 (fun _ => []) r.1 r.1.streamArray (fun _ => true) false).map
          (fun x => x.2.map (fun y => (y.down, y.strmseg)))) = .ok [(1, 2), (2, 1)] := by decide +kernel
    rw [h1, Res.bind_ok, h2, Res.map_ok, Res.ok.injEq] at hrun
    dsimp only at hrun
    have hin : ((1 : ℤ), (2 : ℤ)) ∈ b.rows.map (fun y => (y.down, y.strmseg)) := by rw [hrun]; simp
    obtain ⟨link, hl, he⟩ := List.mem_map.1 hin
    simp only [Prod.mk.injEq] at he
    exact ⟨link, hl, he⟩
  obtain ⟨link, hl, e1, e2⟩ := key
  have hin : ((0 : ℤ), (1 : ℤ)) ∈ rows.map (fun x => (x.node, x.iseg)) := by rw [et]; simp
  obtain ⟨r, hr, he⟩ := List.mem_map.1 hin
  simp only [Prod.mk.injEq] at he
  have := h 10 10 40 _ _ _ _ _ _ b _ rows segs irun (by omega) hb ht link hl r hr (by rw [e1, he.1]; rfl)
  omega

/-! ### Concrete case -/

/-- non-vacuity of `C166_coupling_partial`: 0 and 1 meet in 2, which flows to 3, the outlet; both builders
return and the criterion holds -/
example (nbs : Fin 4 → List (Fin 4 × Option ℝ)) (fa : Fa 4) (hfa : fa.fdir = exObj.fdir) :
    ∃ (r : Obj 4 × Builder 4) (t : Rdata.Obj 4 × List (Rdata.Row ℚ) × List (Rdata.SRow ℚ) × (Fin 4 → ℤ)),
      builder 10 10 false nbs fa ⟨exObj.fdir, some ![1, 1, 1, 1], none⟩ none (fun _ => true) false false = .ok r ∧
      (⟨exObj.fdir, some ![1, 1, 1, 1], none⟩ : Rdata.Obj 4).builder 10 10 40 sq none none none true false [] = .ok t ∧
      t.2.1.map (fun x => (x.node, x.iseg)) = [(1, 1), (0, 2), (2, 3), (3, 4)] ∧
      ∀ c o, FirstCell ![1, 1, 1, (1 : ℤ)] c → (![1, 1, 1, (1 : ℤ)] : Fin 4 → ℤ) o ≠ 0 →
        (![2, 2, 3, 3] : Fin 4 → Fin 4) o = o → Drains exObj.fdir ![1, 1, 1, 1] c o := by
  obtain ⟨r, hr⟩ := C88_succeeds (limit := 10) (fuel := 10) (u := false) (nbs := nbs) (fa := fa)
    (o := ⟨exObj.fdir, some ![1, 1, 1, 1], none⟩)
    (arg := none) (sa := ![1, 1, 1, 1]) (active := fun _ => true) (group := false) (many := false)
    exLegal ⟨_, hfa ▸ exLegal⟩ (by omega)
    (by
      rw [if_neg (by simp)]
      refine fits_of_count ?_
      have h2 : nStream ![1, 1, 1, (1 : ℤ)] ≤ 4 := by decide +kernel
      omega) rfl (.inl rfl)
  obtain ⟨t, ht, e⟩ := Res.map_eq_ok.1 (show
    ((⟨exObj.fdir, some ![1, 1, 1, 1], none⟩ : Rdata.Obj 4).builder 10 10 40 sq none none none true false []).map
    (fun t => t.2.1.map (fun x => (x.node, x.iseg))) = .ok [(1, 1), (0, 2), (2, 3), (3, 4)] by decide +kernel)
  refine ⟨r, t, hr, ht, e, ?_⟩
  intro c o hc _ ho
  have hc0 : c = 0 := le_antisymm (hc.2 0 (by decide)) (Fin.zero_le _)
  have ho3 : o = 3 := by revert ho; revert o; decide
  subst hc0; subst ho3
  have f02 : Feeds exObj.fdir ![1, 1, 1, 1] 0 2 := by unfold Feeds; decide
  have f23 : Feeds exObj.fdir ![1, 1, 1, 1] 2 3 := by unfold Feeds; decide
  exact (Relation.ReflTransGen.single f02).tail f23

/-! ### C167: `get_cascades` and `reach_data` -/

/-- Two new objects with the same directions, given the same stream array: `get_cascades` (with keyword
`group_segments=kp`) and `reach_data` (with `group_segments=ks`) use the same segment numbers. -/
def TablesAgree {K : Type*} [Field K] [LinearOrder K] (G : Rdata.SGrid N K) (fdir sa : Fin N → ℤ) (kp ks : Bool) :
    Prop :=
  ∀ (limit fuel : ℕ) (nbs : Fin N → List (Fin N × Option K)) (active : Fin N → Bool) (many : Bool) (o' : Obj N)
    (links : List (Row K)) (q' : Rdata.Obj N) (tbl : List (Rdata.Row K)), N ≤ fuel →
    cascades limit fuel false nbs ⟨fdir, none, none⟩ (some sa) active many kp = .ok (o', links) →
    (⟨fdir, none, none⟩ : Rdata.Obj N).reachData limit fuel G (some sa) ks = .ok (q', tbl) →
    ∀ link ∈ links, ∀ r ∈ tbl, link.down = r.node + 1 → r.iseg = link.strmseg

/-- a row of the reach table carries the number the network gave to its cell -/
theorem reach_row {q' : Rdata.Obj N} {fdir : Fin N → ℤ} {tbl : List (Rdata.Row K)} {ks : Bool} (hf : N ≤ fuel)
    (h : (⟨fdir, none, none⟩ : Rdata.Obj N).reachData limit fuel G (some sa) ks = .ok (q', tbl)) :
    ∃ out, mf2005 limit fuel false fdir sa ks = .ok out ∧
      ∀ r ∈ tbl, ∃ n : Fin N, r.node = ((n : ℕ) : ℤ) ∧ ∃ k, (n, r.iseg, k) ∈ out.nsr := by
  have hs : (⟨fdir, none, none⟩ : Rdata.Obj N).Sound limit fuel := by intro net hn; cases hn
  obtain ⟨sg, nsr, rs, e1, hperm, _, hlen, hrow⟩ := Rdata.C71_numbering hf hs h
  rw [Rdata.C79_first_partial (o := (⟨fdir, none, none⟩ : Rdata.Obj N)) rfl (show _ = Res.ok sa from rfl)] at h
  obtain ⟨out, ho, h⟩ := Res.bind_eq_ok.1 h
  obtain ⟨t, ht, he⟩ := Res.map_eq_ok.1 h
  simp only [Prod.mk.injEq] at he
  obtain ⟨rfl, rfl⟩ := he
  simp only [Option.some.injEq, Prod.mk.injEq] at e1
  obtain ⟨rfl, rfl⟩ := e1
  refine ⟨out, ho, fun r hr => ?_⟩
  obtain ⟨i, hi, rfl⟩ := List.getElem_of_mem hr
  have hi' : i < rs.length := by omega
  obtain ⟨row, h1, _, h2, _, _, _, h3, _⟩ := hrow i rs[i].1 rs[i].2.1 rs[i].2.2 (by simp [hi'])
  rw [List.getElem?_eq_getElem hi] at h1
  obtain rfl := Option.some.inj h1
  refine ⟨rs[i].1, h2, rs[i].2.2, ?_⟩
  rw [h3]
  exact hperm.mem_iff.1 (List.getElem_mem hi')

/-- **C167 (partial).**  They do if both are called with `group_segments=True`; and with `False` in both, if the
stream cell of lowest number drains into every stream cell that flows to itself. -/
theorem C167_same_partial {fdir : Fin N → ℤ} (hd : Legal fdir d) {k : Bool}
    (hk : k = true ∨ ∀ c o, FirstCell sa c → sa o ≠ 0 → d o = o → Drains fdir sa c o) :
    TablesAgree G fdir sa k k := by
  intro limit fuel nbs active many o' links q' tbl hf hp hs link hl r hr he
  obtain ⟨out, ho, hrows⟩ := reach_row hf hs
  obtain ⟨g, sa', hc, hsa', hlinks⟩ := C89_first_partial (o := ⟨fdir, none, none⟩) hd hf rfl hp
  obtain ⟨m, hm, hseg, _⟩ := hlinks link hl
  obtain ⟨n, hn, i, hi⟩ := hrows r hr
  obtain rfl : m = n := Fin.ext (by have : ((m : ℕ) : ℤ) = ((n : ℕ) : ℤ) := by omega
                                    exact_mod_cast this)
  have hnum : sa' = out.sa := by
    unfold connect at hc
    cases k with
    | true =>
      rw [if_pos rfl] at hc
      simp only [Obj.source, Res.bind_ok, ho, Res.map_ok, Res.ok.injEq, Prod.mk.injEq] at hc
      rw [← hc.1] at hsa'
      exact (Option.some.inj hsa').symm
    | false =>
      rw [if_neg (by simp)] at hc
      unfold Reach.Obj.connectivity at hc
      simp only [Obj.source, Res.bind_ok] at hc
      obtain ⟨r6, h6, hc⟩ := Res.map_eq_ok.1 hc
      simp only [Prod.mk.injEq] at hc
      rw [← hc.1] at hsa'
      rw [← Option.some.inj hsa']
      refine (C166_exact hd h6 ho).2 ?_
      rcases hk with hk | hk
      · cases hk
      · exact hk
  rw [hseg, hnum]
  cases k with
  | true => exact ((C56_rows hf ho).2.2.1 m _ _ hi).2.1.symm
  | false =>
    obtain ⟨L, hL, _, hoL⟩ := mf2005_lift ho
    obtain ⟨out', hout', _, r2, _⟩ := C59_ungrouped (fuel := fuel) hL
    obtain rfl : out' = out := by rw [hoL] at hout'; exact (Res.ok.inj hout').symm
    exact ((r2 _ _ _).1 hi).2.1

/-- three unit cells in a row -/
def tripleG : Rdata.SGrid 3 ℚ :=
  ⟨3, ![0, 1, 2], ![0, 0, 0], ![some 4, some 3, some 2], fun _ => 1, fun _ => 1, fun x => x⟩

/-- **C167, refuted.**  With the defaults (`False` in `get_cascades`, `True` in `reach_data`) the numbers differ
already for a stream of three cells in a row: the cascade into the middle cell names segment 2, the reach table
lists the cell under segment 1. -/
theorem C167_refuted : ¬ TablesAgree tripleG ![1, 2, 2] ![1, 1, 1] false true := by
  intro h
  obtain ⟨⟨o', links⟩, h1, e1⟩ := Res.map_eq_ok.1 (show (cascades (K := ℚ) 10 10 false (fun _ => [])
    (⟨![1, 2, 2], none, none⟩ : Obj 3) (some ![1, 1, 1]) (fun _ => true) false false).map
      (fun x => x.2.map (fun y => (y.down, y.strmseg))) = .ok [(2, 2), (3, 3), (3, 3), (3, 3), (3, 3)] by decide +kernel)
  obtain ⟨⟨q', tbl⟩, h2, e2⟩ := Res.map_eq_ok.1 (show
    ((⟨![1, 2, 2], none, none⟩ : Rdata.Obj 3).reachData 10 10 tripleG (some ![1, 1, 1]) true).map
      (fun x => x.2.map (fun y => (y.node, y.iseg))) = .ok [(0, 1), (1, 1), (2, 2)] by decide +kernel)
  dsimp only at e1 e2
  have hin : ((2 : ℤ), (2 : ℤ)) ∈ links.map (fun y => (y.down, y.strmseg)) := by rw [e1]; simp
  obtain ⟨link, hl, he⟩ := List.mem_map.1 hin
  have hin2 : ((1 : ℤ), (1 : ℤ)) ∈ tbl.map (fun y => (y.node, y.iseg)) := by rw [e2]; simp
  obtain ⟨r, hr, he2⟩ := List.mem_map.1 hin2
  simp only [Prod.mk.injEq] at he he2
  have := h 10 10 _ _ _ o' links q' tbl (by omega) h1 h2 link hl r hr (by rw [he.1, he2.1]; rfl)
  omega

end Dany.Prms
