import Verif.Prms.Props
import Verif.Rdata.Props

/-!
# C164: the two halves of a GSFLOW model

PRMS cascades (`PrmsStreams.get_pygsflow_builder_object`) name MODFLOW segments, MODFLOW's SFR package
(`Sfr2005.get_pygsflow_builder_object`) numbers them.  The two objects never see each other.
-/

namespace Dany.Prms

open Reach Casc Seg Flow

variable {N : ℕ} {limit fuel cfuel : ℕ} {d : Fin N → Fin N} {sa : Fin N → ℤ}

section

variable {K : Type*} [Field K] [LinearOrder K] {G : Rdata.SGrid N K}

/-- the loop of the builder keeps cells and segment numbers of the rows -/
theorem fixRows_keys {tbl l l' : List (Rdata.Row K)} (h : Rdata.fixRows G tbl l = .ok l') :
    l'.map (fun r => (r.node, r.iseg)) = l.map (fun r => (r.node, r.iseg)) := by
  induction l generalizing l' with
  | nil => cases h; rfl
  | cons a l ih =>
    unfold Rdata.fixRows at h
    obtain ⟨a', ha, h⟩ := Res.bind_eq_ok.1 h
    obtain ⟨r, hr, rfl⟩ := Res.map_eq_ok.1 h
    obtain ⟨n, m, _, _, rfl⟩ := Rdata.fixRow_ok ha
    simp only [List.map_cons, ih hr]
    rfl

/-- what the SFR builder returns, for an object without network -/
theorem sfr_builder {q q' : Rdata.Obj N} {rows : List (Rdata.Row K)} {segs : List (Rdata.SRow K)}
    {irun : Fin N → ℤ} {dflt grp : Bool} (hf : N ≤ fuel) (hq : q.net = none)
    (hsa : q.source none = .ok sa)
    (h : q.builder limit fuel cfuel G none none none dflt grp [] = .ok (q', rows, segs, irun)) :
    ∃ out, mf2005 limit fuel false q.fdir sa grp = .ok out ∧
      (rows.map (fun r => (r.node, r.iseg))).Perm
        (out.nsr.map (fun x => (((x.1 : ℕ) : ℤ), x.2.1))) ∧
      segs.length = out.sg.length ∧ ∀ s, (∃ g ∈ segs, g.nseg = s) ↔ s ∈ out.sg.keys := by
  unfold Rdata.Obj.builder at h
  obtain ⟨_, _, h⟩ := Res.bind_eq_ok.1 h
  obtain ⟨⟨o1, tbl⟩, h1, h⟩ := Res.bind_eq_ok.1 h
  obtain ⟨⟨o2, stbl⟩, h2, h⟩ := Res.bind_eq_ok.1 h
  obtain ⟨⟨o3, i⟩, h3, h⟩ := Res.bind_eq_ok.1 h
  simp only [Rdata.orElse] at h1 h2
  have hsound : q.Sound limit fuel := by intro net hn; rw [hq] at hn; cases hn
  obtain ⟨sg, nsr, rs, e1, hperm, _, hlen, hrow⟩ := Rdata.C71_numbering hf hsound h1
  rw [Rdata.C79_first_partial hq hsa] at h1
  obtain ⟨out, ho, h1⟩ := Res.bind_eq_ok.1 h1
  obtain ⟨t, ht, he⟩ := Res.map_eq_ok.1 h1
  simp only [Prod.mk.injEq] at he
  obtain ⟨rfl, rfl⟩ := he
  simp only [Option.some.injEq, Prod.mk.injEq] at e1
  obtain ⟨rfl, rfl⟩ := e1
  have hs1 : Rdata.Obj.Sound limit fuel
      (⟨q.fdir, some out.sa, some (out.sg, out.nsr)⟩ : Rdata.Obj N) := by
    intro net hn
    exact ⟨sa, grp, out, ho, (Option.some.inj hn).symm⟩
  obtain ⟨sg', nsr', e2, _, hlen2, hk1, hk2⟩ := Rdata.C73_segment_data (K := K) hf hs1 h2
  have e3 : o2 = ⟨q.fdir, some out.sa, some (out.sg, out.nsr)⟩ := by
    obtain ⟨⟨o, net⟩, hn, he⟩ := Res.map_eq_ok.1 h2
    simp only [Rdata.Obj.network, Rdata.Obj.source, Res.bind_ok, Res.ok.injEq, Prod.mk.injEq] at hn
    simp only [Prod.mk.injEq] at he
    rw [← he.1, ← hn.1]
  rw [e3] at e2
  simp only [Option.some.injEq, Prod.mk.injEq] at e2
  obtain ⟨rfl, rfl⟩ := e2
  have htbl : t.map (fun r => (r.node, r.iseg)) = rs.map (fun x => (((x.1 : ℕ) : ℤ), x.2.1)) := by
    apply List.ext_getElem?
    intro k
    rw [List.getElem?_map, List.getElem?_map]
    cases hk : rs[k]? with
    | none =>
      have : t[k]? = none := by
        rw [List.getElem?_eq_none_iff] at hk ⊢
        omega
      rw [this]; rfl
    | some x =>
      obtain ⟨n, s, r⟩ := x
      obtain ⟨row, hr, _, hn, _, _, _, hs, _⟩ := hrow k n s r hk
      rw [hr, Option.map_some, Option.map_some, hn, hs]
  have hseg : ∀ s, (∃ g ∈ stbl, g.nseg = s) ↔ s ∈ out.sg.keys := by
    intro s
    rw [Dict.mem_keys_iff]
    constructor
    · rintro ⟨g, hg, rfl⟩
      obtain ⟨k, hk⟩ := List.getElem?_of_mem hg
      rw [(hk1 k g hk).2]; simp
    · intro hs
      obtain ⟨t, ht⟩ := hs
      obtain ⟨g, hg, e, _⟩ := hk2 s t ht
      exact ⟨g, hg, e⟩
  have hp : (t.map (fun r => (r.node, r.iseg))).Perm (out.nsr.map (fun x => (((x.1 : ℕ) : ℤ), x.2.1))) := by
    rw [htbl]; exact hperm.map _
  refine ⟨out, ho, ?_⟩
  cases dflt with
  | true =>
    rw [if_pos rfl] at h
    obtain ⟨r, hr, h⟩ := Res.map_eq_ok.1 h
    simp only [Prod.mk.injEq] at h
    obtain ⟨rfl, rfl, rfl, rfl⟩ := h
    refine ⟨by rw [fixRows_keys hr]; exact hp, by rw [List.length_map, hlen2], fun s => ?_⟩
    rw [← hseg]
    constructor
    · rintro ⟨g, hg, rfl⟩
      obtain ⟨g', hg', rfl⟩ := List.mem_map.1 hg
      exact ⟨g', hg', rfl⟩
    · rintro ⟨g, hg, rfl⟩
      exact ⟨_, List.mem_map_of_mem hg, rfl⟩
  | false =>
    simp only [Bool.false_eq_true, if_false, Res.ok.injEq, Prod.mk.injEq] at h
    obtain ⟨rfl, rfl, rfl, rfl⟩ := h
    exact ⟨hp, hlen2, hseg⟩

end

variable {K : Type*} [Field K] [LinearOrder K] {G : Rdata.SGrid N K}
variable {nbs : Fin N → List (Fin N × Option ℝ)} {fa : Fa N} {active : Fin N → Bool} {many dflt : Bool}

/-- **C164.**  A `PrmsStreams` and an `Sfr2005` object made from the same flow directions and given the same
stream array: in the two builder objects (both with grouped segments, the default) the segment a cascade
drains to is the one under which the SFR reach table lists the receiving cell; the segments are equal in
number.  If every stream cell lies downstream of a headwater, so are the reaches, and a cascade that names a
segment finds exactly its cell in the reach table and the segment in the segment table. -/
theorem C164_coupling {o o' : Obj N} {q q' : Rdata.Obj N} {arg : Option (Fin N → ℤ)} {b : Builder N}
    {rows : List (Rdata.Row K)} {segs : List (Rdata.SRow K)} {irun : Fin N → ℤ}
    (hd : Legal o.fdir d) (hf : N ≤ fuel) (hfd : q.fdir = o.fdir) (hq : q.net = none)
    (hsa : o.source arg = .ok sa) (hqa : q.source none = .ok sa)
    (hp : builder limit fuel false nbs fa o arg active true many = .ok (o', b))
    (hs : q.builder limit fuel cfuel G none none none dflt true [] = .ok (q', rows, segs, irun)) :
    b.nsegments = segs.length ∧ (Headed o.fdir sa → b.nreaches = rows.length) ∧
      ∀ link ∈ b.rows, ∃ m : Fin N, link.down = ((m : ℕ) : ℤ) + 1 ∧
        (∀ r ∈ rows, r.node = ((m : ℕ) : ℤ) → r.iseg = link.strmseg) ∧
        (sa m = 0 → link.strmseg = 0 ∧ ∀ r ∈ rows, r.node ≠ ((m : ℕ) : ℤ)) ∧
        (Headed o.fdir sa → sa m ≠ 0 → link.strmseg ≠ 0 ∧
          (rows.map (fun r => (r.node, r.iseg))).count (((m : ℕ) : ℤ), link.strmseg) = 1 ∧
          ∃ g ∈ segs, g.nseg = link.strmseg) := by
  obtain ⟨out, ho, hperm, hlen, hkeys⟩ := sfr_builder hf hq hqa hs
  rw [hfd] at ho
  obtain ⟨_, _, c3, _, c5, sa', c6, c7⟩ := C88_consistent hd hf hsa hp
  obtain ⟨r1, r2, r3, r4, r5, r6⟩ := C56_rows hf ho
  have hsa' : sa' = out.sa := by
    obtain ⟨o1, g, sa1, h1, h2, _⟩ := builder_inv hp
    have h1' : connect limit fuel false o arg true = .ok
        ({ o with streamArray := some out.sa, graph := some (Vec.asGraph out.graph) }, out.sg) := by
      unfold connect; rw [if_pos rfl, hsa, Res.bind_ok, ho]; rfl
    rw [h1'] at h1
    simp only [Res.ok.injEq, Prod.mk.injEq] at h1
    obtain ⟨rfl, rfl⟩ := h1
    have h2' : getCascades limit nbs ⟨o.fdir, some out.sa, some (Vec.asGraph out.graph)⟩ (some out.sa) active
        many = .ok (o', b.rows) := h2
    have e := (rows_spec (o := ⟨o.fdir, some out.sa, some (Vec.asGraph out.graph)⟩) hd (by simp) h2').1
    rw [e] at c6
    exact (Option.some.inj c6).symm
  have hmem : ∀ (n : Fin N) (s : ℤ), (((n : ℕ) : ℤ), s) ∈ rows.map (fun r => (r.node, r.iseg)) ↔ ∃ r, (n, s, r) ∈ out.nsr := by
    intro n s
    rw [hperm.mem_iff, List.mem_map]
    constructor
    · rintro ⟨⟨n', s', r⟩, hx, he⟩
      simp only [Prod.mk.injEq] at he
      obtain ⟨h1, rfl⟩ := he
      obtain rfl : n' = n := Fin.ext (by exact_mod_cast h1)
      exact ⟨r, hx⟩
    · rintro ⟨r, hr⟩
      exact ⟨_, hr, rfl⟩
  have hn := C58_numbers hf ho
  refine ⟨by rw [c3, if_pos rfl, hlen, hn.2.1], fun hh => ?_, fun link hl => ?_⟩
  · rw [c5 (.inr hh)]
    have h1 : rows.length = out.nsr.length := by simpa using hperm.length_eq
    rw [h1]
    have h2 : out.nsr.length = (out.nsr.map Prod.fst).length := by simp
    rw [h2, ← List.toFinset_card_of_nodup r1]
    unfold nStream
    congr 1
    ext n
    simp only [Finset.mem_filter, Finset.mem_univ, true_and, List.mem_toFinset, List.mem_map]
    constructor
    · intro hs0
      obtain ⟨x, ⟨hx, hxn⟩, _⟩ := (C56_partition hf hh ho n).1 hs0
      exact ⟨x, hx, hxn⟩
    · rintro ⟨⟨n', s, r⟩, hx, rfl⟩
      exact (r3 n' s r hx).1
  · obtain ⟨n, m, hu, hv, hseg, _, _, h0, h1⟩ := c7 link hl
    rw [hsa'] at hseg
    have hr : ∀ r ∈ rows, r.node = ((m : ℕ) : ℤ) → sa m ≠ 0 ∧ r.iseg = link.strmseg := by
      intro r hr he
      obtain ⟨k, hk⟩ := (hmem m r.iseg).1 (List.mem_map.2 ⟨r, hr, by rw [he]⟩)
      obtain ⟨h2, h3, _⟩ := r3 _ _ _ hk
      exact ⟨h2, by rw [hseg, h3]⟩
    refine ⟨m, hv, fun r hr' he => (hr r hr' he).2, fun hz => ⟨h0 hz, fun r hr' he => (hr r hr' he).1 hz⟩, ?_⟩
    intro hh hz
    obtain ⟨⟨m', s, k⟩, ⟨hx, rfl⟩, _⟩ := (C56_partition hf hh ho m).1 hz
    obtain ⟨_, h3, _⟩ := r3 _ _ _ hx
    dsimp only at h3 hseg
    have hss : link.strmseg = s := by rw [hseg, h3]
    refine ⟨h1 (.inr hh) hz, ?_, ?_⟩
    · rw [hss, hperm.count_eq]
      apply List.count_eq_one_of_mem
      · have : (out.nsr.map (fun x => ((x.1 : ℕ) : ℤ))).Nodup := by
          have := r1.map (f := fun x : Fin N => ((x : ℕ) : ℤ)) (fun a b h => Fin.ext (by
            have h' : ((a : ℕ) : ℤ) = ((b : ℕ) : ℤ) := h
            exact_mod_cast h'))
          rwa [List.map_map] at this
        refine List.Nodup.of_map Prod.fst ?_
        rw [List.map_map]
        exact this
      · exact List.mem_map.2 ⟨_, hx, rfl⟩
    · rw [hss]
      exact (hkeys s).2 ((hn.2.2.2 s).2 ⟨_, _, hx⟩)

/-! ### Concrete case -/

/-- four unit cells in two rows -/
def sq : Rdata.SGrid 4 ℚ :=
  ⟨2, ![0, 1, 0, 1], ![1, 1, 0, 0], ![some 4, some 4, some 3, some 2], fun _ => 1, fun _ => 1, fun x => x⟩

/-- an SFR object with the directions and the stream array of `exObj` (0 and 1 meet in 2, then 3) -/
def exSfr : Rdata.Obj 4 := ⟨exObj.fdir, some ![1, 1, 1, 1], none⟩

/-- non-vacuity of `C164_coupling`: both builders return, and every hypothesis holds -/
example (nbs : Fin 4 → List (Fin 4 × Option ℝ)) (fa : Fa 4) (hfa : fa.fdir = exObj.fdir) :
    ∃ (r : Obj 4 × Builder 4) (t : Rdata.Obj 4 × List (Rdata.Row ℚ) × List (Rdata.SRow ℚ) × (Fin 4 → ℤ)),
      builder 10 10 false nbs fa exObj none (fun _ => true) true false = .ok r ∧
      exSfr.builder 10 10 40 sq none none none true true [] = .ok t ∧
      t.2.1.map (fun x => (x.node, x.iseg)) = [(1, 1), (0, 2), (2, 3), (3, 4)] ∧
      exObj.source none = .ok ![1, 1, 1, 1] ∧ exSfr.source none = .ok ![1, 1, 1, 1] ∧
      Headed exObj.fdir ![1, 1, 1, 1] := by
  obtain ⟨r, hr⟩ := C88_succeeds (limit := 10) (fuel := 10) (u := false) (nbs := nbs) (fa := fa) (o := exObj)
    (arg := none) (sa := ![1, 1, 1, 1]) (active := fun _ => true) (group := true) (many := false)
    exLegal ⟨_, hfa ▸ exLegal⟩ (by omega)
    (by
      rw [if_pos rfl]
      refine segsFit_of_count ?_
      have h1 := nSeg_le exObj.fdir ![1, 1, 1, 1]
      have h2 : nStream ![1, 1, 1, (1 : ℤ)] ≤ 4 := by decide +kernel
      omega) rfl (.inr rfl)
  obtain ⟨t, ht, e⟩ := Res.map_eq_ok.1 (show (exSfr.builder 10 10 40 sq none none none true true []).map
    (fun t => t.2.1.map (fun x => (x.node, x.iseg))) = .ok [(1, 1), (0, 2), (2, 3), (3, 4)] by decide +kernel)
  exact ⟨r, t, hr, ht, e, rfl, rfl, exHeaded⟩

end Dany.Prms
