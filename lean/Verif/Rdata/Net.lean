import Verif.Rdata.Lemmas

/-!
# The networks `_mf2005_stream_connectivity` stores
-/

namespace Dany.Rdata

open Function Reach Seg

variable {N : ℕ} {fdir sa : Fin N → ℤ} {limit fuel : ℕ} {b : Bool} {out : Out N}

theorem path_chain {nx : Fin N → Option (Fin N)} {R : Fin N → Fin N → Prop} {a : Fin N} {p : List (Fin N)}
    (h : Path nx a p) (hR : ∀ x y, nx x = some y → R x y) : List.IsChain R p := by
  induction h with
  | last _ => exact List.isChain_singleton _
  | @step a c p hc hp ih =>
    obtain ⟨q, rfl⟩ := hp.head
    exact List.isChain_cons_cons.2 ⟨hR _ _ hc, ih⟩

theorem isNet_grouped (hf : N ≤ fuel)
    (hout : mf2005 limit fuel b fdir sa true = .ok out) : ∃ ss, IsNet fdir sa out.sg out.nsr ss := by
  obtain ⟨ss, sn, h1, h2, h3, h4, h5, h6, -, -, -, -⟩ := grouped_out hf hout
  have hlen : ss.length = nSeg fdir sa := by
    have := (C58_numbers hf hout).2.1
    rw [h5] at this
    simpa using this
  refine ⟨ss.map (fun a => (sn a, outOf fdir sa sn a, seg fdir sa a)), ?_, ?_, ?_, ?_, ?_, ?_, ?_, ?_, ?_⟩
  · rw [h5, List.map_map]; rfl
  · rw [h6, List.flatMap_map]
  · rw [List.map_map]
    exact h1.map_on (fun x hx y hy h => h4 x y ((h2 x).1 hx) ((h2 y).1 hy) h)
  · intro t ht
    obtain ⟨a, ha, rfl⟩ := List.mem_map.1 ht
    exact (h3 a ((h2 a).1 ha)).1
  · intro t ht
    obtain ⟨a, ha, rfl⟩ := List.mem_map.1 ht
    rw [List.length_map, hlen]
    exact (h3 a ((h2 a).1 ha)).2
  · intro t ht
    obtain ⟨a, ha, rfl⟩ := List.mem_map.1 ht
    exact (seg_path ((h2 a).1 ha)).ne_nil
  · intro t ht c hc
    obtain ⟨a, ha, rfl⟩ := List.mem_map.1 ht
    exact seg_stream ((h2 a).1 ha) hc
  · intro t ht
    obtain ⟨a, ha, rfl⟩ := List.mem_map.1 ht
    exact path_chain (seg_path ((h2 a).1 ha)) (fun x y h => (nx_some.1 h).1)
  · intro t ht c hc
    obtain ⟨a, ha, rfl⟩ := List.mem_map.1 ht
    have hs := (h2 a).1 ha
    have hlast : c = segLast fdir sa a := by
      rw [segLast_eq hs]
      rw [List.getLast?_eq_some_getLast (seg_path hs).ne_nil] at hc
      exact (Option.some.inj hc).symm
    have hstream : sa c ≠ 0 := by
      rw [hlast, segLast_eq hs]; exact seg_stream hs (List.getLast_mem _)
    dsimp only
    unfold outOf
    rw [← hlast]
    cases hd : dn fdir sa c with
    | none => exact .inl ⟨rfl, fun m hm => absurd hm ((dn_none hstream).1 hd m)⟩
    | some m =>
      right
      have hfeed := (dn_feeds hstream).1 hd
      have hm : Start fdir sa m := by
        by_contra hc'
        have := (seg_path hs).getLast
        rw [← segLast_eq hs, ← hlast, nx_some.2 ⟨hfeed, hc'⟩] at this
        cases this
      dsimp only
      refine ⟨by have := (h3 m hm).1; omega, _, List.mem_map.2 ⟨m, (h2 m).2 hm, rfl⟩, rfl, m, ?_, hfeed⟩
      obtain ⟨q, hq⟩ := (seg_path hm).head
      rw [hq]; rfl

/-- outflow of a cell that is its own segment -/
def outCodeU (fdir sa sn : Fin N → ℤ) (n : Fin N) : ℤ :=
  match dn fdir sa n with
  | none => 0
  | some m => if m = n then 0 else sn m

theorem isNet_ungrouped (hout : mf2005 limit fuel b fdir sa false = .ok out) : ∃ ss, IsNet fdir sa out.sg out.nsr ss := by
  obtain ⟨L, hl, _, hout⟩ := mf2005_lift hout
  obtain ⟨sn, sa', nsr, sg, e, hnsr, hsg, hz, hv, hr, hinj, hord⟩ :=
    ungrouped_main (fdir := fdir) (fuel := fuel) (sa := sa) hl
  have ho : out = ⟨sa', cellGraph fdir sa, sg, nsr⟩ := by
    have := e b
    rw [hout] at this
    unfold reshapeCheck at this
    split at this
    · cases this
    · exact Res.ok.inj this
  have hcode : ∀ n, (match dn fdir sa n with
        | none => 0
        | some m => if m = n then 0 else sn m) = outCodeU fdir sa sn n := fun n => rfl
  subst ho
  refine ⟨(strmNodes sa).map (fun n => (sn n, outCodeU fdir sa sn n, [n])), ?_, ?_, ?_, ?_, ?_, ?_, ?_, ?_, ?_⟩
  · dsimp only
    rw [hsg, List.map_map]; rfl
  · dsimp only
    rw [hnsr, List.flatMap_map, List.map_eq_flatMap]; rfl
  · rw [List.map_map]
    exact (strmNodes_nodup sa).map_on
      (fun x hx y hy h => hinj x y (mem_strmNodes.1 hx) (mem_strmNodes.1 hy) h)
  · intro t ht
    obtain ⟨a, ha, rfl⟩ := List.mem_map.1 ht
    exact (hr a (mem_strmNodes.1 ha)).1
  · intro t ht
    obtain ⟨a, ha, rfl⟩ := List.mem_map.1 ht
    rw [List.length_map]
    exact (hr a (mem_strmNodes.1 ha)).2
  · intro t ht
    obtain ⟨a, ha, rfl⟩ := List.mem_map.1 ht
    simp
  · intro t ht c hc
    obtain ⟨a, ha, rfl⟩ := List.mem_map.1 ht
    rw [List.mem_singleton] at hc
    subst hc
    exact mem_strmNodes.1 ha
  · intro t ht
    obtain ⟨a, ha, rfl⟩ := List.mem_map.1 ht
    exact List.isChain_singleton _
  · intro t ht c hc
    obtain ⟨a, ha, rfl⟩ := List.mem_map.1 ht
    simp only [List.getLast?_singleton, Option.some.injEq] at hc
    subst hc
    have hs := mem_strmNodes.1 ha
    dsimp only
    unfold outCodeU
    cases hd : dn fdir sa a with
    | none => exact .inl ⟨rfl, fun m hm => absurd hm ((dn_none hs).1 hd m)⟩
    | some m =>
      have hfeed := (dn_feeds hs).1 hd
      dsimp only
      by_cases hma : m = a
      · left
        rw [if_pos hma]
        refine ⟨rfl, fun k hk => ?_⟩
        rw [feeds_fun hk hfeed, hma]
      · right
        rw [if_neg hma]
        exact ⟨by have := (hr m hfeed.2.1).1; omega, _,
          List.mem_map.2 ⟨m, mem_strmNodes.2 hfeed.2.1, rfl⟩, rfl, m, rfl, hfeed⟩

theorem nSeg_le (fdir sa : Fin N → ℤ) : nSeg fdir sa ≤ N := by
  classical
  unfold nSeg
  exact (Finset.card_le_univ _).trans (by simp)

theorem nStream_le (sa : Fin N → ℤ) : nStream sa ≤ N := by
  unfold nStream
  exact (Finset.card_le_univ _).trans (by simp)

theorem isNet_out {grp : Bool} (hf : N ≤ fuel)
    (hout : mf2005 limit fuel b fdir sa grp = .ok out) : ∃ ss, IsNet fdir sa out.sg out.nsr ss := by
  cases grp with
  | true => exact isNet_grouped hf hout
  | false => exact isNet_ungrouped hout

end Dany.Rdata
