import Verif.Pipe.Gsflow
import Verif.Pipe.Prune
import Verif.Float.Rect

/-!
# C211: the two halves of a GSFLOW model for any streams without gaps

`Sfr2005.get_pygsflow_builder_object` and `PrmsStreams.get_pygsflow_builder_object` (C168, C169) do not need streams
delineated by a threshold from the accumulation: a 0/1 stream array that never breaks off is enough.  Hence streams drawn by
hand, streams delineated and then pruned, and streams delineated in double precision are covered.
-/

namespace Dany.Pipe

open Flow Seg Relation

section Drawn

variable {N : ℕ} {K : Type*} [Field K] [LinearOrder K] [IsStrictOrderedRing K] {fdir sa : Fin N → ℤ} {d : Fin N → Fin N}

/-- a stream array: 1 on streams, 0 elsewhere, and the cell below a stream cell is a stream cell -/
structure Drawn (d : Fin N → Fin N) (sa : Fin N → ℤ) : Prop where
  marks : ∀ n, sa n = 1 ∨ sa n = 0
  on : ∀ n, sa n = 1 → sa (d n) = 1

/-- the area that marks the stream cells -/
def marked (K : Type*) [Field K] (sa : Fin N → ℤ) (n : Fin N) : K := if sa n = 1 then 1 else 0

theorem marked_nonneg (n : Fin N) : (0 : K) ≤ marked K sa n := by
  unfold marked; split <;> simp

/-- A stream array without gaps is the delineation, with threshold 1, of the number of stream cells upstream. -/
theorem drawn_delineated (hd : Legal fdir d) (hac : ∀ n, ¬ OnCycle d n) (hs : Drawn d sa) :
    ∃ facc : Fin N → K, Acc.flowAccumulation (N + 1) fdir (marked K sa) false = .ok facc ∧
      (∀ n, 1 ≤ facc n ↔ sa n = 1) ∧
      Delin.delineate (fun n => some (facc n)) (⟨fdir, none, none⟩ : Reach.Obj N) (.number 1) none =
        .ok (⟨fdir, some sa, none⟩, sa) := by
  obtain ⟨facc, hfacc⟩ := Acc.C31_terminates (fdir := fdir)
    (fun u => by have := hd u; have := (d u).isLt; omega) (marked K sa) false
  have hsum := fun n => (Acc.C32_upstream_sum hd.resolves (hfacc (N + 1) (by omega)) n (hac n)).1 rfl
  have hrun : ∀ u n, Reaches d u n → sa u = 1 → sa n = 1 := by
    rintro u n ⟨k, rfl⟩ hu
    induction k with
    | zero => exact hu
    | succ k ih => rw [Function.iterate_succ_apply']; exact hs.on _ ih
  have hiff : ∀ n, 1 ≤ facc n ↔ sa n = 1 := by
    intro n
    rw [hsum n]
    constructor
    · intro h
      by_contra hn
      have h0 : ∑ u ∈ upstream d n, marked K sa u = 0 := by
        refine Finset.sum_eq_zero fun u hu => ?_
        unfold marked
        rw [if_neg fun h => hn (hrun u n (mem_upstream.1 hu) h)]
      rw [h0] at h
      exact absurd h (not_le.2 one_pos)
    · intro h
      have h1 : marked K sa n = 1 := by unfold marked; rw [if_pos h]
      rw [← h1]
      exact Finset.single_le_sum (f := marked K sa) (fun u _ => marked_nonneg u) (mem_upstream.2 ⟨0, rfl⟩)
  refine ⟨facc, hfacc _ (by omega), hiff, ?_⟩
  obtain ⟨sa', e, hsa⟩ := Delin.C44_number (facc := fun n => some (facc n)) (o := (⟨fdir, none, none⟩ : Reach.Obj N)) (1 : K)
  have : sa' = sa := by
    funext n
    obtain ⟨h1, h2⟩ := hsa n
    simp only [Option.some.injEq, exists_eq_left', hiff n] at h2
    rcases h1 with h | h
    · rw [h, h2.1 h]
    · rcases hs.marks n with h' | h'
      · rw [h2.2 h'] at h; exact absurd h (by decide)
      · rw [h, h']
  subst this
  exact e

end Drawn

section Gsflow

/-- The two builder objects fit together.  Equally many segments; the runoff of a cell is sent to a segment exactly if the
outlet it drains to is a stream cell.  If every outlet on the stream receives another stream cell: equally many reaches; every
cascade link into a stream cell finds its cell once in the reach table and its segment in the segment table, every other link
names segment 0; and the segment that receives the runoff of a cell has a reach on the way of its water. -/
def Coupled {N : ℕ} {K : Type*} (d : Fin N → Fin N) (sa : Fin N → ℤ) (b : Prms.Builder N) (rows : List (Rdata.Row K))
    (segs : List (Rdata.SRow K)) (irun : Fin N → ℤ) : Prop :=
  b.nsegments = segs.length ∧
  (∀ u e, Reaches d u e → d e = e → (irun u ≠ 0 ↔ sa e = 1)) ∧
  ((∀ e, d e = e → sa e = 1 → ∃ m, m ≠ e ∧ d m = e ∧ sa m = 1) → b.nreaches = rows.length ∧
    (∀ link ∈ b.rows, ∃ m : Fin N, link.down = ((m : ℕ) : ℤ) + 1 ∧ (sa m = 1 →
      (rows.map (fun r => (r.node, r.iseg))).count (((m : ℕ) : ℤ), link.strmseg) = 1 ∧
      ∃ g ∈ segs, g.nseg = link.strmseg) ∧ (sa m = 0 → link.strmseg = 0)) ∧
    ∀ u, irun u ≠ 0 → ∃ row ∈ rows, row.iseg = irun u ∧ ∃ v : Fin N, row.node = ((v : ℕ) : ℤ) ∧ Reaches d u v)

variable {N : ℕ} {limit fuel cfuel : ℕ} {fdir sa : Fin N → ℤ} {d : Fin N → Fin N}

/-- **C211**, the SFR half: the builder returns if some stream cell flows to another cell and raises `IndexError` if none
does. -/
theorem C211_sfr (hd : Legal fdir d) (hac : ∀ n, ¬ OnCycle d n) (hs : Drawn d sa) (hf : N ≤ fuel) (hcf : N + 1 < cfuel)
    (hl : SegsFit fdir sa limit) {K : Type*} [Field K] [LinearOrder K] (G : Rdata.SGrid N K) (dflt : Bool) :
    ((∃ n, d n ≠ n ∧ sa n = 1) → ∃ r,
      (⟨fdir, some sa, none⟩ : Rdata.Obj N).builder limit fuel cfuel G none none none dflt true [] = .ok r) ∧
    ((∀ n, sa n = 1 → d n = n) →
      (⟨fdir, some sa, none⟩ : Rdata.Obj N).builder limit fuel cfuel G none none none dflt true [] =
        .err .indexError) := by
  obtain ⟨facc, hfacc, hiff, hdl⟩ := drawn_delineated (K := ℚ) hd hac hs
  obtain ⟨h1, h2⟩ := C168_sfr hd hac (fun u => marked_nonneg (K := ℚ) u) hfacc rfl hdl hf hcf hl G dflt
  exact ⟨fun ⟨n, hn, hns⟩ => h1 ⟨n, hn, (hiff n).2 hns⟩, fun h => h2 fun n hn => h n ((hiff n).1 hn)⟩

/-- **C211.**  On flow directions without circles and any streams that never break off, at least one stream cell flowing to
another cell, both builders of the pyGSFLOW interface return (grouped segments, the default), and fit together. -/
theorem C211_both (hd : Legal fdir d) (hac : ∀ n, ¬ OnCycle d n) (hends : ∀ n, ∃ e, Reaches d n e ∧ d e = e)
    (hs : Drawn d sa) (hf : N ≤ fuel) (hcf : N + 1 < cfuel) (hl : SegsFit fdir sa limit) (hst : ∃ n, d n ≠ n ∧ sa n = 1)
    (G : Rdata.SGrid N ℝ) (nbs : Fin N → List (Fin N × Option ℝ)) (fa : Prms.Fa N) (hfa : fa.fdir = fdir)
    (active : Fin N → Bool) (many dflt : Bool) :
    ∃ o' b q' rows segs irun,
      Prms.builder limit fuel false nbs fa ⟨fdir, some sa, none⟩ none active true many = .ok (o', b) ∧
      (⟨fdir, some sa, none⟩ : Rdata.Obj N).builder limit fuel cfuel G none none none dflt true [] =
        .ok (q', rows, segs, irun) ∧ Coupled d sa b rows segs irun := by
  obtain ⟨facc, hfacc, hiff, hdl⟩ := drawn_delineated (K := ℝ) hd hac hs
  have hpos := fun u => marked_nonneg (K := ℝ) (sa := sa) u
  obtain ⟨o', b, q', rows, segs, irun, hb, hq, k1, k2⟩ := C168_both hd hac hpos hfacc rfl hdl hf hcf hl
    (by obtain ⟨n, hn, h⟩ := hst; exact ⟨n, hn, (hiff n).2 h⟩) G nbs fa hfa active many dflt
  refine ⟨o', b, q', rows, segs, irun, hb, hq, k1, fun u e hue he => ?_, fun htrib => ?_⟩
  · exact (C169_exact hd hac hpos hfacc rfl hdl hf hcf hq hue he).1.trans (hiff e)
  · have htrib' : ∀ e, d e = e → 1 ≤ facc e → ∃ m, m ≠ e ∧ d m = e ∧ 1 ≤ facc m := by
      intro e he hee
      obtain ⟨m, h1, h2, h3⟩ := htrib e he ((hiff e).1 hee)
      exact ⟨m, h1, h2, (hiff m).2 h3⟩
    obtain ⟨k3, k4⟩ := k2 htrib'
    refine ⟨k3, fun link hlink => ?_, fun u hu => ?_⟩
    · obtain ⟨m, h1, h2, h3⟩ := k4 link hlink
      refine ⟨m, h1, fun h => h2 ((hiff m).2 h), fun h => h3 (not_le.1 fun hc => ?_)⟩
      rw [(hiff m).1 hc] at h
      exact absurd h (by decide)
    · exact C169_partial hd hends hac hpos hfacc rfl hdl hf hcf hq htrib' u hu

/-! Where streams without gaps come from -/

/-- **C211**, pruning.  Cutting streams without gaps back from their sources leaves streams without gaps. -/
theorem C211_pruned {sb : Fin N → ℤ} (hs : Drawn d sa) (hp : Pruned d sa sb) (hb : ∀ n, sb n = 1 ∨ sb n = 0) :
    Drawn d sb := by
  refine ⟨hb, fun n hn => ?_⟩
  obtain ⟨h1, h2⟩ := hp n (by rw [hn]; decide)
  have := h2 (by rw [hs.on n ((hs.marks n).resolve_right h1)]; decide)
  exact (hb _).resolve_right this

/-- **C211**, delineation.  `delineate_streams` with a threshold for every cell that does not rise downstream, and a boundary
that the water does not leave, gives streams without gaps. -/
theorem C211_thresholds {K : Type*} [Field K] [LinearOrder K] [IsStrictOrderedRing K] (hd : Legal fdir d)
    (hac : ∀ n, ¬ OnCycle d n) {area facc : Fin N → K} (hpos : ∀ u, 0 ≤ area u) {afuel : ℕ}
    (ho : Acc.flowAccumulation afuel fdir area false = .ok facc) {t : Fin N → K} (ht : ∀ n, t (d n) ≤ t n)
    {b : Fin N → ℤ} (hb : ∀ n, b n ≠ 0 → b (d n) ≠ 0) {ob : Reach.Obj N} :
    ∃ sa, Delin.delineate (fun n => some (facc n)) ob (.array (List.ofFn fun n => some (t n))) (some (List.ofFn b)) =
        .ok (ob.setStream sa, sa) ∧ Drawn d sa ∧ ∀ n, sa n = 1 ↔ t n ≤ facc n ∧ b n ≠ 0 := by
  obtain ⟨sa, e, hsa⟩ := Delin.C44_arrays (facc := fun n => some (facc n)) (o := ob)
    (t := List.ofFn fun n => some (t n)) (b := List.ofFn b) (by simp) (by simp)
  have hiff : ∀ n, sa n = 1 ↔ t n ≤ facc n ∧ b n ≠ 0 := by
    intro n
    rw [(hsa n).2]
    simp
  refine ⟨sa, e, ⟨fun n => (hsa n).1, fun n hn => ?_⟩, hiff⟩
  rw [hiff] at hn ⊢
  refine ⟨?_, hb n hn.2⟩
  by_cases hself : d n = n
  · rw [hself]; exact hn.1
  · have := Acc.C34_grows_downstream hd.resolves hpos ho n (hac n) hself
    have := hpos (d n)
    have := ht n
    have := hn.1
    linarith

/-! In double precision -/

/-- **C211**, double precision.  Streams delineated from areas added up in `float64` have no gaps, so that both builders
return and fit together. -/
theorem C211_double (hd : Legal fdir d) (hac : ∀ n, ¬ OnCycle d n) (hends : ∀ n, ∃ e, Reaches d n e ∧ d e = e)
    {area : Fin N → Float.double.Num} (hpos : ∀ u, 0 ≤ (area u).val) (asCells : Bool) :
    ∃ facc, (∀ fuel, N < fuel → Acc.flowAccumulation fuel fdir area asCells = .ok facc) ∧
      ∀ c : Float.double.Num, ∃ sa, Delin.delineate (fun n => some (facc n)) ⟨fdir, none, none⟩ (.number c) none =
          .ok (⟨fdir, some sa, none⟩, sa) ∧ (∀ n, sa n = 1 ↔ c.val ≤ (facc n).val) ∧ Drawn d sa ∧
        ((∃ n, d n ≠ n ∧ c.val ≤ (facc n).val) → ∀ limit fuel cfuel, N ≤ fuel → N + 1 < cfuel → SegsFit fdir sa limit →
          ∀ (G : Rdata.SGrid N ℝ) (nbs : Fin N → List (Fin N × Option ℝ)) (fa : Prms.Fa N), fa.fdir = fdir →
          ∀ active many dflt, ∃ o' b q' rows segs irun,
            Prms.builder limit fuel false nbs fa ⟨fdir, some sa, none⟩ none active true many = .ok (o', b) ∧
            (⟨fdir, some sa, none⟩ : Rdata.Obj N).builder limit fuel cfuel G none none none dflt true [] =
              .ok (q', rows, segs, irun) ∧ Coupled d sa b rows segs irun) := by
  obtain ⟨facc, h⟩ := Float.C114_terminates (fdir := fdir)
    (fun u => by have := hd u; have := (d u).isLt; omega) area asCells
  refine ⟨facc, h, fun c => ?_⟩
  obtain ⟨sa, e, hsa⟩ := Delin.C44_number (facc := fun n => some (facc n)) (o := (⟨fdir, none, none⟩ : Reach.Obj N)) c
  have hiff : ∀ n, sa n = 1 ↔ c.val ≤ (facc n).val := by
    intro n
    rw [(hsa n).2]
    simp only [Option.some.injEq, exists_eq_left']
    rfl
  have hs : Drawn d sa := ⟨fun n => (hsa n).1, fun n hn =>
    Float.C115_to_outlet (o := ⟨fdir, none, none⟩) hd.resolves hpos (h (N + 1) (by omega)) e hac hn ⟨1, rfl⟩⟩
  refine ⟨sa, e, hiff, hs, ?_⟩
  rintro ⟨n, hn, hnc⟩ limit fuel cfuel hf hcf hl G nbs fa hfa active many dflt
  exact C211_both hd hac hends hs hf hcf hl ⟨n, hn, (hiff n).2 hnc⟩ G nbs fa hfa active many dflt

end Gsflow

section Structured

variable {nrow ncol : ℕ} {g : Flood.Grid (nrow * ncol)} {L : Layout nrow ncol} {G : Dirs.Geo (nrow * ncol) ℚ} {b δ : ℝ}

/-- **C211**, structured grids.  From a `float64` DEM on a structured grid (C162) on: fill the sinks, name the edge cells
without lower neighbour terminal, route, add up areas and delineate streams by a threshold, all in double precision; then
both builders of the pyGSFLOW interface return and fit together, provided some stream cell flows to another cell and the
recursion limit exceeds the number of segments. -/
theorem C211_structured (hM : Float.Measured L G b δ) (hq : Queen g) (hv : g.iverts = Edge.structuredVerts nrow ncol)
    (h2 : 2 ≤ nrow * ncol) (hN : nrow * ncol < 1000000) {dem : Fin (nrow * ncol) → Float.double.Num} {pr : Float.Promo}
    {lo hi D thr : ℚ} (hlo : ∀ n, lo ≤ (dem n).val) (hhi : ∀ n, (dem n).val ≤ hi)
    (hdem : ∀ n, |(dem n).val| ≤ 9 * 10 ^ 9) (hgr : ∀ n, Float.Grain (dem n).val) (hD : D ∈ Float.Double)
    (hrel : hi + 24 - lo ≤ D) (hDb : (D : ℝ) ≤ 2 * 10 ^ 9 * b) :
    ∃ f out, (∀ fuel, nrow * ncol + 1 ≤ fuel →
        Float.fillSinksF fuel Float.double pr Float.eps6 g dem none "priority" = .ok f) ∧
      (∀ fuel, 10 * (nrow * ncol) + 11 ≤ fuel → Dirs.flowDirections fuel G (Dirs.filled f) (10 ^ 10)
        (Dirs.table (nbrs g)) thr (ends g none f) = .ok out) ∧
      (Dirs.CleanEnds G (Dirs.filled f) thr (ends g none f) (nbrs g) →
        ∃ d : Fin (nrow * ncol) → Fin (nrow * ncol), Legal out d ∧
          ∀ area : Fin (nrow * ncol) → Float.double.Num, (∀ u, 0 ≤ (area u).val) → ∀ asCells,
          ∃ facc, (∀ fuel, nrow * ncol < fuel → Acc.flowAccumulation fuel out area asCells = .ok facc) ∧
            ∀ c : Float.double.Num, ∃ sa, Delin.delineate (fun n => some (facc n)) ⟨out, none, none⟩ (.number c) none =
                .ok (⟨out, some sa, none⟩, sa) ∧ (∀ n, sa n = 1 ↔ c.val ≤ (facc n).val) ∧
              ((∃ n, out n ≠ ((n : ℕ) : ℤ) ∧ c.val ≤ (facc n).val) → ∀ limit, nSeg out sa + 1 ≤ limit →
                ∀ (Gr : Rdata.SGrid (nrow * ncol) ℝ) (nbs : Fin (nrow * ncol) → List (Fin (nrow * ncol) × Option ℝ))
                  (fa : Prms.Fa (nrow * ncol)), fa.fdir = out →
                ∀ active many dflt fuel, nrow * ncol + 2 ≤ fuel → ∃ o' bd q' rows segs irun,
                  Prms.builder limit fuel false nbs fa ⟨out, some sa, none⟩ none active true many = .ok (o', bd) ∧
                  (⟨out, some sa, none⟩ : Rdata.Obj (nrow * ncol)).builder limit fuel fuel Gr none none none dflt true [] =
                    .ok (q', rows, segs, irun) ∧ Coupled d sa bd rows segs irun)) := by
  obtain ⟨f, out, hf, _, hout, hend⟩ := Float.C162_chain (pr := pr) (thr := thr) hM hq hv h2 hN hlo hhi hdem hgr hD hrel hDb
  refine ⟨f, out, hf, hout, fun hclean => ?_⟩
  obtain ⟨d, hd, hac, _, hends⟩ := hend hclean
  refine ⟨d, hd, fun area hpos asCells => ?_⟩
  obtain ⟨facc, hfacc, h⟩ := C211_double hd hac (fun n => by
    obtain ⟨e, e1, e2, _⟩ := hends n
    exact ⟨e, e1, e2⟩) hpos asCells
  refine ⟨facc, hfacc, fun c => ?_⟩
  obtain ⟨sa, e, hiff, _, hb⟩ := h c
  refine ⟨sa, e, hiff, ?_⟩
  rintro ⟨n, hn, hnc⟩ limit hlim Gr nbs fa hfa active many dflt fuel hfuel
  exact hb ⟨n, fun h => hn (by rw [hd n, h]), hnc⟩ limit fuel fuel (by omega) (by omega) (segsFit_of_count hlim) Gr nbs fa
    hfa active many dflt

end Structured

/-! ### Concrete cases -/

/-- the streams 1 → 2 and 4 → 3 of the row of five cells of `Gsflow.lean`, drawn by hand -/
def drawn5 : Fin 5 → ℤ := ![0, 1, 1, 1, 1]

theorem isDrawn5 : Drawn nx5 drawn5 := ⟨by decide, by decide⟩

theorem ends5 : ∀ n : Fin 5, ∃ e, Reaches nx5 n e ∧ nx5 e = e := by
  intro n
  refine ⟨nx5^[2] n, ⟨2, rfl⟩, ?_⟩
  revert n; decide

theorem segs5 (sa : Fin 5 → ℤ) : SegsFit fd5 sa 9 := segsFit_of_count (by
  have h1 := Prms.nSeg_le fd5 sa
  have h2 : Reach.nStream sa ≤ 5 := by
    unfold Reach.nStream
    exact (Finset.card_le_univ _).trans (by simp)
  omega)

/-- these streams are no threshold's of the numbers of cells upstream: cell 0 has as many as cell 4 -/
example : ¬ ∃ c : ℚ, ∀ n, drawn5 n = 1 ↔ c ≤ facc5 n := by
  rintro ⟨c, hc⟩
  have h0 : ¬ c ≤ facc5 0 := fun h => absurd ((hc 0).2 h) (by decide)
  exact h0 ((hc 4).1 (by decide))

def Gr5 : Rdata.SGrid 5 ℝ :=
  ⟨5, fun n => n.val, fun _ => 0, fun n => some (5 - n.val), fun _ => 1, fun _ => 1, fun x => x⟩

/-- hypotheses of C211_both: both builders return, the tables have four reaches, and the runoff of all cells finds its river -/
example (nbs : Fin 5 → List (Fin 5 × Option ℝ)) (fa : Prms.Fa 5) (hfa : fa.fdir = fd5) (active : Fin 5 → Bool)
    (many dflt : Bool) : ∃ o' b q' rows segs irun,
      Prms.builder 9 9 false nbs fa ⟨fd5, some drawn5, none⟩ none active true many = .ok (o', b) ∧
      (⟨fd5, some drawn5, none⟩ : Rdata.Obj 5).builder 9 9 9 Gr5 none none none dflt true [] = .ok (q', rows, segs, irun) ∧
      b.nsegments = segs.length ∧ b.nreaches = rows.length ∧
      ∀ u, irun u ≠ 0 ∧ ∃ row ∈ rows, row.iseg = irun u ∧ ∃ v : Fin 5, row.node = ((v : ℕ) : ℤ) ∧ Reaches nx5 u v := by
  obtain ⟨o', b, q', rows, segs, irun, hb, hq, k1, k2, k3⟩ := C211_both (fuel := 9) (cfuel := 9) legal5 acyclic5 ends5
    isDrawn5 (by norm_num) (by norm_num) (segs5 _) ⟨1, by decide, by decide⟩ Gr5 nbs fa hfa active many dflt
  obtain ⟨k4, _, k6⟩ := k3 (by decide)
  refine ⟨o', b, q', rows, segs, irun, hb, hq, k1, k4, fun u => ?_⟩
  have h0 : irun u ≠ 0 := (k2 u (nx5^[2] u) ⟨2, rfl⟩ (by revert u; decide)).2 (by revert u; decide)
  exact ⟨h0, k6 u h0⟩

/-- with streams that are outlets only the SFR builder fails -/
example : (⟨fd5, some ![0, 0, 1, 1, 0], none⟩ : Rdata.Obj 5).builder 9 9 9 G5 none none none true true [] =
    .err .indexError :=
  (C211_sfr legal5 acyclic5 ⟨by decide, by decide⟩ (by norm_num) (by norm_num) (segs5 _) G5 true).2 (by decide)

/-- the run itself: four reaches, each outlet a segment of its own -/
theorem C211_concrete :
    ((⟨fd5, some drawn5, none⟩ : Rdata.Obj 5).builder 9 9 9 G5 none none none true true []).map
      (fun r => (r.2.1.map (fun x => (x.node, x.iseg)), List.ofFn r.2.2.2)) =
      .ok ([(4, 1), (3, 2), (1, 3), (2, 4)], [3, 4, 4, 2, 1]) := by
  decide +kernel

end Dany.Pipe
