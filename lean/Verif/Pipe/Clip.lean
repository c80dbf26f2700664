import Verif.Pipe.River
import Verif.Pipe.Drawn

/-!
# C212: the two halves of a GSFLOW model of one watershed

Streams clipped to the watershed of a cell `p` (`delineate_streams(..., basin_boundary=...)`, C182) break off at `p` if `p`
flows on to a cell outside.  What then becomes of `Sfr2005.get_pygsflow_builder_object` and
`PrmsStreams.get_pygsflow_builder_object`.
-/

namespace Dany.Pipe

open Flow Seg Relation

section River

variable {N : ℕ} {limit fuel cfuel : ℕ} {fdir sa : Fin N → ℤ} {d : Fin N → Fin N} {p : Fin N} {out : Out N}

theorem feeds_eq (hd : Legal fdir d) {n m : Fin N} (h : Feeds fdir sa n m) : d n = m :=
  Fin.ext (by have h1 := h.2.2; rw [hd n] at h1; exact_mod_cast h1)

/-- the outseg of the last segment of a river is 0 exactly if the mouth flows on -/
theorem river_zero (hd : Legal fdir d) (hp : ¬ OnCycle d p) (hr : River d sa p) (hex : ∃ n, sa n ≠ 0 ∧ n ≠ p) {b : Bool}
    (hf : N ≤ fuel) (h : mf2005 limit fuel b fdir sa true = .ok out) (s : ℤ) :
    out.sg.get? s = some 0 ↔ s = nSeg fdir sa ∧ d p ≠ p := by
  obtain ⟨_, ⟨r, hpr, hlast⟩, _, hsmall⟩ := C182_mf2005 hd hp hr hex hf h
  obtain ⟨_, _, hk, _⟩ := C58_numbers hf h
  have hsp : sa p ≠ 0 := ((C56_rows hf h).2.2.1 _ _ _ hpr).1
  have hself : out.sg.get? (nSeg fdir sa) = some 0 ↔ d p ≠ p := by
    rcases C57_outseg hf h hpr with ⟨m, hm, _⟩ | ⟨_, t, ht, hcase⟩
    · exact absurd hm (hlast m)
    · rw [ht, Option.some.injEq]
      rcases hcase with ⟨h0, hno⟩ | ⟨h0, m, hm, _⟩
      · refine ⟨fun _ hpp => hno p ⟨hsp, hsp, by rw [hd p, hpp]⟩, fun _ => h0⟩
      · refine ⟨fun h => absurd h h0, fun hpp => ?_⟩
        have e := feeds_eq hd hm
        have : m = p := Reaches.antisymm hp (hr m hm.2.1).1 ⟨1, e⟩
        exact absurd (e.trans this) hpp
  constructor
  · intro h0
    have hs := (hk s).1 (Dict.mem_keys_iff.2 ⟨_, h0⟩)
    have : s = nSeg fdir sa := by
      by_contra hne
      obtain ⟨t, ht, hlt, _⟩ := hsmall s hs.1 (by omega)
      rw [h0, Option.some.injEq] at ht
      omega
    exact ⟨this, hself.1 (this ▸ h0)⟩
  · rintro ⟨rfl, hpp⟩
    exact hself.2 hpp

/-- every stream cell of a river of at least two cells lies downstream of a headwater -/
theorem river_headed (hd : Legal fdir d) (hp : ¬ OnCycle d p) (hr : River d sa p) (hex : ∃ n, sa n ≠ 0 ∧ n ≠ p) :
    Prms.Headed fdir sa := by
  intro n hn
  by_cases hne : n = p
  · subst hne
    obtain ⟨x, hx, hxp⟩ := hex
    have : ∃ m, sa m ≠ 0 ∧ m ≠ n ∧ d m = n := by
      obtain ⟨k, hk⟩ := (hr x hx).1
      induction k generalizing x with
      | zero => exact absurd hk hxp
      | succ k ih =>
        by_cases h1 : d x = n
        · exact ⟨x, hx, hxp, h1⟩
        · exact ih (d x) ((hr x hx).2 hxp) h1 (by rwa [Function.iterate_succ_apply] at hk)
    obtain ⟨m, h1, h2, h3⟩ := this
    obtain ⟨w, hw, hwm⟩ := hr.headed hd hp h1 h2
    exact ⟨w, hw, hwm.tail ⟨h1, hn, by rw [hd m, h3]⟩⟩
  · exact hr.headed hd hp hn hne

/-- What `irunbnd` is on streams every cell of which lies downstream of a headwater: it is nonzero at the cells whose water
comes to a stream cell, and names the segment of a reach on the way of the water. -/
theorem C212_irunbnd (hd : Legal fdir d) (hh : Prms.Headed fdir sa) (hf : N ≤ fuel) (hcf : N + 1 < cfuel)
    {K : Type*} [Field K] [LinearOrder K] {G : Rdata.SGrid N K} {dflt : Bool}
    {q' : Rdata.Obj N} {rows : List (Rdata.Row K)} {segs : List (Rdata.SRow K)} {irun : Fin N → ℤ}
    (h : (⟨fdir, some sa, none⟩ : Rdata.Obj N).builder limit fuel cfuel G none none none dflt true [] =
      .ok (q', rows, segs, irun)) (u : Fin N) :
    (irun u ≠ 0 ↔ ∃ s, sa s ≠ 0 ∧ Reaches d u s) ∧
    (irun u ≠ 0 → ∃ row ∈ rows, row.iseg = irun u ∧ ∃ v : Fin N, row.node = ((v : ℕ) : ℤ) ∧ Reaches d u v) := by
  obtain ⟨out, hout, hperm, _, _⟩ := Prms.sfr_builder hf rfl rfl h
  rw [show (⟨fdir, some sa, none⟩ : Rdata.Obj N).fdir = fdir from rfl] at hout
  obtain ⟨o1, tbl, h1⟩ : ∃ o1 tbl, (⟨fdir, some sa, none⟩ : Rdata.Obj N).reachData limit fuel G none true = .ok (o1, tbl) := by
    unfold Rdata.Obj.builder at h
    obtain ⟨_, _, h⟩ := Res.bind_eq_ok.1 h
    obtain ⟨⟨o1, tbl⟩, h1, _⟩ := Res.bind_eq_ok.1 h
    exact ⟨o1, tbl, h1⟩
  have hir : Irun.irunbnd cfuel fdir out.sa = .ok irun := by
    obtain ⟨rows', segs', irun', out', hb, ho', hir⟩ := sfr_returns dflt hf hcf rfl rfl h1
    rw [h] at hb
    simp only [Res.ok.injEq, Prod.mk.injEq] at hb
    rw [show (⟨fdir, some sa, none⟩ : Rdata.Obj N).fdir = fdir from rfl] at ho' hir
    rw [hout, Res.ok.injEq] at ho'
    rw [ho', hb.2.2.2]; exact hir
  have hinto : ∀ x y, Irun.Into fdir x y ↔ d x = y := by
    intro x y
    unfold Irun.Into
    rw [hd x]
    constructor
    · intro h; exact Fin.ext (by exact_mod_cast h)
    · rintro rfl; rfl
  have hdown : ∀ x y, Irun.Down fdir x y ↔ Reaches d x y := by
    intro x y
    constructor
    · intro h
      induction h with
      | refl => exact Reaches.refl _
      | tail _ h ih => exact ih.trans ⟨1, (hinto _ _).1 h⟩
    · rintro ⟨k, rfl⟩
      induction k with
      | zero => exact ReflTransGen.refl
      | succ k ih =>
        rw [Function.iterate_succ_apply']
        exact ReflTransGen.tail ih ((hinto _ _).2 rfl)
  obtain ⟨r1, r2, r3, r4, r5, r6⟩ := C56_rows hf hout
  obtain ⟨n1, n2, n3, n4⟩ := C58_numbers hf hout
  have hlist : ∀ s, sa s ≠ 0 → ∃ r, (s, out.sa s, r) ∈ out.nsr := by
    intro s hs
    obtain ⟨w, hw, hws⟩ := hh s hs
    obtain ⟨t, r, hr⟩ := (r2 s).2 ⟨w, .inl hw, hws⟩
    rw [(r3 _ _ _ hr).2.1]
    exact ⟨r, hr⟩
  have hgets : ∀ s, Irun.Gets fdir out.sa u s ↔ sa s ≠ 0 ∧ Reaches d u s := by
    intro s
    unfold Irun.Gets
    rw [hdown]
    constructor
    · rintro ⟨h0, h1⟩
      refine ⟨fun hs => ?_, h1⟩
      rw [r4 s hs] at h0
      exact lt_irrefl _ h0
    · rintro ⟨hs, h1⟩
      obtain ⟨r, hr⟩ := hlist s hs
      have := ((n3 _).1 ((n4 _).2 ⟨s, r, hr⟩)).1
      exact ⟨by omega, h1⟩
  obtain ⟨ir, hir', hx⟩ := Irun.C65_path (fdir := fdir) (sa := out.sa) hcf
  rw [hir, Res.ok.injEq] at hir'
  subst hir'
  obtain ⟨x1, x2⟩ := hx u
  simp only [hgets] at x1 x2
  refine ⟨x1, fun h0 => ?_⟩
  obtain ⟨s, ⟨hs, hus⟩, hseg⟩ := x2 (x1.1 h0)
  obtain ⟨r, hr⟩ := hlist s hs
  have : (((s : ℕ) : ℤ), out.sa s) ∈ rows.map (fun r => (r.node, r.iseg)) :=
    hperm.mem_iff.2 (List.mem_map.2 ⟨_, hr, rfl⟩)
  obtain ⟨row, hrow, hre⟩ := List.mem_map.1 this
  simp only [Prod.mk.injEq] at hre
  exact ⟨row, hrow, by rw [hre.2, hseg], s, hre.1, hus⟩

/-- **C212** (the SFR half), what is true.  On streams that form one river of two or more cells with mouth `p` (C182), the
SFR builder (grouped segments, the default) returns if `p` flows to itself; if `p` flows on, out of the streams, it returns
unless a segment of two or more reaches ends in a cell whose column (counted from 0) is the number of segments, and otherwise
raises `KeyError`. -/
theorem C212_sfr_partial (hd : Legal fdir d) (hp : ¬ OnCycle d p) (hr : River d sa p) (hex : ∃ n, sa n ≠ 0 ∧ n ≠ p)
    (hf : N ≤ fuel) (hcf : N + 1 < cfuel) (hl : SegsFit fdir sa limit) {K : Type*} [Field K] [LinearOrder K]
    (G : Rdata.SGrid N K) (dflt : Bool) :
    ∃ out, mf2005 limit fuel false fdir sa true = .ok out ∧
      ((d p ≠ p ∧ ∃ n s r, (n, s, r) ∈ out.nsr ∧ 1 < r ∧ (∀ m, (m, s, r + 1) ∉ out.nsr) ∧ n.val % G.ncol = nSeg fdir sa) →
        (⟨fdir, some sa, none⟩ : Rdata.Obj N).builder limit fuel cfuel G none none none dflt true [] = .err .keyError) ∧
      (¬ (d p ≠ p ∧ ∃ n s r, (n, s, r) ∈ out.nsr ∧ 1 < r ∧ (∀ m, (m, s, r + 1) ∉ out.nsr) ∧
          n.val % G.ncol = nSeg fdir sa) → ∃ r,
        (⟨fdir, some sa, none⟩ : Rdata.Obj N).builder limit fuel cfuel G none none none dflt true [] = .ok r) := by
  obtain ⟨out, hout⟩ := C60_partial (limit := limit) (.inl rfl) hf fdir sa true (by simpa using hl)
  refine ⟨out, hout, ?_, ?_⟩ <;>
  have hnet : (⟨fdir, some sa, none⟩ : Rdata.Obj N).network limit fuel none true =
      .ok (⟨fdir, some out.sa, some (out.sg, out.nsr)⟩, (out.sg, out.nsr)) := by
    simp only [Rdata.Obj.network, Rdata.Obj.source, Res.bind_ok, Rdata.Obj.connect, hout, Res.map_ok]
  all_goals
    have hsound : (⟨fdir, some sa, none⟩ : Rdata.Obj N).Sound limit fuel := by intro net hn; cases hn
    obtain ⟨x1, _, x3⟩ := Rdata.C72_exact_partial (G := G) hf hsound hnet
    have hz := fun n : Fin N => river_zero hd hp hr hex hf hout ((n.val % G.ncol : ℕ) : ℤ)
  · rintro ⟨hpp, n, s, r, h1, h2, h3, h4⟩
    have := x3 n s r h1 h2 h3 ((hz n).2 ⟨by rw [h4], hpp⟩)
    unfold Rdata.Obj.builder
    simp only [Rdata.kwLoop, Res.bind_ok, Rdata.orElse, this]
    rfl
  · intro hno
    obtain ⟨_, ⟨rp, hpr, _⟩, _⟩ := C182_mf2005 hd hp hr hex hf hout
    obtain ⟨tbl, htbl⟩ := x1.2 ⟨(fun h => by rw [h] at hpr; cases hpr), fun n s r h1 h2 h3 h0 =>
      hno (by
        obtain ⟨e, hpp⟩ := (hz n).1 h0
        exact ⟨hpp, n, s, r, h1, h2, h3, by exact_mod_cast e⟩)⟩
    obtain ⟨rows, segs, irun, out', hb, _⟩ := sfr_returns dflt hf hcf rfl rfl htbl
    exact ⟨_, hb⟩

/-- **C212** (both halves), what is true.  On one river of two or more cells with mouth `p` the PRMS builder returns; and if
the SFR builder does so too, they fit together: equally many segments, as many reaches as stream cells on both sides, every
cascade link into a stream cell finds its cell once in the reach table and its segment in the segment table, every other link
names segment 0; `irunbnd` is nonzero exactly in the watershed of `p` and names a segment with a reach on the way of the
water. -/
theorem C212_both_partial (hd : Legal fdir d) (hp : ¬ OnCycle d p) (hr : River d sa p) (hex : ∃ n, sa n ≠ 0 ∧ n ≠ p)
    (hf : N ≤ fuel) (hcf : N + 1 < cfuel) (hl : SegsFit fdir sa limit)
    (G : Rdata.SGrid N ℝ) (nbs : Fin N → List (Fin N × Option ℝ)) (fa : Prms.Fa N) (hfa : fa.fdir = fdir)
    (active : Fin N → Bool) (many dflt : Bool) :
    ∃ o' b, Prms.builder limit fuel false nbs fa ⟨fdir, some sa, none⟩ none active true many = .ok (o', b) ∧
      ∀ q' rows segs irun,
        (⟨fdir, some sa, none⟩ : Rdata.Obj N).builder limit fuel cfuel G none none none dflt true [] =
          .ok (q', rows, segs, irun) →
        b.nsegments = segs.length ∧ b.nreaches = rows.length ∧
        (∀ n, sa n ≠ 0 ↔ ∃ row ∈ rows, row.node = ((n : ℕ) : ℤ)) ∧
        (∀ link ∈ b.rows, ∃ m : Fin N, link.down = ((m : ℕ) : ℤ) + 1 ∧ (sa m ≠ 0 →
          (rows.map (fun r => (r.node, r.iseg))).count (((m : ℕ) : ℤ), link.strmseg) = 1 ∧
          ∃ g ∈ segs, g.nseg = link.strmseg) ∧ (sa m = 0 → link.strmseg = 0)) ∧
        ∀ u, (irun u ≠ 0 ↔ Reaches d u p) ∧
          (Reaches d u p → ∃ row ∈ rows, row.iseg = irun u ∧ ∃ v : Fin N, row.node = ((v : ℕ) : ℤ) ∧ Reaches d u v) := by
  obtain ⟨⟨o', b⟩, hb⟩ := Prms.C88_succeeds (limit := limit) (fuel := fuel) (u := false) (nbs := nbs) (fa := fa)
    (o := ⟨fdir, some sa, none⟩) (arg := none) (active := active) (many := many) (group := true) hd ⟨d, hfa ▸ hd⟩ hf
    (by rw [if_pos rfl]; exact hl) (sa := sa) rfl (.inr rfl)
  refine ⟨o', b, hb, fun q' rows segs irun hq => ?_⟩
  have hh := river_headed hd hp hr hex
  obtain ⟨k1, k2, k3⟩ := Prms.C164_coupling (o := ⟨fdir, some sa, none⟩) (q := ⟨fdir, some sa, none⟩) hd hf rfl rfl
    (sa := sa) rfl rfl hb hq
  have hsp := hr.mouth ⟨hex.choose, hex.choose_spec.1⟩
  obtain ⟨out, hout, hperm, _, _⟩ := Prms.sfr_builder hf rfl rfl hq
  rw [show (⟨fdir, some sa, none⟩ : Rdata.Obj N).fdir = fdir from rfl] at hout
  obtain ⟨r1, r2, r3, _⟩ := C56_rows hf hout
  refine ⟨k1, k2 hh, fun n => ?_, fun link hlink => ?_, fun u => ?_⟩
  · constructor
    · intro hn
      obtain ⟨w, hw, hwn⟩ := hh n hn
      obtain ⟨t, r, hr⟩ := (r2 n).2 ⟨w, .inl hw, hwn⟩
      have : (((n : ℕ) : ℤ), t) ∈ rows.map (fun r => (r.node, r.iseg)) :=
        hperm.mem_iff.2 (List.mem_map.2 ⟨_, hr, rfl⟩)
      obtain ⟨row, hrow, hre⟩ := List.mem_map.1 this
      simp only [Prod.mk.injEq] at hre
      exact ⟨row, hrow, hre.1⟩
    · rintro ⟨row, hrow, hn⟩
      have hx : (row.node, row.iseg) ∈ out.nsr.map (fun x => (((x.1 : ℕ) : ℤ), x.2.1)) :=
        hperm.mem_iff.1 (List.mem_map.2 ⟨row, hrow, rfl⟩)
      obtain ⟨⟨m, s, r⟩, hr, hre⟩ := List.mem_map.1 hx
      simp only [Prod.mk.injEq] at hre
      have : m = n := Fin.ext (by have := hre.1.trans hn; exact_mod_cast this)
      subst this
      exact (r3 _ _ _ hr).1
  · obtain ⟨m, h1, _, h3, h4⟩ := k3 link hlink
    exact ⟨m, h1, fun hm => (h4 hh hm).2, fun hm => (h3 hm).1⟩
  · obtain ⟨x1, x2⟩ := C212_irunbnd hd hh hf hcf hq u
    have hiff : irun u ≠ 0 ↔ Reaches d u p :=
      x1.trans ⟨fun ⟨s, hs, hus⟩ => hus.trans (hr s hs).1, fun h => ⟨p, hsp, h⟩⟩
    exact ⟨hiff, fun h => x2 (hiff.2 h)⟩

/-- **C212 is false of the code.**  If exactly one stream cell flows into the mouth `p` of the river, `p` flows on, and the
column of `p` (counted from 0) is the number of segments, the SFR builder raises `KeyError`. -/
theorem C212_refuted (hd : Legal fdir d) (hp : ¬ OnCycle d p) (hr : River d sa p) (hf : N ≤ fuel) (hcf : N + 1 < cfuel)
    (hl : SegsFit fdir sa limit) {K : Type*} [Field K] [LinearOrder K] (G : Rdata.SGrid N K) (dflt : Bool)
    (hone : ∃! n, sa n ≠ 0 ∧ d n = p) (hpp : d p ≠ p) (hcol : p.val % G.ncol = nSeg fdir sa) :
    (⟨fdir, some sa, none⟩ : Rdata.Obj N).builder limit fuel cfuel G none none none dflt true [] = .err .keyError := by
  obtain ⟨x, ⟨hx, hxp⟩, huniq⟩ := hone
  have hex : ∃ n, sa n ≠ 0 ∧ n ≠ p := ⟨x, hx, by rintro rfl; exact hpp hxp⟩
  obtain ⟨out, hout, h, _⟩ := C212_sfr_partial hd hp hr hex hf hcf hl G dflt
  refine h ⟨hpp, ?_⟩
  obtain ⟨_, ⟨r, hpr, hlast⟩, _⟩ := C182_mf2005 hd hp hr hex hf hout
  have hrow := (C56_rows hf hout).2.2.1 _ _ _ hpr
  refine ⟨p, _, r, hpr, ?_, hlast, hcol⟩
  by_contra hr1
  obtain rfl : r = 1 := by have := hrow.2.2; omega
  rcases (C57_starts hf hout p).1 ⟨_, hpr⟩ with ⟨_, h0⟩ | ⟨a, b, hab, ha, hb⟩
  · exact h0 x ⟨hx, hrow.1, by rw [hd x, hxp]⟩
  · exact hab ((huniq a ⟨ha.1, feeds_eq hd ha⟩).trans (huniq b ⟨hb.1, feeds_eq hd hb⟩).symm)

end River

section Watershed

variable {N : ℕ} {K : Type*} [Field K] [LinearOrder K] [IsStrictOrderedRing K] {o o' : Reach.Obj N} {d : Fin N → Fin N}
  {p : Fin N} {area facc : Fin N → K} {afuel wfuel fuel cfuel limit : ℕ} {s' : Basin.State N} {ws : Fin N → ℕ} {t : K}
  {sa : Fin N → ℤ}

/-- **C212**, from the accumulation on: take the watershed of `p` as `basin_boundary`, delineate streams by a threshold, at
least one cell other than `p` reaching it.  The PRMS builder returns and fits the SFR builder's result if there is one; this
returns if `p` flows to itself, or if the grid has no more columns than the river has segments. -/
theorem C212_watershed_partial (hd : Legal o.fdir d) (hp : ¬ OnCycle d p) (hpos : ∀ u, 0 ≤ area u)
    (hacc : Acc.flowAccumulation afuel o.fdir area false = .ok facc) (hwf : 2 * N < wfuel)
    (hw : Basin.watershed wfuel ⟨o.fdir, none⟩ p (fun _ => 0) = .ok (s', ws))
    (hs : Delin.delineate (fun n => some (facc n)) o (.number t) (some (List.ofFn fun n => (ws n : ℤ))) = .ok (o', sa))
    (hex : ∃ n, n ≠ p ∧ Reaches d n p ∧ t ≤ facc n)
    (hf : N ≤ fuel) (hcf : N + 1 < cfuel) (hl : SegsFit o.fdir sa limit)
    (G : Rdata.SGrid N ℝ) (nbs : Fin N → List (Fin N × Option ℝ)) (fa : Prms.Fa N) (hfa : fa.fdir = o.fdir)
    (active : Fin N → Bool) (many dflt : Bool) :
    (∃ o1 b, Prms.builder limit fuel false nbs fa ⟨o.fdir, some sa, none⟩ none active true many = .ok (o1, b) ∧
      ∀ q' rows segs irun,
        (⟨o.fdir, some sa, none⟩ : Rdata.Obj N).builder limit fuel cfuel G none none none dflt true [] =
          .ok (q', rows, segs, irun) →
        b.nsegments = segs.length ∧ b.nreaches = rows.length ∧
        (∀ n, Reaches d n p ∧ t ≤ facc n ↔ ∃ row ∈ rows, row.node = ((n : ℕ) : ℤ)) ∧
        (∀ link ∈ b.rows, ∃ m : Fin N, link.down = ((m : ℕ) : ℤ) + 1 ∧ (Reaches d m p ∧ t ≤ facc m →
          (rows.map (fun r => (r.node, r.iseg))).count (((m : ℕ) : ℤ), link.strmseg) = 1 ∧
          ∃ g ∈ segs, g.nseg = link.strmseg) ∧ (¬ (Reaches d m p ∧ t ≤ facc m) → link.strmseg = 0)) ∧
        ∀ u, (irun u ≠ 0 ↔ Reaches d u p) ∧
          (Reaches d u p → ∃ row ∈ rows, row.iseg = irun u ∧ ∃ v : Fin N, row.node = ((v : ℕ) : ℤ) ∧ Reaches d u v)) ∧
    ((d p = p ∨ (0 < G.ncol ∧ G.ncol ≤ nSeg o.fdir sa)) → ∃ r,
      (⟨o.fdir, some sa, none⟩ : Rdata.Obj N).builder limit fuel cfuel G none none none dflt true [] = .ok r) := by
  obtain ⟨hval, _, _, hr⟩ := C182_streams hd.resolves hp hpos hacc hwf hw hs
  have hiff : ∀ n, sa n ≠ 0 ↔ Reaches d n p ∧ t ≤ facc n := by
    intro n
    rw [← (hval n).2]
    rcases (hval n).1 with h | h <;> simp [h]
  have hex' : ∃ n, sa n ≠ 0 ∧ n ≠ p := by
    obtain ⟨n, h1, h2⟩ := hex
    exact ⟨n, (hiff n).2 h2, h1⟩
  constructor
  · obtain ⟨o1, b, hb, h⟩ := C212_both_partial hd hp hr hex' hf hcf hl G nbs fa hfa active many dflt
    refine ⟨o1, b, hb, fun q' rows segs irun hq => ?_⟩
    obtain ⟨k1, k2, k3, k4, k5⟩ := h q' rows segs irun hq
    refine ⟨k1, k2, fun n => (hiff n).symm.trans (k3 n), fun link hlink => ?_, k5⟩
    obtain ⟨m, h1, h2, h3⟩ := k4 link hlink
    exact ⟨m, h1, fun hm => h2 ((hiff m).2 hm), fun hm => h3 (by
      by_contra h0
      exact hm ((hiff m).1 h0))⟩
  · intro hcase
    obtain ⟨out, _, _, h⟩ := C212_sfr_partial hd hp hr hex' hf hcf hl G dflt
    refine h ?_
    rintro ⟨hpp, n, _, _, _, _, _, hn⟩
    rcases hcase with h0 | ⟨h0, h1⟩
    · exact hpp h0
    · have := Nat.mod_lt n.val h0
      omega

end Watershed

/-! ### A concrete case: a row of five cells, the water running from cell 0 to cell 4 -/

def rvrF : Fin 5 → ℤ := ![1, 2, 3, 4, 4]

def rvrD : Fin 5 → Fin 5 := ![1, 2, 3, 4, 4]

theorem rvrLegal : Legal rvrF rvrD := by unfold Legal; decide +kernel

theorem rvrFree (n : Fin 5) : ¬ OnCycle rvrD n := by
  rw [onCycle_iff]
  rintro ⟨h1, k, hk⟩
  have key : ∀ k, n < rvrD^[k] (rvrD n) := by
    intro k
    induction k with
    | zero => clear hk; revert h1; revert n; decide +kernel
    | succ k ih =>
      rw [Function.iterate_succ_apply']
      refine ih.trans_le ?_
      generalize rvrD^[k] (rvrD n) = x
      clear hk h1 ih; revert x; decide +kernel
  have := key k
  rw [hk] at this
  exact lt_irrefl _ this

/-- watersheds of the cells 1, 2 and 4 as `basin_boundary`, threshold 1: the SFR builder raises `KeyError` for cell 1, whose
column is the number of segments, and returns for the other two -/
theorem C212_concrete :
    (Basin.watershed 11 ⟨rvrF, none⟩ 1 (fun _ => 0)).map Prod.snd = .ok ![1, 1, 0, 0, 0] ∧
    (Delin.delineate (fun n => some ((![1, 2, 3, 4, 5] : Fin 5 → ℚ) n)) ⟨rvrF, none, none⟩ (.number 1)
      (some [1, 1, 0, 0, 0])).map Prod.snd = .ok ![1, 1, 0, 0, 0] ∧
    ((⟨rvrF, some ![1, 1, 0, 0, 0], none⟩ : Rdata.Obj 5).builder 9 9 9 G5 none none none true true []).map
      (fun r => r.2.1.map (fun x => (x.node, x.iseg))) = .err .keyError ∧
    ((⟨rvrF, some ![1, 1, 1, 0, 0], none⟩ : Rdata.Obj 5).builder 9 9 9 G5 none none none true true []).map
      (fun r => (r.2.1.map (fun x => (x.node, x.iseg)), List.ofFn r.2.2.2)) =
      .ok ([(0, 1), (1, 1), (2, 1)], [1, 1, 1, 0, 0]) ∧
    ((⟨rvrF, some ![1, 1, 1, 1, 1], none⟩ : Rdata.Obj 5).builder 9 9 9 G5 none none none true true []).map
      (fun r => r.2.1.map (fun x => (x.node, x.iseg))) = .ok [(0, 1), (1, 1), (2, 1), (3, 1), (4, 2)] := by
  decide +kernel

theorem rvrRiver : River rvrD ![1, 1, 0, 0, 0] 1 := by
  intro n hn
  fin_cases n
  · exact ⟨⟨1, by decide⟩, fun _ => by decide⟩
  · exact ⟨⟨0, by decide⟩, fun h => absurd rfl h⟩
  all_goals exact absurd rfl hn

/-- C212_refuted applies to cell 1 -/
example : (⟨rvrF, some ![1, 1, 0, 0, 0], none⟩ : Rdata.Obj 5).builder 9 9 9 G5 none none none true true [] =
    .err .keyError := by
  refine C212_refuted rvrLegal (rvrFree 1) rvrRiver (by norm_num) (by norm_num) (segsFit_of_count ?_) G5 true
    ⟨0, by decide, by decide⟩ (by decide) ?_
  · have h1 := Prms.nSeg_le rvrF ![1, 1, 0, 0, 0]
    have h2 : Reach.nStream (![1, 1, 0, 0, 0] : Fin 5 → ℤ) ≤ 5 := by
      unfold Reach.nStream
      exact (Finset.card_le_univ _).trans (by simp)
    omega
  · obtain ⟨o, h, e⟩ := Res.map_eq_ok.1 (show (mf2005 9 9 false rvrF ![1, 1, 0, 0, 0] true).map (fun o => o.sg.length) =
      .ok 1 by decide +kernel)
    rw [← (C58_numbers (by norm_num) h).2.1, e]
    rfl

/-- hypotheses of C212_both_partial and C212_sfr_partial hold there for every grid with columns otherwise -/
example (G : Rdata.SGrid 5 ℝ) (hG : G.ncol = 1) (nbs : Fin 5 → List (Fin 5 × Option ℝ)) (fa : Prms.Fa 5)
    (hfa : fa.fdir = rvrF) (active : Fin 5 → Bool) (many dflt : Bool) : ∃ o' b q' rows segs irun,
    Prms.builder 9 9 false nbs fa ⟨rvrF, some ![1, 1, 0, 0, 0], none⟩ none active true many = .ok (o', b) ∧
    (⟨rvrF, some ![1, 1, 0, 0, 0], none⟩ : Rdata.Obj 5).builder 9 9 9 G none none none dflt true [] =
      .ok (q', rows, segs, irun) ∧ b.nreaches = rows.length ∧ irun 0 ≠ 0 ∧ irun 2 = 0 := by
  have hl : SegsFit rvrF (![1, 1, 0, 0, 0] : Fin 5 → ℤ) 9 := segsFit_of_count (by
    have h1 := Prms.nSeg_le rvrF ![1, 1, 0, 0, 0]
    have h2 : Reach.nStream (![1, 1, 0, 0, 0] : Fin 5 → ℤ) ≤ 5 := by
      unfold Reach.nStream
      exact (Finset.card_le_univ _).trans (by simp)
    omega)
  have hex : ∃ n : Fin 5, (![1, 1, 0, 0, 0] : Fin 5 → ℤ) n ≠ 0 ∧ n ≠ 1 := ⟨0, by decide, by decide⟩
  obtain ⟨out, hout, _, h⟩ := C212_sfr_partial (fuel := 9) (cfuel := 9) rvrLegal (rvrFree 1) rvrRiver hex (by norm_num)
    (by norm_num) hl G dflt
  obtain ⟨⟨q', rows, segs, irun⟩, hq⟩ := h (by
    rintro ⟨_, n, s, r, hn, _, _, h1⟩
    rw [hG, Nat.mod_one] at h1
    have := ((C58_numbers (by norm_num) hout).2.2.1 s).1 (((C58_numbers (by norm_num) hout).2.2.2 s).2 ⟨n, r, hn⟩)
    omega)
  obtain ⟨o', b, hb, h⟩ := C212_both_partial (fuel := 9) (cfuel := 9) rvrLegal (rvrFree 1) rvrRiver hex (by norm_num)
    (by norm_num) hl G nbs fa hfa active many dflt
  obtain ⟨_, k2, _, _, k5⟩ := h q' rows segs irun hq
  refine ⟨o', b, q', rows, segs, irun, hb, hq, k2, (k5 0).1.2 ⟨1, by decide⟩, ?_⟩
  by_contra h0
  obtain ⟨k, hk⟩ := (k5 2).1.1 h0
  have key : ∀ k, 2 ≤ rvrD^[k] 2 := by
    intro k
    induction k with
    | zero => decide
    | succ k ih =>
      rw [Function.iterate_succ_apply']
      revert ih
      generalize rvrD^[k] 2 = x
      revert x; decide +kernel
  have := key k
  rw [hk] at this
  exact absurd this (by decide)

end Dany.Pipe
