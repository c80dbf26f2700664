import Verif.Prms.Couple
import Verif.Rdata.Outlet
import Verif.Seg.Stray
import Verif.Pipe.Rect
import Verif.Pipe.Packages
import Verif.Irun.Props

/-!
# C168: from the DEM to the two halves of a GSFLOW model

`Sfr2005.get_pygsflow_builder_object` and `PrmsStreams.get_pygsflow_builder_object` at the end of the chain of C99 / C160.
-/

namespace Dany.Pipe

open Flow Seg Relation

section Network

variable {N : ℕ} {fdir sa : Fin N → ℤ} {d : Fin N → Fin N}

/-- A stream cell that flows to another cell lies downstream of a headwater. -/
theorem headwater_above (hd : Legal fdir d) (hac : ∀ n, ¬ OnCycle d n) {n : Fin N} (hn : sa n ≠ 0) (hne : d n ≠ n) :
    ∃ h, Headwater fdir sa h ∧ ReflTransGen (Feeds fdir sa) h n := by
  induction hk : (upstream d n).card using Nat.strong_induction_on generalizing n with
  | _ k ih =>
    by_cases hw : Headwater fdir sa n
    · exact ⟨n, hw, ReflTransGen.refl⟩
    · have : ∃ m, Feeds fdir sa m n := by
        by_contra hc
        exact hw ⟨hn, fun m hm => hc ⟨m, hm⟩⟩
      obtain ⟨m, hm⟩ := this
      have e : d m = n := Fin.ext (by have h1 := hm.2.2; rw [hd m] at h1; exact_mod_cast h1)
      have hmn : m ≠ n := by rintro rfl; exact hne e
      have hlt := Finset.card_lt_card (upstream_ssubset (hac n) ⟨1, e⟩ hmn)
      obtain ⟨h, h1, h2⟩ := ih _ (by omega) hm.1 (by rw [e]; exact hmn.symm) rfl
      exact ⟨h, h1, h2.tail hm⟩

/-- Every stream cell lies downstream of a headwater exactly if every outlet on the stream receives water from another
stream cell. -/
theorem headed_iff (hd : Legal fdir d) (hac : ∀ n, ¬ OnCycle d n) :
    Prms.Headed fdir sa ↔ ∀ e, sa e ≠ 0 → d e = e → ∃ m, m ≠ e ∧ sa m ≠ 0 ∧ d m = e := by
  constructor
  · intro h e he hee
    obtain ⟨w, hw, hr⟩ := h e he
    rcases ReflTransGen.cases_tail hr with rfl | ⟨m, hwm, hm⟩
    · exact absurd ⟨he, he, by rw [hd e, hee]⟩ (hw.2 e)
    · by_cases hme : m = e
      · -- walk back to the last cell different from the outlet
        have key : ∀ x, ReflTransGen (Feeds fdir sa) w x → x = e → w = e ∨ ∃ m, m ≠ e ∧ sa m ≠ 0 ∧ d m = e := by
          intro x hx
          induction hx with
          | refl => exact fun h => .inl h
          | @tail b c hb hc ih =>
            rintro rfl
            by_cases hbc : b = c
            · exact ih hbc
            · exact .inr ⟨b, hbc, hc.1, Fin.ext (by have h1 := hc.2.2; rw [hd b] at h1; exact_mod_cast h1)⟩
        rcases key e hr rfl with rfl | h
        · exact absurd ⟨he, he, by rw [hd w, hee]⟩ (hw.2 w)
        · exact h
      · exact ⟨m, hme, hm.1, Fin.ext (by have h1 := hm.2.2; rw [hd m] at h1; exact_mod_cast h1)⟩
  · intro h n hn
    by_cases hne : d n = n
    · obtain ⟨m, hm, hms, hmd⟩ := h n hn hne
      obtain ⟨w, hw, hr⟩ := headwater_above hd hac hms (by rw [hmd]; exact hm.symm)
      exact ⟨w, hw, hr.tail ⟨hms, hn, by rw [hd m, hmd]⟩⟩
    · exact headwater_above hd hac hn hne

variable {limit fuel : ℕ} {b : Bool} {out : Out N}

/-- the cells on segments: all stream cells but the outlets to which no other stream cell flows -/
theorem listed_iff (hd : Legal fdir d) (hac : ∀ n, ¬ OnCycle d n) (hf : N ≤ fuel)
    (ho : mf2005 limit fuel b fdir sa true = .ok out) {n : Fin N} (hn : sa n ≠ 0) :
    (∃ s r, (n, s, r) ∈ out.nsr) ↔ d n ≠ n ∨ ∃ m, m ≠ n ∧ sa m ≠ 0 ∧ d m = n := by
  have hfd : ∀ x y, Feeds fdir sa x y → d x = y := fun x y h =>
    Fin.ext (by have h1 := h.2.2; rw [hd x] at h1; exact_mod_cast h1)
  rw [(C56_rows hf ho).2.1 n]
  constructor
  · rintro ⟨a, ha, han⟩
    by_cases hself : d n = n
    · refine .inr ?_
      by_cases hae : a = n
      · subst hae
        rcases ha with ha | ⟨x, y, hxy, hx, hy⟩
        · exact absurd ⟨ha.1, ha.1, by rw [hd a, hself]⟩ (ha.2 a)
        · by_cases hxa : x = a
          · exact ⟨y, fun h => hxy (hxa.trans h.symm), hy.1, hfd _ _ hy⟩
          · exact ⟨x, hxa, hx.1, hfd _ _ hx⟩
      · clear ha hself hn
        induction han with
        | refl => exact absurd rfl hae
        | @tail y z _ hyz ih =>
          by_cases hy : y = z
          · subst hy; exact ih hae
          · exact ⟨y, hy, hyz.1, hfd _ _ hyz⟩
    · exact .inl hself
  · rintro (h | ⟨m, hm, hms, hmd⟩)
    · obtain ⟨w, hw, hr⟩ := headwater_above (sa := sa) hd hac hn h
      exact ⟨w, .inl hw, hr⟩
    · obtain ⟨w, hw, hr⟩ := headwater_above (sa := sa) hd hac hms (by rw [hmd]; exact hm.symm)
      exact ⟨w, .inl hw, hr.tail ⟨hms, hn, by rw [hd m, hmd]⟩⟩

/-- on a stream that never breaks off, no segment has outseg 0 -/
theorem no_zero (hd : Legal fdir d) (hcl : ∀ n, sa n ≠ 0 → sa (d n) ≠ 0) (hf : N ≤ fuel)
    (ho : mf2005 limit fuel false fdir sa true = .ok out) (s : ℤ) : out.sg.get? s ≠ some 0 := by
  intro h0
  have hn : (⟨fdir, some sa, none⟩ : Rdata.Obj N).net = none := rfl
  have hsa : (⟨fdir, some sa, none⟩ : Rdata.Obj N).source none = .ok sa := rfl
  have hseg : ∃ r, (⟨fdir, some sa, none⟩ : Rdata.Obj N).segmentData ℚ limit fuel none true = .ok r := by
    unfold Rdata.Obj.segmentData Rdata.Obj.network
    rw [hsa, Res.bind_ok]
    simp only [Rdata.Obj.connect, ho, Res.map_ok]
    exact ⟨_, rfl⟩
  obtain ⟨⟨o', tbl⟩, hr⟩ := hseg
  obtain ⟨out', ho', ht⟩ := Rdata.segmentData_fresh hf hn hsa hr
  rw [show (⟨fdir, some sa, none⟩ : Rdata.Obj N).fdir = fdir from rfl, ho, Res.ok.injEq] at ho'
  subst ho'
  obtain ⟨row, hrow, rfl, hz⟩ := (ht s 0).2 h0
  obtain ⟨out', ho', hx⟩ := Rdata.C165_exact hf hn hsa hr
  rw [show (⟨fdir, some sa, none⟩ : Rdata.Obj N).fdir = fdir from rfl, ho, Res.ok.injEq] at ho'
  subst ho'
  obtain ⟨a, l, r, _, hl, _, h1, _⟩ := hx row hrow
  have hls := ((C56_rows hf ho).2.2.1 _ _ _ hl).1
  exact (h1.1 hz) (d l) ⟨hls, hcl l hls, hd l⟩

end Network

section Sfr

variable {N : ℕ} {K : Type*} [Field K] [LinearOrder K] {G : Rdata.SGrid N K} {limit fuel cfuel : ℕ}

theorem fixRows_total {tbl : List (Rdata.Row K)} (hne : tbl ≠ []) (l : List (Rdata.Row K))
    (h : ∀ row ∈ tbl, ∃ n : Fin N, row.node = ((n : ℕ) : ℤ))
    (hl : ∀ row ∈ l, row.outreach = 0 ∧ ∃ n : Fin N, row.node = ((n : ℕ) : ℤ)) :
    ∃ l', Rdata.fixRows G tbl l = .ok l' := by
  induction l with
  | nil => exact ⟨[], rfl⟩
  | cons a l ih =>
    obtain ⟨l', hl'⟩ := ih (fun row hr => hl row (by simp [hr]))
    obtain ⟨ha, n, hn⟩ := hl a (by simp)
    have hpos := List.length_pos_iff.2 hne
    have : ∃ a', Rdata.fixRow G tbl a = .ok a' := by
      unfold Rdata.fixRow
      rw [ha, if_neg (by omega)]
      have : pyIndex tbl.length (0 - 1) = .ok ⟨tbl.length - 1, by omega⟩ := by
        unfold pyIndex
        rw [dif_neg (by omega), dif_pos (by omega)]
        congr 1
        apply Fin.ext
        simp only
        omega
      rw [this, Res.map_ok, Res.bind_ok, hn, Prms.pyIndex_cell, Res.bind_ok]
      obtain ⟨m, hm⟩ := h _ (List.getElem_mem (l := tbl) (n := tbl.length - 1) (by omega))
      rw [List.get_eq_getElem, hm, Prms.pyIndex_cell]
      exact ⟨_, rfl⟩
    obtain ⟨a', ha'⟩ := this
    exact ⟨a' :: l', by simp only [Rdata.fixRows, ha', Res.bind_ok, hl', Res.map_ok]⟩

/-- if `reach_data` returns, so does the builder without keyword arguments -/
theorem sfr_returns {q q1 : Rdata.Obj N} {tbl : List (Rdata.Row K)} {sa : Fin N → ℤ} {grp : Bool} (dflt : Bool)
    (hf : N ≤ fuel) (hcf : N + 1 < cfuel) (hq : q.net = none) (hsa : q.source none = .ok sa)
    (h : q.reachData limit fuel G none grp = .ok (q1, tbl)) :
    ∃ rows segs irun out, q.builder limit fuel cfuel G none none none dflt grp [] = .ok (q1, rows, segs, irun) ∧
      mf2005 limit fuel false q.fdir sa grp = .ok out ∧ Irun.irunbnd cfuel q.fdir out.sa = .ok irun := by
  have hsound : q.Sound limit fuel := by intro net hn; rw [hq] at hn; cases hn
  obtain ⟨sg, nsr, rs, e1, hperm, _, hlen, hrow⟩ := Rdata.C71_numbering hf hsound h
  have h' := h
  rw [Rdata.C79_first_partial hq hsa] at h'
  obtain ⟨out, ho, h1⟩ := Res.bind_eq_ok.1 h'
  obtain ⟨t, ht, he⟩ := Res.map_eq_ok.1 h1
  simp only [Prod.mk.injEq] at he
  obtain ⟨rfl, rfl⟩ := he
  have hcell : ∀ row ∈ t, row.outreach = 0 ∧ ∃ n : Fin N, row.node = ((n : ℕ) : ℤ) := by
    intro row hr
    obtain ⟨k, hk⟩ := List.getElem?_of_mem hr
    have hkl : k < rs.length := by
      have := (List.getElem?_eq_some_iff.1 hk).1
      omega
    obtain ⟨⟨n, s, r⟩, hrs⟩ : ∃ x, rs[k]? = some x := ⟨_, List.getElem?_eq_getElem hkl⟩
    obtain ⟨row', hr', _, hn, _, _, _, _, _, _, _, _, ho⟩ := hrow k n s r hrs
    rw [hk, Option.some.injEq] at hr'
    subst hr'
    exact ⟨ho, n, hn⟩
  have hne : t ≠ [] := by
    rintro rfl
    unfold Rdata.reachTable at ht
    obtain ⟨_, _, ht⟩ := Res.bind_eq_ok.1 ht
    obtain ⟨y, _, ht⟩ := Res.bind_eq_ok.1 ht
    unfold Rdata.toTable at ht
    split at ht
    · cases ht
    · rename_i hy
      simp only [Res.ok.injEq, List.map_eq_nil_iff] at ht
      exact hy ht
  obtain ⟨ir, hir, _⟩ := Irun.C65_path (fdir := q.fdir) (sa := out.sa) hcf
  obtain ⟨rows, hrows⟩ := fixRows_total (G := G) hne t (fun row hr => (hcell row hr).2) hcell
  have hsd : Rdata.Obj.segmentData K limit fuel (⟨q.fdir, some out.sa, some (out.sg, out.nsr)⟩ : Rdata.Obj N) none grp =
      .ok (⟨q.fdir, some out.sa, some (out.sg, out.nsr)⟩, Rdata.segmentTable K out.sg) := rfl
  have hi : Rdata.Obj.irun limit fuel cfuel (⟨q.fdir, some out.sa, some (out.sg, out.nsr)⟩ : Rdata.Obj N) grp =
      .ok (⟨q.fdir, some out.sa, some (out.sg, out.nsr)⟩, ir) := by
    simp only [Rdata.Obj.irun, Rdata.Obj.source, Res.bind_ok, hir, Res.map_ok]
  refine ⟨if dflt then rows else t, if dflt then (Rdata.segmentTable K out.sg).map Rdata.fixSeg else Rdata.segmentTable K out.sg,
    ir, out, ?_, ho, hir⟩
  unfold Rdata.Obj.builder
  simp only [Rdata.kwLoop, Res.bind_ok, Rdata.orElse, h, hsd, hi, hrows, Res.map_ok]
  cases dflt <;> simp

variable [IsStrictOrderedRing K] {fdir sa : Fin N → ℤ} {d : Fin N → Fin N} {area facc : Fin N → K} {afuel : ℕ} {c : K}
  {ob ob' : Reach.Obj N}

/-- the streams of the chain: cells of sufficient accumulation, marked 1, never breaking off -/
theorem streams (hd : Legal fdir d) (hac : ∀ n, ¬ OnCycle d n) (hpos : ∀ u, 0 ≤ area u)
    (ho : Acc.flowAccumulation afuel fdir area false = .ok facc) (hob : ob.fdir = fdir)
    (hdl : Delin.delineate (fun n => some (facc n)) ob (.number c) none = .ok (ob', sa)) :
    (∀ n, sa n ≠ 0 ↔ c ≤ facc n) ∧ (∀ n, sa n ≠ 0 → sa n = 1) ∧ ∀ n, sa n ≠ 0 → sa (d n) ≠ 0 := by
  obtain ⟨sa', e, hsa⟩ := Delin.C44_number (facc := fun n => some (facc n)) (o := ob) c
  have hdl' := hdl
  rw [hdl'] at e
  cases e
  have hone : ∀ n, sa n ≠ 0 → sa n = 1 := fun n hn => (hsa n).1.resolve_right hn
  refine ⟨fun n => ?_, hone, fun n hn => ?_⟩
  · obtain ⟨h1, h2⟩ := hsa n
    simp only [Option.some.injEq, exists_eq_left'] at h2
    rw [← h2]
    rcases h1 with h | h <;> simp [h]
  · have := Delin.C45_areas (o := ob) (hob ▸ hd.resolves) hpos (hob ▸ ho) hdl n (hac n) (hone n hn)
    omega

/-- **C168**, the SFR half.  On flow directions without circles and streams delineated by a threshold `c` from the
accumulation of non-negative areas, the SFR builder (grouped segments, the default) returns if some stream cell flows to
another cell — whatever the columns of the grid, so that the wrong look-up of C72 never hurts —; and it raises `IndexError`
if every stream cell is an outlet. -/
theorem C168_sfr (hd : Legal fdir d) (hac : ∀ n, ¬ OnCycle d n) (hpos : ∀ u, 0 ≤ area u)
    (ho : Acc.flowAccumulation afuel fdir area false = .ok facc) (hob : ob.fdir = fdir)
    (hdl : Delin.delineate (fun n => some (facc n)) ob (.number c) none = .ok (ob', sa))
    (hf : N ≤ fuel) (hcf : N + 1 < cfuel) (hl : SegsFit fdir sa limit) {K' : Type*} [Field K'] [LinearOrder K']
    (G : Rdata.SGrid N K') (dflt : Bool) :
    ((∃ n, d n ≠ n ∧ c ≤ facc n) → ∃ r,
      (⟨fdir, some sa, none⟩ : Rdata.Obj N).builder limit fuel cfuel G none none none dflt true [] = .ok r) ∧
    ((∀ n, c ≤ facc n → d n = n) →
      (⟨fdir, some sa, none⟩ : Rdata.Obj N).builder limit fuel cfuel G none none none dflt true [] =
        .err .indexError) := by
  obtain ⟨hsa, _, hcl⟩ := streams hd hac hpos ho hob hdl
  obtain ⟨out, hout⟩ := C60_partial (limit := limit) (.inl rfl) hf fdir sa true (by simpa using hl)
  have hnet : (⟨fdir, some sa, none⟩ : Rdata.Obj N).network limit fuel none true =
      .ok (⟨fdir, some out.sa, some (out.sg, out.nsr)⟩, (out.sg, out.nsr)) := by
    simp only [Rdata.Obj.network, Rdata.Obj.source, Res.bind_ok, Rdata.Obj.connect, hout, Res.map_ok]
  have hsound : (⟨fdir, some sa, none⟩ : Rdata.Obj N).Sound limit fuel := by intro net hn; cases hn
  obtain ⟨x1, x2, _⟩ := Rdata.C72_exact_partial (G := G) hf hsound hnet
  constructor
  · rintro ⟨n, hn, hnc⟩
    obtain ⟨s, r, hs⟩ := (listed_iff hd hac hf hout ((hsa n).2 hnc)).2 (.inl hn)
    obtain ⟨tbl, htbl⟩ := x1.2 ⟨(fun h => by rw [h] at hs; cases hs), fun _ _ _ _ _ _ => no_zero hd hcl hf hout _⟩
    obtain ⟨rows, segs, irun, out', hb, _⟩ := sfr_returns dflt hf hcf rfl rfl htbl
    exact ⟨_, hb⟩
  · intro hall
    have hnil : out.nsr = [] := by
      rw [List.eq_nil_iff_forall_not_mem]
      rintro ⟨n, s, r⟩ hr
      have hns := ((C56_rows hf hout).2.2.1 _ _ _ hr).1
      rcases (listed_iff hd hac hf hout hns).1 ⟨s, r, hr⟩ with h | ⟨m, hm, hms, hmd⟩
      · exact h (hall n ((hsa n).1 hns))
      · exact hm ((hall m ((hsa m).1 hms)).symm.trans hmd)
    have := x2 hnil
    unfold Rdata.Obj.builder
    simp only [Rdata.kwLoop, Res.bind_ok, Rdata.orElse, this]
    rfl

/-- **C169** (what `irunbnd` is at the end of the chain).  Let `e` be the outlet to which cell `u` drains.  The SFR
builder's `irunbnd` is nonzero at `u` exactly if `e` is a stream cell.  It names a segment that has a reach on the way of the
water from `u` exactly if another stream cell flows to `e`.  If `e` is the only stream cell of its river, it names the
segment that begins at the lowest-numbered headwater of the grid. -/
theorem C169_exact (hd : Legal fdir d) (hac : ∀ n, ¬ OnCycle d n) (hpos : ∀ u, 0 ≤ area u)
    (ho : Acc.flowAccumulation afuel fdir area false = .ok facc) (hob : ob.fdir = fdir)
    (hdl : Delin.delineate (fun n => some (facc n)) ob (.number c) none = .ok (ob', sa))
    (hf : N ≤ fuel) (hcf : N + 1 < cfuel) {K' : Type*} [Field K'] [LinearOrder K'] {G : Rdata.SGrid N K'} {dflt : Bool}
    {q' : Rdata.Obj N} {rows : List (Rdata.Row K')} {segs : List (Rdata.SRow K')} {irun : Fin N → ℤ}
    (h : (⟨fdir, some sa, none⟩ : Rdata.Obj N).builder limit fuel cfuel G none none none dflt true [] =
      .ok (q', rows, segs, irun)) {u e : Fin N} (hue : Reaches d u e) (he : d e = e) :
    (irun u ≠ 0 ↔ c ≤ facc e) ∧
    ((∃ row ∈ rows, row.iseg = irun u ∧ ∃ v : Fin N, row.node = ((v : ℕ) : ℤ) ∧ Reaches d u v) ↔
      ∃ m, m ≠ e ∧ d m = e ∧ c ≤ facc m) ∧
    (c ≤ facc e → (∀ m, m ≠ e → d m = e → facc m < c) →
      ∃ w, Headwater fdir sa w ∧ (∀ w', Headwater fdir sa w' → w ≤ w') ∧
        ∃ row ∈ rows, row.node = ((w : ℕ) : ℤ) ∧ row.iseg = irun u) := by
  obtain ⟨hsa, hone, hcl⟩ := streams hd hac hpos ho hob hdl
  have hclk : ∀ n m, Reaches d n m → sa n ≠ 0 → sa m ≠ 0 := by
    rintro n m ⟨k, rfl⟩ hn
    induction k with
    | zero => exact hn
    | succ k ih => rw [Function.iterate_succ_apply']; exact hcl _ ih
  obtain ⟨out, hout, hperm, _, _⟩ := Prms.sfr_builder hf rfl rfl h
  rw [show (⟨fdir, some sa, none⟩ : Rdata.Obj N).fdir = fdir from rfl] at hout
  -- the array behind irunbnd
  obtain ⟨o1, tbl, h1⟩ : ∃ o1 tbl, (⟨fdir, some sa, none⟩ : Rdata.Obj N).reachData limit fuel G none true = .ok (o1, tbl) := by
    unfold Rdata.Obj.builder at h
    obtain ⟨_, _, h⟩ := Res.bind_eq_ok.1 h
    obtain ⟨⟨o1, tbl⟩, h1, _⟩ := Res.bind_eq_ok.1 h
    exact ⟨o1, tbl, h1⟩
  have hir : Irun.irunbnd cfuel fdir out.sa = .ok irun := by
    obtain ⟨rows', segs', irun', out', hb, ho', hir⟩ := sfr_returns dflt hf hcf rfl rfl h1
    rw [h] at hb
    simp only [Res.ok.injEq, Prod.mk.injEq] at hb
    rw [show (⟨fdir, some sa, none⟩ : Rdata.Obj N).fdir = fdir from rfl] at ho' hir
    rw [hout, Res.ok.injEq] at ho'
    rw [ho', hb.2.2.2]; exact hir
  have hmem : ∀ (n : Fin N) (s : ℤ), (((n : ℕ) : ℤ), s) ∈ rows.map (fun r => (r.node, r.iseg)) ↔
      ∃ r, (n, s, r) ∈ out.nsr := by
    intro n s
    rw [hperm.mem_iff, List.mem_map]
    constructor
    · rintro ⟨⟨n', s', r⟩, hx, he⟩
      simp only [Prod.mk.injEq] at he
      obtain ⟨h1, rfl⟩ := he
      obtain rfl : n' = n := Fin.ext (by exact_mod_cast h1)
      exact ⟨r, hx⟩
    · rintro ⟨r, hr⟩
      exact ⟨_, hr, rfl⟩
  have hinto : ∀ x y, Irun.Into fdir x y ↔ d x = y := by
    intro x y
    unfold Irun.Into
    rw [hd x]
    constructor
    · intro h; exact Fin.ext (by exact_mod_cast h)
    · rintro rfl; rfl
  have hdown : ∀ x y, Irun.Down fdir x y ↔ Reaches d x y := by
    intro x y
    constructor
    · intro h
      induction h with
      | refl => exact Reaches.refl _
      | tail _ h ih => exact ih.trans ⟨1, (hinto _ _).1 h⟩
    · rintro ⟨k, rfl⟩
      induction k with
      | zero => exact ReflTransGen.refl
      | succ k ih =>
        rw [Function.iterate_succ_apply']
        exact ReflTransGen.tail ih ((hinto _ _).2 rfl)
  have hon : ∀ s, Reaches d u s → Reaches d s e := by
    intro s hus
    rcases hue.total hus with h | h
    · rw [Reaches.of_fixed he h]; exact Reaches.refl _
    · exact h
  obtain ⟨r1, r2, r3, r4, r5, r6⟩ := C56_rows hf hout
  obtain ⟨n1, n2, n3, n4⟩ := C58_numbers hf hout
  have hpos' : ∀ n s r, (n, s, r) ∈ out.nsr → 0 < out.sa n := by
    intro n s r hr
    have h1 := (r3 _ _ _ hr).2.1
    have h2 := ((n3 s).1 ((n4 s).2 ⟨n, r, hr⟩)).1
    omega
  -- the first headwater
  have hfirst : ∃ w, Headwater fdir sa w ∧ ∀ w', Headwater fdir sa w' → w ≤ w' := by
    classical
    have hne : rows ≠ [] := by
      intro hnil
      obtain ⟨sg, nsr, rs, e1, hp, _, hlen, _⟩ := Rdata.C71_numbering hf (by intro net hn; cases hn) h1
      have h1' := h1
      rw [Rdata.C79_first_partial rfl (show (⟨fdir, some sa, none⟩ : Rdata.Obj N).source none = .ok sa from rfl)] at h1'
      obtain ⟨out', ho', h1'⟩ := Res.bind_eq_ok.1 h1'
      obtain ⟨t, ht, _⟩ := Res.map_eq_ok.1 h1'
      rw [show (⟨fdir, some sa, none⟩ : Rdata.Obj N).fdir = fdir from rfl, hout, Res.ok.injEq] at ho'
      subst ho'
      have hz : out.nsr = [] := by
        have := hperm.length_eq
        rw [hnil] at this
        simpa using this.symm
      have hnet : (⟨fdir, some sa, none⟩ : Rdata.Obj N).network limit fuel none true =
          .ok (⟨fdir, some out.sa, some (out.sg, out.nsr)⟩, (out.sg, out.nsr)) := by
        simp only [Rdata.Obj.network, Rdata.Obj.source, Res.bind_ok, Rdata.Obj.connect, hout, Res.map_ok]
      obtain ⟨_, x2, _⟩ := Rdata.C72_exact_partial (G := G) hf (by intro net hn; cases hn) hnet
      rw [x2 hz] at h1
      cases h1
    obtain ⟨row, hrow⟩ := List.exists_mem_of_ne_nil _ hne
    have hx : (row.node, row.iseg) ∈ out.nsr.map (fun x => (((x.1 : ℕ) : ℤ), x.2.1)) :=
      hperm.mem_iff.1 (List.mem_map.2 ⟨row, hrow, rfl⟩)
    obtain ⟨⟨n, s, r⟩, hr, _⟩ := List.mem_map.1 hx
    have hns := (r3 _ _ _ hr).1
    have hw : ∃ w, Headwater fdir sa w := by
      rcases (listed_iff hd hac hf hout hns).1 ⟨s, r, hr⟩ with h | ⟨m, hm, hms, hmd⟩
      · obtain ⟨w, hw, _⟩ := headwater_above (sa := sa) hd hac hns h
        exact ⟨w, hw⟩
      · obtain ⟨w, hw, _⟩ := headwater_above (sa := sa) hd hac hms (by rw [hmd]; exact hm.symm)
        exact ⟨w, hw⟩
    obtain ⟨w, hw⟩ := hw
    obtain ⟨w', hw', hmin⟩ := (Finset.univ.filter (fun t => Headwater fdir sa t)).exists_minimal ⟨w, by simp [hw]⟩
    simp only [Finset.mem_filter, Finset.mem_univ, true_and] at hw' hmin
    refine ⟨w', hw', fun t ht => ?_⟩
    rcases le_total w' t with h | h
    · exact h
    · exact hmin ht h
  have hstray : ∀ s, sa s ≠ 0 → (∀ t r, (s, t, r) ∉ out.nsr) → ∀ w, Headwater fdir sa w →
      (∀ w', Headwater fdir sa w' → w ≤ w') → (w, out.sa s, 1) ∈ out.nsr := by
    intro s hs hno w hw hmin
    exact ((C169_array hf hout hno).1 w (hone s hs) hw hmin).2
  have hposs : ∀ s, sa s ≠ 0 → 0 < out.sa s := by
    intro s hs
    by_cases hl : ∃ t r, (s, t, r) ∈ out.nsr
    · obtain ⟨t, r, hr⟩ := hl
      exact hpos' _ _ _ hr
    · obtain ⟨w, hw, hmin⟩ := hfirst
      have := hstray s hs (fun t r hr => hl ⟨t, r, hr⟩) w hw hmin
      have h1 := hpos' _ _ _ this
      rwa [(r3 _ _ _ this).2.1] at h1
  have hss : ∀ s, 0 < out.sa s → sa s ≠ 0 := by
    intro s hs h0
    rw [r4 s h0] at hs
    exact lt_irrefl _ hs
  obtain ⟨ir, hir', hx⟩ := Irun.C65_path (fdir := fdir) (sa := out.sa) hcf
  rw [hir, Res.ok.injEq] at hir'
  subst hir'
  obtain ⟨x1, x2⟩ := hx u
  refine ⟨?_, ?_, ?_⟩
  · rw [x1, ← hsa e]
    constructor
    · rintro ⟨s, hs, hus⟩
      exact hclk s e (hon s ((hdown _ _).1 hus)) (hss s hs)
    · intro hes
      exact ⟨e, hposs e hes, (hdown _ _).2 hue⟩
  · constructor
    · rintro ⟨row, hrow, hseg, v, hv, huv⟩
      obtain ⟨r, hr⟩ := (hmem v row.iseg).1 (List.mem_map.2 ⟨row, hrow, by rw [hv]⟩)
      have hvs := (r3 _ _ _ hr).1
      have hve := hon v huv
      have hm : ∃ m, m ≠ e ∧ sa m ≠ 0 ∧ Reaches d m e := by
        by_cases hve' : v = e
        · subst hve'
          rcases (listed_iff hd hac hf hout hvs).1 ⟨_, r, hr⟩ with h | ⟨m, hm, hms, hmd⟩
          · exact absurd he h
          · exact ⟨m, hm, hms, 1, hmd⟩
        · exact ⟨v, hve', hvs, hve⟩
      obtain ⟨m, hme, hms, k, hk⟩ := hm
      induction k generalizing m with
      | zero => exact absurd hk hme
      | succ k ih =>
        by_cases hm' : d m = e
        · exact ⟨m, hme, hm', (hsa m).1 hms⟩
        · exact ih (d m) hm' (hcl m hms) (by rwa [Function.iterate_succ_apply] at hk)
    · rintro ⟨m, hme, hm, hmc⟩
      have hms := (hsa m).2 hmc
      have hes : sa e ≠ 0 := hm ▸ hcl m hms
      obtain ⟨s, ⟨hs, hus⟩, hseg⟩ := x2 ⟨e, hposs e hes, (hdown _ _).2 hue⟩
      have hss' := hss s hs
      have hl : ∃ t r, (s, t, r) ∈ out.nsr := by
        refine (listed_iff hd hac hf hout hss').2 ?_
        by_cases hself : d s = s
        · have : e = s := Reaches.of_fixed hself (hon s ((hdown _ _).1 hus))
          subst this
          exact .inr ⟨m, hme, hms, hm⟩
        · exact .inl hself
      obtain ⟨t, r, hr⟩ := hl
      have ht := (r3 _ _ _ hr).2.1
      obtain ⟨row, hrow, hre⟩ := List.mem_map.1 ((hmem s t).2 ⟨r, hr⟩)
      simp only [Prod.mk.injEq] at hre
      exact ⟨row, hrow, by rw [hre.2, hseg, ht], s, hre.1, (hdown _ _).1 hus⟩
  · intro hec hno
    have hes := (hsa e).2 hec
    obtain ⟨w, hw, hmin⟩ := hfirst
    refine ⟨w, hw, hmin, ?_⟩
    obtain ⟨s, ⟨hs, hus⟩, hseg⟩ := x2 ⟨e, hposs e hes, (hdown _ _).2 hue⟩
    have hse : s = e := by
      by_contra hse
      obtain ⟨k, hk⟩ := hon s ((hdown _ _).1 hus)
      have hss' := hss s hs
      clear hs hus hseg
      induction k generalizing s with
      | zero => exact hse hk
      | succ k ih =>
        by_cases hm' : d s = e
        · exact absurd ((hsa s).1 hss') (not_le.2 (hno s hse hm'))
        · exact ih (d s) hm' (by rwa [Function.iterate_succ_apply] at hk) (hcl s hss')
    subst hse
    have hr := hstray s hes (fun t r hr => by
      rcases (listed_iff hd hac hf hout hes).1 ⟨t, r, hr⟩ with h | ⟨m, hm, hms, hmd⟩
      · exact h he
      · exact absurd ((hsa m).1 hms) (not_le.2 (hno m hm hmd))) w hw hmin
    obtain ⟨row, hrow, hre⟩ := List.mem_map.1 ((hmem w _).2 ⟨1, hr⟩)
    simp only [Prod.mk.injEq] at hre
    exact ⟨row, hrow, hre.1, by rw [hre.2, hseg]⟩

/-- **C169** (true part).  If every outlet on the stream receives another stream cell, the segment that the SFR builder's
`irunbnd` names for a cell, if any, has a reach on the way of the water from that cell. -/
theorem C169_partial (hd : Legal fdir d) (hends : ∀ n, ∃ e, Reaches d n e ∧ d e = e) (hac : ∀ n, ¬ OnCycle d n)
    (hpos : ∀ u, 0 ≤ area u)
    (ho : Acc.flowAccumulation afuel fdir area false = .ok facc) (hob : ob.fdir = fdir)
    (hdl : Delin.delineate (fun n => some (facc n)) ob (.number c) none = .ok (ob', sa))
    (hf : N ≤ fuel) (hcf : N + 1 < cfuel) {K' : Type*} [Field K'] [LinearOrder K'] {G : Rdata.SGrid N K'} {dflt : Bool}
    {q' : Rdata.Obj N} {rows : List (Rdata.Row K')} {segs : List (Rdata.SRow K')} {irun : Fin N → ℤ}
    (h : (⟨fdir, some sa, none⟩ : Rdata.Obj N).builder limit fuel cfuel G none none none dflt true [] =
      .ok (q', rows, segs, irun))
    (htrib : ∀ e, d e = e → c ≤ facc e → ∃ m, m ≠ e ∧ d m = e ∧ c ≤ facc m) (u : Fin N) (hu : irun u ≠ 0) :
    ∃ row ∈ rows, row.iseg = irun u ∧ ∃ v : Fin N, row.node = ((v : ℕ) : ℤ) ∧ Reaches d u v := by
  obtain ⟨e, hue, he⟩ := hends u
  obtain ⟨x1, x2, _⟩ := C169_exact hd hac hpos ho hob hdl hf hcf h hue he
  exact x2.2 (htrib e he (x1.1 hu))

/-- **C169 is false of the code.**  Whenever an outlet is the only stream cell of its river, `irunbnd` sends the runoff of
every cell that drains to it to a segment no reach of which its water ever passes. -/
theorem C169_refuted (hd : Legal fdir d) (hac : ∀ n, ¬ OnCycle d n) (hpos : ∀ u, 0 ≤ area u)
    (ho : Acc.flowAccumulation afuel fdir area false = .ok facc) (hob : ob.fdir = fdir)
    (hdl : Delin.delineate (fun n => some (facc n)) ob (.number c) none = .ok (ob', sa))
    (hf : N ≤ fuel) (hcf : N + 1 < cfuel) {K' : Type*} [Field K'] [LinearOrder K'] {G : Rdata.SGrid N K'} {dflt : Bool}
    {q' : Rdata.Obj N} {rows : List (Rdata.Row K')} {segs : List (Rdata.SRow K')} {irun : Fin N → ℤ}
    (h : (⟨fdir, some sa, none⟩ : Rdata.Obj N).builder limit fuel cfuel G none none none dflt true [] =
      .ok (q', rows, segs, irun))
    {e : Fin N} (he : d e = e) (hec : c ≤ facc e) (halone : ∀ m, m ≠ e → d m = e → facc m < c) :
    ∀ u, Reaches d u e → (∃ row ∈ rows, row.iseg = irun u) ∧
      ∀ row ∈ rows, row.iseg = irun u → ∀ v : Fin N, row.node = ((v : ℕ) : ℤ) → ¬ Reaches d u v := by
  intro u hue
  obtain ⟨_, x2, x3⟩ := C169_exact hd hac hpos ho hob hdl hf hcf h hue he
  obtain ⟨w, _, _, row, hrow, _, hseg⟩ := x3 hec halone
  refine ⟨⟨row, hrow, hseg⟩, fun row' hrow' hs v hv huv => ?_⟩
  obtain ⟨m, hm, hmd, hmc⟩ := x2.1 ⟨row', hrow', hs, v, hv, huv⟩
  exact absurd hmc (not_le.2 (halone m hm hmd))

end Sfr

/-! ### Both halves -/

section Both

variable {N : ℕ} {limit fuel cfuel : ℕ} {fdir sa : Fin N → ℤ} {d : Fin N → Fin N} {area facc : Fin N → ℝ} {afuel : ℕ} {c : ℝ}
  {ob ob' : Reach.Obj N}

/-- **C168**, both halves.  On flow directions without circles, streams delineated by a threshold from the accumulation, at
least one stream cell flowing to another cell: the SFR builder and the PRMS builder of the pyGSFLOW interface both return
(grouped segments, the default), and fit together: equally many segments; and if every outlet on the stream receives another
stream cell, equally many reaches, and every cascade link into a stream cell finds its cell once in the reach table and its
segment in the segment table. -/
theorem C168_both (hd : Legal fdir d) (hac : ∀ n, ¬ OnCycle d n) (hpos : ∀ u, 0 ≤ area u)
    (ho : Acc.flowAccumulation afuel fdir area false = .ok facc) (hob : ob.fdir = fdir)
    (hdl : Delin.delineate (fun n => some (facc n)) ob (.number c) none = .ok (ob', sa))
    (hf : N ≤ fuel) (hcf : N + 1 < cfuel) (hl : SegsFit fdir sa limit) (hst : ∃ n, d n ≠ n ∧ c ≤ facc n)
    (G : Rdata.SGrid N ℝ) (nbs : Fin N → List (Fin N × Option ℝ)) (fa : Prms.Fa N) (hfa : fa.fdir = fdir)
    (active : Fin N → Bool) (many dflt : Bool) :
    ∃ o' b q' rows segs irun,
      Prms.builder limit fuel false nbs fa ⟨fdir, some sa, none⟩ none active true many = .ok (o', b) ∧
      (⟨fdir, some sa, none⟩ : Rdata.Obj N).builder limit fuel cfuel G none none none dflt true [] =
        .ok (q', rows, segs, irun) ∧
      b.nsegments = segs.length ∧
      ((∀ e, d e = e → c ≤ facc e → ∃ m, m ≠ e ∧ d m = e ∧ c ≤ facc m) → b.nreaches = rows.length ∧
        ∀ link ∈ b.rows, ∃ m : Fin N, link.down = ((m : ℕ) : ℤ) + 1 ∧ (c ≤ facc m →
          (rows.map (fun r => (r.node, r.iseg))).count (((m : ℕ) : ℤ), link.strmseg) = 1 ∧
          ∃ g ∈ segs, g.nseg = link.strmseg) ∧ (facc m < c → link.strmseg = 0)) := by
  obtain ⟨hsa, _, hcl⟩ := streams hd hac hpos ho hob hdl
  obtain ⟨⟨q', rows, segs, irun⟩, hq⟩ := (C168_sfr hd hac hpos ho hob hdl hf hcf hl G dflt).1 hst
  obtain ⟨⟨o', b⟩, hb⟩ := Prms.C88_succeeds (limit := limit) (fuel := fuel) (u := false) (nbs := nbs) (fa := fa)
    (o := ⟨fdir, some sa, none⟩) (arg := none) (active := active) (many := many) (group := true) hd ⟨d, hfa ▸ hd⟩ hf
    (by rw [if_pos rfl]; exact hl) (sa := sa) rfl (.inr rfl)
  obtain ⟨k1, k2, k3⟩ := Prms.C164_coupling (o := ⟨fdir, some sa, none⟩) (q := ⟨fdir, some sa, none⟩) hd hf rfl rfl
    (sa := sa) rfl rfl hb hq
  refine ⟨o', b, q', rows, segs, irun, hb, hq, k1, fun htrib => ?_⟩
  have hhead : Prms.Headed fdir sa := by
    rw [headed_iff hd hac]
    intro e he hee
    obtain ⟨m, h1, h2, h3⟩ := htrib e hee ((hsa e).1 he)
    exact ⟨m, h1, (hsa m).2 h3, h2⟩
  refine ⟨k2 hhead, fun link hlink => ?_⟩
  obtain ⟨m, h1, _, h3, h4⟩ := k3 link hlink
  refine ⟨m, h1, fun hm => (h4 hhead ((hsa m).2 hm)).2, fun hm => (h3 ?_).1⟩
  by_contra h0
  exact absurd ((hsa m).1 h0) (not_le.2 hm)

/-- **C169 is false of the code**, cascades.  The PRMS cascades into an outlet that is the only stream cell of its river name
the segment that begins at the lowest-numbered headwater of the grid, although the SFR table of the same streams lists the
receiving cell nowhere. -/
theorem C169_cascades_refuted (hd : Legal fdir d) (hac : ∀ n, ¬ OnCycle d n) (hpos : ∀ u, 0 ≤ area u)
    (ho : Acc.flowAccumulation afuel fdir area false = .ok facc) (hob : ob.fdir = fdir)
    (hdl : Delin.delineate (fun n => some (facc n)) ob (.number c) none = .ok (ob', sa))
    (hf : N ≤ fuel) {nbs : Fin N → List (Fin N × Option ℝ)} {fa : Prms.Fa N} {active : Fin N → Bool} {many dflt : Bool}
    {o' : Reach.Obj N} {b : Prms.Builder N} {G : Rdata.SGrid N ℝ} {q' : Rdata.Obj N} {rows : List (Rdata.Row ℝ)}
    {segs : List (Rdata.SRow ℝ)} {irun : Fin N → ℤ}
    (hb : Prms.builder limit fuel false nbs fa ⟨fdir, some sa, none⟩ none active true many = .ok (o', b))
    (hq : (⟨fdir, some sa, none⟩ : Rdata.Obj N).builder limit fuel cfuel G none none none dflt true [] =
      .ok (q', rows, segs, irun))
    {e : Fin N} (he : d e = e) (hec : c ≤ facc e) (halone : ∀ m, m ≠ e → d m = e → facc m < c)
    {w : Fin N} (hw : Headwater fdir sa w) (hmin : ∀ w', Headwater fdir sa w' → w ≤ w')
    {link : Casc.Row ℝ} (hlink : link ∈ b.rows) (hdown : link.down = ((e : ℕ) : ℤ) + 1) :
    (∃ row ∈ rows, row.node = ((w : ℕ) : ℤ) ∧ row.iseg = link.strmseg) ∧ link.strmseg ≠ 0 ∧
      ∀ row ∈ rows, row.node ≠ ((e : ℕ) : ℤ) := by
  obtain ⟨hsa, hone, hcl⟩ := streams hd hac hpos ho hob hdl
  obtain ⟨out, hout, hperm, _, _⟩ := Prms.sfr_builder hf rfl rfl hq
  rw [show (⟨fdir, some sa, none⟩ : Rdata.Obj N).fdir = fdir from rfl] at hout
  obtain ⟨o1, g, sa1, h1, h2, _⟩ := Prms.builder_inv hb
  have h1' : Prms.connect limit fuel false (⟨fdir, some sa, none⟩ : Reach.Obj N) none true = .ok
      (⟨fdir, some out.sa, some (Vec.asGraph out.graph)⟩, out.sg) := by
    unfold Prms.connect
    rw [if_pos rfl]
    show (Res.ok sa).bind _ = _
    rw [Res.bind_ok]
    show (mf2005 limit fuel false fdir sa true).map _ = _
    rw [hout]; rfl
  rw [h1'] at h1
  simp only [Res.ok.injEq, Prod.mk.injEq] at h1
  obtain ⟨rfl, rfl⟩ := h1
  have h2' : Casc.getCascades limit nbs ⟨fdir, some out.sa, some (Vec.asGraph out.graph)⟩ (some out.sa) active
      many = .ok (o', b.rows) := h2
  obtain ⟨a, m, _, hm, hseg⟩ := (Prms.rows_spec (o := ⟨fdir, some out.sa, some (Vec.asGraph out.graph)⟩) hd (by simp) h2').2
    link hlink
  have hme : m = e := Fin.ext (by omega)
  subst hme
  have hno : ∀ t r, (m, t, r) ∉ out.nsr := fun t r hr => by
    rcases (listed_iff hd hac hf hout ((hsa m).2 hec)).1 ⟨t, r, hr⟩ with h | ⟨x, hx, hxs, hxd⟩
    · exact h he
    · exact absurd ((hsa x).1 hxs) (not_le.2 (halone x hx hxd))
  obtain ⟨k1, k2⟩ := (C169_array hf hout hno).1 w (hone m ((hsa m).2 hec)) hw hmin
  refine ⟨?_, ?_, fun row hrow hn => ?_⟩
  · have : (((w : ℕ) : ℤ), out.sa m) ∈ rows.map (fun r => (r.node, r.iseg)) :=
      hperm.mem_iff.2 (List.mem_map.2 ⟨_, k2, rfl⟩)
    obtain ⟨row, hrow, hre⟩ := List.mem_map.1 this
    simp only [Prod.mk.injEq] at hre
    exact ⟨row, hrow, hre.1, by rw [hre.2, hseg]⟩
  · have h3 := ((((C58_numbers hf hout).2.2.1 _).1 (((C58_numbers hf hout).2.2.2 _).2 ⟨w, 1, k2⟩))).1
    rw [hseg]; omega
  · have hx : (row.node, row.iseg) ∈ out.nsr.map (fun x => (((x.1 : ℕ) : ℤ), x.2.1)) :=
      hperm.mem_iff.1 (List.mem_map.2 ⟨row, hrow, rfl⟩)
    obtain ⟨⟨n, s, r⟩, hr, hre⟩ := List.mem_map.1 hx
    simp only [Prod.mk.injEq] at hre
    have : n = m := Fin.ext (by rw [hn] at hre; exact_mod_cast hre.1)
    subst this
    exact hno s r hr

end Both

section Structured

variable {nrow ncol : ℕ} {g : Flood.Grid (nrow * ncol)} {L : Layout nrow ncol} {b lo hi eps flood thr big : ℝ}
  {dem : Fin (nrow * ncol) → ℝ}

/-- **C168**, from the DEM on.  On every structured grid of 2 to 999999 cells, for every DEM: fill the sinks, name the edge
cells without lower neighbour as terminal cells (tied with other cells at most in easy ties, `CleanEnds`),
route, accumulate, and delineate streams by any threshold that leaves a stream cell flowing to another one.  Then the two
builder objects of a GSFLOW model are returned — no exception, whatever the numbers of rows and columns — if the recursion
limit exceeds the number of segments, and they fit together. -/
theorem C168_structured (hq : Queen g) (hv : g.iverts = Edge.structuredVerts nrow ncol) (h2 : 2 ≤ nrow * ncol)
    (hN : nrow * ncol < 1000000) (hb : 0 < b) (hr : ∀ k, b ≤ L.delr k) (hc : ∀ k, b ≤ L.delc k) (he : 0 < eps)
    (hlo : ∀ n, lo ≤ dem n) (hhi : ∀ n, dem n ≤ hi) (hbig : hi + (nrow * ncol : ℕ) * eps - lo < big * b)
    (htop : hi + (nrow * ncol : ℕ) * eps < big) :
    ∃ f out, (∀ fuel, nrow * ncol + 1 ≤ fuel → Flood.fillSinks fuel (· + eps) flood g dem none "priority" = .ok f) ∧
      (∀ fuel, 10 * (nrow * ncol) + 11 ≤ fuel → Dirs.flowDirections fuel L.geo (Dirs.filled f) big
        (Dirs.table (nbrs g)) thr (ends g none f) = .ok out) ∧
      (Dirs.CleanEnds L.geo (Dirs.filled f) thr (ends g none f) (nbrs g) →
        ∃ facc, (∀ fuel, nrow * ncol < fuel →
            Acc.flowAccumulation fuel out (fun n => L.delr (colOf n) * L.delc (rowOf n)) false = .ok facc) ∧
          ∀ c, ∃ sa, Delin.delineate (fun n => some (facc n)) ⟨out, none, none⟩ (.number c) none =
              .ok (⟨out, some sa, none⟩, sa) ∧
            ((∃ n, out n ≠ ((n : ℕ) : ℤ) ∧ c ≤ facc n) → ∀ limit, nSeg out sa + 1 ≤ limit →
              ∀ (G : Rdata.SGrid (nrow * ncol) ℝ) (fa : Prms.Fa (nrow * ncol)), fa.fdir = out →
              ∀ active many dflt fuel, nrow * ncol + 2 ≤ fuel → ∃ o' bd q' rows segs irun,
                Prms.builder limit fuel false (slopeTable L.geo (Dirs.filled f) thr big (nbrs g)) fa ⟨out, some sa, none⟩
                  none active true many = .ok (o', bd) ∧
                (⟨out, some sa, none⟩ : Rdata.Obj (nrow * ncol)).builder limit fuel fuel G none none none dflt true [] =
                  .ok (q', rows, segs, irun) ∧
                bd.nsegments = segs.length ∧
                ((∀ e, out e = ((e : ℕ) : ℤ) → c ≤ facc e → ∃ m, m ≠ e ∧ out m = ((e : ℕ) : ℤ) ∧ c ≤ facc m) →
                  bd.nreaches = rows.length ∧
                  ∀ link ∈ bd.rows, ∃ m : Fin (nrow * ncol), link.down = ((m : ℕ) : ℤ) + 1 ∧ (c ≤ facc m →
                    (rows.map (fun r => (r.node, r.iseg))).count (((m : ℕ) : ℤ), link.strmseg) = 1 ∧
                    ∃ g ∈ segs, g.nseg = link.strmseg) ∧ (facc m < c → link.strmseg = 0)))) := by
  obtain ⟨f, out, hf, hout, hend⟩ := C160_chain (flood := flood) (thr := thr) hq hv h2 hN hb hr hc he hlo hhi hbig htop
  refine ⟨f, out, hf, hout, fun hclean => ?_⟩
  obtain ⟨d, hd, hac, _, hends⟩ := hend hclean
  obtain ⟨facc, hfacc, _⟩ := C160_accumulation (L := L) hd (fun n => by
    obtain ⟨e, e1, e2, _⟩ := hends n
    exact ⟨e, e1, e2⟩)
  refine ⟨facc, hfacc, fun c => ?_⟩
  obtain ⟨sa, hsa, _⟩ := Delin.C44_number (facc := fun n => some (facc n))
    (o := (⟨out, none, none⟩ : Reach.Obj (nrow * ncol))) c
  have hiff : ∀ x y : Fin (nrow * ncol), out x = ((y : ℕ) : ℤ) ↔ d x = y := by
    intro x y
    rw [hd x]
    constructor
    · intro h; exact Fin.ext (by exact_mod_cast h)
    · rintro rfl; rfl
  refine ⟨sa, hsa, ?_⟩
  rintro ⟨n, hn, hnc⟩ limit hlim G fa hfa active many dflt fuel hfuel
  obtain ⟨o', bd, q', rows, segs, irun, k1, k2, k3, k4⟩ := C168_both (ob := ⟨out, none, none⟩) (fuel := fuel) (cfuel := fuel)
    hd hac (area := fun n => L.delr (colOf n) * L.delc (rowOf n))
    (fun u => mul_nonneg (hb.le.trans (hr _)) (hb.le.trans (hc _))) (hfacc _ (Nat.lt_succ_self _)) rfl hsa (by omega)
    (by omega) (segsFit_of_count hlim) ⟨n, fun h => hn ((hiff n n).2 h), hnc⟩ G
    (slopeTable L.geo (Dirs.filled f) thr big (nbrs g)) fa hfa active many dflt
  refine ⟨o', bd, q', rows, segs, irun, k1, k2, k3, fun htrib => k4 fun e hee hec => ?_⟩
  obtain ⟨m, m1, m2, m3⟩ := htrib e ((hiff e e).2 hee) hec
  exact ⟨m, m1, (hiff m e).1 m2, m3⟩

end Structured

/-! ### Concrete cases -/

/-- two rivers in a row of five cells: 0 → 1 → 2 and 4 → 3 -/
def fd5 : Fin 5 → ℤ := ![1, 2, 2, 3, 3]

def nx5 : Fin 5 → Fin 5 := ![1, 2, 2, 3, 3]

theorem legal5 : Legal fd5 nx5 := by unfold Legal; decide +kernel

theorem acyclic5 (n : Fin 5) : ¬ OnCycle nx5 n := by
  rw [onCycle_iff]
  rintro ⟨h1, k, hk⟩
  have key : ∀ n : Fin 5, ∀ k, nx5 n ≠ n → nx5^[k] (nx5 n) = 2 ∨ nx5^[k] (nx5 n) = 3 ∨ (n = 0 ∧ nx5^[k] (nx5 n) = 1) := by
    intro n k hn
    induction k with
    | zero => revert hn; revert n; decide +kernel
    | succ k ih =>
      rw [Function.iterate_succ_apply']
      rcases ih with h | h | ⟨rfl, h⟩
      · rw [h]; exact .inl (by decide)
      · rw [h]; exact .inr (.inl (by decide))
      · rw [h]; exact .inl (by decide)
  have := key n k h1
  rw [hk] at this
  rcases this with h | h | ⟨h, h'⟩
  · subst h; exact h1 (by decide)
  · subst h; exact h1 (by decide)
  · rw [h] at h'; exact absurd h' (by decide)

def facc5 : Fin 5 → ℚ := ![1, 2, 3, 2, 1]

theorem acc5 : Acc.flowAccumulation 6 fd5 (fun _ : Fin 5 => (1 : ℚ)) false = .ok facc5 := by decide +kernel

def G5 : Rdata.SGrid 5 ℚ :=
  ⟨5, fun n => n.val, fun _ => 0, fun n => some (5 - n.val), fun _ => 1, fun _ => 1, fun x => x⟩

/-- with threshold 2 the second river has one stream cell, its outlet 3: the runoff of cells 3 and 4 is sent to
segment 1, which begins in cell 1 and belongs to the other river -/
theorem C169_refuted_concrete :
    (Delin.delineate (fun n => some (facc5 n)) ⟨fd5, none, none⟩ (.number 2) none).map (fun r => List.ofFn r.2) =
      .ok [0, 1, 1, 1, 0] ∧
    ((⟨fd5, some ![0, 1, 1, 1, 0], none⟩ : Rdata.Obj 5).builder 9 9 9 G5 none none none true true []).map
      (fun r => (r.2.1.map (fun x => (x.node, x.iseg)), List.ofFn r.2.2.2)) =
      .ok ([(1, 1), (2, 2)], [1, 2, 2, 1, 1]) := by
  decide +kernel

/-- hypotheses of C168_sfr, C169_exact and C169_refuted hold there -/
example : ∃ ob' sa q' rows segs irun,
    Delin.delineate (fun n => some (facc5 n)) ⟨fd5, none, none⟩ (.number 2) none = .ok (ob', sa) ∧
    (⟨fd5, some sa, none⟩ : Rdata.Obj 5).builder 9 9 9 G5 none none none true true [] = .ok (q', rows, segs, irun) ∧
    (∃ row ∈ rows, row.iseg = irun 4) ∧
    ∀ row ∈ rows, row.iseg = irun 4 → ∀ v : Fin 5, row.node = ((v : ℕ) : ℤ) → ¬ Reaches nx5 4 v := by
  obtain ⟨sa, hsa, _⟩ := Delin.C44_number (facc := fun n => some (facc5 n)) (o := (⟨fd5, none, none⟩ : Reach.Obj 5)) 2
  have hl : SegsFit fd5 sa 9 := segsFit_of_count (by
    have h1 := Prms.nSeg_le fd5 sa
    have h2 : Reach.nStream sa ≤ 5 := by
      unfold Reach.nStream
      exact (Finset.card_le_univ _).trans (by simp)
    omega)
  obtain ⟨⟨q', rows, segs, irun⟩, h⟩ := (C168_sfr (ob := ⟨fd5, none, none⟩) (fuel := 9) (cfuel := 9) legal5 acyclic5
    (fun _ => by norm_num) acc5 rfl hsa (by norm_num) (by norm_num) hl G5 true).1 ⟨1, by decide, by decide +kernel⟩
  have hr := C169_refuted (ob := ⟨fd5, none, none⟩) (fuel := 9) (cfuel := 9) legal5 acyclic5
    (fun _ => by norm_num) acc5 rfl hsa (by norm_num) (by norm_num) h (e := 3) (by decide) (by decide +kernel)
    (by decide +kernel) 4 ⟨1, by decide⟩
  exact ⟨_, sa, q', rows, segs, irun, hsa, h, hr⟩

/-- with threshold 1 every outlet has a tributary: the builders return and all runoff finds its own river -/
example : ∃ ob' sa q' rows segs irun,
    Delin.delineate (fun n => some (facc5 n)) ⟨fd5, none, none⟩ (.number 1) none = .ok (ob', sa) ∧
    (⟨fd5, some sa, none⟩ : Rdata.Obj 5).builder 9 9 9 G5 none none none true true [] = .ok (q', rows, segs, irun) ∧
    ∀ u, irun u ≠ 0 → ∃ row ∈ rows, row.iseg = irun u ∧ ∃ v : Fin 5, row.node = ((v : ℕ) : ℤ) ∧ Reaches nx5 u v := by
  obtain ⟨sa, hsa, _⟩ := Delin.C44_number (facc := fun n => some (facc5 n)) (o := (⟨fd5, none, none⟩ : Reach.Obj 5)) 1
  have hl : SegsFit fd5 sa 9 := segsFit_of_count (by
    have h1 := Prms.nSeg_le fd5 sa
    have h2 : Reach.nStream sa ≤ 5 := by
      unfold Reach.nStream
      exact (Finset.card_le_univ _).trans (by simp)
    omega)
  obtain ⟨⟨q', rows, segs, irun⟩, h⟩ := (C168_sfr (ob := ⟨fd5, none, none⟩) (fuel := 9) (cfuel := 9) legal5 acyclic5
    (fun _ => by norm_num) acc5 rfl hsa (by norm_num) (by norm_num) hl G5 true).1 ⟨1, by decide, by decide +kernel⟩
  refine ⟨_, sa, q', rows, segs, irun, hsa, h, fun u hu => C169_partial (ob := ⟨fd5, none, none⟩) (fuel := 9) (cfuel := 9)
    legal5 ?_ acyclic5 (fun _ => by norm_num) acc5 rfl hsa (by norm_num) (by norm_num) h ?_ u hu⟩
  · intro n
    refine ⟨nx5 (nx5 n), ⟨2, rfl⟩, ?_⟩
    revert n; decide +kernel
  · decide +kernel

end Dany.Pipe
