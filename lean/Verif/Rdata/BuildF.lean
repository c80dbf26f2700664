import Verif.Rdata.Rounded
import Verif.Rdata.Witness

/-!
# C216: the builder in floating point

`get_pygsflow_builder_object` (stream_util.py:954-1072) with every operation rounded and single-precision columns.
-/

namespace Dany.Rdata

open Function Reach Seg Float

variable {N limit fuel cfuel : ℕ} {r : ℚ → ℚ} {G : SGrid N ℚ}

/-- the limits (stream_util.py:1057-1060); 0.0001 is a double -/
def clampF (r : ℚ → ℚ) (slope : Option ℚ) : Option ℚ :=
  slope.map fun s => if s > 1 then 1 else if s < r (1 / 10000) then r (1 / 10000) else s

/-- the slope before it is limited (stream_util.py:1047-1055) -/
def rawF (r : ℚ → ℚ) (G : SGrid N ℚ) (n m : Fin N) : Option ℚ :=
  if (geo r G).dist m n = 0 then some (r (1 / 1000)) else gradeF r G n m ((geo r G).dist m n)

/-- one iteration of the loop over the reaches (stream_util.py:1036-1065), as `fixRow`; the columns are single precision -/
def fixRowF (r : ℚ → ℚ) (G : SGrid N ℚ) (tbl : List (Row ℚ)) (rec : Row ℚ) : Res (Row ℚ) :=
  (if rec.outreach - 1 ≥ tbl.length then .ok rec.node
    else (pyIndex tbl.length (rec.outreach - 1)).map fun k => (tbl.get k).node).bind fun nodeDn =>
    (pyIndex N rec.node).bind fun n => (pyIndex N nodeDn).map fun m =>
      { rec with strtop := (G.top n).map rnd32, slope := (clampF r (rawF r G n m)).map rnd32, strhc1 := 1, strthick := 1 }

/-- the loop over the reaches -/
def fixRowsF (r : ℚ → ℚ) (G : SGrid N ℚ) (tbl : List (Row ℚ)) : List (Row ℚ) → Res (List (Row ℚ))
  | [] => .ok []
  | d :: l => (fixRowF r G tbl d).bind fun d' => (fixRowsF r G tbl l).map (d' :: ·)

/-- setting the defaults of segment data (stream_util.py:1067-1070): 0.025 is rounded twice, the others are exact -/
def fixSegF (s : SRow ℚ) : SRow ℚ :=
  { s with param := fun k => ((Dict.get? (segDefaults ℚ) k).map fun v => rnd32 (rnd64 v)).getD (s.param k) }

/-- `get_pygsflow_builder_object` (stream_util.py:954-1072), as `Obj.builder` -/
def Obj.builderF (limit fuel cfuel : ℕ) (r : ℚ → ℚ) (G : SGrid N ℚ) (o : Obj N) (rd : Option (List (Row ℚ)))
    (sd : Option (List (SRow ℚ))) (ir : Option (Fin N → ℤ)) (applyDefaults group : Bool) (kw : List String) :
    Res (Obj N × List (Row ℚ) × List (SRow ℚ) × (Fin N → ℤ)) :=
  (kwLoop kw).bind fun _ =>
    (orElse rd o (o.reachDataF limit fuel r G none group)).bind fun x =>
      (orElse sd x.1 (x.1.segmentData ℚ limit fuel none group)).bind fun s =>
        (orElse ir s.1 (s.1.irun limit fuel cfuel group)).bind fun i =>
          if applyDefaults = true then
            (fixRowsF r G x.2 x.2).map fun rows => (i.1, rows, s.2.map fixSegF, i.2)
          else .ok (i.1, x.2, s.2, i.2)

/-! ### the cells a row speaks of -/

/-- the cell of a row and the one its slope is computed to -/
def ends (N : ℕ) (tbl : List (Row ℚ)) (rec : Row ℚ) : Res (Fin N × Fin N) :=
  (if rec.outreach - 1 ≥ tbl.length then .ok rec.node
    else (pyIndex tbl.length (rec.outreach - 1)).map fun k => (tbl.get k).node).bind fun nodeDn =>
    (pyIndex N rec.node).bind fun n => (pyIndex N nodeDn).map fun m => (n, m)

/-- the row after the loop -/
def fixedF (r : ℚ → ℚ) (G : SGrid N ℚ) (rec : Row ℚ) (n m : Fin N) : Row ℚ :=
  { rec with strtop := (G.top n).map rnd32, slope := (clampF r (rawF r G n m)).map rnd32, strhc1 := 1, strthick := 1 }

theorem fixRow_ends (tbl : List (Row ℚ)) (rec : Row ℚ) :
    fixRow G tbl rec = (ends N tbl rec).map fun e => fixed G rec e.1 e.2 := by
  unfold fixRow ends
  cases (if rec.outreach - 1 ≥ tbl.length then Res.ok rec.node
    else (pyIndex tbl.length (rec.outreach - 1)).map fun k => (tbl.get k).node) with
  | err e => rfl
  | hang => rfl
  | ok nd =>
    simp only [Res.bind_ok]
    cases pyIndex N rec.node with
    | err e => rfl
    | hang => rfl
    | ok n =>
      simp only [Res.bind_ok]
      cases pyIndex N nd with
      | err e => rfl
      | hang => rfl
      | ok m =>
        simp only [Res.map_ok, Res.ok.injEq, fixed, rawSlope, SGrid.dist, SGrid.grade]
        by_cases h : G.sqrt ((G.xc n - G.xc m) ^ 2 + (G.yc n - G.yc m) ^ 2) = 0
        · simp [h]
        · simp only [h, if_false]
          cases G.top n <;> cases G.top m <;> rfl

theorem fixRowF_ends (tbl : List (Row ℚ)) (rec : Row ℚ) :
    fixRowF r G tbl rec = (ends N tbl rec).map fun e => fixedF r G rec e.1 e.2 := by
  unfold fixRowF ends
  cases (if rec.outreach - 1 ≥ tbl.length then Res.ok rec.node
    else (pyIndex tbl.length (rec.outreach - 1)).map fun k => (tbl.get k).node) with
  | err e => rfl
  | hang => rfl
  | ok nd =>
    simp only [Res.bind_ok]
    cases pyIndex N rec.node with
    | err e => rfl
    | hang => rfl
    | ok n =>
      simp only [Res.bind_ok]
      cases pyIndex N nd <;> rfl

theorem fixRowsF_ok {tbl l l' : List (Row ℚ)} (h : fixRowsF r G tbl l = .ok l') :
    List.Forall₂ (fun d d' => ∃ n m, ends N tbl d = .ok (n, m) ∧ d' = fixedF r G d n m) l l' := by
  induction l generalizing l' with
  | nil => cases h; exact .nil
  | cons d l ih =>
    rw [fixRowsF] at h
    obtain ⟨d', hd, h⟩ := Res.bind_eq_ok.1 h
    obtain ⟨l2, hl2, rfl⟩ := Res.map_eq_ok.1 h
    rw [fixRowF_ends] at hd
    obtain ⟨⟨n, m⟩, e, rfl⟩ := Res.map_eq_ok.1 hd
    exact .cons ⟨n, m, e, rfl⟩ (ih hl2)

theorem builderF_defaults {o o' : Obj N} {rd : Option (List (Row ℚ))} {sd : Option (List (SRow ℚ))}
    {ir : Option (Fin N → ℤ)} {grp : Bool} {kw : List String} {rows : List (Row ℚ)} {segs : List (SRow ℚ)}
    {irun : Fin N → ℤ}
    (h : o.builderF limit fuel cfuel r G rd sd ir true grp kw = .ok (o', rows, segs, irun)) :
    ∃ o1 o2 tbl stbl, orElse rd o (o.reachDataF limit fuel r G none grp) = .ok (o1, tbl) ∧
      orElse sd o1 (o1.segmentData ℚ limit fuel none grp) = .ok (o2, stbl) ∧
      orElse ir o2 (o2.irun limit fuel cfuel grp) = .ok (o', irun) ∧
      fixRowsF r G tbl tbl = .ok rows ∧ segs = stbl.map fixSegF := by
  unfold Obj.builderF at h
  obtain ⟨_, _, h⟩ := Res.bind_eq_ok.1 h
  obtain ⟨⟨o1, tbl⟩, h1, h⟩ := Res.bind_eq_ok.1 h
  obtain ⟨⟨o2, stbl⟩, h2, h⟩ := Res.bind_eq_ok.1 h
  obtain ⟨⟨o3, i⟩, h3, h⟩ := Res.bind_eq_ok.1 h
  rw [if_pos rfl] at h
  obtain ⟨x, hx, h⟩ := Res.map_eq_ok.1 h
  simp only [Prod.mk.injEq] at h
  obtain ⟨rfl, rfl, rfl, rfl⟩ := h
  exact ⟨o1, o2, tbl, stbl, h1, h2, h3, hx, rfl⟩

/-! ### the builder runs as in exact arithmetic -/

/-- the same row but for rounding -/
def RoundRow (w w' : Row ℚ) : Prop :=
  w'.strtop = w.strtop.map rnd32 ∧ w' = { w with rchlen := w'.rchlen, slope := w'.slope, strtop := w'.strtop }

theorem ends_congr {tbl tbl' : List (Row ℚ)} (h : List.Forall₂ (fun w w' : Row ℚ => w'.node = w.node) tbl tbl') {d d' : Row ℚ}
    (e2 : d'.node = d.node) (e1 : d'.outreach = d.outreach) : ends N tbl' d' = ends N tbl d := by
  have hl := h.length_eq
  have key : ∀ (A B : ℕ) (hAB : A = B) (i : ℤ) (f : Fin A → ℤ) (g : Fin B → ℤ), (∀ k, f k = g (k.cast hAB)) →
      (pyIndex A i).map f = (pyIndex B i).map g := by
    rintro A B rfl i f g hfg
    have : f = g := funext hfg
    rw [this]
  have hp := key tbl'.length tbl.length hl.symm (d.outreach - 1) (fun k => (tbl'.get k).node) (fun k => (tbl.get k).node) (by
    intro k
    exact h.get (k.cast hl.symm).isLt k.isLt)
  unfold ends
  rw [e1, e2, hp]
  congr 1
  by_cases hc : d.outreach - 1 ≥ tbl.length
  · rw [if_pos hc, if_pos (by rw [← hl]; exact hc)]
  · rw [if_neg hc, if_neg (by rw [← hl]; exact hc)]

theorem ends_round {tbl tbl' : List (Row ℚ)} (h : List.Forall₂ RoundRow tbl tbl') {d d' : Row ℚ} (hd : RoundRow d d') :
    ends N tbl' d' = ends N tbl d :=
  ends_congr (h.imp fun _ _ hw => by rw [hw.2]) (by rw [hd.2]) (by rw [hd.2])

theorem fixRowsF_round {tbl tbl' : List (Row ℚ)} (h : List.Forall₂ RoundRow tbl tbl') {l l' : List (Row ℚ)}
    (hl : List.Forall₂ RoundRow l l') : Corr (List.Forall₂ RoundRow) (fixRows G tbl l) (fixRowsF r G tbl' l') := by
  induction hl with
  | nil => exact List.Forall₂.nil
  | @cons d d' l l' hd _ ih =>
    rw [fixRows, fixRowsF]
    refine corr_bind (R := RoundRow) ?_ fun u v huv => corr_map ih fun x y hxy => List.Forall₂.cons huv hxy
    rw [fixRow_ends, fixRowF_ends, ends_round h hd]
    refine corr_map (corr_refl (R := Eq) (fun _ => rfl) _) ?_
    rintro ⟨n, m⟩ _ rfl
    refine ⟨rfl, ?_⟩
    rw [hd.2]
    rfl

/-- **C216**: with rounding the builder returns or raises as in exact arithmetic, with the same segments and the same runoff
array; the reach table has the same rows but for length and slope, and the bed elevations are the single-precision
numbers next to the exact ones. -/
theorem C216_rows (o : Obj N) (sd : Option (List (SRow ℚ))) (ir : Option (Fin N → ℤ)) (dflt grp : Bool) (kw : List String)
    {rd rd' : Option (List (Row ℚ))} (hrd : (rd = none ∧ rd' = none) ∨ ∃ t t', rd = some t ∧ rd' = some t' ∧ List.Forall₂ RoundRow t t') :
    Corr (fun x y => y.1 = x.1 ∧ List.Forall₂ RoundRow x.2.1 y.2.1 ∧
        y.2.2.1.map (fun s => (s.nseg, s.outseg)) = x.2.2.1.map (fun s => (s.nseg, s.outseg)) ∧ y.2.2.2 = x.2.2.2)
      (o.builder limit fuel cfuel G rd sd ir dflt grp kw) (o.builderF limit fuel cfuel r G rd' sd ir dflt grp kw) := by
  unfold Obj.builder Obj.builderF
  refine corr_bind (R := Eq) (corr_refl (fun _ => rfl) _) ?_
  rintro _ _ rfl
  have h1 : Corr (fun (x y : Obj N × List (Row ℚ)) => y.1 = x.1 ∧ List.Forall₂ RoundRow x.2 y.2)
      (orElse rd o (o.reachData limit fuel G none grp)) (orElse rd' o (o.reachDataF limit fuel r G none grp)) := by
    rcases hrd with ⟨rfl, rfl⟩ | ⟨t, t', rfl, rfl, ht⟩
    · exact C214_rows limit fuel r G o none grp
    · exact ⟨rfl, ht⟩
  refine corr_bind h1 ?_
  rintro ⟨o1, t⟩ ⟨_, t'⟩ ⟨rfl, ht⟩
  refine corr_bind (R := Eq) (corr_refl (fun _ => rfl) _) ?_
  rintro ⟨o2, st⟩ _ rfl
  refine corr_bind (R := Eq) (corr_refl (fun _ => rfl) _) ?_
  rintro ⟨o3, i⟩ _ rfl
  cases dflt with
  | false => exact ⟨rfl, ht, rfl, rfl⟩
  | true =>
    simp only [if_true]
    refine corr_map (fixRowsF_round ht ht) fun x y h => ⟨rfl, h, ?_, rfl⟩
    simp [fixSeg, fixSegF, Function.comp_def]

/-! ### slopes -/

/-- the single-precision number next to 0.0001 -/
def minSlope : ℚ := rnd32 (rnd64 (1 / 10000))

theorem clampF_eq (x : ℚ) : clampF rnd64 (some x) = some (max (rnd64 (1 / 10000)) (min 1 x)) := by
  have hm : rnd64 (1 / 10000) ≤ 1 := by decide +kernel
  unfold clampF
  rw [Option.map_some, Option.some.injEq]
  split_ifs with h1 h2
  · rw [min_eq_left h1.le, max_eq_right hm]
  · rw [min_eq_right (not_lt.1 h1), max_eq_left h2.le]
  · rw [min_eq_right (not_lt.1 h1), max_eq_right (not_lt.1 h2)]

theorem clampF_range {x : Option ℚ} {s : ℚ} (h : (clampF rnd64 x).map rnd32 = some s) : minSlope ≤ s ∧ s ≤ 1 := by
  cases x with
  | none => cases h
  | some x =>
    rw [clampF_eq] at h
    cases h
    have h1 : rnd32 1 = 1 := by decide +kernel
    refine ⟨rnd32_nearest.mono (le_max_left _ _), ?_⟩
    rw [← h1]
    refine rnd32_nearest.mono (max_le ?_ ((min_le_left _ _).trans (by rw [h1])))
    rw [h1]
    decide +kernel

theorem clampF_isSome {x : Option ℚ} (h : x.isSome) : ∃ s, (clampF rnd64 x).map rnd32 = some s := by
  cases x with
  | none => cases h
  | some x => exact ⟨_, rfl⟩

theorem rawF_isSome (htop : ∀ n, G.top n ≠ none) (n m : Fin N) : (rawF r G n m).isSome := by
  obtain ⟨a, ha⟩ := Option.ne_none_iff_exists'.1 (htop n)
  obtain ⟨b, hb⟩ := Option.ne_none_iff_exists'.1 (htop m)
  unfold rawF gradeF
  rw [ha, hb]
  dsimp only
  split_ifs <;> rfl

/-- **C216** (limits): with `apply_defaults` every slope of the builder's reach table that is a number lies between the
single-precision number next to 0.0001 and 1, whatever the table of the caller held; if all elevations are known it is a number. -/
theorem C216_limits {o o' : Obj N} {rd : Option (List (Row ℚ))} {sd : Option (List (SRow ℚ))} {ir : Option (Fin N → ℤ)}
    {grp : Bool} {kw : List String} {rows : List (Row ℚ)} {segs : List (SRow ℚ)} {irun : Fin N → ℤ}
    (h : o.builderF limit fuel cfuel rnd64 G rd sd ir true grp kw = .ok (o', rows, segs, irun)) :
    ∀ row ∈ rows, (∀ s, row.slope = some s → minSlope ≤ s ∧ s ≤ 1) ∧
      ((∀ n, G.top n ≠ none) → ∃ s, row.slope = some s) := by
  obtain ⟨o1, o2, tbl, stbl, _, _, _, hr, _⟩ := builderF_defaults h
  intro row hrow
  obtain ⟨k, hk, rfl⟩ := List.mem_iff_getElem.1 hrow
  have hf := fixRowsF_ok hr
  obtain ⟨n, m, -, e⟩ := hf.get (hf.length_eq ▸ hk) hk
  simp only [List.get_eq_getElem] at e
  rw [e]
  exact ⟨fun s hs => clampF_range hs, fun htop => clampF_isSome (rawF_isSome htop n m)⟩

/-- the stored lower limit is less than the 0.0001 the program compares with -/
theorem C216_below : minSlope < 1 / 10000 ∧ minSlope < rnd64 (1 / 10000) ∧ (1 - 1 / 2 ^ 24) / 10000 ≤ minSlope := by
  refine ⟨?_, ?_, ?_⟩ <;> decide +kernel

/-- **C216** (which slope): every slope of the builder's own reach table is the limited, rounded slope from the row's cell to the
cell of the last row (C80). -/
theorem C216_own (hf : N ≤ fuel) {o o' : Obj N} (hs : o.Sound limit fuel)
    {sd : Option (List (SRow ℚ))} {ir : Option (Fin N → ℤ)} {grp : Bool} {kw : List String}
    {rows : List (Row ℚ)} {segs : List (SRow ℚ)} {irun : Fin N → ℤ}
    (h : o.builderF limit fuel cfuel r G none sd ir true grp kw = .ok (o', rows, segs, irun)) :
    ∃ last lastRow, rows.getLast? = some lastRow ∧ lastRow.node = ((last : Fin N).val : ℤ) ∧
      ∀ row ∈ rows, ∃ n : Fin N, row.node = n.val ∧ row.strtop = (G.top n).map rnd32 ∧
        row.slope = (clampF r (rawF r G n last)).map rnd32 := by
  obtain ⟨o1, o2, tbl, stbl, h1, _, _, hr, _⟩ := builderF_defaults h
  have h1 : o.reachDataF limit fuel r G none grp = .ok (o1, tbl) := h1
  have hrel := C214_rows limit fuel r G o none grp
  rw [h1] at hrel
  cases hx : o.reachData limit fuel G none grp with
  | err e => rw [hx] at hrel; exact hrel.elim
  | hang => rw [hx] at hrel; exact hrel.elim
  | ok x =>
    rw [hx] at hrel
    obtain ⟨o1', t⟩ := x
    obtain ⟨-, hrel⟩ := hrel
    have hne : t ≠ [] := by
      rintro rfl
      unfold Obj.reachData at hx
      obtain ⟨x, _, hx⟩ := Res.bind_eq_ok.1 hx
      obtain ⟨t, ht, hx⟩ := Res.map_eq_ok.1 hx
      simp only [Prod.mk.injEq] at hx
      rw [hx.2] at ht
      unfold reachTable at ht
      obtain ⟨_, _, ht⟩ := Res.bind_eq_ok.1 ht
      obtain ⟨y, _, ht⟩ := Res.bind_eq_ok.1 ht
      unfold toTable at ht
      split at ht
      · cases ht
      · rename_i hy
        simp only [Res.ok.injEq, List.map_eq_nil_iff] at ht
        exact hy ht
    have hpos := List.length_pos_iff.2 hne
    have hlen : t.length = tbl.length := hrel.length_eq
    obtain ⟨sg, nsr, sa, ss, _, _, _, _, _, htbl⟩ := reachData_ok hf hs hx
    have hprops : ∀ (k : ℕ) (hk : k < tbl.length), ∃ n : Fin N, tbl[k].node = n.val ∧ tbl[k].outreach = 0 := by
      intro k hk
      obtain ⟨w, hmem, hr2⟩ : ∃ w ∈ t, tbl[k] = { w with rchlen := tbl[k].rchlen, slope := tbl[k].slope, strtop := tbl[k].strtop } :=
        ⟨t[k]'(hlen ▸ hk), List.getElem_mem _, (hrel.get (hlen ▸ hk) hk).2⟩
      rw [htbl] at hmem
      obtain ⟨⟨⟨n, s, q⟩, j⟩, hx, e⟩ := List.mem_map.1 hmem
      refine ⟨n, ?_, ?_⟩
      · rw [hr2]
        dsimp only
        rw [← e]
        show ((n.val / G.ncol * G.ncol + n.val % G.ncol : ℕ) : ℤ) = n.val
        rw [Nat.div_add_mod']
      · rw [hr2]
        dsimp only
        rw [← e]
        rfl
    have hpy : ∀ n : Fin N, pyIndex N ((n : ℕ) : ℤ) = .ok n := by
      intro n
      have := n.isLt
      unfold pyIndex
      rw [dif_pos ⟨by omega, by omega⟩]
      congr 1
    obtain ⟨last, hlast, _⟩ := hprops (tbl.length - 1) (by omega)
    have hfx := fixRowsF_ok hr
    have hrows := hfx.length_eq
    have hrow : ∀ (k : ℕ) (hk : k < tbl.length), ∃ n : Fin N, tbl[k].node = n.val ∧
        rows[k]'(hrows ▸ hk) = fixedF r G tbl[k] n last := by
      intro k hk
      obtain ⟨n, m, e1, e2⟩ := hfx.get hk (hrows ▸ hk)
      simp only [List.get_eq_getElem] at e1 e2
      obtain ⟨n', q1, q2⟩ := hprops k hk
      unfold ends at e1
      rw [if_neg (by rw [q2]; omega), q1, q2] at e1
      have hj : pyIndex tbl.length (0 - 1) = .ok ⟨tbl.length - 1, by omega⟩ := by
        unfold pyIndex
        rw [dif_neg (by omega), dif_pos (by omega)]
        simp only [Res.ok.injEq]
        apply Fin.ext
        simp only
        omega
      rw [hj] at e1
      simp only [Res.map_ok, Res.bind_ok, List.get_eq_getElem] at e1
      rw [hlast, hpy, hpy] at e1
      simp only [Res.map_ok, Res.bind_ok, Res.ok.injEq, Prod.mk.injEq] at e1
      obtain ⟨rfl, rfl⟩ := e1
      exact ⟨n', q1, e2⟩
    obtain ⟨nl, hnl, hrl⟩ := hrow (tbl.length - 1) (by omega)
    refine ⟨last, rows[tbl.length - 1]'(by omega), ?_, ?_, ?_⟩
    · rw [List.getLast?_eq_getElem?, show rows.length - 1 = tbl.length - 1 by omega]
      exact List.getElem?_eq_getElem _
    · rw [hrl]; exact hlast
    · intro row hrow'
      obtain ⟨k, hk, rfl⟩ := List.mem_iff_getElem.1 hrow'
      obtain ⟨n, e1, e2⟩ := hrow k (hrows ▸ hk)
      rw [e2]
      exact ⟨n, e1, rfl, rfl⟩

/-! ### errors -/

/-- a slope within the limits 0.0001 and 1 -/
noncomputable def limited (t : ℝ) : ℝ := max (1 / 10000) (min 1 t)

theorem limited_pos (t : ℝ) : 1 / 10000 ≤ limited t ∧ limited t ≤ 1 :=
  ⟨le_max_left _ _, max_le (by norm_num) (min_le_left _ _)⟩

/-- a slope that is right up to a fraction of 2^-46, or both slopes below the limit, gives a limited slope that is right up to a
fraction of 2^-23 -/
theorem limited_near {x : ℚ} {t : ℝ} (h : Near (1 / 2 ^ 46) (x : ℝ) t ∧ 0 ≤ t ∨ x ≤ 1 / 20000 ∧ t ≤ 1 / 20000) :
    ∃ s, (clampF rnd64 (some x)).map rnd32 = some s ∧ |(s : ℝ) - limited t| ≤ limited t / 2 ^ 23 := by
  have hm : Near (1 / 2 ^ 46) ((rnd64 (1 / 10000) : ℚ) : ℝ) (1 / 10000) := by
    have h1 : (1 / 10000 : ℚ) * (1 - 1 / 2 ^ 46) ≤ rnd64 (1 / 10000) := by decide +kernel
    have h2 : rnd64 (1 / 10000) ≤ (1 / 10000 : ℚ) * (1 + 1 / 2 ^ 46) := by decide +kernel
    have h1 := (Rat.cast_le (K := ℝ)).2 h1
    have h2 := (Rat.cast_le (K := ℝ)).2 h2
    push_cast at h1 h2
    exact ⟨h1, h2⟩
  set c : ℚ := max (rnd64 (1 / 10000)) (min 1 x) with hc
  have hcm : (c : ℝ) = max ((rnd64 (1 / 10000) : ℚ) : ℝ) (min 1 (x : ℝ)) := by rw [hc]; push_cast; rfl
  have hn : Near (1 / 2 ^ 46) (c : ℝ) (limited t) := by
    rcases h with ⟨h, ht⟩ | ⟨h1, h2⟩
    · have e1 : limited t * (1 - 1 / 2 ^ 46) = max (1 / 10000 * (1 - 1 / 2 ^ 46)) (min (1 * (1 - 1 / 2 ^ 46)) (t * (1 - 1 / 2 ^ 46))) := by
        unfold limited
        rw [max_mul_of_nonneg _ _ (by norm_num), min_mul_of_nonneg _ _ (by norm_num)]
      have e2 : limited t * (1 + 1 / 2 ^ 46) = max (1 / 10000 * (1 + 1 / 2 ^ 46)) (min (1 * (1 + 1 / 2 ^ 46)) (t * (1 + 1 / 2 ^ 46))) := by
        unfold limited
        rw [max_mul_of_nonneg _ _ (by norm_num), min_mul_of_nonneg _ _ (by norm_num)]
      rw [Near, e1, e2, hcm]
      exact ⟨max_le_max hm.1 (min_le_min (by norm_num) h.1), max_le_max hm.2 (min_le_min (by norm_num) h.2)⟩
    · have e1 : limited t = 1 / 10000 := by
        unfold limited
        rw [min_eq_right (by linarith), max_eq_left (by linarith)]
      have e2 : c = rnd64 (1 / 10000) := by
        have h3 : (1 / 20000 : ℚ) ≤ rnd64 (1 / 10000) := by decide +kernel
        rw [hc, min_eq_right (by linarith), max_eq_left (by linarith)]
      rw [e1, e2]
      exact hm
  have hl := limited_pos t
  have hl0 : 0 < limited t := lt_of_lt_of_le (by norm_num) hl.1
  have hcb : (2 : ℚ) ^ (-126 : ℤ) ≤ c := by
    have : (2 : ℚ) ^ (-126 : ℤ) ≤ rnd64 (1 / 10000) := by decide +kernel
    exact this.trans (le_max_left _ _)
  have hc0 : 0 < c := lt_of_lt_of_le (by positivity) hcb
  have n1 := near_of_rat hc0.le (rel_err (p := 24) (emin := -126) (by norm_num) rnd32_nearest (x := c) (by
    rw [abs_of_pos hc0]; exact hcb))
  have n2 := (n1.trans hn hl0.le (by norm_num) (by norm_num) (by norm_num)).weaken (v := 1 / 2 ^ 23) (by norm_num) hl0.le
  refine ⟨rnd32 c, by rw [clampF_eq, ← hc]; rfl, ?_⟩
  rw [abs_le]
  have e : limited t / 2 ^ 23 = limited t * (1 / 2 ^ 23) := by ring
  rw [e]
  constructor <;> nlinarith [n2.1, n2.2]

variable {nbr : Fin N → List (Fin N)}

/-- **C216** (accuracy): the slope of a row in cell `n` towards cell `m` is drop over distance, limited to 0.0001 and 1, up to a
fraction of 2^-23. -/
theorem C216_slope (hM : Machine (geo rnd64 G) nbr) {n m : Fin N} (hn : n ∈ nbr m) {a b : ℚ} (ha : G.top n = some a)
    (hb : G.top m = some b) (hda : a ∈ Double) (hdb : b ∈ Double) :
    ∃ s, (clampF rnd64 (rawF rnd64 G n m)).map rnd32 = some s ∧
      |(s : ℝ) - limited (((a - b : ℚ) : ℝ) / apart G n m)| ≤ limited (((a - b : ℚ) : ℝ) / apart G n m) / 2 ^ 23 := by
  have hd0 : 0 < (geo rnd64 G).dist m n := hM.dist_pos m n hn
  have hp : 0 < apart G n m := hM.way_pos hn
  have h1 := dist_near hM hn
  have hraw : rawF rnd64 G n m = some (rnd64 (rnd64 (a - b) / (geo rnd64 G).dist m n)) := by
    unfold rawF gradeF
    rw [if_neg hd0.ne', ha, hb]
    dsimp only
    rw [if_neg hd0.ne']
  rw [hraw]
  have hz : rnd64 0 = 0 := rnd64_nearest.exact (zero_mem _ _)
  rcases le_or_gt a b with hab | hab
  · refine limited_near (.inr ⟨?_, ?_⟩)
    · have k1 : rnd64 (a - b) ≤ 0 := by rw [← hz]; exact rnd64_nearest.mono (sub_nonpos.2 hab)
      have k2 : rnd64 (rnd64 (a - b) / (geo rnd64 G).dist m n) ≤ 0 := by
        have := rnd64_nearest.mono (div_nonpos_of_nonpos_of_nonneg k1 hd0.le)
        rwa [hz] at this
      exact k2.trans (by norm_num)
    · have k1 : ((a - b : ℚ) : ℝ) ≤ 0 := by exact_mod_cast sub_nonpos.2 hab
      exact (div_nonpos_of_nonpos_of_nonneg k1 hp.le).trans (by norm_num)
  · have hab0 : 0 < a - b := sub_pos.2 hab
    have e1 := add_err (p := 53) (emin := -1022) (by norm_num) rnd64_nearest hda (neg_mem hdb)
    rw [← sub_eq_add_neg] at e1
    have n1 := near_of_rat hab0.le e1
    have n2 := n1.div h1 (by exact_mod_cast hab0.le) hp (by norm_num) (by norm_num) (by norm_num) (by norm_num)
    set T : ℝ := ((a - b : ℚ) : ℝ) / apart G n m with hT
    have hT0 : 0 < T := div_pos (by exact_mod_cast hab0) hp
    have n2' : Near (1 / 2 ^ 47) ((rnd64 (a - b) / (geo rnd64 G).dist m n : ℚ) : ℝ) T := by
      push_cast
      exact n2.weaken (by norm_num) hT0.le
    set q : ℚ := rnd64 (a - b) / (geo rnd64 G).dist m n
    have hq0 : 0 < q := by
      have := n2'.pos (by norm_num) hT0
      exact_mod_cast this
    rcases le_or_gt ((2 : ℚ) ^ (-1022 : ℤ)) q with hq | hq
    · have n3 := near_of_rat hq0.le (rel_err (p := 53) (emin := -1022) (by norm_num) rnd64_nearest (x := q) (by
        rw [abs_of_pos hq0]; exact hq))
      exact limited_near (.inl ⟨(n3.trans n2' hT0.le (by norm_num) (by norm_num) (by norm_num)).weaken (by norm_num) hT0.le, hT0.le⟩)
    · have hb : (2 : ℚ) ^ (-1022 : ℤ) ≤ 1 / 40000 := by
        have : (2 : ℚ) ^ (-1022 : ℤ) ≤ 2 ^ (-20 : ℤ) := zpow_le_zpow_right₀ (by norm_num) (by norm_num)
        exact this.trans (by norm_num)
      refine limited_near (.inr ⟨?_, ?_⟩)
      · have h40 : rnd64 (1 / 40000) ≤ 1 / 20000 := by decide +kernel
        exact (rnd64_nearest.mono (hq.le.trans hb)).trans h40
      · have k1 : (q : ℝ) ≤ 1 / 40000 := by
          have := (Rat.cast_le (K := ℝ)).2 (hq.le.trans hb)
          push_cast at this
          exact this
        have k2 := n2'.1
        nlinarith

/-- **C216** (the table): the slopes of the builder's own table.  Coordinates are doubles, any two centres differ; the row of the
last cell has the single-precision number next to 0.001, every other row the limited slope towards the last cell. -/
theorem C216_table (hf : N ≤ fuel) {o o' : Obj N} (hs : o.Sound limit fuel)
    (hM : Machine (geo rnd64 G) fun n => (List.finRange N).filter (· ≠ n)) (h0 : G.sqrt 0 = 0)
    (htop : ∀ n v, G.top n = some v → v ∈ Double)
    {sd : Option (List (SRow ℚ))} {ir : Option (Fin N → ℤ)} {grp : Bool} {kw : List String}
    {rows : List (Row ℚ)} {segs : List (SRow ℚ)} {irun : Fin N → ℤ}
    (h : o.builderF limit fuel cfuel rnd64 G none sd ir true grp kw = .ok (o', rows, segs, irun)) :
    ∃ last lastRow, rows.getLast? = some lastRow ∧ lastRow.node = ((last : Fin N).val : ℤ) ∧
      ∀ row ∈ rows, ∃ n : Fin N, row.node = n.val ∧
        (n = last → row.slope = some (rnd32 (rnd64 (1 / 1000)))) ∧
        (n ≠ last → ∀ a b, G.top n = some a → G.top last = some b → ∃ s, row.slope = some s ∧
          |(s : ℝ) - limited (((a - b : ℚ) : ℝ) / apart G n last)| ≤ limited (((a - b : ℚ) : ℝ) / apart G n last) / 2 ^ 23) := by
  obtain ⟨last, lastRow, h1, h2, h3⟩ := C216_own hf hs h
  refine ⟨last, lastRow, h1, h2, fun row hrow => ?_⟩
  obtain ⟨n, e1, -, e2⟩ := h3 row hrow
  refine ⟨n, e1, ?_, fun hne a b ha hb => ?_⟩
  · rintro rfl
    have hz : rnd64 0 = 0 := rnd64_nearest.exact (zero_mem _ _)
    have hd0 : (geo rnd64 G).dist n n = 0 := by
      unfold Dirs.Geo.dist
      show G.sqrt (rnd64 (rnd64 (rnd64 (G.xc n - G.xc n) ^ 2) + rnd64 (rnd64 (G.yc n - G.yc n) ^ 2))) = 0
      rw [sub_self, sub_self, hz]
      norm_num
      rw [hz, add_zero, hz, h0]
    rw [e2]
    unfold rawF
    rw [if_pos hd0]
    decide +kernel
  · rw [e2]
    exact C216_slope hM (by simpa using hne) ha hb (htop _ _ ha) (htop _ _ hb)

/-- **C216** (again): a table the builder has completed is left as it is, to the last bit. -/
theorem C216_again {o o' p p' : Obj N} {rd : Option (List (Row ℚ))} {sd sd' : Option (List (SRow ℚ))} {ir ir' : Option (Fin N → ℤ)}
    {grp grp' : Bool} {kw kw' : List String} {rows rows' : List (Row ℚ)} {segs segs' : List (SRow ℚ)} {irun irun' : Fin N → ℤ}
    (h : o.builderF limit fuel cfuel r G rd sd ir true grp kw = .ok (o', rows, segs, irun))
    (h' : p.builderF limit fuel cfuel r G (some rows) sd' ir' true grp' kw' = .ok (p', rows', segs', irun')) : rows' = rows := by
  obtain ⟨o1, o2, tbl, stbl, _, _, _, hr, _⟩ := builderF_defaults h
  obtain ⟨p1, p2, tbl', stbl', q1, _, _, hr', _⟩ := builderF_defaults h'
  simp only [orElse, Res.ok.injEq, Prod.mk.injEq] at q1
  obtain ⟨-, rfl⟩ := q1
  have f := fixRowsF_ok hr
  have f' := fixRowsF_ok hr'
  have hnode : List.Forall₂ (fun w w' : Row ℚ => w'.node = w.node) tbl rows := f.imp fun _ _ ⟨_, _, _, e⟩ => by rw [e]; rfl
  refine List.ext_getElem f'.length_eq.symm fun k hk' hk => ?_
  have hkt : k < tbl.length := f.length_eq ▸ hk
  obtain ⟨n, m, e1, e2⟩ := f.get hkt hk
  obtain ⟨n', m', e1', e2'⟩ := f'.get hk hk'
  simp only [List.get_eq_getElem] at e1 e2 e1' e2'
  rw [ends_congr hnode (d := tbl[k]) (by rw [e2]; rfl) (by rw [e2]; rfl), e1, Res.ok.injEq, Prod.mk.injEq] at e1'
  obtain ⟨rfl, rfl⟩ := e1'
  rw [e2', e2]
  rfl

/-- **C216** (segments): the builder's segment data have the nine values of C81, the eight integers exactly and `roughch` as the
single-precision number next to 0.025. -/
theorem C216_segments {o o' : Obj N} {rd : Option (List (Row ℚ))} {sd : Option (List (SRow ℚ))} {ir : Option (Fin N → ℤ)}
    {grp : Bool} {kw : List String} {rows : List (Row ℚ)} {segs : List (SRow ℚ)} {irun : Fin N → ℤ}
    (h : o.builderF limit fuel cfuel r G rd sd ir true grp kw = .ok (o', rows, segs, irun)) :
    ∀ s ∈ segs, s.param "etsw" = 0 ∧ s.param "flow" = 1 ∧ s.param "icalc" = 1 ∧ s.param "iprior" = 0 ∧ s.param "pptsw" = 0 ∧
      s.param "runoff" = 0 ∧ s.param "width1" = 10 ∧ s.param "width2" = 10 ∧ s.param "roughch" = 13421773 / 2 ^ 29 ∧
      |s.param "roughch" - 25 / 1000| ≤ 25 / 1000 / 2 ^ 24 := by
  obtain ⟨o1, o2, tbl, stbl, _, _, _, _, rfl⟩ := builderF_defaults h
  intro s hs
  obtain ⟨s, -, rfl⟩ := List.mem_map.1 hs
  refine ⟨?_, ?_, ?_, ?_, ?_, ?_, ?_, ?_, ?_, ?_⟩
  all_goals simp only [fixSegF, segDefaults, Dict.get?, List.find?_cons, String.reduceEq, decide_false, decide_true,
    Bool.false_eq_true, beq_iff_eq, reduceBEq, String.reduceBEq, Option.map_some, Option.getD_some, if_true, if_false]
  all_goals decide +kernel

/-! ### the four cells of C214 -/

theorem machineR_all : Machine (geo rnd64 Gr) fun n => (List.finRange 4).filter (· ≠ n) :=
  ⟨rfl, sqrt64_ok, fun _ => rnd64_nearest.mem _, fun _ => rnd64_nearest.mem _, by decide +kernel, by decide +kernel⟩

/-- the slopes of that run, to a fraction of 2^-23 -/
example : ∃ o' rows segs irun, o4.builderF 10 10 10 rnd64 Gr none none none true true [] = .ok (o', rows, segs, irun) ∧
    ∃ last lastRow, rows.getLast? = some lastRow ∧ lastRow.node = ((last : Fin 4).val : ℤ) ∧
      ∀ row ∈ rows, ∃ n : Fin 4, row.node = n.val ∧
        (n = last → row.slope = some (rnd32 (rnd64 (1 / 1000)))) ∧
        (n ≠ last → ∀ a b, Gr.top n = some a → Gr.top last = some b → ∃ s, row.slope = some s ∧
          |(s : ℝ) - limited (((a - b : ℚ) : ℝ) / apart Gr n last)| ≤ limited (((a - b : ℚ) : ℝ) / apart Gr n last) / 2 ^ 23) := by
  obtain ⟨⟨o', rows, segs, irun⟩, h⟩ : ∃ x, o4.builderF 10 10 10 rnd64 Gr none none none true true [] = .ok x := by
    have h : (o4.builderF 10 10 10 rnd64 Gr none none none true true []).map (fun _ => ()) = .ok () := by decide +kernel
    obtain ⟨x, hx, -⟩ := Res.map_eq_ok.1 h
    exact ⟨x, hx⟩
  refine ⟨o', rows, segs, irun, h, C216_table (by norm_num) o4_sound machineR_all (by decide +kernel) ?_ h⟩
  intro n v hv
  have : ∀ n, Gr.top n = some (rnd64 ((Gr.top n).getD 0)) := by decide +kernel
  rw [this n, Option.some.injEq] at hv
  rw [← hv]
  exact rnd64_nearest.mem _

/-- the builder on the four cells of C214: three reaches, the slopes of the first two limited and rounded, the last by default;
`roughch` is 0.025 in float32. -/
theorem builderR : (o4.builderF 10 10 10 rnd64 Gr none none none true true []).map
    (fun x => (x.2.1.map fun w => (w.node, w.strtop, w.slope), x.2.2.1.map fun s => s.param "roughch")) =
      .ok ([(1, some (4771021 / 524288), some (12128645 / 1073741824)), (2, some (17 / 2), some (11415195 / 4294967296)),
        (3, some (4414505 / 524288), some (8589935 / 8589934592))], [13421773 / 536870912]) := by
  decide +kernel

end Dany.Rdata
