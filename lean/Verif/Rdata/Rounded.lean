import Verif.Rdata.Units
import Verif.Rdata.Single
import Verif.Float.Steep
import Verif.Dirs.Witness

/-!
# C214: reach lengths and slopes in floating point

`reach_data` (stream_util.py:722-842) with every operation rounded to the nearest double, and the columns of FloPy's table
in single precision.
-/

namespace Dany.Rdata

open Function Reach Seg Float

variable {N limit fuel : ℕ} {r : ℚ → ℚ} {G : SGrid N ℚ}

/-- the cell centres as `flow_directions` sees them -/
def geo (r : ℚ → ℚ) (G : SGrid N ℚ) : Dirs.Geo N ℚ := ⟨G.xc, G.yc, G.sqrt, r⟩

/-- `dist * 1.5` (stream_util.py:785-792) -/
def lenF (r : ℚ → ℚ) (G : SGrid N ℚ) (n m : Fin N) : ℚ := r ((geo r G).dist m n * (3 / 2))

/-- `1.5 * np.mean([delr, delc])` (stream_util.py:795-797) -/
def endF (r : ℚ → ℚ) (G : SGrid N ℚ) (n : Fin N) : ℚ :=
  r (3 / 2 * r (r (G.delr (G.lrc n).2 + G.delc (G.lrc n).1) / 2))

/-- `(dem[a] - dem[b]) / len` (stream_util.py:793) -/
def gradeF (r : ℚ → ℚ) (G : SGrid N ℚ) (a b : Fin N) (len : ℚ) : Option ℚ :=
  match G.top a, G.top b with
  | some x, some y => if len = 0 then none else some (r (r (x - y) / len))
  | _, _ => none

/-- reach length and slope (stream_util.py:783-798) -/
def lenSlopeF (r : ℚ → ℚ) (G : SGrid N ℚ) (n : Fin N) (dn : Option (Fin N)) : ℚ × Option ℚ :=
  match dn with
  | some m => if m ≠ n then (lenF r G n m, gradeF r G n m (lenF r G n m)) else (endF r G n, some (r (1 / 10000)))
  | none => (endF r G n, some (r (1 / 10000)))

/-- the loop over the reaches of one segment (stream_util.py:770-812), as `segLoop` -/
def segLoopF (r : ℚ → ℚ) (G : SGrid N ℚ) (nsr : List (Fin N × ℤ × ℤ)) (iseg outseg : ℤ) :
    ℕ → List (Fin N × ℤ × ℤ) → RState ℚ → Res (RState ℚ)
  | _, [], st => .ok st
  | ix, rec :: rest, st =>
    (nextCell nsr outseg rest).bind fun dn =>
      let down := if ix = 0 then some (st.reachid + 1) else if rest = [] then none else some (st.reachid + 1)
      let lut := if ix = 0 then st.lut.set iseg st.reachid else st.lut
      let ls := lenSlopeF r G rec.1 dn
      let d : Draft ℚ := ⟨G.getNode (G.lrc rec.1), (G.lrc rec.1).1, (G.lrc rec.1).2, iseg, rec.2.2, ls.1,
        G.top rec.1, ls.2, st.reachid, down⟩
      segLoopF r G nsr iseg outseg (ix + 1) rest ⟨st.recs ++ [d], st.reachid + 1, lut⟩

/-- one iteration of the loop over the segments (stream_util.py:766-812) -/
def segStepF (r : ℚ → ℚ) (G : SGrid N ℚ) (nsr : List (Fin N × ℤ × ℤ)) (s : Res (RState ℚ)) (e : ℤ × ℤ) :
    Res (RState ℚ) :=
  s.bind fun st =>
    if e.1 ≠ 0 then segLoopF r G nsr e.1 e.2 0 (nsr.filter (fun x => x.2.1 = e.1)) st else .ok st

/-- the first pass (stream_util.py:759-812) -/
def firstPassF (r : ℚ → ℚ) (G : SGrid N ℚ) (sg : Dict ℤ ℤ) (nsr : List (Fin N × ℤ × ℤ)) : Res (RState ℚ) :=
  (sortItems sg).foldl (segStepF r G nsr) (.ok ⟨[], 1, []⟩)

/-- `reach_data` from the stored network on (stream_util.py:759-842); FloPy's columns are single precision -/
def reachTableF (r : ℚ → ℚ) (G : SGrid N ℚ) (sg : Dict ℤ ℤ) (nsr : List (Fin N × ℤ × ℤ)) : Res (List (Row ℚ)) :=
  ((firstPassF r G sg nsr).bind fun st => (secondPass sg st.lut st.recs).bind toTable).map (List.map single)

/-- `reach_data(stream_array, group_segments=…)` (stream_util.py:722-842) -/
def Obj.reachDataF (limit fuel : ℕ) (r : ℚ → ℚ) (G : SGrid N ℚ) (o : Obj N) (arg : Option (Fin N → ℤ)) (group : Bool) :
    Res (Obj N × List (Row ℚ)) :=
  (o.network limit fuel arg group).bind fun x => (reachTableF r G x.2.1 x.2.2).map fun t => (x.1, t)

/-! ### the rounded and the exact run side by side -/

/-- corresponding records: `d` is of the exact run on a grid `G'`, `d'` of the rounded run -/
def DraftRel (r : ℚ → ℚ) (G G' : SGrid N ℚ) (d d' : Draft ℚ) : Prop :=
  ∃ n : Fin N, ∃ o : Option (Fin N), d.node = n.val ∧ d.strtop = G'.top n ∧ (d.rchlen, d.slope) = lenSlope G' n o ∧
    d' = { d with rchlen := (lenSlopeF r G n o).1, slope := (lenSlopeF r G n o).2, strtop := G.top n }

def StateRel (r : ℚ → ℚ) (G G' : SGrid N ℚ) (s s' : RState ℚ) : Prop :=
  List.Forall₂ (DraftRel r G G') s.recs s'.recs ∧ s'.reachid = s.reachid ∧ s'.lut = s.lut

/-- corresponding rows -/
def RowRel (r : ℚ → ℚ) (G G' : SGrid N ℚ) (w w' : Row ℚ) : Prop :=
  ∃ n : Fin N, ∃ o : Option (Fin N), w.node = n.val ∧ w.strtop = G'.top n ∧ w.strthick = 1 ∧ w.strhc1 = 0 ∧
    (w.rchlen, w.slope) = lenSlope G' n o ∧
    w' = single { w with rchlen := (lenSlopeF r G n o).1, slope := (lenSlopeF r G n o).2, strtop := G.top n }

variable {G' : SGrid N ℚ}

theorem segLoopF_rel (hc : G'.ncol = G.ncol) (nsr : List (Fin N × ℤ × ℤ)) (iseg outseg : ℤ) (ix : ℕ)
    (l : List (Fin N × ℤ × ℤ)) {s s' : RState ℚ} (hs : StateRel r G G' s s') :
    Corr (StateRel r G G') (segLoop G' nsr iseg outseg ix l s) (segLoopF r G nsr iseg outseg ix l s') := by
  induction l generalizing ix s s' with
  | nil => exact hs
  | cons rec rest ih =>
    simp only [segLoop, segLoopF]
    cases nextCell nsr outseg rest with
    | err e => exact rfl
    | hang => trivial
    | ok dn =>
      simp only [Res.bind_ok]
      apply ih
      obtain ⟨h1, h2, h3⟩ := hs
      refine ⟨?_, by rw [h2], by rw [h2, h3]⟩
      apply List.rel_append h1
      refine .cons ⟨rec.1, dn, ?_, rfl, rfl, ?_⟩ .nil
      · show rec.1.val / G'.ncol * G'.ncol + rec.1.val % G'.ncol = rec.1.val
        exact Nat.div_add_mod' _ _
      · simp only [SGrid.getNode, SGrid.lrc, hc, h2]

theorem firstPassF_rel (hc : G'.ncol = G.ncol) (sg : Dict ℤ ℤ) (nsr : List (Fin N × ℤ × ℤ)) :
    Corr (StateRel r G G') (firstPass G' sg nsr) (firstPassF r G sg nsr) := by
  unfold firstPass firstPassF
  have key : ∀ (l : List (ℤ × ℤ)) (x x' : Res (RState ℚ)), Corr (StateRel r G G') x x' →
      Corr (StateRel r G G') (l.foldl (segStep G' nsr) x) (l.foldl (segStepF r G nsr) x') := by
    intro l
    induction l with
    | nil => intro x x' h; exact h
    | cons e l ih =>
      intro x x' hx
      apply ih
      unfold segStep segStepF
      refine corr_bind hx ?_
      intro u v huv
      by_cases he : e.1 ≠ 0
      · rw [if_pos he, if_pos he]; exact segLoopF_rel hc _ _ _ _ _ huv
      · rw [if_neg he, if_neg he]; exact huv
  exact key _ _ _ ⟨.nil, rfl, rfl⟩

theorem patchDownF_rel (sg : Dict ℤ ℤ) (lut : Dict ℤ ℕ) {d d' : Draft ℚ} (h : DraftRel r G G' d d') :
    Corr (DraftRel r G G') (patchDown sg lut d) (patchDown sg lut d') := by
  obtain ⟨n, o, h1, ht, h2, rfl⟩ := h
  unfold patchDown
  cases hd : d.down with
  | some x =>
    exact ⟨n, o, h1, ht, h2, by rw [hd]⟩
  | none =>
    dsimp only
    cases sg.get? (d.j : ℤ) with
    | none => exact ⟨n, o, h1, ht, h2, rfl⟩
    | some os =>
      dsimp only
      cases lut.getE os with
      | err e => exact rfl
      | hang => trivial
      | ok x => exact ⟨n, o, h1, ht, h2, rfl⟩

theorem secondPassF_rel (sg : Dict ℤ ℤ) (lut : Dict ℤ ℕ) {l l' : List (Draft ℚ)}
    (h : List.Forall₂ (DraftRel r G G') l l') :
    Corr (List.Forall₂ (DraftRel r G G')) (secondPass sg lut l) (secondPass sg lut l') := by
  induction h with
  | nil => exact .nil
  | cons h _ ih =>
    simp only [secondPass]
    exact corr_bind (patchDownF_rel sg lut h) fun u v huv => corr_map ih fun x y hxy => .cons huv hxy

theorem reachTableF_rel (hc : G'.ncol = G.ncol) (sg : Dict ℤ ℤ) (nsr : List (Fin N × ℤ × ℤ)) :
    Corr (List.Forall₂ (RowRel r G G')) (reachTable G' sg nsr) (reachTableF r G sg nsr) := by
  have h : Corr (List.Forall₂ (DraftRel r G G')) ((firstPass G' sg nsr).bind fun st => secondPass sg st.lut st.recs)
      ((firstPassF r G sg nsr).bind fun st => secondPass sg st.lut st.recs) := by
    refine corr_bind (firstPassF_rel hc sg nsr) ?_
    rintro u v ⟨h1, _, h3⟩
    rw [h3]
    exact secondPassF_rel sg u.lut h1
  have e1 : reachTable G' sg nsr = ((firstPass G' sg nsr).bind fun st => secondPass sg st.lut st.recs).bind toTable := by
    unfold reachTable
    cases firstPass G' sg nsr <;> rfl
  have e2 : reachTableF r G sg nsr = (((firstPassF r G sg nsr).bind fun st => secondPass sg st.lut st.recs).bind
      fun l => (toTable l).map (List.map single)) := by
    unfold reachTableF
    cases firstPassF r G sg nsr with
    | ok st =>
      simp only [Res.bind_ok]
      cases secondPass sg st.lut st.recs <;> rfl
    | err e => rfl
    | hang => rfl
  rw [e1, e2]
  refine corr_bind h fun x y hxy => ?_
  unfold toTable
  by_cases hx : x = []
  · subst hx
    cases hxy
    exact rfl
  · have hy : y ≠ [] := by
      rintro rfl
      cases hxy
      exact hx rfl
    rw [if_neg hx, if_neg hy]
    show List.Forall₂ _ _ _
    rw [List.map_map, List.forall₂_map_left_iff, List.forall₂_map_right_iff]
    refine hxy.imp ?_
    rintro d d' ⟨n, o, h1, ht, h2, rfl⟩
    exact ⟨n, o, by show ((d.node : ℕ) : ℤ) = _; rw [h1], ht, rfl, rfl, h2, rfl⟩

/-- **C214**: `reach_data` in floating point returns, or raises, as in exact arithmetic, makes the same network, and its rows
have the same numbers; only reach length and slope depend on the rounding, strtop is rounded to single precision. -/
theorem C214_rows (limit fuel : ℕ) (r : ℚ → ℚ) (G : SGrid N ℚ) (o : Obj N) (arg : Option (Fin N → ℤ)) (group : Bool) :
    Corr (fun x y => y.1 = x.1 ∧ List.Forall₂ (fun w w' : Row ℚ => w'.strtop = w.strtop.map rnd32 ∧
        w' = { w with rchlen := w'.rchlen, slope := w'.slope, strtop := w'.strtop }) x.2 y.2)
      (o.reachData limit fuel G arg group) (o.reachDataF limit fuel r G arg group) := by
  unfold Obj.reachData Obj.reachDataF
  refine corr_bind (corr_refl (R := Eq) (fun _ => rfl) _) ?_
  rintro u _ rfl
  refine corr_map (reachTableF_rel (r := r) (G := G) (G' := G) rfl u.2.1 u.2.2) ?_
  intro t t' ht
  refine ⟨rfl, ht.imp ?_⟩
  rintro w w' ⟨n, o, -, h1, h2, h3, -, rfl⟩
  have e1 : rnd32 1 = 1 := by decide +kernel
  have e0 : rnd32 0 = 0 := by decide +kernel
  refine ⟨by simp [single, h1], ?_⟩
  simp [single, h2, h3, e1, e0]

/-- a grid on which length and slope tell the next cell -/
def marks (G : SGrid N ℚ) : SGrid N ℚ :=
  ⟨G.ncol, fun n => (n.val : ℚ), fun _ => 0, fun n => some (n.val : ℚ), fun _ => 0, fun _ => 0, id⟩

theorem marks_slope {n m : Fin N} (hne : m ≠ n) :
    (lenSlope (marks G) n (some m)).2 = some (2 / (3 * ((n.val : ℚ) - m.val))) := by
  have h0 : (n.val : ℚ) - m.val ≠ 0 := by
    rw [sub_ne_zero]
    exact fun h => hne (Fin.ext (by exact_mod_cast h.symm))
  have hd : (marks G).dist n m = ((n.val : ℚ) - m.val) ^ 2 := by
    show ((n.val : ℚ) - m.val) ^ 2 + (0 - 0) ^ 2 = _
    ring
  have hg : (marks G).grade n m ((marks G).dist n m * (3 / 2)) =
      if (marks G).dist n m * (3 / 2) = 0 then none else some (((n.val : ℚ) - m.val) / ((marks G).dist n m * (3 / 2))) := rfl
  have e : lenSlope (marks G) n (some m) =
      ((marks G).dist n m * (3 / 2), (marks G).grade n m ((marks G).dist n m * (3 / 2))) := by
    simp [lenSlope, hne]
  rw [e]
  dsimp only
  rw [hg, hd, if_neg (mul_ne_zero (pow_ne_zero 2 h0) (by norm_num))]
  congr 1
  field_simp

theorem marks_end (n : Fin N) : (lenSlope (marks G) n none).2 = some (1 / 10000) := rfl

theorem marks_apart {n m : Fin N} (hne : m ≠ n) :
    (lenSlope (marks G) n (some m)).2 ≠ (lenSlope (marks G) n none).2 := by
  have h0 : (n.val : ℚ) - m.val ≠ 0 := by
    rw [sub_ne_zero]
    exact fun h => hne (Fin.ext (by exact_mod_cast h.symm))
  rw [marks_slope hne, marks_end]
  intro h
  rw [Option.some.injEq, div_eq_div_iff (by simpa using h0) (by norm_num)] at h
  have h' : (20000 : ℤ) = 3 * ((n.val : ℤ) - m.val) := by
    have : (20000 : ℚ) = 3 * ((n.val : ℚ) - m.val) := by linarith
    exact_mod_cast this
  omega

theorem lenSlopeF_self (n : Fin N) : lenSlopeF r G n (some n) = lenSlopeF r G n none := by simp [lenSlopeF]

theorem marks_inj {n : Fin N} {o o' : Option (Fin N)} (h : lenSlope (marks G) n o = lenSlope (marks G) n o') :
    lenSlopeF r G n o = lenSlopeF r G n o' := by
  have hs := congrArg Prod.snd h
  have norm : ∀ o : Option (Fin N), (lenSlope (marks G) n o = lenSlope (marks G) n none ∧
      lenSlopeF r G n o = lenSlopeF r G n none) ∨ ∃ m, o = some m ∧ m ≠ n := by
    intro o
    cases o with
    | none => exact .inl ⟨rfl, rfl⟩
    | some m =>
      by_cases hm : m = n
      · subst hm; exact .inl ⟨lenSlope_self _ _, lenSlopeF_self _⟩
      · exact .inr ⟨m, rfl, hm⟩
  rcases norm o with ⟨a1, a2⟩ | ⟨m, rfl, hm⟩ <;> rcases norm o' with ⟨b1, b2⟩ | ⟨m', rfl, hm'⟩
  · rw [a2, b2]
  · rw [a1] at hs; exact absurd hs.symm (marks_apart hm')
  · rw [b1] at hs; exact absurd hs (marks_apart hm)
  · rw [marks_slope hm, marks_slope hm', Option.some.injEq] at hs
    have h0 : (n.val : ℚ) - m.val ≠ 0 := by
      rw [sub_ne_zero]; exact fun h => hm (Fin.ext (by exact_mod_cast h.symm))
    have h0' : (n.val : ℚ) - m'.val ≠ 0 := by
      rw [sub_ne_zero]; exact fun h => hm' (Fin.ext (by exact_mod_cast h.symm))
    rw [div_eq_div_iff (by simpa using h0) (by simpa using h0')] at hs
    have : (m.val : ℚ) = m'.val := by linarith
    have : m = m' := Fin.ext (by exact_mod_cast this)
    rw [this]

/-- **C214**: lengths and slopes of the table, operation by operation: as C78, with the roundings. -/
theorem C214_values (hf : N ≤ fuel) {o o' : Obj N} {arg : Option (Fin N → ℤ)} {grp : Bool} {tbl : List (Row ℚ)}
    (hs : o.Sound limit fuel) (h : o.reachDataF limit fuel r G arg grp = .ok (o', tbl)) :
    ∃ sg nsr sa, o'.net = some (sg, nsr) ∧ NetOf limit fuel o.fdir sa sg nsr ∧
      (o.net = none → o.source arg = .ok sa) ∧ ∀ row ∈ tbl, ∃ n : Fin N, row.node = n.val ∧ sa n ≠ 0 ∧
        (∀ m, Feeds o.fdir sa n m → m ≠ n → row.rchlen = rnd32 (lenF r G n m) ∧
          row.slope = (gradeF r G n m (lenF r G n m)).map rnd32) ∧
        ((∀ m, Feeds o.fdir sa n m → m = n) →
          row.rchlen = rnd32 (endF r G n) ∧ row.slope = some (rnd32 (r (1 / 10000)))) := by
  have hrel : Corr (fun x y => y.1 = x.1 ∧ List.Forall₂ (RowRel r G (marks G)) x.2 y.2)
      (o.reachData limit fuel (marks G) arg grp) (o.reachDataF limit fuel r G arg grp) := by
    unfold Obj.reachData Obj.reachDataF
    refine corr_bind (corr_refl (R := Eq) (fun _ => rfl) _) ?_
    rintro u _ rfl
    refine corr_map (reachTableF_rel (r := r) (G := G) (G' := marks G) rfl u.2.1 u.2.2) ?_
    intro t t' ht
    exact ⟨rfl, ht⟩
  rw [h] at hrel
  cases hx : o.reachData limit fuel (marks G) arg grp with
  | err e => rw [hx] at hrel; exact hrel.elim
  | hang => rw [hx] at hrel; exact hrel.elim
  | ok x =>
    obtain ⟨o1, t⟩ := x
    rw [hx] at hrel
    obtain ⟨rfl, hrows⟩ := hrel
    obtain ⟨sg, nsr, sa, ss, h1, -, h2, h3, hss, rfl⟩ := reachData_ok hf hs hx
    refine ⟨sg, nsr, sa, h1, h2, h3, fun row hrow => ?_⟩
    obtain ⟨w, hw, n, dnx, e1, -, -, -, e2, rfl⟩ : ∃ w ∈ ((ordered ss).zipIdx 1).map (rowOf (marks G) o.fdir sa),
        RowRel r G (marks G) w row := by
      obtain ⟨k, hk, rfl⟩ := List.mem_iff_getElem.1 hrow
      have hk' := hrows.length_eq ▸ hk
      exact ⟨_, List.getElem_mem hk', hrows.get hk' hk⟩
    obtain ⟨⟨⟨n', s, q⟩, k⟩, hx', rfl⟩ := List.mem_map.1 hw
    have hn : n' = n := by
      have : (((n'.val / G.ncol * G.ncol + n'.val % G.ncol : ℕ)) : ℤ) = n.val := e1
      rw [Nat.div_add_mod'] at this
      exact Fin.ext (by exact_mod_cast this)
    subst hn
    have hmem : (n', s, q) ∈ ordered ss := by
      have := List.mem_zipIdx hx'
      rw [this.2.2]
      exact List.getElem_mem _
    have hstream : sa n' ≠ 0 := by
      obtain ⟨t, ht, hr⟩ := List.mem_flatMap.1 hmem
      obtain ⟨i, hi, e⟩ := mem_rowsOf.1 hr
      simp only [Prod.mk.injEq] at e
      rw [e.1]
      exact hss.stream t ((sorted_perm ss).mem_iff.1 ht) _ (List.getElem_mem _)
    have e3 : lenSlope (marks G) n' (dn o.fdir sa n') = lenSlope (marks G) n' dnx := e2
    have e4 : lenSlopeF r G n' dnx = lenSlopeF r G n' (dn o.fdir sa n') := marks_inj e3.symm
    refine ⟨n', e1, hstream, fun m hm hne => ?_, fun hno => ?_⟩
    · rw [(dn_feeds hstream).2 hm] at e4
      have e5 : lenSlopeF r G n' dnx = (lenF r G n' m, gradeF r G n' m (lenF r G n' m)) := by
        rw [e4]; simp [lenSlopeF, hne]
      constructor
      · show rnd32 (lenSlopeF r G n' dnx).1 = _
        rw [e5]
      · show (lenSlopeF r G n' dnx).2.map rnd32 = _
        rw [e5]
    · have e5 : lenSlopeF r G n' dnx = (endF r G n', some (r (1 / 10000))) := by
        rw [e4]
        cases hd : dn o.fdir sa n' with
        | none => rfl
        | some m => rw [hno m ((dn_feeds hstream).1 hd), lenSlopeF_self]; rfl
      constructor
      · show rnd32 (lenSlopeF r G n' dnx).1 = _
        rw [e5]
      · show (lenSlopeF r G n' dnx).2.map rnd32 = _
        rw [e5]
        rfl

/-! ### errors -/

/-- `x` is `y` up to the fraction `u` -/
def Near (u x y : ℝ) : Prop := y * (1 - u) ≤ x ∧ x ≤ y * (1 + u)

theorem near_of_rat {p : ℕ} {x y : ℚ} (hy : 0 ≤ y) (h : |x - y| ≤ |y| / 2 ^ p) : Near (1 / 2 ^ p) (x : ℝ) (y : ℝ) := by
  rw [abs_of_nonneg hy] at h
  have h' : |(x : ℝ) - y| ≤ (y : ℝ) / 2 ^ p := by exact_mod_cast h
  rw [abs_le] at h'
  constructor
  · have : (y : ℝ) * (1 - 1 / 2 ^ p) = y - y / 2 ^ p := by ring
    rw [this]; linarith [h'.1]
  · have : (y : ℝ) * (1 + 1 / 2 ^ p) = y + y / 2 ^ p := by ring
    rw [this]; linarith [h'.2]

theorem Near.trans {u v x y z : ℝ} (h : Near u x y) (h' : Near v y z) (hz : 0 ≤ z) (hu : 0 ≤ u) (hu1 : u ≤ 1) (hv : 0 ≤ v) :
    Near (u + v + u * v) x z := by
  constructor
  · refine le_trans ?_ h.1
    have := mul_le_mul_of_nonneg_right h'.1 (by linarith : 0 ≤ 1 - u)
    nlinarith [mul_nonneg hz (mul_nonneg hu hv)]
  · refine h.2.trans ?_
    have := mul_le_mul_of_nonneg_right h'.2 (by linarith : 0 ≤ 1 + u)
    nlinarith

theorem Near.weaken {u v x y : ℝ} (h : Near u x y) (huv : u ≤ v) (hy : 0 ≤ y) : Near v x y :=
  ⟨le_trans (by nlinarith) h.1, h.2.trans (by nlinarith)⟩

theorem Near.pos {u x y : ℝ} (h : Near u x y) (hu : u < 1) (hy : 0 < y) : 0 < x :=
  lt_of_lt_of_le (mul_pos hy (by linarith)) h.1

theorem Near.scale {u x y c : ℝ} (h : Near u x y) (hc : 0 ≤ c) : Near u (x * c) (y * c) := by
  constructor
  · have := mul_le_mul_of_nonneg_right h.1 hc
    nlinarith
  · have := mul_le_mul_of_nonneg_right h.2 hc
    nlinarith

theorem Near.div {u v x y l m : ℝ} (h : Near u x y) (h' : Near v l m) (hy : 0 ≤ y) (hm : 0 < m) (hu : 0 ≤ u) (hu1 : u ≤ 1)
    (hv : 0 ≤ v) (hv2 : v ≤ 1 / 2) : Near (u + 2 * v + 2 * u * v) (x / l) (y / m) := by
  have hl : 0 < l := h'.pos (by linarith) hm
  have e : y / m * m = y := div_mul_cancel₀ _ hm.ne'
  have hq : 0 ≤ y / m := div_nonneg hy hm.le
  set q := y / m
  constructor
  · rw [le_div_iff₀ hl]
    refine le_trans ?_ h.1
    by_cases hneg : 1 - (u + 2 * v + 2 * u * v) ≤ 0
    · have h1 : q * (1 - (u + 2 * v + 2 * u * v)) * l ≤ 0 :=
        mul_nonpos_of_nonpos_of_nonneg (mul_nonpos_of_nonneg_of_nonpos hq hneg) hl.le
      exact h1.trans (mul_nonneg hy (by linarith))
    · push Not at hneg
      have h1 : q * (1 - (u + 2 * v + 2 * u * v)) * l ≤ q * (1 - (u + 2 * v + 2 * u * v)) * (m * (1 + v)) :=
        mul_le_mul_of_nonneg_left h'.2 (mul_nonneg hq hneg.le)
      refine h1.trans ?_
      rw [← e]
      have h2 : (1 - (u + 2 * v + 2 * u * v)) * (1 + v) ≤ 1 - u := by nlinarith [mul_nonneg hu hv, mul_nonneg hv hv]
      have := mul_le_mul_of_nonneg_left h2 (mul_nonneg hq hm.le)
      nlinarith
  · rw [div_le_iff₀ hl]
    refine h.2.trans ?_
    have h1 : q * (1 + (u + 2 * v + 2 * u * v)) * (m * (1 - v)) ≤ q * (1 + (u + 2 * v + 2 * u * v)) * l :=
      mul_le_mul_of_nonneg_left h'.1 (mul_nonneg hq (by nlinarith [mul_nonneg hu hv]))
    refine le_trans ?_ h1
    rw [← e]
    have h2 : 1 + u ≤ (1 + (u + 2 * v + 2 * u * v)) * (1 - v) := by
      have : (1 + (u + 2 * v + 2 * u * v)) * (1 - v) = 1 + u + (v + u * v) * (1 - 2 * v) := by ring
      rw [this]
      have := mul_nonneg (add_nonneg hv (mul_nonneg hu hv)) (by linarith : 0 ≤ 1 - 2 * v)
      linarith
    have := mul_le_mul_of_nonneg_left h2 (mul_nonneg hq hm.le)
    nlinarith

theorem pow_of_real (e : ℤ) {x : ℚ} (h : (2 : ℝ) ^ e ≤ (x : ℝ)) : (2 : ℚ) ^ e ≤ x := by
  have : (((2 : ℚ) ^ e : ℚ) : ℝ) ≤ x := by push_cast; exact h
  exact_mod_cast this

variable {nbr : Fin N → List (Fin N)}

/-- the distance of two cell centres, a real number -/
noncomputable def apart (G : SGrid N ℚ) (n m : Fin N) : ℝ := √(((G.xc n - G.xc m) ^ 2 + (G.yc n - G.yc m) ^ 2 : ℚ) : ℝ)

theorem dist_near (hM : Machine (geo rnd64 G) nbr) {n m : Fin N} (hn : n ∈ nbr m) :
    Near (1 / 2 ^ 50) ((geo rnd64 G).dist m n : ℝ) (apart G n m) := by
  obtain ⟨h1, h2⟩ := hM.dist hn
  have h0 : 0 ≤ apart G n m := Real.sqrt_nonneg _
  refine ⟨le_trans ?_ h1, h2.trans ?_⟩
  · exact mul_le_mul_of_nonneg_left (by norm_num) h0
  · exact mul_le_mul_of_nonneg_left (by norm_num) h0

theorem len_near (hM : Machine (geo rnd64 G) nbr) {n m : Fin N} (hn : n ∈ nbr m) (hfar : 2 ^ (-100 : ℤ) ≤ apart G n m) :
    Near (1 / 2 ^ 49) (lenF rnd64 G n m : ℝ) (3 / 2 * apart G n m) := by
  have hp : 0 < apart G n m := lt_of_lt_of_le (by positivity) hfar
  have h1 := (dist_near hM hn).scale (c := 3 / 2) (by norm_num)
  have hd0 : (0 : ℚ) < (geo rnd64 G).dist m n := by
    have := (dist_near hM hn).pos (by norm_num) hp
    exact_mod_cast this
  have hbig : (2 : ℚ) ^ (-1022 : ℤ) ≤ |(geo rnd64 G).dist m n * (3 / 2)| := by
    rw [abs_of_pos (by positivity)]
    have h2 : (2 : ℝ) ^ (-102 : ℤ) ≤ ((geo rnd64 G).dist m n : ℝ) := by
      refine le_trans ?_ (dist_near hM hn).1
      have : (2 : ℝ) ^ (-102 : ℤ) ≤ 2 ^ (-100 : ℤ) * (1 - 1 / 2 ^ 50) := by norm_num
      exact this.trans (mul_le_mul_of_nonneg_right hfar (by norm_num))
    have h3 : (2 : ℚ) ^ (-102 : ℤ) ≤ (geo rnd64 G).dist m n := pow_of_real _ h2
    have h4 : (2 : ℚ) ^ (-1022 : ℤ) ≤ 2 ^ (-102 : ℤ) := zpow_le_zpow_right₀ (by norm_num) (by norm_num)
    linarith
  have h2 := near_of_rat (by positivity) (rel_err (p := 53) (emin := -1022) (by norm_num) rnd64_nearest hbig)
  rw [mul_comm] at h1
  have h3 : (((geo rnd64 G).dist m n * (3 / 2) : ℚ) : ℝ) = ((geo rnd64 G).dist m n : ℝ) * (3 / 2) := by push_cast; ring
  rw [h3] at h2
  rw [mul_comm] at h1
  have h4 := h2.trans h1 (by positivity) (by norm_num) (by norm_num) (by norm_num)
  rw [mul_comm (apart G n m)] at h4
  exact h4.weaken (by norm_num) (by positivity)

/-- **C214** (length): where a reach's cell flows to another stream cell, the reach length in the table is 1.5 times the distance
of the centres up to a fraction of 2^-23, and positive. -/
theorem C214_length (hM : Machine (geo rnd64 G) nbr) {n m : Fin N} (hn : n ∈ nbr m) (hfar : 2 ^ (-100 : ℤ) ≤ apart G n m) :
    |((rnd32 (lenF rnd64 G n m) : ℚ) : ℝ) - 3 / 2 * apart G n m| ≤ 3 / 2 * apart G n m / 2 ^ 23 ∧
      0 < rnd32 (lenF rnd64 G n m) := by
  have hp : 0 < apart G n m := lt_of_lt_of_le (by positivity) hfar
  have h1 := len_near hM hn hfar
  have hl : (2 : ℝ) ^ (-101 : ℤ) ≤ (lenF rnd64 G n m : ℝ) := by
    refine le_trans ?_ h1.1
    have : (2 : ℝ) ^ (-101 : ℤ) ≤ 3 / 2 * 2 ^ (-100 : ℤ) * (1 - 1 / 2 ^ 49) := by norm_num
    exact this.trans (mul_le_mul_of_nonneg_right (mul_le_mul_of_nonneg_left hfar (by norm_num)) (by norm_num))
  have hl' : (2 : ℚ) ^ (-101 : ℤ) ≤ lenF rnd64 G n m := pow_of_real _ hl
  have hl0 : 0 < lenF rnd64 G n m := lt_of_lt_of_le (by positivity) hl'
  have hbig : (2 : ℚ) ^ (-126 : ℤ) ≤ |lenF rnd64 G n m| := by
    rw [abs_of_pos hl0]
    exact (zpow_le_zpow_right₀ (by norm_num) (by norm_num)).trans hl'
  have h2 := near_of_rat hl0.le (rel_err (p := 24) (emin := -126) (by norm_num) rnd32_nearest hbig)
  have h3 := (h2.trans h1 (by positivity) (by norm_num) (by norm_num) (by norm_num)).weaken
    (v := 1 / 2 ^ 23) (by norm_num) (by positivity)
  constructor
  · rw [abs_le]
    have e : 3 / 2 * apart G n m / 2 ^ 23 = 3 / 2 * apart G n m * (1 / 2 ^ 23) := by ring
    rw [e]
    constructor <;> nlinarith [h3.1, h3.2]
  · have := h3.pos (by norm_num) (by positivity)
    exact_mod_cast this

/-- **C214** (slope): if the water falls by at least 2^-20 there, the slope in the table is drop over 1.5 times the distance up
to a fraction of 2^-23, and positive. -/
theorem C214_slope (hM : Machine (geo rnd64 G) nbr) {n m : Fin N} (hn : n ∈ nbr m) (hfar : 2 ^ (-100 : ℤ) ≤ apart G n m)
    {a b : ℚ} (ha : G.top n = some a) (hb : G.top m = some b) (hda : a ∈ Double) (hdb : b ∈ Double)
    (hdrop : b + 1 / 2 ^ 20 ≤ a) :
    ∃ s, (gradeF rnd64 G n m (lenF rnd64 G n m)).map rnd32 = some s ∧ 0 < s ∧
      |(s : ℝ) - ((a - b : ℚ) : ℝ) / (3 / 2 * apart G n m)| ≤ ((a - b : ℚ) : ℝ) / (3 / 2 * apart G n m) / 2 ^ 23 := by
  have hp : 0 < apart G n m := lt_of_lt_of_le (by positivity) hfar
  have h1 := len_near hM hn hfar
  have hl0 : 0 < lenF rnd64 G n m := by
    have := h1.pos (by norm_num) (by positivity)
    exact_mod_cast this
  refine ⟨rnd32 (rnd64 (rnd64 (a - b) / lenF rnd64 G n m)), ?_, ?_⟩
  · unfold gradeF
    rw [ha, hb]
    dsimp only
    rw [if_neg hl0.ne', Option.map_some]
  have hab : 1 / 2 ^ 20 ≤ a - b := by linarith
  have hab0 : 0 < a - b := lt_of_lt_of_le (by norm_num) hab
  have e1 := add_err (p := 53) (emin := -1022) (by norm_num) rnd64_nearest hda (neg_mem hdb)
  rw [← sub_eq_add_neg] at e1
  have n1 := near_of_rat hab0.le e1
  have n2 := n1.div h1 (by exact_mod_cast hab0.le) (by positivity) (by norm_num) (by norm_num) (by norm_num) (by norm_num)
  set T : ℝ := ((a - b : ℚ) : ℝ) / (3 / 2 * apart G n m) with hT
  have hwide : apart G n m ≤ 2 ^ 99 := by
    refine Real.sqrt_le_iff.2 ⟨by positivity, ?_⟩
    have := (hM.way2_bounds hn).2
    have h' : ((way2 (geo rnd64 G) m n : ℚ) : ℝ) ≤ 2 ^ 197 := by exact_mod_cast this
    have : (way2 (geo rnd64 G) m n : ℚ) = (G.xc n - G.xc m) ^ 2 + (G.yc n - G.yc m) ^ 2 := rfl
    rw [this] at h'
    refine h'.trans ?_
    norm_num
  have hTlow : (2 : ℝ) ^ (-120 : ℤ) ≤ T := by
    rw [hT, le_div_iff₀ (by positivity)]
    have k1 : (1 : ℝ) / 2 ^ 20 ≤ ((a - b : ℚ) : ℝ) := by
      have := (Rat.cast_le (K := ℝ)).2 hab
      push_cast at this ⊢
      exact this
    refine le_trans ?_ k1
    have : (2 : ℝ) ^ (-120 : ℤ) * (3 / 2 * apart G n m) ≤ 2 ^ (-120 : ℤ) * (3 / 2 * 2 ^ 99) :=
      mul_le_mul_of_nonneg_left (by linarith) (by positivity)
    refine this.trans ?_
    norm_num
  have hT0 : 0 < T := lt_of_lt_of_le (by positivity) hTlow
  have n2' : Near (1 / 2 ^ 47) ((rnd64 (a - b) / lenF rnd64 G n m : ℚ) : ℝ) T := by
    push_cast
    exact n2.weaken (by norm_num) hT0.le
  set q : ℚ := rnd64 (a - b) / lenF rnd64 G n m
  have hq : (2 : ℝ) ^ (-121 : ℤ) ≤ (q : ℝ) := by
    refine le_trans ?_ n2'.1
    have : (2 : ℝ) ^ (-121 : ℤ) ≤ 2 ^ (-120 : ℤ) * (1 - 1 / 2 ^ 47) := by norm_num
    exact this.trans (mul_le_mul_of_nonneg_right hTlow (by norm_num))
  have hq' : (2 : ℚ) ^ (-121 : ℤ) ≤ q := pow_of_real _ hq
  have hq0 : 0 < q := lt_of_lt_of_le (by positivity) hq'
  have n3 := near_of_rat hq0.le (rel_err (p := 53) (emin := -1022) (by norm_num) rnd64_nearest (x := q) (by
    rw [abs_of_pos hq0]
    exact (zpow_le_zpow_right₀ (by norm_num) (by norm_num)).trans hq'))
  have n4 := (n3.trans n2' hT0.le (by norm_num) (by norm_num) (by norm_num)).weaken (v := 1 / 2 ^ 46) (by norm_num) hT0.le
  have hg : (2 : ℝ) ^ (-122 : ℤ) ≤ (rnd64 q : ℝ) := by
    refine le_trans ?_ n4.1
    have : (2 : ℝ) ^ (-122 : ℤ) ≤ 2 ^ (-120 : ℤ) * (1 - 1 / 2 ^ 46) := by norm_num
    exact this.trans (mul_le_mul_of_nonneg_right hTlow (by norm_num))
  have hg' : (2 : ℚ) ^ (-122 : ℤ) ≤ rnd64 q := pow_of_real _ hg
  have hg0 : 0 < rnd64 q := lt_of_lt_of_le (by positivity) hg'
  have n5 := near_of_rat hg0.le (rel_err (p := 24) (emin := -126) (by norm_num) rnd32_nearest (x := rnd64 q) (by
    rw [abs_of_pos hg0]
    exact (zpow_le_zpow_right₀ (by norm_num) (by norm_num)).trans hg'))
  have n6 := (n5.trans n4 hT0.le (by norm_num) (by norm_num) (by norm_num)).weaken (v := 1 / 2 ^ 23) (by norm_num) hT0.le
  constructor
  · have := n6.pos (by norm_num) hT0
    exact_mod_cast this
  · rw [abs_le]
    have e : T / 2 ^ 23 = T * (1 / 2 ^ 23) := by ring
    rw [e]
    constructor <;> nlinarith [n6.1, n6.2]

/-- **C214**: the table `reach_data` returns.  A reach whose cell `n` flows to another stream cell `m` has a positive length, 1.5
times the distance of the centres, and, if the water falls by 2^-20 or more, a positive slope, drop over length, both to a
fraction of 2^-23; a reach that ends in itself or leaves the stream has the slope that is next to 0.0001. -/
theorem C214_table (hf : N ≤ fuel) {o o' : Obj N} {arg : Option (Fin N → ℤ)} {grp : Bool} {tbl : List (Row ℚ)}
    (hs : o.Sound limit fuel) (hM : Machine (geo rnd64 G) nbr)
    (hnbr : ∀ n m : Fin N, o.fdir n = m.val → m ≠ n → n ∈ nbr m ∧ 2 ^ (-100 : ℤ) ≤ apart G n m)
    (h : o.reachDataF limit fuel rnd64 G arg grp = .ok (o', tbl)) :
    ∃ sg nsr sa, o'.net = some (sg, nsr) ∧ NetOf limit fuel o.fdir sa sg nsr ∧
      (o.net = none → o.source arg = .ok sa) ∧ ∀ row ∈ tbl, ∃ n : Fin N, row.node = n.val ∧ sa n ≠ 0 ∧
        (∀ m, Feeds o.fdir sa n m → m ≠ n → 0 < row.rchlen ∧
          |(row.rchlen : ℝ) - 3 / 2 * apart G n m| ≤ 3 / 2 * apart G n m / 2 ^ 23 ∧
          ∀ a b, G.top n = some a → G.top m = some b → a ∈ Double → b ∈ Double → b + 1 / 2 ^ 20 ≤ a →
            ∃ s, row.slope = some s ∧ 0 < s ∧
              |(s : ℝ) - ((a - b : ℚ) : ℝ) / (3 / 2 * apart G n m)| ≤ ((a - b : ℚ) : ℝ) / (3 / 2 * apart G n m) / 2 ^ 23) ∧
        ((∀ m, Feeds o.fdir sa n m → m = n) → row.slope = some (rnd32 (rnd64 (1 / 10000)))) := by
  obtain ⟨sg, nsr, sa, h1, h2, h3, h4⟩ := C214_values hf hs h
  refine ⟨sg, nsr, sa, h1, h2, h3, fun row hrow => ?_⟩
  obtain ⟨n, e1, e2, e3, e4⟩ := h4 row hrow
  refine ⟨n, e1, e2, fun m hm hne => ?_, fun hno => (e4 hno).2⟩
  obtain ⟨k1, k2⟩ := e3 m hm hne
  obtain ⟨l1, l2⟩ := hnbr n m hm.2.2 hne
  obtain ⟨p1, p2⟩ := C214_length hM l1 l2
  rw [k1, k2]
  refine ⟨p2, p1, fun a b ha hb hda hdb hd => ?_⟩
  exact C214_slope hM l1 l2 ha hb hda hdb hd

/-- the slope of the last reach is a little less than the 0.0001 the program writes -/
theorem C214_default : rnd32 (rnd64 (1 / 10000)) < 1 / 10000 ∧ rnd32 (rnd64 (1 / 10000)) < rnd64 (1 / 10000) := by
  constructor <;> decide +kernel

/-! ### a row of four cells, 30.1 m apart -/

def Gr : SGrid 4 ℚ :=
  ⟨4, fun n => rnd64 (5000001 / 10 + 301 / 10 * n.val), fun _ => rnd64 (42000003 / 10),
    ![some 10, some (rnd64 (91 / 10)), some (rnd64 (85 / 10)), some (rnd64 (842 / 100))],
    fun _ => rnd64 (301 / 10), fun _ => rnd64 (301 / 10), sqrt64⟩

instance (x : ℚ) : Decidable (Sized x) := by unfold Sized; infer_instance

theorem machineR : Machine (geo rnd64 Gr) Dirs.line4 :=
  ⟨rfl, sqrt64_ok, fun _ => rnd64_nearest.mem _, fun _ => rnd64_nearest.mem _, by decide +kernel, by decide +kernel⟩

theorem tableR : (o4.reachDataF 10 10 rnd64 Gr none true).map
    (fun x => x.2.map fun w => (w.node, w.rchlen, w.slope)) =
      .ok [(1, 5917901 / 131072, some (7134497 / 536870912)), (2, 5917901 / 131072, some (15220261 / 8589934592)),
        (3, 5917901 / 131072, some (13743895 / 137438953472))] := by
  decide +kernel

theorem nearR (n m : Fin 4) (h : o4.fdir n = m.val) (hne : m ≠ n) :
    n ∈ Dirs.line4 m ∧ 2 ^ (-100 : ℤ) ≤ apart Gr n m := by
  have hb : ∀ n m : Fin 4, o4.fdir n = m.val → m ≠ n → n ∈ Dirs.line4 m ∧
      900 ≤ (Gr.xc n - Gr.xc m) ^ 2 + (Gr.yc n - Gr.yc m) ^ 2 := by decide +kernel
  obtain ⟨h1, h2⟩ := hb n m h hne
  refine ⟨h1, ?_⟩
  have h3 : ((900 : ℚ) : ℝ) ≤ (((Gr.xc n - Gr.xc m) ^ 2 + (Gr.yc n - Gr.yc m) ^ 2 : ℚ) : ℝ) := Rat.cast_le.2 h2
  have h4 : (30 : ℝ) ≤ apart Gr n m := Real.le_sqrt_of_sq_le (by norm_num at h3 ⊢; linarith)
  have h5 : (2 : ℝ) ^ (-100 : ℤ) ≤ 30 := (zpow_le_one_of_nonpos₀ (by norm_num) (by norm_num)).trans (by norm_num)
  exact h5.trans h4

-- the reach of cell 1 (C214_table)
example : ∃ o' tbl, o4.reachDataF 10 10 rnd64 Gr none true = .ok (o', tbl) ∧ ∀ row ∈ tbl, row.node = 1 →
    0 < row.rchlen ∧ |(row.rchlen : ℝ) - 3 / 2 * apart Gr 1 2| ≤ 3 / 2 * apart Gr 1 2 / 2 ^ 23 ∧
      ∃ s, row.slope = some s ∧ 0 < s := by
  obtain ⟨⟨o', tbl⟩, h, ht⟩ := Res.map_eq_ok.1 tableR
  refine ⟨o', tbl, h, fun row hrow hn => ?_⟩
  obtain ⟨sg, nsr, sa, -, h2, h3, h4⟩ := C214_table (nbr := Dirs.line4) (by norm_num) o4_sound machineR nearR h
  obtain ⟨n, e1, e2, e3, -⟩ := h4 row hrow
  have hn1 : n = 1 := Fin.ext (by rw [hn] at e1; exact_mod_cast e1.symm)
  subst hn1
  have hsa : sa = ![0, 1, 1, 1] := by
    have := h3 rfl
    exact (Res.ok.inj this).symm
  have hf : Feeds o4.fdir sa 1 2 := by rw [hsa]; exact ⟨by decide, by decide, rfl⟩
  obtain ⟨a1, a2, a3⟩ := e3 2 hf (by decide)
  obtain ⟨s, b1, b2, -⟩ := a3 _ _ rfl rfl (rnd64_nearest.mem _) (rnd64_nearest.mem _) (by decide +kernel)
  exact ⟨a1, a2, s, b1, b2⟩

end Dany.Rdata
