import Verif.Reach.Pack
import Verif.Rdata.Model
import Verif.Geom.Similar

/-!
# C179: the stream tables in other units

Coordinates and elevations converted as in C178: the tables of `packagedata` and `reach_data` hold the same reaches with
converted lengths, slopes and elevations.
-/

namespace Dany.Reach

open Geom

variable {N : ℕ}

/-- the grid data in other units -/
structure Converted (S : Sim) (a c : ℝ) (G G' : Grid N ℝ) : Prop where
  centre : ∀ n, (G'.xc n, G'.yc n) = S.app (G.xc n, G.yc n)
  side : ∀ n, G'.side n = S.b * G.side n
  slope : ∀ n, G'.slope n = a / S.b * G.slope n
  top : ∀ n, G'.top n = a * G.top n + c

/-- a record of `packagedata` in other units: lengths times `b`, gradients times `a / b`, elevations converted; numbers,
cells and connections are the same -/
noncomputable def PRec.convert (b a c : ℝ) (r : PRec N ℝ) : PRec N ℝ :=
  ⟨r.ifno, r.node, b * r.rlen, a / b * r.rgrd, a * r.rtp + c, r.ncon⟩

variable {S : Sim} {a c : ℝ} {G G' : Grid N ℝ}

private theorem pRecord_convert (h : Converted S a c G G') (sa : Fin N → ℤ) (cd : List (ℤ × List ℤ)) (e : ℤ × Option ℤ)
    (cnt : ℕ) : pRecord Real.sqrt G' sa cd e cnt = (pRecord Real.sqrt G sa cd e cnt).map (PRec.convert S.b a c) := by
  unfold pRecord
  cases firstNode sa e.1 with
  | err e => rfl
  | hang => rfl
  | ok node =>
    simp only [Res.bind_ok]
    cases dnNode sa node e.2 with
    | err e => rfl
    | hang => rfl
    | ok dn =>
      simp only [Res.bind_ok]
      have hd := S.sqrt (G.xc node, G.yc node) (G.xc dn, G.yc dn)
      rw [← h.centre, ← h.centre] at hd
      dsimp only at hd
      rw [hd]
      cases cd[cnt]? with
      | none => rfl
      | some row =>
        simp only [Res.map_ok, Res.ok.injEq, PRec.convert, PRec.mk.injEq, true_and]
        refine ⟨?_, ?_, h.top node, trivial⟩
        · rw [h.side]
          by_cases h0 : Real.sqrt ((G.xc node - G.xc dn) ^ 2 + (G.yc node - G.yc dn) ^ 2) = 0
          · rw [if_pos h0, if_pos (by rw [h0, mul_zero])]; ring
          · rw [if_neg h0, if_neg (mul_ne_zero S.pos.ne' h0)]; ring
        · rw [h.slope]; ring

private theorem pRecords_convert (h : Converted S a c G G') (sa : Fin N → ℤ) (cd : List (ℤ × List ℤ))
    (es : List (ℤ × Option ℤ)) (cnt : ℕ) : pRecords Real.sqrt G' sa cd es cnt =
      (pRecords Real.sqrt G sa cd es cnt).map (List.map (PRec.convert S.b a c)) := by
  induction es generalizing cnt with
  | nil => rfl
  | cons e es ih =>
    simp only [pRecords]
    rw [pRecord_convert h, ih]
    cases pRecord Real.sqrt G sa cd e cnt with
    | err e => rfl
    | hang => rfl
    | ok r => cases pRecords Real.sqrt G sa cd es (cnt + 1) <;> rfl

private theorem packageRows_convert (h : Converted S a c G G') (sa : Fin N → ℤ) (g : Dict ℤ (Option ℤ)) :
    packageRows Real.sqrt G' sa g = (packageRows Real.sqrt G sa g).map (List.map (PRec.convert S.b a c)) := by
  unfold packageRows
  cases connectiondata g with
  | err e => rfl
  | hang => rfl
  | ok cd => exact pRecords_convert h sa cd _ 0

/-- **C179** (`packagedata`).  In other units the table has the same reaches, cells and connections, with converted
lengths, gradients and elevations; an exception stays the same. -/
theorem C179_packagedata (h : Converted S a c G G') (limit : ℕ) (o : Obj N) (arg : Option (Fin N → ℤ)) :
    o.packageData Real.sqrt G' limit arg =
      (o.packageData Real.sqrt G limit arg).map fun r => (r.1, r.2.map (PRec.convert S.b a c)) := by
  unfold Obj.packageData
  cases arg with
  | some sa =>
    dsimp only
    cases o.connectivity limit (some sa) with
    | err e => rfl
    | hang => rfl
    | ok r =>
      simp only [Res.bind_ok]
      rw [packageRows_convert h]
      cases packageRows Real.sqrt G sa (someVals r.2) <;> rfl
  | none =>
    dsimp only
    cases o.graphOf limit with
    | err e => rfl
    | hang => rfl
    | ok r =>
      simp only [Res.bind_ok]
      cases r.1.stream with
      | err e => rfl
      | hang => rfl
      | ok sa =>
        simp only [Res.bind_ok]
        rw [packageRows_convert h]
        cases packageRows Real.sqrt G sa r.2 <;> rfl

private theorem sides_convert (S : Sim) (p : List (ℝ × ℝ)) :
    sides Real.sqrt (p.map S.app) = (sides Real.sqrt p).map fun z => S.b * z := by
  match p with
  | [] => rfl
  | [_] => rfl
  | x :: y :: l =>
    have ih := sides_convert S (y :: l)
    simp only [List.map_cons, sides] at ih ⊢
    rw [ih, S.sqrt]

/-- **C179** (outlets).  The length used at outlets, the mean side of the polygon, is multiplied by `b`. -/
theorem C179_side (S : Sim) (p : List (ℝ × ℝ)) :
    outletDist Real.sqrt (p.map S.app) = (outletDist Real.sqrt p).map fun z => S.b * z := by
  unfold outletDist
  rw [sides_convert]
  cases sides Real.sqrt p with
  | nil => rfl
  | cons x l =>
    simp only [List.map_cons, Option.map_some, Option.some.injEq]
    have e : (S.b * x :: l.map fun z => S.b * z) = (x :: l).map fun z => S.b * z := rfl
    rw [e, List.sum_map_mul_left, List.map_id', List.length_map]
    ring

/-! ### a concrete case: two cells, the second an outlet -/

noncomputable def twoG : Grid 2 ℝ := ⟨![0, 100], ![0, 0], ![100, 100], ![1 / 100, 0], ![8, 7]⟩
/-- in kilometres, turned by a quarter; elevations in centimetres above another datum -/
noncomputable def twoG' : Grid 2 ℝ := ⟨![0, 0], ![7, 1 / 10 + 7], ![1 / 10, 1 / 10], ![1000, 0], ![805, 705]⟩

theorem two_converted : Converted simK 100 5 twoG twoG' := by
  constructor <;> intro n <;> fin_cases n <;> norm_num [twoG, twoG', Sim.app, simK]

example : ∃ r, (⟨![1, 1], some ![1, 1], none⟩ : Obj 2).packageData Real.sqrt twoG 10 none = .ok r ∧ r.2.length = 2 ∧
    (⟨![1, 1], some ![1, 1], none⟩ : Obj 2).packageData Real.sqrt twoG' 10 none =
      .ok (r.1, r.2.map (PRec.convert (1 / 1000) 100 5)) := by
  obtain ⟨r, hr, h2⟩ : ∃ r, (⟨![1, 1], some ![1, 1], none⟩ : Obj 2).packageData Real.sqrt twoG 10 none = .ok r ∧
      r.2.length = 2 := ⟨_, rfl, rfl⟩
  refine ⟨r, hr, h2, ?_⟩
  rw [C179_packagedata two_converted, hr]
  rfl

end Dany.Reach

namespace Dany.Rdata

open Geom Reach

variable {N : ℕ}

/-- the data of the structured grid in other units -/
structure Converted (S : Sim) (a c : ℝ) (G G' : SGrid N ℝ) : Prop where
  ncol : G'.ncol = G.ncol
  centre : ∀ n, (G'.xc n, G'.yc n) = S.app (G.xc n, G.yc n)
  delr : ∀ j, G'.delr j = S.b * G.delr j
  delc : ∀ i, G'.delc i = S.b * G.delc i
  top : ∀ n, G'.top n = (G.top n).map fun z => a * z + c
  sqrt : G.sqrt = Real.sqrt
  sqrt' : G'.sqrt = Real.sqrt

/-- `r'` is row `r` of the reach table in other units: numbers and cell are the same, length and elevation are
converted; the slope is converted too, or both rows have the constant 0.0001. -/
def SameRow (b a c : ℝ) (r r' : Row ℝ) : Prop :=
  r'.node = r.node ∧ r'.k = r.k ∧ r'.i = r.i ∧ r'.j = r.j ∧ r'.iseg = r.iseg ∧ r'.ireach = r.ireach ∧
  r'.rchlen = b * r.rchlen ∧ (r'.strtop = r.strtop.map fun z => a * z + c) ∧
  ((r'.slope = r.slope.map fun z => a / b * z) ∨ r.slope = some (1 / 10000) ∧ r'.slope = some (1 / 10000)) ∧
  r'.strthick = r.strthick ∧ r'.strhc1 = r.strhc1 ∧ r'.reachID = r.reachID ∧ r'.outreach = r.outreach

private def SameDraft (b a c : ℝ) (d d' : Draft ℝ) : Prop :=
  SameRow b a c (toRow d) (toRow d') ∧ d'.down = d.down

variable {S : Sim} {a c : ℝ} {G G' : SGrid N ℝ}

private theorem lrc_conv (h : Converted S a c G G') (n : Fin N) : G'.lrc n = G.lrc n := by
  unfold SGrid.lrc; rw [h.ncol]

private theorem lenSlope_conv (h : Converted S a c G G') (n : Fin N) (dn : Option (Fin N)) :
    (lenSlope G' n dn).1 = S.b * (lenSlope G n dn).1 ∧
    (((lenSlope G' n dn).2 = (lenSlope G n dn).2.map fun z => a / S.b * z) ∨
      (lenSlope G n dn).2 = some (1 / 10000) ∧ (lenSlope G' n dn).2 = some (1 / 10000)) := by
  have hb := S.pos
  have hend : 3 / 2 * ((G'.delr (G'.lrc n).2 + G'.delc (G'.lrc n).1) / 2) =
      S.b * (3 / 2 * ((G.delr (G.lrc n).2 + G.delc (G.lrc n).1) / 2)) := by
    rw [lrc_conv h, h.delr, h.delc]; ring
  unfold lenSlope
  cases dn with
  | none => exact ⟨hend, .inr ⟨rfl, rfl⟩⟩
  | some m =>
    dsimp only
    by_cases hm : m ≠ n
    · rw [if_pos hm, if_pos hm]
      have hd : G'.dist n m = S.b * G.dist n m := by
        unfold SGrid.dist
        rw [h.sqrt, h.sqrt']
        have hd := S.sqrt (G.xc n, G.yc n) (G.xc m, G.yc m)
        rw [← h.centre, ← h.centre] at hd
        exact hd
      refine ⟨by dsimp only; rw [hd]; ring, .inl ?_⟩
      dsimp only
      unfold SGrid.grade
      rw [h.top, h.top, hd]
      cases G.top n with
      | none => rfl
      | some x =>
        cases G.top m with
        | none => rfl
        | some y =>
          simp only [Option.map_some]
          by_cases h0 : G.dist n m * (3 / 2) = 0
          · rw [if_pos h0, if_pos (by rw [mul_assoc, h0, mul_zero])]; rfl
          · rw [if_neg h0, if_neg (by rw [mul_assoc]; exact mul_ne_zero hb.ne' h0)]
            simp only [Option.map_some, Option.some.injEq]
            have : G.dist n m ≠ 0 := fun h' => h0 (by rw [h', zero_mul])
            field_simp
            ring
    · rw [if_neg hm, if_neg hm]
      exact ⟨hend, .inr ⟨rfl, rfl⟩⟩

/-- the two states of the first pass correspond -/
private def SameState (b a c : ℝ) (s s' : RState ℝ) : Prop :=
  List.Forall₂ (SameDraft b a c) s.recs s'.recs ∧ s'.reachid = s.reachid ∧ s'.lut = s.lut

/-- corresponding results -/
def Corr {α β : Type*} (R : α → β → Prop) : Res α → Res β → Prop
  | .ok x, .ok y => R x y
  | .err e, .err e' => e = e'
  | .hang, .hang => True
  | _, _ => False

private theorem Corr.bind {α β α' β' : Type*} {R : α → β → Prop} {Q : α' → β' → Prop} {x : Res α} {y : Res β}
    {f : α → Res α'} {g : β → Res β'} (h : Corr R x y) (hfg : ∀ u v, R u v → Corr Q (f u) (g v)) :
    Corr Q (x.bind f) (y.bind g) := by
  cases x <;> cases y <;> simp only [Corr] at h
  · exact hfg _ _ h
  · subst h; rfl
  · trivial

private theorem segLoop_conv (h : Converted S a c G G') (nsr : List (Fin N × ℤ × ℤ)) (iseg outseg : ℤ) (ix : ℕ)
    (l : List (Fin N × ℤ × ℤ)) {s s' : RState ℝ} (hs : SameState S.b a c s s') :
    Corr (SameState S.b a c) (segLoop G nsr iseg outseg ix l s) (segLoop G' nsr iseg outseg ix l s') := by
  induction l generalizing ix s s' with
  | nil => exact hs
  | cons rec rest ih =>
    simp only [segLoop]
    cases nextCell nsr outseg rest with
    | err e => exact rfl
    | hang => trivial
    | ok dn =>
      simp only [Res.bind_ok]
      apply ih
      obtain ⟨h1, h2, h3⟩ := hs
      obtain ⟨k1, k2⟩ := lenSlope_conv h rec.1 dn
      refine ⟨?_, by rw [h2], by rw [h2, h3]⟩
      apply List.rel_append h1
      refine .cons ⟨?_, by rw [h2]⟩ .nil
      unfold SameRow toRow
      dsimp only
      rw [lrc_conv h, h2]
      refine ⟨?_, rfl, rfl, rfl, rfl, rfl, k1, h.top _, k2, rfl, rfl, rfl, rfl⟩
      unfold SGrid.getNode
      rw [h.ncol]

private theorem firstPass_conv (h : Converted S a c G G') (sg : Dict ℤ ℤ) (nsr : List (Fin N × ℤ × ℤ)) :
    Corr (SameState S.b a c) (firstPass G sg nsr) (firstPass G' sg nsr) := by
  unfold firstPass
  have key : ∀ (l : List (ℤ × ℤ)) (r r' : Res (RState ℝ)), Corr (SameState S.b a c) r r' →
      Corr (SameState S.b a c) (l.foldl (segStep G nsr) r) (l.foldl (segStep G' nsr) r') := by
    intro l
    induction l with
    | nil => intro r r' h; exact h
    | cons e l ih =>
      intro r r' hr
      apply ih
      unfold segStep
      apply hr.bind
      intro u v huv
      by_cases he : e.1 ≠ 0
      · rw [if_pos he, if_pos he]; exact segLoop_conv h _ _ _ _ _ huv
      · rw [if_neg he, if_neg he]; exact huv
  exact key _ _ _ ⟨.nil, rfl, rfl⟩

private theorem patchDown_conv (sg : Dict ℤ ℤ) (lut : Dict ℤ ℕ) {b : ℝ} {d d' : Draft ℝ} (h : SameDraft b a c d d') :
    Corr (SameDraft b a c) (patchDown sg lut d) (patchDown sg lut d') := by
  unfold patchDown
  have hj : sg.get? (d'.j : ℤ) = sg.get? (d.j : ℤ) := by rw [show d'.j = d.j from h.1.2.2.2.1]
  rw [h.2, hj]
  cases d.down with
  | some _ => exact h
  | none =>
    dsimp only
    cases sg.get? (d.j : ℤ) with
    | none => exact ⟨h.1, rfl⟩
    | some os =>
      dsimp only
      cases lut.getE os with
      | err e => exact rfl
      | hang => trivial
      | ok r => exact ⟨h.1, rfl⟩

private theorem secondPass_conv (sg : Dict ℤ ℤ) (lut : Dict ℤ ℕ) {b : ℝ} {l l' : List (Draft ℝ)}
    (h : List.Forall₂ (SameDraft b a c) l l') :
    Corr (List.Forall₂ (SameDraft b a c)) (secondPass sg lut l) (secondPass sg lut l') := by
  induction h with
  | nil => exact .nil
  | cons h _ ih =>
    simp only [secondPass]
    apply (patchDown_conv sg lut h).bind
    intro u v huv
    revert ih
    cases secondPass sg lut _ <;> cases secondPass sg lut _ <;> intro ih <;> simp only [Corr] at ih
    · exact .cons huv ih
    · exact ih
    · trivial

/-- **C179** (`reach_data`).  In other units the table has the same reaches and numbers, with converted lengths and
elevations; slopes are converted too, but the constant 0.0001 of reaches that end in themselves or outside is the
same in all units.  An exception stays the same. -/
theorem C179_reach_data (h : Converted S a c G G') (sg : Dict ℤ ℤ) (nsr : List (Fin N × ℤ × ℤ)) :
    Corr (List.Forall₂ (SameRow S.b a c)) (reachTable G sg nsr) (reachTable G' sg nsr) := by
  unfold reachTable
  apply (firstPass_conv h sg nsr).bind
  rintro u v ⟨h1, _, h3⟩
  rw [h3]
  apply (secondPass_conv sg u.lut h1).bind
  intro x y hxy
  unfold toTable
  by_cases hx : x = []
  · subst hx
    cases hxy
    exact rfl
  · have hy : y ≠ [] := by
      rintro rfl
      cases hxy
      exact hx rfl
    rw [if_neg hx, if_neg hy]
    show List.Forall₂ _ (x.map toRow) (y.map toRow)
    rw [List.forall₂_map_left_iff, List.forall₂_map_right_iff]
    exact hxy.imp fun _ _ h => h.1

/-! ### a concrete case: two cells, one segment with two reaches, the second ends the river -/

noncomputable def twoS : SGrid 2 ℝ := ⟨2, ![0, 100], ![0, 0], ![some 8, some 7], fun _ => 100, fun _ => 100, Real.sqrt⟩
noncomputable def twoS' : SGrid 2 ℝ :=
  ⟨2, ![0, 0], ![7, 1 / 10 + 7], ![some 805, some 705], fun _ => 1 / 10, fun _ => 1 / 10, Real.sqrt⟩

theorem two_converted : Converted simK 100 5 twoS twoS' := by
  constructor <;> first | rfl | (intro n; fin_cases n <;> norm_num [twoS, twoS', Sim.app, simK]) |
    (intro n; norm_num [twoS, twoS', simK])

example : ∃ t t', reachTable twoS [(2, 0)] [(0, 2, 1), (1, 2, 2)] = .ok t ∧
    reachTable twoS' [(2, 0)] [(0, 2, 1), (1, 2, 2)] = .ok t' ∧ t.length = 2 ∧
    List.Forall₂ (SameRow (1 / 1000) 100 5) t t' := by
  obtain ⟨t, h1, h2⟩ : ∃ t, reachTable twoS [(2, 0)] [(0, 2, 1), (1, 2, 2)] = .ok t ∧ t.length = 2 := by
    unfold reachTable
    simp [firstPass, segStep, sortItems, segLoop, nextCell, outCell, secondPass, patchDown, toTable, SGrid.lrc, Dict.get?, twoS]
  obtain ⟨t', h3⟩ : ∃ t, reachTable twoS' [(2, 0)] [(0, 2, 1), (1, 2, 2)] = .ok t := by
    unfold reachTable
    simp [firstPass, segStep, sortItems, segLoop, nextCell, outCell, secondPass, patchDown, toTable, SGrid.lrc, Dict.get?, twoS']
  have := C179_reach_data two_converted [(2, 0)] [(0, 2, 1), (1, 2, 2)]
  rw [h1, h3] at this
  exact ⟨t, t', h1, h3, h2, this⟩

end Dany.Rdata
