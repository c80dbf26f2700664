import Verif.Top.Model
import Verif.Rdata.Props

/-!
# C105: whose elevations the stream packages carry
-/

namespace Dany.Top

open Reach Seg Fail Prog Torn

variable {N : ℕ} {K : Type*} [Field K] [LinearOrder K] {g : Geo N K}

/-- the event constructs a stream object -/
def Ev.makes : Ev N K → Bool
  | .make _ _ => true
  | _ => false

theorem run_append (w : Ws N K) (h h' : List (Ev N K)) : run g w (h ++ h') = run g (run g w h) h' := List.foldl_append

/-- as long as no stream object is constructed the top stays -/
theorem top_of_no_make {h : List (Ev N K)} (hh : ∀ e ∈ h, e.makes = false) (w : Ws N K) : (run g w h).top = w.top := by
  induction h generalizing w with
  | nil => rfl
  | cons e h ih =>
    have h1 : (run g (step g w e) h).top = (step g w e).top := ih (fun e he => hh e (by simp [he])) _
    show (run g (step g w e) h).top = _
    rw [h1]
    have := hh e (by simp)
    cases e with
    | flow => rfl
    | make => simp [Ev.makes] at this
    | call => rfl

theorem call_frame (top : Fin N → K) (c : Call N) (o : So N K) :
    (o.call g top c).kind = o.kind ∧ (o.call g top c).fdir = o.fdir ∧ (o.call g top c).slope = o.slope := by
  unfold So.call
  split <;> exact ⟨rfl, rfl, rfl⟩

/-- class, directions and slopes of a stream object never change after construction -/
theorem obj_kept (h : List (Ev N K)) {w : Ws N K} {j : ℕ} {o : So N K} (ho : w.objs[j]? = some o) :
    ∃ o', (run g w h).objs[j]? = some o' ∧ o'.kind = o.kind ∧ o'.fdir = o.fdir ∧ o'.slope = o.slope := by
  induction h generalizing w o with
  | nil => exact ⟨o, ho, rfl, rfl, rfl⟩
  | cons e h ih =>
    have h1 : ∃ o', (step g w e).objs[j]? = some o' ∧ o'.kind = o.kind ∧ o'.fdir = o.fdir ∧ o'.slope = o.slope := by
      cases e with
      | flow => exact ⟨o, ho, rfl, rfl, rfl⟩
      | make kind i =>
        refine ⟨o, ?_, rfl, rfl, rfl⟩
        show (w.objs ++ _)[j]? = _
        rw [List.getElem?_append_left (List.getElem?_eq_some_iff.1 ho).1]
        exact ho
      | call j' c =>
        show ∃ o', (w.objs.modify j' _)[j]? = some o' ∧ _
        rw [List.getElem?_modify, ho]
        by_cases hj : j' = j
        · obtain ⟨c1, c2, c3⟩ := call_frame (g := g) w.top c o
          exact ⟨_, by simp [hj], c1, c2, c3⟩
        · exact ⟨o, by simp [hj], rfl, rfl, rfl⟩
    obtain ⟨o1, e1, e2, e3, e4⟩ := h1
    obtain ⟨o2, f1, f2, f3, f4⟩ := ih e1
    exact ⟨o2, f1, f2.trans e2, f3.trans e3, f4.trans e4⟩

theorem pRecords_mem {sqrt : K → K} {G : Grid N K} {sa : Fin N → ℤ} {cd : List (ℤ × List ℤ)}
    (l : List (ℤ × Option ℤ)) : ∀ (cnt : ℕ) (recs : List (PRec N K)), pRecords sqrt G sa cd l cnt = .ok recs →
      ∀ r ∈ recs, r.rtp = G.top r.node ∧ r.rgrd = G.slope r.node / (3 / 2) := by
  induction l with
  | nil => intro cnt recs h; cases h; simp
  | cons e l ih =>
    intro cnt recs h
    rw [pRecords] at h
    obtain ⟨r, hr, h⟩ := Res.bind_eq_ok.1 h
    obtain ⟨rs, hrs, rfl⟩ := Res.map_eq_ok.1 h
    intro x hx
    rcases List.mem_cons.1 hx with rfl | hx
    · unfold pRecord at hr
      obtain ⟨n, _, hr⟩ := Res.bind_eq_ok.1 hr
      obtain ⟨m, _, hr⟩ := Res.bind_eq_ok.1 hr
      dsimp only at hr
      split at hr
      · cases hr
      · cases hr; exact ⟨rfl, rfl⟩
    · exact ih _ _ hrs x hx

theorem packageData_mem {E : Env N} {sqrt : K → K} {G : Grid N K} {arg : Option (Fin N → ℤ)} {s : Sm N}
    {recs : List (PRec N K)} (h : (packageData E sqrt G arg).res s = .ok recs) :
    ∀ r ∈ recs, r.rtp = G.top r.node ∧ r.rgrd = G.slope r.node / (3 / 2) := by
  have key : ∀ sa gr, packageRows sqrt G sa gr = .ok recs →
      ∀ r ∈ recs, r.rtp = G.top r.node ∧ r.rgrd = G.slope r.node / (3 / 2) := by
    intro sa gr h
    unfold packageRows at h
    obtain ⟨cd, _, h⟩ := Res.bind_eq_ok.1 h
    exact pRecords_mem _ _ _ h
  cases arg with
  | some sa =>
    unfold packageData at h
    rw [res_bind] at h
    obtain ⟨gr, _, h⟩ := Res.bind_eq_ok.1 h
    exact key _ _ h
  | none =>
    unfold packageData at h
    rw [res_bind] at h
    obtain ⟨gr, _, h⟩ := Res.bind_eq_ok.1 h
    rw [res_bind] at h
    obtain ⟨sa, _, h⟩ := Res.bind_eq_ok.1 h
    exact key _ _ h

/-- the record belongs to a cell and has its elevation -/
def OfCell (G : Rdata.SGrid N K) (d : Rdata.Draft K) : Prop := ∃ n : Fin N, d.node = n.val ∧ d.strtop = G.top n

theorem segLoop_ofCell {G : Rdata.SGrid N K} {nsr : List (Fin N × ℤ × ℤ)} {iseg outseg : ℤ} (l : List (Fin N × ℤ × ℤ)) :
    ∀ (ix : ℕ) (st st' : Rdata.RState K), Rdata.segLoop G nsr iseg outseg ix l st = .ok st' →
      (∀ d ∈ st.recs, OfCell G d) → ∀ d ∈ st'.recs, OfCell G d := by
  induction l with
  | nil => intro ix st st' h hs; cases h; exact hs
  | cons r l ih =>
    intro ix st st' h hs
    rw [Rdata.segLoop] at h
    obtain ⟨dn, _, h⟩ := Res.bind_eq_ok.1 h
    refine ih _ _ _ h ?_
    intro d hd
    rcases List.mem_append.1 hd with hd | hd
    · exact hs d hd
    · rw [List.mem_singleton] at hd
      subst hd
      refine ⟨r.1, ?_, rfl⟩
      show r.1.val / G.ncol * G.ncol + r.1.val % G.ncol = _
      rw [Nat.div_add_mod']

theorem reachTable_mem {G : Rdata.SGrid N K} {sg : Dict ℤ ℤ} {nsr : List (Fin N × ℤ × ℤ)} {tbl : List (Rdata.Row K)}
    (h : Rdata.reachTable G sg nsr = .ok tbl) :
    ∀ row ∈ tbl, ∃ n : Fin N, row.node = n.val ∧ row.strtop = G.top n := by
  unfold Rdata.reachTable at h
  obtain ⟨st, h1, h⟩ := Res.bind_eq_ok.1 h
  obtain ⟨ds, h2, h⟩ := Res.bind_eq_ok.1 h
  have hst : ∀ d ∈ st.recs, OfCell G d := by
    unfold Rdata.firstPass at h1
    have key : ∀ (l : List (ℤ × ℤ)) (r : Res (Rdata.RState K)), (∀ s, r = .ok s → ∀ d ∈ s.recs, OfCell G d) →
        ∀ s, l.foldl (Rdata.segStep G nsr) r = .ok s → ∀ d ∈ s.recs, OfCell G d := by
      intro l
      induction l with
      | nil => intro r hr s hs; exact hr s hs
      | cons e l ih =>
        intro r hr s hs
        refine ih _ ?_ s hs
        intro s' hs'
        unfold Rdata.segStep at hs'
        obtain ⟨s0, h0, hs'⟩ := Res.bind_eq_ok.1 hs'
        split at hs'
        · exact segLoop_ofCell _ _ _ _ hs' (hr s0 h0)
        · cases hs'; exact hr _ h0
    exact key _ _ (fun s hs => by cases hs; simp) _ h1
  have hds : ∀ (l l' : List (Rdata.Draft K)), Rdata.secondPass sg st.lut l = .ok l' → (∀ d ∈ l, OfCell G d) →
      ∀ d ∈ l', OfCell G d := by
    intro l
    induction l with
    | nil => intro l' h _; cases h; simp
    | cons d l ih =>
      intro l' h hl
      rw [Rdata.secondPass] at h
      obtain ⟨d', hd, h⟩ := Res.bind_eq_ok.1 h
      obtain ⟨l2, hl2, rfl⟩ := Res.map_eq_ok.1 h
      intro x hx
      rcases List.mem_cons.1 hx with rfl | hx
      · have hc : OfCell G d := hl d (by simp)
        unfold Rdata.patchDown at hd
        split at hd
        · cases hd; exact hc
        · split at hd
          · cases hd; exact hc
          · obtain ⟨r, _, rfl⟩ := Res.map_eq_ok.1 hd
            exact hc
      · exact ih _ hl2 (fun d hd => hl d (by simp [hd])) x hx
  unfold Rdata.toTable at h
  split at h
  · cases h
  · cases h
    intro row hrow
    obtain ⟨d, hd, rfl⟩ := List.mem_map.1 hrow
    obtain ⟨n, e1, e2⟩ := hds _ _ h2 hst d hd
    exact ⟨n, by show (d.node : ℤ) = _; rw [e1], e2⟩

theorem reachData_mem {E : Env N} {G : Rdata.SGrid N K} {arg : Option (Fin N → ℤ)} {grp : Bool} {s : Sm N}
    {tbl : List (Rdata.Row K)} (h : (reachData E G arg grp).res s = .ok tbl) :
    ∀ row ∈ tbl, ∃ n : Fin N, row.node = n.val ∧ row.strtop = G.top n := by
  unfold reachData at h
  rw [res_seq] at h
  obtain ⟨_, _, h⟩ := Res.bind_eq_ok.1 h
  rw [res_read] at h
  obtain ⟨sg, _, h⟩ := Res.bind_eq_ok.1 h
  obtain ⟨nsr, _, h⟩ := Res.bind_eq_ok.1 h
  exact reachTable_mem h

/-! ### C105 -/

/-- The reaches of `packagedata` and `reach_data` carry these elevations, and `packagedata` these slopes -/
def Carries (g : Geo N K) (top : Fin N → K) (o : So N K) (elev slope : Fin N → K) : Prop :=
  (∀ arg recs, o.package g top arg = .ok recs →
    ∀ r ∈ recs, r.rtp = elev r.node ∧ r.rgrd = slope r.node / (3 / 2)) ∧
  (∀ arg grp tbl, o.reach g top arg grp = .ok tbl → ∀ row ∈ tbl, ∃ n : Fin N, row.node = n.val ∧ row.strtop = some (elev n))

theorem carries (top : Fin N → K) (o : So N K) : Carries g top o top o.slope := by
  constructor
  · intro arg recs h
    unfold So.package at h
    split at h
    · exact packageData_mem h
    · cases h
  · intro arg grp tbl h row hrow
    unfold So.reach at h
    split at h
    · exact reachData_mem h row hrow
    · cases h

/-- **C105 is false.**  In any session, once a stream object of any class is constructed from a flow object `i`, the
elevations every stream object on the grid writes are those of the DEM of `i`, also for objects made from another DEM;
slopes in `packagedata` stay those of the object's own flow object.  This holds until the next construction, and even if the
construction raised. -/
theorem C105_refuted (w : Ws N K) (h1 h2 : List (Ev N K)) (kind : Kind) (i : ℕ) (hh : ∀ e ∈ h2, e.makes = false)
    {j : ℕ} {o : So N K} (ho : (run g w h1).objs[j]? = some o) :
    ∃ o', (run g w (h1 ++ .make kind i :: h2)).objs[j]? = some o' ∧ o'.kind = o.kind ∧ o'.fdir = o.fdir ∧
      Carries g (run g w (h1 ++ .make kind i :: h2)).top o' ((run g w h1).flows i).dem o.slope := by
  obtain ⟨o', e1, e2, e3, e4⟩ := obj_kept (g := g) (.make kind i :: h2) ho
  refine ⟨o', by rw [run_append]; exact e1, e2, e3, ?_⟩
  have ht : (run g w (h1 ++ .make kind i :: h2)).top = ((run g w h1).flows i).dem := by
    rw [run_append]
    exact top_of_no_make hh _
  rw [← e4, ← ht]
  exact carries _ _

/-- **C105, what holds.**  Until the next stream object is constructed on the grid, a stream object carries the elevations
and slopes its own flow object had when it was made, whatever happens to the flow objects afterwards. -/
theorem C105_last_partial (w : Ws N K) (h1 h2 : List (Ev N K)) (kind : Kind) (i : ℕ) (hh : ∀ e ∈ h2, e.makes = false)
    (hok : kind ≠ .sfr6 ∨ ((run g w h1).flows i).fdir ≠ none) :
    ∃ o, (run g w (h1 ++ .make kind i :: h2)).objs[(run g w h1).objs.length]? = some o ∧ o.kind = kind ∧
      o.fdir = ((run g w h1).flows i).fdir ∧
      Carries g (run g w (h1 ++ .make kind i :: h2)).top o ((run g w h1).flows i).dem ((run g w h1).flows i).slope := by
  have hnew : newObj kind ((run g w h1).flows i) = some ⟨kind, ((run g w h1).flows i).fdir, ((run g w h1).flows i).slope, Sm.new⟩ := by
    unfold newObj
    rw [if_neg]
    rintro ⟨a, b⟩
    rcases hok with hok | hok
    · exact hok a
    · exact hok b
  have hpos : (step g (run g w h1) (.make kind i)).objs[(run g w h1).objs.length]? =
      some ⟨kind, ((run g w h1).flows i).fdir, ((run g w h1).flows i).slope, Sm.new⟩ := by
    show (_ ++ _)[_]? = _
    rw [hnew, List.getElem?_append_right (le_refl _)]
    simp
  obtain ⟨o', e1, e2, e3, e4⟩ := obj_kept (g := g) h2 hpos
  refine ⟨o', by rw [run_append]; exact e1, e2, e3, ?_⟩
  have ht : (run g w (h1 ++ .make kind i :: h2)).top = ((run g w h1).flows i).dem := by
    rw [run_append]
    exact top_of_no_make hh _
  rw [← ht]
  dsimp only at e4
  rw [← e4]
  exact carries _ _

/-- **C105, what holds.**  If no stream object is constructed at all, the top of the grid is left alone; a constructor
that raises makes no object but has replaced the top. -/
theorem C105_top_partial (w : Ws N K) (h : List (Ev N K)) :
    ((∀ e ∈ h, e.makes = false) → (run g w h).top = w.top) ∧
    ∀ i, (w.flows i).fdir = none → (step g w (.make .sfr6 i)).objs = w.objs ∧
      (step g w (.make .sfr6 i)).top = (w.flows i).dem := by
  refine ⟨fun hh => top_of_no_make hh w, fun i hi => ⟨?_, rfl⟩⟩
  show w.objs ++ (newObj _ _).toList = _
  unfold newObj
  rw [if_pos ⟨rfl, hi⟩]
  simp

/-! ### A session -/

/-- one row of four cells -/
def geo4 : Geo 4 ℚ :=
  ⟨false, 10, 10, 4, ![0, 1, 2, 3], ![0, 0, 0, 0], fun _ => 1, fun _ => 1, fun _ => 1, fun x => x, fun _ => []⟩

/-- two flow objects: raw and filled elevations -/
def ws4 : Ws 4 ℚ := ⟨fun i => if i = 0 then ⟨![10, 9, 8, 7], some ![1, 2, 3, -1], fun _ => 1⟩
  else ⟨![20, 19, 18, 17], some ![1, 2, 3, -1], fun _ => 2⟩, fun _ => 0, []⟩

/-- `a = Sfr6(grid, raw)`, `a.get_stream_connectivity(…)`, then `b = Sfr2005(grid, filled)` -/
def session : List (Ev 4 ℚ) := [.make .sfr6 0, .call 0 (.conn6 (some ![0, 0, 1, 1])), .make .sfr2005 1]

/-- `a.packagedata()` before and after: the elevations change under it, the slopes do not. -/
theorem C105_refuted_concrete :
    (((run geo4 ws4 (session.take 2)).objs[0]?.map fun o =>
      (o.package geo4 (run geo4 ws4 (session.take 2)).top none).map fun l => l.map fun r => (r.node, r.rtp, r.rgrd)).getD (.err .typeError)) =
        .ok [(2, 8, 2 / 3), (3, 7, 2 / 3)] ∧
    (((run geo4 ws4 session).objs[0]?.map fun o =>
      (o.package geo4 (run geo4 ws4 session).top none).map fun l => l.map fun r => (r.node, r.rtp, r.rgrd)).getD (.err .typeError)) =
        .ok [(2, 18, 2 / 3), (3, 17, 2 / 3)] ∧
    (((run geo4 ws4 session).objs[1]?.map fun o =>
      (o.reach geo4 (run geo4 ws4 session).top (some ![0, 0, 1, 1]) false).map fun l => l.map fun r => (r.node, r.strtop)).getD (.err .typeError)) =
        .ok [(2, some 18), (3, some 17)] := by
  decide +kernel

end Dany.Top
