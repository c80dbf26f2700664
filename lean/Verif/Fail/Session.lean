import Verif.Fail.Interrupt
import Verif.Fail.Props
import Verif.Basin.Props
import Verif.Acc.Props

/-!
# C152: sessions with one `FlowDirections` object

The programs of `Fail` compute what the functions of `Acc` and `Basin` say, and a session that calculates the directions
before the first watershed gets watersheds, subbasins and accumulation of these directions, in whatever order and however
often they are asked for.
-/

namespace Dany.Fail.Fd

open Prog Basin Flow

variable {N : ℕ} {K : Type*}

/-! ### Refinement -/

theorem foldl_tableStep_err (f : Fin N → ℤ) (l : List (Fin N)) (e : PyErr) :
    l.foldl (tableStep f) (.err e) = .err e := by
  induction l with
  | nil => rfl
  | cons x l ih => rw [List.foldl_cons]; exact ih

theorem foldl_tableStep_hang (f : Fin N → ℤ) (l : List (Fin N)) :
    l.foldl (tableStep f) .hang = .hang := by
  induction l with
  | nil => rfl
  | cons x l ih => rw [List.foldl_cons]; exact ih

/-- the loop that fills the table -/
theorem fillTable_run (f : Fin N → ℤ) (l : List (Fin N)) : ∀ (o : Fd N K) (rows : List (Fin N → ℤ)), o.fdirR = some rows →
    (each l fun ix => (read fun _ => pyIndex N (f ix)).bind fun c =>
        write fun o : Fd N K => { o with fdirR := o.fdirR.map (place c ((ix : ℕ) : ℤ)) }).res o
      = (l.foldl (tableStep f) (.ok rows)).map (fun _ => ()) ∧
    ∀ rows', l.foldl (tableStep f) (.ok rows) = .ok rows' →
      (each l fun ix => (read fun _ => pyIndex N (f ix)).bind fun c =>
        write fun o : Fd N K => { o with fdirR := o.fdirR.map (place c ((ix : ℕ) : ℤ)) }).after o
        = { o with fdirR := some rows' } := by
  induction l with
  | nil =>
    intro o rows h
    refine ⟨rfl, fun rows' hr => ?_⟩
    cases hr
    show o = _
    rw [← h]
  | cons x l ih =>
    intro o rows h
    rw [List.foldl_cons]
    unfold each
    cases hp : pyIndex N (f x) with
    | err e =>
      have hs : tableStep f (.ok rows) x = .err e := by simp [tableStep, hp]
      rw [hs, foldl_tableStep_err]
      refine ⟨?_, fun _ hr => by cases hr⟩
      have : ((read fun _ : Fd N K => pyIndex N (f x)).bind fun c =>
        write fun o : Fd N K => { o with fdirR := o.fdirR.map (place c ((x : ℕ) : ℤ)) }).res o = .err e := by
        rw [res_read_bind, hp]; rfl
      exact (bind_of_err this).1
    | hang =>
      have hs : tableStep f (.ok rows) x = .hang := by simp [tableStep, hp]
      rw [hs, foldl_tableStep_hang]
      refine ⟨?_, fun _ hr => by cases hr⟩
      have : ((read fun _ : Fd N K => pyIndex N (f x)).bind fun c =>
        write fun o : Fd N K => { o with fdirR := o.fdirR.map (place c ((x : ℕ) : ℤ)) }).res o = .hang := by
        rw [res_read_bind, hp]; rfl
      exact (bind_of_hang this).1
    | ok c =>
      have hs : tableStep f (.ok rows) x = .ok (place c ((x : ℕ) : ℤ) rows) := by simp [tableStep, hp]
      rw [hs]
      have h1 : ((read fun _ : Fd N K => pyIndex N (f x)).bind fun c =>
        write fun o : Fd N K => { o with fdirR := o.fdirR.map (place c ((x : ℕ) : ℤ)) }).res o = .ok () := by
        rw [res_read_bind, hp]; rfl
      have h2 : ((read fun _ : Fd N K => pyIndex N (f x)).bind fun c =>
        write fun o : Fd N K => { o with fdirR := o.fdirR.map (place c ((x : ℕ) : ℤ)) }).after o
          = { o with fdirR := some (place c ((x : ℕ) : ℤ) rows) } := by
        rw [after_read_bind, hp]
        simp [h]
      obtain ⟨i1, i2⟩ := ih ({ o with fdirR := some (place c ((x : ℕ) : ℤ) rows) } : Fd N K) _ rfl
      rw [Prog.seq, (step h1 h2).1, (step h1 h2).2]
      exact ⟨i1, fun rows' hr => i2 rows' hr⟩

/-- `_reverse_flow_directions` -/
theorem reverse_run {o : Fd N K} {f : Fin N → ℤ} (hf : o.fdir = some f) :
    (reverse : Prog (Fd N K) _).res o = (reverseTable ⟨f, o.fdirR⟩).map Prod.snd ∧
    ∀ s' rows, reverseTable ⟨f, o.fdirR⟩ = .ok (s', rows) →
      s'.fdir = f ∧ (reverse : Prog (Fd N K) _).after o = { o with fdirR := s'.fdirR } := by
  unfold reverse reverseTable
  rw [res_read_bind, after_read_bind]
  dsimp only [Res.bind_ok]
  cases hr : o.fdirR with
  | some rows =>
    refine ⟨rfl, fun s' rows' h => ?_⟩
    cases h
    refine ⟨rfl, ?_⟩
    show o = _
    rw [← hr]
  | none =>
    dsimp only
    rw [res_read_bind, after_read_bind, hf]
    unfold buildTable
    dsimp only [attr, Res.bind_ok]
    cases hn : Acc.getNidp f with
    | err e => exact ⟨rfl, fun _ _ h => by cases h⟩
    | hang => exact ⟨rfl, fun _ _ h => by cases h⟩
    | ok nidp =>
      dsimp only [Res.map_ok, Res.bind_ok]
      rw [res_write_seq, after_write_seq]
      obtain ⟨i1, i2⟩ := fillTable_run (K := K) f (List.finRange N)
        { o with fdirR := some (List.replicate (npMax nidp) (fun _ => -1)) } _ rfl
      cases hF : (List.finRange N).foldl (tableStep f) (.ok (List.replicate (npMax nidp) (fun _ => -1))) with
      | err e =>
        rw [hF] at i1
        exact ⟨(bind_of_err i1).1, fun _ _ h => by cases h⟩
      | hang =>
        rw [hF] at i1
        exact ⟨(bind_of_hang i1).1, fun _ _ h => by cases h⟩
      | ok rows =>
        rw [hF] at i1
        have i2 := i2 rows hF
        rw [Prog.seq, (step i1 i2).1, (step i1 i2).2]
        refine ⟨rfl, fun s' rows' h => ?_⟩
        cases h
        exact ⟨rfl, by rw [after_read]; simp only [hf]⟩

/-- `get_watershed_boundary` returns what `Basin.watershed` says and stores what it says. -/
theorem watershed_run (fuel : ℕ) (c : Fin N) (sub : Fin N → ℕ) {o : Fd N K} {f : Fin N → ℤ} (hf : o.fdir = some f) :
    (Fd.watershed fuel c sub : Prog (Fd N K) _).res o = (Basin.watershed fuel ⟨f, o.fdirR⟩ c sub).map Prod.snd ∧
    ∀ s' out, Basin.watershed fuel ⟨f, o.fdirR⟩ c sub = .ok (s', out) →
      s'.fdir = f ∧ (Fd.watershed fuel c sub : Prog (Fd N K) _).after o = { o with fdirR := s'.fdirR } := by
  obtain ⟨r1, r2⟩ := reverse_run (K := K) hf
  unfold Fd.watershed Basin.watershed
  cases hr : reverseTable ⟨f, o.fdirR⟩ with
  | err e =>
    rw [hr] at r1
    exact ⟨(bind_of_err r1).1, fun _ _ h => by cases h⟩
  | hang =>
    rw [hr] at r1
    exact ⟨(bind_of_hang r1).1, fun _ _ h => by cases h⟩
  | ok x =>
    obtain ⟨s1, rows⟩ := x
    rw [hr] at r1
    obtain ⟨e1, e2⟩ := r2 s1 rows hr
    rw [(step r1 e2).1, (step r1 e2).2]
    dsimp only [Res.bind_ok]
    rw [res_read, after_read]
    dsimp only
    rw [hf, e1]
    dsimp only [attr, Res.bind_ok]
    cases hn : Acc.getNidp f with
    | err e => exact ⟨rfl, fun _ _ h => by cases h⟩
    | hang => exact ⟨rfl, fun _ _ h => by cases h⟩
    | ok nidp =>
      dsimp only [Res.bind_ok]
      cases hb : bfs rows nidp (npMax sub + 1) fuel (column rows (nidp c) c)
          (Function.update sub c (npMax sub + 1)) with
      | err e => exact ⟨rfl, fun _ _ h => by cases h⟩
      | hang => exact ⟨rfl, fun _ _ h => by cases h⟩
      | ok out =>
        refine ⟨rfl, fun s' out' h => ?_⟩
        cases h
        exact ⟨e1, rfl⟩

theorem foldl_subStep_err (fuel : ℕ) (l : List (Fin N)) (e : PyErr) :
    l.foldl (subStep fuel) (.err e) = .err e := by
  induction l with
  | nil => rfl
  | cons x l ih => rw [List.foldl_cons]; exact ih

theorem foldl_subStep_hang (fuel : ℕ) (l : List (Fin N)) : l.foldl (subStep fuel) .hang = .hang := by
  induction l with
  | nil => rfl
  | cons x l ih => rw [List.foldl_cons]; exact ih

theorem subLoop_run (fuel : ℕ) (f : Fin N → ℤ) (l : List (Fin N)) : ∀ (o : Fd N K) (sub : Fin N → ℕ), o.fdir = some f →
    (subLoop fuel l sub : Prog (Fd N K) _).res o = (l.foldl (subStep fuel) (.ok (⟨f, o.fdirR⟩, sub))).map Prod.snd ∧
    ∀ s' out, l.foldl (subStep fuel) (.ok (⟨f, o.fdirR⟩, sub)) = .ok (s', out) →
      s'.fdir = f ∧ (subLoop fuel l sub : Prog (Fd N K) _).after o = { o with fdirR := s'.fdirR } := by
  induction l with
  | nil =>
    intro o sub hf
    refine ⟨rfl, fun s' out h => ?_⟩
    cases h
    exact ⟨rfl, rfl⟩
  | cons c l ih =>
    intro o sub hf
    obtain ⟨w1, w2⟩ := watershed_run fuel c sub hf
    rw [List.foldl_cons]
    have hs : subStep fuel (.ok (⟨f, o.fdirR⟩, sub)) c = Basin.watershed fuel ⟨f, o.fdirR⟩ c sub := rfl
    rw [hs]
    unfold subLoop
    cases hw : Basin.watershed fuel ⟨f, o.fdirR⟩ c sub with
    | err e =>
      rw [hw] at w1
      rw [foldl_subStep_err]
      exact ⟨(bind_of_err w1).1, fun _ _ h => by cases h⟩
    | hang =>
      rw [hw] at w1
      rw [foldl_subStep_hang]
      exact ⟨(bind_of_hang w1).1, fun _ _ h => by cases h⟩
    | ok x =>
      obtain ⟨s1, sub1⟩ := x
      rw [hw] at w1
      obtain ⟨e1, e2⟩ := w2 s1 sub1 hw
      rw [(step w1 e2).1, (step w1 e2).2]
      have := ih ({ o with fdirR := s1.fdirR } : Fd N K) sub1 hf
      rw [← e1] at this ⊢
      exact this

/-- `get_subbasins` returns what `Basin.subbasins` says and stores what it says. -/
theorem subbasins_run (limit fuel : ℕ) (cells : List (Fin N)) {o : Fd N K} {f : Fin N → ℤ} (hf : o.fdir = some f) :
    (Fd.subbasins limit fuel cells : Prog (Fd N K) _).res o =
      (Basin.subbasins limit fuel ⟨f, o.fdirR⟩ cells).map Prod.snd ∧
    ∀ s' out, Basin.subbasins limit fuel ⟨f, o.fdirR⟩ cells = .ok (s', out) →
      s'.fdir = f ∧ (Fd.subbasins limit fuel cells : Prog (Fd N K) _).after o = { o with fdirR := s'.fdirR } := by
  unfold Fd.subbasins Basin.subbasins
  rw [res_read_bind, after_read_bind, hf]
  have : (if cells = [] then attr (some f) else item (some f)) = .ok f := by split <;> rfl
  rw [this]
  dsimp only [Res.bind_ok]
  cases hp : pourOrder limit fuel f (cells.map (fun c : Fin N => ((c : ℕ) : ℤ))) with
  | err e => exact ⟨rfl, fun _ _ h => by cases h⟩
  | hang => exact ⟨rfl, fun _ _ h => by cases h⟩
  | ok order =>
    dsimp only [Res.bind_ok]
    cases hq : pointCells cells order with
    | err e => exact ⟨rfl, fun _ _ h => by cases h⟩
    | hang => exact ⟨rfl, fun _ _ h => by cases h⟩
    | ok pts =>
      dsimp only [Res.bind_ok]
      have := subLoop_run fuel f pts o (fun _ => 0) hf
      simpa only [hf] using this

theorem accumulate_run [Field K] (fuel : ℕ) (b : Bool) {o : Fd N K} {f : Fin N → ℤ} (hf : o.fdir = some f) :
    (Fd.accumulate fuel b).res o = Acc.flowAccumulation fuel f o.area b ∧
    ∃ a, (Fd.accumulate fuel b).after o = { o with facc := a } := by
  unfold Fd.accumulate
  rw [res_read_bind, after_read_bind, hf]
  dsimp only [attr, Res.bind_ok]
  cases h : Acc.flowAccumulation fuel f o.area b with
  | err e => exact ⟨rfl, o.facc, by simp only [← hf]⟩
  | hang => exact ⟨rfl, o.facc, by simp only [← hf]⟩
  | ok a => exact ⟨rfl, some a, by simp only [← hf]; rfl⟩

/-! ### Sessions -/

/-- directions `f` are stored, the stored table (if any) is theirs, the areas are `area` -/
structure Ready (f : Fin N → ℤ) (area : Fin N → K) (o : Fd N K) : Prop where
  fdir : o.fdir = some f
  table : Fresh ⟨f, o.fdirR⟩
  area : o.area = area

theorem reverse_ready {f : Fin N → ℤ} {d : Fin N → Fin N} (hd : Resolves f d) {area : Fin N → K} {o : Fd N K}
    (h : Ready f area o) : Ready f area ((reverse : Prog (Fd N K) _).after o) := by
  obtain ⟨rows, hrows, -⟩ := buildTable_ok hd
  have : ∃ s' rows', reverseTable ⟨f, o.fdirR⟩ = .ok (s', rows') ∧ Fresh s' := by
    unfold reverseTable
    cases hr : o.fdirR with
    | some r =>
      have := h.table
      rw [hr] at this
      exact ⟨_, _, rfl, this⟩
    | none =>
      dsimp only
      rw [hrows]
      refine ⟨_, _, rfl, ?_⟩
      intro r hr
      cases hr
      exact hrows
  obtain ⟨s', rows', e, hfr⟩ := this
  obtain ⟨e1, e2⟩ := (reverse_run (K := K) h.fdir).2 s' rows' e
  rw [e2]
  refine ⟨h.fdir, ?_, h.area⟩
  subst e1
  exact hfr

theorem watershed_ready {f : Fin N → ℤ} {d : Fin N → Fin N} (hd : Resolves f d) {area : Fin N → K} {o : Fd N K}
    (h : Ready f area o) (fuel : ℕ) (c : Fin N) (sub : Fin N → ℕ) :
    Ready f area ((Fd.watershed fuel c sub : Prog (Fd N K) _).after o) := by
  have : (Fd.watershed fuel c sub : Prog (Fd N K) _).after o = (reverse : Prog (Fd N K) _).after o := by
    unfold after
    rw [watershed_trace]
  rw [this]
  exact reverse_ready hd h

theorem subLoop_ready {f : Fin N → ℤ} {d : Fin N → Fin N} (hd : Resolves f d) {area : Fin N → K} (fuel : ℕ)
    (l : List (Fin N)) : ∀ (o : Fd N K) (sub : Fin N → ℕ), Ready f area o →
      Ready f area ((subLoop fuel l sub : Prog (Fd N K) _).after o) := by
  induction l with
  | nil => exact fun o _ h => h
  | cons c l ih =>
    intro o sub h
    unfold subLoop
    rw [after_bind]
    have hw := watershed_ready hd h fuel c sub
    cases (Fd.watershed fuel c sub : Prog (Fd N K) _).res o with
    | ok s => exact ih _ s hw
    | err e => exact hw
    | hang => exact hw

theorem after_drop {σ α : Type*} (p : Prog σ α) (o : σ) :
    (p.bind fun _ => (pure () : Prog σ Unit)).after o = p.after o := by
  rw [after_bind]
  cases p.res o <;> rfl

variable [Field K] [LinearOrder K]

/-- a call that returned or raised, other than `flow_directions` -/
theorem call_ready (g : GridType) {f : Fin N → ℤ} {d : Fin N → Fin N} (hd : Resolves f d) {area : Fin N → K} {o : Fd N K}
    (h : Ready f area o) (c : Call N K) (hc : ∀ fuel thr t, c ≠ .dirs fuel thr t) : Ready f area ((c.prog g).after o) := by
  cases c with
  | dirs fuel thr t => exact absurd rfl (hc fuel thr t)
  | accumulate fuel b =>
    obtain ⟨a, e⟩ := (accumulate_run fuel b h.fdir).2
    show Ready f area (Prog.after (Prog.bind _ _) o)
    rw [after_drop, e]
    exact ⟨h.fdir, h.table, h.area⟩
  | watershed fuel c =>
    show Ready f area (Prog.after (Prog.bind _ _) o)
    rw [after_drop]
    exact watershed_ready hd h fuel c _
  | subbasins limit fuel l =>
    show Ready f area (Prog.after (Prog.bind _ _) o)
    rw [after_drop]
    unfold Fd.subbasins
    rw [after_read_bind]
    split
    · exact subLoop_ready hd fuel _ o _ h
    · exact h

/-- before the first watershed no table is stored -/
theorem early_table (g : GridType) (h : List (Call N K × Option ℕ))
    (hh : ∀ c ∈ h, (∃ fuel thr t, c.1 = .dirs fuel thr t) ∨ ∃ fuel b, c.1 = .accumulate fuel b) (o : Fd N K)
    (ho : o.fdirR = none) : (history g o h).fdirR = none := by
  induction h generalizing o with
  | nil => exact ho
  | cons c h ih =>
    refine ih (fun c' hc' => hh c' (by simp [hc'])) _ ?_
    have hI : Inv (fun o : Fd N K => o.fdirR = none) (c.1.prog g) := by
      rcases hh c (by simp) with ⟨fuel, thr, t, e⟩ | ⟨fuel, b, e⟩
      · rw [e]
        refine inv_bind ?_ fun _ _ => inv_pure _
        intro s hs s' h
        rw [(inv_dirs fuel g thr t s s (DirsInv.refl s) s' h).fdirR]
        exact hs
      · rw [e]
        exact inv_bind (inv_accumulate (fun _ _ h => h) _ _) fun _ _ => inv_pure _
    obtain ⟨c, k⟩ := c
    cases k with
    | none => exact hI.after ho
    | some k => exact hI.cut ho k

/-- **C152.**  A session with one object: directions and accumulations in any order, returned, raised or interrupted
(`h1`); then `flow_directions` returns `f`; then accumulations, watersheds and subbasins in any number and order (`h2`),
returned or raised.  After that `flow_accumulation`, `get_watershed_boundary` and `get_subbasins` give what they would
give on a new object with the directions `f`: the upstream sums, the upstream set and the labels of C32, C36 and C38. -/
theorem C152_session (g : GridType) (o : Fd N K) (ho : o.fdirR = none) (h1 : List (Call N K × Option ℕ))
    (hh1 : ∀ c ∈ h1, (∃ fuel thr t, c.1 = .dirs fuel thr t) ∨ ∃ fuel b, c.1 = .accumulate fuel b)
    (dfuel : ℕ) (thr : K) (l : List ℤ) {f : Fin N → ℤ} {d : Fin N → Fin N}
    (hrun : Dirs.flowDirections dfuel o.geo o.dem o.big o.rows thr l = .ok f) (hd : Resolves f d)
    (h2 : List (Call N K)) (hh2 : ∀ c ∈ h2, ∀ fuel thr t, c ≠ .dirs fuel thr t) :
    let o' := history g o (h1 ++ (.dirs dfuel thr (l.map .num), none) :: h2.map (·, none))
    o'.fdir = some f ∧
    (∀ fuel b, (Fd.accumulate fuel b).res o' = Acc.flowAccumulation fuel f o.area b) ∧
    (∀ cell fuel, 2 * N < fuel → ∃ out, (Fd.watershed fuel cell (fun _ => 0)).res o' = .ok out ∧
      ∀ u, (Reaches d u cell → out u = 1) ∧ (¬ Reaches d u cell → out u = 0)) ∧
    ∀ limit fuel (cells : List (Fin N)), 2 * N + 1 < fuel → (∀ c ∈ cells, c.val ≠ 0) → (∀ c ∈ cells, ¬ OnCycle d c) →
      Legal f d → ∀ out, (Fd.subbasins limit fuel cells).res o' = .ok out →
      ∃ lab : Fin N → ℕ,
        (∀ p ∈ cells, 1 ≤ lab p ∧ lab p ≤ cells.toFinset.card) ∧
        (∀ p ∈ cells, ∀ q ∈ cells, lab p = lab q → p = q) ∧
        (∀ p ∈ cells, ∀ q ∈ cells, p ≠ q → Reaches d p q → lab p < lab q) ∧
        (∀ u p, FirstOn d (· ∈ cells) u p → out u = lab p) ∧
        (∀ u, (∀ p ∈ cells, ¬ Reaches d u p) → out u = 0) := by
  have hready : Ready f o.area (history g o (h1 ++ (.dirs dfuel thr (l.map .num), none) :: h2.map (·, none))) := by
    unfold history
    rw [List.foldl_append, List.foldl_cons, List.foldl_map]
    have e0 : (history g o h1).fdirR = none := early_table g h1 hh1 o ho
    have e1 := (C102_recovers_partial g o h1 dfuel thr l).2 f hrun
    have e2 := C102_others_kept_partial dfuel g thr (l.map .num) (history g o h1)
      ((dirs dfuel g thr (l.map .num)) (history g o h1)).1.length
    rw [cut_all] at e2
    have hstart : Ready f o.area ((Call.prog g (.dirs dfuel thr (l.map .num))).after (history g o h1)) := by
      have hp : (Call.prog g (.dirs dfuel thr (l.map .num))).after (history g o h1)
          = (dirs dfuel g thr (l.map .num)).after (history g o h1) := by
        exact after_drop _ _
      rw [hp]
      refine ⟨e1, ?_, ?_⟩
      · intro rows hr
        dsimp only at hr
        rw [e2.2.2.2, e0] at hr
        cases hr
      · rw [e2.2.1]
        exact (like_history g o h1).area
    show Ready f o.area (h2.foldl (fun o c => (Call.prog g c).after o)
      ((Call.prog g (.dirs dfuel thr (l.map .num))).after (history g o h1)))
    revert hstart
    generalize (Call.prog g (.dirs dfuel thr (l.map .num))).after _ = o1
    intro hstart
    induction h2 generalizing o1 with
    | nil => exact hstart
    | cons c h2 ih =>
      exact ih (fun c' hc' => hh2 c' (by simp [hc'])) _ (call_ready g hd hstart c (hh2 c (by simp)))
  refine ⟨hready.fdir, fun fuel b => ?_, fun cell fuel hfuel => ?_, fun limit fuel cells hfuel h0 hcyc hl out hout => ?_⟩
  · rw [(accumulate_run fuel b hready.fdir).1, hready.area]
  · obtain ⟨s', out, e, _, _, h⟩ := C36_repeated (s := ⟨f, _⟩) hd hready.table cell hfuel
    exact ⟨out, by rw [(watershed_run fuel cell _ hready.fdir).1, e]; rfl, h⟩
  · rw [(subbasins_run limit fuel cells hready.fdir).1] at hout
    obtain ⟨⟨s', out'⟩, e, e'⟩ := Res.map_eq_ok.1 hout
    cases e'
    exact C38_returned (s := ⟨f, _⟩) hl hready.table h0 hcyc hfuel e

/-- the object of three cells in a line: directions are calculated, interrupted, calculated again, then asked twice -/
example : ∃ f, Dirs.flowDirections 20 line.geo line.dem line.big line.rows Dirs.thr [] = .ok f ∧
    Resolves f (![1, 2, 2] : Fin 3 → Fin 3) ∧
    (watershed 10 1 (fun _ => 0)).res (history .other line ([(.dirs 20 Dirs.thr [], some 2), (.accumulate 9 true, none)] ++
      (.dirs 20 Dirs.thr ([].map .num), none) :: [Call.watershed 10 2, .subbasins 9 10 [1, 2]].map (·, none)))
      = .ok ![1, 1, 0] := by
  refine ⟨![1, 2, 2], by decide +kernel, ?_, by decide +kernel⟩
  intro n
  revert n
  decide +kernel

end Dany.Fail.Fd
