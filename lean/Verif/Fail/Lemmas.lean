import Verif.Fail.Model
import Verif.Dirs.Props
import Verif.Basin.Props

/-!
# The statement-by-statement methods against the models of `Dirs`, `Acc` and `Basin`
-/

namespace Dany.Fail

open Function Dirs

variable {N : ℕ} {K : Type*}

namespace Prog

variable {σ α β : Type*} {p : Prog σ α} {f : α → Prog σ β} {s : σ}

theorem step {a : α} {s1 : σ} (h : p.res s = .ok a) (h1 : p.after s = s1) :
    (p.bind f).res s = (f a).res s1 ∧ (p.bind f).after s = (f a).after s1 := by
  subst h1
  exact ⟨(bind_of_ok h).1, (bind_of_ok h).2.1⟩

theorem res_write_seq (g : σ → σ) (q : Prog σ β) : ((write g).seq q).res s = q.res (g s) :=
  (step (p := write g) rfl rfl).1

theorem after_write_seq (g : σ → σ) (q : Prog σ β) : ((write g).seq q).after s = q.after (g s) :=
  (step (p := write g) rfl rfl).2

theorem res_read_bind (g : σ → Res α) : ((read g).bind f).res s = (g s).bind fun a => (f a).res s := res_bind

theorem after_read_bind (g : σ → Res α) : ((read g).bind f).after s = match g s with
    | .ok a => (f a).after s
    | _ => s := by
  rw [after_bind]; rfl

end Prog

open Prog

namespace Fd

theorem storeTerminals_run (l : List ℤ) (o : Fd N K) (f : Fin N → ℤ) (h : o.fdir = some f) :
    (each (l.map TCell.num) storeTerminal).res o = (setTerminals l f).map (fun _ => ()) ∧
    ∀ f', setTerminals l f = .ok f' → (each (l.map TCell.num) storeTerminal).after o = { o with fdir := some f' } := by
  induction l generalizing o f with
  | nil =>
    refine ⟨rfl, fun f' hf => ?_⟩
    cases hf
    show o = _
    rw [← h]
  | cons t l ih =>
    rw [List.map_cons, each, setTerminals]
    cases hi : pyIndex N t with
    | ok c =>
      have h1 : (storeTerminal (K := K) (N := N) (.num t)).res o = .ok () := by
        show ((read fun _ => pyIndex N t).bind _).res o = _
        rw [res_read_bind, hi]; rfl
      have h2 : (storeTerminal (K := K) (N := N) (.num t)).after o = { o with fdir := some (update f c t) } := by
        show ((read fun _ => pyIndex N t).bind _).after o = _
        rw [after_read_bind, hi]
        simp [h]
      obtain ⟨e1, e2⟩ := step (f := fun _ => each (l.map TCell.num) storeTerminal) h1 h2
      obtain ⟨i1, i2⟩ := ih { o with fdir := some (update f c t) } (update f c t) rfl
      refine ⟨?_, fun f' hf => ?_⟩
      · rw [Prog.seq, e1, i1]; rfl
      · rw [Prog.seq, e2, i2 f' hf]
    | err e =>
      refine ⟨?_, fun f' hf => by cases hf⟩
      rw [Prog.seq, res_bind]
      show (((read fun _ => pyIndex N t).bind _).res o).bind _ = _
      rw [res_read_bind, hi]; rfl
    | hang =>
      refine ⟨?_, fun f' hf => by cases hf⟩
      rw [Prog.seq, res_bind]
      show (((read fun _ => pyIndex N t).bind _).res o).bind _ = _
      rw [res_read_bind, hi]; rfl

theorem writeRows_run (P : Fin N → List (Entry N)) (l : List (Fin N)) (o : Fd N K) :
    (each l fun n => write fun o : Fd N K => { o with rows := update o.rows n (P n) }).res o = .ok () ∧
    (each l fun n => write fun o : Fd N K => { o with rows := update o.rows n (P n) }).after o
      = { o with rows := fun n => if n ∈ l then P n else o.rows n } := by
  induction l generalizing o with
  | nil => exact ⟨rfl, by simp [each]⟩
  | cons n l ih =>
    rw [each]
    obtain ⟨i1, i2⟩ := ih { o with rows := update o.rows n (P n) }
    refine ⟨by rw [res_write_seq, i1], ?_⟩
    rw [after_write_seq, i2]
    congr 1
    funext m
    by_cases hm : m ∈ l
    · simp [hm]
    · by_cases he : m = n
      · subst he; simp [hm]
      · simp [hm, he]

theorem padRows_run (o : Fd N K) :
    (padRows (N := N) (K := K)).res o = .ok () ∧ (padRows (N := N) (K := K)).after o = { o with rows := pad o.rows } := by
  have h := writeRows_run (pad o.rows) (List.finRange N) o
  unfold padRows
  rw [res_read_bind, after_read_bind]
  refine ⟨h.1, ?_⟩
  show Prog.after _ o = _
  rw [h.2]
  simp

theorem foldl_cellStep_err (frow : Fin N → List (Entry N)) (fuel : ℕ) (v : Fin N → Bool) (l : List (Fin N)) (e : PyErr) :
    l.foldl (cellStep frow fuel v) (.err e) = .err e := by
  induction l with
  | nil => rfl
  | cons x l ih => exact ih

theorem foldl_cellStep_hang (frow : Fin N → List (Entry N)) (fuel : ℕ) (v : Fin N → Bool) (l : List (Fin N)) :
    l.foldl (cellStep frow fuel v) .hang = .hang := by
  induction l with
  | nil => rfl
  | cons x l ih => exact ih

theorem cellLoop_run (fuel : ℕ) (l : List (Fin N)) (o : Fd N K) (f : Fin N → ℤ) (fc : Fin N → List (Entry N))
    (h : o.fdir = some f) :
    (cellLoop fuel l fc).res o
      = (l.foldl (cellStep o.rows fuel (fun n => (o.dem n).isSome)) (.ok ⟨f, fc⟩)).map (fun _ => ()) ∧
    ∀ s', l.foldl (cellStep o.rows fuel (fun n => (o.dem n).isSome)) (.ok ⟨f, fc⟩) = .ok s' →
      (cellLoop fuel l fc).after o = { o with fdir := some s'.fdir } := by
  induction l generalizing o f fc with
  | nil =>
    refine ⟨rfl, fun s' hs => ?_⟩
    cases hs
    show o = _
    rw [← h]
  | cons ix l ih =>
    rw [cellLoop, List.foldl_cons, res_read_bind, after_read_bind, h]
    dsimp only [attr, Res.bind_ok]
    cases hc : cellStep o.rows fuel (fun n => (o.dem n).isSome) (.ok ⟨f, fc⟩) ix with
    | ok s =>
      dsimp only [Res.bind_ok]
      rw [res_write_seq, after_write_seq]
      exact ih { o with fdir := some s.fdir } s.fdir s.fc rfl
    | err e =>
      rw [foldl_cellStep_err]
      exact ⟨rfl, fun s' hs => by cases hs⟩
    | hang =>
      rw [foldl_cellStep_hang]
      exact ⟨rfl, fun s' hs => by cases hs⟩

variable [Field K] [LinearOrder K]

/-- With numbers as terminal cells, the call returns (or raises) what `Dirs.flowDirections` says, and on return has
stored the array and padded the neighbour lists. -/
theorem dirs_run (fuel : ℕ) (g : GridType) (thr : K) {ts : List TCell} {l : List ℤ}
    (hn : nodes g ts = .ok (l.map .num)) (o : Fd N K) :
    (dirs fuel g thr ts).res o = flowDirections fuel o.geo o.dem o.big o.rows thr l ∧
    ∀ out, flowDirections fuel o.geo o.dem o.big o.rows thr l = .ok out →
      (dirs fuel g thr ts).after o = { o with fdir := some out, rows := pad o.rows } := by
  unfold dirs
  rw [res_write_seq, after_write_seq, res_read_bind, after_read_bind]
  unfold flowDirections
  dsimp only
  cases h0 : setMin (minCells o.dem o.big) (fun _ => -1) with
  | err e => exact ⟨rfl, fun _ h => by cases h⟩
  | hang => exact ⟨rfl, fun _ h => by cases h⟩
  | ok f0 =>
    dsimp only [Res.bind_ok]
    rw [res_write_seq, after_write_seq, res_read_bind, after_read_bind, hn]
    dsimp only [Res.bind_ok]
    obtain ⟨t1, t2⟩ := storeTerminals_run l ({ o with fdir := some f0 } : Fd N K) f0 rfl
    cases h1 : setTerminals l f0 with
    | err e =>
      rw [h1] at t1
      have := bind_of_err (f := fun _ => padRows.seq <|
        (read fun o : Fd N K => fcells o.geo o.dem thr o.big o.rows).bind fun fc =>
        (cellLoop fuel (List.finRange N) fc).seq <| read fun o => attr o.fdir) t1
      exact ⟨this.1, fun _ h => by cases h⟩
    | hang =>
      rw [h1] at t1
      have := bind_of_hang (f := fun _ => padRows.seq <|
        (read fun o : Fd N K => fcells o.geo o.dem thr o.big o.rows).bind fun fc =>
        (cellLoop fuel (List.finRange N) fc).seq <| read fun o => attr o.fdir) t1
      exact ⟨this.1, fun _ h => by cases h⟩
    | ok f1 =>
      rw [h1] at t1
      rw [Prog.seq, (step t1 (t2 f1 h1)).1, (step t1 (t2 f1 h1)).2, Prog.seq,
        (step (padRows_run _).1 (padRows_run _).2).1, (step (padRows_run _).1 (padRows_run _).2).2,
        res_read_bind, after_read_bind]
      dsimp only [Res.bind_ok]
      have hfc : fcells o.geo o.dem thr o.big (pad o.rows) = fcells o.geo o.dem thr o.big o.rows := by
        unfold fcells
        rw [pad_pad, width_pad]
      rw [hfc]
      cases h2 : fcells o.geo o.dem thr o.big o.rows with
      | err e => exact ⟨rfl, fun _ h => by cases h⟩
      | hang => exact ⟨rfl, fun _ h => by cases h⟩
      | ok fc =>
        dsimp only [Res.bind_ok]
        obtain ⟨c1, c2⟩ := cellLoop_run fuel (List.finRange N)
          ({ o with fdir := some f1, rows := pad o.rows } : Fd N K) f1 fc rfl
        dsimp only at c1 c2
        cases h3 : (List.finRange N).foldl (cellStep (pad o.rows) fuel fun n => (o.dem n).isSome)
            (.ok ⟨f1, fc⟩) with
        | err e =>
          rw [h3] at c1
          exact ⟨(bind_of_err c1).1, fun _ h => by cases h⟩
        | hang =>
          rw [h3] at c1
          exact ⟨(bind_of_hang c1).1, fun _ h => by cases h⟩
        | ok s =>
          rw [h3] at c1
          rw [Prog.seq, (step c1 (c2 s h3)).1, (step c1 (c2 s h3)).2]
          refine ⟨rfl, fun out h => ?_⟩
          cases h
          rfl

/-! ### What a call cannot change -/

/-- Grid, elevations and areas are the same, and each neighbour list is the old one or the old one padded. -/
structure Like (o o' : Fd N K) : Prop where
  geo : o'.geo = o.geo
  dem : o'.dem = o.dem
  big : o'.big = o.big
  area : o'.area = o.area
  rows : ∀ n, o'.rows n = o.rows n ∨ o'.rows n = pad o.rows n

omit [Field K] [LinearOrder K] in
theorem pad_mixed {r r' : Fin N → List (Entry N)} (h : ∀ n, r' n = r n ∨ r' n = pad r n) :
    pad r' = pad r ∧ width r' = width r := by
  have hw : width r' = width r := by
    apply le_antisymm
    · refine width_le fun n => ?_
      rcases h n with h | h <;> rw [h]
      · exact length_le_width r n
      · rw [length_pad]
    · refine width_le fun n => le_trans ?_ (length_le_width r' n)
      rcases h n with h | h <;> rw [h]
      rw [length_pad]
      exact length_le_width r n
  refine ⟨?_, hw⟩
  funext n
  conv_lhs => rw [pad]
  rw [hw]
  rcases h n with h | h <;> rw [h]
  · rfl
  · rw [length_pad]; simp

omit [Field K] [LinearOrder K] in
theorem Like.refl (o : Fd N K) : Like o o := ⟨rfl, rfl, rfl, rfl, fun _ => .inl rfl⟩

omit [Field K] [LinearOrder K] in
theorem Like.trans {a b c : Fd N K} (h : Like a b) (h' : Like b c) : Like a c := by
  refine ⟨h'.geo.trans h.geo, h'.dem.trans h.dem, h'.big.trans h.big, h'.area.trans h.area, fun n => ?_⟩
  rcases h'.rows n with h1 | h1
  · rw [h1]; exact h.rows n
  · right
    rw [h1, (pad_mixed h.rows).1]

/-- `flow_directions` does not tell alike objects apart. -/
theorem flowDirections_like {o o' : Fd N K} (h : Like o o') (fuel : ℕ) (thr : K) (l : List ℤ) :
    flowDirections fuel o'.geo o'.dem o'.big o'.rows thr l = flowDirections fuel o.geo o.dem o.big o.rows thr l := by
  rw [h.geo, h.dem, h.big]
  unfold flowDirections fcells
  rw [(pad_mixed h.rows).1, (pad_mixed h.rows).2]

/-- What a call of `flow_directions` leaves alone, wherever it stops: everything but the directions, and the
padding. -/
structure DirsInv (o o' : Fd N K) : Prop extends Like o o' where
  facc : o'.facc = o.facc
  fdirR : o'.fdirR = o.fdirR

omit [Field K] [LinearOrder K] in
theorem DirsInv.refl (o : Fd N K) : DirsInv o o := ⟨Like.refl o, rfl, rfl⟩

omit [Field K] [LinearOrder K] in
theorem DirsInv.setFdir {o o' : Fd N K} (h : DirsInv o o') (f : Option (Fin N → ℤ)) :
    DirsInv o { o' with fdir := f } := ⟨⟨h.geo, h.dem, h.big, h.area, h.rows⟩, h.facc, h.fdirR⟩

omit [Field K] [LinearOrder K] in
theorem inv_storeTerminal {I : Fd N K → Prop} (hI : ∀ o f, I o → I { o with fdir := f }) (t : TCell) :
    Inv I (storeTerminal t) := by
  cases t with
  | num t => exact inv_bind (inv_read _) fun c _ => inv_write fun o ho => hI o _ ho
  | pair r c => exact inv_read _

omit [Field K] [LinearOrder K] in
theorem inv_cellLoop {I : Fd N K → Prop} (hI : ∀ o f, I o → I { o with fdir := f }) (fuel : ℕ) (l : List (Fin N))
    (fc : Fin N → List (Entry N)) : Inv I (cellLoop fuel l fc) := by
  induction l generalizing fc with
  | nil => exact inv_pure ()
  | cons ix l ih =>
    exact inv_bind (inv_read _) fun s _ => inv_seq (inv_write fun o ho => hI o _ ho) (ih _)

omit [Field K] [LinearOrder K] in
theorem inv_padRows (o : Fd N K) : Inv (DirsInv o) (padRows : Prog (Fd N K) Unit) := by
  refine inv_bind (inv_read _) fun P hP => inv_each _ fun n _ => inv_write fun o' h => ?_
  obtain ⟨o1, h1, h2⟩ := hP
  have : P = pad o.rows := by
    rw [← (pad_mixed h1.rows).1]
    exact (Res.ok.inj h2).symm
  subst this
  refine ⟨⟨h.geo, h.dem, h.big, h.area, fun m => ?_⟩, h.facc, h.fdirR⟩
  by_cases hm : m = n
  · subst hm; right; simp
  · have := h.rows m
    simpa [hm] using this

theorem inv_dirs (fuel : ℕ) (g : GridType) (thr : K) (ts : List TCell) (o : Fd N K) :
    Inv (DirsInv o) (dirs fuel g thr ts) := by
  have hI : ∀ o' f, DirsInv o o' → DirsInv o { o' with fdir := f } := fun _ f h => h.setFdir f
  refine inv_seq (inv_write fun o' h => hI _ _ h) (inv_bind (inv_read _) fun f0 _ =>
    inv_seq (inv_write fun o' h => hI _ _ h) (inv_bind (inv_read _) fun ns _ =>
    inv_seq (inv_each _ fun t _ => inv_storeTerminal hI t) (inv_seq (inv_padRows o) (inv_bind (inv_read _) fun fc _ =>
    inv_seq (inv_cellLoop hI _ _ _) (inv_read _)))))

theorem inv_accumulate {I : Fd N K → Prop} (hI : ∀ o f, I o → I { o with facc := f }) (fuel : ℕ) (b : Bool) :
    Inv I (accumulate fuel b : Prog (Fd N K) _) :=
  inv_bind (inv_read _) fun a _ => inv_seq (inv_write fun o h => hI o _ h) (inv_pure _)

omit [Field K] [LinearOrder K] in
theorem inv_reverse {I : Fd N K → Prop} (hI : ∀ o f, I o → I { o with fdirR := f }) :
    Inv I (reverse : Prog (Fd N K) _) := by
  refine inv_bind (inv_read _) fun r _ => ?_
  cases r with
  | some rows => exact inv_pure _
  | none =>
    refine inv_bind (inv_read _) fun x _ => inv_seq (inv_write fun o h => hI o _ h) (inv_seq (inv_each _ fun ix _ => ?_)
      (inv_read _))
    exact inv_bind (inv_read _) fun c _ => inv_write fun o h => hI o _ h

omit [Field K] [LinearOrder K] in
theorem inv_watershed {I : Fd N K → Prop} (hI : Inv I (reverse : Prog (Fd N K) _)) (fuel : ℕ) (c : Fin N)
    (sub : Fin N → ℕ) : Inv I (watershed fuel c sub : Prog (Fd N K) _) :=
  inv_bind hI fun _ _ => inv_read _

omit [Field K] [LinearOrder K] in
theorem inv_subbasins {I : Fd N K → Prop} (hI : Inv I (reverse : Prog (Fd N K) _)) (limit fuel : ℕ)
    (cells : List (Fin N)) : Inv I (subbasins limit fuel cells : Prog (Fd N K) _) := by
  refine inv_bind (inv_read _) fun pts _ => ?_
  have : ∀ (l : List (Fin N)) (sub : Fin N → ℕ), Inv I (subLoop fuel l sub : Prog (Fd N K) _) := by
    intro l
    induction l with
    | nil => exact fun _ => inv_pure _
    | cons c l ih => exact fun sub => inv_bind (inv_watershed hI fuel c sub) fun _ _ => ih _
  exact this pts _

/-- No call, finished, failed or interrupted, changes grid, elevations, areas, or more of the neighbour lists than
their padding. -/
theorem inv_call (g : GridType) (c : Call N K) (o : Fd N K) : Inv (Like o) (c.prog g) := by
  have hI : ∀ o' : Fd N K, ∀ f : Option (List (Fin N → ℤ)), Like o o' → Like o { o' with fdirR := f } :=
    fun _ _ h => ⟨h.geo, h.dem, h.big, h.area, h.rows⟩
  cases c with
  | dirs fuel thr ts =>
    refine inv_bind ?_ fun _ _ => inv_pure _
    intro s hs s' h
    exact hs.trans (inv_dirs fuel g thr ts s s (DirsInv.refl s) s' h).toLike
  | accumulate fuel b =>
    exact inv_bind (inv_accumulate (fun _ _ h => ⟨h.geo, h.dem, h.big, h.area, h.rows⟩) _ _) fun _ _ => inv_pure _
  | watershed fuel c => exact inv_bind (inv_watershed (inv_reverse hI) _ _ _) fun _ _ => inv_pure _
  | subbasins limit fuel l => exact inv_bind (inv_subbasins (inv_reverse hI) _ _ _) fun _ _ => inv_pure _

theorem like_history (g : GridType) (o : Fd N K) (h : List (Call N K × Option ℕ)) : Like o (history g o h) := by
  suffices ∀ o', Like o o' → Like o (history g o' h) from this o (Like.refl o)
  induction h with
  | nil => exact fun _ h => h
  | cons c h ih =>
    intro o' ho
    refine ih _ ?_
    obtain ⟨c, k⟩ := c
    cases k with
    | none => exact (inv_call g c o).after ho
    | some k => exact (inv_call g c o).cut ho k

end Fd

end Dany.Fail
