import Verif.Fail.Props

/-!
# C107: interrupting a watershed delineation
-/

namespace Dany.Fail

open Function Dirs Flow Prog

variable {N : ℕ} {K : Type*}

namespace Prog

variable {σ β : Type*}

/-- a loop of plain writes, cut off after `k` of them -/
theorem each_cut {body : β → Prog σ Unit} {g : β → σ → σ} (hb : ∀ x s, body x s = ([g x s], .ok ()))
    (l : List β) (s : σ) (k : ℕ) :
    (each l body).cut s k = (l.take k).foldl (fun s x => g x s) s ∧ (each l body).res s = .ok () ∧
      ((each l body) s).1.length = l.length := by
  induction l generalizing s k with
  | nil => simp [each, cut, Prog.pure, res]
  | cons x l ih =>
    have h1 : (body x).res s = .ok () := by unfold res; rw [hb]
    have h2 : (body x).after s = g x s := by unfold after; rw [hb]; rfl
    obtain ⟨b1, b2, b3⟩ := bind_of_ok (f := fun _ => each l body) h1
    rw [h2] at b1 b3
    have h3 : (body x s).1 = [g x s] := by rw [hb]
    rw [h3] at b3
    refine ⟨?_, b1.trans (ih (g x s) k).2.1, ?_⟩
    · unfold cut
      rw [each, Prog.seq, b3]
      cases k with
      | zero => rfl
      | succ k =>
        rw [List.singleton_append, List.take_succ_cons, List.take_succ_cons, List.foldl_cons]
        have := (ih (g x s) k).1
        unfold cut at this
        rw [← this]
        show latest s ([g x s] ++ _) = _
        rw [latest_append, latest_singleton]
    · rw [each, Prog.seq, b3]
      simp [(ih (g x s) 0).2.2]

end Prog

namespace Fd

/-- The reversed table after the first `k` cells have been entered -/
def partTable (d : Fin N → Fin N) (m k : ℕ) : List (Fin N → ℤ) :=
  ((List.finRange N).take k).foldl (fun rows ix => Basin.place (d ix) ((ix : ℕ) : ℤ) rows)
    (List.replicate m (fun _ => -1))

theorem foldl_place (d : Fin N → Fin N) (l : List (Fin N)) (o : Fd N K) (rows : List (Fin N → ℤ))
    (h : o.fdirR = some rows) :
    l.foldl (fun (o : Fd N K) ix => { o with fdirR := o.fdirR.map (Basin.place (d ix) ((ix : ℕ) : ℤ)) }) o
      = { o with fdirR := some (l.foldl (fun rows ix => Basin.place (d ix) ((ix : ℕ) : ℤ) rows) rows) } := by
  induction l generalizing o rows with
  | nil => show o = _; rw [List.foldl_nil, ← h]
  | cons x l ih =>
    rw [List.foldl_cons, List.foldl_cons, ih _ (Basin.place (d x) ((x : ℕ) : ℤ) rows) (by simp [h])]

theorem reverse_trace {o : Fd N K} {f : Fin N → ℤ} {d : Fin N → Fin N} (hf : o.fdir = some f)
    (hd : Resolves f d) (hn : o.fdirR = none) : ∃ m, (∀ c : Fin N, (Acc.pre d c).card ≤ m) ∧ m ≤ N ∧
      ∀ k, (reverse : Prog (Fd N K) _).cut o (k + 1) = { o with fdirR := some (partTable d m k) } := by
  obtain ⟨nidp, hnidp, hcount⟩ : ∃ nidp, Acc.getNidp f = .ok nidp ∧ ∀ c, nidp c = (Acc.pre d c).card :=
    ⟨_, Acc.getNidp_ok hd, fun _ => rfl⟩
  refine ⟨Basin.npMax nidp, fun c => ?_, ?_, fun k => ?_⟩
  · rw [← hcount c]; exact Basin.le_npMax nidp c
  · refine Basin.npMax_le nidp fun n => ?_
    rw [hcount n]
    exact (Finset.card_le_univ _).trans (by simp)
  · have hidx : ∀ ix, pyIndex N (f ix) = .ok (d ix) := hd.pyIndex
    let o1 : Fd N K := { o with fdirR := some (List.replicate (Basin.npMax nidp) fun _ => -1) }
    let body : Fin N → Prog (Fd N K) Unit := fun ix => (read fun _ => pyIndex N (f ix)).bind fun c =>
        write fun o => { o with fdirR := o.fdirR.map (Basin.place c ((ix : ℕ) : ℤ)) }
    have hb : ∀ ix (s : Fd N K), body ix s =
        ([{ s with fdirR := s.fdirR.map (Basin.place (d ix) ((ix : ℕ) : ℤ)) }], .ok ()) := by
      intro ix s
      show Prog.bind _ _ s = _
      unfold Prog.bind Prog.read
      rw [hidx]
      rfl
    obtain ⟨e1, e2, _⟩ := each_cut hb (List.finRange N) o1 k
    have htr : ((reverse : Prog (Fd N K) _) o).1 = o1 :: ((each (List.finRange N) body) o1).1 := by
      unfold reverse
      rw [(bind_of_ok (p := read fun o : Fd N K => Res.ok o.fdirR) (a := none) (by rw [res_read, hn])).2.2]
      show [] ++ _ = _
      rw [List.nil_append]
      dsimp only [after_read]
      rw [(bind_of_ok (p := read fun o : Fd N K => (attr o.fdir).bind fun f => (Acc.getNidp f).map fun nidp =>
        (f, Basin.npMax nidp)) (a := (f, Basin.npMax nidp)) (by
          rw [res_read, hf]; show (Acc.getNidp f).map _ = _; rw [hnidp]; rfl)).2.2]
      show [] ++ _ = _
      rw [List.nil_append]
      dsimp only [after_read]
      rw [Prog.seq, (bind_of_ok (p := write fun o : Fd N K =>
        { o with fdirR := some (List.replicate (Basin.npMax nidp) fun _ => -1) }) (a := ()) rfl).2.2]
      show [o1] ++ _ = _
      rw [List.singleton_append]
      congr 1
      rw [Prog.seq]
      have := (bind_of_ok (p := each (List.finRange N) body) (f := fun _ => read fun o : Fd N K => attr o.fdirR) e2).2.2
      refine Eq.trans this ?_
      show _ ++ [] = _
      rw [List.append_nil]
    unfold cut
    rw [htr, List.take_succ_cons]
    show latest o ([o1] ++ _) = _
    rw [latest_append, latest_singleton]
    refine e1.trans ?_
    rw [foldl_place d _ o1 _ rfl]
    rfl

/-- a stored table is never replaced -/
theorem inv_call_table [Field K] [LinearOrder K] (g : GridType) (c : Call N K) (T : List (Fin N → ℤ)) :
    Inv (fun o : Fd N K => o.fdirR = some T) (c.prog g) := by
  have hrev : Inv (fun o : Fd N K => o.fdirR = some T) (reverse : Prog (Fd N K) _) := by
    refine inv_bind (inv_read _) fun r hr => ?_
    obtain ⟨s, h1, h2⟩ := hr
    have h2 : Res.ok s.fdirR = .ok r := h2
    rw [h1] at h2
    cases h2
    exact inv_pure _
  cases c with
  | dirs fuel thr ts =>
    refine inv_bind ?_ fun _ _ => inv_pure _
    intro s hs s' h
    rw [(inv_dirs fuel g thr ts s s (DirsInv.refl s) s' h).fdirR]
    exact hs
  | accumulate fuel b => exact inv_bind (inv_accumulate (fun _ _ h => h) _ _) fun _ _ => inv_pure _
  | watershed fuel c => exact inv_bind (inv_watershed hrev _ _ _) fun _ _ => inv_pure _
  | subbasins limit fuel l => exact inv_bind (inv_subbasins hrev _ _ _) fun _ _ => inv_pure _

theorem history_table [Field K] [LinearOrder K] (g : GridType) (T : List (Fin N → ℤ)) (h : List (Call N K × Option ℕ))
    (o : Fd N K) (ho : o.fdirR = some T) : (history g o h).fdirR = some T := by
  induction h generalizing o with
  | nil => exact ho
  | cons c h ih =>
    refine ih _ ?_
    obtain ⟨c, k⟩ := c
    cases k with
    | none => exact (inv_call_table g c T).after ho
    | some k => exact (inv_call_table g c T).cut ho k

theorem watershed_trace (fuel : ℕ) (cell : Fin N) (sub : Fin N → ℕ) (o : Fd N K) :
    ((watershed fuel cell sub : Prog (Fd N K) _) o).1 = ((reverse : Prog (Fd N K) _) o).1 := by
  unfold watershed
  cases h : (reverse : Prog (Fd N K) _).res o with
  | ok a => rw [(bind_of_ok h).2.2]; show _ ++ [] = _; rw [List.append_nil]
  | err e => rw [(bind_of_err h).2.2]
  | hang => rw [(bind_of_hang h).2.2]

theorem column_empty (m a : ℕ) (c : Fin N) :
    Basin.column (List.replicate m (fun _ : Fin N => (-1 : ℤ))) a c = List.replicate (min a m) (-1) := by
  unfold Basin.column
  rw [List.take_replicate, List.map_replicate]

theorem bfs_skip (rows : List (Fin N → ℤ)) (nidp : Fin N → ℕ) (id : ℕ) {last : Fin N} (hl : last.val + 1 = N) :
    ∀ (a fuel : ℕ) (sub : Fin N → ℕ), a < fuel → sub last ≠ 0 →
      Basin.bfs rows nidp id fuel (List.replicate a (-1)) sub = .ok sub := by
  have hi : pyIndex N (-1) = .ok last := by
    unfold pyIndex
    rw [dif_neg (by omega), dif_pos (by omega)]
    congr 1
    exact Fin.ext (by show ((N : ℤ) + -1).toNat = last.val; omega)
  intro a
  induction a with
  | zero =>
    intro fuel sub hf _
    cases fuel with
    | zero => omega
    | succ fuel => rfl
  | succ a ih =>
    intro fuel sub hf h0
    cases fuel with
    | zero => omega
    | succ fuel =>
      rw [List.replicate_succ, Basin.bfs, hi, Res.bind_ok, if_pos h0]
      exact ih fuel sub (by omega) h0

/-- **C107, refuted.**  If the first delineation of a watershed is interrupted just after the table of inflowing cells
has been set up, then after any further history of calls every watershed consists of the pour point and perhaps the last
cell, whatever the directions are. -/
theorem C107_empty_table_refuted [Field K] [LinearOrder K] (g : GridType) {o : Fd N K} {f f' : Fin N → ℤ}
    {d d' : Fin N → Fin N} (hf : o.fdir = some f) (hd : Resolves f d) (hn : o.fdirR = none) (fuel : ℕ) (cell : Fin N)
    (h : List (Call N K × Option ℕ)) (p : Fin N) {fuel' : ℕ} (hfu : 2 * N < fuel')
    (hf' : (history g ((watershed fuel cell (fun _ => 0)).cut o 1) h).fdir = some f') (hd' : Resolves f' d') :
    ∃ sub, (watershed fuel' p (fun _ => 0)).res (history g ((watershed fuel cell (fun _ => 0)).cut o 1) h) = .ok sub ∧
      ∀ n, sub n ≠ 0 → n = p ∨ n.val + 1 = N := by
  obtain ⟨m, -, hm, hcut⟩ := reverse_trace hf hd hn
  have h0 : (watershed fuel cell (fun _ => 0)).cut o 1 =
      { o with fdirR := some (List.replicate m fun _ => -1) } := by
    have := hcut 0
    unfold cut at this ⊢
    rw [watershed_trace, this]
    simp [partTable]
  rw [h0] at hf' ⊢
  generalize ho' : history g { o with fdirR := some (List.replicate m fun _ => -1) } h = o' at hf' ⊢
  have hT : o'.fdirR = some (List.replicate m fun _ => -1) := by
    rw [← ho']
    exact history_table g _ h _ rfl
  obtain ⟨nidp, hnidp, hcount⟩ : ∃ nidp, Acc.getNidp f' = .ok nidp ∧ ∀ c, nidp c = (Acc.pre d' c).card :=
    ⟨_, Acc.getNidp_ok hd', fun _ => rfl⟩
  have hres : (watershed fuel' p (fun _ => 0)).res o' =
      Basin.bfs (List.replicate m fun _ => -1) nidp 1 fuel' (List.replicate (min (nidp p) m) (-1))
        (update (fun _ => 0) p 1) := by
    have hrev : (reverse : Prog (Fd N K) _).res o' = .ok (List.replicate m fun _ => -1) ∧
        (reverse : Prog (Fd N K) _).after o' = o' := by
      unfold reverse
      obtain ⟨s1, s2⟩ := step (p := read fun o : Fd N K => Res.ok o.fdirR) (s := o') (f := fun r =>
        match r with
        | some rows => (pure rows : Prog (Fd N K) _)
        | none =>
          (read fun o => (attr o.fdir).bind fun f => (Acc.getNidp f).map fun nidp => (f, Basin.npMax nidp)).bind fun x =>
          (write fun o => { o with fdirR := some (List.replicate x.2 (fun _ => -1)) }).seq <|
          (each (List.finRange N) fun ix => (read fun _ => pyIndex N (x.1 ix)).bind fun c =>
            write fun o => { o with fdirR := o.fdirR.map (Basin.place c ((ix : ℕ) : ℤ)) }).seq <|
          read fun o => attr o.fdirR) (by rw [res_read, hT]) rfl
      exact ⟨s1, s2⟩
    unfold watershed
    rw [(step hrev.1 hrev.2).1, res_read, hf']
    show (Acc.getNidp f').bind _ = _
    rw [hnidp, Res.bind_ok, column_empty, Basin.npMax_zero]
  rw [hres]
  have hN : 0 < N := lt_of_le_of_lt (Nat.zero_le _) p.isLt
  let last : Fin N := ⟨N - 1, by omega⟩
  have hl : last.val + 1 = N := by show N - 1 + 1 = N; omega
  have hi : pyIndex N (-1) = .ok last := by
    unfold pyIndex
    rw [dif_neg (by omega), dif_pos (by omega)]
    congr 1
    exact Fin.ext (by show ((N : ℤ) + -1).toNat = N - 1; omega)
  have hle : ∀ c, min (nidp c) m ≤ N := fun c => (min_le_right _ _).trans hm
  have hsub : ∀ n, update (fun _ => 0) p 1 n ≠ 0 → n = p := by
    intro n
    by_cases hn : n = p
    · exact fun _ => hn
    · simp [hn]
  by_cases ha : min (nidp p) m = 0
  · rw [ha]
    obtain ⟨fuel'', rfl⟩ : ∃ k, fuel' = k + 1 := ⟨fuel' - 1, by omega⟩
    exact ⟨_, rfl, fun n hn => .inl (hsub n hn)⟩
  · by_cases hlast : update (fun _ => 0) p 1 last = 0
    · obtain ⟨a, ha'⟩ : ∃ a, min (nidp p) m = a + 1 := ⟨min (nidp p) m - 1, by omega⟩
      obtain ⟨fuel'', rfl⟩ : ∃ k, fuel' = k + 1 := ⟨fuel' - 1, by omega⟩
      rw [ha', List.replicate_succ, Basin.bfs, hi, Res.bind_ok, if_neg (by simpa using hlast)]
      have hmark : update (update (fun _ => 0) p 1) last 1 last ≠ 0 := by simp
      have hfin : ∀ n, update (update (fun _ => 0) p 1) last 1 n ≠ 0 → n = p ∨ n.val + 1 = N := by
        intro n hn
        by_cases he : n = last
        · right; rw [he]; exact hl
        · rw [update_of_ne he] at hn; exact .inl (hsub n hn)
      have hp := hle p
      dsimp only
      split
      · exact ⟨_, bfs_skip _ _ _ hl a fuel'' _ (by omega) hmark, hfin⟩
      · rw [column_empty, ← List.replicate_add]
        have := hle last
        exact ⟨_, bfs_skip _ _ _ hl _ fuel'' _ (by omega) hmark, hfin⟩
    · have := hle p
      exact ⟨_, bfs_skip _ _ _ hl _ fuel' _ (by omega) hlast, fun n hn => .inl (hsub n hn)⟩

/-- **C107, the exact damage (partial).**  Interrupted later, the table holds the cells entered so far, and stays so. -/
theorem C107_part_table_partial [Field K] [LinearOrder K] (g : GridType) {o : Fd N K} {f : Fin N → ℤ}
    {d : Fin N → Fin N} (hf : o.fdir = some f) (hd : Resolves f d) (hn : o.fdirR = none) (fuel : ℕ) (cell : Fin N)
    (k : ℕ) : ∃ m, (watershed fuel cell (fun _ => 0)).cut o (k + 1) = { o with fdirR := some (partTable d m k) } ∧
      ∀ h, (history g ((watershed fuel cell (fun _ => 0)).cut o (k + 1)) h).fdirR = some (partTable d m k) := by
  obtain ⟨m, -, -, hcut⟩ := reverse_trace hf hd hn
  have h0 : (watershed fuel cell (fun _ => 0)).cut o (k + 1) = { o with fdirR := some (partTable d m k) } := by
    have := hcut k
    unfold cut at this ⊢
    rw [watershed_trace, this]
  refine ⟨m, h0, fun h => ?_⟩
  rw [h0]
  exact history_table g _ h _ rfl

/-- **C107, what an interrupt cannot do (partial).**  Interrupting `flow_accumulation` leaves the object as it was or with
the finished result; interrupting a watershed delineation once a table is stored changes nothing; no interrupt changes DEM
or areas. -/
theorem C107_harmless_partial [Field K] [LinearOrder K] (o : Fd N K) (k : ℕ) :
    (∀ fuel b, (accumulate fuel b).cut o k = o ∨
      ∃ a, (accumulate fuel b).res o = .ok a ∧ (accumulate fuel b).cut o k = { o with facc := some a }) ∧
    (∀ fuel cell T, o.fdirR = some T → (watershed fuel cell (fun _ => 0)).cut o k = o) ∧
    ∀ g c, ((Call.prog g c).cut o k).dem = o.dem ∧ ((Call.prog g c).cut o k).area = o.area := by
  refine ⟨fun fuel b => ?_, fun fuel cell T hT => ?_, fun g c => ?_⟩
  · unfold accumulate
    cases h : (attr o.fdir).bind fun f => Acc.flowAccumulation fuel f o.area b with
    | ok a =>
      have hr : (read fun o : Fd N K => (attr o.fdir).bind fun f => Acc.flowAccumulation fuel f o.area b).res o
          = .ok a := h
      have htr := (bind_of_ok (f := fun a => (write fun o : Fd N K => { o with facc := some a }).seq (pure a)) hr).2.2
      have : ((read fun o : Fd N K => (attr o.fdir).bind fun f => Acc.flowAccumulation fuel f o.area b).bind
          (fun a => (write fun o : Fd N K => { o with facc := some a }).seq (pure a)) o).1
          = [{ o with facc := some a }] := htr
      unfold cut
      rw [this]
      cases k with
      | zero => exact .inl rfl
      | succ k =>
        right
        refine ⟨a, ?_, ?_⟩
        · rw [(bind_of_ok hr).1]; rfl
        · rw [List.take_succ_cons, List.take_nil]; rfl
    | err e =>
      left
      have hr : (read fun o : Fd N K => (attr o.fdir).bind fun f => Acc.flowAccumulation fuel f o.area b).res o
          = .err e := h
      unfold cut
      rw [(bind_of_err hr).2.2]
      simp [Prog.read]
    | hang =>
      left
      have hr : (read fun o : Fd N K => (attr o.fdir).bind fun f => Acc.flowAccumulation fuel f o.area b).res o
          = .hang := h
      unfold cut
      rw [(bind_of_hang hr).2.2]
      simp [Prog.read]
  · have htr : ((reverse : Prog (Fd N K) _) o).1 = [] := by
      unfold reverse
      rw [(bind_of_ok (p := read fun o : Fd N K => Res.ok o.fdirR) (a := some T) (by rw [res_read, hT])).2.2]
      rfl
    unfold cut
    rw [watershed_trace, htr]
    simp
  · have := (inv_call g c o).cut (Like.refl o) k
    exact ⟨this.dem, this.area⟩

/-- the row of three cells again: the watershed of its last cell is everything; after an interrupt it is the last cell
only, or lacks the cells not entered yet -/
theorem C107_refuted : (watershed 10 2 (fun _ => 0)).res line1 = .ok ![1, 1, 1] ∧
    (watershed 10 2 (fun _ => 0)).res ((watershed 10 0 (fun _ => 0)).cut line1 1) = .ok ![0, 0, 1] ∧
    (watershed 10 2 (fun _ => 0)).res ((watershed 10 0 (fun _ => 0)).cut line1 2) = .ok ![0, 0, 1] ∧
    (watershed 10 1 (fun _ => 0)).res ((watershed 10 0 (fun _ => 0)).cut line1 1) = .ok ![0, 1, 1] := by decide +kernel

end Fd

end Dany.Fail
