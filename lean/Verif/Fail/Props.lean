import Verif.Fail.Lemmas
import Verif.Dirs.Witness
import Verif.Acc.Props

/-!
# C102, C106, C108: calls of `flow_directions` that fail or are interrupted; forms of `terminal_cells`
-/

namespace Dany.Fail

open Function Dirs Flow Prog

variable {N : ℕ} {K : Type*} [Field K] [LinearOrder K]

namespace Fd

/-! ### C102 -/

/-- **C102** as a statement: a call that raises leaves the directions computed before. -/
def KeepsOnFailure (N : ℕ) (K : Type*) [Field K] [LinearOrder K] : Prop :=
  ∀ (g : GridType) (o : Fd N K) (fuel : ℕ) (thr : K) (ts : List TCell) (e : PyErr),
    (dirs fuel g thr ts).res o = .err e → ((dirs fuel g thr ts).after o).fdir = o.fdir

/-- **C102, refuted.**  Whether a call returns or raises, nothing of the earlier directions survives: what it leaves
does not depend on them. -/
theorem C102_lost_refuted (fuel : ℕ) (g : GridType) (thr : K) (ts : List TCell) (o : Fd N K)
    (f : Option (Fin N → ℤ)) :
    (dirs fuel g thr ts).after { o with fdir := f } = (dirs fuel g thr ts).after o ∧
      ((dirs fuel g thr ts).after o).fdir ≠ none := by
  constructor
  · unfold dirs
    rw [after_write_seq, after_write_seq]
  · have hI : ∀ (o' : Fd N K) (c : Fin N) (t : ℤ), o'.fdir ≠ none →
        (o'.fdir.map fun f => update f c t) ≠ none := by
      intro o' c t h
      cases hf : o'.fdir with
      | none => exact absurd hf h
      | some f => simp
    unfold dirs
    rw [after_write_seq]
    have hinv : Inv (fun o : Fd N K => o.fdir ≠ none)
        ((read fun o => setMin (minCells o.dem o.big) (fun _ => -1)).bind fun f0 =>
          (write fun o : Fd N K => { o with fdir := some f0 }).seq <|
          (read fun _ => nodes g ts).bind fun ns => (each ns storeTerminal).seq <|
          padRows.seq <| (read fun o => fcells o.geo o.dem thr o.big o.rows).bind fun fc =>
          (cellLoop fuel (List.finRange N) fc).seq <| read fun o => attr o.fdir) := by
      refine inv_bind (inv_read _) fun f0 _ => inv_seq (inv_write fun o _ => by simp) (inv_bind (inv_read _) fun ns _ =>
        inv_seq (inv_each _ fun t _ => ?_) (inv_seq (inv_bind (inv_read _) fun P _ => inv_each _ fun n _ =>
          inv_write fun o h => h) (inv_bind (inv_read _) fun fc _ => inv_seq ?_ (inv_read _))))
      · cases t with
        | num t => exact inv_bind (inv_read _) fun c _ => inv_write fun o h => hI o c t h
        | pair r c => exact inv_read _
      · rename_i hfc
        clear hfc
        generalize List.finRange N = l
        induction l generalizing fc with
        | nil => exact inv_pure ()
        | cons ix l ih => exact inv_bind (inv_read _) fun s _ => inv_seq (inv_write fun o _ => by simp) (ih _)
    exact hinv.after (by simp)

omit [Field K] [LinearOrder K] in
theorem storeTerminals_fail {l1 : List ℤ} (rest : List TCell) {t : ℤ} {e : PyErr} (ht : pyIndex N t = .err e)
    (o : Fd N K) (f f1 : Fin N → ℤ) (h : o.fdir = some f) (h1 : setTerminals l1 f = .ok f1) :
    (each (l1.map TCell.num ++ TCell.num t :: rest) storeTerminal).res o = .err e ∧
      (each (l1.map TCell.num ++ TCell.num t :: rest) storeTerminal).after o = { o with fdir := some f1 } := by
  induction l1 generalizing o f with
  | nil =>
    cases h1
    have hs : (storeTerminal (K := K) (N := N) (.num t)).res o = .err e := by
      show ((read fun _ => pyIndex N t).bind _).res o = _
      rw [res_read_bind, ht]; rfl
    have ha : (storeTerminal (K := K) (N := N) (.num t)).after o = o := by
      show ((read fun _ => pyIndex N t).bind _).after o = _
      rw [after_read_bind, ht]
    obtain ⟨b1, b2, _⟩ := bind_of_err (f := fun _ => each rest storeTerminal) hs
    refine ⟨b1, b2.trans ?_⟩
    rw [ha, ← h]
  | cons x l1 ih =>
    rw [setTerminals] at h1
    obtain ⟨c, hc, h1⟩ := Res.bind_eq_ok.1 h1
    have e1 : (storeTerminal (K := K) (N := N) (.num x)).res o = .ok () := by
      show ((read fun _ => pyIndex N x).bind _).res o = _
      rw [res_read_bind, hc]; rfl
    have e2 : (storeTerminal (K := K) (N := N) (.num x)).after o = { o with fdir := some (update f c x) } := by
      show ((read fun _ => pyIndex N x).bind _).after o = _
      rw [after_read_bind, hc]
      simp [h]
    obtain ⟨s1, s2⟩ := step (f := fun _ => each (l1.map TCell.num ++ TCell.num t :: rest) storeTerminal) e1 e2
    obtain ⟨i1, i2⟩ := ih { o with fdir := some (update f c x) } (update f c x) rfl h1
    exact ⟨s1.trans i1, s2.trans i2⟩

omit [Field K] [LinearOrder K] in
theorem nodes_nums (g : GridType) (l : List ℤ) : nodes g (l.map .num) = .ok (l.map .num) := by
  cases l <;> rfl

theorem setMin_lowest {dem : Fin N → Option K} {big : K} (he : ∃ n v, dem n = some v ∧ v < big) :
    ∃ f0, setMin (minCells dem big) (fun _ => -1) = .ok f0 ∧
      ∀ n, (Lowest dem n → f0 n = ((n : ℕ) : ℤ)) ∧ (¬ Lowest dem n → f0 n = -1) := by
  obtain ⟨n0, v0, hv0, hlt⟩ := he
  obtain ⟨f0, h0⟩ := setMin_of (l := minCells dem big) (fun _ => -1) (by
    rw [none_mem_minCells]
    exact fun h => absurd (h n0 v0 hv0) (not_le.2 hlt))
  refine ⟨f0, h0, fun n => ?_⟩
  have := (setMin_ok h0).2 n
  constructor
  · rintro ⟨v, hv, hl⟩
    rw [this, if_pos (some_mem_minCells.2 ⟨v, hv, (hl n0 v0 hv0).trans hlt.le, hl⟩)]
  · intro h
    rw [this, if_neg fun hm => ?_]
    obtain ⟨v, hv, _, hl⟩ := some_mem_minCells.1 hm
    exact h ⟨v, hv, hl⟩

/-- **C102, refuted: what is left.**  A terminal cell number that does not exist raises `IndexError`; afterwards the
outlets and the terminal cells before that number flow to themselves, all other cells hold -1. -/
theorem C102_bad_terminal_refuted (fuel : ℕ) (g : GridType) (thr : K) {o : Fd N K}
    (he : ∃ n v, o.dem n = some v ∧ v < o.big) {l1 : List ℤ} (hr : InRange N l1) {t : ℤ}
    (ht : t < -(N : ℤ) ∨ (N : ℤ) ≤ t) (l2 : List ℤ) :
    (dirs fuel g thr ((l1 ++ t :: l2).map .num)).res o = .err .indexError ∧
      ∃ f, (dirs fuel g thr ((l1 ++ t :: l2).map .num)).after o = { o with fdir := some f } ∧
        ∀ n, (Terminal o.dem l1 n → f n = ((n : ℕ) : ℤ)) ∧ (¬ Terminal o.dem l1 n → f n = -1) := by
  obtain ⟨f0, h0, hf0⟩ := setMin_lowest he
  obtain ⟨f1, h1, hf1⟩ := setTerminals_spec hr f0
  have hti : pyIndex N t = .err .indexError := by
    unfold pyIndex
    rw [dif_neg (by omega), dif_neg (by omega)]
  obtain ⟨s1, s2⟩ := storeTerminals_fail (l2.map .num) hti ({ o with fdir := some f0 } : Fd N K) f0 f1 rfl h1
  have hm : (l1 ++ t :: l2).map TCell.num = l1.map TCell.num ++ TCell.num t :: l2.map TCell.num := by simp
  unfold dirs
  rw [res_write_seq, after_write_seq, res_read_bind, after_read_bind]
  dsimp only
  rw [h0]
  dsimp only [Res.bind_ok]
  rw [res_write_seq, after_write_seq, res_read_bind, after_read_bind, nodes_nums]
  dsimp only [Res.bind_ok]
  rw [hm]
  refine ⟨(bind_of_err s1).1, f1, (bind_of_err s1).2.1.trans s2, fun n => ?_⟩
  rw [hf1 n]
  constructor
  · rintro (h | h)
    · rw [(hf0 n).1 h]; simp
    · rw [if_pos h]
  · intro h
    rw [if_neg fun hm => h (.inr hm), (hf0 n).2 fun hl => h (.inl hl)]

/-- **C102, refuted: no error follows.**  After such a call `flow_accumulation` returns, and gives the last cell the area
of all cells that are no outlet and no terminal cell (and its own). -/
theorem C102_silent_refuted (hN : 0 < N) (fuel : ℕ) (g : GridType) (thr : K) {o : Fd N K}
    (he : ∃ n v, o.dem n = some v ∧ v < o.big) {l1 : List ℤ} (hr : InRange N l1) {t : ℤ}
    (ht : t < -(N : ℤ) ∨ (N : ℤ) ≤ t) (l2 : List ℤ) :
    ∃ out, (∀ fuel', N < fuel' →
        (accumulate fuel' false).res ((dirs fuel g thr ((l1 ++ t :: l2).map .num)).after o) = .ok out) ∧
      ∀ last : Fin N, last.val + 1 = N → open Classical in
        out last = ∑ u with u = last ∨ ¬ Terminal o.dem l1 u, o.area u := by
  classical
  obtain ⟨_, f, ha, hf⟩ := C102_bad_terminal_refuted fuel g thr he hr ht l2
  rw [ha]
  have hrange : ∀ u, -(N : ℤ) ≤ f u ∧ f u < N := by
    intro u
    have := u.isLt
    by_cases hT : Terminal o.dem l1 u
    · rw [(hf u).1 hT]; omega
    · rw [(hf u).2 hT]; omega
  obtain ⟨out, hout⟩ := Acc.C31_terminates hrange o.area false
  refine ⟨out, fun fuel' hfu => ?_, fun last hlast => ?_⟩
  · unfold accumulate
    rw [res_read_bind]
    show ((Res.ok f).bind fun f => Acc.flowAccumulation fuel' f o.area false).bind _ = _
    rw [Res.bind_ok, hout fuel' hfu]
    rfl
  · let d : Fin N → Fin N := fun u => if Terminal o.dem l1 u then u else last
    have hd : Resolves f d := by
      intro u
      by_cases hT : Terminal o.dem l1 u
      · left; rw [(hf u).1 hT]; simp [d, hT]
      · right; rw [(hf u).2 hT]; simp [d, hT]; omega
    have hfix : d last = last := by simp [d]
    have hc : ¬ OnCycle d last := fun h => h.1 hfix
    rw [(Acc.C32_upstream_sum hd (hout (N + 1) (by omega)) last hc).1 rfl]
    apply Finset.sum_congr _ (fun _ _ => rfl)
    ext u
    simp only [upstream, Finset.mem_filter, Finset.mem_univ, true_and]
    constructor
    · rintro ⟨k, hk⟩
      by_contra hn
      push Not at hn
      have : ∀ k, d^[k] u = u := by
        intro k
        exact Function.iterate_fixed (by simp [d, hn.2]) k
      rw [this] at hk
      exact hn.1 hk
    · rintro (rfl | h)
      · exact ⟨0, rfl⟩
      · exact ⟨1, by simp [d, h]⟩

/-- **C102, the part that holds (partial).**  Wherever a call of `flow_directions` stops, returned, raised or
interrupted, the DEM, the areas, the accumulation array and the reversed table are as before. -/
theorem C102_others_kept_partial (fuel : ℕ) (g : GridType) (thr : K) (ts : List TCell) (o : Fd N K) (k : ℕ) :
    let o' := (dirs fuel g thr ts).cut o k
    o'.dem = o.dem ∧ o'.area = o.area ∧ o'.facc = o.facc ∧ o'.fdirR = o.fdirR := by
  have h := (inv_dirs fuel g thr ts o).cut (DirsInv.refl o) k
  exact ⟨h.dem, h.area, h.facc, h.fdirR⟩

/-- **C102, recovery (partial).**  After any history of calls that returned, raised or were interrupted anywhere,
`flow_directions` returns what it would have returned on the object before that history, and on return the directions
stored are the ones returned. -/
theorem C102_recovers_partial (g : GridType) (o : Fd N K) (h : List (Call N K × Option ℕ)) (fuel : ℕ) (thr : K)
    (l : List ℤ) :
    (dirs fuel g thr (l.map .num)).res (history g o h) = flowDirections fuel o.geo o.dem o.big o.rows thr l ∧
    ∀ out, flowDirections fuel o.geo o.dem o.big o.rows thr l = .ok out →
      ((dirs fuel g thr (l.map .num)).after (history g o h)).fdir = some out := by
  have hl := like_history g o h
  obtain ⟨h1, h2⟩ := dirs_run fuel g thr (nodes_nums g l) (history g o h)
  rw [flowDirections_like hl] at h1 h2
  exact ⟨h1, fun out ho => by rw [h2 out ho]⟩

/-! ### C106: terminal cells as (row, column) pairs -/

/-- the number of the cell in row `p.1` and column `p.2` -/
def cellNumber (ncol : ℕ) (p : ℤ × ℤ) : ℤ := p.1 * ncol + p.2

omit [Field K] [LinearOrder K] in
theorem pairs_map (ps : List (ℤ × ℤ)) : pairs (ps.map fun p => TCell.pair p.1 p.2) = .ok ps := by
  induction ps with
  | nil => rfl
  | cons p ps ih => simp [pairs, ih]

omit [Field K] [LinearOrder K] in
theorem getNodes_ok {nrow ncol : ℕ} {ps : List (ℤ × ℤ)}
    (h : ∀ p ∈ ps, 0 ≤ p.1 ∧ p.1 < nrow ∧ 0 ≤ p.2 ∧ p.2 < ncol) :
    getNodes nrow ncol ps = .ok ((ps.map (cellNumber ncol)).map .num) := by
  induction ps with
  | nil => rfl
  | cons p ps ih =>
    rw [getNodes, if_pos (h p (by simp)), ih fun q hq => h q (by simp [hq])]
    rfl

omit [Field K] [LinearOrder K] in
theorem getNodes_bad {nrow ncol : ℕ} {ps : List (ℤ × ℤ)} {p : ℤ × ℤ} (hp : p ∈ ps)
    (h : ¬ (0 ≤ p.1 ∧ p.1 < nrow ∧ 0 ≤ p.2 ∧ p.2 < ncol)) : getNodes nrow ncol ps = .err .valueError := by
  induction ps with
  | nil => cases hp
  | cons q ps ih =>
    rw [getNodes]
    split
    · rename_i hq
      rcases List.mem_cons.1 hp with rfl | hp
      · exact absurd hq h
      · rw [ih hp]; rfl
    · rfl

omit [Field K] [LinearOrder K] in
theorem pairs_num {l : List TCell} {t : ℤ} (h : .num t ∈ l) : pairs l = .err .typeError := by
  induction l with
  | nil => cases h
  | cons x l ih =>
    cases x with
    | num t => rfl
    | pair r c =>
      rcases List.mem_cons.1 h with h | h
      · cases h
      · rw [pairs, ih h]; rfl

/-- **C106.**  On a structured grid, pairs of row and column are the same as the cell numbers `row * ncol + col`: the
call writes the same states and returns the same. -/
theorem C106_pairs (fuel : ℕ) (thr : K) {nrow ncol : ℕ} {ps : List (ℤ × ℤ)}
    (h : ∀ p ∈ ps, 0 ≤ p.1 ∧ p.1 < nrow ∧ 0 ≤ p.2 ∧ p.2 < ncol) :
    (dirs fuel (.structured nrow ncol) thr (ps.map fun p => TCell.pair p.1 p.2) : Prog (Fd N K) _) =
      dirs fuel (.structured nrow ncol) thr ((ps.map (cellNumber ncol)).map TCell.num) := by
  have h1 : nodes (.structured nrow ncol) (ps.map fun p => TCell.pair p.1 p.2) =
      .ok ((ps.map (cellNumber ncol)).map .num) := by
    cases ps with
    | nil => rfl
    | cons p ps =>
      have := pairs_map (p :: ps)
      rw [List.map_cons] at this ⊢
      rw [nodes, this]
      exact getNodes_ok h
  unfold dirs
  rw [h1, nodes_nums]

/-- the numbers are those of cells if the grid has `nrow * ncol` cells -/
theorem C106_in_range {nrow ncol : ℕ} (hN : nrow * ncol = N) {ps : List (ℤ × ℤ)}
    (h : ∀ p ∈ ps, 0 ≤ p.1 ∧ p.1 < nrow ∧ 0 ≤ p.2 ∧ p.2 < ncol) : InRange N (ps.map (cellNumber ncol)) := by
  intro t ht
  obtain ⟨p, hp, rfl⟩ := List.mem_map.1 ht
  obtain ⟨h1, h2, h3, h4⟩ := h p hp
  have : (N : ℤ) = nrow * ncol := by rw [← hN]; push_cast; ring
  unfold cellNumber
  constructor
  · positivity
  · rw [this]; nlinarith

/-- a call whose terminal cells cannot be turned into numbers raises, with the directions reset to the outlets -/
theorem dirs_bad_nodes (fuel : ℕ) (g : GridType) (thr : K) {ts : List TCell} {e : PyErr} (hn : nodes g ts = .err e)
    {o : Fd N K} (he : ∃ n v, o.dem n = some v ∧ v < o.big) :
    (dirs fuel g thr ts).res o = .err e ∧
      ∃ f, (dirs fuel g thr ts).after o = { o with fdir := some f } ∧
        ∀ n, (Lowest o.dem n → f n = ((n : ℕ) : ℤ)) ∧ (¬ Lowest o.dem n → f n = -1) := by
  obtain ⟨f0, h0, hf0⟩ := setMin_lowest he
  unfold dirs
  rw [res_write_seq, after_write_seq, res_read_bind, after_read_bind]
  dsimp only
  rw [h0]
  dsimp only [Res.bind_ok]
  rw [res_write_seq, after_write_seq, res_read_bind, after_read_bind, hn]
  exact ⟨rfl, f0, rfl, hf0⟩

/-- **C106, errors.**  Lists that begin with a pair: on a grid that is not structured `AssertionError`; on a structured
grid `TypeError` if a number occurs, else `ValueError` if a pair lies outside the grid. -/
theorem C106_errors (fuel : ℕ) (thr : K) {o : Fd N K} (he : ∃ n v, o.dem n = some v ∧ v < o.big) {r c : ℤ}
    {l : List TCell} :
    (dirs fuel .other thr (.pair r c :: l)).res o = .err .assertionError ∧
    (∀ nrow ncol t, .num t ∈ l →
      (dirs fuel (.structured nrow ncol) thr (.pair r c :: l)).res o = .err .typeError) ∧
    ∀ (nrow ncol : ℕ) (ps : List (ℤ × ℤ)), l = ps.map (fun p => TCell.pair p.1 p.2) → ∀ p ∈ (r, c) :: ps,
      ¬ (0 ≤ p.1 ∧ p.1 < nrow ∧ 0 ≤ p.2 ∧ p.2 < ncol) →
      (dirs fuel (.structured nrow ncol) thr (.pair r c :: l)).res o = .err .valueError := by
  refine ⟨(dirs_bad_nodes fuel .other thr rfl he).1, fun nrow ncol t ht => ?_, fun nrow ncol ps hl p hp hbad => ?_⟩
  · refine (dirs_bad_nodes fuel _ thr ?_ he).1
    rw [nodes, pairs_num (t := t) (by simp [ht])]
    rfl
  · refine (dirs_bad_nodes fuel _ thr ?_ he).1
    have := pairs_map ((r, c) :: ps)
    rw [List.map_cons] at this
    rw [nodes, hl, this]
    exact getNodes_bad hp hbad

omit [Field K] [LinearOrder K] in
theorem storeTerminals_pair {l : List TCell} {r c : ℤ} (h : .pair r c ∈ l) (o : Fd N K) :
    (each l storeTerminal).res o = .err .indexError := by
  induction l generalizing o with
  | nil => cases h
  | cons x l ih =>
    show ((storeTerminal x).seq (each l storeTerminal)).res o = _
    rw [res_seq]
    cases x with
    | pair r' c' => rfl
    | num t =>
      have hl : .pair r c ∈ l := by simpa using h
      have : (storeTerminal (.num t) : Prog (Fd N K) Unit).res o = (pyIndex N t).bind fun _ => .ok () := by
        show ((read fun _ => pyIndex N t).bind _).res o = _
        rw [res_read_bind]
        cases pyIndex N t <;> rfl
      rw [this]
      cases ht : pyIndex N t with
      | ok i => exact ih hl _
      | err e =>
        have : e = .indexError := by
          unfold pyIndex at ht
          split_ifs at ht
          cases ht; rfl
        rw [this]; rfl
      | hang =>
        unfold pyIndex at ht
        split_ifs at ht

/-- **C106, a pair after a number** is not converted, and raises `IndexError` on every grid. -/
theorem C106_late_pair (fuel : ℕ) (g : GridType) (thr : K) {o : Fd N K} (he : ∃ n v, o.dem n = some v ∧ v < o.big)
    {t r c : ℤ} {l : List TCell} (hp : .pair r c ∈ l) :
    (dirs fuel g thr (.num t :: l)).res o = .err .indexError := by
  obtain ⟨f0, h0, hf0⟩ := setMin_lowest he
  unfold dirs
  rw [res_write_seq, res_read_bind]
  dsimp only
  rw [h0]
  dsimp only [Res.bind_ok]
  rw [res_write_seq, res_read_bind]
  show ((each (.num t :: l) storeTerminal).seq _).res _ = _
  rw [res_seq, storeTerminals_pair (r := r) (c := c) (by simp [hp])]
  rfl

/-! ### C108: negative terminal cell numbers -/

/-- **C108, refuted.**  The number -1 does not make the last cell terminal: it has no effect at all if the last cell is
not an outlet. -/
theorem C108_minus_one_refuted (fuel : ℕ) (G : Geo N K) {dem : Fin N → Option K} {big : K}
    (rows : Fin N → List (Entry N)) (thr : K) {last : Fin N} (hl : last.val + 1 = N) (hn : ¬ Lowest dem last)
    (he : ∃ n v, dem n = some v ∧ v < big) :
    flowDirections fuel G dem big rows thr [-1] = flowDirections fuel G dem big rows thr [] := by
  obtain ⟨f0, h0, hf0⟩ := setMin_lowest he
  have hi : pyIndex N (-1) = .ok last := by
    unfold pyIndex
    rw [dif_neg (by omega), dif_pos (by omega)]
    congr 1
    apply Fin.ext
    show ((N : ℤ) + -1).toNat = last.val
    omega
  have : setTerminals [-1] f0 = .ok f0 := by
    rw [setTerminals, hi]
    show Res.ok _ = _
    congr 1
    rw [← (hf0 last).2 hn]
    exact update_eq_self last f0
  unfold flowDirections
  rw [h0]
  dsimp only [Res.bind_ok]
  rw [this]
  rfl

/-! ### Concrete runs -/

/-- a row of three cells draining to the right -/
def line : Fd 3 ℚ := ⟨⟨![0, 1, 2], fun _ => 0, root, id⟩, ![some 3, some 2, some 1], Dirs.big, table ![[1], [0, 2], [1]],
  ![1, 1, 1], none, none, none⟩

/-- the call, and a second one with a number that does not exist -/
def line1 : Fd 3 ℚ := (dirs 20 .other thr []).after line
def line2 : Fd 3 ℚ := (dirs 20 .other thr [.num 0, .num 7]).after line1

theorem line_runs : line1.fdir = some ![1, 2, 2] ∧ (dirs 20 .other thr [.num 0, .num 7]).res line1 = .err .indexError ∧
    line2.fdir = some ![0, -1, 2] := by decide +kernel

theorem C102_refuted : ¬ KeepsOnFailure 3 ℚ := by
  intro h
  have h1 := h .other line1 20 thr [.num 0, .num 7] .indexError line_runs.2.1
  have h2 : line2.fdir = line1.fdir := h1
  rw [line_runs.2.2, line_runs.1] at h2
  exact absurd h2 (by decide)

/-- accumulated areas before and after the failed call -/
example : (accumulate 10 false).res line1 = .ok ![1, 2, 3] ∧ (accumulate 10 false).res line2 = .ok ![1, 1, 2] := by
  decide +kernel

/-- the hypotheses of `C102_bad_terminal_refuted` and `C106_errors` hold here -/
example : (∃ n v, line.dem n = some v ∧ v < line.big) ∧ InRange 3 [0] ∧ ((7 : ℤ) < -3 ∨ (3 : ℤ) ≤ 7) :=
  ⟨⟨0, 3, by decide +kernel, by decide +kernel⟩, fun t ht => (by simp at ht; omega), by decide⟩

/-- a 2 × 2 grid: the pair (0, 1) is cell 1; with it cell 1 is terminal, without it flows on -/
def square : Fd 4 ℚ := ⟨⟨![0, 1, 0, 1], ![1, 1, 0, 0], root, id⟩, ![some 4, some 3, some 2, some 1], Dirs.big,
  table ![[1, 2, 3], [0, 2, 3], [0, 1, 3], [0, 1, 2]], ![1, 1, 1, 1], none, none, none⟩

example : (dirs 20 (.structured 2 2) thr [.pair 0 1]).res square = .ok ![3, 1, 3, 3] ∧
    (dirs 20 (.structured 2 2) thr []).res square = .ok ![3, 3, 3, 3] ∧
    (dirs 20 (.structured 2 2) thr [.pair 0 1, .pair 2 0]).res square = .err .valueError ∧
    (dirs 20 (.structured 2 2) thr [.pair 0 1, .num 2]).res square = .err .typeError ∧
    (dirs 20 (.structured 2 2) thr [.num 2, .pair 0 1]).res square = .err .indexError := by decide +kernel

/-- a terminal cell -1 where the last cell is the outlet: it stops being one and its water flows back uphill -/
theorem C108_outlet_refuted : (dirs 20 .other thr [.num (-1)]).res line = .ok ![1, 2, 1] := by decide +kernel

end Fd

end Dany.Fail
