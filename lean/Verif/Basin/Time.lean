import Verif.Basin.Props
import Mathlib.Algebra.BigOperators.Intervals
import Mathlib.Algebra.BigOperators.Ring.Finset
import Mathlib.Tactic.Ring

/-!
# C219: the running time of the delineation

The loops of `Basin/Model` with counters: entries taken from the queue, entries that `list.pop(0)` has to move
up one place, and entries of the reversed table that are looked at while it is filled.
-/

namespace Dany.Basin

open Function Flow

variable {N : ℕ} {fdir : Fin N → ℤ} {d : Fin N → Fin N}

/-! ### The loops with counters -/

/-- `stack.pop(0)` (flow_directions.py:539) with `n` entries behind the one taken: one more entry taken,
`n` more moved -/
def pop0 {α : Type*} (n : ℕ) (r : α × ℕ × ℕ) : α × ℕ × ℕ := (r.1, r.2.1 + 1, r.2.2 + n)

/-- `bfs` (flow_directions.py:527-539) that also counts the entries taken from the queue and the entries moved
by `pop(0)`, which comes after the tributaries have been added -/
def bfsT (rows : List (Fin N → ℤ)) (nidp : Fin N → ℕ) (id : ℕ) :
    ℕ → List ℤ → (Fin N → ℕ) → Res ((Fin N → ℕ) × ℕ × ℕ)
  | 0, _, _ => .hang
  | _ + 1, [], sub => .ok (sub, 0, 0)
  | k + 1, x :: rest, sub =>
    (pyIndex N x).bind fun c =>
      if sub c ≠ 0 then (bfsT rows nidp id k rest sub).map (pop0 rest.length)
      else
        let sub := update sub c id
        if nidp c = 0 then (bfsT rows nidp id k rest sub).map (pop0 rest.length)
        else (bfsT rows nidp id k (rest ++ column rows (nidp c) c) sub).map
          (pop0 (rest ++ column rows (nidp c) c).length)

/-- `get_watershed_boundary` (flow_directions.py:477-541) with both counts -/
def watershedT (fuel : ℕ) (s : State N) (cell : Fin N) (sub0 : Fin N → ℕ) :
    Res ((State N × (Fin N → ℕ)) × ℕ × ℕ) :=
  (reverseTable s).bind fun r =>
    (Acc.getNidp r.1.fdir).bind fun nidp =>
      let id := npMax sub0 + 1
      (bfsT r.2 nidp id fuel (column r.2 (nidp cell) cell) (update sub0 cell id)).map fun x =>
        ((r.1, x.1), x.2)

/-- one iteration of the loop over the solution order (flow_directions.py:619-623), adding up the counts -/
def subStepT (fuel : ℕ) (r : Res ((State N × (Fin N → ℕ)) × ℕ × ℕ)) (c : Fin N) :
    Res ((State N × (Fin N → ℕ)) × ℕ × ℕ) :=
  r.bind fun x => (watershedT fuel x.1.1 c x.1.2).map fun y => (y.1, x.2.1 + y.2.1, x.2.2 + y.2.2)

/-- `get_subbasins` (flow_directions.py:543-624) with the counts of all its watersheds -/
def subbasinsT (limit fuel : ℕ) (s : State N) (cells : List (Fin N)) :
    Res ((State N × (Fin N → ℕ)) × ℕ × ℕ) :=
  (pourOrder limit fuel s.fdir (cells.map (fun c : Fin N => ((c : ℕ) : ℤ)))).bind fun order =>
    (pointCells cells order).bind fun pts =>
      pts.foldl (subStepT fuel) (.ok ((s, fun _ => 0), 0, 0))

/-- `place` (flow_directions.py:365-368) that also counts the rows looked at -/
def placeT (c : Fin N) (ix : ℤ) : List (Fin N → ℤ) → List (Fin N → ℤ) × ℕ
  | [] => ([], 0)
  | row :: rows =>
    if row c = -1 then (update row c ix :: rows, 1)
    else (row :: (placeT c ix rows).1, (placeT c ix rows).2 + 1)

/-- `tableStep` (flow_directions.py:364-368), adding up the count -/
def tableStepT (fdir : Fin N → ℤ) (r : Res (List (Fin N → ℤ) × ℕ)) (ix : Fin N) :
    Res (List (Fin N → ℤ) × ℕ) :=
  r.bind fun s => (pyIndex N (fdir ix)).bind fun c =>
    .ok ((placeT c ((ix : ℕ) : ℤ) s.1).1, s.2 + (placeT c ((ix : ℕ) : ℤ) s.1).2)

/-- `buildTable` (flow_directions.py:361-368) with the count -/
def buildTableT (fdir : Fin N → ℤ) : Res (List (Fin N → ℤ) × ℕ) :=
  (Acc.getNidp fdir).bind fun nidp =>
    (List.finRange N).foldl (tableStepT fdir) (.ok (List.replicate (npMax nidp) (fun _ => -1), 0))

/-! ### The counters change nothing -/

theorem bfsT_fst (rows : List (Fin N → ℤ)) (nidp : Fin N → ℕ) (id : ℕ) : ∀ (k : ℕ) (st : List ℤ)
    (sub : Fin N → ℕ), (bfsT rows nidp id k st sub).map Prod.fst = bfs rows nidp id k st sub := by
  have hm : ∀ (n : ℕ) (r : Res ((Fin N → ℕ) × ℕ × ℕ)), (r.map (pop0 n)).map Prod.fst = r.map Prod.fst := by
    intro n r; cases r <;> rfl
  intro k
  induction k with
  | zero => intros; rfl
  | succ k ih =>
    intro st sub
    cases st with
    | nil => rfl
    | cons x rest =>
      simp only [bfsT, bfs]
      cases pyIndex N x with
      | err e => rfl
      | hang => rfl
      | ok c =>
        simp only [Res.bind_ok]
        split_ifs <;> rw [hm, ih]

theorem watershedT_fst (fuel : ℕ) (s : State N) (cell : Fin N) (sub0 : Fin N → ℕ) :
    (watershedT fuel s cell sub0).map Prod.fst = watershed fuel s cell sub0 := by
  unfold watershedT watershed
  cases reverseTable s with
  | err e => rfl
  | hang => rfl
  | ok r =>
    simp only [Res.bind_ok]
    cases Acc.getNidp r.1.fdir with
    | err e => rfl
    | hang => rfl
    | ok nidp =>
      simp only [Res.bind_ok]
      rw [← bfsT_fst]
      generalize bfsT (N := N) _ _ _ _ _ _ = q
      cases q <;> rfl

theorem subStepT_fst (fuel : ℕ) (r : Res ((State N × (Fin N → ℕ)) × ℕ × ℕ)) (c : Fin N) :
    (subStepT fuel r c).map Prod.fst = subStep fuel (r.map Prod.fst) c := by
  cases r with
  | err e => rfl
  | hang => rfl
  | ok x =>
    simp only [subStepT, subStep, Res.bind_ok, Res.map_ok]
    rw [← watershedT_fst]
    generalize watershedT (N := N) _ _ _ _ = q
    cases q <;> rfl

/-- The counters change nothing: without them the function is the modelled one. -/
theorem subbasinsT_fst (limit fuel : ℕ) (s : State N) (cells : List (Fin N)) :
    (subbasinsT limit fuel s cells).map Prod.fst = subbasins limit fuel s cells := by
  have key : ∀ (l : List (Fin N)) (r : Res ((State N × (Fin N → ℕ)) × ℕ × ℕ)),
      (l.foldl (subStepT fuel) r).map Prod.fst = l.foldl (subStep fuel) (r.map Prod.fst) := by
    intro l
    induction l with
    | nil => intro r; rfl
    | cons x l ih => intro r; rw [List.foldl_cons, List.foldl_cons, ih, subStepT_fst]
  unfold subbasinsT subbasins
  cases pourOrder limit fuel s.fdir (cells.map (fun c : Fin N => ((c : ℕ) : ℤ))) with
  | err e => rfl
  | hang => rfl
  | ok order =>
    simp only [Res.bind_ok]
    cases pointCells cells order with
    | err e => rfl
    | hang => rfl
    | ok pts => simp only [Res.bind_ok]; rw [key]; rfl

theorem placeT_fst (c : Fin N) (ix : ℤ) (rows : List (Fin N → ℤ)) : (placeT c ix rows).1 = place c ix rows := by
  induction rows with
  | nil => rfl
  | cons r rows ih =>
    simp only [placeT, place]
    split_ifs
    · rfl
    · simp only [ih]

theorem tableStepT_fst (r : Res (List (Fin N → ℤ) × ℕ)) (ix : Fin N) :
    (tableStepT fdir r ix).map Prod.fst = tableStep fdir (r.map Prod.fst) ix := by
  cases r with
  | err e => rfl
  | hang => rfl
  | ok x =>
    simp only [tableStepT, tableStep, Res.bind_ok, Res.map_ok]
    cases pyIndex N (fdir ix) with
    | err e => rfl
    | hang => rfl
    | ok c => simp only [Res.bind_ok, Res.map_ok, placeT_fst]

theorem buildTableT_fst (fdir : Fin N → ℤ) : (buildTableT fdir).map Prod.fst = buildTable fdir := by
  have key : ∀ (l : List (Fin N)) (r : Res (List (Fin N → ℤ) × ℕ)),
      (l.foldl (tableStepT fdir) r).map Prod.fst = l.foldl (tableStep fdir) (r.map Prod.fst) := by
    intro l
    induction l with
    | nil => intro r; rfl
    | cons x l ih => intro r; rw [List.foldl_cons, List.foldl_cons, ih, tableStepT_fst]
  unfold buildTableT buildTable
  cases Acc.getNidp fdir with
  | err e => rfl
  | hang => rfl
  | ok nidp => simp only [Res.bind_ok]; rw [key]; rfl

/-! ### What is taken from the queue -/

/-- `0 + 1 + … + (n - 1)` -/
def below (n : ℕ) : ℕ := ∑ i ∈ Finset.range n, i

theorem below_succ (n : ℕ) : below (n + 1) = below n + n := Finset.sum_range_succ _ _

theorem below_two (n : ℕ) : 2 * below n = n * (n - 1) := by
  unfold below; rw [mul_comm, Finset.sum_range_id_mul_two]

theorem bfsT_count {rows : List (Fin N → ℤ)}
    (hrows : ∀ c, (column rows (Acc.pre d c).card c).length = (Acc.pre d c).card) {id : ℕ} (hid : id ≠ 0) :
    ∀ (k : ℕ) (st : List ℤ) (sub out : Fin N → ℕ) (p m : ℕ),
      bfsT rows (fun n => (Acc.pre d n).card) id k st sub = .ok (out, p, m) →
      (p + ∑ c, if out c = 0 then (Acc.pre d c).card else 0) = work d st sub ∧ st.length ≤ p ∧ m ≤ below p := by
  intro k
  induction k with
  | zero => intro st sub out p m h; cases h
  | succ k ih =>
    intro st sub out p m h
    cases st with
    | nil =>
      cases h
      simp [work]
    | cons x rest =>
      simp only [bfsT] at h
      obtain ⟨c, -, h⟩ := Res.bind_eq_ok.1 h
      split_ifs at h with h1 h2
      · obtain ⟨⟨o1, p1, m1⟩, hb, he⟩ := Res.map_eq_ok.1 h
        obtain ⟨i1, i2, i3⟩ := ih _ _ _ _ _ hb
        have he1 := (congrArg Prod.fst he)
        have he2 := (congrArg (fun z => z.2.1) he)
        have he3 := (congrArg (fun z => z.2.2) he)
        simp only [pop0] at he1 he2 he3
        subst he1 he2 he3
        refine ⟨?_, by simpa using i2, ?_⟩
        · unfold work at i1 ⊢
          rw [List.length_cons]
          omega
        · rw [below_succ]; omega
      · obtain ⟨⟨o1, p1, m1⟩, hb, he⟩ := Res.map_eq_ok.1 h
        obtain ⟨i1, i2, i3⟩ := ih _ _ _ _ _ hb
        have he1 := (congrArg Prod.fst he)
        have he2 := (congrArg (fun z => z.2.1) he)
        have he3 := (congrArg (fun z => z.2.2) he)
        simp only [pop0] at he1 he2 he3
        subst he1 he2 he3
        have hw := work_update (d := d) (c := c) (by simpa using h1) hid
        refine ⟨?_, by simpa using i2, ?_⟩
        · unfold work at i1 ⊢
          rw [List.length_cons]
          omega
        · rw [below_succ]; omega
      · obtain ⟨⟨o1, p1, m1⟩, hb, he⟩ := Res.map_eq_ok.1 h
        obtain ⟨i1, i2, i3⟩ := ih _ _ _ _ _ hb
        have he1 := (congrArg Prod.fst he)
        have he2 := (congrArg (fun z => z.2.1) he)
        have he3 := (congrArg (fun z => z.2.2) he)
        simp only [pop0] at he1 he2 he3
        subst he1 he2 he3
        have hw := work_update (d := d) (c := c) (by simpa using h1) hid
        have hl := hrows c
        rw [List.length_append] at i2
        refine ⟨?_, by rw [List.length_cons]; omega, ?_⟩
        · unfold work at i1 ⊢
          rw [List.length_cons]
          rw [List.length_append] at i1
          omega
        · rw [below_succ, List.length_append]; omega

theorem card_fiber (d : Fin N → Fin N) (S : Fin N → Prop) [DecidablePred S] :
    (Finset.univ.filter fun u => S (d u)).card = ∑ c, if S c then (Acc.pre d c).card else 0 := by
  rw [← Finset.sum_filter, Finset.card_eq_sum_card_fiberwise (f := d) (t := Finset.univ.filter S)
    (by intro u hu; simpa using hu)]
  refine Finset.sum_congr rfl fun c hc => ?_
  congr 1
  ext u
  simp only [Finset.mem_filter, Finset.mem_univ, true_and, Acc.mem_pre] at hc ⊢
  constructor
  · exact fun h => h.2
  · intro h; rw [h]; exact ⟨hc, rfl⟩

/-- A watershed takes from the queue every cell whose next cell is labelled by the call, and no other; the labels
are those of the function without counters. -/
theorem watershedT_ok {s : State N} (h : Resolves s.fdir d) (hfresh : Fresh s) (cell : Fin N)
    (sub0 : Fin N → ℕ) {fuel : ℕ} (hf : 2 * N < fuel) :
    ∃ s' out p m, watershedT fuel s cell sub0 = .ok ((s', out), p, m) ∧
      watershed fuel s cell sub0 = .ok (s', out) ∧ m ≤ below p ∧
      open Classical in p = (Finset.univ.filter fun u => Free d sub0 cell (d u)).card := by
  classical
  obtain ⟨s', out, e, e1, e2, e3, e4⟩ := watershed_ok h hfresh cell sub0 hf
  have hT := watershedT_fst fuel s cell sub0
  rw [e] at hT
  obtain ⟨⟨so, p, m⟩, hT, hs⟩ := Res.map_eq_ok.1 hT
  dsimp only at hs
  subst hs
  refine ⟨s', out, p, m, hT, e, ?_⟩
  obtain ⟨rows, hrows, hcol⟩ := buildTable_ok h
  have hrev : ∃ s1, reverseTable s = .ok (s1, rows) ∧ s1.fdir = s.fdir := by
    unfold reverseTable
    cases hc : s.fdirR with
    | none => simp only [hrows, Res.map_ok]; exact ⟨_, rfl, rfl⟩
    | some r =>
      have := hfresh r hc
      rw [hrows] at this
      cases this
      exact ⟨s, rfl, rfl⟩
  obtain ⟨s1, r1, r2⟩ := hrev
  unfold watershedT at hT
  rw [r1, Res.bind_ok] at hT
  dsimp only at hT
  rw [Acc.getNidp_ok (d := d) (by rw [r2]; exact h), Res.bind_ok] at hT
  dsimp only at hT
  obtain ⟨⟨o1, p1, m1⟩, hb, he⟩ := Res.map_eq_ok.1 hT
  cases he
  obtain ⟨c1, -, c3⟩ := bfsT_count (d := d) (fun c => by rw [hcol, List.length_map, preds_length]) (by omega)
    _ _ _ _ _ _ hb
  refine ⟨c3, ?_⟩
  refine Eq.trans ?_ (card_fiber d (Free d sub0 cell)).symm
  unfold work at c1
  rw [hcol, List.length_map, preds_length] at c1
  dsimp only at e3 e4
  -- cell by cell: unlabelled at first = labelled by the call, or still unlabelled
  have hsum : (∑ c, if Free d sub0 cell c then (Acc.pre d c).card else 0) +
      (∑ c, if o1 c = 0 then (Acc.pre d c).card else 0) = (Acc.pre d cell).card +
      ∑ c, if (update sub0 cell (npMax sub0 + 1)) c = 0 then (Acc.pre d c).card else 0 := by
    have h1 : (Acc.pre d cell).card = ∑ c, if c = cell then (Acc.pre d c).card else 0 := by simp
    rw [h1, ← Finset.sum_add_distrib, ← Finset.sum_add_distrib]
    refine Finset.sum_congr rfl fun c _ => ?_
    by_cases hc : c = cell
    · subst hc
      have hF : Free d sub0 c c := ⟨0, rfl, by simp⟩
      rw [if_pos hF, if_neg (by rw [e3 c hF]; omega), if_pos rfl, update_self, if_neg (by omega)]
    · rw [if_neg hc, update_of_ne hc]
      by_cases hF : Free d sub0 cell c
      · have h0 : sub0 c = 0 := by
          obtain ⟨k, hk, hj⟩ := hF
          cases k with
          | zero => exact absurd hk hc
          | succ k => exact hj 0 (by omega)
        rw [if_pos hF, if_neg (by rw [e3 c hF]; omega), if_pos h0]; omega
      · rw [if_neg hF, e4 c hF]
  omega

/-! ### The statements -/

/-- **C219.**  `get_watershed_boundary` takes a cell from its queue exactly once for every cell whose next cell
drains to the pour point; `pop(0)` moves at most `p (p - 1) / 2` entries when `p` cells are taken.  This holds for
all flow directions, those that go round in circles included, and after any number of earlier calls. -/
theorem C219_watershed {s : State N} (hd : Resolves s.fdir d) (hc : Fresh s) (cell : Fin N) {fuel : ℕ}
    (hf : 2 * N < fuel) :
    ∃ s' out p m, watershedT fuel s cell (fun _ => 0) = .ok ((s', out), p, m) ∧
      watershed fuel s cell (fun _ => 0) = .ok (s', out) ∧ 2 * m ≤ p * (p - 1) ∧
      open Classical in p = (Finset.univ.filter fun u => Reaches d (d u) cell).card := by
  classical
  obtain ⟨s', out, p, m, e1, e2, e3, e4⟩ := watershedT_ok hd hc cell (fun _ => 0) hf
  refine ⟨s', out, p, m, e1, e2, ?_, ?_⟩
  · rw [← below_two]; omega
  · rw [e4]
    congr 1
    ext u
    simp [free_zero]

/-- So it takes as many cells as the watershed has, less one unless the pour point lies on a flow cycle or drains
to itself, and never more than the grid has. -/
theorem C219_linear {s : State N} (hd : Resolves s.fdir d) (hc : Fresh s) (cell : Fin N) {fuel : ℕ}
    (hf : 2 * N < fuel) :
    ∃ s' out p m, watershedT fuel s cell (fun _ => 0) = .ok ((s', out), p, m) ∧
      watershed fuel s cell (fun _ => 0) = .ok (s', out) ∧ p ≤ N ∧ 2 * m ≤ N * (N - 1) ∧
      (Reaches d (d cell) cell → p = (Finset.univ.filter fun u => out u = 1).card) ∧
      (¬ Reaches d (d cell) cell → p + 1 = (Finset.univ.filter fun u => out u = 1).card) := by
  classical
  obtain ⟨s', out, p, m, e1, e2, e3, e4⟩ := C219_watershed hd hc cell hf
  obtain ⟨s2, o2, e5, -, -, e6⟩ := C36_repeated hd hc cell hf
  rw [e2] at e5
  cases e5
  have e4' : p = (Finset.univ.filter fun u => Reaches d (d u) cell).card := e4
  have hp : p ≤ N := by
    rw [e4']
    exact (Finset.card_le_univ _).trans (by simp)
  have hw : (Finset.univ.filter fun u => out u = 1) = Finset.univ.filter fun u => Reaches d u cell := by
    ext u
    simp only [Finset.mem_filter, Finset.mem_univ, true_and]
    refine ⟨fun h1 => ?_, (e6 u).1⟩
    by_contra hn
    rw [(e6 u).2 hn] at h1
    omega
  have hor : ∀ u, Reaches d u cell ↔ u = cell ∨ Reaches d (d u) cell := by
    intro u
    constructor
    · rintro ⟨k, hk⟩
      cases k with
      | zero => exact .inl hk
      | succ k => exact .inr ⟨k, by rwa [iterate_succ_apply] at hk⟩
    · rintro (rfl | ⟨k, hk⟩)
      · exact ⟨0, rfl⟩
      · exact ⟨k + 1, by rwa [iterate_succ_apply]⟩
  refine ⟨s', out, p, m, e1, e2, hp, e3.trans (Nat.mul_le_mul hp (by omega)), fun hr => ?_, fun hr => ?_⟩
  · rw [hw, e4']
    congr 1
    ext u
    simp only [Finset.mem_filter, Finset.mem_univ, true_and, hor u]
    constructor
    · exact .inr
    · rintro (rfl | h)
      · exact hr
      · exact h
  · rw [hw, e4']
    have : (Finset.univ.filter fun u => Reaches d u cell) =
        insert cell (Finset.univ.filter fun u => Reaches d (d u) cell) := by
      ext u
      simp only [Finset.mem_filter, Finset.mem_univ, true_and, Finset.mem_insert, hor u]
    rw [this, Finset.card_insert_of_notMem (by simpa using hr)]

theorem bfsT_leaves {rows : List (Fin N → ℤ)} {nidp : Fin N → ℕ} {id : ℕ} : ∀ (k : ℕ) (st : List ℤ)
    (sub : Fin N → ℕ), (∀ c, nidp c ≠ 0 → sub c ≠ 0) → ∀ out p m,
      bfsT rows nidp id k st sub = .ok (out, p, m) → p = st.length ∧ m = below st.length := by
  intro k
  induction k with
  | zero => intro st sub _ out p m h; cases h
  | succ k ih =>
    intro st sub hs out p m h
    cases st with
    | nil => cases h; exact ⟨rfl, rfl⟩
    | cons x rest =>
      simp only [bfsT] at h
      obtain ⟨c, -, h⟩ := Res.bind_eq_ok.1 h
      split_ifs at h with h1 h2
      · obtain ⟨⟨o1, p1, m1⟩, hb, he⟩ := Res.map_eq_ok.1 h
        obtain ⟨i1, i2⟩ := ih _ _ hs _ _ _ hb
        cases he
        exact ⟨by rw [List.length_cons, i1], by rw [List.length_cons, below_succ, i2]⟩
      · obtain ⟨⟨o1, p1, m1⟩, hb, he⟩ := Res.map_eq_ok.1 h
        obtain ⟨i1, i2⟩ := ih _ _ (fun c' hc' => by
          by_cases hcc : c' = c
          · subst hcc; exact absurd h2 hc'
          · rw [update_of_ne hcc]; exact hs c' hc') _ _ _ hb
        cases he
        exact ⟨by rw [List.length_cons, i1], by rw [List.length_cons, below_succ, i2]⟩
      · exact absurd (by simpa using h1) (hs c h2)

/-- The bound on the entries moved is reached for every number of cells: `n + 1` cells that all drain to the first
one (itself included) move `n (n + 1) / 2` entries: the time is quadratic. -/
theorem C219_quadratic (n : ℕ) {fuel : ℕ} (hf : 2 * (n + 1) < fuel) :
    ∃ s' out, watershedT (N := n + 1) fuel { fdir := fun _ => 0, fdirR := none } 0 (fun _ => 0) =
      .ok ((s', out), n + 1, n * (n + 1) / 2) := by
  classical
  have hd : Resolves (fun _ : Fin (n + 1) => (0 : ℤ)) (fun _ => 0) := by
    intro u
    left
    simp
  obtain ⟨s', out, p, m, hT, -, -, e4⟩ := C219_watershed (s := { fdir := fun _ => 0, fdirR := none }) hd
    (by intro r hr; cases hr) 0 hf
  have hp : p = n + 1 := by
    rw [e4, Finset.filter_true_of_mem (fun u _ => ⟨0, rfl⟩), Finset.card_univ, Fintype.card_fin]
  subst hp
  refine ⟨s', out, ?_⟩
  rw [hT]
  obtain ⟨rows, hrows, hcol⟩ := buildTable_ok hd
  unfold watershedT reverseTable at hT
  simp only [hrows, Res.map_ok, Res.bind_ok, Acc.getNidp_ok hd] at hT
  obtain ⟨⟨o1, p1, m1⟩, hb, he⟩ := Res.map_eq_ok.1 hT
  obtain ⟨i1, i2⟩ := bfsT_leaves _ _ _ (fun c hc => by
    by_cases h0 : c = 0
    · subst h0; rw [update_self]; omega
    · exfalso
      apply hc
      rw [Finset.card_eq_zero, Finset.eq_empty_iff_forall_notMem]
      intro u hu
      exact h0 (Acc.mem_pre.1 hu).symm) _ _ _ hb
  cases he
  rw [i2, ← i1]
  have := below_two (n + 1)
  rw [Nat.add_sub_cancel] at this
  rw [show below (n + 1) = n * (n + 1) / 2 by rw [mul_comm n]; omega]

/-! ### All the watersheds of `get_subbasins` -/

theorem subFoldT_ok {fuel : ℕ} (hf : 2 * N < fuel) :
    ∀ (l ps : List (Fin N)) (s : State N) (sub : Fin N → ℕ) (t w : ℕ), Resolves s.fdir d → Fresh s →
      SubInv d ps sub → (ps ++ l).Nodup →
      (∀ a x b y, ps ++ l = a ++ x :: b → y ∈ b → ¬ Reaches d y x) →
      (open Classical in t = (Finset.univ.filter fun u => ∃ p ∈ ps, Reaches d (d u) p).card) → w ≤ below t →
      ∃ r t' w', l.foldl (subStepT fuel) (.ok ((s, sub), t, w)) = .ok (r, t', w') ∧ w' ≤ below t' ∧
        open Classical in t' = (Finset.univ.filter fun u => ∃ p ∈ ps ++ l, Reaches d (d u) p).card := by
  classical
  intro l
  induction l with
  | nil => intro ps s sub t w _ _ _ _ _ ht hw; exact ⟨_, t, w, rfl, hw, by simpa using ht⟩
  | cons p l ih =>
    intro ps s sub t w hd hs hi hnd hord ht hw
    obtain ⟨s1, out, c, m, e, e', hm, hcnt⟩ := watershedT_ok hd hs p sub hf
    obtain ⟨s2, o2, e2, g1, g2, -, -⟩ := watershed_ok hd hs p sub hf
    rw [e'] at e2
    cases e2
    have hnd1 : (ps ++ [p]).Nodup := by
      have : (ps ++ [p]) ++ l = ps ++ p :: l := by simp
      rw [← this] at hnd
      exact (List.nodup_append.1 hnd).1
    obtain ⟨s3, o3, e3, hi1⟩ := subFold_ok (d := d) hf [p] ps s sub hd hs hi hnd1 (by
      intro a x b y he hy
      exact hord a x (b ++ l) y (by rw [← List.cons_append, ← List.append_assoc, ← he]; simp) (by simp [hy]))
    simp only [List.foldl_cons, List.foldl_nil, subStep, Res.bind_ok] at e3
    rw [e'] at e3
    cases e3
    have hpps : p ∉ ps := fun hm => (List.nodup_append.1 hnd).2.2 p hm p (by simp) rfl
    have hnot : ∀ q ∈ ps, ¬ Reaches d p q := by
      intro q hq
      obtain ⟨a, b, rfl⟩ := List.append_of_mem hq
      exact hord a q (b ++ p :: l) p (by simp) (by simp)
    have hfree : ∀ u, Free d sub p u ↔ (Reaches d u p ∧ ∀ q ∈ ps, ¬ Reaches d u q) := by
      intro u
      constructor
      · rintro ⟨k, hk, hz⟩
        refine ⟨⟨k, hk⟩, ?_⟩
        cases k with
        | zero =>
          rw [iterate_zero, id_eq] at hk
          rw [hk]; exact hnot
        | succ k =>
          intro q hq hr
          obtain ⟨q', hq'⟩ := exists_first (S := (· ∈ ps)) hq hr
          have h1 := hi.first u q' hq'
          have h2 := hz 0 (by omega)
          rw [iterate_zero, id_eq] at h2
          omega
      · rintro ⟨⟨k, hk⟩, hno⟩
        refine ⟨k, hk, ?_⟩
        intro j _
        apply hi.none
        intro q hq hr
        exact hno q hq (Reaches.trans ⟨j, rfl⟩ hr)
    have hsum : t + c = (Finset.univ.filter fun u => ∃ q ∈ ps ++ [p], Reaches d (d u) q).card := by
      have h1 : (Finset.univ.filter fun u => ∃ q ∈ ps ++ [p], Reaches d (d u) q) =
          (Finset.univ.filter fun u => ∃ q ∈ ps, Reaches d (d u) q) ∪
          (Finset.univ.filter fun u => Free d sub p (d u)) := by
        ext u
        simp only [Finset.mem_filter, Finset.mem_univ, true_and, Finset.mem_union, hfree, List.mem_append,
          List.mem_singleton]
        constructor
        · rintro ⟨q, hq, hr⟩
          by_cases hex : ∃ q ∈ ps, Reaches d (d u) q
          · exact .inl hex
          · push Not at hex
            rcases hq with hq | rfl
            · exact absurd hr (hex q hq)
            · exact .inr ⟨hr, hex⟩
        · rintro (⟨q, hq, hr⟩ | ⟨hr, -⟩)
          · exact ⟨q, .inl hq, hr⟩
          · exact ⟨p, .inr rfl, hr⟩
      rw [h1, Finset.card_union_of_disjoint, ← ht, ← hcnt]
      rw [Finset.disjoint_left]
      intro u hu hu'
      simp only [Finset.mem_filter, Finset.mem_univ, true_and, hfree] at hu hu'
      obtain ⟨q, hq, hr⟩ := hu
      exact hu'.2 q hq hr
    have hbel : ∀ a b : ℕ, below a + below b ≤ below (a + b) := by
      intro a b
      induction b with
      | zero => simp [below]
      | succ b ihb => rw [← add_assoc, below_succ, below_succ]; omega
    rw [List.foldl_cons]
    simp only [subStepT, Res.bind_ok]
    rw [e]
    obtain ⟨r, t', w', h1, h2, h3⟩ := ih (ps ++ [p]) s1 out (t + c) (w + m) (by rw [g1]; exact hd) g2 hi1
      (by simpa using hnd) (by intro a x b y he hy; exact hord a x b y (by simpa using he) hy) hsum
      (by have := hbel t c; omega)
    exact ⟨r, t', w', h1, h2, by simpa using h3⟩

/-- **C219** for `get_subbasins`: all its watersheds together take a cell from the queue exactly once for every cell
whose next cell drains to a pour point – at most once per cell of the grid, however many pour points there are and
however they are nested. -/
theorem C219_subbasins {s : State N} (hd : Legal s.fdir d) (hs : Fresh s) {cells : List (Fin N)}
    (h0 : ∀ c ∈ cells, c.val ≠ 0) (hcyc : ∀ c ∈ cells, ¬ OnCycle d c) {limit fuel : ℕ}
    (hl : PoursFit d cells limit) (hf : 2 * N + 1 < fuel) :
    ∃ s' out p m, subbasinsT limit fuel s cells = .ok ((s', out), p, m) ∧
      subbasins limit fuel s cells = .ok (s', out) ∧ p ≤ N ∧ 2 * m ≤ N * (N - 1) ∧
      open Classical in p = (Finset.univ.filter fun u => ∃ c ∈ cells, Reaches d (d u) c).card := by
  classical
  obtain ⟨L, eL, l1, l2, l3⟩ := pourOrder_ok hd hcyc h0 (fuel := fuel) (limit := limit) (by omega) hl
  obtain ⟨pts, eP, hpts⟩ := pointCells_ok (cells := cells) L (fun x hx => (l2 x).1 hx)
  have hmem : ∀ c, c ∈ pts ↔ c ∈ cells := by
    intro c
    rw [← mem_toZ (cells := pts), hpts, l2, mem_toZ]
  have hnd : pts.Nodup := by
    rw [← hpts] at l1
    exact l1.of_map _
  have hord : ∀ a x b y, pts = a ++ x :: b → y ∈ b → ¬ Reaches d y x := by
    intro a x b y he hy hr
    have hx : x ∈ cells := (hmem x).1 (by rw [he]; simp)
    have hyc : y ∈ cells := (hmem y).1 (by rw [he]; simp [hy])
    have hne : y ≠ x := by
      rintro rfl
      rw [he, List.nodup_append] at hnd
      exact (List.nodup_cons.1 hnd.2.1).1 hy
    have hb := l3 y hyc x hx hne hr
    have hb' : Topo.Before L (toZ x) (toZ y) := by
      refine ⟨a.map toZ, b.map toZ, ?_, List.mem_map.2 ⟨y, hy, rfl⟩⟩
      rw [← hpts, he]; simp
    exact before_irrefl l1 _ (before_trans l1 hb hb')
  obtain ⟨⟨s', out⟩, t, w, e, hw, ht⟩ := subFoldT_ok (d := d) (fuel := fuel) (by omega) pts [] s (fun _ => 0) 0 0
    hd.resolves hs ⟨by rintro u p ⟨_, _, hp, _⟩; simp at hp, fun _ _ => rfl⟩ (by simpa using hnd)
    (by simpa using hord) (by simp) (Nat.zero_le _)
  simp only [List.nil_append, hmem] at ht
  have hT : subbasinsT limit fuel s cells = .ok ((s', out), t, w) := by
    unfold subbasinsT
    have : (cells.map (fun c : Fin N => ((c : ℕ) : ℤ))) = cells.map toZ := rfl
    rw [this, eL, Res.bind_ok, eP, Res.bind_ok, e]
  have hN : t ≤ N := by
    rw [ht]
    exact (Finset.card_le_univ _).trans (by simp)
  refine ⟨s', out, t, w, hT, ?_, hN, ?_, ht⟩
  · rw [← subbasinsT_fst, hT, Res.map_ok]
  · have := below_two t
    have h2 : t * (t - 1) ≤ N * (N - 1) := Nat.mul_le_mul hN (by omega)
    omega

/-! ### The reversed table -/

theorem placeT_snd {c : Fin N} {ix : ℤ} : ∀ {rows : List (Fin N → ℤ)} {xs : List ℤ} {j : ℕ},
    (∀ x ∈ xs, x ≠ -1) → rows.map (fun r => r c) = xs ++ List.replicate (j + 1) (-1) →
    (placeT c ix rows).2 = xs.length + 1 := by
  intro rows
  induction rows with
  | nil =>
    intro xs j _ h
    have := congrArg List.length h
    simp at this
  | cons r rows ih =>
    intro xs j hxs h
    cases xs with
    | nil =>
      rw [List.replicate_succ] at h
      simp only [List.map_cons, List.nil_append, List.cons.injEq] at h
      simp only [placeT, if_pos h.1, List.length_nil]
    | cons x xs =>
      simp only [List.map_cons, List.cons_append, List.cons.injEq] at h
      have hx : r c ≠ -1 := by rw [h.1]; exact hxs x (by simp)
      simp only [placeT, if_neg hx, List.length_cons]
      rw [ih (fun y hy => hxs y (by simp [hy])) h.2]

theorem tableFoldT (h : Resolves fdir d) (m : ℕ) : ∀ (l done : List (Fin N)) (rows : List (Fin N → ℤ)) (t : ℕ),
    (∀ c, rows.map (fun r => r c) = (done.filter (fun u => d u = c)).map (fun u : Fin N => ((u : ℕ) : ℤ)) ++
      List.replicate (m - (done.filter (fun u => d u = c)).length) (-1)) →
    (∀ c, ((done ++ l).filter (fun u => d u = c)).length ≤ m) →
    t = ∑ c, below ((done.filter (fun u => d u = c)).length + 1) →
    ∃ rows' t', l.foldl (tableStepT fdir) (.ok (rows, t)) = .ok (rows', t') ∧
      t' = ∑ c, below (((done ++ l).filter (fun u => d u = c)).length + 1) := by
  intro l
  induction l with
  | nil => intro done rows t _ _ ht; exact ⟨rows, t, rfl, by simpa using ht⟩
  | cons x l ih =>
    intro done rows t hr hle ht
    have hl := hle (d x)
    rw [List.filter_append, List.filter_cons] at hl
    simp only [decide_true, if_true, List.length_append, List.length_cons] at hl
    have h1 := hr (d x)
    rw [show m - (done.filter (fun u => d u = d x)).length =
      (m - (done.filter (fun u => d u = d x)).length - 1) + 1 by omega] at h1
    have hne1 : ∀ y ∈ (done.filter (fun u => d u = d x)).map (fun u : Fin N => ((u : ℕ) : ℤ)), y ≠ -1 := by
      intro y hy
      obtain ⟨u, _, rfl⟩ := List.mem_map.1 hy
      omega
    have hs := placeT_snd (ix := ((x : ℕ) : ℤ)) hne1 h1
    rw [List.length_map] at hs
    rw [List.foldl_cons]
    simp only [tableStepT, Res.bind_ok, h.pyIndex, placeT_fst, hs]
    obtain ⟨rows', t', e, h'⟩ := ih (done ++ [x]) (place (d x) ((x : ℕ) : ℤ) rows) _ (by
      intro c
      by_cases hc : c = d x
      · subst hc
        have h2 := place_col (ix := ((x : ℕ) : ℤ)) hne1 h1
        rw [h2, List.filter_append]
        simp
        omega
      · rw [place_col_ne hc, hr c, List.filter_append]
        have : ([x].filter (fun u => decide (d u = c))) = [] := by
          simp [Ne.symm hc]
        rw [this, List.append_nil]) (by simpa using hle)
      (show t + ((done.filter (fun u => decide (d u = d x))).length + 1) = _ by
        rw [ht, ← Finset.sum_erase_add _ _ (Finset.mem_univ (d x)),
          ← Finset.sum_erase_add _ (fun c => below (((done ++ [x]).filter (fun u => decide (d u = c))).length + 1))
            (Finset.mem_univ (d x))]
        have h3 : ((done ++ [x]).filter (fun u => decide (d u = d x))).length =
            (done.filter (fun u => decide (d u = d x))).length + 1 := by
          rw [List.filter_append]; simp
        have h4 : (∑ c ∈ Finset.univ.erase (d x), below ((done.filter (fun u => decide (d u = c))).length + 1)) =
            ∑ c ∈ Finset.univ.erase (d x), below (((done ++ [x]).filter (fun u => decide (d u = c))).length + 1) := by
          refine Finset.sum_congr rfl fun c hc => ?_
          rw [List.filter_append]
          have : ([x].filter (fun u => decide (d u = c))) = [] := by
            simp [(Finset.ne_of_mem_erase hc).symm]
          rw [this, List.append_nil]
        rw [h3, below_succ ((done.filter (fun u => decide (d u = d x))).length + 1), h4]
        omega)
    exact ⟨rows', t', e, by simpa using h'⟩

/-- **C219** for the reversed table: a cell that `k` cells flow into costs `1 + 2 + … + k` looks at the table; with
at most `b` inflows to each cell (8 on a raster) these are at most `b` per cell of the grid. -/
theorem C219_table (h : Resolves fdir d) :
    ∃ rows t, buildTableT fdir = .ok (rows, t) ∧ buildTable fdir = .ok rows ∧
      (2 * t = ∑ c, (Finset.univ.filter fun u => d u = c).card * ((Finset.univ.filter fun u => d u = c).card + 1)) ∧
      ∀ b, (∀ c, (Finset.univ.filter fun u => d u = c).card ≤ b) → t ≤ N * b := by
  obtain ⟨rows, t, e, ht⟩ := tableFoldT h (npMax fun n => (Acc.pre d n).card) (List.finRange N) []
    (List.replicate (npMax fun n => (Acc.pre d n).card) (fun _ => -1)) 0 (by intro c; simp) (by
      intro c
      have := le_npMax (fun n => (Acc.pre d n).card) c
      rw [← preds_length] at this
      simpa [preds] using this) (by simp [below])
  have hT : buildTableT fdir = .ok (rows, t) := by
    unfold buildTableT
    rw [Acc.getNidp_ok h, Res.bind_ok]
    exact e
  have hcard : ∀ c, ((List.finRange N).filter (fun u => decide (d u = c))).length =
      (Finset.univ.filter fun u => d u = c).card := by
    intro c
    have := preds_length (d := d) c
    unfold preds at this
    rw [this]
    congr 1
  simp only [List.nil_append, hcard] at ht
  have h2 : 2 * t = ∑ c, (Finset.univ.filter fun u => d u = c).card *
      ((Finset.univ.filter fun u => d u = c).card + 1) := by
    rw [ht, Finset.mul_sum]
    refine Finset.sum_congr rfl fun c _ => ?_
    rw [below_two, Nat.add_sub_cancel, mul_comm]
  refine ⟨rows, t, hT, ?_, h2, fun b hb => ?_⟩
  · rw [← buildTableT_fst, hT, Res.map_ok]
  · have hN : (∑ c, (Finset.univ.filter fun u => d u = c).card) = N := by
      have := Finset.card_eq_sum_card_fiberwise (s := (Finset.univ : Finset (Fin N))) (t := Finset.univ) (f := d)
        (by simp)
      rw [Finset.card_univ, Fintype.card_fin] at this
      exact this.symm
    have hle : (∑ c, (Finset.univ.filter fun u => d u = c).card * ((Finset.univ.filter fun u => d u = c).card + 1)) ≤
        ∑ c, (Finset.univ.filter fun u => d u = c).card * (2 * b) := by
      refine Finset.sum_le_sum fun c _ => ?_
      rcases Nat.eq_zero_or_pos (Finset.univ.filter fun u => d u = c).card with h0 | h0
      · rw [h0]; simp
      · exact Nat.mul_le_mul le_rfl (by have := hb c; omega)
    rw [← Finset.sum_mul, hN, ← h2] at hle
    have : N * (2 * b) = 2 * (N * b) := by ring
    omega

/-- non-vacuity: 0 → 1 → 2 → 2, 3 → 1, cycle 4 ⇄ 5: the watershed of cell 2 takes cells 1, 2, 0, 3; when they are
taken three, two, one and no others wait -/
example : (watershedT 13 exS 2 (fun _ => 0)).map Prod.snd = .ok (4, 6) := by decide +kernel

/-- both cells of the cycle are taken when the pour point is one of them -/
example : (watershedT 13 exS 5 (fun _ => 0)).map Prod.snd = .ok (2, 1) := by decide +kernel

/-- nested pour points: the same four cells are taken as for cell 2 alone -/
example : (subbasinsT 10 20 exS [2, 1, 2]).map Prod.snd = .ok (4, 2) := by decide +kernel

/-- cells 1 and 2 have two inflows each (2 flows to itself), cells 4 and 5 one each: 3 + 3 + 1 + 1 looks -/
example : (buildTableT exS.fdir).map Prod.snd = .ok 8 := by decide +kernel

end Dany.Basin
