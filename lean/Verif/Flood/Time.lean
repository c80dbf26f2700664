import Verif.Flood.Props
import Verif.Flood.Witness
import Mathlib.Algebra.BigOperators.Intervals

/-!
# C221: the running time of the priority flood

The loops of `_priority_flood` with counters: cells taken from one of the two queues, neighbours looked at, and
entries that `pit.pop(0)` has to move up one place.
-/

namespace Dany.Flood

open Function

variable {N : ℕ} {V : Type*} [LinearOrder V]

/-- the three counts: cells taken, neighbours looked at, entries moved -/
structure Work where
  cells : ℕ
  looks : ℕ
  moves : ℕ

/-- one iteration of `while open or pit` (dem_conditioning.py:188-224) that looked at `l` neighbours and moved
`m` entries -/
def Work.tick (l m : ℕ) (w : Work) : Work := ⟨w.cells + 1, w.looks + l, w.moves + m⟩

/-- the entries behind the one taken by `pit.pop(0)` (dem_conditioning.py:190); `heappop` takes from the heap -/
def behind (s : PF N V) : ℕ := s.pit.length - 1

/-- `pfLoop` (dem_conditioning.py:188-224) with the counts -/
def pfLoopT (raise : V → V) (streams : Bool) (nbr : Fin N → List ℕ) (seed : List (Fin N)) :
    ℕ → PF N V → Res (PF N V × Work)
  | 0, _ => .hang
  | k + 1, s =>
    match popNext s with
    | none => .ok (s, ⟨0, 0, 0⟩)
    | some (c, s') => (pfLoopT raise streams nbr seed k (process raise streams nbr seed c s')).map fun r =>
        (r.1, r.2.tick (nbr c).length (behind s))

/-- `_priority_flood` (dem_conditioning.py:144-226) with the counts -/
def priorityFloodT (fuel : ℕ) (raise : V → V) (streams : Bool) (nbr : Fin N → List ℕ)
    (dem : Fin N → V) (seed : List (Fin N)) : Res ((Fin N → V) × Work) :=
  (pfLoopT raise streams nbr seed fuel (pfInit dem seed)).map fun r => (r.1.dem, r.2)

/-- `fill_sinks` (dem_conditioning.py:5-59) with the counts of the priority flood; the drain method is not
counted here (its sweeps are the subject of C130) -/
def fillSinksT (fuel : ℕ) (raise : V → V) (flood : V) (g : Grid N) (dem : Fin N → V)
    (mask : Option (Fin N → Bool)) (method : String) : Res ((Fin N → V) × Work) :=
  (Edge.edgeNodes g.iverts).bind fun edge =>
    let method :=
      if mask.isSome then
        if method.toLower = "priority" ∨ method.toLower = "complete" then method else "priority"
      else method
    if method.toLower = "priority" ∨ method.toLower = "complete" then
      let raise := if method.toLower = "complete" then id else raise
      match mask with
      | some m => priorityFloodT fuel raise true g.nbr dem ((List.finRange N).filter (fun n => m n))
      | none => priorityFloodT fuel raise false g.nbr dem edge
    else (floodAndDrain fuel raise flood g.nbr dem edge).map fun out => (out, ⟨0, 0, 0⟩)

/-! ### The counters change nothing -/

theorem pfLoopT_fst (raise : V → V) (streams : Bool) (nbr : Fin N → List ℕ) (seed : List (Fin N)) :
    ∀ (k : ℕ) (s : PF N V), (pfLoopT raise streams nbr seed k s).map Prod.fst = pfLoop raise streams nbr seed k s := by
  intro k
  induction k with
  | zero => intro s; rfl
  | succ k ih =>
    intro s
    simp only [pfLoopT, pfLoop]
    cases popNext s with
    | none => rfl
    | some x =>
      obtain ⟨c, s'⟩ := x
      dsimp only
      rw [← ih]
      generalize pfLoopT (N := N) (V := V) _ _ _ _ _ _ = q
      cases q <;> rfl

theorem priorityFloodT_fst (fuel : ℕ) (raise : V → V) (streams : Bool) (nbr : Fin N → List ℕ) (dem : Fin N → V)
    (seed : List (Fin N)) :
    (priorityFloodT fuel raise streams nbr dem seed).map Prod.fst = priorityFlood fuel raise streams nbr dem seed := by
  unfold priorityFloodT priorityFlood
  rw [← pfLoopT_fst]
  generalize pfLoopT (N := N) (V := V) _ _ _ _ _ _ = q
  cases q <;> rfl

/-- The counters change nothing: without them the function is the modelled one. -/
theorem fillSinksT_fst (fuel : ℕ) (raise : V → V) (flood : V) (g : Grid N) (dem : Fin N → V)
    (mask : Option (Fin N → Bool)) (method : String) :
    (fillSinksT fuel raise flood g dem mask method).map Prod.fst = fillSinks fuel raise flood g dem mask method := by
  unfold fillSinksT fillSinks
  cases Edge.edgeNodes g.iverts with
  | err e => rfl
  | hang => rfl
  | ok edge =>
    simp only [Res.bind_ok, fillFrom]
    cases mask with
    | none =>
      dsimp only [Option.isSome]
      split_ifs <;> first
        | rw [priorityFloodT_fst]
        | (generalize floodAndDrain (N := N) (V := V) _ _ _ _ _ _ = q; cases q <;> rfl)
    | some m =>
      dsimp only [Option.isSome]
      split_ifs <;> first
        | rw [priorityFloodT_fst]
        | (generalize floodAndDrain (N := N) (V := V) _ _ _ _ _ _ = q; cases q <;> rfl)

/-! ### The counts -/

theorem visit_pit (raise : V → V) (streams : Bool) (seed : List (Fin N)) (c : Fin N) (s : PF N V) (m : ℕ) :
    s.pit.length ≤ (visit raise streams seed c s m).pit.length := by
  unfold visit raiseInto
  dsimp only
  split_ifs <;> simp

theorem process_pit (raise : V → V) (streams : Bool) (nbr : Fin N → List ℕ) (seed : List (Fin N)) (c : Fin N)
    (s : PF N V) : s.pit.length ≤ (process raise streams nbr seed c s).pit.length := by
  unfold process
  have : ∀ (l : List ℕ) (t : PF N V), t.pit.length ≤ (l.foldl (visit raise streams seed c) t).pit.length := by
    intro l
    induction l with
    | nil => intro t; exact le_rfl
    | cons m l ih => intro t; exact (visit_pit _ _ _ _ _ _).trans (ih _)
  exact this (nbr c) { s with dem := burn raise streams nbr seed c s.dem, done := s.done ++ [c] }

theorem popNext_pit {s s' : PF N V} {c : Fin N} (h : popNext s = some (c, s')) : s'.pit.length = behind s := by
  unfold popNext at h
  unfold behind
  split at h
  · rename_i hp; cases h; rw [hp]; simp
  · rename_i hp
    split at h
    · cases h
    · cases h; simp [hp]

/-- Twice the entries moved, the cells taken and the neighbours looked at, in terms of the list of cells taken. -/
theorem pfLoopT_count (raise : V → V) (streams : Bool) (nbr : Fin N → List ℕ) (seed : List (Fin N)) :
    ∀ (k : ℕ) (s t : PF N V) (w : Work), pfLoopT raise streams nbr seed k s = .ok (t, w) →
      ∃ l, t.done = s.done ++ l ∧ w.cells = l.length ∧ w.looks = (l.map fun c => (nbr c).length).sum ∧
        s.pit.length ≤ w.cells ∧ w.moves ≤ ∑ i ∈ Finset.range w.cells, i := by
  intro k
  induction k with
  | zero => intro s t w h; cases h
  | succ k ih =>
    intro s t w h
    simp only [pfLoopT] at h
    split at h
    · rename_i hn
      cases h
      refine ⟨[], by simp, rfl, rfl, ?_, by simp⟩
      rw [(popNext_none hn).2]; simp
    · rename_i c s' hp
      obtain ⟨⟨t1, w1⟩, hb, he⟩ := Res.map_eq_ok.1 h
      cases he
      obtain ⟨l, e1, e2, e3, e4, e5⟩ := ih _ _ _ hb
      rw [process_done, (popNext_done hp).1] at e1
      have hpit := process_pit raise streams nbr seed c s'
      rw [popNext_pit hp] at hpit
      refine ⟨c :: l, by simpa using e1, by simp [Work.tick, e2], by simp [Work.tick, e3, Nat.add_comm], ?_, ?_⟩
      · simp only [Work.tick]
        unfold behind at hpit
        omega
      · simp only [Work.tick]
        rw [Finset.sum_range_succ]
        omega

/-- **C221.**  With method "priority" or "complete", and with a stream mask, `fill_sinks` takes from its queues exactly
once every cell that is connected to an outlet (the edge of the grid, or the stream cells), looks exactly once at
each neighbour of each of these, and `pit.pop(0)` moves at most `T (T - 1) / 2` entries for `T` cells taken – for any
elevations and any rounding of `x + eps` that does not fall below `x`. -/
theorem C221_time {fuel : ℕ} {raise : V → V} {flood : V} {g : Grid N} {dem out : Fin N → V}
    {mask : Option (Fin N → Bool)} {method : String} (hinf : ∀ x, x ≤ raise x)
    (heff : effective mask method ≠ .drain) (h : fillSinks fuel raise flood g dem mask method = .ok out) :
    ∃ w, fillSinksT fuel raise flood g dem mask method = .ok (out, w) ∧
      2 * w.moves ≤ w.cells * (w.cells - 1) ∧ open Classical in
      w.cells = (Finset.univ.filter fun n => Reach g.nbr (Outlet g mask) n).card ∧
      w.looks = ∑ n ∈ Finset.univ.filter (fun n => Reach g.nbr (Outlet g mask) n), (g.nbr n).length := by
  classical
  have hT := fillSinksT_fst fuel raise flood g dem mask method
  rw [h] at hT
  obtain ⟨⟨out', w⟩, hT2, ho⟩ := Res.map_eq_ok.1 hT
  dsimp only at ho
  subst ho
  refine ⟨w, hT2, ?_⟩
  obtain ⟨edge, he, hF⟩ := Res.bind_eq_ok.1 hT2
  obtain ⟨h1, h2⟩ := Edge.C15_edge_nodes he
  -- the run of the loop
  have key : ∀ (seed : List (Fin N)) (r : V → V) (b : Bool), seed.Nodup → (∀ n, n ∈ seed ↔ Outlet g mask n) →
      (∀ x, x ≤ r x) → priorityFloodT fuel r b g.nbr dem seed = .ok (out', w) →
      2 * w.moves ≤ w.cells * (w.cells - 1) ∧
      w.cells = (Finset.univ.filter fun n => Reach g.nbr (Outlet g mask) n).card ∧
      w.looks = ∑ n ∈ Finset.univ.filter (fun n => Reach g.nbr (Outlet g mask) n), (g.nbr n).length := by
    intro seed r b hnd hmem hr hrun
    obtain ⟨⟨t, w1⟩, hL, hw⟩ := Res.map_eq_ok.1 hrun
    obtain ⟨-, rfl⟩ := Prod.mk.inj hw
    have hloop : pfLoop r b g.nbr seed fuel (pfInit dem seed) = .ok t := by rw [← pfLoopT_fst, hL]; rfl
    have hfin := final_of_ok (rel := fun _ _ => True) b hnd hr (fun _ => trivial) (fun _ _ _ => trivial) fuel t hloop
    obtain ⟨l, e1, e2, e3, -, e5⟩ := pfLoopT_count r b g.nbr seed fuel _ _ _ hL
    have e1' : t.done = l := by rw [e1]; rfl
    have hset : (Finset.univ.filter fun n => Reach g.nbr (Outlet g mask) n) = l.toFinset := by
      ext n
      simp only [Finset.mem_filter, Finset.mem_univ, true_and, List.mem_toFinset]
      rw [← e1', hfin.reach_iff, reach_congr hmem]
    have hlnd : l.Nodup := e1' ▸ hfin.nodup
    refine ⟨?_, ?_, ?_⟩
    · have := Finset.sum_range_id_mul_two w1.cells
      dsimp only
      omega
    · rw [hset, List.toFinset_card_of_nodup hlnd, e2]
    · rw [hset, e3, List.sum_toFinset _ hlnd]
  have hid : ∀ (m : String) (x : V), x ≤ (if m.toLower = "complete" then id else raise) x := by
    intro m x
    split_ifs
    · exact le_rfl
    · exact hinf x
  cases mask with
  | none =>
    dsimp only [Option.isSome] at hF
    rw [if_neg Bool.false_ne_true] at hF
    by_cases hm : method.toLower = "priority" ∨ method.toLower = "complete"
    · rw [if_pos hm] at hF
      exact key edge _ _ (h1.imp ne_of_lt) h2 (hid method) hF
    · exfalso
      apply heff
      push Not at hm
      simp [effective, hm.1, hm.2]
  | some m =>
    dsimp only [Option.isSome] at hF
    rw [if_pos rfl] at hF
    have hp : ∀ s : String, (s = method ∨ s = "priority") → (s = method → method.toLower = "priority" ∨ method.toLower = "complete") →
        (s.toLower = "priority" ∨ s.toLower = "complete") := by
      rintro s (rfl | rfl) h3
      · exact h3 rfl
      · left; decide +kernel
    by_cases hm : method.toLower = "priority" ∨ method.toLower = "complete"
    · rw [if_pos hm, if_pos hm] at hF
      exact key _ _ _ ((List.nodup_finRange N).filter _) (fun n => by simp [Outlet]) (hid method) hF
    · rw [if_neg hm, if_pos (.inl (by decide +kernel))] at hF
      exact key _ _ _ ((List.nodup_finRange N).filter _) (fun n => by simp [Outlet]) (hid "priority") hF

/-- So on a grid with at most `b` neighbours per cell (8 on a raster) it takes at most `N` cells and looks at most
`b N` neighbours; on a grid all of whose cells are connected to an outlet it takes every cell. -/
theorem C221_linear {fuel : ℕ} {raise : V → V} {flood : V} {g : Grid N} {dem out : Fin N → V}
    {mask : Option (Fin N → Bool)} {method : String} (hinf : ∀ x, x ≤ raise x)
    (heff : effective mask method ≠ .drain) (h : fillSinks fuel raise flood g dem mask method = .ok out)
    {b : ℕ} (hb : ∀ n, (g.nbr n).length ≤ b) :
    ∃ w, fillSinksT fuel raise flood g dem mask method = .ok (out, w) ∧ w.cells ≤ N ∧ w.looks ≤ b * N ∧
      ((∀ n, Reach g.nbr (Outlet g mask) n) → w.cells = N) := by
  classical
  obtain ⟨w, e, -, e1, e2⟩ := C221_time hinf heff h
  have e1' : w.cells = (Finset.univ.filter fun n => Reach g.nbr (Outlet g mask) n).card := e1
  have hN : w.cells ≤ N := by
    rw [e1']
    exact (Finset.card_le_univ _).trans (by simp)
  refine ⟨w, e, hN, ?_, fun hall => ?_⟩
  · rw [e2]
    refine (Finset.sum_le_card_nsmul _ _ b fun n _ => hb n).trans ?_
    rw [← e1, smul_eq_mul, mul_comm]
    exact Nat.mul_le_mul le_rfl hN
  · rw [e1', Finset.filter_true_of_mem (fun n _ => hall n), Finset.card_univ, Fintype.card_fin]

/-- non-vacuity: the 4 × 4 grid with a pit of two cells: 16 cells, 84 neighbours; when the first cell of the pit is
taken, the other waits behind it -/
example : (fillSinksT 17 rs 100 g44 dem44 none "Priority").map
    (fun x => (x.2.cells, x.2.looks, x.2.moves)) = .ok (16, 84, 1) := by decide +kernel

/-- the hypotheses of C221 are met by this run -/
example : ∃ w, fillSinksT 17 rs 100 g44 dem44 none "Priority" = .ok (out44, w) ∧ w.cells ≤ 16 ∧ w.looks ≤ 8 * 16 := by
  obtain ⟨w, e, h1, h2, -⟩ := C221_linear (b := 8) (fun x => (rs_lt x).le) (by decide +kernel) run_priority
    (by decide +kernel)
  exact ⟨w, e, h1, h2⟩

/-- with a stream mask: the flood starts at cell 15 only and still takes every cell -/
example : (fillSinksT 17 rs 100 g44 dem44 (some fun n => n = 15) "drain").map
    (fun x => (x.2.cells, x.2.looks)) = .ok (16, 84) := by decide +kernel

end Dany.Flood
