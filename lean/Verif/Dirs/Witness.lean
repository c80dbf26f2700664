import Verif.Dirs.Props
import Verif.Flood.Witness

/-!
# Concrete runs: the hypotheses of C21–C29 are satisfiable; C21 and C23 are refuted
-/

namespace Dany.Dirs

variable {N : ℕ}

/-! ### Checking the hypotheses by computation -/

theorem below_of {G : Geo N ℚ} {dem : Fin N → Option ℚ} {thr big : ℚ} {nbr : Fin N → List (Fin N)}
    (h : ∀ n, ∀ m ∈ nbr n, (slopeTo G dem thr big n (some m)).all (· < big)) :
    Below G dem thr big nbr := by
  intro n m hm s hs
  have := h n m hm
  rw [slopeTo_some.2 hs] at this
  simpa using this

theorem noTies_of {G : Geo N ℚ} {dem : Fin N → Option ℚ} {thr big : ℚ} {nbr : Fin N → List (Fin N)}
    (hb : Below G dem thr big nbr) (h : ∀ n, (fc0 G dem thr big nbr n).length ≤ 1) :
    NoTies G dem thr nbr := by
  intro n m m' h1 h2
  have e1 := mem_fc0_of_steepest hb h1
  have e2 := mem_fc0_of_steepest hb h2
  have := h n
  rcases hl : fc0 G dem thr big nbr n with _ | ⟨x, _ | ⟨y, l⟩⟩
  · rw [hl] at e1; cases e1
  · rw [hl] at e1 e2
    simp only [List.mem_singleton] at e1 e2
    rw [← e1] at e2
    exact (Option.some.inj e2).symm
  · rw [hl] at this; simp at this

theorem steepest_of {G : Geo N ℚ} {dem : Fin N → Option ℚ} {thr big : ℚ} {nbr : Fin N → List (Fin N)}
    {n m : Fin N} (h : some m ∈ fc0 G dem thr big nbr n) : Steepest G dem thr nbr n m :=
  steepest_of_mem_fc0 h

/-- square roots of the numbers that occur (1.4 for the root of 2) -/
def root (x : ℚ) : ℚ := if x = 2 then 7/5 else if x = 4 then 2 else x

/-- 1e10 and 1e-6 -/
def big : ℚ := 10000000000
def thr : ℚ := 1/1000000

/-! ### C23 is false -/

/-- a row of four cells, the first of length 3, the others of length 1 -/
def line4 : Fin 4 → List (Fin 4) := ![[1], [0, 2], [1, 3], [2]]
def geo4 : Geo 4 ℚ := ⟨![3/2, 7/2, 9/2, 11/2], fun _ => 0, root, id⟩
def dem4 : Fin 4 → Option ℚ := ![some 0, some 2, some 1, some (1/2)]

theorem run4 : flowDirections 50 geo4 dem4 big (table line4) thr [] = .ok ![1, 2, 3, 2] := by
  decide +kernel

theorem lowest4 : Lowest dem4 0 := by
  refine ⟨0, by decide, ?_⟩
  intro m w h
  have : ∀ m : Fin 4, (dem4 m).all (fun w => decide (0 ≤ w)) = true := by decide +kernel
  have := this m
  rw [h] at this
  simpa using this

/-- **C23** is false: the unique lowest cell, cell 0, ends up flowing to cell 1, which is higher. -/
theorem C23_refuted :
    ∃ (out : Fin 4 → ℤ), flowDirections 50 geo4 dem4 big (table line4) thr [] = .ok out ∧
      Terminal dem4 [] 0 ∧ (∀ n, Lowest dem4 n → n = 0) ∧ out 0 = 1 := by
  refine ⟨_, run4, .inl lowest4, ?_, rfl⟩
  rintro n ⟨v, hv, hle⟩
  have h0 := hle 0 0 (by decide)
  have : ∀ n : Fin 4, (dem4 n).all (fun w => decide (w ≤ 0)) = true → n = 0 := by decide +kernel
  exact this n (by rw [hv]; simpa using h0)

/-! ### C21 is false, and the hypothesis of C26 on isolated cells is needed -/

/-- a row of three cells; the middle one has no elevation -/
def line3 : Fin 3 → List (Fin 3) := ![[1], [0, 2], [1]]
def geo3 : Geo 3 ℚ := ⟨![0, 1, 2], fun _ => 0, root, id⟩
def dem3 : Fin 3 → Option ℚ := ![some 5, none, some 3]

/-- **C21** is false: cell 0, whose only neighbour has no elevation, gets the number 3, which is no cell. -/
theorem C21_refuted : ∃ (out : Fin 3 → ℤ),
    flowDirections 50 geo3 dem3 big (table line3) thr [] = .ok out ∧
      ¬ (out 0 = 0 ∨ out 0 = -2 ∨ ∃ m ∈ line3 0, out 0 = ((m : ℕ) : ℤ)) :=
  ⟨![3, 1, 2], by decide +kernel, by decide⟩

/-- Without `HasNbr` `flow_directions` may raise: here the middle cell of a star has no elevation. -/
theorem C26_isolated_raises : flowDirections 50 geo4 (![none, some 1, some 2, some 3]) big
    (table ![[1, 2, 3], [0], [0], [0]]) thr [] = .err .indexError := by decide +kernel

/-! ### A 4 × 4 grid: filling and routing -/

def geo44 : Geo 16 ℚ := ⟨fun n => ((n.val % 4 : ℕ) : ℚ), fun n => ((n.val / 4 : ℕ) : ℚ), root, id⟩
def nbr44 (n : Fin 16) : List (Fin 16) := inRange 16 (Flood.g44.nbr n)

def fd44 : Fin 16 → ℤ := ![5, 5, 6, 7, 5, 10, 10, 10, 5, 10, 15, 15, 9, 10, 15, 15]

theorem run44 : flowDirections 50 geo44 (filled Flood.out44) big (table nbr44) thr [] = .ok fd44 := by
  decide +kernel

theorem below44 : Below geo44 (filled Flood.out44) thr big nbr44 := below_of (by decide +kernel)
theorem noTies44 : NoTies geo44 (filled Flood.out44) thr nbr44 :=
  noTies_of below44 (by decide +kernel)
theorem dist44 : ∀ n, ∀ m ∈ nbr44 n, 0 < geo44.dist n m := by decide +kernel
theorem sound44 {dem : Fin 16 → Option ℚ} : Sound geo44 dem nbr44 := .exact rfl dist44
theorem hasNbr44 : HasNbr (filled Flood.out44) nbr44 := by
  have : ∀ n, nbr44 n ≠ [] := by decide +kernel
  intro n _
  obtain ⟨m, hm⟩ := List.exists_mem_of_ne_nil _ (this n)
  exact ⟨m, hm, by simp [filled]⟩
theorem inRange_nil (N : ℕ) : InRange N [] := by intro t h; cases h

-- C27: from cell 5 flow directions lead downhill to an edge cell
example : ∃ e, Edge.OnEdge Flood.g44.iverts e ∧ Relation.ReflTransGen
    (fun a b : Fin 16 => fd44 a = ((b : ℕ) : ℤ) ∧ Flood.out44 b < Flood.out44 a) 5 e :=
  C27_reaches_edge (thr := thr) (g := Flood.g44) (dem := Flood.dem44) (mask := none)
    Flood.rs_lt Flood.symm44 (by decide +kernel) Flood.run_priority sound44
    below44 (by decide +kernel) (by decide +kernel) noTies44 run44 Flood.reach44
example : fd44 5 = -2 ∨ ∃ m : Fin 16, m.val ∈ Flood.g44.nbr 5 ∧ fd44 5 = ((m : ℕ) : ℤ) ∧
    Flood.out44 m < Flood.out44 5 := by
  refine C27_fill_then_route (thr := thr) (g := Flood.g44) (dem := Flood.dem44) (mask := none)
    Flood.rs_lt Flood.symm44 (by decide +kernel) Flood.run_priority (inRange_nil 16) (by norm_num)
    (by unfold big; norm_num) sound44 run44 Flood.reach44 ?_ (by simp)
  have h : Edge.edgeNodes Flood.g44.iverts = .ok [0, 1, 2, 3, 4, 7, 8, 11, 12, 13, 14, 15] := by
    decide +kernel
  intro hc
  have := ((Edge.C15_edge_nodes h).2 5).2 hc
  revert this
  decide

-- C21, C22, C25, C26
example : fd44 5 = 5 ∨ fd44 5 = -2 ∨ ∃ m ∈ nbr44 5, fd44 5 = ((m : ℕ) : ℤ) :=
  C21_legal_partial (inRange_nil 16) (by norm_num) below44 hasNbr44 run44 5
example : Steepest geo44 (filled Flood.out44) thr nbr44 5 10 :=
  C22_steepest (inRange_nil 16) run44 (by decide) (by decide)
example : ∃ B out, ∀ fuel, B ≤ fuel →
    flowDirections fuel geo44 (filled Flood.out44) big (table nbr44) thr [12] = .ok out :=
  C26_terminates geo44 thr (by intro t h; simp at h; omega) below44 hasNbr44
    ⟨15, 5, by simp [filled, Flood.out44], by unfold big; norm_num⟩
-- C23: no ties, so the lowest cell stays terminal
example : fd44 15 = 15 := by
  refine C23_terminal_partial (inRange_nil 16) below44 (by decide +kernel) run44
    (t := 15) (.inl ⟨5, by simp [filled, Flood.out44], ?_⟩) (fun n _ h => easyTie_of_unique fun m h' => noTies44 n m 15 h' h)
  intro m w h
  have : ∀ m : Fin 16, (5 : ℚ) ≤ Flood.out44 m := by decide +kernel
  simp only [filled, Option.some.injEq] at h
  rw [← h]; exact this m

/-! ### A flat with a hole and a terminal cell -/

/-- elevation 1 everywhere, 0 at the outlet 15, none at cell 3 -/
def demF (n : Fin 16) : Option ℚ := if n = 15 then some 0 else if n = 3 then none else some 1

theorem runF : flowDirections 200 geo44 demF big (table nbr44) thr [12] =
    .ok ![1, 5, 7, 3, 9, 10, 11, 11, 4, 6, 15, 15, 12, 12, 15, 15] := by decide +kernel

theorem inRangeF : InRange 16 [12] := by intro t h; simp at h; omega

-- C24
example : (![1, 5, 7, 3, 9, 10, 11, 11, 4, 6, 15, 15, 12, 12, 15, 15] : Fin 16 → ℤ) 3 = 3 :=
  (C24_nan (n := 3) inRangeF runF (by decide)).1
-- C22 on the flat: cell 0 has three equally steep neighbours, 1, 4 and 5
example : Steepest geo44 demF thr nbr44 0 1 := C22_steepest inRangeF runF (by decide) (by decide)
example : Steepest geo44 demF thr nbr44 0 5 := steepest_of (big := big) (by decide +kernel)
-- C25: cell 10 has the outlet as a lower neighbour and is not terminal
example : HasLower demF nbr44 10 := ⟨15, by decide +kernel, 1, 0, by decide, by decide, by norm_num⟩
example : (![1, 5, 7, 3, 9, 10, 11, 11, 4, 6, 15, 15, 12, 12, 15, 15] : Fin 16 → ℤ) 10 = -2 ∨
    ∃ m ∈ nbr44 10, (![1, 5, 7, 3, 9, 10, 11, 11, 4, 6, 15, 15, 12, 12, 15, 15] : Fin 16 → ℤ) 10
      = ((m : ℕ) : ℤ) ∧ ∃ a b, demF 10 = some a ∧ demF m = some b ∧ b < a := by
  refine C25_downhill inRangeF (by norm_num) (by unfold big; norm_num) sound44 runF ?_
    ⟨15, by decide +kernel, 1, 0, by decide, by decide, by norm_num⟩
  rintro (⟨v, hv, hle⟩ | h)
  · have h0 := hle 15 0 (by decide)
    have : demF 10 = some 1 := by decide
    rw [this] at hv
    simp only [Option.some.injEq] at hv
    rw [← hv] at h0
    revert h0
    norm_num
  · revert h; decide

-- C28: two lowest cells are refused, unless the check is off
example : init (![some 1, some 1, none] : Fin 3 → Option ℚ) big true = .err .assertionError := by
  decide +kernel
example : init (![some 1, some 2, none] : Fin 3 → Option ℚ) big true = .ok [some 0] := by decide +kernel
example : init (![some 1, some 1, none] : Fin 3 → Option ℚ) big false = .ok [some 0, some 1] := by
  decide +kernel

-- C29: the table does change, the result does not
def objF : Obj 16 ℚ := ⟨geo44, demF, big, table nbr44⟩
example : (objF.call ⟨50, thr, [12]⟩).2.rows 0 ≠ objF.rows 0 := by decide +kernel
example : ((objF.calls [⟨50, thr, [12]⟩, ⟨9, 1, [99]⟩]).call ⟨200, thr, [12]⟩).1 =
    .ok ![1, 5, 7, 3, 9, 10, 11, 11, 4, 6, 15, 15, 12, 12, 15, 15] := by
  rw [C29_history_independent]
  simp only [Obj.call, objF]
  rw [runF]

end Dany.Dirs
