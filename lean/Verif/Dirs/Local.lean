import Verif.Dirs.Drain
import Verif.Dirs.Renumber

/-!
# C188: a flow direction depends on the cell and its neighbours only

`dem` and `dem'` are two elevation models on the same grid that agree at cell `n` and its neighbours; they may
differ anywhere else.
-/

namespace Dany.Dirs

variable {N : ℕ} {K : Type*} [Field K] [LinearOrder K]

variable {G : Geo N K} {dem dem' : Fin N → Option K} {nbr : Fin N → List (Fin N)}
  {terminals terminals' : List ℤ} {thr big : K} {fuel fuel' : ℕ} {out out' : Fin N → ℤ}

/-- `dem'` has the elevations of `dem` at `n` and at the neighbours of `n`. -/
def SameAround (dem dem' : Fin N → Option K) (nbr : Fin N → List (Fin N)) (n : Fin N) : Prop :=
  dem' n = dem n ∧ ∀ m ∈ nbr n, dem' m = dem m

/-- Only one neighbour of `n` lies in the steepest direction. -/
def OneSteepest (G : Geo N K) (dem : Fin N → Option K) (thr : K) (nbr : Fin N → List (Fin N)) (n : Fin N) : Prop :=
  ∀ m m', Steepest G dem thr nbr n m → Steepest G dem thr nbr n m' → m = m'

private theorem slope_same {n m : Fin N} {s : K} (h : SameAround dem dem' nbr n) (hm : m ∈ nbr n) :
    Slope G dem' thr n m s ↔ Slope G dem thr n m s := by
  unfold Slope
  rw [h.1, h.2 m hm]

theorem SameAround.steepest {n m : Fin N} (h : SameAround dem dem' nbr n) :
    Steepest G dem' thr nbr n m ↔ Steepest G dem thr nbr n m := by
  unfold Steepest
  refine and_congr_right fun hm => exists_congr fun s => ?_
  rw [slope_same h hm]
  refine and_congr_right fun _ => forall_congr' fun m' => forall_congr' fun hm' => forall_congr' fun s' => ?_
  rw [slope_same h hm']

/-- **C188**, for any two elevation models: if a cell with one steepest neighbour passes its water on in both, it
passes it to the same cell. -/
theorem C188_flows (hr : InRange N terminals) (hr' : InRange N terminals')
    (h : flowDirections fuel G dem big (table nbr) thr terminals = .ok out)
    (h' : flowDirections fuel' G dem' big (table nbr) thr terminals' = .ok out') {n m m' : Fin N}
    (hsame : SameAround dem dem' nbr n) (hone : OneSteepest G dem thr nbr n)
    (hm : out n = ((m : ℕ) : ℤ)) (hne : m ≠ n) (hm' : out' n = ((m' : ℕ) : ℤ)) (hne' : m' ≠ n) : m' = m :=
  hone _ _ (hsame.steepest.1 (C22_steepest hr' h' hm' hne')) (C22_steepest hr h hm hne)

/-- **C188** without ties: the two flow directions of `n` are the same, unless the edit makes `n` a lowest cell of
the grid or another cell take that place. -/
theorem C188_noties (hr : InRange N terminals) (hr' : InRange N terminals')
    (hb : Below G dem thr big nbr) (hb' : Below G dem' thr big nbr) (hn : HasNbr dem nbr) (hn' : HasNbr dem' nbr)
    (hnd : ∀ n, (nbr n).Nodup) (hnt : NoTies G dem thr nbr) (hnt' : NoTies G dem' thr nbr)
    (h : flowDirections fuel G dem big (table nbr) thr terminals = .ok out)
    (h' : flowDirections fuel' G dem' big (table nbr) thr terminals' = .ok out') {n : Fin N}
    (hsame : SameAround dem dem' nbr n) (ht : Terminal dem' terminals' n ↔ Terminal dem terminals n) :
    out' n = out n := by
  obtain ⟨m, ho, hc⟩ := C135_value hr hb hn hnd hnt h n
  obtain ⟨m', ho', hc'⟩ := C135_value hr' hb' hn' hnd hnt' h' n
  have : m' = m := by
    rw [ht, hsame.1, hsame.steepest] at hc'
    rcases hc with ⟨h1, rfl⟩ | ⟨h1, h2, h3⟩
    · rcases hc' with ⟨_, e⟩ | ⟨h4, h5, _⟩
      · exact e
      · rcases h1 with h1 | h1
        · exact absurd h1 h4
        · exact absurd h1 h5
    · rcases hc' with ⟨h4 | h4, _⟩ | ⟨_, _, h6⟩
      · exact absurd h4 h1
      · exact absurd h4 h2
      · exact hnt n _ _ h6 h3
  rw [ho, ho', this]

/-- What `flow_directions` needs so that every cell drains (the hypotheses of C97): the grid has fewer than a
million cells and finite slopes, every cell with an elevation that is not terminal has a lower neighbour, and ties
with a terminal cell are easy ones. -/
structure Draining (G : Geo N K) (dem : Fin N → Option K) (nbr : Fin N → List (Fin N)) (thr big : K)
    (terminals : List ℤ) : Prop where
  range : InRange N terminals
  size : N < 1000000
  below : Below G dem thr big nbr
  nbrs : HasNbr dem nbr
  nodup : ∀ n, (nbr n).Nodup
  sound : Sound G dem nbr
  fall : AllFall dem terminals nbr
  ends : CleanEnds G dem thr terminals nbr

/-- the flow directions as cells -/
theorem Draining.cells [IsStrictOrderedRing K] (hD : Draining G dem nbr thr big terminals)
    (h : flowDirections fuel G dem big (table nbr) thr terminals = .ok out) (n : Fin N) :
    ∃ m : Fin N, out n = ((m : ℕ) : ℤ) ∧
      (((Terminal dem terminals n ∨ dem n = none) ∧ m = n) ∨
        (¬ Terminal dem terminals n ∧ dem n ≠ none ∧ Steepest G dem thr nbr n m ∧
          ∃ a b, dem n = some a ∧ dem m = some b ∧ b < a)) := by
  have := C97_all_drain hD.range hD.size hD.below hD.nbrs hD.nodup hD.sound hD.fall hD.ends h n
  by_cases hT : Terminal dem terminals n ∨ dem n = none
  · exact ⟨n, this.1 hT, .inl ⟨hT, rfl⟩⟩
  · obtain ⟨m, a, b, hs, ho, ha, hb, hlt⟩ := this.2 hT
    push Not at hT
    exact ⟨m, ho, .inr ⟨hT.1, hT.2, hs, a, b, ha, hb, hlt⟩⟩

/-- **C188** when every cell drains, as after `fill_sinks`: other cells may have ties, only `n` may not. -/
theorem C188_local [IsStrictOrderedRing K] (hD : Draining G dem nbr thr big terminals)
    (hD' : Draining G dem' nbr thr big terminals')
    (h : flowDirections fuel G dem big (table nbr) thr terminals = .ok out)
    (h' : flowDirections fuel' G dem' big (table nbr) thr terminals' = .ok out') {n : Fin N}
    (hsame : SameAround dem dem' nbr n) (hone : OneSteepest G dem thr nbr n)
    (ht : Terminal dem' terminals' n ↔ Terminal dem terminals n) : out' n = out n := by
  obtain ⟨m, ho, hc⟩ := hD.cells h n
  obtain ⟨m', ho', hc'⟩ := hD'.cells h' n
  have : m' = m := by
    rw [ht, hsame.1, hsame.steepest] at hc'
    rcases hc with ⟨h1, rfl⟩ | ⟨h1, h2, h3, _⟩
    · rcases hc' with ⟨_, e⟩ | ⟨h4, h5, _⟩
      · exact e
      · rcases h1 with h1 | h1
        · exact absurd h1 h4
        · exact absurd h1 h5
    · rcases hc' with ⟨h4 | h4, _⟩ | ⟨_, _, h6, _⟩
      · exact absurd h4 h1
      · exact absurd h4 h2
      · exact hone _ _ h6 h3
  rw [ho, ho', this]

/-! ### Concrete cases -/

/-- six cells, all neighbours at distance 1 -/
def sixG : Geo 6 ℚ := ⟨![0, 0, 0, 0, 0, 0], ![0, 0, 0, 0, 0, 0], fun _ => 1, id⟩
/-- cell 0 on top, below it cells 1 and 2, which are not neighbours; 1 and 3 and 2, 4, 5 and 3 are -/
def sixNbr : Fin 6 → List (Fin 6) := ![[1, 2], [0, 3], [0, 4, 5], [1, 4, 5], [2, 3], [2, 3]]
def sixA : Fin 6 → Option ℚ := ![some 9, some 7, some 7, some 1, some 5, some 6]
def sixB : Fin 6 → Option ℚ := ![some 9, some 7, some 7, some 1, some 5, some 5]

/-- **C188**, the single steepest neighbour is needed: cell 0 has two, cells 1 and 2.  Editing the elevation of
cell 5, no neighbour of it, from 6 to 5 turns its flow from cell 2 to cell 1. -/
theorem C188_ties : ∃ (nbr : Fin 6 → List (Fin 6)) (dem dem' : Fin 6 → Option ℚ) (out out' : Fin 6 → ℤ),
    SameAround dem dem' nbr 0 ∧
    flowDirections 20 sixG dem 100 (table nbr) (1/10) [] = .ok out ∧
    flowDirections 20 sixG dem' 100 (table nbr) (1/10) [] = .ok out' ∧ out 0 = 2 ∧ out' 0 = 1 :=
  ⟨sixNbr, sixA, sixB, ![2, 3, 4, 3, 3, 3], ![1, 3, 4, 3, 3, 3], by unfold SameAround; decide +kernel,
    by decide +kernel, by decide +kernel, by decide +kernel, by decide +kernel⟩

/-- the row of C135; editing cell 3 leaves cell 0 alone -/
def rowE : Fin 4 → Option ℚ := ![some 4, some 3, some 2, some 7]
theorem rowE_below : Below rowG rowE (1/10) 100 rowNbr := below_of (by decide +kernel)
private theorem rowE_nbr (dem : Fin 4 → Option ℚ) (h : ∀ n, dem n ≠ none) : HasNbr dem rowNbr := by
  intro n _
  have : ∀ n : Fin 4, ∃ m : Fin 4, m ∈ rowNbr n := by decide +kernel
  obtain ⟨m, hm⟩ := this n
  exact ⟨m, hm, h m⟩
private theorem rowE_not (dem : Fin 4 → Option ℚ) (h0 : dem 0 = some 4) (h2 : dem 2 = some 2) : ¬ Terminal dem [3] 0 := by
  rintro (⟨v, hv, hle⟩ | h)
  · have := hle 2 2 h2
    rw [h0] at hv
    cases hv
    norm_num at this
  · simp at h
example : (![1, 2, 2, 3] : Fin 4 → ℤ) 0 = (![1, 2, 2, 3] : Fin 4 → ℤ) 0 :=
  C188_noties (fuel := 9) (fuel' := 9) (terminals := [3]) (terminals' := [3])
    (by intro t ht; simp only [List.mem_singleton] at ht; subst ht; decide)
    (by intro t ht; simp only [List.mem_singleton] at ht; subst ht; decide)
    row_below rowE_below (rowE_nbr _ (by decide +kernel)) (rowE_nbr _ (by decide +kernel)) (by decide +kernel)
    (noTies_of row_below (by decide +kernel)) (noTies_of rowE_below (by decide +kernel))
    (by decide +kernel) (by decide +kernel) (n := 0) (by unfold SameAround; decide +kernel)
    (iff_of_false (rowE_not _ (by decide +kernel) (by decide +kernel)) (rowE_not _ (by decide +kernel) (by decide +kernel)))
example {m' : Fin 4} (h : (![1, 2, 2, 3] : Fin 4 → ℤ) 0 = ((m' : ℕ) : ℤ)) (hne : m' ≠ 0) : m' = 1 :=
  C188_flows (fuel := 9) (fuel' := 9) (terminals := [3]) (terminals' := [3]) (dem' := rowE) (thr := 1/10) (big := 100)
    (by intro t ht; simp only [List.mem_singleton] at ht; subst ht; decide)
    (by intro t ht; simp only [List.mem_singleton] at ht; subst ht; decide)
    (G := rowG) (dem := ![some 4, some 3, some 2, some 5]) (nbr := rowNbr) (out := ![1, 2, 2, 3]) (out' := ![1, 2, 2, 3])
    (by decide +kernel) (by decide +kernel) (n := 0) (m := 1) (by unfold SameAround; decide +kernel)
    (fun m m' => noTies_of row_below (by decide +kernel) 0 m m') (by decide +kernel) (by decide +kernel) h hne

end Dany.Dirs
