import Verif.Dirs.Props
import Verif.Dirs.Witness

/-!
# C135: flow directions and the numbering of the cells
-/

namespace Dany.Dirs

variable {N : ℕ} {K : Type*} [Field K] [LinearOrder K]

/-- The same grid and DEM with the cells numbered otherwise (cell `n` is now `σ n`) and the neighbour lists in another
order; the distances are the same and so are the user's terminal cells. -/
structure Renumbered (σ : Fin N ≃ Fin N) (G G' : Geo N K) (dem dem' : Fin N → Option K)
    (nbr nbr' : Fin N → List (Fin N)) (terminals terminals' : List ℤ) : Prop where
  rnd : G'.rnd = G.rnd
  dist : ∀ n m, G'.dist (σ n) (σ m) = G.dist n m
  elev : ∀ n, dem' (σ n) = dem n
  adj : ∀ n m, σ m ∈ nbr' (σ n) ↔ m ∈ nbr n
  nodup : ∀ n, (nbr n).Nodup
  nodup' : ∀ n, (nbr' n).Nodup
  term : ∀ n, ((σ n : ℕ) : ℤ) ∈ terminals' ↔ ((n : ℕ) : ℤ) ∈ terminals
  inRange : InRange N terminals
  inRange' : InRange N terminals'

variable {σ : Fin N ≃ Fin N} {G G' : Geo N K} {dem dem' : Fin N → Option K} {nbr nbr' : Fin N → List (Fin N)}
  {terminals terminals' : List ℤ} {thr big : K} {fuel fuel' : ℕ} {out out' : Fin N → ℤ}

theorem Renumbered.slope (h : Renumbered σ G G' dem dem' nbr nbr' terminals terminals') {n m : Fin N} {s : K} :
    Slope G' dem' thr (σ n) (σ m) s ↔ Slope G dem thr n m s := by
  simp only [Slope, rise, h.elev, h.dist, h.rnd]

theorem Renumbered.steepest (h : Renumbered σ G G' dem dem' nbr nbr' terminals terminals') {n m : Fin N} :
    Steepest G' dem' thr nbr' (σ n) (σ m) ↔ Steepest G dem thr nbr n m := by
  unfold Steepest
  rw [h.adj]
  refine and_congr_right fun _ => exists_congr fun s => ?_
  rw [h.slope]
  refine and_congr_right fun _ => ?_
  constructor
  · intro hall m' hm' s' hs'
    exact hall (σ m') ((h.adj _ _).2 hm') s' (h.slope.2 hs')
  · intro hall m' hm' s' hs'
    obtain ⟨k, rfl⟩ := σ.surjective m'
    exact hall k ((h.adj _ _).1 hm') s' (h.slope.1 hs')

theorem Renumbered.terminal (h : Renumbered σ G G' dem dem' nbr nbr' terminals terminals') {n : Fin N} :
    Terminal dem' terminals' (σ n) ↔ Terminal dem terminals n := by
  unfold Terminal Lowest
  rw [h.term, h.elev]
  refine or_congr_left (exists_congr fun v => and_congr_right fun _ => ?_)
  constructor
  · intro hall m w hw
    exact hall (σ m) w (by rw [h.elev]; exact hw)
  · intro hall m w hw
    obtain ⟨k, rfl⟩ := σ.surjective m
    rw [h.elev] at hw
    exact hall k w hw

/-- **C135**, what the result is without ties: a terminal cell and a cell without elevation keep the water, every
other cell passes it to its steepest neighbour. -/
theorem C135_value (hr : InRange N terminals) (hb : Below G dem thr big nbr) (hn : HasNbr dem nbr)
    (hnd : ∀ n, (nbr n).Nodup) (hnt : NoTies G dem thr nbr)
    (h : flowDirections fuel G dem big (table nbr) thr terminals = .ok out) (n : Fin N) :
    ∃ m : Fin N, out n = ((m : ℕ) : ℤ) ∧
      (((Terminal dem terminals n ∨ dem n = none) ∧ m = n) ∨
        (¬ Terminal dem terminals n ∧ dem n ≠ none ∧ Steepest G dem thr nbr n m)) := by
  by_cases hv : dem n = none
  · exact ⟨n, (C24_nan hr h hv).1, .inl ⟨.inr hv, rfl⟩⟩
  · by_cases ht : Terminal dem terminals n
    · exact ⟨n, C23_terminal_partial hr hb hnd h ht (fun k _ hk => easyTie_of_unique fun m hm => hnt k m n hm hk), .inl ⟨.inl ht, rfl⟩⟩
    · obtain ⟨m, hm, ho⟩ := noTies_flows hr hb hn hnd hnt h hv ht
      exact ⟨m, ho, .inr ⟨ht, hv, hm⟩⟩

/-- **C135.**  Without ties, `flow_directions` does not depend on the numbering of the cells nor on the order of the
neighbour lists: cell `n` flows to cell `m` in one numbering exactly if it does so in the other.  In any arithmetic. -/
theorem C135_numbering (hR : Renumbered σ G G' dem dem' nbr nbr' terminals terminals')
    (hb : Below G dem thr big nbr) (hn : HasNbr dem nbr) (hnt : NoTies G dem thr nbr)
    (h : flowDirections fuel G dem big (table nbr) thr terminals = .ok out)
    (h' : flowDirections fuel' G' dem' big (table nbr') thr terminals' = .ok out') (n m : Fin N) :
    out n = ((m : ℕ) : ℤ) ↔ out' (σ n) = ((σ m : ℕ) : ℤ) := by
  have hb' : Below G' dem' thr big nbr' := by
    intro a b hab s hs
    obtain ⟨a, rfl⟩ := σ.surjective a
    obtain ⟨b, rfl⟩ := σ.surjective b
    exact hb a b ((hR.adj _ _).1 hab) s (hR.slope.1 hs)
  have hn' : HasNbr dem' nbr' := by
    intro a ha
    obtain ⟨a, rfl⟩ := σ.surjective a
    rw [hR.elev] at ha
    obtain ⟨b, hab, hb⟩ := hn a ha
    exact ⟨σ b, (hR.adj _ _).2 hab, by rw [hR.elev]; exact hb⟩
  have hnt' : NoTies G' dem' thr nbr' := by
    intro a b c h1 h2
    obtain ⟨a, rfl⟩ := σ.surjective a
    obtain ⟨b, rfl⟩ := σ.surjective b
    obtain ⟨c, rfl⟩ := σ.surjective c
    rw [hnt a b c (hR.steepest.1 h1) (hR.steepest.1 h2)]
  obtain ⟨m1, e1, c1⟩ := C135_value hR.inRange hb hn hR.nodup hnt h n
  obtain ⟨m2, e2, c2⟩ := C135_value hR.inRange' hb' hn' hR.nodup' hnt' h' (σ n)
  have key : m2 = σ m1 := by
    rw [hR.terminal, hR.elev] at c2
    rcases c1 with ⟨t1, rfl⟩ | ⟨t1, t2, t3⟩
    · rcases c2 with ⟨_, rfl⟩ | ⟨s1, s2, _⟩
      · rfl
      · exact absurd t1 (by tauto)
    · rcases c2 with ⟨s1, rfl⟩ | ⟨s1, s2, s3⟩
      · exact absurd s1 (by tauto)
      · exact hnt' _ _ _ s3 (hR.steepest.2 t3)
  rw [e1, e2, key]
  constructor
  · intro e
    have : m1 = m := Fin.ext (by omega)
    rw [this]
  · intro e
    have : σ m1 = σ m := Fin.ext (by omega)
    rw [σ.injective this]

/-! ### Examples -/

def triG : Geo 3 ℚ := ⟨![0, 1, 1], ![0, 1, -1], fun x => if x = 2 then 1 else 2, id⟩

/-- **C135**, with a tie the order of the neighbour list decides: cell 0 lies above the neighbouring cells 1 and 2, which are
equally low. -/
theorem C135_ties :
    flowDirections 9 triG ![some 1, some 0, some 0] 100 (table ![[1, 2], [0, 2], [0, 1]]) (1/10) [] = .ok ![1, 1, 2] ∧
    flowDirections 9 triG ![some 1, some 0, some 0] 100 (table ![[2, 1], [0, 2], [0, 1]]) (1/10) [] = .ok ![2, 1, 2] := by
  constructor <;> decide +kernel

/-- a river of four cells, numbered from the other end -/
def rowG : Geo 4 ℚ := ⟨![0, 1, 2, 3], ![0, 0, 0, 0], fun x => if x = 1 then 1 else 2, id⟩
def rowRev : Fin 4 ≃ Fin 4 := Fin.revPerm
def rowNbr : Fin 4 → List (Fin 4) := ![[1], [0, 2], [1, 3], [2]]
theorem row_renumbered : Renumbered rowRev rowG rowG ![some 4, some 3, some 2, some 5] ![some 5, some 2, some 3, some 4]
    rowNbr ![[1], [2, 0], [3, 1], [2]] [3] [0] where
  rnd := rfl
  dist := by decide +kernel
  elev := by decide +kernel
  adj := by decide +kernel
  nodup := by decide +kernel
  nodup' := by decide +kernel
  term := by decide +kernel
  inRange := by intro t ht; simp only [List.mem_singleton] at ht; subst ht; decide
  inRange' := by intro t ht; simp only [List.mem_singleton] at ht; subst ht; decide
theorem row_below : Below rowG ![some 4, some 3, some 2, some 5] (1/10) 100 rowNbr := below_of (by decide +kernel)
example (n m : Fin 4) : (![1, 2, 2, 3] : Fin 4 → ℤ) n = ((m : ℕ) : ℤ) ↔
    (![0, 1, 1, 2] : Fin 4 → ℤ) (rowRev n) = ((rowRev m : ℕ) : ℤ) :=
  C135_numbering (fuel := 9) (fuel' := 9) row_renumbered row_below (by
    intro n _
    have : ∀ n : Fin 4, ∃ m ∈ rowNbr n, (![some 4, some 3, some 2, some 5] : Fin 4 → Option ℚ) m ≠ none := by decide +kernel
    exact this n) (noTies_of row_below (by decide +kernel)) (by decide +kernel) (by decide +kernel) n m

end Dany.Dirs
