import Verif.Pipe.Props
import Verif.Dirs.DrainWitness

/-!
# C98 is false; a concrete chain for C99
-/

namespace Dany.Pipe

open Flow

/-- **C98** as one would expect it: after `fill_sinks` with method "priority" and a strictly raising eps on a
good grid, `flow_directions()` without terminal cells, if it returns cell numbers, has no circles. -/
def NoCircles (N : ℕ) : Prop :=
  ∀ (g : Flood.Grid N) (G : Dirs.Geo N ℚ) (dem f : Fin N → ℚ) (raise : ℚ → ℚ) (flood thr big : ℚ)
    (fuel fuel' : ℕ) (out : Fin N → ℤ) (d : Fin N → Fin N), (∀ x, x < raise x) → GoodGrid g none → Dirs.Sound G (Dirs.filled f) (nbrs g) →
    Flood.fillSinks fuel raise flood g dem none "priority" = .ok f →
    Dirs.Below G (Dirs.filled f) thr big (nbrs g) → Dirs.NoTies G (Dirs.filled f) thr (nbrs g) →
    Dirs.flowDirections fuel' G (Dirs.filled f) big (Dirs.table (nbrs g)) thr [] = .ok out →
    Legal out d → ∀ n, ¬ OnCycle d n

theorem edges44 {n : Fin 16} : Edge.OnEdge Flood.g44.iverts n ↔
    n ∈ ([0, 1, 2, 3, 4, 7, 8, 11, 12, 13, 14, 15] : List (Fin 16)) := by
  have h : Edge.edgeNodes Flood.g44.iverts = .ok [0, 1, 2, 3, 4, 7, 8, 11, 12, 13, 14, 15] := by
    decide +kernel
  exact ((Edge.C15_edge_nodes h).2 n).symm

theorem good44 : GoodGrid Flood.g44 none := by
  refine ⟨Flood.symm44, by decide +kernel, by decide +kernel, fun n => ?_⟩
  have : ∀ n : Fin 16, n ∈ ([0, 1, 2, 3, 4, 7, 8, 11, 12, 13, 14, 15] : List (Fin 16)) ∨
      ∃ c : Fin 16, c ∈ ([0, 1, 2, 3, 4, 7, 8, 11, 12, 13, 14, 15] : List (Fin 16)) ∧ n.val ∈ Flood.g44.nbr c := by
    decide +kernel
  rcases this n with h | ⟨c, h1, h2⟩
  · exact .seed (edges44.2 h)
  · exact .step (.seed (edges44.2 h1)) h2

/-- two low cells on the edge, in opposite corners -/
def demC : Fin 16 → ℚ :=
  ![0, 10, 21, 33, 11, 23, 36, 41, 22, 35, 1, 70, 34, 43, 71, 2]
/-- the pit in cell 10 filled -/
def fillC : Fin 16 → ℚ :=
  ![0, 10, 21, 33, 11, 23, 36, 41, 22, 35, 5/2, 70, 34, 43, 71, 2]
def fdC : Fin 16 → ℤ := ![0, 0, 1, 2, 0, 0, 10, 10, 4, 10, 15, 15, 8, 10, 15, 10]
def nxC : Fin 16 → Fin 16 := ![0, 0, 1, 2, 0, 0, 10, 10, 4, 10, 15, 15, 8, 10, 15, 10]

theorem fillRunC : Flood.fillSinks 17 Flood.rs 1000 Flood.g44 demC none "priority" = .ok fillC := by
  decide +kernel
theorem belowC : Dirs.Below Dirs.geo44 (Dirs.filled fillC) Dirs.thr Dirs.big (nbrs Flood.g44) :=
  Dirs.below_of (by decide +kernel)
theorem noTiesC : Dirs.NoTies Dirs.geo44 (Dirs.filled fillC) Dirs.thr (nbrs Flood.g44) :=
  Dirs.noTies_of belowC (by decide +kernel)
theorem runC : Dirs.flowDirections 50 Dirs.geo44 (Dirs.filled fillC) Dirs.big (Dirs.table (nbrs Flood.g44))
    Dirs.thr [] = .ok fdC := by decide +kernel

/-- **C98 is false**: cell 15, an outlet lower than its neighbours but not the lowest of the grid, flows
uphill to cell 10, which flows back. -/
theorem C98_refuted : ¬ NoCircles 16 := by
  intro h
  refine h Flood.g44 Dirs.geo44 demC fillC Flood.rs 1000 Dirs.thr Dirs.big 17 50 fdC nxC Flood.rs_lt good44
    Dirs.sound44 fillRunC belowC noTiesC runC ?_ 10 ⟨?_, 1, ?_⟩
  · unfold Legal; decide +kernel
  · decide +kernel
  · decide +kernel

-- C98, the part that holds: on the grid of C27 the only outlet without lower neighbour is the lowest cell
example (n : Fin 16) : ¬ OnCycle (![5, 5, 6, 7, 5, 10, 10, 10, 5, 10, 15, 15, 9, 10, 15, 15] : Fin 16 → Fin 16) n := by
  refine C98_no_circles_partial (g := Flood.g44) (f := Flood.out44) (by norm_num) Flood.rs_lt
    (by decide +kernel) Flood.run_priority good44 Dirs.sound44 (fun n _ h => ?_) Dirs.below44
    (fun n t _ _ h1 => Dirs.easyTie_of_unique fun m h2 => Dirs.noTies44 n m t h2 h1) Dirs.run44 (by unfold Legal; decide +kernel) n
  have : ∀ n : Fin 16, (∀ m ∈ nbrs Flood.g44 n, Flood.out44 n ≤ Flood.out44 m) →
    ∀ m, Flood.out44 n ≤ Flood.out44 m := by decide +kernel
  exact this n h

/-! ### C99: the same grid with cell 15 named terminal -/

theorem endsC : GoodEnds Flood.g44 none fillC [15] := by
  refine ⟨by intro t h; simp at h; omega, fun n hn => ?_, fun n _ hn => ?_⟩
  · have : n = 15 := Fin.ext (by simp at hn; omega)
    rw [this]
    exact edges44.2 (by decide)
  · have : ∀ n : Fin 16, (∀ m ∈ nbrs Flood.g44 n, fillC n ≤ fillC m) →
        ((n : ℕ) : ℤ) ∈ ([15] : List ℤ) ∨ ∀ m, fillC n ≤ fillC m := by decide +kernel
    exact this n hn

theorem cleanC : Dirs.CleanEnds Dirs.geo44 (Dirs.filled fillC) Dirs.thr [15] (nbrs Flood.g44) :=
  fun n t _ _ h1 => Dirs.easyTie_of_unique fun m h2 => noTiesC n m t h2 h1

-- the chain runs: all hypotheses of the four stages hold
example : ∃ B out, (∀ fuel', B ≤ fuel' →
      Dirs.flowDirections fuel' Dirs.geo44 (Dirs.filled fillC) Dirs.big (Dirs.table (nbrs Flood.g44)) Dirs.thr
        [15] = .ok out) ∧ ∃ d, Network Flood.g44 none out d ∧
      ∃ facc, (∀ fuel, 16 < fuel → Acc.flowAccumulation fuel out (fun _ => (1 : ℚ)) false = .ok facc) ∧
        ∑ o ∈ Finset.univ.filter (fun o => d o = o), facc o = ∑ _u : Fin 16, 1 := by
  obtain ⟨B, out, h1, d, h2, _⟩ := C99_directions (thr := Dirs.thr) (by norm_num) Flood.rs_lt
    (by decide +kernel) fillRunC good44 endsC Dirs.sound44 belowC ⟨0, by decide +kernel⟩ cleanC
  obtain ⟨facc, h3, _, h4⟩ := C99_accumulation h2 (fun _ => (1 : ℚ))
  exact ⟨B, out, h1, d, h2, facc, h3, h4⟩

def fdE : Fin 16 → ℤ := ![0, 0, 1, 2, 0, 0, 10, 10, 4, 10, 15, 15, 8, 10, 15, 15]
def nxE : Fin 16 → Fin 16 := ![0, 0, 1, 2, 0, 0, 10, 10, 4, 10, 15, 15, 8, 10, 15, 15]
theorem runE : Dirs.flowDirections 50 Dirs.geo44 (Dirs.filled fillC) Dirs.big (Dirs.table (nbrs Flood.g44))
    Dirs.thr [15] = .ok fdE := by decide +kernel

theorem networkE : Network Flood.g44 none fdE nxE := by
  obtain ⟨d, h2, _⟩ := C99_network (by norm_num) Flood.rs_lt (by decide +kernel) fillRunC good44 endsC Dirs.sound44 belowC
    cleanC runE
  have hl : Legal fdE nxE := by unfold Legal; decide +kernel
  have : d = nxE := funext fun n => Fin.ext (by have := h2.legal n; have := hl n; omega)
  rw [← this]; exact h2

example : ∃ facc, (∀ fuel, 16 < fuel → Acc.flowAccumulation fuel fdE (fun _ => (1 : ℚ)) false = .ok facc) ∧
    facc 10 = ∑ _u ∈ upstream nxE 10, 1 := by
  obtain ⟨facc, h3, h4, _⟩ := C99_accumulation networkE (fun _ => (1 : ℚ))
  exact ⟨facc, h3, h4 10⟩
def faccE : Fin 16 → ℚ := ![8, 3, 2, 1, 3, 1, 1, 1, 2, 1, 5, 1, 1, 1, 1, 8]
theorem accRunE : Acc.flowAccumulation 17 fdE (fun _ => (1 : ℚ)) false = .ok faccE := by decide +kernel
-- streams from an upstream area of 5: cells 10 → 15, and 0
example : ∃ o' sa, Delin.delineate (fun n => some (faccE n)) ⟨fdE, none, none⟩ (.number 5) none = .ok (o', sa) ∧
    ∀ n, sa n = 1 → sa (nxE n) = 1 := by
  obtain ⟨o', sa, h1, _, h2⟩ := C99_streams networkE (fun _ => zero_le_one) accRunE 5
  obtain ⟨o'', gr, sa', _, _, h3⟩ := h2 _ (Reach.fits_of_count le_rfl)
  exact ⟨o', sa, h1, fun n hn => (h3 n hn).2.2.1⟩
example : ((Delin.delineate (fun n => some (faccE n)) ⟨fdE, none, none⟩ (.number 5) none).map
    fun r => List.ofFn r.2) = .ok [1, 0, 0, 0, 0, 0, 0, 0, 0, 0, 1, 0, 0, 0, 0, 1] := by decide +kernel
example : (Basin.watershed 33 ⟨fdE, none⟩ 10 (fun _ => 0)).map (fun r => List.ofFn r.2) =
    .ok [0, 0, 0, 0, 0, 0, 1, 1, 0, 1, 1, 0, 0, 1, 0, 0] := by decide +kernel
example : Reaches nxE 6 10 := ⟨1, rfl⟩

end Dany.Pipe
