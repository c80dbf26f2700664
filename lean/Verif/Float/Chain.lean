import Verif.Float.Steep

/-!
# Filling and routing in `float64` (C113)
-/

namespace Dany.Float

open Flow

variable {N : ℕ} {g : Flood.Grid N} {G : Dirs.Geo N ℚ} {mask : Option (Fin N → Bool)} {thr big : ℚ}
  {terminals : List ℤ} {fuel fuel' : ℕ} {out : Fin N → ℤ} {method : String} {pr : Promo}

/-- every double that is zero or at least `2^-848` in absolute value is a multiple of `2^-900` -/
theorem Grain.of_double {x : double.Num} (h : x.val = 0 ∨ 2 ^ (-848 : ℤ) ≤ |x.val|) : Grain x.val := by
  rcases h with h | h
  · exact ⟨0, by rw [h]; simp⟩
  · exact mul_of_ge x.2 (.inl h)

/-- **C113** (as C25).  In `float64` a cell that is not terminal and has a strictly lower neighbour flows to a
strictly lower neighbour, or holds the sink code; elevations are multiples of `2^-900` (as all doubles are that
are zero or not below `2^-848` in absolute value). -/
theorem C113_downhill {dem : Fin N → Option ℚ} {nbr : Fin N → List (Fin N)} (hM : Machine G nbr)
    (hgr : ∀ n a, dem n = some a → Grain a) (hr : Dirs.InRange N terminals) (hN : N < 1000000)
    (hbig : 0 < big) (h : Dirs.flowDirections fuel G dem big (Dirs.table nbr) thr terminals = .ok out)
    {n : Fin N} (hn : ¬ Dirs.Terminal dem terminals n) (hl : Dirs.HasLower dem nbr n) :
    out n = -2 ∨ ∃ m ∈ nbr n, out n = ((m : ℕ) : ℤ) ∧ ∃ a b, dem n = some a ∧ dem m = some b ∧ b < a :=
  Dirs.C25_downhill hr hN hbig (hM.sound hgr) h hn hl

/-- **C113** (as C99).  After `fill_sinks` with method "priority" and the default eps on a `float64` DEM, on a
grid from which all cells drain, with the outlets named terminal as in C99, in what `flow_directions` computes
in `float64` water from every cell runs strictly downhill to an outlet, and nothing runs in circles. -/
theorem C113_network (hM : Machine G (Pipe.nbrs g)) (hN : N < 1000000) {dem : Fin N → double.Num}
    (hdem : ∀ n, |(dem n).val| ≤ 10 ^ 10) (hgr : ∀ n, Grain (dem n).val)
    (heff : Flood.effective mask method = .priority) {f : Fin N → ℚ}
    (hfill : fillSinksF fuel double pr eps6 g dem mask method = .ok f)
    (hg : Pipe.GoodGrid g mask) (he : Pipe.GoodEnds g mask f terminals)
    (hb : Dirs.Below G (Dirs.filled f) thr big (Pipe.nbrs g))
    (hend : Dirs.CleanEnds G (Dirs.filled f) thr terminals (Pipe.nbrs g))
    (hrun : Dirs.flowDirections fuel' G (Dirs.filled f) big (Dirs.table (Pipe.nbrs g)) thr terminals
      = .ok out) :
    ∃ d : Fin N → Fin N, Pipe.Network g mask out d ∧
      ∀ n, d n ≠ n → (d n).val ∈ g.nbr n ∧ f (d n) < f n := by
  refine Pipe.network_of_downhill hN (fun n => ?_) hg he (hM.sound fun n a ha => ?_) hb hend hrun
  · exact C110_double (hN.le.trans (by norm_num)) hg.symm heff hdem hfill n (hg.conn n)
  · simp only [Dirs.filled, Option.some.injEq] at ha
    rw [← ha]
    exact grain_filled (by simp [heff]) hfill hgr n

/-- **C113**, the whole chain: on such a network the accumulation in `float64` succeeds, and streams
delineated from it by any threshold run on to an outlet. -/
theorem C113_streams {d : Fin N → Fin N} (hd : Pipe.Network g mask out d) {area : Fin N → double.Num}
    (hpos : ∀ u, 0 ≤ (area u).val) (asCells : Bool) (c : double.Num) :
    ∃ facc, (∀ fuel, N < fuel → Acc.flowAccumulation fuel out area asCells = .ok facc) ∧
      ∃ o' sa, Delin.delineate (fun n => some (facc n)) ⟨out, none, none⟩ (.number c) none = .ok (o', sa) ∧
        (∀ n, (sa n = 1 ∧ c.val ≤ (facc n).val) ∨ (sa n = 0 ∧ (facc n).val < c.val)) ∧
        ∀ n, sa n = 1 → ∃ e, Reaches d n e ∧ d e = e ∧ Flood.Outlet g mask e ∧
          ∀ m, Reaches d n m → sa m = 1 := by
  obtain ⟨facc, h⟩ := C114_terminates (fdir := out)
    (fun u => by have := hd.legal u; have := (d u).isLt; omega) area asCells
  obtain ⟨sa, e, hsa⟩ := Delin.C44_number (facc := fun n => some (facc n)) (o := ⟨out, none, none⟩) c
  refine ⟨facc, h, _, sa, e, fun n => ?_, fun n hn => ?_⟩
  · rcases le_or_gt c.val (facc n).val with hc | hc
    · exact .inl ⟨(hsa n).2.2 ⟨_, rfl, hc⟩, hc⟩
    · rcases (hsa n).1 with h1 | h1
      · obtain ⟨a, ha, hle⟩ := (hsa n).2.1 h1
        cases ha
        exact absurd hle (not_le.2 hc)
      · exact .inr ⟨h1, hc⟩
  · obtain ⟨x, h1, h2, h3⟩ := hd.ends n
    exact ⟨x, h1, h2, h3, fun m hm => C115_to_outlet (o := ⟨out, none, none⟩) hd.legal.resolves hpos
      (h (N + 1) (by omega)) e hd.acyclic hn hm⟩

end Dany.Float
