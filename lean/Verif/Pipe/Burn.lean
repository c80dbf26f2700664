import Verif.Pipe.Witness
import Verif.Dirs.Burn

/-!
# C173 after filling
-/

namespace Dany.Pipe

variable {N : ℕ} {K : Type*} [Field K] [LinearOrder K] [IsStrictOrderedRing K]
  {g : Flood.Grid N} {mask : Option (Fin N → Bool)} {f : Fin N → K} {terminals : List ℤ} {G : Dirs.Geo N K}
  {thr big flood : K} {fuel : ℕ} {raise : K → K} {dem : Fin N → K} {method : String}

/-- **C173** (after filling).  After `fill_sinks` with method "priority" and a strictly raising eps, with the terminal
cells of C99, `burn_threshold` does nothing: `flow_directions` gives the same result for every value. -/
theorem C173_filled (hstrict : ∀ x, x < raise x) (heff : Flood.effective mask method = .priority)
    (hfill : Flood.fillSinks fuel raise flood g dem mask method = .ok f)
    (hg : GoodGrid g mask) (he : GoodEnds g mask f terminals) (hs : Dirs.Sound G (Dirs.filled f) (nbrs g))
    (hb : Dirs.Below G (Dirs.filled f) thr big (nbrs g))
    (hend : Dirs.CleanEnds G (Dirs.filled f) thr terminals (nbrs g)) (thr' : K) (fuel' : ℕ) :
    Dirs.flowDirections fuel' G (Dirs.filled f) big (Dirs.table (nbrs g)) thr' terminals =
      Dirs.flowDirections fuel' G (Dirs.filled f) big (Dirs.table (nbrs g)) thr terminals :=
  Dirs.C173_same he.range hb (hasNbr hg) (nodup_nbrs hg) hs
    (allFall (fun n => Flood.C03_drains_strictly hstrict hg.symm heff hfill n (hg.conn n)) he) hend thr' fuel'

-- the filled grid of C99
example (t : ℚ) : Dirs.flowDirections 50 Dirs.geo44 (Dirs.filled fillC) Dirs.big (Dirs.table (nbrs Flood.g44)) t [15] =
    .ok fdE :=
  (C173_filled Flood.rs_lt (by decide +kernel) fillRunC good44 endsC Dirs.sound44 belowC cleanC t 50).trans runE

end Dany.Pipe
