import Verif.Rdata.Props

/-!
# Concrete networks for reach data, segment data and the builder
-/

namespace Dany.Rdata

open Seg

/-- a row of two unit cells -/
def G2 : SGrid 2 ℚ := ⟨2, ![0, 1], ![0, 0], ![some 5, some 4], fun _ => 1, fun _ => 1, fun x => x⟩

/-- two cells, the first flows to the second, which leaves the model -/
def o2 : Obj 2 := ⟨![1, -1], some ![1, 1], none⟩

/-- **C72 is false**: one segment of two reaches that ends in column 1 — `reach_data()` raises `KeyError`. -/
theorem C72_refuted : (o2.reachData 10 10 G2 none true).map (fun r => r.2.length) = .err .keyError := by
  decide +kernel

/-- an empty stream array raises `IndexError` -/
theorem C72_empty_refuted : ((⟨![1, -1], some ![0, 0], none⟩ : Obj 2).reachData 10 10 G2 none true).map
    (fun r => r.2.length) = .err .indexError := by
  decide +kernel

/-- a row of four unit cells; the square root of 4 is 2, that of 1 is 1 -/
def G4 : SGrid 4 ℚ :=
  ⟨4, ![0, 1, 2, 3], ![0, 0, 0, 0], ![some 10, some 9, some (17 / 2), some (17 / 2 - 1 / 4)], fun _ => 1,
    fun _ => 1, fun x => if x = 4 then 2 else x⟩

/-- the stream 1 → 2 → 3 -/
def o4 : Obj 4 := ⟨![1, 2, 3, -1], some ![0, 1, 1, 1], none⟩

theorem o4_sound : o4.Sound 10 10 := by
  intro net h
  cases h

/-- the network the call makes -/
theorem o4_network : (o4.network 10 10 none true).map (fun r => r.2) =
    .ok ([(1, 0)], [(1, 1, 1), (2, 1, 2), (3, 1, 3)]) := by
  decide +kernel

/-- the call succeeds: numbers (C71) -/
theorem o4_table : (o4.reachData 10 10 G4 none true).map
    (fun r => r.2.map fun x => [(x.reachID : ℤ), x.node, x.i, x.j, x.iseg, x.ireach]) =
      .ok [[1, 1, 0, 1, 1, 1], [2, 2, 0, 2, 1, 2], [3, 3, 0, 3, 1, 3]] := by
  decide +kernel

/-- lengths and slopes (C78) -/
theorem o4_lengths : (o4.reachData 10 10 G4 none true).map (fun r => r.2.map fun x => (x.rchlen, x.slope)) =
      .ok [(3 / 2, some (1 / 3)), (3 / 2, some (1 / 6)), (3 / 2, some (1 / 10000))] := by
  decide +kernel

/-- the segment table (C73) -/
theorem o4_segments : (o4.segmentData ℚ 10 10 none true).map (fun r => r.2.map fun s => (s.nseg, s.outseg)) =
    .ok [(1, 0)] := by
  decide +kernel

/-- **C80 is false**: cell 1 flows to cell 2, half a unit lower at distance 1; the builder gives it the slope
3/8 towards cell 3, the last of the table. -/
theorem C80_refuted_concrete : (o4.builder 10 10 10 G4 none none none true true []).map
    (fun r => r.2.1.map fun x => (x.node, x.slope)) =
      .ok [(1, some (3 / 8)), (2, some (1 / 4)), (3, some (1 / 1000))] := by
  decide +kernel

/-- **C69 is false**: a documented keyword is rejected. -/
theorem C69_refuted_concrete : (o4.builder 10 10 10 G4 none none none true true ["min_slope"]).map
    (fun r => r.2.1.length) = .err .valueError := by
  decide +kernel

/-- a table with `outreach` filled in gets the slopes towards the downstream reaches (C80_given_partial) -/
example : (o4.builder 10 10 10 G4
    (some [⟨1, 0, 0, 1, 1, 1, 1, none, none, 0, 0, 1, 2⟩, ⟨2, 0, 0, 2, 1, 2, 1, none, none, 0, 0, 2, 3⟩,
      ⟨3, 0, 0, 3, 1, 3, 1, none, none, 0, 0, 3, 4⟩]) none none true true []).map
    (fun r => r.2.1.map fun x => (x.node, x.strtop, x.slope)) =
      .ok [(1, some 9, some (1 / 2)), (2, some (17 / 2), some (1 / 4)),
        (3, some (17 / 2 - 1 / 4), some (1 / 1000))] := by
  decide +kernel

/-- a stale network: an object connected with one array ignores another (C79) -/
example : ∃ o, o4.reachData 10 10 G4 none true = .ok o ∧
    (o.1.reachData 10 10 G4 (some ![1, 1, 1, 1]) true).map (fun r => r.2.length) = .ok 3 := by
  rcases h : o4.reachData 10 10 G4 none true with r | e | _
  · refine ⟨r, rfl, ?_⟩
    have : ((o4.reachData 10 10 G4 none true).bind fun r =>
        (r.1.reachData 10 10 G4 (some ![1, 1, 1, 1]) true).map (fun r => r.2.length)) = .ok 3 := by
      decide +kernel
    rw [h] at this
    exact this
  · have := o4_table; rw [h] at this; cases this
  · have := o4_table; rw [h] at this; cases this

end Dany.Rdata
