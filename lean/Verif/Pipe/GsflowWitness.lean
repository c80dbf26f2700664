import Verif.Pipe.Gsflow
import Verif.Pipe.RectWitness

/-!
# C168 on a concrete structured grid
-/

namespace Dany.Pipe

open Flow

/-- the grid of `layout13` for SFR, elevations as given -/
noncomputable def G13 : Rdata.SGrid (1 * 3) ℝ :=
  ⟨3, fun n => n.val, fun _ => 0, fun n => some (dem13 n), fun _ => 1, fun _ => 1, fun x => x⟩

/-- non-vacuity of `C168_structured`, including the condition on the terminal cells -/
example : ∃ (out : Fin (1 * 3) → ℤ) (facc : Fin (1 * 3) → ℝ) (sa : Fin (1 * 3) → ℤ),
    Delin.delineate (fun n => some (facc n)) ⟨out, none, none⟩ (.number 0) none = .ok (⟨out, some sa, none⟩, sa) ∧
    ((∃ n, out n ≠ ((n : ℕ) : ℤ) ∧ 0 ≤ facc n) → ∃ o' bd q' rows segs irun,
      Prms.builder 9 9 false (slopeTable layout13.geo (Dirs.filled dem13) (1/1000000) 10000000000 (nbrs (rectGrid 1 3)))
        ⟨out, fun n => layout13.geo.xc n, fun n => layout13.geo.yc n, Dirs.filled dem13, fun _ => 1⟩ ⟨out, some sa, none⟩ none (fun _ => true) true true = .ok (o', bd) ∧
      (⟨out, some sa, none⟩ : Rdata.Obj (1 * 3)).builder 9 9 9 G13 none none none true true [] =
        .ok (q', rows, segs, irun) ∧ bd.nsegments = segs.length) := by
  obtain ⟨f, out, h1, _, h3⟩ := C168_structured (g := rectGrid 1 3) (L := layout13) (eps := 1/100) (flood := 0)
    (big := 10000000000) (thr := 1/1000000) (b := 1) (lo := 1) (hi := 3) (dem := dem13) (queen_rect 1 3) rfl (by norm_num)
    (by norm_num) one_pos layout13_r (fun _ => le_refl _) (by norm_num) lo13 hi13 (by norm_num) (by norm_num)
  have hf : f = dem13 := fill13 (h1 4 (by norm_num))
  subst hf
  obtain ⟨facc, _, h4⟩ := h3 (clean13 _ rfl)
  obtain ⟨sa, hsa, h5⟩ := h4 0
  refine ⟨out, facc, sa, hsa, fun hn => ?_⟩
  have hl : Seg.nSeg out sa + 1 ≤ 9 := by
    have h1 := Prms.nSeg_le out sa
    have h2 : Reach.nStream sa ≤ 1 * 3 := by
      unfold Reach.nStream
      exact (Finset.card_le_univ _).trans (by simp)
    omega
  obtain ⟨o', bd, q', rows, segs, irun, a1, a2, a3, _⟩ :=
    h5 hn 9 hl G13 ⟨out, fun n => layout13.geo.xc n, fun n => layout13.geo.yc n, Dirs.filled dem13, fun _ => 1⟩ rfl (fun _ => true) true true 9 (by norm_num)
  exact ⟨o', bd, q', rows, segs, irun, a1, a2, a3⟩

end Dany.Pipe
