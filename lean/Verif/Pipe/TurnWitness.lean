import Verif.Pipe.Turn
import Verif.Pipe.MirrorWitness

/-!
# C208: one concrete case, a row of three cells that becomes a column
-/

namespace Dany.Pipe

open Flow

/-- the same cells one below the other -/
noncomputable def layoutCol : Layout 3 1 := ⟨fun _ => 1, fun k => if k = 1 then 2 else 1, 0, 0, 1, 0, by norm_num⟩

/-- the valley from north to south -/
noncomputable def demCol : Fin (3 * 1) → ℝ := dem13

/-- a terminating accumulation on any directions of this kind -/
private theorem accRuns {nrow ncol : ℕ} (h2 : 2 ≤ nrow * ncol) {L : Layout nrow ncol} {dem : Fin (nrow * ncol) → ℝ} {ts : List ℤ}
    {out : Fin (nrow * ncol) → ℤ} {fuel k : ℕ} (hk : nrow * ncol + 1 ≤ k) {thr big : ℝ} (hts : Dirs.InRange (nrow * ncol) ts)
    (hb : Dirs.Below L.geo (Dirs.filled dem) thr big (nbrs (rectGrid nrow ncol)))
    (hnt : Dirs.NoTies L.geo (Dirs.filled dem) thr (nbrs (rectGrid nrow ncol)))
    (ho : Dirs.flowDirections fuel L.geo (Dirs.filled dem) big (Dirs.table (nbrs (rectGrid nrow ncol))) thr ts = .ok out) :
    ∃ facc, Acc.flowAccumulation k out (fun n => L.delr (colOf n) * L.delc (rowOf n)) false = .ok facc := by
  have hg := C160_good (queen_rect nrow ncol) (rfl : (rectGrid nrow ncol).iverts = _) h2 (mask := none) (by simp)
  have hn : Dirs.HasNbr (Dirs.filled dem) (nbrs (rectGrid nrow ncol)) := by
    intro n _
    obtain ⟨m, hm⟩ := List.exists_mem_of_ne_nil _ (hg.some n)
    exact ⟨m, hm, by simp [Dirs.filled]⟩
  have hval := Dirs.C135_value hts hb hn (nodup_nbrs hg) hnt ho
  choose d hd _ using hval
  obtain ⟨facc, h⟩ := Acc.C31_terminates (fdir := out)
    (fun u => by have := hd u; have := (d u).isLt; omega) (fun n => L.delr (colOf n) * L.delc (rowOf n)) false
  exact ⟨facc, h k (by omega)⟩

/-- non-vacuity of `C208_chain`: all its conditions hold of a row of three cells draining east and of the column draining
south -/
example : ∃ (f : Fin (1 * 3) → ℝ) (f' : Fin (3 * 1) → ℝ) (out : Fin (1 * 3) → ℤ) (out' : Fin (3 * 1) → ℤ)
    (facc : Fin (1 * 3) → ℝ) (facc' : Fin (3 * 1) → ℝ),
    Flood.fillSinks 4 (· + (1/100 : ℝ)) 3 (rectGrid 1 3) dem13 none "complete" = .ok f ∧
    Flood.fillSinks 4 (· + (1/100 : ℝ)) 3 (rectGrid 3 1) demCol none "complete" = .ok f' ∧
    Dirs.flowDirections 41 layout13.geo (Dirs.filled f) 10000000000 (Dirs.table (nbrs (rectGrid 1 3))) (1/1000000) [2] = .ok out ∧
    Dirs.flowDirections 41 layoutCol.geo (Dirs.filled f') 10000000000 (Dirs.table (nbrs (rectGrid 3 1))) (1/1000000) [2] = .ok out' ∧
    Acc.flowAccumulation 4 out (fun n => layout13.delr (colOf n) * layout13.delc (rowOf n)) false = .ok facc ∧
    Acc.flowAccumulation 4 out' (fun n => layoutCol.delr (colOf n) * layoutCol.delc (rowOf n)) false = .ok facc' ∧
    ∃ σ : Fin (1 * 3) ≃ Fin (3 * 1), Turn σ false false ∧ (∀ n, f' (σ n) = f n) ∧
      ∃ (d : Fin (1 * 3) → Fin (1 * 3)) (d' : Fin (3 * 1) → Fin (3 * 1)), Legal out d ∧ Legal out' d' ∧
      (∀ n, d' (σ n) = σ (d n)) ∧ ∀ n, ¬ OnCycle d n → facc' (σ n) = facc n := by
  have hσ : Turn (nrow := 1) (ncol := 3) (Equiv.refl (Fin 3)) false false := ⟨by decide, by decide⟩
  have run : ∀ (nrow ncol : ℕ) (dem : Fin (nrow * ncol) → ℝ), nrow = 1 ∨ ncol = 1 → nrow * ncol < 4 →
      Flood.fillSinks 4 (· + (1/100 : ℝ)) 3 (rectGrid nrow ncol) dem none "complete" = .ok dem := by
    intro nrow ncol dem h1 h4
    have heff : Flood.effective (none : Option (Fin (nrow * ncol) → Bool)) "complete" = .complete := by
      have hs : ("complete" : String).toLower = "complete" := by decide +kernel
      simp [Flood.effective, hs]
    have hedge : ∀ n, Edge.OnEdge (rectGrid nrow ncol).iverts n := fun n =>
      (onEdge_iff rfl n).2 (by have := rowOf_lt n; have := colOf_lt n; omega)
    obtain ⟨f, hf⟩ := Flood.C05_terminates (raise := (· + (1/100 : ℝ))) (flood := 3) (g := rectGrid nrow ncol) (dem := dem)
      (mask := none) (method := "complete") (fun x => by norm_num) (fun n => by simp [rectGrid, Edge.structuredVerts])
      (by rw [heff]; decide)
    have h := hf 4 (by omega)
    have := Flood.C118_complete (queen_rect nrow ncol).symm heff (fun n _ => .outlet (hedge n)) h
    rw [h, this]
  have hcol : ∀ k, 1 ≤ layoutCol.delc k := fun k => by unfold layoutCol; dsimp only; split <;> norm_num
  obtain ⟨out, ho⟩ := C160_returns (g := rectGrid 1 3) (L := layout13) (dem := dem13) (lo := 1) (hi := 3) (b := 1)
    (big := 10000000000) (thr := 1/1000000) (queen_rect 1 3) rfl (by norm_num) one_pos layout13_r (fun _ => le_refl _) lo13 hi13
    (by norm_num) (by norm_num) (terminals := [2]) (by unfold Dirs.InRange; decide)
  obtain ⟨out', ho'⟩ := C160_returns (g := rectGrid 3 1) (L := layoutCol) (dem := demCol) (lo := 1) (hi := 3) (b := 1)
    (big := 10000000000) (thr := 1/1000000) (queen_rect 3 1) rfl (by norm_num) one_pos (fun _ => le_refl _) hcol lo13 hi13
    (by norm_num) (by norm_num) (terminals := [2]) (by unfold Dirs.InRange; decide)
  have hb := below_rect (g := rectGrid 1 3) (L := layout13) (f := dem13) (lo := 1) (hi := 3) (b := 1)
    (big := 10000000000) (thr := 1/1000000) (queen_rect 1 3) rfl one_pos layout13_r (fun _ => le_refl _) lo13 hi13 (by norm_num)
  have hb' := below_rect (g := rectGrid 3 1) (L := layoutCol) (f := demCol) (lo := 1) (hi := 3) (b := 1)
    (big := 10000000000) (thr := 1/1000000) (queen_rect 3 1) rfl one_pos (fun _ => le_refl _) hcol lo13 hi13 (by norm_num)
  have hw : Flipped 1 false layout13.delc layoutCol.delr := fun k _ => by simp [layout13, layoutCol]
  have hw' : Flipped 3 false layout13.delr layoutCol.delc := fun k _ => by simp [layout13, layoutCol]
  have hnt' : Dirs.NoTies layoutCol.geo (Dirs.filled demCol) (1/1000000) (nbrs (rectGrid 3 1)) := by
    have back : ∀ (n t : Fin 3), Dirs.Steepest layoutCol.geo (Dirs.filled demCol) (1/1000000) (nbrs (rectGrid 3 1)) n t →
        Dirs.Steepest layout13.geo (Dirs.filled dem13) (1/1000000) (nbrs (rectGrid 1 3)) n t := by
      have hadj : ∀ (a b : Fin 3), b ∈ nbrs (rectGrid 3 1) a ↔ b ∈ nbrs (rectGrid 1 3) a := by decide +kernel
      have hslope : ∀ (a b : Fin 3) s, Dirs.Slope layoutCol.geo (Dirs.filled demCol) (1/1000000) a b s ↔
          Dirs.Slope layout13.geo (Dirs.filled dem13) (1/1000000) a b s := by
        intro a b s
        unfold Dirs.Slope
        have hd : layoutCol.geo.dist a b = layout13.geo.dist a b := turn_dist hσ hw hw' a b
        rw [← hd]
        rfl
      rintro n t ⟨h1, s, h2, h3⟩
      exact ⟨(hadj _ _).1 h1, s, (hslope _ _ _).1 h2, fun m hm r hr => h3 m ((hadj _ _).2 hm) r ((hslope _ _ _).2 hr)⟩
    intro n t m h1 h2
    exact noTies13 _ rfl _ _ _ (back _ _ h1) (back _ _ h2)
  obtain ⟨facc, ha⟩ := accRuns (by norm_num) (k := 4) (by norm_num) (by unfold Dirs.InRange; decide) hb (noTies13 _ rfl) (ho 41 (by norm_num))
  obtain ⟨facc', ha'⟩ := accRuns (by norm_num) (k := 4) (by norm_num) (by unfold Dirs.InRange; decide) hb' hnt' (ho' 41 (by norm_num))
  refine ⟨dem13, demCol, out, out', facc, facc', run 1 3 _ (by norm_num) (by norm_num), run 3 1 _ (by norm_num) (by norm_num),
    ho 41 (by norm_num), ho' 41 (by norm_num), ha, ha', _, hσ, ?_⟩
  exact C208_chain hσ (queen_rect 1 3) rfl (queen_rect 3 1) rfl (by norm_num) hw hw' (by norm_num) (fun _ => rfl) hi13
    (.inl (by decide +kernel)) (run 1 3 _ (by norm_num) (by norm_num)) (run 3 1 _ (by norm_num) (by norm_num))
    hb (noTies13 _ rfl) (by unfold Dirs.InRange; decide) (by unfold Dirs.InRange; decide) (by decide) (ho 41 (by norm_num))
    (ho' 41 (by norm_num)) ha ha'

end Dany.Pipe
