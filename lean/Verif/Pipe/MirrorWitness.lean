import Verif.Pipe.Mirror

/-!
# C205: mirror images exist on every grid, and one concrete case
-/

namespace Dany.Pipe

open Flow

/-- Every structured grid has its mirror images. -/
theorem C205_mirrors (nrow ncol : ℕ) (ns ew : Bool) :
    ∃ σ : Fin (nrow * ncol) ≃ Fin (nrow * ncol), Mirror σ ns ew := by
  have hex : ∀ n : Fin (nrow * ncol), ∃ m : Fin (nrow * ncol),
      rowOf m = (if ns then nrow - 1 - rowOf n else rowOf n) ∧ colOf m = if ew then ncol - 1 - colOf n else colOf n := by
    intro n
    have h1 := rowOf_lt n
    have h2 := colOf_lt n
    exact cell_mk (by split <;> omega) (by split <;> omega)
  choose f hf using hex
  have inv : Function.Involutive f := by
    intro n
    have h1 := rowOf_lt n
    have h2 := colOf_lt n
    refine cell_ext ?_ ?_
    · rw [(hf (f n)).1, (hf n).1]; split <;> omega
    · rw [(hf (f n)).2, (hf n).2]; split <;> omega
  exact ⟨inv.toPerm, fun n => (hf n).1, fun n => (hf n).2⟩

/-- the same row of cells, unturned and elsewhere -/
noncomputable def layout31 : Layout 1 3 := ⟨fun k => if k = 1 then 2 else 1, fun _ => 1, 0, 0, 1, 0, by norm_num⟩

/-- the valley sloping the other way -/
noncomputable def dem31 : Fin (1 * 3) → ℝ := fun n => dem13 n.rev

theorem noTies13 (thr : ℝ) (hthr : thr = 1/1000000) :
    Dirs.NoTies layout13.geo (Dirs.filled dem13) thr (nbrs (rectGrid 1 3)) := by
  subst hthr
  intro n t m hs hs'
  have hn : n = 0 ∨ n = 1 ∨ n = 2 := (by decide : ∀ n : Fin (1 * 3), n = 0 ∨ n = 1 ∨ n = 2) n
  have hsl := hs.1
  have hsm := hs'.1
  rcases hn with rfl | rfl | rfl
  · rw [nbrs13.1] at hsl hsm
    simp only [List.mem_singleton] at hsl hsm
    rw [hsl, hsm]
  · rw [nbrs13.2.1] at hsl hsm
    have no : ∀ x, Dirs.Steepest layout13.geo (Dirs.filled dem13) (1/1000000) (nbrs (rectGrid 1 3)) 1 x → x ≠ 0 := by
      rintro x ⟨_, s, ⟨a, b, ha, hb, rfl⟩, hmin⟩ rfl
      have := hmin 2 (by rw [nbrs13.2.1]; decide) _ ⟨_, _, rfl, rfl, rfl⟩
      simp only [Dirs.filled, Option.some.injEq] at ha hb
      subst ha hb
      rw [dist13.1, dist13.2, val13.1, val13.2.1, val13.2.2] at this
      unfold Dirs.rise layout13 Layout.geo at this
      norm_num at this
    have h0 := no t hs
    have h0' := no m hs'
    simp only [List.mem_cons, List.not_mem_nil, or_false] at hsl hsm
    rw [hsl.resolve_left h0, hsm.resolve_left h0']
  · rw [nbrs13.2.2] at hsl hsm
    simp only [List.mem_singleton] at hsl hsm
    rw [hsl, hsm]

/-- non-vacuity of `C205_chain`: all its conditions hold of a row of three cells draining east, and of the row draining
west -/
example : ∃ (f f' : Fin (1 * 3) → ℝ) (out out' : Fin (1 * 3) → ℤ) (facc facc' : Fin (1 * 3) → ℝ),
    Flood.fillSinks 4 (· + (1/100 : ℝ)) 3 (rectGrid 1 3) dem13 none "complete" = .ok f ∧
    Flood.fillSinks 4 (· + (1/100 : ℝ)) 3 (rectGrid 1 3) dem31 none "complete" = .ok f' ∧
    Dirs.flowDirections 41 layout13.geo (Dirs.filled f) 10000000000 (Dirs.table (nbrs (rectGrid 1 3))) (1/1000000) [2] = .ok out ∧
    Dirs.flowDirections 41 layout31.geo (Dirs.filled f') 10000000000 (Dirs.table (nbrs (rectGrid 1 3))) (1/1000000) [0] = .ok out' ∧
    Acc.flowAccumulation 4 out (fun n => layout13.delr (colOf n) * layout13.delc (rowOf n)) false = .ok facc ∧
    Acc.flowAccumulation 4 out' (fun n => layout31.delr (colOf n) * layout31.delc (rowOf n)) false = .ok facc' ∧
    (∀ n, f' n.rev = f n) ∧ ∃ d d' : Fin (1 * 3) → Fin (1 * 3), Legal out d ∧ Legal out' d' ∧
      (∀ n, d' n.rev = (d n).rev) ∧ ∀ n, ¬ OnCycle d n → facc' n.rev = facc n := by
  have heff : Flood.effective (none : Option (Fin (1 * 3) → Bool)) "complete" = .complete := by decide +kernel
  have hq := queen_rect 1 3
  have hedge : ∀ n, Edge.OnEdge (rectGrid 1 3).iverts n := fun n =>
    (onEdge_iff rfl n).2 (.inl (by have := rowOf_lt n; omega))
  have run : ∀ dem : Fin (1 * 3) → ℝ, Flood.fillSinks 4 (· + (1/100 : ℝ)) 3 (rectGrid 1 3) dem none "complete" = .ok dem := by
    intro dem
    obtain ⟨f, hf⟩ := Flood.C05_terminates (raise := (· + (1/100 : ℝ))) (flood := 3) (g := rectGrid 1 3) (dem := dem)
      (mask := none) (method := "complete") (fun x => by norm_num) (by decide +kernel) (by rw [heff]; decide)
    have h := hf 4 (by norm_num)
    have := Flood.C118_complete hq.symm heff (fun n _ => .outlet (hedge n)) h
    rw [h, this]
  have hr : ∀ k, 1 ≤ layout31.delr k := fun k => by unfold layout31; dsimp only; split <;> norm_num
  have lo : ∀ n, 1 ≤ dem31 n := fun n => lo13 _
  have hi : ∀ n, dem31 n ≤ 3 := fun n => hi13 _
  obtain ⟨out, ho⟩ := C160_returns (g := rectGrid 1 3) (L := layout13) (dem := dem13) (lo := 1) (hi := 3) (b := 1)
    (big := 10000000000) (thr := 1/1000000) hq rfl (by norm_num) one_pos layout13_r (fun _ => le_refl _) lo13 hi13
    (by norm_num) (by norm_num) (terminals := [2]) (by unfold Dirs.InRange; decide)
  obtain ⟨out', ho'⟩ := C160_returns (g := rectGrid 1 3) (L := layout31) (dem := dem31) (lo := 1) (hi := 3) (b := 1)
    (big := 10000000000) (thr := 1/1000000) hq rfl (by norm_num) one_pos hr (fun _ => le_refl _) lo hi
    (by norm_num) (by norm_num) (terminals := [0]) (by unfold Dirs.InRange; decide)
  have hb := below_rect (g := rectGrid 1 3) (L := layout13) (f := dem13) (lo := 1) (hi := 3) (b := 1)
    (big := 10000000000) (thr := 1/1000000) hq rfl one_pos layout13_r (fun _ => le_refl _) lo13 hi13 (by norm_num)
  have hb' := below_rect (g := rectGrid 1 3) (L := layout31) (f := dem31) (lo := 1) (hi := 3) (b := 1)
    (big := 10000000000) (thr := 1/1000000) hq rfl one_pos hr (fun _ => le_refl _) lo hi (by norm_num)
  have range : ∀ (L : Layout 1 3) (dem : Fin (1 * 3) → ℝ) (ts : List ℤ) (out : Fin (1 * 3) → ℤ), Dirs.InRange (1 * 3) ts →
      Dirs.Below L.geo (Dirs.filled dem) (1/1000000) 10000000000 (nbrs (rectGrid 1 3)) →
      Dirs.NoTies L.geo (Dirs.filled dem) (1/1000000) (nbrs (rectGrid 1 3)) →
      Dirs.flowDirections 41 L.geo (Dirs.filled dem) 10000000000 (Dirs.table (nbrs (rectGrid 1 3))) (1/1000000) ts = .ok out →
      ∃ facc, Acc.flowAccumulation 4 out (fun n => L.delr (colOf n) * L.delc (rowOf n)) false = .ok facc := by
    intro L dem ts out hts hb hnt ho
    have hg := C160_good hq (rfl : (rectGrid 1 3).iverts = _) (by norm_num) (mask := none) (by simp)
    have hn : Dirs.HasNbr (Dirs.filled dem) (nbrs (rectGrid 1 3)) := by
      intro n _
      obtain ⟨m, hm⟩ := List.exists_mem_of_ne_nil _ (hg.some n)
      exact ⟨m, hm, by simp [Dirs.filled]⟩
    have hval := Dirs.C135_value hts hb hn (nodup_nbrs hg) hnt ho
    choose d hd _ using hval
    obtain ⟨facc, h⟩ := Acc.C31_terminates (fdir := out)
      (fun u => by have := hd u; have := (d u).isLt; omega) (fun n => L.delr (colOf n) * L.delc (rowOf n)) false
    exact ⟨facc, h 4 (by norm_num)⟩
  have hσ : Mirror (nrow := 1) (ncol := 3) Fin.revPerm false true := ⟨by decide, by decide⟩
  have hrev : ∀ n, dem31 (Fin.revPerm n) = dem13 n := fun n => by simp [dem31]
  have hw : Flipped 3 true layout13.delr layout31.delr := by
    intro k hk
    unfold layout13 layout31
    have : k = 0 ∨ k = 1 ∨ k = 2 := by omega
    rcases this with rfl | rfl | rfl <;> norm_num
  have hw' : Flipped 1 false layout13.delc layout31.delc := fun k _ => by simp [layout13, layout31]
  have hnt' : Dirs.NoTies layout31.geo (Dirs.filled dem31) (1/1000000) (nbrs (rectGrid 1 3)) := by
    have back : ∀ n t, Dirs.Steepest layout31.geo (Dirs.filled dem31) (1/1000000) (nbrs (rectGrid 1 3)) n t →
        Dirs.Steepest layout13.geo (Dirs.filled dem13) (1/1000000) (nbrs (rectGrid 1 3)) n.rev t.rev := by
      have hadj : ∀ a b, b ∈ nbrs (rectGrid 1 3) a → b.rev ∈ nbrs (rectGrid 1 3) a.rev := by decide +kernel
      have hslope : ∀ a b s, Dirs.Slope layout31.geo (Dirs.filled dem31) (1/1000000) a b s ↔
          Dirs.Slope layout13.geo (Dirs.filled dem13) (1/1000000) a.rev b.rev s := by
        intro a b s
        unfold Dirs.Slope
        have hd := mirror_dist hσ hw hw' a.rev b.rev
        simp only [Fin.revPerm_apply, Fin.rev_rev] at hd
        rw [← hd]
        rfl
      rintro n t ⟨h1, s, h2, h3⟩
      refine ⟨hadj _ _ h1, s, (hslope _ _ _).1 h2, fun m hm r hr => h3 m.rev ?_ r ?_⟩
      · have := hadj _ _ hm
        rwa [Fin.rev_rev] at this
      · rw [hslope, Fin.rev_rev]; exact hr
    intro n t m h1 h2
    exact Fin.rev_injective (noTies13 _ rfl _ _ _ (back _ _ h1) (back _ _ h2))
  obtain ⟨facc, ha⟩ := range layout13 dem13 [2] out (by unfold Dirs.InRange; decide) hb (noTies13 _ rfl) (ho 41 (by norm_num))
  obtain ⟨facc', ha'⟩ := range layout31 dem31 [0] out' (by unfold Dirs.InRange; decide) hb' hnt' (ho' 41 (by norm_num))
  refine ⟨dem13, dem31, out, out', facc, facc', run _, run _, ho 41 (by norm_num), ho' 41 (by norm_num), ha, ha', ?_⟩
  exact C205_chain hσ hq rfl hq rfl (by norm_num) hw hw' (by norm_num) hrev hi13 (.inl (by decide +kernel)) (run dem13) (run dem31)
    hb (noTies13 _ rfl) (by unfold Dirs.InRange; decide) (by unfold Dirs.InRange; decide) (by decide) (ho 41 (by norm_num)) (ho' 41 (by norm_num)) ha ha'

/-- **C205** is restricted to 'complete' and 'drain' because it is false of 'priority': the 3 × 4 grid turned by half a turn
gives the turned cell another elevation, 4 instead of 6. -/
theorem C205_priority_differs : ∃ (σ : Fin (3 * 4) ≃ Fin (3 * 4)) (dem dem' out out' : Fin (3 * 4) → ℚ), Mirror σ true true ∧
    (∀ n, dem' (σ n) = dem n) ∧ Flood.fillSinks 13 (· + 2) 100 (rectGrid 3 4) dem none "priority" = .ok out ∧
    Flood.fillSinks 13 (· + 2) 100 (rectGrid 3 4) dem' none "priority" = .ok out' ∧ out 6 = 6 ∧ out' (σ 6) = 4 :=
  ⟨Fin.revPerm, ![2, 9, 2, 6, 9, 2, 1, 9, 4, 9, 6, 9], ![9, 6, 9, 4, 9, 1, 2, 9, 6, 2, 9, 2],
    ![2, 9, 2, 6, 9, 4, 6, 9, 4, 9, 6, 9], ![9, 6, 9, 4, 9, 4, 4, 9, 6, 2, 9, 2], ⟨by decide +kernel, by decide +kernel⟩,
    by decide +kernel, by decide +kernel, by decide +kernel, by decide +kernel, by decide +kernel⟩

end Dany.Pipe
