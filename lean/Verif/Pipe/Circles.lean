import Verif.Pipe.Props
import Verif.Pipe.Witness

/-!
# Property C98: where circles can be
-/

namespace Dany.Pipe

open Flow

variable {N : ℕ} {K : Type*} [Field K] [LinearOrder K] [IsStrictOrderedRing K]
variable {g : Flood.Grid N} {G : Dirs.Geo N K} {mask : Option (Fin N → Bool)} {dem f : Fin N → K}
  {raise : K → K} {flood thr big : K} {method : String} {terminals : List ℤ} {fuel fuel' : ℕ} {out : Fin N → ℤ}

/-- **C98**, where the circles are (partial): after filling, with terminal cells or without, every
circle of flow passes through an outlet that is a spurious terminal: it has no lower neighbour, is not named
terminal and does not have the lowest elevation of the grid.  (Terminal cells are tied with
others at most in easy ties, `CleanEnds`.) -/
theorem C98_where_partial (hN : N < 1000000) (hbig : 0 < big) (hstrict : ∀ x, x < raise x)
    (heff : Flood.effective mask method = .priority)
    (hfill : Flood.fillSinks fuel raise flood g dem mask method = .ok f) (hg : GoodGrid g mask)
    (hr : Dirs.InRange N terminals) (hs : Dirs.Sound G (Dirs.filled f) (nbrs g))
    (hb : Dirs.Below G (Dirs.filled f) thr big (nbrs g))
    (hend : Dirs.CleanEnds G (Dirs.filled f) thr terminals (nbrs g))
    (hrun : Dirs.flowDirections fuel' G (Dirs.filled f) big (Dirs.table (nbrs g)) thr terminals = .ok out)
    {d : Fin N → Fin N} (hd : Legal out d) {n : Fin N} (hn : OnCycle d n) :
    ∃ x, Reaches d n x ∧ Reaches d x n ∧ Flood.Outlet g mask x ∧ (∀ m ∈ nbrs g x, f x ≤ f m) ∧
      ((x : ℕ) : ℤ) ∉ terminals ∧ ∃ m, f m < f x := by
  by_contra hno
  push Not at hno
  have hdr : Downhill g mask f := fun n => Flood.C03_drains_strictly hstrict hg.symm heff hfill n (hg.conn n)
  obtain ⟨hne, k, hk⟩ := hn
  have hback : ∀ i, Reaches d (d^[i] n) n := by
    intro i
    have hper : ∀ j, d^[(k + 1) * j] n = n := by
      intro j
      induction j with
      | zero => rfl
      | succ j ih => rw [Nat.mul_succ, Function.iterate_add_apply, hk, ih]
    refine ⟨(k + 1) * i - i, ?_⟩
    rw [← Function.iterate_add_apply, Nat.sub_add_cancel (Nat.le_mul_of_pos_left i (by omega)), hper]
  have step : ∀ i, Dirs.DownStep (Dirs.filled f) (nbrs g) terminals out (d^[i] n) (d^[i + 1] n) := by
    intro i
    set x := d^[i] n with hx
    have hT : ¬ Dirs.Terminal (Dirs.filled f) terminals x := by
      intro ht
      have := Dirs.C23_terminal_partial hr hb (nodup_nbrs hg) hrun ht (fun u hu hux => hend u x hu ht hux)
      rw [hd x] at this
      have hfx : d x = x := Fin.ext (by exact_mod_cast this)
      obtain ⟨j, hj⟩ := hback i
      rw [← hx, Function.iterate_fixed hfx] at hj
      rw [hj] at hfx
      exact hne hfx
    refine ⟨hT, ?_, by rw [hd x, Function.iterate_succ_apply']⟩
    by_contra hlow
    have hout : Flood.Outlet g mask x := by
      by_contra ho
      exact hlow (Dirs.filled_lower (hdr x) ho)
    rw [hasLower_filled] at hlow
    push Not at hlow
    refine hT (.inl ⟨f x, rfl, fun m w hw => ?_⟩)
    simp only [Dirs.filled, Option.some.injEq] at hw
    rw [← hw]
    exact hno x ⟨i, rfl⟩ (hback i) hout hlow (fun h => hT (.inr h)) m
  have chain : ∀ i, Relation.TransGen (Dirs.DownStep (Dirs.filled f) (nbrs g) terminals out) n (d^[i + 1] n) := by
    intro i
    induction i with
    | zero => exact .single (step 0)
    | succ i ih => exact ih.tail (step (i + 1))
  have := chain k
  rw [hk] at this
  exact Dirs.C25_no_return hr hN hbig hs hrun n this

/-- non-vacuity: the run of `C98_refuted`, where cell 10 lies on a circle -/
example : ∃ x, Reaches nxC 10 x ∧ Reaches nxC x 10 ∧ Flood.Outlet Flood.g44 none x ∧
    (∀ m ∈ nbrs Flood.g44 x, fillC x ≤ fillC m) ∧ ((x : ℕ) : ℤ) ∉ ([] : List ℤ) ∧ ∃ m, fillC m < fillC x :=
  C98_where_partial (g := Flood.g44) (f := fillC) (by norm_num) (by decide +kernel) Flood.rs_lt (by decide +kernel)
    fillRunC good44 (by intro t ht; cases ht) Dirs.sound44 belowC (fun n t _ _ h1 => Dirs.easyTie_of_unique fun m h2 => noTiesC n m t h2 h1) runC
    (by unfold Legal; decide +kernel) ⟨by decide +kernel, 1, by decide +kernel⟩

end Dany.Pipe
