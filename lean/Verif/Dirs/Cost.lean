import Verif.Dirs.Witness

/-!
# Property C159: how long `flow_directions` can take
-/

namespace Dany.Dirs

variable {N : ℕ} {K : Type*} [Field K] [LinearOrder K]
variable {dem : Fin N → Option K} {big : K} {nbr : Fin N → List (Fin N)} {terminals : List ℤ}

section

variable {A : Fin N → List (Entry N)} {frow : Fin N → List (Entry N)} {valid : Fin N → Bool}

theorem loop_within {B : ℕ} (hB : ∀ n, bound A n ≤ B) (l : List (Fin N)) (s : State N) (hf : FInv A s.fc)
    (hp : ∀ p c, some c ∈ A p → none ∉ A c) (hx : ∀ n, valid n = true → none ∉ A n) :
    ∃ s', ∀ fuel, B ≤ fuel → l.foldl (cellStep frow fuel valid) (.ok s) = .ok s' := by
  induction l generalizing s with
  | nil => exact ⟨s, fun _ _ => rfl⟩
  | cons a l ih =>
    obtain ⟨s1, h1⟩ := cellStep_ok (frow := frow) (valid := valid) hf hp (hx a)
    obtain ⟨s', h2⟩ := ih s1 (cellStep_spec hf (h1 _ le_rfl)).inv
    refine ⟨s', fun fuel h => ?_⟩
    simp only [List.foldl_cons]
    rw [h1 fuel ((hB a).trans h)]
    exact h2 fuel h

end

theorem fc0_length {G : Geo N K} {thr : K} {w : ℕ} (hw : ∀ n, (nbr n).length ≤ w) (n : Fin N) :
    (fc0 G dem thr big nbr n).length ≤ w := by
  have h1 : (fc0 G dem thr big nbr n).length ≤ (pad (table nbr) n).length := by
    unfold fc0 fcell
    split
    · simp
    · exact List.length_filter_le _ _
  refine h1.trans ?_
  have hwd : ∀ (l : List (Fin N)) (m : ℕ), m ≤ w → l.foldl (fun m n => max m (table nbr n).length) m ≤ w := by
    intro l
    induction l with
    | nil => intro m h; exact h
    | cons a l ih =>
      intro m h
      exact ih _ (max_le h (by simpa [table] using hw a))
  have h2 : width (table nbr) ≤ w := hwd _ 0 (Nat.zero_le _)
  have h3 := length_le_width (table nbr) n
  unfold pad
  rw [List.length_append, List.length_replicate]
  omega

/-- **C159.**  On a grid of `N` cells with at most `w` neighbours each, while any one cell is treated each of the
loops of `flow_directions` (the connection test between equally steep neighbours, the search over a flat,
the way back) goes round at most `(N + 1) w + 2 N + 3` times, whatever the elevations. -/
theorem C159_rounds (G : Geo N K) (thr : K) (hr : InRange N terminals) (hb : Below G dem thr big nbr)
    (hn : HasNbr dem nbr) (he : ∃ n v, dem n = some v ∧ v < big) {w : ℕ} (hw : ∀ n, (nbr n).length ≤ w) :
    ∃ out, ∀ fuel, (N + 1) * w + 2 * N + 3 ≤ fuel →
      flowDirections fuel G dem big (table nbr) thr terminals = .ok out := by
  obtain ⟨n0, v0, hv0, hlt⟩ := he
  have hmin : none ∉ minCells dem big := by
    rw [none_mem_minCells]
    intro h
    exact absurd (h n0 v0 hv0) (not_le.2 hlt)
  obtain ⟨f0, hf0⟩ := setMin_of (fun _ => -1) hmin
  obtain ⟨f1, hf1, _⟩ := setTerminals_spec hr f0
  have hwd : width (table nbr) ≠ 0 := by
    obtain ⟨m, hm, _⟩ := hn n0 (by simp [hv0])
    have h1 := length_le_width (table nbr) n0
    have h2 : 0 < (table nbr n0).length := List.length_pos_of_mem (List.mem_map.2 ⟨m, hm, rfl⟩)
    omega
  have hB : ∀ n, bound (fc0 G dem thr big nbr) n ≤ (N + 1) * w + 2 * N + 3 := by
    intro n
    have h1 : weight (fc0 G dem thr big nbr) [] ≤ N * w := by
      unfold weight
      refine (Finset.sum_le_card_nsmul Finset.univ _ w fun c _ => ?_).trans (by simp)
      simpa using fc0_length hw c
    have h2 := fc0_length (G := G) (dem := dem) (thr := thr) (big := big) hw n
    unfold bound
    have : (N + 1) * w = N * w + w := by ring
    omega
  obtain ⟨s', hs'⟩ := loop_within (A := fc0 G dem thr big nbr) (frow := pad (table nbr))
    (valid := fun n => (dem n).isSome) hB (List.finRange N) ⟨f1, fc0 G dem thr big nbr⟩ fc0_inv
    (fun p c hc => none_notMem_fc0 hb hn (steepest_of_mem_fc0 hc).valid.2)
    (fun n hv => none_notMem_fc0 hb hn (by intro h; simp [h] at hv))
  refine ⟨s'.fdir, fun fuel h => ?_⟩
  unfold flowDirections
  rw [hf0]
  simp only [Res.bind_ok]
  rw [hf1]
  simp only [Res.bind_ok]
  have : fcells G dem thr big (table nbr) = .ok (fc0 G dem thr big nbr) := by
    unfold fcells
    rw [if_neg (by tauto)]
    rfl
  rw [this]
  simp only [Res.bind_ok]
  rw [hs' fuel h]
  rfl

/-- **C159.**  The `while True` loop of the search over a flat goes round at most twice: it does not matter how
much more often it might. -/
theorem C159_twice {A : Fin N → List (Entry N)} {fdir : Fin N → ℤ} {fc : Fin N → List (Entry N)}
    (hfc : ∀ n, fc n ⊆ A n) (hv : ∀ p c, some c ∈ A p → none ∉ A c) {ix : Fin N} {conns : List (Fin N)}
    (hc : ∀ c ∈ conns, some c ∈ A ix) :
    ∃ b, ∀ pf k, conns.length + weight fc [] + 1 ≤ pf → 2 ≤ k →
      searchLoop fdir fc pf k ⟨startStack ix conns, none, true, [], conns⟩ = .ok b := by
  obtain ⟨hs, hk⟩ := startStack_spec A ix conns hc
  exact searchLoop_ok (fdir := fdir) hfc hv
    (show BInv A ix ⟨startStack ix conns, none, true, [], conns⟩ from ⟨hs, fun c hc => (hk c).2 hc, by simp⟩)
    ⟨fun _ c hc => .inr hc, fun _ c hc => (hk c).1 hc⟩ (fun _ => rfl)

/-- non-vacuity: on the 4 × 4 grid with 8 neighbours, 171 rounds suffice -/
example : ∃ out, ∀ fuel, 171 ≤ fuel →
    flowDirections fuel geo44 (filled Flood.out44) Dirs.big (table nbr44) Dirs.thr [] = .ok out := by
  obtain ⟨out, h⟩ := C159_rounds (w := 8) geo44 thr (inRange_nil 16) below44 hasNbr44 ⟨0, _, rfl, by decide +kernel⟩
    (by decide +kernel)
  exact ⟨out, fun fuel hf => h fuel (by omega)⟩

end Dany.Dirs
