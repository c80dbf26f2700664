import Verif.Flood.Compare

/-!
# C187: editing ground above a cell's filled elevation does not change the cell's fill

Without a stream mask.  `dem` and `dem'` may differ only at cells that lie, before and after the edit,
above the elevation to which `n` was filled.
-/

namespace Dany.Flood

variable {N : ℕ} {V : Type*} [LinearOrder V]

private theorem top_edit {nbr : Fin N → List ℕ} {S : Fin N → Prop} {dem dem' : Fin N → V} {t : V}
    (hd : ∀ a, dem a ≤ t → dem' a = dem a) {k : Fin N} {v : V} (hv : PathTop nbr dem S k v) (hvt : v ≤ t) :
    PathTop nbr dem' S k v := by
  induction hv with
  | @seed s hs => rw [← hd s hvt]; exact .seed hs
  | @step c n v _ ha ih =>
    have := ih ((le_max_left _ _).trans hvt)
    rw [← hd n ((le_max_right _ _).trans hvt)]
    exact .step this ha

private theorem rise_edit {raise : V → V} (hinf : ∀ x, x ≤ raise x) {nbr : Fin N → List ℕ} {S : Fin N → Prop}
    {dem dem' : Fin N → V} {t : V}
    (hd : ∀ a, dem a ≤ t → dem' a = dem a) {k : Fin N} {v : V} (hv : PathRise raise nbr dem S k v) (hvt : v ≤ t) :
    PathRise raise nbr dem' S k v := by
  induction hv with
  | @seed s hs => rw [← hd s hvt]; exact .seed hs
  | @step c n v _ ha ih =>
    have := ih ((hinf v).trans ((le_max_right _ _).trans hvt))
    rw [← hd n ((le_max_left _ _).trans hvt)]
    exact .step this ha

/-- Cells the edit left alone include all cells at or below `t`, seen from either surface. -/
theorem same_low {dem dem' : Fin N → V} {t : V} (hd : ∀ a, dem' a ≠ dem a → t < dem a ∧ t < dem' a) :
    (∀ a, dem a ≤ t → dem' a = dem a) ∧ (∀ a, dem' a ≤ t → dem a = dem' a) :=
  ⟨fun a h => by_contra fun e => absurd h (not_le.2 (hd a e).1),
   fun a h => by_contra fun e => absurd h (not_le.2 (hd a (fun x => e x.symm)).2)⟩

theorem spill_edit {nbr : Fin N → List ℕ} {S : Fin N → Prop} {dem dem' : Fin N → V} {t w w' : V} {n : Fin N}
    (hd : ∀ a, dem' a ≠ dem a → t < dem a ∧ t < dem' a) (hw : IsSpill nbr dem S n w) (hwt : w ≤ t)
    (hw' : IsSpill nbr dem' S n w') : w' = w := by
  obtain ⟨h1, h2⟩ := same_low hd
  have hle : w' ≤ w := hw'.2 (top_edit h1 hw.1 hwt)
  exact le_antisymm hle (hw.2 (top_edit h2 hw'.1 (hle.trans hwt)))

/-- **C187** ('complete'). -/
theorem C187_complete {fuel fuel' : ℕ} {raise : V → V} {flood : V} {g : Grid N} {dem dem' out out' : Fin N → V}
    {method : String} (hinf : ∀ x, x ≤ raise x) (hmeth : method.toLower = "complete")
    (h : fillSinks fuel raise flood g dem none method = .ok out)
    (h' : fillSinks fuel' raise flood g dem' none method = .ok out') (n : Fin N)
    (hd : ∀ a, dem' a ≠ dem a → out n < dem a ∧ out n < dem' a) : out' n = out n := by
  have heff : effective (none : Option (Fin N → Bool)) method ≠ .drain := by simp [effective, hmeth]
  by_cases hn : Reach g.nbr (Edge.OnEdge g.iverts) n
  · exact spill_edit hd (C06_spill hmeth h n hn) le_rfl (C06_spill hmeth h' n hn)
  · have e := C04_disconnected hinf heff h n hn
    rw [C04_disconnected hinf heff h' n hn, e]
    exact (same_low hd).1 n e.ge

/-- **C187** ('drain'). -/
theorem C187_drain {fuel fuel' : ℕ} {raise : V → V} {flood : V} {g : Grid N} {dem dem' out out' : Fin N → V}
    {method : String} (hinf : ∀ x, x ≤ raise x) (hmono : Monotone raise)
    (hfl : ∀ n, dem n ≤ flood) (hfl' : ∀ n, dem' n ≤ flood)
    (heff : effective (none : Option (Fin N → Bool)) method = .drain)
    (h : fillSinks fuel raise flood g dem none method = .ok out)
    (h' : fillSinks fuel' raise flood g dem' none method = .ok out') (n : Fin N)
    (hd : ∀ a, dem' a ≠ dem a → out n < dem a ∧ out n < dem' a) : out' n = out n := by
  obtain ⟨h1, h2⟩ := same_low hd
  have l := C10_drain_least hinf hmono hfl heff h n
  have l' := C10_drain_least hinf hmono hfl' heff h' n
  have hle : out' n ≤ out n := by
    rcases l.1 with e | hp
    · rw [e]; exact l'.2 (.inl rfl)
    · exact l'.2 (.inr (rise_edit hinf h1 hp le_rfl))
  refine le_antisymm hle ?_
  rcases l'.1 with e | hp
  · rw [e]; exact l.2 (.inl rfl)
  · exact l.2 (.inr (rise_edit hinf h2 hp hle))

/-- **C187** ('priority').  Up to `N` increments.  That they are needed shows `C187_priority_differs`. -/
theorem C187_priority {fuel fuel' : ℕ} {raise : V → V} {flood : V} {g : Grid N} {dem dem' out out' : Fin N → V}
    {method : String} (hinf : ∀ x, x ≤ raise x) (hmono : Monotone raise) (hmeth : method.toLower = "priority")
    (h : fillSinks fuel raise flood g dem none method = .ok out)
    (h' : fillSinks fuel' raise flood g dem' none method = .ok out') (n : Fin N)
    (hd : ∀ a, dem' a ≠ dem a → out n < dem a ∧ out n < dem' a) :
    out' n ≤ raise^[N] (out n) ∧ out n ≤ raise^[N] (out' n) := by
  have heff : effective (none : Option (Fin N → Bool)) method ≠ .drain := by simp [effective, hmeth]
  by_cases hn : Reach g.nbr (Edge.OnEdge g.iverts) n
  · obtain ⟨w, hw, hl, hu⟩ := C09_overfill hinf hmono hmeth h n hn
    obtain ⟨w', hw', hl', hu'⟩ := C09_overfill hinf hmono hmeth h' n hn
    have e := spill_edit hd hw hl hw'
    subst e
    exact ⟨hu'.trans (hmono.iterate N hl), hu.trans (hmono.iterate N hl')⟩
  · have hit : ∀ x, x ≤ raise^[N] x := fun x => Function.id_le_iterate_of_id_le hinf N x
    have e := C04_disconnected hinf heff h n hn
    have e' : out' n = out n := by
      rw [C04_disconnected hinf heff h' n hn, e]
      exact (same_low hd).1 n e.ge
    rw [e']
    exact ⟨hit _, hit _⟩

end Dany.Flood
