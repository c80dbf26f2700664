import Verif.Basin.Order

/-!
# C175: one pour point, one watershed
-/

namespace Dany.Basin

open Flow

variable {N : ℕ} {d : Fin N → Fin N}

/-- **C175.**  `get_subbasins` with points in one cell only (not number 0, see C39) returns the array
`get_watershed_boundary` returns for that cell: 1 upstream of it, 0 elsewhere.
(flow_directions.py:477-624) -/
theorem C175_single {s : State N} (hd : Legal s.fdir d) (hs : Fresh s) {p : Fin N} (h0 : p.val ≠ 0)
    (hcyc : ¬ OnCycle d p) {cells : List (Fin N)} (hne : cells ≠ []) (hp : ∀ c ∈ cells, c = p) {limit fuel : ℕ}
    (hl : 2 ≤ limit) (hf : 2 * N + 1 < fuel) :
    ∃ s1 s2 out, subbasins limit fuel s cells = .ok (s1, out) ∧ watershed fuel s p (fun _ => 0) = .ok (s2, out) ∧
      ∀ u, (Reaches d u p → out u = 1) ∧ (¬ Reaches d u p → out u = 0) := by
  have hmem : p ∈ cells := by
    cases cells with
    | nil => exact absurd rfl hne
    | cons c l => rw [hp c List.mem_cons_self]; exact List.mem_cons_self
  have hfit : PoursFit d cells limit := by
    intro q _ hnd hq
    have : q.length ≤ 1 := by
      rcases q with _ | ⟨a, _ | ⟨b, q⟩⟩
      · simp
      · simp
      · exfalso
        have ha := hp a (hq a (by simp))
        have hb := hp b (hq b (by simp))
        simp [ha, hb] at hnd
    omega
  obtain ⟨s1, out, lab, e, h1, _, _, h4, h5⟩ := C38_subbasins hd hs (fun c hc => by rw [hp c hc]; exact h0)
    (fun c hc => by rw [hp c hc]; exact hcyc) hfit hf
  obtain ⟨s2, w, e2, _, _, hw⟩ := C36_repeated hd.resolves hs p (fuel := fuel) (by omega)
  have hcard : cells.toFinset.card ≤ 1 := by
    rw [Finset.card_le_one]
    intro a ha b hb
    rw [hp a (List.mem_toFinset.1 ha), hp b (List.mem_toFinset.1 hb)]
  have hlab : lab p = 1 := by have := h1 p hmem; omega
  have hout : out = w := by
    funext u
    by_cases hr : Reaches d u p
    · obtain ⟨q, hq⟩ := exists_first (S := (· ∈ cells)) hmem hr
      have hqp : q = p := hp q hq.choose_spec.2.1
      rw [h4 u q hq, hqp, hlab, (hw u).1 hr]
    · rw [h5 u fun c hc => by rw [hp c hc]; exact hr, (hw u).2 hr]
  subst hout
  exact ⟨s1, s2, out, e, e2, hw⟩

-- non-vacuity: cell 2 of the network `exO`, asked for twice
example : ∃ s1 s2 out, subbasins 12 20 exO [2, 2] = .ok (s1, out) ∧ watershed 20 exO 2 (fun _ => 0) = .ok (s2, out) ∧
    ∀ u, (Reaches exOd u 2 → out u = 1) ∧ (¬ Reaches exOd u 2 → out u = 0) :=
  C175_single exO_legal exO_fresh (by decide) (exO_acyclic 2) (by decide) (by decide) (by decide) (by decide)
example : (subbasins 12 20 exO [2, 2]).map Prod.snd = .ok ![0, 0, 1, 1, 1, 1] := by decide +kernel

end Dany.Basin
