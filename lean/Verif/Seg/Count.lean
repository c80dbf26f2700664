import Verif.Seg.Ungroup
import Mathlib.Algebra.BigOperators.Ring.Finset
import Mathlib.Algebra.Order.BigOperators.Group.Finset

/-!
# Property C157: how many segments a network has
-/

namespace Dany.Seg

open Relation Reach

variable {N : ℕ} {fdir sa : Fin N → ℤ} {limit fuel : ℕ} {b : Bool} {out : Out N}

open Classical in
/-- the number of cells in which a stream begins -/
noncomputable def nHeads (fdir sa : Fin N → ℤ) : ℕ := (Finset.univ.filter (Headwater fdir sa)).card

open Classical in
/-- the number of stream cells that flow to no stream cell -/
noncomputable def nEnds (fdir sa : Fin N → ℤ) : ℕ :=
  (Finset.univ.filter fun n => sa n ≠ 0 ∧ ∀ m, ¬ Feeds fdir sa n m).card

open Classical in
theorem count_bound (fdir sa : Fin N → ℤ) : nSeg fdir sa + nEnds fdir sa ≤ 2 * nHeads fdir sa := by
  have hcast : ∀ {a b c : Fin N}, Feeds fdir sa a b → Feeds fdir sa a c → b = c := by
    intro a b c h1 h2
    have := h1.2.2.symm.trans h2.2.2
    exact Fin.ext (by exact_mod_cast this)
  -- every stream cell that does not end feeds one cell
  set S := Finset.univ.filter fun n : Fin N => sa n ≠ 0 with hS
  set E := Finset.univ.filter fun n => sa n ≠ 0 ∧ ∀ m, ¬ Feeds fdir sa n m with hE
  set H := Finset.univ.filter (Headwater fdir sa) with hH
  set C := Finset.univ.filter (Confluence fdir sa) with hC
  have hsum : ∑ n ∈ S, (Finset.univ.filter fun m => Feeds fdir sa m n).card + E.card = S.card := by
    have h1 : S.card = (S.filter fun n => ∃ m, Feeds fdir sa n m).card +
        (S.filter fun n => ¬ ∃ m, Feeds fdir sa n m).card :=
      (Finset.card_filter_add_card_filter_not _).symm
    have h2 : (S.filter fun n => ¬ ∃ m, Feeds fdir sa n m) = E := by
      ext n; simp [hS, hE]
    have h3 : (S.filter fun n => ∃ m, Feeds fdir sa n m) =
        S.biUnion fun n => Finset.univ.filter fun m => Feeds fdir sa m n := by
      ext m
      simp only [hS, Finset.mem_filter, Finset.mem_univ, true_and, Finset.mem_biUnion]
      constructor
      · rintro ⟨_, n, h⟩; exact ⟨n, h.2.1, h⟩
      · rintro ⟨n, _, h⟩; exact ⟨h.1, n, h⟩
    rw [h1, h2, h3, Finset.card_biUnion]
    intro x _ y _ hxy
    rw [Function.onFun, Finset.disjoint_left]
    intro m hm hm'
    simp only [Finset.mem_filter, Finset.mem_univ, true_and] at hm hm'
    exact hxy (hcast hm hm')
  have hcell : ∀ n ∈ S, 1 + (if Confluence fdir sa n then 1 else 0) ≤
      (Finset.univ.filter fun m => Feeds fdir sa m n).card + (if Headwater fdir sa n then 1 else 0) := by
    intro n hn
    by_cases hh : Headwater fdir sa n
    · have : ¬ Confluence fdir sa n := fun ⟨a, _, _, h, _⟩ => hh.2 a h
      simp [hh, this]
    · have h1 : ∃ m, Feeds fdir sa m n := by
        by_contra hno
        push Not at hno
        exact hh ⟨by simpa [hS] using hn, hno⟩
      by_cases hc : Confluence fdir sa n
      · obtain ⟨x, y, hxy, hx, hy⟩ := hc
        have : 1 < (Finset.univ.filter fun m => Feeds fdir sa m n).card :=
          Finset.one_lt_card.2 ⟨x, by simpa using hx, y, by simpa using hy, hxy⟩
        rw [if_pos ⟨x, y, hxy, hx, hy⟩, if_neg hh]
        omega
      · obtain ⟨m, hm⟩ := h1
        have : 0 < (Finset.univ.filter fun m => Feeds fdir sa m n).card :=
          Finset.card_pos.2 ⟨m, by simpa using hm⟩
        rw [if_neg hc, if_neg hh]
        omega
  have htot := Finset.sum_le_sum hcell
  simp only [Finset.sum_add_distrib, Finset.sum_const, smul_eq_mul, mul_one, ← Finset.card_filter] at htot
  have hHS : S.filter (Headwater fdir sa) = H := by
    ext n; simp only [hS, hH, Finset.mem_filter, Finset.mem_univ, true_and]
    exact ⟨fun h => h.2, fun h => ⟨h.1, h⟩⟩
  have hCS : S.filter (Confluence fdir sa) = C := by
    ext n; simp only [hS, hC, Finset.mem_filter, Finset.mem_univ, true_and]
    exact ⟨fun h => h.2, fun h => ⟨by obtain ⟨_, _, _, h1, _⟩ := h; exact h1.2.1, h⟩⟩
  rw [hHS, hCS] at htot
  have hn : nSeg fdir sa ≤ H.card + C.card := by
    unfold nSeg
    refine le_trans (Finset.card_le_card ?_) (Finset.card_union_le H C)
    intro n hn
    simp only [Finset.mem_filter, Finset.mem_univ, true_and, Finset.mem_union, hH, hC] at hn ⊢
    exact hn
  show nSeg fdir sa + E.card ≤ 2 * H.card
  omega

/-- **C157.**  A network has at most two segments per headwater, less one for every stream cell from which
the stream leaves the marked cells. -/
theorem C157_segments (hf : N ≤ fuel) (hout : mf2005 limit fuel b fdir sa true = .ok out) :
    out.sg.length + nEnds fdir sa ≤ 2 * nHeads fdir sa := by
  rw [(C58_numbers hf hout).2.1]
  exact count_bound fdir sa

/-- **C157.**  So a recursion limit of twice the number of headwaters plus one suffices: with Python's
limit of 1000 `get_stream_connectivity` never fails on networks with at most 499 headwaters, however
long their streams. -/
theorem C157_limit (hf : N ≤ fuel) (hl : 2 * nHeads fdir sa + 1 ≤ limit) :
    ∃ out, mf2005 limit fuel false fdir sa true = .ok out :=
  C56_terminates hf (segsFit_of_count (by have := count_bound fdir sa; omega))

/-- non-vacuity: 0 and 1 meet in 2, which flows on to 3 and out; two headwaters, three segments, one end -/
example : ∃ out, mf2005 5 5 false exFdir exSa true = .ok out ∧ out.sg.length = 3 := by
  obtain ⟨o, h, e⟩ := Res.map_eq_ok.1 (show (mf2005 5 5 false exFdir exSa true).map (fun o => o.sg.length) = .ok 3
    by decide +kernel)
  exact ⟨o, h, e⟩
open Classical in
example : nHeads exFdir exSa = 2 ∧ nEnds exFdir exSa = 1 := by
  unfold nHeads nEnds
  constructor
  · have : (Finset.univ.filter (Headwater exFdir exSa)) = {0, 1} := by
      ext n
      simp only [Finset.mem_filter, Finset.mem_univ, true_and, Headwater, Feeds]
      revert n; decide
    rw [this]; rfl
  · have : (Finset.univ.filter fun n => exSa n ≠ 0 ∧ ∀ m, ¬ Feeds exFdir exSa n m) = {3} := by
      ext n
      rw [Finset.mem_filter]
      simp only [Finset.mem_univ, true_and, Feeds]
      revert n; decide
    rw [this]; rfl

end Dany.Seg
