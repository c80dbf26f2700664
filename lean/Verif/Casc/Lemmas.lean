import Verif.Casc.Model
import Verif.Flow.Lemmas
import Mathlib.Data.Finset.Card
import Mathlib.Data.List.FinRange

/-!
# Facts about the cascade builders
-/

namespace Dany.Casc

open Flow Reach

variable {N : ℕ} {K : Type*}

theorem collect_ok {α β : Type*} {f : α → Res (List β)} {g : α → List β} :
    ∀ (l : List α), (∀ a ∈ l, f a = .ok (g a)) → collect f l = .ok (l.flatMap g) := by
  intro l
  induction l with
  | nil => intro _; rfl
  | cons a l ih =>
    intro h
    simp only [collect, h a (by simp), Res.bind_ok, ih (fun x hx => h x (by simp [hx])), Res.map_ok,
      List.flatMap_cons]

variable {fdir : Fin N → ℤ} {d : Fin N → Fin N} {active : Fin N → Bool}

theorem masked_eq (h9 : ∀ n, fdir n ≠ -9) {n : Fin N} : masked fdir active n = -9 ↔ active n = false := by
  unfold masked
  split
  · simp [*]
  · rename_i h; simp [h, h9 n]

theorem masked_active {n : Fin N} (h : active n = true) : masked fdir active n = fdir n := by
  simp [masked, h]

/-- the links contributed by one iteration -/
def oneSpec [One K] (fdir : Fin N → ℤ) (d : Fin N → Fin N) (active : Fin N → Bool) (n : Fin N) :
    List (ℤ × ℤ × K) :=
  if active n = false then []
  else if active (d n) = false then [(fdir n, fdir n, 1)]
  else ((List.finRange N).filter (fun m => active m = true ∧ fdir m = fdir n)).map
    (fun m : Fin N => (((m : ℕ) : ℤ), fdir n, 1))

theorem oneLinks_ok [One K] (hd : Resolves fdir d) (h9 : ∀ n, fdir n ≠ -9) (n : Fin N) :
    oneLinks (K := K) (masked fdir active) n = .ok (oneSpec fdir d active n) := by
  unfold oneLinks oneSpec
  by_cases ha : active n = false
  · rw [if_pos ((masked_eq h9).2 ha), if_pos ha]
  · have ha' : active n = true := by simpa using ha
    rw [if_neg (fun h => ha ((masked_eq h9).1 h)), if_neg ha, masked_active ha']
    have hfil : (List.finRange N).filter (fun m => masked fdir active m = fdir n) =
        (List.finRange N).filter (fun m => active m = true ∧ fdir m = fdir n) := by
      apply List.filter_congr
      intro m _
      by_cases hm : active m = true
      · simp [masked_active hm, hm]
      · have hm' : active m = false := by simpa using hm
        have : masked fdir active m ≠ fdir n := by
          rw [(masked_eq h9).2 hm']; exact (h9 n).symm
        simp [this, hm]
    simp only [hfil]
    rw [if_neg, hd.pyIndex, Res.bind_ok]
    · congr 1
      by_cases hj : active (d n) = false
      · rw [if_pos ((masked_eq h9).2 hj), if_pos hj]
      · rw [if_neg (fun h => hj ((masked_eq h9).1 h)), if_neg hj]
    · intro h0
      rw [List.length_eq_zero_iff] at h0
      have : n ∈ (List.finRange N).filter (fun m => active m = true ∧ fdir m = fdir n) := by
        simp [ha']
      rw [h0] at this; cases this

theorem manyToOne_ok [One K] (hd : Resolves fdir d) (h9 : ∀ n, fdir n ≠ -9) :
    manyToOne (K := K) fdir active = .ok ((List.finRange N).flatMap (oneSpec fdir d active)) :=
  collect_ok _ (fun n _ => oneLinks_ok hd h9 n)

theorem sum_ite_filter {α : Type*} (p : α → Prop) [DecidablePred p] : ∀ l : List α,
    (l.map (fun a => if p a then 1 else 0)).sum = (l.filter (fun a => p a)).length := by
  intro l
  induction l with
  | nil => rfl
  | cons a l ih =>
    by_cases h : p a
    · rw [List.filter_cons_of_pos (by simpa using h)]
      simp [h, ih]; omega
    · rw [List.filter_cons_of_neg (by simpa using h)]
      simp [h, ih]

theorem filter_length_card (p : Fin N → Prop) [DecidablePred p] :
    ((List.finRange N).filter (fun n => p n)).length = (Finset.univ.filter p).card := by
  rw [← List.toFinset_card_of_nodup ((List.nodup_finRange N).filter _)]
  congr 1
  ext n
  simp

theorem count_one [One K] [DecidableEq K] (hd : Resolves fdir d) {m n : Fin N} :
    ((oneSpec (K := K) fdir d active n).map Prod.fst).count ((m : ℕ) : ℤ) =
      if active n = true ∧ (if active m = true then active (d n) = true ∧ fdir n = fdir m
        else active (d n) = false ∧ fdir n = ((m : ℕ) : ℤ)) then 1 else 0 := by
  unfold oneSpec
  by_cases ha : active n = false
  · simp [ha]
  · have ha' : active n = true := by simpa using ha
    rw [if_neg ha]
    have hres : ∀ x : Fin N, fdir n = ((x : ℕ) : ℤ) → d n = x := by
      intro x hx
      rcases hd n with ⟨h1, h2⟩ | ⟨h1, h2⟩
      · apply Fin.ext; omega
      · omega
    by_cases hj : active (d n) = false
    · rw [if_pos hj]
      simp only [List.map_cons, List.map_nil, List.count_cons, List.count_nil, Nat.zero_add, ha', true_and, hj]
      by_cases hm : active m = true
      · simp only [hm, if_true, Bool.false_eq_true, false_and, if_false]
        rw [if_neg]
        rw [beq_iff_eq]
        intro he
        have := hres m he
        rw [this, hm] at hj; cases hj
      · have hm' : active m = false := by simpa using hm
        simp [hm']
    · have hj' : active (d n) = true := by simpa using hj
      rw [if_neg hj, List.map_map]
      have hcoe : ∀ l : List (Fin N), l.Nodup → (l.map (Prod.fst ∘ fun x : Fin N =>
          ((((x : ℕ) : ℤ), fdir n, (1 : K)) : ℤ × ℤ × K))).count ((m : ℕ) : ℤ) = if m ∈ l then 1 else 0 := by
        intro l hl
        have hmap : (l.map (Prod.fst ∘ fun x : Fin N =>
          ((((x : ℕ) : ℤ), fdir n, (1 : K)) : ℤ × ℤ × K))) = l.map (fun x : Fin N => ((x : ℕ) : ℤ)) := rfl
        rw [hmap]
        have hinj : Function.Injective (fun x : Fin N => ((x : ℕ) : ℤ)) := by
          intro a b h
          have h : ((a : ℕ) : ℤ) = ((b : ℕ) : ℤ) := h
          exact Fin.ext (by omega)
        rw [List.count_map_of_injective l _ hinj m]
        split
        · rename_i hm; exact List.count_eq_one_of_mem hl hm
        · rename_i hm; exact List.count_eq_zero_of_not_mem hm
      rw [hcoe _ ((List.nodup_finRange N).filter _)]
      simp only [List.mem_filter, List.mem_finRange, true_and, decide_eq_true_eq, ha', hj']
      by_cases hm : active m = true
      · simp [hm, eq_comm]
      · have hm' : active m = false := by simpa using hm
        simp [hm']

theorem finishRows_inv [Field K] {sa : Fin N → ℤ} : ∀ {ls : List (ℤ × ℤ × K)} {rows : List (Row K)},
    finishRows sa ls = .ok rows → List.Forall₂ (fun l r => r.up = l.1 + 1 ∧ r.down = l.2.1 + 1 ∧
      r.pct = l.2.2 ∧ ∃ j, pyIndex N l.2.1 = .ok j ∧ r.strmseg = sa j) ls rows := by
  intro ls
  induction ls with
  | nil => intro rows h; cases h; exact .nil
  | cons l ls ih =>
    intro rows h
    unfold finishRows at h
    obtain ⟨j, hj, h⟩ := Res.bind_eq_ok.1 h
    obtain ⟨rs, hrs, rfl⟩ := Res.map_eq_ok.1 h
    refine .cons ⟨rfl, rfl, rfl, j, hj, ?_⟩ (ih hrs)
    dsimp only
    split
    · rename_i h0; exact h0.symm
    · rfl

end Dany.Casc
