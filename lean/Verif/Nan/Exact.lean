import Verif.Nan.Props

/-!
# Properties C84, C85: the exact value of a filled cell, and unknown method names
-/

namespace Dany.Nan

open Function Flood

variable {N : ℕ} {K : Type*} [Field K] [LinearOrder K] [IsStrictOrderedRing K]

/-! ### specification -/

/-- `v` is the mean of the numbers `l`. -/
def IsMean (l : List K) (v : K) : Prop := l ≠ [] ∧ v * l.length = l.sum

/-- `v` is the median: half the sum of the two middle numbers when `l` is put in order (the same
number twice when there is an odd count). -/
def IsMedian (l : List K) (v : K) : Prop :=
  ∃ (s : List K) (a b : K), s.Perm l ∧ s.Pairwise (· ≤ ·) ∧ s[(s.length - 1) / 2]? = some a ∧
    s[s.length / 2]? = some b ∧ v + v = a + b

/-- What each method name stands for. -/
def IsAgg (method : String) (l : List K) (v : K) : Prop :=
  (method = "mean" ∧ IsMean l v) ∨ (method = "median" ∧ IsMedian l v) ∨
  (method = "min" ∧ IsLeast {x | x ∈ l} v) ∨ (method = "max" ∧ IsGreatest {x | x ∈ l} v)

/-- The numbers cell `c` is filled from: in the result, those of its neighbours that held a number from
the start or have a higher cell number. -/
def sources (nbr : Fin N → List ℕ) (dem out : Fin N → Option K) (c : Fin N) : List K :=
  ((inRange N (nbr c)).filter fun m => decide (dem m ≠ none ∨ c < m)).filterMap out

/-! ### the aggregates -/

theorem foldl_min_least (l : List K) (v : K) : IsLeast {x | x ∈ v :: l} (l.foldl min v) := by
  induction l generalizing v with
  | nil => exact ⟨by simp, fun x hx => by simp_all⟩
  | cons a l ih =>
    obtain ⟨h1, h2⟩ := ih (min v a)
    have hle : l.foldl min (min v a) ≤ min v a := h2 (by simp)
    refine ⟨?_, fun x hx => ?_⟩
    · simp only [List.foldl_cons, Set.mem_setOf_eq, List.mem_cons] at h1 ⊢
      rcases h1 with h | h
      · rcases min_choice v a with h' | h'
        · left; rw [h, h']
        · right; left; rw [h, h']
      · exact .inr (.inr h)
    · simp only [Set.mem_setOf_eq, List.mem_cons, List.foldl_cons] at hx ⊢
      rcases hx with rfl | rfl | hx
      · exact hle.trans (min_le_left _ _)
      · exact hle.trans (min_le_right _ _)
      · exact h2 (by simp [hx])

theorem foldl_max_greatest (l : List K) (v : K) : IsGreatest {x | x ∈ v :: l} (l.foldl max v) := by
  induction l generalizing v with
  | nil => exact ⟨by simp, fun x hx => by simp_all⟩
  | cons a l ih =>
    obtain ⟨h1, h2⟩ := ih (max v a)
    have hle : max v a ≤ l.foldl max (max v a) := h2 (by simp)
    refine ⟨?_, fun x hx => ?_⟩
    · simp only [List.foldl_cons, Set.mem_setOf_eq, List.mem_cons] at h1 ⊢
      rcases h1 with h | h
      · rcases max_choice v a with h' | h'
        · left; rw [h, h']
        · right; left; rw [h, h']
      · exact .inr (.inr h)
    · simp only [Set.mem_setOf_eq, List.mem_cons, List.foldl_cons] at hx ⊢
      rcases hx with rfl | rfl | hx
      · exact (le_max_left _ _).trans hle
      · exact (le_max_right _ _).trans hle
      · exact h2 (by simp [hx])

theorem aggregate_isAgg {method : String} {elevs : List (Option K)} {v : K}
    (h : aggregate method elevs = .ok (some v)) : IsAgg method.toLower (valid elevs) v := by
  unfold aggregate at h
  split_ifs at h with h1 h2 h3 h4
  · left
    refine ⟨h1, ?_⟩
    unfold nanMean at h
    rcases hv : valid elevs with _ | ⟨a, l⟩
    · rw [hv] at h; cases h
    · rw [hv] at h
      simp only [Res.ok.injEq, Option.some.injEq] at h
      refine ⟨by simp, ?_⟩
      rw [← h]
      have : (((a :: l).length : ℕ) : K) ≠ 0 := by
        rw [List.length_cons]; exact_mod_cast Nat.succ_ne_zero l.length
      field_simp
  · right; left
    refine ⟨h2, ?_⟩
    unfold nanMedian at h
    set s := (valid elevs).insertionSort (· ≤ ·) with hs
    have hperm : s.Perm (valid elevs) := List.perm_insertionSort _ _
    have hsort : s.Pairwise (· ≤ ·) := List.pairwise_insertionSort _ _
    dsimp only at h
    split_ifs at h with hl hodd
    · cases h
    · simp only [Res.ok.injEq, Option.some.injEq] at h
      have hlt : s.length / 2 < s.length := by omega
      refine ⟨s, s[s.length / 2], s[s.length / 2], hperm, hsort, ?_, ?_, ?_⟩
      · rw [show (s.length - 1) / 2 = s.length / 2 by omega, List.getElem?_eq_getElem hlt]
      · rw [List.getElem?_eq_getElem hlt]
      · rw [← h]; simp [hlt]
    · simp only [Res.ok.injEq, Option.some.injEq] at h
      have hlt : s.length / 2 < s.length := by omega
      have hlt' : s.length / 2 - 1 < s.length := by omega
      refine ⟨s, s[s.length / 2 - 1], s[s.length / 2], hperm, hsort, ?_, ?_, ?_⟩
      · rw [show (s.length - 1) / 2 = s.length / 2 - 1 by omega, List.getElem?_eq_getElem hlt']
      · rw [List.getElem?_eq_getElem hlt]
      · rw [← h]
        simp only [List.getD_eq_getElem?_getD, List.getElem?_eq_getElem hlt,
          List.getElem?_eq_getElem hlt', Option.getD_some]
        field_simp
        ring
  · right; right; left
    refine ⟨h3, ?_⟩
    unfold nanMin at h
    split_ifs at h
    rcases hv : valid elevs with _ | ⟨a, l⟩
    · rw [hv] at h; cases h
    · rw [hv] at h
      simp only [Res.ok.injEq, Option.some.injEq] at h
      rw [← h]; exact foldl_min_least l a
  · right; right; right
    refine ⟨h4, ?_⟩
    unfold nanMax at h
    split_ifs at h
    rcases hv : valid elevs with _ | ⟨a, l⟩
    · rw [hv] at h; cases h
    · rw [hv] at h
      simp only [Res.ok.injEq, Option.some.injEq] at h
      rw [← h]; exact foldl_max_greatest l a

theorem indexAll_inRange {l : List ℕ} {nn : List (Fin N)} (h : indexAll N l = .ok nn) :
    inRange N l = nn := by
  induction l generalizing nn with
  | nil => simp only [indexAll] at h; cases h; rfl
  | cons a l ih =>
    simp only [indexAll] at h
    obtain ⟨i, h1, h⟩ := Res.bind_eq_ok.1 h
    obtain ⟨r, h2, h⟩ := Res.map_eq_ok.1 h
    unfold natIndex at h1
    split at h1
    · rename_i ha
      cases h1
      subst h
      unfold inRange
      rw [List.filterMap_cons_some (by rw [dif_pos ha])]
      congr 1
      exact ih h2
    · cases h1

theorem filterMap_filter_eq {α β : Type*} (l : List α) (f : α → Option β) (p : α → Bool)
    (h : ∀ a ∈ l, p a = false → f a = none) : (l.filter p).filterMap f = l.filterMap f := by
  induction l with
  | nil => rfl
  | cons a l ih =>
    have ih := ih (fun b hb => h b (by simp [hb]))
    by_cases hp : p a = true
    · rw [List.filter_cons_of_pos hp, List.filterMap_cons, List.filterMap_cons, ih]
    · rw [List.filter_cons_of_neg hp, ih, List.filterMap_cons,
        h a (by simp) (Bool.eq_false_iff.2 hp)]

theorem filterMap_congr_mem {α β : Type*} {l : List α} {f g : α → Option β}
    (h : ∀ a ∈ l, f a = g a) : l.filterMap f = l.filterMap g := by
  induction l with
  | nil => rfl
  | cons a l ih =>
    rw [List.filterMap_cons, List.filterMap_cons, h a (by simp), ih fun b hb => h b (by simp [hb])]

/-- **C84.**  Whenever `fill_nan_values` returns, a NaN cell holds the mean (median, least, greatest) of
the values its neighbours have in the result, counting only neighbours that held a number from the start
or have a higher cell number. -/
theorem C84_exact {fuel : ℕ} {method : String} {nbr : Fin N → List ℕ}
    {dem out : Fin N → Option K} (h : fillNan fuel method nbr dem = .ok out) (c : Fin N)
    (hc : dem c = none) :
    ∃ v, out c = some v ∧ IsAgg method.toLower (sources nbr dem out c) v := by
  have key := nanLoop_inv (method := method) (nbr := nbr)
    (fun st d => (∀ c, d c = none ↔ c ∈ st) ∧ st.Pairwise (· > ·) ∧ (∀ c ∈ st, dem c = none) ∧
      (∀ c m, dem c = none → c ∉ st → c < m → m ∉ st) ∧
      ∀ c, dem c = none → c ∉ st → ∃ v, d c = some v ∧ IsAgg method.toLower (sources nbr dem d c) v)
    ?_ fuel _ _ out ⟨?_, ?_, ?_, ?_, ?_⟩ h
  · exact key.2.2.2.2 c hc (by simp)
  · rintro node rest d nn v ⟨h1, h2, h3, h4, h5⟩ hnn hagg
    have hnode : d node = none := (h1 node).2 (by simp)
    have hrest : ∀ m ∈ rest, m < node := fun m hm => List.rel_of_pairwise_cons h2 hm
    have hnr : node ∉ rest := fun hm => lt_irrefl _ (hrest node hm)
    -- sources do not change when cells of the stack are filled
    have hsrc : ∀ c, dem c = none → c ∉ rest →
        sources nbr dem (update d node (some v)) c = sources nbr dem d c := by
      intro c hc hcr
      unfold sources
      apply filterMap_congr_mem
      intro m hm
      obtain ⟨_, hm⟩ := List.mem_filter.1 hm
      have hm := of_decide_eq_true hm
      rw [update_of_ne]
      rintro rfl
      rcases hm with hm | hm
      · exact hm (h3 m (by simp))
      · by_cases hcn : c = m
        · subst hcn; exact lt_irrefl _ hm
        · exact h4 c m hc (by simp [hcn, hcr]) hm (by simp)
    refine ⟨fun c => ?_, h2.of_cons, fun c hc => h3 c (by simp [hc]), fun c m hc hcr hcm hm => ?_,
      fun c hc hcr => ?_⟩
    · by_cases hcn : c = node
      · subst hcn; rw [update_self]; simp [hnr]
      · rw [update_of_ne hcn, h1]; simp [hcn]
    · by_cases hcn : c = node
      · subst hcn; exact absurd (hrest m hm) (not_lt.2 hcm.le)
      · exact h4 c m hc (by simp [hcn, hcr]) hcm (by simp [hm])
    · rw [hsrc c hc hcr]
      by_cases hcn : c = node
      · subst hcn
        refine ⟨v, update_self .., ?_⟩
        have := aggregate_isAgg hagg
        have he : valid (nn.map d) = sources nbr dem d c := by
          unfold sources valid
          rw [List.filterMap_map, indexAll_inRange hnn, filterMap_filter_eq]
          · rfl
          · intro m _ hm
            have hm := of_decide_eq_false hm
            push Not at hm
            rw [h1]
            -- a NaN cell not above the head of the stack is on the stack
            by_contra hms
            have hmc : m ≠ c := fun e => hms (by rw [e]; simp)
            exact h4 m c hm.1 hms (lt_of_le_of_ne hm.2 hmc) (by simp)
        rwa [he] at this
      · rw [update_of_ne hcn]
        exact h5 c hc (by simp [hcn, hcr])
  · intro c; simp
  · rw [List.pairwise_reverse]
    exact (List.pairwise_lt_finRange N).filter _
  · intro c hc; simpa using hc
  · intro c m hc hcr; simp [hc] at hcr
  · intro c hc hcr; simp [hc] at hcr

/-! ### unknown methods -/

theorem aggregate_unknown {method : String} (hm : ¬ Known method) (elevs : List (Option K)) :
    aggregate method elevs = .err .notImplementedError := by
  unfold Known at hm
  simp only [List.mem_cons, List.not_mem_nil, or_false, not_or] at hm
  unfold aggregate
  rw [if_neg hm.1, if_neg hm.2.1, if_neg hm.2.2.1, if_neg hm.2.2.2]

/-- **C85, partial.**  An unknown method name raises `NotImplementedError` whenever there is a cell to
fill. -/
theorem C85_raises_partial {method : String} {nbr : Fin N → List ℕ} {dem : Fin N → Option K}
    (hm : ¬ Known method) (hr : ∀ c, ∀ n ∈ nbr c, n < N) (c : Fin N) (hc : dem c = none) (fuel : ℕ) :
    fillNan (fuel + 1) method nbr dem = .err .notImplementedError := by
  unfold fillNan
  have hmem : c ∈ ((List.finRange N).filter (fun n => (dem n).isNone)).reverse := by simp [hc]
  rcases hst : ((List.finRange N).filter (fun n => (dem n).isNone)).reverse with _ | ⟨a, l⟩
  · rw [hst] at hmem; cases hmem
  · obtain ⟨nn, hnn⟩ := indexAll_total (hr a)
    simp only [nanLoop, hnn, Res.bind_ok, aggregate_unknown hm, Res.bind_err]

/-- **C85, refuted.**  If no cell is NaN any method name is accepted and the DEM is returned as it is. -/
theorem C85_refuted (method : String) {nbr : Fin N → List ℕ} {dem : Fin N → Option K}
    (h : ∀ c, dem c ≠ none) (fuel : ℕ) : fillNan (fuel + 1) method nbr dem = .ok dem := by
  unfold fillNan
  have : (List.finRange N).filter (fun n => (dem n).isNone) = [] := by
    rw [List.filter_eq_nil_iff]
    intro c _
    have := h c
    simpa [Option.isNone_iff_eq_none] using this
  rw [this]; rfl

/-! ### concrete cases -/

/-- Two gaps: cell 4 of the 3 × 3 grid is filled from cells 0-3 and 5-8, where 5 was itself NaN and is
filled first, from the valid cells only. -/
def demG : Fin 9 → Option ℚ := ![some 1, some 2, some 3, some 4, none, none, some 6, some 7, some 10]
def outG : Fin 9 → Option ℚ :=
  ![some 1, some 2, some 3, some 4, some (77/16), some (11/2), some 6, some 7, some 10]
theorem runG : fillNan 3 "Mean" (queen 3 3) demG = .ok outG := by decide +kernel
example : sources (queen 3 3) demG outG 5 = [2, 3, 7, 10] := by decide +kernel
example : sources (queen 3 3) demG outG 4 = [1, 2, 3, 4, 11/2, 6, 7, 10] := by decide +kernel
example : ∃ v, outG 4 = some v ∧ IsAgg "Mean".toLower (sources (queen 3 3) demG outG 4) v :=
  C84_exact runG 4 (by decide +kernel)
def outM : Fin 9 → Option ℚ :=
  ![some 1, some 2, some 3, some 4, some (9/2), some 5, some 6, some 7, some 10]
theorem runM : fillNan 3 "median" (queen 3 3) demG = .ok outM := by decide +kernel
example : ∃ v, outM 5 = some v ∧ IsAgg "median".toLower (sources (queen 3 3) demG outM 5) v :=
  C84_exact runM 5 (by decide +kernel)
example : fillNan 1 "mode" (queen 3 3) demG = .err .notImplementedError :=
  C85_raises_partial (by unfold Known; decide +kernel) (by decide +kernel) 4 (by decide +kernel) 0
example : fillNan 1 "mode" (queen 1 3) ![some 1, some 2, some (3 : ℚ)]
    = .ok ![some 1, some 2, some (3 : ℚ)] := C85_refuted _ (by decide +kernel) 0

end Dany.Nan
