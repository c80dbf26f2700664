import Verif.Nan.Model
import Verif.Flood.Drain
import Verif.Flood.Burn
import Verif.Flood.Witness
import Mathlib.Algebra.Order.BigOperators.Group.List
import Mathlib.Tactic.FieldSimp
import Mathlib.Algebra.Order.Ring.Rat

/-!
# Properties C18–C20 of `fill_nan_values`
-/

namespace Dany.Nan

open Function Flood

variable {N : ℕ} {K : Type*} [Field K] [LinearOrder K] [IsStrictOrderedRing K]

/-! ### the aggregates stay within the range of the numbers -/

theorem mem_valid {elevs : List (Option K)} {v : K} : v ∈ valid elevs ↔ some v ∈ elevs := by
  simp [valid]

theorem mean_range {l : List K} (hl : l ≠ []) {lo hi : K} (h : ∀ v ∈ l, lo ≤ v ∧ v ≤ hi) :
    lo ≤ l.sum / (l.length : K) ∧ l.sum / (l.length : K) ≤ hi := by
  have hpos : (0 : K) < (l.length : K) := by
    have : 0 < l.length := List.length_pos_of_ne_nil hl
    exact_mod_cast this
  have h1 : (l.length : K) * lo ≤ l.sum := by
    have := List.card_nsmul_le_sum l lo (fun v hv => (h v hv).1)
    simpa using this
  have h2 : l.sum ≤ (l.length : K) * hi := by
    have := List.sum_le_card_nsmul l hi (fun v hv => (h v hv).2)
    simpa using this
  constructor
  · rw [le_div_iff₀ hpos, mul_comm]; exact h1
  · rw [div_le_iff₀ hpos, mul_comm]; exact h2

/-- Whatever the method: an aggregate of numbers between `lo` and `hi` lies between them, and the
aggregate is NaN only if there is no number. -/
theorem aggregate_spec {method : String} {elevs : List (Option K)} {r : Option K}
    (h : aggregate method elevs = .ok r) :
    (r = none ↔ valid elevs = []) ∧
    ∀ lo hi v, r = some v → (∀ x, some x ∈ elevs → lo ≤ x ∧ x ≤ hi) → lo ≤ v ∧ v ≤ hi := by
  unfold aggregate at h
  split_ifs at h with h1 h2 h3 h4
  · cases h
    unfold nanMean
    rcases hv : valid elevs with _ | ⟨a, l⟩
    · simp
    · refine ⟨by simp, ?_⟩
      rintro lo hi v hr hb
      cases hr
      rw [← hv]
      exact mean_range (by rw [hv]; simp) (fun x hx => hb x (mem_valid.1 hx))
  · cases h
    unfold nanMedian
    dsimp only
    have hlen : ((valid elevs).insertionSort (· ≤ ·)).length = (valid elevs).length :=
      (List.perm_insertionSort (· ≤ ·) _).length_eq
    rw [hlen]
    have hmem : ∀ i, i < (valid elevs).length →
        some (((valid elevs).insertionSort (· ≤ ·)).getD i 0) ∈ elevs := by
      intro i hi
      rw [← mem_valid, ← (List.perm_insertionSort (· ≤ ·) (valid elevs)).mem_iff]
      rw [List.getD_eq_getElem?_getD, List.getElem?_eq_getElem (by rw [hlen]; exact hi),
        Option.getD_some]
      exact List.getElem_mem _
    split
    · rename_i h0
      simp [List.length_eq_zero_iff.1 h0]
    · rename_i h0
      have hne : valid elevs ≠ [] := fun h => h0 (by rw [h]; rfl)
      split
      · refine ⟨by simp [hne], ?_⟩
        rintro lo hi v hr hb
        cases hr
        exact hb _ (hmem _ (by omega))
      · refine ⟨by simp [hne], ?_⟩
        rintro lo hi v hr hb
        cases hr
        obtain ⟨a1, a2⟩ := hb _ (hmem ((valid elevs).length / 2 - 1) (by omega))
        obtain ⟨b1, b2⟩ := hb _ (hmem ((valid elevs).length / 2) (by omega))
        constructor
        · rw [le_div_iff₀ (by norm_num)]; linarith
        · rw [div_le_iff₀ (by norm_num)]; linarith
  · unfold nanMin at h
    split at h
    · cases h
    · rcases hv : valid elevs with _ | ⟨a, l⟩
      · rw [hv] at h; cases h; simp
      · rw [hv] at h; cases h
        refine ⟨by simp, ?_⟩
        rintro lo hi v hr hb
        cases hr
        have := foldl_min_mem a l
        rw [← hv, mem_valid] at this
        exact hb _ this
  · unfold nanMax at h
    split at h
    · cases h
    · rcases hv : valid elevs with _ | ⟨a, l⟩
      · rw [hv] at h; cases h; simp
      · rw [hv] at h; cases h
        refine ⟨by simp, ?_⟩
        rintro lo hi v hr hb
        cases hr
        have := foldl_max_mem a l
        rw [← hv, mem_valid] at this
        exact hb _ this

/-! ### loop invariant -/

theorem nanLoop_inv {method : String} {nbr : Fin N → List ℕ}
    (P : List (Fin N) → (Fin N → Option K) → Prop)
    (hP : ∀ node rest dem nn v, P (node :: rest) dem → indexAll N (nbr node) = .ok nn →
      aggregate method (nn.map dem) = .ok (some v) → P rest (update dem node (some v)))
    (fuel : ℕ) (st : List (Fin N)) (dem out : Fin N → Option K) (hs : P st dem)
    (h : nanLoop method nbr fuel st dem = .ok out) : P [] out := by
  induction fuel generalizing st dem with
  | zero => cases h
  | succ k ih =>
    cases st with
    | nil => simp only [nanLoop] at h; cases h; exact hs
    | cons node rest =>
      simp only [nanLoop] at h
      obtain ⟨nn, h1, h⟩ := Res.bind_eq_ok.1 h
      obtain ⟨r, h2, h⟩ := Res.bind_eq_ok.1 h
      cases r with
      | none => exact ih _ _ hs h
      | some v => exact ih _ _ (hP _ _ _ _ _ hs h1 h2) h

/-- **C18.**  `fill_nan_values` never changes a cell that holds a number. -/
theorem C18_keeps_valid {fuel : ℕ} {method : String} {nbr : Fin N → List ℕ}
    {dem out : Fin N → Option K} (h : fillNan fuel method nbr dem = .ok out) (n : Fin N) (v : K)
    (hn : dem n = some v) : out n = some v := by
  refine (nanLoop_inv (fun st d => (∀ c ∈ st, dem c = none) ∧ ∀ c, dem c ≠ none → d c = dem c)
    ?_ fuel _ _ out ⟨?_, fun _ _ => rfl⟩ h).2 n (by simp [hn]) |>.trans hn
  · rintro node rest d nn w ⟨h1, h2⟩ _ _
    refine ⟨fun c hc => h1 c (by simp [hc]), fun c hc => ?_⟩
    have : c ≠ node := by rintro rfl; exact hc (h1 c (by simp))
    rw [update_of_ne this]; exact h2 c hc
  · intro c hc
    simpa using hc

/-- **C19.**  When `fill_nan_values` returns, every cell holds a number, and if all input numbers lie
between `lo` and `hi` so do all output numbers. -/
theorem C19_range {fuel : ℕ} {method : String} {nbr : Fin N → List ℕ}
    {dem out : Fin N → Option K} (h : fillNan fuel method nbr dem = .ok out) {lo hi : K}
    (hb : ∀ n v, dem n = some v → lo ≤ v ∧ v ≤ hi) (n : Fin N) :
    ∃ v, out n = some v ∧ lo ≤ v ∧ v ≤ hi := by
  have := nanLoop_inv (fun st d => (∀ c, d c = none → c ∈ st) ∧
      ∀ c v, d c = some v → lo ≤ v ∧ v ≤ hi) ?_ fuel _ _ out ⟨?_, hb⟩ h
  · cases ho : out n with
    | none => exact absurd (this.1 n ho) (by simp)
    | some v => exact ⟨v, rfl, this.2 n v ho⟩
  · rintro node rest d nn w ⟨h1, h2⟩ _ hagg
    refine ⟨fun c hc => ?_, fun c v hc => ?_⟩
    · by_cases hcn : c = node
      · subst hcn; rw [update_self] at hc; cases hc
      · rw [update_of_ne hcn] at hc
        exact (List.mem_cons.1 (h1 c hc)).resolve_left hcn
    · by_cases hcn : c = node
      · subst hcn
        rw [update_self] at hc
        cases hc
        refine (aggregate_spec hagg).2 lo hi _ rfl ?_
        intro x hx
        obtain ⟨m, _, hm⟩ := List.mem_map.1 hx
        exact h2 m x hm
      · rw [update_of_ne hcn] at hc
        exact h2 c v hc
  · intro c hc
    simp [hc]

/-! ### termination -/

/-- Every NaN cell has a neighbour that holds a number or is a NaN cell with a higher number. -/
def Fillable (nbr : Fin N → List ℕ) (dem : Fin N → Option K) : Prop :=
  ∀ c, dem c = none → ∃ m, Adj nbr c m ∧ (dem m ≠ none ∨ c < m)

/-- The supported method names. -/
def Known (method : String) : Prop := method.toLower ∈ ["mean", "median", "min", "max"]

theorem aggregate_total {method : String} (hm : Known method) {elevs : List (Option K)}
    (h : elevs ≠ []) : ∃ r, aggregate method elevs = .ok r := by
  unfold aggregate
  simp only [Known, List.mem_cons, List.not_mem_nil, or_false] at hm
  split_ifs with h1 h2 h3 h4
  · exact ⟨_, rfl⟩
  · exact ⟨_, rfl⟩
  · unfold nanMin; rw [if_neg h]; split <;> exact ⟨_, rfl⟩
  · unfold nanMax; rw [if_neg h]; split <;> exact ⟨_, rfl⟩
  · rcases hm with h | h | h | h <;> contradiction

theorem aggregate_some {method : String} (hm : Known method) {elevs : List (Option K)} {x : K}
    (h : some x ∈ elevs) : ∃ v, aggregate method elevs = .ok (some v) := by
  obtain ⟨r, hr⟩ := aggregate_total hm (List.ne_nil_of_mem h)
  cases r with
  | none =>
    have := (aggregate_spec hr).1.1 rfl
    have h2 := mem_valid.2 h
    rw [this] at h2; cases h2
  | some v => exact ⟨v, hr⟩

theorem aggregate_none {method : String} (hm : Known method) {elevs : List (Option K)}
    (hne : elevs ≠ []) (h : ∀ x, some x ∉ elevs) : aggregate method elevs = .ok none := by
  obtain ⟨r, hr⟩ := aggregate_total hm hne
  rw [hr]
  have hv : valid elevs = [] := by
    rw [List.eq_nil_iff_forall_not_mem]; intro x hx; exact h x (mem_valid.1 hx)
  rw [(aggregate_spec hr).1.2 hv]

/-- **C20, partial** (when it terminates).  With in-range neighbours and a known method,
`fill_nan_values` returns, after exactly one step per NaN cell, if every NaN cell has a neighbour
that is a number or a higher-numbered NaN cell.  Missing: gaps that touch a valid cell but violate
this ordering condition; for those the claim is false, see `C20_diverges` and `C20_refuted`. -/
theorem C20_terminates_partial {method : String} {nbr : Fin N → List ℕ} {dem : Fin N → Option K}
    (hm : Known method) (hr : ∀ c, ∀ n ∈ nbr c, n < N) (hf : Fillable nbr dem) :
    ∃ out, ∀ fuel, N + 1 ≤ fuel → fillNan fuel method nbr dem = .ok out := by
  have key : ∀ (st : List (Fin N)) (d : Fin N → Option K), st.Pairwise (· > ·) →
      (∀ c, d c = none ↔ c ∈ st) → (∀ c ∈ st, ∃ m, Adj nbr c m ∧ (d m ≠ none ∨ c < m)) →
      ∃ out, ∀ fuel, st.length + 1 ≤ fuel → nanLoop method nbr fuel st d = .ok out := by
    intro st
    induction st with
    | nil =>
      intro d _ _ _
      refine ⟨d, fun fuel hf => ?_⟩
      obtain ⟨k, rfl⟩ := Nat.exists_eq_add_of_le' hf
      simp [nanLoop]
    | cons node rest ih =>
      intro d hsort hnone hfill
      obtain ⟨nn, hnn⟩ := indexAll_total (hr node)
      have hlt := (List.pairwise_cons.1 hsort).1
      -- the popped cell is the highest NaN cell left, so its witness neighbour holds a number
      obtain ⟨m, ha, hmv⟩ := hfill node (by simp)
      have hmv : d m ≠ none := by
        rcases hmv with h | h
        · exact h
        · intro hmn
          have hmem := (hnone m).1 hmn
          rcases List.mem_cons.1 hmem with rfl | hmem
          · exact lt_irrefl _ h
          · exact absurd (hlt m hmem) (not_lt.2 h.le)
      obtain ⟨x, hx⟩ := Option.ne_none_iff_exists'.1 hmv
      obtain ⟨v, hv⟩ := aggregate_some (K := K) hm (x := x) (elevs := nn.map d)
        (List.mem_map.2 ⟨m, (indexAll_ok hnn m).2 ha, hx⟩)
      have hnr : node ∉ rest := fun h => lt_irrefl _ (hlt node h)
      obtain ⟨out, hout⟩ := ih (update d node (some v)) (List.pairwise_cons.1 hsort).2 (by
          intro c
          by_cases hc : c = node
          · subst hc; simp [hnr]
          · rw [update_of_ne hc, hnone]; simp [hc]) (by
          intro c hc
          obtain ⟨m', ha', h'⟩ := hfill c (by simp [hc])
          refine ⟨m', ha', h'.imp_left fun h => ?_⟩
          by_cases hm' : m' = node
          · subst hm'; simp
          · rw [update_of_ne hm']; exact h)
      refine ⟨out, fun fuel hf => ?_⟩
      obtain ⟨k, rfl⟩ : ∃ k, fuel = k + 1 := ⟨fuel - 1, by simp at hf; omega⟩
      simp only [nanLoop, hnn, Res.bind_ok, hv]
      exact hout _ (by simp at hf; omega)
  obtain ⟨out, h⟩ := key (((List.finRange N).filter (fun n => (dem n).isNone)).reverse) dem
    (by
      rw [List.pairwise_reverse]
      exact (List.pairwise_lt_finRange N).filter _)
    (by intro c; simp)
    (by intro c hc; exact hf c (by simpa using hc))
  refine ⟨out, fun fuel hfu => h fuel ?_⟩
  have : (((List.finRange N).filter (fun n => (dem n).isNone)).reverse).length ≤ N := by
    rw [List.length_reverse]
    exact (List.length_filter_le _ _).trans (by simp)
  omega

/-- **C20** (when it does not terminate).  If some NaN cell has neighbours but all of them are NaN
cells with a lower number, the loop never ends (unless an exception ends it): no amount of fuel
gives a result. -/
theorem C20_diverges {method : String} {nbr : Fin N → List ℕ} {dem : Fin N → Option K}
    (hm : Known method) (hr : ∀ c, ∀ n ∈ nbr c, n < N) (hne : ∀ c, nbr c ≠ [])
    (hf : ¬ Fillable nbr dem) (fuel : ℕ) : fillNan fuel method nbr dem = .hang := by
  obtain ⟨c, hc, hbad⟩ : ∃ c, dem c = none ∧ ∀ m, Adj nbr c m → dem m = none ∧ ¬ c < m := by
    unfold Fillable at hf
    push Not at hf
    obtain ⟨c, hc, h⟩ := hf
    exact ⟨c, hc, fun m ha => ⟨(h m ha).1, not_lt.2 (h m ha).2⟩⟩
  have hnonempty : ∀ c (nn : List (Fin N)), indexAll N (nbr c) = .ok nn → nn ≠ [] := by
    intro c nn hnn h
    subst h
    obtain ⟨x, hx⟩ := List.exists_mem_of_ne_nil _ (hne c)
    have := (indexAll_ok hnn ⟨x, hr c x hx⟩).2 hx
    cases this
  have key : ∀ (fuel : ℕ) (st : List (Fin N)) (d : Fin N → Option K), st.Pairwise (· > ·) →
      (∀ c, d c = none ↔ c ∈ st) → c ∈ st → (∀ x, dem x = none → x ≤ c → x ∈ st) →
      nanLoop method nbr fuel st d = .hang := by
    intro fuel
    induction fuel with
    | zero => intros; rfl
    | succ k ih =>
      intro st d hsort hnone hcs hlow
      cases st with
      | nil => cases hcs
      | cons node rest =>
        obtain ⟨nn, hnn⟩ := indexAll_total (hr node)
        simp only [nanLoop, hnn, Res.bind_ok]
        by_cases hcn : c = node
        · subst hcn
          have hall : ∀ x, some x ∉ nn.map d := by
            intro x hx
            obtain ⟨m, hmn, hmx⟩ := List.mem_map.1 hx
            obtain ⟨h1, h2⟩ := hbad m ((indexAll_ok hnn m).1 hmn)
            -- `m` is a NaN cell not above `c`; everything below the top is still NaN
            have := (hnone m).2 (hlow m h1 (not_lt.1 h2))
            rw [this] at hmx; cases hmx
          rw [aggregate_none hm (by simpa using hnonempty c nn hnn) hall, Res.bind_ok]
          exact ih _ _ hsort hnone hcs hlow
        · obtain ⟨r, hr'⟩ := aggregate_total (K := K) hm (elevs := nn.map d)
            (by simpa using hnonempty node nn hnn)
          rw [hr', Res.bind_ok]
          cases r with
          | none => exact ih _ _ hsort hnone hcs hlow
          | some v =>
            have hcr := (List.mem_cons.1 hcs).resolve_left hcn
            have hgt : c < node := (List.pairwise_cons.1 hsort).1 c hcr
            refine ih _ _ (List.pairwise_cons.1 hsort).2 ?_ hcr (fun x hx hxc =>
              (List.mem_cons.1 (hlow x hx hxc)).resolve_left (by rintro rfl; exact absurd hgt (not_lt.2 hxc)))
            intro x
            have hnr : node ∉ rest := fun h => lt_irrefl _ ((List.pairwise_cons.1 hsort).1 node h)
            by_cases hx : x = node
            · subst hx; simp [hnr]
            · rw [update_of_ne hx, hnone]; simp [hx]
  exact key fuel _ dem (by
      rw [List.pairwise_reverse]
      exact (List.pairwise_lt_finRange N).filter _) (by intro c; simp) (by simp [hc])
    (by intro x hx _; simp [hx])

/-- **C20**, exactly: on grids with in-range, non-empty neighbour lists and a known method the
function returns if and only if the DEM is fillable in the above sense. -/
theorem C20_exact {method : String} {nbr : Fin N → List ℕ} {dem : Fin N → Option K}
    (hm : Known method) (hr : ∀ c, ∀ n ∈ nbr c, n < N) (hne : ∀ c, nbr c ≠ []) :
    (∃ fuel out, fillNan fuel method nbr dem = .ok out) ↔ Fillable nbr dem := by
  constructor
  · rintro ⟨fuel, out, h⟩
    by_contra hf
    rw [C20_diverges hm hr hne hf] at h
    cases h
  · intro hf
    obtain ⟨out, h⟩ := C20_terminates_partial hm hr hf
    exact ⟨_, out, h _ (le_refl _)⟩

/-- A gap whose cells are all connected, through NaN cells, to a cell holding a number. -/
def GapsTouchValid (nbr : Fin N → List ℕ) (dem : Fin N → Option K) : Prop :=
  ∀ c, dem c = none → Reach nbr (fun n => dem n ≠ none) c

/-- **C20 is false of the code**: a row of three cells with one valid cell at the left end.  The gap
touches the valid cell, yet `fill_nan_values` never returns. -/
theorem C20_refuted : ∃ (nbr : Fin 3 → List ℕ) (dem : Fin 3 → Option ℚ),
    SymmNbr nbr ∧ (∀ c, ∀ n ∈ nbr c, n < 3) ∧ GapsTouchValid nbr dem ∧
    ∀ fuel, fillNan fuel "mean" nbr dem = .hang := by
  refine ⟨queen 1 3, ![some 5, none, none], by unfold SymmNbr Adj; decide +kernel, by decide +kernel, ?_, ?_⟩
  · have h0 : Reach (queen 1 3) (fun n => (![some 5, none, none] : Fin 3 → Option ℚ) n ≠ none) 0 :=
      .seed (by decide +kernel)
    have h1 : Reach (queen 1 3) (fun n => (![some 5, none, none] : Fin 3 → Option ℚ) n ≠ none) 1 :=
      .step h0 (by unfold Adj; decide +kernel)
    have h2 : Reach (queen 1 3) (fun n => (![some 5, none, none] : Fin 3 → Option ℚ) n ≠ none) 2 :=
      .step h1 (by unfold Adj; decide +kernel)
    intro c _
    have : c = 0 ∨ c = 1 ∨ c = 2 := by omega
    rcases this with rfl | rfl | rfl
    exacts [h0, h1, h2]
  · intro fuel
    refine C20_diverges (by unfold Known; decide +kernel) (by decide +kernel) (by decide +kernel) ?_ fuel
    unfold Fillable Adj
    decide +kernel

/-! ### concrete cases -/

/-- The mirror image (valid cell at the right end) is fillable and gets filled. -/
def demR : Fin 3 → Option ℚ := ![none, none, some 5]
theorem fillableR : Fillable (queen 1 3) demR := by unfold Fillable Adj; decide +kernel
example : ∃ out, ∀ fuel, 3 + 1 ≤ fuel → fillNan fuel "Median" (queen 1 3) demR = .ok out :=
  C20_terminates_partial (by unfold Known; decide +kernel) (by decide +kernel) fillableR
example : fillNan 4 "Median" (queen 1 3) demR = .ok ![some 5, some 5, some 5] := by decide +kernel

/-- A 3 × 3 grid with a gap in the middle. -/
def dem9 : Fin 9 → Option ℚ := ![some 1, some 2, some 3, some 4, none, some 5, some 6, some 7, some 9]
def out9 : Fin 9 → Option ℚ := ![some 1, some 2, some 3, some 4, some (37/8), some 5, some 6, some 7, some 9]
theorem run9 : fillNan 2 "mean" (queen 3 3) dem9 = .ok out9 := by decide +kernel
example : out9 8 = some 9 := C18_keeps_valid run9 8 9 (by decide +kernel)
example : ∃ v, out9 4 = some v ∧ 1 ≤ v ∧ v ≤ 9 :=
  C19_range run9 (by decide +kernel) 4

end Dany.Nan
