import Verif.Float.Nan
import Verif.Float.Rect
import Verif.Pipe.Gaps

/-!
# Property C200: elevations with gaps on structured grids, in `float64`

C161 with rounded numbers: `fill_nan_values`, `fill_sinks` and `flow_directions` one after the other.
-/

namespace Dany.Float

open Function Flow Pipe Nan

section

variable {N : ℕ}

/-- where the numbers are -/
private def mask (dem : Fin N → Option ℚ) (n : Fin N) : Bool := (dem n).isSome

private theorem valid_nil {l : List (Option ℚ)} : valid l = [] ↔ ∀ x ∈ l, x.isSome = false := by
  constructor
  · intro h x hx
    cases x with
    | none => rfl
    | some v =>
      have : v ∈ valid l := mem_valid.2 hx
      rw [h] at this
      cases this
  · intro h
    rcases hv : valid l with _ | ⟨a, k⟩
    · rfl
    · have : a ∈ valid l := by rw [hv]; simp
      have := h _ (mem_valid.1 this)
      cases this

private theorem agg_like (sum : List ℚ → ℚ) (method : String) {l l' : List (Option ℚ)}
    (he : l = [] ↔ l' = []) (hv : valid l = [] ↔ valid l' = []) :
    (∃ e, aggregateF rnd64 sum method l = .err e ∧ aggregate method l' = .err e) ∨
    (aggregateF rnd64 sum method l = .ok none ∧ aggregate method l' = .ok none) ∨
    ∃ v v', aggregateF rnd64 sum method l = .ok (some v) ∧ aggregate method l' = .ok (some v') := by
  unfold aggregateF aggregate
  split_ifs with h1 h2 h3 h4
  · unfold nanMeanF nanMean
    rcases e : valid l with _ | ⟨a, k⟩
    · rw [hv.1 e]; exact .inr (.inl ⟨rfl, rfl⟩)
    · rcases e' : valid l' with _ | ⟨a', k'⟩
      · rw [hv.2 e'] at e; cases e
      · exact .inr (.inr ⟨_, _, rfl, rfl⟩)
  · unfold nanMedianF nanMedian
    by_cases e : valid l = []
    · rw [e, hv.1 e]; exact .inr (.inl ⟨rfl, rfl⟩)
    · have e' : valid l' ≠ [] := fun h => e (hv.2 h)
      have p : ((valid l).insertionSort (· ≤ ·)).length ≠ 0 := by simpa using e
      have p' : ((valid l').insertionSort (· ≤ ·)).length ≠ 0 := by simpa using e'
      refine .inr (.inr ?_)
      simp only [if_neg p, if_neg p']
      split <;> split <;> exact ⟨_, _, rfl, rfl⟩
  · unfold nanMin
    by_cases e0 : l = []
    · rw [if_pos e0, if_pos (he.1 e0)]; exact .inl ⟨_, rfl, rfl⟩
    · rw [if_neg e0, if_neg (fun h => e0 (he.2 h))]
      rcases e : valid l with _ | ⟨a, k⟩
      · rw [hv.1 e]; exact .inr (.inl ⟨rfl, rfl⟩)
      · rcases e' : valid l' with _ | ⟨a', k'⟩
        · rw [hv.2 e'] at e; cases e
        · exact .inr (.inr ⟨_, _, rfl, rfl⟩)
  · unfold nanMax
    by_cases e0 : l = []
    · rw [if_pos e0, if_pos (he.1 e0)]; exact .inl ⟨_, rfl, rfl⟩
    · rw [if_neg e0, if_neg (fun h => e0 (he.2 h))]
      rcases e : valid l with _ | ⟨a, k⟩
      · rw [hv.1 e]; exact .inr (.inl ⟨rfl, rfl⟩)
      · rcases e' : valid l' with _ | ⟨a', k'⟩
        · rw [hv.2 e'] at e; cases e
        · exact .inr (.inr ⟨_, _, rfl, rfl⟩)
  · exact .inl ⟨_, rfl, rfl⟩

private def Alike : Res (Fin N → Option ℚ) → Res (Fin N → Option ℚ) → Prop
  | .ok a, .ok b => mask a = mask b
  | .err a, .err b => a = b
  | .hang, .hang => True
  | _, _ => False

private theorem loop_alike (sum : List ℚ → ℚ) (method : String) (nbr : Fin N → List ℕ) : ∀ (k : ℕ)
    (st : List (Fin N)) (d d' : Fin N → Option ℚ), mask d = mask d' →
    Alike (nanLoopWith (aggregateF rnd64 sum method) nbr k st d) (nanLoop method nbr k st d')
  | 0, _, _, _, _ => trivial
  | _ + 1, [], _, _, h => h
  | k + 1, node :: rest, d, d', h => by
    simp only [nanLoopWith, nanLoop]
    cases hi : Flood.indexAll N (nbr node) with
    | err e => exact rfl
    | hang => trivial
    | ok nn =>
      simp only [Res.bind_ok]
      have hm : ∀ n, (d n).isSome = (d' n).isSome := fun n => congrFun h n
      have hl : valid (nn.map d) = [] ↔ valid (nn.map d') = [] := by
        rw [valid_nil, valid_nil]
        simp only [List.mem_map, forall_exists_index, and_imp, forall_apply_eq_imp_iff₂, hm]
      rcases agg_like sum method (l := nn.map d) (l' := nn.map d') (by simp) hl with
        ⟨e, h1, h2⟩ | ⟨h1, h2⟩ | ⟨v, v', h1, h2⟩
      · rw [h1, h2]; exact rfl
      · rw [h1, h2]
        exact loop_alike sum method nbr k (node :: rest) d d' h
      · rw [h1, h2]
        refine loop_alike sum method nbr k rest _ _ ?_
        funext n
        unfold mask
        by_cases e : n = node
        · subst e; rw [update_self, update_self]; rfl
        · rw [update_of_ne e, update_of_ne e]; exact hm n

/-- **C200.**  Whether `fill_nan_values` returns does not depend on rounding: in double precision it returns
(runs on, raises) after the same number of steps as with exact arithmetic. -/
theorem C200_returns_iff (fuel : ℕ) (sum : List ℚ → ℚ) (method : String) (nbr : Fin N → List ℕ)
    (dem : Fin N → Option ℚ) :
    ((∃ out, fillNanF fuel sum method nbr dem = .ok out) ↔ ∃ out, fillNan fuel method nbr dem = .ok out) ∧
    (fillNanF fuel sum method nbr dem = .hang ↔ fillNan fuel method nbr dem = .hang) ∧
    ∀ e, fillNanF fuel sum method nbr dem = .err e ↔ fillNan fuel method nbr dem = .err e := by
  have h := loop_alike sum method nbr fuel (((List.finRange N).filter (fun n => (dem n).isNone)).reverse) dem dem rfl
  have e1 : fillNanF fuel sum method nbr dem = nanLoopWith (aggregateF rnd64 sum method) nbr fuel
    (((List.finRange N).filter (fun n => (dem n).isNone)).reverse) dem := rfl
  have e2 : fillNan fuel method nbr dem = nanLoop method nbr fuel
    (((List.finRange N).filter (fun n => (dem n).isNone)).reverse) dem := rfl
  rw [← e1, ← e2] at h
  revert h
  cases fillNanF fuel sum method nbr dem <;> cases fillNan fuel method nbr dem <;> intro h <;>
    first | exact h.elim | skip
  · simp
  · cases h; simp
  · simp

/-- more steps give the same result -/
private theorem loop_fuel {agg : List (Option ℚ) → Res (Option ℚ)} {nbr : Fin N → List ℕ} : ∀ (k : ℕ)
    (st : List (Fin N)) (d out : Fin N → Option ℚ), nanLoopWith agg nbr k st d = .ok out →
    ∀ j, k ≤ j → nanLoopWith agg nbr j st d = .ok out
  | 0, _, _, _, h, _, _ => by cases h
  | k + 1, [], d, out, h, j, hj => by
    obtain ⟨i, rfl⟩ : ∃ i, j = i + 1 := ⟨j - 1, by omega⟩
    exact h
  | k + 1, node :: rest, d, out, h, j, hj => by
    obtain ⟨i, rfl⟩ : ∃ i, j = i + 1 := ⟨j - 1, by omega⟩
    simp only [nanLoopWith] at h ⊢
    obtain ⟨nn, h1, h⟩ := Res.bind_eq_ok.1 h
    obtain ⟨r, h2, h⟩ := Res.bind_eq_ok.1 h
    rw [h1, Res.bind_ok, h2, Res.bind_ok]
    cases r with
    | none => exact loop_fuel k _ _ _ h i (by omega)
    | some v => exact loop_fuel k _ _ _ h i (by omega)

theorem fillNanF_fuel {k : ℕ} {sum : List ℚ → ℚ} {method : String} {nbr : Fin N → List ℕ}
    {dem out : Fin N → Option ℚ} (h : fillNanF k sum method nbr dem = .ok out) {j : ℕ} (hj : k ≤ j) :
    fillNanF j sum method nbr dem = .ok out := loop_fuel k _ _ _ h j hj

/-- numbers stay -/
theorem fillNanF_keeps {k : ℕ} {sum : List ℚ → ℚ} {method : String} {nbr : Fin N → List ℕ}
    {dem out : Fin N → Option ℚ} (h : fillNanF k sum method nbr dem = .ok out) {n : Fin N} {v : ℚ}
    (hn : dem n = some v) : out n = some v := by
  have := nanLoopWith_inv (fun st d => n ∉ st ∧ d n = some v) ?_ k _ _ out ⟨by simp [hn], hn⟩ h
  · exact this.2
  · rintro node rest d nn w ⟨h1, h2⟩ _ _
    refine ⟨fun h => h1 (List.mem_cons_of_mem _ h), ?_⟩
    rw [update_of_ne (fun e => h1 (by rw [e]; simp))]
    exact h2

theorem length_inRange : ∀ {l : List ℕ}, (∀ n ∈ l, n < N) → (inRange N l).length = l.length
  | [], _ => rfl
  | a :: l, h => by
    have e : inRange N (a :: l) = ⟨a, h a (by simp)⟩ :: inRange N l := by
      unfold inRange
      rw [List.filterMap_cons, dif_pos (h a (by simp))]
    rw [e, List.length_cons, List.length_cons, length_inRange fun n hn => h n (List.mem_cons_of_mem _ hn)]

theorem gaps_le (dem : Fin N → Option ℚ) : gaps dem ≤ N := by
  unfold gaps
  exact (List.length_filter_le _ _).trans (by simp)

end

variable {nrow ncol : ℕ} {g : Flood.Grid (nrow * ncol)} {L : Layout nrow ncol} {G : Dirs.Geo (nrow * ncol) ℚ} {b δ : ℝ}

/-- **C200**, gap filling: on a structured grid of 2 to 999999 cells with elevations between `lo > 0` and `hi`, one of them
in the last corner (`Corner`, as in C161), `fill_nan_values` in double precision returns, keeps every number, and fills every
gap with a double within `hi / 10⁸` of the range of the input. -/
theorem C200_gaps {sum : List ℚ → ℚ} (hs : SumOK rnd64 sum) {method : String} (hm : Known method) (hq : Queen g)
    (hv : g.iverts = Edge.structuredVerts nrow ncol) (h2 : 2 ≤ nrow * ncol) (hN : nrow * ncol < 1000000)
    {dem : Fin (nrow * ncol) → Option ℚ} (hd : Doubles dem)
    (hcorner : ∃ m, Corner m ∧ dem m ≠ none) {lo hi : ℚ} (hlo : 0 ≤ lo) (hhi : 2 ^ (-1022 : ℤ) ≤ hi)
    (hb : ∀ n v, dem n = some v → lo ≤ v ∧ v ≤ hi) :
    ∃ v : Fin (nrow * ncol) → double.Num,
      (∀ fuel, nrow * ncol + 1 ≤ fuel →
        fillNanF fuel sum method g.nbr dem = .ok (Dirs.filled fun n => (v n).val)) ∧
      (∀ n x, dem n = some x → (v n).val = x) ∧
      ∀ n, lo - hi / 10 ^ 8 ≤ (v n).val ∧ (v n).val ≤ hi + hi / 10 ^ 8 := by
  obtain ⟨r, hr⟩ := C20_terminates_partial hm (queen_range hq) ((fillable_iff hq hv h2).2 hcorner)
  obtain ⟨out, hout⟩ := (C200_returns_iff (nrow * ncol + 1) sum method g.nbr dem).1.2 ⟨r, hr _ le_rfl⟩
  have hhi0 : 0 ≤ hi := (zpow_pos' _).le.trans hhi
  have h8 : ∀ n, (g.nbr n).length ≤ 8 := fun n => by
    have h := nbrs_le_eight hq hv (C160_good hq hv h2 (by simp)) n
    rwa [nbrs, length_inRange (queen_range hq n)] at h
  have hval : ∀ n, ∃ v, out n = some v ∧ v ∈ Double ∧ lo - hi / 10 ^ 8 ≤ v ∧ v ≤ hi + hi / 10 ^ 8 := by
    intro n
    have hpos : 0 ≤ hi / 10 ^ 8 := by positivity
    by_cases hmean : method.toLower = "mean"
    · obtain ⟨v, e, h1, _⟩ := C137_mean hs (D := 8) h8 hd (M := hi) hhi (lo := lo) (hi := hi) (by linarith) le_rfl hb hout
        hmean n
      obtain ⟨v', e', h3, h4⟩ := C137_small hs h8 hd ((gaps_le dem).trans (by omega)) (M := hi) hhi (lo := lo) (hi := hi)
        (by linarith) le_rfl hb hout hmean n
      rw [e] at e'
      cases e'
      exact ⟨v, e, h1, h3, h4⟩
    · obtain ⟨v, e, h1, p, q, x, y, hp, hq', hx, hy⟩ := C137_median_min_max hmean hd hout n
      have := (hb p x hp).1
      have := (hb q y hq').2
      exact ⟨v, e, h1, by linarith, by linarith⟩
  choose w hw1 hw2 hw3 using hval
  have hfun : out = Dirs.filled fun n => ((⟨w n, hw2 n⟩ : double.Num)).val := funext hw1
  refine ⟨fun n => ⟨w n, hw2 n⟩, fun fuel hf => ?_, fun n x hx => ?_, hw3⟩
  · rw [fillNanF_fuel hout hf, hfun]
  · have := fillNanF_keeps hout hx
    rw [hw1 n] at this
    exact Option.some.inj this

/-- **C200**, the chain.  On a structured grid of 2 to 999999 cells whose centres are computed as in C162, for every `float64`
DEM with gaps, a number in the last corner, elevations between `lo` and `hi` with `0 < hi ≤ 10⁷ lo`, `hi ≤ 8·10⁹`, and a relief of at
most `2·10⁹` cell widths: `fill_nan_values`, `fill_sinks` and `flow_directions` return one after the other, all in double
precision; the final surface lies nowhere below a number of the DEM and not more than 24 and a 10⁸-th above the
highest; and if the edge cells without lower neighbour are named terminal and tie with other cells at most in easy ties
(`CleanEnds`), water runs strictly downhill from every cell, gap or not, to the edge of the grid. -/
theorem C200_chain {sum : List ℚ → ℚ} (hs : SumOK rnd64 sum) {method : String} (hm : Known method)
    (hM : Measured L G b δ) (hq : Queen g) (hv : g.iverts = Edge.structuredVerts nrow ncol)
    (h2 : 2 ≤ nrow * ncol) (hN : nrow * ncol < 1000000)
    {dem : Fin (nrow * ncol) → Option ℚ} (hd : Doubles dem) (hcorner : ∃ m, Corner m ∧ dem m ≠ none) {pr : Promo}
    {lo hi D thr : ℚ} (hb : ∀ n v, dem n = some v → lo ≤ v ∧ v ≤ hi) (hpos : 2 ^ (-800 : ℤ) ≤ hi)
    (hratio : hi ≤ 10 ^ 7 * lo) (hsize : hi ≤ 8 * 10 ^ 9) (hD : D ∈ Double) (hrel : hi + hi / 10 ^ 7 + 24 - lo ≤ D)
    (hDb : (D : ℝ) ≤ 2 * 10 ^ 9 * b) :
    ∃ (v : Fin (nrow * ncol) → double.Num) (f : Fin (nrow * ncol) → ℚ) (out : Fin (nrow * ncol) → ℤ),
      (∀ fuel, nrow * ncol + 1 ≤ fuel →
        fillNanF fuel sum method g.nbr dem = .ok (Dirs.filled fun n => (v n).val)) ∧
      (∀ fuel, nrow * ncol + 1 ≤ fuel → fillSinksF fuel double pr eps6 g v none "priority" = .ok f) ∧
      (∀ fuel, 10 * (nrow * ncol) + 11 ≤ fuel → Dirs.flowDirections fuel G (Dirs.filled f) (10 ^ 10)
        (Dirs.table (nbrs g)) thr (ends g none f) = .ok out) ∧
      (∀ n x, dem n = some x → x ≤ f n) ∧ (∀ n, f n ≤ hi + hi / 10 ^ 8 + 24) ∧
      (Dirs.CleanEnds G (Dirs.filled f) thr (ends g none f) (nbrs g) →
        ∃ d : Fin (nrow * ncol) → Fin (nrow * ncol), Legal out d ∧ (∀ n, ¬ OnCycle d n) ∧
          (∀ n, d n ≠ n → Flood.Adj g.nbr n (d n) ∧ f (d n) < f n) ∧
          ∀ n, ∃ e, Reaches d n e ∧ d e = e ∧ (rowOf e = 0 ∨ rowOf e + 1 = nrow ∨ colOf e = 0 ∨ colOf e + 1 = ncol)) := by
  have hhi : (2 : ℚ) ^ (-1022 : ℤ) ≤ hi := le_trans (zpow_le_zpow_right₀ (by norm_num) (by norm_num)) hpos
  have hhi0 : 0 < hi := lt_of_lt_of_le (zpow_pos' _) hpos
  have hlo : hi / 10 ^ 7 ≤ lo := by rw [div_le_iff₀ (by norm_num)]; linarith
  have hlo0 : 0 ≤ lo := le_trans (by positivity) hlo
  obtain ⟨v, hv1, hv2, hv3⟩ := C200_gaps hs hm hq hv h2 hN hd hcorner hlo0 hhi hb
  have hvpos : ∀ n, hi * (9 / 10 ^ 8) ≤ (v n).val := fun n => by
    have := (hv3 n).1
    have e : hi / 10 ^ 7 - hi / 10 ^ 8 = hi * (9 / 10 ^ 8) := by ring
    linarith
  have hv0 : ∀ n, 0 ≤ (v n).val := fun n => le_trans (by positivity) (hvpos n)
  obtain ⟨f, out, hf, hb1, hout, hend⟩ := C162_chain (pr := pr) (thr := thr) (lo := lo - hi / 10 ^ 8)
    (hi := hi + hi / 10 ^ 8) (D := D) hM hq hv h2 hN (dem := v) (fun n => (hv3 n).1) (fun n => (hv3 n).2)
    (fun n => by
      rw [abs_of_nonneg (hv0 n)]
      refine (hv3 n).2.trans ?_
      linarith)
    (fun n => Grain.of_double (.inr (by
      rw [abs_of_nonneg (hv0 n)]
      refine le_trans ?_ (hvpos n)
      have h1 : (2 : ℚ) ^ (-848 : ℤ) ≤ 2 ^ (-800 : ℤ) * 2 ^ (-48 : ℤ) := by
        rw [← zpow_add₀ (by norm_num)]; norm_num
      have h3 : (2 : ℚ) ^ (-48 : ℤ) ≤ 9 / 10 ^ 8 := by norm_num
      exact h1.trans (mul_le_mul hpos h3 (zpow_pos' _).le hhi0.le))))
    hD (by have e : hi / 10 ^ 7 = 10 * (hi / 10 ^ 8) := by ring
           linarith [(by positivity : 0 ≤ hi / 10 ^ 8)]) hDb
  refine ⟨v, f, out, hv1, hf, hout, fun n x hx => ?_, fun n => (hb1 n).2, hend⟩
  rw [← hv2 n x hx]
  exact (hb1 n).1

/-! ### A concrete case -/

/-- non-vacuity: the grid of 30 × 40 cells of C162, elevations between 1 and 8848, given in its last cell and
anywhere else -/
example (dem : Fin (30 * 40) → Option ℚ) (hd : Doubles dem) (h : ∀ n v, dem n = some v → 1 ≤ v ∧ v ≤ 8848)
    (hl : dem ⟨1199, by norm_num⟩ ≠ none) :
    ∃ (v : Fin (30 * 40) → double.Num) (f : Fin (30 * 40) → ℚ) (out : Fin (30 * 40) → ℤ),
      (∀ fuel, 1201 ≤ fuel → fillNanF fuel (sumSeq rnd64) "mean" (rectGrid 30 40).nbr dem =
        .ok (Dirs.filled fun n => (v n).val)) ∧
      (∀ fuel, 1201 ≤ fuel → fillSinksF fuel double .weak eps6 (rectGrid 30 40) v none "priority" = .ok f) ∧
      ∀ fuel, 12011 ≤ fuel → Dirs.flowDirections fuel measF (Dirs.filled f) (10 ^ 10)
        (Dirs.table (nbrs (rectGrid 30 40))) Dirs.thr (ends (rectGrid 30 40) none f) = .ok out := by
  obtain ⟨v, f, out, h1, h2, h3, _⟩ := C200_chain (sumSeq_ok rnd64) (method := "mean") (by unfold Known; decide +kernel)
    measured_layoutF (queen_rect 30 40) rfl (by norm_num) (by norm_num) hd
    ⟨_, by unfold Corner; decide, hl⟩ (pr := .weak) (lo := 1) (hi := 8848) (D := 9000) (thr := Dirs.thr) h
    (le_trans (zpow_le_one_of_nonpos₀ (by norm_num) (by norm_num)) (by norm_num)) (by norm_num) (by norm_num)
    ⟨9000, 0, by norm_num, by norm_num, by norm_num⟩ (by norm_num) (by norm_num)
  exact ⟨v, f, out, h1, h2, h3⟩

end Dany.Float
