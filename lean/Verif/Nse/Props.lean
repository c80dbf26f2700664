import Verif.Nse.Model
import Mathlib.Tactic.FieldSimp
import Mathlib.Tactic.Linarith
import Mathlib.Data.Fin.VecNotation

/-!
# Properties C86, C87: the efficiency score
-/

namespace Dany.Nse

open scoped BigOperators

variable {N : ℕ}

theorem sqDiff_getD_nonneg (a b : Option ℝ) : 0 ≤ (sqDiff a b).getD 0 := by
  unfold sqDiff
  split
  · simp only [Option.getD_some]; positivity
  · simp

theorem nanSum_nonneg (f g : Fin N → Option ℝ) : 0 ≤ nanSum fun i => sqDiff (f i) (g i) :=
  Finset.sum_nonneg fun i _ => sqDiff_getD_nonneg _ _

theorem nanSum_eq_zero (f g : Fin N → Option ℝ) :
    (nanSum fun i => sqDiff (f i) (g i)) = 0 ↔
      ∀ i x y, f i = some x → g i = some y → x = y := by
  unfold nanSum
  rw [Finset.sum_eq_zero_iff_of_nonneg fun i _ => sqDiff_getD_nonneg _ _]
  constructor
  · intro h i x y hx hy
    have := h i (Finset.mem_univ i)
    simp only [hx, hy, sqDiff, Option.getD_some] at this
    nlinarith [pow_eq_zero_iff (two_ne_zero) |>.1 this]
  · intro h i _
    unfold sqDiff
    split
    · rename_i x y hx hy
      simp [h i x y hx hy]
    · rfl

/-- The observations take at least two different values. -/
def Varied (q : Fin N → Option ℝ) : Prop := ∃ i j x y, q i = some x ∧ q j = some y ∧ x ≠ y

theorem denominator_pos {q : Fin N → Option ℝ} (h : Varied q) :
    0 < nanSum fun i => sqDiff (q i) (nanMean q) := by
  refine lt_of_le_of_ne (nanSum_nonneg _ _) (Ne.symm fun h0 => ?_)
  obtain ⟨i, j, x, y, hi, hj, hxy⟩ := h
  have hm : ∃ m, nanMean q = some m := by
    unfold nanMean
    have : (Finset.univ.filter fun i => q i ≠ none).card ≠ 0 := by
      rw [Finset.card_ne_zero]
      exact ⟨i, by simp [hi]⟩
    dsimp only
    rw [if_neg this]
    exact ⟨_, rfl⟩
  obtain ⟨m, hm⟩ := hm
  have h0 := (nanSum_eq_zero q fun _ => nanMean q).1 h0
  exact hxy ((h0 i x m hi hm).trans (h0 j y m hj hm).symm)

/-- The series that are compared: as given, or with logarithms (`flg`). -/
noncomputable def series (flg : Bool) (q : Fin N → Option ℝ) : Fin N → Option ℝ :=
  if flg then fun i => logVal (q i) else q

theorem nse_eq (qsim qobs : Fin N → Option ℝ) (flg nnse : Bool) (h : Varied (series flg qobs)) :
    ∃ r d e : ℝ, 0 < d ∧ 0 ≤ e ∧ r = 1 - e / d ∧
      nse qsim qobs flg nnse = .num (if nnse then 1 / (2 - r) else r) ∧
      (e = 0 ↔ ∀ i x y, series flg qobs i = some x → series flg qsim i = some y → x = y) ∧
      e = (nanSum fun i => sqDiff (series flg qobs i) (series flg qsim i)) ∧
      d = (nanSum fun i => sqDiff (series flg qobs i) (nanMean (series flg qobs))) := by
  refine ⟨_, _, _, denominator_pos h, nanSum_nonneg (series flg qobs) (series flg qsim), rfl, ?_,
    nanSum_eq_zero _ _, rfl, rfl⟩
  have hd := (denominator_pos h).ne'
  unfold nse
  unfold series at hd ⊢
  dsimp only
  rw [if_neg hd]
  split <;> rfl

/-- **C86** (range).  For observations that are not all equal the score is a number, at most 1, and it
is 1 exactly if simulation and observation agree wherever both are given. -/
theorem C86_at_most_one (qsim qobs : Fin N → Option ℝ) (flg : Bool) (h : Varied (series flg qobs)) :
    ∃ r, nse qsim qobs flg false = .num r ∧ r ≤ 1 ∧
      (r = 1 ↔ ∀ i x y, series flg qobs i = some x → series flg qsim i = some y → x = y) := by
  obtain ⟨r, d, e, hd, he, hr, hn, h0, _, _⟩ := nse_eq qsim qobs flg false h
  refine ⟨r, by simpa using hn, ?_, ?_⟩
  · rw [hr]; have := div_nonneg he hd.le; linarith
  · rw [← h0, hr]
    constructor
    · intro h1
      have : e / d = 0 := by linarith
      exact (div_eq_zero_iff.1 this).resolve_right hd.ne'
    · intro h1; rw [h1]; simp

/-- **C86** (normalised score).  It lies in `(0, 1]` and is 1 exactly if the plain score is, one half
exactly if the plain score is 0. -/
theorem C86_normalised (qsim qobs : Fin N → Option ℝ) (flg : Bool) (h : Varied (series flg qobs)) :
    ∃ r s, nse qsim qobs flg false = .num r ∧ nse qsim qobs flg true = .num s ∧
      0 < s ∧ s ≤ 1 ∧ (s = 1 ↔ r = 1) ∧ (s = 1/2 ↔ r = 0) ∧ s * (2 - r) = 1 := by
  obtain ⟨r, d, e, hd, he, hr, hn, _, he', hd'⟩ := nse_eq qsim qobs flg false h
  obtain ⟨r', d', e', _, _, hr', hn', _, he'', hd''⟩ := nse_eq qsim qobs flg true h
  have : r' = r := by rw [hr, hr', he', hd', he'', hd'']
  subst this
  have hle : r' ≤ 1 := by rw [hr]; have := div_nonneg he hd.le; linarith
  have hpos : 0 < 2 - r' := by linarith
  refine ⟨r', 1 / (2 - r'), by simpa using hn, by simpa using hn', by positivity, ?_, ?_, ?_, ?_⟩
  · rw [div_le_one hpos]; linarith
  · rw [div_eq_one_iff_eq hpos.ne']; constructor <;> intro h <;> linarith
  · rw [div_eq_div_iff hpos.ne' two_ne_zero]; constructor <;> intro h <;> linarith
  · field_simp

/-- **C86** (the mean as predictor).  Simulating the mean of the observations everywhere scores 0. -/
theorem C86_mean_scores_zero (qobs : Fin N → Option ℝ) (h : Varied qobs) :
    nse (fun _ => nanMean qobs) qobs false false = .num 0 := by
  obtain ⟨r, d, e, hd, _, hr, hn, _, he', hd'⟩ := nse_eq (fun _ => nanMean qobs) qobs false false h
  have : e = d := by rw [he', hd']; rfl
  rw [this, div_self hd.ne'] at hr
  rw [hn, hr]; simp

/-- Change of units: multiply by `a` and add `b`. -/
def units (a b : ℝ) (q : Fin N → Option ℝ) : Fin N → Option ℝ := fun i => (q i).map fun x => a * x + b

theorem sqDiff_units (a b : ℝ) (x y : Option ℝ) :
    (sqDiff (x.map fun x => a * x + b) (y.map fun x => a * x + b)).getD 0
      = a ^ 2 * (sqDiff x y).getD 0 := by
  cases x <;> cases y <;> simp [sqDiff]
  ring

theorem nanMean_units (a b : ℝ) (q : Fin N → Option ℝ) :
    nanMean (units a b q) = (nanMean q).map fun x => a * x + b := by
  have hc : (Finset.univ.filter fun i => units a b q i ≠ none)
      = Finset.univ.filter fun i => q i ≠ none := by
    ext i; simp [units]
  unfold nanMean
  dsimp only
  rw [hc]
  split
  · rfl
  · rename_i hn
    simp only [Option.map_some, Option.some.injEq]
    have hsum : nanSum (units a b q)
        = a * nanSum q + b * ((Finset.univ.filter fun i => q i ≠ none).card : ℝ) := by
      unfold nanSum units
      rw [Finset.mul_sum, Finset.card_filter, Nat.cast_sum, Finset.mul_sum, ← Finset.sum_add_distrib]
      refine Finset.sum_congr rfl fun i _ => ?_
      cases q i <;> simp
    rw [hsum]
    have : ((Finset.univ.filter fun i => q i ≠ none).card : ℝ) ≠ 0 := by exact_mod_cast hn
    field_simp

/-- **C86** (units).  The score does not depend on the units of discharge. -/
theorem C86_units (qsim qobs : Fin N → Option ℝ) (nnse : Bool) (a b : ℝ) (ha : a ≠ 0) :
    nse (units a b qsim) (units a b qobs) false nnse = nse qsim qobs false nnse := by
  have h1 : (nanSum fun i => sqDiff (units a b qobs i) (units a b qsim i))
      = a ^ 2 * nanSum fun i => sqDiff (qobs i) (qsim i) := by
    unfold nanSum units
    rw [Finset.mul_sum]
    exact Finset.sum_congr rfl fun i _ => sqDiff_units a b _ _
  have h2 : (nanSum fun i => sqDiff (units a b qobs i) (nanMean (units a b qobs)))
      = a ^ 2 * nanSum fun i => sqDiff (qobs i) (nanMean qobs) := by
    rw [nanMean_units]
    unfold nanSum units
    rw [Finset.mul_sum]
    exact Finset.sum_congr rfl fun i _ => sqDiff_units a b _ _
  have ha2 : a ^ 2 ≠ 0 := pow_ne_zero 2 ha
  unfold nse
  simp only [Bool.false_eq_true, if_false]
  rw [h1, h2, mul_div_mul_left _ _ ha2]
  simp only [mul_eq_zero, ha2, false_or]

/-- What the logarithmic score compares: `y` stands for the value `x` of a series. -/
def IsLog (x y : Option ℝ) : Prop :=
  (x = none → y = none) ∧ (∀ r, x = some r → r < 0 → y = none) ∧
    (∀ r, x = some r → r = 0 → y = some (Real.log 1e-06)) ∧
    ∀ r, x = some r → 0 < r → y = some (Real.log r)

/-- **C86** (logarithms).  With `flg` the score is the plain score of the logarithms, where zero counts
as 1e-6 and negative values as missing. -/
theorem C86_log (qsim qobs lsim lobs : Fin N → Option ℝ) (nnse : Bool)
    (hs : ∀ i, IsLog (qsim i) (lsim i)) (ho : ∀ i, IsLog (qobs i) (lobs i)) :
    nse qsim qobs true nnse = nse lsim lobs false nnse := by
  have key : ∀ x y, IsLog x y → logVal x = y := by
    rintro x y ⟨h1, h2, h3, h4⟩
    unfold logVal
    cases x with
    | none => exact (h1 rfl).symm
    | some r =>
      dsimp only
      rcases lt_trichotomy r 0 with h | h | h
      · rw [if_neg h.ne, if_pos h, h2 r rfl h]
      · rw [if_pos h, if_neg (by norm_num), h3 r rfl h]
      · rw [if_neg h.ne', if_neg (not_lt.2 h.le), h4 r rfl h]
  have e1 : (fun i => logVal (qsim i)) = lsim := funext fun i => key _ _ (hs i)
  have e2 : (fun i => logVal (qobs i)) = lobs := funext fun i => key _ _ (ho i)
  unfold nse
  simp only [if_true, Bool.false_eq_true, if_false, e1, e2]

/-- **C86** (units of the logarithmic score).  For positive discharges a factor does not change it. -/
theorem C86_log_units (qsim qobs : Fin N → Option ℝ) (nnse : Bool) (a : ℝ) (ha : 0 < a)
    (hs : ∀ i x, qsim i = some x → 0 < x) (ho : ∀ i x, qobs i = some x → 0 < x) :
    nse (units a 0 qsim) (units a 0 qobs) true nnse = nse qsim qobs true nnse := by
  have key : ∀ q : Fin N → Option ℝ, (∀ i x, q i = some x → 0 < x) →
      (∀ i, IsLog (q i) ((q i).map Real.log)) ∧
      ∀ i, IsLog (units a 0 q i) (units 1 (Real.log a) (fun i => (q i).map Real.log) i) := by
    intro q hq
    constructor <;> intro i <;> cases hi : q i with
    | none => simp [IsLog, units, hi]
    | some x =>
      have hx := hq i x hi
      have hax := mul_pos ha hx
      refine ⟨by simp [units, hi], ?_, ?_, ?_⟩ <;> intro r hr h <;>
        simp only [units, hi, Option.map_some, Option.some.injEq, add_zero] at hr ⊢ <;> subst hr
      all_goals first
        | (exfalso; linarith)
        | rfl
        | (rw [Real.log_mul ha.ne' hx.ne']; ring)
  rw [C86_log _ _ _ _ nnse (key qsim hs).1 (key qobs ho).1,
    C86_log _ _ _ _ nnse (key qsim hs).2 (key qobs ho).2, C86_units _ _ _ _ _ one_ne_zero]

/-- **C87, refuted.**  A simulation without any value scores a perfect 1. -/
theorem C87_refuted (qobs : Fin N → Option ℝ) (h : Varied qobs) :
    nse (fun _ => none) qobs false false = .num 1 := by
  obtain ⟨r, hr, _, h1⟩ := C86_at_most_one (fun _ => none) qobs false h
  have : r = 1 := h1.2 fun i x y _ hy => by simp [series] at hy
  rw [hr, this]

/-- **C87** (what happens in general): dropping simulated values never lowers the score. -/
theorem C87_missing_helps_partial (qsim qsim' qobs : Fin N → Option ℝ) (h : Varied qobs)
    (hsub : ∀ i, qsim' i = qsim i ∨ qsim' i = none) :
    ∃ r r', nse qsim qobs false false = .num r ∧ nse qsim' qobs false false = .num r' ∧ r ≤ r' := by
  obtain ⟨r, d, e, hd, _, hr, hn, _, he, hd1⟩ := nse_eq qsim qobs false false h
  obtain ⟨r', d', e', _, _, hr', hn', _, he', hd1'⟩ := nse_eq qsim' qobs false false h
  refine ⟨r, r', by simpa using hn, by simpa using hn', ?_⟩
  have hdd : d' = d := by rw [hd1, hd1']
  have hee : e' ≤ e := by
    rw [he, he']
    refine Finset.sum_le_sum fun i _ => ?_
    simp only [series, Bool.false_eq_true, if_false]
    rcases hsub i with h | h
    · rw [h]
    · rw [h]
      have : sqDiff (qobs i) none = none := by cases qobs i <;> rfl
      rw [this]
      exact sqDiff_getD_nonneg _ _
  rw [hr, hr', hdd]
  have := div_le_div_of_nonneg_right hee hd.le
  linarith

/-- Equal observations have no score. -/
theorem C86_constant (qsim : Fin N → Option ℝ) (c : ℝ) (hN : 0 < N) :
    nse (fun _ : Fin N => some c) (fun _ => some c) false false = .nan ∧
      ((∃ i x, qsim i = some x ∧ x ≠ c) → nse qsim (fun _ => some c) false false = .ninf) := by
  have hm : nanMean (fun _ : Fin N => some c) = some c := by
    unfold nanMean nanSum
    have : (N : ℝ) ≠ 0 := by exact_mod_cast hN.ne'
    simp [hN.ne', this]
  have hd : (nanSum fun i : Fin N => sqDiff ((fun _ => some c) i) (nanMean fun _ : Fin N => some c)) = 0 := by
    rw [hm]; simp [nanSum, sqDiff]
  constructor
  · unfold nse
    simp only [Bool.false_eq_true, if_false]
    rw [if_pos hd, if_pos (by simp [nanSum, sqDiff])]
  · rintro ⟨i, x, hi, hx⟩
    unfold nse
    simp only [Bool.false_eq_true, if_false]
    rw [if_pos hd, if_neg]
    intro h0
    exact hx ((nanSum_eq_zero (fun _ => some c) qsim).1 h0 i c x rfl hi).symm

/-- **C86** (observations that never change): without variation there is no score.  A simulation that meets
every observation gets NaN, any other minus infinity, and 0 if normalised. -/
theorem C86_no_variation (qsim qobs : Fin N → Option ℝ) (flg : Bool) (h : ¬ Varied (series flg qobs)) :
    ((∀ i x y, series flg qobs i = some x → series flg qsim i = some y → x = y) →
      nse qsim qobs flg false = .nan ∧ nse qsim qobs flg true = .nan) ∧
    ((∃ i x y, series flg qobs i = some x ∧ series flg qsim i = some y ∧ x ≠ y) →
      nse qsim qobs flg false = .ninf ∧ nse qsim qobs flg true = .num 0) := by
  have h0 : (nanSum fun i => sqDiff (series flg qobs i) (nanMean (series flg qobs))) = 0 := by
    rw [nanSum_eq_zero]
    intro i x y hx hy
    have hall : ∀ j, (series flg qobs j).getD 0 = if series flg qobs j ≠ none then x else 0 := by
      intro j
      cases hj : series flg qobs j with
      | none => simp
      | some z =>
        have : z = x := by
          by_contra hne
          exact h ⟨j, i, z, x, hj, hx, hne⟩
        simp [this]
    unfold nanMean at hy
    dsimp only at hy
    split at hy
    · cases hy
    · rename_i hc
      simp only [Option.some.injEq] at hy
      rw [← hy]
      unfold nanSum
      simp only [hall]
      rw [← Finset.sum_filter, Finset.sum_const, nsmul_eq_mul]
      have : ((Finset.univ.filter fun i => series flg qobs i ≠ none).card : ℝ) ≠ 0 := by exact_mod_cast hc
      field_simp
  unfold nse
  dsimp only
  have e1 : (if flg = true then fun i => logVal (qobs i) else qobs) = series flg qobs := rfl
  have e2 : (if flg = true then fun i => logVal (qsim i) else qsim) = series flg qsim := rfl
  rw [e1, e2, if_pos h0, if_pos h0]
  constructor
  · intro hall
    have := (nanSum_eq_zero (series flg qobs) (series flg qsim)).2 hall
    rw [if_pos this, if_pos this]
    exact ⟨rfl, rfl⟩
  · rintro ⟨i, x, y, hx, hy, hne⟩
    have : ¬ (nanSum fun i => sqDiff (series flg qobs i) (series flg qsim i)) = 0 :=
      fun hz => hne ((nanSum_eq_zero _ _).1 hz i x y hx hy)
    rw [if_neg this, if_neg this]
    exact ⟨by simp, by simp⟩

/-! ### concrete cases -/

-- observations 2, missing, 2
example : nse (fun _ : Fin 3 => some 1) ![some 2, none, some 2] false true = .num 0 := by
  refine ((C86_no_variation _ _ false ?_).2 ⟨0, 2, 1, rfl, rfl, by norm_num⟩).2
  rintro ⟨i, j, x, y, hi, hj, hne⟩
  simp only [series, Bool.false_eq_true, if_false] at hi hj
  fin_cases i <;> fin_cases j <;> simp_all

def obs : Fin 3 → Option ℝ := ![some 1, none, some 3]
theorem variedObs : Varied obs := ⟨0, 2, 1, 3, rfl, rfl, by norm_num⟩
def sim : Fin 3 → Option ℝ := ![some 2, some 5, some 3]
theorem o0 : obs 0 = some 1 := rfl
theorem o1 : obs 1 = none := rfl
theorem o2 : obs 2 = some 3 := rfl
theorem s0 : sim 0 = some 2 := rfl
theorem s1 : sim 1 = some 5 := rfl
theorem s2 : sim 2 = some 3 := rfl

example : ∃ r, nse sim obs false false = .num r ∧ r ≤ 1 ∧
    (r = 1 ↔ ∀ i x y, series false obs i = some x → series false sim i = some y → x = y) :=
  C86_at_most_one sim obs false variedObs
example : nse sim obs false false = .num (1/2) := by
  obtain ⟨r, d, e, hd, _, hr, hn, _, he, hd1⟩ := nse_eq sim obs false false variedObs
  have hc : (Finset.univ.filter fun i => obs i ≠ none).card = 2 := by
    have : (Finset.univ.filter fun i => obs i ≠ none) = {0, 2} := by
      ext i; fin_cases i <;> simp [o0, o1, o2]
    rw [this]; rfl
  have hm : nanMean obs = some 2 := by
    unfold nanMean
    dsimp only
    rw [hc]
    norm_num [nanSum, Fin.sum_univ_three, o0, o1, o2]
  have he : e = 1 := by
    rw [he]; norm_num [nanSum, Fin.sum_univ_three, series, sqDiff, o0, o1, o2, s0, s1, s2]
  have hd : d = 2 := by
    rw [hd1]; simp only [series, Bool.false_eq_true, if_false, hm]
    norm_num [nanSum, Fin.sum_univ_three, sqDiff, o0, o1, o2]
  rw [hn, hr, he, hd]; norm_num
example : nse (units 35 0 sim) (units 35 0 obs) true false = nse sim obs true false :=
  C86_log_units sim obs false 35 (by norm_num)
    (fun i x h => by fin_cases i <;> simp [s0, s1, s2] at h <;> subst h <;> norm_num)
    (fun i x h => by fin_cases i <;> simp [o0, o1, o2] at h <;> subst h <;> norm_num)
example : nse (fun _ => none) obs false false = .num 1 := C87_refuted obs variedObs

end Dany.Nse
