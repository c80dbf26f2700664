import Verif.Float.Acc
import Verif.Nan.Props
import Mathlib.Tactic.FinCases

/-!
# `fill_nan_values` in `float64` (C137)

The order in which NumPy adds the neighbours' elevations is left open: any way of adding them two by two (for fewer than
eight numbers it is one after the other, from eight on in eight partial sums).  NaN is replaced by 0 before adding, which
has no effect on a sum.
-/

namespace Dany.Float

open Function Nan

variable {N : ℕ}

/-- `s` is a sum of the numbers of the list, added in some order, every addition rounded. -/
inductive Sums (r : ℚ → ℚ) : List ℚ → ℚ → Prop
  | one (x : ℚ) : Sums r [x] x
  | add {l l' : List ℚ} {a b : ℚ} (ha : Sums r l a) (hb : Sums r l' b) : Sums r (l ++ l') (r (a + b))
  | perm {l l' : List ℚ} {a : ℚ} (h : Sums r l a) (hp : l.Perm l') : Sums r l' a

/-- `np.sum` -/
def SumOK (r : ℚ → ℚ) (sum : List ℚ → ℚ) : Prop := ∀ l, l ≠ [] → Sums r l (sum l)

/-- adding one number after the other -/
def sumSeq (r : ℚ → ℚ) : List ℚ → ℚ
  | [] => 0
  | x :: l => l.foldl (fun s y => r (s + y)) x

theorem sumSeq_ok (r : ℚ → ℚ) : SumOK r (sumSeq r) := by
  have key : ∀ (l l' : List ℚ) (a : ℚ), Sums r l' a → Sums r (l' ++ l) (l.foldl (fun s y => r (s + y)) a) := by
    intro l
    induction l with
    | nil => intro l' a h; simpa using h
    | cons y l ih =>
      intro l' a h
      have := ih (l' ++ [y]) (r (a + y)) (.add h (.one y))
      simpa using this
  intro l hl
  cases l with
  | nil => exact absurd rfl hl
  | cons x l => exact key l [x] x (.one x)

/-! ### the model -/

/-- `np.nanmean` of a `float64` array (dem_conditioning.py:294): rounded sum, rounded quotient -/
def nanMeanF (r : ℚ → ℚ) (sum : List ℚ → ℚ) (elevs : List (Option ℚ)) : Option ℚ :=
  match valid elevs with
  | [] => none
  | v :: vs => some (r (sum (v :: vs) / ((v :: vs).length : ℚ)))

/-- `np.nanmedian` of a `float64` array (dem_conditioning.py:296): the mean of two middle elements is rounded -/
def nanMedianF (r : ℚ → ℚ) (elevs : List (Option ℚ)) : Option ℚ :=
  let s := (valid elevs).insertionSort (· ≤ ·)
  if s.length = 0 then none
  else if s.length % 2 = 1 then some (s.getD (s.length / 2) 0)
  else some (r (r (s.getD (s.length / 2 - 1) 0 + s.getD (s.length / 2) 0) / 2))

/-- the `if/elif` chain (dem_conditioning.py:293-302); minimum and maximum are exact -/
def aggregateF (r : ℚ → ℚ) (sum : List ℚ → ℚ) (method : String) (elevs : List (Option ℚ)) : Res (Option ℚ) :=
  if method.toLower = "mean" then .ok (nanMeanF r sum elevs)
  else if method.toLower = "median" then .ok (nanMedianF r elevs)
  else if method.toLower = "min" then nanMin elevs
  else if method.toLower = "max" then nanMax elevs
  else .err .notImplementedError

/-- `while stack` (dem_conditioning.py:289-307) with the aggregate as a parameter -/
def nanLoopWith {K : Type*} (agg : List (Option K) → Res (Option K)) (nbr : Fin N → List ℕ) :
    ℕ → List (Fin N) → (Fin N → Option K) → Res (Fin N → Option K)
  | 0, _, _ => .hang
  | _ + 1, [], dem => .ok dem
  | k + 1, node :: rest, dem =>
    (Flood.indexAll N (nbr node)).bind fun nn =>
      (agg (nn.map dem)).bind fun elev =>
        match elev with
        | none => nanLoopWith agg nbr k (node :: rest) dem
        | some v => nanLoopWith agg nbr k rest (update dem node (some v))

/-- `fill_nan_values` (dem_conditioning.py:264-309) on a `float64` array -/
def fillNanF (fuel : ℕ) (sum : List ℚ → ℚ) (method : String) (nbr : Fin N → List ℕ) (dem : Fin N → Option ℚ) :
    Res (Fin N → Option ℚ) :=
  nanLoopWith (aggregateF rnd64 sum method) nbr fuel (((List.finRange N).filter (fun n => (dem n).isNone)).reverse) dem

/-- the loop of `Nan` is the one with the exact aggregate -/
theorem nanLoop_eq (method : String) (nbr : Fin N → List ℕ) (fuel : ℕ) (st : List (Fin N)) (dem : Fin N → Option ℚ) :
    nanLoop method nbr fuel st dem = nanLoopWith (aggregate method) nbr fuel st dem := by
  induction fuel generalizing st dem with
  | zero => rfl
  | succ k ih =>
    cases st with
    | nil => rfl
    | cons node rest =>
      simp only [nanLoop, nanLoopWith]
      congr 1; funext nn
      congr 1; funext elev
      cases elev with
      | none => exact ih _ _
      | some v => exact ih _ _

/-! ### errors of sum and mean -/

/-- half a unit in the last place -/
abbrev u53 : ℚ := 1 / 2 ^ 53

theorem sums_err {l : List ℚ} {s A : ℚ} (h : Sums rnd64 l s) (hl : ∀ x ∈ l, x ∈ Double ∧ |x| ≤ A) (hA : 0 ≤ A) :
    s ∈ Double ∧ 1 ≤ l.length ∧ |s - l.sum| ≤ ((1 + u53) ^ (l.length - 1) - 1) * (l.length * A) ∧
      |l.sum| ≤ l.length * A := by
  induction h with
  | one x => refine ⟨(hl x (by simp)).1, le_refl _, ?_, ?_⟩ <;> simp [(hl x (by simp)).2]
  | perm h hp ih =>
    obtain ⟨h1, h2, h3, h4⟩ := ih (fun x hx => hl x (hp.subset hx))
    rw [hp.length_eq] at h2 h3 h4
    rw [hp.sum_eq] at h3 h4
    exact ⟨h1, h2, h3, h4⟩
  | @add l l' a b ha hb iha ihb =>
    obtain ⟨a1, a2, a3, a4⟩ := iha fun x hx => hl x (List.mem_append_left _ hx)
    obtain ⟨b1, b2, b3, b4⟩ := ihb fun x hx => hl x (List.mem_append_right _ hx)
    refine ⟨rnd64_nearest.mem _, by rw [List.length_append]; omega, ?_, ?_⟩
    · have herr : |rnd64 (a + b) - (a + b)| ≤ |a + b| / 2 ^ 53 := add_err (by norm_num) rnd64_nearest a1 b1
      set P : ℚ := (1 + u53) ^ (l.length + l'.length - 2) with hP
      have hu : (0 : ℚ) ≤ u53 := by norm_num [u53]
      have hPa : (1 + u53) ^ (l.length - 1) ≤ P := pow_le_pow_right₀ (by linarith) (by omega)
      have hPb : (1 + u53) ^ (l'.length - 1) ≤ P := pow_le_pow_right₀ (by linarith) (by omega)
      have hPs : (1 + u53) ^ (l.length + l'.length - 1) = P * (1 + u53) := by
        rw [hP, ← pow_succ]; congr 1; omega
      have hla : (0 : ℚ) ≤ l.length * A := by positivity
      have hlb : (0 : ℚ) ≤ l'.length * A := by positivity
      have a5 : |a - l.sum| ≤ (P - 1) * (l.length * A) :=
        a3.trans (mul_le_mul_of_nonneg_right (by linarith) hla)
      have b5 : |b - l'.sum| ≤ (P - 1) * (l'.length * A) :=
        b3.trans (mul_le_mul_of_nonneg_right (by linarith) hlb)
      rw [List.length_append, List.sum_append, hPs]
      push_cast
      have hab : |a + b| ≤ P * ((l.length + l'.length) * A) := by
        rw [abs_le] at a4 a5 b4 b5 ⊢
        constructor <;> nlinarith
      have hdiv : |a + b| / 2 ^ 53 = u53 * |a + b| := by rw [u53]; ring
      rw [hdiv] at herr
      have h6 := herr.trans (mul_le_mul_of_nonneg_left hab hu)
      rw [abs_le] at a5 b5 h6 ⊢
      constructor <;> nlinarith
    · rw [List.length_append, List.sum_append]
      push_cast
      rw [abs_le] at a4 b4 ⊢
      constructor <;> linarith

/-- every rounding errs by half a unit relative to any bound that is not tiny -/
theorem rnd_err {x A : ℚ} (hx : |x| ≤ A) (hA : 2 ^ (-1022 : ℤ) ≤ A) : |rnd64 x - x| ≤ u53 * A := by
  rcases le_or_gt (2 ^ (-1022 : ℤ)) |x| with h | h
  · have := rel_err (by norm_num) rnd64_nearest h
    have e : |x| / 2 ^ 53 = u53 * |x| := by rw [u53]; ring
    rw [e] at this
    exact this.trans (mul_le_mul_of_nonneg_left hx (by norm_num [u53]))
  · -- a multiple of the least positive number is near
    set g : ℚ := 2 ^ (-1074 : ℤ) with hg
    have hg0 : 0 < g := zpow_pos' _
    have hb : |x / g| ≤ 2 ^ 52 := by
      rw [abs_div, abs_of_pos hg0, div_le_iff₀ hg0]
      have : (2 : ℚ) ^ 52 * g = 2 ^ (-1022 : ℤ) := by
        rw [hg, ← zpow_natCast, ← zpow_add₀ (by norm_num)]; norm_num
      rw [this]; exact h.le
    have hmem : ((round (x / g) : ℤ) : ℚ) * g ∈ Double := by
      refine mul_mem (k := -1074) (by norm_num) (by norm_num) ?_
      have hb' := abs_le.1 hb
      have r1 := abs_le.1 (abs_sub_round (x / g))
      rw [abs_le]
      constructor
      · have : (-(2 : ℚ) ^ 53) ≤ (round (x / g) : ℤ) := by linarith [show (2 : ℚ) ^ 53 = 2 ^ 52 + 2 ^ 52 by norm_num, show (1 : ℚ) / 2 ≤ 2 ^ 52 by norm_num]
        exact_mod_cast this
      · have : ((round (x / g) : ℤ) : ℚ) ≤ 2 ^ 53 := by linarith [show (2 : ℚ) ^ 53 = 2 ^ 52 + 2 ^ 52 by norm_num, show (1 : ℚ) / 2 ≤ 2 ^ 52 by norm_num]
        exact_mod_cast this
    refine (rnd64_nearest.best x _ hmem).trans ?_
    have e1 : ((round (x / g) : ℤ) : ℚ) * g - x = -(x / g - round (x / g)) * g := by field_simp; ring
    rw [e1, abs_mul, abs_neg, abs_of_pos hg0]
    refine (mul_le_mul_of_nonneg_right (abs_sub_round (x / g)) hg0.le).trans ?_
    have : 1 / 2 * g = u53 * 2 ^ (-1022 : ℤ) := by
      rw [u53, hg]
      have h1 : (2 : ℚ) ^ (-1074 : ℤ) = 2 ^ (-1022 : ℤ) * 2 ^ (-52 : ℤ) := by
        rw [← zpow_add₀ (by norm_num)]; norm_num
      rw [h1]
      norm_num
      ring
    rw [this]
    exact mul_le_mul_of_nonneg_left hA (by norm_num [u53])

/-- one mean: as far from the exact one as `n + 1` roundings -/
theorem mean_err {l : List ℚ} {s A : ℚ} (h : Sums rnd64 l s) (hl : ∀ x ∈ l, x ∈ Double ∧ |x| ≤ A)
    (hA : 2 ^ (-1022 : ℤ) ≤ A) :
    |rnd64 (s / l.length) - l.sum / l.length| ≤ A * ((1 + u53) ^ (l.length + 1) - 1) := by
  have hA0 : 0 ≤ A := (zpow_pos' _).le.trans hA
  obtain ⟨_, h1, h2, h3⟩ := sums_err h hl hA0
  have hn : (0 : ℚ) < l.length := by exact_mod_cast h1
  have hu : (0 : ℚ) ≤ u53 := by norm_num [u53]
  set P : ℚ := (1 + u53) ^ (l.length - 1) with hP
  have hP1 : 1 ≤ P := one_le_pow₀ (by linarith)
  have hPs : (1 + u53) ^ (l.length + 1) = P * (1 + u53) * (1 + u53) := by
    rw [hP, ← pow_succ, ← pow_succ]; congr 1; omega
  have d1 : |s / l.length - l.sum / l.length| ≤ (P - 1) * A := by
    rw [← sub_div, abs_div, abs_of_pos hn, div_le_iff₀ hn]
    calc _ ≤ _ := h2
      _ = _ := by ring
  have d2 : |l.sum / l.length| ≤ A := by
    rw [abs_div, abs_of_pos hn, div_le_iff₀ hn]
    linarith
  have d3 : |s / l.length| ≤ P * A := by
    rw [abs_le] at d1 d2 ⊢
    constructor <;> nlinarith
  have d4 := rnd_err d3 (hA.trans (by nlinarith))
  rw [hPs]
  rw [abs_le] at d1 d4 ⊢
  have : u53 * (P * A) + (P - 1) * A ≤ A * (P * (1 + u53) * (1 + u53) - 1) := by
    nlinarith [mul_nonneg hu (mul_nonneg (by linarith : 0 ≤ P) hA0), mul_nonneg hu (mul_nonneg hu (mul_nonneg (by linarith : 0 ≤ P) hA0))]
  constructor <;> linarith

/-! ### the loop -/

theorem nanLoopWith_inv {K : Type*} {agg : List (Option K) → Res (Option K)} {nbr : Fin N → List ℕ}
    (P : List (Fin N) → (Fin N → Option K) → Prop)
    (hP : ∀ node rest dem nn v, P (node :: rest) dem → Flood.indexAll N (nbr node) = .ok nn →
      agg (nn.map dem) = .ok (some v) → P rest (update dem node (some v)))
    (fuel : ℕ) (st : List (Fin N)) (dem out : Fin N → Option K) (hs : P st dem)
    (h : nanLoopWith agg nbr fuel st dem = .ok out) : P [] out := by
  induction fuel generalizing st dem with
  | zero => cases h
  | succ k ih =>
    cases st with
    | nil => simp only [nanLoopWith] at h; cases h; exact hs
    | cons node rest =>
      simp only [nanLoopWith] at h
      obtain ⟨nn, h1, h⟩ := Res.bind_eq_ok.1 h
      obtain ⟨r, h2, h⟩ := Res.bind_eq_ok.1 h
      cases r with
      | none => exact ih _ _ hs h
      | some v => exact ih _ _ (hP _ _ _ _ _ hs h1 h2) h

theorem indexAll_length {l : List ℕ} {nn : List (Fin N)} (h : Flood.indexAll N l = .ok nn) : nn.length = l.length := by
  induction l generalizing nn with
  | nil => cases h; rfl
  | cons a l ih =>
    simp only [Flood.indexAll] at h
    obtain ⟨i, _, h⟩ := Res.bind_eq_ok.1 h
    obtain ⟨r, hr, rfl⟩ := Res.map_eq_ok.1 h
    simp [ih hr]

/-- the DEM holds `float64` numbers -/
def Doubles (dem : Fin N → Option ℚ) : Prop := ∀ n v, dem n = some v → v ∈ Double

theorem two_mem {x : ℚ} (h : x ∈ Double) : 2 * x ∈ Double := by
  obtain ⟨m, e, h1, h2, rfl⟩ := h
  refine ⟨m, e + 1, h1, by omega, ?_⟩
  rw [zpow_add₀ (by norm_num)]; ring

/-- medians, minima and maxima lie between two of the numbers, in doubles too -/
theorem aggregateF_between {sum : List ℚ → ℚ} {method : String} (hm : method.toLower ≠ "mean")
    {elevs : List (Option ℚ)} (hd : ∀ x, some x ∈ elevs → x ∈ Double) {v : ℚ}
    (h : aggregateF rnd64 sum method elevs = .ok (some v)) :
    v ∈ Double ∧ ∃ a b, some a ∈ elevs ∧ some b ∈ elevs ∧ a ≤ v ∧ v ≤ b := by
  have self : some v ∈ elevs → v ∈ Double ∧ ∃ a b, some a ∈ elevs ∧ some b ∈ elevs ∧ a ≤ v ∧ v ≤ b :=
    fun hv => ⟨hd v hv, v, v, hv, hv, le_refl _, le_refl _⟩
  unfold aggregateF at h
  rw [if_neg hm] at h
  split_ifs at h with h2 h3 h4
  · have h : nanMedianF rnd64 elevs = some v := by injection h
    unfold nanMedianF at h
    dsimp only at h
    have hlen : ((valid elevs).insertionSort (· ≤ ·)).length = (valid elevs).length :=
      (List.perm_insertionSort (· ≤ ·) _).length_eq
    rw [hlen] at h
    have hmem : ∀ i, i < (valid elevs).length →
        some (((valid elevs).insertionSort (· ≤ ·)).getD i 0) ∈ elevs := by
      intro i hi
      rw [← mem_valid, ← (List.perm_insertionSort (· ≤ ·) (valid elevs)).mem_iff]
      rw [List.getD_eq_getElem?_getD, List.getElem?_eq_getElem (by rw [hlen]; exact hi),
        Option.getD_some]
      exact List.getElem_mem _
    split_ifs at h with h5 h6
    · injection h with h
      exact self (h ▸ hmem _ (by omega))
    · injection h with h
      have ha := hmem ((valid elevs).length / 2 - 1) (by omega)
      have hb := hmem ((valid elevs).length / 2) (by omega)
      generalize ((valid elevs).insertionSort (· ≤ ·)).getD ((valid elevs).length / 2 - 1) 0 = a at *
      generalize ((valid elevs).insertionSort (· ≤ ·)).getD ((valid elevs).length / 2) 0 = b at *
      have key : ∀ p q : ℚ, p ∈ Double → q ∈ Double → p ≤ a → p ≤ b → a ≤ q → b ≤ q → p ≤ v ∧ v ≤ q := by
        intro p q hp hq h1 h2 h3 h4
        have e1 : 2 * p ≤ rnd64 (a + b) := rnd64_nearest.ge_of_ge (two_mem hp) (by linarith)
        have e2 : rnd64 (a + b) ≤ 2 * q := rnd64_nearest.le_of_le (two_mem hq) (by linarith)
        subst h
        exact ⟨rnd64_nearest.ge_of_ge hp (by linarith), rnd64_nearest.le_of_le hq (by linarith)⟩
      refine ⟨h ▸ rnd64_nearest.mem _, ?_⟩
      rcases le_total a b with hab | hab
      · exact ⟨a, b, ha, hb, key a b (hd _ ha) (hd _ hb) (le_refl _) hab hab (le_refl _)⟩
      · exact ⟨b, a, hb, ha, key b a (hd _ hb) (hd _ ha) hab (le_refl _) (le_refl _) hab⟩
  · unfold nanMin at h
    split at h
    · cases h
    · rcases hv : valid elevs with _ | ⟨a, l⟩
      · rw [hv] at h; cases h
      · rw [hv] at h
        have := Flood.foldl_min_mem a l
        rw [← hv, mem_valid] at this
        cases h
        exact self this
  · unfold nanMax at h
    split at h
    · cases h
    · rcases hv : valid elevs with _ | ⟨a, l⟩
      · rw [hv] at h; cases h
      · rw [hv] at h
        have := Flood.foldl_max_mem a l
        rw [← hv, mem_valid] at this
        cases h
        exact self this

/-- **C137** (median, min, max).  In double precision every filled elevation lies between two elevations of the input. -/
theorem C137_median_min_max {fuel : ℕ} {sum : List ℚ → ℚ} {method : String} (hm : method.toLower ≠ "mean")
    {nbr : Fin N → List ℕ} {dem out : Fin N → Option ℚ} (hd : Doubles dem)
    (h : fillNanF fuel sum method nbr dem = .ok out) (n : Fin N) :
    ∃ v, out n = some v ∧ v ∈ Double ∧
      ∃ a b x y, dem a = some x ∧ dem b = some y ∧ x ≤ v ∧ v ≤ y := by
  have := nanLoopWith_inv (fun st d => (∀ c, d c = none → c ∈ st) ∧
      ∀ c v, d c = some v → v ∈ Double ∧ ∃ a b x y, dem a = some x ∧ dem b = some y ∧ x ≤ v ∧ v ≤ y)
      ?_ fuel _ _ out ⟨?_, fun c v hc => ⟨hd c v hc, c, c, v, v, hc, hc, le_refl _, le_refl _⟩⟩ h
  · cases ho : out n with
    | none => exact absurd (this.1 n ho) (by simp)
    | some v => exact ⟨v, rfl, this.2 n v ho⟩
  · rintro node rest d nn w ⟨h1, h2⟩ _ hagg
    refine ⟨fun c hc => ?_, fun c v hc => ?_⟩
    · by_cases hcn : c = node
      · subst hcn; rw [update_self] at hc; cases hc
      · rw [update_of_ne hcn] at hc
        exact (List.mem_cons.1 (h1 c hc)).resolve_left hcn
    · by_cases hcn : c = node
      · subst hcn
        rw [update_self] at hc
        cases hc
        obtain ⟨hw, p, q, hp, hq, hpw, hwq⟩ := aggregateF_between hm (fun x hx => by
          obtain ⟨m, _, hm⟩ := List.mem_map.1 hx
          exact (h2 m x hm).1) hagg
        obtain ⟨m, _, hm⟩ := List.mem_map.1 hp
        obtain ⟨m', _, hm'⟩ := List.mem_map.1 hq
        obtain ⟨_, a, _, x, _, ha, _, hx, _⟩ := h2 m p hm
        obtain ⟨_, _, b, _, y, _, hb, _, hy⟩ := h2 m' q hm'
        exact ⟨hw, a, b, x, y, ha, hb, hx.trans hpw, hwq.trans hy⟩
      · rw [update_of_ne hcn] at hc
        exact h2 c v hc
  · intro c hc
    simp [hc]

/-- the number of gaps -/
def gaps (dem : Fin N → Option ℚ) : ℕ := ((List.finRange N).filter fun n => (dem n).isNone).length

/-- **C137** (mean).  In double precision a filled elevation leaves the range of the input by at most the errors of
as many roundings as were needed: `D + 1` for each gap, if no cell has more than `D` neighbours.  `M` bounds the absolute
elevations.  It does not always stay within the range: `C137_overshoot`. -/
theorem C137_mean {fuel : ℕ} {sum : List ℚ → ℚ} (hs : SumOK rnd64 sum) {method : String}
    {nbr : Fin N → List ℕ} {D : ℕ} (hD : ∀ n, (nbr n).length ≤ D) {dem out : Fin N → Option ℚ} (hd : Doubles dem)
    {lo hi M : ℚ} (hM : 2 ^ (-1022 : ℤ) ≤ M) (hlo : -M ≤ lo) (hhi : hi ≤ M)
    (hb : ∀ n v, dem n = some v → lo ≤ v ∧ v ≤ hi) (h : fillNanF fuel sum method nbr dem = .ok out)
    (hmean : method.toLower = "mean") (n : Fin N) :
    ∃ v, out n = some v ∧ v ∈ Double ∧
      lo - M * ((1 + u53) ^ ((D + 1) * gaps dem) - 1) ≤ v ∧ v ≤ hi + M * ((1 + u53) ^ ((D + 1) * gaps dem) - 1) := by
  set q : ℚ := (1 + u53) ^ (D + 1) with hq
  have hu : (0 : ℚ) ≤ u53 := by norm_num [u53]
  have hq1 : 1 ≤ q := one_le_pow₀ (by linarith)
  have hM0 : 0 ≤ M := (zpow_pos' _).le.trans hM
  rw [pow_mul, ← hq]
  have := nanLoopWith_inv (fun st d => (∀ c, d c = none → c ∈ st) ∧ st.length ≤ gaps dem ∧
      ∀ c v, d c = some v → v ∈ Double ∧ lo - M * (q ^ (gaps dem - st.length) - 1) ≤ v ∧
        v ≤ hi + M * (q ^ (gaps dem - st.length) - 1))
      ?_ fuel _ _ out ⟨?_, ?_, ?_⟩ h
  · cases ho : out n with
    | none => exact absurd (this.1 n ho) (by simp)
    | some v => exact ⟨v, rfl, this.2.2 n v ho⟩
  · rintro node rest d nn w ⟨h1, h2, h3⟩ hnn hagg
    rw [List.length_cons] at h2 h3
    refine ⟨fun c hc => ?_, by omega, fun c v hc => ?_⟩
    · by_cases hcn : c = node
      · subst hcn; rw [update_self] at hc; cases hc
      · rw [update_of_ne hcn] at hc
        exact (List.mem_cons.1 (h1 c hc)).resolve_left hcn
    set k := gaps dem - (rest.length + 1) with hk
    have hk' : gaps dem - rest.length = k + 1 := by omega
    have hqk : 1 ≤ q ^ k := one_le_pow₀ hq1
    have hqs : q ^ (k + 1) = q ^ k * q := pow_succ _ _
    rw [hk', hqs]
    by_cases hcn : c = node
    · subst hcn
      rw [update_self] at hc
      cases hc
      unfold aggregateF at hagg
      rw [if_pos hmean] at hagg
      have hagg : nanMeanF rnd64 sum (nn.map d) = some w := by injection hagg
      unfold nanMeanF at hagg
      have hval : ∀ x ∈ valid (nn.map d), x ∈ Double ∧ lo - M * (q ^ k - 1) ≤ x ∧ x ≤ hi + M * (q ^ k - 1) := by
        intro x hx
        obtain ⟨m, _, hm⟩ := List.mem_map.1 (mem_valid.1 hx)
        exact h3 m x hm
      have hlen : (valid (nn.map d)).length ≤ D := by
        have e1 : (valid (nn.map d)).length ≤ (nn.map d).length := List.length_filterMap_le _ _
        have e2 : nn.length ≤ D := by
          have := indexAll_length hnn
          rw [this]; exact hD _
        rw [List.length_map] at e1; omega
      cases hv : valid (nn.map d) with
      | nil => rw [hv] at hagg; cases hagg
      | cons x l =>
        rw [hv] at hagg
        dsimp only at hagg
        rw [← hv] at hagg
        injection hagg with hagg
        have hne : valid (nn.map d) ≠ [] := by rw [hv]; simp
        have hsum := hs _ hne
        obtain ⟨r1, r2⟩ := mean_range hne (fun x hx => (hval x hx).2)
        have herr := mean_err (A := M * q ^ k) hsum (fun x hx => ⟨(hval x hx).1, by
          obtain ⟨_, a, b⟩ := hval x hx
          rw [abs_le]; constructor <;> nlinarith⟩) (hM.trans (by nlinarith))
        rw [hagg] at herr
        have hpow : (1 + u53) ^ ((valid (nn.map d)).length + 1) ≤ q := pow_le_pow_right₀ (by linarith) (by omega)
        have hA : 0 ≤ M * q ^ k := by positivity
        have h6 : |w - (valid (nn.map d)).sum / ((valid (nn.map d)).length : ℚ)| ≤ M * q ^ k * (q - 1) :=
          herr.trans (mul_le_mul_of_nonneg_left (by linarith) hA)
        rw [abs_le] at h6
        refine ⟨hagg ▸ rnd64_nearest.mem _, ?_, ?_⟩ <;> nlinarith
    · rw [update_of_ne hcn] at hc
      obtain ⟨a1, a2, a3⟩ := h3 c v hc
      have : M * (q ^ k - 1) ≤ M * (q ^ k * q - 1) := mul_le_mul_of_nonneg_left (by nlinarith) hM0
      exact ⟨a1, by linarith, by linarith⟩
  · intro c hc
    simp [hc]
  · simp [gaps]
  · intro c v hc
    have : gaps dem - (((List.finRange N).filter (fun n => (dem n).isNone)).reverse).length = 0 := by simp [gaps]
    rw [this]
    obtain ⟨a, b⟩ := hb c v hc
    exact ⟨hd c v hc, by simpa using a, by simpa using b⟩

/-- **C137**, in figures: on a rectangular grid (at most 8 neighbours) with up to a million gaps the means leave the range of
the input by at most a hundred-millionth of the greatest absolute elevation. -/
theorem C137_small {fuel : ℕ} {sum : List ℚ → ℚ} (hs : SumOK rnd64 sum) {method : String}
    {nbr : Fin N → List ℕ} (hD : ∀ n, (nbr n).length ≤ 8) {dem out : Fin N → Option ℚ} (hd : Doubles dem)
    (hg : gaps dem ≤ 10 ^ 6) {lo hi M : ℚ} (hM : 2 ^ (-1022 : ℤ) ≤ M) (hlo : -M ≤ lo) (hhi : hi ≤ M)
    (hb : ∀ n v, dem n = some v → lo ≤ v ∧ v ≤ hi) (h : fillNanF fuel sum method nbr dem = .ok out)
    (hmean : method.toLower = "mean") (n : Fin N) :
    ∃ v, out n = some v ∧ lo - M / 10 ^ 8 ≤ v ∧ v ≤ hi + M / 10 ^ 8 := by
  obtain ⟨v, h1, _, h2, h3⟩ := C137_mean hs hD hd hM hlo hhi hb h hmean n
  have hM0 : 0 ≤ M := (zpow_pos' _).le.trans hM
  have hc : (((8 + 1) * gaps dem : ℕ) : ℚ) ≤ 9 * 10 ^ 6 := by exact_mod_cast (by omega : (8 + 1) * gaps dem ≤ 9 * 10 ^ 6)
  have hu : (((8 + 1) * gaps dem : ℕ) : ℚ) * u53 ≤ 1 / (2 * 10 ^ 8) := by
    calc _ ≤ (9 * 10 ^ 6 : ℚ) * u53 := mul_le_mul_of_nonneg_right hc (by norm_num [u53])
      _ ≤ _ := by norm_num [u53]
  have hp := pow_err_le (j := (8 + 1) * gaps dem) (u := u53) (by norm_num [u53]) (by norm_num [u53])
    (hu.trans (by norm_num))
  have : M * ((1 + u53) ^ ((8 + 1) * gaps dem) - 1) ≤ M / 10 ^ 8 := by
    rw [div_eq_mul_inv]
    refine mul_le_mul_of_nonneg_left (hp.trans ?_) hM0
    calc _ ≤ 2 * (1 / (2 * 10 ^ 8) : ℚ) := by linarith
      _ = _ := by norm_num
  exact ⟨v, h1, (sub_le_sub_left this lo).trans h2, h3.trans (add_le_add_right this hi)⟩

/-- the double nearest to 0.1 -/
def tenth : ℚ := rnd64 (1 / 10)

/-- **C137**: the mean does leave the range.  The gap between three cells of elevation 0.1 is filled with 0.10000000000000002. -/
theorem C137_overshoot : ∃ (out : Fin 4 → Option ℚ) (v : ℚ),
    fillNanF 2 (sumSeq rnd64) "mean" (Flood.queen 2 2) ![none, some tenth, some tenth, some tenth] = .ok out ∧
      out 0 = some v ∧ tenth < v :=
  ⟨![some (tenth + 1 / 2 ^ 56), some tenth, some tenth, some tenth], tenth + 1 / 2 ^ 56,
    by decide +kernel, rfl, by norm_num⟩

/-- **C137** (min, max, and names that are not known).  These methods give the same in double precision as in exact
arithmetic, so C84 and C85 hold for them as they are. -/
theorem C137_exact {fuel : ℕ} {sum : List ℚ → ℚ} {method : String} (hm : method.toLower ≠ "mean")
    (hm' : method.toLower ≠ "median") (nbr : Fin N → List ℕ) (dem : Fin N → Option ℚ) :
    fillNanF fuel sum method nbr dem = fillNan fuel method nbr dem := by
  unfold fillNanF fillNan
  rw [nanLoop_eq]
  congr 1
  funext elevs
  unfold aggregateF aggregate
  rw [if_neg hm, if_neg hm', if_neg hm, if_neg hm']

/-! ### concrete cases -/

example : fillNanF 5 (sumSeq rnd64) "MAX" (Flood.queen 2 2) ![none, some 1, some 7, some 3] =
    .ok ![some 7, some 1, some 7, some 3] := by
  rw [C137_exact (by decide +kernel) (by decide +kernel)]
  decide +kernel

def demNa : Fin 4 → Option ℚ := ![none, some tenth, some tenth, some (1 / 2)]
theorem demNa_doubles : Doubles demNa := by
  intro n v h
  fin_cases n
  · cases h
  · cases h; exact rnd64_nearest.mem _
  · cases h; exact rnd64_nearest.mem _
  · cases h; exact ⟨1, -1, by norm_num, by norm_num, by norm_num⟩

def outNa : Fin 4 → Option ℚ := ![some (rnd64 (rnd64 (rnd64 (tenth + tenth) + 1 / 2) / 3)), some tenth, some tenth, some (1 / 2)]
theorem runNa : fillNanF 2 (sumSeq rnd64) "mean" (Flood.queen 2 2) demNa = .ok outNa := by decide +kernel
example : ∃ v, outNa 0 = some v ∧ v ∈ Double ∧ tenth - 1 / 2 * ((1 + u53) ^ ((3 + 1) * gaps demNa) - 1) ≤ v ∧
    v ≤ 1 / 2 + 1 / 2 * ((1 + u53) ^ ((3 + 1) * gaps demNa) - 1) :=
  C137_mean (sumSeq_ok _) (by decide +kernel) demNa_doubles (by decide +kernel) (by decide +kernel) (le_refl _)
    (by decide +kernel) runNa (by decide +kernel) 0

/-- two gaps; the first is filled with the mean of two different middle elements -/
def demNb : Fin 6 → Option ℚ := ![none, some tenth, some (1 / 2), some tenth, none, some (1 / 2)]
def outNb : Fin 6 → Option ℚ :=
  ![some tenth, some tenth, some (1 / 2), some tenth, some (rnd64 (rnd64 (tenth + 1 / 2) / 2)), some (1 / 2)]
theorem runNb : fillNanF 3 (sumSeq rnd64) "median" (Flood.queen 2 3) demNb = .ok outNb := by decide +kernel
theorem half_mem : (1 / 2 : ℚ) ∈ Double := ⟨1, -1, by norm_num, by norm_num, by norm_num⟩
theorem demNb_doubles : Doubles demNb := by
  intro n v h
  fin_cases n <;> cases h
  exacts [rnd64_nearest.mem _, half_mem, rnd64_nearest.mem _, half_mem]
example : ∃ v, outNb 4 = some v ∧ v ∈ Double ∧ ∃ a b x y, demNb a = some x ∧ demNb b = some y ∧ x ≤ v ∧ v ≤ y :=
  C137_median_min_max (by decide +kernel) demNb_doubles runNb 4

end Dany.Float
