import Verif.Nse.Props
import Verif.Reach.Rounded
import Verif.Float.Getters
import Verif.Float.Area
import Mathlib.Data.List.GetD

/-!
# C217: the Nash-Sutcliffe efficiency in floating point

`nash_sutcliffe_efficiency` (examples/nse_util.py:4-19) with every operation rounded.  `np.nansum` adds in some fixed order that
depends on the number of values only, as NumPy does.  The machine logarithm is any function.  Overflow is not modelled.
-/

namespace Dany.Nse

open Float Reach

variable {N : ℕ}

/-! ### the order of a sum -/

/-- an order in which the numbers of an array are added two by two -/
inductive Order
  | at (i : ℕ)
  | add (a b : Order)

/-- the positions that are added -/
def Order.leaves : Order → List ℕ
  | .at i => [i]
  | .add a b => a.leaves ++ b.leaves

/-- the sum in that order -/
def Order.sum (r : ℚ → ℚ) (l : List ℚ) : Order → ℚ
  | .at i => l.getD i 0
  | .add a b => r (a.sum r l + b.sum r l)

/-- `sum` adds every number of an array once, in an order that depends on the length of the array only -/
def FixedOrder (r : ℚ → ℚ) (sum : List ℚ → ℚ) : Prop :=
  ∀ n, n ≠ 0 → ∃ o : Order, o.leaves.Perm (List.range n) ∧ ∀ l : List ℚ, l.length = n → sum l = o.sum r l

theorem FixedOrder.ok {r : ℚ → ℚ} {sum : List ℚ → ℚ} (h : FixedOrder r sum) : SumOK r sum := by
  intro l hl
  obtain ⟨o, h1, h2⟩ := h l.length (by simpa using hl)
  rw [h2 l rfl]
  have key : ∀ o : Order, Sums r (o.leaves.map fun i => l.getD i 0) (o.sum r l) := by
    intro o
    induction o with
    | «at» i => exact .one _
    | add a b ha hb =>
      rw [Order.leaves, List.map_append]
      exact .add ha hb
  refine .perm (key o) ((h1.map _).trans (List.Perm.of_eq ?_))
  refine List.ext_getElem (by simp) fun i hi hi' => ?_
  rw [List.getElem_map, List.getElem_range, List.getD_eq_getElem]

theorem Order.sum_mono {F : Set ℚ} {r : ℚ → ℚ} (hr : Nearest F r) {l l' : List ℚ} (h : List.Forall₂ (· ≤ ·) l l') (o : Order) :
    o.sum r l ≤ o.sum r l' := by
  induction o with
  | «at» i =>
    show l.getD i 0 ≤ l'.getD i 0
    rcases lt_or_ge i l.length with hi | hi
    · have hi' : i < l'.length := h.length_eq ▸ hi
      rw [List.getD_eq_getElem _ _ hi, List.getD_eq_getElem _ _ hi']
      exact h.get hi hi'
    · rw [List.getD_eq_default _ _ hi, List.getD_eq_default _ _ (h.length_eq ▸ hi)]
  | add a b ha hb => exact hr.mono (add_le_add ha hb)

theorem FixedOrder.mono {F : Set ℚ} {r : ℚ → ℚ} (hr : Nearest F r) {sum : List ℚ → ℚ} (h : FixedOrder r sum) {l l' : List ℚ}
    (hl : List.Forall₂ (· ≤ ·) l l') (h0 : l ≠ []) : sum l ≤ sum l' := by
  obtain ⟨o, -, h2⟩ := h l.length (by simpa using h0)
  rw [h2 l rfl, h2 l' hl.length_eq.symm]
  exact o.sum_mono hr hl

/-- one after the other -/
def seqOrder : ℕ → Order
  | 0 => .at 0
  | n + 1 => .add (seqOrder n) (.at (n + 1))

theorem sumSeq_fixed (r : ℚ → ℚ) : FixedOrder r (sumSeq r) := by
  intro n hn
  obtain ⟨n, rfl⟩ := Nat.exists_eq_succ_of_ne_zero hn
  refine ⟨seqOrder n, ?_, ?_⟩
  · clear hn
    induction n with
    | zero => exact .refl _
    | succ n ih =>
      rw [List.range_succ]
      exact ih.append_right _
  · have key : ∀ (n : ℕ) (x : ℚ) (l m : List ℚ), l.length = n →
        l.foldl (fun s y => r (s + y)) x = (seqOrder n).sum r (x :: (l ++ m)) := by
      intro n
      induction n with
      | zero =>
        intro x l m hl
        rw [List.length_eq_zero_iff.1 hl]
        rfl
      | succ n ih =>
        intro x l m hl
        obtain ⟨l, y, rfl⟩ : ∃ l' y, l = l' ++ [y] := by
          have : l ≠ [] := by rintro rfl; simp at hl
          exact ⟨_, _, (List.dropLast_append_getLast this).symm⟩
        have hl' : l.length = n := by simpa using hl
        rw [List.foldl_append, List.foldl_cons, List.foldl_nil, ih x l ([y] ++ m) hl', List.append_assoc]
        show r (_ + y) = r (_ + (x :: (l ++ ([y] ++ m))).getD (n + 1) 0)
        congr 2
        rw [List.getD_cons_succ, List.getD_append_right _ _ _ _ hl'.le, hl', Nat.sub_self]
        rfl
    intro l hl
    cases l with
    | nil => simp at hl
    | cons x l =>
      have := key n x l [] (by simpa using hl)
      rw [List.append_nil] at this
      exact this

/-! ### the model -/

/-- a `float64` result: a number, NaN or minus infinity -/
inductive ScoreF
  | num (q : ℚ)
  | nan
  | ninf
  deriving DecidableEq

/-- `q[q == 0] = 1e-06; q = np.log(q)` (examples/nse_util.py:8-11) -/
def logF (r L : ℚ → ℚ) (x : Option ℚ) : Option ℚ :=
  match x with
  | none => none
  | some v =>
    let v := if v = 0 then r (1 / 1000000) else v
    if v < 0 then none else some (L v)

/-- the series that are compared (examples/nse_util.py:5-13) -/
def seriesF (r L : ℚ → ℚ) (flg : Bool) (q : Fin N → Option ℚ) : Fin N → Option ℚ :=
  if flg then fun i => logF r L (q i) else q

/-- the array with 0 for NaN, as `np.nansum` and `np.nanmean` make it -/
def filled (f : Fin N → Option ℚ) : List ℚ := (List.finRange N).map fun i => (f i).getD 0

/-- `np.nansum` (examples/nse_util.py:14-15) -/
def total (sum : List ℚ → ℚ) (f : Fin N → Option ℚ) : ℚ := if N = 0 then 0 else sum (filled f)

/-- the number of values -/
def count (f : Fin N → Option ℚ) : ℕ := ((List.finRange N).filter fun i => f i ≠ none).length

/-- `np.nanmean` (examples/nse_util.py:15) -/
def meanF (r : ℚ → ℚ) (sum : List ℚ → ℚ) (f : Fin N → Option ℚ) : Option ℚ :=
  if count f = 0 then none else some (r (total sum f / count f))

/-- `(a - b) ** 2` (examples/nse_util.py:14-15) -/
def sqF (r : ℚ → ℚ) (a b : Option ℚ) : Option ℚ :=
  match a, b with
  | some x, some y => some (r (r (x - y) ^ 2))
  | _, _ => none

/-- the score of two numbers (examples/nse_util.py:16-19) -/
def scoreF (r : ℚ → ℚ) (numerator denominator : ℚ) (nnse : Bool) : ScoreF :=
  if denominator = 0 then
    if numerator = 0 then .nan
    else if nnse then .num 0 else .ninf
  else
    let s := r (1 - r (numerator / denominator))
    if nnse then .num (r (1 / r (2 - s))) else .num s

/-- `nash_sutcliffe_efficiency` (examples/nse_util.py:4-19) in `float64` -/
def nseF (r : ℚ → ℚ) (sum : List ℚ → ℚ) (L : ℚ → ℚ) (qsim qobs : Fin N → Option ℚ) (flg nnse : Bool) : ScoreF :=
  let qsim := seriesF r L flg qsim
  let qobs := seriesF r L flg qobs
  scoreF r (total sum fun i => sqF r (qobs i) (qsim i)) (total sum fun i => sqF r (qobs i) (meanF r sum qobs)) nnse

/-! ### sums of squares -/

variable {sum : List ℚ → ℚ} {L : ℚ → ℚ}

theorem filled_ne_nil (f : Fin N → Option ℚ) (hN : N ≠ 0) : filled f ≠ [] := by
  unfold filled
  intro h
  rw [List.map_eq_nil_iff, List.finRange_eq_nil_iff] at h
  exact hN h

theorem rnd0 : rnd64 0 = 0 := rnd64_nearest.exact (zero_mem _ _)

theorem rnd64_nonneg {x : ℚ} (h : 0 ≤ x) : 0 ≤ rnd64 x := by
  have := rnd64_nearest.mono h
  rwa [rnd0] at this

theorem sqF_ok (a b : Option ℚ) : (sqF rnd64 a b).getD 0 ∈ Double ∧ 0 ≤ (sqF rnd64 a b).getD 0 := by
  unfold sqF
  split
  · exact ⟨rnd64_nearest.mem _, rnd64_nonneg (sq_nonneg _)⟩
  · exact ⟨zero_mem _ _, le_refl _⟩

/-- a sum of numbers that are not negative -/
theorem total_ok (hs : SumOK rnd64 sum) {f : Fin N → Option ℚ} (hf : ∀ i, (f i).getD 0 ∈ Double ∧ 0 ≤ (f i).getD 0) :
    total sum f ∈ Double ∧ Within (N - 1) (total sum f) (∑ i, (f i).getD 0) := by
  unfold total
  split_ifs with hN
  · subst hN
    exact ⟨zero_mem _ _, by simpa using Within.zero 0⟩
  · obtain ⟨h1, -, -, h4⟩ := sums_within (hs _ (filled_ne_nil f hN)) (by
      intro x hx
      obtain ⟨i, -, rfl⟩ := List.mem_map.1 hx
      exact hf i)
    refine ⟨h1, ?_⟩
    have e1 : (filled f).length = N := by simp [filled]
    have e2 : (filled f).sum = ∑ i, (f i).getD 0 := by
      unfold filled
      rw [Fin.sum_univ_def]
    rwa [e1, e2] at h4

theorem within_nonneg {k : ℕ} {x y : ℚ} (h : Within k x y) (hy : 0 ≤ y) : 0 ≤ x :=
  le_trans (mul_nonneg hy (pow_nonneg (by norm_num) _)) h.1

theorem within_pos {k : ℕ} {x y : ℚ} (h : Within k x y) (hy : 0 < y) : 0 < x :=
  lt_of_lt_of_le (mul_pos hy (pow_pos (by norm_num) _)) h.1

theorem total_nonneg (hs : SumOK rnd64 sum) {f : Fin N → Option ℚ} (hf : ∀ i, (f i).getD 0 ∈ Double ∧ 0 ≤ (f i).getD 0) :
    0 ≤ total sum f :=
  within_nonneg (total_ok hs hf).2 (Finset.sum_nonneg fun i _ => (hf i).2)

theorem total_pos (hs : SumOK rnd64 sum) {f : Fin N → Option ℚ} (hf : ∀ i, (f i).getD 0 ∈ Double ∧ 0 ≤ (f i).getD 0) {i : Fin N}
    (hi : (f i).getD 0 ≠ 0) : 0 < total sum f :=
  within_pos (total_ok hs hf).2 (Finset.sum_pos' (fun i _ => (hf i).2) ⟨i, Finset.mem_univ i, lt_of_le_of_ne (hf i).2 (Ne.symm hi)⟩)

theorem total_zero (hs : SumOK rnd64 sum) {f : Fin N → Option ℚ} (hf : ∀ i, (f i).getD 0 = 0) : total sum f = 0 := by
  have h := (total_ok hs (f := f) fun i => by rw [hf]; exact ⟨zero_mem _ _, le_refl _⟩).2
  have e : ∑ i, (f i).getD 0 = 0 := Finset.sum_eq_zero fun i _ => hf i
  rw [e] at h
  exact le_antisymm (by simpa using h.2) (by simpa using h.1)

theorem rnd64_eq_of_double {x : ℚ} (h : x ∈ Double) : rnd64 x = x := rnd64_nearest.exact h

theorem pow_double {k : ℤ} (hk : -1074 ≤ k) : (2 : ℚ) ^ k ∈ Double := by
  have := mul_mem (p := 53) (emin := -1022) (k := k) (m := 1) (by norm_num) (by norm_num; omega) (by norm_num)
  simpa using this

theorem sq_pos_of {x y : ℚ} (h : 2 ^ (-500 : ℤ) ≤ |x - y|) : 0 < rnd64 (rnd64 (x - y) ^ 2) := by
  have h1 : 2 ^ (-500 : ℤ) ≤ |rnd64 (x - y)| := by
    have h5 := rnd64_eq_of_double (pow_double (k := -500) (by norm_num))
    rcases le_abs.1 h with h | h
    · have := rnd64_nearest.mono h
      rw [h5] at this
      exact this.trans (le_abs_self _)
    · have := rnd64_nearest.mono h
      rw [h5, rnd64_neg] at this
      exact this.trans (neg_le_abs _)
  have h2 : (2 : ℚ) ^ (-1000 : ℤ) ≤ rnd64 (x - y) ^ 2 := by
    rw [← sq_abs]
    refine le_trans ?_ (pow_le_pow_left₀ (zpow_pos (by norm_num) _).le h1 2)
    rw [← zpow_natCast, ← zpow_mul]
    norm_num
  have h3 := rnd64_nearest.mono h2
  rw [rnd64_eq_of_double (pow_double (k := -1000) (by norm_num))] at h3
  exact lt_of_lt_of_le (zpow_pos (by norm_num) _) h3

/-- two of the values differ by `2^-499` or more -/
def Apart (q : Fin N → Option ℚ) : Prop := ∃ i j x y, q i = some x ∧ q j = some y ∧ 2 ^ (-499 : ℤ) ≤ |x - y|

theorem count_pos {q : Fin N → Option ℚ} {i : Fin N} {x : ℚ} (h : q i = some x) : count q ≠ 0 := by
  unfold count
  rw [Ne, List.length_eq_zero_iff]
  intro h0
  have : i ∈ (List.finRange N).filter fun i => q i ≠ none := by simp [h]
  rw [h0] at this
  cases this

theorem denominator_ne (hs : SumOK rnd64 sum) {q : Fin N → Option ℚ} (h : Apart q) :
    0 < total sum fun i => sqF rnd64 (q i) (meanF rnd64 sum q) := by
  obtain ⟨i, j, x, y, hi, hj, hd⟩ := h
  have hm : meanF rnd64 sum q = some (rnd64 (total sum q / count q)) := by
    unfold meanF
    rw [if_neg (count_pos hi)]
  set m := rnd64 (total sum q / count q)
  have e : (2 : ℚ) ^ (-499 : ℤ) = 2 ^ (-500 : ℤ) + 2 ^ (-500 : ℤ) := by
    rw [← two_mul, show (-499 : ℤ) = 1 + -500 by norm_num, zpow_add₀ (by norm_num)]
    norm_num
  have : 2 ^ (-500 : ℤ) ≤ |x - m| ∨ 2 ^ (-500 : ℤ) ≤ |y - m| := by
    by_contra hc
    push Not at hc
    have h1 : |x - y| ≤ |x - m| + |y - m| := by
      have : x - y = (x - m) - (y - m) := by ring
      rw [this]
      exact abs_sub _ _
    linarith [hc.1, hc.2]
  rcases this with h | h
  · refine total_pos hs (fun i => sqF_ok _ _) (i := i) ?_
    rw [hi, hm]
    exact (sq_pos_of h).ne'
  · refine total_pos hs (fun i => sqF_ok _ _) (i := j) ?_
    rw [hj, hm]
    exact (sq_pos_of h).ne'

/-! ### range -/

theorem le_one_of (x : ℚ) (h : 0 ≤ x) : rnd64 (1 - x) ≤ 1 := by
  have h1 : rnd64 1 = 1 := by decide +kernel
  have := rnd64_nearest.mono (show 1 - x ≤ 1 by linarith)
  rwa [h1] at this

/-- **C217** (range): in floating point a score that is a number is at most 1, and a normalised one between 0 and 1. -/
theorem C217_range (hs : SumOK rnd64 sum) (qsim qobs : Fin N → Option ℚ) (flg : Bool) :
    (∀ s, nseF rnd64 sum L qsim qobs flg false = .num s → s ∈ Double ∧ s ≤ 1) ∧
      ∀ s, nseF rnd64 sum L qsim qobs flg true = .num s → s ∈ Double ∧ 0 ≤ s ∧ s ≤ 1 := by
  have h1 : rnd64 1 = 1 := by decide +kernel
  unfold nseF
  dsimp only
  set e := total sum fun i => sqF rnd64 (seriesF rnd64 L flg qobs i) (seriesF rnd64 L flg qsim i) with he
  set d := total sum fun i => sqF rnd64 (seriesF rnd64 L flg qobs i) (meanF rnd64 sum (seriesF rnd64 L flg qobs)) with hd
  have he0 : 0 ≤ e := total_nonneg hs fun i => sqF_ok _ _
  have hd0 : 0 ≤ d := total_nonneg hs fun i => sqF_ok _ _
  have hs1 := le_one_of _ (rnd64_nonneg (div_nonneg he0 hd0))
  unfold scoreF
  simp only [Bool.false_eq_true, if_false, if_true]
  constructor
  · intro s h
    split_ifs at h
    cases h
    exact ⟨rnd64_nearest.mem _, hs1⟩
  · intro s h
    split_ifs at h
    · cases h
      exact ⟨zero_mem _ _, le_refl _, zero_le_one⟩
    · cases h
      have h2 : 1 ≤ rnd64 (2 - rnd64 (1 - rnd64 (e / d))) := by
        have := rnd64_nearest.mono (show 1 ≤ 2 - rnd64 (1 - rnd64 (e / d)) by linarith)
        rwa [h1] at this
      refine ⟨rnd64_nearest.mem _, rnd64_nonneg (by positivity), ?_⟩
      have := rnd64_nearest.mono (show 1 / rnd64 (2 - rnd64 (1 - rnd64 (e / d))) ≤ 1 from by
        rw [div_le_one (by linarith)]; exact h2)
      rwa [h1] at this

/-- **C217** (a number): if two observed values differ by `2^-499` or more, the score is a number. -/
theorem C217_number (hs : SumOK rnd64 sum) (qsim qobs : Fin N → Option ℚ) (flg nnse : Bool) (h : Apart (seriesF rnd64 L flg qobs)) :
    ∃ s, nseF rnd64 sum L qsim qobs flg nnse = .num s := by
  unfold nseF scoreF
  dsimp only
  rw [if_neg (denominator_ne hs h).ne']
  cases nnse <;> exact ⟨_, rfl⟩

/-- **C217** (perfect): a simulation that agrees with the observations wherever both have values scores exactly 1. -/
theorem C217_perfect (hs : SumOK rnd64 sum) (qsim qobs : Fin N → Option ℚ) (flg nnse : Bool) (h : Apart (seriesF rnd64 L flg qobs))
    (heq : ∀ i x y, seriesF rnd64 L flg qobs i = some x → seriesF rnd64 L flg qsim i = some y → x = y) :
    nseF rnd64 sum L qsim qobs flg nnse = .num 1 := by
  unfold nseF scoreF
  dsimp only
  have e0 : (total sum fun i => sqF rnd64 (seriesF rnd64 L flg qobs i) (seriesF rnd64 L flg qsim i)) = 0 := by
    refine total_zero hs fun i => ?_
    unfold sqF
    split
    · rename_i x y hx hy
      rw [heq i x y hx hy, sub_self, rnd0]
      norm_num
      exact rnd0
    · rfl
  rw [if_neg (denominator_ne hs h).ne', e0, zero_div, rnd0, sub_zero]
  cases nnse <;> decide +kernel

/-- **C217** (what 1 means): the score is 1 if and only if the rounded quotient of the two sums is at most `2^-54`. -/
theorem C217_one (hs : SumOK rnd64 sum) (qsim qobs : Fin N → Option ℚ) (flg : Bool) (h : Apart (seriesF rnd64 L flg qobs)) :
    nseF rnd64 sum L qsim qobs flg false = .num 1 ↔
      rnd64 ((total sum fun i => sqF rnd64 (seriesF rnd64 L flg qobs i) (seriesF rnd64 L flg qsim i)) /
        total sum fun i => sqF rnd64 (seriesF rnd64 L flg qobs i) (meanF rnd64 sum (seriesF rnd64 L flg qobs))) ≤ 1 / 2 ^ 54 := by
  unfold nseF scoreF
  dsimp only
  rw [if_neg (denominator_ne hs h).ne', if_neg (by simp), ScoreF.num.injEq]
  set q := rnd64 ((total sum fun i => sqF rnd64 (seriesF rnd64 L flg qobs i) (seriesF rnd64 L flg qsim i)) /
        total sum fun i => sqF rnd64 (seriesF rnd64 L flg qobs i) (meanF rnd64 sum (seriesF rnd64 L flg qobs))) with hq
  have hq0 : 0 ≤ q := rnd64_nonneg (div_nonneg (total_nonneg hs fun i => sqF_ok _ _) (total_nonneg hs fun i => sqF_ok _ _))
  have hqm : q ∈ Double := rnd64_nearest.mem _
  constructor
  · intro h1
    by_contra hc
    rw [not_le] at hc
    obtain ⟨k, hk⟩ := mul_of_ge (L := -54) hqm (.inl (by rw [abs_of_nonneg hq0]; norm_num at hc ⊢; exact hc.le))
    have hk2 : (2 : ℤ) ^ 52 + 1 ≤ k := by
      have : ((2 : ℤ) ^ 52 : ℤ) < k := by
        have h3 : ((2 : ℚ) ^ 52) * 2 ^ (-54 - ((53 : ℕ) - 1) : ℤ) < k * 2 ^ (-54 - ((53 : ℕ) - 1) : ℤ) := by
          rw [← hk]
          refine lt_of_le_of_lt (le_of_eq ?_) hc
          norm_num
        have := lt_of_mul_lt_mul_right h3 (zpow_pos (by norm_num) _).le
        exact_mod_cast this
      omega
    have hge : (1 / 2 ^ 54 + 1 / 2 ^ 106 : ℚ) ≤ q := by
      rw [hk]
      have : ((2 : ℚ) ^ 52 + 1) ≤ k := by exact_mod_cast hk2
      refine le_trans (le_of_eq ?_) (mul_le_mul_of_nonneg_right this (zpow_pos (by norm_num) _).le)
      norm_num
    have h2 : rnd64 (1 - (1 / 2 ^ 54 + 1 / 2 ^ 106)) < 1 := by decide +kernel
    have h3 := rnd64_nearest.mono (show 1 - q ≤ 1 - (1 / 2 ^ 54 + 1 / 2 ^ 106) by linarith)
    rw [h1] at h3
    exact absurd h3 (not_le.2 h2)
  · intro hle
    refine le_antisymm (le_one_of _ hq0) ?_
    have h2 : rnd64 (1 - 1 / 2 ^ 54) = 1 := by decide +kernel
    have h3 := rnd64_nearest.mono (show 1 - 1 / 2 ^ 54 ≤ 1 - q by linarith)
    rwa [h2] at h3

/-- **C217** (mean): a simulation that predicts the computed mean of the observations scores exactly 0, normalised one half. -/
theorem C217_mean (hs : SumOK rnd64 sum) (qobs : Fin N → Option ℚ) (h : Apart qobs) :
    nseF rnd64 sum L (fun _ => meanF rnd64 sum qobs) qobs false false = .num 0 ∧
      nseF rnd64 sum L (fun _ => meanF rnd64 sum qobs) qobs false true = .num (1 / 2) := by
  have hd := (denominator_ne hs h).ne'
  have h0 : rnd64 (1 - rnd64 1) = 0 := by decide +kernel
  constructor
  all_goals
    unfold nseF scoreF seriesF
    simp only [Bool.false_eq_true, if_false, if_true]
    rw [if_neg hd, div_self hd, h0]
  decide +kernel

/-! ### better simulations -/

theorem rnd64_abs {a b : ℚ} (h : |a| ≤ |b|) : |rnd64 a| ≤ |rnd64 b| := by
  have e : ∀ x : ℚ, |rnd64 x| = rnd64 |x| := by
    intro x
    rcases le_total 0 x with hx | hx
    · rw [abs_of_nonneg hx, abs_of_nonneg (rnd64_nonneg hx)]
    · rw [abs_of_nonpos hx, rnd64_neg, abs_of_nonpos]
      have := rnd64_nearest.mono hx
      rwa [rnd0] at this
  rw [e, e]
  exact rnd64_nearest.mono h

theorem sq_mono {x y y' : ℚ} (h : |x - y'| ≤ |x - y|) : rnd64 (rnd64 (x - y') ^ 2) ≤ rnd64 (rnd64 (x - y) ^ 2) :=
  rnd64_nearest.mono (sq_le_sq.2 (rnd64_abs h))

/-- **C217** (closer): a simulation that is nowhere further from the observations, and has values only where the other has, never
scores less, neither plainly nor normalised. -/
theorem C217_closer (hs : FixedOrder rnd64 sum) (qsim qsim' qobs : Fin N → Option ℚ) (flg nnse : Bool)
    (h : Apart (seriesF rnd64 L flg qobs))
    (hc : ∀ i x y', seriesF rnd64 L flg qobs i = some x → seriesF rnd64 L flg qsim' i = some y' →
      ∃ y, seriesF rnd64 L flg qsim i = some y ∧ |x - y'| ≤ |x - y|) :
    ∃ s s', nseF rnd64 sum L qsim qobs flg nnse = .num s ∧ nseF rnd64 sum L qsim' qobs flg nnse = .num s' ∧ s ≤ s' := by
  have hN : N ≠ 0 := by
    obtain ⟨i, -⟩ := h
    exact fun h0 => (h0 ▸ i).elim0
  have hd := denominator_ne hs.ok h
  have he : (total sum fun i => sqF rnd64 (seriesF rnd64 L flg qobs i) (seriesF rnd64 L flg qsim' i)) ≤
      total sum fun i => sqF rnd64 (seriesF rnd64 L flg qobs i) (seriesF rnd64 L flg qsim i) := by
    unfold total
    rw [if_neg hN, if_neg hN]
    refine hs.mono rnd64_nearest ?_ (filled_ne_nil _ hN)
    unfold filled
    rw [List.forall₂_map_left_iff, List.forall₂_map_right_iff, List.forall₂_same]
    intro i _
    show (sqF rnd64 (seriesF rnd64 L flg qobs i) (seriesF rnd64 L flg qsim' i)).getD 0 ≤
      (sqF rnd64 (seriesF rnd64 L flg qobs i) (seriesF rnd64 L flg qsim i)).getD 0
    cases hx : seriesF rnd64 L flg qobs i with
    | none => exact le_refl (0 : ℚ)
    | some x =>
      cases hy' : seriesF rnd64 L flg qsim' i with
      | none => exact (sqF_ok (some x) _).2
      | some y' =>
        obtain ⟨y, hy, hle⟩ := hc i x y' hx hy'
        rw [hy]
        exact sq_mono hle
  have he0 : 0 ≤ total sum fun i => sqF rnd64 (seriesF rnd64 L flg qobs i) (seriesF rnd64 L flg qsim' i) :=
    total_nonneg hs.ok fun i => sqF_ok _ _
  unfold nseF scoreF
  dsimp only
  rw [if_neg hd.ne', if_neg hd.ne']
  set d := total sum fun i => sqF rnd64 (seriesF rnd64 L flg qobs i) (meanF rnd64 sum (seriesF rnd64 L flg qobs))
  have h1 := rnd64_nearest.mono (div_le_div_of_nonneg_right he hd.le)
  have h2 := rnd64_nearest.mono (sub_le_sub_left h1 1)
  cases nnse with
  | false => exact ⟨_, _, rfl, rfl, h2⟩
  | true =>
    refine ⟨_, _, rfl, rfl, rnd64_nearest.mono ?_⟩
    have h3 := rnd64_nearest.mono (sub_le_sub_left h2 2)
    have h4 : (1 : ℚ) ≤ rnd64 (2 - rnd64 (1 - rnd64 ((total sum fun i => sqF rnd64 (seriesF rnd64 L flg qobs i) (seriesF rnd64 L flg qsim' i)) / d))) := by
      have h1 : rnd64 1 = 1 := by decide +kernel
      have := le_one_of _ (rnd64_nonneg (div_nonneg he0 hd.le))
      have := rnd64_nearest.mono (show 1 ≤ 2 - rnd64 (1 - rnd64 ((total sum fun i => sqF rnd64 (seriesF rnd64 L flg qobs i) (seriesF rnd64 L flg qsim' i)) / d)) by linarith)
      rwa [h1] at this
    exact one_div_le_one_div_of_le (by linarith) h3

/-- **C217** (missing): leaving out simulated values never lowers the score, as in exact arithmetic (C87). -/
theorem C217_missing (hs : FixedOrder rnd64 sum) (qsim qsim' qobs : Fin N → Option ℚ) (nnse : Bool) (h : Apart qobs)
    (hsub : ∀ i, qsim' i = qsim i ∨ qsim' i = none) :
    ∃ s s', nseF rnd64 sum L qsim qobs false nnse = .num s ∧ nseF rnd64 sum L qsim' qobs false nnse = .num s' ∧ s ≤ s' := by
  refine C217_closer hs qsim qsim' qobs false nnse h fun i x y' _ hy' => ?_
  rcases hsub i with e | e
  · refine ⟨y', ?_, le_refl _⟩
    have : qsim' i = some y' := hy'
    rw [e] at this
    exact this
  · have : qsim' i = some y' := hy'
    rw [e] at this
    cases this

/-! ### constant observations -/

theorem sums_const {c : ℚ} {M : ℕ} (hM : ∀ k : ℕ, k ≤ M → k * c ∈ Double) {l : List ℚ} {s : ℚ} (h : Sums rnd64 l s)
    (hl : ∀ x ∈ l, x = 0 ∨ x = c) (hlen : l.length ≤ M) : s = l.sum ∧ ∃ k : ℕ, k ≤ l.length ∧ l.sum = k * c := by
  induction h with
  | one x =>
    refine ⟨by simp, ?_⟩
    rcases hl x (by simp) with rfl | rfl
    · exact ⟨0, by simp, by simp⟩
    · exact ⟨1, by simp, by simp⟩
  | perm h hp ih =>
    obtain ⟨h1, h2⟩ := ih (fun x hx => hl x (hp.subset hx)) (hp.length_eq ▸ hlen)
    rw [hp.sum_eq, hp.length_eq] at *
    exact ⟨h1, h2⟩
  | @add l l' a b ha hb iha ihb =>
    rw [List.length_append] at hlen
    obtain ⟨a1, k, hk, a2⟩ := iha (fun x hx => hl x (List.mem_append_left _ hx)) (by omega)
    obtain ⟨b1, k', hk', b2⟩ := ihb (fun x hx => hl x (List.mem_append_right _ hx)) (by omega)
    have e : l.sum + l'.sum = ((k + k' : ℕ) : ℚ) * c := by rw [a2, b2]; push_cast; ring
    refine ⟨?_, k + k', by rw [List.length_append]; omega, by rw [List.sum_append, e]⟩
    rw [a1, b1, List.sum_append, e]
    exact rnd64_eq_of_double (hM _ (by omega))

theorem sum_const_count {α : Type*} (c : ℚ) (f : α → Option ℚ) (l : List α) (h : ∀ i ∈ l, ∀ x, f i = some x → x = c) :
    (l.map fun i => (f i).getD 0).sum = ((l.filter fun i => f i ≠ none).length : ℚ) * c := by
  induction l with
  | nil => simp
  | cons i l ih =>
    have ih := ih fun i hi => h i (by simp [hi])
    rw [List.map_cons, List.sum_cons, ih]
    cases hi : f i with
    | none => rw [List.filter_cons_of_neg (by simp [hi])]; simp
    | some x =>
      rw [List.filter_cons_of_pos (by simp [hi]), List.length_cons, h i (by simp) x hi]
      push_cast
      simp only [Option.getD_some]
      ring

/-- **C217** (constant): if all observed values are `c`, and `c`, `2 c`, …, `N c` are doubles (an integer, say), there is no score, as
in exact arithmetic (C86): NaN if the simulation agrees, else minus infinity, normalised 0. -/
theorem C217_constant (hs : SumOK rnd64 sum) (qsim qobs : Fin N → Option ℚ) (nnse : Bool) {c : ℚ} {i0 : Fin N}
    (hi0 : qobs i0 = some c) (ho : ∀ i x, qobs i = some x → x = c) (hM : ∀ k : ℕ, k ≤ N → k * c ∈ Double) :
    ((∀ i y, qobs i = some c → qsim i = some y → y = c) → nseF rnd64 sum L qsim qobs false nnse = .nan) ∧
      ((∃ i y, qobs i = some c ∧ qsim i = some y ∧ 2 ^ (-500 : ℤ) ≤ |c - y|) →
        nseF rnd64 sum L qsim qobs false nnse = if nnse then .num 0 else .ninf) := by
  have hN : N ≠ 0 := fun h0 => (h0 ▸ i0).elim0
  have hmean : meanF rnd64 sum qobs = some c := by
    have hcnt := count_pos hi0
    unfold meanF
    rw [if_neg hcnt]
    have h1 := (sums_const hM (hs _ (filled_ne_nil qobs hN)) (by
      intro x hx
      obtain ⟨i, -, rfl⟩ := List.mem_map.1 hx
      cases hi : qobs i with
      | none => exact .inl rfl
      | some x => exact .inr (ho i x hi)) (by simp [filled])).1
    have h2 : total sum qobs = count qobs * c := by
      unfold total
      rw [if_neg hN, h1]
      exact sum_const_count c qobs _ fun i _ x hx => ho i x hx
    have hc : c ∈ Double := by
      have := hM 1 (by omega)
      simpa using this
    have h3 : (count qobs : ℚ) ≠ 0 := by exact_mod_cast hcnt
    rw [h2, mul_div_cancel_left₀ _ h3, rnd64_eq_of_double hc]
  have hd : (total sum fun i => sqF rnd64 (qobs i) (meanF rnd64 sum qobs)) = 0 := by
    refine total_zero hs fun i => ?_
    rw [hmean]
    cases hi : qobs i with
    | none => rfl
    | some x =>
      rw [ho i x hi]
      show rnd64 (rnd64 (c - c) ^ 2) = 0
      rw [sub_self, rnd0]
      norm_num
      exact rnd0
  unfold nseF scoreF seriesF
  simp only [Bool.false_eq_true, if_false]
  rw [if_pos hd]
  constructor
  · intro h
    rw [if_pos]
    refine total_zero hs fun i => ?_
    cases hi : qobs i with
    | none => rfl
    | some x =>
      cases hy : qsim i with
      | none => rfl
      | some y =>
        have hx := ho i x hi
        rw [hx, h i y (hx ▸ hi) hy]
        show rnd64 (rnd64 (c - c) ^ 2) = 0
        rw [sub_self, rnd0]
        norm_num
        exact rnd0
  · rintro ⟨i, y, hi, hy, hcy⟩
    rw [if_neg]
    refine (total_pos hs (fun i => sqF_ok _ _) (i := i) ?_).ne'
    rw [hi, hy]
    exact (sq_pos_of hcy).ne'

/-- **C217** (constant, in general): with three observations of 0.1 the computed mean is not 0.1; a perfect simulation scores 1, not
NaN, and one that is off by 0.1 once gets a number, not minus infinity. -/
theorem C217_constant_refuted : nseF rnd64 (sumSeq rnd64) id (fun _ : Fin 3 => some (rnd64 (1 / 10))) (fun _ => some (rnd64 (1 / 10))) false false = .num 1 ∧
    nseF rnd64 (sumSeq rnd64) id ![some (rnd64 (1 / 10)), some (rnd64 (1 / 10)), some (rnd64 (1 / 5))] (fun _ => some (rnd64 (1 / 10))) false false =
      .num (-17307656195116095457789376200704) := by
  constructor <;> decide +kernel

/-! ### accuracy -/

/-- `k` roundings of numbers that are not negative, `k` at most a million and two -/
theorem within_million {k : ℕ} (hk : k ≤ 1000002) : (1 + 1 / 2 ^ 53 : ℚ) ^ k ≤ 1 + 1 / 2 ^ 32 ∧ 1 - 1 / 2 ^ 33 ≤ (1 - 1 / 2 ^ 53 : ℚ) ^ k := by
  have hkq : (k : ℚ) ≤ 1000002 := by exact_mod_cast hk
  have h1 : 1 - (k : ℚ) * (1 / 2 ^ 53) ≤ (1 - 1 / 2 ^ 53 : ℚ) ^ k := by
    have := one_add_mul_le_pow (a := (-(1 / 2 ^ 53) : ℚ)) (by norm_num) k
    rw [← sub_eq_add_neg] at this
    linarith
  have h2 : 1 - 1 / 2 ^ 33 ≤ (1 - 1 / 2 ^ 53 : ℚ) ^ k := by
    refine le_trans ?_ h1
    have : (k : ℚ) * (1 / 2 ^ 53) ≤ 1000002 * (1 / 2 ^ 53) := mul_le_mul_of_nonneg_right hkq (by norm_num)
    have : (1000002 : ℚ) * (1 / 2 ^ 53) ≤ 1 / 2 ^ 33 := by norm_num
    linarith
  refine ⟨?_, h2⟩
  have h3 : (1 + 1 / 2 ^ 53 : ℚ) ^ k * (1 - 1 / 2 ^ 53 : ℚ) ^ k ≤ 1 := by
    rw [← mul_pow]
    exact pow_le_one₀ (by norm_num) (by norm_num)
  have h4 : 0 ≤ (1 + 1 / 2 ^ 53 : ℚ) ^ k := by positivity
  nlinarith

/-- the least positive double -/
abbrev tiny : ℚ := 2 ^ (-1074 : ℤ)

/-- one square -/
theorem sq_err {x y : ℚ} (hx : x ∈ Double) (hy : y ∈ Double) :
    (x - y) ^ 2 * (1 - 1 / 2 ^ 53) ^ 3 - tiny ≤ rnd64 (rnd64 (x - y) ^ 2) ∧
      rnd64 (rnd64 (x - y) ^ 2) ≤ (x - y) ^ 2 * (1 + 1 / 2 ^ 53) ^ 3 + tiny := by
  have e := add_err (p := 53) (emin := -1022) (by norm_num) rnd64_nearest hx (neg_mem hy)
  rw [← sub_eq_add_neg] at e
  set t := x - y
  have w : Within 1 |rnd64 t| |t| := by
    refine within_of_err (abs_nonneg _) ?_
    rw [abs_abs]
    exact (abs_abs_sub_abs_le _ _).trans e
  obtain ⟨w1, w2⟩ := w
  rw [pow_one] at w1 w2
  have k1 : t ^ 2 * (1 - 1 / 2 ^ 53) ^ 2 ≤ rnd64 t ^ 2 := by
    rw [← sq_abs (rnd64 t), ← sq_abs t, ← mul_pow]
    exact pow_le_pow_left₀ (mul_nonneg (abs_nonneg _) (by norm_num)) w1 2
  have k2 : rnd64 t ^ 2 ≤ t ^ 2 * (1 + 1 / 2 ^ 53) ^ 2 := by
    rw [← sq_abs (rnd64 t), ← sq_abs t, ← mul_pow]
    exact pow_le_pow_left₀ (abs_nonneg _) w2 2
  have a := any_err rnd64_nearest (rnd64 t ^ 2)
  rw [abs_of_nonneg (sq_nonneg (rnd64 t)), abs_le] at a
  have p3 : ∀ v : ℚ, v ^ 3 = v ^ 2 * v := fun v => by ring
  rw [p3, p3, ← mul_assoc, ← mul_assoc]
  constructor
  · have := mul_le_mul_of_nonneg_right k1 (show (0 : ℚ) ≤ 1 - 1 / 2 ^ 53 by norm_num)
    linarith [a.1]
  · have := mul_le_mul_of_nonneg_right k2 (show (0 : ℚ) ≤ 1 + 1 / 2 ^ 53 by norm_num)
    linarith [a.2]

/-- a square or nothing, exactly -/
def sqE (a b : Option ℚ) : ℚ :=
  match a, b with
  | some x, some y => (x - y) ^ 2
  | _, _ => 0

theorem sqE_nonneg (a b : Option ℚ) : 0 ≤ sqE a b := by
  unfold sqE
  split
  · exact sq_nonneg _
  · exact le_refl _

/-- the sum of at most a million squares -/
theorem squares_err (hs : SumOK rnd64 sum) (hN : N ≤ 1000000) {f g : Fin N → Option ℚ} (hf : ∀ i x, f i = some x → x ∈ Double)
    (hg : ∀ i x, g i = some x → x ∈ Double) :
    |(total sum fun i => sqF rnd64 (f i) (g i)) - ∑ i, sqE (f i) (g i)| ≤ (∑ i, sqE (f i) (g i)) / 2 ^ 32 + 2 * N * tiny := by
  have ht : (0 : ℚ) < tiny := zpow_pos (by norm_num) _
  have hone : ∀ i, sqE (f i) (g i) * (1 - 1 / 2 ^ 53) ^ 3 - tiny ≤ (sqF rnd64 (f i) (g i)).getD 0 ∧
      (sqF rnd64 (f i) (g i)).getD 0 ≤ sqE (f i) (g i) * (1 + 1 / 2 ^ 53) ^ 3 + tiny := by
    intro i
    cases hx : f i with
    | none => constructor <;> simp [sqE, sqF]
    | some x =>
      cases hy : g i with
      | none => constructor <;> simp [sqE, sqF]
      | some y => exact sq_err (hf i x hx) (hg i y hy)
  set E := ∑ i, sqE (f i) (g i) with hE
  have hE0 : 0 ≤ E := Finset.sum_nonneg fun i _ => sqE_nonneg _ _
  set S := ∑ i, (sqF rnd64 (f i) (g i)).getD 0 with hS
  have hS0 : 0 ≤ S := Finset.sum_nonneg fun i _ => (sqF_ok _ _).2
  have l1 : E * (1 - 1 / 2 ^ 53) ^ 3 - N * tiny ≤ S := by
    have := Finset.sum_le_sum fun i (_ : i ∈ Finset.univ) => (hone i).1
    rw [Finset.sum_sub_distrib, ← Finset.sum_mul] at this
    simpa using this
  have l2 : S ≤ E * (1 + 1 / 2 ^ 53) ^ 3 + N * tiny := by
    have := Finset.sum_le_sum fun i (_ : i ∈ Finset.univ) => (hone i).2
    rw [Finset.sum_add_distrib, ← Finset.sum_mul] at this
    simpa using this
  have hw := (total_ok hs (f := fun i => sqF rnd64 (f i) (g i)) fun i => sqF_ok _ _).2
  set T := total sum fun i => sqF rnd64 (f i) (g i)
  obtain ⟨w1, w2⟩ := hw
  have m := within_million (k := N - 1 + 3) (by omega)
  have m' := within_million (k := N - 1) (by omega)
  have p1 : (0 : ℚ) ≤ (1 - 1 / 2 ^ 53 : ℚ) ^ (N - 1) := pow_nonneg (by norm_num) _
  have p2 : (0 : ℚ) ≤ (1 + 1 / 2 ^ 53 : ℚ) ^ (N - 1) := pow_nonneg (by norm_num) _
  have p3 : (1 - 1 / 2 ^ 53 : ℚ) ^ (N - 1) ≤ 1 := pow_le_one₀ (by norm_num) (by norm_num)
  have hNt : (0 : ℚ) ≤ N * tiny := by positivity
  rw [abs_le]
  constructor
  · have a1 := mul_le_mul_of_nonneg_right l1 p1
    have a2 : E * (1 - 1 / 2 ^ 53) ^ 3 * (1 - 1 / 2 ^ 53 : ℚ) ^ (N - 1) = E * (1 - 1 / 2 ^ 53 : ℚ) ^ (N - 1 + 3) := by
      rw [pow_add]; ring
    have a3 := mul_le_mul_of_nonneg_left m.2 hE0
    have a4 := mul_le_mul_of_nonneg_left p3 hNt
    rw [sub_mul, a2] at a1
    have : E * (1 - 1 / 2 ^ 33) = E - E / 2 ^ 33 := by ring
    have : E / 2 ^ 33 ≤ E / 2 ^ 32 := div_le_div_of_nonneg_left hE0 (by norm_num) (by norm_num)
    linarith
  · have a1 := mul_le_mul_of_nonneg_right l2 p2
    have a2 : E * (1 + 1 / 2 ^ 53) ^ 3 * (1 + 1 / 2 ^ 53 : ℚ) ^ (N - 1) = E * (1 + 1 / 2 ^ 53 : ℚ) ^ (N - 1 + 3) := by
      rw [pow_add]; ring
    have a3 := mul_le_mul_of_nonneg_left m.1 hE0
    have a4 := mul_le_mul_of_nonneg_left m'.1 hNt
    rw [add_mul, a2] at a1
    have : E * (1 + 1 / 2 ^ 32) = E + E / 2 ^ 32 := by ring
    have : (N : ℚ) * tiny * (1 + 1 / 2 ^ 32) ≤ 2 * N * tiny := by linarith
    linarith

/-- a sum in floating point, compared with the sum of the absolute values -/
theorem sums_abs {l : List ℚ} {s : ℚ} (h : Sums rnd64 l s) (hl : ∀ x ∈ l, x ∈ Double) :
    s ∈ Double ∧ 1 ≤ l.length ∧ |s - l.sum| ≤ ((1 + u53) ^ (l.length - 1) - 1) * (l.map abs).sum ∧ |l.sum| ≤ (l.map abs).sum := by
  induction h with
  | one x => exact ⟨hl x (by simp), le_refl _, by simp, by simp⟩
  | perm h hp ih =>
    obtain ⟨h1, h2, h3, h4⟩ := ih (fun x hx => hl x (hp.subset hx))
    rw [hp.length_eq] at h2 h3
    rw [hp.sum_eq, (hp.map abs).sum_eq] at h3 h4
    exact ⟨h1, h2, h3, h4⟩
  | @add l l' a b ha hb iha ihb =>
    obtain ⟨a1, a2, a3, a4⟩ := iha fun x hx => hl x (List.mem_append_left _ hx)
    obtain ⟨b1, b2, b3, b4⟩ := ihb fun x hx => hl x (List.mem_append_right _ hx)
    have herr : |rnd64 (a + b) - (a + b)| ≤ |a + b| / 2 ^ 53 := add_err (by norm_num) rnd64_nearest a1 b1
    set P : ℚ := (1 + u53) ^ (l.length + l'.length - 2) with hP
    have hu : (0 : ℚ) ≤ u53 := by norm_num [u53]
    have hPa : (1 + u53) ^ (l.length - 1) ≤ P := pow_le_pow_right₀ (by linarith) (by omega)
    have hPb : (1 + u53) ^ (l'.length - 1) ≤ P := pow_le_pow_right₀ (by linarith) (by omega)
    have hPs : (1 + u53) ^ (l.length + l'.length - 1) = P * (1 + u53) := by
      rw [hP, ← pow_succ]; congr 1; omega
    have hla : (0 : ℚ) ≤ (l.map abs).sum := (abs_nonneg _).trans a4
    have hlb : (0 : ℚ) ≤ (l'.map abs).sum := (abs_nonneg _).trans b4
    have a5 : |a - l.sum| ≤ (P - 1) * (l.map abs).sum := a3.trans (mul_le_mul_of_nonneg_right (by linarith) hla)
    have b5 : |b - l'.sum| ≤ (P - 1) * (l'.map abs).sum := b3.trans (mul_le_mul_of_nonneg_right (by linarith) hlb)
    rw [List.length_append, List.map_append, List.sum_append, List.sum_append, hPs]
    refine ⟨rnd64_nearest.mem _, by omega, ?_, ?_⟩
    · have hab : |a + b| ≤ P * ((l.map abs).sum + (l'.map abs).sum) := by
        rw [abs_le] at a4 a5 b4 b5 ⊢
        constructor <;> nlinarith
      have hdiv : |a + b| / 2 ^ 53 = u53 * |a + b| := by rw [u53]; ring
      rw [hdiv] at herr
      have h6 := herr.trans (mul_le_mul_of_nonneg_left hab hu)
      rw [abs_le] at a5 b5 h6 ⊢
      constructor <;> nlinarith
    · rw [abs_le] at a4 b4 ⊢
      constructor <;> linarith

theorem abs_count {α : Type*} {A : ℚ} (f : α → Option ℚ) (l : List α) (h : ∀ i ∈ l, ∀ x, f i = some x → |x| ≤ A) :
    ((l.map fun i => (f i).getD 0).map abs).sum ≤ ((l.filter fun i => f i ≠ none).length : ℚ) * A := by
  induction l with
  | nil => simp
  | cons i l ih =>
    have ih := ih fun i hi => h i (by simp [hi])
    rw [List.map_cons, List.map_cons, List.sum_cons]
    cases hi : f i with
    | none => rw [List.filter_cons_of_neg (by simp [hi])]; simpa using ih
    | some x =>
      rw [List.filter_cons_of_pos (by simp [hi]), List.length_cons]
      have := h i (by simp) x hi
      push_cast
      simp only [Option.getD_some]
      linarith

/-- the exact mean -/
def meanE (f : Fin N → Option ℚ) : ℚ := (∑ i, (f i).getD 0) / count f

/-- the mean of at most a million values, some of which may be missing -/
theorem meanF_err (hs : SumOK rnd64 sum) (hN : N ≤ 1000000) {f : Fin N → Option ℚ} {A : ℚ} (hA : 2 ^ (-1022 : ℤ) ≤ A)
    (hf : ∀ i x, f i = some x → x ∈ Double ∧ |x| ≤ A) (hc : count f ≠ 0) :
    ∃ m ∈ Double, meanF rnd64 sum f = some m ∧ |m - meanE f| ≤ A / 2 ^ 31 := by
  have hN0 : N ≠ 0 := by
    rintro rfl
    exact hc rfl
  have hA0 : (0 : ℚ) < A := lt_of_lt_of_le (zpow_pos (by norm_num) _) hA
  refine ⟨_, rnd64_nearest.mem _, by unfold meanF; rw [if_neg hc], ?_⟩
  obtain ⟨-, -, h3, h4⟩ := sums_abs (hs _ (filled_ne_nil f hN0)) (by
    intro x hx
    obtain ⟨i, -, rfl⟩ := List.mem_map.1 hx
    cases hi : f i with
    | none => exact zero_mem _ _
    | some x => exact (hf i x hi).1)
  have h5 : ((filled f).map abs).sum ≤ count f * A := abs_count f _ fun i _ x hx => (hf i x hx).2
  have e1 : (filled f).length = N := by simp [filled]
  have e2 : (filled f).sum = ∑ i, (f i).getD 0 := by
    unfold filled
    rw [Fin.sum_univ_def]
  have e3 : sum (filled f) = total sum f := by unfold total; rw [if_neg hN0]
  rw [e1, e2, e3] at h3
  rw [e2] at h4
  have hn : (0 : ℚ) < count f := by
    have := Nat.pos_of_ne_zero hc
    exact_mod_cast this
  have m := (within_million (k := N - 1) (by omega)).1
  have h6 : |total sum f - ∑ i, (f i).getD 0| ≤ 1 / 2 ^ 32 * (count f * A) := by
    refine h3.trans (mul_le_mul (by rw [u53]; linarith) h5 ((abs_nonneg _).trans h4) (by norm_num))
  have d1 : |total sum f / count f - meanE f| ≤ 1 / 2 ^ 32 * A := by
    unfold meanE
    rw [← sub_div, abs_div, abs_of_pos hn, div_le_iff₀ hn]
    linarith
  have d2 : |meanE f| ≤ A := by
    unfold meanE
    rw [abs_div, abs_of_pos hn, div_le_iff₀ hn]
    linarith
  have d3 : |total sum f / count f| ≤ 2 * A := by
    rw [abs_le] at d1 d2 ⊢
    constructor <;> linarith
  have d4 := rnd_err d3 (hA.trans (by linarith))
  have : u53 * (2 * A) + 1 / 2 ^ 32 * A ≤ A / 2 ^ 31 := by rw [u53]; linarith
  rw [abs_le] at d1 d4 ⊢
  constructor <;> linarith

/-- squares from any number are the squares from the mean and the distance of the number from the mean -/
theorem squares_shift (f : Fin N → Option ℚ) (m : ℚ) :
    ∑ i, sqE (f i) (some m) = (∑ i, sqE (f i) (some (meanE f))) + count f * (m - meanE f) ^ 2 := by
  have key : ∀ (l : List (Fin N)) (a b : ℚ), (l.map fun i => sqE (f i) (some a)).sum = (l.map fun i => sqE (f i) (some b)).sum +
      (a - b) * (((l.filter fun i => f i ≠ none).length : ℚ) * (a + b) - 2 * (l.map fun i => (f i).getD 0).sum) := by
    intro l a b
    induction l with
    | nil => simp
    | cons i l ih =>
      simp only [List.map_cons, List.sum_cons]
      rw [ih]
      cases hi : f i with
      | none => rw [List.filter_cons_of_neg (by simp [hi])]; simp [sqE]
      | some x =>
        rw [List.filter_cons_of_pos (by simp [hi]), List.length_cons]
        simp only [sqE, Option.getD_some]
        push_cast
        ring
  have := key (List.finRange N) m (meanE f)
  rw [← Fin.sum_univ_def, ← Fin.sum_univ_def, ← Fin.sum_univ_def] at this
  rw [this]
  congr 1
  show (m - meanE f) * ((count f : ℚ) * (m + meanE f) - 2 * ∑ i, (f i).getD 0) = _
  by_cases hc : count f = 0
  · have h0 : ∀ i, f i = none := by
      intro i
      by_contra hi
      obtain ⟨x, hx⟩ := Option.ne_none_iff_exists'.1 hi
      exact count_pos hx hc
    rw [hc]
    simp [h0]
  · have hn : (count f : ℚ) ≠ 0 := by exact_mod_cast hc
    have : ∑ i, (f i).getD 0 = count f * meanE f := by unfold meanE; field_simp
    rw [this]
    ring

/-! ### against real arithmetic -/

/-- the same values as real numbers -/
def reals (q : Fin N → Option ℚ) : Fin N → Option ℝ := fun i => (q i).map fun x : ℚ => (x : ℝ)

/-- the variance of the values that are not missing, in real arithmetic -/
noncomputable def variance (q : Fin N → Option ℝ) : ℝ :=
  (nanSum fun i => sqDiff (q i) (nanMean q)) / (Finset.univ.filter fun i => q i ≠ none).card

theorem sqDiff_reals (a b : Option ℚ) : (sqDiff (a.map fun x : ℚ => (x : ℝ)) (b.map fun x : ℚ => (x : ℝ))).getD 0 = ((sqE a b : ℚ) : ℝ) := by
  cases a <;> cases b <;> simp [sqDiff, sqE]

theorem count_card (f : Fin N → Option ℚ) : (Finset.univ.filter fun i => reals f i ≠ none).card = count f := by
  have h : (Finset.univ.filter fun i => reals f i ≠ none) = ((List.finRange N).filter fun i => f i ≠ none).toFinset := by
    ext i
    simp [reals]
  unfold count
  rw [h, List.toFinset_card_of_nodup ((List.nodup_finRange N).filter _)]

theorem nanMean_reals {f : Fin N → Option ℚ} (hc : count f ≠ 0) : nanMean (reals f) = some ((meanE f : ℚ) : ℝ) := by
  unfold nanMean
  dsimp only
  rw [count_card, if_neg hc]
  unfold nanSum meanE
  push_cast
  congr 2
  refine Finset.sum_congr rfl fun i _ => ?_
  unfold reals
  cases f i <;> simp

theorem nanSum_reals (f g : Fin N → Option ℚ) : (nanSum fun i => sqDiff (reals f i) (reals g i)) = ((∑ i, sqE (f i) (g i) : ℚ) : ℝ) := by
  unfold nanSum
  push_cast
  exact Finset.sum_congr rfl fun i _ => sqDiff_reals _ _

/-- **C217** (accuracy): at most a million values, none of the observed values larger than `A`, their standard deviation at least
`A / 2^15`.  The score computed differs from the one of real arithmetic, `r`, by no more than `(1 - r) 2^-28 + 2^-52`. -/
theorem C217_error (hs : SumOK rnd64 sum) (hN : N ≤ 1000000) {qsim qobs : Fin N → Option ℚ} {A : ℚ} (hA : 2 ^ (-400 : ℤ) ≤ A)
    (hsim : ∀ i x, qsim i = some x → x ∈ Double) (hobs : ∀ i x, qobs i = some x → x ∈ Double ∧ |x| ≤ A)
    (hv : ((A : ℝ) / 2 ^ 15) ^ 2 ≤ variance (reals qobs)) :
    ∃ (s : ℚ) (r : ℝ), nseF rnd64 sum L qsim qobs false false = .num s ∧ nse (reals qsim) (reals qobs) false false = .num r ∧
      |(s : ℝ) - r| ≤ (1 - r) / 2 ^ 28 + 1 / 2 ^ 52 := by
  have hA0 : (0 : ℚ) < A := lt_of_lt_of_le (zpow_pos (by norm_num) _) hA
  have hc : count qobs ≠ 0 := by
    intro hc
    unfold variance at hv
    rw [count_card, hc, Nat.cast_zero, div_zero] at hv
    have : (0 : ℝ) < A := by exact_mod_cast hA0
    exact absurd hv (not_le.2 (by positivity))
  have hn1 : (1 : ℚ) ≤ count qobs := by
    have := Nat.pos_of_ne_zero hc
    exact_mod_cast this
  obtain ⟨m, hm, hmean, hme⟩ := meanF_err hs hN (le_trans (zpow_le_zpow_right₀ (by norm_num) (by norm_num)) hA) hobs hc
  set E := ∑ i, sqE (qobs i) (qsim i) with hE
  set D := ∑ i, sqE (qobs i) (some (meanE qobs)) with hD
  have hEr : (nanSum fun i => sqDiff (reals qobs i) (reals qsim i)) = ((E : ℚ) : ℝ) := nanSum_reals _ _
  have hDr : (nanSum fun i => sqDiff (reals qobs i) (nanMean (reals qobs))) = ((D : ℚ) : ℝ) := by
    rw [nanMean_reals hc]
    exact nanSum_reals qobs fun _ => some (meanE qobs)
  have hE0 : 0 ≤ E := Finset.sum_nonneg fun i _ => sqE_nonneg _ _
  have hDn : (count qobs : ℚ) * (A / 2 ^ 15) ^ 2 ≤ D := by
    unfold variance at hv
    rw [hDr, count_card, le_div_iff₀ (by exact_mod_cast Nat.pos_of_ne_zero hc), mul_comm] at hv
    exact_mod_cast hv
  have hDA : A ^ 2 / 2 ^ 30 ≤ D := by
    have h1 : A ^ 2 / 2 ^ 30 = (A / 2 ^ 15) ^ 2 := by ring
    have h2 : (0 : ℚ) ≤ (A / 2 ^ 15) ^ 2 := sq_nonneg _
    nlinarith
  have hD0 : 0 < D := lt_of_lt_of_le (by positivity) hDA
  -- underflow is negligible
  have hsmall : 2 * (N : ℚ) * tiny ≤ D / 2 ^ 100 := by
    have h1 : (2 : ℚ) ^ (-400 : ℤ) * 2 ^ (-400 : ℤ) ≤ A ^ 2 := by
      rw [sq]
      exact mul_le_mul hA hA (zpow_pos (by norm_num) _).le hA0.le
    rw [← zpow_add₀ (by norm_num)] at h1
    have h2 : (N : ℚ) ≤ 1000000 := by exact_mod_cast hN
    have h3 : (0 : ℚ) < tiny := zpow_pos (by norm_num) _
    have h4 : 2 * (N : ℚ) * tiny ≤ 2 ^ 21 * tiny := mul_le_mul_of_nonneg_right (by linarith) h3.le
    have h5 : (2 : ℚ) ^ 21 * tiny ≤ 2 ^ (-400 + -400 : ℤ) / 2 ^ 30 / 2 ^ 100 := by
      rw [tiny, show (-1074 : ℤ) = (-400 + -400) + -274 by norm_num, zpow_add₀ (by norm_num)]
      have h6 : (0 : ℚ) < 2 ^ (-400 + -400 : ℤ) := zpow_pos (by norm_num) _
      have h7 : (2 : ℚ) ^ 21 * 2 ^ (-274 : ℤ) ≤ 1 / 2 ^ 30 / 2 ^ 100 := by decide +kernel
      have h8 := mul_le_mul_of_nonneg_left h7 h6.le
      calc _ = 2 ^ (-400 + -400 : ℤ) * ((2 : ℚ) ^ 21 * 2 ^ (-274 : ℤ)) := by ring
        _ ≤ _ := h8
        _ = _ := by ring
    have h9 : (2 : ℚ) ^ (-400 + -400 : ℤ) / 2 ^ 30 / 2 ^ 100 ≤ D / 2 ^ 100 :=
      div_le_div_of_nonneg_right ((div_le_div_of_nonneg_right h1 (by norm_num)).trans hDA) (by norm_num)
    linarith
  -- the two sums
  have ee := squares_err hs hN (f := qobs) (g := qsim) (fun i x h => (hobs i x h).1) hsim
  have de := squares_err hs hN (f := qobs) (g := fun _ => some m) (fun i x h => (hobs i x h).1) (fun i x h => by cases h; exact hm)
  rw [← hE] at ee
  rw [squares_shift qobs m, ← hD] at de
  have hw : (count qobs : ℚ) * (m - meanE qobs) ^ 2 ≤ D / 2 ^ 32 := by
    have h1 : (m - meanE qobs) ^ 2 ≤ (A / 2 ^ 31) ^ 2 := by
      rw [← sq_abs]
      exact pow_le_pow_left₀ (abs_nonneg _) hme 2
    have h2 := mul_le_mul_of_nonneg_left h1 (by linarith : (0 : ℚ) ≤ count qobs)
    have h3 : (count qobs : ℚ) * (A / 2 ^ 31) ^ 2 = count qobs * (A / 2 ^ 15) ^ 2 / 2 ^ 32 := by ring
    rw [h3] at h2
    exact h2.trans (div_le_div_of_nonneg_right hDn (by norm_num))
  have hw0 : 0 ≤ (count qobs : ℚ) * (m - meanE qobs) ^ 2 := by positivity
  set e := total sum fun i => sqF rnd64 (qobs i) (qsim i) with he
  set d := total sum fun i => sqF rnd64 (qobs i) (some m) with hd
  set W := (count qobs : ℚ) * (m - meanE qobs) ^ 2
  have he0 : 0 ≤ e := total_nonneg hs fun i => sqF_ok _ _
  have ee' : |e - E| ≤ E / 2 ^ 32 + D / 2 ^ 100 := by linarith
  have de' : |d - D| ≤ D / 2 ^ 30 := by
    rw [abs_le] at de ⊢
    have : (D + W) / 2 ^ 32 = D / 2 ^ 32 + W / 2 ^ 32 := by ring
    have : W / 2 ^ 32 ≤ D / 2 ^ 32 / 2 ^ 32 := div_le_div_of_nonneg_right hw (by norm_num)
    constructor <;> linarith [de.1, de.2]
  have hdpos : D * (1 - 1 / 2 ^ 30) ≤ d := by
    have := (abs_le.1 de').1
    linarith
  have hd0 : 0 < d := lt_of_lt_of_le (mul_pos hD0 (by norm_num)) hdpos
  -- the quotient
  set Q := E / D with hQ
  have hQ0 : 0 ≤ Q := div_nonneg hE0 hD0.le
  have hEQ : E = Q * D := by rw [hQ]; field_simp
  have qe : |e / d - Q| ≤ Q / 2 ^ 29 + 1 / 2 ^ 99 := by
    have h1 : e / d - Q = ((e - E) - Q * (d - D)) / d := by
      rw [hEQ]
      field_simp
      ring
    rw [h1, abs_div, abs_of_pos hd0, div_le_iff₀ hd0]
    have h2 : |(e - E) - Q * (d - D)| ≤ E / 2 ^ 32 + D / 2 ^ 100 + Q * (D / 2 ^ 30) := by
      refine (abs_sub _ _).trans (add_le_add ee' ?_)
      rw [abs_mul, abs_of_nonneg hQ0]
      exact mul_le_mul_of_nonneg_left de' hQ0
    refine h2.trans ?_
    rw [hEQ]
    have h3 : (Q / 2 ^ 29 + 1 / 2 ^ 99) * (D * (1 - 1 / 2 ^ 30)) ≤ (Q / 2 ^ 29 + 1 / 2 ^ 99) * d :=
      mul_le_mul_of_nonneg_left hdpos (by positivity)
    refine le_trans ?_ h3
    have h4 : 0 ≤ Q * D := mul_nonneg hQ0 hD0.le
    have h5 : (Q / 2 ^ 29 + 1 / 2 ^ 99) * (D * (1 - 1 / 2 ^ 30)) =
        (Q * D) * ((1 - 1 / 2 ^ 30) / 2 ^ 29) + D * ((1 - 1 / 2 ^ 30) / 2 ^ 99) := by ring
    have h6 : Q * D / 2 ^ 32 + D / 2 ^ 100 + Q * (D / 2 ^ 30) = (Q * D) * (1 / 2 ^ 32 + 1 / 2 ^ 30) + D * (1 / 2 ^ 100) := by ring
    rw [h5, h6]
    exact add_le_add (mul_le_mul_of_nonneg_left (by norm_num) h4) (mul_le_mul_of_nonneg_left (by norm_num) hD0.le)
  have hed0 : 0 ≤ e / d := div_nonneg he0 hd0.le
  have a1 := any_err rnd64_nearest (e / d)
  rw [abs_of_nonneg hed0] at a1
  have t9 : (2 : ℚ) ^ (-1074 : ℤ) ≤ 1 / 2 ^ 99 := by
    rw [one_div, ← zpow_natCast, ← zpow_neg]
    exact zpow_le_zpow_right₀ (by norm_num) (by norm_num)
  have qu : e / d ≤ 2 * Q + 1 / 2 ^ 98 := by
    have := (abs_le.1 qe).2
    have : Q / 2 ^ 29 ≤ Q := div_le_self hQ0 (by norm_num)
    have : (1 : ℚ) / 2 ^ 99 ≤ 1 / 2 ^ 98 := by norm_num
    linarith
  set q' := rnd64 (e / d) with hq'
  have hq0 : 0 ≤ q' := rnd64_nonneg hed0
  have h53 : e / d / 2 ^ 53 ≤ Q / 2 ^ 52 + 1 / 2 ^ 151 := by
    have := div_le_div_of_nonneg_right qu (show (0 : ℚ) ≤ 2 ^ 53 by norm_num)
    have e1 : (2 * Q + 1 / 2 ^ 98) / 2 ^ 53 = Q / 2 ^ 52 + 1 / 2 ^ 151 := by ring
    linarith
  have q2 : |q' - Q| ≤ Q / 2 ^ 29 + Q / 2 ^ 52 + 1 / 2 ^ 97 := by
    have : (1 : ℚ) / 2 ^ 99 + 1 / 2 ^ 151 + 1 / 2 ^ 99 ≤ 1 / 2 ^ 97 := by norm_num
    have k1 := abs_le.1 a1
    have k2 := abs_le.1 qe
    rw [abs_le]
    constructor <;> linarith [k1.1, k1.2, k2.1, k2.2]
  have h1m : (1 : ℚ) ∈ Double := by simpa using pow_double (k := 0) (by norm_num)
  have s1 := add_err (p := 53) (emin := -1022) (by norm_num) rnd64_nearest h1m (neg_mem (rnd64_nearest.mem (e / d)))
  rw [← sub_eq_add_neg, ← hq'] at s1
  have s2 : |1 - q'| / 2 ^ 53 ≤ 1 / 2 ^ 53 + Q / 2 ^ 52 + 1 / 2 ^ 150 := by
    have h1 : |1 - q'| ≤ 1 + q' := by rw [abs_le]; constructor <;> linarith
    have h2 : q' ≤ 2 * Q + 1 / 2 ^ 97 := by
      have := (abs_le.1 q2).2
      have : Q / 2 ^ 29 + Q / 2 ^ 52 ≤ Q := by
        have : Q / 2 ^ 29 + Q / 2 ^ 52 = Q * (1 / 2 ^ 29 + 1 / 2 ^ 52) := by ring
        rw [this]
        exact mul_le_of_le_one_right hQ0 (by norm_num)
      linarith
    have h3 := div_le_div_of_nonneg_right (h1.trans (add_le_add_right h2 1)) (show (0 : ℚ) ≤ 2 ^ 53 by norm_num)
    have h4 : (1 + (2 * Q + 1 / 2 ^ 97)) / 2 ^ 53 = 1 / 2 ^ 53 + Q / 2 ^ 52 + 1 / 2 ^ 150 := by ring
    rw [h4] at h3
    exact h3
  have fin : |rnd64 (1 - q') - (1 - Q)| ≤ Q / 2 ^ 28 + 1 / 2 ^ 52 := by
    have k1 := abs_le.1 (s1.trans s2)
    have k2 := abs_le.1 q2
    have k3 : Q / 2 ^ 29 + Q / 2 ^ 52 + Q / 2 ^ 52 ≤ Q / 2 ^ 28 := by
      have e1 : Q / 2 ^ 29 + Q / 2 ^ 52 + Q / 2 ^ 52 = Q * (1 / 2 ^ 29 + 1 / 2 ^ 52 + 1 / 2 ^ 52) := by ring
      have e2 : Q / 2 ^ 28 = Q * (1 / 2 ^ 28) := by ring
      rw [e1, e2]
      exact mul_le_mul_of_nonneg_left (by norm_num) hQ0
    have k4 : (1 : ℚ) / 2 ^ 53 + 1 / 2 ^ 150 + 1 / 2 ^ 97 ≤ 1 / 2 ^ 52 := by norm_num
    rw [abs_le]
    constructor <;> linarith [k1.1, k1.2, k2.1, k2.2]
  refine ⟨rnd64 (1 - q'), 1 - (Q : ℝ), ?_, ?_, ?_⟩
  · unfold nseF scoreF seriesF
    simp only [Bool.false_eq_true, if_false]
    rw [hmean, ← hd, if_neg hd0.ne']
  · unfold nse
    simp only [Bool.false_eq_true, if_false]
    rw [hEr, hDr, if_neg (by exact_mod_cast hD0.ne'), hQ]
    push_cast
    rfl
  · have := (Rat.cast_le (K := ℝ)).2 fin
    push_cast at this
    rw [show (1 : ℝ) - (1 - Q) = Q by ring]
    exact this

/-! ### a concrete case -/

def obsF : Fin 3 → Option ℚ := ![some 1, none, some 3]
def simF : Fin 3 → Option ℚ := ![some 2, some 5, some 3]

theorem int_double {k : ℤ} (hk : |k| ≤ 2 ^ 53) : (k : ℚ) ∈ Double := by
  have := mul_mem (p := 53) (emin := -1022) (k := 0) (m := k) (by norm_num) (by norm_num) hk
  simpa using this

theorem obsF_ok : ∀ i x, obsF i = some x → x ∈ Double ∧ |x| ≤ 3 := by
  intro i x h
  fin_cases i
  · cases h; exact ⟨by exact_mod_cast int_double (k := 1) (by norm_num), by norm_num⟩
  · cases h
  · cases h; exact ⟨by exact_mod_cast int_double (k := 3) (by norm_num), by norm_num⟩

theorem simF_ok : ∀ i x, simF i = some x → x ∈ Double := by
  intro i x h
  fin_cases i
  · cases h; exact_mod_cast int_double (k := 2) (by norm_num)
  · cases h; exact_mod_cast int_double (k := 5) (by norm_num)
  · cases h; exact_mod_cast int_double (k := 3) (by norm_num)

theorem obsF_apart : Apart obsF := ⟨0, 2, 1, 3, rfl, rfl, by decide +kernel⟩

theorem obsF_variance : variance (reals obsF) = 1 := by
  have hc : count obsF = 2 := by decide +kernel
  have hs : ∑ i, sqE (obsF i) (some (meanE obsF)) = 2 := by decide +kernel
  unfold variance
  rw [nanMean_reals (by rw [hc]; norm_num), count_card, hc]
  have := nanSum_reals obsF fun _ => some (meanE obsF)
  rw [hs] at this
  have e : (nanSum fun i => sqDiff (reals obsF i) (some ((meanE obsF : ℚ) : ℝ))) = 2 := by
    refine this.trans ?_
    norm_num
  rw [e]
  norm_num

example : ∃ (s : ℚ) (r : ℝ), nseF rnd64 (sumSeq rnd64) id simF obsF false false = .num s ∧
    nse (reals simF) (reals obsF) false false = .num r ∧ |(s : ℝ) - r| ≤ (1 - r) / 2 ^ 28 + 1 / 2 ^ 52 :=
  C217_error (A := 3) (sumSeq_ok rnd64) (by norm_num) ((zpow_le_one_of_nonpos₀ (by norm_num) (by norm_num)).trans (by norm_num))
    simF_ok obsF_ok (by rw [obsF_variance]; norm_num)

/-- one half, plainly; two thirds to the last bit, normalised; the mean scores 0, the observations 1, a constant gives NaN -/
theorem C217_concrete : nseF rnd64 (sumSeq rnd64) id simF obsF false false = .num (1 / 2) ∧
    nseF rnd64 (sumSeq rnd64) id simF obsF false true = .num (6004799503160661 / 2 ^ 53) ∧
    nseF rnd64 (sumSeq rnd64) id (fun _ => meanF rnd64 (sumSeq rnd64) obsF) obsF false false = .num 0 ∧
    nseF rnd64 (sumSeq rnd64) id obsF obsF false false = .num 1 ∧
    nseF rnd64 (sumSeq rnd64) id (fun _ : Fin 3 => some 7) (fun _ => some 7) false false = .nan ∧
    nseF rnd64 (sumSeq rnd64) id simF (fun _ => some 7) false false = .ninf ∧
    nseF rnd64 (sumSeq rnd64) id ![some 0, some 1] ![some 0, some (-1)] true false = .nan := by
  refine ⟨?_, ?_, ?_, ?_, ?_, ?_, ?_⟩ <;> decide +kernel

/-- the hypothesis of `C217_constant` -/
example : ∀ k : ℕ, k ≤ 3 → (k : ℚ) * 7 ∈ Double := by
  intro k hk
  have := int_double (k := k * 7) (by rw [abs_of_nonneg (by positivity)]; exact_mod_cast (show k * 7 ≤ 2 ^ 53 by omega))
  exact_mod_cast this

/-- the hypothesis of `C217_closer` -/
example : ∃ s s', nseF rnd64 (sumSeq rnd64) id simF obsF false true = .num s ∧
    nseF rnd64 (sumSeq rnd64) id ![some (3 / 2), none, some 3] obsF false true = .num s' ∧ s ≤ s' := by
  refine C217_closer (sumSeq_fixed rnd64) _ _ _ false true obsF_apart fun i x y' hx hy' => ?_
  fin_cases i
  · cases hx; cases hy'; exact ⟨2, rfl, by norm_num⟩
  · cases hx
  · cases hx; cases hy'; exact ⟨3, rfl, by norm_num⟩

end Dany.Nse
