import Verif.Float.Sqrt
import Verif.Float.Acc

/-!
# The steepest way in `float64` (C116)
-/

namespace Dany.Float

variable {N : ℕ}

/-! ### Vocabulary -/

/-- The difference of two coordinates is zero or of a size between `2^-500` and `2^98`. -/
def Sized (x : ℚ) : Prop := (x = 0 ∨ 2 ^ (-500 : ℤ) ≤ |x|) ∧ |x| ≤ 2 ^ 98

/-- The computation is in `float64`: sums, products and quotients are rounded to it, the square root is
accurate to `2^-52`, the cell centres are doubles; neighbours have different centres, and the coordinates of
their centres differ by amounts of a reasonable size. -/
structure Machine (G : Dirs.Geo N ℚ) (nbr : Fin N → List (Fin N)) : Prop where
  rnd : G.rnd = rnd64
  sqrt : SqrtOK G.sqrt
  x : ∀ n, G.xc n ∈ Format 53 (-1022)
  y : ∀ n, G.yc n ∈ Format 53 (-1022)
  sized : ∀ n, ∀ m ∈ nbr n, Sized (G.xc m - G.xc n) ∧ Sized (G.yc m - G.yc n)
  apart : ∀ n, ∀ m ∈ nbr n, G.xc m - G.xc n ≠ 0 ∨ G.yc m - G.yc n ≠ 0

/-- the distance of two cell centres, a real number -/
noncomputable def way (G : Dirs.Geo N ℚ) (n m : Fin N) : ℝ :=
  √(((G.xc m - G.xc n) ^ 2 + (G.yc m - G.yc n) ^ 2 : ℚ) : ℝ)

/-! ### Errors -/

/-- `x` is `y`, up to `k` roundings -/
def Within (k : ℕ) (x y : ℚ) : Prop := y * (1 - 1 / 2 ^ 53) ^ k ≤ x ∧ x ≤ y * (1 + 1 / 2 ^ 53) ^ k

theorem within_of_err {x y : ℚ} (hy : 0 ≤ y) (h : |x - y| ≤ |y| / 2 ^ 53) : Within 1 x y := by
  rw [abs_of_nonneg hy, abs_le] at h
  constructor <;> · rw [pow_one]; linarith [h.1, h.2]

theorem Within.trans {k l : ℕ} {x y z : ℚ} (h : Within k x y) (h' : Within l y z) : Within (k + l) x z := by
  have e0 : (0 : ℚ) ≤ 1 - 1 / 2 ^ 53 := by norm_num
  have e1 : (0 : ℚ) ≤ 1 + 1 / 2 ^ 53 := by norm_num
  constructor
  · rw [add_comm k l, pow_add, ← mul_assoc]
    exact (mul_le_mul_of_nonneg_right h'.1 (pow_nonneg e0 _)).trans h.1
  · rw [add_comm k l, pow_add, ← mul_assoc]
    exact h.2.trans (mul_le_mul_of_nonneg_right h'.2 (pow_nonneg e1 _))

theorem Within.add {k : ℕ} {x y x' y' : ℚ} (h : Within k x y) (h' : Within k x' y') :
    Within k (x + x') (y + y') := by
  constructor
  · rw [add_mul]; exact add_le_add h.1 h'.1
  · rw [add_mul]; exact add_le_add h.2 h'.2

theorem Within.zero (k : ℕ) : Within k 0 0 := by constructor <;> simp

/-- the rounded square of a rounded difference -/
theorem within_sq {a b : ℚ} (ha : a ∈ Format 53 (-1022)) (hb : b ∈ Format 53 (-1022)) (hs : Sized (a - b)) :
    Within 3 (rnd64 (rnd64 (a - b) ^ 2)) ((a - b) ^ 2) := by
  have hz : rnd64 0 = 0 := rnd64_nearest.exact (zero_mem _ _)
  rcases hs.1 with h0 | h0
  · rw [h0, hz]
    simp only [ne_eq, OfNat.ofNat_ne_zero, not_false_eq_true, zero_pow, hz]
    exact Within.zero 3
  · have e := add_err (p := 53) (by norm_num) rnd64_nearest ha (neg_mem hb)
    rw [← sub_eq_add_neg] at e
    set x := a - b with hx
    have w : Within 1 |rnd64 x| |x| := by
      refine within_of_err (abs_nonneg _) ?_
      rw [abs_abs]
      exact (abs_abs_sub_abs_le _ _).trans e
    have w2 : Within 2 (rnd64 x ^ 2) (x ^ 2) := by
      rw [← sq_abs (rnd64 x), ← sq_abs x]
      obtain ⟨w1, w2⟩ := w
      rw [pow_one] at w1 w2
      constructor
      · rw [← mul_pow]; exact pow_le_pow_left₀ (mul_nonneg (abs_nonneg _) (by norm_num)) w1 2
      · rw [← mul_pow]; exact pow_le_pow_left₀ (abs_nonneg _) w2 2
    have hbig : (2 : ℚ) ^ (-1022 : ℤ) ≤ |rnd64 x ^ 2| := by
      rw [abs_of_nonneg (sq_nonneg _), ← sq_abs]
      have h1 : (2 : ℚ) ^ (-501 : ℤ) ≤ |rnd64 x| := by
        refine le_trans ?_ w.1
        rw [pow_one]
        have : (2 : ℚ) ^ (-501 : ℤ) = 2 ^ (-500 : ℤ) * (1 / 2) := by
          rw [show (-501 : ℤ) = -500 + -1 by norm_num, zpow_add₀ (by norm_num)]; norm_num
        rw [this]
        exact mul_le_mul h0 (by norm_num) (by norm_num) (abs_nonneg _)
      refine le_trans ?_ (pow_le_pow_left₀ (zpow_pos' _).le h1 2)
      rw [← zpow_natCast, ← zpow_mul]
      exact zpow_le_zpow_right₀ (by norm_num) (by norm_num)
    have w3 : Within 1 (rnd64 (rnd64 x ^ 2)) (rnd64 x ^ 2) :=
      within_of_err (sq_nonneg _) (rel_err (p := 53) (by norm_num) rnd64_nearest hbig)
    exact w3.trans w2

variable {G : Dirs.Geo N ℚ} {nbr : Fin N → List (Fin N)}

/-- the square of the distance of two cell centres -/
def way2 (G : Dirs.Geo N ℚ) (n m : Fin N) : ℚ := (G.xc m - G.xc n) ^ 2 + (G.yc m - G.yc n) ^ 2

theorem Machine.way2_bounds (hM : Machine G nbr) {n m : Fin N} (hm : m ∈ nbr n) :
    2 ^ (-1000 : ℤ) ≤ way2 G n m ∧ way2 G n m ≤ 2 ^ 197 := by
  obtain ⟨hx, hy⟩ := hM.sized n m hm
  have up : ∀ t : ℚ, Sized t → t ^ 2 ≤ 2 ^ 196 := fun t ht => by
    rw [← sq_abs]
    refine (pow_le_pow_left₀ (abs_nonneg _) ht.2 2).trans (by norm_num)
  have lo : ∀ t : ℚ, Sized t → t ≠ 0 → 2 ^ (-1000 : ℤ) ≤ t ^ 2 := fun t ht h0 => by
    rw [← sq_abs]
    refine le_trans ?_ (pow_le_pow_left₀ (zpow_pos' _).le (ht.1.resolve_left h0) 2)
    rw [← zpow_natCast, ← zpow_mul]
    norm_num
  unfold way2
  have sx := sq_nonneg (G.xc m - G.xc n)
  have sy := sq_nonneg (G.yc m - G.yc n)
  constructor
  · rcases hM.apart n m hm with h | h
    · linarith [lo _ hx h]
    · linarith [lo _ hy h]
  · have : (2 : ℚ) ^ 197 = 2 ^ 196 + 2 ^ 196 := by norm_num
    linarith [up _ hx, up _ hy]

/-- the computed distance of two neighbours -/
theorem Machine.dist (hM : Machine G nbr) {n m : Fin N} (hm : m ∈ nbr n) :
    way G n m * ((1 - 1 / 2 ^ 53) ^ 2 * (1 - 1 / 2 ^ 52)) ≤ (G.dist n m : ℝ) ∧
      (G.dist n m : ℝ) ≤ way G n m * ((1 + 1 / 2 ^ 53) ^ 2 * (1 + 1 / 2 ^ 52)) := by
  obtain ⟨hx, hy⟩ := hM.sized n m hm
  have hb := hM.way2_bounds hm
  have wx := within_sq (hM.x m) (hM.x n) hx
  have wy := within_sq (hM.y m) (hM.y n) hy
  set S := rnd64 (rnd64 (rnd64 (G.xc m - G.xc n) ^ 2) + rnd64 (rnd64 (G.yc m - G.yc n) ^ 2)) with hS
  have hD : G.dist n m = G.sqrt S := by unfold Dirs.Geo.dist; rw [hM.rnd]
  have w : Within 4 S (way2 G n m) := by
    have w1 := wx.add wy
    have h0 : 0 ≤ rnd64 (rnd64 (G.xc m - G.xc n) ^ 2) + rnd64 (rnd64 (G.yc m - G.yc n) ^ 2) := by
      refine le_trans ?_ w1.1
      refine mul_nonneg (by positivity) (by norm_num)
    refine (within_of_err h0 ?_).trans w1
    exact add_err (p := 53) (by norm_num) rnd64_nearest (rnd64_nearest.mem _) (rnd64_nearest.mem _)
  have hS0 : (2 : ℚ) ^ (-1074 : ℤ) ≤ S := by
    refine le_trans ?_ w.1
    have h1 : (2 : ℚ) ^ (-1074 : ℤ) ≤ 2 ^ (-1000 : ℤ) * (1 / 2) := by
      have : (2 : ℚ) ^ (-1000 : ℤ) * (1 / 2) = 2 ^ (-1001 : ℤ) := by
        rw [show (-1001 : ℤ) = -1000 + -1 by norm_num, zpow_add₀ (by norm_num)]; norm_num
      rw [this]
      exact zpow_le_zpow_right₀ (by norm_num) (by norm_num)
    refine h1.trans (mul_le_mul hb.1 (by norm_num) (by norm_num) ?_)
    exact (zpow_pos' _).le.trans hb.1
  have hq := abs_le.1 (hM.sqrt S hS0)
  rw [hD]
  have hg0 : (0 : ℝ) ≤ (way2 G n m : ℝ) := by exact_mod_cast (zpow_pos' _).le.trans hb.1
  have l1 : way G n m * (1 - 1 / 2 ^ 53) ^ 2 ≤ √(S : ℝ) := by
    refine Real.le_sqrt_of_sq_le ?_
    have : way G n m ^ 2 = (way2 G n m : ℝ) := Real.sq_sqrt hg0
    rw [mul_pow, this, ← pow_mul]
    have c := (Rat.cast_le (K := ℝ)).2 w.1
    push_cast at c
    exact c
  have l2 : √(S : ℝ) ≤ way G n m * (1 + 1 / 2 ^ 53) ^ 2 := by
    refine Real.sqrt_le_iff.2 ⟨mul_nonneg (Real.sqrt_nonneg _) (by positivity), ?_⟩
    have : way G n m ^ 2 = (way2 G n m : ℝ) := Real.sq_sqrt hg0
    rw [mul_pow, this, ← pow_mul]
    have c := (Rat.cast_le (K := ℝ)).2 w.2
    push_cast at c
    exact c
  constructor
  · rw [← mul_assoc]
    have := mul_le_mul_of_nonneg_right l1 (by norm_num : (0 : ℝ) ≤ 1 - 1 / 2 ^ 52)
    linarith [hq.1]
  · rw [← mul_assoc]
    have := mul_le_mul_of_nonneg_right l2 (by norm_num : (0 : ℝ) ≤ 1 + 1 / 2 ^ 52)
    linarith [hq.2]

theorem Machine.way_pos (hM : Machine G nbr) {n m : Fin N} (hm : m ∈ nbr n) : 0 < way G n m := by
  refine Real.sqrt_pos.2 ?_
  have := lt_of_lt_of_le (zpow_pos' (-1000)) (hM.way2_bounds hm).1
  exact_mod_cast this

theorem Machine.dist_pos (hM : Machine G nbr) (n : Fin N) (m : Fin N) (hm : m ∈ nbr n) : 0 < G.dist n m := by
  have h1 := (hM.dist hm).1
  have h2 := hM.way_pos hm
  have h3 : (0 : ℝ) < (1 - 1 / 2 ^ 53) ^ 2 * (1 - 1 / 2 ^ 52) := by norm_num
  have : (0 : ℝ) < (G.dist n m : ℝ) := lt_of_lt_of_le (mul_pos h2 h3) h1
  exact_mod_cast this

theorem Machine.dist_le (hM : Machine G nbr) (n : Fin N) (m : Fin N) (hm : m ∈ nbr n) :
    G.dist n m ≤ 2 ^ 100 := by
  have h1 := (hM.dist hm).2
  have h2 : way G n m ≤ 2 ^ 99 := by
    refine Real.sqrt_le_iff.2 ⟨by positivity, ?_⟩
    have := (hM.way2_bounds hm).2
    have h : way2 G n m ≤ (2 ^ 99) ^ 2 := this.trans (by norm_num)
    exact_mod_cast h
  have h3 : (1 + 1 / 2 ^ 53 : ℝ) ^ 2 * (1 + 1 / 2 ^ 52) ≤ 2 := by norm_num
  have h4 : way G n m * ((1 + 1 / 2 ^ 53) ^ 2 * (1 + 1 / 2 ^ 52)) ≤ 2 ^ 99 * 2 :=
    mul_le_mul h2 h3 (by positivity) (by positivity)
  have : (G.dist n m : ℝ) ≤ 2 ^ 100 := by
    refine (h1.trans h4).trans ?_
    norm_num
  exact_mod_cast this

/-- In `float64` no fall is lost. -/
theorem Machine.sound (hM : Machine G nbr) {dem : Fin N → Option ℚ} (hgr : ∀ n a, dem n = some a → Grain a) :
    Dirs.Sound G dem nbr := sound64 hM.rnd hM.dist_pos hM.dist_le hgr

/-! ### C116 -/

variable {dem : Fin N → Option ℚ}

/-- a computed slope, downhill -/
theorem Machine.slope (hM : Machine G nbr) {n m : Fin N} (hm : m ∈ nbr n) {a b : ℚ} (ha : a ∈ Double)
    (hb : b ∈ Double) (ga : Grain a) (gb : Grain b) (hlt : b < a) :
    Within 2 (-G.rnd (G.rnd (b - a) / G.dist n m)) ((a - b) / G.dist n m) := by
  have hd := hM.dist_pos n m hm
  rw [hM.rnd]
  have e := add_err (p := 53) (by norm_num) rnd64_nearest hb (neg_mem ha)
  rw [← sub_eq_add_neg] at e
  have w1 : Within 1 (-rnd64 (b - a)) (a - b) := by
    refine within_of_err (by linarith) ?_
    rw [← abs_neg (a - b), neg_sub, ← abs_neg]
    refine le_trans (le_of_eq ?_) e
    congr 1; ring
  have w2 : Within 1 (-rnd64 (b - a) / G.dist n m) ((a - b) / G.dist n m) := by
    constructor
    · rw [div_mul_eq_mul_div]; exact div_le_div_of_nonneg_right w1.1 hd.le
    · rw [div_mul_eq_mul_div]; exact div_le_div_of_nonneg_right w1.2 hd.le
  have h1 : (2 : ℚ) ^ (-900 : ℤ) ≤ a - b := by
    obtain ⟨k, rfl⟩ := ga
    obtain ⟨l, rfl⟩ := gb
    have h0 := zpow_pos' (-900)
    have hkl : (l : ℚ) < k := lt_of_mul_lt_mul_right hlt h0.le
    have hkl' : (l : ℚ) + 1 ≤ k := by exact_mod_cast hkl
    nlinarith
  have h2 : (2 : ℚ) ^ (-900 : ℤ) ≤ -rnd64 (b - a) := by
    have := rnd64_nearest.le_of_le (neg_mem (pow_mem (e := -900) (by norm_num) (by norm_num)))
      (x := b - a) (by linarith)
    linarith
  have h3 : (2 : ℚ) ^ (-1022 : ℤ) ≤ |rnd64 (b - a) / G.dist n m| := by
    rw [abs_div, abs_of_pos hd, le_div_iff₀ hd, abs_of_nonpos (by linarith [zpow_pos' (-900)])]
    refine le_trans ?_ h2
    have e : (2 : ℚ) ^ (-900 : ℤ) = 2 ^ (-1000 : ℤ) * 2 ^ 100 := by
      rw [← zpow_natCast, ← zpow_add₀ (by norm_num)]; rfl
    rw [e]
    exact mul_le_mul (zpow_le_zpow_right₀ (by norm_num) (by norm_num)) (hM.dist_le n m hm) hd.le
      (zpow_pos' _).le
  refine Within.trans (k := 1) (l := 1) (within_of_err ?_ ?_) w2
  · exact div_nonneg (by linarith [zpow_pos' (-900)]) hd.le
  · have := rel_err (p := 53) (by norm_num) rnd64_nearest h3
    rw [← abs_neg (-rnd64 (b - a) / G.dist n m), ← neg_div, neg_neg, ← abs_neg]
    refine le_trans (le_of_eq ?_) this
    congr 1; ring

/-- **C116** (as C22).  In `float64` the receiver of a cell that has a lower neighbour lies in the direction of
the steepest descent, up to a factor of `1 - 2^-49`: the fall from `n` to its receiver over the real distance
of the cell centres is at least that fraction of the fall over the distance for any lower neighbour. -/
theorem C116_steepest (hM : Machine G nbr) {fuel : ℕ} {big thr : ℚ} {terminals : List ℤ} {out : Fin N → ℤ}
    (hdem : ∀ n a, dem n = some a → a ∈ Double ∧ Grain a) (hr : Dirs.InRange N terminals)
    (h : Dirs.flowDirections fuel G dem big (Dirs.table nbr) thr terminals = .ok out) {n m : Fin N}
    (hm : out n = ((m : ℕ) : ℤ)) (hne : m ≠ n) {l : Fin N} (hl : l ∈ nbr n) {a c : ℚ}
    (ha : dem n = some a) (hc : dem l = some c) (hlt : c < a) :
    ∃ b, dem m = some b ∧ b < a ∧
      (1 - 1 / 2 ^ 49) * ((a - c : ℚ) / way G n l) ≤ (a - b : ℚ) / way G n m := by
  have hs := hM.sound (dem := dem) fun n a h => (hdem n a h).2
  have hst := Dirs.C22_steepest hr h hm hne
  obtain ⟨a', b, ha', hb, hba⟩ := Dirs.steepest_lower hs ⟨l, hl, a, c, ha, hc, hlt⟩ hst
  rw [ha] at ha'
  cases ha'
  refine ⟨b, hb, hba, ?_⟩
  obtain ⟨hmn, s, ⟨a', b', ha', hb', rfl⟩, hle⟩ := hst
  rw [ha] at ha'; cases ha'
  rw [hb] at hb'; cases hb'
  have key := hle l hl _ ⟨a, c, ha, hc, rfl⟩
  rw [hs.rise_of_lt hlt, hs.rise_of_lt hba] at key
  obtain ⟨da, ga⟩ := hdem n a ha
  obtain ⟨db, gb⟩ := hdem m b hb
  obtain ⟨dc, gc⟩ := hdem l c hc
  have w1 := (hM.slope hmn da db ga gb hba).2
  have w2 := (hM.slope hl da dc ga gc hlt).1
  have k1 : (a - c) / G.dist n l * (1 - 1 / 2 ^ 53) ^ 2 ≤ (a - b) / G.dist n m * (1 + 1 / 2 ^ 53) ^ 2 := by
    linarith
  have k1' : ((a - c : ℚ) : ℝ) / G.dist n l * (1 - 1 / 2 ^ 53) ^ 2 ≤
      ((a - b : ℚ) : ℝ) / G.dist n m * (1 + 1 / 2 ^ 53) ^ 2 := by
    have c := (Rat.cast_le (K := ℝ)).2 k1
    push_cast at c ⊢
    exact c
  have d1 := (hM.dist hmn).1
  have d2 := (hM.dist hl).2
  have p1 := hM.way_pos hmn
  have p2 := hM.way_pos hl
  have q1 : (0 : ℝ) < G.dist n m := by exact_mod_cast hM.dist_pos n m hmn
  have q2 : (0 : ℝ) < G.dist n l := by exact_mod_cast hM.dist_pos n l hl
  have f1 : (0 : ℝ) < ((a - b : ℚ) : ℝ) := by exact_mod_cast sub_pos.2 hba
  have f2 : (0 : ℝ) < ((a - c : ℚ) : ℝ) := by exact_mod_cast sub_pos.2 hlt
  generalize ((a - b : ℚ) : ℝ) = F at *
  generalize ((a - c : ℚ) : ℝ) = F' at *
  generalize (G.dist n m : ℝ) = D at *
  generalize (G.dist n l : ℝ) = D' at *
  generalize way G n m = W at *
  generalize way G n l = W' at *
  clear w1 w2 k1 key hle hs hM hdem h hr
  -- upper bound for the first, lower bound for the second
  have u1 : F / D ≤ F / W / ((1 - 1 / 2 ^ 53) ^ 2 * (1 - 1 / 2 ^ 52)) := by
    rw [div_div]
    exact div_le_div_of_nonneg_left f1.le (mul_pos p1 (by norm_num)) d1
  have u2 : F' / W' / ((1 + 1 / 2 ^ 53) ^ 2 * (1 + 1 / 2 ^ 52)) ≤ F' / D' := by
    rw [div_div]
    exact div_le_div_of_nonneg_left f2.le q2 d2
  have s1 : 0 < F / W := div_pos f1 p1
  have s2 : 0 < F' / W' := div_pos f2 p2
  generalize F / W = s at *
  generalize F' / W' = s' at *
  have v1 : s' / ((1 + 1 / 2 ^ 53) ^ 2 * (1 + 1 / 2 ^ 52)) * (1 - 1 / 2 ^ 53) ^ 2 ≤
      s / ((1 - 1 / 2 ^ 53) ^ 2 * (1 - 1 / 2 ^ 52)) * (1 + 1 / 2 ^ 53) ^ 2 :=
    (mul_le_mul_of_nonneg_right u2 (by norm_num)).trans (k1'.trans (mul_le_mul_of_nonneg_right u1 (by norm_num)))
  rw [div_mul_eq_mul_div, div_mul_eq_mul_div, div_le_div_iff₀ (by norm_num) (by norm_num)] at v1
  norm_num at v1 ⊢
  linarith

end Dany.Float
