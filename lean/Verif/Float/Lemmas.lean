import Verif.Float.Model

/-!
# Spacing of floating-point numbers, and what adding eps does
-/

namespace Dany.Float

theorem Fmt.nearest (d : Fmt) : Nearest (Format d.p d.emin) (rnd d.p d.emin) := rnd_nearest d.pos d.emin

theorem store_val (d : Fmt) (x : ℚ) : (d.store x).val = rnd d.p d.emin x := rfl

theorem store_exact (d : Fmt) (x : d.Num) : d.store x.val = x :=
  Subtype.ext (d.nearest.exact x.2)

/-- the integer multiples of `2^k` up to `2^(k+p)` are numbers of the format -/
theorem mul_mem {p : ℕ} (hp : 1 ≤ p) {emin k m : ℤ} (hk : emin - (p - 1) ≤ k) (hm : |m| ≤ 2 ^ p) :
    (m : ℚ) * 2 ^ k ∈ Format p emin := by
  rcases eq_or_lt_of_le hm with h | h
  · have h2 : ∃ s : ℤ, |s| = 1 ∧ m = s * 2 ^ p := by
      rcases abs_eq (by positivity : (0 : ℤ) ≤ 2 ^ p) |>.1 h with h | h
      · exact ⟨1, by simp, by rw [h]; ring⟩
      · exact ⟨-1, by simp, by rw [h]; ring⟩
    obtain ⟨s, hs, rfl⟩ := h2
    refine ⟨s * 2 ^ (p - 1), k + 1, ?_, by omega, ?_⟩
    · rw [abs_mul, hs, one_mul, abs_of_nonneg (by positivity)]
      exact pow_lt_pow_right₀ (by norm_num) (by omega)
    · rw [zpow_add₀ (by norm_num), zpow_one]
      push_cast
      have : (2 : ℚ) ^ p = 2 ^ (p - 1) * 2 := by rw [← pow_succ]; congr 1; omega
      rw [this]; ring
  · exact ⟨m, k, h, hk, rfl⟩

/-- Below `2^L` there is always a larger number of the format at distance at most `2^(L-p)`. -/
theorem exists_next {p : ℕ} (hp : 1 ≤ p) {emin L : ℤ} (hL : emin + 1 ≤ L) {x : ℚ} (h1 : -2 ^ L ≤ x)
    (h2 : x < 2 ^ L) : ∃ y ∈ Format p emin, x < y ∧ y ≤ x + 2 ^ (L - p) := by
  set u : ℚ := 2 ^ (L - p) with hu
  have hu0 : 0 < u := zpow_pos' _
  have hLu : (2 : ℚ) ^ L = 2 ^ p * u := by
    rw [hu, ← zpow_natCast, ← zpow_add₀ (by norm_num)]; congr 1; omega
  have hfl := Int.floor_le (x / u)
  have hfl' := Int.lt_floor_add_one (x / u)
  have e : x = x / u * u := by field_simp
  have b1 : -(2 : ℚ) ^ p ≤ x / u := by rw [le_div_iff₀ hu0, neg_mul, ← hLu]; exact h1
  have b2 : x / u < 2 ^ p := by rw [div_lt_iff₀ hu0, ← hLu]; exact h2
  refine ⟨((⌊x / u⌋ + 1 : ℤ) : ℚ) * 2 ^ (L - p), mul_mem hp (by omega) ?_, ?_, ?_⟩
  · have c1 : -(2 : ℤ) ^ p ≤ ⌊x / u⌋ := by rw [Int.le_floor]; push_cast; exact b1
    have c2 : ⌊x / u⌋ < 2 ^ p := by rw [Int.floor_lt]; push_cast; exact b2
    rw [abs_le]; constructor <;> omega
  · rw [← hu]; push_cast
    calc x = x / u * u := e
      _ < _ := by apply mul_lt_mul_of_pos_right hfl' hu0
  · rw [← hu]; push_cast
    have := mul_le_mul_of_nonneg_right hfl hu0.le
    rw [← e] at this
    linarith

/-- From `2^L` on (and below `-2^L`) the numbers of the format are at least `2^(L-(p-1))` apart. -/
theorem gap {p : ℕ} {emin : ℤ} (L : ℤ) {x y : ℚ} (hx : x ∈ Format p emin)
    (hy : y ∈ Format p emin) (h : 2 ^ L ≤ x ∨ x < -2 ^ L) (hxy : x < y) : x + 2 ^ (L - (p - 1)) ≤ y := by
  have hL0 := zpow_pos' L
  set u : ℚ := 2 ^ (L - (p - 1)) with hu
  have hu0 : 0 < u := zpow_pos' _
  have key : ∀ a b : ℤ, (a : ℚ) * u < b * u → (a : ℚ) * u + u ≤ b * u := by
    intro a b hab
    have : (a : ℚ) < b := lt_of_mul_lt_mul_right hab hu0.le
    have : a + 1 ≤ b := by exact_mod_cast this
    have : (a : ℚ) + 1 ≤ b := by exact_mod_cast this
    have := mul_le_mul_of_nonneg_right this hu0.le
    linarith
  have hxa : 2 ^ L ≤ |x| := by
    rcases h with h | h
    · exact h.trans (le_abs_self _)
    · exact (by linarith [neg_le_abs x])
  obtain ⟨a, ha⟩ := mul_of_ge hx (.inl hxa)
  rw [← hu] at ha
  rcases h with h | h
  · obtain ⟨b, hb⟩ := mul_of_ge (L := L) hy (.inl ((h.trans hxy.le).trans (le_abs_self _)))
    rw [← hu] at hb
    rw [ha, hb] at hxy ⊢
    exact key a b hxy
  · rcases le_or_gt y (-2 ^ L) with hy2 | hy2
    · obtain ⟨b, hb⟩ := mul_of_ge (L := L) hy (.inl (by linarith [neg_le_abs y]))
      rw [← hu] at hb
      rw [ha, hb] at hxy ⊢
      exact key a b hxy
    · rcases Nat.eq_zero_or_pos p with hp | hp
      · exfalso
        obtain ⟨m, e, hm, _, hxe⟩ := hx
        rw [hp, pow_zero, Int.abs_lt_one_iff] at hm
        rw [hxe, hm] at h
        simp only [Int.cast_zero, zero_mul] at h
        linarith
      · have hb : -(2 : ℚ) ^ L = ((-(2 ^ (p - 1)) : ℤ) : ℚ) * u := by
          rw [hu]; push_cast
          rw [neg_mul, ← zpow_natCast, ← zpow_add₀ (by norm_num)]
          congr 2; omega
        rw [ha] at h
        rw [hb] at h
        have := key _ _ h
        rw [← hb] at this
        rw [ha]
        linarith

/-! ### the sum -/

theorem double_sub {d : Fmt} (hp : d.p ≤ 53) (he : -1022 ≤ d.emin - (d.p - 1) + 52) {x : ℚ}
    (hx : x ∈ Format d.p d.emin) : x ∈ Format double.p double.emin := by
  obtain ⟨m, e, h1, h2, rfl⟩ := hx
  refine ⟨m, e, lt_of_lt_of_le h1 (pow_le_pow_right₀ (by norm_num) hp), ?_, rfl⟩
  show (-1022 : ℤ) - ((53 : ℕ) - 1) ≤ e
  push_cast; omega

/-- `float32` and `float64` -/
inductive Fmt.Std : Fmt → Prop
  | f32 : Std single
  | f64 : Std double

theorem Fmt.Std.sub {d : Fmt} (h : d.Std) {x : ℚ} (hx : x ∈ Format d.p d.emin) :
    x ∈ Format double.p double.emin := by
  cases h with
  | f32 => exact double_sub (by decide) (by decide) hx
  | f64 => exact hx

theorem store_nonneg (d : Fmt) {x : ℚ} (h : 0 ≤ x) : 0 ≤ (d.store x).val :=
  d.nearest.ge_of_ge (zero_mem _ _) h

/-- The sum is not less than the elevation … -/
theorem le_sum {d : Fmt} (hd : d.Std) (pr : Promo) {eps : double.Num} (h0 : 0 ≤ eps.val) (x : d.Num) :
    x.val ≤ sum d pr eps x := by
  cases pr with
  | weak => have := store_nonneg d h0; simp only [sum]; linarith
  | legacy => exact double.nearest.le_add (hd.sub x.2) h0

theorem sum_mono (d : Fmt) (pr : Promo) (eps : double.Num) : Monotone (sum d pr eps) := by
  intro x y h
  have h' : x.val ≤ y.val := h
  cases pr with
  | weak => simp only [sum]; linarith
  | legacy => exact double.nearest.mono (by linarith)

theorem raise_infl {d : Fmt} (hd : d.Std) (pr : Promo) {eps : double.Num} (h0 : 0 ≤ eps.val) (x : d.Num) :
    x ≤ raise d pr eps x :=
  d.nearest.ge_of_ge x.2 (le_sum hd pr h0 x)

theorem raise_mono (d : Fmt) (pr : Promo) (eps : double.Num) : Monotone (raise d pr eps) :=
  fun _ _ h => d.nearest.mono (sum_mono d pr eps h)

/-- Whether the stored sum is larger depends on the next larger number of the format. -/
theorem raise_lt {d : Fmt} {pr : Promo} {eps : double.Num} {x : d.Num} {y : ℚ}
    (hy : y ∈ Format d.p d.emin) (h1 : x.val < y) (h2 : y - x.val < 2 * (sum d pr eps x - x.val)) :
    x < raise d pr eps x := by
  have := d.nearest.lt_add (e := sum d pr eps x - x.val) x.2 hy h1 (by linarith)
  rw [add_sub_cancel] at this
  exact this

theorem raise_absorb {d : Fmt} (hd : d.Std) {pr : Promo} {eps : double.Num} (h0 : 0 ≤ eps.val) {x : d.Num}
    (h : ∀ y ∈ Format d.p d.emin, x.val < y → 2 * (sum d pr eps x - x.val) < y - x.val) :
    raise d pr eps x = x := by
  have := d.nearest.absorb (e := sum d pr eps x - x.val) x.2 (by linarith [le_sum hd pr h0 x])
    (fun y hy hxy => by linarith [h y hy hxy])
  rw [add_sub_cancel] at this
  exact Subtype.ext this

/-- What is added is at most twice what should be added, each time something is rounded. -/
theorem raise_le {d : Fmt} (hd : d.Std) (pr : Promo) {eps : double.Num} (h0 : 0 ≤ eps.val) (x : d.Num) :
    (raise d pr eps x).val ≤ x.val + 4 * eps.val := by
  have h1 : sum d pr eps x ≤ x.val + 2 * eps.val := by
    cases pr with
    | weak =>
      have := d.nearest.best eps.val 0 (zero_mem _ _)
      rw [zero_sub, abs_neg, abs_of_nonneg h0] at this
      simp only [sum, store_val]
      linarith [(abs_le.1 this).2]
    | legacy =>
      have := double.nearest.best (x.val + eps.val) x.val (hd.sub x.2)
      rw [show x.val - (x.val + eps.val) = -eps.val by ring, abs_neg, abs_of_nonneg h0] at this
      simp only [sum, store_val]
      linarith [(abs_le.1 this).2]
  have h2 := d.nearest.best (sum d pr eps x) x.val x.2
  have h3 := le_sum hd pr h0 x
  rw [abs_sub_comm x.val, abs_of_nonneg (sub_nonneg.2 h3)] at h2
  have h4 := (abs_le.1 h2).2
  show rnd d.p d.emin (sum d pr eps x) ≤ _
  linarith

/-- For `float64` the two ways of adding agree. -/
theorem sum_double (pr : Promo) (eps x : double.Num) :
    raise double pr eps x = double.store (x.val + eps.val) := by
  cases pr with
  | weak => simp only [raise, sum, store_exact]
  | legacy => simp only [raise, sum, store_exact]

/-! ### the default eps -/

theorem eps6_bounds : (1 : ℚ) / 2 ^ 19 + 1 / 2 ^ 30 < eps6.val ∧ eps6.val < 1 / 2 ^ 18 - 1 / 2 ^ 20 := by
  decide +kernel

theorem eps6_single : (1 : ℚ) / 2 ^ 19 < (single.store eps6.val).val ∧
    (single.store eps6.val).val < 1 / 2 ^ 18 := by decide +kernel

theorem eps6_nonneg : 0 ≤ eps6.val := by decide +kernel

/-- `float64`: the default eps raises every elevation from `-2^35` up to `2^35` … -/
theorem double_strict (pr : Promo) {x : double.Num} (h1 : -2 ^ 35 ≤ x.val) (h2 : x.val < 2 ^ 35) :
    x < raise double pr eps6 x := by
  obtain ⟨y, hy, hlt, hle⟩ := exists_next (p := 53) (emin := -1022) (L := 35) (by norm_num) (by norm_num)
    (x := x.val) (by exact_mod_cast h1) (by exact_mod_cast h2)
  have e : ((2 : ℚ) ^ ((35 : ℤ) - ((53 : ℕ) : ℤ))) = 1 / 2 ^ 18 := by norm_num
  rw [e] at hle
  have hb := eps6_bounds.1
  rw [sum_double]
  exact double.nearest.lt_add x.2 hy hlt (by norm_num at hb ⊢; linarith)

/-- … and no other. -/
theorem double_absorb (pr : Promo) {x : double.Num} (h : 2 ^ 35 ≤ x.val ∨ x.val < -2 ^ 35) :
    raise double pr eps6 x = x := by
  rw [sum_double]
  refine Subtype.ext (double.nearest.absorb x.2 eps6_nonneg fun y hy hlt => ?_)
  have := gap (p := 53) (emin := -1022) 35 x.2 hy (by exact_mod_cast h) hlt
  have e : ((2 : ℚ) ^ ((35 : ℤ) - (((53 : ℕ) : ℤ) - 1))) = 1 / 2 ^ 17 := by norm_num
  rw [e] at this
  have hb := eps6_bounds.2
  norm_num at hb this ⊢
  linarith

/-- `float32`: the default eps raises every elevation from -64 up to 64 … -/
theorem single_strict (pr : Promo) {x : single.Num} (h1 : -64 ≤ x.val) (h2 : x.val < 64) :
    x < raise single pr eps6 x := by
  obtain ⟨y, hy, hlt, hle⟩ := exists_next (p := 24) (emin := -126) (L := 6) (by norm_num) (by norm_num)
    (x := x.val) (by norm_num; exact h1) (by norm_num; exact h2)
  have e : ((2 : ℚ) ^ ((6 : ℤ) - ((24 : ℕ) : ℤ))) = 1 / 2 ^ 18 := by norm_num
  rw [e] at hle
  refine raise_lt hy hlt ?_
  cases pr with
  | weak =>
    have := eps6_single.1
    simp only [sum]
    norm_num at this ⊢; linarith
  | legacy =>
    -- a multiple of 2^-40 a little below the exact sum
    set t : ℚ := (x.val + eps6.val) * 2 ^ 40 with ht
    have hb := eps6_bounds
    have hf1 := Int.floor_le t
    have hf2 := Int.lt_floor_add_one t
    have hmem : (⌊t⌋ : ℚ) * 2 ^ (-40 : ℤ) ∈ Format double.p double.emin := by
      refine mul_mem (p := 53) (by norm_num) (by norm_num [double]) ?_
      have : (2 : ℚ) ^ 40 * 65 ≤ 2 ^ 53 := by norm_num
      have b1 : -(2 ^ 53 : ℤ) ≤ ⌊t⌋ := by
        rw [Int.le_floor]; push_cast
        norm_num at hb ⊢; linarith
      have b2 : ⌊t⌋ ≤ (2 ^ 53 : ℤ) := by
        have : (⌊t⌋ : ℚ) ≤ 2 ^ 53 := by norm_num at hb ⊢; linarith
        exact_mod_cast this
      exact abs_le.2 ⟨b1, b2⟩
    have e40 : (⌊t⌋ : ℚ) * 2 ^ (-40 : ℤ) = ⌊t⌋ / 2 ^ 40 := by rw [zpow_neg]; rfl
    have hle' : (⌊t⌋ : ℚ) / 2 ^ 40 ≤ x.val + eps6.val := by
      rw [div_le_iff₀ (by positivity)]; exact hf1
    have hgt : x.val + eps6.val - 1 / 2 ^ 40 < (⌊t⌋ : ℚ) / 2 ^ 40 := by
      rw [lt_div_iff₀ (by positivity), sub_mul, ← ht]; norm_num
    rw [e40] at hmem
    have := double.nearest.ge_of_ge hmem hle'
    simp only [sum, store_val]
    norm_num at hb hgt ⊢
    norm_num at this
    linarith

/-- … and no other: from 64 m on it is lost. -/
theorem single_absorb (pr : Promo) {x : single.Num} (h : 64 ≤ x.val ∨ x.val < -64) :
    raise single pr eps6 x = x := by
  refine raise_absorb .f32 eps6_nonneg fun y hy hlt => ?_
  have hg := gap (p := 24) (emin := -126) 6 x.2 hy (by norm_num; exact h) hlt
  have e : ((2 : ℚ) ^ ((6 : ℤ) - (((24 : ℕ) : ℤ) - 1))) = 1 / 2 ^ 17 := by norm_num
  rw [e] at hg
  have hb := eps6_bounds
  cases pr with
  | weak =>
    have := eps6_single.2
    simp only [sum]
    norm_num at this hg ⊢; linarith
  | legacy =>
    by_cases hbig : 2 ^ 7 ≤ x.val ∨ x.val < -2 ^ 7
    · have hg := gap (p := 24) (emin := -126) 7 x.2 hy (by exact_mod_cast hbig) hlt
      have e : ((2 : ℚ) ^ ((7 : ℤ) - (((24 : ℕ) : ℤ) - 1))) = 1 / 2 ^ 16 := by norm_num
      rw [e] at hg
      have := double.nearest.best (x.val + eps6.val) x.val (Fmt.Std.f32.sub x.2)
      rw [show x.val - (x.val + eps6.val) = -eps6.val by ring, abs_neg, abs_of_nonneg eps6_nonneg] at this
      have := (abs_le.1 this).2
      simp only [sum, store_val]
      norm_num at hb hg ⊢
      linarith
    · push Not at hbig
      -- x is a multiple of 2^-17, so that x + 3/2^20 is a double
      have hx64 : (2 : ℚ) ^ (6 : ℤ) ≤ |x.val| := by
        rcases h with h | h
        · norm_num; exact h.trans (le_abs_self _)
        · norm_num; linarith [neg_le_abs x.val]
      obtain ⟨k, hk⟩ := mul_of_ge x.2 (.inl hx64)
      have e17 : ((2 : ℚ) ^ ((6 : ℤ) - (((single.p : ℕ) : ℤ) - 1))) = 1 / 2 ^ 17 := by norm_num [single]
      rw [e17] at hk
      have hmem : (((8 * k + 3 : ℤ)) : ℚ) * 2 ^ (-20 : ℤ) ∈ Format double.p double.emin := by
        refine mul_mem (p := 53) (by norm_num) (by norm_num [double]) ?_
        have b1 : (k : ℚ) < 2 ^ 24 := by rw [hk] at hbig; norm_num at hbig ⊢; linarith
        have b2 : -2 ^ 24 ≤ (k : ℚ) := by rw [hk] at hbig; norm_num at hbig ⊢; linarith
        have b1' : k < 2 ^ 24 := by exact_mod_cast b1
        have b2' : -2 ^ 24 ≤ k := by exact_mod_cast b2
        rw [abs_le]; constructor <;> norm_num at b1' b2' ⊢ <;> omega
      have e20 : (((8 * k + 3 : ℤ)) : ℚ) * 2 ^ (-20 : ℤ) = x.val + 3 / 2 ^ 20 := by
        rw [hk]; push_cast; norm_num; ring
      rw [e20] at hmem
      have := double.nearest.le_of_le hmem (x := x.val + eps6.val) (by norm_num at hb ⊢; linarith)
      simp only [sum, store_val]
      norm_num at hg this ⊢
      linarith

end Dany.Float
