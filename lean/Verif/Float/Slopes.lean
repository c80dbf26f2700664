import Verif.Float.Props
import Verif.Pipe.Props

/-!
# Slopes in `float64`: lemmas for C113

`FlowDirections` computes in `float64`: the elevations are converted by
`np.array(list(dem.ravel()) + [1e+10])` (flow_directions.py:41), the cell centres likewise (`:49-50`).
-/

namespace Dany.Float

open Flood Function

variable {N : ℕ}

/-! ### accuracy of one rounding -/

/-- Rounding errs by at most half a unit in the last place, relative to a number in the normal range. -/
theorem rel_err {p : ℕ} (hp : 1 ≤ p) {emin : ℤ} {r : ℚ → ℚ} (h : Nearest (Format p emin) r) {x : ℚ}
    (hx : 2 ^ emin ≤ |x|) : |r x - x| ≤ |x| / 2 ^ p := by
  have hpos : 0 < |x| := lt_of_lt_of_le (zpow_pos' _) hx
  set e := Int.log 2 |x| with he
  have h1 : (2 : ℚ) ^ e ≤ |x| := by
    have := Int.zpow_log_le_self (b := 2) (by norm_num) hpos; exact_mod_cast this
  have h2 : |x| < (2 : ℚ) ^ (e + 1) := by
    have := Int.lt_zpow_succ_log_self (b := 2) (R := ℚ) (by norm_num) |x|; exact_mod_cast this
  have hee : emin ≤ e := by
    by_contra hc
    have : (2 : ℚ) ^ (e + 1) ≤ 2 ^ emin := zpow_le_zpow_right₀ (by norm_num) (by omega)
    linarith
  set u : ℚ := 2 ^ (e - (p - 1)) with hu
  have hu0 : 0 < u := zpow_pos' _
  have hup : (2 : ℚ) ^ p * u = 2 ^ (e + 1) := by
    rw [hu, ← zpow_natCast, ← zpow_add₀ (by norm_num)]; congr 1; omega
  have hmem : ((round (x / u) : ℤ) : ℚ) * u ∈ Format p emin := by
    refine mul_mem (k := e - (p - 1)) hp (by omega) ?_
    have hb : |x / u| ≤ 2 ^ p := by
      rw [abs_div, abs_of_pos hu0, div_le_iff₀ hu0, hup]; exact h2.le
    have hb' := abs_le.1 hb
    have r1 := abs_le.1 (abs_sub_round (x / u))
    rw [abs_le]
    constructor
    · have : (-(2 : ℚ) ^ p) < (round (x / u) : ℤ) + 1 := by linarith
      have : -(2 : ℤ) ^ p < round (x / u) + 1 := by exact_mod_cast this
      omega
    · have : ((round (x / u) : ℤ) : ℚ) < 2 ^ p + 1 := by linarith
      have : round (x / u) < (2 : ℤ) ^ p + 1 := by exact_mod_cast this
      omega
  refine (h.best x _ hmem).trans ?_
  have e1 : ((round (x / u) : ℤ) : ℚ) * u - x = -(x / u - round (x / u)) * u := by field_simp; ring
  rw [e1, abs_mul, abs_neg, abs_of_pos hu0]
  refine (mul_le_mul_of_nonneg_right (abs_sub_round (x / u)) hu0.le).trans ?_
  rw [le_div_iff₀ (by positivity)]
  have : (2 : ℚ) ^ (e + 1) = 2 ^ e * 2 := by rw [zpow_add₀ (by norm_num), zpow_one]
  nlinarith

/-- A number that is not below the least positive one loses less than half in rounding. -/
theorem half_le {p : ℕ} (hp : 1 ≤ p) {emin : ℤ} {r : ℚ → ℚ} (h : Nearest (Format p emin) r) {x : ℚ}
    (hx : 2 ^ (emin - (p - 1)) ≤ x) : x / 2 ≤ r x := by
  have hpos : 0 < x := lt_of_lt_of_le (zpow_pos' _) hx
  set e := Int.log 2 x with he
  have h1 : (2 : ℚ) ^ e ≤ x := by
    have := Int.zpow_log_le_self (b := 2) (by norm_num) hpos; exact_mod_cast this
  have h2 : x < (2 : ℚ) ^ (e + 1) := by
    have := Int.lt_zpow_succ_log_self (b := 2) (R := ℚ) (by norm_num) x; exact_mod_cast this
  have hee : emin - (p - 1) ≤ e := by
    by_contra hc
    have : (2 : ℚ) ^ (e + 1) ≤ 2 ^ (emin - (p - 1)) := zpow_le_zpow_right₀ (by norm_num) (by omega)
    linarith
  have hm : (2 : ℚ) ^ e ∈ Format p emin := by
    have := mul_mem (m := 1) hp hee (by rw [abs_one]; exact one_le_pow₀ (by norm_num))
    simpa using this
  have := h.ge_of_ge hm h1
  rw [zpow_add₀ (by norm_num), zpow_one] at h2
  linarith

theorem pow_mem {p : ℕ} (hp : 1 ≤ p) {emin e : ℤ} (he : emin - (p - 1) ≤ e) :
    (2 : ℚ) ^ e ∈ Format p emin := by
  have := mul_mem (m := 1) hp he (by rw [abs_one]; exact one_le_pow₀ (by norm_num))
  simpa using this

/-- Rounding a multiple of a power of two in the format gives a multiple of it. -/
theorem grain {p : ℕ} (hp : 1 ≤ p) {emin j : ℤ} {r : ℚ → ℚ} (h : Nearest (Format p emin) r)
    (hj : emin - (p - 1) ≤ j) (k : ℤ) : ∃ k' : ℤ, r (k * 2 ^ j) = k' * 2 ^ j := by
  by_cases hk : |k| ≤ 2 ^ p
  · exact ⟨k, h.exact (mul_mem hp hj hk)⟩
  · push Not at hk
    have hbig : (2 : ℚ) ^ (p + j) ≤ |r (k * 2 ^ j)| := by
      have hm : (2 : ℚ) ^ ((p : ℤ) + j) ∈ Format p emin := pow_mem hp (by omega)
      have e1 : (2 : ℚ) ^ ((p : ℤ) + j) = 2 ^ p * 2 ^ j := by rw [zpow_add₀ (by norm_num), zpow_natCast]
      have hj0 := zpow_pos' j
      rcases abs_cases k with ⟨h1, _⟩ | ⟨h1, _⟩
      · rw [h1] at hk
        have hk' : (2 : ℚ) ^ p ≤ k := by exact_mod_cast hk.le
        have := h.ge_of_ge hm (x := k * 2 ^ j) (by rw [e1]; exact mul_le_mul_of_nonneg_right hk' hj0.le)
        exact this.trans (le_abs_self _)
      · rw [h1] at hk
        have hk' : (2 : ℚ) ^ p ≤ -k := by exact_mod_cast hk.le
        have := h.le_of_le (neg_mem hm) (x := k * 2 ^ j) (by
          rw [e1]
          have := mul_le_mul_of_nonneg_right hk' hj0.le
          linarith)
        exact (le_neg.1 this).trans (neg_le_abs _)
    obtain ⟨k', hk'⟩ := mul_of_ge (h.mem _) (.inl hbig)
    refine ⟨k' * 2, ?_⟩
    rw [hk', show (p : ℤ) + j - (p - 1) = j + 1 by ring, zpow_add₀ (by norm_num), zpow_one]
    push_cast; ring

/-! ### multiples of `2^-900` -/

/-- `x` is a multiple of `2^-900`; every double that is zero or at least `2^-848` is. -/
def Grain (x : ℚ) : Prop := ∃ k : ℤ, x = k * 2 ^ (-900 : ℤ)

theorem Grain.add {x y : ℚ} (hx : Grain x) (hy : Grain y) : Grain (x + y) := by
  obtain ⟨k, rfl⟩ := hx
  obtain ⟨l, rfl⟩ := hy
  exact ⟨k + l, by push_cast; ring⟩

theorem Grain.store {x : ℚ} (hx : Grain x) : Grain (double.store x).val := by
  obtain ⟨k, rfl⟩ := hx
  exact grain double.pos double.nearest (by decide) k

theorem grain_eps6 : Grain eps6.val := by
  obtain ⟨k, hk⟩ := mul_of_ge (L := -19) eps6.2 (.inl (by
    have := eps6_bounds.1
    rw [abs_of_nonneg eps6_nonneg]
    norm_num at this ⊢; linarith))
  refine ⟨k * 2 ^ 829, ?_⟩
  rw [hk, show ((-19 : ℤ) - ((double.p : ℤ) - 1)) = (829 : ℕ) + (-900) by decide,
    zpow_add₀ (by norm_num), zpow_natCast]
  push_cast; ring

theorem grain_raise (pr : Promo) {x : double.Num} (hx : Grain x.val) : Grain (raise double pr eps6 x).val := by
  rw [sum_double]
  exact (hx.add grain_eps6).store

theorem fillSinks_mem {V : Type*} [LinearOrder V] {S : V → Prop} {fuel : ℕ} {raise : V → V} {flood : V}
    {g : Grid N} {dem out : Fin N → V} {mask : Option (Fin N → Bool)} {method : String}
    (hS : ∀ x, S x → S (raise x)) (heff : effective mask method ≠ .drain)
    (h : fillSinks fuel raise flood g dem mask method = .ok out) (hdem : ∀ n, S (dem n)) (n : Fin N) :
    S (out n) := by
  obtain ⟨seed, _, _, ⟨_, t, ht, rfl⟩ | ⟨hd, h⟩⟩ := fillSinks_cases h
  · have hS' : ∀ x, S x → S (effRaise raise mask method x) := by
      intro x hx; unfold effRaise; split
      · exact hx
      · exact hS x hx
    exact (pfLoop_inv (fun s => ∀ n, S (s.dem n)) (fun s c s' hs hp => by
      have hs' : ∀ k, S (s'.dem k) := by rw [Ints.popNext_dem hp]; exact hs
      have hb := (Ints.burn_congr (fun _ _ => rfl) hS' mask.isSome g.nbr seed c s'.dem hs').2
      exact (Ints.fold_congr (fun _ _ => rfl) hS' mask.isSome seed c (g.nbr c)
        { s' with dem := burn _ mask.isSome g.nbr seed c s'.dem, done := s'.done ++ [c] } hb).2)
      fuel _ t hdem ht).1 n
  · exact absurd hd heff

/-- The filled elevations are multiples of `2^-900` if the given ones are. -/
theorem grain_filled {fuel : ℕ} {pr : Promo} {g : Grid N} {dem : Fin N → double.Num}
    {mask : Option (Fin N → Bool)} {method : String} {out : Fin N → ℚ} (heff : effective mask method ≠ .drain)
    (h : fillSinksF fuel double pr eps6 g dem mask method = .ok out) (hdem : ∀ n, Grain (dem n).val)
    (n : Fin N) : Grain (out n) := by
  rw [fillSinksF_flood heff] at h
  obtain ⟨r, hr, rfl⟩ := Res.map_eq_ok.1 h
  exact fillSinks_mem (S := fun x : double.Num => Grain x.val) (fun _ => grain_raise pr) heff hr hdem n

/-! ### slopes -/

/-- In `float64` no fall is lost if elevations are multiples of `2^-900` and neighbours at most `2^100` apart. -/
theorem sound64 {G : Dirs.Geo N ℚ} {dem : Fin N → Option ℚ} {nbr : Fin N → List (Fin N)} (hG : G.rnd = rnd64)
    (hpos : ∀ n, ∀ m ∈ nbr n, 0 < G.dist n m) (hfar : ∀ n, ∀ m ∈ nbr n, G.dist n m ≤ 2 ^ 100)
    (hgr : ∀ n a, dem n = some a → Grain a) : Dirs.Sound G dem nbr := by
  have hz : rnd64 0 = 0 := rnd64_nearest.exact (zero_mem _ _)
  refine ⟨by rw [hG]; exact rnd64_nearest.mono, by rw [hG]; exact hz, hpos, fun n m hm a b ha hb hlt => ?_⟩
  rw [hG]
  have hd := hpos n m hm
  have h1 : b - a ≤ -(2 : ℚ) ^ (-900 : ℤ) := by
    obtain ⟨k, rfl⟩ := hgr n a ha
    obtain ⟨l, rfl⟩ := hgr m b hb
    have h0 := zpow_pos' (-900)
    have hkl : (l : ℚ) < k := lt_of_mul_lt_mul_right hlt h0.le
    have hkl' : (l : ℚ) + 1 ≤ k := by exact_mod_cast hkl
    nlinarith
  have h2 : rnd64 (b - a) ≤ -(2 : ℚ) ^ (-900 : ℤ) :=
    rnd64_nearest.le_of_le (neg_mem (pow_mem (by norm_num) (by norm_num))) h1
  have h3 : rnd64 (b - a) / G.dist n m ≤ -(2 : ℚ) ^ (-1000 : ℤ) := by
    rw [div_le_iff₀ hd]
    have e : (2 : ℚ) ^ (-900 : ℤ) = 2 ^ (-1000 : ℤ) * 2 ^ 100 := by
      rw [← zpow_natCast, ← zpow_add₀ (by norm_num)]; rfl
    have := mul_le_mul_of_nonneg_left (hfar n m hm) (zpow_pos' (-1000)).le
    rw [← e] at this
    linarith
  have h4 := rnd64_nearest.le_of_le (neg_mem (pow_mem (by norm_num) (by norm_num))) h3
  exact lt_of_le_of_lt h4 (neg_lt_zero.2 (zpow_pos' _))

end Dany.Float
