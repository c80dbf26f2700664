import Mathlib.Analysis.Real.Pi.Bounds
import Verif.Geom.Props
import Verif.Dirs.Props
import Verif.Float.Steep

/-!
# `slope` and `aspect` with rounding: C146, C147
-/

namespace Dany.Float

open Dirs (Geo Slope Steepest Sound HasLower InRange table flowDirections flatten rise)
open Geom (targets)
open Flow (Resolves)

variable {N : ℕ}

section Slope

variable {K : Type*} [Field K] [LinearOrder K]

/-- `slope` (flow_directions.py:689-712) with the rounding and the square root of `G`; `c` is the constant 1e-06.  `none` is
an infinite slope (division by zero), NaN is replaced by 0. -/
def slopeG (G : Geo N K) (dem : Fin N → Option K) (c : K) (fdir : Fin N → ℤ) : Res (Fin N → Option K) :=
  (targets fdir).map fun d n => match dem n, dem (d n) with
    | some a, some b =>
      if G.dist (d n) n = 0 then (if flatten c (G.rnd (a - b)) = 0 then some 0 else none)
      else some (G.rnd (flatten c (G.rnd (a - b)) / G.dist (d n) n))
    | _, _ => some 0

/-- For real numbers without rounding this is the model of C42. -/
theorem slopeG_exact (xc yc : Fin N → ℝ) (dem : Fin N → Option ℝ) (fdir : Fin N → ℤ) :
    slopeG ⟨xc, yc, Real.sqrt, id⟩ dem (1 / 1000000) fdir = Geom.slope fdir xc yc dem := by
  unfold slopeG Geom.slope
  congr 1
  funext d n
  have hd : Geo.dist (K := ℝ) ⟨xc, yc, Real.sqrt, id⟩ (d n) n = Geom.dist xc yc n (d n) := rfl
  unfold Geom.slopeAt
  cases dem n <;> cases dem (d n) <;> first | rfl | skip

theorem dist_comm {G : Geo N K} (hodd : ∀ x, G.rnd (-x) = -G.rnd x) (a b : Fin N) : G.dist a b = G.dist b a := by
  unfold Geo.dist
  rw [← neg_sub (G.xc a) (G.xc b), ← neg_sub (G.yc a) (G.yc b), hodd, hodd, neg_sq, neg_sq]

/-- **C146.**  `slope` and `flow_directions` agree.  Let `flow_directions` send cell `n` to another cell `m`.
If `m` lies lower by 1e-6 or more, `slope` at `n` is the steepest descent from `n` to any neighbour.
If `m` lies lower by less, it is 0.
If `m` does not lie lower, it is not positive and no neighbour of `n` lies lower. -/
theorem C146_slope [IsStrictOrderedRing K] {G : Geo N K} {dem : Fin N → Option K} {nbr : Fin N → List (Fin N)} {c thr big : K} {fuel : ℕ}
    {terminals : List ℤ} {out : Fin N → ℤ} {s : Fin N → Option K} (hodd : ∀ x, G.rnd (-x) = -G.rnd x) (hc : 0 < c)
    (hs : Sound G dem nbr) (hr : InRange N terminals)
    (h : flowDirections fuel G dem big (table nbr) thr terminals = .ok out) (hsl : slopeG G dem c out = .ok s)
    {n m : Fin N} (hm : out n = ((m : ℕ) : ℤ)) (hne : m ≠ n) :
    ∃ a b v, dem n = some a ∧ dem m = some b ∧ s n = some v ∧
      (c ≤ G.rnd (a - b) → 0 ≤ v ∧ v = G.rnd (G.rnd (a - b) / G.dist n m) ∧
        ∀ k ∈ nbr n, ∀ b', dem k = some b' → G.rnd (G.rnd (a - b') / G.dist n k) ≤ v) ∧
      (b < a → G.rnd (a - b) < c → v = 0) ∧
      (a ≤ b → v ≤ 0 ∧ ∀ k ∈ nbr n, ∀ b', dem k = some b' → a ≤ b') := by
  have hst := Dirs.C22_steepest hr h hm hne
  obtain ⟨hmn, r, ⟨a, b, ha, hb, hrr⟩, hmin⟩ := id hst
  have hd : 0 < G.dist n m := hs.dist n m hmn
  obtain ⟨d, hd', hs'⟩ := Res.map_eq_ok.1 hsl
  have hdn : d n = m := by
    unfold targets at hd'
    split at hd'
    · cases hd'
      dsimp only
      rw [dif_pos (by omega)]
      exact Fin.ext (by simp [hm])
    · cases hd'
  have hodd' : ∀ x y, G.rnd (x - y) = -G.rnd (y - x) := by intro x y; rw [← neg_sub, hodd]
  have hsn : s n = some (G.rnd (flatten c (G.rnd (a - b)) / G.dist n m)) := by
    rw [← hs']
    dsimp only
    rw [hdn, ha, hb]
    dsimp only
    rw [dist_comm hodd m n, if_neg hd.ne']
  have hnn : ∀ x, 0 ≤ x → 0 ≤ G.rnd x := fun x hx => by rw [← hs.zero]; exact hs.mono hx
  have hnp : ∀ x, x ≤ 0 → G.rnd x ≤ 0 := fun x hx => by
    have := hs.mono hx; rwa [hs.zero] at this
  refine ⟨a, b, _, ha, hb, hsn, fun hcb => ?_, fun hlt hcb => ?_, fun hle => ?_⟩
  · have hfl : flatten c (G.rnd (a - b)) = G.rnd (a - b) := if_neg fun h => absurd h.1 (not_lt.2 hcb)
    rw [hfl]
    refine ⟨hnn _ (div_nonneg (hc.le.trans hcb) hd.le), rfl, fun k hk b' hb' => ?_⟩
    have h1 := hmin k hk _ ⟨a, b', ha, hb', rfl⟩
    have e1 : r = -G.rnd (G.rnd (a - b) / G.dist n m) := by
      have hri : rise G thr a b = -G.rnd (a - b) := by
        unfold rise
        rw [hodd' b a]
        exact if_neg fun h => absurd (hc.trans_le hcb) (not_lt.2 (neg_pos.1 h.1).le)
      rw [hrr, hri, neg_div, hodd]
    have hdk : 0 < G.dist n k := hs.dist n k hk
    have e2 : G.rnd (rise G thr a b' / G.dist n k) ≤ -G.rnd (G.rnd (a - b') / G.dist n k) := by
      rw [← hodd, ← neg_div]
      refine hs.mono (div_le_div_of_nonneg_right ?_ hdk.le)
      unfold rise
      rw [hodd' b' a]
      split
      · rename_i h; exact h.1.le
      · exact le_rfl
    rw [e1] at h1
    exact neg_le_neg_iff.1 (h1.trans e2)
  · have h0 : 0 ≤ G.rnd (a - b) := hnn _ (sub_nonneg.2 hlt.le)
    have hfl : flatten c (G.rnd (a - b)) = 0 := by
      unfold flatten
      split
      · rfl
      · rename_i h
        by_contra hx
        exact h ⟨hcb, lt_of_le_of_ne h0 (Ne.symm hx)⟩
    rw [hfl, zero_div, hs.zero]
  · have h0 : G.rnd (a - b) ≤ 0 := hnp _ (sub_nonpos.2 hle)
    have hfl : flatten c (G.rnd (a - b)) = G.rnd (a - b) := if_neg fun h => absurd h.2 (not_lt.2 h0)
    rw [hfl]
    refine ⟨hnp _ (div_nonpos_of_nonpos_of_nonneg h0 hd.le), fun k hk b' hb' => ?_⟩
    by_contra hlt
    obtain ⟨a', b'', ha', hb'', hlt'⟩ := Dirs.steepest_lower hs ⟨k, hk, a, b', ha, hb', not_le.1 hlt⟩ hst
    rw [ha] at ha'; rw [hb] at hb''
    cases ha'; cases hb''
    exact absurd hlt' (not_lt.2 hle)

end Slope

/-! ### aspect in double precision -/

/-- `np.pi`, the double closest to π -/
def pi64 : ℚ := 884279719003555 / 281474976710656

/-- `pi64` is a double, and π differs from it by less than half the distance 2^-51 of doubles between 2 and 4,
so that no double is closer. -/
theorem pi64_nearest : rnd64 pi64 = pi64 ∧ |(pi64 : ℝ) - Real.pi| < 1 / 2 ^ 52 := by
  refine ⟨by decide +kernel, ?_⟩
  have h1 := Real.pi_gt_d20
  have h2 := Real.pi_lt_d20
  have e : (pi64 : ℝ) = 884279719003555 / 281474976710656 := by norm_num [pi64]
  rw [e, abs_lt]
  constructor
  · have : (3.14159265358979323847 : ℝ) < 884279719003555 / 281474976710656 + 1 / 2 ^ 52 := by norm_num
    linarith
  · have : (884279719003555 / 281474976710656 : ℝ) - 1 / 2 ^ 52 < 3.14159265358979323846 := by norm_num
    linarith

/-- `180 / np.pi` -/
def perRad : ℚ := rnd64 (180 / pi64)

/-- `np.arctan2(yp, xp) * (180 / np.pi)` for one cell (flow_directions.py:727-729); `at2` is the machine's arctan2 -/
def degF (at2 : ℚ → ℚ → ℚ) (xc yc : Fin N → ℚ) (n m : Fin N) : ℚ :=
  rnd64 (at2 (rnd64 (yc m - yc n)) (rnd64 (xc m - xc n)) * perRad)

/-- `aspect` (flow_directions.py:714-731) in double precision -/
def aspectF (at2 : ℚ → ℚ → ℚ) (xc yc : Fin N → ℚ) (fdir : Fin N → ℤ) : Res (Fin N → ℚ) :=
  (targets fdir).map fun d n =>
    if degF at2 xc yc n (d n) < 0 then rnd64 (degF at2 xc yc n (d n) + 360) else degF at2 xc yc n (d n)

theorem rnd64_neg (x : ℚ) : rnd64 (-x) = -rnd64 x := by
  unfold rnd64 rnd
  rcases lt_trichotomy x 0 with h | h | h
  · rw [if_neg (by linarith), if_neg (by linarith), if_neg h.ne, if_pos h, neg_neg]
  · subst h; simp
  · rw [if_neg (by linarith), if_pos (by linarith), if_neg h.ne', if_neg (by linarith), neg_neg]

theorem turn : rnd64 (pi64 * perRad) = 180 := by decide +kernel
theorem perRad_pos : 0 < perRad := by decide +kernel
theorem near_east : rnd64 (-(1 / 2 ^ 45) + 360) = 360 := by decide +kernel

theorem east_iff {a : ℚ} (h0 : a < 0) : rnd64 (a + 360) = 360 ↔ -(1 / 2 ^ 45) ≤ a := by
  have hmem : (360 - 1 / 2 ^ 44 : ℚ) ∈ Double := ⟨360 * 2 ^ 44 - 1, -44, by norm_num, by norm_num, by norm_num⟩
  constructor
  · intro h
    have := rnd64_nearest.best (a + 360) _ hmem
    rw [h] at this
    by_contra hlt
    rw [not_le] at hlt
    rw [abs_of_pos (by linarith)] at this
    rcases le_total 0 (360 - 1 / 2 ^ 44 - (a + 360)) with h1 | h1
    · rw [abs_of_nonneg h1] at this; norm_num at this hlt; linarith
    · rw [abs_of_nonpos h1] at this; norm_num at this hlt; linarith
  · intro h
    refine le_antisymm ?_ ?_
    · exact rnd64_nearest.le_of_le (by exact ⟨360, 0, by norm_num, by norm_num, by norm_num⟩) (by linarith)
    · have := rnd64_nearest.mono (show -(1 / 2 ^ 45) + 360 ≤ a + 360 by linarith)
      rwa [near_east] at this

/-- **C147.**  In double precision `aspect` lies in [0, 360].  It is 360, not 0, exactly for the cells whose angle (in degrees,
as computed) is negative but not below -2^-45: water that flows east, or south of east by less than the rounding error of 360. -/
theorem C147_aspect {at2 : ℚ → ℚ → ℚ} {xc yc : Fin N → ℚ} {fdir : Fin N → ℤ} {d : Fin N → Fin N} (hat : ∀ y x, |at2 y x| ≤ pi64)
    (h : Resolves fdir d) : ∃ a, aspectF at2 xc yc fdir = .ok a ∧ ∀ n, 0 ≤ a n ∧ a n ≤ 360 ∧
      (a n = 360 ↔ -(1 / 2 ^ 45) ≤ degF at2 xc yc n (d n) ∧ degF at2 xc yc n (d n) < 0) := by
  unfold aspectF
  rw [Geom.targets_ok h]
  refine ⟨_, rfl, fun n => ?_⟩
  have hb : |degF at2 xc yc n (d n)| ≤ 180 := by
    have h1 := abs_le.1 (hat (rnd64 (yc (d n) - yc n)) (rnd64 (xc (d n) - xc n)))
    have hp := perRad_pos
    rw [abs_le, ← turn]
    unfold degF
    constructor
    · rw [← rnd64_neg]
      exact rnd64_nearest.mono (by nlinarith [h1.1])
    · exact rnd64_nearest.mono (by nlinarith [h1.2])
  obtain ⟨h1, h2⟩ := abs_le.1 hb
  dsimp only
  generalize degF at2 xc yc n (d n) = t at h1 h2 ⊢
  split
  · rename_i ht
    have m180 : (180 : ℚ) ∈ Double := ⟨180, 0, by norm_num, by norm_num, by norm_num⟩
    have m360 : (360 : ℚ) ∈ Double := ⟨360, 0, by norm_num, by norm_num, by norm_num⟩
    have k1 : (180 : ℚ) ≤ rnd64 (t + 360) := rnd64_nearest.ge_of_ge m180 (by linarith)
    have k2 : rnd64 (t + 360) ≤ 360 := rnd64_nearest.le_of_le m360 (by linarith)
    refine ⟨by linarith, k2, ?_⟩
    rw [east_iff ht, and_iff_left ht]
  · rename_i ht
    refine ⟨not_lt.1 ht, by linarith, ⟨fun h => absurd h (by intro h; linarith), fun h => absurd h.2 ht⟩⟩

end Dany.Float
