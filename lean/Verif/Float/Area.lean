import Verif.Float.Acc
import Verif.Geom.Area
import Verif.Delin.Props

/-!
# C213: cell areas in double precision

`FlowDirections._shoelace_area` (flow_directions.py:98-121) with every product, difference, sum and quotient rounded to the
nearest number of the format; `r` is the rounding.
-/

namespace Dany.Float

open Flow Geom

variable {N : ℕ} {r : ℚ → ℚ}

/-- `xverts[:, i - 1] * yverts[:, i] - yverts[:, i - 1] * xverts[:, i]` (flow_directions.py:118) -/
def crossF (r : ℚ → ℚ) (a b : ℚ × ℚ) : ℚ := r (r (a.1 * b.2) - r (a.2 * b.1))

/-- `area_x2 += ...` over the vertices that follow `prev` (flow_directions.py:116-118) -/
def sumF (r : ℚ → ℚ) : ℚ → ℚ × ℚ → List (ℚ × ℚ) → ℚ
  | s, _, [] => s
  | s, prev, v :: l => sumF r (r (s + crossF r prev v)) v l

/-- `area_x2` of one cell (flow_directions.py:115-118): it starts at 0, index −1 is the last vertex. -/
def twiceF (r : ℚ → ℚ) (p : List (ℚ × ℚ)) : ℚ :=
  match p.getLast? with
  | none => 0
  | some l => sumF r 0 l p

/-- `np.abs(area_x2 / 2.)` (flow_directions.py:120) -/
def areaR (r : ℚ → ℚ) (p : List (ℚ × ℚ)) : ℚ := |r (twiceF r p / 2)|

/-- `_shoelace_area` (flow_directions.py:98-121): all polygons are padded to the longest one. -/
def shoelaceF (r : ℚ → ℚ) (polys : Fin N → List (ℚ × ℚ)) (n : Fin N) : ℚ :=
  areaR r (patch ((List.finRange N).foldl (fun m k => max m (polys k).length) 0) (polys n))

/-! ### without rounding -/

theorem sumF_id (s : ℚ) (a : ℚ × ℚ) (l : List (ℚ × ℚ)) : sumF id s a l = s + sumFrom a l := by
  induction l generalizing s a with
  | nil => simp [sumF, sumFrom]
  | cons v l ih =>
    simp only [sumF, sumFrom, id]
    rw [ih]
    simp only [crossF, cross, id]
    ring

/-- without rounding this is the model of C40 -/
theorem C213_id (polys : Fin N → List (ℚ × ℚ)) (n : Fin N) : shoelaceF id polys n = shoelace polys n := by
  unfold shoelaceF shoelace areaR area twiceF twice
  congr 1
  cases (patch ((List.finRange N).foldl (fun m k => max m (polys k).length) 0) (polys n)).getLast? with
  | none => simp
  | some l => simp [sumF_id]

/-! ### padding -/

variable {F : Set ℚ}

theorem crossF_self (h : Nearest F r) (h0 : (0 : ℚ) ∈ F) (a : ℚ × ℚ) : crossF r a a = 0 := by
  unfold crossF
  rw [mul_comm a.2, sub_self, h.exact h0]

theorem sumF_mem (h : Nearest F r) {s : ℚ} (hs : s ∈ F) (a : ℚ × ℚ) (l : List (ℚ × ℚ)) : sumF r s a l ∈ F := by
  induction l generalizing s a with
  | nil => exact hs
  | cons v l ih => exact ih (h.mem _) v

theorem sumF_append (s : ℚ) (a : ℚ × ℚ) (l : List (ℚ × ℚ)) (b : ℚ × ℚ) (m : List (ℚ × ℚ)) :
    sumF r s a (l ++ b :: m) = sumF r (sumF r s a (l ++ [b])) b m := by
  induction l generalizing s a with
  | nil => rfl
  | cons v l ih => simp only [List.cons_append, sumF]; rw [ih]

theorem sumF_replicate (h : Nearest F r) (h0 : (0 : ℚ) ∈ F) {s : ℚ} (hs : s ∈ F) (b : ℚ × ℚ) (k : ℕ) :
    sumF r s b (List.replicate k b) = s := by
  induction k with
  | zero => rfl
  | succ k ih =>
    rw [List.replicate_succ, sumF, crossF_self h h0, add_zero, h.exact hs, ih]

/-- **C213**: in floating point too the area of a cell is that of its own polygon, however many vertices the others have. -/
theorem C213_patch (h : Nearest F r) (h0 : (0 : ℚ) ∈ F) (polys : Fin N → List (ℚ × ℚ)) (n : Fin N) :
    shoelaceF r polys n = areaR r (polys n) := by
  unfold shoelaceF areaR
  congr 3
  generalize (List.finRange N).foldl (fun m k => max m (polys k).length) 0 = m
  generalize polys n = p
  rcases List.eq_nil_or_concat p with rfl | ⟨l, b, rfl⟩
  · rfl
  · rw [List.concat_eq_append]
    have hl : (l ++ [b] ++ List.replicate (m - (l ++ [b]).length) b).getLast? = some b := by
      rw [List.getLast?_append]
      cases m - (l ++ [b]).length with
      | zero => simp
      | succ k => simp [List.getLast?_replicate]
    have hl' : (l ++ [b]).getLast? = some b := by simp
    unfold twiceF patch
    simp only [hl']
    rw [hl]
    simp only
    rw [List.append_assoc, List.singleton_append, sumF_append, sumF_replicate h h0 (sumF_mem h h0 _ _)]

/-! ### coordinates on a lattice -/

/-- the vertex lies on the lattice of multiples of `2^j`, at most `M` of them from the origin -/
def OnLattice (j : ℤ) (M : ℕ) (v : ℚ × ℚ) : Prop :=
  ∃ k l : ℤ, v = ((k : ℚ) * 2 ^ j, (l : ℚ) * 2 ^ j) ∧ |k| ≤ M ∧ |l| ≤ M

/-- **C213**: areas are exact in double precision if the coordinates of the vertices are whole multiples of a power of two
(not below `2^-536`), and `2 k M²` is at most `2^53` for the number `k` of vertices and the greatest multiple `M`. -/
theorem C213_exact (h : Nearest Double r) {p : List (ℚ × ℚ)} {j : ℤ} {M : ℕ} (hj : -536 ≤ j)
    (hp : ∀ v ∈ p, OnLattice j M v) (hM : 2 * p.length * M ^ 2 ≤ 2 ^ 53) :
    areaR r p = area p ∧ ∃ k : ℕ, area p = k * 2 ^ (2 * j - 1) := by
  have hz : (2 : ℚ) ^ (2 * j) = 2 ^ j * 2 ^ j := by rw [two_mul, zpow_add₀ (by norm_num)]
  have hmem : ∀ m : ℤ, |m| ≤ 2 ^ 53 → (m : ℚ) * 2 ^ (2 * j) ∈ Double := fun m hm =>
    mul_mem (p := 53) (emin := -1022) (by norm_num) (by norm_num; omega) hm
  have hcross : ∀ a b : ℚ × ℚ, OnLattice j M a → OnLattice j M b → 2 * M ^ 2 ≤ 2 ^ 53 →
      ∃ m : ℤ, |m| ≤ 2 * (M : ℤ) ^ 2 ∧ cross a b = m * 2 ^ (2 * j) ∧ crossF r a b = m * 2 ^ (2 * j) := by
    rintro a b ⟨k, l, rfl, hk, hl⟩ ⟨k', l', rfl, hk', hl'⟩ hM'
    have b1 : |k * l'| ≤ (M : ℤ) ^ 2 := by
      rw [abs_mul, sq]; exact mul_le_mul hk hl' (abs_nonneg _) (by positivity)
    have b2 : |l * k'| ≤ (M : ℤ) ^ 2 := by
      rw [abs_mul, sq]; exact mul_le_mul hl hk' (abs_nonneg _) (by positivity)
    have hM'' : 2 * (M : ℤ) ^ 2 ≤ 2 ^ 53 := by exact_mod_cast hM'
    have b3 : |k * l' - l * k'| ≤ 2 * (M : ℤ) ^ 2 := (abs_sub _ _).trans (by linarith)
    refine ⟨k * l' - l * k', b3, ?_, ?_⟩
    · rw [hz]; simp only [cross]; push_cast; ring
    · have e1 : (k : ℚ) * 2 ^ j * (l' * 2 ^ j) = ((k * l' : ℤ) : ℚ) * 2 ^ (2 * j) := by rw [hz]; push_cast; ring
      have e2 : (l : ℚ) * 2 ^ j * (k' * 2 ^ j) = ((l * k' : ℤ) : ℚ) * 2 ^ (2 * j) := by rw [hz]; push_cast; ring
      unfold crossF
      simp only
      rw [e1, e2, h.exact (hmem _ (by linarith [sq_nonneg (M : ℤ)])), h.exact (hmem _ (by linarith [sq_nonneg (M : ℤ)])),
        ← sub_mul, ← Int.cast_sub, h.exact (hmem _ (by linarith))]
  have hsum : ∀ (l : List (ℚ × ℚ)) (a : ℚ × ℚ) (s : ℤ) (q : ℕ), OnLattice j M a → (∀ v ∈ l, OnLattice j M v) →
      |s| ≤ 2 * (q : ℤ) * (M : ℤ) ^ 2 → 2 * (q + l.length) * M ^ 2 ≤ 2 ^ 53 →
      ∃ m : ℤ, |m| ≤ 2 * ((q : ℤ) + l.length) * (M : ℤ) ^ 2 ∧ s * 2 ^ (2 * j) + sumFrom a l = m * 2 ^ (2 * j) ∧
        sumF r (s * 2 ^ (2 * j)) a l = m * 2 ^ (2 * j) := by
    intro l
    induction l with
    | nil => intro a s q _ _ hs _; exact ⟨s, by simpa using hs, by simp [sumFrom], rfl⟩
    | cons v l ih =>
      intro a s q ha hl hs hq
      have hq1 : 2 * M ^ 2 ≤ 2 ^ 53 := by
        refine le_trans ?_ hq
        rw [List.length_cons]
        exact Nat.mul_le_mul_right _ (by omega)
      obtain ⟨m, hm, e1, e2⟩ := hcross a v ha (hl v (by simp)) hq1
      have hs' : |s + m| ≤ 2 * ((q + 1 : ℕ) : ℤ) * (M : ℤ) ^ 2 := by
        refine (abs_add_le _ _).trans ?_
        push_cast; linarith
      have hle : 2 * ((q + 1 : ℕ) : ℤ) * (M : ℤ) ^ 2 ≤ 2 ^ 53 := by
        have : 2 * (q + 1) * M ^ 2 ≤ 2 ^ 53 := le_trans (Nat.mul_le_mul_right _ (by rw [List.length_cons]; omega)) hq
        exact_mod_cast this
      obtain ⟨m', h1, h2, h3⟩ := ih v (s + m) (q + 1) (hl v (by simp)) (fun w hw => hl w (by simp [hw])) hs'
        (by rw [List.length_cons] at hq; convert hq using 2; ring)
      refine ⟨m', ?_, ?_, ?_⟩
      · rw [List.length_cons]; push_cast at h1 ⊢
        convert h1 using 2; ring
      · rw [sumFrom, e1, ← h2]; push_cast; ring
      · rw [sumF, e2, ← add_mul, ← Int.cast_add, h.exact (hmem _ (hs'.trans hle)), h3]
  obtain ⟨m, hm, e1, e2⟩ : ∃ m : ℤ, |m| ≤ 2 ^ 53 ∧ twice p = m * 2 ^ (2 * j) ∧ twiceF r p = m * 2 ^ (2 * j) := by
    unfold twice twiceF
    cases hl : p.getLast? with
    | none => exact ⟨0, by simp, by simp, by simp⟩
    | some b =>
      obtain ⟨m, h1, h2, h3⟩ := hsum p b 0 0 (hp b (List.mem_of_getLast? hl)) hp (by simp) (by simpa using hM)
      simp only [Int.cast_zero, zero_mul, zero_add] at h1 h2 h3
      refine ⟨m, h1.trans ?_, h2, h3⟩
      push_cast
      rw [zero_add]
      exact_mod_cast hM
  have hhalf : (m : ℚ) * 2 ^ (2 * j) / 2 = m * 2 ^ (2 * j - 1) := by
    rw [zpow_sub_one₀ (by norm_num)]; ring
  have hin : (m : ℚ) * 2 ^ (2 * j - 1) ∈ Double :=
    mul_mem (p := 53) (emin := -1022) (by norm_num) (by norm_num; omega) hm
  refine ⟨?_, m.natAbs, ?_⟩
  · unfold areaR area
    rw [e1, e2, hhalf, h.exact hin]
  · unfold area
    rw [e1, hhalf, abs_mul, abs_of_pos (zpow_pos' _), Nat.cast_natAbs, Int.cast_abs]

/-! ### the error in general -/

/-- The rounding error of one operation, underflow included. -/
theorem any_err (h : Nearest Double r) (x : ℚ) : |r x - x| ≤ |x| / 2 ^ 53 + 2 ^ (-1074 : ℤ) := by
  rcases le_or_gt ((2 : ℚ) ^ (-1022 : ℤ)) |x| with hc | hc
  · have := rel_err (p := 53) (emin := -1022) (by norm_num) h hc
    linarith [zpow_pos' (-1074)]
  · have hpos := zpow_pos' (-1074)
    set k := ⌊x / 2 ^ (-1074 : ℤ)⌋ with hk
    have h1 : (k : ℚ) * 2 ^ (-1074 : ℤ) ≤ x := (le_div_iff₀ hpos).1 (Int.floor_le _)
    have h2 : x < (k + 1 : ℚ) * 2 ^ (-1074 : ℤ) := (div_lt_iff₀ hpos).1 (Int.lt_floor_add_one _)
    have e : (2 : ℚ) ^ (-1022 : ℤ) = 2 ^ 52 * 2 ^ (-1074 : ℤ) := by
      rw [← zpow_natCast, ← zpow_add₀ (by norm_num)]; norm_num
    rw [e, abs_lt] at hc
    have h3 : (k : ℚ) < 2 ^ 52 := by
      by_contra hn; push Not at hn
      have := mul_le_mul_of_nonneg_right hn hpos.le
      linarith [hc.2]
    have h4 : -(2 : ℚ) ^ 52 - 1 < k := by
      by_contra hn; push Not at hn
      have := mul_le_mul_of_nonneg_right (show (k : ℚ) + 1 ≤ -2 ^ 52 by linarith) hpos.le
      linarith [hc.1]
    have hb : |k| ≤ 2 ^ 53 := by
      have a : k < 2 ^ 52 := by exact_mod_cast h3
      have b : -(2 : ℤ) ^ 52 - 1 < k := by exact_mod_cast h4
      rw [abs_le]; constructor <;> omega
    have hm : (k : ℚ) * 2 ^ (-1074 : ℤ) ∈ Double := mul_mem (p := 53) (emin := -1022) (by norm_num) (by norm_num) hb
    have := h.best x _ hm
    refine this.trans ?_
    rw [abs_sub_comm, abs_of_nonneg (by linarith)]
    have : (0 : ℚ) ≤ |x| / 2 ^ 53 := by positivity
    linarith

theorem cross_le {a b : ℚ × ℚ} {B D : ℚ} (ha : |a.1| ≤ B ∧ |a.2| ≤ B) (hd : |a.1 - b.1| ≤ D ∧ |a.2 - b.2| ≤ D) :
    |cross a b| ≤ 2 * B * D := by
  have e : cross a b = a.2 * (a.1 - b.1) - a.1 * (a.2 - b.2) := by unfold cross; ring
  have h1 : |a.2 * (a.1 - b.1)| ≤ B * D := by
    rw [abs_mul]; exact mul_le_mul ha.2 hd.1 (abs_nonneg _) ((abs_nonneg _).trans ha.2)
  have h2 : |a.1 * (a.2 - b.2)| ≤ B * D := by
    rw [abs_mul]; exact mul_le_mul ha.1 hd.2 (abs_nonneg _) ((abs_nonneg _).trans ha.2)
  rw [e]
  exact (abs_sub _ _).trans (by linarith)

theorem tiny_le : (2 : ℚ) ^ (-1074 : ℤ) ≤ 1 / 2 ^ 53 / 1000 := by
  refine (zpow_le_zpow_right₀ (by norm_num) (show (-1074 : ℤ) ≤ -63 by norm_num)).trans ?_
  norm_num

theorem crossF_err (h : Nearest Double r) {a b : ℚ × ℚ} {B D : ℚ} (hB : 1 ≤ B) (ha : |a.1| ≤ B ∧ |a.2| ≤ B)
    (hb : |b.1| ≤ B ∧ |b.2| ≤ B) (hd : |a.1 - b.1| ≤ D ∧ |a.2 - b.2| ≤ D) :
    |crossF r a b - cross a b| ≤ (2003 / 1000 * B ^ 2 + 2 * B * D) / 2 ^ 53 := by
  have hp : ∀ x y : ℚ, |x| ≤ B → |y| ≤ B → |r (x * y) - x * y| ≤ 1001 / 1000 * B ^ 2 / 2 ^ 53 := by
    intro x y hx hy
    have h1 := any_err h (x * y)
    have h2 : |x * y| ≤ B ^ 2 := by
      rw [abs_mul, sq]; exact mul_le_mul hx hy (abs_nonneg _) (by linarith)
    have h3 := tiny_le
    have h4 : 1 ≤ B ^ 2 := by nlinarith
    have h5 : |x * y| / 2 ^ 53 ≤ B ^ 2 / 2 ^ 53 := by gcongr
    linarith
  have e1 := hp a.1 b.2 ha.1 hb.2
  have e2 := hp a.2 b.1 ha.2 hb.1
  have e3 := add_err (p := 53) (emin := -1022) (by norm_num) h (h.mem (a.1 * b.2)) (neg_mem (h.mem (a.2 * b.1)))
  rw [← sub_eq_add_neg] at e3
  have hc := cross_le ha hd
  have e4 : |(r (a.1 * b.2) - r (a.2 * b.1)) - cross a b| ≤ 2002 / 1000 * B ^ 2 / 2 ^ 53 := by
    have : (r (a.1 * b.2) - r (a.2 * b.1)) - cross a b = (r (a.1 * b.2) - a.1 * b.2) - (r (a.2 * b.1) - a.2 * b.1) := by
      unfold cross; ring
    rw [this]
    exact (abs_sub _ _).trans (by linarith)
  have e5 : |r (a.1 * b.2) - r (a.2 * b.1)| ≤ 2 * B * D + 2002 / 1000 * B ^ 2 / 2 ^ 53 := by
    have := abs_add_le ((r (a.1 * b.2) - r (a.2 * b.1)) - cross a b) (cross a b)
    rw [sub_add_cancel] at this
    linarith
  have e6 : |r (a.1 * b.2) - r (a.2 * b.1)| / 2 ^ 53 ≤ (2 * B * D + 2002 / 1000 * B ^ 2 / 2 ^ 53) / 2 ^ 53 := by gcongr
  have := abs_add_le (crossF r a b - (r (a.1 * b.2) - r (a.2 * b.1))) ((r (a.1 * b.2) - r (a.2 * b.1)) - cross a b)
  rw [sub_add_sub_cancel] at this
  have hB2 : 0 ≤ B ^ 2 := sq_nonneg B
  have e7 : |crossF r a b - (r (a.1 * b.2) - r (a.2 * b.1))| ≤ |r (a.1 * b.2) - r (a.2 * b.1)| / 2 ^ 53 := e3
  have e8 : 2002 / 1000 * B ^ 2 / 2 ^ 53 / 2 ^ 53 ≤ 1 / 1000 * B ^ 2 / 2 ^ 53 := by
    rw [div_div, div_le_div_iff₀ (by positivity) (by positivity)]
    nlinarith
  rw [add_div] at e6 ⊢
  linarith

theorem sumF_err (h : Nearest Double r) {B D : ℚ} (hB : 1 ≤ B) (hD : 0 ≤ D) (l : List (ℚ × ℚ)) :
    ∀ (a : ℚ × ℚ) (s S e : ℚ) (q : ℕ), s ∈ Double → |s - S| ≤ e → |S| ≤ 2 * B * D * q →
      (∀ v ∈ a :: l, |v.1| ≤ B ∧ |v.2| ≤ B) → (∀ v ∈ a :: l, ∀ w ∈ a :: l, |v.1 - w.1| ≤ D ∧ |v.2 - w.2| ≤ D) →
      |sumF r s a l - (S + sumFrom a l)| ≤ (1 + 1 / 2 ^ 53) ^ l.length *
        (e + l.length * ((2003 / 1000 * B ^ 2 + 2 * B * D) / 2 ^ 53) +
          B * D / 2 ^ 53 * (l.length * (2 * q + l.length + 1))) ∧
      |S + sumFrom a l| ≤ 2 * B * D * (q + l.length) := by
  induction l with
  | nil => intro a s S e q _ he hS _ _; simpa [sumF, sumFrom] using ⟨he, hS⟩
  | cons v l ih =>
    intro a s S e q hs he hS hb hd
    have hc := cross_le (hb a (by simp)) (hd a (by simp) v (by simp))
    have hce := crossF_err h hB (hb a (by simp)) (hb v (by simp)) (hd a (by simp) v (by simp))
    set c := (2003 / 1000 * B ^ 2 + 2 * B * D) / 2 ^ 53 with hcdef
    have h1 : |s + crossF r a v - (S + cross a v)| ≤ e + c := by
      have : s + crossF r a v - (S + cross a v) = (s - S) + (crossF r a v - cross a v) := by ring
      rw [this]
      exact (abs_add_le _ _).trans (by linarith)
    have h2 : |S + cross a v| ≤ 2 * B * D * ((q + 1 : ℕ) : ℚ) := by
      push_cast
      exact (abs_add_le _ _).trans (by linarith)
    have h3 : |s + crossF r a v| ≤ e + c + 2 * B * D * ((q + 1 : ℕ) : ℚ) := by
      have := abs_add_le (s + crossF r a v - (S + cross a v)) (S + cross a v)
      rw [sub_add_cancel] at this
      linarith
    have h4 : |r (s + crossF r a v) - (s + crossF r a v)| ≤ |s + crossF r a v| / 2 ^ 53 :=
      add_err (p := 53) (emin := -1022) (by norm_num) h hs (h.mem _)
    have h5 : |s + crossF r a v| / 2 ^ 53 ≤ (e + c + 2 * B * D * ((q + 1 : ℕ) : ℚ)) / 2 ^ 53 := by gcongr
    have h6 : |r (s + crossF r a v) - (S + cross a v)| ≤
        (1 + 1 / 2 ^ 53) * (e + c) + 2 * B * D * ((q + 1 : ℕ) : ℚ) / 2 ^ 53 := by
      have := abs_add_le (r (s + crossF r a v) - (s + crossF r a v)) (s + crossF r a v - (S + cross a v))
      rw [sub_add_sub_cancel] at this
      rw [add_div] at h5
      linarith
    obtain ⟨k1, k2⟩ := ih v (r (s + crossF r a v)) (S + cross a v) _ (q + 1) (h.mem _) h6 h2
      (fun w hw => hb w (List.mem_cons_of_mem _ hw)) (fun w hw w' hw' => hd w (List.mem_cons_of_mem _ hw) w' (List.mem_cons_of_mem _ hw'))
    have eS : S + sumFrom a (v :: l) = S + cross a v + sumFrom v l := by rw [sumFrom]; ring
    rw [eS, sumF]
    constructor
    · refine k1.trans ?_
      rw [List.length_cons, pow_succ _ l.length, mul_assoc ((1 + 1 / 2 ^ 53 : ℚ) ^ l.length) (1 + 1 / 2 ^ 53)]
      apply mul_le_mul_of_nonneg_left _ (by positivity)
      push_cast
      have hc0 : 0 ≤ c := by rw [hcdef]; positivity
      have he0 : 0 ≤ e := (abs_nonneg _).trans he
      have hBD : 0 ≤ B * D / 2 ^ 53 := by positivity
      set n : ℚ := (l.length : ℚ)
      have hn : 0 ≤ n := Nat.cast_nonneg _
      set u : ℚ := 1 / 2 ^ 53 with hu
      have hu0 : 0 ≤ u := by rw [hu]; positivity
      have z : 0 ≤ u * (n * c + B * D / 2 ^ 53 * (n * (2 * (q + 1) + n + 1)) + B * D / 2 ^ 53 * (2 * (q + 1))) := by positivity
      have w : B * D / 2 ^ 53 * (2 * ((q : ℚ) + 1)) = 2 * B * D * (q + 1) / 2 ^ 53 := by ring
      rw [← w]
      linarith [z]
    · refine k2.trans (le_of_eq ?_)
      rw [List.length_cons]; push_cast; ring

/-- **C213**: the error of a computed area in general: for `k` vertices (at most 1000) with coordinates of magnitude at most
`B` (`B ≥ 1`) in a cell whose extent is at most `D` along each axis. -/
theorem C213_error (h : Nearest Double r) {p : List (ℚ × ℚ)} {B D : ℚ} (hB : 1 ≤ B) (hk : p.length ≤ 1000)
    (hb : ∀ v ∈ p, |v.1| ≤ B ∧ |v.2| ≤ B) (hd : ∀ v ∈ p, ∀ w ∈ p, |v.1 - w.1| ≤ D ∧ |v.2 - w.2| ≤ D) :
    |areaR r p - area p| ≤ 101 / 100 * (p.length * B ^ 2 + p.length * (p.length + 5) / 2 * (B * D)) / 2 ^ 53 := by
  cases hl : p.getLast? with
  | none =>
    rw [List.getLast?_eq_none_iff] at hl
    subst hl
    have : r 0 = 0 := h.exact (zero_mem _ _)
    simp [areaR, area, twiceF, twice, this]
  | some b =>
    have hmem := List.mem_of_getLast? hl
    have hD : 0 ≤ D := (abs_nonneg _).trans (hd b hmem b hmem).1
    have hsub : ∀ v ∈ b :: p, v ∈ p := by
      intro v hv
      rcases List.mem_cons.1 hv with rfl | hv
      · exact hmem
      · exact hv
    obtain ⟨h1, h2⟩ := sumF_err h hB hD p b 0 0 0 0 (zero_mem _ _) (by simp) (by simp) (fun v hv => hb v (hsub v hv))
      (fun v hv w hw => hd v (hsub v hv) w (hsub w hw))
    have e1 : twice p = 0 + sumFrom b p := by simp [twice, hl]
    have e2 : twiceF r p = sumF r 0 b p := by simp [twiceF, hl]
    rw [← e1] at h1 h2
    rw [← e2] at h1
    have hpos : 1 ≤ (p.length : ℚ) := by
      exact_mod_cast List.length_pos_of_mem hmem
    set n : ℚ := (p.length : ℚ) with hn
    have hpow : (1 + 1 / 2 ^ 53 : ℚ) ^ p.length ≤ 1001 / 1000 := by
      refine (pow_le_pow_right₀ (by norm_num) hk).trans ?_
      have a : (1 + 1 / 2 ^ 53 : ℚ) ^ 100 ≤ 1 + 1 / 20000 := by norm_num
      have b : ((1 + 1 / 2 ^ 53 : ℚ) ^ 100) ^ 10 ≤ (1 + 1 / 20000) ^ 10 := pow_le_pow_left₀ (by positivity) a 10
      rw [← pow_mul] at b
      refine b.trans ?_
      norm_num
    have hBD : 0 ≤ B * D / 2 ^ 53 := by positivity
    have hBB : 0 ≤ B ^ 2 / 2 ^ 53 := by positivity
    have h3 : |twiceF r p - twice p| ≤ 1001 / 1000 * (n * ((2003 / 1000 * B ^ 2 + 2 * B * D) / 2 ^ 53) +
        B * D / 2 ^ 53 * (n * (n + 1))) := by
      refine h1.trans ?_
      have : (0 : ℚ) + n * ((2003 / 1000 * B ^ 2 + 2 * B * D) / 2 ^ 53) + B * D / 2 ^ 53 * (n * (2 * ((0 : ℕ) : ℚ) + n + 1)) =
        n * ((2003 / 1000 * B ^ 2 + 2 * B * D) / 2 ^ 53) + B * D / 2 ^ 53 * (n * (n + 1)) := by
        push_cast; ring
      rw [this]
      exact mul_le_mul_of_nonneg_right hpow (by positivity)
    have h4 := any_err h (twiceF r p / 2)
    have h5 : |twiceF r p / 2| ≤ |twiceF r p - twice p| / 2 + B * D * n := by
      rw [abs_div, abs_two]
      have := abs_add_le (twiceF r p - twice p) (twice p)
      rw [sub_add_cancel] at this
      push_cast at h2
      linarith
    have h6 : |areaR r p - area p| ≤ |r (twiceF r p / 2) - twice p / 2| := abs_abs_sub_abs_le _ _
    have h7 : |r (twiceF r p / 2) - twice p / 2| ≤ |r (twiceF r p / 2) - twiceF r p / 2| + |twiceF r p - twice p| / 2 := by
      have := abs_add_le (r (twiceF r p / 2) - twiceF r p / 2) ((twiceF r p - twice p) / 2)
      rw [abs_div (twiceF r p - twice p), abs_two] at this
      refine le_trans (le_of_eq ?_) this
      congr 1; ring
    have h8 : |twiceF r p / 2| / 2 ^ 53 ≤ (|twiceF r p - twice p| / 2 + B * D * n) / 2 ^ 53 := by gcongr
    have h9 := tiny_le
    have hBBn : 1 / 2 ^ 53 ≤ n * (B ^ 2 / 2 ^ 53) := by
      have : 1 ≤ B ^ 2 := by nlinarith
      have : (1 : ℚ) / 2 ^ 53 ≤ B ^ 2 / 2 ^ 53 := by gcongr
      nlinarith
    have h10 : (|twiceF r p - twice p| / 2) / 2 ^ 53 ≤ |twiceF r p - twice p| / 2 / 1000 := by
      have : 0 ≤ |twiceF r p - twice p| / 2 := by positivity
      gcongr
      norm_num
    rw [add_div] at h8
    have hX : 0 ≤ n * (B * D / 2 ^ 53) := by positivity
    have hY : 0 ≤ n * (n * (B * D / 2 ^ 53)) := by positivity
    have e3 : 101 / 100 * (n * B ^ 2 + n * (n + 5) / 2 * (B * D)) / 2 ^ 53 =
        101 / 100 * (n * (B ^ 2 / 2 ^ 53)) + 101 / 200 * (n * (n * (B * D / 2 ^ 53))) + 505 / 200 * (n * (B * D / 2 ^ 53)) := by ring
    have e4 : 1001 / 1000 * (n * ((2003 / 1000 * B ^ 2 + 2 * B * D) / 2 ^ 53) + B * D / 2 ^ 53 * (n * (n + 1))) =
        1001 / 1000 * (2003 / 1000 * (n * (B ^ 2 / 2 ^ 53)) + 3 * (n * (B * D / 2 ^ 53)) + n * (n * (B * D / 2 ^ 53))) := by ring
    rw [e4] at h3
    rw [e3]
    have e5 : B * D * n / 2 ^ 53 = n * (B * D / 2 ^ 53) := by ring
    rw [e5] at h8
    linarith

/-- **C213**: a cell of at most ten vertices and ten kilometres, with coordinates below ten million (metres, UTM): the area is
right to an eighth of a square metre. -/
theorem C213_utm (h : Nearest Double r) {p : List (ℚ × ℚ)} (hk : p.length ≤ 10)
    (hb : ∀ v ∈ p, |v.1| ≤ 10000000 ∧ |v.2| ≤ 10000000)
    (hd : ∀ v ∈ p, ∀ w ∈ p, |v.1 - w.1| ≤ 10000 ∧ |v.2 - w.2| ≤ 10000) : |areaR r p - area p| ≤ 1 / 8 := by
  have := C213_error h (by norm_num) (by omega) hb hd
  refine this.trans ?_
  have hn : (p.length : ℚ) ≤ 10 := by exact_mod_cast hk
  have hn0 : (0 : ℚ) ≤ p.length := Nat.cast_nonneg _
  set n : ℚ := (p.length : ℚ)
  have : n * (n + 5) / 2 ≤ 75 := by nlinarith
  have : 101 / 100 * (n * 10000000 ^ 2 + n * (n + 5) / 2 * (10000000 * 10000)) / 2 ^ 53 ≤
      101 / 100 * (10 * 10000000 ^ 2 + 75 * (10000000 * 10000)) / 2 ^ 53 := by gcongr
  refine this.trans ?_
  norm_num

/-- **C213**: vertices in whole metres below ten million (at most 45 of them): the area is exact, a number of half square
metres. -/
theorem C213_metres (h : Nearest Double r) {p : List (ℚ × ℚ)} (hk : p.length ≤ 45)
    (hp : ∀ v ∈ p, ∃ k l : ℤ, v = ((k : ℚ), (l : ℚ)) ∧ |k| ≤ 10000000 ∧ |l| ≤ 10000000) : areaR r p = area p :=
  (C213_exact (j := 0) (M := 10000000) h (by norm_num)
    (fun v hv => by
      obtain ⟨k, l, e, a, b⟩ := hp v hv
      exact ⟨k, l, by simpa using e, by exact_mod_cast a, by exact_mod_cast b⟩)
    (by norm_num; omega)).1

/-! ### from the cells to the streams -/

/-- `self._area` as it is stored (flow_directions.py:38, 120) -/
def areasF (polys : Fin N → List (ℚ × ℚ)) (n : Fin N) : double.Num := double.store (shoelaceF rnd64 polys n)

/-- **C213**: with such coordinates, and upstream areas of at most `2^53` units, areas, flow accumulation and the streams drawn
from it with any threshold are those of exact arithmetic on the polygons. -/
theorem C213_streams {d : Fin N → Fin N} {o : Reach.Obj N} (hd : Resolves o.fdir d) (hac : ∀ n, ¬ OnCycle d n)
    {polys : Fin N → List (ℚ × ℚ)} {j : ℤ} {M : ℕ} (hj : -536 ≤ j)
    (hp : ∀ n, ∀ v ∈ polys n, OnLattice j M v) (hM : ∀ n, 2 * (polys n).length * M ^ 2 ≤ 2 ^ 53)
    (hsum : ∀ n, ∑ u ∈ upstream d n, area (polys u) ≤ 2 ^ 53 * 2 ^ (2 * j - 1)) (c : double.Num) :
    (∀ n, (areasF polys n).val = area (polys n)) ∧
    ∃ facc, (∀ fuel, N < fuel → Acc.flowAccumulation fuel o.fdir (areasF polys) false = .ok facc) ∧
      (∀ n, (facc n).val = ∑ u ∈ upstream d n, area (polys u)) ∧
      ∃ o' sa, Delin.delineate (fun n => some (facc n)) o (.number c) none = .ok (o', sa) ∧
        ∀ n, (sa n = 1 ∨ sa n = 0) ∧ (sa n = 1 ↔ c.val ≤ ∑ u ∈ upstream d n, area (polys u)) := by
  have h0 : (0 : ℚ) ∈ Double := zero_mem _ _
  choose k hk using fun n => (C213_exact rnd64_nearest hj (hp n) (hM n)).2
  have harea : ∀ n, (areasF polys n).val = area (polys n) := by
    intro n
    have e : shoelaceF rnd64 polys n = area (polys n) := by
      rw [C213_patch rnd64_nearest h0, (C213_exact rnd64_nearest hj (hp n) (hM n)).1]
    show rnd64 (shoelaceF rnd64 polys n) = _
    rw [e]
    refine rnd64_nearest.exact ?_
    rw [hk n]
    have hle : k n ≤ 2 ^ 53 := by
      have h1 : area (polys n) ≤ ∑ u ∈ upstream d n, area (polys u) :=
        Finset.single_le_sum (f := fun u => area (polys u)) (fun u _ => abs_nonneg _) (mem_upstream.2 ⟨0, rfl⟩)
      have h2 := h1.trans (hsum n)
      rw [hk n] at h2
      have := le_of_mul_le_mul_right h2 (zpow_pos' _)
      exact_mod_cast this
    have := mul_mem (p := 53) (emin := -1022) (k := 2 * j - 1) (m := (k n : ℤ)) (by norm_num) (by norm_num; omega)
      (by rw [abs_of_nonneg (by positivity)]; exact_mod_cast hle)
    simpa using this
  refine ⟨harea, ?_⟩
  have hr : ∀ u, -(N : ℤ) ≤ o.fdir u ∧ o.fdir u < N := fun u => by
    have := hd u; have := (d u).isLt; omega
  obtain ⟨facc, hf⟩ := C114_terminates hr (areasF polys) false
  have hacc : ∀ n, (facc n).val = ∑ u ∈ upstream d n, area (polys u) := by
    intro n
    rw [C114_exact (k := k) (j := 2 * j - 1) hd (by omega) (fun u => by rw [harea u, hk u]) (hf (N + 1) (by omega)) n (hac n) ?_]
    · exact Finset.sum_congr rfl fun u _ => harea u
    · have h2 := hsum n
      simp only [hk] at h2
      rw [← Finset.sum_mul] at h2
      have := le_of_mul_le_mul_right h2 (zpow_pos' _)
      exact_mod_cast this
  refine ⟨facc, hf, hacc, ?_⟩
  obtain ⟨sa, e, hsa⟩ := Delin.C44_number (facc := fun n => some (facc n)) (o := o) c
  refine ⟨_, sa, e, fun n => ⟨(hsa n).1, (hsa n).2.trans ⟨?_, ?_⟩⟩⟩
  · rintro ⟨a, ha, hc⟩
    rw [← hacc n]
    rw [Option.some.injEq] at ha
    rw [ha]; exact hc
  · intro hc
    exact ⟨facc n, rfl, by rw [← hacc n] at hc; exact hc⟩

/-! ### what fails -/

/-- the square with lower left corner `(x, y)` and side `s` -/
def squareAt (x y s : ℚ) : List (ℚ × ℚ) := [(x, y), (x + s, y), (x + s, y + s), (x, y + s)]

/-- Far from the origin the areas are wrong altogether: the unit square at (10⁸, 10⁸ + 3) has area 0 in double precision.
All coordinates are whole numbers. -/
theorem C213_far_refuted : areaR rnd64 (squareAt 100000000 100000003 1) = 0 ∧ area (squareAt 100000000 100000003 1) = 1 ∧
    areaR rnd64 (squareAt 0 3 1) = 1 := by
  refine ⟨?_, ?_, ?_⟩ <;> decide +kernel

/-- a 30 m cell of a grid in UTM coordinates given to the millimetre -/
def utm30 : List (ℚ × ℚ) := (squareAt 948768.848 4888551.59 30).map fun v => (rnd64 v.1, rnd64 v.2)

/-- In the range of UTM the area may be off by a thousandth of a square metre, so that equal cells do not compare equal. -/
theorem C213_equal_refuted : areaR rnd64 utm30 < 900 ∧ areaR rnd64 (squareAt 948768 4888551 30) = 900 := by
  refine ⟨?_, ?_⟩ <;> decide +kernel

example : |areaR rnd64 utm30 - area utm30| ≤ 1 / 8 :=
  C213_utm rnd64_nearest (by decide +kernel) (by decide +kernel) (by decide +kernel)
example : areaR rnd64 (squareAt 948768 4888551 30) = area (squareAt 948768 4888551 30) :=
  C213_metres rnd64_nearest (by decide) (by
    intro v hv
    simp only [squareAt, List.mem_cons, List.not_mem_nil, or_false] at hv
    rcases hv with rfl | rfl | rfl | rfl
    · exact ⟨948768, 4888551, by norm_num, by norm_num, by norm_num⟩
    · exact ⟨948798, 4888551, by norm_num, by norm_num, by norm_num⟩
    · exact ⟨948798, 4888581, by norm_num, by norm_num, by norm_num⟩
    · exact ⟨948768, 4888581, by norm_num, by norm_num, by norm_num⟩)

/-- four cells in a row, 30 m wide, flowing to the first -/
def row4 (n : Fin 4) : List (ℚ × ℚ) := squareAt (948768 + 30 * n.val) 4888551 30
def rowNx : Fin 4 → Fin 4 := ![0, 0, 1, 2]
def rowObj : Reach.Obj 4 := ⟨fun n => ((rowNx n).val : ℤ), none, none⟩

theorem row_resolves : Resolves rowObj.fdir rowNx := fun n => .inl ⟨by revert n; decide, rfl⟩

theorem row_le : ∀ m : Fin 4, rowNx m ≤ m := by decide

theorem row_down (k : ℕ) (m : Fin 4) : rowNx^[k] m ≤ m := by
  induction k generalizing m with
  | zero => exact le_refl _
  | succ k ih => rw [Function.iterate_succ_apply]; exact (ih _).trans (row_le m)

theorem row_acyclic (n : Fin 4) : ¬ OnCycle rowNx n := by
  rintro ⟨h, k, e⟩
  rw [Function.iterate_succ_apply] at e
  have h1 := row_down k (rowNx n)
  rw [e] at h1
  exact h (le_antisymm (row_le n) h1)

theorem row_card (n : Fin 4) : (upstream rowNx n).card = 4 - n.val := by
  have e : upstream rowNx n = Finset.univ.filter (n ≤ ·) := by
    ext u
    rw [mem_upstream, Finset.mem_filter]
    constructor
    · rintro ⟨k, rfl⟩
      exact ⟨Finset.mem_univ _, row_down k u⟩
    · rintro ⟨_, h⟩
      refine ⟨u.val - n.val, ?_⟩
      revert u n
      decide
  rw [e]
  clear e
  revert n
  decide

theorem row_area (n : Fin 4) : area (row4 n) = 900 := by revert n; decide +kernel

theorem row_sum (n : Fin 4) : ∑ u ∈ upstream rowNx n, area (row4 u) ≤ 2 ^ 53 * 2 ^ (2 * (0 : ℤ) - 1) := by
  simp only [row_area]
  rw [Finset.sum_const, nsmul_eq_mul]
  have : (upstream rowNx n).card ≤ 4 := (Finset.card_le_univ _).trans (by simp)
  have h : (((upstream rowNx n).card : ℕ) : ℚ) ≤ 4 := by exact_mod_cast this
  have e : (2 : ℚ) ^ (2 * (0 : ℤ) - 1) = 1 / 2 := by norm_num
  rw [e]
  linarith

theorem row_lattice (n : Fin 4) (v : ℚ × ℚ) (hv : v ∈ row4 n) : OnLattice 0 5000000 v := by
  have hn : (n.val : ℤ) < 4 := by exact_mod_cast n.isLt
  have hn0 : (0 : ℤ) ≤ n.val := by positivity
  have key : ∀ x y : ℤ, 0 ≤ x → 0 ≤ y → x ≤ 5000000 → y ≤ 5000000 → v = ((x : ℚ), (y : ℚ)) → OnLattice 0 5000000 v := by
    intro x y hx hy hx' hy' e
    exact ⟨x, y, by simpa using e, by rw [abs_of_nonneg hx]; exact_mod_cast hx', by rw [abs_of_nonneg hy]; exact_mod_cast hy'⟩
  simp only [row4, squareAt, List.mem_cons, List.not_mem_nil, or_false] at hv
  rcases hv with rfl | rfl | rfl | rfl
  · exact key (948768 + 30 * n.val) 4888551 (by omega) (by norm_num) (by omega) (by norm_num) (by push_cast; rfl)
  · exact key (948768 + 30 * n.val + 30) 4888551 (by omega) (by norm_num) (by omega) (by norm_num) (by push_cast; rfl)
  · exact key (948768 + 30 * n.val + 30) 4888581 (by omega) (by norm_num) (by omega) (by norm_num) (by push_cast; norm_num)
  · exact key (948768 + 30 * n.val) 4888581 (by omega) (by norm_num) (by omega) (by norm_num) (by push_cast; norm_num)

/-- the streams of the row from an upstream area of 2700 m²: three cells or more -/
theorem C213_concrete : (∀ n, (areasF row4 n).val = 900) ∧
    ∃ facc, (∀ fuel, 4 < fuel → Acc.flowAccumulation fuel rowObj.fdir (areasF row4) false = .ok facc) ∧
      ∃ o' sa, Delin.delineate (fun n => some (facc n)) rowObj (.number (double.store 2700)) none = .ok (o', sa) ∧
        sa = ![1, 1, 0, 0] := by
  obtain ⟨h1, facc, h2, h3, o', sa, h4, h5⟩ := C213_streams (o := rowObj) row_resolves row_acyclic (polys := row4) (j := 0)
    (M := 5000000) (by norm_num) row_lattice (fun n => by norm_num [row4, squareAt]) row_sum (double.store 2700)
  refine ⟨fun n => (h1 n).trans (row_area n), facc, h2, o', sa, h4, ?_⟩
  have hc : (double.store 2700).val = 2700 := by decide +kernel
  have hcard : ∀ n : Fin 4, sa n = 1 ↔ 2700 ≤ ((upstream rowNx n).card : ℚ) * 900 := by
    intro n
    rw [(h5 n).2, hc]
    simp only [row_area]
    rw [Finset.sum_const, nsmul_eq_mul]
  have c0 : (upstream rowNx 0).card = 4 := row_card _
  have c1 : (upstream rowNx 1).card = 3 := row_card _
  have c2 : (upstream rowNx 2).card = 2 := row_card _
  have c3 : (upstream rowNx 3).card = 1 := row_card _
  have a0 : sa 0 = 1 := (hcard 0).2 (by rw [c0]; norm_num)
  have a1 : sa 1 = 1 := (hcard 1).2 (by rw [c1]; norm_num)
  have a2 : sa 2 = 0 := (h5 2).1.resolve_left fun h => by
    have := (hcard 2).1 h; rw [c2] at this; norm_num at this
  have a3 : sa 3 = 0 := (h5 3).1.resolve_left fun h => by
    have := (hcard 3).1 h; rw [c3] at this; norm_num at this
  funext n
  fin_cases n
  · exact a0
  · exact a1
  · exact a2
  · exact a3

end Dany.Float
