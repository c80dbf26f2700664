import Verif.Geom.Model
import Mathlib.Tactic.Ring
import Mathlib.Tactic.LinearCombination
import Mathlib.Data.List.Rotate

/-!
# C40: cell areas
-/

namespace Dany.Geom

variable {N : ℕ} {K : Type*} [Field K] [LinearOrder K]

theorem sumFrom_append (a : K × K) (l : List (K × K)) (b : K × K) (r : List (K × K)) :
    sumFrom a (l ++ b :: r) = sumFrom a (l ++ [b]) + sumFrom b r := by
  induction l generalizing a with
  | nil => simp [sumFrom]
  | cons v l ih => simp only [List.cons_append, sumFrom]; rw [ih]; ring

theorem twice_concat (l : List (K × K)) (b : K × K) : twice (l ++ [b]) = sumFrom b (l ++ [b]) := by
  unfold twice
  simp

theorem twice_cons (a : K × K) (l : List (K × K)) : twice (a :: l) = sumFrom a (l ++ [a]) := by
  rcases List.eq_nil_or_concat l with rfl | ⟨m, b, rfl⟩
  · simp [twice, sumFrom]
  · rw [List.concat_eq_append, ← List.cons_append, twice_concat, List.append_assoc]
    simp only [List.cons_append, List.nil_append, sumFrom]
    rw [sumFrom_append a m b [a]]
    simp [sumFrom]
    ring

theorem cross_self (a : K × K) : cross a a = 0 := by unfold cross; ring
theorem cross_swap (a b : K × K) : cross a b = - cross b a := by unfold cross; ring

/-- listing from the next vertex -/
theorem twice_rotate_one (a : K × K) (l : List (K × K)) : twice (l ++ [a]) = twice (a :: l) := by
  rw [twice_cons, twice_concat]

theorem twice_rotate (p : List (K × K)) (k : ℕ) : twice (p.rotate k) = twice p := by
  induction k generalizing p with
  | zero => simp
  | succ k ih =>
    cases p with
    | nil => simp
    | cons a l =>
      rw [List.rotate_cons_succ, ih]
      exact twice_rotate_one a l

theorem sumFrom_reverse (a : K × K) (l : List (K × K)) (b : K × K) :
    sumFrom b (l.reverse ++ [a]) = - sumFrom a (l ++ [b]) := by
  induction l generalizing a b with
  | nil => simp [sumFrom]; exact cross_swap _ _
  | cons v l ih =>
    rw [List.reverse_cons, List.append_assoc]
    simp only [List.cons_append, List.nil_append]
    rw [sumFrom_append b l.reverse v [a], ih v b]
    simp only [sumFrom, List.cons_append]
    rw [cross_swap v a]
    ring

theorem twice_reverse (p : List (K × K)) : twice p.reverse = - twice p := by
  cases p with
  | nil => simp [twice]
  | cons a l =>
    rw [List.reverse_cons, twice_rotate_one, twice_cons, twice_cons]
    exact sumFrom_reverse a l a

/-- the vector from `o` to `v` -/
def shift (o v : K × K) : K × K := (v.1 - o.1, v.2 - o.2)

theorem sumFrom_shift (o a : K × K) (l : List (K × K)) (b : K × K) :
    sumFrom (shift o a) ((l ++ [b]).map (shift o)) =
      sumFrom a (l ++ [b]) - cross o b + cross o a := by
  induction l generalizing a with
  | nil => simp [sumFrom, shift, cross]; ring
  | cons v l ih =>
    simp only [List.cons_append, List.map_cons, sumFrom]
    rw [ih]
    simp only [shift, cross]
    ring

theorem twice_shift (o : K × K) (p : List (K × K)) : twice (p.map (shift o)) = twice p := by
  cases p with
  | nil => simp [twice]
  | cons a l =>
    rw [List.map_cons, twice_cons, twice_cons]
    have : l.map (shift o) ++ [shift o a] = (l ++ [a]).map (shift o) := by simp
    rw [this, sumFrom_shift]
    ring

theorem sumFrom_replicate (b : K × K) (k : ℕ) : sumFrom b (List.replicate k b) = 0 := by
  induction k with
  | zero => rfl
  | succ k ih => simp [List.replicate_succ, sumFrom, ih, cross_self]

theorem twice_patch (m : ℕ) (p : List (K × K)) : twice (patch m p) = twice p := by
  rcases List.eq_nil_or_concat p with rfl | ⟨l, b, rfl⟩
  · rfl
  · rw [List.concat_eq_append]
    unfold patch
    simp only [List.getLast?_append, List.getLast?_singleton, Option.some_or]
    have hl : (l ++ [b] ++ List.replicate (m - (l ++ [b]).length) b).getLast? = some b := by
      rw [List.getLast?_append]
      cases m - (l ++ [b]).length with
      | zero => simp
      | succ k => simp [List.getLast?_replicate]
    rw [twice_concat]
    conv_lhs => unfold twice
    rw [hl]
    dsimp only
    rw [List.append_assoc, List.singleton_append, sumFrom_append, sumFrom_replicate]
    ring

/-! ### The claims -/

section Claims

variable [IsStrictOrderedRing K]

/-- **C40**: areas are not negative. -/
theorem C40_nonneg (polys : Fin N → List (K × K)) (n : Fin N) : 0 ≤ shoelace polys n := abs_nonneg _

omit [IsStrictOrderedRing K] in
/-- **C40**: the area of a cell is that of its own polygon, however many vertices the others have. -/
theorem C40_patch (polys : Fin N → List (K × K)) (n : Fin N) : shoelace polys n = area (polys n) := by
  unfold shoelace area
  rw [twice_patch]

omit [IsStrictOrderedRing K] in
/-- **C40**: moving the polygon by a vector does not change its area. -/
theorem C40_translate (p : List (K × K)) (v : K × K) :
    area (p.map fun q => (q.1 + v.1, q.2 + v.2)) = area p := by
  have : (fun q : K × K => (q.1 + v.1, q.2 + v.2)) = shift (-v.1, -v.2) := by
    funext q; simp [shift]
  rw [this]
  unfold area
  rw [twice_shift]

omit [IsStrictOrderedRing K] in
/-- **C40**: listing the polygon from another vertex does not change its area. -/
theorem C40_start (p : List (K × K)) (k : ℕ) : area (p.rotate k) = area p := by
  unfold area
  rw [twice_rotate]

/-- **C40**: listing the polygon in the opposite orientation does not change its area. -/
theorem C40_reverse (p : List (K × K)) : area p.reverse = area p := by
  unfold area
  rw [twice_reverse, neg_div, abs_neg]

omit [IsStrictOrderedRing K] in
/-- **C40**: cutting the polygon `a, …, b, …` along the chord from `a` to `b` splits its signed area. -/
theorem C40_cut (a b : K × K) (l r : List (K × K)) :
    twice (a :: l ++ b :: r) / 2 = twice (a :: l ++ [b]) / 2 + twice (b :: r ++ [a]) / 2 := by
  rw [List.cons_append, List.cons_append, List.cons_append, twice_cons, twice_cons, twice_cons]
  have h1 : l ++ b :: r ++ [a] = l ++ b :: (r ++ [a]) := by simp
  have h2 : l ++ [b] ++ [a] = l ++ b :: [a] := by simp
  have h3 : r ++ [a] ++ [b] = r ++ a :: [b] := by simp
  rw [h1, h2, h3, sumFrom_append a l b, sumFrom_append a l b [a], sumFrom_append b r a [b]]
  simp only [sumFrom]
  rw [cross_swap b a]
  ring

omit [IsStrictOrderedRing K] in
/-- **C40**: a triangle has half the area of the parallelogram spanned by two of its sides. -/
theorem C40_triangle (a b c : K × K) :
    area [a, b, c] = |((b.1 - a.1) * (c.2 - a.2) - (b.2 - a.2) * (c.1 - a.1)) / 2| := by
  unfold area
  congr 2
  simp [twice, sumFrom, cross]
  ring

/-- **C40**: the area of a rectangle is width times height. -/
theorem C40_rectangle (x y w h : K) (hw : 0 ≤ w) (hh : 0 ≤ h) :
    area [(x, y), (x + w, y), (x + w, y + h), (x, y + h)] = w * h := by
  unfold area
  have : twice [(x, y), (x + w, y), (x + w, y + h), (x, y + h)] / 2 = w * h := by
    have h2 : (2 : K) ≠ 0 := two_ne_zero
    rw [div_eq_iff h2]
    simp [twice, sumFrom, cross]
    ring
  rw [this, abs_of_nonneg (mul_nonneg hw hh)]

end Claims

/-! ### Concrete cells -/

/-- a pentagon next to a triangle: the triangle is padded, and its area is that of the triangle -/
def polys : Fin 2 → List (ℚ × ℚ) :=
  ![[(0, 0), (2, 0), (2, 1), (1, 2), (0, 1)], [(2, 0), (4, 0), (2, 3)]]

example : shoelace polys 0 = 3 ∧ shoelace polys 1 = 3 := by
  constructor
  · rw [C40_patch]; norm_num [area, twice, sumFrom, cross, polys]
  · rw [C40_patch]; norm_num [area, twice, sumFrom, cross, polys]
example : (patch 5 (polys 1)).length = 5 := rfl

end Dany.Geom
