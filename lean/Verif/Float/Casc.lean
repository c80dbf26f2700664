import Verif.Float.Nan
import Verif.Casc.Rows

/-!
# Property C156: cascade fractions in double precision

`_build_many_to_many_cascades` (stream_util.py:1256-1342) with every sum and quotient rounded to the nearest
`float64`.  The slopes are arbitrary `float64` numbers (what `_calculate_slopes` returns); overflow is not
modelled.  `np.sum` may add in any order and grouping (`SumOK`).
-/

namespace Dany.Float

open Casc Flow Reach

variable {N : ℕ}

/-- the constant `0.01` (stream_util.py:1333) -/
def hundredth : ℚ := rnd64 (1 / 100)

/-- the links of a landscape cell (stream_util.py:1317-1340): `hru_pcts` is computed twice, the second time
from the links kept.  Where the sum of the slopes is 0, NumPy gives NaN fractions, which are not
`> 0.01`; here a quotient by 0 is 0, which is not either. -/
def landLinksF (sum : List ℚ → ℚ) (fd : Fin N → ℤ) (nbs : List (Fin N × Option ℚ)) (n : Fin N) :
    List (ℤ × ℤ × ℚ) :=
  let conns := (candidates nbs).filter (fun e => fd e.1 ≠ 0)
  let total := sum (conns.map fun e => |e.2|)
  let kept := conns.filter (fun e => hundredth < rnd64 (|e.2| / total))
  let total' := sum (kept.map fun e => |e.2|)
  kept.map (fun e : Fin N × ℚ => (((n : ℕ) : ℤ), ((e.1 : ℕ) : ℤ), rnd64 (|e.2| / total')))

/-- one iteration of the loop of `_build_many_to_many_cascades` (stream_util.py:1300-1340), with the links
of a landscape cell as a parameter -/
def manyLinksWith {K : Type*} [One K] (land : (Fin N → ℤ) → List (Fin N × Option K) → Fin N → List (ℤ × ℤ × K))
    (fd sa : Fin N → ℤ) (nbs : Fin N → List (Fin N × Option K)) (n : Fin N) : Res (List (ℤ × ℤ × K)) :=
  if fd n = -9 then .ok []
  else if sa n > 0 then (pyIndex N (fd n)).bind fun j =>
    .ok [(((n : ℕ) : ℤ), if fd j = -9 then ((n : ℕ) : ℤ) else fd n, 1)]
  else .ok (land fd (nbs n) n)

/-- `_build_many_to_many_cascades` (stream_util.py:1256-1342) in double precision -/
def manyToManyF (sum : List ℚ → ℚ) (fdir : Fin N → ℤ) (active : Fin N → Bool) (sa : Fin N → ℤ)
    (nbs : Fin N → List (Fin N × Option ℚ)) : Res (List (ℤ × ℤ × ℚ)) :=
  collect (manyLinksWith (landLinksF sum) (masked fdir active) sa nbs) (List.finRange N)

/-- with the exact links this is the function of `Casc` -/
theorem manyLinksWith_exact (fd sa : Fin N → ℤ) (nbs : Fin N → List (Fin N × Option ℚ)) (n : Fin N) :
    manyLinksWith landLinks fd sa nbs n = manyLinks fd sa nbs n := rfl

/-! ### sums of non-negative numbers -/

/-- the rounded sum of non-negative numbers has a small relative error, and is not less than any of them -/
theorem sums_rel {l : List ℚ} {s : ℚ} (h : Sums rnd64 l s) (hl : ∀ x ∈ l, x ∈ Double ∧ 0 ≤ x) :
    s ∈ Double ∧ 1 ≤ l.length ∧ (1 - u53) ^ (l.length - 1) * l.sum ≤ s ∧
      s ≤ (1 + u53) ^ (l.length - 1) * l.sum ∧ ∀ x ∈ l, x ≤ s := by
  have hu : (0 : ℚ) ≤ u53 := by norm_num [u53]
  have hu1 : u53 ≤ 1 := by norm_num [u53]
  induction h with
  | one x => refine ⟨(hl x (by simp)).1, le_refl _, by simp, by simp, by simp⟩
  | perm h hp ih =>
    obtain ⟨h1, h2, h3, h4, h5⟩ := ih (fun x hx => hl x (hp.subset hx))
    rw [hp.length_eq] at h2 h3 h4
    rw [hp.sum_eq] at h3 h4
    exact ⟨h1, h2, h3, h4, fun x hx => h5 x (hp.symm.subset hx)⟩
  | @add l l' a b ha hb iha ihb =>
    obtain ⟨a1, a2, a3, a4, a5⟩ := iha fun x hx => hl x (List.mem_append_left _ hx)
    obtain ⟨b1, b2, b3, b4, b5⟩ := ihb fun x hx => hl x (List.mem_append_right _ hx)
    have sa : 0 ≤ l.sum := List.sum_nonneg fun x hx => (hl x (List.mem_append_left _ hx)).2
    have sb : 0 ≤ l'.sum := List.sum_nonneg fun x hx => (hl x (List.mem_append_right _ hx)).2
    have a0 : 0 ≤ a := le_trans (mul_nonneg (pow_nonneg (by linarith) _) (by assumption)) a3
    have b0 : 0 ≤ b := le_trans (mul_nonneg (pow_nonneg (by linarith) _) (by assumption)) b3
    have herr : |rnd64 (a + b) - (a + b)| ≤ |a + b| / 2 ^ 53 := add_err (by norm_num) rnd64_nearest a1 b1
    rw [abs_of_nonneg (add_nonneg a0 b0), show (a + b) / 2 ^ 53 = u53 * (a + b) by rw [u53]; ring,
      abs_le] at herr
    have e1 : l.length + l'.length - 1 = (l.length + l'.length - 2) + 1 := by omega
    rw [List.length_append, List.sum_append]
    refine ⟨rnd64_nearest.mem _, by omega, ?_, ?_, ?_⟩
    · have pa : (1 - u53) ^ (l.length + l'.length - 2) ≤ (1 - u53) ^ (l.length - 1) :=
        pow_le_pow_of_le_one (by linarith) (by linarith) (by omega)
      have pb : (1 - u53) ^ (l.length + l'.length - 2) ≤ (1 - u53) ^ (l'.length - 1) :=
        pow_le_pow_of_le_one (by linarith) (by linarith) (by omega)
      set P := (1 - u53) ^ (l.length + l'.length - 2)
      have q : P * (l.sum + l'.sum) ≤ a + b := by
        have := (mul_le_mul_of_nonneg_right pa sa).trans a3
        have := (mul_le_mul_of_nonneg_right pb sb).trans b3
        linarith
      rw [e1, pow_succ]
      have := mul_le_mul_of_nonneg_left q (show (0 : ℚ) ≤ 1 - u53 by linarith)
      nlinarith [herr.1]
    · have pa : (1 + u53) ^ (l.length - 1) ≤ (1 + u53) ^ (l.length + l'.length - 2) :=
        pow_le_pow_right₀ (by linarith) (by omega)
      have pb : (1 + u53) ^ (l'.length - 1) ≤ (1 + u53) ^ (l.length + l'.length - 2) :=
        pow_le_pow_right₀ (by linarith) (by omega)
      set P := (1 + u53) ^ (l.length + l'.length - 2)
      have q : a + b ≤ P * (l.sum + l'.sum) := by
        have := a4.trans (mul_le_mul_of_nonneg_right pa sa)
        have := b4.trans (mul_le_mul_of_nonneg_right pb sb)
        linarith
      rw [e1, pow_succ]
      have := mul_le_mul_of_nonneg_left q (show (0 : ℚ) ≤ 1 + u53 by linarith)
      nlinarith [herr.2]
    · intro x hx
      rcases List.mem_append.1 hx with hx | hx
      · exact (a5 x hx).trans (rnd64_nearest.ge_of_ge a1 (by linarith))
      · exact (b5 x hx).trans (rnd64_nearest.ge_of_ge b1 (by linarith))

/-! ### the links of one cell -/

/-- the links of cell `n` -/
def manySpecF (sum : List ℚ → ℚ) (fdir : Fin N → ℤ) (d : Fin N → Fin N) (active : Fin N → Bool) (sa : Fin N → ℤ)
    (nbs : Fin N → List (Fin N × Option ℚ)) (n : Fin N) : List (ℤ × ℤ × ℚ) :=
  if active n = false then []
  else if sa n > 0 then [(((n : ℕ) : ℤ), if active (d n) = false then ((n : ℕ) : ℤ) else fdir n, 1)]
  else landLinksF sum (masked fdir active) (nbs n) n

section

variable {sum : List ℚ → ℚ} {fdir sa : Fin N → ℤ} {d : Fin N → Fin N} {active : Fin N → Bool}
variable {nbs : Fin N → List (Fin N × Option ℚ)} {links : List (ℤ × ℤ × ℚ)}

theorem manyToManyF_ok (hd : Resolves fdir d) (h9 : ∀ n, fdir n ≠ -9) :
    manyToManyF sum fdir active sa nbs = .ok ((List.finRange N).flatMap (manySpecF sum fdir d active sa nbs)) := by
  unfold manyToManyF
  apply collect_ok
  intro n _
  unfold manyLinksWith manySpecF
  by_cases ha : active n = false
  · rw [if_pos ((masked_eq h9).2 ha), if_pos ha]
  · rw [if_neg (fun h => ha ((masked_eq h9).1 h)), if_neg ha]
    by_cases hs : sa n > 0
    · rw [if_pos hs, if_pos hs, masked_active (by simpa using ha), hd.pyIndex]
      simp only [Res.bind_ok, masked_eq h9]
    · rw [if_neg hs, if_neg hs]

theorem manySpecF_up {n : Fin N} {l : ℤ × ℤ × ℚ} (h : l ∈ manySpecF sum fdir d active sa nbs n) :
    l.1 = ((n : ℕ) : ℤ) := by
  unfold manySpecF at h
  split at h
  · cases h
  · split at h
    · rw [List.mem_singleton] at h; rw [h]
    · obtain ⟨e, _, rfl⟩ := List.mem_map.1 h; rfl

theorem linksF_of (hd : Resolves fdir d) (h9 : ∀ n, fdir n ≠ -9)
    (h : manyToManyF sum fdir active sa nbs = .ok links) (n : Fin N) :
    links.filter (fun l => l.1 = ((n : ℕ) : ℤ)) = manySpecF sum fdir d active sa nbs n := by
  rw [manyToManyF_ok hd h9] at h
  cases h
  have key : ∀ l : List (Fin N), l.Nodup →
      (l.flatMap (manySpecF sum fdir d active sa nbs)).filter (fun x => x.1 = ((n : ℕ) : ℤ)) =
        if n ∈ l then manySpecF sum fdir d active sa nbs n else [] := by
    intro l
    induction l with
    | nil => intro _; rfl
    | cons a l ih =>
      intro hl
      rw [List.nodup_cons] at hl
      rw [List.flatMap_cons, List.filter_append, ih hl.2]
      by_cases ha : a = n
      · subst ha
        rw [if_neg hl.1, if_pos (by simp), List.append_nil, List.filter_eq_self]
        intro x hx
        simpa using manySpecF_up hx
      · have : (manySpecF sum fdir d active sa nbs a).filter (fun x => x.1 = ((n : ℕ) : ℤ)) = [] := by
          rw [List.filter_eq_nil_iff]
          intro x hx hc
          rw [decide_eq_true_eq, manySpecF_up hx] at hc
          exact ha (Fin.ext (by omega))
        rw [this, List.nil_append]
        simp [Ne.symm ha]
  rw [key _ (List.nodup_finRange N), if_pos (List.mem_finRange n)]

/-- some member is not below the average -/
theorem exists_ge_avg : ∀ {l : List ℚ}, l ≠ [] → ∃ x ∈ l, l.sum ≤ l.length * x
  | [], h => absurd rfl h
  | [a], _ => ⟨a, by simp, by simp⟩
  | a :: b :: l, _ => by
    obtain ⟨x, hx, h⟩ := exists_ge_avg (l := b :: l) (by simp)
    rcases le_total x a with hle | hle
    · refine ⟨a, by simp, ?_⟩
      rw [List.sum_cons, List.length_cons]
      push_cast
      have : ((b :: l).length : ℚ) * x ≤ (b :: l).length * a :=
        mul_le_mul_of_nonneg_left hle (by positivity)
      linarith
    · refine ⟨x, List.mem_cons_of_mem _ hx, ?_⟩
      rw [List.sum_cons, List.length_cons]
      push_cast
      linarith

theorem pow_hi : (1 + u53) ^ 98 ≤ 1 + 1 / 10 ^ 6 := by norm_num [u53]
theorem pow_lo : 1 - 1 / 10 ^ 6 ≤ (1 - u53) ^ 98 := by norm_num [u53]
theorem hundredth_bounds : (999 : ℚ) / 100000 < hundredth ∧ hundredth < 1001 / 100000 := by decide +kernel
theorem hundredth_mem : hundredth ∈ Double := rnd64_nearest.mem _

/-- the sum of fewer than 100 non-negative numbers -/
theorem sum_close (hs : SumOK rnd64 sum) {l : List ℚ} (hne : l ≠ []) (hlen : l.length < 100)
    (hl : ∀ x ∈ l, x ∈ Double ∧ 0 ≤ x) :
    (1 - 1 / 10 ^ 6) * l.sum ≤ sum l ∧ sum l ≤ (1 + 1 / 10 ^ 6) * l.sum ∧
      (1 - (l.length - 1) * u53) * l.sum ≤ sum l ∧ (1 - (l.length - 1) * u53) * sum l ≤ l.sum ∧
      (∀ x ∈ l, x ≤ sum l) ∧ sum l ∈ Double := by
  obtain ⟨h1, h2, h3, h4, h5⟩ := sums_rel (hs l hne) hl
  have hu : (0 : ℚ) ≤ u53 := by norm_num [u53]
  have hu1 : u53 ≤ 1 := by norm_num [u53]
  have h0 : 0 ≤ l.sum := List.sum_nonneg fun x hx => (hl x hx).2
  have plo : (1 - u53) ^ 98 ≤ (1 - u53) ^ (l.length - 1) :=
    pow_le_pow_of_le_one (by linarith) (by linarith) (by omega)
  have phi : (1 + u53) ^ (l.length - 1) ≤ (1 + u53) ^ 98 := pow_le_pow_right₀ (by linarith) (by omega)
  have hcast : (((l.length - 1 : ℕ) : ℚ)) = l.length - 1 := by
    rw [Nat.cast_sub h2]; norm_num
  have hb : 1 - (l.length - 1) * u53 ≤ (1 - u53) ^ (l.length - 1) := by
    have := one_add_mul_le_pow (a := -u53) (by linarith) (l.length - 1)
    rw [hcast] at this
    rw [show 1 + -u53 = 1 - u53 by ring] at this
    linarith
  refine ⟨(mul_le_mul_of_nonneg_right (pow_lo.trans plo) h0).trans h3,
    h4.trans (mul_le_mul_of_nonneg_right (phi.trans pow_hi) h0),
    (mul_le_mul_of_nonneg_right hb h0).trans h3, ?_, h5, h1⟩
  have hs0 : 0 ≤ sum l := le_trans (mul_nonneg (pow_nonneg (by linarith) _) h0) h3
  have hb0 : (0 : ℚ) ≤ (1 - u53) ^ (l.length - 1) := pow_nonneg (by linarith) _
  calc (1 - (l.length - 1) * u53) * sum l ≤ (1 - u53) ^ (l.length - 1) * sum l :=
        mul_le_mul_of_nonneg_right hb hs0
    _ ≤ (1 - u53) ^ (l.length - 1) * ((1 + u53) ^ (l.length - 1) * l.sum) := mul_le_mul_of_nonneg_left h4 hb0
    _ = (1 - u53 ^ 2) ^ (l.length - 1) * l.sum := by rw [← mul_assoc, ← mul_pow]; congr 2; ring
    _ ≤ 1 * l.sum := mul_le_mul_of_nonneg_right (pow_le_one₀ (by nlinarith) (by nlinarith)) h0
    _ = l.sum := one_mul _

/-- relative error of a quotient that is not tiny -/
theorem rnd_rel {q : ℚ} (hq : 1 / 200 ≤ q) : (1 - u53) * q ≤ rnd64 q ∧ rnd64 q ≤ (1 + u53) * q := by
  have h0 : (0 : ℚ) < q := lt_of_lt_of_le (by norm_num) hq
  have h := rel_err (p := 53) (emin := -1022) (by norm_num) rnd64_nearest (x := q) (by
    rw [abs_of_pos h0]
    exact le_trans (le_trans (zpow_le_zpow_right₀ (by norm_num) (by norm_num : (-1022 : ℤ) ≤ -8)) (by norm_num)) hq)
  rw [abs_of_pos h0, abs_le] at h
  have : q / 2 ^ 53 = u53 * q := by rw [u53]; ring
  rw [this] at h
  constructor <;> linarith [h.1, h.2]

/-- arithmetic: a sum of rounded shares -/
theorem near_one {u k Q S : ℚ} (hu : 0 ≤ u) (hu2 : 100 * u ≤ 1 / 1000) (hk1 : 1 ≤ k) (hk2 : k ≤ 99)
    (q1 : 1 - (k - 1) * u ≤ Q) (q2 : (1 - (k - 1) * u) * Q ≤ 1) (b1 : (1 - u) * Q ≤ S)
    (b2 : S ≤ (1 + u) * Q) : |S - 1| ≤ (k + 1) * u := by
  have hku0 : 0 ≤ (k - 1) * u := mul_nonneg (by linarith) hu
  have hku : (k - 1) * u ≤ 98 * u := mul_le_mul_of_nonneg_right (by linarith) hu
  rw [abs_le]
  constructor
  · have h1 : (1 - u) * (1 - (k - 1) * u) ≤ (1 - u) * Q := mul_le_mul_of_nonneg_left q1 (by linarith)
    have h2 : 0 ≤ u * ((k - 1) * u) := mul_nonneg hu hku0
    linarith
  · have hden : 0 < 1 - (k - 1) * u := by linarith
    have h1 : Q ≤ 1 / (1 - (k - 1) * u) := by rw [le_div_iff₀ hden]; linarith
    have h2 : (1 + u) * Q ≤ (1 + u) * (1 / (1 - (k - 1) * u)) := mul_le_mul_of_nonneg_left h1 (by linarith)
    have h3 : (1 + u) * (1 / (1 - (k - 1) * u)) ≤ 1 + (k + 1) * u := by
      rw [mul_one_div, div_le_iff₀ hden]
      have h4 : (k + 1) * u * ((k - 1) * u) ≤ u := by
        have h5 : (k + 1) * ((k - 1) * u) ≤ 1 := by
          have : (k + 1) * ((k - 1) * u) ≤ 100 * (98 * u) := mul_le_mul (by linarith) hku hku0 (by norm_num)
          linarith
        have := mul_le_mul_of_nonneg_left h5 hu
        linarith
      linarith
    linarith

/-- **C156.**  In double precision, `_build_many_to_many_cascades` gives a landscape cell with a lower
neighbour (that is not excluded as in C63) and fewer than 100 candidates at least one link; every
fraction is a `float64` between 0.0098 and 1, a single link has the fraction 1 exactly, and the fractions
of `k` links add up to 1 but for at most `(k + 1)` times 2^-53. -/
theorem C156_fractions (hs : SumOK rnd64 sum) (hd : Resolves fdir d) (h9 : ∀ n, fdir n ≠ -9)
    (h : manyToManyF sum fdir active sa nbs = .ok links) {n : Fin N} (ha : active n = true)
    (hland : ¬ sa n > 0) (hdbl : ∀ c s, (c, some s) ∈ nbs n → s ∈ Double)
    (hlow : ∃ c s, (c, some s) ∈ nbs n ∧ s < 0 ∧ masked fdir active c ≠ 0)
    (hfew : (candidates (nbs n)).length < 100) {own : List (ℤ × ℤ × ℚ)}
    (hown : own = links.filter (fun l => l.1 = ((n : ℕ) : ℤ))) :
    own ≠ [] ∧ (∀ l ∈ own, l.2.2 ∈ Double ∧ 98 / 10000 < l.2.2 ∧ l.2.2 ≤ 1) ∧
      |(own.map (fun l => l.2.2)).sum - 1| ≤ (own.length + 1) / 2 ^ 53 ∧
      (own.length = 1 → ∀ l ∈ own, l.2.2 = 1) := by
  have hu : (0 : ℚ) ≤ u53 := by norm_num [u53]
  rw [linksF_of hd h9 h n] at hown
  have hspec : manySpecF sum fdir d active sa nbs n = landLinksF sum (masked fdir active) (nbs n) n := by
    unfold manySpecF
    rw [if_neg (by simp [ha]), if_neg hland]
  rw [hspec] at hown
  set conns := (candidates (nbs n)).filter (fun e => masked fdir active e.1 ≠ 0) with hconns
  set total := sum (conns.map fun e => |e.2|) with htotal
  set kept := conns.filter (fun e => hundredth < rnd64 (|e.2| / total)) with hkept
  set total' := sum (kept.map fun e => |e.2|) with htotal'
  have hown' : own = kept.map (fun e : Fin N × ℚ => (((n : ℕ) : ℤ), ((e.1 : ℕ) : ℤ), rnd64 (|e.2| / total'))) :=
    hown
  have hdb : ∀ x ∈ conns, |x.2| ∈ Double := by
    rintro ⟨c, s⟩ hx
    have hx' := (List.mem_filter.1 hx).1
    have := hdbl c s (mem_candidates.1 hx').1
    dsimp only
    rcases abs_choice s with e | e <;> rw [e]
    · exact this
    · exact neg_mem this
  obtain ⟨c, s, hc, hsn, hm⟩ := hlow
  have hin : (c, s) ∈ conns := by
    rw [hconns, List.mem_filter]
    exact ⟨mem_candidates.2 ⟨hc, hsn.le⟩, by simpa using hm⟩
  have hlen : conns.length < 100 := lt_of_le_of_lt (List.length_filter_le _ _) hfew
  -- the first sum
  have hC : conns.map (fun e => |e.2|) ≠ [] := by
    intro e
    rw [List.map_eq_nil_iff] at e
    rw [e] at hin; cases hin
  obtain ⟨t1, t2, -, -, t5, -⟩ := sum_close hs hC (by rwa [List.length_map]) (by
    intro x hx
    obtain ⟨e, he, rfl⟩ := List.mem_map.1 hx
    exact ⟨hdb e he, abs_nonneg _⟩)
  rw [← htotal] at t1 t2 t5
  have htpos : 0 < total := lt_of_lt_of_le (abs_pos.2 hsn.ne) (t5 _ (List.mem_map.2 ⟨_, hin, rfl⟩))
  set T := (conns.map fun e => |e.2|).sum with hT
  -- the largest slope is kept
  obtain ⟨m, hmem, havg⟩ := exists_ge_avg hC
  obtain ⟨e, he, rfl⟩ := List.mem_map.1 hmem
  have hek : e ∈ kept := by
    rw [hkept, List.mem_filter, decide_eq_true_eq]
    refine ⟨he, ?_⟩
    have hlq : ((conns.map fun e => |e.2|).length : ℚ) ≤ 99 := by
      rw [List.length_map]; exact_mod_cast Nat.le_of_lt_succ hlen
    have h99 : T ≤ 99 * |e.2| := havg.trans (mul_le_mul_of_nonneg_right hlq (abs_nonneg _))
    have hq : 101 / 10000 ≤ |e.2| / total := by
      rw [le_div_iff₀ htpos]
      nlinarith [abs_nonneg e.2]
    have := (rnd_rel (le_trans (by norm_num) hq)).1
    have h1 : (1 - u53) * (101 / 10000) ≤ (1 - u53) * (|e.2| / total) :=
      mul_le_mul_of_nonneg_left hq (by norm_num [u53])
    have h2 : (1001 : ℚ) / 100000 < (1 - u53) * (101 / 10000) := by norm_num [u53]
    linarith [hundredth_bounds.2]
  -- the second sum
  have hkc : ∀ x ∈ kept, x ∈ conns := fun x hx => (List.mem_filter.1 hx).1
  have hK : kept.map (fun e => |e.2|) ≠ [] := by
    intro e'
    rw [List.map_eq_nil_iff] at e'
    rw [e'] at hek; cases hek
  have hklen : kept.length < 100 := lt_of_le_of_lt (List.length_filter_le _ _) hlen
  obtain ⟨s1, s2, s3, s4, s5, s6⟩ := sum_close hs hK (by rwa [List.length_map]) (by
    intro x hx
    obtain ⟨e, he, rfl⟩ := List.mem_map.1 hx
    exact ⟨hdb e (hkc e he), abs_nonneg _⟩)
  rw [← htotal', List.length_map] at s3 s4
  rw [← htotal'] at s1 s2 s5 s6
  set T' := (kept.map fun e => |e.2|).sum with hT'
  have hTT : T' ≤ T := by
    refine List.Sublist.sum_le_sum (List.Sublist.map _ (List.filter_sublist)) ?_
    intro x hx
    obtain ⟨e, _, rfl⟩ := List.mem_map.1 hx
    exact abs_nonneg _
  have hbig : ∀ x ∈ kept, hundredth * total < |x.2| := by
    intro x hx
    rw [hkept, List.mem_filter, decide_eq_true_eq] at hx
    rw [← lt_div_iff₀ htpos]
    by_contra hcon
    exact absurd hx.2 (not_lt.2 (rnd64_nearest.le_of_le hundredth_mem (not_lt.1 hcon)))
  have htpos' : 0 < total' := by
    have h1 : 0 < |e.2| := lt_trans (mul_pos (by linarith [hundredth_bounds.1]) htpos) (hbig e hek)
    exact lt_of_lt_of_le h1 (s5 _ (List.mem_map.2 ⟨_, hek, rfl⟩))
  have hT'0 : 0 < T' := by
    by_contra hcon
    nlinarith
  have hq : ∀ x ∈ kept, 9985 / 1000000 ≤ |x.2| / total' := by
    intro x hx
    rw [le_div_iff₀ htpos']
    have h1 := hbig x hx
    have h2 : 999 / 100000 * total ≤ hundredth * total := mul_le_mul_of_nonneg_right hundredth_bounds.1.le htpos.le
    nlinarith
  have hone : ∀ x ∈ kept, |x.2| / total' ≤ 1 := by
    intro x hx
    rw [div_le_one htpos']
    exact s5 _ (List.mem_map.2 ⟨_, hx, rfl⟩)
  have one_mem : (1 : ℚ) ∈ Double := by
    have := mul_mem (p := 53) (emin := -1022) (k := 0) (m := 1) (by norm_num) (by norm_num) (by norm_num)
    simpa using this
  refine ⟨?_, ?_, ?_, ?_⟩
  · rw [hown']
    intro e'
    rw [List.map_eq_nil_iff] at e'
    rw [e'] at hek; cases hek
  · intro l hl
    rw [hown'] at hl
    obtain ⟨x, hx, rfl⟩ := List.mem_map.1 hl
    refine ⟨rnd64_nearest.mem _, ?_, rnd64_nearest.le_of_le one_mem (hone x hx)⟩
    have h1 := (rnd_rel (le_trans (by norm_num) (hq x hx))).1
    have h2 : (1 - u53) * (9985 / 1000000) ≤ (1 - u53) * (|x.2| / total') :=
      mul_le_mul_of_nonneg_left (hq x hx) (by norm_num [u53])
    have h3 : (98 : ℚ) / 10000 < (1 - u53) * (9985 / 1000000) := by norm_num [u53]
    show 98 / 10000 < rnd64 (|x.2| / total')
    linarith
  · have hsum : (own.map (fun l => l.2.2)) = kept.map (fun e => rnd64 (|e.2| / total')) := by
      rw [hown', List.map_map]; rfl
    have hl1 : own.length = kept.length := by rw [hown', List.length_map]
    have bounds : ∀ l : List (Fin N × ℚ), (∀ x ∈ l, x ∈ kept) →
        (1 - u53) * ((l.map fun e => |e.2|).sum / total') ≤ (l.map (fun e => rnd64 (|e.2| / total'))).sum ∧
        (l.map (fun e => rnd64 (|e.2| / total'))).sum ≤ (1 + u53) * ((l.map fun e => |e.2|).sum / total') := by
      intro l
      induction l with
      | nil => intro _; simp
      | cons a l ih =>
        intro hl
        obtain ⟨i1, i2⟩ := ih fun x hx => hl x (List.mem_cons_of_mem _ hx)
        obtain ⟨r1, r2⟩ := rnd_rel (le_trans (by norm_num) (hq a (hl a (by simp))))
        simp only [List.map_cons, List.sum_cons, add_div, mul_add]
        exact ⟨add_le_add r1 i1, add_le_add r2 i2⟩
    obtain ⟨b1, b2⟩ := bounds kept fun _ h => h
    rw [← hT'] at b1 b2
    rw [hsum, hl1]
    set k : ℚ := (kept.length : ℚ) with hk
    have hk1 : 1 ≤ k := by
      have : 0 < kept.length := List.length_pos_of_mem hek
      rw [hk]; exact_mod_cast this
    have hk2 : k ≤ 99 := by rw [hk]; exact_mod_cast Nat.le_of_lt_succ hklen
    have q1 : 1 - (k - 1) * u53 ≤ T' / total' := by rw [le_div_iff₀ htpos']; exact s4
    have q2 : (1 - (k - 1) * u53) * (T' / total') ≤ 1 := by
      rw [← mul_div_assoc, div_le_one htpos']; exact s3
    set Q := T' / total'
    have hkey : (k + 1) / 2 ^ 53 = (k + 1) * u53 := by rw [u53]; ring
    rw [hkey]
    exact near_one hu (by norm_num [u53]) hk1 hk2 q1 q2 b1 b2
  · intro hl1 l hl
    have hl1' : kept.length = 1 := by rw [← hl1, hown', List.length_map]
    obtain ⟨x, hx⟩ := List.length_eq_one_iff.1 hl1'
    rw [hown', hx] at hl
    rw [List.map_singleton, List.mem_singleton] at hl
    rw [hl]
    have ht1 : total' = |x.2| := by
      apply le_antisymm
      · have := (sums_rel (hs _ hK) (by
          intro y hy
          obtain ⟨e, he, rfl⟩ := List.mem_map.1 hy
          exact ⟨hdb e (hkc e he), abs_nonneg _⟩)).2.2.2.1
        rw [hx] at this
        simpa [htotal', hx] using this
      · exact s5 _ (by rw [hx]; simp)
    show rnd64 (|x.2| / total') = 1
    rw [ht1, div_self (by rw [← ht1]; exact htpos'.ne')]
    exact rnd64_nearest.exact one_mem

/-- **C156.**  The call returns if the directions are cell numbers (C21). -/
theorem C156_returns (hd : Resolves fdir d) (h9 : ∀ n, fdir n ≠ -9) :
    ∃ links, manyToManyF sum fdir active sa nbs = .ok links := ⟨_, manyToManyF_ok hd h9⟩

/-- `get_cascades` with `many2many=True` (stream_util.py:1124-1200) in double precision; the rows are made as in
`Casc.getCascades` -/
def getCascadesF (sum : List ℚ → ℚ) (limit : ℕ) (nbs : Fin N → List (Fin N × Option ℚ)) (o : Obj N)
    (arg : Option (Fin N → ℤ)) (active : Fin N → Bool) : Res (Obj N × List (Row ℚ)) :=
  (cascadeStreams limit o arg).bind fun r =>
    (manyToManyF sum o.fdir active r.2 nbs).bind fun links =>
      (finishRows r.2 links).map fun rows => (r.1, rows)

/-- **C156** on the rows of `get_cascades` with `many2many=True`: an active landscape cell with fewer than 100
neighbours, one of which is strictly lower and lies outside the boundary or does not flow into cell 0, has at least
one row; every fraction is a `float64` between 0.0098 and 1, a single row has the fraction 1 exactly, and the
fractions of `k` rows add up to 1 but for at most `(k + 1)` times 2^-53. -/
theorem C156_rows {o o' : Obj N} {arg : Option (Fin N → ℤ)} {limit : ℕ} {rows : List (Row ℚ)}
    (hs : SumOK rnd64 sum) (hd : Resolves o.fdir d) (h9 : ∀ n, o.fdir n ≠ -9) (hg : Given o arg sa)
    (h : getCascadesF sum limit nbs o arg active = .ok (o', rows)) {n : Fin N} (ha : active n = true)
    (hland : sa n = 0) (hdbl : ∀ c s, (c, some s) ∈ nbs n → s ∈ Double)
    (hlow : ∃ c s, (c, some s) ∈ nbs n ∧ s < 0 ∧ Drains o.fdir active c) (hfew : (nbs n).length < 100) :
    rowsOf rows n ≠ [] ∧ (∀ r ∈ rowsOf rows n, r.pct ∈ Double ∧ 98 / 10000 < r.pct ∧ r.pct ≤ 1) ∧
      |((rowsOf rows n).map Row.pct).sum - 1| ≤ ((rowsOf rows n).length + 1) / 2 ^ 53 ∧
      ((rowsOf rows n).length = 1 → ∀ r ∈ rowsOf rows n, r.pct = 1) := by
  unfold getCascadesF at h
  obtain ⟨⟨o1, sa'⟩, h1, h⟩ := Res.bind_eq_ok.1 h
  obtain ⟨links, h2, h⟩ := Res.bind_eq_ok.1 h
  obtain ⟨rs, h3, he⟩ := Res.map_eq_ok.1 h
  simp only [Prod.mk.injEq] at he
  obtain ⟨rfl, rfl⟩ := he
  have hz := (given_sign hd hg h1 n).1 hland
  obtain ⟨c, s, hc, hsn, hm⟩ := hlow
  obtain ⟨k1, k2, k3, k4⟩ := C156_fractions hs hd h9 h2 ha (by dsimp only; omega) hdbl
    ⟨c, s, hc, hsn, drains_iff.2 hm⟩ (few_candidates hfew) rfl
  have hp := rowsOf_pct h3 n
  have hlen : (rowsOf rs n).length = (links.filter (fun l => l.1 = ((n : ℕ) : ℤ))).length := by
    have := congrArg List.length hp
    simpa using this
  have hback : ∀ r ∈ rowsOf rs n, ∃ l ∈ links.filter (fun l => l.1 = ((n : ℕ) : ℤ)), l.2.2 = r.pct := by
    intro r hr
    have : r.pct ∈ (rowsOf rs n).map Row.pct := List.mem_map.2 ⟨r, hr, rfl⟩
    rw [hp] at this
    exact List.mem_map.1 this
  refine ⟨fun e => k1 ?_, fun r hr => ?_, by rw [hp, hlen]; exact k3, fun h1 r hr => ?_⟩
  · rw [e] at hlen
    exact List.eq_nil_of_length_eq_zero hlen.symm
  · obtain ⟨l, hl, e⟩ := hback r hr
    rw [← e]; exact k2 l hl
  · obtain ⟨l, hl, e⟩ := hback r hr
    rw [← e]; exact k4 (by omega) l hl

end

/-- non-vacuity: cells 3 and 1 lie below cell 2, with slopes 1 and 2.  Where cell 3 drains into cell 0 it is left
out (C63); otherwise the two fractions are the `float64` numbers nearest to 1/3 and 2/3. -/
def exSlopes : Fin 4 → List (Fin 4 × Option ℚ) :=
  ![[(2, some 1), (3, some 1)], [(2, some 2), (3, some (-1))], [(3, some (-1)), (1, some (-2)), (0, none)],
    [(0, some (-1)), (1, some 1)]]
example : (manyToManyF (sumSeq rnd64) ![3, 3, 1, 0] (fun _ => true) ![1, 0, 0, 0] exSlopes).map
    (fun l => l.filter (fun x => x.1 = 2)) = .ok [(2, 1, 1)] := by decide +kernel
example : (manyToManyF (sumSeq rnd64) ![3, 3, 1, 1] (fun _ => true) ![1, 0, 0, 0] exSlopes).map
    (fun l => l.filter (fun x => x.1 = 2)) = .ok [(2, 3, rnd64 (1 / 3)), (2, 1, rnd64 (2 / 3))] := by
  decide +kernel
example : (2 : ℚ) ∈ Double ∧ (candidates (exSlopes 2)).length < 100 ∧
    ∃ c s, (c, some s) ∈ exSlopes 2 ∧ s < 0 ∧ masked ![3, 3, 1, 1] (fun _ => true) c ≠ 0 :=
  ⟨⟨2, 0, by norm_num, by norm_num, by norm_num⟩, by decide +kernel, 1, -2, by decide +kernel, by norm_num,
    by decide +kernel⟩

-- the same at the level of `get_cascades`: two fractions, of cell 2
def exObjF : Obj 4 := ⟨![3, 3, 1, 1], some ![1, 0, 0, 0], none⟩
theorem exRunF : (getCascadesF (sumSeq rnd64) 9 exSlopes exObjF none (fun _ => true)).map
    (fun r => rowsOf r.2 (2 : Fin 4)) = .ok [⟨3, 4, rnd64 (1 / 3), 0⟩, ⟨3, 2, rnd64 (2 / 3), 0⟩] := by
  decide +kernel
example : ∃ o' rows, getCascadesF (sumSeq rnd64) 9 exSlopes exObjF none (fun _ => true) = .ok (o', rows) ∧
    |((rowsOf rows (2 : Fin 4)).map Row.pct).sum - 1| ≤ ((rowsOf rows (2 : Fin 4)).length + 1) / 2 ^ 53 := by
  obtain ⟨⟨o', rows⟩, h, _⟩ := Res.map_eq_ok.1 exRunF
  refine ⟨o', rows, h, (C156_rows (d := ![3, 3, 1, 1]) (sa := ![1, 0, 0, 0]) (n := 2) (sumSeq_ok _) ?_ (by decide)
    (.inr ⟨rfl, rfl⟩) h rfl rfl ?_ ⟨1, -2, by decide, by norm_num, .inr (by decide)⟩ (by decide)).2.2.1⟩
  · intro n; fin_cases n <;> decide
  · intro c s hc
    have hc' : (c, some s) ∈ [((3 : Fin 4), some (-1 : ℚ)), (1, some (-2)), (0, none)] := hc
    simp only [List.mem_cons, Prod.mk.injEq, Option.some.injEq, reduceCtorEq, and_false, List.not_mem_nil,
      or_false] at hc'
    rcases hc' with ⟨_, rfl⟩ | ⟨_, rfl⟩
    · exact ⟨-1, 0, by norm_num, by norm_num, by norm_num⟩
    · exact ⟨-2, 0, by norm_num, by norm_num, by norm_num⟩

end Dany.Float
