import Verif.Float.Slopes
import Verif.Acc.Props
import Verif.Delin.Props
import Mathlib.Algebra.Order.Ring.Pow

/-!
# `flow_accumulation` in `float64` (C114, C115)

`flow_acc` is `np.ones(...)` and `flow_acc_area` a copy of the cell areas (flow_directions.py:449-450), both
`float64`; every `+=` rounds.
-/

namespace Dany.Float

open Function Flow Acc

variable {N : ℕ}

/-- the sum of two array elements, as it is stored (flow_directions.py:460-461) -/
instance (d : Fmt) : Add d.Num := ⟨fun x y => d.store (x.val + y.val)⟩
instance (d : Fmt) : Zero d.Num := ⟨d.store 0⟩
instance (d : Fmt) : One d.Num := ⟨d.store 1⟩

theorem add_val {d : Fmt} (x y : d.Num) : (x + y).val = rnd d.p d.emin (x.val + y.val) := rfl

theorem zero_val (d : Fmt) : (0 : d.Num).val = 0 := d.nearest.exact (zero_mem _ _)

theorem one_val : (1 : double.Num).val = 1 := by decide +kernel

theorem add_zero' {d : Fmt} (x : d.Num) : x + 0 = x := by
  apply Subtype.ext
  rw [add_val, zero_val, add_zero]
  exact d.nearest.exact x.2

/-- A sum of two numbers of the format errs by half a unit in the last place at most, also when it is tiny. -/
theorem add_err {p : ℕ} (hp : 1 ≤ p) {emin : ℤ} {r : ℚ → ℚ} (h : Nearest (Format p emin) r) {x y : ℚ}
    (hx : x ∈ Format p emin) (hy : y ∈ Format p emin) : |r (x + y) - (x + y)| ≤ |x + y| / 2 ^ p := by
  rcases le_or_gt (2 ^ emin) |x + y| with hc | hc
  · exact rel_err hp h hc
  · obtain ⟨k, hk⟩ := mul_of_ge hx (.inr (le_refl emin))
    obtain ⟨l, hl⟩ := mul_of_ge hy (.inr (le_refl emin))
    have e : x + y = ((k + l : ℤ) : ℚ) * 2 ^ (emin - (p - 1)) := by rw [hk, hl]; push_cast; ring
    have hm : x + y ∈ Format p emin := by
      rw [e]
      refine mul_mem hp (le_refl _) ?_
      rw [e, abs_mul, abs_of_pos (zpow_pos' _)] at hc
      have h2 : (2 : ℚ) ^ emin = 2 ^ (p - 1) * 2 ^ (emin - (p - 1)) := by
        rw [← zpow_natCast, ← zpow_add₀ (by norm_num)]; congr 1; omega
      rw [h2] at hc
      have h3 := lt_of_mul_lt_mul_right hc (zpow_pos' _).le
      have h4 : |k + l| < 2 ^ (p - 1) := by exact_mod_cast h3
      exact h4.le.trans (pow_le_pow_right₀ (by norm_num) (by omega))
    rw [h.exact hm, sub_self, abs_zero]
    positivity

/-! ### the order of the sum -/

/-- What relates the weights, and is kept by addition, relates the accumulated values. -/
theorem rel_ind {K : Type*} [Add K] {w out : Fin N → K} {d : Fin N → Fin N} {R : Finset (Fin N)}
    {ls : Fin N → List (Fin N)} (hF : Final' d w out R ls) {A B : Type*} [Add A] [Add B]
    (Rel : A → B → K → Prop) {wa sa : Fin N → A} {wb sb : Fin N → B} (hbase : ∀ n, Rel (wa n) (wb n) (w n))
    (hstep : ∀ a b x a' b' x', Rel a b x → Rel a' b' x' → Rel (a + a') (b + b') (x + x'))
    (ha : ∀ m, sa m = Acc.val wa ls sa m) (hb : ∀ m, sb m = Acc.val wb ls sb m) :
    ∀ n, ¬ OnCycle d n → Rel (sa n) (sb n) (out n) := by
  have key : ∀ (k : ℕ) (n : Fin N), (upstream d n).card ≤ k → ¬ OnCycle d n → Rel (sa n) (sb n) (out n) := by
    intro k
    induction k with
    | zero =>
      intro n hk
      have := Finset.card_pos.2 ⟨n, mem_upstream.2 (Reaches.refl (d := d) n)⟩
      omega
    | succ k ih =>
      intro n hk hc
      have hl : ∀ u ∈ ls n, Rel (sa u) (sb u) (out u) := by
        intro u hu
        obtain ⟨h1, h2⟩ := (hF.mem n u).1 hu
        obtain ⟨h3, h4⟩ := hF.nocyc u h1
        have hr : Reaches d u n := h2 ▸ Reaches.step u
        have := Finset.card_lt_card (upstream_ssubset hc hr (fun h => h4 (by rw [h2, h])))
        exact ih u (by omega) h3
      rw [hF.val n, ha n, hb n]
      unfold Acc.val
      have hbn := hbase n
      generalize wa n = a0 at hbn ⊢
      generalize wb n = b0 at hbn ⊢
      generalize w n = x0 at hbn ⊢
      revert hl
      generalize ls n = l
      intro hl
      induction l generalizing a0 b0 x0 with
      | nil => exact hbn
      | cons u l ihl =>
        rw [List.foldl_cons, List.foldl_cons, List.foldl_cons]
        exact ihl _ _ _ (hstep _ _ _ _ _ _ hbn (hl u (by simp))) (fun v hv => hl v (by simp [hv]))
  exact fun n => key _ n le_rfl

/-- The exact accumulation sums in the same order. -/
theorem exact_val {K A : Type*} [Add K] [AddCommMonoidWithOne A] {w out : Fin N → K} {fdir : Fin N → ℤ}
    {d : Fin N → Fin N} (hd : Resolves fdir d) {R : Finset (Fin N)} {ls : Fin N → List (Fin N)}
    (hF : Final' d w out R ls) (wa : Fin N → A) :
    ∃ sa : Fin N → A, (∀ m, sa m = Acc.val wa ls sa m) ∧
      ∀ n, ¬ OnCycle d n → sa n = ∑ u ∈ upstream d n, wa u := by
  obtain ⟨sa, R', _, hE⟩ := flowAccumulation_ok hd wa false (fuel := N + 1) (by omega)
  simp only [Bool.false_eq_true, if_false] at hE
  have hRR : R' = R := by
    ext u
    exact ⟨fun h => hF.all u (hE.nocyc u h).1 (hE.nocyc u h).2, fun h => hE.all u (hF.nocyc u h).1 (hF.nocyc u h).2⟩
  refine ⟨sa, fun m => ?_, hE.sum⟩
  rw [hE.val m]
  unfold Acc.val inflow
  rw [foldl_add, hRR]
  congr 1
  have : R.filter (fun u => d u = m) = (ls m).toFinset := by
    ext u; simp [hF.mem]
  rw [this, List.sum_toFinset _ (hF.nodup m)]

/-! ### C114 -/

variable {fdir : Fin N → ℤ} {d : Fin N → Fin N} {area : Fin N → double.Num} {fuel : ℕ}
  {out : Fin N → double.Num}

/-- **C114** (as C31): in `float64` too `flow_accumulation` finishes on every array of valid indices. -/
theorem C114_terminates (hr : ∀ u, -(N : ℤ) ≤ fdir u ∧ fdir u < N) (area : Fin N → double.Num)
    (asCells : Bool) : ∃ out, ∀ fuel, N < fuel → flowAccumulation fuel fdir area asCells = .ok out := by
  obtain ⟨d, hd⟩ := Resolves.exists hr
  obtain ⟨out, R, ls, h, _⟩ := flowAccumulation_ok' add_zero' hd area asCells (fuel := N + 1) (by omega)
  exact ⟨out, fun fuel hf => flowAccumulation_mono hf h⟩

theorem pow_err (j : ℕ) {u : ℚ} (h0 : 0 ≤ u) (h1 : u ≤ 1) : 1 - (1 - u) ^ j ≤ (1 + u) ^ j - 1 := by
  have a := one_add_mul_le_pow (a := u) (by linarith) j
  have b := one_add_mul_le_pow (a := -u) (by linarith) j
  have : (1 - u) ^ j = (1 + -u) ^ j := by rw [sub_eq_add_neg]
  rw [this]
  linarith

theorem pow_err_le {j : ℕ} {u : ℚ} (h0 : 0 ≤ u) (h1 : u ≤ 1) (hj : j * u ≤ 1 / 2) :
    (1 + u) ^ j - 1 ≤ 2 * (j * u) := by
  have b := one_add_mul_le_pow (a := -u) (by linarith) j
  have c : (1 + u) ^ j * (1 + -u) ^ j ≤ 1 := by
    rw [← mul_pow]
    refine pow_le_one₀ ?_ ?_ <;> nlinarith
  have d : (1 + u) ^ j * (1 - j * u) ≤ 1 := by
    have : (0 : ℚ) ≤ (1 + u) ^ j := by positivity
    have e := mul_le_mul_of_nonneg_left b this
    have : (1 + u) ^ j * (1 - j * u) = (1 + u) ^ j * (1 + j * -u) := by ring
    linarith
  have hju : (0 : ℚ) ≤ j * u := by positivity
  have e : (1 + u) ^ j ≤ 1 / (1 - j * u) := by
    rw [le_div_iff₀ (by linarith)]; exact d
  have f : 1 / (1 - j * u) ≤ 1 + 2 * (j * u) := by
    rw [div_le_iff₀ (by linarith)]
    nlinarith
  linarith

/-- **C114.**  With non-negative cell areas the accumulated area of a cell off the flow cycles differs from
the exact sum of the areas of its `k` upstream cells by a factor of at most `(1 + 2^-53)^(k-1)`. -/
theorem C114_error (hd : Resolves fdir d) (hpos : ∀ u, 0 ≤ (area u).val)
    (ho : flowAccumulation fuel fdir area false = .ok out) (n : Fin N) (hn : ¬ OnCycle d n) :
    |(out n).val - ∑ u ∈ upstream d n, (area u).val| ≤
      ((1 + 1 / 2 ^ 53) ^ ((upstream d n).card - 1) - 1) * ∑ u ∈ upstream d n, (area u).val := by
  obtain ⟨R, ls, hF⟩ := final_of_ok' add_zero' hd ho
  simp only [Bool.false_eq_true, if_false] at hF
  obtain ⟨sa, ha, hsa⟩ := exact_val hd hF (fun _ => (1 : ℕ))
  obtain ⟨sb, hb, hsb⟩ := exact_val hd hF (fun u => (area u).val)
  set e : ℚ := 1 / 2 ^ 53 with he
  have he0 : 0 ≤ e := by rw [he]; positivity
  have he1 : e ≤ 1 := by rw [he]; norm_num
  have key := rel_ind hF (fun (k : ℕ) (s : ℚ) (x : double.Num) => 1 ≤ k ∧ 0 ≤ s ∧
    s * (1 - e) ^ (k - 1) ≤ x.val ∧ x.val ≤ s * (1 + e) ^ (k - 1)) (wa := fun _ => 1)
    (wb := fun u => (area u).val) (fun n => ⟨le_refl _, hpos n, by simp, by simp⟩) (by
      rintro k s x k' s' x' ⟨h1, h2, h3, h4⟩ ⟨h1', h2', h3', h4'⟩
      refine ⟨by omega, by linarith, ?_, ?_⟩
      all_goals
        have hx0 : 0 ≤ x.val := le_trans (by
          have : 0 ≤ 1 - e := by linarith
          positivity) h3
        have hx0' : 0 ≤ x'.val := le_trans (by
          have : 0 ≤ 1 - e := by linarith
          positivity) h3'
        have herr := abs_le.1 (add_err double.pos double.nearest x.2 x'.2)
        rw [abs_of_nonneg (by linarith : 0 ≤ x.val + x'.val)] at herr
        have hdiv : (x.val + x'.val) / 2 ^ double.p = (x.val + x'.val) * e := by
          rw [he]; show _ / 2 ^ 53 = _; ring
        rw [hdiv] at herr
        rw [add_val]
      · have m1 : (1 - e) ^ (k + k' - 1) ≤ (1 - e) ^ (k - 1) * (1 - e) := by
          rw [← pow_succ]; exact pow_le_pow_of_le_one (by linarith) (by linarith) (by omega)
        have m2 : (1 - e) ^ (k + k' - 1) ≤ (1 - e) ^ (k' - 1) * (1 - e) := by
          rw [← pow_succ]; exact pow_le_pow_of_le_one (by linarith) (by linarith) (by omega)
        have a1 := mul_le_mul_of_nonneg_left m1 h2
        have a2 := mul_le_mul_of_nonneg_left m2 h2'
        have b1 := mul_le_mul_of_nonneg_right h3 (by linarith : 0 ≤ 1 - e)
        have b2 := mul_le_mul_of_nonneg_right h3' (by linarith : 0 ≤ 1 - e)
        calc (s + s') * (1 - e) ^ (k + k' - 1)
            = s * (1 - e) ^ (k + k' - 1) + s' * (1 - e) ^ (k + k' - 1) := by ring
          _ ≤ x.val * (1 - e) + x'.val * (1 - e) := by
              rw [← mul_assoc] at a1 a2; linarith
          _ ≤ _ := by linarith [herr.1]
      · have m1 : (1 + e) ^ (k - 1) * (1 + e) ≤ (1 + e) ^ (k + k' - 1) := by
          rw [← pow_succ]; exact pow_le_pow_right₀ (by linarith) (by omega)
        have m2 : (1 + e) ^ (k' - 1) * (1 + e) ≤ (1 + e) ^ (k + k' - 1) := by
          rw [← pow_succ]; exact pow_le_pow_right₀ (by linarith) (by omega)
        have a1 := mul_le_mul_of_nonneg_left m1 h2
        have a2 := mul_le_mul_of_nonneg_left m2 h2'
        have b1 := mul_le_mul_of_nonneg_right h4 (by linarith : 0 ≤ 1 + e)
        have b2 := mul_le_mul_of_nonneg_right h4' (by linarith : 0 ≤ 1 + e)
        calc _ ≤ x.val * (1 + e) + x'.val * (1 + e) := by linarith [herr.2]
          _ ≤ s * (1 + e) ^ (k + k' - 1) + s' * (1 + e) ^ (k + k' - 1) := by
              rw [← mul_assoc] at a1 a2; linarith
          _ = _ := by ring) ha hb n hn
  rw [hsa n hn, hsb n hn] at key
  simp only [Finset.sum_const, smul_eq_mul, mul_one] at key
  obtain ⟨_, h2, h3, h4⟩ := key
  set S := ∑ u ∈ upstream d n, (area u).val
  set j := (upstream d n).card - 1
  have hp := mul_le_mul_of_nonneg_right (pow_err j he0 he1) h2
  rw [abs_le]
  constructor
  · have : (1 - (1 - e) ^ j) * S = S - S * (1 - e) ^ j := by ring
    rw [this] at hp
    linarith
  · have : ((1 + e) ^ j - 1) * S = S * (1 + e) ^ j - S := by ring
    linarith

/-- **C114.**  On a grid of up to a thousand million cells the relative error is below `3 · 10⁻⁷`. -/
theorem C114_small (hN : N ≤ 10 ^ 9) (hd : Resolves fdir d) (hpos : ∀ u, 0 ≤ (area u).val)
    (ho : flowAccumulation fuel fdir area false = .ok out) (n : Fin N) (hn : ¬ OnCycle d n) :
    |(out n).val - ∑ u ∈ upstream d n, (area u).val| ≤
      3 / 10 ^ 7 * ∑ u ∈ upstream d n, (area u).val := by
  refine (C114_error hd hpos ho n hn).trans (mul_le_mul_of_nonneg_right ?_
    (Finset.sum_nonneg fun u _ => hpos u))
  have hc : (upstream d n).card - 1 ≤ 10 ^ 9 := by
    have : (upstream d n).card ≤ N := by simpa using Finset.card_le_univ (upstream d n)
    omega
  generalize (upstream d n).card - 1 = q at hc ⊢
  have hc' : (q : ℚ) ≤ 1000000000 := by exact_mod_cast hc
  refine (pow_err_le (by positivity) (by norm_num) ?_).trans ?_ <;>
  · norm_num; linarith

/-- **C114.**  The sum is exact if all areas are whole multiples of a power of two (not below `2^-1074`) and
the upstream area comes to at most `2^53` of these units. -/
theorem C114_exact (hd : Resolves fdir d) {k : Fin N → ℕ} {j : ℤ} (hj : -1074 ≤ j)
    (hk : ∀ u, (area u).val = k u * 2 ^ j)
    (ho : flowAccumulation fuel fdir area false = .ok out) (n : Fin N) (hn : ¬ OnCycle d n)
    (hsum : ∑ u ∈ upstream d n, k u ≤ 2 ^ 53) :
    (out n).val = ∑ u ∈ upstream d n, (area u).val := by
  obtain ⟨R, ls, hF⟩ := final_of_ok' add_zero' hd ho
  simp only [Bool.false_eq_true, if_false] at hF
  obtain ⟨sa, ha, hsa⟩ := exact_val hd hF k
  have key := rel_ind hF (fun (a _ : ℕ) (x : double.Num) => a ≤ 2 ^ 53 → x.val = a * 2 ^ j) (wa := k)
    (wb := k) (fun n _ => hk n) (by
      rintro a b x a' b' x' h1 h2 h3
      rw [add_val, h1 (by omega), h2 (by omega), ← add_mul]
      have hm : (((a + a' : ℕ) : ℤ) : ℚ) * 2 ^ j ∈ Format 53 (-1022) := by
        refine mul_mem (by norm_num) (by norm_num; exact hj) ?_
        rw [abs_of_nonneg (by positivity)]
        exact_mod_cast h3
      push_cast at hm ⊢
      exact rnd64_nearest.exact hm) ha ha n hn
  rw [hsa n hn] at key
  rw [key hsum]
  push_cast
  rw [Finset.sum_mul]
  exact Finset.sum_congr rfl fun u _ => (hk u).symm

/-- **C114.**  With `as_cells=True` the numbers of cells are exact on any grid of at most `2^53` cells. -/
theorem C114_counts (hN : N ≤ 2 ^ 53) (hd : Resolves fdir d)
    (ho : flowAccumulation fuel fdir area true = .ok out) (n : Fin N) (hn : ¬ OnCycle d n) :
    (out n).val = (upstream d n).card := by
  obtain ⟨R, ls, hF⟩ := final_of_ok' add_zero' hd ho
  simp only [if_true] at hF
  obtain ⟨sa, ha, hsa⟩ := exact_val hd hF (fun _ => (1 : ℕ))
  have key := rel_ind hF (fun (a _ : ℕ) (x : double.Num) => a ≤ 2 ^ 53 → x.val = a)
    (fun n _ => by rw [one_val]; simp) (by
      rintro a b x a' b' x' h1 h2 h3
      rw [add_val, h1 (by omega), h2 (by omega)]
      have hm : (((a + a' : ℕ) : ℤ) : ℚ) * 2 ^ (0 : ℤ) ∈ Format 53 (-1022) := by
        refine mul_mem (by norm_num) (by norm_num) ?_
        rw [abs_of_nonneg (by positivity)]
        exact_mod_cast h3
      rw [zpow_zero, mul_one] at hm
      push_cast at hm ⊢
      exact rnd64_nearest.exact hm) ha ha n hn
  rw [hsa n hn] at key
  simp only [Finset.sum_const, smul_eq_mul, mul_one] at key
  exact key ((Finset.card_le_univ _).trans (by simpa using hN))

theorem le_add_left' {x y : double.Num} (hy : 0 ≤ y.val) : x.val ≤ (x + y).val :=
  double.nearest.le_add x.2 hy

theorem le_add_right' {x y : double.Num} (hx : 0 ≤ x.val) : y.val ≤ (x + y).val := by
  rw [add_val, add_comm]
  exact double.nearest.le_add y.2 hx

/-- **C114** (as C34).  With non-negative areas the accumulated area never decreases downstream, and is never
less than the area of the cell itself, whatever the rounding. -/
theorem C114_grows_downstream (hd : Resolves fdir d) (hpos : ∀ u, 0 ≤ (area u).val) {asCells : Bool}
    (ho : flowAccumulation fuel fdir area asCells = .ok out) (n : Fin N) (hn : ¬ OnCycle d n) :
    (out n).val ≤ (out (d n)).val ∧ (asCells = false → (area n).val ≤ (out n).val) := by
  obtain ⟨R, ls, hF⟩ := final_of_ok' add_zero' hd ho
  obtain ⟨sa, ha, _⟩ := exact_val hd hF (fun _ => (1 : ℕ))
  have hw : ∀ m, 0 ≤ ((if asCells then 1 else area m : double.Num)).val := by
    intro m
    split
    · rw [one_val]; norm_num
    · exact hpos m
  have hnn : ∀ m, ¬ OnCycle d m → 0 ≤ (out m).val := by
    intro m hm
    exact rel_ind hF (fun (_ _ : ℕ) (x : double.Num) => 0 ≤ x.val) hw
      (fun _ _ x _ _ y h1 h2 => h1.trans (le_add_left' h2)) ha ha m hm
  have hfold : ∀ (l : List (Fin N)) (x : double.Num), (∀ u ∈ l, 0 ≤ (out u).val) → 0 ≤ x.val →
      x.val ≤ (l.foldl (fun x u => x + out u) x).val ∧
        ∀ u ∈ l, (out u).val ≤ (l.foldl (fun x u => x + out u) x).val := by
    intro l
    induction l with
    | nil => intro x _ _; exact ⟨le_refl _, by simp⟩
    | cons v l ih =>
      intro x hl hx
      have hv := hl v (by simp)
      have h1 : x.val ≤ (x + out v).val := le_add_left' hv
      have h2 : (out v).val ≤ (x + out v).val := le_add_right' hx
      obtain ⟨i1, i2⟩ := ih (x + out v) (fun u hu => hl u (by simp [hu])) (hx.trans h1)
      refine ⟨h1.trans i1, fun u hu => ?_⟩
      rcases List.mem_cons.1 hu with rfl | hu
      · exact h2.trans i1
      · exact i2 u hu
  have hls : ∀ m, ∀ u ∈ ls m, 0 ≤ (out u).val := fun m u hu => hnn u (hF.nocyc u ((hF.mem m u).1 hu).1).1
  constructor
  · by_cases hself : d n = n
    · rw [hself]
    · have hmem : n ∈ ls (d n) := (hF.mem _ _).2 ⟨hF.all n hn hself, rfl⟩
      rw [hF.val (d n)]
      exact (hfold _ _ (hls _) (hw _)).2 n hmem
  · rintro rfl
    have := (hfold _ _ (hls n) (hw n)).1
    rw [hF.val n]
    simpa [Acc.val] using this

/-- **C115** (as C45).  In `float64` too, streams delineated by a threshold from the accumulation (areas or
counts) never break before their outlet: without flow cycles every cell on the flow path of a stream cell is
a stream cell. -/
theorem C115_to_outlet {o : Reach.Obj N} (hd : Resolves o.fdir d) (hpos : ∀ u, 0 ≤ (area u).val)
    {asCells : Bool} {facc : Fin N → double.Num}
    (ho : flowAccumulation fuel o.fdir area asCells = .ok facc) {c : double.Num} {o' : Reach.Obj N}
    {sa : Fin N → ℤ} (h : Delin.delineate (fun n => some (facc n)) o (.number c) none = .ok (o', sa))
    (hac : ∀ n, ¬ OnCycle d n) {n m : Fin N} (hs : sa n = 1) (hr : Reaches d n m) : sa m = 1 := by
  obtain ⟨sa', e, hsa⟩ := Delin.C44_number (facc := fun n => some (facc n)) (o := o) c
  rw [h] at e
  cases e
  obtain ⟨k, rfl⟩ := hr
  induction k with
  | zero => exact hs
  | succ k ih =>
    rw [Function.iterate_succ_apply']
    obtain ⟨a, ha, hle⟩ := (hsa _).2.1 ih
    cases ha
    refine (hsa _).2.2 ⟨_, rfl, ?_⟩
    have hle' : c.val ≤ (facc (d^[k] n)).val := hle
    exact hle'.trans (C114_grows_downstream hd hpos ho _ (hac _)).1

/-- **C115.**  The stream cells are those whose exact upstream area comes up to the threshold, up to the
error of C114: a cell whose upstream area is `3 · 10⁻⁷` above the threshold is a stream cell, one that far
below is not. -/
theorem C115_streams {o : Reach.Obj N} (hN : N ≤ 10 ^ 9) (hd : Resolves o.fdir d)
    (hpos : ∀ u, 0 ≤ (area u).val) {facc : Fin N → double.Num}
    (ho : flowAccumulation fuel o.fdir area false = .ok facc) {c : double.Num} {o' : Reach.Obj N}
    {sa : Fin N → ℤ} (h : Delin.delineate (fun n => some (facc n)) o (.number c) none = .ok (o', sa))
    (n : Fin N) (hn : ¬ OnCycle d n) :
    (c.val ≤ (1 - 3 / 10 ^ 7) * ∑ u ∈ upstream d n, (area u).val → sa n = 1) ∧
    ((1 + 3 / 10 ^ 7) * ∑ u ∈ upstream d n, (area u).val < c.val → sa n = 0) := by
  obtain ⟨sa', e, hsa⟩ := Delin.C44_number (facc := fun n => some (facc n)) (o := o) c
  rw [h] at e
  cases e
  have herr := abs_le.1 (C114_small hN hd hpos ho n hn)
  constructor
  · intro hc
    refine (hsa n).2.2 ⟨_, rfl, ?_⟩
    show c.val ≤ (facc n).val
    linarith [herr.1]
  · intro hc
    rcases (hsa n).1 with h1 | h1
    · obtain ⟨a, ha, hle⟩ := (hsa n).2.1 h1
      cases ha
      have hle' : c.val ≤ (facc n).val := hle
      linarith [herr.2]
    · exact h1

end Dany.Float
