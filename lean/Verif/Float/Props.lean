import Verif.Float.Lemmas
import Verif.Float.Flood
import Verif.Ints.Props
import Mathlib.Data.Set.Finite.Basic
import Mathlib.Order.Interval.Finset.Defs
import Mathlib.Data.Int.Interval

/-!
# Properties C110–C112: sink filling in floating-point arithmetic
-/

namespace Dany.Float

open Flood Function

variable {N : ℕ}

/-! ### the method that is run -/

theorem fillSinksF_flood {fuel : ℕ} {d : Fmt} {pr : Promo} {eps : double.Num} {g : Grid N}
    {dem : Fin N → d.Num} {mask : Option (Fin N → Bool)} {method : String}
    (heff : effective mask method ≠ .drain) :
    fillSinksF fuel d pr eps g dem mask method =
      (fillSinks fuel (raise d pr eps) (d.store 0) g dem mask method).map fun r n => (r n).val := by
  have e : ∀ (m : Option (Fin N → Bool)) (a b : String), effective m a = effective m b →
      fillSinks fuel (raise d pr eps) (d.store 0) g dem m a =
        fillSinks fuel (raise d pr eps) (d.store 0) g dem m b := by
    intro m a b hab
    unfold fillSinks
    congr 1; funext edge
    rw [fillFrom_eq, fillFrom_eq]
    unfold effRaise
    rw [hab]
  unfold fillSinksF
  cases mask with
  | none =>
    unfold effective at heff
    simp only [Option.isSome_none, Bool.false_eq_true, if_false, or_false] at heff ⊢
    rw [if_pos]
    by_contra hc
    push Not at hc
    simp [hc.1, hc.2] at heff
  | some m =>
    simp only [Option.isSome_some, if_true]
    by_cases hm : method.toLower = "priority" ∨ method.toLower = "complete"
    · rw [if_pos hm, if_pos hm]
    · rw [if_neg hm, if_pos (by simp [lower_priority])]
      rw [e (some m) "priority" method]
      push Not at hm
      unfold effective
      simp [lower_priority, hm.2]

theorem fillSinksF_drain {fuel : ℕ} {d : Fmt} {pr : Promo} {eps : double.Num} {g : Grid N}
    {dem : Fin N → d.Num} {method : String}
    (heff : effective (none : Option (Fin N → Bool)) method = .drain) :
    fillSinksF fuel d pr eps g dem none method =
      (fillSinks fuel (raise double .weak eps) flood10 g (fun n => double.store (dem n).val) none
        method).map fun r n => (r n).val := by
  unfold effective at heff
  simp only [Option.isSome_none, Bool.false_eq_true, or_false] at heff
  unfold fillSinksF
  simp only [Option.isSome_none, Bool.false_eq_true, if_false]
  rw [if_neg]
  rintro (h | h)
  · rw [h] at heff; simp at heff
  · rw [h] at heff; simp at heff

/-! ### paths in terms of the numbers -/

theorem drains_val {d : Fmt} {nbr : Fin N → List ℕ} {f : Fin N → d.Num} {S : Fin N → Prop} {n : Fin N}
    (h : Drains (· < ·) nbr f S n) : Drains (· < ·) nbr (fun n => (f n).val) S n := by
  induction h with
  | outlet hs => exact .outlet hs
  | step ha hlt _ ih => exact .step ha hlt ih

theorem pathTop_val {d : Fmt} {nbr : Fin N → List ℕ} {dem : Fin N → d.Num} {S : Fin N → Prop} {n : Fin N}
    {q : ℚ} : PathTop nbr (fun n => (dem n).val) S n q ↔ ∃ v : d.Num, v.val = q ∧ PathTop nbr dem S n v := by
  have hmax : ∀ a b : d.Num, (max a b).val = max a.val b.val := by
    intro a b
    rcases le_total a b with h | h
    · rw [max_eq_right h]; exact (max_eq_right (show a.val ≤ b.val from h)).symm
    · rw [max_eq_left h]; exact (max_eq_left (show b.val ≤ a.val from h)).symm
  constructor
  · intro h
    induction h with
    | seed hs => exact ⟨_, rfl, .seed hs⟩
    | step _ ha ih =>
      obtain ⟨v, rfl, hv⟩ := ih
      exact ⟨_, hmax _ _, .step hv ha⟩
  · rintro ⟨v, rfl, hv⟩
    induction hv with
    | seed hs => exact .seed hs
    | step _ ha ih => rw [hmax]; exact .step ih ha

theorem isSpill_val {d : Fmt} {nbr : Fin N → List ℕ} {dem : Fin N → d.Num} {S : Fin N → Prop} {n : Fin N}
    {v : d.Num} (h : IsSpill nbr dem S n v) : IsSpill nbr (fun n => (dem n).val) S n v.val := by
  refine ⟨pathTop_val.2 ⟨v, rfl, h.1⟩, fun q hq => ?_⟩
  obtain ⟨w, rfl, hw⟩ := pathTop_val.1 hq
  exact h.2 hw

theorem raise_iter_le {d : Fmt} (hd : d.Std) (pr : Promo) {eps : double.Num} (h0 : 0 ≤ eps.val) (k : ℕ)
    (x : d.Num) : ((raise d pr eps)^[k] x).val ≤ x.val + k * (4 * eps.val) := by
  induction k with
  | zero => simp
  | succ k ih =>
    rw [iterate_succ_apply']
    have := raise_le hd pr h0 ((raise d pr eps)^[k] x)
    push_cast
    linarith

/-! ### what holds for every element type -/

/-- **C110** (as C01, C02).  In floating point too, no cell is lowered and edge cells keep their elevation. -/
theorem C110_never_lowers {fuel : ℕ} {d : Fmt} (hd : d.Std) {pr : Promo} {eps : double.Num}
    (h0 : 0 ≤ eps.val) {g : Grid N} {dem : Fin N → d.Num} {mask : Option (Fin N → Bool)} {method : String}
    {out : Fin N → ℚ} (heff : effective mask method ≠ .drain)
    (h : fillSinksF fuel d pr eps g dem mask method = .ok out) (n : Fin N) :
    (dem n).val ≤ out n ∧ (mask = none → Edge.OnEdge g.iverts n → out n = (dem n).val) := by
  rw [fillSinksF_flood heff] at h
  obtain ⟨r, hr, rfl⟩ := Res.map_eq_ok.1 h
  constructor
  · exact C01_never_lowers (raise_infl hd pr h0) (fun hd => absurd hd heff) hr n
  · rintro rfl he
    exact congrArg Subtype.val (C02_edges_unchanged (raise_infl hd pr h0) hr n he)

/-- **C110** (as C06).  'complete' involves no rounding: every connected cell gets its spill elevation. -/
theorem C110_spill {fuel : ℕ} {d : Fmt} {pr : Promo} {eps : double.Num} {g : Grid N}
    {dem : Fin N → d.Num} {method : String} {out : Fin N → ℚ} (hmeth : method.toLower = "complete")
    (h : fillSinksF fuel d pr eps g dem none method = .ok out) (n : Fin N)
    (hn : Reach g.nbr (Edge.OnEdge g.iverts) n) :
    IsSpill g.nbr (fun n => (dem n).val) (Edge.OnEdge g.iverts) n (out n) := by
  rw [fillSinksF_flood (by simp [effective, hmeth])] at h
  obtain ⟨r, hr, rfl⟩ := Res.map_eq_ok.1 h
  exact isSpill_val (C06_spill hmeth hr n hn)

/-- **C110** (as C03).  Exactly: every connected cell has a path of neighbours to an outlet along which the
surface descends, or stays the same where adding eps has no effect on the stored number. -/
theorem C110_drains_exact {fuel : ℕ} {d : Fmt} (hd : d.Std) {pr : Promo} {eps : double.Num}
    (h0 : 0 ≤ eps.val) {g : Grid N} {dem : Fin N → d.Num} {mask : Option (Fin N → Bool)} {method : String}
    {out : Fin N → ℚ} (hsym : SymmNbr g.nbr) (heff : effective mask method = .priority)
    (h : fillSinksF fuel d pr eps g dem mask method = .ok out) (n : Fin N)
    (hn : Reach g.nbr (Outlet g mask) n) :
    Drains (fun x y => x < y ∨ ∃ z : d.Num, x = z.val ∧ y = z.val ∧ raise d pr eps z = z) g.nbr out
      (Outlet g mask) n := by
  rw [fillSinksF_flood (by simp [heff])] at h
  obtain ⟨r, hr, rfl⟩ := Res.map_eq_ok.1 h
  have := drains_by_raise (raise_infl hd pr h0) hsym heff hr n hn
  clear hn
  induction this with
  | outlet hs => exact .outlet hs
  | @step n c ha hlt _ ih =>
    refine .step ha ?_ ih
    rcases hlt with hlt | heq
    · exact .inl hlt
    · rcases eq_or_lt_of_le (raise_infl hd pr h0 (r c)) with h1 | h1
      · right; exact ⟨r c, rfl, by rw [heq, ← h1], h1.symm⟩
      · left; show (r c).val < (r n).val; rw [heq]; exact h1

theorem drains_range {fuel : ℕ} {d : Fmt} (hd : d.Std) {pr : Promo} {eps : double.Num}
    (h0 : 0 ≤ eps.val) {lo hi : ℚ} (hstrict : ∀ x : d.Num, lo ≤ x.val → x.val < hi → x < raise d pr eps x)
    {g : Grid N} {dem : Fin N → d.Num} {mask : Option (Fin N → Bool)} {method : String} {out : Fin N → ℚ}
    (hsym : SymmNbr g.nbr) (heff : effective mask method = .priority)
    (hlo : ∀ n, lo ≤ (dem n).val) (hhi : ∀ n, (dem n).val + 8 * N * eps.val < hi)
    (h : fillSinksF fuel d pr eps g dem mask method = .ok out) (n : Fin N)
    (hn : Reach g.nbr (Outlet g mask) n) : Drains (· < ·) g.nbr out (Outlet g mask) n := by
  rw [fillSinksF_flood (by simp [heff])] at h
  obtain ⟨r, hr, rfl⟩ := Res.map_eq_ok.1 h
  refine drains_val (drains_where (raise_infl hd pr h0) hsym heff hr (fun k => ?_) n hn)
  -- the highest elevation
  have hne : (Finset.univ.image dem).Nonempty := ⟨dem n, by simp⟩
  set M := (Finset.univ.image dem).max' hne with hMdef
  have hM : ∀ k, dem k ≤ M := fun k => Finset.le_max' _ _ (by simp)
  obtain ⟨j, _, hj⟩ := Finset.mem_image.1 (Finset.max'_mem _ hne)
  have hle := fillSinks_le (raise_infl hd pr h0) (raise_mono d pr eps) (by simp [heff]) hr hM k
  have hit := raise_iter_le hd pr h0 (2 * N) M
  have hle' : (r k).val ≤ ((raise d pr eps)^[2 * N] M).val := hle
  refine hstrict (r k) ?_ ?_
  · have : dem k ≤ r k :=
      C01_never_lowers (raise_infl hd pr h0) (fun h => by simp [heff] at h) hr k
    exact (hlo k).trans this
  · have hMv : M.val + 8 * N * eps.val < hi := by rw [hMdef, ← hj]; exact hhi j
    push_cast at hit
    linarith

/-- **C110** (float64).  With the default eps and elevations of at most 10¹⁰ in absolute value, every
connected cell of a `float64` DEM gets a strictly descending path to an outlet, with or without a stream mask,
on any grid of at most 10¹⁴ cells. -/
theorem C110_double {fuel : ℕ} {pr : Promo} {g : Grid N} {dem : Fin N → double.Num}
    {mask : Option (Fin N → Bool)} {method : String} {out : Fin N → ℚ} (hN : N ≤ 10 ^ 14)
    (hsym : SymmNbr g.nbr) (heff : effective mask method = .priority) (hdem : ∀ n, |(dem n).val| ≤ 10 ^ 10)
    (h : fillSinksF fuel double pr eps6 g dem mask method = .ok out) (n : Fin N)
    (hn : Reach g.nbr (Outlet g mask) n) : Drains (· < ·) g.nbr out (Outlet g mask) n := by
  refine drains_range .f64 eps6_nonneg (lo := -2 ^ 35) (hi := 2 ^ 35) (fun x => double_strict pr) hsym heff
    (fun n => ?_) (fun n => ?_) h n hn
  · have := (abs_le.1 (hdem n)).1
    norm_num at this ⊢; linarith
  · have h1 := (abs_le.1 (hdem n)).2
    have hN' : (N : ℚ) ≤ 10 ^ 14 := by exact_mod_cast hN
    have hb := eps6_bounds.2
    have : (N : ℚ) * eps6.val ≤ 10 ^ 14 * (1 / 2 ^ 18) :=
      mul_le_mul hN' (by norm_num at hb ⊢; linarith) eps6_nonneg (by positivity)
    norm_num at h1 this ⊢
    linarith

/-- **C111, partial.**  A `float32` DEM drains strictly if all elevations lie between -64 and a little
below 64. -/
theorem C111_single_partial {fuel : ℕ} {pr : Promo} {g : Grid N} {dem : Fin N → single.Num}
    {mask : Option (Fin N → Bool)} {method : String} {out : Fin N → ℚ}
    (hsym : SymmNbr g.nbr) (heff : effective mask method = .priority) (hlo : ∀ n, -64 ≤ (dem n).val)
    (hhi : ∀ n, (dem n).val + 8 * N * eps6.val < 64)
    (h : fillSinksF fuel single pr eps6 g dem mask method = .ok out) (n : Fin N)
    (hn : Reach g.nbr (Outlet g mask) n) : Drains (· < ·) g.nbr out (Outlet g mask) n :=
  drains_range .f32 eps6_nonneg (fun _ => single_strict pr) hsym heff hlo hhi h n hn

/-- **C111** (exact).  On a `float32` DEM whose elevations are 64 or more the default eps has no effect:
'priority' returns what 'complete' returns, with or without a stream mask. -/
theorem C111_priority_is_complete {fuel : ℕ} {pr pr' : Promo} {eps' : double.Num} {g : Grid N}
    {dem : Fin N → single.Num} {mask : Option (Fin N → Bool)} {method method' : String}
    (hdem : ∀ n, 64 ≤ (dem n).val) (heff : effective mask method = .priority)
    (heff' : effective mask method' = .complete) :
    fillSinksF fuel single pr eps6 g dem mask method = fillSinksF fuel single pr' eps' g dem mask method' := by
  rw [fillSinksF_flood (by simp [heff]), fillSinksF_flood (by simp [heff'])]
  congr 1
  unfold fillSinks
  congr 1; funext edge
  rw [fillFrom_eq, fillFrom_eq, heff, heff']
  have e1 : effRaise (raise single pr eps6) mask method = raise single pr eps6 := by
    unfold effRaise; rw [heff]; rfl
  have e2 : effRaise (raise single pr' eps') mask method' = id := by
    unfold effRaise; rw [heff']; rfl
  rw [e1, e2]
  simp only [reduceCtorEq, if_false]
  have hk : ∀ x : single.Num, 64 ≤ x.val → raise single pr eps6 x = id x :=
    fun x hx => single_absorb pr (.inl hx)
  cases mask with
  | none =>
    exact Ints.priorityFlood_congr (S := fun x : single.Num => 64 ≤ x.val) hk
      (fun x hx => by rw [hk x hx]; exact hx) _ _ _ _ _ hdem
  | some m =>
    exact Ints.priorityFlood_congr (S := fun x : single.Num => 64 ≤ x.val) hk
      (fun x hx => by rw [hk x hx]; exact hx) _ _ _ _ _ hdem

/-- **C111, refuted.**  On every `float32` DEM whose elevations are 64 or more, a connected interior cell
without a lower neighbour in the input still has none after 'priority': no strictly descending step leaves
it. -/
theorem C111_refuted {fuel : ℕ} {pr : Promo} {g : Grid N} {dem : Fin N → single.Num} {out : Fin N → ℚ}
    {method : String} (hdem : ∀ n, 64 ≤ (dem n).val)
    (hsym : SymmNbr g.nbr) (hmeth : method.toLower = "priority")
    (h : fillSinksF fuel single pr eps6 g dem none method = .ok out) (n : Fin N)
    (hn : Reach g.nbr (Edge.OnEdge g.iverts) n) (hin : ¬ Edge.OnEdge g.iverts n)
    (hpit : ∀ m, Adj g.nbr n m → (dem n).val ≤ (dem m).val) :
    (∀ m, Adj g.nbr n m → out n ≤ out m) ∧ ¬ Drains (· < ·) g.nbr out (Edge.OnEdge g.iverts) n := by
  have hc : ("complete" : String).toLower = "complete" := by decide +kernel
  rw [C111_priority_is_complete (pr' := pr) (eps' := eps6) (method' := "complete") hdem
    (by simp [effective, hmeth]) (by simp [effective, hc])] at h
  have hall : ∀ m, Adj g.nbr n m → out n ≤ out m := by
    intro m hm
    have hsn := C110_spill hc h n hn
    have hsm := C110_spill hc h m (.step hn hm)
    have hp := PathTop.step hsm.1 (hsym _ _ hm)
    have hge : (dem m).val ≤ out m := pathTop_ge hsm.1
    have := hsn.2 hp
    rwa [max_eq_left ((hpit m hm).trans hge)] at this
  refine ⟨hall, fun hd => ?_⟩
  cases hd with
  | outlet hs => exact hin hs
  | step ha hlt _ => exact absurd hlt (not_lt.2 (hall _ ha))

/-! ### 'drain' -/

theorem finite_between {d : Fmt} (a b : d.Num) : {y : d.Num | a ≤ y ∧ y ≤ b}.Finite := by
  set u : ℚ := 2 ^ (d.emin - (d.p - 1)) with hu
  have hu0 : 0 < u := zpow_pos' _
  have hk : ∀ y : d.Num, ∃ k : ℤ, y.val = k * u := fun y => mul_of_ge y.2 (.inr (le_refl _))
  choose k hk using hk
  refine Set.Finite.of_finite_image (f := k) ?_ ?_
  · refine (Set.finite_Icc (k a) (k b)).subset ?_
    rintro _ ⟨y, ⟨h1, h2⟩, rfl⟩
    have h1 : a.val ≤ y.val := h1
    have h2 : y.val ≤ b.val := h2
    rw [hk a, hk y] at h1
    rw [hk y, hk b] at h2
    exact ⟨by exact_mod_cast le_of_mul_le_mul_right h1 hu0, by exact_mod_cast le_of_mul_le_mul_right h2 hu0⟩
  · intro x _ y _ hxy
    exact Subtype.ext (by rw [hk x, hk y, hxy])

theorem store_cast {d : Fmt} (hd : d.Std) (x : d.Num) : (double.store x.val).val = x.val :=
  double.nearest.exact (hd.sub x.2)

theorem flood10_val : flood10.val = 10 ^ 10 := by decide +kernel

/-- **C112** (as C11).  'drain' ends for every `float32` or `float64` DEM with elevations of at most 10¹⁰ and
every eps that is not negative, however small: also if adding it has no effect. -/
theorem C112_drain_terminates {d : Fmt} (hd : d.Std) {pr : Promo} {eps : double.Num} (h0 : 0 ≤ eps.val)
    {g : Grid N} {dem : Fin N → d.Num} {method : String} (hpoly : ∀ n, g.iverts n ≠ [])
    (hrange : ∀ c, ∀ n ∈ g.nbr c, n < N) (hdem : ∀ n, (dem n).val ≤ 10 ^ 10)
    (heff : effective (none : Option (Fin N → Bool)) method = .drain) :
    ∃ out F, ∀ fuel, F ≤ fuel → fillSinksF fuel d pr eps g dem none method = .ok out := by
  obtain ⟨out, F, hF⟩ := C11_drain_terminates (raise := raise double .weak eps) (flood := flood10) hpoly hrange
    (dem := fun n => double.store (dem n).val)
    (fun n => by
      show (double.store (dem n).val).val ≤ flood10.val
      rw [store_cast hd, flood10_val]; exact hdem n)
    (fun x => (finite_between x flood10).subset (by
      rintro y ⟨hy, k, rfl⟩
      exact ⟨monotone_iterate_of_id_le (raise_infl .f64 .weak h0) (Nat.zero_le k) x, hy⟩))
    heff
  exact ⟨_, F, fun fuel hf => by rw [fillSinksF_drain heff, hF fuel hf]; rfl⟩

/-- **C112** (as C03).  With the default eps every cell that 'drain' leaves below 10¹⁰ has a strictly
descending path to the grid edge, for `float32` and `float64` DEMs alike. -/
theorem C112_drain_drains {fuel : ℕ} {d : Fmt} (hd : d.Std) {pr : Promo} {g : Grid N}
    {dem : Fin N → d.Num} {method : String} {out : Fin N → ℚ} (hdem : ∀ n, |(dem n).val| ≤ 10 ^ 10)
    (heff : effective (none : Option (Fin N → Bool)) method = .drain)
    (h : fillSinksF fuel d pr eps6 g dem none method = .ok out) (n : Fin N) (hn : out n < 10 ^ 10) :
    Drains (· < ·) g.nbr out (Edge.OnEdge g.iverts) n := by
  rw [fillSinksF_drain heff] at h
  obtain ⟨r, hr, rfl⟩ := Res.map_eq_ok.1 h
  -- clamp the increment below the range that occurs
  have hfl : ∀ n, double.store (dem n).val ≤ flood10 := by
    intro n
    show (double.store (dem n).val).val ≤ flood10.val
    rw [store_cast hd, flood10_val]; exact (abs_le.1 (hdem n)).2
  have hge : ∀ k, double.store (dem k).val ≤ r k :=
    C01_never_lowers (raise_infl .f64 .weak eps6_nonneg) (fun _ => hfl) hr
  have hL := C10_drain_least (raise_infl .f64 .weak eps6_nonneg) (raise_mono _ _ _) hfl heff hr
  have hstrict : ∀ k, r k < flood10 → r k < raise double .weak eps6 (r k) := by
    intro k hk
    refine double_strict .weak ?_ ?_
    · have h1 : (double.store (dem k).val).val ≤ (r k).val := hge k
      rw [store_cast hd] at h1
      have := (abs_le.1 (hdem k)).1
      norm_num at this ⊢; linarith
    · have h1 : (r k).val < flood10.val := hk
      rw [flood10_val] at h1
      norm_num at h1 ⊢; linarith
  have hn' : r n < flood10 := by
    show (r n).val < flood10.val
    rw [flood10_val]; exact hn
  refine drains_val ?_
  -- every cell below the flood level has a lower neighbour, or is an outlet
  have hstep : ∀ k, r k < flood10 → Edge.OnEdge g.iverts k ∨ ∃ c, Adj g.nbr k c ∧ r c < r k := by
    intro k hk
    rcases (hL k).1 with h | h
    · exact absurd h hk.ne
    · generalize hv : r k = v at h
      cases h with
      | seed hs => exact .inl hs
      | @step c _ v' hv' ha =>
        right
        refine ⟨c, ha, ?_⟩
        have hc : r c ≤ v' := (hL c).2 (.inr hv')
        have h1 : raise double .weak eps6 v' ≤ r k := by rw [hv]; exact le_max_right _ _
        have h2 : r c ≤ r k := hc.trans ((raise_infl .f64 .weak eps6_nonneg v').trans h1)
        rw [← hv]
        calc r c < raise double .weak eps6 (r c) := hstrict c (h2.trans_lt hk)
          _ ≤ raise double .weak eps6 v' := raise_mono _ _ _ hc
          _ ≤ r k := h1
  have wf : ∀ (S : Finset (Fin N)) (m : Fin N), r m < flood10 → (∀ x, r x < r m → x ∈ S) →
      Drains (· < ·) g.nbr r (Edge.OnEdge g.iverts) m := by
    intro S
    induction hcard : S.card using Nat.strong_induction_on generalizing S with
    | _ j ihn =>
      intro m hm hsub
      rcases hstep m hm with hs | ⟨c, ha, hlt⟩
      · exact .outlet hs
      · refine .step ha hlt (ihn (S.erase c).card ?_ (S.erase c) rfl c (hlt.trans hm) ?_)
        · rw [← hcard]; exact Finset.card_erase_lt_of_mem (hsub c hlt)
        · intro x hx
          exact Finset.mem_erase.2 ⟨by rintro rfl; exact lt_irrefl _ hx, hsub x (hx.trans hlt)⟩
  exact wf Finset.univ n hn' (fun x _ => Finset.mem_univ x)

end Dany.Float
