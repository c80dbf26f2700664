import Verif.Float.Chain
import Verif.Pipe.RectWitness

/-!
# Property C162: structured grids in `float64`

C160 with rounded numbers: the cell centres that FloPy computes are `float64` numbers near the true centres of
the layout, and elevations, sums, slopes and distances are `float64` numbers, rounded at every operation.
-/

namespace Dany.Float

open Flow Pipe

variable {nrow ncol : ℕ} {g : Flood.Grid (nrow * ncol)} {L : Layout nrow ncol} {G : Dirs.Geo (nrow * ncol) ℚ} {b δ : ℝ}

/-- What is asked of FloPy's centres (external): they are `float64` numbers within `δ` of the true ones, multiples
of `2^-500` (as all doubles are that are zero or not below `2^-448`), at most `2^97` in absolute value; `δ` is at most a
tenth of the width of the narrowest cell.  NumPy rounds to the nearest `float64`, and its square root is accurate to
`2^-52`. -/
structure Measured (L : Layout nrow ncol) (G : Dirs.Geo (nrow * ncol) ℚ) (b δ : ℝ) : Prop where
  pos : 0 < b
  wide : ∀ k, b ≤ L.delr k
  high : ∀ k, b ≤ L.delc k
  close : 10 * δ ≤ b
  rnd : G.rnd = rnd64
  sqrt : SqrtOK G.sqrt
  x : ∀ n, G.xc n ∈ Double
  y : ∀ n, G.yc n ∈ Double
  xnear : ∀ n, |(G.xc n : ℝ) - L.geo.xc n| ≤ δ
  ynear : ∀ n, |(G.yc n : ℝ) - L.geo.yc n| ≤ δ
  xgrain : ∀ n, ∃ k : ℤ, G.xc n = k * 2 ^ (-500 : ℤ)
  ygrain : ∀ n, ∃ k : ℤ, G.yc n = k * 2 ^ (-500 : ℤ)
  xsize : ∀ n, |G.xc n| ≤ 2 ^ 97
  ysize : ∀ n, |G.yc n| ≤ 2 ^ 97

theorem sized_sub {p q : ℚ} (hp : ∃ k : ℤ, p = k * 2 ^ (-500 : ℤ)) (hq : ∃ k : ℤ, q = k * 2 ^ (-500 : ℤ))
    (hp' : |p| ≤ 2 ^ 97) (hq' : |q| ≤ 2 ^ 97) : Sized (p - q) := by
  obtain ⟨k, rfl⟩ := hp
  obtain ⟨l, rfl⟩ := hq
  have hu := zpow_pos' (-500)
  refine ⟨?_, ?_⟩
  · by_cases h : k = l
    · left; rw [h, sub_self]
    · right
      rw [← sub_mul, abs_mul, abs_of_pos hu]
      have : (1 : ℤ) ≤ |k - l| := Int.one_le_abs (sub_ne_zero.2 h)
      have h1 : (1 : ℚ) ≤ |(k : ℚ) - l| := by exact_mod_cast this
      exact le_mul_of_one_le_left hu.le h1
  · refine (abs_sub _ _).trans ?_
    have : (2 : ℚ) ^ 98 = 2 ^ 97 + 2 ^ 97 := by norm_num
    rw [this]
    exact add_le_add hp' hq'

theorem apart_aux {b δ dx dy ex ey : ℝ} (hb : 0 < b) (hδ : 10 * δ ≤ b) (hδ0 : 0 ≤ δ) (hx : |ex - dx| ≤ 2 * δ)
    (hy : |ey - dy| ≤ 2 * δ) (hd : b ^ 2 ≤ dx ^ 2 + dy ^ 2) : (b / 2) ^ 2 ≤ ex ^ 2 + ey ^ 2 := by
  by_contra hc
  push Not at hc
  have sx : |ex| < b / 2 := by
    refine lt_of_pow_lt_pow_left₀ 2 (by positivity) ?_
    rw [sq_abs]; nlinarith [sq_nonneg ey]
  have sy : |ey| < b / 2 := by
    refine lt_of_pow_lt_pow_left₀ 2 (by positivity) ?_
    rw [sq_abs]; nlinarith [sq_nonneg ex]
  have hdx : |dx| ≤ |ex| + b / 5 := by
    have := abs_sub_abs_le_abs_sub dx ex
    rw [abs_sub_comm] at this
    linarith
  have hdy : |dy| ≤ |ey| + b / 5 := by
    have := abs_sub_abs_le_abs_sub dy ey
    rw [abs_sub_comm] at this
    linarith
  have h1 : dx ^ 2 ≤ (|ex| + b / 5) ^ 2 := by
    rw [← sq_abs dx]; exact pow_le_pow_left₀ (abs_nonneg _) hdx 2
  have h2 : dy ^ 2 ≤ (|ey| + b / 5) ^ 2 := by
    rw [← sq_abs dy]; exact pow_le_pow_left₀ (abs_nonneg _) hdy 2
  have e1 := sq_abs ex
  have e2 := sq_abs ey
  have p1 : |ex| * b ≤ b / 2 * b := mul_le_mul_of_nonneg_right sx.le hb.le
  have p2 : |ey| * b ≤ b / 2 * b := mul_le_mul_of_nonneg_right sy.le hb.le
  nlinarith [mul_pos hb hb]

/-- neighbours are at least half a cell width apart, as computed -/
theorem Measured.way_ge (hM : Measured L G b δ) (hq : Queen g) (hv : g.iverts = Edge.structuredVerts nrow ncol)
    {n m : Fin (nrow * ncol)} (hm : m ∈ nbrs g n) : b / 2 ≤ way G n m := by
  have hδ0 : 0 ≤ δ := (abs_nonneg _).trans (hM.xnear n)
  have hd := C160_apart hq hv hM.pos hM.wide hM.high (mem_inRange.1 hm)
  have hd2 : b ^ 2 ≤ (L.geo.xc m - L.geo.xc n) ^ 2 + (L.geo.yc m - L.geo.yc n) ^ 2 := by
    have h1 := pow_le_pow_left₀ hM.pos.le hd 2
    unfold Dirs.Geo.dist at h1
    have hs : L.geo.sqrt = Real.sqrt := rfl
    have hr : L.geo.rnd = id := rfl
    rw [hs, hr] at h1
    simp only [id] at h1
    rwa [Real.sq_sqrt (by positivity)] at h1
  have tri : ∀ a a' c c' : ℝ, |a - a'| ≤ δ → |c - c'| ≤ δ → |(a - c) - (a' - c')| ≤ 2 * δ := by
    intro a a' c c' h1 h2
    have : (a - c) - (a' - c') = (a - a') - (c - c') := by ring
    rw [this]
    refine (abs_sub _ _).trans ?_
    linarith
  have := apart_aux hM.pos hM.close hδ0 (tri _ _ _ _ (hM.xnear m) (hM.xnear n))
    (tri _ _ _ _ (hM.ynear m) (hM.ynear n)) hd2
  unfold way
  refine Real.le_sqrt_of_sq_le ?_
  push_cast
  exact this

/-- **C162**: such centres meet the conditions of C113 and C116, whatever the size of the grid, the cell sizes, the offset and
the rotation. -/
theorem C162_machine (hM : Measured L G b δ) (hq : Queen g) (hv : g.iverts = Edge.structuredVerts nrow ncol) :
    Machine G (nbrs g) where
  rnd := hM.rnd
  sqrt := hM.sqrt
  x := hM.x
  y := hM.y
  sized n m _ := ⟨sized_sub (hM.xgrain m) (hM.xgrain n) (hM.xsize m) (hM.xsize n),
    sized_sub (hM.ygrain m) (hM.ygrain n) (hM.ysize m) (hM.ysize n)⟩
  apart n m hm := by
    by_contra hc
    push Not at hc
    have h1 := hM.way_ge hq hv hm
    unfold way at h1
    rw [hc.1, hc.2] at h1
    have := hM.pos
    norm_num at h1
    linarith

/-- computed slopes stay below 1e10 if the relief is at most 2e9 cell widths -/
theorem Measured.below (hM : Measured L G b δ) (hq : Queen g) (hv : g.iverts = Edge.structuredVerts nrow ncol)
    {f : Fin (nrow * ncol) → ℚ} {D thr : ℚ} (hD : D ∈ Double) (hf : ∀ n m, f m - f n ≤ D)
    (hDb : (D : ℝ) ≤ 2 * 10 ^ 9 * b) : Dirs.Below G (Dirs.filled f) thr (10 ^ 10) (nbrs g) := by
  rintro n m hm s ⟨x, y, hx, hy, rfl⟩
  simp only [Dirs.filled, Option.some.injEq] at hx hy
  subst hx hy
  have hMa := C162_machine hM hq hv
  have hw := hM.way_ge hq hv hm
  have hd := (hMa.dist hm).1
  have hdpos := hMa.dist_pos n m hm
  have hD0 : 0 ≤ D := by have := hf n n; rwa [sub_self] at this
  have hdist : b * (4 / 10) ≤ (G.dist n m : ℝ) := by
    refine le_trans ?_ hd
    have h1 : (4 / 5 : ℝ) ≤ (1 - 1 / 2 ^ 53) ^ 2 * (1 - 1 / 2 ^ 52) := by norm_num
    have h2 : b / 2 * (4 / 5) ≤ way G n m * ((1 - 1 / 2 ^ 53) ^ 2 * (1 - 1 / 2 ^ 52)) :=
      mul_le_mul hw h1 (by norm_num) ((by have := hM.pos; linarith : (0 : ℝ) ≤ b / 2).trans hw)
    linarith
  rw [hM.rnd]
  have hrise : Dirs.rise G thr (f n) (f m) ≤ D := by
    unfold Dirs.rise
    rw [hM.rnd]
    split
    · exact hD0
    · exact rnd64_nearest.le_of_le hD (hf n m)
  have hmem : (5 * 10 ^ 9 : ℚ) ∈ Double := by
    refine ⟨5 * 10 ^ 9, 0, by norm_num, by norm_num, by norm_num⟩
  have hle : Dirs.rise G thr (f n) (f m) / G.dist n m ≤ 5 * 10 ^ 9 := by
    rw [div_le_iff₀ hdpos]
    refine hrise.trans ?_
    have : (D : ℝ) ≤ 5 * 10 ^ 9 * (G.dist n m : ℝ) := by linarith
    exact_mod_cast this
  exact lt_of_le_of_lt (rnd64_nearest.le_of_le hmem hle) (by norm_num)

/-- **C162**, the chain.  On every structured grid of 2 to 999999 cells, for every `float64` DEM: `fill_sinks` with method
"priority" and the default eps returns; no cell is lowered, none rises more than 24 above the highest; with the edge cells
without lower neighbour named terminal `flow_directions` returns; and, if these are tied with others at most in easy ties
(`CleanEnds`), water runs strictly downhill from every cell to the edge of the grid. -/
theorem C162_chain (hM : Measured L G b δ) (hq : Queen g) (hv : g.iverts = Edge.structuredVerts nrow ncol)
    (h2 : 2 ≤ nrow * ncol) (hN : nrow * ncol < 1000000) {dem : Fin (nrow * ncol) → double.Num} {pr : Promo}
    {lo hi D thr : ℚ} (hlo : ∀ n, lo ≤ (dem n).val) (hhi : ∀ n, (dem n).val ≤ hi)
    (hdem : ∀ n, |(dem n).val| ≤ 9 * 10 ^ 9) (hgr : ∀ n, Grain (dem n).val) (hD : D ∈ Double) (hrel : hi + 24 - lo ≤ D)
    (hDb : (D : ℝ) ≤ 2 * 10 ^ 9 * b) :
    ∃ f out, (∀ fuel, nrow * ncol + 1 ≤ fuel → fillSinksF fuel double pr eps6 g dem none "priority" = .ok f) ∧
      (∀ n, (dem n).val ≤ f n ∧ f n ≤ hi + 24) ∧
      (∀ fuel, 10 * (nrow * ncol) + 11 ≤ fuel → Dirs.flowDirections fuel G (Dirs.filled f) (10 ^ 10)
        (Dirs.table (nbrs g)) thr (ends g none f) = .ok out) ∧
      (Dirs.CleanEnds G (Dirs.filled f) thr (ends g none f) (nbrs g) →
        ∃ d : Fin (nrow * ncol) → Fin (nrow * ncol), Legal out d ∧ (∀ n, ¬ OnCycle d n) ∧
          (∀ n, d n ≠ n → Flood.Adj g.nbr n (d n) ∧ f (d n) < f n) ∧
          ∀ n, ∃ e, Reaches d n e ∧ d e = e ∧ (rowOf e = 0 ∨ rowOf e + 1 = nrow ∨ colOf e = 0 ∨ colOf e + 1 = ncol)) := by
  have hg : GoodGrid g none := C160_good hq hv h2 (by simp)
  have heff : Flood.effective (none : Option (Fin (nrow * ncol) → Bool)) "priority" = .priority := by
    unfold Flood.effective; rw [if_neg (by decide +kernel), if_pos (.inl (by decide +kernel))]
  have hpoly : ∀ n, g.iverts n ≠ [] := by intro n; rw [hv]; simp [Edge.structuredVerts]
  obtain ⟨r, hr⟩ := Flood.C05_terminates (g := g) (flood := double.store 0) (dem := dem) (mask := none)
    (method := "priority") (raise_infl .f64 pr eps6_nonneg) hpoly (by rw [heff]; decide)
  have hfill : ∀ fuel, nrow * ncol + 1 ≤ fuel →
      fillSinksF fuel double pr eps6 g dem none "priority" = .ok (fun n => (r n).val) := by
    intro fuel hf
    rw [fillSinksF_flood (by rw [heff]; decide), hr fuel hf]
    rfl
  set f : Fin (nrow * ncol) → ℚ := fun n => (r n).val with hfdef
  have hlow : ∀ n, (dem n).val ≤ f n := fun n =>
    (C110_never_lowers .f64 eps6_nonneg (by rw [heff]; decide) (hfill _ le_rfl) n).1
  obtain ⟨n0⟩ : Nonempty (Fin (nrow * ncol)) := ⟨⟨0, by omega⟩⟩
  -- the highest elevation
  obtain ⟨top, htop⟩ : ∃ top, ∀ n, dem n ≤ dem top := by
    obtain ⟨t, _, ht⟩ := Finset.exists_max_image Finset.univ dem ⟨n0, Finset.mem_univ _⟩
    exact ⟨t, fun n => ht n (Finset.mem_univ _)⟩
  have heps : eps6.val ≤ 3 / 10 ^ 6 := by
    have := eps6_bounds.2
    norm_num at this ⊢; linarith
  have hup : ∀ n, f n ≤ (dem top).val + 24 := by
    intro n
    have h1 := Flood.fillSinks_le (raise_infl .f64 pr eps6_nonneg) (raise_mono double pr eps6) (by rw [heff]; decide)
      (hr _ le_rfl) htop n
    have h3 := raise_iter_le .f64 pr eps6_nonneg (2 * (nrow * ncol)) (dem top)
    have h4 : (r n).val ≤ ((raise double pr eps6)^[2 * (nrow * ncol)] (dem top)).val := h1
    have h5 : ((2 * (nrow * ncol) : ℕ) : ℚ) * (4 * eps6.val) ≤ 2000000 * (4 * (3 / 10 ^ 6)) := by
      have : ((2 * (nrow * ncol) : ℕ) : ℚ) ≤ 2000000 := by exact_mod_cast (by omega)
      have := eps6_nonneg
      refine mul_le_mul (by assumption) (by linarith) (by linarith) (by norm_num)
    show (r n).val ≤ _
    have h6 : (2000000 : ℚ) * (4 * (3 / 10 ^ 6)) = 24 := by norm_num
    rw [h6] at h5
    linarith
  have hrange : ∀ n m, f m - f n ≤ D := fun n m => by
    have := hup m
    have := hhi top
    have := hlow n
    have := hlo n
    linarith
  have hbelow : Dirs.Below G (Dirs.filled f) thr (10 ^ 10) (nbrs g) := hM.below hq hv hD hrange hDb
  obtain ⟨out, hout⟩ := Dirs.C159_rounds (w := 8) G thr (good_ends (g := g) (mask := none) (f := f)).range hbelow (hasNbr hg)
    ⟨n0, f n0, rfl, by
      have h1 := hup n0
      have h3 := (abs_le.1 (hdem top)).2
      refine (h1.trans (add_le_add_left h3 24)).trans_lt (by norm_num)⟩ (nbrs_le_eight hq hv hg)
  refine ⟨f, out, hfill, fun n => ⟨hlow n, (hup n).trans (by have := hhi top; linarith)⟩,
    fun fuel hf => hout fuel (by omega), fun hend => ?_⟩
  obtain ⟨d, hnet, hdown⟩ := C113_network (C162_machine hM hq hv) hN
    (fun n => (hdem n).trans (by norm_num)) hgr heff (hfill _ le_rfl) hg good_ends hbelow hend (hout (10 * (nrow * ncol) + 11) (by omega))
  refine ⟨d, hnet.legal, hnet.acyclic, hdown, fun n => ?_⟩
  obtain ⟨e, e1, e2, e3⟩ := hnet.ends n
  exact ⟨e, e1, e2, (onEdge_iff hv e).1 e3⟩

/-! ### A concrete grid -/

/-- 30 rows and 40 columns of squares of side 0.1, not rotated, with the offset 1000, 2000 -/
noncomputable def layoutF : Layout 30 40 := ⟨fun _ => 1 / 10, fun _ => 1 / 10, 1000, 2000, 1, 0, by norm_num⟩

/-- their centres as `float64` numbers -/
def measF : Dirs.Geo (30 * 40) ℚ where
  xc n := rnd64 (1000 + ((colOf n : ℕ) + 1 / 2) / 10)
  yc n := rnd64 (2000 + (3 - ((rowOf n : ℕ) + 1 / 2) / 10))
  sqrt := sqrt64
  rnd := rnd64

theorem coord_aux {x : ℚ} (h1 : 1 ≤ x) (h2 : x ≤ 4096) :
    |rnd64 x - x| ≤ 1 / 2 ^ 40 ∧ (∃ k : ℤ, rnd64 x = k * 2 ^ (-500 : ℤ)) ∧ |rnd64 x| ≤ 2 ^ 97 := by
  have hm1 : (1 : ℚ) ∈ Double := ⟨1, 0, by norm_num, by norm_num, by norm_num⟩
  have hm2 : (4096 : ℚ) ∈ Double := ⟨4096, 0, by norm_num, by norm_num, by norm_num⟩
  have g1 := rnd64_nearest.ge_of_ge hm1 h1
  have g2 := rnd64_nearest.le_of_le hm2 h2
  have hx : |x| = x := abs_of_nonneg (by linarith)
  refine ⟨?_, ?_, ?_⟩
  · have := rel_err (p := 53) (by norm_num) rnd64_nearest (x := x) (by
      rw [hx]
      exact le_trans (zpow_le_one_of_nonpos₀ (by norm_num) (by norm_num)) h1)
    rw [hx] at this
    refine this.trans ?_
    rw [div_le_div_iff₀ (by norm_num) (by norm_num)]
    norm_num
    linarith
  · obtain ⟨k, hk⟩ := mul_of_ge (L := 0) (rnd64_nearest.mem x) (.inl (by
      rw [abs_of_nonneg (by linarith)]; simpa using g1))
    refine ⟨k * 2 ^ 448, ?_⟩
    rw [hk, show ((0 : ℤ) - (((53 : ℕ) : ℤ) - 1)) = (448 : ℕ) + (-500) by norm_num, zpow_add₀ (by norm_num), zpow_natCast]
    push_cast; ring
  · rw [abs_of_nonneg (by linarith)]
    exact g2.trans (by norm_num)

theorem cast_near {p q : ℚ} (h : |p - q| ≤ 1 / 2 ^ 40) : |(p : ℝ) - (q : ℝ)| ≤ 1 / 2 ^ 40 := by
  have := (Rat.cast_le (K := ℝ)).2 h
  push_cast at this
  exact this

theorem middle_tenth (k : ℕ) : middle (fun _ => (1 / 10 : ℝ)) k = ((k : ℝ) + 1 / 2) / 10 := by
  unfold middle
  rw [Finset.sum_const, Finset.card_range, nsmul_eq_mul]
  ring

theorem measured_layoutF : Measured layoutF measF (1 / 10) (1 / 2 ^ 40) := by
  have hx : ∀ n : Fin (30 * 40), (1 : ℚ) ≤ 1000 + ((colOf n : ℕ) + 1 / 2) / 10 ∧
      (1000 + ((colOf n : ℕ) + 1 / 2) / 10 : ℚ) ≤ 4096 := by
    intro n
    have h := colOf_lt n
    have h' : ((colOf n : ℕ) : ℚ) < 40 := by exact_mod_cast h
    have h0 : (0 : ℚ) ≤ ((colOf n : ℕ) : ℚ) := by positivity
    constructor <;> linarith
  have hy : ∀ n : Fin (30 * 40), (1 : ℚ) ≤ 2000 + (3 - ((rowOf n : ℕ) + 1 / 2) / 10) ∧
      (2000 + (3 - ((rowOf n : ℕ) + 1 / 2) / 10) : ℚ) ≤ 4096 := by
    intro n
    have h := rowOf_lt n
    have h' : ((rowOf n : ℕ) : ℚ) < 30 := by exact_mod_cast h
    have h0 : (0 : ℚ) ≤ ((rowOf n : ℕ) : ℚ) := by positivity
    constructor <;> linarith
  have ex : ∀ n : Fin (30 * 40), layoutF.geo.xc n = ((1000 + ((colOf n : ℕ) + 1 / 2) / 10 : ℚ) : ℝ) := by
    intro n
    simp only [Layout.geo, Layout.u, layoutF, middle_tenth]
    push_cast; ring
  have ey : ∀ n : Fin (30 * 40), layoutF.geo.yc n = ((2000 + (3 - ((rowOf n : ℕ) + 1 / 2) / 10) : ℚ) : ℝ) := by
    intro n
    simp only [Layout.geo, Layout.u, Layout.v, layoutF, middle_tenth, Finset.sum_const, Finset.card_range, nsmul_eq_mul]
    push_cast; ring
  refine ⟨by norm_num, fun _ => le_refl _, fun _ => le_refl _, by norm_num, rfl, sqrt64_ok, fun _ => rnd64_nearest.mem _,
    fun _ => rnd64_nearest.mem _, fun n => ?_, fun n => ?_, fun n => (coord_aux (hx n).1 (hx n).2).2.1,
    fun n => (coord_aux (hy n).1 (hy n).2).2.1, fun n => (coord_aux (hx n).1 (hx n).2).2.2,
    fun n => (coord_aux (hy n).1 (hy n).2).2.2⟩
  · rw [ex n]
    exact cast_near (coord_aux (hx n).1 (hx n).2).1
  · rw [ey n]
    exact cast_near (coord_aux (hy n).1 (hy n).2).1

/-- non-vacuity of `C162_chain`: any elevations between 0 and 8848 on that grid -/
example (dem : Fin (30 * 40) → double.Num) (h : ∀ n, 1 / 1000 ≤ (dem n).val ∧ (dem n).val ≤ 8848) :
    ∃ f out, (∀ fuel, 1201 ≤ fuel → fillSinksF fuel double .weak eps6 (rectGrid 30 40) dem none "priority" = .ok f) ∧
      ∀ fuel, 12011 ≤ fuel → Dirs.flowDirections fuel measF (Dirs.filled f) (10 ^ 10)
        (Dirs.table (nbrs (rectGrid 30 40))) Dirs.thr (ends (rectGrid 30 40) none f) = .ok out := by
  obtain ⟨f, out, h1, _, h3, _⟩ := C162_chain (pr := .weak) (thr := Dirs.thr) (lo := 0) (hi := 8848) (D := 8872)
    measured_layoutF (queen_rect 30 40) rfl (by norm_num)
    (by norm_num) (dem := dem) (fun n => by have := (h n).1; linarith) (fun n => (h n).2)
    (fun n => by
      rw [abs_of_nonneg (by have := (h n).1; linarith)]
      exact (h n).2.trans (by norm_num))
    (fun n => Grain.of_double (.inr (by
      rw [abs_of_nonneg (by have := (h n).1; linarith)]
      refine le_trans ?_ (h n).1
      have : (2 : ℚ) ^ (-848 : ℤ) ≤ 2 ^ (-10 : ℤ) := zpow_le_zpow_right₀ (by norm_num) (by norm_num)
      exact this.trans (by norm_num))))
    ⟨8872, 0, by norm_num, by norm_num, by norm_num⟩ (by norm_num) (by norm_num)
  exact ⟨f, out, h1, h3⟩

end Dany.Float
