import Verif.Geom.Props
import Verif.Geom.Area

/-!
# C178: the geometry in other units and another coordinate system

Coordinates in other units and another coordinate system: a similarity of the plane, that is lengths multiplied by `b`,
turned, mirrored (`s = -1`) and moved.  Elevations in other units (`a`) above another datum (`c`).
-/

namespace Dany.Geom

open Flow

variable {N : ℕ} {fdir : Fin N → ℤ}

/-- a similarity of the plane -/
structure Sim where
  p : ℝ
  q : ℝ
  s : ℝ
  u : ℝ
  v : ℝ
  b : ℝ
  pos : 0 < b
  len : p ^ 2 + q ^ 2 = b ^ 2
  side : s ^ 2 = 1

/-- the new coordinates of a point -/
def Sim.app (S : Sim) (z : ℝ × ℝ) : ℝ × ℝ :=
  (S.p * z.1 - S.s * S.q * z.2 + S.u, S.q * z.1 + S.s * S.p * z.2 + S.v)

variable (S : Sim)

/-- a similarity multiplies all distances by `b` -/
theorem Sim.norm (z w : ℝ × ℝ) : ((S.app z).1 - (S.app w).1) ^ 2 + ((S.app z).2 - (S.app w).2) ^ 2 =
    S.b ^ 2 * ((z.1 - w.1) ^ 2 + (z.2 - w.2) ^ 2) := by
  rw [← S.len]
  unfold Sim.app
  have e : ∀ x y : ℝ, (S.p * x - S.s * S.q * y) ^ 2 + (S.q * x + S.s * S.p * y) ^ 2 =
      (S.p ^ 2 + S.q ^ 2) * (x ^ 2 + y ^ 2) := by
    intro x y
    have : (S.p * x - S.s * S.q * y) ^ 2 + (S.q * x + S.s * S.p * y) ^ 2 =
      (S.p ^ 2 + S.q ^ 2) * (x ^ 2 + S.s ^ 2 * y ^ 2) := by ring
    rw [this, S.side, one_mul]
  rw [← e]
  ring

theorem Sim.sqrt (z w : ℝ × ℝ) : Real.sqrt (((S.app z).1 - (S.app w).1) ^ 2 + ((S.app z).2 - (S.app w).2) ^ 2) =
    S.b * Real.sqrt ((z.1 - w.1) ^ 2 + (z.2 - w.2) ^ 2) := by
  rw [S.norm, Real.sqrt_mul (sq_nonneg _), Real.sqrt_sq S.pos.le]

/-! ### areas -/

private theorem sumFrom_lin (p q s : ℝ) (a : ℝ × ℝ) (l : List (ℝ × ℝ)) :
    sumFrom (p * a.1 - s * q * a.2, q * a.1 + s * p * a.2)
      (l.map fun z => (p * z.1 - s * q * z.2, q * z.1 + s * p * z.2)) = s * (p ^ 2 + q ^ 2) * sumFrom a l := by
  induction l generalizing a with
  | nil => simp [sumFrom]
  | cons c l ih =>
    simp only [List.map_cons, sumFrom]
    rw [ih c]
    unfold cross
    ring

/-- **C178** (areas).  Areas are multiplied by `b²`. -/
theorem C178_area (polys : Fin N → List (ℝ × ℝ)) (n : Fin N) :
    shoelace (fun n => (polys n).map S.app) n = S.b ^ 2 * shoelace polys n := by
  rw [C40_patch, C40_patch]
  have e : (polys n).map S.app = ((polys n).map fun z => (S.p * z.1 - S.s * S.q * z.2, S.q * z.1 + S.s * S.p * z.2)).map
      fun z => (z.1 + (S.u, S.v).1, z.2 + (S.u, S.v).2) := by
    rw [List.map_map]; rfl
  rw [e, C40_translate]
  have h2 : twice ((polys n).map fun z => (S.p * z.1 - S.s * S.q * z.2, S.q * z.1 + S.s * S.p * z.2)) =
      S.s * (S.p ^ 2 + S.q ^ 2) * twice (polys n) := by
    unfold twice
    rw [List.getLast?_map]
    cases (polys n).getLast? with
    | none => simp
    | some l => exact sumFrom_lin _ _ _ l _
  unfold area
  rw [h2, S.len, mul_div_assoc, abs_mul, abs_mul]
  have h3 : |S.s| = 1 := by
    have := S.side
    rcases abs_cases S.s with ⟨h, h'⟩ | ⟨h, h'⟩ <;> nlinarith
  rw [h3, one_mul, abs_of_nonneg (sq_nonneg S.b)]

/-! ### slopes -/

/-- the fixed limit of 1e-6 below which a drop counts as none does not come between the two units -/
def Clear (a : ℝ) (x : ℝ) : Prop := x ≤ 0 ∨ 1 / 1000000 ≤ x ∧ 1 / 1000000 ≤ a * x ∨ x < 1 / 1000000 ∧ a * x < 1 / 1000000

theorem flat_mul {a x : ℝ} (ha : 0 < a) (h : Clear a x) : flat (a * x) = a * flat x := by
  unfold flat Clear at *
  rcases h with h | h | h
  · have : a * x ≤ 0 := mul_nonpos_of_nonneg_of_nonpos ha.le h
    rw [if_neg (by intro h'; linarith [h'.2]), if_neg (by intro h'; linarith [h'.2])]
  · rw [if_neg (by intro h'; linarith [h'.1, h.2]), if_neg (by intro h'; linarith [h'.1, h.1])]
  · by_cases h0 : 0 < x
    · rw [if_pos ⟨h.2, mul_pos ha h0⟩, if_pos ⟨h.1, h0⟩, mul_zero]
    · have : a * x ≤ 0 := mul_nonpos_of_nonneg_of_nonpos ha.le (not_lt.1 h0)
      rw [if_neg (by intro h'; linarith [h'.2]), if_neg (by intro h'; exact h0 h'.2)]

variable {xc yc xc' yc' : Fin N → ℝ}

theorem dist_sim (hx : ∀ n, (xc' n, yc' n) = S.app (xc n, yc n)) (n m : Fin N) :
    dist xc' yc' n m = S.b * dist xc yc n m := by
  have := S.sqrt (xc n, yc n) (xc m, yc m)
  rw [← hx, ← hx] at this
  exact this

/-- **C178** (slopes).  Slopes are multiplied by `a / b`, if no drop is cut off at 1e-6 in one unit only. -/
theorem C178_slope {a c : ℝ} (ha : 0 < a) (hx : ∀ n, (xc' n, yc' n) = S.app (xc n, yc n)) {dem dem' : Fin N → Option ℝ}
    (hdem : ∀ n, dem' n = (dem n).map fun z => a * z + c)
    (hclear : ∀ n m x y, pyIndex N (fdir n) = .ok m → dem n = some x → dem m = some y → Clear a (x - y)) :
    slope fdir xc' yc' dem' = (slope fdir xc yc dem).map fun s n => (s n).map fun z => a / S.b * z := by
  unfold slope
  cases ht : targets fdir with
  | err e => rfl
  | hang => rfl
  | ok d =>
    simp only [Res.map_ok]
    congr 1
    funext n
    have hp : pyIndex N (fdir n) = .ok (d n) := by
      unfold targets at ht
      split at ht
      · rename_i h
        simp only [Res.ok.injEq] at ht
        subst ht
        unfold pyIndex
        have := h n
        by_cases h0 : 0 ≤ fdir n
        · simp [h0, this.2]
        · simp [h0, not_le.1 h0, this.1]
      · cases ht
    unfold slopeAt
    rw [hdem, hdem, dist_sim S hx]
    cases h1 : dem n with
    | none => simp
    | some x =>
      cases h2 : dem (d n) with
      | none => simp
      | some y =>
        simp only [Option.map_some]
        have e1 : a * x + c - (a * y + c) = a * (x - y) := by ring
        rw [e1, flat_mul ha (hclear n _ x y hp h1 h2)]
        have hb := S.pos
        by_cases h0 : dist xc yc n (d n) = 0
        · rw [if_pos (by rw [h0, mul_zero]), if_pos h0]
          by_cases h3 : flat (x - y) = 0
          · simp [h3]
          · rw [if_neg (mul_ne_zero ha.ne' h3), if_neg h3]; rfl
        · rw [if_neg (mul_ne_zero hb.ne' h0), if_neg h0]
          simp only [Option.map_some, Option.some.injEq]
          field_simp

/-! ### lengths -/

private theorem sum_map_lin (l : List (ℝ × ℝ)) (x y z : ℝ) :
    (l.map fun w => x * w.1 + y * w.2 + z).sum = x * (l.map Prod.fst).sum + y * (l.map Prod.snd).sum + l.length * z := by
  induction l with
  | nil => simp
  | cons w l ih => simp only [List.map_cons, List.sum_cons, ih, List.length_cons]; push_cast; ring

theorem sharedVertex_sim (verts : ℕ → ℝ × ℝ) (iv0 iv1 : List ℕ) :
    sharedVertex (fun i => S.app (verts i)) iv0 iv1 = (sharedVertex verts iv0 iv1).map S.app := by
  unfold sharedVertex
  dsimp only
  rcases (iv0.filter (· ∈ iv1)) with _ | ⟨x, _ | ⟨y, l⟩⟩
  · rfl
  · rfl
  · simp only [List.map_cons, Res.map_ok]
    congr 1
    have e : ∀ l : List ℕ, l.map (fun i => S.app (verts i)) = (l.map verts).map S.app := fun l => by
      rw [List.map_map]; rfl
    have hl : ((verts x :: verts y :: l.map verts).length : ℝ) ≠ 0 := by simp; positivity
    have g1 := sum_map_lin (verts x :: verts y :: l.map verts) S.p (-(S.s * S.q)) S.u
    have g2 := sum_map_lin (verts x :: verts y :: l.map verts) S.q (S.s * S.p) S.v
    set L := verts x :: verts y :: l.map verts with hL
    have k1 : (S.app (verts x)).1 :: (S.app (verts y)).1 :: ((l.map (fun i => S.app (verts i))).map Prod.fst) =
        L.map fun w => S.p * w.1 + -(S.s * S.q) * w.2 + S.u := by
      rw [hL, e]; simp [Sim.app, sub_eq_add_neg]
    have k2 : (S.app (verts x)).2 :: (S.app (verts y)).2 :: ((l.map (fun i => S.app (verts i))).map Prod.snd) =
        L.map fun w => S.q * w.1 + (S.s * S.p) * w.2 + S.v := by
      rw [hL, e]; simp [Sim.app]
    have k3 : (verts x).1 :: (verts y).1 :: (l.map verts).map Prod.fst = L.map Prod.fst := by rw [hL]; rfl
    have k4 : (verts x).2 :: (verts y).2 :: (l.map verts).map Prod.snd = L.map Prod.snd := by rw [hL]; rfl
    rw [k1, k2, k3, k4]
    unfold mean
    rw [g1, g2]
    simp only [List.length_map]
    unfold Sim.app
    rw [Prod.mk.injEq]
    constructor <;> · dsimp only; field_simp; try ring

private theorem collect_map {α β : Type*} (f : α → β) (l : List (Res α)) :
    collect (l.map fun r => r.map f) = (collect l).map (List.map f) := by
  induction l with
  | nil => rfl
  | cons r l ih =>
    simp only [List.map_cons, collect]
    rw [ih]
    cases r with
    | ok a => cases collect l <;> rfl
    | err e => rfl
    | hang => rfl

/-- **C178** (lengths).  The lengths of the HRUs are multiplied by `b`; an exception stays the same. -/
theorem C178_hru_len (hx : ∀ n, (xc' n, yc' n) = S.app (xc n, yc n)) {iverts : Fin N → List ℕ} {verts : ℕ → ℝ × ℝ} :
    hruLen fdir iverts (fun i => S.app (verts i)) xc' yc' =
      (hruLen fdir iverts verts xc yc).map (List.map fun z => S.b * z) := by
  unfold hruLen
  rw [← collect_map, List.map_map]
  congr 1
  apply List.map_congr_left
  intro n _
  simp only [Function.comp]
  unfold hruLenAt
  cases pyIndex N (fdir n) with
  | err e => rfl
  | hang => rfl
  | ok dn =>
    simp only [Res.bind_ok]
    have e : (dn :: (List.finRange N).filter (fun u => fdir u = ((n : ℕ) : ℤ))).map (fun m =>
        sharedVertex (fun i => S.app (verts i)) (iverts n) (iverts m)) =
        (((dn :: (List.finRange N).filter (fun u => fdir u = ((n : ℕ) : ℤ))).map fun m =>
          sharedVertex verts (iverts n) (iverts m))).map fun r => r.map S.app := by
      rw [List.map_map]
      apply List.map_congr_left
      intro m _
      exact sharedVertex_sim S verts _ _
    rw [e, collect_map]
    cases collect ((dn :: (List.finRange N).filter (fun u => fdir u = ((n : ℕ) : ℤ))).map fun m =>
        sharedVertex verts (iverts n) (iverts m)) with
    | err e => rfl
    | hang => rfl
    | ok pts =>
      simp only [Res.map_ok, Res.ok.injEq, List.map_map, List.length_map]
      have k : (pts.map ((fun p : ℝ × ℝ => Real.sqrt ((p.1 - xc' n) ^ 2 + (p.2 - yc' n) ^ 2)) ∘ S.app)) =
          (pts.map fun p => Real.sqrt ((p.1 - xc n) ^ 2 + (p.2 - yc n) ^ 2)).map fun z => S.b * z := by
        rw [List.map_map]
        apply List.map_congr_left
        intro p _
        have := S.sqrt p (xc n, yc n)
        rw [← hx] at this
        exact this
      rw [k, List.sum_map_mul_left, List.map_id']
      ring

/-! ### directions -/

/-- **C178** (aspects).  The aspects of cells that flow to a cell with another centre turn with the coordinate system: by
`θ` degrees, backwards if it is mirrored, up to whole turns.  Cells flowing to themselves keep the aspect 0. -/
theorem C178_aspect {d : Fin N → Fin N} (hd : Resolves fdir d) (hx : ∀ n, (xc' n, yc' n) = S.app (xc n, yc n)) {θ : ℝ}
    (hp : S.p = S.b * Real.cos (θ * (Real.pi / 180))) (hq : S.q = S.b * Real.sin (θ * (Real.pi / 180)))
    {a a' : Fin N → ℝ} (h : aspect fdir xc yc = .ok a) (h' : aspect fdir xc' yc' = .ok a') (n : Fin N) :
    (d n = n → a' n = 0 ∧ a n = 0) ∧
      ((xc (d n), yc (d n)) ≠ (xc n, yc n) → ∃ k : ℤ, a' n = S.s * a n + θ + 360 * k) := by
  obtain ⟨a₁, e, h1⟩ := C41_aspect (xc := xc) (yc := yc) hd
  obtain ⟨a₂, e', h2⟩ := C41_aspect (xc := xc') (yc := yc') hd
  rw [h] at e; rw [h'] at e'
  cases e; cases e'
  refine ⟨fun hn => ⟨(h2 n).2.2.1 hn, (h1 n).2.2.1 hn⟩, fun hne => ?_⟩
  obtain ⟨c1, s1⟩ := (h1 n).2.2.2
  obtain ⟨c2, s2⟩ := (h2 n).2.2.2
  have hdist : 0 < dist xc yc n (d n) := by
    unfold dist
    apply Real.sqrt_pos.2
    by_contra hle
    have e1 := sq_nonneg (xc n - xc (d n))
    have e2 := sq_nonneg (yc n - yc (d n))
    have z1 : (xc n - xc (d n)) ^ 2 = 0 := by linarith
    have z2 : (yc n - yc (d n)) ^ 2 = 0 := by linarith
    apply hne
    have := pow_eq_zero_iff (two_ne_zero) |>.1 z1
    have := pow_eq_zero_iff (two_ne_zero) |>.1 z2
    rw [Prod.mk.injEq]
    constructor <;> linarith
  rw [dist_sim S hx] at c2 s2
  have hn := hx n
  have hm := hx (d n)
  unfold Sim.app at hn hm
  rw [Prod.mk.injEq] at hn hm
  dsimp only at hn hm
  have hb := S.pos
  have x1 : xc' (d n) - xc' n = S.p * (xc (d n) - xc n) - S.s * S.q * (yc (d n) - yc n) := by
    rw [hn.1, hm.1]; ring
  have y1 : yc' (d n) - yc' n = S.q * (xc (d n) - xc n) + S.s * S.p * (yc (d n) - yc n) := by
    rw [hn.2, hm.2]; ring
  rw [c1, s1, hp, hq, c2] at x1
  rw [c1, s1, hp, hq, s2] at y1
  have hbd : S.b * dist xc yc n (d n) ≠ 0 := mul_ne_zero hb.ne' hdist.ne'
  set r := Real.pi / 180 with hr
  have hcs : ∀ φ, Real.cos (S.s * φ) = Real.cos φ ∧ Real.sin (S.s * φ) = S.s * Real.sin φ := by
    intro φ
    have : S.s = 1 ∨ S.s = -1 := by
      have h0 : (S.s - 1) * (S.s + 1) = 0 := by have := S.side; linarith [this, sq S.s]
      rcases mul_eq_zero.1 h0 with h0 | h0
      · left; linarith
      · right; linarith
    rcases this with e | e <;> simp [e]
  have hcos : Real.cos (a' n * r) = Real.cos ((S.s * a n + θ) * r) := by
    have e : (S.s * a n + θ) * r = S.s * (a n * r) + θ * r := by ring
    rw [e, Real.cos_add, (hcs _).1, (hcs _).2]
    apply mul_left_cancel₀ hbd
    rw [x1]; ring
  have hsin : Real.sin (a' n * r) = Real.sin ((S.s * a n + θ) * r) := by
    have e : (S.s * a n + θ) * r = S.s * (a n * r) + θ * r := by ring
    rw [e, Real.sin_add, (hcs _).1, (hcs _).2]
    apply mul_left_cancel₀ hbd
    rw [y1]; ring
  have := Real.Angle.cos_sin_inj hcos hsin
  obtain ⟨k, hk⟩ := Real.Angle.angle_eq_iff_two_pi_dvd_sub.1 this
  refine ⟨k, ?_⟩
  have hpi := Real.pi_pos
  have : (a' n - (S.s * a n + θ + 360 * k)) * r = 0 := by
    have : a' n * r - (S.s * a n + θ) * r = 2 * Real.pi * k := hk
    have e : (360 : ℝ) * k * r = 2 * Real.pi * k := by rw [hr]; ring
    linarith
  have hr0 : r ≠ 0 := by rw [hr]; positivity
  have := (mul_eq_zero.1 this).resolve_right hr0
  linarith

/-! ### a concrete case: three cells, kilometres instead of metres, turned by a quarter -/

/-- the new y axis points to the old negative x, lengths in kilometres -/
noncomputable def simK : Sim where
  p := 0
  q := 1 / 1000
  s := 1
  u := 0
  v := 7
  b := 1 / 1000
  pos := by norm_num
  len := by norm_num
  side := by norm_num

example : ∃ s, slope fd3 xc3 yc3 (![some 3, some 2, none]) = .ok s ∧
    slope fd3 (fun n => (simK.app (xc3 n, yc3 n)).1) (fun n => (simK.app (xc3 n, yc3 n)).2)
      (fun n => ((![some 3, some 2, none] : Fin 3 → Option ℝ) n).map fun z => 1 / 100 * z + 4) =
      .ok fun n => (s n).map fun z => 1 / 100 / (1 / 1000) * z := by
  obtain ⟨s, h1, _⟩ := C42_slope (xc := xc3) (yc := yc3) (dem := ![some 3, some 2, none]) res3
  refine ⟨s, h1, ?_⟩
  have key := C178_slope (fdir := fd3) simK (a := 1 / 100) (c := 4) (by norm_num) (xc := xc3) (yc := yc3)
    (xc' := fun n => (simK.app (xc3 n, yc3 n)).1) (yc' := fun n => (simK.app (xc3 n, yc3 n)).2) (fun _ => rfl)
    (dem := ![some 3, some 2, none]) (fun _ => rfl) ?_
  · rw [key, h1]; rfl
  · intro n m x y hm hx hy
    rw [res3.pyIndex n] at hm
    cases hm
    fin_cases n
    · simp [d3] at hx hy
      subst hx hy
      right; left
      norm_num
    · simp [d3] at hy
    · simp at hx
example : shoelace (fun _ : Fin 1 => [(0, 0), (2, 0), (2, 3), (0, 3)].map simK.app) 0 =
    (1 / 1000) ^ 2 * shoelace (fun _ : Fin 1 => [((0 : ℝ), (0 : ℝ)), (2, 0), (2, 3), (0, 3)]) 0 :=
  C178_area simK _ 0

/-- **C178**: the condition on drops is needed.  A drop of half a millimetre over a metre has a slope in metres, and none in
kilometres. -/
theorem C178_slope_cut : ∃ (fdir : Fin 2 → ℤ) (xc yc : Fin 2 → ℝ) (dem : Fin 2 → Option ℝ),
    slope fdir xc yc dem = .ok ![some (1 / 2000), some 0] ∧
      slope fdir (fun n => 1 / 1000 * xc n) (fun n => 1 / 1000 * yc n)
        (fun n => (dem n).map fun z => 1 / 1000 * z) = .ok ![some 0, some 0] := by
  have hr : Resolves (![1, 1] : Fin 2 → ℤ) (![1, 1] : Fin 2 → Fin 2) :=
    Flow.Legal.resolves (by intro n; fin_cases n <;> rfl)
  refine ⟨![1, 1], ![0, 1], ![0, 0], ![some (1 / 2000), some 0], ?_, ?_⟩
  · unfold slope
    rw [targets_ok hr]
    simp only [Res.map_ok, Res.ok.injEq]
    funext n
    fin_cases n
    · norm_num [slopeAt, dist, flat]
    · norm_num [slopeAt, dist, flat]
  · unfold slope
    rw [targets_ok hr]
    simp only [Res.map_ok, Res.ok.injEq]
    funext n
    fin_cases n
    · norm_num [slopeAt, dist, flat]
    · norm_num [slopeAt, dist, flat]

end Dany.Geom
