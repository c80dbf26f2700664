import Verif.Geom.Model
import Verif.Flow.Lemmas
import Mathlib.Analysis.SpecialFunctions.Complex.Arg
import Mathlib.Tactic.FieldSimp
import Mathlib.Tactic.Ring

/-!
# C41–C43: aspect, vectors, slope, hru length

`Flow.Resolves fdir d` says that reading the array the way NumPy reads indices, cell `n` flows to `d n`.
-/

namespace Dany.Geom

open Flow

variable {N : ℕ} {fdir : Fin N → ℤ} {d : Fin N → Fin N} {xc yc : Fin N → ℝ}

theorem targets_ok (h : Resolves fdir d) : targets fdir = .ok d := by
  have hr : ∀ n, -(N : ℤ) ≤ fdir n ∧ fdir n < N := by
    intro n
    have := (d n).isLt
    rcases h n with ⟨h0, h1⟩ | ⟨h0, h1⟩ <;> omega
  unfold targets
  rw [dif_pos hr]
  congr 1
  funext n
  have := (d n).isLt
  rcases h n with ⟨h0, h1⟩ | ⟨h0, h1⟩
  · rw [dif_pos h0]; apply Fin.ext; simp only; omega
  · rw [dif_neg (by omega)]; apply Fin.ext; simp only; omega

/-! ### C41 -/

/-- The centre of `a` and the centre of `b` are `dist` apart, and `(u, v)` is the unit vector from the
first to the second. -/
def Points (xc yc : Fin N → ℝ) (a b : Fin N) (u v : ℝ) : Prop :=
  u ^ 2 + v ^ 2 = 1 ∧ ∃ r : ℝ, 0 < r ∧ xc b - xc a = r * u ∧ yc b - yc a = r * v

theorem degrees_range (x y : ℝ) : 0 ≤ degrees x y ∧ degrees x y < 360 := by
  have h1 := Complex.neg_pi_lt_arg ⟨x, y⟩
  have h2 := Complex.arg_le_pi ⟨x, y⟩
  have hpi := Real.pi_pos
  have e : ∀ t : ℝ, t * (180 / Real.pi) = 180 * (t / Real.pi) := fun t => by ring
  have b1 : -1 < Complex.arg ⟨x, y⟩ / Real.pi := by
    rw [lt_div_iff₀ hpi]; linarith
  have b2 : Complex.arg ⟨x, y⟩ / Real.pi ≤ 1 := by
    rw [div_le_iff₀ hpi]; linarith
  unfold degrees
  dsimp only
  rw [e]
  split
  · rename_i h; constructor <;> linarith
  · rename_i h; exact ⟨not_lt.1 h, by linarith⟩

theorem degrees_radians (x y : ℝ) : Real.cos (degrees x y * (Real.pi / 180)) = Real.cos (Complex.arg ⟨x, y⟩)
    ∧ Real.sin (degrees x y * (Real.pi / 180)) = Real.sin (Complex.arg ⟨x, y⟩) := by
  have hpi := Real.pi_ne_zero
  have e1 : Complex.arg ⟨x, y⟩ * (180 / Real.pi) * (Real.pi / 180) = Complex.arg ⟨x, y⟩ := by
    field_simp
  unfold degrees
  dsimp only
  split
  · have e2 : (Complex.arg ⟨x, y⟩ * (180 / Real.pi) + 360) * (Real.pi / 180)
        = Complex.arg ⟨x, y⟩ + 2 * Real.pi := by
      rw [add_mul, e1]; ring
    rw [e2, Real.cos_add_two_pi, Real.sin_add_two_pi]
    exact ⟨rfl, rfl⟩
  · rw [e1]; exact ⟨rfl, rfl⟩

/-- **C41**: the aspect is an angle in [0, 360), measured counter-clockwise from the x axis to the
direction of the cell flowed to; it is 0 for a cell flowing to itself. -/
theorem C41_aspect (h : Resolves fdir d) : ∃ a, aspect fdir xc yc = .ok a ∧ ∀ n,
    0 ≤ a n ∧ a n < 360 ∧ (d n = n → a n = 0) ∧
    (xc (d n) - xc n = dist xc yc n (d n) * Real.cos (a n * (Real.pi / 180)) ∧
      yc (d n) - yc n = dist xc yc n (d n) * Real.sin (a n * (Real.pi / 180))) := by
  unfold aspect
  rw [targets_ok h]
  refine ⟨_, rfl, fun n => ?_⟩
  obtain ⟨h1, h2⟩ := degrees_range (xc (d n) - xc n) (yc (d n) - yc n)
  refine ⟨h1, h2, fun hn => ?_, ?_⟩
  · dsimp only
    rw [hn]
    have : (⟨xc n - xc n, yc n - yc n⟩ : ℂ) = 0 := by apply Complex.ext <;> simp
    unfold degrees
    rw [this]
    simp
  · obtain ⟨e1, e2⟩ := degrees_radians (xc (d n) - xc n) (yc (d n) - yc n)
    dsimp only
    rw [e1, e2]
    have hz : dist xc yc n (d n) = ‖(⟨xc (d n) - xc n, yc (d n) - yc n⟩ : ℂ)‖ := by
      rw [Complex.norm_def, Complex.normSq_apply]
      unfold dist
      congr 1
      ring
    rw [hz, Complex.norm_mul_cos_arg, Complex.norm_mul_sin_arg]
    exact ⟨rfl, rfl⟩

/-- **C41**: `vectors` gives unit vectors; that of a cell flowing to a cell with another centre points from
its centre to that centre, that of a cell flowing to itself is (1, 0). -/
theorem C41_vectors (h : Resolves fdir d) : ∃ u v, vectors fdir xc yc = .ok (u, v) ∧ ∀ n,
    u n ^ 2 + v n ^ 2 = 1 ∧ (d n = n → u n = 1 ∧ v n = 0) ∧
    ((xc (d n), yc (d n)) ≠ (xc n, yc n) → Points xc yc n (d n) (u n) (v n)) := by
  obtain ⟨a, ha, hs⟩ := C41_aspect (xc := xc) (yc := yc) h
  unfold vectors
  rw [ha]
  refine ⟨_, _, rfl, fun n => ?_⟩
  obtain ⟨_, _, h3, h4, h5⟩ := hs n
  have hunit : Real.cos (a n * (Real.pi / 180)) ^ 2 + Real.sin (a n * (Real.pi / 180)) ^ 2 = 1 :=
    Real.cos_sq_add_sin_sq _
  refine ⟨hunit, fun hn => by simp [h3 hn], fun hne => ⟨hunit, dist xc yc n (d n), ?_, h4, h5⟩⟩
  unfold dist
  apply Real.sqrt_pos.2
  by_contra hle
  have e1 := sq_nonneg (xc n - xc (d n))
  have e2 := sq_nonneg (yc n - yc (d n))
  have z1 : (xc n - xc (d n)) ^ 2 = 0 := by linarith
  have z2 : (yc n - yc (d n)) ^ 2 = 0 := by linarith
  apply hne
  have := pow_eq_zero_iff (two_ne_zero) |>.1 z1
  have := pow_eq_zero_iff (two_ne_zero) |>.1 z2
  rw [Prod.mk.injEq]
  constructor <;> linarith

/-! ### C42 -/

/-- **C42.** The slope is 0 at cells flowing to themselves and where an elevation is missing; not negative
where the cell flowed to is not higher; and drop over distance if the drop is at least 1e-6 or not positive
(0 if it is between 0 and 1e-6), provided the two centres differ. -/
theorem C42_slope {dem : Fin N → Option ℝ} (h : Resolves fdir d) :
    ∃ s, slope fdir xc yc dem = .ok s ∧ ∀ n,
      (d n = n → s n = some 0) ∧
      (dem n = none ∨ dem (d n) = none → s n = some 0) ∧
      ∀ a b, dem n = some a → dem (d n) = some b → (xc (d n), yc (d n)) ≠ (xc n, yc n) →
        0 < dist xc yc n (d n) ∧
        (1 / 1000000 ≤ a - b ∨ a - b ≤ 0 → s n = some ((a - b) / dist xc yc n (d n))) ∧
        (0 < a - b ∧ a - b < 1 / 1000000 → s n = some 0) ∧
        (b ≤ a → ∃ r, s n = some r ∧ 0 ≤ r) := by
  unfold slope
  rw [targets_ok h]
  refine ⟨_, rfl, fun n => ⟨fun hn => ?_, fun hn => ?_, fun a b ha hb hne => ?_⟩⟩
  · dsimp only
    rw [hn]
    unfold slopeAt
    cases hd : dem n with
    | none => rfl
    | some a => simp [dist, flat]
  · unfold slopeAt
    rcases hn with hn | hn
    · simp [hn]
    · cases dem n <;> simp [hn]
  · have hpos : 0 < dist xc yc n (d n) := by
      unfold dist
      apply Real.sqrt_pos.2
      by_contra hle
      have e1 := sq_nonneg (xc n - xc (d n))
      have e2 := sq_nonneg (yc n - yc (d n))
      have z1 : (xc n - xc (d n)) ^ 2 = 0 := by linarith
      have z2 : (yc n - yc (d n)) ^ 2 = 0 := by linarith
      apply hne
      have := pow_eq_zero_iff (two_ne_zero) |>.1 z1
      have := pow_eq_zero_iff (two_ne_zero) |>.1 z2
      rw [Prod.mk.injEq]
      constructor <;> linarith
    have hs : slopeAt xc yc dem n (d n) = some (flat (a - b) / dist xc yc n (d n)) := by
      unfold slopeAt
      simp [ha, hb, hpos.ne']
    dsimp only
    rw [hs]
    refine ⟨hpos, fun hc => ?_, fun hc => ?_, fun hle => ⟨_, rfl, ?_⟩⟩
    · have : flat (a - b) = a - b := by
        unfold flat
        rw [if_neg]
        rintro ⟨h1, h2⟩
        rcases hc with hc | hc <;> linarith
      rw [this]
    · have : flat (a - b) = 0 := by
        unfold flat
        rw [if_pos ⟨hc.2, hc.1⟩]
      rw [this, zero_div]
    · apply div_nonneg _ hpos.le
      unfold flat
      split
      · exact le_rfl
      · linarith

/-! ### C43 -/

/-- The place where cells `n` and `m` meet: the mean of the vertices of `n` that are also vertices of `m`. -/
noncomputable def meeting (iverts : Fin N → List ℕ) (verts : ℕ → ℝ × ℝ) (n m : Fin N) : ℝ × ℝ :=
  let l := (iverts n).filter (· ∈ iverts m)
  ((l.map fun i => (verts i).1).sum / l.length, (l.map fun i => (verts i).2).sum / l.length)

/-- The cell `n` drains to, and the cells that drain to `n`, in the order of their numbers. -/
def linked (fdir : Fin N → ℤ) (d : Fin N → Fin N) (n : Fin N) : List (Fin N) :=
  d n :: (List.finRange N).filter (fun u => fdir u = ((n : ℕ) : ℤ))

theorem sharedVertex_ok {iverts : Fin N → List ℕ} (verts : ℕ → ℝ × ℝ) {n m : Fin N}
    (h : ∃ i ∈ iverts n, i ∈ iverts m) :
    sharedVertex verts (iverts n) (iverts m) = .ok (meeting iverts verts n m) := by
  obtain ⟨i, h1, h2⟩ := h
  have hne : (iverts n).filter (· ∈ iverts m) ≠ [] :=
    List.ne_nil_of_mem (List.mem_filter.2 ⟨h1, by simpa using h2⟩)
  unfold sharedVertex meeting
  dsimp only
  rcases hl : (iverts n).filter (· ∈ iverts m) with _ | ⟨x, _ | ⟨y, l⟩⟩
  · exact absurd hl hne
  · simp
  · simp [mean, Function.comp_def]

theorem sharedVertex_err {iverts : Fin N → List ℕ} (verts : ℕ → ℝ × ℝ) {n m : Fin N}
    (h : ¬ ∃ i ∈ iverts n, i ∈ iverts m) :
    sharedVertex verts (iverts n) (iverts m) = .err .indexError := by
  have : (iverts n).filter (· ∈ iverts m) = [] := by
    rw [List.filter_eq_nil_iff]
    intro i hi
    simp only [decide_eq_true_eq]
    exact fun h' => h ⟨i, hi, h'⟩
  simp [sharedVertex, this]

theorem collect_ok {α β : Type*} {l : List β} {f : β → Res α} {g : β → α}
    (h : ∀ b ∈ l, f b = .ok (g b)) : collect (l.map f) = .ok (l.map g) := by
  induction l with
  | nil => rfl
  | cons b l ih =>
    simp only [List.map_cons, collect]
    rw [h b (by simp), ih (fun b hb => h b (List.mem_cons_of_mem _ hb))]
    rfl

theorem collect_of_ok {α β : Type*} {l : List β} {f : β → Res α} {r : List α}
    (h : collect (l.map f) = .ok r) : ∀ b ∈ l, ∃ a, f b = .ok a := by
  induction l generalizing r with
  | nil => intro b hb; cases hb
  | cons c l ih =>
    simp only [List.map_cons, collect] at h
    obtain ⟨a, ha, h⟩ := Res.bind_eq_ok.1 h
    obtain ⟨r', hr', _⟩ := Res.map_eq_ok.1 h
    intro b hb
    rcases List.mem_cons.1 hb with rfl | hb
    · exact ⟨a, ha⟩
    · exact ih hr' b hb

/-- **C43.** `hru_len` is defined exactly if every cell shares a vertex with the cell it drains to and with
every cell draining to it; it is then, for each cell, twice the mean distance of its centre from the places
where it meets these cells. -/
theorem C43_hru_len {iverts : Fin N → List ℕ} {verts : ℕ → ℝ × ℝ} (h : Resolves fdir d) :
    ((∃ r, hruLen fdir iverts verts xc yc = .ok r) ↔
      ∀ n, ∀ m ∈ linked fdir d n, ∃ i ∈ iverts n, i ∈ iverts m) ∧
    ∀ r, hruLen fdir iverts verts xc yc = .ok r → r.length = N ∧ ∀ n : Fin N,
      r[n.val]? = some (2 * (((linked fdir d n).map fun m =>
        Real.sqrt (((meeting iverts verts n m).1 - xc n) ^ 2 + ((meeting iverts verts n m).2 - yc n) ^ 2)).sum
          / (linked fdir d n).length)) := by
  have hlink : ∀ n, pyIndex N (fdir n) = .ok (d n) := fun n => h.pyIndex n
  have hone : ∀ n, (∀ m ∈ linked fdir d n, ∃ i ∈ iverts n, i ∈ iverts m) →
      hruLenAt fdir iverts verts xc yc n = .ok (2 * (((linked fdir d n).map fun m =>
        Real.sqrt (((meeting iverts verts n m).1 - xc n) ^ 2 + ((meeting iverts verts n m).2 - yc n) ^ 2)).sum
          / (linked fdir d n).length)) := by
    intro n hs
    unfold hruLenAt
    rw [hlink]
    simp only [Res.bind_ok]
    have := collect_ok (l := linked fdir d n)
      (f := fun m => sharedVertex verts (iverts n) (iverts m)) (g := fun m => meeting iverts verts n m)
      (fun m hm => sharedVertex_ok verts (hs m hm))
    unfold linked at this
    rw [this]
    simp only [Res.map_ok, List.map_map, List.length_map, Function.comp_def]
    congr 1
    unfold linked
    have hz : (((d n :: (List.finRange N).filter fun u => fdir u = ((n : ℕ) : ℤ)).length : ℕ) : ℝ) ≠ 0 := by
      exact Nat.cast_ne_zero.2 (by simp)
    field_simp
  have hfail : ∀ n a, hruLenAt fdir iverts verts xc yc n = .ok a →
      ∀ m ∈ linked fdir d n, ∃ i ∈ iverts n, i ∈ iverts m := by
    intro n a ha m hm
    unfold hruLenAt at ha
    rw [hlink] at ha
    simp only [Res.bind_ok] at ha
    obtain ⟨pts, hp, _⟩ := Res.map_eq_ok.1 ha
    obtain ⟨p, hp⟩ := collect_of_ok hp m hm
    by_contra hc
    rw [sharedVertex_err verts hc] at hp
    cases hp
  have hall : (∀ n, ∀ m ∈ linked fdir d n, ∃ i ∈ iverts n, i ∈ iverts m) →
      hruLen fdir iverts verts xc yc = .ok ((List.finRange N).map fun n =>
        2 * (((linked fdir d n).map fun m =>
        Real.sqrt (((meeting iverts verts n m).1 - xc n) ^ 2 + ((meeting iverts verts n m).2 - yc n) ^ 2)).sum
          / (linked fdir d n).length)) := by
    intro hs
    exact collect_ok (fun n _ => hone n (hs n))
  have hback : ∀ r, hruLen fdir iverts verts xc yc = .ok r →
      ∀ n, ∀ m ∈ linked fdir d n, ∃ i ∈ iverts n, i ∈ iverts m := by
    intro r hr n
    obtain ⟨a, ha⟩ := collect_of_ok hr n (List.mem_finRange n)
    exact hfail n a ha
  refine ⟨⟨fun ⟨r, hr⟩ => hback r hr, fun hs => ⟨_, hall hs⟩⟩, fun r hr => ?_⟩
  rw [hall (hback r hr)] at hr
  simp only [Res.ok.injEq] at hr
  subst hr
  refine ⟨by simp, fun n => ?_⟩
  rw [List.getElem?_map, List.getElem?_eq_getElem (by simp)]
  simp

/-- **C43**: `hru_len` is never negative. -/
theorem C43_nonneg {iverts : Fin N → List ℕ} {verts : ℕ → ℝ × ℝ} (h : Resolves fdir d) {r : List ℝ}
    (hr : hruLen fdir iverts verts xc yc = .ok r) : ∀ x ∈ r, 0 ≤ x := by
  obtain ⟨hlen, hval⟩ := (C43_hru_len h).2 r hr
  intro x hx
  obtain ⟨i, hi, rfl⟩ := List.mem_iff_getElem.1 hx
  have := hval ⟨i, hlen ▸ hi⟩
  rw [List.getElem?_eq_getElem hi, Option.some.injEq] at this
  rw [this]
  refine mul_nonneg (by norm_num) (div_nonneg (List.sum_nonneg ?_) (Nat.cast_nonneg _))
  intro y hy
  obtain ⟨m, _, rfl⟩ := List.mem_map.1 hy
  exact Real.sqrt_nonneg _

/-- **C43**: if the centre of a cell is at distance `ρ` from all places where it meets the cells it is
connected to, its length is `2 ρ`: a square cell crossed between two opposite sides has the length of a side. -/
theorem C43_uniform {iverts : Fin N → List ℕ} {verts : ℕ → ℝ × ℝ} (h : Resolves fdir d) {r : List ℝ}
    (hr : hruLen fdir iverts verts xc yc = .ok r) {n : Fin N} {ρ : ℝ}
    (hρ : ∀ m ∈ linked fdir d n, Real.sqrt (((meeting iverts verts n m).1 - xc n) ^ 2 +
      ((meeting iverts verts n m).2 - yc n) ^ 2) = ρ) : r[n.val]? = some (2 * ρ) := by
  rw [((C43_hru_len h).2 r hr).2 n]
  have : (linked fdir d n).map (fun m => Real.sqrt (((meeting iverts verts n m).1 - xc n) ^ 2 +
      ((meeting iverts verts n m).2 - yc n) ^ 2)) = List.replicate (linked fdir d n).length ρ := by
    rw [List.eq_replicate_iff]
    exact ⟨by simp, fun b hb => by obtain ⟨m, hm, rfl⟩ := List.mem_map.1 hb; exact hρ m hm⟩
  rw [this, List.sum_replicate]
  have hz : ((linked fdir d n).length : ℝ) ≠ 0 := by
    unfold linked
    exact Nat.cast_ne_zero.2 (by simp)
  congr 2
  rw [nsmul_eq_mul]
  field_simp

/-! ### Concrete cells: a row of three unit squares draining to the right -/

def fd3 : Fin 3 → ℤ := ![1, 2, 2]
def d3 : Fin 3 → Fin 3 := ![1, 2, 2]
noncomputable def xc3 : Fin 3 → ℝ := ![1/2, 3/2, 5/2]
noncomputable def yc3 : Fin 3 → ℝ := fun _ => 1/2
def iv3 : Fin 3 → List ℕ := ![[0, 1, 5, 4], [1, 2, 6, 5], [2, 3, 7, 6]]
def verts3 (i : ℕ) : ℝ × ℝ := ((i % 4 : ℕ), (i / 4 : ℕ))

theorem res3 : Resolves fd3 d3 := Flow.Legal.resolves (by intro n; fin_cases n <;> rfl)

-- the middle cell is crossed between opposite sides
example : ∃ r, hruLen fd3 iv3 verts3 xc3 yc3 = .ok r ∧ r[1]? = some (2 * (1/2)) := by
  have hs : ∀ n, ∀ m ∈ linked fd3 d3 n, ∃ i ∈ iv3 n, i ∈ iv3 m := by decide
  obtain ⟨r, hr⟩ := ((C43_hru_len (xc := xc3) (yc := yc3) (verts := verts3) res3).1).2 hs
  refine ⟨r, hr, C43_uniform (n := 1) res3 hr ?_⟩
  intro m hm
  have e : linked fd3 d3 1 = [2, 0] := by decide
  rw [e] at hm
  have f1 : (iv3 1).filter (· ∈ iv3 2) = [2, 6] := by decide
  have f2 : (iv3 1).filter (· ∈ iv3 0) = [1, 5] := by decide
  have hq : Real.sqrt ((1/2) ^ 2) = 1/2 := Real.sqrt_sq (by norm_num)
  rcases List.mem_cons.1 hm with rfl | hm
  · unfold meeting
    rw [f1]
    norm_num [verts3, xc3, yc3] at hq ⊢
    exact hq
  · rw [List.mem_singleton] at hm
    subst hm
    unfold meeting
    rw [f2]
    norm_num [verts3, xc3, yc3] at hq ⊢
    exact hq

-- an aspect of 0 and a slope of 1/2
example : ∃ a, aspect fd3 xc3 yc3 = .ok a ∧ 0 ≤ a 0 := by
  obtain ⟨a, h1, h2⟩ := C41_aspect (xc := xc3) (yc := yc3) res3
  exact ⟨a, h1, (h2 0).1⟩
example : ∃ s, slope fd3 xc3 yc3 (![some 3, some 2, none]) = .ok s ∧
    s 0 = some ((3 - 2) / dist xc3 yc3 0 1) ∧ s 1 = some 0 ∧ s 2 = some 0 := by
  obtain ⟨s, h1, h2⟩ := C42_slope (xc := xc3) (yc := yc3) (dem := ![some 3, some 2, none]) res3
  refine ⟨s, h1, ((h2 0).2.2 3 2 rfl rfl ?_).2.1 (.inl (by norm_num)), (h2 1).2.1 (.inr rfl),
    (h2 2).1 rfl⟩
  simp [d3, xc3]
  norm_num

end Dany.Geom
