import Verif.Dirs.Props
import Verif.Dirs.Witness
import Mathlib.Data.Real.Sqrt
import Mathlib.Tactic.FinCases

/-!
# C134: flow directions do not depend on datum and units

The method compares elevations with elevations, and slopes of a cell with one another; so whatever keeps these
comparisons keeps its result, ties and exceptions included.
-/

namespace Dany.Dirs

variable {N : ℕ} {K L : Type*} [Field K] [LinearOrder K] [Field L] [LinearOrder L]

/-- the same entries have values, and they are in the same order -/
def SameOrder (s : Entry N → Option K) (s' : Entry N → Option L) (row : List (Entry N)) : Prop :=
  (∀ e ∈ row, s e = none ↔ s' e = none) ∧
  ∀ e ∈ row, ∀ e' ∈ row, ∀ v v' w w', s e = some v → s' e = some v' → s e' = some w → s' e' = some w' →
    (v ≤ w ↔ v' ≤ w')

theorem fcell_filter (s : Entry N → Option K) (row : List (Entry N)) :
    fcell s row = row.filter (fun e => decide (e ∈ fcell s row)) := by
  have h : ∀ q : Entry N → Bool, row.filter q = row.filter (fun e => decide (e ∈ row.filter q)) := by
    intro q
    refine List.filter_congr fun e he => ?_
    rw [Bool.eq_iff_iff]
    simp [List.mem_filter, he]
  unfold fcell
  split
  · simp
  · exact h _

theorem fcell_congr {s : Entry N → Option K} {s' : Entry N → Option L} {row : List (Entry N)}
    (h : SameOrder s s' row) : fcell s row = fcell s' row := by
  rw [fcell_filter s, fcell_filter s']
  refine List.filter_congr fun e he => ?_
  rw [decide_eq_decide, mem_fcell, mem_fcell]
  refine and_congr_right fun _ => ?_
  constructor
  · rintro ⟨v, hv, hle⟩
    obtain ⟨v', hv'⟩ := Option.ne_none_iff_exists'.1 (fun e' => by simpa [hv] using (h.1 e he).2 e')
    refine ⟨v', hv', fun e' he' w' hw' => ?_⟩
    obtain ⟨w, hw⟩ := Option.ne_none_iff_exists'.1 (fun e0 => by simpa [hw'] using (h.1 e' he').1 e0)
    exact (h.2 e he e' he' v v' w w' hv hv' hw hw').1 (hle e' he' w hw)
  · rintro ⟨v', hv', hle⟩
    obtain ⟨v, hv⟩ := Option.ne_none_iff_exists'.1 (fun e0 => by simpa [hv'] using (h.1 e he).1 e0)
    refine ⟨v, hv, fun e' he' w hw => ?_⟩
    obtain ⟨w', hw'⟩ := Option.ne_none_iff_exists'.1 (fun e0 => by simpa [hw] using (h.1 e' he').2 e0)
    exact (h.2 e he e' he' v v' w w' hv hv' hw hw').2 (hle e' he' w' hw')

/-- The result depends on the comparisons only. -/
theorem flowDirections_sameOrder {fuel : ℕ} {G : Geo N K} {G' : Geo N L} {dem : Fin N → Option K}
    {dem' : Fin N → Option L} {big thr : K} {big' thr' : L} {rows : Fin N → List (Entry N)} {terminals : List ℤ}
    (hd : SameOrder (fun e => match e with | none => some big | some n => dem n)
      (fun e => match e with | none => some big' | some n => dem' n) ((List.finRange N).map some ++ [none]))
    (hs : ∀ n, SameOrder (slopeTo G dem thr big n) (slopeTo G' dem' thr' big' n) (pad rows n)) :
    flowDirections fuel G dem big rows thr terminals = flowDirections fuel G' dem' big' rows thr' terminals := by
  have h1 : minCells dem big = minCells dem' big' := fcell_congr hd
  have h2 : fcells G dem thr big rows = fcells G' dem' thr' big' rows := by
    unfold fcells
    congr 2
    funext n
    exact fcell_congr (hs n)
  have h3 : (fun n => (dem n).isSome) = fun n => (dem' n).isSome := by
    funext n
    have := hd.1 (some n) (by simp)
    cases h : dem n <;> cases h' : dem' n <;> simp [h, h'] at this ⊢
  unfold flowDirections
  rw [h1, h2, h3]

/-- The cell centres of two grids, up to a change of the unit of length (`b`), translation, rotation and reflection. -/
def Similar (b : ℝ) (G G' : Geo N ℝ) : Prop :=
  ∀ n m, (G'.xc m - G'.xc n) ^ 2 + (G'.yc m - G'.yc n) ^ 2 = b ^ 2 * ((G.xc m - G.xc n) ^ 2 + (G.yc m - G.yc n) ^ 2)

/-- exact arithmetic -/
def Exact (G : Geo N ℝ) : Prop := G.sqrt = Real.sqrt ∧ G.rnd = id

theorem dist_similar {b : ℝ} (hb : 0 < b) {G G' : Geo N ℝ} (hG : Exact G) (hG' : Exact G') (h : Similar b G G')
    (n m : Fin N) : G'.dist n m = b * G.dist n m := by
  unfold Geo.dist
  rw [hG.1, hG.2, hG'.1, hG'.2]
  simp only [id]
  rw [h n m, Real.sqrt_mul (sq_nonneg b), Real.sqrt_sq hb.le]

theorem slopeTo_none {G : Geo N K} {dem : Fin N → Option K} {thr big : K} {n m : Fin N} :
    slopeTo G dem thr big n (some m) = none ↔ dem n = none ∨ dem m = none := by
  cases h : dem n <;> cases h' : dem m <;> simp [slopeTo, h, h']

theorem slopeTo_affine {a b c : ℝ} (ha : 0 < a) {G G' : Geo N ℝ} (hG : Exact G) (hG' : Exact G')
    {dem dem' : Fin N → Option ℝ} (hdem : ∀ n, dem' n = (dem n).map fun v => a * v + c) {thr big : ℝ} {n m : Fin N}
    (hd : G'.dist n m = b * G.dist n m) :
    slopeTo G' dem' (a * thr) big n (some m) = (slopeTo G dem thr big n (some m)).map fun s => a / b * s := by
  dsimp only [slopeTo]
  rw [hdem n, hdem m]
  cases dem n with
  | none => rfl
  | some x =>
    cases dem m with
    | none => rfl
    | some y =>
      simp only [Option.map_some, hG.2, hG'.2, id, hd, Option.some.injEq]
      have h1 : a * y + c - (a * x + c) = a * (y - x) := by ring
      have h2 : flatten (a * thr) (a * (y - x)) = a * flatten thr (y - x) := by
        unfold flatten
        simp only [mul_lt_mul_iff_right₀ ha, mul_pos_iff_of_pos_left ha]
        split <;> simp
      rw [h1, h2, mul_div_mul_comm]

theorem mem_pad_table {nbr : Fin N → List (Fin N)} {n m : Fin N} (h : some m ∈ pad (table nbr) n) : m ∈ nbr n := by
  unfold pad table at h
  rcases List.mem_append.1 h with h | h
  · simpa using h
  · have := List.eq_of_mem_replicate h
    cases this

/-- **C134.**  Elevations in another unit (`a`) and above another datum (`c`), the threshold in the same unit,
lengths in another unit (`b`) and another coordinate system: `flow_directions` gives the same result — the same array, the
same exception, also if there are ties — as long as elevations and slopes stay below 10¹⁰ in both. -/
theorem C134_units {fuel : ℕ} {a b c big thr : ℝ} (ha : 0 < a) (hb : 0 < b) {G G' : Geo N ℝ} (hG : Exact G)
    (hG' : Exact G') (hsim : Similar b G G') {dem dem' : Fin N → Option ℝ}
    (hdem : ∀ n, dem' n = (dem n).map fun v => a * v + c) {nbr : Fin N → List (Fin N)}
    (hlt : ∀ n v, dem n = some v → v < big) (hlt' : ∀ n v, dem' n = some v → v < big)
    (hbelow : Below G dem thr big nbr) (hbelow' : Below G' dem' (a * thr) big nbr) (terminals : List ℤ) :
    flowDirections fuel G' dem' big (table nbr) (a * thr) terminals =
      flowDirections fuel G dem big (table nbr) thr terminals := by
  symm
  apply flowDirections_sameOrder
  · constructor
    · intro e _
      cases e with
      | none => simp
      | some n => simp [hdem n]
    · intro e _ e' _ v v' w w' h1 h2 h3 h4
      cases e with
      | none =>
        cases e' with
        | none => simp_all
        | some m =>
          simp only [Option.some.injEq] at h1 h2
          subst h1 h2
          exact iff_of_false (not_le.2 (hlt m w h3)) (not_le.2 (hlt' m w' h4))
      | some n =>
        cases e' with
        | none =>
          simp only [Option.some.injEq] at h3 h4
          subst h3 h4
          exact iff_of_true (hlt n v h1).le (hlt' n v' h2).le
        | some m =>
          simp only at h1 h2 h3 h4
          rw [hdem, h1] at h2
          rw [hdem, h3] at h4
          simp only [Option.map_some, Option.some.injEq] at h2 h4
          subst h2 h4
          rw [add_le_add_iff_right, mul_le_mul_iff_right₀ ha]
  · intro n
    have hsl : ∀ m, slopeTo G' dem' (a * thr) big n (some m) =
        (slopeTo G dem thr big n (some m)).map fun s => a / b * s := fun m =>
      slopeTo_affine ha hG hG' hdem (dist_similar hb hG hG' hsim n m)
    have hbig : ∀ m, some m ∈ pad (table nbr) n → ∀ s, slopeTo G dem thr big n (some m) = some s → s < big := by
      intro m hm s hs
      exact hbelow n m (mem_pad_table hm) s (slopeTo_some.1 hs)
    have hbig' : ∀ m, some m ∈ pad (table nbr) n → ∀ s, slopeTo G' dem' (a * thr) big n (some m) = some s → s < big := by
      intro m hm s hs
      exact hbelow' n m (mem_pad_table hm) s (slopeTo_some.1 hs)
    constructor
    · intro e _
      cases e with
      | none => simp [slopeTo]
      | some m => rw [hsl]; simp
    · intro e he e' he' v v' w w' h1 h2 h3 h4
      cases e with
      | none =>
        simp only [slopeTo, Option.some.injEq] at h1 h2
        subst h1 h2
        cases e' with
        | none => simp_all [slopeTo]
        | some m => exact iff_of_false (not_le.2 (hbig m he' w h3)) (not_le.2 (hbig' m he' w' h4))
      | some k =>
        cases e' with
        | none =>
          simp only [slopeTo, Option.some.injEq] at h3 h4
          subst h3 h4
          exact iff_of_true (hbig k he v h1).le (hbig' k he v' h2).le
        | some m =>
          rw [hsl, h1] at h2
          rw [hsl, h3] at h4
          simp only [Option.map_some, Option.some.injEq] at h2 h4
          subst h2 h4
          rw [mul_le_mul_iff_right₀ (div_pos ha hb)]

/-! ### Example: four cells in a square, in metres and in feet above another datum, the grid turned by 90° and in
feet as well; cell 0 has two equally steep neighbours -/

noncomputable def sqG : Geo 4 ℝ := ⟨![0, 1, 0, 1], ![1, 1, 0, 0], Real.sqrt, id⟩
noncomputable def sqG' : Geo 4 ℝ := ⟨![-3, -3, 0, 0], ![0, 3, 0, 3], Real.sqrt, id⟩
noncomputable def sqDem : Fin 4 → Option ℝ := ![some 2, some 1, some 1, some 0]
noncomputable def sqDem' : Fin 4 → Option ℝ := ![some 106, some 103, some 103, some 100]
def sqNbr : Fin 4 → List (Fin 4) := ![[1, 2], [0, 3], [0, 3], [1, 2]]

theorem sq_similar : Similar 3 sqG sqG' := by
  intro n m
  fin_cases n <;> fin_cases m <;> norm_num [sqG, sqG']

theorem sq_dist : ∀ n, ∀ m ∈ sqNbr n, sqG.dist n m = 1 := by
  intro n m hm
  have h2 : (![0, 1, 0, 1] : Fin 4 → ℝ) 2 = 0 := rfl
  have h3 : (![0, 1, 0, 1] : Fin 4 → ℝ) 3 = 1 := rfl
  have h4 : (![1, 1, 0, 0] : Fin 4 → ℝ) 2 = 0 := rfl
  have h5 : (![1, 1, 0, 0] : Fin 4 → ℝ) 3 = 0 := rfl
  fin_cases n <;> simp [sqNbr] at hm <;> rcases hm with rfl | rfl <;> norm_num [Geo.dist, sqG, h2, h3, h4, h5]

theorem sq_dist' (n : Fin 4) (m : Fin 4) (hm : m ∈ sqNbr n) : sqG'.dist n m = 3 := by
  rw [dist_similar (by norm_num : (0 : ℝ) < 3) ⟨rfl, rfl⟩ ⟨rfl, rfl⟩ sq_similar, sq_dist n m hm]; norm_num

theorem sq_dem' (n : Fin 4) : sqDem' n = (sqDem n).map fun v => 3 * v + 100 := by
  fin_cases n <;> norm_num [sqDem, sqDem']

theorem sq_bound (n : Fin 4) (v : ℝ) (h : sqDem n = some v) : 0 ≤ v ∧ v ≤ 2 := by
  fin_cases n <;> simp [sqDem] at h <;> subst h <;> norm_num

theorem rise_le {G : Geo 4 ℝ} (hG : G.rnd = id) {thr a b : ℝ} : rise G thr a b ≤ |b - a| := by
  unfold rise
  rw [hG]
  split
  · exact abs_nonneg _
  · exact le_abs_self _

theorem sq_below : Below sqG sqDem 1 (10 ^ 10) sqNbr := by
  rintro n m hm s ⟨x, y, hx, hy, rfl⟩
  rw [sq_dist n m hm]
  have h1 := sq_bound n x hx
  have h2 := sq_bound m y hy
  have h3 := rise_le (G := sqG) rfl (thr := 1) (a := x) (b := y)
  have h4 : |y - x| ≤ 2 := abs_le.2 ⟨by linarith, by linarith⟩
  show _ / (1 : ℝ) < _
  rw [div_one]
  linarith

theorem sq_below' : Below sqG' sqDem' (3 * 1) (10 ^ 10) sqNbr := by
  rintro n m hm s ⟨x, y, hx, hy, rfl⟩
  rw [sq_dist' n m hm]
  rw [sq_dem'] at hx hy
  obtain ⟨x, hx0, rfl⟩ := Option.map_eq_some_iff.1 hx
  obtain ⟨y, hy0, rfl⟩ := Option.map_eq_some_iff.1 hy
  have h1 := sq_bound n x hx0
  have h2 := sq_bound m y hy0
  have h3 := rise_le (G := sqG') rfl (thr := 3 * 1) (a := 3 * x + 100) (b := 3 * y + 100)
  have h4 : |3 * y + 100 - (3 * x + 100)| ≤ 6 := abs_le.2 ⟨by linarith, by linarith⟩
  show _ / (3 : ℝ) < _
  rw [div_lt_iff₀ (by norm_num)]
  linarith

example (fuel : ℕ) : flowDirections fuel sqG' sqDem' (10 ^ 10) (table sqNbr) (3 * 1) [] =
    flowDirections fuel sqG sqDem (10 ^ 10) (table sqNbr) 1 [] :=
  C134_units (by norm_num) (by norm_num) ⟨rfl, rfl⟩ ⟨rfl, rfl⟩ sq_similar sq_dem'
    (fun n v h => by have := sq_bound n v h; linarith)
    (fun n v h => by
      rw [sq_dem'] at h
      obtain ⟨x, hx, rfl⟩ := Option.map_eq_some_iff.1 h
      have := sq_bound n x hx
      linarith) sq_below sq_below' []

end Dany.Dirs
