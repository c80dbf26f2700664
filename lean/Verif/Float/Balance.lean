import Verif.Float.Casc
import Verif.Pipe.BalanceWitness
import Verif.Float.GettersWitness

/-!
# C186: the water balance of many-to-many cascades whose fractions are rounded to double precision

The rows are those of `get_cascades(many2many=True)` in double precision (`getCascadesF`); what they mean is
`Pipe.Routed`.  The routing itself is exact: the question is what the rounding of the fractions does.
-/

namespace Dany.Float

open Casc Flow Reach Pipe Relation

variable {N : ℕ}

/-! ### any table whose cells pass on all their water but for a small error -/

section Table

variable {rows : List (Row ℚ)} {rain Q : Fin N → ℚ}

/-- weighted balance -/
private theorem weighted (hQ : Routed rows rain Q) (w : Fin N → ℚ) :
    ∑ u, (w u - ∑ v ∈ Finset.univ.filter (· ≠ u), share rows u v * w v) * Q u = ∑ u, w u * rain u := by
  have h1 : ∑ v, w v * Q v = ∑ v, w v * rain v +
      ∑ u, (∑ v ∈ Finset.univ.filter (· ≠ u), share rows u v * w v) * Q u := by
    calc ∑ v, w v * Q v = ∑ v, (w v * rain v + w v * ∑ u ∈ Finset.univ.filter (· ≠ v), share rows u v * Q u) :=
          Finset.sum_congr rfl fun v _ => by rw [← mul_add, ← hQ v]
      _ = ∑ v, w v * rain v + ∑ v, w v * ∑ u ∈ Finset.univ.filter (· ≠ v), share rows u v * Q u :=
          Finset.sum_add_distrib
      _ = _ := by
        congr 1
        simp only [Finset.sum_filter, Finset.sum_mul, Finset.mul_sum]
        rw [Finset.sum_comm]
        refine Finset.sum_congr rfl fun u _ => Finset.sum_congr rfl fun v _ => ?_
        by_cases h : u = v
        · simp [h]
        · simp [h, Ne.symm h]; ring
  simp only [sub_mul, Finset.sum_sub_distrib]
  rw [h1]; ring

open Classical in
/-- the cells below a cell -/
private noncomputable def below (rows : List (Row ℚ)) (u : Fin N) : Finset (Fin N) :=
  Finset.univ.filter fun v => TransGen (Link rows) u v

private theorem below_lt (hac : ∀ u : Fin N, ¬ TransGen (Link rows) u u) {u v : Fin N} (h : Link rows u v) :
    (below rows v).card < (below rows u).card := by
  classical
  refine Finset.card_lt_card ⟨fun x hx => ?_, fun hsub => ?_⟩
  · simp only [below, Finset.mem_filter, Finset.mem_univ, true_and] at hx ⊢
    exact TransGen.head h hx
  · have : v ∈ below rows v := hsub (by simp [below, TransGen.single h])
    simp only [below, Finset.mem_filter, Finset.mem_univ, true_and] at this
    exact hac v this

private theorem below_card (hac : ∀ u : Fin N, ¬ TransGen (Link rows) u u) (u : Fin N) : (below rows u).card + 1 ≤ N := by
  classical
  have : below rows u ⊂ Finset.univ := by
    refine ⟨Finset.subset_univ _, fun h => ?_⟩
    have := h (Finset.mem_univ u)
    simp only [below, Finset.mem_filter, Finset.mem_univ, true_and] at this
    exact hac u this
  have := Finset.card_lt_card this
  rw [Finset.card_univ, Fintype.card_fin] at this
  exact this

/-- how much water there is at all, if no cell passes on more than `1 + δ` times its water -/
theorem total_le (hac : ∀ u : Fin N, ¬ TransGen (Link rows) u u) (hp : ∀ r ∈ rows, 0 ≤ r.pct) {δ : ℚ} (hδ : 0 ≤ δ)
    (hpass : ∀ u : Fin N, passed rows u ≤ 1 + δ) (hr : ∀ n, 0 ≤ rain n) (hQ : Routed rows rain Q) :
    ∑ u, Q u ≤ N * (1 + δ) ^ N * ∑ u, rain u := by
  have hQ0 : ∀ u, 0 ≤ Q u := fun u => (hr u).trans (routed_nonneg hac hp hr hQ u)
  have h1 : (1 : ℚ) ≤ 1 + δ := by linarith
  set h : Fin N → ℕ := fun u => (below rows u).card with hh
  have hstep : ∀ u : Fin N, 1 ≤ (1 + δ) ^ h u * (h u + 1) -
      ∑ v ∈ Finset.univ.filter (· ≠ u), share rows u v * ((1 + δ) ^ h v * (h v + 1)) := by
    intro u
    have hle : ∑ v ∈ Finset.univ.filter (· ≠ u), share rows u v * ((1 + δ) ^ h v * (h v + 1)) ≤
        (1 + δ) ^ h u * h u := by
      by_cases h0 : h u = 0
      · rw [h0]
        refine le_of_eq ?_
        rw [Nat.cast_zero, mul_zero]
        refine Finset.sum_eq_zero fun v hv => ?_
        have : ¬ Link rows u v := fun hl => by have := below_lt hac hl; simp only [hh] at h0; omega
        rw [share_of_not_link (Ne.symm (Finset.mem_filter.1 hv).2) this, zero_mul]
      · obtain ⟨k, hk⟩ := Nat.exists_eq_succ_of_ne_zero h0
        have hterm : ∀ v ∈ Finset.univ.filter (· ≠ u), share rows u v * ((1 + δ) ^ h v * (h v + 1)) ≤
            share rows u v * ((1 + δ) ^ k * (k + 1)) := by
          intro v hv
          by_cases hl : Link rows u v
          · have hlt : h v ≤ k := by have := below_lt hac hl; simp only [hh] at hk ⊢; omega
            refine mul_le_mul_of_nonneg_left ?_ (share_nonneg hp u v)
            have hc : ((h v : ℕ) : ℚ) ≤ k := by exact_mod_cast hlt
            exact mul_le_mul (pow_le_pow_right₀ h1 hlt) (by linarith) (by positivity) (by positivity)
          · rw [share_of_not_link (Ne.symm (Finset.mem_filter.1 hv).2) hl, zero_mul, zero_mul]
        calc _ ≤ ∑ v ∈ Finset.univ.filter (· ≠ u), share rows u v * ((1 + δ) ^ k * (k + 1)) :=
              Finset.sum_le_sum hterm
          _ = passed rows u * ((1 + δ) ^ k * (k + 1)) := by rw [passed, Finset.sum_mul]
          _ ≤ (1 + δ) * ((1 + δ) ^ k * (k + 1)) := mul_le_mul_of_nonneg_right (hpass u) (by positivity)
          _ = _ := by rw [hk, Nat.succ_eq_add_one, pow_succ]; push_cast; ring
    have : (1 : ℚ) ≤ (1 + δ) ^ h u := one_le_pow₀ h1
    linarith
  calc ∑ u, Q u ≤ ∑ u, ((1 + δ) ^ h u * (h u + 1) -
        ∑ v ∈ Finset.univ.filter (· ≠ u), share rows u v * ((1 + δ) ^ h v * (h v + 1))) * Q u :=
        Finset.sum_le_sum fun u _ => le_mul_of_one_le_left (hQ0 u) (hstep u)
    _ = ∑ u, (1 + δ) ^ h u * (h u + 1) * rain u := weighted hQ _
    _ ≤ ∑ u, N * (1 + δ) ^ N * rain u := by
        refine Finset.sum_le_sum fun u _ => mul_le_mul_of_nonneg_right ?_ (hr u)
        have hb := below_card hac u
        have hc : ((h u : ℕ) : ℚ) + 1 ≤ N := by exact_mod_cast hb
        rw [mul_comm]
        exact mul_le_mul hc (pow_le_pow_right₀ h1 (by simp only [hh]; omega)) (by positivity) (by positivity)
    _ = _ := by rw [← Finset.mul_sum]

open Classical in
/-- what arrives where water stays, if every other cell passes on all its water but for a part `δ` -/
theorem arrives (hac : ∀ u : Fin N, ¬ TransGen (Link rows) u u) (hp : ∀ r ∈ rows, 0 ≤ r.pct) {δ : ℚ} (hδ : 0 ≤ δ)
    {S : Fin N → Prop} (hS : ∀ u, S u → passed rows u = 0) (hn : ∀ u, ¬ S u → |passed rows u - 1| ≤ δ)
    (hr : ∀ n, 0 ≤ rain n) (hQ : Routed rows rain Q) :
    |∑ u ∈ Finset.univ.filter S, Q u - ∑ u, rain u| ≤ N * δ * (1 + δ) ^ N * ∑ u, rain u := by
  have hQ0 : ∀ u, 0 ≤ Q u := fun u => (hr u).trans (routed_nonneg hac hp hr hQ u)
  have hpass : ∀ u : Fin N, passed rows u ≤ 1 + δ := by
    intro u
    by_cases h : S u
    · rw [hS u h]; linarith
    · have := (abs_le.1 (hn u h)).2; linarith
  have hb := C170_balance hQ
  have hsplit : ∑ u, (1 - passed rows u) * Q u = ∑ u ∈ Finset.univ.filter S, Q u +
      ∑ u ∈ Finset.univ.filter (fun u => ¬ S u), (1 - passed rows u) * Q u := by
    rw [← Finset.sum_filter_add_sum_filter_not Finset.univ S]
    congr 1
    refine Finset.sum_congr rfl fun u hu => ?_
    rw [hS u (Finset.mem_filter.1 hu).2]; ring
  have e : ∑ u ∈ Finset.univ.filter S, Q u - ∑ u, rain u =
      ∑ u ∈ Finset.univ.filter (fun u => ¬ S u), (passed rows u - 1) * Q u := by
    rw [← hb, hsplit, sub_add_eq_sub_sub, sub_self, zero_sub, ← Finset.sum_neg_distrib]
    exact Finset.sum_congr rfl fun u _ => by ring
  rw [e]
  calc _ ≤ ∑ u ∈ Finset.univ.filter (fun u => ¬ S u), |(passed rows u - 1) * Q u| := Finset.abs_sum_le_sum_abs _ _
    _ ≤ ∑ u ∈ Finset.univ.filter (fun u => ¬ S u), δ * Q u := by
        refine Finset.sum_le_sum fun u hu => ?_
        rw [abs_mul, abs_of_nonneg (hQ0 u)]
        exact mul_le_mul_of_nonneg_right (hn u (Finset.mem_filter.1 hu).2) (hQ0 u)
    _ ≤ ∑ u, δ * Q u := Finset.sum_le_sum_of_subset_of_nonneg (Finset.filter_subset _ _)
        fun u _ _ => mul_nonneg hδ (hQ0 u)
    _ = δ * ∑ u, Q u := by rw [Finset.mul_sum]
    _ ≤ δ * (N * (1 + δ) ^ N * ∑ u, rain u) := mul_le_mul_of_nonneg_left (total_le hac hp hδ hpass hr hQ) hδ
    _ = _ := by ring

end Table

/-! ### the rows of `get_cascades` in double precision -/

section Rows

variable {sum : List ℚ → ℚ} {o o' : Obj N} {arg : Option (Fin N → ℤ)} {sa : Fin N → ℤ} {d : Fin N → Fin N}
  {active : Fin N → Bool} {limit : ℕ} {nbs : Fin N → List (Fin N × Option ℚ)} {rows : List (Row ℚ)}

/-- the rows of `getCascadesF` -/
theorem rowsF (hd : Resolves o.fdir d) (h9 : ∀ n, o.fdir n ≠ -9) (hg : Given o arg sa)
    (h : getCascadesF sum limit nbs o arg active = .ok (o', rows)) {r : Row ℚ} (hr : r ∈ rows) :
    ∃ n : Fin N, r.up = ((n : ℕ) : ℤ) + 1 ∧ active n = true ∧
      (0 < sa n → r.pct = 1 ∧ ((active (d n) = true ∧ r.down = o.fdir n + 1) ∨
        (active (d n) = false ∧ r.down = r.up))) ∧
      (sa n = 0 → ∃ c : Fin N, r.down = ((c : ℕ) : ℤ) + 1 ∧ Drains o.fdir active c ∧
        ∃ s, (c, some s) ∈ nbs n ∧ s < 0) := by
  unfold getCascadesF at h
  obtain ⟨⟨o1, sa'⟩, h1, h⟩ := Res.bind_eq_ok.1 h
  obtain ⟨links, h2, h⟩ := Res.bind_eq_ok.1 h
  obtain ⟨rs, h3, he⟩ := Res.map_eq_ok.1 h
  simp only [Prod.mk.injEq] at he
  obtain ⟨rfl, rfl⟩ := he
  have hmem : (r.up - 1, r.down - 1, r.pct) ∈ links := (mem_rows_iff h3).1 ⟨r.strmseg, hr⟩
  rw [manyToManyF_ok hd h9] at h2
  cases h2
  obtain ⟨n, _, hn⟩ := List.mem_flatMap.1 hmem
  have hup := manySpecF_up hn
  dsimp only at hup
  unfold manySpecF at hn
  split at hn
  · cases hn
  rename_i ha
  refine ⟨n, by omega, by simpa using ha, fun hs => ?_, fun hs => ?_⟩
  · have := (given_sign hd hg h1 n).2 hs
    rw [if_pos this, List.mem_singleton, Prod.mk.injEq, Prod.mk.injEq] at hn
    refine ⟨hn.2.2, ?_⟩
    by_cases hx : active (d n) = false
    · rw [if_pos hx] at hn; exact .inr ⟨hx, by omega⟩
    · rw [if_neg hx] at hn; exact .inl ⟨by simpa using hx, by omega⟩
  · have := (given_sign hd hg h1 n).1 hs
    rw [if_neg (by dsimp only; omega)] at hn
    obtain ⟨e, he, hx⟩ := List.mem_map.1 hn
    simp only [Prod.mk.injEq] at hx
    obtain ⟨he1, he2⟩ := List.mem_filter.1 he
    obtain ⟨he3, he4⟩ := List.mem_filter.1 he1
    obtain ⟨c, s⟩ := e
    obtain ⟨k1, k2⟩ := mem_candidates.1 he3
    refine ⟨c, by have := hx.2.1; dsimp only at this; omega, drains_iff.1 (by simpa using he4), s, k1, lt_of_le_of_ne k2 ?_⟩
    rintro rfl
    rw [decide_eq_true_eq] at he2
    have hz : rnd64 (0 : ℚ) = 0 := by decide +kernel
    rw [abs_zero, zero_div, hz] at he2
    have := hundredth_bounds.1
    linarith

theorem pctF_pos (hs : SumOK rnd64 sum) (hd : Resolves o.fdir d) (h9 : ∀ n, o.fdir n ≠ -9) (hg : Given o arg sa)
    (hpos : ∀ n, 0 ≤ sa n) (hdbl : ∀ n c s, (c, some s) ∈ nbs n → s ∈ Double) (hfew : ∀ n, (nbs n).length < 100)
    (h : getCascadesF sum limit nbs o arg active = .ok (o', rows)) : ∀ r ∈ rows, 0 ≤ r.pct := by
  intro r hr
  obtain ⟨n, e, k1, k2, k3⟩ := rowsF hd h9 hg h hr
  rcases (hpos n).lt_or_eq with hst | hland
  · rw [(k2 hst).1]; exact zero_le_one
  · obtain ⟨c, c1, c2, s, c3, c4⟩ := k3 hland.symm
    have := (C156_rows hs hd h9 hg h k1 hland.symm (hdbl n) ⟨c, s, c3, c4, c2⟩ (hfew n)).2.1 r
      (List.mem_filter.2 ⟨hr, by simpa using e⟩)
    linarith [this.2.1]

/-- a stream cell has one row -/
theorem streamF (hd : Resolves o.fdir d) (h9 : ∀ n, o.fdir n ≠ -9) (hg : Given o arg sa)
    (h : getCascadesF sum limit nbs o arg active = .ok (o', rows)) {n : Fin N} (ha : active n = true) (hst : 0 < sa n) :
    (rowsOf rows n).map Row.pct = [1] := by
  unfold getCascadesF at h
  obtain ⟨⟨o1, sa'⟩, h1, h⟩ := Res.bind_eq_ok.1 h
  obtain ⟨links, h2, h⟩ := Res.bind_eq_ok.1 h
  obtain ⟨rs, h3, he⟩ := Res.map_eq_ok.1 h
  simp only [Prod.mk.injEq] at he
  obtain ⟨rfl, rfl⟩ := he
  rw [rowsOf_pct h3, linksF_of hd h9 h2]
  unfold manySpecF
  rw [if_neg (by simp [ha]), if_pos ((given_sign hd hg h1 n).2 hst)]
  rfl

theorem few_rows (hd : Resolves o.fdir d) (h9 : ∀ n, o.fdir n ≠ -9)
    (h : getCascadesF sum limit nbs o arg active = .ok (o', rows)) {n : Fin N}
    (hfew : (nbs n).length < 100) : (rowsOf rows n).length < 100 := by
  unfold getCascadesF at h
  obtain ⟨⟨o1, sa'⟩, h1, h⟩ := Res.bind_eq_ok.1 h
  obtain ⟨links, h2, h⟩ := Res.bind_eq_ok.1 h
  obtain ⟨rs, h3, he⟩ := Res.map_eq_ok.1 h
  simp only [Prod.mk.injEq] at he
  obtain ⟨rfl, rfl⟩ := he
  have hlen := congrArg List.length (rowsOf_pct h3 n)
  rw [List.length_map, List.length_map, linksF_of hd h9 h2] at hlen
  rw [hlen]
  unfold manySpecF
  split
  · simp
  · split
    · simp
    · unfold landLinksF
      rw [List.length_map]
      exact lt_of_le_of_lt (List.length_filter_le _ _) (lt_of_le_of_lt (List.length_filter_le _ _) (few_candidates hfew))

variable {G : Dirs.Geo N ℚ} {dem : Fin N → Option ℚ} {thr big : ℚ} {nbr : Fin N → List (Fin N)}

/-- the slopes of `_calculate_slopes` are `float64` numbers -/
theorem slope_double (hG : G.rnd = rnd64) {n c : Fin N} {s : ℚ} (h : (c, some s) ∈ slopeTable G dem thr big nbr n) :
    s ∈ Double := by
  obtain ⟨m, _, he⟩ := List.mem_map.1 h
  simp only [Prod.mk.injEq] at he
  obtain ⟨x, y, _, _, hsl⟩ := Dirs.slopeTo_some.1 he.2
  rw [hsl, hG]
  exact rnd64_nearest.mem _

/-- links lead downhill -/
theorem linkF_lower (hs : Dirs.Sound G dem nbr) (hl : Legal o.fdir d) (hfall : ∀ n, d n ≠ n → Lower dem n (d n))
    (hg : Given o arg sa) (hpos : ∀ n, 0 ≤ sa n)
    (h : getCascadesF sum limit (slopeTable G dem thr big nbr) o arg active = .ok (o', rows)) {u v : Fin N}
    (huv : Link rows u v) : Lower dem u v := by
  have h9 : ∀ n, o.fdir n ≠ -9 := fun n => by rw [hl n]; omega
  obtain ⟨hne, r, hr, hu, hv⟩ := huv
  obtain ⟨n, e, k1, k2, k3⟩ := rowsF hl.resolves h9 hg h hr
  obtain rfl : u = n := Fin.ext (by omega)
  rcases (hpos u).lt_or_eq with hst | hland
  · rcases (k2 hst).2 with ⟨_, k⟩ | ⟨_, k⟩
    · have : d u = v := Fin.ext (by rw [hl u] at k; omega)
      subst this
      exact hfall u (Ne.symm hne)
    · exact absurd (Fin.ext (by omega)) hne
  · obtain ⟨c, c1, c2, s, c3, c4⟩ := k3 hland.symm
    obtain rfl : v = c := Fin.ext (by omega)
    exact ((slope_iff hs).1 ⟨s, c3, c4⟩).2

theorem noCircleF (hs : Dirs.Sound G dem nbr) (hl : Legal o.fdir d) (hfall : ∀ n, d n ≠ n → Lower dem n (d n))
    (hg : Given o arg sa) (hpos : ∀ n, 0 ≤ sa n)
    (h : getCascadesF sum limit (slopeTable G dem thr big nbr) o arg active = .ok (o', rows)) (u : Fin N) :
    ¬ TransGen (Link rows) u u := by
  have htr : ∀ u v : Fin N, TransGen (Link rows) u v → Lower dem u v := by
    intro u v huv
    induction huv with
    | single h1 => exact linkF_lower hs hl hfall hg hpos h h1
    | tail _ h1 ih =>
      obtain ⟨a, b, ha, hb, hlt⟩ := ih
      obtain ⟨a', b', ha', hb', hlt'⟩ := linkF_lower hs hl hfall hg hpos h h1
      rw [hb] at ha'; cases ha'
      exact ⟨a, b', ha, hb', hlt'.trans hlt⟩
  intro hc
  exact (htr u u hc).ne rfl

/-- a cell passes on nothing, or all its water but for a part of at most 100/2^53 -/
theorem passedF (hS : SumOK rnd64 sum) (hs : Dirs.Sound G dem nbr) (hl : Legal o.fdir d) (hg : Given o arg sa)
    (hpos : ∀ n, 0 ≤ sa n) (hfew : ∀ n, (nbr n).length < 100)
    (hdbl : ∀ n c s, (c, some s) ∈ slopeTable G dem thr big nbr n → s ∈ Double)
    (h : getCascadesF sum limit (slopeTable G dem thr big nbr) o arg active = .ok (o', rows)) (n : Fin N) :
    (Stays o.fdir d sa active dem nbr n → passed rows n = 0) ∧
      (¬ Stays o.fdir d sa active dem nbr n → |passed rows n - 1| ≤ 100 / 2 ^ 53) := by
  have h9 : ∀ n, o.fdir n ≠ -9 := fun n => by rw [hl n]; omega
  have hfew' : (slopeTable G dem thr big nbr n).length < 100 := by simpa [slopeTable] using hfew n
  have hrow : ∀ r ∈ rowsOf rows n, active n = true ∧
      (0 < sa n → r.pct = 1 ∧ ((active (d n) = true ∧ r.down = o.fdir n + 1) ∨
        (active (d n) = false ∧ r.down = r.up))) ∧
      (sa n = 0 → ∃ c : Fin N, r.down = ((c : ℕ) : ℤ) + 1 ∧ Drains o.fdir active c ∧ c ∈ nbr n ∧ Lower dem n c) := by
    intro r hr
    obtain ⟨hr1, hr2⟩ := List.mem_filter.1 hr
    rw [decide_eq_true_eq] at hr2
    obtain ⟨n', e, k1, k2, k3⟩ := rowsF hl.resolves h9 hg h hr1
    obtain rfl : n' = n := Fin.ext (by omega)
    refine ⟨k1, k2, fun h0 => ?_⟩
    obtain ⟨c, c1, c2, s, c3, c4⟩ := k3 h0
    exact ⟨c, c1, c2, (slope_iff hs).1 ⟨s, c3, c4⟩⟩
  have hself : ∀ r ∈ rowsOf rows n, r.up = ((n : ℕ) : ℤ) + 1 := fun r hr => by
    simpa using (List.mem_filter.1 hr).2
  by_cases ha : active n = true
  swap
  · have hno : rowsOf rows n = [] := by
      rw [List.eq_nil_iff_forall_not_mem]
      intro r hr; exact ha (hrow r hr).1
    refine ⟨fun _ => passed_nil (by rw [hno]; simp), fun hc => absurd (.inl (by simpa using ha)) hc⟩
  rcases (hpos n).lt_or_eq with hst | hland
  · by_cases hd : d n = n ∨ active (d n) = false
    · refine ⟨fun _ => passed_nil fun r hr => ?_, fun hc => absurd (.inr (.inl ⟨hst, hd⟩)) hc⟩
      rcases ((hrow r hr).2.1 hst).2 with ⟨k1, k2⟩ | ⟨_, k2⟩
      · rcases hd with hd | hd
        · rw [k2, hself r hr, hl n, hd]
        · rw [hd] at k1; cases k1
      · exact k2
    · push Not at hd
      have had : active (d n) = true := by simpa using hd.2
      refine ⟨fun hc => ?_, fun _ => ?_⟩
      · rcases hc with hc | ⟨_, hc⟩ | ⟨hc, _⟩
        · rw [ha] at hc; cases hc
        · exact absurd hc (by push Not; exact ⟨hd.1, by simp [had]⟩)
        · omega
      · rw [passed_eq (fun r hr => ?_)]
        · rw [streamF hl.resolves h9 hg h ha hst]; norm_num
        · rcases ((hrow r hr).2.1 hst).2 with ⟨k1, k2⟩ | ⟨k1, _⟩
          · exact ⟨d n, hd.1, by rw [k2, hl n]⟩
          · rw [had] at k1; cases k1
  · have hland : sa n = 0 := hland.symm
    have hdr : ∀ m, ¬ Drains o.fdir active m ↔ active m = true ∧ o.fdir m = 0 := by
      intro m; unfold Drains; push Not; simp
    refine ⟨fun hc => ?_, fun hc => ?_⟩
    · have hc' : ∀ m ∈ nbr n, Lower dem n m → active m = true ∧ o.fdir m = 0 := by
        rcases hc with hc | ⟨hc, _⟩ | ⟨_, hc⟩
        · rw [ha] at hc; cases hc
        · omega
        · exact hc
      have hno : rowsOf rows n = [] := by
        rw [List.eq_nil_iff_forall_not_mem]
        intro r hr
        obtain ⟨c, _, c2, c3, c4⟩ := (hrow r hr).2.2 hland
        exact (hdr c).2 (hc' c c3 c4) c2
      exact passed_nil (by rw [hno]; simp)
    · have : ∃ m ∈ nbr n, Lower dem n m ∧ Drains o.fdir active m := by
        by_contra hx
        push Not at hx
        exact hc (.inr (.inr ⟨hland, fun m hm hlow => (hdr m).1 (hx m hm hlow)⟩))
      obtain ⟨m, hm, hlow, hmd⟩ := this
      obtain ⟨s, hs1, hs2⟩ := (slope_iff (thr := thr) (big := big) hs).2 ⟨hm, hlow⟩
      rw [passed_eq (fun r hr => ?_)]
      · refine (C156_rows hS hl.resolves h9 hg h ha hland (hdbl n) ⟨m, s, hs1, hs2, hmd⟩ hfew').2.2.1.trans ?_
        have hlt := few_rows hl.resolves h9 h hfew'
        have : ((rowsOf rows n).length : ℚ) + 1 ≤ 100 := by exact_mod_cast hlt
        exact div_le_div_of_nonneg_right this (by norm_num)
      · obtain ⟨c, c1, _, _, c4⟩ := (hrow r hr).2.2 hland
        exact ⟨c, c4.ne, c1⟩

open Classical in
/-- **C186.**  Many-to-many cascades with fractions rounded to double precision, on flow directions that run downhill, with any
boundary and any streams: the water routed along them is determined, and the water that ends up in the cells that pass
on nothing (as in C170) differs from the rain by at most `N` · 100/2^53 · (1 + 100/2^53)^N of it; on grids of at most a
million cells, by at most a ten-millionth. -/
theorem C186_balance (hS : SumOK rnd64 sum) (hs : Dirs.Sound G dem nbr) (hl : Legal o.fdir d)
    (hfall : ∀ n, d n ≠ n → Lower dem n (d n)) (hg : Given o arg sa) (hpos : ∀ n, 0 ≤ sa n)
    (hfew : ∀ n, (nbr n).length < 100) (hdbl : ∀ n c s, (c, some s) ∈ slopeTable G dem thr big nbr n → s ∈ Double)
    (h : getCascadesF sum limit (slopeTable G dem thr big nbr) o arg active = .ok (o', rows)) {rain : Fin N → ℚ}
    (hr : ∀ n, 0 ≤ rain n) :
    ∃ Q, (∀ Q', Routed rows rain Q' ↔ Q' = Q) ∧
      |∑ n ∈ Finset.univ.filter (Stays o.fdir d sa active dem nbr), Q n - ∑ n, rain n| ≤
        N * (100 / 2 ^ 53) * (1 + 100 / 2 ^ 53) ^ N * ∑ n, rain n ∧
      (N ≤ 1000000 → |∑ n ∈ Finset.univ.filter (Stays o.fdir d sa active dem nbr), Q n - ∑ n, rain n| ≤
        (∑ n, rain n) / 10 ^ 7) := by
  have h9 : ∀ n, o.fdir n ≠ -9 := fun n => by rw [hl n]; omega
  have hac := noCircleF hs hl hfall hg hpos h
  obtain ⟨Q, hQ, huniq⟩ := C170_unique hac rain
  have key := arrives hac (pctF_pos hS hl.resolves h9 hg hpos hdbl (fun n => by simpa [slopeTable] using hfew n) h)
    (δ := 100 / 2 ^ 53) (by norm_num) (fun n => (passedF hS hs hl hg hpos hfew hdbl h n).1)
    (fun n => (passedF hS hs hl hg hpos hfew hdbl h n).2) hr hQ
  refine ⟨Q, fun Q' => ⟨huniq Q', fun e => e ▸ hQ⟩, key, fun hN => key.trans ?_⟩
  have hR : 0 ≤ ∑ n, rain n := Finset.sum_nonneg fun n _ => hr n
  rw [div_eq_inv_mul (∑ n, rain n)]
  refine mul_le_mul_of_nonneg_right ?_ hR
  set δ : ℚ := 100 / 2 ^ 53 with hδ
  have hδ0 : 0 ≤ δ := by norm_num [hδ]
  have hNq : (N : ℚ) ≤ 1000000 := by exact_mod_cast hN
  have hNδ : (N : ℚ) * δ ≤ 1000000 * δ := mul_le_mul_of_nonneg_right hNq hδ0
  have hb := one_add_mul_le_pow (a := -δ) (by norm_num [hδ]) N
  have h1 : (1 + δ) ^ N * (1 + -δ) ^ N ≤ 1 := by
    rw [← mul_pow]
    exact pow_le_one₀ (by norm_num [hδ]) (by nlinarith)
  have h2 : (1 + δ) ^ N * (1 / 2) ≤ 1 := by
    refine (mul_le_mul_of_nonneg_left ?_ (pow_nonneg (by linarith) N)).trans h1
    refine le_trans ?_ hb
    have : 1000000 * δ ≤ 1 / 2 := by norm_num [hδ]
    linarith
  have h3 : (1 + δ) ^ N ≤ 2 := by
    generalize (1 + δ) ^ N = x at h2 ⊢
    linarith
  calc (N : ℚ) * δ * (1 + δ) ^ N ≤ 1000000 * δ * 2 :=
        mul_le_mul hNδ h3 (pow_nonneg (by linarith) N) (by norm_num [hδ])
    _ ≤ _ := by norm_num [hδ]

open Classical in
/-- **C186** after filling and routing in double precision (conditions of C113): on fewer than a million cells, what
arrives where water stays differs from the rain by at most a ten-millionth. -/
theorem C186_chain {g : Flood.Grid N} {mask : Option (Fin N → Bool)} {method : String} {pr : Promo}
    {terminals : List ℤ} {fuel fuel' : ℕ} {out : Fin N → ℤ} (hM : Machine G (nbrs g)) (hN : N < 1000000)
    {demo : Fin N → double.Num}
    (hdem : ∀ n, |(demo n).val| ≤ 10 ^ 10) (hgr : ∀ n, Grain (demo n).val)
    (heff : Flood.effective mask method = .priority) {f : Fin N → ℚ}
    (hfill : fillSinksF fuel double pr eps6 g demo mask method = .ok f)
    (hgg : GoodGrid g mask) (he : GoodEnds g mask f terminals)
    (hb : Dirs.Below G (Dirs.filled f) thr big (nbrs g))
    (hend : Dirs.CleanEnds G (Dirs.filled f) thr terminals (nbrs g))
    (hrun : Dirs.flowDirections fuel' G (Dirs.filled f) big (Dirs.table (nbrs g)) thr terminals = .ok out)
    (ho : o.fdir = out) (hS : SumOK rnd64 sum) (hg : Given o arg sa) (hpos : ∀ n, 0 ≤ sa n)
    (hfew : ∀ n, (nbrs g n).length < 100)
    (h : getCascadesF sum limit (slopeTable G (Dirs.filled f) thr big (nbrs g)) o arg active = .ok (o', rows))
    {rain : Fin N → ℚ} (hr : ∀ n, 0 ≤ rain n) :
    ∃ d : Fin N → Fin N, Legal out d ∧ ∃ Q, (∀ Q', Routed rows rain Q' ↔ Q' = Q) ∧
      |∑ n ∈ Finset.univ.filter (Stays out d sa active (Dirs.filled f) (nbrs g)), Q n - ∑ n, rain n| ≤
        (∑ n, rain n) / 10 ^ 7 := by
  obtain ⟨d, hnet, hfall⟩ := C113_network hM hN hdem hgr heff hfill hgg he hb hend hrun
  have hgr' : ∀ n a, Dirs.filled f n = some a → Grain a := by
    intro n a ha
    simp only [Dirs.filled, Option.some.injEq] at ha
    rw [← ha]
    exact grain_filled (by rw [heff]; decide) hfill hgr n
  subst ho
  obtain ⟨Q, h1, _, h3⟩ := C186_balance (rain := rain) hS (hM.sound hgr') hnet.legal
    (fun n hn => ⟨_, _, rfl, rfl, (hfall n hn).2⟩) hg hpos hfew (fun n c s hc => slope_double hM.rnd hc) h hr
  exact ⟨d, hnet.legal, Q, h1, h3 hN.le⟩

end Rows

/-! ### a concrete case: the sixteen cells of C113 and C170 -/

theorem cascR : (getCascadesF (sumSeq rnd64) 50 (slopeTable geoF (Dirs.filled fillF) Dirs.thr Dirs.big (nbrs Flood.g44)) objF none
    (fun _ => true)).map (fun r => r.2.length) = .ok 35 := by decide +kernel

example : ∃ o' rows, getCascadesF (sumSeq rnd64) 50 (slopeTable geoF (Dirs.filled fillF) Dirs.thr Dirs.big (nbrs Flood.g44)) objF none
    (fun _ => true) = .ok (o', rows) ∧ ∃ Q : Fin 16 → ℚ, Routed rows (fun _ => 1) Q ∧
      |∑ n ∈ Finset.univ.filter (fun n : Fin 16 => fdE n = ((n : ℕ) : ℤ)), Q n - 16| ≤ 16 / 10 ^ 7 := by
  classical
  obtain ⟨⟨o', rows⟩, h, _⟩ := Res.map_eq_ok.1 cascR
  refine ⟨o', rows, h, ?_⟩
  have hl : Legal fdE nxE := networkF.1.legal
  obtain ⟨d, hd, Q, h1, h2⟩ := C186_chain machineF (by norm_num) (by decide +kernel) grainF (by decide +kernel)
    fillRunF good44 endsF belowF (fun n t _ _ h1 => Dirs.easyTie_of_unique fun m h2 => noTiesF n m t h2 h1) runF rfl
    (sumSeq_ok _) (.inr ⟨rfl, rfl⟩) (by decide) (by decide +kernel) h (rain := fun _ => (1 : ℚ)) (fun _ => zero_le_one)
  obtain rfl : d = nxE := funext fun n => Fin.ext (by have := hd n; have := hl n; omega)
  refine ⟨Q, (h1 Q).2 rfl, ?_⟩
  simp only [Finset.sum_const, Finset.card_univ, Fintype.card_fin, nsmul_eq_mul, mul_one, Nat.cast_ofNat] at h2
  convert h2 using 4
  ext n
  simp only [Finset.mem_filter, Finset.mem_univ, true_and]
  have key : ∀ n : Fin 16, fdE n = ((n : ℕ) : ℤ) ↔ ((fun _ => true) n = false ∨
      (0 < (![1, 1, 1, 0, 1, 0, 0, 0, 1, 0, 1, 0, 0, 0, 0, 1] : Fin 16 → ℤ) n ∧ (nxE n = n ∨ (fun _ => true) (nxE n) = false)) ∨
      ((![1, 1, 1, 0, 1, 0, 0, 0, 1, 0, 1, 0, 0, 0, 0, 1] : Fin 16 → ℤ) n = 0 ∧
        ∀ m ∈ nbrs Flood.g44 n, fillF m < fillF n → (fun _ => true) m = true ∧ fdE m = 0)) := by decide +kernel
  rw [key n]
  unfold Stays
  have hL : ∀ m, Lower (Dirs.filled fillF) n m ↔ fillF m < fillF n := by
    intro m
    constructor
    · rintro ⟨a, b, ha, hb, hlt⟩
      simp only [Dirs.filled, Option.some.injEq] at ha hb
      subst ha; subst hb; exact hlt
    · exact fun hlt => ⟨_, _, rfl, rfl, hlt⟩
  simp only [hL]

end Dany.Float
