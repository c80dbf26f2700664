import Verif.Basin.Cross
import Verif.Pipe.River
import Verif.Pipe.Mf6

/-!
# C184: pour points at the ends of the segments give one subbasin per segment

`get_subbasins` with the last cells of the MODFLOW-2005 segments as pour points.
-/

namespace Dany.Pipe

open Flow Seg Relation

variable {N : ℕ} {fdir sa : Fin N → ℤ} {d : Fin N → Fin N}

/-- `p` is the last cell of segment `s`: it has a row of the segment, and no row follows -/
def IsEnd (out : Out N) (s : ℤ) (p : Fin N) : Prop := ∃ r, (p, s, r) ∈ out.nsr ∧ ∀ m, (m, s, r + 1) ∉ out.nsr

section
variable {limit fuel : ℕ} {b : Bool} {out : Out N}

private theorem one (hf : N ≤ fuel) (h : mf2005 limit fuel b fdir sa true = .ok out) {n : Fin N} {s r t q : ℤ}
    (h1 : (n, s, r) ∈ out.nsr) (h2 : (n, t, q) ∈ out.nsr) : s = t ∧ r = q := by
  have := List.inj_on_of_nodup_map (C56_rows hf h).1 h1 h2 rfl
  simpa using this

private theorem feeds_d (hd : Legal fdir d) {n m : Fin N} (hm : Feeds fdir sa n m) : d n = m :=
  Fin.ext (by have h1 := hm.2.2; rw [hd n] at h1; exact_mod_cast h1)

/-- from a row of a segment the flow path runs along the segment to its last cell; before that it meets no end -/
private theorem toEnd (hd : Legal fdir d) (hf : N ≤ fuel) (h : mf2005 limit fuel b fdir sa true = .ok out) {n : Fin N}
    {s r : ℤ} (hn : (n, s, r) ∈ out.nsr) :
    ∃ p, IsEnd out s p ∧ Basin.FirstOn d (fun c => ∃ t, IsEnd out t c) n p := by
  obtain ⟨hnd, hlist, hrow, _, huniq, hprev⟩ := C56_rows hf h
  by_contra hcon
  have hall : ∀ k : ℕ, (d^[k] n, s, r + k) ∈ out.nsr ∧ ∀ j < k, ¬ ∃ t, IsEnd out t (d^[j] n) := by
    intro k
    induction k with
    | zero => exact ⟨by simpa using hn, by simp⟩
    | succ k ih =>
      have hne : ¬ IsEnd out s (d^[k] n) := fun he => hcon ⟨_, he, k, rfl, ⟨s, he⟩, ih.2⟩
      have hno : ¬ ∃ t, IsEnd out t (d^[k] n) := by
        rintro ⟨t, ht⟩
        obtain ⟨q, hq, _⟩ := id ht
        rw [(one hf h hq ih.1).1] at ht
        exact hne ht
      constructor
      · have : ∃ m, (m, s, r + k + 1) ∈ out.nsr := by
          by_contra hc
          push Not at hc
          exact hne ⟨_, ih.1, hc⟩
        obtain ⟨m, hm⟩ := this
        obtain ⟨x, hx, hxm⟩ := hprev m s _ hm (by have := (hrow _ _ _ ih.1).2.2; omega)
        rw [add_sub_cancel_right] at hx
        rw [huniq _ _ _ _ hx ih.1] at hxm
        rw [Function.iterate_succ_apply', feeds_d hd hxm]
        push_cast
        rw [← add_assoc]
        exact hm
      · intro j hj
        rcases Nat.lt_succ_iff_lt_or_eq.1 hj with h1 | rfl
        · exact ih.2 j h1
        · exact hno
  have hinj : Function.Injective fun k : ℕ => d^[k] n := by
    intro i j hij
    have hij' : d^[i] n = d^[j] n := hij
    have := (one hf h (hall i).1 (hij' ▸ (hall j).1)).2
    omega
  exact not_injective_infinite_finite _ hinj

private theorem end_unique (hf : N ≤ fuel) (h : mf2005 limit fuel b fdir sa true = .ok out) {s : ℤ} {p q : Fin N}
    (hp : IsEnd out s p) (hq : IsEnd out s q) : p = q := by
  obtain ⟨_, _, hrow, _, huniq, hprev⟩ := C56_rows hf h
  obtain ⟨r, hr, hl⟩ := hp
  obtain ⟨k, hk, hm⟩ := hq
  -- all earlier rows exist
  have hall : ∀ (x : Fin N) (i : ℕ) (j : ℤ), (x, s, j + i) ∈ out.nsr → 1 ≤ j → ∃ y, (y, s, j) ∈ out.nsr := by
    intro x i
    induction i generalizing x with
    | zero => intro j hj _; exact ⟨x, by simpa using hj⟩
    | succ i ih =>
      intro j hj h1
      obtain ⟨y, hy, _⟩ := hprev x s _ hj (by push_cast; omega)
      exact ih y j (by convert hy using 3; push_cast; ring) h1
  have hr1 := (hrow _ _ _ hr).2.2
  have hk1 := (hrow _ _ _ hk).2.2
  rcases lt_trichotomy r k with h1 | h1 | h1
  · obtain ⟨y, hy⟩ := hall q (k - (r + 1)).toNat (r + 1) (by convert hk using 3; omega) (by omega)
    exact absurd hy (hl y)
  · subst h1; exact huniq _ _ _ _ hr hk
  · obtain ⟨y, hy⟩ := hall p (r - (k + 1)).toNat (k + 1) (by convert hr using 3; omega) (by omega)
    exact absurd hy (hm y)

private theorem end_seg (hf : N ≤ fuel) (h : mf2005 limit fuel b fdir sa true = .ok out) {s t : ℤ} {p : Fin N}
    (hp : IsEnd out s p) (hq : IsEnd out t p) : s = t := by
  obtain ⟨r, hr, _⟩ := hp
  obtain ⟨k, hk, _⟩ := hq
  exact (one hf h hr hk).1

private theorem firstOn_unique {S : Fin N → Prop} {u p q : Fin N} (hp : Basin.FirstOn d S u p) (hq : Basin.FirstOn d S u q) :
    p = q := by
  obtain ⟨i, rfl, hi, hi'⟩ := hp
  obtain ⟨j, rfl, hj, hj'⟩ := hq
  rcases lt_trichotomy i j with h | rfl | h
  · exact absurd hi (hj' i h)
  · rfl
  · exact absurd hj (hi' j h)

/-- the first end on the path of `u` is the end of the segment of its first stream cell -/
private theorem firstEnd (hd : Legal fdir d) (hf : N ≤ fuel) (h : mf2005 limit fuel b fdir sa true = .ok out) {u f : Fin N}
    {s r : ℤ} (hu : Basin.FirstOn d (fun n => sa n ≠ 0) u f) (hn : (f, s, r) ∈ out.nsr) :
    ∃ p, IsEnd out s p ∧ Basin.FirstOn d (fun c => ∃ t, IsEnd out t c) u p := by
  obtain ⟨p, hp, k, hk, he, hb⟩ := toEnd hd hf h hn
  obtain ⟨i, hi, _, hi'⟩ := hu
  refine ⟨p, hp, k + i, by rw [Function.iterate_add_apply, hi, hk], he, fun j hj => ?_⟩
  by_cases hji : j < i
  · rintro ⟨t, q, hq, _⟩
    exact hi' j hji ((C56_rows hf h).2.2.1 _ _ _ hq).1
  · obtain ⟨j', rfl⟩ := Nat.exists_eq_add_of_le (not_lt.1 hji)
    rw [add_comm, Function.iterate_add_apply, hi]
    exact hb j' (by omega)

/-- **C184.**  With the last cells of the MODFLOW-2005 segments as pour points `get_subbasins` makes one subbasin per segment:
there is a numbering `num` of the segments by 1 … `nSeg`, in flow order, such that a cell gets the number of the segment
of the first stream cell on its flow path, and 0 if there is none. -/
theorem C184_subbasins {s0 s1 : Basin.State N} (hd : Legal s0.fdir d) (hs : Basin.Fresh s0)
    (hac : ∀ n, sa n ≠ 0 → ¬ OnCycle d n) (hf : N ≤ fuel) (h : mf2005 limit fuel b s0.fdir sa true = .ok out)
    {cells : List (Fin N)} (hcells : ∀ c, c ∈ cells ↔ ∃ s, IsEnd out s c) (h0 : ∀ c ∈ cells, c.val ≠ 0)
    {limit' fuel' : ℕ} (hf' : 2 * N + 1 < fuel') {lab : Fin N → ℕ}
    (hr : Basin.subbasins limit' fuel' s0 cells = .ok (s1, lab)) :
    ∃ num : ℤ → ℕ, (∀ s : ℤ, 1 ≤ s → s ≤ nSeg s0.fdir sa → 1 ≤ num s ∧ num s ≤ nSeg s0.fdir sa) ∧
      (∀ s t : ℤ, 1 ≤ s → s ≤ nSeg s0.fdir sa → 1 ≤ t → t ≤ nSeg s0.fdir sa → num s = num t → s = t) ∧
      (∀ s t, out.sg.get? s = some t → t ≠ 0 → t ≠ s → num s < num t) ∧
      (∀ u f s r, Basin.FirstOn d (fun n => sa n ≠ 0) u f → (f, s, r) ∈ out.nsr → lab u = num s) ∧
      (∀ u, (∀ n, sa n ≠ 0 → ¬ Reaches d u n) → lab u = 0) := by
  classical
  obtain ⟨hnd, hlist, hrow, _, huniq, hprev⟩ := C56_rows hf h
  obtain ⟨_, _, hk1, hk2⟩ := C58_numbers hf h
  have hstream : ∀ c ∈ cells, sa c ≠ 0 := by
    intro c hc
    obtain ⟨s, r, hr, _⟩ := (hcells c).1 hc
    exact (hrow _ _ _ hr).1
  obtain ⟨l, l1, l2, l3, l4, l5⟩ := Basin.C38_returned hd hs h0 (fun c hc => hac c (hstream c hc)) hf' hr
  have hcell' : (fun c => c ∈ cells) = fun c => ∃ t, IsEnd out t c := by funext c; exact propext (hcells c)
  have hend : ∀ s : ℤ, 1 ≤ s → s ≤ nSeg s0.fdir sa → ∃ p, IsEnd out s p := by
    intro s h1 h2
    obtain ⟨n, r, hn⟩ := (hk2 s).1 ((hk1 s).2 ⟨h1, h2⟩)
    obtain ⟨p, hp, _⟩ := toEnd hd hf h hn
    exact ⟨p, hp⟩
  have hrange : ∀ s p, IsEnd out s p → 1 ≤ s ∧ s ≤ nSeg s0.fdir sa := by
    rintro s p ⟨r, hr, _⟩
    exact (hk1 s).1 ((hk2 s).2 ⟨p, r, hr⟩)
  let num : ℤ → ℕ := fun s => if hx : ∃ p, IsEnd out s p then l hx.choose else 0
  have hnum : ∀ s p, IsEnd out s p → num s = l p := by
    intro s p hp
    have hx : ∃ p, IsEnd out s p := ⟨p, hp⟩
    simp only [num, dif_pos hx]
    rw [end_unique hf h hx.choose_spec hp]
  have hcard : cells.toFinset.card ≤ nSeg s0.fdir sa := by
    have : ∀ c ∈ cells.toFinset, ∃ s, IsEnd out s c := fun c hc => (hcells c).1 (List.mem_toFinset.1 hc)
    choose g hg using this
    have := Finset.card_le_card_of_injOn (s := cells.toFinset) (t := Finset.Icc (1 : ℤ) (nSeg s0.fdir sa))
      (fun c => if hc : c ∈ cells.toFinset then g c hc else 0)
      (fun c hc => by
        have hc : c ∈ cells.toFinset := hc
        have := hrange _ _ (hg c hc)
        simp only [dif_pos hc]
        exact Finset.mem_coe.2 (Finset.mem_Icc.2 this))
      (fun c hc c' hc' e => by
        have hc : c ∈ cells.toFinset := hc
        have hc' : c' ∈ cells.toFinset := hc'
        simp only [dif_pos hc, dif_pos hc'] at e
        exact end_unique hf h (hg c hc) (e ▸ hg c' hc'))
    simpa using this
  refine ⟨num, ?_, ?_, ?_, ?_, ?_⟩
  · intro s h1 h2
    obtain ⟨p, hp⟩ := hend s h1 h2
    rw [hnum s p hp]
    have := l1 p ((hcells p).2 ⟨s, hp⟩)
    exact ⟨this.1, this.2.trans hcard⟩
  · intro s t h1 h2 h3 h4 e
    obtain ⟨p, hp⟩ := hend s h1 h2
    obtain ⟨q, hq⟩ := hend t h3 h4
    rw [hnum s p hp, hnum t q hq] at e
    have := l2 p ((hcells p).2 ⟨s, hp⟩) q ((hcells q).2 ⟨t, hq⟩) e
    subst this
    exact end_seg hf h hp hq
  · intro s t hst ht hne
    have hk : s ∈ out.sg.keys := by
      rw [Dict.mem_keys_iff]
      exact ⟨t, hst⟩
    obtain ⟨p, hp⟩ := hend s ((hk1 s).1 hk).1 ((hk1 s).1 hk).2
    obtain ⟨r, hpr, hpl⟩ := id hp
    rcases C57_outseg hf h hpr with ⟨m, hm, _⟩ | ⟨_, t', ht', hcase⟩
    · exact absurd hm (hpl m)
    · obtain rfl : t = t' := by rw [hst] at ht'; exact Option.some.inj ht'
      rcases hcase with ⟨hz, _⟩ | ⟨_, m, hpm, hm⟩
      · exact absurd hz ht
      · obtain ⟨q, hq, k, hk, _⟩ := toEnd hd hf h hm
        rw [hnum s p hp, hnum t q hq]
        refine l3 p ((hcells p).2 ⟨s, hp⟩) q ((hcells q).2 ⟨t, hq⟩) ?_ ?_
        · rintro rfl
          exact hne (end_seg hf h hq hp)
        · exact ⟨k + 1, by rw [Function.iterate_add_apply]; simp [feeds_d hd hpm, hk]⟩
  · intro u f s r hu hn
    obtain ⟨p, hp, hfirst⟩ := firstEnd hd hf h hu hn
    rw [hnum s p hp]
    exact l4 u p (hcell' ▸ hfirst)
  · intro u hu
    exact l5 u fun p hp => hu p (hstream p hp)

/-- **C184** (areas).  In a network that water leaves for good, the area of a segment's subbasin and the accumulated areas at
the ends of the segments that flow into the segment add up to the accumulated area at the segment's end. -/
theorem C184_areas {K : Type*} [Ring K] {s0 s1 : Basin.State N} (hd : Legal s0.fdir d) (hs : Basin.Fresh s0)
    (hac : ∀ n, sa n ≠ 0 → ¬ OnCycle d n) (hcl : ∀ n m, sa n ≠ 0 → Reaches d (d n) m → sa m ≠ 0 → sa (d n) ≠ 0)
    (hf : N ≤ fuel) (h : mf2005 limit fuel b s0.fdir sa true = .ok out)
    {cells : List (Fin N)} (hcells : ∀ c, c ∈ cells ↔ ∃ s, IsEnd out s c) (h0 : ∀ c ∈ cells, c.val ≠ 0)
    {limit' fuel' afuel : ℕ} (hf' : 2 * N + 1 < fuel') {lab : Fin N → ℕ}
    (hr : Basin.subbasins limit' fuel' s0 cells = .ok (s1, lab)) {area facc : Fin N → K}
    (ha : Acc.flowAccumulation afuel s0.fdir area false = .ok facc) {s : ℤ} {p : Fin N} (hp : IsEnd out s p) :
    open Classical in
    ∑ u ∈ Finset.univ.filter (fun u => lab u = lab p), area u +
      ∑ q ∈ Finset.univ.filter (fun q => ∃ t, t ≠ s ∧ IsEnd out t q ∧ out.sg.get? t = some s), facc q = facc p := by
  classical
  obtain ⟨_, hlist, hrow, _, huniq, hprev⟩ := C56_rows hf h
  have hstream : ∀ c ∈ cells, sa c ≠ 0 := by
    intro c hc
    obtain ⟨s, r, hr, _⟩ := (hcells c).1 hc
    exact (hrow _ _ _ hr).1
  have hcell' : (fun c => c ∈ cells) = fun c => ∃ t, IsEnd out t c := by funext c; exact propext (hcells c)
  rw [← Basin.C129_area hd hs h0 (fun c hc => hac c (hstream c hc)) hf' hr ha ((hcells p).2 ⟨s, hp⟩)]
  congr 1
  · apply Finset.sum_congr _ (fun _ _ => rfl)
    ext q
    simp only [Finset.mem_filter, Finset.mem_univ, true_and, Basin.above, hcell', hcells]
    constructor
    · rintro ⟨t, hts, hq, hst⟩
      refine ⟨⟨t, hq⟩, ?_, ?_⟩
      · rintro rfl
        exact hts (end_seg hf h hq hp)
      · obtain ⟨r, hqr, hql⟩ := id hq
        have hs1 : s ≠ 0 := by
          obtain ⟨k, hk, _⟩ := id hp
          have := ((C58_numbers hf h).2.2.1 s).1 (((C58_numbers hf h).2.2.2 s).2 ⟨p, k, hk⟩)
          omega
        rcases C57_outseg hf h hqr with ⟨m, hm, _⟩ | ⟨_, t', ht', hcase⟩
        · exact absurd hm (hql m)
        · obtain rfl : s = t' := by rw [hst] at ht'; exact Option.some.inj ht'
          rcases hcase with ⟨hz, _⟩ | ⟨_, m, hqm, hm⟩
          · exact absurd hz hs1
          · obtain ⟨p', hp', hfirst⟩ := toEnd hd hf h hm
            rw [feeds_d hd hqm]
            rwa [end_unique hf h hp hp']
    · rintro ⟨⟨t, hq⟩, hne, hfirst⟩
      obtain ⟨r, hqr, hql⟩ := id hq
      have hq0 := (hrow _ _ _ hqr).1
      refine ⟨t, ?_, hq, ?_⟩
      · rintro rfl
        exact hne (end_unique hf h hq hp)
      · have hp0 : sa p ≠ 0 := by obtain ⟨k, hk, _⟩ := id hp; exact (hrow _ _ _ hk).1
        obtain ⟨i, hi, _, _⟩ := id hfirst
        have hdq : sa (d q) ≠ 0 := hcl q p hq0 ⟨i, hi⟩ hp0
        have hfd : Feeds s0.fdir sa q (d q) := ⟨hq0, hdq, hd q⟩
        rcases C57_outseg hf h hqr with ⟨m, hm, _⟩ | ⟨_, t', ht', hcase⟩
        · exact absurd hm (hql m)
        · rcases hcase with ⟨_, hno⟩ | ⟨_, m, hqm, hm⟩
          · exact absurd hfd (hno _)
          · obtain ⟨p', hp', hfirst'⟩ := toEnd hd hf h hm
            rw [feeds_d hd hqm] at hfirst
            have := firstOn_unique hfirst hfirst'
            subst this
            rw [ht', end_seg hf h hp hp']

end

/-! ### a concrete case: streams 1 → 2 → 3 → 4 ← and 7 → 2; land 0 → 7, 5 → 2, 6 → 4 -/

private def sbF : Fin 8 → ℤ := ![7, 2, 3, 4, 4, 2, 4, 2]
private def sbD : Fin 8 → Fin 8 := ![7, 2, 3, 4, 4, 2, 4, 2]
private def sbA : Fin 8 → ℤ := ![0, 1, 1, 1, 1, 0, 0, 1]

private theorem sb_out : (mf2005 10 10 false sbF sbA true).map (fun o => (o.sg, o.nsr)) =
    .ok ([(2, 3), (1, 3), (3, 4), (4, 4)], [(1, 2, 1), (7, 1, 1), (2, 3, 1), (3, 3, 2), (4, 4, 1)]) := by decide +kernel

private theorem sb_lab : (Basin.subbasins 10 20 ⟨sbF, none⟩ [1, 7, 3, 4]).map (fun o => List.ofFn o.2) =
    .ok [1, 2, 3, 3, 4, 3, 4, 1] := by decide +kernel

private theorem sb_free (n : Fin 8) : ¬ OnCycle sbD n := by
  apply no_cycle_of_fall (f := fun n => (((![6, 5, 4, 3, 1, 5, 5, 5] : Fin 8 → ℕ) n : ℕ) : ℝ))
  have h : ∀ n, sbD n ≠ n →
      (![6, 5, 4, 3, 1, 5, 5, 5] : Fin 8 → ℕ) (sbD n) < (![6, 5, 4, 3, 1, 5, 5, 5] : Fin 8 → ℕ) n := by decide
  intro n hn
  exact_mod_cast h n hn

/-- all hypotheses of C184 are met -/
example : ∃ out s1 lab, mf2005 10 10 false sbF sbA true = .ok out ∧
    Basin.subbasins 10 20 ⟨sbF, none⟩ [1, 7, 3, 4] = .ok (s1, lab) ∧ Legal sbF sbD ∧ (∀ n, ¬ OnCycle sbD n) ∧
    (∀ c, c ∈ [1, 7, 3, 4] ↔ ∃ s, IsEnd out s c) ∧ (∀ n, sbA n ≠ 0 → sbA (sbD n) ≠ 0) := by
  obtain ⟨out, ho, e⟩ := Res.map_eq_ok.1 sb_out
  obtain ⟨⟨s1, lab⟩, hl, _⟩ := Res.map_eq_ok.1 sb_lab
  refine ⟨out, s1, lab, ho, hl, by intro n; fin_cases n <;> rfl, sb_free, ?_, by decide⟩
  have hn : out.nsr = [(1, 2, 1), (7, 1, 1), (2, 3, 1), (3, 3, 2), (4, 4, 1)] := (Prod.mk.inj e).2
  intro c
  fin_cases c <;> simp [IsEnd, hn]

end Dany.Pipe
