import Verif.Acc.Lemmas
import Mathlib.Algebra.Order.Ring.Rat
import Mathlib.Data.Fin.VecNotation
import Mathlib.Algebra.BigOperators.Fin
import Mathlib.Algebra.Order.Monoid.Defs

/-!
# C30 – C35: inflow counts and flow accumulation
-/

namespace Dany.Acc

open Function Flow

variable {N : ℕ} {K : Type*} [AddCommMonoidWithOne K]

/-- A small network used for the non-vacuity examples: 0 → 1 → 2, 3 → 1, 2 drains to itself, and the
flow cycle 4 → 5 → 4 with the tributary 6. -/
def ex7 : Fin 7 → ℤ := ![1, 2, 2, 1, 5, 4, 4]
def ex7d : Fin 7 → Fin 7 := ![1, 2, 2, 1, 5, 4, 4]
theorem ex7_legal : Legal ex7 ex7d := by unfold Legal; decide +kernel

/-- **C30.** If the array holds cell numbers, `get_nidp` counts for every cell the cells flowing
into it, and the counts add up to the number of cells. -/
theorem C30_nidp {fdir : Fin N → ℤ} (hr : ∀ u, 0 ≤ fdir u ∧ fdir u < N) :
    ∃ nidp, getNidp fdir = .ok nidp ∧
      (∀ n : Fin N, nidp n = (Finset.univ.filter (fun u => fdir u = ((n : ℕ) : ℤ))).card) ∧
      ∑ n, nidp n = N := by
  obtain ⟨d, hd⟩ := Resolves.exists (fun n => ⟨by have := hr n; omega, (hr n).2⟩)
  refine ⟨_, getNidp_ok hd, ?_, ?_⟩
  · intro n
    congr 1
    ext u
    rw [mem_pre, Finset.mem_filter]
    have h1 := hr u
    have h2 : ((d u : ℕ) : ℤ) = fdir u := by
      rcases hd u with h | h
      · exact h.2
      · omega
    constructor
    · rintro rfl; simp [h2]
    · rintro ⟨_, h⟩; apply Fin.ext; omega
  · have := Finset.card_eq_sum_card_fiberwise (s := (Finset.univ : Finset (Fin N)))
      (t := Finset.univ) (f := d) (by simp)
    simp only [Finset.card_univ, Fintype.card_fin] at this
    exact this.symm

example : getNidp ex7 = .ok ![0, 2, 2, 0, 2, 1, 0] := by decide +kernel

/-- **C31.** `flow_accumulation` finishes on every array of valid indices, cyclic or not; a walk takes
at most `N` steps, and the result does not depend on the fuel. -/
theorem C31_terminates {fdir : Fin N → ℤ} (hr : ∀ u, -(N : ℤ) ≤ fdir u ∧ fdir u < N)
    (area : Fin N → K) (asCells : Bool) :
    ∃ out, ∀ fuel, N < fuel → flowAccumulation fuel fdir area asCells = .ok out := by
  obtain ⟨d, hd⟩ := Resolves.exists hr
  obtain ⟨out, R, h, _⟩ := flowAccumulation_ok hd area asCells (fuel := N + 1) (by omega)
  exact ⟨out, fun fuel hf => flowAccumulation_mono hf h⟩

example : flowAccumulation 8 ex7 ![(1 : ℚ), 2, 3, 4, 5, 6, 7] false
    = .ok ![1, 7, 10, 4, 12, 6, 7] := by decide +kernel
example : flowAccumulation 8 ex7 ![(1 : ℚ), 2, 3, 4, 5, 6, 7] true
    = .ok ![1, 3, 4, 1, 2, 1, 1] := by decide +kernel

/-- **C32.** Off the flow cycles of length two or more, the accumulated value of a cell is the sum of
the areas (with `as_cells` the number) of the cells whose flow path passes through it. -/
theorem C32_upstream_sum {fdir : Fin N → ℤ} {d : Fin N → Fin N} (hd : Resolves fdir d)
    {area : Fin N → K} {fuel : ℕ} {asCells : Bool} {out : Fin N → K}
    (ho : flowAccumulation fuel fdir area asCells = .ok out) (n : Fin N) (hn : ¬ OnCycle d n) :
    (asCells = false → out n = ∑ u ∈ upstream d n, area u) ∧
    (asCells = true → out n = ((upstream d n).card : K)) := by
  obtain ⟨R, hF⟩ := final_of_ok hd ho
  have := hF.sum n hn
  constructor
  · rintro rfl; simpa using this
  · rintro rfl
    rw [this]
    simp

example : ¬ OnCycle ex7d 1 := by
  rw [onCycle_iff]
  rintro ⟨_, h⟩
  have := Reaches.of_fixed (d := ex7d) (a := ex7d 1) (by decide +kernel) h
  revert this
  decide +kernel

/-- **C33.** If every flow path ends in an outlet (a cell flowing to itself), the accumulated areas
at the outlets add up to the total area. -/
theorem C33_conservation {fdir : Fin N → ℤ} {d : Fin N → Fin N} (hd : Resolves fdir d)
    {area : Fin N → K} {fuel : ℕ} {out : Fin N → K}
    (ho : flowAccumulation fuel fdir area false = .ok out)
    (hout : ∀ u, ∃ o, d o = o ∧ Reaches d u o) :
    ∑ o ∈ Finset.univ.filter (fun o => d o = o), out o = ∑ u, area u := by
  classical
  obtain ⟨R, hF⟩ := final_of_ok hd ho
  have h1 : ∀ o ∈ Finset.univ.filter (fun o => d o = o), out o = ∑ u ∈ upstream d o, area u := by
    intro o ho
    have ho := (Finset.mem_filter.1 ho).2
    simpa using hF.sum o (fun h => h.1 ho)
  rw [Finset.sum_congr rfl h1, ← Finset.sum_biUnion]
  · apply Finset.sum_congr _ (fun _ _ => rfl)
    ext u
    simp only [Finset.mem_biUnion, Finset.mem_filter, Finset.mem_univ, true_and, iff_true]
    obtain ⟨o, h, hr⟩ := hout u
    exact ⟨o, h, mem_upstream.2 hr⟩
  · intro a ha b hb hab
    rw [Function.onFun, Finset.disjoint_left]
    intro w hwa hwb
    have ha : d a = a := by simpa using ha
    have hb : d b = b := by simpa using hb
    rcases (mem_upstream.1 hwa).total (mem_upstream.1 hwb) with h | h
    · exact hab (h.of_fixed ha).symm
    · exact hab (h.of_fixed hb)

/-- the hypothesis of C33 on a concrete network -/
example : ∀ u : Fin 4, ∃ o, (![1, 2, 2, 1] : Fin 4 → Fin 4) o = o ∧
    Reaches (![1, 2, 2, 1] : Fin 4 → Fin 4) u o := by
  intro u
  refine ⟨2, by decide +kernel, ⟨2, ?_⟩⟩
  revert u
  decide +kernel

/-- **C34.** With non-negative areas, the cell a cell off the cycles flows to has accumulated at least
that cell's value plus its own area. -/
theorem C34_grows_downstream [PartialOrder K] [IsOrderedAddMonoid K] {fdir : Fin N → ℤ}
    {d : Fin N → Fin N} (hd : Resolves fdir d) {area : Fin N → K} (hpos : ∀ u, 0 ≤ area u)
    {fuel : ℕ} {out : Fin N → K} (ho : flowAccumulation fuel fdir area false = .ok out)
    (n : Fin N) (hn : ¬ OnCycle d n) (hself : d n ≠ n) :
    out n + area (d n) ≤ out (d n) := by
  obtain ⟨R, hF⟩ := final_of_ok hd ho
  simp only [Bool.false_eq_true, if_false] at hF
  have hnn : ∀ u ∈ R, 0 ≤ out u := by
    intro u hu
    rw [hF.sum u (hF.nocyc u hu).1]
    exact Finset.sum_nonneg (fun v _ => hpos v)
  rw [hF.val (d n), add_comm]
  gcongr
  unfold inflow
  refine Finset.single_le_sum (f := out) (s := R.filter (fun u => d u = d n)) ?_ ?_
  · intro u hu; exact hnn u (Finset.mem_filter.1 hu).1
  · exact Finset.mem_filter.2 ⟨hF.all n hn hself, rfl⟩

/-- the same with `as_cells=True`: the count grows by at least one per step downstream -/
theorem C34_counts_grow {fdir : Fin N → ℤ} {d : Fin N → Fin N} (hd : Resolves fdir d)
    {area : Fin N → ℚ} {fuel : ℕ} {out : Fin N → ℚ}
    (ho : flowAccumulation fuel fdir area true = .ok out)
    (n : Fin N) (hn : ¬ OnCycle d n) (hself : d n ≠ n) : out n + 1 ≤ out (d n) := by
  obtain ⟨R, hF⟩ := final_of_ok hd ho
  simp only [if_true] at hF
  have hnn : ∀ u ∈ R, 0 ≤ out u := by
    intro u hu
    rw [hF.sum u (hF.nocyc u hu).1]
    exact Finset.sum_nonneg (fun v _ => zero_le_one)
  rw [hF.val (d n), add_comm]
  gcongr
  unfold inflow
  refine Finset.single_le_sum (f := out) (s := R.filter (fun u => d u = d n)) ?_ ?_
  · intro u hu; exact hnn u (Finset.mem_filter.1 hu).1
  · exact Finset.mem_filter.2 ⟨hF.all n hn hself, rfl⟩

/-- **C35** as stated: the value of any cell other than the sink cell `s` is unaffected by the area
of `s`.  This is what a user expects of the sink code `-2`. -/
def SinkIsolated (N : ℕ) : Prop :=
  ∀ (fdir : Fin N → ℤ), (∀ u, fdir u = -2 ∨ (0 ≤ fdir u ∧ fdir u < N)) →
    ∀ (area area' : Fin N → ℚ) (s : Fin N), fdir s = -2 → (∀ u, u ≠ s → area u = area' u) →
    ∀ fuel out out', flowAccumulation fuel fdir area false = .ok out →
      flowAccumulation fuel fdir area' false = .ok out' → ∀ n, n ≠ s → out n = out' n

/-- **C35 is false of the code**: on every grid with at least three cells. -/
theorem C35_refuted (N : ℕ) (hN : 3 ≤ N) : ¬ SinkIsolated N := by
  intro hS
  -- cell 0 is a sink, all other cells drain to themselves
  let fdir : Fin N → ℤ := fun u => if u.val = 0 then -2 else ((u : ℕ) : ℤ)
  let t : Fin N := ⟨N - 2, by omega⟩
  let z : Fin N := ⟨0, by omega⟩
  let d : Fin N → Fin N := fun u => if u.val = 0 then t else u
  have hd : Resolves fdir d := by
    intro u
    have := u.isLt
    by_cases hu : u.val = 0
    · right; simp [fdir, d, hu, t]; omega
    · left; simp [fdir, d, hu]
  have hrun : ∀ a : Fin N → ℚ, ∃ out, flowAccumulation (N + 1) fdir a false = .ok out ∧
      out t = a z + a t := by
    intro a
    obtain ⟨out, R, h1, hF⟩ := flowAccumulation_ok hd a false (fuel := N + 1) (by omega)
    refine ⟨out, h1, ?_⟩
    have htt : d t = t := by simp [d, t]
    have hc : ¬ OnCycle d t := fun h => h.1 htt
    have h2 := hF.sum t hc
    simp only [Bool.false_eq_true, if_false] at h2
    have hzt : z ≠ t := by
      intro h
      have := congrArg Fin.val h
      simp [z, t] at this
      omega
    have hup : upstream d t = {z, t} := by
      ext u
      rw [mem_upstream]
      simp only [Finset.mem_insert, Finset.mem_singleton]
      constructor
      · intro hr
        by_cases hu : u.val = 0
        · left; exact Fin.ext hu
        · right
          have : d u = u := by simp [d, hu]
          exact (hr.of_fixed this).symm
      · rintro (rfl | rfl)
        · exact ⟨1, by simp [d, z]⟩
        · exact Reaches.refl _
    rw [h2, hup, Finset.sum_pair hzt]
  obtain ⟨o1, e1, v1⟩ := hrun (fun u => if u = z then 1 else 0)
  obtain ⟨o2, e2, v2⟩ := hrun (fun _ => 0)
  have hzt : t ≠ z := by
    intro h
    have := congrArg Fin.val h
    simp [z, t] at this
    omega
  have := hS fdir (by
      intro u
      by_cases hu : u.val = 0
      · left; simp [fdir, hu]
      · right; simp [fdir, hu]) _ _ z (by simp [fdir, z])
    (by intro u hu; simp [hu]) (N + 1) o1 o2 e1 e2 t hzt
  rw [v1, v2] at this
  simp [hzt] at this

/-- **C35**, what does hold (partial): a sink cell's area reaches only the cells on the flow path of
cell `N - 2` (the cell numpy's index `-2` denotes); all other cells off the cycles are unaffected. -/
theorem C35_sinks_partial {fdir : Fin N → ℤ} {d : Fin N → Fin N} (hd : Resolves fdir d)
    {area area' : Fin N → K} {s t : Fin N} (hs : fdir s = -2) (ht : t.val + 2 = N)
    (heq : ∀ u, u ≠ s → area u = area' u) {fuel : ℕ} {out out' : Fin N → K}
    (h1 : flowAccumulation fuel fdir area false = .ok out)
    (h2 : flowAccumulation fuel fdir area' false = .ok out')
    (n : Fin N) (hns : n ≠ s) (hn : ¬ OnCycle d n) (hnt : ¬ Reaches d t n) : out n = out' n := by
  rw [(C32_upstream_sum hd h1 n hn).1 rfl, (C32_upstream_sum hd h2 n hn).1 rfl]
  apply Finset.sum_congr rfl
  intro u hu
  apply heq
  rintro rfl
  have hr := mem_upstream.1 hu
  rcases hr.cases_head with h | h
  · exact hns h.symm
  · have : d u = t := by
      apply Fin.ext
      rcases hd u with h' | h'
      · omega
      · omega
    exact hnt (this ▸ h)

/-- non-vacuity: 0 is a sink, 1 → 2 → 2, 3 → 3, `N - 2 = 2` -/
example : Resolves (![-2, 2, 2, 3] : Fin 4 → ℤ) (![2, 2, 2, 3] : Fin 4 → Fin 4) := by
  intro n; revert n; decide +kernel

end Dany.Acc
