import Verif.Acc.Props

/-!
# C176: turning one flow direction

Two arrays of flow directions that differ in one cell `c` only.
-/

namespace Dany.Acc

open Flow

variable {N : ℕ} {K : Type*} [AddCommMonoidWithOne K] {d d' : Fin N → Fin N}

/-- from `w` to `n` without leaving `c` on the way -/
private def Via (d : Fin N → Fin N) (c w n : Fin N) : Prop := ∃ k : ℕ, d^[k] w = n ∧ ∀ j < k, d^[j] w ≠ c

private theorem via_congr {c w n : Fin N} (h : ∀ u, u ≠ c → d' u = d u) (hv : Via d c w n) : Via d' c w n := by
  obtain ⟨k, hk, hj⟩ := hv
  have key : ∀ i ≤ k, d'^[i] w = d^[i] w := by
    intro i
    induction i with
    | zero => intro _; rfl
    | succ i ih =>
      intro hi
      rw [Function.iterate_succ_apply', Function.iterate_succ_apply', ih (by omega), h _ (hj i (by omega))]
  exact ⟨k, (key k le_rfl).trans hk, fun j hjk => by rw [key j hjk.le]; exact hj j hjk⟩

private theorem via_iff {c w n : Fin N} (h : ∀ u, u ≠ c → d' u = d u) : Via d c w n ↔ Via d' c w n :=
  ⟨via_congr h, via_congr fun u hu => (h u hu).symm⟩

private theorem via_self {c w : Fin N} : Reaches d w c ↔ Via d c w c := by
  classical
  refine ⟨fun h => ?_, fun ⟨k, hk, _⟩ => ⟨k, hk⟩⟩
  exact ⟨Nat.find h, Nat.find_spec h, fun j hj => Nat.find_min h hj⟩

private theorem reach_split {c w n : Fin N} : Reaches d w n ↔ Via d c w n ∨ (Reaches d w c ∧ Reaches d c n) := by
  constructor
  · rintro ⟨k, hk⟩
    by_cases h : ∃ j < k, d^[j] w = c
    · obtain ⟨j, hj, e⟩ := h
      refine .inr ⟨⟨j, e⟩, ⟨k - j, ?_⟩⟩
      rw [← e, ← Function.iterate_add_apply, Nat.sub_add_cancel hj.le, hk]
    · exact .inl ⟨k, hk, fun j hj e => h ⟨j, hj, e⟩⟩
  · rintro (⟨k, hk, _⟩ | ⟨h1, h2⟩)
    · exact ⟨k, hk⟩
    · exact h1.trans h2

private theorem split_disj {c w n : Fin N} (hc : ¬ OnCycle d c) (hne : n ≠ c) (hv : Via d c w n)
    (hw : Reaches d w c) : ¬ Reaches d c n := by
  intro hcn
  obtain ⟨k, hk, hj⟩ := hv
  obtain ⟨i, hi⟩ := hw
  have hik : k ≤ i := by
    by_contra hlt
    exact hj i (by omega) hi
  have hnc : Reaches d n c := ⟨i - k, by rw [← hk, ← Function.iterate_add_apply, Nat.sub_add_cancel hik, hi]⟩
  exact hne (Reaches.antisymm hc hnc hcn)

private theorem sum_eq {area : Fin N → K} {c n : Fin N} (hc : ¬ OnCycle d c) (hne : n ≠ c) :
    open Classical in ∑ u ∈ upstream d n, area u =
      ∑ u ∈ Finset.univ.filter (fun w => Via d c w n), area u +
        (if Reaches d c n then ∑ u ∈ upstream d c, area u else 0) := by
  classical
  by_cases h : Reaches d c n
  · rw [if_pos h, ← Finset.sum_union]
    · apply Finset.sum_congr _ fun _ _ => rfl
      ext w
      rw [mem_upstream, Finset.mem_union, mem_upstream, Finset.mem_filter, reach_split (c := c)]
      simp [h]
    · rw [Finset.disjoint_left]
      intro w hw hw'
      exact split_disj hc hne (Finset.mem_filter.1 hw).2 (mem_upstream.1 hw') h
  · rw [if_neg h, add_zero]
    apply Finset.sum_congr _ fun _ _ => rfl
    ext w
    rw [mem_upstream, Finset.mem_filter, reach_split (c := c)]
    simp [h]

private theorem value {fdir : Fin N → ℤ} (hd : Resolves fdir d) {area : Fin N → K} {fuel : ℕ} {asCells : Bool}
    {out : Fin N → K} (ho : flowAccumulation fuel fdir area asCells = .ok out) (n : Fin N)
    (hn : ¬ OnCycle d n) : out n = ∑ u ∈ upstream d n, if asCells = true then 1 else area u := by
  cases asCells with
  | false => simpa using (C32_upstream_sum hd ho n hn).1 rfl
  | true => simpa using (C32_upstream_sum hd ho n hn).2 rfl

/-- **C176.**  If the flow directions are changed in cell `c` only, the value accumulated in `c` stays the same, and
it is taken off the cells on the old flow path of `c` and added to the cells on the new one: all others keep their
values.  (`n` and `c` off closed flow paths before and after.) (flow_directions.py:430-475) -/
theorem C176_reroute {fdir fdir' : Fin N → ℤ} (hd : Resolves fdir d) (hd' : Resolves fdir' d') {c : Fin N}
    (hsame : ∀ u, u ≠ c → d' u = d u) (hc : ¬ OnCycle d c) (hc' : ¬ OnCycle d' c)
    {area : Fin N → K} {fuel fuel' : ℕ} {asCells : Bool} {out out' : Fin N → K}
    (h : flowAccumulation fuel fdir area asCells = .ok out)
    (h' : flowAccumulation fuel' fdir' area asCells = .ok out') :
    out' c = out c ∧ ∀ n, n ≠ c → ¬ OnCycle d n → ¬ OnCycle d' n →
      open Classical in out' n + (if Reaches d c n then out c else 0) =
        out n + (if Reaches d' c n then out c else 0) := by
  classical
  have ec : out' c = out c := by
    rw [value hd h c hc, value hd' h' c hc']
    apply Finset.sum_congr _ fun _ _ => rfl
    ext w
    rw [mem_upstream, mem_upstream, via_self, via_self, via_iff hsame]
  refine ⟨ec, fun n hne hn hn' => ?_⟩
  have e1 := value hd h n hn
  have e2 := value hd' h' n hn'
  rw [sum_eq hc hne, ← value hd h c hc] at e1
  rw [sum_eq hc' hne, ← value hd' h' c hc', ec] at e2
  have e3 : (Finset.univ.filter fun w => Via d' c w n) = Finset.univ.filter fun w => Via d c w n := by
    ext w
    simp only [Finset.mem_filter, Finset.mem_univ, true_and]
    exact (via_iff hsame).symm
  rw [e1, e2, e3, add_right_comm]

/-- 0 → 1 → 2, 6 → 3, 4 → 5, and 3 → 1 … -/
def rr : Fin 7 → ℤ := ![1, 2, 2, 1, 5, 5, 3]
def rrd : Fin 7 → Fin 7 := ![1, 2, 2, 1, 5, 5, 3]
/-- … or 3 → 4 -/
def rr' : Fin 7 → ℤ := ![1, 2, 2, 4, 5, 5, 3]
def rrd' : Fin 7 → Fin 7 := ![1, 2, 2, 4, 5, 5, 3]

private theorem free {e : Fin 7 → Fin 7} (he : e = rrd ∨ e = rrd') (n : Fin 7) : ¬ OnCycle e n := by
  rintro ⟨h, k, hk⟩
  have hfix : ∀ m : Fin 7, e (e^[3] m) = e^[3] m := by rcases he with rfl | rfl <;> decide +kernel
  have hiter : ∀ i, e^[i] (e^[3] n) = e^[3] n := by
    intro i
    induction i with
    | zero => rfl
    | succ i ih => rw [Function.iterate_succ_apply, hfix, ih]
  have hper : ∀ i, e^[(k + 1) * i] n = n := by
    intro i
    induction i with
    | zero => rfl
    | succ i ih => rw [Nat.mul_succ, Function.iterate_add_apply, hk, ih]
  have h3 : e^[3] n = n := by
    rw [← hiter ((k + 1) * 3 - 3), ← Function.iterate_add_apply, show (k + 1) * 3 - 3 + 3 = (k + 1) * 3 by omega]
    exact hper 3
  have := hfix n
  rw [h3] at this
  exact h this

private theorem down3 (n : Fin 7) : Reaches rrd 3 n ↔ n = 3 ∨ n = 1 ∨ n = 2 := by
  constructor
  · rintro ⟨k, rfl⟩
    induction k with
    | zero => exact .inl rfl
    | succ k ih =>
      rw [Function.iterate_succ_apply']
      rcases ih with h | h | h <;> rw [h] <;> decide
  · rintro (rfl | rfl | rfl)
    exacts [⟨0, rfl⟩, ⟨1, rfl⟩, ⟨2, rfl⟩]

private theorem down3' (n : Fin 7) : Reaches rrd' 3 n ↔ n = 3 ∨ n = 4 ∨ n = 5 := by
  constructor
  · rintro ⟨k, rfl⟩
    induction k with
    | zero => exact .inl rfl
    | succ k ih =>
      rw [Function.iterate_succ_apply']
      rcases ih with h | h | h <;> rw [h] <;> decide
  · rintro (rfl | rfl | rfl)
    exacts [⟨0, rfl⟩, ⟨1, rfl⟩, ⟨2, rfl⟩]

-- non-vacuity: the 11 units of cells 3 and 6 move from cells 1, 2 to cells 4, 5
example : flowAccumulation 8 rr ![(1 : ℚ), 2, 3, 4, 5, 6, 7] false = .ok ![1, 14, 17, 11, 5, 11, 7] := by
  decide +kernel
example : flowAccumulation 8 rr' ![(1 : ℚ), 2, 3, 4, 5, 6, 7] false = .ok ![1, 3, 6, 11, 16, 22, 7] := by
  decide +kernel
example {o o' : Fin 7 → ℚ} (h : flowAccumulation 8 rr ![(1 : ℚ), 2, 3, 4, 5, 6, 7] false = .ok o)
    (h' : flowAccumulation 8 rr' ![(1 : ℚ), 2, 3, 4, 5, 6, 7] false = .ok o') :
    o' 3 = o 3 ∧ o' 2 + o 3 = o 2 ∧ o' 5 = o 5 + o 3 ∧ o' 0 = o 0 := by
  have hd : Legal rr rrd := by unfold Legal; decide +kernel
  have hd' : Legal rr' rrd' := by unfold Legal; decide +kernel
  obtain ⟨e, hn⟩ := C176_reroute hd.resolves hd'.resolves (c := 3) (by decide +kernel) (free (.inl rfl) 3)
    (free (.inr rfl) 3) h h'
  have key := fun n hne => hn n hne (free (.inl rfl) n) (free (.inr rfl) n)
  simp only [down3, down3'] at key
  exact ⟨e, by simpa using key 2 (by decide), by simpa using key 5 (by decide), by simpa using key 0 (by decide)⟩

end Dany.Acc
