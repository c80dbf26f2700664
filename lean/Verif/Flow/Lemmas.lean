import Verif.Flow.Spec

/-!
# Facts about flow networks
-/

namespace Dany.Flow

variable {N : ℕ} {d : Fin N → Fin N}

theorem Legal.resolves {fdir : Fin N → ℤ} (h : Legal fdir d) : Resolves fdir d := by
  intro n
  left
  rw [h n]
  exact ⟨by omega, rfl⟩

theorem Resolves.pyIndex {fdir : Fin N → ℤ} (h : Resolves fdir d) (n : Fin N) :
    pyIndex N (fdir n) = .ok (d n) := by
  have hlt := (d n).isLt
  unfold Dany.pyIndex
  rcases h n with ⟨h0, h1⟩ | ⟨h0, h1⟩
  · rw [dif_pos (by omega)]
    congr 1
    apply Fin.ext
    simp only
    omega
  · rw [dif_neg (by omega), dif_pos (by omega)]
    congr 1
    apply Fin.ext
    simp only
    omega

theorem Resolves.exists {fdir : Fin N → ℤ} (h : ∀ n, -(N : ℤ) ≤ fdir n ∧ fdir n < N) :
    ∃ d : Fin N → Fin N, Resolves fdir d := by
  refine ⟨fun n => if h0 : 0 ≤ fdir n then ⟨(fdir n).toNat, by have := h n; omega⟩
    else ⟨(N + fdir n).toNat, by have := h n; omega⟩, fun n => ?_⟩
  have := h n
  dsimp only
  split
  · left; simp; omega
  · right; simp; omega

theorem mem_upstream {u n : Fin N} : u ∈ upstream d n ↔ Reaches d u n := by
  simp [upstream]

theorem Reaches.refl (n : Fin N) : Reaches d n n := ⟨0, rfl⟩

theorem Reaches.step (n : Fin N) : Reaches d n (d n) := ⟨1, rfl⟩

theorem Reaches.trans {a b c : Fin N} (h1 : Reaches d a b) (h2 : Reaches d b c) : Reaches d a c := by
  obtain ⟨i, rfl⟩ := h1
  obtain ⟨j, rfl⟩ := h2
  exact ⟨j + i, Function.iterate_add_apply _ _ _ _⟩

/-- A path to `n` is trivial or passes last through a cell flowing into `n`. -/
theorem Reaches.cases_last {u n : Fin N} (h : Reaches d u n) :
    u = n ∨ ∃ p, d p = n ∧ Reaches d u p := by
  obtain ⟨k, hk⟩ := h
  cases k with
  | zero => left; exact hk
  | succ k =>
    right
    rw [Function.iterate_succ_apply'] at hk
    exact ⟨_, hk, k, rfl⟩

/-- A path from `u` is trivial or continues from the cell `u` flows to. -/
theorem Reaches.cases_head {u n : Fin N} (h : Reaches d u n) : u = n ∨ Reaches d (d u) n := by
  obtain ⟨k, hk⟩ := h
  cases k with
  | zero => left; exact hk
  | succ k =>
    right
    rw [Function.iterate_succ_apply] at hk
    exact ⟨k, hk⟩

/-- Two cells on the same flow path: one is upstream of the other. -/
theorem Reaches.total {w a b : Fin N} (h1 : Reaches d w a) (h2 : Reaches d w b) :
    Reaches d a b ∨ Reaches d b a := by
  obtain ⟨i, rfl⟩ := h1
  obtain ⟨j, rfl⟩ := h2
  rcases le_total i j with h | h
  · left
    refine ⟨j - i, ?_⟩
    rw [← Function.iterate_add_apply]
    congr 1; omega
  · right
    refine ⟨i - j, ?_⟩
    rw [← Function.iterate_add_apply]
    congr 1; omega

/-- From a self-draining cell one never gets away. -/
theorem Reaches.of_fixed {a b : Fin N} (h : d a = a) (hr : Reaches d a b) : b = a := by
  obtain ⟨k, rfl⟩ := hr
  exact Function.iterate_fixed h k

/-- two distinct mutually reachable cells lie on a cycle -/
theorem Reaches.onCycle {a b : Fin N} (hne : a ≠ b) (h1 : Reaches d a b) (h2 : Reaches d b a) :
    OnCycle d a := by
  refine ⟨fun h => hne (h1.of_fixed h).symm, ?_⟩
  obtain ⟨i, hi⟩ := h1
  obtain ⟨j, hj⟩ := h2
  cases i with
  | zero => exact absurd hi hne
  | succ i =>
    refine ⟨j + i, ?_⟩
    rw [Nat.add_assoc, Function.iterate_add_apply, hi, hj]

theorem onCycle_iff {n : Fin N} : OnCycle d n ↔ d n ≠ n ∧ Reaches d (d n) n := by
  constructor
  · rintro ⟨h, k, hk⟩
    exact ⟨h, k, by rw [Function.iterate_succ_apply] at hk; exact hk⟩
  · rintro ⟨h, k, hk⟩
    exact ⟨h, k, by rw [Function.iterate_succ_apply]; exact hk⟩

/-- the next cell of a cycle is on the cycle -/
theorem OnCycle.next {n : Fin N} (h : OnCycle d n) : OnCycle d (d n) := by
  obtain ⟨h1, h2⟩ := onCycle_iff.1 h
  exact h2.onCycle h1 (Reaches.step n)

theorem not_onCycle_of_reaches {u n : Fin N} (h : ¬ OnCycle d n) (hr : Reaches d u n) :
    ¬ OnCycle d u := by
  intro hc
  apply h
  obtain ⟨k, rfl⟩ := hr
  clear h
  induction k with
  | zero => exact hc
  | succ k ih => rw [Function.iterate_succ_apply']; exact ih.next

/-- Reachability between cells off the cycles is antisymmetric. -/
theorem Reaches.antisymm {a b : Fin N} (hc : ¬ OnCycle d b) (h1 : Reaches d a b)
    (h2 : Reaches d b a) : a = b := by
  by_contra hne
  exact hc (h2.onCycle (Ne.symm hne) h1)

theorem Reaches.head {u n : Fin N} (h : Reaches d (d u) n) : Reaches d u n :=
  (Reaches.step u).trans h

/-- strictly fewer cells are upstream of a tributary -/
theorem upstream_ssubset {u n : Fin N} (hc : ¬ OnCycle d n) (hr : Reaches d u n) (hne : u ≠ n) :
    upstream d u ⊂ upstream d n := by
  refine ⟨fun w hw => mem_upstream.2 ((mem_upstream.1 hw).trans hr), fun hsub => ?_⟩
  have hn : Reaches d n u := mem_upstream.1 (hsub (mem_upstream.2 (Reaches.refl n)))
  exact hne (hr.antisymm hc hn)

end Dany.Flow
