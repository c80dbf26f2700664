import Verif.Flood.Shift
import Verif.Flood.Compare
import Mathlib.Algebra.Order.Group.Abs
import Mathlib.Algebra.Group.Basic

/-!
# C174: errors of the DEM are not magnified by filling

Two DEMs that differ by at most `δ` anywhere are filled to surfaces that differ by at most `δ` ('complete',
'drain'), or by at most `δ + N eps` ('priority').
-/

namespace Dany.Flood

variable {N : ℕ} {K : Type*} [Field K] [LinearOrder K] [IsStrictOrderedRing K]

private theorem top_shift {nbr : Fin N → List ℕ} {S : Fin N → Prop} {dem dem' : Fin N → K} {δ : K}
    (hle : ∀ n, dem n ≤ dem' n + δ) {k : Fin N} {v : K} (hv : PathTop nbr dem' S k v) :
    ∃ v' ≤ v + δ, PathTop nbr dem S k v' := by
  induction hv with
  | @seed s hs => exact ⟨dem s, hle s, .seed hs⟩
  | @step c k v hv ha ih =>
    obtain ⟨v', hle', hv'⟩ := ih
    refine ⟨_, ?_, .step hv' ha⟩
    rw [← max_add_add_right]
    exact max_le_max hle' (hle k)

private theorem rise_shift {nbr : Fin N → List ℕ} {S : Fin N → Prop} {dem dem' : Fin N → K} {δ eps : K}
    (hle : ∀ n, dem n ≤ dem' n + δ) {k : Fin N} {v : K} (hv : PathRise (· + eps) nbr dem' S k v) :
    ∃ v' ≤ v + δ, PathRise (· + eps) nbr dem S k v' := by
  induction hv with
  | @seed s hs => exact ⟨dem s, hle s, .seed hs⟩
  | @step c k v hv ha ih =>
    obtain ⟨v', hle', hv'⟩ := ih
    refine ⟨_, ?_, .step hv' ha⟩
    rw [← max_add_add_right]
    exact max_le_max (hle k) (by linarith)

omit [LinearOrder K] [IsStrictOrderedRing K] in
private theorem iter_add (eps x : K) (k : ℕ) : (· + eps)^[k] x = x + k * eps := by
  rw [add_right_iterate, nsmul_eq_mul]

private theorem complete_le {fuel fuel' : ℕ} {eps flood δ : K} {g : Grid N} {dem dem' out out' : Fin N → K}
    {method : String} (hmeth : method.toLower = "complete") (hle : ∀ n, dem n ≤ dem' n + δ)
    (h : fillSinks fuel (· + eps) flood g dem none method = .ok out)
    (h' : fillSinks fuel' (· + eps) flood g dem' none method = .ok out') (n : Fin N) :
    out n ≤ out' n + δ := by
  have heff : effective (none : Option (Fin N → Bool)) method = .complete := by simp [effective, hmeth]
  by_cases hn : Reach g.nbr (Edge.OnEdge g.iverts) n
  · have h1 := C06_spill hmeth h n hn
    have h2 := C06_spill hmeth h' n hn
    obtain ⟨v', hle', hv'⟩ := top_shift hle h2.1
    exact (h1.2 hv').trans hle'
  · rw [C17_complete_ignores_eps fuel (· + eps) id flood g dem none method hmeth] at h
    rw [C17_complete_ignores_eps fuel' (· + eps) id flood g dem' none method hmeth] at h'
    rw [C04_disconnected (fun x => le_refl (id x)) (by rw [heff]; decide) h n hn,
      C04_disconnected (fun x => le_refl (id x)) (by rw [heff]; decide) h' n hn]
    exact hle n

/-- **C174** ('complete'). -/
theorem C174_complete {fuel fuel' : ℕ} {eps flood δ : K} {g : Grid N} {dem dem' out out' : Fin N → K}
    {method : String} (hmeth : method.toLower = "complete") (hδ : ∀ n, |dem n - dem' n| ≤ δ)
    (h : fillSinks fuel (· + eps) flood g dem none method = .ok out)
    (h' : fillSinks fuel' (· + eps) flood g dem' none method = .ok out') (n : Fin N) :
    |out n - out' n| ≤ δ := by
  rw [abs_sub_le_iff]
  constructor
  · have := complete_le hmeth (fun n => by have := (abs_sub_le_iff.1 (hδ n)).1; linarith) h h' n
    linarith
  · have := complete_le (δ := δ) hmeth (fun n => by have := (abs_sub_le_iff.1 (hδ n)).2; linarith) h' h n
    linarith

private theorem drain_le {fuel fuel' : ℕ} {eps flood δ : K} (heps : 0 ≤ eps) (hδ0 : 0 ≤ δ) {g : Grid N}
    {dem dem' out out' : Fin N → K} {method : String}
    (heff : effective (none : Option (Fin N → Bool)) method = .drain) (hle : ∀ n, dem n ≤ dem' n + δ)
    (hfl : ∀ n, dem n ≤ flood) (hfl' : ∀ n, dem' n ≤ flood)
    (h : fillSinks fuel (· + eps) flood g dem none method = .ok out)
    (h' : fillSinks fuel' (· + eps) flood g dem' none method = .ok out') (n : Fin N) :
    out n ≤ out' n + δ := by
  have l1 := C10_drain_least (raise := (· + eps)) (fun x => by linarith) (fun x y h => by linarith) hfl heff h n
  have l2 := C10_drain_least (raise := (· + eps)) (fun x => by linarith) (fun x y h => by linarith) hfl' heff h' n
  rcases l2.1 with e | hp
  · have := l1.2 (.inl rfl)
    rw [e]; linarith
  · obtain ⟨v', hle', hv'⟩ := rise_shift hle hp
    exact (l1.2 (.inr hv')).trans hle'

/-- **C174** ('drain'). -/
theorem C174_drain {fuel fuel' : ℕ} {eps flood δ : K} (heps : 0 ≤ eps) {g : Grid N}
    {dem dem' out out' : Fin N → K} {method : String}
    (heff : effective (none : Option (Fin N → Bool)) method = .drain) (hδ : ∀ n, |dem n - dem' n| ≤ δ)
    (hfl : ∀ n, dem n ≤ flood) (hfl' : ∀ n, dem' n ≤ flood)
    (h : fillSinks fuel (· + eps) flood g dem none method = .ok out)
    (h' : fillSinks fuel' (· + eps) flood g dem' none method = .ok out') (n : Fin N) :
    |out n - out' n| ≤ δ := by
  have h0 : 0 ≤ δ := (abs_nonneg _).trans (hδ n)
  rw [abs_sub_le_iff]
  constructor
  · have := drain_le heps h0 heff (fun n => by have := (abs_sub_le_iff.1 (hδ n)).1; linarith) hfl hfl' h h' n
    linarith
  · have := drain_le (δ := δ) heps h0 heff (fun n => by have := (abs_sub_le_iff.1 (hδ n)).2; linarith) hfl' hfl h' h n
    linarith

private theorem priority_le {fuel fuel' : ℕ} {eps flood δ : K} (heps : 0 ≤ eps) {g : Grid N}
    {dem dem' out out' : Fin N → K} {method : String} (hmeth : method.toLower = "priority")
    (hle : ∀ n, dem n ≤ dem' n + δ)
    (h : fillSinks fuel (· + eps) flood g dem none method = .ok out)
    (h' : fillSinks fuel' (· + eps) flood g dem' none method = .ok out') (n : Fin N) :
    out n ≤ out' n + (δ + N * eps) := by
  have heff : effective (none : Option (Fin N → Bool)) method ≠ .drain := by simp [effective, hmeth]
  have hinf : ∀ x : K, x ≤ x + eps := fun x => by linarith
  have hm : Monotone (fun x : K => x + eps) := fun x y h => by dsimp only; linarith
  have hN : (0 : K) ≤ N * eps := mul_nonneg (Nat.cast_nonneg N) heps
  by_cases hn : Reach g.nbr (Edge.OnEdge g.iverts) n
  · obtain ⟨w, hw, hl, hu⟩ := C09_overfill hinf hm hmeth h n hn
    obtain ⟨w', hw', hl', hu'⟩ := C09_overfill hinf hm hmeth h' n hn
    obtain ⟨v', hle', hv'⟩ := top_shift hle hw'.1
    have := hw.2 hv'
    rw [iter_add] at hu
    linarith
  · rw [C04_disconnected hinf heff h n hn, C04_disconnected hinf heff h' n hn]
    have := hle n
    linarith

/-- **C174** ('priority'). -/
theorem C174_priority {fuel fuel' : ℕ} {eps flood δ : K} (heps : 0 ≤ eps) {g : Grid N}
    {dem dem' out out' : Fin N → K} {method : String} (hmeth : method.toLower = "priority")
    (hδ : ∀ n, |dem n - dem' n| ≤ δ)
    (h : fillSinks fuel (· + eps) flood g dem none method = .ok out)
    (h' : fillSinks fuel' (· + eps) flood g dem' none method = .ok out') (n : Fin N) :
    |out n - out' n| ≤ δ + N * eps := by
  rw [abs_sub_le_iff]
  constructor
  · have := priority_le heps hmeth (fun n => by have := (abs_sub_le_iff.1 (hδ n)).1; linarith) h h' n
    linarith
  · have := priority_le (δ := δ) heps hmeth (fun n => by have := (abs_sub_le_iff.1 (hδ n)).2; linarith) h' h n
    linarith

end Dany.Flood
