import Verif.Flood.MaskWitness
import Verif.Flood.Error

/-!
# C194: fills with a stream mask are monotone, stable and local

'complete', as long as neither of the two fills lifts a stream cell (C192 says when).
-/

namespace Dany.Flood

variable {N : ℕ} {V : Type*} [LinearOrder V]

private theorem disc {fuel : ℕ} {raise : V → V} {flood : V} {g : Grid N} {dem out : Fin N → V} {m : Fin N → Bool}
    {method : String} (hinf : ∀ x, x ≤ raise x) (hmeth : method.toLower = "complete")
    (h : fillSinks fuel raise flood g dem (some m) method = .ok out) {n : Fin N}
    (hn : ¬ Reach g.nbr (fun k => m k = true) n) : out n = dem n :=
  C04_disconnected hinf (by simp [effective, hmeth]) h n hn

private theorem top_le {nbr : Fin N → List ℕ} {S : Fin N → Prop} {dem dem' : Fin N → V} (hle : ∀ n, dem n ≤ dem' n)
    {k : Fin N} {v : V} (hv : PathTop nbr dem' S k v) : ∃ v' ≤ v, PathTop nbr dem S k v' := by
  induction hv with
  | @seed s hs => exact ⟨dem s, hle s, .seed hs⟩
  | @step c k v hv ha ih =>
    obtain ⟨v', hle', hv'⟩ := ih
    exact ⟨_, max_le_max hle' (hle k), .step hv' ha⟩

/-- **C194**, monotone: higher ground, a higher fill. -/
theorem C194_monotone {fuel fuel' : ℕ} {raise : V → V} {flood : V} {g : Grid N} {dem dem' out out' : Fin N → V}
    {m : Fin N → Bool} {method : String} (hinf : ∀ x, x ≤ raise x) (hmeth : method.toLower = "complete")
    (hle : ∀ n, dem n ≤ dem' n)
    (h : fillSinks fuel raise flood g dem (some m) method = .ok out)
    (h' : fillSinks fuel' raise flood g dem' (some m) method = .ok out')
    (hkeep : ∀ n, m n = true → out n = dem n) (hkeep' : ∀ n, m n = true → out' n = dem' n) (n : Fin N) :
    out n ≤ out' n := by
  by_cases hn : Reach g.nbr (fun k => m k = true) n
  · have s := C192_spill hinf hmeth h hkeep n hn
    have s' := C192_spill hinf hmeth h' hkeep' n hn
    obtain ⟨v, hv, hp⟩ := top_le hle s'.1
    exact (s.2 hp).trans hv
  · rw [disc hinf hmeth h hn, disc hinf hmeth h' hn]
    exact hle n

/-- **C194**, local: editing ground above the elevation to which a cell was filled does not change its fill. -/
theorem C194_local {fuel fuel' : ℕ} {raise : V → V} {flood : V} {g : Grid N} {dem dem' out out' : Fin N → V}
    {m : Fin N → Bool} {method : String} (hinf : ∀ x, x ≤ raise x) (hmeth : method.toLower = "complete")
    (h : fillSinks fuel raise flood g dem (some m) method = .ok out)
    (h' : fillSinks fuel' raise flood g dem' (some m) method = .ok out')
    (hkeep : ∀ n, m n = true → out n = dem n) (hkeep' : ∀ n, m n = true → out' n = dem' n) (n : Fin N)
    (hd : ∀ a, dem' a ≠ dem a → out n < dem a ∧ out n < dem' a) : out' n = out n := by
  by_cases hn : Reach g.nbr (fun k => m k = true) n
  · exact spill_edit hd (C192_spill hinf hmeth h hkeep n hn) le_rfl (C192_spill hinf hmeth h' hkeep' n hn)
  · have e := disc hinf hmeth h hn
    rw [disc hinf hmeth h' hn, e]
    exact (same_low hd).1 n e.ge

private theorem shift_top {K : Type*} [Field K] [LinearOrder K] [IsStrictOrderedRing K] {nbr : Fin N → List ℕ}
    {S : Fin N → Prop} {dem dem' : Fin N → K} {δ : K} (hle : ∀ n, dem n ≤ dem' n + δ) {k : Fin N} {v : K}
    (hv : PathTop nbr dem' S k v) : ∃ v' ≤ v + δ, PathTop nbr dem S k v' := by
  induction hv with
  | @seed s hs => exact ⟨dem s, hle s, .seed hs⟩
  | @step c k v hv ha ih =>
    obtain ⟨v', hle', hv'⟩ := ih
    refine ⟨_, ?_, .step hv' ha⟩
    rw [← max_add_add_right]
    exact max_le_max hle' (hle k)

/-- **C194**, stable: errors of the elevations are not magnified. -/
theorem C194_stable {K : Type*} [Field K] [LinearOrder K] [IsStrictOrderedRing K] {fuel fuel' : ℕ} {eps flood δ : K}
    (heps : 0 ≤ eps) {g : Grid N} {dem dem' out out' : Fin N → K} {m : Fin N → Bool} {method : String}
    (hmeth : method.toLower = "complete") (hδ : ∀ n, |dem n - dem' n| ≤ δ)
    (h : fillSinks fuel (· + eps) flood g dem (some m) method = .ok out)
    (h' : fillSinks fuel' (· + eps) flood g dem' (some m) method = .ok out')
    (hkeep : ∀ n, m n = true → out n = dem n) (hkeep' : ∀ n, m n = true → out' n = dem' n) (n : Fin N) :
    |out n - out' n| ≤ δ := by
  have hinf : ∀ x : K, x ≤ x + eps := fun x => by linarith
  by_cases hn : Reach g.nbr (fun k => m k = true) n
  · have s := C192_spill hinf hmeth h hkeep n hn
    have s' := C192_spill hinf hmeth h' hkeep' n hn
    obtain ⟨v, hv, hp⟩ := shift_top (δ := δ) (dem := dem) (fun k => by have := (abs_sub_le_iff.1 (hδ k)).1; linarith) s'.1
    obtain ⟨v', hv', hp'⟩ := shift_top (δ := δ) (dem := dem') (fun k => by have := (abs_sub_le_iff.1 (hδ k)).2; linarith) s.1
    have h1 := s.2 hp
    have h2 := s'.2 hp'
    rw [abs_sub_le_iff]
    constructor <;> linarith
  · rw [disc (raise := (· + eps)) hinf hmeth h hn, disc (raise := (· + eps)) hinf hmeth h' hn]
    exact hδ n

/-! ## Concrete runs -/

/-- `d35` with a higher ridge (9), hollow (2) and corner (3) -/
def e35 : Fin 15 → ℚ := ![3, 9, 9, 4, 3, 9, 2, 9, 4, 9, 9, 9, 9, 9, 9]
theorem run35e : fillSinks 16 (· + 1) 100 g35 e35 (some m35) "complete" =
    .ok ![9, 9, 9, 4, 3, 9, 9, 9, 4, 9, 9, 9, 9, 9, 9] := by decide +kernel
theorem pit35e : ∀ c, m35 c = true → 2 ≤ ((inRange 15 (g35.nbr c)).filter (fun k => m35 k)).length →
    ∃ k, Adj g35.nbr c k ∧ m35 k = true ∧ e35 k ≤ e35 c := by unfold Adj; decide +kernel

example : o35 6 ≤ 9 :=
  C194_monotone (raise := (· + 1)) (fun x => by linarith) (by decide +kernel) (by decide +kernel) run35m run35e
    (C192_kept pit35 run35m) (C192_kept pit35e run35e) 6
example : |o35 6 - 9| ≤ 1 :=
  C194_stable (by norm_num) (by decide +kernel) (by decide +kernel) run35m run35e
    (C192_kept pit35 run35m) (C192_kept pit35e run35e) 6
-- the flat at cell 8 keeps 4 when the ridge, the hollow's rim, is raised from 8 to 9
example : (4 : ℚ) = o35 8 :=
  C194_local (raise := (· + 1)) (dem' := ![2, 9, 9, 4, 3, 9, 1, 9, 4, 9, 9, 9, 9, 9, 9])
    (out' := ![9, 9, 9, 4, 3, 9, 9, 9, 4, 9, 9, 9, 9, 9, 9]) (fuel' := 16) (fun x => by linarith)
    (by decide +kernel) run35m (by decide +kernel) (C192_kept pit35 run35m) (by decide +kernel) 8 (by decide +kernel)

/-- **C194**: the condition is needed.  The stream cell 6 lies below the stream cells 0 and 10 beside it and is lifted
to 5, and with it the land cell 7; with cell 6 at 4 instead of 1 the water of cell 7 leaves at 3 by the other stream. -/
theorem C194_lowers : ∃ (g : Grid 15) (m : Fin 15 → Bool) (dem dem' out out' : Fin 15 → ℚ), (∀ n, dem n ≤ dem' n) ∧
    fillSinks 16 (· + 1) 100 g dem (some m) "complete" = .ok out ∧
    fillSinks 16 (· + 1) 100 g dem' (some m) "complete" = .ok out' ∧ out 7 = 5 ∧ out' 7 = 3 :=
  ⟨g35, fun n => n = 0 ∨ n = 6 ∨ n = 10 ∨ n = 8, ![5, 9, 9, 9, 9, 9, 1, 0, 3, 9, 5, 9, 9, 9, 9],
    ![5, 9, 9, 9, 9, 9, 4, 0, 3, 9, 5, 9, 9, 9, 9], ![5, 9, 9, 9, 9, 9, 5, 5, 3, 9, 5, 9, 9, 9, 9],
    ![5, 9, 9, 9, 9, 9, 5, 3, 3, 9, 5, 9, 9, 9, 9], by decide +kernel, by decide +kernel, by decide +kernel,
    by decide +kernel, by decide +kernel⟩

end Dany.Flood
