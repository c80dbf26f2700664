import Verif.Float.Getters
import Verif.Float.ChainWitness

/-!
# Concrete cases for C146 and C147
-/

namespace Dany.Float

open Flow Pipe

/-- 1e-06 -/
def micro : ℚ := rnd64 (1 / 1000000)

theorem soundF : Dirs.Sound geoF (Dirs.filled fillF) (nbrs Flood.g44) :=
  machineF.sound fun n a ha => by
    simp only [Dirs.filled, Option.some.injEq] at ha
    rw [← ha]
    exact grain_filled (by decide +kernel) fillRunF grainF n

-- C146 in double precision
example (s : Fin 16 → Option ℚ) (hs : slopeG geoF (Dirs.filled fillF) micro fdE = .ok s) :
    ∃ a b v, Dirs.filled fillF 9 = some a ∧ Dirs.filled fillF 10 = some b ∧ s 9 = some v ∧
      (micro ≤ rnd64 (a - b) → 0 ≤ v ∧ v = rnd64 (rnd64 (a - b) / geoF.dist 9 10) ∧
        ∀ k ∈ nbrs Flood.g44 9, ∀ b', Dirs.filled fillF k = some b' → rnd64 (rnd64 (a - b') / geoF.dist 9 k) ≤ v) ∧
      (b < a → rnd64 (a - b) < micro → v = 0) ∧
      (a ≤ b → v ≤ 0 ∧ ∀ k ∈ nbrs Flood.g44 9, ∀ b', Dirs.filled fillF k = some b' → a ≤ b') :=
  C146_slope rnd64_neg (by decide +kernel) soundF endsF.range runF hs (by decide +kernel) (by decide)

-- the run exists, and cell 9 does lie higher than cell 10 by more than 1e-06
example : ∃ s, slopeG geoF (Dirs.filled fillF) micro fdE = .ok s := by
  unfold slopeG
  rw [Geom.targets_ok resE]
  exact ⟨_, rfl⟩
example : micro ≤ rnd64 (fillF 9 - fillF 10) := by decide +kernel

/-- two cells, 100 apart, the centre of the second at 0.3, of the first at 0.1 + 0.2 -/
def xcE : Fin 2 → ℚ := ![0, 100]
def ycE : Fin 2 → ℚ := ![rnd64 (rnd64 (1 / 10) + rnd64 (2 / 10)), rnd64 (3 / 10)]
def fdTwo : Fin 2 → ℤ := ![1, 1]

theorem resTwo : Resolves fdTwo ![1, 1] := Flow.Legal.resolves (by intro n; fin_cases n <;> rfl)

/-- With any arctan2 that stays within [-π, π] and is between twice the quotient and 0 for these two cells (the exact value is
the quotient up to a relative error of 1e-37), the aspect of the first cell is 360.0, although it flows east. -/
theorem C147_360 {at2 : ℚ → ℚ → ℚ} (hat : ∀ y x, |at2 y x| ≤ pi64)
    (hsm : 2 * (rnd64 (ycE 1 - ycE 0) / 100) ≤ at2 (rnd64 (ycE 1 - ycE 0)) 100)
    (hle : at2 (rnd64 (ycE 1 - ycE 0)) 100 ≤ rnd64 (ycE 1 - ycE 0) / 200) :
    ∃ a, aspectF at2 xcE ycE fdTwo = .ok a ∧ a 0 = 360 := by
  obtain ⟨a, h1, h2⟩ := C147_aspect (xc := xcE) (yc := ycE) hat resTwo
  refine ⟨a, h1, (h2 0).2.2.2 ?_⟩
  have hp := perRad_pos
  show -(1 / 2 ^ 45) ≤ rnd64 (at2 (rnd64 (ycE 1 - ycE 0)) (rnd64 (xcE 1 - xcE 0)) * perRad) ∧
    rnd64 (at2 (rnd64 (ycE 1 - ycE 0)) (rnd64 (xcE 1 - xcE 0)) * perRad) < 0
  have e : rnd64 (xcE 1 - xcE 0) = 100 := by decide +kernel
  rw [e]
  constructor
  · refine le_trans ?_ (rnd64_nearest.mono (mul_le_mul_of_nonneg_right hsm hp.le))
    decide +kernel
  · refine lt_of_le_of_lt (rnd64_nearest.mono (mul_le_mul_of_nonneg_right hle hp.le)) ?_
    decide +kernel

-- an arctan2 of this kind
example : ∃ at2 : ℚ → ℚ → ℚ, (∀ y x, |at2 y x| ≤ pi64) ∧ 2 * (rnd64 (ycE 1 - ycE 0) / 100) ≤ at2 (rnd64 (ycE 1 - ycE 0)) 100 ∧
    at2 (rnd64 (ycE 1 - ycE 0)) 100 ≤ rnd64 (ycE 1 - ycE 0) / 200 :=
  ⟨fun _ _ => rnd64 (ycE 1 - ycE 0) / 100, 
    fun _ _ => show |rnd64 (ycE 1 - ycE 0) / 100| ≤ pi64 by decide +kernel, by decide +kernel, by decide +kernel⟩

end Dany.Float
