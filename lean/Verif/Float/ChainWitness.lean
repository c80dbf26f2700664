import Verif.Float.Chain
import Verif.Pipe.Witness
import Mathlib.Data.Fin.VecNotation
import Mathlib.Data.Fintype.Basic

/-!
# Concrete runs for C113–C116
-/

namespace Dany.Float

open Flow Pipe

/-! ### a grid of 16 cells of 0.1 by 0.1, as `float64` -/

/-- cell centres -/
def geoF : Dirs.Geo 16 ℚ :=
  ⟨fun n => rnd64 ((n.val % 4 : ℕ) / 10 + 1 / 20), fun n => rnd64 ((n.val / 4 : ℕ) / 10 + 1 / 20), sqrt64, rnd64⟩

instance (x : ℚ) : Decidable (Sized x) := by unfold Sized; infer_instance

theorem machineF : Machine geoF (nbrs Flood.g44) :=
  ⟨rfl, sqrt64_ok, fun _ => rnd64_nearest.mem _, fun _ => rnd64_nearest.mem _, by decide +kernel,
    by decide +kernel⟩

def demF : Fin 16 → double.Num := fun n => double.store (demC n / 10)
def fillF : Fin 16 → ℚ := fun n =>
  if n = 10 then (double.store ((double.store (2 / 10)).val + eps6.val)).val else (demF n).val

theorem fillRunF : fillSinksF 17 double .weak eps6 Flood.g44 demF none "priority" = .ok fillF := by
  decide +kernel

theorem grainF (n : Fin 16) : Grain (demF n).val :=
  Grain.of_double (by revert n; decide +kernel)

theorem runF : Dirs.flowDirections 50 geoF (Dirs.filled fillF) Dirs.big (Dirs.table (nbrs Flood.g44))
    Dirs.thr [15] = .ok fdE := by decide +kernel

theorem belowF : Dirs.Below geoF (Dirs.filled fillF) Dirs.thr Dirs.big (nbrs Flood.g44) :=
  Dirs.below_of (by decide +kernel)
theorem noTiesF : Dirs.NoTies geoF (Dirs.filled fillF) Dirs.thr (nbrs Flood.g44) :=
  Dirs.noTies_of belowF (by decide +kernel)

theorem endsF : GoodEnds Flood.g44 none fillF [15] := by
  refine ⟨by intro t h; simp at h; omega, fun n hn => ?_, fun n _ hn => ?_⟩
  · have : n = 15 := Fin.ext (by simp at hn; omega)
    rw [this]
    exact edges44.2 (by decide)
  · have : ∀ n : Fin 16, (∀ m ∈ nbrs Flood.g44 n, fillF n ≤ fillF m) →
        ((n : ℕ) : ℤ) ∈ ([15] : List ℤ) ∨ ∀ m, fillF n ≤ fillF m := by decide +kernel
    exact this n hn

theorem networkF : Network Flood.g44 none fdE nxE ∧ ∀ n, nxE n ≠ n → fillF (nxE n) < fillF n := by
  obtain ⟨d, h2, h3⟩ := C113_network machineF (by norm_num) (by decide +kernel) grainF (by decide +kernel)
    fillRunF good44 endsF belowF (fun n t _ _ h1 => Dirs.easyTie_of_unique fun m h2 => noTiesF n m t h2 h1) runF
  have hl : Legal fdE nxE := by unfold Legal; decide +kernel
  have : d = nxE := funext fun n => Fin.ext (by have := h2.legal n; have := hl n; omega)
  rw [← this]; exact ⟨h2, fun n hn => (h3 n hn).2⟩

example : fdE 9 = -2 ∨ ∃ m ∈ nbrs Flood.g44 9, fdE 9 = ((m : ℕ) : ℤ) ∧
    ∃ a b, Dirs.filled fillF 9 = some a ∧ Dirs.filled fillF m = some b ∧ b < a := by
  refine C113_downhill machineF (fun n a ha => ?_) endsF.range (by norm_num) (by decide +kernel) runF ?_ ?_
  · simp only [Dirs.filled, Option.some.injEq] at ha
    rw [← ha]
    exact grain_filled (by decide +kernel) fillRunF grainF n
  · rintro (⟨v, h1, h2⟩ | h)
    · have := h2 0 _ rfl
      cases h1
      exact absurd this (by decide +kernel)
    · exact absurd h (by decide)
  · exact ⟨10, by decide +kernel, _, _, rfl, rfl, by decide +kernel⟩

/-! ### accumulation and streams -/

/-- cell areas: 0.01, as the machine has it -/
def areaF : Fin 16 → double.Num := fun _ => double.store (1 / 100)

theorem areaF_pos (u : Fin 16) : 0 ≤ (areaF u).val := by revert u; decide +kernel

def faccF : Fin 16 → double.Num := fun n =>
  let s := fun x y : double.Num => x + y
  let a : double.Num := double.store (1 / 100)
  let a2 := s a a
  let a3 := s a2 a
  let a5 := s (s (s (s a a) a) a) a
  match n.val with
  | 0 => s (s (s a a3) a3) a
  | 1 => a3 | 2 => a2 | 4 => a3 | 8 => a2 | 10 => a5
  | 15 => s (s (s a a5) a) a
  | _ => a

theorem accRunF : Acc.flowAccumulation 17 fdE areaF false = .ok faccF := by decide +kernel

theorem resE : Resolves fdE nxE := networkF.1.legal.resolves

example : ∃ out, ∀ fuel, 16 < fuel → Acc.flowAccumulation fuel fdE areaF false = .ok out :=
  C114_terminates (fun u => by have := networkF.1.legal u; have := (nxE u).isLt; omega) areaF false
example : |(faccF 0).val - ∑ u ∈ upstream nxE 0, (areaF u).val| ≤
    ((1 + 1 / 2 ^ 53) ^ ((upstream nxE 0).card - 1) - 1) * ∑ u ∈ upstream nxE 0, (areaF u).val :=
  C114_error resE areaF_pos accRunF 0 (networkF.1.acyclic 0)
-- the sum is not exact: five times 0.01
example : (faccF 10).val ≠ ∑ _u : Fin 5, (areaF 0).val := by decide +kernel
example : |(faccF 10).val - ∑ u ∈ upstream nxE 10, (areaF u).val| ≤
    3 / 10 ^ 7 * ∑ u ∈ upstream nxE 10, (areaF u).val :=
  C114_small (by norm_num) resE areaF_pos accRunF 10 (networkF.1.acyclic 10)
example : (faccF 4).val ≤ (faccF 0).val ∧ (false = false → (areaF 4).val ≤ (faccF 4).val) :=
  C114_grows_downstream resE areaF_pos accRunF 4 (networkF.1.acyclic 4)

/-- areas of 0.75: exact -/
def areaQ : Fin 16 → double.Num := fun _ => double.store (3 / 4)
example : ∃ out, Acc.flowAccumulation 17 fdE areaQ false = .ok out ∧
    (out 0).val = ∑ u ∈ upstream nxE 0, (areaQ u).val := by
  obtain ⟨out, h⟩ := C114_terminates
    (fun u => by have := networkF.1.legal u; have := (nxE u).isLt; omega : ∀ u, -((16 : ℕ) : ℤ) ≤ fdE u ∧ fdE u < ((16 : ℕ) : ℤ))
    areaQ false
  refine ⟨out, h 17 (by norm_num), C114_exact (k := fun _ => 3) (j := -2) resE (by norm_num)
    (by decide +kernel) (h 17 (by norm_num)) 0 (networkF.1.acyclic 0) ?_⟩
  refine (Finset.sum_le_card_nsmul _ _ 3 (fun _ _ => le_rfl)).trans ?_
  have : (upstream nxE 0).card ≤ 16 := by simpa using Finset.card_le_univ (upstream nxE 0)
  rw [smul_eq_mul]
  omega
def cntF : Fin 16 → double.Num := fun n => double.store (faccE n)
theorem cntRunF : Acc.flowAccumulation 17 fdE areaF true = .ok cntF := by decide +kernel
example : (cntF 0).val = (upstream nxE 0).card :=
  C114_counts (by norm_num) resE cntRunF 0 (networkF.1.acyclic 0)
example : (cntF 0).val = 8 := by decide +kernel

-- streams from 0.045
def crit : double.Num := double.store (45 / 1000)
def saF : Fin 16 → ℤ := ![1, 0, 0, 0, 0, 0, 0, 0, 0, 0, 1, 0, 0, 0, 0, 1]
theorem delinF : ∃ o', Delin.delineate (fun n => some (faccF n)) ⟨fdE, none, none⟩ (.number crit) none =
    .ok (o', saF) := by
  have h : (Delin.delineate (fun n => some (faccF n)) ⟨fdE, none, none⟩ (.number crit) none).map
      (fun r => List.ofFn r.2) = .ok (List.ofFn saF) := by decide +kernel
  obtain ⟨r, h1, h2⟩ := Res.map_eq_ok.1 h
  exact ⟨r.1, by rw [h1, ← List.ofFn_injective h2]⟩
example (m : Fin 16) (hr : Reaches nxE 10 m) : saF m = 1 := by
  obtain ⟨o', h⟩ := delinF
  exact C115_to_outlet (o := ⟨fdE, none, none⟩) resE areaF_pos accRunF h networkF.1.acyclic (n := 10) rfl hr
example (n : Fin 16) : (crit.val ≤ (1 - 3 / 10 ^ 7) * ∑ u ∈ upstream nxE n, (areaF u).val → saF n = 1) ∧
    ((1 + 3 / 10 ^ 7) * ∑ u ∈ upstream nxE n, (areaF u).val < crit.val → saF n = 0) := by
  obtain ⟨o', h⟩ := delinF
  exact C115_streams (o := ⟨fdE, none, none⟩) (by norm_num) resE areaF_pos accRunF h n (networkF.1.acyclic n)
example : ∃ facc, (∀ fuel, 16 < fuel → Acc.flowAccumulation fuel fdE areaF false = .ok facc) ∧
    ∃ o' sa, Delin.delineate (fun n => some (facc n)) ⟨fdE, none, none⟩ (.number crit) none = .ok (o', sa) ∧
      (∀ n, (sa n = 1 ∧ crit.val ≤ (facc n).val) ∨ (sa n = 0 ∧ (facc n).val < crit.val)) ∧
      ∀ n, sa n = 1 → ∃ e, Reaches nxE n e ∧ nxE e = e ∧ Flood.Outlet Flood.g44 none e ∧
        ∀ m, Reaches nxE n m → sa m = 1 := C113_streams networkF.1 areaF_pos false crit

/-! ### C116 -/

-- cell 6 has the lower neighbours 2 (0.1 away, lower by 1.5) and 10 (0.1 away, lower by 3.4), among others
example : ∃ b, Dirs.filled fillF 10 = some b ∧ b < fillF 6 ∧
    (1 - 1 / 2 ^ 49) * ((fillF 6 - fillF 2 : ℚ) / way geoF 6 2) ≤ (fillF 6 - b : ℚ) / way geoF 6 10 := by
  refine C116_steepest machineF (fun n a ha => ?_) endsF.range runF (n := 6) (m := 10) rfl (by decide)
    (l := 2) (by decide +kernel) rfl rfl (by decide +kernel)
  simp only [Dirs.filled, Option.some.injEq] at ha
  rw [← ha]
  exact ⟨by
    have : ∀ n : Fin 16, rnd64 (fillF n) = fillF n := by decide +kernel
    rw [← this n]; exact rnd64_nearest.mem _, grain_filled (by decide +kernel) fillRunF grainF n⟩

/-! ### the least numbers -/

/-- four cells in a row, four apart, and elevations of one and two times the least positive double -/
def geoT : Dirs.Geo 4 ℚ := ⟨![2, 6, 10, 14], fun _ => 0, sqrt64, rnd64⟩
def demT : Fin 4 → Option ℚ := ![some (2 ^ (-1074 : ℤ)), some (2 * 2 ^ (-1074 : ℤ)), some (2 * 2 ^ (-1074 : ℤ)), some 0]
def outT : Fin 4 → ℤ := ![1, 2, 3, 3]

theorem runT : Dirs.flowDirections 50 geoT demT Dirs.big (Dirs.table Dirs.line4) Dirs.thr [] = .ok outT := by
  decide +kernel

/-- Without the hypothesis on the elevations C113 fails: cell 1 has a lower neighbour, cell 0, but flows to
cell 2, which is as high as itself: the slope is rounded to zero. -/
theorem C113_tiny_refuted : Machine geoT Dirs.line4 ∧
    Dirs.flowDirections 50 geoT demT Dirs.big (Dirs.table Dirs.line4) Dirs.thr [] = .ok outT ∧
    Dirs.HasLower demT Dirs.line4 1 ∧ ¬ Dirs.Terminal demT [] 1 ∧ outT 1 = 2 ∧ demT 2 = demT 1 := by
  refine ⟨⟨rfl, sqrt64_ok, fun n => ?_, fun n => zero_mem _ _, by decide +kernel, by decide +kernel⟩, runT,
    ⟨0, by decide, _, _, rfl, rfl, by decide +kernel⟩, ?_, rfl, rfl⟩
  · have : ∀ n, rnd64 (geoT.xc n) = geoT.xc n := by decide +kernel
    rw [← this]; exact rnd64_nearest.mem _
  · rintro (⟨v, h1, h2⟩ | h)
    · have := h2 3 _ rfl
      cases h1
      exact absurd this (by decide +kernel)
    · exact absurd h (by decide)

end Dany.Float
