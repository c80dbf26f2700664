import Verif.Pipe.Window
import Verif.Dirs.Local

/-!
# C209: concrete windows

The row of C135: cell 0 flows to 1, 1 to 2, cell 3 is named terminal.
-/

namespace Dany.Pipe

open Dany.Flow Dany.Dirs

/-- the first three cells of a row of four -/
def firstThree : Fin 3 → Fin 4 := Fin.castSucc
/-- the last three -/
def lastThree : Fin 3 → Fin 4 := Fin.succ
def winG : Geo 3 ℚ := ⟨![0, 1, 2], ![0, 0, 0], fun x => if x = 1 then 1 else 2, id⟩
def winNbr : Fin 3 → List (Fin 3) := ![[1], [0, 2], [1]]

theorem first_window : Window firstThree rowG winG ![some 4, some 3, some 2, some 5] ![some 4, some 3, some 2]
    rowNbr winNbr [3] [2] where
  inj := Fin.castSucc_injective 3
  rnd := rfl
  dist := by decide +kernel
  elev := by decide +kernel
  adj := by decide +kernel
  border := by decide +kernel
  named := by decide +kernel

theorem last_window : Window lastThree rowG winG ![some 4, some 3, some 2, some 5] ![some 3, some 2, some 5]
    rowNbr winNbr [3] [0, 2] where
  inj := Fin.succ_injective 3
  rnd := rfl
  dist := by decide +kernel
  elev := by decide +kernel
  adj := by decide +kernel
  border := by decide +kernel
  named := by decide +kernel

private theorem wR (l : List ℤ) (h : ∀ t ∈ l, 0 ≤ t ∧ t < 3) : InRange 3 l := fun t ht => by simpa using h t ht
private theorem wR4 : InRange 4 [3] := by intro t ht; simp only [List.mem_singleton] at ht; subst ht; decide
private theorem wN : HasNbr (![some 4, some 3, some 2, some 5] : Fin 4 → Option ℚ) rowNbr := by
  unfold HasNbr; decide +kernel
private theorem wN1 : HasNbr (![some 4, some 3, some 2] : Fin 3 → Option ℚ) winNbr := by unfold HasNbr; decide +kernel
private theorem wN2 : HasNbr (![some 3, some 2, some 5] : Fin 3 → Option ℚ) winNbr := by unfold HasNbr; decide +kernel
private theorem wB1 : Below winG ![some 4, some 3, some 2] (1/10) 100 winNbr := below_of (by decide +kernel)
private theorem wB2 : Below winG ![some 3, some 2, some 5] (1/10) 100 winNbr := below_of (by decide +kernel)
theorem runWhole : flowDirections 9 rowG ![some 4, some 3, some 2, some 5] 100 (table rowNbr) (1/10) [3] =
    .ok ![1, 2, 2, 3] := by decide +kernel
theorem runFirst : flowDirections 9 winG ![some 4, some 3, some 2] 100 (table winNbr) (1/10) [2] =
    .ok ![1, 2, 2] := by decide +kernel
theorem runLast : flowDirections 9 winG ![some 3, some 2, some 5] 100 (table winNbr) (1/10) [0, 2] =
    .ok ![0, 1, 2] := by decide +kernel
private theorem lW : Legal ![1, 2, 2, 3] (![1, 2, 2, 3] : Fin 4 → Fin 4) := by unfold Legal; decide
private theorem lF : Legal ![1, 2, 2] (![1, 2, 2] : Fin 3 → Fin 3) := by unfold Legal; decide
private theorem lL : Legal ![0, 1, 2] (![0, 1, 2] : Fin 3 → Fin 3) := by unfold Legal; decide

theorem first_directions (a : Fin 3) : let dem' : Fin 3 → Option ℚ := ![some 4, some 3, some 2]
    (Terminal dem' [2] a → (![1, 2, 2] : Fin 3 → Fin 3) a = a) ∧ (¬ Terminal dem' [2] a →
      firstThree ((![1, 2, 2] : Fin 3 → Fin 3) a) = (![1, 2, 2, 3] : Fin 4 → Fin 4) (firstThree a)) :=
  C209_directions first_window wR4 (wR [2] (by decide)) row_below wN wN1 (by decide)
  (by decide) (noTies_of row_below (by decide +kernel)) (noTies_of wB1 (by decide +kernel)) runWhole runFirst lW lF a
theorem last_directions (a : Fin 3) : let dem' : Fin 3 → Option ℚ := ![some 3, some 2, some 5]
    (Terminal dem' [0, 2] a → (![0, 1, 2] : Fin 3 → Fin 3) a = a) ∧ (¬ Terminal dem' [0, 2] a →
      lastThree ((![0, 1, 2] : Fin 3 → Fin 3) a) = (![1, 2, 2, 3] : Fin 4 → Fin 4) (lastThree a)) :=
  C209_directions last_window wR4 (wR [0, 2] (by decide)) row_below wN wN2 (by decide)
  (by decide) (noTies_of row_below (by decide +kernel)) (noTies_of wB2 (by decide +kernel)) runWhole runLast lW lL a

/-- the first window contains the watershed of its last cell: cells 0, 1 and 2 -/
theorem first_contains : Contains firstThree ![1, 2, 2, 3] (![some 4, some 3, some 2] : Fin 3 → Option ℚ) [2] 2 := by
  rintro x ⟨k, hk⟩
  have hx : x ≠ 3 := by
    rintro rfl
    have : ∀ j, (![1, 2, 2, 3] : Fin 4 → Fin 4)^[j] 3 = 3 := fun j => Function.iterate_fixed rfl j
    rw [this] at hk
    revert hk; decide
  have not : ∀ u : Fin 3, u ≠ 2 → ¬ Terminal (![some 4, some 3, some 2] : Fin 3 → Option ℚ) [2] u := by
    rintro u hu (⟨v, hv, hmin⟩ | hnam)
    · have := hmin 2 2 rfl
      revert hv this
      fin_cases u
      · rintro ⟨⟩ h; exact absurd h (by decide +kernel)
      · rintro ⟨⟩ h; exact absurd h (by decide +kernel)
      · exact absurd rfl hu
    · revert hnam hu; revert u; decide
  have : ∀ x : Fin 4, x ≠ 3 → ∃ u, firstThree u = x := by decide
  obtain ⟨u, hu⟩ := this x hx
  exact ⟨u, hu, not u⟩

private theorem acyc (n : Fin 4) : ¬ OnCycle (![1, 2, 2, 3] : Fin 4 → Fin 4) n := by
  have : n = 3 ∨ Reaches (![1, 2, 2, 3] : Fin 4 → Fin 4) n 2 := by
    have : ∀ n : Fin 4, n = 3 ∨ (![1, 2, 2, 3] : Fin 4 → Fin 4)^[2] n = 2 := by decide
    exact (this n).imp id fun e => ⟨2, e⟩
  rcases this with rfl | hr
  · exact fun h => h.1 rfl
  · exact not_onCycle_of_reaches (n := 2) (fun h => h.1 rfl) hr

example {f : Fin 4 → ℚ} {f' : Fin 3 → ℚ} (ha : Acc.flowAccumulation 5 ![1, 2, 2, 3] (fun _ => (1 : ℚ)) false = .ok f)
    (ha' : Acc.flowAccumulation 5 ![1, 2, 2] (fun _ => (1 : ℚ)) false = .ok f') : f' 2 = f 2 :=
  (C209_accumulation (K := ℚ) (area := fun _ => 1) first_directions acyc (Fin.castSucc_injective 3) lW lF (fun _ => rfl)
    (fun _ => by norm_num) ha ha' 2).2 first_contains
-- in the last window cell 1 (2 of the whole) gets only its own area, not 3
example : (Acc.flowAccumulation 5 ![1, 2, 2, 3] (fun _ : Fin 4 => (1 : ℚ)) false).map List.ofFn = .ok [1, 2, 3, 1] ∧
    (Acc.flowAccumulation 5 ![1, 2, 2] (fun _ : Fin 3 => (1 : ℚ)) false).map List.ofFn = .ok [1, 2, 3] ∧
    (Acc.flowAccumulation 5 ![0, 1, 2] (fun _ : Fin 3 => (1 : ℚ)) false).map List.ofFn = .ok [1, 1, 1] := by
  refine ⟨?_, ?_, ?_⟩ <;> decide +kernel
example {f : Fin 4 → ℚ} {f' : Fin 3 → ℚ} (ha : Acc.flowAccumulation 5 ![1, 2, 2, 3] (fun _ => (1 : ℚ)) false = .ok f)
    (ha' : Acc.flowAccumulation 5 ![0, 1, 2] (fun _ => (1 : ℚ)) false = .ok f') (a : Fin 3) : f' a ≤ f a.succ :=
  (C209_accumulation (K := ℚ) (area := fun _ => 1) last_directions acyc (Fin.succ_injective 3) lW lL (fun _ => rfl)
    (fun _ => by norm_num) ha ha' a).1

example {t : Basin.State 4} {t' : Basin.State 3} {w : Fin 4 → ℕ} {w' : Fin 3 → ℕ}
    (h : Basin.watershed 9 ⟨![1, 2, 2, 3], none⟩ 2 (fun _ => 0) = .ok (t, w))
    (h' : Basin.watershed 9 ⟨![1, 2, 2], none⟩ 2 (fun _ => 0) = .ok (t', w')) (u : Fin 3) : w' u = w u.castSucc :=
  ((C209_watershed first_directions (Fin.castSucc_injective 3) lW lF (by decide) (by decide) h h').2 first_contains).1 u

example {f : Fin 4 → ℚ} {f' : Fin 3 → ℚ} (ha : Acc.flowAccumulation 5 ![1, 2, 2, 3] (fun _ => (1 : ℚ)) false = .ok f)
    (ha' : Acc.flowAccumulation 5 ![1, 2, 2] (fun _ => (1 : ℚ)) false = .ok f') {o o1 : Reach.Obj 4} {p p1 : Reach.Obj 3}
    {sa : Fin 4 → ℤ} {sa' : Fin 3 → ℤ} (hs : Delin.delineate (fun n => some (f n)) o (.number 3) none = .ok (o1, sa))
    (hs' : Delin.delineate (fun n => some (f' n)) p (.number 3) none = .ok (p1, sa')) : sa' 2 = sa 2 :=
  (C209_streams (K := ℚ) (area := fun _ => 1) first_directions acyc (Fin.castSucc_injective 3) lW lF (fun _ => rfl)
    (fun _ => by norm_num) ha ha' hs hs' 2).2 first_contains

end Dany.Pipe
