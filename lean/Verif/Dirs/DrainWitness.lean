import Verif.Dirs.Drain
import Verif.Dirs.Witness

/-!
# C97: a concrete grid with a tie, a hole and a named terminal cell
-/

namespace Dany.Dirs

variable {N : ℕ}

open Flow

/-- checking `CleanEnds` by computation -/
theorem cleanEnds_easy {G : Geo N ℚ} {dem : Fin N → Option ℚ} {thr big : ℚ} {nbr : Fin N → List (Fin N)}
    {terminals : List ℤ} (hb : Below G dem thr big nbr) (T : List (Fin N))
    (h : ∀ n, n ∉ T → (fc0 G dem thr big nbr n).length ≤ 3 ∧
      ((fc0 G dem thr big nbr n).reduceOption.all fun a => (fc0 G dem thr big nbr n).reduceOption.all fun b =>
        decide (a = b ∨ b ∈ nbr a)) = true) (hT' : ∀ t ∈ T, Terminal dem terminals t) :
    CleanEnds G dem thr terminals nbr := by
  intro n t hn _ _
  obtain ⟨hl, hnear⟩ := h n (fun h => hn (hT' n h))
  simp only [List.all_eq_true, decide_eq_true_eq] at hnear
  refine ⟨?_, fun m m' hm hm' hne => (hnear m (List.reduceOption_mem_iff.2 (mem_fc0_of_steepest hb hm)) m'
    (List.reduceOption_mem_iff.2 (mem_fc0_of_steepest hb hm'))).resolve_left hne⟩
  have key : ∀ L : List (Entry N), L.length ≤ 3 → ∃ a b c, ∀ m, some m ∈ L → m = a ∨ m = b ∨ m = c := by
    intro L hL
    have getd : ∀ e : Entry N, ∃ a : Fin N, ∀ m, some m = e → m = a := by
      intro e
      cases e with
      | none => exact ⟨n, fun m h => by cases h⟩
      | some a => exact ⟨a, fun m h => Option.some.inj h⟩
    rcases L with _ | ⟨x, _ | ⟨y, _ | ⟨z, _ | ⟨w, L⟩⟩⟩⟩
    · exact ⟨n, n, n, fun m h => by cases h⟩
    · obtain ⟨a, ha⟩ := getd x
      exact ⟨a, a, a, fun m h => .inl (ha m (by simpa using h))⟩
    · obtain ⟨a, ha⟩ := getd x
      obtain ⟨b, hb⟩ := getd y
      refine ⟨a, b, b, fun m h => ?_⟩
      simp only [List.mem_cons, List.not_mem_nil, or_false] at h
      exact h.imp (ha m) fun h => .inl (hb m h)
    · obtain ⟨a, ha⟩ := getd x
      obtain ⟨b, hb⟩ := getd y
      obtain ⟨c, hc⟩ := getd z
      refine ⟨a, b, c, fun m h => ?_⟩
      simp only [List.mem_cons, List.not_mem_nil, or_false] at h
      exact h.imp (ha m) (Or.imp (hb m) (hc m))
    · simp at hL
  obtain ⟨a, b, c, habc⟩ := key _ hl
  exact ⟨a, b, c, fun m hm => habc m (mem_fc0_of_steepest hb hm)⟩

theorem cleanEnds_of {G : Geo N ℚ} {dem : Fin N → Option ℚ} {thr big : ℚ} {nbr : Fin N → List (Fin N)}
    {terminals : List ℤ} (hb : Below G dem thr big nbr) (T : List (Fin N))
    (hT : ∀ t, Terminal dem terminals t → t ∈ T)
    (h : ∀ n, ∀ t ∈ T, some t ∈ fc0 G dem thr big nbr n → (fc0 G dem thr big nbr n).length ≤ 1) :
    CleanEnds G dem thr terminals nbr := by
  intro n t _ ht h1
  have e1 := mem_fc0_of_steepest hb h1
  have := h n t (hT t ht) e1
  refine easyTie_of_unique (t := t) fun m h2 => ?_
  have e2 := mem_fc0_of_steepest hb h2
  rcases hl : fc0 G dem thr big nbr n with _ | ⟨x, _ | ⟨y, l⟩⟩
  · rw [hl] at e1; cases e1
  · rw [hl] at e1 e2
    simp only [List.mem_singleton] at e1 e2
    rw [← e1] at e2
    exact Option.some.inj e2
  · rw [hl] at this; simp at this

/-- cell 1 has two equally steep neighbours, 4 and 6, that do not touch; cell 3 has no elevation; 12 is
named terminal; 15 is the lowest -/
def demT : Fin 16 → Option ℚ :=
  ![some 6, some 5, some 4, none, some 3, some 5, some 3, some 2, some 2, some 4, some 4, some 1,
    some 2, some 1, some (1/2), some 0]

def fdT : Fin 16 → ℤ := ![4, 6, 7, 3, 8, 8, 11, 11, 13, 13, 14, 15, 12, 14, 15, 15]

theorem runT : flowDirections 200 geo44 demT big (table nbr44) thr [12] = .ok fdT := by decide +kernel

theorem belowT : Below geo44 demT thr big nbr44 := below_of (by decide +kernel)
theorem hasNbrT : HasNbr demT nbr44 := by
  have : ∀ n, ∃ m ∈ nbr44 n, demT m ≠ none := by decide +kernel
  exact fun n _ => this n
theorem nodup44 : ∀ n, (nbr44 n).Nodup := by decide +kernel

theorem terminalT {t : Fin 16} (h : Terminal demT [12] t) : t ∈ ([12, 15] : List (Fin 16)) := by
  rcases h with ⟨v, hv, hle⟩ | h
  · have h0 := hle 15 0 (by decide)
    have : ∀ t : Fin 16, t ≠ 15 → (demT t).all (fun v => decide (0 < v)) = true := by decide +kernel
    by_contra hc
    have := this t (fun h => hc (by rw [h]; decide))
    rw [hv] at this
    simp only [Option.all_some, decide_eq_true_eq] at this
    exact absurd this (not_lt.2 h0)
  · have : t = 12 := Fin.ext (by simp at h; omega)
    rw [this]; decide

theorem lowestT : Lowest demT 15 := by
  refine ⟨0, by decide, fun m w h => ?_⟩
  have : ∀ t : Fin 16, (demT t).all (fun v => decide (0 ≤ v)) = true := by decide +kernel
  have := this m
  rw [h] at this
  simpa using this

theorem cleanT : CleanEnds geo44 demT thr [12] nbr44 :=
  cleanEnds_of (big := big) belowT [12, 15] (fun _ => terminalT) (by decide +kernel)

theorem fallT : AllFall demT [12] nbr44 := by
  have : ∀ n : Fin 16, n ≠ 12 → n ≠ 15 → n ≠ 3 → ∃ l ∈ nbr44 n,
      ((demT n).getD 0) > (demT l).getD 0 ∧ demT l ≠ none := by decide +kernel
  intro n hv hT
  obtain ⟨l, h1, h2, h3⟩ := this n (by rintro rfl; exact hT (.inr (by simp)))
    (by rintro rfl; exact hT (.inl lowestT)) (by rintro rfl; exact hv (by decide))
  obtain ⟨a, ha⟩ := Option.ne_none_iff_exists'.1 hv
  obtain ⟨b, hb⟩ := Option.ne_none_iff_exists'.1 h3
  rw [ha, hb] at h2
  exact ⟨l, h1, a, b, ha, hb, h2⟩

-- C97: the cell with two steepest neighbours flows downhill to one of them
example : ∃ m a b, Steepest geo44 demT thr nbr44 1 m ∧ fdT 1 = ((m : ℕ) : ℤ) ∧ demT 1 = some a ∧
    demT m = some b ∧ b < a :=
  (C97_all_drain inRangeF (by norm_num) belowT hasNbrT nodup44 sound44 fallT cleanT runT 1).2 (by
    rintro (h | h)
    · have := terminalT h; revert this; decide
    · revert h; decide)
example : Steepest geo44 demT thr nbr44 1 4 ∧ Steepest geo44 demT thr nbr44 1 6 :=
  ⟨steepest_of (big := big) (by decide +kernel), steepest_of (big := big) (by decide +kernel)⟩
example : fdT 12 = 12 :=
  (C97_all_drain inRangeF (by norm_num) belowT hasNbrT nodup44 sound44 fallT cleanT runT 12).1
    (.inl (.inr (by simp)))
example : ∃ d : Fin 16 → Fin 16, Legal fdT d ∧ ∀ n, ¬ OnCycle d n := by
  obtain ⟨d, h1, h2, _⟩ :=
    C97_network inRangeF (by norm_num) belowT hasNbrT nodup44 sound44 fallT cleanT runT
  exact ⟨d, h1, h2⟩

/-! ### An easy tie with a terminal cell -/

/-- cell 10 falls equally steeply to 14 and to the outlet 15, which are neighbours -/
def demS : Fin 16 → Option ℚ :=
  ![some 20, some 19, some 18, some 17, some 16, some 15, some 14, some 13, some 12, some 11, some 7, some 8,
    some 9, some 6, some 2, some 0]

def fdS : Fin 16 → ℤ := ![4, 5, 6, 7, 8, 10, 10, 11, 13, 14, 14, 15, 13, 14, 15, 15]

theorem runS : flowDirections 200 geo44 demS big (table nbr44) thr [] = .ok fdS := by decide +kernel

theorem belowS : Below geo44 demS thr big nbr44 := below_of (by decide +kernel)

theorem terminalS {t : Fin 16} : Terminal demS [] t ↔ t ∈ ([15] : List (Fin 16)) := by
  have hpos : ∀ t : Fin 16, t ≠ 15 → (demS t).all (fun v => decide (0 < v)) = true := by decide +kernel
  constructor
  · rintro (⟨v, hv, hle⟩ | h)
    · have h0 := hle 15 0 (by decide)
      by_contra hc
      have := hpos t (fun h => hc (by rw [h]; decide))
      rw [hv] at this
      simp only [Option.all_some, decide_eq_true_eq] at this
      exact absurd this (not_lt.2 h0)
    · cases h
  · intro h
    have : t = 15 := by simpa using h
    subst this
    refine .inl ⟨0, by decide, fun m w h => ?_⟩
    have : ∀ t : Fin 16, (demS t).all (fun v => decide (0 ≤ v)) = true := by decide +kernel
    have := this m
    rw [h] at this
    simpa using this

theorem cleanS : CleanEnds geo44 demS thr [] nbr44 :=
  cleanEnds_easy (big := big) belowS [15] (by decide +kernel) (fun _ => terminalS.2)

-- C23: the outlet is one of two equally steep neighbours of cell 10 and stays terminal
example : Steepest geo44 demS thr nbr44 10 14 ∧ Steepest geo44 demS thr nbr44 10 15 :=
  ⟨steepest_of (big := big) (by decide +kernel), steepest_of (big := big) (by decide +kernel)⟩
example : fdS 15 = 15 :=
  C23_terminal_partial (inRange_nil 16) belowS nodup44 runS (t := 15) (terminalS.2 (by simp))
    fun n hn h => cleanS n 15 hn (terminalS.2 (by simp)) h

end Dany.Dirs
