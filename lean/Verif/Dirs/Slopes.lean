import Verif.Dirs.Spec
import Mathlib.Data.List.ReduceOption

/-!
# The candidates of a cell are its steepest neighbours
-/

namespace Dany.Dirs

variable {N : ℕ} {K : Type*} [Field K] [LinearOrder K]

theorem foldl_min_mem (xs : List K) (x : K) : xs.foldl min x = x ∨ xs.foldl min x ∈ xs := by
  induction xs generalizing x with
  | nil => left; rfl
  | cons y ys ih =>
    simp only [List.foldl_cons]
    rcases ih (min x y) with h | h
    · rw [h]
      rcases min_choice x y with h' | h' <;> simp [h']
    · right; exact List.mem_cons_of_mem _ h

theorem foldl_min_le (xs : List K) (x : K) : xs.foldl min x ≤ x ∧ ∀ y ∈ xs, xs.foldl min x ≤ y := by
  induction xs generalizing x with
  | nil => simp
  | cons y ys ih =>
    simp only [List.foldl_cons]
    obtain ⟨h1, h2⟩ := ih (min x y)
    refine ⟨h1.trans (min_le_left _ _), fun z hz => ?_⟩
    rcases List.mem_cons.1 hz with rfl | hz
    · exact h1.trans (min_le_right _ _)
    · exact h2 z hz

theorem nanmin_none {l : List (Option K)} : nanmin l = none ↔ ∀ x, some x ∉ l := by
  unfold nanmin
  split
  · rename_i h
    simp only [true_iff]
    intro x hx
    have := List.reduceOption_mem_iff.2 hx
    rw [h] at this
    cases this
  · rename_i x xs h
    simp only [reduceCtorEq, false_iff, not_forall, not_not]
    exact ⟨x, List.reduceOption_mem_iff.1 (by rw [h]; simp)⟩

theorem nanmin_some {l : List (Option K)} {m : K} (h : nanmin l = some m) :
    some m ∈ l ∧ ∀ x, some x ∈ l → m ≤ x := by
  unfold nanmin at h
  split at h
  · cases h
  · rename_i x xs hl
    simp only [Option.some.injEq] at h
    subst h
    obtain ⟨h1, h2⟩ := foldl_min_le xs x
    refine ⟨List.reduceOption_mem_iff.1 ?_, fun y hy => ?_⟩
    · rw [hl]
      rcases foldl_min_mem xs x with h | h
      · rw [h]; simp
      · exact List.mem_cons_of_mem _ h
    · have := List.reduceOption_mem_iff.2 hy
      rw [hl] at this
      rcases List.mem_cons.1 this with rfl | h
      · exact h1
      · exact h2 _ h

theorem mem_fcell {slope : Entry N → Option K} {row : List (Entry N)} {e : Entry N} :
    e ∈ fcell slope row ↔ e ∈ row ∧ ∃ s, slope e = some s ∧
      ∀ e' ∈ row, ∀ s', slope e' = some s' → s ≤ s' := by
  unfold fcell
  cases h : nanmin (row.map slope) with
  | none =>
    simp only [List.not_mem_nil, false_iff, not_and, not_exists]
    intro he s hs
    exact absurd (List.mem_map.2 ⟨e, he, hs⟩) (nanmin_none.1 h s)
  | some m =>
    obtain ⟨h1, h2⟩ := nanmin_some h
    simp only [List.mem_filter, decide_eq_true_eq]
    constructor
    · rintro ⟨he, hm⟩
      exact ⟨he, m, hm, fun e' he' s' hs' => h2 s' (List.mem_map.2 ⟨e', he', hs'⟩)⟩
    · rintro ⟨he, s, hs, hle⟩
      refine ⟨he, ?_⟩
      obtain ⟨e', he', hm⟩ := List.mem_map.1 h1
      rw [hs, le_antisymm (hle e' he' m hm) (h2 s (List.mem_map.2 ⟨e, he, hs⟩))]

theorem fcell_ne_nil {slope : Entry N → Option K} {row : List (Entry N)} {e : Entry N}
    (he : e ∈ row) {s : K} (hs : slope e = some s) : fcell slope row ≠ [] := by
  unfold fcell
  cases h : nanmin (row.map slope) with
  | none => exact absurd (List.mem_map.2 ⟨e, he, hs⟩) (nanmin_none.1 h s)
  | some m =>
    obtain ⟨e', he', hm⟩ := List.mem_map.1 (nanmin_some h).1
    exact List.ne_nil_of_mem (List.mem_filter.2 ⟨he', by simpa using hm⟩)

/-! ### Padding -/

theorem le_foldl_max (l : List (Fin N)) (f : Fin N → ℕ) (m : ℕ) :
    m ≤ l.foldl (fun m n => max m (f n)) m ∧ ∀ n ∈ l, f n ≤ l.foldl (fun m n => max m (f n)) m := by
  induction l generalizing m with
  | nil => simp
  | cons a l ih =>
    simp only [List.foldl_cons]
    obtain ⟨h1, h2⟩ := ih (max m (f a))
    refine ⟨(le_max_left _ _).trans h1, fun n hn => ?_⟩
    rcases List.mem_cons.1 hn with rfl | hn
    · exact (le_max_right _ _).trans h1
    · exact h2 n hn

theorem foldl_max_le (l : List (Fin N)) (f : Fin N → ℕ) (m b : ℕ) (hm : m ≤ b) (h : ∀ n ∈ l, f n ≤ b) :
    l.foldl (fun m n => max m (f n)) m ≤ b := by
  induction l generalizing m with
  | nil => exact hm
  | cons a l ih =>
    simp only [List.foldl_cons]
    exact ih _ (max_le hm (h a (by simp))) (fun n hn => h n (List.mem_cons_of_mem _ hn))

theorem length_le_width (rows : Fin N → List (Entry N)) (n : Fin N) : (rows n).length ≤ width rows :=
  (le_foldl_max _ (fun n => (rows n).length) 0).2 n (List.mem_finRange n)

theorem width_le {rows : Fin N → List (Entry N)} {b : ℕ} (h : ∀ n, (rows n).length ≤ b) :
    width rows ≤ b :=
  foldl_max_le _ _ _ _ (Nat.zero_le _) (fun n _ => h n)

theorem length_pad (rows : Fin N → List (Entry N)) (n : Fin N) : (pad rows n).length = width rows := by
  have := length_le_width rows n
  simp [pad]
  omega

/-- all rows of a padded table have the same length -/
theorem width_pad (rows : Fin N → List (Entry N)) : width (pad rows) = width rows := by
  apply le_antisymm
  · exact width_le (fun n => (length_pad rows n).le)
  · refine width_le (fun n => ?_)
    refine le_trans ?_ (length_le_width (pad rows) n)
    rw [length_pad]
    exact length_le_width rows n

theorem pad_pad (rows : Fin N → List (Entry N)) : pad (pad rows) = pad rows := by
  funext n
  conv_lhs => rw [pad]
  rw [width_pad, length_pad]
  simp

theorem some_mem_pad {nbr : Fin N → List (Fin N)} {n m : Fin N} :
    some m ∈ pad (table nbr) n ↔ m ∈ nbr n := by
  simp [pad, table]

theorem none_mem_pad {nbr : Fin N → List (Fin N)} {n : Fin N} (h : none ∈ pad (table nbr) n) :
    (nbr n).length < width (table nbr) := by
  simp [pad, table, List.mem_append] at h
  omega

/-! ### Slopes -/

theorem slopeTo_some {G : Geo N K} {dem : Fin N → Option K} {thr big : K} {n m : Fin N} {s : K} :
    slopeTo G dem thr big n (some m) = some s ↔ Slope G dem thr n m s := by
  unfold Slope slopeTo flatten rise
  cases h1 : dem n with
  | none => simp
  | some a =>
    cases h2 : dem m with
    | none => simp [h2]
    | some b =>
      simp only [h2, Option.some.injEq]
      constructor
      · rintro rfl
        refine ⟨a, b, rfl, rfl, ?_⟩
        simp only [and_comm]
      · rintro ⟨a', b', rfl, rfl, rfl⟩
        simp only [and_comm]

/-- the candidates at the start of the loop -/
def fc0 (G : Geo N K) (dem : Fin N → Option K) (thr big : K) (nbr : Fin N → List (Fin N)) (n : Fin N) :
    List (Entry N) := fcell (slopeTo G dem thr big n) (pad (table nbr) n)

variable {G : Geo N K} {dem : Fin N → Option K} {thr big : K} {nbr : Fin N → List (Fin N)}

theorem steepest_of_mem_fc0 {n m : Fin N} (h : some m ∈ fc0 G dem thr big nbr n) :
    Steepest G dem thr nbr n m := by
  obtain ⟨h1, s, h2, h3⟩ := mem_fcell.1 h
  refine ⟨some_mem_pad.1 h1, s, slopeTo_some.1 h2, fun m' hm' s' hs' => ?_⟩
  exact h3 (some m') (some_mem_pad.2 hm') s' (slopeTo_some.2 hs')

theorem none_mem_fc0 {n : Fin N} (h : none ∈ fc0 G dem thr big nbr n) :
    ∀ m ∈ nbr n, ∀ s, Slope G dem thr n m s → big ≤ s := by
  obtain ⟨_, s, h2, h3⟩ := mem_fcell.1 h
  simp only [slopeTo, Option.some.injEq] at h2
  subst h2
  exact fun m hm s hs => h3 (some m) (some_mem_pad.2 hm) s (slopeTo_some.2 hs)

theorem mem_fc0_of_steepest (hb : Below G dem thr big nbr) {n m : Fin N}
    (h : Steepest G dem thr nbr n m) : some m ∈ fc0 G dem thr big nbr n := by
  obtain ⟨h1, s, h2, h3⟩ := h
  refine mem_fcell.2 ⟨some_mem_pad.2 h1, s, slopeTo_some.2 h2, fun e he s' hs' => ?_⟩
  cases e with
  | none =>
    simp only [slopeTo, Option.some.injEq] at hs'
    subst hs'
    exact (hb n m h1 s h2).le
  | some m' => exact h3 m' (some_mem_pad.1 he) s' (slopeTo_some.1 hs')

theorem exists_slope {n m : Fin N} (h1 : dem n ≠ none) (h2 : dem m ≠ none) :
    ∃ s, Slope G dem thr n m s := by
  obtain ⟨a, ha⟩ := Option.ne_none_iff_exists'.1 h1
  obtain ⟨b, hb⟩ := Option.ne_none_iff_exists'.1 h2
  exact ⟨_, a, b, ha, hb, rfl⟩

/-- with a neighbour in a slope below the fill value there is no fill entry among the candidates -/
theorem none_notMem_fc0 (hb : Below G dem thr big nbr) (hn : HasNbr dem nbr) {n : Fin N}
    (hv : dem n ≠ none) : none ∉ fc0 G dem thr big nbr n := by
  intro h
  obtain ⟨m, hm, hm'⟩ := hn n hv
  obtain ⟨s, hs⟩ := exists_slope (G := G) (thr := thr) hv hm'
  exact absurd (none_mem_fc0 h m hm s hs) (not_le.2 (hb n m hm s hs))

theorem fc0_ne_nil (hn : HasNbr dem nbr) {n : Fin N} (hv : dem n ≠ none) :
    fc0 G dem thr big nbr n ≠ [] := by
  obtain ⟨m, hm, hm'⟩ := hn n hv
  obtain ⟨s, hs⟩ := exists_slope (G := G) (thr := thr) hv hm'
  exact fcell_ne_nil (some_mem_pad.2 hm) (slopeTo_some.2 hs)

theorem Steepest.valid {n m : Fin N} (h : Steepest G dem thr nbr n m) : dem n ≠ none ∧ dem m ≠ none := by
  obtain ⟨_, s, ⟨a, b, h1, h2, _⟩, _⟩ := h
  simp [h1, h2]

end Dany.Dirs
