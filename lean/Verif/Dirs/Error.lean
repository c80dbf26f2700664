import Verif.Dirs.Local
import Verif.Dirs.DrainWitness
import Mathlib.Tactic.FinCases

/-!
# C201: errors of the elevations and the flow directions

Exact arithmetic.  `δ` bounds the error of every elevation.
-/

namespace Dany.Dirs

variable {N : ℕ} {K : Type*} [Field K] [LinearOrder K]
variable {G : Geo N K} {dem dem' : Fin N → Option K} {nbr : Fin N → List (Fin N)}
  {terminals : List ℤ} {thr big δ : K} {fuel fuel' : ℕ} {out out' : Fin N → ℤ}

/-- The two elevation models have the same cells without elevation, and differ by at most `δ` elsewhere. -/
def Within (δ : K) (dem dem' : Fin N → Option K) : Prop :=
  ∀ n, (dem n = none ∧ dem' n = none) ∨ ∃ a a', dem n = some a ∧ dem' n = some a' ∧ |a - a'| ≤ δ

/-- Cell `n` falls to its neighbour `m` by more than `2δ`, and to `m` more steeply than to every other neighbour `k`,
whatever the error `e` of `n` itself, even if `m` is `δ` higher and `k` is `δ` lower. -/
def Clear (G : Geo N K) (dem : Fin N → Option K) (nbr : Fin N → List (Fin N)) (δ : K) (n m : Fin N) : Prop :=
  m ∈ nbr n ∧ ∃ a b, dem n = some a ∧ dem m = some b ∧ 2 * δ < a - b ∧
    ∀ k ∈ nbr n, k ≠ m → ∀ c, dem k = some c → ∀ e, |e| ≤ δ →
      (a + e - (c - δ)) / G.dist n k < (a + e - (b + δ)) / G.dist n m

variable [IsStrictOrderedRing K]

/-- a clear direction stays the only steepest one -/
theorem Clear.only (hrnd : G.rnd = id) (hdist : ∀ n, ∀ m ∈ nbr n, 0 < G.dist n m) (hw : Within δ dem dem')
    {n m : Fin N} (hc : Clear G dem nbr δ n m) (k : Fin N) : Steepest G dem' thr nbr n k ↔ k = m := by
  obtain ⟨hm, a, b, ha, hb, hfall, hother⟩ := hc
  have get : ∀ x v, dem x = some v → ∃ v', dem' x = some v' ∧ |v - v'| ≤ δ := by
    intro x v hv
    rcases hw x with ⟨h, _⟩ | ⟨p, p', h1, h2, h3⟩
    · rw [h] at hv; cases hv
    · rw [hv] at h1; cases h1; exact ⟨p', h2, h3⟩
  have back : ∀ x v', dem' x = some v' → ∃ v, dem x = some v ∧ |v - v'| ≤ δ := by
    intro x v hv
    rcases hw x with ⟨_, h⟩ | ⟨p, p', h1, h2, h3⟩
    · rw [h] at hv; cases hv
    · rw [hv] at h2; cases h2; exact ⟨p, h1, h3⟩
  obtain ⟨a', ha', hda⟩ := get n a ha
  obtain ⟨b', hb', hdb⟩ := get m b hb
  have hda0 : |a' - a| ≤ δ := by rw [abs_sub_comm]; exact hda
  rw [abs_le] at hda hdb
  have hdm := hdist n m hm
  have hrise : rise G thr a' b' = b' - a' := by
    unfold rise
    rw [hrnd]
    simp only [id]
    rw [if_neg (by intro h; linarith [h.1])]
  have hsm : Slope G dem' thr n m ((b' - a') / G.dist n m) := ⟨a', b', ha', hb', by rw [hrise, hrnd]; rfl⟩
  have hlt : ∀ k ∈ nbr n, k ≠ m → ∀ s, Slope G dem' thr n k s → (b' - a') / G.dist n m < s := by
    rintro k hk hne s ⟨x, c', hx, hc', rfl⟩
    rw [ha'] at hx
    cases hx
    obtain ⟨c, hcc, hdc⟩ := back k c' hc'
    rw [abs_le] at hdc
    have hdk := hdist n k hk
    have h0 := hother k hk hne c hcc (a' - a) hda0
    rw [hrnd]
    simp only [id]
    unfold rise
    rw [hrnd]
    simp only [id]
    split
    · rw [zero_div]
      exact div_neg_of_neg_of_pos (by linarith) hdm
    · have h1 : (a' - c') / G.dist n k ≤ (a + (a' - a) - (c - δ)) / G.dist n k :=
        div_le_div_of_nonneg_right (by linarith) hdk.le
      have h2 : (a + (a' - a) - (b + δ)) / G.dist n m ≤ (a' - b') / G.dist n m :=
        div_le_div_of_nonneg_right (by linarith) hdm.le
      have e1 : (c' - a') / G.dist n k = -((a' - c') / G.dist n k) := by ring
      have e2 : (b' - a') / G.dist n m = -((a' - b') / G.dist n m) := by ring
      rw [e1, e2]
      linarith
  constructor
  · rintro ⟨hk, s, hs, hmin⟩
    by_contra hne
    exact absurd (hmin m hm _ hsm) (not_le.2 (hlt k hk hne s hs))
  · rintro rfl
    refine ⟨hm, _, hsm, fun k' hk' s' hs' => ?_⟩
    by_cases e : k' = k
    · subst e
      obtain ⟨x, y, hx, hy, rfl⟩ := hs'
      rw [ha'] at hx
      rw [hb'] at hy
      cases hx
      cases hy
      rw [hrise, hrnd]
      exact le_refl _
    · exact (hlt k' hk' e s' hs').le

theorem within_refl (hδ : 0 ≤ δ) (dem : Fin N → Option K) : Within δ dem dem := by
  intro n
  cases h : dem n with
  | none => exact .inl ⟨rfl, rfl⟩
  | some a => exact .inr ⟨a, a, rfl, rfl, by simpa using hδ⟩

/-- and a way down -/
theorem Clear.lower (hw : Within δ dem dem') {n m : Fin N} (hc : Clear G dem nbr δ n m) : HasLower dem' nbr n := by
  obtain ⟨hm, a, b, ha, hb, hfall, _⟩ := hc
  rcases hw n with ⟨h, _⟩ | ⟨p, a', h1, h2, h3⟩
  · rw [h] at ha; cases ha
  rcases hw m with ⟨h, _⟩ | ⟨q, b', h4, h5, h6⟩
  · rw [h] at hb; cases hb
  rw [ha] at h1
  rw [hb] at h4
  cases h1
  cases h4
  rw [abs_le] at h3 h6
  exact ⟨m, hm, a', b', h2, h5, by linarith⟩

/-- **C201** for one cell: if every cell drains on both elevation models, which differ by at most `δ`, then a cell that
is terminal in neither and has a clear direction with respect to `δ` in one of them flows that way in both. -/
theorem C201_cell (hrnd : G.rnd = id) (hδ : 0 ≤ δ) (hD : Draining G dem nbr thr big terminals)
    (hD' : Draining G dem' nbr thr big terminals) (hw : Within δ dem dem')
    (h : flowDirections fuel G dem big (table nbr) thr terminals = .ok out)
    (h' : flowDirections fuel' G dem' big (table nbr) thr terminals = .ok out') {n m : Fin N}
    (hc : Clear G dem nbr δ n m) (ht : ¬ Terminal dem terminals n) (ht' : ¬ Terminal dem' terminals n) :
    out n = ((m : ℕ) : ℤ) ∧ out' n = ((m : ℕ) : ℤ) := by
  obtain ⟨k, ho, hk⟩ := hD.cells h n
  obtain ⟨k', ho', hk'⟩ := hD'.cells h' n
  have hv : dem n ≠ none := by obtain ⟨_, a, _, ha, _⟩ := hc; rw [ha]; simp
  have hv' : dem' n ≠ none := by
    rcases hw n with ⟨e, _⟩ | ⟨_, _, _, e, _⟩
    · exact absurd e hv
    · rw [e]; simp
  rcases hk with ⟨h1 | h1, _⟩ | ⟨_, _, h3, _⟩
  · exact absurd h1 ht
  · exact absurd h1 hv
  rcases hk' with ⟨h1 | h1, _⟩ | ⟨_, _, h3', _⟩
  · exact absurd h1 ht'
  · exact absurd h1 hv'
  rw [(hc.only hrnd hD.sound.dist (within_refl hδ dem) k).1 h3] at ho
  rw [(hc.only hrnd hD.sound.dist hw k').1 h3'] at ho'
  exact ⟨ho, ho'⟩

/-- **C201.**  Let every cell of an elevation model have a clear direction with respect to `δ`, except the terminal
cells and those without elevation; and let the lowest cells be named in `terminal_cells`, or be lower than the other
terminal cells by more than `2δ`.  Then `flow_directions` returns the same array for every elevation model that differs from it
by at most `δ`: the direction to that neighbour, and to the cell itself for terminal cells and cells without elevation. -/
theorem C201_directions (hrnd : G.rnd = id) (hδ : 0 ≤ δ) (hdist : ∀ n, ∀ m ∈ nbr n, 0 < G.dist n m) (hN : N < 1000000)
    (hr : InRange N terminals) (hn : HasNbr dem nbr) (hnd : ∀ n, (nbr n).Nodup)
    (hb : Below G dem thr big nbr) (hb' : Below G dem' thr big nbr) (hw : Within δ dem dem')
    (hclear : ∀ n, dem n ≠ none → ¬ Terminal dem terminals n → ∃ m, Clear G dem nbr δ n m)
    (hlow : ∀ p v, dem p = some v → Lowest dem p → ((p : ℕ) : ℤ) ∈ terminals ∨
      ∀ q w, Terminal dem terminals q → dem q = some w → q ≠ p → v + 2 * δ < w)
    (h : flowDirections fuel G dem big (table nbr) thr terminals = .ok out)
    (h' : flowDirections fuel' G dem' big (table nbr) thr terminals = .ok out') :
    out' = out ∧ ∀ n, out n = ((n : ℕ) : ℤ) ∨ ∃ m, Clear G dem nbr δ n m ∧ out n = ((m : ℕ) : ℤ) := by
  have hnone : ∀ n, dem' n = none ↔ dem n = none := by
    intro n
    rcases hw n with ⟨e, e'⟩ | ⟨a, a', e, e', _⟩ <;> rw [e, e'] <;> simp
  -- the same cells are terminal
  have hterm : ∀ n, dem n ≠ none → (Terminal dem' terminals n ↔ Terminal dem terminals n) := by
    intro n hv
    constructor
    · rintro (⟨v', hv', hmin⟩ | hmem)
      · by_contra hnt
        obtain ⟨m, hc⟩ := hclear n hv hnt
        obtain ⟨l, _, x, y, hx, hy, hlt⟩ := hc.lower hw
        rw [hv'] at hx
        cases hx
        exact absurd (hmin l y hy) (not_le.2 hlt)
      · exact .inr hmem
    · rintro (hl | hmem)
      · obtain ⟨v, hv1, hmin⟩ := hl
        rcases hlow n v hv1 ⟨v, hv1, hmin⟩ with hmem | hfar
        · exact .inr hmem
        · left
          rcases hw n with ⟨e, _⟩ | ⟨p, v', e, e', hd⟩
          · exact absurd e hv
          rw [hv1] at e
          cases e
          rw [abs_le] at hd
          -- the lowest cell of the second model
          have hex : ∃ q w', dem' q = some w' ∧ ∀ k w, dem' k = some w → w' ≤ w := by
            have hne : (Finset.univ.filter fun k => (dem' k).isSome).Nonempty :=
              ⟨n, by simp [e']⟩
            obtain ⟨q, hq, hqmin⟩ := Finset.exists_min_image _ (fun k => (dem' k).getD 0) hne
            rw [Finset.mem_filter] at hq
            obtain ⟨w', hw'⟩ := Option.isSome_iff_exists.1 hq.2
            refine ⟨q, w', hw', fun k w hk => ?_⟩
            have := hqmin k (by simp [hk])
            simpa [hk, hw'] using this
          obtain ⟨q, w', hq, hqmin⟩ := hex
          have hqn : q = n := by
            by_contra hne
            rcases hw q with ⟨_, e2⟩ | ⟨w, w2, e2, e3, hd2⟩
            · rw [e2] at hq; cases hq
            rw [hq] at e3
            cases e3
            rw [abs_le] at hd2
            have hqt : Terminal dem terminals q := by
              by_contra hnt
              obtain ⟨m, hc⟩ := hclear q (by rw [e2]; simp) hnt
              obtain ⟨l, _, x, y, hx, hy, hlt⟩ := hc.lower hw
              rw [hq] at hx
              cases hx
              exact absurd (hqmin l y hy) (not_le.2 hlt)
            have h1 := hfar q w hqt e2 hne
            have h2 := hqmin n v' e'
            linarith
          subst hqn
          exact ⟨w', hq, hqmin⟩
      · exact .inr hmem
  have hD : Draining G dem nbr thr big terminals := {
    range := hr, size := hN, below := hb, nbrs := hn, nodup := hnd, sound := Sound.exact hrnd hdist
    fall := fun n hv hnt => by
      obtain ⟨m, hc⟩ := hclear n hv hnt
      exact hc.lower (within_refl hδ dem)
    ends := fun n t hnt _ hst => by
      have hv : dem n ≠ none := by
        obtain ⟨_, s, ⟨a, _, ha, _⟩, _⟩ := hst
        rw [ha]; simp
      obtain ⟨m, hc⟩ := hclear n hv hnt
      have hu := hc.only (thr := thr) hrnd hdist (within_refl hδ dem)
      exact ⟨⟨m, m, m, fun k hk => .inl ((hu k).1 hk)⟩, fun k k' hk hk' hne =>
        absurd (((hu k).1 hk).trans ((hu k').1 hk').symm) hne⟩ }
  have hD' : Draining G dem' nbr thr big terminals := {
    range := hr, size := hN, below := hb', nodup := hnd, sound := Sound.exact hrnd hdist
    nbrs := fun n hv => by
      obtain ⟨m, hm, hmv⟩ := hn n fun e => hv ((hnone n).2 e)
      exact ⟨m, hm, fun e => hmv ((hnone m).1 e)⟩
    fall := fun n hv hnt => by
      have hv0 : dem n ≠ none := fun e => hv ((hnone n).2 e)
      obtain ⟨m, hc⟩ := hclear n hv0 fun ht => hnt ((hterm n hv0).2 ht)
      exact hc.lower hw
    ends := fun n t hnt _ hst => by
      have hv0 : dem n ≠ none := by
        obtain ⟨_, s, ⟨a, _, ha, _⟩, _⟩ := hst
        intro e
        rw [(hnone n).2 e] at ha; cases ha
      obtain ⟨m, hc⟩ := hclear n hv0 fun ht => hnt ((hterm n hv0).2 ht)
      have hu := hc.only (thr := thr) hrnd hdist hw
      exact ⟨⟨m, m, m, fun k hk => .inl ((hu k).1 hk)⟩, fun k k' hk hk' hne =>
        absurd (((hu k).1 hk).trans ((hu k').1 hk').symm) hne⟩ }
  have key : ∀ n, out' n = out n ∧
      (out n = ((n : ℕ) : ℤ) ∨ ∃ m, Clear G dem nbr δ n m ∧ out n = ((m : ℕ) : ℤ)) := by
    intro n
    by_cases hv : dem n = none
    · have h1 := (C97_all_drain hr hN hb hn hnd hD.sound hD.fall hD.ends h n).1 (.inr hv)
      have h2 := (C97_all_drain hr hN hb' hD'.nbrs hnd hD'.sound hD'.fall hD'.ends h' n).1 (.inr ((hnone n).2 hv))
      exact ⟨by rw [h1, h2], .inl h1⟩
    · by_cases hT : Terminal dem terminals n
      · have h1 := (C97_all_drain hr hN hb hn hnd hD.sound hD.fall hD.ends h n).1 (.inl hT)
        have h2 := (C97_all_drain hr hN hb' hD'.nbrs hnd hD'.sound hD'.fall hD'.ends h' n).1
          (.inl ((hterm n hv).2 hT))
        exact ⟨by rw [h1, h2], .inl h1⟩
      · obtain ⟨m, hc⟩ := hclear n hv hT
        obtain ⟨h1, h2⟩ := C201_cell hrnd hδ hD hD' hw h h' hc hT fun ht => hT ((hterm n hv).1 ht)
        exact ⟨by rw [h1, h2], .inr ⟨m, hc, h1⟩⟩
  exact ⟨funext fun n => (key n).1, fun n => (key n).2⟩

/-! ### Concrete cases -/

/-- four cells in a row, a unit apart -/
private def lineG : Geo 4 ℚ := ⟨![0, 1, 2, 3], ![0, 0, 0, 0], id, id⟩
private def lineN : Fin 4 → List (Fin 4) := ![[1], [0, 2], [1, 3], [2]]
private def lineD : Fin 4 → Option ℚ := ![some 9, some 6, some 3, some 0]
private def lineE : Fin 4 → Option ℚ := ![some 8, some 7, some 4, some (1 / 2)]

private theorem lowest_line {n : Fin 4} : Lowest lineD n ↔ n = 3 := by
  constructor
  · rintro ⟨v, hv, hmin⟩
    have h3 := hmin 3 0 rfl
    fin_cases n <;> simp [lineD] at hv <;> subst hv <;> norm_num at h3 <;> rfl
  · rintro rfl
    refine ⟨0, rfl, fun m w hm => ?_⟩
    fin_cases m <;> simp [lineD] at hm <;> subst hm <;> norm_num

private theorem clear_line : ∀ n : Fin 4, n ≠ 3 → Clear lineG lineD lineN 1 n (n + 1) := by
  intro n hn
  have h : ∀ e : ℚ, |e| ≤ 1 → -1 ≤ e ∧ e ≤ 1 := fun e he => abs_le.1 he
  fin_cases n
  · refine ⟨by decide, 9, 6, rfl, rfl, by norm_num, ?_⟩
    intro k hk hne
    fin_cases k <;> simp_all [lineN]
  · refine ⟨by decide, 6, 3, rfl, rfl, by norm_num, ?_⟩
    intro k hk hne c hc e he
    have := h e he
    fin_cases k <;> simp [lineN] at hk hne
    simp [lineD] at hc
    subst hc
    simp only [lineG, Geo.dist]
    norm_num [Fin.add_def]
    all_goals linarith
  · refine ⟨by decide, 3, 0, rfl, rfl, by norm_num, ?_⟩
    intro k hk hne c hc e he
    have := h e he
    fin_cases k <;> simp [lineN] at hk hne
    simp [lineD] at hc
    subst hc
    simp only [lineG, Geo.dist]
    norm_num [Fin.add_def]
    all_goals linarith
  · exact absurd rfl hn

/-- the hypotheses of `C201_directions` are met there, with an error of 1, and the runs return -/
example : ∃ out, flowDirections 20 lineG lineD 100 (table lineN) (1 / 10) [] = .ok out ∧
    flowDirections 20 lineG lineE 100 (table lineN) (1 / 10) [] = .ok out := by
  have r1 : flowDirections 20 lineG lineD 100 (table lineN) (1 / 10) [] = .ok ![1, 2, 3, 3] := by decide +kernel
  obtain ⟨o', r2⟩ : ∃ o', flowDirections 20 lineG lineE 100 (table lineN) (1 / 10) [] = .ok o' :=
    ⟨![1, 2, 3, 3], by decide +kernel⟩
  have hall := C201_directions (dem := lineD) (dem' := lineE) (δ := 1) (G := lineG) (nbr := lineN) rfl (by norm_num)
    (by decide +kernel) (by norm_num) (by intro t ht; cases ht)
    (by intro n _; fin_cases n; exacts [⟨1, by decide, by decide⟩, ⟨0, by decide, by decide⟩, ⟨1, by decide, by decide⟩, ⟨2, by decide, by decide⟩])
    (by decide) (below_of (by decide +kernel)) (below_of (by decide +kernel))
    (by
      intro n
      right
      fin_cases n
      · exact ⟨9, 8, rfl, rfl, by norm_num⟩
      · exact ⟨6, 7, rfl, rfl, by norm_num⟩
      · exact ⟨3, 4, rfl, rfl, by norm_num⟩
      · exact ⟨0, 1 / 2, rfl, rfl, by norm_num⟩)
    (by
      intro n _ hnt
      exact ⟨n + 1, clear_line n fun e => hnt (.inl (lowest_line.2 e))⟩)
    (by
      intro p v _ hp
      right
      rintro q w (hq | hq) _ hne
      · exact absurd ((lowest_line.1 hq).trans (lowest_line.1 hp).symm) hne
      · cases hq) r1 r2
  exact ⟨_, r1, hall.1 ▸ r2⟩

/-- **C201**, the margin is needed: elevations 10, 6, 5 of a cell and its two neighbours, a unit apart, and the
elevations 10, 5, 6, which differ from these by 1, turn the flow from one to the other. -/
theorem C201_margin : ∃ (G : Geo 3 ℚ) (nbr : Fin 3 → List (Fin 3)) (dem dem' : Fin 3 → Option ℚ) (out out' : Fin 3 → ℤ),
    (∀ n a b, dem n = some a → dem' n = some b → |a - b| ≤ 1) ∧
    flowDirections 20 G dem 100 (table nbr) (1/10) [1, 2] = .ok out ∧
    flowDirections 20 G dem' 100 (table nbr) (1/10) [1, 2] = .ok out' ∧ out 0 = 2 ∧ out' 0 = 1 := by
  refine ⟨⟨![0, 1, -1], ![0, 0, 0], id, id⟩, ![[1, 2], [0], [0]], ![some 10, some 6, some 5], ![some 10, some 5, some 6],
    ![2, 1, 2], ![1, 1, 2], ?_, by decide +kernel, by decide +kernel, by decide +kernel, by decide +kernel⟩
  intro n a b ha hb
  fin_cases n <;> simp at ha hb <;> subst ha hb <;> norm_num

end Dany.Dirs
