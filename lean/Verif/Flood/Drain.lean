import Verif.Flood.Level
import Mathlib.Data.Finset.Max
import Mathlib.Algebra.BigOperators.Group.Finset.Basic
import Mathlib.Algebra.Order.BigOperators.Group.Finset
import Mathlib.Data.Set.Finite.Lattice

/-!
# Lemmas about `_flood_and_drain_fill`
-/

namespace Dany.Flood

open Function

variable {N : ℕ} {V : Type*} [LinearOrder V]

theorem indexAll_ok {l : List ℕ} {nc : List (Fin N)} (h : indexAll N l = .ok nc) (n : Fin N) :
    n ∈ nc ↔ n.val ∈ l := by
  induction l generalizing nc with
  | nil => cases h; simp
  | cons a l ih =>
    simp only [indexAll] at h
    obtain ⟨i, hi, h⟩ := Res.bind_eq_ok.1 h
    obtain ⟨r, hr, rfl⟩ := Res.map_eq_ok.1 h
    unfold natIndex at hi
    split at hi
    · cases hi
      simp only [List.mem_cons, ih hr, Fin.ext_iff]
    · cases hi

theorem indexAll_total {l : List ℕ} (h : ∀ n ∈ l, n < N) : ∃ nc, indexAll N l = .ok nc := by
  induction l with
  | nil => exact ⟨_, rfl⟩
  | cons a l ih =>
    obtain ⟨r, hr⟩ := ih (fun n hn => h n (by simp [hn]))
    have ha := h a (by simp)
    exact ⟨⟨a, ha⟩ :: r, by simp [indexAll, natIndex, ha, hr]⟩

theorem foldl_max_mem (w : V) (ws : List V) : ws.foldl max w ∈ w :: ws := by
  induction ws generalizing w with
  | nil => simp
  | cons a ws ih =>
    simp only [List.foldl_cons]
    rcases List.mem_cons.1 (ih (max w a)) with h | h
    · rcases max_choice w a with h' | h' <;> rw [h, h'] <;> simp
    · exact List.mem_cons_of_mem _ (List.mem_cons_of_mem _ h)

/-- What one cell update can do: nothing, drop the cell to the ground because of a low neighbour, or
lower it to just above a neighbour. -/
theorem drainCell_cases {raise : V → V} {nbr : Fin N → List ℕ} {dem : Fin N → V} {c : Fin N}
    {b b' : Bool} {wf wf' : Fin N → V} (h : drainCell raise nbr dem c (b, wf) = .ok (b', wf')) :
    (b' = b ∧ wf' = wf ∧ (dem c < wf c → ∀ m, Adj nbr c m →
        ¬ raise (wf m) ≤ dem c ∧ ¬ raise (wf m) < wf c)) ∨
    (b' = true ∧ dem c < wf c ∧ ∃ m, Adj nbr c m ∧
      ((raise (wf m) ≤ dem c ∧ wf' = update wf c (dem c)) ∨
       (dem c < raise (wf m) ∧ raise (wf m) < wf c ∧ wf' = update wf c (raise (wf m))))) := by
  simp only [drainCell] at h
  split at h
  · rename_i hlt
    obtain ⟨nc, hnc, h⟩ := Res.bind_eq_ok.1 h
    have hmem := indexAll_ok hnc
    split at h
    · rename_i hlen
      cases h
      obtain ⟨m, hm⟩ := List.exists_mem_of_length_pos hlen
      simp only [List.mem_filter, decide_eq_true_eq] at hm
      exact .inr ⟨rfl, hlt, m, (hmem m).1 hm.1, .inl ⟨hm.2, rfl⟩⟩
    · rename_i hlen
      have hno : ∀ m, Adj nbr c m → ¬ raise (wf m) ≤ dem c := by
        intro m hm hle
        apply hlen
        apply List.length_pos_of_mem (a := m)
        simp only [List.mem_filter, decide_eq_true_eq]
        exact ⟨(hmem m).2 hm, hle⟩
      split at h
      · rename_i hnil
        cases h
        refine .inl ⟨rfl, rfl, fun _ m hm => ⟨hno m hm, fun hlt' => ?_⟩⟩
        rw [List.map_eq_nil_iff, List.filter_eq_nil_iff] at hnil
        exact hnil m ((hmem m).2 hm) (by simpa using hlt')
      · rename_i w ws hcons
        cases h
        have hw := foldl_max_mem w ws
        rw [← hcons] at hw
        simp only [List.mem_map, List.mem_filter, decide_eq_true_eq] at hw
        obtain ⟨m, ⟨hm1, hm2⟩, hm3⟩ := hw
        rw [← hm3]
        exact .inr ⟨rfl, hlt, m, (hmem m).1 hm1,
          .inr ⟨lt_of_not_ge (hno m ((hmem m).1 hm1)), hm2, rfl⟩⟩
  · rename_i hle
    cases h
    exact .inl ⟨rfl, rfl, fun h => absurd h hle⟩

theorem drainCell_total {raise : V → V} {nbr : Fin N → List ℕ} (hr : ∀ c, ∀ n ∈ nbr c, n < N)
    (dem : Fin N → V) (c : Fin N) (s : Bool × (Fin N → V)) :
    ∃ s', drainCell raise nbr dem c s = .ok s' := by
  simp only [drainCell]
  split
  · obtain ⟨nc, hnc⟩ := indexAll_total (hr c)
    rw [hnc, Res.bind_ok]
    split
    · exact ⟨_, rfl⟩
    · split <;> exact ⟨_, rfl⟩
  · exact ⟨_, rfl⟩

theorem foldRes_inv {α β : Type*} {f : α → β → Res β} (P : β → Prop)
    (hP : ∀ a s s', P s → f a s = .ok s' → P s') (l : List α) (s t : β) (hs : P s)
    (h : foldRes f l s = .ok t) : P t := by
  induction l generalizing s with
  | nil => cases h; exact hs
  | cons a l ih =>
    obtain ⟨s', h1, h2⟩ := Res.bind_eq_ok.1 h
    exact ih s' (hP a s s' hs h1) h2

theorem foldRes_total {α β : Type*} {f : α → β → Res β}
    (hf : ∀ a s, ∃ s', f a s = .ok s') (l : List α) (s : β) : ∃ t, foldRes f l s = .ok t := by
  induction l generalizing s with
  | nil => exact ⟨_, rfl⟩
  | cons a l ih =>
    obtain ⟨s', h⟩ := hf a s
    simp only [foldRes, h, Res.bind_ok]
    exact ih s'

/-- Anything preserved by a cell update is preserved by the whole iteration, and at the end the last
sweep modified nothing. -/
theorem drainLoop_inv {raise : V → V} {nbr : Fin N → List ℕ} {dem : Fin N → V}
    (P : (Fin N → V) → Prop)
    (hP : ∀ c b wf b' wf', P wf → drainCell raise nbr dem c (b, wf) = .ok (b', wf') → P wf')
    (fuel : ℕ) (wf t : Fin N → V) (hs : P wf) (h : drainLoop raise nbr dem fuel wf = .ok t) :
    P t ∧ ∃ w, drainSweep raise nbr dem w = .ok (false, t) := by
  induction fuel generalizing wf with
  | zero => cases h
  | succ k ih =>
    simp only [drainLoop] at h
    obtain ⟨r, h1, h2⟩ := Res.bind_eq_ok.1 h
    have hr : P r.2 := foldRes_inv (fun s => P s.2)
      (fun a s s' hs hf => hP a s.1 s.2 s'.1 s'.2 hs hf) _ _ _ hs h1
    split at h2
    · exact ih r.2 hr h2
    · rename_i hb
      cases h2
      refine ⟨hr, wf, ?_⟩
      rw [h1]
      congr 1
      exact Prod.ext (by simpa using hb) rfl

/-- A sweep that reports no modification changed nothing and found every cell settled. -/
theorem drainSweep_false {raise : V → V} {nbr : Fin N → List ℕ} {dem w t : Fin N → V}
    (h : drainSweep raise nbr dem w = .ok (false, t)) :
    w = t ∧ ∀ c m, dem c < t c → Adj nbr c m → dem c < raise (t m) ∧ t c ≤ raise (t m) := by
  have gen : ∀ (l : List (Fin N)) (s : Bool × (Fin N → V)),
      foldRes (drainCell raise nbr dem) l s = .ok (false, t) →
      s = (false, t) ∧ ∀ c ∈ l, ∀ m, dem c < t c → Adj nbr c m →
        dem c < raise (t m) ∧ t c ≤ raise (t m) := by
    intro l
    induction l with
    | nil => intro s h; cases h; exact ⟨rfl, by simp⟩
    | cons a l ih =>
      intro s h
      obtain ⟨s', h1, h2⟩ := Res.bind_eq_ok.1 h
      obtain ⟨rfl, hl⟩ := ih s' h2
      rcases drainCell_cases (b := s.1) (wf := s.2) h1 with ⟨hb, hw, hx⟩ | ⟨hb, _⟩
      · have hs : s = (false, t) := Prod.ext hb.symm hw.symm
        subst hs
        refine ⟨rfl, ?_⟩
        intro c hc m hlt ha
        rcases List.mem_cons.1 hc with rfl | hc
        · obtain ⟨x, y⟩ := hx hlt m ha
          exact ⟨lt_of_not_ge x, le_of_not_gt y⟩
        · exact hl c hc m hlt ha
      · cases hb
  obtain ⟨h1, h2⟩ := gen _ _ h
  cases h1
  exact ⟨rfl, fun c m => h2 c (List.mem_finRange c) m⟩

/-- Invariant: between the ground and the flood level, seeds at the ground, and every value is either
the flood level or justified by a path. -/
structure DrInv (raise : V → V) (flood : V) (nbr : Fin N → List ℕ) (dem : Fin N → V)
    (seed : List (Fin N)) (wf : Fin N → V) : Prop where
  ge : ∀ n, dem n ≤ wf n
  le : ∀ n, wf n ≤ flood
  seedEq : ∀ n ∈ seed, wf n = dem n
  just : ∀ n, wf n = flood ∨ ∃ v, PathRise raise nbr dem (· ∈ seed) n v ∧ v ≤ wf n

theorem drInv_init (raise : V → V) (flood : V) (nbr : Fin N → List ℕ) (dem : Fin N → V)
    (seed : List (Fin N)) (hfl : ∀ n, dem n ≤ flood) :
    DrInv raise flood nbr dem seed (drainInit flood dem seed) where
  ge n := by unfold drainInit; split <;> simp [hfl n]
  le n := by unfold drainInit; split <;> simp [hfl n]
  seedEq n hn := by simp [drainInit, hn]
  just n := by
    by_cases hn : n ∈ seed
    · right; exact ⟨_, .seed hn, by simp [drainInit, hn]⟩
    · left; simp [drainInit, hn]

theorem drInv_cell {raise : V → V} {flood : V} {nbr : Fin N → List ℕ} {dem : Fin N → V}
    {seed : List (Fin N)} (hinf : ∀ x, x ≤ raise x) (hmono : Monotone raise)
    {c : Fin N} {b b' : Bool} {wf wf' : Fin N → V} (hi : DrInv raise flood nbr dem seed wf)
    (h : drainCell raise nbr dem c (b, wf) = .ok (b', wf')) :
    DrInv raise flood nbr dem seed wf' := by
  rcases drainCell_cases h with ⟨_, rfl, _⟩ | ⟨_, hlt, m, ha, hh⟩
  · exact hi
  have hcs : c ∉ seed := fun hc => by rw [hi.seedEq c hc] at hlt; exact lt_irrefl _ hlt
  obtain ⟨x, hx1, hx2, hx3, rfl⟩ : ∃ x, dem c ≤ x ∧ x < wf c ∧ max (dem c) (raise (wf m)) = x ∧
      wf' = update wf c x := by
    rcases hh with ⟨h1, h2⟩ | ⟨h0, h1, h2⟩
    · exact ⟨dem c, le_refl _, hlt, max_eq_left h1, h2⟩
    · exact ⟨_, h0.le, h1, max_eq_right h0.le, h2⟩
  refine ⟨?_, ?_, ?_, ?_⟩
  · intro n
    by_cases hn : n = c
    · subst hn; rw [update_self]; exact hx1
    · rw [update_of_ne hn]; exact hi.ge n
  · intro n
    by_cases hn : n = c
    · subst hn; rw [update_self]; exact hx2.le.trans (hi.le n)
    · rw [update_of_ne hn]; exact hi.le n
  · intro n hns
    have hn : n ≠ c := by rintro rfl; exact hcs hns
    rw [update_of_ne hn]; exact hi.seedEq n hns
  · intro n
    by_cases hn : n = c
    · subst hn
      rw [update_self]
      right
      rcases hi.just m with h | ⟨v, hv, hle⟩
      · exfalso
        have : flood ≤ x := by
          rw [← hx3, h]; exact (hinf flood).trans (le_max_right _ _)
        exact absurd (hx2.trans_le (hi.le n)) (not_lt.2 this)
      · exact ⟨_, .step hv ha, by rw [← hx3]; exact max_le_max_left _ (hmono hle)⟩
    · rw [update_of_ne hn]; exact hi.just n

/-- Seeds and the ground bound need no assumption on the arithmetic. -/
theorem drain_basic {raise : V → V} {nbr : Fin N → List ℕ} {dem : Fin N → V} {seed : List (Fin N)}
    {c : Fin N} {b b' : Bool} {wf wf' : Fin N → V}
    (hi : (∀ n, dem n ≤ wf n) ∧ ∀ n ∈ seed, wf n = dem n)
    (h : drainCell raise nbr dem c (b, wf) = .ok (b', wf')) :
    (∀ n, dem n ≤ wf' n) ∧ ∀ n ∈ seed, wf' n = dem n := by
  rcases drainCell_cases h with ⟨_, rfl, _⟩ | ⟨_, hlt, m, ha, hh⟩
  · exact hi
  have hcs : c ∉ seed := fun hc => by rw [hi.2 c hc] at hlt; exact lt_irrefl _ hlt
  obtain ⟨x, hx1, rfl⟩ : ∃ x, dem c ≤ x ∧ wf' = update wf c x := by
    rcases hh with ⟨h1, h2⟩ | ⟨h0, h1, h2⟩
    · exact ⟨dem c, le_refl _, h2⟩
    · exact ⟨_, h0.le, h2⟩
  refine ⟨fun n => ?_, fun n hns => ?_⟩
  · by_cases hn : n = c
    · subst hn; rw [update_self]; exact hx1
    · rw [update_of_ne hn]; exact hi.1 n
  · have hn : n ≠ c := by rintro rfl; exact hcs hns
    rw [update_of_ne hn]; exact hi.2 n hns

/-! ### termination -/

/-- rank of a value in a finite set -/
noncomputable def rank (S : Finset V) (x : V) : ℕ := (S.filter (· < x)).card

theorem rank_lt {S : Finset V} {x y : V} (hx : x ∈ S) (h : x < y) : rank S x < rank S y := by
  apply Finset.card_lt_card
  rw [Finset.ssubset_iff_of_subset]
  · exact ⟨x, by simp [hx, h], by simp⟩
  · intro z hz
    simp only [Finset.mem_filter] at hz ⊢
    exact ⟨hz.1, hz.2.trans h⟩

noncomputable def totalRank (S : Finset V) (wf : Fin N → V) : ℕ := ∑ n, rank S (wf n)

theorem totalRank_update_lt {S : Finset V} {wf : Fin N → V} {c : Fin N} {x : V} (hx : x ∈ S)
    (h : x < wf c) : totalRank S (update wf c x) < totalRank S wf := by
  apply Finset.sum_lt_sum
  · intro n _
    by_cases hn : n = c
    · subst hn; rw [update_self]; exact (rank_lt hx h).le
    · rw [update_of_ne hn]
  · exact ⟨c, Finset.mem_univ c, by rw [update_self]; exact rank_lt hx h⟩

/-- All water levels that can ever occur: the ground elevations and the flood level, raised any
number of times, as long as they do not exceed the flood level. -/
def levels (raise : V → V) (flood : V) (dem : Fin N → V) : Set V :=
  {y | y ≤ flood ∧ ∃ k : ℕ, y = raise^[k] flood ∨ ∃ n, y = raise^[k] (dem n)}

theorem levels_finite {raise : V → V} {flood : V} (hfin : ∀ x, {y | y ≤ flood ∧ ∃ k : ℕ, y = raise^[k] x}.Finite)
    (dem : Fin N → V) : (levels raise flood dem).Finite := by
  have : levels raise flood dem ⊆ {y | y ≤ flood ∧ ∃ k : ℕ, y = raise^[k] flood} ∪
      ⋃ n, {y | y ≤ flood ∧ ∃ k : ℕ, y = raise^[k] (dem n)} := by
    rintro y ⟨h, k, hk | ⟨n, hk⟩⟩
    · exact .inl ⟨h, k, hk⟩
    · exact .inr (Set.mem_iUnion.2 ⟨n, h, k, hk⟩)
  exact ((hfin flood).union (Set.finite_iUnion fun n => hfin (dem n))).subset this

theorem drainLoop_terminates {raise : V → V} {flood : V} {nbr : Fin N → List ℕ}
    (hr : ∀ c, ∀ n ∈ nbr c, n < N) {dem : Fin N → V} (S : Finset V)
    (hS : ∀ y, y ∈ S ↔ y ∈ levels raise flood dem)
    (hfl : ∀ n, dem n ≤ flood) (fuel : ℕ) (wf : Fin N → V) (hwf : ∀ n, wf n ∈ S)
    (hf : totalRank S wf < fuel) : ∃ t, drainLoop raise nbr dem fuel wf = .ok t := by
  have hcell : ∀ c b wf b' wf', (∀ n, wf n ∈ S) →
      drainCell raise nbr dem c (b, wf) = .ok (b', wf') →
      (∀ n, wf' n ∈ S) ∧ ((b' = b ∧ wf' = wf) ∨ (b' = true ∧ totalRank S wf' < totalRank S wf)) := by
    intro c b wf b' wf' hw h
    rcases drainCell_cases h with ⟨h1, h2, _⟩ | ⟨hb, hlt, m, ha, hh⟩
    · exact ⟨by rw [h2]; exact hw, .inl ⟨h1, h2⟩⟩
    obtain ⟨x, hx1, hx2, rfl⟩ : ∃ x, x ∈ S ∧ x < wf c ∧ wf' = update wf c x := by
      rcases hh with ⟨h1, h2⟩ | ⟨h0, h1, h2⟩
      · refine ⟨dem c, (hS _).2 ⟨hfl c, 0, .inr ⟨c, rfl⟩⟩, hlt, h2⟩
      · refine ⟨_, ?_, h1, h2⟩
        have hm := (hS _).1 (hw m)
        refine (hS _).2 ⟨h1.le.trans ((hS _).1 (hw c)).1, ?_⟩
        obtain ⟨_, k, hk | ⟨n, hk⟩⟩ := hm
        · exact ⟨k + 1, .inl (by rw [iterate_succ_apply', hk])⟩
        · exact ⟨k + 1, .inr ⟨n, by rw [iterate_succ_apply', hk]⟩⟩
    refine ⟨?_, .inr ⟨hb, totalRank_update_lt hx1 hx2⟩⟩
    intro n
    by_cases hn : n = c
    · subst hn; rw [update_self]; exact hx1
    · rw [update_of_ne hn]; exact hw n
  induction fuel generalizing wf with
  | zero => omega
  | succ k ih =>
    obtain ⟨r, h1⟩ := foldRes_total (drainCell_total (raise := raise) hr dem) (List.finRange N) (false, wf)
    have hinv := foldRes_inv (fun s => (∀ n, s.2 n ∈ S) ∧ totalRank S s.2 ≤ totalRank S wf ∧
        (s.1 = true → totalRank S s.2 < totalRank S wf))
      (fun a s s' hs hf => by
        obtain ⟨h1, h2⟩ := hcell a s.1 s.2 s'.1 s'.2 hs.1 hf
        refine ⟨h1, ?_⟩
        rcases h2 with ⟨h2, h3⟩ | ⟨h2, h3⟩
        · rw [h2, h3]; exact hs.2
        · exact ⟨h3.le.trans hs.2.1, fun _ => h3.trans_le hs.2.1⟩) _ _ _
      ⟨hwf, le_refl _, by simp⟩ h1
    simp only [drainLoop]
    rw [show drainSweep raise nbr dem wf = .ok r from h1, Res.bind_ok]
    split
    · rename_i hb
      have := hinv.2.2 hb
      exact ih r.2 hinv.1 (by omega)
    · exact ⟨_, rfl⟩

theorem drainLoop_mono {raise : V → V} {nbr : Fin N → List ℕ} {dem : Fin N → V}
    (fuel k : ℕ) (wf t : Fin N → V) (h : drainLoop raise nbr dem fuel wf = .ok t) :
    drainLoop raise nbr dem (fuel + k) wf = .ok t := by
  induction fuel generalizing wf with
  | zero => cases h
  | succ m ih =>
    rw [Nat.succ_add]
    simp only [drainLoop] at h ⊢
    obtain ⟨r, h1, h2⟩ := Res.bind_eq_ok.1 h
    rw [h1, Res.bind_ok]
    split at h2
    · rename_i hb; rw [if_pos hb]; exact ih _ h2
    · rename_i hb; rw [if_neg hb]; exact h2

end Dany.Flood
