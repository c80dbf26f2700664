import Verif.Dirs.Term

/-!
# The loop over the cells
-/

namespace Dany.Dirs

open Function

variable {N : ℕ} {A : Fin N → List (Entry N)} {frow : Fin N → List (Entry N)} {fuel : ℕ}
  {valid : Fin N → Bool}

/-- the values the loop stores for cells with an elevation -/
def Ch (A : Fin N → List (Entry N)) (n : Fin N) (v : ℤ) : Prop :=
  v = -2 ∨ ∃ e ∈ A n, v = code e

theorem code_nonneg (e : Entry N) : 0 ≤ code e := by
  cases e <;> simp [code]

theorem Ch.ne {n : Fin N} {v : ℤ} (h : Ch A n v) : v ≠ -1 := by
  rcases h with rfl | ⟨e, _, rfl⟩
  · decide
  · have := code_nonneg e; omega

/-- invariant: the candidates are original candidates; single candidates are never dropped -/
structure FInv (A : Fin N → List (Entry N)) (fc : Fin N → List (Entry N)) : Prop where
  sub : ∀ n, (fc n).Sublist (A n)
  one : ∀ n, (A n).length ≤ 1 → fc n = A n

/-- what one iteration may do -/
structure Step (frow A : Fin N → List (Entry N)) (valid : Fin N → Bool) (ix : Fin N) (s s' : State N) :
    Prop where
  inv : FInv A s'.fc
  change : ∀ n, s'.fdir n = s.fdir n ∨
    (n = ix ∧ valid ix = false ∧ s'.fdir n = ((n : ℕ) : ℤ)) ∨
    (valid ix = true ∧ s.fdir ix = -1 ∧ (n = ix ∨ ∃ p, some n ∈ A p) ∧ Ch A n (s'.fdir n))
  done : N < 1000000 ∨ valid ix = false → s'.fdir ix ≠ -1
  keep : ∀ t, s.fdir t ≠ -1 ∧ s.fdir t ≠ -2 → (s.fdir ix = -1 → valid ix = true → some t ∈ A ix → Soft frow (A ix)) →
    s'.fdir t = s.fdir t

theorem step_refl {s : State N} {ix : Fin N} (hf : FInv A s.fc) (h : s.fdir ix ≠ -1) :
    Step frow A valid ix s s :=
  ⟨hf, fun _ => .inl rfl, fun _ => h, fun _ _ _ => rfl⟩

theorem step_update {s : State N} {ix : Fin N} (hf : FInv A s.fc) (h : s.fdir ix = -1)
    (hv : valid ix = true) {a : Entry N} (ha : a ∈ A ix) :
    Step frow A valid ix s { s with fdir := update s.fdir ix (code a) } := by
  refine ⟨hf, fun n => ?_, fun _ => ?_, fun t ht _ => ?_⟩
  · by_cases hn : n = ix
    · right; right
      subst hn
      exact ⟨hv, h, .inl rfl, .inr ⟨a, ha, by simp⟩⟩
    · left; simp [hn]
  · have := code_nonneg a
    simp only [update_self]; omega
  · have : t ≠ ix := by rintro rfl; exact ht.1 h
    simp [this]

theorem choose_spec {s s' : State N} {ix : Fin N} {cont : Bool} (hf : FInv A s.fc)
    (h1 : s.fdir ix = -1) (hv : valid ix = true) (hcont : Soft frow (s.fc ix) → 1 < (s.fc ix).length → cont = true)
    (h : choose fuel s ix cont = .ok s') :
    Step frow A valid ix s s' := by
  unfold choose at h
  split at h
  · rename_i a hfc
    simp only [Res.ok.injEq] at h
    subst h
    exact step_update hf h1 hv ((hf.sub ix).subset (by rw [hfc]; simp))
  · rename_i a _ hfc
    simp only [Res.ok.injEq] at h
    subst h
    exact step_update hf h1 hv ((hf.sub ix).subset (by rw [hfc]; simp))
  · rename_i _ _ c hfc
    simp only [Res.ok.injEq] at h
    subst h
    exact step_update hf h1 hv ((hf.sub ix).subset (by rw [hfc]; simp))
  · rename_i hn1 hn2 hn3
    obtain ⟨conns, hcon, h⟩ := Res.bind_eq_ok.1 h
    obtain ⟨f', hf', rfl⟩ := Res.map_eq_ok.1 h
    have hc : ∀ c ∈ conns, some c ∈ A ix := fun c hc => (hf.sub ix).subset (by
      rw [reals_mem hcon]; exact List.mem_map.2 ⟨c, hc, rfl⟩)
    obtain ⟨i1, i2⟩ := search_spec (A := A) (fun n => (hf.sub n).subset) hc hf'
    have hch : ∀ n v, (v = -2 ∨ ∃ m, some m ∈ A n ∧ v = ((m : ℕ) : ℤ)) → Ch A n v := by
      rintro n v (h | ⟨m, h, h'⟩)
      · exact .inl h
      · exact .inr ⟨some m, h, h'⟩
    refine ⟨hf, fun n => ?_, ?_, fun t ht htie => ?_⟩
    · rcases i1 n with h | ⟨h, h'⟩
      · exact .inl h
      · exact .inr (.inr ⟨hv, h1, h, hch _ _ h'⟩)
    · rintro (h | h)
      · exact (hch _ _ (i2 h)).ne
      · rw [hv] at h; cases h
    · refine search_keep ht (by rintro rfl; exact ht.1 h1) ?_ hf'
      intro hin
      have hso := (htie h1 hv (hc t hin)).sub (hf.sub ix)
      have hsome : some t ∈ s.fc ix := by
        rw [reals_mem hcon]; exact List.mem_map.2 ⟨t, hin, rfl⟩
      have hfew := hso.few
      rcases hAi : s.fc ix with _ | ⟨a, _ | ⟨b, _ | ⟨c, _ | ⟨d, l⟩⟩⟩⟩
      · rw [hAi] at hsome; cases hsome
      · exact hn1 a hAi
      · exact hn2 a b hAi (hcont hso (by simp [hAi]))
      · exact hn3 a b c hAi (hcont hso (by simp [hAi]))
      · rw [hAi] at hfew; simp at hfew

theorem cellStep_spec {s s' : State N} {ix : Fin N} (hf : FInv A s.fc)
    (h : cellStep frow fuel valid (.ok s) ix = .ok s') : Step frow A valid ix s s' := by
  unfold cellStep at h
  simp only [Res.bind_ok] at h
  split at h
  · rename_i hne
    simp only [Res.ok.injEq] at h
    subst h
    exact step_refl hf hne
  · rename_i h1
    have h1 := not_not.1 h1
    split at h
    · rename_i hv
      simp only [Res.ok.injEq] at h
      subst h
      refine ⟨hf, fun n => ?_, fun _ => ?_, fun t ht _ => ?_⟩
      · by_cases hn : n = ix
        · right; left
          subst hn
          exact ⟨rfl, hv, by simp⟩
        · left; simp [hn]
      · simp only [update_self]; omega
      · have : t ≠ ix := by rintro rfl; exact ht.1 h1
        simp [this]
    · rename_i hv
      have hv : valid ix = true := by simpa using hv
      split at h
      · rename_i hlen
        obtain ⟨l, hl, h⟩ := Res.bind_eq_ok.1 h
        have hl' := reals_mem hl
        have hf2 : FInv A (update s.fc ix
            ((l.filter (fun t => s.fdir t ≠ ((ix : ℕ) : ℤ))).map some)) := by
          refine ⟨fun n => ?_, fun n hn => ?_⟩
          · by_cases hnx : n = ix
            · subst hnx
              simp only [update_self]
              refine List.Sublist.trans ?_ (hf.sub n)
              rw [hl']
              exact List.filter_sublist.map _
            · rw [update_of_ne hnx]; exact hf.sub n
          · by_cases hnx : n = ix
            · subst hnx
              have := (hf.sub n).length_le
              omega
            · rw [update_of_ne hnx]; exact hf.one n hn
        have hback : ∀ s2 : State N, Step frow A valid ix
            ⟨s.fdir, update s.fc ix ((l.filter (fun t => s.fdir t ≠ ((ix : ℕ) : ℤ))).map some)⟩ s2 →
            Step frow A valid ix s s2 := fun s2 hs => ⟨hs.inv, hs.change, hs.done, hs.keep⟩
        split at h
        · rename_i hlong
          obtain ⟨c, hc, h⟩ := Res.bind_eq_ok.1 h
          refine hback _ (choose_spec (s := ⟨_, _⟩) hf2 h1 hv (fun hso _ => ?_) h)
          simp only [update_self] at hso
          exact continuous_soft hso (by rintro hnil; rw [hnil] at hlong; simp at hlong) hc
        · rename_i hlong
          refine hback _ (choose_spec (s := ⟨_, _⟩) hf2 h1 hv (fun _ hl2 => ?_) h)
          simp only [update_self, List.length_map] at hl2
          exact absurd hl2 hlong
      · rename_i hlong
        exact choose_spec hf h1 hv (fun _ hl2 => absurd hl2 hlong) h

/-- a cell with a single candidate flows to it -/
theorem cellStep_one {s : State N} {ix : Fin N} (hf : FInv A s.fc) (h1 : s.fdir ix = -1)
    (hv : valid ix = true) {a : Entry N} (ha : A ix = [a]) :
    cellStep frow fuel valid (.ok s) ix = .ok { s with fdir := update s.fdir ix (code a) } := by
  have hfc : s.fc ix = [a] := by rw [hf.one ix (by simp [ha]), ha]
  unfold cellStep
  simp only [Res.bind_ok]
  rw [if_neg (not_not.2 h1), if_neg (by simp [hv]), if_neg (by simp [hfc])]
  simp [choose, hfc]

/-- enough fuel for one iteration -/
def bound (A : Fin N → List (Entry N)) (ix : Fin N) : ℕ := (A ix).length + weight A [] + 2 * N + 3

theorem weight_le {fc : Fin N → List (Entry N)} (hf : FInv A fc) : weight fc [] ≤ weight A [] := by
  unfold weight
  refine Finset.sum_le_sum (fun c _ => ?_)
  simpa using (hf.sub c).length_le

theorem choose_ok {s : State N} {ix : Fin N} (cont : Bool) (hf : FInv A s.fc)
    (hp : ∀ p c, some c ∈ A p → none ∉ A c) (hx : none ∉ A ix) :
    ∃ s', ∀ fuel, bound A ix ≤ fuel → choose fuel s ix cont = .ok s' := by
  have hw := weight_le hf
  have hl := (hf.sub ix).length_le
  have hno : none ∉ s.fc ix := fun h => hx ((hf.sub ix).subset h)
  obtain ⟨conns, hcon⟩ := reals_ok hno
  have hcl : (s.fc ix).length = conns.length := by rw [reals_mem hcon]; simp
  have hc : ∀ c ∈ conns, some c ∈ A ix := fun c hc => (hf.sub ix).subset (by
      rw [reals_mem hcon]; exact List.mem_map.2 ⟨c, hc, rfl⟩)
  obtain ⟨f', hf'⟩ := search_ok (A := A) (fdir := s.fdir) (ix := ix) (fun n => (hf.sub n).subset) hp hc
  unfold bound choose
  split
  · exact ⟨_, fun _ _ => rfl⟩
  · exact ⟨_, fun _ _ => rfl⟩
  · exact ⟨_, fun _ _ => rfl⟩
  · refine ⟨{ s with fdir := f' }, fun fuel h => ?_⟩
    rw [hcon]
    simp only [Res.bind_ok]
    rw [hf' fuel (by omega)]
    rfl

theorem cellStep_ok {s : State N} {ix : Fin N} (hf : FInv A s.fc)
    (hp : ∀ p c, some c ∈ A p → none ∉ A c) (hx : valid ix = true → none ∉ A ix) :
    ∃ s', ∀ fuel, bound A ix ≤ fuel → cellStep frow fuel valid (.ok s) ix = .ok s' := by
  unfold cellStep
  simp only [Res.bind_ok]
  by_cases h1 : s.fdir ix ≠ -1
  · exact ⟨s, fun _ _ => by rw [if_pos h1]⟩
  · by_cases hv : valid ix = false
    · exact ⟨_, fun _ _ => by rw [if_neg h1, if_pos hv]⟩
    · have hx := hx (by simpa using hv)
      by_cases hlen : (s.fc ix).length > 1
      · have hno : none ∉ s.fc ix := fun h => hx ((hf.sub ix).subset h)
        obtain ⟨l, hl⟩ := reals_ok hno
        have hl' := reals_mem hl
        have hf2 : FInv A (update s.fc ix
            ((l.filter (fun t => s.fdir t ≠ ((ix : ℕ) : ℤ))).map some)) := by
          refine ⟨fun n => ?_, fun n hn => ?_⟩
          · by_cases hnx : n = ix
            · subst hnx
              simp only [update_self]
              refine List.Sublist.trans ?_ (hf.sub n)
              rw [hl']
              exact List.filter_sublist.map _
            · rw [update_of_ne hnx]; exact hf.sub n
          · by_cases hnx : n = ix
            · subst hnx
              have := (hf.sub n).length_le
              omega
            · rw [update_of_ne hnx]; exact hf.one n hn
        by_cases hl2 : (l.filter (fun t => s.fdir t ≠ ((ix : ℕ) : ℤ))).length > 1
        · obtain ⟨c, hc⟩ := continuous_ok frow (l.filter (fun t => s.fdir t ≠ ((ix : ℕ) : ℤ)))
          obtain ⟨s', hs'⟩ := choose_ok (s := ⟨s.fdir, update s.fc ix
            ((l.filter (fun t => s.fdir t ≠ ((ix : ℕ) : ℤ))).map some)⟩) (ix := ix) c hf2 hp hx
          refine ⟨s', fun fuel h => ?_⟩
          rw [if_neg h1, if_neg hv, if_pos hlen, hl]
          simp only [Res.bind_ok]
          rw [if_pos hl2, hc fuel ?_]
          · exact hs' fuel h
          · have e1 := List.length_filter_le (fun t => decide (s.fdir t ≠ ((ix : ℕ) : ℤ))) l
            have e2 := (hf.sub ix).length_le
            rw [hl', List.length_map] at e2
            unfold bound at h
            omega
        · obtain ⟨s', hs'⟩ := choose_ok (s := ⟨s.fdir, update s.fc ix
            ((l.filter (fun t => s.fdir t ≠ ((ix : ℕ) : ℤ))).map some)⟩) (ix := ix) false hf2 hp hx
          refine ⟨s', fun fuel h => ?_⟩
          rw [if_neg h1, if_neg hv, if_pos hlen, hl]
          simp only [Res.bind_ok]
          rw [if_neg hl2]
          exact hs' fuel h
      · obtain ⟨s', hs'⟩ := choose_ok (s := s) (ix := ix) false hf hp hx
        refine ⟨s', fun fuel h => ?_⟩
        rw [if_neg h1, if_neg hv, if_neg hlen]
        exact hs' fuel h

/-! ### The whole loop -/

theorem foldl_not_ok (l : List (Fin N)) (r : Res (State N)) (hr : ∀ s, r ≠ .ok s) (s : State N) :
    l.foldl (cellStep frow fuel valid) r ≠ .ok s := by
  induction l generalizing r with
  | nil => exact hr s
  | cons a l ih =>
    simp only [List.foldl_cons]
    apply ih
    intro s' h
    unfold cellStep at h
    obtain ⟨s'', h', _⟩ := Res.bind_eq_ok.1 h
    exact hr s'' h'

/-- induction over the loop -/
theorem loop_ind {P : State N → Prop} (l : List (Fin N)) (s s' : State N)
    (hf : FInv A s.fc) (hP : P s) (hstep : ∀ s ix s', P s → Step frow A valid ix s s' → P s')
    (h : l.foldl (cellStep frow fuel valid) (.ok s) = .ok s') : FInv A s'.fc ∧ P s' := by
  induction l generalizing s with
  | nil =>
    simp only [List.foldl_nil, Res.ok.injEq] at h
    subst h; exact ⟨hf, hP⟩
  | cons a l ih =>
    simp only [List.foldl_cons] at h
    cases hc : cellStep frow fuel valid (.ok s) a with
    | ok s1 =>
      rw [hc] at h
      have hst := cellStep_spec hf hc
      exact ih s1 hst.inv (hstep _ _ _ hP hst) h
    | err e => rw [hc] at h; exact absurd h (foldl_not_ok l _ (by simp) s')
    | hang => rw [hc] at h; exact absurd h (foldl_not_ok l _ (by simp) s')

theorem loop_done (l : List (Fin N)) (s s' : State N) (hf : FInv A s.fc)
    (h : l.foldl (cellStep frow fuel valid) (.ok s) = .ok s') (n : Fin N) (hn : n ∈ l)
    (hN : N < 1000000 ∨ valid n = false) : s'.fdir n ≠ -1 := by
  induction l generalizing s with
  | nil => cases hn
  | cons a l ih =>
    simp only [List.foldl_cons] at h
    cases hc : cellStep frow fuel valid (.ok s) a with
    | ok s1 =>
      rw [hc] at h
      have hst := cellStep_spec hf hc
      by_cases hna : n = a
      · subst hna
        refine (loop_ind (A := A) (valid := valid) (P := fun s => s.fdir n ≠ -1) l s1 s' hst.inv
          (hst.done hN) ?_ h).2
        intro s ix s' hP hs
        rcases hs.change n with h | ⟨_, _, h⟩ | ⟨_, _, _, h⟩
        · rw [h]; exact hP
        · rw [h]; omega
        · exact h.ne
      · exact ih s1 hst.inv h ((List.mem_cons.1 hn).resolve_left hna)
    | err e => rw [hc] at h; exact absurd h (foldl_not_ok l _ (by simp) s')
    | hang => rw [hc] at h; exact absurd h (foldl_not_ok l _ (by simp) s')

theorem loop_ok (l : List (Fin N)) (s : State N) (hf : FInv A s.fc)
    (hp : ∀ p c, some c ∈ A p → none ∉ A c) (hx : ∀ n, valid n = true → none ∉ A n) :
    ∃ B s', ∀ fuel, B ≤ fuel → l.foldl (cellStep frow fuel valid) (.ok s) = .ok s' := by
  induction l generalizing s with
  | nil => exact ⟨0, s, fun _ _ => rfl⟩
  | cons a l ih =>
    obtain ⟨s1, h1⟩ := cellStep_ok (frow := frow) (valid := valid) hf hp (hx a)
    obtain ⟨B, s', h2⟩ := ih s1 (cellStep_spec hf (h1 _ le_rfl)).inv
    refine ⟨max B (bound A a), s', fun fuel h => ?_⟩
    simp only [List.foldl_cons]
    rw [h1 fuel ((le_max_right _ _).trans h)]
    exact h2 fuel ((le_max_left _ _).trans h)

/-- Without ties every cell with an elevation that is still open flows to its candidate. -/
theorem loop_one (hone : ∀ n, valid n = true → ∃ a, A n = [a]) (l : List (Fin N)) :
    ∀ s s' : State N, FInv A s.fc → l.Nodup →
    l.foldl (cellStep frow fuel valid) (.ok s) = .ok s' → ∀ n,
    s'.fdir n = if n ∈ l ∧ s.fdir n = -1 then
      (if valid n = true then (match A n with | [a] => code a | _ => -1) else ((n : ℕ) : ℤ))
      else s.fdir n := by
  induction l with
  | nil =>
    intro s s' _ _ h n
    simp only [List.foldl_nil, Res.ok.injEq] at h
    subst h; simp
  | cons a l ih =>
    intro s s' hf hnd h n
    simp only [List.foldl_cons] at h
    obtain ⟨hal, hnd⟩ := List.nodup_cons.1 hnd
    have hs1 : ∃ s1 : State N, FInv A s1.fc ∧ cellStep frow fuel valid (.ok s) a = .ok s1 ∧
        s1.fdir = if s.fdir a = -1 then update s.fdir a
          (if valid a = true then (match A a with | [a] => code a | _ => -1) else ((a : ℕ) : ℤ))
          else s.fdir := by
      by_cases h1 : s.fdir a = -1
      · cases hv : valid a with
        | true =>
          obtain ⟨e, he⟩ := hone a hv
          have := cellStep_one (frow := frow) (fuel := fuel) hf h1 hv he
          refine ⟨_, (cellStep_spec hf this).inv, this, ?_⟩
          simp [h1, he]
        | false =>
          refine ⟨{ s with fdir := update s.fdir a ((a : ℕ) : ℤ) }, hf, ?_, ?_⟩
          · simp [cellStep, h1, hv]
          · simp [h1]
      · refine ⟨s, hf, ?_, by simp [h1]⟩
        simp [cellStep, h1]
    obtain ⟨s1, hf1, hc, he⟩ := hs1
    rw [hc] at h
    rw [ih s1 s' hf1 hnd h n]
    by_cases hn : n = a
    · subst hn
      rw [if_neg (by tauto)]
      rw [he]
      by_cases h1 : s.fdir n = -1
      · simp [h1]
      · simp [h1]
    · have : s1.fdir n = s.fdir n := by
        rw [he]
        split
        · rw [update_of_ne hn]
        · rfl
      rw [this]
      simp [hn]

end Dany.Dirs
