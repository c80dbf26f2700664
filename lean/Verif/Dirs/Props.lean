import Verif.Dirs.Loop
import Verif.Flood.Props
import Mathlib.Logic.Relation
import Mathlib.Data.Fin.VecNotation
import Mathlib.Data.Rat.Defs

/-!
# Flow directions: C21–C29
-/

namespace Dany.Dirs

open Function

variable {N : ℕ} {K : Type*} [Field K] [LinearOrder K]

/-! ### The start of the loop -/

theorem setMin_ok {l : List (Entry N)} {f f' : Fin N → ℤ} (h : setMin l f = .ok f') :
    none ∉ l ∧ ∀ n, f' n = if some n ∈ l then ((n : ℕ) : ℤ) else f n := by
  induction l generalizing f with
  | nil =>
    simp only [setMin, Res.ok.injEq] at h
    subst h; simp
  | cons e l ih =>
    cases e with
    | none => simp [setMin] at h
    | some c =>
      obtain ⟨h1, h2⟩ := ih h
      refine ⟨by simpa using h1, fun n => ?_⟩
      rw [h2]
      by_cases hn : n = c
      · subst hn; simp
      · simp [hn]

theorem setMin_of {l : List (Entry N)} (f : Fin N → ℤ) (h : none ∉ l) : ∃ f', setMin l f = .ok f' := by
  induction l generalizing f with
  | nil => exact ⟨f, rfl⟩
  | cons e l ih =>
    simp only [List.mem_cons, not_or] at h
    cases e with
    | none => exact absurd rfl h.1
    | some c => exact ih _ h.2

theorem pyIndex_fin (n : Fin N) : pyIndex N ((n : ℕ) : ℤ) = .ok n := by
  unfold pyIndex
  rw [dif_pos (by have := n.isLt; omega)]
  congr

theorem setTerminals_spec {l : List ℤ} (hl : InRange N l) (f : Fin N → ℤ) :
    ∃ f', setTerminals l f = .ok f' ∧
      ∀ n : Fin N, f' n = if ((n : ℕ) : ℤ) ∈ l then ((n : ℕ) : ℤ) else f n := by
  induction l generalizing f with
  | nil => exact ⟨f, rfl, by simp⟩
  | cons t l ih =>
    obtain ⟨h0, h1⟩ := hl t (by simp)
    obtain ⟨c, rfl⟩ : ∃ c : Fin N, t = ((c : ℕ) : ℤ) :=
      ⟨⟨t.toNat, by omega⟩, by simp; omega⟩
    obtain ⟨f', i1, i2⟩ := ih (fun t ht => hl t (List.mem_cons_of_mem _ ht))
      (update f c ((c : ℕ) : ℤ))
    refine ⟨f', by simp only [setTerminals]; rw [pyIndex_fin]; exact i1, fun n => ?_⟩
    rw [i2]
    by_cases hn : n = c
    · subst hn; simp
    · have : ((n : ℕ) : ℤ) ≠ ((c : ℕ) : ℤ) := fun h => hn (Fin.ext (by omega))
      simp [hn, this]

theorem none_mem_minCells {dem : Fin N → Option K} {big : K} :
    none ∈ minCells dem big ↔ ∀ n v, dem n = some v → big ≤ v := by
  unfold minCells
  rw [mem_fcell]
  constructor
  · rintro ⟨_, s, hs, h⟩ n v hv
    simp only [Option.some.injEq] at hs
    subst hs
    exact h (some n) (by simp) v hv
  · intro h
    refine ⟨by simp, big, rfl, fun e _ s hs => ?_⟩
    cases e with
    | none => simp only [Option.some.injEq] at hs; exact hs.le
    | some n => exact h n s hs

theorem some_mem_minCells {dem : Fin N → Option K} {big : K} {n : Fin N} :
    some n ∈ minCells dem big ↔ ∃ v, dem n = some v ∧ v ≤ big ∧ ∀ m w, dem m = some w → v ≤ w := by
  unfold minCells
  rw [mem_fcell]
  constructor
  · rintro ⟨_, s, hs, h⟩
    exact ⟨s, hs, h none (by simp) big rfl, fun m w hw => h (some m) (by simp) w hw⟩
  · rintro ⟨v, hv, h1, h2⟩
    refine ⟨by simp, v, hv, fun e _ s hs => ?_⟩
    cases e with
    | none => simp only [Option.some.injEq] at hs; rw [← hs]; exact h1
    | some m => exact h2 m s hs

variable {G : Geo N K} {dem : Fin N → Option K} {thr big : K} {nbr : Fin N → List (Fin N)}
  {terminals : List ℤ} {fuel : ℕ} {out : Fin N → ℤ}

theorem run_spec (hr : InRange N terminals)
    (h : flowDirections fuel G dem big (table nbr) thr terminals = .ok out) :
    ∃ s0 s' : State N, s0.fc = fc0 G dem thr big nbr ∧
      (∀ n, (Terminal dem terminals n ∧ s0.fdir n = ((n : ℕ) : ℤ)) ∨
        (¬ Terminal dem terminals n ∧ s0.fdir n = -1)) ∧
      (List.finRange N).foldl (cellStep (pad (table nbr)) fuel (fun n => (dem n).isSome)) (.ok s0) = .ok s' ∧
      s'.fdir = out := by
  unfold flowDirections at h
  obtain ⟨f0, h0, h⟩ := Res.bind_eq_ok.1 h
  obtain ⟨f1, h1, h⟩ := Res.bind_eq_ok.1 h
  obtain ⟨fc, hfc, h⟩ := Res.bind_eq_ok.1 h
  obtain ⟨s', hs', rfl⟩ := Res.map_eq_ok.1 h
  obtain ⟨e1, e2⟩ := setMin_ok h0
  obtain ⟨f1', e3, e4⟩ := setTerminals_spec hr f0
  rw [h1] at e3
  simp only [Res.ok.injEq] at e3
  subst e3
  refine ⟨⟨f1, fc⟩, s', ?_, fun n => ?_, hs', rfl⟩
  · unfold fcells at hfc
    split at hfc
    · cases hfc
    · simp only [Res.ok.injEq] at hfc
      exact hfc.symm
  · dsimp only
    rw [e4, e2]
    by_cases ht : ((n : ℕ) : ℤ) ∈ terminals
    · left; exact ⟨.inr ht, by simp [ht]⟩
    · by_cases hm : some n ∈ minCells dem big
      · left
        obtain ⟨v, hv, _, hle⟩ := some_mem_minCells.1 hm
        exact ⟨.inl ⟨v, hv, hle⟩, by simp [ht, hm]⟩
      · right
        refine ⟨?_, by simp [ht, hm]⟩
        rintro (⟨v, hv, hle⟩ | h)
        · rw [none_mem_minCells] at e1
          push Not at e1
          obtain ⟨m, w, hw, hlt⟩ := e1
          exact hm (some_mem_minCells.2 ⟨v, hv, (hle m w hw).trans hlt.le, hle⟩)
        · exact ht h

theorem fc0_inv : FInv (fc0 G dem thr big nbr) (fc0 G dem thr big nbr) :=
  ⟨fun _ => List.Sublist.refl _, fun _ _ => rfl⟩

/-- what the result of a run can be at a cell -/
theorem run_values (hr : InRange N terminals)
    (h : flowDirections fuel G dem big (table nbr) thr terminals = .ok out) (n : Fin N) :
    (out n = -1 ∧ 1000000 ≤ N ∧ dem n ≠ none) ∨ out n = -2 ∨
    (out n = ((n : ℕ) : ℤ) ∧ (Terminal dem terminals n ∨ dem n = none)) ∨
    ∃ e ∈ fc0 G dem thr big nbr n, out n = code e := by
  obtain ⟨s0, s', hfc, h0, hl, rfl⟩ := run_spec hr h
  have hf : FInv (fc0 G dem thr big nbr) s0.fc := by rw [hfc]; exact fc0_inv
  have key := (loop_ind (A := fc0 G dem thr big nbr) (P := fun s => s.fdir n = -1 ∨ s.fdir n = -2 ∨
    (s.fdir n = ((n : ℕ) : ℤ) ∧ (Terminal dem terminals n ∨ dem n = none)) ∨
    ∃ e ∈ fc0 G dem thr big nbr n, s.fdir n = code e) _ s0 s' hf (by
      rcases h0 n with ⟨h1, h2⟩ | ⟨_, h2⟩
      · right; right; left; exact ⟨h2, .inl h1⟩
      · left; exact h2) (by
      intro s ix s'' hP hst
      rcases hst.change n with hc | ⟨h1, h2, h3⟩ | ⟨_, _, _, h4⟩
      · rw [hc]; exact hP
      · right; right; left
        refine ⟨h3, .inr ?_⟩
        rw [← h1] at h2
        simpa using h2
      · right
        rcases h4 with h4 | h4
        · exact .inl h4
        · exact .inr (.inr h4)) hl).2
  rcases key with h1 | h1
  · left
    have hd := loop_done (A := fc0 G dem thr big nbr) _ s0 s' hf hl n (List.mem_finRange n)
    refine ⟨h1, ?_, ?_⟩
    · by_contra hlt
      exact hd (.inl (by omega)) h1
    · intro hn
      exact hd (.inr (by simp [hn])) h1
  · exact .inr h1

/-! ### C21 -/

/-- **C21**, as far as it holds: after `flow_directions` (fewer than a million cells) every cell holds
its own number — only terminal cells and cells without elevation do —, the sink code −2, the number of one
of its neighbours, or the number `N`, which is no cell: this last only at a cell none of whose neighbours
lies in a direction of slope below 1e10. -/
theorem C21_values (hr : InRange N terminals) (hN : N < 1000000)
    (h : flowDirections fuel G dem big (table nbr) thr terminals = .ok out) (n : Fin N) :
    (out n = ((n : ℕ) : ℤ) ∧ (Terminal dem terminals n ∨ dem n = none)) ∨ out n = -2 ∨
    (∃ m ∈ nbr n, out n = ((m : ℕ) : ℤ)) ∨
    (out n = N ∧ ∀ m ∈ nbr n, ∀ s, Slope G dem thr n m s → big ≤ s) := by
  rcases run_values hr h n with ⟨_, h1, _⟩ | h1 | h1 | ⟨e, he, h1⟩
  · omega
  · exact .inr (.inl h1)
  · exact .inl h1
  · cases e with
    | none => exact .inr (.inr (.inr ⟨h1, none_mem_fc0 he⟩))
    | some m => exact .inr (.inr (.inl ⟨m, (steepest_of_mem_fc0 he).1, h1⟩))

/-- **C21** for DEMs in which every cell with an elevation has a neighbour with an elevation. -/
theorem C21_legal_partial (hr : InRange N terminals) (hN : N < 1000000)
    (hb : Below G dem thr big nbr) (hn : HasNbr dem nbr)
    (h : flowDirections fuel G dem big (table nbr) thr terminals = .ok out) (n : Fin N) :
    out n = ((n : ℕ) : ℤ) ∨ out n = -2 ∨ ∃ m ∈ nbr n, out n = ((m : ℕ) : ℤ) := by
  rcases C21_values hr hN h n with ⟨h1, _⟩ | h1 | h1 | ⟨h1, h2⟩
  · exact .inl h1
  · exact .inr (.inl h1)
  · exact .inr (.inr h1)
  · cases hv : dem n with
    | none =>
      rcases run_values hr h n with ⟨h3, _⟩ | h3 | ⟨h3, _⟩ | ⟨e, he, h3⟩
      · omega
      · exact .inr (.inl h3)
      · exact .inl h3
      · cases e with
        | none =>
          have := (mem_fcell.1 he).2
          -- a cell without elevation is set to itself
          obtain ⟨s0, s', hfc, h0, hl, rfl⟩ := run_spec hr h
          have hf : FInv (fc0 G dem thr big nbr) s0.fc := by rw [hfc]; exact fc0_inv
          have key := (loop_ind (A := fc0 G dem thr big nbr)
            (P := fun s => s.fdir n = -1 ∨ s.fdir n = ((n : ℕ) : ℤ)) _ s0 s' hf (by
              rcases h0 n with ⟨_, h2⟩ | ⟨_, h2⟩
              · exact .inr h2
              · exact .inl h2) (by
              intro s ix s'' hP hst
              rcases hst.change n with hc | ⟨_, _, h3⟩ | ⟨h3, _, h4 | ⟨p, h4⟩, _⟩
              · rw [hc]; exact hP
              · exact .inr h3
              · rw [← h4, hv] at h3; cases h3
              · exact absurd hv (steepest_of_mem_fc0 h4).valid.2) hl).2
          rcases key with h5 | h5
          · omega
          · exact .inl h5
        | some m => exact absurd hv (steepest_of_mem_fc0 he).valid.1
    | some v =>
      obtain ⟨m, hm, hm'⟩ := hn n (by simp [hv])
      obtain ⟨s, hs⟩ := exists_slope (G := G) (thr := thr) (n := n) (m := m) (by simp [hv]) hm'
      exact absurd (h2 m hm s hs) (not_le.2 (hb n m hm s hs))

/-! ### C22 -/

/-- **C22.** If a cell flows to another cell, this is one of its neighbours, and no neighbour lies in a
steeper direction. -/
theorem C22_steepest (hr : InRange N terminals)
    (h : flowDirections fuel G dem big (table nbr) thr terminals = .ok out) {n m : Fin N}
    (hm : out n = ((m : ℕ) : ℤ)) (hne : m ≠ n) : Steepest G dem thr nbr n m := by
  rcases run_values hr h n with ⟨h1, _⟩ | h1 | ⟨h1, _⟩ | ⟨e, he, h1⟩
  · omega
  · omega
  · exact absurd (Fin.ext (by omega)) hne
  · cases e with
    | none =>
      have := m.isLt
      simp only [code] at h1
      omega
    | some m' =>
      have : m' = m := Fin.ext (by simp only [code] at h1; omega)
      subst this
      exact steepest_of_mem_fc0 he

/-! ### C23 -/

theorem length_le_one {l : List (Entry N)} {x : Entry N} (h1 : ∀ y ∈ l, y = x) (h2 : l.count x ≤ 1) :
    l.length ≤ 1 := by
  have : l.count x = l.length := List.count_eq_length.2 (fun b hb => (h1 b hb).symm)
  omega

theorem fc0_length_le_one (hb : Below G dem thr big nbr) {n m : Fin N} (hnd : (nbr n).Nodup)
    (h : some m ∈ fc0 G dem thr big nbr n) (hu : ∀ m', Steepest G dem thr nbr n m' → m' = m) :
    (fc0 G dem thr big nbr n).length ≤ 1 := by
  refine length_le_one (x := some m) (fun y hy => ?_) ?_
  · cases y with
    | none =>
      obtain ⟨h1, s, h2, _⟩ := steepest_of_mem_fc0 h
      exact absurd (none_mem_fc0 hy m h1 s h2) (not_le.2 (hb n m h1 s h2))
    | some m' => rw [hu m' (steepest_of_mem_fc0 hy)]
  · have hs : (fc0 G dem thr big nbr n).Sublist (pad (table nbr) n) := by
      unfold fc0 fcell
      split
      · exact List.nil_sublist _
      · exact List.filter_sublist
    refine (hs.count_le _).trans ?_
    unfold pad table
    rw [List.count_append, List.count_replicate]
    simp only [beq_iff_eq, reduceCtorEq, if_false, Nat.add_zero]
    rw [List.count_map_of_injective _ _ (Option.some_injective _)]
    exact List.nodup_iff_count_le_one.1 hnd m

/-- a single steepest neighbour is an easy tie -/
theorem easyTie_of_unique {n t : Fin N} (h : ∀ m, Steepest G dem thr nbr n m → m = t) :
    EasyTie G dem thr nbr n :=
  ⟨⟨t, t, t, fun m hm => .inl (h m hm)⟩, fun m m' hm hm' hne => absurd ((h m hm).trans (h m' hm').symm) hne⟩

theorem soft_fc0 (hb : Below G dem thr big nbr) {n t : Fin N} (hnd : (nbr n).Nodup)
    (h : some t ∈ fc0 G dem thr big nbr n) (he : EasyTie G dem thr nbr n) :
    Soft (pad (table nbr)) (fc0 G dem thr big nbr n) := by
  obtain ⟨⟨a, b, c, habc⟩, hnear⟩ := he
  have hno : none ∉ fc0 G dem thr big nbr n := by
    intro hy
    obtain ⟨h1, s, h2, _⟩ := steepest_of_mem_fc0 h
    exact absurd (none_mem_fc0 hy t h1 s h2) (not_le.2 (hb n t h1 s h2))
  have hs : (fc0 G dem thr big nbr n).Sublist (pad (table nbr) n) := by
    unfold fc0 fcell
    split
    · exact List.nil_sublist _
    · exact List.filter_sublist
  have hnodup : (fc0 G dem thr big nbr n).Nodup := by
    rw [List.nodup_iff_count_le_one]
    intro e
    cases e with
    | none => rw [List.count_eq_zero_of_not_mem hno]; omega
    | some m =>
      refine (hs.count_le _).trans ?_
      unfold pad table
      rw [List.count_append, List.count_replicate]
      simp only [beq_iff_eq, reduceCtorEq, if_false, Nat.add_zero]
      rw [List.count_map_of_injective _ _ (Option.some_injective _)]
      exact List.nodup_iff_count_le_one.1 hnd m
  refine ⟨?_, hnodup, fun m m' hm hm' hne => ?_⟩
  · have hsub : fc0 G dem thr big nbr n ⊆ [some a, some b, some c] := by
      intro e hm
      cases e with
      | none => exact absurd hm hno
      | some m =>
        rcases habc m (steepest_of_mem_fc0 hm) with rfl | rfl | rfl <;> simp
    exact (hnodup.subperm hsub).length_le
  · exact some_mem_pad.2 (hnear m m' (steepest_of_mem_fc0 hm) (steepest_of_mem_fc0 hm') hne)

/-- **C23**, partly: a terminal cell (lowest elevation, or named by the user) still flows to itself after
`flow_directions`, if a cell that is not terminal and has it among its steepest neighbours has at most three of
these, and any two of them are neighbours.  Missing: the other case, in which the claim is false
(`C23_refuted`). -/
theorem C23_terminal_partial (hr : InRange N terminals) (hb : Below G dem thr big nbr)
    (hnd : ∀ n, (nbr n).Nodup)
    (h : flowDirections fuel G dem big (table nbr) thr terminals = .ok out) {t : Fin N}
    (ht : Terminal dem terminals t)
    (htie : ∀ n, ¬ Terminal dem terminals n → Steepest G dem thr nbr n t → EasyTie G dem thr nbr n) :
    out t = ((t : ℕ) : ℤ) := by
  obtain ⟨s0, s', hfc, h0, hl, rfl⟩ := run_spec hr h
  have hf : FInv (fc0 G dem thr big nbr) s0.fc := by rw [hfc]; exact fc0_inv
  refine ((loop_ind (A := fc0 G dem thr big nbr) (P := fun s => s.fdir t = ((t : ℕ) : ℤ) ∧
      ∀ n, Terminal dem terminals n → s.fdir n ≠ -1) _ s0 s' hf ⟨?_, fun n hn => ?_⟩ ?_ hl).2).1
  · rcases h0 t with ⟨_, h2⟩ | ⟨h1, _⟩
    · exact h2
    · exact absurd ht h1
  · rcases h0 n with ⟨_, h2⟩ | ⟨h1, _⟩
    · omega
    · exact absurd hn h1
  · rintro s ix s'' ⟨hP, hP'⟩ hst
    refine ⟨?_, fun n hn => ?_⟩
    · rw [hst.keep t (by rw [hP]; omega) (fun h1 _ hp => soft_fc0 hb (hnd ix) hp
        (htie ix (fun hT => hP' ix hT h1) (steepest_of_mem_fc0 hp)))]
      exact hP
    · rcases hst.change n with hc | ⟨_, _, hc⟩ | ⟨_, _, _, hc⟩
      · rw [hc]; exact hP' n hn
      · rw [hc]; omega
      · exact hc.ne

/-! ### C24 -/

/-- **C24.** A cell without elevation flows to itself and no other cell flows into it. -/
theorem C24_nan (hr : InRange N terminals)
    (h : flowDirections fuel G dem big (table nbr) thr terminals = .ok out) {n : Fin N}
    (hn : dem n = none) :
    out n = ((n : ℕ) : ℤ) ∧ ∀ m, m ≠ n → out m ≠ ((n : ℕ) : ℤ) := by
  refine ⟨?_, fun m hm he => ?_⟩
  · obtain ⟨s0, s', hfc, h0, hl, rfl⟩ := run_spec hr h
    have hf : FInv (fc0 G dem thr big nbr) s0.fc := by rw [hfc]; exact fc0_inv
    have key := (loop_ind (A := fc0 G dem thr big nbr)
      (P := fun s => s.fdir n = -1 ∨ s.fdir n = ((n : ℕ) : ℤ)) _ s0 s' hf (by
        rcases h0 n with ⟨_, h2⟩ | ⟨_, h2⟩
        · exact .inr h2
        · exact .inl h2) (by
        intro s ix s'' hP hst
        rcases hst.change n with hc | ⟨_, _, h3⟩ | ⟨h3, _, h4 | ⟨p, h4⟩, _⟩
        · rw [hc]; exact hP
        · exact .inr h3
        · rw [← h4, hn] at h3; cases h3
        · exact absurd hn (steepest_of_mem_fc0 h4).valid.2) hl).2
    refine key.resolve_left ?_
    exact loop_done (A := fc0 G dem thr big nbr) _ s0 s' hf hl n (List.mem_finRange n)
      (.inr (by simp [hn]))
  · exact (C22_steepest hr h he (Ne.symm hm)).valid.2 hn

/-! ### C25 -/

/-- `n` has a strictly lower neighbour. -/
def HasLower (dem : Fin N → Option K) (nbr : Fin N → List (Fin N)) (n : Fin N) : Prop :=
  ∃ l ∈ nbr n, ∃ a b, dem n = some a ∧ dem l = some b ∧ b < a

section Down

variable [IsStrictOrderedRing K]

/-- exact arithmetic is sound -/
theorem Sound.exact (hrnd : G.rnd = id) (hdist : ∀ n, ∀ m ∈ nbr n, 0 < G.dist n m) : Sound G dem nbr := by
  refine ⟨by rw [hrnd]; exact monotone_id, by rw [hrnd]; rfl, hdist, fun n m hm a b _ _ hlt => ?_⟩
  rw [hrnd]
  exact div_neg_of_neg_of_pos (sub_neg.2 hlt) (hdist n m hm)

theorem Sound.rise_of_lt (hs : Sound G dem nbr) {a b : K} (h : b < a) : rise G thr a b = G.rnd (b - a) := by
  unfold rise
  rw [if_neg]
  rintro ⟨h', _⟩
  have := hs.mono (sub_nonpos.2 h.le)
  rw [hs.zero] at this
  exact absurd h' (not_lt.2 this)

/-- a steepest neighbour of a cell with a lower neighbour is lower -/
theorem steepest_lower {n m : Fin N} (hs : Sound G dem nbr) (hl : HasLower dem nbr n)
    (h : Steepest G dem thr nbr n m) : ∃ a b, dem n = some a ∧ dem m = some b ∧ b < a := by
  obtain ⟨l, hln, a, b, ha, hb, hlt⟩ := hl
  obtain ⟨hm, s, ⟨a', c, ha', hc, rfl⟩, hle⟩ := h
  rw [ha] at ha'
  simp only [Option.some.injEq] at ha'
  subst ha'
  refine ⟨a, c, ha, hc, ?_⟩
  have h1 := hle l hln _ ⟨a, b, ha, hb, rfl⟩
  rw [hs.rise_of_lt hlt] at h1
  have h2 := hs.falls n l hln a b ha hb hlt
  by_contra hca
  have h3 : 0 ≤ G.rnd (rise G thr a c / G.dist n m) := by
    rw [← hs.zero]
    refine hs.mono (div_nonneg ?_ (hs.dist n m hm).le)
    unfold rise
    split
    · exact le_rfl
    · rw [← hs.zero]
      exact hs.mono (sub_nonneg.2 (not_lt.1 hca))
  exact absurd (h3.trans h1) (not_le.2 h2)

/-- **C25.** A cell that is not terminal and has a strictly lower neighbour flows to a strictly lower
neighbour, or holds the sink code. -/
theorem C25_downhill (hr : InRange N terminals) (hN : N < 1000000) (hbig : 0 < big)
    (hs : Sound G dem nbr)
    (h : flowDirections fuel G dem big (table nbr) thr terminals = .ok out) {n : Fin N}
    (hn : ¬ Terminal dem terminals n) (hl : HasLower dem nbr n) :
    out n = -2 ∨ ∃ m ∈ nbr n, out n = ((m : ℕ) : ℤ) ∧
      ∃ a b, dem n = some a ∧ dem m = some b ∧ b < a := by
  have hv : dem n ≠ none := by obtain ⟨l, _, a, b, ha, _⟩ := hl; simp [ha]
  rcases run_values hr h n with ⟨_, h1, _⟩ | h1 | ⟨_, h1⟩ | ⟨e, he, h1⟩
  · omega
  · exact .inl h1
  · exact absurd h1 (by tauto)
  · right
    cases e with
    | none =>
      obtain ⟨l, hln, a, b, ha, hb, hlt⟩ := hl
      have h2 := none_mem_fc0 he l hln _ ⟨a, b, ha, hb, rfl⟩
      rw [hs.rise_of_lt hlt] at h2
      exact absurd (h2.trans (hs.falls n l hln a b ha hb hlt).le) (not_le.2 hbig)
    | some m =>
      have hst := steepest_of_mem_fc0 he
      exact ⟨m, hst.1, h1, steepest_lower hs hl hst⟩

/-- A step along flow directions from a non-terminal cell that has a lower neighbour. -/
def DownStep (dem : Fin N → Option K) (nbr : Fin N → List (Fin N)) (terminals : List ℤ)
    (out : Fin N → ℤ) (n m : Fin N) : Prop :=
  ¬ Terminal dem terminals n ∧ HasLower dem nbr n ∧ out n = ((m : ℕ) : ℤ)

/-- **C25**, second part: following flow directions through such cells one never comes back. -/
theorem C25_no_return (hr : InRange N terminals) (hN : N < 1000000) (hbig : 0 < big)
    (hs : Sound G dem nbr)
    (h : flowDirections fuel G dem big (table nbr) thr terminals = .ok out) (n : Fin N) :
    ¬ Relation.TransGen (DownStep dem nbr terminals out) n n := by
  have hstep : ∀ n m, DownStep dem nbr terminals out n m →
      ∃ a b, dem n = some a ∧ dem m = some b ∧ b < a := by
    rintro n m ⟨h1, h2, h3⟩
    rcases C25_downhill hr hN hbig hs h h1 h2 with h4 | ⟨m', _, h4, h5⟩
    · omega
    · have : m' = m := Fin.ext (by omega)
      rw [← this]; exact h5
  have key : ∀ m, Relation.TransGen (DownStep dem nbr terminals out) n m →
      ∃ a b, dem n = some a ∧ dem m = some b ∧ b < a := by
    intro m hm
    induction hm with
    | single h => exact hstep _ _ h
    | tail _ h ih =>
      obtain ⟨a, b, ha, hb, hlt⟩ := ih
      obtain ⟨b', c, hb', hc, hlt'⟩ := hstep _ _ h
      rw [hb] at hb'
      simp only [Option.some.injEq] at hb'
      subst hb'
      exact ⟨a, c, ha, hc, hlt'.trans hlt⟩
  intro hc
  obtain ⟨a, b, ha, hb, hlt⟩ := key n hc
  rw [ha] at hb
  simp only [Option.some.injEq] at hb
  exact absurd hlt (by rw [hb]; exact lt_irrefl _)

end Down

/-! ### C26 -/

/-- **C26.** If every cell with an elevation has a neighbour with an elevation (on a DEM without NaN:
every cell has a neighbour), and elevations and slopes are below the fill value 1e10 (one elevation is
enough), `flow_directions` ends without exception, and all fuels above some bound give the same result. -/
theorem C26_terminates (G : Geo N K) (thr : K) (hr : InRange N terminals) (hb : Below G dem thr big nbr)
    (hn : HasNbr dem nbr) (he : ∃ n v, dem n = some v ∧ v < big) :
    ∃ B out, ∀ fuel, B ≤ fuel → flowDirections fuel G dem big (table nbr) thr terminals = .ok out := by
  obtain ⟨n0, v0, hv0, hlt⟩ := he
  have hmin : none ∉ minCells dem big := by
    rw [none_mem_minCells]
    intro h
    exact absurd (h n0 v0 hv0) (not_le.2 hlt)
  obtain ⟨f0, hf0⟩ := setMin_of (fun _ => -1) hmin
  obtain ⟨f1, hf1, _⟩ := setTerminals_spec hr f0
  have hw : width (table nbr) ≠ 0 := by
    obtain ⟨m, hm, _⟩ := hn n0 (by simp [hv0])
    have h1 := length_le_width (table nbr) n0
    have h2 : 0 < (table nbr n0).length := List.length_pos_of_mem (List.mem_map.2 ⟨m, hm, rfl⟩)
    omega
  obtain ⟨B, s', hs'⟩ := loop_ok (A := fc0 G dem thr big nbr) (frow := pad (table nbr))
    (valid := fun n => (dem n).isSome) (List.finRange N) ⟨f1, fc0 G dem thr big nbr⟩ fc0_inv
    (fun p c hc => none_notMem_fc0 hb hn (steepest_of_mem_fc0 hc).valid.2)
    (fun n hv => none_notMem_fc0 hb hn (by intro h; simp [h] at hv))
  refine ⟨B, s'.fdir, fun fuel h => ?_⟩
  unfold flowDirections
  rw [hf0]
  simp only [Res.bind_ok]
  rw [hf1]
  simp only [Res.bind_ok]
  have : fcells G dem thr big (table nbr) = .ok (fc0 G dem thr big nbr) := by
    unfold fcells
    rw [if_neg (by tauto)]
    rfl
  rw [this]
  simp only [Res.bind_ok]
  rw [hs' fuel h]
  rfl

/-- **C26**, where nothing can flow: on a grid without any neighbours, a single cell for instance,
`flow_directions` raises `ValueError`. -/
theorem C26_alone (G : Geo N K) (thr : K) (hr : InRange N terminals) (hn : ∀ n, nbr n = [])
    (he : ∃ n v, dem n = some v ∧ v < big) (fuel : ℕ) :
    flowDirections fuel G dem big (table nbr) thr terminals = .err .valueError := by
  obtain ⟨n0, v0, hv0, hlt⟩ := he
  have hmin : none ∉ minCells dem big := by
    rw [none_mem_minCells]
    intro h
    exact absurd (h n0 v0 hv0) (not_le.2 hlt)
  obtain ⟨f0, hf0⟩ := setMin_of (fun _ => -1) hmin
  obtain ⟨f1, hf1, _⟩ := setTerminals_spec hr f0
  have hw : width (table nbr) = 0 := by
    unfold width
    have : ∀ l : List (Fin N), l.foldl (fun m n => max m (table nbr n).length) 0 = 0 := by
      intro l
      induction l with
      | nil => rfl
      | cons a l ih => simpa [table, hn a] using ih
    exact this _
  unfold flowDirections
  rw [hf0, Res.bind_ok, hf1, Res.bind_ok]
  unfold fcells
  rw [if_pos ⟨Fin.pos n0, hw⟩]
  rfl

example : flowDirections 5 (⟨fun _ => 0, fun _ => 0, id, id⟩ : Geo 1 ℚ) (fun _ => some 3) 100
    (table (fun _ => [])) 1 [] = .err .valueError :=
  C26_alone _ _ (by intro t h; cases h) (fun _ => rfl) ⟨0, 3, rfl, by norm_num⟩ 5

/-! ### C27 -/

/-- No cell has two equally steep steepest neighbours. -/
def NoTies (G : Geo N K) (dem : Fin N → Option K) (thr : K) (nbr : Fin N → List (Fin N)) : Prop :=
  ∀ n m m', Steepest G dem thr nbr n m → Steepest G dem thr nbr n m' → m = m'

/-- without ties every cell with an elevation that is not terminal flows to its steepest neighbour -/
theorem noTies_flows (hr : InRange N terminals) (hb : Below G dem thr big nbr) (hn : HasNbr dem nbr)
    (hnd : ∀ n, (nbr n).Nodup) (hnt : NoTies G dem thr nbr)
    (h : flowDirections fuel G dem big (table nbr) thr terminals = .ok out) {n : Fin N}
    (hv : dem n ≠ none) (ht : ¬ Terminal dem terminals n) :
    ∃ m, Steepest G dem thr nbr n m ∧ out n = ((m : ℕ) : ℤ) := by
  obtain ⟨s0, s', hfc, h0, hl, rfl⟩ := run_spec hr h
  have hf : FInv (fc0 G dem thr big nbr) s0.fc := by rw [hfc]; exact fc0_inv
  have hone : ∀ n, (dem n).isSome = true → ∃ m, fc0 G dem thr big nbr n = [some m] := by
    intro n hv
    have hv' : dem n ≠ none := by intro h; simp [h] at hv
    have h1 := fc0_ne_nil (G := G) (thr := thr) (big := big) hn hv'
    have h2 := none_notMem_fc0 hb hn hv'
    obtain ⟨e, l, he⟩ := List.exists_cons_of_ne_nil h1
    cases e with
    | none => rw [he] at h2; simp at h2
    | some m =>
      have hmem : some m ∈ fc0 G dem thr big nbr n := by rw [he]; simp
      have hlen := fc0_length_le_one hb (hnd n) hmem
        (fun m' hm' => hnt n m' m hm' (steepest_of_mem_fc0 hmem))
      rw [he] at hlen
      have : l = [] := List.length_eq_zero_iff.1 (by simpa using hlen)
      exact ⟨m, by rw [he, this]⟩
  have := loop_one (A := fc0 G dem thr big nbr) (valid := fun n => (dem n).isSome)
    (fun n hv => by obtain ⟨m, hm⟩ := hone n hv; exact ⟨_, hm⟩) _ s0 s' hf (List.nodup_finRange N) hl n
  rcases h0 n with ⟨h1, _⟩ | ⟨_, h1⟩
  · exact absurd h1 ht
  · obtain ⟨v, hv'⟩ := Option.ne_none_iff_exists'.1 hv
    obtain ⟨m, hm⟩ := hone n (by simp [hv'])
    rw [if_pos ⟨List.mem_finRange n, h1⟩, if_pos (by simp [hv']), hm] at this
    exact ⟨m, steepest_of_mem_fc0 (by rw [hm]; simp), this⟩

section Fill

variable [IsStrictOrderedRing K]

/-- the DEM after filling, and the neighbours as cells -/
def filled (f : Fin N → K) (n : Fin N) : Option K := some (f n)

theorem filled_lower {g : Flood.Grid N} {mask : Option (Fin N → Bool)} {f : Fin N → K} {n : Fin N}
    (hd : Flood.Drains (· < ·) g.nbr f (Flood.Outlet g mask) n) (hn : ¬ Flood.Outlet g mask n) :
    HasLower (filled f) (fun n => inRange N (g.nbr n)) n := by
  cases hd with
  | outlet h => exact absurd h hn
  | step ha hlt _ => exact ⟨_, mem_inRange.2 ha, _, _, rfl, rfl, hlt⟩

theorem lower_not_lowest {f : Fin N → K} {nbr : Fin N → List (Fin N)} {n : Fin N}
    (h : HasLower (filled f) nbr n) : ¬ Lowest (filled f) n := by
  rintro ⟨v, hv, hle⟩
  obtain ⟨l, _, a, b, ha, hb, hlt⟩ := h
  have := hle l b hb
  rw [ha] at hv
  simp only [Option.some.injEq] at hv
  rw [← hv] at this
  exact absurd hlt (not_lt.2 this)

/-- **C27**, first part.  After `fill_sinks` with method "priority" and an eps that strictly raises
elevations, every cell connected to an outlet (grid edge, or stream mask) that is neither an outlet nor
named terminal flows to a strictly lower neighbour or holds the sink code. -/
theorem C27_fill_then_route {fuel fuel' : ℕ} {raise : K → K} {flood : K} {g : Flood.Grid N}
    {dem f : Fin N → K} {mask : Option (Fin N → Bool)} {method : String} {out : Fin N → ℤ}
    (hstrict : ∀ x, x < raise x) (hsym : Flood.SymmNbr g.nbr)
    (heff : Flood.effective mask method = .priority)
    (hfill : Flood.fillSinks fuel raise flood g dem mask method = .ok f)
    (hr : InRange N terminals) (hN : N < 1000000) (hbig : 0 < big)
    (hs : Sound G (filled f) (fun n => inRange N (g.nbr n)))
    (h : flowDirections fuel' G (filled f) big (table (fun n => inRange N (g.nbr n))) thr terminals
      = .ok out) {n : Fin N}
    (hn : Flood.Reach g.nbr (Flood.Outlet g mask) n) (hno : ¬ Flood.Outlet g mask n)
    (hnt : ((n : ℕ) : ℤ) ∉ terminals) :
    out n = -2 ∨ ∃ m : Fin N, m.val ∈ g.nbr n ∧ out n = ((m : ℕ) : ℤ) ∧ f m < f n := by
  have hl := filled_lower (Flood.C03_drains_strictly hstrict hsym heff hfill n hn) hno
  have ht : ¬ Terminal (filled f) terminals n := by
    rintro (h | h)
    · exact lower_not_lowest hl h
    · exact hnt h
  rcases C25_downhill hr hN hbig hs h ht hl with h1 | ⟨m, hm, h1, a, b, ha, hb, hlt⟩
  · exact .inl h1
  · simp only [filled, Option.some.injEq] at ha hb
    subst ha hb
    exact .inr ⟨m, mem_inRange.1 hm, h1, hlt⟩

/-- **C27**, second part.  If moreover no cell has two equally steep steepest neighbours, following flow
directions from any cell connected to an outlet comes to an outlet, going strictly downhill. -/
theorem C27_reaches_edge {fuel fuel' : ℕ} {raise : K → K} {flood : K} {g : Flood.Grid N}
    {dem f : Fin N → K} {mask : Option (Fin N → Bool)} {method : String} {out : Fin N → ℤ}
    (hstrict : ∀ x, x < raise x) (hsym : Flood.SymmNbr g.nbr)
    (heff : Flood.effective mask method = .priority)
    (hfill : Flood.fillSinks fuel raise flood g dem mask method = .ok f)
    (hs : Sound G (filled f) (fun n => inRange N (g.nbr n)))
    (hb : Below G (filled f) thr big (fun n => inRange N (g.nbr n)))
    (hnb : ∀ n : Fin N, inRange N (g.nbr n) ≠ []) (hnd : ∀ n, (g.nbr n).Nodup)
    (hnt : NoTies G (filled f) thr (fun n => inRange N (g.nbr n)))
    (h : flowDirections fuel' G (filled f) big (table (fun n => inRange N (g.nbr n))) thr [] = .ok out)
    {n : Fin N} (hn : Flood.Reach g.nbr (Flood.Outlet g mask) n) :
    ∃ e, Flood.Outlet g mask e ∧
      Relation.ReflTransGen (fun a b : Fin N => out a = ((b : ℕ) : ℤ) ∧ f b < f a) n e := by
  have hnd' : ∀ n : Fin N, (inRange N (g.nbr n)).Nodup := by
    intro n
    refine (hnd n).filterMap (fun a a' b h1 h2 => ?_)
    simp only [Option.mem_def, Option.dite_none_right_eq_some, Option.some.injEq] at h1 h2
    obtain ⟨_, h1⟩ := h1
    obtain ⟨_, h2⟩ := h2
    rw [← h2] at h1
    exact congrArg Fin.val h1
  have hhas : HasNbr (filled f) (fun n => inRange N (g.nbr n)) := by
    intro n _
    obtain ⟨m, hm⟩ := List.exists_mem_of_ne_nil _ (hnb n)
    exact ⟨m, hm, by simp [filled]⟩
  have hwf : WellFounded (fun a b : Fin N => f a < f b) := by
    haveI : IsTrans (Fin N) (fun a b => f a < f b) := ⟨fun a b c h1 h2 => lt_trans h1 h2⟩
    haveI : Std.Irrefl (fun a b : Fin N => f a < f b) := ⟨fun a => lt_irrefl _⟩
    exact Finite.wellFounded_of_trans_of_irrefl _
  induction n using hwf.induction with
  | _ n ih =>
    by_cases hno : Flood.Outlet g mask n
    · exact ⟨n, hno, .refl⟩
    · have hl := filled_lower (Flood.C03_drains_strictly hstrict hsym heff hfill n hn) hno
      have ht : ¬ Terminal (filled f) [] n := by
        rintro (h | h)
        · exact lower_not_lowest hl h
        · cases h
      obtain ⟨m, hm, hout⟩ := noTies_flows (terminals := []) (by intro t ht; cases ht) hb hhas hnd' hnt h
        (by simp [filled]) ht
      obtain ⟨a, b, ha, hb', hlt⟩ := steepest_lower hs hl hm
      simp only [filled, Option.some.injEq] at ha hb'
      subst ha hb'
      obtain ⟨e, he, hp⟩ := ih m hlt (.step hn (mem_inRange.1 hm.1))
      exact ⟨e, he, .head ⟨hout, hlt⟩ hp⟩

end Fill

/-! ### C28 -/

theorem minCells_nodup (dem : Fin N → Option K) (big : K) : (minCells dem big).Nodup := by
  unfold minCells fcell
  dsimp only
  split
  · exact List.nodup_nil
  · apply List.Nodup.filter
    rw [List.nodup_append]
    refine ⟨(List.nodup_finRange N).map (Option.some_injective _), by simp, ?_⟩
    intro a ha b hb
    simp only [List.mem_singleton] at hb
    obtain ⟨x, _, rfl⟩ := List.mem_map.1 ha
    rw [hb]; simp

/-- **C28.** With `check_elevations` the constructor raises exactly if two different cells share the lowest
elevation (elevations below 1e10); it raises nothing else, and nothing without the check. -/
theorem C28_outlet_check {dem : Fin N → Option K} {big : K} (hb : ∀ n v, dem n = some v → v < big) :
    (init dem big true = .err .assertionError ↔ ∃ a b, a ≠ b ∧ Lowest dem a ∧ Lowest dem b) ∧
    (∀ c, init dem big c ≠ .err .assertionError → ∃ l, init dem big c = .ok l) ∧
    ∃ l, init dem big false = .ok l := by
  have hlow : ∀ n, Lowest dem n → some n ∈ minCells dem big := by
    rintro n ⟨v, hv, hle⟩
    exact some_mem_minCells.2 ⟨v, hv, (hb n v hv).le, hle⟩
  have hlow' : ∀ n, some n ∈ minCells dem big → Lowest dem n := by
    intro n h
    obtain ⟨v, hv, _, hle⟩ := some_mem_minCells.1 h
    exact ⟨v, hv, hle⟩
  refine ⟨?_, ?_, ⟨_, by simp [init]; rfl⟩⟩
  · have : init dem big true = .err .assertionError ↔ (minCells dem big).length > 1 := by
      unfold init
      split
      · rename_i h; simp [h.2]
      · rename_i h; simp at h; simp [h]
    rw [this]
    constructor
    · intro hlen
      have hnd := minCells_nodup dem big
      match hl : minCells dem big, hlen with
      | x :: y :: l, _ =>
        have hx : x ∈ minCells dem big := by rw [hl]; simp
        have hy : y ∈ minCells dem big := by rw [hl]; simp
        rw [hl] at hnd
        have hxy : x ≠ y := by
          rintro rfl
          simp at hnd
        cases x with
        | none =>
          cases y with
          | none => exact absurd rfl hxy
          | some b =>
            obtain ⟨v, hv, _⟩ := hlow' b hy
            exact absurd (none_mem_minCells.1 hx b v hv) (not_le.2 (hb b v hv))
        | some a =>
          cases y with
          | none =>
            obtain ⟨v, hv, _⟩ := hlow' a hx
            exact absurd (none_mem_minCells.1 hy a v hv) (not_le.2 (hb a v hv))
          | some b => exact ⟨a, b, fun h => hxy (by rw [h]), hlow' a hx, hlow' b hy⟩
    · rintro ⟨a, b, hab, ha, hb'⟩
      by_contra hlen
      have h1 := hlow a ha
      have h2 := hlow b hb'
      rcases hl : minCells dem big with _ | ⟨x, _ | ⟨y, l⟩⟩
      · rw [hl] at h1; cases h1
      · rw [hl] at h1 h2
        simp only [List.mem_singleton] at h1 h2
        rw [← h1] at h2
        exact hab (Option.some.inj h2).symm
      · rw [hl] at hlen; simp at hlen
  · intro c h
    unfold init at h ⊢
    split
    · rename_i h'; rw [if_pos h'] at h; exact absurd rfl h
    · exact ⟨_, rfl⟩

/-! ### C29 -/

theorem flowDirections_pad (fuel : ℕ) (G : Geo N K) (dem : Fin N → Option K) (big : K)
    (rows : Fin N → List (Entry N)) (thr : K) (terminals : List ℤ) :
    flowDirections fuel G dem big (pad rows) thr terminals
      = flowDirections fuel G dem big rows thr terminals := by
  unfold flowDirections fcells
  rw [pad_pad, width_pad]

/-- **C29.** The result of a call does not depend on the calls made before it on the same object. -/
theorem C29_history_independent (o : Obj N K) (history : List (Args K)) (a : Args K) :
    ((o.calls history).call a).1 = (o.call a).1 := by
  have key : ∀ (h : List (Args K)) (o' : Obj N K), (o'.geo = o.geo ∧ o'.dem = o.dem ∧ o'.big = o.big ∧
      (o'.rows = o.rows ∨ o'.rows = pad o.rows)) → ((o'.calls h).geo = o.geo ∧ (o'.calls h).dem = o.dem ∧
      (o'.calls h).big = o.big ∧ ((o'.calls h).rows = o.rows ∨ (o'.calls h).rows = pad o.rows)) := by
    intro h
    induction h with
    | nil => intro o' h; exact h
    | cons c h ih =>
      intro o' ho
      apply ih
      obtain ⟨h1, h2, h3, h4⟩ := ho
      have hcall : (o'.call c).2 = { o' with rows := pad o'.rows } ∨ (o'.call c).2 = o' := by
        unfold Obj.call
        dsimp only
        split
        · exact .inl rfl
        · exact .inr rfl
      dsimp only
      rcases hcall with hc | hc
      · rw [hc]
        refine ⟨h1, h2, h3, .inr ?_⟩
        dsimp only
        rcases h4 with h4 | h4 <;> rw [h4]
        exact pad_pad _
      · rw [hc]; exact ⟨h1, h2, h3, h4⟩
  obtain ⟨h1, h2, h3, h4⟩ := key history o ⟨rfl, rfl, rfl, .inl rfl⟩
  unfold Obj.call
  dsimp only
  rw [h1, h2, h3]
  rcases h4 with h4 | h4 <;> rw [h4]
  exact flowDirections_pad _ _ _ _ _ _ _

end Dany.Dirs
