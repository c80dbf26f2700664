import Verif.Dirs.Props
import Verif.Flow.Lemmas

/-!
# Flow directions where every cell has a lower neighbour

The search over flats then never fails, so that no cell gets the sink code, and following flow directions
one goes downhill to a terminal cell.
-/

namespace Dany.Dirs

open Function Flow

variable {N : ℕ}

/-! ### The search finds a destination -/

/-- as long as there is no destination, the candidates of visited cells are scheduled, and there are
several of them -/
structure WInv (fc : Fin N → List (Entry N)) (pending : List (Fin N)) (b : BState N) : Prop where
  todo : b.dest = none → ∀ c ∈ b.tmp, c ∈ b.visited ∨ c ∈ pending
  next : b.dest = none → ∀ c ∈ b.visited, (fc c).length ≠ 1 ∧ ∀ m, some m ∈ fc c → m ∈ b.tmp
  vis : ∀ c ∈ b.visited, c ∈ b.tmp

theorem searchPass_closed {fdir : Fin N → ℤ} {fc : Fin N → List (Entry N)} :
    ∀ (k : ℕ) (pending : List (Fin N)) (n : ℕ) (b b' : BState N),
    WInv fc pending b → (∀ c ∈ pending, c ∈ b.tmp) → searchPass fdir fc k pending n b = .ok b' →
    WInv fc [] b' ∧ ∀ c ∈ b.tmp, c ∈ b'.tmp := by
  intro k
  induction k with
  | zero => intro pending n b b' _ _ h; simp [searchPass] at h
  | succ k ih =>
    intro pending n b b' hb hp h
    cases pending with
    | nil =>
      simp only [searchPass, Res.ok.injEq] at h
      subst h; exact ⟨hb, fun _ h => h⟩
    | cons cell pending =>
      have hp' : ∀ c ∈ pending, c ∈ b.tmp := fun c h => hp c (List.mem_cons_of_mem _ h)
      simp only [searchPass] at h
      split at h
      · obtain ⟨conns, hcon, h⟩ := Res.bind_eq_ok.1 h
        have hmap := reals_mem hcon
        obtain ⟨i1, i2⟩ := ih _ _ _ _ (by
          have hback : (resolve fdir cell conns b.stack b.dest).2.1 = none → b.dest = none := by
            intro hd
            by_contra hne
            exact resolve_dest hne hd
          refine ⟨fun hd c hc => ?_, fun hd c hc => ?_, fun c hc => ?_⟩
          · dsimp only at hd hc ⊢
            rw [if_pos hd] at hc ⊢
            rcases List.mem_append.1 hc with hc | hc
            · rcases hb.todo (hback hd) c hc with h | h
              · exact .inl (by simp [h])
              · rcases List.mem_cons.1 h with rfl | h
                · exact .inl (by simp)
                · exact .inr (by simp [h])
            · exact .inr (by simp [hc])
          · dsimp only at hd hc ⊢
            rw [if_pos hd]
            rcases List.mem_append.1 hc with hc | hc
            · obtain ⟨j1, j2⟩ := hb.next (hback hd) c hc
              exact ⟨j1, fun m hm => by simp [j2 m hm]⟩
            · rw [List.mem_singleton] at hc
              subst hc
              refine ⟨fun hl => ?_, fun m hm => ?_⟩
              · rw [hmap, List.length_map] at hl
                unfold resolve at hd
                rw [if_pos hl] at hd
                refine absurd hd (foldl_connStep_dest conns _ ?_)
                cases conns with
                | nil => simp at hl
                | cons a l => simp
              · rw [hmap] at hm
                obtain ⟨m', h1, h2⟩ := List.mem_map.1 hm
                rw [Option.some.injEq] at h2
                subst h2
                simp [h1]
          · dsimp only at hc ⊢
            rcases List.mem_append.1 hc with hc | hc
            · simp [hb.vis c hc]
            · rw [List.mem_singleton] at hc
              subst hc
              simp [hp c (by simp)]) (by
          intro c hc
          dsimp only
          rcases List.mem_append.1 hc with hc | hc
          · simp [hp' c hc]
          · simp [hc]) h
        exact ⟨i1, fun c hc => i2 c (by simp [hc])⟩
      · rename_i hvis
        have hvis := not_not.1 hvis
        have hdrop : ∀ b2 : BState N, b2.dest = b.dest → b2.tmp = b.tmp → b2.visited = b.visited →
            WInv fc pending b2 := by
          intro b2 e1 e2 e3
          refine ⟨fun hd c hc => ?_, fun hd => ?_, ?_⟩
          · rw [e1] at hd
            rw [e2] at hc
            rw [e3]
            rcases hb.todo hd c hc with h | h
            · exact .inl h
            · rcases List.mem_cons.1 h with rfl | h
              · exact .inl hvis
              · exact .inr h
          · rw [e1] at hd
            rw [e3, e2]
            exact hb.next hd
          · rw [e3, e2]; exact hb.vis
        split at h
        · exact ih _ _ _ _ (hdrop b rfl rfl rfl) hp' h
        · split at h
          · have := ih _ _ _ _ (by exact hdrop _ rfl rfl rfl) (by exact hp') h
            exact this
          · have := ih _ _ _ _ (by exact hdrop _ rfl rfl rfl) (by exact hp') h
            exact this

theorem startStack_aux (ix : Fin N) : ∀ (l : List (Fin N)) (d : Dict (Fin N) (Fin N)), (∀ e ∈ d, e.2 = ix) →
    (∀ e ∈ l.foldl (fun d c => d.set c ix) d, e.2 = ix) ∧
    ∀ c ∈ Dict.keys (l.foldl (fun d c => d.set c ix) d), c ∈ d.keys ∨ c ∈ l := by
  intro l
  induction l with
  | nil => intro d h; exact ⟨h, fun c h => .inl h⟩
  | cons a l ih =>
    intro d h
    obtain ⟨i1, i2⟩ := ih (d.set a ix) (fun e he => by
      rcases mem_set he with he | rfl
      · exact h e he
      · rfl)
    refine ⟨i1, fun c hc => ?_⟩
    rcases i2 c hc with h | h
    · rcases Dict.mem_keys_set.1 h with h | rfl
      · exact .inl h
      · exact .inr (by simp)
    · exact .inr (List.mem_cons_of_mem _ h)

theorem startStack_keys {ix c : Fin N} {conns : List (Fin N)} (h : c ∈ (startStack ix conns).keys) : c ∈ conns :=
  ((startStack_aux ix conns [] (by simp)).2 c h).resolve_left (by rintro h; cases h)

theorem startStack_vals {ix : Fin N} {conns : List (Fin N)} {e : Fin N × Fin N} (h : e ∈ startStack ix conns) :
    e.2 = ix :=
  (startStack_aux ix conns [] (by simp)).1 e h

section Rank

variable {R : Type*} [LinearOrder R] {r : Fin N → R}

/-- If all cells the search can come to have candidates that are lower, or a single one, it succeeds.  Cells of
`T` have a direction and are not where the search starts. -/
theorem search_finds {fuel : ℕ} {fdir f' : Fin N → ℤ} {fc : Fin N → List (Entry N)} {ix : Fin N}
    {conns : List (Fin N)} (good T : Fin N → Prop) (hne : conns ≠ []) (hgood : ∀ c ∈ conns, good c)
    (hT : ∀ t, T t → (fdir t ≠ -1 ∧ fdir t ≠ -2) ∧ t ≠ ix ∧ t ∉ conns)
    (hstep : ∀ c, good c → fc c ≠ [] ∧ none ∉ fc c ∧
      ((fc c).length = 1 ∨ ∀ m, some m ∈ fc c → (T m ∨ good m) ∧ r m < r c))
    (h : search fuel fdir fc ix conns = .ok f') :
    ∃ d : Dict (Fin N) (Fin N × ℕ), f' = applyTrace d fdir := by
  unfold search at h
  obtain ⟨b, hb, h⟩ := Res.bind_eq_ok.1 h
  have hsink : b.sink = false := by
    cases hfu : fuel with
    | zero => rw [hfu] at hb; simp [searchLoop] at hb
    | succ k =>
      nth_rw 2 [hfu] at hb
      simp only [searchLoop] at hb
      obtain ⟨b1, h1, hb⟩ := Res.bind_eq_ok.1 hb
      obtain ⟨w, wt⟩ := searchPass_closed _ _ _ _ _ (⟨fun _ c hc => .inr hc, by simp, by simp⟩ :
        WInv fc conns ⟨startStack ix conns, none, true, [], conns⟩) (fun _ h => h) h1
      have hd : b1.dest ≠ none := by
        intro hd
        -- no terminal cell is scheduled
        have hnoT : ∀ t, T t → t ∉ b1.tmp := by
          intro t ht
          obtain ⟨e1, e2, e3⟩ := hT t ht
          refine (searchPass_keep e1 _ _ _ _ _ ⟨e3, fun h => absurd (startStack_keys h) e3, fun e he => ?_⟩ e3 h1).tmp
          rw [startStack_vals he]
          exact Ne.symm e2
        -- every scheduled cell is good
        have hall : ∀ c ∈ b1.visited, good c → ∃ m ∈ b1.visited, good m ∧ r m < r c := by
          intro c hc hg
          obtain ⟨j1, j2⟩ := w.next hd c hc
          obtain ⟨k1, k0, k2⟩ := hstep c hg
          have k2 := k2.resolve_left j1
          obtain ⟨e, l, he⟩ := List.exists_cons_of_ne_nil k1
          cases e with
          | none =>
            rw [he] at k0
            simp at k0
          | some m =>
            have hm : some m ∈ fc c := by rw [he]; simp
            have := w.todo hd m (j2 m hm)
            have hg2 := k2 m hm
            refine ⟨m, by simpa using this, hg2.1.resolve_left fun ht => ?_, hg2.2⟩
            exact hnoT m ht (j2 m hm)
        have hwf : WellFounded (fun a b : Fin N => r a < r b) := by
          have : IsTrans (Fin N) (fun a b => r a < r b) := ⟨fun a b c h1 h2 => lt_trans h1 h2⟩
          have : Std.Irrefl (fun a b : Fin N => r a < r b) := ⟨fun a => lt_irrefl _⟩
          exact Finite.wellFounded_of_trans_of_irrefl _
        have hno : ∀ c, c ∈ b1.visited → good c → False := by
          intro c
          induction c using hwf.induction with
          | _ c ih =>
            intro hc hg
            obtain ⟨m, h1, h2, h3⟩ := hall c hc hg
            exact ih m h3 h1 h2
        obtain ⟨a, l', he'⟩ : ∃ a l', conns = a :: l' := List.exists_cons_of_ne_nil hne
        have ha : a ∈ conns := by rw [he']; simp
        have := w.todo hd a (wt a ha)
        exact hno a (by simpa using this) (hgood a ha)
      rw [if_pos hd] at hb
      simp only [Res.ok.injEq] at hb
      rw [← hb]
  rw [if_neg (by simp [hsink])] at h
  split at h
  · simp only [Res.ok.injEq] at h
    exact ⟨[], h.symm⟩
  · split at h
    · cases h
    · obtain ⟨t, _, rfl⟩ := Res.map_eq_ok.1 h
      exact ⟨t, rfl⟩

/-! ### The loop over the cells -/

variable {A : Fin N → List (Entry N)} {valid : Fin N → Bool} {T : Fin N → Prop}
  {frow : Fin N → List (Entry N)} {fuel : ℕ}

/-- The situation considered: `T` are the terminal cells; every other cell with an elevation has
candidates, and all are lower; ties with a terminal cell are easy ones. -/
structure Falling (frow A : Fin N → List (Entry N)) (valid : Fin N → Bool) (T : Fin N → Prop) (r : Fin N → R) :
    Prop where
  ne : ∀ n, valid n = true → ¬ T n → A n ≠ []
  real : ∀ n, valid n = true → ¬ T n → none ∉ A n
  low : ∀ n, valid n = true → ¬ T n → ∀ m, some m ∈ A n → r m < r n
  valid : ∀ n m, some m ∈ A n → valid m = true
  tie : ∀ p t, ¬ T p → T t → some t ∈ A p → Soft frow (A p)

/-- the state while the loop runs -/
structure PState (A : Fin N → List (Entry N)) (valid : Fin N → Bool) (T : Fin N → Prop) (s : State N) :
    Prop where
  fc : s.fc = A
  val : ∀ n, (s.fdir n = -1 ∧ ¬ T n) ∨ (s.fdir n = ((n : ℕ) : ℤ) ∧ (T n ∨ valid n = false)) ∨
    (¬ T n ∧ valid n = true ∧ ∃ m, some m ∈ A n ∧ s.fdir n = ((m : ℕ) : ℤ))

theorem choose_falling (hF : Falling frow A valid T r) {s s' : State N} {ix : Fin N} {cont : Bool}
    (hP : PState A valid T s) (h1 : s.fdir ix = -1) (hv : valid ix = true) (hT : ¬ T ix)
    (hcont : Soft frow (A ix) → 1 < (A ix).length → cont = true) (h : choose fuel s ix cont = .ok s') : s'.fc = A ∧ ∀ n, s'.fdir n ≠ -2 := by
  have hnot : ∀ n, s.fdir n ≠ -2 := by
    intro n
    rcases hP.val n with ⟨h, _⟩ | ⟨h, _⟩ | ⟨_, _, m, _, h⟩ <;> rw [h] <;> omega
  have hup : ∀ a : Entry N, ∀ n, update s.fdir ix (code a) n ≠ -2 := by
    intro a n
    by_cases hn : n = ix
    · subst hn
      have := code_nonneg a
      rw [update_self]; omega
    · rw [update_of_ne hn]; exact hnot n
  unfold choose at h
  split at h
  · simp only [Res.ok.injEq] at h
    subst h
    exact ⟨hP.fc, hup _⟩
  · simp only [Res.ok.injEq] at h
    subst h
    exact ⟨hP.fc, hup _⟩
  · simp only [Res.ok.injEq] at h
    subst h
    exact ⟨hP.fc, hup _⟩
  · rename_i hn1 hn2 hn3
    obtain ⟨conns, hcon, h⟩ := Res.bind_eq_ok.1 h
    obtain ⟨f', hf', rfl⟩ := Res.map_eq_ok.1 h
    have hmap := reals_mem hcon
    rw [hP.fc] at hmap hn1 hn2 hn3
    have hsoft : ¬ Soft frow (A ix) := by
      intro hso
      have hfew := hso.few
      rcases hA : A ix with _ | ⟨a, _ | ⟨b, _ | ⟨c, _ | ⟨d, l⟩⟩⟩⟩
      · exact hF.ne ix hv hT hA
      · exact hn1 a hA
      · exact hn2 a b hA (hcont hso (by simp [hA]))
      · exact hn3 a b c hA (hcont hso (by simp [hA]))
      · rw [hA] at hfew; simp at hfew
    have hmem : ∀ c ∈ conns, some c ∈ A ix := fun c hc => by rw [hmap]; exact List.mem_map.2 ⟨c, hc, rfl⟩
    have hnoT : ∀ c ∈ conns, ¬ T c := fun c hc ht => hsoft (hF.tie ix c hT ht (hmem c hc))
    obtain ⟨d, hd⟩ := search_finds (r := r) (fun c => valid c = true ∧ ¬ T c) T (by
        rintro rfl
        exact hF.ne ix hv hT hmap)
      (fun c hc => ⟨hF.valid ix c (hmem c hc), hnoT c hc⟩)
      (fun t ht => by
        refine ⟨?_, by rintro rfl; exact hT ht, fun hc => hnoT t hc ht⟩
        rcases hP.val t with ⟨_, h⟩ | ⟨h, _⟩ | ⟨h, _⟩
        · exact absurd ht h
        · rw [h]; constructor <;> omega
        · exact absurd ht h)
      (by
        rintro c ⟨c1, c2⟩
        rw [hP.fc]
        refine ⟨hF.ne c c1 c2, hF.real c c1 c2, .inr fun m hm => ⟨?_, hF.low c c1 c2 m hm⟩⟩
        by_cases ht : T m
        · exact .inl ht
        · exact .inr ⟨hF.valid c m hm, ht⟩)
      hf'
    refine ⟨hP.fc, fun n => ?_⟩
    dsimp only
    rw [hd]
    rcases applyTrace_spec d s.fdir n with ⟨_, h⟩ | ⟨e, _, _, h⟩
    · rw [h]; exact hnot n
    · rw [h]; omega

theorem cellStep_falling (hF : Falling frow A valid T r) {s s' : State N} {ix : Fin N} (hP : PState A valid T s)
    (h : cellStep frow fuel valid (.ok s) ix = .ok s') : PState A valid T s' := by
  have hst := cellStep_spec (frow := frow) (A := A) (by rw [hP.fc]; exact ⟨fun _ => List.Sublist.refl _, fun _ _ => rfl⟩) h
  have hnot : ∀ n, s.fdir n ≠ -2 := by
    intro n
    rcases hP.val n with ⟨h, _⟩ | ⟨h, _⟩ | ⟨_, _, m, _, h⟩ <;> rw [h] <;> omega
  have key : s'.fc = A ∧ ∀ n, s'.fdir n ≠ -2 := by
    unfold cellStep at h
    simp only [Res.bind_ok] at h
    split at h
    · simp only [Res.ok.injEq] at h
      subst h; exact ⟨hP.fc, hnot⟩
    · rename_i h1
      have h1 := not_not.1 h1
      have hT : ¬ T ix := by
        rcases hP.val ix with ⟨_, h⟩ | ⟨h, _⟩ | ⟨h, _⟩
        · exact h
        · omega
        · exact h
      split at h
      · simp only [Res.ok.injEq] at h
        subst h
        refine ⟨hP.fc, fun n => ?_⟩
        dsimp only
        by_cases hn : n = ix
        · subst hn; rw [update_self]; omega
        · rw [update_of_ne hn]; exact hnot n
      · rename_i hv
        have hv : valid ix = true := by simpa using hv
        split at h
        · obtain ⟨l, hl, h⟩ := Res.bind_eq_ok.1 h
          have hmap := reals_mem hl
          rw [hP.fc] at hmap
          -- nothing is dropped
          have hfil : l.filter (fun t => s.fdir t ≠ ((ix : ℕ) : ℤ)) = l := by
            rw [List.filter_eq_self]
            intro t ht
            have hin : some t ∈ A ix := by rw [hmap]; exact List.mem_map.2 ⟨t, ht, rfl⟩
            have hlow := hF.low ix hv hT t hin
            simp only [ne_eq, decide_not, Bool.not_eq_eq_eq_not, Bool.not_true, decide_eq_false_iff_not]
            intro he
            rcases hP.val t with ⟨h2, _⟩ | ⟨h2, _⟩ | ⟨h2, h3, m, h4, h5⟩
            · omega
            · have : t = ix := Fin.ext (by omega)
              rw [this] at hlow
              exact lt_irrefl _ hlow
            · have : m = ix := Fin.ext (by omega)
              rw [this] at h4
              exact lt_asymm hlow (hF.low t h3 h2 ix h4)
          rw [hfil] at h
          have hsame : update s.fc ix (l.map some) = s.fc := by
            rw [← hmap, ← hP.fc]; exact update_eq_self _ _
          rw [hsame] at h
          split at h
          · rename_i hlong
            obtain ⟨c, hc, h⟩ := Res.bind_eq_ok.1 h
            refine choose_falling hF hP h1 hv hT (fun hso _ => ?_) h
            rw [hmap] at hso
            exact continuous_soft hso (by rintro hnil; rw [hnil] at hlong; simp at hlong) hc
          · rename_i hlong
            refine choose_falling hF hP h1 hv hT (fun _ hl2 => ?_) h
            rw [hmap, List.length_map] at hl2
            exact absurd hl2 hlong
        · rename_i hlong
          rw [hP.fc] at hlong
          exact choose_falling hF hP h1 hv hT (fun _ hl2 => absurd hl2 hlong) h
  refine ⟨key.1, fun n => ?_⟩
  by_cases hTn : T n
  · have hn : s.fdir n = ((n : ℕ) : ℤ) := by
      rcases hP.val n with ⟨_, h⟩ | ⟨h, _⟩ | ⟨h, _⟩
      · exact absurd hTn h
      · exact h
      · exact absurd hTn h
    rw [hst.keep n ⟨by omega, by omega⟩ (fun h1 _ hp => hF.tie ix n (fun hT => by
      rcases hP.val ix with ⟨_, h⟩ | ⟨h, _⟩ | ⟨h, _⟩
      · exact h hT
      · omega
      · exact h hT) hTn hp)]
    exact hP.val n
  · rcases hst.change n with hc | ⟨h1, h2, h3⟩ | ⟨h1, h2, h3, h4⟩
    · rw [hc]; exact hP.val n
    · exact .inr (.inl ⟨h3, .inr (by rw [h1]; exact h2)⟩)
    · have hvn : valid n = true := by
        rcases h3 with rfl | ⟨p, hp⟩
        · exact h1
        · exact hF.valid p n hp
      rcases h4 with h4 | ⟨e, he, h4⟩
      · exact absurd h4 (key.2 n)
      · cases e with
        | none => exact absurd he (hF.real n hvn hTn)
        | some m => exact .inr (.inr ⟨hTn, hvn, m, he, h4⟩)

theorem loop_falling (hF : Falling frow A valid T r) (l : List (Fin N)) : ∀ (s s' : State N), PState A valid T s →
    l.foldl (cellStep frow fuel valid) (.ok s) = .ok s' → PState A valid T s' := by
  induction l with
  | nil =>
    intro s s' hP h
    simp only [List.foldl_nil, Res.ok.injEq] at h
    subst h; exact hP
  | cons a l ih =>
    intro s s' hP h
    rw [List.foldl_cons] at h
    cases hc : cellStep frow fuel valid (.ok s) a with
    | ok s1 =>
      rw [hc] at h
      exact ih s1 s' (cellStep_falling hF hP hc) h
    | err e => rw [hc] at h; exact absurd h (foldl_not_ok l _ (by simp) s')
    | hang => rw [hc] at h; exact absurd h (foldl_not_ok l _ (by simp) s')

end Rank

/-! ### C97 -/

section C97

variable {K : Type*} [Field K] [LinearOrder K] [IsStrictOrderedRing K] {G : Geo N K}
  {dem : Fin N → Option K} {thr big : K} {nbr : Fin N → List (Fin N)} {terminals : List ℤ} {fuel : ℕ}
  {out : Fin N → ℤ}

/-- Every cell with an elevation that is not terminal has a strictly lower neighbour. -/
def AllFall (dem : Fin N → Option K) (terminals : List ℤ) (nbr : Fin N → List (Fin N)) : Prop :=
  ∀ n, dem n ≠ none → ¬ Terminal dem terminals n → HasLower dem nbr n

/-- Cells that have a terminal cell among their steepest neighbours have at most three of these, any two of them
neighbours of each other. -/
def CleanEnds (G : Geo N K) (dem : Fin N → Option K) (thr : K) (terminals : List ℤ)
    (nbr : Fin N → List (Fin N)) : Prop :=
  ∀ n t, ¬ Terminal dem terminals n → Terminal dem terminals t → Steepest G dem thr nbr n t →
    EasyTie G dem thr nbr n

/-- **C97.** If every cell has a strictly lower neighbour, except the terminal cells and cells without
elevation, and ties between a terminal cell and others are easy ones (`CleanEnds`), then
`flow_directions` gives every cell a cell to flow to: terminal cells and cells without elevation flow to
themselves, all others to a strictly lower steepest neighbour — also those with several of them —, and no
cell gets the sink code. -/
theorem C97_all_drain (hr : InRange N terminals) (hN : N < 1000000) (hb : Below G dem thr big nbr)
    (hn : HasNbr dem nbr) (hnd : ∀ n, (nbr n).Nodup) (hs : Sound G dem nbr)
    (hfall : AllFall dem terminals nbr) (hend : CleanEnds G dem thr terminals nbr)
    (h : flowDirections fuel G dem big (table nbr) thr terminals = .ok out) (n : Fin N) :
    ((Terminal dem terminals n ∨ dem n = none) → out n = ((n : ℕ) : ℤ)) ∧
    (¬ (Terminal dem terminals n ∨ dem n = none) → ∃ m a b, Steepest G dem thr nbr n m ∧
      out n = ((m : ℕ) : ℤ) ∧ dem n = some a ∧ dem m = some b ∧ b < a) := by
  obtain ⟨s0, s', hfc, h0, hl, rfl⟩ := run_spec hr h
  have hv : ∀ n : Fin N, (dem n).isSome = true → dem n ≠ none := by
    intro n h h'; simp [h'] at h
  have hF : Falling (pad (table nbr)) (fc0 G dem thr big nbr) (fun n => (dem n).isSome) (Terminal dem terminals)
      (fun n => (dem n).getD 0) := by
    refine ⟨fun n h _ => fc0_ne_nil hn (hv n h), fun n h _ => none_notMem_fc0 hb hn (hv n h), ?_, ?_, ?_⟩
    · intro n h hT m hm
      obtain ⟨a, b, ha, hb', hlt⟩ := steepest_lower hs (hfall n (hv n h) hT) (steepest_of_mem_fc0 hm)
      simpa [ha, hb'] using hlt
    · intro n m hm
      have := (steepest_of_mem_fc0 hm).valid.2
      cases hd : dem m with
      | none => exact absurd hd this
      | some v => rfl
    · intro p t hp0 hT hp
      exact soft_fc0 hb (hnd p) hp (hend p t hp0 hT (steepest_of_mem_fc0 hp))
  have hP := loop_falling hF _ s0 s' ⟨hfc, fun n => by
    rcases h0 n with ⟨h1, h2⟩ | ⟨h1, h2⟩
    · exact .inr (.inl ⟨h2, .inl h1⟩)
    · exact .inl ⟨h2, h1⟩⟩ hl
  have hdone := loop_done (A := fc0 G dem thr big nbr) _ s0 s' (by rw [hfc]; exact fc0_inv) hl n
    (List.mem_finRange n) (.inl hN)
  have hself : dem n = none ↔ (dem n).isSome = false := by cases dem n <;> simp
  rcases hP.val n with ⟨h1, _⟩ | ⟨h1, h2⟩ | ⟨h1, h2, m, h3, h4⟩
  · exact absurd h1 hdone
  · exact ⟨fun _ => h1, fun h3 => absurd (h2.imp id hself.2) h3⟩
  · refine ⟨fun h5 => ?_, fun h5 => ?_⟩
    · rcases h5 with h5 | h5
      · exact absurd h5 h1
      · rw [h5] at h2; cases h2
    · have hst := steepest_of_mem_fc0 h3
      obtain ⟨a, b, ha, hb', hlt⟩ := steepest_lower hs (hfall n (hv n h2) h1) hst
      exact ⟨m, a, b, hst, h4, ha, hb', hlt⟩

/-- **C97**, as a statement on the flow network: under the same conditions the array holds cell numbers,
nothing flows in circles, and every flow path ends in a terminal cell or a cell without elevation. -/
theorem C97_network (hr : InRange N terminals) (hN : N < 1000000) (hb : Below G dem thr big nbr)
    (hn : HasNbr dem nbr) (hnd : ∀ n, (nbr n).Nodup) (hs : Sound G dem nbr)
    (hfall : AllFall dem terminals nbr) (hend : CleanEnds G dem thr terminals nbr)
    (h : flowDirections fuel G dem big (table nbr) thr terminals = .ok out) :
    ∃ d : Fin N → Fin N, Legal out d ∧ (∀ n, ¬ OnCycle d n) ∧
      (∀ n, d n = n ↔ Terminal dem terminals n ∨ dem n = none) ∧
      ∀ n, ∃ e, Reaches d n e ∧ d e = e ∧ (dem n ≠ none → Terminal dem terminals e) := by
  have key := C97_all_drain hr hN hb hn hnd hs hfall hend h
  have hex : ∀ n, ∃ m : Fin N, out n = ((m : ℕ) : ℤ) ∧
      ((Terminal dem terminals n ∨ dem n = none) → m = n) ∧
      (¬ (Terminal dem terminals n ∨ dem n = none) → ∃ a b, dem n = some a ∧ dem m = some b ∧ b < a) := by
    intro n
    by_cases hc : Terminal dem terminals n ∨ dem n = none
    · exact ⟨n, (key n).1 hc, fun _ => rfl, fun h => absurd hc h⟩
    · obtain ⟨m, a, b, _, h1, h2, h3, h4⟩ := (key n).2 hc
      exact ⟨m, h1, fun h => absurd h hc, fun _ => ⟨a, b, h2, h3, h4⟩⟩
  choose d hd1 hd2 hd3 using hex
  have hlt : ∀ n, ¬ (Terminal dem terminals n ∨ dem n = none) →
      (dem (d n)).getD 0 < (dem n).getD 0 ∧ dem (d n) ≠ none := by
    intro n hc
    obtain ⟨a, b, h1, h2, h3⟩ := hd3 n hc
    simp [h1, h2, h3]
  have hfix : ∀ n, d n = n ↔ Terminal dem terminals n ∨ dem n = none := by
    intro n
    refine ⟨fun h => ?_, hd2 n⟩
    by_contra hc
    have := (hlt n hc).1
    rw [h] at this
    exact lt_irrefl _ this
  have hmono : ∀ n (k : ℕ), (dem (d^[k] n)).getD 0 ≤ (dem n).getD 0 := by
    intro n k
    induction k with
    | zero => exact le_rfl
    | succ k ih =>
      rw [Function.iterate_succ_apply']
      refine le_trans ?_ ih
      by_cases hc : Terminal dem terminals (d^[k] n) ∨ dem (d^[k] n) = none
      · rw [(hfix _).2 hc]
      · exact (hlt _ hc).1.le
  have hwf : WellFounded (fun a b : Fin N => (dem a).getD 0 < (dem b).getD 0) := by
    have : IsTrans (Fin N) (fun a b => (dem a).getD 0 < (dem b).getD 0) :=
      ⟨fun a b c h1 h2 => lt_trans h1 h2⟩
    have : Std.Irrefl (fun a b : Fin N => (dem a).getD 0 < (dem b).getD 0) := ⟨fun a => lt_irrefl _⟩
    exact Finite.wellFounded_of_trans_of_irrefl _
  refine ⟨d, hd1, ?_, hfix, ?_⟩
  · rintro n ⟨h1, k, h2⟩
    rw [ne_eq, hfix] at h1
    have h3 := hmono (d n) k
    rw [Function.iterate_succ_apply] at h2
    rw [h2] at h3
    exact absurd (hlt n h1).1 (not_lt.2 h3)
  · intro n
    induction n using hwf.induction with
    | _ n ih =>
      by_cases hc : Terminal dem terminals n ∨ dem n = none
      · exact ⟨n, Reaches.refl n, (hfix n).2 hc, fun h => hc.resolve_right h⟩
      · obtain ⟨e, h1, h2, h3⟩ := ih (d n) (hlt n hc).1
        exact ⟨e, (Reaches.step n).trans h1, h2, fun _ => h3 (hlt n hc).2⟩

end C97

end Dany.Dirs
