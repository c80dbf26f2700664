import Verif.Dirs.DrainWitness
import Verif.Dirs.Scale

/-!
# C173: what `burn_threshold` does

`flow_directions(burn_threshold=...)` counts a rise below the threshold as none.  A cell with a strictly lower
neighbour does not look at its rises; so once every cell has one, as after filling, the threshold does nothing.
-/

namespace Dany.Dirs

open Function

variable {N : ℕ}

/-! ### Two tables of candidates that agree where they are read -/

/-- The tables `A` and `B` agree on the cells of `P`, and candidates of a cell of `P` are in `P` again or in `T`. -/
structure Agree (P T : Fin N → Prop) (A B : Fin N → List (Entry N)) : Prop where
  eq : ∀ n, P n → A n = B n
  next : ∀ n, P n → ∀ m, some m ∈ A n → P m ∨ T m

variable {P T : Fin N → Prop} {A B : Fin N → List (Entry N)}

theorem connFold_keys {fdir : Fin N → ℤ} {cell : Fin N} : ∀ (l : List (Fin N))
    (st : Dict (Fin N) (Fin N) × Option (Fin N) × Bool) (c : Fin N),
    c ∈ st.1.keys ∨ c ∈ l → c ∈ (l.foldl (connStep fdir cell) st).1.keys := by
  intro l
  induction l with
  | nil => intro st c h; simpa using h
  | cons a l ih =>
    intro st c h
    simp only [List.foldl_cons]
    apply ih
    unfold connStep
    rcases h with h | h
    · left
      split
      · exact h
      · exact Dict.mem_keys_set.2 (.inl h)
    · rcases List.mem_cons.1 h with rfl | h
      · left
        split
        · assumption
        · exact Dict.mem_keys_set.2 (.inr rfl)
      · exact .inr h

/-- a cell that has a direction is not scheduled -/
theorem resolve_more {fdir : Fin N → ℤ} {cell t : Fin N} (ht : fdir t ≠ -1 ∧ fdir t ≠ -2) (hct : cell ≠ t)
    {conns : List (Fin N)} {b : BState N} (hb : KInv t b) :
    t ∉ (if (resolve fdir cell conns b.stack b.dest).2.1 = none then conns else []) ∧
      KInv t ⟨(resolve fdir cell conns b.stack b.dest).1, (resolve fdir cell conns b.stack b.dest).2.1,
        (resolve fdir cell conns b.stack b.dest).2.2, b.visited ++ [cell],
        b.tmp ++ (if (resolve fdir cell conns b.stack b.dest).2.1 = none then conns else [])⟩ := by
  obtain ⟨i1, i2⟩ := resolve_keep (conns := conns) ht hct hb.keys hb.vals
  have hmore : t ∉ (if (resolve fdir cell conns b.stack b.dest).2.1 = none then conns else []) := by
    split
    · rename_i hd
      exact fun hc => i1 (connFold_keys _ _ _ (.inr hc)) hd
    · simp
  exact ⟨hmore, fun h => (List.mem_append.1 h).elim hb.tmp hmore, i1, i2⟩

theorem searchPass_agree (h : Agree P T A B) {fdir : Fin N → ℤ} (hT : ∀ t, T t → fdir t ≠ -1 ∧ fdir t ≠ -2)
    (hPT : ∀ n, P n → ¬ T n) : ∀ (k : ℕ) (pending : List (Fin N)) (n : ℕ)
    (b : BState N), (∀ c ∈ pending, P c) → (∀ c ∈ b.tmp, P c) → (∀ t, T t → KInv t b) →
    searchPass fdir A k pending n b = searchPass fdir B k pending n b ∧
      ∀ b', searchPass fdir A k pending n b = .ok b' → (∀ c ∈ b'.tmp, P c) ∧ ∀ t, T t → KInv t b' := by
  intro k
  induction k with
  | zero => intro pending n b _ _ _; exact ⟨rfl, fun b' hb => by cases hb⟩
  | succ k ih =>
    intro pending n b hp hb hK
    cases pending with
    | nil =>
      refine ⟨rfl, fun b' hb' => ?_⟩
      simp only [searchPass, Res.ok.injEq] at hb'
      subst hb'; exact ⟨hb, hK⟩
    | cons cell pending =>
      have hcell := hp cell (by simp)
      have hrest : ∀ c ∈ pending, P c := fun c hc => hp c (by simp [hc])
      simp only [searchPass]
      split
      · rw [← h.eq cell hcell]
        cases hr : reals (A cell) with
        | err e => exact ⟨rfl, fun b' hb' => by cases hb'⟩
        | hang => exact ⟨rfl, fun b' hb' => by cases hb'⟩
        | ok conns =>
          simp only [Res.bind_ok]
          have hct : ∀ t, T t → cell ≠ t := by rintro t ht rfl; exact hPT _ hcell ht
          have hmore : ∀ c ∈ (if (resolve fdir cell conns b.stack b.dest).2.1 = none then conns else []), P c := by
            intro c hc
            have hin : some c ∈ A cell := by
              split at hc
              · rw [reals_mem hr]; exact List.mem_map.2 ⟨c, hc, rfl⟩
              · cases hc
            refine (h.next cell hcell c hin).resolve_right fun ht => ?_
            exact (resolve_more (hT c ht) (hct c ht) (hK c ht)).1 hc
          exact ih _ n _ (by
            intro c hc
            rcases List.mem_append.1 hc with hc | hc
            · exact hrest c hc
            · exact hmore c hc) (by
            intro c hc
            rcases List.mem_append.1 hc with hc | hc
            · exact hb c hc
            · exact hmore c hc) (fun t ht => (resolve_more (hT t ht) (hct t ht) (hK t ht)).2)
      · split
        · exact ih _ n b hrest hb hK
        · refine ih _ (n + 1) _ hrest ?_ ?_
          · split
            · exact hb
            · exact hb
          · intro t ht
            have := hK t ht
            split
            · exact ⟨this.tmp, this.keys, this.vals⟩
            · exact this

theorem searchLoop_agree (h : Agree P T A B) {fdir : Fin N → ℤ} (hT : ∀ t, T t → fdir t ≠ -1 ∧ fdir t ≠ -2)
    (hPT : ∀ n, P n → ¬ T n) {pfuel : ℕ} : ∀ (k : ℕ) (b : BState N),
    (∀ c ∈ b.tmp, P c) → (∀ t, T t → KInv t b) → searchLoop fdir A pfuel k b = searchLoop fdir B pfuel k b := by
  intro k
  induction k with
  | zero => intro b _ _; rfl
  | succ k ih =>
    intro b hb hK
    simp only [searchLoop]
    obtain ⟨h1, h2⟩ := searchPass_agree h hT hPT pfuel b.tmp 0 b hb hb hK
    rw [← h1]
    cases hs : searchPass fdir A pfuel b.tmp 0 b with
    | err e => rfl
    | hang => rfl
    | ok b' =>
      simp only [Res.bind_ok]
      split
      · rfl
      · split
        · rfl
        · exact ih b' (h2 b' hs).1 (h2 b' hs).2

theorem search_agree (h : Agree P T A B) {fdir : Fin N → ℤ} (hT : ∀ t, T t → fdir t ≠ -1 ∧ fdir t ≠ -2)
    (hPT : ∀ n, P n → ¬ T n) {fuel : ℕ} {ix : Fin N} (hix : P ix) {conns : List (Fin N)}
    (hc : ∀ c ∈ conns, P c) : search fuel fdir A ix conns = search fuel fdir B ix conns := by
  unfold search
  rw [searchLoop_agree h hT hPT fuel _ hc fun t ht => ?_]
  have hn : t ∉ conns := fun h => hPT t (hc t h) ht
  refine ⟨hn, fun h => absurd (startStack_keys h) hn, fun e he => ?_⟩
  rw [startStack_vals he]
  rintro rfl
  exact hPT _ hix ht

theorem choose_agree (h : Agree P T A B) {f : Fin N → ℤ} (hT : ∀ t, T t → f t ≠ -1 ∧ f t ≠ -2)
    (hPT : ∀ n, P n → ¬ T n) {frow : Fin N → List (Entry N)} {fuel : ℕ} {ix : Fin N} {cont : Bool} (hix : P ix)
    (hne : A ix ≠ []) (htie : ∀ t, T t → some t ∈ A ix → Soft frow (A ix))
    (hcont : Soft frow (A ix) → 1 < (A ix).length → cont = true) :
    ∃ r : Res (Fin N → ℤ), choose fuel ⟨f, A⟩ ix cont = r.map (fun f => ⟨f, A⟩) ∧
      choose fuel ⟨f, B⟩ ix cont = r.map (fun f => ⟨f, B⟩) := by
  have he := h.eq ix hix
  have hnx := h.next ix hix
  unfold choose
  simp only [← he]
  generalize hL : A ix = L at hnx hne htie hcont
  split
  · exact ⟨.ok _, rfl, rfl⟩
  · exact ⟨.ok _, rfl, rfl⟩
  · exact ⟨.ok _, rfl, rfl⟩
  · rename_i hn1 hn2 hn3
    cases hr : reals L with
    | err e => exact ⟨.err e, rfl, rfl⟩
    | hang => exact ⟨.hang, rfl, rfl⟩
    | ok conns =>
      refine ⟨search fuel f A ix conns, rfl, ?_⟩
      have hmap := reals_mem hr
      have hsoft : ¬ Soft frow L := by
        intro hso
        have hfew := hso.few
        rcases L with _ | ⟨a, _ | ⟨b, _ | ⟨c, _ | ⟨d, l⟩⟩⟩⟩
        · exact hne rfl
        · exact hn1 a rfl
        · exact hn2 a b rfl (hcont hso (by simp))
        · exact hn3 a b c rfl (hcont hso (by simp))
        · simp only [List.length_cons] at hfew; omega
      rw [search_agree h hT hPT hix]
      · rfl
      · intro c hc
        have hin : some c ∈ L := by rw [hmap]; exact List.mem_map.2 ⟨c, hc, rfl⟩
        exact (hnx c hin).resolve_right fun ht => hsoft (htie c ht hin)

variable {R : Type*} [LinearOrder R] {r : Fin N → R} {valid : Fin N → Bool}
  {frow : Fin N → List (Entry N)} {fuel : ℕ}

theorem Falling.agree (hF : Falling frow A valid T r) (hAB : ∀ n, valid n = true → ¬ T n → A n = B n) :
    Agree (fun n => valid n = true ∧ ¬ T n) T A B := by
  refine ⟨fun n h => hAB n h.1 h.2, fun n h m hm => ?_⟩
  by_cases ht : T m
  · exact .inr ht
  · exact .inl ⟨hF.valid n m hm, ht⟩

theorem cellStep_agree (hF : Falling frow A valid T r) (hAB : ∀ n, valid n = true → ¬ T n → A n = B n)
    {f : Fin N → ℤ} (hP : PState A valid T ⟨f, A⟩) (ix : Fin N) :
    ∃ q : Res (Fin N → ℤ), cellStep frow fuel valid (.ok ⟨f, A⟩) ix = q.map (fun f => ⟨f, A⟩) ∧
      cellStep frow fuel valid (.ok ⟨f, B⟩) ix = q.map (fun f => ⟨f, B⟩) := by
  have hag := hF.agree hAB
  unfold cellStep
  simp only [Res.bind_ok]
  by_cases h1 : f ix ≠ -1
  · rw [if_pos h1, if_pos h1]; exact ⟨.ok f, rfl, rfl⟩
  rw [if_neg h1, if_neg h1]
  have h1 := not_not.1 h1
  have hT : ¬ T ix := by
    rcases hP.val ix with ⟨_, h⟩ | ⟨h, _⟩ | ⟨h, _⟩
    · exact h
    · dsimp only at h; omega
    · exact h
  by_cases hv : valid ix = false
  · rw [if_pos hv, if_pos hv]; exact ⟨.ok _, rfl, rfl⟩
  rw [if_neg hv, if_neg hv]
  have hv : valid ix = true := by simpa using hv
  have hTd : ∀ t, T t → f t ≠ -1 ∧ f t ≠ -2 := by
    intro t ht
    rcases hP.val t with ⟨_, h⟩ | ⟨h, _⟩ | ⟨h, _⟩
    · exact absurd ht h
    · dsimp only at h; rw [h]; constructor <;> omega
    · exact absurd ht h
  have hch := fun (c : Bool) hc => choose_agree (fuel := fuel) (cont := c) hag hTd (fun n h => h.2) (ix := ix) ⟨hv, hT⟩
    (hF.ne ix hv hT) (fun t ht hm => hF.tie ix t hT ht hm) hc
  rw [← hAB ix hv hT]
  split
  · cases hl : reals (A ix) with
    | err e => exact ⟨.err e, rfl, rfl⟩
    | hang => exact ⟨.hang, rfl, rfl⟩
    | ok l =>
      simp only [Res.bind_ok]
      have hmap := reals_mem hl
      have hfil : l.filter (fun t => f t ≠ ((ix : ℕ) : ℤ)) = l := by
        rw [List.filter_eq_self]
        intro t ht
        have hin : some t ∈ A ix := by rw [hmap]; exact List.mem_map.2 ⟨t, ht, rfl⟩
        have hlow := hF.low ix hv hT t hin
        simp only [ne_eq, decide_not, Bool.not_eq_eq_eq_not, Bool.not_true, decide_eq_false_iff_not]
        intro he
        rcases hP.val t with ⟨h2, _⟩ | ⟨h2, _⟩ | ⟨h2, h3, m, h4, h5⟩
        · dsimp only at h2; omega
        · dsimp only at h2
          have : t = ix := Fin.ext (by omega)
          rw [this] at hlow
          exact lt_irrefl _ hlow
        · dsimp only at h5
          have : m = ix := Fin.ext (by omega)
          rw [this] at h4
          exact lt_asymm hlow (hF.low t h3 h2 ix h4)
      rw [hfil]
      have hA : update A ix (l.map some) = A := by rw [← hmap]; exact update_eq_self _ _
      have hB : update B ix (l.map some) = B := by rw [← hmap, hAB ix hv hT]; exact update_eq_self _ _
      rw [hA, hB]
      split
      · rename_i hlong
        cases hc : continuous frow fuel l with
        | err e => exact ⟨.err e, rfl, rfl⟩
        | hang => exact ⟨.hang, rfl, rfl⟩
        | ok c =>
          refine hch c (fun hso _ => ?_)
          rw [hmap] at hso
          exact continuous_soft hso (by rintro hnil; rw [hnil] at hlong; simp at hlong) hc
      · rename_i hlong
        refine hch _ (fun _ hl2 => ?_)
        rw [hmap, List.length_map] at hl2
        exact absurd hl2 hlong
  · rename_i hlong
    exact hch _ (fun _ hl2 => absurd hl2 hlong)

theorem cellStep_err (l : List (Fin N)) (e : PyErr) :
    l.foldl (cellStep frow fuel valid) (.err e) = .err e := by
  induction l with
  | nil => rfl
  | cons a l ih => rw [List.foldl_cons]; exact ih

theorem cellStep_hang (l : List (Fin N)) : l.foldl (cellStep frow fuel valid) .hang = .hang := by
  induction l with
  | nil => rfl
  | cons a l ih => rw [List.foldl_cons]; exact ih

theorem loop_agree (hF : Falling frow A valid T r) (hAB : ∀ n, valid n = true → ¬ T n → A n = B n) (l : List (Fin N)) :
    ∀ f : Fin N → ℤ, PState A valid T ⟨f, A⟩ →
    (l.foldl (cellStep frow fuel valid) (.ok ⟨f, A⟩)).map State.fdir =
      (l.foldl (cellStep frow fuel valid) (.ok ⟨f, B⟩)).map State.fdir := by
  induction l with
  | nil => intro f _; rfl
  | cons ix l ih =>
    intro f hP
    rw [List.foldl_cons, List.foldl_cons]
    obtain ⟨q, h1, h2⟩ := cellStep_agree (frow := frow) (fuel := fuel) hF hAB hP ix
    rw [h1, h2]
    cases q with
    | err e => simp only [Res.map_err, cellStep_err]
    | hang => simp only [Res.map_hang, cellStep_hang]
    | ok g => exact ih g (cellStep_falling hF hP h1)

/-! ### The threshold -/

section Burn

variable {K : Type*} [Field K] [LinearOrder K] [IsStrictOrderedRing K] {G : Geo N K} {dem : Fin N → Option K}
  {thr thr' big : K} {nbr : Fin N → List (Fin N)} {terminals : List ℤ}

/-- the slopes under two thresholds are equal, or neither is negative -/
theorem slope_thr (hs : Sound G dem nbr) {n m : Fin N} (hm : m ∈ nbr n) {s s' : K}
    (h : Slope G dem thr n m s) (h' : Slope G dem thr' n m s') : s = s' ∨ (0 ≤ s ∧ 0 ≤ s') := by
  obtain ⟨a, b, ha, hb, rfl⟩ := h
  obtain ⟨a', b', ha', hb', rfl⟩ := h'
  rw [ha] at ha'; cases ha'
  rw [hb] at hb'; cases hb'
  by_cases h0 : 0 < G.rnd (b - a)
  · right
    have key : ∀ t : K, 0 ≤ G.rnd (rise G t a b / G.dist n m) := by
      intro t
      rw [← hs.zero]
      refine hs.mono (div_nonneg ?_ (hs.dist n m hm).le)
      unfold rise
      split
      · exact le_rfl
      · exact h0.le
    exact ⟨key _, key _⟩
  · left
    simp only [rise, h0, false_and, if_false]

/-- at a cell with a lower neighbour the threshold does not count -/
theorem fc0_thr (hs : Sound G dem nbr) {n : Fin N} (hl : HasLower dem nbr n) :
    fc0 G dem thr big nbr n = fc0 G dem thr' big nbr n := by
  obtain ⟨l, hln, a, b, ha, hb, hlt⟩ := hl
  have hneg : ∀ t : K, ∃ s, Slope G dem t n l s ∧ s < 0 := fun t =>
    ⟨_, ⟨a, b, ha, hb, rfl⟩, by rw [hs.rise_of_lt hlt]; exact hs.falls n l hln a b ha hb hlt⟩
  have half : ∀ {t t' : K} {e : Entry N}, e ∈ fcell (slopeTo G dem t big n) (pad (table nbr) n) →
      e ∈ fcell (slopeTo G dem t' big n) (pad (table nbr) n) := by
    intro t t' e he
    rw [mem_fcell] at he ⊢
    obtain ⟨h1, s, h2, h3⟩ := he
    refine ⟨h1, s, ?_, ?_⟩
    · cases e with
      | none => exact h2
      | some m =>
        obtain ⟨s', hs'⟩ : ∃ s', Slope G dem t' n m s' := by
          obtain ⟨x, y, hx, hy, _⟩ := slopeTo_some.1 h2
          exact ⟨_, x, y, hx, hy, rfl⟩
        rw [slopeTo_some]
        rcases slope_thr hs (mem_pad_table h1) (slopeTo_some.1 h2) hs' with e | ⟨e, _⟩
        · rw [e]; exact hs'
        · obtain ⟨s0, hs0, hlt0⟩ := hneg t
          have := h3 (some l) (some_mem_pad.2 hln) s0 (slopeTo_some.2 hs0)
          exact absurd (e.trans this) (not_le.2 hlt0)
    · intro e' he' w hw
      cases e' with
      | none => exact h3 none he' w hw
      | some m =>
        obtain ⟨w', hw'⟩ : ∃ w', Slope G dem t n m w' := by
          obtain ⟨x, y, hx, hy, _⟩ := slopeTo_some.1 hw
          exact ⟨_, x, y, hx, hy, rfl⟩
        have hle := h3 (some m) he' w' (slopeTo_some.2 hw')
        rcases slope_thr hs (mem_pad_table he') hw' (slopeTo_some.1 hw) with e | ⟨_, e⟩
        · rw [← e]; exact hle
        · obtain ⟨s0, hs0, hlt0⟩ := hneg t
          have := h3 (some l) (some_mem_pad.2 hln) s0 (slopeTo_some.2 hs0)
          exact (this.trans hlt0.le).trans e
  show fcell _ _ = fcell _ _
  rw [fcell_filter, fcell_filter (slopeTo G dem thr' big n)]
  refine List.filter_congr fun e _ => ?_
  rw [decide_eq_decide]
  exact ⟨half, half⟩

/-- **C173** (locally).  Where a cell has a strictly lower neighbour, its steepest neighbours do not depend on the
threshold. -/
theorem C173_steepest (hs : Sound G dem nbr) {n : Fin N} (hl : HasLower dem nbr n) (thr thr' : K) (m : Fin N) :
    Steepest G dem thr nbr n m ↔ Steepest G dem thr' nbr n m := by
  obtain ⟨l, hln, a, b, ha, hb, hlt⟩ := hl
  have half : ∀ {t t' : K}, Steepest G dem t nbr n m → Steepest G dem t' nbr n m := by
    rintro t t' ⟨hm, s, hsl, hle⟩
    have h0 : s < 0 := lt_of_le_of_lt (hle l hln _ ⟨a, b, ha, hb, rfl⟩)
      (by rw [hs.rise_of_lt hlt]; exact hs.falls n l hln a b ha hb hlt)
    obtain ⟨x, y, hx, hy, _⟩ := id hsl
    refine ⟨hm, s, ?_, fun m' hm' w hw => ?_⟩
    · have hs' : Slope G dem t' n m _ := ⟨x, y, hx, hy, rfl⟩
      rcases slope_thr hs hm hsl hs' with e | ⟨e, _⟩
      · rw [e]; exact hs'
      · exact absurd e (not_le.2 h0)
    · obtain ⟨x', y', hx', hy', _⟩ := id hw
      have hw' : Slope G dem t n m' _ := ⟨x', y', hx', hy', rfl⟩
      have := hle m' hm' _ hw'
      rcases slope_thr hs hm' hw' hw with e | ⟨_, e⟩
      · rw [← e]; exact this
      · exact h0.le.trans e
  exact ⟨half, half⟩

omit [IsStrictOrderedRing K] in
theorem start_spec (hr : InRange N terminals) {f0 f1 : Fin N → ℤ} (h0 : setMin (minCells dem big) (fun _ => -1) = .ok f0)
    (h1 : setTerminals terminals f0 = .ok f1) (n : Fin N) : (Terminal dem terminals n ∧ f1 n = ((n : ℕ) : ℤ)) ∨
        (¬ Terminal dem terminals n ∧ f1 n = -1) := by
  obtain ⟨e1, e2⟩ := setMin_ok h0
  obtain ⟨f1', e3, e4⟩ := setTerminals_spec hr f0
  rw [h1] at e3
  simp only [Res.ok.injEq] at e3
  subst e3
  rw [e4, e2]
  by_cases ht : ((n : ℕ) : ℤ) ∈ terminals
  · left; exact ⟨.inr ht, by simp [ht]⟩
  · by_cases hm : some n ∈ minCells dem big
    · left
      obtain ⟨v, hv, _, hle⟩ := some_mem_minCells.1 hm
      exact ⟨.inl ⟨v, hv, hle⟩, by simp [ht, hm]⟩
    · right
      refine ⟨?_, by simp [ht, hm]⟩
      rintro (⟨v, hv, hle⟩ | h)
      · rw [none_mem_minCells] at e1
        push Not at e1
        obtain ⟨m, w, hw, hlt⟩ := e1
        exact hm (some_mem_minCells.2 ⟨v, hv, (hle m w hw).trans hlt.le, hle⟩)
      · exact ht h

/-- **C173** (the whole call).  Every cell with an elevation has a strictly lower neighbour or is terminal, as after
filling, and terminal cells tie with others at most in easy ties (`CleanEnds`): then `flow_directions` gives the same
result — the same array, or the same exception — for every `burn_threshold`. (flow_directions.py:144-174, 176-324) -/
theorem C173_same (hr : InRange N terminals) (hb : Below G dem thr big nbr) (hn : HasNbr dem nbr)
    (hnd : ∀ n, (nbr n).Nodup) (hs : Sound G dem nbr) (hfall : AllFall dem terminals nbr)
    (hend : CleanEnds G dem thr terminals nbr) (thr' : K) (fuel : ℕ) :
    flowDirections fuel G dem big (table nbr) thr' terminals =
      flowDirections fuel G dem big (table nbr) thr terminals := by
  have hv : ∀ n : Fin N, (dem n).isSome = true → dem n ≠ none := by
    intro n h h'; simp [h'] at h
  have hF : Falling (pad (table nbr)) (fc0 G dem thr big nbr) (fun n => (dem n).isSome) (Terminal dem terminals)
      (fun n => (dem n).getD 0) := by
    refine ⟨fun n h _ => fc0_ne_nil hn (hv n h), fun n h _ => none_notMem_fc0 hb hn (hv n h), ?_, ?_, ?_⟩
    · intro n h hT m hm
      obtain ⟨a, b, ha, hb', hlt⟩ := steepest_lower hs (hfall n (hv n h) hT) (steepest_of_mem_fc0 hm)
      simpa [ha, hb'] using hlt
    · intro n m hm
      have := (steepest_of_mem_fc0 hm).valid.2
      cases hd : dem m with
      | none => exact absurd hd this
      | some v => rfl
    · intro p t hp0 hT hp
      exact soft_fc0 hb (hnd p) hp (hend p t hp0 hT (steepest_of_mem_fc0 hp))
  unfold flowDirections
  cases h0 : setMin (minCells dem big) (fun _ => -1) with
  | err e => rfl
  | hang => rfl
  | ok f0 =>
    simp only [Res.bind_ok]
    cases h1 : setTerminals terminals f0 with
    | err e => rfl
    | hang => rfl
    | ok f1 =>
      simp only [Res.bind_ok, fcells]
      split
      · rfl
      · simp only [Res.bind_ok]
        refine (loop_agree (B := fc0 G dem thr' big nbr) hF (fun n h hT => fc0_thr hs (hfall n (hv n h) hT)) _ f1
          ⟨rfl, fun n => ?_⟩).symm
        rcases start_spec hr h0 h1 n with ⟨h2, h3⟩ | ⟨h2, h3⟩
        · exact .inr (.inl ⟨h3, .inl h2⟩)
        · exact .inl ⟨h3, h2⟩

omit [IsStrictOrderedRing K] in
/-- **C173** (small thresholds).  A threshold that no computed rise between neighbours stays below does nothing, on any
DEM: in particular one that is not positive. -/
theorem C173_small (fuel : ℕ) (G : Geo N K) (dem : Fin N → Option K) (big thr : K) (nbr : Fin N → List (Fin N))
    (terminals : List ℤ) (h : ∀ n, ∀ m ∈ nbr n, ∀ a b, dem n = some a → dem m = some b → 0 < G.rnd (b - a) →
      thr ≤ G.rnd (b - a)) :
    flowDirections fuel G dem big (table nbr) thr terminals = flowDirections fuel G dem big (table nbr) 0 terminals := by
  have key : fcells G dem thr big (table nbr) = fcells G dem 0 big (table nbr) := by
    unfold fcells
    congr 2
    funext n
    apply fcell_congr
    have hsl : ∀ e ∈ pad (table nbr) n, slopeTo G dem thr big n e = slopeTo G dem 0 big n e := by
      intro e he
      cases e with
      | none => rfl
      | some m =>
        dsimp only [slopeTo]
        cases ha : dem n with
        | none => rfl
        | some a =>
          cases hb : dem m with
          | none => rfl
          | some b =>
            have : flatten thr (G.rnd (b - a)) = flatten 0 (G.rnd (b - a)) := by
              unfold flatten
              by_cases h0 : 0 < G.rnd (b - a)
              · have := h n m (mem_pad_table he) a b ha hb h0
                rw [if_neg (fun h => absurd h.1 (not_lt.2 this)), if_neg (fun h => absurd h.1 (not_lt.2 h0.le))]
              · rw [if_neg (fun h => h0 h.2), if_neg (fun h => h0 h.2)]
            simp only [this]
    refine ⟨fun e he => by rw [hsl e he], fun e he e' he' v v' w w' h1 h2 h3 h4 => ?_⟩
    rw [hsl e he, h2] at h1
    rw [hsl e' he', h4] at h3
    cases h1; cases h3; rfl
  unfold flowDirections
  rw [key]

end Burn

/-! ### Examples -/

-- the grid of C97, with a tie, a hole and a named terminal cell
example (t : ℚ) : flowDirections 200 geo44 demT big (table nbr44) t [12] = .ok fdT :=
  (C173_same inRangeF belowT hasNbrT nodup44 sound44 fallT cleanT t 200).trans runT

/-- three by three cells in rook contact -/
def geo33 : Geo 9 ℚ := ⟨fun n => ((n.val % 3 : ℕ) : ℚ), fun n => ((n.val / 3 : ℕ) : ℚ), id, id⟩
def nbr33 : Fin 9 → List (Fin 9) :=
  ![[1, 3], [0, 2, 4], [1, 5], [0, 4, 6], [1, 3, 5, 7], [2, 4, 8], [3, 7], [6, 4, 8], [7, 5]]
/-- the middle cell lies above cells 1 and 7, which are equally low; 8 is the lowest cell -/
def dem33 : Fin 9 → Option ℚ :=
  ![some 2, some 0, some 1, some 5, some 4, some 5, some 3, some 0, some (-1)]

/-- **C173**, the condition on terminal cells is needed: the middle cell is equally steep above the named terminal
cell 1 and cell 7; every cell has a lower neighbour; the threshold decides where the terminal cell flows. -/
theorem C173_ties : AllFall dem33 [1] nbr33 ∧ Sound geo33 dem33 nbr33 ∧
    flowDirections 200 geo33 dem33 big (table nbr33) 0 [1] = .ok ![1, 2, 1, 0, 7, 8, 7, 8, 8] ∧
    flowDirections 200 geo33 dem33 big (table nbr33) 3 [1] = .ok ![1, 0, 1, 0, 7, 8, 7, 8, 8] := by
  refine ⟨?_, .exact rfl (by decide +kernel), by decide +kernel, by decide +kernel⟩
  have key : ∀ n : Fin 9, n ≠ 1 → n ≠ 8 → ∃ l ∈ nbr33 n, ((dem33 l).getD 0) < (dem33 n).getD 0 := by decide +kernel
  have hsome : ∀ n, dem33 n = some ((dem33 n).getD 0) := by decide +kernel
  intro n _ hT
  obtain ⟨l, h1, h2⟩ := key n (by rintro rfl; exact hT (.inr (by simp))) (by
    rintro rfl
    refine hT (.inl ⟨-1, by decide +kernel, fun m w hw => ?_⟩)
    have : ∀ m : Fin 9, -1 ≤ (dem33 m).getD 0 := by decide +kernel
    have := this m
    rw [hw] at this
    exact this)
  exact ⟨l, h1, _, _, hsome n, hsome l, h2⟩

/-- cell 0 is a pit; 6 is the lowest cell -/
def demPit : Fin 9 → Option ℚ :=
  ![some 0, some 1, some 2, some 3, some 4, some 1, some (-5), some 2, some (-1)]

-- **C173**, in a pit the threshold does count: without it cells 0 and 1 flow to each other, with it 0 flows over
-- cell 3 to the lowest cell
example : flowDirections 200 geo33 demPit big (table nbr33) 0 [] = .ok ![1, 0, 5, 6, 5, 8, 6, 6, 5] ∧
    flowDirections 200 geo33 demPit big (table nbr33) 4 [] = .ok ![3, 0, 5, 6, 5, 8, 6, 6, 7] := by decide +kernel
-- and a negative one counts as zero
example : flowDirections 200 geo33 demPit big (table nbr33) (-1) [] =
    flowDirections 200 geo33 demPit big (table nbr33) 0 [] :=
  C173_small 200 geo33 demPit big (-1) nbr33 [] (fun _ _ _ _ _ _ _ h => le_trans (by norm_num) h.le)

end Dany.Dirs
