import Verif.Basin.Props
import Mathlib.Logic.Relation

/-!
# C37, exactly: the watershed of recomputed flow directions

`_reverse_flow_directions` keeps its table for ever (flow_directions.py:358-359), but `get_watershed_boundary` counts the
cells flowing in afresh (flow_directions.py:521).  So after a recomputation it looks up the old tributaries, as many as
there are new ones, and reads the fill value `-1` as the last cell.
-/

namespace Dany.Basin

open Function Flow

variable {N : ℕ}

/-- the number of cells that flow into `c` -/
def inflows (d : Fin N → Fin N) (c : Fin N) : ℕ := (Finset.univ.filter fun v => d v = c).card

/-- `u` counts as a tributary of `c` after the directions `d` have been replaced by `d'`: it is one of the first
`inflows d' c` old tributaries; or it is the last cell of the grid, `c` has more tributaries now than before, and some
other cell had more before than `c`. -/
def StaleLink (d d' : Fin N → Fin N) (c u : Fin N) : Prop :=
  (d u = c ∧ (Finset.univ.filter fun v => d v = c ∧ v < u).card < inflows d' c) ∨
    (u.val + 1 = N ∧ inflows d c < inflows d' c ∧ ∃ e, inflows d c < inflows d e)

/-! ### The search on any table -/

/-- the tributaries in a table -/
def Edge (cols : Fin N → List ℤ) (a b : Fin N) : Prop := ∃ x ∈ cols a, pyIndex N x = .ok b

structure TInv (cols : Fin N → List ℤ) (p : Fin N) (id : ℕ) (st : List ℤ) (sub : Fin N → ℕ) : Prop where
  lab : ∀ c, (sub c = id ∧ Relation.ReflTransGen (Edge cols) p c) ∨ sub c = 0
  stack : ∀ x ∈ st, ∃ c, pyIndex N x = .ok c ∧ Relation.ReflTransGen (Edge cols) p c
  expand : ∀ c, sub c ≠ 0 → ∀ x ∈ cols c, x ∈ st ∨ ∃ u, pyIndex N x = .ok u ∧ sub u ≠ 0
  here : sub p = id

theorem bfs_any {rows : List (Fin N → ℤ)} {nidp : Fin N → ℕ} {id : ℕ} (hid : id ≠ 0) {p : Fin N}
    (hin : ∀ c, ∀ x ∈ column rows (nidp c) c, ∃ u, pyIndex N x = .ok u) :
    ∀ (fuel : ℕ) (st : List ℤ) (sub : Fin N → ℕ),
      TInv (fun c => column rows (nidp c) c) p id st sub →
      st.length + (∑ c, if sub c = 0 then nidp c else 0) < fuel →
      ∃ out, bfs rows nidp id fuel st sub = .ok out ∧ ∀ u,
        (Relation.ReflTransGen (Edge fun c => column rows (nidp c) c) p u → out u = id) ∧
        (¬ Relation.ReflTransGen (Edge fun c => column rows (nidp c) c) p u → out u = 0) := by
  intro fuel
  induction fuel with
  | zero => intro st sub _ h; omega
  | succ k ih =>
    intro st sub hi hw
    cases st with
    | nil =>
      refine ⟨sub, rfl, fun u => ⟨fun hu => ?_, fun hu => ?_⟩⟩
      · induction hu with
        | refl => exact hi.here
        | tail _ he ihu =>
          obtain ⟨x, hx, hxu⟩ := he
          rcases hi.expand _ (by rw [ihu]; exact hid) x hx with h | ⟨v, hv, hv0⟩
          · cases h
          · rw [hxu] at hv; cases hv
            rcases hi.lab _ with h | h
            · exact h.1
            · exact absurd h hv0
      · rcases hi.lab u with h | h
        · exact absurd h.2 hu
        · exact h
    | cons x rest =>
      obtain ⟨c, hidx, hreach⟩ := hi.stack x (by simp)
      simp only [bfs, hidx, Res.bind_ok]
      by_cases hc : sub c = 0
      · rw [if_neg (by simpa using hc)]
        have hcp : c ≠ p := by
          rintro rfl
          rw [hi.here] at hc
          exact hid hc
        have hnew : ∀ st', (∀ y ∈ st', y ∈ rest ∨ y ∈ column rows (nidp c) c) → (∀ y ∈ rest, y ∈ st') →
            (∀ y ∈ column rows (nidp c) c, y ∈ st') →
            TInv (fun c => column rows (nidp c) c) p id st' (update sub c id) := by
          intro st' h1 h2 h3
          constructor
          · intro e
            by_cases he : e = c
            · subst he; left; simp [hreach]
            · rw [update_of_ne he]; exact hi.lab e
          · intro y hy
            rcases h1 y hy with h | h
            · exact hi.stack y (by simp [h])
            · obtain ⟨u, hu⟩ := hin c y h
              exact ⟨u, hu, hreach.tail ⟨y, h, hu⟩⟩
          · intro e he y hy
            by_cases hec : e = c
            · subst hec; left; exact h3 y hy
            · rw [update_of_ne hec] at he
              rcases hi.expand e he y hy with h | ⟨u, hu, hu0⟩
              · rcases List.mem_cons.1 h with h | h
                · right
                  refine ⟨c, by rw [h]; exact hidx, ?_⟩
                  rw [update_self]; exact hid
                · left; exact h2 _ h
              · right
                refine ⟨u, hu, ?_⟩
                by_cases huc : u = c
                · subst huc; simpa using hid
                · rw [update_of_ne huc]; exact hu0
          · rw [update_of_ne hcp.symm]; exact hi.here
        have hwk : (∑ x, if (update sub c id) x = 0 then nidp x else 0) + nidp c =
            ∑ x, if sub x = 0 then nidp x else 0 := by
          rw [← Finset.sum_erase_add _ _ (Finset.mem_univ c),
            ← Finset.sum_erase_add _ (fun x => if sub x = 0 then nidp x else 0) (Finset.mem_univ c)]
          simp only [update_self, hid, if_false, add_zero, hc, if_true]
          congr 1
          apply Finset.sum_congr rfl
          intro x hx
          rw [update_of_ne (Finset.ne_of_mem_erase hx)]
        simp only [List.length_cons] at hw
        split
        · rename_i hn
          apply ih
          · refine hnew rest (fun y hy => .inl hy) (fun y hy => hy) (fun y hy => ?_)
            rw [hn] at hy
            simp [column] at hy
          · omega
        · apply ih
          · exact hnew _ (fun y hy => List.mem_append.1 hy) (fun y hy => by simp [hy]) (fun y hy => by simp [hy])
          · have : (column rows (nidp c) c).length ≤ nidp c := by
              simp [column]
            rw [List.length_append]
            omega
      · rw [if_pos hc]
        apply ih
        · refine ⟨hi.lab, fun y hy => hi.stack y (by simp [hy]), ?_, hi.here⟩
          intro e he y hy
          rcases hi.expand e he y hy with h | h
          · rcases List.mem_cons.1 h with h | h
            · right; exact ⟨c, by rw [h]; exact hidx, hc⟩
            · left; exact h
          · right; exact h
        · simp only [List.length_cons] at hw
          omega

/-! ### The table of the old directions -/

theorem buildTable_cols {fdir : Fin N → ℤ} {d : Fin N → Fin N} (h : Resolves fdir d) {rows : List (Fin N → ℤ)}
    (hr : buildTable fdir = .ok rows) (c : Fin N) :
    rows.map (fun r => r c) = (preds d c).map (fun u : Fin N => ((u : ℕ) : ℤ)) ++
      List.replicate (npMax (fun n => (Acc.pre d n).card) - (preds d c).length) (-1) := by
  unfold buildTable at hr
  rw [Acc.getNidp_ok h, Res.bind_ok] at hr
  obtain ⟨rows', e, hr'⟩ := table_fold h (npMax fun n => (Acc.pre d n).card) (List.finRange N) []
    (List.replicate (npMax fun n => (Acc.pre d n).card) (fun _ => -1)) (by intro c; simp) (by
      intro c
      have := le_npMax (fun n => (Acc.pre d n).card) c
      rw [← preds_length] at this
      simpa [preds] using this)
  rw [e] at hr
  cases hr
  simpa [preds] using hr' c

theorem mem_take_sorted {u : Fin N} : ∀ {l : List (Fin N)}, l.Pairwise (· < ·) → ∀ k : ℕ,
    u ∈ l.take k ↔ u ∈ l ∧ (l.filter (fun v => decide (v < u))).length < k := by
  intro l
  induction l with
  | nil => intro _ k; simp
  | cons a l ih =>
    intro hl k
    obtain ⟨h1, h2⟩ := List.pairwise_cons.1 hl
    cases k with
    | zero => simp
    | succ k =>
      rw [List.take_succ_cons, List.mem_cons, List.mem_cons, ih h2 k]
      by_cases hua : u = a
      · subst hua
        have : (l.filter (fun v => decide (v < u))) = [] := by
          rw [List.filter_eq_nil_iff]
          intro v hv
          simpa using (h1 v hv).le
        simp [this]
      · constructor
        · rintro (h | ⟨h, hk⟩)
          · exact absurd h hua
          · refine ⟨.inr h, ?_⟩
            rw [List.filter_cons, if_pos (by simpa using h1 u h), List.length_cons]
            omega
        · rintro ⟨h | h, hk⟩
          · exact absurd h hua
          · rw [List.filter_cons, if_pos (by simpa using h1 u h), List.length_cons] at hk
            exact .inr ⟨h, by omega⟩

theorem preds_sorted (d : Fin N → Fin N) (c : Fin N) : (preds d c).Pairwise (· < ·) :=
  (List.pairwise_lt_finRange N).filter _

theorem preds_below (d : Fin N → Fin N) (c u : Fin N) :
    ((preds d c).filter (fun v => decide (v < u))).length = (Finset.univ.filter fun v => d v = c ∧ v < u).card := by
  unfold preds
  rw [← List.toFinset_card_of_nodup (((List.nodup_finRange N).filter _).filter _)]
  congr 1
  ext v
  simp [and_comm]

theorem card_pre (d : Fin N → Fin N) (c : Fin N) : (Acc.pre d c).card = inflows d c := by
  unfold inflows
  congr 1

theorem npMax_lt {f : Fin N → ℕ} {m : ℕ} : m < npMax f ↔ ∃ e, m < f e := by
  constructor
  · intro h
    by_contra hc
    push Not at hc
    exact absurd (npMax_le f hc) (not_le.2 h)
  · rintro ⟨e, he⟩
    exact he.trans_le (le_npMax f e)

theorem pyIndex_cell {x : ℤ} {u c : Fin N} (hx : x = ((c : ℕ) : ℤ)) : pyIndex N x = .ok u ↔ u = c := by
  have : pyIndex N ((c : ℕ) : ℤ) = .ok c := by
    unfold pyIndex
    rw [dif_pos ⟨by omega, by exact_mod_cast c.isLt⟩]
    simp
  rw [hx, this]
  constructor
  · intro h; cases h; rfl
  · rintro rfl; rfl

theorem pyIndex_last {u : Fin N} : pyIndex N (-1) = .ok u ↔ u.val + 1 = N := by
  have hu := u.isLt
  unfold pyIndex
  rw [dif_neg (by omega)]
  by_cases h : (-(N : ℤ) ≤ -1 ∧ (-1 : ℤ) < 0)
  · rw [dif_pos h]
    rw [Res.ok.injEq, Fin.ext_iff]
    dsimp only
    omega
  · omega

/-- the tributaries a stale table shows are those of the specification -/
theorem edge_stale {fdir : Fin N → ℤ} {d d' : Fin N → Fin N} (h : Resolves fdir d) {rows : List (Fin N → ℤ)}
    (hr : buildTable fdir = .ok rows) (a b : Fin N) :
    Edge (fun c => column rows (Acc.pre d' c).card c) a b ↔ StaleLink d d' a b := by
  have hcol : column rows (Acc.pre d' a).card a = ((preds d a).take (Acc.pre d' a).card).map
      (fun u : Fin N => ((u : ℕ) : ℤ)) ++
      List.replicate (min ((Acc.pre d' a).card - (preds d a).length)
        (npMax (fun n => (Acc.pre d n).card) - (preds d a).length)) (-1) := by
    unfold column
    rw [List.map_take, buildTable_cols h hr, List.take_append, List.length_map, List.take_replicate, List.map_take]
  unfold Edge StaleLink
  simp only [hcol, List.mem_append, List.mem_map, List.mem_replicate]
  constructor
  · rintro ⟨x, ⟨u, hu, rfl⟩ | ⟨hne, rfl⟩, hx⟩
    · rw [pyIndex_cell rfl] at hx
      subst hx
      rw [mem_take_sorted (preds_sorted d a), mem_preds, preds_below, card_pre] at hu
      exact .inl hu
    · rw [pyIndex_last] at hx
      have hlen : (preds d a).length = inflows d a := by rw [preds_length, card_pre]
      have : ∃ e, inflows d a < (Acc.pre d e).card := npMax_lt.1 (by omega)
      obtain ⟨e, he⟩ := this
      rw [card_pre] at he
      refine .inr ⟨hx, ?_, e, he⟩
      rw [← card_pre d', ← hlen]; omega
  · rintro (⟨h1, h2⟩ | ⟨h1, h2, e, h3⟩)
    · refine ⟨((b : ℕ) : ℤ), .inl ⟨b, ?_, rfl⟩, (pyIndex_cell rfl).2 rfl⟩
      rw [mem_take_sorted (preds_sorted d a), mem_preds, preds_below, card_pre]
      exact ⟨h1, h2⟩
    · refine ⟨-1, .inr ⟨?_, rfl⟩, pyIndex_last.2 h1⟩
      have hlen : (preds d a).length = inflows d a := by rw [preds_length, card_pre]
      have h4 : inflows d a < npMax (fun n => (Acc.pre d n).card) := npMax_lt.2 ⟨e, by rw [card_pre]; exact h3⟩
      rw [card_pre, hlen]
      omega

/-- **C37** (exactly).  The table was built from the directions `d`; then the directions were recomputed to `d'`.
`get_watershed_boundary` returns, and the watershed of a cell is what is connected to it by `StaleLink`s. -/
theorem C37_exact {fdir : Fin N → ℤ} {d d' : Fin N → Fin N} (hd : Resolves fdir d) {rows : List (Fin N → ℤ)}
    (hr : buildTable fdir = .ok rows) {s : State N} (hs : s.fdirR = some rows) {fdir' : Fin N → ℤ}
    (hd' : Resolves fdir' d') (cell : Fin N) {fuel : ℕ} (hf : 2 * N < fuel) :
    ∃ out, watershed fuel (recompute s fdir') cell (fun _ => 0) = .ok (recompute s fdir', out) ∧ ∀ u,
      (Relation.ReflTransGen (StaleLink d d') cell u → out u = 1) ∧
      (¬ Relation.ReflTransGen (StaleLink d d') cell u → out u = 0) := by
  have hEdge : Edge (fun c => column rows (Acc.pre d' c).card c) = StaleLink d d' := by
    funext a b
    exact propext (edge_stale hd hr a b)
  have hin : ∀ c, ∀ x ∈ column rows (Acc.pre d' c).card c, ∃ u, pyIndex N x = .ok u := by
    intro c x hx
    have hmem : x ∈ rows.map (fun r => r c) := by
      unfold column at hx
      rw [List.map_take] at hx
      exact List.mem_of_mem_take hx
    rw [buildTable_cols hd hr] at hmem
    rcases List.mem_append.1 hmem with h | h
    · obtain ⟨u, _, rfl⟩ := List.mem_map.1 h
      exact ⟨u, (pyIndex_cell rfl).2 rfl⟩
    · rw [List.eq_of_mem_replicate h]
      have hN : 0 < N := Nat.lt_of_le_of_lt (Nat.zero_le _) c.isLt
      exact ⟨⟨N - 1, by omega⟩, pyIndex_last.2 (by show N - 1 + 1 = N; omega)⟩
  have hid : (npMax (fun _ : Fin N => 0)) + 1 = 1 := by
    have := npMax_le (fun _ : Fin N => 0) (b := 0) (fun _ => le_rfl)
    omega
  have hrev : reverseTable (recompute s fdir') = .ok (recompute s fdir', rows) := by
    unfold reverseTable recompute
    simp only [hs]
  obtain ⟨out, h1, h2⟩ := bfs_any (p := cell) (id := 1) one_ne_zero hin fuel
    (column rows (Acc.pre d' cell).card cell) (update (fun _ => 0) cell 1) ⟨by
      intro c
      by_cases hc : c = cell
      · subst hc; left; exact ⟨by simp, .refl⟩
      · right; rw [update_of_ne hc], by
      intro x hx
      obtain ⟨u, hu⟩ := hin cell x hx
      exact ⟨u, hu, .single ⟨x, hx, hu⟩⟩, by
      intro c hc x hx
      have : c = cell := by
        by_contra hne
        rw [update_of_ne hne] at hc
        exact hc rfl
      subst this
      exact .inl hx, by simp⟩ (by
      have h3 := Finset.card_eq_sum_card_fiberwise (s := (Finset.univ : Finset (Fin N)))
        (t := Finset.univ) (f := d') (by simp)
      simp only [Finset.card_univ, Fintype.card_fin] at h3
      have h4 : (∑ c, if (update (fun _ => 0) cell 1 : Fin N → ℕ) c = 0 then (Acc.pre d' c).card else 0) ≤ N := by
        refine le_trans (Finset.sum_le_sum (g := fun c => (Acc.pre d' c).card) ?_) ?_
        · intro c _; split <;> simp
        · exact h3.symm.le
      have h5 : (column rows (Acc.pre d' cell).card cell).length ≤ N := by
        refine le_trans (b := (Acc.pre d' cell).card) (by simp [column]) ?_
        simpa using Finset.card_le_univ (Acc.pre d' cell)
      omega)
  rw [hEdge] at h2
  refine ⟨out, ?_, h2⟩
  unfold watershed
  rw [hrev, Res.bind_ok]
  dsimp only
  rw [show (recompute s fdir').fdir = fdir' from rfl, Acc.getNidp_ok hd', Res.bind_ok]
  dsimp only
  rw [hid, h1]
  rfl

/-- **C37** (the last cell).  If some cell of what is found has more tributaries now than before, and less before than
some other cell, the last cell of the grid counts as part of the watershed, wherever its water goes. -/
theorem C37_last {fdir : Fin N → ℤ} {d d' : Fin N → Fin N} (hd : Resolves fdir d) {rows : List (Fin N → ℤ)}
    (hr : buildTable fdir = .ok rows) {s : State N} (hs : s.fdirR = some rows) {fdir' : Fin N → ℤ}
    (hd' : Resolves fdir' d') {cell c e last : Fin N} (hlast : last.val + 1 = N)
    (hmore : inflows d c < inflows d' c) (hless : inflows d c < inflows d e) {fuel : ℕ} (hf : 2 * N < fuel)
    {s' : State N} {out : Fin N → ℕ} (h : watershed fuel (recompute s fdir') cell (fun _ => 0) = .ok (s', out))
    (hc : out c = 1) : out last = 1 := by
  obtain ⟨out', h1, h2⟩ := C37_exact hd hr hs hd' cell hf
  rw [h] at h1
  cases h1
  have hcc : Relation.ReflTransGen (StaleLink d d') cell c := by
    by_contra hno
    rw [(h2 c).2 hno] at hc
    cases hc
  exact (h2 last).1 (hcc.tail (.inr ⟨hlast, hmore, e, hless⟩))

theorem reaches_iff_gen {d : Fin N → Fin N} {cell u : Fin N} :
    Relation.ReflTransGen (fun c u => d u = c) cell u ↔ Reaches d u cell := by
  constructor
  · intro h
    induction h with
    | refl => exact Reaches.refl _
    | tail _ he ih => rw [← he] at ih; exact (Reaches.step _).trans ih
  · rintro ⟨k, hk⟩
    induction k generalizing u with
    | zero => rw [← hk]; exact .refl
    | succ k ih =>
      rw [iterate_succ_apply] at hk
      exact (ih hk).tail rfl

/-- **C37** (same counts).  Where the recomputation gives every cell as many tributaries as before, the watershed found is
that of the old directions, cell by cell, whatever the new ones are. -/
theorem C37_old {fdir : Fin N → ℤ} {d d' : Fin N → Fin N} (hd : Resolves fdir d) {rows : List (Fin N → ℤ)}
    (hr : buildTable fdir = .ok rows) {s : State N} (hs : s.fdirR = some rows) {fdir' : Fin N → ℤ}
    (hd' : Resolves fdir' d') (hsame : ∀ c, inflows d' c = inflows d c) (cell : Fin N) {fuel : ℕ} (hf : 2 * N < fuel) :
    ∃ out, watershed fuel (recompute s fdir') cell (fun _ => 0) = .ok (recompute s fdir', out) ∧
      ∀ u, (Reaches d u cell → out u = 1) ∧ (¬ Reaches d u cell → out u = 0) := by
  obtain ⟨out, h1, h2⟩ := C37_exact hd hr hs hd' cell hf
  refine ⟨out, h1, ?_⟩
  have : StaleLink d d' = fun c u => d u = c := by
    funext c u
    apply propext
    unfold StaleLink
    rw [hsame c]
    constructor
    · rintro (h | ⟨_, h, _⟩)
      · exact h.1
      · exact absurd h (lt_irrefl _)
    · intro h
      refine .inl ⟨h, ?_⟩
      unfold inflows
      refine Finset.card_lt_card (Finset.ssubset_iff_subset_ne.2 ⟨fun v hv => ?_, fun he => ?_⟩)
      · simp only [Finset.mem_filter, Finset.mem_univ, true_and] at hv ⊢
        exact hv.1
      · have : u ∈ Finset.univ.filter fun v => d v = c ∧ v < u := by rw [he]; simp [h]
        simp at this
  rw [this] at h2
  intro u
  rw [← reaches_iff_gen]
  exact h2 u

/-! ### Examples -/

/-- `0 → 1 → 1`, `2 → 1`, `3 → 3` -/
def oldS : Fin 4 → ℤ := ![1, 1, 1, 3]
/-- `0 → 0`, `1 → 0`, `2 → 2`, `3 → 3` -/
def newS : Fin 4 → ℤ := ![0, 0, 2, 3]
def rowsS : List (Fin 4 → ℤ) := [![-1, 0, -1, 3], ![-1, 1, -1, -1], ![-1, 2, -1, -1]]
theorem tableS : buildTable oldS = .ok rowsS := by decide +kernel
theorem oldS_res : Resolves oldS ![1, 1, 1, 3] := by unfold Resolves; decide +kernel
theorem newS_res : Resolves newS ![0, 0, 2, 3] := by unfold Resolves; decide +kernel

-- the outlet 0 of the new directions: cell 1 is missed, and the last cell, which flows to itself, is counted
theorem runS : ∃ s', watershed 9 (recompute ⟨oldS, some rowsS⟩ newS) 0 (fun _ => 0) = .ok (s', ![1, 0, 0, 1]) := by
  have : (watershed 9 (recompute ⟨oldS, some rowsS⟩ newS) 0 (fun _ => 0)).map Prod.snd = .ok ![1, 0, 0, 1] := by
    decide +kernel
  obtain ⟨⟨s', o⟩, h, rfl⟩ := Res.map_eq_ok.1 this
  exact ⟨s', h⟩
example : (![1, 0, 0, 1] : Fin 4 → ℕ) 3 = 1 := by
  obtain ⟨s', h⟩ := runS
  exact C37_last (c := 0) (e := 1) (last := 3) oldS_res tableS rfl newS_res rfl (by decide +kernel) (by decide +kernel)
    (by norm_num) h rfl

/-- two cells that swap their outlets: the counts stay -/
example : ∃ out, watershed 9 (recompute ⟨![2, 3, 2, 3], some [![-1, -1, 0, 1], ![-1, -1, 2, 3]]⟩ ![3, 2, 2, 3]) 2
    (fun _ => 0) = .ok (recompute ⟨![2, 3, 2, 3], some [![-1, -1, 0, 1], ![-1, -1, 2, 3]]⟩ ![3, 2, 2, 3], out) ∧
    ∀ u, (Reaches ![2, 3, 2, 3] u (2 : Fin 4) → out u = 1) ∧ (¬ Reaches ![2, 3, 2, 3] u (2 : Fin 4) → out u = 0) :=
  C37_old (fdir := ![2, 3, 2, 3]) (d := ![2, 3, 2, 3]) (d' := ![3, 2, 2, 3])
    (by unfold Resolves; decide +kernel) (by decide +kernel) rfl
    (by unfold Resolves; decide +kernel) (by decide +kernel) 2 (by norm_num)

end Dany.Basin
