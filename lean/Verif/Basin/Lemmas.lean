import Verif.Basin.Model
import Verif.Basin.Spec
import Verif.Acc.Lemmas

/-!
# The reversed table and the breadth-first search
-/

namespace Dany.Basin

open Function Flow

variable {N : ℕ} {fdir : Fin N → ℤ} {d : Fin N → Fin N}

/-- cells flowing into `c`, in increasing order -/
def preds (d : Fin N → Fin N) (c : Fin N) : List (Fin N) :=
  (List.finRange N).filter (fun u => d u = c)

theorem mem_preds {u c : Fin N} : u ∈ preds d c ↔ d u = c := by simp [preds]

theorem preds_length (c : Fin N) : (preds d c).length = (Acc.pre d c).card := by
  rw [preds, ← List.toFinset_card_of_nodup ((List.nodup_finRange N).filter _)]
  congr 1
  ext u
  simp [Acc.mem_pre]

theorem le_npMax (f : Fin N → ℕ) (n : Fin N) : f n ≤ npMax f := by
  have key : ∀ (l : List (Fin N)) (m : ℕ), m ≤ l.foldl (fun m n => max m (f n)) m ∧
      ∀ n ∈ l, f n ≤ l.foldl (fun m n => max m (f n)) m := by
    intro l
    induction l with
    | nil => intro m; simp
    | cons a l ih =>
      intro m
      rw [List.foldl_cons]
      have := ih (max m (f a))
      refine ⟨(le_max_left _ _).trans this.1, ?_⟩
      intro n hn
      rcases List.mem_cons.1 hn with rfl | hn
      · exact (le_max_right _ _).trans this.1
      · exact this.2 n hn
  exact (key (List.finRange N) 0).2 n (by simp)

theorem npMax_le (f : Fin N → ℕ) {b : ℕ} (h : ∀ n, f n ≤ b) : npMax f ≤ b := by
  have key : ∀ (l : List (Fin N)) (m : ℕ), m ≤ b → l.foldl (fun m n => max m (f n)) m ≤ b := by
    intro l
    induction l with
    | nil => intro m hm; exact hm
    | cons a l ih => intro m hm; exact ih _ (max_le hm (h a))
  exact key _ 0 (Nat.zero_le _)

theorem place_col {c : Fin N} {ix : ℤ} : ∀ {rows : List (Fin N → ℤ)} {xs : List ℤ} {j : ℕ},
    (∀ x ∈ xs, x ≠ -1) → rows.map (fun r => r c) = xs ++ List.replicate (j + 1) (-1) →
    (place c ix rows).map (fun r => r c) = xs ++ [ix] ++ List.replicate j (-1) := by
  intro rows
  induction rows with
  | nil =>
    intro xs j _ h
    have := congrArg List.length h
    simp at this
  | cons r rows ih =>
    intro xs j hxs h
    cases xs with
    | nil =>
      rw [List.replicate_succ] at h
      simp only [List.map_cons, List.nil_append, List.cons.injEq] at h
      simp only [place, if_pos h.1, List.map_cons, update_self, List.nil_append, h.2]
      simp
    | cons x xs =>
      simp only [List.map_cons, List.cons_append, List.cons.injEq] at h
      have hx : r c ≠ -1 := by rw [h.1]; exact hxs x (by simp)
      simp only [place, if_neg hx, List.map_cons]
      rw [ih (fun y hy => hxs y (by simp [hy])) h.2, h.1]
      simp

theorem place_col_ne {c c' : Fin N} {ix : ℤ} (hne : c' ≠ c) : ∀ (rows : List (Fin N → ℤ)),
    (place c ix rows).map (fun r => r c') = rows.map (fun r => r c') := by
  intro rows
  induction rows with
  | nil => rfl
  | cons r rows ih =>
    simp only [place]
    split
    · simp [hne]
    · simp [ih]

theorem table_fold (h : Resolves fdir d) (m : ℕ) : ∀ (l done : List (Fin N)) (rows : List (Fin N → ℤ)),
    (∀ c, rows.map (fun r => r c) = (done.filter (fun u => d u = c)).map (fun u : Fin N => ((u : ℕ) : ℤ)) ++
      List.replicate (m - (done.filter (fun u => d u = c)).length) (-1)) →
    (∀ c, ((done ++ l).filter (fun u => d u = c)).length ≤ m) →
    ∃ rows', l.foldl (tableStep fdir) (.ok rows) = .ok rows' ∧
      ∀ c, rows'.map (fun r => r c) =
        ((done ++ l).filter (fun u => d u = c)).map (fun u : Fin N => ((u : ℕ) : ℤ)) ++
        List.replicate (m - ((done ++ l).filter (fun u => d u = c)).length) (-1) := by
  intro l
  induction l with
  | nil => intro done rows hr _; exact ⟨rows, rfl, by simpa using hr⟩
  | cons x l ih =>
    intro done rows hr hle
    rw [List.foldl_cons]
    simp only [tableStep, Res.bind_ok, h.pyIndex]
    obtain ⟨rows', e, h'⟩ := ih (done ++ [x]) (place (d x) ((x : ℕ) : ℤ) rows) (by
      intro c
      by_cases hc : c = d x
      · subst hc
        have hl := hle (d x)
        rw [List.filter_append, List.filter_cons] at hl
        simp only [decide_true, if_true, List.length_append, List.length_cons] at hl
        have h1 := hr (d x)
        rw [show m - (done.filter (fun u => d u = d x)).length =
          (m - (done.filter (fun u => d u = d x)).length - 1) + 1 by omega] at h1
        have h2 := place_col (ix := ((x : ℕ) : ℤ)) (by
          intro y hy
          obtain ⟨u, _, rfl⟩ := List.mem_map.1 hy
          omega) h1
        rw [h2, List.filter_append]
        simp
        omega
      · rw [place_col_ne hc, hr c, List.filter_append]
        have : ([x].filter (fun u => decide (d u = c))) = [] := by
          simp [Ne.symm hc]
        rw [this, List.append_nil]) (by simpa using hle)
    exact ⟨rows', e, by simpa using h'⟩

/-- The table built from an array: column `c` lists the cells flowing into `c`. -/
theorem buildTable_ok (h : Resolves fdir d) : ∃ rows, buildTable fdir = .ok rows ∧
    ∀ c, column rows (Acc.pre d c).card c = (preds d c).map (fun u : Fin N => ((u : ℕ) : ℤ)) := by
  unfold buildTable
  rw [Acc.getNidp_ok h, Res.bind_ok]
  obtain ⟨rows, e, hr⟩ := table_fold h (npMax fun n => (Acc.pre d n).card) (List.finRange N) []
    (List.replicate (npMax fun n => (Acc.pre d n).card) (fun _ => -1)) (by intro c; simp) (by
      intro c
      have := le_npMax (fun n => (Acc.pre d n).card) c
      rw [← preds_length] at this
      simpa [preds] using this)
  refine ⟨rows, e, ?_⟩
  intro c
  have h1 := hr c
  simp only [List.nil_append] at h1
  unfold column
  rw [List.map_take, h1, ← preds_length, List.take_left' (by simp [preds])]
  rfl

/-- every cell of the path from `u` before its arrival at `p` is unlabelled -/
def Free (d : Fin N → Fin N) (sub0 : Fin N → ℕ) (p u : Fin N) : Prop :=
  ∃ k : ℕ, d^[k] u = p ∧ ∀ j < k, sub0 (d^[j] u) = 0

/-- state of the search -/
structure BInv (d : Fin N → Fin N) (sub0 : Fin N → ℕ) (p : Fin N) (id : ℕ) (st : List ℤ)
    (sub : Fin N → ℕ) : Prop where
  lab : ∀ c, (sub c = id ∧ Free d sub0 p c) ∨ sub c = sub0 c
  stack : ∀ x ∈ st, ∃ c : Fin N, x = ((c : ℕ) : ℤ) ∧ Free d sub0 p (d c)
  expand : ∀ c, c = p ∨ (sub0 c = 0 ∧ sub c ≠ 0) → ∀ u, d u = c → ((u : ℕ) : ℤ) ∈ st ∨ sub u ≠ 0
  here : sub p = id

/-- remaining work: queue entries plus those still to be queued -/
def work (d : Fin N → Fin N) (st : List ℤ) (sub : Fin N → ℕ) : ℕ :=
  st.length + ∑ c, if sub c = 0 then (Acc.pre d c).card else 0

theorem Free.cons {sub0 : Fin N → ℕ} {p c : Fin N} (h0 : sub0 c = 0) (h : Free d sub0 p (d c)) :
    Free d sub0 p c := by
  obtain ⟨k, hk, hj⟩ := h
  refine ⟨k + 1, by rw [iterate_succ_apply]; exact hk, ?_⟩
  intro j hj'
  cases j with
  | zero => exact h0
  | succ j => rw [iterate_succ_apply]; exact hj j (by omega)

theorem work_update {sub : Fin N → ℕ} {c : Fin N} (h0 : sub c = 0) {id : ℕ} (hid : id ≠ 0) :
    (∑ x, if (update sub c id) x = 0 then (Acc.pre d x).card else 0) + (Acc.pre d c).card =
      ∑ x, if sub x = 0 then (Acc.pre d x).card else 0 := by
  rw [← Finset.sum_erase_add _ _ (Finset.mem_univ c),
    ← Finset.sum_erase_add _ (fun x => if sub x = 0 then (Acc.pre d x).card else 0)
      (Finset.mem_univ c)]
  simp only [update_self, hid, if_false, add_zero, h0, if_true]
  congr 1
  apply Finset.sum_congr rfl
  intro x hx
  rw [update_of_ne (Finset.ne_of_mem_erase hx)]

theorem bfs_ok {rows : List (Fin N → ℤ)}
    (hrows : ∀ c, column rows (Acc.pre d c).card c = (preds d c).map (fun u : Fin N => ((u : ℕ) : ℤ)))
    {sub0 : Fin N → ℕ} {p : Fin N} {id : ℕ} (hid : id ≠ 0) :
    ∀ (fuel : ℕ) (st : List ℤ) (sub : Fin N → ℕ), BInv d sub0 p id st sub → work d st sub < fuel →
      ∃ out, bfs rows (fun n => (Acc.pre d n).card) id fuel st sub = .ok out ∧
        (∀ u, Free d sub0 p u → out u = id) ∧ (∀ u, ¬ Free d sub0 p u → out u = sub0 u) := by
  intro fuel
  induction fuel with
  | zero => intro st sub _ h; omega
  | succ k ih =>
    intro st sub hi hw
    cases st with
    | nil =>
      refine ⟨sub, rfl, ?_, ?_⟩
      · intro u hu
        obtain ⟨j, hj, hfree⟩ := hu
        induction j generalizing u with
        | zero => rw [iterate_zero, id_eq] at hj; rw [hj]; exact hi.here
        | succ j ihj =>
          rw [iterate_succ_apply] at hj
          have hsub : sub (d u) = id := ihj (d u) hj (fun i hi' => by
            have := hfree (i + 1) (by omega)
            rwa [iterate_succ_apply] at this)
          have hu0 : sub0 u = 0 := hfree 0 (by omega)
          have hM : d u = p ∨ (sub0 (d u) = 0 ∧ sub (d u) ≠ 0) := by
            cases j with
            | zero => left; exact hj
            | succ j => right; exact ⟨hfree 1 (by omega), by rw [hsub]; exact hid⟩
          rcases hi.expand (d u) hM u rfl with h | h
          · simp at h
          · rcases hi.lab u with h' | h'
            · exact h'.1
            · rw [hu0] at h'; exact absurd h' h
      · intro u hu
        rcases hi.lab u with h | h
        · exact absurd h.2 hu
        · exact h
    | cons x rest =>
      obtain ⟨c, rfl, hfree⟩ := hi.stack x (by simp)
      have hidx : pyIndex N ((c : ℕ) : ℤ) = .ok c := by
        unfold pyIndex
        rw [dif_pos ⟨by omega, by exact_mod_cast c.isLt⟩]
        simp
      simp only [bfs, hidx, Res.bind_ok]
      by_cases hc : sub c = 0
      · rw [if_neg (by simpa using hc)]
        have hc0 : sub0 c = 0 := by
          rcases hi.lab c with h | h
          · rw [hc] at h; exact absurd h.1.symm hid
          · rw [← h]; exact hc
        have hF : Free d sub0 p c := hfree.cons hc0
        have hcp : c ≠ p := by
          rintro rfl
          rw [hi.here] at hc
          exact hid hc
        -- both branches: the tributaries of `c` are queued
        have hq : ∀ st', (∀ x ∈ st', x ∈ rest ∨ ∃ u, d u = c ∧ x = ((u : ℕ) : ℤ)) →
            (∀ x ∈ rest, x ∈ st') → (∀ u, d u = c → ((u : ℕ) : ℤ) ∈ st') →
            BInv d sub0 p id st' (update sub c id) := by
          intro st' h1 h2 h3
          constructor
          · intro e
            by_cases he : e = c
            · subst he; left; simp [hF]
            · rw [update_of_ne he]; exact hi.lab e
          · intro y hy
            rcases h1 y hy with h | ⟨u, hu, rfl⟩
            · exact hi.stack y (by simp [h])
            · exact ⟨u, rfl, by rw [hu]; exact hF⟩
          · intro e he u hu
            by_cases hec : e = c
            · subst hec; left; exact h3 u hu
            · rw [update_of_ne hec] at he
              rcases hi.expand e he u hu with h | h
              · rcases List.mem_cons.1 h with h | h
                · right
                  have : u = c := Fin.ext (by exact_mod_cast h)
                  subst this
                  simpa using hid
                · left; exact h2 _ h
              · right
                by_cases huc : u = c
                · subst huc; simpa using hid
                · rw [update_of_ne huc]; exact h
          · rw [update_of_ne hcp.symm]; exact hi.here
        have hwk := work_update (d := d) hc hid
        split
        · rename_i hn
          have hnone : ∀ u, d u ≠ c := by
            intro u hu
            have : u ∈ Acc.pre d c := Acc.mem_pre.2 hu
            rw [Finset.card_eq_zero.1 hn] at this
            simp at this
          apply ih
          · exact hq rest (fun x hx => .inl hx) (fun x hx => hx) (fun u hu => absurd hu (hnone u))
          · unfold work at hw ⊢
            simp only [List.length_cons] at hw
            omega
        · apply ih
          · rw [hrows]
            apply hq
            · intro y hy
              rcases List.mem_append.1 hy with h | h
              · exact .inl h
              · obtain ⟨u, hu, rfl⟩ := List.mem_map.1 h
                exact .inr ⟨u, mem_preds.1 hu, rfl⟩
            · intro y hy; simp [hy]
            · intro u hu
              rw [List.mem_append]
              right
              exact List.mem_map.2 ⟨u, mem_preds.2 hu, rfl⟩
          · rw [hrows]
            unfold work at hw ⊢
            simp only [List.length_cons, List.length_append, List.length_map, preds_length] at hw ⊢
            omega
      · rw [if_pos hc]
        apply ih
        · refine ⟨hi.lab, fun y hy => hi.stack y (by simp [hy]), ?_, hi.here⟩
          intro e he u hu
          rcases hi.expand e he u hu with h | h
          · rcases List.mem_cons.1 h with h | h
            · right
              have : u = c := Fin.ext (by exact_mod_cast h)
              rw [this]; exact hc
            · left; exact h
          · right; exact h
        · unfold work at hw ⊢
          simp only [List.length_cons] at hw
          omega

/-- The cached table, if any, belongs to the current flow directions. -/
def Fresh (s : State N) : Prop := ∀ rows, s.fdirR = some rows → buildTable s.fdir = .ok rows

theorem watershed_ok {s : State N} (h : Resolves s.fdir d) (hfresh : Fresh s) (cell : Fin N)
    (sub0 : Fin N → ℕ) {fuel : ℕ} (hf : 2 * N < fuel) :
    ∃ s' out, watershed fuel s cell sub0 = .ok (s', out) ∧ s'.fdir = s.fdir ∧ Fresh s' ∧
      (∀ u, Free d sub0 cell u → out u = npMax sub0 + 1) ∧
      (∀ u, ¬ Free d sub0 cell u → out u = sub0 u) := by
  obtain ⟨rows, hrows, hcol⟩ := buildTable_ok h
  have hrev : ∃ s', reverseTable s = .ok (s', rows) ∧ s'.fdir = s.fdir ∧ Fresh s' := by
    unfold reverseTable
    cases hc : s.fdirR with
    | none =>
      simp only [hrows, Res.map_ok]
      exact ⟨_, rfl, rfl, by intro r hr; cases hr; exact hrows⟩
    | some r =>
      have := hfresh r hc
      rw [hrows] at this
      cases this
      exact ⟨s, rfl, rfl, hfresh⟩
  obtain ⟨s', e1, e2, e3⟩ := hrev
  have h' : Resolves s'.fdir d := by rw [e2]; exact h
  have hinit : BInv d sub0 cell (npMax sub0 + 1)
      ((preds d cell).map (fun u : Fin N => ((u : ℕ) : ℤ))) (update sub0 cell (npMax sub0 + 1)) := by
    constructor
    · intro c
      by_cases hc : c = cell
      · subst hc; left; exact ⟨by simp, 0, rfl, by simp⟩
      · right; rw [update_of_ne hc]
    · intro x hx
      obtain ⟨u, hu, rfl⟩ := List.mem_map.1 hx
      exact ⟨u, rfl, 0, by simpa using mem_preds.1 hu, by simp⟩
    · rintro c hc u hu
      have hcc : c = cell := by
        rcases hc with h | ⟨h0, h1⟩
        · exact h
        · by_contra hne
          rw [update_of_ne hne] at h1
          exact h1 h0
      subst hcc
      left
      exact List.mem_map.2 ⟨u, mem_preds.2 hu, rfl⟩
    · simp
  obtain ⟨out, e4, e5, e6⟩ := bfs_ok hcol (by omega) fuel _ _ hinit (by
    unfold work
    have h1 : (preds d cell).length ≤ N := by
      refine (List.length_filter_le _ _).trans ?_
      simp
    have h2 : (∑ c, if (update sub0 cell (npMax sub0 + 1)) c = 0 then (Acc.pre d c).card else 0) ≤ N := by
      have h3 := Finset.card_eq_sum_card_fiberwise (s := (Finset.univ : Finset (Fin N)))
        (t := Finset.univ) (f := d) (by simp)
      simp only [Finset.card_univ, Fintype.card_fin] at h3
      refine le_trans (Finset.sum_le_sum (g := fun c => (Acc.pre d c).card) ?_) ?_
      · intro c _; split <;> simp
      · exact h3.symm.le
    rw [List.length_map]
    omega)
  refine ⟨s', out, ?_, e2, e3, e5, e6⟩
  unfold watershed
  rw [e1, Res.bind_ok]
  dsimp only
  rw [Acc.getNidp_ok h', Res.bind_ok]
  dsimp only
  rw [hcol, e4]
  rfl

end Dany.Basin
