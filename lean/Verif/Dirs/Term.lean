import Verif.Dirs.Search
import Mathlib.Algebra.BigOperators.Group.Finset.Basic
import Mathlib.Algebra.Order.BigOperators.Group.Finset

/-!
# The loops of the flat resolution end; cells they leave alone
-/

namespace Dany.Dirs

open Function

variable {N : ℕ} {A : Fin N → List (Entry N)} {ix : Fin N}

/-! ### `continuous` -/

theorem scanRow_len (row : List (Entry N)) : ∀ (st : List (Fin N) × List (Fin N) × Bool),
    (scanRow row st.1 st.2.1 st.2.2).1.length + (scanRow row st.1 st.2.1 st.2.2).2.1.length =
      st.1.length + st.2.1.length ∧
    (scanRow row st.1 st.2.1 st.2.2).2.1.length ≤ st.2.1.length ∧
    ((scanRow row st.1 st.2.1 st.2.2).2.2 = true → st.2.2 = true ∨
      (scanRow row st.1 st.2.1 st.2.2).2.1.length < st.2.1.length) := by
  induction row with
  | nil => intro st; exact ⟨rfl, le_rfl, fun h => .inl h⟩
  | cons e row ih =>
    intro st
    cases e with
    | none => exact ih st
    | some c =>
      by_cases hc : c ∈ st.2.1
      · have he : scanRow (some c :: row) st.1 st.2.1 st.2.2
            = scanRow row (st.1 ++ [c]) (st.2.1.erase c) true := by
          simp [scanRow, hc]
        rw [he]
        obtain ⟨h1, h2, _⟩ := ih (st.1 ++ [c], st.2.1.erase c, true)
        have hl := List.length_erase_of_mem hc
        have hpos : 0 < st.2.1.length := List.length_pos_of_mem hc
        dsimp only at h1 h2
        simp only [List.length_append, List.length_cons, List.length_nil] at h1
        refine ⟨by omega, by omega, fun _ => .inr (by omega)⟩
      · have he : scanRow (some c :: row) st.1 st.2.1 st.2.2 = scanRow row st.1 st.2.1 st.2.2 := by
          simp [scanRow, hc]
        rw [he]
        exact ih st

theorem scanAll_ok (frow : Fin N → List (Entry N)) : ∀ (m : ℕ) (pending are stack : List (Fin N))
    (found : Bool), pending.length + stack.length = m →
    ∃ r, (∀ k, m + 1 ≤ k → scanAll frow k pending are stack found = .ok r) ∧
      r.1.length + r.2.1.length = are.length + m ∧ r.2.1.length ≤ stack.length ∧
      (r.2.2 = true → found = true ∨ r.2.1.length < stack.length) := by
  intro m
  induction m with
  | zero =>
    intro pending are stack found h
    have h1 : pending = [] := List.length_eq_zero_iff.1 (by omega)
    have h2 : stack = [] := List.length_eq_zero_iff.1 (by omega)
    subst h1 h2
    refine ⟨(are, [], found), fun k hk => ?_, by simp, by simp, fun h => .inl h⟩
    obtain ⟨k, rfl⟩ : ∃ k', k = k' + 1 := ⟨k - 1, by omega⟩
    rfl
  | succ m ih =>
    intro pending are stack found h
    cases pending with
    | nil =>
      refine ⟨(are, stack, found), fun k hk => ?_, ?_, le_rfl, fun h => .inl h⟩
      · obtain ⟨k, rfl⟩ : ∃ k', k = k' + 1 := ⟨k - 1, by omega⟩
        rfl
      · simp only [List.length_nil] at h; simp only; omega
    | cons t pending =>
      obtain ⟨h1, h2, h3⟩ := scanRow_len (frow t) (pending, stack, found)
      dsimp only at h1 h2 h3
      simp only [List.length_cons] at h
      obtain ⟨r, i1, i2, i3, i4⟩ := ih (scanRow (frow t) pending stack found).1 (are ++ [t])
        (scanRow (frow t) pending stack found).2.1 (scanRow (frow t) pending stack found).2.2 (by omega)
      refine ⟨r, fun k hk => ?_, ?_, by omega, fun hr => ?_⟩
      · obtain ⟨k, rfl⟩ : ∃ k', k = k' + 1 := ⟨k - 1, by omega⟩
        exact i1 k (by omega)
      · simp only [List.length_append, List.length_cons, List.length_nil] at i2
        omega
      · rcases i4 hr with h | h
        · rcases h3 h with h | h
          · exact .inl h
          · exact .inr (by omega)
        · exact .inr (by omega)

theorem contLoop_ok (frow : Fin N → List (Entry N)) : ∀ (m : ℕ) (are stack : List (Fin N)),
    stack.length = m → ∃ c, ∀ sf k, are.length + m + 1 ≤ sf → m + 1 ≤ k →
      contLoop frow sf k are stack = .ok c := by
  intro m
  induction m using Nat.strong_induction_on with
  | _ m ih =>
    intro are stack h
    cases stack with
    | nil =>
      refine ⟨true, fun sf k _ hk => ?_⟩
      obtain ⟨k, rfl⟩ : ∃ k', k = k' + 1 := ⟨k - 1, by omega⟩
      rfl
    | cons s stack =>
      obtain ⟨r, i1, i2, i3, i4⟩ := scanAll_ok frow _ are [] (s :: stack) false rfl
      simp only [List.length_nil, Nat.zero_add] at i2
      by_cases hr : r.2.2 = false
      · refine ⟨decide (r.2.1 = []), fun sf k hsf hk => ?_⟩
        obtain ⟨k, rfl⟩ : ∃ k', k = k' + 1 := ⟨k - 1, by omega⟩
        simp only [contLoop]
        rw [i1 sf (by omega)]
        simp [hr]
      · have hlt : r.2.1.length < m := by
          rcases i4 (by simpa using hr) with h' | h'
          · cases h'
          · omega
        obtain ⟨c, hc⟩ := ih _ hlt r.1 r.2.1 rfl
        refine ⟨c, fun sf k hsf hk => ?_⟩
        obtain ⟨k, rfl⟩ : ∃ k', k = k' + 1 := ⟨k - 1, by omega⟩
        simp only [contLoop]
        rw [i1 sf (by omega)]
        simp only [Res.bind_ok]
        rw [if_neg hr]
        exact hc sf k (by omega) (by omega)

theorem continuous_ok (frow : Fin N → List (Entry N)) (l : List (Fin N)) :
    ∃ c, ∀ fuel, l.length + 1 ≤ fuel → continuous frow fuel l = .ok c := by
  cases l with
  | nil => exact ⟨false, fun _ _ => rfl⟩
  | cons a l =>
    obtain ⟨c, hc⟩ := contLoop_ok frow _ [a] l rfl
    refine ⟨c, fun fuel h => ?_⟩
    simp only [List.length_cons] at h
    exact hc fuel fuel (by simp only [List.length_cons, List.length_nil]; omega) (by omega)

/-! ### The search -/

/-- the number of candidates of cells not visited -/
def weight (fc : Fin N → List (Entry N)) (visited : List (Fin N)) : ℕ :=
  ∑ c : Fin N, if c ∈ visited then 0 else (fc c).length

theorem weight_visit (fc : Fin N → List (Entry N)) {visited : List (Fin N)} {cell : Fin N}
    (h : cell ∉ visited) : weight fc (visited ++ [cell]) + (fc cell).length = weight fc visited := by
  unfold weight
  rw [← Finset.add_sum_erase _ _ (Finset.mem_univ cell)]
  rw [← Finset.add_sum_erase Finset.univ (fun c => if c ∈ visited then 0 else (fc c).length)
    (Finset.mem_univ cell)]
  rw [if_pos (by simp), if_neg h]
  have : ∀ c ∈ Finset.univ.erase cell, (if c ∈ visited ++ [cell] then 0 else (fc c).length)
      = if c ∈ visited then 0 else (fc c).length := by
    intro c hc
    have hne := (Finset.mem_erase.1 hc).1
    simp [hne]
  rw [Finset.sum_congr rfl this]
  omega

/-- invariant: which cells are listed and visited -/
structure VInv (pending : List (Fin N)) (b : BState N) : Prop where
  todo : b.dest = none → ∀ c ∈ b.tmp, c ∈ b.visited ∨ c ∈ pending
  keys : b.dest = none → ∀ c ∈ b.stack.keys, c ∈ b.tmp

theorem foldl_connStep_dest {fdir : Fin N → ℤ} {cell : Fin N} (conns : List (Fin N)) :
    ∀ st : Dict (Fin N) (Fin N) × Option (Fin N) × Bool, st.2.1 ≠ none →
      (conns.foldl (connStep fdir cell) st).2.1 ≠ none := by
  induction conns with
  | nil => intro st h; exact h
  | cons a conns ih =>
    intro st h
    simp only [List.foldl_cons]
    apply ih
    unfold connStep
    split
    · exact h
    · dsimp only
      split
      · simp
      · exact h

theorem resolve_dest {fdir : Fin N → ℤ} {cell : Fin N} {conns : List (Fin N)}
    {d : Dict (Fin N) (Fin N)} {dest : Option (Fin N)}
    (h : dest ≠ none) : (resolve fdir cell conns d dest).2.1 ≠ none := by
  apply foldl_connStep_dest
  dsimp only
  split
  · rename_i hl
    cases conns with
    | nil => simp at hl
    | cons a l => simp
  · exact h

theorem searchPass_ok {fdir : Fin N → ℤ} {fc : Fin N → List (Entry N)} (hfc : ∀ n, fc n ⊆ A n)
    (hv : ∀ p c, some c ∈ A p → none ∉ A c) :
    ∀ (m : ℕ) (pending : List (Fin N)) (n : ℕ) (b : BState N),
    pending.length + weight fc b.visited = m → BInv A ix b → (∀ c ∈ pending, c ∈ b.stack.keys) →
    VInv pending b →
    ∃ b', (∀ k, m + 1 ≤ k → searchPass fdir fc k pending n b = .ok b') ∧ VInv [] b' ∧
      b'.tmp.length + weight fc b'.visited ≤ b.tmp.length + weight fc b.visited ∧
      (pending = [] → b' = b) := by
  intro m
  induction m using Nat.strong_induction_on with
  | _ m ih =>
    intro pending n b hm hb hp hvi
    cases pending with
    | nil =>
      refine ⟨b, fun k hk => ?_, hvi, le_rfl, fun _ => rfl⟩
      obtain ⟨k, rfl⟩ : ∃ k', k = k' + 1 := ⟨k - 1, by omega⟩
      rfl
    | cons cell pending =>
      have hp' : ∀ c ∈ pending, c ∈ b.stack.keys := fun c h => hp c (List.mem_cons_of_mem _ h)
      simp only [List.length_cons] at hm
      by_cases hvis : cell ∉ b.visited
      · have hno : none ∉ fc cell := by
          obtain ⟨p, hp⟩ := exists_of_mem_keys (hp cell (by simp))
          exact fun h => hv p cell (hb.stack.linked _ hp) (hfc cell h)
        obtain ⟨conns, hcon⟩ := reals_ok hno
        have hlen : (fc cell).length = conns.length := by rw [reals_mem hcon]; simp
        have hw := weight_visit fc hvis
        have hA : ∀ c ∈ conns, some c ∈ A cell := fun c hc => hfc cell (by
          rw [reals_mem hcon]; exact List.mem_map.2 ⟨c, hc, rfl⟩)
        obtain ⟨i1, i2, i3⟩ := resolve_spec (fdir := fdir) hA hb.stack (.inr (hp cell (by simp))) hb.dest
        have hdn : (resolve fdir cell conns b.stack b.dest).2.1 = none → b.dest = none := by
          intro h
          by_contra h'
          exact resolve_dest h' h
        have hmore : (if (resolve fdir cell conns b.stack b.dest).2.1 = none then conns else []).length
            ≤ conns.length := by
          split <;> simp
        have hmorek : ∀ c ∈ (if (resolve fdir cell conns b.stack b.dest).2.1 = none then conns else []),
            c ∈ (resolve fdir cell conns b.stack b.dest).1.keys := by
          intro c hc
          split at hc
          · exact (i2 c).2 (.inr hc)
          · cases hc
        obtain ⟨b', j1, j2, j3, _⟩ := ih _ (by
            rw [← hm]
            show (pending ++ (if (resolve fdir cell conns b.stack b.dest).2.1 = none then conns
              else [])).length + weight fc (b.visited ++ [cell]) < _
            rw [List.length_append]
            omega) (pending ++ (if (resolve fdir cell conns b.stack b.dest).2.1 = none then conns
              else [])) n ⟨_, _, (resolve fdir cell conns b.stack b.dest).2.2, b.visited ++ [cell],
              b.tmp ++ (if (resolve fdir cell conns b.stack b.dest).2.1 = none then conns
              else [])⟩ rfl ⟨i1, fun c hc => by
              rcases List.mem_append.1 hc with hc | hc
              · exact (i2 c).2 (.inl (hb.tmp c hc))
              · exact hmorek c hc, i3⟩ (fun c hc => by
              rcases List.mem_append.1 hc with hc | hc
              · exact (i2 c).2 (.inl (hp' c hc))
              · exact hmorek c hc) ⟨fun hd c hc => by
              dsimp only at hd hc ⊢
              rcases List.mem_append.1 hc with hc | hc
              · rcases hvi.todo (hdn hd) c hc with h | h
                · left; exact List.mem_append_left _ h
                · rcases List.mem_cons.1 h with rfl | h
                  · left; simp
                  · right; exact List.mem_append_left _ h
              · right; exact List.mem_append_right _ hc, fun hd c hc => by
              dsimp only at hd hc ⊢
              rw [if_pos hd]
              rcases (i2 c).1 hc with h | h
              · exact List.mem_append_left _ (hvi.keys (hdn hd) c h)
              · exact List.mem_append_right _ h⟩
        refine ⟨b', fun k hk => ?_, j2, ?_, by simp⟩
        · obtain ⟨k, rfl⟩ : ∃ k', k = k' + 1 := ⟨k - 1, by omega⟩
          simp only [searchPass]
          rw [if_pos hvis, hcon]
          simp only [Res.bind_ok]
          refine j1 k ?_
          show (pending ++ (if (resolve fdir cell conns b.stack b.dest).2.1 = none then conns
              else [])).length + weight fc (b.visited ++ [cell]) + 1 ≤ k
          rw [List.length_append]
          omega
        · dsimp only at j3
          rw [List.length_append] at j3
          omega
      · have htodo : ∀ (b2 : BState N), b2.dest = b.dest → b2.tmp = b.tmp → b2.visited = b.visited →
            b2.stack = b.stack → VInv pending b2 := by
          intro b2 e1 e2 e3 e4
          refine ⟨fun hd c hc => ?_, fun hd c hc => ?_⟩
          · rw [e2] at hc; rw [e3]
            rcases hvi.todo (e1 ▸ hd) c hc with h | h
            · exact .inl h
            · rcases List.mem_cons.1 h with rfl | h
              · exact .inl (not_not.1 hvis)
              · exact .inr h
          · rw [e4] at hc; rw [e2]
            exact hvi.keys (e1 ▸ hd) c hc
        by_cases hd : b.dest ≠ none
        · obtain ⟨b', j1, j2, j3, _⟩ := ih (pending.length + weight fc b.visited) (by omega) pending n b
            rfl hb hp' (htodo b rfl rfl rfl rfl)
          refine ⟨b', fun k hk => ?_, j2, j3, by simp⟩
          obtain ⟨k, rfl⟩ : ∃ k', k = k' + 1 := ⟨k - 1, by omega⟩
          simp only [searchPass]
          rw [if_neg hvis, if_pos hd]
          exact j1 k (by omega)
        · generalize hb2 : (if n + 1 ≥ b.stack.length then { b with sink := true } else b) = b2
          have e1 : b2.dest = b.dest := by rw [← hb2]; split <;> rfl
          have e2 : b2.tmp = b.tmp := by rw [← hb2]; split <;> rfl
          have e3 : b2.visited = b.visited := by rw [← hb2]; split <;> rfl
          have e4 : b2.stack = b.stack := by rw [← hb2]; split <;> rfl
          obtain ⟨b', j1, j2, j3, _⟩ := ih (pending.length + weight fc b2.visited) (by
              rw [e3]; omega) pending (n + 1) b2
            rfl ⟨e4 ▸ hb.stack, by rw [e2, e4]; exact hb.tmp, by rw [e1, e4]; exact hb.dest⟩
            (by rw [e4]; exact hp') (htodo b2 e1 e2 e3 e4)
          refine ⟨b', fun k hk => ?_, j2, by rw [e2, e3] at j3; exact j3, by simp⟩
          obtain ⟨k, rfl⟩ : ∃ k', k = k' + 1 := ⟨k - 1, by omega⟩
          simp only [searchPass]
          rw [if_neg hvis, if_neg hd, hb2]
          exact j1 k (by rw [e3]; omega)

/-- a pass over visited cells without a destination ends with `sink` if it counts far enough -/
theorem searchPass_count {fdir : Fin N → ℤ} {fc : Fin N → List (Entry N)} :
    ∀ (pending : List (Fin N)) (n : ℕ) (b : BState N), b.dest = none →
    (∀ c ∈ pending, c ∈ b.visited) → pending ≠ [] → b.stack.length ≤ n + pending.length →
    ∃ b', (∀ k, pending.length + 1 ≤ k → searchPass fdir fc k pending n b = .ok b') ∧
      b'.dest = none ∧ b'.sink = true := by
  intro pending
  induction pending with
  | nil => intro n b _ _ h; exact absurd rfl h
  | cons cell pending ih =>
    intro n b hd hv _ hl
    simp only [List.length_cons] at hl
    have hvis : ¬ cell ∉ b.visited := not_not.2 (hv cell (by simp))
    have hd' : ¬ b.dest ≠ none := not_not.2 hd
    cases hpe : pending with
    | nil =>
      subst hpe
      refine ⟨{ b with sink := true }, fun k hk => ?_, hd, rfl⟩
      simp only [List.length_cons, List.length_nil] at hk hl
      obtain ⟨k, rfl⟩ : ∃ k', k = k' + 2 := ⟨k - 2, by omega⟩
      simp only [searchPass]
      rw [if_neg hvis, if_neg hd', if_pos (by omega)]
    | cons x y =>
      rw [← hpe]
      generalize hb2 : (if n + 1 ≥ b.stack.length then { b with sink := true } else b) = b2
      have e1 : b2.dest = b.dest := by rw [← hb2]; split <;> rfl
      have e3 : b2.visited = b.visited := by rw [← hb2]; split <;> rfl
      have e4 : b2.stack = b.stack := by rw [← hb2]; split <;> rfl
      obtain ⟨b', j1, j2, j3⟩ := ih (n + 1) b2 (e1.trans hd)
        (fun c hc => by rw [e3]; exact hv c (List.mem_cons_of_mem _ hc)) (by simp [hpe])
        (by rw [e4]; omega)
      refine ⟨b', fun k hk => ?_, j2, j3⟩
      simp only [List.length_cons] at hk
      obtain ⟨k, rfl⟩ : ∃ k', k = k' + 1 := ⟨k - 1, by omega⟩
      simp only [searchPass]
      rw [if_neg hvis, if_neg hd', hb2]
      exact j1 k (by omega)

/-- two passes of `while True` suffice -/
theorem searchLoop_ok {fdir : Fin N → ℤ} {fc : Fin N → List (Entry N)} (hfc : ∀ n, fc n ⊆ A n)
    (hv : ∀ p c, some c ∈ A p → none ∉ A c) {b : BState N} (hb : BInv A ix b) (hvi : VInv b.tmp b)
    (hs : b.tmp = [] → b.sink = true) :
    ∃ b', ∀ pf k, b.tmp.length + weight fc b.visited + 1 ≤ pf → 2 ≤ k →
      searchLoop fdir fc pf k b = .ok b' := by
  obtain ⟨b1, i1, i2, i3, i4⟩ := searchPass_ok (fdir := fdir) hfc hv _ b.tmp 0 b rfl hb hb.tmp hvi
  have hb1 := searchPass_spec (A := A) (ix := ix) hfc _ _ _ _ _ hb hb.tmp (i1 _ le_rfl)
  by_cases hd : b1.dest ≠ none
  · refine ⟨{ b1 with sink := false }, fun pf k hpf hk => ?_⟩
    obtain ⟨k, rfl⟩ : ∃ k', k = k' + 1 := ⟨k - 1, by omega⟩
    simp only [searchLoop]
    rw [i1 pf hpf]
    simp only [Res.bind_ok]
    rw [if_pos hd]
  · by_cases hsk : b1.sink = true
    · refine ⟨b1, fun pf k hpf hk => ?_⟩
      obtain ⟨k, rfl⟩ : ∃ k', k = k' + 1 := ⟨k - 1, by omega⟩
      simp only [searchLoop]
      rw [i1 pf hpf]
      simp only [Res.bind_ok]
      rw [if_neg hd, if_pos hsk]
    · have hd1 := not_not.1 hd
      have hne : b1.tmp ≠ [] := by
        intro h
        by_cases hbt : b.tmp = []
        · exact hsk (by rw [i4 hbt]; exact hs hbt)
        · -- the keys come from the list, which is empty
          have hk1 : b1.stack.keys = [] := by
            rw [List.eq_nil_iff_forall_not_mem]
            intro c hc
            have := i2.keys hd1 c hc
            rw [h] at this
            cases this
          have hlen : b1.stack.length = 0 := by
            have := congrArg List.length hk1
            simpa [Dict.keys] using this
          have : ∀ (k : ℕ) (pending : List (Fin N)) (n : ℕ) (b b' : BState N),
              searchPass fdir fc k pending n b = .ok b' → ∃ l, b'.tmp = b.tmp ++ l := by
            intro k
            induction k with
            | zero => intro p n b b' h; simp [searchPass] at h
            | succ k ih =>
              intro p n b b' h
              cases p with
              | nil =>
                simp only [searchPass, Res.ok.injEq] at h
                exact ⟨[], by rw [← h]; simp⟩
              | cons c p =>
                simp only [searchPass] at h
                split at h
                · obtain ⟨conns, _, h⟩ := Res.bind_eq_ok.1 h
                  obtain ⟨l, hl⟩ := ih _ _ _ _ h
                  exact ⟨_, by rw [hl]; exact List.append_assoc _ _ _⟩
                · split at h
                  · exact ih _ _ _ _ h
                  · obtain ⟨l, hl⟩ := ih _ _ _ _ h
                    refine ⟨l, ?_⟩
                    rw [hl]
                    split <;> rfl
          obtain ⟨l, hl⟩ := this _ _ _ _ _ (i1 _ le_rfl)
          rw [h] at hl
          exact hbt (List.append_eq_nil_iff.1 hl.symm).1
      have hlen : b1.stack.length ≤ b1.tmp.length := by
        have h1 : b1.stack.keys.length ≤ b1.tmp.length :=
          (hb1.stack.nodup.subperm (fun c hc => i2.keys hd1 c hc)).length_le
        simpa [Dict.keys] using h1
      obtain ⟨b2, j1, j2, j3⟩ := searchPass_count (fdir := fdir) (fc := fc) b1.tmp 0 b1 hd1
        (fun c hc => (i2.todo hd1 c hc).resolve_right (by simp)) hne (by omega)
      refine ⟨b2, fun pf k hpf hk => ?_⟩
      obtain ⟨k, rfl⟩ : ∃ k', k = k' + 2 := ⟨k - 2, by omega⟩
      simp only [searchLoop]
      rw [i1 pf hpf]
      simp only [Res.bind_ok]
      rw [if_neg hd, if_neg hsk, j1 pf (by omega)]
      simp only [Res.bind_ok]
      rw [if_neg (not_not.2 j2), if_pos j3]

theorem traceLoop_ok (dest : Fin N) : ∀ (m : ℕ) (d : Dict (Fin N) (Fin N)) (nodeTo : Fin N)
    (t : Dict (Fin N) (Fin N × ℕ)), d.length = m →
    ∃ t', ∀ k, 2 * m + 2 ≤ k → traceLoop dest k nodeTo d t = .ok t' := by
  intro m
  induction m with
  | zero =>
    intro d nodeTo t h
    have : d = [] := List.length_eq_zero_iff.1 h
    subst this
    refine ⟨t, fun k hk => ?_⟩
    obtain ⟨k, rfl⟩ : ∃ k', k = k' + 1 := ⟨k - 1, by omega⟩
    simp [traceLoop]
  | succ m ih =>
    intro d nodeTo t h
    have hne : d ≠ [] := by rintro rfl; simp at h
    have key : ∀ (x : Fin N) (t : Dict (Fin N) (Fin N × ℕ)), x ∈ d.keys →
        ∃ t', ∀ k, 2 * m + 3 ≤ k → traceLoop dest k x d t = .ok t' := by
      intro x t hx
      obtain ⟨p, hp⟩ := Dict.mem_keys_iff.1 hx
      obtain ⟨t', ht'⟩ := ih (d.erase x) p (traceStep dest x p t) (by
        have := length_erase hx; omega)
      refine ⟨t', fun k hk => ?_⟩
      obtain ⟨k, rfl⟩ : ∃ k', k = k' + 1 := ⟨k - 1, by omega⟩
      simp only [traceLoop]
      rw [if_neg hne, hp]
      exact ht' k (by omega)
    by_cases hx : nodeTo ∈ d.keys
    · obtain ⟨t', ht'⟩ := key nodeTo t hx
      exact ⟨t', fun k hk => ht' k (by omega)⟩
    · have hk : d.keys ≠ [] := by
        intro h'
        simp only [Dict.keys, List.map_eq_nil_iff] at h'
        exact hne h'
      obtain ⟨l, hl⟩ : ∃ l, d.keys.getLast? = some l :=
        ⟨_, List.getLast?_eq_some_getLast hk⟩
      obtain ⟨t', ht'⟩ := key l t (List.mem_of_getLast? hl)
      refine ⟨t', fun k hk => ?_⟩
      obtain ⟨k, rfl⟩ : ∃ k', k = k' + 1 := ⟨k - 1, by omega⟩
      simp only [traceLoop]
      rw [if_neg hne, Dict.get?_eq_none.2 hx, hl]
      exact ht' k (by omega)

theorem search_ok {fdir : Fin N → ℤ} {fc : Fin N → List (Entry N)} {conns : List (Fin N)}
    (hfc : ∀ n, fc n ⊆ A n) (hv : ∀ p c, some c ∈ A p → none ∉ A c) (hc : ∀ c ∈ conns, some c ∈ A ix) :
    ∃ f', ∀ fuel, conns.length + weight fc [] + 2 * N + 2 ≤ fuel →
      search fuel fdir fc ix conns = .ok f' := by
  obtain ⟨hs, hk⟩ := startStack_spec A ix conns hc
  have hb0 : BInv A ix ⟨startStack ix conns, none, true, [], conns⟩ :=
    ⟨hs, fun c hc => (hk c).2 hc, by simp⟩
  obtain ⟨b, hb⟩ := searchLoop_ok (fdir := fdir) hfc hv hb0
    ⟨fun _ c hc => .inr hc, fun _ c hc => (hk c).1 hc⟩ (fun _ => rfl)
  obtain ⟨i, hds⟩ := searchLoop_spec (A := A) (ix := ix) hfc _ _ _ _ hb0 (hb _ _ le_rfl le_rfl)
  dsimp only at hb
  have hlen : b.stack.length ≤ N := by
    have : b.stack.keys.length ≤ N := by simpa using i.stack.nodup.length_le_card
    simpa [Dict.keys] using this
  unfold search
  by_cases hsk : b.sink = true
  · refine ⟨markSinks ix b.stack fdir, fun fuel h => ?_⟩
    rw [hb fuel fuel (by omega) (by omega)]
    simp [hsk]
  · cases hd : b.dest with
    | none => exact absurd (hds hd) hsk
    | some dest =>
      obtain ⟨first, hf⟩ := Dict.mem_keys_iff.1 (i.dest dest hd)
      obtain ⟨t, ht⟩ := traceLoop_ok dest _ b.stack dest [(first, (dest, 0))] rfl
      refine ⟨applyTrace t fdir, fun fuel h => ?_⟩
      rw [hb fuel fuel (by omega) (by omega)]
      simp only [Res.bind_ok]
      rw [if_neg hsk, hd]
      simp only [hf]
      rw [ht fuel (by omega)]
      rfl

/-! ### Cells the search leaves alone -/

/-- `t` was not listed, and only stored as a destination -/
structure KInv (t : Fin N) (b : BState N) : Prop where
  tmp : t ∉ b.tmp
  keys : t ∈ b.stack.keys → b.dest ≠ none
  vals : ∀ e ∈ b.stack, e.2 ≠ t

theorem connStep_keep {fdir : Fin N → ℤ} {cell t : Fin N} (ht : fdir t ≠ -1 ∧ fdir t ≠ -2)
    (hct : cell ≠ t) (conns : List (Fin N)) :
    ∀ st : Dict (Fin N) (Fin N) × Option (Fin N) × Bool,
      (t ∈ st.1.keys → st.2.1 ≠ none) → (∀ e ∈ st.1, e.2 ≠ t) →
      (t ∈ (conns.foldl (connStep fdir cell) st).1.keys → (conns.foldl (connStep fdir cell) st).2.1 ≠ none)
      ∧ ∀ e ∈ (conns.foldl (connStep fdir cell) st).1, e.2 ≠ t := by
  induction conns with
  | nil => intro st h1 h2; exact ⟨h1, h2⟩
  | cons a conns ih =>
    intro st h1 h2
    simp only [List.foldl_cons]
    apply ih
    · unfold connStep
      split
      · exact h1
      · dsimp only
        intro h
        rcases Dict.mem_keys_set.1 h with h | rfl
        · split
          · simp
          · exact h1 h
        · rw [if_pos ht]; simp
    · unfold connStep
      split
      · exact h2
      · intro e he
        rcases mem_set he with he | rfl
        · exact h2 e he
        · exact hct

theorem resolve_keep {fdir : Fin N → ℤ} {cell t : Fin N} (ht : fdir t ≠ -1 ∧ fdir t ≠ -2)
    (hct : cell ≠ t) {conns : List (Fin N)} {d : Dict (Fin N) (Fin N)} {dest : Option (Fin N)}
    (h1 : t ∈ d.keys → dest ≠ none) (h2 : ∀ e ∈ d, e.2 ≠ t) :
    (t ∈ (resolve fdir cell conns d dest).1.keys → (resolve fdir cell conns d dest).2.1 ≠ none)
      ∧ ∀ e ∈ (resolve fdir cell conns d dest).1, e.2 ≠ t := by
  apply connStep_keep ht hct
  · dsimp only
    intro h
    split
    · rename_i hl
      cases conns with
      | nil => simp at hl
      | cons a l => simp
    · exact h1 h
  · exact h2

theorem searchPass_keep {fdir : Fin N → ℤ} {fc : Fin N → List (Entry N)} {t : Fin N}
    (ht : fdir t ≠ -1 ∧ fdir t ≠ -2) : ∀ (k : ℕ) (pending : List (Fin N)) (n : ℕ) (b b' : BState N),
    KInv t b → t ∉ pending → searchPass fdir fc k pending n b = .ok b' → KInv t b' := by
  intro k
  induction k with
  | zero => intro pending n b b' _ _ h; simp [searchPass] at h
  | succ k ih =>
    intro pending n b b' hb hp h
    cases pending with
    | nil =>
      simp only [searchPass, Res.ok.injEq] at h
      rw [← h]; exact hb
    | cons cell pending =>
      simp only [List.mem_cons, not_or] at hp
      simp only [searchPass] at h
      split at h
      · obtain ⟨conns, hcon, h⟩ := Res.bind_eq_ok.1 h
        obtain ⟨i1, i2⟩ := resolve_keep (conns := conns) ht (Ne.symm hp.1) hb.keys hb.vals
        have hk : ∀ c ∈ conns, c ∈ (resolve fdir cell conns b.stack b.dest).1.keys := by
          have : ∀ (l : List (Fin N)) (st : Dict (Fin N) (Fin N) × Option (Fin N) × Bool) (c : Fin N),
              c ∈ st.1.keys ∨ c ∈ l → c ∈ (l.foldl (connStep fdir cell) st).1.keys := by
            intro l
            induction l with
            | nil => intro st c h; simpa using h
            | cons a l ih =>
              intro st c h
              simp only [List.foldl_cons]
              apply ih
              unfold connStep
              rcases h with h | h
              · left
                split
                · exact h
                · exact Dict.mem_keys_set.2 (.inl h)
              · rcases List.mem_cons.1 h with rfl | h
                · left
                  split
                  · assumption
                  · exact Dict.mem_keys_set.2 (.inr rfl)
                · exact .inr h
          exact fun c hc => this _ _ _ (.inr hc)
        have hmore : t ∉ (if (resolve fdir cell conns b.stack b.dest).2.1 = none then conns else []) := by
          split
          · rename_i hd
            exact fun hc => i1 (hk t hc) hd
          · simp
        refine ih _ _ _ _ ⟨?_, i1, i2⟩ ?_ h
        · exact fun h => (List.mem_append.1 h).elim hb.tmp hmore
        · exact fun h => (List.mem_append.1 h).elim hp.2 hmore
      · split at h
        · exact ih _ _ _ _ hb hp.2 h
        · refine ih _ _ _ _ ?_ hp.2 h
          split
          · exact ⟨hb.tmp, hb.keys, hb.vals⟩
          · exact hb

theorem searchLoop_keep {fdir : Fin N → ℤ} {fc : Fin N → List (Entry N)} {t : Fin N}
    (ht : fdir t ≠ -1 ∧ fdir t ≠ -2) (pf : ℕ) : ∀ (k : ℕ) (b b' : BState N),
    KInv t b → searchLoop fdir fc pf k b = .ok b' →
      KInv t b' ∧ (b'.sink = true → b'.dest = none) := by
  intro k
  induction k with
  | zero => intro b b' _ h; simp [searchLoop] at h
  | succ k ih =>
    intro b b' hb h
    simp only [searchLoop] at h
    obtain ⟨b1, h1, h⟩ := Res.bind_eq_ok.1 h
    have i := searchPass_keep ht _ _ _ _ _ hb hb.tmp h1
    split at h
    · simp only [Res.ok.injEq] at h
      rw [← h]
      exact ⟨⟨i.tmp, i.keys, i.vals⟩, by simp⟩
    · rename_i hd
      split at h
      · simp only [Res.ok.injEq] at h
        rw [← h]
        exact ⟨i, fun _ => not_not.1 hd⟩
      · exact ih _ _ i h

/-- A cell that already has a direction and is not one of the tied candidates keeps its direction. -/
theorem search_keep {fuel : ℕ} {fdir f' : Fin N → ℤ} {fc : Fin N → List (Entry N)}
    {conns : List (Fin N)} {t : Fin N} (ht : fdir t ≠ -1 ∧ fdir t ≠ -2) (hne : t ≠ ix)
    (htc : t ∉ conns) (h : search fuel fdir fc ix conns = .ok f') : f' t = fdir t := by
  unfold search at h
  obtain ⟨b, hb, h⟩ := Res.bind_eq_ok.1 h
  have hst : ∀ (l : List (Fin N)) (d : Dict (Fin N) (Fin N)), (∀ e ∈ d, e.2 = ix) →
      (∀ e ∈ l.foldl (fun d c => d.set c ix) d, e.2 = ix) ∧
      ∀ c ∈ Dict.keys (l.foldl (fun d c => d.set c ix) d), c ∈ d.keys ∨ c ∈ l := by
    intro l
    induction l with
    | nil => intro d h; exact ⟨h, fun c h => .inl h⟩
    | cons a l ih =>
      intro d h
      obtain ⟨i1, i2⟩ := ih (d.set a ix) (fun e he => by
        rcases mem_set he with he | rfl
        · exact h e he
        · rfl)
      refine ⟨i1, fun c hc => ?_⟩
      rcases i2 c hc with h | h
      · rcases Dict.mem_keys_set.1 h with h | rfl
        · exact .inl h
        · exact .inr (by simp)
      · exact .inr (List.mem_cons_of_mem _ h)
  obtain ⟨s1, s2⟩ := hst conns [] (by simp)
  obtain ⟨i, hds⟩ := searchLoop_keep ht _ _ _ _ ⟨htc, fun h => by
    rcases s2 t h with h | h
    · cases h
    · exact absurd h htc, fun e he => by rw [s1 e he]; exact Ne.symm hne⟩ hb
  split at h
  · rename_i hsk
    simp only [Res.ok.injEq] at h
    subst h
    rw [markSinks_spec, if_neg]
    rintro (h | h)
    · exact hne h
    · exact i.keys h (hds hsk)
  · split at h
    · simp only [Res.ok.injEq] at h; rw [h]
    · rename_i dest hd
      split at h
      · cases h
      · rename_i first hf
        obtain ⟨tr, htr, rfl⟩ := Res.map_eq_ok.1 h
        have hti : TInv b.stack tr := (traceLoop_spec _ _ _ _ _ (fun _ h => h) (by
          intro e he
          simp only [List.mem_singleton] at he
          subst he
          exact Dict.mem_of_get? hf) htr).1
        rcases applyTrace_spec tr fdir t with ⟨_, h⟩ | ⟨e, he, h1, _⟩
        · exact h
        · exact absurd h1 (i.vals _ (hti e he))

/-! ### Ties that are settled without a search -/

/-- at most three candidates, any two of them neighbours -/
structure Soft (frow : Fin N → List (Entry N)) (L : List (Entry N)) : Prop where
  few : L.length ≤ 3
  nodup : L.Nodup
  near : ∀ a b, some a ∈ L → some b ∈ L → a ≠ b → some b ∈ frow a

theorem Soft.sub {frow : Fin N → List (Entry N)} {L L' : List (Entry N)} (h : Soft frow L) (hs : L'.Sublist L) :
    Soft frow L' :=
  ⟨hs.length_le.trans h.few, h.nodup.sublist hs, fun a b ha hb => h.near a b (hs.subset ha) (hs.subset hb)⟩

theorem scanRow_stack : ∀ (row : List (Entry N)) (pending stack : List (Fin N)) (found : Bool), stack.Nodup →
    (scanRow row pending stack found).2.1 = stack.filter (fun x => some x ∉ row) := by
  intro row
  induction row with
  | nil => intro p st f _; simp [scanRow]
  | cons e row ih =>
    intro p st f hn
    cases e with
    | none =>
      have : scanRow (none :: row) p st f = scanRow row p st f := rfl
      rw [this, ih p st f hn]
      exact List.filter_congr fun x _ => by simp
    | some c =>
      by_cases hc : c ∈ st
      · have he : scanRow (some c :: row) p st f = scanRow row (p ++ [c]) (st.erase c) true := by
          simp [scanRow, hc]
        rw [he, ih _ _ _ (hn.erase c), hn.erase_eq_filter, List.filter_filter]
        refine List.filter_congr fun x _ => ?_
        by_cases hx : x = c
        · subst hx; simp
        · simp [hx]
      · have he : scanRow (some c :: row) p st f = scanRow row p st f := by simp [scanRow, hc]
        rw [he, ih _ _ _ hn]
        refine List.filter_congr fun x hx => ?_
        have : x ≠ c := by rintro rfl; exact hc hx
        simp [this]

theorem scanAll_nil {frow : Fin N → List (Entry N)} : ∀ (k : ℕ) (pending are : List (Fin N)) (found : Bool)
    (r : List (Fin N) × List (Fin N) × Bool), scanAll frow k pending are [] found = .ok r → r.2.1 = [] := by
  intro k
  induction k with
  | zero => intro p a f r h; simp [scanAll] at h
  | succ k ih =>
    intro p a f r h
    cases p with
    | nil => simp only [scanAll, Res.ok.injEq] at h; rw [← h]
    | cons t p =>
      simp only [scanAll] at h
      have h0 : (scanRow (frow t) p [] f).2.1 = [] := by rw [scanRow_stack _ _ _ _ List.nodup_nil]; rfl
      rw [h0] at h
      exact ih _ _ _ _ h

theorem continuous_soft {frow : Fin N → List (Entry N)} {l : List (Fin N)} (hs : Soft frow (l.map some)) {fuel : ℕ}
    {c : Bool} (hne : l ≠ []) (h : continuous frow fuel l = .ok c) : c = true := by
  rcases l with _ | ⟨a, l⟩
  · exact absurd rfl hne
  have hnd : (a :: l).Nodup := List.Nodup.of_map _ hs.nodup
  rw [List.nodup_cons] at hnd
  simp only [continuous] at h
  rcases fuel with _ | k
  · simp [contLoop] at h
  rcases l with _ | ⟨b, l⟩
  · simp only [contLoop, Res.ok.injEq] at h; exact h.symm
  simp only [contLoop] at h
  obtain ⟨r, hr, h⟩ := Res.bind_eq_ok.1 h
  have hr0 : r.2.1 = [] := by
    simp only [scanAll] at hr
    have h0 : (scanRow (frow a) [] (b :: l) false).2.1 = [] := by
      rw [scanRow_stack _ _ _ _ hnd.2, List.filter_eq_nil_iff]
      intro x hx
      have := hs.near a x (by simp) (List.mem_map.2 ⟨x, by simp only [List.mem_cons] at hx ⊢; tauto, rfl⟩)
        (by rintro rfl; exact hnd.1 hx)
      simpa using this
    rw [h0] at hr
    exact scanAll_nil _ _ _ _ _ hr
  split at h
  · simp only [Res.ok.injEq] at h
    rw [← h, hr0]; rfl
  · rw [hr0] at h
    rcases k with _ | k
    · simp [contLoop] at h
    · simp only [contLoop, Res.ok.injEq] at h; exact h.symm

end Dany.Dirs
