import Verif.Basin.Time
import Mathlib.Tactic.NormNum

/-!
# C220: the running time of the search for the next pour points

The loops of `flow_directions.py:589-608` with counters: how often the body of `while True` runs, and how many
comparisons `cellid in visited` makes (`visited` is a list that is searched from the front).
-/

namespace Dany.Basin

open Function Flow

variable {N : ℕ} {fdir : Fin N → ℤ} {d : Fin N → Fin N}

/-- the comparisons made by `x in l` for a Python list (flow_directions.py:594) -/
def looks (x : ℤ) : List ℤ → ℕ
  | [] => 0
  | y :: l => if y = x then 1 else looks x l + 1

/-- one iteration of `while True` (flow_directions.py:593) that made `n` comparisons -/
def tick {α : Type*} (n : ℕ) (r : α × ℕ × ℕ) : α × ℕ × ℕ := (r.1, r.2.1 + 1, r.2.2 + n)

/-- `nextPour` (flow_directions.py:593-608) with the iterations and the comparisons in `visited` -/
def nextPourT (fdir : Fin N → ℤ) (cellids : List ℤ) (current : ℤ) :
    ℕ → ℤ → List ℤ → Res (ℤ × ℕ × ℕ)
  | 0, _, _ => .hang
  | k + 1, cellid, visited =>
    let n := looks cellid visited
    if cellid ∈ visited then .ok (-1, 1, n)
    else if cellid ∉ cellids ∨ cellid = current then
      if cellid ≠ current then
        (pyIndex N cellid).bind fun c =>
          (nextPourT fdir cellids current k (fdir c) (visited ++ [cellid])).map (tick n)
      else
        (pyIndex N cellid).bind fun c =>
          if fdir c = current then .ok (-1, 1, n)
          else (nextPourT fdir cellids current k (fdir c) visited).map (tick n)
    else .ok (cellid, 1, n)

/-- one iteration of `for cellid in cellids` (flow_directions.py:590-608), adding up the counts -/
def graphStepT (fuel : ℕ) (fdir : Fin N → ℤ) (cellids : List ℤ) (r : Res (Dict ℤ ℤ × ℕ × ℕ)) (p : ℤ) :
    Res (Dict ℤ ℤ × ℕ × ℕ) :=
  r.bind fun g => (nextPourT fdir cellids p fuel p []).bind fun q =>
    .ok (g.1.set p q.1, g.2.1 + q.2.1, g.2.2 + q.2.2)

/-- the `graph` dictionary (flow_directions.py:589-608) with both counts -/
def pourGraphT (fuel : ℕ) (fdir : Fin N → ℤ) (cellids : List ℤ) : Res (Dict ℤ ℤ × ℕ × ℕ) :=
  cellids.foldl (graphStepT fuel fdir cellids) (.ok ([], 0, 0))

/-! ### The counters change nothing -/

theorem nextPourT_fst (cellids : List ℤ) (current : ℤ) : ∀ (k : ℕ) (x : ℤ) (visited : List ℤ),
    (nextPourT fdir cellids current k x visited).map Prod.fst = nextPour fdir cellids current k x visited := by
  have hm : ∀ (n : ℕ) (r : Res (ℤ × ℕ × ℕ)), (r.map (tick n)).map Prod.fst = r.map Prod.fst := by
    intro n r; cases r <;> rfl
  intro k
  induction k with
  | zero => intros; rfl
  | succ k ih =>
    intro x visited
    simp only [nextPourT, nextPour]
    split_ifs
    · rfl
    · cases pyIndex N x with
      | err e => rfl
      | hang => rfl
      | ok c => simp only [Res.bind_ok]; rw [hm, ih]
    · cases pyIndex N x with
      | err e => rfl
      | hang => rfl
      | ok c =>
        simp only [Res.bind_ok]
        split_ifs
        · rfl
        · rw [hm, ih]
    · rfl

/-- The counters change nothing: without them the function is the modelled one. -/
theorem pourGraphT_fst (fuel : ℕ) (cellids : List ℤ) :
    (pourGraphT fuel fdir cellids).map Prod.fst = pourGraph fuel fdir cellids := by
  have key : ∀ (l : List ℤ) (r : Res (Dict ℤ ℤ × ℕ × ℕ)),
      (l.foldl (graphStepT fuel fdir cellids) r).map Prod.fst =
        l.foldl (graphStep fuel fdir cellids) (r.map Prod.fst) := by
    intro l
    induction l with
    | nil => intro r; rfl
    | cons x l ih =>
      intro r
      rw [List.foldl_cons, List.foldl_cons, ih]
      congr 1
      cases r with
      | err e => rfl
      | hang => rfl
      | ok g =>
        simp only [graphStepT, graphStep, Res.bind_ok, Res.map_ok]
        rw [← nextPourT_fst]
        generalize nextPourT (N := N) _ _ _ _ _ _ = q
        cases q <;> rfl
  unfold pourGraphT pourGraph
  rw [key]; rfl

/-! ### The bound -/

theorem looks_le (x : ℤ) (l : List ℤ) : looks x l ≤ l.length := by
  induction l with
  | nil => simp [looks]
  | cons y l ih => simp only [looks]; split_ifs <;> (simp; try omega)

theorem below_mono {a b : ℕ} (h : a ≤ b) : below a ≤ below b := by
  induction b with
  | zero => rw [Nat.le_zero.1 h]
  | succ b ih =>
    rcases Nat.lt_or_ge a (b + 1) with h1 | h1
    · rw [below_succ]; exact (ih (by omega)).trans (by omega)
    · rw [Nat.le_antisymm h h1]

theorem walk_count (h : Legal fdir d) {cellids : List ℤ} {p : Fin N} (hp : ¬ OnCycle d p) (hself : d p ≠ p) :
    ∀ (k i : ℕ) (visited : List ℤ) (q : ℤ) (t w : ℕ), 1 ≤ i → visited.Nodup →
      (∀ x ∈ visited, ∃ c : Fin N, c ≠ p ∧ x = toZ c) →
      nextPourT fdir cellids (toZ p) k (toZ (d^[i] p)) visited = .ok (q, t, w) →
      t + visited.length ≤ N ∧ w + below visited.length ≤ below N := by
  have hback : ∀ i, 1 ≤ i → d^[i] p ≠ p := by
    intro i hi hip
    exact hp ⟨hself, i - 1, by rw [Nat.sub_add_cancel hi]; exact hip⟩
  intro k
  induction k with
  | zero => intro i visited q t w _ _ _ hr; cases hr
  | succ k ih =>
    intro i visited q t w hi hnd hv hr
    have hlen : visited.length + 1 ≤ N := by
      have h1 : (visited.toFinset).card = visited.length := List.toFinset_card_of_nodup hnd
      have h2 : visited.toFinset ⊆ ((Finset.univ : Finset (Fin N)).erase p).image toZ := by
        intro x hx
        obtain ⟨c, hc, rfl⟩ := hv x (List.mem_toFinset.1 hx)
        exact Finset.mem_image_of_mem _ (Finset.mem_erase.2 ⟨hc, Finset.mem_univ _⟩)
      have h3 := (Finset.card_le_card h2).trans Finset.card_image_le
      rw [Finset.card_erase_of_mem (Finset.mem_univ _), Finset.card_univ, Fintype.card_fin, h1] at h3
      have := p.isLt
      omega
    have hlook := looks_le (toZ (d^[i] p)) visited
    have hb1 := below_succ visited.length
    have hb2 := below_mono hlen
    have hne : toZ (d^[i] p) ≠ toZ p := fun he => hback i hi (toZ_inj he)
    simp only [nextPourT, hne, or_false, ne_eq, not_false_eq_true, if_true] at hr
    split_ifs at hr with h1 h2
    · cases hr; omega
    rotate_left
    · rw [pyIndex_toZ, Res.bind_ok] at hr
      have hfd : fdir (d^[i] p) = toZ (d^[i + 1] p) := by
        rw [h, iterate_succ_apply']; rfl
      rw [hfd] at hr
      obtain ⟨⟨q1, t1, w1⟩, hr2, he⟩ := Res.map_eq_ok.1 hr
      cases he
      obtain ⟨i1, i2⟩ := ih (i + 1) _ _ _ _ (by omega) (by
        rw [List.nodup_append]
        refine ⟨hnd, by simp, ?_⟩
        intro a ha b hb
        rw [List.mem_singleton] at hb
        subst hb
        rintro rfl
        exact h1 ha) (by
        intro x hx
        rcases List.mem_append.1 hx with hx | hx
        · exact hv x hx
        · exact ⟨_, hback i hi, List.mem_singleton.1 hx⟩) hr2
      rw [List.length_append, List.length_singleton] at i1 i2
      dsimp only
      omega
    · cases hr; omega

/-- **C220.**  With no pour point on a flow cycle the search for the next pour points runs its loop at most `N + 1`
times for each of them and makes at most `N (N - 1) / 2` comparisons with cells already visited. -/
theorem C220_bound (h : Legal fdir d) {cells : List (Fin N)} (hp : ∀ c ∈ cells, ¬ OnCycle d c) {fuel : ℕ}
    (hf : N + 1 < fuel) :
    ∃ g t w, pourGraphT fuel fdir (cells.map toZ) = .ok (g, t, w) ∧
      pourGraph fuel fdir (cells.map toZ) = .ok g ∧ t ≤ cells.length * (N + 1) ∧
      2 * w ≤ cells.length * (N * (N - 1)) := by
  obtain ⟨g, e, -⟩ := pourGraph_ok h hp hf
  have hT := pourGraphT_fst (fdir := fdir) fuel (cells.map toZ)
  rw [e] at hT
  obtain ⟨⟨g', t, w⟩, hT2, hg⟩ := Res.map_eq_ok.1 hT
  dsimp only at hg
  subst hg
  refine ⟨g', t, w, hT2, e, ?_⟩
  have one : ∀ (c : Fin N) (q : ℤ) (a b : ℕ), ¬ OnCycle d c →
      nextPourT fdir (cells.map toZ) (toZ c) fuel (toZ c) [] = .ok (q, a, b) → a ≤ N + 1 ∧ b ≤ below N := by
    intro c q a b hc hr
    obtain ⟨k, rfl⟩ : ∃ k, fuel = k + 1 := ⟨fuel - 1, by omega⟩
    simp only [nextPourT, List.not_mem_nil, if_false, or_true, if_true, ne_eq, not_true_eq_false,
      pyIndex_toZ, Res.bind_ok, looks] at hr
    have hfd : fdir c = toZ (d c) := h c
    rw [hfd] at hr
    split_ifs at hr with h1
    · cases hr; omega
    · obtain ⟨⟨q1, t1, w1⟩, hr2, he⟩ := Res.map_eq_ok.1 hr
      cases he
      obtain ⟨i1, i2⟩ := walk_count h hc (fun he => h1 (by rw [he])) k 1 [] _ _ _ le_rfl (by simp) (by simp) hr2
      have hz : below 0 = 0 := rfl
      simp only [List.length_nil, hz] at i1 i2
      dsimp only
      omega
  have key : ∀ (l : List (Fin N)) (g0 g1 : Dict ℤ ℤ) (t0 w0 t1 w1 : ℕ), (∀ c ∈ l, c ∈ cells) →
      (l.map toZ).foldl (graphStepT fuel fdir (cells.map toZ)) (.ok (g0, t0, w0)) = .ok (g1, t1, w1) →
      t1 ≤ t0 + l.length * (N + 1) ∧ w1 ≤ w0 + l.length * below N := by
    intro l
    induction l with
    | nil => intro g0 g1 t0 w0 t1 w1 _ hr; cases hr; simp
    | cons c l ih =>
      intro g0 g1 t0 w0 t1 w1 hl hr
      rw [List.map_cons, List.foldl_cons] at hr
      obtain ⟨q, hq⟩ := nextPour_ok h (cells := cells) (hp c (hl c (by simp))) hf
      have hTq := nextPourT_fst (fdir := fdir) (cells.map toZ) (toZ c) fuel (toZ c) []
      rw [hq.1] at hTq
      obtain ⟨⟨q', a, b⟩, hTq, -⟩ := Res.map_eq_ok.1 hTq
      simp only [graphStepT, Res.bind_ok, hTq] at hr
      obtain ⟨i1, i2⟩ := ih _ _ _ _ _ _ (fun c' hc' => hl c' (by simp [hc'])) hr
      obtain ⟨o1, o2⟩ := one c _ _ _ (hp c (hl c (by simp))) hTq
      rw [List.length_cons, Nat.succ_mul, Nat.succ_mul]
      omega
  obtain ⟨k1, k2⟩ := key cells _ _ _ _ _ _ (fun _ hc => hc) hT2
  refine ⟨by omega, ?_⟩
  rw [← below_two]
  have : cells.length * (2 * below N) = 2 * (cells.length * below N) := by ring
  omega

/-! ### The bound is reached up to a constant -/

/-- `n + 1` cells in a row, `0 → 1 → … → n → n`, and `n + 1` others that drain to cell 0 -/
def comb (n : ℕ) : Fin (2 * (n + 1)) → ℤ := fun u => if u.val < n then u.val + 1 else if u.val = n then n else 0

/-- the next cells of `comb` -/
def combNext (n : ℕ) : Fin (2 * (n + 1)) → Fin (2 * (n + 1)) := fun u =>
  if h : u.val < n then ⟨u.val + 1, by omega⟩ else if u.val = n then u else ⟨0, by omega⟩

/-- the cells outside the row -/
def combPours (n : ℕ) : List (Fin (2 * (n + 1))) :=
  (List.finRange (n + 1)).map fun i => ⟨n + 1 + i.val, by omega⟩

theorem comb_legal (n : ℕ) : Legal (comb n) (combNext n) := by
  intro u
  unfold comb combNext
  split_ifs with h1 h2
  · simp
  · simp [h2]
  · simp

theorem combPours_ge {n : ℕ} {c : Fin (2 * (n + 1))} (h : c ∈ combPours n) : n < c.val := by
  obtain ⟨i, -, rfl⟩ := List.mem_map.1 h
  simp only
  omega

theorem comb_acyclic {n : ℕ} : ∀ c ∈ combPours n, ¬ OnCycle (combNext n) c := by
  rintro c hc ⟨-, k, hk⟩
  have hle : ∀ u : Fin (2 * (n + 1)), (combNext n u).val ≤ n := by
    intro u
    unfold combNext
    split_ifs
    · simp only; omega
    · omega
    · exact Nat.zero_le _
  have := combPours_ge hc
  rw [iterate_succ_apply'] at hk
  have h2 := hle ((combNext n)^[k] c)
  rw [hk] at h2
  omega

theorem looks_none {x : ℤ} : ∀ l : List ℤ, x ∉ l → looks x l = l.length := by
  intro l
  induction l with
  | nil => intro _; rfl
  | cons y l ih =>
    intro h
    rw [List.mem_cons, not_or] at h
    simp only [looks, if_neg (Ne.symm h.1), ih h.2, List.length_cons]

theorem looks_last {x : ℤ} : ∀ l : List ℤ, x ∉ l → looks x (l ++ [x]) = l.length + 1 := by
  intro l
  induction l with
  | nil => intro _; simp [looks]
  | cons y l ih =>
    intro h
    rw [List.mem_cons, not_or] at h
    simp only [List.cons_append, looks, if_neg (Ne.symm h.1), ih h.2, List.length_cons]

/-- the cells `0 … i - 1` as Python integers -/
def firsts (i : ℕ) : List ℤ := (List.range i).map Nat.cast

theorem firsts_succ (i : ℕ) : firsts (i + 1) = firsts i ++ [(i : ℤ)] := by
  unfold firsts; rw [List.range_succ, List.map_append]; rfl

theorem mem_firsts {i j : ℕ} : (j : ℤ) ∈ firsts i ↔ j < i := by
  unfold firsts
  rw [List.mem_map]
  constructor
  · rintro ⟨a, ha, he⟩
    rw [List.mem_range] at ha
    omega
  · intro h
    exact ⟨j, List.mem_range.2 h, rfl⟩

theorem comb_row {n : ℕ} {p : Fin (2 * (n + 1))} (hp : n < p.val) : ∀ (k i : ℕ), i ≤ n → n < k + i → ∀ f,
    k + 1 ≤ f → ∃ t w, nextPourT (comb n) ((combPours n).map toZ) (toZ p) f (i : ℤ) (firsts i) = .ok (-1, t, w) ∧
      t + i = n + 2 ∧ w + below i = below (n + 2) := by
  intro k
  induction k with
  | zero => intro i hi hk; omega
  | succ k ih =>
    intro i hi hk f hf
    obtain ⟨f, rfl⟩ : ∃ g, f = g + 1 := ⟨f - 1, by omega⟩
    have hl : (firsts i).length = i := by simp [firsts]
    have hnm : (i : ℤ) ∉ firsts i := by rw [mem_firsts]; omega
    have hnc : (i : ℤ) ∉ (combPours n).map toZ := by
      intro hm
      obtain ⟨c, hc, he⟩ := List.mem_map.1 hm
      have := combPours_ge hc
      unfold toZ at he
      omega
    have hne : (i : ℤ) ≠ toZ p := by unfold toZ; omega
    have hix : pyIndex (2 * (n + 1)) (i : ℤ) = .ok ⟨i, by omega⟩ := by
      have := pyIndex_toZ (⟨i, by omega⟩ : Fin (2 * (n + 1)))
      unfold toZ at this
      exact this
    have hlk : looks (i : ℤ) (firsts i) = i := by rw [looks_none _ hnm, hl]
    simp only [nextPourT, if_neg hnm, if_pos (Or.inl hnc : _ ∨ (i : ℤ) = toZ p), if_pos hne, hix, Res.bind_ok, hlk]
    rw [← firsts_succ]
    rcases Nat.lt_or_ge i n with hin | hin
    · have hfd : comb n ⟨i, by omega⟩ = ((i + 1 : ℕ) : ℤ) := by
        unfold comb; rw [if_pos hin]; push_cast; rfl
      rw [hfd]
      obtain ⟨t, w, e, e1, e2⟩ := ih (i + 1) (by omega) (by omega) f (by omega)
      rw [e]
      refine ⟨t + 1, w + i, rfl, by omega, ?_⟩
      rw [below_succ] at e2
      omega
    · have hni : i = n := by omega
      subst hni
      have hfd : comb i ⟨i, by omega⟩ = (i : ℤ) := by
        unfold comb; simp
      rw [hfd]
      obtain ⟨f, rfl⟩ : ∃ g, f = g + 1 := ⟨f - 1, by omega⟩
      have hm : (i : ℤ) ∈ firsts (i + 1) := by rw [mem_firsts]; omega
      simp only [nextPourT, if_pos hm]
      rw [firsts_succ, looks_last _ hnm, hl]
      refine ⟨2, i + 1 + i, rfl, by omega, ?_⟩
      rw [below_succ, below_succ]
      omega

/-- The time of the search is cubic: `n + 1` pour points above a row of `n + 1` cells cost `n + 3` iterations each
and `(n + 1) (n + 2) / 2` comparisons each, `(n + 1)² (n + 2) / 2` comparisons in all on `2 (n + 1)` cells. -/
theorem C220_cubic (n : ℕ) {fuel : ℕ} (hf : n + 3 < fuel) :
    ∃ g t w, pourGraphT fuel (comb n) ((combPours n).map toZ) = .ok (g, t, w) ∧
      t = (n + 1) * (n + 3) ∧ 2 * w = (n + 1) ^ 2 * (n + 2) := by
  have one : ∀ p ∈ combPours n, nextPourT (comb n) ((combPours n).map toZ) (toZ p) fuel (toZ p) [] =
      .ok (-1, n + 3, below (n + 2)) := by
    intro p hp
    have hge := combPours_ge hp
    obtain ⟨f, rfl⟩ : ∃ g, fuel = g + 1 := ⟨fuel - 1, by omega⟩
    have hfd : comb n p = ((0 : ℕ) : ℤ) := by
      unfold comb; rw [if_neg (by omega), if_neg (by omega)]; rfl
    simp only [nextPourT, List.not_mem_nil, if_false, or_true, if_true, ne_eq, not_true_eq_false,
      pyIndex_toZ, Res.bind_ok, looks, hfd]
    rw [if_neg (by unfold toZ; omega)]
    obtain ⟨t, w, e, e1, e2⟩ := comb_row hge (n + 1) 0 (by omega) (by omega) f (by omega)
    have hz : firsts 0 = [] := rfl
    rw [hz] at e
    rw [e]
    have hb : below 0 = 0 := rfl
    simp only [Res.map_ok, tick]
    congr 3
    · omega
  have key : ∀ (l : List (Fin (2 * (n + 1)))) (g0 : Dict ℤ ℤ) (t0 w0 : ℕ), (∀ c ∈ l, c ∈ combPours n) →
      ∃ g, (l.map toZ).foldl (graphStepT fuel (comb n) ((combPours n).map toZ)) (.ok (g0, t0, w0)) =
        .ok (g, t0 + l.length * (n + 3), w0 + l.length * below (n + 2)) := by
    intro l
    induction l with
    | nil => intro g0 t0 w0 _; exact ⟨g0, by simp⟩
    | cons c l ih =>
      intro g0 t0 w0 hl
      rw [List.map_cons, List.foldl_cons]
      simp only [graphStepT, Res.bind_ok, one c (hl c (by simp))]
      obtain ⟨g, e⟩ := ih (g0.set (toZ c) (-1)) (t0 + (n + 3)) (w0 + below (n + 2))
        (fun c' hc' => hl c' (by simp [hc']))
      refine ⟨g, e.trans ?_⟩
      rw [List.length_cons, Nat.add_mul l.length 1 (n + 3), Nat.add_mul l.length 1 (below (n + 2)), one_mul, one_mul]
      congr 3 <;> omega
  obtain ⟨g, e⟩ := key (combPours n) [] 0 0 (fun _ h => h)
  have hlen : (combPours n).length = n + 1 := by simp [combPours]
  refine ⟨g, _, _, e, by rw [hlen]; ring, ?_⟩
  rw [hlen, zero_add]
  have := below_two (n + 2)
  calc 2 * ((n + 1) * below (n + 2)) = (n + 1) * (2 * below (n + 2)) := by ring
    _ = (n + 1) * ((n + 2) * (n + 1)) := by rw [this]; rfl
    _ = (n + 1) ^ 2 * (n + 2) := by ring

/-- non-vacuity: three pour points above a row of three cells: five iterations and six comparisons each -/
example : (pourGraphT 8 (comb 2) [3, 4, 5]).map Prod.snd = .ok (15, 18) := by decide +kernel

/-- two pour points one above the other, the lower one above a row of two cells -/
example : (pourGraphT 8 (![1, 1, 0, 2] : Fin 4 → ℤ) [3, 2]) = .ok ([(3, 2), (2, -1)], 6, 3) := by decide +kernel

end Dany.Basin
