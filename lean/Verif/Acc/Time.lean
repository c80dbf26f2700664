import Verif.Acc.Props

/-!
# C128: the number of steps of `flow_accumulation`

The loops of `Acc/Model` with a counter of the iterations of the inner loop.
-/

namespace Dany.Acc

open Function Flow

variable {N : ℕ} {K : Type*} [Add K] [Zero K] [One K]

/-- `walk` (flow_directions.py:459-467) that also returns how many times its body has run -/
def walkT (fdir : Fin N → ℤ) : ℕ → Fin N → K → K → State N K → Res (State N K × ℕ)
  | 0, _, _, _, _ => .hang
  | k + 1, n, naccu, area, s =>
    let s1 : State N K := { s with acc := update s.acc n (s.acc n + naccu)
                                   area := update s.area n (s.area n + area) }
    if s1.nidp n ≥ 2 then .ok ({ s1 with nidp := update s1.nidp n (s1.nidp n - 1) }, 1)
    else (pyIndex N (fdir n)).bind fun m =>
      (walkT fdir k m (s1.acc n) (s1.area n) s1).map fun r => (r.1, r.2 + 1)

/-- `accStep` (flow_directions.py:452-467) that adds up the iterations of the inner loop -/
def accStepT (fuel : ℕ) (fdir : Fin N → ℤ) (r : Res (State N K × ℕ)) (ix : Fin N) : Res (State N K × ℕ) :=
  r.bind fun s => if s.1.nidp ix ≠ 0 then .ok s else
    (walkT fdir fuel ix 0 0 s.1).map fun r => (r.1, s.2 + r.2)

/-- `flow_accumulation` (flow_directions.py:430-475) with the number of iterations of the inner loop -/
def flowAccumulationT (fuel : ℕ) (fdir : Fin N → ℤ) (area : Fin N → K) (asCells : Bool) :
    Res ((Fin N → K) × ℕ) :=
  (getNidp fdir).bind fun nidp =>
    ((List.finRange N).foldl (accStepT fuel fdir)
      (.ok ({ nidp := nidp, acc := fun _ => 1, area := area }, 0))).map fun s =>
        (if asCells then s.1.acc else s.1.area, s.2)

theorem walkT_fst (fdir : Fin N → ℤ) : ∀ (k : ℕ) (n : Fin N) (va vb : K) (s : State N K),
    (walkT fdir k n va vb s).map Prod.fst = walk fdir k n va vb s := by
  intro k
  induction k with
  | zero => intros; rfl
  | succ k ih =>
    intro n va vb s
    simp only [walkT, walk]
    split
    · rfl
    · cases pyIndex N (fdir n) with
      | ok m =>
        simp only [Res.bind_ok]
        rw [← ih]
        generalize walkT (K := K) fdir k m _ _ _ = r
        cases r <;> rfl
      | err e => rfl
      | hang => rfl

theorem accStepT_fst (fuel : ℕ) (fdir : Fin N → ℤ) (r : Res (State N K × ℕ)) (ix : Fin N) :
    (accStepT fuel fdir r ix).map Prod.fst = accStep fuel fdir (r.map Prod.fst) ix := by
  cases r with
  | err e => rfl
  | hang => rfl
  | ok s =>
    simp only [accStepT, accStep, Res.bind_ok, Res.map_ok]
    split
    · rfl
    · rw [← walkT_fst]
      cases walkT fdir fuel ix 0 0 s.1 <;> rfl

/-- The counter changes nothing: without it, the function is the modelled one. -/
theorem flowAccumulationT_fst (fuel : ℕ) (fdir : Fin N → ℤ) (area : Fin N → K) (asCells : Bool) :
    (flowAccumulationT fuel fdir area asCells).map Prod.fst = flowAccumulation fuel fdir area asCells := by
  have key : ∀ (l : List (Fin N)) (r : Res (State N K × ℕ)),
      (l.foldl (accStepT fuel fdir) r).map Prod.fst = l.foldl (accStep fuel fdir) (r.map Prod.fst) := by
    intro l
    induction l with
    | nil => intro r; rfl
    | cons x l ih => intro r; rw [List.foldl_cons, List.foldl_cons, ih, accStepT_fst]
  unfold flowAccumulationT flowAccumulation
  cases getNidp fdir with
  | err e => rfl
  | hang => rfl
  | ok nidp =>
    simp only [Res.bind_ok]
    have := key (List.finRange N) (.ok ({ nidp := nidp, acc := fun _ => 1, area := area }, 0))
    rw [Res.map_ok] at this
    rw [← this]
    generalize (List.finRange N).foldl (accStepT (K := K) fuel fdir) _ = r
    cases r <;> rfl

/-- The counter is exact: the loop needs as much fuel as it counts iterations. -/
theorem walkT_count (fdir : Fin N → ℤ) : ∀ (k : ℕ) (n : Fin N) (va vb : K) (s s' : State N K) (t : ℕ),
    walkT fdir k n va vb s = .ok (s', t) →
      walk fdir t n va vb s = .ok s' ∧ ∀ j < t, walk fdir j n va vb s = .hang := by
  intro k
  induction k with
  | zero => intro n va vb s s' t h; cases h
  | succ k ih =>
    intro n va vb s s' t h
    simp only [walkT] at h
    split at h
    · rename_i h2
      cases h
      refine ⟨by simp only [walk]; rw [if_pos h2], fun j hj => ?_⟩
      rw [Nat.lt_one_iff.1 hj]; rfl
    · rename_i h2
      obtain ⟨m, hm, h⟩ := Res.bind_eq_ok.1 h
      obtain ⟨⟨s1, t1⟩, h1, he⟩ := Res.map_eq_ok.1 h
      obtain ⟨i1, i2⟩ := ih _ _ _ _ _ _ h1
      cases he
      refine ⟨by simp only [walk]; rw [if_neg h2, hm, Res.bind_ok]; exact i1, fun j hj => ?_⟩
      cases j with
      | zero => rfl
      | succ j => simp only [walk]; rw [if_neg h2, hm, Res.bind_ok]; exact i2 j (by omega)

variable {fdir : Fin N → ℤ} {d : Fin N → Fin N}

theorem accStepT_ok (hz : ∀ x : K, x + 0 = x) (h : Resolves fdir d) {w w' : Fin N → K} {fuel : ℕ}
    {R : Finset (Fin N)} {ls : Fin N → List (Fin N)} {s : State N K} (hi : Inv d w w' R ls s) (hf : N < fuel)
    (ix : Fin N) (hR : pre d ix = ∅ → ix ∉ R) (t : ℕ) :
    ∃ s' R' ls' t', accStepT fuel fdir (.ok (s, t)) ix = .ok (s', t') ∧ Inv d w w' R' ls' s' ∧ R ⊆ R' ∧
      (pre d ix = ∅ → ix ∈ R') ∧ (∀ u ∈ R', pre d u = ∅ → u ∈ R ∨ u = ix) ∧
      t' + R.card = t + R'.card + if pre d ix = ∅ then 1 else 0 := by
  obtain ⟨s', R', ls', e, h1, h2, h3, h4, h5, h6⟩ := accStep_ok hz h hi hf ix hR
  have hm := accStepT_fst fuel fdir (.ok (s, t)) ix
  rw [Res.map_ok, e] at hm
  obtain ⟨⟨s'', t'⟩, hT, hs⟩ := Res.map_eq_ok.1 hm
  dsimp only at hs; subst hs
  refine ⟨s'', R', ls', t', hT, h1, h2, h3, h4, ?_⟩
  have hzero := hi.zero ix
  simp only [accStepT, Res.bind_ok] at hT
  split at hT
  · rename_i h0
    cases hT
    rw [if_neg (fun hp => h0 (hzero.2 hp)), h5 h0]; omega
  · rename_i h0
    have h0 : s.nidp ix = 0 := by simpa using h0
    rw [if_pos (hzero.1 h0)]
    obtain ⟨⟨s3, t3⟩, hw, he⟩ := Res.map_eq_ok.1 hT
    obtain ⟨c1, c2⟩ := walkT_count fdir _ _ _ _ _ _ _ hw
    obtain ⟨e1, e2⟩ := h6 h0
    have hle : t3 ≤ R'.card - R.card + 1 := by
      by_contra hlt
      rw [c2 _ (by omega)] at e1; cases e1
    have hge : R'.card - R.card < t3 := by
      by_contra hlt
      rw [e2 t3 (by omega)] at c1; cases c1
    have := Finset.card_le_card h2
    cases he
    omega

theorem accFoldT_ok (hz : ∀ x : K, x + 0 = x) (h : Resolves fdir d) {w w' : Fin N → K} {fuel : ℕ}
    (hf : N < fuel) : ∀ (l done : List (Fin N)) (R : Finset (Fin N)) (ls : Fin N → List (Fin N)) (s : State N K)
      (t : ℕ), Inv d w w' R ls s → (done ++ l).Nodup → (∀ u ∈ R, pre d u = ∅ → u ∈ done) →
      (∀ u ∈ done, pre d u = ∅ → u ∈ R) →
      ∃ s' R' ls' t', l.foldl (accStepT fuel fdir) (.ok (s, t)) = .ok (s', t') ∧ Inv d w w' R' ls' s' ∧
        (∀ u ∈ done ++ l, pre d u = ∅ → u ∈ R') ∧
        t' + R.card = t + R'.card + (l.filter (fun u => decide (pre d u = ∅))).length := by
  intro l
  induction l with
  | nil =>
    intro done R ls s t hi _ _ h2
    exact ⟨s, R, ls, t, rfl, hi, by simpa using h2, by simp⟩
  | cons x l ih =>
    intro done R ls s t hi hnd h1 h2
    obtain ⟨s1, R1, ls1, t1, e1, hi1, hsub, hx, hback, ht⟩ := accStepT_ok hz h hi hf x (fun hp hxR => by
      have hm := h1 x hxR hp
      rw [List.nodup_append] at hnd
      exact hnd.2.2 x hm x (by simp) rfl) t
    rw [List.foldl_cons, e1]
    obtain ⟨s', R', ls', t', e2, hi2, hall, h3⟩ := ih (done ++ [x]) R1 ls1 s1 t1 hi1 (by simpa using hnd)
      (fun u hu hp => by
        rcases hback u hu hp with h' | rfl
        · simp [h1 u h' hp]
        · simp)
      (fun u hu hp => by
        rcases List.mem_append.1 hu with h' | h'
        · exact hsub (h2 u h' hp)
        · rw [List.mem_singleton] at h'
          subst h'
          exact hx hp)
    refine ⟨s', R', ls', t', e2, hi2, by simpa using hall, ?_⟩
    by_cases hp : pre d x = ∅
    · rw [if_pos hp] at ht
      rw [List.filter_cons_of_pos (by simpa using hp), List.length_cons]; omega
    · rw [if_neg hp] at ht
      rw [List.filter_cons_of_neg (by simpa using hp)]; omega

/-- **C128**, exactly: the inner loop runs once for every cell nothing flows into and once for every cell that
passes its flow on to another one and is not on a flow cycle. -/
theorem C128_exact (hz : ∀ x : K, x + 0 = x) (h : Resolves fdir d) (area : Fin N → K) (asCells : Bool) {fuel : ℕ}
    (hf : N < fuel) :
    ∃ out t, flowAccumulationT fuel fdir area asCells = .ok (out, t) ∧
      flowAccumulation fuel fdir area asCells = .ok out ∧
      open Classical in
      t = (Finset.univ.filter fun n => ∀ u, d u ≠ n).card +
        (Finset.univ.filter fun n => ¬ OnCycle d n ∧ d n ≠ n).card := by
  classical
  obtain ⟨s, R, ls, t, e, hi, hall, ht⟩ := accFoldT_ok hz h hf (List.finRange N) [] ∅ _ _ 0 (init_inv d area)
    (by simpa using List.nodup_finRange N) (by simp) (by simp)
  have hT : flowAccumulationT fuel fdir area asCells =
      .ok (if asCells then s.acc else s.area, t) := by
    unfold flowAccumulationT
    rw [getNidp_ok h, Res.bind_ok, e, Res.map_ok]
  refine ⟨_, t, hT, ?_, ?_⟩
  · rw [← flowAccumulationT_fst, hT, Res.map_ok]
  · have hR : R = Finset.univ.filter fun n => ¬ OnCycle d n ∧ d n ≠ n := by
      ext u
      rw [Finset.mem_filter]
      exact ⟨fun hu => ⟨Finset.mem_univ _, hi.nocyc u hu⟩, fun hu =>
        all_released hi.compl (fun u hu => hall u (by simp) hu) u hu.2.1 hu.2.2⟩
    have hS : ((List.finRange N).filter (fun u => decide (pre d u = ∅))).length =
        (Finset.univ.filter fun n => ∀ u, d u ≠ n).card := by
      have e1 : (Finset.univ.filter fun n => ∀ u, d u ≠ n) =
          ((List.finRange N).filter (fun u => decide (pre d u = ∅))).toFinset := by
        ext n
        simp only [Finset.mem_filter, Finset.mem_univ, true_and, List.mem_toFinset, List.mem_filter,
          List.mem_finRange, decide_eq_true_eq]
        rw [Finset.eq_empty_iff_forall_notMem]
        exact forall_congr' fun u => by rw [mem_pre]
      rw [e1, List.toFinset_card_of_nodup ((List.nodup_finRange N).filter _)]
    rw [← hR, ← hS]
    simp at ht
    omega

/-- **C128.**  `flow_accumulation` runs its inner loop at most `2 N` times in all, on every array of valid
indices (cycles included) and in any arithmetic. -/
theorem C128_linear (hz : ∀ x : K, x + 0 = x) (hr : ∀ u, -(N : ℤ) ≤ fdir u ∧ fdir u < N) (area : Fin N → K)
    (asCells : Bool) {fuel : ℕ} (hf : N < fuel) :
    ∃ out t, flowAccumulationT fuel fdir area asCells = .ok (out, t) ∧
      flowAccumulation fuel fdir area asCells = .ok out ∧ t ≤ 2 * N := by
  classical
  obtain ⟨d, h⟩ := Resolves.exists hr
  obtain ⟨out, t, h1, h2, h3⟩ := C128_exact hz h area asCells hf
  refine ⟨out, t, h1, h2, ?_⟩
  have a := Finset.card_le_univ (Finset.univ.filter fun n : Fin N => ∀ u, d u ≠ n)
  have b := Finset.card_le_univ (Finset.univ.filter fun n : Fin N => ¬ OnCycle d n ∧ d n ≠ n)
  rw [Fintype.card_fin] at a b
  have h3' : t = (Finset.univ.filter fun n : Fin N => ∀ u, d u ≠ n).card +
      (Finset.univ.filter fun n : Fin N => ¬ OnCycle d n ∧ d n ≠ n).card := by
    rw [h3]
  omega

-- 0 → 1 → 2 → 2, 3 → 1, cycle 4 ⇄ 5, 6 → 4: cells 0, 1; 3, 1, 2; 6, 4
example : (flowAccumulationT 8 ex7 ![(1 : ℚ), 2, 3, 4, 5, 6, 7] true).map Prod.snd = .ok 7 := by decide +kernel

end Dany.Acc
