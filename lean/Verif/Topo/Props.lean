import Verif.Topo.Lemmas
import Mathlib.Tactic.Ring

/-!
# C46 – C48: topological sorting
-/

namespace Dany.Topo

open Relation

variable {topo : Dict ℤ ℤ}

/-- **C46.** If every outlet reference exists, `Topology.sort` returns each nonzero segment exactly
once, cyclic network or not, unless it runs into the interpreter's recursion limit. -/
theorem C46_permutation (href : RefsExist topo) (hnd : topo.keys.Nodup) (limit : ℕ) :
    sort limit topo = .err .recursionError ∨
    ∃ l, sort limit topo = .ok l ∧ l.Perm (topo.keys.filter (fun x => x ≠ 0)) := by
  rcases sort_cases href limit with h | ⟨S, e, h1, h2, _⟩
  · exact .inl h
  refine .inr ⟨S, e, (List.perm_ext_iff_of_nodup h1 (hnd.filter _)).2 ?_⟩
  intro x
  rw [h2 x, List.mem_filter]
  simp [and_comm]

/-- **C46**, success: the limit is not reached if no flow path is longer than it. -/
theorem C46_succeeds (href : RefsExist topo) (hnd : topo.keys.Nodup) {limit : ℕ}
    (hl : ShortPaths topo limit) :
    ∃ l, sort limit topo = .ok l ∧ l.Perm (topo.keys.filter (fun x => x ≠ 0)) := by
  rcases C46_permutation href hnd limit with h | h
  · obtain ⟨S, e, _⟩ := sort_ok href hl
    rw [e] at h; cases h
  · exact h

/-- **C46**, the limit is harmless: a list returned under one recursion limit is returned under every
larger one. -/
theorem C46_limit {a b : ℕ} (h : a ≤ b) {l : List ℤ} (hs : sort a topo = .ok l) : sort b topo = .ok l :=
  (sort_leRec h).ok hs

/-- **C47.** On a network without directed cycles through two or more segments, every segment stands
before the segment it flows into. -/
theorem C47_upstream_first (href : RefsExist topo) (hac : Acyclic topo) {limit : ℕ} {l : List ℤ}
    (hs : sort limit topo = .ok l) :
      ∀ x y, FlowsTo topo x y → y ≠ 0 → y ≠ x → Before l x y := by
  rcases sort_cases href limit with h | ⟨S, e, h1, h2, h3⟩
  · rw [hs] at h; cases h
  rw [hs] at e; cases e
  refine fun x y hxy hy hyx => h3 hac x ?_ y hxy hy hyx
  rw [h2 x]
  exact ⟨hxy.1, Dict.mem_keys_iff.2 ⟨y, hxy.2⟩⟩

/-- A missing outlet reference is a `KeyError` (the hypothesis of C46 is needed). -/
example : sort 100 [(1, 2)] = .err .keyError := by decide +kernel

/-- concrete network: 4 → 2 → 5 → 0, 1 → 2, 3 → 3 and the cycle 6 ⇄ 7 -/
def exNet : Dict ℤ ℤ := [(4, 2), (2, 5), (5, 0), (1, 2), (3, 3), (6, 7), (7, 6)]

example : sort 8 exNet = .ok [6, 7, 4, 3, 1, 2, 5] := by decide +kernel

example : RefsExist exNet := by
  rintro x y ⟨_, h⟩
  have h2 := Dict.mem_of_get? h
  revert h2
  simp only [exNet, List.mem_cons, Prod.mk.injEq, List.not_mem_nil, or_false]
  rintro (⟨-, rfl⟩ | ⟨-, rfl⟩ | ⟨-, rfl⟩ | ⟨-, rfl⟩ | ⟨-, rfl⟩ | ⟨-, rfl⟩ | ⟨-, rfl⟩) <;> decide +kernel

/-- A sufficient criterion for acyclicity: numbers increase downstream. -/
theorem acyclic_of_increasing (h : ∀ x y, FlowsTo topo x y → y = 0 ∨ x ≤ y) : Acyclic topo := by
  have key : ∀ x y, ReflTransGen (FlowsTo topo) x y → y = 0 ∨ x ≤ y := by
    intro x y hr
    induction hr with
    | refl => right; exact le_rfl
    | tail _ hbc ih =>
      rcases h _ _ hbc with h0 | h0
      · exact .inl h0
      · rcases ih with h1 | h1
        · exact absurd h1 hbc.1
        · exact .inr (h1.trans h0)
  have zero : ∀ y, ReflTransGen (FlowsTo topo) 0 y → y = 0 := by
    intro y hr
    induction hr with
    | refl => rfl
    | tail _ hbc ih => exact absurd ih hbc.1
  intro x y hxy hyx
  by_cases hx : x = 0
  · subst hx; exact (zero y hxy).symm
  · by_cases hy : y = 0
    · subst hy; exact zero x hyx
    · exact le_antisymm ((key x y hxy).resolve_left hy) ((key y x hyx).resolve_left hx)

example : Acyclic [(1, 3), (2, 3), (3, 4), (4, 0)] := by
  apply acyclic_of_increasing
  rintro x y ⟨_, h⟩
  have h2 := Dict.mem_of_get? h
  revert h2
  simp only [List.mem_cons, Prod.mk.injEq, List.not_mem_nil, or_false]
  rintro (⟨rfl, rfl⟩ | ⟨rfl, rfl⟩ | ⟨rfl, rfl⟩ | ⟨rfl, rfl⟩) <;> decide +kernel

/-- The network of a single river of `n` segments: 1 → 2 → … → n → 0. -/
def river (n : ℕ) : Dict ℤ ℤ :=
  (List.range n).map (fun i : ℕ => ((i : ℤ) + 1, if i + 1 = n then 0 else (i : ℤ) + 2))

theorem river_mem {n : ℕ} {x y : ℤ} :
    (x, y) ∈ river n ↔ ∃ i < n, x = (i : ℤ) + 1 ∧ y = if i + 1 = n then 0 else (i : ℤ) + 2 := by
  unfold river
  rw [List.mem_map]
  constructor
  · rintro ⟨i, hi, h⟩
    rw [Prod.mk.injEq] at h
    exact ⟨i, List.mem_range.1 hi, h.1.symm, h.2.symm⟩
  · rintro ⟨i, hi, rfl, rfl⟩
    exact ⟨i, List.mem_range.2 hi, rfl⟩

theorem river_keys (n : ℕ) : (river n).keys = (List.range n).map (fun i : ℕ => (i : ℤ) + 1) := by
  simp [river, Dict.keys]

theorem river_nodup (n : ℕ) : (river n).keys.Nodup := by
  rw [river_keys]
  exact List.nodup_range.map (fun a b h => by simpa using h)

theorem river_refs (n : ℕ) : RefsExist (river n) := by
  rintro x y ⟨_, h⟩
  obtain ⟨i, hi, rfl, rfl⟩ := river_mem.1 (Dict.mem_of_get? h)
  split
  · left; rfl
  · right
    rw [river_keys, List.mem_map]
    exact ⟨i + 1, by rw [List.mem_range]; omega, by push_cast; ring⟩

theorem river_acyclic (n : ℕ) : Acyclic (river n) := by
  apply acyclic_of_increasing
  rintro x y ⟨_, h⟩
  obtain ⟨i, hi, rfl, rfl⟩ := river_mem.1 (Dict.mem_of_get? h)
  split
  · left; rfl
  · right; omega

theorem sortUtil_deep : ∀ (limit : ℕ) (seg : ℤ) (v : Dict ℤ Bool) (S : List ℤ), 0 < seg →
    (∀ j : ℕ, j < limit → topo.get? (seg + j) = some (seg + j + 1) ∧
      v.get? (seg + j + 1) = some false) →
    sortUtil topo limit seg v S = .err .recursionError := by
  intro limit
  induction limit with
  | zero => intros; rfl
  | succ k ih =>
    intro seg v S hpos h
    have h0 := h 0 (by omega)
    simp only [Nat.cast_zero, add_zero] at h0
    simp only [sortUtil]
    rw [if_neg (by omega)]
    have e1 : topo.getE seg = .ok (seg + 1) := by simp [Dict.getE, h0.1]
    have e2 : (v.set seg true).getE (seg + 1) = .ok false := by
      simp [Dict.getE, Dict.get?_set, h0.2]
    rw [e1, Res.bind_ok, e2, Res.bind_ok]
    simp only [Bool.false_eq_true, if_false]
    rw [ih (seg + 1) (v.set seg true) S (by omega)]
    · rfl
    · intro j hj
      have := h (j + 1) (by omega)
      push_cast at this
      rw [Dict.get?_set, if_neg (by omega)]
      refine ⟨?_, ?_⟩
      · rw [show seg + 1 + (j : ℤ) = seg + (j + 1) by ring]; rw [this.1]
      · rw [show seg + 1 + (j : ℤ) + 1 = seg + (j + 1) + 1 by ring]; exact this.2

theorem sort_err_of_err {limit : ℕ} {e : PyErr} (l : List ℤ) :
    l.foldl (sortStep limit topo) (.err e) = .err e := by
  induction l with
  | nil => rfl
  | cons a l ih => exact ih

/-- **C48 as stated is false of the code**: whatever the interpreter's recursion limit, sorting a
single river with one segment more than the limit, an acyclic network, raises `RecursionError`. -/
theorem C48_refuted (limit : ℕ) :
    Acyclic (river (limit + 1)) ∧ RefsExist (river (limit + 1)) ∧
      sort limit (river (limit + 1)) = .err .recursionError := by
  refine ⟨river_acyclic _, river_refs _, ?_⟩
  have hsorted : (initVisited (river (limit + 1))).keys.insertionSort (· ≤ ·) =
      (List.range (limit + 2)).map (fun i : ℕ => (i : ℤ)) := by
    apply List.Perm.eq_of_pairwise (le := (· ≤ ·))
    · intro a b _ _ h1 h2; exact le_antisymm h1 h2
    · exact List.pairwise_insertionSort _ _
    · rw [List.pairwise_map]
      exact List.pairwise_lt_range.imp (fun h => by exact_mod_cast h.le)
    · refine (List.perm_insertionSort _ _).trans ?_
      rw [List.perm_ext_iff_of_nodup (initVisited_nodup _)
        (List.nodup_range.map (fun a b h => by simpa using h))]
      intro x
      rw [initVisited_mem, river_keys, List.mem_map, List.mem_map]
      constructor
      · rintro (rfl | ⟨i, hi, rfl⟩)
        · exact ⟨0, by simp, rfl⟩
        · rw [List.mem_range] at hi
          exact ⟨i + 1, by rw [List.mem_range]; omega, by push_cast; ring⟩
      · rintro ⟨i, hi, rfl⟩
        rw [List.mem_range] at hi
        cases i with
        | zero => left; rfl
        | succ i => right; exact ⟨i, by rw [List.mem_range]; omega, by push_cast; ring⟩
  have hhead : (List.range (limit + 2)).map (fun i : ℕ => (i : ℤ)) =
      0 :: 1 :: (List.range limit).map (fun i : ℕ => (i : ℤ) + 2) := by
    rw [List.range_succ_eq_map, List.map_cons, List.range_succ_eq_map]
    simp [Function.comp_def, add_assoc]
  unfold sort
  rw [hsorted, hhead, List.foldl_cons, List.foldl_cons]
  have hget : ∀ j : ℕ, 1 ≤ j → j ≤ limit + 1 →
      (initVisited (river (limit + 1))).get? (j : ℤ) = some false := by
    intro j h1 h2
    rw [initVisited_get, if_pos]
    right
    rw [river_keys, List.mem_map]
    exact ⟨j - 1, by rw [List.mem_range]; omega, by omega⟩
  have s1 : sortStep limit (river (limit + 1)) (sortStep limit (river (limit + 1))
      (.ok (initVisited (river (limit + 1)), [])) 0) 1 = .err .recursionError := by
    simp only [sortStep, Res.bind_ok, if_true]
    rw [if_neg (by decide)]
    have e2 : (initVisited (river (limit + 1))).getE 1 = .ok false := by
      have := hget 1 le_rfl (by omega)
      simp only [Nat.cast_one] at this
      simp [Dict.getE, this]
    rw [e2, Res.bind_ok]
    simp only [Bool.false_eq_true, if_false]
    apply sortUtil_deep _ _ _ _ (by decide)
    intro j hj
    constructor
    · apply Dict.get?_of_mem (river_nodup _)
      refine river_mem.2 ⟨j, by omega, by ring, ?_⟩
      rw [if_neg (by omega)]; ring
    · have := hget (j + 2) (by omega) (by omega)
      push_cast at this
      rw [show (1 : ℤ) + j + 1 = j + 2 by ring]
      exact this
  rw [s1, sort_err_of_err]
  rfl

/-- **C48**, the part that holds (partial): the sort succeeds on every network, whatever its number of
segments, in which no flow path that repeats no segment is longer than the recursion limit. -/
theorem C48_short_partial (href : RefsExist topo) {limit : ℕ} (hl : ShortPaths topo limit) :
    ∃ l, sort limit topo = .ok l := by
  obtain ⟨S, e, _⟩ := sort_ok href hl
  exact ⟨S, e⟩

/-- In particular it succeeds if the network has fewer segments than the limit. -/
theorem C48_few_partial (href : RefsExist topo) {limit : ℕ} (hl : topo.length + 1 ≤ limit) :
    ∃ l, sort limit topo = .ok l := C48_short_partial href (shortPaths_of_length hl)

/-- Next to `C48_refuted`: a river one segment shorter than the limit is sorted. -/
theorem C48_river_partial (limit : ℕ) : ∃ l, sort (limit + 1) (river limit) = .ok l :=
  C48_few_partial (river_refs _) (by simp [river])

/-- a comb: `n` segments that all flow into segment 1 -/
def comb (n : ℕ) : Dict ℤ ℤ := (1, 0) :: (List.range n).map (fun i : ℕ => ((i : ℤ) + 2, 1))

theorem comb_flows {n : ℕ} {x y : ℤ} (h : FlowsTo (comb n) x y) : (x = 1 ∧ y = 0) ∨ (1 < x ∧ y = 1) := by
  have h2 := Dict.mem_of_get? h.2
  rcases List.mem_cons.1 h2 with h3 | h3
  · left; simpa using h3
  · obtain ⟨i, _, h4⟩ := List.mem_map.1 h3
    rw [Prod.mk.injEq] at h4
    right; omega

/-- However many segments a comb has, three nested calls suffice (non-vacuity of the hypothesis
beyond the count of segments). -/
theorem comb_short (n : ℕ) : ShortPaths (comb n) 3 := by
  intro p hc _
  match p with
  | [] => simp
  | [_] => simp
  | [_, _] => simp
  | [_, _, _] => simp
  | a :: b :: c :: e :: p =>
    rw [List.isChain_cons_cons, List.isChain_cons_cons, List.isChain_cons_cons] at hc
    have h1 := comb_flows hc.1
    have h2 := comb_flows hc.2.1
    have h3 := comb_flows hc.2.2.1
    omega

theorem comb_refs (n : ℕ) : RefsExist (comb n) := by
  intro x y h
  rcases comb_flows h with h | h
  · exact .inl h.2
  · right; simp [comb, Dict.keys, h.2]

/-- 10000 segments, recursion limit 3 -/
example : ∃ l, sort 3 (comb 9999) = .ok l := C48_short_partial (comb_refs _) (comb_short _)

end Dany.Topo
