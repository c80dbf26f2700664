import Verif.Reach.Conn
import Mathlib.Data.Fin.VecNotation
import Mathlib.Tactic.FieldSimp

/-!
# C49 – C55, C74: the MODFLOW 6 stream network
-/

namespace Dany.Reach

open Function Flow Topo

variable {N : ℕ} {d : Fin N → Fin N} {fdir sa : Fin N → ℤ}

/-- number of stream cells -/
def nStream (sa : Fin N → ℤ) : ℕ := (Finset.univ.filter (fun n => sa n ≠ 0)).card

theorem pos_inj {order : List ℤ} {x y : ℤ} (hx : x ∈ order) (hx0 : x ≠ 0) (h : pos order x = pos order y) :
    x = y := by
  unfold pos at h
  rw [if_neg hx0] at h
  split at h
  · omega
  · exact (List.idxOf_inj hx).1 (by omega)

theorem idxOf_lt_of_before {l : List ℤ} (hnd : l.Nodup) {x y : ℤ} (h : Before l x y) :
    l.idxOf x < l.idxOf y := by
  obtain ⟨a, b, rfl, hy⟩ := h
  rw [List.nodup_append] at hnd
  have hxa : x ∉ a := fun hm => hnd.2.2 x hm x (by simp) rfl
  have hya : y ∉ a := fun hm => hnd.2.2 y hm y (by simp [hy]) rfl
  have hne : x ≠ y := by rintro rfl; exact (List.nodup_cons.1 hnd.2.1).1 hy
  rw [List.idxOf_append_of_notMem hxa, List.idxOf_append_of_notMem hya, List.idxOf_cons_self,
    List.idxOf_cons_ne _ hne]
  omega

theorem fits_of_count {limit : ℕ} (h : nStream sa + 1 ≤ limit) : Fits d sa limit :=
  fits_of_length (by rw [strmNodes_card]; exact h)

/-- **C49.** If no flow path in the stream is as long as the recursion limit, `get_stream_connectivity` succeeds and numbers the `k` stream cells by `1 … k`, each
number used once, all other cells 0; the graph has exactly the keys `1 … k` (in this order), and maps
the reach of a cell to the reach of the cell it flows to, 0 if that is not a stream cell. -/
theorem C49_reach_numbers (hd : Resolves fdir d) {limit : ℕ} (hl : Fits d sa limit) :
    ∃ sa' g, mf6 limit fdir sa = .ok (sa', g) ∧
      (∀ n, sa n = 0 → sa' n = 0) ∧
      (∀ n, sa n ≠ 0 → 1 ≤ sa' n ∧ sa' n ≤ nStream sa) ∧
      (∀ m n, sa m ≠ 0 → sa n ≠ 0 → sa' m = sa' n → m = n) ∧
      (∀ i : ℕ, 1 ≤ i → i ≤ nStream sa → ∃ n, sa n ≠ 0 ∧ sa' n = i) ∧
      g.keys = (List.range (nStream sa)).map (fun i : ℕ => (i : ℤ) + 1) ∧
      (∀ n, sa n ≠ 0 → g.get? (sa' n) = some (sa' (d n))) := by
  unfold nStream
  rw [← strmNodes_card]
  obtain ⟨order, h1, h2, h3, _, e⟩ := mf6_ok (sa := sa) hd hl
  have hmem : ∀ n, sa n ≠ 0 → numberReaches sa n ∈ order := fun n hn => (h2 _).2 ⟨n, hn, rfl⟩
  have hn0 : ∀ n, sa n ≠ 0 → numberReaches sa n ≠ 0 := fun n hn => by rwa [Ne, num_zero]
  have hkeys : Dict.keys (order.zipIdx.map (fun p : ℤ × ℕ => ((p.2 : ℤ) + 1, pos order
          (((topo0 d sa).get? p.1).getD 0)))) =
        (List.range (strmNodes sa).length).map (fun i : ℕ => (i : ℤ) + 1) := by
    rw [keys_map_pair, ← h3, List.zipIdx_eq_zip_range', ← List.range_eq_range',
      show (fun p : ℤ × ℕ => (p.2 : ℤ) + 1) = (fun i : ℕ => (i : ℤ) + 1) ∘ Prod.snd from rfl,
      ← List.map_map, List.map_snd_zip (by simp)]
  refine ⟨_, _, e, ?_, ?_, ?_, ?_, hkeys, ?_⟩
  · intro n hn
    simp [pos, num_zero.2 hn]
  · intro n hn
    simp only [pos, if_neg (hn0 n hn)]
    have := List.idxOf_lt_length_iff.2 (hmem n hn)
    omega
  · intro m n hm _ h
    exact num_inj hm (pos_inj (hmem m hm) (hn0 m hm) h)
  · intro i hi1 hi2
    obtain ⟨n, hn, he⟩ := (h2 (order[i - 1]'(by omega))).1 (List.getElem_mem _)
    refine ⟨n, hn, ?_⟩
    have hn0' := hn0 n hn
    simp only [pos]
    rw [if_neg hn0', ← he, h1.idxOf_getElem]
    omega
  · intro n hn
    apply Dict.get?_of_mem
    · rw [hkeys]
      exact List.nodup_range.map (fun a b h => by simpa using h)
    · refine List.mem_map.2 ⟨(numberReaches sa n, order.idxOf (numberReaches sa n)), ?_, ?_⟩
      · rw [List.mem_zipIdx_iff_getElem?]
        simpa using List.getElem?_idxOf (hmem n hn)
      · simp only [topo0_get hn, Option.getD_some, pos, if_neg (hn0 n hn)]

/-- **C49**, without looking at the limit: a call either raises `RecursionError` or numbers as above. -/
theorem C49_numbering (hd : Resolves fdir d) (limit : ℕ) :
    mf6 limit fdir sa = .err .recursionError ∨
    ∃ sa' g, mf6 limit fdir sa = .ok (sa', g) ∧
      (∀ n, sa n = 0 → sa' n = 0) ∧
      (∀ n, sa n ≠ 0 → 1 ≤ sa' n ∧ sa' n ≤ nStream sa) ∧
      (∀ m n, sa m ≠ 0 → sa n ≠ 0 → sa' m = sa' n → m = n) ∧
      (∀ i : ℕ, 1 ≤ i → i ≤ nStream sa → ∃ n, sa n ≠ 0 ∧ sa' n = i) ∧
      g.keys = (List.range (nStream sa)).map (fun i : ℕ => (i : ℤ) + 1) ∧
      (∀ n, sa n ≠ 0 → g.get? (sa' n) = some (sa' (d n))) := by
  have hL : Fits d sa (max limit (nStream sa + 1)) := fits_of_count (le_max_right _ _)
  obtain ⟨sa', g, e, h⟩ := C49_reach_numbers hd hL
  rcases mf6_leRec (fdir := fdir) (sa := sa) (le_max_left limit (nStream sa + 1)) with h1 | h1
  · exact .inl h1
  · exact .inr ⟨sa', g, h1.trans e, h⟩

/-- **C50.** If no flow cycle of two or more cells lies entirely in the stream, a reach's downstream
reach in the returned graph is 0, the reach itself, or a larger number. -/
theorem C50_downstream (hd : Resolves fdir d) (hc : NoStreamCycle d sa) {limit : ℕ}
    {sa' : Fin N → ℤ} {g : Dict ℤ ℤ}
    (h : mf6 limit fdir sa = .ok (sa', g)) :
    ∀ r t, g.get? r = some t → t = 0 ∨ t = r ∨ r < t := by
  obtain ⟨L, hl, h⟩ := mf6_lift h d
  obtain ⟨sa1, g1, e1, k0, k1, k2, k3, k4, k5⟩ := C49_reach_numbers (sa := sa) hd hl
  rw [h] at e1
  cases e1
  obtain ⟨order, h1, h2, h3, h4, e⟩ := mf6_ok (sa := sa) hd hl
  intro r t hrt
  have hr : r ∈ g.keys := Dict.mem_keys_iff.2 ⟨t, hrt⟩
  rw [k4, List.mem_map] at hr
  obtain ⟨i, hi, rfl⟩ := hr
  rw [List.mem_range] at hi
  obtain ⟨n, hn, hni⟩ := k3 (i + 1) (by omega) (by omega)
  have hni' : sa' n = (i : ℤ) + 1 := by rw [hni]; push_cast; rfl
  rw [← hni', k5 n hn] at hrt
  cases hrt
  rw [← hni']
  by_cases h0 : sa (d n) = 0
  · left; exact k0 _ h0
  · by_cases hs : d n = n
    · right; left; rw [hs]
    · right; right
      have hb := idxOf_lt_of_before h1 (h4 (topo0_acyclic hc) n hn h0 hs)
      rw [h] at e
      cases e
      have hn0 : ∀ n, sa n ≠ 0 → numberReaches sa n ≠ 0 := fun n hn => by rwa [Ne, num_zero]
      simp only [pos, if_neg (hn0 n hn), if_neg (hn0 _ h0)]
      omega

theorem mf6_congr {sa' : Fin N → ℤ} (h : ∀ n, sa n = 0 ↔ sa' n = 0) (limit : ℕ) :
    mf6 limit fdir sa = mf6 limit fdir sa' := by
  have h1 : strmNodes sa = strmNodes sa' := by
    unfold strmNodes
    apply List.filter_congr
    intro n _
    simp [h n]
  have h2 : numberReaches sa = numberReaches sa' := by
    funext n
    rw [numberReaches_eq, numberReaches_eq, h1]
    by_cases hn : sa n = 0
    · rw [if_neg (by simpa using hn), if_neg (by simpa using (h n).1 hn)]
    · rw [if_pos hn, if_pos (fun h' => hn ((h n).2 h'))]
  unfold mf6
  rw [h1, h2]

/-- **C51.** Running the connectivity on the numbered array it produced gives the same array and
graph again. -/
theorem C51_repeatable (hd : Resolves fdir d) {limit : ℕ}
    {sa' : Fin N → ℤ} {g : Dict ℤ ℤ} (h : mf6 limit fdir sa = .ok (sa', g)) :
    mf6 limit fdir sa' = .ok (sa', g) := by
  obtain ⟨L, hl, h'⟩ := mf6_lift h d
  obtain ⟨sa1, g1, e1, k0, k1, _⟩ := C49_reach_numbers (sa := sa) hd hl
  rw [h'] at e1
  cases e1
  rw [← h]
  symm
  apply mf6_congr
  intro n
  constructor
  · exact k0 n
  · intro h0
    by_contra hn
    have := (k1 n hn).1
    omega

/-- The same for the object: a second `get_stream_connectivity()` changes nothing. -/
theorem C51_object {o o' : Obj N} (hd : Resolves o.fdir d) {limit : ℕ} {g : Dict ℤ ℤ}
    (h : o.connectivity limit none = .ok (o', g)) : o'.connectivity limit none = .ok (o', g) := by
  unfold Obj.connectivity at h
  obtain ⟨sa, hsa, h⟩ := Res.bind_eq_ok.1 h
  obtain ⟨⟨sa', g'⟩, hm, he⟩ := Res.map_eq_ok.1 h
  rw [Prod.mk.injEq] at he
  obtain ⟨rfl, rfl⟩ := he
  have hsa' : o.streamArray = some sa := by
    unfold Obj.source at hsa
    cases hs : o.streamArray with
    | none => rw [hs] at hsa; cases hsa
    | some x => rw [hs] at hsa; cases hsa; rfl
  have := C51_repeatable hd hm
  simp only [Obj.connectivity, Obj.source, Res.bind_ok, this, Res.map_ok]

/-- non-vacuity: 0 → 1 → 2 → 2, 3 → 1, 4 → 0, cell 4 no stream -/
def exD : Fin 5 → ℤ := ![1, 2, 2, 1, 0]
def exSa : Fin 5 → ℤ := ![7, 1, 1, -3, 0]
example : mf6 10 exD exSa = .ok (![2, 3, 4, 1, 0], [(1, 3), (2, 3), (3, 4), (4, 4)]) := by
  decide +kernel
example : Resolves exD (![1, 2, 2, 1, 0] : Fin 5 → Fin 5) := by intro n; revert n; decide +kernel
example (d : Fin 5 → Fin 5) : Fits d exSa 10 := fits_of_count (by decide +kernel)
/-- any number of stream cells that all flow into cell 0: recursion limit 3 suffices -/
example (sa : Fin (N + 1) → ℤ) : Fits (fun _ => 0) sa 3 := by
  intro p hc hp _
  match p with
  | [] => simp
  | [_] => simp
  | [_, _] => simp
  | a :: b :: c :: p =>
    rw [List.isChain_cons_cons, List.isChain_cons_cons] at hc
    obtain ⟨h1, h2, -⟩ := hc
    subst h1 h2
    simp at hp
example : NoStreamCycle (![1, 2, 2, 1, 0] : Fin 5 → Fin 5) exSa := by
  rintro n ⟨hne, k, hk⟩
  exfalso
  have h2 : ∀ k, 3 ≤ k → ∀ n : Fin 5, (![1, 2, 2, 1, 0] : Fin 5 → Fin 5)^[k] n = 2 := by
    intro k hk
    induction k, hk using Nat.le_induction with
    | base => decide +kernel
    | succ k _ ih =>
      intro n
      rw [iterate_succ_apply]
      exact ih _
  have h3 : ∀ k < 2, ∀ n : Fin 5, (![1, 2, 2, 1, 0] : Fin 5 → Fin 5)^[k + 1] n = n → n = 2 := by
    decide +kernel
  have hn : n = 2 := by
    rcases Nat.lt_or_ge k 2 with h | h
    · exact h3 k h n hk
    · exact hk.symm.trans (h2 _ (by omega) n)
  subst hn
  exact hne (by decide +kernel)

/-! ### `connectiondata` -/

/-- A reach graph as `connectiondata` expects it: positive reach numbers, each once, flowing to 0 or
to an existing reach. -/
structure ReachGraph (g : Dict ℤ ℤ) : Prop where
  nodup : g.keys.Nodup
  pos : ∀ r ∈ g.keys, 1 ≤ r
  refs : ∀ r t, g.get? r = some t → t = 0 ∨ t ∈ g.keys

/-- reach `r` flows into the different reach `t` -/
def Joins (g : Dict ℤ ℤ) (r t : ℤ) : Prop := g.get? r = some t ∧ t ≠ 0 ∧ t ≠ r

/-- **C52.** `connectiondata` has one row per reach, in increasing order; the row of reach `r` is
`r - 1` followed by its upstream reaches (each once, zero-based) and then its downstream reach
(zero-based, negated) if there is one: so `t` is the downstream entry of `r` exactly if `r` is an
upstream entry of `t`; and the entries number twice the connections between different reaches. -/
theorem C52_connectiondata {g : Dict ℤ ℤ} (hg : ReachGraph g) :
    ∃ rows, connectiondata (someVals g) = .ok rows ∧
      rows.map Prod.fst = (g.keys.insertionSort (· ≤ ·)).map (fun r => r - 1) ∧
      (∃ up dn : ℤ → List ℤ,
        (∀ row ∈ rows, row.2 = (up (row.1 + 1)).map (fun u => u - 1) ++
          (dn (row.1 + 1)).map (fun t => -(t - 1))) ∧
        (∀ r ∈ g.keys, (up r).Nodup ∧ (dn r).length ≤ 1 ∧ ∀ t ∈ g.keys,
          (t ∈ dn r ↔ Joins g r t) ∧ (t ∈ dn r ↔ r ∈ up t))) ∧
      (rows.map (fun row => row.2.length)).sum =
        2 * (g.filter (fun e => e.2 ≠ 0 ∧ e.2 ≠ e.1)).length := by
  refine ⟨_, connectiondata_eq hg.nodup hg.pos hg.refs, ?_, ?_, ?_⟩
  · rw [List.map_map]; rfl
  · refine ⟨fun r => (ups (sortItems g) r).reverse, fun r => downs (sortItems g) r, ?_, ?_⟩
    · intro row hrow
      obtain ⟨r, _, rfl⟩ := List.mem_map.1 hrow
      simp
    · intro r hr
      obtain ⟨t0, ht0⟩ := Dict.mem_keys_iff.1 hr
      refine ⟨List.nodup_reverse.2 (ups_nodup hg.nodup r), ?_, ?_⟩
      · dsimp only
        rw [downs_eq hg.nodup ht0]
        split <;> simp
      · intro t ht
        have h0 : t ≠ 0 := by have := hg.pos t ht; omega
        refine ⟨mem_downs hg.nodup, ?_⟩
        rw [mem_downs hg.nodup, List.mem_reverse, mem_ups hg.nodup h0]
        constructor
        · rintro ⟨h1, _, h3⟩; exact ⟨h1, fun h => h3 h.symm⟩
        · rintro ⟨h1, h2⟩; exact ⟨h1, h0, fun h => h2 h.symm⟩
  · rw [List.map_map]
    have hlen : ((fun row : ℤ × List ℤ => row.2.length) ∘ fun r =>
        (r - 1, (ups (sortItems g) r).reverse.map (fun u => u - 1) ++
          (downs (sortItems g) r).map (fun t => -(t - 1)))) = fun r =>
        ((sortItems g).filter (fun e => (e.2 ≠ 0 ∧ e.2 ≠ e.1) ∧ e.2 = r)).length +
        ((sortItems g).filter (fun e => (e.2 ≠ 0 ∧ e.2 ≠ e.1) ∧ e.1 = r)).length := by
      funext r
      simp [ups, downs, and_assoc]
    rw [hlen, List.sum_map_add]
    have hk := sortedKeys_nodup hg.nodup
    have hitem : ∀ e ∈ sortItems g, g.get? e.1 = some e.2 := by
      intro e he
      exact Dict.get?_of_mem hg.nodup ((sortItems_perm g).mem_iff.1 he)
    rw [sum_filter_length hk (fun e => e.2) (fun e => e.2 ≠ 0 ∧ e.2 ≠ e.1),
      sum_filter_length hk (fun e => e.1) (fun e => e.2 ≠ 0 ∧ e.2 ≠ e.1)]
    · have := ((sortItems_perm g).filter (fun e => decide (e.2 ≠ 0 ∧ e.2 ≠ e.1))).length_eq
      omega
    · intro e he _
      exact mem_sortedKeys.2 (Dict.mem_keys_iff.2 ⟨_, hitem e he⟩)
    · intro e he hP
      exact mem_sortedKeys.2 ((hg.refs _ _ (hitem e he)).resolve_left hP.1)

example : ReachGraph [(1, 3), (2, 3), (3, 4), (4, 4)] := by
  refine ⟨by decide +kernel, by decide +kernel, ?_⟩
  intro r t h
  have := Dict.mem_of_get? h
  simp at this
  rcases this with ⟨rfl, rfl⟩ | ⟨rfl, rfl⟩ | ⟨rfl, rfl⟩ | ⟨rfl, rfl⟩ <;> simp [Dict.keys]
example : connectiondata (someVals [(1, 3), (2, 3), (3, 4), (4, 4)]) =
    .ok [(0, [-2]), (1, [-2]), (2, [1, 0, -3]), (3, [2])] := by decide +kernel

/-- **C53.** If the graph is numbered downstream, signs decode the zero-based entries: an entry is
negative exactly if it is the (negated) downstream reach, and non-negative exactly if it is an
upstream reach. -/
theorem C53_signs {g : Dict ℤ ℤ} (hg : ReachGraph g)
    (hdn : ∀ r t, g.get? r = some t → t = 0 ∨ t = r ∨ r < t)
    {rows : List (ℤ × List ℤ)} (h : connectiondata (someVals g) = .ok rows) :
    ∀ row ∈ rows, ∀ x ∈ row.2,
      (x < 0 ↔ Joins g (row.1 + 1) (-x + 1)) ∧ (0 ≤ x ↔ Joins g (x + 1) (row.1 + 1)) := by
  rw [connectiondata_eq hg.nodup hg.pos hg.refs] at h
  cases h
  intro row hrow x hx
  obtain ⟨r, hr, rfl⟩ := List.mem_map.1 hrow
  have hr1 := hg.pos r (mem_sortedKeys.1 hr)
  dsimp only at hx ⊢
  rw [sub_add_cancel]
  rw [List.mem_append, List.mem_map, List.mem_map] at hx
  rcases hx with ⟨u, hu, rfl⟩ | ⟨t, ht, rfl⟩
  · rw [List.mem_reverse, mem_ups hg.nodup (by omega)] at hu
    have hu1 := hg.pos u (Dict.mem_keys_iff.2 ⟨r, hu.1⟩)
    refine ⟨⟨fun h => by omega, ?_⟩, ⟨fun _ => ?_, fun _ => by omega⟩⟩
    · rintro ⟨h1, h2, h3⟩
      rcases hdn _ _ h1 with h4 | h4 | h4 <;> omega
    · rw [sub_add_cancel]
      exact ⟨hu.1, by omega, fun h => hu.2 h.symm⟩
  · rw [mem_downs hg.nodup] at ht
    have hlt : r < t := by
      rcases hdn _ _ ht.1 with h4 | h4 | h4
      · exact absurd h4 ht.2.1
      · exact absurd h4 ht.2.2
      · exact h4
    refine ⟨⟨fun _ => ?_, fun _ => by omega⟩, ⟨fun h => by omega, ?_⟩⟩
    · rw [neg_neg, sub_add_cancel]; exact ht
    · rintro ⟨h1, _⟩
      have := hg.pos _ (Dict.mem_keys_iff.2 ⟨_, h1⟩)
      omega

/-- For such a graph the table determines the connections: reading `-b` in row `a`, and `a` in
row `b`, are the same thing. -/
theorem C53_reciprocal {g : Dict ℤ ℤ} (hg : ReachGraph g)
    (hdn : ∀ r t, g.get? r = some t → t = 0 ∨ t = r ∨ r < t)
    {rows : List (ℤ × List ℤ)} (h : connectiondata (someVals g) = .ok rows)
    {ra rb : ℤ × List ℤ} (ha : ra ∈ rows) (hb : rb ∈ rows) (hb0 : rb.1 ≠ 0) :
    -rb.1 ∈ ra.2 ↔ ra.1 ∈ rb.2 := by
  have hS := C53_signs hg hdn h
  rw [connectiondata_eq hg.nodup hg.pos hg.refs] at h
  cases h
  obtain ⟨a, hak, rfl⟩ := List.mem_map.1 ha
  obtain ⟨b, hbk, rfl⟩ := List.mem_map.1 hb
  have ha1 := hg.pos a (mem_sortedKeys.1 hak)
  have hb1 := hg.pos b (mem_sortedKeys.1 hbk)
  dsimp only at hb0 ⊢
  constructor
  · intro hm
    have := ((hS _ ha _ hm).1).1 (by omega)
    dsimp only at this
    rw [neg_neg, sub_add_cancel, sub_add_cancel] at this
    rw [List.mem_append]
    left
    refine List.mem_map.2 ⟨a, ?_, rfl⟩
    rw [List.mem_reverse, mem_ups hg.nodup (by omega)]
    exact ⟨this.1, fun h => this.2.2 h.symm⟩
  · intro hm
    have := ((hS _ hb _ hm).2).1 (by omega)
    dsimp only at this
    rw [sub_add_cancel, sub_add_cancel] at this
    rw [List.mem_append]
    right
    refine List.mem_map.2 ⟨b, ?_, rfl⟩
    rw [mem_downs hg.nodup]
    exact this

/-- the graph of `get_stream_connectivity` meets the hypotheses of C52 and C53 -/
theorem mf6_reachGraph (hd : Resolves fdir d) {limit : ℕ}
    {sa' : Fin N → ℤ} {g : Dict ℤ ℤ} (h : mf6 limit fdir sa = .ok (sa', g)) : ReachGraph g := by
  obtain ⟨L, hl, h⟩ := mf6_lift h d
  obtain ⟨sa1, g1, e1, k0, k1, k2, k3, k4, k5⟩ := C49_reach_numbers (sa := sa) hd hl
  rw [h] at e1
  cases e1
  have hcell : ∀ r, r ∈ g.keys ↔ ∃ n, sa n ≠ 0 ∧ sa' n = r := by
    intro r
    rw [k4, List.mem_map]
    constructor
    · rintro ⟨i, hi, rfl⟩
      rw [List.mem_range] at hi
      obtain ⟨n, hn, hni⟩ := k3 (i + 1) (by omega) (by omega)
      exact ⟨n, hn, by rw [hni]; push_cast; rfl⟩
    · rintro ⟨n, hn, rfl⟩
      have := k1 n hn
      exact ⟨(sa' n - 1).toNat, by rw [List.mem_range]; omega, by omega⟩
  refine ⟨?_, ?_, ?_⟩
  · rw [k4]; exact List.nodup_range.map (fun a b h => by simpa using h)
  · intro r hr
    obtain ⟨n, hn, rfl⟩ := (hcell r).1 hr
    exact (k1 n hn).1
  · intro r t hrt
    obtain ⟨n, hn, rfl⟩ := (hcell r).1 (Dict.mem_keys_iff.2 ⟨t, hrt⟩)
    rw [k5 n hn] at hrt
    cases hrt
    by_cases h0 : sa (d n) = 0
    · left; exact k0 _ h0
    · right; exact (hcell _).2 ⟨d n, h0, rfl⟩

/-- C53 for the object: after `get_stream_connectivity()` on a stream network without cycles,
`connectiondata()` succeeds and its signs can be decoded. -/
theorem C53_network {o o' : Obj N} (hd : Resolves o.fdir d) {limit : ℕ}
    (hsa : o.streamArray = some sa) (hc : NoStreamCycle d sa)
    {g : Dict ℤ ℤ} (h : o.connectivity limit none = .ok (o', g)) :
    ∃ rows, o'.connData limit = .ok (o', rows) ∧ ∀ row ∈ rows, ∀ x ∈ row.2,
      (x < 0 ↔ Joins g (row.1 + 1) (-x + 1)) ∧ (0 ≤ x ↔ Joins g (x + 1) (row.1 + 1)) := by
  unfold Obj.connectivity Obj.source at h
  rw [hsa] at h
  simp only [Res.bind_ok] at h
  obtain ⟨⟨sa1, g'⟩, hm, he⟩ := Res.map_eq_ok.1 h
  rw [Prod.mk.injEq] at he
  obtain ⟨rfl, rfl⟩ := he
  have hrg := mf6_reachGraph hd hm
  obtain ⟨rows, hrows, _⟩ := C52_connectiondata hrg
  refine ⟨rows, ?_, C53_signs hrg (C50_downstream hd hc hm) hrows⟩
  simp only [Obj.connData, Obj.graphOf, Res.bind_ok, hrows, Res.map_ok]

/-- Without downstream numbering the encoding is ambiguous: in the rows of these two graphs reach 2
(row 1) has the single entry 0 — once an upstream, once a downstream reach. -/
theorem C53_ambiguous : ∃ g g' : Dict ℤ ℤ, ∃ rows rows', ReachGraph g ∧ ReachGraph g' ∧
    connectiondata (someVals g) = .ok rows ∧ connectiondata (someVals g') = .ok rows' ∧
    (1, [0]) ∈ rows ∧ (1, [0]) ∈ rows' ∧ Joins g 1 2 ∧ ¬ Joins g 2 1 ∧ Joins g' 2 1 ∧ ¬ Joins g' 1 2 := by
  refine ⟨[(1, 2), (2, 0)], [(1, 0), (2, 1)], [(0, [-1]), (1, [0])], [(0, [1]), (1, [0])],
    ⟨by decide +kernel, by decide +kernel, ?_⟩, ⟨by decide +kernel, by decide +kernel, ?_⟩,
    by decide +kernel, by decide +kernel, by decide +kernel, by decide +kernel, by unfold Joins; decide +kernel,
    by unfold Joins; decide +kernel, by unfold Joins; decide +kernel, by unfold Joins; decide +kernel⟩
  · intro r t h
    have := Dict.mem_of_get? h
    simp at this
    rcases this with ⟨rfl, rfl⟩ | ⟨rfl, rfl⟩ <;> simp [Dict.keys]
  · intro r t h
    have := Dict.mem_of_get? h
    simp at this
    rcases this with ⟨rfl, rfl⟩ | ⟨rfl, rfl⟩ <;> simp [Dict.keys]

/-! ### `packagedata` -/

section Package

variable {K : Type*} [Field K] [DecidableEq K] {sqrt : K → K} {G : Grid N K}

theorem firstNode_ok {n : Fin N} (hinj : ∀ m, sa m = sa n → m = n) :
    firstNode sa (sa n) = .ok n := by
  unfold firstNode
  have hsome : ((List.finRange N).find? (fun m => sa m = sa n)).isSome := by
    rw [List.find?_isSome]
    exact ⟨n, List.mem_finRange n, by simp⟩
  obtain ⟨m, hm⟩ := Option.isSome_iff_exists.1 hsome
  rw [hm]
  have := List.find?_some hm
  rw [hinj m (by simpa using this)]

/-- the length given to a reach in cell `n` that flows to cell `m` -/
def rlenOf (sqrt : K → K) (G : Grid N K) (n m : Fin N) : K :=
  (if sqrt ((G.xc n - G.xc m) ^ 2 + (G.yc n - G.yc m) ^ 2) = 0 then G.side n
    else sqrt ((G.xc n - G.xc m) ^ 2 + (G.yc n - G.yc m) ^ 2)) * (3 / 2)

theorem pRecords_ok {cd : List (ℤ × List ℤ)} : ∀ (l : List (ℤ × Option ℤ)) (cnt : ℕ),
    (∀ i (h : i < l.length), ∃ r, pRecord sqrt G sa cd l[i] (cnt + i) = .ok r) →
    ∃ recs, pRecords sqrt G sa cd l cnt = .ok recs ∧ recs.length = l.length ∧
      ∀ i (h : i < l.length) r, pRecord sqrt G sa cd l[i] (cnt + i) = .ok r → recs[i]? = some r := by
  intro l
  induction l with
  | nil => intro cnt _; exact ⟨[], rfl, rfl, by simp⟩
  | cons e l ih =>
    intro cnt h
    obtain ⟨r0, h0⟩ := h 0 (by simp)
    simp only [List.getElem_cons_zero, Nat.add_zero] at h0
    obtain ⟨recs, e1, e2, e3⟩ := ih (cnt + 1) (by
      intro i hi
      obtain ⟨r, hr⟩ := h (i + 1) (by simpa using hi)
      refine ⟨r, ?_⟩
      rw [List.getElem_cons_succ] at hr
      rw [show cnt + 1 + i = cnt + (i + 1) by omega]
      exact hr)
    refine ⟨r0 :: recs, by simp only [pRecords, h0, Res.bind_ok, e1, Res.map_ok], by simp [e2], ?_⟩
    intro i hi r hr
    cases i with
    | zero =>
      rw [List.getElem_cons_zero, Nat.add_zero, h0] at hr
      cases hr; rfl
    | succ i =>
      rw [List.getElem_cons_succ] at hr
      rw [List.getElem?_cons_succ]
      apply e3 i (by simpa using hi)
      rw [show cnt + 1 + i = cnt + (i + 1) by omega]
      exact hr

/-- **C54.** After `get_stream_connectivity()` the records of `packagedata()` are: one per reach, in
increasing (zero-based) reach order; the record of reach `i` is in the cell `n` whose reach number is
`i + 1`, has that cell's slope (over 1.5) and top, the number of entries of row `i` of
`connectiondata()`, and 1.5 times the distance to the centre of the downstream cell as length. -/
theorem C54_packagedata {o o' : Obj N} (hd : Resolves o.fdir d) {limit : ℕ}
    (hsa : o.streamArray = some sa) {g : Dict ℤ ℤ}
    (hg : o.connectivity limit none = .ok (o', g)) :
    ∃ sa' recs rows, o'.streamArray = some sa' ∧
      o'.packageData sqrt G limit none = .ok (o', recs) ∧
      o'.connData limit = .ok (o', rows) ∧
      recs.length = nStream sa ∧ rows.length = nStream sa ∧
      ∀ n, sa n ≠ 0 → ∃ i : ℕ, sa' n = (i : ℤ) + 1 ∧ ∃ rec row, recs[i]? = some rec ∧ rows[i]? = some row ∧
        row.1 = i ∧ rec.ifno = i ∧ rec.node = n ∧ rec.ncon = row.2.length ∧
        rec.rgrd = G.slope n / (3 / 2) ∧ rec.rtp = G.top n ∧
        rec.rlen = rlenOf sqrt G n (if sa (d n) = 0 then n else d n) := by
  unfold Obj.connectivity Obj.source at hg
  rw [hsa] at hg
  simp only [Res.bind_ok] at hg
  obtain ⟨⟨sa', g'⟩, hm, he⟩ := Res.map_eq_ok.1 hg
  rw [Prod.mk.injEq] at he
  obtain ⟨rfl, rfl⟩ := he
  have hrg := mf6_reachGraph hd hm
  obtain ⟨L, hl, hm⟩ := mf6_lift hm d
  obtain ⟨sa1, g1, e1, k0, k1, k2, k3, k4, k5⟩ := C49_reach_numbers (sa := sa) hd hl
  rw [hm] at e1
  cases e1
  obtain ⟨rows, hrows, hfst, _, _⟩ := C52_connectiondata hrg
  have hsortK : g'.keys.insertionSort (· ≤ ·) = g'.keys := by
    apply List.Pairwise.insertionSort_eq
    rw [k4, List.pairwise_map]
    exact List.pairwise_lt_range.imp (fun h => by omega)
  have hsortI : sortItems g' = g' := by
    apply List.Pairwise.insertionSort_eq
    have : g'.keys.Pairwise (· ≤ ·) := by
      rw [k4, List.pairwise_map]
      exact List.pairwise_lt_range.imp (fun h => by omega)
    exact List.pairwise_map.1 this
  have hglen : g'.length = nStream sa := by
    have : g'.keys.length = g'.length := by simp [Dict.keys]
    rw [← this, k4]; simp
  have hrlen : rows.length = nStream sa := by
    have := congrArg List.length hfst
    rw [hsortK, List.length_map, List.length_map, k4] at this
    simpa using this
  have hrowfst : ∀ i (h : i < rows.length), rows[i].1 = i := by
    intro i h
    have h1 : (rows.map Prod.fst)[i]'(by simpa using h) = rows[i].1 := by simp
    rw [← h1]
    rw [hsortK, k4, List.map_map] at hfst
    simp only [hfst]
    simp
  have hcellOf : ∀ i (hi : i < nStream sa), ∃ n, sa n ≠ 0 ∧ sa' n = (i : ℤ) + 1 := by
    intro i hi
    obtain ⟨n, hn, h⟩ := k3 (i + 1) (by omega) (by omega)
    exact ⟨n, hn, by rw [h]; push_cast; rfl⟩
  have hgi : ∀ i (hi : i < nStream sa) n, sa n ≠ 0 → sa' n = (i : ℤ) + 1 →
      g'[i]'(by omega) = (sa' n, sa' (d n)) := by
    intro i hi n hn hni
    have h1 : (g'[i]'(by omega)).1 = sa' n := by
      have h2 : g'.keys[i]'(by simp [Dict.keys]; omega) = (g'[i]'(by omega)).1 := by simp [Dict.keys]
      rw [← h2, hni]
      simp only [k4]
      simp
    have h3 : g'.get? (g'[i]'(by omega)).1 = some (g'[i]'(by omega)).2 :=
      Dict.get?_of_mem hrg.nodup (List.getElem_mem _)
    rw [h1, k5 n hn] at h3
    rw [← h1]
    cases h4 : g'[i]'(by omega) with
    | mk a b => rw [h4] at h3; simp only [Option.some.injEq] at h3; rw [h3]
  have hfirst : ∀ n, sa n ≠ 0 → firstNode sa' (sa' n) = .ok n := by
    intro n hn
    apply firstNode_ok
    intro m hm
    by_cases h0 : sa m = 0
    · have := (k1 n hn).1
      rw [← hm, k0 m h0] at this
      omega
    · exact k2 m n h0 hn hm
  -- the records
  have hrec : ∀ i (hi : i < nStream sa) n, sa n ≠ 0 → sa' n = (i : ℤ) + 1 →
      pRecord sqrt G sa' rows (sa' n, some (sa' (d n))) i = .ok
        { ifno := sa' n - 1, node := n, rlen := rlenOf sqrt G n (if sa (d n) = 0 then n else d n),
          rgrd := G.slope n / (3 / 2), rtp := G.top n,
          ncon := (rows[i]'(by omega)).2.length } := by
    intro i hi n hn hni
    unfold pRecord
    rw [hfirst n hn, Res.bind_ok]
    have hdn : dnNode sa' n (some (sa' (d n))) = .ok (if sa (d n) = 0 then n else d n) := by
      by_cases h0 : sa (d n) = 0
      · simp [dnNode, k0 _ h0, h0]
      · have h1 := (k1 _ h0).1
        have h2 : sa' (d n) ≠ 0 := by omega
        simp [dnNode, h2, h0, hfirst _ h0]
    dsimp only
    rw [hdn, Res.bind_ok]
    have hri : rows[i]? = some (rows[i]'(by omega)) := List.getElem?_eq_getElem _
    rw [hri]
    rfl
  have hlen : (sortItems (someVals g')).length = nStream sa := by
    rw [sortItems_someVals, hsortI, List.length_map, hglen]
  have hitem : ∀ i (hi : i < nStream sa) n, sa n ≠ 0 → sa' n = (i : ℤ) + 1 →
      (sortItems (someVals g'))[i]'(by omega) = (sa' n, some (sa' (d n))) := by
    intro i hi n hn hni
    have := hgi i hi n hn hni
    simp only [sortItems_someVals, hsortI, List.getElem_map, this]
  obtain ⟨recs, e1, e2, e3⟩ := pRecords_ok (sqrt := sqrt) (G := G) (sa := sa') (cd := rows)
    (sortItems (someVals g')) 0 (by
      intro i hi
      obtain ⟨n, hn, hni⟩ := hcellOf i (by omega)
      rw [hitem i (by omega) n hn hni, Nat.zero_add]
      exact ⟨_, hrec i (by omega) n hn hni⟩)
  refine ⟨sa', recs, rows, rfl, ?_, ?_, by rw [e2, hlen], hrlen, ?_⟩
  · simp only [Obj.packageData, Obj.graphOf, Res.bind_ok, Obj.stream, packageRows, hrows, e1, Res.map_ok]
  · simp only [Obj.connData, Obj.graphOf, Res.bind_ok, hrows, Res.map_ok]
  · intro n hn
    have hb := k1 n hn
    refine ⟨(sa' n - 1).toNat, by omega, ?_⟩
    have hi : (sa' n - 1).toNat < nStream sa := by omega
    have hni : sa' n = ((sa' n - 1).toNat : ℤ) + 1 := by omega
    have hr := hrec _ hi n hn hni
    have := e3 (sa' n - 1).toNat (by omega) _ (by rw [hitem _ hi n hn hni, Nat.zero_add]; exact hr)
    refine ⟨_, _, this, List.getElem?_eq_getElem (by omega), hrowfst _ _, ?_, rfl, rfl, rfl, rfl, rfl⟩
    dsimp only
    omega

/-- **C55** as stated: `packagedata(a)` works for a binary stream array `a`. -/
def AcceptsArray (K : Type*) [Field K] [DecidableEq K] (sqrt : K → K) (N : ℕ) : Prop :=
  ∀ (o : Obj N) (d : Fin N → Fin N) (G : Grid N K) (limit : ℕ) (a : Fin N → ℤ), Legal o.fdir d →
    (∀ n, a n = 0 ∨ a n = 1) → Fits d a limit →
    ∃ r, o.packageData sqrt G limit (some a) = .ok r

/-- **C55 is false of the code**, for every network with two or more stream cells: the records are
looked up in the array given by the user, which holds no reach number but 1, so an `IndexError` is
raised. -/
theorem C55_refuted {o : Obj N} (hd : Resolves o.fdir d) {limit : ℕ} {a : Fin N → ℤ}
    (hb : ∀ n, a n = 0 ∨ a n = 1) (h2 : 2 ≤ nStream a) (hl : Fits d a limit) :
    o.packageData sqrt G limit (some a) = .err .indexError := by
  obtain ⟨sa', g, e, k0, k1, k2, k3, k4, k5⟩ := C49_reach_numbers (sa := a) hd hl
  have hrg := mf6_reachGraph hd e
  obtain ⟨rows, hrows, hfst, _, _⟩ := C52_connectiondata hrg
  have hsortI : sortItems g = g := by
    apply List.Pairwise.insertionSort_eq
    have : g.keys.Pairwise (· ≤ ·) := by
      rw [k4, List.pairwise_map]
      exact List.pairwise_lt_range.imp (fun h => by omega)
    exact List.pairwise_map.1 this
  have hglen : g.length = nStream a := by
    have : g.keys.length = g.length := by simp [Dict.keys]
    rw [← this, k4]; simp
  have hk1 : (g[1]'(by omega)).1 = 2 := by
    have h2 : g.keys[1]'(by simp [Dict.keys]; omega) = (g[1]'(by omega)).1 := by simp [Dict.keys]
    rw [← h2]
    simp only [k4]
    simp
  have hk0 : (g[0]'(by omega)).1 = 1 := by
    have h2 : g.keys[0]'(by simp [Dict.keys]; omega) = (g[0]'(by omega)).1 := by simp [Dict.keys]
    rw [← h2]
    simp only [k4]
    simp
  have hnone : ∀ x : ℤ, x ≠ 0 → x ≠ 1 → firstNode a x = .err .indexError := by
    intro x h0 h1
    unfold firstNode
    have : (List.finRange N).find? (fun n => a n = x) = none := by
      rw [List.find?_eq_none]
      intro n _
      simp only [decide_eq_true_eq]
      rcases hb n with h | h <;> omega
    rw [this]
  have herr : ∀ (l : List (ℤ × Option ℤ)) (cnt : ℕ) (cd : List (ℤ × List ℤ)),
      (∃ i, ∃ h : i < l.length, pRecord sqrt G a cd l[i] (cnt + i) = .err .indexError ∧
        ∀ j (hj : j < i), (∃ r, pRecord sqrt G a cd l[j] (cnt + j) = .ok r) ∨
          pRecord sqrt G a cd l[j] (cnt + j) = .err .indexError) →
      pRecords sqrt G a cd l cnt = .err .indexError := by
    intro l
    induction l with
    | nil => rintro cnt cd ⟨i, h, _⟩; simp at h
    | cons x l ih =>
      rintro cnt cd ⟨i, h, h1, h2⟩
      cases i with
      | zero =>
        rw [List.getElem_cons_zero, Nat.add_zero] at h1
        simp only [pRecords, h1, Res.bind_err]
      | succ i =>
        have h0 := h2 0 (by omega)
        rw [List.getElem_cons_zero, Nat.add_zero] at h0
        rcases h0 with ⟨r, h0⟩ | h0
        · simp only [pRecords, h0, Res.bind_ok]
          rw [ih (cnt + 1) cd]
          · rfl
          · refine ⟨i, by simpa using h, ?_, ?_⟩
            · rw [List.getElem_cons_succ] at h1
              rw [show cnt + 1 + i = cnt + (i + 1) by omega]; exact h1
            · intro j hj
              have := h2 (j + 1) (by omega)
              rw [List.getElem_cons_succ] at this
              rw [show cnt + 1 + j = cnt + (j + 1) by omega]; exact this
        · simp only [pRecords, h0, Res.bind_err]
  have hrlen : rows.length = nStream a := by
    have := congrArg List.length hfst
    simp only [List.length_map, List.length_insertionSort] at this
    rw [this, k4]; simp
  have hgoal : packageRows sqrt G a (someVals g) = .err .indexError := by
    unfold packageRows
    rw [hrows, Res.bind_ok]
    apply herr
    have hl2 : 1 < (sortItems (someVals g)).length := by
      rw [sortItems_someVals, hsortI, List.length_map, hglen]; omega
    refine ⟨1, hl2, ?_, ?_⟩
    · simp only [sortItems_someVals, hsortI, List.getElem_map, pRecord, hk1]
      rw [hnone 2 (by omega) (by omega)]
      rfl
    · intro j hj
      have hj0 : j = 0 := by omega
      subst hj0
      simp only [sortItems_someVals, hsortI, List.getElem_map, pRecord, hk0]
      have hfd : ∀ x : ℤ, (∃ n, firstNode a x = .ok n) ∨ firstNode a x = .err .indexError := by
        intro x
        unfold firstNode
        cases (List.finRange N).find? (fun n => a n = x) with
        | none => right; rfl
        | some n => left; exact ⟨n, rfl⟩
      rcases hfd 1 with ⟨n, hn⟩ | hn
      · rw [hn, Res.bind_ok]
        have hdn : (∃ m, dnNode a n (some (g[0]'(by omega)).2) = .ok m) ∨
            dnNode a n (some (g[0]'(by omega)).2) = .err .indexError := by
          unfold dnNode
          dsimp only
          split
          · exact hfd _
          · left; exact ⟨_, rfl⟩
        rcases hdn with ⟨m, hm⟩ | hm
        · left
          rw [hm, Res.bind_ok]
          have hri : rows[0 + 0]? = some (rows[0]'(by omega)) := List.getElem?_eq_getElem _
          rw [hri]
          exact ⟨_, rfl⟩
        · right; rw [hm]; rfl
      · right; rw [hn]; rfl
  simp only [Obj.packageData, Obj.connectivity, Obj.source, Res.bind_ok, e, Res.map_ok, hgoal,
    Res.map_err]

theorem C55_refuted_concrete : ¬ AcceptsArray ℚ (fun x => x) 2 := by
  intro h
  obtain ⟨r, hr⟩ := h ⟨![1, 1], none, none⟩ ![1, 1] ⟨![0, 1], ![0, 0], ![1, 1], ![1, 1], ![1, 1]⟩ 5 ![1, 1]
    (by unfold Legal; decide +kernel) (by decide +kernel) (fits_of_count (by decide +kernel))
  rw [C55_refuted (d := ![1, 1])] at hr
  · cases hr
  · exact Legal.resolves (by unfold Legal; decide +kernel)
  · decide +kernel
  · decide +kernel
  · exact fits_of_count (by decide +kernel)

/-- **C55**, the part that holds (partial): the array numbered by `get_stream_connectivity()` itself
can be given to `packagedata`, and yields the same records as no argument. -/
theorem C55_numbered_partial {o o' : Obj N} (hd : Resolves o.fdir d) {limit : ℕ}
    (hsa : o.streamArray = some sa) {g : Dict ℤ ℤ}
    (hg : o.connectivity limit none = .ok (o', g)) {sa' : Fin N → ℤ} (hsa' : o'.streamArray = some sa') :
    o'.packageData sqrt G limit (some sa') = o'.packageData sqrt G limit none := by
  unfold Obj.connectivity Obj.source at hg
  rw [hsa] at hg
  simp only [Res.bind_ok] at hg
  obtain ⟨⟨sa1, g'⟩, hm, he⟩ := Res.map_eq_ok.1 hg
  rw [Prod.mk.injEq] at he
  obtain ⟨rfl, rfl⟩ := he
  have := C51_repeatable hd hm
  simp only [Option.some.injEq] at hsa'
  subst hsa'
  simp only [Obj.packageData, Obj.connectivity, Obj.source, Res.bind_ok, this, Res.map_ok, Obj.graphOf,
    Obj.stream]

end Package

/-- non-vacuity of C54: the network above -/
def exG : Grid 5 ℚ := ⟨![0, 1, 2, 1, 0], ![0, 0, 0, 1, 1], ![1, 1, 1, 1, 1], ![3, 6, 0, 9, 1], ![5, 4, 3, 6, 7]⟩
example : ((Obj.mk exD (some exSa) none).packageData (fun x => x) exG 10 none).map Prod.snd = .ok
    [⟨0, 3, 3/2, 6, 6, 1⟩, ⟨1, 0, 3/2, 2, 5, 1⟩, ⟨2, 1, 3/2, 4, 4, 3⟩, ⟨3, 2, 3/2, 0, 3, 1⟩] := by
  decide +kernel

/-! ### Stale graphs -/

/-- **C74** as stated: after new stream cells are set, `connectiondata()` describes them — it is what
a fresh object with these stream cells gives. -/
def ConnFollows (N : ℕ) : Prop :=
  ∀ (o : Obj N) (limit : ℕ) (sa : Fin N → ℤ),
    ((o.setStream sa).connData limit).map Prod.snd =
      ((Obj.mk o.fdir (some sa) none).connData limit).map Prod.snd

/-- **C74 is false of the code**: once a graph is stored, `connectiondata()` does not depend on the
stream array any more … -/
theorem C74_stale {o : Obj N} (h : o.graph ≠ none) (limit : ℕ) (sa : Fin N → ℤ) :
    ((o.setStream sa).connData limit).map Prod.snd = (o.connData limit).map Prod.snd := by
  obtain ⟨g, hg⟩ := Option.ne_none_iff_exists'.1 h
  simp only [Obj.connData, Obj.graphOf, Obj.setStream, hg, Res.bind_ok]
  cases connectiondata g <;> rfl

/-- the history `set_stream_array(a); connectiondata(); set_stream_array(b); connectiondata()` -/
def redelineate (limit : ℕ) (fdir a b : Fin N → ℤ) : Res (List (ℤ × List ℤ)) :=
  ((Obj.mk fdir (some a) none).connData limit).bind fun r =>
    ((r.1.setStream b).connData limit).map Prod.snd

/-- … e.g. with first two and then three stream cells. -/
theorem C74_refuted : ¬ ConnFollows 3 ∧
    redelineate 9 ![1, 2, 2] ![0, 1, 1] ![1, 1, 1] ≠
      ((Obj.mk ![1, 2, 2] (some ![1, 1, 1]) none).connData 9).map Prod.snd := by
  refine ⟨fun h => ?_, by decide +kernel⟩
  have := h ⟨![1, 2, 2], some ![0, 1, 1], some (someVals [(1, 2), (2, 2)])⟩ 9 ![1, 1, 1]
  revert this
  decide +kernel

/-- **C74**, the part that holds (partial): with an explicit `get_stream_connectivity()` in between,
or if none was computed before, the tables follow the new stream cells. -/
theorem C74_explicit_partial {o o1 o2 : Obj N} {limit : ℕ} {sa : Fin N → ℤ} {g1 g2 : Dict ℤ ℤ}
    (h1 : (o.setStream sa).connectivity limit none = .ok (o1, g1))
    (h2 : (Obj.mk o.fdir (some sa) none).connectivity limit none = .ok (o2, g2)) :
    g1 = g2 ∧ (o1.connData limit).map Prod.snd =
      ((Obj.mk o.fdir (some sa) none).connData limit).map Prod.snd := by
  simp only [Obj.connectivity, Obj.source, Obj.setStream, Res.bind_ok] at h1 h2
  obtain ⟨⟨sa1, g'⟩, hm, he⟩ := Res.map_eq_ok.1 h1
  rw [hm, Res.map_ok] at h2
  simp only [Prod.mk.injEq] at he
  cases h2
  obtain ⟨rfl, rfl⟩ := he
  refine ⟨rfl, ?_⟩
  simp only [Obj.connData, Obj.graphOf, Obj.connectivity, Obj.source, Res.bind_ok, hm, Res.map_ok]

end Dany.Reach
