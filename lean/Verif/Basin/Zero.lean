import Verif.Basin.Order
import Mathlib.Data.Finset.Max

/-!
# C39, exactly: a pour point in cell 0

`get_subbasins` sorts the pour points with `Topology`, in which segment 0 means "flows out".
-/

namespace Dany.Topo

/-- once a segment flowing to 0 is listed, the list does not end with `-1` -/
def Tail (topo : Dict ℤ ℤ) (S : List ℤ) : Prop :=
  ∀ p ∈ S, topo.get? p = some 0 → ∃ x, S.getLast? = some x ∧ x ≠ -1

theorem sortUtil_tail {topo : Dict ℤ ℤ} (h1 : topo.get? (-1) ≠ some 0) : ∀ (limit : ℕ) (seg : ℤ) (v : Dict ℤ Bool)
    (S : List ℤ) (r : Dict ℤ Bool × List ℤ), Tail topo S → sortUtil topo limit seg v S = .ok r → Tail topo r.2 := by
  intro limit
  induction limit with
  | zero => intro seg v S r _ h; simp [sortUtil] at h
  | succ limit ih =>
    intro seg v S r hS h
    simp only [sortUtil] at h
    obtain ⟨o, ho, h⟩ := Res.bind_eq_ok.1 h
    obtain ⟨seen, _, h⟩ := Res.bind_eq_ok.1 h
    obtain ⟨q, hq, h⟩ := Res.bind_eq_ok.1 h
    have hq' : Tail topo q.2 := by
      split at hq
      · cases hq; exact hS
      · exact ih _ _ _ _ hS hq
    split at h
    · cases h; exact hq'
    · rename_i hseg
      have hget : topo.get? seg = some o := by
        rw [if_neg hseg] at ho
        unfold Dict.getE at ho
        split at ho
        · cases ho; assumption
        · cases ho
      split at h
      · rename_i h0
        cases h
        intro p _ _
        refine ⟨seg, by simp, ?_⟩
        rintro rfl
        rw [h0] at hget
        exact h1 hget
      · rename_i h0
        cases h
        intro p hp hp0
        rcases List.mem_cons.1 hp with rfl | hp
        · rw [hget] at hp0
          exact absurd (Option.some.inj hp0) h0
        · obtain ⟨x, hx, hne⟩ := hq' p hp hp0
          refine ⟨x, ?_, hne⟩
          rw [List.getLast?_cons, hx]
          rfl

theorem sort_tail {topo : Dict ℤ ℤ} (h1 : topo.get? (-1) ≠ some 0) {limit : ℕ} {S : List ℤ}
    (h : sort limit topo = .ok S) : Tail topo S := by
  have key : ∀ (l : List ℤ) (r : Res (Dict ℤ Bool × List ℤ)), (∀ a, r = .ok a → Tail topo a.2) →
      ∀ a, l.foldl (sortStep limit topo) r = .ok a → Tail topo a.2 := by
    intro l
    induction l with
    | nil => intro r hr; exact hr
    | cons i l ih =>
      intro r hr
      rw [List.foldl_cons]
      apply ih
      intro a ha
      obtain ⟨s, hs, ha⟩ := Res.bind_eq_ok.1 ha
      split at ha
      · cases ha; exact hr _ hs
      · obtain ⟨seen, _, ha⟩ := Res.bind_eq_ok.1 ha
        split at ha
        · cases ha; exact hr _ hs
        · exact sortUtil_tail h1 _ _ _ _ _ (hr _ hs) ha
  unfold sort at h
  obtain ⟨a, ha, rfl⟩ := Res.map_eq_ok.1 h
  exact key _ (.ok (initVisited topo, [])) (by rintro a h; cases h; intro p hp; cases hp) a ha

end Dany.Topo

namespace Dany.Basin

open Function Flow Topo

variable {N : ℕ} {fdir : Fin N → ℤ} {d : Fin N → Fin N}

theorem pourTopo_eq {g : Dict ℤ ℤ} (hn : g.keys.Nodup) : addConnections (g ++ [(-1, -1)]) = g.set (-1) (-1) := by
  have := addConnections_nodup hn
  unfold addConnections at this ⊢
  rw [List.foldl_append, this]
  rfl

theorem pourTopo_refs {g : Dict ℤ ℤ} {cells : List (Fin N)} (g3 : ∀ x, x ∈ g.keys ↔ x ∈ cells.map toZ)
    (g4 : ∀ x y, g.get? x = some y → ∃ p ∈ cells, x = toZ p ∧
        ((y = -1 ∧ ∀ j, d^[j] p ∈ cells → d^[j] p = p) ∨
         ∃ k, 1 ≤ k ∧ y = toZ (d^[k] p) ∧ d^[k] p ∈ cells ∧ d^[k] p ≠ p ∧
          ∀ j, 1 ≤ j → j < k → d^[j] p ∉ cells)) : RefsExist (g.set (-1) (-1)) := by
  rintro x y ⟨_, hxy⟩
  right
  rw [Dict.mem_keys_set]
  rw [Dict.get?_set] at hxy
  split at hxy
  · cases hxy; simp
  · obtain ⟨p, _, _, ⟨rfl, _⟩ | ⟨k, _, rfl, hk, _⟩⟩ := g4 x y hxy
    · simp
    · left; rw [g3, mem_toZ]; exact hk

/-- a pour point whose number is not the cell of a point -/
theorem pointCells_bad {cells : List (Fin N)} : ∀ {l : List ℤ}, -1 ∈ l → pointCells cells l = .err .valueError := by
  intro l
  induction l with
  | nil => intro h; cases h
  | cons x l ih =>
    intro h
    simp only [pointCells]
    have hcell : ∀ y, (∃ c, pointCell cells y = .ok c) ∨ pointCell cells y = .err .valueError := by
      intro y
      unfold pointCell
      split
      · exact .inl ⟨_, rfl⟩
      · exact .inr rfl
    have hminus : pointCell cells (-1) = .err .valueError := by
      unfold pointCell
      rw [List.find?_eq_none.2]
      intro c _
      simp
    rcases List.mem_cons.1 h with h | h
    · rw [← h, hminus]; rfl
    · rcases hcell x with ⟨c, hc⟩ | hc
      · rw [hc, Res.bind_ok, ih h]; rfl
      · rw [hc]; rfl

/-- **C39** (another point above cell 0).  If a pour point lies in cell 0 and the water of another one reaches cell 0,
`get_subbasins` raises an exception, always: `ValueError`, or `RecursionError` if there are more points than the recursion
limit allows.
(flow_directions.py:589-616, stream_util.py:1434-1487) -/
theorem C39_always_raises {s : State N} (hd : Legal s.fdir d) {cells : List (Fin N)} {z : Fin N} (hz : z.val = 0)
    (hmem : z ∈ cells) (hcyc : ∀ c ∈ cells, ¬ OnCycle d c) {p : Fin N} (hp : p ∈ cells) (hpz : p ≠ z)
    (hreach : Reaches d p z) {limit fuel : ℕ} (hf : N + 1 < fuel) :
    (subbasins limit fuel s cells = .err .valueError ∨ subbasins limit fuel s cells = .err .recursionError) ∧
      (cells.length + 2 ≤ limit → subbasins limit fuel s cells = .err .valueError) := by
  obtain ⟨g, e, g1, glen, g3, g4⟩ := pourGraph_ok hd hcyc hf
  have hz0 : toZ z = 0 := by unfold toZ; omega
  -- a point directly above cell 0
  have habove : ∃ q ∈ cells, q ≠ z ∧ g.get? (toZ q) = some 0 := by
    obtain ⟨k, hk⟩ := hreach
    -- the last point on the way
    have hex : ∃ j, j < k ∧ d^[j] p ∈ cells ∧ d^[j] p ≠ z ∧ ∀ i, j < i → i < k → d^[i] p ∈ cells → d^[i] p = z := by
      classical
      have h0 : d^[0] p ∈ cells ∧ d^[0] p ≠ z := ⟨hp, hpz⟩
      have hk0 : 0 < k := by
        rcases Nat.eq_zero_or_pos k with rfl | h
        · exact absurd hk hpz
        · exact h
      have hne : ((Finset.range k).filter fun j => d^[j] p ∈ cells ∧ d^[j] p ≠ z).Nonempty :=
        ⟨0, by rw [Finset.mem_filter, Finset.mem_range]; exact ⟨hk0, h0⟩⟩
      have hmax := Finset.max'_mem _ hne
      rw [Finset.mem_filter, Finset.mem_range] at hmax
      refine ⟨_, hmax.1, hmax.2.1, hmax.2.2, fun i hi hik hic => ?_⟩
      by_contra hiz
      have := Finset.le_max' ((Finset.range k).filter fun j => d^[j] p ∈ cells ∧ d^[j] p ≠ z) i
        (by rw [Finset.mem_filter, Finset.mem_range]; exact ⟨hik, hic, hiz⟩)
      omega
    obtain ⟨j, hj, hjc, hjz, hlast⟩ := hex
    refine ⟨d^[j] p, hjc, hjz, ?_⟩
    have hkey : toZ (d^[j] p) ∈ g.keys := by rw [g3, mem_toZ]; exact hjc
    obtain ⟨y, hy⟩ := Option.isSome_iff_exists.1 (Dict.get?_isSome.2 hkey)
    rw [hy]
    have hto : d^[k - j] (d^[j] p) = z := by
      rw [← iterate_add_apply, Nat.sub_add_cancel hj.le, hk]
    obtain ⟨q, hq, hqe, hval⟩ := g4 _ _ hy
    have hqe := toZ_inj hqe
    rw [← hqe] at hval
    rcases hval with ⟨_, h⟩ | ⟨i, hi, rfl, hic, hne, hfirst⟩
    · exact absurd (h (k - j) (by rw [hto]; exact hmem)).symm (by rw [hto]; exact hjz)
    · have hiz : d^[i] (d^[j] p) = z := by
        rcases Nat.lt_trichotomy i (k - j) with h | h | h
        · rw [← iterate_add_apply]
          refine hlast (i + j) (by omega) (by omega) ?_
          rw [iterate_add_apply]; exact hic
        · rw [h]; exact hto
        · exact absurd (by rw [hto]; exact hmem) (hfirst (k - j) (by omega) h)
      rw [hiz, hz0]
  obtain ⟨q, hqc, hqz, hq0⟩ := habove
  have hqne : toZ q ≠ 0 := fun h => hqz (toZ_inj (h.trans hz0.symm))
  have hqm : toZ q ≠ -1 := by have := toZ_nonneg q; omega
  unfold subbasins pourOrder
  rw [show (fun c : Fin N => ((c : ℕ) : ℤ)) = toZ from rfl, e, Res.bind_ok, pourTopo_eq g1]
  rcases sort_cases (pourTopo_refs g3 g4) limit with h | ⟨S, h, hS, hcont, _⟩
  · refine ⟨.inr (by rw [h]; rfl), fun hl => ?_⟩
    obtain ⟨S, h', _⟩ := sort_ok (limit := limit) (pourTopo_refs g3 g4) (shortPaths_of_length (by
      have : (g.set (-1) (-1)).keys.length ≤ g.keys.length + 1 := by
        rw [Dict.keys_set]; split <;> simp
      simp only [Dict.keys, List.length_map] at this
      omega))
    rw [h] at h'
    cases h'
  · refine (fun h => ⟨.inl h, fun _ => h⟩) ?_
    rw [h]
    have htail := sort_tail (topo := g.set (-1) (-1)) (by rw [Dict.get?_set_self]; simp) h
    obtain ⟨x, hx, hxne⟩ := htail (toZ q) ((hcont _).2 ⟨hqne, by
        rw [Dict.mem_keys_set]; left; rw [g3, mem_toZ]; exact hqc⟩)
      (by rw [Dict.get?_set_ne _ _ hqm]; exact hq0)
    have hm1 : (-1 : ℤ) ∈ S := (hcont _).2 ⟨by decide, by rw [Dict.mem_keys_set]; right; rfl⟩
    have hdl : (-1 : ℤ) ∈ S.dropLast := by
      have := List.dropLast_append_getLast? x hx
      rw [← this, List.mem_append, List.mem_singleton] at hm1
      rcases hm1 with h | h
      · exact h
      · exact absurd h.symm hxne
    show ((Res.ok S.dropLast).bind _) = _
    rw [Res.bind_ok, pointCells_bad hdl]
    rfl

theorem nextPour_nz (hd : Legal fdir d) {cells cells' : List (Fin N)} {z : Fin N}
    (h : ∀ c, c ≠ z → (c ∈ cells ↔ c ∈ cells')) (p : ℤ) : ∀ (k : ℕ) (c : Fin N) (visited : List ℤ), ¬ Reaches d c z →
    nextPour fdir (cells.map toZ) p k (toZ c) visited = nextPour fdir (cells'.map toZ) p k (toZ c) visited := by
  intro k
  induction k with
  | zero => intro c v _; rfl
  | succ k ih =>
    intro c v hc
    have hne : c ≠ z := fun e => hc (by rw [e]; exact Reaches.refl z)
    have hnext : ¬ Reaches d (d c) z := fun h => hc ((Reaches.step c).trans h)
    have hm : toZ c ∈ cells.map toZ ↔ toZ c ∈ cells'.map toZ := by rw [mem_toZ, mem_toZ, h c hne]
    simp only [nextPour, hm, pyIndex_toZ, Res.bind_ok]
    rw [show fdir c = toZ (d c) from hd c]
    simp only [ih (d c) _ hnext]

/-- **C39** (no other point above cell 0).  If a pour point lies in cell 0 and the water of no other one reaches cell 0, the
point is ignored: the result is that for the other points alone. -/
theorem C39_ignored {s : State N} (hd : Legal s.fdir d) {cells : List (Fin N)} {z : Fin N} (hz : z.val = 0)
    (hcyc : ∀ c ∈ cells, ¬ OnCycle d c) (hno : ∀ p ∈ cells, p ≠ z → ¬ Reaches d p z) {limit fuel : ℕ}
    (hf : N + 1 < fuel) :
    subbasins limit fuel s cells = subbasins limit fuel s (cells.filter (· ≠ z)) := by
  have hz0 : toZ z = 0 := by unfold toZ; omega
  have hmem : ∀ c, c ≠ z → (c ∈ cells ↔ c ∈ cells.filter (· ≠ z)) := by intro c hc; simp [hc]
  obtain ⟨g, e, g1, _, g3, g4⟩ := pourGraph_ok hd hcyc hf
  obtain ⟨g', e', g1', _, g3', g4'⟩ := pourGraph_ok (cells := cells.filter (· ≠ z)) hd
    (fun c hc => hcyc c (List.mem_filter.1 hc).1) hf
  have hget : ∀ x, x ≠ 0 → g.get? x = g'.get? x := by
    intro x hx
    obtain ⟨k1, k2⟩ := pourFold_get (cells.map toZ) [] g e
    obtain ⟨k1', k2'⟩ := pourFold_get ((cells.filter (· ≠ z)).map toZ) [] g' e'
    by_cases hxc : x ∈ cells.map toZ
    · obtain ⟨c, hc, rfl⟩ := List.mem_map.1 hxc
      have hcz : c ≠ z := fun h => hx (by rw [h]; exact hz0)
      obtain ⟨q, hq, hgq⟩ := k1 _ hxc
      obtain ⟨q', hq', hgq'⟩ := k1' (toZ c) (by rw [mem_toZ]; exact (hmem c hcz).1 hc)
      rw [nextPour_nz hd hmem _ _ _ _ (hno c hc hcz), hq'] at hq
      cases hq
      rw [hgq, hgq']
    · rw [k2 x hxc, k2' x (fun h => hxc ?_)]
      obtain ⟨c, hc, rfl⟩ := List.mem_map.1 h
      rw [mem_toZ]
      exact (List.mem_filter.1 hc).1
  unfold subbasins pourOrder
  rw [show (fun c : Fin N => ((c : ℕ) : ℤ)) = toZ from rfl, e, e', Res.bind_ok, Res.bind_ok, pourTopo_eq g1,
    pourTopo_eq g1']
  have hsort : sort limit (g.set (-1) (-1)) = sort limit (g'.set (-1) (-1)) := by
    refine sort_sameNZ (fun x hx => ?_) limit
    rw [Dict.get?_set, Dict.get?_set, hget x hx]
  rcases sort_cases (pourTopo_refs g3 g4) limit with h | ⟨S, h, _, hcont, _⟩
  · rw [← hsort, h]; rfl
  · rw [← hsort, h]
    simp only [Res.map_ok, Res.bind_ok]
    have hpc : ∀ l : List ℤ, (∀ x ∈ l, x ≠ 0) → pointCells cells l = pointCells (cells.filter (· ≠ z)) l := by
      intro l
      induction l with
      | nil => intro _; rfl
      | cons x l ih =>
        intro hl
        have hx := hl x (by simp)
        have hcell : pointCell cells x = pointCell (cells.filter (· ≠ z)) x := by
          unfold pointCell
          rw [List.find?_filter]
          have : (fun c : Fin N => decide (((c : ℕ) : ℤ) = x)) =
              fun a => decide (decide (a ≠ z) = true ∧ decide (((a : ℕ) : ℤ) = x) = true) := by
            funext c
            by_cases hc : ((c : ℕ) : ℤ) = x
            · have : c ≠ z := fun h => hx (by rw [← hc, h]; omega)
              simp [hc, this]
            · simp [hc]
          rw [this]
        simp only [pointCells, hcell, ih (fun y hy => hl y (by simp [hy]))]
    rw [hpc S.dropLast (fun x hx => ((hcont x).1 (List.dropLast_subset S hx)).1)]

/-! ### Examples: the network `4 → 3 → 2 → 1 → 0 → 0`, `5 → 2` of C171 -/

-- cell 0 and a point above it
example : subbasins 50 50 exO [2, 0] = .err .valueError :=
  (C39_always_raises (d := exOd) (z := 0) exO_legal rfl (by simp) (fun c _ => exO_acyclic c) (p := 2) (by simp)
    (by decide) ⟨2, rfl⟩ (by norm_num)).2 (by norm_num)

/-- `1 → 2 → 2`, `0 → 2`, `3 → 1` -/
def exZ : State 4 := { fdir := ![2, 2, 2, 1], fdirR := none }
def exZd : Fin 4 → Fin 4 := ![2, 2, 2, 1]
theorem exZ_legal : Legal exZ.fdir exZd := by unfold Legal; decide +kernel
theorem exZ_acyclic (c : Fin 4) : ¬ OnCycle exZd c := by
  rintro ⟨hne, k, hk⟩
  have h3 : ∀ c : Fin 4, exZd^[2] c = 2 := by decide +kernel
  have hz : exZd^[(k + 1) * 2] c = c := by
    rw [iterate_mul]
    show exZd^[k + 1] (exZd^[k + 1] c) = c
    rw [hk, hk]
  have hfix : ∀ m, exZd^[m] 2 = 2 := fun m => iterate_fixed (by rfl) m
  rw [show (k + 1) * 2 = k * 2 + 2 by omega, iterate_add_apply, h3, hfix] at hz
  rw [← hz] at hne
  exact hne rfl

-- points in cells 0 and 1: cell 0, a headwater, is ignored
example : subbasins 50 50 exZ [0, 1] = subbasins 50 50 exZ [1] := by
  have h := C39_ignored (s := exZ) (d := exZd) (cells := [0, 1]) (z := 0) (limit := 50) (fuel := 50) exZ_legal rfl
    (fun c _ => exZ_acyclic c) (by
      intro p hp hne
      have : p = 1 := by simpa [hne] using hp
      subst this
      rintro ⟨k, hk⟩
      rcases k with _ | k
      · revert hk; decide
      · rw [iterate_succ_apply, show exZd 1 = 2 from rfl, iterate_fixed (by rfl)] at hk
        revert hk; decide) (by norm_num)
  exact h
example : (subbasins 50 50 exZ [0, 1]).map Prod.snd = .ok ![0, 1, 0, 1] := by decide +kernel

end Dany.Basin
