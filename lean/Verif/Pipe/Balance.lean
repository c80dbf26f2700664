import Verif.Pipe.Packages
import Verif.Casc.Rows
import Verif.Acc.Props
import Mathlib.Order.WellFounded
import Mathlib.Data.Fintype.Order

/-!
# C170: the water balance of the cascades

What the four arrays of `get_cascades` say about water: a link passes the fraction `hru_pct_up` of the water of
`hru_up_id` on to `hru_down_id`.  The specification is `Routed`; it is independent of how the links are made.
-/

namespace Dany.Pipe

open Flow Relation

variable {N : ℕ} {K : Type*} [Field K] [LinearOrder K] [IsStrictOrderedRing K]

/-! ### Specification -/

/-- the fraction of the water of cell `u` that the table passes on to cell `v`: the sum over all its rows from `u` to `v` -/
def share (rows : List (Casc.Row K)) (u v : Fin N) : K :=
  ((rows.filter fun r => r.up = ((u : ℕ) : ℤ) + 1 ∧ r.down = ((v : ℕ) : ℤ) + 1).map Casc.Row.pct).sum

/-- `Q` is the water every cell has had when each has got `rain` and passed water on as the table says: its own
and what other cells pass on to it -/
def Routed (rows : List (Casc.Row K)) (rain Q : Fin N → K) : Prop :=
  ∀ v, Q v = rain v + ∑ u ∈ Finset.univ.filter (· ≠ v), share rows u v * Q u

/-- the fraction a cell passes on to other cells -/
def passed (rows : List (Casc.Row K)) (u : Fin N) : K := ∑ v ∈ Finset.univ.filter (· ≠ u), share rows u v

/-! ### Any table -/

section Table

variable {rows : List (Casc.Row K)} {rain Q : Fin N → K}

theorem share_of_not_link {u v : Fin N} (hne : u ≠ v) (h : ¬ Link rows u v) : share rows u v = 0 := by
  have : rows.filter (fun r => r.up = ((u : ℕ) : ℤ) + 1 ∧ r.down = ((v : ℕ) : ℤ) + 1) = [] := by
    rw [List.filter_eq_nil_iff]
    intro r hr hc
    rw [decide_eq_true_eq] at hc
    exact h ⟨hne, r, hr, hc⟩
  unfold share
  rw [this]; rfl

theorem share_nonneg (hp : ∀ r ∈ rows, 0 ≤ r.pct) (u v : Fin N) : 0 ≤ share rows u v := by
  apply List.sum_nonneg
  intro x hx
  obtain ⟨r, hr, rfl⟩ := List.mem_map.1 hx
  exact hp r (List.mem_of_mem_filter hr)

theorem link_wf (hac : ∀ u : Fin N, ¬ TransGen (Link rows) u u) : WellFounded (Link rows (N := N)) := by
  have : Std.Irrefl (TransGen (Link rows (N := N))) := ⟨hac⟩
  exact Subrelation.wf (r := TransGen (Link rows (N := N))) (fun h => TransGen.single h)
    (Finite.wellFounded_of_trans_of_irrefl _)

/-- If the links run in no circle, the water every cell gets is determined. -/
theorem C170_unique (hac : ∀ u : Fin N, ¬ TransGen (Link rows) u u) (rain : Fin N → K) :
    ∃! Q, Routed rows rain Q := by
  classical
  have wf := link_wf hac
  let F : Fin N → K := wf.fix fun v IH =>
    rain v + ∑ u ∈ Finset.univ.filter (· ≠ v), if h : Link rows u v then share rows u v * IH u h else 0
  have hF : ∀ v, F v = rain v + ∑ u ∈ Finset.univ.filter (· ≠ v), if Link rows u v then share rows u v * F u else 0 := by
    intro v
    show wf.fix _ v = _
    rw [WellFounded.fix_eq]
    congr 1
  refine ⟨F, fun v => ?_, fun Q hQ => funext fun v => ?_⟩
  · rw [hF v]
    congr 1
    refine Finset.sum_congr rfl fun u hu => ?_
    split
    · rfl
    · rename_i h
      rw [share_of_not_link (Finset.mem_filter.1 hu).2 h, zero_mul]
  · induction v using wf.induction with
    | _ v ih =>
      rw [hQ v, hF v]
      congr 1
      refine Finset.sum_congr rfl fun u hu => ?_
      split
      · rename_i h; rw [ih u h]
      · rename_i h
        rw [share_of_not_link (Finset.mem_filter.1 hu).2 h, zero_mul]

theorem routed_nonneg (hac : ∀ u : Fin N, ¬ TransGen (Link rows) u u) (hp : ∀ r ∈ rows, 0 ≤ r.pct)
    (hr : ∀ n, 0 ≤ rain n) (hQ : Routed rows rain Q) (v : Fin N) : rain v ≤ Q v := by
  have key : ∀ v, 0 ≤ Q v := by
    intro v
    induction v using (link_wf hac).induction with
    | _ v ih =>
      rw [hQ v]
      refine add_nonneg (hr v) (Finset.sum_nonneg fun u hu => ?_)
      by_cases h : Link rows u v
      · exact mul_nonneg (share_nonneg hp u v) (ih u h)
      · rw [share_of_not_link (Finset.mem_filter.1 hu).2 h, zero_mul]
  rw [hQ v]
  exact le_add_of_nonneg_right (Finset.sum_nonneg fun u _ => mul_nonneg (share_nonneg hp u v) (key u))

/-- What cells do not pass on is what has fallen as rain. -/
theorem C170_balance (hQ : Routed rows rain Q) : ∑ u, (1 - passed rows u) * Q u = ∑ u, rain u := by
  have h1 : ∑ v, Q v = ∑ v, rain v + ∑ u, passed rows u * Q u := by
    calc ∑ v, Q v = ∑ v, (rain v + ∑ u ∈ Finset.univ.filter (· ≠ v), share rows u v * Q u) :=
          Finset.sum_congr rfl fun v _ => hQ v
      _ = ∑ v, rain v + ∑ v, ∑ u ∈ Finset.univ.filter (· ≠ v), share rows u v * Q u := Finset.sum_add_distrib
      _ = _ := by
        congr 1
        simp only [Finset.sum_filter, passed, Finset.sum_mul]
        rw [Finset.sum_comm]
        refine Finset.sum_congr rfl fun u _ => Finset.sum_congr rfl fun v _ => ?_
        by_cases h : u = v
        · simp [h]
        · simp [h, Ne.symm h]
  simp only [sub_mul, one_mul, Finset.sum_sub_distrib]
  rw [h1]; ring

/-- what a cell passes on, from its rows: if they all name cells of the grid, and none the cell itself -/
theorem passed_eq {u : Fin N} (hv : ∀ r ∈ Casc.rowsOf rows u, ∃ v : Fin N, v ≠ u ∧ r.down = ((v : ℕ) : ℤ) + 1) :
    passed rows u = ((Casc.rowsOf rows u).map Casc.Row.pct).sum := by
  have hs : ∀ v, share rows u v =
      (((Casc.rowsOf rows u).filter fun r => r.down = ((v : ℕ) : ℤ) + 1).map Casc.Row.pct).sum := by
    intro v
    unfold share Casc.rowsOf
    rw [List.filter_filter]
    congr 2
    apply List.filter_congr
    intro r _
    by_cases h1 : r.up = ((u : ℕ) : ℤ) + 1 <;> by_cases h2 : r.down = ((v : ℕ) : ℤ) + 1 <;> simp [h1, h2]
  unfold passed
  simp only [hs]
  generalize Casc.rowsOf rows u = l at hv
  induction l with
  | nil => simp
  | cons r l ih =>
    obtain ⟨w, hw, hd⟩ := hv r (by simp)
    rw [List.map_cons, List.sum_cons, ← ih (fun r hr => hv r (by simp [hr]))]
    have : ∀ v : Fin N, (((r :: l).filter fun r => r.down = ((v : ℕ) : ℤ) + 1).map Casc.Row.pct).sum =
        (if v = w then r.pct else 0) + ((l.filter fun r => r.down = ((v : ℕ) : ℤ) + 1).map Casc.Row.pct).sum := by
      intro v
      by_cases h : v = w
      · subst h
        rw [List.filter_cons_of_pos (by simpa using hd)]
        simp
      · rw [List.filter_cons_of_neg (by
          rw [decide_eq_true_eq, hd]
          intro hc; exact h (Fin.ext (by omega)))]
        simp [h]
    simp only [this, Finset.sum_add_distrib]
    congr 1
    rw [Finset.sum_ite_eq', if_pos (by simp [hw])]

theorem passed_nil {u : Fin N} (h : ∀ r ∈ Casc.rowsOf rows u, r.down = r.up) : passed rows u = 0 := by
  unfold passed
  refine Finset.sum_eq_zero fun v hv => ?_
  apply share_of_not_link (Ne.symm (Finset.mem_filter.1 hv).2)
  rintro ⟨hne, r, hr, h1, h2⟩
  have := h r (List.mem_filter.2 ⟨hr, by simpa using h1⟩)
  exact hne (Fin.ext (by omega))

end Table

/-! ### Many-to-many -/

section Many

variable {G : Dirs.Geo N K} {dem : Fin N → Option K} {thr big : K} {nbr : Fin N → List (Fin N)}
  {o o' : Reach.Obj N} {d : Fin N → Fin N} {arg : Option (Fin N → ℤ)} {sa : Fin N → ℤ} {active : Fin N → Bool}
  {limit : ℕ} {rows : List (Casc.Row K)} {rain Q : Fin N → K}

/-- slopes are negative just towards lower neighbours -/
theorem slope_iff (hs : Dirs.Sound G dem nbr) {n m : Fin N} :
    (∃ s, (m, some s) ∈ slopeTable G dem thr big nbr n ∧ s < 0) ↔ m ∈ nbr n ∧ Lower dem n m := by
  constructor
  · rintro ⟨s, h1, h2⟩; exact lower_of_slope hs h1 h2
  · rintro ⟨hm, x, y, hx, hy, hlt⟩
    refine ⟨G.rnd (G.rnd (y - x) / G.dist n m), List.mem_map.2 ⟨m, hm, ?_⟩, hs.falls n m hm x y hx hy hlt⟩
    rw [Prod.mk.injEq]
    refine ⟨rfl, Dirs.slopeTo_some.2 ⟨x, y, hx, hy, ?_⟩⟩
    rw [hs.rise_of_lt hlt]

theorem Lower.ne {u v : Fin N} (h : Lower dem u v) : v ≠ u := by
  rintro rfl
  obtain ⟨a, b, ha, hb, hlt⟩ := h
  rw [ha] at hb; cases hb
  exact lt_irrefl _ hlt

/-- where water stays: outside the boundary; in a stream cell that flows to itself or out of the boundary; in
landscape cells all of whose lower neighbours are inside the boundary and flow into cell 0 (or that have none) -/
def Stays (fdir : Fin N → ℤ) (d : Fin N → Fin N) (sa : Fin N → ℤ) (active : Fin N → Bool) (dem : Fin N → Option K)
    (nbr : Fin N → List (Fin N)) (n : Fin N) : Prop :=
  active n = false ∨ (0 < sa n ∧ (d n = n ∨ active (d n) = false)) ∨
    (sa n = 0 ∧ ∀ m ∈ nbr n, Lower dem n m → active m = true ∧ fdir m = 0)

/-- a cell passes on all its water, or none -/
theorem passed_many (hs : Dirs.Sound G dem nbr) (hl : Legal o.fdir d) (hg : Casc.Given o arg sa)
    (hpos : ∀ n, 0 ≤ sa n) (hfew : ∀ n, (nbr n).length < 100)
    (h : Casc.getCascades limit (slopeTable G dem thr big nbr) o arg active true = .ok (o', rows)) (n : Fin N) :
    (Stays o.fdir d sa active dem nbr n → passed rows n = 0) ∧ (¬ Stays o.fdir d sa active dem nbr n → passed rows n = 1) := by
  have h9 : ∀ n, o.fdir n ≠ -9 := fun n => by rw [hl n]; omega
  have hrow : ∀ r ∈ Casc.rowsOf rows n, active n = true ∧
      (0 < sa n → r.pct = 1 ∧ ((active (d n) = true ∧ r.down = o.fdir n + 1) ∨
        (active (d n) = false ∧ r.down = r.up))) ∧
      (sa n = 0 → ∃ c : Fin N, r.down = ((c : ℕ) : ℤ) + 1 ∧ Casc.Drains o.fdir active c ∧ c ∈ nbr n ∧ Lower dem n c) := by
    intro r hr
    obtain ⟨hr1, hr2⟩ := List.mem_filter.1 hr
    rw [decide_eq_true_eq] at hr2
    obtain ⟨n', e, k1, k2, k3⟩ := Casc.C64_rows_partial hl.resolves h9 hg h hr1
    have : n' = n := Fin.ext (by omega)
    subst this
    refine ⟨k1, k2, fun h0 => ?_⟩
    obtain ⟨c, c1, c2, s, c3, c4⟩ := k3 h0
    exact ⟨c, c1, c2, (slope_iff hs).1 ⟨s, c3, c4⟩⟩
  have hself : ∀ r ∈ Casc.rowsOf rows n, r.up = ((n : ℕ) : ℤ) + 1 := fun r hr => by
    simpa using (List.mem_filter.1 hr).2
  by_cases ha : active n = true
  swap
  · have hno : Casc.rowsOf rows n = [] := by
      rw [List.eq_nil_iff_forall_not_mem]
      intro r hr; exact ha (hrow r hr).1
    refine ⟨fun _ => passed_nil (by rw [hno]; simp), fun hc => absurd (.inl (by simpa using ha)) hc⟩
  rcases (hpos n).lt_or_eq with hst | hland
  · by_cases hd : d n = n ∨ active (d n) = false
    · refine ⟨fun _ => passed_nil fun r hr => ?_, fun hc => absurd (.inr (.inl ⟨hst, hd⟩)) hc⟩
      rcases ((hrow r hr).2.1 hst).2 with ⟨k1, k2⟩ | ⟨_, k2⟩
      · rcases hd with hd | hd
        · rw [k2, hself r hr, hl n, hd]
        · rw [hd] at k1; cases k1
      · exact k2
    · push Not at hd
      have had : active (d n) = true := by simpa using hd.2
      refine ⟨fun hc => ?_, fun _ => ?_⟩
      · rcases hc with hc | ⟨_, hc⟩ | ⟨hc, _⟩
        · rw [ha] at hc; cases hc
        · exact absurd hc (by push Not; exact ⟨hd.1, by simp [had]⟩)
        · omega
      · rw [passed_eq (fun r hr => ?_)]
        · obtain ⟨sa', links, h1, h2, h3⟩ := Casc.getCascades_inv h
          simp only [if_true] at h2
          have hst' := (Casc.given_sign hl.resolves hg h1 n).2 hst
          rw [Casc.rowsOf_pct h3, Casc.links_of hl.resolves h9 h2]
          unfold Casc.manySpec
          rw [if_neg (by simp [ha]), if_pos hst']
          simp
        · rcases ((hrow r hr).2.1 hst).2 with ⟨k1, k2⟩ | ⟨k1, _⟩
          · exact ⟨d n, hd.1, by rw [k2, hl n]⟩
          · rw [had] at k1; cases k1
  · have hland : sa n = 0 := hland.symm
    have hdr : ∀ m, ¬ Casc.Drains o.fdir active m ↔ active m = true ∧ o.fdir m = 0 := by
      intro m; unfold Casc.Drains; push Not; simp
    refine ⟨fun hc => ?_, fun hc => ?_⟩
    · have hc' : ∀ m ∈ nbr n, Lower dem n m → active m = true ∧ o.fdir m = 0 := by
        rcases hc with hc | ⟨hc, _⟩ | ⟨_, hc⟩
        · rw [ha] at hc; cases hc
        · omega
        · exact hc
      have hno : Casc.rowsOf rows n = [] := by
        rw [List.eq_nil_iff_forall_not_mem]
        intro r hr
        obtain ⟨c, _, c2, c3, c4⟩ := (hrow r hr).2.2 hland
        exact (hdr c).2 (hc' c c3 c4) c2
      exact passed_nil (by rw [hno]; simp)
    · have : ∃ m ∈ nbr n, Lower dem n m ∧ Casc.Drains o.fdir active m := by
        by_contra hx
        push Not at hx
        exact hc (.inr (.inr ⟨hland, fun m hm hlow => (hdr m).1 (hx m hm hlow)⟩))
      obtain ⟨m, hm, hlow, hmd⟩ := this
      obtain ⟨s, hs1, hs2⟩ := (slope_iff (thr := thr) (big := big) hs).2 ⟨hm, hlow⟩
      rw [passed_eq (fun r hr => ?_)]
      · exact (Casc.C63_rows_partial hl.resolves h9 hg h ha hland ⟨m, s, hs1, hs2, hmd⟩
          (by simpa [slopeTable] using hfew n)).2
      · obtain ⟨c, c1, _, _, c4⟩ := (hrow r hr).2.2 hland
        exact ⟨c, c4.ne, c1⟩

open Classical in
/-- **C170**, many-to-many, exactly.  On flow directions that run downhill, with any boundary and any streams, the water
routed along the many-to-many cascades is determined, and all the rain ends up in the cells that pass on nothing:
outside the boundary, where a stream ends or leaves the boundary, and in the landscape cells without a lower neighbour
(outside the boundary or) flowing elsewhere than into cell 0. -/
theorem C170_exact (hs : Dirs.Sound G dem nbr) (hl : Legal o.fdir d) (hfall : ∀ n, d n ≠ n → Lower dem n (d n))
    (hg : Casc.Given o arg sa) (hpos : ∀ n, 0 ≤ sa n) (hfew : ∀ n, (nbr n).length < 100)
    (h : Casc.getCascades limit (slopeTable G dem thr big nbr) o arg active true = .ok (o', rows)) (rain : Fin N → K) :
    ∃ Q, (∀ Q', Routed rows rain Q' ↔ Q' = Q) ∧
      ∑ n ∈ Finset.univ.filter (Stays o.fdir d sa active dem nbr), Q n = ∑ n, rain n := by
  obtain ⟨Q, hQ, huniq⟩ := C170_unique (C148_no_circles hs hl hfall h) rain
  refine ⟨Q, fun Q' => ⟨huniq Q', fun e => e ▸ hQ⟩, ?_⟩
  rw [← C170_balance hQ, Finset.sum_filter]
  refine Finset.sum_congr rfl fun n _ => ?_
  obtain ⟨k1, k2⟩ := passed_many hs hl hg hpos hfew h n
  split
  · rename_i hc; rw [k1 hc]; ring
  · rename_i hc; rw [k2 hc]; ring

/-- all fractions of the many-to-many table are positive -/
theorem pct_pos (hs : Dirs.Sound G dem nbr) (hl : Legal o.fdir d) (hg : Casc.Given o arg sa)
    (hpos : ∀ n, 0 ≤ sa n) (hfew : ∀ n, (nbr n).length < 100)
    (h : Casc.getCascades limit (slopeTable G dem thr big nbr) o arg active true = .ok (o', rows)) :
    ∀ r ∈ rows, 0 < r.pct := by
  have h9 : ∀ n, o.fdir n ≠ -9 := fun n => by rw [hl n]; omega
  intro r hr
  obtain ⟨n, e, k1, k2, k3⟩ := Casc.C64_rows_partial hl.resolves h9 hg h hr
  rcases (hpos n).lt_or_eq with hst | hland
  · rw [(k2 hst).1]; exact one_pos
  · obtain ⟨c, c1, c2, s, c3, c4⟩ := k3 hland.symm
    exact (Casc.C63_rows_partial hl.resolves h9 hg h k1 hland.symm ⟨c, s, c3, c4, c2⟩
      (by simpa [slopeTable] using hfew n)).1 r (List.mem_filter.2 ⟨hr, by simpa using e⟩)

open Classical in
/-- **C170** (partial), many-to-many without boundary: if no landscape cell has all its lower neighbours flowing into
cell 0, all rain arrives at the cells that flow to themselves (those on a stream, and those without a lower neighbour).
Missing: the case of `C170_refuted`. -/
theorem C170_partial (hs : Dirs.Sound G dem nbr) (hl : Legal o.fdir d)
    (hfall : ∀ n, d n ≠ n → d n ∈ nbr n ∧ Lower dem n (d n))
    (hg : Casc.Given o arg sa) (hpos : ∀ n, 0 ≤ sa n) (hfew : ∀ n, (nbr n).length < 100)
    (h : Casc.getCascades limit (slopeTable G dem thr big nbr) o arg (fun _ => true) true = .ok (o', rows))
    (h0 : ∀ n, sa n = 0 → (∃ m ∈ nbr n, Lower dem n m) → ∃ m ∈ nbr n, Lower dem n m ∧ o.fdir m ≠ 0)
    (hQ : Routed rows rain Q) :
    ∑ n ∈ Finset.univ.filter (fun n => d n = n ∧ (0 < sa n ∨ ∀ m ∈ nbr n, ¬ Lower dem n m)), Q n = ∑ n, rain n := by
  obtain ⟨Q', huniq, hsum⟩ := C170_exact hs hl (fun n hn => (hfall n hn).2) hg hpos hfew h rain
  obtain rfl := (huniq Q).1 hQ
  rw [← hsum]
  refine Finset.sum_congr ?_ fun _ _ => rfl
  ext n
  simp only [Finset.mem_filter, Finset.mem_univ, true_and]
  constructor
  · rintro ⟨hd, hst | hno⟩
    · exact .inr (.inl ⟨hst, .inl hd⟩)
    · rcases (hpos n).lt_or_eq with hst | hland
      · exact .inr (.inl ⟨hst, .inl hd⟩)
      · exact .inr (.inr ⟨hland.symm, fun m hm hlow => absurd hlow (hno m hm)⟩)
  · rintro (hc | ⟨hst, hc⟩ | ⟨hland, hc⟩)
    · cases hc
    · rcases hc with hc | hc
      · exact ⟨hc, .inl hst⟩
      · cases hc
    · have hno : ∀ m ∈ nbr n, ¬ Lower dem n m := by
        intro m hm hlow
        obtain ⟨m', a, b, c⟩ := h0 n hland ⟨m, hm, hlow⟩
        exact c (hc m' a b).2
      refine ⟨?_, .inr hno⟩
      by_contra hne
      exact hno _ (hfall n hne).1 (hfall n hne).2

open Classical in
/-- **C170 is false of the code**, many-to-many: rain on a landscape cell whose lower neighbours all flow into cell 0
never arrives anywhere. -/
theorem C170_refuted (hs : Dirs.Sound G dem nbr) (hl : Legal o.fdir d)
    (hfall : ∀ n, d n ≠ n → d n ∈ nbr n ∧ Lower dem n (d n))
    (hg : Casc.Given o arg sa) (hpos : ∀ n, 0 ≤ sa n) (hfew : ∀ n, (nbr n).length < 100)
    (h : Casc.getCascades limit (slopeTable G dem thr big nbr) o arg (fun _ => true) true = .ok (o', rows))
    (hr : ∀ n, 0 ≤ rain n) (hQ : Routed rows rain Q) {n : Fin N} (hn : 0 < rain n) (hland : sa n = 0) (hdn : d n ≠ n)
    (h0 : ∀ m ∈ nbr n, Lower dem n m → o.fdir m = 0) :
    ∑ e ∈ Finset.univ.filter (fun e => d e = e ∧ (0 < sa e ∨ ∀ m ∈ nbr e, ¬ Lower dem e m)), Q e < ∑ u, rain u ∧
      passed rows n = 0 := by
  have hf' : ∀ n, d n ≠ n → Lower dem n (d n) := fun n hn => (hfall n hn).2
  obtain ⟨Q', huniq, hsum⟩ := C170_exact hs hl hf' hg hpos hfew h rain
  obtain rfl := (huniq Q).1 hQ
  have hnn := routed_nonneg (C148_no_circles hs hl hf' h) (fun r hr => (pct_pos hs hl hg hpos hfew h r hr).le) hr hQ
  have hst : Stays o.fdir d sa (fun _ => true) dem nbr n := .inr (.inr ⟨hland, fun m hm hlow => ⟨rfl, h0 m hm hlow⟩⟩)
  refine ⟨?_, (passed_many hs hl hg hpos hfew h n).1 hst⟩
  rw [← hsum]
  refine Finset.sum_lt_sum_of_subset (i := n) (fun u hu => ?_) (by simpa using hst) (by simp [hdn])
    (lt_of_lt_of_le hn (hnn n)) (fun u _ _ => (hr u).trans (hnn u))
  obtain ⟨_, hd, hc⟩ := Finset.mem_filter.1 hu
  refine Finset.mem_filter.2 ⟨Finset.mem_univ _, ?_⟩
  rcases (hpos u).lt_or_eq with hst | hl0
  · exact .inr (.inl ⟨hst, .inl hd⟩)
  · rcases hc with hc | hc
    · omega
    · exact .inr (.inr ⟨hl0.symm, fun m hm hlow => absurd hlow (hc m hm)⟩)

end Many

/-! ### Many-to-one -/

section One

variable {nbs : Fin N → List (Fin N × Option K)}
  {o o' : Reach.Obj N} {d : Fin N → Fin N} {arg : Option (Fin N → ℤ)} {active : Fin N → Bool}
  {limit : ℕ} {rows : List (Casc.Row K)} {rain Q : Fin N → K}

/-- the number of cells that flow to `v` -/
def inflows (d : Fin N → Fin N) (v : Fin N) : ℕ := (Finset.univ.filter fun n => d n = v).card

theorem one_row (hl : Legal o.fdir d)
    (h : Casc.getCascades limit nbs o arg (fun _ => true) false = .ok (o', rows)) {r : Casc.Row K} (hr : r ∈ rows) :
    r.pct = 1 ∧ ∃ m : Fin N, r.up = ((m : ℕ) : ℤ) + 1 ∧ r.down = ((d m : ℕ) : ℤ) + 1 :=
  (Casc.C62_no_boundary hl h r.up r.down r.pct).1 ⟨r.strmseg, hr⟩

theorem one_link (hl : Legal o.fdir d)
    (h : Casc.getCascades limit nbs o arg (fun _ => true) false = .ok (o', rows)) {u v : Fin N} :
    Link rows u v ↔ u ≠ v ∧ d u = v := by
  constructor
  · rintro ⟨hne, r, hr, h1, h2⟩
    obtain ⟨_, m, e1, e2⟩ := one_row hl h hr
    have : m = u := Fin.ext (by omega)
    subst this
    exact ⟨hne, Fin.ext (by omega)⟩
  · rintro ⟨hne, rfl⟩
    obtain ⟨s, hs⟩ := (Casc.C62_no_boundary hl h (((u : ℕ) : ℤ) + 1) (((d u : ℕ) : ℤ) + 1) 1).2 ⟨rfl, u, rfl, rfl⟩
    exact ⟨hne, _, hs, rfl, rfl⟩

theorem one_acyclic {rows' : List (Casc.Row K)} (hac : ∀ n, ¬ OnCycle d n)
    (hlink : ∀ u v : Fin N, Link rows' u v ↔ u ≠ v ∧ d u = v) (u : Fin N) :
    ¬ TransGen (Link rows') u u := by
  have key : ∀ u v, TransGen (Link rows') u v → Reaches d u v ∧ u ≠ v := by
    intro u v h
    induction h with
    | single h =>
      obtain ⟨hne, rfl⟩ := (hlink _ _).1 h
      exact ⟨Reaches.step _, hne⟩
    | @tail b c _ h ih =>
      obtain ⟨hne, rfl⟩ := (hlink _ _).1 h
      refine ⟨ih.1.trans (Reaches.step _), fun he => ?_⟩
      rw [he] at ih
      exact hne ((Reaches.step b).antisymm (hac _) ih.1)
  exact fun h => (key u u h).2 rfl

/-- the fraction the many-to-one table passes on along a flow direction is the number of cells flowing to the same cell -/
theorem one_share (hl : Legal o.fdir d)
    (h : Casc.getCascades limit nbs o arg (fun _ => true) false = .ok (o', rows)) (u : Fin N) :
    share rows u (d u) = (inflows d (d u) : K) := by
  have h9 : ∀ n, o.fdir n ≠ -9 := fun n => by rw [hl n]; omega
  have h1 : rows.filter (fun r => r.up = ((u : ℕ) : ℤ) + 1 ∧ r.down = ((d u : ℕ) : ℤ) + 1) =
      rows.filter (fun r => r.up = ((u : ℕ) : ℤ) + 1) := by
    apply List.filter_congr
    intro r hr
    obtain ⟨_, m, e1, e2⟩ := one_row hl h hr
    by_cases hu : r.up = ((u : ℕ) : ℤ) + 1
    · have : m = u := Fin.ext (by omega)
      subst this
      simp [hu, e2]
    · simp [hu]
  have h2 : ∀ l : List (Casc.Row K), (∀ r ∈ l, r.pct = 1) → (l.map Casc.Row.pct).sum = (l.length : K) := by
    intro l
    induction l with
    | nil => simp
    | cons r l ih =>
      intro hl
      rw [List.map_cons, List.sum_cons, ih (fun r hr => hl r (by simp [hr])), hl r (by simp), List.length_cons]
      push_cast; ring
  unfold share
  rw [h1, h2 _ (fun r hr => (one_row hl h (List.mem_of_mem_filter hr)).1)]
  congr 1
  have h3 := (Casc.C61_multiplicity_partial hl.resolves h9 h u).1 rfl
  rw [if_pos rfl] at h3
  have h4 : (rows.map Casc.Row.up).count (((u : ℕ) : ℤ) + 1) =
      (rows.filter (fun r => r.up = ((u : ℕ) : ℤ) + 1)).length := by
    rw [List.count, List.countP_map, List.countP_eq_length_filter]
    congr 1
  rw [← h4, h3]
  unfold inflows
  congr 1
  ext n
  simp only [Finset.mem_filter, Finset.mem_univ, true_and, hl n, hl u]
  exact ⟨fun e => Fin.ext (by omega), fun e => by rw [e]⟩

/-- **C170**, many-to-one, exactly: what a cell receives is multiplied by the number of cells flowing to it (itself
included if it flows to itself). -/
theorem C170_one_exact (hl : Legal o.fdir d) (hac : ∀ n, ¬ OnCycle d n)
    (h : Casc.getCascades limit nbs o arg (fun _ => true) false = .ok (o', rows)) (rain : Fin N → K) :
    (∃! Q, Routed rows rain Q) ∧ ∀ Q, Routed rows rain Q ↔
      ∀ v, Q v = rain v + (inflows d v : K) * ∑ u ∈ Finset.univ.filter (fun u => d u = v ∧ u ≠ v), Q u := by
  refine ⟨C170_unique (one_acyclic hac fun u v => one_link hl h) rain, fun Q => forall_congr' fun v => ?_⟩
  have : ∑ u ∈ Finset.univ.filter (· ≠ v), share rows u v * Q u =
      (inflows d v : K) * ∑ u ∈ Finset.univ.filter (fun u => d u = v ∧ u ≠ v), Q u := by
    rw [Finset.mul_sum, Finset.sum_filter, Finset.sum_filter]
    refine Finset.sum_congr rfl fun u _ => ?_
    by_cases hne : u = v
    · simp [hne]
    · by_cases hd : d u = v
      · subst hd
        rw [if_pos hne, if_pos ⟨rfl, hne⟩, one_share hl h]
      · rw [if_pos hne, if_neg (by tauto), share_of_not_link hne (fun hc => hd ((one_link hl h).1 hc).2), zero_mul]
  rw [this]

/-- **C170 is false of the code**, many-to-one: as soon as rain falls on a cell that flows to another one, more water
arrives at the cells that flow to themselves than has fallen. -/
theorem C170_one_refuted (hl : Legal o.fdir d) (hac : ∀ n, ¬ OnCycle d n)
    (h : Casc.getCascades limit nbs o arg (fun _ => true) false = .ok (o', rows))
    (hr : ∀ n, 0 ≤ rain n) (hQ : Routed rows rain Q) {n : Fin N} (hn : 0 < rain n) (hdn : d n ≠ n) :
    ∑ u, rain u < ∑ e ∈ Finset.univ.filter (fun e => d e = e), Q e := by
  have hac' := one_acyclic hac fun u v => one_link hl h
  have hnn := routed_nonneg hac' (fun r hr => by rw [(one_row hl h hr).1]; exact zero_le_one) hr hQ
  have hQ0 : ∀ u, 0 ≤ Q u := fun u => (hr u).trans (hnn u)
  have hrec := ((C170_one_exact hl hac h rain).2 Q).1 hQ
  have hin : ∀ u, (1 : K) ≤ (inflows d (d u) : K) := fun u => by
    have : 0 < inflows d (d u) := Finset.card_pos.2 ⟨u, by simp⟩
    exact_mod_cast this
  -- what is passed on
  have hpass : ∀ u, passed rows u = if d u = u then 0 else (inflows d (d u) : K) := by
    intro u
    split
    · rename_i hd
      apply passed_nil
      intro r hr
      obtain ⟨hr1, hr2⟩ := List.mem_filter.1 hr
      rw [decide_eq_true_eq] at hr2
      obtain ⟨_, m, e1, e2⟩ := one_row hl h hr1
      have : m = u := Fin.ext (by omega)
      subst this
      rw [e2, e1, hd]
    · rename_i hd
      unfold passed
      rw [Finset.sum_eq_single (d u)]
      · exact one_share hl h u
      · intro v hv hne
        exact share_of_not_link (Ne.symm (Finset.mem_filter.1 hv).2) (fun hc => hne ((one_link hl h).1 hc).2.symm)
      · intro hc; exact absurd (by simp [hd]) hc
  -- the last cell before the outlet
  have hlast : ∃ u, d u ≠ u ∧ d (d u) = d u ∧ 0 < Q u := by
    have : ∀ k (n : Fin N), N - (upstream d n).card ≤ k → d n ≠ n → 0 < Q n → ∃ u, d u ≠ u ∧ d (d u) = d u ∧ 0 < Q u := by
      intro k
      induction k with
      | zero =>
        intro n hk hdn _
        have hlt := Finset.card_lt_card (upstream_ssubset (hac _) (Reaches.step n) (Ne.symm hdn))
        have := Finset.card_le_univ (upstream d (d n))
        simp only [Fintype.card_fin] at this
        omega
      | succ k ih =>
        intro n hk hdn hp
        by_cases hf : d (d n) = d n
        · exact ⟨n, hdn, hf, hp⟩
        · have hlt := Finset.card_lt_card (upstream_ssubset (hac _) (Reaches.step n) (Ne.symm hdn))
          have := Finset.card_le_univ (upstream d (d n))
          simp only [Fintype.card_fin] at this
          refine ih (d n) (by omega) hf ?_
          rw [hrec (d n)]
          refine add_pos_of_nonneg_of_pos (hr _) (mul_pos (lt_of_lt_of_le one_pos (hin n)) ?_)
          exact lt_of_lt_of_le hp (Finset.single_le_sum (f := Q) (fun u _ => hQ0 u)
            (Finset.mem_filter.2 ⟨Finset.mem_univ _, rfl, Ne.symm hdn⟩))
    exact this _ n le_rfl hdn (lt_of_lt_of_le hn (hnn n))
  obtain ⟨u, hu1, hu2, hu3⟩ := hlast
  rw [← C170_balance hQ, Finset.sum_filter]
  apply Finset.sum_lt_sum
  · intro v _
    rw [hpass]
    split
    · linarith
    · nlinarith [hQ0 v, hin v]
  · refine ⟨u, Finset.mem_univ _, ?_⟩
    rw [hpass, if_neg hu1, if_neg hu1]
    have h2 : (2 : K) ≤ (inflows d (d u) : K) := by
      have : 1 < inflows d (d u) := Finset.one_lt_card.2 ⟨u, by simp, d u, by simp [hu2], Ne.symm hu1⟩
      exact_mod_cast this
    nlinarith

/-- **C170** (partial), many-to-one: read without its repeated rows, the table routes exactly what `flow_accumulation`
accumulates.  Missing: the table as it is (`C170_one_refuted`). -/
theorem C170_one_partial (hl : Legal o.fdir d) (hac : ∀ n, ¬ OnCycle d n)
    (h : Casc.getCascades limit nbs o arg (fun _ => true) false = .ok (o', rows))
    (hQ : Routed rows.dedup rain Q) {fuel : ℕ} {facc : Fin N → K}
    (hf : Acc.flowAccumulation fuel o.fdir rain false = .ok facc) : Q = facc := by
  have hlink : ∀ u v : Fin N, Link rows.dedup u v ↔ u ≠ v ∧ d u = v := by
    intro u v
    rw [← one_link hl h]
    simp only [Link, List.mem_dedup]
  have hone : ∀ u, share rows.dedup u (d u) = 1 := by
    intro u
    obtain ⟨sa', links, -, -, h3⟩ := Casc.getCascades_inv h
    have hseg : ∀ r ∈ rows, ∃ j, pyIndex N (r.down - 1) = .ok j ∧ r.strmseg = sa' j := by
      have := Casc.finishRows_inv h3
      clear hQ hlink h h3
      induction this with
      | nil => simp
      | @cons l r ls rs hlr _ ih =>
        intro x hx
        rcases List.mem_cons.1 hx with rfl | hx
        · obtain ⟨_, e2, _, j, e4, e5⟩ := hlr
          exact ⟨j, by rw [e2, add_sub_cancel_right]; exact e4, e5⟩
        · exact ih x hx
    obtain ⟨s0, hs0⟩ := (Casc.C62_no_boundary hl h (((u : ℕ) : ℤ) + 1) (((d u : ℕ) : ℤ) + 1) 1).2 ⟨rfl, u, rfl, rfl⟩
    set l := rows.dedup.filter (fun r => r.up = ((u : ℕ) : ℤ) + 1 ∧ r.down = ((d u : ℕ) : ℤ) + 1) with hldef
    have hall : ∀ r ∈ l, r = ⟨((u : ℕ) : ℤ) + 1, ((d u : ℕ) : ℤ) + 1, 1, s0⟩ := by
      intro r hr
      obtain ⟨hr1, hr2⟩ := List.mem_filter.1 hr
      rw [decide_eq_true_eq] at hr2
      rw [List.mem_dedup] at hr1
      obtain ⟨j, j1, j2⟩ := hseg _ hr1
      obtain ⟨j', j1', j2'⟩ := hseg _ hs0
      dsimp only at j1' j2'
      rw [hr2.2, j1'] at j1
      cases j1
      have := (one_row hl h hr1).1
      cases r
      dsimp only at hr2 j2 this
      rw [hr2.1, hr2.2, this, j2, j2']
    have hmem : (⟨((u : ℕ) : ℤ) + 1, ((d u : ℕ) : ℤ) + 1, 1, s0⟩ : Casc.Row K) ∈ l :=
      List.mem_filter.2 ⟨List.mem_dedup.2 hs0, by simp⟩
    have hnd : l.Nodup := (List.nodup_dedup rows).filter _
    have hl1 : l = [⟨((u : ℕ) : ℤ) + 1, ((d u : ℕ) : ℤ) + 1, 1, s0⟩] := by
      have hlen : l.length ≤ 1 := by
        by_contra hc
        push Not at hc
        have e0 := hall l[0] (List.getElem_mem _)
        have e1 := hall l[1] (List.getElem_mem _)
        have := (hnd.getElem_inj_iff (i := 0) (j := 1) (hi := by omega) (hj := by omega)).1 (by rw [e0, e1])
        omega
      match l, hlen, hmem with
      | [x], _, hm => simpa using (List.mem_singleton.1 hm).symm
      | [], _, hm => cases hm
    show (l.map Casc.Row.pct).sum = 1
    rw [hl1]; simp
  have hac' := one_acyclic hac hlink
  obtain ⟨Q', hQ', huniq⟩ := C170_unique hac' rain
  rw [huniq Q hQ]
  symm
  apply huniq
  obtain ⟨R, hF⟩ := Acc.final_of_ok hl.resolves hf
  intro v
  rw [hF.val v]
  simp only [Bool.false_eq_true, if_false]
  congr 1
  unfold Acc.inflow
  have hR : R = Finset.univ.filter (fun u => d u ≠ u) := by
    ext u
    simp only [Finset.mem_filter, Finset.mem_univ, true_and]
    exact ⟨fun hu => (hF.nocyc u hu).2, fun hu => hF.all u (hac u) hu⟩
  rw [hR, Finset.sum_filter, Finset.sum_filter, Finset.sum_filter]
  refine Finset.sum_congr rfl fun u _ => ?_
  by_cases hd : d u = v
  · subst hd
    by_cases hne : d u = u
    · rw [if_neg (by simp [hne]), if_neg (by simp [hne])]
    · rw [if_pos hne, if_pos rfl, if_pos (Ne.symm hne), hone, one_mul]
  · rw [if_neg hd, ite_self]
    by_cases hne : u = v
    · simp [hne]
    · rw [if_pos hne, share_of_not_link hne (fun hc => hd ((hlink _ _).1 hc).2), zero_mul]

end One

/-! ### At the end of the chain -/

section Chain

variable {g : Flood.Grid N} {G : Dirs.Geo N K} {mask : Option (Fin N → Bool)} {demo f : Fin N → K} {raise : K → K}
  {flood thr big : K} {method : String} {terminals : List ℤ} {fuel fuel' limit : ℕ} {out : Fin N → ℤ}
  {o o' : Reach.Obj N} {arg : Option (Fin N → ℤ)} {sa : Fin N → ℤ} {rows : List (Casc.Row K)} {rain Q : Fin N → K}

open Classical in
/-- **C170** (partial) at the end of the chain of C99: fill sinks, route, delineate any streams, make many-to-many
cascades.  If no landscape cell has all its lower neighbours flowing into cell 0, all rain arrives at outlets of the
grid. -/
theorem C170_chain_partial (hN : N < 1000000) (hstrict : ∀ x, x < raise x)
    (heff : Flood.effective mask method = .priority)
    (hfill : Flood.fillSinks fuel raise flood g demo mask method = .ok f)
    (hg : GoodGrid g mask) (he : GoodEnds g mask f terminals) (hs : Dirs.Sound G (Dirs.filled f) (nbrs g))
    (hb : Dirs.Below G (Dirs.filled f) thr big (nbrs g))
    (hend : Dirs.CleanEnds G (Dirs.filled f) thr terminals (nbrs g))
    (hrun : Dirs.flowDirections fuel' G (Dirs.filled f) big (Dirs.table (nbrs g)) thr terminals = .ok out)
    (ho : o.fdir = out) (hgv : Casc.Given o arg sa) (hpos : ∀ n, 0 ≤ sa n) (hfew : ∀ n, (nbrs g n).length < 100)
    (h : Casc.getCascades limit (slopeTable G (Dirs.filled f) thr big (nbrs g)) o arg (fun _ => true) true =
      .ok (o', rows))
    (h0 : ∀ n, sa n = 0 → (∃ m ∈ nbrs g n, f m < f n) → ∃ m ∈ nbrs g n, f m < f n ∧ out m ≠ 0) (rain : Fin N → K) :
    ∃ Q, (∀ Q', Routed rows rain Q' ↔ Q' = Q) ∧
      ∑ n ∈ Finset.univ.filter (fun n => out n = ((n : ℕ) : ℤ) ∧ Flood.Outlet g mask n ∧
        (0 < sa n ∨ ∀ m ∈ nbrs g n, f n ≤ f m)), Q n = ∑ n, rain n := by
  subst ho
  obtain ⟨d, h1, h2⟩ := C99_network hN hstrict heff hfill hg he hs hb hend hrun
  have hlow : ∀ n m, Lower (Dirs.filled f) n m ↔ f m < f n := by
    intro n m
    constructor
    · rintro ⟨a, c, ha, hc, hlt⟩
      simp only [Dirs.filled, Option.some.injEq] at ha hc
      rw [ha, hc]; exact hlt
    · exact fun h => ⟨_, _, rfl, rfl, h⟩
  have hfall : ∀ n, d n ≠ n → d n ∈ nbrs g n ∧ Lower (Dirs.filled f) n (d n) := fun n hn =>
    ⟨mem_inRange.2 (h2 n hn).1, (hlow _ _).2 (h2 n hn).2⟩
  obtain ⟨Q, hQ, huniq⟩ := C170_unique (C148_no_circles hs h1.legal (fun n hn => (hfall n hn).2) h) rain
  refine ⟨Q, fun Q' => ⟨huniq Q', fun e => e ▸ hQ⟩, ?_⟩
  rw [← C170_partial hs h1.legal hfall hgv hpos hfew h (by simpa only [hlow] using h0) hQ]
  refine Finset.sum_congr ?_ fun _ _ => rfl
  ext n
  simp only [Finset.mem_filter, Finset.mem_univ, true_and, hlow, not_lt]
  constructor
  · rintro ⟨e, _, k⟩
    exact ⟨Fin.ext (by have := h1.legal n; omega), k⟩
  · rintro ⟨e, k⟩
    exact ⟨by rw [h1.legal n, e], h1.fixed n e, k⟩

end Chain

end Dany.Pipe
