import Verif.Rdata.Props

/-!
# C165: the outlet segment of segment data
-/

namespace Dany.Rdata

open Reach Seg Relation

variable {N : ℕ} {K : Type*} [Zero K] {limit fuel : ℕ} {o o' : Obj N} {arg : Option (Fin N → ℤ)}
  {sa : Fin N → ℤ} {tbl : List (SRow K)} {grp : Bool}

/-- the table of a new object is the graph of the network of the array given or stored -/
theorem segmentData_fresh (hf : N ≤ fuel) (hn : o.net = none) (hsa : o.source arg = .ok sa)
    (h : o.segmentData K limit fuel arg grp = .ok (o', tbl)) :
    ∃ out, mf2005 limit fuel false o.fdir sa grp = .ok out ∧
      ∀ s t, (∃ row ∈ tbl, row.nseg = s ∧ row.outseg = t) ↔ out.sg.get? s = some t := by
  have hs : o.Sound limit fuel := by intro net h'; rw [hn] at h'; cases h'
  obtain ⟨sg, nsr, e, _, _, h1, h2⟩ := C73_segment_data (K := K) hf hs h
  obtain ⟨⟨q, net⟩, hq, he⟩ := Res.map_eq_ok.1 h
  unfold Obj.network at hq
  rw [hsa, Res.bind_ok, hn] at hq
  obtain ⟨⟨q1, out⟩, hc, he1⟩ := Res.map_eq_ok.1 hq
  obtain ⟨out', ho, he2⟩ := Res.map_eq_ok.1 hc
  simp only [Prod.mk.injEq] at he he1 he2
  obtain ⟨hq1, rfl⟩ := he2
  refine ⟨out', ho, fun s t => ?_⟩
  have : sg = out'.sg := by
    rw [← he.1, ← he1.1, ← hq1] at e
    exact (Prod.mk.inj (Option.some.inj e)).1.symm
  subst this
  constructor
  · rintro ⟨row, hr, rfl, rfl⟩
    obtain ⟨k, hk⟩ := List.getElem?_of_mem hr
    exact (h1 k row hk).2
  · exact h2 s t

/-- **C165** (what outseg is).  A segment's outseg is 0 exactly if its last cell leaves the stream (flows to
no stream cell), and the segment itself exactly if its last cell flows to its first. -/
theorem C165_exact (hf : N ≤ fuel) (hn : o.net = none) (hsa : o.source arg = .ok sa)
    (h : o.segmentData K limit fuel arg true = .ok (o', tbl)) :
    ∃ out, mf2005 limit fuel false o.fdir sa true = .ok out ∧ ∀ row ∈ tbl, ∃ a l r,
      (a, row.nseg, 1) ∈ out.nsr ∧ (l, row.nseg, r) ∈ out.nsr ∧ (∀ m, (m, row.nseg, r + 1) ∉ out.nsr) ∧
        (row.outseg = 0 ↔ ∀ m, ¬ Feeds o.fdir sa l m) ∧ (row.outseg = row.nseg ↔ Feeds o.fdir sa l a) := by
  obtain ⟨out, ho, ht⟩ := segmentData_fresh hf hn hsa h
  refine ⟨out, ho, fun row hr => ?_⟩
  have hg := (ht row.nseg row.outseg).1 ⟨row, hr, rfl, rfl⟩
  obtain ⟨r1, r2, r3, r4, r5, r6⟩ := C56_rows hf ho
  obtain ⟨n1, n2, n3, n4⟩ := C58_numbers hf ho
  have hkey : row.nseg ∈ out.sg.keys := Dict.mem_keys_iff.2 ⟨_, hg⟩
  have hpos := ((n3 _).1 hkey).1
  -- the first cell
  have hfirst : ∀ (k : ℕ) (n : Fin N), (n, row.nseg, (k : ℤ) + 1) ∈ out.nsr → ∃ a, (a, row.nseg, 1) ∈ out.nsr := by
    intro k
    induction k with
    | zero => intro n hn; exact ⟨n, by simpa using hn⟩
    | succ k ih =>
      intro n hn
      obtain ⟨m, hm, _⟩ := r6 n _ _ hn (by push_cast; omega)
      exact ih m (by simpa using hm)
  -- the last cell
  have hlast : ∀ (k : ℕ) (n : Fin N) (r : ℤ), (n, row.nseg, r) ∈ out.nsr → N + 1 ≤ r.toNat + k →
      ∃ l r, (l, row.nseg, r) ∈ out.nsr ∧ ∀ m, (m, row.nseg, r + 1) ∉ out.nsr := by
    intro k
    induction k with
    | zero =>
      intro n r hn hk
      exfalso
      -- reaches 1 … r of the segment are different cells
      have hall : ∀ j : ℕ, j < r.toNat → ∃ m : Fin N, (m, row.nseg, r - j) ∈ out.nsr := by
        intro j
        induction j with
        | zero => intro _; exact ⟨n, by simpa using hn⟩
        | succ j ih =>
          intro hj
          obtain ⟨m, hm⟩ := ih (by omega)
          obtain ⟨m', hm', _⟩ := r6 m _ _ hm (by omega)
          exact ⟨m', by rw [show r - ((j + 1 : ℕ) : ℤ) = r - j - 1 by push_cast; ring]; exact hm'⟩
      choose f hf' using hall
      have hinj : Function.Injective (fun j : Fin (N + 1) => f j.val (by omega)) := by
        intro x y hxy
        have h1 := hf' x.val (by omega)
        have h2 := hf' y.val (by omega)
        dsimp only at hxy
        rw [hxy] at h1
        have := List.inj_on_of_nodup_map r1 h1 h2 rfl
        simp only [Prod.mk.injEq] at this
        exact Fin.ext (by omega)
      have := Fintype.card_le_of_injective _ hinj
      simp at this
    | succ k ih =>
      intro n r hn hk
      by_cases hex : ∃ m, (m, row.nseg, r + 1) ∈ out.nsr
      · obtain ⟨m, hm⟩ := hex
        have := (r3 _ _ _ hn).2.2
        exact ih m (r + 1) hm (by omega)
      · exact ⟨n, r, hn, fun m hm => hex ⟨m, hm⟩⟩
  obtain ⟨n, r, hnr⟩ := (n4 _).1 hkey
  have hr1 := (r3 _ _ _ hnr).2.2
  obtain ⟨a, ha⟩ := hfirst (r - 1).toNat n (by
    rw [show (((r - 1).toNat : ℕ) : ℤ) + 1 = r by omega]; exact hnr)
  obtain ⟨l, r', hl, hno⟩ := hlast (N + 1) n r hnr (by omega)
  refine ⟨a, l, r', ha, hl, hno, ?_⟩
  rcases C57_outseg hf ho hl with ⟨m, hm, _⟩ | ⟨_, t, ht', hh⟩
  · exact absurd hm (hno m)
  · rw [hg, Option.some.injEq] at ht'
    subst ht'
    rcases hh with ⟨h0, hf0⟩ | ⟨h0, m, hm, hm1⟩
    · exact ⟨⟨fun _ => hf0, fun _ => h0⟩, ⟨fun e => absurd (e ▸ h0) (by omega), fun e => absurd e (hf0 a)⟩⟩
    · refine ⟨⟨fun e => absurd e h0, fun e => absurd hm (e m)⟩, ⟨fun e => ?_, fun e => ?_⟩⟩
      · rw [e] at hm1
        rwa [r5 _ _ _ _ ha hm1]
      · have : m = a := Fin.ext (by have h1 := hm.2.2; have h2 := e.2.2; rw [h1] at h2; exact_mod_cast h2)
        subst this
        rw [← (r3 _ _ _ hm1).2.1, ← (r3 _ _ _ ha).2.1]

/-- **C165 is false of the code.**  Whenever a stream cell flows to itself — as every outlet does in the
directions of `flow_directions` — and receives water from another stream cell, it forms a segment of one reach
whose outseg is not 0 but the segment itself, with the default `group_segments=True`. -/
theorem C165_refuted (hf : N ≤ fuel) (hn : o.net = none) (hsa : o.source arg = .ok sa)
    (h : o.segmentData K limit fuel arg true = .ok (o', tbl)) {n m : Fin N} (hself : Feeds o.fdir sa n n)
    (hm : Feeds o.fdir sa m n) (hne : m ≠ n) :
    ∃ s ≠ 0, ∃ row ∈ tbl, row.nseg = s ∧ row.outseg = s := by
  obtain ⟨out, ho, ht⟩ := segmentData_fresh hf hn hsa h
  obtain ⟨s, hs⟩ := (C57_starts hf ho n).2 (.inr ⟨m, n, hne, hm, hself⟩)
  obtain ⟨r1, r2, r3, r4, r5, r6⟩ := C56_rows hf ho
  have hpos := (((C58_numbers hf ho).2.2.1 s).1 (((C58_numbers hf ho).2.2.2 s).2 ⟨n, 1, hs⟩)).1
  refine ⟨s, by omega, (ht s s).2 ?_⟩
  have honly : ∀ m', Feeds o.fdir sa n m' → m' = n := fun m' hm' =>
    Fin.ext (by have h1 := hm'.2.2; rw [hself.2.2] at h1; exact_mod_cast h1.symm)
  rcases C57_outseg hf ho hs with ⟨m', hm', hfd⟩ | ⟨_, t, ht', ⟨_, hno⟩ | ⟨_, m', hfd, hm'⟩⟩
  · have := honly m' hfd
    subst this
    have := List.inj_on_of_nodup_map r1 hm' hs rfl
    simp at this
  · exact absurd hself (hno n)
  · have := honly m' hfd
    subst this
    have e : t = s := by rw [← (r3 _ _ _ hm').2.1, ← (r3 _ _ _ hs).2.1]
    rw [e] at ht'
    exact ht'

/-- **C165** (true part).  If no stream cell flows to itself and the stream has no circles, or if segments are
not grouped, no segment flows to itself: outseg is 0 or a larger number. -/
theorem C165_partial (hf : N ≤ fuel) (hn : o.net = none) (hsa : o.source arg = .ok sa)
    (hac : ∀ x y, ReflTransGen (Feeds o.fdir sa) x y → ReflTransGen (Feeds o.fdir sa) y x → x = y)
    (hg : grp = false ∨ ∀ n, ¬ Feeds o.fdir sa n n)
    (h : o.segmentData K limit fuel arg grp = .ok (o', tbl)) :
    ∀ row ∈ tbl, row.outseg = 0 ∨ row.nseg < row.outseg := by
  intro row hr
  cases grp with
  | true =>
    have hself := hg.resolve_left (by simp)
    obtain ⟨out, ho, ht⟩ := segmentData_fresh hf hn hsa h
    obtain ⟨out', ho', hx⟩ := C165_exact hf hn hsa h
    rw [ho] at ho'
    obtain rfl := Res.ok.inj ho'
    rcases C58_cells hf ho hac ((ht _ _).1 ⟨row, hr, rfl, rfl⟩) with h0 | h0 | h0
    · exact .inl h0
    · exfalso
      obtain ⟨a, l, r, ha, hl, _, _, he⟩ := hx row hr
      have hla := he.1 h0
      have hal : ReflTransGen (Feeds o.fdir sa) a l := by
        have : ∀ (k : ℕ) (n : Fin N), (n, row.nseg, (k : ℤ) + 1) ∈ out.nsr → ReflTransGen (Feeds o.fdir sa) a n := by
          intro k
          induction k with
          | zero =>
            intro n hn'
            rw [(C56_rows hf ho).2.2.2.2.1 n a _ _ (by simpa using hn') ha]
          | succ k ih =>
            intro n hn'
            obtain ⟨m, hm, hf'⟩ := (C56_rows hf ho).2.2.2.2.2 n _ _ hn' (by push_cast; omega)
            exact (ih m (by simpa using hm)).tail hf'
        have h1 := ((C56_rows hf ho).2.2.1 _ _ _ hl).2.2
        exact this (r - 1).toNat l (by rw [show (((r - 1).toNat : ℕ) : ℤ) + 1 = r by omega]; exact hl)
      have := hac a l hal (.single hla)
      subst this
      exact hself a hla
    · exact .inr h0
  | false =>
    obtain ⟨out, ho, ht⟩ := segmentData_fresh hf hn hsa h
    obtain ⟨L, hl, _, ho'⟩ := mf2005_lift ho
    obtain ⟨out', ho2, _, _, _, _, _, _, _, _, _, hord⟩ := C59_ungrouped (fuel := fuel) hl
    rw [ho'] at ho2
    obtain rfl := Res.ok.inj ho2
    exact hord hac _ _ ((ht _ _).1 ⟨row, hr, rfl, rfl⟩)

/-! ### Concrete cases -/

/-- 0 and 1 meet in 2, which flows to 3, where the water leaves: 3 flows to itself -/
def oY : Obj 4 := ⟨![2, 2, 3, 3], some ![1, 1, 1, 1], none⟩

/-- grouped, the outlet is segment 4 and flows to segment 4; ungrouped, to 0 -/
theorem C165_refuted_concrete :
    (oY.segmentData ℚ 10 10 none true).map (fun r => r.2.map fun s => (s.nseg, s.outseg)) =
      .ok [(1, 3), (2, 3), (3, 4), (4, 4)] ∧
    (oY.segmentData ℚ 10 10 none false).map (fun r => r.2.map fun s => (s.nseg, s.outseg)) =
      .ok [(1, 3), (2, 3), (3, 4), (4, 0)] := ⟨by decide +kernel, by decide +kernel⟩

/-- the hypotheses of `C165_refuted` hold of it -/
example : oY.net = none ∧ oY.source none = .ok ![1, 1, 1, 1] ∧ Feeds oY.fdir ![1, 1, 1, 1] 3 3 ∧
    Feeds oY.fdir ![1, 1, 1, 1] 2 3 := by
  refine ⟨rfl, rfl, ?_, ?_⟩ <;> (unfold Feeds; decide)

/-- the same river leaving the stream in cell 3 -/
def oV : Obj 4 := ⟨![2, 2, 3, -1], some ![1, 1, 1, 1], none⟩

/-- the hypotheses of `C165_partial` hold of it, and there outseg is 0 -/
example : (∀ n, ¬ Feeds oV.fdir ![1, 1, 1, 1] n n) ∧
    (∀ x y, ReflTransGen (Feeds oV.fdir ![1, 1, 1, 1]) x y → ReflTransGen (Feeds oV.fdir ![1, 1, 1, 1]) y x → x = y) ∧
    (oV.segmentData ℚ 10 10 none true).map (fun r => r.2.map fun s => (s.nseg, s.outseg)) =
      .ok [(1, 3), (2, 3), (3, 0)] := by
  have hlt : ∀ a b, Feeds oV.fdir ![1, 1, 1, 1] a b → a < b := by
    unfold Feeds; decide
  have hle : ∀ a b, ReflTransGen (Feeds oV.fdir ![1, 1, 1, 1]) a b → a ≤ b := by
    intro a b h
    induction h with
    | refl => exact le_refl _
    | tail _ h ih => exact ih.trans (hlt _ _ h).le
  exact ⟨fun n h => lt_irrefl _ (hlt n n h), fun x y h1 h2 => le_antisymm (hle _ _ h1) (hle _ _ h2),
    by decide +kernel⟩

end Dany.Rdata
