import Verif.Seg.Group
import Mathlib.Data.Fin.VecNotation
import Mathlib.Data.Int.Interval

/-!
# C56 – C60: the MODFLOW-2005 stream network
-/

namespace Dany.Seg

open Function Reach Topo Relation

variable {N : ℕ} {fdir sa : Fin N → ℤ} {limit fuel : ℕ} {b : Bool} {out : Out N}

/-- the outflow code of the segment starting in `a`, for a numbering `sn` of the segments -/
noncomputable def outOf (fdir sa : Fin N → ℤ) (sn : Fin N → ℤ) (a : Fin N) : ℤ :=
  match dn fdir sa (segLast fdir sa a) with
  | none => 0
  | some m => sn m

/-- what a successful grouped call returned -/
theorem grouped_out (hf : N ≤ fuel)
    (hout : mf2005 limit fuel b fdir sa true = .ok out) :
    ∃ (ss : List (Fin N)) (sn : Fin N → ℤ),
      ss.Nodup ∧ (∀ n, n ∈ ss ↔ Start fdir sa n) ∧
      (∀ a, Start fdir sa a → 1 ≤ sn a ∧ sn a ≤ nSeg fdir sa) ∧
      (∀ a b, Start fdir sa a → Start fdir sa b → sn a = sn b → a = b) ∧
      out.sg = ss.map (fun a => (sn a, outOf fdir sa sn a)) ∧
      out.nsr = ss.flatMap (fun a => rowsOf (sn a) 1 (seg fdir sa a)) ∧
      out.graph = cellGraph fdir sa ∧
      (∀ a, Start fdir sa a → ∀ n ∈ seg fdir sa a, out.sa n = sn a) ∧
      (∀ n, sa n = 0 → out.sa n = 0) ∧
      ((∀ a b, Start fdir sa a → Start fdir sa b →
          ReflTransGen (fun x y => Start fdir sa x ∧ dn fdir sa (segLast fdir sa x) = some y) a b →
          ReflTransGen (fun x y => Start fdir sa x ∧ dn fdir sa (segLast fdir sa x) = some y) b a →
          a = b) →
        ∀ a b, Start fdir sa a → dn fdir sa (segLast fdir sa a) = some b → a ≠ b → sn a < sn b) := by
  obtain ⟨L, _, hl, hout⟩ := mf2005_lift hout
  obtain ⟨ss, sn, sa', h1, h2, h3, h4, h5, h6, h7, hb, _, h8⟩ := grouped_main (fdir := fdir) (sa := sa) hf hl
  have := h5 b
  rw [hout] at this
  have ho : out = ⟨sa', cellGraph fdir sa, ss.map (fun a => (sn a, outOf fdir sa sn a)),
      ss.flatMap (fun a => rowsOf (sn a) 1 (seg fdir sa a))⟩ := by
    unfold reshapeCheck at this
    split at this
    · cases this
    · rw [Res.bind_ok] at this
      exact Res.ok.inj this
  subst ho
  exact ⟨ss, sn, h1, h2, h3, h4, rfl, rfl, rfl, h6, h7, h8⟩

/-- The array a successful grouped call stores holds segment numbers only, also at the cells that belong to
no segment. -/
theorem grouped_bound (hf : N ≤ fuel)
    (hout : mf2005 limit fuel b fdir sa true = .ok out) (n : Fin N) :
    0 ≤ out.sa n ∧ out.sa n ≤ nSeg fdir sa := by
  obtain ⟨L, _, hl, hout⟩ := mf2005_lift hout
  obtain ⟨ss, sn, sa', h1, h2, h3, h4, h5, h6, h7, hb, _, h8⟩ := grouped_main (fdir := fdir) (sa := sa) hf hl
  have := h5 b
  rw [hout] at this
  unfold reshapeCheck at this
  split at this
  · cases this
  · rw [Res.bind_ok] at this
    rw [Res.ok.inj this]
    exact hb n

/-- rows of the table -/
theorem mem_rows {ss : List (Fin N)} {sn : Fin N → ℤ} (hss : ∀ n, n ∈ ss ↔ Start fdir sa n)
    {n : Fin N} {s r : ℤ} :
    (n, s, r) ∈ ss.flatMap (fun a => rowsOf (sn a) 1 (seg fdir sa a)) ↔
      ∃ a, Start fdir sa a ∧ s = sn a ∧ ∃ i, ∃ h : i < (seg fdir sa a).length,
        n = (seg fdir sa a)[i] ∧ r = 1 + (i : ℤ) := by
  rw [List.mem_flatMap]
  constructor
  · rintro ⟨a, ha, hr⟩
    obtain ⟨i, h, he⟩ := mem_rowsOf.1 hr
    simp only [Prod.mk.injEq] at he
    exact ⟨a, (hss a).1 ha, he.2.1, i, h, he.1, he.2.2⟩
  · rintro ⟨a, ha, rfl, i, h, rfl, rfl⟩
    exact ⟨a, (hss a).2 ha, mem_rowsOf.2 ⟨i, h, rfl⟩⟩

/-- the cells downstream of a segment start are the cells of segments -/
theorem mem_seg_iff {n : Fin N} :
    (∃ a, Start fdir sa a ∧ n ∈ seg fdir sa a) ↔
      ∃ a, Start fdir sa a ∧ ReflTransGen (Feeds fdir sa) a n := by
  constructor
  · rintro ⟨a, ha, hn⟩
    refine ⟨a, ha, ?_⟩
    obtain ⟨i, hi, rfl⟩ := List.getElem_of_mem hn
    clear hn
    induction i with
    | zero =>
      obtain ⟨q, hq⟩ := (seg_path ha).head
      have : (seg fdir sa a)[0] = a := by simp [hq]
      rw [this]
    | succ i ih =>
      exact (ih (by omega)).tail (nx_some.1 ((seg_path ha).getElem_succ hi)).1
  · rintro ⟨a, ha, hr⟩
    induction hr with
    | refl => exact ⟨a, ha, self_mem_seg ha⟩
    | @tail x y _ hxy ih =>
      obtain ⟨c, hc, hx⟩ := ih
      by_cases hy : Start fdir sa y
      · exact ⟨y, hy, self_mem_seg hy⟩
      · exact ⟨c, hc, (seg_path hc).closed hx (nx_some.2 ⟨hxy, hy⟩)⟩

theorem grouped_rows_nodup {ss : List (Fin N)} {sn : Fin N → ℤ} (hnd : ss.Nodup)
    (hss : ∀ n, n ∈ ss ↔ Start fdir sa n) :
    ((ss.flatMap (fun a => rowsOf (sn a) 1 (seg fdir sa a))).map Prod.fst).Nodup := by
  rw [List.map_flatMap]
  simp only [rowsOf_fst]
  rw [List.nodup_flatMap]
  refine ⟨fun a ha => seg_nodup ((hss a).1 ha), ?_⟩
  refine hnd.imp_of_mem ?_
  intro x y hx hy hne
  simp only [Function.onFun]
  intro n hn hn'
  exact hne (seg_disjoint ((hss x).1 hx) ((hss y).1 hy) n hn hn')

/-! ### C56 -/

/-- **C56.** On every network, cyclic or not, the grouped construction terminates successfully (on a
structured grid) if fewer segments lie on any one flow path than the recursion limit allows. -/
theorem C56_terminates (hf : N ≤ fuel) (hl : SegsFit fdir sa limit) :
    ∃ out, mf2005 limit fuel false fdir sa true = .ok out := by
  obtain ⟨ss, sn, sa', h1, h2, h3, h4, h5, h6, h7, h8⟩ := grouped_main (fdir := fdir) (sa := sa) hf hl
  exact ⟨_, by rw [h5 false]; rfl⟩

/-- **C56.** Whatever the recursion limit, it terminates successfully or with `RecursionError`. -/
theorem C56_any_limit (hf : N ≤ fuel) (limit : ℕ) :
    mf2005 limit fuel false fdir sa true = .err .recursionError ∨
    ∃ out, mf2005 limit fuel false fdir sa true = .ok out := by
  obtain ⟨out, e⟩ := C56_terminates (fdir := fdir) (sa := sa) (limit := max limit (nSeg fdir sa + 1)) hf
    (segsFit_of_count (le_max_right _ _))
  rcases mf2005_leRec (fdir := fdir) (sa := sa) (fuel := fuel) (le_max_left limit (nSeg fdir sa + 1)) false
    true with h | h
  · exact .inl h
  · exact .inr ⟨out, h.trans e⟩

/-- **C56.** The rows list no cell twice; exactly the cells downstream of a segment start are listed;
a listed cell is a stream cell and carries the segment number of its row; other non-stream cells carry
0; the reach numbers of a segment are contiguous from 1, one cell each, in flow order. -/
theorem C56_rows (hf : N ≤ fuel)
    (hout : mf2005 limit fuel b fdir sa true = .ok out) :
    (out.nsr.map Prod.fst).Nodup ∧
      (∀ n, (∃ s r, (n, s, r) ∈ out.nsr) ↔
        ∃ a, Start fdir sa a ∧ ReflTransGen (Feeds fdir sa) a n) ∧
      (∀ n s r, (n, s, r) ∈ out.nsr → sa n ≠ 0 ∧ out.sa n = s ∧ 1 ≤ r) ∧
      (∀ n, sa n = 0 → out.sa n = 0) ∧
      (∀ n m s r, (n, s, r) ∈ out.nsr → (m, s, r) ∈ out.nsr → n = m) ∧
      (∀ n s r, (n, s, r) ∈ out.nsr → 1 < r → ∃ m, (m, s, r - 1) ∈ out.nsr ∧ Feeds fdir sa m n) := by
  obtain ⟨ss, sn, h1, h2, h3, h4, h5, h6, h7, h8, h9, h10⟩ := grouped_out hf hout
  rw [h6]
  refine ⟨grouped_rows_nodup h1 h2, ?_, ?_, h9, ?_, ?_⟩
  · intro n
    rw [← mem_seg_iff]
    constructor
    · rintro ⟨s, r, h⟩
      obtain ⟨a, ha, _, i, hi, rfl, _⟩ := (mem_rows h2).1 h
      exact ⟨a, ha, List.getElem_mem _⟩
    · rintro ⟨a, ha, hn⟩
      obtain ⟨i, hi, rfl⟩ := List.getElem_of_mem hn
      exact ⟨_, _, (mem_rows h2).2 ⟨a, ha, rfl, i, hi, rfl, rfl⟩⟩
  · intro n s r h
    obtain ⟨a, ha, rfl, i, hi, rfl, rfl⟩ := (mem_rows h2).1 h
    exact ⟨seg_stream ha (List.getElem_mem _), h8 a ha _ (List.getElem_mem _), by omega⟩
  · intro n m s r hn hm
    obtain ⟨a, ha, e1, i, hi, rfl, e2⟩ := (mem_rows h2).1 hn
    obtain ⟨c, hc, e3, j, hj, rfl, e4⟩ := (mem_rows h2).1 hm
    have := h4 a c ha hc (e1 ▸ e3)
    subst this
    have : i = j := by omega
    subst this
    rfl
  · intro n s r h hr
    obtain ⟨a, ha, rfl, i, hi, rfl, rfl⟩ := (mem_rows h2).1 h
    obtain ⟨j, rfl⟩ : ∃ j, i = j + 1 := ⟨i - 1, by omega⟩
    refine ⟨(seg fdir sa a)[j], (mem_rows h2).2 ⟨a, ha, rfl, j, by omega, rfl, by push_cast; omega⟩, ?_⟩
    exact (nx_some.1 ((seg_path ha).getElem_succ hi)).1

/-- **C56.** If every stream cell lies downstream of a headwater, every stream cell is in exactly one
row of the table, and every row is a stream cell's. -/
theorem C56_partition (hf : N ≤ fuel)
    (hhead : ∀ n, sa n ≠ 0 → ∃ h, Headwater fdir sa h ∧ ReflTransGen (Feeds fdir sa) h n)
    (hout : mf2005 limit fuel b fdir sa true = .ok out) (n : Fin N) :
    (sa n ≠ 0 → ∃! x : Fin N × ℤ × ℤ, x ∈ out.nsr ∧ x.1 = n) ∧ (out.nsr.map Prod.fst).count n =
      (if sa n ≠ 0 then 1 else 0) := by
  obtain ⟨h1, h2, h3, _⟩ := C56_rows hf hout
  have hmem : sa n ≠ 0 → ∃ s r, (n, s, r) ∈ out.nsr := by
    intro hn
    obtain ⟨h, hh, hr⟩ := hhead n hn
    exact (h2 n).2 ⟨h, .inl hh, hr⟩
  constructor
  · intro hn
    obtain ⟨s, r, h⟩ := hmem hn
    refine ⟨(n, s, r), ⟨h, rfl⟩, ?_⟩
    rintro y ⟨hy, hyn⟩
    exact List.inj_on_of_nodup_map h1 hy h hyn
  · split
    · rename_i hn
      obtain ⟨s, r, h⟩ := hmem hn
      exact List.count_eq_one_of_mem h1 (List.mem_map.2 ⟨_, h, rfl⟩)
    · rename_i hn
      apply List.count_eq_zero_of_not_mem
      intro hm
      obtain ⟨x, hx, rfl⟩ := List.mem_map.1 hm
      exact hn (h3 x.1 x.2.1 x.2.2 hx).1

/-! ### C57 -/

/-- **C57.** The segments start exactly at headwaters and confluences. -/
theorem C57_starts (hf : N ≤ fuel)
    (hout : mf2005 limit fuel b fdir sa true = .ok out) (n : Fin N) :
    (∃ s, (n, s, 1) ∈ out.nsr) ↔ Headwater fdir sa n ∨ Confluence fdir sa n := by
  obtain ⟨ss, sn, h1, h2, h3, h4, h5, h6, h7, h8, h9, h10⟩ := grouped_out hf hout
  rw [h6]
  constructor
  · rintro ⟨s, h⟩
    obtain ⟨a, ha, _, i, hi, rfl, hr⟩ := (mem_rows h2).1 h
    have : i = 0 := by omega
    subst this
    obtain ⟨q, hq⟩ := (seg_path ha).head
    have : (seg fdir sa a)[0] = a := by simp [hq]
    rw [this]; exact ha
  · intro h
    obtain ⟨q, hq⟩ := (seg_path h).head
    exact ⟨sn n, (mem_rows h2).2 ⟨n, h, rfl, 0, by simp [hq], by simp [hq], by simp⟩⟩

/-- **C57.** Every row either is followed, in its segment, by the row of the cell it flows to, or it
is the last of its segment, and then the outseg of the segment is 0 if the cell leaves the stream and
otherwise the segment whose first cell it flows to. -/
theorem C57_outseg (hf : N ≤ fuel)
    (hout : mf2005 limit fuel b fdir sa true = .ok out) {n : Fin N} {s r : ℤ}
    (hr : (n, s, r) ∈ out.nsr) :
    (∃ m, (m, s, r + 1) ∈ out.nsr ∧ Feeds fdir sa n m) ∨
      ((∀ m, (m, s, r + 1) ∉ out.nsr) ∧ ∃ t, out.sg.get? s = some t ∧
        ((t = 0 ∧ ∀ m, ¬ Feeds fdir sa n m) ∨ (t ≠ 0 ∧ ∃ m, Feeds fdir sa n m ∧ (m, t, 1) ∈ out.nsr))) := by
  obtain ⟨ss, sn, h1, h2, h3, h4, h5, h6, h7, h8, h9, h10⟩ := grouped_out hf hout
  rw [h6] at hr ⊢
  obtain ⟨a, ha, rfl, i, hi, rfl, rfl⟩ := (mem_rows h2).1 hr
  by_cases hlast : i + 1 < (seg fdir sa a).length
  · left
    exact ⟨(seg fdir sa a)[i + 1], (mem_rows h2).2 ⟨a, ha, rfl, i + 1, hlast, rfl, by push_cast; ring⟩,
      (nx_some.1 ((seg_path ha).getElem_succ hlast)).1⟩
  · right
    have hn : (seg fdir sa a)[i] = segLast fdir sa a := by
      rw [segLast_eq ha, List.getLast_eq_getElem]
      congr 1
      omega
    have hstream : sa (segLast fdir sa a) ≠ 0 := by
      rw [← hn]; exact seg_stream ha (List.getElem_mem _)
    constructor
    · intro m hm
      obtain ⟨c, hc, e3, j, hj, _, e4⟩ := (mem_rows h2).1 hm
      have := h4 a c ha hc e3
      subst this
      omega
    · refine ⟨outOf fdir sa sn a, ?_, ?_⟩
      · apply Dict.get?_of_mem
        · rw [h5, keys_map_pair]
          exact h1.map_on (fun x hx y hy h => h4 x y ((h2 x).1 hx) ((h2 y).1 hy) h)
        · rw [h5]; exact List.mem_map.2 ⟨a, (h2 a).2 ha, rfl⟩
      · rw [hn]
        unfold outOf
        cases hd : dn fdir sa (segLast fdir sa a) with
        | none => exact .inl ⟨rfl, (dn_none hstream).1 hd⟩
        | some m =>
          right
          have hfm := (dn_feeds hstream).1 hd
          have hm : Start fdir sa m := by
            by_contra hc
            have := (seg_path ha).getLast
            rw [← segLast_eq ha, nx_some.2 ⟨hfm, hc⟩] at this
            cases this
          obtain ⟨q, hq⟩ := (seg_path hm).head
          refine ⟨?_, m, hfm, (mem_rows h2).2 ⟨m, hm, rfl, 0, by simp [hq], by simp [hq], by simp⟩⟩
          have := (h3 m hm).1
          dsimp only
          omega

/-! ### C58 -/

/-- **C58.** The segment numbers are `1 … k`: they are the keys of the segment graph, each once, and
the numbers in the rows. -/
theorem C58_numbers (hf : N ≤ fuel)
    (hout : mf2005 limit fuel b fdir sa true = .ok out) :
    out.sg.keys.Nodup ∧ out.sg.length = nSeg fdir sa ∧
      (∀ s, s ∈ out.sg.keys ↔ 1 ≤ s ∧ s ≤ nSeg fdir sa) ∧
      (∀ s, s ∈ out.sg.keys ↔ ∃ n r, (n, s, r) ∈ out.nsr) := by
  classical
  obtain ⟨ss, sn, h1, h2, h3, h4, h5, h6, h7, h8, h9, h10⟩ := grouped_out hf hout
  have hkeys : out.sg.keys = ss.map sn := by rw [h5, keys_map_pair]
  have hnd : (ss.map sn).Nodup :=
    h1.map_on (fun x hx y hy h => h4 x y ((h2 x).1 hx) ((h2 y).1 hy) h)
  have hlen : ss.length = nSeg fdir sa := by
    rw [← List.toFinset_card_of_nodup h1]
    unfold nSeg
    congr 1
    ext n
    simp [h2]
  refine ⟨by rw [hkeys]; exact hnd, by rw [h5]; simpa using hlen, ?_, ?_⟩
  · have hsub : (ss.map sn).toFinset ⊆ Finset.Icc 1 (nSeg fdir sa : ℤ) := by
      intro x hx
      rw [List.mem_toFinset, List.mem_map] at hx
      obtain ⟨a, ha, rfl⟩ := hx
      exact Finset.mem_Icc.2 (h3 a ((h2 a).1 ha))
    have heq := Finset.eq_of_subset_of_card_le hsub (by
      rw [List.toFinset_card_of_nodup hnd]
      simp [hlen])
    intro s
    rw [hkeys, ← List.mem_toFinset, heq, Finset.mem_Icc]
  · intro s
    rw [hkeys, h6, List.mem_map]
    constructor
    · rintro ⟨a, ha, rfl⟩
      have ha' := (h2 a).1 ha
      obtain ⟨q, hq⟩ := (seg_path ha').head
      exact ⟨a, 1, (mem_rows h2).2 ⟨a, ha', rfl, 0, by simp [hq], by simp [hq], by simp⟩⟩
    · rintro ⟨n, r, h⟩
      obtain ⟨a, ha, rfl, _⟩ := (mem_rows h2).1 h
      exact ⟨a, (h2 a).2 ha, rfl⟩

/-- **C58.** Without segment cycles of length two or more, every outseg is 0, the segment itself or
larger. -/
theorem C58_downstream (hf : N ≤ fuel)
    (hout : mf2005 limit fuel b fdir sa true = .ok out) (hac : Acyclic out.sg)
    {s t : ℤ} (h : out.sg.get? s = some t) : t = 0 ∨ t = s ∨ s < t := by
  obtain ⟨ss, sn, h1, h2, h3, h4, h5, h6, h7, h8, h9, h10⟩ := grouped_out hf hout
  have hnd : out.sg.keys.Nodup := (C58_numbers hf hout).1
  have hlastS : ∀ a m, Start fdir sa a → dn fdir sa (segLast fdir sa a) = some m → Start fdir sa m := by
    intro a m ha hm
    have hstream : sa (segLast fdir sa a) ≠ 0 := by
      rw [segLast_eq ha]; exact seg_stream ha (List.getLast_mem _)
    by_contra hc
    have := (seg_path ha).getLast
    rw [← segLast_eq ha, nx_some.2 ⟨(dn_feeds hstream).1 hm, hc⟩] at this
    cases this
  have hflow : ∀ a m, Start fdir sa a → dn fdir sa (segLast fdir sa a) = some m →
      FlowsTo out.sg (sn a) (sn m) := by
    intro a m ha hm
    refine ⟨by have := (h3 a ha).1; omega, Dict.get?_of_mem hnd ?_⟩
    rw [h5]
    exact List.mem_map.2 ⟨a, (h2 a).2 ha, by simp only [outOf, hm]⟩
  have hpath : ∀ a c, Start fdir sa a →
      ReflTransGen (fun x y => Start fdir sa x ∧ dn fdir sa (segLast fdir sa x) = some y) a c →
      ReflTransGen (FlowsTo out.sg) (sn a) (sn c) := by
    intro a c ha hr
    induction hr with
    | refl => exact .refl
    | tail _ hxy ih => exact ih.tail (hflow _ _ hxy.1 hxy.2)
  have hord := h10 (fun a c ha hc hac' hca' => h4 a c ha hc (hac _ _ (hpath a c ha hac') (hpath c a hc hca')))
  have hm := Dict.mem_of_get? h
  rw [h5] at hm
  obtain ⟨a, ha, he⟩ := List.mem_map.1 hm
  simp only [Prod.mk.injEq] at he
  obtain ⟨rfl, rfl⟩ := he
  have ha' := (h2 a).1 ha
  unfold outOf
  cases hd : dn fdir sa (segLast fdir sa a) with
  | none => exact .inl rfl
  | some m =>
    right
    dsimp only
    by_cases ham : a = m
    · left; rw [ham]
    · right; exact hord a m ha' hd ham

/-- **C58.** The same from the cells: if no flow cycle through two or more stream cells exists, every
outseg is 0, the segment itself or larger. -/
theorem C58_cells (hf : N ≤ fuel)
    (hout : mf2005 limit fuel b fdir sa true = .ok out)
    (hac : ∀ x y, ReflTransGen (Feeds fdir sa) x y → ReflTransGen (Feeds fdir sa) y x → x = y)
    {s t : ℤ} (h : out.sg.get? s = some t) : t = 0 ∨ t = s ∨ s < t := by
  obtain ⟨ss, sn, h1, h2, h3, h4, h5, h6, h7, h8, h9, h10⟩ := grouped_out hf hout
  have hlink : ∀ x y, (Start fdir sa x ∧ dn fdir sa (segLast fdir sa x) = some y) →
      ReflTransGen (Feeds fdir sa) x y := by
    rintro x y ⟨hx, hxy⟩
    have hm : segLast fdir sa x ∈ seg fdir sa x := by rw [segLast_eq hx]; exact List.getLast_mem _
    have hr : ∀ n ∈ seg fdir sa x, ReflTransGen (Feeds fdir sa) x n := by
      intro n hn
      obtain ⟨i, hi, rfl⟩ := List.getElem_of_mem hn
      clear hn
      induction i with
      | zero =>
        obtain ⟨q, hq⟩ := (seg_path hx).head
        have : (seg fdir sa x)[0] = x := by simp [hq]
        rw [this]
      | succ i ih =>
        exact (ih (by omega)).tail (nx_some.1 ((seg_path hx).getElem_succ hi)).1
    exact (hr _ hm).tail ((dn_feeds (seg_stream hx hm)).1 hxy)
  have hpath : ∀ x y, ReflTransGen (fun x y => Start fdir sa x ∧ dn fdir sa (segLast fdir sa x) = some y) x y →
      ReflTransGen (Feeds fdir sa) x y := by
    intro x y hr
    induction hr with
    | refl => exact .refl
    | tail _ hxy ih => exact ih.trans (hlink _ _ hxy)
  have hord := h10 (fun a c _ _ h1 h2 => hac _ _ (hpath a c h1) (hpath c a h2))
  have hm := Dict.mem_of_get? h
  rw [h5] at hm
  obtain ⟨a, ha, he⟩ := List.mem_map.1 hm
  simp only [Prod.mk.injEq] at he
  obtain ⟨rfl, rfl⟩ := he
  have ha' := (h2 a).1 ha
  unfold outOf
  cases hd : dn fdir sa (segLast fdir sa a) with
  | none => exact .inl rfl
  | some m =>
    right
    dsimp only
    by_cases ham : a = m
    · left; rw [ham]
    · right; exact hord a m ha' hd ham

end Dany.Seg
