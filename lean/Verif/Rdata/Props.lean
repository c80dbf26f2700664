import Verif.Rdata.Net
import Mathlib.Data.Fin.VecNotation
import Mathlib.Tactic.NormNum
import Mathlib.Data.Rat.Defs
import Mathlib.Algebra.Order.Ring.Rat

/-!
# C69–C73, C78–C80: reach data, segment data, the pyGSFLOW builder
-/

namespace Dany.Rdata

open Function Reach Seg

variable {N : ℕ} {K : Type*} {limit fuel : ℕ}

/-- The network stored in the object, if any, comes from a connectivity call with some stream array. -/
def Obj.Sound (limit fuel : ℕ) (o : Obj N) : Prop :=
  ∀ net, o.net = some net → ∃ sa grp out, mf2005 limit fuel false o.fdir sa grp = .ok out ∧
    net = (out.sg, out.nsr)

/-- `(sg, nsr)` is the network of the stream array `sa`. -/
def NetOf (limit fuel : ℕ) (fdir sa : Fin N → ℤ) (sg : Dict ℤ ℤ) (nsr : List (Fin N × ℤ × ℤ)) : Prop :=
  ∃ grp out, mf2005 limit fuel false fdir sa grp = .ok out ∧ sg = out.sg ∧ nsr = out.nsr

theorem network_ok {o o' : Obj N} {arg : Option (Fin N → ℤ)} {grp : Bool} {sg : Dict ℤ ℤ}
    {nsr : List (Fin N × ℤ × ℤ)} (hs : o.Sound limit fuel)
    (h : o.network limit fuel arg grp = .ok (o', (sg, nsr))) :
    o'.fdir = o.fdir ∧ o'.net = some (sg, nsr) ∧ o'.Sound limit fuel ∧
      ∃ sa, NetOf limit fuel o.fdir sa sg nsr ∧ (o.net = none → o.source arg = .ok sa) := by
  unfold Obj.network at h
  obtain ⟨sa, hsa, h⟩ := Res.bind_eq_ok.1 h
  cases hn : o.net with
  | some net =>
    rw [hn] at h
    simp only [Res.ok.injEq, Prod.mk.injEq] at h
    obtain ⟨rfl, rfl⟩ := h
    obtain ⟨sa, g, out, h1, h2⟩ := hs _ hn
    simp only [Prod.mk.injEq] at h2
    exact ⟨rfl, hn, hs, sa, ⟨g, out, h1, h2.1, h2.2⟩, by simp⟩
  | none =>
    rw [hn] at h
    obtain ⟨r, hr, h⟩ := Res.map_eq_ok.1 h
    unfold Obj.connect at hr
    obtain ⟨out, ho, hr⟩ := Res.map_eq_ok.1 hr
    subst hr
    simp only [Prod.mk.injEq] at h
    obtain ⟨rfl, rfl, rfl⟩ := h
    refine ⟨rfl, rfl, ?_, sa, ⟨grp, out, ho, rfl, rfl⟩, fun _ => hsa⟩
    intro net hnet
    exact ⟨sa, grp, out, ho, (Option.some.inj hnet).symm⟩

theorem isNet_netOf (hf : N ≤ fuel) {fdir sa : Fin N → ℤ} {sg : Dict ℤ ℤ}
    {nsr : List (Fin N × ℤ × ℤ)} (h : NetOf limit fuel fdir sa sg nsr) :
    ∃ ss, IsNet fdir sa sg nsr ss := by
  obtain ⟨grp, out, h1, rfl, rfl⟩ := h
  exact isNet_out hf h1

theorem ordered_perm {fdir sa : Fin N → ℤ} {sg : Dict ℤ ℤ} {nsr : List (Fin N × ℤ × ℤ)}
    {ss : List (ℤ × ℤ × List (Fin N))} (h : IsNet fdir sa sg nsr ss) : (ordered ss).Perm nsr := by
  rw [h.nsr_eq]
  exact (sorted_perm ss).flatMap_right _

theorem rowsOf_pairwise (s r : ℤ) (p : List (Fin N)) :
    (rowsOf s r p).Pairwise (fun a b => a.2.1 < b.2.1 ∨ (a.2.1 = b.2.1 ∧ a.2.2 < b.2.2)) := by
  induction p generalizing r with
  | nil => exact List.Pairwise.nil
  | cons a p ih =>
    refine List.Pairwise.cons ?_ (ih _)
    intro x hx
    obtain ⟨i, _, rfl⟩ := mem_rowsOf.1 hx
    exact .inr ⟨rfl, by dsimp only; omega⟩

theorem ordered_pairwise {ss : List (ℤ × ℤ × List (Fin N))} (hn : (ss.map (·.1)).Nodup) :
    (ordered ss).Pairwise (fun a b => a.2.1 < b.2.1 ∨ (a.2.1 = b.2.1 ∧ a.2.2 < b.2.2)) := by
  unfold ordered
  have := sorted_lt hn
  generalize sorted ss = T at this
  induction T with
  | nil => exact List.Pairwise.nil
  | cons t T ih =>
    rw [List.pairwise_cons] at this
    rw [List.flatMap_cons, List.pairwise_append]
    refine ⟨rowsOf_pairwise _ _ _, ih this.2, ?_⟩
    intro x hx y hy
    obtain ⟨u, hu, hy⟩ := List.mem_flatMap.1 hy
    obtain ⟨i, _, rfl⟩ := mem_rowsOf.1 hx
    obtain ⟨j, _, rfl⟩ := mem_rowsOf.1 hy
    exact .inl (this.1 u hu)

section

variable [Field K] [DecidableEq K] {G : SGrid N K}

/-- what a successful call returns -/
theorem reachData_ok (hf : N ≤ fuel) {o o' : Obj N} {arg : Option (Fin N → ℤ)} {grp : Bool}
    {tbl : List (Row K)} (hs : o.Sound limit fuel)
    (h : o.reachData limit fuel G arg grp = .ok (o', tbl)) :
    ∃ sg nsr sa ss, o'.net = some (sg, nsr) ∧ o'.Sound limit fuel ∧ NetOf limit fuel o.fdir sa sg nsr ∧
      (o.net = none → o.source arg = .ok sa) ∧ IsNet o.fdir sa sg nsr ss ∧
      tbl = ((ordered ss).zipIdx 1).map (rowOf G o.fdir sa) := by
  unfold Obj.reachData at h
  obtain ⟨⟨o1, sg, nsr⟩, hn, h⟩ := Res.bind_eq_ok.1 h
  obtain ⟨t, ht, h⟩ := Res.map_eq_ok.1 h
  simp only [Prod.mk.injEq] at h
  obtain ⟨rfl, rfl⟩ := h
  obtain ⟨h1, h2, h3, sa, h4, h5⟩ := network_ok hs hn
  obtain ⟨ss, hss⟩ := isNet_netOf hf h4
  refine ⟨sg, nsr, sa, ss, h2, h3, h4, h5, hss, ?_⟩
  rcases reachTable_cases G hss with ⟨_, e⟩ | ⟨_, e⟩ | ⟨_, _, e⟩
  · rw [e] at ht; cases ht
  · rw [e] at ht; cases ht
  · rw [e] at ht; exact (Res.ok.inj ht).symm

/-- **C71.** The rows of `reach_data` are the (cell, segment, reach) rows of the stored network, each once,
in increasing order of segment and reach; row `k` (from 0) has reachID `k + 1`, and carries row, column, and
elevation of its cell; the thickness is 1, conductivity and outreach keep FloPy's 0. -/
theorem C71_numbering (hf : N ≤ fuel) {o o' : Obj N} {arg : Option (Fin N → ℤ)}
    {grp : Bool} {tbl : List (Row K)} (hs : o.Sound limit fuel)
    (h : o.reachData limit fuel G arg grp = .ok (o', tbl)) :
    ∃ sg nsr, ∃ rows : List (Fin N × ℤ × ℤ), o'.net = some (sg, nsr) ∧ rows.Perm nsr ∧
      rows.Pairwise (fun a b => a.2.1 < b.2.1 ∨ (a.2.1 = b.2.1 ∧ a.2.2 < b.2.2)) ∧
      tbl.length = rows.length ∧
      ∀ (k : ℕ) (n : Fin N) (s r : ℤ), rows[k]? = some (n, s, r) → ∃ row, tbl[k]? = some row ∧
        row.reachID = k + 1 ∧ row.node = n.val ∧ row.k = 0 ∧ row.i = n.val / G.ncol ∧
        row.j = n.val % G.ncol ∧ row.iseg = s ∧ row.ireach = r ∧ row.strtop = G.top n ∧
        row.strthick = 1 ∧ row.strhc1 = 0 ∧ row.outreach = 0 := by
  obtain ⟨sg, nsr, sa, ss, h1, -, -, -, hss, rfl⟩ := reachData_ok hf hs h
  refine ⟨sg, nsr, ordered ss, h1, ordered_perm hss, ordered_pairwise hss.nums, by simp, ?_⟩
  intro k n s r hk
  refine ⟨rowOf G o.fdir sa ((n, s, r), k + 1), ?_, rfl, ?_, rfl, rfl, rfl, rfl, rfl, rfl, rfl, rfl, rfl⟩
  · rw [List.getElem?_map, List.getElem?_zipIdx, hk]
    simp [Nat.add_comm]
  · show ((n.val / G.ncol * G.ncol + n.val % G.ncol : ℕ) : ℤ) = n.val
    rw [Nat.div_add_mod']

/-- **C78.** A reach whose cell flows to another stream cell `m` is 1.5 times the distance of the two centres
long, and its slope is drop over length (if the elevations are known and the length is not 0); a reach whose
cell leaves the stream or flows to itself is 1.5 times the mean of the cell's width and height long, with
slope 0.0001.  `sa` is the array the network was made from: the one given or stored when the object had no
network yet. -/
theorem C78_length (hf : N ≤ fuel) {o o' : Obj N} {arg : Option (Fin N → ℤ)}
    {grp : Bool} {tbl : List (Row K)} (hs : o.Sound limit fuel)
    (h : o.reachData limit fuel G arg grp = .ok (o', tbl)) :
    ∃ sg nsr sa, o'.net = some (sg, nsr) ∧ NetOf limit fuel o.fdir sa sg nsr ∧
      (o.net = none → o.source arg = .ok sa) ∧ ∀ row ∈ tbl, ∃ n : Fin N, row.node = n.val ∧ sa n ≠ 0 ∧
        (∀ m, Feeds o.fdir sa n m → m ≠ n →
          row.rchlen = 3 / 2 * G.sqrt ((G.xc n - G.xc m) ^ 2 + (G.yc n - G.yc m) ^ 2) ∧
          ∀ a b, G.top n = some a → G.top m = some b → row.rchlen ≠ 0 →
            row.slope = some ((a - b) / row.rchlen)) ∧
        ((∀ m, Feeds o.fdir sa n m → m = n) →
          row.rchlen = 3 / 2 * ((G.delr (n.val % G.ncol) + G.delc (n.val / G.ncol)) / 2) ∧
          row.slope = some (1 / 10000)) := by
  obtain ⟨sg, nsr, sa, ss, h1, -, h2, h3, hss, rfl⟩ := reachData_ok hf hs h
  refine ⟨sg, nsr, sa, h1, h2, h3, fun row hrow => ?_⟩
  obtain ⟨⟨⟨n, s, r⟩, k⟩, hx, rfl⟩ := List.mem_map.1 hrow
  have hmem : (n, s, r) ∈ ordered ss := by
    have := List.mem_zipIdx hx
    rw [this.2.2]
    exact List.getElem_mem _
  have hstream : sa n ≠ 0 := by
    obtain ⟨t, ht, hr⟩ := List.mem_flatMap.1 hmem
    obtain ⟨i, hi, e⟩ := mem_rowsOf.1 hr
    simp only [Prod.mk.injEq] at e
    rw [e.1]
    exact hss.stream t ((sorted_perm ss).mem_iff.1 ht) _ (List.getElem_mem _)
  refine ⟨n, ?_, hstream, fun m hm hne => ?_, fun hno => ?_⟩
  · show ((n.val / G.ncol * G.ncol + n.val % G.ncol : ℕ) : ℤ) = n.val
    rw [Nat.div_add_mod']
  · have e : lenSlope G n (dn o.fdir sa n) =
        (G.dist n m * (3 / 2), G.grade n m (G.dist n m * (3 / 2))) := by
      rw [(dn_feeds hstream).2 hm]
      simp [lenSlope, hne]
    have e1 : (rowOf G o.fdir sa ((n, s, r), k)).rchlen = G.dist n m * (3 / 2) := by
      show (lenSlope G n (dn o.fdir sa n)).1 = _
      rw [e]
    have e2 : (rowOf G o.fdir sa ((n, s, r), k)).slope = G.grade n m (G.dist n m * (3 / 2)) := by
      show (lenSlope G n (dn o.fdir sa n)).2 = _
      rw [e]
    rw [e1, e2]
    refine ⟨by unfold SGrid.dist; ring, fun a b ha hb hz => ?_⟩
    unfold SGrid.grade
    rw [ha, hb]
    dsimp only
    rw [if_neg hz]
  · have e : lenSlope G n (dn o.fdir sa n) = lenSlope G n none := lenSlope_dn_of_none G hstream hno
    constructor
    · show (lenSlope G n (dn o.fdir sa n)).1 = _
      rw [e]; rfl
    · show (lenSlope G n (dn o.fdir sa n)).2 = _
      rw [e]; rfl

/-- last rows of segments of two or more reaches -/
theorem last_row_iff {fdir sa : Fin N → ℤ} {sg : Dict ℤ ℤ} {nsr : List (Fin N × ℤ × ℤ)}
    {ss : List (ℤ × ℤ × List (Fin N))} (h : IsNet fdir sa sg nsr ss) (c : Fin N) :
    (∃ t ∈ ss, t.2.2.getLast? = some c ∧ 2 ≤ t.2.2.length) ↔
      ∃ s r, (c, s, r) ∈ nsr ∧ 1 < r ∧ ∀ m, (m, s, r + 1) ∉ nsr := by
  have hmem : ∀ n s r, (n, s, r) ∈ nsr ↔ ∃ t ∈ ss, t.1 = s ∧ ∃ i, ∃ hi : i < t.2.2.length,
      n = t.2.2[i] ∧ r = 1 + (i : ℤ) := by
    intro n s r
    rw [h.nsr_eq, List.mem_flatMap]
    constructor
    · rintro ⟨t, ht, hx⟩
      obtain ⟨i, hi, e⟩ := mem_rowsOf.1 hx
      simp only [Prod.mk.injEq] at e
      exact ⟨t, ht, e.2.1.symm, i, hi, e.1, e.2.2⟩
    · rintro ⟨t, ht, rfl, i, hi, rfl, rfl⟩
      exact ⟨t, ht, mem_rowsOf.2 ⟨i, hi, rfl⟩⟩
  have huniq : ∀ t ∈ ss, ∀ u ∈ ss, t.1 = u.1 → t = u := by
    intro t ht u hu e
    exact List.inj_on_of_nodup_map h.nums ht hu e
  constructor
  · rintro ⟨t, ht, hl, h2⟩
    have hne : t.2.2 ≠ [] := h.ne t ht
    refine ⟨t.1, 1 + ((t.2.2.length - 1 : ℕ) : ℤ), (hmem _ _ _).2 ⟨t, ht, rfl, t.2.2.length - 1, by omega, ?_, rfl⟩,
      by omega, ?_⟩
    · rw [List.getLast?_eq_some_getLast hne, Option.some.injEq, List.getLast_eq_getElem] at hl
      exact hl.symm
    · intro m hm
      obtain ⟨u, hu, e, i, hi, _, hr⟩ := (hmem _ _ _).1 hm
      have := huniq u hu t ht e
      subst this
      omega
  · rintro ⟨s, r, hm, hr, hno⟩
    obtain ⟨t, ht, rfl, i, hi, rfl, rfl⟩ := (hmem _ _ _).1 hm
    have hlast : i + 1 = t.2.2.length := by
      by_contra hc
      have hi' : i + 1 < t.2.2.length := by omega
      exact hno _ ((hmem _ _ _).2 ⟨t, ht, rfl, i + 1, hi', rfl, by push_cast; ring⟩)
    refine ⟨t, ht, ?_, by omega⟩
    rw [List.getLast?_eq_some_getLast (h.ne t ht), Option.some.injEq, List.getLast_eq_getElem]
    congr 1
    omega

/-- **C72, what is true.** Once there is a network, `reach_data` raises `IndexError` if it is empty,
`KeyError` if a segment of two or more reaches ends in a cell whose column is the number of a segment without
outseg, and succeeds otherwise. -/
theorem C72_exact_partial (hf : N ≤ fuel) {o o' : Obj N} {arg : Option (Fin N → ℤ)}
    {grp : Bool} {sg : Dict ℤ ℤ} {nsr : List (Fin N × ℤ × ℤ)} (hs : o.Sound limit fuel)
    (h : o.network limit fuel arg grp = .ok (o', (sg, nsr))) :
    ((∃ tbl, o.reachData limit fuel G arg grp = .ok (o', tbl)) ↔ nsr ≠ [] ∧
      ∀ n s r, (n, s, r) ∈ nsr → 1 < r → (∀ m, (m, s, r + 1) ∉ nsr) →
        sg.get? ((n.val % G.ncol : ℕ) : ℤ) ≠ some 0) ∧
    (nsr = [] → o.reachData limit fuel G arg grp = .err .indexError) ∧
    (∀ n s r, (n, s, r) ∈ nsr → 1 < r → (∀ m, (m, s, r + 1) ∉ nsr) →
        sg.get? ((n.val % G.ncol : ℕ) : ℤ) = some 0 →
      o.reachData limit fuel G arg grp = .err .keyError) := by
  obtain ⟨h1, h2, h3, sa, h4, h5⟩ := network_ok hs h
  obtain ⟨ss, hss⟩ := isNet_netOf hf h4
  have hcol : Collision G.ncol sg ss ↔ ∃ n s r, (n, s, r) ∈ nsr ∧ 1 < r ∧ (∀ m, (m, s, r + 1) ∉ nsr) ∧
      sg.get? ((n.val % G.ncol : ℕ) : ℤ) = some 0 := by
    constructor
    · rintro ⟨t, ht, c, hc, h2, h0⟩
      obtain ⟨s, r, e1, e2, e3⟩ := (last_row_iff hss c).1 ⟨t, ht, hc, h2⟩
      exact ⟨c, s, r, e1, e2, e3, h0⟩
    · rintro ⟨c, s, r, e1, e2, e3, h0⟩
      obtain ⟨t, ht, hc, h2⟩ := (last_row_iff hss c).2 ⟨s, r, e1, e2, e3⟩
      exact ⟨t, ht, c, hc, h2, h0⟩
  have hrd : o.reachData limit fuel G arg grp = (reachTable G sg nsr).map fun t => (o', t) := by
    unfold Obj.reachData
    rw [h, Res.bind_ok]
  rcases reachTable_cases G hss with ⟨hc, e⟩ | ⟨hn, e⟩ | ⟨hc, hn, e⟩
  · rw [hrd, e]
    obtain ⟨n, s, r, e1, e2, e3, h0⟩ := hcol.1 hc
    refine ⟨⟨(fun ⟨_, hx⟩ => by cases hx), ?_⟩, ?_, fun _ _ _ _ _ _ _ => rfl⟩
    · rintro ⟨_, hall⟩
      exact absurd h0 (hall n s r e1 e2 e3)
    · rintro rfl; cases e1
  · rw [hrd, e]
    refine ⟨⟨(fun ⟨_, hx⟩ => by cases hx), fun hx => absurd hn hx.1⟩, fun _ => rfl, ?_⟩
    intro n s r hm
    rw [hn] at hm; cases hm
  · rw [hrd, e]
    refine ⟨⟨fun _ => ⟨hn, ?_⟩, fun _ => ⟨_, rfl⟩⟩, fun hx => absurd hx hn, ?_⟩
    · intro n s r e1 e2 e3 h0
      exact hc (hcol.2 ⟨n, s, r, e1, e2, e3, h0⟩)
    · intro n s r e1 e2 e3 h0
      exact absurd (hcol.2 ⟨n, s, r, e1, e2, e3, h0⟩) hc

/-- **C79 is false**: once the object has a network, the stream array passed to `reach_data` is ignored. -/
theorem C79_refuted {o : Obj N} {net : Dict ℤ ℤ × List (Fin N × ℤ × ℤ)} (h : o.net = some net)
    (sa1 sa2 : Fin N → ℤ) (g1 g2 : Bool) :
    o.reachData limit fuel G (some sa1) g1 = o.reachData limit fuel G (some sa2) g2 := by
  simp [Obj.reachData, Obj.network, Obj.source, h]

/-- **C79, what is true**: an object without network uses the array given (or stored), and keeps the
network. -/
theorem C79_first_partial {o : Obj N} (h : o.net = none) {arg : Option (Fin N → ℤ)} {sa : Fin N → ℤ}
    (hsa : o.source arg = .ok sa) (grp : Bool) :
    o.reachData limit fuel G arg grp = (mf2005 limit fuel false o.fdir sa grp).bind fun out =>
      (reachTable G out.sg out.nsr).map fun t =>
        ({ o with streamArray := some out.sa, net := some (out.sg, out.nsr) }, t) := by
  unfold Obj.reachData Obj.network
  rw [hsa, Res.bind_ok, h]
  dsimp only
  unfold Obj.connect
  cases mf2005 limit fuel false o.fdir sa grp <;> rfl

end

/-! ### Segment data -/

theorem increasing_exact {l : List ℤ} (hp : l.Pairwise (· < ·)) (h1 : ∀ x ∈ l, 1 ≤ x)
    (h2 : ∀ x ∈ l, x ≤ l.length) : ∀ (k : ℕ) (hk : k < l.length), l[k] = (k : ℤ) + 1 := by
  have hlow : ∀ (k : ℕ) (hk : k < l.length), (k : ℤ) + 1 ≤ l[k] := by
    intro k
    induction k with
    | zero => intro hk; simpa using h1 _ (List.getElem_mem hk)
    | succ k ih =>
      intro hk
      have a := ih (by omega)
      have b := List.pairwise_iff_getElem.1 hp k (k + 1) (by omega) hk (by omega)
      push_cast
      omega
  have hup : ∀ (j k : ℕ) (hk : k < l.length), k + j = l.length - 1 → l[k] ≤ (k : ℤ) + 1 := by
    intro j
    induction j with
    | zero =>
      intro k hk e
      have := h2 _ (List.getElem_mem hk)
      omega
    | succ j ih =>
      intro k hk e
      have a := ih (k + 1) (by omega) (by omega)
      have b := List.pairwise_iff_getElem.1 hp k (k + 1) (by omega) (by omega) (by omega)
      push_cast at a
      omega
  intro k hk
  have := hlow k hk
  have := hup (l.length - 1 - k) k hk (by omega)
  omega

/-- **C73.** Row `k` (from 0) of `segment_data` is segment `k + 1`, its outseg that of the stored graph; there
is one row per segment. -/
theorem C73_segment_data [Zero K] (hf : N ≤ fuel) {o o' : Obj N}
    {arg : Option (Fin N → ℤ)} {grp : Bool} {tbl : List (SRow K)} (hs : o.Sound limit fuel)
    (h : o.segmentData K limit fuel arg grp = .ok (o', tbl)) :
    ∃ sg nsr, o'.net = some (sg, nsr) ∧ o'.Sound limit fuel ∧ tbl.length = sg.length ∧
      (∀ (k : ℕ) (row : SRow K), tbl[k]? = some row → row.nseg = (k : ℤ) + 1 ∧ sg.get? row.nseg = some row.outseg) ∧
      ∀ s t, sg.get? s = some t → ∃ row ∈ tbl, row.nseg = s ∧ row.outseg = t := by
  unfold Obj.segmentData at h
  obtain ⟨⟨o1, sg, nsr⟩, hn, h⟩ := Res.map_eq_ok.1 h
  simp only [Prod.mk.injEq] at h
  obtain ⟨rfl, rfl⟩ := h
  obtain ⟨h1, h2, h3, sa, h4, h5⟩ := network_ok hs hn
  obtain ⟨ss, hss⟩ := isNet_netOf hf h4
  have hsort : sortItems sg = (sorted ss).map (fun t => (t.1, t.2.1)) := by
    rw [hss.sg_eq]; exact sortItems_sorted ss
  have hknd : sg.keys.Nodup := by
    have e : sg.keys = ss.map (·.1) := by rw [hss.sg_eq]; simp [Dict.keys]
    rw [e]; exact hss.nums
  have hlen : (sorted ss).length = ss.length := (sorted_perm ss).length_eq
  refine ⟨sg, nsr, h2, h3, ?_, ?_, ?_⟩
  · simp only [segmentTable, hsort, List.length_map, hlen]
    rw [hss.sg_eq, List.length_map]
  · intro k row hk
    simp only [segmentTable, hsort, List.getElem?_map] at hk
    cases ht : (sorted ss)[k]? with
    | none => rw [ht] at hk; cases hk
    | some t =>
      rw [ht] at hk
      simp only [Option.map_some, Option.some.injEq] at hk
      subst hk
      dsimp only
      obtain ⟨hk, rfl⟩ := List.getElem?_eq_some_iff.1 ht
      have hmem : (sorted ss)[k] ∈ ss := (sorted_perm ss).mem_iff.1 (List.getElem_mem hk)
      constructor
      · have := increasing_exact (l := (sorted ss).map (·.1)) (List.pairwise_map.2 (sorted_lt hss.nums))
          (by
            intro x hx
            obtain ⟨t, ht, rfl⟩ := List.mem_map.1 hx
            exact hss.pos t ((sorted_perm ss).mem_iff.1 ht))
          (by
            intro x hx
            obtain ⟨t, ht, rfl⟩ := List.mem_map.1 hx
            rw [List.length_map, hlen]
            exact hss.bound t ((sorted_perm ss).mem_iff.1 ht)) k (by simpa using hk)
        simpa using this
      · apply Dict.get?_of_mem hknd
        rw [hss.sg_eq]
        exact List.mem_map.2 ⟨_, hmem, rfl⟩
  · intro s t hst
    have hm := Dict.mem_of_get? hst
    rw [hss.sg_eq] at hm
    obtain ⟨u, hu, he⟩ := List.mem_map.1 hm
    cases he
    refine ⟨_, List.mem_map.2 ⟨(u.1, u.2.1), ?_, rfl⟩, rfl, rfl⟩
    rw [hsort]
    exact List.mem_map.2 ⟨u, (sorted_perm ss).mem_iff.2 hu, rfl⟩

/-! ### The builder -/

section Builder

variable [Field K] [LinearOrder K] {G : SGrid N K} {cfuel : ℕ}

theorem kwLoop_cons (name : String) (rest : List String) :
    kwLoop (name :: rest) = .err .keyError ∨ kwLoop (name :: rest) = .err .valueError := by
  unfold kwLoop
  split
  · rename_i a _ _
    left
    rw [if_neg]
    intro h
    have : ∀ k ∈ keywords, k.toList.length ≠ 1 := by decide +kernel
    exact this _ h (by simp)
  · right; rfl

/-- **C69 is false**: any keyword other than `group_segments` — in particular each documented one — makes the
builder raise `KeyError` or `ValueError`. -/
theorem C69_refuted (o : Obj N) (rd : Option (List (Row K))) (sd : Option (List (SRow K)))
    (ir : Option (Fin N → ℤ)) (dflt grp : Bool) {kw : List String} (h : kw ≠ []) :
    o.builder limit fuel cfuel G rd sd ir dflt grp kw = .err .keyError ∨
      o.builder limit fuel cfuel G rd sd ir dflt grp kw = .err .valueError := by
  cases kw with
  | nil => exact absurd rfl h
  | cons name rest =>
    unfold Obj.builder
    rcases kwLoop_cons name rest with e | e
    · left; rw [e]; rfl
    · right; rw [e]; rfl

/-- **C69, what is true**: without further keywords the call is not rejected; with all three tables given and
`apply_defaults=False` they are returned as they are. -/
theorem C69_none_partial (o : Obj N) (rd : List (Row K)) (sd : List (SRow K)) (ir : Fin N → ℤ) (grp : Bool) :
    o.builder limit fuel cfuel G (some rd) (some sd) (some ir) false grp [] = .ok (o, rd, sd, ir) := rfl

theorem fixRows_ok {tbl l l' : List (Row K)} (h : fixRows G tbl l = .ok l') :
    l'.length = l.length ∧ ∀ (k : ℕ) (row : Row K), l[k]? = some row → ∃ row', l'[k]? = some row' ∧
      fixRow G tbl row = .ok row' := by
  induction l generalizing l' with
  | nil =>
    simp only [fixRows, Res.ok.injEq] at h
    subst h
    simp
  | cons d l ih =>
    rw [fixRows] at h
    obtain ⟨d', hd, h⟩ := Res.bind_eq_ok.1 h
    obtain ⟨l2, hl2, rfl⟩ := Res.map_eq_ok.1 h
    obtain ⟨h1, h2⟩ := ih hl2
    refine ⟨by simp [h1], fun k row hk => ?_⟩
    cases k with
    | zero =>
      simp only [List.getElem?_cons_zero, Option.some.injEq] at hk
      subst hk
      exact ⟨d', rfl, hd⟩
    | succ k =>
      rw [List.getElem?_cons_succ] at hk
      simpa using h2 k row hk

/-- The slope before it is limited: 0.001 between cells at distance 0, otherwise drop over distance. -/
def rawSlope (G : SGrid N K) (n m : Fin N) : Option K :=
  if G.sqrt ((G.xc n - G.xc m) ^ 2 + (G.yc n - G.yc m) ^ 2) = 0 then some (1 / 1000)
  else match G.top n, G.top m with
    | some a, some b => some ((a - b) / G.sqrt ((G.xc n - G.xc m) ^ 2 + (G.yc n - G.yc m) ^ 2))
    | _, _ => none

/-- the row after the loop -/
def fixed (G : SGrid N K) (rec : Row K) (n m : Fin N) : Row K :=
  { rec with strtop := G.top n, slope := clamp (rawSlope G n m), strhc1 := 1, strthick := 1 }

theorem fixRow_ok {tbl : List (Row K)} {rec row : Row K} (h : fixRow G tbl rec = .ok row) :
    ∃ n m, pyIndex N rec.node = .ok n ∧
      ((tbl.length ≤ rec.outreach - 1 ∧ m = n) ∨ (rec.outreach - 1 < tbl.length ∧
        ∃ k, pyIndex tbl.length (rec.outreach - 1) = .ok k ∧ pyIndex N (tbl.get k).node = .ok m)) ∧
      row = fixed G rec n m := by
  unfold fixRow at h
  obtain ⟨nd, h1, h⟩ := Res.bind_eq_ok.1 h
  obtain ⟨n, h2, h⟩ := Res.bind_eq_ok.1 h
  obtain ⟨m, h3, h⟩ := Res.map_eq_ok.1 h
  refine ⟨n, m, h2, ?_, ?_⟩
  · split at h1
    · rename_i hge
      cases h1
      rw [h2] at h3
      exact .inl ⟨hge, (Res.ok.inj h3).symm⟩
    · rename_i hge
      obtain ⟨k, hk, rfl⟩ := Res.map_eq_ok.1 h1
      exact .inr ⟨by omega, k, hk, h3⟩
  · rw [← h]
    have e : rawSlope G n m =
        if G.dist n m = 0 then some (1 / 1000) else G.grade n m (G.dist n m) := by
      unfold rawSlope SGrid.grade SGrid.dist
      split
      · rfl
      · rename_i hd
        cases G.top n with
        | none => rfl
        | some a =>
          cases G.top m with
          | none => rfl
          | some b => simp
    unfold fixed
    rw [e]

theorem clamp_range [IsStrictOrderedRing K] {s t : K} (h : clamp (some s) = some t) :
    1 / 10000 ≤ t ∧ t ≤ 1 ∧ (1 / 10000 ≤ s → s ≤ 1 → t = s) := by
  have h0 : (1 : K) / 10000 ≤ 1 := by norm_num
  unfold clamp at h
  dsimp only at h
  split at h
  · rename_i h1
    cases h
    exact ⟨h0, le_refl _, fun _ hs => absurd h1 (not_lt.2 hs)⟩
  · rename_i h1
    split at h
    · rename_i h2
      cases h
      exact ⟨le_refl _, h0, fun hs => absurd h2 (not_lt.2 hs)⟩
    · rename_i h2
      cases h
      exact ⟨not_lt.1 h2, not_lt.1 h1, fun _ _ => rfl⟩

theorem builder_defaults {o o' : Obj N} {rd : Option (List (Row K))} {sd : Option (List (SRow K))}
    {ir : Option (Fin N → ℤ)} {grp : Bool} {kw : List String} {rows : List (Row K)} {segs : List (SRow K)}
    {irun : Fin N → ℤ}
    (h : o.builder limit fuel cfuel G rd sd ir true grp kw = .ok (o', rows, segs, irun)) :
    ∃ o1 o2 tbl stbl, orElse rd o (o.reachData limit fuel G none grp) = .ok (o1, tbl) ∧
      orElse sd o1 (o1.segmentData K limit fuel none grp) = .ok (o2, stbl) ∧
      orElse ir o2 (o2.irun limit fuel cfuel grp) = .ok (o', irun) ∧
      fixRows G tbl tbl = .ok rows ∧ segs = stbl.map fixSeg := by
  unfold Obj.builder at h
  obtain ⟨_, _, h⟩ := Res.bind_eq_ok.1 h
  obtain ⟨⟨o1, tbl⟩, h1, h⟩ := Res.bind_eq_ok.1 h
  obtain ⟨⟨o2, stbl⟩, h2, h⟩ := Res.bind_eq_ok.1 h
  obtain ⟨⟨o3, i⟩, h3, h⟩ := Res.bind_eq_ok.1 h
  rw [if_pos rfl] at h
  obtain ⟨r, hr, h⟩ := Res.map_eq_ok.1 h
  simp only [Prod.mk.injEq] at h
  obtain ⟨rfl, rfl, rfl, rfl⟩ := h
  exact ⟨o1, o2, tbl, stbl, h1, h2, h3, hr, rfl⟩

/-- **C70.** With `apply_defaults` every slope of the builder's reach table that is a number lies between
0.0001 and 1; if the elevations of the grid are all known, it is a number. -/
theorem C70_limits [IsStrictOrderedRing K] {o o' : Obj N} {rd : Option (List (Row K))}
    {sd : Option (List (SRow K))} {ir : Option (Fin N → ℤ)} {grp : Bool} {kw : List String}
    {rows : List (Row K)} {segs : List (SRow K)} {irun : Fin N → ℤ}
    (h : o.builder limit fuel cfuel G rd sd ir true grp kw = .ok (o', rows, segs, irun)) :
    ∀ row ∈ rows, (∀ s, row.slope = some s → 1 / 10000 ≤ s ∧ s ≤ 1) ∧
      ((∀ n, G.top n ≠ none) → ∃ s, row.slope = some s) := by
  obtain ⟨o1, o2, tbl, stbl, _, _, _, hr, _⟩ := builder_defaults h
  intro row hrow
  obtain ⟨k, hk, rfl⟩ := List.mem_iff_getElem.1 hrow
  obtain ⟨hlen, hall⟩ := fixRows_ok hr
  obtain ⟨row', h1, h2⟩ := hall k tbl[k] (List.getElem?_eq_getElem (by omega))
  rw [List.getElem?_eq_getElem hk, Option.some.injEq] at h1
  subst h1
  obtain ⟨n, m, _, _, e⟩ := fixRow_ok h2
  have es : rows[k].slope = clamp (rawSlope G n m) := by rw [e]; rfl
  rw [es]
  constructor
  · intro s hs
    cases hx : rawSlope G n m with
    | none => rw [hx] at hs; cases hs
    | some x =>
      rw [hx] at hs
      exact ⟨(clamp_range hs).1, (clamp_range hs).2.1⟩
  · intro htop
    have : ∃ x, rawSlope G n m = some x := by
      obtain ⟨a, ha⟩ := Option.ne_none_iff_exists'.1 (htop n)
      obtain ⟨b, hb⟩ := Option.ne_none_iff_exists'.1 (htop m)
      unfold rawSlope
      rw [ha, hb]
      split <;> exact ⟨_, rfl⟩
    obtain ⟨x, hx⟩ := this
    rw [hx]
    unfold clamp
    dsimp only
    split
    · exact ⟨_, rfl⟩
    · split <;> exact ⟨_, rfl⟩

/-- **C80 is false; the exact behaviour.** The slopes the builder computes for its own reach table are not
those towards the downstream reach: `outreach` is 0 in every row, so that every slope is the (limited) slope
towards the cell of the **last** row of the table. -/
theorem C80_refuted (hf : N ≤ fuel) {o o' : Obj N} (hs : o.Sound limit fuel)
    {sd : Option (List (SRow K))} {ir : Option (Fin N → ℤ)} {grp : Bool} {kw : List String}
    {rows : List (Row K)} {segs : List (SRow K)} {irun : Fin N → ℤ}
    (h : o.builder limit fuel cfuel G none sd ir true grp kw = .ok (o', rows, segs, irun)) :
    ∃ last lastRow, rows.getLast? = some lastRow ∧ lastRow.node = ((last : Fin N).val : ℤ) ∧
      ∀ row ∈ rows, ∃ n : Fin N, row.node = n.val ∧ row.strtop = G.top n ∧ row.strhc1 = 1 ∧ row.strthick = 1 ∧
        row.slope = clamp (rawSlope G n last) := by
  obtain ⟨o1, o2, tbl, stbl, h1, _, _, hr, _⟩ := builder_defaults h
  have h1 : o.reachData limit fuel G none grp = .ok (o1, tbl) := h1
  have hne : tbl ≠ [] := by
    rintro rfl
    unfold Obj.reachData at h1
    obtain ⟨x, _, h1⟩ := Res.bind_eq_ok.1 h1
    obtain ⟨t, ht, h1⟩ := Res.map_eq_ok.1 h1
    simp only [Prod.mk.injEq] at h1
    rw [h1.2] at ht
    unfold reachTable at ht
    obtain ⟨_, _, ht⟩ := Res.bind_eq_ok.1 ht
    obtain ⟨y, _, ht⟩ := Res.bind_eq_ok.1 ht
    unfold toTable at ht
    split at ht
    · cases ht
    · rename_i hy
      simp only [Res.ok.injEq, List.map_eq_nil_iff] at ht
      exact hy ht
  obtain ⟨sg, nsr, sa, ss, _, _, _, _, _, htbl⟩ := reachData_ok hf hs h1
  have hprops : ∀ row ∈ tbl, ∃ n : Fin N, row.node = n.val ∧ row.outreach = 0 := by
    intro row hrow
    rw [htbl] at hrow
    obtain ⟨⟨⟨n, s, r⟩, k⟩, hx, rfl⟩ := List.mem_map.1 hrow
    refine ⟨n, ?_, rfl⟩
    show ((n.val / G.ncol * G.ncol + n.val % G.ncol : ℕ) : ℤ) = n.val
    rw [Nat.div_add_mod']
  have hpy : ∀ n : Fin N, pyIndex N ((n : ℕ) : ℤ) = .ok n := by
    intro n
    have := n.isLt
    unfold pyIndex
    rw [dif_pos ⟨by omega, by omega⟩]
    congr 1
  obtain ⟨last, hlast, _⟩ := hprops _ (List.getLast_mem hne)
  have hpos := List.length_pos_iff.2 hne
  obtain ⟨hlen, hall⟩ := fixRows_ok hr
  have hrow : ∀ (k : ℕ) (hk : k < tbl.length), ∃ n : Fin N, tbl[k].node = n.val ∧
      rows[k]? = some (fixed G tbl[k] n last) := by
    intro k hk
    obtain ⟨row', e1, e2⟩ := hall k tbl[k] (List.getElem?_eq_getElem hk)
    obtain ⟨n, m, e3, e4, e5⟩ := fixRow_ok e2
    obtain ⟨n', e6, e7⟩ := hprops _ (List.getElem_mem hk)
    rw [e6, hpy, Res.ok.injEq] at e3
    subst e3
    refine ⟨n', e6, ?_⟩
    rw [e1, e5]
    rcases e4 with ⟨e4, _⟩ | ⟨e4, j, hj, hm⟩
    · rw [e7] at e4; omega
    · rw [e7] at hj
      have : j = ⟨tbl.length - 1, by omega⟩ := by
        unfold pyIndex at hj
        rw [dif_neg (by omega), dif_pos (by omega)] at hj
        rw [← Res.ok.inj hj]
        apply Fin.ext
        simp only
        omega
      subst this
      rw [List.get_eq_getElem, ← List.getLast_eq_getElem hne, hlast, hpy, Res.ok.injEq] at hm
      subst hm
      rfl
  obtain ⟨nl, hnl, hrl⟩ := hrow (tbl.length - 1) (by omega)
  refine ⟨last, fixed G (tbl[tbl.length - 1]'(by omega)) nl last, ?_, ?_, ?_⟩
  · rw [List.getLast?_eq_getElem?, hlen]
    exact hrl
  · show (tbl[tbl.length - 1]'(by omega)).node = _
    rw [← List.getLast_eq_getElem hne, hlast]
  · intro row hrow'
    obtain ⟨k, hk, rfl⟩ := List.mem_iff_getElem.1 hrow'
    obtain ⟨n, e1, e2⟩ := hrow k (by omega)
    rw [List.getElem?_eq_getElem hk, Option.some.injEq] at e2
    refine ⟨n, ?_, ?_⟩
    · rw [e2]; exact e1
    · rw [e2]; exact ⟨rfl, rfl, rfl, rfl⟩

/-- **C80, what is true**: a row of a table passed by the caller whose `outreach` is the number `k` of a row
(1 ≤ k ≤ number of rows) gets the limited slope towards the cell of that row. -/
theorem C80_given_partial {o o' : Obj N} {tbl : List (Row K)} {sd : Option (List (SRow K))}
    {ir : Option (Fin N → ℤ)} {grp : Bool} {kw : List String} {rows : List (Row K)} {segs : List (SRow K)}
    {irun : Fin N → ℤ}
    (h : o.builder limit fuel cfuel G (some tbl) sd ir true grp kw = .ok (o', rows, segs, irun)) :
    rows.length = tbl.length ∧ ∀ (i k : ℕ) (hi : i < tbl.length) (hk : k < tbl.length),
      tbl[i].outreach = (k : ℤ) + 1 → ∃ n m row, pyIndex N tbl[i].node = .ok n ∧
        pyIndex N tbl[k].node = .ok m ∧ rows[i]? = some row ∧ row.strtop = G.top n ∧
        row.slope = clamp (rawSlope G n m) := by
  obtain ⟨o1, o2, tbl', stbl, h1, _, _, hr, _⟩ := builder_defaults h
  simp only [orElse, Res.ok.injEq, Prod.mk.injEq] at h1
  obtain ⟨rfl, rfl⟩ := h1
  obtain ⟨hlen, hall⟩ := fixRows_ok hr
  refine ⟨hlen, fun i k hi hk hout => ?_⟩
  obtain ⟨row, e1, e2⟩ := hall i tbl[i] (List.getElem?_eq_getElem hi)
  obtain ⟨n, m, e3, e4, e5⟩ := fixRow_ok e2
  rcases e4 with ⟨e4, _⟩ | ⟨e4, j, hj, hm⟩
  · omega
  · have : j = ⟨k, hk⟩ := by
      rw [hout] at hj
      unfold pyIndex at hj
      rw [dif_pos (by omega)] at hj
      rw [← Res.ok.inj hj]
      apply Fin.ext
      simp only
      omega
    subst this
    exact ⟨n, m, row, e3, hm, e1, by rw [e5]; rfl, by rw [e5]; rfl⟩

/-- **C81.** With `apply_defaults` the returned segment table has the segments and outsegs of the table used
and the documented default in each of the nine parameter columns; other columns are unchanged. -/
theorem C81_segment_defaults {o o' : Obj N} {rd : Option (List (Row K))} {sd : Option (List (SRow K))}
    {ir : Option (Fin N → ℤ)} {grp : Bool} {kw : List String} {rows : List (Row K)} {segs : List (SRow K)}
    {irun : Fin N → ℤ}
    (h : o.builder limit fuel cfuel G rd sd ir true grp kw = .ok (o', rows, segs, irun)) :
    ∃ (o1 o2 : Obj N) (stbl : List (SRow K)), orElse sd o1 (o1.segmentData K limit fuel none grp) = .ok (o2, stbl) ∧
      segs.map (fun s => (s.nseg, s.outseg)) = stbl.map (fun s => (s.nseg, s.outseg)) ∧
      (∀ s ∈ segs, s.param "etsw" = 0 ∧ s.param "flow" = 1 ∧ s.param "icalc" = 1 ∧ s.param "iprior" = 0 ∧
        s.param "pptsw" = 0 ∧ s.param "roughch" = 25 / 1000 ∧ s.param "runoff" = 0 ∧ s.param "width1" = 10 ∧
        s.param "width2" = 10) ∧
      ∀ k, k ∉ ["etsw", "flow", "icalc", "iprior", "pptsw", "roughch", "runoff", "width1", "width2"] →
        segs.map (fun s => s.param k) = stbl.map (fun s => s.param k) := by
  obtain ⟨o1, o2, tbl, stbl, _, h2, _, _, rfl⟩ := builder_defaults h
  refine ⟨o1, o2, stbl, h2, by simp [fixSeg, Function.comp_def], ?_, ?_⟩
  · intro s hs
    obtain ⟨t, _, rfl⟩ := List.mem_map.1 hs
    simp [fixSeg, segDefaults, Dict.get?]
  · intro k hk
    have : Dict.get? (segDefaults K) k = none := Dict.get?_eq_none.2 hk
    simp [fixSeg, Function.comp_def, this]

end Builder

end Dany.Rdata
