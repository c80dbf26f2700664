import Verif.Rdata.Model
import Verif.Seg.Ungroup

/-!
# `reach_data` on a numbered network: the table computed
-/

namespace Dany.Rdata

open Function Reach Seg

variable {N : ℕ} {K : Type*} {fdir sa : Fin N → ℤ}

/-- A numbered network: segments (number, next number, cells) that make up the two tables. -/
structure IsNet (fdir sa : Fin N → ℤ) (sg : Dict ℤ ℤ) (nsr : List (Fin N × ℤ × ℤ))
    (ss : List (ℤ × ℤ × List (Fin N))) : Prop where
  sg_eq : sg = ss.map (fun t => (t.1, t.2.1))
  nsr_eq : nsr = ss.flatMap (fun t => rowsOf t.1 1 t.2.2)
  nums : (ss.map (·.1)).Nodup
  pos : ∀ t ∈ ss, 1 ≤ t.1
  bound : ∀ t ∈ ss, t.1 ≤ ss.length
  ne : ∀ t ∈ ss, t.2.2 ≠ []
  stream : ∀ t ∈ ss, ∀ c ∈ t.2.2, sa c ≠ 0
  path : ∀ t ∈ ss, List.IsChain (Feeds fdir sa) t.2.2
  out : ∀ t ∈ ss, ∀ c, t.2.2.getLast? = some c →
    (t.2.1 = 0 ∧ ∀ m, Feeds fdir sa c m → m = c) ∨
      (t.2.1 ≠ 0 ∧ ∃ t' ∈ ss, t'.1 = t.2.1 ∧ ∃ m, t'.2.2.head? = some m ∧ Feeds fdir sa c m)

variable {sg : Dict ℤ ℤ} {nsr : List (Fin N × ℤ × ℤ)} {ss : List (ℤ × ℤ × List (Fin N))}

theorem rowsOf_filter_self (s r : ℤ) (p : List (Fin N)) :
    (rowsOf s r p).filter (fun x => decide (x.2.1 = s)) = rowsOf s r p := by
  rw [List.filter_eq_self]
  intro x hx
  obtain ⟨i, _, rfl⟩ := mem_rowsOf.1 hx
  simp

theorem rowsOf_filter_ne {s s' : ℤ} (h : s ≠ s') (r : ℤ) (p : List (Fin N)) :
    (rowsOf s r p).filter (fun x => decide (x.2.1 = s')) = [] := by
  rw [List.filter_eq_nil_iff]
  intro x hx
  obtain ⟨i, _, rfl⟩ := mem_rowsOf.1 hx
  simpa using h

/-- the rows of a segment -/
theorem filter_rows {ss : List (ℤ × ℤ × List (Fin N))} (hn : (ss.map (·.1)).Nodup)
    {t : ℤ × ℤ × List (Fin N)} (ht : t ∈ ss) :
    (ss.flatMap (fun t => rowsOf t.1 1 t.2.2)).filter (fun x => decide (x.2.1 = t.1)) =
      rowsOf t.1 1 t.2.2 := by
  induction ss with
  | nil => cases ht
  | cons u ss ih =>
    rw [List.map_cons, List.nodup_cons] at hn
    rw [List.flatMap_cons, List.filter_append]
    rcases List.mem_cons.1 ht with rfl | ht
    · rw [rowsOf_filter_self]
      have : (ss.flatMap (fun t => rowsOf t.1 1 t.2.2)).filter (fun x => decide (x.2.1 = t.1)) = [] := by
        rw [List.filter_eq_nil_iff]
        intro x hx
        obtain ⟨v, hv, hx⟩ := List.mem_flatMap.1 hx
        obtain ⟨i, _, rfl⟩ := mem_rowsOf.1 hx
        simp only [decide_eq_true_eq]
        intro e
        exact hn.1 (List.mem_map.2 ⟨v, hv, e⟩)
      rw [this, List.append_nil]
    · have hne : u.1 ≠ t.1 := fun e => hn.1 (List.mem_map.2 ⟨t, ht, e.symm⟩)
      rw [rowsOf_filter_ne hne, List.nil_append]
      exact ih hn.2 ht

/-- the first cell of a segment -/
theorem find_rows (h : IsNet fdir sa sg nsr ss) {t : ℤ × ℤ × List (Fin N)} (ht : t ∈ ss) {m : Fin N}
    (hm : t.2.2.head? = some m) : nsr.find? (fun r => decide (r.2.1 = t.1)) = some (m, t.1, 1) := by
  rw [← List.head?_filter, h.nsr_eq, filter_rows h.nums ht]
  cases hp : t.2.2 with
  | nil => rw [hp] at hm; cases hm
  | cons a p =>
    rw [hp] at hm
    simp only [List.head?_cons, Option.some.injEq] at hm
    simp [rowsOf, hm]

section

variable [Field K] [DecidableEq K] (G : SGrid N K)

/-- the record of a cell, the next cell being read off `fdir` -/
def draftOf (fdir sa : Fin N → ℤ) (n : Fin N) (s r : ℤ) (id : ℕ) (down : Option ℕ) : Draft K :=
  ⟨G.getNode (G.lrc n), (G.lrc n).1, (G.lrc n).2, s, r, (lenSlope G n (dn fdir sa n)).1, G.top n,
    (lenSlope G n (dn fdir sa n)).2, id, down⟩

/-- the records of the cells of a segment from position `ix` on -/
def segDrafts (fdir sa : Fin N → ℤ) (s : ℤ) : ℕ → ℕ → List (Fin N) → List (Draft K)
  | _, _, [] => []
  | ix, id, c :: rest =>
    draftOf G fdir sa c s (1 + ix) id
      (if ix = 0 then some (id + 1) else if rest = [] then none else some (id + 1))
      :: segDrafts fdir sa s (ix + 1) (id + 1) rest

/-- the records of all segments -/
def allDrafts (fdir sa : Fin N → ℤ) : ℕ → List (ℤ × ℤ × List (Fin N)) → List (Draft K)
  | _, [] => []
  | id, t :: T => segDrafts G fdir sa t.1 0 id t.2.2 ++ allDrafts fdir sa (id + t.2.2.length) T

theorem lenSlope_self (n : Fin N) : lenSlope G n (some n) = lenSlope G n none := by
  simp [lenSlope]

theorem feeds_fun {a b c : Fin N} (h1 : Feeds fdir sa a b) (h2 : Feeds fdir sa a c) : b = c := by
  have := h1.2.2.symm.trans h2.2.2
  apply Fin.ext
  exact_mod_cast this

theorem lenSlope_dn_of_none {n : Fin N} (hn : sa n ≠ 0) (h : ∀ m, Feeds fdir sa n m → m = n) :
    lenSlope G n (dn fdir sa n) = lenSlope G n none := by
  cases hd : dn fdir sa n with
  | none => rfl
  | some m =>
    rw [h m ((dn_feeds hn).1 hd), lenSlope_self]

theorem segLoop_ok (h : IsNet fdir sa sg nsr ss) {t : ℤ × ℤ × List (Fin N)} (ht : t ∈ ss) :
    ∀ (p : List (Fin N)) (ix : ℕ) (st : RState K), (∃ q, t.2.2 = q ++ p) →
      segLoop G nsr t.1 t.2.1 ix (rowsOf t.1 (1 + ix) p) st =
        .ok ⟨st.recs ++ segDrafts G fdir sa t.1 ix st.reachid p, st.reachid + p.length,
          if ix = 0 ∧ p ≠ [] then st.lut.set t.1 st.reachid else st.lut⟩ := by
  intro p
  induction p with
  | nil => intro ix st _; simp [rowsOf, segLoop, segDrafts]
  | cons c rest ih =>
    intro ix st ⟨q, hq⟩
    have hc : c ∈ t.2.2 := by rw [hq]; simp
    have hcs := h.stream t ht c hc
    have hnext : ∃ o, nextCell nsr t.2.1 (rowsOf t.1 (1 + ix + 1) rest) = .ok o ∧
        lenSlope G c o = lenSlope G c (dn fdir sa c) := by
      cases rest with
      | cons d rest =>
        refine ⟨some d, rfl, ?_⟩
        have hch := h.path t ht
        rw [hq] at hch
        have hf : Feeds fdir sa c d := (List.isChain_append_cons_cons.1 hch).2.1
        rw [(dn_feeds hcs).2 hf]
      | nil =>
        have hl : t.2.2.getLast? = some c := by rw [hq]; simp
        rcases h.out t ht c hl with ⟨h0, hno⟩ | ⟨h0, t', ht', he, m, hm, hf⟩
        · refine ⟨none, by simp [nextCell, rowsOf, outCell, h0], ?_⟩
          rw [lenSlope_dn_of_none G hcs hno]
        · refine ⟨some m, ?_, ?_⟩
          · have := find_rows h ht' hm
            rw [he] at this
            simp [nextCell, rowsOf, outCell, h0, this]
          · rw [(dn_feeds hcs).2 hf]
    obtain ⟨o, ho, hls⟩ := hnext
    rw [rowsOf, segLoop, ho, Res.bind_ok]
    dsimp only
    have e : (1 + (ix : ℤ) + 1) = 1 + ((ix + 1 : ℕ) : ℤ) := by push_cast; ring
    rw [e, ih (ix + 1) _ ⟨q ++ [c], by simp [hq]⟩]
    have hr : (rowsOf t.1 (1 + ((ix + 1 : ℕ) : ℤ)) rest = []) ↔ rest = [] := by
      cases rest <;> simp [rowsOf]
    rw [hls]
    simp only [segDrafts, draftOf, List.append_assoc, List.singleton_append, hr, Nat.add_eq_zero_iff,
      one_ne_zero, and_false, false_and, if_false, List.length_cons, ne_eq, reduceCtorEq,
      not_false_eq_true, and_true]
    congr 2
    omega

theorem firstFold_ok (h : IsNet fdir sa sg nsr ss) :
    ∀ (T : List (ℤ × ℤ × List (Fin N))) (st : RState K), (∀ t ∈ T, t ∈ ss) →
      ∃ lut, (T.map (fun t => (t.1, t.2.1))).foldl (segStep G nsr) (.ok st) =
        .ok ⟨st.recs ++ allDrafts G fdir sa st.reachid T, st.reachid + (T.flatMap (·.2.2)).length, lut⟩ ∧
        ∀ s, s ∈ lut.keys ↔ s ∈ st.lut.keys ∨ s ∈ T.map (·.1) := by
  intro T
  induction T with
  | nil => intro st _; exact ⟨st.lut, by simp [allDrafts], by simp⟩
  | cons t T ih =>
    intro st hT
    have ht := hT t (by simp)
    have h0 : t.1 ≠ 0 := by have := h.pos t ht; omega
    rw [List.map_cons, List.foldl_cons]
    have e1 : segStep G nsr (.ok st) (t.1, t.2.1) = .ok ⟨st.recs ++ segDrafts G fdir sa t.1 0 st.reachid t.2.2,
        st.reachid + t.2.2.length, st.lut.set t.1 st.reachid⟩ := by
      have hrows : nsr.filter (fun r => decide (r.2.1 = t.1)) = rowsOf t.1 (1 + (0 : ℕ)) t.2.2 := by
        rw [h.nsr_eq, filter_rows h.nums ht]; simp
      rw [segStep, Res.bind_ok, if_pos h0, hrows, segLoop_ok G h ht t.2.2 0 st ⟨[], by simp⟩]
      simp [h.ne t ht]
    rw [e1]
    obtain ⟨lut, e2, hk⟩ := ih ⟨st.recs ++ segDrafts G fdir sa t.1 0 st.reachid t.2.2,
        st.reachid + t.2.2.length, st.lut.set t.1 st.reachid⟩ (fun u hu => hT u (List.mem_cons_of_mem _ hu))
    refine ⟨lut, ?_, ?_⟩
    · rw [e2]
      simp [allDrafts, Nat.add_assoc]
    · intro s
      rw [hk, Dict.mem_keys_set]
      simp only [List.map_cons, List.mem_cons]
      tauto

/-- the segments in increasing order -/
def sorted (ss : List (ℤ × ℤ × List (Fin N))) : List (ℤ × ℤ × List (Fin N)) :=
  ss.insertionSort (fun a b => a.1 ≤ b.1)

theorem sorted_perm (ss : List (ℤ × ℤ × List (Fin N))) : (sorted ss).Perm ss := List.perm_insertionSort _ _

theorem sorted_lt (hn : (ss.map (·.1)).Nodup) : (sorted ss).Pairwise (fun a b => a.1 < b.1) := by
  have h1 : (sorted ss).Pairwise (fun a b => a.1 ≤ b.1) := by
    have : IsTrans (ℤ × ℤ × List (Fin N)) (fun a b => a.1 ≤ b.1) := ⟨fun a b c => le_trans⟩
    have : Std.Total (fun a b : ℤ × ℤ × List (Fin N) => a.1 ≤ b.1) := ⟨fun a b => le_total _ _⟩
    exact List.pairwise_insertionSort _ _
  have h2 : ((sorted ss).map (·.1)).Nodup := ((sorted_perm ss).map _).nodup_iff.2 hn
  have h3 : (sorted ss).Pairwise (fun a b => a.1 ≠ b.1) := List.pairwise_map.1 h2
  exact (h1.and h3).imp (fun h => lt_of_le_of_ne h.1 h.2)

theorem sortItems_sorted (ss : List (ℤ × ℤ × List (Fin N))) :
    sortItems (ss.map (fun t => (t.1, t.2.1))) = (sorted ss).map (fun t => (t.1, t.2.1)) := by
  unfold sortItems sorted
  exact (List.map_insertionSort _ _ _ _ (by intros; rfl)).symm

theorem firstPass_ok (h : IsNet fdir sa sg nsr ss) :
    ∃ lut k, firstPass G sg nsr = .ok ⟨allDrafts G fdir sa 1 (sorted ss), k, lut⟩ ∧
      ∀ s, s ∈ lut.keys ↔ s ∈ sg.keys := by
  unfold firstPass
  have hs : sortItems sg = (sorted ss).map (fun t => (t.1, t.2.1)) := by
    rw [h.sg_eq]; exact sortItems_sorted ss
  rw [hs]
  obtain ⟨lut, e, hk⟩ := firstFold_ok G h (sorted ss) ⟨[], 1, []⟩ (fun t ht => (sorted_perm ss).mem_iff.1 ht)
  refine ⟨lut, _, e.trans (by rw [List.nil_append]), fun s => ?_⟩
  rw [hk, h.sg_eq]
  simp only [Dict.keys_nil, List.not_mem_nil, false_or, List.mem_map]
  simp [Dict.keys, (sorted_perm ss).mem_iff]

/-! ### The second pass -/

theorem patchDown_cases (sg : Dict ℤ ℤ) (lut : Dict ℤ ℕ) (d : Draft K) :
    (∃ d', patchDown sg lut d = .ok d' ∧ toRow d' = toRow d ∧
      ¬ (d.down = none ∧ ∃ o, sg.get? (d.j : ℤ) = some o ∧ o ∉ lut.keys)) ∨
    (patchDown sg lut d = .err .keyError ∧
      d.down = none ∧ ∃ o, sg.get? (d.j : ℤ) = some o ∧ o ∉ lut.keys) := by
  unfold patchDown
  cases hd : d.down with
  | some x => exact .inl ⟨d, rfl, rfl, by simp⟩
  | none =>
    cases hg : sg.get? (d.j : ℤ) with
    | none => exact .inl ⟨_, rfl, rfl, by simp⟩
    | some o =>
      cases hl : lut.get? o with
      | none => exact .inr ⟨by simp [Dict.getE, hl], rfl, o, rfl, Dict.get?_eq_none.1 hl⟩
      | some r =>
        refine .inl ⟨{ d with down := some r }, by simp [Dict.getE, hl], rfl, ?_⟩
        rintro ⟨_, o', ho', hno⟩
        cases ho'
        exact hno (Dict.mem_keys_iff.2 ⟨r, hl⟩)

theorem secondPass_cases (sg : Dict ℤ ℤ) (lut : Dict ℤ ℕ) (l : List (Draft K)) :
    (∃ l', secondPass sg lut l = .ok l' ∧ l'.map toRow = l.map toRow ∧
      ¬ ∃ d ∈ l, d.down = none ∧ ∃ o, sg.get? (d.j : ℤ) = some o ∧ o ∉ lut.keys) ∨
    (secondPass sg lut l = .err .keyError ∧
      ∃ d ∈ l, d.down = none ∧ ∃ o, sg.get? (d.j : ℤ) = some o ∧ o ∉ lut.keys) := by
  induction l with
  | nil => exact .inl ⟨[], rfl, rfl, by simp⟩
  | cons d l ih =>
    rw [secondPass]
    rcases patchDown_cases sg lut d with ⟨d', e, ht, hno⟩ | ⟨e, hbad⟩
    · rw [e, Res.bind_ok]
      rcases ih with ⟨l', e', ht', hno'⟩ | ⟨e', d2, hd2, hbad⟩
      · refine .inl ⟨d' :: l', by rw [e']; rfl, by simp [ht, ht'], ?_⟩
        rintro ⟨x, hx, hb⟩
        rcases List.mem_cons.1 hx with rfl | hx
        · exact hno hb
        · exact hno' ⟨x, hx, hb⟩
      · exact .inr ⟨by rw [e']; rfl, d2, List.mem_cons_of_mem _ hd2, hbad⟩
    · exact .inr ⟨by rw [e]; rfl, d, by simp, hbad⟩

/-! ### The rows -/

/-- the row of a cell -/
def rowOf (fdir sa : Fin N → ℤ) (x : (Fin N × ℤ × ℤ) × ℕ) : Row K :=
  toRow (draftOf G fdir sa x.1.1 x.1.2.1 x.1.2.2 x.2 none)

theorem segDrafts_rows (s : ℤ) (p : List (Fin N)) : ∀ ix id : ℕ,
    (segDrafts G fdir sa s ix id p).map toRow = ((rowsOf s (1 + ix) p).zipIdx id).map (rowOf G fdir sa) := by
  induction p with
  | nil => intro ix id; rfl
  | cons c p ih =>
    intro ix id
    have e : (1 + (ix : ℤ) + 1) = 1 + ((ix + 1 : ℕ) : ℤ) := by push_cast; ring
    simp only [segDrafts, rowsOf, List.map_cons, List.zipIdx_cons, ih, e]
    rfl

theorem length_rowsOf (s r : ℤ) (p : List (Fin N)) : (rowsOf s r p).length = p.length := by
  induction p generalizing r with
  | nil => rfl
  | cons a p ih => simp [rowsOf, ih]

theorem allDrafts_rows (T : List (ℤ × ℤ × List (Fin N))) : ∀ id : ℕ,
    (allDrafts G fdir sa id T).map toRow =
      ((T.flatMap (fun t => rowsOf t.1 1 t.2.2)).zipIdx id).map (rowOf G fdir sa) := by
  induction T with
  | nil => intro id; rfl
  | cons t T ih =>
    intro id
    have := segDrafts_rows (fdir := fdir) (sa := sa) G t.1 t.2.2 0 id
    simp only [Nat.cast_zero, add_zero] at this
    rw [allDrafts, List.map_append, List.flatMap_cons, List.zipIdx_append, List.map_append, ih, this,
      length_rowsOf]

theorem segDrafts_none (s : ℤ) (p : List (Fin N)) : ∀ (ix id : ℕ) (d : Draft K),
    d ∈ segDrafts G fdir sa s ix id p → d.down = none →
      ∃ c, p.getLast? = some c ∧ d.j = (G.lrc c).2 ∧ 2 ≤ ix + p.length := by
  induction p with
  | nil => intro ix id d h; cases h
  | cons c p ih =>
    intro ix id d h hd
    rw [segDrafts] at h
    rcases List.mem_cons.1 h with rfl | h
    · dsimp only [draftOf] at hd ⊢
      split at hd
      · cases hd
      · rename_i hix
        split at hd
        · rename_i hp
          subst hp
          exact ⟨c, rfl, rfl, by simp only [List.length_cons, List.length_nil]; omega⟩
        · cases hd
    · obtain ⟨c', h1, h2, h3⟩ := ih (ix + 1) (id + 1) d h hd
      refine ⟨c', ?_, h2, by simp only [List.length_cons]; omega⟩
      rw [List.getLast?_cons, h1]; rfl

theorem segDrafts_last (s : ℤ) (p : List (Fin N)) : ∀ (ix id : ℕ) {c : Fin N}, p.getLast? = some c →
    2 ≤ ix + p.length → ∃ d ∈ segDrafts (K := K) G fdir sa s ix id p, d.down = none ∧ d.j = (G.lrc c).2 := by
  induction p with
  | nil => intro ix id c h; cases h
  | cons a p ih =>
    intro ix id c h hlen
    rw [segDrafts]
    cases p with
    | nil =>
      simp only [List.getLast?_singleton, Option.some.injEq] at h
      subst h
      simp only [List.length_cons, List.length_nil] at hlen
      refine ⟨_, List.mem_cons_self, ?_, rfl⟩
      dsimp only [draftOf]
      rw [if_neg (by omega)]
      simp
    | cons b p =>
      rw [List.getLast?_cons_cons] at h
      obtain ⟨d, h1, h2⟩ := ih (ix + 1) (id + 1) h (by simp only [List.length_cons] at hlen ⊢; omega)
      exact ⟨d, List.mem_cons_of_mem _ h1, h2⟩

theorem allDrafts_none (T : List (ℤ × ℤ × List (Fin N))) : ∀ (id j : ℕ),
    (∃ d ∈ allDrafts (K := K) G fdir sa id T, d.down = none ∧ d.j = j) ↔
      ∃ t ∈ T, ∃ c, t.2.2.getLast? = some c ∧ (G.lrc c).2 = j ∧ 2 ≤ t.2.2.length := by
  induction T with
  | nil => intro id j; simp [allDrafts]
  | cons t T ih =>
    intro id j
    rw [allDrafts]
    constructor
    · rintro ⟨d, hd, h1, rfl⟩
      rcases List.mem_append.1 hd with hd | hd
      · obtain ⟨c, e1, e2, e3⟩ := segDrafts_none G _ _ _ _ _ hd h1
        exact ⟨t, by simp, c, e1, e2.symm, by omega⟩
      · obtain ⟨u, hu, h⟩ := (ih (id + t.2.2.length) d.j).1 ⟨d, hd, h1, rfl⟩
        exact ⟨u, List.mem_cons_of_mem _ hu, h⟩
    · rintro ⟨u, hu, c, e1, rfl, e3⟩
      rcases List.mem_cons.1 hu with rfl | hu
      · obtain ⟨d, h1, h2⟩ := segDrafts_last (fdir := fdir) (sa := sa) G u.1 u.2.2 0 id e1 (by omega)
        exact ⟨d, List.mem_append_left _ h1, h2⟩
      · obtain ⟨d, h1, h2⟩ := (ih (id + t.2.2.length) _).2 ⟨u, hu, c, e1, rfl, e3⟩
        exact ⟨d, List.mem_append_right _ h1, h2⟩

/-- the rows of the network in the order of the table -/
def ordered (ss : List (ℤ × ℤ × List (Fin N))) : List (Fin N × ℤ × ℤ) :=
  (sorted ss).flatMap (fun t => rowsOf t.1 1 t.2.2)

/-- A segment of two or more cells ends in a column that is the number of a segment without successor. -/
def Collision (ncol : ℕ) (sg : Dict ℤ ℤ) (ss : List (ℤ × ℤ × List (Fin N))) : Prop :=
  ∃ t ∈ ss, ∃ c, t.2.2.getLast? = some c ∧ 2 ≤ t.2.2.length ∧ sg.get? ((c.val % ncol : ℕ) : ℤ) = some 0

theorem reachTable_cases (h : IsNet fdir sa sg nsr ss) :
    (Collision G.ncol sg ss ∧ reachTable G sg nsr = .err .keyError) ∨
    (nsr = [] ∧ reachTable G sg nsr = .err .indexError) ∨
    (¬ Collision G.ncol sg ss ∧ nsr ≠ [] ∧
      reachTable G sg nsr = .ok (((ordered ss).zipIdx 1).map (rowOf G fdir sa))) := by
  obtain ⟨lut, k, e, hk⟩ := firstPass_ok G h
  unfold reachTable
  rw [e, Res.bind_ok]
  dsimp only
  have hbad : (∃ d ∈ allDrafts (K := K) G fdir sa 1 (sorted ss), d.down = none ∧
      ∃ o, sg.get? (d.j : ℤ) = some o ∧ o ∉ lut.keys) ↔ Collision G.ncol sg ss := by
    have hout : ∀ j o, sg.get? j = some o → (o ∉ lut.keys ↔ o = 0) := by
      intro j o hjo
      rw [hk]
      have hm := Dict.mem_of_get? hjo
      rw [h.sg_eq] at hm
      obtain ⟨t, ht, he⟩ := List.mem_map.1 hm
      cases he
      have hkeys : ∀ s, s ∈ sg.keys ↔ ∃ u ∈ ss, u.1 = s := by
        intro s; rw [h.sg_eq]; simp [Dict.keys]
      rw [hkeys]
      obtain ⟨c, hc⟩ := Option.ne_none_iff_exists'.1
        (fun hx => h.ne t ht (List.getLast?_eq_none_iff.1 hx))
      rcases h.out t ht c hc with ⟨h0, _⟩ | ⟨h0, t', ht', he, _⟩
      · refine ⟨fun _ => h0, ?_⟩
        rintro h0' ⟨u, hu, he⟩
        have := h.pos u hu
        omega
      · exact ⟨fun hx => absurd ⟨t', ht', he⟩ hx, fun hx => absurd hx h0⟩
    constructor
    · rintro ⟨d, hd, h1, o, h2, h3⟩
      obtain ⟨t, ht, c, e1, e2, e3⟩ := (allDrafts_none G (sorted ss) 1 d.j).1 ⟨d, hd, h1, rfl⟩
      refine ⟨t, (sorted_perm ss).mem_iff.1 ht, c, e1, e3, ?_⟩
      have e2' : c.val % G.ncol = d.j := e2
      rw [e2', h2, (hout _ _ h2).1 h3]
    · rintro ⟨t, ht, c, e1, e3, e2⟩
      obtain ⟨d, hd, h1, h2⟩ := (allDrafts_none (fdir := fdir) (sa := sa) G (sorted ss) 1 (c.val % G.ncol)).2
        ⟨t, (sorted_perm ss).mem_iff.2 ht, c, e1, rfl, e3⟩
      refine ⟨d, hd, h1, 0, by rw [h2]; exact e2, (hout _ 0 e2).2 rfl⟩
  rcases secondPass_cases sg lut (allDrafts G fdir sa 1 (sorted ss)) with ⟨l', e', ht, hno⟩ | ⟨e', hb⟩
  · rw [e', Res.bind_ok]
    right
    rw [allDrafts_rows] at ht
    have hlen : l'.length = nsr.length := by
      have := congrArg List.length ht
      simp only [List.length_map, List.length_zipIdx] at this
      rw [this, h.nsr_eq]
      exact ((sorted_perm ss).flatMap_right _).length_eq
    unfold toTable
    by_cases hl : l' = []
    · left
      rw [if_pos hl]
      refine ⟨?_, rfl⟩
      rw [hl] at hlen
      exact List.length_eq_zero_iff.1 hlen.symm
    · right
      rw [if_neg hl, ht]
      refine ⟨fun hc => hno (hbad.2 hc), ?_, rfl⟩
      rintro rfl
      exact hl (List.length_eq_zero_iff.1 hlen)
  · left
    exact ⟨hbad.1 hb, by rw [e']; rfl⟩

end

end Dany.Rdata
