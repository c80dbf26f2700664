import Verif.Vec.Lemmas
import Verif.Seg.Ungroup
import Verif.Reach.Props

/-!
# C67, C75: stream vectors
-/

namespace Dany.Vec

open Topo Relation Seg Reach

variable {N : ℕ} {V : Type*} {fdir sa : Fin N → ℤ} {limit fuel vfuel : ℕ} {b : Bool} {out : Out N}
  {xy : Fin N → V}

theorem cellsOf_flatMap {ss : List (Fin N)} {sn : Fin N → ℤ} {f : Fin N → List (Fin N)}
    (hnd : ss.Nodup) (hinj : ∀ a ∈ ss, ∀ c ∈ ss, sn a = sn c → a = c) {a : Fin N} (ha : a ∈ ss) :
    cellsOf (ss.flatMap (fun a => rowsOf (sn a) 1 (f a))) (sn a) = f a := by
  have hself : ∀ (r : ℤ) (p : List (Fin N)) (s t : ℤ),
      cellsOf (rowsOf s r p) t = if s = t then p else [] := by
    intro r p s t
    induction p generalizing r with
    | nil => simp [cellsOf, rowsOf]
    | cons x p ih =>
      have := ih (r + 1)
      unfold cellsOf at this ⊢
      simp only [rowsOf]
      by_cases h : s = t
      · rw [List.filter_cons_of_pos (by simpa using h), List.map_cons, this]; simp [h]
      · rw [List.filter_cons_of_neg (by simpa using h), this]; simp [h]
  have happ : ∀ l l' : List (Fin N × ℤ × ℤ), ∀ t, cellsOf (l ++ l') t = cellsOf l t ++ cellsOf l' t := by
    intro l l' t; simp [cellsOf]
  induction ss with
  | nil => cases ha
  | cons x ss ih =>
    rw [List.nodup_cons] at hnd
    rw [List.flatMap_cons, happ, hself]
    rcases List.mem_cons.1 ha with rfl | ha
    · rw [if_pos rfl]
      have : ∀ l : List (Fin N), (∀ y ∈ l, sn y ≠ sn a) →
          cellsOf (l.flatMap (fun a => rowsOf (sn a) 1 (f a))) (sn a) = [] := by
        intro l
        induction l with
        | nil => intro _; rfl
        | cons y l ihl =>
          intro hl
          rw [List.flatMap_cons, happ, hself, if_neg (hl y (by simp)), ihl (fun z hz => hl z (by simp [hz]))]
          rfl
      rw [this ss, List.append_nil]
      intro y hy he
      have := hinj y (by simp [hy]) a (by simp) he
      subst this
      exact hnd.1 hy
    · rw [if_neg, List.nil_append]
      · exact ih hnd.2 (fun p hp q hq => hinj p (by simp [hp]) q (by simp [hq])) ha
      · intro he
        have := hinj x (by simp) a (by simp [ha]) he
        subst this
        exact hnd.1 ha

/-- the tables of a grouped network fit together -/
theorem fits_grouped (hf : N ≤ fuel)
    (hout : mf2005 limit fuel b fdir sa true = .ok out) : Fits out.sg out.nsr := by
  obtain ⟨k1, k2, k3, k4⟩ := C58_numbers hf hout
  refine ⟨k1, ?_, ?_, fun s hs => (k4 s).1 hs⟩
  · intro h
    have := ((k3 0).1 h).1
    omega
  · intro s t hst
    obtain ⟨ss, sn, h1, h2, h3, h4, h5, h6, h7, h8, h9, h10⟩ := grouped_out hf hout
    have hm := Dict.mem_of_get? hst
    rw [h5] at hm
    obtain ⟨a, ha, he⟩ := List.mem_map.1 hm
    simp only [Prod.mk.injEq] at he
    obtain ⟨rfl, rfl⟩ := he
    have ha' := (h2 a).1 ha
    unfold outOf
    cases hd : dn fdir sa (segLast fdir sa a) with
    | none => exact .inl rfl
    | some m =>
      right
      dsimp only
      have hstream : sa (segLast fdir sa a) ≠ 0 := by
        rw [segLast_eq ha']; exact seg_stream ha' (List.getLast_mem _)
      have hm : Start fdir sa m := by
        by_contra hc
        have := (seg_path ha').getLast
        rw [← segLast_eq ha', nx_some.2 ⟨(dn_feeds hstream).1 hd, hc⟩] at this
        cases this
      exact (k3 _).2 (h3 m hm)

/-- the tables of an ungrouped network fit together -/
theorem fits_ungrouped (hout : mf2005 limit fuel false fdir sa false = .ok out) : Fits out.sg out.nsr := by
  obtain ⟨L, hl, _, hout⟩ := mf2005_lift hout
  obtain ⟨out', e, h1, h2, h3, h4, h5, h6, h7, h8, h9, h10⟩ :=
    C59_ungrouped (fdir := fdir) (fuel := fuel) hl
  rw [e] at hout
  cases hout
  refine ⟨h6, ?_, ?_, ?_⟩
  · intro h
    obtain ⟨n, hn, he⟩ := (h7 0).1 h
    have := (h4 n hn).1
    omega
  · intro s t hst
    obtain ⟨n, hn, rfl⟩ := (h7 s).1 (Dict.mem_keys_iff.2 ⟨t, hst⟩)
    by_cases hc : Feeds fdir sa n n ∨ ∀ m, ¬ Feeds fdir sa n m
    · rw [h9 n hn hc] at hst
      cases hst; exact .inl rfl
    · push Not at hc
      obtain ⟨m, hm⟩ := hc.2
      have hne : n ≠ m := by rintro rfl; exact hc.1 hm
      rw [h8 n m hm hne] at hst
      cases hst
      exact .inr ((h7 _).2 ⟨m, hm.2.1, rfl⟩)
  · intro s hs
    obtain ⟨n, hn, rfl⟩ := (h7 s).1 hs
    exact ⟨n, 1, (h2 _ _ _).2 ⟨hn, rfl, rfl⟩⟩

/-! ### C67 -/

/-- **C67.** `create_stream_vectors` terminates without error on every network (structured grid), and
returns a line exactly for the segments downstream of a headwater segment that have more than one
vertex: the centres of the cells of the segment in the order of the connectivity table, followed by
the centre of the first cell of the outseg if there is one. -/
theorem C67_vectors (hf : N ≤ fuel)
    (group : Bool) (hout : mf2005 limit fuel false fdir sa group = .ok out)
    (hv : 3 * out.sg.length < vfuel) :
    ∃ vs, createVectors limit fuel vfuel false fdir sa group xy = .ok vs ∧
      ∀ s v, vs.get? s = some v ↔ Reached out.sg s ∧ 1 < v.length ∧ v = (line out.sg out.nsr s).map xy := by
  have hfits : Fits out.sg out.nsr := by
    cases group with
    | true => exact fits_grouped hf hout
    | false => exact fits_ungrouped hout
  obtain ⟨vs, e, h⟩ := vectorsOf_ok (xy := xy) hfits hv
  refine ⟨vs, by simp only [createVectors, hout, Res.bind_ok, e], ?_⟩
  intro s v
  rw [h]
  constructor
  · rintro ⟨h1, h2, rfl⟩; exact ⟨h1, by simpa using h2, rfl⟩
  · rintro ⟨h1, h2, rfl⟩; exact ⟨h1, by simpa using h2, rfl⟩

/-- **C67.** A segment is omitted for its length only if it is a single cell and leaves the network. -/
theorem C67_omitted (hf : N ≤ fuel)
    (hout : mf2005 limit fuel b fdir sa true = .ok out) {s : ℤ} (hs : s ∈ out.sg.keys) :
    (line out.sg out.nsr s).length ≤ 1 ↔
      out.sg.get? s = some 0 ∧ ∃ n r, ∀ x ∈ out.nsr, x.2.1 = s → x = (n, s, r) := by
  have hfits := fits_grouped hf hout
  obtain ⟨t, ht⟩ := Dict.mem_keys_iff.1 hs
  obtain ⟨hnd, _, _, _⟩ := C56_rows hf hout
  constructor
  · intro h
    have ht0 : t = 0 := by
      by_contra h0
      have := hfits.line_len ht h0
      omega
    subst ht0
    refine ⟨ht, ?_⟩
    unfold line at h
    rw [ht] at h
    simp only [if_true, List.append_nil, List.length_map] at h
    obtain ⟨n, r, hr⟩ := hfits.rows s hs
    refine ⟨n, r, ?_⟩
    intro x hx hxs
    have h1 : x ∈ out.nsr.filter (fun r => r.2.1 = s) := by simp [hx, hxs]
    have h2 : (n, s, r) ∈ out.nsr.filter (fun r => r.2.1 = s) := by simp [hr]
    generalize out.nsr.filter (fun r => r.2.1 = s) = l at h h1 h2
    cases l with
    | nil => cases h1
    | cons y l =>
      have : l = [] := by simpa using h
      subst this
      rw [List.mem_singleton] at h1 h2
      rw [h1, h2]
  · rintro ⟨h0, n, r, hall⟩
    unfold line
    rw [h0]
    simp only [if_true, List.append_nil]
    have hsub : ((out.nsr.filter (fun r => r.2.1 = s)).map Prod.fst).Nodup :=
      hnd.sublist (List.filter_sublist.map _)
    have : (out.nsr.filter (fun r => r.2.1 = s)).map Prod.fst ⊆ [n] := by
      intro y hy
      obtain ⟨x, hx, rfl⟩ := List.mem_map.1 hy
      rw [List.mem_filter] at hx
      have := hall x hx.1 (by simpa using hx.2)
      rw [this]; simp
    exact (List.subperm_of_subset hsub this).length_le

/-- **C67.** The cells of a line are in flow order: each flows into the next. -/
theorem C67_flow_order (hf : N ≤ fuel)
    (hout : mf2005 limit fuel b fdir sa true = .ok out) {s : ℤ} (hs : s ∈ out.sg.keys) :
    (line out.sg out.nsr s).IsChain (Feeds fdir sa) := by
  obtain ⟨ss, sn, h1, h2, h3, h4, h5, h6, h7, h8, h9, h10⟩ := grouped_out hf hout
  have hk : out.sg.keys.Nodup := (C58_numbers hf hout).1
  rw [h5, keys_map_pair] at hs
  obtain ⟨a, ha, rfl⟩ := List.mem_map.1 hs
  have ha' := (h2 a).1 ha
  have hinj : ∀ x ∈ ss, ∀ y ∈ ss, sn x = sn y → x = y :=
    fun x hx y hy => h4 x y ((h2 x).1 hx) ((h2 y).1 hy)
  have hcells : ∀ x ∈ ss, (out.nsr.filter (fun r => r.2.1 = sn x)).map Prod.fst = seg fdir sa x := by
    intro x hx
    rw [h6]; exact cellsOf_flatMap h1 hinj hx
  have hget : out.sg.get? (sn a) = some (outOf fdir sa sn a) := by
    apply Dict.get?_of_mem hk
    rw [h5]; exact List.mem_map.2 ⟨a, ha, rfl⟩
  have hchain : (seg fdir sa a).IsChain (Feeds fdir sa) := by
    rw [List.isChain_iff_getElem]
    intro i hi
    exact (nx_some.1 ((seg_path ha').getElem_succ hi)).1
  have hstream : sa (segLast fdir sa a) ≠ 0 := by
    rw [segLast_eq ha']; exact seg_stream ha' (List.getLast_mem _)
  unfold line
  rw [hcells a ha, hget]
  dsimp only
  split
  · rw [List.append_nil]; exact hchain
  · rename_i h0
    unfold outOf at h0 ⊢
    cases hd : dn fdir sa (segLast fdir sa a) with
    | none => rw [hd] at h0; exact absurd rfl h0
    | some m =>
      dsimp only
      have hfm := (dn_feeds hstream).1 hd
      have hm : Start fdir sa m := by
        by_contra hc
        have := (seg_path ha').getLast
        rw [← segLast_eq ha', nx_some.2 ⟨hfm, hc⟩] at this
        cases this
      obtain ⟨q, hq⟩ := (seg_path hm).head
      rw [hcells m ((h2 m).2 hm), hq]
      simp only [List.take_succ_cons, List.take_zero]
      rw [List.isChain_append]
      refine ⟨hchain, List.isChain_singleton _, ?_⟩
      intro x hx y hy
      rw [List.getLast?_eq_some_getLast (seg_path ha').ne_nil, Option.mem_def, Option.some.injEq,
        ← segLast_eq ha'] at hx
      simp only [List.head?_cons, Option.mem_def, Option.some.injEq] at hy
      subst hx hy
      exact hfm

/-- **C67.** If every stream cell lies downstream of a headwater cell, every segment lies downstream
of a headwater segment, so every segment with more than one vertex gets its line. -/
theorem C67_complete (hf : N ≤ fuel)
    (hhead : ∀ n, sa n ≠ 0 → ∃ h, Headwater fdir sa h ∧ ReflTransGen (Feeds fdir sa) h n)
    (hout : mf2005 limit fuel b fdir sa true = .ok out) {s : ℤ} (hs : s ∈ out.sg.keys) :
    Reached out.sg s := by
  obtain ⟨ss, sn, h1, h2, h3, h4, h5, h6, h7, h8, h9, h10⟩ := grouped_out hf hout
  have hk : out.sg.keys.Nodup := (C58_numbers hf hout).1
  have hkeys : out.sg.keys = ss.map sn := by rw [h5, keys_map_pair]
  have hget : ∀ a, Start fdir sa a → out.sg.get? (sn a) = some (outOf fdir sa sn a) := by
    intro a ha
    apply Dict.get?_of_mem hk
    rw [h5]; exact List.mem_map.2 ⟨a, (h2 a).2 ha, rfl⟩
  refine ⟨hs, ?_⟩
  rw [hkeys] at hs
  obtain ⟨a, ha, rfl⟩ := List.mem_map.1 hs
  have ha' := (h2 a).1 ha
  obtain ⟨x, hx, hr⟩ := hhead a ha'.stream
  have hxS : Start fdir sa x := .inl hx
  refine ⟨sn x, ⟨by rw [hkeys]; exact List.mem_map.2 ⟨x, (h2 x).2 hxS, rfl⟩, ?_⟩, ?_⟩
  · intro j hj
    have hm := Dict.mem_of_get? hj
    rw [h5] at hm
    obtain ⟨c, hc, he⟩ := List.mem_map.1 hm
    simp only [Prod.mk.injEq] at he
    have hc' := (h2 c).1 hc
    have hstream : sa (segLast fdir sa c) ≠ 0 := by
      rw [segLast_eq hc']; exact seg_stream hc' (List.getLast_mem _)
    have he2 := he.2
    unfold outOf at he2
    cases hd : dn fdir sa (segLast fdir sa c) with
    | none =>
      rw [hd] at he2
      have := (h3 x hxS).1
      dsimp only at he2
      omega
    | some m =>
      rw [hd] at he2
      have hfm := (dn_feeds hstream).1 hd
      have hm : Start fdir sa m := by
        by_contra hcc
        have := (seg_path hc').getLast
        rw [← segLast_eq hc', nx_some.2 ⟨hfm, hcc⟩] at this
        cases this
      have := h4 m x hm hxS he2
      subst this
      exact hx.2 _ hfm
  · -- follow the cells: every cell downstream of `x` lies in a segment downstream of that of `x`
    have key : ∀ n, ReflTransGen (Feeds fdir sa) x n → ∃ c, Start fdir sa c ∧ n ∈ seg fdir sa c ∧
        ReflTransGen (FlowsTo out.sg) (sn x) (sn c) := by
      intro n hn
      induction hn with
      | refl => exact ⟨x, hxS, self_mem_seg hxS, .refl⟩
      | @tail y z _ hyz ih =>
        obtain ⟨c, hc, hyc, hrc⟩ := ih
        by_cases hz : Start fdir sa z
        · refine ⟨z, hz, self_mem_seg hz, hrc.tail ⟨by have := (h3 c hc).1; omega, ?_⟩⟩
          rw [hget c hc]
          have hlast : y = segLast fdir sa c := by
            obtain ⟨i, hi, rfl⟩ := List.getElem_of_mem hyc
            by_cases hlt : i + 1 < (seg fdir sa c).length
            · have := (seg_path hc).getElem_succ hlt
              have h' := nx_some.1 this
              have : z = (seg fdir sa c)[i + 1] := by
                have e1 := h'.1.2.2
                have e2 := hyz.2.2
                rw [e1] at e2
                exact Fin.ext (by exact_mod_cast e2.symm)
              rw [← this] at h'
              exact absurd hz h'.2
            · rw [segLast_eq hc, List.getLast_eq_getElem]
              congr 1
              omega
          unfold outOf
          rw [← hlast, (dn_feeds hyz.1).2 hyz]
        · exact ⟨c, hc, (seg_path hc).closed hyc (nx_some.2 ⟨hyz, hz⟩), hrc⟩
    obtain ⟨c, hc, hac, hrc⟩ := key a hr
    have := start_mem_seg hc hac ha'
    subst this
    exact hrc

/-! ### C75 -/

/-- **C75** as stated: `create_stream_vectors()` on an `Sfr6` object leaves the result of a later
`connectiondata()` unchanged. -/
def VectorsHarmless (N : ℕ) : Prop :=
  ∀ (limit fuel vfuel : ℕ) (o o' : Obj N) (vs : Dict ℤ (List ℤ)) (xy : Fin N → ℤ),
    objVectors limit fuel vfuel false true xy o = .ok (o', vs) →
    (o'.connData limit).map Prod.snd = (o.connData limit).map Prod.snd

theorem cdFold_none : ∀ (l : List (ℤ × Option ℤ)) (cd : Dict ℤ (List ℤ)),
    (∀ e ∈ l, e.1 ∈ cd.keys ∧ ∀ t, e.2 = some t → t ∈ cd.keys) → (∃ e ∈ l, e.2 = none) →
    l.foldl cdStep (.ok cd) = .err .typeError := by
  have herr : ∀ l : List (ℤ × Option ℤ), l.foldl cdStep (.err .typeError) = .err .typeError := by
    intro l
    induction l with
    | nil => rfl
    | cons e l ih => rw [List.foldl_cons]; exact ih
  intro l
  induction l with
  | nil => rintro cd _ ⟨e, he, _⟩; cases he
  | cons e l ih =>
    intro cd hk hn
    rw [List.foldl_cons]
    obtain ⟨k, o⟩ := e
    cases o with
    | none => exact herr l
    | some t =>
      have hrest : ∃ e ∈ l, e.2 = none := by
        obtain ⟨e, he, hen⟩ := hn
        rcases List.mem_cons.1 he with rfl | he
        · cases hen
        · exact ⟨e, he, hen⟩
      obtain ⟨h1, h2⟩ := hk (k, some t) (by simp)
      have h2 := h2 t rfl
      have hl : ∀ e ∈ l, e.1 ∈ cd.keys ∧ ∀ t, e.2 = some t → t ∈ cd.keys :=
        fun e he => hk e (by simp [he])
      have hkeep : ∀ cd' : Dict ℤ (List ℤ), (∀ x, x ∈ cd.keys → x ∈ cd'.keys) →
          ∀ e ∈ l, e.1 ∈ cd'.keys ∧ ∀ t, e.2 = some t → t ∈ cd'.keys :=
        fun cd' hsub e he => ⟨hsub _ (hl e he).1, fun u hu => hsub _ ((hl e he).2 u hu)⟩
      simp only [cdStep, Res.bind_ok]
      split
      · split
        · exact ih cd hl hrest
        · obtain ⟨row, hrow⟩ := Dict.mem_keys_iff.1 h1
          simp only [Dict.getE, hrow, Res.bind_ok]
          have h3 : t ∈ (cd.set k (row ++ [-1 * t])).keys := Dict.mem_keys_set.2 (.inl h2)
          obtain ⟨row', hrow'⟩ := Dict.mem_keys_iff.1 h3
          rw [hrow']
          simp only [Res.bind_ok]
          apply ih _ (hkeep _ ?_) hrest
          intro x hx
          exact Dict.mem_keys_set.2 (.inl (Dict.mem_keys_set.2 (.inl hx)))
      · exact ih cd hl hrest

theorem connectiondata_none {g : Dict ℤ (Option ℤ)}
    (hr : ∀ e ∈ g, ∀ t, e.2 = some t → t ∈ g.keys) (hn : ∃ e ∈ g, e.2 = none) :
    connectiondata g = .err .typeError := by
  unfold connectiondata
  have hkeys : ∀ x, x ∈ Dict.keys ((g.keys.insertionSort (· ≤ ·)).map (fun k => (k, ([] : List ℤ)))) ↔
      x ∈ g.keys := by
    intro x
    rw [keys_map_pair, List.map_id', List.mem_insertionSort]
  have hmem : ∀ e, e ∈ sortItems g ↔ e ∈ g := by
    intro e; unfold sortItems; rw [List.mem_insertionSort]
  rw [cdFold_none]
  · rfl
  · intro e he
    rw [hmem] at he
    exact ⟨(hkeys _).2 (List.mem_map.2 ⟨e, he, rfl⟩), fun t ht => (hkeys _).2 (hr e he t ht)⟩
  · obtain ⟨e, he, hen⟩ := hn
    exact ⟨e, (hmem e).2 he, hen⟩

/-- **C75 is false of the code**: after `create_stream_vectors()` on an `Sfr6` object in which some
stream cell leaves the stream (every ordinary outlet), `connectiondata()` raises `TypeError`, whatever
it returned before. -/
theorem C75_breaks {o o' : Obj N} {vs : Dict ℤ (List V)} (hsa : o.streamArray = some sa)
    (h : objVectors limit fuel vfuel b true xy o = .ok (o', vs))
    (hf : N ≤ fuel)
    (hleave : ∃ n, sa n ≠ 0 ∧ ∀ m, ¬ Feeds o.fdir sa n m) :
    o'.connData limit = .err .typeError := by
  unfold objVectors Obj.source at h
  rw [hsa] at h
  simp only [Res.bind_ok] at h
  obtain ⟨out, hout, h⟩ := Res.bind_eq_ok.1 h
  obtain ⟨v, hv, he⟩ := Res.map_eq_ok.1 h
  simp only [Prod.mk.injEq] at he
  obtain ⟨rfl, rfl⟩ := he
  have hg : out.graph = cellGraph o.fdir sa := by
    obtain ⟨ss, sn, h1, h2, h3, h4, h5, h6, h7, _⟩ := grouped_out hf hout
    exact h7
  simp only [Obj.connData, Obj.graphOf, Res.bind_ok]
  rw [connectiondata_none]
  · rfl
  · intro e he t ht
    rw [hg] at he ⊢
    unfold asGraph at he ⊢
    rw [keys_map_pair]
    obtain ⟨⟨n, m⟩, hnm, rfl⟩ := List.mem_map.1 he
    dsimp only at ht
    obtain ⟨m', rfl, rfl⟩ := Option.map_eq_some_iff.1 ht
    rw [cellGraph_eq] at hnm ⊢
    obtain ⟨n', hn', he'⟩ := List.mem_map.1 hnm
    simp only [Prod.mk.injEq] at he'
    have := (dn_eq_some.1 he'.2).1
    refine List.mem_map.2 ⟨(m', dn o.fdir sa m'), List.mem_map.2 ⟨m', mem_strmNodes.2 this, rfl⟩, rfl⟩
  · obtain ⟨n, hn, hnone⟩ := hleave
    rw [hg]
    refine ⟨_, List.mem_map.2 ⟨(n, dn o.fdir sa n), ?_, rfl⟩, ?_⟩
    · rw [cellGraph_eq]
      exact List.mem_map.2 ⟨n, mem_strmNodes.2 hn, rfl⟩
    · dsimp only
      rw [(dn_none hn).2 hnone]; rfl

/-- the history `connectiondata(); create_stream_vectors(); connectiondata()` and its two tables -/
def vectorsHistory (limit fuel vfuel : ℕ) (xy : Fin N → ℤ) (o : Obj N) :
    Res (List (ℤ × List ℤ) × Res (List (ℤ × List ℤ))) :=
  (o.connData limit).bind fun r =>
    (objVectors limit fuel vfuel false true xy r.1).map fun r' => (r.2, (r'.1.connData limit).map Prod.snd)

/-- the history on the stream 0 → 1 → 2, which leaves through cell 3 -/
theorem C75_refuted : ¬ VectorsHarmless 4 ∧
    vectorsHistory 9 9 20 (fun _ => 0) (Obj.mk ![1, 2, 3, 3] (some (![1, 1, 1, 0] : Fin 4 → ℤ)) none) =
      .ok ([(0, [-1]), (1, [0, -2]), (2, [1])], .err .typeError) := by
  refine ⟨fun h => ?_, by decide +kernel⟩
  have hex : ∃ r, objVectors 9 9 20 false true (fun _ => (0 : ℤ))
      (Obj.mk ![1, 2, 3, 3] (some (![1, 1, 1, 0] : Fin 4 → ℤ)) none) = .ok r := by
    have : ((objVectors 9 9 20 false true (fun _ => (0 : ℤ))
      (Obj.mk ![1, 2, 3, 3] (some (![1, 1, 1, 0] : Fin 4 → ℤ)) none)).map fun _ => ()) = .ok () := by
      decide +kernel
    obtain ⟨r, hr, _⟩ := Res.map_eq_ok.1 this
    exact ⟨r, hr⟩
  obtain ⟨⟨o', vs⟩, hr⟩ := hex
  have h1 := h _ _ _ _ _ _ _ hr
  have h2 : ((objVectors 9 9 20 false true (fun _ => (0 : ℤ))
      (Obj.mk ![1, 2, 3, 3] (some (![1, 1, 1, 0] : Fin 4 → ℤ)) none)).bind
        fun r => (r.1.connData 9).map Prod.snd) = .err .typeError := by decide +kernel
  rw [hr, Res.bind_ok] at h2
  dsimp only at h2
  rw [h1] at h2
  revert h2
  decide +kernel

/-- **C75, the part that holds (partial).** If every stream cell lies downstream of a headwater, the
set of stream cells is unchanged, so `get_stream_connectivity()` after `create_stream_vectors()` gives
the reach graph it would have given before, and with it `connectiondata()`.  Missing: the case without
that call, where the claim is false (`C75_breaks`). -/
theorem C75_reconnect_partial {o o' : Obj N} {vs : Dict ℤ (List V)} (hsa : o.streamArray = some sa)
    (h : objVectors limit fuel vfuel b true xy o = .ok (o', vs))
    (hf : N ≤ fuel)
    (hhead : ∀ n, sa n ≠ 0 → ∃ h, Headwater o.fdir sa h ∧ ReflTransGen (Feeds o.fdir sa) h n) :
    o'.connectivity limit none = o.connectivity limit none ∧
      ((o'.connectivity limit none).bind fun r => (r.1.connData limit).map Prod.snd) =
        ((Obj.mk o.fdir (some sa) none).connData limit).map Prod.snd := by
  unfold objVectors Obj.source at h
  rw [hsa] at h
  simp only [Res.bind_ok] at h
  obtain ⟨out, hout, h⟩ := Res.bind_eq_ok.1 h
  obtain ⟨v, hv, he⟩ := Res.map_eq_ok.1 h
  simp only [Prod.mk.injEq] at he
  obtain ⟨rfl, rfl⟩ := he
  have hc : mf6 limit o.fdir out.sa = mf6 limit o.fdir sa := by
    symm
    apply mf6_congr
    intro n
    constructor
    · exact (C56_rows hf hout).2.2.2.1 n
    · intro h0
      by_contra hn
      obtain ⟨x, hx, hr⟩ := hhead n hn
      obtain ⟨s, r, hrow⟩ := ((C56_rows hf hout).2.1 n).2 ⟨x, .inl hx, hr⟩
      have h1 := ((C56_rows hf hout).2.2.1 n s r hrow).2.1
      have h2 := ((C58_numbers hf hout).2.2.1 s).1 (((C58_numbers hf hout).2.2.2 s).2 ⟨n, r, hrow⟩)
      omega
  constructor
  · simp only [Obj.connectivity, Obj.source, Res.bind_ok, hc, hsa]
  · simp only [Obj.connectivity, Obj.source, Res.bind_ok, hc, Obj.connData, Obj.graphOf]
    cases hm : mf6 limit o.fdir sa with
    | ok r => simp only [Res.map_ok, Res.bind_ok]
    | err e => rfl
    | hang => rfl

/-! ### Concrete cases -/

/-- two headwaters, a confluence and an outlet cell, as in C56 -/
example : createVectors 10 5 10 false Seg.exFdir Seg.exSa true (fun n : Fin 5 => (n : ℕ)) =
    .ok [(2, [0, 2]), (3, [2, 3]), (1, [1, 2])] := by decide +kernel

example : createVectors 10 5 20 false Seg.exFdir Seg.exSa false (fun n : Fin 5 => (n : ℕ)) =
    .ok [(2, [0, 2]), (3, [2, 3]), (1, [1, 2])] := by decide +kernel

example : ∃ n, Seg.exSa n ≠ 0 ∧ ∀ m, ¬ Feeds Seg.exFdir Seg.exSa n m := by
  refine ⟨3, by decide, ?_⟩
  rintro m ⟨_, h1, h2⟩
  revert m; decide

end Dany.Vec
