import Verif.Seg.Props
import Verif.Seg.Ungroup

/-!
# C223: the running time of the stream network

The loops of `_mf2005_stream_connectivity` (grouped segments) with counters.  Not counted: numpy's scans of
`strm_nodes` (one for each stream cell) and `segid_mapper`; the sort is counted in `Topo/Time`.
-/

namespace Dany.Seg

open Function Reach Relation

variable {N : ℕ} {fdir sa : Fin N → ℤ} {limit fuel : ℕ} {b : Bool} {out : Out N}

/-! ### The model with counters -/

/-- what `node in nodesdn` costs (stream_util.py:221): a list is searched from its beginning -/
def lookups (n : Fin N) : List (Fin N) → ℕ
  | [] => 0
  | m :: l => if m = n then 1 else lookups n l + 1

/-- comparisons of the first loop, comparisons of the second, turns of the `while` loop -/
structure Cost where
  heads : ℕ
  confs : ℕ
  turns : ℕ
deriving DecidableEq

/-- headwaters (stream_util.py:220-223), counting the comparisons of `node not in nodesdn` -/
def headStepT (dns : List (Fin N)) (st : (Dict (Fin N) ℤ × ℤ) × ℕ) (node : Fin N) : (Dict (Fin N) ℤ × ℤ) × ℕ :=
  (headStep dns st.1 node, st.2 + lookups node dns)

/-- confluences (stream_util.py:225-230), counting the comparisons of `nodesdn == node`: one with each entry -/
def confStepT (dns : List (Fin N)) (st : (Dict (Fin N) ℤ × ℤ) × ℕ) (node : Fin N) : (Dict (Fin N) ℤ × ℤ) × ℕ :=
  (confStep dns st.1 node, st.2 + dns.length)

/-- the `while True` loop along a segment (stream_util.py:238-251), counting its turns -/
def walkT (g : Dict (Fin N) (Option (Fin N))) (starts : Dict (Fin N) ℤ) (seg : ℤ) :
    ℕ → Fin N → ℤ → WState N → Res (WState N × ℕ)
  | 0, _, _, _ => .hang
  | fuel + 1, node, rch, st =>
    let nsr := st.nsr ++ [(node, seg, rch)]
    let sa := update st.sa node seg
    (g.getE node).bind fun dn =>
      match dn with
      | none => .ok (⟨nsr, sa, st.sg.set seg 0⟩, 1)
      | some m =>
        match starts.get? m with
        | some s => .ok (⟨nsr, sa, st.sg.set seg s⟩, 1)
        | none => (walkT g starts seg fuel m (rch + 1) ⟨nsr, sa, st.sg⟩).map fun x => (x.1, x.2 + 1)

/-- one iteration of `for node, seg in segstrts.items()` (stream_util.py:236-251), adding up the turns -/
def walkStepT (fuel : ℕ) (g : Dict (Fin N) (Option (Fin N))) (starts : Dict (Fin N) ℤ)
    (r : Res (WState N × ℕ)) (e : Fin N × ℤ) : Res (WState N × ℕ) :=
  r.bind fun st => (walkT g starts e.2 fuel e.1 1 st.1).map fun x => (x.1, st.2 + x.2)

/-- grouped segments (stream_util.py:214-251) with the three counts -/
def groupedT (fuel : ℕ) (g : Dict (Fin N) (Option (Fin N))) (sa : Fin N → ℤ) : Res (WState N × Cost) :=
  let h := g.keys.foldl (headStepT (nodesDn g)) (([], 1), 0)
  let c := (nodesDn g).foldl (confStepT (nodesDn g)) (h.1, 0)
  (c.1.1.foldl (walkStepT fuel g c.1.1) (.ok (⟨[], sa, []⟩, 0))).map fun x => (x.1, ⟨h.2, c.2, x.2⟩)

/-- `_mf2005_stream_connectivity(group_segments=True)` (stream_util.py:173-312) with the three counts -/
def mf2005T (limit fuel : ℕ) (unstructured : Bool) (fdir sa : Fin N → ℤ) : Res (Out N × Cost) :=
  (groupedT fuel (cellGraph fdir sa) sa).bind fun st =>
    (finish limit unstructured (cellGraph fdir sa) st.1).map fun out => (out, st.2)

/-! ### The counters change nothing -/

theorem headFoldT (dns : List (Fin N)) : ∀ (l : List (Fin N)) (st : (Dict (Fin N) ℤ × ℤ) × ℕ),
    l.foldl (headStepT dns) st = (l.foldl (headStep dns) st.1, st.2 + (l.map (fun n => lookups n dns)).sum) := by
  intro l
  induction l with
  | nil => intro st; rfl
  | cons a l ih =>
    intro st
    rw [List.foldl_cons, ih, List.foldl_cons, List.map_cons, List.sum_cons]
    simp only [headStepT, Nat.add_assoc]

theorem confFoldT (dns : List (Fin N)) : ∀ (l : List (Fin N)) (st : (Dict (Fin N) ℤ × ℤ) × ℕ),
    l.foldl (confStepT dns) st = (l.foldl (confStep dns) st.1, st.2 + l.length * dns.length) := by
  intro l
  induction l with
  | nil => intro st; simp
  | cons a l ih =>
    intro st
    rw [List.foldl_cons, ih, List.foldl_cons, List.length_cons]
    simp only [confStepT, Prod.mk.injEq, true_and]
    ring

theorem walkT_fst (g : Dict (Fin N) (Option (Fin N))) (starts : Dict (Fin N) ℤ) (seg : ℤ) :
    ∀ (fuel : ℕ) (n : Fin N) (r : ℤ) (st : WState N),
      (walkT g starts seg fuel n r st).map Prod.fst = walk g starts seg fuel n r st := by
  intro fuel
  induction fuel with
  | zero => intros; rfl
  | succ k ih =>
    intro n r st
    simp only [walkT, walk]
    cases g.getE n with
    | err e => rfl
    | hang => rfl
    | ok dn =>
      simp only [Res.bind_ok]
      cases dn with
      | none => rfl
      | some m =>
        dsimp only
        cases starts.get? m with
        | some s => rfl
        | none =>
          dsimp only
          rw [← ih]
          cases walkT g starts seg k m (r + 1) ⟨st.nsr ++ [(n, seg, r)], update st.sa n seg, st.sg⟩ <;> rfl

theorem walkFoldT_fst (fuel : ℕ) (g : Dict (Fin N) (Option (Fin N))) (starts : Dict (Fin N) ℤ) :
    ∀ (l : List (Fin N × ℤ)) (r : Res (WState N × ℕ)),
      (l.foldl (walkStepT fuel g starts) r).map Prod.fst = l.foldl (walkStep fuel g starts) (r.map Prod.fst) := by
  intro l
  induction l with
  | nil => intro r; rfl
  | cons e l ih =>
    intro r
    rw [List.foldl_cons, List.foldl_cons, ih]
    congr 1
    cases r with
    | err e => rfl
    | hang => rfl
    | ok st =>
      simp only [walkStepT, walkStep, Res.bind_ok, Res.map]
      rw [← walkT_fst]
      cases walkT g starts e.2 fuel e.1 1 st.1 <;> rfl

theorem groupedT_fst (fuel : ℕ) (g : Dict (Fin N) (Option (Fin N))) (sa : Fin N → ℤ) :
    (groupedT fuel g sa).map Prod.fst = grouped fuel g sa := by
  unfold groupedT grouped segStarts
  rw [headFoldT]
  dsimp only
  rw [confFoldT]
  dsimp only
  have h := walkFoldT_fst fuel g ((nodesDn g).foldl (confStep (nodesDn g))
    (g.keys.foldl (headStep (nodesDn g)) ([], 1))).1 ((nodesDn g).foldl (confStep (nodesDn g))
    (g.keys.foldl (headStep (nodesDn g)) ([], 1))).1 (.ok (⟨[], sa, []⟩, 0))
  change _ = List.foldl _ (Res.map Prod.fst (.ok ((⟨[], sa, []⟩ : WState N), 0))) _
  rw [← h]
  cases List.foldl (walkStepT fuel g _) (Res.ok (⟨[], sa, []⟩, 0)) _ <;> rfl

theorem mf2005T_fst : (mf2005T limit fuel b fdir sa).map Prod.fst = mf2005 limit fuel b fdir sa true := by
  unfold mf2005T mf2005
  rw [if_pos rfl, ← groupedT_fst]
  cases groupedT fuel (cellGraph fdir sa) sa with
  | err e => rfl
  | hang => rfl
  | ok x =>
    simp only [Res.bind_ok, Res.map]
    cases finish limit b (cellGraph fdir sa) x.1 <;> rfl

/-! ### The counts -/

theorem lookups_le (n : Fin N) : ∀ l : List (Fin N), lookups n l ≤ l.length := by
  intro l
  induction l with
  | nil => exact le_rfl
  | cons m l ih =>
    simp only [lookups, List.length_cons]
    split_ifs <;> omega

/-- looking for as many different cells as a list of `D` entries has takes at least 1 + 2 + ... + D comparisons -/
theorem lookups_sum : ∀ (dns l : List (Fin N)), l.Nodup → dns.length ≤ l.length →
    dns.length * (dns.length + 1) ≤ 2 * (l.map (fun n => lookups n dns)).sum := by
  intro dns
  induction dns with
  | nil => intro l _ _; simp
  | cons y ys ih =>
    intro l hl hlen
    have hne : ∀ l' : List (Fin N), y ∉ l' →
        (l'.map (fun n => lookups n (y :: ys))).sum = (l'.map (fun n => lookups n ys)).sum + l'.length := by
      intro l'
      induction l' with
      | nil => intro _; rfl
      | cons a l' ih2 =>
        intro h
        rw [List.mem_cons, not_or] at h
        rw [List.map_cons, List.map_cons, List.sum_cons, List.sum_cons, ih2 h.2, List.length_cons]
        simp only [lookups, if_neg h.1]
        omega
    rw [List.length_cons] at hlen ⊢
    by_cases hy : y ∈ l
    · have hp := List.perm_cons_erase hy
      have he : y ∉ l.erase y := hl.not_mem_erase
      have h1 := ih (l.erase y) (hl.erase y) (by rw [List.length_erase_of_mem hy]; omega)
      rw [(hp.map _).sum_eq, List.map_cons, List.sum_cons, hne _ he]
      have h2 : (l.erase y).length = l.length - 1 := List.length_erase_of_mem hy
      simp only [lookups, if_true]
      have h3 : (ys.length + 1) * (ys.length + 1 + 1) = ys.length * (ys.length + 1) + 2 * (ys.length + 1) := by ring
      omega
    · have h1 := ih l hl (by omega)
      rw [hne l hy]
      have h3 : (ys.length + 1) * (ys.length + 1 + 1) = ys.length * (ys.length + 1) + 2 * (ys.length + 1) := by ring
      omega

theorem walkT_count (g : Dict (Fin N) (Option (Fin N))) (starts : Dict (Fin N) ℤ) (seg : ℤ) :
    ∀ (fuel : ℕ) (n : Fin N) (r : ℤ) (st : WState N) (st' : WState N) (c : ℕ),
      walkT g starts seg fuel n r st = .ok (st', c) → st'.nsr.length = st.nsr.length + c := by
  intro fuel
  induction fuel with
  | zero => intro n r st st' c h; cases h
  | succ k ih =>
    intro n r st st' c h
    simp only [walkT] at h
    obtain ⟨dn, -, h⟩ := Res.bind_eq_ok.1 h
    cases dn with
    | none =>
      obtain ⟨rfl, rfl⟩ := Prod.mk.inj (Res.ok.inj h)
      simp
    | some m =>
      dsimp only at h
      cases e : starts.get? m with
      | some s =>
        rw [e] at h
        obtain ⟨rfl, rfl⟩ := Prod.mk.inj (Res.ok.inj h)
        simp
      | none =>
        rw [e] at h
        obtain ⟨⟨s2, c2⟩, h2, h3⟩ := Res.map_eq_ok.1 h
        obtain ⟨rfl, rfl⟩ := Prod.mk.inj h3
        have := ih _ _ _ _ _ h2
        simp only [List.length_append, List.length_singleton] at this
        dsimp only
        omega

theorem walkFoldT_count (fuel : ℕ) (g : Dict (Fin N) (Option (Fin N))) (starts : Dict (Fin N) ℤ) :
    ∀ (l : List (Fin N × ℤ)) (r : Res (WState N × ℕ)) (st' : WState N) (c : ℕ),
      (∀ x, r = .ok x → x.1.nsr.length = x.2) → l.foldl (walkStepT fuel g starts) r = .ok (st', c) →
      st'.nsr.length = c := by
  intro l
  induction l with
  | nil => intro r st' c h e; exact h _ e
  | cons a l ih =>
    intro r st' c h e
    rw [List.foldl_cons] at e
    refine ih _ _ _ ?_ e
    intro x hx
    obtain ⟨y, hy, hx⟩ := Res.bind_eq_ok.1 hx
    obtain ⟨⟨s2, c2⟩, h2, h3⟩ := Res.map_eq_ok.1 hx
    subst h3
    have h4 := walkT_count _ _ _ _ _ _ _ _ _ h2
    have h5 := h y hy
    dsimp only at h4 ⊢
    omega

theorem remapRows_length (mp : Dict ℤ ℤ) : ∀ (l l' : List (Fin N × ℤ × ℤ)), remapRows mp l = .ok l' →
    l'.length = l.length := by
  intro l
  induction l with
  | nil => intro l' h; rw [← Res.ok.inj h]
  | cons r l ih =>
    intro l' h
    simp only [remapRows] at h
    obtain ⟨s, -, h⟩ := Res.bind_eq_ok.1 h
    obtain ⟨l2, h2, rfl⟩ := Res.map_eq_ok.1 h
    simp only [List.length_cons, ih _ h2]

open Classical in
/-- the number of stream cells that flow into a stream cell -/
noncomputable def nLinks (fdir sa : Fin N → ℤ) : ℕ := (Finset.univ.filter fun n => ∃ m, Feeds fdir sa n m).card

theorem nodesDn_length : (nodesDn (cellGraph fdir sa)).length = nLinks fdir sa := by
  classical
  have h : ∀ l : List (Fin N), (l.filterMap (dn fdir sa)).length = (l.filter (fun n => (dn fdir sa n).isSome)).length := by
    intro l
    induction l with
    | nil => rfl
    | cons a l ih =>
      cases e : dn fdir sa a with
      | none => rw [List.filterMap_cons_none e, List.filter_cons_of_neg (by simp [e]), ih]
      | some m => rw [List.filterMap_cons_some e, List.filter_cons_of_pos (by simp [e]), List.length_cons, List.length_cons, ih]
  rw [nodesDn_eq, h, nLinks, ← List.toFinset_card_of_nodup ((strmNodes_nodup sa).filter _)]
  congr 1
  ext n
  simp only [List.mem_toFinset, List.mem_filter, Finset.mem_filter, Finset.mem_univ, true_and]
  constructor
  · rintro ⟨h1, h2⟩
    obtain ⟨m, hm⟩ := Option.isSome_iff_exists.1 h2
    exact ⟨m, (dn_feeds (mem_strmNodes.1 h1)).1 hm⟩
  · rintro ⟨m, hm⟩
    exact ⟨mem_strmNodes.2 hm.1, by rw [(dn_feeds hm.1).2 hm]; rfl⟩

open Classical in
/-- **C223.** Let the network have S stream cells, D of which flow into a stream cell. The search for headwaters
makes at least D (D + 1) / 2 and at most S D comparisons, the search for confluences exactly D²; the `while` loops
together turn once for each cell that lies downstream of the start of a segment. -/
theorem C223_time (hf : N ≤ fuel) (hout : mf2005 limit fuel b fdir sa true = .ok out) :
    ∃ w : Cost, mf2005T limit fuel b fdir sa = .ok (out, w) ∧
      nLinks fdir sa * (nLinks fdir sa + 1) ≤ 2 * w.heads ∧
      w.heads ≤ (Finset.univ.filter fun n => sa n ≠ 0).card * nLinks fdir sa ∧
      w.confs = nLinks fdir sa * nLinks fdir sa ∧
      w.turns = (Finset.univ.filter fun n => ∃ a, Start fdir sa a ∧ ReflTransGen (Feeds fdir sa) a n).card := by
  obtain ⟨⟨o1, w⟩, hT, ho⟩ := Res.map_eq_ok.1 (mf2005T_fst.trans hout)
  dsimp only at ho
  subst ho
  refine ⟨w, hT, ?_⟩
  obtain ⟨⟨st, w1⟩, hG, hF⟩ := Res.bind_eq_ok.1 hT
  obtain ⟨o2, hfin, he⟩ := Res.map_eq_ok.1 hF
  obtain ⟨rfl, rfl⟩ := Prod.mk.inj he
  unfold groupedT at hG
  rw [headFoldT] at hG
  dsimp only at hG
  rw [confFoldT] at hG
  dsimp only at hG
  obtain ⟨⟨st2, c⟩, hW, he⟩ := Res.map_eq_ok.1 hG
  obtain ⟨rfl, rfl⟩ := Prod.mk.inj he
  dsimp only
  have hlen : (strmNodes sa).length = (Finset.univ.filter fun n => sa n ≠ 0).card := by
    rw [← List.toFinset_card_of_nodup (strmNodes_nodup sa)]
    congr 1
    ext n
    simp [mem_strmNodes]
  have hle : nLinks fdir sa ≤ (strmNodes sa).length := by
    rw [← nodesDn_length, nodesDn_eq]
    exact List.length_filterMap_le _ _
  rw [cellGraph_keys, nodesDn_length, Nat.zero_add, Nat.zero_add]
  refine ⟨?_, ?_, rfl, ?_⟩
  · have := lookups_sum (nodesDn (cellGraph fdir sa)) (strmNodes sa) (strmNodes_nodup sa)
      (by rw [nodesDn_length]; exact hle)
    rwa [nodesDn_length] at this
  · rw [← hlen]
    have := List.sum_le_card_nsmul ((strmNodes sa).map (fun n => lookups n (nodesDn (cellGraph fdir sa))))
      (nLinks fdir sa) (by
        intro x hx
        obtain ⟨n, -, rfl⟩ := List.mem_map.1 hx
        rw [← nodesDn_length]
        exact lookups_le _ _)
    rwa [List.length_map, smul_eq_mul] at this
  · have h1 := walkFoldT_count _ _ _ _ _ _ _ (by intro x hx; rw [← Res.ok.inj hx]; rfl) hW
    have h2 : o2.nsr.length = st2.nsr.length := by
      unfold finish at hfin
      obtain ⟨ord, -, hfin⟩ := Res.bind_eq_ok.1 hfin
      obtain ⟨nsr, hn, hfin⟩ := Res.bind_eq_ok.1 hfin
      obtain ⟨sg, -, hfin⟩ := Res.bind_eq_ok.1 hfin
      obtain ⟨u, -, hfin⟩ := Res.bind_eq_ok.1 hfin
      rw [← Res.ok.inj hfin]
      exact remapRows_length _ _ _ hn
    obtain ⟨r1, r2, -⟩ := C56_rows hf hout
    rw [← h1, ← h2, ← List.length_map (f := Prod.fst), ← List.toFinset_card_of_nodup r1]
    congr 1
    ext n
    rw [List.mem_toFinset, Finset.mem_filter, ← r2 n, List.mem_map]
    constructor
    · rintro ⟨⟨n, s, r⟩, h, rfl⟩; exact ⟨Finset.mem_univ _, s, r, h⟩
    · rintro ⟨-, s, r, h⟩; exact ⟨_, h, rfl⟩

open Classical in
/-- So if the stream leaves the network in a single cell, every run takes quadratic time, however the stream cells
are connected: with S + 1 stream cells the first search makes between S (S + 1) / 2 and S (S + 1) comparisons, the
second S²; the `while` loops turn at most S + 1 times, and that often if all stream cells lie downstream of
headwaters. -/
theorem C223_quadratic (hf : N ≤ fuel) (hout : mf2005 limit fuel b fdir sa true = .ok out) {S : ℕ}
    (hS : (Finset.univ.filter fun n => sa n ≠ 0).card = S + 1)
    (hexit : ∃! n, sa n ≠ 0 ∧ ∀ m, ¬ Feeds fdir sa n m) :
    ∃ w : Cost, mf2005T limit fuel b fdir sa = .ok (out, w) ∧ S * (S + 1) ≤ 2 * w.heads ∧
      w.heads ≤ (S + 1) * S ∧ w.confs = S * S ∧ w.turns ≤ S + 1 ∧
      ((∀ n, sa n ≠ 0 → ∃ h, Headwater fdir sa h ∧ ReflTransGen (Feeds fdir sa) h n) → w.turns = S + 1) := by
  have hD : nLinks fdir sa = S := by
    obtain ⟨e, ⟨he1, he2⟩, he3⟩ := hexit
    have : (Finset.univ.filter fun n => ∃ m, Feeds fdir sa n m) =
        (Finset.univ.filter fun n => sa n ≠ 0).erase e := by
      ext n
      simp only [Finset.mem_filter, Finset.mem_univ, true_and, Finset.mem_erase]
      constructor
      · rintro ⟨m, hm⟩
        exact ⟨by rintro rfl; exact he2 _ hm, hm.1⟩
      · rintro ⟨hne, hn⟩
        by_contra h
        exact hne (he3 n ⟨hn, fun m hm => h ⟨m, hm⟩⟩)
    rw [nLinks, this, Finset.card_erase_of_mem (by simpa using he1), hS]
    rfl
  obtain ⟨w, e, h1, h2, h3, h4⟩ := C223_time hf hout
  rw [hD] at h1 h2 h3
  rw [hS] at h2
  have hsub : (Finset.univ.filter fun n => ∃ a, Start fdir sa a ∧ ReflTransGen (Feeds fdir sa) a n) ⊆
      (Finset.univ.filter fun n => sa n ≠ 0) := by
    intro n hn
    rw [Finset.mem_filter] at hn ⊢
    refine ⟨Finset.mem_univ _, ?_⟩
    obtain ⟨-, a, ha, hr⟩ := hn
    rcases ReflTransGen.cases_tail hr with rfl | ⟨m, -, hm⟩
    · exact ha.stream
    · exact hm.2.1
  refine ⟨w, e, h1, h2, h3, ?_, fun hh => ?_⟩
  · rw [h4, ← hS]
    exact Finset.card_le_card hsub
  · rw [h4, ← hS]
    congr 1
    refine hsub.antisymm ?_
    intro n hn
    rw [Finset.mem_filter] at hn ⊢
    obtain ⟨h, hh1, hh2⟩ := hh n hn.2
    exact ⟨Finset.mem_univ _, h, .inl hh1, hh2⟩

/-- non-vacuity: two headwaters that meet (4 stream cells): 10 and 9 comparisons, 4 turns -/
example : (mf2005T 10 5 false exFdir exSa).map Prod.snd = .ok ⟨10, 9, 4⟩ := by decide +kernel

/-- the hypotheses of C223 are met by this network -/
example : ∃ out w, mf2005T 10 5 false exFdir exSa = .ok (out, w) ∧ 3 * 4 ≤ 2 * w.heads ∧ w.heads ≤ 4 * 3 ∧
    w.confs = 9 ∧ w.turns ≤ 4 := by
  classical
  have hl : SegsFit exFdir exSa 10 := (cellsFit_of_count (by decide +kernel)).segs
  obtain ⟨out, e⟩ := C56_terminates (fuel := 5) le_rfl hl
  have hfeeds : ∀ n m : Fin 5, exSa n ≠ 0 → exSa m ≠ 0 → exFdir n = ((m : ℕ) : ℤ) → Feeds exFdir exSa n m :=
    fun n m h1 h2 h3 => ⟨h1, h2, h3⟩
  obtain ⟨w, h1, h2, h3, h4, h5, -⟩ := C223_quadratic (S := 3) le_rfl e (by
      have : (Finset.univ.filter fun n : Fin 5 => exSa n ≠ 0) = {0, 1, 2, 3} := by
        ext n; rw [Finset.mem_filter]; simp only [Finset.mem_univ, true_and]; revert n; decide +kernel
      rw [this]; rfl) (by
      refine ⟨3, ⟨by decide, ?_⟩, ?_⟩
      · rintro m ⟨_, h, h'⟩
        revert h h'; revert m; decide
      · rintro n ⟨hn, h⟩
        fin_cases n
        · exact absurd (hfeeds 0 2 (by decide) (by decide) (by decide)) (h 2)
        · exact absurd (hfeeds 1 2 (by decide) (by decide) (by decide)) (h 2)
        · exact absurd (hfeeds 2 3 (by decide) (by decide) (by decide)) (h 3)
        · rfl
        · exact absurd rfl hn)
  exact ⟨out, w, h1, h2, h3, h4, h5⟩

/-- next to a network with one segment, a cycle without headwater is never walked: 4 stream cells, 2 turns -/
example : (mf2005T 10 4 false (![1, 0, 3, -1] : Fin 4 → ℤ) ![1, 1, 1, 1]).map Prod.snd = .ok ⟨9, 9, 2⟩ := by
  decide +kernel

end Dany.Seg
