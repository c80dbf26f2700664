import Verif.Seg.Lemmas

/-!
# The grouped segmentation
-/

namespace Dany.Seg

open Function Reach Topo

variable {N : ℕ} {fdir sa : Fin N → ℤ}

/-! ### Renumbering -/

theorem segMapper_get {order : List ℤ} (h : order.Nodup) {x : ℤ} (hx : x = 0 ∨ x ∈ order) :
    (segMapper order).get? x = some (pos order x) := by
  unfold segMapper
  rw [Dict.get?_set]
  by_cases h0 : x = 0
  · rw [if_pos h0]; simp [pos, h0]
  · rw [if_neg h0, mapper_get h (hx.resolve_left h0)]; simp [pos, h0]

theorem mapper_keys {order : List ℤ} (h : order.Nodup) : (mapper order).keys = order := by
  rw [mapper_eq h]
  simp [Dict.keys, Function.comp_def]

theorem segMapper_keys {order : List ℤ} (h : order.Nodup) {x : ℤ} :
    x ∈ (segMapper order).keys ↔ x = 0 ∨ x ∈ order := by
  unfold segMapper
  rw [Dict.mem_keys_set, mapper_keys h, or_comm]

theorem segMapper_nodup {order : List ℤ} (h : order.Nodup) : (segMapper order).keys.Nodup :=
  Dict.nodup_keys_set (by rw [mapper_keys h]; exact h) _ _

theorem remapRows_ok {order : List ℤ} (h : order.Nodup) : ∀ (l : List (Fin N × ℤ × ℤ)),
    (∀ r ∈ l, r.2.1 ∈ order) →
    remapRows (segMapper order) l = .ok (l.map (fun r => (r.1, pos order r.2.1, r.2.2))) := by
  intro l
  induction l with
  | nil => intro _; rfl
  | cons r l ih =>
    intro hl
    simp only [remapRows, Dict.getE, segMapper_get h (.inr (hl r (by simp))), Res.bind_ok,
      ih (fun r' hr' => hl r' (by simp [hr'])), Res.map_ok, List.map_cons]

theorem remapSeg_foldl {order : List ℤ} (h : order.Nodup) : ∀ (l : List (ℤ × ℤ)) (g : Dict ℤ ℤ),
    (∀ e ∈ l, e.1 ∈ order ∧ (e.2 = 0 ∨ e.2 ∈ order)) →
    l.foldl (remapSeg (segMapper order)) (.ok g) =
      .ok (l.foldl (fun g e => g.set (pos order e.1) (pos order e.2)) g) := by
  intro l
  induction l with
  | nil => intro g _; rfl
  | cons e l ih =>
    intro g hl
    have he := hl e (by simp)
    rw [List.foldl_cons, List.foldl_cons, ← ih _ (fun e' he' => hl e' (by simp [he']))]
    simp only [remapSeg, Res.bind_ok, Dict.getE, segMapper_get h (.inr he.1), segMapper_get h he.2]

theorem segArray_get {mp : Dict ℤ ℤ} (h : mp.keys.Nodup) (sa : Fin N → ℤ) (n : Fin N) :
    segArray mp sa n = (mp.get? (sa n)).getD 0 := by
  have key : ∀ (mp : Dict ℤ ℤ) (a : Fin N → ℤ), mp.keys.Nodup →
      mp.foldl (fun a e n => if sa n = e.1 then e.2 else a n) a n = (mp.get? (sa n)).getD (a n) := by
    intro mp
    induction mp with
    | nil => intro a _; rfl
    | cons e mp ih =>
      intro a hnd
      obtain ⟨k, v⟩ := e
      have hk : k ∉ Dict.keys mp := (List.nodup_cons.1 hnd).1
      rw [List.foldl_cons, ih _ (List.nodup_cons.1 hnd).2]
      simp only [Dict.get?]
      by_cases he : k = sa n
      · rw [if_pos he, ← he, Dict.get?_eq_none.2 hk]
        simp
      · rw [if_neg he]
        rw [if_neg (fun h => he h.symm)]
  exact key mp _ h

theorem finish_ok {st : WState N} (hnd : st.sg.keys.Nodup) (h0 : (0 : ℤ) ∉ st.sg.keys)
    (href : ∀ e ∈ st.sg, e.2 = 0 ∨ e.2 ∈ st.sg.keys) (hrows : ∀ r ∈ st.nsr, r.2.1 ∈ st.sg.keys)
    {limit : ℕ} (hl : ShortPaths st.sg limit) (g : Dict (Fin N) (Option (Fin N))) :
    ∃ order : List ℤ, order.Nodup ∧ (∀ x, x ∈ order ↔ x ∈ st.sg.keys) ∧ (0 : ℤ) ∉ order ∧
      order.length = st.sg.length ∧ (Acyclic st.sg → Ordered st.sg order) ∧
      ∀ b, finish limit b g st = (reshapeCheck b N).bind fun _ => .ok
        ⟨fun n => if st.sa n ∈ order then pos order (st.sa n) else 0, g,
          st.sg.map (fun e => (pos order e.1, pos order e.2)),
          st.nsr.map (fun r => (r.1, pos order r.2.1, r.2.2))⟩ := by
  have hrefs : RefsExist st.sg := by
    rintro x y ⟨_, h⟩
    exact href _ (Dict.mem_of_get? h)
  obtain ⟨order, e, h1, h2, h3⟩ := sort_ok hrefs hl
  have hmem : ∀ x, x ∈ order ↔ x ∈ st.sg.keys := by
    intro x
    rw [h2]
    constructor
    · exact fun h => h.2
    · intro h; exact ⟨by rintro rfl; exact h0 h, h⟩
  have h0' : (0 : ℤ) ∉ order := fun h => h0 ((hmem 0).1 h)
  have hkey : ∀ e ∈ st.sg, e.1 ∈ st.sg.keys := fun e he => List.mem_map.2 ⟨e, he, rfl⟩
  refine ⟨order, h1, hmem, h0', ?_, h3, ?_⟩
  · have := ((List.perm_ext_iff_of_nodup h1 hnd).2 hmem).length_eq
    rw [this]; simp [Dict.keys]
  intro b
  unfold finish
  rw [Basin.addConnections_nodup hnd, e, Res.bind_ok, remapRows_ok h1 _ (fun r hr => (hmem _).2 (hrows r hr)),
    Res.bind_ok, remapSeg_foldl h1 _ _ (fun e he => ⟨(hmem _).2 (hkey e he), by
      rcases href e he with h | h
      · exact .inl h
      · exact .inr ((hmem _).2 h)⟩), Res.bind_ok]
  rw [foldl_set_fresh (fun e : ℤ × ℤ => pos order e.1) (fun e => pos order e.2)]
  · congr 1
    funext _
    congr 2
    · funext n
      rw [segArray_get (segMapper_nodup h1)]
      split
      · rename_i hn
        rw [segMapper_get h1 (.inr hn)]; rfl
      · rename_i hn
        by_cases hz : st.sa n = 0
        · rw [segMapper_get h1 (.inl hz)]; simp [pos, hz]
        · rw [Dict.get?_eq_none.2 (fun h => by
            rcases (segMapper_keys h1).1 h with h | h
            · exact hz h
            · exact hn h)]
          rfl
  · rw [Dict.keys_nil, List.nil_append]
    have : st.sg.map (fun e : ℤ × ℤ => pos order e.1) = st.sg.keys.map (pos order) := by
      simp [Dict.keys]
    rw [this]
    apply List.Nodup.map_on _ hnd
    intro x hx y hy hxy
    exact pos_inj ((hmem x).2 hx) (by rintro rfl; exact h0 hx) hxy

/-! ### The walks of all segments -/

/-- the segment starts of the model -/
abbrev starts (fdir sa : Fin N → ℤ) : Dict (Fin N) ℤ := segStarts (cellGraph fdir sa)

abbrev nx (fdir sa : Fin N → ℤ) : Fin N → Option (Fin N) := next fdir sa (starts fdir sa)

theorem mem_starts {n : Fin N} : n ∈ (starts fdir sa).keys ↔ Start fdir sa n := (segStarts_ok fdir sa).2.2 n

theorem Start.stream {n : Fin N} (h : Start fdir sa n) : sa n ≠ 0 := by
  rcases h with h | ⟨a, _, _, h, _⟩
  · exact h.1
  · exact h.2.1

theorem nx_some {a m : Fin N} : nx fdir sa a = some m ↔ Feeds fdir sa a m ∧ ¬ Start fdir sa m := by
  rw [nx, next_some, mem_starts]

theorem nx_inj {a b m : Fin N} (h1 : nx fdir sa a = some m) (h2 : nx fdir sa b = some m) : a = b := by
  by_contra hne
  exact (nx_some.1 h1).2 (.inr ⟨a, b, hne, (nx_some.1 h1).1, (nx_some.1 h2).1⟩)

theorem nx_start {s : Fin N} (hs : Start fdir sa s) (a : Fin N) : nx fdir sa a ≠ some s :=
  fun h => (nx_some.1 h).2 hs

theorem path_start {s : Fin N} (hs : Start fdir sa s) :
    ∃ p, Path (nx fdir sa) s p ∧ p.Nodup := by
  obtain ⟨p, h1, h2⟩ := path_exists (fun a b m => nx_inj) (nx_start hs) N [] s (by simp) (by simp)
    List.nodup_nil (.inl rfl) (by simp)
  exact ⟨p, h1, by simpa using h2⟩

open Classical in
/-- the cells of the segment that starts in `s` -/
noncomputable def seg (fdir sa : Fin N → ℤ) (s : Fin N) : List (Fin N) :=
  if h : ∃ p, Path (nx fdir sa) s p ∧ p.Nodup then h.choose else []

theorem seg_path {s : Fin N} (hs : Start fdir sa s) : Path (nx fdir sa) s (seg fdir sa s) := by
  unfold seg; rw [dif_pos (path_start hs)]; exact (path_start hs).choose_spec.1

theorem seg_nodup {s : Fin N} (hs : Start fdir sa s) : (seg fdir sa s).Nodup := by
  unfold seg; rw [dif_pos (path_start hs)]; exact (path_start hs).choose_spec.2

theorem seg_stream {s x : Fin N} (hs : Start fdir sa s) (hx : x ∈ seg fdir sa s) : sa x ≠ 0 := by
  rcases (seg_path hs).tail_image hx with rfl | ⟨y, _, hy⟩
  · exact hs.stream
  · exact (nx_some.1 hy).1.2.1

theorem self_mem_seg {s : Fin N} (hs : Start fdir sa s) : s ∈ seg fdir sa s := by
  obtain ⟨q, hq⟩ := (seg_path hs).head
  rw [hq]; simp

theorem start_mem_seg {s x : Fin N} (hs : Start fdir sa s) (hx : x ∈ seg fdir sa s)
    (hxs : Start fdir sa x) : x = s := by
  rcases (seg_path hs).tail_image hx with rfl | ⟨y, _, hy⟩
  · rfl
  · exact absurd hy (nx_start hxs y)

/-- a cell lies in at most one segment -/
theorem seg_disjoint {s t : Fin N} (hs : Start fdir sa s) (ht : Start fdir sa t) :
    ∀ x, x ∈ seg fdir sa s → x ∈ seg fdir sa t → s = t := by
  have key : ∀ {a : Fin N} {p : List (Fin N)}, Path (nx fdir sa) a p →
      (∀ x ∈ seg fdir sa t, x = a → a = t) → (a ∉ seg fdir sa t ∨ a = t) := by
    intro a p _ h
    by_cases ha : a ∈ seg fdir sa t
    · exact .inr (h a ha rfl)
    · exact .inl ha
  -- walk back along segment `s`
  have back : ∀ (k : ℕ) (hk : k < (seg fdir sa s).length), (seg fdir sa s)[k] ∈ seg fdir sa t → s = t := by
    intro k
    induction k with
    | zero =>
      intro hk hm
      obtain ⟨q, hq⟩ := (seg_path hs).head
      have h0 : (seg fdir sa s)[0] = s := by simp [hq]
      rw [h0] at hm
      exact start_mem_seg ht hm hs
    | succ k ih =>
      intro hk hm
      have h1 := (seg_path hs).getElem_succ hk
      rcases (seg_path ht).tail_image hm with h2 | ⟨y, hy, hyx⟩
      · rw [h2] at h1; exact absurd h1 (nx_start ht _)
      · apply ih (by omega)
        rw [nx_inj h1 hyx]; exact hy
  intro x hx hxt
  obtain ⟨k, hk, rfl⟩ := List.getElem_of_mem hx
  exact back k hk hxt

theorem rowsOf_fst (s : ℤ) : ∀ (r : ℤ) (p : List (Fin N)), (rowsOf s r p).map Prod.fst = p := by
  intro r p
  induction p generalizing r with
  | nil => rfl
  | cons a p ih => simp [rowsOf, ih]

theorem mem_rowsOf {s r : ℤ} {p : List (Fin N)} {x : Fin N × ℤ × ℤ} :
    x ∈ rowsOf s r p ↔ ∃ i, ∃ h : i < p.length, x = (p[i], s, r + i) := by
  induction p generalizing r with
  | nil => simp [rowsOf]
  | cons a p ih =>
    simp only [rowsOf, List.mem_cons, ih]
    constructor
    · rintro (rfl | ⟨i, h, rfl⟩)
      · exact ⟨0, by simp, by simp⟩
      · exact ⟨i + 1, by simpa using h, by simp; ring⟩
    · rintro ⟨i, h, rfl⟩
      cases i with
      | zero => left; simp
      | succ i => right; exact ⟨i, by simpa using h, by simp; ring⟩

/-- last cell of a segment -/
noncomputable def segLast (fdir sa : Fin N → ℤ) (s : Fin N) : Fin N :=
  if h : seg fdir sa s ≠ [] then (seg fdir sa s).getLast h else s

theorem segLast_eq {s : Fin N} (hs : Start fdir sa s) :
    segLast fdir sa s = (seg fdir sa s).getLast (seg_path hs).ne_nil := by
  unfold segLast; rw [dif_pos (seg_path hs).ne_nil]

theorem walks_ok {fuel : ℕ} (hf : N ≤ fuel) : ∀ (l : List (Fin N × ℤ)) (st : WState N),
    (∀ e ∈ l, e ∈ starts fdir sa) → (l.map Prod.fst).Nodup → (st.sg.keys ++ l.map Prod.snd).Nodup →
    ∃ sa', l.foldl (walkStep fuel (cellGraph fdir sa) (starts fdir sa)) (.ok st) = .ok
        ⟨st.nsr ++ l.flatMap (fun e => rowsOf e.2 1 (seg fdir sa e.1)), sa',
          st.sg ++ l.map (fun e => (e.2, outCode fdir sa (starts fdir sa) (segLast fdir sa e.1)))⟩ ∧
      (∀ e ∈ l, ∀ n ∈ seg fdir sa e.1, sa' n = e.2) ∧
      (∀ n, (∀ e ∈ l, n ∉ seg fdir sa e.1) → sa' n = st.sa n) := by
  intro l
  induction l with
  | nil => intro st _ _ _; exact ⟨st.sa, by simp, by simp, by simp⟩
  | cons e l ih =>
    intro st hl hnd hsg
    have hstart : ∀ e ∈ starts fdir sa, Start fdir sa e.1 := by
      intro e he
      exact mem_starts.1 (List.mem_map.2 ⟨e, he, rfl⟩)
    have hs : Start fdir sa e.1 := hstart e (hl e (by simp))
    have hp := seg_path hs
    have hlen : (seg fdir sa e.1).length ≤ fuel := by
      have := (seg_nodup hs).length_le_card
      simp at this
      omega
    have hw := walk_path hp (seg := e.2) (fun x hx => seg_stream hs hx) fuel 1 st hlen (seg_nodup hs)
    rw [← segLast_eq hs] at hw
    have hfresh : e.2 ∉ st.sg.keys := by
      intro hm
      rw [List.map_cons, List.nodup_append] at hsg
      exact hsg.2.2 _ hm _ (by simp) rfl
    rw [Basin.set_fresh hfresh] at hw
    rw [List.foldl_cons]
    have hstep : walkStep fuel (cellGraph fdir sa) (starts fdir sa) (.ok st) e = _ := hw
    rw [hstep]
    rw [List.map_cons, List.nodup_cons] at hnd
    obtain ⟨sa', h1, h2, h3⟩ := ih ⟨st.nsr ++ rowsOf e.2 1 (seg fdir sa e.1),
        fun n => if n ∈ seg fdir sa e.1 then e.2 else st.sa n,
        st.sg ++ [(e.2, outCode fdir sa (starts fdir sa) (segLast fdir sa e.1))]⟩ (fun e' he' => hl e' (by simp [he'])) hnd.2 (by
      have : Dict.keys (st.sg ++ [(e.2, outCode fdir sa (starts fdir sa) (segLast fdir sa e.1))]) =
          st.sg.keys ++ [e.2] := by simp [Dict.keys]
      rw [this]
      simpa using hsg)
    refine ⟨sa', ?_, ?_, ?_⟩
    · rw [h1]
      simp
    · intro e' he' n hn
      rcases List.mem_cons.1 he' with rfl | he'
      · rw [h3 n (fun e'' he'' hn' => ?_)]
        · simp [hn]
        · have := seg_disjoint hs (hstart e'' (hl e'' (by simp [he'']))) n hn hn'
          exact hnd.1 (List.mem_map.2 ⟨e'', he'', this.symm⟩)
      · exact h2 e' he' n hn
    · intro n hn
      rw [h3 n (fun e' he' => hn e' (by simp [he']))]
      simp [hn e (by simp)]

/-- the number of segments -/
noncomputable def nSeg (fdir sa : Fin N → ℤ) : ℕ := by
  classical exact (Finset.univ.filter (fun n => Start fdir sa n)).card

theorem starts_length : (starts fdir sa).length = nSeg fdir sa := by
  classical
  have h := segStarts_ok fdir sa
  have h1 : (starts fdir sa).keys.length = (starts fdir sa).length := by simp [Dict.keys]
  rw [← h1, ← List.toFinset_card_of_nodup h.1]
  unfold nSeg
  congr 1
  ext n
  simp [mem_starts]

/-- paths in a segment graph are paths of cells, and possibly one number more -/
theorem chain_of_links {sg : Dict ℤ ℤ} (num : Fin N → Option ℤ) {R : Fin N → Fin N → Prop}
    {P : Fin N → Prop}
    (hlink : ∀ x y, FlowsTo sg x y → y ≠ 0 → ∃ p q, P p ∧ num p = some x ∧ num q = some y ∧ R p q)
    (hkey : ∀ x y, FlowsTo sg x y → ∃ p, P p ∧ num p = some x)
    (hinj : ∀ p q x, num p = some x → num q = some x → p = q) :
    ∀ p : List ℤ, p.IsChain (FlowsTo sg) → ∃ q : List (Fin N), q.IsChain R ∧ (∀ n ∈ q, P n) ∧
      (p.map some = q.map num ∨ ∃ z, p.map some = q.map num ++ [z]) := by
  intro p
  induction p with
  | nil => intro _; exact ⟨[], by simp, by simp, by simp⟩
  | cons x p ih =>
    intro hc
    cases p with
    | nil => exact ⟨[], by simp, by simp, by simp⟩
    | cons y p =>
      rw [List.isChain_cons_cons] at hc
      by_cases hy : y = 0
      · obtain ⟨a, ha, hn⟩ := hkey _ _ hc.1
        have hp : p = [] := by
          cases p with
          | nil => rfl
          | cons z p =>
            have := hc.2
            rw [List.isChain_cons_cons] at this
            exact absurd hy this.1.1
        subst hp
        exact ⟨[a], by simp, by simpa using ha, .inr ⟨some y, by simp [hn]⟩⟩
      · obtain ⟨a, b, ha, hn, hm, hR⟩ := hlink _ _ hc.1 hy
        obtain ⟨q, h1, h2, h3⟩ := ih hc.2
        refine ⟨a :: q, List.isChain_cons.2 ⟨?_, h1⟩, ?_, ?_⟩
        · intro m hmem
          obtain ⟨q', rfl⟩ : ∃ q', q = m :: q' := by
            cases q with
            | nil => simp at hmem
            | cons c q' => simp at hmem; exact ⟨q', by rw [hmem]⟩
          have : num m = some y := by
            rcases h3 with h3 | ⟨z, h3⟩ <;> simp at h3 <;> exact h3.1.symm
          rw [hinj m b y this hm]; exact hR
        · intro m hmem
          rcases List.mem_cons.1 hmem with rfl | hmem
          · exact ha
          · exact h2 m hmem
        · rcases h3 with h3 | ⟨z, h3⟩
          · left; rw [List.map_cons, h3, List.map_cons, hn]
          · right; exact ⟨z, by rw [List.map_cons, h3, List.map_cons, hn]; rfl⟩

theorem short_of_links {sg : Dict ℤ ℤ} {limit : ℕ} (num : Fin N → Option ℤ) {R : Fin N → Fin N → Prop}
    {P : Fin N → Prop}
    (hl : ∀ p : List (Fin N), p.IsChain R → p.Nodup → (∀ n ∈ p, P n) → p.length + 1 ≤ limit)
    (hlink : ∀ x y, FlowsTo sg x y → y ≠ 0 → ∃ p q, P p ∧ num p = some x ∧ num q = some y ∧ R p q)
    (hkey : ∀ x y, FlowsTo sg x y → ∃ p, P p ∧ num p = some x)
    (hinj : ∀ p q x, num p = some x → num q = some x → p = q) : ShortPaths sg limit := by
  intro p hc hp
  obtain ⟨q, h1, h2, h3⟩ := chain_of_links num hlink hkey hinj p hc
  have hp' : (p.map some).Nodup := hp.map (Option.some_injective ℤ)
  have hq : q.Nodup := by
    rcases h3 with h3 | ⟨z, h3⟩
    · rw [h3] at hp'; exact hp'.of_map
    · rw [h3] at hp'; exact (List.nodup_append.1 hp').1.of_map
  have := hl q h1 hq h2
  have h4 : p.length = (p.map some).length := by simp
  rcases h3 with h3 | ⟨z, h3⟩ <;> rw [h4, h3] <;> simp <;> omega

/-- the segment after the last cell of a segment is the next segment start -/
theorem nextStart_of {a b : Fin N} (ha : Start fdir sa a) (h : dn fdir sa (segLast fdir sa a) = some b)
    (hb : Start fdir sa b) : NextStart fdir sa a b := by
  have hm : segLast fdir sa a ∈ seg fdir sa a := by rw [segLast_eq ha]; exact List.getLast_mem _
  refine ⟨hb, segLast fdir sa a, ?_, (dn_feeds (seg_stream ha hm)).1 h⟩
  have hr : ∀ n ∈ seg fdir sa a,
      Relation.ReflTransGen (fun x y => Feeds fdir sa x y ∧ ¬ Start fdir sa y) a n := by
    intro n hn
    obtain ⟨i, hi, rfl⟩ := List.getElem_of_mem hn
    clear hn
    induction i with
    | zero =>
      obtain ⟨q, hq⟩ := (seg_path ha).head
      have : (seg fdir sa a)[0] = a := by simp [hq]
      rw [this]
    | succ i ih => exact (ih (by omega)).tail (nx_some.1 ((seg_path ha).getElem_succ hi))
  exact hr _ hm

theorem segsFit_of_count {limit : ℕ} (h : nSeg fdir sa + 1 ≤ limit) : SegsFit fdir sa limit := by
  classical
  intro p _ hp hs
  have h1 : p.toFinset.card ≤ nSeg fdir sa := by
    unfold nSeg
    apply Finset.card_le_card
    intro n hn
    simpa using hs n (List.mem_toFinset.1 hn)
  rw [List.toFinset_card_of_nodup hp] at h1
  omega

theorem cellsFit_of_count {limit : ℕ} (h : nStream sa + 1 ≤ limit) : CellsFit fdir sa limit := by
  intro p _ hp hs
  have h1 : p.toFinset.card ≤ nStream sa := by
    unfold nStream
    apply Finset.card_le_card
    intro n hn
    simpa using hs n (List.mem_toFinset.1 hn)
  rw [List.toFinset_card_of_nodup hp] at h1
  omega

/-- a next segment start is the cell the last cell of the segment flows to -/
theorem NextStart.last {a b : Fin N} (ha : Start fdir sa a) (h : NextStart fdir sa a b) :
    Feeds fdir sa (segLast fdir sa a) b := by
  obtain ⟨hb, l, hl, hf⟩ := h
  have hmem : l ∈ seg fdir sa a := by
    clear hf
    induction hl with
    | refl => exact self_mem_seg ha
    | tail _ hxy ih => exact (seg_path ha).closed ih (nx_some.2 hxy)
  obtain ⟨i, hi, rfl⟩ := List.getElem_of_mem hmem
  have hlast : i + 1 = (seg fdir sa a).length := by
    by_contra hne
    have h1 := (nx_some.1 ((seg_path ha).getElem_succ (i := i) (by omega)))
    have h2 : (seg fdir sa a)[i + 1]'(by omega) = b := by
      have e1 := h1.1.2.2
      rw [hf.2.2] at e1
      exact Fin.ext (by omega)
    exact h1.2 (h2 ▸ hb)
  have : segLast fdir sa a = (seg fdir sa a)[i] := by
    rw [segLast_eq ha, List.getLast_eq_getElem]
    congr 1
    omega
  rw [this]; exact hf

theorem seg_chain {a : Fin N} (ha : Start fdir sa a) : (seg fdir sa a).IsChain (Feeds fdir sa) :=
  List.isChain_iff_getElem.2 fun _ hi => (nx_some.1 ((seg_path ha).getElem_succ hi)).1

/-- a limit that suffices for the cells suffices for the segments -/
theorem CellsFit.segs {limit : ℕ} (h : CellsFit fdir sa limit) : SegsFit fdir sa limit := by
  intro p hc hp hs
  have hnd : (p.flatMap (seg fdir sa)).Nodup := by
    rw [List.nodup_flatMap]
    refine ⟨fun a ha => seg_nodup (hs a ha), hp.imp_of_mem ?_⟩
    intro x y hx hy hne n hn hn'
    exact hne (seg_disjoint (hs x hx) (hs y hy) n hn hn')
  have hstream : ∀ n ∈ p.flatMap (seg fdir sa), sa n ≠ 0 := by
    intro n hn
    obtain ⟨a, ha, hn⟩ := List.mem_flatMap.1 hn
    exact seg_stream (hs a ha) hn
  have key : ∀ p : List (Fin N), p.IsChain (NextStart fdir sa) → (∀ n ∈ p, Start fdir sa n) →
      (p.flatMap (seg fdir sa)).IsChain (Feeds fdir sa) ∧ p.length ≤ (p.flatMap (seg fdir sa)).length := by
    intro p
    induction p with
    | nil => intro _ _; simp
    | cons a p ih =>
      intro hc hs
      have ha := hs a (by simp)
      obtain ⟨h1, h2⟩ := ih hc.tail (fun n hn => hs n (by simp [hn]))
      have hpos : 0 < (seg fdir sa a).length := List.length_pos_iff.2 (seg_path ha).ne_nil
      rw [List.flatMap_cons]
      refine ⟨List.isChain_append.2 ⟨seg_chain ha, h1, ?_⟩, by
        rw [List.length_append, List.length_cons]; omega⟩
      intro x hx y hy
      cases p with
      | nil => simp at hy
      | cons b p =>
        have hb := hs b (by simp)
        rw [List.isChain_cons_cons] at hc
        obtain ⟨q, hq⟩ := (seg_path hb).head
        rw [List.flatMap_cons, hq, List.cons_append, List.head?_cons] at hy
        rw [List.getLast?_eq_some_getLast (seg_path ha).ne_nil, ← segLast_eq ha] at hx
        simp only [Option.mem_def, Option.some.injEq] at hx hy
        rw [← hx, ← hy]
        exact hc.1.last ha
  have := h _ (key p hc hs).1 hnd hstream
  have := (key p hc hs).2
  omega

theorem mf2005_leRec {x y fuel : ℕ} (h : x ≤ y) (b : Bool) (g : Bool) :
    (mf2005 x fuel b fdir sa g).LeRec (mf2005 y fuel b fdir sa g) :=
  (Res.LeRec.refl _).bind fun _ => (sort_leRec h).bind fun _ => .refl _

/-- a successful run can be seen as one with a sufficient recursion limit -/
theorem mf2005_lift {limit fuel : ℕ} {b g : Bool} {out : Out N} (h : mf2005 limit fuel b fdir sa g = .ok out) :
    ∃ L, CellsFit fdir sa L ∧ SegsFit fdir sa L ∧ mf2005 L fuel b fdir sa g = .ok out :=
  have hc : CellsFit fdir sa (max limit (nStream sa + 1)) := cellsFit_of_count (le_max_right _ _)
  ⟨max limit (nStream sa + 1), hc, hc.segs, (mf2005_leRec (le_max_left _ _) b g).ok h⟩

/-- The segmentation in one statement: segments are numbered by a function `sn` of their first cell. -/
theorem grouped_main {limit fuel : ℕ} (hf : N ≤ fuel) (hl : SegsFit fdir sa limit) :
    ∃ (ss : List (Fin N)) (sn : Fin N → ℤ) (sa' : Fin N → ℤ),
      ss.Nodup ∧ (∀ n, n ∈ ss ↔ Start fdir sa n) ∧
      (∀ a, Start fdir sa a → 1 ≤ sn a ∧ sn a ≤ nSeg fdir sa) ∧
      (∀ a b, Start fdir sa a → Start fdir sa b → sn a = sn b → a = b) ∧
      (∀ b, mf2005 limit fuel b fdir sa true = (reshapeCheck b N).bind fun _ => .ok
        ⟨sa', cellGraph fdir sa,
          ss.map (fun a => (sn a, (match dn fdir sa (segLast fdir sa a) with
            | none => 0
            | some m => sn m))),
          ss.flatMap (fun a => rowsOf (sn a) 1 (seg fdir sa a))⟩) ∧
      (∀ a, Start fdir sa a → ∀ n ∈ seg fdir sa a, sa' n = sn a) ∧
      (∀ n, sa n = 0 → sa' n = 0) ∧
      (∀ n, 0 ≤ sa' n ∧ sa' n ≤ nSeg fdir sa) ∧
      (∀ n, (∀ a, Start fdir sa a → n ∉ seg fdir sa a) →
        (∀ a, (starts fdir sa).get? a = some (sa n) → sa' n = sn a) ∧
        ((∀ a, (starts fdir sa).get? a ≠ some (sa n)) → sa' n = 0)) ∧
      ((∀ a b, Start fdir sa a → Start fdir sa b →
          Relation.ReflTransGen (fun x y => Start fdir sa x ∧ dn fdir sa (segLast fdir sa x) = some y) a b →
          Relation.ReflTransGen (fun x y => Start fdir sa x ∧ dn fdir sa (segLast fdir sa x) = some y) b a →
          a = b) →
        ∀ a b, Start fdir sa a → dn fdir sa (segLast fdir sa a) = some b → a ≠ b → sn a < sn b) := by
  obtain ⟨hnd, hvals, hkeys⟩ := segStarts_ok fdir sa
  have hvn : ((starts fdir sa).map Prod.snd).Nodup := by
    rw [hvals]; exact List.nodup_range.map (fun a b h => by simpa using h)
  obtain ⟨sa1, hw, hw1, hw2⟩ := walks_ok (fdir := fdir) (sa := sa) hf (starts fdir sa) ⟨[], sa, []⟩
    (fun e he => he) hnd (by simpa using hvn)
  simp only [List.nil_append] at hw
  set st : WState N := ⟨(starts fdir sa).flatMap (fun e => rowsOf e.2 1 (seg fdir sa e.1)), sa1,
    (starts fdir sa).map (fun e => (e.2, outCode fdir sa (starts fdir sa) (segLast fdir sa e.1)))⟩
    with hst
  have hsgk : st.sg.keys = (starts fdir sa).map Prod.snd := by
    simp [hst, Dict.keys, Function.comp_def]
  have hval : ∀ x, x ∈ (starts fdir sa).map Prod.snd ↔ ∃ i < nSeg fdir sa, x = ((i : ℕ) : ℤ) + 1 := by
    intro x
    rw [hvals, List.mem_map]
    have := starts_length (fdir := fdir) (sa := sa)
    constructor
    · rintro ⟨i, hi, rfl⟩
      rw [List.mem_range, this] at hi
      exact ⟨i, hi, rfl⟩
    · rintro ⟨i, hi, rfl⟩
      exact ⟨i, by rw [List.mem_range, this]; exact hi, rfl⟩
  -- outflow codes
  have hget : ∀ m, Start fdir sa m → ∃ s, (starts fdir sa).get? m = some s ∧ (m, s) ∈ starts fdir sa := by
    intro m hm
    obtain ⟨s, hs⟩ := Dict.mem_keys_iff.1 (mem_starts.2 hm)
    exact ⟨s, hs, Dict.mem_of_get? hs⟩
  have hlast : ∀ a, Start fdir sa a → sa (segLast fdir sa a) ≠ 0 := by
    intro a ha
    rw [segLast_eq ha]
    exact seg_stream ha (List.getLast_mem _)
  have hlastS : ∀ a m, Start fdir sa a → dn fdir sa (segLast fdir sa a) = some m → Start fdir sa m := by
    intro a m ha hm
    by_contra hc
    have := (seg_path ha).getLast
    rw [← segLast_eq ha] at this
    rw [nx_some.2 ⟨(dn_feeds (hlast a ha)).1 hm, hc⟩] at this
    cases this
  have hcode : ∀ e ∈ starts fdir sa,
      outCode fdir sa (starts fdir sa) (segLast fdir sa e.1) = 0 ∨
      outCode fdir sa (starts fdir sa) (segLast fdir sa e.1) ∈ (starts fdir sa).map Prod.snd := by
    intro e he
    have hs : Start fdir sa e.1 := mem_starts.1 (List.mem_map.2 ⟨e, he, rfl⟩)
    unfold outCode
    cases hd : dn fdir sa (segLast fdir sa e.1) with
    | none => left; rfl
    | some m =>
      obtain ⟨s, h1, h2⟩ := hget m (hlastS _ _ hs hd)
      right
      dsimp only
      rw [h1]
      exact List.mem_map.2 ⟨(m, s), h2, rfl⟩
  -- connections of the segment graph
  have hflow : ∀ x y, FlowsTo st.sg x y → y ≠ 0 → ∃ p q, Start fdir sa p ∧ Start fdir sa q ∧
      (starts fdir sa).get? p = some x ∧ (starts fdir sa).get? q = some y ∧
      dn fdir sa (segLast fdir sa p) = some q := by
    rintro x y ⟨_, hxy⟩ hy0
    obtain ⟨e, he, hex⟩ := List.mem_map.1 (Dict.mem_of_get? hxy)
    rw [Prod.mk.injEq] at hex
    obtain ⟨rfl, hey⟩ := hex
    have hs : Start fdir sa e.1 := mem_starts.1 (List.mem_map.2 ⟨e, he, rfl⟩)
    unfold outCode at hey
    cases hd : dn fdir sa (segLast fdir sa e.1) with
    | none => rw [hd] at hey; exact absurd hey.symm hy0
    | some m =>
      rw [hd] at hey
      dsimp only at hey
      have hm := hlastS _ _ hs hd
      obtain ⟨s', h1', _⟩ := hget m hm
      rw [h1', Option.getD_some] at hey
      exact ⟨e.1, m, hs, hm, Dict.get?_of_mem hnd he, by rw [h1', hey], hd⟩
  have hinj : ∀ p q x, (starts fdir sa).get? p = some x → (starts fdir sa).get? q = some x → p = q := by
    intro p q x hp hq
    have := List.inj_on_of_nodup_map hvn (Dict.mem_of_get? hp) (Dict.mem_of_get? hq) rfl
    exact congrArg Prod.fst this
  have hshort : ShortPaths st.sg limit := by
    apply short_of_links (starts fdir sa).get? (R := NextStart fdir sa) (P := Start fdir sa) hl
    · intro x y hxy hy
      obtain ⟨p, q, h1, h2, h3, h4, h5⟩ := hflow x y hxy hy
      exact ⟨p, q, h1, h3, h4, nextStart_of h1 h5 h2⟩
    · intro x y hxy
      obtain ⟨e, he, hex⟩ := List.mem_map.1 (Dict.mem_of_get? hxy.2)
      rw [Prod.mk.injEq] at hex
      obtain ⟨rfl, _⟩ := hex
      exact ⟨e.1, mem_starts.1 (List.mem_map.2 ⟨e, he, rfl⟩), Dict.get?_of_mem hnd he⟩
    · exact fun p q x => hinj p q x
  obtain ⟨order, o1, o2, o3, o4, o5, o6⟩ := finish_ok (st := st) (by rw [hsgk]; exact hvn)
    (by
      rw [hsgk, hval]
      rintro ⟨i, _, h⟩
      omega)
    (by
      intro e he
      obtain ⟨e', he', rfl⟩ := List.mem_map.1 he
      rw [hsgk]
      exact hcode e' he')
    (by
      intro r hr
      obtain ⟨e, he, hre⟩ := List.mem_flatMap.1 hr
      obtain ⟨i, _, rfl⟩ := mem_rowsOf.1 hre
      rw [hsgk]
      exact List.mem_map.2 ⟨e, he, rfl⟩)
    (limit := limit) hshort (cellGraph fdir sa)
  have hmo : ∀ x, x ∈ order ↔ x ∈ (starts fdir sa).map Prod.snd := by intro x; rw [o2, hsgk]
  have holen : order.length = nSeg fdir sa := by
    rw [o4]; simp [hst, starts_length]
  have hsnpos : ∀ a, Start fdir sa a → ∃ s, (starts fdir sa).get? a = some s ∧ s ∈ order ∧ s ≠ 0 := by
    intro a ha
    obtain ⟨s, h1, h2⟩ := hget a ha
    have h3 : s ∈ order := (hmo s).2 (List.mem_map.2 ⟨(a, s), h2, rfl⟩)
    exact ⟨s, h1, h3, by rintro rfl; exact o3 h3⟩
  refine ⟨(starts fdir sa).keys, fun a => pos order (((starts fdir sa).get? a).getD 0),
    fun n => if sa1 n ∈ order then pos order (sa1 n) else 0, hnd, hkeys, ?_, ?_, ?_, ?_, ?_, ?_, ?_, ?_⟩
  · intro a ha
    obtain ⟨s, h1, h2, h3⟩ := hsnpos a ha
    dsimp only
    rw [h1, Option.getD_some, pos, if_neg h3]
    have := List.idxOf_lt_length_iff.2 h2
    omega
  · intro a b ha hb hab
    obtain ⟨s, h1, h2, h3⟩ := hsnpos a ha
    obtain ⟨t, h4, h5, h6⟩ := hsnpos b hb
    dsimp only at hab
    rw [h1, h4] at hab
    have hst' := pos_inj h2 h3 hab
    simp only [Option.getD_some] at hst'
    subst hst'
    have h7 := Dict.mem_of_get? h1
    have h8 := Dict.mem_of_get? h4
    have := List.inj_on_of_nodup_map hvn h7 h8 rfl
    exact congrArg Prod.fst this
  · intro b
    have hm : mf2005 limit fuel b fdir sa true = finish limit b (cellGraph fdir sa) st := by
      simp only [mf2005, grouped, if_true]
      rw [hw, Res.bind_ok]
    rw [hm, o6]
    congr 1
    funext _
    have hke : (starts fdir sa).keys = (starts fdir sa).map Prod.fst := rfl
    have hgetE : ∀ e ∈ starts fdir sa, (starts fdir sa).get? e.1 = some e.2 := fun e he =>
      Dict.get?_of_mem hnd he
    congr 2
    · rw [hke, List.map_map, List.map_map]
      apply List.map_congr_left
      intro e he
      simp only [comp_apply]
      rw [hgetE e he, Option.getD_some]
      congr 1
      unfold outCode
      cases hd : dn fdir sa (segLast fdir sa e.1) with
      | none => simp [pos]
      | some m => rfl
    · rw [hke, List.flatMap_map, List.map_flatMap]
      apply List.flatMap_congr
      intro e he
      dsimp only
      rw [hgetE e he, Option.getD_some]
      have : ∀ (s r : ℤ) (p : List (Fin N)),
          (rowsOf s r p).map (fun r => (r.1, pos order r.2.1, r.2.2)) = rowsOf (pos order s) r p := by
        intro s r p
        induction p generalizing r with
        | nil => rfl
        | cons a p ih => simp [rowsOf, ih]
      exact this _ _ _
  · intro a ha n hn
    obtain ⟨s, h1, h2, h3⟩ := hsnpos a ha
    have := hw1 (a, s) (Dict.mem_of_get? h1) n hn
    dsimp only at this ⊢
    rw [this, if_pos h2, h1, Option.getD_some]
  · intro n hn
    have : sa1 n = 0 := by
      have := hw2 n (fun e he hm => by
        have hs : Start fdir sa e.1 := mem_starts.1 (List.mem_map.2 ⟨e, he, rfl⟩)
        exact seg_stream hs hm hn)
      rw [this]; exact hn
    dsimp only
    rw [this, if_neg o3]
  · intro n
    dsimp only
    split
    · rename_i hn
      have := List.idxOf_lt_length_iff.2 hn
      unfold pos
      split <;> omega
    · omega
  · intro n hn
    have e : sa1 n = sa n := hw2 n (fun e he => hn e.1 (mem_starts.1 (List.mem_map.2 ⟨e, he, rfl⟩)))
    dsimp only
    rw [e]
    constructor
    · intro a ha
      have hs : Start fdir sa a := mem_starts.1 (Dict.mem_keys_iff.2 ⟨_, ha⟩)
      obtain ⟨s, h1, h2, h3⟩ := hsnpos a hs
      rw [ha, Option.some.injEq] at h1
      subst h1
      rw [if_pos h2, ha, Option.getD_some]
    · intro hno
      rw [if_neg]
      intro hin
      obtain ⟨x, hx, hxe⟩ := List.mem_map.1 ((hmo _).1 hin)
      exact hno x.1 (by rw [← hxe]; exact Dict.get?_of_mem hnd hx)
  · intro hac a b ha hab hne
    have hb := hlastS a b ha hab
    obtain ⟨s, h1, h2, h3⟩ := hsnpos a ha
    obtain ⟨t, h4, h5, h6⟩ := hsnpos b hb
    have hpath : ∀ x y, Relation.ReflTransGen (FlowsTo st.sg) x y → y ≠ 0 → ∀ p, (starts fdir sa).get? p = some x →
        Start fdir sa p → ∃ q, (starts fdir sa).get? q = some y ∧ Start fdir sa q ∧
        Relation.ReflTransGen (fun x y => Start fdir sa x ∧ dn fdir sa (segLast fdir sa x) = some y) p q := by
      intro x y hxy
      induction hxy with
      | refl => intro _ p hp hsp; exact ⟨p, hp, hsp, .refl⟩
      | tail _ hbc ih =>
        intro hy0 p hp hsp
        have hbz := hbc.1
        obtain ⟨q, hq, hsq, hr⟩ := ih hbz p hp hsp
        obtain ⟨p', q', hp', hq', e1, e2, e3⟩ := hflow _ _ hbc hy0
        have := hinj p' q _ e1 hq
        subst this
        exact ⟨q', e2, hq', hr.tail ⟨hp', e3⟩⟩
    have hacyc : Acyclic st.sg := by
      intro x y hxy hyx
      by_contra hne'
      have hx0 : x ≠ 0 := by
        rintro rfl
        rcases Relation.ReflTransGen.cases_head hxy with h | ⟨z, hz, _⟩
        · exact hne' h
        · exact hz.1 rfl
      have hy0 : y ≠ 0 := by
        rintro rfl
        rcases Relation.ReflTransGen.cases_head hyx with h | ⟨z, hz, _⟩
        · exact hne' h.symm
        · exact hz.1 rfl
      have hxk : ∃ p, (starts fdir sa).get? p = some x ∧ Start fdir sa p := by
        rcases Relation.ReflTransGen.cases_head hxy with h | ⟨z, hz, _⟩
        · exact absurd h hne'
        · have : x ∈ st.sg.keys := Dict.mem_keys_iff.2 ⟨z, hz.2⟩
          rw [hsgk] at this
          obtain ⟨e, he, rfl⟩ := List.mem_map.1 this
          exact ⟨e.1, Dict.get?_of_mem hnd he, mem_starts.1 (List.mem_map.2 ⟨e, he, rfl⟩)⟩
      obtain ⟨p, hp, hsp⟩ := hxk
      obtain ⟨q, hq, hsq, hr1⟩ := hpath x y hxy hy0 p hp hsp
      obtain ⟨p', hp', hsp', hr2⟩ := hpath y x hyx hx0 q hq hsq
      have := hinj p' p _ hp' hp
      subst this
      have := hac p' q hsp' hsq hr1 hr2
      subst this
      rw [hp] at hq
      cases hq
      exact hne' rfl
    have hbefore := o5 hacyc s h2 t ⟨h3, ?_⟩ h6 ?_
    · have := idxOf_lt_of_before o1 hbefore
      dsimp only
      rw [h1, h4, Option.getD_some, Option.getD_some, pos, pos, if_neg h3, if_neg h6]
      omega
    · apply Dict.get?_of_mem (by rw [hsgk]; exact hvn)
      refine List.mem_map.2 ⟨(a, s), Dict.mem_of_get? h1, ?_⟩
      simp only [outCode, hab, h4, Option.getD_some]
    · rintro rfl
      exact hne (hinj a b _ h1 h4)

end Dany.Seg
