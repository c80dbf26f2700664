import Verif.Seg.Ungroup
import Verif.Topo.Dfs

/-!
# C166: the two ungrouped numberings

`Sfr6.get_stream_connectivity` and `PrmsStreams` without grouping number the stream cells with
`_mf6_stream_connectivity`; `Sfr2005` without grouping with `_mf2005_stream_connectivity`.
-/

namespace Dany.Seg

open Function Reach Topo Relation Flow

variable {N : ℕ} {fdir sa : Fin N → ℤ} {d : Fin N → Fin N} {limit fuel : ℕ} {b : Bool} {out : Out N}

theorem idxOf_map_on {lab : Fin N → ℤ} {n : Fin N} {l : List (Fin N)} (h : ∀ m ∈ l, lab m = lab n → m = n) :
    (l.map lab).idxOf (lab n) = l.idxOf n := by
  induction l with
  | nil => rfl
  | cons a l ih =>
    rw [List.map_cons]
    by_cases ha : a = n
    · subst ha; simp
    · rw [List.idxOf_cons_ne _ (fun he => ha (h a (by simp) he)), List.idxOf_cons_ne _ ha,
        ih (fun m hm => h m (by simp [hm]))]

/-- the numbers of `_mf6_stream_connectivity` are the positions in a walk over the stream cells -/
theorem mf6_walk (hd : Legal fdir d) {r : (Fin N → ℤ) × Dict ℤ ℤ} (h : mf6 limit fdir sa = .ok r) :
    ∃ s, visAll (dn fdir sa) (fun n => (dn fdir sa n).isSome) limit (strmNodes sa) ([], []) = some s ∧
      s.2.Nodup ∧ (∀ n, n ∈ s.2 ↔ sa n ≠ 0) ∧ (∀ n, sa n = 0 → r.1 n = 0) ∧
      ∀ n, sa n ≠ 0 → r.1 n = (s.2.idxOf n : ℤ) + 1 := by
  unfold mf6 at h
  dsimp only at h
  rw [reachTopo_ok hd.resolves, Res.bind_ok] at h
  obtain ⟨order, ho, h⟩ := Res.bind_eq_ok.1 h
  have hL : Labelled (fun n => sa n ≠ 0) (dn fdir sa) (numberReaches sa) (fun n => (dn fdir sa n).isSome)
      (topo0 d sa) := by
    refine ⟨fun c _ m hm => (dn_eq_some.1 hm).1, fun c hc => ?_, fun a c ha _ he => num_inj ha he, fun c hc => ?_⟩
    · rw [numberReaches_eq, if_pos hc]; omega
    · rw [topo0_get hc]
      cases hn : dn fdir sa c with
      | none =>
        left
        refine ⟨rfl, ?_, rfl⟩
        rw [Option.some.injEq, num_zero]
        by_contra hne
        have : dn fdir sa c = some (d c) := dn_eq_some.2 ⟨hne, hd c⟩
        rw [hn] at this; cases this
      | some m =>
        right; left
        refine ⟨m, rfl, ?_, rfl⟩
        have h1 := (dn_eq_some.1 hn).2
        have : d c = m := Fin.ext (by have := hd c; rw [h1] at this; exact_mod_cast this.symm)
        rw [this]
  obtain ⟨s, hs, rfl⟩ := sort_vis (l := strmNodes sa) hL (fun c => mem_strmNodes)
    (by
      intro x
      rw [topo0_keys, List.mem_map]
      constructor
      · rintro ⟨n, hn, rfl⟩; exact ⟨n, mem_strmNodes.1 hn, rfl⟩
      · rintro ⟨n, hn, rfl⟩; exact ⟨n, mem_strmNodes.2 hn, rfl⟩)
    (by
      rw [List.pairwise_map, List.pairwise_iff_getElem]
      intro i j hi hj hij
      have h1 := mem_strmNodes.1 (List.getElem_mem hi)
      have h2 := mem_strmNodes.1 (List.getElem_mem hj)
      rw [numberReaches_eq, numberReaches_eq, if_pos h1, if_pos h2, (strmNodes_nodup sa).idxOf_getElem,
        (strmNodes_nodup sa).idxOf_getElem]
      omega) ho
  obtain ⟨h1, h2⟩ : (s.2.map (numberReaches sa)).Nodup ∧ ∀ x, x ∈ s.2.map (numberReaches sa) ↔ x ≠ 0 ∧ x ∈ (topo0 d sa).keys := by
    rcases sort_cases (topo0_refs (d := d) (sa := sa)) limit with he | ⟨S, he, h1, h2, _⟩
    · rw [ho] at he; cases he
    · rw [ho] at he
      obtain rfl := Res.ok.inj he
      exact ⟨h1, h2⟩
  have hnd : s.2.Nodup := h1.of_map
  have hin : ∀ n, sa n ≠ 0 → n ∈ s.2 := by
    intro n hn
    have : numberReaches sa n ∈ s.2.map (numberReaches sa) := by
      rw [h2, topo0_keys]
      exact ⟨by rwa [Ne, num_zero], List.mem_map.2 ⟨n, mem_strmNodes.2 hn, rfl⟩⟩
    obtain ⟨m, hm, he⟩ := List.mem_map.1 this
    rw [num_inj hn he.symm]; exact hm
  have hst : ∀ n ∈ s.2, sa n ≠ 0 := by
    intro n hn
    have := ((h2 _).1 (List.mem_map_of_mem hn)).1
    rwa [Ne, num_zero] at this
  obtain ⟨g, hg, h⟩ := Res.bind_eq_ok.1 h
  obtain ⟨sa', h', rfl⟩ := Res.map_eq_ok.1 h
  clear h
  rw [renum_foldl h1 _ _ (strmNodes_nodup sa) (fun n hn => List.mem_map_of_mem (hin n (mem_strmNodes.1 hn)))] at h'
  obtain rfl := Res.ok.inj h'
  refine ⟨s, hs, hnd, fun n => ⟨hst n, hin n⟩, fun n hn => ?_, fun n hn => ?_⟩
  · simp [mem_strmNodes, hn, num_zero.2 hn]
  · dsimp only
    rw [if_pos (mem_strmNodes.2 hn)]
    rw [idxOf_map_on (fun m hm he => num_inj (hst m hm) he)]

/-- cells that do not flow out of the stream or to themselves -/
def inner (fdir sa : Fin N → ℤ) (n : Fin N) : Bool :=
  match dn fdir sa n with
  | none => false
  | some m => decide (m ≠ n)

theorem nd_visAll {nx : Fin N → Option (Fin N)} {f : Fin N → Bool} {k : ℕ} : ∀ (l : List (Fin N))
    (st : Dict (Fin N) ℤ × ℤ) (s s' : List (Fin N) × List (Fin N)), Closed nx s.1 → (∀ x ∈ st.1.keys, x ∈ s.1) →
    visAll nx f k st.1.keys ([], []) = some s → visAll nx f k l s = some s' →
    visAll nx f k ((l.map (fun n => (n, nx n))).foldl ndStep st).1.keys ([], []) = some s' := by
  intro l
  induction l with
  | nil => intro st s s' _ _ h1 h2; cases h2; exact h1
  | cons a l ih =>
    intro st s s' hc hk h1 h2
    obtain ⟨s1, e1, h2⟩ := visAll_cons.1 h2
    rw [List.map_cons, List.foldl_cons]
    -- the first half of the step
    have hA : ∃ st1 : Dict (Fin N) ℤ × ℤ, (if a ∉ st.1.keys then (st.1.set a st.2, st.2 + 1) else st) = st1 ∧
        Closed nx s1.1 ∧ (∀ x ∈ st1.1.keys, x ∈ s1.1) ∧ a ∈ s1.1 ∧ visAll nx f k st1.1.keys ([], []) = some s1 := by
      have hmono : ∀ x ∈ s.1, x ∈ s1.1 := by
        split at e1
        · cases e1; exact fun x hx => hx
        · exact (vis_mono e1).2
      have ha : a ∈ s1.1 := by
        split at e1
        · rename_i h; cases e1; exact h
        · exact (vis_mono e1).1
      have hc1 : Closed nx s1.1 := by
        split at e1
        · cases e1; exact hc
        · exact vis_closed' hc e1
      by_cases hak : a ∈ st.1.keys
      · rw [if_neg (by simpa using hak)]
        rw [if_pos (hk a hak)] at e1
        cases e1
        exact ⟨st, rfl, hc, hk, ha, h1⟩
      · rw [if_pos hak]
        refine ⟨_, rfl, hc1, ?_, ha, ?_⟩
        · intro x hx
          rcases Dict.mem_keys_set.1 hx with hx | rfl
          · exact hmono x (hk x hx)
          · exact ha
        · rw [Dict.keys_set, if_neg hak]
          exact visAll_append.2 ⟨s, h1, visAll_cons.2 ⟨s1, e1, rfl⟩⟩
    obtain ⟨st1, he, hc1, hk1, ha, hv⟩ := hA
    have hB : ∃ st2 : Dict (Fin N) ℤ × ℤ, ndStep st (a, nx a) = st2 ∧ (∀ x ∈ st2.1.keys, x ∈ s1.1) ∧
        visAll nx f k st2.1.keys ([], []) = some s1 := by
      unfold ndStep
      dsimp only
      rw [he]
      cases hn : nx a with
      | none => exact ⟨st1, rfl, hk1, hv⟩
      | some m =>
        dsimp only
        have hm := hc1 a ha m hn
        by_cases hmk : m ∈ st1.1.keys
        · rw [if_neg (by simpa using hmk)]; exact ⟨st1, rfl, hk1, hv⟩
        · rw [if_pos hmk]
          refine ⟨_, rfl, ?_, ?_⟩
          · intro x hx
            rcases Dict.mem_keys_set.1 hx with hx | rfl
            · exact hk1 x hx
            · exact hm
          · rw [Dict.keys_set, if_neg hmk]
            exact visAll_append.2 ⟨s1, hv, visAll_cons.2 ⟨s1, by rw [if_pos hm], rfl⟩⟩
    obtain ⟨st2, he2, hk2, hv2⟩ := hB
    rw [he2]
    exact ih st2 s1 s' hc1 hk2 hv2 h2

/-- the segment numbers of `_mf2005_stream_connectivity` without grouping are the positions in a walk over
the same cells that puts cells flowing to themselves at the other end -/
theorem ungrouped_walk (h : mf2005 limit fuel b fdir sa false = .ok out) :
    ∃ (nd : Dict (Fin N) ℤ) (s : List (Fin N) × List (Fin N)),
      nd = (((strmNodes sa).map (fun n => (n, dn fdir sa n))).foldl ndStep ([], 1)).1 ∧
      visAll (dn fdir sa) (inner fdir sa) limit nd.keys ([], []) = some s ∧
      s.2.Nodup ∧ (∀ n, n ∈ s.2 ↔ sa n ≠ 0) ∧ (∀ n, sa n = 0 → out.sa n = 0) ∧
      ∀ n, sa n ≠ 0 → out.sa n = (s.2.idxOf n : ℤ) + 1 := by
  obtain ⟨hN, hK⟩ := ndFold_ok ((strmNodes sa).map (fun n => (n, dn fdir sa n))) ([], 1) Numbered.nil
  unfold mf2005 ungrouped at h
  rw [if_neg (by simp), cellGraph_eq] at h
  set nd := (((strmNodes sa).map (fun n => (n, dn fdir sa n))).foldl ndStep ([], 1)).1 with hnd
  have hk : ∀ n, n ∈ nd.keys ↔ sa n ≠ 0 := by
    intro n
    rw [hK]
    simp only [Dict.keys_nil, List.not_mem_nil, false_or]
    constructor
    · rintro ⟨e, he, h⟩
      obtain ⟨x, hx, rfl⟩ := List.mem_map.1 he
      rcases h with rfl | h
      · exact mem_strmNodes.1 hx
      · exact (dn_eq_some.1 h).1
    · intro hn
      exact ⟨_, List.mem_map.2 ⟨n, mem_strmNodes.2 hn, rfl⟩, .inl rfl⟩
  have hgetv : ∀ n, sa n ≠ 0 → nd.get? n = some (ndNum nd n) := by
    intro n hn
    obtain ⟨v, hv⟩ := Dict.mem_keys_iff.1 ((hk n).2 hn)
    simp [ndNum, hv]
  -- numbers are positions in the insertion order
  have hnum : ∀ i (hi : i < nd.length), ndNum nd nd[i].1 = (i : ℤ) + 1 := by
    intro i hi
    have h1 : nd.get? nd[i].1 = some nd[i].2 := Dict.get?_of_mem hN.nodup (List.getElem_mem hi)
    have h2 : (nd.map Prod.snd)[i]? = some nd[i].2 := by simp [hi]
    have h3 : nd.map Prod.snd = (List.range nd.length).map (fun i : ℕ => (i : ℤ) + 1) := hN.vals
    rw [h3, List.getElem?_map, List.getElem?_range hi, Option.map_some, Option.some.injEq] at h2
    simp [ndNum, h1, h2]
  have hsorted : (nd.keys.map (ndNum nd)).Pairwise (· < ·) := by
    rw [List.pairwise_map, List.pairwise_iff_getElem]
    intro i j hi hj hij
    have hi' : i < nd.length := by simpa [Dict.keys] using hi
    have hj' : j < nd.length := by simpa [Dict.keys] using hj
    have e1 : nd.keys[i] = nd[i].1 := by simp [Dict.keys]
    have e2 : nd.keys[j] = nd[j].1 := by simp [Dict.keys]
    rw [e1, e2, hnum i hi', hnum j hj']
    omega
  have hpos : ∀ n, sa n ≠ 0 → 1 ≤ ndNum nd n := by
    intro n hn
    obtain ⟨i, hi, he⟩ := List.getElem_of_mem ((hk n).2 hn)
    have hi' : i < nd.length := by simpa [Dict.keys] using hi
    have e1 : nd.keys[i] = nd[i].1 := by simp [Dict.keys]
    rw [← he, e1, hnum i hi']
    omega
  have hinj : ∀ m n, sa m ≠ 0 → sa n ≠ 0 → ndNum nd m = ndNum nd n → m = n := by
    intro m n hm hn he
    have hnod : (nd.keys.map (ndNum nd)).Nodup := hsorted.imp (fun h => ne_of_lt h)
    exact List.inj_on_of_nodup_map hnod ((hk m).2 hm) ((hk n).2 hn) he
  obtain ⟨sa1, e1, z1, v1⟩ := ungroupFold_ok (fdir := fdir) hk hinj (strmNodes sa) ⟨[], sa, []⟩
    (fun n hn => mem_strmNodes.1 hn) (strmNodes_nodup sa) (by simp)
  simp only [List.nil_append] at e1
  rw [e1, Res.bind_ok] at h
  set sg : Dict ℤ ℤ := (strmNodes sa).map (fun n => (ndNum nd n, ndOut fdir sa nd n)) with hsg
  have hsgk : sg.keys = (strmNodes sa).map (ndNum nd) := keys_map_pair _ _ _
  have hsgnd : sg.keys.Nodup := by
    rw [hsgk]
    exact (strmNodes_nodup sa).map_on (fun x hx y hy h => hinj x y (mem_strmNodes.1 hx) (mem_strmNodes.1 hy) h)
  have hget : ∀ n, sa n ≠ 0 → sg.get? (ndNum nd n) = some (ndOut fdir sa nd n) := fun n hn =>
    Dict.get?_of_mem hsgnd (List.mem_map.2 ⟨n, mem_strmNodes.2 hn, rfl⟩)
  unfold finish at h
  rw [Basin.addConnections_nodup hsgnd] at h
  obtain ⟨order, ho, h⟩ := Res.bind_eq_ok.1 h
  have hL : Labelled (fun n => sa n ≠ 0) (dn fdir sa) (ndNum nd) (inner fdir sa) sg := by
    refine ⟨fun c _ m hm => (dn_eq_some.1 hm).1, hpos, fun a c ha hc he => hinj a c ha hc he, fun c hc => ?_⟩
    rw [hget c hc]
    unfold ndOut inner
    cases hn : dn fdir sa c with
    | none => left; exact ⟨rfl, rfl, rfl⟩
    | some m =>
      dsimp only
      by_cases hmc : m = c
      · subst hmc
        right; right
        simp
      · right; left
        refine ⟨m, rfl, ?_, by simpa using hmc⟩
        rw [if_neg (fun he => hmc (hinj m c (dn_eq_some.1 hn).1 hc he))]
  obtain ⟨s, hs, rfl⟩ := sort_vis (l := nd.keys) hL hk
    (by
      intro x
      rw [hsgk, List.mem_map]
      constructor
      · rintro ⟨n, hn, rfl⟩; exact ⟨n, mem_strmNodes.1 hn, rfl⟩
      · rintro ⟨n, hn, rfl⟩; exact ⟨n, mem_strmNodes.2 hn, rfl⟩)
    hsorted ho
  have hrefs : RefsExist sg := by
    rintro x y ⟨_, h⟩
    obtain ⟨n, hn, he⟩ := List.mem_map.1 (Dict.mem_of_get? h)
    simp only [Prod.mk.injEq] at he
    obtain ⟨rfl, rfl⟩ := he
    unfold ndOut
    cases hd : dn fdir sa n with
    | none => left; rfl
    | some m =>
      dsimp only
      split
      · left; rfl
      · right
        rw [hsgk]
        exact List.mem_map.2 ⟨m, mem_strmNodes.2 (dn_eq_some.1 hd).1, rfl⟩
  obtain ⟨h1, h2⟩ : (s.2.map (ndNum nd)).Nodup ∧ ∀ x, x ∈ s.2.map (ndNum nd) ↔ x ≠ 0 ∧ x ∈ sg.keys := by
    rcases sort_cases hrefs limit with he | ⟨S, he, h1, h2, _⟩
    · rw [ho] at he; cases he
    · rw [ho] at he
      obtain rfl := Res.ok.inj he
      exact ⟨h1, h2⟩
  have hst : ∀ n ∈ s.2, sa n ≠ 0 := by
    intro n hn
    by_contra hz
    have : ndNum nd n = 0 := by
      have : nd.get? n = none := Dict.get?_eq_none.2 (fun h => (hk n).1 h hz)
      simp [ndNum, this]
    exact ((h2 _).1 (List.mem_map_of_mem hn)).1 this
  have hin : ∀ n, sa n ≠ 0 → n ∈ s.2 := by
    intro n hn
    have : ndNum nd n ∈ s.2.map (ndNum nd) := by
      rw [h2, hsgk]
      exact ⟨by have := hpos n hn; omega, List.mem_map.2 ⟨n, mem_strmNodes.2 hn, rfl⟩⟩
    obtain ⟨m, hm, he⟩ := List.mem_map.1 this
    rw [← hinj m n (hst m hm) hn he]; exact hm
  obtain ⟨_, _, h⟩ := Res.bind_eq_ok.1 h
  obtain ⟨_, _, h⟩ := Res.bind_eq_ok.1 h
  obtain ⟨_, _, h⟩ := Res.bind_eq_ok.1 h
  obtain rfl := Res.ok.inj h
  refine ⟨nd, s, hnd, hs, h1.of_map, fun n => ⟨hst n, hin n⟩, fun n hn => ?_, fun n hn => ?_⟩
  · dsimp only
    have : sa1 n = 0 := by rw [z1 n hn]; exact hn
    rw [segArray_get (segMapper_nodup h1), this, segMapper_get h1 (.inl rfl)]
    simp [pos]
  · dsimp only
    have hv := v1 n hn (.inl (mem_strmNodes.2 hn))
    rw [segArray_get (segMapper_nodup h1), hv, segMapper_get h1 (.inr (List.mem_map_of_mem (hin n hn))),
      Option.getD_some, pos, if_neg (by have := hpos n hn; omega),
      idxOf_map_on (fun m hm he => hinj m n (hst m hm) hn he)]

/-- following the stream from `a` one arrives in `o` -/
def Drains (fdir sa : Fin N → ℤ) (a o : Fin N) : Prop := ReflTransGen (Feeds fdir sa) a o

/-- the stream cell of the lowest number -/
def FirstCell (sa : Fin N → ℤ) (c : Fin N) : Prop := sa c ≠ 0 ∧ ∀ m, sa m ≠ 0 → c ≤ m

/-- **C166 (exact).**  `_mf6_stream_connectivity` and `_mf2005_stream_connectivity(group_segments=False)` number
the stream cells alike exactly if the stream cell of lowest number drains into every stream cell that flows
to itself (in particular if there is none). -/
theorem C166_exact (hd : Legal fdir d) {r : (Fin N → ℤ) × Dict ℤ ℤ} (h6 : mf6 limit fdir sa = .ok r)
    (h5 : mf2005 limit fuel b fdir sa false = .ok out) :
    r.1 = out.sa ↔ ∀ c o, FirstCell sa c → sa o ≠ 0 → d o = o → Drains fdir sa c o := by
  obtain ⟨s, hs, snd, smem, sz, sv⟩ := mf6_walk hd h6
  obtain ⟨nd, t, hnd, ht, tnd, tmem, tz, tv⟩ := ungrouped_walk h5
  obtain ⟨t', ht', _⟩ := visAll_some (g := inner fdir sa) (t := ([], [])) rfl hs
  have htt : t' = t := by
    have := nd_visAll (f := inner fdir sa) (strmNodes sa) ([], 1) ([], []) t' (by intro x hx; cases hx)
      (by simp) rfl ht'
    rw [← hnd, ht] at this
    exact (Option.some.inj this).symm
  subst htt
  have heq : r.1 = out.sa ↔ s.2 = t'.2 := by
    constructor
    · intro he
      have hp : s.2.Perm t'.2 := (List.perm_ext_iff_of_nodup snd tnd).2 (fun n => by rw [smem, tmem])
      apply List.ext_getElem hp.length_eq
      intro i h1 h2
      have hm := (smem _).1 (List.getElem_mem h1)
      have e1 := sv _ hm
      rw [he, tv _ hm, snd.idxOf_getElem i h1] at e1
      have e2 : t'.2.idxOf s.2[i] = i := by omega
      have hlt : t'.2.idxOf s.2[i] < t'.2.length := List.idxOf_lt_length_iff.2 ((tmem _).2 hm)
      have e3 := List.getElem_idxOf hlt
      simp only [e2] at e3
      exact e3.symm
    · intro he
      funext n
      by_cases hn : sa n = 0
      · rw [sz n hn, tz n hn]
      · rw [sv n hn, tv n hn, he]
  rw [heq]
  have hfeeds : ∀ c x, sa c ≠ 0 → (ReflTransGen (fun a b => dn fdir sa a = some b) c x ↔ Drains fdir sa c x) := by
    intro c x hc
    constructor
    · intro h
      have : ReflTransGen (Feeds fdir sa) c x ∧ sa x ≠ 0 := by
        induction h with
        | refl => exact ⟨.refl, hc⟩
        | tail _ hbc ih => exact ⟨ih.1.tail ((dn_feeds ih.2).1 hbc), (dn_eq_some.1 hbc).1⟩
      exact this.1
    · intro h
      unfold Drains at h
      induction h with
      | refl => exact .refl
      | tail _ hbc ih => exact ih.tail ((dn_feeds hbc.1).2 hbc)
  have hself : ∀ n, (dn fdir sa n).isSome ≠ inner fdir sa n ↔ dn fdir sa n = some n := by
    intro n
    unfold inner
    cases hn : dn fdir sa n with
    | none => simp
    | some m =>
      by_cases hm : m = n <;> simp [hm]
  have hselfd : ∀ n, dn fdir sa n = some n ↔ sa n ≠ 0 ∧ d n = n := by
    intro n
    rw [dn_eq_some, hd n]
    constructor
    · rintro ⟨h1, h2⟩; exact ⟨h1, Fin.ext (by exact_mod_cast h2)⟩
    · rintro ⟨h1, h2⟩; exact ⟨h1, by rw [h2]⟩
  cases hl : strmNodes sa with
  | nil =>
    have hno : ∀ n, sa n = 0 := by
      intro n
      by_contra hn
      have := mem_strmNodes.2 hn
      rw [hl] at this; cases this
    rw [hl] at hs ht'
    cases hs; cases ht'
    simp only [true_iff]
    intro c o _ ho
    exact absurd (hno o) ho
  | cons c l =>
    have hc : FirstCell sa c := by
      refine ⟨mem_strmNodes.1 (by rw [hl]; simp), fun m hm => ?_⟩
      have hm' := mem_strmNodes.2 hm
      have hsort : (strmNodes sa).Pairwise (· < ·) := (List.pairwise_lt_finRange N).filter _
      rw [hl] at hm' hsort
      rcases List.mem_cons.1 hm' with rfl | hm'
      · exact le_refl _
      · exact le_of_lt ((List.pairwise_cons.1 hsort).1 m hm')
    rw [hl] at hs ht'
    rw [visAll_agree (f := fun n => (dn fdir sa n).isSome) (g := inner fdir sa)
      (fun x hx => by
        have hx := (hself x).1 hx
        exact ⟨hx, by simp [hx], by simp [inner, hx]⟩)
      (fun x hx => by
        rw [← hl, mem_strmNodes]
        exact ((hselfd x).1 ((hself x).1 hx)).1) hs ht' snd]
    constructor
    · intro h c' o hc' ho1 ho2
      obtain rfl : c' = c := le_antisymm (hc'.2 c hc.1) (hc.2 c' hc'.1)
      exact (hfeeds c' o hc.1).1 (h o ((hself o).2 ((hselfd o).2 ⟨ho1, ho2⟩)))
    · intro h x hx
      obtain ⟨h1, h2⟩ := (hselfd x).1 ((hself x).1 hx)
      exact (hfeeds c x hc.1).2 (h c x hc h1 h2)

end Dany.Seg
