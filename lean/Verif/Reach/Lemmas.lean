import Verif.Reach.Model
import Verif.Reach.Spec
import Verif.Basin.Sub
import Verif.Topo.Props

/-!
# Lemmas about the MODFLOW 6 reach numbering
-/

namespace Dany.Reach

open Function Flow Topo

variable {N : ℕ} {d : Fin N → Fin N} {fdir sa : Fin N → ℤ}

theorem foldl_set_fresh {κ α β : Type*} [DecidableEq κ] (f : β → κ) (v : β → α) :
    ∀ (l : List β) (t : Dict κ α), (t.keys ++ l.map f).Nodup →
      l.foldl (fun m p => Dict.set m (f p) (v p)) t = t ++ l.map (fun p => (f p, v p)) := by
  intro l
  induction l with
  | nil => intro t _; simp
  | cons b l ih =>
    intro t h
    have hb : f b ∉ t.keys := by
      intro hm
      rw [List.map_cons, List.nodup_append] at h
      exact h.2.2 _ hm _ (by simp) rfl
    rw [List.foldl_cons, Basin.set_fresh hb, ih]
    · simp
    · have : Dict.keys (t ++ [(f b, v b)]) = t.keys ++ [f b] := by simp [Dict.keys]
      rw [this]
      simpa using h

theorem mem_strmNodes {n : Fin N} : n ∈ strmNodes sa ↔ sa n ≠ 0 := by
  simp [strmNodes]

theorem strmNodes_nodup (sa : Fin N → ℤ) : (strmNodes sa).Nodup :=
  (List.nodup_finRange N).filter _

theorem strmNodes_card (sa : Fin N → ℤ) :
    (strmNodes sa).length = (Finset.univ.filter (fun n => sa n ≠ 0)).card := by
  rw [← List.toFinset_card_of_nodup (strmNodes_nodup sa)]
  congr 1
  ext n
  simp [mem_strmNodes]

theorem foldl_update_zipIdx (l : List (Fin N)) : ∀ (k : ℕ) (a : Fin N → ℤ), l.Nodup → ∀ n,
    (l.zipIdx k).foldl (fun a p => update a p.1 ((p.2 : ℤ) + 1)) a n =
      if n ∈ l then ((k + l.idxOf n : ℕ) : ℤ) + 1 else a n := by
  induction l with
  | nil => intro k a _ n; simp
  | cons b l ih =>
    intro k a h n
    rw [List.nodup_cons] at h
    rw [List.zipIdx_cons, List.foldl_cons, ih _ _ h.2]
    by_cases hn : n ∈ l
    · have hne : b ≠ n := by rintro rfl; exact h.1 hn
      rw [if_pos hn, if_pos (List.mem_cons_of_mem _ hn), List.idxOf_cons_ne _ hne]
      congr 2
      omega
    · rw [if_neg hn]
      by_cases hb : n = b
      · subst hb; simp
      · rw [update_of_ne hb, if_neg (by simp [hb, hn])]

/-- the initial reach numbers -/
theorem numberReaches_eq (sa : Fin N → ℤ) (n : Fin N) :
    numberReaches sa n = if sa n ≠ 0 then ((strmNodes sa).idxOf n : ℤ) + 1 else 0 := by
  unfold numberReaches
  rw [foldl_update_zipIdx _ 0 _ (strmNodes_nodup sa)]
  by_cases h : sa n = 0
  · rw [if_neg (by rw [mem_strmNodes]; simpa using h), if_neg (by simpa using h), h]
  · rw [if_pos (mem_strmNodes.2 h), if_pos h]
    simp

theorem num_zero {n : Fin N} : numberReaches sa n = 0 ↔ sa n = 0 := by
  rw [numberReaches_eq]
  split
  · rename_i h
    constructor
    · intro h'; omega
    · intro h'; exact absurd h' h
  · rename_i h; simpa using h

theorem num_inj {a b : Fin N} (ha : sa a ≠ 0) (h : numberReaches sa a = numberReaches sa b) :
    a = b := by
  have hb : sa b ≠ 0 := by
    intro hb
    rw [num_zero.2 hb, num_zero] at h
    exact ha h
  rw [numberReaches_eq, numberReaches_eq, if_pos ha, if_pos hb] at h
  exact (List.idxOf_inj (mem_strmNodes.2 ha)).1 (by omega)

theorem keys_map_pair {α κ β : Type*} (l : List α) (f : α → κ) (g : α → β) :
    Dict.keys (l.map (fun x => (f x, g x))) = l.map f := by simp [Dict.keys]

theorem num_nodup (sa : Fin N → ℤ) : ((strmNodes sa).map (numberReaches sa)).Nodup :=
  List.Nodup.map_on (fun _ hx _ _ h => num_inj (mem_strmNodes.1 hx) h) (strmNodes_nodup sa)

/-- the topology of the initial numbering -/
def topo0 (d : Fin N → Fin N) (sa : Fin N → ℤ) : Dict ℤ ℤ :=
  (strmNodes sa).map (fun n => (numberReaches sa n, numberReaches sa (d n)))

theorem connStep_foldl (hd : Resolves fdir d) (num : Fin N → ℤ) :
    ∀ (l : List (Fin N)) (t : Dict ℤ ℤ), l.foldl (connStep fdir num) (.ok t) =
      .ok (l.foldl (fun t n => t.set (num n) (num (d n))) t) := by
  intro l
  induction l with
  | nil => intro t; rfl
  | cons b l ih =>
    intro t
    rw [List.foldl_cons, List.foldl_cons, ← ih]
    simp only [connStep, Res.bind_ok, hd.pyIndex]

theorem reachTopo_ok (hd : Resolves fdir d) :
    reachTopo fdir (numberReaches sa) (strmNodes sa) = .ok (topo0 d sa) := by
  unfold reachTopo
  rw [connStep_foldl hd, foldl_set_fresh]
  · simp [topo0]
  · simpa using num_nodup sa

theorem topo0_keys : (topo0 d sa).keys = (strmNodes sa).map (numberReaches sa) := keys_map_pair _ _ _

theorem topo0_get {n : Fin N} (h : sa n ≠ 0) :
    (topo0 d sa).get? (numberReaches sa n) = some (numberReaches sa (d n)) := by
  apply Dict.get?_of_mem (by rw [topo0_keys]; exact num_nodup sa)
  exact List.mem_map.2 ⟨n, mem_strmNodes.2 h, rfl⟩

theorem topo0_get_iff {x y : ℤ} : (topo0 d sa).get? x = some y ↔
    ∃ n, sa n ≠ 0 ∧ x = numberReaches sa n ∧ y = numberReaches sa (d n) := by
  constructor
  · intro h
    obtain ⟨n, hn, he⟩ := List.mem_map.1 (Dict.mem_of_get? h)
    rw [Prod.mk.injEq] at he
    exact ⟨n, mem_strmNodes.1 hn, he.1.symm, he.2.symm⟩
  · rintro ⟨n, hn, rfl, rfl⟩
    exact topo0_get hn

theorem topo0_refs : RefsExist (topo0 d sa) := by
  rintro x y ⟨_, h⟩
  obtain ⟨n, hn, _, rfl⟩ := topo0_get_iff.1 h
  by_cases h0 : sa (d n) = 0
  · left; exact num_zero.2 h0
  · right
    rw [topo0_keys]
    exact List.mem_map.2 ⟨d n, mem_strmNodes.2 h0, rfl⟩

theorem topo0_flows {x y : ℤ} : FlowsTo (topo0 d sa) x y ↔
    ∃ n, sa n ≠ 0 ∧ x = numberReaches sa n ∧ y = numberReaches sa (d n) := by
  constructor
  · rintro ⟨_, h⟩; exact topo0_get_iff.1 h
  · intro h
    refine ⟨?_, topo0_get_iff.2 h⟩
    obtain ⟨n, hn, rfl, _⟩ := h
    rwa [Ne, num_zero]

/-- following connections is following flow directions inside the stream -/
theorem topo0_path {n : Fin N} {y : ℤ}
    (h : Relation.ReflTransGen (FlowsTo (topo0 d sa)) (numberReaches sa n) y) :
    ∃ k, y = numberReaches sa (d^[k] n) ∧ ∀ j < k, sa (d^[j] n) ≠ 0 := by
  induction h with
  | refl => exact ⟨0, rfl, by simp⟩
  | tail _ hbc ih =>
    obtain ⟨k, rfl, hk⟩ := ih
    obtain ⟨m, hm, he, rfl⟩ := topo0_flows.1 hbc
    have := num_inj hm he.symm
    subst this
    refine ⟨k + 1, by rw [iterate_succ_apply'], ?_⟩
    intro j hj
    rcases Nat.lt_succ_iff_lt_or_eq.1 hj with h | rfl
    · exact hk j h
    · exact hm

theorem iterate_periodic {n : Fin N} {p : ℕ} (hp : 0 < p) (h : d^[p] n = n) (k : ℕ) :
    ∃ j < p, d^[k] n = d^[j] n := by
  refine ⟨k % p, Nat.mod_lt _ hp, ?_⟩
  conv_lhs => rw [← Nat.mod_add_div k p, iterate_add_apply, iterate_mul]
  rw [iterate_fixed h]

/-- no flow cycle of two or more cells runs entirely through stream cells -/
def NoStreamCycle (d : Fin N → Fin N) (sa : Fin N → ℤ) : Prop :=
  ∀ n, OnCycle d n → ∃ k, sa (d^[k] n) = 0

theorem topo0_acyclic (h : NoStreamCycle d sa) : Acyclic (topo0 d sa) := by
  intro x y hxy hyx
  by_contra hne
  have hx : ∃ n, sa n ≠ 0 ∧ x = numberReaches sa n := by
    rcases Relation.ReflTransGen.cases_head hxy with h0 | ⟨z, hz, _⟩
    · exact absurd h0 hne
    · obtain ⟨n, hn, hx, _⟩ := topo0_flows.1 hz
      exact ⟨n, hn, hx⟩
  obtain ⟨n, hn, rfl⟩ := hx
  obtain ⟨i, rfl, hi⟩ := topo0_path hxy
  obtain ⟨j, hj', hj⟩ := topo0_path hyx
  rw [← iterate_add_apply] at hj'
  have hfix := (num_inj hn hj').symm
  have hi0 : i ≠ 0 := by rintro rfl; exact hne rfl
  have hall : ∀ k, sa (d^[k] n) ≠ 0 := by
    intro k
    obtain ⟨m, hm, he⟩ := iterate_periodic (d := d) (n := n) (p := j + i) (by omega) hfix k
    rw [he]
    by_cases hmi : m < i
    · exact hi m hmi
    · have := hj (m - i) (by omega)
      rwa [← iterate_add_apply, Nat.sub_add_cancel (by omega)] at this
  have hcyc : OnCycle d n := by
    apply Reaches.onCycle (b := d^[i] n)
    · intro he; exact hne (by rw [← he])
    · exact ⟨i, rfl⟩
    · exact ⟨j, by rw [← iterate_add_apply]; exact hfix⟩
  obtain ⟨k, hk⟩ := h n hcyc
  exact hall k hk

theorem mapper_eq {order : List ℤ} (h : order.Nodup) :
    mapper order = order.zipIdx.map (fun p => (p.1, (p.2 : ℤ) + 1)) := by
  unfold mapper
  rw [foldl_set_fresh (fun p : ℤ × ℕ => p.1)]
  · rfl
  · have : order.zipIdx.map (fun p : ℤ × ℕ => p.1) = order := by
      simp
    simpa [this] using h

theorem mapper_get {order : List ℤ} (h : order.Nodup) {x : ℤ} (hx : x ∈ order) :
    (mapper order).get? x = some ((order.idxOf x : ℤ) + 1) := by
  rw [mapper_eq h]
  apply Dict.get?_of_mem
  · have : Dict.keys (order.zipIdx.map (fun p : ℤ × ℕ => (p.1, (p.2 : ℤ) + 1))) = order := by
      simp [Dict.keys, Function.comp_def]
    rw [this]; exact h
  · refine List.mem_map.2 ⟨(x, order.idxOf x), ?_, rfl⟩
    rw [List.mem_zipIdx_iff_getElem?]
    simpa using List.getElem?_idxOf hx

/-- position in the solution order, and 0 for the outlet code -/
def pos (order : List ℤ) (x : ℤ) : ℤ := if x = 0 then 0 else (order.idxOf x : ℤ) + 1

theorem remap_foldl {topo : Dict ℤ ℤ} {order : List ℤ} (hnd : order.Nodup) (f : ℤ → ℤ)
    (ht : ∀ x ∈ order, topo.get? x = some (f x)) (hf : ∀ x ∈ order, f x = 0 ∨ f x ∈ order) :
    ∀ (l : List (ℤ × ℤ)) (g : Dict ℤ ℤ), (∀ e ∈ l, e.1 ∈ order) →
      l.foldl (remapStep topo (mapper order)) (.ok g) =
        .ok (l.foldl (fun g e => g.set e.2 (pos order (f e.1))) g) := by
  intro l
  induction l with
  | nil => intro g _; rfl
  | cons e l ih =>
    intro g h
    rw [List.foldl_cons, List.foldl_cons, ← ih _ (fun e' he' => h e' (by simp [he']))]
    congr 1
    have he := h e (by simp)
    simp only [remapStep, Res.bind_ok, Dict.getE, ht _ he]
    by_cases h0 : f e.1 = 0
    · rw [if_pos h0]; simp [pos, h0]
    · rw [if_neg h0]
      have := mapper_get hnd ((hf _ he).resolve_left h0)
      rw [this]
      simp [pos, h0]

theorem remap_ok {topo : Dict ℤ ℤ} {order : List ℤ} (hnd : order.Nodup) (f : ℤ → ℤ)
    (ht : ∀ x ∈ order, topo.get? x = some (f x)) (hf : ∀ x ∈ order, f x = 0 ∨ f x ∈ order) :
    (mapper order).foldl (remapStep topo (mapper order)) (.ok []) =
      .ok (order.zipIdx.map (fun p => ((p.2 : ℤ) + 1, pos order (f p.1)))) := by
  rw [remap_foldl hnd f ht hf]
  · rw [mapper_eq hnd, List.foldl_map]
    rw [foldl_set_fresh (fun p : ℤ × ℕ => (p.2 : ℤ) + 1) (fun p => pos order (f p.1))]
    · rfl
    · have : order.zipIdx.map (fun p : ℤ × ℕ => (p.2 : ℤ) + 1) =
          (List.range order.length).map (fun i : ℕ => (i : ℤ) + 1) := by
        rw [List.zipIdx_eq_zip_range', ← List.range_eq_range']
        rw [show (fun p : ℤ × ℕ => (p.2 : ℤ) + 1) = (fun i : ℕ => (i : ℤ) + 1) ∘ Prod.snd from rfl,
          ← List.map_map, List.map_snd_zip (by simp)]
      rw [this]
      simp only [Dict.keys_nil, List.nil_append]
      exact List.nodup_range.map (fun a b h => by simpa using h)
  · intro e he
    rw [mapper_eq hnd] at he
    obtain ⟨p, hp, rfl⟩ := List.mem_map.1 he
    exact (List.mem_zipIdx hp).2.2 ▸ List.getElem_mem _

theorem renum_foldl {order : List ℤ} (hnd : order.Nodup) :
    ∀ (l : List (Fin N)) (a : Fin N → ℤ), l.Nodup → (∀ n ∈ l, a n ∈ order) →
      l.foldl (renumStep (mapper order)) (.ok a) =
        .ok (fun n => if n ∈ l then (order.idxOf (a n) : ℤ) + 1 else a n) := by
  intro l
  induction l with
  | nil => intro a _ _; simp
  | cons b l ih =>
    intro a hl h
    rw [List.nodup_cons] at hl
    rw [List.foldl_cons]
    simp only [renumStep, Res.bind_ok, Dict.getE]
    rw [mapper_get hnd (h b (by simp))]
    simp only [Res.bind_ok]
    rw [ih _ hl.2]
    · congr 1
      funext n
      by_cases hn : n ∈ l
      · have : n ≠ b := by rintro rfl; exact hl.1 hn
        simp [hn, update_of_ne this]
      · by_cases hb : n = b
        · subst hb; simp [hn]
        · simp [hn, hb]
    · intro n hn
      have : n ≠ b := by rintro rfl; exact hl.1 hn
      rw [update_of_ne this]
      exact h n (by simp [hn])

theorem fits_of_length {limit : ℕ} (h : (strmNodes sa).length + 1 ≤ limit) : Fits d sa limit := by
  intro p _ hp hs
  have := (List.subperm_of_subset hp (fun n hn => mem_strmNodes.2 (hs n hn))).length_le
  omega

/-- paths in the topology are flow paths through stream cells, and possibly one number more -/
theorem topo0_chain : ∀ {p : List ℤ}, p.IsChain (FlowsTo (topo0 d sa)) →
    ∃ q : List (Fin N), q.IsChain (fun a b => d a = b) ∧ (∀ n ∈ q, sa n ≠ 0) ∧
      (p = q.map (numberReaches sa) ∨ ∃ z, p = q.map (numberReaches sa) ++ [z])
  | [], _ => ⟨[], by simp, by simp, by simp⟩
  | [x], _ => ⟨[], by simp, by simp, by simp⟩
  | x :: y :: p, hc => by
      rw [List.isChain_cons_cons] at hc
      obtain ⟨n, hn, rfl, rfl⟩ := topo0_flows.1 hc.1
      obtain ⟨q, h1, h3, h5⟩ := topo0_chain hc.2
      have key : ∀ m ∈ q.head?, d n = m := by
        intro m hm
        have hm0 : sa m ≠ 0 := h3 m (List.mem_of_mem_head? hm)
        obtain ⟨q', rfl⟩ : ∃ q', q = m :: q' := by
          cases q with
          | nil => simp at hm
          | cons a q' => simp at hm; exact ⟨q', by rw [hm]⟩
        refine (num_inj hm0 ?_).symm
        rcases h5 with h5 | ⟨z, h5⟩ <;> simp at h5 <;> exact h5.1.symm
      refine ⟨n :: q, List.isChain_cons.2 ⟨key, h1⟩, ?_, ?_⟩
      · intro m hm
        rcases List.mem_cons.1 hm with rfl | hm
        · exact hn
        · exact h3 m hm
      · rcases h5 with h5 | ⟨z, h5⟩
        · left; rw [h5]; rfl
        · right; exact ⟨z, by rw [h5]; rfl⟩

theorem topo0_short {limit : ℕ} (hl : Fits d sa limit) : ShortPaths (topo0 d sa) limit := by
  intro p hc hp
  obtain ⟨q, h1, h2, h3⟩ := topo0_chain hc
  have hq : q.Nodup := by
    rcases h3 with rfl | ⟨z, rfl⟩
    · exact hp.of_map
    · exact (List.nodup_append.1 hp).1.of_map
  have := hl q h1 hq h2
  rcases h3 with rfl | ⟨z, rfl⟩ <;> simp <;> omega

theorem mf6_leRec {a b : ℕ} (h : a ≤ b) : (mf6 a fdir sa).LeRec (mf6 b fdir sa) :=
  (Res.LeRec.refl _).bind fun _ => (sort_leRec h).bind fun _ => .refl _

/-- a successful run can be seen as one with a sufficient recursion limit -/
theorem mf6_lift {limit : ℕ} {r : (Fin N → ℤ) × Dict ℤ ℤ} (h : mf6 limit fdir sa = .ok r)
    (d : Fin N → Fin N) : ∃ L, Fits d sa L ∧ mf6 L fdir sa = .ok r :=
  ⟨max limit ((strmNodes sa).length + 1), fits_of_length (le_max_right _ _),
    (mf6_leRec (le_max_left _ _)).ok h⟩

/-- everything known about a run of the MODFLOW 6 connectivity -/
theorem mf6_ok (hd : Resolves fdir d) {limit : ℕ} (hl : Fits d sa limit) :
    ∃ order : List ℤ, order.Nodup ∧
      (∀ x, x ∈ order ↔ ∃ n, sa n ≠ 0 ∧ x = numberReaches sa n) ∧
      order.length = (strmNodes sa).length ∧
      (Acyclic (topo0 d sa) → ∀ n, sa n ≠ 0 → sa (d n) ≠ 0 → d n ≠ n →
        Before order (numberReaches sa n) (numberReaches sa (d n))) ∧
      mf6 limit fdir sa = .ok (fun n => pos order (numberReaches sa n),
        order.zipIdx.map (fun p => ((p.2 : ℤ) + 1, pos order
          (((topo0 d sa).get? p.1).getD 0)))) := by
  obtain ⟨order, e, h1, h2, h3⟩ := sort_ok (topo := topo0 d sa) topo0_refs (limit := limit)
    (topo0_short hl)
  have hmem : ∀ x, x ∈ order ↔ ∃ n, sa n ≠ 0 ∧ x = numberReaches sa n := by
    intro x
    rw [h2, topo0_keys, List.mem_map]
    constructor
    · rintro ⟨_, n, hn, rfl⟩; exact ⟨n, mem_strmNodes.1 hn, rfl⟩
    · rintro ⟨n, hn, rfl⟩
      exact ⟨by rwa [Ne, num_zero], n, mem_strmNodes.2 hn, rfl⟩
  refine ⟨order, h1, hmem, ?_, ?_, ?_⟩
  · have : order.Perm ((strmNodes sa).map (numberReaches sa)) := by
      refine (List.perm_ext_iff_of_nodup h1 (num_nodup sa)).2 ?_
      intro x
      rw [hmem, List.mem_map]
      constructor
      · rintro ⟨n, hn, rfl⟩; exact ⟨n, mem_strmNodes.2 hn, rfl⟩
      · rintro ⟨n, hn, rfl⟩; exact ⟨n, mem_strmNodes.1 hn, rfl⟩
    simpa using this.length_eq
  · intro hac n hn hdn hne
    apply h3 hac
    · exact (hmem _).2 ⟨n, hn, rfl⟩
    · exact topo0_flows.2 ⟨n, hn, rfl, rfl⟩
    · rwa [Ne, num_zero]
    · intro he; exact hne (num_inj hdn he)
  · unfold mf6
    dsimp only
    rw [reachTopo_ok hd]
    simp only [Res.bind_ok, e]
    rw [remap_ok h1 (fun x => ((topo0 d sa).get? x).getD 0)]
    · simp only [Res.bind_ok]
      rw [renum_foldl h1 _ _ (strmNodes_nodup sa)]
      · simp only [Res.map_ok]
        congr 2
        funext n
        by_cases hn : sa n = 0
        · simp [mem_strmNodes, hn, pos, num_zero.2 hn]
        · have : numberReaches sa n ≠ 0 := by rwa [Ne, num_zero]
          simp [mem_strmNodes, hn, pos, this]
      · intro n hn
        exact (hmem _).2 ⟨n, mem_strmNodes.1 hn, rfl⟩
    · intro x hx
      obtain ⟨n, hn, rfl⟩ := (hmem x).1 hx
      rw [topo0_get hn]; rfl
    · intro x hx
      obtain ⟨n, hn, rfl⟩ := (hmem x).1 hx
      rw [topo0_get hn]
      simp only [Option.getD_some]
      by_cases h0 : sa (d n) = 0
      · left; exact num_zero.2 h0
      · right; exact (hmem _).2 ⟨_, h0, rfl⟩

end Dany.Reach
