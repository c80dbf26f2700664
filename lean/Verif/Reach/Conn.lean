import Verif.Reach.Lemmas

/-!
# Lemmas about `connectiondata`
-/

namespace Dany.Reach

open Function Topo

/-- the reaches that flow into `r`, in the order of the list -/
def ups (l : List (ℤ × ℤ)) (r : ℤ) : List ℤ :=
  (l.filter (fun e => e.2 ≠ 0 ∧ e.2 ≠ e.1 ∧ e.2 = r)).map Prod.fst

/-- the reaches `r` flows into -/
def downs (l : List (ℤ × ℤ)) (r : ℤ) : List ℤ :=
  (l.filter (fun e => e.2 ≠ 0 ∧ e.2 ≠ e.1 ∧ e.1 = r)).map Prod.snd

theorem dict_map_get {ks : List ℤ} {F : ℤ → List ℤ} {r : ℤ} (h : r ∈ ks) :
    Dict.get? (ks.map (fun k => (k, F k))) r = some (F r) := by
  induction ks with
  | nil => cases h
  | cons a ks ih =>
    rw [List.map_cons]
    simp only [Dict.get?]
    split
    · rename_i ha; rw [ha]
    · rename_i ha
      exact ih ((List.mem_cons.1 h).resolve_left (fun he => ha he.symm))

theorem dict_map_set {ks : List ℤ} (hnd : ks.Nodup) {F : ℤ → List ℤ} {r : ℤ} (h : r ∈ ks)
    (v : List ℤ) :
    Dict.set (ks.map (fun k => (k, F k))) r v = ks.map (fun k => (k, update F r v k)) := by
  induction ks with
  | nil => cases h
  | cons a ks ih =>
    rw [List.nodup_cons] at hnd
    rw [List.map_cons, List.map_cons]
    simp only [Dict.set]
    split
    · rename_i ha
      subst ha
      congr 1
      · simp
      · apply List.map_congr_left
        intro k hk
        have : k ≠ a := by rintro rfl; exact hnd.1 hk
        rw [update_of_ne this]
    · rename_i ha
      rw [ih hnd.2 ((List.mem_cons.1 h).resolve_left (fun he => ha he.symm)), update_of_ne ha]

theorem cd_foldl {ks : List ℤ} (hnd : ks.Nodup) :
    ∀ (l done : List (ℤ × ℤ)), (∀ e ∈ l, e.1 ∈ ks ∧ (e.2 = 0 ∨ e.2 ∈ ks)) →
      (l.map (fun e : ℤ × ℤ => (e.1, some e.2))).foldl cdStep
        (.ok (ks.map (fun k => (k, (ups done k).reverse ++ (downs done k).map (fun t => -t))))) =
      .ok (ks.map (fun k => (k, (ups (done ++ l) k).reverse ++
        (downs (done ++ l) k).map (fun t => -t)))) := by
  intro l
  induction l with
  | nil => intro done _; simp
  | cons e l ih =>
    intro done h
    obtain ⟨x, t⟩ := e
    have hx := (h (x, t) (by simp)).1
    have ht := (h (x, t) (by simp)).2
    dsimp only at hx ht
    rw [show done ++ (x, t) :: l = (done ++ [(x, t)]) ++ l by simp,
      ← ih (done ++ [(x, t)]) (fun e he => h e (by simp [he])), List.map_cons, List.foldl_cons]
    congr 1
    simp only [cdStep, Res.bind_ok]
    have hups : ∀ k, ups (done ++ [(x, t)]) k =
        ups done k ++ if t ≠ 0 ∧ t ≠ x ∧ t = k then [x] else [] := by
      intro k; unfold ups; rw [List.filter_append, List.map_append]; congr 1
      by_cases hc : t ≠ 0 ∧ t ≠ x ∧ t = k
      · rw [if_pos hc, List.filter_cons_of_pos (by simpa using hc)]; rfl
      · rw [if_neg hc, List.filter_cons_of_neg (by simpa using hc)]; rfl
    have hdns : ∀ k, downs (done ++ [(x, t)]) k =
        downs done k ++ if t ≠ 0 ∧ t ≠ x ∧ x = k then [t] else [] := by
      intro k; unfold downs; rw [List.filter_append, List.map_append]; congr 1
      by_cases hc : t ≠ 0 ∧ t ≠ x ∧ x = k
      · rw [if_pos hc, List.filter_cons_of_pos (by simpa using hc)]; rfl
      · rw [if_neg hc, List.filter_cons_of_neg (by simpa using hc)]; rfl
    by_cases ht0 : t = 0
    · subst ht0
      rw [if_neg (by simp)]
      congr 1
      apply List.map_congr_left
      intro k _
      rw [hups, hdns]; simp
    · rw [if_pos ht0]
      by_cases htx : t = x
      · subst htx
        rw [if_pos rfl]
        congr 1
        apply List.map_congr_left
        intro k _
        rw [hups, hdns]; simp
      · rw [if_neg htx]
        have htk := ht.resolve_left ht0
        simp only [Dict.getE]
        rw [dict_map_get hx]
        simp only [Res.bind_ok]
        rw [dict_map_set hnd hx]
        rw [dict_map_get (F := update _ x _) htk]
        simp only [Res.bind_ok]
        rw [dict_map_set (F := update _ x _) hnd htk]
        congr 1
        apply List.map_congr_left
        intro k _
        rw [Prod.mk.injEq]
        refine ⟨rfl, ?_⟩
        rw [hups, hdns]
        by_cases hkt : k = t
        · subst hkt
          rw [update_self, update_of_ne htx]
          rw [if_pos ⟨ht0, htx, rfl⟩, if_neg (by rintro ⟨_, _, h3⟩; exact htx h3.symm)]
          simp
        · rw [update_of_ne hkt]
          rw [if_neg (by rintro ⟨_, _, h3⟩; exact hkt h3.symm)]
          by_cases hkx : k = x
          · subst hkx
            rw [update_self, if_pos ⟨ht0, htx, rfl⟩]
            simp
          · rw [update_of_ne hkx, if_neg (by rintro ⟨_, _, h3⟩; exact hkx h3.symm)]
            simp

theorem sortItems_someVals (g : Dict ℤ ℤ) :
    sortItems (someVals g) = (sortItems g).map (fun e : ℤ × ℤ => (e.1, some e.2)) := by
  unfold sortItems someVals
  rw [List.map_insertionSort (r := fun a b : ℤ × ℤ => a.1 ≤ b.1)
    (s := fun a b : ℤ × Option ℤ => a.1 ≤ b.1)]
  intro a _ b _
  rfl

theorem keys_someVals (g : Dict ℤ ℤ) : (someVals g).keys = g.keys := by
  simp [someVals, Dict.keys, Function.comp_def]

theorem sortItems_perm {α : Type*} (g : Dict ℤ α) : (sortItems g).Perm g := List.perm_insertionSort _ _

/-- the reach numbers in increasing order -/
def sortedKeys {α : Type*} (g : Dict ℤ α) : List ℤ := g.keys.insertionSort (· ≤ ·)

theorem mem_sortedKeys {α : Type*} {g : Dict ℤ α} {k : ℤ} : k ∈ sortedKeys g ↔ k ∈ g.keys :=
  List.mem_insertionSort _

theorem sortedKeys_nodup {α : Type*} {g : Dict ℤ α} (h : g.keys.Nodup) : (sortedKeys g).Nodup :=
  (List.perm_insertionSort _ _).nodup_iff.2 h

/-- the rows of `connectiondata` -/
theorem connectiondata_eq {g : Dict ℤ ℤ} (hnd : g.keys.Nodup) (hpos : ∀ r ∈ g.keys, 1 ≤ r)
    (href : ∀ r t, g.get? r = some t → t = 0 ∨ t ∈ g.keys) :
    connectiondata (someVals g) = .ok ((sortedKeys g).map (fun r =>
      (r - 1, (ups (sortItems g) r).reverse.map (fun u => u - 1) ++
        (downs (sortItems g) r).map (fun t => -(t - 1))))) := by
  have hks : (sortedKeys g).Nodup := sortedKeys_nodup hnd
  have hitems : ∀ e ∈ sortItems g, e.1 ∈ sortedKeys g ∧ (e.2 = 0 ∨ e.2 ∈ sortedKeys g) := by
    rintro ⟨r, t⟩ he
    have hm := (sortItems_perm g).mem_iff.1 he
    have hg := Dict.get?_of_mem hnd hm
    refine ⟨mem_sortedKeys.2 (Dict.mem_keys_iff.2 ⟨t, hg⟩), ?_⟩
    rcases href r t hg with h | h
    · exact .inl h
    · exact .inr (mem_sortedKeys.2 h)
  unfold connectiondata
  rw [keys_someVals, sortItems_someVals]
  have h0 : (g.keys.insertionSort (· ≤ ·)).map (fun k => (k, ([] : List ℤ))) =
      (sortedKeys g).map (fun k => (k, (ups [] k).reverse ++ (downs [] k).map (fun t => -t))) := by
    simp [sortedKeys, ups, downs]
  rw [h0, cd_foldl hks _ [] hitems]
  simp only [List.nil_append, Res.map_ok, List.map_map]
  congr 1
  apply List.map_congr_left
  intro r _
  simp only [comp_apply, List.map_append, List.map_reverse, List.map_map, Prod.mk.injEq, true_and]
  congr 1
  · congr 1
    apply List.map_congr_left
    intro u hu
    obtain ⟨e, he, rfl⟩ := List.mem_map.1 hu
    have := hpos e.1 (mem_sortedKeys.1 (hitems e (List.mem_filter.1 he).1).1)
    rw [if_pos (by omega)]
  · apply List.map_congr_left
    intro t ht
    obtain ⟨e, he, rfl⟩ := List.mem_map.1 ht
    obtain ⟨he1, he2⟩ := List.mem_filter.1 he
    have h2 : e.2 ≠ 0 := by simp at he2; exact he2.1
    have := hpos e.2 (mem_sortedKeys.1 ((hitems e he1).2.resolve_left h2))
    simp only [comp_apply]
    rw [if_neg (by omega)]
    omega

theorem mem_ups {g : Dict ℤ ℤ} (hnd : g.keys.Nodup) {u r : ℤ} (hr : r ≠ 0) :
    u ∈ ups (sortItems g) r ↔ g.get? u = some r ∧ u ≠ r := by
  unfold ups
  rw [List.mem_map]
  constructor
  · rintro ⟨⟨a, b⟩, he, rfl⟩
    obtain ⟨h1, h2⟩ := List.mem_filter.1 he
    simp only [decide_eq_true_eq] at h2
    obtain ⟨h3, h4, rfl⟩ := h2
    exact ⟨Dict.get?_of_mem hnd ((sortItems_perm g).mem_iff.1 h1), fun h => h4 h.symm⟩
  · rintro ⟨h1, h2⟩
    refine ⟨(u, r), List.mem_filter.2 ⟨(sortItems_perm g).mem_iff.2 (Dict.mem_of_get? h1), ?_⟩, rfl⟩
    simp only [decide_eq_true_eq]
    exact ⟨hr, fun h => h2 h.symm, trivial⟩

theorem mem_downs {g : Dict ℤ ℤ} (hnd : g.keys.Nodup) {r t : ℤ} :
    t ∈ downs (sortItems g) r ↔ g.get? r = some t ∧ t ≠ 0 ∧ t ≠ r := by
  unfold downs
  rw [List.mem_map]
  constructor
  · rintro ⟨⟨a, b⟩, he, rfl⟩
    obtain ⟨h1, h2⟩ := List.mem_filter.1 he
    simp only [decide_eq_true_eq] at h2
    obtain ⟨h3, h4, rfl⟩ := h2
    exact ⟨Dict.get?_of_mem hnd ((sortItems_perm g).mem_iff.1 h1), h3, h4⟩
  · rintro ⟨h1, h2, h3⟩
    refine ⟨(r, t), List.mem_filter.2 ⟨(sortItems_perm g).mem_iff.2 (Dict.mem_of_get? h1), ?_⟩, rfl⟩
    simp only [decide_eq_true_eq]
    exact ⟨h2, h3, trivial⟩

theorem keys_sortItems_nodup {g : Dict ℤ ℤ} (hnd : g.keys.Nodup) :
    ((sortItems g).map Prod.fst).Nodup :=
  ((sortItems_perm g).map Prod.fst).nodup_iff.2 hnd

theorem ups_nodup {g : Dict ℤ ℤ} (hnd : g.keys.Nodup) (r : ℤ) : (ups (sortItems g) r).Nodup :=
  (keys_sortItems_nodup hnd).sublist ((List.filter_sublist).map _)

theorem downs_nodup {g : Dict ℤ ℤ} (hnd : g.keys.Nodup) (r : ℤ) : (downs (sortItems g) r).Nodup := by
  unfold downs
  apply List.Nodup.map_on
  · rintro ⟨a, b⟩ ha ⟨a', b'⟩ ha' h
    have h1 := (List.mem_filter.1 ha).2
    have h2 := (List.mem_filter.1 ha').2
    simp only [decide_eq_true_eq] at h1 h2
    dsimp only at h
    rw [h1.2.2, h2.2.2, h]
  · exact ((keys_sortItems_nodup hnd).of_map _).filter _

theorem downs_eq {g : Dict ℤ ℤ} (hnd : g.keys.Nodup) {r t : ℤ} (h : g.get? r = some t) :
    downs (sortItems g) r = if t = 0 ∨ t = r then [] else [t] := by
  have hmem : ∀ x, x ∈ downs (sortItems g) r ↔ x ∈ (if t = 0 ∨ t = r then [] else [t] : List ℤ) := by
    intro x
    rw [mem_downs hnd, h]
    split
    · rename_i h1
      simp only [Option.some.injEq, List.not_mem_nil, iff_false]
      rintro ⟨rfl, h2, h3⟩
      rcases h1 with h1 | h1
      · exact h2 h1
      · exact h3 h1
    · rename_i h1
      push Not at h1
      simp only [Option.some.injEq, List.mem_singleton]
      constructor
      · rintro ⟨rfl, _⟩; rfl
      · rintro rfl; exact ⟨rfl, h1⟩
  have hp := (List.perm_ext_iff_of_nodup (downs_nodup hnd r) (by split <;> simp)).2 hmem
  split at hp
  · rename_i h1; rw [if_pos h1]; exact List.perm_nil.1 hp
  · rename_i h1; rw [if_neg h1]; exact List.perm_singleton.1 hp

theorem sum_filter_length {ks : List ℤ} (hnd : ks.Nodup) (f : ℤ × ℤ → ℤ) (P : ℤ × ℤ → Prop)
    [DecidablePred P] : ∀ (l : List (ℤ × ℤ)), (∀ e ∈ l, P e → f e ∈ ks) →
      (ks.map (fun r => (l.filter (fun e => P e ∧ f e = r)).length)).sum =
        (l.filter (fun e => P e)).length := by
  intro l
  induction l with
  | nil => intro _; simp
  | cons e l ih =>
    intro h
    have ih' := ih (fun e' he' => h e' (by simp [he']))
    by_cases hP : P e
    · have hm := h e (by simp) hP
      have h1 : ∀ r, ((e :: l).filter (fun e => P e ∧ f e = r)).length =
          (l.filter (fun e => P e ∧ f e = r)).length + if f e = r then 1 else 0 := by
        intro r
        by_cases hr : f e = r
        · rw [List.filter_cons_of_pos (by simp [hP, hr]), if_pos hr, List.length_cons]
        · rw [List.filter_cons_of_neg (by simp [hr]), if_neg hr]; rfl
      rw [List.map_congr_left (fun r _ => h1 r), List.sum_map_add, ih',
        List.filter_cons_of_pos (by simpa using hP), List.length_cons]
      congr 1
      have : ∀ (ks : List ℤ), ks.Nodup → f e ∈ ks →
          (ks.map (fun r => if f e = r then 1 else 0)).sum = 1 := by
        intro ks
        induction ks with
        | nil => intro _ hm; cases hm
        | cons a ks ih2 =>
          intro hn hm
          rw [List.nodup_cons] at hn
          rw [List.map_cons, List.sum_cons]
          by_cases ha : f e = a
          · rw [if_pos ha]
            have : (ks.map (fun r => if f e = r then 1 else 0)).sum = 0 := by
              apply List.sum_eq_zero
              intro x hx
              obtain ⟨r, hr, rfl⟩ := List.mem_map.1 hx
              rw [if_neg]
              rintro rfl
              rw [ha] at hr
              exact hn.1 hr
            omega
          · rw [if_neg ha, ih2 hn.2 ((List.mem_cons.1 hm).resolve_left ha)]
      exact this ks hnd hm
    · have h1 : ∀ r, (e :: l).filter (fun e => P e ∧ f e = r) = l.filter (fun e => P e ∧ f e = r) := by
        intro r
        rw [List.filter_cons_of_neg (by simp [hP])]
      rw [List.map_congr_left (fun r _ => by rw [h1 r]), ih', List.filter_cons_of_neg (by simpa using hP)]

end Dany.Reach
