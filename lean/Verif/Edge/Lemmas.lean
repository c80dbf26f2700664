import Verif.Edge.Model
import Verif.Edge.Spec

namespace Dany.Edge

variable {N : ℕ}

theorem openPoly_ok {p r : List ℕ} (h : openPoly p = .ok r) : r = ring p ∧ p ≠ [] := by
  unfold openPoly at h
  unfold ring
  split at h
  · rename_i a b ha hb
    cases h
    rw [ha, hb]
    refine ⟨?_, by rintro rfl; simp at ha⟩
    by_cases hab : a = b <;> simp [hab]
  · cases h

theorem openPoly_total {p : List ℕ} (h : p ≠ []) : openPoly p = .ok (ring p) := by
  unfold openPoly ring
  rw [List.head?_eq_some_head h, List.getLast?_eq_some_getLast h]
  by_cases hab : p.head h = p.getLast h <;> simp [hab]

theorem sortPair_eq {a b c d : ℕ} :
    sortPair a b = sortPair c d ↔ (a = c ∧ b = d) ∨ (a = d ∧ b = c) := by
  unfold sortPair
  split <;> split <;> simp only [Prod.mk.injEq] <;> omega

theorem mem_polySides {r : List ℕ} {a b : ℕ} : sortPair a b ∈ polySides r ↔ IsSide r a b := by
  unfold polySides IsSide
  simp only [List.mem_map, List.mem_range, sortPair_eq]
  constructor
  · rintro ⟨v, hv, h⟩
    by_cases h0 : v = 0
    · subst h0
      refine ⟨r.length - 1, by omega, ?_⟩
      have : (r.length - 1 + 1) % r.length = 0 := by
        rw [Nat.sub_add_cancel (by omega), Nat.mod_self]
      rw [this, List.getElem?_eq_getElem (by omega), List.getElem?_eq_getElem hv]
      simp only [if_true, List.getD_eq_getElem?_getD] at h
      rw [List.getElem?_eq_getElem (by omega), List.getElem?_eq_getElem hv] at h
      simpa [and_comm] using h
    · refine ⟨v - 1, by omega, ?_⟩
      have : (v - 1 + 1) % r.length = v := by
        rw [Nat.sub_add_cancel (by omega), Nat.mod_eq_of_lt hv]
      rw [this, List.getElem?_eq_getElem (by omega), List.getElem?_eq_getElem hv]
      simp only [h0, if_false, List.getD_eq_getElem?_getD] at h
      rw [List.getElem?_eq_getElem (by omega), List.getElem?_eq_getElem hv] at h
      simpa [and_comm] using h
  · rintro ⟨i, hi, h⟩
    by_cases hl : i + 1 < r.length
    · rw [Nat.mod_eq_of_lt hl, List.getElem?_eq_getElem hi, List.getElem?_eq_getElem hl] at h
      refine ⟨i + 1, hl, ?_⟩
      simp only [Nat.add_eq_zero_iff, one_ne_zero, and_false, if_false, Nat.add_sub_cancel,
        List.getD_eq_getElem?_getD]
      rw [List.getElem?_eq_getElem hi, List.getElem?_eq_getElem hl]
      simpa [and_comm] using h
    · have hi' : i + 1 = r.length := by omega
      rw [hi', Nat.mod_self, List.getElem?_eq_getElem hi, List.getElem?_eq_getElem (by omega)] at h
      refine ⟨0, by omega, ?_⟩
      simp only [if_true, List.getD_eq_getElem?_getD]
      have : r.length - 1 = i := by omega
      rw [this, List.getElem?_eq_getElem hi, List.getElem?_eq_getElem (by omega)]
      simpa [and_comm] using h

theorem mem_polySides_iff {r : List ℕ} {e : ℕ × ℕ} :
    e ∈ polySides r ↔ ∃ a b, e = sortPair a b ∧ IsSide r a b := by
  constructor
  · intro h
    have h' := h
    unfold polySides at h'
    simp only [List.mem_map] at h'
    obtain ⟨v, _, rfl⟩ := h'
    exact ⟨_, _, rfl, mem_polySides.1 h⟩
  · rintro ⟨a, b, rfl, h⟩
    exact mem_polySides.2 h

theorem geoms_ok {iverts : Fin N → List ℕ} {l : List (Fin N)} {g}
    (h : geoms iverts l = .ok g) :
    ∀ e n, (e, n) ∈ g ↔ n ∈ l ∧ e ∈ polySides (ring (iverts n)) := by
  induction l generalizing g with
  | nil => cases h; simp
  | cons m l ih =>
    simp only [geoms] at h
    obtain ⟨p, hp, h⟩ := Res.bind_eq_ok.1 h
    obtain ⟨r, hr, rfl⟩ := Res.map_eq_ok.1 h
    obtain ⟨rfl, _⟩ := openPoly_ok hp
    intro e n
    simp only [List.mem_append, List.mem_map, Prod.mk.injEq, ih hr, List.mem_cons]
    constructor
    · rintro (⟨a, h1, rfl, rfl⟩ | ⟨h1, h2⟩)
      · exact ⟨.inl rfl, h1⟩
      · exact ⟨.inr h1, h2⟩
    · rintro ⟨rfl | h1, h2⟩
      · exact .inl ⟨e, h2, rfl, rfl⟩
      · exact .inr ⟨h1, h2⟩

theorem geoms_total {iverts : Fin N → List ℕ} (h : ∀ n, iverts n ≠ []) (l : List (Fin N)) :
    ∃ g, geoms iverts l = .ok g := by
  induction l with
  | nil => exact ⟨_, rfl⟩
  | cons m l ih =>
    obtain ⟨r, hr⟩ := ih
    simp only [geoms, openPoly_total (h m), hr, Res.bind_ok, Res.map_ok]
    exact ⟨_, rfl⟩

theorem edgesAndNodes_spec (g : List ((ℕ × ℕ) × Fin N)) :
    (edgesAndNodes g).keys.Nodup ∧
    ∀ e s, (edgesAndNodes g).get? e = some s → s.Nodup ∧ s ≠ [] ∧ ∀ n, n ∈ s ↔ (e, n) ∈ g := by
  suffices h : ∀ (g pre : List ((ℕ × ℕ) × Fin N)) (d : Dict (ℕ × ℕ) (List (Fin N))), d.keys.Nodup →
      (∀ e n, (∃ s, d.get? e = some s ∧ n ∈ s) ↔ (e, n) ∈ pre) →
      (∀ e s, d.get? e = some s → s.Nodup ∧ s ≠ []) →
      let d' := g.foldl (fun d x => d.addTo x.1 x.2) d
      d'.keys.Nodup ∧ (∀ e n, (∃ s, d'.get? e = some s ∧ n ∈ s) ↔ (e, n) ∈ pre ++ g) ∧
      (∀ e s, d'.get? e = some s → s.Nodup ∧ s ≠ []) by
    obtain ⟨h1, h2, h3⟩ := h g [] [] (by simp) (by simp) (by simp)
    refine ⟨h1, fun e s hs => ⟨(h3 e s hs).1, (h3 e s hs).2, fun n => ?_⟩⟩
    rw [← List.nil_append g, ← h2]
    constructor
    · intro hn; exact ⟨s, hs, hn⟩
    · rintro ⟨s', hs', hn⟩
      have : some s = some s' := hs.symm.trans hs'
      cases this; exact hn
  intro g
  induction g with
  | nil => intro pre d h1 h2 h3; exact ⟨h1, by intro e n; rw [List.append_nil]; exact h2 e n, h3⟩
  | cons x g ih =>
    intro pre d h1 h2 h3
    obtain ⟨e0, n0⟩ := x
    have := ih (pre ++ [(e0, n0)]) (d.addTo e0 n0) (Dict.nodup_keys_set h1 _ _) ?_ ?_
    · simpa using this
    · intro e n
      unfold Dict.addTo
      rw [Dict.get?_set]
      by_cases he : e = e0
      · subst he
        simp only [if_true, Option.some.injEq, exists_eq_left', mem_setAdd, List.mem_append,
          List.mem_singleton, Prod.mk.injEq, true_and, ← h2]
        cases hd : d.get? e <;> simp
      · simp only [he, if_false, h2, List.mem_append, List.mem_singleton, Prod.mk.injEq, false_and,
          or_false]
    · intro e s
      unfold Dict.addTo
      rw [Dict.get?_set]
      by_cases he : e = e0
      · subst he
        simp only [if_true, Option.some.injEq]
        rintro rfl
        refine ⟨nodup_setAdd ?_ _, List.ne_nil_of_mem (mem_setAdd.2 (.inr rfl))⟩
        cases hd : d.get? e with
        | none => simp
        | some s => exact (h3 e s hd).1
      · simp only [he, if_false]
        exact h3 e s

theorem foldl_setAdd {α : Type*} [DecidableEq α] (l s : List α) (hs : s.Nodup) :
    (l.foldl setAdd s).Nodup ∧ ∀ x, x ∈ l.foldl setAdd s ↔ x ∈ s ∨ x ∈ l := by
  induction l generalizing s with
  | nil => exact ⟨hs, by simp⟩
  | cons a l ih =>
    obtain ⟨h1, h2⟩ := ih (setAdd s a) (nodup_setAdd hs a)
    refine ⟨h1, fun x => ?_⟩
    rw [List.foldl_cons, h2, mem_setAdd]
    simp [or_assoc]

theorem unionSingles_spec (vals : List (List (Fin N))) :
    (unionSingles vals).Nodup ∧ ∀ n, n ∈ unionSingles vals ↔ [n] ∈ vals := by
  suffices h : ∀ (vals : List (List (Fin N))) (s : List (Fin N)), s.Nodup →
      let t := vals.foldl (fun s nodes => if nodes.length = 1 then nodes.foldl setAdd s else s) s
      t.Nodup ∧ ∀ n, n ∈ t ↔ n ∈ s ∨ [n] ∈ vals by
    obtain ⟨h1, h2⟩ := h vals [] (by simp)
    exact ⟨h1, fun n => (h2 n).trans (by simp)⟩
  intro vals
  induction vals with
  | nil => intro s hs; simpa using hs
  | cons v vals ih =>
    intro s hs
    simp only [List.foldl_cons]
    split
    · rename_i hl
      obtain ⟨a, rfl⟩ := List.length_eq_one_iff.1 hl
      obtain ⟨h1, h2⟩ := ih _ (foldl_setAdd [a] s hs).1
      refine ⟨h1, fun n => ?_⟩
      rw [h2, (foldl_setAdd [a] s hs).2]
      simp [or_assoc]
    · rename_i hl
      obtain ⟨h1, h2⟩ := ih _ hs
      refine ⟨h1, fun n => ?_⟩
      rw [h2]
      have : [n] ≠ v := by rintro rfl; simp at hl
      simp [this]

theorem isSide_sortPair {r : List ℕ} {a b a' b' : ℕ} (h : sortPair a b = sortPair a' b') :
    IsSide r a b ↔ IsSide r a' b' := by
  rw [← mem_polySides, ← mem_polySides, h]

theorem mem_edge {iverts : Fin N → List ℕ} {g} (h : geoms iverts (List.finRange N) = .ok g) (n : Fin N) :
    n ∈ unionSingles (edgesAndNodes g).values ↔ OnEdge iverts n := by
  have hg := geoms_ok h
  obtain ⟨hk, hs⟩ := edgesAndNodes_spec g
  rw [(unionSingles_spec _).2, Dict.mem_values hk]
  unfold OnEdge
  constructor
  · rintro ⟨e, he⟩
    obtain ⟨_, _, hm⟩ := hs e _ he
    obtain ⟨a, b, rfl, hside⟩ := mem_polySides_iff.1 ((hg e n).1 ((hm n).1 (by simp))).2
    refine ⟨a, b, hside, fun m hms => ?_⟩
    have := (hm m).2 ((hg _ m).2 ⟨List.mem_finRange m, mem_polySides.2 hms⟩)
    simpa using this
  · rintro ⟨a, b, hside, hun⟩
    refine ⟨sortPair a b, ?_⟩
    have hin : (sortPair a b, n) ∈ g := (hg _ n).2 ⟨List.mem_finRange n, mem_polySides.2 hside⟩
    have hkey : ∃ s, (edgesAndNodes g).get? (sortPair a b) = some s := by
      -- the key is present since the pair was added
      by_contra hno
      push Not at hno
      have gen : ∀ (g : List ((ℕ × ℕ) × Fin N)) (d : Dict (ℕ × ℕ) (List (Fin N))) (e : ℕ × ℕ),
          (e ∈ d.keys ∨ ∃ n, (e, n) ∈ g) →
          e ∈ (g.foldl (fun d x => d.addTo x.1 x.2) d).keys := by
        intro g
        induction g with
        | nil => intro d e h; simpa using h
        | cons x g ih =>
          intro d e h
          apply ih
          rcases h with h | ⟨n, h⟩
          · exact .inl (Dict.mem_keys_set.2 (.inl h))
          · rcases List.mem_cons.1 h with h | h
            · left; cases h; exact Dict.mem_keys_set.2 (.inr rfl)
            · exact .inr ⟨n, h⟩
      obtain ⟨v, hv⟩ := Dict.mem_keys_iff.1 (gen g [] (sortPair a b) (.inr ⟨n, hin⟩))
      exact hno v hv
    obtain ⟨s, hs'⟩ := hkey
    obtain ⟨hnd, _, hm⟩ := hs _ _ hs'
    rw [hs']
    congr 1
    have h1 : ∀ m, m ∈ s ↔ m = n := by
      intro m
      rw [hm m]
      constructor
      · intro hh
        exact hun m (mem_polySides.1 ((hg _ m).1 hh).2)
      · rintro rfl; exact hin
    match s, hnd, h1 with
    | [], _, h1 => exact absurd ((h1 n).2 rfl) (by simp)
    | [x], _, h1 => rw [(h1 x).1 (by simp)]
    | x :: y :: t, hnd, h1 =>
      have hx := (h1 x).1 (by simp)
      have hy := (h1 y).1 (by simp)
      subst hx
      simp [hy] at hnd

end Dany.Edge
