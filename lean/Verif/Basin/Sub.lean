import Verif.Basin.Lemmas
import Verif.Topo.Lemmas

/-!
# Solution order of the pour points and repeated delineation
-/

namespace Dany.Basin

open Function Flow Topo Relation

variable {N : ℕ} {fdir : Fin N → ℤ} {d : Fin N → Fin N}

/-- a cell number as the integer Python works with -/
def toZ (c : Fin N) : ℤ := ((c : ℕ) : ℤ)

theorem toZ_inj {a b : Fin N} (h : toZ a = toZ b) : a = b := by
  apply Fin.ext; unfold toZ at h; exact_mod_cast h

theorem toZ_nonneg (a : Fin N) : 0 ≤ toZ a := by unfold toZ; omega

theorem pyIndex_toZ (c : Fin N) : pyIndex N (toZ c) = .ok c := by
  unfold pyIndex toZ
  rw [dif_pos ⟨by omega, by exact_mod_cast c.isLt⟩]
  simp

theorem mem_toZ {cells : List (Fin N)} {c : Fin N} : toZ c ∈ cells.map toZ ↔ c ∈ cells := by
  rw [List.mem_map]
  constructor
  · rintro ⟨a, ha, h⟩; rw [← toZ_inj h]; exact ha
  · intro h; exact ⟨c, h, rfl⟩

/-- once an orbit repeats it stays among the cells already seen -/
theorem orbit_repeat {p : Fin N} {i j : ℕ} (hji : j < i) (h : d^[i] p = d^[j] p) :
    ∀ m, j ≤ m → ∃ m', j ≤ m' ∧ m' < i ∧ d^[m] p = d^[m'] p := by
  intro m
  induction m with
  | zero => intro h0; exact ⟨0, by omega, by omega, rfl⟩
  | succ m ih =>
    intro hm
    by_cases hj : j = m + 1
    · exact ⟨m + 1, by omega, by omega, rfl⟩
    · obtain ⟨m', h1, h2, h3⟩ := ih (by omega)
      by_cases he : m' + 1 = i
      · refine ⟨j, le_rfl, hji, ?_⟩
        rw [iterate_succ_apply', h3, ← iterate_succ_apply' d m' p, Nat.succ_eq_add_one, he, h]
      · refine ⟨m' + 1, by omega, by omega, ?_⟩
        rw [iterate_succ_apply', h3, ← iterate_succ_apply' d m' p]

theorem nextPour_loop (h : Legal fdir d) {cells : List (Fin N)} {p : Fin N} (hp : ¬ OnCycle d p)
    (hself : d p ≠ p) :
    ∀ (fuel i : ℕ) (visited : List ℤ), 1 ≤ i →
      visited = (List.range' 1 (i - 1)).map (fun j => toZ (d^[j] p)) → visited.Nodup →
      (∀ j, 1 ≤ j → j < i → d^[j] p ∉ cells) → N < fuel + visited.length →
      ∃ r, nextPour fdir (cells.map toZ) (toZ p) fuel (toZ (d^[i] p)) visited = .ok r ∧
        ((r = -1 ∧ ∀ j, 1 ≤ j → d^[j] p ∉ cells) ∨
         ∃ k, 1 ≤ k ∧ r = toZ (d^[k] p) ∧ d^[k] p ∈ cells ∧ d^[k] p ≠ p ∧
          ∀ j, 1 ≤ j → j < k → d^[j] p ∉ cells) := by
  have hback : ∀ i, 1 ≤ i → d^[i] p ≠ p := by
    intro i hi hip
    apply hp
    exact ⟨hself, i - 1, by rw [Nat.sub_add_cancel hi]; exact hip⟩
  intro fuel
  induction fuel with
  | zero =>
    intro i visited _ hv hnd _ hf
    exfalso
    have hle : visited.length ≤ N := by
      have h1 : (visited.toFinset).card = visited.length := List.toFinset_card_of_nodup hnd
      have h2 : visited.toFinset ⊆ (Finset.univ : Finset (Fin N)).image toZ := by
        intro x hx
        rw [List.mem_toFinset, hv, List.mem_map] at hx
        obtain ⟨j, _, rfl⟩ := hx
        exact Finset.mem_image_of_mem _ (Finset.mem_univ _)
      have h3 := (Finset.card_le_card h2).trans Finset.card_image_le
      simp at h3
      omega
    omega
  | succ k ih =>
    intro i visited hi hv hnd hno hf
    simp only [nextPour]
    split
    · rename_i hmem
      refine ⟨-1, rfl, .inl ⟨rfl, ?_⟩⟩
      rw [hv, List.mem_map] at hmem
      obtain ⟨j, hj, hji⟩ := hmem
      rw [List.mem_range'_1] at hj
      have hrep := orbit_repeat (d := d) (p := p) (i := i) (j := j) (by omega) (toZ_inj hji).symm
      intro m hm
      by_cases hmi : m < i
      · exact hno m hm hmi
      · obtain ⟨m', h1, h2, h3⟩ := hrep m (by omega)
        rw [h3]
        exact hno m' (by omega) h2
    · rename_i hnm
      have hne : toZ (d^[i] p) ≠ toZ p := fun he => hback i hi (toZ_inj he)
      by_cases hc : d^[i] p ∈ cells
      · rw [if_neg (by rw [mem_toZ]; simp [hc, hne])]
        exact ⟨_, rfl, .inr ⟨i, hi, rfl, hc, hback i hi, hno⟩⟩
      · rw [if_pos (.inl (by rw [mem_toZ]; exact hc)), if_pos hne, pyIndex_toZ, Res.bind_ok]
        have hfd : fdir (d^[i] p) = toZ (d^[i + 1] p) := by
          rw [h, iterate_succ_apply']; rfl
        rw [hfd]
        apply ih (i + 1) _ (by omega)
        · rw [hv, Nat.add_sub_cancel]
          conv_rhs => rw [show i = (i - 1) + 1 by omega, List.range'_concat, List.map_append]
          simp
          congr 2
          omega
        · rw [List.nodup_append]
          refine ⟨hnd, by simp, ?_⟩
          intro a ha b hb
          rw [List.mem_singleton] at hb
          subst hb
          rintro rfl
          exact hnm ha
        · intro j hj1 hj2
          by_cases hji : j = i
          · subst hji; exact hc
          · exact hno j hj1 (by omega)
        · simp; omega

/-- What the search for the next pour point returns. -/
theorem nextPour_ok (h : Legal fdir d) {cells : List (Fin N)} {p : Fin N} (hp : ¬ OnCycle d p)
    {fuel : ℕ} (hf : N + 1 < fuel) :
    ∃ r, nextPour fdir (cells.map toZ) (toZ p) fuel (toZ p) [] = .ok r ∧
      ((r = -1 ∧ ∀ j, d^[j] p ∈ cells → d^[j] p = p) ∨
       ∃ k, 1 ≤ k ∧ r = toZ (d^[k] p) ∧ d^[k] p ∈ cells ∧ d^[k] p ≠ p ∧
          ∀ j, 1 ≤ j → j < k → d^[j] p ∉ cells) := by
  obtain ⟨k, rfl⟩ : ∃ k, fuel = k + 1 := ⟨fuel - 1, by omega⟩
  simp only [nextPour, List.not_mem_nil, if_false, or_true, if_true, ne_eq, not_true_eq_false,
    pyIndex_toZ, Res.bind_ok]
  have hfd : fdir p = toZ (d p) := h p
  rw [hfd]
  by_cases hself : d p = p
  · rw [if_pos (by rw [hself])]
    exact ⟨-1, rfl, .inl ⟨rfl, fun j _ => iterate_fixed hself j⟩⟩
  · rw [if_neg (fun he => hself (toZ_inj he))]
    obtain ⟨r, e, hr⟩ := nextPour_loop h (cells := cells) hp hself k 1 [] le_rfl (by simp) (by simp)
      (by intro j h1 h2; omega) (by simp; omega)
    refine ⟨r, e, ?_⟩
    rcases hr with ⟨h1, h2⟩ | h1
    · refine .inl ⟨h1, ?_⟩
      intro j hj
      cases j with
      | zero => rfl
      | succ j => exact absurd hj (h2 _ (by omega))
    · exact .inr h1

/-- The dictionary of next pour points. -/
theorem pourGraph_ok (h : Legal fdir d) {cells : List (Fin N)} (hp : ∀ c ∈ cells, ¬ OnCycle d c)
    {fuel : ℕ} (hf : N + 1 < fuel) :
    ∃ g, pourGraph fuel fdir (cells.map toZ) = .ok g ∧ g.keys.Nodup ∧ g.length ≤ cells.length ∧
      (∀ x, x ∈ g.keys ↔ x ∈ cells.map toZ) ∧
      (∀ x y, g.get? x = some y → ∃ p ∈ cells, x = toZ p ∧
        ((y = -1 ∧ ∀ j, d^[j] p ∈ cells → d^[j] p = p) ∨
         ∃ k, 1 ≤ k ∧ y = toZ (d^[k] p) ∧ d^[k] p ∈ cells ∧ d^[k] p ≠ p ∧
          ∀ j, 1 ≤ j → j < k → d^[j] p ∉ cells)) := by
  have key : ∀ (l : List (Fin N)) (g0 : Dict ℤ ℤ), (∀ c ∈ l, c ∈ cells) → g0.keys.Nodup →
      (∀ x y, g0.get? x = some y → ∃ p ∈ cells, x = toZ p ∧
        ((y = -1 ∧ ∀ j, d^[j] p ∈ cells → d^[j] p = p) ∨
         ∃ k, 1 ≤ k ∧ y = toZ (d^[k] p) ∧ d^[k] p ∈ cells ∧ d^[k] p ≠ p ∧
          ∀ j, 1 ≤ j → j < k → d^[j] p ∉ cells)) →
      ∃ g, (l.map toZ).foldl (graphStep fuel fdir (cells.map toZ)) (.ok g0) = .ok g ∧
        g.keys.Nodup ∧ g.keys.length ≤ g0.keys.length + l.length ∧
        (∀ x, x ∈ g.keys ↔ x ∈ g0.keys ∨ x ∈ l.map toZ) ∧
        (∀ x y, g.get? x = some y → ∃ p ∈ cells, x = toZ p ∧
        ((y = -1 ∧ ∀ j, d^[j] p ∈ cells → d^[j] p = p) ∨
         ∃ k, 1 ≤ k ∧ y = toZ (d^[k] p) ∧ d^[k] p ∈ cells ∧ d^[k] p ≠ p ∧
          ∀ j, 1 ≤ j → j < k → d^[j] p ∉ cells)) := by
    intro l
    induction l with
    | nil => intro g0 _ hnd hg; exact ⟨g0, rfl, hnd, by simp, by simp, hg⟩
    | cons c l ih =>
      intro g0 hl hnd hg
      have hc : c ∈ cells := hl c (by simp)
      obtain ⟨r, e, hr⟩ := nextPour_ok h (cells := cells) (hp c hc) hf
      rw [List.map_cons, List.foldl_cons]
      simp only [graphStep, Res.bind_ok, e]
      obtain ⟨g, e', h1, h2, h3, h4⟩ := ih (g0.set (toZ c) r) (fun c' hc' => hl c' (by simp [hc']))
        (Dict.nodup_keys_set hnd _ _) (by
          intro x y hxy
          rw [Dict.get?_set] at hxy
          split at hxy
          · rename_i hx
            cases hxy
            exact ⟨c, hc, hx, hr⟩
          · exact hg x y hxy)
      refine ⟨g, e', h1, ?_, ?_, h4⟩
      · have : (g0.set (toZ c) r).keys.length ≤ g0.keys.length + 1 := by
          rw [Dict.keys_set]; split <;> simp
        simp only [List.length_cons]
        omega
      · intro x
        rw [h3, Dict.mem_keys_set, List.mem_cons, or_assoc]
  obtain ⟨g, e, h1, h2, h3, h4⟩ := key cells [] (fun _ h => h) (by simp) (by intro x y hxy; cases hxy)
  refine ⟨g, e, h1, ?_, by simpa using h3, h4⟩
  simpa [Dict.keys] using h2

theorem set_fresh {κ α : Type*} [DecidableEq κ] {t : Dict κ α} {k : κ} {v : α} (h : k ∉ t.keys) :
    t.set k v = t ++ [(k, v)] := by
  induction t with
  | nil => rfl
  | cons x t ih =>
    obtain ⟨a, b⟩ := x
    have : a ≠ k ∧ k ∉ Dict.keys t := by
      simp only [Dict.keys, List.map_cons, List.mem_cons, not_or] at h
      exact ⟨Ne.symm h.1, h.2⟩
    simp only [Dict.set, if_neg this.1, List.cons_append, ih this.2]

theorem addConnections_nodup {l : List (ℤ × ℤ)} (h : (Dict.keys l).Nodup) : addConnections l = l := by
  have key : ∀ (l t : List (ℤ × ℤ)), (Dict.keys (t ++ l)).Nodup →
      l.foldl (fun t e => Dict.set t e.1 e.2) t = t ++ l := by
    intro l
    induction l with
    | nil => intro t _; simp
    | cons x l ih =>
      intro t hnd
      rw [List.foldl_cons, set_fresh]
      · rw [ih _ (by simpa using hnd)]; simp
      · simp only [Dict.keys, List.map_append, List.map_cons, List.nodup_append] at hnd
        intro hx
        exact hnd.2.2 _ hx _ (by simp) rfl
  exact key l [] (by simpa using h)

/-- without the outlet code 0 everything is inserted in front -/
theorem sortUtil_suffix {topo : Dict ℤ ℤ} (hz : ∀ x y, FlowsTo topo x y → y ≠ 0) :
    ∀ (limit : ℕ) (seg : ℤ) (v v' : Dict ℤ Bool) (S S' : List ℤ), seg ≠ 0 →
      sortUtil topo limit seg v S = .ok (v', S') → ∃ pre, S' = pre ++ S := by
  intro limit
  induction limit with
  | zero => intro seg v v' S S' _ h; cases h
  | succ k ih =>
    intro seg v v' S S' h0 h
    simp only [sortUtil, if_neg h0] at h
    obtain ⟨out, hout, h⟩ := Res.bind_eq_ok.1 h
    obtain ⟨seen, hseen, h⟩ := Res.bind_eq_ok.1 h
    obtain ⟨r, hr, h⟩ := Res.bind_eq_ok.1 h
    have hflow : FlowsTo topo seg out := by
      refine ⟨h0, ?_⟩
      unfold Dict.getE at hout
      split at hout
      · rename_i v hv; cases hout; exact hv
      · cases hout
    have hout0 := hz _ _ hflow
    rw [if_neg hout0] at h
    cases h
    split at hr
    · cases hr; exact ⟨[seg], rfl⟩
    · obtain ⟨pre, hpre⟩ := ih out _ r.1 S r.2 hout0 hr
      exact ⟨seg :: pre, by rw [hpre]; rfl⟩

theorem sortFold_suffix {topo : Dict ℤ ℤ} (hz : ∀ x y, FlowsTo topo x y → y ≠ 0) {limit : ℕ} :
    ∀ (l : List ℤ) (v v' : Dict ℤ Bool) (S S' : List ℤ),
      l.foldl (sortStep limit topo) (.ok (v, S)) = .ok (v', S') → ∃ pre, S' = pre ++ S := by
  intro l
  induction l with
  | nil => intro v v' S S' h; cases h; exact ⟨[], rfl⟩
  | cons i l ih =>
    intro v v' S S' h
    rw [List.foldl_cons] at h
    have herr : ∀ (r : Res (Dict ℤ Bool × List ℤ)), l.foldl (sortStep limit topo) r = .ok (v', S') →
        ∃ x, r = .ok x := by
      intro r hr
      clear ih h
      induction l generalizing r with
      | nil => exact ⟨_, hr⟩
      | cons a l ihl =>
        obtain ⟨x, hx⟩ := ihl _ hr
        obtain ⟨y, hy, _⟩ := Res.bind_eq_ok.1 hx
        exact ⟨y, hy⟩
    obtain ⟨⟨v1, S1⟩, h1⟩ := herr _ h
    rw [h1] at h
    obtain ⟨pre, hpre⟩ := ih _ _ _ _ h
    have : ∃ pre', S1 = pre' ++ S := by
      simp only [sortStep, Res.bind_ok] at h1
      split at h1
      · cases h1; exact ⟨[], rfl⟩
      · rename_i hi0
        obtain ⟨seen, _, h1⟩ := Res.bind_eq_ok.1 h1
        split at h1
        · cases h1; exact ⟨[], rfl⟩
        · exact sortUtil_suffix hz _ _ _ _ _ _ hi0 h1
    obtain ⟨pre', hpre'⟩ := this
    exact ⟨pre ++ pre', by rw [hpre, hpre', List.append_assoc]⟩

theorem before_trans {l : List ℤ} (hnd : l.Nodup) {x y z : ℤ} (h1 : Before l x y)
    (h2 : Before l y z) : Before l x z := by
  obtain ⟨a, b, rfl, hy⟩ := h1
  obtain ⟨b1, b2, rfl⟩ := List.append_of_mem hy
  obtain ⟨a', b', he, hz⟩ := h2
  have e2 : (a ++ x :: b1) ++ y :: b2 = a' ++ y :: b' := by simpa using he
  have hn1 : y ∉ a ++ x :: b1 := by
    intro hm
    have : ((a ++ x :: b1) ++ y :: b2).Nodup := by simpa using hnd
    rw [List.nodup_append] at this
    exact this.2.2 y hm y (by simp) rfl
  have hn2 : y ∉ a' := by
    intro hm
    have : (a' ++ y :: b').Nodup := by rw [← e2]; simpa using hnd
    rw [List.nodup_append] at this
    exact this.2.2 y hm y (by simp) rfl
  have h3 : b2 = b' := by
    rcases List.append_eq_append_iff.1 e2 with ⟨c, hc1, hc2⟩ | ⟨c, hc1, hc2⟩
    · cases c with
      | nil => simpa using hc2
      | cons w c =>
        rw [List.cons_append, List.cons.injEq] at hc2
        exact absurd (by rw [hc1, hc2.1]; simp) hn2
    · cases c with
      | nil => simpa using hc2.symm
      | cons w c =>
        rw [List.cons_append, List.cons.injEq] at hc2
        exact absurd (by rw [hc1, hc2.1]; simp) hn1
  exact ⟨a, b1 ++ y :: b2, rfl, by rw [h3]; simp [hz]⟩

theorem before_irrefl {l : List ℤ} (hnd : l.Nodup) (x : ℤ) : ¬ Before l x x := by
  rintro ⟨a, b, rfl, hx⟩
  rw [List.nodup_append] at hnd
  exact (List.nodup_cons.1 hnd.2.1).1 hx

theorem poursFit_of_length {cells : List (Fin N)} {limit : ℕ} (h : cells.length + 1 ≤ limit) :
    PoursFit d cells limit := by
  intro q _ hq hs
  have := (List.subperm_of_subset hq hs).length_le
  omega

/-- The solution order: every pour point once, none after one that it flows to. -/
theorem pourOrder_ok (h : Legal fdir d) {cells : List (Fin N)} (hp : ∀ c ∈ cells, ¬ OnCycle d c)
    (h0 : ∀ c ∈ cells, c.val ≠ 0) {limit fuel : ℕ} (hf : N + 1 < fuel)
    (hl : PoursFit d cells limit) :
    ∃ L, pourOrder limit fuel fdir (cells.map toZ) = .ok L ∧ L.Nodup ∧
      (∀ x, x ∈ L ↔ x ∈ cells.map toZ) ∧
      (∀ p ∈ cells, ∀ q ∈ cells, p ≠ q → Reaches d p q → Before L (toZ p) (toZ q)) := by
  obtain ⟨g, e, g1, g2, g3, g4⟩ := pourGraph_ok h hp hf
  have hneg : (-1 : ℤ) ∉ g.keys := by
    rw [g3, List.mem_map]
    rintro ⟨c, _, hc⟩
    have := toZ_nonneg c
    omega
  have hkeys : Dict.keys (g ++ [(-1, -1)]) = g.keys ++ [-1] := by simp [Dict.keys]
  have hnd : (Dict.keys (g ++ [(-1, -1)])).Nodup := by
    rw [hkeys, List.nodup_append]
    refine ⟨g1, by simp, ?_⟩
    intro a ha b hb
    rw [List.mem_singleton] at hb
    subst hb
    rintro rfl
    exact hneg ha
  set topo : Dict ℤ ℤ := g ++ [(-1, -1)] with htopo
  have hflow : ∀ x y, FlowsTo topo x y → (x = -1 ∧ y = -1) ∨ ∃ p ∈ cells, x = toZ p ∧
      ((y = -1 ∧ ∀ j, d^[j] p ∈ cells → d^[j] p = p) ∨
       ∃ k, 1 ≤ k ∧ y = toZ (d^[k] p) ∧ d^[k] p ∈ cells ∧ d^[k] p ≠ p ∧
        ∀ j, 1 ≤ j → j < k → d^[j] p ∉ cells) := by
    rintro x y ⟨_, hxy⟩
    have hm := Dict.mem_of_get? hxy
    rw [htopo, List.mem_append] at hm
    rcases hm with hm | hm
    · exact .inr (g4 x y (Dict.get?_of_mem g1 hm))
    · left; simpa using hm
  have hpos : ∀ c ∈ cells, toZ c ≠ 0 := by
    intro c hc hz
    exact h0 c hc (by unfold toZ at hz; omega)
  have hz : ∀ x y, FlowsTo topo x y → y ≠ 0 := by
    intro x y hxy
    rcases hflow x y hxy with ⟨_, rfl⟩ | ⟨p, hpc, rfl, ⟨rfl, _⟩ | ⟨k, _, rfl, hk, _⟩⟩
    · decide
    · decide
    · exact hpos _ hk
  have href : RefsExist topo := by
    intro x y hxy
    right
    rw [hkeys, List.mem_append]
    rcases hflow x y hxy with ⟨_, rfl⟩ | ⟨p, hpc, rfl, ⟨rfl, _⟩ | ⟨k, _, rfl, hk, _⟩⟩
    · right; simp
    · right; simp
    · left; rw [g3, mem_toZ]; exact hk
  have hreach : ∀ x y, ReflTransGen (FlowsTo topo) x y → x = y ∨ y = -1 ∨
      ∃ p ∈ cells, ∃ q ∈ cells, x = toZ p ∧ y = toZ q ∧ Reaches d p q := by
    intro x y hr
    induction hr with
    | refl => left; rfl
    | tail hab hbc ih =>
      rename_i b c
      rcases hflow _ _ hbc with ⟨_, rfl⟩ | ⟨p, hpc, hbp, ⟨rfl, _⟩ | ⟨k, _, rfl, hk, _⟩⟩
      · right; left; rfl
      · right; left; rfl
      · right; right
        rcases ih with rfl | rfl | ⟨p', hp', q', hq', rfl, hbq, hr'⟩
        · exact ⟨p, hpc, _, hk, hbp, rfl, k, rfl⟩
        · have := toZ_nonneg p; omega
        · have : q' = p := toZ_inj (hbq.symm.trans hbp)
          subst this
          exact ⟨p', hp', _, hk, rfl, rfl, hr'.trans ⟨k, rfl⟩⟩
  have hneg1 : ∀ y, ReflTransGen (FlowsTo topo) (-1) y → y = -1 := by
    intro y hr
    rcases hreach _ _ hr with h | h | ⟨p, _, _, _, h, _⟩
    · exact h.symm
    · exact h
    · have := toZ_nonneg p; omega
  have hac : Acyclic topo := by
    intro x y hxy hyx
    rcases hreach _ _ hxy with h | rfl | ⟨p, hpc, q, hqc, rfl, rfl, hr⟩
    · exact h
    · exact hneg1 x hyx
    · rcases hreach _ _ hyx with h | h | ⟨p', hp', q', hq', e1, e2, hr'⟩
      · exact h.symm
      · have := toZ_nonneg p; omega
      · rw [← toZ_inj e1, ← toZ_inj e2] at hr'
        rw [hr.antisymm (hp q hqc) hr']
  have hchain : ∀ p : List ℤ, p.IsChain (FlowsTo topo) → p.Nodup → ∃ q : List (Fin N),
      q.IsChain (Reaches d) ∧ (∀ c ∈ q, c ∈ cells) ∧ (p = q.map toZ ∨ ∃ z, p = q.map toZ ++ [z]) := by
    intro p
    induction p with
    | nil => intro _ _; exact ⟨[], by simp, by simp, by simp⟩
    | cons x p ih =>
      intro hc hp
      cases p with
      | nil => exact ⟨[], by simp, by simp, by simp⟩
      | cons y p =>
        rw [List.isChain_cons_cons] at hc
        obtain ⟨q, h1, h2, h3⟩ := ih hc.2 (List.nodup_cons.1 hp).2
        have hxy : x ≠ y := fun h => (List.nodup_cons.1 hp).1 (by rw [h]; simp)
        rcases hflow _ _ hc.1 with ⟨hx, hy⟩ | ⟨c, hcc, rfl, hcase⟩
        · exact absurd (hx.trans hy.symm) hxy
        · refine ⟨c :: q, List.isChain_cons.2 ⟨?_, h1⟩, ?_, ?_⟩
          · intro m hm
            obtain ⟨q', rfl⟩ : ∃ q', q = m :: q' := by
              cases q with
              | nil => simp at hm
              | cons a q' => simp at hm; exact ⟨q', by rw [hm]⟩
            have hy : y = toZ m := by
              rcases h3 with h3 | ⟨z, h3⟩ <;> simp at h3 <;> exact h3.1
            rcases hcase with ⟨hy1, _⟩ | ⟨k, _, hyk, _⟩
            · have := toZ_nonneg m; omega
            · exact ⟨k, toZ_inj (hyk.symm.trans hy)⟩
          · intro m hm
            rcases List.mem_cons.1 hm with rfl | hm
            · exact hcc
            · exact h2 m hm
          · rcases h3 with h3 | ⟨z, h3⟩
            · left; rw [h3]; rfl
            · right; exact ⟨z, by rw [h3]; rfl⟩
  have hlen : ShortPaths topo limit := by
    intro p hc hp
    obtain ⟨q, h1, h2, h3⟩ := hchain p hc hp
    have hq : q.Nodup := by
      rcases h3 with rfl | ⟨z, rfl⟩
      · exact hp.of_map
      · exact (List.nodup_append.1 hp).1.of_map
    have := hl q h1 hq h2
    rcases h3 with rfl | ⟨z, rfl⟩ <;> simp <;> omega
  have hlim : 1 ≤ limit := by simpa using hl [] (by simp) (by simp) (by simp)
  obtain ⟨S, eS, s1, s2, s3⟩ := sort_ok href hlen
  have s3 := s3 hac
  -- the last element is -1
  have hlast : ∃ pre, S = pre ++ [-1] := by
    unfold sort at eS
    obtain ⟨⟨v', S''⟩, eF, rfl⟩ := Res.map_eq_ok.1 eS
    have hmem : ∀ x, x ∈ (initVisited topo).keys.insertionSort (· ≤ ·) ↔ x = 0 ∨ x ∈ topo.keys := by
      intro x
      rw [(List.perm_insertionSort (· ≤ ·) _).mem_iff, initVisited_mem]
    have hmin : ∀ x ∈ (initVisited topo).keys.insertionSort (· ≤ ·), -1 ≤ x := by
      intro x hx
      rcases (hmem x).1 hx with rfl | hx
      · decide
      · rw [hkeys, List.mem_append] at hx
        rcases hx with hx | hx
        · rw [g3, List.mem_map] at hx
          obtain ⟨c, _, rfl⟩ := hx
          have := toZ_nonneg c; omega
        · simp at hx; omega
    have hin : (-1 : ℤ) ∈ (initVisited topo).keys.insertionSort (· ≤ ·) :=
      (hmem _).2 (.inr (by rw [hkeys]; simp))
    have hsorted := List.pairwise_insertionSort (· ≤ ·) (initVisited topo).keys
    cases hK : (initVisited topo).keys.insertionSort (· ≤ ·) with
    | nil => rw [hK] at hin; simp at hin
    | cons a l =>
      rw [hK] at hin hsorted hmin eF
      have ha : a = -1 := by
        have h1 := hmin a (by simp)
        rcases List.mem_cons.1 hin with h | h
        · exact h.symm
        · have := (List.pairwise_cons.1 hsorted).1 _ h
          omega
      subst ha
      have hg1 : (initVisited topo).getE (-1) = .ok false := by
        rw [Dict.getE, initVisited_get, if_pos (.inr (by rw [hkeys]; simp))]
      have ht1 : topo.getE (-1) = .ok (-1) := by
        rw [Dict.getE, Dict.get?_of_mem hnd (k := -1) (v := -1) (by rw [htopo]; simp)]
      obtain ⟨lim, rfl⟩ : ∃ lim, limit = lim + 1 := ⟨limit - 1, by omega⟩
      have hstep : sortStep (lim + 1) topo (.ok (initVisited topo, [])) (-1) =
          .ok ((initVisited topo).set (-1) true, [-1]) := by
        have hv : ((initVisited topo).set (-1) true).getE (-1) = .ok true := by
          rw [Dict.getE, Dict.get?_set_self]
        simp [sortStep, hg1, sortUtil, ht1, hv]
      rw [List.foldl_cons, hstep] at eF
      obtain ⟨pre, hpre⟩ := sortFold_suffix hz l _ _ _ _ eF
      exact ⟨pre, hpre⟩
  obtain ⟨pre, rfl⟩ := hlast
  have hpreNd : pre.Nodup := (List.nodup_append.1 s1).1
  have hpre1 : (-1 : ℤ) ∉ pre := fun hm => (List.nodup_append.1 s1).2.2 _ hm _ (by simp) rfl
  have hmemPre : ∀ x, x ∈ pre ↔ x ∈ cells.map toZ := by
    intro x
    have := s2 x
    rw [hkeys, List.mem_append, List.mem_append, g3] at this
    constructor
    · intro hx
      have h2 := (this.1 (.inl hx)).2
      rcases h2 with h2 | h2
      · exact h2
      · rw [List.mem_singleton] at h2; subst h2; exact absurd hx hpre1
    · intro hx
      obtain ⟨c, hc, rfl⟩ := List.mem_map.1 hx
      rcases this.2 ⟨hpos c hc, .inl hx⟩ with h2 | h2
      · exact h2
      · rw [List.mem_singleton] at h2
        have := toZ_nonneg c; omega
  have hbefore_pre : ∀ x y, Before (pre ++ [-1]) x y → y ≠ -1 → Before pre x y := by
    rintro x y ⟨a, b, he, hy⟩ hy1
    rcases List.eq_nil_or_concat b with rfl | ⟨b', z, rfl⟩
    · simp at hy
    · have h1 : (pre ++ [-1]) = (a ++ x :: b') ++ [z] := by rw [he]; simp
      obtain ⟨h2, h3⟩ := List.append_inj' h1 rfl
      refine ⟨a, b', h2, ?_⟩
      rw [List.concat_eq_append, List.mem_append] at hy
      rcases hy with hy | hy
      · exact hy
      · exfalso
        simp at hy h3
        omega
  refine ⟨pre, ?_, hpreNd, hmemPre, ?_⟩
  · unfold pourOrder
    rw [e, Res.bind_ok, addConnections_nodup hnd, eS, Res.map_ok, List.dropLast_concat]
  · have key : ∀ (k : ℕ) (p q : Fin N), p ∈ cells → q ∈ cells → p ≠ q → d^[k] p = q →
        Before (pre ++ [-1]) (toZ p) (toZ q) := by
      intro k
      induction k using Nat.strong_induction_on with
      | _ k ih =>
        intro p q hpc hqc hne hk
        obtain ⟨y, hy⟩ := Dict.mem_keys_iff.1 (show toZ p ∈ topo.keys by
          rw [hkeys, List.mem_append, g3, mem_toZ]; exact .inl hpc)
        have hf1 : FlowsTo topo (toZ p) y := ⟨hpos p hpc, hy⟩
        rcases hflow _ _ hf1 with ⟨h1, _⟩ | ⟨p', _, hpp', hcase⟩
        · have := toZ_nonneg p; omega
        · have := toZ_inj hpp'
          subst this
          rcases hcase with ⟨rfl, hall⟩ | ⟨i, hi, rfl, hic, hip, hmin⟩
          · exact absurd (by rw [← hall k (by rw [hk]; exact hqc), hk]) hne
          · have hb1 : Before (pre ++ [-1]) (toZ p) (toZ (d^[i] p)) :=
              s3 _ ((s2 _).2 ⟨hpos p hpc, Dict.mem_keys_iff.2 ⟨_, hy⟩⟩) _ hf1 (hpos _ hic)
                (fun he => hip (toZ_inj he))
            by_cases hiq : d^[i] p = q
            · rw [← hiq]; exact hb1
            · have hk1 : 1 ≤ k := by
                rcases Nat.eq_zero_or_pos k with rfl | h
                · exact absurd hk hne
                · exact h
              have hik : i ≤ k := by
                by_contra hlt
                exact hmin k hk1 (by omega) (by rw [hk]; exact hqc)
              have hb2 := ih (k - i) (by omega) (d^[i] p) q hic hqc hiq (by
                rw [← iterate_add_apply, Nat.sub_add_cancel hik, hk])
              exact before_trans s1 hb1 hb2
    intro p hpc q hqc hne hr
    obtain ⟨k, hk⟩ := hr
    refine hbefore_pre _ _ (key k p q hpc hqc hne hk) ?_
    have := toZ_nonneg q
    omega

end Dany.Basin
