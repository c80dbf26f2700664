import Verif.Casc.Lemmas
import Verif.Reach.Props
import Mathlib.Data.Rat.Defs
import Mathlib.Algebra.Order.BigOperators.Group.List
import Mathlib.Algebra.BigOperators.Ring.List

/-!
# C61 – C64, C76: cascades
-/

namespace Dany.Casc

open Flow Reach

variable {N : ℕ} {K : Type*} [Field K] [LinearOrder K]
  {d : Fin N → Fin N} {active : Fin N → Bool} {limit : ℕ}
  {nbs : Fin N → List (Fin N × Option K)} {o o' : Obj N} {arg : Option (Fin N → ℤ)} {rows : List (Row K)}

/-- the parts of a successful call -/
theorem getCascades_inv {b : Bool} (h : getCascades limit nbs o arg active b = .ok (o', rows)) :
    ∃ sa links, cascadeStreams limit o arg = .ok (o', sa) ∧
      (if b = true then manyToMany o.fdir active sa nbs else manyToOne o.fdir active) = .ok links ∧
      finishRows sa links = .ok rows := by
  unfold getCascades at h
  obtain ⟨⟨o1, sa⟩, h1, h⟩ := Res.bind_eq_ok.1 h
  obtain ⟨links, h2, h⟩ := Res.bind_eq_ok.1 h
  obtain ⟨rs, h3, he⟩ := Res.map_eq_ok.1 h
  simp only [Prod.mk.injEq] at he
  obtain ⟨rfl, rfl⟩ := he
  exact ⟨sa, links, h1, h2, h3⟩

theorem rows_up {sa : Fin N → ℤ} {links : List (ℤ × ℤ × K)} (h : finishRows sa links = .ok rows) :
    rows.map Row.up = (links.map Prod.fst).map (· + 1) := by
  have := finishRows_inv h
  clear h
  induction this with
  | nil => rfl
  | cons h _ ih => simp only [List.map_cons, ih, h.1]

theorem mem_rows_iff {sa : Fin N → ℤ} {links : List (ℤ × ℤ × K)} (h : finishRows sa links = .ok rows)
    {u v : ℤ} {p : K} : (∃ s, (⟨u, v, p, s⟩ : Row K) ∈ rows) ↔ (u - 1, v - 1, p) ∈ links := by
  have := finishRows_inv h
  clear h
  induction this with
  | nil => simp
  | @cons l r ls rs hlr _ ih =>
    obtain ⟨h1, h2, h3, _⟩ := hlr
    simp only [List.mem_cons]
    constructor
    · rintro ⟨s, h | h⟩
      · left
        subst h
        dsimp only at h1 h2 h3
        rw [h1, h2, h3]
        ext <;> simp
      · right; exact ih.1 ⟨s, h⟩
    · rintro (h | h)
      · refine ⟨r.strmseg, .inl ?_⟩
        rw [← h] at h1 h2 h3
        dsimp only at h1 h2 h3
        cases r
        dsimp only at h1 h2 h3 ⊢
        rw [h1, h2, h3]
        simp
      · obtain ⟨s, hs⟩ := ih.2 h
        exact ⟨s, .inr hs⟩

/-! ### C61 -/

/-- **C61, what the code does (partial).** The exact number of times a cell is listed as `hru_up` in
many-to-one cascades: an active cell is listed once for every active cell with the same flow direction
whose receiving cell is active; an inactive cell once for every active cell flowing into it. Missing:
"exactly once", which is false (`C61_once_iff`, `C61_refuted`). -/
theorem C61_multiplicity_partial (hd : Resolves o.fdir d) (h9 : ∀ n, o.fdir n ≠ -9)
    (h : getCascades limit nbs o arg active false = .ok (o', rows)) (m : Fin N) :
    (active m = true → (rows.map Row.up).count (((m : ℕ) : ℤ) + 1) =
      if active (d m) = true then
        (Finset.univ.filter (fun n => active n = true ∧ o.fdir n = o.fdir m)).card else 0) ∧
    (active m = false → (rows.map Row.up).count (((m : ℕ) : ℤ) + 1) =
      (Finset.univ.filter (fun n => active n = true ∧ o.fdir n = ((m : ℕ) : ℤ))).card) := by
  obtain ⟨sa, links, _, h2, h3⟩ := getCascades_inv h
  simp only [Bool.false_eq_true, if_false] at h2
  rw [manyToOne_ok hd h9] at h2
  cases h2
  have hdd : ∀ a b : Fin N, o.fdir a = o.fdir b → d a = d b := by
    intro a b hab
    rcases hd a with ⟨e1, e2⟩ | ⟨e1, e2⟩ <;> rcases hd b with ⟨e3, e4⟩ | ⟨e3, e4⟩ <;>
      (apply Fin.ext; omega)
  have hcell : ∀ a : Fin N, o.fdir a = ((m : ℕ) : ℤ) → d a = m := by
    intro a ha
    rcases hd a with ⟨e1, e2⟩ | ⟨e1, e2⟩ <;> (apply Fin.ext; omega)
  have hcount : (rows.map Row.up).count (((m : ℕ) : ℤ) + 1) =
      (Finset.univ.filter (fun n => active n = true ∧ (if active m = true then active (d n) = true ∧
        o.fdir n = o.fdir m else active (d n) = false ∧ o.fdir n = ((m : ℕ) : ℤ)))).card := by
    rw [rows_up h3, List.count_map_of_injective _ _ (add_left_injective (1 : ℤ)), List.map_flatMap,
      List.count_flatMap, ← filter_length_card, ← sum_ite_filter]
    congr 1
    apply List.map_congr_left
    intro n _
    exact count_one hd
  rw [hcount]
  constructor
  · intro hm
    simp only [hm, if_true]
    split
    · rename_i hj
      congr 1
      ext n
      simp only [Finset.mem_filter, Finset.mem_univ, true_and]
      constructor
      · rintro ⟨a, _, b⟩; exact ⟨a, b⟩
      · rintro ⟨a, b⟩; exact ⟨a, by rw [hdd n m b]; exact hj, b⟩
    · rename_i hj
      rw [Finset.card_eq_zero, Finset.filter_eq_empty_iff]
      rintro n _ ⟨_, a, b⟩
      rw [hdd n m b] at a
      exact hj a
  · intro hm
    simp only [hm, Bool.false_eq_true, if_false]
    congr 1
    ext n
    simp only [Finset.mem_filter, Finset.mem_univ, true_and]
    constructor
    · rintro ⟨a, _, b⟩; exact ⟨a, b⟩
    · rintro ⟨a, b⟩; exact ⟨a, by rw [hcell n b]; exact hm, b⟩

/-- **C61 is false of the code**: without a boundary, every cell is listed exactly once only if no two
cells flow to the same cell. -/
theorem C61_once_iff (hd : Resolves o.fdir d) (h9 : ∀ n, o.fdir n ≠ -9)
    (h : getCascades limit nbs o arg (fun _ => true) false = .ok (o', rows)) :
    (∀ m : Fin N, (rows.map Row.up).count (((m : ℕ) : ℤ) + 1) = 1) ↔ Function.Injective o.fdir := by
  have key : ∀ m : Fin N, (rows.map Row.up).count (((m : ℕ) : ℤ) + 1) =
      (Finset.univ.filter (fun n => o.fdir n = o.fdir m)).card := by
    intro m
    rw [(C61_multiplicity_partial hd h9 h m).1 rfl]
    simp
  constructor
  · intro hall a b hab
    have := hall a
    rw [key, Finset.card_eq_one] at this
    obtain ⟨c, hc⟩ := this
    have ha : a ∈ ({c} : Finset (Fin N)) := by rw [← hc]; simp
    have hb : b ∈ ({c} : Finset (Fin N)) := by rw [← hc]; simp [hab]
    rw [Finset.mem_singleton] at ha hb
    rw [ha, hb]
  · intro hinj m
    rw [key, Finset.card_eq_one]
    refine ⟨m, ?_⟩
    ext n
    simp only [Finset.mem_filter, Finset.mem_univ, true_and, Finset.mem_singleton]
    exact ⟨fun e => hinj e, fun e => by rw [e]⟩

/-- three cells: cells 0 and 1 flow to cell 2, a stream cell that flows to itself -/
def exObj : Obj 3 := ⟨![2, 2, 2], some ![0, 0, 1], none⟩

/-- C61 on three cells that all flow to cell 2: nine links instead of three -/
theorem C61_refuted : (getCascades (K := ℚ) 9 (fun _ => []) exObj none (fun _ => true) false).map
    (fun r => r.2.map (fun x => (x.up, x.down, x.pct, x.strmseg))) =
      .ok [(1, 3, 1, 1), (2, 3, 1, 1), (3, 3, 1, 1), (1, 3, 1, 1), (2, 3, 1, 1), (3, 3, 1, 1),
        (1, 3, 1, 1), (2, 3, 1, 1), (3, 3, 1, 1)] := by decide +kernel

/-! ### C62 -/

/-- many-to-one cascades never fail -/
theorem C62_succeeds (hd : Resolves o.fdir d) (h9 : ∀ n, o.fdir n ≠ -9) {sa : Fin N → ℤ}
    (h : cascadeStreams limit o arg = .ok (o', sa)) :
    ∃ rows, getCascades limit nbs o arg active false = .ok (o', rows) := by
  have hfin : ∀ ls : List (ℤ × ℤ × K), (∀ l ∈ ls, ∃ n, l.2.1 = o.fdir n) →
      ∃ rows, finishRows sa ls = .ok rows := by
    intro ls
    induction ls with
    | nil => intro _; exact ⟨[], rfl⟩
    | cons l ls ih =>
      intro hl
      obtain ⟨n, hn⟩ := hl l (by simp)
      obtain ⟨rs, hrs⟩ := ih (fun x hx => hl x (by simp [hx]))
      exact ⟨_, by simp only [finishRows, hn, hd.pyIndex, Res.bind_ok, hrs, Res.map_ok]; rfl⟩
  obtain ⟨rows, hr⟩ := hfin ((List.finRange N).flatMap (oneSpec o.fdir d active)) (by
    intro l hl
    obtain ⟨n, _, hn⟩ := List.mem_flatMap.1 hl
    refine ⟨n, ?_⟩
    unfold oneSpec at hn
    split at hn
    · cases hn
    · split at hn
      · rw [List.mem_singleton] at hn; rw [hn]
      · obtain ⟨m, _, rfl⟩ := List.mem_map.1 hn; rfl)
  refine ⟨rows, ?_⟩
  simp only [getCascades, h, Res.bind_ok, Bool.false_eq_true, if_false]
  rw [manyToOne_ok hd h9, Res.bind_ok, hr, Res.map_ok]

/-- **C62.** The links of many-to-one cascades: from every active cell with an active receiving cell to
that cell, and the self-link of every inactive cell that receives flow from an active one; the
fractions are 1. -/
theorem C62_links (hd : Resolves o.fdir d) (h9 : ∀ n, o.fdir n ≠ -9)
    (h : getCascades limit nbs o arg active false = .ok (o', rows)) (u v : ℤ) (p : K) :
    (∃ s, (⟨u, v, p, s⟩ : Row K) ∈ rows) ↔ p = 1 ∧ ∃ m, active m = true ∧ v = o.fdir m + 1 ∧
      ((active (d m) = true ∧ u = ((m : ℕ) : ℤ) + 1) ∨ (active (d m) = false ∧ u = v)) := by
  obtain ⟨sa, links, _, h2, h3⟩ := getCascades_inv h
  simp only [Bool.false_eq_true, if_false] at h2
  rw [manyToOne_ok hd h9] at h2
  cases h2
  have hdd : ∀ a b : Fin N, o.fdir a = o.fdir b → d a = d b := by
    intro a b hab
    rcases hd a with ⟨e1, e2⟩ | ⟨e1, e2⟩ <;> rcases hd b with ⟨e3, e4⟩ | ⟨e3, e4⟩ <;>
      (apply Fin.ext; omega)
  rw [mem_rows_iff h3, List.mem_flatMap]
  constructor
  · rintro ⟨n, _, hn⟩
    unfold oneSpec at hn
    split at hn
    · cases hn
    · rename_i ha
      have ha' : active n = true := by simpa using ha
      split at hn
      · rename_i hj
        simp only [List.mem_singleton, Prod.mk.injEq] at hn
        obtain ⟨e1, e2, rfl⟩ := hn
        exact ⟨rfl, n, ha', by omega, .inr ⟨hj, by omega⟩⟩
      · rename_i hj
        have hj' : active (d n) = true := by simpa using hj
        obtain ⟨m, hm, he⟩ := List.mem_map.1 hn
        simp only [Prod.mk.injEq] at he
        obtain ⟨e1, e2, rfl⟩ := he
        simp only [List.mem_filter, List.mem_finRange, true_and, decide_eq_true_eq] at hm
        exact ⟨rfl, m, hm.1, by omega, .inl ⟨by rw [hdd m n hm.2]; exact hj', by omega⟩⟩
  · rintro ⟨rfl, m, hm, rfl, ⟨hj, rfl⟩ | ⟨hj, rfl⟩⟩
    · refine ⟨m, List.mem_finRange m, ?_⟩
      unfold oneSpec
      rw [if_neg (by simp [hm]), if_neg (by simp [hj])]
      exact List.mem_map.2 ⟨m, by simp [hm], by simp⟩
    · refine ⟨m, List.mem_finRange m, ?_⟩
      unfold oneSpec
      rw [if_neg (by simp [hm]), if_pos hj]
      simp

/-- **C62.** Without a boundary, with flow directions that are cell numbers: the links are exactly the
pairs (cell, cell it flows to), one-based, with fraction 1. -/
theorem C62_no_boundary (hd : Legal o.fdir d)
    (h : getCascades limit nbs o arg (fun _ => true) false = .ok (o', rows)) (u v : ℤ) (p : K) :
    (∃ s, (⟨u, v, p, s⟩ : Row K) ∈ rows) ↔
      p = 1 ∧ ∃ m : Fin N, u = ((m : ℕ) : ℤ) + 1 ∧ v = ((d m : ℕ) : ℤ) + 1 := by
  rw [C62_links hd.resolves (fun n => by rw [hd n]; omega) h]
  constructor
  · rintro ⟨rfl, m, _, rfl, ⟨_, rfl⟩ | ⟨h, _⟩⟩
    · exact ⟨rfl, m, rfl, by rw [hd m]⟩
    · cases h
  · rintro ⟨rfl, m, rfl, rfl⟩
    exact ⟨rfl, m, rfl, by rw [hd m], .inl ⟨rfl, rfl⟩⟩

/-! ### C63, C64 -/

section Many

variable {fdir sa : Fin N → ℤ} {links : List (ℤ × ℤ × K)}

/-- the links contributed by one iteration -/
def manySpec (fdir : Fin N → ℤ) (d : Fin N → Fin N) (active : Fin N → Bool) (sa : Fin N → ℤ)
    (nbs : Fin N → List (Fin N × Option K)) (n : Fin N) : List (ℤ × ℤ × K) :=
  if active n = false then []
  else if sa n > 0 then
    [(((n : ℕ) : ℤ), if active (d n) = false then ((n : ℕ) : ℤ) else fdir n, 1)]
  else landLinks (masked fdir active) (nbs n) n

theorem manyToMany_ok (hd : Resolves fdir d) (h9 : ∀ n, fdir n ≠ -9) :
    manyToMany fdir active sa nbs = .ok ((List.finRange N).flatMap (manySpec fdir d active sa nbs)) := by
  apply collect_ok
  intro n _
  unfold manyLinks manySpec
  by_cases ha : active n = false
  · rw [if_pos ((masked_eq h9).2 ha), if_pos ha]
  · have ha' : active n = true := by simpa using ha
    rw [if_neg (fun h => ha ((masked_eq h9).1 h)), if_neg ha]
    split
    · rw [masked_active ha', hd.pyIndex, Res.bind_ok]
      by_cases hj : active (d n) = false
      · rw [if_pos ((masked_eq h9).2 hj), if_pos hj]
      · rw [if_neg (fun h => hj ((masked_eq h9).1 h)), if_neg hj]
    · rfl

theorem manySpec_up {n : Fin N} {l : ℤ × ℤ × K} (h : l ∈ manySpec fdir d active sa nbs n) :
    l.1 = ((n : ℕ) : ℤ) := by
  unfold manySpec at h
  split at h
  · cases h
  · split at h
    · rw [List.mem_singleton] at h; rw [h]
    · unfold landLinks at h
      obtain ⟨e, _, rfl⟩ := List.mem_map.1 h; rfl

/-- the links of one cell -/
theorem links_of (hd : Resolves fdir d) (h9 : ∀ n, fdir n ≠ -9)
    (h : manyToMany fdir active sa nbs = .ok links) (n : Fin N) :
    links.filter (fun l => l.1 = ((n : ℕ) : ℤ)) = manySpec fdir d active sa nbs n := by
  rw [manyToMany_ok hd h9] at h
  cases h
  have key : ∀ l : List (Fin N), l.Nodup →
      (l.flatMap (manySpec fdir d active sa nbs)).filter (fun x => x.1 = ((n : ℕ) : ℤ)) =
        if n ∈ l then manySpec fdir d active sa nbs n else [] := by
    intro l
    induction l with
    | nil => intro _; rfl
    | cons a l ih =>
      intro hl
      rw [List.nodup_cons] at hl
      rw [List.flatMap_cons, List.filter_append, ih hl.2]
      by_cases ha : a = n
      · subst ha
        rw [if_neg hl.1, if_pos (by simp), List.append_nil, List.filter_eq_self]
        intro x hx
        simpa using manySpec_up hx
      · have : (manySpec fdir d active sa nbs a).filter (fun x => x.1 = ((n : ℕ) : ℤ)) = [] := by
          rw [List.filter_eq_nil_iff]
          intro x hx hc
          rw [decide_eq_true_eq, manySpec_up hx] at hc
          exact ha (Fin.ext (by omega))
        rw [this, List.nil_append]
        simp [Ne.symm ha]
  rw [key _ (List.nodup_finRange N), if_pos (List.mem_finRange n)]

variable [IsStrictOrderedRing K]

theorem absSum_nonneg (l : List (Fin N × K)) : 0 ≤ absSum l := by
  unfold absSum
  apply List.sum_nonneg
  intro x hx
  obtain ⟨e, _, rfl⟩ := List.mem_map.1 hx
  exact abs_nonneg _

theorem absSum_pos {l : List (Fin N × K)} {e : Fin N × K} (he : e ∈ l) (h : 0 < |e.2|) : 0 < absSum l := by
  induction l with
  | nil => cases he
  | cons a l ih =>
    unfold absSum at *
    rw [List.map_cons, List.sum_cons]
    have h1 : 0 ≤ (l.map (fun e => |e.2|)).sum := absSum_nonneg l
    have h2 : 0 ≤ |a.2| := abs_nonneg _
    rcases List.mem_cons.1 he with rfl | he
    · linarith
    · have := ih he
      linarith

/-- among fewer than 100 shares one exceeds one percent -/
theorem exists_share {l : List (Fin N × K)} (hl : l.length < 100) (hS : 0 < absSum l) :
    ∃ e ∈ l, 1 / 100 < |e.2| / absSum l := by
  by_contra hc
  push Not at hc
  have hle : ∀ l' : List (Fin N × K), (∀ e ∈ l', |e.2| / absSum l ≤ 1 / 100) →
      absSum l' ≤ l'.length * (absSum l / 100) := by
    intro l'
    induction l' with
    | nil => intro _; simp [absSum]
    | cons a l' ih =>
      intro h
      have h1 := ih (fun e he => h e (by simp [he]))
      have h2 := h a (by simp)
      rw [div_le_iff₀ hS] at h2
      have : absSum (a :: l') = |a.2| + absSum l' := by simp [absSum]
      rw [this, List.length_cons]
      push_cast
      linarith
  have h1 := hle l hc
  have h2 : (l.length : K) ≤ 99 := by
    have : l.length ≤ 99 := by omega
    exact_mod_cast this
  have h3 : (l.length : K) * (absSum l / 100) ≤ 99 * (absSum l / 100) :=
    mul_le_mul_of_nonneg_right h2 (by linarith)
  linarith

/-- shares of a list with positive sum add up to one -/
theorem sum_shares {l : List (Fin N × K)} (hS : 0 < absSum l) :
    (l.map (fun e => |e.2| / absSum l)).sum = 1 := by
  have : ∀ (T : K) (l' : List (Fin N × K)), (l'.map (fun e => |e.2| / T)).sum = absSum l' / T := by
    intro T l'
    induction l' with
    | nil => simp [absSum]
    | cons a l' ih =>
      have h : absSum (a :: l') = |a.2| + absSum l' := by simp [absSum]
      rw [List.map_cons, List.sum_cons, ih, h, add_div]
  rw [this]
  exact div_self hS.ne'

theorem mem_candidates {l : List (Fin N × Option K)} {c : Fin N} {s : K} :
    (c, s) ∈ candidates l ↔ (c, some s) ∈ l ∧ s ≤ 0 := by
  unfold candidates
  rw [List.mem_filterMap]
  constructor
  · rintro ⟨⟨c', o⟩, he, h⟩
    cases o with
    | none => cases h
    | some s' =>
      dsimp only at h
      split at h
      · simp only [Option.some.injEq, Prod.mk.injEq] at h
        obtain ⟨rfl, rfl⟩ := h
        exact ⟨he, by assumption⟩
      · cases h
  · rintro ⟨h1, h2⟩
    exact ⟨_, h1, by simp [h2]⟩

/-- **C63** (partial). For every active landscape cell with a strictly lower neighbour that does not
itself drain into cell 0, and fewer than 100 non-higher neighbours, the fractions of its many-to-many
links are all positive and sum to 1.  Missing: cells all of whose lower neighbours drain into cell 0,
for which the claim is false (`C63_refuted`). -/
theorem C63_fractions_partial (hd : Resolves fdir d) (h9 : ∀ n, fdir n ≠ -9)
    (h : manyToMany fdir active sa nbs = .ok links) {n : Fin N} (ha : active n = true)
    (hland : ¬ sa n > 0) (hlow : ∃ c s, (c, some s) ∈ nbs n ∧ s < 0 ∧ masked fdir active c ≠ 0)
    (hfew : (candidates (nbs n)).length < 100) :
    (∀ l ∈ links, l.1 = ((n : ℕ) : ℤ) → 0 < l.2.2) ∧
      ((links.filter (fun l => l.1 = ((n : ℕ) : ℤ))).map (fun l => l.2.2)).sum = 1 := by
  have hl := links_of hd h9 h n
  have hspec : manySpec fdir d active sa nbs n = landLinks (masked fdir active) (nbs n) n := by
    unfold manySpec
    rw [if_neg (by simp [ha]), if_neg hland]
  rw [hspec] at hl
  set conns := (candidates (nbs n)).filter (fun e => masked fdir active e.1 ≠ 0) with hconns
  set kept := conns.filter (fun e => 1 / 100 < |e.2| / absSum conns) with hkept
  have hll : landLinks (masked fdir active) (nbs n) n =
      kept.map (fun e : Fin N × K => (((n : ℕ) : ℤ), ((e.1 : ℕ) : ℤ), |e.2| / absSum kept)) := rfl
  obtain ⟨c, s, hc, hs, hm⟩ := hlow
  have hin : (c, s) ∈ conns := by
    rw [hconns, List.mem_filter]
    exact ⟨mem_candidates.2 ⟨hc, hs.le⟩, by simpa using hm⟩
  have hS : 0 < absSum conns := absSum_pos hin (abs_pos.2 hs.ne)
  obtain ⟨e, he, hshare⟩ := exists_share (l := conns)
    (lt_of_le_of_lt (List.length_filter_le _ _) hfew) hS
  have hpos : ∀ x ∈ kept, 0 < |x.2| := by
    intro x hx
    rw [hkept, List.mem_filter, decide_eq_true_eq, lt_div_iff₀ hS] at hx
    have := hx.2
    have h1 : (0 : K) < 1 / 100 * absSum conns := mul_pos (by norm_num) hS
    linarith
  have hek : e ∈ kept := by
    rw [hkept, List.mem_filter]; exact ⟨he, by simpa using hshare⟩
  have hT : 0 < absSum kept := absSum_pos hek (hpos e hek)
  constructor
  · intro l hlm hl1
    have : l ∈ links.filter (fun l => l.1 = ((n : ℕ) : ℤ)) := by simp [hlm, hl1]
    rw [hl, hll] at this
    obtain ⟨x, hx, rfl⟩ := List.mem_map.1 this
    exact div_pos (hpos x hx) hT
  · rw [hl, hll, List.map_map]
    exact sum_shares hT

/-- **C64, what the code does (partial).** A link of a stream cell stays inside the basin; a link of
a landscape cell goes to a strictly lower neighbour — inside the basin or not — and never to a cell
that drains into cell 0. -/
theorem C64_links_partial (hd : Resolves fdir d) (h9 : ∀ n, fdir n ≠ -9)
    (h : manyToMany fdir active sa nbs = .ok links) {n : Fin N} {v : ℤ} {p : K}
    (hm : (((n : ℕ) : ℤ), v, p) ∈ links) :
    active n = true ∧
    (sa n > 0 → p = 1 ∧ ((active (d n) = true ∧ v = fdir n) ∨ (active (d n) = false ∧ v = ((n : ℕ) : ℤ)))) ∧
    (¬ sa n > 0 → ∃ c : Fin N, v = ((c : ℕ) : ℤ) ∧ masked fdir active c ≠ 0 ∧
      ∃ s, (c, some s) ∈ nbs n ∧ s < 0) := by
  have hl := links_of hd h9 h n
  have hmem : (((n : ℕ) : ℤ), v, p) ∈ manySpec fdir d active sa nbs n := by
    rw [← hl]; simp [hm]
  unfold manySpec at hmem
  split at hmem
  · cases hmem
  · rename_i ha
    refine ⟨by simpa using ha, ?_, ?_⟩
    · intro hs
      rw [if_pos hs, List.mem_singleton] at hmem
      simp only [Prod.mk.injEq, true_and] at hmem
      obtain ⟨hv, rfl⟩ := hmem
      refine ⟨rfl, ?_⟩
      split at hv
      · rename_i hj; exact .inr ⟨hj, hv⟩
      · rename_i hj; exact .inl ⟨by simpa using hj, hv⟩
    · intro hs
      rw [if_neg hs] at hmem
      unfold landLinks at hmem
      obtain ⟨⟨c, s⟩, he, heq⟩ := List.mem_map.1 hmem
      simp only [Prod.mk.injEq] at heq
      rw [List.mem_filter, decide_eq_true_eq] at he
      obtain ⟨he, hshare⟩ := he
      have hS := absSum_nonneg ((candidates (nbs n)).filter (fun e => masked fdir active e.1 ≠ 0))
      rw [List.mem_filter] at he
      obtain ⟨h1, h2⟩ := mem_candidates.1 he.1
      refine ⟨c, heq.2.1.symm, by simpa using he.2, s, h1, ?_⟩
      rcases h2.lt_or_eq with h3 | h3
      · exact h3
      · exfalso
        rw [h3] at hshare
        simp only [abs_zero, zero_div] at hshare
        norm_num at hshare

/-- **C64 is false of the code**: an active landscape cell whose only lower neighbour lies outside the
basin sends all its flow there, for every such cell of every grid. -/
theorem C64_leaves (hd : Resolves fdir d) (h9 : ∀ n, fdir n ≠ -9)
    (h : manyToMany fdir active sa nbs = .ok links) {n c : Fin N} (ha : active n = true)
    (hland : ¬ sa n > 0) (hc : active c = false) {s : K} (hs : s < 0)
    (hcand : candidates (nbs n) = [(c, s)]) :
    (((n : ℕ) : ℤ), ((c : ℕ) : ℤ), (1 : K)) ∈ links := by
  have hl := links_of hd h9 h n
  have : (((n : ℕ) : ℤ), ((c : ℕ) : ℤ), (1 : K)) ∈ manySpec fdir d active sa nbs n := by
    unfold manySpec
    rw [if_neg (by simp [ha]), if_neg hland]
    unfold landLinks
    have hm : masked fdir active c ≠ 0 := by rw [(masked_eq h9).2 hc]; decide
    rw [hcand, List.filter_cons_of_pos (by simpa using hm)]
    have hne : |s| ≠ 0 := (abs_pos.2 hs.ne).ne'
    simp only [List.filter_nil, absSum, List.map_cons, List.map_nil, List.sum_cons, List.sum_nil, add_zero]
    rw [List.filter_cons_of_pos (by rw [decide_eq_true_eq]; dsimp only; rw [div_self hne]; norm_num)]
    simp [div_self hne]
  rw [← hl] at this
  exact (List.mem_filter.1 this).1

end Many

/-- C64 on two cells: cell 0 is active landscape and lies above cell 1, which is outside the basin -/
theorem C64_refuted : ∃ rows, (getCascades (K := ℚ) 9 ![[(1, some (-1))], [(0, some 1)]]
      (⟨![1, 1], some ![0, 0], none⟩ : Obj 2) none ![true, false] true).map
        (fun r => r.2.map (fun x => (x.up, x.down, x.pct, x.strmseg))) = .ok rows ∧
      (1, 2, 1, 0) ∈ rows := ⟨[(1, 2, 1, 0)], by decide +kernel, by simp⟩

/-- C63 fails, and a good link is lost (C64), if the lower neighbour drains into cell 0: cell 2 is a
landscape cell above cell 1, which flows to cell 0; cell 2 gets no link at all. -/
theorem C63_refuted : (getCascades (K := ℚ) 9 ![[(1, some 1)], [(0, some (-1)), (2, some 1)], [(1, some (-1))]]
      (⟨![0, 0, 1], some ![1, 0, 0], none⟩ : Obj 3) none (fun _ => true) true).map
        (fun r => r.2.map (fun x => (x.up, x.down, x.pct, x.strmseg))) = .ok [(1, 1, 1, 1)] := by
  decide +kernel

/-! ### C76 -/

/-- **C76.** `hru_strmseg_down_id` of a link is the number the stream array holds at the receiving
cell — the array that the object holds afterwards if the connectivity had to be computed, and then it is
the reach number of C49, 0 exactly off the stream. -/
theorem C76_strmseg (hd : Resolves o.fdir d) {b : Bool} {sa : Fin N → ℤ} (hg : o.graph = none)
    (hsa : arg = some sa ∨ (arg = none ∧ o.streamArray = some sa))
    (h : getCascades limit nbs o arg active b = .ok (o', rows)) :
    ∃ sa', o'.streamArray = some sa' ∧ (∃ g, mf6 limit o.fdir sa = .ok (sa', g)) ∧
      (∀ n, sa' n = 0 ↔ sa n = 0) ∧
      ∀ row ∈ rows, ∃ j, pyIndex N (row.down - 1) = .ok j ∧ row.strmseg = sa' j ∧
        (row.strmseg = 0 ↔ sa j = 0) := by
  obtain ⟨sa', links, h1, h2, h3⟩ := getCascades_inv h
  have h3' := finishRows_inv h3
  have h1 : ((o.connectivity limit (some sa)).bind fun r => r.1.stream.map fun sa' => (r.1, sa')) = .ok (o', sa') := by
    unfold cascadeStreams at h1
    rcases hsa with rfl | ⟨rfl, hsa⟩
    · rw [hg] at h1
      simpa only [Res.bind_ok] using h1
    · unfold Obj.stream at h1 ⊢
      rw [hsa, hg] at h1
      simpa only [Res.bind_ok] using h1
  simp only [Obj.connectivity, Obj.source, Res.bind_ok, Obj.stream] at h1
  obtain ⟨⟨o1, g1⟩, hc, h1⟩ := Res.bind_eq_ok.1 h1
  obtain ⟨⟨sa1, g⟩, hm, he⟩ := Res.map_eq_ok.1 hc
  simp only [Prod.mk.injEq] at he
  obtain ⟨rfl, rfl⟩ := he
  simp only [Res.map_ok, Res.ok.injEq, Prod.mk.injEq] at h1
  obtain ⟨rfl, rfl⟩ := h1
  obtain ⟨L, hl, hm'⟩ := mf6_lift hm d
  obtain ⟨sa2, g2, e2, k0, k1, _⟩ := C49_reach_numbers (sa := sa) hd hl
  rw [hm'] at e2
  cases e2
  have hz : ∀ n, sa1 n = 0 ↔ sa n = 0 := by
    intro n
    refine ⟨fun h0 => ?_, k0 n⟩
    by_contra hn
    have := (k1 n hn).1
    omega
  refine ⟨sa1, rfl, ⟨g, hm⟩, hz, ?_⟩
  intro row hrow
  have : ∃ l ∈ links, row.up = l.1 + 1 ∧ row.down = l.2.1 + 1 ∧
      row.pct = l.2.2 ∧ ∃ j, pyIndex N l.2.1 = .ok j ∧ row.strmseg = sa1 j := by
    clear h3 h2 h
    induction h3' with
    | nil => cases hrow
    | cons hx _ ih =>
      rcases List.mem_cons.1 hrow with rfl | hrow
      · exact ⟨_, by simp, hx⟩
      · obtain ⟨l, hl, h'⟩ := ih hrow
        exact ⟨l, by simp [hl], h'⟩
  obtain ⟨l, _, _, hdn, _, j, hj, hs⟩ := this
  refine ⟨j, by rw [hdn]; simpa using hj, hs, ?_⟩
  rw [hs]; exact hz j

/-- **C76.** With a connectivity computed before, the number is read from the array given or stored. -/
theorem C76_cached {b : Bool} {sa : Fin N → ℤ} (hg : o.graph ≠ none)
    (hsa : arg = some sa ∨ (arg = none ∧ o.streamArray = some sa))
    (h : getCascades limit nbs o arg active b = .ok (o', rows)) :
    o' = o ∧ ∀ row ∈ rows, ∃ j, pyIndex N (row.down - 1) = .ok j ∧ row.strmseg = sa j := by
  obtain ⟨sa', links, h1, h2, h3⟩ := getCascades_inv h
  have h3' := finishRows_inv h3
  obtain ⟨g, hg'⟩ := Option.ne_none_iff_exists'.1 hg
  have : o' = o ∧ sa' = sa := by
    unfold cascadeStreams Obj.stream at h1
    rcases hsa with rfl | ⟨rfl, hsa⟩
    · simp only [Res.bind_ok, hg', Res.ok.injEq, Prod.mk.injEq] at h1
      exact ⟨h1.1.symm, h1.2.symm⟩
    · simp only [hsa, Res.bind_ok, hg', Res.ok.injEq, Prod.mk.injEq] at h1
      exact ⟨h1.1.symm, h1.2.symm⟩
  obtain ⟨rfl, rfl⟩ := this
  refine ⟨rfl, ?_⟩
  intro row hrow
  have : ∃ l ∈ links, row.down = l.2.1 + 1 ∧ ∃ j, pyIndex N l.2.1 = .ok j ∧ row.strmseg = sa' j := by
    clear h3 h2 h
    induction h3' with
    | nil => cases hrow
    | cons hx _ ih =>
      rcases List.mem_cons.1 hrow with rfl | hrow
      · exact ⟨_, by simp, hx.2.1, hx.2.2.2⟩
      · obtain ⟨l, hl, h'⟩ := ih hrow
        exact ⟨l, by simp [hl], h'⟩
  obtain ⟨l, _, hdn, j, hj, hs⟩ := this
  exact ⟨j, by rw [hdn]; simpa using hj, hs⟩

/-! ### Concrete cases -/

/-- cell 3 is a stream outlet; the others are landscape, and cell 2 lies 3 above cell 0 and 1 above
cell 1 -/
example : (getCascades (K := ℚ) 9
      ![[(3, some (-1)), (2, some 3)], [(3, some (-1)), (2, some 1)], [(0, some (-3)), (1, some (-1))], []]
      (⟨![3, 3, 3, 3], some ![0, 0, 0, 1], none⟩ : Obj 4) none (fun _ => true) true).map
        (fun r => r.2.map (fun x => (x.up, x.down, x.pct, x.strmseg))) =
      .ok [(1, 4, 1, 1), (2, 4, 1, 1), (3, 1, 3/4, 0), (3, 2, 1/4, 0), (4, 4, 1, 1)] := by
  decide +kernel

example : ¬ Function.Injective exObj.fdir := by
  intro h
  have : (0 : Fin 3) = 1 := h (by decide)
  revert this; decide

end Dany.Casc
