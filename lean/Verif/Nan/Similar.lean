import Verif.Nan.Props
import Verif.Flood.Error
import Mathlib.Tactic.FinCases
import Mathlib.Tactic.NormNum

/-!
# C180: `fill_nan_values` under changes of the data

Two DEMs with the same gaps.  A relation between numbers that all four aggregates keep is kept by the whole
procedure; conversions `z ↦ a z + c` and `≤` are such relations.
-/

namespace Dany.Nan

open Function Flood

variable {N : ℕ} {K : Type*} [Field K] [LinearOrder K] [IsStrictOrderedRing K]

/-- a relation between numbers kept by sums, means of two, sorting, minimum and maximum -/
private structure Kept (R : K → K → Prop) : Prop where
  mean : ∀ {l l' : List K}, List.Forall₂ R l l' → l ≠ [] → R (l.sum / (l.length : K)) (l'.sum / (l'.length : K))
  sort : ∀ {l l' : List K}, List.Forall₂ R l l' →
    List.Forall₂ R (l.insertionSort (· ≤ ·)) (l'.insertionSort (· ≤ ·))
  min : ∀ {x x' y y' : K}, R x x' → R y y' → R (min x y) (min x' y')
  max : ∀ {x x' y y' : K}, R x x' → R y y' → R (max x y) (max x' y')

/-- the same gaps, and related numbers -/
def Rel (R : K → K → Prop) : Option K → Option K → Prop
  | none, none => True
  | some x, some y => R x y
  | _, _ => False

/-- related results: the same exception, or both run for ever, or both return -/
def Both {α β : Type*} (R : α → β → Prop) : Res α → Res β → Prop
  | .ok x, .ok y => R x y
  | .err e, .err e' => e = e'
  | .hang, .hang => True
  | _, _ => False

omit [LinearOrder K] [IsStrictOrderedRing K] in
private theorem valid_rel {R : K → K → Prop} {l l' : List (Option K)} (h : List.Forall₂ (Rel R) l l') :
    List.Forall₂ R (valid l) (valid l') := by
  induction h with
  | nil => exact .nil
  | @cons x y l l' hxy _ ih =>
    cases x <;> cases y <;> simp only [Rel] at hxy
    · simpa [valid] using ih
    · simpa [valid] using ⟨hxy, ih⟩

omit [LinearOrder K] [IsStrictOrderedRing K] [Field K] in
private theorem getD_rel {R : K → K → Prop} {l l' : List K} (h : List.Forall₂ R l l') (i : ℕ) (hi : i < l.length)
    (d : K) : R (l.getD i d) (l'.getD i d) := by
  have hi' : i < l'.length := h.length_eq ▸ hi
  simp only [List.getD_eq_getElem?_getD, List.getElem?_eq_getElem hi, List.getElem?_eq_getElem hi', Option.getD_some]
  exact h.get hi hi'

omit [IsStrictOrderedRing K] [Field K] [LinearOrder K] in
private theorem foldl_rel {R : K → K → Prop} {f : K → K → K} (hf : ∀ {x x' y y'}, R x x' → R y y' → R (f x y) (f x' y'))
    {l l' : List K} (h : List.Forall₂ R l l') {x x' : K} (hx : R x x') : R (l.foldl f x) (l'.foldl f x') := by
  induction h generalizing x x' with
  | nil => exact hx
  | cons hxy _ ih => exact ih (hf hx hxy)

omit [IsStrictOrderedRing K] in
private theorem aggregate_rel {R : K → K → Prop} (hR : Kept R) (method : String) {l l' : List (Option K)}
    (h : List.Forall₂ (Rel R) l l') : Both (Rel R) (aggregate method l) (aggregate method l') := by
  have hv := valid_rel h
  have hnil : l = [] ↔ l' = [] := by cases h <;> simp
  unfold aggregate
  split_ifs with h1 h2 h3 h4
  · show Rel R (nanMean l) (nanMean l')
    unfold nanMean
    rcases hv' : valid l with _ | ⟨a, t⟩ <;> rcases hv'' : valid l' with _ | ⟨a', t'⟩ <;> rw [hv', hv''] at hv
    · trivial
    · cases hv
    · cases hv
    · exact hR.mean hv (by simp)
  · show Rel R (nanMedian l) (nanMedian l')
    unfold nanMedian
    have hs := hR.sort hv
    have hlen := hs.length_eq
    dsimp only
    rw [← hlen]
    split_ifs with h5 h6
    · trivial
    · exact getD_rel hs _ (by omega) 0
    · have e1 := getD_rel hs ((List.insertionSort (· ≤ ·) (valid l)).length / 2 - 1) (by omega) 0
      have e2 := getD_rel hs ((List.insertionSort (· ≤ ·) (valid l)).length / 2) (by omega) 0
      have := hR.mean (.cons e1 (.cons e2 .nil)) (by simp)
      simpa [Rel, one_add_one_eq_two] using this
  · unfold nanMin
    by_cases hn : l = []
    · rw [if_pos hn, if_pos (hnil.1 hn)]; rfl
    · rw [if_neg hn, if_neg (fun e => hn (hnil.2 e))]
      rcases hv' : valid l with _ | ⟨a, t⟩ <;> rcases hv'' : valid l' with _ | ⟨a', t'⟩ <;> rw [hv', hv''] at hv
      · trivial
      · cases hv
      · cases hv
      · cases hv with
        | cons ha ht => exact foldl_rel hR.min ht ha
  · unfold nanMax
    by_cases hn : l = []
    · rw [if_pos hn, if_pos (hnil.1 hn)]; rfl
    · rw [if_neg hn, if_neg (fun e => hn (hnil.2 e))]
      rcases hv' : valid l with _ | ⟨a, t⟩ <;> rcases hv'' : valid l' with _ | ⟨a', t'⟩ <;> rw [hv', hv''] at hv
      · trivial
      · cases hv
      · cases hv
      · cases hv with
        | cons ha ht => exact foldl_rel hR.max ht ha
  · rfl

omit [IsStrictOrderedRing K] in
private theorem nanLoop_rel {R : K → K → Prop} (hR : Kept R) (method : String) (nbr : Fin N → List ℕ) (fuel : ℕ)
    (st : List (Fin N)) {d d' : Fin N → Option K} (hd : ∀ n, Rel R (d n) (d' n)) :
    Both (fun o o' : Fin N → Option K => ∀ n, Rel R (o n) (o' n)) (nanLoop method nbr fuel st d)
      (nanLoop method nbr fuel st d') := by
  induction fuel generalizing st d d' with
  | zero => trivial
  | succ k ih =>
    cases st with
    | nil => exact hd
    | cons node rest =>
      simp only [nanLoop]
      cases indexAll N (nbr node) with
      | err e => exact rfl
      | hang => trivial
      | ok nn =>
        simp only [Res.bind_ok]
        have ha := aggregate_rel hR method (l := nn.map d) (l' := nn.map d')
          (by rw [List.forall₂_map_left_iff, List.forall₂_map_right_iff, List.forall₂_same]; exact fun n _ => hd n)
        revert ha
        cases aggregate method (nn.map d) <;> cases aggregate method (nn.map d') <;> intro ha <;>
          simp only [Both] at ha
        · rename_i x y
          simp only [Res.bind_ok]
          cases x <;> cases y <;> simp only [Rel] at ha
          · exact ih _ hd
          · apply ih
            intro n
            by_cases hn : n = node
            · subst hn; rw [update_self, update_self]; exact ha
            · rw [update_of_ne hn, update_of_ne hn]; exact hd n
        · exact ha
        · trivial

omit [IsStrictOrderedRing K] in
private theorem fillNan_rel {R : K → K → Prop} (hR : Kept R) (method : String) (nbr : Fin N → List ℕ) (fuel : ℕ)
    {d d' : Fin N → Option K} (hd : ∀ n, Rel R (d n) (d' n)) :
    Both (fun o o' : Fin N → Option K => ∀ n, Rel R (o n) (o' n)) (fillNan fuel method nbr d)
      (fillNan fuel method nbr d') := by
  unfold fillNan
  have e : (fun n => (d' n).isNone) = fun n => (d n).isNone := by
    funext n
    have := hd n
    revert this
    cases d n <;> cases d' n <;> simp [Rel]
  rw [e]
  exact nanLoop_rel hR method nbr fuel _ hd

/-! ### units and datum -/

private theorem orderedInsert_map {a c : K} (ha : 0 < a) (x : K) (l : List K) :
    (l.map fun z => a * z + c).orderedInsert (· ≤ ·) (a * x + c) =
      (l.orderedInsert (· ≤ ·) x).map fun z => a * z + c := by
  induction l with
  | nil => rfl
  | cons y l ih =>
    simp only [List.map_cons, List.orderedInsert]
    have : a * x + c ≤ a * y + c ↔ x ≤ y := by
      rw [add_le_add_iff_right, mul_le_mul_iff_right₀ ha]
    by_cases h : x ≤ y
    · rw [if_pos h, if_pos (this.2 h)]; rfl
    · rw [if_neg h, if_neg (fun e => h (this.1 e)), ih]; rfl

private theorem kept_units {a c : K} (ha : 0 < a) : Kept fun x y : K => y = a * x + c := by
  have hmap : ∀ {l l' : List K}, List.Forall₂ (fun x y => y = a * x + c) l l' → l' = l.map fun z => a * z + c := by
    intro l l' h
    induction h with
    | nil => rfl
    | cons h _ ih => rw [h, ih]; rfl
  have hback : ∀ l : List K, List.Forall₂ (fun x y => y = a * x + c) l (l.map fun z => a * z + c) := by
    intro l
    rw [List.forall₂_map_right_iff, List.forall₂_same]
    exact fun _ _ => rfl
  have hmono : Monotone fun z : K => a * z + c := fun x y h => by
    have := mul_le_mul_of_nonneg_left h ha.le
    simpa using this
  refine ⟨fun {l l'} h hne => ?_, fun {l l'} h => ?_, fun {x x' y y'} h1 h2 => ?_, fun {x x' y y'} h1 h2 => ?_⟩
  · rw [hmap h]
    have hs : ∀ l : List K, (l.map fun z => a * z + c).sum = a * l.sum + l.length * c := by
      intro l
      induction l with
      | nil => simp
      | cons x l ih => simp only [List.map_cons, List.sum_cons, ih, List.length_cons]; push_cast; ring
    rw [hs, List.length_map]
    have : (l.length : K) ≠ 0 := by
      have := List.length_pos_of_ne_nil hne
      exact_mod_cast this.ne'
    field_simp
  · rw [hmap h]
    have : (l.map fun z => a * z + c).insertionSort (· ≤ ·) = (l.insertionSort (· ≤ ·)).map fun z => a * z + c := by
      clear h
      induction l with
      | nil => rfl
      | cons x l ih =>
        simp only [List.map_cons, List.insertionSort_cons] at ih ⊢
        rw [ih, orderedInsert_map ha]
    rw [this]
    exact hback _
  · subst h1 h2; exact (hmono.map_min (a := x) (b := y)).symm
  · subst h1 h2; exact (hmono.map_max (a := x) (b := y)).symm

/-- **C180** (units).  Filling the gaps of a DEM given in other units above another datum gives the result in the
other units: the same call, outcome for outcome. -/
theorem C180_units {a : K} (ha : 0 < a) (c : K) (fuel : ℕ) (method : String) (nbr : Fin N → List ℕ)
    (dem : Fin N → Option K) :
    fillNan fuel method nbr (fun n => (dem n).map fun z => a * z + c) =
      (fillNan fuel method nbr dem).map fun out n => (out n).map fun z => a * z + c := by
  have h := fillNan_rel (kept_units (c := c) ha) method nbr fuel (d := dem)
    (d' := fun n => (dem n).map fun z => a * z + c) (fun n => by cases dem n <;> simp [Rel])
  revert h
  cases fillNan fuel method nbr dem <;>
    cases fillNan fuel method nbr (fun n => (dem n).map fun z => a * z + c) <;> intro h <;> simp only [Both] at h
  · rename_i o o'
    simp only [Res.map_ok, Res.ok.injEq]
    funext n
    have := h n
    revert this
    cases o n <;> cases o' n <;> simp [Rel]
  · rw [h]; rfl
  · rfl

/-! ### monotonicity -/

private theorem orderedInsert_le {x y : K} (hxy : x ≤ y) {l l' : List K} (h : List.Forall₂ (· ≤ ·) l l')
    (hs : l.Pairwise (· ≤ ·)) (hs' : l'.Pairwise (· ≤ ·)) :
    List.Forall₂ (· ≤ ·) (l.orderedInsert (· ≤ ·) x) (l'.orderedInsert (· ≤ ·) y) := by
  induction h generalizing x y with
  | nil => exact .cons hxy .nil
  | @cons b b' l l' hb hl ih =>
    have hs1 := List.pairwise_cons.1 hs
    have hs2 := List.pairwise_cons.1 hs'
    have ins : ∀ {z : K} {t : List K}, (∀ w ∈ t, z ≤ w) → t.orderedInsert (· ≤ ·) z = z :: t := by
      intro z t ht
      cases t with
      | nil => rfl
      | cons w t => simp [List.orderedInsert, ht w (by simp)]
    simp only [List.orderedInsert]
    by_cases h1 : x ≤ b <;> by_cases h2 : y ≤ b'
    · rw [if_pos h1, if_pos h2]
      exact .cons hxy (.cons hb hl)
    · rw [if_pos h1, if_neg h2, ← ins hs1.1]
      exact .cons (h1.trans hb) (ih (hb.trans (not_le.1 h2).le) hs1.2 hs2.2)
    · rw [if_neg h1, if_pos h2, ← ins hs2.1]
      exact .cons ((not_le.1 h1).le.trans hxy) (ih (hxy.trans h2) hs1.2 hs2.2)
    · rw [if_neg h1, if_neg h2]
      exact .cons hb (ih hxy hs1.2 hs2.2)

private theorem kept_le : Kept fun x y : K => x ≤ y := by
  refine ⟨fun {l l'} h hne => ?_, fun {l l'} h => ?_, min_le_min, max_le_max⟩
  · have hs : l.sum ≤ l'.sum := List.Forall₂.sum_le_sum h
    rw [h.length_eq]
    exact div_le_div_of_nonneg_right hs (by positivity)
  · induction h with
    | nil => exact .nil
    | cons hxy _ ih =>
      rw [List.insertionSort_cons, List.insertionSort_cons]
      exact orderedInsert_le hxy ih (List.pairwise_insertionSort _ _) (List.pairwise_insertionSort _ _)

/-- **C180** (monotone).  If a DEM with the same gaps is nowhere lower, the filled DEM is nowhere lower. -/
theorem C180_monotone {fuel : ℕ} {method : String} {nbr : Fin N → List ℕ} {dem dem' : Fin N → Option K}
    (hle : ∀ n, Rel (· ≤ ·) (dem n) (dem' n)) {out : Fin N → Option K} (h : fillNan fuel method nbr dem = .ok out) :
    ∃ out', fillNan fuel method nbr dem' = .ok out' ∧ ∀ n, ∃ x y, out n = some x ∧ out' n = some y ∧ x ≤ y := by
  have hb := fillNan_rel kept_le method nbr fuel hle
  rw [h] at hb
  cases h' : fillNan fuel method nbr dem' with
  | err e => rw [h'] at hb; exact hb.elim
  | hang => rw [h'] at hb; exact hb.elim
  | ok out' =>
    rw [h'] at hb
    refine ⟨out', rfl, fun n => ?_⟩
    obtain ⟨x, hx⟩ : ∃ x, out n = some x := by
      have := nanLoop_inv (method := method) (nbr := nbr) (fun st d => ∀ c, d c = none → c ∈ st) ?_ fuel _ _ out ?_ h
      · cases ho : out n with
        | none => exact absurd (this n ho) (by simp)
        | some v => exact ⟨v, rfl⟩
      · rintro node rest d nn w h1 _ _ c hc
        by_cases hcn : c = node
        · subst hcn; rw [update_self] at hc; cases hc
        · rw [update_of_ne hcn] at hc
          exact (List.mem_cons.1 (h1 c hc)).resolve_left hcn
      · intro c hc
        simp [hc]
    have := hb n
    rw [hx] at this
    cases hy : out' n with
    | none => rw [hy] at this; exact this.elim
    | some y => rw [hy] at this; exact ⟨x, y, hx, rfl, this⟩

/-- **C180** (errors).  If two DEMs with the same gaps differ by at most `δ`, so do the filled DEMs. -/
theorem C180_error {fuel : ℕ} {method : String} {nbr : Fin N → List ℕ} {dem dem' : Fin N → Option K} {δ : K}
    (hδ : ∀ n, Rel (fun x y => |x - y| ≤ δ) (dem n) (dem' n)) {out : Fin N → Option K}
    (h : fillNan fuel method nbr dem = .ok out) :
    ∃ out', fillNan fuel method nbr dem' = .ok out' ∧
      ∀ n, ∃ x y, out n = some x ∧ out' n = some y ∧ |x - y| ≤ δ := by
  have shift : ∀ {d : Fin N → Option K} {o : Fin N → Option K}, fillNan fuel method nbr d = .ok o →
      fillNan fuel method nbr (fun n => (d n).map fun z => 1 * z + δ) = .ok fun n => (o n).map fun z => 1 * z + δ := by
    intro d o hd
    rw [C180_units one_pos δ fuel method nbr d, hd]; rfl
  have h1 : ∀ n, Rel (· ≤ ·) (dem' n) ((dem n).map fun z => 1 * z + δ) := by
    intro n
    have := hδ n
    revert this
    cases dem n <;> cases dem' n <;> simp only [Rel, Option.map, imp_self, one_mul]
    intro h
    have := (abs_sub_le_iff.1 h).2
    linarith
  have h2 : ∀ n, Rel (· ≤ ·) (dem n) ((dem' n).map fun z => 1 * z + δ) := by
    intro n
    have := hδ n
    revert this
    cases dem n <;> cases dem' n <;> simp only [Rel, Option.map, imp_self, one_mul]
    intro h
    have := (abs_sub_le_iff.1 h).1
    linarith
  obtain ⟨o1, ho1, hle1⟩ := C180_monotone h2 h
  obtain ⟨out', ho'⟩ : ∃ out', fillNan fuel method nbr dem' = .ok out' := by
    have hu := C180_units one_pos δ fuel method nbr dem'
    rw [ho1] at hu
    cases e : fillNan fuel method nbr dem' with
    | err e' => rw [e] at hu; cases hu
    | hang => rw [e] at hu; cases hu
    | ok o => exact ⟨o, rfl⟩
  refine ⟨out', ho', fun n => ?_⟩
  rw [shift ho'] at ho1
  cases ho1
  obtain ⟨o2, ho2, hle2⟩ := C180_monotone h1 ho'
  rw [shift h] at ho2
  cases ho2
  obtain ⟨x, y, hx, hy, hxy⟩ := hle1 n
  obtain ⟨x', y', hx', hy', hxy'⟩ := hle2 n
  simp only [hx'] at hy
  simp only [hx] at hy'
  simp only [Option.map, Option.some.injEq, one_mul] at hy hy'
  exact ⟨x, x', hx, hx', abs_sub_le_iff.2 ⟨by linarith, by linarith⟩⟩

/-- **C180** (filling gaps, then sinks).  Two DEMs with the same gaps that differ by at most `δ` give conditioned
surfaces that differ by at most `δ` (method 'complete'). -/
theorem C180_chain {fuel fuel' fuel'' : ℕ} {method : String} {g : Grid N} {dem dem' : Fin N → Option K} {δ eps flood : K}
    (hδ : ∀ n, Rel (fun x y => |x - y| ≤ δ) (dem n) (dem' n)) {f f' out out' : Fin N → K} {fmeth : String}
    (hn : fillNan fuel method g.nbr dem = .ok fun n => some (f n))
    (hn' : fillNan fuel method g.nbr dem' = .ok fun n => some (f' n)) (hm : fmeth.toLower = "complete")
    (h : fillSinks fuel' (· + eps) flood g f none fmeth = .ok out)
    (h' : fillSinks fuel'' (· + eps) flood g f' none fmeth = .ok out') (n : Fin N) : |out n - out' n| ≤ δ := by
  obtain ⟨o, ho, he⟩ := C180_error hδ hn
  rw [hn'] at ho
  cases ho
  refine C174_complete hm (fun m => ?_) h h' n
  obtain ⟨x, y, hx, hy, hxy⟩ := he m
  cases hx; cases hy
  exact hxy

/-! ### a concrete case: a gap of two cells -/

private def gapped : Fin 4 → Option ℚ := ![some 5, none, none, some 8]
private def gapped' : Fin 4 → Option ℚ := ![some 6, none, none, some 7]

example : fillNan 5 "median" (queen 1 4) gapped = .ok ![some 5, some (13 / 2), some 8, some 8] ∧
    fillNan 5 "median" (queen 1 4) gapped' = .ok ![some 6, some (13 / 2), some 7, some 7] ∧
    ∀ n, Rel (fun x y : ℚ => |x - y| ≤ 1) (gapped n) (gapped' n) := by
  refine ⟨by decide +kernel, by decide +kernel, fun n => ?_⟩
  fin_cases n <;> norm_num [gapped, gapped', Rel]

end Dany.Nan
