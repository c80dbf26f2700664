import Verif.Acc.Props
import Mathlib.Algebra.Group.Prod
import Mathlib.Algebra.Order.Group.Defs
import Mathlib.Algebra.Order.Ring.Rat

/-!
# C136: flow accumulation is linear in the areas
-/

namespace Dany.Acc

open Function

variable {N : ℕ} {K L : Type*}

section Hom

variable [Add K] [Zero K] [One K] [Add L] [Zero L] [One L]

/-- two runs that differ in the areas only -/
def Rel (R : K → L → Prop) (s : State N K) (t : State N L) : Prop :=
  s.nidp = t.nidp ∧ ∀ n, R (s.area n) (t.area n)

/-- the same outcome -/
def RelRes (R : K → L → Prop) : Res (State N K) → Res (State N L) → Prop
  | .ok s, .ok t => Rel R s t
  | .err e, .err e' => e = e'
  | .hang, .hang => True
  | _, _ => False

theorem walk_rel {R : K → L → Prop} (hadd : ∀ a a' b b', R a a' → R b b' → R (a + b) (a' + b')) (fdir : Fin N → ℤ)
    (fuel : ℕ) (n : Fin N) (x : K) (x' : L) (a : K) (a' : L) (ha : R a a') (s : State N K) (t : State N L)
    (h : Rel R s t) : RelRes R (walk fdir fuel n x a s) (walk fdir fuel n x' a' t) := by
  induction fuel generalizing n x x' a a' s t with
  | zero => trivial
  | succ k ih =>
    unfold walk
    obtain ⟨h1, h2⟩ := h
    have hnew : ∀ m, R (update s.area n (s.area n + a) m) (update t.area n (t.area n + a') m) := by
      intro m
      by_cases hm : m = n
      · subst hm; rw [update_self, update_self]; exact hadd _ _ _ _ (h2 _) ha
      · rw [update_of_ne hm, update_of_ne hm]; exact h2 m
    dsimp only
    rw [h1]
    split
    · exact ⟨rfl, hnew⟩
    · cases hp : pyIndex N (fdir n) with
      | ok m =>
        rw [Res.bind_ok, Res.bind_ok]
        exact ih m _ _ _ _ (hnew n) _ _ ⟨rfl, hnew⟩
      | err e => rfl
      | hang => trivial

theorem loop_rel {R : K → L → Prop} (h0 : R 0 0) (hadd : ∀ a a' b b', R a a' → R b b' → R (a + b) (a' + b'))
    (fdir : Fin N → ℤ) (fuel : ℕ) (l : List (Fin N)) (s : Res (State N K)) (t : Res (State N L))
    (h : RelRes R s t) : RelRes R (l.foldl (accStep fuel fdir) s) (l.foldl (accStep fuel fdir) t) := by
  induction l generalizing s t with
  | nil => exact h
  | cons ix l ih =>
    rw [List.foldl_cons, List.foldl_cons]
    refine ih _ _ ?_
    unfold accStep
    cases s with
    | ok s =>
      cases t with
      | ok t =>
        rw [Res.bind_ok, Res.bind_ok]
        have h1 : s.nidp = t.nidp := h.1
        rw [h1]
        split
        · exact h
        · exact walk_rel hadd fdir fuel ix 0 0 0 0 h0 s t h
      | err e => exact absurd h (by simp [RelRes])
      | hang => exact absurd h (by simp [RelRes])
    | err e =>
      cases t with
      | ok t => exact absurd h (by simp [RelRes])
      | err e' => exact h
      | hang => exact absurd h (by simp [RelRes])
    | hang =>
      cases t with
      | ok t => exact absurd h (by simp [RelRes])
      | err e' => exact absurd h (by simp [RelRes])
      | hang => trivial

/-- What is kept by addition holds between the results if it holds between the areas. -/
theorem acc_rel {R : K → L → Prop} (h0 : R 0 0) (hadd : ∀ a a' b b', R a a' → R b b' → R (a + b) (a' + b'))
    (fdir : Fin N → ℤ) (fuel : ℕ) {a : Fin N → K} {b : Fin N → L} (h : ∀ n, R (a n) (b n)) {out : Fin N → K}
    (hout : flowAccumulation fuel fdir a false = .ok out) :
    ∃ out', flowAccumulation fuel fdir b false = .ok out' ∧ ∀ n, R (out n) (out' n) := by
  unfold flowAccumulation at hout ⊢
  obtain ⟨nidp, h1, h2⟩ := Res.bind_eq_ok.1 hout
  obtain ⟨s, h3, h4⟩ := Res.map_eq_ok.1 h2
  have := loop_rel (N := N) h0 hadd fdir fuel (List.finRange N)
    (.ok { nidp := nidp, acc := fun _ => (1 : K), area := a }) (.ok { nidp := nidp, acc := fun _ => (1 : L), area := b })
    ⟨rfl, h⟩
  rw [h3] at this
  rw [h1, Res.bind_ok]
  cases ht : List.foldl (accStep fuel fdir) (.ok { nidp := nidp, acc := fun _ => (1 : L), area := b }) (List.finRange N) with
  | ok t =>
    rw [ht] at this
    refine ⟨t.area, rfl, fun n => ?_⟩
    rw [← h4]
    exact this.2 n
  | err e => rw [ht] at this; exact absurd this (by simp [RelRes])
  | hang => rw [ht] at this; exact absurd this (by simp [RelRes])

end Hom

/-- **C136** (sum).  The accumulation of the sum of two areas (or rainfall volumes) is the sum of their
accumulations, on every array of flow directions, with circles and sinks or without. -/
theorem C136_add [AddCommMonoid K] [One K] {fdir : Fin N → ℤ} {fuel : ℕ} {a b outA outB : Fin N → K}
    (ha : flowAccumulation fuel fdir a false = .ok outA) (hb : flowAccumulation fuel fdir b false = .ok outB) :
    flowAccumulation fuel fdir (fun n => a n + b n) false = .ok fun n => outA n + outB n := by
  -- one run with pairs
  obtain ⟨o1, h1, r1⟩ := acc_rel (R := fun (x : K) (p : K × K) => p.1 = x) (L := K × K) rfl
    (fun _ _ _ _ h h' => by rw [Prod.fst_add, h, h']) fdir fuel (b := fun n => (a n, b n)) (fun _ => rfl) ha
  obtain ⟨o2, h2, r2⟩ := acc_rel (R := fun (x : K) (p : K × K) => p.2 = x) (L := K × K) rfl
    (fun _ _ _ _ h h' => by rw [Prod.snd_add, h, h']) fdir fuel (b := fun n => (a n, b n)) (fun _ => rfl) hb
  rw [h1] at h2
  cases h2
  obtain ⟨o3, h3, r3⟩ := acc_rel (R := fun (p : K × K) (x : K) => x = p.1 + p.2) (by simp)
    (fun _ _ _ _ h h' => by rw [Prod.fst_add, Prod.snd_add, h, h']; exact add_add_add_comm _ _ _ _) fdir fuel
    (b := fun n => a n + b n) (fun _ => rfl) h1
  rw [h3]
  congr 1
  funext n
  rw [r3 n, r1 n, r2 n]

/-- **C136** (factor).  In another unit of area, or with a uniform rainfall depth, the accumulation is multiplied by the same
factor. -/
theorem C136_mul [Semiring K] {fdir : Fin N → ℤ} {fuel : ℕ} (c : K) {a out : Fin N → K}
    (ha : flowAccumulation fuel fdir a false = .ok out) :
    flowAccumulation fuel fdir (fun n => c * a n) false = .ok fun n => c * out n := by
  obtain ⟨o, h, r⟩ := acc_rel (R := fun (x y : K) => y = c * x) (by simp)
    (fun _ _ _ _ h h' => by rw [h, h', mul_add]) fdir fuel (b := fun n => c * a n) (fun _ => rfl) ha
  rw [h]
  congr 1
  funext n
  exact r n

/-- **C136** (order).  Larger areas accumulate to no less, also if sums are rounded (any addition that keeps the
order). -/
theorem C136_mono [Add K] [Zero K] [One K] [Preorder K] (hadd : ∀ a a' b b' : K, a ≤ a' → b ≤ b' → a + b ≤ a' + b')
    {fdir : Fin N → ℤ} {fuel : ℕ} {a b outA : Fin N → K} (hab : ∀ n, a n ≤ b n)
    (ha : flowAccumulation fuel fdir a false = .ok outA) :
    ∃ outB, flowAccumulation fuel fdir b false = .ok outB ∧ ∀ n, outA n ≤ outB n :=
  acc_rel (R := fun x y : K => x ≤ y) le_rfl hadd fdir fuel hab ha

/-- **C136** (cells).  With unit areas the accumulation is the number of cells. -/
theorem C136_ones [AddMonoid K] [One K] {fdir : Fin N → ℤ} {fuel : ℕ} :
    flowAccumulation fuel fdir (fun _ => (1 : K)) false = flowAccumulation fuel fdir (fun _ => (1 : K)) true := by
  have hw : ∀ (k : ℕ) (n : Fin N) (x : K) (s : State N K), s.area = s.acc → ∀ t, walk fdir k n x x s = .ok t → t.area = t.acc := by
    intro k
    induction k with
    | zero => intro n x s _ t h; cases h
    | succ k ih =>
      intro n x s hs t h
      unfold walk at h
      dsimp only at h
      split at h
      · cases h; dsimp only; rw [hs]
      · obtain ⟨m, _, h⟩ := Res.bind_eq_ok.1 h
        rw [hs] at h
        exact ih m _ _ rfl t h
  have hl : ∀ (l : List (Fin N)) (s : Res (State N K)), (∀ t, s = .ok t → t.area = t.acc) →
      ∀ t, l.foldl (accStep fuel fdir) s = .ok t → t.area = t.acc := by
    intro l
    induction l with
    | nil => intro s hs t h; exact hs t h
    | cons ix l ih =>
      intro s hs t h
      rw [List.foldl_cons] at h
      refine ih _ (fun t' ht' => ?_) t h
      unfold accStep at ht'
      obtain ⟨s', rfl, ht2⟩ := Res.bind_eq_ok.1 ht'
      split at ht2
      · cases ht2; exact hs _ rfl
      · exact hw fuel ix 0 s' (hs _ rfl) t' ht2
  unfold flowAccumulation
  cases getNidp fdir with
  | err e => rfl
  | hang => rfl
  | ok nidp =>
    rw [Res.bind_ok, Res.bind_ok]
    cases h : (List.finRange N).foldl (accStep fuel fdir) (.ok ⟨nidp, fun _ => (1 : K), fun _ => 1⟩) with
    | err e => rfl
    | hang => rfl
    | ok s =>
      have := hl _ _ (by rintro t ht; cases ht; rfl) s h
      simp [this]

/-! ### Example: two tributaries, a sink (-2) and a circle -/

def linD : Fin 6 → ℤ := ![2, 2, 2, -2, 5, 4]
example : flowAccumulation 9 linD (![1, 2, 3, 4, 5, 6] : Fin 6 → ℚ) false = .ok ![1, 2, 6, 4, 9, 6] := by decide +kernel
example : flowAccumulation 9 linD (fun n => (![1, 2, 3, 4, 5, 6] : Fin 6 → ℚ) n + (![1, 0, 0, 1, 0, 0] : Fin 6 → ℚ) n) false =
    .ok fun n => (![1, 2, 6, 4, 9, 6] : Fin 6 → ℚ) n + (![1, 0, 1, 1, 1, 0] : Fin 6 → ℚ) n :=
  C136_add (by decide +kernel) (by decide +kernel)

end Dany.Acc
