import Mathlib.Data.List.Basic
import Mathlib.Data.List.Perm.Basic
import Mathlib.Tactic.Linarith

/-!
# CPython's `heapq` (imported in dem_conditioning.py:173)

The list operations of `Lib/heapq.py`, comparison by comparison, for an arbitrary `<`.  With a `<` that is no total order —
tuples that hold NaN — the operations still permute the list (`heappush_perm`, `heappop_perm`), but no longer return the least
element.
-/

namespace Dany.Heapq

variable {α : Type*}

/-- `_siftdown(heap, 0, pos)` with `newitem = x`, used in dem_conditioning.py:182,192,224: parents that are greater than `x`
move down, `x` takes the free place.  The first argument bounds the number of steps (`pos` suffices). -/
def siftdown (lt : α → α → Bool) (x : α) : ℕ → ℕ → List α → List α
  | 0, pos, h => h.set pos x
  | k + 1, pos, h =>
    if 0 < pos then
      if lt x (h.getD ((pos - 1) / 2) x) then siftdown lt x k ((pos - 1) / 2) (h.set pos (h.getD ((pos - 1) / 2) x))
      else h.set pos x
    else h.set pos x

/-- the loop of `_siftup(heap, pos)` (used in dem_conditioning.py:192): the smaller child moves up until there is none; gives
the free place and the list.  `x` is `newitem`. -/
def siftupLoop (lt : α → α → Bool) (x : α) : ℕ → ℕ → List α → ℕ × List α
  | 0, pos, h => (pos, h)
  | k + 1, pos, h =>
    if 2 * pos + 1 < h.length then
      if 2 * pos + 2 < h.length ∧ lt (h.getD (2 * pos + 1) x) (h.getD (2 * pos + 2) x) = false then
        siftupLoop lt x k (2 * pos + 2) (h.set pos (h.getD (2 * pos + 2) x))
      else siftupLoop lt x k (2 * pos + 1) (h.set pos (h.getD (2 * pos + 1) x))
    else (pos, h)

/-- `_siftup(heap, 0)` with `heap[0] = x` -/
def siftup (lt : α → α → Bool) (x : α) (h : List α) : List α :=
  let r := siftupLoop lt x h.length 0 h
  siftdown lt x r.1 r.1 r.2

/-- `heapq.heappush(heap, x)` (dem_conditioning.py:182,224) -/
def heappush (lt : α → α → Bool) (h : List α) (x : α) : List α := siftdown lt x h.length h.length (h ++ [x])

/-- `heapq.heappop(heap)` (dem_conditioning.py:192): the root, and the list in which the last element has taken its place and
sunk.  `none`: the list is empty. -/
def heappop (lt : α → α → Bool) (h : List α) : Option (α × List α) :=
  match h.getLast?, h.dropLast with
  | none, _ => none
  | some last, [] => some (last, [])
  | some last, root :: rest => some (root, siftup lt last (last :: rest))

/-! ### the operations permute the list, whatever `<` is -/

theorem getD_lt {h : List α} {i : ℕ} (hi : i < h.length) (x : α) : h.getD i x = h[i] := by
  simp [List.getD, hi]

theorem hole_perm (h : List α) (x : α) {p q : ℕ} (hp : p < h.length) (hq : q < h.length) (hne : p ≠ q) :
    ((h.set p (h.getD q x)).set q x).Perm (h.set p x) := by
  have := List.set_set_perm (as := h.set p x) (i := p) (j := q) (by simpa) (by simpa)
  have e1 : (h.set p x)[q]'(by simpa) = h.getD q x := by
    rw [List.getElem_set_ne hne, getD_lt hq]
  have e2 : (h.set p x)[p]'(by simpa) = x := by rw [List.getElem_set_self]
  rw [e1, e2, List.set_set] at this
  exact this

theorem siftdown_length (lt : α → α → Bool) (x : α) (k pos : ℕ) (h : List α) :
    (siftdown lt x k pos h).length = h.length := by
  induction k generalizing pos h with
  | zero => simp [siftdown]
  | succ k ih => simp only [siftdown]; split_ifs <;> simp [ih]

theorem siftdown_perm (lt : α → α → Bool) (x : α) (k pos : ℕ) (h : List α) (hp : pos < h.length) :
    (siftdown lt x k pos h).Perm (h.set pos x) := by
  induction k generalizing pos h with
  | zero => exact .refl _
  | succ k ih =>
    simp only [siftdown]
    split_ifs with h1 h2
    · exact (ih _ _ (by simp; omega)).trans (hole_perm h x hp (by omega) (by omega))
    · exact .refl _
    · exact .refl _

theorem siftupLoop_length (lt : α → α → Bool) (x : α) (k pos : ℕ) (h : List α) :
    (siftupLoop lt x k pos h).2.length = h.length := by
  induction k generalizing pos h with
  | zero => rfl
  | succ k ih => simp only [siftupLoop]; split_ifs <;> simp [ih]

theorem siftupLoop_perm (lt : α → α → Bool) (x : α) (k pos : ℕ) (h : List α) (hp : pos < h.length) :
    (siftupLoop lt x k pos h).1 < h.length ∧
      ((siftupLoop lt x k pos h).2.set (siftupLoop lt x k pos h).1 x).Perm (h.set pos x) := by
  induction k generalizing pos h with
  | zero => exact ⟨hp, .refl _⟩
  | succ k ih =>
    simp only [siftupLoop]
    split_ifs with h1 h2
    · obtain ⟨a, b⟩ := ih (2 * pos + 2) (h.set pos (h.getD (2 * pos + 2) x)) (by simp; omega)
      exact ⟨by simpa using a, b.trans (hole_perm h x hp (by omega) (by omega))⟩
    · obtain ⟨a, b⟩ := ih (2 * pos + 1) (h.set pos (h.getD (2 * pos + 1) x)) (by simp; omega)
      exact ⟨by simpa using a, b.trans (hole_perm h x hp (by omega) (by omega))⟩
    · exact ⟨hp, .refl _⟩

theorem siftup_perm (lt : α → α → Bool) (x : α) (h : List α) (hp : 0 < h.length) :
    (siftup lt x h).Perm (h.set 0 x) := by
  obtain ⟨a, b⟩ := siftupLoop_perm lt x h.length 0 h hp
  exact (siftdown_perm lt x _ _ _ (by rw [siftupLoop_length]; exact a)).trans b

/-- Nothing gets lost when pushing … -/
theorem heappush_perm (lt : α → α → Bool) (h : List α) (x : α) : (heappush lt h x).Perm (x :: h) := by
  refine (siftdown_perm lt x _ _ _ (by simp)).trans ?_
  rw [List.set_append_right _ _ (le_refl _)]
  simp only [Nat.sub_self, List.set_cons_zero]
  exact List.perm_append_singleton x h

/-- … and when popping. -/
theorem heappop_perm {lt : α → α → Bool} {h rest : List α} {m : α} (hp : heappop lt h = some (m, rest)) :
    h.Perm (m :: rest) := by
  unfold heappop at hp
  rcases List.eq_nil_or_concat h with rfl | ⟨l, last, rfl⟩
  · simp at hp
  · rw [List.concat_eq_append] at hp ⊢
    simp only [List.getLast?_append, List.getLast?_singleton, Option.some_or, List.dropLast_concat] at hp
    cases l with
    | nil => cases hp; simp
    | cons root l =>
      injection hp with hp
      injection hp with h1 h2
      subst h1 h2
      refine (List.perm_append_singleton last (_ :: l)).trans ((List.Perm.swap _ _ _).trans (List.Perm.cons _ ?_))
      exact (siftup_perm lt last (last :: l) (by simp)).symm

theorem heappop_none {lt : α → α → Bool} {h : List α} (hp : heappop lt h = none) : h = [] := by
  unfold heappop at hp
  rcases List.eq_nil_or_concat h with rfl | ⟨l, last, rfl⟩
  · rfl
  · rw [List.concat_eq_append] at hp ⊢
    simp only [List.getLast?_append, List.getLast?_singleton, Option.some_or, List.dropLast_concat] at hp
    cases l <;> cases hp

/-- an empty list makes `heappop` raise, and only that -/
theorem heappop_nil (lt : α → α → Bool) : heappop lt ([] : List α) = none := rfl

/-! ### with a total order the least element is at the front -/

/-- `<` is the strict part of a total order -/
structure Total (lt : α → α → Bool) : Prop where
  asymm : ∀ a b, lt a b = true → lt b a = false
  trans : ∀ a b c, lt b a = false → lt c b = false → lt c a = false
  anti : ∀ a b, lt a b = false → lt b a = false → a = b

/-- no element is less than its parent -/
def IsHeap (lt : α → α → Bool) (h : List α) : Prop :=
  ∀ i (hi : i < h.length), 0 < i → lt h[i] (h[(i - 1) / 2]'(by omega)) = false

theorem Total.refl {lt : α → α → Bool} (ht : Total lt) (a : α) : lt a a = false := by
  cases h : lt a a with
  | false => rfl
  | true => rw [← h, ht.asymm a a h]

theorem isHeap_root {lt : α → α → Bool} (ht : Total lt) {h : List α} (hh : IsHeap lt h) (i : ℕ) (hi : i < h.length) :
    lt h[i] (h[0]'(by omega)) = false := by
  induction i using Nat.strong_induction_on with
  | _ i ih =>
    rcases Nat.eq_zero_or_pos i with rfl | hpos
    · exact ht.refl _
    · exact ht.trans _ _ _ (ih ((i - 1) / 2) (by omega) (by omega)) (hh i hi hpos)

/-- the order in a list with a free place `pos` that `x` may be put into, except towards the parent -/
structure Down (lt : α → α → Bool) (x : α) (pos : ℕ) (h : List α) : Prop where
  others : ∀ i (hi : i < h.length), 0 < i → i ≠ pos →
    lt h[i] ((h.set pos x)[(i - 1) / 2]'(by simp; omega)) = false
  grand : ∀ i (hi : i < h.length), 0 < i → (_ : (i - 1) / 2 = pos) → 0 < pos →
    lt h[i] (h[(pos - 1) / 2]'(by omega)) = false

/-- `x` can be put into the free place -/
theorem Down.put {lt : α → α → Bool} {x : α} {h : List α} {pos : ℕ} (hp : pos < h.length) (hd : Down lt x pos h)
    (hx : ∀ _ : 0 < pos, lt x (h[(pos - 1) / 2]'(by omega)) = false) : IsHeap lt (h.set pos x) := by
  intro i hi h0
  by_cases hip : i = pos
  · subst hip
    rw [List.getElem_set_self, List.getElem_set_ne (by omega)]
    exact hx h0
  · rw [List.getElem_set_ne (fun h => hip h.symm)]
    exact hd.others i (by simpa using hi) h0 hip

theorem siftdown_heap {lt : α → α → Bool} (ht : Total lt) (x : α) (k pos : ℕ) (h : List α) (hp : pos < h.length)
    (hk : pos ≤ k) (hd : Down lt x pos h) : IsHeap lt (siftdown lt x k pos h) := by
  induction k generalizing pos h with
  | zero =>
    simp only [siftdown]
    exact hd.put hp (fun hp0 => by omega)
  | succ k ih =>
    simp only [siftdown]
    split_ifs with h1 h2
    · have hpar : (pos - 1) / 2 < h.length := by omega
      rw [getD_lt hpar] at h2 ⊢
      have hxp := ht.asymm _ _ h2
      refine ih _ _ (by simpa using hpar) (by omega) ⟨?_, ?_⟩
      · intro i hi h0 hne
        have hi' : i < h.length := by simpa using hi
        by_cases hip : i = pos
        · subst hip
          rw [List.getElem_set_self, List.getElem_set_self]
          exact hxp
        · rw [List.getElem_set_ne (fun h => hip h.symm)]
          by_cases hpp : (i - 1) / 2 = (pos - 1) / 2
          · simp only [hpp, List.getElem_set_self]
            have := hd.others i hi' h0 hip
            rw [List.getElem_set_ne (by omega)] at this
            simp only [hpp] at this
            exact ht.trans _ _ _ hxp this
          · rw [List.getElem_set_ne (by omega)]
            by_cases hpq : (i - 1) / 2 = pos
            · simp only [hpq, List.getElem_set_self]
              exact hd.grand i hi' h0 hpq h1
            · rw [List.getElem_set_ne (by omega)]
              have := hd.others i hi' h0 hip
              rwa [List.getElem_set_ne (by omega)] at this
      · intro i hi h0 hpp hpos
        have hi' : i < h.length := by simpa using hi
        rw [List.getElem_set_ne (by omega : pos ≠ ((pos - 1) / 2 - 1) / 2)]
        have hup := hd.others ((pos - 1) / 2) hpar hpos (by omega)
        rw [List.getElem_set_ne (by omega)] at hup
        by_cases hip : i = pos
        · subst hip
          rw [List.getElem_set_self]
          exact hup
        · rw [List.getElem_set_ne (fun h => hip h.symm)]
          have := hd.others i hi' h0 hip
          rw [List.getElem_set_ne (by omega)] at this
          simp only [hpp] at this
          exact ht.trans _ _ _ hup this
    · have hpar : (pos - 1) / 2 < h.length := by omega
      rw [getD_lt hpar] at h2
      exact hd.put hp (fun _ => by simpa using h2)
    · exact hd.put hp (fun hp0 => absurd hp0 h1)

/-- the order in a list with a free place, whatever will be put there -/
structure Up (lt : α → α → Bool) (pos : ℕ) (h : List α) : Prop where
  others : ∀ i (hi : i < h.length), 0 < i → i ≠ pos → (i - 1) / 2 ≠ pos →
    lt h[i] (h[(i - 1) / 2]'(by omega)) = false
  grand : ∀ i (hi : i < h.length), 0 < i → (_ : (i - 1) / 2 = pos) → 0 < pos →
    lt h[i] (h[(pos - 1) / 2]'(by omega)) = false

/-- moving up the least child keeps the order -/
theorem Up.move {lt : α → α → Bool} {pos : ℕ} {h : List α} (hd : Up lt pos h) (x : α) {c : ℕ} (hc : c < h.length)
    (hc0 : 0 < c) (hcp : (c - 1) / 2 = pos)
    (hmin : ∀ i (hi : i < h.length), 0 < i → (i - 1) / 2 = pos → lt h[i] h[c] = false) :
    Up lt c (h.set pos (h.getD c x)) := by
  rw [getD_lt hc]
  constructor
  · intro i hi h0 hne hne'
    have hi' : i < h.length := by simpa using hi
    by_cases hip : i = pos
    · subst hip
      rw [List.getElem_set_self, List.getElem_set_ne (by omega)]
      exact hd.grand c hc hc0 hcp h0
    · rw [List.getElem_set_ne (fun h => hip h.symm)]
      by_cases hpp : (i - 1) / 2 = pos
      · simp only [hpp, List.getElem_set_self]
        exact hmin i hi' h0 hpp
      · rw [List.getElem_set_ne (by omega)]
        exact hd.others i hi' h0 hip hpp
  · intro i hi h0 hpp _
    have hi' : i < h.length := by simpa using hi
    rw [List.getElem_set_ne (by omega : pos ≠ i)]
    simp only [hcp, List.getElem_set_self]
    have := hd.others i hi' h0 (by omega) (by omega)
    simp only [hpp] at this
    exact this

theorem siftupLoop_heap {lt : α → α → Bool} (ht : Total lt) (x : α) (k pos : ℕ) (h : List α) (hp : pos < h.length)
    (hk : h.length ≤ k + pos) (hd : Up lt pos h) :
    Up lt (siftupLoop lt x k pos h).1 (siftupLoop lt x k pos h).2 ∧
      h.length ≤ 2 * (siftupLoop lt x k pos h).1 + 1 := by
  induction k generalizing pos h with
  | zero => omega
  | succ k ih =>
    simp only [siftupLoop]
    split_ifs with h1 h2
    · have hr : 2 * pos + 2 < h.length := h2.1
      have h3 := h2.2
      rw [getD_lt h1, getD_lt hr] at h3
      have hu := hd.move x hr (by omega) (by omega) (by
        intro i hi h0 hpp
        have : i = 2 * pos + 1 ∨ i = 2 * pos + 2 := by omega
        rcases this with rfl | rfl
        · exact h3
        · exact ht.refl _)
      simpa using ih _ _ (by simpa using hr) (by simp; omega) hu
    · have hu := hd.move x h1 (by omega) (by omega) (by
        intro i hi h0 hpp
        have : i = 2 * pos + 1 ∨ i = 2 * pos + 2 := by omega
        rcases this with rfl | rfl
        · exact ht.refl _
        · cases hlt : lt h[2 * pos + 2] h[2 * pos + 1] with
          | false => rfl
          | true =>
            refine absurd ⟨hi, ?_⟩ h2
            rw [getD_lt h1, getD_lt hi]
            exact ht.asymm _ _ hlt)
      simpa using ih _ _ (by simpa using h1) (by simp; omega) hu
    · exact ⟨hd, by omega⟩

theorem siftup_heap {lt : α → α → Bool} (ht : Total lt) (x : α) (h : List α) (hp : 0 < h.length) (hd : Up lt 0 h) :
    IsHeap lt (siftup lt x h) := by
  obtain ⟨a, b⟩ := siftupLoop_heap ht x h.length 0 h hp (by omega) hd
  have hl := siftupLoop_length lt x h.length 0 h
  have hlt := (siftupLoop_perm lt x h.length 0 h hp).1
  unfold siftup
  refine siftdown_heap ht x _ _ _ (by rw [hl]; exact hlt) (le_refl _) ⟨?_, ?_⟩
  · intro i hi h0 hne
    rw [List.getElem_set_ne (by omega)]
    exact a.others i hi h0 hne (by omega)
  · intro i hi h0 hpp _
    omega

/-- **`heappush` keeps the heap order.** -/
theorem heappush_heap {lt : α → α → Bool} (ht : Total lt) {h : List α} (hh : IsHeap lt h) (x : α) :
    IsHeap lt (heappush lt h x) := by
  refine siftdown_heap ht x _ _ _ (by simp) (le_refl _) ⟨?_, ?_⟩
  · intro i hi h0 hne
    have hi' : i < h.length := by simp at hi; omega
    rw [List.getElem_set_ne (by omega), List.getElem_append_left hi', List.getElem_append_left (by omega)]
    exact hh i hi' h0
  · intro i hi h0 hpp _
    simp at hi; omega

/-- **`heappop` gives the least element and keeps the heap order.** -/
theorem heappop_heap {lt : α → α → Bool} (ht : Total lt) {h rest : List α} {m : α} (hh : IsHeap lt h)
    (hp : heappop lt h = some (m, rest)) : IsHeap lt rest ∧ ∀ y ∈ h, lt y m = false := by
  unfold heappop at hp
  rcases List.eq_nil_or_concat h with rfl | ⟨l, last, rfl⟩
  · simp at hp
  · rw [List.concat_eq_append] at hp hh ⊢
    simp only [List.getLast?_append, List.getLast?_singleton, Option.some_or, List.dropLast_concat] at hp
    have hroot := isHeap_root ht hh
    cases l with
    | nil =>
      cases hp
      exact ⟨fun i hi => by simp at hi, fun y hy => by simp at hy; subst hy; exact ht.refl _⟩
    | cons root l =>
      obtain ⟨rfl, rfl⟩ : m = root ∧ rest = siftup lt last (last :: l) := by
        injection hp with hp; injection hp with h1 h2; exact ⟨h1.symm, h2.symm⟩
      refine ⟨siftup_heap ht last (last :: l) (by simp) ⟨?_, ?_⟩, ?_⟩
      · intro i hi h0 _ hne
        have hi' : i < (m :: l).length := by simpa using hi
        have := hh i (by simp at hi ⊢; omega) h0
        rw [List.getElem_append_left hi', List.getElem_append_left (by omega)] at this
        obtain ⟨j, rfl⟩ : ∃ j, i = j + 1 := ⟨i - 1, by omega⟩
        obtain ⟨q, hq⟩ : ∃ q, (j + 1 - 1) / 2 = q + 1 := ⟨(j + 1 - 1) / 2 - 1, by omega⟩
        simp only [hq, List.getElem_cons_succ] at this ⊢
        exact this
      · intro i hi h0 hpp hpos
        omega
      · intro y hy
        obtain ⟨i, hi, rfl⟩ := List.getElem_of_mem hy
        exact hroot i hi

theorem isHeap_nil (lt : α → α → Bool) : IsHeap lt ([] : List α) := fun i hi => by simp at hi

/-! ### renaming of elements -/

section map
variable {β : Type*} {f : α → β} {lt : α → α → Bool} {lt' : β → β → Bool}

theorem getD_map (f : α → β) (h : List α) (i : ℕ) (x : α) : (h.map f).getD i (f x) = f (h.getD i x) := by
  by_cases hi : i < h.length
  · rw [getD_lt hi, getD_lt (by simpa using hi)]; simp
  · simp [List.getD, hi]

theorem siftdown_map (hf : ∀ a b, lt' (f a) (f b) = lt a b) (x : α) (k pos : ℕ) (h : List α) :
    siftdown lt' (f x) k pos (h.map f) = (siftdown lt x k pos h).map f := by
  induction k generalizing pos h with
  | zero => simp [siftdown]
  | succ k ih =>
    simp only [siftdown, getD_map, hf]
    split_ifs
    · rw [← ih, List.map_set]
    · rw [List.map_set]
    · rw [List.map_set]

theorem siftupLoop_map (hf : ∀ a b, lt' (f a) (f b) = lt a b) (x : α) (k pos : ℕ) (h : List α) :
    siftupLoop lt' (f x) k pos (h.map f) = ((siftupLoop lt x k pos h).1, (siftupLoop lt x k pos h).2.map f) := by
  induction k generalizing pos h with
  | zero => simp [siftupLoop]
  | succ k ih =>
    simp only [siftupLoop, getD_map, hf, List.length_map]
    split_ifs
    · rw [← ih, List.map_set]
    · rw [← ih, List.map_set]
    · rfl

theorem heappush_map (hf : ∀ a b, lt' (f a) (f b) = lt a b) (h : List α) (x : α) :
    heappush lt' (h.map f) (f x) = (heappush lt h x).map f := by
  unfold heappush
  rw [← siftdown_map hf]; simp

theorem heappop_map (hf : ∀ a b, lt' (f a) (f b) = lt a b) (h : List α) :
    heappop lt' (h.map f) = (heappop lt h).map fun r => (f r.1, r.2.map f) := by
  unfold heappop
  rcases List.eq_nil_or_concat h with rfl | ⟨l, last, rfl⟩
  · rfl
  · rw [List.concat_eq_append]
    simp only [List.map_append, List.map_cons, List.map_nil, List.getLast?_append, List.getLast?_singleton, Option.some_or,
      List.dropLast_concat]
    cases l with
    | nil => rfl
    | cons root l =>
      simp only [List.map_cons, Option.map_some, Option.some.injEq, Prod.mk.injEq, true_and]
      unfold siftup
      have := siftupLoop_map hf last (last :: l).length 0 (last :: l)
      simp only [List.map_cons, List.length_cons, List.length_map] at this ⊢
      rw [this]
      dsimp only
      rw [siftdown_map hf]

end map

end Dany.Heapq
