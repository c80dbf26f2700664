import Verif.Topo.Lemmas

/-!
# The topological sort seen on cells

`Topology.sort` works on numbers; here the same walk is described on the things (cells) that carry the
numbers.  This is proof machinery for comparing sorts of differently numbered copies of one network.
-/

namespace Dany.Topo

variable {C : Type*} [DecidableEq C]

/-- the walk of `sortUtil` on cells: visited cells and result list -/
def vis (nx : C → Option C) (front : C → Bool) : ℕ → C → List C × List C → Option (List C × List C)
  | 0, _, _ => none
  | k + 1, c, s =>
    (match nx c with
      | none => some (c :: s.1, s.2)
      | some m => if m ∈ c :: s.1 then some (c :: s.1, s.2) else vis nx front k m (c :: s.1, s.2)).map
      fun r : List C × List C => (r.1, if front c = true then c :: r.2 else r.2 ++ [c])

/-- the loop of `sort` on cells -/
def visAll (nx : C → Option C) (front : C → Bool) (k : ℕ) (l : List C) (s : List C × List C) :
    Option (List C × List C) :=
  l.foldl (fun r c => r.bind fun s => if c ∈ s.1 then some s else vis nx front k c s) (some s)

/-- `topo` is the network `nx` on the cells `P`, numbered by `lab`; `front` tells the cells that do not
flow to the outlet code -/
structure Labelled (P : C → Prop) (nx : C → Option C) (lab : C → ℤ) (front : C → Bool)
    (topo : Dict ℤ ℤ) : Prop where
  next : ∀ c, P c → ∀ m, nx c = some m → P m
  pos : ∀ c, P c → 1 ≤ lab c
  inj : ∀ a b, P a → P b → lab a = lab b → a = b
  get : ∀ c, P c → (nx c = none ∧ topo.get? (lab c) = some 0 ∧ front c = false) ∨
    (∃ m, nx c = some m ∧ topo.get? (lab c) = some (lab m) ∧ front c = true) ∨
    (nx c = some c ∧ topo.get? (lab c) = some 0 ∧ front c = false)

/-- the state of the sort stands for the state of the walk on cells -/
structure Rep (P : C → Prop) (lab : C → ℤ) (v : Dict ℤ Bool) (S : List ℤ) (s : List C × List C) : Prop where
  vis : ∀ c, P c → v.get? (lab c) = some (decide (c ∈ s.1))
  zero : v.get? 0 = some true ∨ v.get? 0 = some false
  stack : S = s.2.map lab

variable {P : C → Prop} {nx : C → Option C} {lab : C → ℤ} {front : C → Bool} {topo : Dict ℤ ℤ}

theorem Rep.visit (hL : Labelled P nx lab front topo) {v : Dict ℤ Bool} {S : List ℤ} {s : List C × List C} (h : Rep P lab v S s)
    {c : C} (hc : P c) : Rep P lab (v.set (lab c) true) S (c :: s.1, s.2) := by
  refine ⟨fun x hx => ?_, ?_, h.stack⟩
  · rw [Dict.get?_set]
    split
    · rename_i he
      obtain rfl := hL.inj _ _ hx hc he
      simp
    · rename_i he
      rw [h.vis x hx]
      have : x ≠ c := by rintro rfl; exact he rfl
      simp [this]
  · rw [Dict.get?_set_ne _ _ (by have := hL.pos c hc; omega)]
    exact h.zero

theorem sortUtil_zero {limit : ℕ} {v : Dict ℤ Bool} {S : List ℤ} {r : Dict ℤ Bool × List ℤ}
    (h : sortUtil topo limit 0 v S = .ok r) : r = (v.set 0 true, S) := by
  cases limit with
  | zero => cases h
  | succ k =>
    simp only [sortUtil, if_true, Res.bind_ok, Dict.getE, Dict.get?_set_self, Res.ok.injEq] at h
    exact h.symm

theorem Rep.setZero (hL : Labelled P nx lab front topo) {v : Dict ℤ Bool} {S : List ℤ} {s : List C × List C}
    (h : Rep P lab v S s) : Rep P lab (v.set 0 true) S s := by
  refine ⟨fun x hx => ?_, .inl (Dict.get?_set_self _ _ _), h.stack⟩
  rw [Dict.get?_set_ne _ _ (by have := hL.pos x hx; omega)]
  exact h.vis x hx

theorem sortUtil_vis (hL : Labelled P nx lab front topo) : ∀ (limit : ℕ) (c : C) (v : Dict ℤ Bool) (S : List ℤ)
    (s : List C × List C) (r : Dict ℤ Bool × List ℤ), P c → Rep P lab v S s →
    sortUtil topo limit (lab c) v S = .ok r → ∃ s', vis nx front limit c s = some s' ∧ Rep P lab r.1 r.2 s' := by
  intro limit
  induction limit with
  | zero => intro c v S s r _ _ h; cases h
  | succ k ih =>
    intro c v S s r hc hR h
    have hc0 : lab c ≠ 0 := by have := hL.pos c hc; omega
    have hR' := hR.visit hL hc
    unfold sortUtil at h
    dsimp only at h
    rw [if_neg hc0] at h
    obtain ⟨o, ho, h⟩ := Res.bind_eq_ok.1 h
    obtain ⟨seen, hs, h⟩ := Res.bind_eq_ok.1 h
    obtain ⟨r1, h1, h⟩ := Res.bind_eq_ok.1 h
    rw [if_neg hc0] at h
    unfold Dict.getE at ho hs
    -- the outlet code
    have hout : o = 0 → front c = false → ∃ w, Rep P lab r1.1 r1.2 (c :: s.1, s.2) ∧ w = r1 := by
      rintro rfl _
      refine ⟨r1, ?_, rfl⟩
      cases seen with
      | true => simp only [if_true, Res.ok.injEq] at h1; rw [← h1]; exact hR'
      | false =>
        simp only [Bool.false_eq_true, if_false] at h1
        rw [sortUtil_zero h1]
        exact hR'.setZero hL
    unfold vis
    rcases hL.get c hc with ⟨hn, hg, hf⟩ | ⟨m, hn, hg, hf⟩ | ⟨hn, hg, hf⟩
    · rw [hg] at ho
      obtain rfl := Res.ok.inj ho
      obtain ⟨_, hw, _⟩ := hout rfl hf
      rw [if_pos rfl] at h
      obtain rfl := Res.ok.inj h
      rw [hn, hf]
      refine ⟨_, rfl, hw.vis, hw.zero, ?_⟩
      simp [hw.stack]
    · rw [hg] at ho
      obtain rfl := Res.ok.inj ho
      have hm := hL.next c hc m hn
      have hm0 : lab m ≠ 0 := by have := hL.pos m hm; omega
      rw [if_neg hm0] at h
      obtain rfl := Res.ok.inj h
      rw [hR'.vis m hm] at hs
      obtain rfl := Res.ok.inj hs
      rw [hn, hf]
      dsimp only
      by_cases hv : m ∈ c :: s.1
      · rw [if_pos (by simpa using hv)] at h1
        obtain rfl := Res.ok.inj h1
        rw [if_pos hv]
        refine ⟨_, rfl, hR'.vis, hR'.zero, ?_⟩
        simp [hR'.stack]
      · rw [if_neg (by simpa using hv)] at h1
        rw [if_neg hv]
        obtain ⟨s', h2, hR2⟩ := ih m _ _ _ _ hm hR' h1
        rw [h2]
        refine ⟨_, rfl, hR2.vis, hR2.zero, ?_⟩
        simp [hR2.stack]
    · rw [hg] at ho
      obtain rfl := Res.ok.inj ho
      obtain ⟨_, hw, _⟩ := hout rfl hf
      rw [if_pos rfl] at h
      obtain rfl := Res.ok.inj h
      rw [hn, hf]
      dsimp only
      rw [if_pos (by simp)]
      refine ⟨_, rfl, hw.vis, hw.zero, ?_⟩
      simp [hw.stack]

theorem sortFold_vis (hL : Labelled P nx lab front topo) {limit : ℕ} : ∀ (l : List C) (v : Dict ℤ Bool)
    (S : List ℤ) (s : List C × List C) (r : Dict ℤ Bool × List ℤ), (∀ c ∈ l, P c) → Rep P lab v S s →
    (l.map lab).foldl (sortStep limit topo) (.ok (v, S)) = .ok r →
    ∃ s', visAll nx front limit l s = some s' ∧ Rep P lab r.1 r.2 s' := by
  intro l
  induction l with
  | nil => intro v S s r _ hR h; cases h; exact ⟨s, rfl, hR⟩
  | cons c l ih =>
    intro v S s r hl hR h
    have hc := hl c (by simp)
    rw [List.map_cons, List.foldl_cons] at h
    have hc0 : lab c ≠ 0 := by have := hL.pos c hc; omega
    have hstep : ∃ r1, sortStep limit topo (.ok (v, S)) (lab c) = .ok r1 := by
      cases he : sortStep limit topo (.ok (v, S)) (lab c) with
      | ok r1 => exact ⟨r1, rfl⟩
      | err e =>
        rw [he] at h
        exfalso
        have : ∀ l' : List ℤ, l'.foldl (sortStep limit topo) (.err e) = .err e := by
          intro l'; induction l' with
          | nil => rfl
          | cons a l' ih' => rw [List.foldl_cons]; exact ih'
        rw [this] at h; cases h
      | hang =>
        rw [he] at h
        exfalso
        have : ∀ l' : List ℤ, l'.foldl (sortStep limit topo) .hang = .hang := by
          intro l'; induction l' with
          | nil => rfl
          | cons a l' ih' => rw [List.foldl_cons]; exact ih'
        rw [this] at h; cases h
    obtain ⟨⟨v1, S1⟩, h1⟩ := hstep
    rw [h1] at h
    unfold sortStep at h1
    rw [Res.bind_ok, if_neg hc0] at h1
    dsimp only at h1
    obtain ⟨seen, hs, h1⟩ := Res.bind_eq_ok.1 h1
    unfold Dict.getE at hs
    rw [hR.vis c hc] at hs
    obtain rfl := Res.ok.inj hs
    unfold visAll
    rw [List.foldl_cons, Option.bind_some]
    by_cases hv : c ∈ s.1
    · rw [if_pos (by simpa using hv)] at h1
      obtain ⟨rfl, rfl⟩ := Prod.mk.inj (Res.ok.inj h1)
      rw [if_pos hv]
      exact ih _ _ _ _ (fun x hx => hl x (by simp [hx])) hR h
    · rw [if_neg (by simpa using hv)] at h1
      rw [if_neg hv]
      obtain ⟨s', h2, hR2⟩ := sortUtil_vis hL limit c v S s (v1, S1) hc hR h1
      rw [h2]
      exact ih _ _ _ _ (fun x hx => hl x (by simp [hx])) hR2 h

/-- the sort is the walk over the cells in the order of their numbers -/
theorem sort_vis (hL : Labelled P nx lab front topo) {limit : ℕ} {l : List C} {order : List ℤ}
    (hl : ∀ c, c ∈ l ↔ P c) (hkeys : ∀ x, x ∈ topo.keys ↔ ∃ c, P c ∧ x = lab c)
    (hs : (l.map lab).Pairwise (· < ·)) (h : sort limit topo = .ok order) :
    ∃ s, visAll nx front limit l ([], []) = some s ∧ order = s.2.map lab := by
  unfold sort at h
  obtain ⟨r, h', rfl⟩ := Res.map_eq_ok.1 h
  clear h
  rename' h' => h
  have hsorted : (initVisited topo).keys.insertionSort (· ≤ ·) = 0 :: l.map lab := by
    have hp : ((initVisited topo).keys.insertionSort (· ≤ ·)).Perm (0 :: l.map lab) := by
      refine (List.perm_insertionSort _ _).trans ((List.perm_ext_iff_of_nodup (initVisited_nodup topo) ?_).2 ?_)
      · rw [List.nodup_cons]
        refine ⟨?_, hs.imp (fun h => ne_of_lt h)⟩
        intro h0
        obtain ⟨c, hc, h0⟩ := List.mem_map.1 h0
        have := hL.pos c ((hl c).1 hc)
        omega
      · intro x
        rw [initVisited_mem, hkeys, List.mem_cons, List.mem_map]
        constructor
        · rintro (h | ⟨c, hc, rfl⟩)
          · exact .inl h
          · exact .inr ⟨c, (hl c).2 hc, rfl⟩
        · rintro (h | ⟨c, hc, rfl⟩)
          · exact .inl h
          · exact .inr ⟨c, (hl c).1 hc, rfl⟩
    refine hp.eq_of_pairwise (le := (· ≤ ·)) (fun a b _ _ h1 h2 => le_antisymm h1 h2)
      (List.pairwise_insertionSort _ _) ?_
    rw [List.pairwise_cons]
    refine ⟨fun x hx => ?_, hs.imp le_of_lt⟩
    obtain ⟨c, hc, rfl⟩ := List.mem_map.1 hx
    have := hL.pos c ((hl c).1 hc)
    omega
  rw [hsorted, List.foldl_cons] at h
  have h0 : sortStep limit topo (.ok (initVisited topo, [])) 0 = .ok (initVisited topo, []) := by
    simp [sortStep]
  rw [h0] at h
  obtain ⟨s, h1, hR⟩ := sortFold_vis hL l _ _ ([], []) r (fun c hc => (hl c).1 hc)
    ⟨fun c hc => by
        rw [initVisited_get, if_pos (.inr ((hkeys _).2 ⟨c, hc, rfl⟩))]; simp,
      .inr (by rw [initVisited_get, if_pos (.inl rfl)]), rfl⟩ h
  exact ⟨s, h1, hR.stack⟩

/-! ### The visited cells -/

theorem vis_mono {k : ℕ} {c : C} {s s' : List C × List C} (h : vis nx front k c s = some s') :
    c ∈ s'.1 ∧ (∀ x ∈ s.1, x ∈ s'.1) := by
  induction k generalizing c s s' with
  | zero => cases h
  | succ k ih =>
    unfold vis at h
    obtain ⟨r, h', rfl⟩ := Option.map_eq_some_iff.1 h
    clear h
    rename' h' => h
    split at h
    · cases h; exact ⟨by simp, fun x hx => by simp [hx]⟩
    · split at h
      · cases h; exact ⟨by simp, fun x hx => by simp [hx]⟩
      · have := ih h
        exact ⟨this.2 c (by simp), fun x hx => this.2 x (by simp [hx])⟩

/-- the new cells of a visit have their successors among the visited ones -/
theorem vis_closed {k : ℕ} {c : C} {s s' : List C × List C} (h : vis nx front k c s = some s') :
    ∀ x ∈ s'.1, x ∈ s.1 ∨ ∀ m, nx x = some m → m ∈ s'.1 := by
  induction k generalizing c s s' with
  | zero => cases h
  | succ k ih =>
    unfold vis at h
    obtain ⟨r, h', rfl⟩ := Option.map_eq_some_iff.1 h
    clear h
    rename' h' => h
    split at h
    · rename_i hn
      cases h
      intro x hx
      rcases List.mem_cons.1 hx with rfl | hx
      · right; intro m hm; rw [hn] at hm; cases hm
      · exact .inl hx
    · rename_i m hn
      split at h
      · rename_i hv
        cases h
        intro x hx
        rcases List.mem_cons.1 hx with rfl | hx
        · right; intro m' hm; rw [hn] at hm; cases hm; exact hv
        · exact .inl hx
      · intro x hx
        rcases ih h x hx with h1 | h1
        · rcases List.mem_cons.1 h1 with rfl | h1
          · right; intro m' hm; rw [hn] at hm; cases hm; exact (vis_mono h).1
          · exact .inl h1
        · exact .inr h1

def Closed (nx : C → Option C) (V : List C) : Prop := ∀ x ∈ V, ∀ m, nx x = some m → m ∈ V

theorem vis_closed' {k : ℕ} {c : C} {s s' : List C × List C} (hs : Closed nx s.1)
    (h : vis nx front k c s = some s') : Closed nx s'.1 := by
  intro x hx m hm
  rcases vis_closed h x hx with h1 | h1
  · exact (vis_mono h).2 _ (hs x h1 m hm)
  · exact h1 m hm

/-- only cells downstream are visited -/
theorem vis_reach {k : ℕ} {c : C} {s s' : List C × List C} (h : vis nx front k c s = some s') :
    ∀ x ∈ s'.1, x ∈ s.1 ∨ Relation.ReflTransGen (fun a b => nx a = some b) c x := by
  induction k generalizing c s s' with
  | zero => cases h
  | succ k ih =>
    unfold vis at h
    obtain ⟨r, h', rfl⟩ := Option.map_eq_some_iff.1 h
    clear h
    rename' h' => h
    intro x hx
    split at h
    · cases h
      rcases List.mem_cons.1 hx with rfl | hx
      · exact .inr .refl
      · exact .inl hx
    · rename_i m hn
      split at h
      · cases h
        rcases List.mem_cons.1 hx with rfl | hx
        · exact .inr .refl
        · exact .inl hx
      · rcases ih h x hx with h1 | h1
        · rcases List.mem_cons.1 h1 with rfl | h1
          · exact .inr .refl
          · exact .inl h1
        · exact .inr (.head hn h1)

/-- each new cell is put on the result list -/
theorem vis_stack {k : ℕ} {c : C} {s s' : List C × List C} (h : vis nx front k c s = some s') :
    c ∈ s'.2 ∧ ∀ x ∈ s.2, x ∈ s'.2 := by
  induction k generalizing c s s' with
  | zero => cases h
  | succ k ih =>
    unfold vis at h
    obtain ⟨r, h', rfl⟩ := Option.map_eq_some_iff.1 h
    clear h
    rename' h' => h
    have hr : ∀ x ∈ s.2, x ∈ r.2 := by
      split at h
      · cases h; exact fun x hx => hx
      · split at h
        · cases h; exact fun x hx => hx
        · exact (ih h).2
    dsimp only
    split
    · exact ⟨by simp, fun x hx => by simp [hr x hx]⟩
    · exact ⟨by simp, fun x hx => by simp [hr x hx]⟩

theorem visAll_cons {k : ℕ} {c : C} {l : List C} {s s' : List C × List C} :
    visAll nx front k (c :: l) s = some s' ↔
      ∃ s1, (if c ∈ s.1 then some s else vis nx front k c s) = some s1 ∧ visAll nx front k l s1 = some s' := by
  unfold visAll
  rw [List.foldl_cons, Option.bind_some]
  cases h : (if c ∈ s.1 then some s else vis nx front k c s) with
  | some s1 => simp
  | none =>
    simp only [reduceCtorEq, false_and, exists_false, iff_false]
    have : ∀ l : List C, l.foldl (fun r c => r.bind fun s => if c ∈ s.1 then some s else vis nx front k c s)
        (none : Option (List C × List C)) = none := by
      intro l; induction l with
      | nil => rfl
      | cons a l ih => rw [List.foldl_cons]; exact ih
    rw [this]; simp

theorem visAll_append {k : ℕ} {l1 l2 : List C} {s s' : List C × List C} :
    visAll nx front k (l1 ++ l2) s = some s' ↔
      ∃ s1, visAll nx front k l1 s = some s1 ∧ visAll nx front k l2 s1 = some s' := by
  induction l1 generalizing s with
  | nil => simp [visAll]
  | cons c l ih =>
    rw [List.cons_append, visAll_cons]
    simp only [ih, visAll_cons]
    constructor
    · rintro ⟨a, h1, b, h2, h3⟩; exact ⟨b, ⟨a, h1, h2⟩, h3⟩
    · rintro ⟨b, ⟨a, h1, h2⟩, h3⟩; exact ⟨a, h1, b, h2, h3⟩

theorem visAll_mono {k : ℕ} {l : List C} {s s' : List C × List C} (h : visAll nx front k l s = some s') :
    (∀ x ∈ s.1, x ∈ s'.1) ∧ (∀ x ∈ l, x ∈ s'.1) := by
  induction l generalizing s with
  | nil => cases h; simp
  | cons c l ih =>
    obtain ⟨s1, h1, h2⟩ := visAll_cons.1 h
    obtain ⟨i1, i2⟩ := ih h2
    split at h1
    · rename_i hc
      cases h1
      refine ⟨i1, fun x hx => ?_⟩
      rcases List.mem_cons.1 hx with rfl | hx
      · exact i1 _ hc
      · exact i2 x hx
    · obtain ⟨m1, m2⟩ := vis_mono h1
      refine ⟨fun x hx => i1 x (m2 x hx), fun x hx => ?_⟩
      rcases List.mem_cons.1 hx with rfl | hx
      · exact i1 _ m1
      · exact i2 x hx

theorem visAll_closed {k : ℕ} {l : List C} {s s' : List C × List C} (hs : Closed nx s.1)
    (h : visAll nx front k l s = some s') : Closed nx s'.1 := by
  induction l generalizing s with
  | nil => cases h; exact hs
  | cons c l ih =>
    obtain ⟨s1, h1, h2⟩ := visAll_cons.1 h
    refine ih ?_ h2
    split at h1
    · cases h1; exact hs
    · exact vis_closed' hs h1

/-! ### Two walks that put cells at different ends -/

variable {f g : C → Bool}

theorem vis_eq {k : ℕ} {c : C} {s : List C × List C} (hfg : ∀ x, x ∉ s.1 → f x = g x) (hc : c ∉ s.1) :
    vis nx f k c s = vis nx g k c s := by
  induction k generalizing c s with
  | zero => rfl
  | succ k ih =>
    unfold vis
    have h1 : f c = g c := hfg c hc
    rw [h1]
    congr 1
    split
    · rfl
    · split
      · rfl
      · rename_i hv
        exact ih (fun x hx => hfg x (fun h => hx (by simp [h]))) hv

theorem visAll_eq {k : ℕ} {l : List C} {s : List C × List C} (hfg : ∀ x, x ∉ s.1 → f x = g x) :
    visAll nx f k l s = visAll nx g k l s := by
  induction l generalizing s with
  | nil => rfl
  | cons c l ih =>
    ext s'
    rw [visAll_cons, visAll_cons]
    have : (if c ∈ s.1 then some s else vis nx f k c s) = if c ∈ s.1 then some s else vis nx g k c s := by
      split
      · rfl
      · rename_i hc; exact vis_eq hfg hc
    rw [this]
    constructor
    · rintro ⟨s1, h1, h2⟩
      refine ⟨s1, h1, ?_⟩
      rw [← ih]; exact h2
      intro x hx
      apply hfg
      intro hx'
      split at h1
      · cases h1; exact hx hx'
      · exact hx ((vis_mono h1).2 x hx')
    · rintro ⟨s1, h1, h2⟩
      refine ⟨s1, h1, ?_⟩
      rw [ih]; exact h2
      intro x hx
      apply hfg
      intro hx'
      split at h1
      · cases h1; exact hx hx'
      · exact hx ((vis_mono h1).2 x hx')

/-- walking from a cell that drains into every cell on which the ends differ, with nothing put on the
list so far -/
theorem vis_first {k : ℕ} {c : C} {V : List C} (hself : ∀ x, f x ≠ g x → nx x = some x)
    (hc : ∀ x, f x ≠ g x → Relation.ReflTransGen (fun a b => nx a = some b) c x) :
    vis nx f k c (V, []) = vis nx g k c (V, []) := by
  induction k generalizing c V with
  | zero => rfl
  | succ k ih =>
    unfold vis
    by_cases h : f c = g c
    · rw [h]
      congr 1
      split
      · rfl
      · rename_i m hm
        split
        · rfl
        · apply ih
          intro x hx
          rcases Relation.ReflTransGen.cases_head (hc x hx) with rfl | ⟨y, hy, h2⟩
          · exact absurd h hx
          · rw [hm] at hy
            obtain rfl := Option.some.inj hy
            exact h2
    · rw [hself c h]
      simp

/-- the two cells stand in different order in the two lists -/
def Swapped (a o : C) (S T : List C) : Prop := [o, a].Sublist S ∧ [a, o].Sublist T

omit [DecidableEq C] in
theorem Swapped.place {a o : C} {S T : List C} (h : Swapped a o S T) (c : C) (x y : Bool) :
    Swapped a o (if x = true then c :: S else S ++ [c]) (if y = true then c :: T else T ++ [c]) := by
  constructor
  · split
    · exact h.1.cons _
    · exact h.1.trans (List.sublist_append_left _ _)
  · split
    · exact h.2.cons _
    · exact h.2.trans (List.sublist_append_left _ _)

theorem Swapped.ne {a o : C} {S T : List C} (h : Swapped a o S T) (hS : S.Nodup) : S ≠ T := by
  rintro rfl
  obtain ⟨h1, h2⟩ := h
  have hp : S.Pairwise (fun x y => S.idxOf x < S.idxOf y) := by
    rw [List.pairwise_iff_getElem]
    intro i j hi hj hij
    rw [hS.idxOf_getElem, hS.idxOf_getElem]
    exact hij
  have e1 := List.pairwise_pair.1 (hp.sublist h1)
  have e2 := List.pairwise_pair.1 (hp.sublist h2)
  omega

/-- invariant of the two walks once `a` is on the lists: if `o` is visited, `a` and `o` are swapped -/
def Two (a o : C) (s t : List C × List C) : Prop :=
  s.1 = t.1 ∧ a ∈ s.2 ∧ a ∈ t.2 ∧ (o ∈ s.1 → Swapped a o s.2 t.2)

theorem vis_two {a o : C} (ho : nx o = some o) (hf : f o = true) (hg : g o = false) {k : ℕ} {c : C}
    {s t s' t' : List C × List C} (h : Two a o s t) (hc : c ∉ s.1) (h1 : vis nx f k c s = some s')
    (h2 : vis nx g k c t = some t') : Two a o s' t' := by
  induction k generalizing c s t s' t' with
  | zero => cases h1
  | succ k ih =>
    obtain ⟨hV, ha1, ha2, hsw⟩ := h
    unfold vis at h1 h2
    obtain ⟨r, h1', rfl⟩ := Option.map_eq_some_iff.1 h1
    obtain ⟨q, h2', rfl⟩ := Option.map_eq_some_iff.1 h2
    clear h1 h2
    rename' h1' => h1, h2' => h2
    by_cases hco : c = o
    · subst hco
      rw [ho] at h1 h2
      simp only [List.mem_cons, true_or, if_true, Option.some.injEq] at h1 h2
      subst h1; subst h2
      rw [hf, hg]
      refine ⟨by simp [hV], by simp [ha1], by simp [ha2], fun _ => ?_⟩
      simp only [if_true, Bool.false_eq_true, if_false]
      refine ⟨(List.singleton_sublist.2 ha1).cons_cons _, ?_⟩
      exact (List.singleton_sublist.2 ha2).append (List.Sublist.refl [c])
    · have key : Two a o r q := by
        have h0 : Two a o (c :: s.1, s.2) (c :: t.1, t.2) :=
          ⟨by simp [hV], ha1, ha2, fun hm => by
            rcases List.mem_cons.1 hm with h | h
            · exact absurd h.symm hco
            · exact hsw h⟩
        split at h1
        · rename_i hn
          rw [hn] at h2
          cases h1; cases h2; exact h0
        · rename_i m hn
          rw [hn] at h2
          dsimp only at h2
          rw [← hV] at h2 h0
          split at h1
          · rename_i hv
            rw [if_pos hv] at h2
            cases h1; cases h2; exact h0
          · rename_i hv
            rw [if_neg hv] at h2
            exact ih h0 hv h1 h2
      obtain ⟨k1, k2, k3, k4⟩ := key
      refine ⟨k1, ?_, ?_, fun hm => (k4 hm).place c _ _⟩
      · dsimp only; split <;> simp [k2]
      · dsimp only; split <;> simp [k3]

theorem visAll_two {a o : C} (ho : nx o = some o) (hf : f o = true) (hg : g o = false) {k : ℕ} {l : List C}
    {s t s' t' : List C × List C} (h : Two a o s t) (h1 : visAll nx f k l s = some s')
    (h2 : visAll nx g k l t = some t') : Two a o s' t' := by
  induction l generalizing s t with
  | nil => cases h1; cases h2; exact h
  | cons c l ih =>
    obtain ⟨s1, e1, h1⟩ := visAll_cons.1 h1
    obtain ⟨t1, e2, h2⟩ := visAll_cons.1 h2
    refine ih ?_ h1 h2
    rw [← h.1] at e2
    split at e1
    · rename_i hc
      rw [if_pos hc] at e2
      cases e1; cases e2; exact h
    · rename_i hc
      rw [if_neg hc] at e2
      exact vis_two ho hf hg h hc e1 e2

theorem vis_visited {k : ℕ} {c : C} {s t s' t' : List C × List C} (h : s.1 = t.1)
    (h1 : vis nx f k c s = some s') (h2 : vis nx g k c t = some t') : s'.1 = t'.1 := by
  induction k generalizing c s t s' t' with
  | zero => cases h1
  | succ k ih =>
    unfold vis at h1 h2
    obtain ⟨r, h1', rfl⟩ := Option.map_eq_some_iff.1 h1
    obtain ⟨q, h2', rfl⟩ := Option.map_eq_some_iff.1 h2
    clear h1 h2
    rename' h1' => h1, h2' => h2
    dsimp only
    rw [← h] at h2
    split at h1
    · rename_i hn
      rw [hn] at h2
      cases h1; cases h2; rfl
    · rename_i m hn
      rw [hn] at h2
      dsimp only at h2
      split at h1
      · rename_i hv
        rw [if_pos hv] at h2
        cases h1; cases h2; rfl
      · rename_i hv
        rw [if_neg hv] at h2
        exact ih (s := (c :: s.1, s.2)) (t := (c :: s.1, t.2)) rfl h1 h2

theorem vis_some {k : ℕ} {c : C} {s t s' : List C × List C} (h : s.1 = t.1)
    (h1 : vis nx f k c s = some s') : ∃ t', vis nx g k c t = some t' ∧ s'.1 = t'.1 := by
  have key : ∃ t', vis nx g k c t = some t' := by
    induction k generalizing c s t s' with
    | zero => cases h1
    | succ k ih =>
      unfold vis at h1 ⊢
      obtain ⟨r, h1', rfl⟩ := Option.map_eq_some_iff.1 h1
      clear h1
      rename' h1' => h1
      rw [← h]
      split at h1
      · exact ⟨_, rfl⟩
      · split at h1
        · rename_i hv
          rw [if_pos hv]; exact ⟨_, rfl⟩
        · rename_i hv
          obtain ⟨t', ht⟩ := ih (s := (c :: s.1, s.2)) (t := (c :: s.1, t.2)) rfl h1
          rw [if_neg hv, ht]; exact ⟨_, rfl⟩
  obtain ⟨t', ht⟩ := key
  exact ⟨t', ht, vis_visited h h1 ht⟩

theorem visAll_some {k : ℕ} {l : List C} {s t s' : List C × List C} (h : s.1 = t.1)
    (h1 : visAll nx f k l s = some s') : ∃ t', visAll nx g k l t = some t' ∧ s'.1 = t'.1 := by
  induction l generalizing s t with
  | nil => cases h1; exact ⟨t, rfl, h⟩
  | cons c l ih =>
    obtain ⟨s1, e1, h1⟩ := visAll_cons.1 h1
    split at e1
    · rename_i hc
      cases e1
      obtain ⟨t', h2, h3⟩ := ih h h1
      exact ⟨t', visAll_cons.2 ⟨t, by rw [if_pos (h ▸ hc)], h2⟩, h3⟩
    · rename_i hc
      obtain ⟨t1, e2, h4⟩ := vis_some (g := g) h e1
      obtain ⟨t', h2, h3⟩ := ih h4 h1
      exact ⟨t', visAll_cons.2 ⟨t1, by rw [if_neg (h ▸ hc), e2], h2⟩, h3⟩

/-- **The two walks agree** if and only if the first cell drains into each cell on which they differ. -/
theorem visAll_agree {k : ℕ} {c : C} {l : List C} {s t : List C × List C}
    (hfg : ∀ x, f x ≠ g x → nx x = some x ∧ f x = true ∧ g x = false) (hall : ∀ x, f x ≠ g x → x ∈ c :: l)
    (h1 : visAll nx f k (c :: l) ([], []) = some s) (h2 : visAll nx g k (c :: l) ([], []) = some t)
    (hnd : s.2.Nodup) :
    s.2 = t.2 ↔ ∀ x, f x ≠ g x → Relation.ReflTransGen (fun a b => nx a = some b) c x := by
  constructor
  · intro he o ho
    by_contra hno
    obtain ⟨hself, hf, hg⟩ := hfg o ho
    have hm := (visAll_mono h1).2 o (hall o ho)
    obtain ⟨s1, e1, h1⟩ := visAll_cons.1 h1
    obtain ⟨t1, e2, h2⟩ := visAll_cons.1 h2
    rw [if_neg (by simp)] at e1 e2
    have hns : o ∉ s1.1 := by
      intro hx
      rcases vis_reach e1 o hx with h | h
      · cases h
      · exact hno h
    have h0 : Two c o s1 t1 :=
      ⟨vis_visited rfl e1 e2, (vis_stack e1).1, (vis_stack e2).1, fun h => absurd h hns⟩
    have := (visAll_two hself hf hg h0 h1 h2).2.2.2 hm
    exact this.ne hnd he
  · intro hr
    have e : visAll nx f k (c :: l) ([], []) = visAll nx g k (c :: l) ([], []) := by
      ext s'
      rw [visAll_cons, visAll_cons]
      rw [if_neg (by simp), if_neg (by simp), vis_first (fun x hx => (hfg x hx).1) hr]
      have hcont : ∀ s1, vis nx g k c ([], []) = some s1 → ∀ x, x ∉ s1.1 → f x = g x := by
        intro s1 hs1 x hx
        by_contra hne
        apply hx
        have hcl := vis_closed' (nx := nx) (by intro x hx; cases hx) hs1
        have hin := (vis_mono hs1).1
        have key : ∀ y, Relation.ReflTransGen (fun a b => nx a = some b) c y → y ∈ s1.1 := by
          intro y hy
          induction hy with
          | refl => exact hin
          | tail _ hbc ih => exact hcl _ ih _ hbc
        exact key x (hr x hne)
      constructor
      · rintro ⟨s1, a1, a2⟩; exact ⟨s1, a1, by rw [← visAll_eq (hcont s1 a1)]; exact a2⟩
      · rintro ⟨s1, a1, a2⟩; exact ⟨s1, a1, by rw [visAll_eq (hcont s1 a1)]; exact a2⟩
    rw [e, h2] at h1
    rw [Option.some.inj h1]

end Dany.Topo
