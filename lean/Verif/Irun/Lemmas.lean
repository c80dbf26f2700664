import Verif.Irun.Model
import Verif.Irun.Spec
import Mathlib.Algebra.BigOperators.Group.Finset.Basic
import Mathlib.Algebra.Order.BigOperators.Group.Finset
import Mathlib.Data.Fintype.Card

/-!
# The upstream search of `irunbnd`
-/

namespace Dany.Irun

open Function Relation

variable {N : ℕ} {fdir sa : Fin N → ℤ}

theorem mem_ups {u n : Fin N} : u ∈ ups fdir n ↔ Into fdir u n := by simp [ups, Into]

theorem Into.unique {u a b : Fin N} (h1 : Into fdir u a) (h2 : Into fdir u b) : a = b := by
  unfold Into at h1 h2
  apply Fin.ext
  omega

/-- what has been visited: `V v` holds for visited cells; cells flowing into a visited cell are visited
if anything flows into them -/
def Closed (fdir : Fin N → ℤ) (V : Fin N → Prop) : Prop :=
  ∀ v u, V v → Into fdir u v → ups fdir u ≠ [] → V u

/-- invariant of the inner loop; `V0`, `irun0` are the visited cells and the array at its start -/
structure CInv (fdir : Fin N → ℤ) (V0 : List (Fin N)) (irun0 : Fin N → ℤ) (s : Fin N) (iseg : ℤ)
    (stack visited : List (Fin N)) (irun : Fin N → ℤ) : Prop where
  sub : ∀ v ∈ V0, v ∈ visited
  new : ∀ v ∈ visited, v ∈ V0 ∨ (v ∉ V0 ∧ Down fdir v s ∧ ups fdir v ≠ [])
  arr : ∀ u, (u = s ∨ (∃ v ∈ visited, v ∉ V0 ∧ Into fdir u v) → irun u = iseg) ∧
    (¬ (u = s ∨ (∃ v ∈ visited, v ∉ V0 ∧ Into fdir u v)) → irun u = irun0 u)
  stk : ∀ x ∈ stack, Down fdir x s
  exp : ∀ v u, v ∈ visited → Into fdir u v → ups fdir u ≠ [] → u ∈ stack ∨ u ∈ visited
  root : ups fdir s ≠ [] → s ∈ stack ∨ s ∈ visited

/-- entries on the stack and entries still to come -/
def work (fdir : Fin N → ℤ) (stack visited : List (Fin N)) : ℕ :=
  stack.length + ∑ c, if c ∈ visited then 0 else (ups fdir c).length

theorem work_visit {visited : List (Fin N)} {c : Fin N} (h0 : c ∉ visited) :
    (∑ x, if x ∈ visited ++ [c] then 0 else (ups fdir x).length) + (ups fdir c).length =
      ∑ x, if x ∈ visited then 0 else (ups fdir x).length := by
  rw [← Finset.sum_erase_add _ _ (Finset.mem_univ c),
    ← Finset.sum_erase_add _ (fun x => if x ∈ visited then 0 else (ups fdir x).length)
      (Finset.mem_univ c)]
  simp only [List.mem_append, List.mem_singleton, or_true, if_true, add_zero, h0, if_false]
  congr 1
  apply Finset.sum_congr rfl
  intro x hx
  simp [Finset.ne_of_mem_erase hx]

theorem climb_ok {V0 : List (Fin N)} {irun0 : Fin N → ℤ} {s : Fin N} {iseg : ℤ}
    (hV0 : Closed fdir (· ∈ V0)) :
    ∀ (fuel : ℕ) (stack visited : List (Fin N)) (irun : Fin N → ℤ),
      CInv fdir V0 irun0 s iseg stack visited irun → work fdir stack visited < fuel →
      ∃ V' ir, climb fdir iseg fuel stack visited irun = .ok (V', ir) ∧
        (∀ v, v ∈ V' ↔ v ∈ V0 ∨ (Down fdir v s ∧ ups fdir v ≠ [])) ∧
        (∀ u, (u = s ∨ (∃ v, v ∉ V0 ∧ Down fdir v s ∧ Into fdir u v)) → ir u = iseg) ∧
        (∀ u, ¬ (u = s ∨ (∃ v, v ∉ V0 ∧ Down fdir v s ∧ Into fdir u v)) → ir u = irun0 u) := by
  intro fuel
  induction fuel with
  | zero => intro _ _ _ _ h; omega
  | succ k ih =>
    intro stack visited irun hi hw
    cases stack with
    | nil =>
      have hall : ∀ v, Down fdir v s → ups fdir v ≠ [] → v ∈ visited := by
        intro v hv
        induction hv using ReflTransGen.head_induction_on with
        | refl =>
          intro h
          rcases hi.root h with h | h
          · cases h
          · exact h
        | @head a b hab _ ihb =>
          intro h
          have hb : ups fdir b ≠ [] := List.ne_nil_of_mem (mem_ups.2 hab)
          rcases hi.exp b a (ihb hb) hab h with h | h
          · cases h
          · exact h
      have hiff : ∀ u, (u = s ∨ (∃ v ∈ visited, v ∉ V0 ∧ Into fdir u v)) ↔
          (u = s ∨ (∃ v, v ∉ V0 ∧ Down fdir v s ∧ Into fdir u v)) := by
        intro u
        constructor
        · rintro (h | ⟨v, hv, hv0, huv⟩)
          · exact .inl h
          · rcases hi.new v hv with h | h
            · exact absurd h hv0
            · exact .inr ⟨v, hv0, h.2.1, huv⟩
        · rintro (h | ⟨v, hv0, hv, huv⟩)
          · exact .inl h
          · exact .inr ⟨v, hall v hv (List.ne_nil_of_mem (mem_ups.2 huv)), hv0, huv⟩
      refine ⟨visited, irun, rfl, ?_, fun u hu => (hi.arr u).1 ((hiff u).2 hu),
        fun u hu => (hi.arr u).2 (fun h => hu ((hiff u).1 h))⟩
      intro v
      constructor
      · intro hv
        rcases hi.new v hv with h | h
        · exact .inl h
        · exact .inr h.2
      · rintro (h | h)
        · exact hi.sub v h
        · exact hall v h.1 h.2
    | cons x rest =>
      have hx := hi.stk x (by simp)
      simp only [climb]
      by_cases hu : ups fdir x = []
      · rw [if_pos hu]
        apply ih
        · refine ⟨hi.sub, hi.new, hi.arr, fun y hy => hi.stk y (by simp [hy]), ?_, ?_⟩
          · intro v u hv huv hne
            rcases hi.exp v u hv huv hne with h | h
            · rcases List.mem_cons.1 h with rfl | h
              · exact absurd hu hne
              · exact .inl h
            · exact .inr h
          · intro hs
            rcases hi.root hs with h | h
            · rcases List.mem_cons.1 h with rfl | h
              · exact absurd hu hs
              · exact .inl h
            · exact .inr h
        · unfold work at hw ⊢
          simp only [List.length_cons] at hw
          omega
      · rw [if_neg hu]
        by_cases hv : x ∈ visited
        · rw [if_pos hv]
          apply ih
          · refine ⟨hi.sub, hi.new, hi.arr, fun y hy => hi.stk y (by simp [hy]), ?_, ?_⟩
            · intro v u hv' huv hne
              rcases hi.exp v u hv' huv hne with h | h
              · rcases List.mem_cons.1 h with rfl | h
                · exact .inr hv
                · exact .inl h
              · exact .inr h
            · intro hs
              rcases hi.root hs with h | h
              · rcases List.mem_cons.1 h with rfl | h
                · exact .inr hv
                · exact .inl h
              · exact .inr h
          · unfold work at hw ⊢
            simp only [List.length_cons] at hw
            omega
        · rw [if_neg hv]
          have hx0 : x ∉ V0 := fun h => hv (hi.sub x h)
          apply ih
          · refine ⟨fun v h => by simp [hi.sub v h], ?_, ?_, ?_, ?_, ?_⟩
            · intro v h
              rcases List.mem_append.1 h with h | h
              · exact hi.new v h
              · rw [List.mem_singleton] at h
                subst h
                exact .inr ⟨hx0, hx, hu⟩
            · intro u
              unfold fill
              constructor
              · rintro (h | ⟨v, hv', h0, huv⟩)
                · split
                  · rfl
                  · exact (hi.arr u).1 (.inl h)
                · split
                  · rfl
                  · rename_i hnot
                    rcases List.mem_append.1 hv' with h | h
                    · exact (hi.arr u).1 (.inr ⟨v, h, h0, huv⟩)
                    · rw [List.mem_singleton] at h
                      subst h
                      exact absurd (mem_ups.2 huv) hnot
              · intro h
                rw [if_neg (fun hm => h (.inr ⟨x, by simp, hx0, mem_ups.1 hm⟩))]
                apply (hi.arr u).2
                rintro (h' | ⟨v, hv', h0, huv⟩)
                · exact h (.inl h')
                · exact h (.inr ⟨v, by simp [hv'], h0, huv⟩)
            · intro y hy
              rcases List.mem_append.1 hy with h | h
              · exact ReflTransGen.head (mem_ups.1 (List.mem_reverse.1 h)) hx
              · exact hi.stk y (by simp [h])
            · intro v u hv' huv hne
              rcases List.mem_append.1 hv' with h | h
              · rcases hi.exp v u h huv hne with h | h
                · rcases List.mem_cons.1 h with rfl | h
                  · right; simp
                  · left; simp [h]
                · right; simp [h]
              · rw [List.mem_singleton] at h
                subst h
                left
                simp [mem_ups.2 huv]
            · intro hs
              rcases hi.root hs with h | h
              · rcases List.mem_cons.1 h with rfl | h
                · right; simp
                · left; simp [h]
              · right; simp [h]
          · have := work_visit (fdir := fdir) hv
            unfold work at hw ⊢
            simp only [List.length_cons, List.length_append, List.length_reverse] at hw ⊢
            omega

theorem ups_sum_le : ∑ c, (ups fdir c).length ≤ N := by
  have h : ∀ c, (ups fdir c).length = (Finset.univ.filter (fun m => fdir m = ((c : ℕ) : ℤ))).card := by
    intro c
    rw [ups, ← List.toFinset_card_of_nodup ((List.nodup_finRange N).filter _)]
    congr 1
    ext m
    simp
  simp only [h]
  rw [← Finset.card_biUnion]
  · refine (Finset.card_le_univ _).trans ?_
    simp
  · intro a _ b _ hab
    rw [Function.onFun, Finset.disjoint_left]
    intro m hm hm'
    simp only [Finset.mem_filter, Finset.mem_univ, true_and] at hm hm'
    apply hab
    apply Fin.ext
    omega

theorem work_start (s : Fin N) (visited : List (Fin N)) : work fdir [s] visited ≤ N + 1 := by
  unfold work
  have : (∑ c, if c ∈ visited then 0 else (ups fdir c).length) ≤ ∑ c, (ups fdir c).length := by
    apply Finset.sum_le_sum
    intro c _
    split <;> simp
  have := ups_sum_le (fdir := fdir)
  simp only [List.length_singleton]
  omega

/-- the stream cells in `P` on the flow path of `v` -/
def In (fdir : Fin N → ℤ) (P : List (Fin N)) (v : Fin N) : Prop := ∃ s ∈ P, Down fdir v s

/-- what the array holds after the stream cells in `P` -/
structure OInv (fdir sa : Fin N → ℤ) (P : List (Fin N)) (V : List (Fin N)) (irun : Fin N → ℤ) : Prop where
  vis : ∀ v, v ∈ V ↔ In fdir P v ∧ ups fdir v ≠ []
  none : ∀ u, u ∉ P → (∀ v, Into fdir u v → ¬ In fdir P v) → irun u = 0
  own : ∀ u, u ∈ P → (∀ v, Into fdir u v → ∀ s ∈ P, Down fdir v s → ∃ t ∈ P, Down fdir v t ∧ t ≤ u) →
    irun u = sa u
  other : ∀ u v s, Into fdir u v → s ∈ P → Down fdir v s → (∀ t ∈ P, Down fdir v t → s ≤ t) →
    (u ∉ P ∨ u ≤ s) → irun u = sa s

theorem cellStep_ok {P V : List (Fin N)} {irun : Fin N → ℤ} {s : Fin N} {fuel : ℕ} (hf : N + 1 < fuel)
    (hi : OInv fdir sa P V irun) (hs : ∀ p ∈ P, p < s) :
    ∃ V' ir, cellStep fuel fdir sa (.ok (V, irun)) s = .ok (V', ir) ∧ OInv fdir sa (P ++ [s]) V' ir := by
  have hcl : Closed fdir (· ∈ V) := by
    intro v u hv huv hne
    obtain ⟨⟨p, hp, hd⟩, _⟩ := (hi.vis v).1 hv
    exact (hi.vis u).2 ⟨⟨p, hp, ReflTransGen.head huv hd⟩, hne⟩
  obtain ⟨V', ir, e, h1, h2, h3⟩ := climb_ok (s := s) (iseg := sa s) (irun0 := irun) hcl fuel [s] V
    (update irun s (sa s)) (by
      refine ⟨fun v h => h, fun v h => .inl h, ?_, ?_, ?_, ?_⟩
      · intro u
        constructor
        · rintro (rfl | ⟨v, h, h0, _⟩)
          · simp
          · exact absurd h h0
        · intro h
          rw [update_of_ne (fun e => h (.inl e))]
      · intro x hx
        rw [List.mem_singleton] at hx
        subst hx
        exact ReflTransGen.refl
      · intro v u hv huv hne
        exact .inr (hcl v u hv huv hne)
      · intro _; left; simp) (lt_of_le_of_lt (work_start s V) hf)
  refine ⟨V', ir, e, ?_⟩
  have hnin : ∀ v u, Into fdir u v → (v ∉ V ↔ ¬ In fdir P v) := by
    intro v u huv
    rw [hi.vis]
    have : ups fdir v ≠ [] := List.ne_nil_of_mem (mem_ups.2 huv)
    tauto
  have hsP : s ∉ P := fun h => lt_irrefl _ (hs s h)
  constructor
  · intro v
    rw [h1, hi.vis]
    constructor
    · rintro (⟨⟨p, hp, hd⟩, hn⟩ | ⟨hd, hn⟩)
      · exact ⟨⟨p, by simp [hp], hd⟩, hn⟩
      · exact ⟨⟨s, by simp, hd⟩, hn⟩
    · rintro ⟨⟨p, hp, hd⟩, hn⟩
      rcases List.mem_append.1 hp with hp | hp
      · exact .inl ⟨⟨p, hp, hd⟩, hn⟩
      · rw [List.mem_singleton] at hp
        subst hp
        exact .inr ⟨hd, hn⟩
  · intro u hu hno
    rw [h3 u]
    · apply hi.none u (fun h => hu (by simp [h]))
      rintro v huv ⟨p, hp, hd⟩
      exact hno v huv ⟨p, by simp [hp], hd⟩
    · rintro (rfl | ⟨v, _, hd, huv⟩)
      · exact hu (by simp)
      · exact hno v huv ⟨s, by simp, hd⟩
  · intro u hu h
    by_cases hus : u = s
    · subst hus; exact h2 u (.inl rfl)
    · have huP : u ∈ P := by
        rcases List.mem_append.1 hu with h | h
        · exact h
        · exact absurd (List.mem_singleton.1 h) hus
      have key : ∀ v, Into fdir u v → ∀ t ∈ P ++ [s], Down fdir v t → ∃ t ∈ P, Down fdir v t ∧ t ≤ u := by
        intro v huv t ht hd
        obtain ⟨t', ht', hd', hle⟩ := h v huv t ht hd
        rcases List.mem_append.1 ht' with h | h
        · exact ⟨t', h, hd', hle⟩
        · rw [List.mem_singleton] at h
          subst h
          exact absurd (hs u huP) (not_lt.2 hle)
      rw [h3 u]
      · apply hi.own u huP
        intro v huv t ht hd
        exact key v huv t (by simp [ht]) hd
      · rintro (h | ⟨v, hv, hd, huv⟩)
        · exact hus h
        · obtain ⟨t, ht, hdt, _⟩ := key v huv s (by simp) hd
          exact ((hnin v u huv).1 hv) ⟨t, ht, hdt⟩
  · intro u v t huv ht hd hmin hor
    by_cases hts : t ∈ P
    · -- an earlier stream cell has claimed the path
      have hus : u ≠ s := by
        rintro rfl
        rcases hor with h | h
        · exact h (by simp)
        · exact absurd (hs t hts) (not_lt.2 h)
      rw [h3 u]
      · apply hi.other u v t huv hts hd (fun t' ht' hd' => hmin t' (by simp [ht']) hd')
        rcases hor with h | h
        · exact .inl (fun h' => h (by simp [h']))
        · exact .inr h
      · rintro (h | ⟨v', hv', _, huv'⟩)
        · exact hus h
        · have := huv.unique huv'
          subst this
          exact ((hnin v u huv).1 hv') ⟨t, hts, hd⟩
    · have : t = s := by
        rcases List.mem_append.1 ht with h | h
        · exact absurd h hts
        · exact List.mem_singleton.1 h
      subst this
      apply h2 u
      right
      refine ⟨v, (hnin v u huv).2 ?_, hd, huv⟩
      rintro ⟨p, hp, hd'⟩
      exact absurd (hs p hp) (not_lt.2 (hmin p (by simp [hp]) hd'))

theorem mem_streamCells {n : Fin N} : n ∈ streamCells sa ↔ 0 < sa n := by simp [streamCells]

theorem streamCells_sorted : (streamCells sa).Pairwise (· < ·) :=
  (List.pairwise_lt_finRange N).filter _

theorem fold_ok {fuel : ℕ} (hf : N + 1 < fuel) : ∀ (l P V : List (Fin N)) (irun : Fin N → ℤ),
    OInv fdir sa P V irun → (P ++ l).Pairwise (· < ·) →
    ∃ V' ir, l.foldl (cellStep fuel fdir sa) (.ok (V, irun)) = .ok (V', ir) ∧
      OInv fdir sa (P ++ l) V' ir := by
  intro l
  induction l with
  | nil => intro P V irun hi _; exact ⟨V, irun, rfl, by simpa using hi⟩
  | cons s l ih =>
    intro P V irun hi hp
    obtain ⟨V1, ir1, e1, hi1⟩ := cellStep_ok (s := s) hf hi (by
      intro p hp'
      exact (List.pairwise_append.1 hp).2.2 p hp' s (by simp))
    rw [List.foldl_cons, e1]
    obtain ⟨V', ir, e, h⟩ := ih (P ++ [s]) V1 ir1 hi1 (by simpa using hp)
    exact ⟨V', ir, e, by simpa using h⟩

theorem irunbnd_ok {fuel : ℕ} (hf : N + 1 < fuel) : ∃ ir V, irunbnd fuel fdir sa = .ok ir ∧
    OInv fdir sa (streamCells sa) V ir := by
  obtain ⟨V, ir, e, h⟩ := fold_ok (fdir := fdir) (sa := sa) hf (streamCells sa) [] [] (fun _ => 0) (by
    refine ⟨?_, ?_, ?_, ?_⟩
    · intro v; simp [In]
    · intro u _ _; rfl
    · intro u hu; cases hu
    · intro u v s _ hs; cases hs) (by simpa using streamCells_sorted)
  refine ⟨ir, V, ?_, by simpa using h⟩
  unfold irunbnd
  rw [e]
  rfl

end Dany.Irun
