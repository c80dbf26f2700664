import Verif.Flood.Model
import Verif.Flood.Spec
import Mathlib.Data.Fintype.Card
import Mathlib.Order.Iterate
import Mathlib.Data.Finset.Card

namespace Dany.Flood

open Function

variable {N : ℕ} {V : Type*} [LinearOrder V]

/-! ### heap -/

theorem popMin_none {l : List (V × Fin N)} (h : popMin l = none) : l = [] := by
  cases l with
  | nil => rfl
  | cons x xs =>
    simp only [popMin] at h
    split at h
    · cases h
    · split at h <;> cases h

theorem tupleLe_fst {a b : V × Fin N} (h : tupleLe a b = true) : a.1 ≤ b.1 := by
  simp only [tupleLe, decide_eq_true_eq] at h
  rcases h with h | h
  · exact h.le
  · exact h.1.le

theorem popMin_some {l : List (V × Fin N)} {m r} (h : popMin l = some (m, r)) :
    l.Perm (m :: r) ∧ ∀ y ∈ l, m.1 ≤ y.1 := by
  induction l generalizing m r with
  | nil => simp [popMin] at h
  | cons x xs ih =>
    simp only [popMin] at h
    split at h
    · rename_i hx
      have := popMin_none hx
      subst this
      cases h
      simp
    · rename_i m' rest hx
      obtain ⟨hp, hm⟩ := ih hx
      split at h
      · rename_i hle
        cases h
        refine ⟨List.Perm.refl _, ?_⟩
        intro y hy
        rcases List.mem_cons.1 hy with rfl | hy
        · exact le_refl _
        · exact (tupleLe_fst hle).trans (hm y hy)
      · rename_i hle
        cases h
        refine ⟨?_, ?_⟩
        · exact (List.Perm.cons x hp).trans (List.Perm.swap _ _ _)
        · intro y hy
          rcases List.mem_cons.1 hy with rfl | hy
          · simp only [tupleLe, decide_eq_true_eq, not_or, not_lt] at hle
            exact hle.1
          · exact hm y hy

/-! ### the main invariant -/

/-- cells waiting in a queue -/
def PF.queue (s : PF N V) : List (Fin N) := s.heap.map Prod.snd ++ s.pit

/-- Invariant of the flood.  `cur` is the cell being processed (its neighbours may still be
unvisited), if any. -/
structure Inv (rel : V → V → Prop) (nbr : Fin N → List ℕ) (dem0 : Fin N → V) (seed : List (Fin N))
    (cur : Option (Fin N)) (s : PF N V) : Prop where
  cl : ∀ n, s.closed n = true ↔ n ∈ s.done ∨ n ∈ s.queue
  nodup : (s.done ++ s.queue).Nodup
  seeds : ∀ n ∈ seed, s.closed n = true
  ge : ∀ n, dem0 n ≤ s.dem n
  unclosed : ∀ n, s.closed n = false → s.dem n = dem0 n
  key : ∀ e n, (e, n) ∈ s.heap → e = s.dem n ∧ s.dem n = dem0 n
  doneCl : ∀ c ∈ s.done, cur ≠ some c → ∀ n, Adj nbr c n → s.closed n = true
  reach : ∀ n, s.closed n = true → Reach nbr (· ∈ seed) n
  par : ∀ n, s.closed n = true → n ∈ seed ∨ ∃ c ∈ s.done, Adj nbr c n ∧ rel (s.dem c) (s.dem n)
  curDone : ∀ c, cur = some c → c ∈ s.done

theorem inv_init (rel : V → V → Prop) (nbr : Fin N → List ℕ) (dem : Fin N → V) (seed : List (Fin N))
    (hs : seed.Nodup) : Inv rel nbr dem seed none (pfInit dem seed) where
  cl n := by simp [pfInit, PF.queue]
  nodup := by simpa [pfInit, PF.queue, Function.comp_def] using hs
  seeds n h := by simp [pfInit, h]
  ge n := le_refl _
  unclosed n _ := rfl
  key e n h := by
    simp only [pfInit, List.mem_map] at h
    obtain ⟨a, _, ha⟩ := h
    cases ha
    exact ⟨rfl, rfl⟩
  doneCl c h := by simp [pfInit] at h
  reach n h := by
    simp only [pfInit, decide_eq_true_eq] at h
    exact .seed h
  par n h := by
    simp only [pfInit, decide_eq_true_eq] at h
    exact .inl h
  curDone c h := by cases h

/-- What one neighbour visit does: nothing, or close an unclosed neighbour and put it on one of the
queues. -/
theorem visit_cases (raise : V → V) (streams : Bool) (seed : List (Fin N)) (c : Fin N)
    (s : PF N V) (hseed : ∀ n ∈ seed, s.closed n = true) (m : ℕ) :
    (visit raise streams seed c s m = s ∧ (∀ h : m < N, s.closed ⟨m, h⟩ = true)) ∨
    ∃ h : m < N, s.closed ⟨m, h⟩ = false ∧ (⟨m, h⟩ : Fin N) ∉ seed ∧
      ((s.dem ⟨m, h⟩ ≤ s.dem c ∧ visit raise streams seed c s m =
          raiseInto raise c ⟨m, h⟩ { s with closed := update s.closed ⟨m, h⟩ true }) ∨
       (s.dem c < s.dem ⟨m, h⟩ ∧ visit raise streams seed c s m =
          { s with closed := update s.closed ⟨m, h⟩ true,
                   heap := (s.dem ⟨m, h⟩, ⟨m, h⟩) :: s.heap })) := by
  unfold visit
  by_cases h : m < N
  · simp only [h, dif_pos]
    cases hc : s.closed ⟨m, h⟩ with
    | true => left; exact ⟨by simp, fun _ => hc⟩
    | false =>
      have hns : (⟨m, h⟩ : Fin N) ∉ seed := fun hm => by
        have := hseed _ hm; rw [hc] at this; cases this
      right
      refine ⟨trivial, hc, hns, ?_⟩
      by_cases hle : s.dem ⟨m, h⟩ ≤ s.dem c
      · left
        refine ⟨hle, ?_⟩
        simp only [hle, if_true, Bool.false_eq_true, if_false]
        cases streams <;> simp only [Bool.false_eq_true, if_false, if_true]
        by_cases hcs : c ∈ seed
        · simp [hcs]
        · simp [hcs, hns]
      · right
        refine ⟨lt_of_not_ge hle, ?_⟩
        simp [hle]
  · left
    simp [h]

theorem inv_visit {rel : V → V → Prop} {raise : V → V} (streams : Bool) {nbr : Fin N → List ℕ}
    {dem0 : Fin N → V} {seed : List (Fin N)} {c : Fin N} {s : PF N V}
    (hinf : ∀ x, x ≤ raise x) (hrel1 : ∀ x, rel x (raise x)) (hrel2 : ∀ x y, x < y → rel x y)
    (hi : Inv rel nbr dem0 seed (some c) s) (m : ℕ) (hm : m ∈ nbr c) :
    Inv rel nbr dem0 seed (some c) (visit raise streams seed c s m) := by
  rcases visit_cases raise streams seed c s hi.seeds m with ⟨h, _⟩ | ⟨hN, hcl, hns, hh⟩
  · rw [h]; exact hi
  have hcd : c ∈ s.done := hi.curDone c rfl
  have hcc : s.closed c = true := (hi.cl c).2 (.inl hcd)
  generalize hn : (⟨m, hN⟩ : Fin N) = n at *
  have hadj : Adj nbr c n := by subst hn; exact hm
  have hnd : n ∉ s.done := fun h => by rw [(hi.cl n).2 (.inl h)] at hcl; cases hcl
  have hnq : n ∉ s.queue := fun h => by rw [(hi.cl n).2 (.inr h)] at hcl; cases hcl
  have hne : ∀ x, s.closed x = true → x ≠ n := fun x hx h => by subst h; rw [hcl] at hx; cases hx
  have hd0 : s.dem n = dem0 n := hi.unclosed n hcl
  have hpar : ∀ x, s.closed x = true → x ∈ seed ∨ ∃ c ∈ s.done, Adj nbr c x ∧ rel (s.dem c) (s.dem x) :=
    hi.par
  have hclD : ∀ x ∈ s.done, s.closed x = true := fun x hx => (hi.cl x).2 (.inl hx)
  rcases hh with ⟨hle, h⟩ | ⟨hlt, h⟩
  · rw [h]
    have hq : ∀ x, x ∈ (raiseInto raise c n { s with closed := update s.closed n true }).queue ↔
        x ∈ s.queue ∨ x = n := by
      intro x; simp [raiseInto, PF.queue, or_assoc]
    refine ⟨?_, ?_, ?_, ?_, ?_, ?_, ?_, ?_, ?_, ?_⟩
    · intro x
      rw [hq x]
      show update s.closed n true x = true ↔ x ∈ s.done ∨ _
      by_cases hx : x = n
      · subst hx; simp
      · rw [update_of_ne hx, hi.cl x]; simp [hx]
    · have h1 := hi.nodup
      have : (raiseInto raise c n { s with closed := update s.closed n true }).queue = s.queue ++ [n] := by
        simp [raiseInto, PF.queue]
      rw [this]
      show (s.done ++ (s.queue ++ [n])).Nodup
      rw [← List.append_assoc, List.nodup_append]
      refine ⟨h1, by simp, ?_⟩
      intro a ha b hb
      simp only [List.mem_singleton] at hb
      subst hb
      rintro rfl
      rcases List.mem_append.1 ha with h | h
      · exact hnd h
      · exact hnq h
    · intro x hx
      show update s.closed n true x = true
      rw [update_of_ne (hne x (hi.seeds x hx))]; exact hi.seeds x hx
    · intro x
      show dem0 x ≤ update s.dem n _ x
      by_cases hx : x = n
      · subst hx
        rw [update_self]
        exact (hd0 ▸ hle).trans (hinf _)
      · rw [update_of_ne hx]; exact hi.ge x
    · intro x hx
      by_cases hxn : x = n
      · subst hxn
        have : update s.closed x true x = false := hx
        simp at this
      · have : update s.closed n true x = false := hx
        rw [update_of_ne hxn] at this
        show update s.dem n _ x = _
        rw [update_of_ne hxn]; exact hi.unclosed x this
    · intro e x hx
      have hx' : (e, x) ∈ s.heap := hx
      have hxn : x ≠ n := by
        rintro rfl
        exact hnq (List.mem_append.2 (.inl (List.mem_map.2 ⟨_, hx', rfl⟩)))
      show e = update s.dem n _ x ∧ update s.dem n _ x = _
      rw [update_of_ne hxn]
      exact hi.key e x hx'
    · intro d hd hdc x hx
      have := hi.doneCl d hd hdc x hx
      show update s.closed n true x = true
      rw [update_of_ne (hne x this)]; exact this
    · intro x hx
      by_cases hxn : x = n
      · subst hxn; exact .step (hi.reach c hcc) hadj
      · have : update s.closed n true x = true := hx
        rw [update_of_ne hxn] at this
        exact hi.reach x this
    · intro x hx
      by_cases hxn : x = n
      · subst hxn
        right
        refine ⟨c, hcd, hadj, ?_⟩
        show rel (update s.dem x _ c) (update s.dem x _ x)
        rw [update_self, update_of_ne (hne c hcc)]
        exact hrel1 _
      · have hx' : s.closed x = true := by
          have : update s.closed n true x = true := hx
          rwa [update_of_ne hxn] at this
        rcases hpar x hx' with h | ⟨d, hd, ha, hr⟩
        · exact .inl h
        · right
          refine ⟨d, hd, ha, ?_⟩
          show rel (update s.dem n _ d) (update s.dem n _ x)
          rw [update_of_ne hxn, update_of_ne (hne d (hclD d hd))]
          exact hr
    · intro d hd; exact hi.curDone d hd
  · rw [h]
    have hq : ∀ x, x ∈ ({ s with closed := update s.closed n true, heap := (s.dem n, n) :: s.heap } :
        PF N V).queue ↔ x = n ∨ x ∈ s.queue := by
      intro x; simp [PF.queue]
    refine ⟨?_, ?_, ?_, ?_, ?_, ?_, ?_, ?_, ?_, ?_⟩
    · intro x
      rw [hq x]
      show update s.closed n true x = true ↔ x ∈ s.done ∨ _
      by_cases hx : x = n
      · subst hx; simp
      · rw [update_of_ne hx, hi.cl x]; simp [hx]
    · have h1 := hi.nodup
      show (s.done ++ (n :: s.heap.map Prod.snd ++ s.pit)).Nodup
      rw [List.cons_append]
      refine (List.perm_middle.nodup_iff).2 ?_
      rw [List.nodup_cons]
      refine ⟨?_, h1⟩
      intro h
      rcases List.mem_append.1 h with h | h
      · exact hnd h
      · exact hnq h
    · intro x hx
      show update s.closed n true x = true
      rw [update_of_ne (hne x (hi.seeds x hx))]; exact hi.seeds x hx
    · exact hi.ge
    · intro x hx
      have : update s.closed n true x = false := hx
      by_cases hxn : x = n
      · subst hxn; simp at this
      · rw [update_of_ne hxn] at this
        exact hi.unclosed x this
    · intro e x hx
      rcases List.mem_cons.1 hx with hx | hx
      · cases hx; exact ⟨rfl, hd0⟩
      · exact hi.key e x hx
    · intro d hd hdc x hx
      have := hi.doneCl d hd hdc x hx
      show update s.closed n true x = true
      rw [update_of_ne (hne x this)]; exact this
    · intro x hx
      by_cases hxn : x = n
      · subst hxn; exact .step (hi.reach c hcc) hadj
      · have : update s.closed n true x = true := hx
        rw [update_of_ne hxn] at this
        exact hi.reach x this
    · intro x hx
      by_cases hxn : x = n
      · subst hxn
        exact .inr ⟨c, hcd, hadj, hrel2 _ _ hlt⟩
      · have hx' : s.closed x = true := by
          have : update s.closed n true x = true := hx
          rwa [update_of_ne hxn] at this
        exact hpar x hx'
    · intro d hd; exact hi.curDone d hd

/-- A visit leaves closed cells closed and closes its argument. -/
theorem visit_closed (raise : V → V) (streams : Bool) (seed : List (Fin N)) (c : Fin N)
    (s : PF N V) (hseed : ∀ n ∈ seed, s.closed n = true) (m : ℕ) :
    (∀ x, s.closed x = true → (visit raise streams seed c s m).closed x = true) ∧
    (∀ h : m < N, (visit raise streams seed c s m).closed ⟨m, h⟩ = true) := by
  rcases visit_cases raise streams seed c s hseed m with ⟨h, h2⟩ | ⟨hN, hcl, hns, ⟨_, h⟩ | ⟨_, h⟩⟩
  · rw [h]; exact ⟨fun _ h => h, h2⟩
  all_goals
    rw [h]
    constructor
    · intro x hx
      show update s.closed _ true x = true
      by_cases hxn : x = ⟨m, hN⟩
      · subst hxn; simp
      · rw [update_of_ne hxn]; exact hx
    · intro h'
      show update s.closed _ true _ = true
      simp

theorem inv_fold {rel : V → V → Prop} {raise : V → V} (streams : Bool) {nbr : Fin N → List ℕ}
    {dem0 : Fin N → V} {seed : List (Fin N)} {c : Fin N}
    (hinf : ∀ x, x ≤ raise x) (hrel1 : ∀ x, rel x (raise x)) (hrel2 : ∀ x y, x < y → rel x y)
    (l : List ℕ) (hl : ∀ m ∈ l, m ∈ nbr c) (s : PF N V)
    (hi : Inv rel nbr dem0 seed (some c) s) :
    let t := l.foldl (visit raise streams seed c) s
    Inv rel nbr dem0 seed (some c) t ∧ (∀ x, s.closed x = true → t.closed x = true) ∧
      ∀ x : Fin N, x.val ∈ l → t.closed x = true := by
  induction l generalizing s with
  | nil => exact ⟨hi, fun _ h => h, fun x h => by simp at h⟩
  | cons m l ih =>
    simp only [List.foldl_cons]
    have hi' := inv_visit streams hinf hrel1 hrel2 hi m (hl m (by simp))
    obtain ⟨h1, h2, h3⟩ := ih (fun x hx => hl x (by simp [hx])) _ hi'
    obtain ⟨c1, c2⟩ := visit_closed raise streams seed c s hi.seeds m
    refine ⟨h1, fun x hx => h2 x (c1 x hx), ?_⟩
    intro x hx
    rcases List.mem_cons.1 hx with hx | hx
    · subst hx
      exact h2 x (c2 x.isLt)
    · exact h3 x hx

theorem burn_ne (raise : V → V) (streams : Bool) (nbr : Fin N → List ℕ) (seed : List (Fin N))
    (c : Fin N) (dem : Fin N → V) (x : Fin N) (h : x ≠ c ∨ c ∉ seed ∨ streams = false) :
    burn raise streams nbr seed c dem x = dem x := by
  unfold burn
  split
  · rename_i hh
    rcases h with h | h | h
    · rcases streamElevs nbr seed c dem with _ | ⟨a, _ | ⟨b, es⟩⟩
      · rfl
      · rfl
      · dsimp only
        split
        · exact update_of_ne h _ _
        · rfl
    · exact absurd hh.2 h
    · simp [h] at hh
  · rfl

theorem burn_ge (raise : V → V) (hinf : ∀ x, x ≤ raise x) (streams : Bool) (nbr : Fin N → List ℕ)
    (seed : List (Fin N)) (c : Fin N) (dem : Fin N → V) (x : Fin N) :
    dem x ≤ burn raise streams nbr seed c dem x := by
  by_cases hx : x = c
  · subst hx
    unfold burn
    split
    · rcases streamElevs nbr seed x dem with _ | ⟨a, _ | ⟨b, es⟩⟩
      · exact le_refl _
      · exact le_refl _
      · dsimp only
        split
        · rename_i h
          rw [update_self]
          exact h.le.trans (hinf _)
        · exact le_refl _
    · exact le_refl _
  · rw [burn_ne _ _ _ _ _ _ _ (.inl hx)]

/-- A pop together with the pit filling of stream cells re-establishes the invariant with the popped
cell as current cell. -/
theorem inv_pop {rel : V → V → Prop} {raise : V → V} (streams : Bool) {nbr : Fin N → List ℕ}
    {dem0 : Fin N → V} {seed : List (Fin N)} {s s' : PF N V} {c : Fin N}
    (hinf : ∀ x, x ≤ raise x)
    (hi : Inv rel nbr dem0 seed none s) (hp : popNext s = some (c, s')) :
    Inv rel nbr dem0 seed (some c)
      { s' with dem := burn raise streams nbr seed c s'.dem, done := s'.done ++ [c] } ∧
    s'.dem = s.dem ∧ s'.closed = s.closed ∧ s'.done = s.done ∧ c ∉ s.done ∧
      s'.queue.length + 1 = s.queue.length := by
  have key : s'.dem = s.dem ∧ s'.closed = s.closed ∧ s'.done = s.done ∧
      s.queue.Perm (c :: s'.queue) ∧ (∀ e n, (e, n) ∈ s'.heap → (e, n) ∈ s.heap) := by
    unfold popNext at hp
    split at hp
    · rename_i c' rest hpit
      cases hp
      refine ⟨rfl, rfl, rfl, ?_, fun _ _ h => h⟩
      simp only [PF.queue, hpit]
      exact List.perm_middle
    · rename_i hpit
      split at hp
      · cases hp
      · rename_i e c' rest hm
        cases hp
        obtain ⟨h1, _⟩ := popMin_some hm
        refine ⟨rfl, rfl, rfl, ?_, ?_⟩
        · simp only [PF.queue, hpit, List.append_nil]
          exact (h1.map Prod.snd)
        · intro e n h
          exact h1.mem_iff.2 (List.mem_cons_of_mem _ h)
  obtain ⟨hd, hc, hdn, hq, hh⟩ := key
  have hnd : (s.done ++ (c :: s'.queue)).Nodup := ((hq.append_left s.done).nodup_iff).1 hi.nodup
  have hcq : c ∈ s.queue := hq.mem_iff.2 (by simp)
  have hcnd : c ∉ s.done := by
    intro h
    have := (List.nodup_append.1 hnd).2.2 c h c (by simp)
    exact this rfl
  have hcnq : c ∉ s'.queue := by
    have := (List.nodup_append.1 hnd).2.1
    exact (List.nodup_cons.1 this).1
  have hcc : s.closed c = true := (hi.cl c).2 (.inr hcq)
  refine ⟨⟨?_, ?_, ?_, ?_, ?_, ?_, ?_, ?_, ?_, ?_⟩, hd, hc, hdn, hcnd, by
    have := hq.length_eq; simp at this; omega⟩
  · intro n
    show s'.closed n = true ↔ n ∈ s'.done ++ [c] ∨ n ∈ s'.queue
    rw [hc, hi.cl n, hdn, hq.mem_iff]
    simp [or_assoc]
  · show (s'.done ++ [c] ++ s'.queue).Nodup
    rw [hdn]; simpa using hnd
  · intro n h
    show s'.closed n = true
    rw [hc]; exact hi.seeds n h
  · intro n
    exact (hi.ge n).trans (hd ▸ burn_ge raise hinf streams nbr seed c s'.dem n)
  · intro n h'
    have h : s'.closed n = false := h'
    clear h'
    rw [hc] at h
    have hnc : n ≠ c := by rintro rfl; rw [hcc] at h; cases h
    show burn raise streams nbr seed c s'.dem n = _
    rw [burn_ne _ _ _ _ _ _ _ (.inl hnc), hd]
    exact hi.unclosed n h
  · intro e n h
    have hnc : n ≠ c := by
      rintro rfl
      exact hcnq (List.mem_append.2 (.inl (List.mem_map.2 ⟨_, h, rfl⟩)))
    show e = burn raise streams nbr seed c s'.dem n ∧ burn raise streams nbr seed c s'.dem n = _
    rw [burn_ne _ _ _ _ _ _ _ (.inl hnc), hd]
    exact hi.key e n (hh e n h)
  · intro d hd' hne n ha
    show s'.closed n = true
    rw [hc]
    rcases List.mem_append.1 hd' with h | h
    · exact hi.doneCl d (hdn ▸ h) (by simp) n ha
    · simp only [List.mem_singleton] at h
      subst h; exact absurd rfl hne
  · intro n h
    exact hi.reach n (hc ▸ h)
  · intro n h
    rcases hi.par n (hc ▸ h) with h1 | ⟨d, hd1, ha, hr⟩
    · exact .inl h1
    · by_cases hns : n ∈ seed
      · exact .inl hns
      right
      refine ⟨d, by show d ∈ s'.done ++ [c]; rw [hdn]; simp [hd1], ha, ?_⟩
      show rel (burn raise streams nbr seed c s'.dem d) (burn raise streams nbr seed c s'.dem n)
      have hdc : d ≠ c := by rintro rfl; exact hcnd hd1
      have hn : burn raise streams nbr seed c s'.dem n = s'.dem n := by
        by_cases hnc : n = c
        · exact burn_ne _ _ _ _ _ _ _ (.inr (.inl (hnc ▸ hns)))
        · exact burn_ne _ _ _ _ _ _ _ (.inl hnc)
      rw [burn_ne _ _ _ _ _ _ _ (.inl hdc), hn, hd]
      exact hr
  · intro d h
    cases h
    show _ ∈ s'.done ++ [_]
    simp

theorem inv_process {rel : V → V → Prop} {raise : V → V} (streams : Bool) {nbr : Fin N → List ℕ}
    {dem0 : Fin N → V} {seed : List (Fin N)} {s s' : PF N V} {c : Fin N}
    (hinf : ∀ x, x ≤ raise x) (hrel1 : ∀ x, rel x (raise x)) (hrel2 : ∀ x y, x < y → rel x y)
    (hi : Inv rel nbr dem0 seed none s) (hp : popNext s = some (c, s')) :
    Inv rel nbr dem0 seed none (process raise streams nbr seed c s') := by
  obtain ⟨h0, _⟩ := inv_pop (raise := raise) streams hinf hi hp
  obtain ⟨h1, _, h3⟩ := inv_fold streams hinf hrel1 hrel2 (nbr c) (fun _ h => h) _ h0
  refine ⟨h1.cl, h1.nodup, h1.seeds, h1.ge, h1.unclosed, h1.key, ?_, h1.reach, h1.par, ?_⟩
  · intro d hd _ n ha
    by_cases hdc : d = c
    · subst hdc; exact h3 n ha
    · exact h1.doneCl d hd (by simpa using fun h => hdc h.symm) n ha
  · intro c h; cases h

end Dany.Flood
