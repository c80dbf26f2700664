import Verif.Flood.Lemmas

namespace Dany.Flood

open Function

variable {N : ℕ} {V : Type*} [LinearOrder V]

theorem visit_done (raise : V → V) (streams : Bool) (seed : List (Fin N)) (c : Fin N) (s : PF N V)
    (m : ℕ) : (visit raise streams seed c s m).done = s.done := by
  unfold visit raiseInto
  dsimp only
  split_ifs <;> rfl

theorem foldVisit_done (raise : V → V) (streams : Bool) (seed : List (Fin N)) (c : Fin N) (l : List ℕ)
    (s : PF N V) : (l.foldl (visit raise streams seed c) s).done = s.done := by
  induction l generalizing s with
  | nil => rfl
  | cons m l ih => rw [List.foldl_cons, ih, visit_done]

theorem process_done (raise : V → V) (streams : Bool) (nbr : Fin N → List ℕ) (seed : List (Fin N))
    (c : Fin N) (s : PF N V) : (process raise streams nbr seed c s).done = s.done ++ [c] := by
  unfold process
  rw [foldVisit_done]

theorem popNext_none {s : PF N V} (h : popNext s = none) : s.heap = [] ∧ s.pit = [] := by
  unfold popNext at h
  split at h
  · cases h
  · rename_i hp
    split at h
    · rename_i hm; exact ⟨popMin_none hm, hp⟩
    · cases h

theorem popNext_done {s s' : PF N V} {c : Fin N} (h : popNext s = some (c, s')) :
    s'.done = s.done ∧ s'.dem = s.dem ∧ s'.closed = s.closed := by
  unfold popNext at h
  split at h
  · cases h; exact ⟨rfl, rfl, rfl⟩
  · split at h
    · cases h
    · cases h; exact ⟨rfl, rfl, rfl⟩

/-- Anything preserved by an iteration holds at the end of the loop, where both queues are empty. -/
theorem pfLoop_inv {raise : V → V} {streams : Bool} {nbr : Fin N → List ℕ} {seed : List (Fin N)}
    (P : PF N V → Prop)
    (hP : ∀ s c s', P s → popNext s = some (c, s') → P (process raise streams nbr seed c s'))
    (fuel : ℕ) (s t : PF N V) (hs : P s) (h : pfLoop raise streams nbr seed fuel s = .ok t) :
    P t ∧ t.heap = [] ∧ t.pit = [] := by
  induction fuel generalizing s with
  | zero => cases h
  | succ k ih =>
    simp only [pfLoop] at h
    split at h
    · rename_i hn
      cases h
      exact ⟨hs, popNext_none hn⟩
    · rename_i c s' hn
      exact ih _ (hP s c s' hs hn) h

theorem pfLoop_terminates {rel : V → V → Prop} {raise : V → V} (streams : Bool)
    {nbr : Fin N → List ℕ} {dem0 : Fin N → V} {seed : List (Fin N)}
    (hinf : ∀ x, x ≤ raise x) (hrel1 : ∀ x, rel x (raise x)) (hrel2 : ∀ x y, x < y → rel x y)
    (fuel : ℕ) (s : PF N V) (hi : Inv rel nbr dem0 seed none s) (hf : N < fuel + s.done.length) :
    ∃ t, pfLoop raise streams nbr seed fuel s = .ok t := by
  have hlen : ∀ s : PF N V, Inv rel nbr dem0 seed none s → s.done.length ≤ N := by
    intro s hi
    have := (List.nodup_append.1 hi.nodup).1.length_le_card
    simpa using this
  induction fuel generalizing s with
  | zero => have := hlen s hi; omega
  | succ k ih =>
    simp only [pfLoop]
    split
    · exact ⟨s, rfl⟩
    · rename_i c s' hn
      refine ih _ (inv_process streams hinf hrel1 hrel2 hi hn) ?_
      rw [process_done, List.length_append, (popNext_done hn).1]
      simp; omega

/-- More fuel does not change the result. -/
theorem pfLoop_mono {raise : V → V} {streams : Bool} {nbr : Fin N → List ℕ} {seed : List (Fin N)}
    (fuel k : ℕ) (s t : PF N V) (h : pfLoop raise streams nbr seed fuel s = .ok t) :
    pfLoop raise streams nbr seed (fuel + k) s = .ok t := by
  induction fuel generalizing s with
  | zero => cases h
  | succ m ih =>
    rw [Nat.succ_add]
    simp only [pfLoop] at h ⊢
    split at h
    · exact h
    · exact ih _ h

/-- Facts about the final state. -/
structure Final (rel : V → V → Prop) (nbr : Fin N → List ℕ) (dem0 : Fin N → V) (seed : List (Fin N))
    (t : PF N V) : Prop where
  inv : Inv rel nbr dem0 seed none t
  closed_iff : ∀ n, t.closed n = true ↔ n ∈ t.done
  reach_iff : ∀ n, n ∈ t.done ↔ Reach nbr (· ∈ seed) n
  nodup : t.done.Nodup

theorem final_of_ok {rel : V → V → Prop} {raise : V → V} (streams : Bool)
    {nbr : Fin N → List ℕ} {dem0 : Fin N → V} {seed : List (Fin N)} (hs : seed.Nodup)
    (hinf : ∀ x, x ≤ raise x) (hrel1 : ∀ x, rel x (raise x)) (hrel2 : ∀ x y, x < y → rel x y)
    (fuel : ℕ) (t : PF N V) (h : pfLoop raise streams nbr seed fuel (pfInit dem0 seed) = .ok t) :
    Final rel nbr dem0 seed t := by
  obtain ⟨hi, hh, hp⟩ := pfLoop_inv (Inv rel nbr dem0 seed none)
    (fun s c s' hi hp => inv_process streams hinf hrel1 hrel2 hi hp) fuel _ t
    (inv_init rel nbr dem0 seed hs) h
  have hq : t.queue = [] := by simp [PF.queue, hh, hp]
  have hcl : ∀ n, t.closed n = true ↔ n ∈ t.done := by intro n; rw [hi.cl, hq]; simp
  refine ⟨hi, hcl, ?_, ?_⟩
  · intro n
    constructor
    · intro hn; exact hi.reach n ((hcl n).2 hn)
    · intro hr
      induction hr with
      | seed hsd => exact (hcl _).1 (hi.seeds _ hsd)
      | step _ ha ih => exact (hcl _).1 (hi.doneCl _ ih (by simp) _ ha)
  · exact (List.nodup_append.1 hi.nodup).1

/-! ### Every closed cell drains -/

/-- Drainage paths that run through finished cells only. -/
inductive DP (rel : V → V → Prop) (nbr : Fin N → List ℕ) (seed : List (Fin N)) (done : List (Fin N))
    (f : Fin N → V) : Fin N → Prop
  | outlet {n} : n ∈ seed → DP rel nbr seed done f n
  | step {n c} : c ∈ done → Adj nbr c n → rel (f c) (f n) → DP rel nbr seed done f c →
      DP rel nbr seed done f n

theorem DP.stable {rel : V → V → Prop} {nbr : Fin N → List ℕ} {seed done done' : List (Fin N)}
    {f f' : Fin N → V} (hd : ∀ x ∈ done, x ∈ done') (hf : ∀ x ∈ done, f' x = f x) {n : Fin N}
    (hn : n ∈ seed ∨ f' n = f n) (h : DP rel nbr seed done f n) : DP rel nbr seed done' f' n := by
  induction h with
  | outlet h => exact .outlet h
  | step hc ha hr _ ih =>
    rcases hn with hn | hn
    · exact .outlet hn
    · exact .step (hd _ hc) ha (by rw [hf _ hc, hn]; exact hr) (ih (.inr (hf _ hc)))

theorem DP.drains {rel : V → V → Prop} {nbr : Fin N → List ℕ} (hsym : SymmNbr nbr)
    {seed done : List (Fin N)} {f : Fin N → V} {n : Fin N} (h : DP rel nbr seed done f n) :
    Drains rel nbr f (· ∈ seed) n := by
  induction h with
  | outlet h => exact .outlet h
  | step _ ha hr _ ih => exact .step (hsym _ _ ha) hr ih

def DInv (rel : V → V → Prop) (nbr : Fin N → List ℕ) (seed : List (Fin N)) (s : PF N V) : Prop :=
  ∀ n, s.closed n = true → DP rel nbr seed s.done s.dem n

theorem dinv_visit {rel : V → V → Prop} {raise : V → V} (streams : Bool) {nbr : Fin N → List ℕ}
    {dem0 : Fin N → V} {seed : List (Fin N)} {c : Fin N} {s : PF N V}
    (hrel1 : ∀ x, rel x (raise x)) (hrel2 : ∀ x y, x < y → rel x y)
    (hi : Inv rel nbr dem0 seed (some c) s) (hd : DInv rel nbr seed s) (m : ℕ) (hm : m ∈ nbr c) :
    DInv rel nbr seed (visit raise streams seed c s m) := by
  have hcd : c ∈ s.done := hi.curDone c rfl
  have hclD : ∀ x ∈ s.done, s.closed x = true := fun x hx => (hi.cl x).2 (.inl hx)
  have hcc := hclD c hcd
  rcases visit_cases raise streams seed c s hi.seeds m with ⟨h, _⟩ | ⟨hN, hcl, hns, hh⟩
  · rw [h]; exact hd
  have hne : ∀ x, s.closed x = true → x ≠ ⟨m, hN⟩ :=
    fun x hx h => by subst h; rw [hcl] at hx; cases hx
  have hadj : Adj nbr c ⟨m, hN⟩ := hm
  rcases hh with ⟨hle, h⟩ | ⟨hlt, h⟩
  · rw [h]
    intro x hx
    show DP rel nbr seed s.done (update s.dem _ _) x
    have hst : ∀ y, s.closed y = true →
        DP rel nbr seed s.done (update s.dem ⟨m, hN⟩ (raise (s.dem c))) y := by
      intro y hy
      exact (hd y hy).stable (fun _ h => h) (fun z hz => update_of_ne (hne z (hclD z hz)) _ _)
        (.inr (update_of_ne (hne y hy) _ _))
    by_cases hxm : x = ⟨m, hN⟩
    · subst hxm
      refine .step hcd hadj ?_ (hst c hcc)
      rw [update_self, update_of_ne (hne c hcc)]
      exact hrel1 _
    · have hx : update s.closed _ true x = true := hx
      rw [update_of_ne hxm] at hx
      exact hst x hx
  · rw [h]
    intro x hx
    show DP rel nbr seed s.done s.dem x
    by_cases hxm : x = ⟨m, hN⟩
    · subst hxm
      exact .step hcd hadj (hrel2 _ _ hlt) (hd c hcc)
    · have hx : update s.closed _ true x = true := hx
      rw [update_of_ne hxm] at hx
      exact hd x hx

theorem dinv_fold {rel : V → V → Prop} {raise : V → V} (streams : Bool) {nbr : Fin N → List ℕ}
    {dem0 : Fin N → V} {seed : List (Fin N)} {c : Fin N} (hinf : ∀ x, x ≤ raise x)
    (hrel1 : ∀ x, rel x (raise x)) (hrel2 : ∀ x y, x < y → rel x y)
    (l : List ℕ) (hl : ∀ m ∈ l, m ∈ nbr c) (s : PF N V)
    (hi : Inv rel nbr dem0 seed (some c) s) (hd : DInv rel nbr seed s) :
    DInv rel nbr seed (l.foldl (visit raise streams seed c) s) := by
  induction l generalizing s with
  | nil => exact hd
  | cons m l ih =>
    exact ih (fun x hx => hl x (by simp [hx])) _
      (inv_visit streams hinf hrel1 hrel2 hi m (hl m (by simp)))
      (dinv_visit streams hrel1 hrel2 hi hd m (hl m (by simp)))

theorem dinv_process {rel : V → V → Prop} {raise : V → V} (streams : Bool) {nbr : Fin N → List ℕ}
    {dem0 : Fin N → V} {seed : List (Fin N)} {s s' : PF N V} {c : Fin N}
    (hinf : ∀ x, x ≤ raise x) (hrel1 : ∀ x, rel x (raise x)) (hrel2 : ∀ x y, x < y → rel x y)
    (hi : Inv rel nbr dem0 seed none s) (hd : DInv rel nbr seed s)
    (hp : popNext s = some (c, s')) :
    DInv rel nbr seed (process raise streams nbr seed c s') := by
  obtain ⟨h0, hdem, hcl, hdone, hcnd, _⟩ := inv_pop (raise := raise) streams hinf hi hp
  refine dinv_fold streams hinf hrel1 hrel2 _ (fun _ h => h) _ h0 ?_
  intro n hn
  have hn : s.closed n = true := hcl ▸ hn
  show DP rel nbr seed (s'.done ++ [c]) (burn raise streams nbr seed c s'.dem) n
  rw [hdone, hdem]
  refine (hd n hn).stable (fun x hx => by simp [hx]) ?_ ?_
  · intro x hx
    exact burn_ne _ _ _ _ _ _ _ (.inl (by rintro rfl; exact hcnd hx))
  · by_cases hns : n ∈ seed
    · exact .inl hns
    · right
      by_cases hnc : n = c
      · exact burn_ne _ _ _ _ _ _ _ (.inr (.inl (hnc ▸ hns)))
      · exact burn_ne _ _ _ _ _ _ _ (.inl hnc)

theorem drains_of_ok {rel : V → V → Prop} {raise : V → V} (streams : Bool)
    {nbr : Fin N → List ℕ} (hsym : SymmNbr nbr) {dem0 : Fin N → V} {seed : List (Fin N)}
    (hs : seed.Nodup)
    (hinf : ∀ x, x ≤ raise x) (hrel1 : ∀ x, rel x (raise x)) (hrel2 : ∀ x y, x < y → rel x y)
    (fuel : ℕ) (t : PF N V) (h : pfLoop raise streams nbr seed fuel (pfInit dem0 seed) = .ok t)
    (n : Fin N) (hn : Reach nbr (· ∈ seed) n) : Drains rel nbr t.dem (· ∈ seed) n := by
  have hF := final_of_ok streams hs hinf hrel1 hrel2 fuel t h
  obtain ⟨hi, _, _⟩ := pfLoop_inv (fun s => Inv rel nbr dem0 seed none s ∧ DInv rel nbr seed s)
    (fun s c s' hi hp => ⟨inv_process streams hinf hrel1 hrel2 hi.1 hp,
      dinv_process streams hinf hrel1 hrel2 hi.1 hi.2 hp⟩) fuel _ t
    ⟨inv_init rel nbr dem0 seed hs, fun n hn => .outlet (by simpa [pfInit] using hn)⟩ h
  exact (hi.2 n ((hF.closed_iff n).2 ((hF.reach_iff n).2 hn))).drains hsym

/-! ### Seeds are not modified without the stream branch -/

theorem visit_dem_closed (raise : V → V) (streams : Bool) (seed : List (Fin N)) (c : Fin N)
    (s : PF N V) (hseed : ∀ n ∈ seed, s.closed n = true) (m : ℕ) (x : Fin N)
    (hx : s.closed x = true) : (visit raise streams seed c s m).dem x = s.dem x := by
  rcases visit_cases raise streams seed c s hseed m with ⟨h, _⟩ | ⟨hN, hcl, hns, ⟨_, h⟩ | ⟨_, h⟩⟩
  · rw [h]
  · rw [h]
    have : x ≠ ⟨m, hN⟩ := by rintro rfl; rw [hcl] at hx; cases hx
    exact update_of_ne this _ _
  · rw [h]

theorem foldVisit_dem_closed (raise : V → V) (streams : Bool) (seed : List (Fin N)) (c : Fin N)
    (l : List ℕ) (s : PF N V) (hseed : ∀ n ∈ seed, s.closed n = true) (x : Fin N)
    (hx : s.closed x = true) :
    (l.foldl (visit raise streams seed c) s).dem x = s.dem x := by
  induction l generalizing s with
  | nil => rfl
  | cons m l ih =>
    obtain ⟨h1, _⟩ := visit_closed raise streams seed c s hseed m
    rw [List.foldl_cons, ih _ (fun n hn => h1 n (hseed n hn)) (h1 x hx),
      visit_dem_closed _ _ _ _ _ hseed _ _ hx]

theorem seed_dem_process {rel : V → V → Prop} {raise : V → V} {streams : Bool} {nbr : Fin N → List ℕ}
    {dem0 : Fin N → V} {seed : List (Fin N)} {s s' : PF N V} {c : Fin N}
    (hi : Inv rel nbr dem0 seed none s) (hp : popNext s = some (c, s')) (x : Fin N)
    (hx : s.closed x = true) :
    (process raise streams nbr seed c s').dem x = burn raise streams nbr seed c s.dem x := by
  obtain ⟨_, hdem, hcl⟩ := popNext_done hp
  unfold process
  rw [foldVisit_dem_closed]
  · rw [hdem]
  · intro n hn; show s'.closed n = true; rw [hcl]; exact hi.seeds n hn
  · show s'.closed x = true; rw [hcl]; exact hx

end Dany.Flood
