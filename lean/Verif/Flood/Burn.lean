import Verif.Flood.Loop

/-!
# Pits along stream cells (stream-mask mode)
-/

namespace Dany.Flood

open Function

variable {N : ℕ} {V : Type*} [LinearOrder V]

theorem foldl_min_le (e : V) (es : List V) : ∀ x ∈ e :: es, es.foldl min e ≤ x := by
  induction es generalizing e with
  | nil => simp
  | cons a es ih =>
    intro x hx
    have hhead : es.foldl min (min e a) ≤ min e a := ih _ _ (by simp)
    simp only [List.foldl_cons]
    rcases List.mem_cons.1 hx with rfl | hx
    · exact hhead.trans (min_le_left _ _)
    · rcases List.mem_cons.1 hx with rfl | hx
      · exact hhead.trans (min_le_right _ _)
      · exact ih _ x (List.mem_cons_of_mem _ hx)

theorem foldl_min_mem (e : V) (es : List V) : es.foldl min e ∈ e :: es := by
  induction es generalizing e with
  | nil => simp
  | cons a es ih =>
    simp only [List.foldl_cons]
    rcases List.mem_cons.1 (ih (min e a)) with h | h
    · rcases min_choice e a with h' | h' <;> rw [h, h'] <;> simp
    · exact List.mem_cons_of_mem _ (List.mem_cons_of_mem _ h)

theorem mem_streamElevs {nbr : Fin N → List ℕ} {seed : List (Fin N)} {c : Fin N} {dem : Fin N → V}
    {v : V} : v ∈ streamElevs nbr seed c dem ↔ ∃ m, Adj nbr c m ∧ m ∈ seed ∧ dem m = v := by
  simp [streamElevs, mem_inRange, Adj, and_assoc]

/-- The outcome of the pit filling of one stream cell. -/
theorem burn_cases (raise : V → V) (nbr : Fin N → List ℕ) (seed : List (Fin N)) (c : Fin N)
    (dem : Fin N → V) :
    burn raise true nbr seed c dem = dem ∨
    ∃ m, Adj nbr c m ∧ m ∈ seed ∧ dem c < dem m ∧
      (∀ m', Adj nbr c m' → m' ∈ seed → dem m ≤ dem m') ∧
      burn raise true nbr seed c dem = update dem c (raise (dem m)) := by
  unfold burn
  split
  · have hms := @mem_streamElevs N V _ nbr seed c dem
    rcases hl : streamElevs nbr seed c dem with _ | ⟨a, _ | ⟨b, es⟩⟩
    · exact .inl rfl
    · exact .inl rfl
    · dsimp only
      split
      · rename_i hgt
        right
        have h1 := foldl_min_mem a (b :: es)
        rw [← hl, hms] at h1
        obtain ⟨m, ha, hm, he⟩ := h1
        rw [← he] at hgt ⊢
        refine ⟨m, ha, hm, hgt, ?_, rfl⟩
        intro m' ha' hm'
        rw [he]
        exact foldl_min_le a (b :: es) _ (by rw [← hl, hms]; exact ⟨m', ha', hm', rfl⟩)
      · exact .inl rfl
  · exact .inl rfl

/-- If a stream cell with two or more stream neighbours is not changed, it is not a pit. -/
theorem burn_unchanged {raise : V → V} {nbr : Fin N → List ℕ} {seed : List (Fin N)} {c : Fin N}
    {dem : Fin N → V} (hc : c ∈ seed) (hinf : ∀ x, x ≤ raise x)
    (h2 : 2 ≤ (streamElevs nbr seed c dem).length) :
    ∃ m, Adj nbr c m ∧ m ∈ seed ∧
      (m ≠ c → dem m ≤ burn raise true nbr seed c dem c) := by
  have hms := @mem_streamElevs N V _ nbr seed c dem
  unfold burn
  rw [if_pos ⟨rfl, hc⟩]
  rcases hl : streamElevs nbr seed c dem with _ | ⟨a, _ | ⟨b, es⟩⟩
  · rw [hl] at h2; simp at h2
  · rw [hl] at h2; simp at h2
  · dsimp only
    have h1 := foldl_min_mem a (b :: es)
    rw [← hl, hms] at h1
    obtain ⟨m, ha, hm, he⟩ := h1
    refine ⟨m, ha, hm, fun _ => ?_⟩
    rw [he]
    split
    · rw [update_self]; exact hinf _
    · rename_i hgt; exact not_lt.1 hgt

def BInv (raise : V → V) (nbr : Fin N → List ℕ) (seed : List (Fin N)) (s : PF N V) : Prop :=
  ∀ c ∈ s.done, c ∈ seed → 2 ≤ (streamElevs nbr seed c s.dem).length →
    ∃ m, Adj nbr c m ∧ m ∈ seed ∧ (m ∈ s.done → s.dem m ≤ raise (s.dem c)) ∧
      (m ∉ s.done → s.dem m ≤ s.dem c)

theorem streamElevs_length (nbr : Fin N → List ℕ) (seed : List (Fin N)) (c : Fin N)
    (dem dem' : Fin N → V) :
    (streamElevs nbr seed c dem).length = (streamElevs nbr seed c dem').length := by
  simp [streamElevs]

theorem binv_process {rel : V → V → Prop} {raise : V → V} {nbr : Fin N → List ℕ}
    {dem0 : Fin N → V} {seed : List (Fin N)} {s s' : PF N V} {c : Fin N}
    (hsym : SymmNbr nbr) (hinf : ∀ x, x ≤ raise x) (hmono : Monotone raise)
    (hi : Inv rel nbr dem0 seed none s) (hb : BInv raise nbr seed s)
    (hp : popNext s = some (c, s')) :
    BInv raise nbr seed (process raise true nbr seed c s') := by
  obtain ⟨_, _, _, _, hcnd, _⟩ := inv_pop (raise := raise) true hinf hi hp
  have hdone : (process raise true nbr seed c s').done = s.done ++ [c] := by
    rw [process_done, (popNext_done hp).1]
  have hdem : ∀ x, s.closed x = true →
      (process raise true nbr seed c s').dem x = burn raise true nbr seed c s.dem x :=
    fun x hx => seed_dem_process hi hp x hx
  have hsd : ∀ x ∈ seed, (process raise true nbr seed c s').dem x = burn raise true nbr seed c s.dem x :=
    fun x hx => hdem x (hi.seeds x hx)
  have hne : ∀ x, x ≠ c → burn raise true nbr seed c s.dem x = s.dem x :=
    fun x hx => burn_ne _ _ _ _ _ _ _ (.inl hx)
  intro x hx hxs h2
  rw [hdone, List.mem_append, List.mem_singleton] at hx
  rw [streamElevs_length nbr seed x _ s.dem] at h2
  rw [hdone]
  simp only [List.mem_append, List.mem_singleton]
  by_cases hxc : x = c
  · subst hxc
    obtain ⟨m, ha, hm, hle⟩ := burn_unchanged (raise := raise) hxs hinf h2
    refine ⟨m, ha, hm, ?_, ?_⟩
    · intro _
      rw [hsd m hm, hsd x hxs]
      by_cases hmc : m = x
      · subst hmc; exact hinf _
      · rw [hne m hmc]; exact (hle hmc).trans (hinf _)
    · intro hmd
      have hmc : m ≠ x := fun h => hmd (.inr h)
      rw [hsd m hm, hsd x hxs, hne m hmc]
      exact hle hmc
  · have hxd : x ∈ s.done := hx.resolve_right hxc
    obtain ⟨m, ha, hm, h3, h4⟩ := hb x hxd hxs h2
    refine ⟨m, ha, hm, ?_, ?_⟩
    · intro hmd
      rw [hsd m hm, hsd x hxs, hne x hxc]
      by_cases hmc : m = c
      · subst hmc
        have hle := h4 hcnd
        rcases burn_cases raise nbr seed m s.dem with h | ⟨m', _, _, _, hmin, h⟩
        · rw [h]; exact hle.trans (hinf _)
        · rw [h, update_self]
          exact hmono (hmin x (hsym _ _ ha) hxs)
      · rw [hne m hmc]
        exact h3 (hmd.resolve_right hmc)
    · intro hmd
      have hmc : m ≠ c := fun h => hmd (.inr h)
      rw [hsd m hm, hsd x hxs, hne x hxc, hne m hmc]
      exact h4 (fun h => hmd (.inl h))

theorem burn_of_ok {raise : V → V} {nbr : Fin N → List ℕ} {dem0 : Fin N → V} {seed : List (Fin N)}
    (hs : seed.Nodup) (hsym : SymmNbr nbr) (hinf : ∀ x, x ≤ raise x) (hmono : Monotone raise)
    (fuel : ℕ) (t : PF N V) (h : pfLoop raise true nbr seed fuel (pfInit dem0 seed) = .ok t)
    (c : Fin N) (hc : c ∈ seed) (h2 : 2 ≤ (streamElevs nbr seed c dem0).length) :
    ∃ m, Adj nbr c m ∧ m ∈ seed ∧ t.dem m ≤ raise (t.dem c) := by
  have hrel2 : ∀ x y : V, x < y → x ≤ y := fun _ _ h => h.le
  have hF := final_of_ok true hs hinf hinf hrel2 fuel t h
  obtain ⟨hi, _, _⟩ := pfLoop_inv (fun s => Inv (· ≤ ·) nbr dem0 seed none s ∧ BInv raise nbr seed s)
    (fun s c s' hi hp => ⟨inv_process true hinf hinf hrel2 hi.1 hp,
      binv_process hsym hinf hmono hi.1 hi.2 hp⟩) fuel _ t
    ⟨inv_init _ nbr dem0 seed hs, fun n hn => by simp [pfInit] at hn⟩ h
  have hd : ∀ x ∈ seed, x ∈ t.done := fun x hx => (hF.reach_iff x).2 (.seed hx)
  obtain ⟨m, ha, hm, h3, _⟩ := hi.2 c (hd c hc) hc (by rw [streamElevs_length nbr seed c _ dem0]; exact h2)
  exact ⟨m, ha, hm, h3 (hd m hm)⟩

end Dany.Flood
