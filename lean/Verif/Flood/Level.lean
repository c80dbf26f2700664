import Verif.Flood.Loop

/-!
# How high the priority flood raises cells (edge seeds, no stream mask)
-/

namespace Dany.Flood

open Function

variable {N : ℕ} {V : Type*} [LinearOrder V]

/-- number of cells closed so far -/
def PF.size (s : PF N V) : ℕ := s.done.length + s.queue.length

theorem iter_mono_left {raise : V → V} (hinf : ∀ x, x ≤ raise x) {j k : ℕ} (h : j ≤ k) (x : V) :
    raise^[j] x ≤ raise^[k] x :=
  monotone_iterate_of_id_le hinf h x

theorem iter_infl {raise : V → V} (hinf : ∀ x, x ≤ raise x) (k : ℕ) (x : V) : x ≤ raise^[k] x :=
  iter_mono_left hinf (Nat.zero_le k) x

/-- While cell `c` is processed at level `L`. -/
structure Lev (raise : V → V) (nbr : Fin N → List ℕ) (dem0 : Fin N → V) (seed : List (Fin N))
    (L : V) (s : PF N V) : Prop where
  low : ∀ n, n ∉ s.done → ∀ v, PathTop nbr dem0 (· ∈ seed) n v → L ≤ v
  pit : ∀ p ∈ s.pit, s.dem p ≤ raise^[s.size] L
  fin : ∀ n ∈ s.done, ∀ v, PathTop nbr dem0 (· ∈ seed) n v → s.dem n ≤ raise^[s.size] v

theorem visit_size (raise : V → V) (streams : Bool) (seed : List (Fin N)) (c : Fin N)
    (s : PF N V) (m : ℕ) (hseed : ∀ n ∈ seed, s.closed n = true) :
    (visit raise streams seed c s m = s) ∨
    (visit raise streams seed c s m).size = s.size + 1 := by
  rcases visit_cases raise streams seed c s hseed m with ⟨h, _⟩ | ⟨hN, hcl, hns, ⟨_, h⟩ | ⟨_, h⟩⟩
  · exact .inl h
  · right; rw [h]; simp [raiseInto, PF.size, PF.queue]; omega
  · right; rw [h]; simp [PF.size, PF.queue]; omega

theorem pathTop_ge {nbr : Fin N → List ℕ} {dem : Fin N → V} {S : Fin N → Prop} {n : Fin N} {v : V}
    (h : PathTop nbr dem S n v) : dem n ≤ v := by
  cases h with
  | seed h => exact le_refl _
  | step _ _ => exact le_max_right _ _

theorem lev_visit {rel : V → V → Prop} {raise : V → V} (streams : Bool) {nbr : Fin N → List ℕ}
    {dem0 : Fin N → V} {seed : List (Fin N)} {c : Fin N} {L : V} {s : PF N V}
    (hinf : ∀ x, x ≤ raise x) (hmono : Monotone raise)
    (hi : Inv rel nbr dem0 seed (some c) s) (hc : s.dem c ≤ raise^[s.size] L)
    (hl : Lev raise nbr dem0 seed L s) (m : ℕ) :
    Lev raise nbr dem0 seed L (visit raise streams seed c s m) ∧
      (visit raise streams seed c s m).dem c ≤ raise^[(visit raise streams seed c s m).size] L := by
  have hcd : c ∈ s.done := hi.curDone c rfl
  have hclD : ∀ x ∈ s.done, s.closed x = true := fun x hx => (hi.cl x).2 (.inl hx)
  rcases visit_size raise streams seed c s m hi.seeds with h | hsz
  · rw [h]; exact ⟨hl, hc⟩
  have hdc : ∀ x, s.closed x = true → (visit raise streams seed c s m).dem x = s.dem x :=
    fun x hx => visit_dem_closed _ _ _ _ _ hi.seeds _ _ hx
  have hup : ∀ v, raise^[s.size] v ≤ raise^[(visit raise streams seed c s m).size] v :=
    fun v => iter_mono_left hinf (by omega) v
  refine ⟨⟨?_, ?_, ?_⟩, ?_⟩
  · intro n hn v hv
    exact hl.low n (by rwa [visit_done] at hn) v hv
  · intro p hp
    rcases visit_cases raise streams seed c s hi.seeds m with ⟨h, _⟩ | ⟨hN, hcl, hns, ⟨hle, h⟩ | ⟨_, h⟩⟩
    · rw [h] at hsz; omega
    · have hp' : p ∈ s.pit ++ [⟨m, hN⟩] := by rw [h] at hp; exact hp
      rcases List.mem_append.1 hp' with hp1 | hp1
      · have hpc : s.closed p = true := (hi.cl p).2 (.inr (by simp [PF.queue, hp1]))
        rw [hdc p hpc]
        exact (hl.pit p hp1).trans (hup L)
      · simp only [List.mem_singleton] at hp1
        subst hp1
        rw [hsz]
        have : (visit raise streams seed c s m).dem ⟨m, hN⟩ = raise (s.dem c) := by
          rw [h]; simp [raiseInto]
        rw [this, iterate_succ_apply']
        exact hmono hc
    · have hp' : p ∈ s.pit := by rw [h] at hp; exact hp
      have hpc : s.closed p = true := (hi.cl p).2 (.inr (by simp [PF.queue, hp']))
      rw [hdc p hpc]
      exact (hl.pit p hp').trans (hup L)
  · intro n hn v hv
    rw [visit_done] at hn
    rw [hdc n (hclD n hn)]
    exact (hl.fin n hn v hv).trans (hup v)
  · rw [hdc c (hclD c hcd)]
    exact hc.trans (hup L)

theorem lev_fold {rel : V → V → Prop} {raise : V → V} (streams : Bool) {nbr : Fin N → List ℕ}
    {dem0 : Fin N → V} {seed : List (Fin N)} {c : Fin N} {L : V}
    (hinf : ∀ x, x ≤ raise x) (hmono : Monotone raise)
    (hrel1 : ∀ x, rel x (raise x)) (hrel2 : ∀ x y, x < y → rel x y)
    (l : List ℕ) (hlm : ∀ m ∈ l, m ∈ nbr c) (s : PF N V)
    (hi : Inv rel nbr dem0 seed (some c) s) (hc : s.dem c ≤ raise^[s.size] L)
    (hl : Lev raise nbr dem0 seed L s) :
    Lev raise nbr dem0 seed L (l.foldl (visit raise streams seed c) s) := by
  induction l generalizing s with
  | nil => exact hl
  | cons m l ih =>
    obtain ⟨h1, h2⟩ := lev_visit streams hinf hmono hi hc hl m
    exact ih (fun x hx => hlm x (by simp [hx])) _
      (inv_visit streams hinf hrel1 hrel2 hi m (hlm m (by simp))) h2 h1

/-- Between iterations. -/
def LInv (raise : V → V) (nbr : Fin N → List ℕ) (dem0 : Fin N → V) (seed : List (Fin N))
    (s : PF N V) : Prop :=
  (s.pit = [] ∨ ∃ L, (∀ n, n ∉ s.done → ∀ v, PathTop nbr dem0 (· ∈ seed) n v → L ≤ v) ∧
    ∀ p ∈ s.pit, s.dem p ≤ raise^[s.size] L) ∧
  ∀ n ∈ s.done, ∀ v, PathTop nbr dem0 (· ∈ seed) n v → s.dem n ≤ raise^[s.size] v

/-- If the pit queue is empty, the least heap key is a lower bound for the spill elevation of every
cell not finished yet. -/
theorem frontier {rel : V → V → Prop} {nbr : Fin N → List ℕ}
    {dem0 : Fin N → V} {seed : List (Fin N)} {s : PF N V}
    (hi : Inv rel nbr dem0 seed none s) (hpit : s.pit = []) {L : V}
    (hL : ∀ x ∈ s.heap, L ≤ x.1) {n : Fin N} {v : V} (hv : PathTop nbr dem0 (· ∈ seed) n v) :
    n ∈ s.done ∨ L ≤ v := by
  have hq : ∀ n, s.closed n = true → n ∈ s.done ∨ L ≤ dem0 n := by
    intro n hn
    rcases (hi.cl n).1 hn with h | h
    · exact .inl h
    · right
      simp only [PF.queue, hpit, List.append_nil, List.mem_map] at h
      obtain ⟨⟨e, n'⟩, he, rfl⟩ := h
      obtain ⟨h1, h2⟩ := hi.key e n' he
      have := hL _ he
      simp only at this
      rw [h1, h2] at this; exact this
  induction hv with
  | seed hs => exact hq _ (hi.seeds _ hs)
  | step _ ha ih =>
    rcases ih with h | h
    · rcases hq _ (hi.doneCl _ h (by simp) _ ha) with h | h
      · exact .inl h
      · exact .inr (h.trans (le_max_right _ _))
    · exact .inr (h.trans (le_max_left _ _))

theorem linv_process {rel : V → V → Prop} {raise : V → V} {nbr : Fin N → List ℕ}
    {dem0 : Fin N → V} {seed : List (Fin N)} {s s' : PF N V} {c : Fin N}
    (hinf : ∀ x, x ≤ raise x) (hmono : Monotone raise)
    (hrel1 : ∀ x, rel x (raise x)) (hrel2 : ∀ x y, x < y → rel x y)
    (hi : Inv rel nbr dem0 seed none s) (hl : LInv raise nbr dem0 seed s)
    (hp : popNext s = some (c, s')) :
    LInv raise nbr dem0 seed (process raise false nbr seed c s') := by
  obtain ⟨h0, hdem, hcl, hdone, hcnd, hqlen⟩ := inv_pop (raise := raise) false hinf hi hp
  have hb : burn raise false nbr seed c s'.dem = s.dem := by
    rw [← hdem]; funext x; exact burn_ne _ _ _ _ _ _ _ (.inr (.inr rfl))
  have hsz : ({ s' with dem := burn raise false nbr seed c s'.dem, done := s'.done ++ [c] } :
      PF N V).size = s.size := by
    simp only [PF.size, List.length_append, List.length_singleton, hdone]
    show _ + s'.queue.length = _
    omega
  suffices h : ∃ L, Lev raise nbr dem0 seed L
      { s' with dem := burn raise false nbr seed c s'.dem, done := s'.done ++ [c] } ∧
      s.dem c ≤ raise^[s.size] L by
    obtain ⟨L, h1, h2⟩ := h
    have := lev_fold false hinf hmono hrel1 hrel2 (nbr c) (fun _ h => h) _ h0
      (by rw [hsz]; show burn raise false nbr seed c s'.dem c ≤ _; rw [hb]; exact h2) h1
    exact ⟨.inr ⟨L, this.low, this.pit⟩, this.fin⟩
  have hfin : ∀ L, (∀ n, n ∉ s.done → ∀ v, PathTop nbr dem0 (· ∈ seed) n v → L ≤ v) →
      s.dem c ≤ raise^[s.size] L → (∀ p ∈ s'.pit, s.dem p ≤ raise^[s.size] L) →
      Lev raise nbr dem0 seed L
        { s' with dem := burn raise false nbr seed c s'.dem, done := s'.done ++ [c] } := by
    intro L hlow hcL hpL
    refine ⟨?_, ?_, ?_⟩
    · intro n hn v hv
      refine hlow n (fun h => hn ?_) v hv
      show n ∈ s'.done ++ [c]
      rw [hdone]; simp [h]
    · intro p hpp
      rw [hsz]
      show burn raise false nbr seed c s'.dem p ≤ _
      rw [hb]; exact hpL p hpp
    · intro n hn v hv
      rw [hsz]
      show burn raise false nbr seed c s'.dem n ≤ _
      rw [hb]
      have hn : n ∈ s'.done ++ [c] := hn
      rw [hdone] at hn
      rcases List.mem_append.1 hn with h | h
      · exact hl.2 n h v hv
      · simp only [List.mem_singleton] at h
        subst h
        exact hcL.trans ((hmono.iterate s.size) (hlow n hcnd v hv))
  unfold popNext at hp
  split at hp
  · rename_i c' rest hpit
    cases hp
    rcases hl.1 with h | ⟨L, hlow, hpL⟩
    · rw [hpit] at h; cases h
    · have hc : s.dem c ≤ raise^[s.size] L := hpL c (by simp [hpit])
      exact ⟨L, hfin L hlow hc (fun p hp => hpL p (by rw [hpit]; exact List.mem_cons_of_mem _ hp)), hc⟩
  · rename_i hpit
    split at hp
    · cases hp
    · rename_i e c' rest hm
      cases hp
      obtain ⟨h1, h2⟩ := popMin_some hm
      have hmem : (e, c) ∈ s.heap := h1.mem_iff.2 (by simp)
      obtain ⟨hk1, hk2⟩ := hi.key e c hmem
      have hc : s.dem c ≤ raise^[s.size] e := by rw [← hk1]; exact iter_infl hinf _ _
      refine ⟨e, hfin e ?_ hc ?_, hc⟩
      · intro n hn v hv
        exact (frontier hi hpit h2 hv).resolve_left hn
      · intro p hp
        have hp : p ∈ s.pit := hp
        rw [hpit] at hp; cases hp

/-- The filled surface at a connected cell: at least some path's highest ground, at most every
path's highest ground plus `N` increments. -/
theorem level_of_ok {raise : V → V} {nbr : Fin N → List ℕ} {dem0 : Fin N → V} {seed : List (Fin N)}
    (hs : seed.Nodup) (hinf : ∀ x, x ≤ raise x) (hmono : Monotone raise)
    (fuel : ℕ) (t : PF N V) (h : pfLoop raise false nbr seed fuel (pfInit dem0 seed) = .ok t)
    (n : Fin N) (hn : Reach nbr (· ∈ seed) n) :
    (∃ v, PathTop nbr dem0 (· ∈ seed) n v ∧ v ≤ t.dem n) ∧
    ∀ v, PathTop nbr dem0 (· ∈ seed) n v → t.dem n ≤ raise^[N] v := by
  have hrel2 : ∀ x y : V, x < y → x ≤ y := fun _ _ h => h.le
  have hF := final_of_ok false hs hinf hinf hrel2 fuel t h
  obtain ⟨hi, hh, hpit⟩ := pfLoop_inv (fun s => Inv (· ≤ ·) nbr dem0 seed none s ∧
      DInv (· ≤ ·) nbr seed s ∧ LInv raise nbr dem0 seed s)
    (fun s c s' hi hp => ⟨inv_process false hinf hinf hrel2 hi.1 hp,
      dinv_process false hinf hinf hrel2 hi.1 hi.2.1 hp,
      linv_process hinf hmono hinf hrel2 hi.1 hi.2.2 hp⟩) fuel _ t
    ⟨inv_init _ nbr dem0 seed hs, fun n hn => .outlet (by simpa [pfInit] using hn),
      .inl rfl, fun n hn => by simp [pfInit] at hn⟩ h
  have hd := (hF.reach_iff n).2 hn
  constructor
  · have hdp := hi.2.1 n ((hF.closed_iff n).2 hd)
    clear hd hn
    induction hdp with
    | @outlet n h => exact ⟨_, .seed h, hi.1.ge n⟩
    | @step n c _ ha hr _ ih =>
      obtain ⟨v, hv, hle⟩ := ih
      exact ⟨_, .step hv ha, max_le (hle.trans hr) (hi.1.ge n)⟩
  · intro v hv
    refine (hi.2.2.2 n hd v hv).trans (iter_mono_left hinf ?_ v)
    have : t.queue = [] := by simp [PF.queue, hh, hpit]
    simp only [PF.size, this, List.length_nil, Nat.add_zero]
    simpa using hF.nodup.length_le_card

end Dany.Flood
