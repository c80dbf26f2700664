import Verif.Flood.Compare

/-!
# C192, C193: the value of a fill with a stream mask

As long as no stream cell is raised, a fill with a stream mask is a flood that starts at the stream cells.
-/

namespace Dany.Flood

open Function

variable {N : ℕ} {V : Type*} [LinearOrder V]

private theorem visit_mono {raise : V → V} (hinf : ∀ x, x ≤ raise x) (streams : Bool) (seed : List (Fin N)) (c : Fin N)
    (s : PF N V) (m : ℕ) (n : Fin N) : s.dem n ≤ (visit raise streams seed c s m).dem n := by
  have key : ∀ (k : Fin N) (s : PF N V), s.dem k ≤ s.dem c → s.dem n ≤ (raiseInto raise c k s).dem n := by
    intro k s h
    unfold raiseInto
    dsimp only
    rw [update_apply]
    split
    · rename_i e; rw [e]; exact h.trans (hinf _)
    · exact le_rfl
  unfold visit
  split
  · dsimp only
    split
    · exact le_rfl
    · split
      · rename_i hle
        split
        · split
          · exact key _ { s with closed := update s.closed ⟨m, by assumption⟩ true } hle
          · split
            · exact key _ { s with closed := update s.closed ⟨m, by assumption⟩ true } hle
            · exact le_rfl
        · exact key _ { s with closed := update s.closed ⟨m, by assumption⟩ true } hle
      · exact le_rfl
  · exact le_rfl

private theorem fold_mono {raise : V → V} (hinf : ∀ x, x ≤ raise x) (streams : Bool) (seed : List (Fin N)) (c : Fin N)
    (l : List ℕ) (s : PF N V) (n : Fin N) : s.dem n ≤ (l.foldl (visit raise streams seed c) s).dem n := by
  induction l generalizing s with
  | nil => exact le_rfl
  | cons m l ih => exact (visit_mono hinf streams seed c s m n).trans (ih _)

private theorem loop_mono {raise : V → V} (hinf : ∀ x, x ≤ raise x) {streams : Bool} {nbr : Fin N → List ℕ}
    {seed : List (Fin N)} {fuel : ℕ} {s t : PF N V} (h : pfLoop raise streams nbr seed fuel s = .ok t) (n : Fin N) :
    s.dem n ≤ t.dem n := by
  induction fuel generalizing s with
  | zero => cases h
  | succ k ih =>
    unfold pfLoop at h
    split at h
    · cases h; exact le_rfl
    · rename_i c s' hp
      refine le_trans ?_ (ih h)
      rw [← (popNext_done hp).2.1]
      exact (burn_ge raise hinf streams nbr seed c s'.dem n).trans
        (fold_mono hinf streams seed c _ { s' with dem := burn raise streams nbr seed c s'.dem, done := s'.done ++ [c] } n)

/-- with all seeds closed the two kinds of visits are the same -/
private theorem visit_same {raise : V → V} {seed : List (Fin N)} {c : Fin N} {s : PF N V}
    (hs : ∀ n ∈ seed, s.closed n = true) (m : ℕ) :
    visit raise true seed c s m = visit raise false seed c s m ∧
      ∀ n ∈ seed, (visit raise false seed c s m).closed n = true := by
  unfold visit
  split
  · rename_i hm
    dsimp only
    split
    · exact ⟨rfl, hs⟩
    · rename_i hcl
      have hns : (⟨m, hm⟩ : Fin N) ∉ seed := fun h => hcl (hs _ h)
      have hcl' : ∀ n ∈ seed, update s.closed ⟨m, hm⟩ true n = true := by
        intro n hn
        rw [update_apply]
        split
        · rfl
        · exact hs n hn
      split
      · refine ⟨?_, by simpa [raiseInto] using hcl'⟩
        rw [if_pos rfl]
        by_cases hc : c ∈ seed
        · rw [if_neg (fun h => h.1 hc), if_pos hc]; rfl
        · rw [if_pos ⟨hc, hns⟩]; rfl
      · exact ⟨rfl, hcl'⟩
  · exact ⟨rfl, hs⟩

private theorem fold_same {raise : V → V} {seed : List (Fin N)} {c : Fin N} (l : List ℕ) {s : PF N V}
    (hs : ∀ n ∈ seed, s.closed n = true) :
    l.foldl (visit raise true seed c) s = l.foldl (visit raise false seed c) s ∧
      ∀ n ∈ seed, (l.foldl (visit raise false seed c) s).closed n = true := by
  induction l generalizing s with
  | nil => exact ⟨rfl, hs⟩
  | cons m l ih =>
    obtain ⟨h1, h2⟩ := visit_same (raise := raise) (c := c) hs m
    rw [List.foldl_cons, List.foldl_cons, h1]
    exact ih h2

private theorem popNext_closed {s s' : PF N V} {c : Fin N} (h : popNext s = some (c, s')) : s'.closed = s.closed := by
  unfold popNext at h
  split at h
  · cases h; rfl
  · split at h
    · cases h
    · cases h; rfl

/-- a flood with a stream mask that raises no stream cell is an ordinary flood from these cells -/
theorem flood_same {raise : V → V} (hinf : ∀ x, x ≤ raise x) {nbr : Fin N → List ℕ} {seed : List (Fin N)} {fuel : ℕ}
    {s t : PF N V} (hs : ∀ n ∈ seed, s.closed n = true)
    (h : pfLoop raise true nbr seed fuel s = .ok t) (ht : ∀ n ∈ seed, t.dem n ≤ s.dem n) :
    pfLoop raise false nbr seed fuel s = .ok t := by
  induction fuel generalizing s with
  | zero => cases h
  | succ k ih =>
    unfold pfLoop at h ⊢
    split at h
    · exact h
    · rename_i c s' hp
      obtain ⟨_, hdem, _⟩ := popNext_done hp
      have hcl := popNext_closed hp
      have hmono := fun n => loop_mono hinf h n
      have hb : burn raise true nbr seed c s'.dem = s'.dem := by
        by_cases hc : c ∈ seed
        · by_contra hne
          have hlt : s'.dem c < burn raise true nbr seed c s'.dem c := by
            refine lt_of_le_of_ne (burn_ge raise hinf true nbr seed c s'.dem c) fun e => hne ?_
            funext n
            by_cases hn : n = c
            · rw [hn]; exact e.symm
            · exact burn_ne _ _ _ _ _ _ _ (.inl hn)
          have h1 := fold_mono hinf true seed c (nbr c)
            { s' with dem := burn raise true nbr seed c s'.dem, done := s'.done ++ [c] } c
          have h2 := hmono c
          have h3 := ht c hc
          rw [← hdem] at h3
          exact absurd (hlt.trans_le (h1.trans h2)) (not_lt.2 h3)
        · funext n
          exact burn_ne _ _ _ _ _ _ _ (.inr (.inl hc))
      have hb' : burn raise false nbr seed c s'.dem = s'.dem := by
        funext x; exact burn_ne _ _ _ _ _ _ _ (.inr (.inr rfl))
      obtain ⟨h1, h2⟩ := fold_same (raise := raise) (c := c) (nbr c)
        (s := { s' with dem := s'.dem, done := s'.done ++ [c] }) (by show ∀ n ∈ seed, s'.closed n = true; rw [hcl]; exact hs)
      have e : process raise true nbr seed c s' = process raise false nbr seed c s' := by
        unfold process
        rw [hb, hb']
        exact h1
      rw [e] at h
      refine ih ?_ h (fun n hn => ?_)
      · unfold process
        rw [hb']
        exact h2
      · refine (ht n hn).trans ?_
        rw [← hdem]
        unfold process
        rw [hb']
        exact fold_mono hinf false seed c _ { s' with dem := s'.dem, done := s'.done ++ [c] } n

/-- the run of `fill_sinks` as an ordinary flood, if its outlet cells keep their elevations -/
private theorem as_flood {fuel : ℕ} {raise : V → V} {flood : V} {g : Grid N} {dem out : Fin N → V}
    {mask : Option (Fin N → Bool)} {method : String} (hinf : ∀ x, x ≤ raise x)
    (heff : effective mask method ≠ .drain) (hkeep : ∀ n, Outlet g mask n → out n = dem n)
    (h : fillSinks fuel raise flood g dem mask method = .ok out) :
    ∃ seed : List (Fin N), seed.Nodup ∧ (fun n => n ∈ seed) = Outlet g mask ∧ ∃ t,
      pfLoop (effRaise raise mask method) false g.nbr seed fuel (pfInit dem seed) = .ok t ∧ t.dem = out := by
  obtain ⟨seed, hs, hseed, ⟨_, t, ht, rfl⟩ | ⟨hd, _⟩⟩ := fillSinks_cases h
  · refine ⟨seed, hs, funext fun n => propext (hseed n), t, ?_, rfl⟩
    cases mask with
    | none => exact ht
    | some m =>
      exact flood_same (effRaise_infl hinf _ _) (fun n hn => by simp [pfInit, hn]) ht
        (fun n hn => (hkeep n ((hseed n).1 hn)).le)
  · exact absurd hd heff

theorem spill_of {fuel : ℕ} {raise : V → V} {flood : V} {g : Grid N} {dem out : Fin N → V}
    {mask : Option (Fin N → Bool)} {method : String} (hinf : ∀ x, x ≤ raise x)
    (hmeth : method.toLower = "complete") (hkeep : ∀ n, Outlet g mask n → out n = dem n)
    (h : fillSinks fuel raise flood g dem mask method = .ok out) (n : Fin N) (hn : Reach g.nbr (Outlet g mask) n) :
    IsSpill g.nbr dem (Outlet g mask) n (out n) := by
  have heff : effective mask method = .complete := by simp [effective, hmeth]
  obtain ⟨seed, hs, hS, t, ht, rfl⟩ := as_flood hinf (by rw [heff]; simp) hkeep h
  have hr : effRaise raise mask method = id := by unfold effRaise; rw [heff]; rfl
  rw [hr] at ht
  rw [← hS] at hn ⊢
  obtain ⟨⟨v, hv, hle⟩, hub⟩ := level_of_ok (raise := id) hs (fun x => le_refl x) monotone_id fuel t ht n hn
  have hge : t.dem n ≤ v := by simpa using hub v hv
  have : v = t.dem n := le_antisymm hle hge
  subst this
  exact ⟨hv, fun w hw => by simpa using hub w hw⟩

/-- **C192** ('complete').  If the fill raises no stream cell, every connected cell is filled to its spill elevation
towards the streams. -/
theorem C192_spill {fuel : ℕ} {raise : V → V} {flood : V} {g : Grid N} {dem out : Fin N → V} {m : Fin N → Bool}
    {method : String} (hinf : ∀ x, x ≤ raise x) (hmeth : method.toLower = "complete")
    (h : fillSinks fuel raise flood g dem (some m) method = .ok out) (hkeep : ∀ n, m n = true → out n = dem n)
    (n : Fin N) (hn : Reach g.nbr (fun k => m k = true) n) :
    IsSpill g.nbr dem (fun k => m k = true) n (out n) :=
  spill_of hinf hmeth hkeep h n hn

/-- **C192** ('priority').  Up to `N` increments. -/
theorem C192_overfill {fuel : ℕ} {raise : V → V} {flood : V} {g : Grid N} {dem out : Fin N → V} {m : Fin N → Bool}
    {method : String} (hinf : ∀ x, x ≤ raise x) (hmono : Monotone raise) (hmeth : method.toLower ≠ "complete")
    (h : fillSinks fuel raise flood g dem (some m) method = .ok out) (hkeep : ∀ n, m n = true → out n = dem n)
    (n : Fin N) (hn : Reach g.nbr (fun k => m k = true) n) :
    ∃ w, IsSpill g.nbr dem (fun k => m k = true) n w ∧ w ≤ out n ∧ out n ≤ raise^[N] w := by
  have heff : effective (some m) method = .priority := by simp [effective, hmeth]
  obtain ⟨seed, hs, hS, t, ht, rfl⟩ := as_flood hinf (by rw [heff]; simp) hkeep h
  have hr : effRaise raise (some m) method = raise := by unfold effRaise; rw [heff]; rfl
  rw [hr] at ht
  have hS' : (fun n => n ∈ seed) = fun k => m k = true := hS
  rw [← hS'] at hn ⊢
  obtain ⟨t0, ht0⟩ := pfLoop_terminates false (raise := id) (fun x : V => le_refl x)
    (fun x => le_refl x) (fun _ _ h => h.le) (N + 1) (pfInit dem seed)
    (inv_init (· ≤ ·) g.nbr dem seed hs) (by omega)
  obtain ⟨⟨w, hw, hle0⟩, hub0⟩ := level_of_ok (raise := id) hs (fun x => le_refl x) monotone_id _ t0 ht0 n hn
  obtain ⟨⟨v, hv, hle⟩, hub⟩ := level_of_ok hs hinf hmono fuel t ht n hn
  refine ⟨w, ⟨hw, fun x hx => ?_⟩, ?_, hub w hw⟩
  · have : t0.dem n ≤ x := by simpa using hub0 x hx
    exact hle0.trans this
  · have : t0.dem n ≤ v := by simpa using hub0 v hv
    exact (hle0.trans this).trans hle

/-- **C192**, when this applies: if no stream cell with two or more stream cells beside it lies below all of them, no
stream cell is raised. -/
theorem C192_kept {fuel : ℕ} {raise : V → V} {flood : V} {g : Grid N} {dem out : Fin N → V} {m : Fin N → Bool}
    {method : String} (hpit : ∀ c, m c = true → 2 ≤ ((inRange N (g.nbr c)).filter (fun k => m k)).length →
      ∃ k, Adj g.nbr c k ∧ m k = true ∧ dem k ≤ dem c)
    (h : fillSinks fuel raise flood g dem (some m) method = .ok out) (n : Fin N) (hn : m n = true) :
    out n = dem n := by
  obtain ⟨seed, hs, hseed, ⟨_, t, ht, rfl⟩ | ⟨hd, _⟩⟩ := fillSinks_cases h
  · have hm : ∀ k, decide (k ∈ seed) = m k := by
      intro k
      have := hseed k
      simp only [Outlet] at this
      by_cases hk : m k = true <;> simp [hk, this]
    refine ((pfLoop_inv (fun s => (∀ n ∈ seed, s.closed n = true) ∧ ∀ n ∈ seed, s.dem n = dem n) ?_ fuel _ t
      ⟨fun n hn => by simp [pfInit, hn], fun _ _ => rfl⟩ ht).1.2 n ((hseed n).2 hn))
    rintro s c s' ⟨hcl, hdem⟩ hp
    obtain ⟨_, hd', hcl'⟩ := popNext_done hp
    have hb : burn (effRaise raise (some m) method) true g.nbr seed c s'.dem = s'.dem := by
      refine burn_keeps fun hc h2 => ?_
      simp only [streamElevs, List.length_map, hm] at h2
      obtain ⟨k, h3, h4, h5⟩ := hpit c ((hseed c).1 hc) h2
      have hk := (hseed k).2 h4
      exact ⟨k, h3, hk, by rw [hd', hdem k hk, hdem c hc]; exact h5⟩
    have hcl2 : ∀ n ∈ seed, s'.closed n = true := by rw [hcl']; exact hcl
    show (∀ n ∈ seed, (process _ true _ _ _ _).closed n = true) ∧ ∀ n ∈ seed, (process _ true _ _ _ _).dem n = dem n
    unfold process
    rw [hb]
    have h3 := fold_same (raise := effRaise raise (some m) method) (c := c) (g.nbr c)
      (s := { s' with dem := s'.dem, done := s'.done ++ [c] }) hcl2
    constructor
    · rw [h3.1]; exact h3.2
    · intro x hx
      rw [foldVisit_dem_closed _ _ _ _ _ { s' with dem := s'.dem, done := s'.done ++ [c] } hcl2 x (hcl2 x hx)]
      show s'.dem x = dem x
      rw [hd', hdem x hx]
  · cases eff_drain_none hd

private theorem PathTop.more {nbr : Fin N → List ℕ} {dem : Fin N → V} {S S' : Fin N → Prop} (hS : ∀ n, S n → S' n)
    {n : Fin N} {v : V} (h : PathTop nbr dem S n v) : PathTop nbr dem S' n v := by
  induction h with
  | seed hs => exact .seed (hS _ hs)
  | step _ ha ih => exact .step ih ha

private theorem Reach.more {nbr : Fin N → List ℕ} {S S' : Fin N → Prop} (hS : ∀ n, S n → S' n) {n : Fin N}
    (h : Reach nbr S n) : Reach nbr S' n := by
  induction h with
  | seed hs => exact .seed (hS _ hs)
  | step _ ha ih => exact .step ih ha

/-- **C193** ('complete').  More places for the water to leave, a lower fill: if every outlet of the one call is one of
the other (outlets: the marked stream cells if there is a mask, else the cells on the grid edge), no connected cell is
filled higher in the other.  The outlets must keep their elevations, which without a mask they do. -/
theorem C193_outlets {fuel fuel' : ℕ} {raise : V → V} {flood : V} {g : Grid N} {dem out out' : Fin N → V}
    {mask mask' : Option (Fin N → Bool)} {method : String} (hinf : ∀ x, x ≤ raise x)
    (hmeth : method.toLower = "complete") (hmore : ∀ n, Outlet g mask n → Outlet g mask' n)
    (h : fillSinks fuel raise flood g dem mask method = .ok out)
    (h' : fillSinks fuel' raise flood g dem mask' method = .ok out')
    (hkeep : ∀ m, mask = some m → ∀ n, m n = true → out n = dem n)
    (hkeep' : ∀ m, mask' = some m → ∀ n, m n = true → out' n = dem n)
    (n : Fin N) (hn : Reach g.nbr (Outlet g mask) n) : out' n ≤ out n := by
  have keep : ∀ {fuel : ℕ} {mask : Option (Fin N → Bool)} {out : Fin N → V},
      fillSinks fuel raise flood g dem mask method = .ok out →
      (∀ m, mask = some m → ∀ n, m n = true → out n = dem n) → ∀ n, Outlet g mask n → out n = dem n := by
    intro fuel mask out h hk n hn
    cases mask with
    | none => exact C02_edges_unchanged hinf h n hn
    | some m => exact hk m rfl n hn
  have hs := spill_of hinf hmeth (keep h hkeep) h n hn
  have hs' := spill_of hinf hmeth (keep h' hkeep') h' n (Reach.more hmore hn)
  exact hs'.2 (PathTop.more hmore hs.1)

end Dany.Flood
