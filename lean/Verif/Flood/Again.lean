import Verif.Flood.Props

/-!
# Filling a surface that drains (C117–C119)
-/

namespace Dany.Flood

open Function

variable {N : ℕ} {V : Type*} [LinearOrder V]

/-- `x` lies below `y`, or at the same level where adding eps changes nothing -/
def Level (raise : V → V) (x y : V) : Prop := x < y ∨ (x = y ∧ raise x = x)

/-- While cell `c` at level `v` is processed. -/
structure Calm (f : Fin N → V) (v : V) (s : PF N V) : Prop where
  dem : s.dem = f
  pit : ∀ p ∈ s.pit, f p = v
  heap : ∀ e ∈ s.heap, v ≤ e.1

theorem calm_low {raise : V → V} {nbr : Fin N → List ℕ} (hsym : SymmNbr nbr) {f : Fin N → V}
    {seed : List (Fin N)} {c : Fin N} {s : PF N V} (hi : Inv (· ≤ ·) nbr f seed (some c) s)
    (hs : Calm f (f c) s) {n : Fin N} (hd : Drains (Level raise) nbr f (· ∈ seed) n)
    (hn : s.closed n = false) : f c ≤ f n ∧ (f n = f c → raise (f c) = f c) := by
  induction hd with
  | outlet h => rw [hi.seeds _ h] at hn; cases hn
  | @step n d ha hl _ ih =>
    cases hcd : s.closed d with
    | false =>
      obtain ⟨h1, h2⟩ := ih hcd
      rcases hl with hl | ⟨hl, _⟩
      · exact ⟨h1.trans hl.le, fun h => absurd (h ▸ hl) (not_lt.2 h1)⟩
      · rw [← hl]; exact ⟨h1, h2⟩
    | true =>
      have hv : f c ≤ f d := by
        rcases (hi.cl d).1 hcd with h | h
        · by_cases hdc : d = c
          · rw [hdc]
          · have := hi.doneCl d h (by simpa using fun h => hdc h.symm) n (hsym _ _ ha)
            rw [this] at hn; cases hn
        · rcases List.mem_append.1 h with h | h
          · obtain ⟨⟨e, d'⟩, he, rfl⟩ := List.mem_map.1 h
            have := hs.heap _ he
            rw [(hi.key e d' he).1, hs.dem] at this
            exact this
          · exact (hs.pit _ h).ge
      rcases hl with hl | ⟨hl, hr⟩
      · exact ⟨hv.trans hl.le, fun h => absurd (h ▸ hl) (not_lt.2 hv)⟩
      · rw [← hl]; exact ⟨hv, fun h => h ▸ hr⟩

theorem calm_visit {raise : V → V} {nbr : Fin N → List ℕ} (hsym : SymmNbr nbr) {f : Fin N → V}
    {seed : List (Fin N)} (hd : ∀ n, Reach nbr (· ∈ seed) n → Drains (Level raise) nbr f (· ∈ seed) n)
    {c : Fin N} {s : PF N V} (hi : Inv (· ≤ ·) nbr f seed (some c) s) (hs : Calm f (f c) s) (m : ℕ)
    (hm : m ∈ nbr c) {streams : Bool} : Calm f (f c) (visit raise streams seed c s m) := by
  rcases visit_cases raise streams seed c s hi.seeds m with ⟨h, _⟩ | ⟨hN, hcl, _, ⟨hle, h⟩ | ⟨hlt, h⟩⟩
  · rw [h]; exact hs
  · rw [h]
    rw [hs.dem] at hle
    have hr : Reach nbr (· ∈ seed) ⟨m, hN⟩ :=
      .step (hi.reach c ((hi.cl c).2 (.inl (hi.curDone c rfl)))) hm
    obtain ⟨h1, h2⟩ := calm_low hsym hi hs (hd _ hr) hcl
    have he := le_antisymm hle h1
    refine ⟨?_, ?_, hs.heap⟩
    · show update s.dem _ (raise (s.dem c)) = f
      rw [hs.dem, h2 he, ← he, update_eq_self]
    · intro p hp
      rcases List.mem_append.1 hp with hp | hp
      · exact hs.pit p hp
      · rw [List.mem_singleton.1 hp]; exact he
  · rw [h]
    refine ⟨hs.dem, hs.pit, fun e he => ?_⟩
    rcases List.mem_cons.1 he with rfl | he
    · show f c ≤ s.dem _
      rw [hs.dem] at hlt ⊢; exact hlt.le
    · exact hs.heap e he

theorem burn_keeps {raise : V → V} {nbr : Fin N → List ℕ} {seed : List (Fin N)} {c : Fin N} {f : Fin N → V}
    (h : c ∈ seed → 2 ≤ (streamElevs nbr seed c f).length → ∃ k, Adj nbr c k ∧ k ∈ seed ∧ f k ≤ f c) :
    burn raise true nbr seed c f = f := by
  unfold burn
  split
  · rename_i hc
    rcases hl : streamElevs nbr seed c f with _ | ⟨a, _ | ⟨b, es⟩⟩
    · rfl
    · rfl
    · dsimp only
      obtain ⟨k, ha, hk, hle⟩ := h hc.2 (by rw [hl]; simp)
      have := foldl_min_le a (b :: es) (f k) (by rw [← hl, mem_streamElevs]; exact ⟨k, ha, hk, rfl⟩)
      rw [if_neg (not_lt.2 (this.trans hle))]
  · rfl

theorem burn_false {raise : V → V} {nbr : Fin N → List ℕ} {seed : List (Fin N)} (c : Fin N) {f : Fin N → V} :
    burn raise false nbr seed c f = f := by
  unfold burn; simp

/-- The flood changes nothing on a surface that drains. -/
theorem flood_keeps {raise : V → V} {nbr : Fin N → List ℕ} (hsym : SymmNbr nbr) {f : Fin N → V}
    {seed : List (Fin N)} (hsd : seed.Nodup) (hinf : ∀ x, x ≤ raise x) {streams : Bool}
    (hburn : ∀ c, burn raise streams nbr seed c f = f)
    (hd : ∀ n, Reach nbr (· ∈ seed) n → Drains (Level raise) nbr f (· ∈ seed) n) {fuel : ℕ} {t : PF N V}
    (h : pfLoop raise streams nbr seed fuel (pfInit f seed) = .ok t) : t.dem = f := by
  refine (pfLoop_inv (fun s => Inv (· ≤ ·) nbr f seed none s ∧ s.dem = f ∧
    (s.pit = [] ∨ ∃ v, (∀ p ∈ s.pit, f p = v) ∧ ∀ e ∈ s.heap, v ≤ e.1)) ?_ fuel _ t
    ⟨inv_init _ _ _ _ hsd, rfl, .inl rfl⟩ h).1.2.1
  rintro s c s' ⟨hi, hdem, hpit⟩ hp
  refine ⟨inv_process streams hinf hinf (fun _ _ h => h.le) hi hp, ?_⟩
  have h0 := (inv_pop (raise := raise) streams hinf hi hp).1
  have hdem' := (popNext_done hp).2.1
  have hc : Calm f (f c) { s' with dem := burn raise streams nbr seed c s'.dem, done := s'.done ++ [c] } := by
    have hb : burn raise streams nbr seed c s'.dem = f := by
      rw [hdem', hdem]; exact hburn c
    unfold popNext at hp
    split at hp
    · rename_i c' rest hpit'
      cases hp
      rcases hpit with h | ⟨v, h1, h2⟩
      · rw [hpit'] at h; cases h
      · have hcv : f c = v := h1 c (by simp [hpit'])
        exact ⟨hb, fun p hp => by rw [hcv]; exact h1 p (by rw [hpit']; exact List.mem_cons_of_mem _ hp),
          fun e he => by rw [hcv]; exact h2 e he⟩
    · rename_i hpit'
      split at hp
      · cases hp
      · rename_i e c' rest hm
        cases hp
        obtain ⟨h1, h2⟩ := popMin_some hm
        have hmem : (e, c) ∈ s.heap := h1.mem_iff.2 (by simp)
        have hk := (hi.key e c hmem).1
        rw [hdem] at hk
        refine ⟨hb, fun p hp => ?_, fun x hx => ?_⟩
        · have hp : p ∈ s.pit := hp
          rw [hpit'] at hp; cases hp
        · have := h2 x (h1.mem_iff.2 (List.mem_cons_of_mem _ hx))
          rw [← hk]; exact this
  have key : ∀ (l : List ℕ) (s : PF N V), (∀ m ∈ l, m ∈ nbr c) → Inv (· ≤ ·) nbr f seed (some c) s →
      Calm f (f c) s → Calm f (f c) (l.foldl (visit raise streams seed c) s) := by
    intro l
    induction l with
    | nil => intro s _ _ h; exact h
    | cons m l ih =>
      intro s hl hi hs
      rw [List.foldl_cons]
      exact ih _ (fun x hx => hl x (by simp [hx]))
        (inv_visit streams hinf hinf (fun _ _ h => h.le) hi m (hl m (by simp)))
        (calm_visit hsym hd hi hs m (hl m (by simp)))
  have hf := key (nbr c) _ (fun _ h => h) h0 hc
  exact ⟨hf.dem, .inr ⟨f c, hf.pit, hf.heap⟩⟩

theorem Drains.imp {r r' : V → V → Prop} (h : ∀ x y, r x y → r' x y) {nbr : Fin N → List ℕ} {f : Fin N → V}
    {S : Fin N → Prop} {n : Fin N} (hd : Drains r nbr f S n) : Drains r' nbr f S n := by
  induction hd with
  | outlet h => exact .outlet h
  | step ha hl _ ih => exact .step ha (h _ _ hl) ih

/-! ### C118 -/

/-- **C118** ('priority').  A DEM on which every connected cell has a strictly descending path to the grid edge
is returned as it is. -/
theorem C118_priority {fuel : ℕ} {raise : V → V} {flood : V} {g : Grid N} {dem out : Fin N → V}
    {method : String} (hinf : ∀ x, x ≤ raise x) (hsym : SymmNbr g.nbr)
    (heff : effective (none : Option (Fin N → Bool)) method = .priority)
    (hd : ∀ n, Reach g.nbr (Edge.OnEdge g.iverts) n → Drains (· < ·) g.nbr dem (Edge.OnEdge g.iverts) n)
    (h : fillSinks fuel raise flood g dem none method = .ok out) : out = dem := by
  obtain ⟨seed, hs, hseed, ⟨_, t, ht, rfl⟩ | ⟨hd, h⟩⟩ := fillSinks_cases h
  · have hS : (fun n => n ∈ seed) = Edge.OnEdge g.iverts := funext fun n => propext (hseed n)
    rw [← hS] at hd
    exact flood_keeps hsym hs (effRaise_infl hinf _ _) (fun c => burn_false c) (fun n hn => (hd n hn).imp fun _ _ h => .inl h) ht
  · rw [heff] at hd; cases hd

/-- **C118** ('complete').  A DEM on which every connected cell has a path to the grid edge that never ascends
is returned as it is. -/
theorem C118_complete {fuel : ℕ} {raise : V → V} {flood : V} {g : Grid N} {dem out : Fin N → V}
    {method : String} (hsym : SymmNbr g.nbr)
    (heff : effective (none : Option (Fin N → Bool)) method = .complete)
    (hd : ∀ n, Reach g.nbr (Edge.OnEdge g.iverts) n → Drains (· ≤ ·) g.nbr dem (Edge.OnEdge g.iverts) n)
    (h : fillSinks fuel raise flood g dem none method = .ok out) : out = dem := by
  obtain ⟨seed, hs, hseed, ⟨_, t, ht, rfl⟩ | ⟨hd, h⟩⟩ := fillSinks_cases h
  · have hS : (fun n => n ∈ seed) = Edge.OnEdge g.iverts := funext fun n => propext (hseed n)
    rw [← hS] at hd
    have hr : effRaise raise (none : Option (Fin N → Bool)) method = id := by
      unfold effRaise; rw [heff]; rfl
    rw [hr] at ht
    exact flood_keeps hsym hs (fun _ => le_rfl) (fun c => burn_false c)
      (fun n hn => (hd n hn).imp fun x y h => h.lt_or_eq.imp id fun h => ⟨h, rfl⟩) ht
  · rw [heff] at hd; cases hd

/-- **C118** ('drain').  A cell with a path to the grid edge on which every step falls by eps or more keeps its
elevation, whatever the rest of the DEM is like. -/
theorem C118_drain {fuel : ℕ} {raise : V → V} {flood : V} {g : Grid N} {dem out : Fin N → V}
    {method : String} (hinf : ∀ x, x ≤ raise x) (hmono : Monotone raise) (hfl : ∀ n, dem n ≤ flood)
    (heff : effective (none : Option (Fin N → Bool)) method = .drain)
    (h : fillSinks fuel raise flood g dem none method = .ok out) {n : Fin N}
    (hd : Drains (fun x y => raise x ≤ y) g.nbr dem (Edge.OnEdge g.iverts) n) : out n = dem n := by
  refine le_antisymm ?_ (C01_never_lowers hinf (fun _ => hfl) h n)
  have key : PathRise raise g.nbr dem (Edge.OnEdge g.iverts) n (dem n) := by
    induction hd with
    | outlet h => exact .seed h
    | step ha hl _ ih =>
      have := PathRise.step ih ha
      rwa [max_eq_left hl] at this
  exact (C10_drain_least hinf hmono hfl heff h n).2 (.inr key)

/-- **C118** (with a stream mask).  A DEM on which every connected cell has a strictly descending path to a
stream cell (with 'complete': a path that never ascends), and no stream cell with two or more stream cells
beside it lies below all of them, is returned as it is. -/
theorem C118_mask {fuel : ℕ} {raise : V → V} {flood : V} {g : Grid N} {dem out : Fin N → V} {m : Fin N → Bool}
    {method : String} (hinf : ∀ x, x ≤ raise x) (hsym : SymmNbr g.nbr)
    (hd : ∀ n, Reach g.nbr (fun k => m k = true) n → Drains (fun x y => x < y ∨
      (x = y ∧ effective (some m) method = .complete)) g.nbr dem (fun k => m k = true) n)
    (hpit : ∀ c, m c = true → 2 ≤ ((inRange N (g.nbr c)).filter (fun k => m k)).length →
      ∃ k, Adj g.nbr c k ∧ m k = true ∧ dem k ≤ dem c)
    (h : fillSinks fuel raise flood g dem (some m) method = .ok out) : out = dem := by
  obtain ⟨seed, hs, hseed, ⟨_, t, ht, rfl⟩ | ⟨hd, h⟩⟩ := fillSinks_cases h
  · have hS : (fun n => n ∈ seed) = fun k => m k = true := funext fun n => propext (hseed n)
    rw [← hS] at hd
    refine flood_keeps hsym hs (effRaise_infl hinf _ _) (fun c => burn_keeps fun hc h2 => ?_)
      (fun n hn => (hd n hn).imp fun x y h => h.imp id fun h => ⟨h.1, ?_⟩) ht
    · have hm : ∀ k, decide (k ∈ seed) = m k := by
        intro k
        have := hseed k
        simp only [Outlet] at this
        by_cases hk : m k = true <;> simp [hk, this]
      simp only [streamElevs, List.length_map, hm] at h2
      obtain ⟨k, h3, h4, h5⟩ := hpit c ((hseed c).1 hc) h2
      exact ⟨k, h3, (hseed k).2 h4, h5⟩
    · unfold effRaise; rw [h.2]; rfl
  · cases eff_drain_none hd

/-! ### C119 -/

/-- **C119**, the part that holds: filling again with the same stream mask changes nothing if the method is
'complete'.  Missing: with eps > 0 it is false, see `C119_refuted`. -/
theorem C119_complete_partial {fuel fuel' : ℕ} {raise : V → V} {flood : V} {g : Grid N}
    {dem out out' : Fin N → V} {m : Fin N → Bool} {method : String} (hinf : ∀ x, x ≤ raise x)
    (hsym : SymmNbr g.nbr) (hmeth : method.toLower = "complete")
    (h : fillSinks fuel raise flood g dem (some m) method = .ok out)
    (h' : fillSinks fuel' raise flood g out (some m) method = .ok out') : out' = out := by
  have heff : effective (some m) method = .complete := by simp [effective, hmeth]
  refine C118_mask hinf hsym (fun n hn => ?_) (fun c hc h2 => C14_complete hmeth hsym h c hc h2) h'
  exact (C03_complete_drains hinf hsym (by rw [heff]; decide) h n hn).imp fun x y h =>
    h.lt_or_eq.imp id fun h => ⟨h, heff⟩

/-! ### C117 -/

/-- **C117.**  Filling a filled DEM again, without a stream mask and with the same method and eps, changes
nothing; also if adding eps does not raise some or all elevations. -/
theorem C117_idempotent {fuel fuel' : ℕ} {raise : V → V} {flood : V} {g : Grid N} {dem out out' : Fin N → V}
    {method : String} (hinf : ∀ x, x ≤ raise x) (hmono : Monotone raise) (hsym : SymmNbr g.nbr)
    (hfl : effective (none : Option (Fin N → Bool)) method = .drain → ∀ n, dem n ≤ flood)
    (h : fillSinks fuel raise flood g dem none method = .ok out)
    (h' : fillSinks fuel' raise flood g out none method = .ok out') : out' = out := by
  by_cases heff : effective (none : Option (Fin N → Bool)) method = .drain
  · have hfl := hfl heff
    have hl := C10_drain_least hinf hmono hfl heff h
    have hfo : ∀ n, out n ≤ flood := fun n => (hl n).2 (.inl rfl)
    have hl' := C10_drain_least hinf hmono hfo heff h'
    funext n
    refine le_antisymm ?_ (C01_never_lowers hinf (fun _ => hfo) h' n)
    have key : ∀ k v, PathRise raise g.nbr dem (Edge.OnEdge g.iverts) k v →
        ∃ v' ≤ v, PathRise raise g.nbr out (Edge.OnEdge g.iverts) k v' := by
      intro k v hv
      induction hv with
      | seed hs => exact ⟨_, (C02_edges_unchanged hinf h _ hs).le, .seed hs⟩
      | step hp ha ih =>
        obtain ⟨v', hle, hv'⟩ := ih
        exact ⟨_, max_le ((hl _).2 (.inr (.step hp ha))) ((hmono hle).trans (le_max_right _ _)), .step hv' ha⟩
    rcases (hl n).1 with h1 | h1
    · rw [h1]; exact (hl' n).2 (.inl rfl)
    · obtain ⟨v', hle, hv'⟩ := key n _ h1
      exact ((hl' n).2 (.inr hv')).trans hle
  · obtain ⟨seed, hs, hseed, ⟨_, t, ht, rfl⟩ | ⟨hd, _⟩⟩ := fillSinks_cases h
    · obtain ⟨seed', hs', hseed', ⟨_, t', ht', rfl⟩ | ⟨hd, _⟩⟩ := fillSinks_cases h'
      · have hi := effRaise_infl hinf (none : Option (Fin N → Bool)) method
        have hS : (fun n => n ∈ seed) = fun n => n ∈ seed' :=
          funext fun n => propext ((hseed n).trans (hseed' n).symm)
        refine flood_keeps hsym hs' hi (fun c => burn_false c) (fun n hn => ?_) ht'
        rw [← hS] at hn ⊢
        refine drains_of_ok false hsym hs hi (rel := Level (effRaise raise none method)) (fun x => ?_)
          (fun _ _ h => .inl h) fuel t ht n hn
        rcases (hi x).lt_or_eq with h | h
        · exact .inl h
        · exact .inr ⟨h, h.symm⟩
      · exact absurd hd heff
    · exact absurd hd heff

end Dany.Flood
