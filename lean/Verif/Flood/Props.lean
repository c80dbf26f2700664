import Verif.Flood.Drain
import Verif.Flood.Burn
import Verif.Edge.Props
import Mathlib.Algebra.Order.Archimedean.Basic
import Mathlib.Algebra.Order.Ring.Rat
import Mathlib.Algebra.Order.Archimedean.Real.Basic
import Mathlib.Data.Set.Finite.Basic
import Mathlib.Data.Fin.VecNotation

/-!
# Properties C01–C14 and C17 of `fill_sinks`

In every theorem `raise x` is `x + eps`.  `∀ x, x ≤ raise x` says `eps ≥ 0`, `∀ x, x < raise x` that
adding `eps` strictly raises every elevation.
-/

namespace Dany.Flood

open Function

variable {N : ℕ} {V : Type*} [LinearOrder V]

/-! ### unfolding the dispatch -/

/-- The increment in effect. -/
def effRaise (raise : V → V) (mask : Option (Fin N → Bool)) (method : String) : V → V :=
  if effective mask method = .complete then id else raise

theorem lower_priority : "priority".toLower = "priority" := by decide +kernel

theorem fillFrom_eq (fuel : ℕ) (raise : V → V) (flood : V) (nbr : Fin N → List ℕ)
    (edge : List (Fin N)) (dem : Fin N → V) (mask : Option (Fin N → Bool)) (method : String) :
    fillFrom fuel raise flood nbr edge dem mask method =
      if effective mask method = .drain then floodAndDrain fuel raise flood nbr dem edge
      else match mask with
        | some m => priorityFlood fuel (effRaise raise mask method) true nbr dem
            ((List.finRange N).filter (fun n => m n))
        | none => priorityFlood fuel (effRaise raise mask method) false nbr dem edge := by
  unfold fillFrom effRaise effective
  have hpc : ("priority" : String) ≠ "complete" := by decide
  cases mask with
  | none =>
    simp only [Option.isSome_none, Bool.false_eq_true, if_false, or_false]
    by_cases h1 : method.toLower = "complete"
    · simp [h1]
    · by_cases h2 : method.toLower = "priority"
      · simp [h2]
      · simp [h1, h2]
  | some m =>
    simp only [Option.isSome_some, if_true, or_true]
    by_cases h1 : method.toLower = "complete"
    · simp [h1]
    · by_cases h2 : method.toLower = "priority"
      · simp [h2]
      · simp [h1, h2, lower_priority]

theorem eff_drain_none {mask : Option (Fin N → Bool)} {method : String}
    (h : effective mask method = .drain) : mask = none := by
  unfold effective at h
  cases mask with
  | none => rfl
  | some m => simp only [Option.isSome_some, or_true, if_true] at h; split at h <;> cases h

/-- A successful run is either a priority flood from the outlets or a drain run from the edge. -/
theorem fillSinks_cases {fuel : ℕ} {raise : V → V} {flood : V} {g : Grid N} {dem out : Fin N → V}
    {mask : Option (Fin N → Bool)} {method : String}
    (h : fillSinks fuel raise flood g dem mask method = .ok out) :
    ∃ seed : List (Fin N), seed.Nodup ∧ (∀ n, n ∈ seed ↔ Outlet g mask n) ∧
      ((effective mask method ≠ .drain ∧
        ∃ t, pfLoop (effRaise raise mask method) mask.isSome g.nbr seed fuel (pfInit dem seed) = .ok t ∧
          t.dem = out) ∨
       (effective mask method = .drain ∧ floodAndDrain fuel raise flood g.nbr dem seed = .ok out)) := by
  obtain ⟨edge, he, h⟩ := Res.bind_eq_ok.1 h
  obtain ⟨h1, h2⟩ := Edge.C15_edge_nodes he
  rw [fillFrom_eq] at h
  by_cases hd : effective mask method = .drain
  · have := eff_drain_none hd
    subst this
    rw [if_pos hd] at h
    exact ⟨edge, h1.imp ne_of_lt, h2, .inr ⟨hd, h⟩⟩
  · rw [if_neg hd] at h
    cases mask with
    | none => exact ⟨edge, h1.imp ne_of_lt, h2, .inl ⟨hd, Res.map_eq_ok.1 h⟩⟩
    | some m =>
      exact ⟨_, (List.nodup_finRange N).filter _, fun n => by simp [Outlet], .inl ⟨hd, Res.map_eq_ok.1 h⟩⟩

theorem effRaise_infl {raise : V → V} (hinf : ∀ x, x ≤ raise x) (mask : Option (Fin N → Bool))
    (method : String) : ∀ x, x ≤ effRaise raise mask method x := by
  unfold effRaise; split
  · exact fun x => le_refl x
  · exact hinf

theorem effRaise_mono {raise : V → V} (hm : Monotone raise) (mask : Option (Fin N → Bool))
    (method : String) : Monotone (effRaise raise mask method) := by
  unfold effRaise; split
  · exact monotone_id
  · exact hm

theorem reach_congr {nbr : Fin N → List ℕ} {S S' : Fin N → Prop} (h : ∀ n, S n ↔ S' n) {n : Fin N} :
    Reach nbr S n ↔ Reach nbr S' n := by
  have : S = S' := funext fun n => propext (h n)
  rw [this]

/-! ### C01 -/

/-- **C01.**  `fill_sinks` never lowers a cell. -/
theorem C01_never_lowers {fuel : ℕ} {raise : V → V} {flood : V} {g : Grid N} {dem out : Fin N → V}
    {mask : Option (Fin N → Bool)} {method : String} (hinf : ∀ x, x ≤ raise x)
    (hfl : effective mask method = .drain → ∀ n, dem n ≤ flood)
    (h : fillSinks fuel raise flood g dem mask method = .ok out) (n : Fin N) : dem n ≤ out n := by
  obtain ⟨seed, hs, hseed, ⟨_, t, ht, rfl⟩ | ⟨hd, h⟩⟩ := fillSinks_cases h
  · exact (final_of_ok (rel := (· ≤ ·)) _ hs (effRaise_infl hinf mask method)
      (effRaise_infl hinf mask method) (fun _ _ h => h.le) fuel t ht).inv.ge n
  · refine (drainLoop_inv (fun wf => (∀ n, dem n ≤ wf n) ∧ ∀ n ∈ seed, wf n = dem n)
      (fun c b wf b' wf' hp hc => drain_basic hp hc) fuel _ out ?_ h).1.1 n
    refine ⟨fun n => ?_, fun n hn => by simp [drainInit, hn]⟩
    unfold drainInit; split
    · exact le_refl _
    · exact hfl hd n

/-! ### C02 -/

/-- **C02.**  Without a stream mask the grid-edge cells keep their elevation. -/
theorem C02_edges_unchanged {fuel : ℕ} {raise : V → V} {flood : V} {g : Grid N} {dem out : Fin N → V}
    {method : String} (hinf : ∀ x, x ≤ raise x)
    (h : fillSinks fuel raise flood g dem none method = .ok out) (n : Fin N)
    (hn : Edge.OnEdge g.iverts n) : out n = dem n := by
  obtain ⟨seed, hs, hseed, ⟨_, t, ht, rfl⟩ | ⟨hd, h⟩⟩ := fillSinks_cases h
  · have hns : n ∈ seed := (hseed n).2 hn
    have hinf' := effRaise_infl hinf (none : Option (Fin N → Bool)) method
    refine (pfLoop_inv (fun s => Inv (· ≤ ·) g.nbr dem seed none s ∧ s.dem n = dem n)
      (fun s c s' hi hp => ⟨inv_process false hinf' hinf' (fun _ _ h => h.le) hi.1 hp, ?_⟩) fuel _ t
      ⟨inv_init _ _ _ _ hs, rfl⟩ ht).1.2
    show (process _ false g.nbr seed c s').dem n = dem n
    rw [seed_dem_process hi.1 hp n (hi.1.seeds n hns), burn_ne _ _ _ _ _ _ _ (.inr (.inr rfl))]
    exact hi.2
  · have hns : n ∈ seed := (hseed n).2 hn
    refine (drainLoop_inv (fun wf => wf n = dem n) (fun c b wf b' wf' hp hc => ?_) fuel _ out
      (by simp [drainInit, hns]) h).1
    show wf' n = dem n
    rcases drainCell_cases hc with ⟨_, rfl, _⟩ | ⟨_, hlt, m, ha, hh⟩
    · exact hp
    · have hne : n ≠ c := by rintro rfl; rw [hp] at hlt; exact lt_irrefl _ hlt
      rcases hh with ⟨_, rfl⟩ | ⟨_, _, rfl⟩ <;> rw [update_of_ne hne] <;> exact hp

/-! ### C03, C13: the filled surface drains -/

/-- **C03** ('priority') and **C13** (stream mask).  If adding eps strictly raises elevations, every
cell connected to an outlet has a strictly descending path of neighbours to an outlet. -/
theorem C03_drains_strictly {fuel : ℕ} {raise : V → V} {flood : V} {g : Grid N} {dem out : Fin N → V}
    {mask : Option (Fin N → Bool)} {method : String} (hstrict : ∀ x, x < raise x)
    (hsym : SymmNbr g.nbr) (heff : effective mask method = .priority)
    (h : fillSinks fuel raise flood g dem mask method = .ok out) (n : Fin N)
    (hn : Reach g.nbr (Outlet g mask) n) : Drains (· < ·) g.nbr out (Outlet g mask) n := by
  obtain ⟨seed, hs, hseed, ⟨_, t, ht, rfl⟩ | ⟨hd, h⟩⟩ := fillSinks_cases h
  · have hS : (fun n => n ∈ seed) = Outlet g mask := funext fun n => propext (hseed n)
    have hr : effRaise raise mask method = raise := by unfold effRaise; rw [heff]; rfl
    rw [hr] at ht
    rw [← hS] at hn ⊢
    exact drains_of_ok _ hsym hs (fun x => (hstrict x).le) hstrict (fun _ _ h => h) fuel t ht n hn
  · rw [heff] at hd; cases hd

/-- **C13** is C03 with a mask, for every method name but "complete". -/
theorem C13_stream_mask_drains {fuel : ℕ} {raise : V → V} {flood : V} {g : Grid N}
    {dem out : Fin N → V} {m : Fin N → Bool} {method : String} (hstrict : ∀ x, x < raise x)
    (hsym : SymmNbr g.nbr) (hmeth : method.toLower ≠ "complete")
    (h : fillSinks fuel raise flood g dem (some m) method = .ok out) (n : Fin N)
    (hn : Reach g.nbr (fun k => m k = true) n) :
    Drains (· < ·) g.nbr out (fun k => m k = true) n :=
  C03_drains_strictly hstrict hsym (by simp [effective, hmeth]) h n hn

/-- **C03** ('complete', and in fact all flooding methods).  Every connected cell has a never
ascending path to an outlet. -/
theorem C03_complete_drains {fuel : ℕ} {raise : V → V} {flood : V} {g : Grid N} {dem out : Fin N → V}
    {mask : Option (Fin N → Bool)} {method : String} (hinf : ∀ x, x ≤ raise x)
    (hsym : SymmNbr g.nbr) (heff : effective mask method ≠ .drain)
    (h : fillSinks fuel raise flood g dem mask method = .ok out) (n : Fin N)
    (hn : Reach g.nbr (Outlet g mask) n) : Drains (· ≤ ·) g.nbr out (Outlet g mask) n := by
  obtain ⟨seed, hs, hseed, ⟨_, t, ht, rfl⟩ | ⟨hd, h⟩⟩ := fillSinks_cases h
  · have hS : (fun n => n ∈ seed) = Outlet g mask := funext fun n => propext (hseed n)
    rw [← hS] at hn ⊢
    have hi := effRaise_infl hinf mask method
    exact drains_of_ok _ hsym hs hi hi (fun _ _ h => h.le) fuel t ht n hn
  · exact absurd hd heff

/-! ### C04 -/

/-- **C04.**  Cells not connected to an outlet are left alone by the flooding methods. -/
theorem C04_disconnected {fuel : ℕ} {raise : V → V} {flood : V} {g : Grid N} {dem out : Fin N → V}
    {mask : Option (Fin N → Bool)} {method : String} (hinf : ∀ x, x ≤ raise x)
    (heff : effective mask method ≠ .drain)
    (h : fillSinks fuel raise flood g dem mask method = .ok out) (n : Fin N)
    (hn : ¬ Reach g.nbr (Outlet g mask) n) : out n = dem n := by
  obtain ⟨seed, hs, hseed, ⟨_, t, ht, rfl⟩ | ⟨hd, h⟩⟩ := fillSinks_cases h
  · have hi := effRaise_infl hinf mask method
    have hF := final_of_ok (rel := (· ≤ ·)) _ hs hi hi (fun _ _ h => h.le) fuel t ht
    apply hF.inv.unclosed
    rw [← Bool.not_eq_true, hF.closed_iff, hF.reach_iff, reach_congr hseed]
    exact hn
  · exact absurd hd heff

/-! ### C05 -/

/-- **C05** (termination).  The flooding methods finish within `N + 1` tests of the loop condition and
raise no exception, whatever the neighbour lists contain. -/
theorem C05_terminates {raise : V → V} {flood : V} {g : Grid N} {dem : Fin N → V}
    {mask : Option (Fin N → Bool)} {method : String} (hinf : ∀ x, x ≤ raise x)
    (hpoly : ∀ n, g.iverts n ≠ []) (heff : effective mask method ≠ .drain) :
    ∃ out, ∀ fuel, N + 1 ≤ fuel → fillSinks fuel raise flood g dem mask method = .ok out := by
  obtain ⟨edge, he⟩ := Edge.C15_total hpoly
  obtain ⟨h1, h2⟩ := Edge.C15_edge_nodes he
  have hi := effRaise_infl hinf mask method
  have key : ∀ (b : Bool) (seed : List (Fin N)), seed.Nodup →
      ∃ out, ∀ fuel, N + 1 ≤ fuel →
        priorityFlood fuel (effRaise raise mask method) b g.nbr dem seed = .ok out := by
    intro b seed hs
    obtain ⟨t, ht⟩ := pfLoop_terminates b hi hi (fun _ _ h => h.le) (N + 1) (pfInit dem seed)
      (inv_init (· ≤ ·) g.nbr dem seed hs) (by omega)
    refine ⟨t.dem, fun fuel hf => ?_⟩
    obtain ⟨k, rfl⟩ := Nat.exists_eq_add_of_le hf
    rw [priorityFlood, pfLoop_mono _ k _ _ ht]; rfl
  cases mask with
  | none =>
    obtain ⟨out, ho⟩ := key false edge (h1.imp ne_of_lt)
    refine ⟨out, fun fuel hf => ?_⟩
    rw [fillSinks, he, Res.bind_ok, fillFrom_eq, if_neg heff]
    exact ho fuel hf
  | some m =>
    obtain ⟨out, ho⟩ := key true ((List.finRange N).filter fun n => m n)
      ((List.nodup_finRange N).filter _)
    refine ⟨out, fun fuel hf => ?_⟩
    rw [fillSinks, he, Res.bind_ok, fillFrom_eq, if_neg heff]
    exact ho fuel hf

/-- **C05** (one visit per cell).  In any completed run from distinct seeds, the sequence of cells
taken from the queues contains every cell connected to the seeds exactly once and nothing else. -/
theorem C05_visits_once {fuel : ℕ} {raise : V → V} {streams : Bool} {nbr : Fin N → List ℕ}
    {dem : Fin N → V} {seed : List (Fin N)} {t : PF N V} (hinf : ∀ x, x ≤ raise x) (hs : seed.Nodup)
    (h : pfLoop raise streams nbr seed fuel (pfInit dem seed) = .ok t) :
    t.done.Nodup ∧ ∀ n, n ∈ t.done ↔ Reach nbr (· ∈ seed) n := by
  have hF := final_of_ok (rel := (· ≤ ·)) _ hs hinf hinf (fun _ _ h => h.le) fuel t h
  exact ⟨hF.nodup, hF.reach_iff⟩

/-! ### C06–C09 -/

/-- **C06.**  'complete' assigns each connected cell its spill elevation. -/
theorem C06_spill {fuel : ℕ} {raise : V → V} {flood : V} {g : Grid N} {dem out : Fin N → V}
    {method : String} (hmeth : method.toLower = "complete")
    (h : fillSinks fuel raise flood g dem none method = .ok out) (n : Fin N)
    (hn : Reach g.nbr (Edge.OnEdge g.iverts) n) :
    IsSpill g.nbr dem (Edge.OnEdge g.iverts) n (out n) := by
  have heff : effective (none : Option (Fin N → Bool)) method = .complete := by
    simp [effective, hmeth]
  obtain ⟨seed, hs, hseed, ⟨_, t, ht, rfl⟩ | ⟨hd, h⟩⟩ := fillSinks_cases h
  · have hS : (fun n => n ∈ seed) = Edge.OnEdge g.iverts := funext fun n => propext (hseed n)
    have hr : effRaise raise (none : Option (Fin N → Bool)) method = id := by
      unfold effRaise; rw [heff]; rfl
    rw [hr] at ht
    rw [← hS] at hn ⊢
    obtain ⟨⟨v, hv, hle⟩, hub⟩ := level_of_ok (raise := id) hs (fun x => le_refl x) monotone_id fuel t ht n hn
    have hge : t.dem n ≤ v := by simpa using hub v hv
    have : v = t.dem n := le_antisymm hle hge
    subst this
    exact ⟨hv, fun w hw => by simpa using hub w hw⟩
  · rw [heff] at hd; cases hd

/-- **C07.**  'complete' filling is idempotent. -/
theorem C07_idempotent {fuel fuel' : ℕ} {raise : V → V} {flood : V} {g : Grid N}
    {dem out out' : Fin N → V} {method : String} (hmeth : method.toLower = "complete")
    (h : fillSinks fuel raise flood g dem none method = .ok out)
    (h' : fillSinks fuel' raise flood g out none method = .ok out') : out' = out := by
  have heff : effective (none : Option (Fin N → Bool)) method = .complete := by
    simp [effective, hmeth]
  have hraise : ∀ (fuel : ℕ) (dem : Fin N → V), fillSinks fuel raise flood g dem none method
      = fillSinks fuel id flood g dem none method := by
    intro fuel dem
    unfold fillSinks
    congr 1; funext edge
    simp [fillFrom, hmeth]
  rw [hraise] at h h'
  funext n
  by_cases hn : Reach g.nbr (Edge.OnEdge g.iverts) n
  · apply le_antisymm
    · have h1 := C06_spill hmeth h
      have h2 := C06_spill hmeth h' n hn
      have key : ∀ k v, PathTop g.nbr dem (Edge.OnEdge g.iverts) k v →
          ∃ v' ≤ v, PathTop g.nbr out (Edge.OnEdge g.iverts) k v' := by
        intro k v hv
        induction hv with
        | @seed s hs =>
          exact ⟨out s, (C02_edges_unchanged (fun x => le_refl (id x)) h s hs).le, .seed hs⟩
        | @step c k v hv ha ih =>
          obtain ⟨v', hle, hv'⟩ := ih
          refine ⟨_, ?_, .step hv' ha⟩
          have hk : Reach g.nbr (Edge.OnEdge g.iverts) k := by
            have : ∀ c v, PathTop g.nbr dem (Edge.OnEdge g.iverts) c v →
                Reach g.nbr (Edge.OnEdge g.iverts) c := by
              intro c v hv
              induction hv with
              | seed hs => exact .seed hs
              | step _ ha ih => exact .step ih ha
            exact .step (this c v hv) ha
          exact max_le (hle.trans (le_max_left _ _)) ((h1 k hk).2 (PathTop.step hv ha))
      obtain ⟨v', hle, hv'⟩ := key n _ (h1 n hn).1
      exact (h2.2 hv').trans hle
    · exact C01_never_lowers (fun x => le_refl (id x)) (by rw [heff]; intro hh; cases hh) h' n
  · exact C04_disconnected (fun x => le_refl (id x)) (by rw [heff]; decide) h' n hn

/-- **C08.**  'complete' filling is monotone. -/
theorem C08_monotone {fuel fuel' : ℕ} {raise : V → V} {flood : V} {g : Grid N}
    {dem dem' out out' : Fin N → V} {method : String} (hmeth : method.toLower = "complete")
    (hle : ∀ n, dem n ≤ dem' n)
    (h : fillSinks fuel raise flood g dem none method = .ok out)
    (h' : fillSinks fuel' raise flood g dem' none method = .ok out') (n : Fin N) :
    out n ≤ out' n := by
  have heff : effective (none : Option (Fin N → Bool)) method = .complete := by
    simp [effective, hmeth]
  have hraise : ∀ (fuel : ℕ) (dem : Fin N → V), fillSinks fuel raise flood g dem none method
      = fillSinks fuel id flood g dem none method := by
    intro fuel dem
    unfold fillSinks
    congr 1; funext edge
    simp [fillFrom, hmeth]
  by_cases hn : Reach g.nbr (Edge.OnEdge g.iverts) n
  · have h1 := C06_spill hmeth h n hn
    have h2 := C06_spill hmeth h' n hn
    have key : ∀ k v, PathTop g.nbr dem' (Edge.OnEdge g.iverts) k v →
        ∃ v' ≤ v, PathTop g.nbr dem (Edge.OnEdge g.iverts) k v' := by
      intro k v hv
      induction hv with
      | @seed s hs => exact ⟨dem s, hle s, .seed hs⟩
      | @step c k v hv ha ih =>
        obtain ⟨v', hle', hv'⟩ := ih
        exact ⟨_, max_le_max hle' (hle k), .step hv' ha⟩
    obtain ⟨v', hle', hv'⟩ := key n _ h2.1
    exact (h1.2 hv').trans hle'
  · rw [hraise] at h h'
    rw [C04_disconnected (fun x => le_refl (id x)) (by rw [heff]; decide) h n hn,
      C04_disconnected (fun x => le_refl (id x)) (by rw [heff]; decide) h' n hn]
    exact hle n

/-- **C09.**  'priority' ends between the spill elevation and `N` increments above it. -/
theorem C09_overfill {fuel : ℕ} {raise : V → V} {flood : V} {g : Grid N} {dem out : Fin N → V}
    {method : String} (hinf : ∀ x, x ≤ raise x) (hmono : Monotone raise)
    (hmeth : method.toLower = "priority")
    (h : fillSinks fuel raise flood g dem none method = .ok out) (n : Fin N)
    (hn : Reach g.nbr (Edge.OnEdge g.iverts) n) :
    ∃ w, IsSpill g.nbr dem (Edge.OnEdge g.iverts) n w ∧ w ≤ out n ∧ out n ≤ raise^[N] w := by
  have heff : effective (none : Option (Fin N → Bool)) method = .priority := by
    simp [effective, hmeth]
  obtain ⟨seed, hs, hseed, ⟨_, t, ht, rfl⟩ | ⟨hd, h⟩⟩ := fillSinks_cases h
  · have hS : (fun n => n ∈ seed) = Edge.OnEdge g.iverts := funext fun n => propext (hseed n)
    have hr : effRaise raise (none : Option (Fin N → Bool)) method = raise := by
      unfold effRaise; rw [heff]; rfl
    rw [hr] at ht
    rw [← hS] at hn ⊢
    -- the spill elevation exists: run the flood without increments
    obtain ⟨t0, ht0⟩ := pfLoop_terminates false (raise := id) (fun x : V => le_refl x)
      (fun x => le_refl x) (fun _ _ h => h.le) (N + 1) (pfInit dem seed)
      (inv_init (· ≤ ·) g.nbr dem seed hs) (by omega)
    obtain ⟨⟨w, hw, hle0⟩, hub0⟩ := level_of_ok (raise := id) hs (fun x => le_refl x) monotone_id _ t0 ht0 n hn
    have hge : t0.dem n ≤ w := by simpa using hub0 w hw
    obtain ⟨⟨v, hv, hle⟩, hub⟩ := level_of_ok hs hinf hmono fuel t ht n hn
    refine ⟨w, ⟨hw, fun x hx => ?_⟩, ?_, hub w hw⟩
    · have : t0.dem n ≤ x := by simpa using hub0 x hx
      exact hle0.trans this
    · have : t0.dem n ≤ v := by simpa using hub0 v hv
      exact (hle0.trans this).trans hle
  · rw [heff] at hd; cases hd

/-! ### C10–C12: the drain method -/

/-- **C10.**  When 'drain' returns, every cell holds the least of the flood level and the levels
reachable along paths from the edge when each step rises by eps or to the ground. -/
theorem C10_drain_least {fuel : ℕ} {raise : V → V} {flood : V} {g : Grid N} {dem out : Fin N → V}
    {method : String} (hinf : ∀ x, x ≤ raise x) (hmono : Monotone raise)
    (hfl : ∀ n, dem n ≤ flood) (heff : effective (none : Option (Fin N → Bool)) method = .drain)
    (h : fillSinks fuel raise flood g dem none method = .ok out) (n : Fin N) :
    IsLeast {v | v = flood ∨ PathRise raise g.nbr dem (Edge.OnEdge g.iverts) n v} (out n) := by
  obtain ⟨seed, hs, hseed, ⟨hd, _⟩ | ⟨_, h⟩⟩ := fillSinks_cases h
  · exact absurd heff hd
  have hS : (fun n => n ∈ seed) = Edge.OnEdge g.iverts := funext fun n => propext (hseed n)
  rw [← hS]
  obtain ⟨hi, w, hw⟩ := drainLoop_inv (DrInv raise flood g.nbr dem seed)
    (fun c b wf b' wf' hp hc => drInv_cell hinf hmono hp hc) fuel _ out
    (drInv_init raise flood g.nbr dem seed hfl) h
  obtain ⟨_, hfix⟩ := drainSweep_false hw
  have hub : ∀ k v, PathRise raise g.nbr dem (· ∈ seed) k v → out k ≤ v := by
    intro k v hv
    induction hv with
    | seed hs => exact (hi.seedEq _ hs).le
    | @step c k v _ ha ih =>
      rcases (hi.ge k).lt_or_eq with hlt | heq
      · exact ((hfix k c hlt ha).2.trans (hmono ih)).trans (le_max_right _ _)
      · rw [← heq]; exact le_max_left _ _
  constructor
  · rcases hi.just n with h1 | ⟨v, hv, hle⟩
    · exact .inl h1
    · right
      rw [show out n = v from le_antisymm (hub n v hv) hle]; exact hv
  · rintro v (rfl | hv)
    · exact hi.le n
    · exact hub n v hv

/-- **C10** (numbering does not matter).  Renumbering the cells renumbers the result. -/
theorem C10_renumber {fuel fuel' : ℕ} {raise : V → V} {flood : V} {g g' : Grid N}
    {dem dem' out out' : Fin N → V} {method : String} (σ : Fin N ≃ Fin N)
    (hinf : ∀ x, x ≤ raise x) (hmono : Monotone raise)
    (hfl : ∀ n, dem n ≤ flood) (heff : effective (none : Option (Fin N → Bool)) method = .drain)
    (hnbr : ∀ a b, Adj g'.nbr (σ a) (σ b) ↔ Adj g.nbr a b)
    (hedge : ∀ a, Edge.OnEdge g'.iverts (σ a) ↔ Edge.OnEdge g.iverts a)
    (hdem : ∀ a, dem' (σ a) = dem a)
    (h : fillSinks fuel raise flood g dem none method = .ok out)
    (h' : fillSinks fuel' raise flood g' dem' none method = .ok out') (n : Fin N) :
    out' (σ n) = out n := by
  have h1 := C10_drain_least hinf hmono hfl heff h n
  have h2 := C10_drain_least hinf hmono (fun k => by
    have := hdem (σ.symm k); rw [Equiv.apply_symm_apply] at this; rw [this]; exact hfl _) heff h' (σ n)
  have e1 : ∀ k v, PathRise raise g.nbr dem (Edge.OnEdge g.iverts) k v →
      PathRise raise g'.nbr dem' (Edge.OnEdge g'.iverts) (σ k) v := by
    intro k v hv
    induction hv with
    | @seed s hs => rw [← hdem]; exact .seed ((hedge _).2 hs)
    | @step c k v _ ha ih => rw [← hdem]; exact .step ih ((hnbr _ _).2 ha)
  have e2 : ∀ k v, PathRise raise g'.nbr dem' (Edge.OnEdge g'.iverts) k v →
      PathRise raise g.nbr dem (Edge.OnEdge g.iverts) (σ.symm k) v := by
    intro k v hv
    induction hv with
    | @seed s hs =>
      have := hdem (σ.symm s); rw [Equiv.apply_symm_apply] at this; rw [this]
      exact .seed ((hedge _).1 (by rw [Equiv.apply_symm_apply]; exact hs))
    | @step c k v _ ha ih =>
      have := hdem (σ.symm k); rw [Equiv.apply_symm_apply] at this; rw [this]
      refine .step ih ((hnbr _ _).1 ?_)
      rw [Equiv.apply_symm_apply, Equiv.apply_symm_apply]; exact ha
  apply le_antisymm
  · apply h2.2
    rcases h1.1 with h | h
    · exact .inl h
    · exact .inr (e1 _ _ h)
  · apply h1.2
    rcases h2.1 with h | h
    · exact .inl h
    · right; simpa using e2 _ _ h

/-- **C03** for 'drain': if adding eps strictly raises elevations below the flood level, every cell that ends below the flood level has a
strictly descending path to an edge cell. -/
theorem C03_drain_drains {fuel : ℕ} {raise : V → V} {flood : V} {g : Grid N} {dem out : Fin N → V}
    {method : String} (hinf : ∀ x, x ≤ raise x) (hstrict : ∀ x, x < flood → x < raise x)
    (hmono : Monotone raise)
    (hfl : ∀ n, dem n ≤ flood) (heff : effective (none : Option (Fin N → Bool)) method = .drain)
    (h : fillSinks fuel raise flood g dem none method = .ok out) (n : Fin N) (hn : out n < flood) :
    Drains (· < ·) g.nbr out (Edge.OnEdge g.iverts) n := by
  have hL := C10_drain_least hinf hmono hfl heff h
  have key : ∀ k v, PathRise raise g.nbr dem (Edge.OnEdge g.iverts) k v → v = out k → out k < flood →
      Drains (· < ·) g.nbr out (Edge.OnEdge g.iverts) k := by
    intro k v hv
    induction hv with
    | seed hs => intro _ _; exact .outlet hs
    | @step c k v hv ha ih =>
      intro hk hkf
      have hvk : v ≤ out k := (hinf v).trans ((le_max_right _ _).trans hk.le)
      have hc : out c ≤ v := (hL c).2 (.inr hv)
      have hge : out k ≤ max (dem k) (raise (out c)) := by
        rcases (hL c).1 with h | h
        · rw [h]
          exact ((hL k).2 (.inl rfl)).trans ((hinf _).trans (le_max_right _ _))
        · exact (hL k).2 (.inr (.step h ha))
      have hlt : out c < out k := by
        calc out c < raise (out c) := hstrict _ (hc.trans_lt (hvk.trans_lt hkf))
          _ ≤ raise v := hmono hc
          _ ≤ max (dem k) (raise v) := le_max_right _ _
          _ = out k := hk
      have hout : ∀ m, out m < flood → ∃ w, PathRise raise g.nbr dem (Edge.OnEdge g.iverts) m w ∧ w = out m := by
        intro m hm
        rcases (hL m).1 with h | h
        · exact absurd h hm.ne
        · exact ⟨_, h, rfl⟩
      -- follow the neighbour `c`: it is strictly lower and itself below the flood level
      refine .step ha hlt ?_
      rcases hc.lt_or_eq with h1 | h1
      · -- the path to `c` is not optimal; recurse on the strictly smaller level instead
        clear ih
        have hcf : out c < flood := hlt.trans_le ((hL k).2 (.inl rfl))
        have wf : ∀ S : Finset (Fin N), ∀ m, out m < flood → (∀ x, out x < out m → x ∈ S) →
            Drains (· < ·) g.nbr out (Edge.OnEdge g.iverts) m := by
          intro S
          induction hcard : S.card using Nat.strong_induction_on generalizing S with
          | _ n ihn =>
            intro m hm hsub
            obtain ⟨w, hw, hwe⟩ := hout m hm
            cases hw with
            | seed hs => exact .outlet hs
            | @step c' _ v' hv' ha' =>
              have hc' : out c' ≤ v' := (hL c').2 (.inr hv')
              have hlt' : out c' < out m := by
                calc out c' < raise (out c') :=
                    hstrict _ (hc'.trans_lt (lt_of_le_of_lt ((hinf v').trans ((le_max_right _ _).trans hwe.le)) hm))
                  _ ≤ raise v' := hmono hc'
                  _ ≤ max (dem m) (raise v') := le_max_right _ _
                  _ = out m := hwe
              refine .step ha' hlt' (ihn (S.erase c').card ?_ (S.erase c') rfl c' (hlt'.trans hm) ?_)
              · rw [← hcard]; exact Finset.card_erase_lt_of_mem (hsub c' hlt')
              · intro x hx
                exact Finset.mem_erase.2 ⟨by rintro rfl; exact lt_irrefl _ hx, hsub x (hx.trans hlt')⟩
        exact wf Finset.univ c hcf (fun x _ => Finset.mem_univ x)
      · exact ih h1.symm (hlt.trans hkf)
  rcases (hL n).1 with h1 | h1
  · exact absurd h1 hn.ne
  · exact key n _ h1 rfl hn

/-- **C11.**  'drain' terminates without exception if neighbour numbers are in range, and if repeatedly
adding eps to a value yields only finitely many values not above the flood level. -/
theorem C11_drain_terminates {raise : V → V} {flood : V} {g : Grid N} {dem : Fin N → V}
    {method : String} (hpoly : ∀ n, g.iverts n ≠ []) (hrange : ∀ c, ∀ n ∈ g.nbr c, n < N)
    (hfl : ∀ n, dem n ≤ flood)
    (hfin : ∀ x, {y | y ≤ flood ∧ ∃ k : ℕ, y = raise^[k] x}.Finite)
    (heff : effective (none : Option (Fin N → Bool)) method = .drain) :
    ∃ out F, ∀ fuel, F ≤ fuel → fillSinks fuel raise flood g dem none method = .ok out := by
  obtain ⟨edge, he⟩ := Edge.C15_total hpoly
  have hlf := levels_finite hfin dem
  obtain ⟨t, ht⟩ := drainLoop_terminates (flood := flood) (raise := raise) hrange hlf.toFinset
    (fun y => by simp) hfl _ (drainInit flood dem edge) (fun n => by
      simp only [Set.Finite.mem_toFinset, drainInit]
      split
      · exact ⟨hfl n, 0, .inr ⟨n, rfl⟩⟩
      · exact ⟨le_refl _, 0, .inl rfl⟩) (Nat.lt_succ_self _)
  refine ⟨t, _, fun fuel (hf : (totalRank hlf.toFinset (drainInit flood dem edge)).succ ≤ fuel) => ?_⟩
  obtain ⟨k, rfl⟩ := Nat.exists_eq_add_of_le hf
  rw [fillSinks, he, Res.bind_ok, fillFrom_eq, if_pos heff]
  exact drainLoop_mono _ k _ _ ht

/-- The finiteness hypothesis of C11 holds for exact arithmetic with any `eps ≥ 0`. -/
theorem finite_orbit {K : Type*} [Field K] [LinearOrder K] [IsStrictOrderedRing K] [Archimedean K]
    (eps flood : K) (heps : 0 ≤ eps) (x : K) :
    {y | y ≤ flood ∧ ∃ k : ℕ, y = (fun z => z + eps)^[k] x}.Finite := by
  have hit : ∀ k : ℕ, (fun z => z + eps)^[k] x = x + k * eps := by
    intro k
    induction k with
    | zero => simp
    | succ k ih => rw [iterate_succ_apply', ih]; push_cast; ring
  rcases heps.eq_or_lt with h0 | hpos
  · refine (Set.finite_singleton x).subset ?_
    rintro y ⟨_, k, rfl⟩
    rw [hit, ← h0]; simp
  · obtain ⟨M, hM⟩ := Archimedean.arch (flood - x) hpos
    refine ((Finset.range (M + 1)).finite_toSet.image (fun k : ℕ => x + k * eps)).subset ?_
    rintro y ⟨hy, k, rfl⟩
    rw [hit] at hy ⊢
    refine ⟨k, ?_, rfl⟩
    simp only [Finset.coe_range, Set.mem_Iio]
    by_contra hcon
    have hk : M + 1 ≤ k := by omega
    have : (M : K) * eps + eps ≤ k * eps := by
      have : ((M + 1 : ℕ) : K) ≤ k := by exact_mod_cast hk
      calc (M : K) * eps + eps = ((M + 1 : ℕ) : K) * eps := by push_cast; ring
        _ ≤ k * eps := by gcongr
    rw [nsmul_eq_mul] at hM
    linarith

/-- **C11** over the rationals: for every DEM below the flood level and every `eps ≥ 0`. -/
theorem C11_drain_terminates_rat {eps flood : ℚ} {g : Grid N} {dem : Fin N → ℚ} {method : String}
    (hpoly : ∀ n, g.iverts n ≠ []) (hrange : ∀ c, ∀ n ∈ g.nbr c, n < N) (hfl : ∀ n, dem n ≤ flood)
    (heps : 0 ≤ eps) (heff : effective (none : Option (Fin N → Bool)) method = .drain) :
    ∃ out F, ∀ fuel, F ≤ fuel → fillSinks fuel (· + eps) flood g dem none method = .ok out :=
  C11_drain_terminates hpoly hrange hfl (finite_orbit eps flood heps) heff

/-- **C12.**  With eps = 0, 'drain' and 'complete' agree on every cell connected to the edge. -/
theorem C12_drain_eq_complete {fuel fuel' : ℕ} {raise' : V → V} {flood : V} {g : Grid N}
    {dem out out' : Fin N → V} {method method' : String} (hsym : SymmNbr g.nbr)
    (hfl : ∀ n, dem n ≤ flood) (heff : effective (none : Option (Fin N → Bool)) method = .drain)
    (hmeth : method'.toLower = "complete")
    (h : fillSinks fuel id flood g dem none method = .ok out)
    (h' : fillSinks fuel' raise' flood g dem none method' = .ok out') (n : Fin N)
    (hn : Reach g.nbr (Edge.OnEdge g.iverts) n) : out n = out' n := by
  have h1 := C10_drain_least (fun x => le_refl x) monotone_id hfl heff h n
  have h2 := C06_spill hmeth h' n hn
  have e1 : ∀ k v, PathRise id g.nbr dem (Edge.OnEdge g.iverts) k v →
      PathTop g.nbr dem (Edge.OnEdge g.iverts) k v := by
    intro k v hv
    induction hv with
    | seed hs => exact .seed hs
    | step _ ha ih => rw [id, max_comm]; exact .step ih (hsym _ _ ha)
  have e2 : ∀ k v, PathTop g.nbr dem (Edge.OnEdge g.iverts) k v →
      PathRise id g.nbr dem (Edge.OnEdge g.iverts) k v ∧ v ≤ flood := by
    intro k v hv
    induction hv with
    | seed hs => exact ⟨.seed hs, hfl _⟩
    | @step c k v _ ha ih =>
      refine ⟨?_, max_le ih.2 (hfl _)⟩
      rw [max_comm]; exact .step ih.1 (hsym _ _ ha)
  apply le_antisymm
  · exact h1.2 (.inr (e2 _ _ h2.1).1)
  · rcases h1.1 with hh | hh
    · rw [hh]; exact (e2 _ _ h2.1).2
    · exact h2.2 (e1 _ _ hh)

/-! ### C14: pits along the stream -/

/-- **C14, partial.**  After filling with a stream mask a stream cell with two or more neighbouring
stream cells has a neighbouring stream cell at most one eps above it: pits along the stream are at
most one eps deep.  Missing: the full claim (no pit at all) is false, see `C14_refuted`. -/
theorem C14_stream_pits_partial {fuel : ℕ} {raise : V → V} {flood : V} {g : Grid N}
    {dem out : Fin N → V} {m : Fin N → Bool} {method : String} (hinf : ∀ x, x ≤ raise x)
    (hmono : Monotone raise) (hsym : SymmNbr g.nbr)
    (h : fillSinks fuel raise flood g dem (some m) method = .ok out) (c : Fin N) (hc : m c = true)
    (h2 : 2 ≤ ((inRange N (g.nbr c)).filter (fun k => m k)).length) :
    ∃ k, Adj g.nbr c k ∧ m k = true ∧ out k ≤ raise (out c) := by
  obtain ⟨seed, hs, hseed, ⟨_, t, ht, rfl⟩ | ⟨hd, _⟩⟩ := fillSinks_cases h
  · have hm : ∀ k, decide (k ∈ seed) = m k := by
      intro k
      have := hseed k
      simp only [Outlet] at this
      by_cases hk : m k = true <;> simp [hk, this]
    obtain ⟨k, ha, hk, hle⟩ := burn_of_ok hs hsym (effRaise_infl hinf _ method)
      (effRaise_mono hmono _ method) fuel t ht c ((hseed c).2 hc)
      (by simp only [streamElevs, List.length_map, hm]; exact h2)
    refine ⟨k, ha, (hseed k).1 hk, hle.trans ?_⟩
    unfold effRaise; split
    · exact hinf _
    · exact le_refl _
  · cases eff_drain_none hd

/-- **C14** for 'complete': there no pit is left along the stream. -/
theorem C14_complete {fuel : ℕ} {raise : V → V} {flood : V} {g : Grid N}
    {dem out : Fin N → V} {m : Fin N → Bool} {method : String} (hmeth : method.toLower = "complete")
    (hsym : SymmNbr g.nbr)
    (h : fillSinks fuel raise flood g dem (some m) method = .ok out) (c : Fin N) (hc : m c = true)
    (h2 : 2 ≤ ((inRange N (g.nbr c)).filter (fun k => m k)).length) :
    ∃ k, Adj g.nbr c k ∧ m k = true ∧ out k ≤ out c := by
  have hraise : fillSinks fuel raise flood g dem (some m) method
      = fillSinks fuel id flood g dem (some m) method := by
    unfold fillSinks
    congr 1; funext edge
    simp [fillFrom, hmeth]
  rw [hraise] at h
  exact C14_stream_pits_partial (fun x => le_refl (id x)) monotone_id hsym h c hc h2

/-! ### C17 -/

/-- **C17** (mask).  With a stream mask every method name except "complete" gives the same result as
"priority", and the outlets are the marked cells only. -/
theorem C17_mask (fuel : ℕ) (raise : V → V) (flood : V) (g : Grid N) (dem : Fin N → V)
    (m : Fin N → Bool) (method : String) (h : method.toLower ≠ "complete") :
    fillSinks fuel raise flood g dem (some m) method =
      fillSinks fuel raise flood g dem (some m) "priority" := by
  unfold fillSinks
  congr 1; funext edge
  simp only [fillFrom_eq, effRaise, effective, Option.isSome_some, or_true, if_true, h, if_false,
    lower_priority, show ("priority" : String) ≠ "complete" by decide]

/-- **C17** (case).  Only the lower-case form of the method name matters. -/
theorem C17_case (fuel : ℕ) (raise : V → V) (flood : V) (g : Grid N) (dem : Fin N → V)
    (mask : Option (Fin N → Bool)) (method method' : String) (h : method.toLower = method'.toLower) :
    fillSinks fuel raise flood g dem mask method = fillSinks fuel raise flood g dem mask method' := by
  unfold fillSinks
  congr 1; funext edge
  have : effective mask method = effective mask method' := by simp only [effective, h]
  rw [fillFrom_eq, fillFrom_eq, effRaise, effRaise, this]

/-- **C17** (eps).  "complete" ignores eps. -/
theorem C17_complete_ignores_eps (fuel : ℕ) (raise raise' : V → V) (flood : V) (g : Grid N)
    (dem : Fin N → V) (mask : Option (Fin N → Bool)) (method : String)
    (h : method.toLower = "complete") :
    fillSinks fuel raise flood g dem mask method = fillSinks fuel raise' flood g dem mask method := by
  unfold fillSinks
  congr 1; funext edge
  simp [fillFrom_eq, effRaise, effective, h]

/-- **C17** (drain).  Without a mask every other name means the drain iteration from the edge cells. -/
theorem C17_drain (fuel : ℕ) (raise : V → V) (flood : V) (g : Grid N) (dem : Fin N → V)
    (method : String) (h : method.toLower ≠ "complete") (h' : method.toLower ≠ "priority")
    {edge : List (Fin N)} (he : Edge.edgeNodes g.iverts = .ok edge) :
    fillSinks fuel raise flood g dem none method = floodAndDrain fuel raise flood g.nbr dem edge := by
  rw [fillSinks, he, Res.bind_ok, fillFrom_eq, if_pos]
  simp [effective, h, h']

end Dany.Flood
