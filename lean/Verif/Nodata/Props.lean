import Verif.Nodata.Loop
import Verif.Nodata.Refine
import Verif.Flood.Props
import Verif.Flood.Witness

/-!
# Sink filling of DEMs with nodata cells: C139–C142
-/

namespace Dany.Nodata

open Function
open Flood (Adj SymmNbr Reach Outlet effective effRaise Grid)

variable {N : ℕ} {V : Type*} [LinearOrder V]

theorem fillFrom_eq (fuel : ℕ) (raise : V → V) (flood : V) (nbr : Fin N → List ℕ)
    (edge : List (Fin N)) (dem : Fin N → Option V) (mask : Option (Fin N → Bool)) (method : String) :
    fillFrom fuel raise flood nbr edge dem mask method =
      if effective mask method = .drain then floodAndDrain fuel raise flood nbr dem edge
      else match mask with
        | some m => priorityFlood fuel (effRaise raise mask method) true nbr dem
            ((List.finRange N).filter (fun n => m n))
        | none => priorityFlood fuel (effRaise raise mask method) false nbr dem edge := by
  unfold fillFrom effRaise effective
  have hpc : ("priority" : String) ≠ "complete" := by decide
  cases mask with
  | none =>
    simp only [Option.isSome_none, Bool.false_eq_true, if_false, or_false]
    by_cases h1 : method.toLower = "complete"
    · simp [h1]
    · by_cases h2 : method.toLower = "priority"
      · simp [h2]
      · simp [h1, h2]
  | some m =>
    simp only [Option.isSome_some, if_true, or_true]
    by_cases h1 : method.toLower = "complete"
    · simp [h1]
    · by_cases h2 : method.toLower = "priority"
      · simp [h2]
      · simp [h1, h2, Flood.lower_priority]

/-- A successful run is either a priority flood from the outlets or a drain run from the edge. -/
theorem fillSinks_cases {fuel : ℕ} {raise : V → V} {flood : V} {g : Grid N} {dem out : Fin N → Option V}
    {mask : Option (Fin N → Bool)} {method : String}
    (h : fillSinks fuel raise flood g dem mask method = .ok out) :
    ∃ seed : List (Fin N), seed.Nodup ∧ (∀ n, n ∈ seed ↔ Outlet g mask n) ∧
      ((effective mask method ≠ .drain ∧
        ∃ t, pfLoop (effRaise raise mask method) mask.isSome g.nbr seed fuel (pfInit dem seed) = .ok t ∧
          t.dem = out) ∨
       (effective mask method = .drain ∧ floodAndDrain fuel raise flood g.nbr dem seed = .ok out)) := by
  obtain ⟨edge, he, h⟩ := Res.bind_eq_ok.1 h
  obtain ⟨h1, h2⟩ := Edge.C15_edge_nodes he
  rw [fillFrom_eq] at h
  by_cases hd : effective mask method = .drain
  · have := Flood.eff_drain_none hd
    subst this
    rw [if_pos hd] at h
    exact ⟨edge, h1.imp ne_of_lt, h2, .inr ⟨hd, h⟩⟩
  · rw [if_neg hd] at h
    cases mask with
    | none => exact ⟨edge, h1.imp ne_of_lt, h2, .inl ⟨hd, Res.map_eq_ok.1 h⟩⟩
    | some m =>
      exact ⟨_, (List.nodup_finRange N).filter _, fun n => by simp [Outlet], .inl ⟨hd, Res.map_eq_ok.1 h⟩⟩

/-! ### C139 -/

/-- **C139.**  'priority' and 'complete', with or without stream mask: the result has an elevation exactly where the DEM has
one, and no elevation is lowered. -/
theorem C139_nodata_kept {fuel : ℕ} {raise : V → V} {flood : V} {g : Grid N} {dem out : Fin N → Option V}
    {mask : Option (Fin N → Bool)} {method : String} (hinf : ∀ x, x ≤ raise x) (heff : effective mask method ≠ .drain)
    (h : fillSinks fuel raise flood g dem mask method = .ok out) (n : Fin N) :
    (dem n = none ∧ out n = none) ∨ ∃ x y, dem n = some x ∧ out n = some y ∧ x ≤ y := by
  obtain ⟨seed, hs, hseed, ⟨_, t, ht, rfl⟩ | ⟨hd, h⟩⟩ := fillSinks_cases h
  · have hi := Flood.effRaise_infl hinf mask method
    obtain ⟨h1, h2⟩ := (final_of_ok (rel := (· ≤ ·)) _ hs hi hi (fun _ _ h => h.le) fuel t ht).1.ge n
    cases hx : dem n with
    | none => exact .inl ⟨rfl, h1.1 hx⟩
    | some x =>
      cases hy : t.dem n with
      | none => rw [h1.2 hy] at hx; cases hx
      | some y => exact .inr ⟨x, y, rfl, rfl, h2 x y hx hy⟩
  · exact absurd hd heff

/-- **C139.**  Edge cells (without a mask) and cells that no path of neighbours connects with an outlet keep their value. -/
theorem C139_unchanged {fuel : ℕ} {raise : V → V} {flood : V} {g : Grid N} {dem out : Fin N → Option V}
    {mask : Option (Fin N → Bool)} {method : String} (hinf : ∀ x, x ≤ raise x) (heff : effective mask method ≠ .drain)
    (h : fillSinks fuel raise flood g dem mask method = .ok out) (n : Fin N)
    (hn : (mask = none ∧ Edge.OnEdge g.iverts n) ∨ ¬ Reach g.nbr (Outlet g mask) n) : out n = dem n := by
  obtain ⟨seed, hs, hseed, ⟨_, t, ht, rfl⟩ | ⟨hd, h⟩⟩ := fillSinks_cases h
  · have hi := Flood.effRaise_infl hinf mask method
    rcases hn with ⟨rfl, hn⟩ | hn
    · have hns : n ∈ seed := (hseed n).2 hn
      refine (pfLoop_inv (fun s => Inv (· ≤ ·) g.nbr dem seed none s ∧ s.dem n = dem n)
        (fun s c s' hI hp => ?_) fuel _ t ⟨inv_init _ _ _ _ hs, rfl⟩ ht).1.2
      obtain ⟨a, _, b⟩ := inv_process false hi hi (fun _ _ h => h.le) hI.1 hp
      refine ⟨a, ?_⟩
      show (process _ false g.nbr seed c s').dem n = dem n
      rw [b n (hI.1.seeds n hns), burn_ne _ _ _ _ _ _ _ (.inr (.inr rfl))]
      exact hI.2
    · obtain ⟨a, b⟩ := final_of_ok (rel := (· ≤ ·)) _ hs hi hi (fun _ _ h => h.le) fuel t ht
      apply a.unclosed
      rw [← Bool.not_eq_true, b, Flood.reach_congr hseed]
      exact hn
  · exact absurd hd heff

/-! ### C145 -/

theorem minO_none (l : List (Option V)) : l.foldl minO none = none := by
  induction l with
  | nil => rfl
  | cons a l ih => simpa [minO] using ih

theorem foldl_minO_none (l : List (Option V)) (e : Option V) (h : none ∈ e :: l) : l.foldl minO e = none := by
  induction l generalizing e with
  | nil => simpa [eq_comm] using h
  | cons a l ih =>
    rw [List.foldl_cons]
    rcases List.mem_cons.1 h with h | h
    · rw [← h]; exact minO_none l
    · rcases List.mem_cons.1 h with h | h
      · rw [← h]
        cases e <;> exact minO_none l
      · exact ih _ (List.mem_cons_of_mem _ h)

theorem burn_none {raise : V → V} {streams : Bool} {nbr : Fin N → List ℕ} {seed : List (Fin N)} {c : Fin N}
    {dem : Fin N → Option V} (h : none ∈ streamElevs nbr seed c dem) : burn raise streams nbr seed c dem = dem := by
  unfold burn
  split
  · rcases hl : streamElevs nbr seed c dem with _ | ⟨a, _ | ⟨b, es⟩⟩
    · rfl
    · rfl
    · rw [hl] at h
      dsimp only
      rw [foldl_minO_none _ _ h]
      refine if_neg ?_
      cases dem c <;> simp [ltO]
  · rfl

/-- **C145.**  With a stream mask, a stream cell beside a stream cell without elevation keeps its elevation, however deep it
lies below the stream. -/
theorem C145_beside_nodata {fuel : ℕ} {raise : V → V} {flood : V} {g : Grid N} {dem out : Fin N → Option V}
    {m : Fin N → Bool} {method : String} (hinf : ∀ x, x ≤ raise x)
    (h : fillSinks fuel raise flood g dem (some m) method = .ok out) (n k : Fin N) (hn : m n = true)
    (hk : Adj g.nbr n k) (hkm : m k = true) (hkd : dem k = none) : out n = dem n := by
  obtain ⟨seed, hs, hseed, ⟨_, t, ht, rfl⟩ | ⟨hd, h⟩⟩ := fillSinks_cases h
  · have hi := Flood.effRaise_infl hinf (some m) method
    have hns : n ∈ seed := (hseed n).2 hn
    have hks : k ∈ seed := (hseed k).2 hkm
    refine (pfLoop_inv (fun s => Inv (· ≤ ·) g.nbr dem seed none s ∧ s.dem n = dem n)
      (fun s c s' hI hp => ?_) fuel _ t ⟨inv_init _ _ _ _ hs, rfl⟩ ht).1.2
    obtain ⟨a, _, b⟩ := inv_process true hi hi (fun _ _ h => h.le) hI.1 hp
    refine ⟨a, ?_⟩
    show (process _ true g.nbr seed c s').dem n = dem n
    rw [b n (hI.1.seeds n hns)]
    by_cases hc : n = c
    · subst hc
      rw [burn_none, hI.2]
      refine List.mem_map.2 ⟨k, List.mem_filter.2 ⟨?_, by simpa using hks⟩, (hI.1.ge k).1.1 hkd⟩
      exact mem_inRange.2 hk
    · rw [burn_ne _ _ _ _ _ _ _ (.inl hc)]; exact hI.2
  · cases Flood.eff_drain_none hd

/-! ### C140 -/

/-- **C140.**  'priority' and 'complete' finish on every DEM, within `N + 1` tests of the loop condition. -/
theorem C140_terminates {raise : V → V} {flood : V} {g : Grid N} {dem : Fin N → Option V}
    {mask : Option (Fin N → Bool)} {method : String} (hinf : ∀ x, x ≤ raise x)
    (hpoly : ∀ n, g.iverts n ≠ []) (heff : effective mask method ≠ .drain) :
    ∃ out, ∀ fuel, N + 1 ≤ fuel → fillSinks fuel raise flood g dem mask method = .ok out := by
  obtain ⟨edge, he⟩ := Edge.C15_total hpoly
  obtain ⟨h1, h2⟩ := Edge.C15_edge_nodes he
  have hi := Flood.effRaise_infl hinf mask method
  have key : ∀ (b : Bool) (seed : List (Fin N)), seed.Nodup →
      ∃ out, ∀ fuel, N + 1 ≤ fuel →
        priorityFlood fuel (effRaise raise mask method) b g.nbr dem seed = .ok out := by
    intro b seed hs
    obtain ⟨t, ht⟩ := pfLoop_terminates b hi (N + 1) (pfInit dem seed)
      (inv_init (· ≤ ·) g.nbr dem seed hs) (by omega)
    refine ⟨t.dem, fun fuel hf => ?_⟩
    obtain ⟨k, rfl⟩ := Nat.exists_eq_add_of_le hf
    rw [priorityFlood, pfLoop_mono _ k _ _ ht]; rfl
  cases mask with
  | none =>
    obtain ⟨out, ho⟩ := key false edge (h1.imp ne_of_lt)
    refine ⟨out, fun fuel hf => ?_⟩
    rw [fillSinks, he, Res.bind_ok, fillFrom_eq, if_neg heff]
    exact ho fuel hf
  | some m =>
    obtain ⟨out, ho⟩ := key true ((List.finRange N).filter fun n => m n)
      ((List.nodup_finRange N).filter _)
    refine ⟨out, fun fuel hf => ?_⟩
    rw [fillSinks, he, Res.bind_ok, fillFrom_eq, if_neg heff]
    exact ho fuel hf

/-! ### C141 -/

theorem drains_of_run {rel : V → V → Prop} {fuel : ℕ} {raise : V → V} {flood : V} {g : Grid N} {dem out : Fin N → Option V}
    {mask : Option (Fin N → Bool)} {method : String} (hinf : ∀ x, x ≤ raise x)
    (hrel1 : ∀ x, rel x (effRaise raise mask method x)) (hrel2 : ∀ x y, x < y → rel x y)
    (hsym : SymmNbr g.nbr) (heff : effective mask method ≠ .drain)
    (h : fillSinks fuel raise flood g dem mask method = .ok out) (n : Fin N)
    (hn : Reach g.nbr (Outlet g mask) n) (hv : dem n ≠ none) :
    Drains rel g.nbr out (fun c => Outlet g mask c ∨ BesideNodata g.nbr dem c) n := by
  obtain ⟨seed, hs, hseed, ⟨_, t, ht, rfl⟩ | ⟨hd, h⟩⟩ := fillSinks_cases h
  · have hS : (fun n => n ∈ seed) = Outlet g mask := funext fun n => propext (hseed n)
    obtain ⟨a, b⟩ := final_of_ok (rel := rel) _ hs (Flood.effRaise_infl hinf mask method) hrel1 hrel2 fuel t ht
    have hcl : t.closed n = true := by rw [b, hS]; exact hn
    have := (a.drn n hcl (fun h => hv ((a.ge n).1.2 h))).drains hsym
    have hS' : (fun n => n ∈ seed ∨ BesideNodata g.nbr dem n) = fun c => Outlet g mask c ∨ BesideNodata g.nbr dem c :=
      funext fun n => by rw [← hS]
    rwa [hS'] at this
  · exact absurd hd heff

/-- **C141** ('priority').  If adding eps raises elevations, every cell with an elevation that is connected to an outlet has
a strictly descending path over cells with elevations to an outlet or to a cell beside a nodata cell. -/
theorem C141_drains_strictly {fuel : ℕ} {raise : V → V} {flood : V} {g : Grid N} {dem out : Fin N → Option V}
    {mask : Option (Fin N → Bool)} {method : String} (hstrict : ∀ x, x < raise x)
    (hsym : SymmNbr g.nbr) (heff : effective mask method = .priority)
    (h : fillSinks fuel raise flood g dem mask method = .ok out) (n : Fin N)
    (hn : Reach g.nbr (Outlet g mask) n) (hv : dem n ≠ none) :
    Drains (· < ·) g.nbr out (fun c => Outlet g mask c ∨ BesideNodata g.nbr dem c) n := by
  have hr : effRaise raise mask method = raise := by unfold effRaise; rw [heff]; rfl
  exact drains_of_run (fun x => (hstrict x).le) (by rw [hr]; exact hstrict) (fun _ _ h => h) hsym (by rw [heff]; simp) h n hn hv

/-- **C141** ('complete').  A never ascending path. -/
theorem C141_drains {fuel : ℕ} {raise : V → V} {flood : V} {g : Grid N} {dem out : Fin N → Option V}
    {mask : Option (Fin N → Bool)} {method : String} (hinf : ∀ x, x ≤ raise x)
    (hsym : SymmNbr g.nbr) (heff : effective mask method ≠ .drain)
    (h : fillSinks fuel raise flood g dem mask method = .ok out) (n : Fin N)
    (hn : Reach g.nbr (Outlet g mask) n) (hv : dem n ≠ none) :
    Drains (· ≤ ·) g.nbr out (fun c => Outlet g mask c ∨ BesideNodata g.nbr dem c) n :=
  drains_of_run hinf (Flood.effRaise_infl hinf mask method) (fun _ _ h => h.le) hsym heff h n hn hv

/-! ### C142 -/

theorem Drains.top {nbr : Fin N → List ℕ} (hsym : SymmNbr nbr) {dem f : Fin N → Option V} {S : Fin N → Prop}
    (hge : ∀ n x y, dem n = some x → f n = some y → x ≤ y) (hd : ∀ n, f n ≠ none → dem n ≠ none) {n : Fin N}
    (h : Drains (· ≤ ·) nbr f S n) {y : V} (hy : f n = some y) : ∃ v, PathTop nbr dem S n v ∧ v ≤ y := by
  induction h generalizing y with
  | @outlet s hs =>
    obtain ⟨x, hx⟩ := Option.ne_none_iff_exists'.1 (hd s (by rw [hy]; simp))
    exact ⟨x, .seed hs hx, hge s x y hx hy⟩
  | @step n c a b ha hc hn hab _ ih =>
    rw [hn] at hy; cases hy
    obtain ⟨v, hv, hle⟩ := ih hc
    obtain ⟨x, hx⟩ := Option.ne_none_iff_exists'.1 (hd n (by rw [hn]; simp))
    exact ⟨max v x, .step hv (hsym _ _ ha) hx, max_le (hle.trans hab) (hge n x _ hx hn)⟩

/-- **C142, partial.**  A cell is never filled to less than its spill elevation towards the outlets and the cells beside
nodata.  Missing: not to more, which is false, see `C142_refuted`. -/
theorem C142_at_least_partial {fuel : ℕ} {raise : V → V} {flood : V} {g : Grid N} {dem out : Fin N → Option V}
    {mask : Option (Fin N → Bool)} {method : String} (hinf : ∀ x, x ≤ raise x)
    (hsym : SymmNbr g.nbr) (heff : effective mask method ≠ .drain)
    (h : fillSinks fuel raise flood g dem mask method = .ok out) (n : Fin N)
    (hn : Reach g.nbr (Outlet g mask) n) {v y : V} (hy : out n = some y)
    (hv : IsSpill g.nbr dem (fun c => Outlet g mask c ∨ BesideNodata g.nbr dem c) n v) : v ≤ y := by
  have hk := C139_nodata_kept hinf heff h
  have hd : ∀ n, out n ≠ none → dem n ≠ none := by
    intro n ho hn
    rcases hk n with ⟨_, h⟩ | ⟨x, y, h, _⟩
    · exact ho h
    · rw [hn] at h; cases h
  obtain ⟨w, hw, hle⟩ := Drains.top hsym (fun n x y hx hy => by
      rcases hk n with ⟨h, _⟩ | ⟨x', y', h1, h2, h3⟩
      · rw [h] at hx; cases hx
      · rw [h1] at hx; rw [h2] at hy; cases hx; cases hy; exact h3) hd
    (C141_drains hinf hsym heff h n hn (hd n (by rw [hy]; simp))) hy
  exact (hv.2 hw).trans hle

end Dany.Nodata
