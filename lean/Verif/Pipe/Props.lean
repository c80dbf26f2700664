import Verif.Dirs.Drain
import Verif.Acc.Props
import Verif.Basin.Props
import Verif.Delin.Props
import Verif.Reach.Props

/-!
# The whole chain: fill, route, accumulate, delineate, number the reaches (C98, C99)
-/

namespace Dany.Pipe

open Flow

variable {N : ℕ} {K : Type*} [Field K] [LinearOrder K] [IsStrictOrderedRing K]

/-- the neighbour lists as `flow_directions` sees them -/
def nbrs (g : Flood.Grid N) (n : Fin N) : List (Fin N) := inRange N (g.nbr n)

/-- What is asked of the grid: neighbourship is mutual, no neighbour is listed twice, every
cell has a neighbour, and water can get from every cell to an outlet. -/
structure GoodGrid (g : Flood.Grid N) (mask : Option (Fin N → Bool)) : Prop where
  symm : Flood.SymmNbr g.nbr
  nodup : ∀ n, (g.nbr n).Nodup
  some : ∀ n, nbrs g n ≠ []
  conn : ∀ n, Flood.Reach g.nbr (Flood.Outlet g mask) n

/-- What is asked of the terminal cells the user names: they are outlets, and all outlets without lower
neighbour are among them, apart from cells with the lowest elevation, which are terminal anyway. -/
structure GoodEnds (g : Flood.Grid N) (mask : Option (Fin N → Bool)) (f : Fin N → K) (terminals : List ℤ) :
    Prop where
  range : Dirs.InRange N terminals
  outlet : ∀ n : Fin N, ((n : ℕ) : ℤ) ∈ terminals → Flood.Outlet g mask n
  all : ∀ n, Flood.Outlet g mask n → (∀ m ∈ nbrs g n, f n ≤ f m) →
    ((n : ℕ) : ℤ) ∈ terminals ∨ ∀ m, f n ≤ f m

variable {g : Flood.Grid N} {G : Dirs.Geo N K} {mask : Option (Fin N → Bool)} {dem f : Fin N → K}
  {raise : K → K} {flood thr big : K} {method : String} {terminals : List ℤ} {fuel fuel' fuel'' : ℕ}
  {out : Fin N → ℤ}

theorem nodup_nbrs (hg : GoodGrid g mask) (n : Fin N) : (nbrs g n).Nodup := by
  refine (hg.nodup n).filterMap (fun a a' b h1 h2 => ?_)
  simp only [Option.mem_def, Option.dite_none_right_eq_some, Option.some.injEq] at h1 h2
  obtain ⟨_, h1⟩ := h1
  obtain ⟨_, h2⟩ := h2
  rw [← h2] at h1
  exact congrArg Fin.val h1

theorem hasNbr (hg : GoodGrid g mask) : Dirs.HasNbr (Dirs.filled f) (nbrs g) := by
  intro n _
  obtain ⟨m, hm⟩ := List.exists_mem_of_ne_nil _ (hg.some n)
  exact ⟨m, hm, by simp [Dirs.filled]⟩

theorem hasLower_filled {n : Fin N} : Dirs.HasLower (Dirs.filled f) (nbrs g) n ↔ ∃ m ∈ nbrs g n, f m < f n := by
  constructor
  · rintro ⟨l, hl, a, b, ha, hb, hlt⟩
    simp only [Dirs.filled, Option.some.injEq] at ha hb
    subst ha hb
    exact ⟨l, hl, hlt⟩
  · rintro ⟨l, hl, hlt⟩
    exact ⟨l, hl, _, _, rfl, rfl, hlt⟩

/-- Every cell is an outlet, or a path leads from it strictly downhill to an outlet. -/
def Downhill (g : Flood.Grid N) (mask : Option (Fin N → Bool)) (f : Fin N → K) : Prop :=
  ∀ n, Flood.Drains (· < ·) g.nbr f (Flood.Outlet g mask) n

theorem allFall (hdr : Downhill g mask f) (he : GoodEnds g mask f terminals) :
    Dirs.AllFall (Dirs.filled f) terminals (nbrs g) := by
  intro n _ hT
  by_cases hno : Flood.Outlet g mask n
  · rw [hasLower_filled]
    by_contra hc
    push Not at hc
    rcases he.all n hno hc with h | h
    · exact hT (.inr h)
    · refine hT (.inl ⟨f n, rfl, fun m w hw => ?_⟩)
      simp only [Dirs.filled, Option.some.injEq] at hw
      rw [← hw]; exact h m
  · exact Dirs.filled_lower (hdr n) hno

theorem terminal_outlet (hdr : Downhill g mask f) (he : GoodEnds g mask f terminals) {n : Fin N}
    (h : Dirs.Terminal (Dirs.filled f) terminals n) : Flood.Outlet g mask n := by
  rcases h with h | h
  · by_contra hno
    exact Dirs.lower_not_lowest (Dirs.filled_lower (hdr n) hno) h
  · exact he.outlet n h

/-- A flow network as the first stage leaves it: cell numbers, no circles, all paths end in outlets. -/
structure Network (g : Flood.Grid N) (mask : Option (Fin N → Bool)) (out : Fin N → ℤ) (d : Fin N → Fin N) :
    Prop where
  legal : Legal out d
  acyclic : ∀ n, ¬ OnCycle d n
  fixed : ∀ n, d n = n → Flood.Outlet g mask n
  ends : ∀ n, ∃ e, Reaches d n e ∧ d e = e ∧ Flood.Outlet g mask e

/-- The first stage on any elevations that run downhill to the outlets, for any arithmetic that is sound. -/
theorem network_of_downhill (hN : N < 1000000) (hdr : Downhill g mask f)
    (hg : GoodGrid g mask) (he : GoodEnds g mask f terminals) (hs : Dirs.Sound G (Dirs.filled f) (nbrs g))
    (hb : Dirs.Below G (Dirs.filled f) thr big (nbrs g))
    (hend : Dirs.CleanEnds G (Dirs.filled f) thr terminals (nbrs g))
    (hrun : Dirs.flowDirections fuel' G (Dirs.filled f) big (Dirs.table (nbrs g)) thr terminals = .ok out) :
    ∃ d : Fin N → Fin N, Network g mask out d ∧ ∀ n, d n ≠ n → (d n).val ∈ g.nbr n ∧ f (d n) < f n := by
  have hfall := allFall hdr he
  have key := Dirs.C97_all_drain he.range hN hb (hasNbr hg) (nodup_nbrs hg) hs hfall hend hrun
  obtain ⟨d, h1, h2, h3, h4⟩ :=
    Dirs.C97_network he.range hN hb (hasNbr hg) (nodup_nbrs hg) hs hfall hend hrun
  have hT : ∀ n, d n = n → Flood.Outlet g mask n := fun n hn =>
    terminal_outlet hdr he (((h3 n).1 hn).resolve_right (by simp [Dirs.filled]))
  refine ⟨d, ⟨h1, h2, hT, fun n => ?_⟩, fun n hn => ?_⟩
  · obtain ⟨e, k1, k2, k3⟩ := h4 n
    exact ⟨e, k1, k2, hT e k2⟩
  · obtain ⟨m, a, b, hst, ho, ha, hb', hlt⟩ := (key n).2 (fun h => hn ((h3 n).2 h))
    rw [h1 n] at ho
    have hm : d n = m := Fin.ext (by omega)
    simp only [Dirs.filled, Option.some.injEq] at ha hb'
    subst ha hb'
    rw [hm]
    exact ⟨mem_inRange.1 hst.1, hlt⟩

/-- **C99**, first stage.  After `fill_sinks` with method "priority" and a strictly raising eps, on a grid
from which all cells drain, with all outlets without lower neighbour named terminal (and terminal
cells tied with others at most in easy ties, `CleanEnds`), in what `flow_directions` returns water from every cell runs
strictly downhill to an outlet, and nothing runs in circles. -/
theorem C99_network (hN : N < 1000000) (hstrict : ∀ x, x < raise x)
    (heff : Flood.effective mask method = .priority)
    (hfill : Flood.fillSinks fuel raise flood g dem mask method = .ok f)
    (hg : GoodGrid g mask) (he : GoodEnds g mask f terminals) (hs : Dirs.Sound G (Dirs.filled f) (nbrs g))
    (hb : Dirs.Below G (Dirs.filled f) thr big (nbrs g))
    (hend : Dirs.CleanEnds G (Dirs.filled f) thr terminals (nbrs g))
    (hrun : Dirs.flowDirections fuel' G (Dirs.filled f) big (Dirs.table (nbrs g)) thr terminals = .ok out) :
    ∃ d : Fin N → Fin N, Network g mask out d ∧ ∀ n, d n ≠ n → (d n).val ∈ g.nbr n ∧ f (d n) < f n := by
  exact network_of_downhill hN (fun n => Flood.C03_drains_strictly hstrict hg.symm heff hfill n (hg.conn n)) hg he
    hs hb hend hrun

/-- **C99**, first stage: `flow_directions` does return, always with the same array. -/
theorem C99_directions (hN : N < 1000000) (hstrict : ∀ x, x < raise x)
    (heff : Flood.effective mask method = .priority)
    (hfill : Flood.fillSinks fuel raise flood g dem mask method = .ok f)
    (hg : GoodGrid g mask) (he : GoodEnds g mask f terminals) (hs : Dirs.Sound G (Dirs.filled f) (nbrs g))
    (hb : Dirs.Below G (Dirs.filled f) thr big (nbrs g)) (hlow : ∃ n, f n < big)
    (hend : Dirs.CleanEnds G (Dirs.filled f) thr terminals (nbrs g)) :
    ∃ B out, (∀ fuel', B ≤ fuel' →
        Dirs.flowDirections fuel' G (Dirs.filled f) big (Dirs.table (nbrs g)) thr terminals = .ok out) ∧
      ∃ d : Fin N → Fin N, Network g mask out d ∧
        ∀ n, d n ≠ n → (d n).val ∈ g.nbr n ∧ f (d n) < f n := by
  obtain ⟨n0, hn0⟩ := hlow
  obtain ⟨B, out, hB⟩ := Dirs.C26_terminates (terminals := terminals) G thr he.range hb (hasNbr hg)
    ⟨n0, f n0, rfl, hn0⟩
  exact ⟨B, out, hB, C99_network hN hstrict heff hfill hg he hs hb hend (hB B le_rfl)⟩

/-- **C98**, the part that holds (partial): `flow_directions()` without terminal cells has no circles if
all outlets without lower neighbour have the lowest elevation of the grid (and terminal cells are tied
with others at most in easy ties, `CleanEnds`). -/
theorem C98_no_circles_partial (hN : N < 1000000) (hstrict : ∀ x, x < raise x)
    (heff : Flood.effective mask method = .priority)
    (hfill : Flood.fillSinks fuel raise flood g dem mask method = .ok f) (hg : GoodGrid g mask)
    (hs : Dirs.Sound G (Dirs.filled f) (nbrs g))
    (he : ∀ n, Flood.Outlet g mask n → (∀ m ∈ nbrs g n, f n ≤ f m) → ∀ m, f n ≤ f m)
    (hb : Dirs.Below G (Dirs.filled f) thr big (nbrs g))
    (hend : Dirs.CleanEnds G (Dirs.filled f) thr [] (nbrs g))
    (hrun : Dirs.flowDirections fuel' G (Dirs.filled f) big (Dirs.table (nbrs g)) thr [] = .ok out)
    {d : Fin N → Fin N} (hd : Legal out d) (n : Fin N) : ¬ OnCycle d n := by
  obtain ⟨d', h1, _⟩ := C99_network (terminals := []) hN hstrict heff hfill hg
    ⟨(by intro t ht; cases ht), (by intro n hn; cases hn), fun n h1 h2 => .inr (he n h1 h2)⟩ hs hb hend hrun
  have : d = d' := funext fun n => Fin.ext (by have := hd n; have := h1.legal n; omega)
  rw [this]; exact h1.acyclic n

/-- **C99**, second stage.  On such a network `flow_accumulation` succeeds, every cell gets the total area
of the cells draining through it, and what arrives at the outlets is the area of the whole grid. -/
theorem C99_accumulation {d : Fin N → Fin N} (hd : Network g mask out d) (area : Fin N → K) :
    ∃ facc, (∀ fuel, N < fuel → Acc.flowAccumulation fuel out area false = .ok facc) ∧
      (∀ n, facc n = ∑ u ∈ upstream d n, area u) ∧
      ∑ o ∈ Finset.univ.filter (fun o => d o = o), facc o = ∑ u, area u := by
  obtain ⟨facc, h⟩ := Acc.C31_terminates (fdir := out)
    (fun u => by have := hd.legal u; have := (d u).isLt; omega) area false
  have hrun := h (N + 1) (by omega)
  refine ⟨facc, h, fun n => (Acc.C32_upstream_sum hd.legal.resolves hrun n (hd.acyclic n)).1 rfl,
    Acc.C33_conservation hd.legal.resolves hrun (fun u => ?_)⟩
  obtain ⟨e, k1, k2, _⟩ := hd.ends u
  exact ⟨e, k2, k1⟩

/-- **C99**, third stage.  The watershed of any cell, computed on a fresh object with these flow directions,
is the set of cells draining through it. -/
theorem C99_watershed {d : Fin N → Fin N} (hd : Network g mask out d) (cell : Fin N) {fuel : ℕ}
    (hf : 2 * N < fuel) :
    ∃ s' w, Basin.watershed fuel ⟨out, none⟩ cell (fun _ => 0) = .ok (s', w) ∧
      ∀ u, (Reaches d u cell → w u = 1) ∧ (¬ Reaches d u cell → w u = 0) :=
  Basin.C36_watershed (s := ⟨out, none⟩) hd.legal.resolves rfl cell hf

/-- **C99**, fourth stage.  Streams delineated from the accumulation by a threshold are the cells whose
upstream area comes up to it; `get_stream_connectivity` numbers them so that every stream cell passes on to
a stream cell with a greater number, unless it is an outlet, which gets its own number as receiver. -/
theorem C99_streams {d : Fin N → Fin N} (hd : Network g mask out d) {area : Fin N → K}
    (hpos : ∀ u, 0 ≤ area u) {facc : Fin N → K}
    (ho : Acc.flowAccumulation fuel'' out area false = .ok facc) (c : K) :
    ∃ o' sa, Delin.delineate (fun n => some (facc n)) ⟨out, none, none⟩ (.number c) none = .ok (o', sa) ∧
      (∀ n, (sa n = 1 ∧ c ≤ ∑ u ∈ upstream d n, area u) ∨ (sa n = 0 ∧ ∑ u ∈ upstream d n, area u < c)) ∧
      ∀ limit, Reach.Fits d sa limit → ∃ o'' gr sa', o'.connectivity limit none = .ok (o'', gr) ∧
        o''.streamArray = some sa' ∧
        ∀ n, sa n = 1 → 1 ≤ sa' n ∧ gr.get? (sa' n) = some (sa' (d n)) ∧ sa (d n) = 1 ∧
          ((d n = n ∧ Flood.Outlet g mask n) ∨ sa' n < sa' (d n)) := by
  have hres := hd.legal.resolves
  obtain ⟨sa, e, hsa⟩ := Delin.C44_number (facc := fun n => some (facc n)) (o := ⟨out, none, none⟩) c
  have hacc : ∀ n, facc n = ∑ u ∈ upstream d n, area u := fun n =>
    (Acc.C32_upstream_sum hres ho n (hd.acyclic n)).1 rfl
  refine ⟨_, sa, e, fun n => ?_, fun limit hl => ?_⟩
  · rw [← hacc n]
    by_cases hc : c ≤ facc n
    · exact .inl ⟨(hsa n).2.2 ⟨_, rfl, hc⟩, hc⟩
    · rcases (hsa n).1 with h | h
      · obtain ⟨a, ha, hle⟩ := (hsa n).2.1 h
        cases ha
        exact absurd hle hc
      · exact .inr ⟨h, not_le.1 hc⟩
  · obtain ⟨sa', gr, hm, k0, k1, k2, _, _, k5⟩ := Reach.C49_reach_numbers (sa := sa) hres hl
    have hdn := Reach.C50_downstream hres (fun n hn => absurd hn (hd.acyclic n)) hm
    refine ⟨_, gr, sa', by
      unfold Reach.Obj.connectivity Reach.Obj.source Reach.Obj.setStream
      dsimp only
      rw [Res.bind_ok, hm]
      rfl, rfl, fun n hn => ?_⟩
    have hn0 : sa n ≠ 0 := by omega
    have hd1 : sa (d n) = 1 :=
      Delin.C45_to_outlet (o := ⟨out, none, none⟩) hres hpos ho e hd.acyclic hn (Reaches.step n)
    refine ⟨(k1 n hn0).1, k5 n hn0, hd1, ?_⟩
    have := k1 (d n) (by omega)
    rcases hdn _ _ (k5 n hn0) with h | h | h
    · omega
    · have := k2 _ _ (by omega) hn0 h
      exact .inl ⟨this, hd.fixed n this⟩
    · exact .inr h

end Dany.Pipe
