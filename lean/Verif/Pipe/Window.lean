import Verif.Pipe.Terminal
import Verif.Delin.Props

/-!
# C209: cutting a window out of the grid
-/

namespace Dany.Pipe

open Dany.Flow Dany.Dirs

variable {N M : ℕ} {K : Type*} [Field K] [LinearOrder K] {ι : Fin M → Fin N}
  {G : Geo N K} {G' : Geo M K} {dem : Fin N → Option K} {dem' : Fin M → Option K} {nbr : Fin N → List (Fin N)}
  {nbr' : Fin M → List (Fin M)} {terminals terminals' : List ℤ} {thr big : K} {fuel fuel' : ℕ} {out : Fin N → ℤ}
  {out' : Fin M → ℤ} {d : Fin N → Fin N} {d' : Fin M → Fin M}

/-- A model of a part of the grid: cell `a` of the part is cell `ι a` of the whole.  Elevations, distances and neighbours are
those of the whole; the cells of the part that have neighbours outside are named terminal, as are those that the user
names in the whole. -/
structure Window (ι : Fin M → Fin N) (G : Geo N K) (G' : Geo M K) (dem : Fin N → Option K) (dem' : Fin M → Option K)
    (nbr : Fin N → List (Fin N)) (nbr' : Fin M → List (Fin M)) (terminals terminals' : List ℤ) : Prop where
  inj : Function.Injective ι
  rnd : G'.rnd = G.rnd
  dist : ∀ a b, G'.dist a b = G.dist (ι a) (ι b)
  elev : ∀ a, dem' a = dem (ι a)
  adj : ∀ a b, b ∈ nbr' a ↔ ι b ∈ nbr (ι a)
  border : ∀ a, ∀ x ∈ nbr (ι a), (∀ b, ι b ≠ x) → ((a : ℕ) : ℤ) ∈ terminals'
  named : ∀ a, ((ι a : ℕ) : ℤ) ∈ terminals → ((a : ℕ) : ℤ) ∈ terminals'

private theorem Window.slope (hW : Window ι G G' dem dem' nbr nbr' terminals terminals') {a b : Fin M} {s : K} :
    Slope G' dem' thr a b s ↔ Slope G dem thr (ι a) (ι b) s := by
  simp only [Slope, rise, hW.elev, hW.dist, hW.rnd]

/-- **C209**, directions (no ties): in the window water stays in a terminal cell, and flows from every other cell to the
cell it flows to in the whole grid. -/
theorem C209_directions (hW : Window ι G G' dem dem' nbr nbr' terminals terminals') (hr : InRange N terminals)
    (hr' : InRange M terminals') (hb : Below G dem thr big nbr) (hn : HasNbr dem nbr) (hn' : HasNbr dem' nbr')
    (hnd : ∀ n, (nbr n).Nodup) (hnd' : ∀ n, (nbr' n).Nodup) (hnt : NoTies G dem thr nbr) (hnt' : NoTies G' dem' thr nbr')
    (h : flowDirections fuel G dem big (table nbr) thr terminals = .ok out)
    (h' : flowDirections fuel' G' dem' big (table nbr') thr terminals' = .ok out')
    (hd : Legal out d) (hd' : Legal out' d') (a : Fin M) :
    (Terminal dem' terminals' a → d' a = a) ∧ (¬ Terminal dem' terminals' a → ι (d' a) = d (ι a)) := by
  have hb' : Below G' dem' thr big nbr' := fun n m hm s hs => hb _ _ ((hW.adj _ _).1 hm) s (hW.slope.1 hs)
  obtain ⟨m', e', hv'⟩ := C135_value hr' hb' hn' hnd' hnt' h' a
  obtain ⟨m, e, hv⟩ := C135_value hr hb hn hnd hnt h (ι a)
  rw [hd' a] at e'
  rw [hd (ι a)] at e
  obtain rfl : d' a = m' := Fin.ext (by exact_mod_cast e')
  obtain rfl : d (ι a) = m := Fin.ext (by exact_mod_cast e)
  refine ⟨fun ht => ?_, fun ht => ?_⟩
  · obtain ⟨_, e⟩ | ⟨hno, _⟩ := hv'
    · exact e
    · exact absurd ht hno
  · have ht1 : ¬ Terminal dem terminals (ι a) := by
      rintro (⟨v, hv, hmin⟩ | hnam)
      · exact ht (.inl ⟨v, by rw [hW.elev]; exact hv, fun m w hw => hmin (ι m) w (by rw [← hW.elev]; exact hw)⟩)
      · exact ht (.inr (hW.named a hnam))
    obtain ⟨hx, e1⟩ | ⟨_, hv1, hs'⟩ := hv'
    · have hnone := hx.resolve_left ht
      rw [hW.elev] at hnone
      obtain ⟨_, e2⟩ | ⟨_, hv2, _⟩ := hv
      · rw [e1, e2]
      · exact absurd hnone hv2
    · obtain ⟨hx, _⟩ | ⟨_, _, hs⟩ := hv
      · rcases hx with hx | hx
        · exact absurd hx ht1
        · exact absurd (by rw [hW.elev]; exact hx) hv1
      · refine hnt (ι a) _ _ ?_ hs
        obtain ⟨k1, s, k2, k3⟩ := hs'
        refine ⟨(hW.adj _ _).1 k1, s, hW.slope.1 k2, fun x hx s' hs' => ?_⟩
        by_cases hin : ∃ b, ι b = x
        · obtain ⟨b, rfl⟩ := hin
          exact k3 b ((hW.adj _ _).2 hx) s' (hW.slope.2 hs')
        · exact absurd (.inr (hW.border a x hx fun b hb => hin ⟨b, hb⟩)) ht

/-- The watershed of cell `ι a` lies in the window, and its water is not stopped there on the way to it. -/
def Contains (ι : Fin M → Fin N) (d : Fin N → Fin N) (dem' : Fin M → Option K) (terminals' : List ℤ) (a : Fin M) : Prop :=
  ∀ x, Reaches d x (ι a) → ∃ u, ι u = x ∧ (u ≠ a → ¬ Terminal dem' terminals' u)

/-- flow in a window follows flow in the whole -/
private theorem reach_up (hk : ∀ a, d' a = a ∨ ι (d' a) = d (ι a)) {u a : Fin M} (h : Reaches d' u a) :
    Reaches d (ι u) (ι a) := by
  obtain ⟨k, h⟩ := h
  induction k generalizing u with
  | zero => exact ⟨0, congrArg ι h⟩
  | succ k ih =>
    rw [Function.iterate_succ_apply] at h
    obtain ⟨j, hj⟩ := ih h
    rcases hk u with e | e
    · exact ⟨j, by rw [← hj, e]⟩
    · exact ⟨j + 1, by rw [Function.iterate_succ_apply, ← e]; exact hj⟩

private theorem reach_down (hinj : Function.Injective ι)
    (hk : ∀ a, ¬ Terminal dem' terminals' a → ι (d' a) = d (ι a)) {a : Fin M} (hc : Contains ι d dem' terminals' a)
    {u : Fin M} (h : Reaches d (ι u) (ι a)) : Reaches d' u a := by
  obtain ⟨k, h⟩ := h
  induction k generalizing u with
  | zero => exact ⟨0, hinj h⟩
  | succ k ih =>
    by_cases hu : u = a
    · exact ⟨0, hu⟩
    · obtain ⟨v, hv, ht⟩ := hc _ ⟨k + 1, h⟩
      obtain rfl := hinj hv
      have e := hk v (ht hu)
      rw [Function.iterate_succ_apply, ← e] at h
      obtain ⟨j, hj⟩ := ih h
      exact ⟨j + 1, hj⟩

section Results

variable (hk : ∀ a, (Terminal dem' terminals' a → d' a = a) ∧ (¬ Terminal dem' terminals' a → ι (d' a) = d (ι a)))

include hk

private theorem either (a : Fin M) : d' a = a ∨ ι (d' a) = d (ι a) := by
  by_cases h : Terminal dem' terminals' a
  · exact .inl ((hk a).1 h)
  · exact .inr ((hk a).2 h)

/-- **C209**, watersheds: the watershed of a point in the window is part of its watershed in the whole grid, and all of it
if the window contains that. -/
theorem C209_watershed (hinj : Function.Injective ι) (hd : Legal out d) (hd' : Legal out' d') {a : Fin M} {wf wf' : ℕ}
    (hw : 2 * N < wf) (hw' : 2 * M < wf') {t : Basin.State N} {t' : Basin.State M} {w : Fin N → ℕ} {w' : Fin M → ℕ}
    (ho : Basin.watershed wf ⟨out, none⟩ (ι a) (fun _ => 0) = .ok (t, w))
    (ho' : Basin.watershed wf' ⟨out', none⟩ a (fun _ => 0) = .ok (t', w')) :
    (∀ u, w' u = 1 → w (ι u) = 1) ∧
    (Contains ι d dem' terminals' a → (∀ u, w' u = w (ι u)) ∧ ∀ x, w x = 1 → ∃ u, ι u = x) := by
  obtain ⟨s1, w1, e1, h1⟩ := Basin.C36_watershed (s := ⟨out, none⟩) hd.resolves rfl (ι a) hw
  obtain ⟨s2, w2, e2, h2⟩ := Basin.C36_watershed (s := ⟨out', none⟩) hd'.resolves rfl a hw'
  rw [ho, Res.ok.injEq, Prod.mk.injEq] at e1
  rw [ho', Res.ok.injEq, Prod.mk.injEq] at e2
  obtain ⟨-, rfl⟩ := e1
  obtain ⟨-, rfl⟩ := e2
  have hup : ∀ u, w' u = 1 → w (ι u) = 1 := by
    intro u hu
    by_cases hr : Reaches d' u a
    · exact (h1 _).1 (reach_up (either hk) hr)
    · rw [(h2 u).2 hr] at hu; cases hu
  refine ⟨hup, fun hc => ⟨fun u => ?_, fun x hx => ?_⟩⟩
  · by_cases hr : Reaches d' u a
    · rw [(h2 u).1 hr, (h1 _).1 (reach_up (either hk) hr)]
    · rw [(h2 u).2 hr, (h1 _).2 fun hr1 => hr (reach_down hinj (fun a => (hk a).2) hc hr1)]
  · by_cases hr : Reaches d x (ι a)
    · obtain ⟨u, hu, _⟩ := hc x hr
      exact ⟨u, hu⟩
    · rw [(h1 x).2 hr] at hx; cases hx

/-- no circles in the window if there are none in the whole -/
theorem C209_no_circles (hcyc : ∀ n, ¬ OnCycle d n) (hinj : Function.Injective ι) (a : Fin M) : ¬ OnCycle d' a := by
  rintro ⟨hne, k, hk1⟩
  have e : ι (d' a) = d (ι a) := (either hk a).resolve_left hne
  have hr : Reaches d (ι (d' a)) (ι a) := reach_up (either hk) ⟨k, hk1⟩
  obtain ⟨j, hj⟩ := hr
  refine hcyc (ι a) ⟨fun h => hne (hinj (by rw [e, h])), j, ?_⟩
  rw [Function.iterate_succ_apply, ← e]
  exact hj

/-- **C209**, accumulation: a cell never gets more in the window than in the whole grid, and the same if the window contains
its watershed. -/
theorem C209_accumulation [IsStrictOrderedRing K] (hcyc : ∀ n, ¬ OnCycle d n) (hinj : Function.Injective ι)
    (hd : Legal out d) (hd' : Legal out' d') {area : Fin N → K} {area' : Fin M → K} (harea : ∀ a, area' a = area (ι a))
    (hpos : ∀ n, 0 ≤ area n) {asCells : Bool} {af af' : ℕ} {f : Fin N → K} {f' : Fin M → K}
    (ha : Acc.flowAccumulation af out area asCells = .ok f)
    (ha' : Acc.flowAccumulation af' out' area' asCells = .ok f') (a : Fin M) :
    f' a ≤ f (ι a) ∧ (Contains ι d dem' terminals' a → f' a = f (ι a)) := by
  classical
  obtain ⟨s1, c1⟩ := Acc.C32_upstream_sum hd.resolves ha (ι a) (hcyc _)
  obtain ⟨s2, c2⟩ := Acc.C32_upstream_sum hd'.resolves ha' a (C209_no_circles hk hcyc hinj a)
  have hsub : (upstream d' a).map ⟨ι, hinj⟩ ⊆ upstream d (ι a) := by
    intro x hx
    obtain ⟨u, hu, rfl⟩ := Finset.mem_map.1 hx
    simp only [upstream, Finset.mem_filter, Finset.mem_univ, true_and] at hu
    have := reach_up (either hk) hu
    simpa [upstream] using this
  have heq : Contains ι d dem' terminals' a → (upstream d' a).map ⟨ι, hinj⟩ = upstream d (ι a) := by
    intro hc
    refine Finset.Subset.antisymm hsub fun x hx => ?_
    simp only [upstream, Finset.mem_filter, Finset.mem_univ, true_and] at hx
    obtain ⟨u, rfl, _⟩ := hc x hx
    refine Finset.mem_map.2 ⟨u, ?_, rfl⟩
    have := reach_down hinj (fun a => (hk a).2) hc hx
    simpa [upstream] using this
  have hsum : ∑ u ∈ upstream d' a, area' u = ∑ x ∈ (upstream d' a).map ⟨ι, hinj⟩, area x := by
    rw [Finset.sum_map]
    exact Finset.sum_congr rfl fun u _ => harea u
  cases asCells with
  | false =>
    rw [s1 rfl, s2 rfl, hsum]
    exact ⟨Finset.sum_le_sum_of_subset_of_nonneg hsub fun i _ _ => hpos i, fun hc => by rw [heq hc]⟩
  | true =>
    rw [c1 rfl, c2 rfl, ← Finset.card_map ⟨ι, hinj⟩]
    exact ⟨by exact_mod_cast Finset.card_le_card hsub, fun hc => by rw [heq hc]⟩

/-- **C209**, streams: with the same threshold the stream cells of the window are stream cells of the whole grid, and the
other way round for cells whose watershed the window contains. -/
theorem C209_streams [IsStrictOrderedRing K] (hcyc : ∀ n, ¬ OnCycle d n) (hinj : Function.Injective ι)
    (hd : Legal out d) (hd' : Legal out' d') {area : Fin N → K} {area' : Fin M → K} (harea : ∀ a, area' a = area (ι a))
    (hpos : ∀ n, 0 ≤ area n) {asCells : Bool} {af af' : ℕ} {f : Fin N → K} {f' : Fin M → K}
    (ha : Acc.flowAccumulation af out area asCells = .ok f)
    (ha' : Acc.flowAccumulation af' out' area' asCells = .ok f') {c : K} {o o1 : Reach.Obj N} {p p1 : Reach.Obj M}
    {sa : Fin N → ℤ} {sa' : Fin M → ℤ} (hs : Delin.delineate (fun n => some (f n)) o (.number c) none = .ok (o1, sa))
    (hs' : Delin.delineate (fun n => some (f' n)) p (.number c) none = .ok (p1, sa')) (a : Fin M) :
    (sa' a = 1 → sa (ι a) = 1) ∧ (Contains ι d dem' terminals' a → sa' a = sa (ι a)) := by
  obtain ⟨hle, heq⟩ := C209_accumulation hk hcyc hinj hd hd' harea hpos ha ha' a
  obtain ⟨s1, e1, h1⟩ := Delin.C44_exact (facc := fun n => some (f n)) (o := o) (c := .number c) (b := none)
    (by simp) (by simp)
  obtain ⟨s2, e2, h2⟩ := Delin.C44_exact (facc := fun n => some (f' n)) (o := p) (c := .number c) (b := none)
    (by simp) (by simp)
  rw [hs, Res.ok.injEq, Prod.mk.injEq] at e1
  rw [hs', Res.ok.injEq, Prod.mk.injEq] at e2
  obtain ⟨-, rfl⟩ := e1
  obtain ⟨-, rfl⟩ := e2
  have k1 : sa (ι a) = 1 ↔ c ≤ f (ι a) := by rw [(h1 (ι a)).2]; simp
  have k2 : sa' a = 1 ↔ c ≤ f' a := by rw [(h2 a).2]; simp
  refine ⟨fun h => k1.2 ((k2.1 h).trans hle), fun hc => ?_⟩
  rw [heq hc] at k2
  rcases (h2 a).1 with e | e
  · rw [e, k1.2 (k2.1 e)]
  · rcases (h1 (ι a)).1 with e' | e'
    · rw [k2.2 (k1.1 e')] at e; cases e
    · rw [e, e']

end Results

end Dany.Pipe
