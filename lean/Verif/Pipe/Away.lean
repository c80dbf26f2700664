import Verif.Dirs.Local
import Verif.Dirs.DrainWitness
import Verif.Basin.Props
import Verif.Acc.Props
import Verif.Pipe.Mf6

/-!
# C189: editing the elevations away from a watershed leaves it alone

The elevations may be edited everywhere but in the watershed, beside it, and one cell further.
-/

namespace Dany.Pipe

open Dany.Flow Dany.Dirs

variable {N : ℕ} {K : Type*} [Field K] [LinearOrder K] [IsStrictOrderedRing K]

variable {G : Geo N K} {dem dem' : Fin N → Option K} {nbr : Fin N → List (Fin N)}
  {terminals terminals' : List ℤ} {thr big : K} {fuel fuel' : ℕ} {out out' : Fin N → ℤ}

private theorem reaches_of_same {d d' : Fin N → Fin N} {p : Fin N} (h : ∀ u, Reaches d u p → d' u = d u)
    {u : Fin N} (hu : Reaches d u p) : Reaches d' u p := by
  obtain ⟨k, hk⟩ := hu
  induction k generalizing u with
  | zero => exact ⟨0, hk⟩
  | succ k ih =>
    have hu : Reaches d u p := ⟨k + 1, hk⟩
    have : Reaches d' (d u) p := ih (by rwa [Function.iterate_succ_apply] at hk)
    rw [← h u hu] at this
    exact this.head

private theorem reaches_back {d d' : Fin N → Fin N} {p : Fin N} (h : ∀ u, Reaches d (d' u) p → d' u = d u)
    {u : Fin N} (hu : Reaches d' u p) : Reaches d u p := by
  obtain ⟨k, hk⟩ := hu
  induction k generalizing u with
  | zero => exact ⟨0, hk⟩
  | succ k ih =>
    have h1 : Reaches d (d' u) p := ih (by rwa [Function.iterate_succ_apply] at hk)
    rw [h u h1] at h1
    exact h1.head

/-- The cells `c` marks and the cells beside these. -/
def Beside (nbr : Fin N → List (Fin N)) (c : Fin N → Prop) (k : Fin N) : Prop :=
  ∃ u, c u ∧ (k = u ∨ k ∈ nbr u)

/-- The edit keeps away from the cells `c` marks: it changes no elevation in, beside, or beside a cell beside them,
nor which of the cells in or beside them are terminal; and none of these has two steepest neighbours. -/
structure KeepsAway (G : Geo N K) (dem dem' : Fin N → Option K) (nbr : Fin N → List (Fin N)) (thr : K)
    (terminals terminals' : List ℤ) (c : Fin N → Prop) : Prop where
  elev : ∀ k, Beside nbr (Beside nbr c) k → dem' k = dem k
  term : ∀ k, Beside nbr c k → (Terminal dem' terminals' k ↔ Terminal dem terminals k)
  one : ∀ k, Beside nbr c k → OneSteepest G dem thr nbr k

/-- the networks of the two elevation models -/
private theorem nets (hD : Draining G dem nbr thr big terminals) (hD' : Draining G dem' nbr thr big terminals')
    (hsymm : ∀ a b, b ∈ nbr a → a ∈ nbr b)
    (h : flowDirections fuel G dem big (table nbr) thr terminals = .ok out)
    (h' : flowDirections fuel' G dem' big (table nbr) thr terminals' = .ok out') :
    ∃ d d' : Fin N → Fin N, Legal out d ∧ Legal out' d' ∧ (∀ n, ¬ OnCycle d n) ∧ (∀ n, ¬ OnCycle d' n) ∧
      ∀ p, KeepsAway G dem dem' nbr thr terminals terminals' (fun u => Reaches d u p) →
        ∀ v u, Reaches d v p → (Reaches d u v ↔ Reaches d' u v) := by
  have hc := fun n => hD.cells h n
  have hc' := fun n => hD'.cells h' n
  choose d hd hdc using hc
  choose d' hd' hdc' using hc'
  have cyc : ∀ {dem : Fin N → Option K} {terminals : List ℤ} {fuel : ℕ} {out : Fin N → ℤ} {d : Fin N → Fin N},
      Draining G dem nbr thr big terminals → flowDirections fuel G dem big (table nbr) thr terminals = .ok out →
      (∀ n, out n = ((d n : ℕ) : ℤ)) → ∀ n, ¬ OnCycle d n := by
    intro dem terminals fuel out d hD h hd
    obtain ⟨d0, h0, hc, _⟩ := C97_network hD.range hD.size hD.below hD.nbrs hD.nodup hD.sound hD.fall hD.ends h
    have : d = d0 := funext fun n => Fin.ext (by have := h0 n; rw [hd n] at this; exact_mod_cast this)
    rw [this]
    exact hc
  refine ⟨d, d', hd, hd', cyc hD h hd, cyc hD' h' hd', ?_⟩
  · intro p hk v u hv
    have key : ∀ k, Beside nbr (fun u => Reaches d u p) k → d' k = d k := by
      intro k hb
      have := C188_local hD hD' h h' (n := k)
        ⟨hk.elev k ⟨k, hb, .inl rfl⟩, fun m hm => hk.elev m ⟨k, hb, .inr hm⟩⟩ (hk.one k hb) (hk.term k hb)
      rw [hd, hd'] at this
      exact Fin.ext (by exact_mod_cast this)
    constructor
    · exact fun hu => reaches_of_same (fun u hu => key u ⟨u, hu.trans hv, .inl rfl⟩) hu
    · refine fun hu => reaches_back (fun u hu => key u ?_) hu
      rcases hdc' u with ⟨_, e⟩ | ⟨_, _, hs, _⟩
      · exact ⟨u, by rw [e] at hu; exact hu.trans hv, .inl rfl⟩
      · exact ⟨d' u, hu.trans hv, .inr (hsymm _ _ hs.1)⟩

/-- **C189**, watershed: `w` is what `get_watershed_boundary` marks before the edit, `w'` after. -/
theorem C189_watershed (hD : Draining G dem nbr thr big terminals) (hD' : Draining G dem' nbr thr big terminals')
    (hsymm : ∀ a b, b ∈ nbr a → a ∈ nbr b)
    (h : flowDirections fuel G dem big (table nbr) thr terminals = .ok out)
    (h' : flowDirections fuel' G dem' big (table nbr) thr terminals' = .ok out')
    {s s' t t' : Basin.State N} (hs : s.fdir = out) (hs' : s'.fdir = out') (hf : s.fdirR = none)
    (hf' : s'.fdirR = none) {p : Fin N} {wf wf' : ℕ} (hw : 2 * N < wf) (hw' : 2 * N < wf') {w w' : Fin N → ℕ}
    (ho : Basin.watershed wf s p (fun _ => 0) = .ok (t, w))
    (ho' : Basin.watershed wf' s' p (fun _ => 0) = .ok (t', w'))
    (hk : KeepsAway G dem dem' nbr thr terminals terminals' (fun u => w u = 1)) : w' = w := by
  obtain ⟨d, d', hd, hd', _, _, key⟩ := nets hD hD' hsymm h h'
  obtain ⟨_, _, e, hspec⟩ := Basin.C36_watershed (s := s) (d := d) (by rw [hs]; exact hd.resolves) hf p hw
  obtain ⟨_, _, e', hspec'⟩ := Basin.C36_watershed (s := s') (d := d') (by rw [hs']; exact hd'.resolves) hf' p hw'
  rw [ho] at e
  rw [ho'] at e'
  cases e
  cases e'
  have hw : ∀ u, w u = 1 ↔ Reaches d u p := fun u =>
    ⟨fun h1 => by_contra fun hn => (by rw [(hspec u).2 hn] at h1; cases h1), (hspec u).1⟩
  simp only [hw] at hk
  funext u
  by_cases hu : Reaches d u p
  · rw [(hspec u).1 hu, (hspec' u).1 ((key p hk p u (.refl p)).1 hu)]
  · rw [(hspec u).2 hu, (hspec' u).2 (fun h => hu ((key p hk p u (.refl p)).2 h))]

/-- **C189**, accumulation: in the watershed every accumulated value is what it was. -/
theorem C189_accumulation (hD : Draining G dem nbr thr big terminals) (hD' : Draining G dem' nbr thr big terminals')
    (hsymm : ∀ a b, b ∈ nbr a → a ∈ nbr b)
    (h : flowDirections fuel G dem big (table nbr) thr terminals = .ok out)
    (h' : flowDirections fuel' G dem' big (table nbr) thr terminals' = .ok out')
    {s t : Basin.State N} (hs : s.fdir = out) (hf : s.fdirR = none)
    {p : Fin N} {wf : ℕ} (hw : 2 * N < wf) {w : Fin N → ℕ}
    (ho : Basin.watershed wf s p (fun _ => 0) = .ok (t, w))
    (hk : KeepsAway G dem dem' nbr thr terminals terminals' (fun u => w u = 1))
    {area : Fin N → K} {asCells : Bool} {af af' : ℕ} {a a' : Fin N → K}
    (ha : Acc.flowAccumulation af out area asCells = .ok a)
    (ha' : Acc.flowAccumulation af' out' area asCells = .ok a') (v : Fin N) (hv : w v = 1) : a' v = a v := by
  obtain ⟨d, d', hd, hd', hc, hc', key⟩ := nets hD hD' hsymm h h'
  obtain ⟨_, _, e, hspec⟩ := Basin.C36_watershed (s := s) (d := d) (by rw [hs]; exact hd.resolves) hf p hw
  rw [ho] at e
  cases e
  have hw : ∀ u, w u = 1 ↔ Reaches d u p := fun u =>
    ⟨fun h1 => by_contra fun hn => (by rw [(hspec u).2 hn] at h1; cases h1), (hspec u).1⟩
  simp only [hw] at hk
  have hup : upstream d' v = upstream d v := by
    ext u
    rw [mem_upstream, mem_upstream]
    exact (key p hk v u ((hw v).1 hv)).symm
  have e := Acc.C32_upstream_sum hd.resolves ha v (hc v)
  have e' := Acc.C32_upstream_sum hd'.resolves ha' v (hc' v)
  cases asCells
  · rw [e.1 rfl, e'.1 rfl, hup]
  · rw [e.2 rfl, e'.2 rfl, hup]

/-! ### A concrete case -/

/-- `demS` with cell 7 lowered from 13 to 9 -/
def demA : Fin 16 → Option ℚ :=
  ![some 20, some 19, some 18, some 17, some 16, some 15, some 14, some 9, some 12, some 11, some 7, some 8,
    some 9, some 6, some 2, some 0]

/-- cells 2 and 7 now flow elsewhere -/
def fdA : Fin 16 → ℤ := ![4, 5, 7, 7, 8, 10, 10, 10, 13, 14, 14, 15, 13, 14, 15, 15]

theorem runA : flowDirections 200 geo44 demA Dirs.big (table nbr44) Dirs.thr [] = .ok fdA := by decide +kernel

private theorem terminal_only {dem : Fin 16 → Option ℚ} {t0 : Fin 16} (h0 : dem t0 = some 0)
    (hpos : ∀ t, t ≠ t0 → (dem t).all (fun v => decide (0 < v)) = true) {t : Fin 16} :
    Terminal dem [] t ↔ t = t0 := by
  constructor
  · rintro (⟨v, hv, hle⟩ | h)
    · have h1 := hle t0 0 h0
      by_contra hc
      have := hpos t hc
      rw [hv] at this
      simp only [Option.all_some, decide_eq_true_eq] at this
      exact absurd this (not_lt.2 h1)
    · cases h
  · rintro rfl
    refine .inl ⟨0, h0, fun m w h => ?_⟩
    by_cases hm : m = t
    · rw [hm, h0] at h; exact (Option.some.inj h).le
    · have := hpos m hm
      rw [h] at this
      simp only [Option.all_some, decide_eq_true_eq] at this
      exact this.le

private theorem fall_of {dem : Fin 16 → Option ℚ}
    (h : ∀ n : Fin 16, n ≠ 15 → ∃ l ∈ nbr44 n, (dem n).getD 0 > (dem l).getD 0 ∧ dem l ≠ none)
    (ht : Terminal dem [] 15) : AllFall dem [] nbr44 := by
  intro n hv hT
  obtain ⟨l, h1, h2, h3⟩ := h n (by rintro rfl; exact hT ht)
  obtain ⟨a, ha⟩ := Option.ne_none_iff_exists'.1 hv
  obtain ⟨b, hb⟩ := Option.ne_none_iff_exists'.1 h3
  rw [ha, hb] at h2
  exact ⟨l, h1, a, b, ha, hb, h2⟩

private theorem termS (t : Fin 16) : Terminal demS [] t ↔ t = 15 :=
  terminal_only (by decide +kernel) (by decide +kernel)
private theorem termA (t : Fin 16) : Terminal demA [] t ↔ t = 15 :=
  terminal_only (by decide +kernel) (by decide +kernel)
theorem belowA : Below geo44 demA Dirs.thr Dirs.big nbr44 := below_of (by decide +kernel)

theorem drainS : Draining geo44 demS nbr44 Dirs.thr Dirs.big [] where
  range := inRange_nil 16
  size := by norm_num
  below := belowS
  nbrs := by
    have : ∀ n, ∃ m ∈ nbr44 n, demS m ≠ none := by decide +kernel
    exact fun n _ => this n
  nodup := nodup44
  sound := sound44
  fall := fall_of (by decide +kernel) ((termS 15).2 rfl)
  ends := cleanS

theorem drainA : Draining geo44 demA nbr44 Dirs.thr Dirs.big [] where
  range := inRange_nil 16
  size := by norm_num
  below := belowA
  nbrs := by
    have : ∀ n, ∃ m ∈ nbr44 n, demA m ≠ none := by decide +kernel
    exact fun n _ => this n
  nodup := nodup44
  sound := sound44
  fall := fall_of (by decide +kernel) ((termA 15).2 rfl)
  ends := cleanEnds_easy (big := Dirs.big) belowA [15] (by decide +kernel) (fun t h => (termA t).2 (by simpa using h))

/-- the watershed of cell 4: cells 0 and 4 -/
def wS : Fin 16 → ℕ := ![1, 0, 0, 0, 1, 0, 0, 0, 0, 0, 0, 0, 0, 0, 0, 0]
theorem wsS : ∃ t, Basin.watershed 33 ⟨fdS, none⟩ 4 (fun _ => 0) = .ok (t, wS) := by
  have : (Basin.watershed 33 ⟨fdS, none⟩ 4 (fun _ => 0)).map Prod.snd = .ok wS := by decide +kernel
  obtain ⟨⟨t, w⟩, h, rfl⟩ := Res.map_eq_ok.1 this
  exact ⟨t, h⟩

theorem one_of {G : Geo N ℚ} {dem : Fin N → Option ℚ} {thr big : ℚ} {nbr : Fin N → List (Fin N)}
    (hb : Below G dem thr big nbr) {n : Fin N} (h : (fc0 G dem thr big nbr n).length ≤ 1) :
    OneSteepest G dem thr nbr n := by
  intro m m' h1 h2
  have e1 := mem_fc0_of_steepest hb h1
  have e2 := mem_fc0_of_steepest hb h2
  rcases hl : fc0 G dem thr big nbr n with _ | ⟨x, _ | ⟨y, l⟩⟩
  · rw [hl] at e1; cases e1
  · rw [hl] at e1 e2
    simp only [List.mem_singleton] at e1 e2
    rw [← e1] at e2
    exact (Option.some.inj e2).symm
  · rw [hl] at h; simp at h

theorem awayA : KeepsAway geo44 demS demA nbr44 Dirs.thr [] [] (fun u => wS u = 1) where
  elev := by unfold Beside; decide +kernel
  term k _ := by rw [termS, termA]
  one k hk := one_of (big := Dirs.big) belowS (by
    revert k; unfold Beside; decide +kernel)

example {t' : Basin.State 16} {w' : Fin 16 → ℕ}
    (h' : Basin.watershed 33 ⟨fdA, none⟩ 4 (fun _ => 0) = .ok (t', w')) : w' = wS := by
  obtain ⟨t, ht⟩ := wsS
  exact C189_watershed drainS drainA (by decide +kernel) runS runA (s := ⟨fdS, none⟩) (s' := ⟨fdA, none⟩)
    rfl rfl rfl rfl (by decide) (by decide) ht h' awayA
example {a a' : Fin 16 → ℚ} (h : Acc.flowAccumulation 17 fdS (fun _ => 1) false = .ok a)
    (h' : Acc.flowAccumulation 17 fdA (fun _ => 1) false = .ok a') : a' 4 = a 4 := by
  obtain ⟨t, ht⟩ := wsS
  exact C189_accumulation drainS drainA (by decide +kernel) runS runA (s := ⟨fdS, none⟩)
    rfl rfl (by decide) ht awayA h h' 4 (by decide +kernel)
-- C188 on the same edit: cell 4 is not beside cell 7; cell 2 is, and changes
example : fdA 4 = fdS 4 :=
  C188_local drainS drainA runS runA (n := 4) (by unfold SameAround; decide +kernel)
    (one_of (big := Dirs.big) belowS (by decide +kernel)) (by rw [termS, termA])
example : fdA 2 ≠ fdS 2 := by decide +kernel

end Dany.Pipe
