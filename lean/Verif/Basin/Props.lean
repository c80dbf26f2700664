import Verif.Basin.Sub
import Mathlib.Data.Fin.VecNotation

/-!
# C36 – C39: watersheds and subbasins
-/

namespace Dany.Basin

open Function Flow Topo

variable {N : ℕ} {d : Fin N → Fin N}

theorem free_zero {p u : Fin N} : Free d (fun _ => 0) p u ↔ Reaches d u p := by
  constructor
  · rintro ⟨k, hk, _⟩; exact ⟨k, hk⟩
  · rintro ⟨k, hk⟩; exact ⟨k, hk, fun _ _ => rfl⟩

theorem npMax_zero : npMax (fun _ : Fin N => 0) = 0 :=
  Nat.le_zero.1 (npMax_le _ (fun _ => le_rfl))

/-- **C36.** With no cached table, `get_watershed_boundary` terminates and marks with 1 exactly the
cells whose flow path passes through the pour point's cell (that cell included), with 0 all others. -/
theorem C36_watershed {s : State N} (hd : Resolves s.fdir d) (hc : s.fdirR = none) (cell : Fin N)
    {fuel : ℕ} (hf : 2 * N < fuel) :
    ∃ s' out, watershed fuel s cell (fun _ => 0) = .ok (s', out) ∧
      ∀ u, (Reaches d u cell → out u = 1) ∧ (¬ Reaches d u cell → out u = 0) := by
  obtain ⟨s', out, e, _, _, h1, h2⟩ := watershed_ok hd (by intro r hr; rw [hc] at hr; cases hr) cell
    (fun _ => 0) hf
  refine ⟨s', out, e, fun u => ⟨fun h => ?_, fun h => ?_⟩⟩
  · rw [h1 u (free_zero.2 h), npMax_zero]
  · exact h2 u (fun h' => h (free_zero.1 h'))

/-- The same holds after any number of earlier calls, as long as the flow directions have not been
computed anew: the cached table stays the right one. -/
theorem C36_repeated {s : State N} (hd : Resolves s.fdir d) (hc : Fresh s) (cell : Fin N)
    {fuel : ℕ} (hf : 2 * N < fuel) :
    ∃ s' out, watershed fuel s cell (fun _ => 0) = .ok (s', out) ∧ Fresh s' ∧ s'.fdir = s.fdir ∧
      ∀ u, (Reaches d u cell → out u = 1) ∧ (¬ Reaches d u cell → out u = 0) := by
  obtain ⟨s', out, e, h3, h4, h1, h2⟩ := watershed_ok hd hc cell (fun _ => 0) hf
  refine ⟨s', out, e, h4, h3, fun u => ⟨fun h => ?_, fun h => ?_⟩⟩
  · rw [h1 u (free_zero.2 h), npMax_zero]
  · exact h2 u (fun h' => h (free_zero.1 h'))

/-- non-vacuity: 0 → 1 → 2 → 2, 3 → 1, cycle 4 ⇄ 5; pour point in cell 1, and on the cycle -/
def exS : State 6 := { fdir := ![1, 2, 2, 1, 5, 4], fdirR := none }
example : (watershed 13 exS 1 (fun _ => 0)).map Prod.snd = .ok ![1, 1, 0, 1, 0, 0] := by decide +kernel
example : (watershed 13 exS 5 (fun _ => 0)).map Prod.snd = .ok ![0, 0, 0, 0, 1, 1] := by decide +kernel
example : Resolves exS.fdir (![1, 2, 2, 1, 5, 4] : Fin 6 → Fin 6) := by
  intro n; revert n; decide +kernel

/-- A new `flow_directions()` call replaces the array and keeps everything else
(flow_directions.py:408-428 never touches `_fdir_r`). -/
def recompute (s : State N) (fdir : Fin N → ℤ) : State N := { s with fdir := fdir }

/-- The history `flow_directions(); get_watershed_boundary(c); flow_directions();
get_watershed_boundary(c')`, the second call of `flow_directions` giving `fdir'`. -/
def twoCalls (fuel : ℕ) (fdir fdir' : Fin N → ℤ) (c c' : Fin N) : Res (Fin N → ℕ) :=
  (watershed fuel { fdir := fdir, fdirR := none } c (fun _ => 0)).bind fun r =>
    (watershed fuel (recompute r.1 fdir') c' (fun _ => 0)).map Prod.snd

/-- **C37** as stated: after new flow directions the watershed is that of the new directions. -/
def WatershedFollows (N : ℕ) : Prop :=
  ∀ (fdir fdir' : Fin N → ℤ) (d d' : Fin N → Fin N), Legal fdir d → Legal fdir' d' →
    ∀ (c c' : Fin N) (fuel : ℕ) (out : Fin N → ℕ), twoCalls fuel fdir fdir' c c' = .ok out →
      ∀ u, Reaches d' u c' → out u = 1

/-- **C37 is false of the code**: the reversed table is cached forever.  Cells 0, 1, 2 first all drain
to cell 2; after a recomputation they drain to cell 0, but the watershed of cell 0 then misses
cell 1. -/
theorem C37_refuted : ¬ WatershedFollows 3 := by
  intro h
  have := h ![2, 2, 2] ![0, 0, 0] ![2, 2, 2] ![0, 0, 0] (by unfold Legal; decide +kernel)
    (by unfold Legal; decide +kernel) 2 0 20 ![1, 0, 1] (by decide +kernel) 1 ⟨1, by decide +kernel⟩
  revert this
  decide +kernel

/-- **C37**, the part that holds (partial): recomputing to the same flow directions, or recomputing
before the first watershed call, is harmless. -/
theorem C37_follows_partial {s : State N} {fdir' : Fin N → ℤ} (hd : Resolves fdir' d)
    (hs : Fresh s) (hsame : s.fdirR = none ∨ s.fdir = fdir') (cell : Fin N) {fuel : ℕ}
    (hf : 2 * N < fuel) :
    ∃ s' out, watershed fuel (recompute s fdir') cell (fun _ => 0) = .ok (s', out) ∧
      ∀ u, (Reaches d u cell → out u = 1) ∧ (¬ Reaches d u cell → out u = 0) := by
  obtain ⟨s', out, e, _, _, h⟩ := C36_repeated (s := recompute s fdir') hd (by
    intro r hr
    rcases hsame with h | h
    · simp only [recompute] at hr; rw [h] at hr; cases hr
    · simp only [recompute] at hr ⊢; rw [← h]; exact hs r hr) cell hf
  exact ⟨s', out, e, h⟩

/-! ### Subbasins -/

theorem exists_first {S : Fin N → Prop} {u p : Fin N} (hS : S p) (hr : Reaches d u p) :
    ∃ q, FirstOn d S u q := by
  classical
  obtain ⟨k, hk⟩ := hr
  have hex : ∃ k, S (d^[k] u) := ⟨k, by rw [hk]; exact hS⟩
  exact ⟨_, Nat.find hex, rfl, Nat.find_spec hex, fun j hj => Nat.find_min hex hj⟩

theorem first_unique {S : Fin N → Prop} {u p q : Fin N} (h1 : FirstOn d S u p)
    (h2 : FirstOn d S u q) : p = q := by
  obtain ⟨i, rfl, hi, hi'⟩ := h1
  obtain ⟨j, rfl, hj, hj'⟩ := h2
  rcases lt_trichotomy i j with h | h | h
  · exact absurd hi (hj' i h)
  · rw [h]
  · exact absurd hj (hi' j h)

/-- labels given so far by the pour points `ps` -/
structure SubInv (d : Fin N → Fin N) (ps : List (Fin N)) (sub : Fin N → ℕ) : Prop where
  first : ∀ u p, FirstOn d (· ∈ ps) u p → sub u = ps.idxOf p + 1
  none : ∀ u, (∀ p ∈ ps, ¬ Reaches d u p) → sub u = 0

theorem SubInv.max {ps : List (Fin N)} {sub : Fin N → ℕ} (h : SubInv d ps sub) (hnd : ps.Nodup) :
    npMax sub = ps.length := by
  apply le_antisymm
  · apply npMax_le
    intro u
    by_cases hu : ∃ p ∈ ps, Reaches d u p
    · obtain ⟨p, hp, hr⟩ := hu
      obtain ⟨q, hq⟩ := exists_first (S := (· ∈ ps)) hp hr
      rw [h.first u q hq]
      obtain ⟨_, _, hq, _⟩ := hq
      exact List.idxOf_lt_length_iff.2 hq
    · push Not at hu
      rw [h.none u hu]; exact Nat.zero_le _
  · rcases List.eq_nil_or_concat ps with rfl | ⟨ps', p, rfl⟩
    · simp
    · have := h.first p p ⟨0, rfl, by simp, by simp⟩
      refine le_trans ?_ (le_npMax sub p)
      rw [this]
      rw [List.concat_eq_append] at hnd ⊢
      have hp : p ∉ ps' := fun hm => (List.nodup_append.1 hnd).2.2 p hm p (by simp) rfl
      rw [List.idxOf_append_of_notMem hp]
      simp

theorem subFold_ok {fuel : ℕ} (hf : 2 * N < fuel) :
    ∀ (l ps : List (Fin N)) (s : State N) (sub : Fin N → ℕ), Resolves s.fdir d → Fresh s →
      SubInv d ps sub → (ps ++ l).Nodup →
      (∀ a x b y, ps ++ l = a ++ x :: b → y ∈ b → ¬ Reaches d y x) →
      ∃ s' out, l.foldl (subStep fuel) (.ok (s, sub)) = .ok (s', out) ∧ SubInv d (ps ++ l) out := by
  intro l
  induction l with
  | nil => intro ps s sub _ _ hi _ _; exact ⟨s, sub, rfl, by simpa using hi⟩
  | cons p l ih =>
    intro ps s sub hd hs hi hnd hord
    obtain ⟨s1, out, e, e1, e2, e3, e4⟩ := watershed_ok hd hs p sub hf
    have hmax : npMax sub = ps.length := hi.max (List.nodup_append.1 hnd).1
    rw [hmax] at e3
    have hpps : p ∉ ps := fun hm => (List.nodup_append.1 hnd).2.2 p hm p (by simp) rfl
    have hnot : ∀ q ∈ ps, ¬ Reaches d p q := by
      intro q hq
      obtain ⟨a, b, rfl⟩ := List.append_of_mem hq
      exact hord a q (b ++ p :: l) p (by simp) (by simp)
    -- the cells labelled by the new call
    have hfree : ∀ u, Free d sub p u ↔ (Reaches d u p ∧ ∀ q ∈ ps, ¬ Reaches d u q) := by
      intro u
      constructor
      · rintro ⟨k, hk, hz⟩
        refine ⟨⟨k, hk⟩, ?_⟩
        cases k with
        | zero =>
          rw [iterate_zero, id_eq] at hk
          rw [hk]; exact hnot
        | succ k =>
          intro q hq hr
          obtain ⟨q', hq'⟩ := exists_first (S := (· ∈ ps)) hq hr
          have h1 := hi.first u q' hq'
          have h2 := hz 0 (by omega)
          rw [iterate_zero, id_eq] at h2
          omega
      · rintro ⟨⟨k, hk⟩, hno⟩
        refine ⟨k, hk, ?_⟩
        intro j _
        apply hi.none
        intro q hq hr
        exact hno q hq (Reaches.trans ⟨j, rfl⟩ hr)
    have hi1 : SubInv d (ps ++ [p]) out := by
      constructor
      · rintro u q ⟨k, rfl, hq, hmin⟩
        rw [List.mem_append, List.mem_singleton] at hq
        by_cases hex : ∃ q' ∈ ps, Reaches d u q'
        · obtain ⟨q', hq', hr'⟩ := hex
          obtain ⟨q1, hq1⟩ := exists_first (S := (· ∈ ps)) hq' hr'
          have hout : out u = sub u := e4 u (fun hF => ((hfree u).1 hF).2 q' hq' hr')
          have hq2 : d^[k] u ∈ ps := by
            rcases hq with hq | hq
            · exact hq
            · -- `p` would be met before `q1`
              exfalso
              obtain ⟨j, hj, hjp, hjm⟩ := hq1
              by_cases hjk : j < k
              · exact hmin j hjk (by rw [hj]; simp [hjp])
              · apply hnot q1 hjp
                refine ⟨j - k, ?_⟩
                rw [← hq, ← iterate_add_apply, Nat.sub_add_cancel (by omega), hj]
          have hfirst : FirstOn d (· ∈ ps) u (d^[k] u) :=
            ⟨k, rfl, hq2, fun j hj hm => hmin j hj (by simp [hm])⟩
          rw [hout, hi.first u _ hfirst, List.idxOf_append_of_mem hq2]
        · push Not at hex
          have hkp : d^[k] u = p := by
            rcases hq with hq | hq
            · exact absurd ⟨k, rfl⟩ (hex _ hq)
            · exact hq
          rw [e3 u ((hfree u).2 ⟨⟨k, hkp⟩, hex⟩), hkp, List.idxOf_append_of_notMem hpps]
          simp
      · intro u hu
        rw [e4 u (fun hF => hu p (by simp) ((hfree u).1 hF).1)]
        exact hi.none u (fun q hq => hu q (by simp [hq]))
    rw [List.foldl_cons]
    simp only [subStep, Res.bind_ok]
    rw [e]
    obtain ⟨s', out', e', h'⟩ := ih (ps ++ [p]) s1 out (by rw [e1]; exact hd) e2 hi1 (by simpa using hnd)
      (by intro a x b y he hy; exact hord a x b y (by simpa using he) hy)
    exact ⟨s', out', e', by simpa using h'⟩

theorem pointCell_ok {cells : List (Fin N)} {c : Fin N} (h : c ∈ cells) :
    pointCell cells (toZ c) = .ok c := by
  unfold pointCell
  have hsome : (cells.find? (fun c' : Fin N => decide (((c' : ℕ) : ℤ) = toZ c))).isSome := by
    rw [List.find?_isSome]
    exact ⟨c, h, by simp [toZ]⟩
  obtain ⟨c', hc'⟩ := Option.isSome_iff_exists.1 hsome
  have : c' = c := by
    have := List.find?_some hc'
    apply toZ_inj
    simpa [toZ] using this
  rw [hc', this]

theorem pointCells_ok {cells : List (Fin N)} : ∀ (L : List ℤ), (∀ x ∈ L, x ∈ cells.map toZ) →
    ∃ pts, pointCells cells L = .ok pts ∧ pts.map toZ = L := by
  intro L
  induction L with
  | nil => intro _; exact ⟨[], rfl, rfl⟩
  | cons x L ih =>
    intro h
    obtain ⟨pts, e, hp⟩ := ih (fun y hy => h y (by simp [hy]))
    obtain ⟨c, hc, rfl⟩ := List.mem_map.1 (h x (by simp))
    refine ⟨c :: pts, ?_, by simp [hp]⟩
    simp only [pointCells, pointCell_ok hc, Res.bind_ok, e, Res.map_ok]

/-- **C38.** With no pour point in cell 0 and none on a flow cycle, and fewer pour points on any one
flow path than the recursion limit allows, `get_subbasins` terminates and
there is a numbering `lab` of the pour-point cells by `1 … k` (`k` the number of different cells),
each number used once and increasing downstream, such that every cell is labelled with the number of
the first pour point on its flow path and 0 if there is none. -/
theorem C38_subbasins {s : State N} (hd : Legal s.fdir d) (hs : Fresh s) {cells : List (Fin N)}
    (h0 : ∀ c ∈ cells, c.val ≠ 0) (hcyc : ∀ c ∈ cells, ¬ OnCycle d c) {limit fuel : ℕ}
    (hl : PoursFit d cells limit) (hf : 2 * N + 1 < fuel) :
    ∃ s' out, ∃ lab : Fin N → ℕ, subbasins limit fuel s cells = .ok (s', out) ∧
      (∀ p ∈ cells, 1 ≤ lab p ∧ lab p ≤ cells.toFinset.card) ∧
      (∀ p ∈ cells, ∀ q ∈ cells, lab p = lab q → p = q) ∧
      (∀ p ∈ cells, ∀ q ∈ cells, p ≠ q → Reaches d p q → lab p < lab q) ∧
      (∀ u p, FirstOn d (· ∈ cells) u p → out u = lab p) ∧
      (∀ u, (∀ p ∈ cells, ¬ Reaches d u p) → out u = 0) := by
  obtain ⟨L, eL, l1, l2, l3⟩ := pourOrder_ok hd hcyc h0 (fuel := fuel) (limit := limit) (by omega) hl
  obtain ⟨pts, eP, hpts⟩ := pointCells_ok (cells := cells) L (fun x hx => (l2 x).1 hx)
  have hmem : ∀ c, c ∈ pts ↔ c ∈ cells := by
    intro c
    rw [← mem_toZ (cells := pts), hpts, l2, mem_toZ]
  have hnd : pts.Nodup := by
    rw [← hpts] at l1
    exact l1.of_map _
  have hord : ∀ a x b y, pts = a ++ x :: b → y ∈ b → ¬ Reaches d y x := by
    intro a x b y he hy hr
    have hx : x ∈ cells := (hmem x).1 (by rw [he]; simp)
    have hyc : y ∈ cells := (hmem y).1 (by rw [he]; simp [hy])
    have hne : y ≠ x := by
      rintro rfl
      rw [he, List.nodup_append] at hnd
      exact (List.nodup_cons.1 hnd.2.1).1 hy
    have hb := l3 y hyc x hx hne hr
    have hb' : Before L (toZ x) (toZ y) := by
      refine ⟨a.map toZ, b.map toZ, ?_, List.mem_map.2 ⟨y, hy, rfl⟩⟩
      rw [← hpts, he]; simp
    exact before_irrefl l1 _ (before_trans l1 hb hb')
  obtain ⟨s', out, e, hi⟩ := subFold_ok (d := d) (fuel := fuel) (by omega) pts [] s (fun _ => 0)
    hd.resolves hs ⟨by rintro u p ⟨_, _, hp, _⟩; simp at hp, fun _ _ => rfl⟩ (by simpa using hnd)
    (by simpa using hord)
  simp only [List.nil_append] at hi
  refine ⟨s', out, fun p => pts.idxOf p + 1, ?_, ?_, ?_, ?_, ?_, ?_⟩
  · unfold subbasins
    have : (cells.map (fun c : Fin N => ((c : ℕ) : ℤ))) = cells.map toZ := rfl
    rw [this, eL, Res.bind_ok, eP, Res.bind_ok, e]
  · intro p hp
    dsimp only
    refine ⟨by omega, ?_⟩
    have h1 : pts.idxOf p < pts.length := List.idxOf_lt_length_iff.2 ((hmem p).2 hp)
    have h2 : pts.length = cells.toFinset.card := by
      rw [← List.toFinset_card_of_nodup hnd]
      congr 1
      ext c
      simp [hmem]
    omega
  · intro p hp q _ he
    dsimp only at he
    exact (List.idxOf_inj ((hmem p).2 hp)).1 (by omega)
  · intro p hp q hq hne hr
    have hlt : pts.idxOf p < pts.idxOf q := by
      by_contra hge
      have hpq : pts.idxOf p ≠ pts.idxOf q := fun he =>
        hne ((List.idxOf_inj ((hmem p).2 hp)).1 he)
      have hqlt : pts.idxOf q < pts.length := List.idxOf_lt_length_iff.2 ((hmem q).2 hq)
      have hplt : pts.idxOf p < pts.length := List.idxOf_lt_length_iff.2 ((hmem p).2 hp)
      have e1 : pts = pts.take (pts.idxOf q) ++ q :: pts.drop (pts.idxOf q + 1) := by
        conv_lhs => rw [← List.take_append_drop (pts.idxOf q) pts, List.drop_eq_getElem_cons hqlt]
        simp
      refine hord _ _ _ p e1 ?_ hr
      rw [List.mem_iff_getElem]
      refine ⟨pts.idxOf p - pts.idxOf q - 1, by rw [List.length_drop]; omega, ?_⟩
      rw [List.getElem_drop]
      have : pts.idxOf q + 1 + (pts.idxOf p - pts.idxOf q - 1) = pts.idxOf p := by omega
      simp [this]
    dsimp only
    omega
  · intro u p hp
    apply hi.first
    obtain ⟨k, h1, h2, h3⟩ := hp
    exact ⟨k, h1, (hmem p).2 h2, fun j hj hm => h3 j hj ((hmem _).1 hm)⟩
  · intro u hu
    exact hi.none u (fun p hp => hu p ((hmem p).1 hp))

/-- **C38**, without looking at the recursion limit: under any limit the call either raises
`RecursionError` or does what it does under every larger limit. -/
theorem C38_limit (fuel : ℕ) (s : State N) (cells : List (Fin N)) {a b : ℕ} (h : a ≤ b) :
    subbasins a fuel s cells = .err .recursionError ∨
      subbasins a fuel s cells = subbasins b fuel s cells :=
  Res.LeRec.bind ((Res.LeRec.refl _).bind fun _ => (Topo.sort_leRec h).map _) fun _ => .refl _

/-- So whenever it returns, the labels are as in `C38_subbasins`, without any condition on the limit. -/
theorem C38_returned {s s' : State N} (hd : Legal s.fdir d) (hs : Fresh s) {cells : List (Fin N)}
    (h0 : ∀ c ∈ cells, c.val ≠ 0) (hcyc : ∀ c ∈ cells, ¬ OnCycle d c) {limit fuel : ℕ}
    (hf : 2 * N + 1 < fuel) {out : Fin N → ℕ} (hr : subbasins limit fuel s cells = .ok (s', out)) :
    ∃ lab : Fin N → ℕ,
      (∀ p ∈ cells, 1 ≤ lab p ∧ lab p ≤ cells.toFinset.card) ∧
      (∀ p ∈ cells, ∀ q ∈ cells, lab p = lab q → p = q) ∧
      (∀ p ∈ cells, ∀ q ∈ cells, p ≠ q → Reaches d p q → lab p < lab q) ∧
      (∀ u p, FirstOn d (· ∈ cells) u p → out u = lab p) ∧
      (∀ u, (∀ p ∈ cells, ¬ Reaches d u p) → out u = 0) := by
  obtain ⟨s1, out1, lab, e, h⟩ := C38_subbasins hd hs h0 hcyc
    (poursFit_of_length (le_max_right limit (cells.length + 1))) hf
  have := Res.LeRec.ok (C38_limit fuel s cells (le_max_left limit (cells.length + 1))) hr
  rw [e] at this
  cases this
  exact ⟨lab, h⟩

/-- non-vacuity: pour points in cells 1 and 2 of the network above (1 flows to 2), given in the
"wrong" order and with a repetition -/
example : (subbasins 10 20 exS [2, 1, 2]).map Prod.snd = .ok ![1, 1, 2, 1, 0, 0] := by decide +kernel

/-- **C39** as stated: a pour point in cell 0, like any other, gets its cell labelled. -/
def CellZeroWorks (N : ℕ) [NeZero N] : Prop :=
  ∀ (fdir : Fin N → ℤ) (d : Fin N → Fin N), Legal fdir d → ∀ cells : List (Fin N),
    (∀ c ∈ cells, ¬ OnCycle d c) → 0 ∈ cells →
    ∃ s' out, subbasins (N + 10) (4 * N + 10) { fdir := fdir, fdirR := none } cells = .ok (s', out) ∧
      out 0 ≠ 0

/-- **C39 is false of the code**: a single pour point in cell 0 gives no subbasin at all … -/
theorem C39_refuted : ¬ CellZeroWorks 2 := by
  intro h
  obtain ⟨s', out, e, ho⟩ := h ![0, 0] ![0, 0] (by unfold Legal; decide +kernel) [0]
    (by intro c hc; rw [List.mem_singleton] at hc; subst hc; rintro ⟨h, _⟩; exact h (by decide +kernel))
    (by simp)
  have e2 : (subbasins (2 + 10) (4 * 2 + 10) { fdir := ![0, 0], fdirR := none } ([0] : List (Fin 2))).map
      Prod.snd = .ok ![0, 0] := by decide +kernel
  rw [e, Res.map_ok] at e2
  cases e2
  exact ho rfl

/-- … and a further pour point upstream of cell 0 makes the call raise `ValueError`. -/
theorem C39_raises : (subbasins 12 18 { fdir := ![0, 0], fdirR := none } ([0, 1] : List (Fin 2))).map
    Prod.snd = .err .valueError := by decide +kernel

/-- **C39**, the part that holds (partial): away from cell 0 every pour point's cell is labelled. -/
theorem C39_other_cells_partial {s : State N} (hd : Legal s.fdir d) (hs : Fresh s)
    {cells : List (Fin N)} (h0 : ∀ c ∈ cells, c.val ≠ 0) (hcyc : ∀ c ∈ cells, ¬ OnCycle d c)
    {limit fuel : ℕ} (hl : PoursFit d cells limit) (hf : 2 * N + 1 < fuel) :
    ∃ s' out, subbasins limit fuel s cells = .ok (s', out) ∧ ∀ c ∈ cells, out c ≠ 0 := by
  obtain ⟨s', out, lab, e, h1, _, _, h4, _⟩ := C38_subbasins hd hs h0 hcyc hl hf
  refine ⟨s', out, e, fun c hc => ?_⟩
  rw [h4 c c ⟨0, rfl, hc, by simp⟩]
  have := (h1 c hc).1
  omega

end Dany.Basin
