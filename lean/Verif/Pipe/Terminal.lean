import Verif.Dirs.Local
import Verif.Pipe.Away
import Verif.Basin.Props
import Verif.Acc.Reroute
import Mathlib.Tactic.IntervalCases

/-!
# C198: naming a terminal cell stops the flow there and changes nothing else
-/

namespace Dany.Pipe

open Dany.Flow Dany.Dirs

variable {N : ℕ} {K : Type*} [Field K] [LinearOrder K]
  {G : Geo N K} {dem : Fin N → Option K} {nbr : Fin N → List (Fin N)}
  {terminals : List ℤ} {thr big : K} {fuel fuel' : ℕ} {out out' : Fin N → ℤ} {d d' : Fin N → Fin N} {c : Fin N}

private theorem terminal_iff {n : Fin N} (hn : n ≠ c) :
    Terminal dem (((c : ℕ) : ℤ) :: terminals) n ↔ Terminal dem terminals n := by
  unfold Terminal
  rw [List.mem_cons]
  have : ((n : ℕ) : ℤ) ≠ ((c : ℕ) : ℤ) := fun e => hn (Fin.ext (by exact_mod_cast e))
  simp [this]

private theorem range_cons (hr : InRange N terminals) : InRange N (((c : ℕ) : ℤ) :: terminals) := by
  intro t ht
  rcases List.mem_cons.1 ht with rfl | h
  · have := c.isLt; omega
  · exact hr t h

/-- **C198**, directions (no ties): the named cell flows to itself, every other cell as before. -/
theorem C198_directions (hr : InRange N terminals) (hb : Below G dem thr big nbr) (hn : HasNbr dem nbr)
    (hnd : ∀ n, (nbr n).Nodup) (hnt : NoTies G dem thr nbr)
    (h : flowDirections fuel G dem big (table nbr) thr terminals = .ok out)
    (h' : flowDirections fuel' G dem big (table nbr) thr (((c : ℕ) : ℤ) :: terminals) = .ok out') :
    out' c = ((c : ℕ) : ℤ) ∧ ∀ n, n ≠ c → out' n = out n := by
  refine ⟨?_, fun n hne => C188_noties hr (range_cons hr) hb hb hn hn hnd hnt hnt h h' ⟨rfl, fun _ _ => rfl⟩
    (terminal_iff hne)⟩
  obtain ⟨m, e, ⟨_, rfl⟩ | ⟨hno, _⟩⟩ := C135_value (range_cons hr) hb hn hnd hnt h' c
  · exact e
  · exact absurd (.inr (List.mem_cons_self ..)) hno

/-- **C198**, directions where all cells drain (ties allowed): the named cell flows to itself, every other cell with one
steepest neighbour as before. -/
theorem C198_draining [IsStrictOrderedRing K] (hD : Draining G dem nbr thr big terminals)
    (hend : CleanEnds G dem thr (((c : ℕ) : ℤ) :: terminals) nbr)
    (h : flowDirections fuel G dem big (table nbr) thr terminals = .ok out)
    (h' : flowDirections fuel' G dem big (table nbr) thr (((c : ℕ) : ℤ) :: terminals) = .ok out') :
    out' c = ((c : ℕ) : ℤ) ∧ ∀ n, n ≠ c → OneSteepest G dem thr nbr n → out' n = out n := by
  have hD' : Draining G dem nbr thr big (((c : ℕ) : ℤ) :: terminals) :=
    { hD with
      range := range_cons hD.range
      fall := fun n hv hn => hD.fall n hv fun ht => hn (by
        rcases ht with ht | ht
        · exact .inl ht
        · exact .inr (List.mem_cons_of_mem _ ht))
      ends := hend }
  refine ⟨?_, fun n hne hone => C188_local hD hD' h h' ⟨rfl, fun _ _ => rfl⟩ hone (terminal_iff hne)⟩
  exact (C97_all_drain hD'.range hD'.size hD'.below hD'.nbrs hD'.nodup hD'.sound hD'.fall hend h' c).1
    (.inl (.inr (List.mem_cons_self ..)))

private theorem iter_same (hsame : ∀ n, n ≠ c → d' n = d n) {k : ℕ} {u : Fin N} (hno : ∀ j < k, d^[j] u ≠ c) :
    d'^[k] u = d^[k] u := by
  induction k with
  | zero => rfl
  | succ k ih =>
    rw [Function.iterate_succ_apply', Function.iterate_succ_apply', ih fun j hj => hno j (by omega)]
    exact hsame _ (hno k (by omega))

private theorem iter_fix (hc : d' c = c) (k : ℕ) : d'^[k] c = c := Function.iterate_fixed hc k

/-- a cell is stopped at `c` -/
private theorem reaches_iff (hsame : ∀ n, n ≠ c → d' n = d n) (hc : d' c = c) (u p : Fin N) :
    Reaches d' u p ↔ ∃ k, d^[k] u = p ∧ ∀ j < k, d^[j] u ≠ c := by
  constructor
  · rintro ⟨k, hk⟩
    by_cases hex : ∃ j, j < k ∧ d^[j] u = c
    · classical
      have h1 := Nat.find_spec hex
      have hmin : ∀ j < Nat.find hex, d^[j] u ≠ c := fun j hj e => Nat.find_min hex hj ⟨by omega, e⟩
      refine ⟨Nat.find hex, ?_, hmin⟩
      have e1 := iter_same hsame hmin
      rw [h1.2] at e1
      rw [h1.2, ← hk]
      have : k = (k - Nat.find hex) + Nat.find hex := by omega
      rw [this, Function.iterate_add_apply, e1, iter_fix hc]
    · push Not at hex
      exact ⟨k, by rw [← iter_same hsame hex, hk], hex⟩
  · rintro ⟨k, hk, hno⟩
    exact ⟨k, by rw [iter_same hsame hno, hk]⟩

/-- what the two calls return, as cells -/
private theorem as_cells (hr : InRange N terminals) (hb : Below G dem thr big nbr) (hn : HasNbr dem nbr)
    (hnd : ∀ n, (nbr n).Nodup) (hnt : NoTies G dem thr nbr)
    (h : flowDirections fuel G dem big (table nbr) thr terminals = .ok out)
    (h' : flowDirections fuel' G dem big (table nbr) thr (((c : ℕ) : ℤ) :: terminals) = .ok out')
    (hd : Legal out d) (hd' : Legal out' d') : d' c = c ∧ ∀ n, n ≠ c → d' n = d n := by
  obtain ⟨e, hs⟩ := C198_directions hr hb hn hnd hnt h h'
  rw [hd'] at e
  refine ⟨Fin.ext (by exact_mod_cast e), fun n hne => ?_⟩
  have := hs n hne
  rw [hd, hd'] at this
  exact Fin.ext (by exact_mod_cast this)

/-- **C198**, watersheds: a watershed keeps the cells whose water comes to its point without passing the named cell
(before it is there); the watershed of the named cell itself is the same. -/
theorem C198_watershed (hr : InRange N terminals) (hb : Below G dem thr big nbr) (hn : HasNbr dem nbr)
    (hnd : ∀ n, (nbr n).Nodup) (hnt : NoTies G dem thr nbr)
    (h : flowDirections fuel G dem big (table nbr) thr terminals = .ok out)
    (h' : flowDirections fuel' G dem big (table nbr) thr (((c : ℕ) : ℤ) :: terminals) = .ok out')
    (hd : Legal out d) (hd' : Legal out' d')
    {p : Fin N} {wf wf' : ℕ} (hw : 2 * N < wf) (hw' : 2 * N < wf') {t t' : Basin.State N} {w w' : Fin N → ℕ}
    (ho : Basin.watershed wf ⟨out, none⟩ p (fun _ => 0) = .ok (t, w))
    (ho' : Basin.watershed wf' ⟨out', none⟩ p (fun _ => 0) = .ok (t', w')) :
    (∀ u, w' u = 1 ↔ ∃ k, d^[k] u = p ∧ ∀ j < k, d^[j] u ≠ c) ∧ (∀ u, w' u = 1 → w u = 1) ∧ (p = c → w' = w) := by
  obtain ⟨hc, hsame⟩ := as_cells hr hb hn hnd hnt h h' hd hd'
  obtain ⟨_, _, e, hs⟩ := Basin.C36_watershed (s := ⟨out, none⟩) hd.resolves rfl p hw
  obtain ⟨_, _, e', hs'⟩ := Basin.C36_watershed (s := ⟨out', none⟩) hd'.resolves rfl p hw'
  rw [ho] at e
  rw [ho'] at e'
  cases e
  cases e'
  have one : ∀ u, w' u = 1 ↔ Reaches d' u p := fun u =>
    ⟨fun e => by_contra fun hno => by rw [(hs' u).2 hno] at e; omega, (hs' u).1⟩
  have one0 : ∀ u, w u = 1 ↔ Reaches d u p := fun u =>
    ⟨fun e => by_contra fun hno => by rw [(hs u).2 hno] at e; omega, (hs u).1⟩
  have key : ∀ u, w' u = 1 ↔ ∃ k, d^[k] u = p ∧ ∀ j < k, d^[j] u ≠ c := fun u => (one u).trans (reaches_iff hsame hc u p)
  refine ⟨key, fun u hu => ?_, fun hpc => ?_⟩
  · obtain ⟨k, hk, _⟩ := (key u).1 hu
    exact (one0 u).2 ⟨k, hk⟩
  · subst hpc
    have iff : ∀ u, Reaches d' u p ↔ Reaches d u p := by
      intro u
      rw [reaches_iff hsame hc]
      refine ⟨fun ⟨k, hk, _⟩ => ⟨k, hk⟩, fun hh => ?_⟩
      classical
      exact ⟨Nat.find hh, Nat.find_spec hh, fun j hj => Nat.find_min hh hj⟩
    funext u
    by_cases hu : Reaches d u p
    · rw [(hs u).1 hu, (hs' u).1 ((iff u).2 hu)]
    · rw [(hs u).2 hu, (hs' u).2 (fun hh => hu ((iff u).1 hh))]

/-- **C198**, accumulation (off circles): the named cell keeps its value, the cells downstream of it lose exactly this
value, all others keep theirs. -/
theorem C198_accumulation [IsStrictOrderedRing K] (hr : InRange N terminals) (hb : Below G dem thr big nbr)
    (hn : HasNbr dem nbr) (hnd : ∀ n, (nbr n).Nodup) (hnt : NoTies G dem thr nbr)
    (h : flowDirections fuel G dem big (table nbr) thr terminals = .ok out)
    (h' : flowDirections fuel' G dem big (table nbr) thr (((c : ℕ) : ℤ) :: terminals) = .ok out')
    (hd : Legal out d) (hd' : Legal out' d') (hcyc : ∀ n, ¬ OnCycle d n)
    {area : Fin N → K} {asCells : Bool} {af af' : ℕ} {a a' : Fin N → K}
    (ha : Acc.flowAccumulation af out area asCells = .ok a)
    (ha' : Acc.flowAccumulation af' out' area asCells = .ok a') :
    a' c = a c ∧ ∀ n, n ≠ c → (Reaches d c n → a' n = a n - a c) ∧ (¬ Reaches d c n → a' n = a n) := by
  obtain ⟨hc, hsame⟩ := as_cells hr hb hn hnd hnt h h' hd hd'
  have hcyc' : ∀ n, ¬ OnCycle d' n := by
    rintro n ⟨hne, k, hk⟩
    by_cases hex : ∃ j, d'^[j] n = c
    · obtain ⟨j, hj⟩ := hex
      -- stopped at `c`, so never back
      have stay : ∀ i, j ≤ i → d'^[i] n = c := by
        intro i hi
        obtain ⟨x, rfl⟩ := Nat.exists_eq_add_of_le hi
        rw [Nat.add_comm, Function.iterate_add_apply, hj, iter_fix hc]
      have back : ∀ m, d'^[(k + 1) * m] n = n := by
        intro m
        rw [Function.iterate_mul]
        exact Function.iterate_fixed hk m
      have e := back (j + 1)
      rw [stay ((k + 1) * (j + 1)) (by nlinarith)] at e
      rw [← e] at hne
      exact hne hc
    · push Not at hex
      have all : ∀ i, d'^[i] n = d^[i] n := by
        intro i
        induction i with
        | zero => rfl
        | succ i ih =>
          rw [Function.iterate_succ_apply', Function.iterate_succ_apply', ← ih]
          exact hsame _ (hex i)
      refine hcyc n ⟨?_, k, by rw [← all, hk]⟩
      rw [← hsame n (hex 0)]
      exact hne
  obtain ⟨h1, h2⟩ := Acc.C176_reroute hd.resolves hd'.resolves hsame (hcyc c) (hcyc' c) ha ha'
  refine ⟨h1, fun n hne => ?_⟩
  have := h2 n hne (hcyc n) (hcyc' n)
  have hno : ¬ Reaches d' c n := by
    rintro ⟨k, hk⟩
    rw [iter_fix hc] at hk
    exact hne hk.symm
  rw [if_neg hno, add_zero] at this
  constructor
  · intro hreach
    rw [if_pos hreach] at this
    exact eq_sub_of_add_eq this
  · intro hreach
    rw [if_neg hreach, add_zero] at this
    exact this

/-! ### Concrete runs: the row of C135, cell 0 over 1 over 2, cell 3 terminal; cell 1 is named -/

private theorem rN : HasNbr (![some 4, some 3, some 2, some 5] : Fin 4 → Option ℚ) rowNbr := by
  intro n _
  have : ∀ n : Fin 4, ∃ m ∈ rowNbr n, (![some 4, some 3, some 2, some 5] : Fin 4 → Option ℚ) m ≠ none := by decide +kernel
  exact this n
private theorem rR : InRange 4 [3] := by intro t ht; simp only [List.mem_singleton] at ht; subst ht; decide
theorem runRow : flowDirections 9 rowG ![some 4, some 3, some 2, some 5] 100 (table rowNbr) (1/10) [3] =
    .ok ![1, 2, 2, 3] := by decide +kernel
theorem runRow1 : flowDirections 9 rowG ![some 4, some 3, some 2, some 5] 100 (table rowNbr) (1/10)
    ((((1 : Fin 4) : ℕ) : ℤ) :: [3]) = .ok ![1, 1, 2, 3] := by decide +kernel
private theorem rL : Legal ![1, 2, 2, 3] (![1, 2, 2, 3] : Fin 4 → Fin 4) := by unfold Legal; decide
private theorem rL1 : Legal ![1, 1, 2, 3] (![1, 1, 2, 3] : Fin 4 → Fin 4) := by unfold Legal; decide

example : (![1, 1, 2, 3] : Fin 4 → ℤ) 1 = 1 ∧ ∀ n, n ≠ 1 → (![1, 1, 2, 3] : Fin 4 → ℤ) n = (![1, 2, 2, 3] : Fin 4 → ℤ) n :=
  C198_directions rR row_below rN (by decide +kernel) (noTies_of row_below (by decide +kernel)) runRow runRow1

example {t t' : Basin.State 4} {w w' : Fin 4 → ℕ}
    (h : Basin.watershed 9 ⟨![1, 2, 2, 3], none⟩ 2 (fun _ => 0) = .ok (t, w))
    (h' : Basin.watershed 9 ⟨![1, 1, 2, 3], none⟩ 2 (fun _ => 0) = .ok (t', w')) : w' 0 ≠ 1 := by
  rw [ne_eq, (C198_watershed rR row_below rN (by decide +kernel) (noTies_of row_below (by decide +kernel)) runRow runRow1
    rL rL1 (by decide) (by decide) h h').1 0]
  rintro ⟨k, hk, hno⟩
  rcases Nat.lt_or_ge 1 k with h2 | h2
  · exact hno 1 h2 (by decide)
  · interval_cases k <;> revert hk <;> decide

private theorem row_acyc (n : Fin 4) : ¬ OnCycle (![1, 2, 2, 3] : Fin 4 → Fin 4) n := by
  have : n = 3 ∨ Reaches (![1, 2, 2, 3] : Fin 4 → Fin 4) n 2 := by
    have : ∀ n : Fin 4, n = 3 ∨ (![1, 2, 2, 3] : Fin 4 → Fin 4)^[2] n = 2 := by decide
    exact (this n).imp id fun e => ⟨2, e⟩
  rcases this with rfl | hr
  · exact fun h => h.1 rfl
  · exact not_onCycle_of_reaches (n := 2) (fun h => h.1 rfl) hr

-- cell 2 had 3 cells and loses the 2 of cell 1
example {a a' : Fin 4 → ℚ} (h : Acc.flowAccumulation 5 ![1, 2, 2, 3] (fun _ => (1 : ℚ)) false = .ok a)
    (h' : Acc.flowAccumulation 5 ![1, 1, 2, 3] (fun _ => (1 : ℚ)) false = .ok a') : a' 2 = a 2 - a 1 :=
  ((C198_accumulation (K := ℚ) (area := fun _ => 1) rR row_below rN (by decide +kernel)
    (noTies_of row_below (by decide +kernel)) runRow runRow1 rL rL1 row_acyc h h').2 2 (by decide)).1 ⟨1, by decide⟩
example : (Acc.flowAccumulation 5 ![1, 2, 2, 3] (fun _ : Fin 4 => (1 : ℚ)) false).map List.ofFn = .ok [1, 2, 3, 1] ∧
    (Acc.flowAccumulation 5 ![1, 1, 2, 3] (fun _ : Fin 4 => (1 : ℚ)) false).map List.ofFn = .ok [1, 2, 1, 1] := by
  constructor <;> decide +kernel

-- with ties: the 4 × 4 grid of C23, where cell 10 falls equally steeply to 14 and 15; cell 9 is named
example {o' : Fin 16 → ℤ} (h' : flowDirections 200 geo44 demS Dirs.big (table nbr44) Dirs.thr
    ((((9 : Fin 16) : ℕ) : ℤ) :: []) = .ok o') : o' 9 = 9 ∧ ∀ n, n ≠ 9 → OneSteepest geo44 demS Dirs.thr nbr44 n → o' n = fdS n :=
  C198_draining drainS (cleanEnds_easy (big := Dirs.big) belowS [15, 9] (by decide +kernel) (by
    intro t ht
    simp only [List.mem_cons, List.not_mem_nil, or_false] at ht
    rcases ht with rfl | rfl
    · exact .inl ((terminalS.2 (by decide)).resolve_right (by simp))
    · exact .inr (by simp))) runS h'
example : flowDirections 200 geo44 demS Dirs.big (table nbr44) Dirs.thr [9] =
    .ok ![4, 5, 6, 7, 8, 10, 10, 11, 13, 9, 14, 15, 13, 14, 15, 15] := by decide +kernel

end Dany.Pipe
