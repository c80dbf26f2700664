import Verif.Basin.Props
import Verif.Acc.Props
import Mathlib.Algebra.BigOperators.Group.Finset.Sigma

/-!
# C126, C127, C129: watersheds, subbasins and flow accumulation agree
-/

namespace Dany.Basin

open Function Flow

variable {N : ℕ} {d : Fin N → Fin N} {K : Type*}

/-- what a returned watershed is (C36), for any returning call -/
theorem watershed_spec {s s' : State N} (hd : Resolves s.fdir d) (hc : Fresh s) {cell : Fin N} {fuel : ℕ}
    (hf : 2 * N < fuel) {w : Fin N → ℕ} (hw : watershed fuel s cell (fun _ => 0) = .ok (s', w)) (u : Fin N) :
    (w u = 1 ↔ Reaches d u cell) ∧ (w u = 0 ↔ ¬ Reaches d u cell) := by
  obtain ⟨s1, w1, e, _, _, h⟩ := C36_repeated hd hc cell hf
  rw [e] at hw; cases hw
  have := h u
  by_cases hr : Reaches d u cell
  · simp [this.1 hr, hr]
  · simp [this.2 hr, hr]

/-- **C126.**  The flow accumulation at a cell is the total area of the watershed that
`get_watershed_boundary` marks for it; with `as_cells` it is the number of marked cells. -/
theorem C126_accumulation [Ring K] {s s' : State N} (hd : Resolves s.fdir d) (hc : Fresh s)
    {cell : Fin N} (hcyc : ¬ OnCycle d cell) {fuel fuel' : ℕ} (hf : 2 * N < fuel) {w : Fin N → ℕ}
    (hw : watershed fuel s cell (fun _ => 0) = .ok (s', w)) {area facc : Fin N → K} {asCells : Bool}
    (ha : Acc.flowAccumulation fuel' s.fdir area asCells = .ok facc) :
    (asCells = false → facc cell = ∑ u ∈ Finset.univ.filter (fun u => w u = 1), area u) ∧
    (asCells = true → facc cell = ((Finset.univ.filter (fun u => w u = 1)).card : K)) := by
  have e : Finset.univ.filter (fun u => w u = 1) = upstream d cell := by
    ext u
    rw [Finset.mem_filter, mem_upstream, (watershed_spec hd hc hf hw u).1]
    simp
  rw [e]
  exact Acc.C32_upstream_sum hd ha cell hcyc

/-- **C127.**  Two watersheds of the same flow directions: if the second contains the first one's pour point it
contains the whole of the first; if neither contains the other's pour point they have no cell in common. -/
theorem C127_nested {s s1 s2 t : State N} (hd : Resolves s.fdir d) (hc : Fresh s) (hct : Fresh t)
    (hst : t.fdir = s.fdir) {a b : Fin N} {fuel : ℕ} (hf : 2 * N < fuel) {wa wb : Fin N → ℕ}
    (ha : watershed fuel s a (fun _ => 0) = .ok (s1, wa))
    (hb : watershed fuel t b (fun _ => 0) = .ok (s2, wb)) :
    (wb a = 1 → ∀ u, wa u = 1 → wb u = 1) ∧
    (wb a = 0 → wa b = 0 → ∀ u, ¬ (wa u = 1 ∧ wb u = 1)) := by
  have Sa := watershed_spec hd hc hf ha
  have Sb := watershed_spec (s := t) (by rw [hst]; exact hd) hct hf hb
  refine ⟨fun h u hu => ?_, fun h1 h2 u hu => ?_⟩
  · rw [(Sb _).1] at h ⊢
    exact ((Sa u).1.1 hu).trans h
  · rcases ((Sa u).1.1 hu.1).total ((Sb u).1.1 hu.2) with h | h
    · exact (Sb a).2.1 h1 h
    · exact (Sa b).2.1 h2 h

/-- **C129.**  A cell gets a subbasin number exactly if it lies in the watershed of one of the points. -/
theorem C129_union {s s' : State N} (hd : Legal s.fdir d) (hs : Fresh s) {cells : List (Fin N)}
    (h0 : ∀ c ∈ cells, c.val ≠ 0) (hcyc : ∀ c ∈ cells, ¬ OnCycle d c) {limit fuel : ℕ}
    (hf : 2 * N + 1 < fuel) {out : Fin N → ℕ} (hr : subbasins limit fuel s cells = .ok (s', out)) (u : Fin N) :
    out u ≠ 0 ↔ ∃ p ∈ cells, ∃ s1 w, watershed fuel s p (fun _ => 0) = .ok (s1, w) ∧ w u = 1 := by
  obtain ⟨lab, h1, _, _, h4, h5⟩ := C38_returned hd hs h0 hcyc hf hr
  constructor
  · intro hu
    by_contra hcon
    refine hu (h5 u fun p hp hreach => hcon ⟨p, hp, ?_⟩)
    obtain ⟨s1, w, e, _, _, h⟩ := C36_repeated hd.resolves hs p (fuel := fuel) (by omega)
    exact ⟨s1, w, e, (h u).1 hreach⟩
  · rintro ⟨p, hp, s1, w, e, hw⟩
    have hreach := (watershed_spec hd.resolves hs (by omega) e u).1.1 hw
    obtain ⟨q, hq⟩ := exists_first (S := (· ∈ cells)) hp hreach
    rw [h4 u q hq]
    have := (h1 q hq.choose_spec.2.1).1
    omega

theorem mem_above {cells : List (Fin N)} {p q : Fin N} :
    q ∈ above d cells p ↔ q ∈ cells ∧ q ≠ p ∧ FirstOn d (· ∈ cells) (d q) p := by
  simp [above]

theorem first_reaches {S : Fin N → Prop} {u p : Fin N} (h : FirstOn d S u p) : Reaches d u p :=
  ⟨_, h.choose_spec.1⟩

/-- after the first member of `S`, all others are downstream of it -/
theorem first_before {S : Fin N → Prop} {u p q : Fin N} (h : FirstOn d S u p) (hq : S q) (hr : Reaches d u q) :
    Reaches d p q := by
  obtain ⟨k, rfl, _, hk⟩ := h
  obtain ⟨j, rfl⟩ := hr
  have hle : k ≤ j := by
    by_contra hlt
    exact hk j (by omega) hq
  refine ⟨j - k, ?_⟩
  rw [← iterate_add_apply, Nat.sub_add_cancel hle]

theorem first_or_above {cells : List (Fin N)} {p : Fin N} (hp : p ∈ cells) : ∀ (k : ℕ) (u : Fin N), d^[k] u = p →
    FirstOn d (· ∈ cells) u p ∨ ∃ q ∈ above d cells p, Reaches d u q := by
  intro k
  induction k with
  | zero => rintro u rfl; exact .inl ⟨0, rfl, hp, by simp⟩
  | succ k ih =>
    intro u hu
    rw [iterate_succ_apply] at hu
    by_cases hup : u = p
    · subst hup; exact .inl ⟨0, rfl, hp, by simp⟩
    rcases ih _ hu with hF | ⟨q, hq, hr⟩
    · by_cases huc : u ∈ cells
      · exact .inr ⟨u, mem_above.2 ⟨huc, hup, hF⟩, Reaches.refl u⟩
      · obtain ⟨j, e, _, hj⟩ := hF
        refine .inl ⟨j + 1, by rw [iterate_succ_apply]; exact e, hp, fun i hi => ?_⟩
        cases i with
        | zero => exact huc
        | succ i => rw [iterate_succ_apply]; exact hj i (by omega)
    · exact .inr ⟨q, hq, hr.head⟩

/-- **C129.**  The area of a subbasin and the flow accumulations at the pour points directly upstream of its
pour point add up to the flow accumulation at that point: nothing is counted twice and nothing is lost. -/
theorem C129_area [Ring K] {s s' : State N} (hd : Legal s.fdir d) (hs : Fresh s) {cells : List (Fin N)}
    (h0 : ∀ c ∈ cells, c.val ≠ 0) (hcyc : ∀ c ∈ cells, ¬ OnCycle d c) {limit fuel fuel' : ℕ}
    (hf : 2 * N + 1 < fuel) {out : Fin N → ℕ} (hr : subbasins limit fuel s cells = .ok (s', out))
    {area facc : Fin N → K} (ha : Acc.flowAccumulation fuel' s.fdir area false = .ok facc)
    {p : Fin N} (hp : p ∈ cells) :
    ∑ u ∈ Finset.univ.filter (fun u => out u = out p), area u + ∑ q ∈ above d cells p, facc q = facc p := by
  classical
  obtain ⟨lab, h1, h2, _, h4, h5⟩ := C38_returned hd hs h0 hcyc hf hr
  have hpp : out p = lab p := h4 p p ⟨0, rfl, hp, by simp⟩
  have hA : ∀ u, out u = out p ↔ FirstOn d (· ∈ cells) u p := by
    intro u
    refine ⟨fun h => ?_, fun h => by rw [h4 u p h, hpp]⟩
    by_cases hex : ∃ q ∈ cells, Reaches d u q
    · obtain ⟨q0, hq0, hr0⟩ := hex
      obtain ⟨q, hq⟩ := exists_first (S := (· ∈ cells)) hq0 hr0
      rw [h4 u q hq, hpp] at h
      rw [← h2 q hq.choose_spec.2.1 p hp h]
      exact hq
    · push Not at hex
      rw [h5 u hex, hpp] at h
      have := (h1 p hp).1
      omega
  have hsum : ∀ q ∈ cells, facc q = ∑ u ∈ upstream d q, area u := fun q hq =>
    (Acc.C32_upstream_sum hd.resolves ha q (hcyc q hq)).1 rfl
  have hback : ∀ {q}, q ∈ above d cells p → Reaches d q p := fun hq =>
    (first_reaches (mem_above.1 hq).2.2).head
  have hdisj : ∀ q ∈ above d cells p, ∀ q' ∈ above d cells p, Reaches d q q' → q = q' := by
    intro q hq q' hq' hqq
    by_contra hne
    have hr' : Reaches d (d q) q' := hqq.cases_head.resolve_left hne
    have := first_before (mem_above.1 hq).2.2 (mem_above.1 hq').1 hr'
    exact (mem_above.1 hq').2.1 ((hback hq').antisymm (hcyc p hp) this)
  have hU : upstream d p = Finset.univ.filter (fun u => out u = out p) ∪
      (above d cells p).biUnion (upstream d) := by
    ext u
    rw [Finset.mem_union, Finset.mem_filter, Finset.mem_biUnion, mem_upstream, hA]
    constructor
    · rintro ⟨k, hk⟩
      rcases first_or_above hp k u hk with h | ⟨q, hq, h⟩
      · exact .inl ⟨Finset.mem_univ _, h⟩
      · exact .inr ⟨q, hq, mem_upstream.2 h⟩
    · rintro (⟨_, h⟩ | ⟨q, hq, h⟩)
      · exact first_reaches h
      · exact (mem_upstream.1 h).trans (hback hq)
  rw [hsum p hp, hU, Finset.sum_union, Finset.sum_biUnion]
  · congr 1
    exact Finset.sum_congr rfl fun q hq => hsum q (mem_above.1 hq).1
  · intro q hq q' hq' hne
    rw [Function.onFun, Finset.disjoint_left]
    intro u hu hu'
    rcases (mem_upstream.1 hu).total (mem_upstream.1 hu') with h | h
    · exact hne (hdisj q hq q' hq' h)
    · exact hne (hdisj q' hq' q hq h).symm
  · rw [Finset.disjoint_left]
    intro u hu hu'
    have hF := (hA u).1 (Finset.mem_filter.1 hu).2
    obtain ⟨q, hq, h⟩ := Finset.mem_biUnion.1 hu'
    have := first_before hF (mem_above.1 hq).1 (mem_upstream.1 h)
    exact (mem_above.1 hq).2.1 ((hback hq).antisymm (hcyc p hp) this)

/-! ### A concrete network: 0 → 1 → 2 → 2, 3 → 1, 4 → 2, pour points in the cells 1 and 2 -/

def exF : Fin 5 → Fin 5 := ![1, 2, 2, 1, 2]
def exT : State 5 := { fdir := ![1, 2, 2, 1, 2], fdirR := none }
theorem exT_legal : Legal exT.fdir exF := by unfold Legal; decide +kernel
theorem exT_fresh : Fresh exT := by intro r hr; cases hr
theorem exT_acyclic : ∀ c, ¬ OnCycle exF c := by
  have h : ∀ c : Fin 5, exF c ≠ c → ∀ k, exF^[k + 1] c ≠ c := by
    have h2 : ∀ c : Fin 5, c ≠ 2 → exF c ≠ c ∧ (exF c = 2 ∨ exF c = 1) := by decide +kernel
    intro c hc k
    have hk : ∀ k, exF^[k] 2 = 2 := fun k => iterate_fixed (by decide +kernel) k
    have h1 : ∀ k, exF^[k + 1] 1 = 2 := fun k => by rw [iterate_succ_apply]; exact hk k
    have c2 : c ≠ 2 := by rintro rfl; exact hc (by decide +kernel)
    rw [iterate_succ_apply]
    rcases (h2 c c2).2 with e | e
    · rw [e, hk]; exact c2.symm
    · rw [e]
      cases k with
      | zero => intro h; exact hc (by rw [e]; exact h)
      | succ k => rw [h1]; exact c2.symm
  rintro c ⟨h1, k, hk⟩
  exact h c h1 k hk

example : (subbasins 5 20 exT [2, 1]).map Prod.snd = .ok ![1, 1, 2, 1, 2] := by decide +kernel
example : Acc.flowAccumulation 6 exT.fdir ![(1 : ℚ), 2, 3, 4, 5] false = .ok ![1, 7, 15, 4, 5] := by
  decide +kernel
example {s' : State 5} {out : Fin 5 → ℕ} (h : subbasins 5 20 exT [2, 1] = .ok (s', out)) :
    ∑ u ∈ Finset.univ.filter (fun u => out u = out 2), (![1, 2, 3, 4, 5] : Fin 5 → ℚ) u
      + ∑ q ∈ above exF [2, 1] 2, (![1, 7, 15, 4, 5] : Fin 5 → ℚ) q = 15 :=
  C129_area exT_legal exT_fresh (by decide) (fun c _ => exT_acyclic c) (by norm_num) h
    (fuel' := 6) (by decide +kernel) (by decide)
example {s' : State 5} {w : Fin 5 → ℕ} (h : watershed 11 exT 1 (fun _ => 0) = .ok (s', w)) :
    (7 : ℚ) = ∑ u ∈ Finset.univ.filter (fun u => w u = 1), (![1, 2, 3, 4, 5] : Fin 5 → ℚ) u :=
  (C126_accumulation exT_legal.resolves exT_fresh (exT_acyclic 1) (by norm_num) h
    (fuel' := 6) (facc := ![(1 : ℚ), 7, 15, 4, 5]) (asCells := false) (by decide +kernel)).1 rfl
example : (watershed 11 exT 1 (fun _ => 0)).map Prod.snd = .ok ![1, 1, 0, 1, 0] := by decide +kernel
example {s1 s2 : State 5} {wa wb : Fin 5 → ℕ} (ha : watershed 11 exT 1 (fun _ => 0) = .ok (s1, wa))
    (hb : watershed 11 exT 2 (fun _ => 0) = .ok (s2, wb)) : wb 1 = 1 → ∀ u, wa u = 1 → wb u = 1 :=
  (C127_nested exT_legal.resolves exT_fresh exT_fresh rfl (by norm_num) ha hb).1

end Dany.Basin
