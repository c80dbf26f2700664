import Verif.Pipe.Gsflow
import Verif.Pipe.Mf6
import Verif.Seg.Same

/-!
# C183: a higher threshold prunes the network

Streams delineated with two thresholds from the same accumulated areas.
-/

namespace Dany.Pipe

open Flow Seg Relation

variable {N : ℕ} {fdir sa sb : Fin N → ℤ} {d : Fin N → Fin N}

/-- `sb` is what is left of the streams `sa` when streams are cut back from their sources: every cell of `sb` is one
of `sa`, and where the water of a cell of `sb` flows on in `sa` it flows on in `sb` -/
def Pruned (d : Fin N → Fin N) (sa sb : Fin N → ℤ) : Prop :=
  ∀ n, sb n ≠ 0 → sa n ≠ 0 ∧ (sa (d n) ≠ 0 → sb (d n) ≠ 0)

/-- **C183** (streams).  The streams of a higher threshold (same areas, same boundary) are those of the lower one cut back
from their sources. -/
theorem C183_streams {K : Type*} [Field K] [LinearOrder K] [IsStrictOrderedRing K] {o : Reach.Obj N}
    (hd : Resolves o.fdir d) (hac : ∀ n, ¬ OnCycle d n) {area : Fin N → K} (hpos : ∀ u, 0 ≤ area u) {fuel : ℕ}
    {facc : Fin N → K} (hacc : Acc.flowAccumulation fuel o.fdir area false = .ok facc) {t t' : K} (ht : t ≤ t')
    {boundary : Option (List ℤ)} {o1 o2 : Reach.Obj N}
    (h : Delin.delineate (fun n => some (facc n)) o (.number t) boundary = .ok (o1, sa))
    (h' : Delin.delineate (fun n => some (facc n)) o (.number t') boundary = .ok (o2, sb)) : Pruned d sa sb := by
  obtain ⟨inside, hin, hin'⟩ : ∃ inside : Fin N → Prop, (∀ n, sa n ≠ 0 ↔ inside n ∧ t ≤ facc n) ∧
      ∀ n, sb n ≠ 0 ↔ inside n ∧ t' ≤ facc n := by
    unfold Delin.delineate at h h'
    simp only [Delin.thresholds, Res.bind_ok, Delin.geq, decide_eq_true_eq] at h h'
    cases boundary with
    | none =>
      simp only [Delin.cut, Res.map_ok, Res.ok.injEq, Prod.mk.injEq] at h h'
      refine ⟨fun _ => True, fun n => ?_, fun n => ?_⟩
      · rw [← h.2]; simp
      · rw [← h'.2]; simp
    | some l =>
      simp only [Delin.cut] at h h'
      cases hl : Delin.toFun N l with
      | none => rw [hl] at h; cases h
      | some bd =>
        rw [hl] at h h'
        simp only [Res.map_ok, Res.ok.injEq, Prod.mk.injEq] at h h'
        refine ⟨fun n => bd n ≠ 0, fun n => ?_, fun n => ?_⟩
        · rw [← h.2]; by_cases h0 : bd n = 0 <;> simp [h0]
        · rw [← h'.2]; by_cases h0 : bd n = 0 <;> simp [h0]
  intro n hn
  obtain ⟨h1, h2⟩ := (hin' n).1 hn
  refine ⟨(hin n).2 ⟨h1, ht.trans h2⟩, fun hdn => (hin' _).2 ⟨((hin _).1 hdn).1, ?_⟩⟩
  by_cases hself : d n = n
  · rw [hself]; exact h2
  · have := Acc.C34_grows_downstream hd hpos hacc n (hac n) hself
    have := hpos (d n)
    linarith

/-- **C183** (MODFLOW 6).  Two reaches of the pruned network are linked exactly if the reaches of the same two cells are linked
in the full network; a reach leads out of the pruned network exactly if it leads out of the full one. -/
theorem C183_mf6 (hd : Resolves fdir d) (hp : Pruned d sa sb) {limit limit' : ℕ} {sa6 sb6 : Fin N → ℤ}
    {g g' : Dict ℤ ℤ} (h : Reach.mf6 limit fdir sa = .ok (sa6, g)) (h' : Reach.mf6 limit' fdir sb = .ok (sb6, g'))
    {n : Fin N} (hn : sb n ≠ 0) :
    (∀ m, sb m ≠ 0 → (g'.get? (sb6 n) = some (sb6 m) ↔ g.get? (sa6 n) = some (sa6 m))) ∧
      (g'.get? (sb6 n) = some 0 ↔ g.get? (sa6 n) = some 0) := by
  have facts : ∀ {limit : ℕ} {st st6 : Fin N → ℤ} {g : Dict ℤ ℤ}, Reach.mf6 limit fdir st = .ok (st6, g) →
      (∀ n, st n = 0 → st6 n = 0) ∧ (∀ n, st n ≠ 0 → 1 ≤ st6 n) ∧
      (∀ m n, st m ≠ 0 → st n ≠ 0 → st6 m = st6 n → m = n) ∧
      (∀ n, st n ≠ 0 → g.get? (st6 n) = some (st6 (d n))) := by
    intro limit st st6 g h
    rcases Reach.C49_numbering (fdir := fdir) (sa := st) hd limit with e | ⟨s', g', e, a1, a2, a3, _, _, a6⟩
    · rw [e] at h; cases h
    · rw [e] at h
      cases h
      exact ⟨a1, fun n hn => (a2 n hn).1, a3, a6⟩
  obtain ⟨a1, a2, a3, a4⟩ := facts h
  obtain ⟨b1, b2, b3, b4⟩ := facts h'
  have hna := (hp n hn).1
  have hiff : sb (d n) ≠ 0 ↔ sa (d n) ≠ 0 := ⟨fun h => (hp _ h).1, (hp n hn).2⟩
  rw [a4 n hna, b4 n hn]
  simp only [Option.some.injEq]
  refine ⟨fun m hm => ?_, ?_⟩
  · have hma := (hp m hm).1
    constructor
    · intro e
      have : sb (d n) ≠ 0 := by
        intro h0
        have := b2 m hm
        rw [← e, b1 _ h0] at this
        omega
      rw [b3 _ _ this hm e]
    · intro e
      have : sa (d n) ≠ 0 := by
        intro h0
        have := a2 m hma
        rw [← e, a1 _ h0] at this
        omega
      rw [a3 _ _ this hma e]
  · constructor
    · intro e
      apply a1
      by_contra h0
      have := b2 _ (hiff.2 h0)
      omega
    · intro e
      apply b1
      by_contra h0
      have := a2 _ (hiff.1 h0)
      omega

private theorem feeds_of {st : Fin N → ℤ} (hd : Legal fdir d) {n m : Fin N} (h : Feeds fdir st n m) : d n = m :=
  Fin.ext (by have h1 := h.2.2; rw [hd n] at h1; exact_mod_cast h1)

private theorem feeds_up (hd : Legal fdir d) (hp : Pruned d sa sb) {n m : Fin N} (hn : sb n ≠ 0)
    (h : Feeds fdir sa n m) : Feeds fdir sb n m := by
  have e := feeds_of hd h
  exact ⟨hn, e ▸ (hp n hn).2 (e ▸ h.2.1), h.2.2⟩

private theorem feeds_down (hp : Pruned d sa sb) {n m : Fin N} (h : Feeds fdir sb n m) : Feeds fdir sa n m :=
  ⟨(hp n h.1).1, (hp m h.2.1).1, h.2.2⟩

private theorem confluence_down (hp : Pruned d sa sb) {n : Fin N} (h : Confluence fdir sb n) : Confluence fdir sa n := by
  obtain ⟨x, y, hxy, hx, hy⟩ := h
  exact ⟨x, y, hxy, feeds_down hp hx, feeds_down hp hy⟩

/-- **C183** (confluences).  Where a segment of the pruned network starts at a confluence, one of the full network starts. -/
theorem C183_confluences (hp : Pruned d sa sb) {limit limit' fuel : ℕ} {b b' : Bool} (hf : N ≤ fuel) {out out' : Out N}
    (h : mf2005 limit fuel b fdir sa true = .ok out) (h' : mf2005 limit' fuel b' fdir sb true = .ok out') {n : Fin N} {s : ℤ}
    (hs : (n, s, 1) ∈ out'.nsr) (hn : ∃ m, Feeds fdir sb m n) : ∃ t, (n, t, 1) ∈ out.nsr := by
  obtain ⟨m, hm⟩ := hn
  rcases (C57_starts hf h' n).1 ⟨s, hs⟩ with hh | hc
  · exact absurd hm (hh.2 m)
  · exact (C57_starts hf h n).2 (.inr (confluence_down hp hc))

/-- **C183** (number of segments).  The pruned network does not have more segments. -/
theorem C183_count (hd : Legal fdir d) (hac : ∀ n, ¬ OnCycle d n) (hp : Pruned d sa sb) {limit limit' fuel : ℕ}
    {b b' : Bool} (hf : N ≤ fuel) {out out' : Out N} (h : mf2005 limit fuel b fdir sa true = .ok out)
    (h' : mf2005 limit' fuel b' fdir sb true = .ok out') : out'.sg.length ≤ out.sg.length := by
  classical
  rw [(C58_numbers hf h).2.1, (C58_numbers hf h').2.1]
  have habove : ∀ n, Headwater fdir sb n → ∃ w, Headwater fdir sa w ∧ ReflTransGen (Feeds fdir sa) w n := by
    intro n hn
    refine headwater_above hd hac (hp n hn.1).1 fun e => ?_
    exact hn.2 n ⟨hn.1, hn.1, by rw [hd n, e]⟩
  choose w hw hwr using habove
  have hstay : ∀ x y, ReflTransGen (Feeds fdir sa) x y → sb x ≠ 0 → sb y ≠ 0 := by
    intro x y hxy hx
    induction hxy with
    | refl => exact hx
    | tail _ hbc ih => exact (feeds_up hd hp ih hbc).2.1
  have hwne : ∀ n hn m hm, w n hn = w m hm → n = m := by
    have key : ∀ n m, Headwater fdir sb n → Headwater fdir sb m → ReflTransGen (Feeds fdir sa) n m → n = m := by
      intro n m hn hm hnm
      rcases ReflTransGen.cases_tail hnm with e | ⟨x, hx, hxm⟩
      · exact e.symm
      · exact absurd (feeds_up hd hp (hstay n x hx hn.1) hxm) (hm.2 x)
    intro n hn m hm e
    have huniq : Relator.RightUnique (Feeds fdir sa) := by
      intro x y z hxy hxz
      rw [← feeds_of hd hxy, ← feeds_of hd hxz]
    have h1 := hwr n hn
    rw [e] at h1
    rcases ReflTransGen.total_of_right_unique huniq h1 (hwr m hm) with h2 | h2
    · exact key n m hn hm h2
    · exact (key m n hm hn h2).symm
  unfold nSeg
  apply Finset.card_le_card_of_injOn (fun n => if hn : Headwater fdir sb n then w n hn else n)
  · intro n hn
    simp only [Finset.coe_filter, Finset.mem_univ, true_and, Set.mem_setOf_eq] at hn ⊢
    by_cases hh : Headwater fdir sb n
    · rw [dif_pos hh]; exact .inl (hw n hh)
    · rw [dif_neg hh]
      exact .inr (confluence_down hp (hn.resolve_left hh))
  · intro n hn m hm e
    simp only [Finset.coe_filter, Finset.mem_univ, true_and, Set.mem_setOf_eq] at hn hm
    have mixed : ∀ x (hx : Headwater fdir sb x) y, Confluence fdir sb y → w x hx ≠ y := by
      rintro x hx y hy rfl
      obtain ⟨a, _, _, ha, _⟩ := confluence_down hp hy
      exact (hw x hx).2 a ha
    by_cases h1 : Headwater fdir sb n <;> by_cases h2 : Headwater fdir sb m
    · simp only [dif_pos h1, dif_pos h2] at e
      exact hwne n h1 m h2 e
    · simp only [dif_pos h1, dif_neg h2] at e
      exact absurd e (mixed n h1 m (hm.resolve_left h2))
    · simp only [dif_neg h1, dif_pos h2] at e
      exact absurd e.symm (mixed m h2 n (hn.resolve_left h1))
    · simpa only [dif_neg h1, dif_neg h2] using e

/-- **C183** (segments only merge).  Two stream cells of the pruned network that lie in one segment of the full network lie in
one segment of the pruned network, as many reaches apart. -/
theorem C183_merge (hd : Legal fdir d) (hac : ∀ n, ¬ OnCycle d n) (hp : Pruned d sa sb) {limit limit' fuel : ℕ}
    {b b' : Bool} (hf : N ≤ fuel) {out out' : Out N} (h : mf2005 limit fuel b fdir sa true = .ok out)
    (h' : mf2005 limit' fuel b' fdir sb true = .ok out') {n m : Fin N} {s r q : ℤ} (hn : (n, s, r) ∈ out.nsr)
    (hm : (m, s, q) ∈ out.nsr) (hrq : r < q) (hnb : sb n ≠ 0) :
    ∃ t k, (n, t, k) ∈ out'.nsr ∧ (m, t, k + (q - r)) ∈ out'.nsr := by
  obtain ⟨hnd, _, hrow, _, huniq, hprev⟩ := C56_rows hf h
  have hone : ∀ n s r t q, (n, s, r) ∈ out.nsr → (n, t, q) ∈ out.nsr → s = t ∧ r = q := by
    intro n s r t q h1 h2
    have := List.inj_on_of_nodup_map hnd h1 h2 rfl
    simpa using this
  -- one step down the segment
  have hstep : ∀ x y i, (x, s, i) ∈ out.nsr → (y, s, i + 1) ∈ out.nsr → Feeds fdir sa x y := by
    intro x y i hx hy
    obtain ⟨z, hz, hzy⟩ := hprev y s (i + 1) hy (by have := (hrow x s i hx).2.2; omega)
    rw [add_sub_cancel_right] at hz
    rw [huniq x z s i hx hz]
    exact hzy
  have hdown : ∀ x y i t k, (x, s, i) ∈ out.nsr → (y, s, i + 1) ∈ out.nsr → (x, t, k) ∈ out'.nsr →
      (y, t, k + 1) ∈ out'.nsr := by
    intro x y i t k hx hy hxt
    have hxy := hstep x y i hx hy
    have hxb : sb x ≠ 0 := ((C56_rows hf h').2.2.1 x t k hxt).1
    have hxy' := feeds_up hd hp hxb hxy
    have hnot : ¬ ∃ s', (y, s', 1) ∈ out'.nsr := by
      rintro ⟨s', hs'⟩
      obtain ⟨s2, hs2⟩ := C183_confluences hp hf h h' hs' ⟨x, hxy'⟩
      have := (hone _ _ _ _ _ hs2 hy).2
      have := (hrow x s i hx).2.2
      omega
    rcases C57_outseg hf h' hxt with ⟨z, hz, hxz⟩ | ⟨_, t', _, hcase⟩
    · rw [← feeds_of hd hxy', feeds_of hd hxz]; exact hz
    · rcases hcase with ⟨_, hno⟩ | ⟨_, z, hxz, hz⟩
      · exact absurd hxy' (hno y)
      · have : y = z := by rw [← feeds_of hd hxy', feeds_of hd hxz]
        exact absurd ⟨t', this ▸ hz⟩ hnot
  -- all cells between are listed in the segment
  have hall : ∀ (k : ℕ) (j : ℤ), j + k = q → 1 ≤ j → ∃ x, (x, s, j) ∈ out.nsr := by
    intro k
    induction k with
    | zero => intro j hj _; exact ⟨m, by rw [show j = q by simpa using hj]; exact hm⟩
    | succ k ih =>
      intro j hj h1
      obtain ⟨x, hx⟩ := ih (j + 1) (by push_cast at hj; omega) (by omega)
      obtain ⟨z, hz, _⟩ := hprev x s (j + 1) hx (by omega)
      exact ⟨z, by rwa [add_sub_cancel_right] at hz⟩
  have hr1 := (hrow n s r hn).2.2
  -- the first cell is in the table of the pruned network
  obtain ⟨x, hx⟩ := hall (q - (r + 1)).toNat (r + 1) (by omega) (by omega)
  have hnx := hstep n x r hn hx
  have hne : d n ≠ n := by
    rw [feeds_of hd hnx]
    rintro rfl
    have := (hone _ _ _ _ _ hn hx).2
    omega
  obtain ⟨a, ha, har⟩ := headwater_above (sa := sb) hd hac hnb hne
  obtain ⟨t, k, hk⟩ := ((C56_rows hf h').2.1 n).2 ⟨a, .inl ha, har⟩
  refine ⟨t, k, hk, ?_⟩
  have hgo : ∀ (i : ℕ) y, (y, s, r + i) ∈ out.nsr → (y, t, k + i) ∈ out'.nsr := by
    intro i
    induction i with
    | zero =>
      intro y hy
      rw [Nat.cast_zero, add_zero] at hy ⊢
      rw [huniq y n s r hy hn]
      exact hk
    | succ i ih =>
      intro y hy
      rw [Nat.cast_succ, ← add_assoc] at hy ⊢
      obtain ⟨z, hz, _⟩ := hprev y s (r + i + 1) hy (by omega)
      rw [add_sub_cancel_right] at hz
      exact hdown z y (r + i) t (k + i) hz hy (ih z hz)
  have := hgo (q - r).toNat m (by rw [Int.toNat_of_nonneg (by omega)]; simpa using hm)
  rwa [Int.toNat_of_nonneg (by omega)] at this

/-! ### a concrete case: 0 → 2 ← 1, 2 → 3 → 4 ← 5, thresholds 1 and 2 -/

private def prF : Fin 6 → ℤ := ![2, 2, 3, 4, 4, 4]
private def prD : Fin 6 → Fin 6 := ![2, 2, 3, 4, 4, 4]

private theorem pr_legal : Legal prF prD := by intro n; fin_cases n <;> rfl

private theorem pr_free (n : Fin 6) : ¬ OnCycle prD n := by
  apply no_cycle_of_fall (f := fun n => (((![4, 4, 3, 2, 1, 2] : Fin 6 → ℕ) n : ℕ) : ℝ))
  have h : ∀ n, prD n ≠ n →
      (![4, 4, 3, 2, 1, 2] : Fin 6 → ℕ) (prD n) < (![4, 4, 3, 2, 1, 2] : Fin 6 → ℕ) n := by decide
  intro n hn
  exact_mod_cast h n hn

example : Pruned prD ![1, 1, 1, 1, 1, 1] ![0, 0, 1, 1, 1, 0] := by unfold Pruned; decide
example : (mf2005 10 10 false prF ![1, 1, 1, 1, 1, 1] true).map (fun o => (o.sg, o.nsr)) =
    .ok ([(3, 4), (2, 4), (1, 5), (4, 5), (5, 5)], [(0, 3, 1), (1, 2, 1), (5, 1, 1), (2, 4, 1), (3, 4, 2), (4, 5, 1)]) := by
  decide +kernel
example : (mf2005 10 10 false prF ![0, 0, 1, 1, 1, 0] true).map (fun o => (o.sg, o.nsr)) =
    .ok ([(1, 2), (2, 2)], [(2, 1, 1), (3, 1, 2), (4, 2, 1)]) := by decide +kernel
example (n : Fin 6) : Legal prF prD ∧ ¬ OnCycle prD n := ⟨pr_legal, pr_free n⟩

end Dany.Pipe
