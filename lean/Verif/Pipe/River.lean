import Verif.Basin.Props
import Verif.Delin.Props
import Verif.Acc.Props
import Verif.Reach.Props
import Verif.Seg.Props
import Mathlib.Tactic.FinCases

/-!
# C182: streams delineated inside one watershed are one river

`get_watershed_boundary` for an outlet, `delineate_streams(basin_boundary=...)` with it, and the two kinds of stream
connectivity.
-/

namespace Dany.Pipe

open Flow Seg Relation

variable {N : ℕ} {fdir sa : Fin N → ℤ} {d : Fin N → Fin N} {p : Fin N}

/-- one river that ends in `p`: every stream cell drains through `p`, along stream cells -/
def River (d : Fin N → Fin N) (sa : Fin N → ℤ) (p : Fin N) : Prop :=
  ∀ n, sa n ≠ 0 → Reaches d n p ∧ (n ≠ p → sa (d n) ≠ 0)

/-- **C182** (streams).  With the watershed of cell `p` as `basin_boundary`, the stream cells are the cells that drain
through `p` and whose accumulated area reaches the threshold; if there are any, `p` is one of them; and the flow path of a
stream cell runs along stream cells until it comes to `p`. -/
theorem C182_streams {K : Type*} [Field K] [LinearOrder K] [IsStrictOrderedRing K] {o : Reach.Obj N}
    (hd : Resolves o.fdir d) (hp : ¬ OnCycle d p) {area : Fin N → K} (hpos : ∀ u, 0 ≤ area u) {fuel fuel' : ℕ}
    {facc : Fin N → K} (hacc : Acc.flowAccumulation fuel o.fdir area false = .ok facc) {s' : Basin.State N}
    {ws : Fin N → ℕ} (hfuel : 2 * N < fuel')
    (hw : Basin.watershed fuel' ⟨o.fdir, none⟩ p (fun _ => 0) = .ok (s', ws)) {t : K} {o' : Reach.Obj N}
    (hs : Delin.delineate (fun n => some (facc n)) o (.number t) (some (List.ofFn fun n => (ws n : ℤ))) = .ok (o', sa)) :
    (∀ n, (sa n = 1 ∨ sa n = 0) ∧ (sa n = 1 ↔ Reaches d n p ∧ t ≤ facc n)) ∧
      (∀ n m, sa n = 1 → Reaches d n m → Reaches d m p → sa m = 1) ∧ ((∃ n, sa n = 1) → sa p = 1) ∧ River d sa p := by
  obtain ⟨s1, out, e, hout⟩ := Basin.C36_watershed (s := ⟨o.fdir, none⟩) hd rfl p hfuel
  rw [hw] at e
  cases e
  have hval : ∀ n, (sa n = 1 ∨ sa n = 0) ∧ (sa n = 1 ↔ Reaches d n p ∧ t ≤ facc n) := by
    intro n
    unfold Delin.delineate at hs
    simp only [Delin.thresholds, Res.bind_ok, Delin.cut, Delin.toFun_some (List.length_ofFn (f := fun n => (ws n : ℤ))), Res.map_ok,
      Res.ok.injEq, Prod.mk.injEq] at hs
    rw [← hs.2]
    simp only [Delin.geq, decide_eq_true_eq, List.getElem_ofFn]
    by_cases hr : Reaches d n p
    · have := (hout n).1 hr
      by_cases h : t ≤ facc n <;> simp [this, h, hr]
    · have := (hout n).2 hr
      simp [this, hr]
  have hgrow : ∀ n m, sa n = 1 → Reaches d n m → Reaches d m p → sa m = 1 := by
    intro n m hn hnm hmp
    refine ((hval m).2).2 ⟨hmp, ?_⟩
    obtain ⟨k, rfl⟩ := hnm
    have h1 : t ≤ facc n := ((hval n).2.1 hn).2
    clear hn
    induction k generalizing n with
    | zero => exact h1
    | succ k ih =>
      rw [Function.iterate_succ_apply] at hmp ⊢
      refine ih (d n) hmp ?_
      by_cases hself : d n = n
      · rw [hself]; exact h1
      · have hnc : ¬ OnCycle d n :=
          not_onCycle_of_reaches hp ((Reaches.step n).trans (Reaches.trans ⟨k, rfl⟩ hmp))
        have := Acc.C34_grows_downstream hd hpos hacc n hnc hself
        have := hpos (d n)
        linarith
  have hone : ∀ n, sa n ≠ 0 → sa n = 1 := fun n hn => (hval n).1.resolve_right hn
  refine ⟨hval, hgrow, fun ⟨n, hn⟩ => hgrow n p hn ((hval n).2.1 hn).1 (Reaches.refl p), fun n hn => ?_⟩
  have hr := ((hval n).2.1 (hone n hn)).1
  refine ⟨hr, fun hne => ?_⟩
  have : Reaches d (d n) p := by
    obtain ⟨k, hk⟩ := hr
    cases k with
    | zero => exact absurd hk hne
    | succ k => exact ⟨k, by rw [Function.iterate_succ_apply] at hk; exact hk⟩
  rw [hgrow n (d n) (hone n hn) (Reaches.step n) this]
  exact one_ne_zero

theorem River.self (h : River d sa p) {n : Fin N} (hn : sa n ≠ 0) (hself : d n = n) : n = p := by
  obtain ⟨k, hk⟩ := (h n hn).1
  rw [Function.iterate_fixed hself] at hk
  exact hk

theorem River.mouth (h : River d sa p) (hex : ∃ n, sa n ≠ 0) : sa p ≠ 0 := by
  obtain ⟨n, hn⟩ := hex
  obtain ⟨k, hk⟩ := (h n hn).1
  induction k generalizing n with
  | zero => rw [← hk]; exact hn
  | succ k ih =>
    by_cases hne : n = p
    · rw [← hne]; exact hn
    · rw [Function.iterate_succ_apply] at hk
      exact ih (d n) ((h n hn).2 hne) hk

theorem River.noCycle (h : River d sa p) (hp : ¬ OnCycle d p) {n : Fin N} (hn : sa n ≠ 0) : ¬ OnCycle d n :=
  not_onCycle_of_reaches hp (h n hn).1

/-- **C182** (MODFLOW 6).  The reaches of one river with `k` cells: the mouth `p` has the number `k` and no other reach
downstream of it, every other reach has a downstream reach, and its number is greater. -/
theorem C182_mf6 (hd : Resolves fdir d) (hp : ¬ OnCycle d p) (hr : River d sa p) (hex : ∃ n, sa n ≠ 0) {limit : ℕ}
    {sa6 : Fin N → ℤ} {g : Dict ℤ ℤ} (h : Reach.mf6 limit fdir sa = .ok (sa6, g)) :
    sa6 p = Reach.nStream sa ∧ (g.get? (sa6 p) = some 0 ∨ g.get? (sa6 p) = some (sa6 p)) ∧
      ∀ n, sa n ≠ 0 → n ≠ p → ∃ t, g.get? (sa6 n) = some t ∧ sa6 n < t ∧ t ≤ Reach.nStream sa := by
  have hdn := Reach.C50_downstream hd (fun n hc => by
    by_contra hk
    push Not at hk
    exact hr.noCycle hp (hk 0) hc) h
  obtain ⟨k0, k1, k2, k3, _, k5⟩ : (∀ n, sa n = 0 → sa6 n = 0) ∧
      (∀ n, sa n ≠ 0 → 1 ≤ sa6 n ∧ sa6 n ≤ Reach.nStream sa) ∧
      (∀ m n, sa m ≠ 0 → sa n ≠ 0 → sa6 m = sa6 n → m = n) ∧
      (∀ i : ℕ, 1 ≤ i → i ≤ Reach.nStream sa → ∃ n, sa n ≠ 0 ∧ sa6 n = i) ∧ True ∧
      (∀ n, sa n ≠ 0 → g.get? (sa6 n) = some (sa6 (d n))) := by
    rcases Reach.C49_numbering (fdir := fdir) (sa := sa) hd limit with h' | ⟨sa', g', h', a1, a2, a3, a4, _, a6⟩
    · rw [h'] at h; cases h
    · rw [h'] at h
      cases h
      exact ⟨a1, a2, a3, a4, trivial, a6⟩
  have hrest : ∀ n, sa n ≠ 0 → n ≠ p → ∃ t, g.get? (sa6 n) = some t ∧ sa6 n < t ∧ t ≤ Reach.nStream sa := by
    intro n hn hne
    have hnext := (hr n hn).2 hne
    refine ⟨_, k5 n hn, ?_, (k1 _ hnext).2⟩
    rcases hdn _ _ (k5 n hn) with h0 | h0 | h0
    · have := (k1 _ hnext).1; omega
    · exact absurd (hr.self hn (k2 _ _ hnext hn h0)) hne
    · exact h0
  have hmouth := hr.mouth hex
  refine ⟨?_, ?_, hrest⟩
  · have h1 := k1 p hmouth
    obtain ⟨n, hn, hnum⟩ := k3 (Reach.nStream sa) (by omega) le_rfl
    by_cases hne : n = p
    · rw [← hne]; exact hnum
    · obtain ⟨t, _, h2, h3⟩ := hrest n hn hne
      omega
  · rw [k5 p hmouth]
    by_cases h0 : sa (d p) = 0
    · left; rw [k0 _ h0]
    · right
      have : d p = p := by
        by_contra hne
        exact hp (onCycle_iff.2 ⟨hne, (hr _ h0).1⟩)
      rw [this]

theorem River.headed (hd : Legal fdir d) (hp : ¬ OnCycle d p) (hr : River d sa p) {n : Fin N} (hn : sa n ≠ 0)
    (hne : n ≠ p) : ∃ h, Headwater fdir sa h ∧ ReflTransGen (Feeds fdir sa) h n := by
  induction hk : (upstream d n).card using Nat.strong_induction_on generalizing n with
  | _ k ih =>
    by_cases hw : Headwater fdir sa n
    · exact ⟨n, hw, ReflTransGen.refl⟩
    · have : ∃ m, Feeds fdir sa m n := by
        by_contra hc
        exact hw ⟨hn, fun m hm => hc ⟨m, hm⟩⟩
      obtain ⟨m, hm⟩ := this
      have e : d m = n := Fin.ext (by have h1 := hm.2.2; rw [hd m] at h1; exact_mod_cast h1)
      have hmn : m ≠ n := by
        rintro rfl
        exact hne (hr.self hn e)
      have hlt := Finset.card_lt_card (upstream_ssubset (hr.noCycle hp hn) ⟨1, e⟩ hmn)
      have hmp : m ≠ p := by
        rintro rfl
        exact hmn (Reaches.antisymm (hr.noCycle hp hn) ⟨1, e⟩ (hr n hn).1)
      obtain ⟨h, h1, h2⟩ := ih _ (by omega) hm.1 hmp rfl
      exact ⟨h, h1, h2.tail hm⟩

/-- **C182** (MODFLOW-2005).  The segments of one river with more than one cell: every stream cell belongs to one segment, the
mouth `p` is the last cell of the segment with the greatest number, whose outseg is 0 or the segment itself; every
other segment has an outseg with a greater number. -/
theorem C182_mf2005 (hd : Legal fdir d) (hp : ¬ OnCycle d p) (hr : River d sa p) (hex : ∃ n, sa n ≠ 0 ∧ n ≠ p)
    {limit fuel : ℕ} {b : Bool} (hf : N ≤ fuel) {out : Out N} (h : mf2005 limit fuel b fdir sa true = .ok out) :
    (∀ n, sa n ≠ 0 → ∃ s r, (n, s, r) ∈ out.nsr) ∧
      (∃ r, (p, (nSeg fdir sa : ℤ), r) ∈ out.nsr ∧ ∀ m, (m, (nSeg fdir sa : ℤ), r + 1) ∉ out.nsr) ∧
      (out.sg.get? (nSeg fdir sa) = some 0 ∨ out.sg.get? (nSeg fdir sa) = some (nSeg fdir sa : ℤ)) ∧
      ∀ s : ℤ, 1 ≤ s → s < nSeg fdir sa → ∃ t, out.sg.get? s = some t ∧ s < t ∧ t ≤ nSeg fdir sa := by
  obtain ⟨hnd, hlist, hrow, _, huniq, hprev⟩ := C56_rows hf h
  obtain ⟨_, _, hk1, hk2⟩ := C58_numbers hf h
  have hfeed : ∀ n m, Feeds fdir sa n m → d n = m := by
    intro n m hm
    exact Fin.ext (by have h1 := hm.2.2; rw [hd n] at h1; exact_mod_cast h1)
  have hreach : ∀ n m, ReflTransGen (Feeds fdir sa) n m → Reaches d n m := by
    intro n m hnm
    induction hnm with
    | refl => exact Reaches.refl n
    | tail _ hbc ih => exact ih.trans ⟨1, hfeed _ _ hbc⟩
  have hlisted : ∀ n, sa n ≠ 0 → ∃ s r, (n, s, r) ∈ out.nsr := by
    have hoff : ∀ n, sa n ≠ 0 → n ≠ p → ∃ a, Start fdir sa a ∧ ReflTransGen (Feeds fdir sa) a n := by
      intro n hn hne
      obtain ⟨a, ha, har⟩ := hr.headed hd hp hn hne
      exact ⟨a, .inl ha, har⟩
    intro n hn
    rw [hlist]
    by_cases hne : n = p
    · subst hne
      obtain ⟨x, hx, hxp⟩ := hex
      obtain ⟨a, ha, har⟩ := hoff x hx hxp
      refine ⟨a, ha, har.trans ?_⟩
      obtain ⟨k, hk⟩ := (hr x hx).1
      clear hxp har
      induction k generalizing x with
      | zero => exact hk ▸ .refl
      | succ k ih =>
        by_cases hxn : x = n
        · exact hxn ▸ .refl
        · rw [Function.iterate_succ_apply] at hk
          have hnx := (hr x hx).2 hxn
          exact .head ⟨hx, hnx, hd x⟩ (ih (d x) hnx hk)
    · exact hoff n hn hne
  have hac : ∀ x y, ReflTransGen (Feeds fdir sa) x y → ReflTransGen (Feeds fdir sa) y x → x = y := by
    intro x y hxy hyx
    by_cases hne : x = y
    · exact hne
    · have hy : sa y ≠ 0 := by
        rcases ReflTransGen.cases_tail hxy with h1 | ⟨c, _, hc⟩
        · exact absurd h1.symm hne
        · exact hc.2.1
      exact (hreach _ _ hxy).antisymm (hr.noCycle hp hy) (hreach _ _ hyx)
  have hone : ∀ n s r t q, (n, s, r) ∈ out.nsr → (n, t, q) ∈ out.nsr → s = t ∧ r = q := by
    intro n s r t q h1 h2
    have := List.inj_on_of_nodup_map hnd h1 h2 rfl
    simpa using this
  -- a cell of a segment is reached from all earlier ones
  have hback : ∀ (k : ℕ) n s r, (n, s, r) ∈ out.nsr → r = k + 1 → ∀ m, (m, s, 1) ∈ out.nsr → Reaches d m n := by
    intro k
    induction k with
    | zero =>
      intro n s r h1 h2 m h3
      have : r = 1 := by simpa using h2
      subst this
      exact huniq m n s 1 h3 h1 ▸ Reaches.refl m
    | succ k ih =>
      intro n s r h1 h2 m h3
      obtain ⟨x, hx, hxn⟩ := hprev n s r h1 (by push_cast at h2; omega)
      exact (ih x s (r - 1) hx (by push_cast at h2 ⊢; omega) m h3).trans ⟨1, hfeed _ _ hxn⟩
  -- every segment ends
  have hlast : ∀ s, s ∈ out.sg.keys → ∃ n r, (n, s, r) ∈ out.nsr ∧ ∀ m, (m, s, r + 1) ∉ out.nsr := by
    intro s hs
    obtain ⟨n, r, hnr⟩ := (hk2 s).1 hs
    by_contra hcon
    push Not at hcon
    have hall : ∀ k : ℕ, ∃ m, (m, s, r + k) ∈ out.nsr := by
      intro k
      induction k with
      | zero => exact ⟨n, by simpa using hnr⟩
      | succ k ih =>
        obtain ⟨m, hm⟩ := ih
        obtain ⟨m', hm'⟩ := hcon m _ hm
        exact ⟨m', by push_cast; rw [← add_assoc]; exact hm'⟩
    choose f hfm using hall
    have hinj : Function.Injective f := by
      intro i j hij
      have := (hone _ _ _ _ _ (hfm i) (hij ▸ hfm j)).2
      omega
    exact not_injective_infinite_finite f hinj
  have hend : ∀ n s r, (n, s, r) ∈ out.nsr → (∀ m, (m, s, r + 1) ∉ out.nsr) → n ≠ p →
      ∃ t, out.sg.get? s = some t ∧ s < t ∧ t ≤ nSeg fdir sa := by
    intro n s r h1 h2 hne
    have hn := (hrow n s r h1).1
    rcases C57_outseg hf h h1 with ⟨m, hm, _⟩ | ⟨_, t, ht, hcase⟩
    · exact absurd hm (h2 m)
    · rcases hcase with ⟨_, hno⟩ | ⟨ht0, m, hfm, hmt⟩
      · exact absurd ⟨hn, (hr n hn).2 hne, hd n⟩ (hno (d n))
      · refine ⟨t, ht, ?_, ((hk1 t).1 ((hk2 t).2 ⟨m, 1, hmt⟩)).2⟩
        rcases C58_cells hf h hac ht with h0 | h0 | h0
        · exact absurd h0 ht0
        · exfalso
          subst h0
          have hrr := (hrow n t r h1).2.2
          have hmn := hback (r - 1).toNat n t r h1 (by omega) m hmt
          have : m = n := hmn.antisymm (hr.noCycle hp hn) ⟨1, hfeed _ _ hfm⟩
          subst this
          exact hne (hr.self hn (hfeed _ _ hfm))
        · exact h0
  have hpn : sa p ≠ 0 := hr.mouth ⟨hex.choose, hex.choose_spec.1⟩
  obtain ⟨s, r, hpr⟩ := hlisted p hpn
  have hplast : ∀ m, (m, s, r + 1) ∉ out.nsr := by
    intro m hm
    obtain ⟨x, hx, hxm⟩ := hprev m s (r + 1) hm (by have := (hrow p s r hpr).2.2; omega)
    rw [add_sub_cancel_right] at hx
    have hxp : x = p := huniq x p s r hx hpr
    subst hxp
    have hm0 := hxm.2.1
    have : m = x := Reaches.antisymm hp (hr m hm0).1 ⟨1, hfeed _ _ hxm⟩
    subst this
    have := (hone _ _ _ _ _ hpr hm).2
    omega
  have hs : s = nSeg fdir sa := by
    have hsk := (hk1 s).1 ((hk2 s).2 ⟨p, r, hpr⟩)
    by_contra hne
    obtain ⟨n, q, hnq, hl⟩ := hlast (nSeg fdir sa) ((hk1 _).2 ⟨by omega, le_rfl⟩)
    by_cases hnp : n = p
    · subst hnp
      exact hne (hone _ _ _ _ _ hpr hnq).1
    · obtain ⟨t, _, h2, h3⟩ := hend n _ q hnq hl hnp
      omega
  subst hs
  refine ⟨hlisted, ⟨r, hpr, hplast⟩, ?_, ?_⟩
  · rcases C57_outseg hf h hpr with ⟨m, hm, _⟩ | ⟨_, t, ht, hcase⟩
    · exact absurd hm (hplast m)
    · rcases hcase with ⟨h0, _⟩ | ⟨_, m, hfm, hmt⟩
      · left; rw [ht, h0]
      · right
        have : m = p := Reaches.antisymm hp (hr m hfm.2.1).1 ⟨1, hfeed _ _ hfm⟩
        subst this
        rw [ht, (hone _ _ _ _ _ hmt hpr).1]
  · intro s h1 h2
    obtain ⟨n, q, hnq, hl⟩ := hlast s ((hk1 _).2 ⟨h1, h2.le⟩)
    refine hend n s q hnq hl ?_
    rintro rfl
    have := (hone _ _ _ _ _ hnq hpr).1
    omega

/-! ### a concrete case: 0 → 2 ← 1, 2 → 3 → 4, watershed of cell 3 -/

private def rvF : Fin 5 → ℤ := ![2, 2, 3, 4, 4]
private def rvD : Fin 5 → Fin 5 := ![2, 2, 3, 4, 4]
private def rvObj : Reach.Obj 5 := ⟨rvF, none, none⟩

private theorem rv_legal : Legal rvF rvD := by intro n; fin_cases n <;> rfl

private theorem rv_free : ¬ OnCycle rvD 3 := by
  rintro ⟨_, k, hk⟩
  have : ∀ k, rvD^[k + 1] 3 = 4 := by
    intro k
    induction k with
    | zero => rfl
    | succ k ih => rw [Function.iterate_succ_apply', ih]; rfl
  rw [this] at hk
  cases hk

example : ∃ s', Acc.flowAccumulation 6 rvF (fun _ => (1 : ℚ)) false = .ok ![1, 1, 3, 4, 5] ∧
    Basin.watershed 11 ⟨rvF, none⟩ 3 (fun _ => 0) = .ok (s', ![1, 1, 1, 1, 0]) ∧
    ∃ o' sa, Delin.delineate (fun n => some ((![1, 1, 3, 4, 5] : Fin 5 → ℚ) n)) rvObj (.number 1)
      (some (List.ofFn fun n => ((![1, 1, 1, 1, 0] : Fin 5 → ℕ) n : ℤ))) = .ok (o', sa) ∧ River rvD sa 3 ∧
      sa = ![1, 1, 1, 1, 0] ∧ (∃ n, sa n ≠ 0 ∧ n ≠ 3) := by
  have h1 : Acc.flowAccumulation 6 rvF (fun _ => (1 : ℚ)) false = .ok ![1, 1, 3, 4, 5] := by decide +kernel
  have h2 : (Basin.watershed 11 ⟨rvF, none⟩ 3 (fun _ => 0)).map Prod.snd = .ok ![1, 1, 1, 1, 0] := by decide +kernel
  obtain ⟨⟨s', ws⟩, h2, e⟩ := Res.map_eq_ok.1 h2
  cases e
  have h3 : (Delin.delineate (fun n => some ((![1, 1, 3, 4, 5] : Fin 5 → ℚ) n)) rvObj (.number 1)
      (some (List.ofFn fun n => ((![1, 1, 1, 1, 0] : Fin 5 → ℕ) n : ℤ)))).map Prod.snd = .ok ![1, 1, 1, 1, 0] := by
    decide +kernel
  obtain ⟨⟨o', sa⟩, h3, e⟩ := Res.map_eq_ok.1 h3
  cases e
  exact ⟨s', h1, h2, o', _, h3, (C182_streams (o := rvObj) rv_legal.resolves rv_free (fun _ => zero_le_one) h1 (by norm_num)
    h2 h3).2.2.2, rfl, 0, by decide, by decide⟩

example : (Reach.mf6 10 rvF ![1, 1, 1, 1, 0]).map (fun r => (List.ofFn r.1, r.2)) =
    .ok ([2, 1, 3, 4, 0], [(1, 3), (2, 3), (3, 4), (4, 0)]) := by decide +kernel
example : (mf2005 10 10 false rvF ![1, 1, 1, 1, 0] true).map (fun o => (o.sg, o.nsr)) =
    .ok ([(2, 3), (1, 3), (3, 0)], [(0, 2, 1), (1, 1, 1), (2, 3, 1), (3, 3, 2)]) := by decide +kernel

end Dany.Pipe
