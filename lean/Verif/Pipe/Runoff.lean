import Verif.Pipe.Gsflow

/-!
# C206: the runoff table carries all the water of the rivers, once
-/

namespace Dany.Pipe

open Flow Seg Relation

variable {N : ℕ} {fdir sa : Fin N → ℤ} {d : Fin N → Fin N}

/-- the stream leaves the marked cells in `e`: it is a stream cell whose water stays there or goes to a cell without stream -/
def Exit (d : Fin N → Fin N) (sa : Fin N → ℤ) (e : Fin N) : Prop := 0 < sa e ∧ (d e = e ∨ ¬ 0 < sa (d e))

/-- the water of a stream cell comes to an exit -/
private theorem exit_exists (hac : ∀ n, 0 < sa n → ¬ OnCycle d n) {s : Fin N} (hs : 0 < sa s) :
    ∃ e, Reaches d s e ∧ Exit d sa e := by
  by_contra hcon
  have hall : ∀ k : ℕ, 0 < sa (d^[k] s) := by
    intro k
    induction k with
    | zero => exact hs
    | succ k ih =>
      by_contra hk
      rw [Function.iterate_succ_apply'] at hk
      exact hcon ⟨_, ⟨k, rfl⟩, ih, .inr hk⟩
  have hmove : ∀ k : ℕ, d (d^[k] s) ≠ d^[k] s := fun k h => hcon ⟨_, ⟨k, rfl⟩, hall k, .inl h⟩
  obtain ⟨i, j, hij, he⟩ := Finite.exists_ne_map_eq_of_infinite (fun k : ℕ => d^[k] s)
  wlog hlt : i < j generalizing i j
  · exact this j i hij.symm he.symm (by omega)
  refine hac _ (hall i) ⟨hmove i, j - i - 1, ?_⟩
  rw [← Function.iterate_add_apply, show j - i - 1 + 1 + i = j by omega]
  exact he.symm

/-- and to one only, unless the stream is broken -/
private theorem exit_unique (hcl : ∀ n m, 0 < sa n → Reaches d (d n) m → 0 < sa m → 0 < sa (d n)) {u a b : Fin N}
    (ha : Exit d sa a) (hb : Exit d sa b) (hua : Reaches d u a) (hub : Reaches d u b) : a = b := by
  have key : ∀ a b : Fin N, Exit d sa a → Exit d sa b → Reaches d a b → b = a := by
    rintro a b ⟨h1, h2⟩ ⟨h3, _⟩ ⟨k, hk⟩
    rcases h2 with h2 | h2
    · rw [Function.iterate_fixed h2] at hk; exact hk.symm
    · cases k with
      | zero => exact hk.symm
      | succ k => exact absurd (hcl a b h1 ⟨k, by rw [← hk]; rfl⟩ h3) h2
  rcases hua.total hub with h | h
  · exact (key a b ha hb h).symm
  · exact key b a hb ha h

/-- **C206.**  A stream array whose streams have no circles and no gaps: the area of the cells that `irunbnd` gives to a
segment is the accumulated area where the streams leave the grid (or the marked cells). -/
theorem C206_runoff {K : Type*} [Ring K] (hd : Legal fdir d) (hac : ∀ n, 0 < sa n → ¬ OnCycle d n)
    (hcl : ∀ n m, 0 < sa n → Reaches d (d n) m → 0 < sa m → 0 < sa (d n))
    {fuel : ℕ} (hf : N + 1 < fuel) {ir : Fin N → ℤ} (hir : Irun.irunbnd fuel fdir sa = .ok ir)
    {area facc : Fin N → K} {afuel : ℕ} (ha : Acc.flowAccumulation afuel fdir area false = .ok facc) :
    open Classical in
    ∑ u ∈ Finset.univ.filter (fun u => ir u ≠ 0), area u = ∑ e ∈ Finset.univ.filter (fun e => Exit d sa e), facc e := by
  classical
  obtain ⟨ir', h1, h2⟩ := Irun.C65_path (fdir := fdir) (sa := sa) hf
  rw [hir, Res.ok.injEq] at h1
  subst h1
  have hdown : ∀ x y, Irun.Down fdir x y ↔ Reaches d x y := by
    have hinto : ∀ x y, Irun.Into fdir x y ↔ d x = y := by
      intro x y
      unfold Irun.Into
      rw [hd x]
      constructor
      · intro h; exact Fin.ext (by exact_mod_cast h)
      · rintro rfl; rfl
    intro x y
    constructor
    · intro h
      induction h with
      | refl => exact Reaches.refl _
      | tail _ h ih => exact ih.trans ⟨1, (hinto _ _).1 h⟩
    · rintro ⟨k, rfl⟩
      induction k with
      | zero => exact ReflTransGen.refl
      | succ k ih =>
        rw [Function.iterate_succ_apply']
        exact ReflTransGen.tail ih ((hinto _ _).2 rfl)
  have hset : Finset.univ.filter (fun u => ir u ≠ 0) =
      (Finset.univ.filter (fun e => Exit d sa e)).biUnion (fun e => upstream d e) := by
    ext u
    simp only [Finset.mem_filter, Finset.mem_univ, true_and, Finset.mem_biUnion, upstream]
    rw [(h2 u).1]
    constructor
    · rintro ⟨s, hs, hus⟩
      obtain ⟨e, he, hx⟩ := exit_exists hac hs
      exact ⟨e, hx, ((hdown _ _).1 hus).trans he⟩
    · rintro ⟨e, hx, hr⟩
      exact ⟨e, hx.1, (hdown _ _).2 hr⟩
  rw [hset, Finset.sum_biUnion]
  · refine Finset.sum_congr rfl fun e he => ?_
    have hx := (Finset.mem_filter.1 he).2
    exact ((Acc.C32_upstream_sum hd.resolves ha e (hac e hx.1)).1 rfl).symm
  · intro a ha' b hb hab
    have hxa := (Finset.mem_filter.1 ha').2
    have hxb := (Finset.mem_filter.1 hb).2
    rw [Function.onFun, Finset.disjoint_left]
    intro u hua hub
    simp only [upstream, Finset.mem_filter, Finset.mem_univ, true_and] at hua hub
    exact hab (exit_unique hcl hxa hxb hua hub)

variable {K : Type*} [Field K] [LinearOrder K] [IsStrictOrderedRing K] {limit fuel cfuel afuel : ℕ} {c : K}
  {area facc : Fin N → K} {ob ob' : Reach.Obj N}

/-- **C206**, the pyGSFLOW tables of a delineated network: the cells with a runoff target are exactly the watersheds of the
outlets whose accumulated area reaches the threshold, so nothing of such a river is left out and nothing counted twice. -/
theorem C206_rivers (hd : Legal fdir d) (hends : ∀ n, ∃ e, Reaches d n e ∧ d e = e) (hac : ∀ n, ¬ OnCycle d n)
    (hpos : ∀ u, 0 ≤ area u) (ho : Acc.flowAccumulation afuel fdir area false = .ok facc) (hob : ob.fdir = fdir)
    (hdl : Delin.delineate (fun n => some (facc n)) ob (.number c) none = .ok (ob', sa))
    (hf : N ≤ fuel) (hcf : N + 1 < cfuel) {K' : Type*} [Field K'] [LinearOrder K'] {G : Rdata.SGrid N K'} {dflt : Bool}
    {q' : Rdata.Obj N} {rows : List (Rdata.Row K')} {segs : List (Rdata.SRow K')} {irun : Fin N → ℤ}
    (h : (⟨fdir, some sa, none⟩ : Rdata.Obj N).builder limit fuel cfuel G none none none dflt true [] =
      .ok (q', rows, segs, irun)) :
    open Classical in
    ∑ u ∈ Finset.univ.filter (fun u => irun u ≠ 0), area u =
      ∑ e ∈ Finset.univ.filter (fun e => d e = e ∧ c ≤ facc e), facc e := by
  classical
  have hset : Finset.univ.filter (fun u => irun u ≠ 0) =
      (Finset.univ.filter (fun e => d e = e ∧ c ≤ facc e)).biUnion (fun e => upstream d e) := by
    ext u
    simp only [Finset.mem_filter, Finset.mem_univ, true_and, Finset.mem_biUnion, upstream]
    constructor
    · intro hu
      obtain ⟨e, hr, he⟩ := hends u
      exact ⟨e, ⟨he, (C169_exact hd hac hpos ho hob hdl hf hcf h hr he).1.1 hu⟩, hr⟩
    · rintro ⟨e, ⟨he, hc⟩, hr⟩
      exact (C169_exact hd hac hpos ho hob hdl hf hcf h hr he).1.2 hc
  rw [hset, Finset.sum_biUnion]
  · exact Finset.sum_congr rfl fun e _ => ((Acc.C32_upstream_sum hd.resolves ho e (hac e)).1 rfl).symm
  · intro a ha' b hb hab
    have hxa := (Finset.mem_filter.1 ha').2
    have hxb := (Finset.mem_filter.1 hb).2
    rw [Function.onFun, Finset.disjoint_left]
    intro u hua hub
    simp only [upstream, Finset.mem_filter, Finset.mem_univ, true_and] at hua hub
    refine hab ?_
    rcases hua.total hub with h | h
    · exact (Reaches.of_fixed hxa.1 h).symm
    · exact Reaches.of_fixed hxb.1 h

/-- hypotheses of `C206_runoff` and `C206_rivers` hold of two rivers, 0 → 1 → 2 and 4 → 3, whose areas are 3 and 2 -/
example : ∃ ob' sa q' rows segs irun,
    Delin.delineate (fun n => some (facc5 n)) ⟨fd5, none, none⟩ (.number 2) none = .ok (ob', sa) ∧
    (⟨fd5, some sa, none⟩ : Rdata.Obj 5).builder 9 9 9 G5 none none none true true [] = .ok (q', rows, segs, irun) ∧
    (open Classical in ∑ u ∈ Finset.univ.filter (fun u => irun u ≠ 0), (1 : ℚ)) =
      (open Classical in ∑ e ∈ Finset.univ.filter (fun e => nx5 e = e ∧ 2 ≤ facc5 e), facc5 e) := by
  obtain ⟨sa, hsa, _⟩ := Delin.C44_number (facc := fun n => some (facc5 n)) (o := (⟨fd5, none, none⟩ : Reach.Obj 5)) 2
  have hl : SegsFit fd5 sa 9 := segsFit_of_count (by
    have h1 := Prms.nSeg_le fd5 sa
    have h2 : Reach.nStream sa ≤ 5 := by
      unfold Reach.nStream
      exact (Finset.card_le_univ _).trans (by simp)
    omega)
  obtain ⟨⟨q', rows, segs, irun⟩, h⟩ := (C168_sfr (ob := ⟨fd5, none, none⟩) (fuel := 9) (cfuel := 9) legal5 acyclic5
    (fun _ => by norm_num) acc5 rfl hsa (by norm_num) (by norm_num) hl G5 true).1 ⟨1, by decide, by decide +kernel⟩
  have hends : ∀ n, ∃ e, Reaches nx5 n e ∧ nx5 e = e := by
    intro n
    have : ∀ n : Fin 5, nx5^[2] n = 2 ∨ nx5^[2] n = 3 := by decide +kernel
    refine ⟨nx5^[2] n, ⟨2, rfl⟩, ?_⟩
    rcases this n with h | h <;> rw [h] <;> decide
  exact ⟨_, sa, q', rows, segs, irun, hsa, h, C206_rivers (ob := ⟨fd5, none, none⟩) (fuel := 9) (cfuel := 9)
    (area := fun _ => 1) legal5 hends acyclic5 (fun _ => by norm_num) acc5 rfl hsa (by norm_num) (by norm_num) h⟩

example : ∃ ir, Irun.irunbnd 9 fd5 ![0, 1, 2, 0, 0] = .ok ir ∧
    (open Classical in ∑ u ∈ Finset.univ.filter (fun u => ir u ≠ 0), (1 : ℚ)) =
      (open Classical in ∑ e ∈ Finset.univ.filter (fun e => Exit nx5 ![0, 1, 2, 0, 0] e), facc5 e) := by
  obtain ⟨ir, h, _⟩ := Irun.C65_path (fdir := fd5) (sa := ![0, 1, 2, 0, 0]) (fuel := 9) (by norm_num)
  refine ⟨ir, h, C206_runoff (area := fun _ => 1) legal5 (fun n _ => acyclic5 n) ?_ (by norm_num) h acc5⟩
  rintro n m hn ⟨k, rfl⟩ hm
  have h3 : n = 1 ∨ n = 2 := by clear hm; revert hn; revert n; decide
  rcases h3 with rfl | rfl <;> decide

end Dany.Pipe
