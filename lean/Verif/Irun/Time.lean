import Verif.Irun.Props
import Mathlib.Algebra.BigOperators.Intervals

/-!
# C218: how long `irunbnd` takes

The loops of stream_util.py:932-950 with two counters: how often a cell is taken from the stack, and how many elements of the
list `visited` are compared by `node in visited`.
-/

namespace Dany.Irun

open Function Relation

variable {N : ℕ} {fdir sa : Fin N → ℤ}

/-- how many elements of a list `n in l` compares with `n` (stream_util.py:943): it stops at the first that is equal -/
def scan (n : Fin N) : List (Fin N) → ℕ
  | [] => 0
  | x :: l => if x = n then 1 else scan n l + 1

/-- `climb` (stream_util.py:939-950) with counters: `p` cells taken from the stack, `c` comparisons -/
def climbT (fdir : Fin N → ℤ) (iseg : ℤ) :
    ℕ → List (Fin N) → List (Fin N) → (Fin N → ℤ) → ℕ → ℕ → Res (List (Fin N) × (Fin N → ℤ) × ℕ × ℕ)
  | 0, _, _, _, _, _ => .hang
  | _ + 1, [], visited, irun, p, c => .ok (visited, irun, p, c)
  | k + 1, node :: stack, visited, irun, p, c =>
    if ups fdir node = [] then climbT fdir iseg k stack visited irun (p + 1) c
    else if node ∈ visited then climbT fdir iseg k stack visited irun (p + 1) (c + scan node visited)
    else climbT fdir iseg k ((ups fdir node).reverse ++ stack) (visited ++ [node]) (fill irun (ups fdir node) iseg)
      (p + 1) (c + scan node visited)

/-- `cellStep` (stream_util.py:935-950) with counters -/
def cellStepT (fuel : ℕ) (fdir sa : Fin N → ℤ) (r : Res (List (Fin N) × (Fin N → ℤ) × ℕ × ℕ)) (s : Fin N) :
    Res (List (Fin N) × (Fin N → ℤ) × ℕ × ℕ) :=
  r.bind fun st => climbT fdir (sa s) fuel [s] st.1 (update st.2.1 s (sa s)) st.2.2.1 st.2.2.2

/-- `irunbnd` from the stream array on (stream_util.py:921-952): the array, the cells taken from the stack, the comparisons -/
def irunbndT (fuel : ℕ) (fdir sa : Fin N → ℤ) : Res ((Fin N → ℤ) × ℕ × ℕ) :=
  ((streamCells sa).foldl (cellStepT fuel fdir sa) (.ok ([], (fun _ => 0), 0, 0))).map Prod.snd

/-! ### one stream cell -/

/-- the cells that flow into the cells of a list -/
def inflows (fdir : Fin N → ℤ) (l : List (Fin N)) : ℕ := (l.map fun n => (ups fdir n).length).sum

/-- `0 + 1 + … + (n - 1)` -/
def tri (n : ℕ) : ℕ := ∑ i ∈ Finset.range n, i

theorem tri_succ (n : ℕ) : tri (n + 1) = tri n + n := Finset.sum_range_succ _ _

theorem scan_le (n : Fin N) (l : List (Fin N)) : scan n l ≤ l.length := by
  induction l with
  | nil => exact le_refl _
  | cons x l ih => unfold scan; split_ifs <;> simp; omega

theorem scan_not_mem {n : Fin N} {l : List (Fin N)} (h : n ∉ l) : scan n l = l.length := by
  induction l with
  | nil => rfl
  | cons x l ih =>
    simp only [List.mem_cons, not_or] at h
    unfold scan
    rw [if_neg (Ne.symm h.1), ih h.2, List.length_cons]

/-- counters before and after a loop -/
structure Cost (fdir : Fin N → ℤ) (V V' : List (Fin N)) (k p c p' c' : ℕ) : Prop where
  nodup : V'.Nodup
  grow : V.length ≤ V'.length
  pops : p' + inflows fdir V = p + k + inflows fdir V'
  low : c + tri V'.length ≤ c' + tri V.length
  high : c' + p * V'.length ≤ c + p' * V'.length

theorem climbT_ok {iseg : ℤ} {V' : List (Fin N)} {ir : Fin N → ℤ} : ∀ (fuel : ℕ) (stack visited : List (Fin N))
    (irun : Fin N → ℤ) (p c : ℕ), visited.Nodup → climb fdir iseg fuel stack visited irun = .ok (V', ir) →
    ∃ p' c', climbT fdir iseg fuel stack visited irun p c = .ok (V', ir, p', c') ∧ Cost fdir visited V' stack.length p c p' c' := by
  intro fuel
  induction fuel with
  | zero => intro _ _ _ _ _ _ h; cases h
  | succ k ih =>
    intro stack visited irun p c hnd h
    cases stack with
    | nil =>
      cases h
      exact ⟨p, c, rfl, hnd, le_refl _, rfl, le_refl _, le_refl _⟩
    | cons node stack =>
      unfold climb at h
      unfold climbT
      split_ifs at h ⊢ with h1 h2
      · obtain ⟨p', c', e, hc⟩ := ih stack visited irun (p + 1) c hnd h
        refine ⟨p', c', e, hc.nodup, hc.grow, ?_, hc.low, ?_⟩
        · rw [List.length_cons]; have := hc.pops; omega
        · have := hc.high; nlinarith
      · obtain ⟨p', c', e, hc⟩ := ih stack visited irun (p + 1) (c + scan node visited) hnd h
        have hs := scan_le node visited
        refine ⟨p', c', e, hc.nodup, hc.grow, ?_, ?_, ?_⟩
        · rw [List.length_cons]; have := hc.pops; omega
        · have := hc.low; omega
        · have := hc.high; have := hc.grow; nlinarith
      · have hnd' : (visited ++ [node]).Nodup := by
          rw [List.nodup_append]
          exact ⟨hnd, List.nodup_singleton _, by rintro a ha b hb rfl; simp at hb; exact h2 (hb ▸ ha)⟩
        obtain ⟨p', c', e, hc⟩ := ih _ _ _ (p + 1) (c + scan node visited) hnd' h
        have hs := scan_not_mem h2
        have hg := hc.grow
        have hl := hc.low
        have hp := hc.pops
        rw [List.length_append, List.length_singleton] at hg hl
        rw [tri_succ] at hl
        have hi : inflows fdir (visited ++ [node]) = inflows fdir visited + (ups fdir node).length := by simp [inflows]
        rw [hi, List.length_append, List.length_reverse] at hp
        refine ⟨p', c', e, hc.nodup, by omega, ?_, by omega, ?_⟩
        · rw [List.length_cons]; omega
        · have := hc.high; nlinarith

/-! ### all of them -/

theorem foldT_ok {fuel : ℕ} : ∀ (l V : List (Fin N)) (irun : Fin N → ℤ) (p c : ℕ) (V' : List (Fin N)) (ir : Fin N → ℤ), V.Nodup →
    l.foldl (cellStep fuel fdir sa) (.ok (V, irun)) = .ok (V', ir) →
    ∃ p' c', l.foldl (cellStepT fuel fdir sa) (.ok (V, irun, p, c)) = .ok (V', ir, p', c') ∧ Cost fdir V V' l.length p c p' c' := by
  intro l
  induction l with
  | nil =>
    intro V irun p c V' ir hnd h
    cases h
    exact ⟨p, c, rfl, hnd, le_refl _, rfl, le_refl _, le_refl _⟩
  | cons s l ih =>
    intro V irun p c V' ir hnd h
    rw [List.foldl_cons] at h ⊢
    have hstep : ∃ V1 ir1, climb fdir (sa s) fuel [s] V (update irun s (sa s)) = .ok (V1, ir1) := by
      have hbad : ∀ (l : List (Fin N)) (r : Res (List (Fin N) × (Fin N → ℤ))), (∀ x, r ≠ .ok x) →
          ∀ x, l.foldl (cellStep fuel fdir sa) r ≠ .ok x := by
        intro l
        induction l with
        | nil => intro r hr; exact hr
        | cons t l ih =>
          intro r hr
          refine ih _ fun x hx => ?_
          obtain ⟨y, hy, -⟩ := Res.bind_eq_ok.1 hx
          exact hr y hy
      by_contra hc
      refine hbad l (cellStep fuel fdir sa (.ok (V, irun)) s) ?_ _ h
      rintro ⟨V1, ir1⟩ hx
      exact hc ⟨V1, ir1, hx⟩
    obtain ⟨V1, ir1, h1⟩ := hstep
    obtain ⟨p1, c1, e1, k1⟩ := climbT_ok (fdir := fdir) fuel [s] V (update irun s (sa s)) p c hnd h1
    have hs : cellStep fuel fdir sa (.ok (V, irun)) s = .ok (V1, ir1) := h1
    have hsT : cellStepT fuel fdir sa (.ok (V, irun, p, c)) s = .ok (V1, ir1, p1, c1) := e1
    rw [hs] at h
    rw [hsT]
    obtain ⟨p2, c2, e2, k2⟩ := ih V1 ir1 p1 c1 V' ir k1.nodup h
    refine ⟨p2, c2, e2, k2.nodup, k1.grow.trans k2.grow, ?_, ?_, ?_⟩
    · have a := k1.pops
      have b := k2.pops
      rw [List.length_singleton] at a
      rw [List.length_cons]
      omega
    · have a := k1.low
      have b := k2.low
      omega
    · have a := k1.high
      have b := k2.high
      have hp : p ≤ p1 ∨ V1.length = 0 := by
        by_contra hc
        push Not at hc
        have : p1 * V1.length + V1.length ≤ p * V1.length := by nlinarith
        have := k1.low
        have g := k1.grow
        have : tri V.length ≤ tri V1.length := by
          unfold tri
          exact Finset.sum_le_sum_of_subset (Finset.range_mono g)
        omega
      have g := k2.grow
      rcases hp with hp | hp
      · obtain ⟨d, rfl⟩ := Nat.exists_eq_add_of_le hp
        nlinarith
      · have hV : V.length = 0 := by have := k1.grow; omega
        have hVn : V = [] := List.length_eq_zero_iff.1 hV
        have hV1n : V1 = [] := List.length_eq_zero_iff.1 hp
        have a3 := k1.pops
        rw [hVn, hV1n] at a3
        rw [hp] at a
        nlinarith

/-- some cell flows into `n`, and `n` drains to a stream cell -/
def Carries (fdir sa : Fin N → ℤ) (n : Fin N) : Prop := (∃ u, Into fdir u n) ∧ ∃ s, Gets fdir sa n s

theorem ups_ne_nil {n : Fin N} : ups fdir n ≠ [] ↔ ∃ u, Into fdir u n := by
  rw [List.ne_nil_iff_exists_cons]
  constructor
  · rintro ⟨u, l, h⟩
    exact ⟨u, mem_ups.1 (by rw [h]; simp)⟩
  · rintro ⟨u, h⟩
    have := mem_ups.2 h
    cases hh : ups fdir n with
    | nil => rw [hh] at this; cases this
    | cons a l => exact ⟨a, l, rfl⟩

open Classical in
/-- **C218**: `irunbnd` ends on all arrays, circles included.  A cell is taken from the stack once for every stream cell and once for
every cell whose next cell drains to a stream cell — at most twice the number of cells.  But `visited` is a list, and with `v`
cells that have inflow and drain to a stream cell it is compared with at least `v (v - 1) / 2` times. -/
theorem C218_time {fuel : ℕ} (hf : N + 1 < fuel) : ∃ ir t c, irunbndT fuel fdir sa = .ok (ir, t, c) ∧ irunbnd fuel fdir sa = .ok ir ∧
    t = (Finset.univ.filter fun n => 0 < sa n).card + (Finset.univ.filter fun u => ∃ v, Into fdir u v ∧ ∃ s, Gets fdir sa v s).card ∧
    ∑ i ∈ Finset.range (Finset.univ.filter (Carries fdir sa)).card, i ≤ c ∧ c ≤ t * (Finset.univ.filter (Carries fdir sa)).card := by
  obtain ⟨V, ir, e, h⟩ := fold_ok (fdir := fdir) (sa := sa) hf (streamCells sa) [] [] (fun _ => 0) (by
    refine ⟨?_, ?_, ?_, ?_⟩
    · intro v; simp [In]
    · intro u _ _; rfl
    · intro u hu; cases hu
    · intro u v s _ hs; cases hs) (by simpa using streamCells_sorted)
  obtain ⟨t, c, eT, hc⟩ := foldT_ok _ _ _ 0 0 _ _ List.nodup_nil e
  have hvis : ∀ v, v ∈ V ↔ Carries fdir sa v := by
    intro v
    rw [h.vis v, ups_ne_nil]
    unfold Carries In Gets
    rw [List.nil_append, and_comm]
    simp only [mem_streamCells]
  have hV : V.toFinset = Finset.univ.filter (Carries fdir sa) := by
    ext v
    simp [hvis]
  have hlen : V.length = (Finset.univ.filter (Carries fdir sa)).card := by
    rw [← hV, List.toFinset_card_of_nodup hc.nodup]
  have hin : inflows fdir V = (Finset.univ.filter fun u => ∃ v, Into fdir u v ∧ ∃ s, Gets fdir sa v s).card := by
    have h1 : inflows fdir V = ∑ v ∈ V.toFinset, (Finset.univ.filter fun u => Into fdir u v).card := by
      unfold inflows
      rw [← List.sum_toFinset _ hc.nodup]
      refine Finset.sum_congr rfl fun v _ => ?_
      unfold ups
      rw [← List.toFinset_card_of_nodup ((List.nodup_finRange N).filter _)]
      congr 1
      ext m
      simp only [List.mem_toFinset, List.mem_filter, List.mem_finRange, true_and, decide_eq_true_eq]
      rw [Finset.mem_filter]
      simp [Into]
    rw [h1, ← Finset.card_biUnion]
    · congr 1
      ext u
      simp only [Finset.mem_biUnion, List.mem_toFinset, Finset.mem_filter, Finset.mem_univ, true_and, hvis]
      constructor
      · rintro ⟨v, hv, hu⟩
        exact ⟨v, hu, hv.2⟩
      · rintro ⟨v, hu, hs⟩
        exact ⟨v, ⟨⟨u, hu⟩, hs⟩, hu⟩
    · intro a _ b _ hab
      rw [Function.onFun, Finset.disjoint_left]
      intro u ha hb
      simp only [Finset.mem_filter, Finset.mem_univ, true_and] at ha hb
      exact hab (ha.unique hb)
  have hst : (streamCells sa).length = (Finset.univ.filter fun n => 0 < sa n).card := by
    unfold streamCells
    rw [← List.toFinset_card_of_nodup ((List.nodup_finRange N).filter _)]
    congr 1
    ext m
    simp
  refine ⟨ir, t, c, ?_, ?_, ?_, ?_, ?_⟩
  · unfold irunbndT
    rw [eT]
    rfl
  · unfold irunbnd
    rw [e]
    rfl
  · have := hc.pops
    rw [hst, hin] at this
    simpa [inflows] using this
  · have := hc.low
    rw [hlen] at this
    simpa [tri] using this
  · have := hc.high
    rw [hlen] at this
    simpa using this

/-- **C218** (linear): no more than twice as many cells are taken from the stack as there are. -/
theorem C218_linear {fuel : ℕ} (hf : N + 1 < fuel) : ∃ ir t c, irunbndT fuel fdir sa = .ok (ir, t, c) ∧ irunbnd fuel fdir sa = .ok ir ∧
    t ≤ 2 * N ∧ c ≤ 2 * N * N := by
  classical
  obtain ⟨ir, t, c, h1, h2, h3, -, h5⟩ := C218_time (fdir := fdir) (sa := sa) hf
  have a := Finset.card_le_univ (Finset.univ.filter fun n : Fin N => 0 < sa n)
  have b := Finset.card_le_univ (Finset.univ.filter fun u : Fin N => ∃ v, Into fdir u v ∧ ∃ s, Gets fdir sa v s)
  have d := Finset.card_le_univ (Finset.univ.filter (Carries fdir sa))
  rw [Fintype.card_fin] at a b d
  have ht : t ≤ 2 * N := by omega
  exact ⟨ir, t, c, h1, h2, ht, h5.trans (Nat.mul_le_mul ht d)⟩

/-- the flow directions of a valley: every cell flows into the next, the last leaves the model -/
def valley (N : ℕ) : Fin N → ℤ := fun n => if n.val + 1 < N then (n.val : ℤ) + 1 else -1

/-- **C218** (quadratic): in a valley of `N` cells whose last cell is the only stream cell, `N` cells are taken from the stack, and
`visited` is compared with at least `(N - 1) (N - 2) / 2` times. -/
theorem C218_quadratic {fuel : ℕ} (hN : 0 < N) (hf : N + 1 < fuel) : ∃ ir t c,
    irunbndT fuel (valley N) (fun n => if n.val + 1 = N then 1 else 0) = .ok (ir, t, c) ∧ t = N ∧ (N - 1) * (N - 2) ≤ 2 * c := by
  classical
  set sa : Fin N → ℤ := fun n => if n.val + 1 = N then 1 else 0 with hsa
  obtain ⟨ir, t, c, h1, -, h3, h4, -⟩ := C218_time (fdir := valley N) (sa := sa) hf
  set last : Fin N := ⟨N - 1, by omega⟩ with hlast
  have hinto : ∀ u v : Fin N, Into (valley N) u v ↔ u.val + 1 = v.val := by
    intro u v
    show (if u.val + 1 < N then (u.val : ℤ) + 1 else -1) = (v.val : ℤ) ↔ _
    have hu := u.isLt
    have hv := v.isLt
    split_ifs with hc
    · omega
    · constructor
      · intro hh
        exact hh.elim
      · intro hh
        omega
  have hdown : ∀ (k : ℕ) (n : Fin N), n.val + k + 1 = N → Down (valley N) n last := by
    intro k
    induction k with
    | zero =>
      intro n hn
      have : n = last := by apply Fin.ext; simp only [hlast]; omega
      rw [this]
      exact .refl
    | succ k ih =>
      intro n hn
      exact .head ((hinto n ⟨n.val + 1, by omega⟩).2 rfl) (ih _ (by simp only; omega))
  have hgets : ∀ n, Gets (valley N) sa n last := by
    intro n
    refine ⟨?_, hdown (N - 1 - n.val) n (by have := n.isLt; omega)⟩
    simp only [hsa, hlast]
    rw [if_pos (by omega)]
    norm_num
  have c1 : (Finset.univ.filter fun n => 0 < sa n).card = 1 := by
    rw [Finset.card_eq_one]
    refine ⟨last, ?_⟩
    ext n
    simp only [Finset.mem_filter, Finset.mem_univ, true_and, Finset.mem_singleton, hsa]
    have := n.isLt
    split_ifs with h
    · simp only [zero_lt_one, true_iff]
      apply Fin.ext
      simp only [hlast]
      omega
    · simp only [lt_irrefl, false_iff]
      rintro rfl
      simp only [hlast] at h
      omega
  have c2 : (Finset.univ.filter fun u => ∃ v, Into (valley N) u v ∧ ∃ s, Gets (valley N) sa v s).card = N - 1 := by
    have : (Finset.univ.filter fun u => ∃ v, Into (valley N) u v ∧ ∃ s, Gets (valley N) sa v s) = Finset.univ.erase last := by
      ext u
      simp only [Finset.mem_filter, Finset.mem_univ, true_and, Finset.mem_erase, and_true]
      constructor
      · rintro ⟨v, hv, -⟩ hu
        rw [hinto, hu] at hv
        have := v.isLt
        have : last.val = N - 1 := rfl
        omega
      · intro hu
        have : u.val ≠ N - 1 := fun h => hu (Fin.ext h)
        have := u.isLt
        exact ⟨⟨u.val + 1, by omega⟩, (hinto _ _).2 rfl, last, hgets _⟩
    rw [this, Finset.card_erase_of_mem (Finset.mem_univ _), Finset.card_univ, Fintype.card_fin]
  have c3 : (Finset.univ.filter (Carries (valley N) sa)).card = N - 1 := by
    have : (Finset.univ.filter (Carries (valley N) sa)) = Finset.univ.erase ⟨0, hN⟩ := by
      ext u
      simp only [Finset.mem_filter, Finset.mem_univ, true_and, Finset.mem_erase, and_true]
      constructor
      · rintro ⟨⟨v, hv⟩, -⟩ rfl
        rw [hinto] at hv
        simp at hv
      · intro hu
        have : u.val ≠ 0 := fun h => hu (Fin.ext h)
        have := u.isLt
        exact ⟨⟨⟨u.val - 1, by omega⟩, (hinto _ _).2 (by simp only; omega)⟩, last, hgets _⟩
    rw [this, Finset.card_erase_of_mem (Finset.mem_univ _), Finset.card_univ, Fintype.card_fin]
  rw [c1, c2] at h3
  rw [c3] at h4
  refine ⟨ir, t, c, h1, by omega, ?_⟩
  have := Finset.sum_range_id_mul_two (N - 1)
  rw [show N - 1 - 1 = N - 2 by omega] at this
  omega

/-- five cells in a valley: five cells taken, six comparisons -/
example : (irunbndT 9 (valley 5) fun n => if n.val + 1 = 5 then 1 else 0).map (fun x => x.2) = .ok (5, 6) := by decide +kernel

/-- a circle of two cells, the first a stream cell: three cells taken, two comparisons -/
example : (irunbndT 9 ![1, 0] ![1, 0]).map (fun x => (List.ofFn x.1, x.2)) = .ok ([1, 1], 3, 2) := by decide +kernel

end Dany.Irun
