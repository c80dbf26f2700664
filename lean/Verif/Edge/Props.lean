import Verif.Edge.Lemmas
import Mathlib.Tactic.Ring

/-!
# Properties C15 and C16: identification of grid-edge cells
-/

namespace Dany.Edge

variable {N : ℕ}

/-- **C15** (which cells).  When `_identify_edge_nodes` returns, the result lists, in strictly
increasing order (so without repetition), exactly the cells having a side that no other cell has. -/
theorem C15_edge_nodes {iverts : Fin N → List ℕ} {l : List (Fin N)} (h : edgeNodes iverts = .ok l) :
    l.Pairwise (· < ·) ∧ ∀ n, n ∈ l ↔ OnEdge iverts n := by
  obtain ⟨g, hg, rfl⟩ := Res.map_eq_ok.1 h
  have hperm := List.perm_insertionSort (· ≤ ·) (unionSingles (edgesAndNodes g).values)
  have hsort := List.pairwise_insertionSort (· ≤ ·) (unionSingles (edgesAndNodes g).values)
  have hnd := hperm.nodup_iff.2 (unionSingles_spec (edgesAndNodes g).values).1
  refine ⟨?_, fun n => by rw [hperm.mem_iff]; exact mem_edge hg n⟩
  refine (hsort.and hnd).imp ?_
  rintro a b ⟨h1, h2⟩
  exact lt_of_le_of_ne h1 h2

/-- **C15** (no exception on a proper grid). -/
theorem C15_total {iverts : Fin N → List ℕ} (h : ∀ n, iverts n ≠ []) :
    ∃ l, edgeNodes iverts = .ok l := by
  obtain ⟨g, hg⟩ := geoms_total h (List.finRange N)
  exact ⟨_, by rw [edgeNodes, hg]; rfl⟩

theorem isSide_rotate (r : List ℕ) (k a b : ℕ) : IsSide (r.rotate k) a b ↔ IsSide r a b := by
  unfold IsSide
  rw [List.length_rotate]
  constructor
  · rintro ⟨i, hi, h⟩
    have h0 : 0 < r.length := by omega
    refine ⟨(i + k) % r.length, Nat.mod_lt _ h0, ?_⟩
    rw [List.getElem?_rotate hi, List.getElem?_rotate (Nat.mod_lt _ h0)] at h
    have : ((i + k) % r.length + 1) % r.length = ((i + 1) % r.length + k) % r.length := by
      simp only [Nat.mod_add_mod]; congr 1; omega
    rw [this]; exact h
  · rintro ⟨i, hi, h⟩
    have h0 : 0 < r.length := by omega
    have hk : k % r.length < r.length := Nat.mod_lt _ h0
    refine ⟨(i + (r.length - k % r.length)) % r.length, Nat.mod_lt _ h0, ?_⟩
    rw [List.getElem?_rotate (Nat.mod_lt _ h0), List.getElem?_rotate (Nat.mod_lt _ h0)]
    have e0 : ∀ j, (j + (r.length - k % r.length) + k) % r.length = j % r.length := by
      intro j
      have : j + (r.length - k % r.length) + k = j + r.length * (k / r.length + 1) := by
        have := Nat.div_add_mod k r.length
        rw [Nat.mul_add]; omega
      rw [this, Nat.add_mul_mod_self_left]
    have e1 : ((i + (r.length - k % r.length)) % r.length + k) % r.length = i := by
      rw [Nat.mod_add_mod, e0, Nat.mod_eq_of_lt hi]
    have e2 : (((i + (r.length - k % r.length)) % r.length + 1) % r.length + k) % r.length
        = (i + 1) % r.length := by
      rw [Nat.mod_add_mod, Nat.add_assoc, Nat.mod_add_mod, ← e0 (i + 1)]
      congr 1; omega
    rw [e1, e2]; exact h

theorem isSide_reverse_mp (r : List ℕ) (a b : ℕ) (h : IsSide r a b) : IsSide r.reverse a b := by
  unfold IsSide at *
  rw [List.length_reverse]
  obtain ⟨i, hi, h⟩ := h
  have h0 : 0 < r.length := by omega
  by_cases hl : i + 1 < r.length
  · refine ⟨r.length - 2 - i, by omega, ?_⟩
    rw [Nat.mod_eq_of_lt hl] at h
    rw [Nat.mod_eq_of_lt (by omega : r.length - 2 - i + 1 < r.length),
      List.getElem?_reverse (by omega), List.getElem?_reverse (by omega)]
    have e1 : r.length - 1 - (r.length - 2 - i) = i + 1 := by omega
    have e2 : r.length - 1 - (r.length - 2 - i + 1) = i := by omega
    rw [e1, e2]; tauto
  · have hi' : i + 1 = r.length := by omega
    refine ⟨r.length - 1, by omega, ?_⟩
    rw [hi', Nat.mod_self] at h
    rw [show r.length - 1 + 1 = r.length by omega, Nat.mod_self,
      List.getElem?_reverse (by omega), List.getElem?_reverse (by omega)]
    rw [show r.length - 1 - (r.length - 1) = 0 by omega, show r.length - 1 - 0 = i by omega]
    tauto

theorem isSide_reverse (r : List ℕ) (a b : ℕ) : IsSide r.reverse a b ↔ IsSide r a b :=
  ⟨fun h => by simpa using isSide_reverse_mp _ a b h, isSide_reverse_mp r a b⟩

/-- Two vertex lists describe the same polygon: the same ring up to start vertex and orientation
(and up to repetition of the first vertex at the end, which `ring` removes). -/
def SamePoly (p q : List ℕ) : Prop :=
  q ≠ [] ∧ ∃ k, ring p = (ring q).rotate k ∨ ring p = (ring q).reverse.rotate k

/-- **C15** (presentation does not matter).  Changing start vertex, orientation or closing vertex of
any polygons does not change the result. -/
theorem C15_presentation {iverts iverts' : Fin N → List ℕ} (h0 : ∀ n, iverts n ≠ [])
    (h : ∀ n, SamePoly (iverts n) (iverts' n)) : edgeNodes iverts = edgeNodes iverts' := by
  obtain ⟨l, hl⟩ := C15_total h0
  obtain ⟨l', hl'⟩ := C15_total (fun n => (h n).1)
  obtain ⟨h1, h2⟩ := C15_edge_nodes hl
  obtain ⟨h1', h2'⟩ := C15_edge_nodes hl'
  have hside : ∀ n a b, IsSide (ring (iverts n)) a b ↔ IsSide (ring (iverts' n)) a b := by
    intro n a b
    obtain ⟨_, k, hk | hk⟩ := h n
    · rw [hk, isSide_rotate]
    · rw [hk, isSide_rotate, isSide_reverse]
  have hmem : ∀ n, n ∈ l ↔ n ∈ l' := by
    intro n
    rw [h2, h2']
    simp only [OnEdge, hside]
  rw [hl, hl']
  congr 1
  have hlt : ∀ a b : Fin N, a < b → ¬ b < a := fun a b h => not_lt.2 h.le
  exact List.Perm.eq_of_pairwise (fun a b _ _ h1 h2 => absurd h2 (hlt a b h1)) h1 h1'
    ((List.perm_ext_iff_of_nodup (h1.imp ne_of_lt) (h1'.imp ne_of_lt)).2 hmem)

/-- A polygon and the same polygon with its first vertex repeated at the end are the same. -/
theorem ring_close (p : List ℕ) (hp : p ≠ []) (h : p.head? ≠ p.getLast?) :
    ring (p ++ [p.head hp]) = ring p := by
  unfold ring
  rw [if_neg h]
  have : (p ++ [p.head hp]).head? = (p ++ [p.head hp]).getLast? := by
    rw [List.getLast?_append, List.head?_append, List.head?_eq_some_head hp]; simp
  rw [if_pos this, List.dropLast_concat]

/-- Two unit squares side by side; the second is listed clockwise, rotated and closed. -/
example : edgeNodes (![[0, 1, 4, 3], [1, 2, 5, 4]] : Fin 2 → List ℕ) = .ok [0, 1] ∧
    edgeNodes (![[0, 1, 4, 3], [5, 2, 1, 4, 5]] : Fin 2 → List ℕ) = .ok [0, 1] := by decide +kernel

example : SamePoly [1, 2, 5, 4] [5, 2, 1, 4, 5] :=
  ⟨by decide, 1, .inr (by decide)⟩

/-! ### C16: rectangular grids -/

/-- Vertex numbers of the cells of FloPy's structured `nrow × ncol` grid
(`StructuredGrid.iverts`, external): upper left, upper right, lower right, lower left. -/
def structuredVerts (nrow ncol : ℕ) (n : Fin (nrow * ncol)) : List ℕ :=
  let i := n.val / ncol
  let j := n.val % ncol
  [i * (ncol + 1) + j, i * (ncol + 1) + j + 1, (i + 1) * (ncol + 1) + j + 1, (i + 1) * (ncol + 1) + j]

theorem vert_inj {W y x y' x' : ℕ} (hx : x < W) (hx' : x' < W) (h : y * W + x = y' * W + x') :
    y = y' ∧ x = x' := by
  have h1 : (y * W + x) / W = y := by
    rw [Nat.add_comm, Nat.add_mul_div_right _ _ (by omega), Nat.div_eq_of_lt hx, Nat.zero_add]
  have h2 : (y' * W + x') / W = y' := by
    rw [Nat.add_comm, Nat.add_mul_div_right _ _ (by omega), Nat.div_eq_of_lt hx', Nat.zero_add]
  have : y = y' := by rw [← h1, ← h2, h]
  subst this
  exact ⟨rfl, by omega⟩

theorem isSide_quad {p q r s a b : ℕ} :
    IsSide [p, q, r, s] a b ↔ ((a = p ∧ b = q) ∨ (a = q ∧ b = p)) ∨ ((a = q ∧ b = r) ∨ (a = r ∧ b = q)) ∨
      ((a = r ∧ b = s) ∨ (a = s ∧ b = r)) ∨ ((a = s ∧ b = p) ∨ (a = p ∧ b = s)) := by
  unfold IsSide
  constructor
  · rintro ⟨i, hi, h⟩
    have : i = 0 ∨ i = 1 ∨ i = 2 ∨ i = 3 := by simp at hi; omega
    rcases this with rfl | rfl | rfl | rfl <;> simp at h <;>
      rcases h with ⟨rfl, rfl⟩ | ⟨rfl, rfl⟩ <;> simp
  · rintro (h | h | h | h)
    · exact ⟨0, by simp, by simp; tauto⟩
    · exact ⟨1, by simp, by simp; tauto⟩
    · exact ⟨2, by simp, by simp; tauto⟩
    · exact ⟨3, by simp, by simp; tauto⟩

theorem ring_structured (nrow ncol : ℕ) (n : Fin (nrow * ncol)) :
    ring (structuredVerts nrow ncol n) = structuredVerts nrow ncol n := by
  unfold ring structuredVerts
  rw [if_neg]
  simp only [List.head?_cons, List.getLast?_cons_cons, List.getLast?_singleton, Option.some.injEq]
  intro h
  have : (n.val / ncol + 1) * (ncol + 1) = n.val / ncol * (ncol + 1) + (ncol + 1) := by ring
  omega

/-- **C16.**  On a structured grid the edge cells are exactly those in the first or last row or in
the first or last column. -/
theorem C16_structured_edge {nrow ncol : ℕ} {l : List (Fin (nrow * ncol))}
    (h : edgeNodes (structuredVerts nrow ncol) = .ok l) (n : Fin (nrow * ncol)) :
    n ∈ l ↔ n.val / ncol = 0 ∨ n.val / ncol + 1 = nrow ∨ n.val % ncol = 0 ∨ n.val % ncol + 1 = ncol := by
  rw [(C15_edge_nodes h).2 n]
  have hc : 0 < ncol := by
    rcases Nat.eq_zero_or_pos ncol with h0 | h0
    · have := n.isLt; simp [h0] at this
    · exact h0
  have hi : ∀ m : Fin (nrow * ncol), m.val / ncol < nrow := fun m => by
    rw [Nat.div_lt_iff_lt_mul hc]; exact m.isLt
  have hj : ∀ m : Fin (nrow * ncol), m.val % ncol < ncol := fun m => Nat.mod_lt _ hc
  have hext : ∀ m m' : Fin (nrow * ncol), m.val / ncol = m'.val / ncol → m.val % ncol = m'.val % ncol →
      m = m' := by
    intro m m' h1 h2
    apply Fin.ext
    rw [← Nat.div_add_mod m.val ncol, ← Nat.div_add_mod m'.val ncol, h1, h2]
  have hmk : ∀ y x, y < nrow → x < ncol → ∃ m : Fin (nrow * ncol), m.val / ncol = y ∧ m.val % ncol = x := by
    intro y x hy hx
    have hlt : y * ncol + x < nrow * ncol := by
      calc y * ncol + x < y * ncol + ncol := by omega
        _ = (y + 1) * ncol := by ring
        _ ≤ nrow * ncol := Nat.mul_le_mul_right _ hy
    refine ⟨⟨y * ncol + x, hlt⟩, ?_, ?_⟩
    · show (y * ncol + x) / ncol = y
      rw [Nat.add_comm, Nat.add_mul_div_right _ _ hc, Nat.div_eq_of_lt hx, Nat.zero_add]
    · show (y * ncol + x) % ncol = x
      rw [Nat.add_comm, Nat.add_mul_mod_self_right, Nat.mod_eq_of_lt hx]
  have hinj : ∀ {y x y' x' : ℕ}, x < ncol + 1 → x' < ncol + 1 →
      y * (ncol + 1) + x = y' * (ncol + 1) + x' → y = y' ∧ x = x' := fun h1 h2 h3 => vert_inj h1 h2 h3
  -- membership of horizontal and vertical unit segments in the sides of a cell
  have hH : ∀ (m : Fin (nrow * ncol)) (y x : ℕ), x < ncol →
      (IsSide (ring (structuredVerts nrow ncol m)) (y * (ncol + 1) + x) (y * (ncol + 1) + (x + 1)) ↔
        m.val % ncol = x ∧ (m.val / ncol = y ∨ m.val / ncol + 1 = y)) := by
    intro m y x hx
    rw [ring_structured]
    unfold structuredVerts
    rw [isSide_quad]
    have hm := hj m
    generalize m.val / ncol = i at *
    generalize m.val % ncol = j at *
    constructor
    · rintro ((⟨h1, h2⟩ | ⟨h1, h2⟩) | (⟨h1, h2⟩ | ⟨h1, h2⟩) | (⟨h1, h2⟩ | ⟨h1, h2⟩) | (⟨h1, h2⟩ | ⟨h1, h2⟩)) <;>
      (try rw [Nat.add_assoc _ j 1] at h1) <;> (try rw [Nat.add_assoc _ j 1] at h2) <;>
      have e1 := hinj (by omega) (by omega) h1 <;> have e2 := hinj (by omega) (by omega) h2 <;> omega
    · rintro ⟨rfl, rfl | rfl⟩
      · left; left; exact ⟨rfl, rfl⟩
      · right; right; left; right; exact ⟨rfl, rfl⟩
  have hV : ∀ (m : Fin (nrow * ncol)) (y x : ℕ), x < ncol + 1 →
      (IsSide (ring (structuredVerts nrow ncol m)) (y * (ncol + 1) + x) ((y + 1) * (ncol + 1) + x) ↔
        m.val / ncol = y ∧ (m.val % ncol = x ∨ m.val % ncol + 1 = x)) := by
    intro m y x hx
    rw [ring_structured]
    unfold structuredVerts
    rw [isSide_quad]
    have hm := hj m
    generalize m.val / ncol = i at *
    generalize m.val % ncol = j at *
    constructor
    · rintro ((⟨h1, h2⟩ | ⟨h1, h2⟩) | (⟨h1, h2⟩ | ⟨h1, h2⟩) | (⟨h1, h2⟩ | ⟨h1, h2⟩) | (⟨h1, h2⟩ | ⟨h1, h2⟩)) <;>
      (try rw [Nat.add_assoc _ j 1] at h1) <;> (try rw [Nat.add_assoc _ j 1] at h2) <;>
      have e1 := hinj (by omega) (by omega) h1 <;> have e2 := hinj (by omega) (by omega) h2 <;> omega
    · rintro ⟨rfl, rfl | rfl⟩
      · right; right; right; right; exact ⟨rfl, rfl⟩
      · right; left; left; exact ⟨rfl, rfl⟩
  have hin := hi n
  have hjn := hj n
  constructor
  · -- an interior cell shares each of its sides
    rintro ⟨a, b, hs, hun⟩
    by_contra hcon
    push Not at hcon
    obtain ⟨c1, c2, c3, c4⟩ := hcon
    have hs' := hs
    rw [ring_structured] at hs'
    unfold structuredVerts at hs'
    rw [isSide_quad] at hs'
    have swap : ∀ m a b, IsSide (ring (structuredVerts nrow ncol m)) a b →
        IsSide (ring (structuredVerts nrow ncol m)) b a := by
      rintro m a b ⟨i, hi, h⟩; exact ⟨i, hi, by tauto⟩
    have top : ∃ m, m ≠ n ∧ IsSide (ring (structuredVerts nrow ncol m))
        (n.val / ncol * (ncol + 1) + n.val % ncol) (n.val / ncol * (ncol + 1) + (n.val % ncol + 1)) := by
      obtain ⟨m, m1, m2⟩ := hmk (n.val / ncol - 1) (n.val % ncol) (lt_of_le_of_lt (Nat.sub_le _ _) hin) hjn
      refine ⟨m, fun e => ?_, (hH m _ _ hjn).2 ⟨m2, .inr (by rw [m1]; exact Nat.sub_add_cancel (Nat.pos_of_ne_zero c1))⟩⟩
      rw [e] at m1
      exact absurd m1.symm (Nat.sub_one_lt c1).ne
    have bot : ∃ m, m ≠ n ∧ IsSide (ring (structuredVerts nrow ncol m))
        ((n.val / ncol + 1) * (ncol + 1) + n.val % ncol) ((n.val / ncol + 1) * (ncol + 1) + (n.val % ncol + 1)) := by
      obtain ⟨m, m1, m2⟩ := hmk (n.val / ncol + 1) (n.val % ncol) (by omega) hjn
      refine ⟨m, by rintro rfl; omega, (hH m _ _ hjn).2 ⟨m2, .inl (by omega)⟩⟩
    have lef : ∃ m, m ≠ n ∧ IsSide (ring (structuredVerts nrow ncol m))
        (n.val / ncol * (ncol + 1) + n.val % ncol) ((n.val / ncol + 1) * (ncol + 1) + n.val % ncol) := by
      obtain ⟨m, m1, m2⟩ := hmk (n.val / ncol) (n.val % ncol - 1) hin (by omega)
      refine ⟨m, by rintro rfl; omega, (hV m _ _ (by omega)).2 ⟨m1, .inr (by omega)⟩⟩
    have rig : ∃ m, m ≠ n ∧ IsSide (ring (structuredVerts nrow ncol m))
        (n.val / ncol * (ncol + 1) + (n.val % ncol + 1)) ((n.val / ncol + 1) * (ncol + 1) + (n.val % ncol + 1)) := by
      obtain ⟨m, m1, m2⟩ := hmk (n.val / ncol) (n.val % ncol + 1) hin (by omega)
      refine ⟨m, by rintro rfl; omega, (hV m _ _ (by omega)).2 ⟨m1, .inl (by omega)⟩⟩
    rcases hs' with ((⟨rfl, rfl⟩ | ⟨rfl, rfl⟩) | (⟨rfl, rfl⟩ | ⟨rfl, rfl⟩) | (⟨rfl, rfl⟩ | ⟨rfl, rfl⟩) |
      (⟨rfl, rfl⟩ | ⟨rfl, rfl⟩))
    · obtain ⟨m, hne, hm⟩ := top; exact hne (hun m hm)
    · obtain ⟨m, hne, hm⟩ := top; exact hne (hun m (swap m _ _ hm))
    · obtain ⟨m, hne, hm⟩ := rig; exact hne (hun m hm)
    · obtain ⟨m, hne, hm⟩ := rig; exact hne (hun m (swap m _ _ hm))
    · obtain ⟨m, hne, hm⟩ := bot; exact hne (hun m (swap m _ _ hm))
    · obtain ⟨m, hne, hm⟩ := bot; exact hne (hun m hm)
    · obtain ⟨m, hne, hm⟩ := lef; exact hne (hun m (swap m _ _ hm))
    · obtain ⟨m, hne, hm⟩ := lef; exact hne (hun m hm)
  · rintro (h0 | h0 | h0 | h0)
    · refine ⟨_, _, (hH n 0 (n.val % ncol) hjn).2 ⟨rfl, .inl h0⟩, fun m hm => ?_⟩
      obtain ⟨e1, e2⟩ := (hH m _ _ hjn).1 hm
      refine hext m n ?_ e1
      rw [h0]
      exact e2.resolve_right (Nat.succ_ne_zero _)
    · refine ⟨_, _, (hH n nrow (n.val % ncol) hjn).2 ⟨rfl, .inr h0⟩, fun m hm => ?_⟩
      have := (hH m _ _ hjn).1 hm
      have := hi m
      exact hext m n (by omega) (by omega)
    · refine ⟨_, _, (hV n (n.val / ncol) 0 (by omega)).2 ⟨rfl, .inl h0⟩, fun m hm => ?_⟩
      have := (hV m _ _ (by omega)).1 hm
      exact hext m n (by omega) (by omega)
    · refine ⟨_, _, (hV n (n.val / ncol) ncol (by omega)).2 ⟨rfl, .inr h0⟩, fun m hm => ?_⟩
      have := (hV m _ _ (by omega)).1 hm
      have := hj m
      exact hext m n (by omega) (by omega)

/-- A 3 × 3 grid: every cell but the centre. -/
example : edgeNodes (structuredVerts 3 3) = .ok [0, 1, 2, 3, 5, 6, 7, 8] := by decide +kernel

end Dany.Edge
