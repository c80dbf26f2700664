import Verif.Flood.Again

/-!
# C121–C124: how much `fill_sinks` raises, and what the result depends on
-/

namespace Dany.Flood

variable {N : ℕ} {V : Type*} [LinearOrder V]

/-! ### Paths -/

theorem PathTop.reach {nbr : Fin N → List ℕ} {dem : Fin N → V} {S : Fin N → Prop} {n : Fin N} {v : V}
    (h : PathTop nbr dem S n v) : Reach nbr S n := by
  induction h with
  | seed hs => exact .seed hs
  | step _ ha ih => exact .step ih ha

/-- A never ascending path on a surface `z` above the ground gives a path whose highest ground elevation is
not above `z`. -/
theorem pathTop_of_drains {nbr : Fin N → List ℕ} (hsym : SymmNbr nbr) {dem z : Fin N → V} {S : Fin N → Prop}
    (hz : ∀ n, dem n ≤ z n) {n : Fin N} (h : Drains (· ≤ ·) nbr z S n) : ∃ v ≤ z n, PathTop nbr dem S n v := by
  induction h with
  | @outlet s hs => exact ⟨dem s, hz s, .seed hs⟩
  | @step n c ha hl _ ih =>
    obtain ⟨v, hv, hp⟩ := ih
    exact ⟨_, max_le (hv.trans hl) (hz n), .step hp (hsym _ _ ha)⟩

theorem Drains.reach {down : V → V → Prop} {nbr : Fin N → List ℕ} (hsym : SymmNbr nbr) {f : Fin N → V}
    {S : Fin N → Prop} {n : Fin N} (h : Drains down nbr f S n) : Reach nbr S n := by
  induction h with
  | outlet hs => exact .seed hs
  | step ha _ _ ih => exact .step ih (hsym _ _ ha)

/-! ### C121 -/

/-- **C121.**  'complete' is the least possible filling: a surface above the DEM on which a cell has a path to
the grid edge that never ascends is at least as high there. -/
theorem C121_least {fuel : ℕ} {raise : V → V} {flood : V} {g : Grid N} {dem out z : Fin N → V}
    {method : String} (hmeth : method.toLower = "complete") (hsym : SymmNbr g.nbr)
    (h : fillSinks fuel raise flood g dem none method = .ok out) (hz : ∀ n, dem n ≤ z n) {n : Fin N}
    (hd : Drains (· ≤ ·) g.nbr z (Edge.OnEdge g.iverts) n) : out n ≤ z n := by
  obtain ⟨v, hv, hp⟩ := pathTop_of_drains hsym hz hd
  exact ((C06_spill hmeth h n (hd.reach hsym)).2 hp).trans hv

/-- **C121.**  No method fills less than 'complete'. -/
theorem C121_methods {fuel fuel' : ℕ} {raise : V → V} {flood : V} {g : Grid N} {dem out out' : Fin N → V}
    {method method' : String} (hmeth : method.toLower = "complete") (hinf : ∀ x, x ≤ raise x)
    (hmono : Monotone raise) (hsym : SymmNbr g.nbr)
    (hfl : effective (none : Option (Fin N → Bool)) method' = .drain → ∀ n, dem n ≤ flood)
    (h : fillSinks fuel raise flood g dem none method = .ok out)
    (h' : fillSinks fuel' raise flood g dem none method' = .ok out') (n : Fin N)
    (hn : effective (none : Option (Fin N → Bool)) method' = .drain → out n ≤ flood) :
    out n ≤ out' n := by
  by_cases hr : Reach g.nbr (Edge.OnEdge g.iverts) n
  · have hs := C06_spill hmeth h n hr
    by_cases heff : effective (none : Option (Fin N → Bool)) method' = .drain
    · rcases (C10_drain_least hinf hmono (hfl heff) heff h' n).1 with hf | hp
      · rw [hf]; exact hn heff
      · have key : ∀ k v, PathRise raise g.nbr dem (Edge.OnEdge g.iverts) k v →
            ∃ v' ≤ v, PathTop g.nbr dem (Edge.OnEdge g.iverts) k v' := by
          intro k v hv
          induction hv with
          | @seed s hs => exact ⟨_, le_rfl, .seed hs⟩
          | @step c k v _ ha ih =>
            obtain ⟨v', hle, hv'⟩ := ih
            exact ⟨_, max_le (hle.trans ((hinf v).trans (le_max_right _ _))) (le_max_left _ _),
              .step hv' (hsym _ _ ha)⟩
        obtain ⟨v', hle, hv'⟩ := key n _ hp
        exact (hs.2 hv').trans hle
    · exact C121_least hmeth hsym h (C01_never_lowers hinf (fun e => absurd e heff) h')
        (C03_complete_drains hinf hsym heff h' n hr)
  · have heff : effective (none : Option (Fin N → Bool)) method ≠ .drain := by
      simp [effective, hmeth]
    rw [C04_disconnected hinf heff h n hr]
    by_cases he : effective (none : Option (Fin N → Bool)) method' = .drain
    · exact C01_never_lowers hinf hfl h' n
    · exact C01_never_lowers hinf hfl h' n

/-! ### C122 -/

/-- A path on which no cell is higher than `w`. -/
theorem pathTop_iff {nbr : Fin N → List ℕ} (hsym : SymmNbr nbr) {dem : Fin N → V} {S : Fin N → Prop} {w : V}
    {n : Fin N} (hn : dem n ≤ w) :
    (∃ v ≤ w, PathTop nbr dem S n v) ↔ Drains (fun x _ => x ≤ w) nbr dem S n := by
  constructor
  · rintro ⟨v, hv, hp⟩
    clear hn
    induction hp with
    | seed hs => exact .outlet hs
    | @step c k v hp ha ih =>
      refine .step (hsym _ _ ha) ?_ (ih ((le_max_left _ _).trans hv))
      have : ∀ c v, PathTop nbr dem S c v → dem c ≤ v := by
        intro c v h
        cases h with
        | seed => exact le_rfl
        | step => exact le_max_right _ _
      exact (this c v hp).trans ((le_max_left _ _).trans hv)
  · intro h
    induction h with
    | outlet hs => exact ⟨_, hn, .seed hs⟩
    | @step k c ha hl _ ih =>
      obtain ⟨v, hv, hp⟩ := ih hl
      exact ⟨_, max_le hv hn, .step hp (hsym _ _ ha)⟩

/-- **C122** ('complete').  A cell connected to the grid edge keeps its elevation exactly if it has a path to
the edge on which no cell is higher than itself. -/
theorem C122_complete {fuel : ℕ} {raise : V → V} {flood : V} {g : Grid N} {dem out : Fin N → V}
    {method : String} (hinf : ∀ x, x ≤ raise x) (hmeth : method.toLower = "complete") (hsym : SymmNbr g.nbr)
    (h : fillSinks fuel raise flood g dem none method = .ok out) (n : Fin N)
    (hn : Reach g.nbr (Edge.OnEdge g.iverts) n) :
    out n = dem n ↔ Drains (fun x _ => x ≤ dem n) g.nbr dem (Edge.OnEdge g.iverts) n := by
  have hs := C06_spill hmeth h n hn
  rw [← pathTop_iff hsym le_rfl]
  constructor
  · intro e; exact ⟨out n, e.le, hs.1⟩
  · rintro ⟨v, hv, hp⟩
    exact le_antisymm ((hs.2 hp).trans hv)
      (C01_never_lowers hinf (fun e => by simp [effective, hmeth] at e) h n)

/-- **C122** ('priority').  Such a cell is raised by at most `N` increments.  That it can be raised at
all shows `C122_priority_raises`. -/
theorem C122_priority {fuel : ℕ} {raise : V → V} {flood : V} {g : Grid N} {dem out : Fin N → V}
    {method : String} (hinf : ∀ x, x ≤ raise x) (hmono : Monotone raise) (hmeth : method.toLower = "priority")
    (hsym : SymmNbr g.nbr) (h : fillSinks fuel raise flood g dem none method = .ok out) (n : Fin N)
    (hn : Drains (fun x _ => x ≤ dem n) g.nbr dem (Edge.OnEdge g.iverts) n) : out n ≤ raise^[N] (dem n) := by
  obtain ⟨w, hw, _, hle⟩ := C09_overfill hinf hmono hmeth h n (hn.reach hsym)
  obtain ⟨v, hv, hp⟩ := (pathTop_iff hsym le_rfl).2 hn
  exact hle.trans (hmono.iterate N ((hw.2 hp).trans hv))

/-! ### C123: numbering of the cells -/

/-- The cells of `g` get new numbers: cell `n` becomes cell `σ n`; the vertices can have new numbers too, and the order
of the neighbours in a list is arbitrary.  Cells on the edge stay on the edge, neighbours stay neighbours. -/
structure Renumbered (σ : Fin N ≃ Fin N) (g g' : Grid N) : Prop where
  edge : ∀ n, Edge.OnEdge g'.iverts (σ n) ↔ Edge.OnEdge g.iverts n
  adj : ∀ a b, Adj g'.nbr (σ a) (σ b) ↔ Adj g.nbr a b

variable {σ : Fin N ≃ Fin N} {g g' : Grid N}

/-- if the vertices keep their numbers, the edge stays the same -/
theorem edge_of_verts (h : ∀ n, g'.iverts (σ n) = g.iverts n) (n : Fin N) :
    Edge.OnEdge g'.iverts (σ n) ↔ Edge.OnEdge g.iverts n := by
  constructor
  · rintro ⟨a, b, hs, hu⟩
    refine ⟨a, b, by rwa [h] at hs, fun m hm => σ.injective (hu _ ?_)⟩
    rwa [h]
  · rintro ⟨a, b, hs, hu⟩
    refine ⟨a, b, by rwa [h], fun m hm => ?_⟩
    rw [← σ.apply_symm_apply m, h] at hm
    rw [← hu _ hm, σ.apply_symm_apply]

theorem Renumbered.symm (h : Renumbered σ g g') : Renumbered σ.symm g' g where
  edge n := by rw [← h.edge, σ.apply_symm_apply]
  adj a b := by rw [← h.adj, σ.apply_symm_apply, σ.apply_symm_apply]

theorem Renumbered.edge_imp (h : Renumbered σ g g') {n : Fin N} (hn : Edge.OnEdge g.iverts n) :
    Edge.OnEdge g'.iverts (σ n) := (h.edge n).2 hn

theorem Renumbered.pathTop (h : Renumbered σ g g') {dem dem' : Fin N → V} (hd : ∀ n, dem' (σ n) = dem n)
    {n : Fin N} {v : V} (hp : PathTop g.nbr dem (Edge.OnEdge g.iverts) n v) :
    PathTop g'.nbr dem' (Edge.OnEdge g'.iverts) (σ n) v := by
  induction hp with
  | seed hs => rw [← hd]; exact .seed (h.edge_imp hs)
  | step _ ha ih => rw [← hd]; exact .step ih ((h.adj _ _).2 ha)

theorem Renumbered.pathRise (h : Renumbered σ g g') {raise : V → V} {dem dem' : Fin N → V}
    (hd : ∀ n, dem' (σ n) = dem n) {n : Fin N} {v : V}
    (hp : PathRise raise g.nbr dem (Edge.OnEdge g.iverts) n v) :
    PathRise raise g'.nbr dem' (Edge.OnEdge g'.iverts) (σ n) v := by
  induction hp with
  | seed hs => rw [← hd]; exact .seed (h.edge_imp hs)
  | step _ ha ih => rw [← hd]; exact .step ih ((h.adj _ _).2 ha)

theorem Renumbered.reach (h : Renumbered σ g g') {n : Fin N} (hp : Reach g.nbr (Edge.OnEdge g.iverts) n) :
    Reach g'.nbr (Edge.OnEdge g'.iverts) (σ n) := by
  induction hp with
  | seed hs => exact .seed (h.edge_imp hs)
  | step _ ha ih => exact .step ih ((h.adj _ _).2 ha)

theorem Renumbered.back {dem dem' : Fin N → V} (hd : ∀ n, dem' (σ n) = dem n) (n : Fin N) :
    dem (σ.symm n) = dem' n := by rw [← hd, σ.apply_symm_apply]

theorem Renumbered.isSpill (h : Renumbered σ g g') {dem dem' : Fin N → V} (hd : ∀ n, dem' (σ n) = dem n)
    {n : Fin N} {v : V} (hp : IsSpill g.nbr dem (Edge.OnEdge g.iverts) n v) :
    IsSpill g'.nbr dem' (Edge.OnEdge g'.iverts) (σ n) v := by
  refine ⟨h.pathTop hd hp.1, fun w hw => hp.2 ?_⟩
  have := h.symm.pathTop (Renumbered.back hd) hw
  rwa [σ.symm_apply_apply] at this

/-- **C123** ('complete').  The filled elevations do not depend on the numbers of the cells. -/
theorem C123_complete (h : Renumbered σ g g') {fuel fuel' : ℕ} {raise : V → V} {flood : V}
    {dem dem' out out' : Fin N → V} {method : String} (hinf : ∀ x, x ≤ raise x)
    (hmeth : method.toLower = "complete") (hd : ∀ n, dem' (σ n) = dem n)
    (h1 : fillSinks fuel raise flood g dem none method = .ok out)
    (h2 : fillSinks fuel' raise flood g' dem' none method = .ok out') (n : Fin N) : out' (σ n) = out n := by
  have heff : effective (none : Option (Fin N → Bool)) method ≠ .drain := by simp [effective, hmeth]
  by_cases hn : Reach g.nbr (Edge.OnEdge g.iverts) n
  · exact (C06_spill hmeth h2 _ (h.reach hn)).unique (h.isSpill hd (C06_spill hmeth h1 n hn))
  · rw [C04_disconnected hinf heff h1 n hn, C04_disconnected hinf heff h2 (σ n), hd]
    intro hc
    have := h.symm.reach hc
    rw [σ.symm_apply_apply] at this
    exact hn this

/-- **C123** ('drain'). -/
theorem C123_drain (h : Renumbered σ g g') {fuel fuel' : ℕ} {raise : V → V} {flood : V}
    {dem dem' out out' : Fin N → V} {method : String} (hinf : ∀ x, x ≤ raise x) (hmono : Monotone raise)
    (heff : effective (none : Option (Fin N → Bool)) method = .drain) (hfl : ∀ n, dem n ≤ flood)
    (hd : ∀ n, dem' (σ n) = dem n)
    (h1 : fillSinks fuel raise flood g dem none method = .ok out)
    (h2 : fillSinks fuel' raise flood g' dem' none method = .ok out') (n : Fin N) : out' (σ n) = out n := by
  have l1 := C10_drain_least hinf hmono hfl heff h1 n
  have l2 := C10_drain_least hinf hmono (fun k => by rw [← Renumbered.back hd]; exact hfl _) heff h2 (σ n)
  have e : {v | v = flood ∨ PathRise raise g'.nbr dem' (Edge.OnEdge g'.iverts) (σ n) v} =
      {v | v = flood ∨ PathRise raise g.nbr dem (Edge.OnEdge g.iverts) n v} := by
    ext v
    refine or_congr_right ⟨fun hv => ?_, fun hv => h.pathRise hd hv⟩
    have := h.symm.pathRise (Renumbered.back hd) hv
    rwa [σ.symm_apply_apply] at this
  rw [e] at l2
  exact l2.unique l1

/-- **C123** ('priority').  The results for two numberings differ by at most `N` increments.  That they
need not be equal shows `C123_priority_differs`. -/
theorem C123_priority (h : Renumbered σ g g') {fuel fuel' : ℕ} {raise : V → V} {flood : V}
    {dem dem' out out' : Fin N → V} {method : String} (hinf : ∀ x, x ≤ raise x) (hmono : Monotone raise)
    (hmeth : method.toLower = "priority") (hd : ∀ n, dem' (σ n) = dem n)
    (h1 : fillSinks fuel raise flood g dem none method = .ok out)
    (h2 : fillSinks fuel' raise flood g' dem' none method = .ok out') (n : Fin N) :
    out' (σ n) ≤ raise^[N] (out n) ∧ out n ≤ raise^[N] (out' (σ n)) := by
  have heff : effective (none : Option (Fin N → Bool)) method ≠ .drain := by simp [effective, hmeth]
  by_cases hn : Reach g.nbr (Edge.OnEdge g.iverts) n
  · obtain ⟨w, hw, hl, hu⟩ := C09_overfill hinf hmono hmeth h1 n hn
    obtain ⟨w', hw', hl', hu'⟩ := C09_overfill hinf hmono hmeth h2 _ (h.reach hn)
    have e := hw'.unique (h.isSpill hd hw)
    rw [e] at hl' hu'
    exact ⟨hu'.trans (hmono.iterate N hl), hu.trans (hmono.iterate N hl')⟩
  · have hit : ∀ x, x ≤ raise^[N] x := fun x => Function.id_le_iterate_of_id_le hinf N x
    have h2' : out' (σ n) = out n := by
      rw [C04_disconnected hinf heff h1 n hn, C04_disconnected hinf heff h2 (σ n), hd]
      intro hc
      have := h.symm.reach hc
      rw [σ.symm_apply_apply] at this
      exact hn this
    rw [h2']
    exact ⟨hit _, hit _⟩

/-! ### C124: higher ground, higher result -/

/-- **C124** ('drain'). -/
theorem C124_drain {fuel fuel' : ℕ} {raise : V → V} {flood : V} {g : Grid N}
    {dem dem' out out' : Fin N → V} {method : String} (hinf : ∀ x, x ≤ raise x) (hmono : Monotone raise)
    (heff : effective (none : Option (Fin N → Bool)) method = .drain)
    (hle : ∀ n, dem n ≤ dem' n) (hfl : ∀ n, dem' n ≤ flood)
    (h : fillSinks fuel raise flood g dem none method = .ok out)
    (h' : fillSinks fuel' raise flood g dem' none method = .ok out') (n : Fin N) : out n ≤ out' n := by
  have l1 := C10_drain_least hinf hmono (fun n => (hle n).trans (hfl n)) heff h n
  have l2 := C10_drain_least hinf hmono hfl heff h' n
  rcases l2.1 with e | hp
  · rw [e]; exact l1.2 (.inl rfl)
  · have key : ∀ k v, PathRise raise g.nbr dem' (Edge.OnEdge g.iverts) k v →
        ∃ v' ≤ v, PathRise raise g.nbr dem (Edge.OnEdge g.iverts) k v' := by
      intro k v hv
      induction hv with
      | @seed s hs => exact ⟨dem s, hle s, .seed hs⟩
      | @step c k v hv ha ih =>
        obtain ⟨v', hle', hv'⟩ := ih
        exact ⟨_, max_le_max (hle k) (hmono hle'), .step hv' ha⟩
    obtain ⟨v', hle', hv'⟩ := key n _ hp
    exact (l1.2 (.inr hv')).trans hle'

/-- **C124** ('priority').  Up to `N` increments.  That they are needed shows `C124_priority_lowers`. -/
theorem C124_priority {fuel fuel' : ℕ} {raise : V → V} {flood : V} {g : Grid N}
    {dem dem' out out' : Fin N → V} {method : String} (hinf : ∀ x, x ≤ raise x) (hmono : Monotone raise)
    (hmeth : method.toLower = "priority") (hle : ∀ n, dem n ≤ dem' n)
    (h : fillSinks fuel raise flood g dem none method = .ok out)
    (h' : fillSinks fuel' raise flood g dem' none method = .ok out') (n : Fin N) :
    out n ≤ raise^[N] (out' n) := by
  have heff : effective (none : Option (Fin N → Bool)) method ≠ .drain := by simp [effective, hmeth]
  by_cases hn : Reach g.nbr (Edge.OnEdge g.iverts) n
  · obtain ⟨w, hw, hl, hu⟩ := C09_overfill hinf hmono hmeth h n hn
    obtain ⟨w', hw', hl', hu'⟩ := C09_overfill hinf hmono hmeth h' n hn
    have key : ∀ k v, PathTop g.nbr dem' (Edge.OnEdge g.iverts) k v →
        ∃ v' ≤ v, PathTop g.nbr dem (Edge.OnEdge g.iverts) k v' := by
      intro k v hv
      induction hv with
      | @seed s hs => exact ⟨dem s, hle s, .seed hs⟩
      | @step c k v hv ha ih =>
        obtain ⟨v', hle', hv'⟩ := ih
        exact ⟨_, max_le_max hle' (hle k), .step hv' ha⟩
    obtain ⟨v', hle', hv'⟩ := key n _ hw'.1
    exact hu.trans (hmono.iterate N (((hw.2 hv').trans hle').trans hl'))
  · rw [C04_disconnected hinf heff h n hn, C04_disconnected hinf heff h' n hn]
    exact (hle n).trans (Function.id_le_iterate_of_id_le hinf N _)

/-! ### C125: larger eps, higher result -/

/-- **C125** ('drain'). -/
theorem C125_drain {fuel fuel' : ℕ} {raise raise' : V → V} {flood : V} {g : Grid N}
    {dem out out' : Fin N → V} {method : String} (hinf : ∀ x, x ≤ raise x) (hmono : Monotone raise)
    (hmono' : Monotone raise') (hrr : ∀ x, raise x ≤ raise' x)
    (heff : effective (none : Option (Fin N → Bool)) method = .drain) (hfl : ∀ n, dem n ≤ flood)
    (h : fillSinks fuel raise flood g dem none method = .ok out)
    (h' : fillSinks fuel' raise' flood g dem none method = .ok out') (n : Fin N) : out n ≤ out' n := by
  have l1 := C10_drain_least hinf hmono hfl heff h n
  have l2 := C10_drain_least (fun x => (hinf x).trans (hrr x)) hmono' hfl heff h' n
  rcases l2.1 with e | hp
  · rw [e]; exact l1.2 (.inl rfl)
  · have key : ∀ k v, PathRise raise' g.nbr dem (Edge.OnEdge g.iverts) k v →
        ∃ v' ≤ v, PathRise raise g.nbr dem (Edge.OnEdge g.iverts) k v' := by
      intro k v hv
      induction hv with
      | @seed s hs => exact ⟨dem s, le_rfl, .seed hs⟩
      | @step c k v hv ha ih =>
        obtain ⟨v', hle', hv'⟩ := ih
        exact ⟨_, max_le_max le_rfl ((hmono hle').trans (hrr v)), .step hv' ha⟩
    obtain ⟨v', hle', hv'⟩ := key n _ hp
    exact (l1.2 (.inr hv')).trans hle'

/-- **C125** ('priority').  Up to `N` of the smaller increments.  That they are needed shows
`C125_priority_lowers`. -/
theorem C125_priority {fuel fuel' : ℕ} {raise raise' : V → V} {flood : V} {g : Grid N}
    {dem out out' : Fin N → V} {method : String} (hinf : ∀ x, x ≤ raise x) (hmono : Monotone raise)
    (hmono' : Monotone raise') (hrr : ∀ x, raise x ≤ raise' x) (hmeth : method.toLower = "priority")
    (h : fillSinks fuel raise flood g dem none method = .ok out)
    (h' : fillSinks fuel' raise' flood g dem none method = .ok out') (n : Fin N) :
    out n ≤ raise^[N] (out' n) := by
  have heff : effective (none : Option (Fin N → Bool)) method ≠ .drain := by simp [effective, hmeth]
  have hinf' : ∀ x, x ≤ raise' x := fun x => (hinf x).trans (hrr x)
  by_cases hn : Reach g.nbr (Edge.OnEdge g.iverts) n
  · obtain ⟨w, hw, _, hu⟩ := C09_overfill hinf hmono hmeth h n hn
    obtain ⟨w', hw', hl', _⟩ := C09_overfill hinf' hmono' hmeth h' n hn
    rw [hw'.unique hw] at hl'
    exact hu.trans (hmono.iterate N hl')
  · rw [C04_disconnected hinf heff h n hn, C04_disconnected hinf' heff h' n hn]
    exact Function.id_le_iterate_of_id_le hinf N _

end Dany.Flood
