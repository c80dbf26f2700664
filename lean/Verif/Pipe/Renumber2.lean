import Verif.Pipe.Renumber
import Verif.Casc.Rows
import Verif.Irun.Props
import Verif.Basin.Order

/-!
# C195–C197: what the numbering of the cells does to subbasins, cascades and runoff

Cell `n` of the one grid is cell `σ n` of the other.
-/

namespace Dany.Pipe

open Dany.Flow

variable {N : ℕ} {K : Type*} {σ : Fin N ≃ Fin N} {fdir fdir' : Fin N → ℤ} {d d' : Fin N → Fin N}

/-! ### Subbasins -/

private theorem firstOn (h : SameFlow σ fdir fdir') (hd : Legal fdir d) (hd' : Legal fdir' d') {cells cells' : List (Fin N)}
    (hc : ∀ c, σ c ∈ cells' ↔ c ∈ cells) {u p : Fin N} (hf : Basin.FirstOn d (· ∈ cells) u p) :
    Basin.FirstOn d' (· ∈ cells') (σ u) (σ p) := by
  obtain ⟨k, e, hp, hno⟩ := hf
  exact ⟨k, by rw [same_iter h hd hd', e], (hc p).2 hp, fun j hj => by rw [same_iter h hd hd']; exact fun hh => hno j hj ((hc _).1 hh)⟩

private theorem first_or_none (d : Fin N → Fin N) (cells : List (Fin N)) (u : Fin N) :
    (∃ p, Basin.FirstOn d (· ∈ cells) u p) ∨ ∀ p ∈ cells, ¬ Reaches d u p := by
  by_cases hh : ∃ k : ℕ, d^[k] u ∈ cells
  · classical
    exact .inl ⟨_, Nat.find hh, rfl, Nat.find_spec hh, fun j hj => Nat.find_min hh hj⟩
  · exact .inr fun p hp ⟨k, hk⟩ => hh ⟨k, by rwa [hk]⟩

/-- **C195**, subbasins: the same division of the cells, the labels may differ. -/
theorem C195_subbasins (h : SameFlow σ fdir fdir') (hd : Legal fdir d) (hd' : Legal fdir' d') {cells cells' : List (Fin N)}
    (hc : ∀ c, σ c ∈ cells' ↔ c ∈ cells) (h0 : ∀ c ∈ cells, c.val ≠ 0) (h0' : ∀ c ∈ cells', c.val ≠ 0)
    (hcyc : ∀ c ∈ cells, ¬ OnCycle d c) {limit limit' fuel fuel' : ℕ} (hf : 2 * N + 1 < fuel) (hf' : 2 * N + 1 < fuel')
    {t t' : Basin.State N} {out out' : Fin N → ℕ}
    (hr : Basin.subbasins limit fuel ⟨fdir, none⟩ cells = .ok (t, out))
    (hr' : Basin.subbasins limit' fuel' ⟨fdir', none⟩ cells' = .ok (t', out')) (u v : Fin N) :
    (out' (σ u) = 0 ↔ out u = 0) ∧ (out' (σ u) = out' (σ v) ↔ out u = out v) := by
  obtain ⟨lab, hpos, hinj, _, hfirst, hnone⟩ := Basin.C38_returned (s := ⟨fdir, none⟩) hd (fun _ e => by cases e) h0 hcyc hf hr
  have hcyc' : ∀ c ∈ cells', ¬ OnCycle d' c := by
    intro c hcc
    obtain ⟨c, rfl⟩ := σ.surjective c
    rw [same_onCycle h hd hd']
    exact hcyc c ((hc c).1 hcc)
  obtain ⟨lab', hpos', hinj', _, hfirst', hnone'⟩ := Basin.C38_returned (s := ⟨fdir', none⟩) hd' (fun _ e => by cases e) h0' hcyc' hf' hr'
  have spec : ∀ u, (∃ p ∈ cells, out u = lab p ∧ out' (σ u) = lab' (σ p)) ∨ (out u = 0 ∧ out' (σ u) = 0) := by
    intro u
    rcases first_or_none d cells u with ⟨p, hp⟩ | hno
    · exact .inl ⟨p, hp.choose_spec.2.1, hfirst u p hp, hfirst' _ _ (firstOn h hd hd' hc hp)⟩
    · refine .inr ⟨hnone u hno, hnone' _ fun q hq => ?_⟩
      obtain ⟨q, rfl⟩ := σ.surjective q
      rw [same_reaches h hd hd']
      exact hno q ((hc q).1 hq)
  have pos : ∀ p ∈ cells, 1 ≤ lab p ∧ 1 ≤ lab' (σ p) := fun p hp => ⟨(hpos p hp).1, (hpos' _ ((hc p).2 hp)).1⟩
  have inj : ∀ p ∈ cells, ∀ q ∈ cells, (lab' (σ p) = lab' (σ q) ↔ lab p = lab q) := fun p hp q hq =>
    ⟨fun e => by rw [σ.injective (hinj' _ ((hc p).2 hp) _ ((hc q).2 hq) e)], fun e => by rw [hinj p hp q hq e]⟩
  rcases spec u with ⟨p, hp, e, e'⟩ | ⟨e, e'⟩ <;> rcases spec v with ⟨q, hq, f, f'⟩ | ⟨f, f'⟩ <;> rw [e, e', f, f']
  · have := pos p hp
    exact ⟨by omega, inj p hp q hq⟩
  · have := pos p hp
    exact ⟨by omega, by omega⟩
  · have := pos q hq
    exact ⟨by omega, by omega⟩
  · exact ⟨Iff.rfl, Iff.rfl⟩

/-! ### Cascades -/

section Cascades

variable [Field K] [LinearOrder K] {o o' t t' : Reach.Obj N} {active active' : Fin N → Bool}

/-- **C195**, many-to-one cascades: the same links. -/
theorem C195_cascades (h : SameFlow σ o.fdir o'.fdir) (hd : Legal o.fdir d) (hd' : Legal o'.fdir d')
    (hact : ∀ n, active' (σ n) = active n) {limit limit' : ℕ} {nbs nbs' : Fin N → List (Fin N × Option K)}
    {arg arg' : Option (Fin N → ℤ)} {rows rows' : List (Casc.Row K)}
    (hr : Casc.getCascades limit nbs o arg active false = .ok (t, rows))
    (hr' : Casc.getCascades limit' nbs' o' arg' active' false = .ok (t', rows')) (n m : Fin N) (p : K) :
    (∃ s, (⟨((σ n : ℕ) : ℤ) + 1, ((σ m : ℕ) : ℤ) + 1, p, s⟩ : Casc.Row K) ∈ rows') ↔
      ∃ s, (⟨((n : ℕ) : ℤ) + 1, ((m : ℕ) : ℤ) + 1, p, s⟩ : Casc.Row K) ∈ rows := by
  rw [Casc.C62_links hd.resolves (fun n => by rw [hd n]; omega) hr,
    Casc.C62_links hd'.resolves (fun n => by rw [hd' n]; omega) hr']
  refine and_congr_right fun _ => ?_
  have ev : ∀ a b : Fin N, (((a : ℕ) : ℤ) + 1 = ((b : ℕ) : ℤ) + 1) ↔ a = b := fun a b =>
    ⟨fun e => Fin.ext (by omega), fun e => by rw [e]⟩
  constructor
  · rintro ⟨k, hk⟩
    obtain ⟨k, rfl⟩ := σ.surjective k
    rw [hact, same_step h hd hd', hact, hd', same_step h hd hd', ev, ev, ev, σ.injective.eq_iff, σ.injective.eq_iff,
      σ.injective.eq_iff] at hk
    refine ⟨k, ?_⟩
    rw [hd, ev, ev, ev]
    exact hk
  · rintro ⟨k, hk⟩
    rw [hd, ev, ev, ev] at hk
    refine ⟨σ k, ?_⟩
    rw [hact, same_step h hd hd', hact, hd', same_step h hd hd', ev, ev, ev, σ.injective.eq_iff, σ.injective.eq_iff,
      σ.injective.eq_iff]
    exact hk

private theorem cand_perm {l l' : List (Fin N × Option K)} (hl : l'.Perm (l.map fun e => (σ e.1, e.2))) :
    (Casc.candidates l').Perm ((Casc.candidates l).map fun e => (σ e.1, e.2)) := by
  refine (hl.filterMap _).trans (List.Perm.of_eq ?_)
  unfold Casc.candidates
  rw [List.filterMap_map, List.map_filterMap]
  congr 1
  funext e
  obtain ⟨c, s⟩ := e
  cases s with
  | none => rfl
  | some s =>
    simp only [Function.comp_apply]
    split <;> rfl

private theorem absSum_perm {l l' : List (Fin N × K)} (hl : l'.Perm (l.map fun e => (σ e.1, e.2))) :
    Casc.absSum l' = Casc.absSum l := by
  unfold Casc.absSum
  rw [(hl.map _).sum_eq, List.map_map]
  rfl

private theorem filter_perm {l l' : List (Fin N × K)} {P P' : Fin N × K → Bool}
    (hP : ∀ e ∈ l, P' (σ e.1, e.2) = P e) (hl : l'.Perm (l.map fun e => (σ e.1, e.2))) :
    (l'.filter P').Perm ((l.filter P).map fun e => (σ e.1, e.2)) := by
  refine (hl.filter P').trans (List.Perm.of_eq ?_)
  rw [List.filter_map]
  congr 1
  exact List.filter_congr fun e he => hP e he

private theorem land_iff {fd fd' : Fin N → ℤ} {l l' : List (Fin N × Option K)}
    (hz : ∀ c, fd' (σ c) = 0 ↔ fd c = 0) (hl : l'.Perm (l.map fun e => (σ e.1, e.2))) (n m : Fin N) (p : K) :
    (((σ n : ℕ) : ℤ), ((σ m : ℕ) : ℤ), p) ∈ Casc.landLinks fd' l' (σ n) ↔
      (((n : ℕ) : ℤ), ((m : ℕ) : ℤ), p) ∈ Casc.landLinks fd l n := by
  have h1 := filter_perm (P := fun e => decide (fd e.1 ≠ 0)) (P' := fun e => decide (fd' e.1 ≠ 0))
    (fun e _ => by simp only [ne_eq, hz]) (cand_perm hl)
  have hA := absSum_perm h1
  have h2 := filter_perm
    (P := fun e => decide (1 / 100 < |e.2| / Casc.absSum ((Casc.candidates l).filter fun e => decide (fd e.1 ≠ 0))))
    (P' := fun e => decide (1 / 100 < |e.2| / Casc.absSum ((Casc.candidates l').filter fun e => decide (fd' e.1 ≠ 0))))
    (fun e _ => by rw [hA]) h1
  have hB := absSum_perm h2
  unfold Casc.landLinks
  dsimp only
  rw [List.mem_map, List.mem_map, hB]
  simp only [Prod.mk.injEq, Nat.cast_inj, Fin.val_inj, true_and]
  constructor
  · rintro ⟨e, he, e1, e2⟩
    obtain ⟨x, hx, rfl⟩ := List.mem_map.1 (h2.mem_iff.1 he)
    exact ⟨x, hx, σ.injective e1, e2⟩
  · rintro ⟨e, he, e1, e2⟩
    exact ⟨(σ e.1, e.2), h2.mem_iff.2 (List.mem_map.2 ⟨e, he, rfl⟩), by rw [e1], e2⟩

/-- **C197 (partial).**  Many-to-many cascades: the same links with the same fractions, if the same active cells drain
into cell number 0 in both numberings (e.g. none, or if cell 0 keeps its number).  Missing: other numberings, for which
this is false (`C197_refuted`). -/
theorem C197_cascades_partial (h : SameFlow σ o.fdir o'.fdir) (hd : Legal o.fdir d) (hd' : Legal o'.fdir d')
    (hact : ∀ n, active' (σ n) = active n)
    (hzero : ∀ n, active n = true → ((d' (σ n)).val = 0 ↔ (d n).val = 0))
    {nbs nbs' : Fin N → List (Fin N × Option K)}
    (hnbs : ∀ n, (nbs' (σ n)).Perm ((nbs n).map fun e => (σ e.1, e.2)))
    {arg arg' : Option (Fin N → ℤ)} {sa sa' : Fin N → ℤ} (hg : Casc.Given o arg sa) (hg' : Casc.Given o' arg' sa')
    (hsa : ∀ n, 0 ≤ sa n) (hsa' : ∀ n, sa' (σ n) = sa n) {limit limit' : ℕ} {rows rows' : List (Casc.Row K)}
    (hr : Casc.getCascades limit nbs o arg active true = .ok (t, rows))
    (hr' : Casc.getCascades limit' nbs' o' arg' active' true = .ok (t', rows')) (n m : Fin N) (p : K) :
    (∃ s, (⟨((σ n : ℕ) : ℤ) + 1, ((σ m : ℕ) : ℤ) + 1, p, s⟩ : Casc.Row K) ∈ rows') ↔
      ∃ s, (⟨((n : ℕ) : ℤ) + 1, ((m : ℕ) : ℤ) + 1, p, s⟩ : Casc.Row K) ∈ rows := by
  have h9 : ∀ n, o.fdir n ≠ -9 := fun n => by rw [hd n]; omega
  have h9' : ∀ n, o'.fdir n ≠ -9 := fun n => by rw [hd' n]; omega
  obtain ⟨ra, links, c1, c2, c3⟩ := Casc.getCascades_inv hr
  obtain ⟨ra', links', c1', c2', c3'⟩ := Casc.getCascades_inv hr'
  simp only [if_true] at c2 c2'
  have mem : ∀ {fdir ra : Fin N → ℤ} {d : Fin N → Fin N} {active : Fin N → Bool}
      {nbs : Fin N → List (Fin N × Option K)} {links : List (ℤ × ℤ × K)}, Resolves fdir d → (∀ n, fdir n ≠ -9) →
      Casc.manyToMany fdir active ra nbs = .ok links → ∀ (n : Fin N) (v : ℤ) (p : K),
      ((((n : ℕ) : ℤ), v, p) ∈ links ↔ (((n : ℕ) : ℤ), v, p) ∈ Casc.manySpec fdir d active ra nbs n) := by
    intro fdir ra d active nbs links hd h9 hl n v p
    rw [← Casc.links_of hd h9 hl n, List.mem_filter]
    simp
  rw [Casc.mem_rows_iff c3, Casc.mem_rows_iff c3']
  simp only [add_sub_cancel_right]
  rw [mem hd.resolves h9 c2, mem hd'.resolves h9' c2']
  have sg : 0 < ra' (σ n) ↔ 0 < ra n := by
    have a := Casc.given_sign hd.resolves hg c1 n
    have b := Casc.given_sign hd'.resolves hg' c1' (σ n)
    rw [hsa'] at b
    rcases (hsa n).lt_or_eq with hp | hp
    · exact ⟨fun _ => a.2 hp, fun _ => b.2 hp⟩
    · rw [a.1 hp.symm, b.1 hp.symm]
  have hz : ∀ c, Casc.masked o'.fdir active' (σ c) = 0 ↔ Casc.masked o.fdir active c = 0 := by
    intro c
    unfold Casc.masked
    rw [hact]
    by_cases ha : active c = false
    · simp [ha]
    · have ha' : active c = true := by simpa using ha
      rw [if_neg ha, if_neg ha, hd, hd']
      have := hzero c ha'
      omega
  unfold Casc.manySpec
  rw [hact]
  by_cases ha : active n = false
  · simp [ha]
  · rw [if_neg ha, if_neg ha]
    by_cases hs : 0 < ra n
    · rw [if_pos hs, if_pos (sg.2 hs), same_step h hd hd', hact, hd, hd', same_step h hd hd']
      simp only [List.mem_singleton, Prod.mk.injEq, true_and]
      by_cases hj : active (d n) = false
      · rw [if_pos hj, if_pos hj]
        simp only [Nat.cast_inj, Fin.val_inj, σ.injective.eq_iff]
      · rw [if_neg hj, if_neg hj]
        simp only [Nat.cast_inj, Fin.val_inj, σ.injective.eq_iff]
    · rw [if_neg hs, if_neg (fun hh => hs (sg.1 hh))]
      exact land_iff hz (hnbs n) n m p

end Cascades

/-! ### Runoff -/

section Runoff

variable {sa sa' : Fin N → ℤ}

private theorem into_iff (h : SameFlow σ fdir fdir') (a b : Fin N) :
    Irun.Into fdir' (σ a) (σ b) ↔ Irun.Into fdir a b := (h a b).symm

private theorem down_fwd (h : SameFlow σ fdir fdir') {a b : Fin N} (hab : Irun.Down fdir a b) :
    Irun.Down fdir' (σ a) (σ b) := by
  induction hab with
  | refl => exact .refl
  | tail _ hs ih => exact ih.tail ((into_iff h _ _).2 hs)

private theorem down_iff (h : SameFlow σ fdir fdir') (a b : Fin N) :
    Irun.Down fdir' (σ a) (σ b) ↔ Irun.Down fdir a b := by
  refine ⟨fun hab => ?_, down_fwd h⟩
  have hb : SameFlow σ.symm fdir' fdir := fun x y => by
    have := h (σ.symm x) (σ.symm y)
    simp only [Equiv.apply_symm_apply] at this
    exact this.symm
  simpa using down_fwd hb hab

private theorem gets_iff (h : SameFlow σ fdir fdir') (hsa : ∀ n, sa' (σ n) = sa n) (u s : Fin N) :
    Irun.Gets fdir' sa' (σ u) (σ s) ↔ Irun.Gets fdir sa u s := by
  unfold Irun.Gets
  rw [hsa, down_iff h]

/-- **C196 (partial).**  Whether a cell's runoff is sent to a segment at all does not depend on the numbering, nor does
the segment if all stream cells on its flow path belong to one.  Missing: other cells, for which this is false
(`C196_refuted`). -/
theorem C196_one_segment_partial (h : SameFlow σ fdir fdir') (hsa : ∀ n, sa' (σ n) = sa n) {fuel fuel' : ℕ}
    (hf : N + 1 < fuel) (hf' : N + 1 < fuel') {ir ir' : Fin N → ℤ} (hr : Irun.irunbnd fuel fdir sa = .ok ir)
    (hr' : Irun.irunbnd fuel' fdir' sa' = .ok ir') (u : Fin N) :
    (ir' (σ u) = 0 ↔ ir u = 0) ∧
    ((∀ s t, Irun.Gets fdir sa u s → Irun.Gets fdir sa u t → sa s = sa t) → ir' (σ u) = ir u) := by
  obtain ⟨_, e, hs⟩ := Irun.C65_path (fdir := fdir) (sa := sa) hf
  obtain ⟨_, e', hs'⟩ := Irun.C65_path (fdir := fdir') (sa := sa') hf'
  rw [hr] at e
  rw [hr'] at e'
  cases e
  cases e'
  have ex : (∃ s, Irun.Gets fdir' sa' (σ u) s) ↔ ∃ s, Irun.Gets fdir sa u s := by
    constructor
    · rintro ⟨s, hg⟩
      obtain ⟨s, rfl⟩ := σ.surjective s
      exact ⟨s, (gets_iff h hsa u s).1 hg⟩
    · rintro ⟨s, hg⟩
      exact ⟨_, (gets_iff h hsa u s).2 hg⟩
  have z : ir' (σ u) = 0 ↔ ir u = 0 := not_iff_not.1 (((hs' (σ u)).1.trans ex).trans (hs u).1.symm)
  refine ⟨z, fun hone => ?_⟩
  by_cases hu : ∃ s, Irun.Gets fdir sa u s
  · obtain ⟨s, hg, e⟩ := (hs u).2 hu
    obtain ⟨s', hg', e'⟩ := (hs' (σ u)).2 (ex.2 hu)
    obtain ⟨s', rfl⟩ := σ.surjective s'
    rw [e, e', hsa, hone s' s ((gets_iff h hsa u s').1 hg') hg]
  · have a : ir u = 0 := by_contra fun hh => hu ((hs u).1.1 hh)
    rw [a, z.2 a]

end Runoff

/-! ### Concrete runs -/

/-- three cells in a row, cell 2 over 1 over 0; numbered from the other end 0 over 1 over 2 -/
def lineF : Fin 3 → ℤ := ![0, 0, 1]
def lineR : Fin 3 → ℤ := ![1, 2, 2]
def rev3 : Fin 3 ≃ Fin 3 := Fin.revPerm
theorem line_same : SameFlow rev3 lineF lineR := by unfold SameFlow; decide +kernel
theorem line_legal : Legal lineF ![0, 0, 1] ∧ Legal lineR ![1, 2, 2] := by unfold Legal; decide +kernel

/-- **C196 is false of the code.**  The runoff of the land cell goes to segment 2 in the one numbering, to segment 1 in
the other. -/
theorem C196_refuted : ∃ (σ : Fin 3 ≃ Fin 3) (fdir fdir' sa sa' ir ir' : Fin 3 → ℤ), SameFlow σ fdir fdir' ∧
    (∀ n, sa' (σ n) = sa n) ∧ Irun.irunbnd 9 fdir sa = .ok ir ∧ Irun.irunbnd 9 fdir' sa' = .ok ir' ∧
    ir 2 = 2 ∧ ir' (σ 2) = 1 :=
  ⟨Equiv.swap 0 1, ![0, 0, 1], ![1, 1, 0], ![2, 1, 0], ![1, 2, 0], ![2, 1, 2], ![2, 2, 1],
    by unfold SameFlow; decide +kernel, by decide +kernel, by decide +kernel, by decide +kernel, by decide, by decide⟩

-- one segment only: the same in both numberings
example {ir ir' : Fin 3 → ℤ} (hr : Irun.irunbnd 9 lineF ![7, 7, 0] = .ok ir)
    (hr' : Irun.irunbnd 9 lineR ![0, 7, 7] = .ok ir') : ir' 0 = ir 2 :=
  (C196_one_segment_partial line_same (sa := ![7, 7, 0]) (sa' := ![0, 7, 7]) (by decide +kernel) (by decide) (by decide) hr hr' 2).2 (by
    have : ∀ s : Fin 3, 0 < (![7, 7, 0] : Fin 3 → ℤ) s → (![7, 7, 0] : Fin 3 → ℤ) s = 7 := by decide
    rintro s t ⟨hs, _⟩ ⟨ht, _⟩
    rw [this s hs, this t ht])
example : (∃ ir, Irun.irunbnd 9 lineF ![7, 7, 0] = .ok ir) ∧ ∃ ir, Irun.irunbnd 9 lineR ![0, 7, 7] = .ok ir :=
  ⟨⟨![7, 7, 7], by decide +kernel⟩, ⟨![7, 7, 7], by decide +kernel⟩⟩

def lineN : Fin 3 → List (Fin 3 × Option ℚ) := ![[(1, some 1)], [(0, some (-1)), (2, some 1)], [(1, some (-1))]]
def lineNR : Fin 3 → List (Fin 3 × Option ℚ) := ![[(1, some (-1))], [(0, some 1), (2, some (-1))], [(1, some 1)]]
def lineO : Reach.Obj 3 := ⟨lineF, some ![1, 0, 0], none⟩
def lineOR : Reach.Obj 3 := ⟨lineR, some ![0, 0, 1], none⟩

private theorem get_rows {N : ℕ} {r : Res (Reach.Obj N × List (Casc.Row ℚ))} {rows : List (Casc.Row ℚ)}
    (h : r.map Prod.snd = .ok rows) : ∃ t, r = .ok (t, rows) := by
  obtain ⟨⟨t, x⟩, h1, rfl⟩ := Res.map_eq_ok.1 h
  exact ⟨t, h1⟩

/-- **C197 is false of the code.**  Numbered with the outlet as cell 0 the upper land cell passes on nothing, numbered
from the other end it passes on all its water. -/
theorem C197_refuted : ∃ (σ : Fin 3 ≃ Fin 3) (o o' t t' : Reach.Obj 3) (nbs nbs' : Fin 3 → List (Fin 3 × Option ℚ))
    (rows rows' : List (Casc.Row ℚ)), SameFlow σ o.fdir o'.fdir ∧
    (∀ n, (nbs' (σ n)).Perm ((nbs n).map fun e => (σ e.1, e.2))) ∧
    (∃ sa sa', o.streamArray = some sa ∧ o'.streamArray = some sa' ∧ ∀ n, sa' (σ n) = sa n) ∧
    Casc.getCascades 9 nbs o none (fun _ => true) true = .ok (t, rows) ∧
    Casc.getCascades 9 nbs' o' none (fun _ => true) true = .ok (t', rows') ∧
    (∀ r ∈ rows, r.up ≠ ((2 : Fin 3) : ℕ) + 1) ∧ ∃ r ∈ rows', r.up = ((σ 2 : ℕ) : ℤ) + 1 := by
  obtain ⟨t, h⟩ := get_rows (rows := [⟨1, 1, 1, 1⟩])
    (r := Casc.getCascades 9 lineN lineO none (fun _ => true) true) (by decide +kernel)
  obtain ⟨t', h'⟩ := get_rows (rows := [⟨1, 2, 1, 0⟩, ⟨2, 3, 1, 1⟩, ⟨3, 3, 1, 1⟩])
    (r := Casc.getCascades 9 lineNR lineOR none (fun _ => true) true) (by decide +kernel)
  exact ⟨rev3, lineO, lineOR, t, t', lineN, lineNR, _, _, line_same, by decide +kernel,
    ⟨_, _, rfl, rfl, by decide +kernel⟩, h, h', by decide +kernel, by decide +kernel⟩

/-! Four cells in a row, cell 3 over 2 over 1 over the outlet; cell 0 is apart (and flows to itself). -/

def rowF : Fin 5 → ℤ := ![0, 1, 1, 2, 3]
def rowR : Fin 5 → ℤ := ![0, 2, 3, 4, 4]
/-- cell 0 keeps its number -/
def keep0 : Fin 5 ≃ Fin 5 := (Equiv.swap 1 4).trans (Equiv.swap 2 3)
theorem path_same : SameFlow keep0 rowF rowR := by unfold SameFlow; decide +kernel
theorem path_legal : Legal rowF ![0, 1, 1, 2, 3] ∧ Legal rowR ![0, 2, 3, 4, 4] := by unfold Legal; decide +kernel
theorem row_off (c : Fin 5) (hc : c = 1 ∨ c = 3) : ¬ OnCycle (![0, 1, 1, 2, 3] : Fin 5 → Fin 5) c :=
  not_onCycle_of_reaches (n := 1) (fun h => h.1 rfl) (by rcases hc with rfl | rfl <;> exact ⟨2, by decide⟩)
def rowN : Fin 5 → List (Fin 5 × Option ℚ) :=
  ![[], [(2, some 1)], [(1, some (-1)), (3, some 1)], [(2, some (-1)), (1, some (-3)), (4, some 1)], [(3, some (-1))]]
def rowNR : Fin 5 → List (Fin 5 × Option ℚ) :=
  ![[], [(2, some (-1))], [(1, some 1), (3, some (-1)), (4, some (-3))], [(2, some 1), (4, some (-1))], [(3, some 1)]]
def rowO : Reach.Obj 5 := ⟨rowF, some ![0, 1, 0, 0, 0], none⟩
def rowOR : Reach.Obj 5 := ⟨rowR, some ![0, 0, 0, 0, 1], none⟩

example {t t' : Reach.Obj 5} {rows rows' : List (Casc.Row ℚ)}
    (h : Casc.getCascades 9 rowN rowO none (fun _ => true) true = .ok (t, rows))
    (h' : Casc.getCascades 9 rowNR rowOR none (fun _ => true) true = .ok (t', rows')) :
    (∃ s, (⟨3, 5, 3/4, s⟩ : Casc.Row ℚ) ∈ rows') ↔ ∃ s, (⟨4, 2, 3/4, s⟩ : Casc.Row ℚ) ∈ rows :=
  C197_cascades_partial (d := ![0, 1, 1, 2, 3]) (d' := ![0, 2, 3, 4, 4]) (sa := ![0, 1, 0, 0, 0]) (sa' := ![0, 0, 0, 0, 1])
    path_same path_legal.1 path_legal.2 (fun _ => rfl) (by decide +kernel) (by decide +kernel) (.inr ⟨rfl, rfl⟩) (.inr ⟨rfl, rfl⟩)
    (by decide) (by decide +kernel) h h' 3 1 (3/4)
-- and there is such a row
example : (Casc.getCascades 9 rowN rowO none (fun _ => true) true).map Prod.snd =
    .ok [⟨2, 2, 1, 1⟩, ⟨3, 2, 1, 1⟩, ⟨4, 3, 1/4, 0⟩, ⟨4, 2, 3/4, 1⟩, ⟨5, 4, 1, 0⟩] := by decide +kernel

example {t t' : Reach.Obj 5} {rows rows' : List (Casc.Row ℚ)}
    (h : Casc.getCascades 9 rowN rowO none (fun _ => true) false = .ok (t, rows))
    (h' : Casc.getCascades 9 rowNR rowOR none (fun _ => true) false = .ok (t', rows')) :
    (∃ s, (⟨3, 4, 1, s⟩ : Casc.Row ℚ) ∈ rows') ↔ ∃ s, (⟨4, 3, 1, s⟩ : Casc.Row ℚ) ∈ rows :=
  C195_cascades (σ := keep0) (o := rowO) (o' := rowOR) (d := ![0, 1, 1, 2, 3]) (d' := ![0, 2, 3, 4, 4]) 
    path_same path_legal.1 path_legal.2 (fun _ => rfl) h h' 3 2 1

example {t t' : Basin.State 5} {out out' : Fin 5 → ℕ}
    (h : Basin.subbasins 9 20 ⟨rowF, none⟩ [1, 3] = .ok (t, out))
    (h' : Basin.subbasins 9 20 ⟨rowR, none⟩ [2, 4] = .ok (t', out')) : out' 1 = out' 2 ↔ out 4 = out 3 :=
  (C195_subbasins path_same path_legal.1 path_legal.2 (by decide +kernel) (by decide) (by decide)
    (fun c hc => row_off c (by revert c; decide)) (by decide) (by decide) h h' 4 3).2

end Dany.Pipe
