import Verif.Rdata.Witness
import Verif.Float.Round

/-!
# Reach tops in single precision (C150)

The columns of FloPy's reach data that hold numbers other than counts are `float32`
(`ModflowSfr2.get_empty_reach_data`, called at stream_util.py:828).
-/

namespace Dany.Rdata

open Function Reach Seg Float

variable {N limit fuel : ℕ} {G : SGrid N ℚ}

/-- what FloPy's table keeps of a row: `reach_data["strtop"] = basic_rec[7]` and so on
(stream_util.py:828-842) round to single precision -/
def single (r : Row ℚ) : Row ℚ :=
  { r with rchlen := rnd32 r.rchlen, strtop := r.strtop.map rnd32, slope := r.slope.map rnd32,
           strthick := rnd32 r.strthick, strhc1 := rnd32 r.strhc1 }

/-- **C150** as one would expect it: on a stream whose cells lie strictly lower than the ones before, reach tops in the table
`reach_data` returns fall strictly from each reach to the one its cell flows to. -/
def TopsFall (N : ℕ) : Prop :=
  ∀ (limit fuel : ℕ) (G : SGrid N ℚ) (o o' : Obj N) (sa : Fin N → ℤ) (grp : Bool) (tbl : List (Row ℚ)),
    N ≤ fuel → o.net = none → (∀ n m : Fin N, o.fdir n = m.val → m ≠ n → ∃ a b, G.top n = some a ∧ G.top m = some b ∧
      a ∈ Double ∧ b ∈ Double ∧ b < a) →
    o.reachData limit fuel G (some sa) grp = .ok (o', tbl) →
    ∀ r ∈ tbl.map single, ∀ q ∈ tbl.map single, ∀ n m : Fin N, r.node = n.val → q.node = m.val →
      Feeds o.fdir sa n m → m ≠ n → ∃ x y, r.strtop = some x ∧ q.strtop = some y ∧ y < x

/-- the top of a row is that of its cell -/
theorem row_top (hf : N ≤ fuel) {o o' : Obj N} {arg : Option (Fin N → ℤ)} {grp : Bool} {tbl : List (Row ℚ)}
    (hs : o.Sound limit fuel) (h : o.reachData limit fuel G arg grp = .ok (o', tbl)) {r : Row ℚ} (hr : r ∈ tbl)
    {n : Fin N} (hn : r.node = n.val) : r.strtop = G.top n := by
  obtain ⟨sg, nsr, rows, _, _, _, hlen, hk⟩ := C71_numbering hf hs h
  obtain ⟨k, hk1, hk2⟩ := List.mem_iff_getElem.1 hr
  obtain ⟨row, e1, _, e3, _, _, _, _, _, e9, _⟩ :=
    hk k (rows[k]'(by omega)).1 (rows[k]'(by omega)).2.1 (rows[k]'(by omega)).2.2
      (List.getElem?_eq_getElem (by omega))
  rw [List.getElem?_eq_getElem hk1] at e1
  simp only [Option.some.injEq] at e1
  rw [hk2] at e1
  subst e1
  have : (rows[k]'(by omega)).1 = n := Fin.ext (by rw [e3] at hn; exact_mod_cast hn)
  rw [e9, this]

/-- **C150**, what holds (partial): reach tops never rise from a reach to the one its cell flows to, and they fall if two
different single-precision numbers lie between the elevations of the cells (ends included). -/
theorem C150_tops_partial (hf : N ≤ fuel) {o o' : Obj N} {arg : Option (Fin N → ℤ)} {grp : Bool}
    {tbl : List (Row ℚ)} (hs : o.Sound limit fuel) (h : o.reachData limit fuel G arg grp = .ok (o', tbl))
    {r q : Row ℚ} (hr : r ∈ tbl.map single) (hq : q ∈ tbl.map single) {n m : Fin N} (hn : r.node = n.val)
    (hm : q.node = m.val) {a b : ℚ} (ha : G.top n = some a) (hb : G.top m = some b) (hlt : b < a) :
    ∃ x y, r.strtop = some x ∧ q.strtop = some y ∧ y ≤ x ∧
      ((∃ v ∈ Single, ∃ w ∈ Single, b ≤ v ∧ v < w ∧ w ≤ a) → y < x) := by
  obtain ⟨r', hr', rfl⟩ := List.mem_map.1 hr
  obtain ⟨q', hq', rfl⟩ := List.mem_map.1 hq
  have h1 := row_top hf hs h hr' hn
  have h2 := row_top hf hs h hq' hm
  refine ⟨rnd32 a, rnd32 b, by simp [single, h1, ha], by simp [single, h2, hb], rnd32_nearest.mono hlt.le, ?_⟩
  rintro ⟨v, hv, w, hw, k1, k2, k3⟩
  exact lt_of_le_of_lt (rnd32_nearest.le_of_le hv k1) (lt_of_lt_of_le k2 (rnd32_nearest.ge_of_ge hw k3))

/-- two cells, the upper one 2e-6, the default `eps` of `fill_sinks`, above the other -/
def Gs2 : SGrid 2 ℚ :=
  ⟨2, fun n => (n.val : ℕ), fun _ => 0, ![some (rnd64 (100 + rnd64 (1 / 500000))), some 100], fun _ => 1, fun _ => 1, id⟩
def os2 : Obj 2 := ⟨![1, 1], none, none⟩

theorem os2_table : (os2.reachData 10 10 Gs2 (some ![1, 1]) true).map (fun r => r.2.map fun x => (x.node, x.strtop)) =
    .ok [(0, some (rnd64 (100 + rnd64 (1 / 500000)))), (1, some 100)] := by decide +kernel

theorem two_rows {tbl : List (Row ℚ)} {t u : ℚ}
    (ht : tbl.map (fun x => (x.node, x.strtop)) = [(0, some t), (1, some u)]) :
    ∃ r ∈ tbl, ∃ q ∈ tbl, r.node = 0 ∧ q.node = 1 ∧ r.strtop = some t ∧ q.strtop = some u := by
  have h1 : ((0 : ℤ), some t) ∈ tbl.map (fun x => (x.node, x.strtop)) := by rw [ht]; simp
  have h2 : ((1 : ℤ), some u) ∈ tbl.map (fun x => (x.node, x.strtop)) := by rw [ht]; simp
  obtain ⟨r, hr, e1⟩ := List.mem_map.1 h1
  obtain ⟨q, hq, e2⟩ := List.mem_map.1 h2
  rw [Prod.mk.injEq] at e1 e2
  exact ⟨r, hr, q, hq, e1.1, e2.1, e1.2, e2.2⟩

/-- **C150 is false**: at an elevation of 100 the default raise of filled flats, 2e-6, is lost in single precision. -/
theorem C150_refuted : ¬ TopsFall 2 := by
  intro hall
  obtain ⟨⟨o', tbl⟩, h, ht⟩ := Res.map_eq_ok.1 os2_table
  have hd : (100 : ℚ) ∈ Double := by
    have : rnd64 100 = 100 := by decide +kernel
    rw [← this]; exact rnd64_nearest.mem _
  have key := hall 10 10 Gs2 os2 o' ![1, 1] true tbl (by norm_num) rfl ?_ h
  · have e5 : rnd32 (rnd64 (100 + rnd64 (1 / 500000))) = rnd32 100 := by decide +kernel
    obtain ⟨r, hr, q, hq, e1, e3, e2, e4⟩ := two_rows ht
    obtain ⟨x, y, hx, hy, hlt⟩ := key (single r) (List.mem_map_of_mem hr) (single q) (List.mem_map_of_mem hq) 0 1
      e1 e3 ⟨by decide, by decide, rfl⟩ (by decide)
    have hx' : x = rnd32 100 := by
      rw [← e5]
      simpa [single, e2] using hx.symm
    have hy' : y = rnd32 100 := by simpa [single, e4] using hy.symm
    rw [hx', hy'] at hlt
    exact lt_irrefl _ hlt
  · intro n m hnm hne
    fin_cases n <;> fin_cases m
    · exact absurd rfl hne
    · exact ⟨_, _, rfl, rfl, rnd64_nearest.mem _, hd, by decide +kernel⟩
    · exact absurd hnm (by decide +kernel)
    · exact absurd rfl hne

-- tops 9 and 17/2 of cells 1 and 2 of the grid of C78: they stay apart
example : ∃ o' tbl, o4.reachData 10 10 G4 none true = .ok (o', tbl) ∧
    ∀ r ∈ tbl.map single, ∀ q ∈ tbl.map single, r.node = 1 → q.node = 2 →
      ∃ x y, r.strtop = some x ∧ q.strtop = some y ∧ y < x := by
  obtain ⟨⟨o', tbl⟩, h, _⟩ := Res.map_eq_ok.1 o4_table
  refine ⟨o', tbl, h, fun r hr q hq hn hm => ?_⟩
  obtain ⟨x, y, hx, hy, _, hlt⟩ := C150_tops_partial (by norm_num) o4_sound h hr hq (n := 1) (m := 2) hn hm
    (a := 9) (b := 17 / 2) (by decide +kernel) (by decide +kernel) (by norm_num)
  have e9 : rnd32 9 = 9 := by decide +kernel
  have e8 : rnd32 (17 / 2) = 17 / 2 := by decide +kernel
  exact ⟨x, y, hx, hy, hlt ⟨17 / 2, e8 ▸ rnd32_nearest.mem _, 9, e9 ▸ rnd32_nearest.mem _, le_rfl, by norm_num, le_rfl⟩⟩

end Dany.Rdata
